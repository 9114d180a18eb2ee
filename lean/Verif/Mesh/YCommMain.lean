/-
C52: the communicators along X and Y.
-/
import Verif.Mesh.YCommProps

namespace Verif.Mesh

open Verif

/-- The collectives of the inner loop. -/
def scriptInner (c : Cfg) (a b k d e : Int) (t : Nat) : List Ev :=
  (List.range t).flatMap fun i => scriptInnerAt c a b k d e i

/-- The collectives of the middle region at X position `i`. -/
def scriptMiddleAt (c : Cfg) (a b k d e : Int) (i : Nat) : List Ev :=
  if (seps c).inner = (seps c).outer then
    (if a = 0 then [] else [Ev.dup (commOf c a b k d e .lowerPF i)]) ++
    ((if c.jyseps2_1 = c.jyseps1_2 then [] else [Ev.dup (commOf c a b k d e .upperPF i)]) ++
     [Ev.dup (commOf c a b k d e (coreK c) i)])
  else if (seps c).upper > (seps c).lower then [Ev.create (ranksOf c a b k d e i .midLower)]
  else [Ev.create (ranksOf c a b k d e i .midUpper)]

/-- See `scriptMiddleAt`. -/
def scriptMiddle (c : Cfg) (a b k d e : Int) (t : Nat) : List Ev :=
  (List.range t).flatMap fun i => scriptMiddleAt c a b k d e i

/-- All collectives of the run, in one order that suits every rank. -/
def script (c : Cfg) (a b k d e : Int) : List Ev :=
  scriptX c c.NYPE.toNat ++ (scriptOuter c a b k d e c.NXPE.toNat ++ (scriptInner c a b k d e c.NXPE.toNat ++
    scriptMiddle c a b k d e c.NXPE.toNat))

theorem flatMap_at {α : Type} (n p : Nat) (hp : p < n) (f : Nat → List α) (h : ∀ i, i < n → i ≠ p → f i = []) :
    (List.range n).flatMap f = f p := by
  obtain ⟨m, rfl⟩ : ∃ m, n = p + 1 + m := ⟨n - (p + 1), by omega⟩
  have nil1 : ∀ q, q ≤ p → (List.range q).flatMap f = [] := by
    intro q hq
    apply List.flatMap_eq_nil_iff.mpr
    intro i hi
    rw [List.mem_range] at hi
    exact h i (by omega) (by omega)
  rw [List.range_add, List.flatMap_append, List.range_succ, List.flatMap_append, nil1 p (Nat.le_refl _)]
  have nil2 : List.flatMap f (List.map (fun x => p + 1 + x) (List.range m)) = [] := by
    apply List.flatMap_eq_nil_iff.mpr
    intro i hi
    simp only [List.mem_map, List.mem_range] at hi
    obtain ⟨j, hj, rfl⟩ := hi
    exact h _ (by omega) (by omega)
  rw [nil2]
  simp

section
variable {c : Cfg} (h : Layout c) {a b k d e : Int} (hc : Cuts c a b k d e)
variable {px py : Int} (x0 : 0 ≤ px) (x1 : px < c.NXPE) (y0 : 0 ≤ py) (y1 : py < c.NYPE)
include h hc x0 x1 y0 y1

theorem inner_loop (h21 : c.jyseps1_1 ≤ c.jyseps2_1) (h12 : c.jyseps1_2 ≤ c.jyseps2_2) (s : CSt)
    (hn : s.n = c.NYPE.toNat + nOuter c * c.NXPE.toNat) :
    ∃ s', forInts c.NXPE (createInner c px py) s = .ok s' ∧
      s'.n = c.NYPE.toNat + nOuter c * c.NXPE.toNat + nInner c a * c.NXPE.toNat ∧
      s'.evs = s.evs ++ (scriptInner c a b k d e c.NXPE.toNat).filter (Ev.involves (py * c.NXPE + px)) ∧
      s'.comm_x = s.comm_x ∧ s'.comm_outer = s.comm_outer ∧
      s'.comm_inner = some (commOf c a b k d e (inK c a b d e py) px.toNat) ∧
      ((seps c).inner ≠ (seps c).outer → (inK c a b d e py = .lowerPF ∧ (seps c).lower = (seps c).outer ∨
            inK c a b d e py = .upperPF ∧ (seps c).upper = (seps c).outer) →
          s'.comm_middle = some (commOf c a b k d e (inK c a b d e py) px.toNat)) := by
  obtain ⟨s', e1, i1, i2, i3, i4, i5⟩ := forInts_inv c.NXPE (createInner c px py)
    (fun t r => r.n = c.NYPE.toNat + nOuter c * c.NXPE.toNat + nInner c a * t ∧
      r.evs = s.evs ++ (scriptInner c a b k d e t).filter (Ev.involves (py * c.NXPE + px)) ∧
      r.comm_x = s.comm_x ∧ r.comm_outer = s.comm_outer ∧
      (px < t → r.comm_inner = some (commOf c a b k d e (inK c a b d e py) px.toNat) ∧
      ((seps c).inner ≠ (seps c).outer → (inK c a b d e py = .lowerPF ∧ (seps c).lower = (seps c).outer ∨
            inK c a b d e py = .upperPF ∧ (seps c).upper = (seps c).outer) →
          r.comm_middle = some (commOf c a b k d e (inK c a b d e py) px.toNat)))) s
    ⟨by rw [hn]; rfl, by simp [scriptInner], rfl, rfl, fun hh => by omega⟩ (by
      rintro t ht r ⟨r1, r2, r3, r4, r5⟩
      obtain ⟨s', e0, f1, f2, f3, f4, f5, f6⟩ := inner_step h hc x0 x1 y0 y1 h21 h12 t ht r r1
      refine ⟨s', e0, ?_, ?_, f3.trans r3, f4.trans r4, ?_⟩
      · rw [f1, r1, Nat.mul_succ]; omega
      · rw [f2, r2]
        simp only [scriptInner, List.range_succ, List.flatMap_append, List.flatMap_cons, List.flatMap_nil,
          List.append_nil, List.filter_append, List.append_assoc]
      · intro hp
        by_cases hq : (t : Int) = px
        · have := f6 hq
          have e2 : px.toNat = t := by omega
          rw [e2]
          exact this
        · obtain ⟨g1, g2⟩ := f5 hq
          rw [g1, g2]
          exact r5 (by omega))
  exact ⟨s', e1, i1, i2, i3, i4, i5 (by omega)⟩

omit h hc x0 x1 y0 y1 in
theorem filter_creates (r : Int) (l : List Ev) (hl : ∀ v ∈ l, ∃ g, v = Ev.create g) : l.filter (Ev.involves r) = l := by
  apply List.filter_eq_self.mpr
  intro v hv
  obtain ⟨g, rfl⟩ := hl v hv
  rfl

theorem inK_mem : py ∈ surf c a b k d e (inK c a b d e py) := by
  have hci := core_iff h hc x0 x1 y0 y1
  by_cases hK : inK c a b d e py = coreK c
  · rw [hK]; exact hci.mpr hK
  · by_cases hl : py < a ∨ e ≤ py
    · have : inK c a b d e py = .lowerPF := by unfold inK; rw [if_pos hl]
      rw [this]; simp only [surf, List.mem_append, mem_ivl]; omega
    · by_cases hu : ¬ c.jyseps2_1 = c.jyseps1_2 ∧ b ≤ py ∧ py < d
      · have : inK c a b d e py = .upperPF := by unfold inK; rw [if_neg hl, if_pos hu]
        rw [this]; simp only [surf, List.mem_append, mem_ivl]; omega
      · exact absurd (by unfold inK; rw [if_neg hl, if_neg hu]) hK

/-- In the balanced case a rank duplicates exactly the communicator of its inner surface. -/
theorem dup_filter (hio : (seps c).inner = (seps c).outer) :
    (scriptMiddle c a b k d e c.NXPE.toNat).filter (Ev.involves (py * c.NXPE + px)) =
      [Ev.dup (commOf c a b k d e (inK c a b d e py) px.toNat)] := by
  have := hc.a0; have := hc.ae; have := hc.eN; have := hc.legs
  have hmem : ∀ (K : Kind) (i : Nat), (i : Int) < c.NXPE →
      (Ev.involves (py * c.NXPE + px) (Ev.dup (commOf c a b k d e K i)) = true ↔ (i : Int) = px ∧ py ∈ surf c a b k d e K) := by
    intro K i hi
    have := mem_ranksOf h (a := a) (b := b) (k := k) (d := d) (e := e) x0 x1 (py := py) (K := K) (i := (i:Int)) (by omega) hi
    rw [← this]
    exact decide_eq_true_iff
  unfold scriptMiddle
  rw [List.filter_flatMap]
  have tn : (px.toNat : Int) = px := by omega
  rw [flatMap_at c.NXPE.toNat px.toNat (by omega)]
  · unfold scriptMiddleAt
    rw [if_pos hio, List.filter_append, List.filter_append]
    have hlt : (px.toNat : Int) < c.NXPE := by omega
    have single : ∀ K, ([Ev.dup (commOf c a b k d e K px.toNat)]).filter (Ev.involves (py * c.NXPE + px)) =
        if py ∈ surf c a b k d e K then [Ev.dup (commOf c a b k d e K px.toNat)] else [] := by
      intro K
      by_cases hK : py ∈ surf c a b k d e K
      · rw [if_pos hK, List.filter_cons, if_pos ((hmem K _ hlt).mpr ⟨tn, hK⟩)]; rfl
      · rw [if_neg hK, List.filter_cons, if_neg (fun hh => hK ((hmem K _ hlt).mp hh).2)]; rfl
    have iflist : ∀ (P : Prop) [Decidable P] (K : Kind), (if P then [] else [Ev.dup (commOf c a b k d e K px.toNat)]).filter (Ev.involves (py * c.NXPE + px)) =
        if ¬ P ∧ py ∈ surf c a b k d e K then [Ev.dup (commOf c a b k d e K px.toNat)] else [] := by
      intro P _ K
      by_cases hP : P
      · rw [if_pos hP, if_neg (fun hh => hh.1 hP)]; rfl
      · rw [if_neg hP, single]
        simp only [hP, not_false_eq_true, true_and]
    rw [iflist, iflist, single]
    have hci := core_iff h hc x0 x1 y0 y1
    have lpf : py ∈ surf c a b k d e .lowerPF ↔ (py < a ∨ e ≤ py) := by
      simp only [surf, List.mem_append, mem_ivl]; omega
    by_cases hl : py < a ∨ e ≤ py
    · have hK : inK c a b d e py = .lowerPF := by unfold inK; rw [if_pos hl]
      have n1 : ¬ py ∈ surf c a b k d e (coreK c) := by
        rw [hci, hK]; unfold coreK; split <;> exact fun hh => Kind.noConfusion hh
      have n2 : ¬ (¬ c.jyseps2_1 = c.jyseps1_2 ∧ py ∈ surf c a b k d e .upperPF) := by
        rintro ⟨dn, h2⟩
        have := hc.ab dn; have := hc.bk dn; have := hc.kd dn; have := hc.de dn
        simp only [surf, List.mem_append, mem_ivl] at h2
        omega
      rw [if_pos ⟨by omega, lpf.mpr hl⟩, if_neg n2, if_neg n1, hK]; rfl
    · have n0 : ¬ (¬ a = 0 ∧ py ∈ surf c a b k d e .lowerPF) := fun hh => hl (lpf.mp hh.2)
      rw [if_neg n0]
      by_cases hu : ¬ c.jyseps2_1 = c.jyseps1_2 ∧ b ≤ py ∧ py < d
      · have hK : inK c a b d e py = .upperPF := by unfold inK; rw [if_neg hl, if_pos hu]
        have n1 : ¬ py ∈ surf c a b k d e (coreK c) := by
          rw [hci, hK]; unfold coreK; split <;> exact fun hh => Kind.noConfusion hh
        have u : py ∈ surf c a b k d e .upperPF := by
          simp only [surf, List.mem_append, mem_ivl]; omega
        rw [if_pos ⟨hu.1, u⟩, if_neg n1, hK]; rfl
      · have hK : inK c a b d e py = coreK c := by unfold inK; rw [if_neg hl, if_neg hu]
        have n2 : ¬ (¬ c.jyseps2_1 = c.jyseps1_2 ∧ py ∈ surf c a b k d e .upperPF) := by
          rintro ⟨dn, h2⟩
          have := hc.ab dn; have := hc.bk dn; have := hc.kd dn; have := hc.de dn
          simp only [surf, List.mem_append, mem_ivl] at h2
          exact hu ⟨dn, by omega⟩
        rw [if_neg n2, if_pos (hci.mpr hK), hK]; rfl
  · intro i hi hne
    apply List.filter_eq_nil_iff.mpr
    intro v hv hiv
    have hlt : (i : Int) < c.NXPE := by omega
    unfold scriptMiddleAt at hv
    rw [if_pos hio] at hv
    have : ∃ K, v = Ev.dup (commOf c a b k d e K i) := by
      simp only [List.mem_append] at hv
      rcases hv with hv | hv | hv
      · split at hv
        · simp at hv
        · exact ⟨_, List.mem_singleton.mp hv⟩
      · split at hv
        · simp at hv
        · exact ⟨_, List.mem_singleton.mp hv⟩
      · exact ⟨_, List.mem_singleton.mp hv⟩
    obtain ⟨K, rfl⟩ := this
    have := ((hmem K i hlt).mp hiv).1
    omega

/-- The surface between the separatrices. -/
def midK (c : Cfg) (a b d e py : Int) : Kind :=
  if (seps c).upper > (seps c).lower then if b ≤ py ∧ py < d then .upperPF else .midLower
  else if py < a ∨ e ≤ py then .lowerPF else .midUpper

theorem middle_eq (s : CSt) (hn : s.n = c.NYPE.toNat + nOuter c * c.NXPE.toNat + nInner c a * c.NXPE.toNat)
    (hin : s.comm_inner = some (commOf c a b k d e (inK c a b d e py) px.toNat))
    (hmid : (seps c).inner ≠ (seps c).outer → (inK c a b d e py = .lowerPF ∧ (seps c).lower = (seps c).outer ∨
            inK c a b d e py = .upperPF ∧ (seps c).upper = (seps c).outer) →
          s.comm_middle = some (commOf c a b k d e (inK c a b d e py) px.toNat)) :
    ∃ s', createMiddle c px py s = .ok s' ∧
      s'.evs = s.evs ++ (scriptMiddle c a b k d e c.NXPE.toNat).filter (Ev.involves (py * c.NXPE + px)) ∧
      s'.comm_x = s.comm_x ∧ s'.comm_outer = s.comm_outer ∧ s'.comm_inner = s.comm_inner ∧
      ((seps c).inner ≠ (seps c).outer → s'.comm_middle = some (commOf c a b k d e (midK c a b d e py) px.toNat)) := by
  unfold createMiddle
  by_cases hio : (seps c).inner = (seps c).outer
  · rw [if_pos hio, hin]
    simp only [commDup, bind, Except.bind, pure, Except.pure]
    refine ⟨_, rfl, ?_, rfl, rfl, hin, fun hh => absurd hio hh⟩
    rw [dup_filter h hc x0 x1 y0 y1 hio]
  · rw [if_neg hio]
    have hmid := hmid hio
    have dn : DoubleNull c := by
      intro hh
      apply hio
      unfold seps
      rw [if_pos hh]
    have := hc.a0; have := hc.ab dn; have := hc.bk dn; have := hc.kd dn; have := hc.de dn; have := hc.eN
    have hsep : (seps c).upper > (seps c).lower ∧ (seps c).upper = (seps c).outer ∨
        ¬ (seps c).upper > (seps c).lower ∧ (seps c).lower = (seps c).outer := by
      unfold seps at hio ⊢
      have dn' : ¬ c.jyseps2_1 = c.jyseps1_2 := dn
      rw [if_neg dn'] at hio ⊢
      by_cases h1 : c.ixseps1 = c.ixseps2
      · rw [if_pos h1] at hio; exact absurd rfl hio
      · rw [if_neg h1]
        by_cases h2 : c.ixseps1 < c.ixseps2
        · rw [if_pos h2]; exact Or.inl ⟨h2, rfl⟩
        · rw [if_neg h2]; exact Or.inr ⟨by simp only; omega, rfl⟩
    rcases hsep with ⟨hul, huo⟩ | ⟨hul, hlo⟩
    · rw [if_pos hul]
      have hkm : midK c a b d e py = if b ≤ py ∧ py < d then .upperPF else .midLower := by
        unfold midK; rw [if_pos hul]
      obtain ⟨s', e1, i1, i2, i3, i4, i5, i6⟩ := forInts_inv c.NXPE (createMiddleLower c px py)
        (fun t r => r.n = s.n + t ∧ r.evs = s.evs ++ scriptMiddle c a b k d e t ∧ r.comm_x = s.comm_x ∧
          r.comm_outer = s.comm_outer ∧ r.comm_inner = s.comm_inner ∧
          r.comm_middle = if px < t ∧ ¬ (b ≤ py ∧ py < d) then some (commOf c a b k d e .midLower px.toNat) else s.comm_middle)
        s ⟨rfl, by simp [scriptMiddle], rfl, rfl, rfl, by rw [if_neg (by omega)]⟩ (by
          rintro t ht r ⟨r1, r2, r3, r4, r5, r6⟩
          have hg1 := grp h hc (i := (t:Int)) (lo := 0) (hi := b) (by omega) ht (Int.le_refl 0) (by omega) (by omega) rfl
          have hg2 := grp h hc (i := (t:Int)) (lo := d) (hi := c.NYPE) (by omega) ht (by omega) (by omega) (Int.le_refl _) rfl
          have hev : scriptMiddle c a b k d e (t+1) = scriptMiddle c a b k d e t ++ [Ev.create (ranksOf c a b k d e t .midLower)] := by
            simp only [scriptMiddle, List.range_succ, List.flatMap_append, List.flatMap_cons, List.flatMap_nil, List.append_nil]
            congr 1
            unfold scriptMiddleAt
            rw [if_neg hio, if_pos hul]
          unfold createMiddleLower
          rw [yp_b1 h hc dn, yp_d h hc dn, hg1, hg2, procnum_in h.sizes x0 x1 y0 y1]
          have U := ranks_union h hc (i := (t:Int)) .midLower (by intro q; simp only [runs]; omega)
          simp only [runs] at U
          simp only [bind, Except.bind, pure, Except.pure]
          rw [U]
          have hm := mem_ranksOf h (a := a) (b := b) (k := k) (d := d) (e := e) x0 x1 (py := py) (K := .midLower) (i := (t:Int)) (by omega) ht
          have hs : py ∈ surf c a b k d e .midLower ↔ ¬ (b ≤ py ∧ py < d) := by
            simp only [surf, List.mem_append, mem_ivl]; omega
          by_cases hp : (t:Int) = px ∧ py ∈ surf c a b k d e .midLower
          · rw [create_in (hm.mpr hp)]
            refine ⟨_, rfl, ?_, ?_, r3, r4, r5, ?_⟩
            · simp only [setMiddle, CSt.made]; omega
            · simp only [setMiddle, CSt.made]; rw [r2, hev, List.append_assoc]
            · simp only [setMiddle, CSt.made]
              rw [if_pos ⟨by omega, hs.mp hp.2⟩, r1, hn]
              have : px.toNat = t := by omega
              rw [this]; rfl
          · rw [create_out (fun hh => hp (hm.mp hh))]
            refine ⟨_, rfl, ?_, ?_, r3, r4, r5, ?_⟩
            · simp only [setMiddle, CSt.made]; omega
            · simp only [setMiddle, CSt.made]; rw [r2, hev, List.append_assoc]
            · simp only [setMiddle, CSt.made]
              rw [r6]
              rw [hs] at hp
              by_cases hq : b ≤ py ∧ py < d
              · rw [if_neg (fun hh => hh.2 hq), if_neg (fun hh => hh.2 hq)]
              · have : (t : Int) ≠ px := fun hh => hp ⟨hh, hq⟩
                by_cases hl : px < (t:Int)
                · rw [if_pos ⟨hl, hq⟩, if_pos ⟨by omega, hq⟩]
                · rw [if_neg (fun hh => hl hh.1), if_neg (fun hh => by have := hh.1; omega)])
      refine ⟨s', e1, ?_, i3, i4, i5, fun _ => ?_⟩
      · rw [i2, filter_creates]
        intro v hv
        simp only [scriptMiddle, List.mem_flatMap] at hv
        obtain ⟨i, _, hv⟩ := hv
        unfold scriptMiddleAt at hv
        rw [if_neg hio, if_pos hul] at hv
        exact ⟨_, List.mem_singleton.mp hv⟩
      · rw [i6, hkm]
        by_cases hq : b ≤ py ∧ py < d
        · rw [if_neg (fun hh => hh.2 hq), if_pos hq]
          have hK : inK c a b d e py = .upperPF := by
            unfold inK; rw [if_neg (by omega), if_pos ⟨dn, hq⟩]
          rw [hmid (Or.inr ⟨hK, huo⟩), hK]
        · rw [if_pos ⟨by omega, hq⟩, if_neg hq]
    · rw [if_neg hul]
      have hkm : midK c a b d e py = if py < a ∨ e ≤ py then .lowerPF else .midUpper := by
        unfold midK; rw [if_neg hul]
      obtain ⟨s', e1, i1, i2, i3, i4, i5, i6⟩ := forInts_inv c.NXPE (createMiddleUpper c px py)
        (fun t r => r.n = s.n + t ∧ r.evs = s.evs ++ scriptMiddle c a b k d e t ∧ r.comm_x = s.comm_x ∧
          r.comm_outer = s.comm_outer ∧ r.comm_inner = s.comm_inner ∧
          r.comm_middle = if px < t ∧ ¬ (py < a ∨ e ≤ py) then some (commOf c a b k d e .midUpper px.toNat) else s.comm_middle)
        s ⟨rfl, by simp [scriptMiddle], rfl, rfl, rfl, by rw [if_neg (by omega)]⟩ (by
          rintro t ht r ⟨r1, r2, r3, r4, r5, r6⟩
          have hg1 := grp h hc (i := (t:Int)) (lo := k) (hi := e) (by omega) ht (by omega) (by omega) (by omega) rfl
          have hg2 := grp h hc (i := (t:Int)) (lo := a) (hi := k) (by omega) ht (by omega) (by omega) (by omega) rfl
          have hev : scriptMiddle c a b k d e (t+1) = scriptMiddle c a b k d e t ++ [Ev.create (ranksOf c a b k d e t .midUpper)] := by
            simp only [scriptMiddle, List.range_succ, List.flatMap_append, List.flatMap_cons, List.flatMap_nil, List.append_nil]
            congr 1
            unfold scriptMiddleAt
            rw [if_neg hio, if_neg hul]
          unfold createMiddleUpper
          rw [yp_k h hc dn, yp_e1 h hc, yp_a h hc (by omega), yp_k1 h hc dn, hg1, hg2, procnum_in h.sizes x0 x1 y0 y1]
          have U := ranks_union h hc (i := (t:Int)) .midUpper (by intro q; simp only [runs]; omega)
          simp only [runs] at U
          simp only [bind, Except.bind, pure, Except.pure]
          rw [U]
          have hm := mem_ranksOf h (a := a) (b := b) (k := k) (d := d) (e := e) x0 x1 (py := py) (K := .midUpper) (i := (t:Int)) (by omega) ht
          have hs : py ∈ surf c a b k d e .midUpper ↔ ¬ (py < a ∨ e ≤ py) := by
            simp only [surf, List.mem_append, mem_ivl]; omega
          by_cases hp : (t:Int) = px ∧ py ∈ surf c a b k d e .midUpper
          · rw [create_in (hm.mpr hp)]
            refine ⟨_, rfl, ?_, ?_, r3, r4, r5, ?_⟩
            · simp only [setMiddle, CSt.made]; omega
            · simp only [setMiddle, CSt.made]; rw [r2, hev, List.append_assoc]
            · simp only [setMiddle, CSt.made]
              rw [if_pos ⟨by omega, hs.mp hp.2⟩, r1, hn]
              have : px.toNat = t := by omega
              rw [this]; rfl
          · rw [create_out (fun hh => hp (hm.mp hh))]
            refine ⟨_, rfl, ?_, ?_, r3, r4, r5, ?_⟩
            · simp only [setMiddle, CSt.made]; omega
            · simp only [setMiddle, CSt.made]; rw [r2, hev, List.append_assoc]
            · simp only [setMiddle, CSt.made]
              rw [r6]
              rw [hs] at hp
              by_cases hq : py < a ∨ e ≤ py
              · rw [if_neg (fun hh => hh.2 hq), if_neg (fun hh => hh.2 hq)]
              · have : (t : Int) ≠ px := fun hh => hp ⟨hh, hq⟩
                by_cases hl : px < (t:Int)
                · rw [if_pos ⟨hl, hq⟩, if_pos ⟨by omega, hq⟩]
                · rw [if_neg (fun hh => hl hh.1), if_neg (fun hh => by have := hh.1; omega)])
      refine ⟨s', e1, ?_, i3, i4, i5, fun _ => ?_⟩
      · rw [i2, filter_creates]
        intro v hv
        simp only [scriptMiddle, List.mem_flatMap] at hv
        obtain ⟨i, _, hv⟩ := hv
        unfold scriptMiddleAt at hv
        rw [if_neg hio, if_neg hul] at hv
        exact ⟨_, List.mem_singleton.mp hv⟩
      · rw [i6, hkm]
        by_cases hq : py < a ∨ e ≤ py
        · rw [if_neg (fun hh => hh.2 hq), if_pos hq]
          have hK : inK c a b d e py = .lowerPF := by unfold inK; rw [if_pos hq]
          rw [hmid (Or.inl ⟨hK, hlo⟩), hK]
        · rw [if_pos ⟨by omega, hq⟩, if_neg hq]

/-- Which communicator belongs to which radial region. -/
theorem kind_region (x : Int) : kind c a b k d e x py =
    if x < (seps c).inner then inK c a b d e py
    else if x < (seps c).outer then midK c a b d e py else outK c k py := by
  have := hc.a0; have := hc.ae; have := hc.eN
  by_cases sn : c.jyseps2_1 = c.jyseps1_2
  · have e1 : (seps c).inner = c.ixseps1 ∧ (seps c).outer = c.ixseps1 := by unfold seps; rw [if_pos sn]; exact ⟨rfl, rfl⟩
    rw [e1.1, e1.2]
    unfold kind inK outK coreK
    rw [if_pos sn, if_pos sn.symm]
    by_cases hx : x < c.ixseps1
    · rw [if_pos hx, if_pos hx]
      by_cases hl : py < a ∨ e ≤ py
      · rw [if_pos hl, if_pos hl]
      · rw [if_neg hl, if_neg hl, if_neg (fun hh => hh.1 sn), if_pos sn]
    · rw [if_neg hx, if_neg hx, if_neg hx]
  · have := hc.ab sn; have := hc.bk sn; have := hc.kd sn; have := hc.de sn
    have sn' : ¬ c.jyseps1_2 = c.jyseps2_1 := fun hh => sn hh.symm
    by_cases h1 : c.ixseps1 = c.ixseps2
    · have es : seps c = ⟨c.ixseps1, c.ixseps1, c.ixseps1, c.ixseps1⟩ := by unfold seps; rw [if_neg sn, if_pos h1]
      rw [es]
      unfold kind inK midK outK coreK
      simp only [es, if_neg sn, if_neg sn', ← h1, sn, not_false_eq_true, true_and, and_self]
      by_cases hx : x < c.ixseps1
      · simp only [hx, true_and, if_true]
        rfl
      · simp only [hx, false_and, if_false]
    · by_cases h2 : c.ixseps1 < c.ixseps2
      · have es : seps c = ⟨c.ixseps1, c.ixseps1, c.ixseps2, c.ixseps2⟩ ∨ True := Or.inr trivial
        have ei : (seps c).inner = c.ixseps1 ∧ (seps c).outer = c.ixseps2 ∧ (seps c).upper = c.ixseps2 ∧ (seps c).lower = c.ixseps1 := by
          unfold seps; rw [if_neg sn, if_neg h1, if_pos h2]; exact ⟨rfl, rfl, rfl, rfl⟩
        obtain ⟨ei, eo, eu, el⟩ := ei
        unfold kind inK midK outK coreK
        rw [ei, eo, eu, el]
        simp only [if_neg sn, if_neg sn', sn, not_false_eq_true, true_and, gt_iff_lt, if_pos h2]
        by_cases hx : x < c.ixseps1
        · have hx2 : x < c.ixseps2 := by omega
          simp only [hx, hx2, true_and, if_true]
          rfl
        · by_cases hx2 : x < c.ixseps2
          · simp only [hx, hx2, true_and, false_and, if_true, if_false]
          · simp only [hx, hx2, false_and, if_false]
      · have ei : (seps c).inner = c.ixseps2 ∧ (seps c).outer = c.ixseps1 ∧ (seps c).upper = c.ixseps2 ∧ (seps c).lower = c.ixseps1 := by
          unfold seps; rw [if_neg sn, if_neg h1, if_neg h2]; exact ⟨rfl, rfl, rfl, rfl⟩
        obtain ⟨ei, eo, eu, el⟩ := ei
        unfold kind inK midK outK coreK
        rw [ei, eo, eu, el]
        simp only [if_neg sn, if_neg sn', sn, not_false_eq_true, true_and, gt_iff_lt, if_neg h2]
        by_cases hx : x < c.ixseps2
        · have hx2 : x < c.ixseps1 := by omega
          simp only [hx, hx2, true_and, if_true]
          rfl
        · by_cases hx2 : x < c.ixseps1
          · simp only [hx, hx2, true_and, false_and, if_true, if_false, and_false]
          · simp only [hx, hx2, false_and, if_false]

/-- Everything `createCommunicators` does on one rank. -/
theorem create_eq (h21 : c.jyseps1_1 ≤ c.jyseps2_1) (h12 : c.jyseps1_2 ≤ c.jyseps2_2) :
    ∃ s, createCommunicators c px py = .ok s ∧
      s.comm_x = some ⟨py.toNat, false, rowOf c py⟩ ∧
      (∀ jx, getYcomm c px s jx = some (commOf c a b k d e (kind c a b k d e (c.getGlobalXIndex px jx) py) px.toNat)) ∧
      s.evs = (script c a b k d e).filter (Ev.involves (py * c.NXPE + px)) := by
  unfold createCommunicators
  rw [createX_loop h.sizes x0 x1 y0 y1]
  simp only [bind, Except.bind]
  rw [createOuter_eq h hc x0 x1 y0 y1]
  simp only []
  obtain ⟨s2, e2, n2, v2, cx2, co2, ci2, cm2⟩ := inner_loop h hc x0 x1 y0 y1 h21 h12
    ⟨c.NYPE.toNat + nOuter c * c.NXPE.toNat, scriptX c c.NYPE.toNat ++ scriptOuter c a b k d e c.NXPE.toNat,
      some ⟨py.toNat, false, rowOf c py⟩, none, none, some (commOf c a b k d e (outK c k py) px.toNat)⟩ rfl
  rw [e2]
  simp only []
  obtain ⟨s3, e3, v3, cx3, co3, ci3, cm3⟩ := middle_eq h hc x0 x1 y0 y1 s2 n2 ci2 cm2
  refine ⟨s3, e3, ?_, ?_, ?_⟩
  · rw [cx3, cx2]
  · intro jx
    unfold getYcomm
    rw [kind_region h hc x0 x1 y0 y1]
    by_cases h1 : c.getGlobalXIndex px jx < (seps c).inner
    · rw [if_pos h1, if_pos h1, ci3, ci2]
    · rw [if_neg h1, if_neg h1]
      by_cases h2 : c.getGlobalXIndex px jx < (seps c).outer
      · rw [if_pos h2, if_pos h2]
        exact cm3 (by omega)
      · rw [if_neg h2, if_neg h2, co3, co2]
  · rw [v3, v2]
    unfold script
    rw [List.filter_append, List.filter_append, List.filter_append]
    rw [filter_creates _ (scriptX c c.NYPE.toNat), filter_creates _ (scriptOuter c a b k d e c.NXPE.toNat)]
    · simp only [List.append_assoc]
    · intro v hv
      simp only [scriptOuter, List.mem_flatMap] at hv
      obtain ⟨i, _, hv⟩ := hv
      split at hv
      · exact ⟨_, List.mem_singleton.mp hv⟩
      · simp only [List.mem_cons, List.not_mem_nil, or_false] at hv
        rcases hv with rfl | rfl <;> exact ⟨_, rfl⟩
    · intro v hv
      simp only [scriptX, List.mem_map] at hv
      obtain ⟨i, _, rfl⟩ := hv
      exact ⟨_, rfl⟩

end

end Verif.Mesh
