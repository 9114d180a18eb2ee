/-
C52: the communicators along X and Y, their order, and the collective calls that create them.
-/
import Verif.Mesh.YCommSpec

namespace Verif.Mesh

open Verif

/-- The ranks at X position `i` with Y positions `lo … hi-1`. -/
def blk (c : Cfg) (i lo hi : Int) : List Int := (ivl lo hi).map fun q => q * c.NXPE + i

section
variable {c : Cfg} (hs : Sizes c)
include hs

theorem procnum_in {i q : Int} (i0 : 0 ≤ i) (i1 : i < c.NXPE) (q0 : 0 ≤ q) (q1 : q < c.NYPE) :
    c.PROC_NUM i q = q * c.NXPE + i := by
  unfold Cfg.PROC_NUM
  rw [if_neg (by omega), if_neg (by omega)]

theorem rank_lt {i q : Int} (i0 : 0 ≤ i) (i1 : i < c.NXPE) (q0 : 0 ≤ q) (q1 : q < c.NYPE) :
    0 ≤ q * c.NXPE + i ∧ q * c.NXPE + i < c.NXPE * c.NYPE := by
  have h1 := Int.mul_nonneg q0 (show 0 ≤ c.NXPE by omega)
  have h2 := Int.mul_le_mul_of_nonneg_right (show q + 1 ≤ c.NYPE by omega) (show 0 ≤ c.NXPE by omega)
  rw [Int.add_mul, Int.one_mul, Int.mul_comm c.NYPE] at h2
  omega

theorem rank_inj {i q i' q' : Int} (i0 : 0 ≤ i) (i1 : i < c.NXPE) (j0 : 0 ≤ i') (j1 : i' < c.NXPE)
    (h : q * c.NXPE + i = q' * c.NXPE + i') : q = q' ∧ i = i' := by
  have e1 : (q - q') * c.NXPE = i' - i := by rw [Int.sub_mul]; omega
  have hlt : (q - q') * c.NXPE < 1 * c.NXPE := by omega
  have hgt : (-1) * c.NXPE < (q - q') * c.NXPE := by omega
  have := mul_lt_imp hs.nxpe hlt
  have := mul_lt_imp hs.nxpe hgt
  have : q = q' := by omega
  subst this
  exact ⟨rfl, by omega⟩

theorem yGroup_ok {i lo hi : Int} (i0 : 0 ≤ i) (i1 : i < c.NXPE) (l0 : 0 ≤ lo) (lh : lo ≤ hi) (h1 : hi < c.NYPE) :
    yGroup c i lo hi = .ok (blk c i lo (hi + 1)) := by
  have r1 := rank_lt hs i0 i1 l0 (show lo < c.NYPE by omega)
  have r2 := rank_lt hs i0 i1 (show 0 ≤ hi by omega) h1
  unfold yGroup rangeIncl
  rw [procnum_in hs i0 i1 l0 (by omega), procnum_in hs i0 i1 (by omega) h1]
  have hle := Int.mul_le_mul_of_nonneg_right lh (show 0 ≤ c.NXPE by omega)
  rw [if_neg (by have := hs.nxpe; omega)]
  congr 1
  have e1 : (hi * c.NXPE + i - (lo * c.NXPE + i)) / c.NXPE = hi - lo := by
    rw [show hi * c.NXPE + i - (lo * c.NXPE + i) = (hi - lo) * c.NXPE by rw [Int.sub_mul]; omega]
    exact Int.mul_ediv_cancel _ (by have := hs.nxpe; omega)
  rw [e1]
  unfold blk ivl
  rw [List.map_map, show hi + 1 - lo = hi - lo + 1 by omega]
  apply List.map_congr_left
  intro t _
  simp only [Function.comp]
  rw [Int.add_mul]; omega

theorem mem_blk {px py i lo hi : Int} (x0 : 0 ≤ px) (x1 : px < c.NXPE) (i0 : 0 ≤ i) (i1 : i < c.NXPE) :
    py * c.NXPE + px ∈ blk c i lo hi ↔ i = px ∧ lo ≤ py ∧ py < hi := by
  unfold blk
  simp only [List.mem_map, mem_ivl]
  constructor
  · rintro ⟨q, hq, e⟩
    obtain ⟨e1, e2⟩ := rank_inj hs i0 i1 x0 x1 e
    subst e1 e2
    exact ⟨rfl, hq⟩
  · rintro ⟨rfl, hq⟩
    exact ⟨py, hq, rfl⟩

end

theorem mem_union {r : Int} {g1 g2 : List Int} : r ∈ groupUnion g1 g2 ↔ r ∈ g1 ∨ r ∈ g2 := by
  unfold groupUnion
  simp only [List.mem_append, List.mem_filter, decide_eq_true_eq]
  constructor
  · rintro (h | h)
    · exact Or.inl h
    · exact Or.inr h.1
  · rintro (h | h)
    · exact Or.inl h
    · by_cases h1 : r ∈ g1
      · exact Or.inl h1
      · exact Or.inr ⟨h, h1⟩

theorem union_disjoint {c : Cfg} (hs : Sizes c) {i l1 h1 l2 h2 : Int}
    (hd : ∀ q, ¬ ((l1 ≤ q ∧ q < h1) ∧ (l2 ≤ q ∧ q < h2))) :
    groupUnion (blk c i l1 h1) (blk c i l2 h2) = (ivl l1 h1 ++ ivl l2 h2).map fun q => q * c.NXPE + i := by
  unfold groupUnion
  rw [List.map_append]
  congr 1
  apply List.filter_eq_self.mpr
  intro r hr
  unfold blk at hr ⊢
  simp only [List.mem_map, mem_ivl, decide_eq_true_eq] at hr ⊢
  rintro ⟨q, hq, e⟩
  obtain ⟨q', hq', e'⟩ := hr
  have : q * c.NXPE = q' * c.NXPE := by omega
  have := Int.eq_of_mul_eq_mul_right (by have := hs.nxpe; omega) this
  subst this
  exact hd q ⟨hq, hq'⟩

/-- Overlapping or touching runs merge into one. -/
theorem union_overlap {c : Cfg} (hs : Sizes c) {i l h1 l2 h2 : Int} (hl : l ≤ l2) (h12 : l2 ≤ h1) (hh : h1 ≤ h2) :
    groupUnion (blk c i l h1) (blk c i l2 h2) = blk c i l h2 := by
  have hsplit : blk c i l h2 = blk c i l h1 ++ blk c i h1 h2 := by
    unfold blk
    rw [← List.map_append]
    congr 1
    unfold ivl
    rw [show (h2 - l).toNat = (h1 - l).toNat + (h2 - h1).toNat by omega, List.range_add, List.map_append, List.map_map]
    congr 1
    apply List.map_congr_left
    intro t _
    simp only [Function.comp]
    push_cast
    omega
  have hsplit2 : blk c i l2 h2 = blk c i l2 h1 ++ blk c i h1 h2 := by
    unfold blk
    rw [← List.map_append]
    congr 1
    unfold ivl
    rw [show (h2 - l2).toNat = (h1 - l2).toNat + (h2 - h1).toNat by omega, List.range_add, List.map_append, List.map_map]
    congr 1
    apply List.map_congr_left
    intro t _
    simp only [Function.comp]
    push_cast
    omega
  have inj : ∀ q q' : Int, q * c.NXPE + i = q' * c.NXPE + i → q = q' := by
    intro q q' e
    have e' : q * c.NXPE = q' * c.NXPE := by omega
    exact Int.eq_of_mul_eq_mul_right (by have := hs.nxpe; omega) e'
  unfold groupUnion
  rw [hsplit, hsplit2, List.filter_append]
  congr 1
  rw [List.filter_eq_nil_iff.mpr, List.nil_append]
  · apply List.filter_eq_self.mpr
    intro r hr
    unfold blk at hr ⊢
    simp only [List.mem_map, mem_ivl, decide_eq_true_eq] at hr ⊢
    rintro ⟨q, hq, e⟩
    obtain ⟨q', hq', e'⟩ := hr
    have := inj q q' (by omega)
    omega
  · intro r hr
    unfold blk at hr ⊢
    simp only [List.mem_map, mem_ivl, decide_eq_true_eq] at hr ⊢
    obtain ⟨q', hq', e'⟩ := hr
    exact fun hn => hn ⟨q', by omega, e'⟩

/-! ### Loops -/

/-- A loop keeps an invariant. -/
theorem forInts_inv (n : Int) (body : CSt → Int → Out CSt) (Inv : Nat → CSt → Prop) (s : CSt) (h0 : Inv 0 s)
    (step : ∀ t : Nat, (t : Int) < n → ∀ s, Inv t s → ∃ s', body s t = .ok s' ∧ Inv (t + 1) s') :
    ∃ s', forInts n body s = .ok s' ∧ Inv n.toNat s' := by
  have key : ∀ m : Nat, m ≤ n.toNat → ∃ s', ((List.range m).map fun t : Nat => (t : Int)).foldlM body s = .ok s' ∧ Inv m s' := by
    intro m
    induction m with
    | zero => intro _; exact ⟨s, rfl, h0⟩
    | succ m ih =>
        intro hm
        obtain ⟨s1, e1, i1⟩ := ih (by omega)
        obtain ⟨s2, e2, i2⟩ := step m (by omega) s1 i1
        refine ⟨s2, ?_, i2⟩
        rw [List.range_succ, List.map_append, List.foldlM_append, e1]
        show List.foldlM body s1 [(m : Int)] = _
        rw [List.foldlM_cons, e2]
        rfl
  exact key n.toNat (Nat.le_refl _)

/-- A rank takes part in a world collective always, in a duplication if it is a member. -/
def Ev.involves (r : Int) : Ev → Bool
  | .create _ => true
  | .dup c => decide (r ∈ c.group)

/-- The state after a creation call whose result is not stored. -/
def CSt.made (s : CSt) (g : List Int) : CSt := { s with n := s.n + 1, evs := s.evs ++ [.create g] }

theorem create_in {r : Int} {g : List Int} (h : r ∈ g) (s : CSt) : commCreate r g s = (some ⟨s.n, false, g⟩, s.made g) := by
  unfold commCreate; rw [if_pos h]; rfl

theorem create_out {r : Int} {g : List Int} (h : r ∉ g) (s : CSt) : commCreate r g s = (none, s.made g) := by
  unfold commCreate; rw [if_neg h]; rfl

/-! ### The X communicator -/

theorem rowGroup {c : Cfg} (hs : Sizes c) (yp : Int) (y0 : 0 ≤ yp) (y1 : yp < c.NYPE) :
    rangeIncl (c.NXPE * c.NYPE) (c.PROC_NUM 0 yp) (c.PROC_NUM (c.NXPE - 1) yp) 1 =
      .ok ((ivl 0 c.NXPE).map fun i => yp * c.NXPE + i) := by
  have hx := hs.nxpe
  have r1 := rank_lt hs (show (0:Int) ≤ 0 by omega) hx y0 y1
  have r2 := rank_lt hs (show 0 ≤ c.NXPE - 1 by omega) (by omega) y0 y1
  unfold rangeIncl
  rw [procnum_in hs (by omega) hx y0 y1, procnum_in hs (by omega) (by omega) y0 y1, if_neg (by omega)]
  congr 1
  rw [show (yp * c.NXPE + (c.NXPE - 1) - (yp * c.NXPE + 0)) / 1 + 1 = c.NXPE by rw [Int.ediv_one]; omega]
  unfold ivl
  rw [List.map_map, Int.sub_zero]
  apply List.map_congr_left
  intro t _
  simp only [Function.comp]
  omega

theorem mem_row {c : Cfg} (hs : Sizes c) {px py yp : Int} (x0 : 0 ≤ px) (x1 : px < c.NXPE) :
    py * c.NXPE + px ∈ ((ivl 0 c.NXPE).map fun i => yp * c.NXPE + i) ↔ yp = py := by
  simp only [List.mem_map, mem_ivl]
  constructor
  · rintro ⟨i, hi, e⟩
    exact (rank_inj hs hi.1 hi.2 x0 x1 e).1
  · rintro rfl; exact ⟨px, ⟨x0, x1⟩, rfl⟩

/-- The row of processors at `yp`. -/
def rowOf (c : Cfg) (yp : Int) : List Int := (ivl 0 c.NXPE).map fun i => yp * c.NXPE + i

/-- The world collectives of the X loop. -/
def scriptX (c : Cfg) (t : Nat) : List Ev := (List.range t).map fun q : Nat => Ev.create (rowOf c q)

theorem createX_loop {c : Cfg} (hs : Sizes c) {px py : Int} (x0 : 0 ≤ px) (x1 : px < c.NXPE) (y0 : 0 ≤ py)
    (y1 : py < c.NYPE) : forInts c.NYPE (createX c px py) CSt.init =
      .ok ⟨c.NYPE.toNat, scriptX c c.NYPE.toNat, some ⟨py.toNat, false, rowOf c py⟩, none, none, none⟩ := by
  obtain ⟨s', e, i⟩ := forInts_inv c.NYPE (createX c px py)
    (fun t s => s = ⟨t, scriptX c t, if py < t then some ⟨py.toNat, false, rowOf c py⟩ else none, none, none, none⟩)
    CSt.init (by simp only [scriptX]; rw [if_neg (by omega)]; rfl) (by
      intro t ht s es
      have hg := rowGroup hs (t : Int) (by omega) ht
      unfold createX
      rw [hg, procnum_in hs x0 x1 y0 y1]
      have hm := mem_row hs (py := py) (yp := (t:Int)) x0 x1
      have hev : scriptX c (t+1) = scriptX c t ++ [Ev.create (rowOf c t)] := by
        simp only [scriptX, List.range_succ, List.map_append, List.map_cons, List.map_nil]
      by_cases hp : (t : Int) = py
      · simp only [bind, Except.bind, create_in (hm.mpr hp), if_pos hp]
        refine ⟨_, rfl, ?_⟩
        rw [es, hev, if_pos (show py < ((t + 1 : Nat) : Int) by omega)]
        have ht : py.toNat = t := by omega
        rw [ht, ← hp]
        rfl
      · simp only [bind, Except.bind, create_out (fun hh => hp (hm.mp hh)), if_neg hp]
        refine ⟨_, rfl, ?_⟩
        rw [es, hev]
        by_cases hl : py < (t : Int)
        · rw [if_pos hl, if_pos (by omega)]; rfl
        · rw [if_neg hl, if_neg (by omega)]; rfl)
  rw [e, i, if_pos (by omega)]

/-! ### The Y communicators -/

section
variable {c : Cfg} (h : Layout c) {a b k d e : Int} (hc : Cuts c a b k d e)
variable {px py : Int} (x0 : 0 ≤ px) (x1 : px < c.NXPE) (y0 : 0 ≤ py) (y1 : py < c.NYPE)
include h hc

theorem yp_a (ha : a < c.NYPE) : c.YPROC (c.jyseps1_1 + 1) = a := yproc_first h hc hc.a0 ha hc.ha

theorem yp_a1 (ha : 0 < a) : c.YPROC c.jyseps1_1 = a - 1 := by
  have := hc.ha; have := hc.ae; have := hc.eN
  exact yproc_last h hc (by omega) (by omega) (by rw [Int.sub_mul]; omega)

theorem yp_e (he : e < c.NYPE) : c.YPROC (c.jyseps2_2 + 1) = e :=
  yproc_first h hc (by have := hc.a0; have := hc.ae; omega) he hc.he

theorem yp_e1 : c.YPROC c.jyseps2_2 = e - 1 := by
  have := hc.he; have := hc.ae; have := hc.eN; have := hc.a0
  exact yproc_last h hc (by omega) (by omega) (by rw [Int.sub_mul]; omega)

theorem yp_b (dn : DoubleNull c) : c.YPROC (c.jyseps2_1 + 1) = b := by
  have := hc.a0; have := hc.ab dn; have := hc.bk dn; have := hc.kd dn; have := hc.de dn; have := hc.eN
  exact yproc_first h hc (by omega) (by omega) (hc.hb dn)

theorem yp_b1 (dn : DoubleNull c) : c.YPROC c.jyseps2_1 = b - 1 := by
  have := hc.a0; have := hc.ab dn; have := hc.bk dn; have := hc.kd dn; have := hc.de dn; have := hc.eN
  have := hc.hb dn
  exact yproc_last h hc (by omega) (by omega) (by rw [Int.sub_mul]; omega)

theorem yp_k (dn : DoubleNull c) : c.YPROC c.ny_inner = k := by
  have := hc.a0; have := hc.ab dn; have := hc.bk dn; have := hc.kd dn; have := hc.de dn; have := hc.eN
  exact yproc_first h hc (by omega) (by omega) (hc.hk dn)

theorem yp_k1 (dn : DoubleNull c) : c.YPROC (c.ny_inner - 1) = k - 1 := by
  have := hc.a0; have := hc.ab dn; have := hc.bk dn; have := hc.kd dn; have := hc.de dn; have := hc.eN
  have := hc.hk dn
  exact yproc_last h hc (by omega) (by omega) (by rw [Int.sub_mul]; omega)

theorem yp_d (dn : DoubleNull c) : c.YPROC (c.jyseps1_2 + 1) = d := by
  have := hc.a0; have := hc.ab dn; have := hc.bk dn; have := hc.kd dn; have := hc.de dn; have := hc.eN
  exact yproc_first h hc (by omega) (by omega) (hc.hd dn)

theorem yp_d1 (dn : DoubleNull c) : c.YPROC c.jyseps1_2 = d - 1 := by
  have := hc.a0; have := hc.ab dn; have := hc.bk dn; have := hc.kd dn; have := hc.de dn; have := hc.eN
  have := hc.hd dn
  exact yproc_last h hc (by omega) (by omega) (by rw [Int.sub_mul]; omega)

/-- `[lo, hi)` as a group. -/
theorem grp {i lo hi hi' : Int} (i0 : 0 ≤ i) (i1 : i < c.NXPE) (l0 : 0 ≤ lo) (lh : lo < hi) (h1 : hi ≤ c.NYPE)
    (hh : hi' = hi - 1) : yGroup c i lo hi' = .ok (blk c i lo hi) := by
  have := yGroup_ok h.sizes i0 i1 l0 (show lo ≤ hi - 1 by omega) (by omega)
  rw [hh, this, show hi - 1 + 1 = hi by omega]

/-- The ranks of a surface. -/
def ranksOf (c : Cfg) (a b k d e i : Int) (K : Kind) : List Int :=
  (surf c a b k d e K).map fun q => q * c.NXPE + i

omit hc in
include x0 x1 in
theorem mem_ranksOf {K : Kind} {i : Int} (i0 : 0 ≤ i) (i1 : i < c.NXPE) :
    py * c.NXPE + px ∈ ranksOf c a b k d e i K ↔ i = px ∧ py ∈ surf c a b k d e K := by
  unfold ranksOf
  simp only [List.mem_map]
  constructor
  · rintro ⟨q, hq, e⟩
    obtain ⟨e1, e2⟩ := rank_inj h.sizes i0 i1 x0 x1 e
    subst e1 e2
    exact ⟨rfl, hq⟩
  · rintro ⟨rfl, hq⟩
    exact ⟨py, hq, rfl⟩

theorem ranks_union {i : Int} (K : Kind) (hd : ∀ q, ¬ (((runs c a b k d e K).1 ≤ q ∧ q < (runs c a b k d e K).2.1) ∧
    ((runs c a b k d e K).2.2.1 ≤ q ∧ q < (runs c a b k d e K).2.2.2))) :
    groupUnion (blk c i (runs c a b k d e K).1 (runs c a b k d e K).2.1)
      (blk c i (runs c a b k d e K).2.2.1 (runs c a b k d e K).2.2.2) = ranksOf c a b k d e i K := by
  rw [union_disjoint h.sizes hd, ranksOf, surf_runs]

/-- The numbers of creation calls: outer loop, and one pass of the inner loop. -/
def nOuter (c : Cfg) : Nat := if c.jyseps1_2 = c.jyseps2_1 then 1 else 2

/-- See `nOuter`. -/
def nInner (c : Cfg) (a : Int) : Nat := (if a = 0 then 0 else 1) + (if c.jyseps2_1 = c.jyseps1_2 then 0 else 1) + 1

/-- The number of the creation call that makes the communicator of a surface. -/
def cid (c : Cfg) (a : Int) (K : Kind) (i : Nat) : Nat :=
  let n0 := c.NYPE.toNat + nOuter c * c.NXPE.toNat
  match K with
  | .solSN => c.NYPE.toNat + i
  | .solIn => c.NYPE.toNat + 2 * i
  | .solOut => c.NYPE.toNat + 2 * i + 1
  | .lowerPF => n0 + nInner c a * i
  | .upperPF => n0 + nInner c a * i + (if a = 0 then 0 else 1)
  | .coreSN | .coreDN => n0 + nInner c a * i + (if a = 0 then 0 else 1) + (if c.jyseps2_1 = c.jyseps1_2 then 0 else 1)
  | .midLower | .midUpper => n0 + nInner c a * c.NXPE.toNat + i

/-- The communicator of a surface at X position `i`. -/
def commOf (c : Cfg) (a b k d e : Int) (K : Kind) (i : Nat) : Comm := ⟨cid c a K i, false, ranksOf c a b k d e i K⟩

/-- The kind of the core. -/
def coreK (c : Cfg) : Kind := if c.jyseps2_1 = c.jyseps1_2 then .coreSN else .coreDN

/-- The world collectives of the outer loop. -/
def scriptOuter (c : Cfg) (a b k d e : Int) (t : Nat) : List Ev :=
  (List.range t).flatMap fun i : Nat =>
    if c.jyseps1_2 = c.jyseps2_1 then [Ev.create (ranksOf c a b k d e i .solSN)]
    else [Ev.create (ranksOf c a b k d e i .solIn), Ev.create (ranksOf c a b k d e i .solOut)]

omit h hc in
theorem ranks_solSN (i : Int) : ranksOf c a b k d e i .solSN = blk c i 0 c.NYPE := rfl
omit h hc in
theorem ranks_solIn (i : Int) : ranksOf c a b k d e i .solIn = blk c i 0 k := rfl
omit h hc in
theorem ranks_solOut (i : Int) : ranksOf c a b k d e i .solOut = blk c i k c.NYPE := rfl

/-- The outer surface of a processor. -/
def outK (c : Cfg) (k py : Int) : Kind :=
  if c.jyseps1_2 = c.jyseps2_1 then .solSN else if py < k then .solIn else .solOut

include x0 x1 y0 y1

theorem createOuter_eq (E0 : List Ev) (X : Option Comm) :
    createOuter c px py ⟨c.NYPE.toNat, E0, X, none, none, none⟩ =
      .ok ⟨c.NYPE.toNat + nOuter c * c.NXPE.toNat, E0 ++ scriptOuter c a b k d e c.NXPE.toNat, X, none, none,
        some (commOf c a b k d e (outK c k py) px.toNat)⟩ := by
  have hN := h.sizes.nype
  unfold createOuter
  by_cases sn : c.jyseps1_2 = c.jyseps2_1
  · rw [if_pos sn]
    obtain ⟨s', e1, i⟩ := forInts_inv c.NXPE (createOuterSN c px py)
      (fun t s => s = ⟨c.NYPE.toNat + nOuter c * t, E0 ++ scriptOuter c a b k d e t, X, none, none,
        if px < t then some (commOf c a b k d e (outK c k py) px.toNat) else none⟩)
      ⟨c.NYPE.toNat, E0, X, none, none, none⟩
      (by rw [if_neg (by omega)]; simp [scriptOuter]) (by
        intro t ht s es
        have hg := grp h hc (i := (t:Int)) (lo := 0) (hi := c.NYPE) (by omega) ht (Int.le_refl 0) (by omega) (Int.le_refl _) rfl
        have hev : scriptOuter c a b k d e (t+1) = scriptOuter c a b k d e t ++ [Ev.create (blk c t 0 c.NYPE)] := by
          simp only [scriptOuter, List.range_succ, List.flatMap_append, List.flatMap_cons, List.flatMap_nil, if_pos sn, ranks_solSN, List.append_nil]
        have hn : nOuter c = 1 := by unfold nOuter; rw [if_pos sn]
        unfold createOuterSN
        rw [hg, procnum_in h.sizes x0 x1 y0 y1]
        have hm := mem_blk h.sizes (py := py) (lo := 0) (hi := c.NYPE) x0 x1 (i := (t:Int)) (by omega) ht
        by_cases hp : (t : Int) = px
        · simp only [bind, Except.bind, create_in (hm.mpr ⟨hp, y0, y1⟩), if_pos hp]
          refine ⟨_, rfl, ?_⟩
          rw [es, hev, if_pos (show px < ((t + 1 : Nat) : Int) by omega), hn]
          have : px.toNat = t := by omega
          simp only [CSt.made, commOf, outK, if_pos sn, cid, this, ranks_solSN, List.append_assoc]
          congr 1
          congr 1
          congr 1
          omega
        · simp only [bind, Except.bind, create_out (fun hh => hp (hm.mp hh).1), if_neg hp]
          refine ⟨_, rfl, ?_⟩
          rw [es, hev, hn]
          by_cases hl : px < (t : Int)
          · rw [if_pos hl, if_pos (by omega)]; simp only [CSt.made, List.append_assoc]; congr 1
          · rw [if_neg hl, if_neg (by omega)]; simp only [CSt.made, List.append_assoc]; congr 1)
    rw [e1, i, if_pos (by omega)]
  · rw [if_neg sn]
    have dn : DoubleNull c := fun hh => sn hh.symm
    have := hc.a0; have := hc.ab dn; have := hc.bk dn; have := hc.kd dn; have := hc.de dn; have := hc.eN
    obtain ⟨s', e1, i⟩ := forInts_inv c.NXPE (createOuterDN c px py)
      (fun t s => s = ⟨c.NYPE.toNat + nOuter c * t, E0 ++ scriptOuter c a b k d e t, X, none, none,
        if px < t then some (commOf c a b k d e (outK c k py) px.toNat) else none⟩)
      ⟨c.NYPE.toNat, E0, X, none, none, none⟩
      (by rw [if_neg (by omega)]; simp [scriptOuter]) (by
        intro t ht s es
        have hg1 := grp h hc (i := (t:Int)) (lo := 0) (hi := k) (by omega) ht (Int.le_refl 0) (by omega) (by omega) rfl
        have hg2 := grp h hc (i := (t:Int)) (lo := k) (hi := c.NYPE) (by omega) ht (by omega) (by omega) (Int.le_refl _) rfl
        have hev : scriptOuter c a b k d e (t+1) = scriptOuter c a b k d e t ++ [Ev.create (blk c t 0 k), Ev.create (blk c t k c.NYPE)] := by
          simp only [scriptOuter, List.range_succ, List.flatMap_append, List.flatMap_cons, List.flatMap_nil, if_neg sn, ranks_solIn, ranks_solOut, List.append_nil]
        have hn : nOuter c = 2 := by unfold nOuter; rw [if_neg sn]
        unfold createOuterDN
        rw [yp_k1 h hc dn, yp_k h hc dn, hg1, hg2, procnum_in h.sizes x0 x1 y0 y1]
        have hm1 := mem_blk h.sizes (py := py) (lo := 0) (hi := k) x0 x1 (i := (t:Int)) (by omega) ht
        have hm2 := mem_blk h.sizes (py := py) (lo := k) (hi := c.NYPE) x0 x1 (i := (t:Int)) (by omega) ht
        by_cases hp : (t : Int) = px
        · have ht : px.toNat = t := by omega
          by_cases hk : py < k
          · simp only [bind, Except.bind, create_in (hm1.mpr ⟨hp, y0, hk⟩), create_out (fun hh => absurd (hm2.mp hh).2.1 (by omega))]
            refine ⟨_, rfl, ?_⟩
            rw [es, hev, if_pos (show px < ((t + 1 : Nat) : Int) by omega), hn]
            simp only [CSt.made, setOuter, commOf, outK, if_neg sn, if_pos hk, cid, ht, ranks_solIn, List.append_assoc]
            congr 1
          · simp only [bind, Except.bind, create_out (fun hh => absurd (hm1.mp hh).2.2 (by omega)), create_in (hm2.mpr ⟨hp, by omega, y1⟩)]
            refine ⟨_, rfl, ?_⟩
            rw [es, hev, if_pos (show px < ((t + 1 : Nat) : Int) by omega), hn]
            simp only [CSt.made, setOuter, commOf, outK, if_neg sn, if_neg hk, cid, ht, ranks_solOut, List.append_assoc]
            congr 1
        · simp only [bind, Except.bind, create_out (fun hh => hp (hm1.mp hh).1), create_out (fun hh => hp (hm2.mp hh).1)]
          refine ⟨_, rfl, ?_⟩
          rw [es, hev, hn]
          by_cases hl : px < (t : Int)
          · rw [if_pos hl, if_pos (by omega)]; simp only [CSt.made, setOuter, List.append_assoc]; congr 1
          · rw [if_neg hl, if_neg (by omega)]; simp only [CSt.made, setOuter, List.append_assoc]; congr 1)
    rw [e1, i, if_pos (by omega)]

/-- The core group of single and double null. -/
theorem core_group (h21 : c.jyseps1_1 ≤ c.jyseps2_1) (h12 : c.jyseps1_2 ≤ c.jyseps2_2) (i : Int) (i0 : 0 ≤ i) (i1 : i < c.NXPE) :
    ∃ g1 g2, groupIf (c.jyseps2_1 > c.jyseps1_1) (coreGroup1 c i) = .ok g1 ∧
      groupIf (c.jyseps2_2 > c.jyseps1_2) (coreGroup2 c i) = .ok g2 ∧
      groupUnion g1 g2 = ranksOf c a b k d e i (if c.jyseps2_1 = c.jyseps1_2 then .coreSN else .coreDN) := by
  obtain ⟨_, _, ey, hM⟩ := h.sizes.split
  have A := hc.ha; have E := hc.he; have A0 := hc.a0; have AE := hc.ae; have EN := hc.eN
  have pn : ∀ q, 0 ≤ q → q < c.NYPE → ¬ c.PROC_NUM i q < 0 := by
    intro q q0 q1
    rw [procnum_in h.sizes i0 i1 q0 q1]
    have := rank_lt h.sizes i0 i1 q0 q1
    omega
  by_cases dn : c.jyseps2_1 = c.jyseps1_2
  · rw [if_pos dn]
    have hr : ranksOf c a b k d e i .coreSN = blk c i a e := rfl
    rw [hr]
    -- the processor holding row jyseps2_1, and the one holding the next row
    have rows : ∀ y, 0 ≤ y → y < c.ny → ∃ u, c.YPROC y = u ∧ u * c.MYSUB ≤ y ∧ y < (u + 1) * c.MYSUB := by
      intro y hy0 hy1
      refine ⟨y / c.MYSUB, ?_, Int.ediv_mul_le _ (by omega), Int.lt_ediv_add_one_mul_self _ hM⟩
      unfold Cfg.YPROC
      rw [if_neg (by omega), Int.tdiv_eq_ediv_of_nonneg hy0]
    have hny : c.jyseps2_2 < c.ny := h.ordered.hi
    have hlo : -1 ≤ c.jyseps1_1 := h.ordered.lo
    by_cases c1 : c.jyseps2_1 > c.jyseps1_1
    · obtain ⟨u, eu, u1, u2⟩ := rows c.jyseps2_1 (by omega) (by omega)
      have ua : a ≤ u := by
        have : a * c.MYSUB < (u + 1) * c.MYSUB := by omega
        have := mul_lt_imp hM this
        omega
      have ue : u < e := by
        have : u * c.MYSUB < e * c.MYSUB := by omega
        exact mul_lt_imp hM this
      have g1 : groupIf (c.jyseps2_1 > c.jyseps1_1) (coreGroup1 c i) = .ok (blk c i a (u+1)) := by
        unfold groupIf coreGroup1
        rw [if_pos c1, yp_a h hc (by omega), eu,
          if_neg (by have := pn a A0 (by omega); have := pn u (by omega) (by omega); omega)]
        exact grp h hc i0 i1 A0 (by omega) (by omega) (by omega)
      by_cases c2 : c.jyseps2_2 > c.jyseps1_2
      · obtain ⟨v, ev, v1, v2⟩ := rows (c.jyseps1_2 + 1) (by omega) (by omega)
        have vu : u ≤ v := by
          have : u * c.MYSUB < (v + 1) * c.MYSUB := by omega
          have := mul_lt_imp hM this
          omega
        have vu2 : v ≤ u + 1 := by
          have : v * c.MYSUB < (u + 1 + 1) * c.MYSUB := by rw [Int.add_mul (u+1) 1]; omega
          have := mul_lt_imp hM this
          omega
        have ve : v < e := by
          have : v * c.MYSUB < e * c.MYSUB := by omega
          exact mul_lt_imp hM this
        refine ⟨_, blk c i v e, g1, ?_, union_overlap h.sizes (by omega) (by omega) (by omega)⟩
        unfold groupIf coreGroup2
        rw [if_pos c2, ev, yp_e1 h hc,
          if_neg (by have := pn v (by omega) (by omega); have := pn (e-1) (by omega) (by omega); omega)]
        exact grp h hc i0 i1 (by omega) (by omega) (by omega) rfl
      · have : u + 1 = e := by
          have : e * c.MYSUB < (u + 1 + 1) * c.MYSUB := by rw [Int.add_mul (u+1) 1]; omega
          have := mul_lt_imp hM this
          omega
        refine ⟨_, [], g1, by unfold groupIf; rw [if_neg c2], ?_⟩
        rw [this]
        simp [groupUnion]
    · have c2 : c.jyseps2_2 > c.jyseps1_2 := by have := h.ordered.core (fun hh => hh dn); omega
      have e1 : c.jyseps1_2 + 1 = c.jyseps1_1 + 1 := by omega
      refine ⟨[], blk c i a e, by unfold groupIf; rw [if_neg c1], ?_, by simp [groupUnion]⟩
      unfold groupIf coreGroup2
      rw [if_pos c2, e1, yp_a h hc (by omega), yp_e1 h hc,
        if_neg (by have := pn a (by omega) (by omega); have := pn (e-1) (by omega) (by omega); omega)]
      exact grp h hc i0 i1 (by omega) (by omega) (by omega) rfl
  · rw [if_neg dn]
    have hdn : DoubleNull c := dn
    have := hc.ab dn; have := hc.bk dn; have := hc.kd dn; have := hc.de dn
    have c1 : c.jyseps2_1 > c.jyseps1_1 := by have := h.ordered.inner dn; omega
    have c2 : c.jyseps2_2 > c.jyseps1_2 := by have := h.ordered.outer dn; omega
    refine ⟨blk c i a b, blk c i d e, ?_, ?_, ?_⟩
    · unfold groupIf coreGroup1
      rw [if_pos c1, yp_a h hc (by omega), yp_b1 h hc dn,
        if_neg (by have := pn a A0 (by omega); have := pn (b-1) (by omega) (by omega); omega)]
      exact grp h hc i0 i1 A0 (by omega) (by omega) rfl
    · unfold groupIf coreGroup2
      rw [if_pos c2, yp_d h hc dn, yp_e1 h hc,
        if_neg (by have := pn d (by omega) (by omega); have := pn (e-1) (by omega) (by omega); omega)]
      exact grp h hc i0 i1 (by omega) (by omega) (by omega) rfl
    · have U := ranks_union h hc (i := i) .coreDN (by intro q; simp only [runs]; omega)
      exact U


/-- One creation call with a result stored by `set` if the rank is a member. -/
def mk (g : List Int) (inn : Prop) [Decidable inn] (set : Option Comm → CSt → CSt) (s : CSt) : CSt :=
  if inn then set (some ⟨s.n, false, g⟩) (s.made g) else s.made g

theorem lowerPF_eq (s : CSt) (i : Int) (i0 : 0 ≤ i) (i1 : i < c.NXPE) :
    createLowerPF c px py s i = .ok (if a = 0 then s else
      mk (ranksOf c a b k d e i .lowerPF) (i = px ∧ (py < a ∨ e ≤ py)) (setPF (decide ((seps c).lower = (seps c).outer))) s) := by
  obtain ⟨_, _, ey, hM⟩ := h.sizes.split
  have A := hc.ha; have E := hc.he; have A0 := hc.a0; have AE := hc.ae; have EN := hc.eN; have L := hc.legs
  unfold createLowerPF
  by_cases ha : a = 0
  · have he : e = c.NYPE := L.mp ha
    rw [ha, Int.zero_mul] at A
    rw [he] at E
    rw [if_neg (by rw [E, ← ey]; omega), if_pos ha]
  · have he : e < c.NYPE := by
      rcases Int.lt_or_eq_of_le EN with h1 | h1
      · exact h1
      · exact absurd (L.mpr h1) ha
    have m1 := Int.mul_le_mul_of_nonneg_right (show 1 ≤ a by omega) (show 0 ≤ c.MYSUB by omega)
    have m2 := Int.mul_le_mul_of_nonneg_right (show e + 1 ≤ c.NYPE by omega) (show 0 ≤ c.MYSUB by omega)
    rw [Int.add_mul] at m2
    have j1 : c.jyseps1_1 ≥ 0 := by omega
    have j2 : c.jyseps2_2 + 1 < c.ny := by omega
    rw [if_pos (Or.inl j1), if_neg ha]
    unfold groupIf
    rw [if_pos j1, if_pos j2, yp_a1 h hc (by omega), yp_e h hc he,
      grp h hc i0 i1 (Int.le_refl 0) (show 0 < a by omega) (by omega) rfl,
      grp h hc i0 i1 (show 0 ≤ e by omega) (show e < c.NYPE by omega) (Int.le_refl _) rfl]
    simp only [bind, Except.bind, pure, Except.pure]
    have U := ranks_union h hc (i := i) .lowerPF (by intro q; simp only [runs]; omega)
    simp only [runs] at U
    rw [U, procnum_in h.sizes x0 x1 y0 y1]
    have hm := mem_ranksOf h (a := a) (b := b) (k := k) (d := d) (e := e) x0 x1 (py := py) (K := .lowerPF) i0 i1
    unfold mk
    by_cases hin : i = px ∧ (py < a ∨ e ≤ py)
    · rw [if_pos hin, create_in (hm.mpr ⟨hin.1, by simp only [surf, List.mem_append, mem_ivl]; omega⟩)]
    · rw [if_neg hin, create_out (fun hh => hin ⟨(hm.mp hh).1, by
        have := (hm.mp hh).2
        simp only [surf, List.mem_append, mem_ivl] at this
        omega⟩)]
      rfl

theorem upperPF_eq (s : CSt) (i : Int) (i0 : 0 ≤ i) (i1 : i < c.NXPE) :
    createUpperPF c px py s i = .ok (if c.jyseps2_1 = c.jyseps1_2 then s else
      mk (ranksOf c a b k d e i .upperPF) (i = px ∧ b ≤ py ∧ py < d) (setPF (decide ((seps c).upper = (seps c).outer))) s) := by
  unfold createUpperPF
  by_cases sn : c.jyseps2_1 = c.jyseps1_2
  · rw [if_neg (fun hh => hh sn), if_pos sn]
  have dn : DoubleNull c := sn
  have := hc.a0; have := hc.ab dn; have := hc.bk dn; have := hc.kd dn; have := hc.de dn; have := hc.eN
  rw [if_pos sn, if_neg sn, yp_k h hc dn, yp_d1 h hc dn, yp_b h hc dn, yp_k1 h hc dn,
    grp h hc i0 i1 (show 0 ≤ k by omega) (show k < d by omega) (by omega) rfl,
    grp h hc i0 i1 (show 0 ≤ b by omega) (show b < k by omega) (by omega) rfl]
  simp only [bind, Except.bind, pure, Except.pure]
  have U := ranks_union h hc (i := i) .upperPF (by intro q; simp only [runs]; omega)
  simp only [runs] at U
  rw [U, procnum_in h.sizes x0 x1 y0 y1]
  have hm := mem_ranksOf h (a := a) (b := b) (k := k) (d := d) (e := e) x0 x1 (py := py) (K := .upperPF) i0 i1
  unfold mk
  by_cases hin : i = px ∧ b ≤ py ∧ py < d
  · rw [if_pos hin, create_in (hm.mpr ⟨hin.1, by simp only [surf, List.mem_append, mem_ivl]; omega⟩)]
  · rw [if_neg hin, create_out (fun hh => hin ⟨(hm.mp hh).1, by
      have := (hm.mp hh).2
      simp only [surf, List.mem_append, mem_ivl] at this
      omega⟩)]
    rfl

/-- `setCore` when it does not fail. -/
def setCoreV (c : Cfg) (t : Comm) (s : CSt) : CSt :=
  if (seps c).inner = (seps c).outer then
    { s with evs := s.evs ++ [.dup t], comm_inner := some t, comm_middle := some { t with dup := true } }
  else { s with comm_inner := some t }

theorem core_eq (h21 : c.jyseps1_1 ≤ c.jyseps2_1) (h12 : c.jyseps1_2 ≤ c.jyseps2_2) (s : CSt) (i : Int)
    (i0 : 0 ≤ i) (i1 : i < c.NXPE) :
    createCore c px py s i = .ok (if i = px ∧ py ∈ surf c a b k d e (coreK c) then
      setCoreV c ⟨s.n, false, ranksOf c a b k d e i (coreK c)⟩ (s.made (ranksOf c a b k d e i (coreK c)))
      else s.made (ranksOf c a b k d e i (coreK c))) := by
  obtain ⟨g1, g2, e1, e2, eu⟩ := core_group h hc x0 x1 y0 y1 h21 h12 i i0 i1
  unfold createCore
  rw [e1, e2]
  simp only [bind, Except.bind]
  have hK : (if c.jyseps2_1 = c.jyseps1_2 then Kind.coreSN else Kind.coreDN) = coreK c := rfl
  rw [eu, hK, procnum_in h.sizes x0 x1 y0 y1]
  have hm := mem_ranksOf h (a := a) (b := b) (k := k) (d := d) (e := e) x0 x1 (py := py) (K := coreK c) i0 i1
  by_cases hin : i = px ∧ py ∈ surf c a b k d e (coreK c)
  · rw [if_pos hin, create_in (hm.mpr hin)]
    unfold setCore setCoreV
    by_cases hio : (seps c).inner = (seps c).outer
    · simp only [if_pos hio]; rfl
    · simp only [if_neg hio]
  · rw [if_neg hin, create_out (fun hh => hin (hm.mp hh))]
    rfl

/-- The collectives of one pass of the inner loop. -/
def scriptInnerAt (c : Cfg) (a b k d e : Int) (i : Nat) : List Ev :=
  (if a = 0 then [] else [Ev.create (ranksOf c a b k d e i .lowerPF)]) ++
  ((if c.jyseps2_1 = c.jyseps1_2 then [] else [Ev.create (ranksOf c a b k d e i .upperPF)]) ++
  ([Ev.create (ranksOf c a b k d e i (coreK c))] ++
   (if (seps c).inner = (seps c).outer then [Ev.dup (commOf c a b k d e (coreK c) i)] else [])))

/-- The surface of a processor inside both separatrices. -/
def inK (c : Cfg) (a b d e py : Int) : Kind :=
  if py < a ∨ e ≤ py then .lowerPF else if ¬ c.jyseps2_1 = c.jyseps1_2 ∧ b ≤ py ∧ py < d then .upperPF else coreK c

omit h hc x0 x1 y0 y1 in
theorem mk_n (g : List Int) (inn : Prop) [Decidable inn] (pf : Bool) (s : CSt) : (mk g inn (setPF pf) s).n = s.n + 1 := by
  unfold mk; split
  · unfold setPF; simp only; split <;> rfl
  · rfl

omit h hc x0 x1 y0 y1 in
theorem mk_evs (g : List Int) (inn : Prop) [Decidable inn] (pf : Bool) (s : CSt) :
    (mk g inn (setPF pf) s).evs = s.evs ++ [Ev.create g] := by
  unfold mk; split
  · unfold setPF; simp only; split <;> rfl
  · rfl

omit h hc x0 x1 y0 y1 in
theorem mk_x (g : List Int) (inn : Prop) [Decidable inn] (pf : Bool) (s : CSt) : (mk g inn (setPF pf) s).comm_x = s.comm_x := by
  unfold mk; split
  · unfold setPF; simp only; split <;> rfl
  · rfl

omit h hc x0 x1 y0 y1 in
theorem mk_outer (g : List Int) (inn : Prop) [Decidable inn] (pf : Bool) (s : CSt) :
    (mk g inn (setPF pf) s).comm_outer = s.comm_outer := by
  unfold mk; split
  · unfold setPF; simp only; split <;> rfl
  · rfl

omit h hc x0 x1 y0 y1 in
theorem mk_inner (g : List Int) (inn : Prop) [Decidable inn] (pf : Bool) (s : CSt) :
    (mk g inn (setPF pf) s).comm_inner = if inn then some ⟨s.n, false, g⟩ else s.comm_inner := by
  unfold mk; split
  · unfold setPF; simp only; split <;> rfl
  · rfl

omit h hc x0 x1 y0 y1 in
theorem mk_middle (g : List Int) (inn : Prop) [Decidable inn] (pf : Bool) (s : CSt) :
    (mk g inn (setPF pf) s).comm_middle =
      if inn then (if pf = true then some ⟨s.n, false, g⟩ else s.comm_outer) else s.comm_middle := by
  unfold mk; split
  · unfold setPF; simp only; split <;> rfl
  · rfl

theorem core_iff : py ∈ surf c a b k d e (coreK c) ↔ inK c a b d e py = coreK c := by
  have := hc.a0; have := hc.ae; have := hc.eN
  unfold inK
  by_cases sn : c.jyseps2_1 = c.jyseps1_2
  · have hK : coreK c = .coreSN := by unfold coreK; rw [if_pos sn]
    rw [hK]
    simp only [surf, mem_ivl, sn, not_true_eq_false, false_and, if_false]
    by_cases hl : py < a ∨ e ≤ py
    · rw [if_pos hl]; refine ⟨fun hh => ?_, fun hh => Kind.noConfusion hh⟩; omega
    · rw [if_neg hl]; refine ⟨fun _ => rfl, fun _ => ?_⟩; omega
  · have := hc.ab sn; have := hc.bk sn; have := hc.kd sn; have := hc.de sn
    have hK : coreK c = .coreDN := by unfold coreK; rw [if_neg sn]
    rw [hK]
    simp only [surf, List.mem_append, mem_ivl, sn, not_false_eq_true, true_and]
    by_cases hl : py < a ∨ e ≤ py
    · rw [if_pos hl]; refine ⟨fun hh => ?_, fun hh => Kind.noConfusion hh⟩; omega
    · rw [if_neg hl]
      by_cases hu : b ≤ py ∧ py < d
      · rw [if_pos hu]; refine ⟨fun hh => ?_, fun hh => Kind.noConfusion hh⟩; omega
      · rw [if_neg hu]; refine ⟨fun _ => rfl, fun _ => ?_⟩; omega

theorem inner_step (h21 : c.jyseps1_1 ≤ c.jyseps2_1) (h12 : c.jyseps1_2 ≤ c.jyseps2_2) (t : Nat) (ht : (t : Int) < c.NXPE)
    (s : CSt) (hn : s.n = c.NYPE.toNat + nOuter c * c.NXPE.toNat + nInner c a * t) :
    ∃ s', createInner c px py s t = .ok s' ∧ s'.n = s.n + nInner c a ∧
      s'.evs = s.evs ++ (scriptInnerAt c a b k d e t).filter (Ev.involves (py * c.NXPE + px)) ∧
      s'.comm_x = s.comm_x ∧ s'.comm_outer = s.comm_outer ∧
      ((t : Int) ≠ px → s'.comm_inner = s.comm_inner ∧ s'.comm_middle = s.comm_middle) ∧
      ((t : Int) = px → s'.comm_inner = some (commOf c a b k d e (inK c a b d e py) t) ∧
        ((seps c).inner ≠ (seps c).outer → (inK c a b d e py = .lowerPF ∧ (seps c).lower = (seps c).outer ∨
            inK c a b d e py = .upperPF ∧ (seps c).upper = (seps c).outer) →
          s'.comm_middle = some (commOf c a b k d e (inK c a b d e py) t))) := by
  have A0 := hc.a0; have AE := hc.ae; have EN := hc.eN; have LG := hc.legs
  have hci := core_iff h hc x0 x1 y0 y1
  have t0 : (0 : Int) ≤ t := by omega
  refine ⟨_, by
    unfold createInner
    rw [lowerPF_eq h hc x0 x1 y0 y1 s t t0 ht]
    simp only [bind, Except.bind]
    rw [upperPF_eq h hc x0 x1 y0 y1 _ t t0 ht]
    simp only [bind, Except.bind]
    exact core_eq h hc x0 x1 y0 y1 h21 h12 _ t t0 ht, ?_⟩
  -- the state before the core call
  generalize hs1 : (if a = 0 then s else
      mk (ranksOf c a b k d e t .lowerPF) ((t:Int) = px ∧ (py < a ∨ e ≤ py)) (setPF (decide ((seps c).lower = (seps c).outer))) s) = s1
  generalize hs2 : (if c.jyseps2_1 = c.jyseps1_2 then s1 else
      mk (ranksOf c a b k d e t .upperPF) ((t:Int) = px ∧ b ≤ py ∧ py < d) (setPF (decide ((seps c).upper = (seps c).outer))) s1) = s2
  have n1 : s1.n = s.n + (if a = 0 then 0 else 1) := by
    rw [← hs1]; split
    · rfl
    · exact mk_n _ _ _ _
  have v1 : s1.evs = s.evs ++ (if a = 0 then [] else [Ev.create (ranksOf c a b k d e t .lowerPF)]) := by
    rw [← hs1]; split
    · simp
    · exact mk_evs _ _ _ _
  have w1 : s1.comm_x = s.comm_x ∧ s1.comm_outer = s.comm_outer := by
    rw [← hs1]; split
    · exact ⟨rfl, rfl⟩
    · exact ⟨mk_x _ _ _ _, mk_outer _ _ _ _⟩
  have n2 : s2.n = s1.n + (if c.jyseps2_1 = c.jyseps1_2 then 0 else 1) := by
    rw [← hs2]; split
    · rfl
    · exact mk_n _ _ _ _
  have v2 : s2.evs = s1.evs ++ (if c.jyseps2_1 = c.jyseps1_2 then [] else [Ev.create (ranksOf c a b k d e t .upperPF)]) := by
    rw [← hs2]; split
    · simp
    · exact mk_evs _ _ _ _
  have w2 : s2.comm_x = s1.comm_x ∧ s2.comm_outer = s1.comm_outer := by
    rw [← hs2]; split
    · exact ⟨rfl, rfl⟩
    · exact ⟨mk_x _ _ _ _, mk_outer _ _ _ _⟩
  have hcomm : (⟨s2.n, false, ranksOf c a b k d e t (coreK c)⟩ : Comm) = commOf c a b k d e (coreK c) t := by
    unfold commOf
    congr 1
    rw [n2, n1, hn]
    unfold coreK
    by_cases sn : c.jyseps2_1 = c.jyseps1_2
    · rw [if_pos sn, if_pos sn]; simp only [cid, if_pos sn]
    · rw [if_neg sn, if_neg sn]; simp only [cid, if_neg sn]
  rw [hcomm]
  have hm := mem_ranksOf h (a := a) (b := b) (k := k) (d := d) (e := e) x0 x1 (py := py) (K := coreK c) t0 ht
  have hf : ∀ l : List Ev, (∀ v ∈ l, Ev.involves (py * c.NXPE + px) v = true) → l.filter (Ev.involves (py * c.NXPE + px)) = l :=
    fun l hl => List.filter_eq_self.mpr hl
  have hscript : (scriptInnerAt c a b k d e t).filter (Ev.involves (py * c.NXPE + px)) =
      (if a = 0 then [] else [Ev.create (ranksOf c a b k d e t .lowerPF)]) ++
      ((if c.jyseps2_1 = c.jyseps1_2 then [] else [Ev.create (ranksOf c a b k d e t .upperPF)]) ++
      ([Ev.create (ranksOf c a b k d e t (coreK c))] ++
       (if (seps c).inner = (seps c).outer ∧ ((t:Int) = px ∧ py ∈ surf c a b k d e (coreK c)) then
          [Ev.dup (commOf c a b k d e (coreK c) t)] else []))) := by
    unfold scriptInnerAt
    rw [List.filter_append, List.filter_append, List.filter_append]
    rw [hf _ (by intro v hv; split at hv <;> simp at hv; subst hv; rfl),
      hf _ (by intro v hv; split at hv <;> simp at hv; subst hv; rfl), hf _ (by intro v hv; simp at hv; subst hv; rfl)]
    congr 1
    congr 1
    congr 1
    by_cases hio : (seps c).inner = (seps c).outer
    · rw [if_pos hio]
      by_cases hin : (t:Int) = px ∧ py ∈ surf c a b k d e (coreK c)
      · rw [if_pos ⟨hio, hin⟩]
        apply hf
        intro v hv
        simp only [List.mem_singleton] at hv
        subst hv
        exact decide_eq_true (hm.mpr hin)
      · rw [if_neg (fun hh => hin hh.2)]
        apply List.filter_eq_nil_iff.mpr
        intro v hv
        simp only [List.mem_singleton] at hv
        subst hv
        exact fun hh => hin (hm.mp (of_decide_eq_true hh))
    · rw [if_neg hio, if_neg (fun hh => hio hh.1)]
      rfl
  rw [hscript]
  generalize hD : (if (seps c).inner = (seps c).outer ∧ ((t:Int) = px ∧ py ∈ surf c a b k d e (coreK c)) then
          [Ev.dup (commOf c a b k d e (coreK c) t)] else []) = D
  have c1 : s1.comm_inner = if ¬ a = 0 ∧ ((t:Int) = px ∧ (py < a ∨ e ≤ py)) then
      some (commOf c a b k d e .lowerPF t) else s.comm_inner := by
    rw [← hs1]
    by_cases ha : a = 0
    · rw [if_pos ha, if_neg (fun hh => hh.1 ha)]
    · rw [if_neg ha, mk_inner]
      simp only [ha, not_false_eq_true, true_and]
      split
      · rw [hn]; rfl
      · rfl
  have m1 : s1.comm_middle = if ¬ a = 0 ∧ ((t:Int) = px ∧ (py < a ∨ e ≤ py)) then
      (if (seps c).lower = (seps c).outer then some (commOf c a b k d e .lowerPF t) else s.comm_outer) else s.comm_middle := by
    rw [← hs1]
    by_cases ha : a = 0
    · rw [if_pos ha, if_neg (fun hh => hh.1 ha)]
    · rw [if_neg ha, mk_middle]
      simp only [ha, not_false_eq_true, true_and, decide_eq_true_eq]
      split
      · rw [hn]; rfl
      · rfl
  have c2 : s2.comm_inner = if ¬ c.jyseps2_1 = c.jyseps1_2 ∧ ((t:Int) = px ∧ b ≤ py ∧ py < d) then
      some (commOf c a b k d e .upperPF t) else s1.comm_inner := by
    rw [← hs2]
    by_cases ha : c.jyseps2_1 = c.jyseps1_2
    · rw [if_pos ha, if_neg (fun hh => hh.1 ha)]
    · rw [if_neg ha, mk_inner]
      simp only [ha, not_false_eq_true, true_and]
      split
      · rw [n1, hn]; rfl
      · rfl
  have m2 : s2.comm_middle = if ¬ c.jyseps2_1 = c.jyseps1_2 ∧ ((t:Int) = px ∧ b ≤ py ∧ py < d) then
      (if (seps c).upper = (seps c).outer then some (commOf c a b k d e .upperPF t) else s1.comm_outer) else s1.comm_middle := by
    rw [← hs2]
    by_cases ha : c.jyseps2_1 = c.jyseps1_2
    · rw [if_pos ha, if_neg (fun hh => hh.1 ha)]
    · rw [if_neg ha, mk_middle]
      simp only [ha, not_false_eq_true, true_and, decide_eq_true_eq]
      split
      · rw [n1, hn]; rfl
      · rfl
  have N : s2.n + 1 = s.n + nInner c a := by
    rw [n2, n1]; unfold nInner; omega
  have V : s2.evs = s.evs ++ ((if a = 0 then [] else [Ev.create (ranksOf c a b k d e t .lowerPF)]) ++
      (if c.jyseps2_1 = c.jyseps1_2 then [] else [Ev.create (ranksOf c a b k d e t .upperPF)])) := by
    rw [v2, v1, List.append_assoc]
  by_cases hin : (t:Int) = px ∧ py ∈ surf c a b k d e (coreK c)
  · rw [if_pos hin]
    have hK : inK c a b d e py = coreK c := hci.mp hin.2
    unfold setCoreV
    by_cases hio : (seps c).inner = (seps c).outer
    · rw [if_pos ⟨hio, hin⟩] at hD
      rw [if_pos hio, ← hD]
      refine ⟨N, ?_, ?_, ?_, fun hh => absurd hin.1 hh, fun _ => ⟨by rw [hK], fun hh => absurd hio hh⟩⟩
      · simp only [CSt.made, V, List.append_assoc]
      · simp only [CSt.made, w2.1, w1.1]
      · simp only [CSt.made, w2.2, w1.2]
    · rw [if_neg (fun hh => hio hh.1)] at hD
      rw [if_neg hio, ← hD]
      refine ⟨N, ?_, ?_, ?_, fun hh => absurd hin.1 hh, fun _ => ⟨by rw [hK], fun _ hh => ?_⟩⟩
      · simp only [CSt.made, V, List.append_assoc, List.append_nil]
      · simp only [CSt.made, w2.1, w1.1]
      · simp only [CSt.made, w2.2, w1.2]
      · rw [hK] at hh
        unfold coreK at hh
        exfalso
        split at hh <;> simp at hh
  · rw [if_neg (fun hh => hin hh.2)] at hD
    rw [if_neg hin, ← hD]
    refine ⟨N, ?_, ?_, ?_, ?_, ?_⟩
    · simp only [CSt.made, V, List.append_assoc, List.append_nil]
    · simp only [CSt.made, w2.1, w1.1]
    · simp only [CSt.made, w2.2, w1.2]
    · intro hne
      simp only [CSt.made]
      rw [c2, m2, if_neg (fun hh => hne hh.2.1), if_neg (fun hh => hne hh.2.1), c1, m1, if_neg (fun hh => hne hh.2.1),
        if_neg (fun hh => hne hh.2.1)]
      exact ⟨rfl, rfl⟩
    · intro hp
      have hnc : ¬ inK c a b d e py = coreK c := fun hh => hin ⟨hp, hci.mpr hh⟩
      simp only [CSt.made]
      by_cases hl : py < a ∨ e ≤ py
      · have hK : inK c a b d e py = .lowerPF := by unfold inK; rw [if_pos hl]
        have hnu : ¬ (¬ c.jyseps2_1 = c.jyseps1_2 ∧ ((t:Int) = px ∧ b ≤ py ∧ py < d)) := by
          rintro ⟨dn, _, h1, h2⟩
          have := hc.ab dn; have := hc.bk dn; have := hc.kd dn; have := hc.de dn
          omega
        have ha : ¬ a = 0 := by omega
        rw [c2, m2, if_neg hnu, if_neg hnu, c1, m1, if_pos ⟨ha, hp, hl⟩, if_pos ⟨ha, hp, hl⟩, hK]
        refine ⟨rfl, fun _ hh => ?_⟩
        rcases hh with hh | hh
        · rw [if_pos hh.2]
        · simp at hh
      · by_cases hu : ¬ c.jyseps2_1 = c.jyseps1_2 ∧ b ≤ py ∧ py < d
        · have hK : inK c a b d e py = .upperPF := by unfold inK; rw [if_neg hl, if_pos hu]
          have hup : ¬ c.jyseps2_1 = c.jyseps1_2 ∧ ((t:Int) = px ∧ b ≤ py ∧ py < d) := ⟨hu.1, hp, hu.2⟩
          rw [c2, m2, if_pos hup, if_pos hup, hK]
          refine ⟨rfl, fun _ hh => ?_⟩
          rcases hh with hh | hh
          · simp at hh
          · rw [if_pos hh.2]
        · exact absurd (by unfold inK; rw [if_neg hl, if_neg hu]) hnc

end

end Verif.Mesh
