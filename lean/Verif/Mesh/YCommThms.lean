/-
C52: theorems about the X and Y communicators.
-/
import Verif.Mesh.YCommMain
import Verif.Mesh.Closed
import Verif.Mesh.ConnWitness
import Mathlib.Data.List.Nodup

namespace Verif.Mesh

open Verif

/-! ### Lists -/

theorem ivl_get {lo hi : Int} (i : Nat) : (ivl lo hi)[i]? = if (i : Int) < hi - lo then some (lo + i) else none := by
  unfold ivl
  rw [List.getElem?_map]
  by_cases h : (i : Int) < hi - lo
  · rw [if_pos h, List.getElem?_range (by omega)]; rfl
  · rw [if_neg h, List.getElem?_eq_none (by simp; omega)]; rfl

theorem ivl_length (lo hi : Int) : (ivl lo hi).length = (hi - lo).toNat := by simp [ivl]

/-- Two runs in a row: what follows what. -/
theorem runs_next {l1 h1 l2 h2 : Int} {i : Nat} {p q : Int} (hp : (ivl l1 h1 ++ ivl l2 h2)[i]? = some p)
    (hq : (ivl l1 h1 ++ ivl l2 h2)[i + 1]? = some q) :
    (l1 ≤ p ∧ p < h1 - 1 ∧ q = p + 1) ∨ (l2 ≤ p ∧ p < h2 - 1 ∧ q = p + 1) ∨ (l1 < h1 ∧ l2 < h2 ∧ p = h1 - 1 ∧ q = l2) := by
  rw [List.getElem?_append, ivl_length] at hp hq
  simp only [ivl_get] at hp hq
  split at hp <;> split at hq
  · left
    split at hp <;> simp at hp
    split at hq <;> simp at hq
    omega
  · right; right
    split at hp <;> simp at hp
    split at hq <;> simp at hq
    omega
  · omega
  · right; left
    split at hp <;> simp at hp
    split at hq <;> simp at hq
    omega

theorem runs_nodup {l1 h1 l2 h2 : Int} (hd : ∀ q, ¬ ((l1 ≤ q ∧ q < h1) ∧ (l2 ≤ q ∧ q < h2))) : (ivl l1 h1 ++ ivl l2 h2).Nodup := by
  have one : ∀ l h : Int, (ivl l h).Nodup := by
    intro l h
    unfold ivl
    apply List.Nodup.map _ List.nodup_range
    intro x y hxy
    simp only at hxy
    omega
  rw [List.nodup_append]
  refine ⟨one _ _, one _ _, ?_⟩
  intro x hx y hy hxy
  rw [mem_ivl] at hx hy
  subst hxy
  exact hd x ⟨hx, hy⟩

theorem idxOf_zero {l : List Int} {r : Int} (h : r ∈ l) : l.idxOf r = 0 ↔ l[0]? = some r := by
  cases l with
  | nil => simp at h
  | cons z zs =>
      rw [List.idxOf_cons]
      by_cases hz : z = r
      · subst hz; simp
      · have : (z == r) = false := by simp [hz]
        simp [this, hz]

theorem idxOf_at {l : List Int} {r : Int} (hn : l.Nodup) (h : r ∈ l) (i : Nat) : l.idxOf r = i ↔ l[i]? = some r := by
  constructor
  · rintro rfl
    exact List.getElem?_idxOf h
  · intro hi
    obtain ⟨hlt, e⟩ := List.getElem?_eq_some_iff.mp hi
    rw [← e]
    exact hn.idxOf_getElem i hlt

section
variable {c : Cfg} (h : Layout c) {a b k d e : Int} (hc : Cuts c a b k d e)
include h hc

/-- The processor before `p`. -/
def downQ (c : Cfg) (a b k d e x p : Int) : Option Int :=
  if x < c.ixseps1 ∧ p = a then some (e - 1)
  else if x < c.ixseps1 ∧ p = e then some (a - 1)
  else if DoubleNull c ∧ x < c.ixseps2 ∧ p = d then some (b - 1)
  else if DoubleNull c ∧ x < c.ixseps2 ∧ p = b then some (d - 1)
  else if DoubleNull c ∧ p = k then none
  else if p = 0 then none
  else some (p - 1)

theorem downNeighbour_first (x p : Int) : downNeighbour c x (p * c.MYSUB) = none ↔ downQ c a b k d e x p = none := by
  obtain ⟨_, _, ey, hM⟩ := h.sizes.split
  have E := first_row_eq (p := p) hM hc.he
  have A := first_row_eq (p := p) hM hc.ha
  have Z := first_row_eq (p := p) (q := 0) (j := 0) hM (by omega)
  unfold downNeighbour downQ
  by_cases dn : DoubleNull c
  · have B := first_row_eq (p := p) hM (hc.hb dn)
    have D := first_row_eq (p := p) hM (hc.hd dn)
    have K := first_row_eq (p := p) hM (hc.hk dn)
    simp only [E, A, B, D, K, Z]
    repeat' (first | rfl | split)
    all_goals simp
  · simp only [E, A, Z, dn, false_and, if_false]
    repeat' (first | rfl | split)
    all_goals simp

end

section
variable {c : Cfg} {a b k d e : Int} (hc : Cuts c a b k d e)
include hc

theorem runs_disj (x p : Int) (h0 : 0 ≤ p) (h1 : p < c.NYPE) :
    ∀ q, ¬ (((runs c a b k d e (kind c a b k d e x p)).1 ≤ q ∧ q < (runs c a b k d e (kind c a b k d e x p)).2.1) ∧
    ((runs c a b k d e (kind c a b k d e x p)).2.2.1 ≤ q ∧ q < (runs c a b k d e (kind c a b k d e x p)).2.2.2)) := by
  have := hc.a0; have := hc.ae; have := hc.eN; have := hc.legs
  intro q
  unfold kind
  by_cases dn : c.jyseps2_1 = c.jyseps1_2
  · rw [if_pos dn]
    split
    · split <;> simp only [runs] <;> omega
    · simp only [runs]; omega
  · have := hc.ab dn; have := hc.bk dn; have := hc.kd dn; have := hc.de dn
    rw [if_neg dn]
    split
    · simp only [runs]; omega
    split
    · simp only [runs]; omega
    split
    · simp only [runs]; omega
    split
    · simp only [runs]; omega
    split
    · simp only [runs]; omega
    split <;> simp only [runs] <;> omega

/-- Head and last of two runs. -/
theorem first_of (l1 h1 l2 h2 p : Int) (hr : l1 < h1) : (ivl l1 h1 ++ ivl l2 h2)[0]? = some p ↔ p = l1 := by
  rw [List.getElem?_append, ivl_length, if_pos (by omega), ivl_get, if_pos (by omega)]
  simp [eq_comm]

theorem last_of (l1 h1 l2 h2 p : Int) (hr : l2 < h2) :
    (ivl l1 h1 ++ ivl l2 h2)[(ivl l1 h1 ++ ivl l2 h2).length - 1]? = some p ↔ p = h2 - 1 := by
  rw [List.getElem?_append, List.length_append, ivl_length, ivl_length, if_neg (by omega), ivl_get, if_pos (by omega)]
  simp only [Option.some.injEq]
  omega

omit hc in
theorem first_one (l h p : Int) (hr : l < h) : (ivl l h)[0]? = some p ↔ p = l := by
  rw [ivl_get, if_pos (by omega)]
  simp [eq_comm]

omit hc in
theorem last_one (l h p : Int) (hr : l < h) : (ivl l h)[(ivl l h).length - 1]? = some p ↔ p = h - 1 := by
  rw [ivl_length, ivl_get, if_pos (by omega)]
  simp only [Option.some.injEq]
  omega

theorem ends (x p : Int) (h0 : 0 ≤ p) (h1 : p < c.NYPE) :
    if kind c a b k d e x p = .coreSN ∨ kind c a b k d e x p = .coreDN then
      downQ c a b k d e x p ≠ none ∧ upQ c a b k d e x p ≠ none
    else
      ((surf c a b k d e (kind c a b k d e x p))[0]? = some p ↔ downQ c a b k d e x p = none) ∧
      ((surf c a b k d e (kind c a b k d e x p))[(surf c a b k d e (kind c a b k d e x p)).length - 1]? = some p ↔
        upQ c a b k d e x p = none) := by
  have := hc.a0; have := hc.ae; have := hc.eN; have := hc.legs
  by_cases dn : c.jyseps2_1 = c.jyseps1_2
  · have hnd : ¬ DoubleNull c := fun hh => hh dn
    have D : downQ c a b k d e x p = none ↔ ¬ (x < c.ixseps1 ∧ (p = a ∨ p = e)) ∧ p = 0 := by
      unfold downQ
      simp only [hnd, false_and, if_false]
      split
      · simp; omega
      split
      · simp; omega
      split
      · simp; omega
      · simp; omega
    have U : upQ c a b k d e x p = none ↔ ¬ (x < c.ixseps1 ∧ (p = e - 1 ∨ p = a - 1)) ∧ p = c.NYPE - 1 := by
      unfold upQ
      simp only [hnd, false_and, if_false]
      split
      · simp; omega
      split
      · simp; omega
      split
      · simp; omega
      · simp; omega
    simp only [ne_eq, D, U]
    unfold kind
    rw [if_pos dn]
    by_cases hx1 : x < c.ixseps1
    · rw [if_pos hx1]
      by_cases hp : p < a ∨ e ≤ p
      · rw [if_pos hp, if_neg (by simp)]
        simp only [surf]
        rw [first_of hc _ _ _ _ _ (by omega), last_of hc _ _ _ _ _ (by omega)]
        constructor <;> omega
      · rw [if_neg hp, if_pos (by simp)]
        constructor <;> omega
    · rw [if_neg hx1, if_neg (by simp)]
      simp only [surf]
      rw [first_one _ _ _ (by omega), last_one _ _ _ (by omega)]
      constructor <;> omega
  · have hd : DoubleNull c := dn
    have := hc.ab dn; have := hc.bk dn; have := hc.kd dn; have := hc.de dn
    have D : downQ c a b k d e x p = none ↔ ¬ (x < c.ixseps1 ∧ (p = a ∨ p = e)) ∧ ¬ (x < c.ixseps2 ∧ (p = d ∨ p = b)) ∧ (p = k ∨ p = 0) := by
      unfold downQ
      simp only [hd, true_and]
      split
      · simp; omega
      split
      · simp; omega
      split
      · simp; omega
      split
      · simp; omega
      split
      · simp; omega
      split
      · simp; omega
      · simp; omega
    have U : upQ c a b k d e x p = none ↔ ¬ (x < c.ixseps1 ∧ (p = e - 1 ∨ p = a - 1)) ∧ ¬ (x < c.ixseps2 ∧ (p = b - 1 ∨ p = d - 1)) ∧
        (p = k - 1 ∨ p = c.NYPE - 1) := by
      unfold upQ
      simp only [hd, true_and]
      split
      · simp; omega
      split
      · simp; omega
      split
      · simp; omega
      split
      · simp; omega
      split
      · simp; omega
      split
      · simp; omega
      · simp; omega
    simp only [ne_eq, D, U]
    unfold kind
    rw [if_neg dn]
    by_cases c1 : x < c.ixseps1 ∧ (p < a ∨ e ≤ p)
    · rw [if_pos c1, if_neg (by simp)]
      simp only [surf]
      rw [first_of hc _ _ _ _ _ (by omega), last_of hc _ _ _ _ _ (by omega)]
      constructor <;> omega
    rw [if_neg c1]
    by_cases c2 : x < c.ixseps2 ∧ b ≤ p ∧ p < d
    · rw [if_pos c2, if_neg (by simp)]
      simp only [surf]
      rw [first_of hc _ _ _ _ _ (by omega), last_of hc _ _ _ _ _ (by omega)]
      constructor <;> omega
    rw [if_neg c2]
    by_cases c3 : x < c.ixseps1 ∧ x < c.ixseps2
    · rw [if_pos c3, if_pos (by simp)]
      constructor <;> omega
    rw [if_neg c3]
    by_cases c4 : x < c.ixseps2
    · rw [if_pos c4, if_neg (by simp)]
      simp only [surf]
      rw [first_of hc _ _ _ _ _ (by omega), last_of hc _ _ _ _ _ (by omega)]
      constructor <;> omega
    rw [if_neg c4]
    by_cases c5 : x < c.ixseps1
    · rw [if_pos c5, if_neg (by simp)]
      simp only [surf]
      rw [first_of hc _ _ _ _ _ (by omega), last_of hc _ _ _ _ _ (by omega)]
      constructor <;> omega
    rw [if_neg c5]
    by_cases c6 : p < k
    · rw [if_pos c6, if_neg (by simp)]
      simp only [surf]
      rw [first_one _ _ _ (by omega), last_one _ _ _ (by omega)]
      constructor <;> omega
    · rw [if_neg c6, if_neg (by simp)]
      simp only [surf]
      rw [first_one _ _ _ (by omega), last_one _ _ _ (by omega)]
      constructor <;> omega

/-- `periodicY` is the core. -/
theorem periodic_kind (h : Layout c) (h21 : c.jyseps1_1 ≤ c.jyseps2_1) (h12 : c.jyseps1_2 ≤ c.jyseps2_2) (px jx p : Int)
    (hg : 0 ≤ c.getGlobalXIndex px jx) (h0 : 0 ≤ p) (h1 : p < c.NYPE) : periodicY c px p jx = true ↔
      (kind c a b k d e (c.getGlobalXIndex px jx) p = .coreSN ∨ kind c a b k d e (c.getGlobalXIndex px jx) p = .coreDN) := by
  obtain ⟨_, _, ey, hM⟩ := h.sizes.split
  have key : ∀ j q : Int, j + 1 = q * c.MYSUB → (p * c.MYSUB > j ↔ q ≤ p) := by
    intro j q hq
    constructor
    · intro hh
      by_contra hn
      have := Int.mul_le_mul_of_nonneg_right (show p + 1 ≤ q by omega) (show 0 ≤ c.MYSUB by omega)
      rw [Int.add_mul, Int.one_mul] at this
      omega
    · intro hh
      have := Int.mul_le_mul_of_nonneg_right hh (show 0 ≤ c.MYSUB by omega)
      omega
  have A := key _ _ hc.ha
  have E := key _ _ hc.he
  have := hc.a0; have := hc.ae; have := hc.eN
  unfold periodicY mypeInCore
  rw [Bool.and_eq_true, decide_eq_true_iff, decide_eq_true_iff]
  generalize c.getGlobalXIndex px jx = x at *
  unfold kind
  by_cases dn : c.jyseps2_1 = c.jyseps1_2
  · have ei : (seps c).inner = c.ixseps1 := by unfold seps; rw [if_pos dn]
    rw [ei, if_pos dn]
    generalize p * c.MYSUB = P at *
    by_cases hx : x < c.ixseps1
    · rw [if_pos hx]
      by_cases hp : p < a ∨ e ≤ p
      · rw [if_pos hp]
        simp only [reduceCtorEq, or_self, iff_false]
        omega
      · rw [if_neg hp]
        simp only [true_or, iff_true]
        omega
    · rw [if_neg hx]
      simp only [reduceCtorEq, or_self, iff_false]
      omega
  · have B := key _ _ (hc.hb dn)
    have D := key _ _ (hc.hd dn)
    have := hc.ab dn; have := hc.bk dn; have := hc.kd dn; have := hc.de dn
    have ei : x < (seps c).inner ↔ x < c.ixseps1 ∧ x < c.ixseps2 := by
      unfold seps; rw [if_neg dn]
      split
      · simp only; omega
      · split <;> (simp only; omega)
    rw [if_neg dn, ei]
    have hgt : (seps c).inner > 0 ↔ 0 < c.ixseps1 ∧ 0 < c.ixseps2 := by
      unfold seps; rw [if_neg dn]
      split
      · simp only; omega
      · split <;> (simp only; omega)
    rw [hgt]
    generalize p * c.MYSUB = P at *
    by_cases c1 : x < c.ixseps1 ∧ (p < a ∨ e ≤ p)
    · rw [if_pos c1]
      simp only [reduceCtorEq, or_self, iff_false]
      omega
    rw [if_neg c1]
    by_cases c2 : x < c.ixseps2 ∧ b ≤ p ∧ p < d
    · rw [if_pos c2]
      simp only [reduceCtorEq, or_self, iff_false]
      omega
    rw [if_neg c2]
    by_cases c3 : x < c.ixseps1 ∧ x < c.ixseps2
    · rw [if_pos c3]
      simp only [or_true, iff_true]
      omega
    rw [if_neg c3]
    have : ¬ ((if x < c.ixseps2 then Kind.midLower else if x < c.ixseps1 then Kind.midUpper else if p < k then Kind.solIn else Kind.solOut) = Kind.coreSN ∨
      (if x < c.ixseps2 then Kind.midLower else if x < c.ixseps1 then Kind.midUpper else if p < k then Kind.solIn else Kind.solOut) = Kind.coreDN) := by
      split
      · simp
      · split
        · simp
        · split <;> simp
    simp only [this, iff_false]
    omega

end

/-! ### The theorems -/

/-- **C52.** On every rank `createCommunicators` succeeds, and the communicator `getYcomm(jx)`
consists of exactly the ranks of this X position that share a field line with this rank at
that radial position, without repetition. -/
theorem C52_ycomm_is_flux_surface (c : Cfg) (h : Layout c) (h21 : c.jyseps1_1 ≤ c.jyseps2_1)
    (h12 : c.jyseps1_2 ≤ c.jyseps2_2) (px py : Int) (x0 : 0 ≤ px) (x1 : px < c.NXPE) (y0 : 0 ≤ py) (y1 : py < c.NYPE) :
    ∃ s, createCommunicators c px py = .ok s ∧ ∀ jx, ∃ C, getYcomm c px s jx = some C ∧ C.group.Nodup ∧
      (∀ r ∈ C.group, ∃ q, 0 ≤ q ∧ q < c.NYPE ∧ r = c.PROC_NUM px q) ∧
      (∀ q, 0 ≤ q → q < c.NYPE → (c.PROC_NUM px q ∈ C.group ↔ SameSurface c (c.getGlobalXIndex px jx) py q)) := by
  obtain ⟨a, b, k, d, e, hc⟩ := h.cuts
  obtain ⟨s, es, _, hy, _⟩ := create_eq h hc x0 x1 y0 y1 h21 h12
  refine ⟨s, es, fun jx => ⟨_, hy jx, ?_, ?_, ?_⟩⟩
  · unfold commOf ranksOf
    apply List.Nodup.map
    · intro q q' hq
      have : q * c.NXPE = q' * c.NXPE := by simp only at hq; omega
      exact Int.eq_of_mul_eq_mul_right (by have := h.sizes.nxpe; omega) this
    · rw [surf_runs]
      exact runs_nodup (runs_disj hc _ py y0 y1)
  · intro r hr
    simp only [commOf, ranksOf, List.mem_map] at hr
    obtain ⟨q, hq, rfl⟩ := hr
    have hq' : 0 ≤ q ∧ q < c.NYPE := by
      have h1 := hq
      rw [surf_runs] at h1
      have hp := mem_surf_self hc (c.getGlobalXIndex px jx) py y0 y1
      rw [surf_runs] at hp
      rcases (joined hc (c.getGlobalXIndex px jx) py y0 y1).reach hp h1 with hr | hr
      · exact (kind_reach hc _ _ _ hr y0 y1).2
      · have := hc.a0; have := hc.ae; have := hc.eN
        revert hq
        unfold kind
        by_cases dn : c.jyseps2_1 = c.jyseps1_2
        · rw [if_pos dn]
          split
          · split <;> simp only [surf, List.mem_append, mem_ivl] <;> omega
          · simp only [surf, mem_ivl]; omega
        · have := hc.ab dn; have := hc.bk dn; have := hc.kd dn; have := hc.de dn
          rw [if_neg dn]
          split
          · simp only [surf, List.mem_append, mem_ivl]; omega
          split
          · simp only [surf, List.mem_append, mem_ivl]; omega
          split
          · simp only [surf, List.mem_append, mem_ivl]; omega
          split
          · simp only [surf, List.mem_append, mem_ivl]; omega
          split
          · simp only [surf, List.mem_append, mem_ivl]; omega
          split <;> simp only [surf, mem_ivl] <;> omega
    refine ⟨q, hq'.1, hq'.2, ?_⟩
    rw [procnum_in h.sizes x0 x1 hq'.1 hq'.2, show (px.toNat : Int) = px by omega]
  · intro q q0 q1
    rw [procnum_in h.sizes x0 x1 q0 q1, ← mem_surf_iff hc h _ _ _ y0 y1 q0 q1]
    have := mem_ranksOf h (a := a) (b := b) (k := k) (d := d) (e := e) x0 x1 (py := q)
      (K := kind c a b k d e (c.getGlobalXIndex px jx) py) (i := (px.toNat : Int)) (by omega) (by omega)
    rw [show (commOf c a b k d e (kind c a b k d e (c.getGlobalXIndex px jx) py) px.toNat).group =
      ranksOf c a b k d e (px.toNat : Int) (kind c a b k d e (c.getGlobalXIndex px jx) py) from rfl, this]
    constructor
    · exact fun hh => hh.2
    · exact fun hh => ⟨by omega, hh⟩

/-- **C52.** Rank order in the Y communicator is field-line order: the last row of each member
is followed, along the field, by the first row of the next member. -/
theorem C52_ycomm_order (c : Cfg) (h : Layout c) (h21 : c.jyseps1_1 ≤ c.jyseps2_1)
    (h12 : c.jyseps1_2 ≤ c.jyseps2_2) (px py : Int) (x0 : 0 ≤ px) (x1 : px < c.NXPE) (y0 : 0 ≤ py) (y1 : py < c.NYPE)
    (s : CSt) (hs : createCommunicators c px py = .ok s) (jx : Int) (C : Comm) (hC : getYcomm c px s jx = some C)
    (i : Nat) (p q : Int) (hp0 : 0 ≤ p) (hp1 : p < c.NYPE) (hq0 : 0 ≤ q) (hq1 : q < c.NYPE)
    (hp : C.group[i]? = some (c.PROC_NUM px p)) (hq : C.group[i + 1]? = some (c.PROC_NUM px q)) :
    upNeighbour c (c.getGlobalXIndex px jx) (p * c.MYSUB + (c.MYSUB - 1)) = some (q * c.MYSUB) := by
  obtain ⟨a, b, k, d, e, hc⟩ := h.cuts
  obtain ⟨s', es, _, hy, _⟩ := create_eq h hc x0 x1 y0 y1 h21 h12
  rw [es] at hs
  obtain rfl : s' = s := Except.ok.inj hs
  rw [hy jx] at hC
  obtain rfl := Option.some.inj hC
  have back : ∀ (i : Nat) (q : Int), 0 ≤ q → q < c.NYPE →
      (commOf c a b k d e (kind c a b k d e (c.getGlobalXIndex px jx) py) px.toNat).group[i]? = some (c.PROC_NUM px q) →
      (surf c a b k d e (kind c a b k d e (c.getGlobalXIndex px jx) py))[i]? = some q := by
    intro i q q0 q1 hq
    rw [procnum_in h.sizes x0 x1 q0 q1] at hq
    simp only [commOf, ranksOf, List.getElem?_map, Option.map_eq_some_iff] at hq
    obtain ⟨q', e1, e2⟩ := hq
    have : q' * c.NXPE = q * c.NXPE := by omega
    rw [e1, Int.eq_of_mul_eq_mul_right (by have := h.sizes.nxpe; omega) this]
  have p1 := back i p hp0 hp1 hp
  have q1 := back (i+1) q hq0 hq1 hq
  rw [surf_runs] at p1 q1
  have J := joined hc (c.getGlobalXIndex px jx) py y0 y1
  rw [upNeighbour_last h hc]
  rcases runs_next p1 q1 with ⟨l, r, e⟩ | ⟨l, r, e⟩ | ⟨l, r, e1, e2⟩
  · rw [J.run1 p l r, e]; rfl
  · rw [J.run2 p l r, e]; rfl
  · rw [e1, J.join l r, e2]; rfl

/-- **C52.** All members of a Y communicator hold the same communicator. -/
theorem C52_ycomm_agrees (c : Cfg) (h : Layout c) (h21 : c.jyseps1_1 ≤ c.jyseps2_1)
    (h12 : c.jyseps1_2 ≤ c.jyseps2_2) (px py qy : Int) (x0 : 0 ≤ px) (x1 : px < c.NXPE) (y0 : 0 ≤ py) (y1 : py < c.NYPE)
    (q0 : 0 ≤ qy) (q1 : qy < c.NYPE) (s t : CSt) (hs : createCommunicators c px py = .ok s)
    (ht : createCommunicators c px qy = .ok t) (jx : Int)
    (hsame : SameSurface c (c.getGlobalXIndex px jx) py qy) : getYcomm c px s jx = getYcomm c px t jx := by
  obtain ⟨a, b, k, d, e, hc⟩ := h.cuts
  obtain ⟨s', es, _, hy, _⟩ := create_eq h hc x0 x1 y0 y1 h21 h12
  obtain ⟨t', et, _, hy', _⟩ := create_eq h hc x0 x1 q0 q1 h21 h12
  rw [es] at hs
  rw [et] at ht
  obtain rfl : s' = s := Except.ok.inj hs
  obtain rfl : t' = t := Except.ok.inj ht
  rw [hy, hy']
  have : kind c a b k d e (c.getGlobalXIndex px jx) qy = kind c a b k d e (c.getGlobalXIndex px jx) py := by
    rcases (sameSurface_iff h hc _ _ _).mp hsame with hr | hr
    · exact (kind_reach hc _ _ _ hr y0 y1).1
    · exact (kind_reach hc _ _ _ hr q0 q1).1.symm
  rw [this]

/-- **C52.** The X communicator of a rank is its row of processors, in X order, and the same
for all of them. -/
theorem C52_xcomm_is_row (c : Cfg) (h : Layout c) (h21 : c.jyseps1_1 ≤ c.jyseps2_1)
    (h12 : c.jyseps1_2 ≤ c.jyseps2_2) (py : Int) (y0 : 0 ≤ py) (y1 : py < c.NYPE) :
    ∃ C, C.group = (List.range c.NXPE.toNat).map (fun i : Nat => c.PROC_NUM i py) ∧
      ∀ px, 0 ≤ px → px < c.NXPE → ∃ s, createCommunicators c px py = .ok s ∧ s.comm_x = some C := by
  obtain ⟨a, b, k, d, e, hc⟩ := h.cuts
  refine ⟨⟨py.toNat, false, rowOf c py⟩, ?_, ?_⟩
  · unfold rowOf ivl
    rw [List.map_map, Int.sub_zero]
    apply List.map_congr_left
    intro i hi
    rw [List.mem_range] at hi
    rw [procnum_in h.sizes (by omega) (by omega) y0 y1]
    simp only [Function.comp]
    omega
  · intro px x0 x1
    obtain ⟨s, es, hx, _, _⟩ := create_eq h hc x0 x1 y0 y1 h21 h12
    exact ⟨s, es, hx⟩

/-- **C52.** The collective calls match: there is one global sequence of collectives of which
every rank performs exactly those it belongs to, in that order.  (So no schedule can
deadlock: the first collective of the sequence not yet completed is the next call of every
one of its members.) -/
theorem C52_collectives_match (c : Cfg) (h : Layout c) (h21 : c.jyseps1_1 ≤ c.jyseps2_1)
    (h12 : c.jyseps1_2 ≤ c.jyseps2_2) : ∃ G : List Ev, ∀ px py, 0 ≤ px → px < c.NXPE → 0 ≤ py → py < c.NYPE →
      ∃ s, createCommunicators c px py = .ok s ∧ s.evs = G.filter (Ev.involves (c.PROC_NUM px py)) := by
  obtain ⟨a, b, k, d, e, hc⟩ := h.cuts
  refine ⟨script c a b k d e, fun px py x0 x1 y0 y1 => ?_⟩
  obtain ⟨s, es, _, _, hv⟩ := create_eq h hc x0 x1 y0 y1 h21 h12
  exact ⟨s, es, by rw [hv, procnum_in h.sizes x0 x1 y0 y1]⟩

/-- **C52.** `SurfaceIter::firstY`/`lastY` are true exactly on the ranks whose first/last row
is at a target, where the field line ends. -/
theorem C52_surface_ends (c : Cfg) (h : Layout c) (h21 : c.jyseps1_1 ≤ c.jyseps2_1)
    (h12 : c.jyseps1_2 ≤ c.jyseps2_2) (px py : Int) (x0 : 0 ≤ px) (x1 : px < c.NXPE) (y0 : 0 ≤ py) (y1 : py < c.NYPE)
    (s : CSt) (hs : createCommunicators c px py = .ok s) (jx : Int) (hg : 0 ≤ c.getGlobalXIndex px jx) :
    (surfFirstY c px py s jx = true ↔ downNeighbour c (c.getGlobalXIndex px jx) (py * c.MYSUB) = none) ∧
    (surfLastY c px py s jx = true ↔
      upNeighbour c (c.getGlobalXIndex px jx) (py * c.MYSUB + (c.MYSUB - 1)) = none) := by
  obtain ⟨a, b, k, d, e, hc⟩ := h.cuts
  obtain ⟨s', es, _, hy, _⟩ := create_eq h hc x0 x1 y0 y1 h21 h12
  rw [es] at hs
  obtain rfl : s' = s := Except.ok.inj hs
  have hper := periodic_kind hc h h21 h12 px jx py hg y0 y1
  have hends := ends hc (c.getGlobalXIndex px jx) py y0 y1
  rw [downNeighbour_first h hc, upNeighbour_last h hc, Option.map_eq_none_iff]
  unfold surfFirstY surfLastY firstYx lastYx yRank yCommSize
  rw [hy jx]
  have hmemK := mem_surf_self hc (c.getGlobalXIndex px jx) py y0 y1
  have hnd : (surf c a b k d e (kind c a b k d e (c.getGlobalXIndex px jx) py)).Nodup := by
    rw [surf_runs]
    exact runs_nodup (runs_disj hc _ py y0 y1)
  generalize kind c a b k d e (c.getGlobalXIndex px jx) py = K at *
  by_cases hcore : K = .coreSN ∨ K = .coreDN
  · rw [if_pos hcore] at hends
    rw [if_pos (hper.mpr hcore), if_pos (hper.mpr hcore)]
    exact ⟨⟨fun hh => absurd hh (by simp), fun hh => absurd hh hends.1⟩,
      ⟨fun hh => absurd hh (by simp), fun hh => absurd hh hends.2⟩⟩
  · rw [if_neg hcore] at hends
    rw [if_neg (fun hh => hcore (hper.mp hh)), if_neg (fun hh => hcore (hper.mp hh))]
    rw [← hends.1, ← hends.2]
    have hinj : Function.Injective (fun q : Int => q * c.NXPE + (px.toNat : Int)) := by
      intro q q' hq
      have : q * c.NXPE = q' * c.NXPE := by simp only at hq; omega
      exact Int.eq_of_mul_eq_mul_right (by have := h.sizes.nxpe; omega) this
    have hrank : c.PROC_NUM px py = py * c.NXPE + (px.toNat : Int) := by
      rw [procnum_in h.sizes x0 x1 y0 y1]; omega
    have hgm : c.PROC_NUM px py ∈ (commOf c a b k d e K px.toNat).group := by
      rw [hrank]
      exact List.mem_map_of_mem (f := fun q : Int => q * c.NXPE + (px.toNat : Int)) hmemK
    have hgn : (commOf c a b k d e K px.toNat).group.Nodup := List.Nodup.map hinj hnd
    have hget : ∀ i : Nat, (commOf c a b k d e K px.toNat).group[i]? = some (c.PROC_NUM px py) ↔
        (surf c a b k d e K)[i]? = some py := by
      intro i
      rw [hrank]
      simp only [commOf, ranksOf, List.getElem?_map, Option.map_eq_some_iff]
      constructor
      · rintro ⟨q', e1, e2⟩
        rw [e1, hinj e2]
      · intro hh; exact ⟨py, hh, rfl⟩
    have hlen : (commOf c a b k d e K px.toNat).group.length = (surf c a b k d e K).length := by
      simp [commOf, ranksOf]
    have hpos : 0 < (surf c a b k d e K).length := List.length_pos_of_mem hmemK
    simp only [Option.map_some, decide_eq_true_eq, Option.some.injEq]
    constructor
    · rw [idxOf_at hgn hgm, hget]
    · rw [hlen, ← hget, ← idxOf_at hgn hgm]
      omega

/-- **C52, part.** The full claim is that `ySize(jx)` is the number of rows of the surface, i.e.
the number of members of the Y communicator times the rows of each (which is how `Mesh::ySize`
computes it).  Proved outside the separatrices, and in the core on the inner side of the
machine; elsewhere see `C52_ysize_violated`. -/
theorem C52_ysize_partial (c : Cfg) (h : Layout c) (h21 : c.jyseps1_1 ≤ c.jyseps2_1)
    (h12 : c.jyseps1_2 ≤ c.jyseps2_2) (px py : Int) (x0 : 0 ≤ px) (x1 : px < c.NXPE) (y0 : 0 ≤ py) (y1 : py < c.NYPE)
    (s : CSt) (hs : createCommunicators c px py = .ok s) (jx : Int) (hg : 0 ≤ c.getGlobalXIndex px jx)
    (hwhere : (seps c).outer ≤ c.getGlobalXIndex px jx ∨
      (periodicY c px py jx = true ∧ c.getGlobalYIndexNoBoundaries py c.MYG ≤ c.jyseps2_1)) :
    meshYSize c px s jx = some (ySize c px py jx) := by
  obtain ⟨a, b, k, d, e, hc⟩ := h.cuts
  obtain ⟨s', es, _, hy, _⟩ := create_eq h hc x0 x1 y0 y1 h21 h12
  rw [es] at hs
  obtain rfl : s' = s := Except.ok.inj hs
  obtain ⟨_, _, ey, hM⟩ := h.sizes.split
  unfold meshYSize yCommSize
  rw [hy jx]
  simp only [Option.map_some, Option.some.injEq, commOf, ranksOf, List.length_map]
  have A := hc.ha; have E := hc.he
  have := hc.a0; have := hc.ae; have := hc.eN
  have hper := periodic_kind hc h h21 h12 px jx py hg y0 y1
  unfold Cfg.getGlobalYIndexNoBoundaries at hwhere
  rw [show c.MYG + py * c.MYSUB - c.MYG = py * c.MYSUB by omega] at hwhere
  have hyg : c.getGlobalYIndexNoBoundaries py c.MYG = py * c.MYSUB := by
    unfold Cfg.getGlobalYIndexNoBoundaries; omega
  unfold ySize
  simp only [hyg]
  rw [kind_region h hc x0 x1 y0 y1] at hper ⊢
  have hsl : (seps c).lower ≤ (seps c).outer ∧ (seps c).upper ≤ (seps c).outer ∧ (seps c).inner ≤ (seps c).outer := by
    unfold seps
    split
    · exact ⟨Int.le_refl _, Int.le_refl _, Int.le_refl _⟩
    · split
      · exact ⟨Int.le_refl _, Int.le_refl _, Int.le_refl _⟩
      · split <;> (simp only; omega)
  rcases hwhere with hx | ⟨hx, hx2⟩
  · rw [if_neg (by omega), if_neg (by omega), if_neg (by omega), if_neg (by omega), if_neg (by omega)]
    unfold outK
    by_cases sn : c.jyseps2_1 = c.jyseps1_2
    · rw [if_pos sn, if_pos sn.symm]
      simp only [surf, ivl_length]
      rw [show ((c.NYPE - 0).toNat : Int) = c.NYPE by omega]; omega
    · have sn' : ¬ c.jyseps1_2 = c.jyseps2_1 := fun hh => sn hh.symm
      have := hc.ab sn; have := hc.bk sn; have := hc.kd sn; have := hc.de sn
      have K := hc.hk sn
      rw [if_neg sn, if_neg sn', if_neg (show ¬ (c.getGlobalXIndex px jx ≥ (seps c).inner ∧ c.getGlobalXIndex px jx < (seps c).outer) by omega)]
      have hiff : py * c.MYSUB < c.ny_inner ↔ py < k := by
        rw [K]
        exact ⟨fun hh => mul_lt_imp hM hh, fun hh => by
          have := Int.mul_le_mul_of_nonneg_right (show py + 1 ≤ k by omega) (show 0 ≤ c.MYSUB by omega)
          rw [Int.add_mul, Int.one_mul] at this
          omega⟩
      by_cases hk : py < k
      · rw [if_pos hk, if_pos (hiff.mpr hk)]
        simp only [surf, ivl_length]
        rw [show ((k - 0).toNat : Int) = k by omega]; omega
      · rw [if_neg hk, if_neg (fun hh => hk (hiff.mp hh))]
        simp only [surf, ivl_length]
        rw [show ((c.NYPE - k).toNat : Int) = c.NYPE - k by omega, Int.sub_mul]; omega
  · have hcore := hper.mp hx
    have hx' := hx
    unfold periodicY mypeInCore at hx
    rw [Bool.and_eq_true, decide_eq_true_iff, decide_eq_true_iff] at hx
    rw [if_pos hx.2] at hcore ⊢
    have hle : c.jyseps2_1 ≤ c.jyseps1_2 := by
      by_cases sn : c.jyseps2_1 = c.jyseps1_2
      · omega
      · have := h.ordered.legUp1 sn; have := h.ordered.legUp2 sn; omega
    have hj : ¬ (py * c.MYSUB ≤ c.jyseps1_1 ∨ py * c.MYSUB > c.jyseps2_2) := by omega
    rw [if_neg (fun hh => hj hh.2), if_neg (by omega), if_pos hx.2]
    have hK : inK c a b d e py = coreK c := by
      unfold inK at hcore ⊢
      by_cases hl : py < a ∨ e ≤ py
      · rw [if_pos hl] at hcore; simp at hcore
      · rw [if_neg hl] at hcore ⊢
        by_cases hu : ¬ c.jyseps2_1 = c.jyseps1_2 ∧ b ≤ py ∧ py < d
        · rw [if_pos hu] at hcore; simp at hcore
        · rw [if_neg hu]
    rw [hK]
    unfold coreK
    by_cases sn : c.jyseps2_1 = c.jyseps1_2
    · rw [if_pos sn]
      simp only [surf, ivl_length]
      rw [show ((e - a).toNat : Int) = e - a by omega, Int.sub_mul]; omega
    · have := hc.ab sn; have := hc.bk sn; have := hc.kd sn; have := hc.de sn
      have B := hc.hb sn; have D := hc.hd sn
      rw [if_neg sn]
      simp only [surf, List.length_append, ivl_length]
      push_cast
      rw [show ((b - a).toNat : Int) = b - a by omega, show ((e - d).toNat : Int) = e - d by omega, Int.add_mul, Int.sub_mul, Int.sub_mul]
      omega

/-- **C52 violated (finding).** `BoutMesh::ySize` is wrong on every other kind of surface: in
a single null it is one too large in the private flux region (9 for 8 rows) and zero in the
outer half of the core (0 for 24 rows); in a double null the outer core answers with the
length of the upper private flux region (16 for 24), that region with the length of the core
(24 for 16), and the surfaces between the separatrices are one too long (33 for 32). -/
theorem C52_ysize_violated :
    (createCommunicators singleNull 0 0).toOption.map (fun s => (ySize singleNull 0 0 5, meshYSize singleNull 0 s 5)) = some (9, some 8) ∧
    (createCommunicators singleNull 0 4).toOption.map (fun s => (ySize singleNull 0 4 5, meshYSize singleNull 0 s 5)) = some (0, some 24) ∧
    (createCommunicators doubleNull 0 9).toOption.map (fun s => (ySize doubleNull 0 9 5, meshYSize doubleNull 0 s 5)) = some (16, some 24) ∧
    (createCommunicators doubleNull 0 5).toOption.map (fun s => (ySize doubleNull 0 5 5, meshYSize doubleNull 0 s 5)) = some (24, some 16) ∧
    (createCommunicators doubleNull 0 2).toOption.map (fun s => (ySize doubleNull 0 2 8, meshYSize doubleNull 0 s 8)) = some (33, some 32) := by
  decide +kernel

/-- Non-vacuous: two layouts that satisfy the hypotheses, with communicators on surfaces of
several kinds; the upper private flux communicator runs `6, 7, 4, 5` along the field. -/
example : Layout singleNull ∧ singleNull.jyseps1_1 ≤ singleNull.jyseps2_1 ∧ singleNull.jyseps1_2 ≤ singleNull.jyseps2_2 ∧
    Layout doubleNull ∧ doubleNull.jyseps1_1 ≤ doubleNull.jyseps2_1 ∧ doubleNull.jyseps1_2 ≤ doubleNull.jyseps2_2 :=
  ⟨singleNull_layout, by decide, by decide, doubleNull_layout, by decide, by decide⟩

example : (createCommunicators doubleNull 1 4).toOption.map (fun s => (getYcomm doubleNull 1 s (-5)).map Comm.group) =
    some (some [13, 15, 9, 11]) := by decide +kernel
example : (createCommunicators doubleNull 0 4).toOption.map (fun s => (getYcomm doubleNull 0 s 5).map Comm.group) =
    some (some [12, 14, 8, 10]) := by decide +kernel
example : (createCommunicators doubleNull 0 1).toOption.map (fun s => ((getYcomm doubleNull 0 s 5).map Comm.group,
    (getYcomm doubleNull 0 s 8).map Comm.group, surfFirstY doubleNull 0 1 s 5, surfFirstY doubleNull 0 1 s 8)) =
    some (some [2, 4, 6, 16, 18, 20], some [0, 2, 4, 6, 16, 18, 20, 22], false, false) := by decide +kernel

end Verif.Mesh
