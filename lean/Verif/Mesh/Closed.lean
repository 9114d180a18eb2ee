/-
C19: `periodicY` is true exactly on the closed flux surfaces, those on which following the
field line along Y comes back to the row where it started.
-/
import Verif.Mesh.ConnWitness

namespace Verif.Mesh

/-- Specification: the row reached after `n` steps up the field line from row `y` at radial
position `x`; `none` once the field line has ended on a target plate. -/
def followUp (c : Cfg) (x : Int) : Nat → Int → Option Int
  | 0, y => some y
  | n + 1, y => (upNeighbour c x y).bind (followUp c x n)

/-- Specification: the flux surface through row `y` at radial position `x` is closed. -/
def ClosedSurface (c : Cfg) (x y : Int) : Prop := ∃ n, 0 < n ∧ followUp c x n y = some y

theorem followUp_add (c : Cfg) (x : Int) (m n : Nat) (y : Int) :
    followUp c x (m + n) y = (followUp c x m y).bind (followUp c x n) := by
  induction m generalizing y with
  | zero => simp [followUp]
  | succ m ih =>
    rw [Nat.succ_add]
    simp only [followUp]
    cases upNeighbour c x y with
    | none => rfl
    | some z => simpa using ih z

/-- A run of rows with no join and no target in it is walked one by one. -/
theorem followUp_run (c : Cfg) (x : Int) (n : Nat) (y : Int)
    (h : ∀ k : Int, y ≤ k → k < y + n → upNeighbour c x k = some (k + 1)) :
    followUp c x n y = some (y + n) := by
  induction n generalizing y with
  | zero => simp [followUp]
  | succ n ih =>
    simp only [followUp]
    rw [h y (by omega) (by omega)]
    simp only [Option.bind_some]
    rw [ih (y + 1) (fun k h1 h2 => h k (by omega) (by omega))]
    congr 1
    push_cast
    omega

theorem followUp_to (c : Cfg) (x y z : Int) (hyz : y ≤ z)
    (h : ∀ k : Int, y ≤ k → k < z → upNeighbour c x k = some (k + 1)) :
    followUp c x (z - y).toNat y = some z := by
  rw [followUp_run c x _ y (fun k h1 h2 => h k h1 (by omega))]
  congr 1
  omega

/-- A field line that ends is not closed. -/
theorem not_closed_of_ends (c : Cfg) (x y : Int) (m : Nat) (h : followUp c x m y = none) :
    ¬ ClosedSurface c x y := by
  rintro ⟨n, hn, hc⟩
  have hk : ∀ k, followUp c x (k * n) y = some y := by
    intro k
    induction k with
    | zero => simp [followUp]
    | succ k ih => rw [Nat.succ_mul, followUp_add, ih]; simpa using hc
  have hle : m ≤ m * n := Nat.le_mul_of_pos_right m hn
  have := hk m
  rw [show m * n = m + (m * n - m) by omega, followUp_add, h] at this
  simp at this

/-- Walking to `z`, from which the field line goes to `w`. -/
theorem followUp_jump (c : Cfg) (x y z w : Int) (hyz : y ≤ z)
    (h : ∀ k : Int, y ≤ k → k < z → upNeighbour c x k = some (k + 1))
    (hj : upNeighbour c x z = some w) :
    ∃ n, 0 < n ∧ followUp c x n y = some w := by
  refine ⟨(z - y).toNat + 1, by omega, ?_⟩
  rw [followUp_add, followUp_to c x y z hyz h]
  simp [followUp, hj]

theorem followUp_end (c : Cfg) (x y z : Int) (hyz : y ≤ z)
    (h : ∀ k : Int, y ≤ k → k < z → upNeighbour c x k = some (k + 1))
    (hj : upNeighbour c x z = none) :
    ∃ n, followUp c x n y = none := by
  refine ⟨(z - y).toNat + 1, ?_⟩
  rw [followUp_add, followUp_to c x y z hyz h]
  simp [followUp, hj]

theorem ends_trans (c : Cfg) (x y w : Int) (h1 : ∃ n, 0 < n ∧ followUp c x n y = some w)
    (h2 : ∃ n, followUp c x n w = none) : ∃ n, followUp c x n y = none := by
  obtain ⟨n, _, hn⟩ := h1
  obtain ⟨m, hm⟩ := h2
  exact ⟨n + m, by rw [followUp_add, hn]; simpa using hm⟩

theorem reach_trans (c : Cfg) (x y w v : Int) (h1 : ∃ n, 0 < n ∧ followUp c x n y = some w)
    (h2 : ∃ n, 0 < n ∧ followUp c x n w = some v) :
    ∃ n, 0 < n ∧ followUp c x n y = some v := by
  obtain ⟨n, hn0, hn⟩ := h1
  obtain ⟨m, _, hm⟩ := h2
  exact ⟨n + m, by omega, by rw [followUp_add, hn]; simpa using hm⟩

theorem reach_refl_trans (c : Cfg) (x y w v : Int) (h1 : ∃ n, 0 < n ∧ followUp c x n y = some w)
    (hwv : w ≤ v) (h : ∀ k : Int, w ≤ k → k < v → upNeighbour c x k = some (k + 1)) :
    ∃ n, 0 < n ∧ followUp c x n y = some v := by
  obtain ⟨n, hn0, hn⟩ := h1
  exact ⟨n + (v - w).toNat, by omega, by
    rw [followUp_add, hn]; simpa using followUp_to c x w v hwv h⟩

/-- The row `y` lies in the core and `x` inside both separatrices. -/
theorem closed_iff (c : Cfg) (h : Ordered c) (h21 : c.jyseps1_1 ≤ c.jyseps2_1)
    (h12 : c.jyseps1_2 ≤ c.jyseps2_2) (x y : Int) (hy0 : 0 ≤ y) (hy1 : y < c.ny) :
    ClosedSurface c x y ↔ (x < (seps c).inner ∧
      ((c.jyseps1_1 < y ∧ y ≤ c.jyseps2_1) ∨ (c.jyseps1_2 < y ∧ y ≤ c.jyseps2_2))) := by
  obtain ⟨lo, hi, core, inner, l1, l2, outer, legs⟩ := h
  by_cases hd : c.jyseps2_1 = c.jyseps1_2
  · -- single null
    have hND : ¬ DoubleNull c := fun hh => hh hd
    have core := core hND
    have hin : (seps c).inner = c.ixseps1 := by unfold seps; rw [if_pos hd]
    rw [hin]
    have up : ∀ k, upNeighbour c x k = if x < c.ixseps1 ∧ k = c.jyseps2_2 then
        some (c.jyseps1_1 + 1)
        else if x < c.ixseps1 ∧ k = c.jyseps1_1 then some (c.jyseps2_2 + 1)
        else if k = c.ny - 1 then none else some (k + 1) := by
      intro k
      unfold upNeighbour
      simp only [hND, false_and, if_false]
    have upn : ∀ k, ¬ (x < c.ixseps1 ∧ k = c.jyseps2_2) → ¬ (x < c.ixseps1 ∧ k = c.jyseps1_1) →
        k ≠ c.ny - 1 → upNeighbour c x k = some (k + 1) := by
      intro k e1 e2 e3
      rw [up, if_neg e1, if_neg e2, if_neg e3]
    -- the outer leg always ends
    have tail : ∀ z, c.jyseps2_2 < z → z < c.ny → ∃ n, followUp c x n z = none := by
      intro z z0 z1
      refine followUp_end c x z (c.ny - 1) (by omega)
        (fun k k0 k1 => upn k (by omega) (by omega) (by omega)) ?_
      rw [up, if_neg (by omega), if_neg (by omega), if_pos rfl]
    by_cases hx : x < c.ixseps1
    · by_cases hyc : c.jyseps1_1 < y ∧ y ≤ c.jyseps2_2
      · refine iff_of_true ?_ ⟨hx, by omega⟩
        refine reach_refl_trans c x y (c.jyseps1_1 + 1) y ?_ (by omega)
          (fun k k0 k1 => upn k (by omega) (by omega) (by omega))
        exact followUp_jump c x y c.jyseps2_2 _ hyc.2
          (fun k k0 k1 => upn k (by omega) (by omega) (by omega))
          (by rw [up, if_pos ⟨hx, rfl⟩])
      · refine iff_of_false ?_ (fun hh => hyc (by omega))
        have : ∃ n, followUp c x n y = none := by
          by_cases hl : c.jyseps2_2 < y
          · exact tail y hl hy1
          · refine ends_trans c x y (c.jyseps2_2 + 1) ?_ (tail _ (by omega) (by omega))
            exact followUp_jump c x y c.jyseps1_1 _ (by omega)
              (fun k k0 k1 => upn k (by omega) (by omega) (by omega))
              (by rw [up, if_neg (by omega), if_pos ⟨hx, rfl⟩])
        obtain ⟨n, hn⟩ := this
        exact not_closed_of_ends c x y n hn
    · refine iff_of_false ?_ (fun hh => hx hh.1)
      obtain ⟨n, hn⟩ := followUp_end c x y (c.ny - 1) (by omega)
        (fun k k0 k1 => upn k (by omega) (by omega) (by omega))
        (by rw [up, if_neg (by omega), if_neg (by omega), if_pos rfl])
      exact not_closed_of_ends c x y n hn
  · -- double null
    have hD : DoubleNull c := hd
    have inner := inner hD
    have l1 := l1 hD
    have l2 := l2 hD
    have outer := outer hD
    have hin : (seps c).inner = min c.ixseps1 c.ixseps2 := by
      unfold seps
      rw [if_neg hd]
      split_ifs <;> simp only <;> omega
    rw [hin]
    have up : ∀ k, upNeighbour c x k = if x < c.ixseps1 ∧ k = c.jyseps2_2 then
        some (c.jyseps1_1 + 1)
        else if x < c.ixseps1 ∧ k = c.jyseps1_1 then some (c.jyseps2_2 + 1)
        else if x < c.ixseps2 ∧ k = c.jyseps2_1 then some (c.jyseps1_2 + 1)
        else if x < c.ixseps2 ∧ k = c.jyseps1_2 then some (c.jyseps2_1 + 1)
        else if k = c.ny_inner - 1 then none
        else if k = c.ny - 1 then none else some (k + 1) := by
      intro k
      unfold upNeighbour
      simp only [hD, true_and]
    have upn : ∀ k, ¬ (x < c.ixseps1 ∧ k = c.jyseps2_2) → ¬ (x < c.ixseps1 ∧ k = c.jyseps1_1) →
        ¬ (x < c.ixseps2 ∧ k = c.jyseps2_1) → ¬ (x < c.ixseps2 ∧ k = c.jyseps1_2) →
        k ≠ c.ny_inner - 1 → k ≠ c.ny - 1 → upNeighbour c x k = some (k + 1) := by
      intro k e1 e2 e3 e4 e5 e6
      rw [up, if_neg e1, if_neg e2, if_neg e3, if_neg e4, if_neg e5, if_neg e6]
    -- the outer lower leg ends at the outer target
    have tail1 : ∀ z, c.jyseps2_2 < z → z < c.ny → ∃ n, followUp c x n z = none := by
      intro z z0 z1
      refine followUp_end c x z (c.ny - 1) (by omega)
        (fun k k0 k1 => upn k (by omega) (by omega) (by omega) (by omega) (by omega) (by omega)) ?_
      rw [up, if_neg (by omega), if_neg (by omega), if_neg (by omega), if_neg (by omega),
        if_neg (by omega), if_pos rfl]
    -- the inner upper leg ends at the inner upper target
    have tail2 : ∀ z, c.jyseps2_1 < z → z < c.ny_inner → ∃ n, followUp c x n z = none := by
      intro z z0 z1
      refine followUp_end c x z (c.ny_inner - 1) (by omega)
        (fun k k0 k1 => upn k (by omega) (by omega) (by omega) (by omega) (by omega) (by omega)) ?_
      rw [up, if_neg (by omega), if_neg (by omega), if_neg (by omega), if_neg (by omega),
        if_pos rfl]
    have finish : (∃ n, followUp c x n y = none) → ¬ ClosedSurface c x y := by
      rintro ⟨n, hn⟩
      exact not_closed_of_ends c x y n hn
    by_cases h1 : x < c.ixseps1 <;> by_cases h2 : x < c.ixseps2
    · -- inside both separatrices
      by_cases hyc : (c.jyseps1_1 < y ∧ y ≤ c.jyseps2_1) ∨ (c.jyseps1_2 < y ∧ y ≤ c.jyseps2_2)
      · refine iff_of_true ?_ ⟨by omega, hyc⟩
        have A : ∀ z, c.jyseps1_1 < z → z ≤ c.jyseps2_1 →
            ∃ n, 0 < n ∧ followUp c x n z = some (c.jyseps1_2 + 1) := by
          intro z z0 z1
          exact followUp_jump c x z c.jyseps2_1 _ z1
            (fun k k0 k1 => upn k (by omega) (by omega) (by omega) (by omega) (by omega)
              (by omega))
            (by rw [up, if_neg (by omega), if_neg (by omega), if_pos ⟨h2, rfl⟩])
        have B : ∀ z, c.jyseps1_2 < z → z ≤ c.jyseps2_2 →
            ∃ n, 0 < n ∧ followUp c x n z = some (c.jyseps1_1 + 1) := by
          intro z z0 z1
          exact followUp_jump c x z c.jyseps2_2 _ z1
            (fun k k0 k1 => upn k (by omega) (by omega) (by omega) (by omega) (by omega)
              (by omega))
            (by rw [up, if_pos ⟨h1, rfl⟩])
        rcases hyc with ⟨y0, y1⟩ | ⟨y0, y1⟩
        · refine reach_refl_trans c x y (c.jyseps1_1 + 1) y
            (reach_trans c x y _ _ (A y y0 y1) (B _ (by omega) (by omega))) (by omega)
            (fun k k0 k1 => upn k (by omega) (by omega) (by omega) (by omega) (by omega)
              (by omega))
        · refine reach_refl_trans c x y (c.jyseps1_2 + 1) y
            (reach_trans c x y _ _ (B y y0 y1) (A _ (by omega) (by omega))) (by omega)
            (fun k k0 k1 => upn k (by omega) (by omega) (by omega) (by omega) (by omega)
              (by omega))
      · refine iff_of_false (finish ?_) (fun hh => hyc hh.2)
        by_cases r1 : y ≤ c.jyseps1_1
        · refine ends_trans c x y (c.jyseps2_2 + 1) ?_ (tail1 _ (by omega) (by omega))
          exact followUp_jump c x y c.jyseps1_1 _ r1
            (fun k k0 k1 => upn k (by omega) (by omega) (by omega) (by omega) (by omega)
              (by omega))
            (by rw [up, if_neg (by omega), if_pos ⟨h1, rfl⟩])
        · by_cases r2 : c.jyseps2_2 < y
          · exact tail1 y r2 hy1
          · by_cases r3 : y < c.ny_inner
            · exact tail2 y (by omega) r3
            · refine ends_trans c x y (c.jyseps2_1 + 1) ?_ (tail2 _ (by omega) (by omega))
              exact followUp_jump c x y c.jyseps1_2 _ (by omega)
                (fun k k0 k1 => upn k (by omega) (by omega) (by omega) (by omega) (by omega)
                  (by omega))
                (by rw [up, if_neg (by omega), if_neg (by omega), if_neg (by omega),
                  if_pos ⟨h2, rfl⟩])
    · -- inside the lower separatrix only
      refine iff_of_false (finish ?_) (fun hh => by omega)
      have T : ∀ z, c.jyseps1_1 < z → z < c.ny_inner → ∃ n, followUp c x n z = none := by
        intro z z0 z1
        refine followUp_end c x z (c.ny_inner - 1) (by omega)
          (fun k k0 k1 => upn k (by omega) (by omega) (by omega) (by omega) (by omega) (by omega)) ?_
        rw [up, if_neg (by omega), if_neg (by omega), if_neg (by omega), if_neg (by omega),
          if_pos rfl]
      by_cases r1 : y ≤ c.jyseps1_1
      · refine ends_trans c x y (c.jyseps2_2 + 1) ?_ (tail1 _ (by omega) (by omega))
        exact followUp_jump c x y c.jyseps1_1 _ r1
          (fun k k0 k1 => upn k (by omega) (by omega) (by omega) (by omega) (by omega)
            (by omega))
          (by rw [up, if_neg (by omega), if_pos ⟨h1, rfl⟩])
      · by_cases r2 : c.jyseps2_2 < y
        · exact tail1 y r2 hy1
        · by_cases r3 : y < c.ny_inner
          · exact T y (by omega) r3
          · refine ends_trans c x y (c.jyseps1_1 + 1) ?_ (T _ (by omega) (by omega))
            exact followUp_jump c x y c.jyseps2_2 _ (by omega)
              (fun k k0 k1 => upn k (by omega) (by omega) (by omega) (by omega) (by omega)
                (by omega))
              (by rw [up, if_pos ⟨h1, rfl⟩])
    · -- inside the upper separatrix only
      refine iff_of_false (finish ?_) (fun hh => by omega)
      have T : ∀ z, c.jyseps1_2 < z → z < c.ny → ∃ n, followUp c x n z = none := by
        intro z z0 z1
        refine followUp_end c x z (c.ny - 1) (by omega)
          (fun k k0 k1 => upn k (by omega) (by omega) (by omega) (by omega) (by omega) (by omega)) ?_
        rw [up, if_neg (by omega), if_neg (by omega), if_neg (by omega), if_neg (by omega),
          if_neg (by omega), if_pos rfl]
      by_cases r1 : y ≤ c.jyseps2_1
      · refine ends_trans c x y (c.jyseps1_2 + 1) ?_ (T _ (by omega) (by omega))
        exact followUp_jump c x y c.jyseps2_1 _ r1
          (fun k k0 k1 => upn k (by omega) (by omega) (by omega) (by omega) (by omega)
            (by omega))
          (by rw [up, if_neg (by omega), if_neg (by omega), if_pos ⟨h2, rfl⟩])
      · by_cases r2 : c.jyseps1_2 < y
        · exact T y r2 hy1
        · by_cases r3 : y < c.ny_inner
          · exact tail2 y (by omega) r3
          · refine ends_trans c x y (c.jyseps2_1 + 1) ?_ (tail2 _ (by omega) (by omega))
            exact followUp_jump c x y c.jyseps1_2 _ (by omega)
              (fun k k0 k1 => upn k (by omega) (by omega) (by omega) (by omega) (by omega)
                (by omega))
              (by rw [up, if_neg (by omega), if_neg (by omega), if_neg (by omega),
                if_pos ⟨h2, rfl⟩])
    · -- outside both
      refine iff_of_false (finish ?_) (fun hh => by omega)
      by_cases r3 : y < c.ny_inner
      · refine followUp_end c x y (c.ny_inner - 1) (by omega)
          (fun k k0 k1 => upn k (by omega) (by omega) (by omega) (by omega) (by omega) (by omega)) ?_
        rw [up, if_neg (by omega), if_neg (by omega), if_neg (by omega), if_neg (by omega),
          if_pos rfl]
      · refine followUp_end c x y (c.ny - 1) (by omega)
          (fun k k0 k1 => upn k (by omega) (by omega) (by omega) (by omega) (by omega) (by omega)) ?_
        rw [up, if_neg (by omega), if_neg (by omega), if_neg (by omega), if_neg (by omega),
          if_neg (by omega), if_pos rfl]

/-- **C19.** `periodicY(jx)` answers true on a rank exactly when the flux surface at that
column is closed: following the field line up from any row of the rank comes back to the
same row.  The two extra hypotheses are the ordering that `setYDecompositionIndices`
establishes. -/
theorem C19_periodicY_iff_closed (c : Cfg) (h : Layout c) (h21 : c.jyseps1_1 ≤ c.jyseps2_1)
    (h12 : c.jyseps1_2 ≤ c.jyseps2_2) (px py jx jy : Int) (hx0 : 0 ≤ px)
    (hy0 : 0 ≤ py) (hy1 : py < c.NYPE) (j0 : 0 ≤ jx)
    (k0 : c.ystart ≤ jy) (k1 : jy ≤ c.yend) :
    periodicY c px py jx = true ↔
      ClosedSurface c (c.getGlobalXIndex px jx) (c.getGlobalYIndexNoBoundaries py jy) := by
  obtain ⟨a, b, k, d, e, hc⟩ := h.cuts
  obtain ⟨_, _, ey, hM⟩ := h.sizes.split
  obtain ⟨hxs, _, _, _⟩ := h.sizes.split
  have hX : 0 ≤ px * c.MXSUB := Int.mul_nonneg hx0 (by omega)
  have hgy : c.getGlobalYIndexNoBoundaries py jy = py * c.MYSUB + (jy - c.MYG) := by
    unfold Cfg.getGlobalYIndexNoBoundaries; omega
  unfold Cfg.ystart at k0
  unfold Cfg.yend at k1
  have hw0 : 0 ≤ py * c.MYSUB := Int.mul_nonneg hy0 (by omega)
  have hw1 : py * c.MYSUB + c.MYSUB ≤ c.ny := by
    have := Int.mul_le_mul_of_nonneg_right (show py + 1 ≤ c.NYPE by omega)
      (show 0 ≤ c.MYSUB by omega)
    rw [Int.add_mul, Int.one_mul] at this
    omega
  rw [closed_iff c h.ordered h21 h12 _ _ (by omega) (by omega), hgy]
  unfold periodicY mypeInCore
  rw [Bool.and_eq_true, decide_eq_true_iff, decide_eq_true_iff]
  have hgx : 0 ≤ c.getGlobalXIndex px jx := by unfold Cfg.getGlobalXIndex; omega
  have key : ∀ j q : Int, j + 1 = q * c.MYSUB →
      (py * c.MYSUB > j ↔ py * c.MYSUB + (jy - c.MYG) > j) ∧
      (py * c.MYSUB ≤ j ↔ py * c.MYSUB + (jy - c.MYG) ≤ j) := by
    intro j q hq
    have : py * c.MYSUB > j ↔ py * c.MYSUB + (jy - c.MYG) > j := by
      constructor
      · intro; omega
      · intro hh
        by_contra hn
        have : py < q := mul_lt_imp hM (by omega)
        have := Int.mul_le_mul_of_nonneg_right (show py + 1 ≤ q by omega)
          (show 0 ≤ c.MYSUB by omega)
        rw [Int.add_mul, Int.one_mul] at this
        omega
    exact ⟨this, by omega⟩
  have k11 := key _ _ hc.ha
  have k22 := key _ _ hc.he
  by_cases hd : DoubleNull c
  · have k21 := key _ _ (hc.hb hd)
    have k12 := key _ _ (hc.hd hd)
    generalize (seps c).inner = X at *
    generalize py * c.MYSUB = P at *
    omega
  · have hd' : c.jyseps2_1 = c.jyseps1_2 := by by_contra hn; exact hd hn
    generalize (seps c).inner = X at *
    generalize py * c.MYSUB = P at *
    omega

/-- Non-vacuous: closed surfaces and open ones in an unbalanced double null. -/
example : periodicY doubleNull 0 1 5 = true ∧ periodicY doubleNull 0 1 7 = false ∧
    periodicY doubleNull 0 0 5 = false := by decide
example : doubleNull.jyseps1_1 ≤ doubleNull.jyseps2_1 ∧
    doubleNull.jyseps1_2 ≤ doubleNull.jyseps2_2 := by decide
example : ClosedSurface doubleNull 5 5 := ⟨24, by decide, by decide⟩

end Verif.Mesh
