import Verif.Invert.LaplaceSolvers
import Verif.Cyclic.Block
import Mathlib.Analysis.Complex.Basic
import Mathlib.LinearAlgebra.FiniteDimensional.Lemmas
import Mathlib.Tactic.Linarith
import Mathlib.Tactic.LinearCombination
import Mathlib.Tactic.FieldSimp

/-!
# C58: the serial solver with periodic X
-/

namespace Verif.Laplace

open Verif.Fourier Verif.Cyclic Finset Complex
open scoped Classical

theorem prev_one (n : Nat) (per : Bool) (x : Nat → ℂ) (j : Nat) :
    prevVal 1 (fun _ => n) per (fun _ => x) 0 j = if j ≠ 0 then x (j - 1) else if per then x (n - 1) else 0 := by
  unfold prevVal
  simp

theorem next_one (n : Nat) (per : Bool) (x : Nat → ℂ) (j : Nat) :
    nextVal 1 (fun _ => n) per (fun _ => x) 0 j = if j + 1 ≠ n then x (j + 1) else if per then x 0 else 0 := by
  unfold nextVal
  simp

/-- **C58.** `cyclic_tridag` (Sherman-Morrison on top of two LAPACK solves): what it returns solves the cyclic system, including the
corner coefficients. -/
theorem C58_cyclic_tridag (lap : Lapack) (hl : lap.Correct) (n : Nat) (rows : Nat → Row ℂ) (x : Nat → ℂ)
    (h : cyclicTridag lap n rows = .ok x) : Solves 1 (fun _ => n) true (fun _ => rows) (fun _ => x) := by
  unfold cyclicTridag at h
  by_cases hn : n ≤ 2
  · rw [if_pos hn] at h; cases h
  rw [if_neg hn] at h
  dsimp only at h
  by_cases hg : -(rows 0).b = 0
  · rw [if_pos hg] at h; cases h
  rw [if_neg hg] at h
  split at h
  · cases h
  · rename_i y hy
    split at h
    · cases h
    · rename_i z hz
      by_cases hd : 1 + z 0 + (rows 0).a * z (n - 1) / -(rows 0).b = 0
      · rw [if_pos hd] at h; cases h
      rw [if_neg hd] at h
      obtain rfl := Except.ok.inj h
      have hy' := hl _ _ _ hy
      have hz' := hl _ _ _ hz
      generalize hgam : -(rows 0).b = γ at *
      generalize hf : (y 0 + (rows 0).a * y (n - 1) / γ) / (1 + z 0 + (rows 0).a * z (n - 1) / γ) = fact at *
      have hfact : fact * (1 + z 0 + (rows 0).a * z (n - 1) / γ) = y 0 + (rows 0).a * y (n - 1) / γ := by
        rw [← hf]; exact div_mul_cancel₀ _ hd
      intro q hq j hj
      obtain rfl : q = 0 := by omega
      have ry := hy' 0 (by omega) j hj
      have rz := hz' 0 (by omega) j hj
      rw [prev_one, next_one] at ry rz ⊢
      replace hj : j < n := hj
      unfold Row.Holds at ry rz ⊢
      dsimp only at ry rz ⊢
      by_cases e0 : j = 0
      · subst e0
        simp only [if_pos rfl, ne_eq, not_true_eq_false, if_false, Bool.false_eq_true, if_true] at ry rz ⊢
        rw [if_pos (show ¬ (0 + 1 = n) by omega)] at ry rz ⊢
        have hfact' : fact * (γ + γ * z 0 + (rows 0).a * z (n - 1)) = γ * y 0 + (rows 0).a * y (n - 1) := by
          have h1 : γ * ((rows 0).a * z (n - 1) / γ) = (rows 0).a * z (n - 1) := mul_div_cancel₀ _ hg
          have h2 : γ * ((rows 0).a * y (n - 1) / γ) = (rows 0).a * y (n - 1) := mul_div_cancel₀ _ hg
          linear_combination γ * hfact - fact * h1 + h2
        linear_combination ry - fact * rz - hfact'
      · by_cases e1 : j = n - 1
        · simp only [if_neg e0, if_pos e1] at ry rz
          simp only [ne_eq, e0, not_false_eq_true, if_true] at ry rz ⊢
          have e2 : j + 1 = n := by omega
          simp only [e2, not_true_eq_false, if_false, Bool.false_eq_true, if_true] at ry rz ⊢
          rw [← e1] at rz hfact
          have h1 : (rows j).c * (rows 0).a / γ = (rows j).c * ((rows 0).a / γ) := by rw [mul_div_assoc]
          have h2 : (rows 0).a * z j / γ = (rows 0).a / γ * z j := by ring
          have h3 : (rows 0).a * y j / γ = (rows 0).a / γ * y j := by ring
          rw [h1] at ry rz
          rw [h2, h3] at hfact
          linear_combination ry - fact * rz - (rows j).c * hfact
        · simp only [if_neg e0, if_neg e1] at ry rz
          simp only [ne_eq, e0, not_false_eq_true, if_true] at ry rz ⊢
          have e2 : ¬ (j + 1 = n) := by omega
          simp only [e2, not_false_eq_true, if_true] at ry rz ⊢
          linear_combination ry - fact * rz


/-- `zgtsv` (elimination with partial pivoting) fails only on a singular matrix. -/
def Lapack.Complete (lap : Lapack) : Prop :=
  ∀ n rows, NonSingular 1 (fun _ => n) false (fun _ => rows) → ∃ u, lap n rows = .ok u

theorem strict_nonsingular {n : Nat} (hn : 2 ≤ n) {rows : Nat → Row ℂ} {θ β : ℝ} (hθ : 0 < θ) (hβ : 0 < β)
    (hd : ∀ j, j < n → Strict θ β (rows j)) (per : Bool) : NonSingular 1 (fun _ => n) per (fun _ => rows) := by
  refine block_nonsingular (θ := θ) (β := β) hθ hβ (k0 := 0) (k1 := 0) (fun _ _ => hn) ⟨by show 0 < n; omega, by show 0 < n; omega, fun _ => by show 0 + 0 < n; omega, ?_⟩
  intro q hq j hj
  have e : blockCls 1 (fun _ => n) 0 0 q j = 1 := by
    replace hj : j < n := hj
    unfold blockCls
    rw [if_neg (by omega), if_neg (by dsimp only; omega)]
  rw [e]
  exact hd j hj

/-- **C58.** For a strictly diagonally dominant cyclic system `cyclic_tridag` returns a solution. -/
theorem C58_cyclic_tridag_succeeds (lap : Lapack) (hl : lap.Correct) (hcm : lap.Complete) (n : Nat) (hn : 3 ≤ n) (rows : Nat → Row ℂ)
    {θ β : ℝ} (hθ : 0 < θ) (hθ1 : θ ≤ 1) (hβ : 0 < β) (hd : ∀ j, j < n → Strict θ β (rows j)) :
    ∃ x, cyclicTridag lap n rows = .ok x := by
  have hb : ∀ j, j < n → (rows j).b ≠ 0 := fun j hj => norm_pos_iff.1 (lt_of_lt_of_le hβ (hd j hj).2)
  have hg : -(rows 0).b ≠ 0 := neg_ne_zero.2 (hb 0 (by omega))
  -- the modified matrix
  have hmod : ∀ r : Nat → ℂ, ∀ m : Nat → Row ℂ, (∀ i, i < n → m i =
      ⟨(rows i).a, if i = 0 then (rows i).b - -(rows 0).b else if i = n - 1 then (rows i).b - (rows i).c * (rows 0).a / -(rows 0).b
        else (rows i).b, (rows i).c, r i⟩) → ∃ u, lap n m = .ok u := by
    intro r m hm
    refine hcm n m ?_
    have hns := strict_nonsingular (n := n) (by omega) (rows := fun i => if i = n - 1 then { m i with c := 0 } else m i) (θ := θ)
      (β := θ * β) hθ (mul_pos hθ hβ) (by
        intro j hj
        have h1 := (hd j hj).1
        have h2 := (hd j hj).2
        have hc := norm_nonneg (rows j).c
        have ha := norm_nonneg (rows j).a
        have h3 : θ * β ≤ β := by nlinarith
        dsimp only
        by_cases e1 : j = n - 1
        · rw [if_pos e1, hm j hj, if_neg (by omega), if_pos e1]
          have h0 := (hd 0 (by omega)).1
          have hc0 := norm_nonneg (rows 0).c
          have hb0 : 0 < ‖(rows 0).b‖ := norm_pos_iff.2 (hb 0 (by omega))
          have hq : ‖(rows j).c * (rows 0).a / -(rows 0).b‖ ≤ (1 - θ) * ‖(rows j).c‖ := by
            rw [norm_div, norm_mul, norm_neg, div_le_iff₀ hb0]
            have : ‖(rows 0).a‖ ≤ (1 - θ) * ‖(rows 0).b‖ := by linarith
            calc ‖(rows j).c‖ * ‖(rows 0).a‖ ≤ ‖(rows j).c‖ * ((1 - θ) * ‖(rows 0).b‖) := mul_le_mul_of_nonneg_left this hc
              _ = _ := by ring
          have hsub := norm_sub_norm_le (rows j).b ((rows j).c * (rows 0).a / -(rows 0).b)
          have hlow : ‖(rows j).b‖ - (1 - θ) * ‖(rows j).c‖ ≤ ‖(rows j).b - (rows j).c * (rows 0).a / -(rows 0).b‖ := by linarith
          constructor
          · rw [norm_zero, add_zero]
            have : (1 - θ) * (‖(rows j).b‖ - (1 - θ) * ‖(rows j).c‖) ≤ (1 - θ) * ‖(rows j).b - (rows j).c * (rows 0).a / -(rows 0).b‖ :=
              mul_le_mul_of_nonneg_left hlow (by linarith)
            have h5 : (1 - θ) * ((1 - θ) * ‖(rows j).c‖) ≤ ‖(rows j).c‖ := by
              have : (1 - θ) * (1 - θ) ≤ 1 := by nlinarith
              calc (1 - θ) * ((1 - θ) * ‖(rows j).c‖) = ((1 - θ) * (1 - θ)) * ‖(rows j).c‖ := by ring
                _ ≤ 1 * ‖(rows j).c‖ := mul_le_mul_of_nonneg_right this hc
                _ = _ := one_mul _
            show ‖(rows j).a‖ ≤ _
            nlinarith
          · refine le_trans ?_ hlow
            have h6 : (1 - θ) * ‖(rows j).c‖ ≤ (1 - θ) * ‖(rows j).b‖ := mul_le_mul_of_nonneg_left (by nlinarith [norm_nonneg (rows j).b]) (by linarith)
            nlinarith
        · rw [if_neg e1, hm j hj]
          by_cases e0 : j = 0
          · subst e0
            rw [if_pos rfl]
            have e : (rows 0).b - -(rows 0).b = 2 * (rows 0).b := by ring
            have e2 : ‖(rows 0).b - -(rows 0).b‖ = 2 * ‖(rows 0).b‖ := by rw [e, norm_mul]; norm_num
            constructor
            · show ‖(rows 0).a‖ + ‖(rows 0).c‖ ≤ (1 - θ) * ‖(rows 0).b - -(rows 0).b‖
              rw [e2]
              nlinarith [norm_nonneg (rows 0).b]
            · show θ * β ≤ ‖(rows 0).b - -(rows 0).b‖
              rw [e2]
              linarith
          · rw [if_neg e0, if_neg e1]
            exact ⟨h1, by show θ * β ≤ ‖(rows j).b‖; linarith⟩) false
    intro x hx q hq j hj
    refine hns x ?_ q hq j hj
    intro q hq j hj
    have := hx q hq j hj
    obtain rfl : q = 0 := by omega
    dsimp only
    by_cases e1 : j = n - 1
    · rw [if_pos e1]
      unfold Row.Holds Row.hom at this ⊢
      dsimp only at this ⊢
      have en : nextVal 1 (fun _ => n) false x 0 j = 0 := by
        unfold nextVal
        rw [if_neg (by dsimp only; omega), if_neg (by omega), if_neg (by simp)]
      rw [en, mul_zero] at this ⊢
      exact this
    · rw [if_neg e1]
      exact this
  unfold cyclicTridag
  rw [if_neg (by omega)]
  dsimp only
  rw [if_neg hg]
  obtain ⟨y, hy⟩ := hmod (fun i => (rows i).r) (fun i =>
        if i = 0 then { rows i with b := (rows i).b - -(rows 0).b }
        else if i = n - 1 then { rows i with b := (rows i).b - (rows i).c * (rows 0).a / -(rows 0).b }
        else rows i) (by intro i hi; dsimp only; split_ifs <;> rfl)
  rw [hy]
  dsimp only
  obtain ⟨z, hz⟩ := hmod (fun i => if i = 0 then -(rows 0).b else if i = n - 1 then (rows (n - 1)).c else 0) (fun i =>
        { (if i = 0 then { rows i with b := (rows i).b - -(rows 0).b }
        else if i = n - 1 then { rows i with b := (rows i).b - (rows i).c * (rows 0).a / -(rows 0).b }
        else rows i) with r := if i = 0 then -(rows 0).b else if i = n - 1 then (rows (n - 1)).c else 0 })
        (by intro i hi; dsimp only; split_ifs <;> rfl)
  rw [hz]
  dsimp only
  by_cases hden : 1 + z 0 + (rows 0).a * z (n - 1) / -(rows 0).b = 0
  swap
  · rw [if_neg hden]
    exact ⟨_, rfl⟩
  exfalso
  -- `z` would be in the kernel of the cyclic matrix
  have hz' := hl _ _ _ hz
  have hker := strict_nonsingular (by omega) hθ hβ hd true (fun _ => z) (by
    intro q hq j hj
    obtain rfl : q = 0 := by omega
    have rz := hz' 0 (by omega) j hj
    rw [prev_one, next_one] at rz ⊢
    replace hj : j < n := hj
    unfold Row.Holds at rz ⊢
    unfold Row.hom
    dsimp only at rz ⊢
    generalize hgam : -(rows 0).b = γ at *
    have h1 : γ * ((rows 0).a * z (n - 1) / γ) = (rows 0).a * z (n - 1) := mul_div_cancel₀ _ hg
    by_cases e0 : j = 0
    · subst e0
      simp only [if_pos rfl, ne_eq, not_true_eq_false, if_false, Bool.false_eq_true, if_true] at rz ⊢
      rw [if_pos (show ¬ (0 + 1 = n) by omega)] at rz ⊢
      linear_combination rz + γ * hden - h1
    · by_cases e1 : j = n - 1
      · simp only [if_neg e0, if_pos e1] at rz
        simp only [ne_eq, e0, not_false_eq_true, if_true] at rz ⊢
        have e2 : j + 1 = n := by omega
        simp only [e2, not_true_eq_false, if_false, Bool.false_eq_true, if_true] at rz ⊢
        rw [← e1] at rz hden
        have h2 : (rows 0).a * z j / γ = (rows 0).a / γ * z j := by ring
        have h3 : (rows j).c * (rows 0).a / γ = (rows j).c * ((rows 0).a / γ) := by rw [mul_div_assoc]
        rw [h2] at hden
        rw [h3] at rz
        linear_combination rz + (rows j).c * hden
      · simp only [if_neg e0, if_neg e1] at rz
        simp only [ne_eq, e0, not_false_eq_true, if_true] at rz ⊢
        have e2 : ¬ (j + 1 = n) := by omega
        simp only [e2, not_false_eq_true, if_true] at rz ⊢
        linear_combination rz)
  have z0 : z 0 = 0 := hker 0 (by omega) 0 (by show 0 < n; omega)
  have zn : z (n - 1) = 0 := hker 0 (by omega) (n - 1) (by show n - 1 < n; omega)
  rw [z0, zn, mul_zero, zero_div, add_zero, add_zero] at hden
  exact one_ne_zero hden

/-- The matrix as a linear map. -/
noncomputable def triMap (n : Nat) (rows : Nat → Row ℂ) : (Fin n → ℂ) →ₗ[ℂ] (Fin n → ℂ) where
  toFun v := fun j => (rows j).a * (if h : j.1 - 1 < n ∧ j.1 ≠ 0 then v ⟨j.1 - 1, h.1⟩ else 0) + (rows j).b * v j +
    (rows j).c * (if h : j.1 + 1 < n then v ⟨j.1 + 1, h⟩ else 0)
  map_add' v w := by
    funext j
    simp only [Pi.add_apply]
    split_ifs <;> ring
  map_smul' t v := by
    funext j
    simp only [Pi.smul_apply, smul_eq_mul, RingHom.id_apply]
    split_ifs <;> ring

theorem triMap_solves (n : Nat) (rows : Nat → Row ℂ) (u : Nat → ℂ) :
    Solves 1 (fun _ => n) false (fun _ => rows) (fun _ => u) ↔ triMap n rows (fun j : Fin n => u j) = fun j : Fin n => (rows j).r := by
  constructor
  · intro h
    funext j
    have := h 0 (by omega) j.1 j.2
    rw [prev_one, next_one] at this
    unfold Row.Holds at this
    rw [← this]
    show (rows j).a * _ + (rows j).b * u j + (rows j).c * _ = _
    have hj := j.2
    congr 2
    · by_cases e : j.1 = 0
      · simp [e]
      · rw [dif_pos ⟨by omega, e⟩, if_pos e]
    · by_cases e : j.1 + 1 = n
      · simp [e]
      · rw [dif_pos (by omega), if_pos e]
  · intro h q hq j hj
    obtain rfl : q = 0 := by omega
    replace hj : j < n := hj
    rw [prev_one, next_one]
    have := congrFun h ⟨j, hj⟩
    unfold Row.Holds
    rw [← this]
    show _ = (rows j).a * _ + (rows j).b * u j + (rows j).c * _
    congr 2
    · by_cases e : j = 0
      · simp [e]
      · rw [dif_pos ⟨by show j - 1 < n; omega, e⟩, if_pos e]
    · by_cases e : j + 1 = n
      · simp [e]
      · rw [dif_pos (by show j + 1 < n; omega), if_pos e]

theorem tri_solvable (n : Nat) (rows : Nat → Row ℂ) (h : NonSingular 1 (fun _ => n) false (fun _ => rows)) :
    ∃ u, Solves 1 (fun _ => n) false (fun _ => rows) (fun _ => u) := by
  have hinj : Function.Injective (triMap n rows) := by
    rw [injective_iff_map_eq_zero]
    intro v hv
    have hs : Solves 1 (fun _ => n) false (fun _ => fun j => (rows j).hom) (fun _ => fun i => if h : i < n then v ⟨i, h⟩ else 0) := by
      rw [triMap_solves]
      have : (fun j : Fin n => if h : j.1 < n then v ⟨j.1, h⟩ else 0) = v := by funext j; rw [dif_pos j.2]
      rw [this]
      exact hv
    have := h _ hs 0 (by omega)
    funext j
    have := this j.1 j.2
    rw [dif_pos j.2] at this
    exact this
  obtain ⟨v, hv⟩ := LinearMap.injective_iff_surjective.1 hinj (fun j : Fin n => (rows j).r)
  refine ⟨fun i => if h : i < n then v ⟨i, h⟩ else 0, ?_⟩
  rw [triMap_solves]
  have : (fun j : Fin n => if h : j.1 < n then v ⟨j.1, h⟩ else 0) = v := by funext j; rw [dif_pos j.2]
  rw [this]
  exact hv

/-- A LAPACK as specified exists, and with it `x_{i-1} - 3 x_i + x_{i+1}` on five points meets the hypotheses. -/
example : ∃ lap : Lapack, lap.Correct ∧ lap.Complete ∧ ∃ x, cyclicTridag lap 5 (fun _ => { a := 1, b := -3, c := 1, r := -1 }) = .ok x := by
  have key : ∃ lap : Lapack, lap.Correct ∧ lap.Complete := by
    refine ⟨fun n rows => if h : ∃ u, Solves 1 (fun _ => n) false (fun _ => rows) (fun _ => u) then .ok h.choose else .error "singular", ?_, ?_⟩
    · intro n rows u h
      dsimp only at h
      split at h
      · rename_i hex
        cases h
        exact hex.choose_spec
      · cases h
    · intro n rows h
      dsimp only
      rw [dif_pos (tri_solvable n rows h)]
      exact ⟨_, rfl⟩
  obtain ⟨lap, h1, h2⟩ := key
  refine ⟨lap, h1, h2, C58_cyclic_tridag_succeeds lap h1 h2 5 (by omega) _ (θ := 1 / 3) (β := 3) (by norm_num) (by norm_num) (by norm_num) ?_⟩
  intro j _
  constructor <;> norm_num

/-- **C58, violated with periodic X.** The row `tridagMatrix` replaces to fix the mean for periodic X (`kz = 0`) is row 0, a guard cell
that `LaplaceSerialTri` does not pass to `cyclic_tridag`.  Without the A coefficient all rows passed sum to zero, so a solution of
the mean is never determined: adding any constant to it gives another. -/
theorem C58_serial_periodic_mean_violated (o : LapOpts) (g : Geom) (C : Int → ℝ) (D : Int → ℝ) (n : Nat) (r : Nat → ℂ)
    (x : Nat → ℂ) (t : ℂ)
    (h : Solves 1 (fun _ => n) true (fun _ j =>
      let w := tridagCoefs o g (g.xstart + j) 0 (some (C, C)) (some D)
      { a := w.a, b := w.b, c := w.c, r := r j }) (fun _ => x)) :
    Solves 1 (fun _ => n) true (fun _ j =>
      let w := tridagCoefs o g (g.xstart + j) 0 (some (C, C)) (some D)
      { a := w.a, b := w.b, c := w.c, r := r j }) (fun _ i => x i + t) := by
  have hz : ∀ jx, (tridagCoefs o g jx 0 (some (C, C)) (some D)).a + (tridagCoefs o g jx 0 (some (C, C)) (some D)).b +
      (tridagCoefs o g jx 0 (some (C, C)) (some D)).c = 0 := by
    intro jx
    unfold tridagCoefs
    dsimp only
    apply Complex.ext
    · simp only [Complex.add_re, Complex.zero_re]; ring
    · simp only [Complex.add_im, Complex.zero_im]; ring
  intro q hq j hj
  obtain rfl : q = 0 := by omega
  have := h 0 (by omega) j hj
  rw [prev_one, next_one] at this ⊢
  unfold Row.Holds at this ⊢
  dsimp only at this ⊢
  have e := hz (g.xstart + j)
  have hp : (if j ≠ 0 then x (j - 1) + t else if true = true then x (n - 1) + t else 0) =
      (if j ≠ 0 then x (j - 1) else if true = true then x (n - 1) else 0) + t := by split_ifs <;> first | rfl | contradiction
  have hn : (if j + 1 ≠ n then x (j + 1) + t else if true = true then x 0 + t else 0) =
      (if j + 1 ≠ n then x (j + 1) else if true = true then x 0 else 0) + t := by split_ifs <;> first | rfl | contradiction
  rw [hp, hn]
  linear_combination this + t * e

end Verif.Laplace
