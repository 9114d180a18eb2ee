import Verif.Num.FluxProps
import Mathlib.Tactic.NormNum

/-! # C29: conservation of the parallel diffusion operators -/
namespace Verif.Num

variable {K : Type} [Field K] [LinearOrder K] [IsStrictOrderedRing K]

open Finset

/-! ## `Div_par_K_Grad_par` -/

/-- Specification: the diffusive flux through the face between rows `j` and `j + 1`, `K J / g_22 df/dy` with all the
coefficients averaged to the face. -/
def diffFlux (C : Col K) (Kc : Int → K) (j : Int) : K :=
  (Kc j + Kc (j + 1)) / 2 * ((C.J j + C.J (j + 1)) / 2) * ((C.f (j + 1) - C.f j) / ((C.dy j + C.dy (j + 1)) / 2)) /
    ((C.g22 j + C.g22 (j + 1)) / 2)

/-- The flux through the face between `j` and `j + 1` of a rank: none through a target unless `bndry_flux`. -/
def diffFace (R : YRank) (bndry_flux : Bool) (C : Col K) (Kc : Int → K) (j : Int) : K :=
  if bndry_flux = false ∧ R.periodicY = false ∧
      ((R.lastY = true ∧ j = R.yend) ∨ (R.firstY = true ∧ j + 1 = R.ystart)) then 0
  else diffFlux C Kc j

theorem diffFlux_code (C : Col K) (Kc : Int → K) (j : Int) :
    1/2 * (Kc j + Kc (j + 1)) * (1/2 * (C.J j + C.J (j + 1))) *
      (2 * (C.f (j + 1) - C.f j) / (C.dy j + C.dy (j + 1))) / (1/2 * (C.g22 j + C.g22 (j + 1))) =
    diffFlux C Kc j := by
  unfold diffFlux
  have : (C.f (j + 1) - C.f j) / ((C.dy j + C.dy (j + 1)) / 2) =
      2 * (C.f (j + 1) - C.f j) / (C.dy j + C.dy (j + 1)) := by
    rw [div_div_eq_mul_div, mul_comm]
  rw [this, show (C.g22 j + C.g22 (j + 1)) / 2 = 1/2 * (C.g22 j + C.g22 (j + 1)) by ring]
  congr 1
  ring

/-- **C29.** `Div_par_K_Grad_par` in a cell is the difference of the two face fluxes over the cell's volume. -/
theorem C29_div_par_K_Grad_par_cell (R : YRank) (bndry_flux : Bool) (C : Col K) (Kc : Int → K) (j : Int)
    (h0 : R.ystart ≤ j) (h1 : j ≤ R.yend) (hV : C.dy j * C.J j ≠ 0) :
    divParKGradPar R bndry_flux C Kc j * (C.dy j * C.J j) =
      diffFace R bndry_flux C Kc j - diffFace R bndry_flux C Kc (j - 1) := by
  have up : (if bndry_flux = true ∨ R.periodicY = true ∨ R.lastY = false ∨ j ≠ R.yend then
      (0 : K) + 1/2 * (Kc j + Kc (j + 1)) * (1/2 * (C.J j + C.J (j + 1))) *
      (2 * (C.f (j + 1) - C.f j) / (C.dy j + C.dy (j + 1))) / (1/2 * (C.g22 j + C.g22 (j + 1))) / (C.dy j * C.J j)
      else 0) = diffFace R bndry_flux C Kc j / (C.dy j * C.J j) := by
    unfold diffFace
    rw [diffFlux_code, zero_add]
    by_cases hb : bndry_flux = true ∨ R.periodicY = true ∨ R.lastY = false ∨ j ≠ R.yend
    · rw [if_pos hb, if_neg]
      rintro ⟨a, b, c⟩
      rcases c with ⟨c, d⟩ | ⟨c, d⟩
      · simp [a, b, c, d] at hb
      · omega
    · rw [if_neg hb, if_pos, zero_div]
      push Not at hb
      exact ⟨by simpa using hb.1, by simpa using hb.2.1, Or.inl ⟨by simpa using hb.2.2.1, hb.2.2.2⟩⟩
  have down : (if bndry_flux = true ∨ R.periodicY = true ∨ R.firstY = false ∨ j ≠ R.ystart then
      1/2 * (Kc j + Kc (j - 1)) * (1/2 * (C.J j + C.J (j - 1))) *
      (2 * (C.f j - C.f (j - 1)) / (C.dy j + C.dy (j - 1))) / (1/2 * (C.g22 j + C.g22 (j - 1))) / (C.dy j * C.J j)
      else 0) = diffFace R bndry_flux C Kc (j - 1) / (C.dy j * C.J j) := by
    unfold diffFace
    have e := diffFlux_code C Kc (j - 1)
    rw [show j - 1 + 1 = j by omega, add_comm (Kc (j - 1)), add_comm (C.J (j - 1)), add_comm (C.dy (j - 1)),
      add_comm (C.g22 (j - 1))] at e
    rw [e, show j - 1 + 1 = j by omega]
    by_cases hb : bndry_flux = true ∨ R.periodicY = true ∨ R.firstY = false ∨ j ≠ R.ystart
    · rw [if_pos hb, if_neg]
      rintro ⟨a, b, c⟩
      rcases c with ⟨c, d⟩ | ⟨c, d⟩
      · omega
      · simp [a, b, c, d] at hb
    · rw [if_neg hb, if_pos, zero_div]
      push Not at hb
      exact ⟨by simpa using hb.1, by simpa using hb.2.1, Or.inr ⟨by simpa using hb.2.2.1, hb.2.2.2⟩⟩
  have : divParKGradPar R bndry_flux C Kc j =
      diffFace R bndry_flux C Kc j / (C.dy j * C.J j) - diffFace R bndry_flux C Kc (j - 1) / (C.dy j * C.J j) := by
    rw [← up, ← down]
    unfold divParKGradPar
    simp only
    by_cases hd : bndry_flux = true ∨ R.periodicY = true ∨ R.firstY = false ∨ j ≠ R.ystart
    · rw [if_pos hd, if_pos hd]
    · rw [if_neg hd, if_neg hd, sub_zero]
  rw [this, ← sub_div, div_mul_cancel₀ _ hV]

theorem diffFlux_shift (G : Col K) (Kc : Int → K) (off j : Int) :
    diffFlux (G.shift off) (fun j => Kc (j + off)) j = diffFlux G Kc (j + off) := by
  unfold diffFlux Col.shift
  simp only
  rw [show j + 1 + off = j + off + 1 by omega]

/-- **C29.** Conservation of parallel diffusion on an open field line divided between any number of processors: with
`bndry_flux` the total of `J dy * result` is the flux through the two targets, and without it the total is zero. -/
theorem C29_div_par_K_Grad_par_conserves (p M : Nat) (hp : 0 < p) (hM : 0 < M) (g : Int) (bndry_flux : Bool)
    (G : Col K) (Kc : Int → K) (hG : GoodLine G) :
    lineTotal p M g G (fun r => divParKGradPar (lineRank p M g false r) bndry_flux (lineCol G M g r)
        (fun j => Kc (j + (r * M - g)))) =
      if bndry_flux then diffFlux G Kc (p * M - 1) - diffFlux G Kc (-1) else 0 := by
  rw [line_telescope p M hp g G _ (fun r => diffFace (lineRank p M g false r) bndry_flux (lineCol G M g r)
    (fun j => Kc (j + (r * M - g))))]
  · have e1 : ((p - 1 : Nat) : Int) * M = p * M - M := by
      rw [show ((p - 1 : Nat) : Int) = p - 1 by omega]; rw [Int.sub_mul, Int.one_mul]
    unfold diffFace lineCol
    rw [diffFlux_shift, diffFlux_shift, e1]
    rw [show g + (M : Int) - 1 + (p * M - M - g) = p * M - 1 by omega]
    simp only [Nat.cast_zero, Int.zero_mul]
    rw [show g - 1 + (0 - g) = -1 by omega]
    cases bndry_flux
    · rw [if_pos, if_pos, if_neg (by simp), sub_zero]
      · refine ⟨rfl, rfl, Or.inr ⟨by simp [lineRank], ?_⟩⟩
        simp only [lineRank]; omega
      · refine ⟨rfl, rfl, Or.inl ⟨?_, ?_⟩⟩
        · simp [lineRank, Nat.sub_add_cancel hp]
        · simp only [lineRank]
    · rw [if_neg (by simp), if_neg (by simp), if_pos rfl]
  · intro r hr j h0 h1
    exact C29_div_par_K_Grad_par_cell (lineRank p M g false r) bndry_flux (lineCol G M g r) _ j h0 h1
      (hG.lineVol M g r j)
  · intro r hr
    have : ((r + 1 : Nat) : Int) * M = r * M + M := by push_cast; rw [Int.add_mul, Int.one_mul]
    unfold diffFace lineCol
    rw [diffFlux_shift, diffFlux_shift, if_neg, if_neg, this,
      show g + (M : Int) - 1 + (r * M - g) = g - 1 + (r * M + M - g) by omega]
    · rintro ⟨_, _, h | h⟩
      · simp only [lineRank] at h; omega
      · simp [lineRank] at h
    · rintro ⟨_, _, h | h⟩
      · have : ¬ (r + 1 = p) := by omega
        simp [lineRank, this] at h
      · simp only [lineRank] at h; omega

/-- **C29.** On a closed field line the total is zero. -/
theorem C29_div_par_K_Grad_par_conserves_periodic (p M : Nat) (hp : 0 < p) (g : Int) (bndry_flux : Bool)
    (G : Col K) (Kc : Int → K) (hG : GoodLine G) (hc : Closed G (p * M)) (hK : ∀ j, Kc (j + p * M) = Kc j) :
    lineTotal p M g G (fun r => divParKGradPar (lineRank p M g true r) bndry_flux (lineCol G M g r)
        (fun j => Kc (j + (r * M - g)))) = 0 := by
  have hper : ∀ r : Nat, ∀ j, diffFace (lineRank p M g true r) bndry_flux (lineCol G M g r)
      (fun j => Kc (j + (r * M - g))) j = diffFlux G Kc (j + (r * M - g)) := by
    intro r j
    unfold diffFace lineCol
    rw [if_neg (by simp [lineRank]), diffFlux_shift]
  rw [line_telescope p M hp g G _ (fun r => diffFace (lineRank p M g true r) bndry_flux (lineCol G M g r)
    (fun j => Kc (j + (r * M - g))))]
  · simp only [hper]
    have e1 : ((p - 1 : Nat) : Int) * M = p * M - M := by
      rw [show ((p - 1 : Nat) : Int) = p - 1 by omega]; rw [Int.sub_mul, Int.one_mul]
    rw [e1, show g + (M : Int) - 1 + (p * M - M - g) = -1 + p * M by omega]
    simp only [Nat.cast_zero, Int.zero_mul]
    rw [show g - 1 + (0 - g) = -1 by omega]
    have a1 : diffFlux G Kc (-1 + p * M) = diffFlux G Kc (-1) := by
      unfold diffFlux
      rw [show (-1 : Int) + p * M + 1 = (-1 + 1) + p * M by omega, hc.J, hc.J, hc.f, hc.f, hc.dy, hc.dy, hc.g, hc.g,
        hK, hK]
    rw [a1, sub_self]
  · intro r hr j h0 h1
    exact C29_div_par_K_Grad_par_cell (lineRank p M g true r) bndry_flux (lineCol G M g r) _ j h0 h1
      (hG.lineVol M g r j)
  · intro r hr
    simp only [hper]
    have : ((r + 1 : Nat) : Int) * M = r * M + M := by push_cast; rw [Int.add_mul, Int.one_mul]
    rw [this, show g + (M : Int) - 1 + (r * M - g) = g - 1 + (r * M + M - g) by omega]

/-! ## `D4DY4` -/

/-- The flux through the face between `j` and `j + 1`: none through the targets. -/
def d4Face (R : YRank) (C : Col K) (d : Int → K) (j : Int) : K :=
  if R.periodicY = false ∧ ((R.lastY = true ∧ j = R.yend) ∨ (R.firstY = true ∧ j + 1 = R.ystart)) then 0
  else d4Flux C d j

/-- **C29.** `D4DY4` in a cell is a difference of face fluxes over the cell's volume. -/
theorem C29_D4DY4_cell (R : YRank) (C : Col K) (d : Int → K) (j : Int)
    (h0 : R.ystart ≤ j) (h1 : j ≤ R.yend) (hV : C.dy j * C.J j ≠ 0) :
    d4dy4 R C d j * (C.dy j * C.J j) = d4Face R C d j - d4Face R C d (j - 1) := by
  have body := foldl_three (fun r j => addAt (addAt r j (d4Flux C d j / (C.J j * C.dy j))) (j + 1)
      (-(d4Flux C d j / (C.J (j + 1) * C.dy (j + 1)))))
    (fun j => d4Flux C d j / (C.J j * C.dy j)) (fun j => -(d4Flux C d j / (C.J (j + 1) * C.dy (j + 1))))
    (fun _ => 0) (by
      intro r j i
      simp only [addAt_apply]
      have : (if i = j - 1 then (0 : K) else 0) = 0 := ite_self _
      rw [this, add_zero, add_assoc])
  unfold d4dy4
  simp only
  rw [body]
  simp only [ite_self, add_zero]
  rw [show j - 1 + 1 = j by omega]
  have up : (if (if (!R.periodicY && R.firstY) = true then R.ystart else R.ystart - 1) ≤ j ∧
      j ≤ (if (!R.periodicY && R.lastY) = true then R.yend - 1 else R.yend) then d4Flux C d j / (C.J j * C.dy j)
      else 0) = d4Face R C d j / (C.J j * C.dy j) := by
    unfold d4Face
    by_cases hb : R.periodicY = false ∧ R.lastY = true ∧ j = R.yend
    · rw [if_neg, if_pos ⟨hb.1, Or.inl hb.2⟩, zero_div]
      rw [if_pos (show (!R.periodicY && R.lastY) = true by simp [hb.1, hb.2.1])]
      omega
    · rw [if_pos, if_neg]
      · rintro ⟨a, b | b⟩
        · exact hb ⟨a, b⟩
        · omega
      · constructor
        · split_ifs <;> omega
        · split_ifs with hc
          · have : j ≠ R.yend := fun he => hb (by simp at hc; exact ⟨hc.1, hc.2, he⟩)
            omega
          · omega
  have down : (if (if (!R.periodicY && R.firstY) = true then R.ystart else R.ystart - 1) ≤ j - 1 ∧
      j - 1 ≤ (if (!R.periodicY && R.lastY) = true then R.yend - 1 else R.yend) then
        -(d4Flux C d (j - 1) / (C.J j * C.dy j)) else 0) = -(d4Face R C d (j - 1) / (C.J j * C.dy j)) := by
    unfold d4Face
    by_cases hb : R.periodicY = false ∧ R.firstY = true ∧ j - 1 + 1 = R.ystart
    · rw [if_neg, if_pos ⟨hb.1, Or.inr hb.2⟩, zero_div, neg_zero]
      rw [if_pos (show (!R.periodicY && R.firstY) = true by simp [hb.1, hb.2.1])]
      omega
    · rw [if_pos, if_neg]
      · rintro ⟨a, b | b⟩
        · omega
        · exact hb ⟨a, b⟩
      · constructor
        · split_ifs with hc
          · have : j - 1 + 1 ≠ R.ystart := fun he => hb (by simp at hc; exact ⟨hc.1, hc.2, he⟩)
            omega
          · omega
        · split_ifs <;> omega
  rw [up, down, mul_comm (C.dy j) (C.J j), ← sub_eq_add_neg, ← sub_div, div_mul_cancel₀]
  rwa [mul_comm]

theorem d4Flux_shift (G : Col K) (d : Int → K) (off j : Int) :
    d4Flux (G.shift off) (fun j => d (j + off)) j = d4Flux G d (j + off) := by
  unfold d4Flux Col.shift
  simp only
  rw [show j + 1 + off = j + off + 1 by omega, show j + 2 + off = j + off + 2 by omega,
    show j - 1 + off = j + off - 1 by omega]

/-- **C29.** `D4DY4` conserves the total on an open line (no flux through the targets), however it is divided. -/
theorem C29_D4DY4_conserves (p M : Nat) (hp : 0 < p) (hM : 0 < M) (g : Int) (G : Col K) (d : Int → K)
    (hG : GoodLine G) :
    lineTotal p M g G (fun r => d4dy4 (lineRank p M g false r) (lineCol G M g r)
        (fun j => d (j + (r * M - g)))) = 0 := by
  rw [line_telescope p M hp g G _ (fun r => d4Face (lineRank p M g false r) (lineCol G M g r)
    (fun j => d (j + (r * M - g))))]
  · unfold d4Face lineCol
    rw [if_pos, if_pos, sub_zero]
    · refine ⟨rfl, Or.inr ⟨by simp [lineRank], ?_⟩⟩
      simp only [lineRank]; omega
    · refine ⟨rfl, Or.inl ⟨?_, ?_⟩⟩
      · simp [lineRank, Nat.sub_add_cancel hp]
      · simp only [lineRank]
  · intro r hr j h0 h1
    exact C29_D4DY4_cell (lineRank p M g false r) (lineCol G M g r) _ j h0 h1 (hG.lineVol M g r j)
  · intro r hr
    have : ((r + 1 : Nat) : Int) * M = r * M + M := by push_cast; rw [Int.add_mul, Int.one_mul]
    unfold d4Face lineCol
    rw [d4Flux_shift, d4Flux_shift, if_neg, if_neg, this,
      show g + (M : Int) - 1 + (r * M - g) = g - 1 + (r * M + M - g) by omega]
    · rintro ⟨_, h | h⟩
      · simp only [lineRank] at h; omega
      · simp [lineRank] at h
    · rintro ⟨_, h | h⟩
      · have : ¬ (r + 1 = p) := by omega
        simp [lineRank, this] at h
      · simp only [lineRank] at h; omega

/-- **C29.** The same on a closed line. -/
theorem C29_D4DY4_conserves_periodic (p M : Nat) (hp : 0 < p) (g : Int) (G : Col K) (d : Int → K)
    (hG : GoodLine G) (hc : Closed G (p * M)) (hd : ∀ j, d (j + p * M) = d j) :
    lineTotal p M g G (fun r => d4dy4 (lineRank p M g true r) (lineCol G M g r)
        (fun j => d (j + (r * M - g)))) = 0 := by
  have hper : ∀ r : Nat, ∀ j, d4Face (lineRank p M g true r) (lineCol G M g r)
      (fun j => d (j + (r * M - g))) j = d4Flux G d (j + (r * M - g)) := by
    intro r j
    unfold d4Face lineCol
    rw [if_neg (by simp [lineRank]), d4Flux_shift]
  rw [line_telescope p M hp g G _ (fun r => d4Face (lineRank p M g true r) (lineCol G M g r)
    (fun j => d (j + (r * M - g))))]
  · simp only [hper]
    have e1 : ((p - 1 : Nat) : Int) * M = p * M - M := by
      rw [show ((p - 1 : Nat) : Int) = p - 1 by omega]; rw [Int.sub_mul, Int.one_mul]
    rw [e1, show g + (M : Int) - 1 + (p * M - M - g) = -1 + p * M by omega]
    simp only [Nat.cast_zero, Int.zero_mul]
    rw [show g - 1 + (0 - g) = -1 by omega]
    have a1 : d4Flux G d (-1 + p * M) = d4Flux G d (-1) := by
      unfold d4Flux
      rw [show (-1 : Int) + p * M + 1 = (-1 + 1) + p * M by omega,
        show (-1 : Int) + p * M + 2 = (-1 + 2) + p * M by omega,
        show (-1 : Int) + p * M - 1 = (-1 - 1) + p * M by omega]
      simp only [hc.J, hc.f, hc.dy, hd]
    rw [a1, sub_self]
  · intro r hr j h0 h1
    exact C29_D4DY4_cell (lineRank p M g true r) (lineCol G M g r) _ j h0 h1 (hG.lineVol M g r j)
  · intro r hr
    simp only [hper]
    have : ((r + 1 : Nat) : Int) * M = r * M + M := by push_cast; rw [Int.add_mul, Int.one_mul]
    rw [this, show g + (M : Int) - 1 + (r * M - g) = g - 1 + (r * M + M - g) by omega]

/-- **C29 (a counterexample to consistency).**  Its header describes `D4DY4(d, f)` as the fourth derivative
`d/dy(d d^3 f/dy^3)`; on a uniform grid with constant `J` and `d` it returns twice the fourth difference over `dy^4`,
because the two averages share one factor of a half. -/
theorem C29_D4DY4_twice_violated (R : YRank) (C : Col K) (d : Int → K) (j : Int) (h J0 d0 : K) (hh : h ≠ 0)
    (hJ0 : J0 ≠ 0) (hdy : ∀ i, C.dy i = h) (hJ : ∀ i, C.J i = J0) (hd : ∀ i, d i = d0)
    (h0 : R.ystart < j) (h1 : j < R.yend) :
    d4dy4 R C d j = 2 * (d0 * ((C.f (j + 2) - 4 * C.f (j + 1) + 6 * C.f j - 4 * C.f (j - 1) + C.f (j - 2)) / h ^ 4)) := by
  have hV : C.dy j * C.J j ≠ 0 := by rw [hdy, hJ]; exact mul_ne_zero hh hJ0
  have := C29_D4DY4_cell R C d j (by omega) (by omega) hV
  rw [← eq_div_iff hV] at this
  rw [this]
  unfold d4Face
  rw [if_neg (by omega), if_neg (by omega)]
  unfold d4Flux
  simp only [hdy, hJ, hd]
  rw [show j - 1 + 2 = j + 1 by omega, show j - 1 + 1 = j by omega, show j - 1 - 1 = j - 2 by omega]
  field_simp
  ring

end Verif.Num
