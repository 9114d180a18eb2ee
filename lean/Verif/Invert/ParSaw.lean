import Verif.Invert.ParThms

/-!
# C55: the shortest wave in Z
-/

namespace Verif.Par

open Verif.Fourier Verif.Cyclic Verif.Laplace Complex

/-- **C55 (InvertPar, shortest wave).**  For even `n` and without the mixed derivative the
amplitude of the wave `(-1)^z` satisfies the same equation (on an open surface or a closed
one without twist), its second derivative in Z being `-(π n / zlength)²` times it. -/
theorem C55_par_sawtooth (s : Surface) (hw : s.WellFormed) (tiny : ℂ → Prop) [DecidablePred tiny]
    (h0 : ∀ v, v = 0 → tiny v) (order : Nat → List Nat)
    (hord : ∀ q, q < s.P → (order q).Perm (List.range s.P)) (stale : Nat → Nat → Nat → Row ℂ)
    (rhs : Nat → Int → Nat → ℝ) (x : Nat → Nat → Nat → ℝ)
    (h : s.solve .par tiny order stale rhs = .ok x) (hn2 : s.n % 2 = 0)
    (hts : s.closed = true → s.ts = 0)
    (a b : Nat → Nat → Nat → ℝ) (M : Nat → Nat → ℝ)
    (hx : ∀ q j, IsRow s.n (x q j) (a q j) (b q j) (M q j))
    (q j : Nat) (hq : q < s.P) (h1 : s.localYstart q ≤ s.iy q j) (h2 : s.iy q j ≤ (s.geom q).yend)
    (hg : 0 < (s.geom q).g22 (s.iy q j)) (hC : (s.coef q).C (s.iy q j) = 0)
    (ar br : Nat → ℝ) (Nr : ℝ) (hr : IsRow s.n (rhs q (s.iy q j)) ar br Nr) :
    let l := leftOf s.P s.N q j
    let r := rightOf s.P s.N q j
    (s.coef q).A (s.iy q j) * M q j
      + (s.coef q).B (s.iy q j) * grad2par2 s.nonuniform (s.geom q) (s.iy q j)
          (fun _ => M l.1 l.2) (fun _ => M q j) (fun _ => M r.1 r.2) 0
      + (s.coef q).D (s.iy q j) * (-(Real.pi * s.n / s.zlength) ^ 2 * M q j)
      + (s.coef q).E (s.iy q j) * diffY ((s.geom q).dy (s.iy q j)) (fun _ => M l.1 l.2) (fun _ => M r.1 r.2) 0
      = Nr := by
  dsimp only
  obtain ⟨hP, hn, _⟩ := id hw
  obtain ⟨X, hX, rfl⟩ := solve_view hP h0 hord h
  have hM : ∀ q j, M q j = (X q (s.n / 2) j).re := by
    intro q j
    have e1 := saw_eq hn (hx q j) hn2
    dsimp only at e1
    rw [C53_rfft_irfft s.n hn _ _ (by omega), if_pos (Or.inr (by omega))] at e1
    exact_mod_cast e1.symm
  have hm := mode_row hw hX hq h1 h2 (s.n / 2) le_rfl
  rw [saw_eq hn hr hn2] at hm
  have eb : s.ampBelow X q j (s.n / 2)
      = X (leftOf s.P s.N q j).1 (s.n / 2) (leftOf s.P s.N q j).2 := by
    unfold Surface.ampBelow
    dsimp only
    split_ifs with hc
    · rw [hts hc.1, mul_zero, phaseMinus_zero, mul_one]
    · rw [mul_one]
  have ea : s.ampAbove X q j (s.n / 2)
      = X (rightOf s.P s.N q j).1 (s.n / 2) (rightOf s.P s.N q j).2 := by
    unfold Surface.ampAbove
    dsimp only
    split_ifs with hc
    · rw [hts hc.1, mul_zero, phasePlus_zero, mul_one]
    · rw [mul_one]
  rw [eb, ea] at hm
  have hre := congrArg Complex.re hm
  rw [ofReal_re] at hre
  unfold Surface.entries coefPar at hre
  dsimp only at hre
  simp only [hC, add_re, mul_re, zero_div, mul_zero, neg_zero, zero_mul, sub_zero] at hre
  rw [← hM, ← hM, ← hM] at hre
  have hkw : s.kw (s.n / 2) = Real.pi * s.n / s.zlength := by
    unfold Surface.kw
    have : (s.n : ℝ) = 2 * ((s.n / 2 : Nat) : ℝ) := by
      have : s.n = 2 * (s.n / 2) := by omega
      exact_mod_cast this
    rw [this]
    ring
  rw [hkw] at hre
  rw [← hre]
  unfold grad2par2 diffYY diffY sg
  have hs2 : (s.geom q).g22 (s.iy q j) = Real.sqrt ((s.geom q).g22 (s.iy q j)) ^ 2 := (Real.sq_sqrt hg.le).symm
  have hh : (0.5 : ℝ) = 1 / 2 := by norm_num
  dsimp only
  rw [hh]
  have hinv : ((s.geom q).g22 (s.iy q j))⁻¹ = (Real.sqrt ((s.geom q).g22 (s.iy q j)))⁻¹ ^ 2 := by
    rw [inv_pow, ← hs2]
  split_ifs <;> simp only [div_eq_mul_inv, mul_inv, hinv] <;> ring

end Verif.Par
