import Verif.Solver.PowerThms
import Mathlib.Tactic.Positivity
import Mathlib.Tactic.FinCases

open Filter Topology

namespace Verif.Power

variable {P : Nat} {n : Fin P → Nat}

/-! # C88: where the estimate is not the eigenvalue, and examples -/

/-- **Finding.**  The sign of the eigenvalue is lost: started on an eigenvector with a negative eigenvalue no estimate is the
eigenvalue. -/
theorem C88_sign_violated (A : State n →ₗ[ℝ] State n) (f0 : State n) (h0 : f0 ≠ 0) (l : ℝ) (hl : l < 0)
    (hA : A f0 = l • f0) (N : Nat) : some l ∉ (run A never N f0).2 := by
  rw [C88_eigenvector A f0 h0 l hl.ne hA N]
  intro h
  have := (List.mem_replicate.1 h).2
  have h2 := abs_nonneg l
  simp only [Option.some.injEq] at this
  linarith

/-- **Finding.**  A start that is zero (or whose norm is) is divided by zero: every estimate and the state are not numbers. -/
theorem C88_zero_violated (F : State n → State n) (N : Nat) : run F never N 0 = (none, List.replicate N none) := by
  have h : divide (0 : State n) (norm (0 : State n)) = none := by
    unfold divide
    rw [if_pos]; rw [C88_norm]; exact (rms_zero_iff _).2 rfl
  unfold run
  rw [h]
  generalize 0 = s
  induction N generalizing s with
  | zero => rfl
  | succ N ih => rw [loop_succ]; show ((loop F never N (s + 1) none).1, none :: (loop F never N (s + 1) none).2) = _
                 rw [ih]; rfl

/-- **Finding.**  If an iterate vanishes the estimate is 0 once and not a number from then on. -/
theorem C88_vanish_violated (A : State n →ₗ[ℝ] State n) (f0 : State n) (h0 : f0 ≠ 0) (hA : A f0 = 0) (N : Nat) :
    run A never (N + 1) f0 = (none, some 0 :: List.replicate N none) := by
  have h1 := C88_iterates A f0 0 fun k hk => by
    rw [Nat.le_zero.1 hk]; simpa using h0
  have h2 : divide f0 (norm f0) = some (direction f0) := by
    have := congrArg Prod.fst h1
    simpa [run, loop] using this
  have hz : A (direction f0) = 0 := by simp [direction, hA]
  have hn : norm (0 : State n) = 0 := by rw [C88_norm]; exact (rms_zero_iff _).2 rfl
  have ht : turn A (some (direction f0)) = (some 0, none) := by
    show (some (norm (A (direction f0))), divide (A (direction f0)) (norm (A (direction f0)))) = _
    rw [hz, hn]; simp [divide]
  have hl : ∀ (N s : Nat), loop A never N s none = (none, List.replicate N none) := by
    intro N
    induction N with
    | zero => intro s; rfl
    | succ N ih => intro s; rw [loop_succ]; show ((loop A never N (s + 1) none).1, none :: (loop A never N (s + 1) none).2) = _
                   rw [ih]; rfl
  unfold run
  rw [h2, loop_succ, ht, hl]

/-- Two numbers on two processors. -/
def exN : Fin 2 → Nat := fun _ => 1

/-- The number of a processor. -/
def exAt (p : Fin 2) : Ix exN := ⟨p, (0 : Fin 1)⟩

/-- The model that turns `(a, b)` into `(-2 b, a/2)`: its square is `-1`, so its eigenvalues are `i` and `-i`. -/
noncomputable def exRot : State exN →ₗ[ℝ] State exN where
  toFun f := fun k => if k.1 = 0 then -2 * f (exAt 1) else f (exAt 0) / 2
  map_add' f g := by funext k; dsimp; split_ifs <;> ring
  map_smul' c f := by funext k; dsimp; split_ifs <;> ring

theorem exIx (k : Ix exN) : k = (exAt 0) ∨ k = (exAt 1) := by
  rcases k with ⟨p, i⟩
  have hi : i = ⟨0, by simp [exN]⟩ := by
    apply Fin.ext; have := i.2; simp only [exN] at this; simp; omega
  subst hi
  fin_cases p
  · left; rfl
  · right; rfl

theorem exRot_sq (f : State exN) : exRot (exRot f) = -f := by
  funext k
  rcases exIx k with rfl | rfl
  · show -2 * (f (exAt 0) / 2) = -f (exAt 0); ring
  · show (-2 * f (exAt 1)) / 2 = -f (exAt 1); ring

theorem exSum (g : State exN) : ∑ k, g k = g (exAt 0) + g (exAt 1) := by
  rw [← Finset.univ_sigma_univ, Finset.sum_sigma, Fin.sum_univ_two]
  have h : ∀ p : Fin 2, ∑ i : Fin (exN p), g ⟨p, i⟩ = g ⟨p, (0 : Fin 1)⟩ := fun p => Fin.sum_univ_one _
  rw [h, h]; rfl

theorem exCard : Fintype.card (Ix exN) = 2 := by
  rw [Fintype.card_sigma, Fin.sum_univ_two]
  show Fintype.card (Fin 1) + Fintype.card (Fin 1) = 2
  simp

/-- The start `(1, 0)`. -/
def exStart : State exN := fun k => if k.1 = 0 then 1 else 0

theorem exRot_pow (j : Nat) : (exRot ^ (2 * j)) exStart = (-1 : ℝ) ^ j • exStart := by
  induction j with
  | zero => simp
  | succ j ih =>
    rw [show 2 * (j + 1) = 1 + 1 + 2 * j by ring, pow_add, pow_add, pow_one]
    show exRot (exRot ((exRot ^ (2 * j)) exStart)) = _
    rw [ih, exRot_sq, pow_succ]; simp

theorem exRot_odd (j : Nat) : (exRot ^ (2 * j + 1)) exStart = (-1 : ℝ) ^ j • exRot exStart := by
  rw [pow_succ']
  show exRot ((exRot ^ (2 * j)) exStart) = _
  rw [exRot_pow, map_smul]

theorem exRms : rms exStart = Real.sqrt (1 / 2) ∧ rms (exRot exStart) = 1 / 2 * rms exStart := by
  have hc := exCard
  have h1 : rms exStart = Real.sqrt (1 / 2) := by
    unfold rms
    rw [exSum (fun k => exStart k ^ 2), hc]
    congr 1
    have a : exStart (exAt 0) = 1 := rfl
    have b : exStart (exAt 1) = 0 := rfl
    rw [a, b]; norm_num
  refine ⟨h1, ?_⟩
  have h2 : rms (exRot exStart) = Real.sqrt ((1 / 2) ^ 2 * (1 / 2)) := by
    unfold rms
    rw [exSum (fun k => exRot exStart k ^ 2), hc]
    congr 1
    have a : exRot exStart (exAt 0) = -2 * 0 := rfl
    have b : exRot exStart (exAt 1) = 1 / 2 := rfl
    rw [a, b]; norm_num
  rw [h2, h1, Real.sqrt_mul (by positivity), Real.sqrt_sq (by norm_num)]

/-- **Finding.**  With a complex pair of dominant eigenvalues the estimates need not converge, nor be the absolute value of any
eigenvalue: for a model whose eigenvalues have absolute value 1 they are 1/2, 2, 1/2, 2 for ever. -/
theorem C88_complex_violated : (∀ f, exRot (exRot f) = -f) ∧ ∀ j,
    (run exRot never (2 * j) exStart).2 = (List.range (2 * j)).map fun k => some (if k % 2 = 0 then 1 / 2 else 2) := by
  refine ⟨exRot_sq, fun j => ?_⟩
  have hr : rms exStart ≠ 0 := by
    rw [exRms.1]; exact (Real.sqrt_pos.2 (by norm_num)).ne'
  have hodd : ∀ k, k % 2 = 1 → ∃ j, k = 2 * j + 1 := fun k hk => ⟨k / 2, by omega⟩
  have heven : ∀ k, k % 2 = 0 → ∃ j, k = 2 * j := fun k hk => ⟨k / 2, by omega⟩
  have ab : ∀ j : Nat, |(-1 : ℝ) ^ j| = 1 := fun j => by simp
  have r0 : ∀ j, rms ((exRot ^ (2 * j)) exStart) = rms exStart := fun j => by rw [exRot_pow, rms_smul, ab, one_mul]
  have r1 : ∀ j, rms ((exRot ^ (2 * j + 1)) exStart) = 1 / 2 * rms exStart := fun j => by
    rw [exRot_odd, rms_smul, ab, one_mul, exRms.2]
  have hne : ∀ k, (exRot ^ k) exStart ≠ 0 := by
    intro k hz
    have hz := (rms_zero_iff _).2 hz
    rcases Nat.mod_two_eq_zero_or_one k with h | h
    · obtain ⟨i, rfl⟩ := heven k h
      rw [r0] at hz; exact hr hz
    · obtain ⟨i, rfl⟩ := hodd k h
      rw [r1] at hz; exact hr (by linarith)
  rw [C88_iterates exRot exStart (2 * j) fun k _ => hne k]
  refine List.map_congr_left fun k _ => ?_
  congr 1
  rcases Nat.mod_two_eq_zero_or_one k with h | h
  · obtain ⟨i, rfl⟩ := heven k h
    rw [r1, r0, if_pos (by omega)]; field_simp
  · obtain ⟨i, rfl⟩ := hodd k h
    rw [show 2 * i + 1 + 1 = 2 * (i + 1) by ring, r0, r1, if_neg (by omega)]; field_simp

/-- **Finding.**  Nothing checks that the model is linear: with a constant source and no linear part the estimate is the size of
the source, although the only eigenvalue of the linear part is 0. -/
theorem C88_affine_violated (b f0 : State n) (h0 : f0 ≠ 0) (hb : b ≠ 0) (N : Nat) :
    (run (fun _ => b) never N f0).2 = List.replicate N (some (rms b)) := by
  have hd : ∀ x : State n, x ≠ 0 → ∃ y, divide x (norm x) = some y := by
    intro x hx
    unfold divide
    rw [C88_norm, if_neg (rms_pos hx).ne']
    exact ⟨_, rfl⟩
  have hl : ∀ (N s : Nat) (y : State n), (loop (fun _ => b) never N s (some y)).2 = List.replicate N (some (rms b)) := by
    intro N
    induction N with
    | zero => intro s y; rfl
    | succ N ih =>
      intro s y
      rw [loop_succ]
      obtain ⟨z, hz⟩ := hd b hb
      have : (turn (fun _ : State n => b) (some y)) = (some (norm b), some z) := by
        show (some (norm b), divide b (norm b)) = _
        rw [hz]
      rw [this]
      show some (norm b) :: (loop (fun _ => b) never N (s + 1) (some z)).2 = _
      rw [ih, C88_norm]; rfl
  obtain ⟨y, hy⟩ := hd f0 h0
  unfold run
  rw [hy, hl]

/-! ## Examples -/

/-- The model `(a, b) ↦ (-3 a, b)`. -/
noncomputable def exDiag : State exN →ₗ[ℝ] State exN where
  toFun f := fun k => if k.1 = 0 then -3 * f (exAt 0) else f (exAt 1)
  map_add' f g := by funext k; dsimp; split_ifs <;> ring
  map_smul' c f := by funext k; dsimp; split_ifs <;> ring

/-- The unit vectors. -/
def exUnit (i : Fin 2) : State exN := fun k => if k.1 = i then 1 else 0

theorem exDominant : Dominant exDiag exUnit ![-3, 1] ![1, 1] 0 where
  eigen i := by
    funext k
    fin_cases i <;> rcases exIx k with rfl | rfl
    · show (-3 : ℝ) * 1 = -3 * 1; rfl
    · show (0 : ℝ) = -3 * 0; norm_num
    · show (-3 : ℝ) * 0 = 1 * 0; norm_num
    · show (1 : ℝ) = 1 * 1; norm_num
  largest i hi := by
    fin_cases i
    · exact absurd rfl hi
    · show |(1 : ℝ)| < |(-3 : ℝ)|; rw [abs_one, abs_neg]; norm_num
  nonzero := by show (-3 : ℝ) ≠ 0; norm_num
  present := by
    intro h
    have := congrFun h (exAt 0)
    have h2 : (1 : ℝ) * 1 = 0 := this
    norm_num at h2

example : ∃ (e : Nat → ℝ) (f : Nat → State exN),
    (∀ N, run exDiag never N (∑ i, (![1, 1] : Fin 2 → ℝ) i • exUnit i)
      = (some (f N), (List.range N).map fun k => some (e k))) ∧ Tendsto e atTop (𝓝 3) := by
  obtain ⟨e, f, h1, h2, -⟩ := C88_converges exDominant
  refine ⟨e, f, h1, ?_⟩
  have : |(![-3, 1] : Fin 2 → ℝ) 0| = 3 := by show |(-3 : ℝ)| = 3; rw [abs_neg]; norm_num
  rwa [this] at h2

example : ∀ f g : State exN, ∑ k, exDiag f k * g k = ∑ k, f k * exDiag g k := by
  intro f g
  rw [exSum (fun k => exDiag f k * g k), exSum (fun k => f k * exDiag g k)]
  show (-3 * f (exAt 0)) * g (exAt 0) + f (exAt 1) * g (exAt 1) = f (exAt 0) * (-3 * g (exAt 0)) + f (exAt 1) * g (exAt 1)
  ring

end Verif.Power
