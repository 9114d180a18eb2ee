import Verif.Solver.Power
import Mathlib.Analysis.SpecificLimits.Basic
import Mathlib.Algebra.Order.BigOperators.Ring.Finset
import Mathlib.Tactic.FieldSimp
import Mathlib.Algebra.BigOperators.Field

/-! # C88: theorems about the power-method solver -/
open Filter Topology

namespace Verif.Power

variable {P : Nat} {n : Fin P → Nat}

/-! ## Specification -/

/-- The root mean square of finitely many numbers. -/
noncomputable def rms {ι : Type} [Fintype ι] (f : ι → ℝ) : ℝ :=
  Real.sqrt ((∑ k, f k ^ 2) / (Fintype.card ι : ℝ))

/-! ## The norm -/

theorem foldl_sum {m : Nat} {β : Type} [AddCommMonoid β] (g : Fin m → β) :
    (List.finRange m).foldl (fun t i => t + g i) 0 = ∑ i, g i := by
  have : ∀ (L : List (Fin m)) (t : β), L.foldl (fun t i => t + g i) t = t + (L.map g).sum := by
    intro L
    induction L with
    | nil => intro t; simp
    | cons a L ih => intro t; rw [List.foldl_cons, ih, List.map_cons, List.sum_cons, add_assoc]
  rw [this, zero_add, Fin.sum_univ_def]

theorem nglobal_eq (n : Fin P → Nat) : nglobal n = Fintype.card (Ix n) := by
  rw [nglobal, foldl_sum, Fintype.card_sigma]; simp

/-- **C88, norm.** The norm is the root mean square of all evolving numbers, however they are spread over processors. -/
theorem C88_norm (f : State n) : norm f = rms f := by
  unfold norm rms localTotal
  rw [foldl_sum (fun p => ((List.finRange (n p)).foldl (fun total i => total + f ⟨p, i⟩ * f ⟨p, i⟩) 0) / (nglobal n : ℝ))]
  rw [← Finset.sum_div, nglobal_eq]
  congr 2
  rw [← Finset.univ_sigma_univ, Finset.sum_sigma]
  refine Finset.sum_congr rfl fun p _ => ?_
  rw [foldl_sum (fun i => f ⟨p, i⟩ * f ⟨p, i⟩)]
  exact Finset.sum_congr rfl fun i _ => by ring

section
variable {ι : Type} [Fintype ι]

theorem rms_nonneg (f : ι → ℝ) : 0 ≤ rms f := Real.sqrt_nonneg _

theorem rms_zero_iff (f : ι → ℝ) : rms f = 0 ↔ f = 0 := by
  have hs : 0 ≤ ∑ k, f k ^ 2 := Finset.sum_nonneg fun k _ => sq_nonneg _
  unfold rms
  rw [Real.sqrt_eq_zero (div_nonneg hs (Nat.cast_nonneg _))]
  constructor
  · intro h
    rcases isEmpty_or_nonempty ι with hE | hN
    · exact funext fun k => hE.elim k
    · have hc : (Fintype.card ι : ℝ) ≠ 0 := by exact_mod_cast Fintype.card_ne_zero
      rw [div_eq_zero_iff, or_iff_left hc, Finset.sum_eq_zero_iff_of_nonneg fun k _ => sq_nonneg _] at h
      exact funext fun k => by simpa using h k (Finset.mem_univ _)
  · rintro rfl; simp

theorem rms_smul (c : ℝ) (f : ι → ℝ) : rms (c • f) = |c| * rms f := by
  unfold rms
  have : (∑ k, (c • f) k ^ 2) / (Fintype.card ι : ℝ) = c ^ 2 * ((∑ k, f k ^ 2) / (Fintype.card ι : ℝ)) := by
    rw [← mul_div_assoc, Finset.mul_sum]
    congr 1
    exact Finset.sum_congr rfl fun k _ => by simp [mul_pow]
  rw [this, Real.sqrt_mul (sq_nonneg c), Real.sqrt_sq_eq_abs]

theorem rms_continuous : Continuous (rms : (ι → ℝ) → ℝ) := by
  unfold rms
  fun_prop

theorem rms_pos {f : ι → ℝ} (h : f ≠ 0) : 0 < rms f :=
  lt_of_le_of_ne (rms_nonneg f) fun e => h ((rms_zero_iff f).1 e.symm)
end

/-! ## Iterates -/

/-- Never quitting. -/
def never : Nat → Option ℝ → Bool := fun _ _ => false

theorem loop_succ (F : State n → State n) (k s : Nat) (f : Option (State n)) :
    loop F never (k + 1) s f = ((loop F never k (s + 1) (turn F f).2).1,
      (turn F f).1 :: (loop F never k (s + 1) (turn F f).2).2) := by
  simp [loop, never]

theorem loop_start (F : State n → State n) : ∀ (k s s' : Nat) (f : Option (State n)),
    loop F never k s f = loop F never k s' f := by
  intro k
  induction k with
  | zero => intro s s' f; rfl
  | succ k ih => intro s s' f; rw [loop_succ, loop_succ, ih (s + 1) (s' + 1)]

theorem loop_snoc (F : State n → State n) : ∀ (k s : Nat) (f : Option (State n)),
    loop F never (k + 1) s f = ((turn F (loop F never k s f).1).2,
      (loop F never k s f).2 ++ [(turn F (loop F never k s f).1).1]) := by
  intro k
  induction k with
  | zero => intro s f; rw [loop_succ]; rfl
  | succ k ih =>
    intro s f
    rw [loop_succ, ih, loop_succ]
    rfl

/-- The direction of a state: the state over its root mean square. -/
noncomputable def direction (f : State n) : State n := (rms f)⁻¹ • f

theorem turn_direction (A : State n →ₗ[ℝ] State n) (f : State n) (h : f ≠ 0) (hA : A f ≠ 0) :
    turn A (some (direction f)) = (some (rms (A f) / rms f), some (direction (A f))) := by
  have hr : rms f ≠ 0 := (rms_pos h).ne'
  have hrA : rms (A f) ≠ 0 := (rms_pos hA).ne'
  have h1 : A (direction f) = (rms f)⁻¹ • A f := by simp [direction]
  have h2 : norm (A (direction f)) = rms (A f) / rms f := by
    rw [C88_norm, h1, rms_smul, abs_of_nonneg (inv_nonneg.2 (rms_nonneg f)), inv_mul_eq_div]
  have h3 : rms (A f) / rms f ≠ 0 := div_ne_zero hrA hr
  show (some (norm (A (direction f))), divide (A (direction f)) (norm (A (direction f)))) = _
  rw [h2]
  unfold divide
  rw [if_neg h3]
  congr 2
  funext k
  rw [h1]
  simp only [direction, Pi.smul_apply, smul_eq_mul]
  field_simp

/-- **C88, iterates.** For a linear model, as long as the iterates of the start do not vanish, after any number of outputs
the state is the direction of that iterate of the start, and the estimates given to the monitors are the ratios of the root mean
squares of successive iterates. -/
theorem C88_iterates (A : State n →ₗ[ℝ] State n) (f0 : State n) (N : Nat) (h : ∀ k ≤ N, (A ^ k) f0 ≠ 0) :
    run A never N f0 = (some (direction ((A ^ N) f0)),
      (List.range N).map fun k => some (rms ((A ^ (k + 1)) f0) / rms ((A ^ k) f0))) := by
  induction N with
  | zero =>
    have h0 : f0 ≠ 0 := by simpa using h 0 le_rfl
    have : divide f0 (norm f0) = some (direction f0) := by
      unfold divide
      rw [C88_norm, if_neg (rms_pos h0).ne']
      congr 1; funext k
      simp [direction, div_eq_inv_mul]
    simp [run, loop, this]
  | succ N ih =>
    have ih := ih fun k hk => h k (by omega)
    unfold run at ih ⊢
    rw [loop_snoc, ih]
    have hp : (A ^ (N + 1)) f0 = A ((A ^ N) f0) := by rw [pow_succ']; rfl
    have h1 := h N (by omega)
    have h2 := h (N + 1) le_rfl
    rw [hp] at h2
    rw [turn_direction A _ h1 h2, List.range_succ, List.map_append]
    simp [hp]

/-- **C88, quitting.** The monitors that ask to stop do stop the run: nothing is computed after the first estimate at which
they ask, and everything up to it is as in a run that is never stopped. -/
theorem C88_quit (F : State n → State n) (quit : Nat → Option ℝ → Bool) (N : Nat) (f0 : State n) (s : Nat) (hs : s < N)
    (e : Option ℝ) (he : (run F never N f0).2[s]? = some e) (hq : quit s e = true)
    (hb : ∀ s' < s, ∀ e', (run F never N f0).2[s']? = some e' → quit s' e' = false) :
    run F quit N f0 = run F never (s + 1) f0 := by
  unfold run at he hb ⊢
  generalize divide f0 (norm f0) = f at he hb ⊢
  have gen : ∀ (s N o : Nat) (f : Option (State n)), s < N → (loop F never N o f).2[s]? = some e → quit (o + s) e = true →
      (∀ s' < s, ∀ e', (loop F never N o f).2[s']? = some e' → quit (o + s') e' = false) →
      loop F quit N o f = loop F never (s + 1) o f := by
    intro s
    induction s with
    | zero =>
      intro N o f hN he hq _
      obtain ⟨M, rfl⟩ : ∃ M, N = M + 1 := ⟨N - 1, by omega⟩
      rw [loop_succ] at he
      simp only [List.getElem?_cons_zero, Option.some.injEq] at he
      rw [loop_succ]
      simp only [loop]
      rw [he, show quit o e = true from hq]
      rfl
    | succ s ih =>
      intro N o f hN he hq hb
      obtain ⟨M, rfl⟩ : ∃ M, N = M + 1 := ⟨N - 1, by omega⟩
      have h0 := hb 0 (by omega) (turn F f).1 (by rw [loop_succ]; rfl)
      rw [loop_succ F (s + 1)]
      have hrec := ih M (o + 1) (turn F f).2 (by omega)
        (by rw [loop_succ] at he; simpa using he) (by rw [show o + 1 + s = o + (s + 1) by omega]; exact hq)
        (by
          intro s' hs' e' he'
          have := hb (s' + 1) (by omega) e' (by rw [loop_succ]; simpa using he')
          rw [show o + 1 + s' = o + (s' + 1) by omega]; exact this)
      show (if quit o (turn F f).1 then _ else _) = _
      rw [if_neg (by rw [show quit o (turn F f).1 = false from h0]; simp), hrec]
  exact gen s N 0 f hs he (by simpa using hq) (by intro s' h1 e' h2; simpa using hb s' h1 e' h2)

/-- **C88, eigenvectors.** Started on an eigenvector with a non-zero eigenvalue, every estimate is the absolute value of the
eigenvalue. -/
theorem C88_eigenvector (A : State n →ₗ[ℝ] State n) (f0 : State n) (h0 : f0 ≠ 0) (l : ℝ) (hl : l ≠ 0) (hA : A f0 = l • f0)
    (N : Nat) : (run A never N f0).2 = List.replicate N (some |l|) := by
  have hp : ∀ k, (A ^ k) f0 = l ^ k • f0 := by
    intro k
    induction k with
    | zero => simp
    | succ k ih =>
      rw [pow_succ', show (A * A ^ k) f0 = A ((A ^ k) f0) from rfl, ih, map_smul, hA, smul_smul, pow_succ]
  have hne : ∀ k, (A ^ k) f0 ≠ 0 := fun k => by rw [hp]; exact smul_ne_zero (pow_ne_zero k hl) h0
  rw [C88_iterates A f0 N fun k _ => hne k]
  apply List.ext_getElem
  · simp
  · intro k h1 h2
    simp only [List.getElem_map, List.getElem_range, List.getElem_replicate]
    rw [hp, hp, rms_smul, rms_smul, pow_succ, abs_mul]
    have : |l ^ k| * rms f0 ≠ 0 := mul_ne_zero (abs_ne_zero.2 (pow_ne_zero k hl)) (rms_pos h0).ne'
    congr 1
    rw [div_eq_iff this]; ring

/-! ## Convergence -/

/-- Started on a combination of eigenvectors, one of them (number `i0`, present in the start) with an eigenvalue larger in
absolute value than all others. -/
structure Dominant (A : State n →ₗ[ℝ] State n) {m : Nat} (v : Fin m → State n) (l c : Fin m → ℝ) (i0 : Fin m) : Prop where
  eigen : ∀ i, A (v i) = l i • v i
  largest : ∀ i, i ≠ i0 → |l i| < |l i0|
  nonzero : l i0 ≠ 0
  present : c i0 • v i0 ≠ 0

section
variable {A : State n →ₗ[ℝ] State n} {m : Nat} {v : Fin m → State n} {l c : Fin m → ℝ} {i0 : Fin m}

theorem pow_eigen (h : Dominant A v l c i0) (k : Nat) :
    (A ^ k) (∑ i, c i • v i) = l i0 ^ k • ∑ i, ((l i / l i0) ^ k * c i) • v i := by
  have hp : ∀ i, (A ^ k) (v i) = l i ^ k • v i := by
    intro i
    induction k with
    | zero => simp
    | succ k ih =>
      rw [pow_succ', show (A * A ^ k) (v i) = A ((A ^ k) (v i)) from rfl, ih, map_smul, h.eigen, smul_smul, pow_succ]
  rw [map_sum, Finset.smul_sum]
  refine Finset.sum_congr rfl fun i _ => ?_
  rw [map_smul, hp, smul_smul, smul_smul]
  congr 1
  rw [div_pow]
  have := pow_ne_zero k h.nonzero
  field_simp

theorem scaled_tendsto (h : Dominant A v l c i0) :
    Tendsto (fun k : Nat => ∑ i, ((l i / l i0) ^ k * c i) • v i) atTop (𝓝 (c i0 • v i0)) := by
  have : c i0 • v i0 = ∑ i, (if i = i0 then c i • v i else 0) := by simp
  rw [this]
  refine tendsto_finsetSum _ fun i _ => ?_
  by_cases hi : i = i0
  · subst hi
    simp only [div_self h.nonzero, one_pow, one_mul, if_true]
    exact tendsto_const_nhds
  · rw [if_neg hi]
    have h1 : |l i / l i0| < 1 := by
      rw [abs_div, div_lt_one (abs_pos.2 h.nonzero)]; exact h.largest i hi
    have h2 : Tendsto (fun k : Nat => (l i / l i0) ^ k * c i) atTop (𝓝 (0 * c i)) :=
      (tendsto_pow_atTop_nhds_zero_of_abs_lt_one h1).mul_const _
    have h3 := h2.smul_const (v i)
    simpa using h3

theorem iterates_ne (h : Dominant A v l c i0) (k : Nat) : (A ^ k) (∑ i, c i • v i) ≠ 0 := by
  intro hz
  have hz' : ∀ j ≥ k, ∑ i, ((l i / l i0) ^ j * c i) • v i = 0 := by
    intro j hj
    have : (A ^ j) (∑ i, c i • v i) = 0 := by
      obtain ⟨d, rfl⟩ := Nat.exists_eq_add_of_le hj
      rw [show k + d = d + k by omega, pow_add, show (A ^ d * A ^ k) (∑ i, c i • v i) = (A ^ d) ((A ^ k) (∑ i, c i • v i)) from rfl,
        hz, map_zero]
    rw [pow_eigen h] at this
    exact (smul_eq_zero.1 this).resolve_left (pow_ne_zero j h.nonzero)
  have ht := scaled_tendsto h
  have h0 : Tendsto (fun k : Nat => ∑ i, ((l i / l i0) ^ k * c i) • v i) atTop (𝓝 (0 : State n)) :=
    tendsto_const_nhds.congr' (eventually_atTop.2 ⟨k, fun j hj => (hz' j hj).symm⟩)
  exact h.present (tendsto_nhds_unique ht h0)

/-- **C88, convergence.** Started on a combination of eigenvectors of which one is dominant, no iterate vanishes, the
estimates converge to the absolute value of the dominant eigenvalue, and the states, up to the sign of the eigenvalue at each
step, converge to the direction of its eigenvector in the start. -/
theorem C88_converges (h : Dominant A v l c i0) :
    ∃ (e : Nat → ℝ) (f : Nat → State n),
      (∀ N, run A never N (∑ i, c i • v i) = (some (f N), (List.range N).map fun k => some (e k)))
      ∧ Tendsto e atTop (𝓝 |l i0|)
      ∧ Tendsto (fun N => (|l i0| / l i0) ^ N • f N) atTop (𝓝 (direction (c i0 • v i0))) := by
  refine ⟨fun k => rms ((A ^ (k + 1)) (∑ i, c i • v i)) / rms ((A ^ k) (∑ i, c i • v i)),
    fun N => direction ((A ^ N) (∑ i, c i • v i)), fun N => C88_iterates A _ N fun k _ => iterates_ne h k, ?_, ?_⟩
  · have ht := scaled_tendsto h
    have hr := (rms_continuous.tendsto _).comp ht
    have hr1 := hr.comp (tendsto_add_atTop_nat 1)
    have hq := (hr1.div hr (rms_pos h.present).ne').const_mul |l i0|
    rw [div_self (rms_pos h.present).ne', mul_one] at hq
    refine hq.congr fun k => ?_
    simp only [Function.comp, Pi.div_apply]
    rw [pow_eigen h, pow_eigen h, rms_smul, rms_smul, pow_succ, abs_mul]
    have : |l i0 ^ k| ≠ 0 := abs_ne_zero.2 (pow_ne_zero k h.nonzero)
    rw [mul_assoc, mul_div_mul_left _ _ this, mul_div_assoc]
  · have ht := scaled_tendsto h
    have hr := ((rms_continuous.tendsto _).comp ht).inv₀ (rms_pos h.present).ne'
    have hd := hr.smul ht
    refine hd.congr fun k => ?_
    simp only [Function.comp, direction]
    rw [pow_eigen h, rms_smul, mul_inv, smul_smul, smul_smul, abs_pow]
    congr 1
    have h1 := h.nonzero
    have h2 : |l i0| ≠ 0 := abs_ne_zero.2 h1
    rw [div_pow]
    field_simp
end

/-! ## Symmetric models -/

/-- **C88, symmetric models.** For a model symmetric in the plain sum of products, the estimates never decrease. -/
theorem C88_monotone (A : State n →ₗ[ℝ] State n) (hs : ∀ f g : State n, ∑ k, A f k * g k = ∑ k, f k * A g k) (f0 : State n)
    (h : ∀ k, (A ^ k) f0 ≠ 0) (N : Nat) : ∃ e : Nat → ℝ, (run A never N f0).2 = (List.range N).map (fun k => some (e k)) ∧
      Monotone e := by
  refine ⟨fun k => rms ((A ^ (k + 1)) f0) / rms ((A ^ k) f0), by rw [C88_iterates A f0 N fun k _ => h k], ?_⟩
  refine monotone_nat_of_le_succ fun k => ?_
  have h0 := rms_pos (h k)
  have h1 := rms_pos (h (k + 1))
  rw [div_le_div_iff₀ h0 h1]
  set a := (A ^ k) f0 with ha
  have hb : (A ^ (k + 1)) f0 = A a := by rw [pow_succ']; rfl
  have hc : (A ^ (k + 1 + 1)) f0 = A (A a) := by rw [pow_succ', show (A * A ^ (k + 1)) f0 = A ((A ^ (k + 1)) f0) from rfl, hb]
  rw [hc, hb]
  have cs := Finset.sum_mul_sq_le_sq_mul_sq Finset.univ (fun j => A (A a) j) (fun j => a j)
  have hsq : ∑ j, A (A a) j * a j = ∑ j, A a j ^ 2 := by
    rw [hs]; exact Finset.sum_congr rfl fun j _ => by ring
  rw [hsq] at cs
  unfold rms
  set K : ℝ := (Fintype.card (Ix n) : ℝ) with hK
  have hK0 : 0 ≤ K := Nat.cast_nonneg _
  have p1 : 0 ≤ ∑ j, A a j ^ 2 := Finset.sum_nonneg fun j _ => sq_nonneg _
  have p2 : 0 ≤ ∑ j, A (A a) j ^ 2 := Finset.sum_nonneg fun j _ => sq_nonneg _
  rw [← Real.sqrt_mul (div_nonneg p1 hK0), ← Real.sqrt_mul (div_nonneg p2 hK0)]
  apply Real.sqrt_le_sqrt
  rw [div_mul_div_comm, div_mul_div_comm]
  apply div_le_div_of_nonneg_right _ (mul_nonneg hK0 hK0)
  nlinarith [cs]

/-! ## Independence of the decomposition -/

/-- **C88, processors.** Two distributions of the same numbers give the same run: if `e` matches the numbers and the two models
agree through it, the estimates are equal and the states agree. -/
theorem C88_decomposition {P' : Nat} {n' : Fin P' → Nat} (e : Ix n ≃ Ix n') (F : State n → State n) (F' : State n' → State n')
    (hF : ∀ f : State n', F (f ∘ e) = F' f ∘ e) (quit : Nat → Option ℝ → Bool) (N : Nat) (f0 : State n') :
    run F quit N (f0 ∘ e) = ((run F' quit N f0).1.map (· ∘ e), (run F' quit N f0).2) := by
  have hn : ∀ f : State n', norm (f ∘ e) = norm f := by
    intro f
    rw [C88_norm, C88_norm]
    unfold rms
    rw [Fintype.card_congr e]
    congr 2
    exact Equiv.sum_comp e (fun k => f k ^ 2)
  have hd : ∀ (f : State n') (x : ℝ), divide (f ∘ e) x = (divide f x).map (· ∘ e) := by
    intro f x
    unfold divide
    split <;> rfl
  have ht : ∀ f : Option (State n'), turn F (f.map (· ∘ e)) = ((turn F' f).1, (turn F' f).2.map (· ∘ e)) := by
    intro f
    cases f with
    | none => rfl
    | some f =>
      show (some (norm (F (f ∘ e))), divide (F (f ∘ e)) (norm (F (f ∘ e)))) = _
      rw [hF, hn, hd]; rfl
  have hl : ∀ (k s : Nat) (f : Option (State n')), loop F quit k s (f.map (· ∘ e))
      = ((loop F' quit k s f).1.map (· ∘ e), (loop F' quit k s f).2) := by
    intro k
    induction k with
    | zero => intro s f; rfl
    | succ k ih =>
      intro s f
      simp only [loop, ht]
      by_cases hq : quit s (turn F' f).1
      · simp [hq]
      · simp [hq, ih]
  unfold run
  rw [hn, hd, hl]

end Verif.Power
