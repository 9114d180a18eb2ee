import Verif.Cyclic.Spec
import Mathlib.Tactic.Ring
import Mathlib.Tactic.FieldSimp
import Mathlib.Tactic.LinearCombination
/-! Proofs about one local tridiagonal block. -/
namespace Verif.Cyclic

variable {K : Type} [Field K] [DecidableEq K] (tiny : K → Prop) [DecidablePred tiny]

theorem upLoop_spec (co : Nat → Row K) (h0 : ∀ v, v = 0 → tiny v) (y : Nat → K) (xn : K) :
    ∀ (i : Nat) (u w : Row K), upLoop tiny co i u = .ok w →
      -- `u` is the equation of row i: columns i-1, i, n-1 (shifted by one in y)
      (∀ j, 1 ≤ j → j < i → (co j).Holds (y j) (y (j+1)) (y (j+2))) →
      (i ≠ 0 → u.Holds (y i) (y (i+1)) xn) →
      (i = 0 → (w = u)) ∧
      (i ≠ 0 → (w.Holds (y 0) (y 1) xn ↔ (co 0).Holds (y 0) (y 1) (y 2))) := by
  intro i
  induction i with
  | zero =>
    intro u w h _ _
    simp only [upLoop, Except.ok.injEq] at h
    exact ⟨fun _ => h.symm, fun h => absurd rfl h⟩
  | succ i ih =>
    intro u w h hrows hu
    refine ⟨fun h => absurd h (by omega), fun _ => ?_⟩
    simp only [upLoop] at h
    split at h
    · cases h
    rename_i hne
    have hb : u.b ≠ 0 := fun hz => hne (h0 _ hz)
    have hu' := hu (by omega)
    have key : ∀ (xl x : K), x = y (i+1) →
        (({ a := (co i).a, b := (co i).b - (co i).c / u.b * u.a, c := u.c * (-((co i).c / u.b)),
            r := (co i).r - (co i).c / u.b * u.r } : Row K).Holds xl x xn ↔
          (co i).Holds xl x (y (i+2))) := by
      intro xl x hx
      subst hx
      unfold Row.Holds at hu' ⊢
      simp only
      have e : (co i).a * xl + ((co i).b - (co i).c / u.b * u.a) * y (i+1) + u.c * (-((co i).c / u.b)) * xn
          - ((co i).r - (co i).c / u.b * u.r) =
          (co i).a * xl + (co i).b * y (i+1) + (co i).c * y (i+2) - (co i).r := by
        rw [← hu']; field_simp; ring
      constructor
      · intro hh; have := sub_eq_zero.mpr hh; rw [e] at this; exact sub_eq_zero.mp this
      · intro hh; have := sub_eq_zero.mpr hh; rw [← e] at this; exact sub_eq_zero.mp this
    rcases Nat.eq_zero_or_pos i with rfl | hpos
    · simp only [upLoop, Except.ok.injEq] at h
      subst h
      exact key _ _ rfl
    · have := ih _ w h (fun j h1 h2 => hrows j h1 (by omega))
        (fun _ => (key _ _ rfl).mpr (hrows i hpos (by omega)))
      exact this.2 (by omega)

/-- lower loop: `x0` is column 0. -/
theorem loLoop_spec (co : Nat → Row K) (h0 : ∀ v, v = 0 → tiny v) (y : Nat → K) (x0 : K) :
    ∀ (k i : Nat) (l w : Row K), loLoop tiny co k i l = .ok w → 2 ≤ i →
      -- `l` is the equation of row i-1: columns 0, i-1, i
      (k ≠ 0 → l.Holds x0 (y i) (y (i+1))) →
      (∀ j, i ≤ j → j + 1 < i + k → (co j).Holds (y j) (y (j+1)) (y (j+2))) →
      (k = 0 → w = l) ∧
      (k ≠ 0 → (w.Holds x0 (y (i+k)) (y (i+k+1)) ↔
        (co (i+k-1)).Holds (y (i+k-1)) (y (i+k)) (y (i+k+1)))) := by
  intro k
  induction k with
  | zero =>
    intro i l w h _ _ _
    simp only [loLoop, Except.ok.injEq] at h
    exact ⟨fun _ => h.symm, fun h => absurd rfl h⟩
  | succ k ih =>
    intro i l w h hi hl hrows
    refine ⟨fun h => absurd h (by omega), fun _ => ?_⟩
    simp only [loLoop] at h
    split at h
    · cases h
    rename_i hne
    have hb : l.b ≠ 0 := fun hz => hne (h0 _ hz)
    have hl' := hl (by omega)
    have key : (({ a := l.a * (-((co i).a / l.b)), b := (co i).b - (co i).a / l.b * l.c, c := (co i).c, r := (co i).r - (co i).a / l.b * l.r } : Row K).Holds x0 (y (i+1)) (y (i+2)) ↔
          (co i).Holds (y i) (y (i+1)) (y (i+2))) := by
      unfold Row.Holds at hl' ⊢
      simp only
      have e : l.a * (-((co i).a / l.b)) * x0 + ((co i).b - (co i).a / l.b * l.c) * y (i+1) + (co i).c * y (i+2)
          - ((co i).r - (co i).a / l.b * l.r) =
          (co i).a * y i + (co i).b * y (i+1) + (co i).c * y (i+2) - (co i).r := by
        rw [← hl']; field_simp; ring
      constructor
      · intro hh; have := sub_eq_zero.mpr hh; rw [e] at this; exact sub_eq_zero.mp this
      · intro hh; have := sub_eq_zero.mpr hh; rw [← e] at this; exact sub_eq_zero.mp this
    rcases Nat.eq_zero_or_pos k with rfl | hpos
    · simp only [loLoop, Except.ok.injEq] at h
      subst h
      exact key
    · have := (ih (i+1) _ w h (by omega) (fun _ => key.mpr (hrows i (le_refl _) (by omega)))
        (fun j h1 h2 => hrows j (by omega) (by omega))).2 (by omega)
      have e1 : i + 1 + k = i + (k + 1) := by omega
      rw [e1] at this
      exact this

/-- The pivots of `back_solve` are the pivots tested by the lower loop of `reduce`. -/
theorem loLoop_bet (co : Nat → Row K) (h0 : ∀ v, v = 0 → tiny v) (x1 : K) :
    ∀ (k i : Nat) (l w : Row K), loLoop tiny co k (i+2) l = .ok w →
      l.b = bet co x1 i → l.c = (co (i+1)).c →
      ∀ j, i ≤ j → j < i + k → bet co x1 j ≠ 0 := by
  intro k
  induction k with
  | zero => intro i l w _ _ _ j h1 h2; omega
  | succ k ih =>
    intro i l w h hb hc j h1 h2
    simp only [loLoop] at h
    split at h
    · cases h
    rename_i hne
    have hb0 : bet co x1 i ≠ 0 := by rw [← hb]; exact fun hz => hne (h0 _ hz)
    rcases Nat.eq_or_lt_of_le h1 with rfl | hlt
    · exact hb0
    · refine ih (i+1) _ w h ?_ rfl j (by omega) (by omega)
      simp only [bet, fwd]
      rw [hb, hc]
      simp only [bet]
      ring

theorem reduce_ok {co : Nat → Row K} {n : Nat} {u l : Row K}
    (h : reduce tiny co n = .ok (u, l)) : 2 ≤ n ∧ upLoop tiny co (n - 2) (co (n - 2)) = .ok u ∧
      loLoop tiny co (n - 2) 2 (co 1) = .ok l := by
  unfold reduce at h
  split at h
  · cases h
  cases hu : upLoop tiny co (n - 2) (co (n - 2)) with
  | error e => simp [hu] at h
  | ok u' =>
    cases hl : loLoop tiny co (n - 2) 2 (co 1) with
    | error e => simp [hu, hl] at h
    | ok l' =>
      simp only [hu, hl, Except.ok.injEq, Prod.mk.injEq] at h
      refine ⟨by omega, by rw [h.1], by rw [h.2]⟩

theorem reduce_bet {co : Nat → Row K} (h0 : ∀ v, v = 0 → tiny v) {n : Nat} {u l : Row K}
    (h : reduce tiny co n = .ok (u, l)) (x1 : K) : ∀ j, j < n - 2 → bet co x1 j ≠ 0 := by
  obtain ⟨hn, hu, hl⟩ := reduce_ok tiny h
  intro j hj
  exact loLoop_bet tiny co h0 x1 (n-2) 0 _ _ hl (by simp [bet, fwd]) rfl j (by omega) (by omega)

/-- The values produced by `back_solve`. -/
def bsVal (co : Nat → Row K) (nloc : Nat) (x1 xn : K) : Nat → K :=
  fun j => if j = 0 then x1 else bwd co x1 xn nloc (nloc - 1 - j)

theorem backSolve_ok {co : Nat → Row K} (h0 : ∀ v, v = 0 → tiny v) {n : Nat} {u l : Row K}
    (h : reduce tiny co n = .ok (u, l)) (x1 xn : K) : backSolve co n x1 xn = .ok (bsVal co n x1 xn) := by
  unfold backSolve
  rw [if_pos]
  · rfl
  · simp only [List.all_eq_true, List.mem_range, decide_eq_true_eq]
    exact reduce_bet tiny h0 h x1

theorem bsVal_zero (co : Nat → Row K) (n : Nat) (x1 xn : K) : bsVal co n x1 xn 0 = x1 := rfl

theorem bsVal_last (co : Nat → Row K) (n : Nat) (hn : 2 ≤ n) (x1 xn : K) : bsVal co n x1 xn (n-1) = xn := by
  unfold bsVal
  rw [if_neg (by omega)]
  simp [bwd]

theorem bsVal_rec (co : Nat → Row K) (n : Nat) (x1 xn : K) (j : Nat) (hj : j + 1 < n) :
    bsVal co n x1 xn j = (fwd co x1 j).2 - (fwd co x1 j).1 * bsVal co n x1 xn (j+1) := by
  by_cases h : j = 0
  · subst h; simp [bsVal, fwd]
  · unfold bsVal
    rw [if_neg h, if_neg (by omega)]
    have e : n - 1 - j = (n - 1 - (j+1)) + 1 := by omega
    rw [e]
    simp only [bwd]
    have e2 : n - 2 - (n - 1 - (j+1)) = j := by omega
    rw [e2]

theorem bsVal_row (co : Nat → Row K) (n : Nat) (x1 xn : K) (j : Nat) (hj : j + 2 < n)
    (hb : bet co x1 j ≠ 0) :
    (co (j+1)).Holds (bsVal co n x1 xn j) (bsVal co n x1 xn (j+1)) (bsVal co n x1 xn (j+2)) := by
  have e1 := bsVal_rec co n x1 xn j (by omega)
  have e2 := bsVal_rec co n x1 xn (j+1) (by omega)
  have f1 : (fwd co x1 (j+1)).1 * bet co x1 j = (co (j+1)).c := by
    simp only [fwd]; rw [← bet]; field_simp
  have f2 : (fwd co x1 (j+1)).2 * bet co x1 j = (co (j+1)).r - (co (j+1)).a * (fwd co x1 j).2 := by
    simp only [fwd]; rw [← bet]; field_simp
  have f3 : bet co x1 j = (co (j+1)).b - (co (j+1)).a * (fwd co x1 j).1 := rfl
  unfold Row.Holds
  generalize bsVal co n x1 xn j = X0 at *
  generalize bsVal co n x1 xn (j+1) = X1 at *
  generalize bsVal co n x1 xn (j+2) = X2 at *
  generalize (fwd co x1 (j+1)).1 = G1 at *
  generalize (fwd co x1 (j+1)).2 = Y1 at *
  generalize bet co x1 j = B at *
  rw [show (co (j+1)).b = B + (co (j+1)).a * (fwd co x1 j).1 by rw [f3]; ring]
  linear_combination (co (j+1)).a * e1 + B * e2 + f2 - X2 * f1

/-- Main local lemma: with end values `x1`, `xn`, the back-substituted `x` satisfies all interior rows, and its
first/last rows hold exactly when the interface equations do. -/
theorem local_spec {co : Nat → Row K} (h0 : ∀ v, v = 0 → tiny v) {n : Nat} {u l : Row K}
    (h : reduce tiny co n = .ok (u, l)) (x1 xn xm xp : K) :
    2 ≤ n ∧
    (∀ j, j + 2 < n → (co (j+1)).Holds (bsVal co n x1 xn j) (bsVal co n x1 xn (j+1)) (bsVal co n x1 xn (j+2))) ∧
    (u.Holds xm x1 xn ↔ (co 0).Holds xm (bsVal co n x1 xn 0) (bsVal co n x1 xn 1)) ∧
    (l.Holds x1 xn xp ↔ (co (n-1)).Holds (bsVal co n x1 xn (n-2)) (bsVal co n x1 xn (n-1)) xp) := by
  have hbet := reduce_bet tiny h0 h x1
  obtain ⟨hn, hu, hl⟩ := reduce_ok tiny h
  have hn2 : 2 ≤ n := hn
  have hrow : ∀ j, j + 2 < n →
      (co (j+1)).Holds (bsVal co n x1 xn j) (bsVal co n x1 xn (j+1)) (bsVal co n x1 xn (j+2)) :=
    fun j hj => bsVal_row co n x1 xn j hj (hbet j (by omega))
  refine ⟨hn2, hrow, ?_, ?_⟩
  · -- upper
    let y : Nat → K := fun k => if k = 0 then xm else bsVal co n x1 xn (k-1)
    have hlast := bsVal_last co n hn2 x1 xn
    have := upLoop_spec tiny co h0 y xn (n-2) _ _ hu
      (by intro j h1 h2
          obtain ⟨j, rfl⟩ : ∃ j', j = j' + 1 := ⟨j-1, by omega⟩
          simpa [y] using hrow j (by omega))
      (by intro hne
          have := hrow (n-3) (by omega)
          have e1 : n - 3 + 1 = n - 2 := by omega
          have e2 : n - 3 + 2 = n - 1 := by omega
          rw [e1, e2, hlast] at this
          simp only [y, if_neg hne, if_neg (Nat.succ_ne_zero _)]
          have e3 : n - 2 - 1 = n - 3 := by omega
          rw [e3]
          simpa using this)
    by_cases hn0 : n - 2 = 0
    · have hu' := this.1 hn0
      have hn' : n = 2 := by omega
      subst hn'
      rw [hu']
      simp only [bsVal_zero]
      have hlast' : bsVal co 2 x1 xn 1 = xn := hlast
      rw [hlast']
    · simpa [y, bsVal_zero] using this.2 hn0
  · let y : Nat → K := fun k => if k = n+1 then xp else bsVal co n x1 xn (k-1)
    have hlast := bsVal_last co n hn2 x1 xn
    have := loLoop_spec tiny co h0 y x1 (n-2) 2 _ _ hl (le_refl _)
      (by intro hne
          have := hrow 0 (by omega)
          simp only [y, if_neg (show ¬ (2 = n+1) by omega), if_neg (show ¬ (2 + 1 = n+1) by omega)]
          simpa [bsVal_zero] using this)
      (by intro j h1 h2
          obtain ⟨j, rfl⟩ : ∃ j', j = j' + 1 := ⟨j-1, by omega⟩
          simp only [y, if_neg (show ¬ (j + 1 = n+1) by omega), if_neg (show ¬ (j + 1 + 1 = n+1) by omega),
            if_neg (show ¬ (j + 1 + 2 = n+1) by omega)]
          simpa using hrow j (by omega))
    by_cases hn0 : n - 2 = 0
    · have hu' := this.1 hn0
      have hn' : n = 2 := by omega
      subst hn'
      rw [hu']
      simp only [bsVal_zero, Nat.sub_self]
      rw [hlast]
    · have h2 := this.2 hn0
      have e1 : 2 + (n-2) = n := by omega
      rw [e1] at h2
      simp only [y, if_neg (show ¬ (n = n+1) by omega), if_neg (show ¬ (n - 1 = n+1) by omega), if_pos rfl, hlast] at h2
      rw [hlast]
      exact h2

end Verif.Cyclic
