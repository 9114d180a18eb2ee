import Verif.Invert.PcrThomas
import Verif.Cyclic.Block

/-!
# C66: with dominant rows nothing is divided by zero
-/
namespace Verif.Pcr
open Verif.Cyclic

variable {K : Type} [NormedField K]

/-- The row is strictly dominant; without a flag, the coefficient on that side does not count. -/
def DR (fa fc : Bool) (r : Row K) : Prop := (if fa then ‖r.a‖ else 0) + (if fc then ‖r.c‖ else 0) < ‖r.b‖

theorem DR.b_ne {fa fc : Bool} {r : Row K} (h : DR fa fc r) : r.b ≠ 0 := by
  intro hb
  unfold DR at h
  rw [hb, norm_zero] at h
  have h1 : (0 : ℝ) ≤ if fa then ‖r.a‖ else 0 := by split <;> positivity
  have h2 : (0 : ℝ) ≤ if fc then ‖r.c‖ else 0 := by split <;> positivity
  linarith

theorem DR.mono {r : Row K} (h : DR true true r) (fa fc : Bool) : DR fa fc r := by
  unfold DR at *
  have h1 : (if fa then ‖r.a‖ else 0) ≤ ‖r.a‖ := by split <;> simp
  have h2 : (if fc then ‖r.c‖ else 0) ≤ ‖r.c‖ := by split <;> simp
  simp only [if_true] at h
  linarith

theorem dummy_DR (fa fc : Bool) : DR fa fc (dummy : Row K) := by
  refine DR.mono ?_ fa fc
  unfold DR dummy
  simp

/-- What a row loses to a neighbour. -/
theorem side_le {f : Bool} {t u b row : K} (hb : (if f then ‖t‖ else 0) + ‖u‖ < ‖b‖) :
    (if f then ‖(-row / b) * t‖ else 0) + ‖(-row / b) * u‖ ≤ ‖row‖ := by
  have hb0 : 0 < ‖b‖ := by
    have h1 : (0 : ℝ) ≤ if f then ‖t‖ else 0 := by split <;> positivity
    have := norm_nonneg u
    linarith
  have e : (if f then ‖(-row / b) * t‖ else 0) + ‖(-row / b) * u‖ = ‖row‖ / ‖b‖ * ((if f then ‖t‖ else 0) + ‖u‖) := by
    rw [norm_mul, norm_mul, norm_div, norm_neg]
    split <;> ring
  rw [e]
  calc ‖row‖ / ‖b‖ * ((if f then ‖t‖ else 0) + ‖u‖) ≤ ‖row‖ / ‖b‖ * ‖b‖ :=
        mul_le_mul_of_nonneg_left hb.le (by positivity)
    _ = ‖row‖ := by field_simp

theorem combine_DR {fa fc ga gc : Bool} {alpha gamma : K} {ip row inn : Row K} (hrow : DR fa fc row)
    (hl : (alpha * ip.a = 0 ∧ alpha * ip.c = 0) ∨ (fa = true ∧ DR ga true ip ∧ alpha = -row.a / ip.b))
    (hr : (gamma * inn.a = 0 ∧ gamma * inn.c = 0) ∨ (fc = true ∧ DR true gc inn ∧ gamma = -row.c / inn.b)) :
    DR ga gc (combine alpha gamma ip row inn) := by
  have hL : (if ga then ‖alpha * ip.a‖ else 0) + ‖alpha * ip.c‖ ≤ if fa then ‖row.a‖ else 0 := by
    rcases hl with ⟨h1, h2⟩ | ⟨h1, h2, h3⟩
    · rw [h1, h2, norm_zero]
      have : (0 : ℝ) ≤ if fa then ‖row.a‖ else 0 := by split <;> positivity
      simpa using this
    · rw [h1, if_pos rfl, h3]
      refine side_le ?_
      unfold DR at h2
      simpa using h2
  have hR : (if gc then ‖gamma * inn.c‖ else 0) + ‖gamma * inn.a‖ ≤ if fc then ‖row.c‖ else 0 := by
    rcases hr with ⟨h1, h2⟩ | ⟨h1, h2, h3⟩
    · rw [h1, h2, norm_zero]
      have : (0 : ℝ) ≤ if fc then ‖row.c‖ else 0 := by split <;> positivity
      simpa using this
    · rw [h1, if_pos rfl, h3]
      refine side_le ?_
      unfold DR at h2
      rw [add_comm]
      simpa using h2
  unfold DR at hrow ⊢
  unfold combine
  dsimp only
  have hb : ‖row.b‖ ≤ ‖row.b + (alpha * ip.c + gamma * inn.a)‖ + (‖alpha * ip.c‖ + ‖gamma * inn.a‖) := by
    have h1 := norm_sub_le (row.b + (alpha * ip.c + gamma * inn.a)) (alpha * ip.c + gamma * inn.a)
    rw [add_sub_cancel_right] at h1
    have h2 := norm_add_le (alpha * ip.c) (gamma * inn.a)
    linarith
  linarith

theorem reduce_DR {fa fc ga gc : Bool} {ip row inn : Row K} (hrow : DR fa fc row)
    (hl : fa = true ∧ DR ga true ip) (hr : (inn = dummy) ∨ (fc = true ∧ DR true gc inn)) : DR ga gc (reduce ip row inn) := by
  unfold reduce
  refine combine_DR hrow (Or.inr ⟨hl.1, hl.2, rfl⟩) ?_
  rcases hr with h | ⟨h1, h2⟩
  · left
    rw [h]
    unfold dummy
    simp
  · exact Or.inr ⟨h1, h2, rfl⟩

theorem det_ne {fa fc : Bool} {u v : Row K} (hu : DR fa true u) (hv : DR true fc v) : det u v ≠ 0 := by
  intro h
  unfold det at h
  have h1 : u.b * v.b = u.c * v.a := by linear_combination h
  have h2 : ‖u.b‖ * ‖v.b‖ = ‖u.c‖ * ‖v.a‖ := by rw [← norm_mul, ← norm_mul, h1]
  unfold DR at hu hv
  have h3 : ‖u.c‖ < ‖u.b‖ := by
    have : (0 : ℝ) ≤ if fa then ‖u.a‖ else 0 := by split <;> positivity
    simp only [if_true] at hu
    linarith
  have h4 : ‖v.a‖ < ‖v.b‖ := by
    have : (0 : ℝ) ≤ if fc then ‖v.c‖ else 0 := by split <;> positivity
    simp only [if_true] at hv
    linarith
  have := mul_lt_mul'' h3 h4 (norm_nonneg _) (norm_nonneg _)
  linarith

/-! ## One row per processor -/

theorem step_DR {P D : Nat} {s : Nat → Row K} (h : ∀ p, p < P → DR (decide (D ≤ p)) true (s p)) :
    StepOK P D s ∧ ∀ p, p < P → DR (decide (2 * D ≤ p)) true (step P D s p) := by
  refine ⟨fun p hp => ⟨fun _ => (h (p - D) (by omega)).b_ne, fun hr => (h (p + D) hr).b_ne⟩, fun p hp => ?_⟩
  unfold step
  refine combine_DR (h p hp) ?_ ?_
  · by_cases hl : D ≤ p
    · right
      refine ⟨by simpa using hl, ?_, if_pos hl⟩
      have := h (p - D) (by omega)
      rw [show decide (2 * D ≤ p) = decide (D ≤ p - D) by rw [decide_eq_decide]; omega]
      exact this
    · left
      rw [if_neg hl]
      simp
  · by_cases hr : p + D < P
    · right
      refine ⟨rfl, ?_, if_pos hr⟩
      have := h (p + D) hr
      rw [show decide (D ≤ p + D) = true by simp] at this
      exact this
    · left
      rw [if_neg hr]
      simp

theorem stepN_DR {P : Nat} {s : Nat → Row K} (h : ∀ p, p < P → DR (decide (1 ≤ p)) true (s p)) (l : Nat) :
    StepOK P (2 ^ l) (stepN P s l) ∧ ∀ p, p < P → DR (decide (2 ^ l ≤ p)) true (stepN P s l p) := by
  induction l with
  | zero => exact ⟨(step_DR h).1, h⟩
  | succ l ih =>
    have := (step_DR ih.2).2
    rw [← pow_succ'] at this
    exact ⟨(step_DR this).1, this⟩

theorem stepOK_pcrOK {P n D : Nat} (hD : 1 ≤ D) (hDP : D ∣ P) {w : Nat → Nat → Row K} (h : StepOK P D (fun q => w q n)) :
    PcrOK P n D w := by
  intro p hp
  obtain ⟨h1, h2⟩ := h p hp
  constructor
  · intro hl
    have hl' : D ≤ p := by
      by_contra hc
      exact hl (Nat.div_eq_of_lt (by omega))
    rw [pcrExchange, if_neg (by omega), if_pos ⟨rfl, hl'⟩]
    exact h1 hl'
  · intro hr
    have hr' : p + D < P := by
      by_contra hc
      refine hr ?_
      obtain ⟨m, rfl⟩ := hDP
      have hm : 1 ≤ m := by
        rcases Nat.eq_zero_or_pos m with rfl | h
        · simp at hp
        · exact h
      obtain ⟨m', rfl⟩ : ∃ m', m = m' + 1 := ⟨m - 1, by omega⟩
      rw [Nat.mul_div_cancel_left _ (by omega), Nat.add_sub_cancel]
      have hle : p / D ≤ m' := by
        have := (Nat.div_lt_iff_lt_mul (show 0 < D by omega)).mpr (by rw [Nat.mul_comm]; exact hp)
        omega
      have : m' ≤ p / D ↔ m' * D ≤ p := Nat.le_div_iff_mul_le (by omega)
      have e : D * (m' + 1) = m' * D + D := by ring
      rw [e] at hc
      omega
    rw [pcrExchange, if_pos ⟨rfl, hr'⟩]
    exact h2 hr'

/-- The single-row phase divides by nothing that is zero. -/
theorem single_pivots {P n M : Nat} (hP : P = 2 ^ M) (hn1 : 1 ≤ n) (u : Nat → Nat → Row K) (hu0 : ∀ p, u p 0 = dummy)
    (h : ∀ p, p < P → DR (decide (1 ≤ p)) true (u p n)) :
    (∀ l, l < M - 1 → PcrOK P n (2 ^ l) (pcrForward P n u l)) ∧
    (∀ p, p < P → det (pcrPair P n (pcrForward P n u (M - 1)) p).1 (pcrPair P n (pcrForward P n u (M - 1)) p).2 ≠ 0) := by
  have hpl : ∀ l, l ≤ M → ∀ q, q < P → pcrForward P n u l q n = stepN P (fun q => u q n) l q := fun l hl q hq =>
    pcrForward_last hP hn1 u l hl q hq
  have hD := stepN_DR (s := fun q => u q n) h
  refine ⟨fun l hl => ?_, fun p hp => ?_⟩
  · refine stepOK_pcrOK Nat.one_le_two_pow (by rw [hP]; exact pow_dvd_pow 2 (by omega)) ?_
    intro p hp
    obtain ⟨k1, k2⟩ := (hD l).1 p hp
    refine ⟨fun h1 => ?_, fun h1 => ?_⟩ <;> dsimp only
    · rw [hpl l (by omega) _ (lt_of_le_of_lt (Nat.sub_le _ _) hp)]; exact k1 h1
    · rw [hpl l (by omega) _ h1]; exact k2 h1
  · have hd := (hD (M - 1)).2
    unfold pcrPair
    rcases Nat.eq_zero_or_pos M with h0 | hM
    · subst h0
      have hP1 : P = 1 := hP
      rw [if_neg (by omega), if_neg (by omega)]
      dsimp only
      rw [hpl 0 (by omega) p hp]
      have e : pcrForward P n u (0 - 1) p 0 = dummy := hu0 p
      rw [e]
      unfold det dummy
      simp only [one_mul, zero_mul, sub_zero]
      exact (h p hp).b_ne
    · obtain ⟨m, rfl⟩ : ∃ m, M = m + 1 := ⟨M - 1, by omega⟩
      rw [Nat.add_sub_cancel] at hd ⊢
      rw [pow_succ'] at hP
      have hh : P / 2 = 2 ^ m := by omega
      have h1 : 1 ≤ 2 ^ m := Nat.one_le_two_pow
      have hpl' := hpl m (by omega)
      rw [hh]
      generalize 2 ^ m = H at *
      by_cases hlt : p < H
      · rw [if_pos hlt]
        dsimp only
        rw [hpl' p hp, hpl' (p + H) (by omega)]
        have h2 := hd (p + H) (by omega)
        rw [show decide (H ≤ p + H) = true by simp] at h2
        exact det_ne (hd p hp) h2
      · rw [if_neg hlt, if_pos (by omega)]
        dsimp only
        rw [hpl' p hp, hpl' (p - H) (by omega)]
        have h2 := hd p hp
        rw [show decide (H ≤ p) = true by simpa using hlt] at h2
        exact det_ne (hd (p - H) (by omega)) h2

/-! ## Cyclic reduction on each processor -/

/-- All rows are strictly dominant. -/
def AllD (P n : Nat) (w : Nat → Nat → Row K) : Prop := ∀ p, p < P → ∀ i, i ≤ n + 1 → DR true true (w p i)

theorem crExchange_DR {P n d : Nat} (hd : d ≤ n + 1) {w : Nat → Nat → Row K} (h : AllD P n w) : AllD P n (crExchange P n d w) := by
  intro p hp i hi
  unfold crExchange
  by_cases hc : i = n + 1 ∧ p + 1 < P
  · rw [if_pos hc]; exact h (p + 1) hc.2 d hd
  · rw [if_neg hc]; exact h p hp i hi

theorem crLevel_DR {P n d : Nat} (hd : 1 ≤ d) (hdn : d ≤ n + 1) {w : Nat → Nat → Row K} (h : AllD P n w) :
    CrOK P n d w ∧ AllD P n (crLevel P n d w) := by
  have hx := crExchange_DR hdn h
  refine ⟨fun p hp i hi => ?_, fun p hp i hi => ?_⟩
  · obtain ⟨-, h1, h2⟩ := (mem_crIdx hd i).mp hi
    exact ⟨(hx p hp (i - d) (by omega)).b_ne, (hx p hp (min (i + d) (n + 1)) (by omega)).b_ne⟩
  · rw [crLevel_eq hd]
    by_cases hc : 2 * d ∣ i ∧ 1 ≤ i ∧ i ≤ n
    · rw [if_pos hc]
      exact reduce_DR (hx p hp i hi) ⟨rfl, hx p hp (i - d) (by omega)⟩ (Or.inr ⟨rfl, hx p hp _ (by omega)⟩)
    · rw [if_neg hc]
      exact hx p hp i hi

theorem corePivots {P n M L : Nat} (hP : P = 2 ^ M) (hn : n = 2 ^ L) {w : Nat → Nat → Row K} (hw0 : ∀ p, w p 0 = dummy)
    (h : AllD P n w) : CorePivots P n w := by
  have hn1 : 1 ≤ n := by rw [hn]; exact Nat.one_le_two_pow
  have hLn : levels n = L := by rw [hn]; exact levels_two_pow L
  have hLP : levels P = M := by rw [hP]; exact levels_two_pow M
  have hall : ∀ l, l ≤ L → AllD P n (crForward P n w l) := by
    intro l
    induction l with
    | zero => exact fun _ => h
    | succ l ih =>
      intro hl
      refine (crLevel_DR Nat.one_le_two_pow ?_ (ih (by omega))).2
      have : 2 ^ l ≤ 2 ^ L := Nat.pow_le_pow_right (by omega) (by omega)
      omega
  have hs := single_pivots hP hn1 (crForward P n w L) (fun p => by rw [(crForward_keeps w L).1, hw0])
    (fun p hp => (hall L (le_refl _) p hp n (by omega)).mono _ _)
  constructor
  · intro l hl
    rw [hLn] at hl
    refine (crLevel_DR Nat.one_le_two_pow ?_ (hall l (by omega))).1
    have : 2 ^ l ≤ 2 ^ L := Nat.pow_le_pow_right (by omega) (by omega)
    omega
  · rw [hLn, hLP]
    exact hs.1
  · unfold pcrRows
    rw [hLn, hLP]
    exact hs.2
  · intro p hp i h1 h2
    unfold pcrRows
    rw [hLn, hLP, pcrForward_keeps _ _ _ _ h1 h2]
    exact (hall L (le_refl _) p hp i (by omega)).b_ne

/-! ## The Thomas eliminations -/

theorem thFwd_DR {n : Nat} {w : Nat → Row K} {fc : Nat → Bool} (h : ∀ i, 2 ≤ i → i ≤ n → DR true (fc i) (w i))
    (hfc : ∀ i, 2 ≤ i → i < n → fc i = true) : ∀ k, k + 2 ≤ n → ∀ i, 2 ≤ i → i ≤ n → DR true (fc i) (thFwd w k i) := by
  intro k
  induction k with
  | zero => exact fun _ => h
  | succ k ih =>
    intro hk i h1 h2
    have ih := ih (by omega)
    rw [thFwd, upd]
    by_cases hi : i = k + 3
    · rw [if_pos hi]
      subst hi
      have h3 := ih (k + 3) h1 h2
      have h4 := ih (k + 3 - 1) (by omega) (by omega)
      rw [hfc _ (by omega) (by omega)] at h4
      unfold DR
      dsimp only
      -- the row keeps its own upper coefficient
      have hL := side_le (f := true) (t := (thFwd w k (k + 3 - 1)).a) (u := (thFwd w k (k + 3 - 1)).c) (b := (thFwd w k (k + 3 - 1)).b)
        (row := (thFwd w k (k + 3)).a) (by unfold DR at h4; simpa using h4)
      unfold DR at h3
      simp only [if_true] at h3 hL ⊢
      have hb := norm_sub_le ((thFwd w k (k + 3)).b + -(thFwd w k (k + 3)).a / (thFwd w k (k + 3 - 1)).b * (thFwd w k (k + 3 - 1)).c)
        (-(thFwd w k (k + 3)).a / (thFwd w k (k + 3 - 1)).b * (thFwd w k (k + 3 - 1)).c)
      rw [add_sub_cancel_right] at hb
      linarith
    · rw [if_neg hi]
      exact ih i h1 h2

theorem thBwd_DR {n : Nat} {w : Nat → Row K} {fa : Bool} (h : ∀ i, 2 ≤ i → i < n → DR true true (w i)) (h1 : DR fa true (w 1)) :
    ∀ k, k + 2 ≤ n → (∀ i, 2 ≤ i → i < n → DR true true (thBwd n w k i)) ∧ DR fa true (thBwd n w k 1) := by
  intro k
  induction k with
  | zero => exact fun _ => ⟨h, h1⟩
  | succ k ih =>
    intro hk
    obtain ⟨ih1, ih2⟩ := ih (by omega)
    have hnext := ih1 (n - 2 - k + 1) (by omega) (by omega)
    have hR := side_le (f := true) (t := (thBwd n w k (n - 2 - k + 1)).c) (u := (thBwd n w k (n - 2 - k + 1)).a)
      (b := (thBwd n w k (n - 2 - k + 1)).b) (row := (thBwd n w k (n - 2 - k)).c) (by unfold DR at hnext; rw [add_comm]; simpa using hnext)
    simp only [if_true] at hR
    refine ⟨fun i h2 h3 => ?_, ?_⟩
    · rw [thBwd, upd]
      by_cases hi : i = n - 2 - k
      · rw [if_pos hi, if_neg (by omega)]
        have h4 := ih1 (n - 2 - k) (by omega) (by omega)
        unfold DR at h4 ⊢
        simp only [if_true] at h4 ⊢
        have := norm_add_le (thBwd n w k (n - 2 - k)).a (-(thBwd n w k (n - 2 - k)).c / (thBwd n w k (n - 2 - k + 1)).b * (thBwd n w k (n - 2 - k + 1)).a)
        linarith
      · rw [if_neg hi]
        exact ih1 i h2 h3
    · rw [thBwd, upd]
      by_cases hi : 1 = n - 2 - k
      · rw [if_pos hi, if_pos hi.symm, ← hi]
        rw [← hi] at hR
        unfold DR at ih2 ⊢
        simp only [if_true] at ih2 ⊢
        have hb := norm_sub_le ((thBwd n w k 1).b + -(thBwd n w k 1).c / (thBwd n w k (1 + 1)).b * (thBwd n w k (1 + 1)).a)
          (-(thBwd n w k 1).c / (thBwd n w k (1 + 1)).b * (thBwd n w k (1 + 1)).a)
        rw [add_sub_cancel_right] at hb
        linarith
      · rw [if_neg hi]
        exact ih2

theorem thPivots {P n M : Nat} (hP : P = 2 ^ M) (hn : 2 ≤ n) {w : Nat → Nat → Row K} (hw0 : ∀ p, w p 0 = dummy)
    (hwn : w (P - 1) (n + 1) = dummy)
    (h : ∀ p, p < P → ∀ i, 1 ≤ i → i ≤ n → DR (decide (p ≠ 0 ∨ i ≠ 1)) (decide (p + 1 ≠ P ∨ i ≠ n)) (w p i)) : ThPivots P n w := by
  have hLP : levels P = M := by rw [hP]; exact levels_two_pow M
  have hf : ∀ p, p < P → ∀ i, 2 ≤ i → i ≤ n → DR true (decide (p + 1 ≠ P ∨ i ≠ n)) (thFwd (w p) (n - 2) i) := fun p hp =>
    thFwd_DR (fc := fun i => decide (p + 1 ≠ P ∨ i ≠ n)) (fun i h1 h2 => by
      have := h p hp i (by omega) h2
      rw [show decide (p ≠ 0 ∨ i ≠ 1) = true by simp; omega] at this
      exact this) (fun i h1 h2 => by simp; omega) (n - 2) (by omega)
  have hf' : ∀ p, p < P → ∀ i, 2 ≤ i → i < n → DR true true (thFwd (w p) (n - 2) i) := fun p hp i h1 h2 => by
    have := hf p hp i h1 (by omega)
    rw [show decide (p + 1 ≠ P ∨ i ≠ n) = true by simp; omega] at this
    exact this
  have h1 : ∀ p, p < P → DR (decide (p ≠ 0)) true (thFwd (w p) (n - 2) 1) := fun p hp => by
    rw [thFwd_above _ _ _ (by omega)]
    have := h p hp 1 (by omega) (by omega)
    rw [show decide (p + 1 ≠ P ∨ 1 ≠ n) = true by simp; omega, show decide (p ≠ 0 ∨ 1 ≠ 1) = decide (p ≠ 0) by simp] at this
    exact this
  have hb := fun p hp => thBwd_DR (hf' p hp) (h1 p hp) (n - 2) (by omega)
  have hgn : ∀ p, thRows n (w p) n = thFwd (w p) (n - 2) n := fun p => by rw [thRows, thBwd_other _ _ _ (by omega) (by omega)]
  have hgd : ∀ p, p + 1 = P → thRows n (w p) (n + 1) = dummy := fun p hp => by
    rw [thRows, thBwd_other _ _ _ (by omega) (by omega), thFwd_above _ _ _ (by omega), show p = P - 1 by omega, hwn]
  have hs := single_pivots hP (show 1 ≤ n by omega) (thReduced P n w) (fun p => by
    rw [thReduced, thLevel]
    rw [upd, if_neg (by omega), thExchange, if_neg (by omega), thRows, thBwd_other _ _ _ (by omega) (by omega), thFwd_above _ _ _ (by omega), hw0])
    (fun p hp => by
      rw [thReduced, thLevel]
      rw [upd, if_pos rfl]
      have e1 : thExchange P n (fun p => thRows n (w p)) p 1 = thRows n (w p) 1 := by rw [thExchange, if_neg (by omega)]
      have e2 : thExchange P n (fun p => thRows n (w p)) p n = thFwd (w p) (n - 2) n := by rw [thExchange, if_neg (by omega), hgn]
      rw [e1, e2]
      have hip := (hb p hp).2
      rw [show decide (p ≠ 0) = decide (1 ≤ p) by rw [decide_eq_decide]; omega] at hip
      refine reduce_DR (hf p hp n hn (le_refl _)) ⟨rfl, hip⟩ ?_
      by_cases hl : p + 1 < P
      · right
        refine ⟨by simp; omega, ?_⟩
        rw [thExchange, if_pos ⟨rfl, hl⟩]
        have := (hb (p + 1) hl).2
        rw [show decide (p + 1 ≠ 0) = true by simp] at this
        exact this
      · left
        rw [thExchange, if_neg (by omega)]
        exact hgd p (by omega))
  constructor
  · exact fun p hp i h1 h2 => (hf' p hp i h1 h2).b_ne
  · exact fun p hp => (hb p hp).2.b_ne
  · rw [hLP]; exact hs.1
  · rw [hLP]; exact hs.2

/-! ## The boundary rows -/

/-- A row at the lower end: coupled inwards only and weakly dominant, or strictly dominant. -/
def LowOK (r : Row K) : Prop := (r.a = 0 ∧ r.b ≠ 0 ∧ ‖r.c‖ ≤ ‖r.b‖) ∨ DR true true r

/-- A row at the upper end. -/
def HighOK (r : Row K) : Prop := (r.c = 0 ∧ r.b ≠ 0 ∧ ‖r.a‖ ≤ ‖r.b‖) ∨ DR true true r

/-- The rows of a line of processors: the interior ones are strictly dominant, the boundary ones weakly. -/
structure Line.Dominant (L : Line) (co : Nat → Nat → Row K) : Prop where
  inner : ∀ p, p < L.P → ∀ j, L.off p ≤ j → j < L.off p + L.n → DR true true (co p j)
  low : ∀ j, j < L.xstart → LowOK (co 0 j)
  high : ∀ j, j < L.xstart → HighOK (co (L.P - 1) (L.rows (L.P - 1) - 1 - j))

/-- One row of the elimination at the lower end. -/
theorem low_step {u v : Row K} (hv : v.b ≠ 0 ∧ ‖v.c‖ ≤ ‖v.b‖) :
    (LowOK u → u.b - v.c * u.a / v.b ≠ 0 ∧ ‖u.c‖ ≤ ‖u.b - v.c * u.a / v.b‖) ∧
    (DR true true u → ‖u.c‖ < ‖u.b - v.c * u.a / v.b‖) := by
  have hs : DR true true u → ‖u.c‖ < ‖u.b - v.c * u.a / v.b‖ := by
    intro h
    unfold DR at h
    simp only [if_true] at h
    have h1 : ‖v.c * u.a / v.b‖ ≤ ‖u.a‖ := by
      rw [norm_div, norm_mul, div_le_iff₀ (norm_pos_iff.mpr hv.1), mul_comm]
      exact mul_le_mul_of_nonneg_left hv.2 (norm_nonneg _)
    have h2 := norm_sub_norm_le u.b (v.c * u.a / v.b)
    linarith
  refine ⟨fun h => ?_, hs⟩
  rcases h with ⟨h1, h2, h3⟩ | h
  · rw [h1]
    simpa using ⟨h2, h3⟩
  · have := hs h
    exact ⟨fun h0 => by rw [h0, norm_zero] at this; exact absurd this (not_lt.mpr (norm_nonneg _)), this.le⟩

theorem elimLow_ok {rows : Nat → Row K} (k : Nat) (h : ∀ i, i ≤ k → LowOK (rows i)) :
    ∀ i, i ≤ k → (elimLow rows k i).b ≠ 0 ∧ ‖(elimLow rows k i).c‖ ≤ ‖(elimLow rows k i).b‖ := by
  induction k with
  | zero =>
    intro i hi
    obtain rfl : i = 0 := by omega
    rcases h 0 (le_refl _) with ⟨-, h2, h3⟩ | h1
    · exact ⟨h2, h3⟩
    · refine ⟨h1.b_ne, ?_⟩
      unfold DR at h1
      simp only [if_true] at h1
      have := norm_nonneg (rows 0).a
      change ‖(rows 0).c‖ ≤ ‖(rows 0).b‖
      linarith
  | succ k ih =>
    intro i hi
    have ih := ih (fun i hi => h i (by omega))
    rw [elimLow, upd]
    by_cases hik : i = k + 1
    · rw [if_pos hik]
      dsimp only
      rw [elimLow_above rows k (k + 1) (by omega)]
      exact (low_step (ih k (le_refl _))).1 (h (k + 1) (le_refl _))
    · rw [if_neg hik]
      exact ih i (by omega)

theorem high_step {u v : Row K} (hv : v.b ≠ 0 ∧ ‖v.a‖ ≤ ‖v.b‖) :
    (HighOK u → u.b - u.c * v.a / v.b ≠ 0 ∧ ‖u.a‖ ≤ ‖u.b - u.c * v.a / v.b‖) ∧
    (DR true true u → ‖u.a‖ < ‖u.b - u.c * v.a / v.b‖) := by
  have h := low_step (u := ⟨u.c, u.b, u.a, u.r⟩) (v := ⟨v.c, v.b, v.a, v.r⟩) hv
  dsimp only at h
  rw [mul_comm v.a u.c] at h
  refine ⟨fun hu => h.1 ?_, fun hu => h.2 ?_⟩
  · rcases hu with h1 | h1
    · exact Or.inl h1
    · right
      unfold DR at h1 ⊢
      simp only [if_true] at h1 ⊢
      linarith
  · unfold DR at hu ⊢
    simp only [if_true] at hu ⊢
    linarith

theorem elimHigh_ok {m : Nat} {rows : Nat → Row K} (k : Nat) (hk : k + 1 ≤ m) (h : ∀ i, i ≤ k → HighOK (rows (m - 1 - i))) :
    ∀ i, i ≤ k → (elimHigh m rows k (m - 1 - i)).b ≠ 0 ∧ ‖(elimHigh m rows k (m - 1 - i)).a‖ ≤ ‖(elimHigh m rows k (m - 1 - i)).b‖ := by
  induction k with
  | zero =>
    intro i hi
    obtain rfl : i = 0 := by omega
    rcases h 0 (le_refl _) with ⟨-, h2, h3⟩ | h1
    · exact ⟨h2, h3⟩
    · refine ⟨h1.b_ne, ?_⟩
      unfold DR at h1
      simp only [if_true] at h1
      have := norm_nonneg (rows (m - 1 - 0)).c
      change ‖(rows (m - 1 - 0)).a‖ ≤ ‖(rows (m - 1 - 0)).b‖
      linarith
  | succ k ih =>
    intro i hi
    have ih := ih (by omega) (fun i hi => h i (by omega))
    rw [elimHigh, upd]
    by_cases hik : i = k + 1
    · rw [if_pos (by omega)]
      dsimp only
      have e : elimHigh m rows k (m - 2 - k) = rows (m - 2 - k) := by
        rcases Nat.lt_or_ge (k + 1) m with hlt | hge
        · exact elimHigh_other _ _ _ (by omega) hlt
        · omega
      have h1 := h (k + 1) (le_refl _)
      rw [show m - 1 - (k + 1) = m - 2 - k by omega] at h1
      have h2 := ih k (le_refl _)
      rw [show m - 1 - k = m - 2 - k + 1 by omega] at h2
      rw [e]
      exact (high_step h2).1 h1
    · rw [if_neg (by omega)]
      exact ih i (by omega)

/-- The interior row next to the lower boundary. -/
theorem elimLow_first {rows : Nat → Row K} {k : Nat} (h : ∀ i, i < k → LowOK (rows i)) (hk : DR true true (rows k)) :
    DR true true (elimLow rows k k) := by
  rcases Nat.eq_zero_or_pos k with rfl | hpos
  · exact hk
  obtain ⟨m, rfl⟩ : ∃ m, k = m + 1 := ⟨k - 1, by omega⟩
  have := elimLow_ok m (fun i hi => h i (by omega)) m (le_refl _)
  rw [elimLow, upd, if_pos rfl]
  unfold DR
  simp only [if_true, norm_zero, zero_add]
  rw [elimLow_above rows m (m + 1) (by omega)]
  exact (low_step this).2 hk

theorem elimHigh_first {m : Nat} {rows : Nat → Row K} {k : Nat} (hkm : k + 1 ≤ m) (h : ∀ i, i < k → HighOK (rows (m - 1 - i)))
    (hk : DR true true (rows (m - 1 - k))) : DR true true (elimHigh m rows k (m - 1 - k)) := by
  rcases Nat.eq_zero_or_pos k with rfl | hpos
  · exact hk
  obtain ⟨l, rfl⟩ : ∃ l, k = l + 1 := ⟨k - 1, by omega⟩
  have := elimHigh_ok l (by omega) (fun i hi => h i (by omega)) l (le_refl _)
  rw [elimHigh, upd, if_pos (by omega)]
  unfold DR
  simp only [if_true, norm_zero, add_zero]
  rw [show m - 1 - l = m - 2 - l + 1 by omega] at this
  have e : elimHigh m rows l (m - 2 - l) = rows (m - 2 - l) := elimHigh_other _ _ _ (by omega) (by omega)
  rw [show m - 1 - (l + 1) = m - 2 - l by omega] at hk
  rw [e]
  exact (high_step this).2 hk

/-- The rows after the elimination. -/
theorem Line.elim_dominant (L : Line) (hP1 : 1 ≤ L.P) (hn1 : 1 ≤ L.n) {co : Nat → Nat → Row K} (h : L.Dominant co) :
    L.Ends co ∧ ∀ p, p < L.P → ∀ j, L.off p ≤ j → j < L.off p + L.n → DR true true (L.elim co p j) := by
  have hrows : ∀ p, L.rows p = L.off p + L.n + if L.last p = true then L.xstart else 0 := fun _ => rfl
  have hrl : ∀ p, p + 1 = L.P → L.rows p = L.off p + L.n + L.xstart := fun p h => by rw [hrows, if_pos ((L.last_iff p).mpr h)]
  have hoff : ∀ p, L.off p = if p = 0 then L.xstart else 0 := fun p => by
    unfold Line.off
    by_cases h : p = 0
    · rw [if_pos ((L.first_iff p).mpr h), if_pos h]
    · rw [if_neg (fun h' => h ((L.first_iff p).mp h')), if_neg h]
  -- after the lower end
  set s : Nat → Nat → Row K := fun p => if L.first p = true then elimLow (co p) L.xstart else co p with hs
  have hlow : ∀ i, i < L.xstart → LowOK (co 0 i) := h.low
  have hsin : ∀ p, p < L.P → ∀ j, L.off p ≤ j → j < L.off p + L.n → DR true true (s p j) := by
    intro p hp j h1 h2
    rw [hs]
    dsimp only
    by_cases hf : L.first p = true
    · obtain rfl := (L.first_iff p).mp hf
      rw [if_pos hf]
      have ho := hoff 0
      rw [if_pos rfl] at ho
      by_cases hj : j = L.xstart
      · rw [hj]
        exact elimLow_first hlow (h.inner 0 hp _ (by omega) (by omega))
      · rw [elimLow_above _ _ _ (by omega)]
        exact h.inner 0 hp j h1 h2
    · rw [if_neg hf]
      exact h.inner p hp j h1 h2
  have hshigh : ∀ i, i < L.xstart → HighOK (s (L.P - 1) (L.rows (L.P - 1) - 1 - i)) := by
    intro i hi
    have hr := hrl (L.P - 1) (by omega)
    have ho := hoff (L.P - 1)
    rw [hs]
    dsimp only
    by_cases hf : L.first (L.P - 1) = true
    · rw [if_pos hf]
      rw [if_pos ((L.first_iff _).mp hf)] at ho
      rw [elimLow_above _ _ _ (by omega)]
      exact h.high i hi
    · rw [if_neg hf]
      exact h.high i hi
  have helim : ∀ p, L.elim co p = if L.last p = true then elimHigh (L.rows p) (s p) L.xstart else s p := fun p => rfl
  refine ⟨⟨fun ix hix => ?_, fun ix hix => ?_⟩, fun p hp j h1 h2 => ?_⟩
  · have key : ∀ k i, i ≤ k → ∀ d, elimLow (co 0) (k + d) i = elimLow (co 0) k i := by
      intro k i hik d
      induction d with
      | zero => rfl
      | succ d ih => rw [← Nat.add_assoc, elimLow, upd, if_neg (by omega), ih]
    have h1 := elimLow_ok (L.xstart - 1) (fun i hi => hlow i (by omega)) ix (by omega)
    rw [← key (L.xstart - 1) ix (by omega) 1, Nat.sub_add_cancel (by omega)] at h1
    exact h1.1
  · have hr := hrl (L.P - 1) (by omega)
    rw [helim, if_pos ((L.last_iff _).mpr (by omega))]
    have key : ∀ (m : Nat) (r : Nat → Row K) k i, i ≤ k → ∀ d, k + d + 1 < m → elimHigh m r (k + d) (m - 1 - i) = elimHigh m r k (m - 1 - i) := by
      intro m r k i hik d
      induction d with
      | zero => exact fun _ => rfl
      | succ d ih => intro hd; rw [← Nat.add_assoc, elimHigh, upd, if_neg (by omega), ih (by omega)]
    have h1 := elimHigh_ok (m := L.rows (L.P - 1)) (L.xstart - 1) (by omega) (fun i hi => hshigh i (by omega)) ix (by omega)
    by_cases hsmall : L.xstart + 1 < L.rows (L.P - 1)
    · rw [← key _ _ (L.xstart - 1) ix (by omega) 1 (by omega), Nat.sub_add_cancel (by omega)] at h1
      exact h1.1
    · -- one row in all but the boundary
      obtain ⟨k, hk⟩ : ∃ k, L.xstart = k + 1 := ⟨L.xstart - 1, by omega⟩
      rw [hk, elimHigh, upd, if_neg (by omega)]
      rw [hk, Nat.add_sub_cancel] at h1
      exact h1.1
  · rw [helim]
    by_cases hl : L.last p = true
    · have hl' := (L.last_iff p).mp hl
      have hr := hrl p hl'
      rw [if_pos hl]
      by_cases hj : j = L.rows p - 1 - L.xstart
      · rw [hj]
        refine elimHigh_first (by omega) (fun i hi => ?_) (hsin p hp _ (by omega) (by omega))
        have := hshigh i hi
        rw [show L.P - 1 = p by omega] at this
        exact this
      · rw [elimHigh_other _ _ _ (by omega) (by omega)]
        exact hsin p hp j h1 h2
    · rw [if_neg hl]
      exact hsin p hp j h1 h2

/-- Nothing is divided by zero in `cr_pcr_solver`. -/
theorem Line.pivots_of_dominant (L : Line) {M N : Nat} (hP : L.P = 2 ^ M) (hn : L.n = 2 ^ N) {co : Nat → Nat → Row K}
    (h : L.Dominant co) : L.Pivots co := by
  have hP1 : 1 ≤ L.P := by rw [hP]; exact Nat.one_le_two_pow
  have hn1 : 1 ≤ L.n := by rw [hn]; exact Nat.one_le_two_pow
  obtain ⟨h1, h2⟩ := L.elim_dominant hP1 hn1 h
  refine ⟨h1, corePivots hP hn (fun p => by unfold Line.load; rw [if_pos (Or.inl rfl)]) ?_⟩
  intro p hp i hi
  unfold Line.load
  by_cases hc : i = 0 ∨ i = L.n + 1
  · rw [if_pos hc]; exact dummy_DR _ _
  · rw [if_neg hc]; exact h2 p hp _ (by omega) (by omega)

/-- Nor in `pcr_thomas_solver`. -/
theorem Line.thPivots_of_dominant (L : Line) {M : Nat} (hP : L.P = 2 ^ M) (hn : 2 ≤ L.n) (hx : 1 ≤ L.xstart) {co : Nat → Nat → Row K}
    (hin : L.Inward co) (h : L.Dominant co) : L.ThPivots co := by
  have hP1 : 1 ≤ L.P := by rw [hP]; exact Nat.one_le_two_pow
  have heq := L.thElim_eq hx hn co hin
  obtain ⟨-, h2⟩ := L.elim_dominant hP1 (by omega) h
  have hrows : ∀ p, L.rows p = L.off p + L.n + if L.last p = true then L.xstart else 0 := fun _ => rfl
  have hrl : ∀ p, p + 1 = L.P → L.rows p = L.off p + L.n + L.xstart := fun p h => by rw [hrows, if_pos ((L.last_iff p).mpr h)]
  have hoff : ∀ p, L.off p = if p = 0 then L.xstart else 0 := fun p => by
    unfold Line.off
    by_cases h : p = 0
    · rw [if_pos ((L.first_iff p).mpr h), if_pos h]
    · rw [if_neg (fun h' => h ((L.first_iff p).mp h')), if_neg h]
  refine ⟨fun ix hix => ?_, fun ix hix => ?_, ?_⟩
  · rcases h.low ix hix with h1 | h1
    · exact h1.2.1
    · exact h1.b_ne
  · rcases h.high ix hix with h1 | h1
    · exact h1.2.1
    · exact h1.b_ne
  · refine thPivots hP hn (fun p => by unfold Line.load; rw [if_pos (Or.inl rfl)]) (by unfold Line.load; rw [if_pos (Or.inr rfl)]) ?_
    intro p hp i hi1 hi2
    unfold Line.load
    rw [if_neg (by omega)]
    have h3 := h2 p hp (i - 1 + L.off p) (by omega) (by omega)
    rw [heq p hp] at h3
    have ho := hoff p
    unfold DR at h3 ⊢
    dsimp only at h3
    simp only [if_true] at h3
    have a1 : (if decide (p ≠ 0 ∨ i ≠ 1) = true then ‖(L.thElim co p (i - 1 + L.off p)).a‖ else 0) =
        ‖if p = 0 ∧ i - 1 + L.off p = L.xstart then 0 else (L.thElim co p (i - 1 + L.off p)).a‖ := by
      by_cases hc : p = 0 ∧ i - 1 + L.off p = L.xstart
      · rw [if_pos hc, norm_zero, if_neg]
        rw [if_pos hc.1] at ho
        simp
        omega
      · rw [if_neg hc, if_pos]
        simp
        by_cases h0 : p = 0
        · right
          rw [if_pos h0] at ho
          intro h1
          exact hc ⟨h0, by omega⟩
        · exact Or.inl h0
    have a2 : (if decide (p + 1 ≠ L.P ∨ i ≠ L.n) = true then ‖(L.thElim co p (i - 1 + L.off p)).c‖ else 0) =
        ‖if p + 1 = L.P ∧ i - 1 + L.off p + 1 + L.xstart = L.rows p then 0 else (L.thElim co p (i - 1 + L.off p)).c‖ := by
      by_cases hc : p + 1 = L.P ∧ i - 1 + L.off p + 1 + L.xstart = L.rows p
      · have := hrl p hc.1
        rw [if_pos hc, norm_zero, if_neg]
        simp
        omega
      · rw [if_neg hc, if_pos]
        simp
        by_cases h0 : p + 1 = L.P
        · right
          have := hrl p h0
          intro h1
          exact hc ⟨h0, by omega⟩
        · exact Or.inl h0
    rw [a1, a2]
    exact h3

/-- The rows of a diagonally dominant block system (as for the cyclic reduction solver) are such rows. -/
theorem Line.dominant_of_block (L : Line) (hP1 : 1 ≤ L.P) {θ β : ℝ} (hθ : 0 < θ) (hβ : 0 < β) {k0 k1 : Nat} (hk0 : k0 = L.xstart) (hk1 : k1 = L.xstart)
    {co : Nat → Nat → Row K} (hd : BlockDominant θ β L.P L.rows k0 k1 co) : L.Dominant co := by
  subst hk0 hk1
  obtain ⟨d0, d1, d2, d3⟩ := hd
  have hrows : ∀ p, L.rows p = L.off p + L.n + if L.last p = true then L.xstart else 0 := fun _ => rfl
  have hrl : ∀ p, p + 1 = L.P → L.rows p = L.off p + L.n + L.xstart := fun p h => by rw [hrows, if_pos ((L.last_iff p).mpr h)]
  have hrn : ∀ p, L.off p + L.n ≤ L.rows p := fun p => by rw [hrows]; omega
  have hoff : ∀ p, L.off p = if p = 0 then L.xstart else 0 := fun p => by
    unfold Line.off
    by_cases h : p = 0
    · rw [if_pos ((L.first_iff p).mpr h), if_pos h]
    · rw [if_neg (fun h' => h ((L.first_iff p).mp h')), if_neg h]
  have hb : ∀ r : Row K, β ≤ ‖r.b‖ → r.b ≠ 0 := fun r h h0 => by rw [h0, norm_zero] at h; linarith
  refine ⟨fun p hp j h1 h2 => ?_, fun j hj => ?_, fun j hj => ?_⟩
  · have := d3 p hp j (lt_of_lt_of_le h2 (hrn p))
    have e : blockCls L.P L.rows L.xstart L.xstart p j = 1 := by
      unfold blockCls
      have ho := hoff p
      rw [if_neg (by rintro ⟨h3, h4⟩; rw [if_pos h3] at ho; omega), if_neg (by rintro ⟨h3, h4⟩; have := hrl p h3; omega)]
    rw [e] at this
    unfold Cls Strict at this
    unfold DR
    simp only [if_true]
    nlinarith [this.1, this.2, mul_pos hθ (lt_of_lt_of_le hβ this.2)]
  · have := d3 0 (by omega) j (by omega)
    have e : blockCls L.P L.rows L.xstart L.xstart 0 j = 0 := by unfold blockCls; rw [if_pos ⟨rfl, hj⟩]
    rw [e] at this
    unfold Cls Lower at this
    exact Or.inl ⟨this.1, hb _ this.2.2, this.2.1⟩
  · have hr := hrl (L.P - 1) (by omega)
    have := d3 (L.P - 1) (by omega) (L.rows (L.P - 1) - 1 - j) (by omega)
    have e : blockCls L.P L.rows L.xstart L.xstart (L.P - 1) (L.rows (L.P - 1) - 1 - j) = 2 := by
      unfold blockCls
      rw [if_neg, if_pos (by omega)]
      rintro ⟨h3, h4⟩
      have := d2 (by omega)
      rw [h3] at h4
      omega
    rw [e] at this
    unfold Cls Upper at this
    exact Or.inl ⟨this.1, hb _ this.2.2, this.2.1⟩

end Verif.Pcr
