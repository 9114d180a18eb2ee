import Verif.Invert.PcrBndry
import Mathlib.Tactic.Tauto

/-!
# C66: `LaplacePCR_THOMAS`
-/
namespace Verif.Pcr
open Verif.Cyclic

variable {K : Type} [Field K]

/-! ## The elimination on each processor -/

theorem thFwd_above (w : Nat → Row K) (k i : Nat) (h : i < 3 ∨ k + 2 < i) : thFwd w k i = w i := by
  induction k with
  | zero => rfl
  | succ k ih => rw [thFwd]; rw [upd, if_neg (by omega), ih (by omega)]

theorem thFwd_stable (w : Nat → Row K) (k i : Nat) (h : i ≤ k + 2) : thFwd w (k + 1) i = thFwd w k i := by
  rw [thFwd]; rw [upd, if_neg (by omega)]

/-- Rows `2 … n`, coupled to the first one, give the rows before the forward elimination. -/
theorem thFwd_holds {n : Nat} (w : Nat → Row K) (x : Nat → K) (Nx : Nat → K) (hNx : ∀ i, i < n → Nx i = x (i + 1)) :
    ∀ k, k + 2 ≤ n → (∀ i, 2 ≤ i → i < k + 2 → (thFwd w k i).b ≠ 0) →
      (∀ i, 2 ≤ i → i ≤ k + 2 → (thFwd w k i).Holds (x 1) (x i) (Nx i)) →
      ∀ i, 2 ≤ i → i ≤ k + 2 → (w i).Holds (x (i - 1)) (x i) (Nx i) := by
  intro k
  induction k with
  | zero =>
    intro _ _ h i h1 h2
    obtain rfl : i = 2 := by omega
    exact h 2 (by omega) (by omega)
  | succ k ih =>
    intro hk hb h i h1 h2
    by_cases hi : i ≤ k + 2
    · refine ih (by omega) (fun i h3 h4 => ?_) (fun i h3 h4 => ?_) i h1 hi
      · rw [← thFwd_stable w k i (by omega)]; exact hb i h3 (by omega)
      · rw [← thFwd_stable w k i h4]; exact h i h3 (by omega)
    · obtain rfl : i = k + 3 := by omega
      have h3 := h (k + 3) (by omega) (by omega)
      have h4 := h (k + 2) (by omega) (by omega)
      have h5 := hb (k + 2) (by omega) (by omega)
      rw [thFwd_stable w k _ (le_refl _)] at h4 h5
      rw [hNx _ (by omega)] at h4
      have e0 : thFwd w k (k + 3) = w (k + 3) := thFwd_above w k _ (by omega)
      rw [thFwd] at h3
      rw [upd, if_pos rfl, e0, show k + 3 - 1 = k + 2 by omega] at h3
      rw [show k + 3 - 1 = k + 2 by omega]
      unfold Row.Holds at h3 h4 ⊢
      dsimp only at h3
      rw [show k + 2 + 1 = k + 3 by omega] at h4
      generalize thFwd w k (k + 2) = v at *
      generalize w (k + 3) = u at *
      have e : u.a = u.a / v.b * v.b := by field_simp
      have e3 : -u.a / v.b = -(u.a / v.b) := by ring
      rw [e3] at h3
      rw [e]
      linear_combination h3 + u.a / v.b * h4

theorem thBwd_other {n : Nat} (w : Nat → Row K) (k i : Nat) (hk : k + 2 ≤ n) (h : i + 1 + k < n ∨ n ≤ i + 1) :
    thBwd n w k i = w i := by
  induction k with
  | zero => rfl
  | succ k ih => rw [thBwd]; rw [upd, if_neg (by omega), ih (by omega) (by omega)]

theorem thBwd_stable {n : Nat} (w : Nat → Row K) (k i : Nat) (hk : k + 2 ≤ n) (h : n ≤ i + 1 + k) : thBwd n w (k + 1) i = thBwd n w k i := by
  rw [thBwd]; rw [upd, if_neg (by omega)]

theorem thBwd_b {n : Nat} (w : Nat → Row K) (k i : Nat) (hi : i ≠ 1) : (thBwd n w k i).b = (w i).b := by
  induction k with
  | zero => rfl
  | succ k ih =>
    rw [thBwd]
    rw [upd]
    by_cases h : i = n - 2 - k
    · rw [if_pos h, if_neg (by omega), ← h]
      exact ih
    · rw [if_neg h]
      exact ih

/-- The rows after both eliminations give those before the backward one; `x0` is the value before the first row. -/
theorem thBwd_holds {n : Nat} (w : Nat → Row K) (x : Nat → K) (x0 : K) (hb : ∀ i, 2 ≤ i → i < n → (w i).b ≠ 0) :
    ∀ k, k + 2 ≤ n →
      (∀ i, 1 ≤ i → i < n → n ≤ i + 1 + k → (thBwd n w k i).Holds (if i = 1 then x0 else x 1) (x i) (x n)) →
      ∀ i, 1 ≤ i → i < n → n ≤ i + 1 + k → (w i).Holds (if i = 1 then x0 else x 1) (x i) (x (i + 1)) := by
  intro k
  induction k with
  | zero =>
    intro _ h i h1 h2 h3
    have := h i h1 h2 h3
    rw [show n = i + 1 by omega] at this
    exact this
  | succ k ih =>
    intro hk h i h1 h2 h3
    by_cases hi : n ≤ i + 1 + k
    · refine ih (by omega) (fun i h3 h4 h5 => ?_) i h1 h2 hi
      rw [← thBwd_stable w k i (by omega) h5]; exact h i h3 h4 (by omega)
    · have hik : i = n - 2 - k := by omega
      have h4 := h i h1 h2 h3
      have h5 := h (i + 1) (by omega) (by omega) (by omega)
      have h6 := hb (i + 1) (by omega) (by omega)
      rw [← thBwd_b (n := n) w k (i + 1) (by omega)] at h6
      rw [thBwd_stable w k _ (by omega) (by omega), if_neg (by omega)] at h5
      have e0 : thBwd n w k i = w i := thBwd_other w k i (by omega) (by omega)
      rw [thBwd] at h4
      rw [upd, if_pos hik, ← hik, e0] at h4
      generalize thBwd n w k (i + 1) = v at *
      generalize w i = u at *
      unfold Row.Holds at h4 h5 ⊢
      have e : u.c = u.c / v.b * v.b := by field_simp
      have e3 : -u.c / v.b = -(u.c / v.b) := by ring
      by_cases hi1 : i = 1
      · rw [if_pos hi1] at h4 ⊢
        rw [if_pos hi1, e3] at h4
        dsimp only at h4
        rw [e]
        rw [hi1] at h4 h5 ⊢
        linear_combination h4 + u.c / v.b * h5
      · rw [if_neg hi1] at h4 ⊢
        rw [if_neg hi1, e3] at h4
        dsimp only at h4
        rw [e]
        linear_combination h4 + u.c / v.b * h5

theorem thFill_spec {n : Nat} (s : Nat → Row K) (x : Nat → K) (hb : ∀ i, 2 ≤ i → i < n → (s i).b ≠ 0) :
    ∀ k, k + 2 ≤ n → (∀ i, i < 2 ∨ n ≤ i → thFill n s x k i = x i) ∧
      ∀ i, 2 ≤ i → i < k + 2 → (s i).Holds (x 1) (thFill n s x k i) (x n) := by
  intro k
  induction k with
  | zero => exact fun _ => ⟨fun _ _ => rfl, fun i h1 h2 => by omega⟩
  | succ k ih =>
    intro hk
    obtain ⟨i1, i2⟩ := ih (by omega)
    refine ⟨fun i hi => ?_, fun i h1 h2 => ?_⟩
    · rw [thFill]; rw [upd, if_neg (by omega)]; exact i1 i hi
    · rw [thFill]
      rw [upd]
      by_cases hik : i = k + 2
      · rw [if_pos hik, i1 1 (by omega), i1 n (by omega), hik]
        exact backVal_holds (hb _ (by omega) (by omega)) _ _
      · rw [if_neg hik]
        exact i2 i h1 (by omega)

/-- `thomas` solves all the rows of all the processors, with at least two rows on each. -/
theorem thomas_solves {P n M : Nat} (hP : P = 2 ^ M) (hn : 2 ≤ n) (w : Nat → Nat → Row K) (x : Nat → Nat → K)
    (hw0 : ∀ p, w p 0 = dummy) (hwn : w (P - 1) (n + 1) = dummy) (hx : x 0 0 = 0) (hpiv : ThPivots P n w) :
    E P n 1 w (thomas P n w x) := by
  have hP1 : 1 ≤ P := by rw [hP]; exact Nat.one_le_two_pow
  have hLP : levels P = M := by rw [hP]; exact levels_two_pow M
  set g : Nat → Nat → Row K := fun p => thRows n (w p) with hg
  set u := thReduced P n w with hu
  have hu' : u = thLevel P n g := rfl
  have hg0 : ∀ p, g p 0 = dummy := fun p => by
    rw [hg]
    dsimp only
    rw [thRows, thBwd_other _ _ _ (by omega) (by omega), thFwd_above _ _ _ (by omega), hw0]
  have hgn1 : g (P - 1) (n + 1) = dummy := by
    rw [hg]
    dsimp only
    rw [thRows, thBwd_other _ _ _ (by omega) (by omega), thFwd_above _ _ _ (by omega), hwn]
  have hui : ∀ p i, i < n → u p i = g p i := fun p i hi => by
    rw [hu', thLevel]; rw [upd, if_neg (by omega), thExchange, if_neg (by omega)]
  obtain ⟨z, hT, hyn, hy0⟩ := single_solves hP (by omega) u x (fun p => by rw [hui p 0 (by omega)]; exact hg0 p) hx
    (fun l hl => hpiv.pcr l (by rw [hLP]; exact hl))
    (fun p hp => by have := hpiv.det p hp; rw [hLP] at this; exact this)
  set w2 := pcrForward P n u (M - 1) with hw2
  set y := backExchange n (pcrSolve2 P n w2 x) with hy
  have hw2i : ∀ p i, 1 ≤ i → i < n → w2 p i = g p i := fun p i h1 h2 => by
    rw [hw2, pcrForward_keeps _ _ _ _ h1 h2, hui p i h2]
  set X := thomas P n w x with hX
  have hXp : ∀ p, X p = thFill n (w2 p) (upd (y p) 1 (backVal (w2 p 1) (y p 0) (y p n))) (n - 2) := by
    intro p
    rw [hX]
    unfold thomas
    rw [hLP]
  have hgb : ∀ p, p < P → ∀ i, 2 ≤ i → i < n → (g p i).b ≠ 0 := fun p hp i h1 h2 => by
    rw [hg]
    dsimp only
    rw [thRows, thBwd_b _ _ _ (by omega)]
    exact hpiv.inner p hp i h1 h2
  have hfill := fun p hp => thFill_spec (n := n) (w2 p) (upd (y p) 1 (backVal (w2 p 1) (y p 0) (y p n)))
    (fun i h1 h2 => by rw [hw2i p i (by omega) h2]; exact hgb p hp i h1 h2) (n - 2) (by omega)
  have hXn : ∀ p, p < P → X p n = z p := fun p hp => by
    rw [hXp, (hfill p hp).1 n (by omega), upd, if_neg (by omega), hyn p hp]
  have hX1 : ∀ p, p < P → X p 1 = backVal (g p 1) (if p = 0 then 0 else z (p - 1)) (z p) := fun p hp => by
    rw [hXp, (hfill p hp).1 1 (by omega), upd, if_pos rfl, hyn p hp, hy0 p hp, hw2i p 1 (by omega) (by omega)]
  have h1 : ∀ p, p < P → (g p 1).Holds (if p = 0 then 0 else z (p - 1)) (X p 1) (z p) := fun p hp => by
    rw [hX1 p hp]
    exact backVal_holds (hpiv.first p hp) _ _
  -- the last rows
  have hlast : ∀ p, p < P → (g p n).Holds (X p 1) (z p) (if p + 1 < P then X (p + 1) 1 else 0) := by
    intro p hp
    have ht := hT p hp
    have hun : u p n = reduce (g p 1) (g p n) (thExchange P n g p (n + 1)) := by
      rw [hu', thLevel]
      rw [upd, if_pos rfl]
      congr 1
      · rw [thExchange, if_neg (by omega)]
      · rw [thExchange, if_neg (by omega)]
    dsimp only at ht
    rw [hun] at ht
    have e1 : (if 1 ≤ p then z (p - 1) else 0) = if p = 0 then 0 else z (p - 1) := by
      by_cases h0 : p = 0
      · rw [if_pos h0, if_neg (by omega)]
      · rw [if_neg h0, if_pos (by omega)]
    rw [e1] at ht
    by_cases hl : p + 1 < P
    · rw [if_pos hl] at ht ⊢
      rw [thExchange, if_pos ⟨rfl, hl⟩] at ht
      have hn1 := h1 (p + 1) hl
      rw [if_neg (by omega)] at hn1
      exact reduce_holds (hpiv.first p hp) (hpiv.first (p + 1) hl) (h1 p hp) hn1 ht
    · rw [if_neg hl] at ht ⊢
      rw [thExchange, if_neg (by omega), show p = P - 1 by omega, hgn1] at ht
      rw [show P - 1 = p by omega] at ht
      refine reduce_holds (hpiv.first p hp) ?_ (h1 p hp) ?_ ht
      · unfold dummy; exact one_ne_zero
      · unfold Row.Holds dummy; ring
  intro p hp
  -- the rows of the processor
  have hrow : ∀ i, 1 ≤ i → i < n → (thFwd (w p) (n - 2) i).Holds (if i = 1 then (if p = 0 then 0 else z (p - 1)) else X p 1) (X p i) (X p (i + 1)) := by
    intro i h3 h4
    refine thBwd_holds (thFwd (w p) (n - 2)) (X p) _ (fun i h5 h6 => hpiv.inner p hp i h5 h6) (n - 2) (by omega) ?_ i h3 h4 (by omega)
    intro i h5 h6 _
    rw [hXn p hp]
    by_cases hi : i = 1
    · subst hi
      rw [if_pos rfl]
      exact h1 p hp
    · rw [if_neg hi]
      have := (hfill p hp).2 i (by omega) (by omega)
      rw [hw2i p i h5 h6, ← hXp] at this
      rw [upd, if_pos rfl, upd, if_neg (by omega), hyn p hp] at this
      rw [hX1 p hp]
      rw [hw2i p 1 (by omega) (by omega), hy0 p hp] at this
      exact this
  have hgn : g p n = thFwd (w p) (n - 2) n := by
    rw [hg]
    dsimp only
    rw [thRows, thBwd_other _ _ _ (by omega) (by omega)]
  intro i hi1 hi2 _
  by_cases hi : i = 1
  · subst hi
    have := hrow 1 (by omega) (by omega)
    rw [if_pos rfl, thFwd_above _ _ _ (by omega)] at this
    unfold prv nxt
    rw [if_pos (show (1 : Nat) = 1 from rfl), if_neg (show ¬ 1 = n by omega)]
    by_cases h0 : p = 0
    · rw [if_pos h0] at this ⊢; exact this
    · rw [if_neg h0] at this ⊢; rw [hXn _ (by omega)]; exact this
  · have := thFwd_holds (n := n) (w p) (X p) (fun i => nxt P n 1 X p i) (fun i hi => by unfold nxt; rw [if_neg (by omega)]) (n - 2)
      (by omega) (fun i h3 h4 => hpiv.inner p hp i h3 (by omega)) ?_ i (by omega) (by omega)
    · unfold prv
      rw [if_neg hi]
      exact this
    · intro i h3 h4
      unfold nxt
      by_cases hin : i = n
      · subst hin
        rw [if_pos rfl, ← hgn, hXn p hp]
        exact hlast p hp
      · rw [if_neg hin]
        have := hrow i (by omega) (by omega)
        rw [if_neg (by omega)] at this
        exact this

/-! ## The boundary rows -/

theorem row_eta0 (r : Row K) (h : r.a = 0) : (⟨0, r.b, r.c, r.r⟩ : Row K) = r := by
  cases r; cases h; rfl

theorem row_eta1 (r : Row K) (h : r.c = 0) : (⟨r.a, r.b, 0, r.r⟩ : Row K) = r := by
  cases r; cases h; rfl

theorem elimLow_id (rows : Nat → Row K) (k : Nat) (h : ∀ i, 1 ≤ i → i ≤ k → (rows i).a = 0) : elimLow rows k = rows := by
  induction k with
  | zero => rfl
  | succ k ih =>
    rw [elimLow, ih (fun i h1 h2 => h i h1 (by omega))]
    funext j
    rw [upd]
    by_cases hj : j = k + 1
    · rw [if_pos hj, h (k + 1) (by omega) (le_refl _), hj]
      simp only [mul_zero, zero_div, sub_zero]
      exact row_eta0 _ (h (k + 1) (by omega) (le_refl _))
    · rw [if_neg hj]

theorem elimHigh_id {m : Nat} (rows : Nat → Row K) (k : Nat) (hk : k + 1 ≤ m) (h : ∀ i, i + 1 < m → m ≤ i + 1 + k → (rows i).c = 0) :
    elimHigh m rows k = rows := by
  induction k with
  | zero => rfl
  | succ k ih =>
    rw [elimHigh, ih (by omega) (fun i h1 h2 => h i h1 (by omega))]
    funext j
    rw [upd]
    by_cases hj : j = m - 2 - k
    · have hc := h j (by omega) (by omega)
      rw [if_pos hj, ← hj, hc]
      simp only [zero_mul, zero_div, sub_zero]
      exact row_eta1 _ hc
    · rw [if_neg hj]

/-- With boundary rows that are coupled inwards only, the two eliminations differ in two coefficients that are never used. -/
theorem Line.thElim_eq (L : Line) (hx : 1 ≤ L.xstart) (hn : 2 ≤ L.n) (co : Nat → Nat → Row K) (hin : L.Inward co) (p : Nat) (hp : p < L.P) (j : Nat) :
    L.elim co p j =
      ⟨if p = 0 ∧ j = L.xstart then 0 else (L.thElim co p j).a, (L.thElim co p j).b,
        if p + 1 = L.P ∧ j + 1 + L.xstart = L.rows p then 0 else (L.thElim co p j).c, (L.thElim co p j).r⟩ := by
  obtain ⟨k, hk⟩ : ∃ k, L.xstart = k + 1 := ⟨L.xstart - 1, by omega⟩
  have hrows : L.rows p = L.off p + L.n + if L.last p = true then L.xstart else 0 := rfl
  have hlow : p = 0 → elimLow (co p) L.xstart = upd (co p) L.xstart ⟨0,
      (co p L.xstart).b - (co p (L.xstart - 1)).c * (co p L.xstart).a / (co p (L.xstart - 1)).b, (co p L.xstart).c,
      (co p L.xstart).r - (co p (L.xstart - 1)).r * (co p L.xstart).a / (co p (L.xstart - 1)).b⟩ := by
    intro h0
    rw [hk, elimLow, elimLow_id (co p) k (fun i h1 h2 => by rw [h0]; exact hin.1 i h1 (by omega))]
    rfl
  unfold Line.elim Line.thElim eliminate thEliminate
  by_cases hl : L.last p = true
  · have hl' := (L.last_iff p).mp hl
    have hm : L.rows p = L.off p + L.n + L.xstart := by rw [hrows, if_pos hl]
    have hih : ∀ s : Nat → Row K, (∀ i, i + 1 < L.rows p → L.rows p < i + 1 + L.xstart → (s i).c = 0) →
        elimHigh (L.rows p) s L.xstart = upd s (L.rows p - L.xstart - 1) ⟨(s (L.rows p - L.xstart - 1)).a,
          (s (L.rows p - L.xstart - 1)).b - (s (L.rows p - L.xstart - 1)).c * (s (L.rows p - L.xstart - 1 + 1)).a / (s (L.rows p - L.xstart - 1 + 1)).b, 0,
          (s (L.rows p - L.xstart - 1)).r - (s (L.rows p - L.xstart - 1)).c * (s (L.rows p - L.xstart - 1 + 1)).r / (s (L.rows p - L.xstart - 1 + 1)).b⟩ := by
      intro s hs
      rw [hk, elimHigh, elimHigh_id s k (by omega) (fun i h1 h2 => hs i h1 (by omega)), show L.rows p - 2 - k = L.rows p - (k + 1) - 1 by omega]
    have hcc : ∀ i, i + 1 < L.rows p → L.rows p < i + 1 + L.xstart → (co p i).c = 0 := by
      have := hin.2
      rw [show L.P - 1 = p by omega] at this
      exact this
    by_cases hf : L.first p = true
    · have hf' := (L.first_iff p).mp hf
      have hoff : L.off p = L.xstart := by unfold Line.off; rw [if_pos hf]
      simp only [hl, hf, if_true]
      rw [hlow hf', hih]
      · unfold upd
        rw [if_neg (show ¬ L.rows p - L.xstart - 1 = L.xstart by omega), if_neg (show ¬ L.rows p - L.xstart - 1 + 1 = L.xstart by omega)]
        by_cases hj : j = L.rows p - L.xstart - 1
        · rw [if_pos hj, if_pos hj, if_neg (show ¬ (p = 0 ∧ j = L.xstart) by omega), if_pos (show p + 1 = L.P ∧ j + 1 + L.xstart = L.rows p by omega)]
          rw [if_neg (show ¬ L.rows p - L.xstart - 1 = L.xstart by omega), if_neg (show ¬ L.rows p - L.xstart - 1 + 1 = L.xstart by omega)]
        · rw [if_neg hj, if_neg hj, if_neg (show ¬ (p + 1 = L.P ∧ j + 1 + L.xstart = L.rows p) by omega)]
          by_cases hjx : j = L.xstart
          · rw [if_pos hjx, if_pos hjx, if_pos ⟨hf', hjx⟩]
          · rw [if_neg hjx, if_neg hjx, if_neg (show ¬ (p = 0 ∧ j = L.xstart) by omega)]
      · intro i h1 h2
        rw [upd, if_neg (by omega)]
        exact hcc i h1 h2
    · have hf' : p ≠ 0 := fun h => hf ((L.first_iff p).mpr h)
      simp only [hl, Bool.eq_false_iff.mpr hf, if_true, Bool.false_eq_true, if_false]
      rw [hih _ hcc]
      unfold upd
      by_cases hj : j = L.rows p - L.xstart - 1
      · rw [if_pos hj, if_pos hj, if_neg (show ¬ (p = 0 ∧ j = L.xstart) by omega), if_pos (show p + 1 = L.P ∧ j + 1 + L.xstart = L.rows p by omega)]
      · rw [if_neg hj, if_neg hj, if_neg (show ¬ (p + 1 = L.P ∧ j + 1 + L.xstart = L.rows p) by omega), if_neg (show ¬ (p = 0 ∧ j = L.xstart) by omega)]
  · have hl' : p + 1 ≠ L.P := fun h => hl ((L.last_iff p).mpr h)
    by_cases hf : L.first p = true
    · have hf' := (L.first_iff p).mp hf
      simp only [Bool.eq_false_iff.mpr hl, hf, if_true, Bool.false_eq_true, if_false]
      rw [hlow hf', if_neg (show ¬ (p + 1 = L.P ∧ j + 1 + L.xstart = L.rows p) by omega)]
      unfold upd
      by_cases hjx : j = L.xstart
      · rw [if_pos hjx, if_pos hjx, if_pos ⟨hf', hjx⟩]
      · rw [if_neg hjx, if_neg hjx, if_neg (show ¬ (p = 0 ∧ j = L.xstart) by omega)]
    · have hf' : p ≠ 0 := fun h => hf ((L.first_iff p).mpr h)
      simp only [Bool.eq_false_iff.mpr hl, Bool.eq_false_iff.mpr hf, Bool.false_eq_true, if_false]
      rw [if_neg (show ¬ (p = 0 ∧ j = L.xstart) by omega),
        if_neg (show ¬ (p + 1 = L.P ∧ j + 1 + L.xstart = L.rows p) by omega)]

theorem fillLow_congr {xstart : Nat} {rows rows' : Nat → Row K} (h : ∀ i, i < xstart → rows i = rows' i) (x : Nat → K) (k : Nat)
    (hk : k ≤ xstart) : fillLow xstart rows x k = fillLow xstart rows' x k := by
  induction k with
  | zero => rfl
  | succ k ih => rw [fillLow, fillLow, ih (by omega), h (xstart - 1 - k) (by omega)]

theorem fillHigh_congr {m xstart : Nat} {rows rows' : Nat → Row K} (hm : xstart ≤ m) (h : ∀ i, m - xstart ≤ i → i < m → rows i = rows' i) (x : Nat → K)
    (k : Nat) (hk : k ≤ xstart) : fillHigh m xstart rows x k = fillHigh m xstart rows' x k := by
  induction k with
  | zero => rfl
  | succ k ih => rw [fillHigh, fillHigh, ih (by omega), h (m - xstart + k) (by omega) (by omega)]

/-- `pcr_thomas_solver` solves the rows given, with at least two rows on each processor and boundary rows that are coupled inwards
only. -/
theorem Line.pcrThomas_solves (L : Line) {M : Nat} (hP : L.P = 2 ^ M) (hn : 2 ≤ L.n) (hx : 1 ≤ L.xstart) (co : Nat → Nat → Row K)
    (hin : L.Inward co) (junk : Nat → Nat → K) (hpiv : L.ThPivots co) : Solves L.P L.rows false co (L.pcrThomas co junk) := by
  have hP1 : 1 ≤ L.P := by rw [hP]; exact Nat.one_le_two_pow
  have heq := L.thElim_eq hx hn co hin
  have hrows : ∀ p, L.rows p = L.off p + L.n + if L.last p = true then L.xstart else 0 := fun _ => rfl
  have hrl : ∀ p, p + 1 = L.P → L.rows p = L.off p + L.n + L.xstart := fun p h => by rw [hrows, if_pos ((L.last_iff p).mpr h)]
  have hoff : ∀ p, L.off p = if p = 0 then L.xstart else 0 := fun p => by
    unfold Line.off
    by_cases h : p = 0
    · rw [if_pos ((L.first_iff p).mpr h), if_pos h]
    · rw [if_neg (fun h' => h ((L.first_iff p).mp h')), if_neg h]
  -- the boundary rows are not changed
  have hco : ∀ p, p < L.P → ∀ j, (p = 0 → j ≠ L.xstart) → (p + 1 = L.P → j + 1 + L.xstart ≠ L.rows p) → L.thElim co p j = co p j := by
    intro p hp j h1 h2
    unfold Line.thElim thEliminate
    by_cases hf : L.first p = true <;> by_cases hl : L.last p = true
    · have hl' := (L.last_iff p).mp hl
      have := hrl p hl'
      have := h1 ((L.first_iff p).mp hf)
      have := h2 hl'
      simp only [hf, hl, if_true]
      rw [upd, if_neg (by omega), upd, if_neg (by omega)]
    · have := h1 ((L.first_iff p).mp hf)
      simp only [hf, Bool.eq_false_iff.mpr hl, if_true, Bool.false_eq_true, if_false]
      rw [upd, if_neg (by omega)]
    · have hl' := (L.last_iff p).mp hl
      have := hrl p hl'
      have := h2 hl'
      simp only [Bool.eq_false_iff.mpr hf, hl, if_true, Bool.false_eq_true, if_false]
      rw [upd, if_neg (by omega)]
    · simp only [Bool.eq_false_iff.mpr hf, Bool.eq_false_iff.mpr hl, Bool.false_eq_true, if_false]
  have hsame : ∀ p, p < L.P → ∀ j, (p = 0 → j ≠ L.xstart) → (p + 1 = L.P → j + 1 + L.xstart ≠ L.rows p) → L.elim co p j = L.thElim co p j := by
    intro p hp j h1 h2
    rw [heq p hp j, if_neg (by tauto), if_neg (by tauto)]
  have hends : L.Ends co := by
    constructor
    · intro ix hix
      have := hsame 0 (by omega) ix (fun _ => by omega) (fun h => by have := hrl 0 h; have := hoff 0; simp at this; omega)
      rw [hco 0 (by omega) ix (fun _ => by omega) (fun h => by have := hrl 0 h; have := hoff 0; simp at this; omega)] at this
      rw [← (L.elim_ends (by omega) co).2.1 ix hix, this]
      exact hpiv.low ix hix
    · intro ix hix
      have hr := hrl (L.P - 1) (by omega)
      have h1 : L.P - 1 = 0 → L.rows (L.P - 1) - 1 - ix ≠ L.xstart := fun h => by
        have := hoff (L.P - 1); rw [if_pos h] at this; omega
      have h2 : L.P - 1 + 1 = L.P → L.rows (L.P - 1) - 1 - ix + 1 + L.xstart ≠ L.rows (L.P - 1) := fun _ => by omega
      rw [hsame (L.P - 1) (by omega) _ h1 h2, hco (L.P - 1) (by omega) _ h1 h2]
      exact hpiv.high ix hix
  have hE : E L.P L.n 1 (L.load (L.elim co)) (thomas L.P L.n (L.load (L.thElim co)) (L.loadX junk)) := by
    have hth := thomas_solves hP hn (L.load (L.thElim co)) (L.loadX junk)
      (by intro p; unfold Line.load; rw [if_pos (Or.inl rfl)]) (by unfold Line.load; rw [if_pos (Or.inr rfl)])
      (by unfold Line.loadX; rw [if_pos (Or.inl rfl)]) hpiv.core
    intro p hp i hi1 hi2 hd
    have h1 := hth p hp i hi1 hi2 hd
    have hl : ∀ e : Nat → Nat → Row K, L.load e p i = e p (i - 1 + L.off p) := fun e => by
      unfold Line.load; rw [if_neg (by omega)]
    rw [hl] at h1 ⊢
    rw [heq p hp]
    unfold Row.Holds at h1 ⊢
    dsimp only
    rw [← h1]
    congr 1
    · congr 1
      by_cases hc : p = 0 ∧ i - 1 + L.off p = L.xstart
      · rw [if_pos hc]
        have := hoff p
        rw [if_pos hc.1] at this
        unfold prv
        rw [if_pos (show i = 1 by omega), if_pos hc.1, mul_zero, mul_zero]
      · rw [if_neg hc]
    · by_cases hc : p + 1 = L.P ∧ i - 1 + L.off p + 1 + L.xstart = L.rows p
      · rw [if_pos hc]
        have := hrl p hc.1
        unfold nxt
        rw [if_pos (show i = L.n by omega), if_neg (by omega), mul_zero, mul_zero]
      · rw [if_neg hc]
  have hfin := L.finish hP1 (by omega) co junk _ hends hE
  have hX : ∀ p, p < L.P → L.pcrThomas co junk p = applyBndry (L.first p) (L.last p) L.xstart (L.rows p) (L.elim co p)
      (L.unload junk (thomas L.P L.n (L.load (L.thElim co)) (L.loadX junk)) p) := by
    intro p hp
    unfold Line.pcrThomas applyBndry
    have f1 : L.first p = true → ∀ x : Nat → K, fillLow L.xstart (L.thElim co p) x L.xstart = fillLow L.xstart (L.elim co p) x L.xstart := by
      intro hf x
      have hf' := (L.first_iff p).mp hf
      refine fillLow_congr (fun i hi => ?_) x _ (le_refl _)
      refine (hsame p hp i (fun _ => by omega) (fun h => ?_)).symm
      have := hrl p h
      have := hoff p
      rw [if_pos hf'] at this
      omega
    have f2 : L.last p = true → ∀ x : Nat → K, fillHigh (L.rows p) L.xstart (L.thElim co p) x L.xstart = fillHigh (L.rows p) L.xstart (L.elim co p) x L.xstart := by
      intro hl x
      have hr := hrl p ((L.last_iff p).mp hl)
      refine fillHigh_congr (by omega) (fun i hi1 hi2 => ?_) x _ (le_refl _)
      refine (hsame p hp i (fun h => ?_) (fun h => by omega)).symm
      have := hoff p
      rw [if_pos h] at this
      omega
    by_cases hf : L.first p = true <;> by_cases hl : L.last p = true
    · simp only [hf, hl, if_true]; rw [f1 hf, f2 hl]
    · simp only [hf, Bool.eq_false_iff.mpr hl, if_true, Bool.false_eq_true, if_false]; rw [f1 hf]
    · simp only [Bool.eq_false_iff.mpr hf, hl, if_true, Bool.false_eq_true, if_false]; rw [f2 hl]
    · simp only [Bool.eq_false_iff.mpr hf, Bool.eq_false_iff.mpr hl, Bool.false_eq_true, if_false]
  -- a solution does not depend on the values of other processors than those of the line
  intro q hq j hj
  have := hfin q hq j hj
  have hv : ∀ q', q' < L.P → ∀ i, (fun p => applyBndry (L.first p) (L.last p) L.xstart (L.rows p) (L.elim co p)
      (L.unload junk (thomas L.P L.n (L.load (L.thElim co)) (L.loadX junk)) p)) q' i = L.pcrThomas co junk q' i := fun q' hq' i => by
    rw [hX q' hq']
  have hprev : prevVal L.P L.rows false (fun p => applyBndry (L.first p) (L.last p) L.xstart (L.rows p) (L.elim co p)
      (L.unload junk (thomas L.P L.n (L.load (L.thElim co)) (L.loadX junk)) p)) q j = prevVal L.P L.rows false (L.pcrThomas co junk) q j := by
    unfold prevVal
    by_cases h1 : j ≠ 0
    · rw [if_pos h1, if_pos h1, hv q hq]
    · rw [if_neg h1, if_neg h1]
      by_cases h2 : q ≠ 0
      · rw [if_pos h2, if_pos h2, hv _ (by omega)]
      · rw [if_neg h2, if_neg h2]; rfl
  have hnext : nextVal L.P L.rows false (fun p => applyBndry (L.first p) (L.last p) L.xstart (L.rows p) (L.elim co p)
      (L.unload junk (thomas L.P L.n (L.load (L.thElim co)) (L.loadX junk)) p)) q j = nextVal L.P L.rows false (L.pcrThomas co junk) q j := by
    unfold nextVal
    by_cases h1 : j + 1 ≠ L.rows q
    · rw [if_pos h1, if_pos h1, hv q hq]
    · rw [if_neg h1, if_neg h1]
      by_cases h2 : q + 1 ≠ L.P
      · rw [if_pos h2, if_pos h2, hv _ (by omega)]
      · rw [if_neg h2, if_neg h2]; rfl
  rw [hprev, hnext, hv q hq] at this
  exact this

end Verif.Pcr
