import Verif.Invert.PcrCore

/-!
# C66: the boundary rows
-/
namespace Verif.Pcr
open Verif.Cyclic

variable {K : Type} [Field K]

/-! ## Elimination -/

theorem elimLow_above (rows : Nat → Row K) (k i : Nat) (h : k < i) : elimLow rows k i = rows i := by
  induction k with
  | zero => rfl
  | succ k ih => rw [elimLow, upd, if_neg (by omega), ih (by omega)]

theorem elimLow_zero_a (rows : Nat → Row K) (k i : Nat) (h1 : 1 ≤ i) (h2 : i ≤ k) : (elimLow rows k i).a = 0 := by
  induction k with
  | zero => omega
  | succ k ih =>
    rw [elimLow, upd]
    by_cases h : i = k + 1
    · rw [if_pos h]
    · rw [if_neg h]; exact ih (by omega)

theorem elimHigh_other {m : Nat} (rows : Nat → Row K) (k i : Nat) (h : i + 1 + k < m ∨ m ≤ i + 1) (hk : k + 1 < m) :
    elimHigh m rows k i = rows i := by
  induction k with
  | zero => rfl
  | succ k ih => rw [elimHigh, upd, if_neg (by omega), ih (by omega) (by omega)]

theorem elimHigh_zero_c {m : Nat} (rows : Nat → Row K) (k i : Nat) (h1 : i + 1 < m) (h2 : m ≤ i + 1 + k) :
    (elimHigh m rows k i).c = 0 := by
  induction k with
  | zero => omega
  | succ k ih =>
    rw [elimHigh, upd]
    by_cases h : i = m - 2 - k
    · rw [if_pos h]
    · rw [if_neg h]; exact ih (by omega)

/-- A solution of the rows after the elimination at the lower end solves the rows before it. -/
theorem elimLow_holds {m k : Nat} (hk : k < m) {rows : Nat → Row K} {X Pv Nx : Nat → K}
    (hPv : ∀ j, j + 1 < m → Pv (j + 1) = X j) (hNx : ∀ j, j + 1 < m → Nx j = X (j + 1)) (h0 : Pv 0 = 0)
    (hb : ∀ i, i < k → (elimLow rows k i).b ≠ 0)
    (h : ∀ j, j < m → (elimLow rows k j).Holds (Pv j) (X j) (Nx j)) : ∀ j, j < m → (rows j).Holds (Pv j) (X j) (Nx j) := by
  induction k with
  | zero => exact h
  | succ k ih =>
    have keep : ∀ j, j ≠ k + 1 → elimLow rows (k + 1) j = elimLow rows k j := fun j hj => by
      rw [elimLow, upd, if_neg hj]
    refine ih (by omega) (fun i hi => ?_) (fun j hj => ?_)
    · rw [← keep i (by omega)]
      exact hb i (by omega)
    · by_cases hjk : j = k + 1
      · subst hjk
        have h1 := h (k + 1) hk
        have h2 := h k (by omega)
        have hbk := hb k (by omega)
        rw [keep k (by omega)] at h2 hbk
        have ha : (elimLow rows k k).a * Pv k = 0 := by
          rcases Nat.eq_zero_or_pos k with rfl | hpos
          · rw [h0, mul_zero]
          · rw [elimLow_zero_a rows k k hpos (le_refl _), zero_mul]
        rw [elimLow, upd, if_pos rfl] at h1
        unfold Row.Holds at h1 h2 ⊢
        dsimp only at h1
        rw [hNx k hk] at h2
        rw [hPv k hk]
        rw [ha, zero_add] at h2
        generalize elimLow rows k (k + 1) = u at *
        generalize elimLow rows k k = v at *
        have e : u.a = u.a / v.b * v.b := by field_simp
        rw [e]
        have e3 : v.c * u.a / v.b = v.c * (u.a / v.b) := by ring
        have e4 : v.r * u.a / v.b = v.r * (u.a / v.b) := by ring
        rw [e3, e4] at h1
        linear_combination h1 + u.a / v.b * h2
      · have := h j hj
        rw [keep j hjk] at this
        exact this

/-- The same at the upper end. -/
theorem elimHigh_holds {m k : Nat} (hk : k + 1 ≤ m) {rows : Nat → Row K} {X Pv Nx : Nat → K}
    (hPv : ∀ j, j + 1 < m → Pv (j + 1) = X j) (hNx : ∀ j, j + 1 < m → Nx j = X (j + 1)) (h0 : Nx (m - 1) = 0)
    (hb : ∀ i, i < k → (elimHigh m rows k (m - 1 - i)).b ≠ 0)
    (h : ∀ j, j < m → (elimHigh m rows k j).Holds (Pv j) (X j) (Nx j)) : ∀ j, j < m → (rows j).Holds (Pv j) (X j) (Nx j) := by
  induction k with
  | zero => exact h
  | succ k ih =>
    have keep : ∀ j, j ≠ m - 2 - k → elimHigh m rows (k + 1) j = elimHigh m rows k j := fun j hj => by
      rw [elimHigh, upd, if_neg hj]
    refine ih (by omega) (fun i hi => ?_) (fun j hj => ?_)
    · rw [← keep _ (by omega)]
      exact hb i (by omega)
    · by_cases hjk : j = m - 2 - k
      · have hj1 : j + 1 < m := by omega
        have h1 := h j hj
        have h2 := h (j + 1) hj1
        have hbk := hb k (by omega)
        rw [show m - 1 - k = j + 1 by omega] at hbk
        rw [keep (j + 1) (by omega)] at h2 hbk
        have hc : (elimHigh m rows k (j + 1)).c * Nx (j + 1) = 0 := by
          rcases Nat.eq_zero_or_pos k with rfl | hpos
          · rw [show j + 1 = m - 1 by omega, h0, mul_zero]
          · rw [elimHigh_zero_c rows k (j + 1) (by omega) (by omega), zero_mul]
        rw [elimHigh, upd, if_pos hjk, ← hjk] at h1
        unfold Row.Holds at h1 h2 ⊢
        dsimp only at h1
        rw [hPv j hj1] at h2
        rw [hNx j hj1]
        rw [hc, add_zero] at h2
        generalize elimHigh m rows k (j + 1) = v at *
        generalize elimHigh m rows k j = u at *
        have e : u.c = u.c / v.b * v.b := by field_simp
        rw [e]
        have e3 : u.c * v.a / v.b = u.c / v.b * v.a := by ring
        have e4 : u.c * v.r / v.b = u.c / v.b * v.r := by ring
        rw [e3, e4] at h1
        linear_combination h1 + u.c / v.b * h2
      · have := h j hj
        rw [keep j hjk] at this
        exact this

/-! ## The values in the boundary -/

theorem fillLow_spec {xstart : Nat} (rows : Nat → Row K) (x : Nat → K) (hb : ∀ i, i < xstart → (rows i).b ≠ 0) :
    ∀ k, k ≤ xstart → (∀ i, xstart ≤ i → fillLow xstart rows x k i = x i) ∧
      ∀ i, i < xstart → xstart ≤ i + k →
        (rows i).b * fillLow xstart rows x k i + (rows i).c * fillLow xstart rows x k (i + 1) = (rows i).r := by
  intro k
  induction k with
  | zero => exact fun _ => ⟨fun _ _ => rfl, fun i h1 h2 => by omega⟩
  | succ k ih =>
    intro hk
    obtain ⟨i1, i2⟩ := ih (by omega)
    have keep : ∀ j, j ≠ xstart - 1 - k → fillLow xstart rows x (k + 1) j = fillLow xstart rows x k j := fun j hj => by
      rw [fillLow, upd, if_neg hj]
    refine ⟨fun i hi => by rw [keep i (by omega)]; exact i1 i hi, fun i h1 h2 => ?_⟩
    by_cases hik : i = xstart - 1 - k
    · rw [keep (i + 1) (by omega), fillLow, upd, if_pos hik, ← hik]
      have := hb i h1
      field_simp
      ring
    · rw [keep i hik, keep (i + 1) (by omega)]
      exact i2 i h1 (by omega)

theorem fillHigh_spec {m xstart : Nat} (hm : xstart < m) (rows : Nat → Row K) (x : Nat → K)
    (hb : ∀ i, m - xstart ≤ i → i < m → (rows i).b ≠ 0) :
    ∀ k, k ≤ xstart → (∀ i, i < m - xstart → fillHigh m xstart rows x k i = x i) ∧
      ∀ i, m - xstart ≤ i → i < m - xstart + k →
        (rows i).a * fillHigh m xstart rows x k (i - 1) + (rows i).b * fillHigh m xstart rows x k i = (rows i).r := by
  intro k
  induction k with
  | zero => exact fun _ => ⟨fun _ _ => rfl, fun i h1 h2 => by omega⟩
  | succ k ih =>
    intro hk
    obtain ⟨i1, i2⟩ := ih (by omega)
    have keep : ∀ j, j ≠ m - xstart + k → fillHigh m xstart rows x (k + 1) j = fillHigh m xstart rows x k j := fun j hj => by
      rw [fillHigh, upd, if_neg hj]
    refine ⟨fun i hi => by rw [keep i (by omega)]; exact i1 i hi, fun i h1 h2 => ?_⟩
    by_cases hik : i = m - xstart + k
    · rw [keep (i - 1) (by omega), fillHigh, upd, if_pos hik, ← hik]
      have := hb i h1 (by omega)
      field_simp
      ring
    · rw [keep i hik, keep (i - 1) (by omega)]
      exact i2 i h1 (by omega)

/-! ## The whole solver -/

theorem Line.first_iff (L : Line) (p : Nat) : L.first p = true ↔ p = 0 := by unfold Line.first; simp
theorem Line.last_iff (L : Line) (p : Nat) : L.last p = true ↔ p + 1 = L.P := by unfold Line.last; simp

/-- If the rows after the elimination are solved, so are the rows given. -/
theorem Line.elim_solves (L : Line) (hP : 1 ≤ L.P) (hn : 1 ≤ L.n) (co : Nat → Nat → Row K) (hpiv : L.Ends co) (X : Nat → Nat → K)
    (h : Solves L.P L.rows false (L.elim co) X) : Solves L.P L.rows false co X := by
  intro p hp
  have hPv : ∀ j, j + 1 < L.rows p → prevVal L.P L.rows false X p (j + 1) = X p j := fun j _ => by
    unfold prevVal
    rw [if_pos (by omega)]
    rfl
  have hNx : ∀ j, j + 1 < L.rows p → nextVal L.P L.rows false X p j = X p (j + 1) := fun j hj => by
    unfold nextVal
    rw [if_pos (by omega)]
  have hm : L.xstart + 1 ≤ L.rows p ∨ (p ≠ 0 ∧ p + 1 ≠ L.P) := by
    unfold Line.rows Line.off
    by_cases h0 : p = 0
    · left
      rw [if_pos ((L.first_iff p).mpr h0)]
      omega
    · by_cases h1 : p + 1 = L.P
      · left
        rw [if_pos ((L.last_iff p).mpr h1)]
        omega
      · exact Or.inr ⟨h0, h1⟩
  have h1 := h p hp
  unfold Line.elim eliminate at h1
  -- the upper end
  have h2 : ∀ j, j < L.rows p → ((if L.first p = true then elimLow (co p) L.xstart else co p) j).Holds
      (prevVal L.P L.rows false X p j) (X p j) (nextVal L.P L.rows false X p j) := by
    by_cases hl : L.last p = true
    · have hpl := (L.last_iff p).mp hl
      simp only [hl, if_true] at h1
      refine elimHigh_holds (by omega) hPv hNx ?_ ?_ h1
      · unfold nextVal
        rw [if_neg (by omega), if_neg (by omega)]
        rfl
      · intro i hi
        have := hpiv.high i hi
        rw [show L.P - 1 = p by omega] at this
        unfold Line.elim eliminate at this
        simp only [hl, if_true] at this
        exact this
    · simp only [hl] at h1
      exact h1
  by_cases hf : L.first p = true
  · have hpf := (L.first_iff p).mp hf
    simp only [hf, if_true] at h2
    refine elimLow_holds (by omega) hPv hNx ?_ ?_ h2
    · unfold prevVal
      rw [if_neg (by omega), if_neg (by omega)]
      rfl
    · rw [hpf]
      exact hpiv.low
  · simp only [hf] at h2
    exact h2

/-- What is known about a row after the elimination. -/
theorem Line.elim_ends (L : Line) (hn : 1 ≤ L.n) (co : Nat → Nat → Row K) :
    (∀ j, 1 ≤ j → j ≤ L.xstart → (L.elim co 0 j).a = 0) ∧
    (∀ j, j < L.xstart → L.elim co 0 j = elimLow (co 0) L.xstart j) ∧
    (1 ≤ L.P → ∀ j, j + 1 < L.rows (L.P - 1) → L.rows (L.P - 1) ≤ j + 1 + L.xstart → (L.elim co (L.P - 1) j).c = 0) := by
  have keep : ∀ k i, i ≤ L.xstart → (elimHigh (L.rows 0) (elimLow (co 0) L.xstart) k i).a = (elimLow (co 0) L.xstart i).a := by
    intro k i _
    induction k with
    | zero => rfl
    | succ k ih =>
      rw [elimHigh, upd]
      by_cases h : i = L.rows 0 - 2 - k
      · rw [if_pos h, ← h]
        exact ih
      · rw [if_neg h]
        exact ih
  refine ⟨fun j h1 h2 => ?_, fun j hj => ?_, fun hP j h1 h2 => ?_⟩
  · unfold Line.elim eliminate
    rw [if_pos ((L.first_iff 0).mpr rfl)]
    by_cases hl : L.last 0 = true
    · rw [if_pos hl, keep _ j h2]
      exact elimLow_zero_a _ _ _ h1 h2
    · rw [if_neg hl]
      exact elimLow_zero_a _ _ _ h1 h2
  · unfold Line.elim eliminate
    rw [if_pos ((L.first_iff 0).mpr rfl)]
    by_cases hl : L.last 0 = true
    · rw [if_pos hl]
      have hr : L.rows 0 = L.xstart + L.n + L.xstart := by
        unfold Line.rows Line.off
        rw [if_pos ((L.first_iff 0).mpr rfl), if_pos hl]
      exact elimHigh_other _ _ _ (by omega) (by omega)
    · rw [if_neg hl]
  · unfold Line.elim eliminate
    rw [if_pos (c := L.last (L.P - 1) = true) ((L.last_iff _).mpr (by omega))]
    exact elimHigh_zero_c _ _ _ h1 h2

/-- The interior solution and the boundary values together solve the rows given. -/
theorem Line.finish (L : Line) (hP1 : 1 ≤ L.P) (hn1 : 1 ≤ L.n) (co : Nat → Nat → Row K)
    (junk x : Nat → Nat → K) (hpiv : L.Ends co) (hE : E L.P L.n 1 (L.load (L.elim co)) x) :
    Solves L.P L.rows false co
      (fun p => applyBndry (L.first p) (L.last p) L.xstart (L.rows p) (L.elim co p) (L.unload junk x p)) := by
  refine L.elim_solves hP1 hn1 co hpiv _ ?_
  set e := L.elim co with he
  obtain ⟨hea, hel, hec⟩ := L.elim_ends hn1 co
  rw [← he] at hea hel hec
  set X : Nat → Nat → K := fun p => applyBndry (L.first p) (L.last p) L.xstart (L.rows p) (e p) (L.unload junk x p) with hX
  have hXp : ∀ p, X p = applyBndry (L.first p) (L.last p) L.xstart (L.rows p) (e p) (L.unload junk x p) := fun p => rfl
  have hrows : ∀ p, L.rows p = L.off p + L.n + if L.last p = true then L.xstart else 0 := fun _ => rfl
  have hoff0 : L.off 0 = L.xstart := by unfold Line.off; rw [if_pos ((L.first_iff 0).mpr rfl)]
  have hoffp : ∀ p, p ≠ 0 → L.off p = 0 := fun p h => by
    unfold Line.off; rw [if_neg (by rw [L.first_iff]; exact h)]
  have hlast : ∀ p, p + 1 = L.P → L.rows p = L.off p + L.n + L.xstart := fun p h => by
    rw [hrows, if_pos ((L.last_iff p).mpr h)]
  have hnlast : ∀ p, p + 1 ≠ L.P → L.rows p = L.off p + L.n := fun p h => by
    rw [hrows, if_neg (by rw [L.last_iff]; exact h)]; rfl
  have hblow : ∀ i, i < L.xstart → (e 0 i).b ≠ 0 := fun i hi => by
    rw [hel i hi]
    exact hpiv.low i hi
  have hbhigh : ∀ p, p + 1 = L.P → ∀ i, L.rows p - L.xstart ≤ i → i < L.rows p → (e p i).b ≠ 0 := by
    intro p hp i h1 h2
    have := hpiv.high (L.rows p - 1 - i) (by omega)
    rw [show L.P - 1 = p by omega] at this
    rw [show L.rows p - 1 - (L.rows p - 1 - i) = i by omega] at this
    exact this
  -- the interior values
  have hint : ∀ p, p < L.P → ∀ i, 1 ≤ i → i ≤ L.n → X p (i - 1 + L.off p) = x p i := by
    intro p hp i h1 h2
    have hun : L.unload junk x p (i - 1 + L.off p) = x p i := by
      unfold Line.unload
      rw [if_pos (by omega)]
      congr 1
      omega
    rw [hXp]
    unfold applyBndry
    have hlo : (if L.first p = true then fillLow L.xstart (e p) (L.unload junk x p) L.xstart else L.unload junk x p)
        (i - 1 + L.off p) = x p i := by
      by_cases hf : L.first p = true
      · obtain rfl := (L.first_iff p).mp hf
        rw [if_pos hf, (fillLow_spec (e 0) _ hblow L.xstart (le_refl _)).1 _ (by omega)]
        exact hun
      · rw [if_neg hf]
        exact hun
    by_cases hl : L.last p = true
    · have hl' := (L.last_iff p).mp hl
      have hr := hlast p hl'
      rw [if_pos hl, (fillHigh_spec (by omega) (e p) _ (hbhigh p hl') L.xstart (le_refl _)).1 _ (by omega)]
      exact hlo
    · rw [if_neg hl]
      exact hlo
  intro p hp j hj
  by_cases hj1 : j < L.off p
  · -- a boundary row at the lower end
    have h0 : p = 0 := by
      by_contra h
      rw [hoffp p h] at hj1
      omega
    subst h0
    rw [hoff0] at hj1
    have ha : (e 0 j).a * prevVal L.P L.rows false X 0 j = 0 := by
      rcases Nat.eq_zero_or_pos j with rfl | hpos
      · unfold prevVal
        rw [if_neg (by omega), if_neg (by omega)]
        simp
      · rw [hea j hpos (by omega), zero_mul]
    have hnx : nextVal L.P L.rows false X 0 j = X 0 (j + 1) := by
      unfold nextVal
      rw [if_pos]
      rw [hrows, hoff0]
      omega
    unfold Row.Holds
    rw [ha, zero_add, hnx]
    have hlow := (fillLow_spec (e 0) (L.unload junk x 0) hblow L.xstart (le_refl _)).2 j hj1 (by omega)
    have hsame : ∀ i, i ≤ L.xstart → X 0 i = fillLow L.xstart (e 0) (L.unload junk x 0) L.xstart i := by
      intro i hi
      rw [hXp]
      unfold applyBndry
      rw [if_pos ((L.first_iff 0).mpr rfl)]
      by_cases hl : L.last 0 = true
      · have hl' := (L.last_iff 0).mp hl
        have hr := hlast 0 hl'
        rw [if_pos hl, (fillHigh_spec (by omega) (e 0) _ (hbhigh 0 hl') L.xstart (le_refl _)).1 _ (by omega)]
      · rw [if_neg hl]
    rw [hsame j (by omega), hsame (j + 1) (by omega)]
    exact hlow
  · by_cases hj2 : L.off p + L.n ≤ j
    · -- a boundary row at the upper end
      have hl : p + 1 = L.P := by
        by_contra h
        rw [hnlast p h] at hj
        omega
      have hr := hlast p hl
      have hc : (e p j).c * nextVal L.P L.rows false X p j = 0 := by
        by_cases hjm : j + 1 = L.rows p
        · unfold nextVal
          rw [if_neg (by omega), if_neg (by omega)]
          simp
        · have := hec hP1 j
          rw [show L.P - 1 = p by omega] at this
          rw [this (by omega) (by omega), zero_mul]
      have hpv : prevVal L.P L.rows false X p j = X p (j - 1) := by
        unfold prevVal
        rw [if_pos (by omega)]
      unfold Row.Holds
      rw [hc, add_zero, hpv, hXp]
      unfold applyBndry
      rw [if_pos (c := L.last p = true) ((L.last_iff p).mpr hl)]
      exact (fillHigh_spec (by omega) (e p) _ (hbhigh p hl) L.xstart (le_refl _)).2 j (by omega) (by omega)
    · -- an interior row
      have h1 := hE p hp (j - L.off p + 1) (by omega) (by omega) (one_dvd _)
      have hload : L.load e p (j - L.off p + 1) = e p j := by
        unfold Line.load
        rw [if_neg (by omega)]
        congr 1
        omega
      rw [hload] at h1
      have hxj : X p j = x p (j - L.off p + 1) := by
        have := hint p hp (j - L.off p + 1) (by omega) (by omega)
        rw [show j - L.off p + 1 - 1 + L.off p = j by omega] at this
        exact this
      have hA : (e p j).a * prevVal L.P L.rows false X p j = (e p j).a * prv L.n 1 x p (j - L.off p + 1) := by
        by_cases hjo : j = L.off p
        · by_cases hp0 : p = 0
          · subst hp0
            rw [hoff0] at hjo
            unfold prv
            rw [if_pos (by rw [hoff0]; omega), if_pos rfl]
            rcases Nat.eq_zero_or_pos j with h0 | hpos
            · unfold prevVal
              rw [if_neg (by omega), if_neg (by omega)]
              rfl
            · rw [hea j hpos (by omega), zero_mul, zero_mul]
          · have ho := hoffp p hp0
            have := hint (p - 1) (by omega) L.n hn1 (le_refl _)
            have hr := hnlast (p - 1) (by omega)
            unfold prv prevVal
            rw [if_neg (by omega), if_pos hp0, if_pos (by omega), if_neg hp0, ← this, hr]
            congr 2
            omega
        · unfold prv prevVal
          have := hint p hp (j - L.off p) (by omega) (by omega)
          rw [if_pos (by omega), if_neg (by omega), show j - L.off p + 1 - 1 = j - L.off p by omega, ← this]
          congr 2
          omega
      have hC : (e p j).c * nextVal L.P L.rows false X p j = (e p j).c * nxt L.P L.n 1 x p (j - L.off p + 1) := by
        by_cases hjn : j + 1 = L.off p + L.n
        · by_cases hl : p + 1 = L.P
          · unfold nxt
            rw [if_pos (by omega), if_neg (by omega)]
            have hr := hlast p hl
            by_cases hx0 : L.xstart = 0
            · unfold nextVal
              rw [if_neg (by omega), if_neg (by omega)]
              rfl
            · have := hec hP1 j
              rw [show L.P - 1 = p by omega] at this
              rw [this (by omega) (by omega), zero_mul, zero_mul]
          · have hr := hnlast p hl
            have := hint (p + 1) (by omega) 1 (le_refl _) hn1
            rw [hoffp (p + 1) (by omega)] at this
            unfold nxt nextVal
            rw [if_neg (by omega), if_pos (by omega), if_pos (by omega), if_pos (by omega), ← this]
        · unfold nxt nextVal
          have := hint p hp (j - L.off p + 1 + 1) (by omega) (by omega)
          rw [if_pos (by rw [hrows]; omega), if_neg (by omega), ← this]
          congr 2
          omega
      unfold Row.Holds at h1 ⊢
      rw [hA, hC, hxj]
      exact h1

/-- `cr_pcr_solver` solves the rows given. -/
theorem Line.pcr_solves (L : Line) {M N : Nat} (hP : L.P = 2 ^ M) (hn : L.n = 2 ^ N) (co : Nat → Nat → Row K)
    (junk : Nat → Nat → K) (hpiv : L.Pivots co) : Solves L.P L.rows false co (L.pcr co junk) := by
  have hP1 : 1 ≤ L.P := by rw [hP]; exact Nat.one_le_two_pow
  have hn1 : 1 ≤ L.n := by rw [hn]; exact Nat.one_le_two_pow
  refine L.finish hP1 hn1 co junk _ hpiv.toEnds ?_
  refine crPcr_solves hP hn _ _ ?_ ?_ ?_ hpiv.core
  · intro p; unfold Line.load; rw [if_pos (Or.inl rfl)]
  · unfold Line.load; rw [if_pos (Or.inr rfl)]
  · unfold Line.loadX; rw [if_pos (Or.inl rfl)]

end Verif.Pcr
