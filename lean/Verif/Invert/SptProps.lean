import Verif.Invert.Spt
import Mathlib.Tactic.LinearCombination
import Mathlib.Tactic.Ring

namespace Verif.Spt

open Verif.Cyclic

variable {K : Type} [Field K] [DecidableEq K]

theorem upd_same (u : Nat → K) (j : Nat) (v : K) : upd u j v j = v := if_pos rfl
theorem upd_ne (u : Nat → K) {i j : Nat} (v : K) (h : i ≠ j) : upd u j v i = u i := if_neg h

/-- The elimination relations within one processor: pivots `β`. -/
structure Elim (R : RankSys K) (gam u β : Nat → K) : Prop where
  piv : ∀ j, j < R.n → β j ≠ 0
  g : ∀ j, j + 1 < R.n → gam (j + 1) * β j = (R.row j).c
  b : ∀ j, j + 1 < R.n → β (j + 1) = (R.row (j + 1)).b - (R.row (j + 1)).a * gam (j + 1)
  u : ∀ j, j + 1 < R.n → u (j + 1) * β (j + 1) = (R.row (j + 1)).r - (R.row (j + 1)).a * u j

/-- The loop keeps what it has computed and extends it. -/
theorem fwdLoop_ok (row : Nat → Row K) (k : Nat) (s t : Fwd K) (hs : s.bet ≠ 0) (h : fwdLoop row k s = .ok t) :
    t.gam 0 = s.gam 0 ∧ t.u 0 = s.u 0 ∧ ∃ β : Nat → K, β 0 = s.bet ∧ t.bet = β k ∧ (∀ j, j ≤ k → β j ≠ 0) ∧
      ∀ j, j + 1 ≤ k → t.gam (j + 1) * β j = (row j).c ∧ β (j + 1) = (row (j + 1)).b - (row (j + 1)).a * t.gam (j + 1) ∧
        t.u (j + 1) * β (j + 1) = (row (j + 1)).r - (row (j + 1)).a * t.u j := by
  induction k generalizing t with
  | zero =>
    cases h
    exact ⟨rfl, rfl, fun _ => s.bet, rfl, rfl, fun _ _ => hs, fun j hj => absurd hj (by omega)⟩
  | succ k ih =>
    unfold fwdLoop at h
    split at h
    · cases h
    · rename_i s' hs'
      obtain ⟨g0, u0, β, b0, bk, bn, rel⟩ := ih s' hs'
      unfold fwdStep at h
      dsimp only at h
      split at h
      · cases h
      · rename_i hb
        cases h
        have hne : s'.bet ≠ 0 := by rw [bk]; exact bn k (Nat.le_refl _)
        refine ⟨?_, ?_, fun j => if j = k + 1 then (row (k + 1)).b - (row (k + 1)).a * ((row (k + 1 - 1)).c / s'.bet) else β j, ?_, ?_, ?_, ?_⟩
        · dsimp only; rw [upd_ne _ _ (by omega)]; exact g0
        · dsimp only; rw [upd_ne _ _ (by omega)]; exact u0
        · dsimp only; rw [if_neg (by omega)]; exact b0
        · dsimp only; rw [if_pos rfl]
        · intro j hj
          dsimp only
          by_cases e : j = k + 1
          · rw [if_pos e]; exact hb
          · rw [if_neg e]; exact bn j (by omega)
        · intro j hj
          dsimp only
          by_cases e : j = k
          · subst e
            rw [if_neg (by omega), if_pos rfl, upd_same, upd_same, upd_ne _ _ (by omega)]
            have e1 : j + 1 - 1 = j := by omega
            rw [e1] at hb ⊢
            refine ⟨?_, rfl, ?_⟩
            · rw [← bk]; exact div_mul_cancel₀ _ hne
            · exact div_mul_cancel₀ _ hb
          · rw [if_neg (by omega), if_neg (by omega), upd_ne _ _ (by omega), upd_ne _ _ (by omega), upd_ne _ _ (by omega)]
            exact rel j (by omega)

theorem forward_start (R : RankSys K) (hn : 1 ≤ R.n) (gam u : Nat → K) (bet um : K) (g' u' : Nat → K) (bet' um' : K)
    (h : tridagForward R gam u true bet um = .ok (g', u', bet', um')) :
    ∃ β, Elim R g' u' β ∧ β 0 = (R.row 0).b ∧ u' 0 * β 0 = (R.row 0).r ∧ bet' = β (R.n - 1) ∧ um' = u' (R.n - 1) := by
  unfold tridagForward fwdFirst at h
  simp only [if_true] at h
  by_cases hb : (R.row 0).b = 0
  · rw [if_pos hb] at h; cases h
  · rw [if_neg hb] at h
    dsimp only at h
    split at h
    · cases h
    · rename_i s hs
      cases h
      obtain ⟨g0, u0, β, b0, bk, bn, rel⟩ := fwdLoop_ok R.row _ _ _ hb hs
      refine ⟨β, ⟨fun j hj => bn j (by omega), fun j hj => (rel j (by omega)).1, fun j hj => (rel j (by omega)).2.1,
        fun j hj => (rel j (by omega)).2.2⟩, b0, ?_, bk, rfl⟩
      rw [u0, b0]
      dsimp only
      rw [upd_same]
      exact div_mul_cancel₀ _ hb

theorem forward_next (R : RankSys K) (hn : 1 ≤ R.n) (gam u : Nat → K) (bet um : K) (hbet : bet ≠ 0) (g' u' : Nat → K) (bet' um' : K)
    (h : tridagForward R gam u false bet um = .ok (g', u', bet', um')) :
    ∃ β, Elim R g' u' β ∧ g' 0 * bet = R.cm ∧ β 0 = (R.row 0).b - (R.row 0).a * g' 0 ∧ u' 0 * β 0 = (R.row 0).r - (R.row 0).a * um ∧
      bet' = β (R.n - 1) ∧ um' = u' (R.n - 1) := by
  unfold tridagForward fwdFirst at h
  simp only [Bool.false_eq_true, if_false] at h
  by_cases hb : (R.row 0).b - (R.row 0).a * (R.cm / bet) = 0
  · rw [if_pos hb] at h; cases h
  · rw [if_neg hb] at h
    dsimp only at h
    split at h
    · cases h
    · rename_i s hs
      cases h
      obtain ⟨g0, u0, β, b0, bk, bn, rel⟩ := fwdLoop_ok R.row _ _ _ hb hs
      dsimp only at g0 u0 b0
      rw [upd_same] at g0 u0
      refine ⟨β, ⟨fun j hj => bn j (by omega), fun j hj => (rel j (by omega)).1, fun j hj => (rel j (by omega)).2.1,
        fun j hj => (rel j (by omega)).2.2⟩, ?_, ?_, ?_, bk, rfl⟩
      · rw [g0]; exact div_mul_cancel₀ _ hbet
      · rw [b0, g0]
      · rw [u0, b0]; exact div_mul_cancel₀ _ hb

theorem backLoop_ok (gam : Nat → K) (m : Nat) (u : Nat → K) :
    (∀ j, m ≤ j → backLoop gam m u j = u j) ∧ ∀ j, j < m → backLoop gam m u j = u j - gam (j + 1) * backLoop gam m u (j + 1) := by
  induction m generalizing u with
  | zero => exact ⟨fun _ _ => rfl, fun j hj => absurd hj (by omega)⟩
  | succ m ih =>
    obtain ⟨h1, h2⟩ := ih (upd u m (u m - gam (m + 1) * u (m + 1)))
    unfold backLoop
    constructor
    · intro j hj
      rw [h1 j (by omega), upd_ne _ _ (by omega)]
    · intro j hj
      by_cases e : j = m
      · subst e
        rw [h1 j (Nat.le_refl _), upd_same, h1 (j + 1) (by omega), upd_ne _ _ (by omega)]
      · rw [h2 j (by omega), upd_ne _ _ (by omega)]

/-- The substitution relations within one processor: `x` from the eliminated `u`, the value `up` and factor `gp` above. -/
structure Subst (n : Nat) (gam u x : Nat → K) (gp up : K) : Prop where
  last : x (n - 1) = u (n - 1) - gp * up
  inner : ∀ j, j + 1 < n → x j = u j - gam (j + 1) * x (j + 1)

theorem back_ok (n : Nat) (gam u : Nat → K) (gp up : K) :
    Subst n gam u (tridagBack n gam u gp up).1 gp up ∧ (tridagBack n gam u gp up).2 = (gam 0, (tridagBack n gam u gp up).1 0) := by
  obtain ⟨h1, h2⟩ := backLoop_ok gam (n - 1) (upd u (n - 1) (u (n - 1) - gp * up))
  unfold tridagBack
  dsimp only
  refine ⟨⟨?_, ?_⟩, rfl⟩
  · rw [h1 _ (Nat.le_refl _), upd_same]
  · intro j hj
    rw [h2 j (by omega), upd_ne _ _ (by omega)]

/-! ## Across processors -/

/-- The elimination relations on processors `0 .. m - 1`. -/
structure ElimAll (R : Nat → RankSys K) (m : Nat) (gam u β : Nat → Nat → K) : Prop where
  each : ∀ q, q < m → Elim (R q) (gam q) (u q) (β q)
  first : β 0 0 = ((R 0).row 0).b ∧ u 0 0 * β 0 0 = ((R 0).row 0).r
  join : ∀ q, q + 1 < m → gam (q + 1) 0 * β q ((R q).n - 1) = (R (q + 1)).cm ∧
    β (q + 1) 0 = ((R (q + 1)).row 0).b - ((R (q + 1)).row 0).a * gam (q + 1) 0 ∧
    u (q + 1) 0 * β (q + 1) 0 = ((R (q + 1)).row 0).r - ((R (q + 1)).row 0).a * u q ((R q).n - 1)

/-- Processors `m .. P - 1` hold the solution `x`. -/
def SubstFrom (R : Nat → RankSys K) (P m : Nat) (gam u x : Nat → Nat → K) : Prop :=
  ∀ q, m ≤ q → q < P → Subst (R q).n (gam q) (u q) (x q) (if q + 1 = P then 0 else gam (q + 1) 0) (if q + 1 = P then 0 else x (q + 1) 0)

/-- The rows with the upper coefficient at each processor boundary replaced by what the next processor has for its guard cell. -/
def joined (P : Nat) (R : Nat → RankSys K) (q j : Nat) : Row K :=
  if j + 1 = (R q).n ∧ q + 1 ≠ P then { (R q).row j with c := (R (q + 1)).cm } else (R q).row j

omit [DecidableEq K] in
theorem joined_eq (P : Nat) (R : Nat → RankSys K)
    (hc : ∀ q, q + 1 < P → (R (q + 1)).cm = ((R q).row ((R q).n - 1)).c) (q : Nat) (hq : q < P) (j : Nat) :
    joined P R q j = (R q).row j := by
  unfold joined
  split
  · rename_i h
    rw [hc q (by omega), show (R q).n - 1 = j by omega]
  · rfl

/-- Elimination and substitution on all processors solve the system with these rows. -/
theorem solves_of (P : Nat) (R : Nat → RankSys K) (hn : ∀ q, q < P → 1 ≤ (R q).n) (gam u β x : Nat → Nat → K)
    (he : ElimAll R P gam u β) (hx : SubstFrom R P 0 gam u x) :
    Solves P (fun q => (R q).n) false (joined P R) x := by
  intro q hq j hj
  replace hj : j < (R q).n := hj
  have hE := he.each q hq
  have hS := hx q (Nat.zero_le _) hq
  have hnq := hn q hq
  unfold Row.Holds
  -- the part right of the diagonal
  have key : β q j * x q j + (joined P R q j).c * nextVal P (fun q => (R q).n) false x q j = β q j * u q j := by
    unfold nextVal
    dsimp only
    by_cases e : j + 1 = (R q).n
    · rw [if_neg (by simp [e])]
      have ej : j = (R q).n - 1 := by omega
      by_cases e' : q + 1 = P
      · rw [if_neg (by simp [e']), if_neg (by simp)]
        have := hS.last
        rw [if_pos e', ← ej] at this
        rw [this]; ring
      · rw [if_pos e']
        have h1 := hS.last
        rw [if_neg e', if_neg e', ← ej] at h1
        have h2 := (he.join q (by omega)).1
        rw [← ej] at h2
        have hj' : (joined P R q j).c = (R (q + 1)).cm := by unfold joined; rw [if_pos ⟨e, e'⟩]
        rw [h1, hj']
        linear_combination (-x (q + 1) 0) * h2
    · rw [if_pos e]
      have h1 := hS.inner j (by omega)
      have h2 := hE.g j (by omega)
      have hj' : (joined P R q j).c = ((R q).row j).c := by unfold joined; rw [if_neg (fun h => e h.1)]
      rw [h1, hj']
      linear_combination (-x q (j + 1)) * h2
  -- the part left of it
  have key2 : ((R q).row j).a * prevVal P (fun q => (R q).n) false x q j + ((R q).row j).b * x q j =
      β q j * x q j + (((R q).row j).r - β q j * u q j) := by
    unfold prevVal
    dsimp only
    by_cases e : j = 0
    · subst e
      rw [if_neg (by simp)]
      by_cases e' : q = 0
      · subst e'
        rw [if_neg (by simp), if_neg (by simp), he.first.1]
        have := he.first.2
        rw [he.first.1] at this
        linear_combination this
      · rw [if_pos e']
        obtain ⟨p, rfl⟩ := Nat.exists_eq_succ_of_ne_zero e'
        have hp := hx p (Nat.zero_le _) (by omega)
        have h1 := hp.last
        rw [if_neg (by omega), if_neg (by omega)] at h1
        obtain ⟨-, h2, h3⟩ := he.join p (by omega)
        rw [Nat.succ_sub_one, h1]
        simp only [Nat.succ_eq_add_one] at *
        linear_combination (-x (p + 1) 0) * h2 + h3
    · rw [if_pos e]
      obtain ⟨i, rfl⟩ := Nat.exists_eq_succ_of_ne_zero e
      simp only [Nat.succ_eq_add_one, Nat.add_sub_cancel] at *
      have h1 := hS.inner i (by omega)
      have h2 := hE.b i (by omega)
      have h3 := hE.u i (by omega)
      rw [h1]
      linear_combination (-x q (i + 1)) * h2 + h3
  have ea : (joined P R q j).a = ((R q).row j).a := by unfold joined; split <;> rfl
  have eb : (joined P R q j).b = ((R q).row j).b := by unfold joined; split <;> rfl
  have er : (joined P R q j).r = ((R q).row j).r := by unfold joined; split <;> rfl
  rw [ea, eb, er]
  linear_combination key + key2

end Verif.Spt
