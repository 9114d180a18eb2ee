import Verif.Cyclic.Lemmas
import Mathlib.Tactic.Ring
import Mathlib.Tactic.FieldSimp
import Mathlib.Tactic.LinearCombination
/-! Gluing the local blocks together. -/
namespace Verif.Cyclic

variable {K : Type} [Field K] [DecidableEq K] (tiny : K → Prop) [DecidablePred tiny]

/-- Reduction of the interface system to a pair (cyclic_reduction.hxx:301-312). -/
def pairRed (P : Nat) (E : Nat → Row K) : Out (Row K × Row K) :=
  if P > 1 then reduce tiny E (2 * P) else .ok (E 0, E 1)

theorem pairRed_reduce {P : Nat} (hP : 1 ≤ P) {E : Nat → Row K} {u l : Row K}
    (h : pairRed tiny P E = .ok (u, l)) : reduce tiny E (2 * P) = .ok (u, l) := by
  unfold pairRed at h
  split at h
  · exact h
  · have : P = 1 := by omega
    subst this
    simpa [reduce, upLoop, loLoop] using h

def wrap (periodic : Bool) (v : K) : K := if periodic then v else 0

/-- Interleaved interface equations. -/
def inter (U L : Nat → Row K) (k : Nat) : Row K := if k % 2 = 0 then U (k / 2) else L (k / 2)

def glued (P : Nat) (N : Nat → Nat) (co : Nat → Nat → Row K) (E : Nat → Row K) (x1 xn : K) (q j : Nat) : K :=
  bsVal (co q) (N q) (bsVal E (2 * P) x1 xn (2 * q)) (bsVal E (2 * P) x1 xn (2 * q + 1)) j

theorem glue {P : Nat} (hP : 1 ≤ P) (N : Nat → Nat) (periodic : Bool) (h0 : ∀ v, v = 0 → tiny v)
    (co : Nat → Nat → Row K) (U L : Nat → Row K)
    (hred : ∀ q, q < P → reduce tiny (co q) (N q) = .ok (U q, L q))
    (u l : Row K) (hpair : pairRed tiny P (inter U L) = .ok (u, l)) (x1 xn : K)
    (hu : u.Holds (wrap periodic xn) x1 xn) (hl : l.Holds x1 xn (wrap periodic x1)) :
    Solves P N periodic co (glued P N co (inter U L) x1 xn) := by
  set E := inter U L with hE
  have hpr := pairRed_reduce tiny hP hpair
  obtain ⟨h2P, hin, hup, hlo⟩ := local_spec tiny h0 hpr x1 xn (wrap periodic xn) (wrap periodic x1)
  set f := bsVal E (2 * P) x1 xn with hf
  have hf0 : f 0 = x1 := rfl
  have hfl : f (2 * P - 1) = xn := bsVal_last E (2*P) h2P x1 xn
  have hN2 : ∀ q, q < P → 2 ≤ N q := fun q hq => (reduce_ok tiny (hred q hq)).1
  have g0 : ∀ q, glued P N co E x1 xn q 0 = f (2*q) := fun q => rfl
  have gl : ∀ q, q < P → glued P N co E x1 xn q (N q - 1) = f (2*q+1) :=
    fun q hq => bsVal_last _ _ (hN2 q hq) _ _
  -- rows of the interface system
  have rowE : ∀ k, k < 2 * P → (E k).Holds (if k = 0 then wrap periodic xn else f (k-1)) (f k)
      (if k + 1 = 2 * P then wrap periodic x1 else f (k+1)) := by
    intro k hk
    by_cases hk0 : k = 0
    · subst hk0
      rw [if_pos rfl, if_neg (by omega)]
      exact hup.mp hu
    · rw [if_neg hk0]
      by_cases hkl : k + 1 = 2 * P
      · rw [if_pos hkl]
        have : k = 2 * P - 1 := by omega
        subst this
        have e : 2 * P - 1 - 1 = 2 * P - 2 := by omega
        rw [e]
        exact hlo.mp hl
      · rw [if_neg hkl]
        have := hin (k-1) (by omega)
        rw [show k - 1 + 1 = k by omega, show k - 1 + 2 = k + 1 by omega] at this
        exact this
  intro q hq j hj
  have hxm : ∀ xm xp, _ := fun xm xp => local_spec tiny h0 (hred q hq) (f (2*q)) (f (2*q+1)) xm xp
  have hEu : E (2*q) = U q := by simp [hE, inter]
  have hEl : E (2*q+1) = L q := by
    simp only [hE, inter]
    rw [if_neg (by omega), show (2*q+1)/2 = q by omega]
  by_cases hj0 : j = 0
  · subst hj0
    have r := rowE (2*q) (by omega)
    rw [hEu, if_neg (show ¬ (2*q+1 = 2*P) by omega)] at r
    have e1 : prevVal P N periodic (glued P N co E x1 xn) q 0 = (if 2*q = 0 then wrap periodic xn else f (2*q-1)) := by
      unfold prevVal
      rw [if_neg (by simp)]
      by_cases hq0 : q = 0
      · subst hq0
        simp only [ne_eq, not_true_eq_false, if_false, Nat.mul_zero, if_true, wrap]
        rw [gl (P-1) (by omega), show 2*(P-1)+1 = 2*P-1 by omega, hfl]
      · rw [if_pos hq0, if_neg (by omega), gl (q-1) (by omega), show 2*(q-1)+1 = 2*q-1 by omega]
    have e2 : nextVal P N periodic (glued P N co E x1 xn) q 0 = glued P N co E x1 xn q 1 := by
      unfold nextVal
      rw [if_pos (by have := hN2 q hq; omega)]
    rw [e1, e2]
    exact ((hxm _ 0).2.2.1).mp r
  · by_cases hjl : j + 1 = N q
    · have r := rowE (2*q+1) (by omega)
      rw [hEl, if_neg (show ¬ (2*q+1 = 0) by omega)] at r
      rw [show 2*q+1-1 = 2*q by omega] at r
      have e1 : prevVal P N periodic (glued P N co E x1 xn) q j = glued P N co E x1 xn q (N q - 2) := by
        unfold prevVal
        rw [if_pos hj0, show j - 1 = N q - 2 by omega]
      have e2 : nextVal P N periodic (glued P N co E x1 xn) q j =
          (if 2*q+1+1 = 2*P then wrap periodic x1 else f (2*q+1+1)) := by
        unfold nextVal
        rw [if_neg (by omega)]
        by_cases hq0 : q + 1 = P
        · rw [if_neg (by simpa using hq0), if_pos (show 2*q+1+1 = 2*P by omega)]
          rfl
        · rw [if_pos hq0, if_neg (by omega), g0, show 2*(q+1) = 2*q+1+1 by omega]
      rw [e1, e2]
      have hjj : j = N q - 1 := by omega
      rw [hjj]
      exact ((hxm 0 _).2.2.2).mp r
    · have := (hxm 0 0).2.1 (j-1) (by omega)
      rw [show j - 1 + 1 = j by omega, show j - 1 + 2 = j + 1 by omega] at this
      unfold prevVal nextVal
      rw [if_pos hj0, if_pos hjl]
      exact this

/-! ### 2x2 solve -/

theorem solve2x2_ok {periodic : Bool} {u l : Row K} {x1 xn : K} (h : solve2x2 periodic u l = .ok (x1, xn)) :
    u.Holds (wrap periodic xn) x1 xn ∧ l.Holds x1 xn (wrap periodic x1) := by
  unfold solve2x2 at h
  unfold Row.Holds wrap
  cases periodic
  · simp only [Bool.false_eq_true, if_false] at h ⊢
    by_cases hdet : u.b * l.b - u.c * l.a = 0
    · rw [if_pos hdet] at h; cases h
    rw [if_neg hdet] at h
    simp only [Except.ok.injEq, Prod.mk.injEq] at h
    obtain ⟨rfl, rfl⟩ := h
    generalize hD : u.b * l.b - _ = D at hdet ⊢
    have hD0 : D ≠ 0 := hdet
    constructor <;> field_simp <;> rw [← hD] <;> ring
  · simp only [if_true] at h ⊢
    by_cases hdet : u.b * l.b - (u.c + u.a) * (l.a + l.c) = 0
    · rw [if_pos hdet] at h; cases h
    rw [if_neg hdet] at h
    simp only [Except.ok.injEq, Prod.mk.injEq] at h
    obtain ⟨rfl, rfl⟩ := h
    generalize hD : u.b * l.b - _ = D at hdet ⊢
    have hD0 : D ≠ 0 := hdet
    constructor <;> field_simp <;> rw [← hD] <;> ring

theorem solve2x2_err {periodic : Bool} {u l : Row K} {e : Err} (h : solve2x2 periodic u l = .error e) :
    ∃ v1 vn : K, (v1 ≠ 0 ∨ vn ≠ 0) ∧
      ({ u with r := 0 } : Row K).Holds (wrap periodic vn) v1 vn ∧
      ({ l with r := 0 } : Row K).Holds v1 vn (wrap periodic v1) := by
  unfold solve2x2 at h
  -- matrix (a b; c d) with ad = bc
  obtain ⟨b', hb'⟩ : ∃ b', b' = (if periodic then u.c + u.a else u.c) := ⟨_, rfl⟩
  obtain ⟨c', hc'⟩ : ∃ c', c' = (if periodic then l.a + l.c else l.a) := ⟨_, rfl⟩
  simp only [← hb', ← hc'] at h
  have hdet : u.b * l.b - b' * c' = 0 := by
    by_contra hne
    rw [if_neg hne] at h
    cases h
  have red1 : ∀ v1 vn : K, u.b * v1 + b' * vn = 0 → ({ u with r := 0 } : Row K).Holds (wrap periodic vn) v1 vn := by
    intro v1 vn hh
    unfold Row.Holds wrap
    cases periodic <;> simp at hb' ⊢ <;> rw [hb'] at hh <;> linear_combination hh
  have red2 : ∀ v1 vn : K, c' * v1 + l.b * vn = 0 → ({ l with r := 0 } : Row K).Holds v1 vn (wrap periodic v1) := by
    intro v1 vn hh
    unfold Row.Holds wrap
    cases periodic <;> simp at hc' ⊢ <;> rw [hc'] at hh <;> linear_combination hh
  by_cases h1 : b' ≠ 0 ∨ u.b ≠ 0
  · refine ⟨b', -u.b, ?_, red1 _ _ (by ring), red2 _ _ (by linear_combination -hdet)⟩
    rcases h1 with h1 | h1
    · exact Or.inl h1
    · exact Or.inr (neg_ne_zero.mpr h1)
  · push Not at h1
    obtain ⟨hb0, ha0⟩ := h1
    by_cases h2 : l.b ≠ 0 ∨ c' ≠ 0
    · refine ⟨l.b, -c', ?_, red1 _ _ (by rw [hb0, ha0]; ring), red2 _ _ (by ring)⟩
      rcases h2 with h2 | h2
      · exact Or.inl h2
      · exact Or.inr (neg_ne_zero.mpr h2)
    · push Not at h2
      exact ⟨1, 0, Or.inl one_ne_zero, red1 _ _ (by rw [hb0, ha0]; ring), red2 _ _ (by rw [h2.1, h2.2]; ring)⟩

/-! ### Reduction does not look at the right-hand side -/


theorem upLoop_hom (co : Nat → Row K) : ∀ (i : Nat) (u w : Row K), upLoop tiny co i u = .ok w →
    upLoop tiny (fun k => (co k).hom) i u.hom = .ok w.hom := by
  intro i
  induction i with
  | zero => intro u w h; simp only [upLoop, Except.ok.injEq] at h ⊢; rw [h]
  | succ i ih =>
    intro u w h
    simp only [upLoop] at h ⊢
    split at h
    · cases h
    rename_i hne
    rw [if_neg (show ¬ tiny (u.hom).b from hne)]
    have := ih _ w h
    simpa [Row.hom] using this

theorem loLoop_hom (co : Nat → Row K) : ∀ (k i : Nat) (u w : Row K), loLoop tiny co k i u = .ok w →
    loLoop tiny (fun k => (co k).hom) k i u.hom = .ok w.hom := by
  intro k
  induction k with
  | zero => intro i u w h; simp only [loLoop, Except.ok.injEq] at h ⊢; rw [h]
  | succ k ih =>
    intro i u w h
    simp only [loLoop] at h ⊢
    split at h
    · cases h
    rename_i hne
    rw [if_neg (show ¬ tiny (u.hom).b from hne)]
    have := ih _ _ w h
    simpa [Row.hom] using this

theorem reduce_hom {co : Nat → Row K} {n : Nat} {u l : Row K} (h : reduce tiny co n = .ok (u, l)) :
    reduce tiny (fun k => (co k).hom) n = .ok (u.hom, l.hom) := by
  obtain ⟨hn, hu, hl⟩ := reduce_ok tiny h
  unfold reduce
  rw [if_neg (by omega), upLoop_hom tiny co _ _ _ hu, loLoop_hom tiny co _ _ _ _ hl]

theorem pairRed_hom {P : Nat} {E : Nat → Row K} {u l : Row K} (h : pairRed tiny P E = .ok (u, l)) :
    pairRed tiny P (fun k => (E k).hom) = .ok (u.hom, l.hom) := by
  unfold pairRed at h ⊢
  split
  · rename_i hP; rw [if_pos hP] at h; exact reduce_hom tiny h
  · rename_i hP; rw [if_neg hP] at h
    simp only [Except.ok.injEq, Prod.mk.injEq] at h ⊢
    rw [h.1, h.2]; exact ⟨rfl, rfl⟩

/-! ### Assignment of systems to processors -/

theorem sendStart_eq (Nsys P : Nat) : ∀ p, sendStart Nsys P p = p * (Nsys / P) + min p (Nsys % P)
  | 0 => by simp [sendStart]
  | p + 1 => by
    rw [sendStart, sendStart_eq Nsys P p, nsp, Nat.succ_mul]
    split <;> omega

theorem sys0_eq (Nsys P p : Nat) : sys0 Nsys P p = sendStart Nsys P p := by
  rw [sendStart_eq, sys0, Nat.mul_comm (Nsys / P) p]
  split <;> omega

theorem scatterStart_eq (Nsys P p : Nat) : scatterStart Nsys P p = sendStart Nsys P p := by
  rw [sendStart_eq, scatterStart]
  split <;> omega

theorem sendStart_end (Nsys P : Nat) (hP : 0 < P) : sendStart Nsys P P = Nsys := by
  rw [sendStart_eq]
  have h1 := Nat.mod_lt Nsys hP
  have h2 := Nat.div_add_mod Nsys P
  rw [Nat.min_eq_right (by omega)]
  exact h2

theorem sendStart_mono (Nsys P : Nat) {p q : Nat} (h : p ≤ q) : sendStart Nsys P p ≤ sendStart Nsys P q := by
  induction h with
  | refl => exact le_refl _
  | step _ ih => rw [sendStart]; omega

theorem owner_exists (Nsys P : Nat) : ∀ n s, s < sendStart Nsys P n →
    ∃ p, p < n ∧ sendStart Nsys P p ≤ s ∧ s < sendStart Nsys P p + nsp Nsys P p
  | 0, s, h => by simp [sendStart] at h
  | n + 1, s, h => by
    by_cases hs : s < sendStart Nsys P n
    · obtain ⟨p, hp, h1⟩ := owner_exists Nsys P n s hs
      exact ⟨p, by omega, h1⟩
    · exact ⟨n, by omega, by omega, by rw [sendStart] at h; omega⟩

theorem owner_unique (Nsys P : Nat) {p q s : Nat}
    (hp : sendStart Nsys P p ≤ s ∧ s < sendStart Nsys P p + nsp Nsys P p)
    (hq : sendStart Nsys P q ≤ s ∧ s < sendStart Nsys P q + nsp Nsys P q) : p = q := by
  rcases Nat.lt_trichotomy p q with h | h | h
  · have := sendStart_mono Nsys P (show p + 1 ≤ q from h)
    rw [sendStart] at this; omega
  · exact h
  · have := sendStart_mono Nsys P (show q + 1 ≤ p from h)
    rw [sendStart] at this; omega

/-- Whatever the arrival order, processor `q` ends up with the owner's values. -/
theorem scatter_owner (Nsys P : Nat) (ifx : Nat → Nat → Nat → K) (q s p : Nat)
    (hp : sendStart Nsys P p ≤ s ∧ s < sendStart Nsys P p + nsp Nsys P p) :
    ∀ (order : List Nat) (acc : K × K), p ∈ order →
      order.foldl (fun acc p =>
        let start := if p = q then sys0 Nsys P p else scatterStart Nsys P p
        if start ≤ s ∧ s < start + nsp Nsys P p then (ifx p (s - start) (2 * q), ifx p (s - start) (2 * q + 1))
        else acc) acc =
      (ifx p (s - sendStart Nsys P p) (2 * q), ifx p (s - sendStart Nsys P p) (2 * q + 1)) := by
  have hstart : ∀ p', (if p' = q then sys0 Nsys P p' else scatterStart Nsys P p') = sendStart Nsys P p' := by
    intro p'; rw [sys0_eq, scatterStart_eq]; simp
  simp only [hstart]
  have stable : ∀ (order : List Nat), order.foldl (fun acc p' =>
        if sendStart Nsys P p' ≤ s ∧ s < sendStart Nsys P p' + nsp Nsys P p' then
          (ifx p' (s - sendStart Nsys P p') (2 * q), ifx p' (s - sendStart Nsys P p') (2 * q + 1))
        else acc) (ifx p (s - sendStart Nsys P p) (2 * q), ifx p (s - sendStart Nsys P p) (2 * q + 1)) =
      (ifx p (s - sendStart Nsys P p) (2 * q), ifx p (s - sendStart Nsys P p) (2 * q + 1)) := by
    intro order
    induction order with
    | nil => rfl
    | cons a t ih =>
      rw [List.foldl_cons]
      by_cases ha : sendStart Nsys P a ≤ s ∧ s < sendStart Nsys P a + nsp Nsys P a
      · rw [if_pos ha, owner_unique Nsys P ha hp]; exact ih
      · rw [if_neg ha]; exact ih
  intro order
  induction order with
  | nil => intro _ h; simp at h
  | cons a t ih =>
    intro acc h
    rw [List.foldl_cons]
    rcases List.mem_cons.mp h with rfl | h
    · rw [if_pos hp]; exact stable t
    · exact ih _ h

theorem scatter_val (Nsys P : Nat) (ifx : Nat → Nat → Nat → K) (q s p : Nat)
    (hp : sendStart Nsys P p ≤ s ∧ s < sendStart Nsys P p + nsp Nsys P p) (order : List Nat) (h : p ∈ order) :
    scatter Nsys P ifx q order s =
      (ifx p (s - sendStart Nsys P p) (2 * q), ifx p (s - sendStart Nsys P p) (2 * q + 1)) :=
  scatter_owner Nsys P ifx q s p hp order (0, 0) h

/-! ### checkAll -/

theorem checkAll_ok {α : Type} {f : Nat → Out α} : ∀ {n : Nat} {v}, checkAll f n = .ok v →
    ∀ i, i < n → ∃ a, f i = .ok a
  | 0, _, _, i, hi => by omega
  | n + 1, v, h, i, hi => by
    simp only [checkAll] at h
    split at h
    · cases h
    rename_i u hu
    split at h
    · rename_i a ha
      by_cases e : i = n
      · exact ⟨a, by rw [e]; exact ha⟩
      · exact checkAll_ok hu i (by omega)
    · cases h

theorem checkAll_of {α : Type} {f : Nat → Out α} : ∀ {n : Nat}, (∀ i, i < n → ∃ a, f i = .ok a) →
    checkAll f n = .ok ()
  | 0, _ => rfl
  | n + 1, h => by
    obtain ⟨a, ha⟩ := h n (by omega)
    have := checkAll_of (f := f) (n := n) (fun i hi => h i (by omega))
    simp only [checkAll, this, ha]

theorem checkAll_err {α : Type} {f : Nat → Out α} {e : Err} : ∀ {n : Nat}, checkAll f n = .error e →
    ∃ i, i < n ∧ f i = .error e
  | 0, h => by simp [checkAll] at h
  | n + 1, h => by
    simp only [checkAll] at h
    split at h
    · rename_i e' he
      simp only [Except.error.injEq] at h
      obtain ⟨i, hi, h'⟩ := checkAll_err he
      exact ⟨i, by omega, by rw [h', h]⟩
    · split at h
      · cases h
      · rename_i e' he
        simp only [Except.error.injEq] at h
        exact ⟨n, by omega, by rw [he, h]⟩

theorem ifcs_eq (Nsys P : Nat) (myif : Nat → Nat → Row K × Row K) (p i : Nat) :
    ifcs Nsys P myif p i = inter (fun q => (myif q (sendStart Nsys P p + i)).1)
      (fun q => (myif q (sendStart Nsys P p + i)).2) := by
  funext k
  simp only [ifcs, inter, sys0_eq]
  by_cases hq : k / 2 = p
  · rw [hq]; simp
  · rw [if_neg hq]

end Verif.Cyclic
