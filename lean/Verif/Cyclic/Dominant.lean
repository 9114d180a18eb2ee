import Verif.Cyclic.Props
import Mathlib.Analysis.Normed.Field.Basic
import Mathlib.Tactic.Linarith
import Mathlib.Tactic.FieldSimp

/-!
# C22: diagonally dominant systems are always solved

`C22_succeeds` leaves the exception "Zero pivot".  Here: it cannot occur for
diagonally dominant systems, on any number of processors.
-/

namespace Verif.Cyclic

variable {K : Type} [NormedField K] [DecidableEq K] (tiny : K → Prop) [DecidablePred tiny]

/-- `|b| - |a| - |c|`. -/
noncomputable def Row.gap (w : Row K) : ℝ := ‖w.b‖ - ‖w.a‖ - ‖w.c‖

omit [DecidableEq K] in
theorem gap_le_b (w : Row K) : w.gap ≤ ‖w.b‖ := by
  have h1 := norm_nonneg w.a
  have h2 := norm_nonneg w.c
  unfold Row.gap; linarith

omit [DecidableEq K] in
/-- Eliminating with a dominant row does not reduce the gap. -/
theorem elim_gap {a b c ua ub uc : K} (hg : 0 ≤ ‖ub‖ - ‖ua‖ - ‖uc‖) (hb : ub ≠ 0) :
    ‖b‖ - ‖a‖ - ‖c‖ ≤ ‖b - c / ub * ua‖ - ‖a‖ - ‖uc * (-(c / ub))‖ := by
  have hub : 0 < ‖ub‖ := norm_pos_iff.2 hb
  have h1 : ‖b‖ - ‖c / ub * ua‖ ≤ ‖b - c / ub * ua‖ := norm_sub_norm_le _ _
  rw [norm_mul, norm_div] at h1
  rw [norm_mul, norm_neg, norm_div]
  have h2 : ‖c‖ / ‖ub‖ * ‖ua‖ + ‖uc‖ * (‖c‖ / ‖ub‖) ≤ ‖c‖ := by
    have : ‖c‖ / ‖ub‖ * ‖ua‖ + ‖uc‖ * (‖c‖ / ‖ub‖) = ‖c‖ * ((‖ua‖ + ‖uc‖) / ‖ub‖) := by
      field_simp
    rw [this]
    have h3 : (‖ua‖ + ‖uc‖) / ‖ub‖ ≤ 1 := by rw [div_le_one hub]; linarith
    calc ‖c‖ * ((‖ua‖ + ‖uc‖) / ‖ub‖) ≤ ‖c‖ * 1 := by gcongr
      _ = ‖c‖ := mul_one _
  linarith

variable {tiny} {δ : ℝ} (hδ : 0 < δ) (htiny : ∀ v, tiny v → ‖v‖ < δ)

omit [DecidableEq K] in
include hδ htiny in
theorem upLoop_dom (co : Nat → Row K) : ∀ (i : Nat) (u : Row K), (i ≠ 0 → δ ≤ u.gap) →
    (∀ m, 1 ≤ m → m < i → δ ≤ (co m).gap) →
    ∃ u', upLoop tiny co i u = .ok u' ∧ (if i = 0 then u.gap else (co 0).gap) ≤ u'.gap := by
  intro i
  induction i with
  | zero => intro u _ _; exact ⟨u, rfl, by simp⟩
  | succ i ih =>
    intro u hu hm
    have hg := hu (by omega)
    have hub := hg.trans (gap_le_b u)
    unfold upLoop
    rw [if_neg (fun h => by have := htiny _ h; linarith)]
    have hne : u.b ≠ 0 := norm_pos_iff.1 (by linarith)
    have hstep : (co i).gap ≤ Row.gap (⟨(co i).a, (co i).b - (co i).c / u.b * u.a,
        u.c * (-((co i).c / u.b)), (co i).r - (co i).c / u.b * u.r⟩ : Row K) := by
      unfold Row.gap
      exact elim_gap (by unfold Row.gap at hg; linarith) hne
    obtain ⟨u', h1, h2⟩ := ih _ (fun hi => (hm i (by omega) (by omega)).trans hstep)
      (fun m h1 h2 => hm m h1 (by omega))
    refine ⟨u', h1, ?_⟩
    rw [if_neg (by omega)]
    by_cases hi : i = 0
    · subst hi
      rw [if_pos rfl] at h2
      exact hstep.trans h2
    · rw [if_neg hi] at h2
      exact h2

omit [DecidableEq K] in
include hδ htiny in
theorem loLoop_dom (co : Nat → Row K) : ∀ (k i : Nat) (l : Row K), (k ≠ 0 → δ ≤ l.gap) →
    (∀ m, i ≤ m → m + 1 < i + k → δ ≤ (co m).gap) →
    ∃ l', loLoop tiny co k i l = .ok l' ∧ (if k = 0 then l.gap else (co (i + k - 1)).gap) ≤ l'.gap := by
  intro k
  induction k with
  | zero => intro i l _ _; exact ⟨l, rfl, by simp⟩
  | succ k ih =>
    intro i l hl hm
    have hg := hl (by omega)
    have hlb := hg.trans (gap_le_b l)
    unfold loLoop
    rw [if_neg (fun h => by have := htiny _ h; linarith)]
    have hne : l.b ≠ 0 := norm_pos_iff.1 (by linarith)
    have hstep : (co i).gap ≤ Row.gap (⟨l.a * (-((co i).a / l.b)),
        (co i).b - (co i).a / l.b * l.c, (co i).c,
        (co i).r - (co i).a / l.b * l.r⟩ : Row K) := by
      unfold Row.gap
      have := elim_gap (a := (co i).c) (b := (co i).b) (c := (co i).a) (ua := l.c) (ub := l.b)
        (uc := l.a) (by unfold Row.gap at hg; linarith) hne
      linarith
    obtain ⟨l', h1, h2⟩ := ih (i + 1) _ (fun hi => (hm i (by omega) (by omega)).trans hstep)
      (fun m h1 h2 => hm m (by omega) (by omega))
    refine ⟨l', h1, ?_⟩
    rw [if_neg (by omega)]
    by_cases hi : k = 0
    · subst hi
      rw [if_pos rfl] at h2
      exact hstep.trans h2
    · rw [if_neg hi] at h2
      rw [show i + (k + 1) - 1 = i + 1 + k - 1 by omega]
      exact h2

omit [DecidableEq K] in
include hδ htiny in
/-- Local reduction succeeds and keeps the gaps of the two end rows. -/
theorem reduce_dom (co : Nat → Row K) (n : Nat) (hn : 2 ≤ n)
    (hm : ∀ m, 1 ≤ m → m + 1 < n → δ ≤ (co m).gap) :
    ∃ u l, reduce tiny co n = .ok (u, l) ∧ (co 0).gap ≤ u.gap ∧ (co (n - 1)).gap ≤ l.gap := by
  obtain ⟨u, hu, gu⟩ := upLoop_dom hδ htiny co (n - 2) (co (n - 2))
    (fun h => hm _ (by omega) (by omega)) (fun m h1 h2 => hm m h1 (by omega))
  obtain ⟨l, hl, gl⟩ := loLoop_dom hδ htiny co (n - 2) 2 (co 1)
    (fun h => hm _ (by omega) (by omega)) (fun m h1 h2 => hm m (by omega) (by omega))
  refine ⟨u, l, ?_, ?_, ?_⟩
  · unfold reduce
    rw [if_neg (by omega), hu, hl]
  · by_cases h : n - 2 = 0
    · rw [if_pos h, h] at gu; exact gu
    · rw [if_neg h] at gu; exact gu
  · by_cases h : n - 2 = 0
    · rw [if_pos h] at gl
      rw [show n - 1 = 1 by omega]; exact gl
    · rw [if_neg h, show 2 + (n - 2) - 1 = n - 1 by omega] at gl; exact gl

/-- Row `j` of processor `q` is one of the two outermost rows. -/
def EndRow (P : Nat) (N : Nat → Nat) (q j : Nat) : Prop :=
  (q = 0 ∧ j = 0) ∨ (q + 1 = P ∧ j + 1 = N q)

/-- Diagonal dominance by at least `δ` in every row, except that the two outermost
rows of a non-periodic system need only be weakly dominant with a non-zero diagonal. -/
def Dominant (δ : ℝ) (P : Nat) (N : Nat → Nat) (periodic : Bool) (co : Nat → Nat → Row K) : Prop :=
  ∀ q, q < P → ∀ j, j < N q →
    δ ≤ (co q j).gap ∨ (periodic = false ∧ EndRow P N q j ∧ 0 ≤ (co q j).gap ∧ (co q j).b ≠ 0)

omit [DecidableEq K] in
theorem prevVal_le {P : Nat} {N : Nat → Nat} {per : Bool} {x : Nat → Nat → K} {M : ℝ} (hM : 0 ≤ M)
    (hN : ∀ q, q < P → 2 ≤ N q) (hx : ∀ q, q < P → ∀ j, j < N q → ‖x q j‖ ≤ M) {q j : Nat}
    (hq : q < P) (hj : j < N q) : ‖prevVal P N per x q j‖ ≤ M := by
  unfold prevVal
  split_ifs
  · exact hx q hq _ (by omega)
  · exact hx _ (by omega) _ (by have := hN (q - 1) (by omega); omega)
  · exact hx _ (by omega) _ (by have := hN (P - 1) (by omega); omega)
  · simpa using hM

omit [DecidableEq K] in
theorem nextVal_le {P : Nat} {N : Nat → Nat} {per : Bool} {x : Nat → Nat → K} {M : ℝ} (hM : 0 ≤ M)
    (hN : ∀ q, q < P → 2 ≤ N q) (hx : ∀ q, q < P → ∀ j, j < N q → ‖x q j‖ ≤ M) {q j : Nat}
    (hq : q < P) (hj : j < N q) : ‖nextVal P N per x q j‖ ≤ M := by
  unfold nextVal
  split_ifs
  · exact hx q hq _ (by omega)
  · exact hx _ (by omega) _ (by have := hN (q + 1) (by omega); omega)
  · exact hx _ (by omega) _ (by have := hN 0 (by omega); omega)
  · simpa using hM

omit [DecidableEq K] in
/-- A row with a positive gap cannot carry the maximum of a homogeneous solution. -/
theorem strict_max {w : Row K} {p x n : K} (hg : 0 < w.gap) (h : w.hom.Holds p x n)
    (hp : ‖p‖ ≤ ‖x‖) (hn : ‖n‖ ≤ ‖x‖) : ‖x‖ = 0 := by
  unfold Row.Holds Row.hom at h
  dsimp only at h
  have e : w.b * x = -(w.a * p + w.c * n) := by linear_combination h
  have h1 : ‖w.b‖ * ‖x‖ ≤ ‖w.a‖ * ‖x‖ + ‖w.c‖ * ‖x‖ := by
    rw [← norm_mul, e, norm_neg]
    refine (norm_add_le _ _).trans ?_
    rw [norm_mul, norm_mul]
    gcongr
  unfold Row.gap at hg
  have h2 := norm_nonneg x
  nlinarith

omit [DecidableEq K] in
/-- A weakly dominant row with only one neighbour passes the maximum on. -/
theorem weak_max {b c x n : K} (hg : ‖c‖ ≤ ‖b‖) (hb : b ≠ 0) (h : b * x + c * n = 0) :
    ‖x‖ ≤ ‖n‖ := by
  have hb' : 0 < ‖b‖ := norm_pos_iff.2 hb
  have e : b * x = -(c * n) := by linear_combination h
  have h1 : ‖b‖ * ‖x‖ = ‖c‖ * ‖n‖ := by rw [← norm_mul, e, norm_neg, norm_mul]
  have h2 := norm_nonneg n
  have h3 : ‖b‖ * ‖x‖ ≤ ‖b‖ * ‖n‖ := by rw [h1]; gcongr
  exact le_of_mul_le_mul_left h3 hb'

omit [DecidableEq K] in
include hδ in
/-- A dominant system is non-singular. -/
theorem dominant_nonsingular {P : Nat} {N : Nat → Nat} {periodic : Bool} {co : Nat → Nat → Row K}
    (hN : ∀ q, q < P → 2 ≤ N q) (h3 : P = 1 → 3 ≤ N 0)
    (hd : Dominant δ P N periodic co) : NonSingular P N periodic co := by
  intro x hx q hq j hj
  let S := (Finset.range P).sigma (fun q => Finset.range (N q))
  have hS : S.Nonempty := ⟨⟨q, j⟩, by simp [S, hq, hj]⟩
  obtain ⟨⟨q0, j0⟩, hm, hmax⟩ := Finset.exists_max_image S (fun p => ‖x p.1 p.2‖) hS
  simp only [S, Finset.mem_sigma, Finset.mem_range] at hm
  obtain ⟨hq0, hj0⟩ := hm
  have hmax' : ∀ q, q < P → ∀ j, j < N q → ‖x q j‖ ≤ ‖x q0 j0‖ := fun q hq j hj =>
    hmax ⟨q, j⟩ (by simp [S, hq, hj])
  have hM := norm_nonneg (x q0 j0)
  -- a strict row carrying the maximum makes everything zero
  have key : ∀ q1, q1 < P → ∀ j1, j1 < N q1 → δ ≤ (co q1 j1).gap → ‖x q0 j0‖ ≤ ‖x q1 j1‖ →
      ‖x q0 j0‖ = 0 := by
    intro q1 hq1 j1 hj1 hgap hle
    have heq : ‖x q1 j1‖ = ‖x q0 j0‖ := le_antisymm (hmax' q1 hq1 j1 hj1) hle
    rw [← heq] at hM ⊢
    have hmax'' : ∀ q, q < P → ∀ j, j < N q → ‖x q j‖ ≤ ‖x q1 j1‖ := by
      intro q hq j hj; rw [heq]; exact hmax' q hq j hj
    exact strict_max (by linarith) (hx q1 hq1 j1 hj1) (prevVal_le hM hN hmax'' hq1 hj1)
      (nextVal_le hM hN hmax'' hq1 hj1)
  have hzero : ‖x q0 j0‖ = 0 := by
    rcases hd q0 hq0 j0 hj0 with hs | ⟨hper, hend, hg, hb⟩
    · exact key q0 hq0 j0 hj0 hs le_rfl
    · have hrow := hx q0 hq0 j0 hj0
      have hn2 := hN q0 hq0
      unfold Row.gap at hg
      have ha := norm_nonneg (co q0 j0).a
      have hc := norm_nonneg (co q0 j0).c
      rcases hend with ⟨e1, e2⟩ | ⟨e1, e2⟩
      · subst e1; subst e2
        unfold Row.Holds Row.hom prevVal nextVal at hrow
        dsimp only at hrow
        rw [if_neg (by simp), if_neg (by simp), hper, if_neg (by simp), if_pos (by omega),
          mul_zero, zero_add] at hrow
        have hle : ‖x 0 0‖ ≤ ‖x 0 (0 + 1)‖ := weak_max (by linarith) hb hrow
        rcases hd 0 hq0 1 (by omega) with hs | ⟨_, hend, _, _⟩
        · exact key 0 hq0 1 (by omega) hs hle
        · exfalso
          rcases hend with h | h
          · omega
          · have := h3 (by omega); omega
      · unfold Row.Holds Row.hom prevVal nextVal at hrow
        dsimp only at hrow
        rw [if_pos (show j0 ≠ 0 by omega), if_neg (show ¬ j0 + 1 ≠ N q0 by omega),
          if_neg (show ¬ q0 + 1 ≠ P by omega), hper, if_neg (by simp), mul_zero, add_zero] at hrow
        have hle : ‖x q0 j0‖ ≤ ‖x q0 (j0 - 1)‖ :=
          weak_max (b := (co q0 j0).b) (c := (co q0 j0).a) (by linarith) hb
            (by linear_combination hrow)
        rcases hd q0 hq0 (j0 - 1) (by omega) with hs | ⟨_, hend, _, _⟩
        · exact key q0 hq0 (j0 - 1) (by omega) hs hle
        · exfalso
          rcases hend with h | h
          · have := h3 (by omega); have : q0 = 0 := h.1; subst this; omega
          · omega
  have := hmax' q hq j hj
  rw [hzero] at this
  exact norm_le_zero_iff.1 this

include hδ htiny in
/-- **C22.** A diagonally dominant system is always solved: no zero pivot, no division by
zero, on any number of processors with at least two rows each. -/
theorem C22_dominant_succeeds {P Nsys : Nat} {N : Nat → Nat} {periodic : Bool}
    {co : Nat → Nat → Nat → Row K} {order : Nat → List Nat} (h0 : ∀ v, v = 0 → tiny v)
    (hP : 1 ≤ P) (hN : ∀ q, q < P → 2 ≤ N q) (h3 : P = 1 → 3 ≤ N 0)
    (hd : ∀ s, s < Nsys → Dominant δ P N periodic (fun q j => co q s j)) :
    ∃ x, distSolve tiny P Nsys N periodic co order = .ok x := by
  rcases C22_succeeds tiny (order := order) h0 hP hN
    (fun s hs => dominant_nonsingular hδ hN h3 (hd s hs)) with h | h
  · exact h
  exfalso
  have hinner : ∀ s, s < Nsys → ∀ q, q < P → ∃ u l, reduce tiny (co q s) (N q) = .ok (u, l)
      ∧ (co q s 0).gap ≤ u.gap ∧ (co q s (N q - 1)).gap ≤ l.gap := by
    intro s hs q hq
    refine reduce_dom hδ htiny _ _ (hN q hq) fun m h1 h2 => ?_
    rcases hd s hs q hq m (by omega) with h | ⟨_, he, _⟩
    · exact h
    · rcases he with he | he <;> omega
  unfold distSolve at h
  simp only at h
  split at h
  · rename_i e' c1
    obtain ⟨q, hq, hc⟩ := checkAll_err c1
    obtain ⟨s, hs, hc'⟩ := checkAll_err hc
    obtain ⟨u, l, hr, _⟩ := hinner s hs q hq
    rw [hr] at hc'
    cases hc'
  · split at h
    · rename_i e' c2
      simp only [Except.error.injEq] at h
      subst h
      obtain ⟨p, hp, hc⟩ := checkAll_err c2
      obtain ⟨i, hi, hc'⟩ := checkAll_err hc
      rw [ifcs_eq] at hc'
      set s := sendStart Nsys P p + i with hsdef
      have hs : s < Nsys := by
        have h1 := sendStart_mono Nsys P (show p + 1 ≤ P from hp)
        rw [sendStart_end Nsys P hP, sendStart] at h1
        omega
      set U : Nat → Row K := fun q => (valD (Row.zero, Row.zero) (reduce tiny (co q s) (N q))).1 with hU
      set L : Nat → Row K := fun q => (valD (Row.zero, Row.zero) (reduce tiny (co q s) (N q))).2 with hL
      have hUL : ∀ q, q < P → (co q s 0).gap ≤ (U q).gap ∧ (co q s (N q - 1)).gap ≤ (L q).gap := by
        intro q hq
        obtain ⟨u, l, hr, g1, g2⟩ := hinner s hs q hq
        simp only [hU, hL, hr, valD]
        exact ⟨g1, g2⟩
      unfold ifaceSolve at hc'
      simp only at hc'
      have hpair : ∃ u l, (if P > 1 then reduce tiny (inter U L) (2 * P)
          else .ok (inter U L 0, inter U L 1)) = .ok (u, l) := by
        by_cases hP1 : P > 1
        · rw [if_pos hP1]
          obtain ⟨u, l, hr, _⟩ := reduce_dom hδ htiny (inter U L) (2 * P) (by omega) (by
            intro m h1 h2
            unfold inter
            by_cases hm : m % 2 = 0
            · rw [if_pos hm]
              have hq : m / 2 < P := by omega
              refine le_trans ?_ (hUL (m / 2) hq).1
              have h2' := hN (m / 2) hq
              rcases hd s hs (m / 2) hq 0 (by omega) with h | ⟨_, he, _⟩
              · exact h
              · rcases he with he | he <;> omega
            · rw [if_neg hm]
              have hq : m / 2 < P := by omega
              refine le_trans ?_ (hUL (m / 2) hq).2
              have h2' := hN (m / 2) hq
              rcases hd s hs (m / 2) hq (N (m / 2) - 1) (by omega) with h | ⟨_, he, _⟩
              · exact h
              · rcases he with he | he <;> omega)
          exact ⟨u, l, hr⟩
        · rw [if_neg hP1]; exact ⟨_, _, rfl⟩
      obtain ⟨u, l, hul⟩ := hpair
      rw [hul] at hc'
      simp only at hc'
      split at hc'
      · rename_i e3 h22
        unfold solve2x2 at h22
        simp only at h22
        split_ifs at h22 <;> cases h22 <;> cases hc'
      · unfold backSolve at hc'
        split_ifs at hc' <;> cases hc'
    · split at h
      · rename_i e' c3
        simp only [Except.error.injEq] at h
        subst h
        obtain ⟨q, hq, hc⟩ := checkAll_err c3
        obtain ⟨s, hs, hc'⟩ := checkAll_err hc
        unfold backSolve at hc'
        split_ifs at hc' <;> cases hc'
      · cases h

/-- Dominance is met, e.g. by `-x_(i-1) + 3 x_i - x_(i+1)` with end rows `x_0 = x_1`. -/
example : Dominant (K := ℝ) 1 2 (fun _ => 3) false (fun q j =>
    if q = 0 ∧ j = 0 then ⟨0, 1, -1, 0⟩ else ⟨-1, 3, -1, 7⟩) := by
  intro q hq j hj
  by_cases h : q = 0 ∧ j = 0
  · right
    refine ⟨rfl, Or.inl h, ?_, ?_⟩ <;> simp only [if_pos h] <;> simp [Row.gap]
  · left
    simp only [if_neg h, Row.gap]
    norm_num

end Verif.Cyclic
