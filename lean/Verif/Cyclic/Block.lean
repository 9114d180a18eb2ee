import Verif.Cyclic.Dominant
import Mathlib.Tactic.Positivity

/-!
# C22: dominant systems with several boundary rows

`C22_dominant_succeeds` allows one weakly dominant row at each end.  The Laplacian and the
parallel solvers have as many as there are guard cells: rows that couple a boundary point
only to the point next to it towards the interior.
-/

namespace Verif.Cyclic

variable {K : Type} [NormedField K] [DecidableEq K]

/-- Strictly dominant, in proportion. -/
def Strict (θ β : ℝ) (w : Row K) : Prop := ‖w.a‖ + ‖w.c‖ ≤ (1 - θ) * ‖w.b‖ ∧ β ≤ ‖w.b‖

/-- Couples only to the next row, weakly dominant. -/
def Lower (β : ℝ) (w : Row K) : Prop := w.a = 0 ∧ ‖w.c‖ ≤ ‖w.b‖ ∧ β ≤ ‖w.b‖

/-- Couples only to the previous row, weakly dominant. -/
def Upper (β : ℝ) (w : Row K) : Prop := w.c = 0 ∧ ‖w.a‖ ≤ ‖w.b‖ ∧ β ≤ ‖w.b‖

/-- Class 0, 1, 2: lower boundary row, interior row, upper boundary row. -/
def Cls (θ β : ℝ) (c : Nat) (w : Row K) : Prop :=
  match c with
  | 0 => Lower β w
  | 1 => Strict θ β w
  | _ => Upper β w

omit [DecidableEq K] in
theorem Cls.mono {θ β β' : ℝ} (h : β' ≤ β) {c : Nat} {w : Row K} (hc : Cls θ β c w) : Cls θ β' c w := by
  unfold Cls at *
  split at hc
  · exact ⟨hc.1, hc.2.1, h.trans hc.2.2⟩
  · exact ⟨hc.1, h.trans hc.2⟩
  · exact ⟨hc.1, hc.2.1, h.trans hc.2.2⟩

omit [DecidableEq K] in
theorem Cls.weak {θ β : ℝ} (hθ : 0 ≤ θ) {c : Nat} {w : Row K} (hc : Cls θ β c w) :
    ‖w.a‖ + ‖w.c‖ ≤ ‖w.b‖ ∧ β ≤ ‖w.b‖ := by
  have hb := norm_nonneg w.b
  unfold Cls at hc
  split at hc
  · rw [hc.1, norm_zero, zero_add]; exact hc.2
  · exact ⟨hc.1.trans (by nlinarith), hc.2⟩
  · rw [hc.1, norm_zero, add_zero]; exact hc.2

/-- The same system read from the other end. -/
def Row.mirror (w : Row K) : Row K := { w with a := w.c, c := w.a }

omit [DecidableEq K] in
theorem Cls.mirror {θ β : ℝ} {c : Nat} (h2 : c ≤ 2) {w : Row K} (hc : Cls θ β c w) :
    Cls θ β (2 - c) w.mirror := by
  rcases c with _ | _ | c
  · exact hc
  · obtain ⟨h, h'⟩ := hc
    exact ⟨by show ‖w.c‖ + ‖w.a‖ ≤ _; rw [add_comm]; exact h, h'⟩
  · have : c = 0 := by omega
    subst this
    exact hc

variable {θ β : ℝ} (hθ : 0 < θ) (hθ1 : θ ≤ 1) (hβ : 0 < β)

omit [DecidableEq K] in
include hθ hθ1 hβ in
/-- Eliminating the next row keeps the class. -/
theorem elim_cls {c d : Nat} {u w : Row K} (hu : Cls θ (θ * β) c u) (hw : Cls θ β d w)
    (h1 : d ≤ c) (h2 : c ≤ d + 1) (r : K) (hd2 : c ≤ 2) :
    Cls θ (θ * β) d (⟨w.a, w.b - w.c / u.b * u.a, u.c * (-(w.c / u.b)), r⟩ : Row K) := by
  obtain ⟨hdom, hub⟩ := hu.weak hθ.le
  have hub' : 0 < ‖u.b‖ := lt_of_lt_of_le (by positivity) hub
  have hb1 : ‖w.b‖ - ‖w.c / u.b * u.a‖ ≤ ‖w.b - w.c / u.b * u.a‖ := norm_sub_norm_le _ _
  rw [norm_mul, norm_div] at hb1
  set p := ‖u.a‖ / ‖u.b‖ with hp
  set s := ‖u.c‖ / ‖u.b‖ with hs
  have hp0 : 0 ≤ p := by positivity
  have hs0 : 0 ≤ s := by positivity
  have hps : p + s ≤ 1 := by rw [hp, hs, ← add_div, div_le_one hub']; exact hdom
  have ep : ‖w.c‖ / ‖u.b‖ * ‖u.a‖ = ‖w.c‖ * p := by rw [hp]; field_simp
  have es : ‖u.c * (-(w.c / u.b))‖ = ‖w.c‖ * s := by
    rw [norm_mul, norm_neg, norm_div, hs]; field_simp
  rw [ep] at hb1
  have hwb := norm_nonneg w.b
  have hwc := norm_nonneg w.c
  have hwa := norm_nonneg w.a
  rcases d with _ | _ | d
  · obtain ⟨ha, hc, hb⟩ := hw
    rcases c with _ | _ | c
    · obtain ⟨ua, _, _⟩ := hu
      have hp' : p = 0 := by rw [hp, ua, norm_zero, zero_div]
      refine ⟨ha, ?_, ?_⟩
      · dsimp only; rw [es]; nlinarith
      · dsimp only; nlinarith
    · obtain ⟨hst, _⟩ := hu
      have hps' : p + s ≤ 1 - θ := by rw [hp, hs, ← add_div, div_le_iff₀ hub']; exact hst
      have hcp : ‖w.c‖ * (p + s) ≤ ‖w.b‖ * (p + s) := by gcongr
      refine ⟨ha, ?_, ?_⟩
      · dsimp only; rw [es]; nlinarith
      · dsimp only
        have hcp' : ‖w.c‖ * p ≤ ‖w.b‖ * (1 - θ) := by
          calc ‖w.c‖ * p ≤ ‖w.b‖ * p := by gcongr
            _ ≤ ‖w.b‖ * (1 - θ) := by gcongr; linarith
        nlinarith
    · omega
  · obtain ⟨hst, hb⟩ := hw
    have hcp : ‖w.c‖ * p ≤ ‖w.c‖ * 1 := by gcongr; linarith
    refine ⟨?_, ?_⟩
    · dsimp only; rw [es]
      have h3 : ‖w.c‖ * (p + s) ≤ ‖w.c‖ * 1 := by gcongr
      have h4 : (1 - θ) * (‖w.b‖ - ‖w.c‖ * p) ≤ (1 - θ) * ‖w.b - w.c / u.b * u.a‖ := by
        gcongr
      have h5 : 0 ≤ θ * (‖w.c‖ * p) := by positivity
      nlinarith
    · dsimp only
      nlinarith
  · have : d = 0 := by omega
    subst this
    obtain ⟨hc, ha, hb⟩ := hw
    rw [hc]
    refine ⟨by simp, ?_, ?_⟩
    · simpa using ha
    · dsimp only
      rw [zero_div, zero_mul, sub_zero]
      nlinarith

variable {tiny : K → Prop} [DecidablePred tiny] (htiny : ∀ v, tiny v → ‖v‖ < θ * β)

omit [DecidableEq K] in
include hθ hθ1 hβ htiny in
theorem upLoop_cls (co : Nat → Row K) (cls : Nat → Nat) : ∀ (i : Nat) (u : Row K),
    Cls θ (θ * β) (cls i) u → (∀ m, m < i → Cls θ β (cls m) (co m)) →
    (∀ m, m < i → cls m ≤ cls (m + 1) ∧ cls (m + 1) ≤ cls m + 1) → (∀ m, cls m ≤ 2) →
    ∃ u', upLoop tiny co i u = .ok u' ∧ Cls θ (θ * β) (cls 0) u' := by
  intro i
  induction i with
  | zero => intro u hu _ _ _; exact ⟨u, rfl, hu⟩
  | succ i ih =>
    intro u hu hm hs h2
    have hub := (hu.weak hθ.le).2
    unfold upLoop
    rw [if_neg (fun h => by have := htiny _ h; linarith)]
    exact ih _ (elim_cls hθ hθ1 hβ hu (hm i (by omega)) (hs i (by omega)).1 (hs i (by omega)).2 _
      (h2 _)) (fun m h => hm m (by omega)) (fun m h => hs m (by omega)) h2

omit [DecidableEq K] in
include hθ hθ1 hβ htiny in
theorem loLoop_cls (co : Nat → Row K) (cls : Nat → Nat) : ∀ (k i : Nat) (l : Row K),
    1 ≤ i → Cls θ (θ * β) (cls (i - 1)) l → (∀ m, i ≤ m → m < i + k → Cls θ β (cls m) (co m)) →
    (∀ m, i ≤ m + 1 → m + 1 < i + k → cls m ≤ cls (m + 1) ∧ cls (m + 1) ≤ cls m + 1) →
    (∀ m, cls m ≤ 2) →
    ∃ l', loLoop tiny co k i l = .ok l' ∧ Cls θ (θ * β) (cls (i + k - 1)) l' := by
  intro k
  induction k with
  | zero => intro i l hi hl _ _ _; exact ⟨l, rfl, hl⟩
  | succ k ih =>
    intro i l hi hl hm hs h2
    have hlb := (hl.weak hθ.le).2
    unfold loLoop
    rw [if_neg (fun h => by have := htiny _ h; linarith)]
    obtain ⟨s1, s2⟩ := hs (i - 1) (by omega) (by omega)
    rw [show i - 1 + 1 = i by omega] at s1 s2
    have h2a := h2 (i - 1)
    have h2b := h2 i
    have hel := elim_cls hθ hθ1 hβ (hl.mirror h2a) ((hm i le_rfl (by omega)).mirror h2b)
      (by omega) (by omega) ((co i).r - (co i).a / l.b * l.r) (by omega)
    have hel' := hel.mirror (by omega)
    rw [show 2 - (2 - cls i) = cls i by omega] at hel'
    obtain ⟨l', e1, e2⟩ := ih (i + 1) _ (by omega) hel' (fun m a b => hm m (by omega) (by omega))
      (fun m a b => hs m (by omega) (by omega)) h2
    refine ⟨l', e1, ?_⟩
    rw [show i + (k + 1) - 1 = i + 1 + k - 1 by omega]
    exact e2

omit [DecidableEq K] in
include hθ hθ1 hβ htiny in
theorem reduce_cls (co : Nat → Row K) (cls : Nat → Nat) (n : Nat) (hn : 2 ≤ n)
    (hm : ∀ m, m < n → Cls θ β (cls m) (co m))
    (hs : ∀ m, m + 1 < n → cls m ≤ cls (m + 1) ∧ cls (m + 1) ≤ cls m + 1) (h2 : ∀ m, cls m ≤ 2) :
    ∃ u l, reduce tiny co n = .ok (u, l) ∧ Cls θ (θ * β) (cls 0) u
      ∧ Cls θ (θ * β) (cls (n - 1)) l := by
  have hle : θ * β ≤ β := by nlinarith
  obtain ⟨u, hu, gu⟩ := upLoop_cls hθ hθ1 hβ htiny co cls (n - 2) (co (n - 2))
    ((hm _ (by omega)).mono hle) (fun m h => hm m (by omega)) (fun m h => hs m (by omega)) h2
  obtain ⟨l, hl, gl⟩ := loLoop_cls hθ hθ1 hβ htiny co cls (n - 2) 2 (co 1) (by omega)
    ((hm _ (by omega)).mono hle) (fun m _ h => hm m (by omega)) (fun m _ h => hs m (by omega)) h2
  refine ⟨u, l, ?_, gu, ?_⟩
  · unfold reduce
    rw [if_neg (by omega), hu, hl]
  · rw [show n - 1 = 2 + (n - 2) - 1 by omega]; exact gl

/-- The class of row `j` of processor `q`: `k0` boundary rows at the bottom of the first
processor, `k1` at the top of the last. -/
def blockCls (P : Nat) (N : Nat → Nat) (k0 k1 q j : Nat) : Nat :=
  if q = 0 ∧ j < k0 then 0 else if q + 1 = P ∧ N q ≤ j + k1 then 2 else 1

/-- Interior rows are dominant in proportion `θ`, all diagonals are at least `β`, and the
first `k0` and last `k1` rows couple inwards only and are weakly dominant.  At least one
row of the first and of the last processor is an interior row. -/
def BlockDominant (θ β : ℝ) (P : Nat) (N : Nat → Nat) (k0 k1 : Nat) (co : Nat → Nat → Row K) : Prop :=
  k0 < N 0 ∧ k1 < N (P - 1) ∧ (P = 1 → k0 + k1 < N 0) ∧
  ∀ q, q < P → ∀ j, j < N q → Cls θ β (blockCls P N k0 k1 q j) (co q j)

omit [DecidableEq K] in
include hθ hβ in
theorem block_nonsingular {P : Nat} {N : Nat → Nat} {periodic : Bool} {co : Nat → Nat → Row K}
    {k0 k1 : Nat} (hN : ∀ q, q < P → 2 ≤ N q) (hd : BlockDominant θ β P N k0 k1 co) :
    NonSingular P N periodic co := by
  obtain ⟨hk0, hk1, hk, hc⟩ := hd
  intro x hx q hq j hj
  let S := (Finset.range P).sigma (fun q => Finset.range (N q))
  have hS : S.Nonempty := ⟨⟨q, j⟩, by simp [S, hq, hj]⟩
  obtain ⟨⟨q0, j0⟩, hm, hmax⟩ := Finset.exists_max_image S (fun p => ‖x p.1 p.2‖) hS
  simp only [S, Finset.mem_sigma, Finset.mem_range] at hm
  obtain ⟨hq0, hj0⟩ := hm
  have hmax' : ∀ q, q < P → ∀ j, j < N q → ‖x q j‖ ≤ ‖x q0 j0‖ := fun q hq j hj =>
    hmax ⟨q, j⟩ (by simp [S, hq, hj])
  have hM := norm_nonneg (x q0 j0)
  have key : ∀ q1, q1 < P → ∀ j1, j1 < N q1 → blockCls P N k0 k1 q1 j1 = 1 →
      ‖x q0 j0‖ ≤ ‖x q1 j1‖ → ‖x q0 j0‖ = 0 := by
    intro q1 hq1 j1 hj1 h1 hle
    have hst := hc q1 hq1 j1 hj1
    rw [h1] at hst
    obtain ⟨hst, hb⟩ := hst
    have hgap : 0 < (co q1 j1).gap := by
      unfold Row.gap; nlinarith
    have heq : ‖x q1 j1‖ = ‖x q0 j0‖ := le_antisymm (hmax' q1 hq1 j1 hj1) hle
    rw [← heq] at hM ⊢
    have hmax'' : ∀ q, q < P → ∀ j, j < N q → ‖x q j‖ ≤ ‖x q1 j1‖ := by
      intro q hq j hj; rw [heq]; exact hmax' q hq j hj
    exact strict_max hgap (hx q1 hq1 j1 hj1) (prevVal_le hM hN hmax'' hq1 hj1)
      (nextVal_le hM hN hmax'' hq1 hj1)
  -- a lower boundary row passes the maximum on
  have low : ∀ d j1, j1 + d = k0 → ‖x q0 j0‖ ≤ ‖x 0 j1‖ → ‖x q0 j0‖ = 0 := by
    intro d
    induction d with
    | zero =>
      intro j1 h1 h2
      refine key 0 (by omega) j1 (by omega) ?_ h2
      unfold blockCls
      rw [if_neg (by omega), if_neg]
      rintro ⟨e1, e2⟩
      have := hk (by omega)
      omega
    | succ d ih =>
      intro j1 h1 h2
      refine ih (j1 + 1) (by omega) (h2.trans ?_)
      have hl := hc 0 (by omega) j1 (by omega)
      have hcl : blockCls P N k0 k1 0 j1 = 0 := if_pos ⟨rfl, by omega⟩
      rw [hcl] at hl
      obtain ⟨ha, hcb, hb⟩ := hl
      have hrow := hx 0 (by omega) j1 (by omega)
      unfold Row.Holds Row.hom nextVal at hrow
      dsimp only at hrow
      rw [ha, zero_mul, zero_add, if_pos (show j1 + 1 ≠ N 0 by omega)] at hrow
      exact weak_max hcb (norm_pos_iff.1 (by linarith)) hrow
  have up : ∀ d j1, d ≤ k1 → j1 + 1 = N (P - 1) - k1 + d → ‖x q0 j0‖ ≤ ‖x (P - 1) j1‖ →
      ‖x q0 j0‖ = 0 := by
    intro d
    induction d with
    | zero =>
      intro j1 _ h1 h2
      refine key (P - 1) (by omega) j1 (by omega) ?_ h2
      unfold blockCls
      rw [if_neg, if_neg (by omega)]
      rintro ⟨e1, e2⟩
      have := hk (by omega)
      rw [e1] at h1
      omega
    | succ d ih =>
      intro j1 h0 h1 h2
      refine ih (j1 - 1) (by omega) (by omega) (h2.trans ?_)
      have hl := hc (P - 1) (by omega) j1 (by omega)
      have hcl : blockCls P N k0 k1 (P - 1) j1 = 2 := by
        unfold blockCls
        rw [if_neg, if_pos ⟨by omega, by omega⟩]
        rintro ⟨e1, e2⟩
        have := hk (by omega)
        rw [e1] at h1
        omega
      rw [hcl] at hl
      obtain ⟨ha, hcb, hb⟩ := hl
      have hrow := hx (P - 1) (by omega) j1 (by omega)
      unfold Row.Holds Row.hom prevVal at hrow
      dsimp only at hrow
      rw [ha, zero_mul, add_zero, if_pos (show j1 ≠ 0 by omega)] at hrow
      exact weak_max (b := (co (P - 1) j1).b) (c := (co (P - 1) j1).a) hcb
        (norm_pos_iff.1 (by linarith)) (by linear_combination hrow)
  have hzero : ‖x q0 j0‖ = 0 := by
    by_cases h0 : q0 = 0 ∧ j0 < k0
    · obtain ⟨e1, e2⟩ := h0
      refine low (k0 - j0) j0 (by omega) ?_
      rw [e1]
    · by_cases h2 : q0 + 1 = P ∧ N q0 ≤ j0 + k1
      · obtain ⟨e1, e2⟩ := h2
        have e3 : P - 1 = q0 := by omega
        refine up (j0 + 1 + k1 - N q0) j0 (by omega) ?_ ?_
        · rw [e3] at hk1 ⊢; omega
        · rw [e3]
      · exact key q0 hq0 j0 hj0 (by unfold blockCls; rw [if_neg h0, if_neg h2]) le_rfl
  have := hmax' q hq j hj
  rw [hzero] at this
  exact norm_le_zero_iff.1 this

theorem blockCls_le (P : Nat) (N : Nat → Nat) (k0 k1 q j : Nat) : blockCls P N k0 k1 q j ≤ 2 := by
  unfold blockCls; split_ifs <;> omega

include hθ hθ1 hβ in
/-- **C22, several boundary rows.** -/
theorem C22_block_succeeds {P Nsys : Nat} {N : Nat → Nat} {periodic : Bool}
    {co : Nat → Nat → Nat → Row K} {order : Nat → List Nat} (h0 : ∀ v, v = 0 → tiny v)
    (htiny2 : ∀ v, tiny v → ‖v‖ < θ * (θ * β))
    (hP : 1 ≤ P) (hN : ∀ q, q < P → 2 ≤ N q) {k0 k1 : Nat}
    (hd : ∀ s, s < Nsys → BlockDominant θ β P N k0 k1 (fun q j => co q s j)) :
    ∃ x, distSolve tiny P Nsys N periodic co order = .ok x := by
  have hle : θ * β ≤ β := by nlinarith
  have htiny : ∀ v, tiny v → ‖v‖ < θ * β := fun v hv => (htiny2 v hv).trans_le (by nlinarith)
  rcases C22_succeeds tiny (order := order) h0 hP hN
    (fun s hs => block_nonsingular hθ hβ hN (hd s hs)) with h | h
  · exact h
  exfalso
  have hinner : ∀ s, s < Nsys → ∀ q, q < P → ∃ u l, reduce tiny (co q s) (N q) = .ok (u, l)
      ∧ Cls θ (θ * β) (blockCls P N k0 k1 q 0) u
      ∧ Cls θ (θ * β) (blockCls P N k0 k1 q (N q - 1)) l := by
    intro s hs q hq
    obtain ⟨g0, g1, g2, g3⟩ := hd s hs
    refine reduce_cls hθ hθ1 hβ htiny _ (blockCls P N k0 k1 q) _ (hN q hq) (fun m h => g3 q hq m h)
      (fun m h => ?_) (fun m => blockCls_le _ _ _ _ _ _)
    unfold blockCls
    by_cases h1 : q = 0
    · subst h1
      by_cases h2 : P = 1
      · have := g2 h2
        split_ifs <;> omega
      · split_ifs <;> omega
    · split_ifs <;> omega
  unfold distSolve at h
  simp only at h
  split at h
  · rename_i e' c1
    obtain ⟨q, hq, hc⟩ := checkAll_err c1
    obtain ⟨s, hs, hc'⟩ := checkAll_err hc
    obtain ⟨u, l, hr, _⟩ := hinner s hs q hq
    rw [hr] at hc'
    cases hc'
  · split at h
    · rename_i e' c2
      simp only [Except.error.injEq] at h
      subst h
      obtain ⟨p, hp, hc⟩ := checkAll_err c2
      obtain ⟨i, hi, hc'⟩ := checkAll_err hc
      rw [ifcs_eq] at hc'
      set s := sendStart Nsys P p + i with hsdef
      have hs : s < Nsys := by
        have h1 := sendStart_mono Nsys P (show p + 1 ≤ P from hp)
        rw [sendStart_end Nsys P hP, sendStart] at h1
        omega
      set U : Nat → Row K := fun q => (valD (Row.zero, Row.zero) (reduce tiny (co q s) (N q))).1 with hU
      set L : Nat → Row K := fun q => (valD (Row.zero, Row.zero) (reduce tiny (co q s) (N q))).2 with hL
      have hUL : ∀ q, q < P → Cls θ (θ * β) (blockCls P N k0 k1 q 0) (U q)
          ∧ Cls θ (θ * β) (blockCls P N k0 k1 q (N q - 1)) (L q) := by
        intro q hq
        obtain ⟨u, l, hr, g1, g2⟩ := hinner s hs q hq
        simp only [hU, hL, hr, valD]
        exact ⟨g1, g2⟩
      unfold ifaceSolve at hc'
      simp only at hc'
      have hpair : ∃ u l, (if P > 1 then reduce tiny (inter U L) (2 * P)
          else .ok (inter U L 0, inter U L 1)) = .ok (u, l) := by
        by_cases hP1 : P > 1
        · rw [if_pos hP1]
          obtain ⟨g0, g1, _, _⟩ := hd s hs
          obtain ⟨u, l, hr, _⟩ := reduce_cls hθ hθ1 (by positivity : 0 < θ * β) htiny2 (inter U L)
            (fun m => if m % 2 = 0 then blockCls P N k0 k1 (m / 2) 0
              else blockCls P N k0 k1 (m / 2) (N (m / 2) - 1)) (2 * P) (by omega) (by
            intro m h1
            unfold inter
            have hq : m / 2 < P := by omega
            by_cases hm : m % 2 = 0
            · simp only [if_pos hm]
              exact (hUL (m / 2) hq).1
            · simp only [if_neg hm]
              exact (hUL (m / 2) hq).2) (by
            intro m h1
            have hq : m / 2 < P := by omega
            have hn2 := hN _ hq
            by_cases hm : m % 2 = 0
            · have e : (m + 1) / 2 = m / 2 := by omega
              simp only [if_pos hm, if_neg (show ¬ (m + 1) % 2 = 0 by omega), e]
              unfold blockCls
              by_cases hz : m / 2 = 0
              · rw [hz]
                split_ifs <;> omega
              · by_cases hz' : m / 2 + 1 = P
                · have : P - 1 = m / 2 := by omega
                  rw [this] at g1
                  split_ifs <;> omega
                · split_ifs <;> omega
            · have e : (m + 1) / 2 = m / 2 + 1 := by omega
              simp only [if_neg hm, if_pos (show (m + 1) % 2 = 0 by omega), e]
              have g1' : ¬ (m / 2 + 1 + 1 = P ∧ N (m / 2 + 1) ≤ 0 + k1) := fun h => by
                rw [show m / 2 + 1 = P - 1 by omega] at h; omega
              unfold blockCls
              by_cases hz : m / 2 = 0
              · rw [hz] at hn2 g1' ⊢
                rw [if_neg (show ¬ (0 = 0 ∧ N 0 - 1 < k0) by omega),
                  if_neg (show ¬ (0 + 1 = P ∧ N 0 ≤ N 0 - 1 + k1) by omega),
                  if_neg (show ¬ (0 + 1 = 0 ∧ 0 < k0) by omega), if_neg g1']
                omega
              · rw [if_neg (show ¬ (m / 2 = 0 ∧ N (m / 2) - 1 < k0) by omega),
                  if_neg (show ¬ (m / 2 + 1 = P ∧ N (m / 2) ≤ N (m / 2) - 1 + k1) by omega),
                  if_neg (show ¬ (m / 2 + 1 = 0 ∧ 0 < k0) by omega), if_neg g1']
                omega) (by
            intro m
            split_ifs <;> exact blockCls_le _ _ _ _ _ _)
          exact ⟨u, l, hr⟩
        · rw [if_neg hP1]; exact ⟨_, _, rfl⟩
      obtain ⟨u, l, hul⟩ := hpair
      rw [hul] at hc'
      simp only at hc'
      split at hc'
      · rename_i e3 h22
        unfold solve2x2 at h22
        simp only at h22
        split_ifs at h22 <;> cases h22 <;> cases hc'
      · unfold backSolve at hc'
        split_ifs at hc' <;> cases hc'
    · split at h
      · rename_i e' c3
        simp only [Except.error.injEq] at h
        subst h
        obtain ⟨q, hq, hc⟩ := checkAll_err c3
        obtain ⟨s, hs, hc'⟩ := checkAll_err hc
        unfold backSolve at hc'
        split_ifs at hc' <;> cases hc'
      · cases h

/-- Met, e.g., by `-x_(i-1) + 3 x_i - x_(i+1)` with two zero-gradient rows at each end. -/
example : BlockDominant (K := ℝ) (1 / 3) 1 2 (fun _ => 5) 2 2 (fun q j =>
    if q = 0 ∧ j < 2 then ⟨0, 1, -1, 0⟩ else if q + 1 = 2 ∧ 5 ≤ j + 2 then ⟨-1, 1, 0, 0⟩
    else ⟨-1, 3, -1, 7⟩) := by
  refine ⟨by norm_num, by norm_num, by norm_num, ?_⟩
  intro q _ j _
  unfold blockCls
  dsimp only
  split_ifs
  · refine ⟨rfl, ?_, ?_⟩ <;> norm_num
  · refine ⟨rfl, ?_, ?_⟩ <;> norm_num
  · refine ⟨?_, ?_⟩ <;> norm_num

end Verif.Cyclic
