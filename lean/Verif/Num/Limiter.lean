import Mathlib.Algebra.Order.Field.Basic
import Mathlib.Algebra.Order.Ring.Abs
import Mathlib.Algebra.Order.Field.Rat
import Mathlib.Tactic.Ring
import Mathlib.Tactic.Linarith
import Mathlib.Tactic.NormNum
import Mathlib.Tactic.Positivity
import Mathlib.Tactic.SplitIfs

/-!
# C28: the slope limiters of the finite volume operators

`include/bout/fv_ops.hxx` L70-165 and the helpers in `include/bout/utils.hxx`.  `BoutReal` is an ordered field.
-/
namespace Verif.Num

variable {K : Type} [Field K] [LinearOrder K] [IsStrictOrderedRing K]

/-- utils.hxx:499-502 `SIGN`. -/
def SIGN (a : K) : K := if a < 0 then -1 else 1

/-- utils.hxx:480-488 `BOUTMIN` of two. -/
def BOUTMIN2 (a b : K) : K := if b < a then b else a

/-- utils.hxx:484-488 `BOUTMIN` of three. -/
def BOUTMIN3 (a b c : K) : K := BOUTMIN2 a (BOUTMIN2 b c)

/-- utils.hxx:468-476 `BOUTMAX` of two. -/
def BOUTMAX2 (a b : K) : K := if b > a then b else a

/-- utils.hxx:511-513 `MINMOD`. -/
def MINMOD (a b : K) : K := 1/2 * (SIGN a + SIGN b) * BOUTMIN2 |a| |b|

/-- A cell-edge method: from the values in the cell and in its lower and upper neighbour to the values on the lower
and upper face (`Stencil1D`: `c`, `m`, `p` to `L`, `R`). -/
structure Edges (K : Type) where
  L : K
  R : K

/-- fv_ops.hxx:84-86 `Upwind`. -/
def upwind (c _m _p : K) : Edges K := ⟨c, c⟩

/-- fv_ops.hxx:91-96 `Fromm`. -/
def fromm (c m p : K) : Edges K := ⟨c - 1/4 * (p - m), c + 1/4 * (p - m)⟩

/-- fv_ops.hxx:123-132 `MinMod::_minmod`. -/
def minmodSlope (a b : K) : K := if a * b ≤ 0 then 0 else if |a| < |b| then a else b

/-- fv_ops.hxx:107-113 `MinMod`. -/
def minMod (c m p : K) : Edges K :=
  let slope := minmodSlope (p - c) (c - m)
  ⟨c - 1/2 * slope, c + 1/2 * slope⟩

/-- fv_ops.hxx:156-164 `MC::minmod`. -/
def mcSlope (a b c : K) : K :=
  if a * b ≤ 0 ∨ a * c ≤ 0 then 0 else SIGN a * BOUTMIN3 |a| |b| |c|

/-- fv_ops.hxx:144-150 `MC`. -/
def mc (c m p : K) : Edges K :=
  let slope := mcSlope (2 * (p - c)) (1/2 * (p - m)) (2 * (c - m))
  ⟨c - 1/2 * slope, c + 1/2 * slope⟩

/-! ## Specification -/

/-- `x` lies between `a` and `b`, in whichever order they are. -/
def Between (x a b : K) : Prop := min a b ≤ x ∧ x ≤ max a b

/-- A slope is limited by `κ` times the differences to both neighbours: it has their common sign, or is zero, and is
no steeper than `κ` times either. -/
def LimitedBy (κ s a b : K) : Prop :=
  (0 ≤ a ∧ 0 ≤ b ∧ 0 ≤ s ∧ s ≤ κ * a ∧ s ≤ κ * b) ∨ (a ≤ 0 ∧ b ≤ 0 ∧ s ≤ 0 ∧ κ * a ≤ s ∧ κ * b ≤ s) ∨ s = 0

omit [IsStrictOrderedRing K] in
theorem BOUTMIN2_eq (a b : K) : BOUTMIN2 a b = min a b := by
  unfold BOUTMIN2
  split_ifs with h
  · rw [min_eq_right h.le]
  · rw [min_eq_left (not_lt.1 h)]

omit [IsStrictOrderedRing K] in
theorem BOUTMIN3_eq (a b c : K) : BOUTMIN3 a b c = min a (min b c) := by
  unfold BOUTMIN3; rw [BOUTMIN2_eq, BOUTMIN2_eq]

omit [IsStrictOrderedRing K] in
/-- **C28.** `BOUTMIN` and `BOUTMAX` are the minimum and the maximum. -/
theorem C28_min_max (a b c : K) :
    BOUTMIN2 a b = min a b ∧ BOUTMIN3 a b c = min a (min b c) ∧ BOUTMAX2 a b = max a b := by
  refine ⟨BOUTMIN2_eq a b, BOUTMIN3_eq a b c, ?_⟩
  unfold BOUTMAX2
  split_ifs with h
  · rw [max_eq_right h.le]
  · rw [max_eq_left (not_lt.1 h)]

/-- The two sign patterns for which a slope is allowed. -/
theorem mul_pos_cases {a b : K} (h : ¬ a * b ≤ 0) : (0 < a ∧ 0 < b) ∨ (a < 0 ∧ b < 0) := by
  push Not at h
  exact mul_pos_iff.1 h

theorem max_neg_neg' (a b : K) : -max a b = min (-a) (-b) := by
  rcases le_total a b with h | h
  · rw [max_eq_right h, min_eq_right (by linarith)]
  · rw [max_eq_left h, min_eq_left (by linarith)]

theorem minmodSlope_spec (a b : K) :
    (a * b ≤ 0 ∧ minmodSlope a b = 0) ∨ (0 < a ∧ 0 < b ∧ minmodSlope a b = min a b) ∨
    (a < 0 ∧ b < 0 ∧ minmodSlope a b = max a b) := by
  unfold minmodSlope
  by_cases h : a * b ≤ 0
  · left; rw [if_pos h]; exact ⟨h, rfl⟩
  · rw [if_neg h]
    rcases mul_pos_cases h with ⟨ha, hb⟩ | ⟨ha, hb⟩
    · right; left
      refine ⟨ha, hb, ?_⟩
      rw [abs_of_pos ha, abs_of_pos hb]
      split_ifs with h1
      · rw [min_eq_left h1.le]
      · rw [min_eq_right (not_lt.1 h1)]
    · right; right
      refine ⟨ha, hb, ?_⟩
      rw [abs_of_neg ha, abs_of_neg hb]
      split_ifs with h1
      · rw [max_eq_left (by linarith)]
      · rw [max_eq_right (by linarith)]

/-- **C28.** The stand-alone `MINMOD` helper agrees with the limiter's. -/
theorem C28_MINMOD_helper (a b : K) : MINMOD a b = minmodSlope a b := by
  unfold MINMOD SIGN
  rw [BOUTMIN2_eq]
  rcases minmodSlope_spec a b with ⟨h, e⟩ | ⟨ha, hb, e⟩ | ⟨ha, hb, e⟩
  · rw [e]
    by_cases ha : a < 0
    · by_cases hb : b < 0
      · exact absurd (mul_pos_of_neg_of_neg ha hb) (not_lt.2 h)
      · rw [if_pos ha, if_neg hb]; ring
    · by_cases hb : b < 0
      · rw [if_neg ha, if_pos hb]; ring
      · push Not at ha hb
        have h0 : a * b = 0 := le_antisymm h (mul_nonneg ha hb)
        rcases mul_eq_zero.1 h0 with rfl | rfl
        · rw [abs_zero, min_eq_left (abs_nonneg b)]; ring
        · rw [abs_zero, min_eq_right (abs_nonneg a)]; ring
  · rw [e, if_neg (not_lt.2 ha.le), if_neg (not_lt.2 hb.le), abs_of_pos ha, abs_of_pos hb]; ring
  · rw [e, if_pos ha, if_pos hb, abs_of_neg ha, abs_of_neg hb, ← max_neg_neg']; ring

theorem mcSlope_spec (d e : K) :
    ((d * e ≤ 0) ∧ mcSlope (2 * d) (1/2 * (d + e)) (2 * e) = 0) ∨
    (0 < d ∧ 0 < e ∧ mcSlope (2 * d) (1/2 * (d + e)) (2 * e) = min (2 * d) (min (1/2 * (d + e)) (2 * e))) ∨
    (d < 0 ∧ e < 0 ∧ mcSlope (2 * d) (1/2 * (d + e)) (2 * e) = max (2 * d) (max (1/2 * (d + e)) (2 * e))) := by
  unfold mcSlope
  by_cases h : d * e ≤ 0
  · left
    refine ⟨h, ?_⟩
    rw [if_pos]
    right
    nlinarith
  · right
    rcases mul_pos_cases h with ⟨hd, he⟩ | ⟨hd, he⟩
    · left
      refine ⟨hd, he, ?_⟩
      have h2 : 0 < 2 * d := by linarith
      have h3 : 0 < 1/2 * (d + e) := by linarith
      have h4 : 0 < 2 * e := by linarith
      rw [if_neg, BOUTMIN3_eq, abs_of_pos h2, abs_of_pos h3, abs_of_pos h4]
      · unfold SIGN; rw [if_neg (not_lt.2 h2.le), one_mul]
      · rintro (h5 | h5)
        · exact absurd (mul_pos h2 h3) (not_lt.2 h5)
        · exact absurd (mul_pos h2 h4) (not_lt.2 h5)
    · right
      refine ⟨hd, he, ?_⟩
      have h2 : 2 * d < 0 := by linarith
      have h3 : 1/2 * (d + e) < 0 := by linarith
      have h4 : 2 * e < 0 := by linarith
      rw [if_neg, BOUTMIN3_eq, abs_of_neg h2, abs_of_neg h3, abs_of_neg h4]
      · unfold SIGN; rw [if_pos h2, ← max_neg_neg', ← max_neg_neg']; ring
      · rintro (h5 | h5)
        · exact absurd (mul_pos_of_neg_of_neg h2 h3) (not_lt.2 h5)
        · exact absurd (mul_pos_of_neg_of_neg h2 h4) (not_lt.2 h5)

theorem minMod_slope (c m p : K) : ∃ s, minMod c m p = ⟨c - 1/2 * s, c + 1/2 * s⟩ ∧ LimitedBy 1 s (p - c) (c - m) := by
  refine ⟨minmodSlope (p - c) (c - m), rfl, ?_⟩
  unfold LimitedBy
  rcases minmodSlope_spec (p - c) (c - m) with ⟨_, e⟩ | ⟨ha, hb, e⟩ | ⟨ha, hb, e⟩
  · exact .inr (.inr e)
  · left
    rw [e, one_mul, one_mul]
    exact ⟨ha.le, hb.le, le_min ha.le hb.le, min_le_left _ _, min_le_right _ _⟩
  · right; left
    rw [e, one_mul, one_mul]
    exact ⟨ha.le, hb.le, max_le ha.le hb.le, le_max_left _ _, le_max_right _ _⟩

theorem mc_slope (c m p : K) : ∃ s, mc c m p = ⟨c - 1/2 * s, c + 1/2 * s⟩ ∧ LimitedBy 2 s (p - c) (c - m) := by
  refine ⟨mcSlope (2 * (p - c)) (1/2 * (p - m)) (2 * (c - m)), rfl, ?_⟩
  have hmid : (1/2 : K) * (p - m) = 1/2 * ((p - c) + (c - m)) := by ring
  rw [hmid]
  unfold LimitedBy
  rcases mcSlope_spec (p - c) (c - m) with ⟨_, e⟩ | ⟨ha, hb, e⟩ | ⟨ha, hb, e⟩
  · exact .inr (.inr e)
  · left
    rw [e]
    refine ⟨ha.le, hb.le, le_min (by linarith) (le_min (by linarith) (by linarith)), min_le_left _ _, ?_⟩
    exact (min_le_right _ _).trans (min_le_right _ _)
  · right; left
    rw [e]
    refine ⟨ha.le, hb.le, max_le (by linarith) (max_le (by linarith) (by linarith)), le_max_left _ _, ?_⟩
    exact (le_max_right _ _).trans (le_max_right _ _)

/-! ## The properties -/

/-- **C28.** Every method reproduces a constant exactly. -/
theorem C28_constants (c : K) :
    upwind c c c = ⟨c, c⟩ ∧ fromm c c c = ⟨c, c⟩ ∧ minMod c c c = ⟨c, c⟩ ∧ mc c c c = ⟨c, c⟩ := by
  refine ⟨rfl, ?_, ?_, ?_⟩
  · simp [fromm]
  · simp [minMod, minmodSlope]
  · simp [mc, mcSlope]

/-- **C28.** Fromm, MinMod and MC reproduce a linear profile exactly: with slope `d` per cell the face values are
`c ∓ d/2`.  (Upwind is first order: it does not.) -/
theorem C28_linear (c d : K) :
    fromm c (c - d) (c + d) = ⟨c - d / 2, c + d / 2⟩ ∧
    minMod c (c - d) (c + d) = ⟨c - d / 2, c + d / 2⟩ ∧
    mc c (c - d) (c + d) = ⟨c - d / 2, c + d / 2⟩ := by
  have e1 : c + d - c = d := by ring
  have e2 : c - (c - d) = d := by ring
  refine ⟨?_, ?_, ?_⟩
  · unfold fromm; congr 1 <;> ring
  · have hs : minmodSlope d d = d := by
      unfold minmodSlope
      rw [if_neg (lt_irrefl |d|)]
      split_ifs with h
      · nlinarith [mul_self_nonneg d, mul_self_eq_zero.1 (le_antisymm h (mul_self_nonneg d))]
      · rfl
    unfold minMod
    simp only
    rw [e1, e2, hs]
    congr 1 <;> ring
  · have hs : mcSlope (2 * d) (1/2 * (d + d)) (2 * d) = d := by
      rcases mcSlope_spec d d with ⟨h, e⟩ | ⟨ha, hb, e⟩ | ⟨ha, hb, e⟩
      · rw [e, mul_self_eq_zero.1 (le_antisymm h (mul_self_nonneg d))]
      · rw [e, min_eq_left (show 1/2 * (d + d) ≤ 2 * d by linarith), min_eq_right (by linarith)]; ring
      · rw [e, max_eq_left (show 2 * d ≤ 1/2 * (d + d) by linarith), max_eq_right (by linarith)]; ring
    unfold mc
    simp only
    rw [e1, e2, show c + d - (c - d) = d + d by ring, hs]
    congr 1 <;> ring

theorem edges_between {κ s c m p : K} (hκ : κ ≤ 2) (h : LimitedBy κ s (p - c) (c - m)) :
    Between (c + 1/2 * s) c p ∧ Between (c - 1/2 * s) m c := by
  unfold Between
  rcases h with ⟨ha, hb, hs, h1, h2⟩ | ⟨ha, hb, hs, h1, h2⟩ | h
  · have h3 : κ * (p - c) ≤ 2 * (p - c) := mul_le_mul_of_nonneg_right hκ ha
    have h4 : κ * (c - m) ≤ 2 * (c - m) := mul_le_mul_of_nonneg_right hκ hb
    rw [min_eq_left (by linarith : c ≤ p), max_eq_right (by linarith : c ≤ p),
      min_eq_left (by linarith : m ≤ c), max_eq_right (by linarith : m ≤ c)]
    refine ⟨⟨by linarith, by linarith⟩, by linarith, by linarith⟩
  · have h3 : 2 * (p - c) ≤ κ * (p - c) := mul_le_mul_of_nonpos_right hκ ha
    have h4 : 2 * (c - m) ≤ κ * (c - m) := mul_le_mul_of_nonpos_right hκ hb
    rw [min_eq_right (by linarith : p ≤ c), max_eq_left (by linarith : p ≤ c),
      min_eq_right (by linarith : c ≤ m), max_eq_left (by linarith : c ≤ m)]
    refine ⟨⟨by linarith, by linarith⟩, by linarith, by linarith⟩
  · rw [h, mul_zero, add_zero, sub_zero]
    exact ⟨⟨min_le_left _ _, le_max_left _ _⟩, min_le_right _ _, le_max_right _ _⟩

/-- **C28.** The limited methods create no new extrema: the value on the upper face lies between the cell and its
upper neighbour, the value on the lower face between the lower neighbour and the cell.  In particular positive data
stay positive. -/
theorem C28_no_new_extrema (c m p : K) :
    (Between (minMod c m p).R c p ∧ Between (minMod c m p).L m c) ∧
    (Between (mc c m p).R c p ∧ Between (mc c m p).L m c) ∧
    (Between (upwind c m p).R c p ∧ Between (upwind c m p).L m c) := by
  refine ⟨?_, ?_, ⟨⟨min_le_left _ _, le_max_left _ _⟩, min_le_right _ _, le_max_right _ _⟩⟩
  · obtain ⟨s, e, h⟩ := minMod_slope c m p
    rw [e]; exact edges_between (by norm_num) h
  · obtain ⟨s, e, h⟩ := mc_slope c m p
    rw [e]; exact edges_between le_rfl h

/-- Fromm's method is not limited. -/
theorem C28_fromm_not_limited : ∃ c m p : ℚ, ¬ Between (fromm c m p).R c p := by
  refine ⟨0, -4, 0, ?_⟩
  unfold Between fromm
  norm_num

/-- **C28.** At a local extremum the limited methods fall back to the cell value. -/
theorem C28_extremum (c m p : K) (h : (p - c) * (c - m) ≤ 0) : minMod c m p = ⟨c, c⟩ ∧ mc c m p = ⟨c, c⟩ := by
  constructor
  · unfold minMod minmodSlope
    simp only [if_pos h, mul_zero, sub_zero, add_zero]
  · have hmid : (1/2 : K) * (p - m) = 1/2 * ((p - c) + (c - m)) := by ring
    unfold mc
    rw [hmid]
    rcases mcSlope_spec (p - c) (c - m) with ⟨_, e⟩ | ⟨ha, hb, _⟩ | ⟨ha, hb, _⟩
    · simp only [e, mul_zero, sub_zero, add_zero]
    · exact absurd (mul_pos ha hb) (not_lt.2 h)
    · exact absurd (mul_pos_of_neg_of_neg ha hb) (not_lt.2 h)

theorem minmodSlope_comm (a b : K) : minmodSlope a b = minmodSlope b a := by
  rcases minmodSlope_spec a b with ⟨h, e⟩ | ⟨ha, hb, e⟩ | ⟨ha, hb, e⟩ <;>
    rcases minmodSlope_spec b a with ⟨h', e'⟩ | ⟨ha', hb', e'⟩ | ⟨ha', hb', e'⟩ <;> rw [e, e']
  · exact absurd (mul_pos hb' ha') (not_lt.2 h)
  · exact absurd (mul_pos_of_neg_of_neg hb' ha') (not_lt.2 h)
  · exact absurd (mul_pos hb ha) (not_lt.2 h')
  · exact min_comm _ _
  · linarith
  · exact absurd (mul_pos_of_neg_of_neg hb ha) (not_lt.2 h')
  · linarith
  · exact max_comm _ _

theorem minmodSlope_neg (a b : K) : minmodSlope (-a) (-b) = -minmodSlope a b := by
  unfold minmodSlope
  rw [neg_mul_neg, abs_neg, abs_neg]
  split_ifs <;> simp

theorem mcSlope_neg (a b c : K) : mcSlope (-a) (-b) (-c) = -mcSlope a b c := by
  unfold mcSlope
  rw [neg_mul_neg, neg_mul_neg, abs_neg, abs_neg, abs_neg]
  by_cases h : a * b ≤ 0 ∨ a * c ≤ 0
  · rw [if_pos h, if_pos h]; simp
  · rw [if_neg h, if_neg h]
    have : SIGN (-a) = -SIGN a := by
      unfold SIGN
      rcases lt_trichotomy a 0 with h0 | h0 | h0
      · rw [if_pos h0, if_neg (by linarith)]; simp
      · exfalso; apply h; left; rw [h0]; simp
      · rw [if_pos (by linarith : -a < 0), if_neg (not_lt.2 h0.le)]
    rw [this]; ring

theorem mcSlope_rev (a b c : K) (hab : (0 < a ∧ 0 < c → 0 < b) ∧ (a < 0 ∧ c < 0 → b < 0)) :
    mcSlope a b c = mcSlope c b a := by
  unfold mcSlope
  by_cases h : a * c ≤ 0
  · rw [if_pos (.inr h), if_pos (.inr (by rwa [mul_comm] at h))]
  · rcases mul_pos_cases h with ⟨ha, hc⟩ | ⟨ha, hc⟩
    · have hb := hab.1 ⟨ha, hc⟩
      rw [if_neg, if_neg, BOUTMIN3_eq, BOUTMIN3_eq]
      · congr 1
        · unfold SIGN; rw [if_neg (not_lt.2 ha.le), if_neg (not_lt.2 hc.le)]
        · rw [min_comm |b| |c|, min_left_comm, min_comm |a| |b|]
      · rintro (h5 | h5)
        · exact absurd (mul_pos hc hb) (not_lt.2 h5)
        · exact absurd (mul_pos hc ha) (not_lt.2 h5)
      · rintro (h5 | h5)
        · exact absurd (mul_pos ha hb) (not_lt.2 h5)
        · exact absurd (mul_pos ha hc) (not_lt.2 h5)
    · have hb := hab.2 ⟨ha, hc⟩
      rw [if_neg, if_neg, BOUTMIN3_eq, BOUTMIN3_eq]
      · congr 1
        · unfold SIGN; rw [if_pos ha, if_pos hc]
        · rw [min_comm |b| |c|, min_left_comm, min_comm |a| |b|]
      · rintro (h5 | h5)
        · exact absurd (mul_pos_of_neg_of_neg hc hb) (not_lt.2 h5)
        · exact absurd (mul_pos_of_neg_of_neg hc ha) (not_lt.2 h5)
      · rintro (h5 | h5)
        · exact absurd (mul_pos_of_neg_of_neg ha hb) (not_lt.2 h5)
        · exact absurd (mul_pos_of_neg_of_neg ha hc) (not_lt.2 h5)

/-- **C28.** Mirror symmetry: reversing the direction of the axis swaps the two faces, for every method. -/
theorem C28_mirror (c m p : K) :
    (upwind c p m = ⟨(upwind c m p).R, (upwind c m p).L⟩) ∧ (fromm c p m = ⟨(fromm c m p).R, (fromm c m p).L⟩) ∧
    (minMod c p m = ⟨(minMod c m p).R, (minMod c m p).L⟩) ∧ (mc c p m = ⟨(mc c m p).R, (mc c m p).L⟩) := by
  refine ⟨rfl, ?_, ?_, ?_⟩
  · unfold fromm; simp only; congr 1 <;> ring
  · unfold minMod
    simp only
    have : minmodSlope (m - c) (c - p) = -minmodSlope (p - c) (c - m) := by
      rw [minmodSlope_comm, show c - p = -(p - c) by ring, show m - c = -(c - m) by ring, minmodSlope_neg]
    rw [this]
    congr 1 <;> ring
  · unfold mc
    simp only
    have : mcSlope (2 * (m - c)) (1/2 * (m - p)) (2 * (c - p)) =
        -mcSlope (2 * (p - c)) (1/2 * (p - m)) (2 * (c - m)) := by
      rw [mcSlope_rev, show 2 * (c - p) = -(2 * (p - c)) by ring, show (1/2 : K) * (m - p) = -(1/2 * (p - m)) by ring,
        show 2 * (m - c) = -(2 * (c - m)) by ring, mcSlope_neg]
      constructor
      · rintro ⟨h1, h2⟩; linarith
      · rintro ⟨h1, h2⟩; linarith
    rw [this]
    congr 1 <;> ring

/-- **C28.** Changing the sign of the data changes the sign of the face values. -/
theorem C28_odd (c m p : K) :
    (minMod (-c) (-m) (-p) = ⟨-(minMod c m p).L, -(minMod c m p).R⟩) ∧
    (mc (-c) (-m) (-p) = ⟨-(mc c m p).L, -(mc c m p).R⟩) ∧
    (fromm (-c) (-m) (-p) = ⟨-(fromm c m p).L, -(fromm c m p).R⟩) := by
  refine ⟨?_, ?_, ?_⟩
  · unfold minMod
    simp only
    rw [show -p - -c = -(p - c) by ring, show -c - -m = -(c - m) by ring, minmodSlope_neg]
    congr 1 <;> ring
  · unfold mc
    simp only
    rw [show 2 * (-p - -c) = -(2 * (p - c)) by ring, show 2 * (-c - -m) = -(2 * (c - m)) by ring,
      show (1/2 : K) * (-p - -m) = -(1/2 * (p - m)) by ring, mcSlope_neg]
    congr 1 <;> ring
  · unfold fromm
    simp only
    congr 1 <;> ring

/-- The largest CFL number for which an upwind step with the given slope bound obeys the maximum principle. -/
theorem upwind_step_between {κ ν c m s s' : K} {a b : K} (hν : 0 ≤ ν) (hκ : 0 ≤ κ) (hκ2 : κ ≤ 2)
    (hcfl : ν * (1 + κ / 2) ≤ 1)
    (h : LimitedBy κ s a (c - m)) (h' : LimitedBy κ s' (c - m) b) :
    Between (c - ν * ((c + 1/2 * s) - (m + 1/2 * s'))) m c := by
  -- the difference of the two face values is `θ (c - m)` with `θ` between 0 and `1 + κ/2`
  have key : (0 ≤ c - m → 0 ≤ (c + 1/2 * s) - (m + 1/2 * s') ∧
        (c + 1/2 * s) - (m + 1/2 * s') ≤ (1 + κ/2) * (c - m)) ∧
      (c - m ≤ 0 → (c + 1/2 * s) - (m + 1/2 * s') ≤ 0 ∧
        (1 + κ/2) * (c - m) ≤ (c + 1/2 * s) - (m + 1/2 * s')) := by
    constructor
    · intro h0
      have hk2 : κ * (c - m) ≤ 2 * (c - m) := mul_le_mul_of_nonneg_right hκ2 h0
      have hk0 : 0 ≤ κ * (c - m) := mul_nonneg hκ h0
      have hs : 0 ≤ s ∧ s ≤ κ * (c - m) := by
        rcases h with ⟨_, _, x, _, y⟩ | ⟨_, x, y, _, z⟩ | x
        · exact ⟨x, y⟩
        · have : c - m = 0 := le_antisymm x h0
          rw [this, mul_zero] at z ⊢
          exact ⟨z, y⟩
        · rw [x]; exact ⟨le_rfl, hk0⟩
      have hs' : 0 ≤ s' ∧ s' ≤ κ * (c - m) := by
        rcases h' with ⟨_, _, x, y, _⟩ | ⟨x, _, y, z, _⟩ | x
        · exact ⟨x, y⟩
        · have : c - m = 0 := le_antisymm x h0
          rw [this, mul_zero] at z ⊢
          exact ⟨z, y⟩
        · rw [x]; exact ⟨le_rfl, hk0⟩
      constructor
      · linarith [hs.1, hs'.2]
      · linarith [hs.2, hs'.1]
    · intro h0
      have hk2 : 2 * (c - m) ≤ κ * (c - m) := mul_le_mul_of_nonpos_right hκ2 h0
      have hk0 : κ * (c - m) ≤ 0 := mul_nonpos_of_nonneg_of_nonpos hκ h0
      have hs : s ≤ 0 ∧ κ * (c - m) ≤ s := by
        rcases h with ⟨_, x, y, _, z⟩ | ⟨_, _, x, _, y⟩ | x
        · have : c - m = 0 := le_antisymm h0 x
          rw [this, mul_zero] at z ⊢
          exact ⟨z, y⟩
        · exact ⟨x, y⟩
        · rw [x]; exact ⟨le_rfl, hk0⟩
      have hs' : s' ≤ 0 ∧ κ * (c - m) ≤ s' := by
        rcases h' with ⟨x, _, y, z, _⟩ | ⟨_, _, x, y, _⟩ | x
        · have : c - m = 0 := le_antisymm h0 x
          rw [this, mul_zero] at z ⊢
          exact ⟨z, y⟩
        · exact ⟨x, y⟩
        · rw [x]; exact ⟨le_rfl, hk0⟩
      constructor
      · linarith [hs.1, hs'.2]
      · linarith [hs.2, hs'.1]
  unfold Between
  generalize (c + 1/2 * s) - (m + 1/2 * s') = d at key
  rcases le_total 0 (c - m) with h0 | h0
  · obtain ⟨k1, k2⟩ := key.1 h0
    rw [min_eq_left (by linarith : m ≤ c), max_eq_right (by linarith : m ≤ c)]
    have h1 : 0 ≤ ν * d := mul_nonneg hν k1
    have h2 : ν * d ≤ ν * ((1 + κ/2) * (c - m)) := mul_le_mul_of_nonneg_left k2 hν
    have h3 : ν * (1 + κ/2) * (c - m) ≤ 1 * (c - m) := mul_le_mul_of_nonneg_right hcfl h0
    constructor
    · rw [← mul_assoc] at h2; linarith
    · linarith
  · obtain ⟨k1, k2⟩ := key.2 h0
    rw [min_eq_right (by linarith : c ≤ m), max_eq_left (by linarith : c ≤ m)]
    have h1 : ν * d ≤ 0 := mul_nonpos_of_nonneg_of_nonpos hν k1
    have h2 : ν * ((1 + κ/2) * (c - m)) ≤ ν * d := mul_le_mul_of_nonneg_left k2 hν
    have h3 : 1 * (c - m) ≤ ν * (1 + κ/2) * (c - m) := mul_le_mul_of_nonpos_right hcfl h0
    constructor
    · linarith
    · rw [← mul_assoc] at h2; linarith

/-- **C28.** Maximum principle.  Advecting the data `u` to the right with the limited face values for one time step
of Courant number `ν` gives in every cell a value between those of the cell and of its upwind neighbour: no new
extremum appears anywhere.  MinMod allows `ν ≤ 2/3`, MC `ν ≤ 1/2`, upwind `ν ≤ 1`. -/
theorem C28_maximum_principle (u : Int → K) (ν : K) (hν : 0 ≤ ν) (j : Int) :
    (ν ≤ 2/3 → Between (u j - ν * ((minMod (u j) (u (j-1)) (u (j+1))).R -
      (minMod (u (j-1)) (u (j-2)) (u j)).R)) (u (j-1)) (u j)) ∧
    (ν ≤ 1/2 → Between (u j - ν * ((mc (u j) (u (j-1)) (u (j+1))).R -
      (mc (u (j-1)) (u (j-2)) (u j)).R)) (u (j-1)) (u j)) ∧
    (ν ≤ 1 → Between (u j - ν * ((upwind (u j) (u (j-1)) (u (j+1))).R -
      (upwind (u (j-1)) (u (j-2)) (u j)).R)) (u (j-1)) (u j)) := by
  refine ⟨fun h => ?_, fun h => ?_, fun h => ?_⟩
  · obtain ⟨s, e, hs⟩ := minMod_slope (u j) (u (j-1)) (u (j+1))
    obtain ⟨s', e', hs'⟩ := minMod_slope (u (j-1)) (u (j-2)) (u j)
    rw [e, e']
    exact upwind_step_between (κ := 1) hν (by norm_num) (by norm_num) (by linarith) hs hs'
  · obtain ⟨s, e, hs⟩ := mc_slope (u j) (u (j-1)) (u (j+1))
    obtain ⟨s', e', hs'⟩ := mc_slope (u (j-1)) (u (j-2)) (u j)
    rw [e, e']
    exact upwind_step_between (κ := 2) hν (by norm_num) (by norm_num) (by linarith) hs hs'
  · have := upwind_step_between (κ := 0) (ν := ν) (c := u j) (m := u (j-1)) (s := 0) (s' := 0) (a := 0) (b := 0)
      hν le_rfl (by norm_num) (by linarith) (.inr (.inr rfl)) (.inr (.inr rfl))
    simpa [upwind] using this

/-- **C28.** With MinMod the reconstructed profile of monotone data is monotone through every face: the value just
below a face never exceeds the value just above it. -/
theorem C28_minmod_monotone (u0 u1 u2 u3 : K) (_h01 : u0 ≤ u1) (h12 : u1 ≤ u2) (_h23 : u2 ≤ u3) :
    (minMod u1 u0 u2).R ≤ (minMod u2 u1 u3).L := by
  obtain ⟨s, e, hs⟩ := minMod_slope u1 u0 u2
  obtain ⟨s', e', hs'⟩ := minMod_slope u2 u1 u3
  rw [e, e']
  have a : s ≤ u2 - u1 := by
    rcases hs with ⟨_, _, _, x, _⟩ | ⟨_, _, x, _, _⟩ | x <;> linarith
  have b : s' ≤ u2 - u1 := by
    rcases hs' with ⟨_, _, _, _, x⟩ | ⟨_, _, x, _, _⟩ | x <;> linarith
  simp only
  linarith

/-- MC does not have that property. -/
theorem C28_mc_overlap : ∃ u0 u1 u2 u3 : ℚ, u0 ≤ u1 ∧ u1 ≤ u2 ∧ u2 ≤ u3 ∧ (mc u2 u1 u3).L < (mc u1 u0 u2).R := by
  refine ⟨-10, 0, 1, 11, by norm_num, by norm_num, by norm_num, ?_⟩
  decide +kernel

/-! ## Concrete cases -/
example : minMod (1 : ℚ) 0 4 = ⟨1/2, 3/2⟩ ∧ mc (1 : ℚ) 0 4 = ⟨0, 2⟩ := by
  constructor <;> (simp only [minMod, mc, Edges.mk.injEq]; decide +kernel)

end Verif.Num
