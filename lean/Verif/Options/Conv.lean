import Verif.Options.Props
import Mathlib.Tactic.Linarith
import Mathlib.Data.Rat.Floor

/-!
# C10: what the conversions behind `as<T>` and `withDefault` accept

Specification side: integers, rationals and absolute values only; the model's `round`, `intOfReal`, `boolOfStr` and
`similar` do not occur in the statements.
-/
namespace Verif.Opt
open Verif.Str (Chars)

theorem round_near (x : ℚ) : |x - (Verif.Opt.round x : ℚ)| ≤ 1/2 := by
  unfold Verif.Opt.round
  split
  · have h1 := Int.floor_le (x + 1/2)
    have h2 := Int.lt_floor_add_one (x + 1/2)
    rw [abs_le]; constructor <;> linarith
  · have h1 := Int.le_ceil (x - 1/2)
    have h2 := Int.ceil_lt_add_one (x - 1/2)
    rw [abs_le]; constructor <;> linarith

theorem int_near_unique {x : ℚ} {m n : Int} (hm : |x - m| ≤ 1/2) (hn : |x - n| ≤ 1/1000) : m = n := by
  rw [abs_le] at hm hn
  have h1 : (m : ℚ) < n + 1 := by linarith [hm.1, hm.2, hn.1, hn.2]
  have h2 : (n : ℚ) < m + 1 := by linarith [hm.1, hm.2, hn.1, hn.2]
  have h1' : m < n + 1 := by exact_mod_cast h1
  have h2' : n < m + 1 := by exact_mod_cast h2
  omega

/-- Reading a real (or an expression) as an integer gives the integer within 1/1000 of it, and is refused when there is
none. -/
theorem C10_int_conversion (env : Env) (x : ℚ) (n : Int) :
    convert env .int (.real x) = .ok (.int n) ↔ |x - n| ≤ 1/1000 := by
  simp only [convert, intOfReal]
  have hr := round_near x
  constructor
  · intro h
    split at h
    · simp at h
    · rename_i h'
      simp only [Except.ok.injEq, Val.int.injEq] at h
      rw [← h]; exact not_lt.mp h'
  · intro h
    have := int_near_unique hr h
    rw [this, if_neg (not_lt.mpr h)]

theorem C10_int_refused (env : Env) (x : ℚ) :
    (∃ e, convert env .int (.real x) = .error e) ↔ ∀ n : Int, 1/1000 < |x - n| := by
  constructor
  · rintro ⟨e, he⟩ n
    by_contra hn
    rw [(C10_int_conversion env x n).mpr (not_lt.mp hn)] at he
    simp at he
  · intro h
    cases hc : convert env .int (.real x) with
    | error e => exact ⟨e, rfl⟩
    | ok v =>
      exfalso
      simp only [convert, intOfReal] at hc
      rw [if_pos (h _)] at hc
      simp at hc

example (env : Env) : convert env .int (.real (-29999/10000)) = .ok (.int (-3)) := by
  rw [C10_int_conversion]; norm_num [abs_le]
example (env : Env) : ∃ e, convert env .int (.real (5/2)) = .error e := by
  rw [C10_int_refused]; intro n
  have h : (n : ℚ) ≤ 2 ∨ (3 : ℚ) ≤ n := by
    rcases (by omega : n ≤ 2 ∨ 3 ≤ n) with h | h
    · left; exact_mod_cast h
    · right; exact_mod_cast h
  rw [lt_abs]
  rcases h with h | h
  · left; linarith
  · right; linarith

/-- A string reads as `true` exactly when, ignoring case, it is one of y, yes, t, true, 1; as `false` exactly when it is
one of n, no, f, false, 0; anything else is refused. -/
theorem C10_bool_conversion (env : Env) (s : Chars) :
    (convert env .bool (.str s) = .ok (.bool true) ↔
      String.ofList (s.map Char.toLower) ∈ ["y", "yes", "t", "true", "1"]) ∧
    (convert env .bool (.str s) = .ok (.bool false) ↔
      String.ofList (s.map Char.toLower) ∈ ["n", "no", "f", "false", "0"]) ∧
    ((∃ e, convert env .bool (.str s) = .error e) ↔
      String.ofList (s.map Char.toLower) ∉ ["y", "yes", "t", "true", "1", "n", "no", "f", "false", "0"]) := by
  have key : ∀ (c : Chars) (S : String), S.toList = c → (String.ofList (s.map Char.toLower) = S ↔ s.map Char.toLower = c) := by
    intro c S hS; subst hS
    constructor
    · intro h; rw [← h, String.toList_ofList]
    · intro h; rw [h, String.ofList_toList]
  have k1 := key ['y'] "y" rfl
  have k2 := key ['y','e','s'] "yes" rfl
  have k3 := key ['t'] "t" rfl
  have k4 := key ['t','r','u','e'] "true" rfl
  have k5 := key ['1'] "1" rfl
  have k6 := key ['n'] "n" rfl
  have k7 := key ['n','o'] "no" rfl
  have k8 := key ['f'] "f" rfl
  have k9 := key ['f','a','l','s','e'] "false" rfl
  have k10 := key ['0'] "0" rfl
  simp only [List.mem_cons, List.not_mem_nil, or_false, k1, k2, k3, k4, k5, k6, k7, k8, k9, k10, convert, boolOfStr, lower]
  generalize s.map Char.toLower = l
  by_cases ht : l = ['y'] ∨ l = ['y','e','s'] ∨ l = ['t'] ∨ l = ['t','r','u','e'] ∨ l = ['1']
  · rw [if_pos ht]
    refine ⟨by simp [ht], ?_, ?_⟩
    · simp only [Except.ok.injEq, Val.bool.injEq, Bool.true_eq_false, false_iff]
      rcases ht with rfl | rfl | rfl | rfl | rfl <;> decide
    · simp only [reduceCtorEq, exists_false, false_iff, not_not]
      rcases ht with rfl | rfl | rfl | rfl | rfl <;> decide
  · rw [if_neg ht]
    by_cases hf : l = ['n'] ∨ l = ['n','o'] ∨ l = ['f'] ∨ l = ['f','a','l','s','e'] ∨ l = ['0']
    · rw [if_pos hf]
      refine ⟨by simp [ht], by simp [hf], ?_⟩
      simp only [reduceCtorEq, exists_false, false_iff, not_not]
      rcases hf with rfl | rfl | rfl | rfl | rfl <;> decide
    · rw [if_neg hf]
      refine ⟨by simp [ht], by simp [hf], ?_⟩
      simp only [Except.error.injEq, exists_eq', true_iff]
      rintro (h | h | h | h | h | h | h | h | h | h)
      · exact ht (by simp [h])
      · exact ht (by simp [h])
      · exact ht (by simp [h])
      · exact ht (by simp [h])
      · exact ht (by simp [h])
      · exact hf (by simp [h])
      · exact hf (by simp [h])
      · exact hf (by simp [h])
      · exact hf (by simp [h])
      · exact hf (by simp [h])

example (env : Env) : convert env .bool (.str ['Y','e','S']) = .ok (.bool true) := by
  rw [(C10_bool_conversion env _).1]; decide

/-- Two real defaults for the same option are accepted as the same exactly when they differ by less than 1e-10; two
integer, boolean or string defaults exactly when they are equal. -/
theorem C10_repeated_default_agrees (env : Env) (henv : EnvOk env) (t : Tree) (p : List Chars) (ty : Ty) (v w : Val)
    (hc : Clean p) (hi : Inv t) (hb : ¬ Blocked t p) (hk : ¬ HasKids t p) (hu : t.valueAt p = none)
    (hv : tyOf v = some ty) (hw : tyOf w = some ty) :
    (step env (step env t (.withDefault p ty v)).1 (.withDefault p ty w)).2 = .ok (some v) ↔
      (match v, w with
       | .real a, .real b => |a - b| < 1/10^10
       | _, _ => v = w) := by
  rw [(C10_repeated_default env henv t p ty v w hc hi hb hk hu hv).1]
  have key : (if similar v w then (.ok (some v) : Out (Option Val)) else .error (.exc "Inconsistent default values")) =
      .ok (some v) ↔ similar v w = true := by
    cases h : similar v w <;> simp
  rw [key]
  cases v <;> cases w <;> simp [similar] <;> norm_num

end Verif.Opt
