import Verif.Common
import Mathlib.Data.List.Basic
import Mathlib.Data.List.Induction
/-!
# C37: `editDistance` (`src/sys/utils.cxx:147-186`)

Strings are lists over any alphabet with decidable equality.  `size_type` arithmetic is `Nat`.
-/
namespace Verif.Edit

variable {α : Type} [DecidableEq α]

/-- The `distance` matrix. -/
abbrev Tab := Nat → Nat → Nat

/-- Assignment to one cell. -/
def Tab.set (T : Tab) (i j v : Nat) : Tab := fun i' j' => if i' = i ∧ j' = j then v else T i' j'

/-- utils.cxx:156-162: zeroth column and row. -/
def initTab : Tab := fun i j => if j = 0 then i else if i = 0 then j else 0

/-- utils.cxx:169-182: body of the double loop at `(i, j)`. -/
def cell (a b : List α) (i j : Nat) (T : Tab) : Tab :=
  let cost := if a[i - 1]? = b[j - 1]? then 0 else 1
  let T1 := T.set i j (min (T (i - 1) j + 1) (min (T i (j - 1) + 1) (T (i - 1) (j - 1) + cost)))
  if i > 1 ∧ j > 1 ∧ a[i - 1]? = b[j - 2]? ∧ a[i - 2]? = b[j - 1]? then
    T1.set i j (min (T1 i j) (T1 (i - 2) (j - 2) + 1))
  else T1

/-- utils.cxx:168: inner loop, columns `1 .. n`. -/
def rowLoop (a b : List α) (i : Nat) : Nat → Tab → Tab
  | 0, T => T
  | n + 1, T => cell a b i (n + 1) (rowLoop a b i n T)

/-- utils.cxx:167: outer loop, rows `1 .. m`. -/
def tabLoop (a b : List α) : Nat → Tab → Tab
  | 0, T => T
  | m + 1, T => rowLoop a b (m + 1) b.length (tabLoop a b m T)

/-- utils.cxx:147-186. -/
def editDistance (a b : List α) : Nat := tabLoop a b a.length initTab a.length b.length

/-! ## Specification: cost of an alignment -/

/-- `Align a b n`: `a` can be turned into `b` by keeping characters (free) and by `n` single-character
substitutions, deletions, insertions and swaps of two adjacent characters, no character being edited twice. -/
inductive Align : List α → List α → Nat → Prop
  | nil : Align [] [] 0
  | keep {a b n} (x) : Align a b n → Align (a ++ [x]) (b ++ [x]) n
  | sub {a b n} (x y) : Align a b n → Align (a ++ [x]) (b ++ [y]) (n + 1)
  | del {a b n} (x) : Align a b n → Align (a ++ [x]) b (n + 1)
  | ins {a b n} (y) : Align a b n → Align a (b ++ [y]) (n + 1)
  | swap {a b n} (x y) : Align a b n → Align (a ++ [x] ++ [y]) (b ++ [y] ++ [x]) (n + 1)

/-- `n` is the least cost. -/
def Opt (a b : List α) (n : Nat) : Prop := Align a b n ∧ ∀ m, Align a b m → n ≤ m

omit [DecidableEq α] in
theorem snoc_inj {a b : List α} {x y : α} (h : a ++ [x] = b ++ [y]) : a = b ∧ x = y := by
  have := List.append_inj' h rfl
  exact ⟨this.1, by simpa using this.2⟩

omit [DecidableEq α] in
theorem align_inv {A B : List α} {m : Nat} (h : Align A B m) :
    ∀ a x b y, A = a ++ [x] → B = b ++ [y] →
      (∃ k, Align a b k ∧ ((x = y ∧ m = k) ∨ m = k + 1)) ∨
      (∃ k, Align a B k ∧ m = k + 1) ∨ (∃ k, Align A b k ∧ m = k + 1) ∨
      (∃ a' b' k, a = a' ++ [y] ∧ b = b' ++ [x] ∧ Align a' b' k ∧ m = k + 1) := by
  intro a x b y hA hB
  cases h with
  | nil => simp at hA
  | keep z h =>
    obtain ⟨rfl, rfl⟩ := snoc_inj hA
    obtain ⟨rfl, rfl⟩ := snoc_inj hB
    exact Or.inl ⟨_, h, Or.inl ⟨rfl, rfl⟩⟩
  | sub z w h =>
    obtain ⟨rfl, rfl⟩ := snoc_inj hA
    obtain ⟨rfl, rfl⟩ := snoc_inj hB
    exact Or.inl ⟨_, h, Or.inr rfl⟩
  | del z h =>
    obtain ⟨rfl, rfl⟩ := snoc_inj hA
    exact Or.inr (Or.inl ⟨_, h, rfl⟩)
  | ins z h =>
    obtain ⟨rfl, rfl⟩ := snoc_inj hB
    exact Or.inr (Or.inr (Or.inl ⟨_, h, rfl⟩))
  | swap z w h =>
    obtain ⟨rfl, rfl⟩ := snoc_inj hA
    obtain ⟨rfl, rfl⟩ := snoc_inj hB
    exact Or.inr (Or.inr (Or.inr ⟨_, _, _, rfl, rfl, h, rfl⟩))

omit [DecidableEq α] in
theorem align_len {a b : List α} {n : Nat} (h : Align a b n) :
    a.length ≤ b.length + n ∧ b.length ≤ a.length + n := by
  induction h <;> simp at * <;> omega

omit [DecidableEq α] in
theorem align_del_all : ∀ (a : List α), Align a [] a.length := by
  intro a
  induction a using List.reverseRecOn with
  | nil => exact .nil
  | append_singleton a x ih => simpa using Align.del x ih

omit [DecidableEq α] in
theorem align_symm {a b : List α} {n : Nat} (h : Align a b n) : Align b a n := by
  induction h with
  | nil => exact .nil
  | keep x _ ih => exact .keep x ih
  | sub x y _ ih => exact .sub y x ih
  | del x _ ih => exact .ins x ih
  | ins x _ ih => exact .del x ih
  | swap x y _ ih => exact .swap y x ih

omit [DecidableEq α] in
theorem opt_nil_right (a : List α) : Opt a [] a.length :=
  ⟨align_del_all a, fun m h => by have := (align_len h).1; simpa using this⟩

omit [DecidableEq α] in
theorem opt_symm {a b : List α} {n : Nat} (h : Opt a b n) : Opt b a n :=
  ⟨align_symm h.1, fun m hm => h.2 m (align_symm hm)⟩

omit [DecidableEq α] in
theorem take_snoc (a : List α) (i : Nat) (h : i < a.length) : a.take (i + 1) = a.take i ++ [a[i]] := by
  rw [List.take_succ, List.getElem?_eq_getElem h]; rfl

/-- One cell of the table is optimal if its neighbours are. -/
theorem cell_opt (a b : List α) (i j : Nat) (hi : i < a.length) (hj : j < b.length) (T : Tab)
    (h1 : Opt (a.take i) (b.take (j+1)) (T i (j+1))) (h2 : Opt (a.take (i+1)) (b.take j) (T (i+1) j))
    (h3 : Opt (a.take i) (b.take j) (T i j))
    (h4 : 1 ≤ i → 1 ≤ j → Opt (a.take (i-1)) (b.take (j-1)) (T (i-1) (j-1))) :
    Opt (a.take (i+1)) (b.take (j+1)) (cell a b (i+1) (j+1) T (i+1) (j+1)) := by
  have ea := take_snoc a i hi
  have eb := take_snoc b j hj
  have hsub : ∃ c, c = (if a[i]? = b[j]? then 0 else 1) ∧ Align (a.take (i+1)) (b.take (j+1)) (T i j + c) := by
    refine ⟨_, rfl, ?_⟩
    rw [ea, eb]
    by_cases hc : a[i]? = b[j]?
    · rw [if_pos hc]
      rw [List.getElem?_eq_getElem hi, List.getElem?_eq_getElem hj, Option.some.injEq] at hc
      rw [hc]
      exact .keep _ h3.1
    · rw [if_neg hc]
      exact .sub _ _ h3.1
  have hdel : Align (a.take (i+1)) (b.take (j+1)) (T i (j+1) + 1) := by
    rw [ea]; exact .del _ h1.1
  have hins : Align (a.take (i+1)) (b.take (j+1)) (T (i+1) j + 1) := by
    have := Align.ins (b[j]) h2.1
    rwa [← eb] at this
  obtain ⟨c, hc, hsub⟩ := hsub
  -- lower bound from the first three cases
  have low : ∀ m, Align (a.take (i+1)) (b.take (j+1)) m →
      (min (T i (j+1) + 1) (min (T (i+1) j + 1) (T i j + c)) ≤ m) ∨
      (1 ≤ i ∧ 1 ≤ j ∧ a[i]? = b[j-1]? ∧ a[i-1]? = b[j]? ∧ T (i-1) (j-1) + 1 ≤ m) := by
    intro m hm
    rcases align_inv hm _ _ _ _ ea eb with ⟨k, hk, hk'⟩ | ⟨k, hk, hk'⟩ | ⟨k, hk, hk'⟩ | ⟨a', b', k, ha', hb', hk, hk'⟩
    · left
      have := h3.2 k hk
      rcases hk' with ⟨hxy, rfl⟩ | rfl
      · have : c = 0 := by
          rw [hc, if_pos]
          rw [List.getElem?_eq_getElem hi, List.getElem?_eq_getElem hj, hxy]
        omega
      · have : c ≤ 1 := by rw [hc]; split <;> omega
        omega
    · left; have := h1.2 k hk; omega
    · left; have := h2.2 k hk; omega
    · right
      have hi1 : 1 ≤ i := by
        rcases Nat.eq_zero_or_pos i with h0 | h0
        · subst h0; simp at ha'
        · exact h0
      have hj1 : 1 ≤ j := by
        rcases Nat.eq_zero_or_pos j with h0 | h0
        · subst h0; simp at hb'
        · exact h0
      have ea2 := take_snoc a (i-1) (by omega)
      have eb2 := take_snoc b (j-1) (by omega)
      rw [show i - 1 + 1 = i by omega] at ea2
      rw [show j - 1 + 1 = j by omega] at eb2
      rw [ea2] at ha'
      rw [eb2] at hb'
      obtain ⟨r1, r2⟩ := snoc_inj ha'
      obtain ⟨r3, r4⟩ := snoc_inj hb'
      subst r1; subst r3
      refine ⟨hi1, hj1, ?_, ?_, ?_⟩
      · rw [List.getElem?_eq_getElem hi, List.getElem?_eq_getElem (show j - 1 < b.length by omega), r4]
      · rw [List.getElem?_eq_getElem hj, List.getElem?_eq_getElem (show i - 1 < a.length by omega), r2]
      · have := (h4 hi1 hj1).2 k hk; omega
  have m1 : min (T i (j+1) + 1) (min (T (i+1) j + 1) (T i j + c)) = T i (j+1) + 1 ∨
      min (T i (j+1) + 1) (min (T (i+1) j + 1) (T i j + c)) = T (i+1) j + 1 ∨
      min (T i (j+1) + 1) (min (T (i+1) j + 1) (T i j + c)) = T i j + c := by omega
  have base : Align (a.take (i+1)) (b.take (j+1)) (min (T i (j+1) + 1) (min (T (i+1) j + 1) (T i j + c))) := by
    rcases m1 with h | h | h <;> rw [h] <;> assumption
  unfold cell
  simp only [Nat.add_sub_cancel]
  rw [← hc]
  generalize hM : min (T i (j+1) + 1) (min (T (i+1) j + 1) (T i j + c)) = M at *
  have e2 : i + 1 - 2 = i - 1 := by omega
  have e3 : j + 1 - 2 = j - 1 := by omega
  rw [e2, e3]
  split
  · rename_i hcond
    obtain ⟨c1, c2, c3, c4⟩ := hcond
    have hi1 : 1 ≤ i := by omega
    have hj1 : 1 ≤ j := by omega
    have ne1 : ¬ (i - 1 = i + 1 ∧ j - 1 = j + 1) := by omega
    simp only [Tab.set, and_self, if_true, if_neg ne1]
    have ea2 := take_snoc a (i-1) (by omega)
    have eb2 := take_snoc b (j-1) (by omega)
    rw [show i - 1 + 1 = i by omega] at ea2
    rw [show j - 1 + 1 = j by omega] at eb2
    rw [List.getElem?_eq_getElem hi, List.getElem?_eq_getElem (show j - 1 < b.length by omega), Option.some.injEq] at c3
    rw [List.getElem?_eq_getElem hj, List.getElem?_eq_getElem (show i - 1 < a.length by omega), Option.some.injEq] at c4
    have sw : Align (a.take (i+1)) (b.take (j+1)) (T (i-1) (j-1) + 1) := by
      rw [ea, ea2, eb, eb2, c3, c4]
      exact .swap _ _ (h4 hi1 hj1).1
    constructor
    · rcases Nat.le_total M (T (i-1) (j-1) + 1) with h | h
      · rw [Nat.min_eq_left h]; exact base
      · rw [Nat.min_eq_right h]; exact sw
    · intro m hm
      rcases low m hm with h | ⟨_, _, _, _, h⟩ <;> omega
  · rename_i hcond
    simp only [Tab.set, and_self, if_true]
    refine ⟨base, fun m hm => ?_⟩
    rcases low m hm with h | ⟨q1, q2, q3, q4, _⟩
    · exact h
    · exact absurd ⟨by omega, by omega, q3, q4⟩ hcond

theorem cell_other (a b : List α) (i j : Nat) (T : Tab) (i' j' : Nat) (h : ¬ (i' = i ∧ j' = j)) :
    cell a b i j T i' j' = T i' j' := by
  unfold cell
  split <;> simp [Tab.set, h]

/-- The cells finished when row `m` is complete up to column `n`. -/
def Done (a b : List α) (T : Tab) (m n : Nat) : Prop :=
  ∀ i j, i ≤ a.length → j ≤ b.length → (i < m ∨ (i = m ∧ j ≤ n) ∨ j = 0) → Opt (a.take i) (b.take j) (T i j)

theorem rowLoop_done (a b : List α) (m : Nat) (hm : m < a.length) (T : Tab) (h : Done a b T (m+1) 0) :
    ∀ n, n ≤ b.length → Done a b (rowLoop a b (m+1) n T) (m+1) n := by
  intro n
  induction n with
  | zero => intro _; exact h
  | succ n ih =>
    intro hn
    have hd := ih (by omega)
    intro i j hi hj hc
    simp only [rowLoop]
    by_cases heq : i = m + 1 ∧ j = n + 1
    · obtain ⟨rfl, rfl⟩ := heq
      refine cell_opt a b m n hm (by omega) _ ?_ ?_ ?_ ?_
      · exact hd m (n+1) (by omega) hj (by omega)
      · exact hd (m+1) n hi (by omega) (by omega)
      · exact hd m n (by omega) (by omega) (by omega)
      · intro h1 h2; exact hd (m-1) (n-1) (by omega) (by omega) (by omega)
    · rw [cell_other _ _ _ _ _ _ _ heq]
      exact hd i j hi hj (by omega)

theorem tabLoop_done (a b : List α) : ∀ m, m ≤ a.length → Done a b (tabLoop a b m initTab) m b.length := by
  intro m
  induction m with
  | zero =>
    intro _ i j hi hj hc
    simp only [tabLoop, initTab]
    by_cases hj0 : j = 0
    · subst hj0
      have := opt_nil_right (a.take i)
      simpa [hi] using this
    · have hi0 : i = 0 := by omega
      subst hi0
      rw [if_neg hj0]
      have := opt_symm (opt_nil_right (b.take j))
      simpa [hj] using this
  | succ m ih =>
    intro hm
    have hd := ih (by omega)
    simp only [tabLoop]
    apply rowLoop_done a b m (by omega)
    · intro i j hi hj hc
      exact hd i j hi hj (by omega)
    · exact Nat.le_refl _

/-- **C37.** The table algorithm computes the least number of edits (insertions, deletions, substitutions, adjacent
transpositions) for every pair of strings. -/
theorem C37_is_minimum (a b : List α) : Opt a b (editDistance a b) := by
  have := tabLoop_done a b a.length (Nat.le_refl _) a.length b.length (Nat.le_refl _) (Nat.le_refl _)
    (Or.inr (Or.inl ⟨rfl, Nat.le_refl _⟩))
  simpa [editDistance] using this

/-- **C37.** Zero exactly for equal strings. -/
theorem C37_zero_iff (a b : List α) : editDistance a b = 0 ↔ a = b := by
  have z : ∀ {a b : List α} {n : Nat}, Align a b n → n = 0 → a = b := by
    intro a b n h
    induction h with
    | nil => intro _; rfl
    | keep x _ ih => intro h; rw [ih h]
    | sub => intro h; omega
    | del => intro h; omega
    | ins => intro h; omega
    | swap => intro h; omega
  have r : ∀ a : List α, Align a a 0 := by
    intro a
    induction a using List.reverseRecOn with
    | nil => exact .nil
    | append_singleton a x ih => exact .keep x ih
  constructor
  · intro h; exact z (C37_is_minimum a b).1 h
  · rintro rfl
    have := (C37_is_minimum a a).2 0 (r a)
    omega

/-- **C37.** Symmetric. -/
theorem C37_symm (a b : List α) : editDistance a b = editDistance b a := by
  have h1 := C37_is_minimum a b
  have h2 := C37_is_minimum b a
  exact Nat.le_antisymm (h1.2 _ (align_symm h2.1)) (h2.2 _ (align_symm h1.1))

/-- **C37.** Between the difference of the lengths and the greater length. -/
theorem C37_bounds (a b : List α) : a.length ≤ b.length + editDistance a b ∧ b.length ≤ a.length + editDistance a b ∧
    editDistance a b ≤ max a.length b.length := by
  obtain ⟨h1, h2⟩ := align_len (C37_is_minimum a b).1
  refine ⟨h1, h2, ?_⟩
  have up : ∀ (n : Nat) (a b : List α), a.length + b.length ≤ n → ∃ k, Align a b k ∧ k ≤ max a.length b.length := by
    intro n
    induction n with
    | zero =>
      intro a b h
      have ha : a = [] := List.length_eq_zero_iff.mp (by omega)
      have hb : b = [] := List.length_eq_zero_iff.mp (by omega)
      subst ha; subst hb
      exact ⟨0, .nil, by simp⟩
    | succ n ih =>
      intro a b h
      rcases List.eq_nil_or_concat a with rfl | ⟨a', x, rfl⟩
      · exact ⟨b.length, align_symm (align_del_all b), by simp⟩
      · rcases List.eq_nil_or_concat b with rfl | ⟨b', y, rfl⟩
        · exact ⟨_, align_del_all _, by simp⟩
        · simp at h
          obtain ⟨k, hk, hk'⟩ := ih a' b' (by omega)
          refine ⟨k + 1, by simpa using Align.sub x y hk, ?_⟩
          simp; omega
  obtain ⟨k, hk, hk'⟩ := up _ a b (Nat.le_refl _)
  have := (C37_is_minimum a b).2 k hk
  omega

example : editDistance "kitten".toList "sitting".toList = 3 ∧ editDistance "flie".toList "file".toList = 1 := by decide

end Verif.Edit
