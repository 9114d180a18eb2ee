import Verif.Common
import Mathlib.Data.List.Basic
import Mathlib.Data.List.Induction
/-!
# C36: string utilities (`src/sys/utils.cxx:57-143`)

A `std::string` is a list of characters.  `tolower` is an abstract function on characters; the only assumption used
is that it maps no letter to or from a quote character.
-/
namespace Verif.Str

abbrev Chars := List Char

/-- utils.cxx:57-62 `lowercase` (and 65-70 `uppercase` with `toupper`). -/
def mapCase (f : Char → Char) (s : Chars) : Chars := s.map f

/-- utils.cxx:73-88 `lowercasequote`: `quote`/`dquote` are toggled independently. -/
def lowercasequoteLoop (tolower : Char → Char) : Bool → Bool → Chars → Chars
  | _, _, [] => []
  | q, d, c :: cs =>
    if c = '\'' then c :: lowercasequoteLoop tolower (!q) d cs
    else if c = '"' then c :: lowercasequoteLoop tolower q (!d) cs
    else if !q && !d then tolower c :: lowercasequoteLoop tolower q d cs
    else c :: lowercasequoteLoop tolower q d cs

/-- utils.cxx:73-88. -/
def lowercasequote (tolower : Char → Char) (s : Chars) : Chars := lowercasequoteLoop tolower false false s

/-- `std::getline(ss, item, delim)` on the remaining characters: `none` at end of stream, otherwise the item and
what is left after the (removed) delimiter. -/
def getline (delim : Char) (s : Chars) : Option (Chars × Chars) :=
  if s = [] then none
  else some (s.takeWhile (fun c => decide (c ≠ delim)), (s.dropWhile (fun c => decide (c ≠ delim))).tail)

/-- utils.cxx:107-115 `strsplit`: the while loop; fuel = length of the remaining input is always enough. -/
def strsplitLoop (delim : Char) : Nat → Chars → List Chars
  | 0, _ => []
  | n + 1, s => match getline delim s with
    | none => []
    | some (item, rest) => item :: strsplitLoop delim n rest

/-- utils.cxx:107-120. -/
def strsplit (s : Chars) (delim : Char) : List Chars := strsplitLoop delim s.length s

/-- utils.cxx:127-130 `trimRight`: erase after the last character not in `c`. -/
def trimRight (s c : Chars) : Chars := (s.reverse.dropWhile (fun x => decide (x ∈ c))).reverse

/-- utils.cxx:132-135 `trimLeft`: erase before the first character not in `c` (everything if there is none). -/
def trimLeft (s c : Chars) : Chars := s.dropWhile (fun x => decide (x ∈ c))

/-- utils.cxx:123-125 `trim`. -/
def trim (s c : Chars) : Chars := trimLeft (trimRight s c) c

/-- utils.cxx:139-141 `trimComments`: `substr(0, find_first_of(c))`. -/
def trimComments (s c : Chars) : Chars := s.takeWhile (fun x => decide (x ∉ c))

theorem mem_takeWhile_imp {p : Char → Bool} {x : Char} : ∀ {l : Chars}, x ∈ l.takeWhile p → p x = true
  | [], h => by simp at h
  | a :: l, h => by
    by_cases hp : p a = true
    · rw [List.takeWhile_cons_of_pos hp] at h
      rcases List.mem_cons.mp h with rfl | h
      · exact hp
      · exact mem_takeWhile_imp h
    · rw [List.takeWhile_cons_of_neg hp] at h; simp at h

/-! ## strsplit -/

theorem getline_shrinks {delim : Char} {s item rest : Chars} (h : getline delim s = some (item, rest)) :
    rest.length < s.length := by
  unfold getline at h
  split at h
  · cases h
  rename_i hne
  simp only [Option.some.injEq, Prod.mk.injEq] at h
  rw [← h.2, List.length_tail]
  have : (s.dropWhile (fun c => decide (c ≠ delim))).length ≤ s.length := by
    have := (List.dropWhile_sublist (l := s) (p := fun c => decide (c ≠ delim))).length_le
    exact this
  have hpos : 0 < s.length := List.length_pos_iff.mpr hne
  omega

theorem strsplitLoop_fuel (delim : Char) : ∀ (n m : Nat) (s : Chars), s.length ≤ n → s.length ≤ m →
    strsplitLoop delim n s = strsplitLoop delim m s := by
  intro n
  induction n with
  | zero =>
    intro m s h1 h2
    have : s = [] := List.length_eq_zero_iff.mp (by omega)
    subst this
    cases m with
    | zero => rfl
    | succ m => simp [strsplitLoop, getline]
  | succ n ih =>
    intro m s h1 h2
    cases m with
    | zero =>
      have : s = [] := List.length_eq_zero_iff.mp (by omega)
      subst this
      simp [strsplitLoop, getline]
    | succ m =>
      simp only [strsplitLoop]
      cases hg : getline delim s with
      | none => rfl
      | some p =>
        obtain ⟨item, rest⟩ := p
        have := getline_shrinks hg
        simp only
        rw [ih m rest (by omega) (by omega)]

theorem strsplit_nil (delim : Char) : strsplit [] delim = [] := rfl

theorem strsplit_cons (delim : Char) (s : Chars) (h : s ≠ []) :
    strsplit s delim = s.takeWhile (fun c => decide (c ≠ delim)) ::
      strsplit (s.dropWhile (fun c => decide (c ≠ delim))).tail delim := by
  unfold strsplit
  have hpos : 0 < s.length := List.length_pos_iff.mpr h
  obtain ⟨k, hk⟩ : ∃ k, s.length = k + 1 := ⟨s.length - 1, by omega⟩
  rw [hk]
  have hg : getline delim s = some (s.takeWhile (fun c => decide (c ≠ delim)),
      (s.dropWhile (fun c => decide (c ≠ delim))).tail) := by simp [getline, h]
  simp only [strsplitLoop, hg]
  rw [strsplitLoop_fuel delim k _ _ (by have := getline_shrinks hg; omega) (Nat.le_refl _)]

/-- **C36.** Joining the pieces with the delimiter gives the string back, up to one trailing delimiter (a final empty
piece is not reported), and no piece contains the delimiter. -/
theorem C36_split_join (delim : Char) : ∀ (s : Chars),
    (∀ p ∈ strsplit s delim, delim ∉ p) ∧
    (s = List.intercalate [delim] (strsplit s delim) ∨ s = List.intercalate [delim] (strsplit s delim) ++ [delim]) := by
  have main : ∀ (n : Nat) (s : Chars), s.length ≤ n → (∀ p ∈ strsplit s delim, delim ∉ p) ∧
    (s = List.intercalate [delim] (strsplit s delim) ∨ s = List.intercalate [delim] (strsplit s delim) ++ [delim]) := by
    intro n
    induction n with
    | zero =>
      intro s hs
      have : s = [] := List.length_eq_zero_iff.mp (by omega)
      subst this
      simp [strsplit_nil, List.intercalate]
    | succ n ih =>
      intro s hs
      by_cases h : s = []
      · subst h; simp [strsplit_nil, List.intercalate]
      · rw [strsplit_cons delim s h]
        have hsplit := List.takeWhile_append_dropWhile (p := fun c => decide (c ≠ delim)) (l := s)
        have hnot : delim ∉ s.takeWhile (fun c => decide (c ≠ delim)) := by
          intro hm
          have := mem_takeWhile_imp hm
          simp at this
        cases hd : s.dropWhile (fun c => decide (c ≠ delim)) with
        | nil =>
          rw [hd, List.append_nil] at hsplit
          simp only [List.tail_nil, strsplit_nil]
          refine ⟨by intro p hp; simp only [List.mem_singleton] at hp; subst hp; exact hnot, Or.inl ?_⟩
          rw [hsplit]; simp [List.intercalate]
        | cons c rest =>
          have hc : c = delim := by
            have := List.head?_dropWhile_not (fun c => decide (c ≠ delim)) s
            rw [hd] at this
            simpa using this
          subst hc
          rw [hd] at hsplit
          have hlen : rest.length ≤ n := by
            have := congrArg List.length hsplit
            simp at this; omega
          obtain ⟨i1, i2⟩ := ih rest hlen
          simp only [List.tail_cons]
          refine ⟨?_, ?_⟩
          · intro p hp
            rcases List.mem_cons.mp hp with rfl | hp
            · exact hnot
            · exact i1 p hp
          · generalize s.takeWhile _ = w at *
            cases hs' : strsplit rest c with
            | nil =>
              have hr : rest = [] := by
                by_contra hne
                rw [strsplit_cons c rest hne] at hs'
                cases hs'
              subst hr
              right
              rw [← hsplit]
              simp [List.intercalate]
            | cons p ps =>
              rw [hs'] at i2
              have e : List.intercalate [c] (w :: p :: ps) = w ++ [c] ++ List.intercalate [c] (p :: ps) := by
                simp [List.intercalate, List.intersperse]
              rw [e]
              rcases i2 with i2 | i2
              · left; rw [← i2, ← hsplit]; simp
              · right; rw [List.append_assoc, ← i2, ← hsplit]; simp
  exact fun s => main s.length s (Nat.le_refl _)

/-! ## trim -/

/-- **C36.** `trimLeft` removes exactly the longest prefix of separator characters. -/
theorem C36_trimLeft (s c : Chars) : ∃ pre, s = pre ++ trimLeft s c ∧ (∀ x ∈ pre, x ∈ c) ∧
    (∀ x t, trimLeft s c = x :: t → x ∉ c) := by
  refine ⟨s.takeWhile (fun x => decide (x ∈ c)), ?_, ?_, ?_⟩
  · exact (List.takeWhile_append_dropWhile (p := fun x => decide (x ∈ c)) (l := s)).symm
  · intro x hx; simpa using mem_takeWhile_imp hx
  · intro x t h
    have := List.head?_dropWhile_not (fun x => decide (x ∈ c)) s
    unfold trimLeft at h
    rw [h] at this
    simpa using this

/-- **C36.** `trimRight` removes exactly the longest suffix of separator characters. -/
theorem C36_trimRight (s c : Chars) : ∃ suf, s = trimRight s c ++ suf ∧ (∀ x ∈ suf, x ∈ c) ∧
    (∀ x t, trimRight s c = t ++ [x] → x ∉ c) := by
  obtain ⟨pre, h1, h2, h3⟩ := C36_trimLeft s.reverse c
  have e : trimRight s c = (trimLeft s.reverse c).reverse := rfl
  refine ⟨pre.reverse, ?_, by simpa using h2, ?_⟩
  · rw [e, ← List.reverse_append, ← h1, List.reverse_reverse]
  · intro x t h
    rw [e] at h
    have h' : trimLeft s.reverse c = x :: t.reverse := by
      have := congrArg List.reverse h
      simpa using this
    exact h3 x _ h'

/-- **C36.** `trim` removes separators from the two ends only and nothing else; nothing is left to remove. -/
theorem C36_trim (s c : Chars) : ∃ pre suf, s = pre ++ trim s c ++ suf ∧ (∀ x ∈ pre, x ∈ c) ∧ (∀ x ∈ suf, x ∈ c) ∧
    (∀ x t, trim s c = x :: t → x ∉ c) ∧ (∀ x t, trim s c = t ++ [x] → x ∉ c) := by
  obtain ⟨suf, r1, r2, r3⟩ := C36_trimRight s c
  obtain ⟨pre, l1, l2, l3⟩ := C36_trimLeft (trimRight s c) c
  refine ⟨pre, suf, by rw [trim, ← l1, ← r1], l2, r2, l3, ?_⟩
  intro x t h
  rw [trim] at h
  rw [h] at l1
  exact r3 x (pre ++ t) (by rw [l1]; simp)

/-- **C36.** `trim` is idempotent. -/
theorem C36_trim_idempotent (s c : Chars) : trim (trim s c) c = trim s c := by
  obtain ⟨_, _, _, _, _, h1, h2⟩ := C36_trim s c
  have hl : ∀ u : Chars, (∀ x t, u = x :: t → x ∉ c) → trimLeft u c = u := by
    intro u hu
    cases u with
    | nil => rfl
    | cons x t => simp [trimLeft, hu x t rfl]
  have hr : trimRight (trim s c) c = trim s c := by
    unfold trimRight
    have := hl (trim s c).reverse (by
      intro x t h
      exact h2 x t.reverse (by
        have := congrArg List.reverse h
        simpa using this))
    unfold trimLeft at this
    rw [this, List.reverse_reverse]
  rw [trim, hr]
  exact hl _ h1

/-- **C36.** `trimComments` keeps exactly the text before the first comment character. -/
theorem C36_trimComments (s c : Chars) : ∃ suf, s = trimComments s c ++ suf ∧ (∀ x ∈ trimComments s c, x ∉ c) ∧
    (∀ x t, suf = x :: t → x ∈ c) := by
  refine ⟨s.dropWhile (fun x => decide (x ∉ c)), ?_, ?_, ?_⟩
  · exact (List.takeWhile_append_dropWhile (p := fun x => decide (x ∉ c)) (l := s)).symm
  · intro x hx
    have := mem_takeWhile_imp hx
    exact of_decide_eq_true this
  · intro x t h
    have := List.head?_dropWhile_not (fun x => decide (x ∉ c)) s
    rw [h] at this
    by_contra hx
    simp [hx] at this

/-! ## lowercasequote -/

/-- Is position `i` inside a quotation (an odd number of `'` or of `"` before it)? -/
def quoted (s : Chars) (i : Nat) : Bool :=
  (s.take i).count '\'' % 2 == 1 || (s.take i).count '"' % 2 == 1

/-- The character written in place of `c` when `b` says it is quoted. -/
def outc (tolower : Char → Char) (c : Char) (b : Bool) : Char :=
  if c = '\'' ∨ c = '"' ∨ b = true then c else tolower c

theorem lowercasequoteLoop_spec (tolower : Char → Char) : ∀ (s : Chars) (q d : Bool) (i : Nat) (c : Char),
    s[i]? = some c →
    (lowercasequoteLoop tolower q d s)[i]? = some
      (outc tolower c (xor q ((s.take i).count '\'' % 2 == 1) || xor d ((s.take i).count '"' % 2 == 1))) := by
  intro s
  induction s with
  | nil => intro q d i c h; simp at h
  | cons x xs ih =>
    intro q d i c h
    have tog : ∀ (n : Nat) (b : Bool), xor (!b) (n % 2 == 1) = xor b ((n + 1) % 2 == 1) := by
      intro n b
      rcases Nat.mod_two_eq_zero_or_one n with h | h
      · have h' : (n + 1) % 2 = 1 := by omega
        rw [h, h']; cases b <;> rfl
      · have h' : (n + 1) % 2 = 0 := by omega
        rw [h, h']; cases b <;> rfl
    cases i with
    | zero =>
      simp only [List.getElem?_cons_zero, Option.some.injEq] at h
      subst h
      simp only [lowercasequoteLoop]
      by_cases h1 : x = '\''
      · simp [h1, outc]
      · by_cases h2 : x = '"'
        · simp [h2, outc]
        · cases q <;> cases d <;> simp [h1, h2, outc]
    | succ i =>
      simp only [List.getElem?_cons_succ] at h
      simp only [lowercasequoteLoop]
      by_cases h1 : x = '\''
      · subst h1
        have hne : ¬ ('\'' = '"') := by decide
        simp only [if_true, List.getElem?_cons_succ, List.take_succ_cons]
        rw [ih (!q) d i c h]
        rw [List.count_cons_self, List.count_cons_of_ne hne, tog]
      · by_cases h2 : x = '"'
        · subst h2
          simp only [if_neg h1, if_true, List.getElem?_cons_succ, List.take_succ_cons]
          rw [ih q (!d) i c h]
          rw [List.count_cons_self, List.count_cons_of_ne h1, tog]
        · have goalr : ((x :: xs).take (i+1)).count '\'' = (xs.take i).count '\'' ∧
              ((x :: xs).take (i+1)).count '"' = (xs.take i).count '"' := by
            simp only [List.take_succ_cons]
            exact ⟨List.count_cons_of_ne h1, List.count_cons_of_ne h2⟩
          rw [goalr.1, goalr.2, if_neg h1, if_neg h2]
          split
          · rw [List.getElem?_cons_succ]; exact ih q d i c h
          · rw [List.getElem?_cons_succ]; exact ih q d i c h

/-- **C36.** `lowercasequote` changes exactly the unquoted characters, to lower case; quotes and quoted text are left
alone, and the length is kept. -/
theorem C36_lowercasequote (tolower : Char → Char) (s : Chars) (i : Nat) (c : Char) (h : s[i]? = some c) :
    (lowercasequote tolower s)[i]? = some (if c = '\'' ∨ c = '"' ∨ quoted s i = true then c else tolower c) := by
  have := lowercasequoteLoop_spec tolower s false false i c h
  simpa [lowercasequote, quoted, outc] using this

theorem lowercasequoteLoop_length (tolower : Char → Char) : ∀ (s : Chars) (q d : Bool),
    (lowercasequoteLoop tolower q d s).length = s.length := by
  intro s
  induction s with
  | nil => intro q d; rfl
  | cons x xs ih =>
    intro q d
    simp only [lowercasequoteLoop]
    split
    · simp [ih]
    · split
      · simp [ih]
      · split <;> simp [ih]

/-- **C36.** The length is preserved. -/
theorem C36_lowercasequote_length (tolower : Char → Char) (s : Chars) :
    (lowercasequote tolower s).length = s.length := lowercasequoteLoop_length tolower s false false

/-- The two quote kinds are tracked independently, so an apostrophe inside a double-quoted string "opens" a quotation
that outlives it: in `"it's" FOO` the text after the closing quote is not lowered (finding F21). -/
theorem C36_apostrophe_in_string_violated :
    lowercasequote Char.toLower "\"it's\" FOO".toList = "\"it's\" FOO".toList := by decide

example : strsplit "a,b,,c,".toList ',' = ["a".toList, "b".toList, [], "c".toList] ∧
    trim " \t a b ".toList " \t".toList = "a b".toList ∧ trim "   ".toList " ".toList = [] ∧
    trimComments "x = 1 # note".toList "#;".toList = "x = 1 ".toList ∧
    lowercasequote Char.toLower "Foo('Bar')".toList = "foo('Bar')".toList := by decide

end Verif.Str
