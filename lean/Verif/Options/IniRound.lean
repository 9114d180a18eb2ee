import Verif.Options.IniWrite
/-!
# C47: the round trip through an INI file
-/
namespace Verif.Opt
open Verif.Str (Chars trim trimLeft trimRight trimComments)

/-! ## Specification -/

/-- A tree of options that can be written: it is a section, every option is addressed by plain names which its full name
spells, values have no children and keys are unique (both hold in every tree the API can build), and every value is plain. -/
structure Writable (P : Printer) (t : Tree) : Prop where
  keys : t.KeysOk
  inv : Inv t
  root : t.data.isSection = true
  names : ∀ q d, t.lookup q = some d → d.fullName = joinPath q
  plain : ∀ q d, t.lookup q = some d → ∀ n ∈ q, PlainName n
  value : ∀ q d, t.valueAt q = some d → PlainOption P d

/-! ## The lines spell the items -/

theorem baseName_join : ∀ (p : List Chars) (n : Chars), ':' ∉ n → baseName (joinPath (p ++ [n])) = n := by
  intro p n hn
  have tw : ∀ (l r : Chars), ':' ∉ l → (l ++ ':' :: r).takeWhile (fun c => decide (c ≠ ':')) = l :=
    fun l r h => (takeWhile_sep l r ':' h).1
  have tw' : ∀ (l : Chars), ':' ∉ l → l.takeWhile (fun c => decide (c ≠ ':')) = l := by
    intro l h
    induction l with
    | nil => rfl
    | cons a l ih =>
      simp only [List.mem_cons, not_or] at h
      have ha : ¬ a = ':' := fun e => h.1 e.symm
      simp only [List.takeWhile_cons, ne_eq, ha, not_false_eq_true, decide_true, if_true, ih h.2]
  have hr : ':' ∉ n.reverse := by simpa using hn
  unfold baseName
  have key : ∀ p : List Chars, (joinPath (p ++ [n])) = n ∨ ∃ a, joinPath (p ++ [n]) = a ++ ':' :: n := by
    intro p
    induction p with
    | nil => left; rfl
    | cons m p ih =>
      right
      cases p with
      | nil => exact ⟨m, rfl⟩
      | cons m' p' =>
        rcases ih with h | ⟨a, h⟩
        · refine ⟨m, ?_⟩
          simp only [List.cons_append] at h ⊢
          rw [joinPath_cons, h]
        · refine ⟨m ++ ':' :: a, ?_⟩
          simp only [List.cons_append] at h ⊢
          rw [joinPath_cons, h]
          simp
  rcases key p with h | ⟨a, h⟩
  · rw [h, tw' _ hr, List.reverse_reverse]
  · rw [h]
    have : (a ++ ':' :: n).reverse = n.reverse ++ ':' :: a.reverse := by simp
    rw [this, tw _ _ hr, List.reverse_reverse]

theorem mem_joinComma {x : Char} : ∀ {cs : List Chars}, x ∈ joinComma cs → x = ',' ∨ x = ' ' ∨ ∃ c ∈ cs, x ∈ c
  | [], h => by simp [joinComma] at h
  | [c], h => .inr (.inr ⟨c, by simp, by simpa [joinComma] using h⟩)
  | c :: d :: cs, h => by
    have h' : x ∈ c ++ ", ".toList ++ joinComma (d :: cs) := h
    simp only [List.mem_append] at h'
    rcases h' with (h' | h') | h'
    · exact .inr (.inr ⟨c, by simp, h'⟩)
    · have : x = ',' ∨ x = ' ' := by simpa using h'
      rcases this with h | h
      · exact .inl h
      · exact .inr (.inl h)
    · rcases mem_joinComma h' with h | h | ⟨e, he, hx⟩
      · exact .inl h
      · exact .inr (.inl h)
      · exact .inr (.inr ⟨e, by simp at he ⊢; right; exact he, hx⟩)

theorem comments_no_newline (P : Printer) (d : Data) (h : PlainOption P d) : ∀ c ∈ comments P d, '\n' ∉ c := by
  obtain ⟨-, hs, ht, hd⟩ := h
  intro c hc
  unfold comments at hc
  simp only [List.mem_append] at hc
  rcases hc with ((hc | hc) | hc) | hc
  · split at hc
    · have := List.mem_singleton.1 hc
      rw [this]
      split <;> decide
    · simp at hc
  · cases e : P.typ d.fullName with
    | none => simp [e] at hc
    | some s =>
      have : c = "type: ".toList ++ s := by simpa [e] using hc
      rw [this]
      have := ht s e
      simp [this]
  · cases e : P.doc d.fullName with
    | none => simp [e] at hc
    | some s =>
      have : c = "doc: ".toList ++ s := by simpa [e] using hc
      rw [this]
      have := hd s e
      simp [this]
  · cases e : d.source with
    | none => simp [e] at hc
    | some s =>
      simp only [e] at hc
      split at hc
      · simp at hc
      · have : c = "source: ".toList ++ s := by simpa using hc
        rw [this]
        have := hs s e
        simp [this]

/-- The line written for a value. -/
theorem fmtValue_line (P : Printer) (d : Data) (p : List Chars) (n : Chars) (hn : PlainName n)
    (hf : d.fullName = joinPath (p ++ [n])) (hp : PlainOption P d) :
    '\n' ∉ fmtValue P d ∧ Spells (.entry n (P.toStr d.value)) [fmtValue P d] := by
  obtain ⟨hne, htr, hch⟩ := hn
  have hcol : ':' ∉ n := fun h => hch ':' h (by decide)
  have hb : baseName d.fullName = n := by rw [hf]; exact baseName_join p n hcol
  obtain ⟨⟨hvt, hvc, hvb⟩, -⟩ := id hp
  have hnnl : '\n' ∉ n := fun h => hch '\n' h (by decide)
  have hvnl : '\n' ∉ P.toStr d.value := fun h => hvc '\n' h (by decide)
  constructor
  · unfold fmtValue
    rw [hb]
    simp only [List.mem_append, not_or]
    refine ⟨⟨⟨hnnl, by decide⟩, ?_⟩, ?_⟩
    · split
      · decide
      · exact hvnl
    · split
      · simp
      · simp only [List.mem_append, not_or]
        refine ⟨by decide, ?_⟩
        intro h
        rcases mem_joinComma h with h | h | ⟨c, hc, hx⟩
        · exact absurd h (by decide)
        · exact absurd h (by decide)
        · exact comments_no_newline P d hp c hc hx
  · -- the value as written: quotes for the empty string
    have hwsq : ∀ x ∈ ws, x ∈ wsq := by decide
    let w4 : Chars := if P.toStr d.value = [] then [' ', '"', '"'] else [' ']
    refine ⟨fmtValue P d, [], [' '], w4, P.toStr d.value, rfl, ?_, by decide, ?_, hne, htr, ?_, hcol, ?_, hvt, hvb, rfl⟩
    · refine ⟨[], if comments P d = [] then [] else ['\t', '\t'],
        if comments P d = [] then [] else '#' :: ' ' :: joinComma (comments P d), ?_, by simp, ?_, ?_, ?_, ?_⟩
      · unfold fmtValue
        rw [hb]
        by_cases h1 : P.toStr d.value = [] <;> by_cases h2 : comments P d = [] <;> simp [w4, h1, h2]
      · split
        · simp
        · decide
      · split
        · left; rfl
        · right; exact ⟨_, _, rfl, by decide⟩
      · intro x hx hxc
        have hx' : x ∈ n ∨ x = ' ' ∨ x = '=' ∨ x ∈ w4 ∨ x ∈ P.toStr d.value := by
          simp only [List.mem_append, List.mem_cons, List.not_mem_nil, or_false] at hx
          tauto
        rcases hx' with h | h | h | h | h
        · have : x ∈ (['=', ':', '[', ']', '#', ';', '\n'] : Chars) := by
            have : x = '#' ∨ x = ';' := by simpa [cmtChars] using hxc
            rcases this with rfl | rfl <;> decide
          exact hch x h this
        · subst h; exact absurd hxc (by decide)
        · subst h; exact absurd hxc (by decide)
        · have hw : x = ' ' ∨ x = '"' := by
            by_cases h1 : P.toStr d.value = []
            · simpa [w4, h1] using h
            · left; simpa [w4, h1] using h
          rcases hw with rfl | rfl <;> exact absurd hxc (by decide)
        · have : x ∈ (['#', ';', '\n'] : Chars) := by
            have : x = '#' ∨ x = ';' := by simpa [cmtChars] using hxc
            rcases this with rfl | rfl <;> decide
          exact hvc x h this
      · constructor
        · intro x hx hxw
          cases n with
          | nil => exact hne rfl
          | cons a l =>
            have : x = a := by simpa using hx.symm
            subst this
            exact htr.1 x rfl (hwsq x hxw)
        · intro x hx hxw
          by_cases h1 : P.toStr d.value = []
          · have : x = '"' := by
              simp only [w4, h1, if_true, List.append_nil] at hx
              rw [List.getLast?_append] at hx
              simpa using hx.symm
            subst this
            exact absurd hxw (by decide)
          · have : (P.toStr d.value).getLast? = some x := by
              simp only [w4, h1, if_false] at hx
              cases hv : P.toStr d.value with
              | nil => exact absurd hv h1
              | cons a l =>
                rw [hv] at hx
                have e : n ++ [' '] ++ '=' :: ([' '] ++ a :: l) = (n ++ [' ', '=', ' ']) ++ (a :: l) := by simp
                rw [e, List.getLast?_append] at hx
                cases hg : (a :: l).getLast? with
                | none => simp at hg
                | some y => rw [hg] at hx; simpa using hx
            exact hvt.2 x this (hwsq x hxw)
    · intro x hx
      by_cases h1 : P.toStr d.value = []
      · have : x = ' ' ∨ x = '"' := by simpa [w4, h1] using hx
        rcases this with rfl | rfl <;> decide
      · have : x = ' ' := by simpa [w4, h1] using hx
        subst this; decide
    · exact fun h => hch '=' h (by decide)
    · intro h
      have : '[' ∈ n := List.mem_of_mem_head? h
      exact hch '[' this (by decide)

theorem secName_of_plain {n : Chars} (h : PlainName n) : SecName n := by
  obtain ⟨h1, h2, h3⟩ := h
  have hwsq : ∀ x ∈ ws, x ∈ wsq := by decide
  refine ⟨h1, ⟨fun x hx hw => h2.1 x hx (hwsq x hw), fun x hx hw => h2.2 x hx (hwsq x hw)⟩, ?_, ?_, ?_⟩
  · exact fun h => h3 _ h (by decide)
  · exact fun h => h3 _ h (by decide)
  · exact fun h => h3 _ h (by decide)

/-- The header line. -/
theorem header_line (p : List Chars) (hp : p ≠ []) (h : ∀ n ∈ p, PlainName n) :
    '\n' ∉ '[' :: (joinPath p ++ [']']) ∧ Spells (.section p) ['[' :: (joinPath p ++ [']'])] := by
  have hm : ∀ x, x ∈ joinPath p → x ∉ (['#', ';', '\n'] : Chars) := by
    intro x hx
    rcases mem_joinPath hx with rfl | ⟨n, hn, hxn⟩
    · decide
    · intro hc
      apply (h n hn).2.2 x hxn
      have : x = '#' ∨ x = ';' ∨ x = '\n' := by simpa using hc
      rcases this with rfl | rfl | rfl <;> decide
  constructor
  · intro hn
    have : '\n' ∈ joinPath p := by simpa using hn
    exact hm _ this (by decide)
  · refine ⟨_, rfl, hp, fun n hn => secName_of_plain (h n hn), [], [], [], by simp, by simp, by simp, .inl rfl, ?_, ?_, ?_⟩
    · intro x hx hc
      have : x = '[' ∨ x ∈ joinPath p ∨ x = ']' := by simpa using hx
      rcases this with rfl | h | rfl
      · exact absurd hc (by decide)
      · apply hm x h
        have : x = '#' ∨ x = ';' := by simpa [cmtChars] using hc
        rcases this with rfl | rfl <;> decide
      · exact absurd hc (by decide)
    · intro x hx
      have : x = '[' := by simpa using hx.symm
      subst this; decide
    · intro x hx
      have : x = ']' := by
        rw [List.getLast?_append] at hx
        simpa using hx.symm
      subst this; decide

end Verif.Opt
