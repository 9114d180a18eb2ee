import Verif.Options.Ini
/-!
# C47: writing options to an INI file and reading them back

`OptionINI::write` (`src/sys/options/options_ini.cxx:140-155`) prints the tree with the format `"{:uds}"`
(`OptionsFormatterBase::format`, `src/sys/options.cxx:954-1043`).
-/
namespace Verif.Opt
open Verif.Str (Chars trim trimLeft trimRight trimComments)

/-! ## Model -/

/-- What the formatter needs besides the tree: `variantToString` (variant.hxx:154-157) and the string attributes "type" and
"doc" of an option, here looked up by its full name. -/
structure Printer where
  toStr : Val → Chars
  typ : Chars → Option Chars
  doc : Chars → Option Chars

/-- options.hxx:704-712 `name()`: the full name after its last ':'. -/
def baseName (full : Chars) : Chars := (full.reverse.takeWhile (fun c => decide (c ≠ ':'))).reverse

/-- options.cxx:982-1007: the comments after a value. -/
def comments (P : Printer) (d : Data) : List Chars :=
  (if d.used = false then
    [if d.cond then "unused value (marked conditionally used)".toList
     else "unused value (NOT marked conditionally used)".toList] else []) ++
  (match P.typ d.fullName with | some s => ["type: ".toList ++ s] | none => []) ++
  (match P.doc d.fullName with | some s => ["doc: ".toList ++ s] | none => []) ++
  (match d.source with | some s => if s = [] then [] else ["source: ".toList ++ s] | none => [])

/-- `fmt::join(comments, ", ")`. -/
def joinComma : List Chars → Chars
  | [] => []
  | [c] => c
  | c :: cs => c ++ ", ".toList ++ joinComma cs

/-- options.cxx:965-1013: a value, in one line (no line end). -/
def fmtValue (P : Printer) (d : Data) : Chars :=
  baseName d.fullName ++ " = ".toList ++ (if P.toStr d.value = [] then ['"', '"'] else P.toStr d.value) ++
    (if comments P d = [] then [] else "\t\t# ".toList ++ joinComma (comments P d))

/-- options.cxx:1018-1021 `has_child_values`. -/
def Kids.anyValue : Kids → Bool
  | .nil => false
  | .cons _ t r => !t.data.isSection || r.anyValue

/-- options.cxx:1028-1033: the child values. -/
def Kids.fmtValues (P : Printer) : Kids → Chars
  | .nil => []
  | .cons _ t r => (if t.data.isSection then [] else fmtValue P t.data ++ ['\n']) ++ r.fmtValues P

mutual
/-- options.cxx:954-1043: the text of an `Options` object. -/
def Tree.fmt (P : Printer) : Tree → Chars
  | .node d cs =>
    if d.isSection then
      (if d.fullName ≠ [] ∧ cs.anyValue = true then '\n' :: '[' :: (d.fullName ++ [']', '\n']) else []) ++
        cs.fmtValues P ++ cs.fmtSubs P
    else fmtValue P d
/-- options.cxx:1035-1038: the sub-sections. -/
def Kids.fmtSubs (P : Printer) : Kids → Chars
  | .nil => []
  | .cons _ t r => (if t.data.isSection then t.fmt P else []) ++ r.fmtSubs P
end

/-- What repeated `std::getline` reads: the text split at '\n'. -/
def fileLines : Chars → List Chars
  | [] => [[]]
  | c :: cs => if c = '\n' then [] :: fileLines cs
    else match fileLines cs with
      | [] => [[c]]
      | l :: ls => (c :: l) :: ls

/-- options_ini.cxx:140-155 `write`, then options_ini.cxx:58-138 `read` of the same file into an empty tree. -/
def writeRead (P : Printer) (file : Chars) (t : Tree) : Tree × Out Unit := readIni file emptyTree (fileLines (t.fmt P))

/-! ## Specification -/

/-- A name an INI file can hold as key and as section: not empty, no characters with a meaning in INI files, no spaces,
tabs or quotes at the ends. -/
def PlainName (n : Chars) : Prop :=
  n ≠ [] ∧ Trimmed wsq n ∧ ∀ c ∈ n, c ∉ (['=', ':', '[', ']', '#', ';', '\n'] : Chars)

/-- A value an INI file can hold: no comment characters or line ends, no spaces or quotes at the ends, no bracket left
open. -/
def PlainValue (v : Chars) : Prop :=
  Trimmed wsq v ∧ (∀ c ∈ v, c ∉ (['#', ';', '\n'] : Chars)) ∧ openBrackets v ≤ 0

/-- The option at `p` can be written: plain text, and no line ends in its attributes. -/
def PlainOption (P : Printer) (d : Data) : Prop :=
  PlainValue (P.toStr d.value) ∧ (∀ s, d.source = some s → '\n' ∉ s) ∧
    (∀ s, P.typ d.fullName = some s → '\n' ∉ s) ∧ (∀ s, P.doc d.fullName = some s → '\n' ∉ s)

/-! ## Proofs: the text -/

/-- Lines, each followed by a line end. -/
def unlines (ls : List Chars) : Chars := (ls.map (fun l => l ++ ['\n'])).flatten

theorem unlines_append (a b : List Chars) : unlines (a ++ b) = unlines a ++ unlines b := by simp [unlines]

theorem fileLines_line (l r : Chars) (h : '\n' ∉ l) : fileLines (l ++ '\n' :: r) = l :: fileLines r := by
  induction l with
  | nil => simp [fileLines]
  | cons a l ih =>
    simp only [List.mem_cons, not_or] at h
    have ha : ¬ a = '\n' := fun e => h.1 e.symm
    simp only [List.cons_append, fileLines, ha, if_false, ih h.2]

theorem fileLines_unlines : ∀ (ls : List Chars), (∀ l ∈ ls, '\n' ∉ l) → fileLines (unlines ls) = ls ++ [[]]
  | [], _ => rfl
  | l :: ls, h => by
    have : unlines (l :: ls) = l ++ '\n' :: unlines ls := by simp [unlines]
    rw [this, fileLines_line _ _ (h l (by simp)), fileLines_unlines ls (fun x hx => h x (by simp [hx]))]
    rfl

/-- The items written for the child values. -/
def Kids.docValues (P : Printer) : Kids → List (Item × List Chars)
  | .nil => []
  | .cons n t r => (if t.data.isSection then [] else [(.entry n (P.toStr t.data.value), [fmtValue P t.data])]) ++ r.docValues P

mutual
/-- The items written for the section at path `p`. -/
def Tree.doc (P : Printer) (p : List Chars) : Tree → List (Item × List Chars)
  | .node _ cs => (if p ≠ [] ∧ cs.anyValue = true then [(.blank, [[]]), (.section p, ['[' :: (joinPath p ++ [']'])])] else []) ++
      cs.docValues P ++ cs.docSubs P p
def Kids.docSubs (P : Printer) (p : List Chars) : Kids → List (Item × List Chars)
  | .nil => []
  | .cons n t r => (if t.data.isSection then t.doc P (p ++ [n]) else []) ++ r.docSubs P p
end

def docLines (l : List (Item × List Chars)) : List Chars := (l.map (·.2)).flatten

theorem docLines_append (a b : List (Item × List Chars)) : docLines (a ++ b) = docLines a ++ docLines b := by simp [docLines]

theorem fmtValues_doc (P : Printer) : ∀ cs : Kids, cs.fmtValues P = unlines (docLines (cs.docValues P))
  | .nil => rfl
  | .cons n t r => by
    rw [Kids.fmtValues, Kids.docValues, docLines_append, unlines_append, fmtValues_doc P r]
    congr 1
    split <;> simp [unlines, docLines]

/-- Full names along the tree: the node reached by `q` from a node whose path is `p` has the joined path as full name. -/
def NamesFrom (p : List Chars) (t : Tree) : Prop := ∀ q d, t.lookup q = some d → d.fullName = joinPath (p ++ q)

theorem NamesFrom_child {p : List Chars} {d : Data} {cs : Kids} {n : Chars} {c : Tree} (h : NamesFrom p (.node d cs))
    (hf : cs.find n = some c) : NamesFrom (p ++ [n]) c := by
  intro q e he
  have := h (n :: q) e (by rw [lookup_node_cons, hf]; exact he)
  rw [this]; simp

mutual
theorem fmt_doc (P : Printer) : ∀ (t : Tree) (p : List Chars), t.KeysOk → NamesFrom p t → (∀ n ∈ p, n ≠ []) →
    (∀ q d, t.lookup q = some d → Clean q) → t.data.isSection = true →
    t.fmt P = unlines (docLines (t.doc P p))
  | .node d cs, p, hk, hn, hp, hc, hs => by
    have hfull : d.fullName = joinPath p := by simpa using hn [] d (lookup_nil _)
    have hsec : d.isSection = true := hs
    rw [Tree.fmt, Tree.doc, if_pos hsec, docLines_append, docLines_append, unlines_append, unlines_append,
      fmtValues_doc, fmtSubs_doc P cs p d cs hk (fun n c hf => hf) hn hp hc]
    congr 2
    have hj : d.fullName ≠ [] ↔ p ≠ [] := by
      rw [hfull]
      constructor
      · rintro h rfl; exact h rfl
      · intro h e
        have := length_le_joinPath p hp
        rw [e] at this
        cases p with
        | nil => exact h rfl
        | cons a l => simp at this
    by_cases hb : p ≠ [] ∧ cs.anyValue = true
    · rw [if_pos hb, if_pos ⟨hj.2 hb.1, hb.2⟩, hfull]
      simp [unlines, docLines]
    · rw [if_neg hb, if_neg (fun h => hb ⟨hj.1 h.1, h.2⟩)]
      rfl
theorem fmtSubs_doc (P : Printer) : ∀ (cs : Kids) (p : List Chars) (d : Data) (all : Kids), cs.KeysOk →
    (∀ n c, cs.find n = some c → all.find n = some c) → NamesFrom p (.node d all) → (∀ n ∈ p, n ≠ []) →
    (∀ q d', (Tree.node d all).lookup q = some d' → Clean q) →
    cs.fmtSubs P = unlines (docLines (cs.docSubs P p))
  | .nil, _, _, _, _, _, _, _, _ => rfl
  | .cons n t r, p, d, all, hk, hsub, hn, hp, hc => by
    obtain ⟨hk1, hk2, hk3⟩ := hk
    have hf : all.find n = some t := hsub n t (by simp [Kids.find])
    rw [Kids.fmtSubs, Kids.docSubs, docLines_append, unlines_append]
    rw [fmtSubs_doc P r p d all hk3 (fun m c hm => hsub m c (by
      rw [Kids.find]
      rw [if_neg]
      · exact hm
      · rintro rfl; rw [hk1] at hm; cases hm)) hn hp hc]
    congr 1
    by_cases hs : t.data.isSection = true
    · rw [if_pos hs, if_pos hs]
      apply fmt_doc P t (p ++ [n]) hk2 (NamesFrom_child hn hf) ?_ ?_ hs
      · intro m hm
        rcases List.mem_append.1 hm with h | h
        · exact hp m h
        · have e : m = n := by simpa using h
          subst e
          exact hc [m] t.data (by rw [lookup_node_cons, hf]; exact lookup_nil t) m (by simp)
      · intro q e he
        have := hc (n :: q) e (by rw [lookup_node_cons, hf]; exact he)
        intro m hm; exact this m (by simp [hm])
    · rw [if_neg hs, if_neg hs]; rfl
end

end Verif.Opt
