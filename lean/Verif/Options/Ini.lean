import Verif.Options.Paths
/-!
# C13: reading INI files (`src/sys/options/options_ini.cxx`) and the command line (`src/sys/optionsreader.cxx`)
-/
namespace Verif.Opt
open Verif.Str (Chars trim trimLeft trimRight trimComments)

/-! ## Model: INI -/

/-- utils.hxx:629 default characters of `trim`. -/
def ws : Chars := [' ', '\t', '\r']
/-- utils.hxx:653 comment characters. -/
def cmtChars : Chars := ['#', ';']
/-- options_ini.cxx:195-196: whitespace and double quotes around keys and values. -/
def wsq : Chars := [' ', '\t', '\r', '\n', '"']

/-- options_ini.cxx:174-181 `getNextLine`. -/
def nextLine (l : Chars) : Chars := trim (trimComments l cmtChars) ws

/-- options_ini.cxx:183-205 `parse`. -/
def parseKV (b : Chars) : Out (Chars × Chars) :=
  if '=' ∉ b then .ok (b, ['T', 'R', 'U', 'E'])
  else
    let key := trim (b.takeWhile (fun c => decide (c ≠ '='))) wsq
    let value := trim ((b.dropWhile (fun c => decide (c ≠ '='))).tail) wsq
    if key = [] then .error (.exc "Empty key")
    else if ':' ∈ key then .error (.exc "Key must not contain ':'")
    else .ok (key, value)

/-- options_ini.cxx:101-112 `count_brackets`. -/
def countBrackets (s : Chars) : Int :=
  s.foldl (fun n c => n + (if c = '(' ∨ c = '[' then 1 else 0) - (if c = ')' ∨ c = ']' then 1 else 0)) 0

/-- options_ini.cxx:83-90: the section path of a header whose brackets are already stripped.  Components before a ':'
are trimmed, as is everything after a ':'; a header without ':' is not trimmed.  `fuel` bounds the number of colons. -/
def headerPath : Nat → Chars → List Chars
  | 0, b => [b]
  | fuel + 1, b =>
    if ':' ∈ b then
      trim (b.takeWhile (fun c => decide (c ≠ ':'))) ws ::
        headerPath fuel (trim ((b.dropWhile (fun c => decide (c ≠ ':'))).tail) ws)
    else [b]

/-- options_ini.cxx:67-81: a section header line. -/
def parseHeader (b : Chars) : Out (List Chars) :=
  if ']' ∉ b then .error (.exc "Missing ']'")
  else
    let n := trim b ['[', ']']
    if n = [] then .error (.exc "Missing section name") else .ok (headerPath n.length n)

/-- The state of the read loop: the tree, the current section, and the key, value so far and open-bracket count of an
entry whose brackets are not yet balanced (the inner `while (count > 0)` loop, options_ini.cxx:119-131). -/
structure Reader where
  tree : Tree
  sec : List Chars := []
  pend : Option (Chars × Chars × Int) := none

/-- options_ini.cxx:119-133: continue reading while brackets are open, otherwise `section->set(key, value, filename)`. -/
def finishEntry (file : Chars) (r : Reader) (key value : Chars) (count : Int) : Reader × Out Unit :=
  if count > 0 then ({ r with pend := some (key, value, count) }, .ok ())
  else
    let a := access r.tree (r.sec ++ splitPath key) (assign (.str value) file)
    ({ r with tree := a.1, pend := none }, a.2)

/-- options_ini.cxx:60-137: what one line does. -/
def readLine (file : Chars) (r : Reader) (l : Chars) : Reader × Out Unit :=
  match r.pend with
  | some (key, value, count) =>
    finishEntry file r key (value ++ nextLine l) (count + countBrackets (nextLine l))
  | none =>
    match nextLine l with
    | [] => (r, .ok ())
    | c :: cs =>
      if c = '[' then
        match parseHeader (c :: cs) with
        | .error e => (r, .error e)
        | .ok p =>
          let a := access r.tree p (fun u => (u, .ok ()))
          ({ r with tree := a.1, sec := p }, a.2)
      else
        match parseKV (c :: cs) with
        | .error e => (r, .error e)
        | .ok (key, value) => finishEntry file r key value (countBrackets value)

/-- options_ini.cxx:59-138: the loop over lines; an exception ends it; running out of lines inside an entry throws. -/
def readLines (file : Chars) : Reader → List Chars → Tree × Out Unit
  | r, [] => match r.pend with
    | none => (r.tree, .ok ())
    | some _ => (r.tree, .error (.exc "Unbalanced brackets"))
  | r, l :: ls => match readLine file r l with
    | (r', .ok ()) => readLines file r' ls
    | (r', .error e) => (r'.tree, .error e)

/-- `OptionINI::read` of a file given as its lines (split at '\n'), into `options`. -/
def readIni (file : Chars) (t : Tree) (lines : List Chars) : Tree × Out Unit := readLines file { tree := t } lines

/-! ## Model: command line -/

/-- `_("Command line")`. -/
def cmdSource : Chars := "Command line".toList

/-- optionsreader.cxx:116-122: sub-sections of a key: everything before a ':' verbatim, everything after it trimmed. -/
def cmdPath : Nat → Chars → List Chars
  | 0, k => [k]
  | fuel + 1, k =>
    if ':' ∈ k then
      k.takeWhile (fun c => decide (c ≠ ':')) ::
        cmdPath fuel (trim ((k.dropWhile (fun c => decide (c ≠ ':'))).tail) ws)
    else [k]

/-- optionsreader.cxx:94-131: handling of one assembled buffer. -/
def cmdBuffer (t : Tree) (b : Chars) : Tree × Out Unit :=
  if '=' ∉ b then access t (splitPath b) (assign (.bool true) cmdSource)
  else
    let rest := (b.dropWhile (fun c => decide (c ≠ '='))).tail
    if '=' ∈ rest then (t, .error (.exc "Multiple '='"))
    else
      let key := trim (b.takeWhile (fun c => decide (c ≠ '='))) ws
      let value := trim rest ws
      let path := cmdPath key.length key
      -- the sub-sections are looked up before the test for emptiness
      if path.getLast? = some [] ∨ value = [] then
        let a := access t path.dropLast (fun u => (u, (.ok () : Out Unit)))
        (a.1, match a.2 with
          | .error e => .error e
          | .ok () => .error (.exc "Empty key or value"))
      else access t path (assign (.str value) cmdSource)

/-- optionsreader.cxx:59-133 the loop over `argv[1..]`: strip one leading '-', join with the following arguments when
the '=' is separated by spaces. -/
def cmdLoop (t : Tree) : List Chars → Tree × Out Unit
  | [] => (t, .ok ())
  | arg :: args =>
    if arg = [] then cmdLoop t args
    else
      let b := if arg.head? = some '-' then arg.tail else arg
      if b = [] then (t, .error (.exc "Invalid command line option '-'"))
      else
        match args with
        | [] => cmdBuffer t b
        | a1 :: rest1 =>
          if b.getLast? = some '=' then
            match cmdBuffer t (b ++ a1) with
            | (t', .ok ()) => cmdLoop t' rest1
            | r => r
          else if a1.head? = some '=' then
            match rest1 with
            | [] => cmdBuffer t (b ++ a1)
            | a2 :: rest2 =>
              if a1.tail = [] then
                match cmdBuffer t (b ++ a1 ++ a2) with
                | (t', .ok ()) => cmdLoop t' rest2
                | r => r
              else
                match cmdBuffer t (b ++ a1) with
                | (t', .ok ()) => cmdLoop t' (a2 :: rest2)
                | r => r
          else
            match cmdBuffer t b with
            | (t', .ok ()) => cmdLoop t' (a1 :: rest1)
            | r => r
termination_by l => l.length

/-! ## Specification -/

/-- What a well-formed piece of an INI file says. -/
inductive Item where
  /-- an empty line, or only whitespace and a comment -/
  | blank
  /-- `[a:b:c]` -/
  | section (p : List Chars)
  /-- `key = value`, possibly continued over several lines while brackets are open -/
  | entry (key value : Chars)
  /-- a key alone -/
  | flag (key : Chars)

/-- No leading or trailing character from `c`. -/
def Trimmed (c s : Chars) : Prop := (∀ x, s.head? = some x → x ∉ c) ∧ (∀ x, s.getLast? = some x → x ∉ c)

/-- `l` is `core` with whitespace around it and possibly a comment after it. -/
def LineOf (core l : Chars) : Prop :=
  ∃ w1 w2 cmt, l = w1 ++ core ++ w2 ++ cmt ∧ (∀ x ∈ w1, x ∈ ws) ∧ (∀ x ∈ w2, x ∈ ws) ∧
    (cmt = [] ∨ ∃ c r, cmt = c :: r ∧ c ∈ cmtChars) ∧ (∀ x ∈ core, x ∉ cmtChars) ∧ Trimmed ws core

/-- A section name component. -/
def SecName (n : Chars) : Prop := n ≠ [] ∧ Trimmed ws n ∧ ':' ∉ n ∧ '[' ∉ n ∧ ']' ∉ n

/-- Opening brackets minus closing brackets. -/
def openBrackets (s : Chars) : Int :=
  (s.count '(' : Int) + s.count '[' - s.count ')' - s.count ']'

theorem countBrackets_eq (s : Chars) : countBrackets s = openBrackets s := by
  have gen : ∀ (s : Chars) (n : Int), s.foldl (fun n c => n + (if c = '(' ∨ c = '[' then 1 else 0) -
      (if c = ')' ∨ c = ']' then 1 else 0)) n = n + openBrackets s := by
    intro s
    induction s with
    | nil => intro n; simp [openBrackets]
    | cons c cs ih =>
      intro n
      rw [List.foldl_cons, ih]
      simp only [openBrackets, List.count_cons, beq_iff_eq]
      by_cases h1 : c = '('
      · subst h1; simp; omega
      · by_cases h2 : c = '['
        · subst h2; simp; omega
        · by_cases h3 : c = ')'
          · subst h3; simp; omega
          · by_cases h4 : c = ']'
            · subst h4; simp; omega
            · simp [h1, h2, h3, h4]
  rw [countBrackets, gen]; simp

/-- Continuation lines of a value whose first part has `count` open brackets: brackets stay open until the last line. -/
def Continues : Int → Chars → List Chars → Chars → Prop
  | count, v, [], full => count ≤ 0 ∧ full = v
  | count, v, l :: ls, full => count > 0 ∧ ∃ core, LineOf core l ∧ Continues (count + openBrackets core) (v ++ core) ls full

/-- The lines `ls` spell the item. -/
def Spells : Item → List Chars → Prop
  | .blank, ls => ∃ l, ls = [l] ∧ LineOf [] l
  | .section p, ls => ∃ l, ls = [l] ∧ p ≠ [] ∧ (∀ n ∈ p, SecName n) ∧ LineOf ('[' :: joinPath p ++ [']']) l
  | .entry k v, ls => ∃ l rest w3 w4 v1, ls = l :: rest ∧ LineOf (k ++ w3 ++ '=' :: (w4 ++ v1)) l ∧
      (∀ x ∈ w3, x ∈ wsq) ∧ (∀ x ∈ w4, x ∈ wsq) ∧ k ≠ [] ∧ Trimmed wsq k ∧ '=' ∉ k ∧ ':' ∉ k ∧
      k.head? ≠ some '[' ∧ Trimmed wsq v1 ∧ Continues (openBrackets v1) v1 rest v
  | .flag k, ls => ∃ l, ls = [l] ∧ LineOf k l ∧ k ≠ [] ∧ '=' ∉ k ∧ ':' ∉ k ∧ k.head? ≠ some '['

/-- The meaning of a list of items: each entry is assigned, in order, to the option named by the current section and its
key; a section header only selects (and creates) the section.  The first exception stops. -/
def meaning (file : Chars) (t : Tree) (sec : List Chars) : List Item → Tree × Out Unit
  | [] => (t, .ok ())
  | .blank :: is => meaning file t sec is
  | .section p :: is => match access t p (fun u => (u, (.ok () : Out Unit))) with
    | (t', .ok ()) => meaning file t' p is
    | (t', .error e) => (t', .error e)
  | .entry k v :: is => match access t (sec ++ [k]) (assign (.str v) file) with
    | (t', .ok ()) => meaning file t' sec is
    | (t', .error e) => (t', .error e)
  | .flag k :: is => match access t (sec ++ [k]) (assign (.str ['T', 'R', 'U', 'E']) file) with
    | (t', .ok ()) => meaning file t' sec is
    | (t', .error e) => (t', .error e)

/-! ## Proofs -/

theorem dropWhile_mem_append (c w s : Chars) (hw : ∀ x ∈ w, x ∈ c) (hs : ∀ x, s.head? = some x → x ∉ c) :
    (w ++ s).dropWhile (fun x => decide (x ∈ c)) = s := by
  induction w with
  | nil =>
    cases s with
    | nil => rfl
    | cons a l =>
      have := hs a rfl
      simp [this]
  | cons a w ih =>
    have ha := hw a (by simp)
    simp only [List.cons_append, List.dropWhile_cons, ha, decide_true, if_true]
    exact ih (fun x hx => hw x (by simp [hx]))

theorem trim_core (c w1 core w2 : Chars) (h1 : ∀ x ∈ w1, x ∈ c) (h2 : ∀ x ∈ w2, x ∈ c) (hc : Trimmed c core) :
    trim (w1 ++ core ++ w2) c = core := by
  cases hcore : core with
  | nil =>
    have hall : ∀ x ∈ w1 ++ w2, x ∈ c := by
      intro x hx; rcases List.mem_append.mp hx with h | h; exact h1 x h; exact h2 x h
    simp only [List.append_nil, trim, trimLeft, trimRight]
    have e1 : ((w1 ++ w2).reverse.dropWhile (fun x => decide (x ∈ c))) = [] := by
      have := dropWhile_mem_append c (w1 ++ w2).reverse [] (fun x hx => hall x (List.mem_reverse.mp hx)) (by simp)
      simpa using this
    rw [e1]; rfl
  | cons a l =>
    rw [← hcore]
    have hlast := hc.2
    have hhead := hc.1
    simp only [trim, trimLeft, trimRight]
    have e1 : ((w1 ++ core ++ w2).reverse.dropWhile (fun x => decide (x ∈ c))) = (w1 ++ core).reverse := by
      rw [List.reverse_append (as := w1 ++ core)]
      apply dropWhile_mem_append
      · intro x hx; exact h2 x (by simpa using hx)
      · intro x hx
        apply hlast x
        rw [List.head?_reverse] at hx
        rw [List.getLast?_append] at hx
        rw [hcore] at hx ⊢
        cases hg : (a :: l).getLast? with
        | none => simp at hg
        | some y => rw [hg] at hx; simpa using hx
    rw [e1, List.reverse_reverse]
    exact dropWhile_mem_append c w1 core h1 hhead

theorem trim_self {c s : Chars} (h : Trimmed c s) : trim s c = s := by
  have := trim_core c [] s [] (by simp) (by simp) h
  simpa using this

theorem trimComments_line (s cmt : Chars) (hs : ∀ x ∈ s, x ∉ cmtChars)
    (hc : cmt = [] ∨ ∃ c r, cmt = c :: r ∧ c ∈ cmtChars) : trimComments (s ++ cmt) cmtChars = s := by
  unfold trimComments
  induction s with
  | nil =>
    rcases hc with rfl | ⟨c, r, rfl, hc⟩
    · rfl
    · simp [hc]
  | cons a l ih =>
    have := hs a (by simp)
    simp only [List.cons_append, List.takeWhile_cons, this, not_false_eq_true, decide_true, if_true]
    rw [ih (fun x hx => hs x (by simp [hx]))]

theorem ws_not_cmt : ∀ x ∈ ws, x ∉ cmtChars := by decide

theorem nextLine_of {core l : Chars} (h : LineOf core l) : nextLine l = core := by
  obtain ⟨w1, w2, cmt, rfl, h1, h2, h3, h4, h5⟩ := h
  unfold nextLine
  rw [trimComments_line (w1 ++ core ++ w2) cmt ?_ h3]
  · exact trim_core ws w1 core w2 h1 h2 h5
  · intro x hx
    simp only [List.mem_append] at hx
    rcases hx with (hx | hx) | hx
    · exact ws_not_cmt x (h1 x hx)
    · exact h4 x hx
    · exact ws_not_cmt x (h2 x hx)

theorem takeWhile_sep (s r : Chars) (d : Char) (h : d ∉ s) :
    (s ++ d :: r).takeWhile (fun c => decide (c ≠ d)) = s ∧
    (s ++ d :: r).dropWhile (fun c => decide (c ≠ d)) = d :: r := by
  induction s with
  | nil => simp
  | cons a l ih =>
    simp only [List.mem_cons, not_or] at h
    have ha : ¬ a = d := fun e => h.1 e.symm
    obtain ⟨i1, i2⟩ := ih h.2
    simp only [List.cons_append, List.takeWhile_cons, List.dropWhile_cons, ne_eq, ha, not_false_eq_true, decide_true,
      if_true, i1, i2, true_and]

theorem joinPath_cons (n m : Chars) (ms : List Chars) : joinPath (n :: m :: ms) = n ++ ':' :: joinPath (m :: ms) := rfl

theorem trimmed_join : ∀ (p : List Chars), p ≠ [] → (∀ n ∈ p, n ≠ [] ∧ Trimmed ws n) → joinPath p ≠ [] ∧
    Trimmed ws (joinPath p)
  | [], h, _ => absurd rfl h
  | [n], _, h => by simpa [joinPath] using h n (by simp)
  | n :: m :: ms, _, h => by
    have ih := trimmed_join (m :: ms) (by simp) (fun k hk => h k (by simp [hk]))
    obtain ⟨hn, ht⟩ := h n (by simp)
    rw [joinPath_cons]
    refine ⟨by simp, ?_, ?_⟩
    · intro x hx
      cases n with
      | nil => exact absurd rfl hn
      | cons a l => exact ht.1 x (by simpa using hx)
    · intro x hx
      apply ih.2.2 x
      rw [List.getLast?_append] at hx
      cases hj : joinPath (m :: ms) with
      | nil => exact absurd hj ih.1
      | cons a l =>
        rw [hj] at hx
        simpa [List.getLast?_cons_cons] using hx

theorem headerPath_join : ∀ (fuel : Nat) (p : List Chars), p ≠ [] → (∀ n ∈ p, n ≠ [] ∧ Trimmed ws n ∧ ':' ∉ n) →
    p.length ≤ fuel + 1 → headerPath fuel (joinPath p) = p
  | _, [], h, _, _ => absurd rfl h
  | fuel, [n], _, h, _ => by
    have hc := (h n (by simp)).2.2
    cases fuel <;> simp [headerPath, joinPath, hc]
  | 0, n :: m :: ms, _, _, hl => by simp at hl
  | fuel + 1, n :: m :: ms, _, h, hl => by
    obtain ⟨hn, ht, hc⟩ := h n (by simp)
    rw [joinPath_cons]
    have hmem : ':' ∈ n ++ ':' :: joinPath (m :: ms) := by simp
    obtain ⟨e1, e2⟩ := takeWhile_sep n (joinPath (m :: ms)) ':' hc
    simp only [headerPath, hmem, if_true, e1, e2, List.tail_cons]
    rw [trim_self ht]
    have htj := (trimmed_join (m :: ms) (by simp) (fun k hk =>
      ⟨(h k (by simp [hk])).1, (h k (by simp [hk])).2.1⟩)).2
    rw [trim_self htj, headerPath_join fuel (m :: ms) (by simp) (fun k hk => h k (by simp [hk])) (by simp at hl ⊢; omega)]

theorem mem_joinPath {x : Char} : ∀ {p : List Chars}, x ∈ joinPath p → x = ':' ∨ ∃ n ∈ p, x ∈ n
  | [], h => by simp [joinPath] at h
  | [n], h => .inr ⟨n, by simp, by simpa [joinPath] using h⟩
  | n :: m :: ms, h => by
    rw [joinPath_cons] at h
    simp only [List.mem_append, List.mem_cons] at h
    rcases h with h | h | h
    · exact .inr ⟨n, by simp, h⟩
    · exact .inl h
    · rcases mem_joinPath h with h | ⟨k, hk, hx⟩
      · exact .inl h
      · exact .inr ⟨k, by simp at hk ⊢; right; exact hk, hx⟩

theorem length_le_joinPath : ∀ (p : List Chars), (∀ n ∈ p, n ≠ []) → p.length ≤ (joinPath p).length
  | [], _ => by simp [joinPath]
  | [n], h => by
    have := h n (by simp)
    cases n with
    | nil => exact absurd rfl this
    | cons a l => simp [joinPath]
  | n :: m :: ms, h => by
    have ih := length_le_joinPath (m :: ms) (fun k hk => h k (by simp [hk]))
    rw [joinPath_cons]
    simp only [List.length_append, List.length_cons] at *
    omega

theorem parseHeader_of (p : List Chars) (hp : p ≠ []) (h : ∀ n ∈ p, SecName n) :
    parseHeader ('[' :: joinPath p ++ [']']) = .ok p := by
  have hj := trimmed_join p hp (fun n hn => ⟨(h n hn).1, (h n hn).2.1⟩)
  have hb : Trimmed ['[', ']'] (joinPath p) := by
    have hno : ∀ x ∈ joinPath p, x ∉ (['[', ']'] : Chars) := by
      intro x hx
      rcases mem_joinPath hx with rfl | ⟨n, hn, hxn⟩
      · decide
      · obtain ⟨_, _, _, k1, k2⟩ := h n hn
        simp only [List.mem_cons, List.not_mem_nil, or_false, not_or]
        exact ⟨by rintro rfl; exact k1 hxn, by rintro rfl; exact k2 hxn⟩
    constructor
    · intro x hx; exact hno x (List.mem_of_mem_head? hx)
    · intro x hx; exact hno x (List.mem_of_getLast? hx)
  have ht : trim ('[' :: joinPath p ++ [']']) ['[', ']'] = joinPath p := by
    have := trim_core ['[', ']'] ['['] (joinPath p) [']'] (by simp) (by simp) hb
    simpa using this
  unfold parseHeader
  have hmem : ']' ∈ '[' :: joinPath p ++ [']'] := by simp
  simp only [hmem, not_true_eq_false, if_false, ht, hj.1]
  congr 1
  apply headerPath_join _ p hp (fun n hn => ⟨(h n hn).1, (h n hn).2.1, (h n hn).2.2.1⟩)
  have := length_le_joinPath p (fun n hn => (h n hn).1)
  omega

theorem parseKV_of (k w3 w4 v : Chars) (h3 : ∀ x ∈ w3, x ∈ wsq) (h4 : ∀ x ∈ w4, x ∈ wsq) (hk : k ≠ [])
    (hkt : Trimmed wsq k) (hke : '=' ∉ k) (hkc : ':' ∉ k) (hv : Trimmed wsq v) :
    parseKV (k ++ w3 ++ '=' :: (w4 ++ v)) = .ok (k, v) := by
  have hne : '=' ∉ k ++ w3 := by
    simp only [List.mem_append, not_or]
    exact ⟨hke, fun h => absurd (h3 _ h) (by decide)⟩
  obtain ⟨e1, e2⟩ := takeWhile_sep (k ++ w3) (w4 ++ v) '=' hne
  have hmem : '=' ∈ k ++ w3 ++ '=' :: (w4 ++ v) := by simp
  have t1 : trim (k ++ w3) wsq = k := by
    have := trim_core wsq [] k w3 (by simp) h3 hkt
    simpa using this
  have t2 : trim (w4 ++ v) wsq = v := by
    have := trim_core wsq w4 v [] h4 (by simp) hv
    simpa using this
  unfold parseKV
  simp only [hmem, not_true_eq_false, if_false, e1, e2, List.tail_cons, t1, t2, hk, hkc]

theorem readLines_continue (file : Chars) (t : Tree) (sec : List Chars) (k : Chars) (hkc : ':' ∉ k) (more : List Chars) :
    ∀ (rest : List Chars) (count : Int) (v full : Chars), Continues count v rest full →
    (match finishEntry file { tree := t, sec := sec } k v count with
     | (r', .ok ()) => readLines file r' (rest ++ more)
     | (r', .error e) => (r'.tree, .error e)) =
    (match access t (sec ++ [k]) (assign (.str full) file) with
     | (t', .ok ()) => readLines file { tree := t', sec := sec } more
     | (t', .error e) => (t', .error e))
  | [], count, v, full, h => by
    obtain ⟨hc, rfl⟩ := h
    have hc' : ¬ count > 0 := by omega
    simp only [finishEntry, hc', if_false, splitPath_no_colon k hkc, List.nil_append]
    rcases access t (sec ++ [k]) (assign (.str full) file) with ⟨t', o⟩
    cases o with
    | ok u => rfl
    | error e => rfl
  | l :: ls, count, v, full, h => by
    obtain ⟨hc, core, hl, hcont⟩ := h
    have ih := readLines_continue file t sec k hkc more ls _ _ _ hcont
    rw [← ih]
    simp only [finishEntry, hc, if_true, List.cons_append, readLines, readLine, nextLine_of hl, countBrackets_eq]

/-- Reading the lines of any sequence of well-formed items does exactly what the items say: every entry is assigned, in
order, to the option named by its section and key (comments stripped, values continued over lines while brackets are
open, bare keys set to TRUE), with the file name as source. -/
theorem C13_ini (file : Chars) : ∀ (items : List (Item × List Chars)) (t : Tree) (sec : List Chars),
    (∀ i ∈ items, Spells i.1 i.2) →
    readLines file { tree := t, sec := sec } (items.map (·.2)).flatten = meaning file t sec (items.map (·.1))
  | [], t, sec, _ => rfl
  | (it, ls) :: items, t, sec, h => by
    have ih := fun t sec => C13_ini file items t sec (fun i hi => h i (by simp [hi]))
    have hs := h (it, ls) (by simp)
    simp only [List.map_cons, List.flatten_cons]
    cases it with
    | blank =>
      obtain ⟨l, rfl, hl⟩ := hs
      simp only [List.cons_append, List.nil_append, readLines, readLine, nextLine_of hl, meaning]
      exact ih t sec
    | «section» p =>
      obtain ⟨l, rfl, hp, hn, hl⟩ := hs
      simp only [List.cons_append, List.nil_append, readLines, readLine, nextLine_of hl, meaning, if_true]
      have := parseHeader_of p hp hn
      rw [List.cons_append] at this
      rw [this]
      simp only
      rcases access t p (fun u => (u, (.ok () : Out Unit))) with ⟨t', o⟩
      cases o with
      | ok u => exact ih t' p
      | error e => rfl
    | entry k v =>
      obtain ⟨l, rest, w3, w4, v1, rfl, hl, h3, h4, hk, hkt, hke, hkc, hkh, hv1, hcont⟩ := hs
      have hkv := parseKV_of k w3 w4 v1 h3 h4 hk hkt hke hkc hv1
      have hcont' := readLines_continue file t sec k hkc (items.map (·.2)).flatten rest _ _ _ hcont
      simp only [List.cons_append, readLines, readLine, nextLine_of hl, meaning]
      cases k with
      | nil => exact absurd rfl hk
      | cons a kk =>
        have ha : ¬ a = '[' := by rintro rfl; simp at hkh
        simp only [List.cons_append] at hkv ⊢
        simp only [ha, if_false, hkv, countBrackets_eq]
        rw [hcont']
        rcases access t (sec ++ [a :: kk]) (assign (.str v) file) with ⟨t', o⟩
        cases o with
        | ok u => exact ih t' sec
        | error e => rfl
    | flag k =>
      obtain ⟨l, rfl, hl, hk, hke, hkc, hkh⟩ := hs
      simp only [List.cons_append, List.nil_append, readLines, readLine, nextLine_of hl, meaning]
      cases k with
      | nil => exact absurd rfl hk
      | cons a kk =>
        have ha : ¬ a = '[' := by rintro rfl; simp at hkh
        have hb : ¬ countBrackets (['T', 'R', 'U', 'E'] : Chars) > 0 := by decide
        simp only [ha, if_false, parseKV, hke, not_false_eq_true, if_true, finishEntry, hb, splitPath_no_colon _ hkc]
        rcases access t (sec ++ [a :: kk]) (assign (.str ['T', 'R', 'U', 'E']) file) with ⟨t', o⟩
        cases o with
        | ok u => exact ih t' sec
        | error e => rfl

/-- Malformed lines are rejected and store nothing: a header without ']' or without a name, an entry without a key, a
key containing ':' . -/
theorem C13_malformed_rejected_partial (file : Chars) (r : Reader) (hp : r.pend = none) (core l : Chars) (hl : LineOf core l)
    (hbad : (core.head? = some '[' ∧ ']' ∉ core) ∨
            (core.head? = some '[' ∧ ∀ x ∈ core, x ∈ (['[', ']'] : Chars)) ∨
            (core.head? ≠ some '[' ∧ '=' ∈ core ∧
              (trim (core.takeWhile (fun c => decide (c ≠ '='))) wsq = [] ∨
               ':' ∈ trim (core.takeWhile (fun c => decide (c ≠ '='))) wsq))) :
    (readLine file r l).2.isOk = false ∧ (readLine file r l).1.tree = r.tree := by
  simp only [readLine, hp, nextLine_of hl]
  cases core with
  | nil => simp at hbad
  | cons a cs =>
    rcases hbad with ⟨h1, h2⟩ | ⟨h1, h2⟩ | ⟨h1, h2, h3⟩
    · have ha : a = '[' := by simpa using h1
      simp only [ha, if_true]
      rw [ha] at h2
      simp [parseHeader, h2, Out.isOk]
    · have ha : a = '[' := by simpa using h1
      simp only [ha, if_true]
      rw [ha] at h2
      have ht : trim ('[' :: cs) ['[', ']'] = [] := by
        have := trim_core ['[', ']'] ('[' :: cs) [] [] h2 (by simp) (by simp [Trimmed])
        simpa using this
      by_cases hm : ']' ∈ '[' :: cs <;> simp [parseHeader, hm, ht, Out.isOk]
    · have ha : ¬ a = '[' := by simpa using h1
      simp only [ha, if_false]
      have : ∃ e, parseKV (a :: cs) = .error e := by
        unfold parseKV
        simp only [h2, not_true_eq_false, if_false]
        rcases h3 with h3 | h3
        · exact ⟨_, by rw [if_pos h3]⟩
        · by_cases hk : trim ((a :: cs).takeWhile (fun c => decide (c ≠ '='))) wsq = []
          · exact ⟨_, by rw [if_pos hk]⟩
          · exact ⟨_, by rw [if_neg hk, if_pos h3]⟩
      obtain ⟨e, he⟩ := this
      simp [he, Out.isOk]

/-- Running out of lines while brackets are open is rejected. -/
theorem C13_unbalanced_rejected (file : Chars) (r : Reader) (h : r.pend ≠ none) :
    (readLines file r []).2.isOk = false := by
  unfold readLines
  cases hp : r.pend with
  | none => exact absurd hp h
  | some x => rfl

/-- Violation: text after a section header is not rejected; the line `[a] b` selects a section literally called
`a] b`. -/
theorem C13_junk_after_header_violated :
    parseHeader "[a] b".toList = .ok ["a] b".toList] := by decide

/-- Violation: spaces inside the brackets are kept for a simple section but dropped for a nested one. -/
theorem C13_header_spaces_violated :
    parseHeader "[ a ]".toList = .ok [" a ".toList] ∧
    parseHeader "[ a : b ]".toList = .ok ["a".toList, "b".toList] := by decide

/-- Violation: the check that a key contains no ':' is skipped for bare keys: the line `a:b` sets option `b` of
sub-section `a`. -/
theorem C13_bare_colon_violated :
    ((readIni ['f'] emptyTree ["a:b".toList]).1.valueAt [['a'], ['b']]).map (·.value) = some (.str "TRUE".toList) := by
  decide

/-! ### Command line -/

/-- One setting on the command line. -/
inductive CmdItem where
  | setting (p : List Chars) (v : Chars)
  | flag (p : List Chars)

/-- A name usable on the command line. -/
def CmdName (n : Chars) : Prop := n ≠ [] ∧ Trimmed ws n ∧ ':' ∉ n ∧ '=' ∉ n

/-- A path usable on the command line: it must not begin with '-' . -/
def CmdPathOk (p : List Chars) : Prop := p ≠ [] ∧ (∀ n ∈ p, CmdName n)

/-- The arguments `as` spell the item; an optional '-' in front, spaces allowed around the '='. -/
def CmdSpells : CmdItem → List Chars → Prop
  | .setting p v, as => CmdPathOk p ∧ v ≠ [] ∧ Trimmed ws v ∧ '=' ∉ v ∧
      ∃ dash, (dash = [] ∧ (joinPath p).head? ≠ some '-' ∨ dash = ['-']) ∧
      (as = [dash ++ joinPath p ++ '=' :: v] ∨ as = [dash ++ joinPath p ++ ['='], v] ∨
       as = [dash ++ joinPath p, '=' :: v] ∨ as = [dash ++ joinPath p, ['='], v])
  | .flag p, as => CmdPathOk p ∧ ∃ dash, (dash = [] ∧ (joinPath p).head? ≠ some '-' ∨ dash = ['-']) ∧
      as = [dash ++ joinPath p]

/-- The meaning: assignments in order with source "Command line". -/
def cmdMeaning (t : Tree) : List CmdItem → Tree × Out Unit
  | [] => (t, .ok ())
  | .setting p v :: is => match access t p (assign (.str v) cmdSource) with
    | (t', .ok ()) => cmdMeaning t' is
    | r => r
  | .flag p :: is => match access t p (assign (.bool true) cmdSource) with
    | (t', .ok ()) => cmdMeaning t' is
    | r => r

theorem cmdPath_join : ∀ (fuel : Nat) (p : List Chars), p ≠ [] → (∀ n ∈ p, n ≠ [] ∧ Trimmed ws n ∧ ':' ∉ n) →
    p.length ≤ fuel + 1 → cmdPath fuel (joinPath p) = p
  | _, [], h, _, _ => absurd rfl h
  | fuel, [n], _, h, _ => by
    have hc := (h n (by simp)).2.2
    cases fuel <;> simp [cmdPath, joinPath, hc]
  | 0, n :: m :: ms, _, _, hl => by simp at hl
  | fuel + 1, n :: m :: ms, _, h, hl => by
    obtain ⟨hn, ht, hc⟩ := h n (by simp)
    rw [joinPath_cons]
    have hmem : ':' ∈ n ++ ':' :: joinPath (m :: ms) := by simp
    obtain ⟨e1, e2⟩ := takeWhile_sep n (joinPath (m :: ms)) ':' hc
    simp only [cmdPath, hmem, if_true, e1, e2, List.tail_cons]
    have htj := (trimmed_join (m :: ms) (by simp) (fun k hk =>
      ⟨(h k (by simp [hk])).1, (h k (by simp [hk])).2.1⟩)).2
    rw [trim_self htj, cmdPath_join fuel (m :: ms) (by simp) (fun k hk => h k (by simp [hk])) (by simp at hl ⊢; omega)]

theorem cmdBuffer_setting (t : Tree) (p : List Chars) (v : Chars) (hp : CmdPathOk p) (hv : v ≠ []) (hvt : Trimmed ws v)
    (hve : '=' ∉ v) : cmdBuffer t (joinPath p ++ '=' :: v) = access t p (assign (.str v) cmdSource) := by
  obtain ⟨hne, hn⟩ := hp
  have hje : '=' ∉ joinPath p := by
    intro h
    rcases mem_joinPath h with h | ⟨n, hn', hx⟩
    · exact absurd h (by decide)
    · exact (hn n hn').2.2.2 hx
  have hj := trimmed_join p hne (fun n hn' => ⟨(hn n hn').1, (hn n hn').2.1⟩)
  obtain ⟨e1, e2⟩ := takeWhile_sep (joinPath p) v '=' hje
  have hmem : '=' ∈ joinPath p ++ '=' :: v := by simp
  have hpath : cmdPath (joinPath p).length (joinPath p) = p := by
    apply cmdPath_join _ p hne (fun n hn' => ⟨(hn n hn').1, (hn n hn').2.1, (hn n hn').2.2.1⟩)
    have := length_le_joinPath p (fun n hn' => (hn n hn').1)
    omega
  have hlast : ¬ (p.getLast? = some [] ∨ v = []) := by
    rintro (h | h)
    · exact (hn _ (List.mem_of_getLast? h)).1 rfl
    · exact hv h
  unfold cmdBuffer
  simp only [hmem, not_true_eq_false, if_false, e1, e2, List.tail_cons, hve, trim_self hj.2, trim_self hvt, hpath]
  rw [if_neg hlast]

theorem cmdBuffer_flag (t : Tree) (p : List Chars) (hp : CmdPathOk p) :
    cmdBuffer t (joinPath p) = access t p (assign (.bool true) cmdSource) := by
  obtain ⟨hne, hn⟩ := hp
  have hje : '=' ∉ joinPath p := by
    intro h
    rcases mem_joinPath h with h | ⟨n, hn', hx⟩
    · exact absurd h (by decide)
    · exact (hn n hn').2.2.2 hx
  unfold cmdBuffer
  simp only [hje, not_false_eq_true, if_true]
  rw [C11_split_join p hne (fun n hn' => (hn n hn').2.2.1)]

theorem dash_strip (dash s : Chars) (hs : s ≠ []) (h : dash = [] ∧ s.head? ≠ some '-' ∨ dash = ['-']) :
    dash ++ s ≠ [] ∧ (if (dash ++ s).head? = some '-' then (dash ++ s).tail else dash ++ s) = s := by
  rcases h with ⟨rfl, h⟩ | rfl
  · simp [hs, h]
  · simp

theorem cmdLoop_nil (t : Tree) : cmdLoop t [] = (t, .ok ()) := by rw [cmdLoop]

theorem spell_head {i : CmdItem} {as : List Chars} (h : CmdSpells i as) :
    ∃ a r, as = a :: r ∧ a.head? ≠ some '=' := by
  have key : ∀ (p : List Chars) (dash s : Chars), CmdPathOk p →
      (dash = [] ∧ (joinPath p).head? ≠ some '-' ∨ dash = ['-']) → (dash ++ joinPath p ++ s).head? ≠ some '=' := by
    intro p dash s hp hd
    have hj := trimmed_join p hp.1 (fun n hn' => ⟨(hp.2 n hn').1, (hp.2 n hn').2.1⟩)
    rcases hd with ⟨rfl, _⟩ | rfl
    · intro h
      cases hjp : joinPath p with
      | nil => exact hj.1 hjp
      | cons a l =>
        rw [hjp] at h
        simp at h
        subst h
        have hm : '=' ∈ joinPath p := by rw [hjp]; simp
        rcases mem_joinPath hm with h | ⟨n, hn', hx⟩
        · exact absurd h (by decide)
        · exact (hp.2 n hn').2.2.2 hx
    · simp
  cases i with
  | setting p v =>
    obtain ⟨hp, _, _, _, dash, hd, h⟩ := h
    rcases h with rfl | rfl | rfl | rfl
    · exact ⟨_, _, rfl, key p dash _ hp hd⟩
    · exact ⟨_, _, rfl, key p dash _ hp hd⟩
    · exact ⟨_, _, rfl, by simpa using key p dash [] hp hd⟩
    · exact ⟨_, _, rfl, by simpa using key p dash [] hp hd⟩
  | flag p =>
    obtain ⟨hp, dash, hd, rfl⟩ := h
    exact ⟨_, _, rfl, by simpa using key p dash [] hp hd⟩

/-- Any sequence of well-formed command-line settings (with or without a leading '-', with or without spaces around the
'=') assigns, in order, each value to the option named by its key path with source "Command line"; bare keys are set to
true. -/
theorem C13_command_line : ∀ (items : List (CmdItem × List Chars)) (t : Tree), (∀ i ∈ items, CmdSpells i.1 i.2) →
    cmdLoop t (items.map (·.2)).flatten = cmdMeaning t (items.map (·.1))
  | [], t, _ => cmdLoop_nil t
  | (it, as) :: items, t, h => by
    have ih := fun t => C13_command_line items t (fun i hi => h i (by simp [hi]))
    have hs := h (it, as) (by simp)
    -- the first argument of what follows does not begin with '='
    have hnext : ∀ a r, (items.map (·.2)).flatten = a :: r → a.head? ≠ some '=' := by
      intro a r hr
      cases items with
      | nil => simp at hr
      | cons i is =>
        obtain ⟨a', r', h1, h2⟩ := spell_head (h i (by simp))
        simp only [List.map_cons, List.flatten_cons, h1, List.cons_append, List.cons.injEq] at hr
        rw [← hr.1]; exact h2
    simp only [List.map_cons, List.flatten_cons]
    generalize hrest : (items.map (·.2)).flatten = rest at *
    have hres : ∀ (r : Tree × Out Unit) (is : List CmdItem),
        (match r with | (t', .ok ()) => cmdMeaning t' is | r => r) = (match r with | (t', .ok ()) => cmdMeaning t' is | r => r) :=
      fun _ _ => rfl
    have fin : ∀ (r : Tree × Out Unit),
        (match r with | (t', .ok ()) => cmdLoop t' rest | r => r) =
        (match r with | (t', .ok ()) => cmdMeaning t' (items.map (·.1)) | r => r) := by
      rintro ⟨t', o⟩
      cases o with
      | ok u => exact ih t'
      | error e => rfl
    have fin_nil : rest = [] → ∀ (r : Tree × Out Unit), r =
        (match r with | (t', .ok ()) => cmdMeaning t' (items.map (·.1)) | r => r) := by
      intro hr r
      rw [← fin r, hr]
      rcases r with ⟨t', o⟩
      cases o with
      | ok u => simp [cmdLoop_nil]
      | error e => rfl
    cases it with
    | setting p v =>
      obtain ⟨hp, hv, hvt, hve, dash, hd, hforms⟩ := hs
      have hj := trimmed_join p hp.1 (fun n hn' => ⟨(hp.2 n hn').1, (hp.2 n hn').2.1⟩)
      have hje : '=' ∉ joinPath p := by
        intro h
        rcases mem_joinPath h with h | ⟨n, hn', hx⟩
        · exact absurd h (by decide)
        · exact (hp.2 n hn').2.2.2 hx
      have hjl : (joinPath p).getLast? ≠ some '=' := fun h => hje (List.mem_of_getLast? h)
      have hhd : ∀ s, (dash = [] ∧ (joinPath p ++ s).head? ≠ some '-' ∨ dash = ['-']) := by
        intro s
        rcases hd with ⟨h1, h2⟩ | h
        · left
          refine ⟨h1, ?_⟩
          cases hjp : joinPath p with
          | nil => exact absurd hjp hj.1
          | cons a l => rw [hjp] at h2; simpa using h2
        · exact .inr h
      have hbuf := cmdBuffer_setting t p v hp hv hvt hve
      simp only [cmdMeaning]
      rcases hforms with rfl | rfl | rfl | rfl
      · obtain ⟨n1, n2⟩ := dash_strip dash (joinPath p ++ '=' :: v) (by simp [hj.1]) (hhd _)
        rw [List.append_assoc]
        rw [List.cons_append, cmdLoop]
        simp only [n1, if_false, n2]
        have n3 : ¬ (joinPath p ++ '=' :: v = []) := by simp
        have hvl : (joinPath p ++ '=' :: v).getLast? ≠ some '=' := by
          cases v with
          | nil => exact absurd rfl hv
          | cons b l =>
            intro h
            have : (b :: l).getLast? = some '=' := by
              rw [List.getLast?_append] at h
              simpa [List.getLast?_cons_cons] using h
            exact hve (List.mem_of_getLast? this)
        rw [if_neg n3]
        cases hr : rest with
        | nil => simp only [List.nil_append]; rw [hbuf]; exact fin_nil hr _
        | cons a r =>
          simp only [List.nil_append]
          rw [if_neg hvl, if_neg (hnext a r hr), hbuf, ← hr]
          exact fin _
      · obtain ⟨n1, n2⟩ := dash_strip dash (joinPath p ++ ['=']) (by simp [hj.1]) (hhd _)
        rw [List.append_assoc]
        rw [List.cons_append, cmdLoop]
        simp only [n1, if_false, n2]
        have n3 : ¬ (joinPath p ++ ['='] = []) := by simp
        have n4 : (joinPath p ++ ['=']).getLast? = some '=' := by simp
        rw [if_neg n3]
        simp only [List.cons_append, List.nil_append]
        rw [if_pos n4]
        have : joinPath p ++ ['='] ++ v = joinPath p ++ '=' :: v := by simp
        rw [this, hbuf]
        exact fin _
      · obtain ⟨n1, n2⟩ := dash_strip dash (joinPath p) hj.1 (by simpa using hhd [])
        rw [List.cons_append, cmdLoop]
        simp only [n1, if_false, n2]
        rw [if_neg hj.1]
        simp only [List.cons_append, List.nil_append]
        rw [if_neg hjl, if_pos (by simp)]
        cases v with
        | nil => exact absurd rfl hv
        | cons b l =>
          cases hr : rest with
          | nil => simp only; rw [hbuf]; exact fin_nil hr _
          | cons a r =>
            have hbl : ¬ (('=' :: b :: l).tail = []) := by simp
            simp only []
            rw [if_neg hbl, hbuf, ← hr]
            exact fin _
      · obtain ⟨n1, n2⟩ := dash_strip dash (joinPath p) hj.1 (by simpa using hhd [])
        rw [List.cons_append, cmdLoop]
        simp only [n1, if_false, n2]
        rw [if_neg hj.1]
        simp only [List.cons_append, List.nil_append]
        rw [if_neg hjl, if_pos (by simp)]
        simp only [List.tail_cons, if_true]
        have : joinPath p ++ ['='] ++ v = joinPath p ++ '=' :: v := by simp
        rw [this, hbuf]
        exact fin _
    | flag p =>
      obtain ⟨hp, dash, hd, rfl⟩ := hs
      have hj := trimmed_join p hp.1 (fun n hn' => ⟨(hp.2 n hn').1, (hp.2 n hn').2.1⟩)
      have hje : '=' ∉ joinPath p := by
        intro h
        rcases mem_joinPath h with h | ⟨n, hn', hx⟩
        · exact absurd h (by decide)
        · exact (hp.2 n hn').2.2.2 hx
      have hjl : (joinPath p).getLast? ≠ some '=' := fun h => hje (List.mem_of_getLast? h)
      simp only [cmdMeaning]
      obtain ⟨n1, n2⟩ := dash_strip dash (joinPath p) hj.1 hd
      rw [List.cons_append, cmdLoop]
      simp only [n1, if_false, n2]
      rw [if_neg hj.1]
      cases hr : rest with
      | nil => simp only [List.nil_append]; rw [cmdBuffer_flag t p hp]; exact fin_nil hr _
      | cons a r =>
        simp only [List.nil_append]
        rw [if_neg hjl, if_neg (hnext a r hr), cmdBuffer_flag t p hp, ← hr]
        exact fin _

/-- More than one '=' in an argument is rejected, changing nothing. -/
theorem C13_command_line_rejects (t : Tree) (b rest : Chars) (h : '=' ∈ rest)
    (hb : b = [] ∨ '=' ∉ b) :
    (cmdBuffer t (b ++ '=' :: rest)).2.isOk = false ∧ (cmdBuffer t (b ++ '=' :: rest)).1 = t := by
  have hbn : '=' ∉ b := by rcases hb with rfl | h; simp; exact h
  obtain ⟨_, e2⟩ := takeWhile_sep b rest '=' hbn
  have hmem : '=' ∈ b ++ '=' :: rest := by simp
  unfold cmdBuffer
  simp only [hmem, not_true_eq_false, if_false, e2, List.tail_cons, h, if_true]
  exact ⟨rfl, trivial⟩

section Examples
/-- A small input file. -/
def exFile : List Chars := ["# comment".toList, "nout = 10 # steps".toList, "[mesh:ddx]".toList, "first = C2".toList,
  "f = (1 +".toList, "   2)".toList, "restart".toList, "".toList]
example : (readIni ['i'] emptyTree exFile).2 = .ok () := by decide
example : ((readIni ['i'] emptyTree exFile).1.valueAt ["mesh".toList, "ddx".toList, "f".toList]).map (·.value) =
    some (.str "(1 +2)".toList) := by decide
example : Spells (.entry "f".toList "(1 +2)".toList) ["f = (1 +".toList, "   2)".toList] :=
  ⟨"f = (1 +".toList, ["   2)".toList], [' '], [' '], "(1 +".toList, rfl,
   ⟨[], [], [], rfl, by simp, by simp, .inl rfl, by decide, by decide, by decide⟩, by decide, by decide, by decide,
   ⟨by decide, by decide⟩, by decide, by decide, by decide, ⟨by decide, by decide⟩, by decide,
   "2)".toList, ⟨"   ".toList, [], [], rfl, by decide, by simp, .inl rfl, by decide, by decide, by decide⟩,
   by decide, rfl⟩
end Examples
end Verif.Opt
