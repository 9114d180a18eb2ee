import Verif.Options.CmdArgs

/-! # C76: which files a run reads and writes, as a function of the command line -/

namespace Verif.Opt

open Verif.Str

/-! ## Specification -/

/-- A command line as a sequence of switches and option settings, each with its spelling. -/
inductive Said
  | switch (w : Word)
  | option (i : CmdItem) (as : List Chars)

/-- A value usable with a switch: not empty, no white space around it, no '='. -/
def GoodValue (v : Chars) : Prop := v ≠ [] ∧ Trimmed Opt.ws v ∧ '=' ∉ v

/-- Well formed. -/
def Said.Ok : Said → Prop
  | .switch (.plain _) => False
  | .switch (.dataDir v) | .switch (.optFile v) | .switch (.setFile v)
  | .switch (.logFile _ v) => GoodValue v
  | .switch _ => True
  | .option i as => CmdSpells i as ∧ ∀ a ∈ as, a ∉ switches

/-- The arguments. -/
def Said.args : Said → List Chars
  | .switch w => w.spell
  | .option _ as => as

/-- The words they consist of. -/
def Said.words : Said → List Word
  | .switch w => [w]
  | .option _ as => as.map .plain

/-- The option settings they amount to. -/
def Said.items : Said → List (CmdItem × List Chars)
  | .switch (.dataDir v) => [(.setting ["datadir".toList] v, ["datadir=".toList, v])]
  | .switch (.optFile v) => [(.setting ["optionfile".toList] v, ["optionfile=".toList, v])]
  | .switch (.setFile v) => [(.setting ["settingsfile".toList] v, ["settingsfile=".toList, v])]
  | .switch (.logFile _ v) => [(.setting ["logfile".toList] v, ["logfile=".toList, v])]
  | .switch _ => []
  | .option i as => [(i, as)]

/-- The option a setting is about. -/
def CmdItem.path : CmdItem → List Chars
  | .setting p _ => p
  | .flag p => p

/-- The value it gives. -/
def CmdItem.val : CmdItem → Val
  | .setting _ v => .str v
  | .flag _ => .bool true

/-- The last value given to option `q`. -/
def lastSet (q : List Chars) (l : List CmdItem) : Option Val :=
  ((l.filter fun i => decide (i.path = q)).map CmdItem.val).getLast?

/-- Said explicitly as an option, not with a switch. -/
def Said.sets (q : List Chars) : Said → Prop
  | .switch _ => False
  | .option i _ => i.path = q

/-! ## The options after the command line -/

theorem access_map {α β : Type} (f : Tree → Tree × Out α) (g : α → β) : ∀ (p : List Chars) (t : Tree),
    access t p (fun u => ((f u).1, (f u).2.map g))
      = ((access t p f).1, (access t p f).2.map g)
  | [], t => by simp [access]
  | n :: ns, .node d cs => by
    simp only [access]
    by_cases h1 : d.isSection = true
    · simp only [h1, Bool.not_true, Bool.false_eq_true, if_false]
      by_cases h2 : n = []
      · simp only [h2, if_true]; exact access_map f g ns (.node d cs)
      · simp only [h2, if_false]
        rw [access_map f g ns]
    · simp [h1, Except.map]

theorem step_assign (env : Env) (t : Tree) (p : List Chars) (v : Val) (s : Chars) :
    step env t (.assign p v s)
      = ((access t p (assign v s)).1, (access t p (assign v s)).2.map fun _ => none) := by
  unfold step
  exact access_map (assign v s) (fun _ => none) p t

theorem cmdMeaning_cons (t : Tree) (i : CmdItem) (is : List CmdItem) :
    cmdMeaning t (i :: is) = match access t i.path (assign i.val cmdSource) with
      | (t', .ok ()) => cmdMeaning t' is
      | r => r := by
  cases i <;> rfl

theorem lastSet_cons_eq (i : CmdItem) (is : List CmdItem) (q : List Chars) (h : i.path = q) :
    lastSet q (i :: is) = some ((lastSet q is).getD i.val) := by
  unfold lastSet
  rw [List.filter_cons_of_pos (by simpa using h), List.map_cons]
  generalize ((is.filter fun i => decide (i.path = q)).map CmdItem.val) = l
  cases l with
  | nil => rfl
  | cons a l => simp [List.getLast?_eq_some_getLast]

theorem lastSet_cons_ne (i : CmdItem) (is : List CmdItem) (q : List Chars) (h : i.path ≠ q) :
    lastSet q (i :: is) = lastSet q is := by
  unfold lastSet
  rw [List.filter_cons_of_neg (by simpa using h)]

/-- **The command line overrides.**  When it is accepted, each option named on it has the last value
given there, with source "Command line"; every other option is as it was. -/
theorem C76_command_line_values (env : Env) : ∀ (is : List CmdItem) (t t' : Tree), Inv t →
    (∀ i ∈ is, Clean i.path) → cmdMeaning t is = (t', .ok ()) →
    Inv t' ∧ ∀ q, (t'.valueAt q).map cellOf = match lastSet q is with
      | some v => some ⟨v, some cmdSource, false⟩
      | none => (t.valueAt q).map cellOf
  | [], t, t', hi, _, h => by
    rw [cmdMeaning] at h
    cases h
    exact ⟨hi, fun q => rfl⟩
  | i :: is, t, t', hi, hc, h => by
    rw [cmdMeaning_cons] at h
    have hs := step_assign env t i.path i.val cmdSource
    have hci := hc i (by simp)
    cases ha : access t i.path (assign i.val cmdSource) with
    | mk t1 r =>
      rw [ha] at h hs
      cases r with
      | error e => cases h
      | ok u =>
        cases u
        have hi1 : Inv t1 := by
          have := step_Inv env t (.assign i.path i.val cmdSource) hci hi
          rw [hs] at this; exact this
        obtain ⟨h1, h2⟩ := C76_command_line_values env is t1 t' hi1
          (fun j hj => hc j (by simp [hj])) h
        refine ⟨h1, fun q => ?_⟩
        have hq := C09_step env t (.assign i.path i.val cmdSource) hci hi q
        rw [hs] at hq
        simp only [Op.path, specStep, Except.map, Out.isOk, if_true] at hq
        rw [h2 q]
        by_cases hp : i.path = q
        · rw [lastSet_cons_eq i is q hp]
          cases hl : lastSet q is with
          | some v => rfl
          | none =>
            simp only [Option.getD_none]
            rw [hq, if_pos hp]
        · rw [lastSet_cons_ne i is q hp]
          cases hl : lastSet q is with
          | some v => rfl
          | none =>
            simp only
            rw [hq, if_neg hp]

/-! ## From the words to the options -/

theorem spell_nonempty {i : CmdItem} {as : List Chars} (h : CmdSpells i as) : ∀ a ∈ as, a ≠ [] := by
  have jp : ∀ p, CmdPathOk p → joinPath p ≠ [] := by
    intro p hp
    obtain ⟨h1, h2⟩ := hp
    cases p with
    | nil => exact absurd rfl h1
    | cons n ms =>
      have hn := (h2 n (by simp)).1
      cases ms with
      | nil => simpa [joinPath] using hn
      | cons m ms => rw [joinPath_cons]; simp
  cases i with
  | setting p v =>
    obtain ⟨hp, hv, -, -, dash, -, h⟩ := h
    have := jp p hp
    intro a ha
    rcases h with rfl | rfl | rfl | rfl <;>
      simp only [List.mem_cons, List.not_mem_nil, or_false] at ha
    · subst ha; simp
    · rcases ha with rfl | rfl
      · simp
      · exact hv
    · rcases ha with rfl | rfl
      · simp [this]
      · simp
    · rcases ha with rfl | rfl | rfl
      · simp [this]
      · simp
      · exact hv
  | flag p =>
    obtain ⟨hp, dash, -, rfl⟩ := h
    have := jp p hp
    intro a ha
    simp only [List.mem_cons, List.not_mem_nil, or_false] at ha
    subst ha; simp [this]

theorem path_clean {i : CmdItem} {as : List Chars} (h : CmdSpells i as) : Clean i.path := by
  cases i with
  | setting p v => exact fun n hn => (h.1.2 n hn).1
  | flag p => exact fun n hn => (h.1.2 n hn).1

theorem said_spelled (s : Said) (hs : s.Ok) :
    (∀ i ∈ s.items, CmdSpells i.1 i.2) ∧ s.words.flatMap Word.canonical = (s.items.map (·.2)).flatten ∧
    (∀ w ∈ s.words, w.Ok) ∧ (s.words.map Word.spell).flatten = s.args := by
  have name : ∀ (n v : Chars), n ≠ [] → Trimmed Opt.ws n → ':' ∉ n → '=' ∉ n →
      n.head? ≠ some '-' → GoodValue v → CmdSpells (.setting [n] v) [n ++ ['='], v] := by
    intro n v h1 h2 h3 h4 h5 hv
    refine ⟨⟨by simp, fun m hm => ?_⟩, hv.1, hv.2.1, hv.2.2, [], Or.inl ⟨rfl, ?_⟩, Or.inr (Or.inl ?_)⟩
    · simp only [List.mem_cons, List.not_mem_nil, or_false] at hm
      subst hm; exact ⟨h1, h2, h3, h4⟩
    · simpa [joinPath] using h5
    · simp [joinPath]
  have one : ∀ (n v : Chars), GoodValue v → unempty v = [v] := by
    intro n v hv; unfold unempty; rw [if_neg hv.1]
  cases s with
  | switch w =>
    cases w with
    | plain a => exact absurd hs id
    | dataDir v =>
      refine ⟨?_, ?_, ?_, rfl⟩
      · intro i hi
        simp only [Said.items, List.mem_cons, List.not_mem_nil, or_false] at hi
        subst hi
        exact name "datadir".toList v (by decide) (by constructor <;> decide) (by decide) (by decide) (by decide) hs
      · simp [Said.words, Said.items, Word.canonical, one [] v hs]
      · intro w hw; simp only [Said.words, List.mem_singleton] at hw; subst hw; trivial
    | optFile v =>
      refine ⟨?_, ?_, ?_, rfl⟩
      · intro i hi
        simp only [Said.items, List.mem_cons, List.not_mem_nil, or_false] at hi
        subst hi
        exact name "optionfile".toList v (by decide) (by constructor <;> decide) (by decide) (by decide) (by decide) hs
      · simp [Said.words, Said.items, Word.canonical, one [] v hs]
      · intro w hw; simp only [Said.words, List.mem_singleton] at hw; subst hw; trivial
    | setFile v =>
      refine ⟨?_, ?_, ?_, rfl⟩
      · intro i hi
        simp only [Said.items, List.mem_cons, List.not_mem_nil, or_false] at hi
        subst hi
        exact name "settingsfile".toList v (by decide) (by constructor <;> decide) (by decide) (by decide) (by decide) hs
      · simp [Said.words, Said.items, Word.canonical, one [] v hs]
      · intro w hw; simp only [Said.words, List.mem_singleton] at hw; subst hw; trivial
    | logFile l v =>
      refine ⟨?_, ?_, ?_, ?_⟩
      · intro i hi
        simp only [Said.items, List.mem_cons, List.not_mem_nil, or_false] at hi
        subst hi
        exact name "logfile".toList v (by decide) (by constructor <;> decide) (by decide) (by decide) (by decide) hs
      · simp [Said.words, Said.items, Word.canonical, one [] v hs]
      · intro w hw; simp only [Said.words, List.mem_singleton] at hw; subst hw; trivial
      · cases l <;> rfl
    | verbose l =>
      refine ⟨by simp [Said.items], by simp [Said.words, Said.items, Word.canonical], ?_, by cases l <;> rfl⟩
      intro w hw; simp only [Said.words, List.mem_singleton] at hw; subst hw; trivial
    | quiet l =>
      refine ⟨by simp [Said.items], by simp [Said.words, Said.items, Word.canonical], ?_, by cases l <;> rfl⟩
      intro w hw; simp only [Said.words, List.mem_singleton] at hw; subst hw; trivial
    | color l =>
      refine ⟨by simp [Said.items], by simp [Said.words, Said.items, Word.canonical], ?_, by cases l <;> rfl⟩
      intro w hw; simp only [Said.words, List.mem_singleton] at hw; subst hw; trivial
  | option i as =>
    obtain ⟨h1, h2⟩ := hs
    refine ⟨?_, ?_, ?_, ?_⟩
    · intro j hj
      simp only [Said.items, List.mem_cons, List.not_mem_nil, or_false] at hj
      subst hj; exact h1
    · have hne := spell_nonempty h1
      simp only [Said.words, Said.items, List.map_cons, List.map_nil, List.flatten_cons,
        List.flatten_nil, List.append_nil]
      have : ∀ l : List Chars, (∀ a ∈ l, a ≠ []) →
          (l.map Word.plain).flatMap Word.canonical = l := by
        intro l
        induction l with
        | nil => intro _; rfl
        | cons a l ih =>
          intro h
          rw [List.map_cons, List.flatMap_cons, ih (fun b hb => h b (by simp [hb]))]
          simp [Word.canonical, unempty, h a (by simp)]
      exact this as hne
    · intro w hw
      simp only [Said.words, List.mem_map] at hw
      obtain ⟨a, ha, rfl⟩ := hw
      exact h2 a ha
    · simp only [Said.words, Said.args, List.map_map]
      have : ∀ l : List Chars, (l.map (Word.spell ∘ Word.plain)).flatten = l := by
        intro l
        induction l with
        | nil => rfl
        | cons a l ih => rw [List.map_cons, List.flatten_cons, ih]; rfl
      exact this as

theorem saids_spelled : ∀ (S : List Said), (∀ s ∈ S, s.Ok) →
    (∀ i ∈ S.flatMap Said.items, CmdSpells i.1 i.2) ∧
    (S.flatMap Said.words).flatMap Word.canonical = ((S.flatMap Said.items).map (·.2)).flatten ∧
    (∀ w ∈ S.flatMap Said.words, w.Ok) ∧
    ((S.flatMap Said.words).map Word.spell).flatten = S.flatMap Said.args
  | [], _ => by simp
  | s :: S, h => by
    obtain ⟨a1, a2, a3, a4⟩ := said_spelled s (h s (by simp))
    obtain ⟨b1, b2, b3, b4⟩ := saids_spelled S (fun u hu => h u (by simp [hu]))
    refine ⟨?_, ?_, ?_, ?_⟩
    · intro i hi
      rw [List.flatMap_cons, List.mem_append] at hi
      exact hi.elim (a1 i) (b1 i)
    · rw [List.flatMap_cons, List.flatMap_append, a2, b2, List.flatMap_cons, List.map_append,
        List.flatten_append]
    · intro w hw
      rw [List.flatMap_cons, List.mem_append] at hw
      exact hw.elim (a3 w) (b3 w)
    · rw [List.flatMap_cons, List.map_append, List.flatten_append, a4, b4, List.flatMap_cons]

/-! ## Reading an option back -/

theorem withDefault_unset_ok (env : Env) (t : Tree) (p : List Chars) (ty : Ty) (v : Val) (hc : Clean p)
    (hu : t.valueAt p = none) (r : Option Val) (h : (step env t (.withDefault p ty v)).2 = .ok r) :
    r = some v := by
  by_cases hb : Blocked t p
  · rw [(step_blocked env t (.withDefault p ty v) hc hb).1] at h
    cases h
  · obtain ⟨h1, -, -⟩ := step_free env t (.withDefault p ty v) rfl hc hb
    rw [h1] at h
    simp only [Op.act, Op.path] at h
    have hv := valueAt_sub t p
    rw [hu] at hv
    obtain ⟨d, cs, hu0⟩ := exists_node (subOrFresh t p)
    rw [hu0] at h hv
    have hs : d.isSection = true := by
      cases hd : d.isSection
      · simp [Tree.data, hd] at hv
      · rfl
    simp only [withDefault, hs, if_true] at h
    cases ha : assign v defaultSource (.node d cs) with
    | mk t' r' =>
      obtain ⟨d', cs', ht'⟩ := exists_node t'
      rw [ha, ht'] at h
      cases r' with
      | ok u => cases u; simp only [Except.map] at h; cases h; rfl
      | error e => simp only [Except.map] at h; cases h

theorem cmdSource_ne : cmdSource ≠ defaultSource := by decide

theorem rootStr_ok (env : Env) (henv : EnvOk env) (t t' : Tree) (n d s : Chars) (hn : n ≠ [])
    (hi : Inv t) (h : rootStr env t n d = (t', .ok s)) :
    Inv t' ∧ (∀ q, q ≠ [n] → (t'.valueAt q).map cellOf = (t.valueAt q).map cellOf) ∧
    (∀ v u, (t.valueAt [n]).map cellOf = some ⟨.str v, some cmdSource, u⟩ → s = v) ∧
    (t.valueAt [n] = none → s = d) := by
  have hc : Clean [n] := by intro m hm; simp only [List.mem_singleton] at hm; subst hm; exact hn
  have h1 := step_Inv env t (.withDefault [n] .str (.str d)) hc hi
  have h2 := fun q => C09_step env t (.withDefault [n] .str (.str d)) hc hi q
  have h3 := withDefault_unset_ok env t [n] .str (.str d) hc
  have h4 : ∀ e, t.valueAt [n] = some e → tyOf e.value = some .str →
      e.source ≠ some defaultSource →
      (step env t (.withDefault [n] .str (.str d))).2 = .ok (some e.value) := fun e he hty hsrc =>
    C10_user_value_wins env henv t [n] .str (.str d) hc hi e he hty hsrc
  unfold rootStr at h
  generalize hst : step env t (.withDefault [n] .str (.str d)) = st at h h1 h2 h3 h4
  obtain ⟨t1, r⟩ := st
  cases r with
  | error e => cases h
  | ok r =>
    cases r with
    | none => cases h
    | some v =>
      cases v with
      | str v =>
        cases h
        refine ⟨h1, ?_, ?_, ?_⟩
        · intro q hq
          rw [h2 q, if_neg (by simp only [Op.path]; exact Ne.symm hq)]
        · intro v' u hv'
          cases he : t.valueAt [n] with
          | none => rw [he] at hv'; cases hv'
          | some e =>
            rw [he] at hv'
            simp only [Option.map_some, cellOf, Option.some.injEq, Cell.mk.injEq] at hv'
            obtain ⟨e1, e2, -⟩ := hv'
            have := h4 e he (by rw [e1]; rfl) (by
              rw [e2]; intro hh; exact cmdSource_ne (Option.some.inj hh))
            rw [e1] at this
            cases this; rfl
        · intro hu
          have := h3 hu _ rfl
          cases this; rfl
      | bool b => cases h
      | int b => cases h
      | real b => cases h
      | arr b => cases h

/-! ## The files of a run -/

theorem lastSet_nil (q : List Chars) : lastSet q [] = none := rfl

/-- If no option setting names the long form, the last value given to it is that of the switch. -/
theorem lastSet_switch (n : Chars) (pick : Word → Option Chars)
    (hpick : ∀ w : Word, ∀ v, pick w = some v → (Said.switch w).Ok →
      ((Said.switch w).items.map Prod.fst) = [.setting [n] v])
    (hnone : ∀ w : Word, pick w = none → (Said.switch w).Ok →
      ∀ i ∈ (Said.switch w).items.map Prod.fst, i.path ≠ [n])
    (hplain : ∀ a, pick (.plain a) = none) :
    ∀ (S : List Said), (∀ s ∈ S, s.Ok) → (∀ s ∈ S, ¬ s.sets [n]) →
      lastSet [n] ((S.flatMap Said.items).map Prod.fst)
        = (((S.flatMap Said.words).filterMap pick).getLast?).map Val.str
  | [], _, _ => rfl
  | s :: S, h, hs => by
    have ih := lastSet_switch n pick hpick hnone hplain S (fun u hu => h u (by simp [hu]))
      (fun u hu => hs u (by simp [hu]))
    rw [List.flatMap_cons, List.map_append, List.flatMap_cons, List.filterMap_append]
    have h0 := h s (by simp)
    have h1 := hs s (by simp)
    have skip : ∀ l : List CmdItem, (∀ i ∈ l, i.path ≠ [n]) → ∀ r : List CmdItem,
        lastSet [n] (l ++ r) = lastSet [n] r := by
      intro l
      induction l with
      | nil => intro _ r; rfl
      | cons a l ih =>
        intro hl r
        rw [List.cons_append, lastSet_cons_ne _ _ _ (hl a (by simp)),
          ih (fun i hi => hl i (by simp [hi])) r]
    cases s with
    | switch w =>
      cases hw : pick w with
      | some v =>
        rw [hpick w v hw h0]
        simp only [Said.words, List.singleton_append, List.cons_append, List.nil_append]
        rw [lastSet_cons_eq (.setting [n] v) _ [n] rfl, ih]
        have : List.filterMap pick [w] = [v] := by simp [hw]
        rw [this]
        generalize ((S.flatMap Said.words).filterMap pick) = l
        cases l with
        | nil => rfl
        | cons a l => simp [List.getLast?_eq_some_getLast]
      | none =>
        rw [skip _ (hnone w hw h0), ih]
        have : List.filterMap pick [w] = [] := by simp [hw]
        simp only [Said.words]
        rw [this, List.nil_append]
    | option i as =>
      rw [skip _ (by
        intro j hj
        simp only [Said.items, List.map_cons, List.map_nil, List.mem_cons, List.not_mem_nil,
          or_false] at hj
        subst hj; exact h1), ih]
      have : ((Said.option i as).words).filterMap pick = [] := by
        simp only [Said.words, List.filterMap_map]
        rw [List.filterMap_eq_nil_iff]
        intro a _; exact hplain a
      rw [this, List.nil_append]

theorem lastSet_dirs (S : List Said) (h : ∀ s ∈ S, s.Ok) (hs : ∀ s ∈ S, ¬ s.sets ["datadir".toList]) :
    lastSet ["datadir".toList] ((S.flatMap Said.items).map Prod.fst)
      = ((dirs (S.flatMap Said.words)).getLast?).map Val.str := by
  refine lastSet_switch "datadir".toList _ ?_ ?_ ?_ S h hs
  · intro w v hw _
    cases w <;> simp_all [Said.items]
  · intro w hw _ i hi
    cases w <;> simp_all [Said.items, CmdItem.path] <;> (subst hi; decide)
  · intro a; rfl

theorem lastSet_setFiles (S : List Said) (h : ∀ s ∈ S, s.Ok)
    (hs : ∀ s ∈ S, ¬ s.sets ["settingsfile".toList]) :
    lastSet ["settingsfile".toList] ((S.flatMap Said.items).map Prod.fst)
      = ((setFiles (S.flatMap Said.words)).getLast?).map Val.str := by
  refine lastSet_switch "settingsfile".toList _ ?_ ?_ ?_ S h hs
  · intro w v hw _
    cases w <;> simp_all [Said.items]
  · intro w hw _ i hi
    cases w <;> simp_all [Said.items, CmdItem.path] <;> (subst hi; decide)
  · intro a; rfl

/-- **C76, the files of a run.**  When start-up succeeds: the input file is the one named by the last
`-d` and `-f` (or the defaults), the log goes to the same directory, and the settings are written to
the same directory under the last name given with `-o`, so the settings never overwrite the input
file.  This needs that the command line does not set `datadir` or `settingsfile` by their long names,
and that the input file does not either unless the switch is given. -/
theorem C76_files (env : Env) (henv : EnvOk env) (load : Chars → Out Tree) (prog : Chars)
    (hp : prog ≠ []) (S : List Said) (hS : ∀ s ∈ S, s.Ok)
    (hask : ∀ a ∈ S.flatMap Said.args, ¬ Asks a) (st : Startup)
    (hload : ∀ f t, load f = .ok t → Inv t ∧
      (dirs (S.flatMap Said.words) = [] → t.valueAt ["datadir".toList] = none) ∧
      (setFiles (S.flatMap Said.words) = [] → t.valueAt ["settingsfile".toList] = none))
    (hd : ∀ s ∈ S, ¬ s.sets ["datadir".toList]) (hs : ∀ s ∈ S, ¬ s.sets ["settingsfile".toList])
    (h : startup env load prog (S.flatMap Said.args) = .ok (.inr st)) :
    let W := S.flatMap Said.words
    let dir := lastOr "data".toList (dirs W)
    st.inputFile = inDir dir (lastOr "BOUT.inp".toList (optFiles W)) ∧
    st.logFile = inDir dir (lastOr "BOUT.log".toList (logFiles W)) ∧
    st.settingsFile = inDir dir (lastOr "BOUT.settings".toList (setFiles W)) ∧
    st.settingsFile ≠ st.inputFile := by
  intro W dir
  obtain ⟨s1, s2, s3, s4⟩ := saids_spelled S hS
  have hparse := C76_switches prog W hp s3 (by rw [s4]; exact hask)
  rw [s4] at hparse
  unfold startup at h
  rw [hparse] at h
  by_cases hne : lastOr "BOUT.settings".toList (setFiles W) = lastOr "BOUT.inp".toList (optFiles W)
  · rw [if_pos hne] at h; cases h
  rw [if_neg hne] at h
  dsimp only at h
  cases hl : load (inDir (lastOr "data".toList (dirs W)) (lastOr "BOUT.inp".toList (optFiles W))) with
  | error e => rw [hl] at h; cases h
  | ok t0 =>
    rw [hl] at h
    dsimp only at h
    obtain ⟨hi0, hdd, hss⟩ := hload _ _ hl
    rw [List.tail_cons, s2, C13_command_line _ _ s1] at h
    cases hm : cmdMeaning t0 ((S.flatMap Said.items).map (·.1)) with
    | mk t1 r1 =>
      rw [hm] at h
      cases r1 with
      | error e => cases h
      | ok u =>
        cases u
        dsimp only at h
        obtain ⟨hi1, hv1⟩ := C76_command_line_values env _ t0 t1 hi0 (by
          intro i hi
          obtain ⟨x, hx, rfl⟩ := List.mem_map.mp hi
          exact path_clean (s1 x hx)) hm
        have vd := hv1 ["datadir".toList]
        have vs := hv1 ["settingsfile".toList]
        have e1 := lastSet_dirs S hS hd
        have e2 := lastSet_setFiles S hS hs
        rw [show (S.flatMap Said.items).map Prod.fst = (S.flatMap Said.items).map (·.1) from rfl] at e1 e2
        rw [e1] at vd
        rw [e2] at vs
        cases hr2 : rootStr env t1 "datadir".toList "data".toList with
        | mk t2 r2 =>
          rw [hr2] at h
          cases r2 with
          | error e => cases h
          | ok d =>
            dsimp only at h
            obtain ⟨hi2, k2, a2, b2⟩ := rootStr_ok env henv t1 t2 _ _ d (by decide) hi1 hr2
            cases hr3 : rootStr env t2 "optionfile".toList
                (lastOr "BOUT.inp".toList (optFiles W)) with
            | mk t3 r3 =>
              rw [hr3] at h
              cases r3 with
              | error e => cases h
              | ok o =>
                dsimp only at h
                obtain ⟨hi3, k3, -, -⟩ := rootStr_ok env henv t2 t3 _ _ o (by decide) hi2 hr3
                cases hr4 : rootStr env t3 "settingsfile".toList
                    (lastOr "BOUT.settings".toList (setFiles W)) with
                | mk t4 r4 =>
                  rw [hr4] at h
                  cases r4 with
                  | error e => cases h
                  | ok sf =>
                    dsimp only at h
                    obtain ⟨-, -, a4, b4⟩ := rootStr_ok env henv t3 t4 _ _ sf (by decide) hi3 hr4
                    cases h
                    have hdir : d = dir := by
                      show d = lastOr "data".toList (dirs W)
                      unfold lastOr
                      cases hg : (dirs W).getLast? with
                      | none =>
                        rw [hg, hdd (List.getLast?_eq_none_iff.mp hg)] at vd
                        refine b2 ?_
                        cases hx : t1.valueAt ["datadir".toList] with
                        | none => rfl
                        | some e => rw [hx] at vd; cases vd
                      | some v =>
                        rw [hg] at vd
                        exact a2 v _ vd
                    have hvs : (t3.valueAt ["settingsfile".toList]).map cellOf
                        = (t1.valueAt ["settingsfile".toList]).map cellOf := by
                      rw [k3 _ (by decide), k2 _ (by decide)]
                    have hset : sf = lastOr "BOUT.settings".toList (setFiles W) := by
                      unfold lastOr at b4 ⊢
                      cases hg : (setFiles W).getLast? with
                      | none =>
                        rw [hg, hss (List.getLast?_eq_none_iff.mp hg)] at vs
                        rw [hg] at b4
                        refine b4 ?_
                        cases hx : t3.valueAt ["settingsfile".toList] with
                        | none => rfl
                        | some e => rw [hx] at hvs; rw [vs] at hvs; cases hvs
                      | some v =>
                        rw [hg] at vs
                        exact a4 v _ (hvs.trans vs)
                    refine ⟨rfl, rfl, ?_, ?_⟩
                    · show inDir d sf = _
                      rw [hdir, hset]
                    · show inDir d sf ≠ inDir dir _
                      rw [hdir, hset]
                      intro hh
                      unfold inDir at hh
                      have := List.append_cancel_left hh
                      exact hne (List.cons.inj this).2

/-- **C76, the options of a run.**  When start-up succeeds the input file has been read, and every
option has the last value given on the command line (with source "Command line"), or else its value in
the input file; only the three options start-up itself reads are treated differently. -/
theorem C76_options (env : Env) (henv : EnvOk env) (load : Chars → Out Tree) (prog : Chars)
    (hp : prog ≠ []) (S : List Said) (hS : ∀ s ∈ S, s.Ok)
    (hask : ∀ a ∈ S.flatMap Said.args, ¬ Asks a) (st : Startup)
    (hload : ∀ f t, load f = .ok t → Inv t)
    (h : startup env load prog (S.flatMap Said.args) = .ok (.inr st)) :
    ∃ t0, load st.inputFile = .ok t0 ∧ ∀ q, q ≠ ["datadir".toList] → q ≠ ["optionfile".toList] →
      q ≠ ["settingsfile".toList] →
      (st.tree.valueAt q).map cellOf = match lastSet q ((S.flatMap Said.items).map Prod.fst) with
        | some v => some ⟨v, some cmdSource, false⟩
        | none => (t0.valueAt q).map cellOf := by
  obtain ⟨s1, s2, s3, s4⟩ := saids_spelled S hS
  have hparse := C76_switches prog (S.flatMap Said.words) hp s3 (by rw [s4]; exact hask)
  rw [s4] at hparse
  generalize S.flatMap Said.words = W at hparse s2
  unfold startup at h
  rw [hparse] at h
  by_cases hne : lastOr "BOUT.settings".toList (setFiles W) = lastOr "BOUT.inp".toList (optFiles W)
  · rw [if_pos hne] at h; cases h
  rw [if_neg hne] at h
  dsimp only at h
  cases hl : load (inDir (lastOr "data".toList (dirs W)) (lastOr "BOUT.inp".toList (optFiles W))) with
  | error e => rw [hl] at h; cases h
  | ok t0 =>
    rw [hl] at h
    dsimp only at h
    have hi0 := hload _ _ hl
    rw [List.tail_cons, s2, C13_command_line _ _ s1] at h
    cases hm : cmdMeaning t0 ((S.flatMap Said.items).map (·.1)) with
    | mk t1 r1 =>
      rw [hm] at h
      cases r1 with
      | error e => cases h
      | ok u =>
        cases u
        dsimp only at h
        obtain ⟨hi1, hv1⟩ := C76_command_line_values env _ t0 t1 hi0 (by
          intro i hi
          obtain ⟨x, hx, rfl⟩ := List.mem_map.mp hi
          exact path_clean (s1 x hx)) hm
        cases hr2 : rootStr env t1 "datadir".toList "data".toList with
        | mk t2 r2 =>
          rw [hr2] at h
          cases r2 with
          | error e => cases h
          | ok d =>
            dsimp only at h
            obtain ⟨hi2, k2, -, -⟩ := rootStr_ok env henv t1 t2 _ _ d (by decide) hi1 hr2
            cases hr3 : rootStr env t2 "optionfile".toList
                (lastOr "BOUT.inp".toList (optFiles W)) with
            | mk t3 r3 =>
              rw [hr3] at h
              cases r3 with
              | error e => cases h
              | ok o =>
                dsimp only at h
                obtain ⟨hi3, k3, -, -⟩ := rootStr_ok env henv t2 t3 _ _ o (by decide) hi2 hr3
                cases hr4 : rootStr env t3 "settingsfile".toList
                    (lastOr "BOUT.settings".toList (setFiles W)) with
                | mk t4 r4 =>
                  rw [hr4] at h
                  cases r4 with
                  | error e => cases h
                  | ok sf =>
                    dsimp only at h
                    obtain ⟨-, k4, -, -⟩ := rootStr_ok env henv t3 t4 _ _ sf (by decide) hi3 hr4
                    cases h
                    refine ⟨t0, hl, ?_⟩
                    intro q q1 q2 q3
                    show (t4.valueAt q).map cellOf = _
                    rw [k4 q q3, k3 q q2, k2 q q1]
                    exact hv1 q

end Verif.Opt
