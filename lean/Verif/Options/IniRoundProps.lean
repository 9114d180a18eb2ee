import Verif.Options.IniRound
import Mathlib.Tactic.Linarith
import Mathlib.Tactic.FieldSimp
import Mathlib.Tactic.NormNum
/-!
# C47: what is read back is what was written
-/
namespace Verif.Opt
open Verif.Str (Chars trim trimLeft trimRight trimComments)

/-- `items` take the reader from `(s, sec)` to `(s', sec')` without an exception, whatever follows. -/
def Runs (file : Chars) (s : Tree) (sec : List Chars) (items : List Item) (s' : Tree) (sec' : List Chars) : Prop :=
  ∀ rest, meaning file s sec (items ++ rest) = meaning file s' sec' rest

theorem Runs.trans {file : Chars} {s s' s'' : Tree} {sec sec' sec'' : List Chars} {a b : List Item}
    (h1 : Runs file s sec a s' sec') (h2 : Runs file s' sec' b s'' sec'') : Runs file s sec (a ++ b) s'' sec'' := by
  intro rest
  rw [List.append_assoc, h1, h2]

/-- The tree read so far agrees with the tree written. -/
def Good (P : Printer) (file : Chars) (t s : Tree) : Prop :=
  ∀ q d', s.lookup q = some d' → ∃ d, t.lookup q = some d ∧ d.isSection = d'.isSection ∧
    (d'.isSection = false → d'.value = .str (P.toStr d.value) ∧ d'.source = some file ∧ d'.used = false)

/-- There is a value at `q`. -/
def Has (s : Tree) (q : List Chars) : Prop := ∃ d, s.lookup q = some d ∧ d.isSection = false

theorem lookup_prefix {t : Tree} {q r : List Chars} {d : Data} (h : t.lookup (q ++ r) = some d) :
    ∃ e, t.lookup q = some e := by
  rw [lookup_append] at h
  cases hs : t.sub q with
  | none => simp [hs] at h
  | some u => exact ⟨u.data, by rw [sub_lookup, hs]; rfl⟩

theorem above_section {t : Tree} (hi : Inv t) {q r : List Chars} {d e : Data} (h : t.lookup (q ++ r) = some d) (hr : r ≠ [])
    (he : t.lookup q = some e) : e.isSection = true := by
  by_contra hs
  have hs' : e.isSection = false := by simpa using hs
  cases r with
  | nil => exact hr rfl
  | cons n r =>
    obtain ⟨e', he'⟩ := lookup_prefix (t := t) (q := q ++ [n]) (r := r) (d := d) (by simpa using h)
    rw [(hi q e he hs').2 n] at he'
    cases he'

theorem not_blocked {P : Printer} {file : Chars} {t s : Tree} (hi : Inv t) (hg : Good P file t s) {p : List Chars} {d : Data}
    (h : t.lookup p = some d) : ¬ Blocked s p := by
  rintro ⟨q, r, e, rfl, hr, hl, hs⟩
  obtain ⟨e', he', hse, -⟩ := hg q e hl
  have := above_section hi h hr he'
  rw [hse, hs] at this
  cases this

/-- Looking up a section. -/
theorem touch_step {P : Printer} {file : Chars} {t s : Tree} (hi : Inv t) (hg : Good P file t s) {p : List Chars} {d : Data}
    (hc : Clean p) (h : t.lookup p = some d) (hsec : d.isSection = true) :
    ∃ s', access s p (fun u => (u, (.ok () : Out Unit))) = (s', .ok ()) ∧ Good P file t s' ∧ ∀ q, Has s q → Has s' q := by
  obtain ⟨h1, h2⟩ := access_free (fun u => (u, (.ok () : Out Unit))) (fun _ => rfl) p s hc (not_blocked hi hg h)
  refine ⟨(access s p (fun u => (u, (.ok () : Out Unit)))).1, Prod.ext rfl h1, ?_, ?_⟩
  · intro q d' hq
    rw [h2 q] at hq
    have aux : ∀ q, q <+: p → (subOrFresh s q).data = d' → ∃ d, t.lookup q = some d ∧ d.isSection = d'.isSection ∧
        (d'.isSection = false → d'.value = .str (P.toStr d.value) ∧ d'.source = some file ∧ d'.used = false) := by
      intro q hpre e
      rcases subOrFresh_data_cases s q with ⟨e', he', hd⟩ | ⟨-, nm, hnm⟩
      · rw [hd] at e; subst e; exact hg q e' he'
      · rw [hnm] at e
        obtain ⟨r, rfl⟩ := hpre
        obtain ⟨eq, heq⟩ := lookup_prefix h
        have hse : eq.isSection = true := by
          by_cases hr : r = []
          · subst hr
            rw [List.append_nil] at h
            rw [h] at heq; cases heq; exact hsec
          · exact above_section hi h hr heq
        refine ⟨eq, heq, ?_, ?_⟩
        · rw [← e, hse]; rfl
        · intro hf; rw [← e] at hf; cases hf
    by_cases hqp : q = p
    · rw [if_pos hqp] at hq
      exact aux q (hqp ▸ List.prefix_refl _) (by rw [hqp]; simpa using hq)
    · rw [if_neg hqp] at hq
      by_cases hpre : q <+: p
      · rw [if_pos hpre] at hq
        exact aux q hpre (by simpa using hq)
      · rw [if_neg hpre] at hq
        exact hg q d' hq
  · rintro q ⟨e, he, hs⟩
    refine ⟨e, ?_, hs⟩
    rw [h2 q]
    have := subOrFresh_data_of_lookup he
    by_cases hqp : q = p
    · subst hqp; rw [if_pos rfl, this]
    · rw [if_neg hqp]
      by_cases hpre : q <+: p
      · rw [if_pos hpre, this]
      · rw [if_neg hpre, he]

/-- Reading the line of a value. -/
theorem assign_step {P : Printer} {file : Chars} {t s : Tree} (hi : Inv t) (hg : Good P file t s) {p : List Chars} {d : Data}
    (hc : Clean p) (h : t.lookup p = some d) (hval : d.isSection = false) :
    ∃ s', access s p (assign (.str (P.toStr d.value)) file) = (s', .ok ()) ∧ Good P file t s' ∧
      (∀ q, Has s q → Has s' q) ∧ Has s' p := by
  have hb := not_blocked hi hg h
  obtain ⟨h1, h2⟩ := access_free (assign (.str (P.toStr d.value)) file) (fun u => assign_kids _ _ u) p s hc hb
  have hk : (subOrFresh s p).kids.isEmpty = true := by
    rw [kids_sub]
    rintro ⟨n, e, he⟩
    obtain ⟨e', he', -⟩ := hg _ e he
    rw [(hi p d h hval).2 n] at he'
    cases he'
  -- what the assignment does
  have hact : ∃ e, assign (.str (P.toStr d.value)) file (subOrFresh s p) = (e, .ok ()) ∧ e.data.isSection = false ∧
      e.data.value = .str (P.toStr d.value) ∧ e.data.source = some file ∧ e.data.used = false := by
    obtain ⟨d0, cs, hu⟩ := exists_node (subOrFresh s p)
    have hcs : cs.isEmpty = true := by rw [hu] at hk; exact hk
    rcases subOrFresh_data_cases s p with ⟨e', he', hd⟩ | ⟨-, nm, hnm⟩
    · obtain ⟨d1, hd1, hse, hv⟩ := hg p e' he'
      rw [h] at hd1; cases hd1
      have hf : e'.isSection = false := by rw [← hse]; exact hval
      obtain ⟨hv1, hv2, hv3⟩ := hv hf
      rw [hu] at hd ⊢
      have hd' : d0 = e' := hd
      subst hd'
      refine ⟨.node { d0 with value := .str (P.toStr d.value), source := some file, used := false, isSection := false } cs,
        ?_, rfl, rfl, rfl, rfl⟩
      simp [assign, isSet, hf, hv1, hv2, setNoCheck, hcs]
    · rw [hnm]
      refine ⟨.node { fullName := nm, value := .str (P.toStr d.value), source := some file, used := false, isSection := false }
        .nil, ?_, rfl, rfl, rfl, rfl⟩
      simp [assign, isSet, fresh, setNoCheck, Kids.isEmpty]
  obtain ⟨e, he, hes, hev, heo, heu⟩ := hact
  refine ⟨(access s p (assign (.str (P.toStr d.value)) file)).1, Prod.ext rfl (by rw [h1, he]), ?_, ?_, ?_⟩
  · intro q d' hq
    rw [h2 q] at hq
    by_cases hqp : q = p
    · rw [if_pos hqp, he] at hq
      have hq' : e.data = d' := by simpa using hq
      subst hqp
      subst hq'
      exact ⟨d, h, by rw [hval, hes], fun _ => ⟨hev, heo, heu⟩⟩
    · rw [if_neg hqp] at hq
      by_cases hpre : q <+: p
      · rw [if_pos hpre] at hq
        have hq' : (subOrFresh s q).data = d' := by simpa using hq
        rcases subOrFresh_data_cases s q with ⟨e', he', hd⟩ | ⟨-, nm, hnm⟩
        · rw [hd] at hq'; subst hq'; exact hg q e' he'
        · rw [hnm] at hq'
          obtain ⟨r, rfl⟩ := hpre
          obtain ⟨eq, heq⟩ := lookup_prefix h
          have hr : r ≠ [] := by rintro rfl; exact hqp (by simp)
          refine ⟨eq, heq, ?_, ?_⟩
          · rw [above_section hi h hr heq, ← hq']; rfl
          · intro hf; rw [← hq'] at hf; cases hf
      · rw [if_neg hpre] at hq
        exact hg q d' hq
  · rintro q ⟨e', he', hs⟩
    by_cases hqp : q = p
    · subst hqp
      exact ⟨e.data, by rw [h2, if_pos rfl, he], hes⟩
    · refine ⟨e', ?_, hs⟩
      rw [h2 q, if_neg hqp]
      by_cases hpre : q <+: p
      · rw [if_pos hpre, subOrFresh_data_of_lookup he']
      · rw [if_neg hpre, he']
  · exact ⟨e.data, by rw [h2, if_pos rfl, he], hes⟩

section
variable {P : Printer} {file : Chars} {t : Tree}

/-- Reading the child values of the section at `p`. -/
theorem docValues_run (hi : Inv t) (hcl : ∀ q d, t.lookup q = some d → Clean q) (p : List Chars) :
    ∀ (cs : Kids) (s : Tree), cs.KeysOk → (∀ n c, cs.find n = some c → ∀ q, t.lookup (p ++ n :: q) = c.lookup q) →
      Good P file t s → ∃ s', Runs file s p ((cs.docValues P).map (·.1)) s' p ∧ Good P file t s' ∧
        (∀ q, Has s q → Has s' q) ∧ ∀ n c, cs.find n = some c → c.data.isSection = false → Has s' (p ++ [n])
  | .nil, s, _, _, hg => ⟨s, fun _ => rfl, hg, fun _ h => h, fun n c h => by simp [Kids.find] at h⟩
  | .cons m u r, s, hk, hl, hg => by
    obtain ⟨hk1, hk2, hk3⟩ := hk
    have hl' : ∀ n c, r.find n = some c → ∀ q, t.lookup (p ++ n :: q) = c.lookup q := by
      intro n c hf
      apply hl n c
      rw [Kids.find, if_neg]
      · exact hf
      · rintro rfl; rw [hk1] at hf; cases hf
    have hlm := hl m u (by simp [Kids.find]) []
    rw [lookup_nil] at hlm
    by_cases hs : u.data.isSection = true
    · obtain ⟨s', a, b, c, e⟩ := docValues_run hi hcl p r s hk3 hl' hg
      refine ⟨s', ?_, b, c, ?_⟩
      · rw [Kids.docValues, if_pos hs]; exact a
      · intro n c' hf hv
        rw [Kids.find] at hf
        split at hf
        · cases hf; rw [hs] at hv; cases hv
        · exact e n c' hf hv
    · have hs' : u.data.isSection = false := by simpa using hs
      obtain ⟨s1, h1, h2, h3, h4⟩ := assign_step hi hg (hcl _ _ hlm) hlm hs'
      obtain ⟨s', a, b, c, e⟩ := docValues_run hi hcl p r s1 hk3 hl' h2
      refine ⟨s', ?_, b, fun q hq => c q (h3 q hq), ?_⟩
      · rw [Kids.docValues, if_neg hs, List.map_append]
        refine Runs.trans (s' := s1) (sec' := p) ?_ a
        intro rest
        simp only [List.map_cons, List.map_nil, List.cons_append, List.nil_append, meaning, h1]
      · intro n c' hf hv
        rw [Kids.find] at hf
        split at hf
        · rename_i e'; subst e'; exact c _ h4
        · exact e n c' hf hv

theorem anyValue_false : ∀ (cs : Kids), cs.anyValue = false → cs.docValues P = [] ∧
    ∀ n c, cs.find n = some c → c.data.isSection = true
  | .nil, _ => ⟨rfl, fun n c h => by simp [Kids.find] at h⟩
  | .cons m u r, h => by
    simp only [Kids.anyValue, Bool.or_eq_false_iff, Bool.not_eq_eq_eq_not, Bool.not_false] at h
    obtain ⟨h1, h2⟩ := anyValue_false r h.2
    refine ⟨by rw [Kids.docValues, if_pos h.1, h1]; rfl, ?_⟩
    intro n c hf
    rw [Kids.find] at hf
    split at hf
    · cases hf; exact h.1
    · exact h2 n c hf

mutual
/-- Reading what was written for the section at `p`. -/
theorem doc_run (hi : Inv t) (hcl : ∀ q d, t.lookup q = some d → Clean q) :
    ∀ (u : Tree) (p : List Chars) (s : Tree) (sec : List Chars), u.KeysOk → (∀ q, t.lookup (p ++ q) = u.lookup q) →
      u.data.isSection = true → (p = [] → sec = []) → Good P file t s →
      ∃ s' sec', Runs file s sec ((u.doc P p).map (·.1)) s' sec' ∧ Good P file t s' ∧ (∀ q, Has s q → Has s' q) ∧
        ∀ q, Has u q → Has s' (p ++ q)
  | .node d cs, p, s, sec, hk, hl, hsec, hps, hg => by
    have hlp : t.lookup p = some d := by have := hl []; simpa [Tree.lookup, Tree.data] using this
    have hlc : ∀ n c, cs.find n = some c → ∀ q, t.lookup (p ++ n :: q) = c.lookup q := by
      intro n c hf q
      rw [hl (n :: q), lookup_node_cons, hf]; rfl
    -- header and values
    have hhead : ∃ s1 sec1, Runs file s sec
        (((if p ≠ [] ∧ cs.anyValue = true then [((Item.blank : Item), ([[]] : List Chars)),
          (.section p, ['[' :: (joinPath p ++ [']'])])] else []) ++ cs.docValues P).map (·.1)) s1 sec1 ∧ Good P file t s1 ∧
        (∀ q, Has s q → Has s1 q) ∧ ∀ n c, cs.find n = some c → c.data.isSection = false → Has s1 (p ++ [n]) := by
      by_cases hv : cs.anyValue = true
      · by_cases hp : p = []
        · obtain ⟨s1, a, b, c, e⟩ := docValues_run (P := P) (file := file) hi hcl p cs s hk hlc hg
          refine ⟨s1, p, ?_, b, c, e⟩
          rw [if_neg (fun h => h.1 hp), hps hp]
          rw [hp] at a ⊢
          exact a
        · obtain ⟨s0, h1, h2, h3⟩ := touch_step hi hg (hcl _ _ hlp) hlp hsec
          obtain ⟨s1, a, b, c, e⟩ := docValues_run (P := P) (file := file) hi hcl p cs s0 hk hlc h2
          refine ⟨s1, p, ?_, b, fun q hq => c q (h3 q hq), e⟩
          rw [if_pos ⟨hp, hv⟩, List.map_append]
          refine Runs.trans (s' := s0) (sec' := p) ?_ a
          intro rest
          simp only [List.map_cons, List.map_nil, List.cons_append, List.nil_append, meaning, h1]
      · have hv' : cs.anyValue = false := by simpa using hv
        obtain ⟨h1, h2⟩ := anyValue_false (P := P) cs hv'
        refine ⟨s, sec, ?_, hg, fun _ h => h, ?_⟩
        · rw [if_neg (fun h => hv h.2), h1]
          intro rest; rfl
        · intro n c hf hs
          rw [h2 n c hf] at hs; cases hs
    obtain ⟨s1, sec1, a1, b1, c1, e1⟩ := hhead
    obtain ⟨s2, sec2, a2, b2, c2, e2⟩ := docSubs_run hi hcl cs p s1 sec1 hk hlc b1
    refine ⟨s2, sec2, ?_, b2, fun q hq => c2 q (c1 q hq), ?_⟩
    · rw [Tree.doc, List.map_append]
      exact Runs.trans a1 a2
    · rintro q ⟨e, he, hse⟩
      cases q with
      | nil =>
        have : e = d := by simpa [Tree.lookup, Tree.data] using he.symm
        subst this
        have hsec' : e.isSection = true := hsec
        rw [hsec'] at hse; cases hse
      | cons n q =>
        rw [lookup_node_cons] at he
        cases hf : cs.find n with
        | none => simp [hf] at he
        | some c =>
          rw [hf, Option.bind_some] at he
          cases hcs : c.data.isSection with
          | false =>
            cases q with
            | nil => exact c2 _ (e1 n c hf hcs)
            | cons n' q' =>
              -- a value has no children
              exfalso
              have hc1 : t.lookup (p ++ [n]) = some c.data := by rw [hlc n c hf []]; exact lookup_nil c
              have := above_section hi (t := t) (q := p ++ [n]) (r := n' :: q') (d := e) (e := c.data)
                (by rw [List.append_assoc]; exact (hlc n c hf (n' :: q')).trans he) (by simp) hc1
              rw [hcs] at this; cases this
          | true => exact e2 n c hf hcs q ⟨e, he, hse⟩
/-- Reading what was written for the sub-sections of the section at `p`. -/
theorem docSubs_run (hi : Inv t) (hcl : ∀ q d, t.lookup q = some d → Clean q) :
    ∀ (cs : Kids) (p : List Chars) (s : Tree) (sec : List Chars), cs.KeysOk →
      (∀ n c, cs.find n = some c → ∀ q, t.lookup (p ++ n :: q) = c.lookup q) → Good P file t s →
      ∃ s' sec', Runs file s sec ((cs.docSubs P p).map (·.1)) s' sec' ∧ Good P file t s' ∧ (∀ q, Has s q → Has s' q) ∧
        ∀ n c, cs.find n = some c → c.data.isSection = true → ∀ q, Has c q → Has s' (p ++ n :: q)
  | .nil, _, s, sec, _, _, hg => ⟨s, sec, fun _ => rfl, hg, fun _ h => h, fun n c h => by simp [Kids.find] at h⟩
  | .cons m u r, p, s, sec, hk, hl, hg => by
    obtain ⟨hk1, hk2, hk3⟩ := hk
    have hl' : ∀ n c, r.find n = some c → ∀ q, t.lookup (p ++ n :: q) = c.lookup q := by
      intro n c hf
      apply hl n c
      rw [Kids.find, if_neg]
      · exact hf
      · rintro rfl; rw [hk1] at hf; cases hf
    have hlm := hl m u (by simp [Kids.find])
    by_cases hs : u.data.isSection = true
    · obtain ⟨s1, sec1, a1, b1, c1, e1⟩ := doc_run hi hcl u (p ++ [m]) s sec hk2
        (fun q => by rw [List.append_assoc]; exact hlm q) hs (fun h => by simp at h) hg
      obtain ⟨s', sec', a, b, c, e⟩ := docSubs_run hi hcl r p s1 sec1 hk3 hl' b1
      refine ⟨s', sec', ?_, b, fun q hq => c q (c1 q hq), ?_⟩
      · rw [Kids.docSubs, if_pos hs, List.map_append]
        exact Runs.trans a1 a
      · intro n c' hf hv q hq
        rw [Kids.find] at hf
        split at hf
        · rename_i e'; subst e'; cases hf
          have := c _ (e1 q hq)
          simpa using this
        · exact e n c' hf hv q hq
    · obtain ⟨s', sec', a, b, c, e⟩ := docSubs_run hi hcl r p s sec hk3 hl' hg
      refine ⟨s', sec', ?_, b, c, ?_⟩
      · rw [Kids.docSubs, if_neg hs]; exact a
      · intro n c' hf hv
        rw [Kids.find] at hf
        split at hf
        · cases hf; exact absurd hv hs
        · exact e n c' hf hv
end
end

/-! ## Spelling of the whole document -/

theorem docValues_spell (P : Printer) (p : List Chars) : ∀ (cs : Kids), cs.KeysOk →
    (∀ n c, cs.find n = some c → PlainName n ∧ c.data.fullName = joinPath (p ++ [n]) ∧
      (c.data.isSection = false → PlainOption P c.data)) →
    ∀ i ∈ cs.docValues P, Spells i.1 i.2 ∧ ∀ l ∈ i.2, '\n' ∉ l
  | .nil, _, _, i, hi => by simp [Kids.docValues] at hi
  | .cons m u r, hk, h, i, hi => by
    obtain ⟨hk1, hk2, hk3⟩ := hk
    rw [Kids.docValues] at hi
    rcases List.mem_append.1 hi with hi | hi
    · split at hi
      · simp at hi
      · rename_i hs
        have : i = _ := List.mem_singleton.1 hi
        subst this
        obtain ⟨hn, hf, ho⟩ := h m u (by simp [Kids.find])
        obtain ⟨a, b⟩ := fmtValue_line P u.data p m hn hf (ho (by simpa using hs))
        exact ⟨b, fun l hl => by rw [List.mem_singleton.1 hl]; exact a⟩
    · apply docValues_spell P p r hk3 ?_ i hi
      intro n c hf
      apply h n c
      rw [Kids.find, if_neg]
      · exact hf
      · rintro rfl; rw [hk1] at hf; cases hf

mutual
theorem doc_spell (P : Printer) : ∀ (u : Tree) (p : List Chars), u.KeysOk → (∀ n ∈ p, PlainName n) →
    (∀ q d, u.lookup q = some d → (∀ n ∈ q, PlainName n) ∧ d.fullName = joinPath (p ++ q) ∧
      (d.isSection = false → PlainOption P d)) →
    ∀ i ∈ u.doc P p, Spells i.1 i.2 ∧ ∀ l ∈ i.2, '\n' ∉ l
  | .node d cs, p, hk, hp, h, i, hi => by
    rw [Tree.doc] at hi
    rcases List.mem_append.1 hi with hi | hi
    · rcases List.mem_append.1 hi with hi | hi
      · split at hi
        · rename_i hc
          obtain ⟨a, b⟩ := header_line p hc.1 hp
          rcases List.mem_cons.1 hi with rfl | hi
          · refine ⟨⟨[], rfl, [], [], [], rfl, by simp, by simp, .inl rfl, by simp, by simp [Trimmed]⟩, ?_⟩
            intro l hl
            rw [List.mem_singleton.1 hl]; simp
          · have : i = _ := List.mem_singleton.1 hi
            subst this
            exact ⟨b, fun l hl => by rw [List.mem_singleton.1 hl]; exact a⟩
        · simp at hi
      · apply docValues_spell P p cs hk ?_ i hi
        intro n c hf
        obtain ⟨a, b, c'⟩ := h [n] c.data (by rw [lookup_node_cons, hf]; exact lookup_nil c)
        exact ⟨a n (by simp), b, c'⟩
    · apply docSubs_spell P cs p hk hp ?_ i hi
      intro n c hf q e he
      exact h (n :: q) e (by rw [lookup_node_cons, hf]; exact he)
theorem docSubs_spell (P : Printer) : ∀ (cs : Kids) (p : List Chars), cs.KeysOk → (∀ n ∈ p, PlainName n) →
    (∀ n c, cs.find n = some c → ∀ q d, c.lookup q = some d → (∀ m ∈ n :: q, PlainName m) ∧
      d.fullName = joinPath (p ++ n :: q) ∧ (d.isSection = false → PlainOption P d)) →
    ∀ i ∈ cs.docSubs P p, Spells i.1 i.2 ∧ ∀ l ∈ i.2, '\n' ∉ l
  | .nil, _, _, _, _, i, hi => by simp [Kids.docSubs] at hi
  | .cons m u r, p, hk, hp, h, i, hi => by
    obtain ⟨hk1, hk2, hk3⟩ := hk
    rw [Kids.docSubs] at hi
    have hm := h m u (by simp [Kids.find])
    rcases List.mem_append.1 hi with hi | hi
    · split at hi
      · apply doc_spell P u (p ++ [m]) hk2 ?_ ?_ i hi
        · intro n hn
          rcases List.mem_append.1 hn with hn | hn
          · exact hp n hn
          · rw [List.mem_singleton.1 hn]
            exact (hm [] u.data (lookup_nil u)).1 m (by simp)
        · intro q d hq
          obtain ⟨a, b, c⟩ := hm q d hq
          exact ⟨fun n hn => a n (by simp [hn]), by rw [b]; simp, c⟩
      · simp at hi
    · apply docSubs_spell P r p hk3 hp ?_ i hi
      intro n c hf
      apply h n c
      rw [Kids.find, if_neg]
      · exact hf
      · rintro rfl; rw [hk1] at hf; cases hf
end

/-- **C47.** Writing a tree of plain options to a file and reading that file into an empty tree succeeds, and the new tree
has a value at exactly the same paths; each is the text of the value written, marked as coming from that file and unused. -/
theorem C47_round_trip (P : Printer) (file : Chars) (t : Tree) (h : Writable P t) :
    ∃ t', writeRead P file t = (t', .ok ()) ∧
      (∀ q d, t.valueAt q = some d → ∃ d', t'.valueAt q = some d' ∧ d'.value = .str (P.toStr d.value) ∧
        d'.source = some file ∧ d'.used = false) ∧
      (∀ q, t.valueAt q = none → t'.valueAt q = none) := by
  have hcl : ∀ q d, t.lookup q = some d → Clean q := fun q d hq n hn => (h.plain q d hq n hn).1
  have hfmt := fmt_doc P t [] h.keys (fun q d hq => h.names q d hq) (by simp) hcl h.root
  have hspell := doc_spell P t [] h.keys (by simp) (fun q d hq => ⟨h.plain q d hq, h.names q d hq, fun hs =>
    h.value q d (by rw [Tree.valueAt, hq]; simp [hs])⟩)
  have hg0 : Good P file t emptyTree := by
    intro q d' hq
    rw [emptyTree, lookup_fresh] at hq
    split at hq
    · rename_i e; subst e
      refine ⟨t.data, lookup_nil t, ?_, ?_⟩
      · rw [h.root]; cases hq; rfl
      · intro hf; cases hq; cases hf
    · cases hq
  obtain ⟨s', sec', a, b, c, e⟩ := doc_run (P := P) (file := file) h.inv hcl t [] emptyTree [] h.keys (fun q => rfl) h.root
    (fun _ => rfl) hg0
  have hlines : fileLines (t.fmt P) = docLines (t.doc P [] ++ [((Item.blank : Item), ([[]] : List Chars))]) := by
    rw [hfmt, fileLines_unlines, docLines_append]
    · rfl
    · intro l hl
      obtain ⟨ls, h1, h2⟩ := List.mem_flatten.1 hl
      obtain ⟨i, hi, rfl⟩ := List.mem_map.1 h1
      exact (hspell i hi).2 l h2
  have hread : writeRead P file t = meaning file emptyTree []
      ((t.doc P [] ++ [((Item.blank : Item), ([[]] : List Chars))]).map (·.1)) := by
    unfold writeRead readIni
    rw [hlines]
    apply C13_ini
    intro i hi
    rcases List.mem_append.1 hi with hi | hi
    · exact (hspell i hi).1
    · rw [List.mem_singleton.1 hi]
      exact ⟨[], rfl, [], [], [], rfl, by simp, by simp, .inl rfl, by simp, by simp [Trimmed]⟩
  refine ⟨s', ?_, ?_, ?_⟩
  · rw [hread, List.map_append, a]
    rfl
  · intro q d hq
    have hq' : t.lookup q = some d ∧ d.isSection = false := by
      rw [Tree.valueAt, Option.filter_eq_some_iff] at hq
      simpa using hq
    obtain ⟨d', hd', hs'⟩ := e q ⟨d, hq'⟩
    rw [List.nil_append] at hd'
    obtain ⟨d1, hd1, -, hv⟩ := b q d' hd'
    rw [hq'.1] at hd1; cases hd1
    exact ⟨d', by rw [Tree.valueAt, hd']; simp [hs'], hv hs'⟩
  · intro q hq
    rw [Tree.valueAt, Option.filter_eq_none_iff] at hq ⊢
    intro d' hd'
    obtain ⟨d, hd, hs, -⟩ := b q d' hd'
    have := hq d hd
    rw [hs] at this
    exact this

/-- **C47.** The structural conditions hold for every tree the API builds from an empty one by any history of calls; what is
left to the user is that names and values are plain. -/
theorem C47_history (env : Env) (P : Printer) (file : Chars) (ops : List Op) (hc : ∀ op ∈ ops, Clean op.path)
    (hne : ∀ op ∈ ops, op.path ≠ [])
    (hplain : ∀ q d, (run env emptyTree ops).lookup q = some d → ∀ n ∈ q, PlainName n)
    (hval : ∀ q d, (run env emptyTree ops).valueAt q = some d → PlainOption P d) :
    ∃ t', writeRead P file (run env emptyTree ops) = (t', .ok ()) ∧
      ∀ q, (t'.valueAt q).map (·.value) = ((run env emptyTree ops).valueAt q).map (fun d => .str (P.toStr d.value)) := by
  have hw : Writable P (run env emptyTree ops) :=
    { keys := run_keysOk env ops _ trivial
      inv := C09_reachable_inv env ops hc
      root := run_root_section env ops hc hne _ rfl
      names := fun q d hq => C11_full_names_partial env ops hc q (fun n hn => (hplain q d hq n hn).1) d hq
      plain := hplain
      value := hval }
  obtain ⟨t', h1, h2, h3⟩ := C47_round_trip P file _ hw
  refine ⟨t', h1, ?_⟩
  intro q
  cases hq : (run env emptyTree ops).valueAt q with
  | none => rw [h3 q hq]; rfl
  | some d =>
    obtain ⟨d', hd', hv, -⟩ := h2 q d hq
    rw [hd']
    simp [hv]

theorem round_int (i : Int) : round (i : ℚ) = i := by
  unfold round
  split
  · rw [Int.floor_eq_iff]; constructor <;> linarith
  · rw [Int.ceil_eq_iff]; constructor <;> linarith

/-- **C47.** Reading with a type: every typed read that succeeds on the original option gives the same value after the round
trip, provided integers and reals are printed with enough digits (`hi`, `hr`). -/
theorem C47_typed_read (env : Env) (P : Printer) (file : Chars) (t : Tree) (h : Writable P t) (hp : P.toStr = env.toStr)
    (hs : ∀ s, env.toStr (.str s) = s) (hb : ∀ b, env.toStr (.bool b) = if b then "true".toList else "false".toList)
    (hi : ∀ i, env.eval (env.toStr (.int i)) = .ok (i : ℚ)) (hr : ∀ r, env.eval (env.toStr (.real r)) = .ok r)
    (q : List Chars) (d : Data) (hq : t.valueAt q = some d) (harr : ∀ l, d.value ≠ .arr l) (ty : Ty) (v : Val)
    (hv : convert env ty d.value = .ok v) :
    ∃ t' d', writeRead P file t = (t', .ok ()) ∧ t'.valueAt q = some d' ∧ convert env ty d'.value = .ok v := by
  obtain ⟨t', h1, h2, -⟩ := C47_round_trip P file t h
  obtain ⟨d', hd', hval, -⟩ := h2 q d hq
  refine ⟨t', d', h1, hd', ?_⟩
  rw [hval, hp]
  cases hdv : d.value with
  | arr l => exact absurd hdv (harr l)
  | str s => rw [hs, ← hdv]; exact hv
  | bool b =>
    rw [hdv] at hv
    cases ty with
    | str =>
      simp only [convert] at hv ⊢
      rw [hs]; exact hv
    | bool =>
      simp only [convert] at hv ⊢
      rw [hb]
      cases b
      · have : boolOfStr "false".toList = some false := by decide
        simp only [Bool.false_eq_true, if_false, this]; exact hv
      · have : boolOfStr "true".toList = some true := by decide
        simp only [if_true, this]; exact hv
    | int => simp [convert] at hv
    | real => simp [convert] at hv
  | int i =>
    rw [hdv] at hv
    cases ty with
    | str =>
      simp only [convert] at hv ⊢
      rw [hs]; exact hv
    | int =>
      simp only [convert, hi] at hv ⊢
      rw [← hv]
      unfold intOfReal
      rw [round_int, if_neg (by norm_num)]
    | real => simp only [convert, hi] at hv ⊢; exact hv
    | bool => simp [convert] at hv
  | real r =>
    rw [hdv] at hv
    cases ty with
    | str =>
      simp only [convert] at hv ⊢
      rw [hs]; exact hv
    | int => simp only [convert, hr] at hv ⊢; exact hv
    | real => simp only [convert, hr] at hv ⊢; exact hv
    | bool => simp [convert] at hv

/-! ## Where the round trip fails -/

/-- A printer for strings and bools, no documentation. -/
def plainPrinter : Printer :=
  ⟨fun v => match v with
    | .str s => s
    | .bool b => if b then "true".toList else "false".toList
    | _ => [], fun _ => none, fun _ => none⟩

def plainEnv : Env := ⟨fun _ => .error (.exc "no evaluator"), plainPrinter.toStr⟩

/-- Violation: a string with a comment character loses its tail, without an error. -/
theorem C47_comment_violated :
    let t := run plainEnv emptyTree [.assign [['a']] (.str "x;y".toList) ['f']]
    (writeRead plainPrinter ['g'] t).2 = .ok () ∧
      ((writeRead plainPrinter ['g'] t).1.valueAt [['a']]).map (·.value) = some (.str ['x']) := by decide +kernel

/-- Violation: a string with an open bracket swallows the options written after it, without an error. -/
theorem C47_bracket_violated :
    let t := run plainEnv emptyTree [.assign [['a']] (.str "(".toList) ['f'], .assign [['b']] (.str ")".toList) ['f']]
    (writeRead plainPrinter ['g'] t).2 = .ok () ∧
      ((writeRead plainPrinter ['g'] t).1.valueAt [['a']]).map (·.value) = some (.str "(b = )".toList) ∧
      (writeRead plainPrinter ['g'] t).1.valueAt [['b']] = none := by decide +kernel

/-- Violation: spaces or quotes at the ends of a string are lost. -/
theorem C47_quotes_violated :
    let t := run plainEnv emptyTree [.assign [['a']] (.str "\"x\" ".toList) ['f']]
    ((writeRead plainPrinter ['g'] t).1.valueAt [['a']]).map (·.value) = some (.str ['x']) := by decide +kernel

/-- Violation: a line end in the documentation of an option makes the rest of the documentation an option. -/
theorem C47_doc_newline_violated :
    let t := run plainEnv emptyTree [.assign [['a']] (.str "x".toList) ['f']]
    let P := { plainPrinter with doc := fun _ => some "one\ntwo".toList }
    (writeRead P ['g'] t).1.valueAt ["two, source: f".toList] = none ∧
      (writeRead P ['g'] t).1.valueAt ["two, source".toList, " f".toList] ≠ none ∧ (writeRead P ['g'] t).2 = .ok () := by
  decide +kernel

/-- Violation: reals are printed through a stream with its default precision (utils.hxx:533-539), so what is read back is a
decimal with at most six significant digits; the value 1234567 comes back as something else. -/
theorem C47_precision_violated (env : Env) (P : Printer) (file : Chars) (hp : P.toStr = env.toStr)
    (hdoc : P.doc = fun _ => none) (htyp : P.typ = fun _ => none)
    (hplain : PlainValue (env.toStr (.real 1234567)))
    (hsix : ∀ r : ℚ, ∃ (m : Int) (e : Int), |m| < 10 ^ 6 ∧ env.eval (env.toStr (.real r)) = .ok (m * (10 : ℚ) ^ e)) :
    ∃ t' d', writeRead P file (run env emptyTree [.assign [['a']] (.real 1234567) ['f']]) = (t', .ok ()) ∧
      t'.valueAt [['a']] = some d' ∧ convert env .real d'.value ≠ .ok (.real 1234567) := by
  have hrun : run env emptyTree [.assign [['a']] (.real 1234567) ['f']] =
      .node {} (.cons ['a'] (.node { fullName := ['a'], value := .real 1234567, source := some ['f'], isSection := false }
        .nil) .nil) := rfl
  have hlook : ∀ q d, (run env emptyTree [.assign [['a']] (.real 1234567) ['f']]).lookup q = some d → q = [] ∨
      (q = [['a']] ∧ d = { fullName := ['a'], value := .real 1234567, source := some ['f'], isSection := false }) := by
    intro q d hq
    rw [hrun] at hq
    cases q with
    | nil => exact .inl rfl
    | cons n q =>
      right
      rw [lookup_node_cons, Kids.find] at hq
      split at hq
      · rename_i e; subst e
        rw [Option.bind_some] at hq
        cases q with
        | nil =>
          rw [lookup_nil] at hq
          exact ⟨rfl, by cases hq; rfl⟩
        | cons m q => rw [lookup_node_cons, Kids.find] at hq; simp at hq
      · simp [Kids.find] at hq
  have hva : (run env emptyTree [.assign [['a']] (.real 1234567) ['f']]).valueAt [['a']] =
      some { fullName := ['a'], value := .real 1234567, source := some ['f'], isSection := false } := rfl
  obtain ⟨t', h1, h2⟩ := C47_history env P file [.assign [['a']] (.real 1234567) ['f']]
    (by intro op ho; rw [List.mem_singleton.1 ho]; intro n hn; rw [List.mem_singleton.1 hn]; simp)
    (by intro op ho; rw [List.mem_singleton.1 ho]; simp [Op.path])
    (by
      intro q d hq n hn
      rcases hlook q d hq with rfl | ⟨rfl, -⟩
      · simp at hn
      · rw [List.mem_singleton.1 hn]
        exact ⟨by simp, ⟨by decide, by decide⟩, by decide⟩)
    (by
      intro q d hq
      have hl : (run env emptyTree [.assign [['a']] (.real 1234567) ['f']]).lookup q = some d := by
        rw [Tree.valueAt, Option.filter_eq_some_iff] at hq; exact hq.1
      rcases hlook q d hl with rfl | ⟨-, rfl⟩
      · rw [Tree.valueAt, Option.filter_eq_some_iff] at hq
        have hd : d = {} := by rw [hrun, lookup_nil] at hl; cases hl; rfl
        rw [hd] at hq
        exact absurd hq.2 (by decide)
      · refine ⟨by rw [hp]; exact hplain, ?_, ?_, ?_⟩
        · intro s hs; cases hs; decide
        · intro s hs; rw [htyp] at hs; cases hs
        · intro s hs; rw [hdoc] at hs; cases hs)
  have h3 := h2 [['a']]
  rw [hva] at h3
  cases hv : t'.valueAt [['a']] with
  | none => rw [hv] at h3; simp at h3
  | some d' =>
    rw [hv] at h3
    have h4 : d'.value = .str (P.toStr (.real 1234567)) := by simpa using h3
    refine ⟨t', d', h1, hv, ?_⟩
    rw [h4, hp]
    obtain ⟨m, e, hm, he⟩ := hsix 1234567
    simp only [convert, he]
    intro heq
    have hq : (m : ℚ) * 10 ^ e = 1234567 := by
      injection heq with heq
      injection heq
    have hm' := abs_lt.1 hm
    rcases le_or_gt 1 e with h | h
    · obtain ⟨k, rfl⟩ : ∃ k : Nat, e = k + 1 := ⟨(e - 1).toNat, by omega⟩
      have : (m * 10 ^ k * 10 : Int) = 1234567 := by
        have : ((m * 10 ^ k * 10 : Int) : ℚ) = 1234567 := by
          push_cast
          rw [← hq, zpow_add₀ (by norm_num), zpow_natCast]; ring
        exact_mod_cast this
      omega
    · obtain ⟨k, rfl⟩ : ∃ k : Nat, e = -(k : Int) := ⟨(-e).toNat, by omega⟩
      have h10 : (1 : ℚ) ≤ 10 ^ k := one_le_pow₀ (by norm_num)
      have : (m : ℚ) = 1234567 * 10 ^ k := by
        rw [zpow_neg, zpow_natCast] at hq
        field_simp at hq
        linarith
      have hlt : (m : ℚ) < 10 ^ 6 := by exact_mod_cast hm'.2
      nlinarith

/-- A tree with nested sections, an empty string, a bool and a value in a section without siblings. -/
def exTree : Tree := run plainEnv emptyTree [.assign ["nout".toList] (.str "10".toList) "BOUT.inp".toList,
  .assign ["mesh".toList, "ddx".toList, "first".toList] (.str "C2".toList) "BOUT.inp".toList,
  .withDefault ["mesh".toList, "file".toList] .str (.str []), .withDefault ["solver".toList, "mms".toList] .bool (.bool false)]

example : String.ofList (exTree.fmt plainPrinter) =
    "nout = 10\t\t# unused value (NOT marked conditionally used), source: BOUT.inp\n" ++
    "\n[mesh]\nfile = \"\"\t\t# source: default\n" ++
    "\n[mesh:ddx]\nfirst = C2\t\t# unused value (NOT marked conditionally used), source: BOUT.inp\n" ++
    "\n[solver]\nmms = false\t\t# source: default\n" := by decide +kernel

example : (writeRead plainPrinter ['g'] exTree).2 = .ok () ∧
    ((writeRead plainPrinter ['g'] exTree).1.valueAt ["mesh".toList, "file".toList]).map (·.value) = some (.str []) ∧
    ((writeRead plainPrinter ['g'] exTree).1.valueAt ["mesh".toList, "ddx".toList, "first".toList]).map (·.value) =
      some (.str "C2".toList) := by decide +kernel

mutual
/-- A check of every node. -/
def Tree.allB (f : List Chars → Data → Bool) (p : List Chars) : Tree → Bool
  | .node d cs => f p d && cs.allB f p
def Kids.allB (f : List Chars → Data → Bool) (p : List Chars) : Kids → Bool
  | .nil => true
  | .cons n t r => t.allB f (p ++ [n]) && r.allB f p
end

mutual
theorem allB_lookup (f : List Chars → Data → Bool) : ∀ (t : Tree) (p q : List Chars) (d : Data), t.allB f p = true →
    t.lookup q = some d → f (p ++ q) d = true
  | .node e cs, p, [], d, h, hl => by
    rw [lookup_nil] at hl
    cases hl
    simp only [Tree.allB, Bool.and_eq_true] at h
    rw [List.append_nil]; exact h.1
  | .node e cs, p, n :: q, d, h, hl => by
    simp only [Tree.allB, Bool.and_eq_true] at h
    rw [lookup_node_cons] at hl
    cases hf : cs.find n with
    | none => simp [hf] at hl
    | some c =>
      rw [hf, Option.bind_some] at hl
      exact allB_find f cs p n c h.2 hf q d hl
theorem allB_find (f : List Chars → Data → Bool) : ∀ (cs : Kids) (p : List Chars) (n : Chars) (c : Tree),
    cs.allB f p = true → cs.find n = some c → ∀ q d, c.lookup q = some d → f (p ++ n :: q) d = true
  | .nil, _, _, _, _, hf => by simp [Kids.find] at hf
  | .cons m u r, p, n, c, h, hf => by
    simp only [Kids.allB, Bool.and_eq_true] at h
    rw [Kids.find] at hf
    split at hf
    · rename_i e
      cases hf
      subst e
      intro q d hq
      have := allB_lookup f u (p ++ [m]) q d h.1 hq
      simpa using this
    · exact allB_find f r p n c h.2 hf
end

instance : DecidablePred PlainName := fun n => by unfold PlainName Trimmed; infer_instance
instance : DecidablePred PlainValue := fun n => by unfold PlainValue Trimmed; infer_instance
instance (P : Printer) : DecidablePred (PlainOption P) := fun d => by unfold PlainOption; infer_instance

/-- `exTree` meets the hypotheses of `C47_history`. -/
example : ∃ t', writeRead plainPrinter "BOUT.settings".toList exTree = (t', .ok ()) ∧
    ∀ q, (t'.valueAt q).map (·.value) = (exTree.valueAt q).map (fun d => .str (plainPrinter.toStr d.value)) := by
  have hall : exTree.allB (fun q d => decide (∀ n ∈ q, PlainName n) && (d.isSection || decide (PlainOption plainPrinter d)))
      [] = true := by decide +kernel
  apply C47_history
  · unfold Clean; decide +kernel
  · decide +kernel
  · intro q d hq
    have := allB_lookup _ _ _ _ _ hall hq
    simp only [List.nil_append, Bool.and_eq_true, decide_eq_true_eq] at this
    exact this.1
  · intro q d hq
    rw [Tree.valueAt, Option.filter_eq_some_iff] at hq
    have := allB_lookup _ _ _ _ _ hall hq.1
    simp only [List.nil_append, Bool.and_eq_true, decide_eq_true_eq, Bool.or_eq_true] at this
    rcases this.2 with h | h
    · have h2 := hq.2
      rw [h] at h2; cases h2
    · exact h

end Verif.Opt
