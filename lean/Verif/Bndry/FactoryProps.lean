import Verif.Bndry.Factory
import Mathlib.Data.List.Basic
import Mathlib.Order.Basic
import Mathlib.Data.Int.Basic
import Mathlib.Data.Int.Order.Basic

/-!
# C62: boundary condition strings mean what they say
-/

namespace Verif.Bndry

open Verif.Str

/-! ## Specification -/

/-- Text with matched brackets; `commas` tells whether commas are allowed outside the brackets. -/
inductive Nest : Bool → Chars → Prop
  | nil (b : Bool) : Nest b []
  | char (b : Bool) (c : Char) (s : Chars) (hb : c ∉ ['(', '[', '<', ')', ']', '>']) (hc : c = ',' → b = true) (h : Nest b s) : Nest b (c :: s)
  | group (b : Bool) (o c : Char) (ho : o ∈ ['(', '[', '<']) (hc : c ∈ [')', ']', '>']) (i s : Chars) (hi : Nest true i) (h : Nest b s) :
      Nest b (o :: (i ++ c :: s))

/-- No white space at the ends. -/
def Tight (s : Chars) : Prop := (∀ c t, s = c :: t → c ∉ ws) ∧ ∀ c t, s = t ++ [c] → c ∉ ws

/-- The name of a condition. -/
def IsName (n : Chars) : Prop := n ≠ [] ∧ Tight n ∧ '(' ∉ n

/-- `text` is `item` with white space around. -/
def Padded (item text : Chars) : Prop := ∃ l r, (∀ c ∈ l, c ∈ ws) ∧ (∀ c ∈ r, c ∈ ws) ∧ text = l ++ item ++ r

/-- `items` written with commas between them. -/
inductive Written : List Chars → Chars → Prop
  | one (a t : Chars) (h : Padded a t) : Written [a] t
  | more (a t : Chars) (as : List Chars) (s : Chars) (h : Padded a t) (hs : Written as s) : Written (a :: as) (t ++ ',' :: s)

/-- An argument: brackets matched, no comma outside brackets, no equals sign. -/
def IsArg (a : Chars) : Prop := Tight a ∧ Nest false a ∧ '=' ∉ a

/-- The documented syntax: `text` stands for the condition `b` on a (parallel or not) boundary. -/
inductive Denotes (F : Factory) (par : Bool) : Chars → Bc → Prop
  | none : Denotes F par "none".toList .nothing
  | null : Denotes F par "null".toList .nothing
  | bare (n : Chars) (hn : IsName n) (h : lower n ∈ F.names par) (hok : F.opOk (lower n) [] = true)
      (hne : n ≠ "none".toList ∧ n ≠ "null".toList) : Denotes F par n (.op (lower n) [])
  | call (n w : Chars) (args : List Chars) (body : Chars) (hn : IsName n) (hw : ∀ c ∈ w, c ∈ ws) (ha : ∀ a ∈ args, IsArg a)
      (hb : Written args body) (hm : lower n ∉ F.mods) (h : lower n ∈ F.names par) (hok : F.opOk (lower n) args = true) :
      Denotes F par (n ++ w ++ '(' :: (body ++ [')'])) (.op (lower n) args)
  | modify (hp : par = false) (n w inner : Chars) (b : Bc) (args : List Chars) (body : Chars) (hn : IsName n) (hw : ∀ c ∈ w, c ∈ ws)
      (hi : Denotes F par inner b) (hia : IsArg inner) (ha : ∀ a ∈ args, IsArg a) (hb : Written (inner :: args) body) (hm : lower n ∈ F.mods)
      (hok : F.modOk (lower n) args = true) (hne : b ≠ .nothing) :
      Denotes F par (n ++ w ++ '(' :: (body ++ [')'])) (.mod (lower n) b args)
  | modifyNothing (n w inner : Chars) (args : List Chars) (body : Chars) (hn : IsName n) (hw : ∀ c ∈ w, c ∈ ws)
      (hi : Denotes F par inner .nothing) (hia : IsArg inner) (ha : ∀ a ∈ args, IsArg a) (hb : Written (inner :: args) body) (hm : lower n ∈ F.mods) :
      Denotes F par (n ++ w ++ '(' :: (body ++ [')'])) .nothing

/-! ## Splitting -/

/-- Put text before the first piece. -/
def pre (a : Chars) : List Chars → List Chars
  | [] => [a]
  | p :: ps => (a ++ p) :: ps

theorem splitTop_ne (l : Int) (s : Chars) : splitTop l s ≠ [] := by
  cases s with
  | nil => simp [splitTop]
  | cons c cs =>
    rw [splitTop]
    split
    · simp
    · split <;> simp

theorem pre_pre (a b : Chars) (l : List Chars) (h : l ≠ []) : pre a (pre b l) = pre (a ++ b) l := by
  cases l with
  | nil => exact absurd rfl h
  | cons p ps => simp [pre]

theorem pre_nil (l : List Chars) (h : l ≠ []) : pre [] l = l := by
  cases l with
  | nil => exact absurd rfl h
  | cons p ps => simp [pre]

theorem splitTop_cons (l : Int) (c : Char) (cs : Chars) (h : ¬ (c = ',' ∧ l = 0)) : splitTop l (c :: cs) = pre [c] (splitTop (l + delta c) cs) := by
  rw [splitTop, if_neg h]
  cases splitTop (l + delta c) cs <;> rfl

theorem splitTop_nest {b : Bool} {a : Chars} (h : Nest b a) : ∀ (l : Int) (rest : Chars), 0 ≤ l → (b = true → 0 < l) →
    splitTop l (a ++ rest) = pre a (splitTop l rest) := by
  induction h with
  | nil b => intro l rest _ _; simp [pre_nil _ (splitTop_ne l rest)]
  | char b c s hb hc hs ih =>
    intro l rest h0 h1
    rw [List.cons_append, splitTop_cons _ _ _ (by rintro ⟨e, e2⟩; have := h1 (hc e); omega)]
    have e : delta c = 0 := by
      simp only [List.mem_cons, List.not_mem_nil, or_false, not_or] at hb
      unfold delta
      rw [if_neg (by tauto), if_neg (by tauto)]
    rw [e, Int.add_zero, ih l rest h0 h1, pre_pre _ _ _ (splitTop_ne _ _)]
    rfl
  | group b o c ho hc i s hi hs ihi ihs =>
    intro l rest h0 h1
    have eo : delta o = 1 := by
      simp only [List.mem_cons, List.not_mem_nil, or_false] at ho
      unfold delta
      rw [if_pos (by tauto)]
    have ec : delta c = -1 := by
      simp only [List.mem_cons, List.not_mem_nil, or_false] at hc
      unfold delta
      rw [if_neg (by rcases hc with rfl | rfl | rfl <;> decide), if_pos (by tauto)]
    have no : o ≠ ',' := by simp only [List.mem_cons, List.not_mem_nil, or_false] at ho; rcases ho with rfl | rfl | rfl <;> decide
    have nc : c ≠ ',' := by simp only [List.mem_cons, List.not_mem_nil, or_false] at hc; rcases hc with rfl | rfl | rfl <;> decide
    rw [List.cons_append, splitTop_cons _ _ _ (by rintro ⟨e, -⟩; exact no e), eo, List.append_assoc, ihi (l + 1) _ (by omega) (fun _ => by omega),
      List.cons_append, splitTop_cons _ _ _ (by rintro ⟨e, -⟩; exact nc e), ec, show l + 1 + -1 = l by omega, ihs l rest h0 h1,
      pre_pre _ _ _ (splitTop_ne _ _), pre_pre _ _ _ (splitTop_ne _ _), pre_pre _ _ _ (splitTop_ne _ _)]
    simp

theorem nest_ws {l : Chars} (h : ∀ c ∈ l, c ∈ ws) (b : Bool) : Nest b l := by
  induction l with
  | nil => exact .nil b
  | cons c t ih =>
    have hc : c ∈ ws := h c (by simp)
    simp only [ws, List.mem_cons, List.not_mem_nil, or_false] at hc
    refine .char b c t ?_ ?_ (ih (fun x hx => h x (by simp [hx])))
    · rcases hc with rfl | rfl | rfl <;> decide
    · intro e; subst e; exact absurd hc (by decide)

theorem nest_append {b : Bool} {s t : Chars} (hs : Nest b s) (ht : Nest b t) : Nest b (s ++ t) := by
  induction hs with
  | nil b => simpa using ht
  | char b c s hb hc h ih => exact .char b c _ hb hc (ih ht)
  | group b o c ho hc i s hi h _ ih2 =>
    rw [List.cons_append, List.append_assoc, List.cons_append]
    exact .group b o c ho hc i _ hi (ih2 ht)

theorem padded_nest {a t : Chars} (h : Padded a t) (ha : Nest false a) : Nest false t := by
  obtain ⟨l, r, hl, hr, rfl⟩ := h
  exact nest_append (nest_append (nest_ws hl _) ha) (nest_ws hr _)

/-! ## Trimming -/

theorem dropWhile_all {p : Char → Bool} {l s : Chars} (h : ∀ c ∈ l, p c = true) : (l ++ s).dropWhile p = s.dropWhile p := by
  induction l with
  | nil => rfl
  | cons c t ih =>
    rw [List.cons_append, List.dropWhile_cons, if_pos (h c (by simp))]
    exact ih (fun x hx => h x (by simp [hx]))

theorem trim_padded {a t : Chars} (h : Padded a t) (ha : Tight a) : trim t ws = a := by
  obtain ⟨l, r, hl, hr, rfl⟩ := h
  have hr' : ∀ c ∈ r.reverse, decide (c ∈ ws) = true := fun c hc => by simpa using hr c (by simpa using hc)
  have hl' : ∀ c ∈ l, decide (c ∈ ws) = true := fun c hc => by simpa using hl c hc
  have hl'' : ∀ c ∈ l.reverse, decide (c ∈ ws) = true := fun c hc => by simpa using hl c (by simpa using hc)
  unfold trim trimLeft trimRight
  rw [List.reverse_append, dropWhile_all hr', List.reverse_append]
  cases a using List.reverseRecOn with
  | nil =>
    have := dropWhile_all (p := fun x => decide (x ∈ ws)) (s := []) hl''
    simp only [List.append_nil] at this
    simp [this]
  | append_singleton a c _ =>
    have hc : c ∉ ws := ha.2 c a rfl
    rw [List.reverse_append, List.reverse_singleton, List.singleton_append, List.cons_append, List.dropWhile_cons, if_neg (by simpa using hc),
      List.reverse_cons, List.reverse_append, List.reverse_reverse, List.reverse_reverse, List.append_assoc, dropWhile_all hl']
    generalize hb : a ++ [c] = b at ha
    cases b with
    | nil => simp at hb
    | cons d b =>
      have hd : d ∉ ws := ha.1 d b rfl
      rw [List.dropWhile_cons, if_neg (by simpa using hd)]

theorem trim_tight {a : Chars} (ha : Tight a) : trim a ws = a :=
  trim_padded ⟨[], [], by simp, by simp, by simp⟩ ha

/-- Trimming the whole does not change the trimmed pieces. -/
theorem written_split {args : List Chars} {body : Chars} (hb : Written args body) : (∀ a ∈ args, IsArg a) →
    (splitTop 0 body).map (trim · ws) = args ∧ ∀ p ∈ splitTop 0 body, '=' ∉ p := by
  have noeq : ∀ {a t : Chars}, Padded a t → '=' ∉ a → '=' ∉ t := by
    rintro a t ⟨l, r, hl, hr, rfl⟩ ha h
    simp only [List.mem_append] at h
    rcases h with (h | h) | h
    · exact absurd (hl _ h) (by decide)
    · exact ha h
    · exact absurd (hr _ h) (by decide)
  induction hb with
  | one a t h =>
    intro ha
    have hn := ha a (by simp)
    have e := splitTop_nest (padded_nest h hn.2.1) 0 [] le_rfl (by simp)
    rw [List.append_nil] at e
    rw [e]
    simp only [splitTop, pre, List.append_nil, List.map_cons, List.map_nil, trim_padded h hn.1, List.mem_singleton, forall_eq, true_and]
    exact noeq h hn.2.2
  | more a t as s h hs ih =>
    intro ha
    have hn := ha a (by simp)
    have e := splitTop_nest (padded_nest h hn.2.1) 0 (',' :: s) le_rfl (by simp)
    obtain ⟨i1, i2⟩ := ih (fun x hx => ha x (by simp [hx]))
    rw [e, splitTop, if_pos ⟨rfl, rfl⟩]
    simp only [pre, List.append_nil, List.map_cons, i1, trim_padded h hn.1, List.mem_cons, forall_eq_or_imp, true_and]
    exact ⟨noeq h hn.2.2, i2⟩

/-- White space at the left end. -/
theorem splitTop_ws_left {l : Chars} (hl : ∀ c ∈ l, c ∈ ws) (lev : Int) (s : Chars) : splitTop lev (l ++ s) = pre l (splitTop lev s) := by
  induction l with
  | nil => simp [pre_nil _ (splitTop_ne lev s)]
  | cons c t ih =>
    have hc : c ∈ ws := hl c (by simp)
    have e : delta c = 0 ∧ c ≠ ',' := by
      simp only [ws, List.mem_cons, List.not_mem_nil, or_false] at hc
      rcases hc with rfl | rfl | rfl <;> decide
    rw [List.cons_append, splitTop_cons _ _ _ (fun h => e.2 h.1), e.1, Int.add_zero, ih (fun x hx => hl x (by simp [hx])), pre_pre _ _ _ (splitTop_ne _ _)]
    rfl

/-- White space at the right end. -/
theorem splitTop_ws_right {r : Chars} (hr : ∀ c ∈ r, c ∈ ws) (s : Chars) : ∀ lev : Int, ∃ init last, splitTop lev s = init ++ [last] ∧
    splitTop lev (s ++ r) = init ++ [last ++ r] := by
  induction s with
  | nil =>
    intro lev
    refine ⟨[], [], rfl, ?_⟩
    have := splitTop_ws_left hr lev []
    simpa [splitTop, pre] using this
  | cons c t ih =>
    intro lev
    rw [List.cons_append]
    by_cases h : c = ',' ∧ lev = 0
    · obtain ⟨i, a, h1, h2⟩ := ih lev
      refine ⟨[] :: i, a, ?_, ?_⟩
      · rw [splitTop, if_pos h, h1]; rfl
      · rw [splitTop, if_pos h, h2]; rfl
    · obtain ⟨i, a, h1, h2⟩ := ih (lev + delta c)
      rw [splitTop_cons _ _ _ h, splitTop_cons _ _ _ h, h1, h2]
      cases i with
      | nil => exact ⟨[], c :: a, rfl, rfl⟩
      | cons p ps => exact ⟨(c :: p) :: ps, a, rfl, rfl⟩

theorem trim_around {l r : Chars} (hl : ∀ c ∈ l, c ∈ ws) (hr : ∀ c ∈ r, c ∈ ws) (s : Chars) : trim (l ++ s ++ r) ws = trim s ws := by
  obtain ⟨p, q, e, hp, hq, h1, h2⟩ := C36_trim s ws
  refine trim_padded ⟨l ++ p, q ++ r, ?_, ?_, ?_⟩ ⟨fun c t h => h1 c t h, fun c t h => h2 c t h⟩
  · intro c hc; rcases List.mem_append.1 hc with h | h; exacts [hl c h, hp c h]
  · intro c hc; rcases List.mem_append.1 hc with h | h; exacts [hq c h, hr c h]
  · conv_lhs => rw [e]
    simp

/-- Trimming the whole does not change the trimmed pieces. -/
theorem split_trim (body : Chars) : (splitTop 0 (trim body ws)).map (trim · ws) = (splitTop 0 body).map (trim · ws) ∧
    ((∀ p ∈ splitTop 0 body, '=' ∉ p) → ∀ p ∈ splitTop 0 (trim body ws), '=' ∉ p) := by
  obtain ⟨p, q, e, hp, hq, -, -⟩ := C36_trim body ws
  obtain ⟨i, a, h1, h2⟩ := splitTop_ws_right hq (trim body ws) 0
  have h3 : splitTop 0 body = pre p (i ++ [a ++ q]) := by
    conv_lhs => rw [e]
    rw [List.append_assoc, splitTop_ws_left hp, h2]
  have hn : ∀ c ∈ ([] : Chars), c ∈ ws := by simp
  rw [h1, h3]
  cases i with
  | nil =>
    constructor
    · have := trim_around hp hq a
      simp only [List.nil_append, pre, List.map_cons, List.map_nil]
      rw [← List.append_assoc, this]
    · intro h x hx
      simp only [List.nil_append, List.mem_singleton] at hx
      subst hx
      have := h (p ++ (x ++ q)) (by simp [pre])
      simp only [List.mem_append, not_or] at this
      exact this.2.1
  | cons b bs =>
    constructor
    · have e1 := trim_around hn hq a
      have e2 := trim_around hp hn b
      rw [List.append_nil] at e2
      rw [List.nil_append] at e1
      simp only [List.cons_append, pre, List.map_cons, List.map_append, List.map_nil, e1, e2]
    · intro h x hx
      simp only [List.cons_append, List.mem_cons, List.mem_append] at hx
      rcases hx with rfl | hx | hx
      · have := h (p ++ x) (by simp [pre])
        simp only [List.mem_append, not_or] at this
        exact this.2
      · exact h x (by simp [pre, hx])
      · rcases hx with rfl | hx
        · have := h (x ++ q) (by simp [pre])
          simp only [List.mem_append, not_or] at this
          exact this.1
        · simp at hx

theorem between_snoc (body : Chars) : between (body ++ [')']) = body := by
  unfold between
  rw [if_pos (by simp)]
  simp

theorem takeWhile_name {n w : Chars} (hn : '(' ∉ n) (hw : ∀ c ∈ w, c ∈ ws) (rest : Chars) :
    (n ++ w ++ '(' :: rest).takeWhile (fun c => decide (c ≠ '(')) = n ++ w ∧ (n ++ w ++ '(' :: rest).dropWhile (fun c => decide (c ≠ '(')) = '(' :: rest := by
  have h : ∀ c ∈ n ++ w, decide (c ≠ '(') = true := by
    intro c hc
    rcases List.mem_append.1 hc with h | h
    · simp only [ne_eq, decide_not, Bool.not_eq_eq_eq_not, Bool.not_true, decide_eq_false_iff_not]
      rintro rfl; exact hn h
    · have := hw c h
      simp only [ne_eq, decide_not, Bool.not_eq_eq_eq_not, Bool.not_true, decide_eq_false_iff_not]
      rintro rfl; exact absurd this (by decide)
  constructor
  · rw [List.takeWhile_append_of_pos h]
    simp
  · rw [dropWhile_all h]
    simp

/-- The parts of `name(args)`. -/
theorem call_parts {n w body : Chars} {args : List Chars} (hn : IsName n) (hw : ∀ c ∈ w, c ∈ ws) (ha : ∀ a ∈ args, IsArg a) (hb : Written args body) :
    let name := n ++ w ++ '(' :: (body ++ [')'])
    let pieces := splitTop 0 (trim (between (name.dropWhile (fun c => decide (c ≠ '('))).tail) ws)
    lower (trim (name.takeWhile (fun c => decide (c ≠ '('))) ws) = lower n ∧ positional pieces = args ∧ keywords pieces = [] := by
  obtain ⟨e1, e2⟩ := takeWhile_name hn.2.2 hw (body ++ [')'])
  obtain ⟨s1, s2⟩ := written_split hb ha
  obtain ⟨t1, t2⟩ := split_trim body
  dsimp only
  rw [e1, e2, List.tail_cons, between_snoc]
  refine ⟨?_, ?_, ?_⟩
  · congr 1
    exact trim_padded ⟨[], w, by simp, hw, by simp⟩ hn.2.1
  · unfold positional
    rw [List.filter_eq_self.2 (fun p hp => by simpa using t2 s2 p hp), t1, s1]
  · unfold keywords
    rw [List.filter_eq_nil_iff.2 (fun p hp => by simpa using t2 s2 p hp)]
    rfl

theorem written_length {args : List Chars} {body : Chars} (hb : Written args body) : ∀ a ∈ args, a.length ≤ body.length := by
  have hp : ∀ {a t : Chars}, Padded a t → a.length ≤ t.length := by
    rintro a t ⟨l, r, -, -, rfl⟩
    simp only [List.length_append]
    omega
  induction hb with
  | one a t h => intro x hx; rw [List.mem_singleton] at hx; subst hx; exact hp h
  | more a t as s h hs ih =>
    intro x hx
    rcases List.mem_cons.1 hx with rfl | hx
    · have := hp h
      simp only [List.length_append, List.length_cons]
      omega
    · have := ih x hx
      simp only [List.length_append, List.length_cons]
      omega

theorem create_denotes (F : Factory) (par : Bool) {text : Chars} {b : Bc} (h : Denotes F par text b) :
    ∀ fuel, text.length < fuel → create F par fuel text = .ok b := by
  induction h with
  | none =>
    intro fuel hf
    cases fuel with
    | zero => omega
    | succ k => rw [create, if_pos (by decide), createBare, if_pos (by decide)]
  | null =>
    intro fuel hf
    cases fuel with
    | zero => omega
    | succ k => rw [create, if_pos (by decide), createBare, if_pos (by decide)]
  | bare n hn h hok hne =>
    intro fuel hf
    cases fuel with
    | zero => omega
    | succ k =>
      rw [create, if_pos hn.2.2, createBare, if_neg (by tauto)]
      dsimp only
      rw [trim_tight hn.2.1, if_pos h, if_pos hok]
  | call n w args body hn hw ha hb hm h hok =>
    intro fuel hf
    cases fuel with
    | zero => omega
    | succ k =>
      obtain ⟨p1, p2, p3⟩ := call_parts hn hw ha hb
      rw [create, if_neg (by simp)]
      dsimp only at p1 p2 p3 ⊢
      rw [p1, if_neg hm, p2, p3, createOp, if_pos h, if_neg (by simp), if_pos hok]
  | modify hp n w inner b args body hn hw hi hia ha hb hm hok hne ih =>
    intro fuel hf
    cases fuel with
    | zero => omega
    | succ k =>
      obtain ⟨p1, p2, p3⟩ := call_parts hn hw (args := inner :: args) (by simpa using ⟨hia, ha⟩) hb
      rw [create, if_neg (by simp)]
      dsimp only at p1 p2 p3 ⊢
      have hl := written_length hb inner (by simp)
      rw [p1, if_pos hm, p2]
      dsimp only
      rw [ih k (by simp only [List.length_append, List.length_cons] at hf; omega)]
      cases b with
      | nothing => exact absurd rfl hne
      | op _ _ => rw [createMod, if_neg (by simp [hp]), if_pos hok]; simp
      | mod _ _ _ => rw [createMod, if_neg (by simp [hp]), if_pos hok]; simp
  | modifyNothing n w inner args body hn hw hi hia ha hb hm ih =>
    intro fuel hf
    cases fuel with
    | zero => omega
    | succ k =>
      obtain ⟨p1, p2, p3⟩ := call_parts hn hw (args := inner :: args) (by simpa using ⟨hia, ha⟩) hb
      rw [create, if_neg (by simp)]
      dsimp only at p1 p2 p3 ⊢
      have hl := written_length hb inner (by simp)
      rw [p1, if_pos hm, p2]
      dsimp only
      rw [ih k (by simp only [List.length_append, List.length_cons] at hf; omega)]
      rfl

/-- **C62 (partial: arguments without `=`).** A boundary condition written in the documented syntax - nested modifiers, arguments that are expressions
with brackets and commas, white space, names in any case - is the condition it stands for. -/
theorem C62_syntax_partial (F : Factory) (par : Bool) (text : Chars) (b : Bc) (h : Denotes F par text b) : createStr F par text = .ok b :=
  create_denotes F par h _ (Nat.lt_succ_self _)

/-- **C62.** The syntax is unambiguous. -/
theorem C62_unambiguous (F : Factory) (par : Bool) (text : Chars) (b b' : Bc) (h : Denotes F par text b) (h' : Denotes F par text b') : b = b' := by
  have := (C62_syntax_partial F par text b h).symm.trans (C62_syntax_partial F par text b' h')
  injection this

end Verif.Bndry
