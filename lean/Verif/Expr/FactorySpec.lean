import Verif.Expr.FactorySim
/-!
# FieldFactory: what an expression in the options means

Stated without the factory: where a name is looked up, and what a text means if every name in it stands for the text of
the option it names, to any depth.
-/
namespace Verif.Expr.Fac
open Verif.Str (Chars)
open Verif.Expr
variable {R : Type}

/-- The value of `n` nearest to section `p`: in `p` or an enclosing section, and in none between. -/
def Nearest (t : Tree) (p : Path) (n : Chars) (q : Path) (v : Chars) : Prop :=
  q <:+ p ∧ t.val q n = some v ∧ ∀ r, r <:+ p → q <:+ r → r ≠ q → t.val r n = none

/-- What a name in section `p` points to: `section:name` (or `:name` in the root), or just a name in `p`. -/
def ref (p : Path) (n : Chars) : Path × Chars :=
  if ':' ∈ n then
    (if n.takeWhile (· ≠ ':') = [] then [] else [n.takeWhile (· ≠ ':')], (n.dropWhile (· ≠ ':')).drop 1)
  else (p, n)

/-- The option a name in section `p` stands for: a plain name is searched for in `p` and the enclosing sections, a
qualified one has to be set in its section. -/
def own (t : Tree) (p : Path) (n : Chars) : Option (Path × Chars) :=
  if ':' ∈ n then (t.val (ref p n).1 (ref p n).2).map fun v => ((ref p n).1, v) else findUp t n p

/-- The same, but a qualified name is searched for in the sections enclosing its section too. -/
def inherited (t : Tree) (p : Path) (n : Chars) : Option (Path × Chars) := findUp t (ref p n).2 (ref p n).1

/-- The parser's reading of a text. -/
def Parses [Zero R] (env : Env R) (text : Chars) (g : Gen R) : Prop := parseString env text = pure g

/-- `Means D F env h p text g`: in section `p` the text means `g`, where `D` says what a text means when names have given
meanings, `F` which option a name stands for, and names are unfolded less than `h` levels deep. -/
def Means (D : Env R → Chars → Gen R → Prop) (F : Path → Chars → Option (Path × Chars)) (env : Env R) :
    Nat → Path → Chars → Gen R → Prop
  | 0, _, _, _ => False
  | h + 1, p, text, g => ∃ ρ : Chars → Except Err (Option (Gen R)), D (withR env ρ) text g ∧
      ∀ n g', ρ n = .ok (some g') → ∃ s x, F p n = some (s, x) ∧ Means D F env h s x g'

/-- The names of a section: not empty, without ':' and '#'. -/
def PathOk (p : Path) : Prop := ∀ a ∈ p, a ≠ [] ∧ ':' ∉ a ∧ '#' ∉ a

/-- At most one ':' in a name, and no '#' (which starts a comment in input files). -/
def NameOk (n : Chars) : Prop := n.count ':' ≤ 1 ∧ '#' ∉ n

/-- The names in the text are such. -/
def TextOk (env : Env R) (text : Chars) : Prop := ∀ n ∈ symsOf env.reserved text, NameOk n

/-- All sections and texts in the tree are such. -/
def TreeOk (env : Env R) (t : Tree) : Prop := ∀ e ∈ t.entries, PathOk e.1.1 ∧ TextOk env e.2

/-! ## Lookups -/

theorem val_mem {t : Tree} {p : Path} {n v : Chars} (h : t.val p n = some v) : ((p, n), v) ∈ t.entries := by
  unfold Tree.val at h
  revert h
  induction t.entries with
  | nil => intro h; simp at h
  | cons e es ih =>
    intro h
    rw [List.lookup_cons] at h
    by_cases he : (p, n) == e.1
    · rw [he] at h
      have := eq_of_beq he
      simp only [Option.some.injEq] at h
      rw [this, ← h]
      exact List.mem_cons_self
    · simp only [Bool.not_eq_true] at he
      rw [he] at h
      exact List.mem_cons_of_mem _ (ih h)

theorem findUp_mem {t : Tree} {n : Chars} : ∀ {p : Path} {q : Path × Chars}, findUp t n p = some q →
    ((q.1, n), q.2) ∈ t.entries
  | [], q, h => by
    unfold findUp at h
    cases hv : t.val [] n with
    | none => simp [hv] at h
    | some v => simp [hv] at h; subst h; exact val_mem hv
  | a :: p, q, h => by
    unfold findUp at h
    cases hv : t.val (a :: p) n with
    | none => simp only [hv] at h; exact findUp_mem h
    | some v => simp [hv] at h; subst h; exact val_mem hv

/-- Looking a plain name up finds the nearest value. -/
theorem C67_nearest (t : Tree) (n : Chars) : ∀ (p q : Path) (v : Chars),
    findUp t n p = some (q, v) ↔ Nearest t p n q v
  | [], q, v => by
    unfold findUp Nearest
    constructor
    · intro h
      cases hv : t.val [] n with
      | none => simp [hv] at h
      | some w =>
        simp [hv] at h
        obtain ⟨rfl, rfl⟩ := h
        refine ⟨List.suffix_refl _, hv, fun r hr hq hne => ?_⟩
        exact absurd (List.suffix_nil.mp hr) hne
    · rintro ⟨h1, h2, _⟩
      have := List.suffix_nil.mp h1
      subst this
      simp [h2]
  | a :: p, q, v => by
    unfold findUp
    cases hv : t.val (a :: p) n with
    | some w =>
      simp only [Option.some.injEq, Prod.mk.injEq]
      constructor
      · rintro ⟨rfl, rfl⟩
        refine ⟨List.suffix_refl _, hv, fun r hr hq hne => ?_⟩
        exact absurd (List.IsSuffix.eq_of_length hq (Nat.le_antisymm hq.length_le hr.length_le)).symm hne
      · rintro ⟨h1, h2, h3⟩
        by_cases hq : a :: p = q
        · subst hq
          rw [hv] at h2
          exact ⟨rfl, by simpa using h2⟩
        · rw [h3 (a :: p) (List.suffix_refl _) h1 hq] at hv
          cases hv
    | none =>
      simp only
      rw [C67_nearest t n p q v]
      constructor
      · rintro ⟨h1, h2, h3⟩
        refine ⟨h1.trans (List.suffix_cons _ _), h2, fun r hr hq hne => ?_⟩
        rcases List.suffix_cons_iff.mp hr with rfl | hr'
        · exact hv
        · exact h3 r hr' hq hne
      · rintro ⟨h1, h2, h3⟩
        refine ⟨?_, h2, fun r hr hq hne => h3 r (hr.trans (List.suffix_cons _ _)) hq hne⟩
        rcases List.suffix_cons_iff.mp h1 with rfl | h'
        · rw [hv] at h2; cases h2
        · exact h'

/-! ## Names with one ':' -/

theorem colonsFrom_none : ∀ (i : Nat) (n : Chars), ':' ∉ n → colonsFrom i n = []
  | _, [], _ => rfl
  | i, c :: cs, h => by
    rw [List.mem_cons, not_or] at h
    rw [colonsFrom, if_neg (fun e => h.1 e.symm), colonsFrom_none _ _ h.2]

theorem colonsFrom_one : ∀ (i : Nat) (a b : Chars), ':' ∉ a → ':' ∉ b → colonsFrom i (a ++ ':' :: b) = [i + a.length]
  | i, [], b, _, h => by
    rw [List.nil_append, colonsFrom, if_pos rfl, colonsFrom_none _ _ h]; simp
  | i, c :: cs, b, h1, h2 => by
    rw [List.mem_cons, not_or] at h1
    rw [List.cons_append, colonsFrom, if_neg (fun e => h1.1 e.symm), colonsFrom_one _ _ _ h1.2 h2]
    simp; omega

theorem pieces_ne : ∀ n, pieces n ≠ []
  | [] => by simp [pieces]
  | c :: cs => by
    rw [pieces]
    cases h : pieces cs with
    | nil => simp
    | cons x xs => simp only; split <;> simp

theorem pieces_plain : ∀ (n : Chars), ':' ∉ n → pieces n = [n]
  | [], _ => rfl
  | c :: cs, h => by
    rw [List.mem_cons, not_or] at h
    rw [pieces, pieces_plain _ h.2]
    simp only
    rw [if_neg (fun e => h.1 e.symm)]

theorem pieces_append : ∀ (s v : Chars), ':' ∉ v → pieces (s ++ ':' :: v) = pieces s ++ [v]
  | [], v, h => by
    have h1 : pieces (':' :: v) = [] :: pieces v := by
      rw [pieces]
      cases hp : pieces v with
      | nil => exact absurd hp (pieces_ne _)
      | cons x xs => simp
    rw [List.nil_append, h1, pieces_plain _ h]; simp [pieces]
  | c :: cs, v, h => by
    rw [List.cons_append, pieces, pieces_append cs v h, pieces]
    cases hp : pieces cs with
    | nil => exact absurd hp (pieces_ne _)
    | cons x xs => simp only [List.cons_append]; split <;> simp

theorem pieces_str : ∀ (p : Path), PathOk p → p ≠ [] → pieces (str p) = p.reverse
  | [], _, h => absurd rfl h
  | a :: p, h, _ => by
    have ha := h a List.mem_cons_self
    rw [str]
    by_cases hp : p = []
    · subst hp
      rw [if_pos rfl, pieces_plain _ ha.2.1]
      rfl
    · rw [if_neg hp, pieces_append _ _ ha.2.1, pieces_str p (fun x hx => h x (List.mem_cons_of_mem _ hx)) hp]
      simp

/-- A name with one ':' is a section name and a plain name. -/
theorem one_colon {n : Chars} (h : n.count ':' ≤ 1) (hm : ':' ∈ n) :
    ∃ a b, n = a ++ ':' :: b ∧ ':' ∉ a ∧ ':' ∉ b ∧ n.takeWhile (· ≠ ':') = a ∧ (n.dropWhile (· ≠ ':')).drop 1 = b := by
  obtain ⟨a, b, rfl, ha⟩ := List.eq_append_cons_of_mem hm
  have hb : ':' ∉ b := by
    intro hb
    have h1 := List.count_pos_iff.mpr hb
    rw [List.count_append, List.count_cons_self] at h
    omega
  have hne : ∀ x ∈ a, (decide (x ≠ ':')) = true := by
    intro x hx
    simp only [decide_eq_true_eq]
    rintro rfl
    exact ha hx
  refine ⟨a, b, rfl, ha, hb, ?_, ?_⟩
  · rw [List.takeWhile_append_of_pos hne]
    simp
  · rw [List.dropWhile_append_of_pos hne]
    simp

/-- `k` is a key under which the factory files what the reference `r` means. -/
def RefKey (k : Chars) (r : Path × Chars) : Prop :=
  PathOk r.1 ∧ ':' ∉ r.2 ∧ '#' ∉ r.2 ∧
    (k = (if r.1 = [] then r.2 else str r.1 ++ ':' :: r.2) ∨ r.1 = [] ∧ k = ':' :: r.2)

theorem str_nil {p : Path} (hp : PathOk p) : str p = [] ↔ p = [] := by
  constructor
  · intro h
    cases p with
    | nil => rfl
    | cons a p =>
      rw [str] at h
      split at h
      · exact absurd h (hp a List.mem_cons_self).1
      · simp at h
  · rintro rfl; rfl

theorem str_hash : ∀ {p : Path}, PathOk p → '#' ∉ str p
  | [], _ => by simp [str]
  | a :: p, h => by
    rw [str]
    split
    · exact (h a List.mem_cons_self).2.2
    · rw [List.mem_append, List.mem_cons, not_or, not_or]
      exact ⟨str_hash fun x hx => h x (List.mem_cons_of_mem _ hx), by decide, (h a List.mem_cons_self).2.2⟩

theorem refKey_pieces {k : Chars} {r : Path × Chars} (h : RefKey k r) :
    pieces k = r.1.reverse ++ [r.2] ∨ r.1 = [] ∧ pieces k = [[], r.2] := by
  obtain ⟨h1, h2, h3, h4⟩ := h
  rcases h4 with h4 | ⟨h4, h5⟩
  · left
    by_cases hr : r.1 = []
    · rw [if_pos hr] at h4
      rw [h4, pieces_plain _ h2, hr]; rfl
    · rw [if_neg hr] at h4
      rw [h4, pieces_append _ _ h2, pieces_str _ h1 hr]
  · right
    refine ⟨h4, ?_⟩
    have := pieces_append [] r.2 h2
    rw [h5]
    simpa [pieces] using this

/-- Different references have different keys. -/
theorem refKey_inj {k : Chars} {r1 r2 : Path × Chars} (h1 : RefKey k r1) (h2 : RefKey k r2) : r1 = r2 := by
  have first : ∀ {r : Path × Chars}, PathOk r.1 → ∀ v, r.1.reverse ++ [r.2] ≠ [[], v] := by
    intro r hr v h
    cases hc : r.1.reverse with
    | nil => rw [hc] at h; simp at h
    | cons a l =>
      rw [hc] at h
      simp only [List.cons_append, List.cons.injEq] at h
      have : a ∈ r.1 := by
        have : a ∈ r.1.reverse := by rw [hc]; exact List.mem_cons_self
        simpa using this
      exact (hr a this).1 h.1
  obtain ⟨p1, n1⟩ := r1
  obtain ⟨p2, n2⟩ := r2
  rcases refKey_pieces h1 with e1 | ⟨e1, e1'⟩ <;> rcases refKey_pieces h2 with e2 | ⟨e2, e2'⟩
  · rw [e1] at e2
    simp only at e2
    have := List.append_inj' e2 rfl
    simp only [List.reverse_inj, List.cons.injEq, and_true] at this
    rw [this.1, this.2]
  · rw [e1] at e2'
    exact absurd e2' (first h1.1 _)
  · rw [e1'] at e2
    exact absurd e2.symm (first h2.1 _)
  · rw [e1'] at e2'
    simp only at e1 e2 e2'
    rw [e1, e2]
    simp at e2'
    rw [e2']

theorem ref_plain {p : Path} {n : Chars} (h : ':' ∉ n) : ref p n = (p, n) := by rw [ref, if_neg h]

theorem ref_colon {p : Path} {n a b : Chars} (hn : n = a ++ ':' :: b) (ha : n.takeWhile (· ≠ ':') = a)
    (hb : (n.dropWhile (· ≠ ':')).drop 1 = b) : ref p n = (if a = [] then [] else [a], b) := by
  rw [ref, if_pos (by rw [hn]; simp), ha, hb]

theorem refKey_keyOf {p : Path} {n : Chars} (hp : PathOk p) (hn : NameOk n) : RefKey (keyOf p n) (ref p n) := by
  by_cases hm : ':' ∈ n
  · obtain ⟨a, b, h1, h2, h3, h4, h5⟩ := one_colon hn.1 hm
    have hh : '#' ∉ a ∧ '#' ∉ b := by
      have := hn.2
      rw [h1, List.mem_append, List.mem_cons, not_or, not_or] at this
      exact ⟨this.1, this.2.2⟩
    rw [ref_colon h1 h4 h5, keyOf, if_pos hm]
    by_cases ha : a = []
    · subst ha
      refine ⟨by simp [PathOk], h3, hh.2, .inr ⟨by simp, by simpa using h1⟩⟩
    · rw [if_neg ha]
      refine ⟨?_, h3, hh.2, .inl ?_⟩
      · intro x hx
        simp only [List.mem_singleton] at hx
        subst hx
        exact ⟨ha, h2, hh.1⟩
      · simp [str, h1]
  · rw [ref_plain hm, keyOf, if_neg hm]
    refine ⟨hp, hm, hn.2, .inl ?_⟩
    simp only
    by_cases h0 : p = []
    · subst h0; simp [str]
    · rw [if_neg h0, if_pos]
      exact List.length_pos_iff.mpr fun h => h0 ((str_nil hp).mp h)

/-- With at most one ':' in the name, `findOption` finds the option the name stands for. -/
theorem findOption_own (t : Tree) (p : Path) {n : Chars} (hn : n.count ':' ≤ 1) :
    findOption t p n = match own t p n with
      | some r => .ok r
      | none => .error (.parse "Cannot find variable") := by
  unfold findOption own
  by_cases hm : ':' ∈ n
  · obtain ⟨a, b, h1, h2, h3, h4, h5⟩ := one_colon hn hm
    have hc : colons n = [a.length] := by
      rw [h1, colons, colonsFrom_one _ _ _ h2 h3]; simp
    rw [hc, if_neg (by simp), if_pos hm, ref_colon h1 h4 h5]
    have hw : walk n [a.length] ([], 0) = (if a = [] then [] else [a], a.length + 1) := by
      simp only [walk, List.drop_zero]
      have : n.take a.length = a := by rw [h1]; simp
      rw [this]
      by_cases ha : a = []
      · subst ha; simp
      · rw [if_pos (List.length_pos_iff.mpr ha), if_neg ha, child, pieces_plain _ h2]
        simp [ha]
    have hd : n.drop (a.length + 1) = b := by
      rw [h1, List.drop_append]; simp
    simp only [hw, hd]
    cases t.val (if a = [] then [] else [a]) b <;> simp
  · rw [colons, colonsFrom_none _ _ hm, if_pos rfl, if_neg hm]
    cases findUp t n p <;> rfl

/-- The option a name stands for is found when searching the enclosing sections too. -/
theorem own_inherited {t : Tree} {p : Path} {n : Chars} {r : Path × Chars} (h : own t p n = some r) :
    inherited t p n = some r := by
  unfold own at h
  unfold inherited
  by_cases hm : ':' ∈ n
  · rw [if_pos hm] at h
    generalize ref p n = q at h ⊢
    obtain ⟨s, v⟩ := q
    simp only at h ⊢
    cases hv : t.val s v with
    | none => rw [hv] at h; simp at h
    | some x =>
      rw [hv] at h
      simp only [Option.map_some, Option.some.injEq] at h
      cases s with
      | nil => unfold findUp; simp [hv, h]
      | cons a s => unfold findUp; simp [hv, h]
  · rw [if_neg hm] at h
    rw [ref_plain hm]
    exact h

theorem own_mem {t : Tree} {p : Path} {n : Chars} {r : Path × Chars} (h : own t p n = some r) :
    ∃ m, ((r.1, m), r.2) ∈ t.entries := ⟨_, findUp_mem (own_inherited h)⟩

theorem inherited_mem {t : Tree} {p : Path} {n : Chars} {r : Path × Chars} (h : inherited t p n = some r) :
    ∃ m, ((r.1, m), r.2) ∈ t.entries := ⟨_, findUp_mem h⟩

theorem textKey_inj {p q : Path} {x y : Chars} (hp : PathOk p) (hq : PathOk q)
    (h : textKey (some p) x = textKey (some q) y) : str p = str q ∧ x = y := by
  simp only [textKey] at h
  have h1 := str_hash hp
  have h2 := str_hash hq
  revert h h1 h2
  generalize str p = a
  generalize str q = b
  induction a generalizing b with
  | nil =>
    intro h h1 h2
    cases b with
    | nil => simpa using h
    | cons c b => simp only [List.nil_append, List.cons_append, List.cons.injEq] at h; simp [← h.1] at h2
  | cons c a ih =>
    intro h h1 h2
    cases b with
    | nil => simp only [List.nil_append, List.cons_append, List.cons.injEq] at h; simp [h.1] at h1
    | cons d b =>
      simp only [List.cons_append, List.cons.injEq] at h
      rw [List.mem_cons, not_or] at h1 h2
      obtain ⟨e1, e2⟩ := ih b h.2 h1.2 h2.2
      exact ⟨by rw [h.1, e1], e2⟩

theorem str_inj {p q : Path} (hp : PathOk p) (hq : PathOk q) (h : str p = str q) : p = q := by
  by_cases h1 : p = []
  · subst h1
    exact ((str_nil hq).mp (by rw [← h]; rfl)).symm
  · by_cases h2 : q = []
    · subst h2
      exact absurd ((str_nil hp).mp (by rw [h]; rfl)) h1
    · have := pieces_str p hp h1
      rw [h, pieces_str q hq h2] at this
      exact (List.reverse_inj.mp this).symm

theorem refKey_hash {k : Chars} {r : Path × Chars} (h : RefKey k r) : '#' ∉ k := by
  obtain ⟨h1, h2, h3, h4⟩ := h
  rcases h4 with h4 | ⟨_, h5⟩
  · by_cases hr : r.1 = []
    · rw [if_pos hr] at h4; rw [h4]; exact h3
    · rw [if_neg hr] at h4
      rw [h4, List.mem_append, List.mem_cons, not_or, not_or]
      exact ⟨str_hash h1, by decide, h3⟩
  · rw [h5, List.mem_cons, not_or]; exact ⟨by decide, h3⟩

/-! ## Meanings -/

section
variable {D : Env R → Chars → Gen R → Prop} {F : Path → Chars → Option (Path × Chars)} {env : Env R}

/-- Deeper unfolding changes nothing. -/
theorem Means.mono : ∀ {h h' : Nat} {p : Path} {x : Chars} {g : Gen R}, h ≤ h' → Means D F env h p x g →
    Means D F env h' p x g
  | 0, _, _, _, _, _, hm => hm.elim
  | h + 1, 0, _, _, _, hl, _ => by omega
  | h + 1, h' + 1, _, _, _, hl, ⟨ρ, h1, h2⟩ =>
    ⟨ρ, h1, fun n g' hn => by
      obtain ⟨s, x, hf, hm⟩ := h2 n g' hn
      exact ⟨s, x, hf, Means.mono (by omega) hm⟩⟩

/-- Reading texts and names more liberally keeps the meanings. -/
theorem Means.weaken {D' : Env R → Chars → Gen R → Prop} {F' : Path → Chars → Option (Path × Chars)}
    (hD : ∀ ρ x g, D (withR env ρ) x g → D' (withR env ρ) x g) (hF : ∀ p n r, F p n = some r → F' p n = some r) :
    ∀ {h : Nat} {p : Path} {x : Chars} {g : Gen R}, Means D F env h p x g → Means D' F' env h p x g
  | 0, _, _, _, hm => hm.elim
  | h + 1, _, _, _, ⟨ρ, h1, h2⟩ =>
    ⟨ρ, hD _ _ _ h1, fun n g' hn => by
      obtain ⟨s, x, hf, hm⟩ := h2 n g' hn
      exact ⟨s, x, hF _ _ _ hf, Means.weaken hD hF hm⟩⟩
end

end Verif.Expr.Fac
