/-
C50: arithmetic and assignment of fields behave as if every field held its own values, although
storage is shared and copied only when written; and where that fails.
-/
import Verif.Field.Model
import Mathlib.Tactic.SplitIfs
import Mathlib.Tactic.ByContra
import Mathlib.Algebra.Order.Group.Int
import Mathlib.Algebra.Order.Group.Unbundled.Abs

namespace Verif.Field

open Verif

variable {V : Type}

/-! ### Specification: fields are values -/

/-- A field as a value: its elements if it has any, and those of its slices. -/
structure Value (V : Type) where
  data : Option (List V)
  up : List (Option (List V))
  down : List (Option (List V))

/-- All variables of a program; no storage, no sharing. -/
structure VSt (V : Type) where
  n : Nat
  nf : Nat
  fld : Nat → Value V

/-- Give variable `d` a new value. -/
def VSt.set (v : VSt V) (d : Nat) (x : Value V) : VSt V :=
  { v with fld := fun i => if i = d then x else v.fld i }

/-- Value of an operand; `none` if it has no elements or does not exist. -/
def VSt.eval (v : VSt V) : Operand V → Option (List V)
  | .fld i => (v.fld i).data
  | .up i k => ((v.fld i).up[k]?).join
  | .down i k => ((v.fld i).down[k]?).join
  | .val x => some (List.replicate v.n x)

/-- The meaning of one step: `d = a` copies the value, `d = a ⊕ b` and `d ⊕= a` are pointwise,
writing changes one element of one variable.  `junk` is what an unallocated field contains when
it is first written to. -/
def VSt.step (v : VSt V) (junk : Nat → V) : Op V → Option (VSt V)
  | .declare => some { v.set v.nf ⟨none, [], []⟩ with nf := v.nf + 1 }
  | .assign d (.fld i) => some (v.set d (v.fld i))
  | .assign d (.up i k) => ((v.fld i).up[k]?).map fun x => v.set d ⟨x, [], []⟩
  | .assign d (.down i k) => ((v.fld i).down[k]?).map fun x => v.set d ⟨x, [], []⟩
  | .assign d (.val x) => some (v.set d ⟨some (List.replicate v.n x), [], []⟩)
  | .bin d op a b => do
      let x ← v.eval a
      let y ← v.eval b
      return v.set d ⟨some (List.zipWith op x y), [], []⟩
  | .inplace d op a => do
      let x ← (v.fld d).data
      let y ← v.eval a
      return v.set d ⟨some (List.zipWith op x y), [], []⟩
  | .write d p x =>
      some (v.set d { v.fld d with
        data := some (((v.fld d).data.getD ((List.range v.n).map junk)).set p x) })
  | .slices d m => some (v.set d { v.fld d with
        up := List.replicate m (v.fld d).data, down := List.replicate m (v.fld d).data })
  | .clear d => some (v.set d { v.fld d with up := [], down := [] })

/-- A program over values. -/
def VSt.run (v : VSt V) : List ((Nat → V) × Op V) → Option (VSt V)
  | [] => some v
  | (j, o) :: os => (v.step j o).bind fun v' => v'.run os

/-! ### Reading the values out of the storage -/

/-- The elements of a block. -/
def elems (h : Nat → Nat → V) (n : Nat) (b : Nat) : List V := (List.range n).map (h b)

/-- The value of an object. -/
def absObj (h : Nat → Nat → V) (n : Nat) (o : Obj) : Value V :=
  ⟨o.data.map (elems h n), o.up.map (Option.map (elems h n)), o.down.map (Option.map (elems h n))⟩

/-- The values of all variables. -/
def St.values (s : St V) : VSt V := ⟨s.n, s.nf, fun i => absObj s.heap s.n (s.fld i)⟩

/-- Every reference is to a block that exists, and nothing is held by undeclared objects. -/
structure St.Good (s : St V) : Prop where
  lt : ∀ i b, b ∈ (s.fld i).refs → b < s.next
  und : ∀ i, s.nf ≤ i → (s.fld i).refs = []

/-! ### The loop -/

theorem loop_get (n b : Nat) (f : (Nat → Nat → V) → Nat → V) (h0 : Nat → Nat → V)
    (hf : ∀ h p, (∀ b' p', (b' ≠ b ∨ p' = p) → h b' p' = h0 b' p') → f h p = f h0 p) (b' p' : Nat) :
    loop n b f h0 b' p' = if b' = b ∧ p' < n then f h0 p' else h0 b' p' := by
  induction n generalizing b' p' with
  | zero => simp [loop]
  | succ m ih =>
      have e : loop (m+1) b f h0 = wr (loop m b f h0) b m (f (loop m b f h0) m) := by
        simp [loop, List.range_succ]
      rw [e]
      have e2 : f (loop m b f h0) m = f h0 m := by
        apply hf
        intro b'' p'' hh
        rw [ih, if_neg]
        rintro ⟨h1, h2⟩
        rcases hh with hh | hh
        · exact hh h1
        · omega
      unfold wr
      rw [e2, ih]
      by_cases hb : b' = b
      · by_cases hp : p' = m
        · subst hb hp; simp
        · by_cases hq : p' < m
          · have : p' < m + 1 := by omega
            simp [hb, hp, hq, this]
          · have : ¬ p' < m + 1 := by omega
            simp [hb, hp, hq, this]
      · simp [hb]

theorem elems_congr {h h' : Nat → Nat → V} {n b b' : Nat} (e : ∀ p, p < n → h b p = h' b' p) :
    elems h n b = elems h' n b' := by
  unfold elems
  apply List.map_congr_left
  intro p hp
  exact e p (List.mem_range.mp hp)

theorem absObj_congr {h h' : Nat → Nat → V} {n : Nat} {o : Obj}
    (e : ∀ b, b ∈ o.refs → ∀ p, p < n → h b p = h' b p) : absObj h n o = absObj h' n o := by
  have e1 : ∀ b, b ∈ o.refs → elems h n b = elems h' n b := fun b hb => elems_congr (e b hb)
  unfold absObj
  congr 1
  · cases hd : o.data with
    | none => rfl
    | some b => simp [e1 b (by simp [Obj.refs, hd])]
  · apply List.map_congr_left
    intro x hx
    cases x with
    | none => rfl
    | some b =>
        have : b ∈ o.refs := by
          simp only [Obj.refs, List.mem_append, List.mem_filterMap]
          exact Or.inl (Or.inr ⟨some b, hx, rfl⟩)
        simp [e1 b this]
  · apply List.map_congr_left
    intro x hx
    cases x with
    | none => rfl
    | some b =>
        have : b ∈ o.refs := by
          simp only [Obj.refs, List.mem_append, List.mem_filterMap]
          exact Or.inr ⟨some b, hx, rfl⟩
        simp [e1 b this]

theorem le_sum (f : Nat → Nat) (m j : Nat) (hj : j < m) : f j ≤ ((List.range m).map f).sum := by
  induction m with
  | zero => omega
  | succ k ih =>
      rw [List.range_succ, List.map_append, List.sum_append]
      simp only [List.map_cons, List.map_nil, List.sum_cons, List.sum_nil]
      by_cases h : j = k
      · subst h; omega
      · have := ih (by omega); omega

/-- A block held once, by `d`, is held by nobody else. -/
theorem sum_ge_two (f : Nat → Nat) (m i d : Nat) (hi : i < m) (hd : d < m) (hid : i ≠ d) :
    f i + f d ≤ ((List.range m).map f).sum := by
  induction m with
  | zero => omega
  | succ k ih =>
      rw [List.range_succ, List.map_append, List.sum_append]
      simp only [List.map_cons, List.map_nil, List.sum_cons, List.sum_nil]
      by_cases h1 : i = k
      · have := le_sum f k d (by omega); subst h1; omega
      · by_cases h2 : d = k
        · have := le_sum f k i (by omega); subst h2; omega
        · have := ih (by omega) (by omega); omega

theorem unique_owner {s : St V} (g : s.Good) {d b : Nat} (hd : (s.fld d).data = some b)
    (hu : s.useCount b = 1) :
    (∀ i, i ≠ d → b ∉ (s.fld i).refs) ∧ b ∉ (s.fld d).up.filterMap id ++ (s.fld d).down.filterMap id := by
  have hdn : d < s.nf := by
    by_contra h
    have := g.und d (by omega)
    simp [Obj.refs, hd] at this
  have hc : 1 ≤ (s.fld d).refs.count b := List.count_pos_iff.mpr (by simp [Obj.refs, hd])
  constructor
  · intro i hi hm
    have hin : i < s.nf := by
      by_contra h
      rw [g.und i (by omega)] at hm
      simp at hm
    have := sum_ge_two (fun i => (s.fld i).refs.count b) s.nf i d hin hdn hi
    have h2 : 1 ≤ (s.fld i).refs.count b := List.count_pos_iff.mpr hm
    unfold St.useCount at hu
    omega
  · intro hm
    have : (s.fld d).refs.count b ≤ 1 := by
      rw [← hu]
      exact le_sum (fun i => (s.fld i).refs.count b) s.nf d hdn
    have h2 : 1 ≤ ((s.fld d).up.filterMap id ++ (s.fld d).down.filterMap id).count b :=
      List.count_pos_iff.mpr hm
    simp only [Obj.refs, hd, Option.toList, List.append_assoc, List.count_append, List.count_cons_self] at this h2
    have h3 : List.count b [b] = 1 := by simp
    omega

/-! ### Every step -/

theorem refs_set {s : St V} {d : Nat} {o : Obj} (i : Nat) :
    ((s.setObj d o).fld i).refs = if i = d then o.refs else (s.fld i).refs := by
  unfold St.setObj
  simp only
  split <;> rfl

theorem refs_clear (o : Obj) : ({ o with up := [], down := [] } : Obj).refs = o.data.toList := by
  simp [Obj.refs]

theorem mem_data {o : Obj} {b : Nat} (h : o.data = some b) : b ∈ o.refs := by simp [Obj.refs, h]

theorem mem_up {o : Obj} {b k : Nat} (h : o.up[k]? = some (some b)) : b ∈ o.refs := by
  simp only [Obj.refs, List.mem_append, List.mem_filterMap]
  exact Or.inl (Or.inr ⟨some b, List.mem_of_getElem? h, rfl⟩)

theorem mem_down {o : Obj} {b k : Nat} (h : o.down[k]? = some (some b)) : b ∈ o.refs := by
  simp only [Obj.refs, List.mem_append, List.mem_filterMap]
  exact Or.inr ⟨some b, List.mem_of_getElem? h, rfl⟩

/-- What a resolved operand is. -/
theorem resolve_spec {s : St V} (g : s.Good) {a : Operand V} {x : Src V} (h : s.resolve a = .ok x) :
    s.values.eval a = some ((List.range s.n).map (x.get s.heap)) ∧ ∀ b, x = .blk b → b < s.next := by
  cases a with
  | fld i =>
      simp only [St.resolve] at h
      cases hd : (s.fld i).data with
      | none => simp [hd, need] at h
      | some b =>
          simp only [hd, need, Except.ok.injEq] at h
          subst h
          refine ⟨by simp [VSt.eval, St.values, absObj, hd, elems, Src.get], ?_⟩
          intro b' hb; cases hb; exact g.lt i _ (mem_data hd)
  | up i k =>
      simp only [St.resolve] at h
      cases hd : (s.fld i).up[k]? with
      | none => simp [hd] at h
      | some ob =>
          cases ob with
          | none => simp [hd, need] at h
          | some b =>
              simp only [hd, need, Except.ok.injEq] at h
              subst h
              refine ⟨by simp [VSt.eval, St.values, absObj, hd, elems, Src.get], ?_⟩
              intro b' hb; cases hb; exact g.lt i _ (mem_up hd)
  | down i k =>
      simp only [St.resolve] at h
      cases hd : (s.fld i).down[k]? with
      | none => simp [hd] at h
      | some ob =>
          cases ob with
          | none => simp [hd, need] at h
          | some b =>
              simp only [hd, need, Except.ok.injEq] at h
              subst h
              refine ⟨by simp [VSt.eval, St.values, absObj, hd, elems, Src.get], ?_⟩
              intro b' hb; cases hb; exact g.lt i _ (mem_down hd)
  | val v =>
      simp only [St.resolve, Except.ok.injEq] at h
      subst h
      refine ⟨?_, by intro b hb; cases hb⟩
      simp only [VSt.eval, St.values]
      congr 1
      apply List.ext_getElem <;> simp [Src.get]

theorem vst_ext {v w : VSt V} (h1 : v.n = w.n) (h2 : v.nf = w.nf) (h3 : ∀ i, v.fld i = w.fld i) : v = w := by
  cases v; cases w
  simp only at h1 h2 h3
  subst h1 h2
  congr 1
  funext i; exact h3 i

theorem zip_range {n : Nat} (op : V → V → V) (f g : Nat → V) :
    List.zipWith op ((List.range n).map f) ((List.range n).map g) = (List.range n).map fun p => op (f p) (g p) := by
  apply List.ext_getElem <;> simp

theorem bin_spec {s s' : St V} (g : s.Good) {d : Nat} (hd : d < s.nf) {op : V → V → V} {a b : Operand V}
    {junk : Nat → V} (h : s.bin d op a b junk = .ok s') :
    s'.Good ∧ s.values.step junk (.bin d op a b) = some s'.values ∧ s'.nf = s.nf ∧ s'.n = s.n := by
  unfold St.bin at h
  cases hx : s.resolve a with
  | error e => simp [hx, bind, Except.bind] at h
  | ok x =>
    cases hy : s.resolve b with
    | error e => simp [hx, hy, bind, Except.bind] at h
    | ok y =>
      obtain ⟨ex, bx⟩ := resolve_spec g hx
      obtain ⟨ey, bY⟩ := resolve_spec g hy
      simp only [hx, hy, bind, Except.bind, pure, Except.pure, Except.ok.injEq] at h
      subst h
      have getx : ∀ (z : Src V), (∀ b, z = .blk b → b < s.next) → ∀ (h : Nat → Nat → V) (p : Nat),
          (∀ b' p', (b' ≠ s.next ∨ p' = p) → h b' p' = (s.fresh junk).1.heap b' p') →
          z.get h p = z.get s.heap p := by
        intro z hz h p hh
        cases z with
        | val v => rfl
        | blk b =>
            have hb := hz b rfl
            simp only [Src.get]
            rw [hh b p (Or.inr rfl)]
            simp only [St.fresh]
            rw [if_neg (by omega)]
      have key : ∀ b' p', loop s.n s.next (fun h p => op (x.get h p) (y.get h p)) (s.fresh junk).1.heap b' p'
          = if b' = s.next ∧ p' < s.n then op (x.get s.heap p') (y.get s.heap p')
            else (s.fresh junk).1.heap b' p' := by
        intro b' p'
        rw [loop_get]
        · rw [getx x bx _ p' (fun _ _ _ => rfl), getx y bY _ p' (fun _ _ _ => rfl)]
        · intro h p hh
          rw [getx x bx h p hh, getx y bY h p hh, getx x bx _ p (fun _ _ _ => rfl),
            getx y bY _ p (fun _ _ _ => rfl)]
      refine ⟨⟨?_, ?_⟩, ?_, rfl, rfl⟩
      · intro i b' hb
        rw [refs_set] at hb
        show b' < s.next + 1
        split at hb
        · simp [Obj.refs, St.fresh] at hb; omega
        · have := g.lt i b' hb; omega
      · intro i hi
        rw [refs_set, if_neg (by simp only [St.fresh, St.setObj] at hi; omega)]
        exact g.und i hi
      · simp only [VSt.step, ex, ey, bind, Option.bind, pure]
        congr 1
        refine vst_ext ?_ ?_ ?_
        · rfl
        · rfl
        intro i
        simp only [VSt.set, St.values, St.setObj, St.fresh]
        by_cases hi : i = d
        · rw [if_pos hi, if_pos hi]
          simp only [absObj, Option.map, List.map_nil]
          rw [zip_range]
          unfold elems
          congr 2
          apply List.map_congr_left
          intro p hp
          have := key s.next p
          rw [if_pos ⟨rfl, List.mem_range.mp hp⟩] at this
          exact this.symm
        · rw [if_neg hi, if_neg hi]
          apply absObj_congr
          intro b' hb p hp
          have hlt := g.lt i b' hb
          have := key b' p
          rw [if_neg (by rintro ⟨h1, _⟩; omega)] at this
          refine Eq.trans ?_ this.symm
          simp only [St.fresh]
          rw [if_neg (by omega)]

/-- What `allocate` does: the object has a block of its own with the same elements. -/
structure AllocSpec (s : St V) (d : Nat) (junk : Nat → V) (s1 : St V) (b : Nat) : Prop where
  good : s1.Good
  n : s1.n = s.n
  nf : s1.nf = s.nf
  here : s1.fld d = { s.fld d with data := some b }
  others : ∀ i, i ≠ d → s1.fld i = s.fld i
  alone : ∀ i, i ≠ d → b ∉ (s.fld i).refs
  noslice : b ∉ (s.fld d).up.filterMap id ++ (s.fld d).down.filterMap id
  heap : ∀ i c, c ∈ (s.fld i).refs → s1.heap c = s.heap c
  vals : elems s1.heap s.n b = ((s.fld d).data.map (elems s.heap s.n)).getD ((List.range s.n).map junk)

theorem refs_data (o : Obj) (b : Nat) : ({ o with data := some b } : Obj).refs =
    b :: (o.up.filterMap id ++ o.down.filterMap id) := by simp [Obj.refs]

theorem sub_refs {o : Obj} {c : Nat} (h : c ∈ o.up.filterMap id ++ o.down.filterMap id) : c ∈ o.refs := by
  simp only [Obj.refs, List.append_assoc, List.mem_append]
  exact Or.inr (List.mem_append.mp h)

theorem fresh_alloc {s : St V} (g : s.Good) {d : Nat} (hd : d < s.nf) (junk f : Nat → V)
    (hf : (List.range s.n).map f = ((s.fld d).data.map (elems s.heap s.n)).getD ((List.range s.n).map junk)) :
    AllocSpec s d junk ((s.fresh f).1.setObj d { s.fld d with data := some (s.fresh f).2 }) (s.fresh f).2 := by
  have hnew : ∀ i, s.next ∉ (s.fld i).refs := fun i h => by have := g.lt i _ h; omega
  refine ⟨⟨?_, ?_⟩, rfl, rfl, ?_, ?_, fun i _ => hnew i, fun h => hnew d (sub_refs h), ?_, ?_⟩
  · intro i c hc
    rw [refs_set] at hc
    show c < s.next + 1
    split at hc
    · rw [refs_data, List.mem_cons] at hc
      rcases hc with hc | hc
      · have : (s.fresh f).2 = s.next := rfl
        omega
      · have := g.lt d c (sub_refs hc); omega
    · have := g.lt i c hc; omega
  · intro i hi
    have hi' : s.nf ≤ i := hi
    rw [refs_set, if_neg (by omega)]
    exact g.und i hi'
  · simp [St.setObj]
  · intro i hi; simp [St.setObj, hi, St.fresh]
  · intro i c hc
    have := g.lt i c hc
    simp only [St.setObj, St.fresh]
    rw [if_neg (by omega)]
  · rw [← hf]
    simp [elems, St.setObj, St.fresh]

theorem allocate_spec {s : St V} (g : s.Good) {d : Nat} (hd : d < s.nf) (junk : Nat → V) :
    AllocSpec s d junk (s.allocate d junk).1 (s.allocate d junk).2 := by
  unfold St.allocate
  cases hdat : (s.fld d).data with
  | none =>
      exact fresh_alloc g hd junk junk (by simp [hdat])
  | some b =>
      simp only
      by_cases hu : s.useCount b = 1
      · rw [if_pos hu]
        obtain ⟨h1, h2⟩ := unique_owner g hdat hu
        refine ⟨g, rfl, rfl, ?_, fun _ _ => rfl, h1, h2, fun _ _ _ => rfl, by simp [hdat]⟩
        show s.fld d = _
        rw [← hdat]
      · rw [if_neg hu]
        exact fresh_alloc g hd junk (s.heap b) (by simp [hdat, elems])

/-- Changing only the block of `d` after `allocate` changes only the elements of `d`. -/
theorem after_alloc {s s1 : St V} {d b : Nat} {junk : Nat → V} (A : AllocSpec s d junk s1 b)
    (h : Nat → Nat → V) (hh : ∀ c, c ≠ b → h c = s1.heap c) :
    ({ s1 with heap := h } : St V).Good ∧
    ({ s1 with heap := h } : St V).values =
      s.values.set d { s.values.fld d with data := some (elems h s.n b) } := by
  refine ⟨⟨A.good.lt, A.good.und⟩, ?_⟩
  refine vst_ext ?_ ?_ ?_
  · exact A.n
  · exact A.nf
  intro i
  have hne : ∀ c, c ∈ (s.fld i).refs → c ≠ b → h c = s.heap c := fun c hc hcb => by
    rw [hh c hcb, A.heap i c hc]
  simp only [St.values, VSt.set]
  by_cases hi : i = d
  · subst hi
    rw [if_pos rfl, A.here, A.n]
    have e : absObj h s.n ⟨none, (s.fld i).up, (s.fld i).down⟩ = absObj s.heap s.n ⟨none, (s.fld i).up, (s.fld i).down⟩ := by
      apply absObj_congr
      intro c hc p _
      have hc' : c ∈ (s.fld i).up.filterMap id ++ (s.fld i).down.filterMap id := by
        simpa [Obj.refs] using hc
      rw [hne c (sub_refs hc') (fun e => A.noslice (e ▸ hc'))]
    simp only [absObj, Value.mk.injEq] at e ⊢
    exact ⟨rfl, e.2.1, e.2.2⟩
  · rw [if_neg hi, A.others i hi, A.n]
    apply absObj_congr
    intro c hc p _
    rw [hne c hc (fun e => A.alone i hi (e ▸ hc))]

theorem clear_good {s : St V} (g : s.Good) (d : Nat) : (s.clear d).Good := by
  have h : ∀ i c, c ∈ ((s.clear d).fld i).refs → c ∈ (s.fld i).refs := by
    intro i c hc
    unfold St.clear at hc
    rw [refs_set] at hc
    split at hc
    · rename_i e; subst e
      rw [refs_clear] at hc
      simp only [Obj.refs, List.mem_append]
      exact Or.inl (Or.inl hc)
    · exact hc
  refine ⟨fun i c hc => g.lt i c (h i c hc), fun i hi => ?_⟩
  apply List.eq_nil_iff_forall_not_mem.mpr
  intro c hc
  have := h i c hc
  rw [g.und i hi] at this
  simp at this

theorem clear_values (s : St V) (d : Nat) :
    (s.clear d).values = s.values.set d { s.values.fld d with up := [], down := [] } := by
  refine vst_ext ?_ ?_ ?_
  · rfl
  · rfl
  intro i
  simp only [St.values, VSt.set, St.clear, St.setObj]
  by_cases hi : i = d
  · subst hi; simp [absObj]
  · simp [hi]

theorem set_set (v : VSt V) (d : Nat) (x y : Value V) : (v.set d x).set d y = v.set d y := by
  refine vst_ext ?_ ?_ ?_
  · rfl
  · rfl
  intro i
  simp only [VSt.set]
  split <;> rfl

theorem set_here (v : VSt V) (d : Nat) (x : Value V) : (v.set d x).fld d = x := by simp [VSt.set]

theorem elems_wr {h : Nat → Nat → V} {n b p : Nat} {x : V} :
    elems (wr h b p x) n b = (elems h n b).set p x := by
  apply List.ext_getElem
  · simp [elems]
  · intro i h1 h2
    simp only [elems, List.getElem_map, List.getElem_range, List.getElem_set, wr]
    by_cases e : p = i
    · simp [e]
    · simp [e, show ¬ i = p from fun h => e h.symm]

theorem setObj_copy {s : St V} (g : s.Good) {d : Nat} (hd : d < s.nf) {o : Obj}
    (ho : ∀ c, c ∈ o.refs → c < s.next) :
    (s.setObj d o).Good ∧ (s.setObj d o).values = s.values.set d (absObj s.heap s.n o) := by
  refine ⟨⟨?_, ?_⟩, ?_⟩
  · intro i c hc
    rw [refs_set] at hc
    split at hc
    · exact ho c hc
    · exact g.lt i c hc
  · intro i hi
    have hi' : s.nf ≤ i := hi
    rw [refs_set, if_neg (by omega)]
    exact g.und i hi'
  · refine vst_ext ?_ ?_ ?_
    · rfl
    · rfl
    intro i
    simp only [St.values, VSt.set, St.setObj]
    split <;> rfl

theorem inplace_spec {s s' : St V} (g : s.Good) {d : Nat} (hd : d < s.nf) {op : V → V → V} {a : Operand V}
    {junk : Nat → V} (h : s.inplace d op a junk = .ok s') :
    s'.Good ∧ s.values.step junk (.inplace d op a) = some s'.values ∧ s'.nf = s.nf ∧ s'.n = s.n := by
  have same : s.values.step junk (.inplace d op a) = s.values.step junk (.bin d op (.fld d) a) := rfl
  unfold St.inplace at h
  cases hdat : (s.fld d).data with
  | none =>
      simp only [hdat] at h
      rw [same]
      exact bin_spec g hd h
  | some b =>
      simp only [hdat] at h
      by_cases hu : s.useCount b = 1
      · rw [if_pos hu] at h
        obtain ⟨h1, h2⟩ := unique_owner g hdat hu
        by_cases hs : a.sliceOf d = true
        · rw [if_pos hs] at h; cases h
        · rw [if_neg hs] at h
          cases hy : (s.clear d).resolve a with
          | error e => simp [hy, bind, Except.bind] at h
          | ok y =>
              simp only [hy, bind, Except.bind, pure, Except.pure, Except.ok.injEq] at h
              subst h
              have hb1 : (s.clear d).fld d = { s.fld d with up := [], down := [] } := by
                simp [St.clear, St.setObj]
              have hoth : ∀ i, i ≠ d → (s.clear d).fld i = s.fld i := by
                intro i hi; simp [St.clear, St.setObj, hi]
              have A : AllocSpec (s.clear d) d junk (s.clear d) b := by
                refine ⟨clear_good g d, rfl, rfl, ?_, fun _ _ => rfl, ?_, ?_, fun _ _ _ => rfl, ?_⟩
                · rw [hb1]; show _ = Obj.mk _ _ _; rw [← hdat]
                · intro i hi; rw [hoth i hi]; exact h1 i hi
                · rw [hb1]; simp
                · rw [hb1]; simp [hdat, St.clear, St.setObj]
              have lg : ∀ c p, loop s.n b (fun h p => op (h b p) (y.get h p)) (s.clear d).heap c p =
                  if c = b ∧ p < s.n then op (s.heap b p) (y.get s.heap p) else s.heap c p := by
                intro c p
                rw [loop_get]
                · rfl
                · intro h p hh
                  rw [hh b p (Or.inr rfl)]
                  congr 1
                  cases y with
                  | val v => rfl
                  | blk e => exact hh e p (Or.inr rfl)
              obtain ⟨G, W⟩ := after_alloc A (loop s.n b (fun h p => op (h b p) (y.get h p)) (s.clear d).heap)
                (by
                  intro c hc
                  funext p
                  rw [lg, if_neg (by rintro ⟨e, _⟩; exact hc e)]
                  rfl)
              refine ⟨G, ?_, rfl, rfl⟩
              obtain ⟨ey, -⟩ := resolve_spec (clear_good g d) hy
              have ey' : s.values.eval a = some ((List.range s.n).map (y.get s.heap)) := by
                rw [show ((List.range s.n).map (y.get s.heap)) = ((List.range (s.clear d).n).map (y.get (s.clear d).heap)) from rfl, ← ey]
                rw [clear_values]
                cases a with
                | fld i =>
                    simp only [VSt.eval, VSt.set]
                    by_cases hi : i = d
                    · simp [hi]
                    · simp [hi]
                | up i k =>
                    have hi : i ≠ d := by simpa [Operand.sliceOf] using hs
                    simp [VSt.eval, VSt.set, hi]
                | down i k =>
                    have hi : i ≠ d := by simpa [Operand.sliceOf] using hs
                    simp [VSt.eval, VSt.set, hi]
                | val v => rfl
              have ed : (s.values.fld d).data = some ((List.range s.n).map (s.heap b)) := by
                simp [St.values, absObj, hdat, elems]
              simp only [VSt.step, ed, ey', bind, Option.bind, pure]
              rw [W, clear_values, set_here, set_set, zip_range]
              congr 4
              apply List.map_congr_left
              intro p hp
              rw [lg, if_pos ⟨rfl, List.mem_range.mp hp⟩]
      · rw [if_neg hu] at h
        rw [same]
        exact bin_spec g hd h

/-- One step of the program is one step of its meaning. -/
theorem C50_step {s s' : St V} (g : s.Good) {junk : Nat → V} {o : Op V} (h : s.step junk o = .ok s') :
    s'.Good ∧ s.values.step junk o = some s'.values := by
  unfold St.step at h
  by_cases hdec : o.declared s.nf = true
  case neg => rw [if_neg hdec] at h; cases h
  rw [if_pos hdec] at h
  cases o with
  | declare =>
      simp only [St.exec, Except.ok.injEq] at h
      subst h
      refine ⟨⟨?_, ?_⟩, ?_⟩
      · intro i c hc
        have hc' : c ∈ ((s.setObj s.nf ⟨none, [], []⟩).fld i).refs := hc
        rw [refs_set] at hc'
        split at hc'
        · simp [Obj.refs] at hc'
        · exact g.lt i c hc'
      · intro i hi
        have hi' : s.nf + 1 ≤ i := hi
        show ((s.setObj s.nf ⟨none, [], []⟩).fld i).refs = []
        rw [refs_set, if_neg (by omega)]
        exact g.und i (by omega)
      · simp only [VSt.step]
        congr 1
        refine vst_ext ?_ ?_ ?_
        · rfl
        · rfl
        intro i
        simp only [St.values, VSt.set, St.setObj]
        by_cases e : i = s.nf
        · simp [e, absObj]
        · simp [e]
  | assign d a =>
      have hd : d < s.nf := by simpa [Op.declared] using hdec
      simp only [St.exec] at h
      cases a with
      | fld i =>
          simp only [St.assign] at h
          by_cases hi : i = d
          · rw [if_pos hi] at h
            cases h
            refine ⟨g, ?_⟩
            subst hi
            simp only [VSt.step]
            congr 1
            refine vst_ext ?_ ?_ ?_
            · rfl
            · rfl
            intro j
            simp only [VSt.set]
            split
            · rename_i e; rw [e]
            · rfl
          · rw [if_neg hi] at h
            cases h
            obtain ⟨G, W⟩ := setObj_copy g hd (o := s.fld i) (g.lt i)
            exact ⟨G, by rw [W]; rfl⟩
      | up i k =>
          simp only [St.assign] at h
          cases hk : (s.fld i).up[k]? with
          | none => simp [hk] at h
          | some b =>
              simp only [hk] at h
              by_cases hi : i = d
              · rw [if_pos hi] at h; cases h
              · rw [if_neg hi] at h
                cases h
                obtain ⟨G, W⟩ := setObj_copy g hd (o := ⟨b, [], []⟩) (by
                  intro c hc
                  cases b with
                  | none => simp [Obj.refs] at hc
                  | some b' =>
                      simp [Obj.refs] at hc
                      subst hc
                      exact g.lt i _ (mem_up hk))
                refine ⟨G, ?_⟩
                rw [W]
                simp [VSt.step, St.values, absObj, hk]
      | down i k =>
          simp only [St.assign] at h
          cases hk : (s.fld i).down[k]? with
          | none => simp [hk] at h
          | some b =>
              simp only [hk] at h
              by_cases hi : i = d
              · rw [if_pos hi] at h; cases h
              · rw [if_neg hi] at h
                cases h
                obtain ⟨G, W⟩ := setObj_copy g hd (o := ⟨b, [], []⟩) (by
                  intro c hc
                  cases b with
                  | none => simp [Obj.refs] at hc
                  | some b' =>
                      simp [Obj.refs] at hc
                      subst hc
                      exact g.lt i _ (mem_down hk))
                refine ⟨G, ?_⟩
                rw [W]
                simp [VSt.step, St.values, absObj, hk]
      | val v =>
          simp only [St.assign, Except.ok.injEq] at h
          subst h
          have A := allocate_spec (clear_good g d) (show d < (s.clear d).nf from hd) junk
          have lg : ∀ (b : Nat) (h0 : Nat → Nat → V) (c p : Nat), loop s.n b (fun _ _ => v) h0 c p =
              if c = b ∧ p < s.n then v else h0 c p := fun b h0 c p => loop_get _ _ _ _ (fun _ _ _ => rfl) _ _
          obtain ⟨G, W⟩ := after_alloc A (loop s.n _ (fun _ _ => v) _) (by
            intro c hc
            funext p
            rw [lg, if_neg (by rintro ⟨e, _⟩; exact hc e)])
          refine ⟨G, ?_⟩
          rw [W, clear_values, set_here, set_set]
          simp only [VSt.step]
          congr 4
          apply List.ext_getElem
          · simp only [elems, St.values, List.length_map, List.length_range, List.length_replicate]; rfl
          · intro i h1 h2
            simp only [elems, List.getElem_map, List.getElem_range, List.getElem_replicate]
            have h1' : i < s.n := by simpa [St.values] using h1
            rw [lg, if_pos ⟨rfl, h1'⟩]
  | bin d op a b =>
      have hd : d < s.nf := by simpa [Op.declared] using hdec
      have := bin_spec g hd h
      exact ⟨this.1, this.2.1⟩
  | inplace d op a =>
      have hd : d < s.nf := by simpa [Op.declared] using hdec
      have := inplace_spec g hd h
      exact ⟨this.1, this.2.1⟩
  | write d p x =>
      have hd : d < s.nf := by simpa [Op.declared] using hdec
      simp only [St.exec, St.write] at h
      by_cases hp : p < s.n
      case neg => rw [if_neg hp] at h; cases h
      rw [if_pos hp] at h
      cases h
      have A := allocate_spec g hd junk
      obtain ⟨G, W⟩ := after_alloc A (wr (s.allocate d junk).1.heap (s.allocate d junk).2 p x) (by
        intro c hc
        funext q
        simp [wr, hc])
      refine ⟨G, ?_⟩
      rw [W, elems_wr, A.vals]
      rfl
  | slices d m =>
      have hd : d < s.nf := by simpa [Op.declared] using hdec
      simp only [St.exec, Except.ok.injEq] at h
      subst h
      obtain ⟨G, W⟩ := setObj_copy g hd
        (o := { s.fld d with up := List.replicate m (s.fld d).data, down := List.replicate m (s.fld d).data }) (by
          intro c hc
          simp only [Obj.refs, List.mem_append, List.mem_filterMap, List.mem_replicate, id] at hc
          apply g.lt d c
          rcases hc with (hc | ⟨x, hx, e⟩) | ⟨x, hx, e⟩
          · simp only [Obj.refs, List.mem_append]; exact Or.inl (Or.inl hc)
          · exact mem_data (by rw [← hx.2, e])
          · exact mem_data (by rw [← hx.2, e]))
      refine ⟨G, ?_⟩
      unfold St.slicesShared
      rw [W]
      simp [VSt.step, St.values, absObj]
  | clear d =>
      simp only [St.exec, Except.ok.injEq] at h
      subst h
      exact ⟨clear_good g d, by rw [clear_values]; rfl⟩

/-! ### Every program -/

theorem run_values {s s' : St V} (g : s.Good) (prog : List ((Nat → V) × Op V))
    (h : s.run prog = .ok s') : s'.Good ∧ s.values.run prog = some s'.values := by
  induction prog generalizing s with
  | nil => simp only [St.run, Except.ok.injEq] at h; subst h; exact ⟨g, rfl⟩
  | cons jo os ih =>
      obtain ⟨j, o⟩ := jo
      simp only [St.run, bind, Except.bind] at h
      cases hs : s.step j o with
      | error e => simp [hs] at h
      | ok s1 =>
          simp only [hs] at h
          obtain ⟨g1, w1⟩ := C50_step g hs
          obtain ⟨g2, w2⟩ := ih g1 h
          exact ⟨g2, by simp only [VSt.run, w1, Option.bind]; exact w2⟩

theorem init_good (n : Nat) (h : Nat → Nat → V) : (St.init n h).Good :=
  ⟨by intro i b hb; simp [St.init, Obj.refs] at hb, by intro i _; simp [St.init, Obj.refs]⟩

/-- C50, main statement.  Whatever program of declarations, assignments, arithmetic, in-place
arithmetic, guarded element writes and slice operations is run, on whatever memory, if it
completes then every variable has the value that the program computes when fields are plain
values with no shared storage. -/
theorem C50_value_semantics (n : Nat) (h : Nat → Nat → V) (prog : List ((Nat → V) × Op V)) (s : St V)
    (hrun : (St.init n h).run prog = .ok s) :
    (⟨n, 0, fun _ => ⟨none, [], []⟩⟩ : VSt V).run prog = some s.values :=
  (run_values (init_good n h) prog hrun).2

/-- The variable a step may change. -/
def Op.target (nf : Nat) : Op V → Nat
  | .declare => nf
  | .assign d _ => d
  | .bin d _ _ _ => d
  | .inplace d _ _ => d
  | .write d _ _ => d
  | .slices d _ => d
  | .clear d => d

/-- C50: at any moment of any program, a step that names one field leaves the elements and the
slices of every other field as they were. -/
theorem C50_others_unchanged (n : Nat) (h : Nat → Nat → V) (prog : List ((Nat → V) × Op V)) (s s' : St V)
    (hrun : (St.init n h).run prog = .ok s) (j : Nat → V) (o : Op V) (hs : s.step j o = .ok s')
    (i : Nat) (hi : i ≠ o.target s.nf) : s'.values.fld i = s.values.fld i := by
  have g := (run_values (init_good n h) prog hrun).1
  obtain ⟨-, w⟩ := C50_step g hs
  cases o with
  | declare => simp only [VSt.step, Option.some.injEq] at w; rw [← w]; simp only [VSt.set]; exact if_neg hi
  | assign d a =>
      have hi' : i ≠ d := hi
      cases a with
      | fld k => simp only [VSt.step, Option.some.injEq] at w; rw [← w]; simp [VSt.set, hi']
      | up k m =>
          simp only [VSt.step, Option.map_eq_some_iff] at w
          obtain ⟨x, -, e⟩ := w; rw [← e]; simp [VSt.set, hi']
      | down k m =>
          simp only [VSt.step, Option.map_eq_some_iff] at w
          obtain ⟨x, -, e⟩ := w; rw [← e]; simp [VSt.set, hi']
      | val v => simp only [VSt.step, Option.some.injEq] at w; rw [← w]; simp [VSt.set, hi']
  | bin d op a b =>
      have hi' : i ≠ d := hi
      simp only [VSt.step, bind, pure, Option.bind_eq_some_iff, Option.some.injEq] at w
      obtain ⟨x, -, y, -, e⟩ := w; rw [← e]; simp [VSt.set, hi']
  | inplace d op a =>
      have hi' : i ≠ d := hi
      simp only [VSt.step, bind, pure, Option.bind_eq_some_iff, Option.some.injEq] at w
      obtain ⟨x, -, y, -, e⟩ := w; rw [← e]; simp [VSt.set, hi']
  | write d p v =>
      have hi' : i ≠ d := hi
      simp only [VSt.step, Option.some.injEq] at w; rw [← w]; simp [VSt.set, hi']
  | slices d m =>
      have hi' : i ≠ d := hi
      simp only [VSt.step, Option.some.injEq] at w; rw [← w]; simp [VSt.set, hi']
  | clear d =>
      have hi' : i ≠ d := hi
      simp only [VSt.step, Option.some.injEq] at w; rw [← w]; simp [VSt.set, hi']

/-! ### When a step completes -/

/-- An operand that can be used: it has elements, and if it is a slice it is not one of `d`. -/
def usable (v : VSt V) (d : Nat) (a : Operand V) : Prop := (v.eval a).isSome ∧ a.sliceOf d = false

/-- The steps a correct program makes. -/
def legal (v : VSt V) : Op V → Prop
  | .declare => True
  | .assign d a => d < v.nf ∧ (usable v d a ∨ ∃ i, a = .fld i)
  | .bin d _ a b => d < v.nf ∧ (v.eval a).isSome ∧ (v.eval b).isSome
  | .inplace d _ a => d < v.nf ∧ (v.fld d).data.isSome ∧ usable v d a
  | .write d p _ => d < v.nf ∧ p < v.n
  | .slices d _ => d < v.nf
  | .clear d => d < v.nf

theorem resolve_ok {s : St V} {a : Operand V} (h : (s.values.eval a).isSome) : ∃ x, s.resolve a = .ok x := by
  cases a with
  | fld i =>
      cases hd : (s.fld i).data with
      | none => simp [VSt.eval, St.values, absObj, hd] at h
      | some b => exact ⟨.blk b, by simp [St.resolve, hd, need]⟩
  | up i k =>
      cases hd : (s.fld i).up[k]? with
      | none => simp [VSt.eval, St.values, absObj, hd] at h
      | some ob =>
          cases ob with
          | none => simp [VSt.eval, St.values, absObj, hd] at h
          | some b => exact ⟨.blk b, by simp [St.resolve, hd, need]⟩
  | down i k =>
      cases hd : (s.fld i).down[k]? with
      | none => simp [VSt.eval, St.values, absObj, hd] at h
      | some ob =>
          cases ob with
          | none => simp [VSt.eval, St.values, absObj, hd] at h
          | some b => exact ⟨.blk b, by simp [St.resolve, hd, need]⟩
  | val v => exact ⟨.val v, rfl⟩

theorem bin_ok {s : St V} {d : Nat} {op : V → V → V} {a b : Operand V} {junk : Nat → V}
    (ha : (s.values.eval a).isSome) (hb : (s.values.eval b).isSome) : ∃ s', s.bin d op a b junk = .ok s' := by
  obtain ⟨x, hx⟩ := resolve_ok ha
  obtain ⟨y, hy⟩ := resolve_ok hb
  exact ⟨_, by simp only [St.bin, hx, hy, bind, Except.bind]; rfl⟩

/-- C50: a legal step always completes, however the storage happens to be shared. -/
theorem C50_legal_completes (s : St V) (junk : Nat → V) (o : Op V) (hl : legal s.values o) :
    ∃ s', s.step junk o = .ok s' := by
  have go : ∀ {s' : St V}, o.declared s.nf = true → s.exec junk o = .ok s' → ∃ s', s.step junk o = .ok s' := by
    intro s' hd he
    exact ⟨s', by unfold St.step; rw [if_pos hd, he]⟩
  cases o with
  | declare => exact ⟨_, rfl⟩
  | assign d a =>
      obtain ⟨hd, hu⟩ := hl
      have hd' : (Op.assign d a).declared s.nf = true := by simpa [Op.declared, St.values] using hd
      cases a with
      | fld i =>
          by_cases e : i = d
          · exact go hd' (by simp [St.exec, St.assign, e]; rfl)
          · exact go hd' (by simp [St.exec, St.assign, e]; rfl)
      | up i k =>
          rcases hu with ⟨h1, h2⟩ | ⟨j, hj⟩
          · have hi : i ≠ d := by simpa [Operand.sliceOf] using h2
            obtain ⟨x, hx⟩ := resolve_ok h1
            cases hk : (s.fld i).up[k]? with
            | none => simp [St.resolve, hk] at hx
            | some b => exact go hd' (by simp [St.exec, St.assign, hk, hi]; rfl)
          · cases hj
      | down i k =>
          rcases hu with ⟨h1, h2⟩ | ⟨j, hj⟩
          · have hi : i ≠ d := by simpa [Operand.sliceOf] using h2
            obtain ⟨x, hx⟩ := resolve_ok h1
            cases hk : (s.fld i).down[k]? with
            | none => simp [St.resolve, hk] at hx
            | some b => exact go hd' (by simp [St.exec, St.assign, hk, hi]; rfl)
          · cases hj
      | val v => exact go hd' (by simp only [St.exec, St.assign]; rfl)
  | bin d op a b =>
      obtain ⟨hd, ha, hb⟩ := hl
      obtain ⟨s', h⟩ := bin_ok (s := s) (d := d) (op := op) (junk := junk) ha hb
      exact go (by simpa [Op.declared, St.values] using hd) h
  | inplace d op a =>
      obtain ⟨hd, hx, ha, hs⟩ := hl
      have hd' : (Op.inplace d op a).declared s.nf = true := by simpa [Op.declared, St.values] using hd
      have hb : ∃ s', s.bin d op (.fld d) a junk = .ok s' := bin_ok hx ha
      cases hdat : (s.fld d).data with
      | none => simp [St.values, absObj, hdat] at hx
      | some b =>
          by_cases hu : s.useCount b = 1
          · have ha' : ((s.clear d).values.eval a).isSome := by
              rw [clear_values]
              cases a with
              | fld i =>
                  by_cases hi : i = d
                  · subst hi; simpa [VSt.eval, VSt.set] using ha
                  · simpa [VSt.eval, VSt.set, hi] using ha
              | up i k =>
                  have hi : i ≠ d := by simpa [Operand.sliceOf] using hs
                  simpa [VSt.eval, VSt.set, hi] using ha
              | down i k =>
                  have hi : i ≠ d := by simpa [Operand.sliceOf] using hs
                  simpa [VSt.eval, VSt.set, hi] using ha
              | val v => rfl
            obtain ⟨y, hy⟩ := resolve_ok ha'
            exact go hd' (by
              simp only [St.exec, St.inplace, hdat]
              rw [if_pos hu, if_neg (by simp [hs])]
              simp only [hy, bind, Except.bind]
              rfl)
          · obtain ⟨s', h⟩ := hb
            exact go hd' (by
              simp only [St.exec, St.inplace, hdat]
              rw [if_neg hu]
              exact h)
  | write d p v =>
      obtain ⟨hd, hp⟩ := hl
      have hp' : p < s.n := hp
      exact go (by simpa [Op.declared, St.values] using hd) (by simp only [St.exec, St.write]; rw [if_pos hp'])
  | slices d m => exact go (by simpa [Op.declared, legal, St.values] using hl) (by simp only [St.exec]; rfl)
  | clear d => exact go (by simpa [Op.declared, legal, St.values] using hl) (by simp only [St.exec]; rfl)

/-- A program with sharing, in-place arithmetic on shared data and slices, which completes:
`f = 2; g = f; g += f; f.calcParallelSlices(); h = f.yup() + g; f[1] = 7`. -/
def exProg : List ((Nat → Nat) × Op Nat) :=
  let j : Nat → Nat := fun _ => 99
  [(j, .declare), (j, .declare), (j, .declare), (j, .assign 0 (.val 2)), (j, .assign 1 (.fld 0)),
   (j, .inplace 1 (· + ·) (.fld 0)), (j, .slices 0 1), (j, .bin 2 (· + ·) (.up 0 0) (.fld 1)),
   (j, .write 0 1 7)]

theorem ex_of_map {A B : Type} {x : Out A} {f : A → B} {b : B} (h : x.toOption.map f = some b) :
    ∃ a, x = .ok a ∧ f a = b := by
  cases x with
  | error e => simp [Except.toOption] at h
  | ok a => exact ⟨a, rfl, by simpa [Except.toOption] using h⟩

/-- The hypotheses of `C50_value_semantics` are met, and the values are the expected ones:
the slice of `f` keeps the old value. -/
theorem C50_example : ∃ s, (St.init 3 (fun _ _ => 0)).run exProg = .ok s ∧
    ((s.values.fld 0).data, (s.values.fld 0).up, (s.values.fld 1).data, (s.values.fld 2).data)
      = (some [2, 7, 2], [some [2, 2, 2]], some [4, 4, 4], some [6, 6, 6]) :=
  ex_of_map (by decide +kernel)

/-! ### Where value semantics fails -/

/-- The step is undefined behaviour. -/
def isUB {A : Type} : Out A → Bool
  | .error (.ub _) => true
  | _ => false

/-- `g = f; f[0] = v` without `allocate()` changes `g`. -/
theorem C50_raw_write_violated : ∃ (s : St Nat) (prog : List ((Nat → Nat) × Op Nat)),
    (St.init 2 (fun _ _ => 0)).run prog = .ok s ∧
    (((s.values.fld 1).data, (s.rawWrite 0 0 5).toOption.map fun s' => (s'.values.fld 1).data) =
      (some [2, 2], some (some [5, 2]))) := by
  obtain ⟨s, h1, h2⟩ := ex_of_map (x := (St.init 2 (fun _ _ => 0)).run
    [(fun _ => 9, .declare), (fun _ => 9, .declare), (fun _ => 9, .assign 0 (.val 2)),
      (fun _ => 9, .assign 1 (.fld 0))])
    (f := fun s : St Nat => ((s.values.fld 1).data, (s.rawWrite 0 0 5).toOption.map fun s' => (s'.values.fld 1).data))
    (b := (some [2, 2], some (some [5, 2]))) (by decide +kernel)
  exact ⟨s, _, h1, h2⟩

/-- General: writing an element without `allocate()` changes exactly the fields and slices that
share the block. -/
theorem C50_raw_write_scope (s s' : St V) (d p : Nat) (v : V) (b : Nat) (hd : (s.fld d).data = some b)
    (h : s.rawWrite d p v = .ok s') (i : Nat) (hi : b ∉ (s.fld i).refs) :
    s'.values.fld i = s.values.fld i := by
  simp only [St.rawWrite, hd] at h
  by_cases hp : p < s.n
  · rw [if_pos hp] at h
    cases h
    simp only [St.values]
    apply absObj_congr
    intro c hc q _
    have : c ≠ b := fun e => hi (e ▸ hc)
    simp [wr, this]
  · rw [if_neg hp] at h; cases h

/-- `f += f.yup()` and `f = f.yup()` use an operand that the statement itself destroys. The
first does so only if the data of `f` is not shared, so that the same statement is defined
before and undefined after an unrelated copy goes away. -/
theorem C50_own_slice_violated : ∃ (s t : St Nat) (p q : List ((Nat → Nat) × Op Nat)),
    (St.init 2 (fun _ _ => 0)).run p = .ok s ∧ (St.init 2 (fun _ _ => 0)).run q = .ok t ∧
    ((s.values.fld 0).data, (s.values.fld 0).up) = ((t.values.fld 0).data, (t.values.fld 0).up) ∧
    (s.step (fun _ => 9) (.inplace 0 (· + ·) (.up 0 0))).toOption.map (fun s' => (s'.values.fld 0).data)
      = some (some [3, 3]) ∧
    isUB (t.step (fun _ => 9) (.inplace 0 (· + ·) (.up 0 0))) = true ∧
    isUB (t.step (fun _ => 9) (.assign 0 (.up 0 0))) = true := by
  let p : List ((Nat → Nat) × Op Nat) :=
    [(fun _ => 9, .declare), (fun _ => 9, .declare), (fun _ => 9, .assign 0 (.val 1)), (fun _ => 9, .slices 0 1),
      (fun _ => 9, .write 0 0 2), (fun _ => 9, .write 0 1 2)]
  obtain ⟨s, h1, h2⟩ := ex_of_map (x := (St.init 2 (fun _ _ => 0)).run (p ++ [(fun _ => 9, .assign 1 (.fld 0))]))
    (f := fun s : St Nat => (((s.values.fld 0).data, (s.values.fld 0).up),
      (s.step (fun _ => 9) (.inplace 0 (· + ·) (.up 0 0))).toOption.map fun s' => (s'.values.fld 0).data))
    (b := ((some [2, 2], [some [1, 1]]), some (some [3, 3]))) (by decide +kernel)
  obtain ⟨t, h3, h4⟩ := ex_of_map (x := (St.init 2 (fun _ _ => 0)).run p)
    (f := fun s : St Nat => (((s.values.fld 0).data, (s.values.fld 0).up),
      isUB (s.step (fun _ => 9) (.inplace 0 (· + ·) (.up 0 0))), isUB (s.step (fun _ => 9) (.assign 0 (.up 0 0)))))
    (b := ((some [2, 2], [some [1, 1]]), true, true)) (by decide +kernel)
  simp only [Prod.mk.injEq] at h2 h4 ⊢
  exact ⟨s, t, _, p, h1, h3, ⟨h2.1.1.trans h4.1.1.symm, h2.1.2.trans h4.1.2.symm⟩, h2.2, h4.2.1, h4.2.2⟩

/-! ### Comparison -/

section Eq
variable {K : Type} [LinearOrder K]

theorem foldl_min_lt (tol : K) (xs : List K) (x : K) :
    xs.foldl (fun m y => if y < m then y else m) x < tol ↔ ∃ y ∈ x :: xs, y < tol := by
  induction xs generalizing x with
  | nil => simp
  | cons y ys ih =>
      simp only [List.foldl_cons]
      rw [ih]
      by_cases h : y < x
      · rw [if_pos h]
        simp only [List.mem_cons, exists_eq_or_imp]
        constructor
        · rintro (a | a)
          · exact Or.inr (Or.inl a)
          · exact Or.inr (Or.inr a)
        · rintro (a | a | a)
          · exact Or.inl (lt_trans h a)
          · exact Or.inl a
          · exact Or.inr a
      · rw [if_neg h]
        simp only [List.mem_cons, exists_eq_or_imp]
        constructor
        · rintro (a | a)
          · exact Or.inl a
          · exact Or.inr (Or.inr a)
        · rintro (a | a | a)
          · exact Or.inl a
          · exact Or.inl (lt_of_le_of_lt (not_lt.mp h) a)
          · exact Or.inr a

/-- `a == b` is true if and only if the fields agree (to the tolerance) at some point. -/
theorem C50_equality_is_some_point (tol x : K) (xs : List K) :
    eqField tol (x :: xs) = .ok true ↔ ∃ y ∈ x :: xs, y < tol := by
  rw [← foldl_min_lt]
  simp [eqField]

end Eq

/-- `[0, 5] == [0, 1000]` holds. -/
theorem C50_equality_violated : eqField (1 : Int) [|0 - 0|, |5 - 1000|] = .ok true ∧
    (∃ y ∈ [|(0:Int) - 0|, |5 - 1000|], ¬ y < 1) := by
  constructor
  · rfl
  · exact ⟨|5 - 1000|, by simp, by decide⟩

end Verif.Field
