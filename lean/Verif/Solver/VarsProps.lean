import Verif.Solver.Vars
import Mathlib.Data.List.Nodup
import Mathlib.Data.List.Perm.Basic
import Mathlib.Data.List.FinRange
import Mathlib.Tactic.Ring

namespace Verif.Vars

/-! ## Specification -/

/-- One evolving number: variable `i` of the 2D list at point `pt`, or of the 3D list at `(pt, z)`. -/
inductive Slot where
  | s2 (i pt : Nat)
  | s3 (i pt z : Nat)
deriving DecidableEq

/-- A number evolves iff its point is in the bulk, or is in the boundary and the variable evolves its boundary. -/
def Evolves (S : Solver) : Slot → Prop
  | .s2 i pt => ∃ f, S.f2d[i]? = some f ∧ (pt ∈ S.bndry2 ∧ f.evolveBndry = true ∨ pt ∈ S.nobndry2)
  | .s3 i pt z => z < S.nz ∧ ∃ f, S.f3d[i]? = some f ∧ (pt ∈ S.bndry2 ∧ f.evolveBndry = true ∨ pt ∈ S.nobndry2)

/-- The value of the variable in the fields (`z` fastest in a 3D field). -/
def val {V : Type} (nz : Nat) (st : St V) : Slot → V
  | .s2 i pt => st.v2 i pt
  | .s3 i pt z => st.v3 i (pt * nz + z)

/-- The time derivative of the variable in the fields. -/
def der {V : Type} (nz : Nat) (st : St V) : Slot → V
  | .s2 i pt => st.d2 i pt
  | .s3 i pt z => st.d3 i (pt * nz + z)

/-- Is the variable a constraint? -/
def isConstraint (S : Solver) : Slot → Bool
  | .s2 i _ => (S.f2d[i]?.map (fun f => f.constraint)).getD false
  | .s3 i _ _ => (S.f3d[i]?.map (fun f => f.constraint)).getD false

/-- The regions are what they should be: no point twice, boundary and bulk disjoint, 3D regions the columns over the 2D
ones. -/
structure Ok (S : Solver) : Prop where
  nz_pos : 0 < S.nz
  bnd : S.bndry2.Nodup
  nobnd : S.nobndry2.Nodup
  disj : ∀ x, x ∈ S.bndry2 → x ∉ S.nobndry2
  bnd3 : S.bndry3.Nodup
  nobnd3 : S.nobndry3.Nodup
  bnd3_mem : ∀ k, k ∈ S.bndry3 ↔ k / S.nz ∈ S.bndry2
  nobnd3_mem : ∀ k, k ∈ S.nobndry3 ↔ k / S.nz ∈ S.nobndry2

/-- The slot is stored at grid point `(pt, z)`; 2D variables count at `z = 0`. -/
def At (pt z : Nat) : Slot → Prop
  | .s2 _ p => p = pt ∧ z = 0
  | .s3 _ p z' => p = pt ∧ z' = z

/-! ## The layout -/

def on (b : Bool) (fi : Var × Nat) : Bool := !(b && !fi.1.evolveBndry)

def row2 (S : Solver) (b : Bool) (pt : Nat) : List Slot := (S.f2d.zipIdx.filter (on b)).map (fun fi => Slot.s2 fi.2 pt)
def row3 (S : Solver) (b : Bool) (pt z : Nat) : List Slot := (S.f3d.zipIdx.filter (on b)).map (fun fi => Slot.s3 fi.2 pt z)
def block (S : Solver) (b : Bool) (pt z : Nat) : List Slot := (if z = 0 then row2 S b pt else []) ++ row3 S b pt z
def col (S : Solver) (b : Bool) (pt : Nat) : List Slot := row2 S b pt ++ (List.range S.nz).flatMap (row3 S b pt)
def layout (S : Solver) : List Slot := S.bndry2.flatMap (col S true) ++ S.nobndry2.flatMap (col S false)

theorem mem_filter_zipIdx (l : List Var) (b : Bool) (f : Var) (i : Nat) :
    (f, i) ∈ l.zipIdx.filter (on b) ↔ l[i]? = some f ∧ (b = true → f.evolveBndry = true) := by
  rw [List.mem_filter, List.mem_zipIdx_iff_getElem?]
  simp only [on, Bool.not_eq_true', Bool.and_eq_false_iff, Bool.not_eq_false']
  constructor
  · rintro ⟨h1, h2⟩; refine ⟨h1, fun hb => ?_⟩
    rcases h2 with h2 | h2
    · rw [hb] at h2; simp at h2
    · exact h2
  · rintro ⟨h1, h2⟩; refine ⟨h1, ?_⟩
    cases b with
    | false => left; rfl
    | true => right; exact h2 rfl

theorem mem_row2 (S : Solver) (b : Bool) (pt : Nat) (s : Slot) :
    s ∈ row2 S b pt ↔ ∃ i f, s = .s2 i pt ∧ S.f2d[i]? = some f ∧ (b = true → f.evolveBndry = true) := by
  simp only [row2, List.mem_map, Prod.exists]
  constructor
  · rintro ⟨f, i, h, rfl⟩; exact ⟨i, f, rfl, (mem_filter_zipIdx _ _ _ _).mp h⟩
  · rintro ⟨i, f, rfl, h⟩; exact ⟨f, i, (mem_filter_zipIdx _ _ _ _).mpr h, rfl⟩

theorem mem_row3 (S : Solver) (b : Bool) (pt z : Nat) (s : Slot) :
    s ∈ row3 S b pt z ↔ ∃ i f, s = .s3 i pt z ∧ S.f3d[i]? = some f ∧ (b = true → f.evolveBndry = true) := by
  simp only [row3, List.mem_map, Prod.exists]
  constructor
  · rintro ⟨f, i, h, rfl⟩; exact ⟨i, f, rfl, (mem_filter_zipIdx _ _ _ _).mp h⟩
  · rintro ⟨i, f, rfl, h⟩; exact ⟨f, i, (mem_filter_zipIdx _ _ _ _).mpr h, rfl⟩

theorem mem_layout (S : Solver) (s : Slot) : s ∈ layout S ↔ Evolves S s := by
  simp only [layout, List.mem_append, List.mem_flatMap, col, mem_row2, mem_row3, List.mem_range]
  cases s with
  | s2 i pt =>
    simp only [Slot.s2.injEq, reduceCtorEq, false_and, exists_false, and_false, or_false, Evolves]
    constructor
    · rintro (⟨q, hq, i', f, ⟨rfl, rfl⟩, hf, hb⟩ | ⟨q, hq, i', f, ⟨rfl, rfl⟩, hf, hb⟩)
      · exact ⟨f, hf, Or.inl ⟨hq, by simpa using hb⟩⟩
      · exact ⟨f, hf, Or.inr hq⟩
    · rintro ⟨f, hf, ⟨hq, hb⟩ | hq⟩
      · exact Or.inl ⟨pt, hq, i, f, ⟨rfl, rfl⟩, hf, fun _ => hb⟩
      · exact Or.inr ⟨pt, hq, i, f, ⟨rfl, rfl⟩, hf, by simp⟩
  | s3 i pt z =>
    simp only [Slot.s3.injEq, reduceCtorEq, false_and, exists_false, false_or, Evolves]
    constructor
    · rintro (⟨q, hq, z', hz, i', f, ⟨rfl, rfl, rfl⟩, hf, hb⟩ | ⟨q, hq, z', hz, i', f, ⟨rfl, rfl, rfl⟩, hf, hb⟩)
      · exact ⟨hz, f, hf, Or.inl ⟨hq, by simpa using hb⟩⟩
      · exact ⟨hz, f, hf, Or.inr hq⟩
    · rintro ⟨hz, f, hf, ⟨hq, hb⟩ | hq⟩
      · exact Or.inl ⟨pt, hq, z, hz, i, f, ⟨rfl, rfl, rfl⟩, hf, fun _ => hb⟩
      · exact Or.inr ⟨pt, hq, z, hz, i, f, ⟨rfl, rfl, rfl⟩, hf, by simp⟩

theorem zipIdx_filter_nodup (l : List Var) (b : Bool) : ((l.zipIdx.filter (on b)).map (fun fi => fi.2)).Nodup := by
  have h : ((l.zipIdx).map (fun fi => fi.2)).Nodup := by
    have := List.zipIdx_map_snd 0 l
    rw [show (fun fi : Var × Nat => fi.2) = Prod.snd from rfl, this]
    exact List.nodup_range'
  exact h.sublist (List.Sublist.map _ List.filter_sublist)

theorem row2_nodup (S : Solver) (b : Bool) (pt : Nat) : (row2 S b pt).Nodup := by
  have := zipIdx_filter_nodup S.f2d b
  have h2 := this.map (f := fun i => Slot.s2 i pt) (fun a c h => by simpa using h)
  rw [List.map_map] at h2; exact h2

theorem row3_nodup (S : Solver) (b : Bool) (pt z : Nat) : (row3 S b pt z).Nodup := by
  have := zipIdx_filter_nodup S.f3d b
  have h2 := this.map (f := fun i => Slot.s3 i pt z) (fun a c h => by simpa using h)
  rw [List.map_map] at h2; exact h2

def Slot.pt : Slot → Nat
  | .s2 _ p => p
  | .s3 _ p _ => p

theorem col_pt (S : Solver) (b : Bool) (pt : Nat) (s : Slot) (h : s ∈ col S b pt) : s.pt = pt := by
  simp only [col, List.mem_append, List.mem_flatMap, mem_row2, mem_row3] at h
  rcases h with ⟨i, f, rfl, _⟩ | ⟨z, _, i, f, rfl, _⟩ <;> rfl

theorem col_nodup (S : Solver) (b : Bool) (pt : Nat) : (col S b pt).Nodup := by
  rw [col, List.nodup_append]
  refine ⟨row2_nodup S b pt, ?_, ?_⟩
  · rw [List.nodup_flatMap]
    refine ⟨fun z _ => row3_nodup S b pt z, ?_⟩
    refine (List.nodup_range (n := S.nz)).imp ?_
    intro z z' hne s h1 h2
    rw [mem_row3] at h1 h2
    obtain ⟨i, f, rfl, _⟩ := h1
    obtain ⟨i', f', he, _⟩ := h2
    simp only [Slot.s3.injEq] at he
    exact hne he.2.2
  · intro a ha c hc
    rw [mem_row2] at ha
    simp only [List.mem_flatMap, mem_row3] at hc
    obtain ⟨i, f, rfl, _⟩ := ha
    obtain ⟨z, _, i', f', rfl, _⟩ := hc
    simp

theorem cols_nodup (S : Solver) (b : Bool) (l : List Nat) (h : l.Nodup) : (l.flatMap (col S b)).Nodup := by
  rw [List.nodup_flatMap]
  refine ⟨fun pt _ => col_nodup S b pt, ?_⟩
  refine h.imp ?_
  intro p q hne s h1 h2
  exact hne ((col_pt S b p s h1).symm.trans (col_pt S b q s h2))

theorem layout_nodup (S : Solver) (h : Ok S) : (layout S).Nodup := by
  rw [layout, List.nodup_append]
  refine ⟨cols_nodup S _ _ h.bnd, cols_nodup S _ _ h.nobnd, ?_⟩
  intro a ha c hc he
  subst he
  simp only [List.mem_flatMap] at ha hc
  obtain ⟨p, hp, ha⟩ := ha
  obtain ⟨q, hq, hc⟩ := hc
  have : p = q := (col_pt S _ p a ha).symm.trans (col_pt S _ q a hc)
  subst this
  exact h.disj p hp hq

/-! ## Length -/

theorem filter_on_false (l : List Var) : (l.zipIdx.filter (on false)).length = l.length := by
  have : (l.zipIdx.filter (on false)) = l.zipIdx := by
    rw [List.filter_eq_self]; intro a _; simp [on]
  rw [this]; simp

theorem filter_on_true (l : List Var) : (l.zipIdx.filter (on true)).length = l.countP (fun f => f.evolveBndry) := by
  have gen : ∀ (l : List Var) (k : Nat), ((l.zipIdx k).filter (on true)).length = l.countP (fun f => f.evolveBndry) := by
    intro l
    induction l with
    | nil => intro k; rfl
    | cons a l ih =>
      intro k
      simp only [List.zipIdx_cons, List.filter_cons, List.countP_cons, on, Bool.true_and, Bool.not_not]
      cases h : a.evolveBndry
      · simp [ih]
      · simp [ih]
  exact gen l 0

theorem foldl_localN (bn nb : List Nat) (l : List Var) (n : Nat) :
    l.foldl (localNSum bn nb) n = n + bn.length * l.countP (fun f => f.evolveBndry) + nb.length * l.length := by
  induction l generalizing n with
  | nil => simp
  | cons a l ih =>
    rw [List.foldl_cons, ih]
    simp only [localNSum, List.countP_cons, List.length_cons]
    cases h : a.evolveBndry <;> simp <;> ring

theorem length_region3 (nz : Nat) (hz : 0 < nz) (l2 l3 : List Nat) (h2 : l2.Nodup) (h3 : l3.Nodup)
    (hm : ∀ k, k ∈ l3 ↔ k / nz ∈ l2) : l3.length = l2.length * nz := by
  have hp : l3.Perm (l2.flatMap (fun p => (List.range nz).map (fun z => p * nz + z))) := by
    rw [List.perm_ext_iff_of_nodup h3]
    · intro k
      rw [hm]
      simp only [List.mem_flatMap, List.mem_map, List.mem_range]
      constructor
      · intro h
        refine ⟨k / nz, h, k % nz, Nat.mod_lt _ hz, ?_⟩
        have := Nat.div_add_mod k nz
        rw [Nat.mul_comm] at this; exact this
      · rintro ⟨p, hp, z, hz', rfl⟩
        rw [Nat.mul_comm, Nat.mul_add_div hz, Nat.div_eq_of_lt hz']
        exact hp
    · rw [List.nodup_flatMap]
      refine ⟨fun p _ => List.nodup_range.map (fun a c h => by simpa using h), ?_⟩
      refine h2.imp ?_
      intro p q hne k h1 h2
      simp only [List.mem_map, List.mem_range] at h1 h2
      obtain ⟨z, hz1, rfl⟩ := h1
      obtain ⟨z', hz2, he⟩ := h2
      apply hne
      have a1 : (p * nz + z) / nz = p := by rw [Nat.mul_comm, Nat.mul_add_div hz, Nat.div_eq_of_lt hz1]; rfl
      have a2 : (q * nz + z') / nz = q := by rw [Nat.mul_comm, Nat.mul_add_div hz, Nat.div_eq_of_lt hz2]; rfl
      rw [← a1, ← a2, he]
  rw [hp.length_eq, List.length_flatMap]
  simp

theorem col_length (S : Solver) (b : Bool) (pt : Nat) :
    (col S b pt).length = (S.f2d.zipIdx.filter (on b)).length + S.nz * (S.f3d.zipIdx.filter (on b)).length := by
  simp only [col, List.length_append, row2, List.length_map, List.length_flatMap, row3]
  simp

theorem layout_length (S : Solver) (h : Ok S) : (layout S).length = getLocalN S := by
  simp only [layout, List.length_append, List.length_flatMap, col_length, filter_on_false, filter_on_true, getLocalN,
    foldl_localN, length_region3 S.nz h.nz_pos _ _ h.bnd h.bnd3 h.bnd3_mem,
    length_region3 S.nz h.nz_pos _ _ h.nobnd h.nobnd3 h.nobnd3_mem]
  simp only [List.map_const', List.sum_replicate_nat]
  ring

/-! ## The loops visit the layout in order -/

variable {V : Type}

theorem foldlM_filter {A : Type} (b : Bool) (f : M V → A → Option (M V)) (g : M V → Var × Nat → Option (M V)) (w : Var × Nat → A)
    (hg : ∀ m fi, g m fi = if on b fi then f m (w fi) else some m) (l : List (Var × Nat)) (m : M V) :
    l.foldlM g m = ((l.filter (on b)).map w).foldlM f m := by
  induction l generalizing m with
  | nil => rfl
  | cons a l ih =>
    rw [List.foldlM_cons, hg]
    cases h : on b a
    · rw [List.filter_cons_of_neg (by simp [h])]
      simp only [Bool.false_eq_true, if_false]
      exact ih m
    · rw [List.filter_cons_of_pos h]
      simp only [if_true, List.map_cons, List.foldlM_cons]
      congr 1; funext m'; exact ih m'

theorem foldlM_flatMap {A B : Type} (f : M V → B → Option (M V)) (k : A → List B) (l : List A) (m : M V) :
    (l.flatMap k).foldlM f m = l.foldlM (fun m a => (k a).foldlM f m) m := by
  induction l generalizing m with
  | nil => rfl
  | cons a l ih =>
    rw [List.flatMap_cons, List.foldlM_append, List.foldlM_cons]
    congr 1; funext m'; exact ih m'

/-- Any loop written like the five cases of `loop_vars_op`, whose bodies act on one number at a time, is one pass over the
layout. -/
theorem loopVars_layout (S : Solver) (e : M V → Slot → Option (M V)) (op : Bool → M V → Nat → Option (M V))
    (g2 : Bool → Nat → M V → Var × Nat → Option (M V)) (g3 : Bool → Nat → Nat → M V → Var × Nat → Option (M V))
    (hop : ∀ b m pt, op b m pt = (S.f2d.zipIdx.foldlM (g2 b pt) m).bind (fun m =>
      (List.range S.nz).foldlM (fun m jz => S.f3d.zipIdx.foldlM (g3 b pt jz) m) m))
    (h2 : ∀ b pt m fi, g2 b pt m fi = if on b fi then e m (.s2 fi.2 pt) else some m)
    (h3 : ∀ b pt z m fi, g3 b pt z m fi = if on b fi then e m (.s3 fi.2 pt z) else some m)
    (st : St V) (u : List V) :
    loopVars S op st u = (layout S).foldlM e { st := st, u := u, p := 0 } := by
  have hcol : ∀ b m pt, op b m pt = (col S b pt).foldlM e m := by
    intro b m pt
    rw [hop, col, List.foldlM_append, row2]
    rw [foldlM_filter b e (g2 b pt) (fun fi => Slot.s2 fi.2 pt) (h2 b pt)]
    congr 1; funext m'
    rw [foldlM_flatMap]
    congr 1; funext m'' z
    rw [row3, foldlM_filter b e (g3 b pt z) (fun fi => Slot.s3 fi.2 pt z) (h3 b pt z)]
  rw [loopVars, layout, List.foldlM_append, foldlM_flatMap]
  simp only [foldlM_flatMap]
  have h1 : op true = fun m pt => (col S true pt).foldlM e m := by funext m pt; exact hcol true m pt
  have h2 : op false = fun m pt => (col S false pt).foldlM e m := by funext m pt; exact hcol false m pt
  rw [h1, h2]

/-- `udata[p] = x(slot); p++`. -/
def saveE (x : St V → Slot → V) (m : M V) (s : Slot) : Option (M V) := m.put (x m.st s)

theorem foldlM_save (x : St V → Slot → V) : ∀ (L : List Slot) (st : St V) (done rest : List V), L.length ≤ rest.length →
    L.foldlM (saveE x) { st := st, u := done ++ rest, p := done.length } =
      some { st := st, u := done ++ L.map (x st) ++ rest.drop L.length, p := done.length + L.length } := by
  intro L
  induction L with
  | nil => intro st done rest _; simp
  | cons s L ih =>
    intro st done rest h
    cases rest with
    | nil => simp at h
    | cons r rest =>
      rw [List.foldlM_cons]
      have h1 : saveE x { st := st, u := done ++ r :: rest, p := done.length } s =
          some { st := st, u := (done ++ [x st s]) ++ rest, p := (done ++ [x st s]).length } := by
        simp [saveE, M.put]
      rw [h1]
      simp only [Option.bind_eq_bind, Option.bind_some]
      rw [ih st (done ++ [x st s]) rest (by simpa using h)]
      simp; omega

/-- `var[slot] = udata[p]; p++`. -/
def loadE (w : St V → Slot → V → St V) (m : M V) (s : Slot) : Option (M V) :=
  match m.u[m.p]? with
  | none => none
  | some y => some { m with st := w m.st s y, p := m.p + 1 }

theorem foldlM_load (w : St V → Slot → V → St V) : ∀ (L : List Slot) (st : St V) (u : List V) (p : Nat),
    p + L.length ≤ u.length →
    L.foldlM (loadE w) { st := st, u := u, p := p } =
      some { st := (L.zip (u.drop p)).foldl (fun st sy => w st sy.1 sy.2) st, u := u, p := p + L.length } := by
  intro L
  induction L with
  | nil => intro st u p _; simp
  | cons s L ih =>
    intro st u p h
    simp only [List.length_cons] at h
    have hp : p < u.length := by omega
    rw [List.foldlM_cons]
    have h1 : loadE w { st := st, u := u, p := p } s = some { st := w st s u[p], u := u, p := p + 1 } := by
      simp [loadE, hp]
    rw [h1]
    simp only [Option.bind_eq_bind, Option.bind_some]
    rw [ih _ u (p + 1) (by omega), List.drop_eq_getElem_cons hp]
    simp only [List.zip_cons_cons, List.foldl_cons, List.length_cons, Option.some.injEq, M.mk.injEq, true_and]
    omega

/-- Assignment of a slot's value. -/
def setV (nz : Nat) (st : St V) (s : Slot) (y : V) : St V := match s with
  | .s2 i pt => { st with v2 := upd st.v2 i pt y }
  | .s3 i pt z => { st with v3 := upd st.v3 i (ind2Dto3D nz pt z) y }
/-- Assignment of a slot's time derivative. -/
def setD (nz : Nat) (st : St V) (s : Slot) (y : V) : St V := match s with
  | .s2 i pt => { st with d2 := upd st.d2 i pt y }
  | .s3 i pt z => { st with d3 := upd st.d3 i (ind2Dto3D nz pt z) y }

theorem loop_saveVars (S : Solver) (st : St V) (u : List V) :
    loopVars S (saveVarsOp S) st u = (layout S).foldlM (saveE (val S.nz)) { st := st, u := u, p := 0 } := by
  refine loopVars_layout S (saveE (val S.nz)) _ (fun b pt => saveVar2 b pt) (fun b pt z => saveVar3 S.nz b pt z)
    (fun _ _ _ => rfl) ?_ ?_ st u
  · intro b pt m fi; simp only [saveVar2, on, saveE, val]; obtain ⟨⟨eb, cc⟩, i⟩ := fi; cases b <;> cases eb <;> rfl
  · intro b pt z m fi; simp only [saveVar3, on, saveE, val, ind2Dto3D]; obtain ⟨⟨eb, cc⟩, i⟩ := fi; cases b <;> cases eb <;> rfl

theorem loop_saveDerivs (S : Solver) (st : St V) (u : List V) :
    loopVars S (saveDerivsOp S) st u = (layout S).foldlM (saveE (der S.nz)) { st := st, u := u, p := 0 } := by
  refine loopVars_layout S (saveE (der S.nz)) _ (fun b pt => saveDeriv2 b pt) (fun b pt z => saveDeriv3 S.nz b pt z)
    (fun _ _ _ => rfl) ?_ ?_ st u
  · intro b pt m fi; simp only [saveDeriv2, on, saveE, der]; obtain ⟨⟨eb, cc⟩, i⟩ := fi; cases b <;> cases eb <;> rfl
  · intro b pt z m fi; simp only [saveDeriv3, on, saveE, der, ind2Dto3D]; obtain ⟨⟨eb, cc⟩, i⟩ := fi; cases b <;> cases eb <;> rfl

theorem loop_loadVars (S : Solver) (st : St V) (u : List V) :
    loopVars S (loadVarsOp S) st u = (layout S).foldlM (loadE (setV S.nz)) { st := st, u := u, p := 0 } := by
  refine loopVars_layout S (loadE (setV S.nz)) _ (fun b pt => loadVar2 b pt) (fun b pt z => loadVar3 S.nz b pt z)
    (fun _ _ _ => rfl) ?_ ?_ st u
  · intro b pt m fi; simp only [loadVar2, on, loadE, setV]; obtain ⟨⟨eb, cc⟩, i⟩ := fi; cases b <;> cases eb <;> rfl
  · intro b pt z m fi; simp only [loadVar3, on, loadE, setV, ind2Dto3D]; obtain ⟨⟨eb, cc⟩, i⟩ := fi; cases b <;> cases eb <;> rfl

theorem loop_loadDerivs (S : Solver) (st : St V) (u : List V) :
    loopVars S (loadDerivsOp S) st u = (layout S).foldlM (loadE (setD S.nz)) { st := st, u := u, p := 0 } := by
  refine loopVars_layout S (loadE (setD S.nz)) _ (fun b pt => loadDeriv2 b pt) (fun b pt z => loadDeriv3 S.nz b pt z)
    (fun _ _ _ => rfl) ?_ ?_ st u
  · intro b pt m fi; simp only [loadDeriv2, on, loadE, setD]; obtain ⟨⟨eb, cc⟩, i⟩ := fi; cases b <;> cases eb <;> rfl
  · intro b pt z m fi; simp only [loadDeriv3, on, loadE, setD, ind2Dto3D]; obtain ⟨⟨eb, cc⟩, i⟩ := fi; cases b <;> cases eb <;> rfl

theorem saveVars_eq (S : Solver) (h : Ok S) (st : St V) (u : List V) (hu : getLocalN S ≤ u.length) :
    saveVars S st u = some ((layout S).map (val S.nz st) ++ u.drop (getLocalN S)) := by
  rw [saveVars, loop_saveVars]
  have := foldlM_save (val S.nz) (layout S) st [] u (by rw [layout_length S h]; exact hu)
  simp only [List.nil_append, List.length_nil] at this
  rw [this]; simp [layout_length S h]

theorem saveDerivs_eq (S : Solver) (h : Ok S) (st : St V) (u : List V) (hu : getLocalN S ≤ u.length) :
    saveDerivs S st u = some ((layout S).map (der S.nz st) ++ u.drop (getLocalN S)) := by
  rw [saveDerivs, loop_saveDerivs]
  have := foldlM_save (der S.nz) (layout S) st [] u (by rw [layout_length S h]; exact hu)
  simp only [List.nil_append, List.length_nil] at this
  rw [this]; simp [layout_length S h]

/-! ## `set_id`: the constraint flag travels with the loop's variable, so a separate pass -/

/-- Slots paired with the constraint flag of their variable. -/
def setE (zero one : V) (c : Slot → Bool) (m : M V) (s : Slot) : Option (M V) := m.put (if c s then zero else one)

theorem foldlM_congr_mem {A : Type} (f g : M V → A → Option (M V)) (l : List A) (h : ∀ a ∈ l, ∀ m, f m a = g m a) (m : M V) :
    l.foldlM f m = l.foldlM g m := by
  induction l generalizing m with
  | nil => rfl
  | cons a l ih =>
    rw [List.foldlM_cons, List.foldlM_cons, h a (by simp)]
    congr 1; funext m'; exact ih (fun a ha => h a (by simp [ha])) m'

theorem loop_setId (zero one : V) (S : Solver) (st : St V) (u : List V) :
    loopVars S (setIdOp zero one S) st u =
      (layout S).foldlM (saveE (fun _ s => if isConstraint S s then zero else one)) { st := st, u := u, p := 0 } := by
  have hop : loopVars S (setIdOp zero one S) st u = loopVars S (fun b m pt =>
      (S.f2d.zipIdx.foldlM (fun m fi => if on b fi then saveE (fun _ s => if isConstraint S s then zero else one) m (.s2 fi.2 pt)
        else some m) m).bind (fun m =>
      (List.range S.nz).foldlM (fun m z => S.f3d.zipIdx.foldlM (fun m fi => if on b fi then
        saveE (fun _ s => if isConstraint S s then zero else one) m (.s3 fi.2 pt z) else some m) m) m)) st u := by
    congr 1; funext b m pt
    rw [setIdOp]
    rw [foldlM_congr_mem _ (fun m fi => if on b fi then saveE (fun _ s => if isConstraint S s then zero else one) m (.s2 fi.2 pt)
        else some m) S.f2d.zipIdx ?_ m]
    · show Option.bind _ _ = Option.bind _ _
      congr 1; funext m
      congr 1; funext m z
      apply foldlM_congr_mem
      intro fi hfi m
      obtain ⟨f, i⟩ := fi
      rw [List.mem_zipIdx_iff_getElem?] at hfi
      simp only at hfi
      simp only [setId3, on, saveE, isConstraint, hfi, Option.map_some, Option.getD_some]
      obtain ⟨eb, cc⟩ := f; cases b <;> cases eb <;> rfl
    · intro fi hfi m
      obtain ⟨f, i⟩ := fi
      rw [List.mem_zipIdx_iff_getElem?] at hfi
      simp only at hfi
      simp only [setId2, on, saveE, isConstraint, hfi, Option.map_some, Option.getD_some]
      obtain ⟨eb, cc⟩ := f; cases b <;> cases eb <;> rfl
  rw [hop]
  exact loopVars_layout S _ _ _ _ (fun _ _ _ => rfl) (fun _ _ _ _ => rfl) (fun _ _ _ _ _ => rfl) st u

theorem setId_eq (zero one : V) (S : Solver) (h : Ok S) (st : St V) (u : List V) (hu : getLocalN S ≤ u.length) :
    setId zero one S st u =
      some ((layout S).map (fun s => if isConstraint S s then zero else one) ++ u.drop (getLocalN S)) := by
  rw [setId, loop_setId]
  have := foldlM_save (fun _ s => if isConstraint S s then zero else one) (layout S) st [] u
    (by rw [layout_length S h]; exact hu)
  simp only [List.nil_append, List.length_nil] at this
  rw [this]; simp [layout_length S h]

end Verif.Vars
