import Mathlib.Data.List.Basic
import Mathlib.Data.List.Nodup

/-! # C63: who owns the boundary conditions of a field

Every field keeps raw pointers to its boundary operations.  Copying a field copies the pointers; the destructor of a field deletes the operations unless
the field is marked as a copy.  The model keeps the heap of operations, the fields that exist, and every command of a program that concerns them; a
command that would delete an operation twice, or use one that has been deleted, fails.
-/

namespace Verif.Bndry.Own

/-- include/bout/field_data.hxx:130-135: the boundary part of a field: pointers to the operations (perpendicular and parallel), and whether they are
a copy of another field's. -/
structure Fd where
  ops : List Nat
  par : List Nat
  isCopy : Bool

/-- include/bout/field_data.hxx:130-135: the initial values of the members: no operations, not a copy. -/
def Fd.fresh : Fd := ⟨[], [], false⟩

/-- The fields that exist (by name), the operations that have not been deleted, and the next address. -/
structure Heap where
  fds : Nat → Option Fd
  live : Nat → Bool
  next : Nat

/-- The beginning of a program. -/
def Heap.init : Heap := ⟨fun _ => none, fun _ => false, 0⟩

/-- The commands of a program on fields. `setBoundary f n m`: the options give `n` conditions on the boundaries of this processor and `m` on its
parallel boundaries. `moveNew g f`: `Field3D g(std::move(f))`. -/
inductive Cmd where
  | new (f : Nat)
  | copyNew (g f : Nat)
  | moveNew (g f : Nat)
  | assign (g f : Nat)
  | setBoundary (f n m : Nat)
  | copyBoundary (g f : Nat)
  | apply (f : Nat)
  | destroy (f : Nat)

/-- What can go wrong. -/
inductive Fault where
  | noField | doubleFree | useAfterFree
deriving DecidableEq

/-- Overwrite one field. -/
def Heap.put (h : Heap) (f : Nat) (d : Option Fd) : Heap := { h with fds := fun x => if x = f then d else h.fds x }

/-- `delete bndry` of the destructor: one operation; deleting it twice is the fault. -/
def del (o : Nat) (h : Heap) : Except Fault Heap :=
  if h.live o then .ok { h with live := fun x => if x = o then false else h.live x } else .error .doubleFree

/-- field_data.cxx:69-76: the loop of the destructor. -/
def delAll : List Nat → Heap → Except Fault Heap
  | [], h => .ok h
  | o :: os, h => del o h >>= delAll os

/-- field_data.cxx:138-160: `n` new operations. -/
def Heap.alloc (h : Heap) (n : Nat) : Heap := { h with live := fun x => if h.next ≤ x ∧ x < h.next + n then true else h.live x, next := h.next + n }

/-- field_data.cxx:62-67, 138-173, 248-258; field3d.hxx:180; field3d.cxx:375-388: one command. The destructor does not look at the parallel operations,
and assignment changes neither field's conditions. -/
def step (c : Cmd) (h : Heap) : Except Fault Heap :=
  match c with
  | .new f => .ok (h.put f (some .fresh))
  | .copyNew g f => match h.fds f with
    | none => .error .noField
    | some d => .ok (h.put g (some ⟨d.ops, d.par, true⟩))
  | .moveNew g f => match h.fds f with
    | none => .error .noField
    | some d => .ok ((h.put f (some .fresh)).put g (some d))
  | .assign g f => match h.fds g, h.fds f with
    | some _, some _ => .ok h
    | _, _ => .error .noField
  | .setBoundary f n m => match h.fds f with
    | none => .error .noField
    | some d =>
      let ops := (List.range n).map (h.next + ·)
      let par := (List.range m).map (h.next + n + ·)
      .ok ((h.alloc (n + m)).put f (some ⟨d.ops ++ ops, d.par ++ par, false⟩))
  | .copyBoundary g f => match h.fds g, h.fds f with
    | some _, some d => .ok (h.put g (some ⟨d.ops, d.par, true⟩))
    | _, _ => .error .noField
  | .apply f => match h.fds f with
    | none => .error .noField
    | some d => if d.ops.all h.live then .ok h else .error .useAfterFree
  | .destroy f => match h.fds f with
    | none => .error .noField
    | some d => if d.isCopy then .ok (h.put f none) else (delAll d.ops h).map (·.put f none)

/-- A program. -/
def run : List Cmd → Heap → Except Fault Heap
  | [], h => .ok h
  | c :: cs, h => step c h >>= run cs

/-- What a command must respect, in terms a user can see:
* a name is created only when it is not in use;
* `setBoundary` is not called on a field that has taken conditions over from another one (as a copy, or by `copyBoundary`);
* a field is not moved onto itself. -/
def Guard (c : Cmd) (h : Heap) : Prop :=
  match c with
  | .new f => h.fds f = none
  | .copyNew g f => h.fds g = none ∧ h.fds f ≠ none
  | .moveNew g f => h.fds g = none ∧ h.fds f ≠ none
  | .assign g f => h.fds g ≠ none ∧ h.fds f ≠ none
  | .setBoundary f _ _ => ∃ d, h.fds f = some d ∧ (d.isCopy = true → d.ops = [])
  | .copyBoundary g f => h.fds g ≠ none ∧ h.fds f ≠ none
  | .apply f => h.fds f ≠ none
  | .destroy f => h.fds f ≠ none

/-- A program every command of which respects `P` in the state it is executed in. -/
def Respects (P : Cmd → Heap → Prop) : List Cmd → Heap → Prop
  | [], _ => True
  | c :: cs, h => P c h ∧ ∀ h', step c h = .ok h' → Respects P cs h'

/-- A field uses conditions of which it is not the owner, and their owner is gone. -/
def Stale (h : Heap) (d : Fd) : Prop := d.isCopy = true ∧ ∃ o ∈ d.ops, ∀ g e, h.fds g = some e → e.isCopy = false → o ∉ e.ops

/-- The invariant: the conditions of the owners exist, none is held by two owners, and none twice by one. -/
structure Inv (h : Heap) : Prop where
  alive : ∀ f d, h.fds f = some d → d.isCopy = false → ∀ o ∈ d.ops, h.live o = true
  nodup : ∀ f d, h.fds f = some d → d.isCopy = false → d.ops.Nodup
  apart : ∀ f d g e, h.fds f = some d → d.isCopy = false → h.fds g = some e → e.isCopy = false → f ≠ g → ∀ o ∈ d.ops, o ∉ e.ops
  bound : ∀ f d, h.fds f = some d → ∀ o ∈ d.ops, o < h.next
  lbound : ∀ o, h.live o = true → o < h.next

theorem delAll_ok : ∀ (os : List Nat) (h : Heap), os.Nodup → (∀ o ∈ os, h.live o = true) →
    delAll os h = .ok { h with live := fun x => if x ∈ os then false else h.live x } := by
  intro os
  induction os with
  | nil => intro h _ _; simp [delAll]
  | cons o os ih =>
    intro h hn hl
    have hn' := List.nodup_cons.1 hn
    have h1 : del o h = .ok { h with live := fun x => if x = o then false else h.live x } := if_pos (hl o (by simp))
    have h2 := ih { h with live := fun x => if x = o then false else h.live x } hn'.2 (by
      intro x hx
      have : x ≠ o := fun e => hn'.1 (e ▸ hx)
      simpa [this] using hl x (by simp [hx]))
    simp only [delAll, bind, Except.bind, h1, h2]
    congr 2
    funext x
    by_cases hx : x ∈ os
    · simp [hx]
    · by_cases hxo : x = o
      · simp [hx, hxo]
      · simp [hx, hxo]

theorem put_same (h : Heap) (f : Nat) (d : Option Fd) : (h.put f d).fds f = d := by simp [Heap.put]

theorem put_other (h : Heap) (f : Nat) (d : Option Fd) (g : Nat) (hg : g ≠ f) : (h.put f d).fds g = h.fds g := by simp [Heap.put, hg]

theorem put_some {h : Heap} {f : Nat} {d : Option Fd} {g : Nat} {e : Fd} (hp : (h.put f d).fds g = some e) :
    (g = f ∧ d = some e) ∨ (g ≠ f ∧ h.fds g = some e) := by
  by_cases hg : g = f
  · subst hg; exact .inl ⟨rfl, by simpa [Heap.put] using hp⟩
  · exact .inr ⟨hg, by simpa [Heap.put, hg] using hp⟩

/-- Replacing a field by one that owns nothing keeps the invariant. -/
theorem Inv.put {h : Heap} (hi : Inv h) (f : Nat) (d : Option Fd)
    (hd : ∀ e, d = some e → (e.isCopy = false → e.ops = []) ∧ ∀ o ∈ e.ops, o < h.next) : Inv (h.put f d) := by
  constructor
  · intro g e hg hc o ho
    rcases put_some hg with ⟨_, h2⟩ | ⟨_, h2⟩
    · rw [(hd e h2).1 hc] at ho; simp at ho
    · exact hi.alive g e h2 hc o ho
  · intro g e hg hc
    rcases put_some hg with ⟨_, h2⟩ | ⟨_, h2⟩
    · rw [(hd e h2).1 hc]; simp
    · exact hi.nodup g e h2 hc
  · intro g e g' e' hg hc hg' hc' hne o ho
    rcases put_some hg with ⟨_, h2⟩ | ⟨_, h2⟩
    · rw [(hd e h2).1 hc] at ho; simp at ho
    rcases put_some hg' with ⟨_, h3⟩ | ⟨_, h3⟩
    · rw [(hd e' h3).1 hc']; simp
    · exact hi.apart g e g' e' h2 hc h3 hc' hne o ho
  · intro g e hg o ho
    rcases put_some hg with ⟨_, h2⟩ | ⟨_, h2⟩
    · exact (hd e h2).2 o ho
    · exact hi.bound g e h2 o ho
  · exact hi.lbound

theorem Inv.init : Inv Heap.init := ⟨nofun, nofun, nofun, nofun, nofun⟩

theorem Inv.destroy {h : Heap} (hi : Inv h) (f : Nat) (d : Fd) (hf : h.fds f = some d) (hc : d.isCopy = false) :
    Inv (({ h with live := fun x => if x ∈ d.ops then false else h.live x } : Heap).put f none) := by
  constructor
  · intro g e hg he o ho
    rcases put_some hg with ⟨_, h2⟩ | ⟨h1, h2⟩
    · cases h2
    · have h3 : o ∉ d.ops := hi.apart g e f d h2 he hf hc h1 o ho
      have h4 := hi.alive g e h2 he o ho
      simpa [Heap.put, h3] using h4
  · intro g e hg he
    rcases put_some hg with ⟨_, h2⟩ | ⟨_, h2⟩
    · cases h2
    · exact hi.nodup g e h2 he
  · intro g e g' e' hg he hg' he' hne o ho
    rcases put_some hg with ⟨_, h2⟩ | ⟨_, h2⟩
    · cases h2
    rcases put_some hg' with ⟨_, h3⟩ | ⟨_, h3⟩
    · cases h3
    · exact hi.apart g e g' e' h2 he h3 he' hne o ho
  · intro g e hg o ho
    rcases put_some hg with ⟨_, h2⟩ | ⟨_, h2⟩
    · cases h2
    · exact hi.bound g e h2 o ho
  · intro o ho
    have ho' : (if o ∈ d.ops then false else h.live o) = true := ho
    split at ho'
    · cases ho'
    · exact hi.lbound o ho'

theorem Inv.set {h : Heap} (hi : Inv h) (f n m : Nat) (d : Fd) (hf : h.fds f = some d) (hd : d.isCopy = true → d.ops = []) :
    Inv ((h.alloc (n + m)).put f (some ⟨d.ops ++ (List.range n).map (h.next + ·), d.par ++ (List.range m).map (h.next + n + ·), false⟩)) := by
  have hold : ∀ o ∈ d.ops, h.live o = true := by
    intro o ho
    by_cases hc : d.isCopy = true
    · rw [hd hc] at ho; simp at ho
    · exact hi.alive f d hf (by simpa using hc) o ho
  have hnd : d.ops.Nodup := by
    by_cases hc : d.isCopy = true
    · rw [hd hc]; simp
    · exact hi.nodup f d hf (by simpa using hc)
  have hap : ∀ g e, h.fds g = some e → e.isCopy = false → g ≠ f → ∀ o ∈ d.ops, o ∉ e.ops := by
    intro g e hg he hne o ho
    by_cases hc : d.isCopy = true
    · rw [hd hc] at ho; simp at ho
    · exact hi.apart f d g e hf (by simpa using hc) hg he (Ne.symm hne) o ho
  have hnew : ∀ o ∈ (List.range n).map (h.next + ·), h.next ≤ o ∧ o < h.next + (n + m) := by
    intro o ho
    obtain ⟨k, hk, rfl⟩ := List.mem_map.1 ho
    have := List.mem_range.1 hk
    omega
  have hkeep : ∀ o, h.live o = true → (h.alloc (n + m)).live o = true := by
    intro o ho
    show (if h.next ≤ o ∧ o < h.next + (n + m) then true else h.live o) = true
    split
    · rfl
    · exact ho
  constructor
  · intro g e hg he o ho
    rcases put_some hg with ⟨_, h2⟩ | ⟨_, h2⟩
    · cases h2
      rcases List.mem_append.1 ho with h3 | h3
      · exact hkeep o (hold o h3)
      · exact if_pos (hnew o h3)
    · exact hkeep o (hi.alive g e h2 he o ho)
  · intro g e hg he
    rcases put_some hg with ⟨_, h2⟩ | ⟨_, h2⟩
    · cases h2
      refine List.nodup_append.2 ⟨hnd, ?_, ?_⟩
      · exact (List.nodup_range).map (fun a b hab => by simpa using hab)
      · intro a ha b hb hab
        have h1 := hi.bound f d hf a ha
        have h2 := (hnew b hb).1
        omega
    · exact hi.nodup g e h2 he
  · intro g e g' e' hg he hg' he' hne o ho ho'
    rcases put_some hg with ⟨h1, h2⟩ | ⟨h1, h2⟩ <;> rcases put_some hg' with ⟨h3, h4⟩ | ⟨h3, h4⟩
    · exact hne (h1.trans h3.symm)
    · cases h2
      rcases List.mem_append.1 ho with h5 | h5
      · exact hap g' e' h4 he' h3 o h5 ho'
      · have := hi.bound g' e' h4 o ho'
        have := (hnew o h5).1
        omega
    · cases h4
      rcases List.mem_append.1 ho' with h5 | h5
      · exact hap g e h2 he h1 o h5 ho
      · have := hi.bound g e h2 o ho
        have := (hnew o h5).1
        omega
    · exact hi.apart g e g' e' h2 he h4 he' hne o ho ho'
  · intro g e hg o ho
    show o < h.next + (n + m)
    rcases put_some hg with ⟨_, h2⟩ | ⟨_, h2⟩
    · cases h2
      rcases List.mem_append.1 ho with h5 | h5
      · have := hi.bound f d hf o h5; omega
      · exact (hnew o h5).2
    · have := hi.bound g e h2 o ho; omega
  · intro o ho
    show o < h.next + (n + m)
    have ho' : (if h.next ≤ o ∧ o < h.next + (n + m) then true else h.live o) = true := ho
    split at ho'
    · rename_i hh; exact hh.2
    · have := hi.lbound o ho'; omega

theorem Inv.move {h : Heap} (hi : Inv h) (g f : Nat) (d : Fd) (hf : h.fds f = some d) (hg : h.fds g = none) :
    Inv ((h.put f (some .fresh)).put g (some d)) := by
  have hne : g ≠ f := by intro e; subst e; rw [hf] at hg; cases hg
  have hback : ∀ x e, ((h.put f (some .fresh)).put g (some d)).fds x = some e → (e = .fresh) ∨ ∃ y, h.fds y = some e ∧ (x = g ∧ y = f ∨ x ≠ g ∧ y = x ∧ x ≠ f) := by
    intro x e hx
    rcases put_some hx with ⟨h1, h2⟩ | ⟨h1, h2⟩
    · cases h2; exact .inr ⟨f, hf, .inl ⟨h1, rfl⟩⟩
    · rcases put_some h2 with ⟨h3, h4⟩ | ⟨h3, h4⟩
      · cases h4; exact .inl rfl
      · exact .inr ⟨x, h4, .inr ⟨h1, rfl, h3⟩⟩
  constructor
  · intro x e hx he o ho
    rcases hback x e hx with h1 | ⟨y, hy, _⟩
    · subst h1; simp [Fd.fresh] at ho
    · exact hi.alive y e hy he o ho
  · intro x e hx he
    rcases hback x e hx with h1 | ⟨y, hy, _⟩
    · subst h1; simp [Fd.fresh]
    · exact hi.nodup y e hy he
  · intro x e x' e' hx he hx' he' hxx o ho
    rcases hback x e hx with h1 | ⟨y, hy, h2⟩
    · subst h1; simp [Fd.fresh] at ho
    rcases hback x' e' hx' with h1 | ⟨y', hy', h2'⟩
    · subst h1; simp [Fd.fresh]
    · refine hi.apart y e y' e' hy he hy' he' ?_ o ho
      intro hyy
      rcases h2 with ⟨a, b⟩ | ⟨a, b, c⟩ <;> rcases h2' with ⟨a', b'⟩ | ⟨a', b', c'⟩
      · exact hxx (a.trans a'.symm)
      · exact c' (b'.symm.trans (hyy.symm.trans b))
      · exact c (b.symm.trans (hyy.trans b'))
      · exact hxx (b.symm.trans (hyy.trans b'))
  · intro x e hx o ho
    rcases hback x e hx with h1 | ⟨y, hy, _⟩
    · subst h1; simp [Fd.fresh] at ho
    · exact hi.bound y e hy o ho
  · exact hi.lbound

/-- One command that respects the rules keeps the invariant, and fails only by using a field that has outlived the owner of its conditions. -/
theorem step_inv (c : Cmd) (h : Heap) (hi : Inv h) (hg : Guard c h) :
    (∃ h', step c h = .ok h' ∧ Inv h') ∨ (step c h = .error .useAfterFree ∧ ∃ f d, c = .apply f ∧ h.fds f = some d ∧ Stale h d) := by
  cases c with
  | new f => exact .inl ⟨_, rfl, hi.put f _ (by intro e he; cases he; simp [Fd.fresh])⟩
  | copyNew g f =>
    obtain ⟨_, h2⟩ := hg
    cases hf : h.fds f with
    | none => exact absurd hf h2
    | some d => exact .inl ⟨_, by simp only [step, hf], hi.put g (some ⟨d.ops, d.par, true⟩) (by intro e he; cases he; exact ⟨nofun, hi.bound f d hf⟩)⟩
  | moveNew g f =>
    obtain ⟨h1, h2⟩ := hg
    cases hf : h.fds f with
    | none => exact absurd hf h2
    | some d => exact .inl ⟨_, by simp only [step, hf], hi.move g f d hf h1⟩
  | assign g f =>
    obtain ⟨h1, h2⟩ := hg
    cases hf : h.fds f with
    | none => exact absurd hf h2
    | some d =>
      cases hgg : h.fds g with
      | none => exact absurd hgg h1
      | some e => exact .inl ⟨h, by simp only [step, hf, hgg], hi⟩
  | setBoundary f n m =>
    obtain ⟨d, hf, hd⟩ := hg
    exact .inl ⟨_, by simp only [step, hf], hi.set f n m d hf hd⟩
  | copyBoundary g f =>
    obtain ⟨h1, h2⟩ := hg
    cases hf : h.fds f with
    | none => exact absurd hf h2
    | some d =>
      cases hgg : h.fds g with
      | none => exact absurd hgg h1
      | some e => exact .inl ⟨_, by simp only [step, hf, hgg], hi.put g (some ⟨d.ops, d.par, true⟩) (by intro e he; cases he; exact ⟨nofun, hi.bound f d hf⟩)⟩
  | apply f =>
    cases hf : h.fds f with
    | none => exact absurd hf hg
    | some d =>
      by_cases hall : d.ops.all h.live = true
      · exact .inl ⟨h, by simp only [step, hf, if_pos hall], hi⟩
      · refine .inr ⟨by simp only [step, hf, if_neg hall], f, d, rfl, hf, ?_⟩
        simp only [List.all_eq_true, not_forall] at hall
        obtain ⟨o, ho, hl⟩ := hall
        refine ⟨?_, o, ho, ?_⟩
        · by_cases hc : d.isCopy = true
          · exact hc
          · exact absurd (hi.alive f d hf (by simpa using hc) o ho) hl
        · intro g e hge he hoe
          exact hl (hi.alive g e hge he o hoe)
  | destroy f =>
    cases hf : h.fds f with
    | none => exact absurd hf hg
    | some d =>
      by_cases hc : d.isCopy = true
      · exact .inl ⟨_, by simp only [step, hf, if_pos hc], hi.put f none nofun⟩
      · have hc' : d.isCopy = false := by simpa using hc
        refine .inl ⟨_, ?_, hi.destroy f d hf hc'⟩
        simp only [step, hf, if_neg hc, delAll_ok d.ops h (hi.nodup f d hf hc') (hi.alive f d hf hc')]
        rfl

/-- **C63.** A program that never calls `setBoundary` on a field that has taken conditions over from another one deletes no condition twice, whatever it
creates, copies, moves, assigns and destroys and in whatever order; and a field that owns its conditions can always apply them. -/
theorem C63_no_double_free (cs : List Cmd) (hr : Respects Guard cs .init) :
    run cs .init ≠ .error .doubleFree ∧ run cs .init ≠ .error .noField := by
  have key : ∀ (cs : List Cmd) (h : Heap), Inv h → Respects Guard cs h → run cs h ≠ .error .doubleFree ∧ run cs h ≠ .error .noField := by
    intro cs
    induction cs with
    | nil => intro h _ _; exact ⟨nofun, nofun⟩
    | cons c cs ih =>
      intro h hi hr
      rcases step_inv c h hi hr.1 with ⟨h', hs, hi'⟩ | ⟨hs, _⟩
      · simp only [run, bind, Except.bind, hs]
        exact ih h' hi' (hr.2 h' hs)
      · simp only [run, bind, Except.bind, hs]
        exact ⟨nofun, nofun⟩
  exact key cs _ Inv.init hr

/-- The rules, and a field that took over conditions is used only while the fields that own them exist. -/
def GuardUse (c : Cmd) (h : Heap) : Prop := Guard c h ∧ ∀ f, c = .apply f → ∀ d, h.fds f = some d → ¬ Stale h d

/-- **C63.** If moreover a field that took conditions over is used only while their owner exists, the program runs without any memory fault. -/
theorem C63_no_fault (cs : List Cmd) (hr : Respects GuardUse cs .init) : ∃ h, run cs .init = .ok h ∧
    (∀ f d, h.fds f = some d → d.isCopy = false → ∀ o ∈ d.ops, h.live o = true) ∧
    ∀ f d g e, h.fds f = some d → d.isCopy = false → h.fds g = some e → e.isCopy = false → f ≠ g → ∀ o ∈ d.ops, o ∉ e.ops := by
  have key : ∀ (cs : List Cmd) (h : Heap), Inv h → Respects GuardUse cs h → ∃ h', run cs h = .ok h' ∧ Inv h' := by
    intro cs
    induction cs with
    | nil => intro h hi _; exact ⟨h, rfl, hi⟩
    | cons c cs ih =>
      intro h hi hr
      rcases step_inv c h hi hr.1.1 with ⟨h', hs, hi'⟩ | ⟨_, f, d, hc, hf, hst⟩
      · simp only [run, bind, Except.bind, hs]
        exact ih h' hi' (hr.2 h' hs)
      · exact absurd hst (hr.1.2 f hc d hf)
  obtain ⟨h, h1, h2⟩ := key cs _ Inv.init hr
  exact ⟨h, h1, h2.alive, h2.apart⟩

/-- The rules, and no owner takes over another field's conditions (its own would be lost), and there are no parallel boundaries. -/
def GuardKeep (c : Cmd) (h : Heap) : Prop :=
  GuardUse c h ∧ (∀ g f, c = .copyBoundary g f → ∀ d, h.fds g = some d → d.isCopy = false → d.ops = []) ∧ ∀ f n m, c = .setBoundary f n m → m = 0

/-- Every condition is owned by somebody. -/
def Owned (h : Heap) : Prop := ∀ o, h.live o = true → ∃ f d, h.fds f = some d ∧ d.isCopy = false ∧ o ∈ d.ops

theorem owned_put {h : Heap} (ho : Owned h) (g : Nat) (e : Option Fd) (hg : ∀ d, h.fds g = some d → d.isCopy = false → d.ops = []) :
    Owned (h.put g e) := by
  intro o hl
  obtain ⟨f, d, h1, h2, h3⟩ := ho o hl
  refine ⟨f, d, ?_, h2, h3⟩
  rw [put_other]
  · exact h1
  · intro hfg; subst hfg; rw [hg d h1 h2] at h3; simp at h3

theorem step_owned (c : Cmd) (h h' : Heap) (hi : Inv h) (ho : Owned h) (hg : GuardKeep c h) (hs : step c h = .ok h') : Owned h' := by
  obtain ⟨⟨hg, _⟩, hk, hm⟩ := hg
  cases c with
  | new f =>
    cases hs
    exact owned_put ho f _ (by intro d hd; rw [show h.fds f = none from hg] at hd; cases hd)
  | copyNew g f =>
    obtain ⟨h1, h2⟩ := hg
    cases hf : h.fds f with
    | none => exact absurd hf h2
    | some d =>
      simp only [step, hf] at hs; cases hs
      exact owned_put ho g _ (by intro d hd; rw [h1] at hd; cases hd)
  | moveNew g f =>
    obtain ⟨h1, h2⟩ := hg
    cases hf : h.fds f with
    | none => exact absurd hf h2
    | some d =>
      simp only [step, hf] at hs; cases hs
      have hne : g ≠ f := by intro e; subst e; rw [hf] at h1; cases h1
      intro o hl
      obtain ⟨x, e, h3, h4, h5⟩ := ho o hl
      by_cases hx : x = f
      · subst hx; rw [hf] at h3; cases h3
        exact ⟨g, d, put_same _ _ _, h4, h5⟩
      · refine ⟨x, e, ?_, h4, h5⟩
        have hxg : x ≠ g := by intro hh; subst hh; rw [h1] at h3; cases h3
        rw [put_other _ _ _ _ hxg, put_other _ _ _ _ hx, h3]
  | assign g f =>
    obtain ⟨h1, h2⟩ := hg
    cases hf : h.fds f with
    | none => exact absurd hf h2
    | some d =>
      cases hgg : h.fds g with
      | none => exact absurd hgg h1
      | some e => simp only [step, hf, hgg] at hs; cases hs; exact ho
  | setBoundary f n m =>
    obtain ⟨d, hf, hd⟩ := hg
    have hm0 := hm f n m rfl
    subst hm0
    simp only [step, hf] at hs; cases hs
    intro o hl
    have hl' : (if h.next ≤ o ∧ o < h.next + (n + 0) then true else h.live o) = true := hl
    by_cases hn : h.next ≤ o ∧ o < h.next + (n + 0)
    · refine ⟨f, _, put_same _ _ _, rfl, ?_⟩
      refine List.mem_append_right _ (List.mem_map.2 ⟨o - h.next, List.mem_range.2 (by omega), ?_⟩)
      omega
    · rw [if_neg hn] at hl'
      obtain ⟨x, e, h3, h4, h5⟩ := ho o hl'
      by_cases hx : x = f
      · subst hx; rw [hf] at h3; cases h3
        exact ⟨x, _, put_same _ _ _, rfl, List.mem_append_left _ h5⟩
      · refine ⟨x, e, ?_, h4, h5⟩
        rw [put_other _ _ _ _ hx]; exact h3
  | copyBoundary g f =>
    obtain ⟨h1, h2⟩ := hg
    cases hf : h.fds f with
    | none => exact absurd hf h2
    | some d =>
      cases hgg : h.fds g with
      | none => exact absurd hgg h1
      | some e =>
        simp only [step, hf, hgg] at hs; cases hs
        exact owned_put ho g _ (hk g f rfl)
  | apply f =>
    cases hf : h.fds f with
    | none => exact absurd hf hg
    | some d =>
      simp only [step, hf] at hs
      split at hs
      · cases hs; exact ho
      · cases hs
  | destroy f =>
    cases hf : h.fds f with
    | none => exact absurd hf hg
    | some d =>
      by_cases hc : d.isCopy = true
      · simp only [step, hf, if_pos hc] at hs; cases hs
        exact owned_put ho f _ (by intro e he h4; rw [hf] at he; cases he; rw [hc] at h4; cases h4)
      · have hc' : d.isCopy = false := by simpa using hc
        simp only [step, hf, if_neg hc, delAll_ok d.ops h (hi.nodup f d hf hc') (hi.alive f d hf hc')] at hs
        cases hs
        intro o hl
        have hl' : (if o ∈ d.ops then false else h.live o) = true := hl
        split at hl'
        · cases hl'
        · rename_i hn
          obtain ⟨x, e, h3, h4, h5⟩ := ho o hl'
          have hx : x ≠ f := by intro hh; subst hh; rw [hf] at h3; cases h3; exact hn h5
          refine ⟨x, e, ?_, h4, h5⟩
          rw [put_other _ _ _ _ hx]; exact h3

/-- **C63.** Without parallel boundaries, and if no owner's conditions are overwritten by `copyBoundary`, nothing is leaked: when every field is gone, so is
every condition. -/
theorem C63_no_leak_partial (cs : List Cmd) (hr : Respects GuardKeep cs .init) : ∃ h, run cs .init = .ok h ∧
    ((∀ f, h.fds f = none) → ∀ o, h.live o = false) := by
  have key : ∀ (cs : List Cmd) (h : Heap), Inv h → Owned h → Respects GuardKeep cs h → ∃ h', run cs h = .ok h' ∧ Owned h' := by
    intro cs
    induction cs with
    | nil => intro h _ ho _; exact ⟨h, rfl, ho⟩
    | cons c cs ih =>
      intro h hi ho hr
      rcases step_inv c h hi hr.1.1.1 with ⟨h', hs, hi'⟩ | ⟨_, f, d, hc, hf, hst⟩
      · simp only [run, bind, Except.bind, hs]
        exact ih h' hi' (step_owned c h h' hi ho hr.1 hs) (hr.2 h' hs)
      · exact absurd hst (hr.1.1.2 f hc d hf)
  obtain ⟨h, h1, h2⟩ := key cs _ Inv.init (by intro o hl; cases hl) hr
  refine ⟨h, h1, fun hn o => ?_⟩
  by_contra hl
  obtain ⟨f, d, h3, _, _⟩ := h2 o (by simpa using hl)
  rw [hn f] at h3; cases h3

/-- A program with a copied, a moved and a derivative field, as the solver makes them. -/
def sample : List Cmd := [.new 0, .setBoundary 0 2 0, .new 1, .copyBoundary 1 0, .copyNew 2 0, .apply 2, .moveNew 3 0, .apply 3, .apply 1,
  .destroy 2, .destroy 1, .destroy 0, .destroy 3]

/-- It runs to the end and leaves no condition behind. -/
example : (match run sample .init with | .ok h => (List.range h.next).map h.live | .error _ => [true]) = [false, false] := by decide +kernel

/-- **Finding.** `Field3D b = a; solver->add(b, "b")`: `setBoundary` on a copy appends the new conditions to the shared ones and marks the field as their
owner: both fields apply `a`'s conditions, and both delete them. -/
theorem C63_copy_setBoundary_violated :
    run [.new 0, .setBoundary 0 1 0, .copyNew 1 0, .setBoundary 1 1 0, .destroy 1, .destroy 0] .init = .error .doubleFree := by
  rfl

/-- **Finding.** A copy that outlives the field it was copied from uses deleted conditions. -/
theorem C63_outlive_violated : run [.new 0, .setBoundary 0 1 0, .copyNew 1 0, .destroy 0, .apply 1] .init = .error .useAfterFree := by
  rfl

/-- **Finding.** `setBoundary` twice does not replace the conditions: the field has both sets; and the parallel conditions are never deleted. -/
theorem C63_setBoundary_twice_violated :
    (match run [.new 0, .setBoundary 0 2 1, .setBoundary 0 2 1] .init with | .ok h => (h.fds 0).map fun d => (d.ops.length, d.par.length) | .error _ => none)
      = some (4, 2) ∧
    (match run [.new 0, .setBoundary 0 2 1, .destroy 0] .init with | .ok h => (List.range 3).map h.live | .error _ => []) = [false, false, true] := by
  decide +kernel

end Verif.Bndry.Own
