import Verif.Array.Props
import Mathlib.Tactic.Ring
import Mathlib.Tactic.Linarith
/-!
# C35: `Matrix` and `Tensor` (`include/bout/utils.hxx:200-400`)

Built on the Array machine of `Verif.Array`.  A `Tensor(n1,n2,n3)` is treated alongside.  Sizes are `Nat` (the
constructors assert `>= 0`); `n1*n2*n3` does not overflow.  Checks are those of `CHECK >= 2`.
-/
namespace Verif.Matrix
open Verif.Array Verif.Array.State
variable {V : Type}

/-- utils.hxx:242: storage cell of `m(i1, i2)`. -/
def idx2 (n2 i1 i2 : Nat) : Nat := i1 * n2 + i2

/-- utils.hxx:341: storage cell of `t(i1, i2, i3)`. -/
def idx3 (n2 n3 i1 i2 i3 : Nat) : Nat := (i1 * n2 + i2) * n3 + i3

/-- **C35.** Distinct in-range pairs address distinct in-range cells, and every cell is addressed. -/
theorem C35_index2_bijective (n1 n2 : Nat) :
    (∀ i1 i2, i1 < n1 → i2 < n2 → idx2 n2 i1 i2 < n1 * n2) ∧
    (∀ i1 i2 j1 j2, i2 < n2 → j2 < n2 → idx2 n2 i1 i2 = idx2 n2 j1 j2 → i1 = j1 ∧ i2 = j2) ∧
    (∀ k, k < n1 * n2 → ∃ i1 i2, i1 < n1 ∧ i2 < n2 ∧ idx2 n2 i1 i2 = k) := by
  refine ⟨?_, ?_, ?_⟩
  · intro i1 i2 h1 h2
    unfold idx2
    have : (i1 + 1) * n2 ≤ n1 * n2 := Nat.mul_le_mul_right _ h1
    rw [Nat.succ_mul] at this; omega
  · intro i1 i2 j1 j2 h1 h2 h
    unfold idx2 at h
    have hpos : 0 < n2 := by omega
    have a := congrArg (· / n2) h
    have b := congrArg (· % n2) h
    simp only [Nat.mul_comm _ n2, Nat.mul_add_div hpos, Nat.mul_add_mod] at a b
    rw [Nat.div_eq_of_lt h1, Nat.div_eq_of_lt h2] at a
    rw [Nat.mod_eq_of_lt h1, Nat.mod_eq_of_lt h2] at b
    exact ⟨by omega, b⟩
  · intro k hk
    have hpos : 0 < n2 := by
      rcases Nat.eq_zero_or_pos n2 with h | h
      · subst h; simp at hk
      · exact h
    refine ⟨k / n2, k % n2, ?_, Nat.mod_lt _ hpos, ?_⟩
    · exact (Nat.div_lt_iff_lt_mul hpos).mpr hk
    · unfold idx2; rw [Nat.mul_comm]; exact Nat.div_add_mod k n2

/-- **C35.** The same for triples. -/
theorem C35_index3_bijective (n1 n2 n3 : Nat) :
    (∀ i1 i2 i3, i1 < n1 → i2 < n2 → i3 < n3 → idx3 n2 n3 i1 i2 i3 < n1 * n2 * n3) ∧
    (∀ i1 i2 i3 j1 j2 j3, i2 < n2 → j2 < n2 → i3 < n3 → j3 < n3 → idx3 n2 n3 i1 i2 i3 = idx3 n2 n3 j1 j2 j3 →
      i1 = j1 ∧ i2 = j2 ∧ i3 = j3) ∧
    (∀ k, k < n1 * n2 * n3 → ∃ i1 i2 i3, i1 < n1 ∧ i2 < n2 ∧ i3 < n3 ∧ idx3 n2 n3 i1 i2 i3 = k) := by
  have e : ∀ i1 i2 i3, idx3 n2 n3 i1 i2 i3 = idx2 n3 (idx2 n2 i1 i2) i3 := fun _ _ _ => rfl
  obtain ⟨a1, a2, a3⟩ := C35_index2_bijective n1 n2
  obtain ⟨b1, b2, b3⟩ := C35_index2_bijective (n1 * n2) n3
  refine ⟨?_, ?_, ?_⟩
  · intro i1 i2 i3 h1 h2 h3
    rw [e]; exact b1 _ _ (a1 _ _ h1 h2) h3
  · intro i1 i2 i3 j1 j2 j3 h1 h2 h3 h4 h
    rw [e, e] at h
    obtain ⟨h5, h6⟩ := b2 _ _ _ _ h3 h4 h
    obtain ⟨h7, h8⟩ := a2 _ _ _ _ h1 h2 h5
    exact ⟨h7, h8, h6⟩
  · intro k hk
    obtain ⟨m, i3, hm, h3, rfl⟩ := b3 k hk
    obtain ⟨i1, i2, h1, h2, rfl⟩ := a3 m hm
    exact ⟨i1, i2, i3, h1, h2, h3, rfl⟩

/-! ## Programs over matrices and tensors

A shape is a list of dimensions (two for `Matrix`, three for `Tensor`); object `k` holds the Array at handle `k`. -/

/-- utils.hxx:239-242 / 337-341: bounds assertions and the cell. -/
def cellOf : List Nat → List Nat → Option Nat
  | [n1, n2], [i1, i2] => if i1 < n1 ∧ i2 < n2 then some (idx2 n2 i1 i2) else none
  | [n1, n2, n3], [i1, i2, i3] => if i1 < n1 ∧ i2 < n2 ∧ i3 < n3 then some (idx3 n2 n3 i1 i2 i3) else none
  | _, _ => none

/-- utils.hxx:211, 227, 305, 324: number of elements allocated. -/
def volume : List Nat → Nat
  | [n1, n2] => n1 * n2
  | [n1, n2, n3] => n1 * n2 * n3
  | _ => 0

/-- The Array machine plus the shapes `n1, n2(, n3)` stored in each object. -/
structure MState (V : Type) where
  arr : State V
  shapes : List (List Nat)

/-- Operations on matrices/tensors. -/
inductive MOp (V : Type) where
  | new (sh : List Nat)
  | copy (src : Nat)
  | assign (dst src : Nat)
  | reallocate (k : Nat) (sh : List Nat)
  | set (k : Nat) (ix : List Nat) (v : V)
  | destroy (k : Nat)

/-- utils.hxx:207-271 and 301-371: constructor, copy constructor (copy the Array, then `data.ensureUnique()`),
assignment (same), `reallocate`, element write, destructor. -/
def step (m : MState V) (t : Nat) (j : V) : MOp V → Out (MState V)
  | .new sh => do
    let a ← m.arr.new t (volume sh) j
    .ok { arr := a, shapes := m.shapes ++ [sh] }
  | .copy src => do
    let a ← m.arr.copyCtor src
    let b ← a.ensureUnique t m.arr.handles.length j
    .ok { arr := b, shapes := m.shapes ++ [m.shapes.getD src []] }
  | .assign dst src => do
    let a ← m.arr.assign t dst src
    let b ← a.ensureUnique t dst j
    .ok { arr := b, shapes := m.shapes.set dst (m.shapes.getD src []) }
  | .reallocate k sh => do
    let a ← m.arr.reallocate t k (volume sh) j
    .ok { arr := a, shapes := m.shapes.set k sh }
  | .set k ix v =>
    match cellOf (m.shapes.getD k []) ix with
    | none => .error (.exc "ASSERT2: index out of range")
    | some c => do
      let a ← m.arr.write k c v
      .ok { arr := a, shapes := m.shapes }
  | .destroy k => do
    let a ← m.arr.release t k
    .ok { arr := a, shapes := m.shapes }

/-- A history of operations, each on some thread. -/
def run (m : MState V) : List (Nat × V × MOp V) → Out (MState V)
  | [] => .ok m
  | (t, j, o) :: os => match step m t j o with
    | .ok m' => run m' os
    | .error e => .error e

/-- Program start. -/
def init (V : Type) (threads : Nat) : MState V := { arr := State.init V threads, shapes := [] }

/-! ## Specification: independent values -/

/-- An object seen by the program: its shape and the value of each storage cell (`none`: destroyed). -/
abbrev Val (V : Type) := List Nat × Option (List V)

/-- Each operation acts on one object's own data; unspecified contents `g` for new memory. -/
def Spec (c : List (Val V)) : MOp V → List (Val V) → Prop
  | .new sh, c' => ∃ g : List V, g.length = volume sh ∧ c' = c ++ [(sh, some g)]
  | .copy src, c' => ∃ v, c[src]? = some v ∧ c' = c ++ [v]
  | .assign dst src, c' => ∃ v, c[src]? = some v ∧ dst < c.length ∧ c' = c.set dst v
  | .reallocate k sh, c' => k < c.length ∧ ∃ g : List V, g.length = volume sh ∧ c' = c.set k (sh, some g)
  | .set k ix v, c' => ∃ sh d cell, c[k]? = some (sh, some d) ∧ cellOf sh ix = some cell ∧ cell < d.length ∧
      c' = c.set k (sh, some (d.set cell v))
  | .destroy k, c' => ∃ sh d, c[k]? = some (sh, d) ∧ c' = c.set k (sh, none)

inductive SpecRun : List (Val V) → List (MOp V) → List (Val V) → Prop where
  | nil (c) : SpecRun c [] c
  | cons {c c' c''} {o} {os} : Spec c o c' → SpecRun c' os c'' → SpecRun c (o :: os) c''

/-- What the program sees. -/
def view (m : MState V) : List (Val V) := m.shapes.zip m.arr.contents

/-! ## Proof -/

theorem ensureUnique_handles {s s' : State V} {t k : Nat} {j : V} (h : Inv s) (e : s.ensureUnique t k j = .ok s') :
    ∀ i, i ≠ k → s'.handles[i]? = s.handles[i]? := by
  unfold State.ensureUnique at e
  split at e
  · simp at e
  · simp only [Except.ok.injEq] at e; subst e; intro i _; rfl
  · rename_i b hk
    have hlt := (List.getElem?_eq_some_iff.1 hk).1
    split at e
    · simp only [Except.ok.injEq] at e; subst e; intro i _; rfl
    · split at e
      · simp at e
      · rename_i d hd
        simp only [bind, Except.bind] at e
        cases h1 : s.getPush t d.length j with
        | error x => simp [h1] at e
        | ok s1 =>
          obtain ⟨p, g, hh1, hg, hlen, hpn, hm1, hI1, hps, _⟩ := getPush_spec h h1
          simp only [h1, hh1, List.getLast?_concat] at e
          rw [← hh1] at e
          have hI2 := inv_setMem (b := p) (d := d) hI1 (by rw [hh1]; simp)
          cases h3 : ({ s1 with mem := setMem s1.mem p (some d) } : State V).release t k with
          | error x => simp [h3] at e
          | ok s3 =>
            simp only [h3] at e
            obtain ⟨hh3, hk3, hm3, hI3, _⟩ := release_spec hI2 h3
            have hh3' : s3.handles = s.handles.set k none ++ [some p] := by
              rw [hh3]; simp only [hh1]
              rw [List.set_append_left _ _ hlt]
            obtain ⟨rfl, hI4⟩ := moveLast_spec hI3 hh3' (by rw [List.getElem?_set_self hlt]) e
            intro i hi
            simp only [List.set_set]
            rw [List.getElem?_set_ne (fun h => hi h.symm)]

/-- No two objects share storage. -/
def Sep (s : State V) : Prop := ∀ b i i' : Nat, s.handles[i]? = some (some b) → s.handles[i']? = some (some b) → i = i'

/-- The matrix invariant. -/
structure MInv (m : MState V) : Prop where
  inv : Reachable m.arr
  sep : Sep m.arr
  len : m.shapes.length = m.arr.handles.length

theorem sep_ensureUnique {s s1 s2 : State V} {t k : Nat} {j : V} (hI : Reachable s1)
    (hother : ∀ b i i', i ≠ k → i' ≠ k → s1.handles[i]? = some (some b) → s1.handles[i']? = some (some b) → i = i')
    (e : s1.ensureUnique t k j = .ok s2) : Sep s2 := by
  have hh := ensureUnique_handles hI.inv e
  obtain ⟨_, _, _, _, hu⟩ := ensureUnique_spec hI.inv e
  intro b i i' hi hi'
  by_cases h1 : i = k
  · subst h1
    exact (hu b hi i' hi').symm
  · by_cases h2 : i' = k
    · subst h2; exact hu b hi' i hi
    · rw [hh i h1] at hi
      rw [hh i' h2] at hi'
      exact hother b i i' h1 h2 hi hi'

theorem zip_set {α β : Type} (l : List α) (l' : List β) (k : Nat) (a : α) (b : β) :
    (l.zip l').set k (a, b) = (l.set k a).zip (l'.set k b) := by
  induction l generalizing l' k with
  | nil => simp
  | cons x xs ih =>
    cases l' with
    | nil => simp
    | cons y ys =>
      cases k with
      | zero => simp
      | succ k => simp [ih]

theorem set_self_getElem? {α : Type} {l : List α} {k : Nat} {a : α} (h : l[k]? = some a) : l.set k a = l := by
  apply List.ext_getElem?
  intro i
  by_cases hi : k = i
  · subst hi
    rw [List.getElem?_set_self (List.getElem?_eq_some_iff.1 h).1, h]
  · rw [List.getElem?_set_ne hi]

theorem step_ok {m m' : MState V} (h : MInv m) (t : Nat) (j : V) (o : MOp V) (e : step m t j o = .ok m') :
    MInv m' ∧ Spec (view m) o (view m') := by
  obtain ⟨hR, hS, hL⟩ := h
  have hcl : ∀ s : State V, s.contents.length = s.handles.length := fun s => by simp [State.contents]
  have zl : ∀ k : Nat, (m.shapes.zip m.arr.contents).length = m.arr.handles.length := by
    intro _; rw [List.length_zip, hcl, hL]; simp
  cases o with
  | new sh =>
    simp only [step, bind, Except.bind] at e
    cases ha : m.arr.new t (volume sh) j with
    | error x => simp [ha] at e
    | ok a =>
      simp only [ha, Except.ok.injEq] at e
      subst e
      have hR' : Reachable a := hR.step (t := t) (j := j) (o := .new (volume sh)) ha
      obtain ⟨g, hg, hc⟩ := C07_step_refines_values hR t j (.new (volume sh)) (by simp) ha
      obtain ⟨p, d, hh, hd, hlen, hpn, hm, _⟩ := getPush_spec hR.inv ha
      refine ⟨⟨hR', ?_, by simp [hh, hL]⟩, g, hg, ?_⟩
      · intro b i i' hi hi'
        rw [hh] at hi hi'
        have key : ∀ n, (m.arr.handles ++ [some p])[n]? = some (some b) →
            (m.arr.handles[n]? = some (some b) ∧ b ≠ p) ∨ (n = m.arr.handles.length ∧ b = p) := by
          intro n hn
          by_cases hlt : n < m.arr.handles.length
          · rw [List.getElem?_append_left hlt] at hn
            exact Or.inl ⟨hn, fun hb => hpn (hb ▸ List.mem_of_getElem? hn)⟩
          · rw [List.getElem?_append_right (by omega)] at hn
            obtain ⟨h1, h2⟩ := List.getElem?_eq_some_iff.1 hn
            simp at h1
            have : n = m.arr.handles.length := by omega
            subst this
            simp at h2
            exact Or.inr ⟨rfl, h2.symm⟩
        rcases key i hi with ⟨a1, a2⟩ | ⟨a1, a2⟩ <;> rcases key i' hi' with ⟨b1, b2⟩ | ⟨b1, b2⟩
        · exact hS b i i' a1 b1
        · exact absurd b2 a2
        · exact absurd a2 b2
        · rw [a1, b1]
      · show (m.shapes ++ [sh]).zip a.contents = m.shapes.zip m.arr.contents ++ [(sh, some g)]
        rw [hc, List.zip_append (by rw [hL, hcl])]; rfl
  | copy src =>
    simp only [step, bind, Except.bind] at e
    cases ha : m.arr.copyCtor src with
    | error x => simp [ha] at e
    | ok a =>
      simp only [ha] at e
      cases hb : a.ensureUnique t m.arr.handles.length j with
      | error x => simp [hb] at e
      | ok b =>
        simp only [hb, Except.ok.injEq] at e
        subst e
        have hRa : Reachable a := hR.step (t := t) (j := j) (o := .copyCtor src) ha
        have hRb : Reachable b := hRa.step (t := t) (j := j) (o := .ensureUnique m.arr.handles.length) hb
        obtain ⟨p, hp, rfl, _⟩ := copyCtor_spec hR.inv ha
        obtain ⟨v, hv, hc⟩ := C07_step_refines_values hR t j (.copyCtor src) (by simp) ha
        obtain ⟨_, hlen, hcb, _, _⟩ := ensureUnique_spec hRa.inv hb
        have hsrc : src < m.arr.handles.length := (List.getElem?_eq_some_iff.1 hp).1
        refine ⟨⟨hRb, sep_ensureUnique (s := m.arr) hRa ?_ hb, by simp [hlen, hL]⟩, (m.shapes.getD src [], v), ?_, ?_⟩
        · intro c i i' h1 h2 hi hi'
          simp only at hi hi'
          have lt : ∀ n, n ≠ m.arr.handles.length → (m.arr.handles ++ [p])[n]? = some (some c) → n < m.arr.handles.length := by
            intro n hn hx
            have := (List.getElem?_eq_some_iff.1 hx).1
            simp at this; omega
          have l1 := lt i h1 hi
          have l2 := lt i' h2 hi'
          rw [List.getElem?_append_left l1] at hi
          rw [List.getElem?_append_left l2] at hi'
          exact hS c i i' hi hi'
        · show (m.shapes.zip m.arr.contents)[src]? = _
          rw [List.getElem?_zip_eq_some]
          have hs : src < m.shapes.length := by omega
          exact ⟨by rw [List.getD_eq_getElem?_getD, List.getElem?_eq_getElem hs]; rfl, hv⟩
        · show (m.shapes ++ [_]).zip b.contents = _
          rw [hcb, hc, List.zip_append (by rw [hL, hcl])]; rfl
  | assign dst src =>
    simp only [step, bind, Except.bind] at e
    cases ha : m.arr.assign t dst src with
    | error x => simp [ha] at e
    | ok a =>
      simp only [ha] at e
      cases hb : a.ensureUnique t dst j with
      | error x => simp [hb] at e
      | ok b =>
        simp only [hb, Except.ok.injEq] at e
        subst e
        have hRa : Reachable a := hR.step (t := t) (j := j) (o := .assign dst src) ha
        have hRb : Reachable b := hRa.step (t := t) (j := j) (o := .ensureUnique dst) hb
        obtain ⟨p, hp, hd, hh, _, _⟩ := assign_spec hR.inv ha
        obtain ⟨v, hv, hd', hc⟩ := C07_step_refines_values hR t j (.assign dst src) (by simp) ha
        obtain ⟨_, hlen, hcb, _, _⟩ := ensureUnique_spec hRa.inv hb
        have hsrc : src < m.arr.handles.length := (List.getElem?_eq_some_iff.1 hp).1
        refine ⟨⟨hRb, sep_ensureUnique (s := m.arr) hRa ?_ hb, by simp [hlen, hh, hL]⟩,
          (m.shapes.getD src [], v), ?_, ?_, ?_⟩
        · intro c i i' h1 h2 hi hi'
          rw [hh, List.getElem?_set_ne (fun h => h1 h.symm)] at hi
          rw [hh, List.getElem?_set_ne (fun h => h2 h.symm)] at hi'
          exact hS c i i' hi hi'
        · show (m.shapes.zip m.arr.contents)[src]? = _
          rw [List.getElem?_zip_eq_some]
          have hs : src < m.shapes.length := by omega
          exact ⟨by rw [List.getD_eq_getElem?_getD, List.getElem?_eq_getElem hs]; rfl, hv⟩
        · show dst < (m.shapes.zip m.arr.contents).length
          rw [zl dst]; exact hd
        · show (m.shapes.set dst _).zip b.contents = (m.shapes.zip m.arr.contents).set dst _
          rw [hcb, hc, zip_set]
  | reallocate k sh =>
    simp only [step, bind, Except.bind] at e
    cases ha : m.arr.reallocate t k (volume sh) j with
    | error x => simp [ha] at e
    | ok a =>
      simp only [ha, Except.ok.injEq] at e
      subst e
      have hR' : Reachable a := hR.step (t := t) (j := j) (o := .reallocate k (volume sh)) ha
      obtain ⟨hk, g, hg, hc⟩ := C07_step_refines_values hR t j (.reallocate k (volume sh)) (by simp) ha
      obtain ⟨p, g', hh, hk', hp, _, hm, _⟩ := reallocate_spec hR.inv ha
      refine ⟨⟨hR', ?_, by simp [hh, hL]⟩, ?_, g, hg, ?_⟩
      · intro b i i' hi hi'
        rw [hh] at hi hi'
        have key : ∀ n, (m.arr.handles.set k (some p))[n]? = some (some b) →
            (n ≠ k ∧ m.arr.handles[n]? = some (some b) ∧ b ≠ p) ∨ (n = k ∧ b = p) := by
          intro n hn
          by_cases hnk : n = k
          · subst hnk
            rw [List.getElem?_set_self hk'] at hn
            simp at hn
            exact Or.inr ⟨rfl, hn.symm⟩
          · rw [List.getElem?_set_ne (fun h => hnk h.symm)] at hn
            refine Or.inl ⟨hnk, hn, ?_⟩
            refine (hm b ?_).1
            rw [List.mem_iff_getElem?]
            exact ⟨n, by rw [List.getElem?_set_ne (fun h => hnk h.symm)]; exact hn⟩
        rcases key i hi with ⟨_, a1, a2⟩ | ⟨a1, a2⟩ <;> rcases key i' hi' with ⟨_, b1, b2⟩ | ⟨b1, b2⟩
        · exact hS b i i' a1 b1
        · exact absurd b2 a2
        · exact absurd a2 b2
        · rw [a1, b1]
      · show k < (m.shapes.zip m.arr.contents).length
        rw [zl k]; exact hk'
      · show (m.shapes.set k sh).zip a.contents = (m.shapes.zip m.arr.contents).set k _
        rw [hc, zip_set]
  | set k ix v =>
    simp only [step] at e
    cases hcell : cellOf (m.shapes.getD k []) ix with
    | none => rw [hcell] at e; cases e
    | some cell =>
      simp only [hcell, bind, Except.bind] at e
      cases ha : m.arr.write k cell v with
      | error x => simp [ha] at e
      | ok a =>
        simp only [ha, Except.ok.injEq] at e
        subst e
        have hR' : Reachable a := hR.step (t := t) (j := j) (o := .write k cell v) ha
        have hu : Unshared m.arr k := fun b hb i hi => hS b i k hi hb
        obtain ⟨d, hd, hi, hc⟩ := C07_unshared_write hR k cell v hu ha
        obtain ⟨b, d', hk, hd', _, rfl, _⟩ := write_spec hR.inv ha
        have hkl : k < m.arr.handles.length := (List.getElem?_eq_some_iff.1 hk).1
        have hs : k < m.shapes.length := by omega
        have hget : m.shapes[k]? = some (m.shapes.getD k []) := by
          rw [List.getD_eq_getElem?_getD, List.getElem?_eq_getElem hs]; rfl
        refine ⟨⟨hR', hS, hL⟩, m.shapes.getD k [], d, cell, ?_, hcell, hi, ?_⟩
        · show (m.shapes.zip m.arr.contents)[k]? = _
          rw [List.getElem?_zip_eq_some]
          exact ⟨hget, hd⟩
        · unfold view
          simp only
          rw [hc, zip_set, set_self_getElem? hget]
  | destroy k =>
    simp only [step, bind, Except.bind] at e
    cases ha : m.arr.release t k with
    | error x => simp [ha] at e
    | ok a =>
      simp only [ha, Except.ok.injEq] at e
      subst e
      have hR' : Reachable a := hR.step (t := t) (j := j) (o := .destroy k) ha
      obtain ⟨hk, hc⟩ := C07_step_refines_values hR t j (.destroy k) (by simp) ha
      obtain ⟨hh, hk', _, _⟩ := release_spec hR.inv ha
      have hs : k < m.shapes.length := by omega
      have hget : m.shapes[k]? = some (m.shapes.getD k []) := by
        rw [List.getD_eq_getElem?_getD, List.getElem?_eq_getElem hs]; rfl
      refine ⟨⟨hR', ?_, by simp [hh, hL]⟩, m.shapes.getD k [], m.arr.contents[k], ?_, ?_⟩
      · intro b i i' hi hi'
        rw [hh] at hi hi'
        have key : ∀ n : Nat, (m.arr.handles.set k none)[n]? = some (some b) → m.arr.handles[n]? = some (some b) := by
          intro n hn
          by_cases hnk : n = k
          · subst hnk; rw [List.getElem?_set_self hk'] at hn; simp at hn
          · rwa [List.getElem?_set_ne (fun h => hnk h.symm)] at hn
        exact hS b i i' (key i hi) (key i' hi')
      · show (m.shapes.zip m.arr.contents)[k]? = _
        rw [List.getElem?_zip_eq_some]
        exact ⟨hget, List.getElem?_eq_getElem hk⟩
      · show m.shapes.zip a.contents = (m.shapes.zip m.arr.contents).set k _
        rw [hc, zip_set, set_self_getElem? hget]

theorem init_inv (n : Nat) : MInv (init V n) :=
  ⟨⟨n, [], rfl⟩, by intro b i i' h; simp [init, State.init] at h, rfl⟩

/-- **C35.** Every program over matrices and tensors (any history, threads and memory recycling) behaves as if each
object owned its own data: copies are independent, a write changes one cell of one object, `reallocate` yields
exactly the product of the dimensions. -/
theorem C35_program (n : Nat) (os : List (Nat × V × MOp V)) (m : MState V) (e : run (init V n) os = .ok m) :
    SpecRun [] (os.map (fun x => x.2.2)) (view m) := by
  have main : ∀ (os : List (Nat × V × MOp V)) (m0 : MState V), MInv m0 → run m0 os = .ok m →
      SpecRun (view m0) (os.map (fun x => x.2.2)) (view m) := by
    intro os
    induction os with
    | nil => intro m0 _ e; simp only [run, Except.ok.injEq] at e; subst e; exact .nil _
    | cons o os ih =>
      obtain ⟨t, j, o⟩ := o
      intro m0 hI e
      simp only [run] at e
      split at e
      · rename_i m1 h1
        obtain ⟨hI1, hsp⟩ := step_ok hI t j o h1
        exact .cons hsp (ih m1 hI1 e)
      · cases e
  have := main os (init V n) (init_inv n) e
  simpa [view, init, State.init, State.contents] using this

/-- **C35.** In-range element writes never fail and are read back, other cells keep their values (with the index
bijection above: other index tuples). -/
theorem C35_write_read {d : List V} {c : Nat} {v : V} (h : c < d.length) :
    (d.set c v)[c]? = some v ∧ ∀ c', c' ≠ c → (d.set c v)[c']? = d[c']? :=
  ⟨List.getElem?_set_self h, fun c' hc => List.getElem?_set_ne (fun h => hc h.symm)⟩

example : ∃ m, run (init Nat 1) [(0, 9, .new [2, 2]), (0, 9, .set 0 [0, 0] 1), (0, 9, .set 0 [1, 1] 4), (0, 9, .copy 0),
    (0, 9, .set 1 [0, 0] 7)] = .ok m ∧ view m = [([2, 2], some [1, 9, 9, 4]), ([2, 2], some [7, 9, 9, 4])] :=
  ⟨_, rfl, by decide⟩

example : ∃ e, run (init Nat 1) [(0, 9, .new [2, 2]), (0, 9, .set 0 [0, 2] 1)] = .error (.exc e) := ⟨_, rfl⟩

end Verif.Matrix
