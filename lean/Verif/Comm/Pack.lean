/-
C20: packing guard cell data into a message and unpacking it again.

Models `Mesh::msg_len` (`src/mesh/mesh.cxx` L369-383) and `BoutMesh::pack_data`,
`BoutMesh::unpack_data` (`src/mesh/impls/bout/boutmesh.cxx` L2250-2310).

A group of fields is a list of variables; the data of a rank is a function from cells to
values.  The value type is arbitrary (BoutReal in the code), so nothing depends on floating
point.  A buffer is a function from positions to values: writing past its allocated end is
not an error in this model (C++ does not check either); `Verif.Comm.Handle` shows that the
positions used stay inside the allocation.

The loops `for (jx = xge; jx != xlt; jx++)` are modelled for `xge ≤ xlt`, where they run
`xlt - xge` times; `xge > xlt` would run away in C++ and is never asked for (see
`Verif.Comm.Match`).
-/
import Verif.Mesh.Model
import Mathlib.Tactic.Ring

namespace Verif.Comm

/-- A communicated variable: `FieldData` is either a `Field3D` or a `Field2D`;
`elementSize()` is 1 for both (`include/bout/field_data.hxx` L78, `field2d.hxx`,
`field3d.hxx`). -/
structure Var where
  id : Nat
  is3D : Bool
deriving Repr, DecidableEq

/-- One value of one variable. Two-dimensional variables have `z = 0` only. -/
structure Cell where
  v : Var
  x : Int
  y : Int
  z : Nat
deriving Repr, DecidableEq

/-- Number of Z values of a variable at one `(x, y)`. -/
def Var.nz (LocalNz : Nat) (v : Var) : Nat := if v.is3D then LocalNz else 1

/-- `Mesh::msg_len`, `src/mesh/mesh.cxx` L369-383. -/
def msg_len (LocalNz : Nat) (vars : List Var) (xge xlt yge ylt : Int) : Int :=
  vars.foldl (fun len v =>
    if v.is3D then len + (xlt - xge) * (ylt - yge) * LocalNz * 1
    else len + (xlt - xge) * (ylt - yge) * 1) 0

/-- The indices `a, a+1, …` of a loop `for (i = a; i < b; i++)`. -/
def span (a b : Int) : List Int := (List.range (b - a).toNat).map (fun (i : Nat) => a + (i : Int))

/-- State of the packing loops: position in the buffer, and the buffer. -/
structure Packing (α : Type) where
  len : Nat
  buf : Nat → α

/-- `buffer[len] = value; len++`. -/
def Packing.put {α : Type} (p : Packing α) (a : α) : Packing α :=
  { len := p.len + 1, buf := fun i => if i = p.len then a else p.buf i }

/-- `BoutMesh::pack_data`, `boutmesh.cxx` L2250-2281: returns the length and the buffer. -/
def pack_data {α : Type} (LocalNz : Nat) (vars : List Var) (xge xlt yge ylt : Int)
    (store : Cell → α) (buffer : Nat → α) : Packing α :=
  vars.foldl (fun p v =>
    if v.is3D then
      (span xge xlt).foldl (fun p jx =>
        (span yge ylt).foldl (fun p jy =>
          (List.range LocalNz).foldl (fun p jz => p.put (store ⟨v, jx, jy, jz⟩)) p) p) p
    else
      (span xge xlt).foldl (fun p jx =>
        (span yge ylt).foldl (fun p jy => p.put (store ⟨v, jx, jy, 0⟩)) p) p)
    { len := 0, buf := buffer }

/-- State of the unpacking loops: position in the buffer, and the data of the rank. -/
structure Unpacking (α : Type) where
  len : Nat
  store : Cell → α

/-- `var(jx, jy, jz) = buffer[len]; len++`. -/
def Unpacking.get {α : Type} (buf : Nat → α) (u : Unpacking α) (c : Cell) : Unpacking α :=
  { len := u.len + 1, store := fun d => if d = c then buf u.len else u.store d }

/-- `BoutMesh::unpack_data`, `boutmesh.cxx` L2283-2312. -/
def unpack_data {α : Type} (LocalNz : Nat) (vars : List Var) (xge xlt yge ylt : Int)
    (buffer : Nat → α) (store : Cell → α) : Unpacking α :=
  vars.foldl (fun u v =>
    if v.is3D then
      (span xge xlt).foldl (fun u jx =>
        (span yge ylt).foldl (fun u jy =>
          (List.range LocalNz).foldl (fun u jz => u.get buffer ⟨v, jx, jy, jz⟩) u) u) u
    else
      (span xge xlt).foldl (fun u jx =>
        (span yge ylt).foldl (fun u jy => u.get buffer ⟨v, jx, jy, 0⟩) u) u)
    { len := 0, store := store }

/-! ## The cells in the order of the loops -/

/-- The cells visited by the loops, in order. -/
def cells (LocalNz : Nat) (vars : List Var) (xge xlt yge ylt : Int) : List Cell :=
  vars.flatMap fun v => (span xge xlt).flatMap fun jx => (span yge ylt).flatMap fun jy =>
    (List.range (v.nz LocalNz)).map fun jz => ⟨v, jx, jy, jz⟩

/-- The set of cells of a rectangle. -/
def InRect (LocalNz : Nat) (vars : List Var) (xge xlt yge ylt : Int) (c : Cell) : Prop :=
  c.v ∈ vars ∧ (xge ≤ c.x ∧ c.x < xlt) ∧ (yge ≤ c.y ∧ c.y < ylt) ∧ c.z < c.v.nz LocalNz

instance (nz : Nat) (vars : List Var) (a b e d : Int) (c : Cell) :
    Decidable (InRect nz vars a b e d c) := by unfold InRect; infer_instance

theorem mem_span {a b i : Int} : i ∈ span a b ↔ a ≤ i ∧ i < b := by
  unfold span
  simp only [List.mem_map, List.mem_range]
  constructor
  · rintro ⟨n, h, rfl⟩; omega
  · rintro ⟨h1, h2⟩; exact ⟨(i - a).toNat, by omega, by omega⟩

theorem length_span (a b : Int) : (span a b).length = (b - a).toNat := by simp [span]

theorem mem_cells {nz : Nat} {vars : List Var} {xge xlt yge ylt : Int} {c : Cell} :
    c ∈ cells nz vars xge xlt yge ylt ↔ InRect nz vars xge xlt yge ylt c := by
  unfold cells InRect
  simp only [List.mem_flatMap, List.mem_map, List.mem_range, mem_span]
  constructor
  · rintro ⟨v, hv, x, hx, y, hy, z, hz, rfl⟩; exact ⟨hv, hx, hy, hz⟩
  · rintro ⟨hv, hx, hy, hz⟩; exact ⟨_, hv, _, hx, _, hy, _, hz, rfl⟩

theorem foldl_flatMap' {β γ δ : Type} (f : γ → δ → γ) (g : β → List δ) (l : List β) (s : γ) :
    (l.flatMap g).foldl f s = l.foldl (fun s b => (g b).foldl f s) s := by
  induction l generalizing s with
  | nil => rfl
  | cons b l ih => simp [List.flatMap_cons, List.foldl_append, ih]

theorem pack_eq {α : Type} (nz : Nat) (vars : List Var) (xge xlt yge ylt : Int)
    (store : Cell → α) (buf : Nat → α) :
    pack_data nz vars xge xlt yge ylt store buf
      = (cells nz vars xge xlt yge ylt).foldl (fun p c => p.put (store c)) ⟨0, buf⟩ := by
  unfold pack_data cells
  rw [foldl_flatMap']
  congr 1
  funext p v
  rw [foldl_flatMap']
  unfold Var.nz
  by_cases hv : v.is3D = true
  · rw [if_pos hv]
    congr 1; funext p jx
    rw [foldl_flatMap']
    congr 1; funext p jy
    rw [List.foldl_map, if_pos hv]
  · rw [if_neg hv]
    congr 1; funext p jx
    rw [foldl_flatMap']
    congr 1; funext p jy
    rw [List.foldl_map, if_neg hv]
    rfl

theorem unpack_eq {α : Type} (nz : Nat) (vars : List Var) (xge xlt yge ylt : Int)
    (buf : Nat → α) (store : Cell → α) :
    unpack_data nz vars xge xlt yge ylt buf store
      = (cells nz vars xge xlt yge ylt).foldl (fun u c => u.get buf c) ⟨0, store⟩ := by
  unfold unpack_data cells
  rw [foldl_flatMap']
  congr 1
  funext p v
  rw [foldl_flatMap']
  unfold Var.nz
  by_cases hv : v.is3D = true
  · rw [if_pos hv]
    congr 1; funext p jx
    rw [foldl_flatMap']
    congr 1; funext p jy
    rw [List.foldl_map, if_pos hv]
  · rw [if_neg hv]
    congr 1; funext p jx
    rw [foldl_flatMap']
    congr 1; funext p jy
    rw [List.foldl_map, if_neg hv]
    rfl

theorem put_fold {α : Type} (f : Cell → α) (l : List Cell) (p : Packing α) :
    (l.foldl (fun p c => p.put (f c)) p).len = p.len + l.length ∧
    ∀ i : Nat, (l.foldl (fun p c => p.put (f c)) p).buf i =
      if i < p.len then p.buf i
      else match l[i - p.len]? with
        | some c => f c
        | none => p.buf i := by
  induction l generalizing p with
  | nil => simp
  | cons c l ih =>
    obtain ⟨h1, h2⟩ := ih (p.put (f c))
    refine ⟨?_, ?_⟩
    · rw [List.foldl_cons, h1]; simp [Packing.put]; omega
    · intro i
      rw [List.foldl_cons, h2]
      have e1 : (p.put (f c)).len = p.len + 1 := rfl
      have e2 : (p.put (f c)).buf i = if i = p.len then f c else p.buf i := rfl
      rw [e1, e2]
      by_cases ha : i < p.len
      · rw [if_pos (by omega), if_pos ha, if_neg (by omega)]
      · rw [if_neg ha]
        by_cases hb : i = p.len
        · rw [if_pos (by omega), if_pos hb]; simp [hb]
        · rw [if_neg (by omega), if_neg hb, show i - p.len = (i - (p.len + 1)) + 1 by omega,
            List.getElem?_cons_succ]

/-- Unpacking visits the cells in order; if equal cells get equal values (`g`), the
result is `g` on the visited cells and the old data elsewhere. -/
theorem get_fold {α : Type} (buf : Nat → α) (g : Cell → α) (l : List Cell)
    (u : Unpacking α)
    (h : ∀ (i : Nat) (c : Cell), l[i]? = some c → buf (u.len + i) = g c) :
    l.foldl (fun u c => u.get buf c) u =
      { len := u.len + l.length
        store := fun d => if d ∈ l then g d else u.store d } := by
  induction l generalizing u with
  | nil => cases u; simp
  | cons c l ih =>
    simp only [List.foldl_cons]
    rw [ih]
    · simp only [Unpacking.get, List.length_cons]
      congr 1
      · omega
      · funext d
        by_cases hd : d ∈ l
        · rw [if_pos hd, if_pos (List.mem_cons_of_mem _ hd)]
        · rw [if_neg hd]
          by_cases hc : d = c
          · subst hc
            rw [if_pos rfl, if_pos List.mem_cons_self]
            exact h 0 d rfl
          · rw [if_neg hc, if_neg (by simp [hd, hc])]
    · intro i c' hi
      have := h (i + 1) c' (by simpa using hi)
      simp only [Unpacking.get]
      rw [← this]; congr 1; omega

theorem sum_rep (n a : Nat) : (List.replicate n a).sum = n * a := by
  induction n with
  | zero => simp
  | succ n ih => rw [List.replicate_succ, List.sum_cons, ih]; ring

theorem length_cells_const {nz : Nat} {xge xlt yge ylt : Int} (v : Var) :
    ((span xge xlt).flatMap fun jx => (span yge ylt).flatMap fun jy =>
      (List.range (v.nz nz)).map fun jz => (⟨v, jx, jy, jz⟩ : Cell)).length
      = (xlt - xge).toNat * ((ylt - yge).toNat * v.nz nz) := by
  simp only [List.length_flatMap, List.length_map, List.length_range, List.map_const',
    sum_rep, length_span]

theorem length_cells (nz : Nat) (vars : List Var) (xge xlt yge ylt : Int)
    (hx : xge ≤ xlt) (hy : yge ≤ ylt) :
    ((cells nz vars xge xlt yge ylt).length : Int) = msg_len nz vars xge xlt yge ylt := by
  have key : ∀ (l : List Var) (a : Int),
      l.foldl (fun len v => if v.is3D then len + (xlt - xge) * (ylt - yge) * nz * 1
        else len + (xlt - xge) * (ylt - yge) * 1) a
      = a + ((cells nz l xge xlt yge ylt).length : Int) := by
    intro l
    induction l with
    | nil => intro a; simp [cells]
    | cons v l ih =>
      intro a
      rw [List.foldl_cons, ih]
      have : cells nz (v :: l) xge xlt yge ylt
          = ((span xge xlt).flatMap fun jx => (span yge ylt).flatMap fun jy =>
              (List.range (v.nz nz)).map fun jz => (⟨v, jx, jy, jz⟩ : Cell))
            ++ cells nz l xge xlt yge ylt := by
        unfold cells; rw [List.flatMap_cons]
      rw [this, List.length_append, length_cells_const]
      push_cast
      rw [Int.toNat_of_nonneg (by omega), Int.toNat_of_nonneg (by omega)]
      unfold Var.nz
      by_cases hv : v.is3D = true
      · rw [if_pos hv, if_pos hv]; ring
      · rw [if_neg hv, if_neg hv]; push_cast; ring
  have := key vars 0
  unfold msg_len
  rw [this]; simp

/-- Cell `i` of a rectangle and cell `i` of a shifted rectangle correspond. -/
theorem cells_shift (nz : Nat) (vars : List Var) (xge xlt yge ylt dx dy : Int) :
    cells nz vars (xge + dx) (xlt + dx) (yge + dy) (ylt + dy)
      = (cells nz vars xge xlt yge ylt).map (fun c => { c with x := c.x + dx, y := c.y + dy }) := by
  have hs : ∀ a b d : Int, span (a + d) (b + d) = (span a b).map (· + d) := by
    intro a b d
    unfold span
    rw [List.map_map, show b + d - (a + d) = b - a by ring]
    apply List.map_congr_left
    intro i _
    simp only [Function.comp]; ring
  unfold cells
  simp only [List.map_flatMap, hs, List.flatMap_map, List.map_map]
  rfl

/-! ## The theorems -/

/-- **C20.** Packing writes exactly the `msg_len` positions at the start of the buffer and
changes no other position. -/
theorem C20_pack_length {α : Type} (nz : Nat) (vars : List Var) (xge xlt yge ylt : Int)
    (hx : xge ≤ xlt) (hy : yge ≤ ylt) (store : Cell → α) (buf : Nat → α) :
    ((pack_data nz vars xge xlt yge ylt store buf).len : Int)
        = msg_len nz vars xge xlt yge ylt ∧
    ∀ i : Nat, msg_len nz vars xge xlt yge ylt ≤ (i : Int) →
      (pack_data nz vars xge xlt yge ylt store buf).buf i = buf i := by
  obtain ⟨h1, h2⟩ := put_fold store (cells nz vars xge xlt yge ylt) ⟨0, buf⟩
  rw [pack_eq, ← length_cells nz vars xge xlt yge ylt hx hy, h1]
  refine ⟨by simp, ?_⟩
  intro i hi
  rw [h2, if_neg (by simp), List.getElem?_eq_none (by simp; omega)]

/-- **C20.** Unpacking consumes exactly `msg_len` values. -/
theorem C20_unpack_length {α : Type} (nz : Nat) (vars : List Var) (xge xlt yge ylt : Int)
    (hx : xge ≤ xlt) (hy : yge ≤ ylt) (store : Cell → α) (buf : Nat → α) :
    ((unpack_data nz vars xge xlt yge ylt buf store).len : Int)
        = msg_len nz vars xge xlt yge ylt := by
  rw [unpack_eq, ← length_cells nz vars xge xlt yge ylt hx hy]
  have : ∀ (l : List Cell) (u : Unpacking α),
      (l.foldl (fun u c => u.get buf c) u).len = u.len + l.length := by
    intro l
    induction l with
    | nil => simp
    | cons c l ih => intro u; rw [List.foldl_cons, ih]; simp [Unpacking.get]; omega
  rw [this]; simp

/-- **C20.** Round trip.  A receiver unpacks, into the rectangle displaced by `(dx, dy)`,
a buffer whose first `msg_len` values are those the sender packed from its rectangle – of
the same variables, whatever the rest of the buffers holds, and even if a variable appears
twice.  Then every cell of the receiver's rectangle holds the sender's value of the
corresponding cell, and every other cell of the receiver is untouched. -/
theorem C20_round_trip {α : Type} (nz : Nat) (vars : List Var) (xge xlt yge ylt dx dy : Int)
    (hx : xge ≤ xlt) (hy : yge ≤ ylt) (sender receiver : Cell → α) (sbuf rbuf : Nat → α)
    (hbuf : ∀ i : Nat, (i : Int) < msg_len nz vars xge xlt yge ylt →
      rbuf i = (pack_data nz vars xge xlt yge ylt sender sbuf).buf i) (c : Cell) :
    (unpack_data nz vars (xge + dx) (xlt + dx) (yge + dy) (ylt + dy) rbuf receiver).store c
      = if c.v ∈ vars ∧ (xge + dx ≤ c.x ∧ c.x < xlt + dx) ∧ (yge + dy ≤ c.y ∧ c.y < ylt + dy)
          ∧ c.z < (if c.v.is3D then nz else 1)
        then sender ⟨c.v, c.x - dx, c.y - dy, c.z⟩ else receiver c := by
  have hlen := length_cells nz vars xge xlt yge ylt hx hy
  rw [unpack_eq, get_fold rbuf (fun c => sender ⟨c.v, c.x - dx, c.y - dy, c.z⟩)]
  · simp only [mem_cells]
    rfl
  · intro i d hd
    rw [cells_shift, List.getElem?_map] at hd
    cases hc : (cells nz vars xge xlt yge ylt)[i]? with
    | none => rw [hc] at hd; cases hd
    | some c0 =>
      rw [hc] at hd
      obtain ⟨hi, he⟩ := List.getElem?_eq_some_iff.1 hc
      have hd' := Option.some.inj hd
      simp only [Nat.zero_add]
      rw [hbuf i (by omega), pack_eq, (put_fold _ _ _).2, if_neg (by simp)]
      simp only [Nat.sub_zero, hc, ← hd']
      congr 1
      cases c0; simp

/-- A 3D and a 2D variable, a 2 × 2 rectangle, three Z points: 16 values, and unpacking
them one row up moves the rectangle. -/
example :
    let vars := [⟨0, true⟩, ⟨1, false⟩]
    let sender : Cell → Int := fun c => 1000 * c.v.id + 100 * c.x + 10 * c.y + c.z
    let p := pack_data 3 vars 1 3 4 6 sender (fun _ => -1)
    p.len = 16 ∧ msg_len 3 vars 1 3 4 6 = 16 ∧ p.buf 15 = 1250 ∧ p.buf 16 = -1 ∧
    (unpack_data 3 vars 1 3 5 7 p.buf (fun _ => 7)).store ⟨⟨0, true⟩, 2, 6, 1⟩ = 251 ∧
    (unpack_data 3 vars 1 3 5 7 p.buf (fun _ => 7)).store ⟨⟨0, true⟩, 2, 7, 1⟩ = 7 := by
  decide

end Verif.Comm
