import Verif.Common
/-!
# Model of `include/bout/array.hxx`: reference-counted `Array` with a recycling store

State = memory blocks, the live `Array` objects (each a possibly-null `shared_ptr`), the per-thread
stores (`arena`), and the static `useStore` flag.  `shared_ptr::use_count` is computed from the state:
number of handles plus number of store entries pointing to the block (temporaries held by a running
function are appended to the handle list while it runs).

Simplifications: element type `V` is arbitrary; freshly allocated blocks hold an arbitrary value `junk`;
each `Array` operation is atomic (no interleaving inside an operation); sizes are naturals (the code
asserts `len >= 0`); `std::map<size, vector>` of one thread is a flat list of `(size, block)` whose
first entry of a size is the back of that size's vector; an `Array` object that has been destroyed
stays in the list as a null handle.
-/

namespace Verif.Array

/-- All memory the Array class manages. -/
structure State (V : Type) where
  /-- contents of allocated blocks (array.hxx:60-139 `ArrayData`); `none` = not allocated / deleted -/
  mem : Nat → Option (List V)
  /-- next fresh block id -/
  next : Nat
  /-- `ptr` of every Array object (array.hxx:361 `dataPtrType ptr`) -/
  handles : List (Option Nat)
  /-- array.hxx:377-390 `static arenaType arena`: one store per thread -/
  arena : List (List (Nat × Nat))
  /-- array.hxx:238-246 `static bool value = true` -/
  useStore : Bool

namespace State
variable {V : Type}

/-- Program start: `arena(omp_get_max_threads())`, empty stores, `useStore` true. -/
def init (V : Type) (threads : Nat) : State V :=
  { mem := fun _ => none, next := 0, handles := [], arena := List.replicate threads [], useStore := true }

/-- Blocks sitting in any store. -/
def stored (s : State V) : List Nat := s.arena.flatten.map Prod.snd

/-- `shared_ptr::use_count`. -/
def useCount (s : State V) (b : Nat) : Nat := s.handles.count (some b) + s.stored.count b

/-- Change the contents of one block. -/
def setMem (m : Nat → Option (List V)) (b : Nat) (v : Option (List V)) : Nat → Option (List V) :=
  fun c => if c = b then v else m c

/-- array.hxx:421-440 `get(len)`, executed by thread `t`; the returned `shared_ptr` is appended as a new
handle.  `store()` indexes `arena[omp_get_thread_num()]`, an out-of-bounds access when the arena is
smaller than the thread number. -/
def getPush (s : State V) (t len : Nat) (junk : V) : Out (State V) :=
  match s.arena[t]? with
  | none => .error (.ub "arena[omp_get_thread_num()] out of bounds")
  | some st =>
    match st.find? (fun e => decide (e.1 = len)) with
    | some (_, b) =>
      .ok { s with arena := s.arena.set t (st.eraseP (fun e => decide (e.1 = len)))
                   handles := s.handles ++ [some b] }
    | none =>
      .ok { s with mem := setMem s.mem s.next (some (List.replicate len junk))
                   next := s.next + 1
                   handles := s.handles ++ [some s.next] }

/-- array.hxx:454-470 `release(d)` for the handle at position `k`. -/
def release (s : State V) (t k : Nat) : Out (State V) :=
  match s.handles[k]? with
  | none => .error (.ub "no such Array")
  | some none => .ok s
  | some (some b) =>
    if s.useCount b = 1 then
      if s.useStore then
        match s.arena[t]?, s.mem b with
        | some st, some d =>
          .ok { s with arena := s.arena.set t ((d.length, b) :: st), handles := s.handles.set k none }
        | none, _ => .error (.ub "arena[omp_get_thread_num()] out of bounds")
        | _, none => .error (.ub "release of a deleted block")
      else
        -- last reference dropped: the block is deleted
        .ok { s with mem := setMem s.mem b none, handles := s.handles.set k none }
    else
      .ok { s with handles := s.handles.set k none }

/-- `ptr = std::move(p)` where `p` is the last (temporary) handle and `ptr`, at `k`, is null. -/
def moveLast (s : State V) (k : Nat) : Out (State V) :=
  match s.handles.getLast? with
  | none => .error (.ub "no temporary")
  | some p => .ok { s with handles := s.handles.dropLast.set k p }

/-- `std::swap` of the pointers of handle `k` and the last handle (array.hxx:347-350). -/
def swapLast (s : State V) (k : Nat) : Out (State V) :=
  match s.handles[k]?, s.handles.getLast? with
  | some p, some q => .ok { s with handles := (s.handles.dropLast ++ [p]).set k q }
  | _, _ => .error (.ub "no such Array")

/-- Operations on Arrays.  Array objects are named by their position in `handles`. -/
inductive Op (V : Type) where
  | new (len : Nat)             -- Array(len)
  | newEmpty                    -- Array()
  | copyCtor (src : Nat)        -- Array(const Array&)
  | moveCtor (src : Nat)        -- Array(Array&&)
  | assign (dst src : Nat)      -- dst = src
  | destroy (k : Nat)           -- ~Array / clear()
  | reallocate (k len : Nat)
  | ensureUnique (k : Nat)
  | write (k i : Nat) (v : V)   -- a[i] = v
  | disableStore                -- useStore(false)
  | cleanup

/-- array.hxx:191 `Array(len)`. -/
def new (s : State V) (t len : Nat) (junk : V) : Out (State V) := s.getPush t len junk

/-- array.hxx:201 copy constructor: shares the block. -/
def copyCtor (s : State V) (src : Nat) : Out (State V) :=
  match s.handles[src]? with
  | none => .error (.ub "no such Array")
  | some p => .ok { s with handles := s.handles ++ [p] }

/-- array.hxx:217 move constructor: swap with a null pointer. -/
def moveCtor (s : State V) (src : Nat) : Out (State V) :=
  match s.handles[src]? with
  | none => .error (.ub "no such Array")
  | some p => .ok { s with handles := s.handles.set src none ++ [p] }

/-- array.hxx:209-212 `operator=(Array other)`: the by-value parameter is a copy of `src` (last handle),
swapped with `dst`, then destroyed (released) on return. -/
def assign (s : State V) (t dst src : Nat) : Out (State V) := do
  let s1 ← s.copyCtor src
  if dst < s.handles.length then
    let s2 ← s1.swapLast dst
    let s3 ← s2.release t (s1.handles.length - 1)
    .ok { s3 with handles := s3.handles.dropLast }
  else .error (.ub "no such Array")

/-- array.hxx:224-227 `reallocate`. -/
def reallocate (s : State V) (t k len : Nat) (junk : V) : Out (State V) := do
  let s1 ← s.release t k
  let s2 ← s1.getPush t len junk
  s2.moveLast k

/-- array.hxx:297-312 `ensureUnique`. -/
def ensureUnique (s : State V) (t k : Nat) (junk : V) : Out (State V) :=
  match s.handles[k]? with
  | none => .error (.ub "no such Array")
  | some none => .ok s
  | some (some b) =>
    if s.useCount b = 1 then .ok s
    else
      match s.mem b with
      | none => .error (.ub "use of a deleted block")
      | some d => do
        -- dataPtrType p = get(size());
        let s1 ← s.getPush t d.length junk
        match s1.handles.getLast? with
        | some (some p) =>
          -- p->operator=((*ptr));
          let s2 := { s1 with mem := setMem s1.mem p (some d) }
          -- release(ptr); ptr = std::move(p);
          let s3 ← s2.release t k
          s3.moveLast k
        | _ => .error (.ub "get returned null")

/-- array.hxx:334-341 `operator[]` used as an lvalue: null pointer or out of range is UB
(with `CHECK >= 3` the range assertion throws instead). -/
def write (s : State V) (k i : Nat) (v : V) : Out (State V) :=
  match s.handles[k]? with
  | some (some b) =>
    match s.mem b with
    | some d => if i < d.length then .ok { s with mem := setMem s.mem b (some (d.set i v)) }
                else .error (.ub "index out of range")
    | none => .error (.ub "use of a deleted block")
  | _ => .error (.ub "null Array")

/-- array.hxx:259-266 `cleanup` with 392-411 (`store(true)`): delete everything in the stores,
shrink the arena to one store, and disable the store. -/
def cleanup (s : State V) : State V :=
  { s with mem := fun b => if b ∈ s.stored ∧ some b ∉ s.handles then none else s.mem b
           arena := [[]]
           useStore := false }

/-- One operation executed by thread `t`. -/
def step (s : State V) (t : Nat) (junk : V) : Op V → Out (State V)
  | .new len => s.new t len junk
  | .newEmpty => .ok { s with handles := s.handles ++ [none] }
  | .copyCtor src => s.copyCtor src
  | .moveCtor src => s.moveCtor src
  | .assign dst src => s.assign t dst src
  | .destroy k => s.release t k
  | .reallocate k len => s.reallocate t k len junk
  | .ensureUnique k => s.ensureUnique t k junk
  | .write k i v => s.write k i v
  | .disableStore => .ok { s with useStore := false }
  | .cleanup => .ok s.cleanup

/-- A history: each entry names the executing thread, the junk value new memory happens to hold, and the
operation. -/
def run (s : State V) : List (Nat × V × Op V) → Out (State V)
  | [] => .ok s
  | (t, j, o) :: os => match s.step t j o with
    | .ok s' => run s' os
    | .error e => .error e

/-- What a program can see: the contents of each Array object (`none` = empty Array). -/
def contents (s : State V) : List (Option (List V)) :=
  s.handles.map (fun h => h.bind s.mem)

end State
end Verif.Array
