import Mathlib.Data.Finset.Card

/-!
# Lifetimes of the external libraries: `PetscLib`, `HypreLib`, `SlepcLib`

Any number of threads construct, copy, use and destroy objects.  Every step below is one action of
one thread; the scheduler may interleave them in any way.
-/
namespace Verif.Libs

/-- What the library sees. -/
inductive Ev
  | init | final | use
deriving DecidableEq, Repr

/-- Where a thread is.  Objects are numbered; `dtor*` and `copy*` carry the object. -/
inductive Pc
  | idle
  | ctorWait (o : Nat) | ctorTest (o : Nat) | ctorInit (o : Nat) | ctorIncr (o : Nat)
  | copyWait (src o : Nat) | copyIncr (src o : Nat)
  | dtorWait (o : Nat) | dtorDecr (o : Nat) | dtorTest | dtorFinal
  | cleanWait | cleanTest | cleanFinal | cleanZero
deriving DecidableEq, Repr

/-- What distinguishes the three classes. -/
structure Kind where
  /-- the bodies are in an `omp critical` section -/
  locked : Bool
  /-- copying and moving are counted -/
  counted : Bool
  /-- the constructor can throw after initialising the library -/
  throws : Bool

/-- petsclib.cxx: critical sections, copy constructor of the compiler (petsclib.hxx:77-140),
`setPetscOptions` throws (petsclib.cxx:98-106). -/
def petsc : Kind := ⟨true, false, true⟩
/-- hyprelib.cxx:29-78. -/
def hypre : Kind := ⟨true, true, false⟩
/-- slepclib.cxx:16-48: no critical section. -/
def slepc : Kind := ⟨false, false, false⟩

structure State where
  /-- the static `count` -/
  count : Int
  /-- the library has been initialised and not finalised -/
  up : Bool
  lock : Option Nat
  pc : Nat → Pc
  /-- objects that exist -/
  objs : Finset Nat
  /-- calls of the library, newest first -/
  log : List Ev

def start : State := ⟨0, false, none, fun _ => .idle, ∅, []⟩

/-- What a thread does next.  Beginnings are chosen by the program, `go` continues. -/
inductive Act
  | create (o : Nat) | copy (src o : Nat) | destroy (o : Nat) | use (o : Nat) | cleanup
  | go | throw
deriving DecidableEq, Repr

/-- The object a thread is destroying. -/
def Pc.dying : Pc → Option Nat
  | .dtorWait o | .dtorDecr o => some o
  | _ => none

/-- The object a thread is making. -/
def Pc.making : Pc → Option Nat
  | .ctorWait o | .ctorTest o | .ctorInit o | .ctorIncr o | .copyWait _ o | .copyIncr _ o => some o
  | _ => none

/-- The object a thread is copying from. -/
def Pc.source : Pc → Option Nat
  | .copyWait src _ | .copyIncr src _ => some src
  | _ => none

def State.at (s : State) (t : Nat) (p : Pc) : State := { s with pc := fun i => if i = t then p else s.pc i }

/-- What the program must see to: an object is used and copied only while it exists and is not being
destroyed, destroyed once and not while it is copied, and made at a place where there is none. -/
def Fair (s : State) (t : Nat) : Act → Prop
  | .create o => o ∉ s.objs ∧ ∀ i, (s.pc i).making ≠ some o
  | .copy src o => src ∈ s.objs ∧ o ∉ s.objs ∧ (∀ i, (s.pc i).dying ≠ some src)
      ∧ ∀ i, (s.pc i).making ≠ some o
  | .destroy o => o ∈ s.objs ∧ (∀ i, (s.pc i).dying ≠ some o) ∧ ∀ i, (s.pc i).source ≠ some o
  | .use o => o ∈ s.objs ∧ ∀ i, (s.pc i).dying ≠ some o
  | .cleanup => True
  | .go => s.pc t ≠ .idle
  | .throw => True

/-- Entering a critical section. -/
def enter (k : Kind) (s : State) (t : Nat) (p : Pc) : Option State :=
  if k.locked then
    if s.lock = none then some { s.at t p with lock := some t } else none
  else some (s.at t p)

/-- Leaving it. -/
def leave (s : State) (t : Nat) : State := { s.at t .idle with lock := none }

/-- petsclib.cxx:90, hyprelib.cxx:72: `count > 0`; slepclib.cxx:39: `count == 0` returns. -/
def cleans (k : Kind) (count : Int) : Bool :=
  if k.locked then decide (0 < count) else decide (count ≠ 0)

/-- One step of thread `t`; `none` when it is not possible. -/
def step (k : Kind) (s : State) (t : Nat) (a : Act) : Option State :=
  match s.pc t, a with
  | .idle, .create o => some (s.at t (.ctorWait o))
  -- the copy constructor of the compiler does nothing
  | .idle, .copy src o =>
      some (if k.counted then s.at t (.copyWait src o) else { s with objs := insert o s.objs })
  | .idle, .destroy o => some (s.at t (.dtorWait o))
  | .idle, .use _ => some { s with log := .use :: s.log }
  | .idle, .cleanup => some (s.at t .cleanWait)
  -- petsclib.cxx:25-60, hyprelib.cxx:29-40, slepclib.cxx:16-26: the constructors
  | .ctorWait o, .go => enter k s t (.ctorTest o)
  | .ctorTest o, .go => some (s.at t (if s.count = 0 then .ctorInit o else .ctorIncr o))
  | .ctorInit o, .go => some { s.at t (.ctorIncr o) with up := true, log := .init :: s.log }
  | .ctorIncr o, .go => some (leave { s with count := s.count + 1, objs := insert o s.objs } t)
  -- petsclib.cxx:45-55: the options of the object are refused; the destructor will not run
  | .ctorIncr _, .throw => if k.throws then some (leave s t) else none
  -- hyprelib.cxx:42-56: the copy and move constructors
  | .copyWait src o, .go => enter k s t (.copyIncr src o)
  | .copyIncr _ o, .go => some (leave { s with count := s.count + 1, objs := insert o s.objs } t)
  -- petsclib.cxx:62-73, hyprelib.cxx:58-67, slepclib.cxx:28-36: the destructors
  | .dtorWait o, .go => enter k s t (.dtorDecr o)
  | .dtorDecr o, .go => some { s.at t .dtorTest with count := s.count - 1, objs := s.objs.erase o }
  | .dtorTest, .go => some (if s.count = 0 then s.at t .dtorFinal else leave s t)
  | .dtorFinal, .go => some { leave s t with up := false, log := .final :: s.log }
  -- petsclib.cxx:87-98, hyprelib.cxx:69-78, slepclib.cxx:38-48: `cleanup`
  | .cleanWait, .go => enter k s t .cleanTest
  | .cleanTest, .go =>
      some (if cleans k s.count then s.at t .cleanFinal else leave s t)
  | .cleanFinal, .go => some { s.at t .cleanZero with up := false, log := .final :: s.log }
  | .cleanZero, .go => some (leave { s with count := 0 } t)
  | _, _ => none

/-- The actions a history is made of, besides destroying and continuing. -/
structure Uses where
  create : Bool
  copy : Bool
  use : Bool
  cleanup : Bool
  throw : Bool

def Uses.ok (u : Uses) : Act → Prop
  | .create _ => u.create = true
  | .copy _ _ => u.copy = true
  | .use _ => u.use = true
  | .cleanup => u.cleanup = true
  | .throw => u.throw = true
  | _ => True

instance (u : Uses) (a : Act) : Decidable (u.ok a) := by cases a <;> unfold Uses.ok <;> infer_instance

/-- States reached from `s` by any threads in any order. -/
inductive Reach (k : Kind) (u : Uses) (s : State) : State → Prop
  | refl : Reach k u s s
  | step {s' s'' : State} (t : Nat) (a : Act) : Reach k u s s' → Fair s' t a → u.ok a →
      step k s' t a = some s'' → Reach k u s s''

/-- The specification: the library's view, oldest call first.  It is initialised only when it is not,
finalised only when it is, and used only in between. -/
def GoodFrom : Bool → List Ev → Prop
  | _, [] => True
  | up, .init :: l => up = false ∧ GoodFrom true l
  | up, .final :: l => up = true ∧ GoodFrom false l
  | up, .use :: l => up = true ∧ GoodFrom up l

def Good (s : State) : Prop := GoodFrom false s.log.reverse

instance instGood : (b : Bool) → (l : List Ev) → Decidable (GoodFrom b l)
  | _, [] => isTrue trivial
  | up, .init :: l => by unfold GoodFrom; exact @instDecidableAnd _ _ _ (instGood true l)
  | up, .final :: l => by unfold GoodFrom; exact @instDecidableAnd _ _ _ (instGood false l)
  | up, .use :: l => by unfold GoodFrom; exact @instDecidableAnd _ _ _ (instGood up l)

end Verif.Libs
