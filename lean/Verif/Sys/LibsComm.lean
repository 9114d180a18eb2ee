import Mathlib.Data.Finset.Basic
import Verif.Common

/-!
# C86: `BoutComm` and MPI
-/
namespace Verif.LibsComm
open Verif (Out Err)

/-- What MPI is doing. -/
inductive Mpi
  | before | up | over
deriving DecidableEq, Repr

/-- The world as `BoutComm` sees it: communicators are numbered, 0 is `MPI_COMM_WORLD`. -/
structure World where
  mpi : Mpi
  /-- communicators that may be used -/
  comms : Finset Nat
  /-- the next number -/
  next : Nat
  /-- calls of `MPI_Init` and `MPI_Finalize` by `BoutComm` -/
  inits : Nat
  finals : Nat

/-- `MPI_Init`: once, and not after `MPI_Finalize`. -/
def World.init (w : World) : Out World :=
  if w.mpi = .before then .ok { w with mpi := .up, comms := insert 0 w.comms, inits := w.inits + 1 }
  else .error (.ub "MPI_Init")

/-- `MPI_Finalize`. -/
def World.final (w : World) : Out World :=
  if w.mpi = .up then .ok { w with mpi := .over, comms := ∅, finals := w.finals + 1 }
  else .error (.ub "MPI_Finalize")

/-- `MPI_Comm_dup`. -/
def World.dup (w : World) (c : Nat) : Out (World × Nat) :=
  if w.mpi = .up ∧ c ∈ w.comms then
    .ok ({ w with comms := insert w.next w.comms, next := w.next + 1 }, w.next)
  else .error (.ub "MPI_Comm_dup")

/-- `MPI_Comm_free`. -/
def World.free (w : World) (c : Nat) : Out World :=
  if w.mpi = .up ∧ c ∈ w.comms then .ok { w with comms := w.comms.erase c }
  else .error (.ub "MPI_Comm_free")

/-- boutcomm.hxx:60-90 `BoutComm`: `comm` (none is `MPI_COMM_NULL`) and `hasBeenSet`. -/
structure Inst where
  comm : Option Nat
  set : Bool

structure State where
  world : World
  inst : Option Inst

/-- boutcomm.cxx:61-67 `getInstance`. -/
def getInstance (s : State) : Inst := s.inst.getD ⟨none, false⟩

/-- boutcomm.cxx:28-37 `getComm`, boutcomm.cxx:42 `get`. -/
def get (s : State) : Out (State × Nat) :=
  match (getInstance s).comm with
  | some c => .ok (⟨s.world, some (getInstance s)⟩, c)
  | none => do
    let w ← s.world.init
    let (w, c) ← w.dup 0
    pure (⟨w, some ⟨some c, (getInstance s).set⟩⟩, c)

/-- boutcomm.cxx:20-26 `setComm`: what is held is freed first. -/
def setComm (s : State) (c : Nat) : Out State := do
  let i := getInstance s
  let w ← match i.comm with
    | some old => s.world.free old
    | none => pure s.world
  let (w, d) ← w.dup c
  pure ⟨w, some ⟨some d, true⟩⟩

/-- boutcomm.cxx:44-47 `setArgs`, and `getInstance()->isSet()`: make the instance only. -/
def touch (s : State) : State := ⟨s.world, some (getInstance s)⟩

/-- boutcomm.cxx:69-72 `cleanup` and 8-18 the destructor. -/
def cleanup (s : State) : Out State :=
  match s.inst with
  | none => .ok s
  | some i => do
    let w ← match i.comm with
      | some c => s.world.free c
      | none => pure s.world
    let w ← if i.set then pure w else w.final
    pure ⟨w, none⟩

/-- Calls by the program; `rank` and `size` are `get`. -/
inductive Op
  | get | setArgs | setComm (c : Nat)
deriving DecidableEq

/-- A run, with the communicators returned by `get`, oldest first. -/
def run : List Op → State → Out (State × List Nat)
  | [], s => .ok (s, [])
  | .get :: l, s => do
    let (s, c) ← get s
    let (s, cs) ← run l s
    pure (s, c :: cs)
  | .setArgs :: l, s => run l (touch s)
  | .setComm c :: l, s => do
    let s ← setComm s c
    run l s

/-- Nothing has happened. -/
def fresh : State := ⟨⟨.before, ∅, 1, 0, 0⟩, none⟩

/-- The program has initialised MPI and holds the communicators `cs`, none of them from `n` on. -/
def given (cs : Finset Nat) (n : Nat) : State := ⟨⟨.up, insert 0 cs, n, 0, 0⟩, none⟩

/-- **C86, BOUT++ initialises MPI.**  When no communicator is set, any use that is not only of `setArgs`
initialises MPI once, always returns the same communicator, and cleanup finalises it once. -/
theorem C86_comm_own (l : List Op) (hl : ∀ o ∈ l, o = .get ∨ o = .setArgs) (hg : .get ∈ l) :
    ∃ s cs c, run l fresh = .ok (s, cs) ∧ s.world.mpi = .up ∧ s.world.inits = 1 ∧ s.world.finals = 0
      ∧ (∀ x ∈ cs, x = c) ∧ cs.length = l.count .get
      ∧ ∃ s', cleanup s = .ok s' ∧ s'.inst = none ∧ s'.world.mpi = .over ∧ s'.world.inits = 1
        ∧ s'.world.finals = 1 := by
  -- after the first `get`
  have later : ∀ (l : List Op) (w : World) (c : Nat), (∀ o ∈ l, o = .get ∨ o = .setArgs) →
      ∃ cs, run l ⟨w, some ⟨some c, false⟩⟩ = .ok (⟨w, some ⟨some c, false⟩⟩, cs)
        ∧ (∀ x ∈ cs, x = c) ∧ cs.length = l.count .get := by
    intro l w c
    induction l with
    | nil => intro _; exact ⟨[], rfl, by simp, rfl⟩
    | cons o l ih =>
      intro h
      obtain ⟨cs, h1, h2, h3⟩ := ih fun o' ho => h o' (List.mem_cons_of_mem _ ho)
      rcases h o List.mem_cons_self with rfl | rfl
      · refine ⟨c :: cs, ?_, ?_, ?_⟩
        · unfold run get getInstance
          simp only [Option.getD_some]
          show (do let (s, cs) ← run l ⟨w, some ⟨some c, false⟩⟩; pure (s, c :: cs)) = _
          rw [h1]; rfl
        · intro x hx
          rcases List.mem_cons.1 hx with rfl | hx
          · rfl
          · exact h2 x hx
        · rw [List.length_cons, h3, List.count_cons_self]
      · refine ⟨cs, ?_, h2, ?_⟩
        · show run l (touch _) = _
          exact h1
        · rw [h3, List.count_cons_of_ne (by simp)]
  -- before it
  have first : ∀ (l : List Op) (i : Option Inst), (i = none ∨ i = some ⟨none, false⟩) →
      (∀ o ∈ l, o = .get ∨ o = .setArgs) → .get ∈ l →
      ∃ cs, run l ⟨fresh.world, i⟩ = .ok (⟨⟨.up, {1, 0}, 2, 1, 0⟩, some ⟨some 1, false⟩⟩, cs)
        ∧ (∀ x ∈ cs, x = 1) ∧ cs.length = l.count .get := by
    intro l
    induction l with
    | nil => intro i _ _ h; cases h
    | cons o l ih =>
      intro i hi h hm
      have hinst : getInstance ⟨fresh.world, i⟩ = ⟨none, false⟩ := by
        rcases hi with rfl | rfl <;> rfl
      rcases h o List.mem_cons_self with rfl | rfl
      · obtain ⟨cs, h1, h2, h3⟩ := later l ⟨.up, {1, 0}, 2, 1, 0⟩ 1 fun o' ho => h o' (List.mem_cons_of_mem _ ho)
        refine ⟨1 :: cs, ?_, ?_, ?_⟩
        · have hget : get ⟨fresh.world, i⟩ = .ok (⟨⟨.up, {1, 0}, 2, 1, 0⟩, some ⟨some 1, false⟩⟩, 1) := by
            unfold get
            rw [hinst]
            rfl
          unfold run
          rw [hget]
          show (do let (s, cs) ← run l ⟨⟨.up, {1, 0}, 2, 1, 0⟩, some ⟨some 1, false⟩⟩; pure (s, 1 :: cs)) = _
          rw [h1]; rfl
        · intro x hx
          rcases List.mem_cons.1 hx with rfl | hx
          · rfl
          · exact h2 x hx
        · rw [List.length_cons, h3, List.count_cons_self]
      · have hm' : Op.get ∈ l := by
          rcases List.mem_cons.1 hm with hx | hx
          · cases hx
          · exact hx
        obtain ⟨cs, h1, h2, h3⟩ := ih (some ⟨none, false⟩) (Or.inr rfl) (fun o' ho => h o' (List.mem_cons_of_mem _ ho)) hm'
        refine ⟨cs, ?_, h2, ?_⟩
        · show run l (touch ⟨fresh.world, i⟩) = _
          unfold touch
          rw [hinst]; exact h1
        · rw [h3, List.count_cons_of_ne (by simp)]
  obtain ⟨cs, h1, h2, h3⟩ := first l none (Or.inl rfl) hl hg
  exact ⟨_, cs, 1, h1, rfl, rfl, rfl, h2, h3, _, rfl, rfl, rfl, rfl, rfl⟩

/-- **C86, the program initialises MPI.**  When it sets a communicator before any other use, then
whatever is called, and however often another of its communicators is set, BOUT++ neither initialises
nor finalises MPI, every communicator of the program stays usable, and what BOUT++ duplicated is freed
at cleanup. -/
theorem C86_comm_given (cs : Finset Nat) (n : Nat) (hn : ∀ c ∈ insert 0 cs, c < n) (c : Nat)
    (hc : c ∈ cs) (l : List Op) (hl : ∀ d, .setComm d ∈ l → d ∈ insert 0 cs) :
    ∃ s rs, run (.setComm c :: l) (given cs n) = .ok (s, rs) ∧ (∀ r ∈ rs, r ∉ insert 0 cs)
      ∧ s.world.mpi = .up ∧ s.world.inits = 0 ∧ s.world.finals = 0 ∧ insert 0 cs ⊆ s.world.comms
      ∧ ∃ s', cleanup s = .ok s' ∧ s'.world.mpi = .up ∧ s'.world.inits = 0 ∧ s'.world.finals = 0
        ∧ s'.world.comms = insert 0 cs := by
  -- the form of the state
  let S : Nat → State := fun m => ⟨⟨.up, insert m (insert 0 cs), m + 1, 0, 0⟩, some ⟨some m, true⟩⟩
  have later : ∀ (l : List Op), (∀ d, .setComm d ∈ l → d ∈ insert 0 cs) → ∀ m, n ≤ m →
      ∃ m' rs, run l (S m) = .ok (S m', rs) ∧ n ≤ m' ∧ ∀ r ∈ rs, r ∉ insert 0 cs := by
    intro l
    induction l with
    | nil => intro _ m hm; exact ⟨m, [], rfl, hm, by simp⟩
    | cons o l ih =>
      intro h m hm
      have hnew : m ∉ insert 0 cs := fun hx => absurd (hn m hx) (by omega)
      have h' : ∀ d, Op.setComm d ∈ l → d ∈ insert 0 cs := fun d hd => h d (List.mem_cons_of_mem _ hd)
      cases o with
      | get =>
        obtain ⟨m', rs, h1, h2, h3⟩ := ih h' m hm
        refine ⟨m', m :: rs, ?_, h2, ?_⟩
        · show (do let (s, cs) ← run l (S m); pure (s, m :: cs)) = _
          rw [h1]; rfl
        · intro r hr
          rcases List.mem_cons.1 hr with rfl | hr
          · exact hnew
          · exact h3 r hr
      | setArgs =>
        obtain ⟨m', rs, h1, h2, h3⟩ := ih h' m hm
        exact ⟨m', rs, h1, h2, h3⟩
      | setComm d =>
        obtain ⟨m', rs, h1, h2, h3⟩ := ih h' (m + 1) (by omega)
        have hd : d ∈ insert 0 cs := h d List.mem_cons_self
        refine ⟨m', rs, ?_, h2, h3⟩
        have hfree : (S m).world.free m = .ok ⟨.up, insert 0 cs, m + 1, 0, 0⟩ := by
          unfold World.free
          rw [if_pos ⟨rfl, Finset.mem_insert_self m _⟩]
          simp only [S, Finset.erase_insert hnew]
        have hdup : (⟨.up, insert 0 cs, m + 1, 0, 0⟩ : World).dup d
            = .ok (⟨.up, insert (m + 1) (insert 0 cs), m + 1 + 1, 0, 0⟩, m + 1) := by
          unfold World.dup
          rw [if_pos ⟨rfl, hd⟩]
        have hset : setComm (S m) d = .ok (S (m + 1)) := by
          unfold setComm
          show (do let w ← (S m).world.free m; let (w, d) ← w.dup d; pure (⟨w, some ⟨some d, true⟩⟩ : State)) = _
          rw [hfree]
          show (do let (w, d) ← (⟨.up, insert 0 cs, m + 1, 0, 0⟩ : World).dup d; pure (⟨w, some ⟨some d, true⟩⟩ : State)) = _
          rw [hdup]; rfl
        show (do let s ← setComm (S m) d; run l s) = _
        rw [hset]
        exact h1
  have hdup : (given cs n).world.dup c = .ok (⟨.up, insert n (insert 0 cs), n + 1, 0, 0⟩, n) := by
    unfold World.dup
    rw [if_pos ⟨rfl, Finset.mem_insert_of_mem hc⟩]
    rfl
  have hset : setComm (given cs n) c = .ok (S n) := by
    unfold setComm
    show (do let (w, d) ← (given cs n).world.dup c; pure (⟨w, some ⟨some d, true⟩⟩ : State)) = _
    rw [hdup]; rfl
  obtain ⟨m, rs, h1, h2, h3⟩ := later l hl n (Nat.le_refl n)
  have hnew : m ∉ insert 0 cs := fun hx => absurd (hn m hx) (by omega)
  refine ⟨S m, rs, ?_, h3, rfl, rfl, rfl, Finset.subset_insert _ _, ⟨⟨.up, insert 0 cs, m + 1, 0, 0⟩, none⟩, ?_, rfl, rfl, rfl, rfl⟩
  · show (do let s ← setComm (given cs n) c; run l s) = _
    rw [hset]
    exact h1
  · have hfree : (S m).world.free m = .ok ⟨.up, insert 0 cs, m + 1, 0, 0⟩ := by
      unfold World.free
      rw [if_pos ⟨rfl, Finset.mem_insert_self m _⟩]
      simp only [S, Finset.erase_insert hnew]
    show (do let w ← (S m).world.free m; let w ← (pure w : Out World); pure (⟨w, none⟩ : State)) = _
    rw [hfree]; rfl

/-! ## Where the claim fails -/

/-- **Finding.**  When only `setArgs` (or `isSet`) was called, cleanup calls `MPI_Finalize` although MPI
was never initialised. -/
theorem C86_finalize_violated : cleanup (touch fresh) = .error (.ub "MPI_Finalize") := rfl

/-- **Finding.**  When BOUT++ has initialised MPI and a communicator is set afterwards, nobody
finalises MPI: after cleanup it is still up. -/
theorem C86_set_late_violated : ∃ s s' cs, run [.get, .setComm 0] fresh = .ok (s, cs)
    ∧ s.world.inits = 1 ∧ cleanup s = .ok s' ∧ s'.world.mpi = .up ∧ s'.world.finals = 0 :=
  ⟨_, _, _, rfl, rfl, rfl, rfl, rfl⟩

/-- **Finding.**  Setting the communicator BOUT++ already uses frees it before it is duplicated. -/
theorem C86_set_self_violated (s : State) (c : Nat) (h : s.inst = some ⟨some c, true⟩)
    (hu : s.world.mpi = .up) (hc : c ∈ s.world.comms) :
    setComm s c = .error (.ub "MPI_Comm_dup") := by
  unfold setComm getInstance
  rw [h]
  simp only [Option.getD_some]
  have hf : s.world.free c = .ok { s.world with comms := s.world.comms.erase c } := by
    unfold World.free
    rw [if_pos ⟨hu, hc⟩]
  rw [hf]
  show (do let (w, d) ← ({ s.world with comms := s.world.comms.erase c } : World).dup c;
           pure (⟨w, some ⟨some d, true⟩⟩ : State)) = _
  have hd : ({ s.world with comms := s.world.comms.erase c } : World).dup c = .error (.ub "MPI_Comm_dup") := by
    unfold World.dup
    rw [if_neg]
    rintro ⟨_, hx⟩
    exact Finset.notMem_erase c _ hx
  rw [hd]; rfl

/-! ## The hypotheses are met -/

example := C86_comm_own [.setArgs, .get, .get] (by decide) (by decide)
example := C86_comm_given {1, 2} 3 (by decide) 1 (by decide) [.get, .setComm 2, .get] (by
  intro d hd
  simp only [List.mem_cons, Op.setComm.injEq, reduceCtorEq, false_or, or_false, List.not_mem_nil] at hd
  subst hd; decide)
example : ∃ s : State, s.inst = some ⟨some 3, true⟩ ∧ setComm s 3 = .error (.ub "MPI_Comm_dup") := by
  have h : setComm (given {1} 3) 1 = .ok ⟨⟨.up, insert 3 (insert 0 {1}), 4, 0, 0⟩, some ⟨some 3, true⟩⟩ := rfl
  exact ⟨⟨⟨.up, insert 3 (insert 0 {1}), 4, 0, 0⟩, some ⟨some 3, true⟩⟩, rfl,
    C86_set_self_violated _ 3 rfl rfl (by decide)⟩

end Verif.LibsComm
