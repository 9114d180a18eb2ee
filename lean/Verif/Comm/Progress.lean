/-
C43: no deadlock.

Every rank runs the same program of communications: `send` (post receives, send) and `wait`
commands, any number of communications outstanding at a time.  MPI is modelled as in the
standard: the `n`-th message on a channel (source, destination, tag) goes to the `n`-th
receive posted on it; a blocking send is only guaranteed to return once its receive has been
posted, and may return earlier if the message is buffered.
-/
import Verif.Comm.MatchProps
import Verif.Comm.Guard
import Mathlib.Algebra.BigOperators.Fin
import Mathlib.Order.Interval.Finset.Basic
import Mathlib.Data.Int.Interval
import Mathlib.Algebra.Order.BigOperators.Group.Finset

namespace Verif.Comm
open Verif.Mesh

/-- One step of a rank. -/
inductive Step
  /-- `MPI_Irecv`s: list of (source, tag). -/
  | post (rs : List (Int × Nat))
  /-- `if (DEST != -1) MPI_Send(…)`: (destination, tag), or nothing to do. -/
  | send (m : Option (Int × Nat))
  /-- `wait` for the communication started by command `i`. -/
  | wait (i : Nat)
deriving Repr, DecidableEq

/-- A command of the (SPMD) program: start a communication, or wait for the one started by
command number `i`. -/
inductive Cmd
  | send (j : Job)
  | wait (i : Nat)
deriving Repr, DecidableEq

def dest (on : Bool) (d : Int) (t : Nat) : Option (Int × Nat) :=
  if on = true ∧ d ≠ -1 then some (d, t) else none

/-- The receives posted in X and in Y, as (source, tag). -/
def postsX (c : Cfg) (s : Conn) (j : Job) : List (Int × Nat) :=
  (recvs c s { j with doY := false }).map fun r => (r.src, r.tag)
def postsY (c : Cfg) (s : Conn) (j : Job) : List (Int × Nat) :=
  (recvs c s { j with doX := false }).map fun r => (r.src, r.tag)

/-- The steps of `BoutMesh::send`, `boutmesh.cxx` L1133-1155: `sendX` (L1157-1213: post X
receives, send in, send out), then `sendY` (L1215-1313: post Y receives, send up inner, up
outer, down inner, down outer). -/
def cmdSteps (c : Cfg) (s : Conn) : Cmd → List Step
  | .send j =>
    [.post (postsX c s j),
     .send (dest j.doX s.IDATA_DEST IN_SENT_OUT),
     .send (dest j.doX s.ODATA_DEST OUT_SENT_IN),
     .post (postsY c s j),
     .send (dest j.doY s.up.ind IN_SENT_UP),
     .send (dest j.doY s.up.outd OUT_SENT_UP),
     .send (dest j.doY s.down.ind IN_SENT_DOWN),
     .send (dest j.doY s.down.outd OUT_SENT_DOWN)]
  | .wait i => [.wait i]

/-- The steps of a rank with connections `s`. -/
def stepsOf (c : Cfg) (s : Conn) (prog : List Cmd) : List Step := prog.flatMap (cmdSteps c s)

/-- Messages sent to `d` with tag `t` by a list of steps. -/
def sentOn (l : List Step) (d : Int) (t : Nat) : Nat :=
  (l.flatMap fun x => match x with
    | .send (some m) => [m]
    | _ => []).count (d, t)

/-- Receives posted for messages from `r` with tag `t` by a list of steps. -/
def postedOn (l : List Step) (r : Int) (t : Nat) : Nat :=
  (l.flatMap fun x => match x with
    | .post rs => rs
    | _ => []).count (r, t)

/-- Where each rank is in its list of steps. -/
abbrev Pcs := Int × Int → Nat

/-- Whether MPI guarantees that the next step of rank `p` completes. -/
def Enabled (c : Cfg) (conn : Int × Int → Conn) (async : Bool) (prog : List Cmd) (pc : Pcs)
    (p : Int × Int) : Prop :=
  let steps := fun r => stepsOf c (conn r) prog
  let done := fun r => (steps r).take (pc r)
  match (steps p)[pc p]? with
  | none => False
  | some (.post _) => True
  | some (.send none) => True
  | some (.send (some (d, t))) =>
    async = true ∨ sentOn (done p) d t < postedOn (done (c.peX d, c.peY d)) (rankAt c p) t
  | some (.wait i) =>
    -- every receive of command `i` has its message …
    (∀ r t, 0 < postedOn ((prog[i]?.map (cmdSteps c (conn p))).getD []) r t →
      postedOn (stepsOf c (conn p) (prog.take (i + 1))) r t
        ≤ sentOn (done (c.peX r, c.peY r)) (rankAt c p) t) ∧
    -- … and, for non-blocking sends, every send of command `i` has its receive
    (async = true → ∀ d t, 0 < sentOn ((prog[i]?.map (cmdSteps c (conn p))).getD []) d t →
      sentOn (stepsOf c (conn p) (prog.take (i + 1))) d t
        ≤ postedOn (done (c.peX d, c.peY d)) (rankAt c p) t)

/-- Waits refer to communications started before. -/
def WellFormed (prog : List Cmd) : Prop :=
  ∀ (k i : Nat), prog[k]? = some (.wait i) → i < k

/-! ### Counting -/

theorem sentOn_append (a b : List Step) (d : Int) (t : Nat) :
    sentOn (a ++ b) d t = sentOn a d t + sentOn b d t := by
  unfold sentOn; rw [List.flatMap_append, List.count_append]

theorem postedOn_append (a b : List Step) (d : Int) (t : Nat) :
    postedOn (a ++ b) d t = postedOn a d t + postedOn b d t := by
  unfold postedOn; rw [List.flatMap_append, List.count_append]

theorem sentOn_take_mono (l : List Step) (d : Int) (t : Nat) {m n : Nat} (h : m ≤ n) :
    sentOn (l.take m) d t ≤ sentOn (l.take n) d t := by
  obtain ⟨k, rfl⟩ := Nat.exists_eq_add_of_le h
  rw [List.take_add, sentOn_append]; omega

theorem postedOn_take_mono (l : List Step) (d : Int) (t : Nat) {m n : Nat} (h : m ≤ n) :
    postedOn (l.take m) d t ≤ postedOn (l.take n) d t := by
  obtain ⟨k, rfl⟩ := Nat.exists_eq_add_of_le h
  rw [List.take_add, postedOn_append]; omega

theorem cmdSteps_length (c : Cfg) (s s' : Conn) (x : Cmd) :
    (cmdSteps c s x).length = (cmdSteps c s' x).length := by
  cases x <;> rfl

theorem stepsOf_length (c : Cfg) (s s' : Conn) (prog : List Cmd) :
    (stepsOf c s prog).length = (stepsOf c s' prog).length := by
  unfold stepsOf
  induction prog with
  | nil => rfl
  | cons x l ih => simp only [List.flatMap_cons, List.length_append, ih, cmdSteps_length c s s' x]

theorem stepsOf_cons (c : Cfg) (s : Conn) (x : Cmd) (l : List Cmd) :
    stepsOf c s (x :: l) = cmdSteps c s x ++ stepsOf c s l := rfl

theorem stepsOf_append (c : Cfg) (s : Conn) (a b : List Cmd) :
    stepsOf c s (a ++ b) = stepsOf c s a ++ stepsOf c s b := by
  unfold stepsOf; rw [List.flatMap_append]

/-- The sends among the steps are the messages of the model. -/
theorem steps_are_sends {α : Type} (c : Cfg) (s : Conn) (j : Job) (async : Bool)
    (store : Cell → α) (b : SendBufs α) :
    ((cmdSteps c s (.send j)).flatMap fun x => match x with
      | .send (some m) => [m]
      | _ => []) = (sends c s j async store b).map fun m => (m.dst, m.tag) := by
  have one : ∀ (on : Bool) (d : Int) (t : Nat) (x : List α),
      (match Step.send (dest on d t) with
        | .send (some m) => [m]
        | _ => []) =
      (if on then (if d ≠ -1 then [(⟨d, t, x⟩ : Msg α)] else []) else []).map
        fun m => (m.dst, m.tag) := by
    intro on d t x
    unfold dest
    cases on <;> by_cases hd : d = -1 <;> simp [hd]
  rw [sends_eq]
  unfold cmdSteps
  simp only [List.flatMap_cons, List.flatMap_nil, List.nil_append, List.append_nil]
  rw [one j.doX s.IDATA_DEST IN_SENT_OUT
      (payload j c.MXG (2 * c.MXG) (xRows c j).1 (xRows c j).2 store),
    one j.doX s.ODATA_DEST OUT_SENT_IN
      (payload j c.MXSUB (c.MXSUB + c.MXG) (xRows c j).1 (xRows c j).2 store),
    one j.doY s.up.ind IN_SENT_UP
      (payload j 0 s.up.split c.MYSUB (c.MYSUB + c.MYG) store),
    one j.doY s.up.outd OUT_SENT_UP
      (payload j s.up.split c.LocalNx c.MYSUB (c.MYSUB + c.MYG) store),
    one j.doY s.down.ind IN_SENT_DOWN
      (payload j 0 s.down.split c.MYG (2 * c.MYG) store),
    one j.doY s.down.outd OUT_SENT_DOWN
      (payload j s.down.split c.LocalNx c.MYG (2 * c.MYG) store)]
  cases j.doX <;> cases j.doY <;>
    simp only [Bool.false_eq_true, if_false, if_true, List.map_append, List.map_nil,
      List.append_assoc, List.append_nil, List.nil_append]

/-- The receives among the steps are the receives of the model. -/
theorem steps_are_recvs (c : Cfg) (s : Conn) (j : Job) :
    ((cmdSteps c s (.send j)).flatMap fun x => match x with
      | .post rs => rs
      | _ => []) = (recvs c s j).map fun r => (r.src, r.tag) := by
  unfold cmdSteps postsX postsY
  simp only [List.flatMap_cons, List.flatMap_nil, List.nil_append, List.append_nil]
  rw [← List.map_append]
  congr 1
  unfold recvs
  cases hx : j.doX <;> cases hy : j.doY <;> simp [postX, postSide]

section
variable {c : Cfg} {conn : Int × Int → Conn} (hn : Net c conn) {p q : Int × Int}
  (hp : IsRank c p) (hq : IsRank c q)
include hn hp hq

/-- A whole command sends as much on a channel as the other end posts. -/
theorem cmd_balanced (x : Cmd) (t : Nat) :
    sentOn (cmdSteps c (conn p) x) (rankAt c q) t
      = postedOn (cmdSteps c (conn q) x) (rankAt c p) t := by
  cases x with
  | wait i => rfl
  | send j =>
    have h1 := steps_are_sends c (conn p) j false (fun _ => (0 : Nat))
      ⟨fun _ => 0, fun _ => 0, fun _ => 0, fun _ => 0⟩
    have h2 := steps_are_recvs c (conn q) j
    have h3 := congrArg List.length (C18_channels_match c conn hn j false (fun _ => (0 : Nat))
      ⟨fun _ => 0, fun _ => 0, fun _ => 0, fun _ => 0⟩ p q hp hq t).1
    rw [List.length_map, List.length_map] at h3
    unfold sentOn postedOn
    rw [h1, h2, List.count_eq_countP, List.count_eq_countP, List.countP_map, List.countP_map,
      List.countP_eq_length_filter, List.countP_eq_length_filter]
    unfold chanSends chanRecvs at h3
    have e1 : ((fun x => x == (rankAt c q, t)) ∘ fun m : Msg Nat => (m.dst, m.tag))
        = fun m => decide (m.dst = rankAt c q ∧ m.tag = t) := by
      funext m
      rw [Bool.eq_iff_iff]
      simp
    have e2 : ((fun x => x == (rankAt c p, t)) ∘ fun m : Recv => (m.src, m.tag))
        = fun m => decide (m.src = rankAt c p ∧ m.tag = t) := by
      funext m
      rw [Bool.eq_iff_iff]
      simp
    rw [e1, e2]; exact h3

theorem prog_balanced (prog : List Cmd) (t : Nat) :
    sentOn (stepsOf c (conn p) prog) (rankAt c q) t
      = postedOn (stepsOf c (conn q) prog) (rankAt c p) t := by
  induction prog with
  | nil => rfl
  | cons x l ih =>
    rw [stepsOf_cons, stepsOf_cons, sentOn_append, postedOn_append, ih,
      cmd_balanced hn hp hq x t]

omit hn hp hq in
/-- Receives with X tags are posted by the first step, with Y tags by the fourth. -/
theorem posts_first (j : Job) (n t : Nat) (r : Int)
    (h : (1 ≤ n ∧ t = 4 ∨ 1 ≤ n ∧ t = 5) ∨ 4 ≤ n) :
    postedOn ((cmdSteps c (conn q) (.send j)).take n) r t
      = postedOn (cmdSteps c (conn q) (.send j)) r t := by
  have hX : ∀ l : List (Int × Nat), (t = 4 ∨ t = 5) → (∀ x ∈ l, x.2 < 4) → l.count (r, t) = 0 := by
    intro l ht hl
    rw [List.count_eq_zero]
    intro hm
    have := hl _ hm
    simp only at this
    omega
  have yt : ∀ x ∈ postsY c (conn q) j, x.2 < 4 := by
    intro x hx
    unfold postsY recvs postSide at hx
    simp only [Bool.false_eq_true, if_false, List.nil_append, List.mem_map] at hx
    obtain ⟨y, hy, rfl⟩ := hx
    rcases List.mem_append.1 (memB hy) with h | h <;> rcases List.mem_append.1 h with h | h <;>
      (obtain ⟨_, rfl⟩ := mem1 h; simp [IN_SENT_DOWN, OUT_SENT_DOWN, IN_SENT_UP, OUT_SENT_UP])
  unfold postedOn cmdSteps
  by_cases h4 : 4 ≤ n
  · obtain ⟨m, rfl⟩ := Nat.exists_eq_add_of_le h4
    rw [show 4 + m = m + 4 by omega]
    simp only [List.take_succ_cons, List.flatMap_cons, List.nil_append, List.flatMap_nil,
      List.append_nil]
    congr 1
    congr 1
    have : ∀ (k : Nat) (a b e f : Option (Int × Nat)),
        (List.take k [Step.send a, Step.send b, Step.send e, Step.send f]).flatMap
          (fun x => match x with
            | .post rs => rs
            | _ => []) = [] := by
      intro k a b e f
      apply List.flatMap_eq_nil_iff.2
      intro x hx
      have := List.mem_of_mem_take hx
      simp only [List.mem_cons, List.not_mem_nil, or_false] at this
      rcases this with rfl | rfl | rfl | rfl <;> rfl
    rw [this, List.append_nil]
  · have hn : 1 ≤ n := by omega
    have ht : t = 4 ∨ t = 5 := by omega
    have n3 : n = 1 ∨ n = 2 ∨ n = 3 := by omega
    rcases n3 with rfl | rfl | rfl <;>
      simp [List.count_append, hX _ ht yt]

/-- When a rank is about to send, the receiver – if at the same step – has already posted
the receive. -/
theorem send_ready (prog : List Cmd) (n t : Nat)
    (h : (stepsOf c (conn p) prog)[n]? = some (.send (some (rankAt c q, t)))) :
    sentOn ((stepsOf c (conn p) prog).take n) (rankAt c q) t
      < postedOn ((stepsOf c (conn q) prog).take n) (rankAt c p) t := by
  induction prog generalizing n with
  | nil => simp [stepsOf] at h
  | cons x l ih =>
    rw [stepsOf_cons] at h
    rw [stepsOf_cons, stepsOf_cons]
    have len := cmdSteps_length c (conn p) (conn q) x
    by_cases hl : n < (cmdSteps c (conn p) x).length
    · rw [List.getElem?_append_left hl] at h
      rw [List.take_append_of_le_length (by omega), List.take_append_of_le_length (by omega)]
      cases x with
      | wait i =>
        have : n = 0 := by simp [cmdSteps] at hl; omega
        subst this
        simp [cmdSteps] at h
      | send j =>
        have total : sentOn ((cmdSteps c (conn p) (.send j)).take n) (rankAt c q) t + 1
            ≤ sentOn (cmdSteps c (conn p) (.send j)) (rankAt c q) t := by
          conv_rhs => rw [← List.take_append_drop (n + 1) (cmdSteps c (conn p) (.send j))]
          rw [sentOn_append, List.take_add_one, h, sentOn_append]
          have : sentOn (some (Step.send (some (rankAt c q, t)))).toList (rankAt c q) t = 1 := by
            simp [sentOn]
          omega
        rw [posts_first j n t (rankAt c p), ← cmd_balanced hn hp hq (.send j) t]
        · omega
        · have n8 : n < 8 := by simpa [cmdSteps] using hl
          have : n = 0 ∨ n = 1 ∨ n = 2 ∨ n = 3 ∨ 4 ≤ n := by omega
          rcases this with rfl | rfl | rfl | rfl | h4
          · simp [cmdSteps] at h
          · simp only [cmdSteps, List.getElem?_cons_succ, List.getElem?_cons_zero,
              Option.some.injEq, Step.send.injEq, dest] at h
            split at h
            · simp only [Option.some.injEq, Prod.mk.injEq] at h
              have := h.2; unfold IN_SENT_OUT at this; omega
            · cases h
          · simp only [cmdSteps, List.getElem?_cons_succ, List.getElem?_cons_zero,
              Option.some.injEq, Step.send.injEq, dest] at h
            split at h
            · simp only [Option.some.injEq, Prod.mk.injEq] at h
              have := h.2; unfold OUT_SENT_IN at this; omega
            · cases h
          · simp [cmdSteps] at h
          · right; exact h4
    · obtain ⟨m, rfl⟩ := Nat.exists_eq_add_of_le (Nat.not_lt.1 hl)
      rw [List.getElem?_append_right (by omega), Nat.add_sub_cancel_left] at h
      rw [List.take_length_add_append, len, List.take_length_add_append, sentOn_append,
        postedOn_append, cmd_balanced hn hp hq x t]
      have := ih m h
      omega

end

/-- Where a `wait` stands. -/
theorem wait_position (c : Cfg) (s : Conn) (prog : List Cmd) (n i : Nat)
    (h : (stepsOf c s prog)[n]? = some (.wait i)) :
    ∃ k, prog[k]? = some (.wait i) ∧ n = (stepsOf c s (prog.take k)).length := by
  induction prog generalizing n with
  | nil => simp [stepsOf] at h
  | cons x l ih =>
    rw [stepsOf_cons] at h
    by_cases hl : n < (cmdSteps c s x).length
    · rw [List.getElem?_append_left hl] at h
      refine ⟨0, ?_, ?_⟩
      · cases x with
        | wait i' =>
          have : n = 0 := by simp [cmdSteps] at hl; omega
          subst this
          simp [cmdSteps] at h
          simp [h]
        | send j =>
          exfalso
          have := List.mem_of_getElem? h
          simp [cmdSteps] at this
      · cases x with
        | wait i' => simp [cmdSteps] at hl; simp [stepsOf, hl]
        | send j =>
          exfalso
          have := List.mem_of_getElem? h
          simp [cmdSteps] at this
    · obtain ⟨m, rfl⟩ := Nat.exists_eq_add_of_le (Nat.not_lt.1 hl)
      rw [List.getElem?_append_right (by omega), Nat.add_sub_cancel_left] at h
      obtain ⟨k, h1, h2⟩ := ih m h
      refine ⟨k + 1, by simpa using h1, ?_⟩
      rw [List.take_succ_cons, stepsOf_cons, List.length_append, h2]

/-- The steps before a `wait` include those of the communications it waits for. -/
theorem take_wait (c : Cfg) (s : Conn) (prog : List Cmd) (hw : WellFormed prog) (n i : Nat)
    (h : (stepsOf c s prog)[n]? = some (.wait i)) (s' : Conn) :
    ∃ rest, (stepsOf c s' prog).take n = stepsOf c s' (prog.take (i + 1)) ++ rest := by
  obtain ⟨k, h1, h2⟩ := wait_position c s prog n i h
  have hik := hw k i h1
  rw [stepsOf_length c s s'] at h2
  refine ⟨stepsOf c s' ((prog.take k).drop (i + 1)), ?_⟩
  rw [← stepsOf_append]
  have : prog.take (i + 1) = (prog.take k).take (i + 1) := by
    rw [List.take_take, Nat.min_eq_left (by omega)]
  rw [this, List.take_append_drop, h2]
  conv_lhs => rw [← List.take_append_drop k prog, stepsOf_append]
  rw [List.take_left']
  rw [List.take_append_drop]

/-! ### Peers of the steps are ranks -/

section
variable {c : Cfg} {conn : Int × Int → Conn} (hn : Net c conn) {p : Int × Int}
  (hp : IsRank c p)
include hn hp

theorem sent_peer {x : Cmd} {d : Int} {t : Nat}
    (h : 0 < sentOn (cmdSteps c (conn p) x) d t) : ∃ q, IsRank c q ∧ d = rankAt c q := by
  cases x with
  | wait i => simp [sentOn, cmdSteps] at h
  | send j =>
    unfold sentOn at h
    rw [steps_are_sends c (conn p) j false (fun _ => (0 : Nat))
      ⟨fun _ => 0, fun _ => 0, fun _ => 0, fun _ => 0⟩, List.count_pos_iff] at h
    obtain ⟨m, hm, e⟩ := List.mem_map.1 h
    obtain ⟨q, hq, e'⟩ := (C18_peers_exist c conn hn j false (fun _ => (0 : Nat))
      ⟨fun _ => 0, fun _ => 0, fun _ => 0, fun _ => 0⟩ p hp).1 m hm
    exact ⟨q, hq, (congrArg Prod.fst e).symm.trans e'⟩

theorem posted_peer {x : Cmd} {d : Int} {t : Nat}
    (h : 0 < postedOn (cmdSteps c (conn p) x) d t) : ∃ q, IsRank c q ∧ d = rankAt c q := by
  cases x with
  | wait i => simp [postedOn, cmdSteps] at h
  | send j =>
    unfold postedOn at h
    rw [steps_are_recvs c (conn p) j, List.count_pos_iff] at h
    obtain ⟨m, hm, e⟩ := List.mem_map.1 h
    obtain ⟨q, hq, e'⟩ := (C18_peers_exist c conn hn j false (fun _ => (0 : Nat))
      ⟨fun _ => 0, fun _ => 0, fun _ => 0, fun _ => 0⟩ p hp).2 m hm
    exact ⟨q, hq, (congrArg Prod.fst e).symm.trans e'⟩

theorem step_peer {prog : List Cmd} {n t : Nat} {d : Int}
    (h : (stepsOf c (conn p) prog)[n]? = some (.send (some (d, t)))) :
    ∃ q, IsRank c q ∧ d = rankAt c q := by
  have hm := List.mem_of_getElem? h
  unfold stepsOf at hm
  obtain ⟨x, _, hx⟩ := List.mem_flatMap.1 hm
  apply sent_peer hn hp (x := x) (t := t)
  unfold sentOn
  rw [List.count_pos_iff, List.mem_flatMap]
  exact ⟨_, hx, by simp⟩

/-- The rank that is furthest behind can always go on. -/
theorem slowest_enabled (async : Bool) (prog : List Cmd) (hw : WellFormed prog) (pc : Pcs)
    (hmin : ∀ r, IsRank c r → pc p ≤ pc r) (hlt : pc p < (stepsOf c (conn p) prog).length) :
    Enabled c conn async prog pc p := by
  have hsome : (stepsOf c (conn p) prog)[pc p]? = some ((stepsOf c (conn p) prog)[pc p]) :=
    List.getElem?_eq_getElem hlt
  unfold Enabled
  simp only
  cases hst : (stepsOf c (conn p) prog)[pc p] with
  | post rs => rw [hsome, hst]; trivial
  | send m =>
    cases m with
    | none => rw [hsome, hst]; trivial
    | some dt =>
      obtain ⟨d, t⟩ := dt
      rw [hst] at hsome
      rw [hsome]
      simp only
      right
      obtain ⟨q, hq, rfl⟩ := step_peer hn hp hsome
      rw [pos_of_rank hn.sizes hq]
      exact Nat.lt_of_lt_of_le (send_ready hn hp hq prog (pc p) t hsome)
        (postedOn_take_mono _ _ _ (hmin q hq))
  | wait i =>
    rw [hst] at hsome
    rw [hsome]
    simp only
    constructor
    · intro r t hpos
      have : ∃ q, IsRank c q ∧ r = rankAt c q := by
        cases hi : prog[i]? with
        | none => rw [hi] at hpos; simp [postedOn] at hpos
        | some x => rw [hi] at hpos; exact posted_peer hn hp hpos
      obtain ⟨q, hq, rfl⟩ := this
      rw [pos_of_rank hn.sizes hq, ← prog_balanced hn hq hp (prog.take (i + 1)) t]
      obtain ⟨rest, e⟩ := take_wait c (conn p) prog hw (pc p) i hsome (conn q)
      refine Nat.le_trans ?_ (sentOn_take_mono _ _ _ (hmin q hq))
      rw [e, sentOn_append]; omega
    · intro _ d t hpos
      have : ∃ q, IsRank c q ∧ d = rankAt c q := by
        cases hi : prog[i]? with
        | none => rw [hi] at hpos; simp [sentOn] at hpos
        | some x => rw [hi] at hpos; exact sent_peer hn hp hpos
      obtain ⟨q, hq, rfl⟩ := this
      rw [pos_of_rank hn.sizes hq, prog_balanced hn hp hq (prog.take (i + 1)) t]
      obtain ⟨rest, e⟩ := take_wait c (conn p) prog hw (pc p) i hsome (conn q)
      refine Nat.le_trans ?_ (postedOn_take_mono _ _ _ (hmin q hq))
      rw [e, postedOn_append]; omega

end

/-! ### The properties -/

/-- All ranks have come to the end of the program. -/
def Finished (c : Cfg) (conn : Int × Int → Conn) (prog : List Cmd) (pc : Pcs) : Prop :=
  ∀ p, IsRank c p → (stepsOf c (conn p) prog).length ≤ pc p

/-- **C43.** No deadlock: on a symmetric network, whatever program of communications the
ranks run (any number outstanding at a time), whatever steps they have done so far in whatever
interleaving, with blocking or non-blocking sends – unless all ranks have finished, there is
a rank whose next step MPI guarantees to complete, without relying on buffering. -/
theorem C43_no_deadlock (c : Cfg) (conn : Int × Int → Conn) (hn : Net c conn) (async : Bool)
    (prog : List Cmd) (hw : WellFormed prog) (pc : Pcs) (hnf : ¬ Finished c conn prog pc) :
    ∃ p, IsRank c p ∧ Enabled c conn async prog pc p := by
  unfold Finished at hnf
  push Not at hnf
  obtain ⟨p0, hp0, hlt0⟩ := hnf
  -- a rank furthest behind
  have key : ∃ p, IsRank c p ∧ ∀ r, IsRank c r → pc p ≤ pc r := by
    have wf : ∀ n, ∀ p, IsRank c p → pc p ≤ n → ∃ p, IsRank c p ∧ ∀ r, IsRank c r → pc p ≤ pc r := by
      intro n
      induction n with
      | zero => intro p hp h0; exact ⟨p, hp, fun r _ => by omega⟩
      | succ n ih =>
        intro p hp hpn
        by_cases hall : ∀ r, IsRank c r → pc p ≤ pc r
        · exact ⟨p, hp, hall⟩
        · push Not at hall
          obtain ⟨r, hr, hlt⟩ := hall
          exact ih r hr (by omega)
    exact wf (pc p0) p0 hp0 (Nat.le_refl _)
  obtain ⟨p, hp, hmin⟩ := key
  refine ⟨p, hp, slowest_enabled hn hp async prog hw pc hmin ?_⟩
  have := hmin p0 hp0
  rw [stepsOf_length c (conn p) (conn p0)]
  omega

/-- One step of some rank: it is enabled, or it is a send that MPI happens to buffer. -/
def Next (c : Cfg) (conn : Int × Int → Conn) (async : Bool) (prog : List Cmd) (pc pc' : Pcs) :
    Prop :=
  ∃ p, IsRank c p ∧ pc p < (stepsOf c (conn p) prog).length ∧
    (Enabled c conn async prog pc p ∨
      ∃ m, (stepsOf c (conn p) prog)[pc p]? = some (.send m)) ∧
    pc' = Function.update pc p (pc p + 1)

/-- A run of `n` steps. -/
inductive Run (c : Cfg) (conn : Int × Int → Conn) (async : Bool) (prog : List Cmd) :
    Nat → Pcs → Pcs → Prop
  | refl (pc) : Run c conn async prog 0 pc pc
  | step {n pc pc' pc''} (h : Run c conn async prog n pc pc')
      (s : Next c conn async prog pc' pc'') : Run c conn async prog (n + 1) pc pc''

/-- **C43.** Every run ends, and ends well: from the start no run has more than (number of
ranks) × (steps of the program) steps, and a run that cannot be continued has all ranks
finished. -/
theorem C43_every_run_completes (c : Cfg) (conn : Int × Int → Conn) (hn : Net c conn)
    (async : Bool) (prog : List Cmd) (hw : WellFormed prog) (n : Nat) (pc : Pcs)
    (hr : Run c conn async prog n (fun _ => 0) pc) :
    (n : Int) ≤ c.NXPE * c.NYPE * (stepsOf c (conn (0, 0)) prog).length ∧
    ((∀ pc', ¬ Next c conn async prog pc pc') → Finished c conn prog pc) := by
  constructor
  · let R : Finset (Int × Int) := Finset.Ico 0 c.NXPE ×ˢ Finset.Ico 0 c.NYPE
    have hR : ∀ p, p ∈ R ↔ IsRank c p := by
      intro p
      simp only [R, Finset.mem_product, Finset.mem_Ico, IsRank]
      exact ⟨fun h => ⟨h.1.1, h.1.2, h.2.1, h.2.2⟩, fun h => ⟨⟨h.1, h.2.1⟩, h.2.2.1, h.2.2.2⟩⟩
    have inv : ∀ {n : Nat} {pc0 pc : Pcs}, Run c conn async prog n pc0 pc → pc0 = (fun _ => 0) →
        (∑ p ∈ R, pc p = n) ∧
        ∀ p, pc p ≤ (stepsOf c (conn (0, 0)) prog).length := by
      intro n pc0 pc h
      induction h with
      | refl pc => rintro rfl; exact ⟨by simp, fun p => Nat.zero_le _⟩
      | step h s ih =>
        intro e
        obtain ⟨i1, i2⟩ := ih e
        obtain ⟨p, hp, hlt, _, rfl⟩ := s
        constructor
        · rw [Finset.sum_update_of_mem ((hR p).2 hp)]
          rw [← i1, ← Finset.add_sum_erase _ _ ((hR p).2 hp), Finset.sdiff_singleton_eq_erase]
          omega
        · intro q
          by_cases hq : q = p
          · subst hq
            rw [Function.update_self, stepsOf_length c (conn (0, 0)) (conn q)]; exact hlt
          · rw [Function.update_of_ne hq]; exact i2 q
    obtain ⟨i1, i2⟩ := inv hr rfl
    rw [← i1]
    have hle := Finset.sum_le_card_nsmul R pc _ (fun p _ => i2 p)
    have hcard : (R.card : Int) = c.NXPE * c.NYPE := by
      simp only [R, Finset.card_product, Int.card_Ico, Int.sub_zero, Nat.cast_mul]
      have := hn.sizes.nxpe
      have := hn.sizes.nype
      rw [Int.toNat_of_nonneg (by omega), Int.toNat_of_nonneg (by omega)]
    rw [← hcard]
    have : ((∑ p ∈ R, pc p : Nat) : Int) ≤ ((R.card • (stepsOf c (conn (0, 0)) prog).length : Nat) : Int) :=
      Int.ofNat_le.2 hle
    rw [smul_eq_mul, Nat.cast_mul] at this
    exact this
  · intro hstuck
    by_contra hnf
    obtain ⟨p, hp, hen⟩ := C43_no_deadlock c conn hn async prog hw pc hnf
    have hlt : pc p < (stepsOf c (conn p) prog).length := by
      by_contra hge
      have e : (stepsOf c (conn p) prog)[pc p]? = none := List.getElem?_eq_none (by omega)
      unfold Enabled at hen
      simp only [e] at hen
    exact hstuck _ ⟨p, hp, hlt, Or.inl hen, rfl⟩

/-- Two communications outstanding at once, waited for out of order, on the double null of
`ConnWitness`. -/
example : WellFormed [.send ⟨[⟨0, true⟩], 4, true, true, false⟩,
    .send ⟨[⟨1, true⟩], 4, false, true, false⟩, .wait 1, .wait 0] ∧
    Net doubleNull (connOf doubleNull) :=
  ⟨by
    intro k i h
    have : k < 4 := by
      by_contra hk
      rw [List.getElem?_eq_none (by simpa using hk)] at h
      cases h
    have : k = 0 ∨ k = 1 ∨ k = 2 ∨ k = 3 := by omega
    rcases this with rfl | rfl | rfl | rfl <;> simp at h <;> omega,
   net_of_layout _ doubleNull_layout⟩

end Verif.Comm
