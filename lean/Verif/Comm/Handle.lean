/-
C40: communication handles and their buffers.

Models `BoutMesh::get_handle`, `free_handle` (`src/mesh/impls/bout/boutmesh.cxx` L2117-2183),
and how `send`, `sendX`, `sendY`, `irecvXIn`, `irecvXOut` and `wait` (L1133-1467, L1518-1550)
use them.

A handle is identified by its address (a natural number).  The eight buffers of a handle come
in two groups of four that are always reallocated together, so a handle has two buffer sizes.
`MPI_Request request[6]` is represented by the list of slots with an uncompleted receive.
Left out: `overlapHandleMemory` (a testing utility) and `clear_handles` (destructor only).
-/
import Verif.Comm.Final

namespace Verif.Comm
open Verif.Mesh

/-- `struct CommHandle`, `boutmesh.hxx` L406-427.  `xbufflen`, `ybufflen` are the lengths
the handle believes in, `xsize`, `ysize` the real sizes of the buffer arrays. -/
structure Handle where
  xbufflen : Int
  ybufflen : Int
  xsize : Int
  ysize : Int
  in_progress : Bool
  include_x_corners : Bool
  has_y_communication : Bool
  vars : List Var
  requests : List Nat
deriving Repr, DecidableEq

/-- The handles of a mesh: `comm_list`, and the memory with the next free address. -/
structure Pool where
  comm_list : List Nat
  mem : Nat → Option Handle
  next : Nat

/-- No handles yet. -/
def Pool.empty : Pool := ⟨[], fun _ => none, 0⟩

/-- Write a handle. -/
def Pool.set (p : Pool) (a : Nat) (h : Handle) : Pool :=
  { p with mem := fun b => if b = a then some h else p.mem b }

/-- Reuse of a handle from the list, `boutmesh.cxx` L2151-2174: enlarge the buffers if
needed, reset the flags. -/
def Handle.reuse (h : Handle) (xlen ylen : Int) : Handle :=
  let h := if h.ybufflen < ylen then { h with ysize := ylen, ybufflen := ylen } else h
  let h := if h.xbufflen < xlen then { h with xsize := xlen, xbufflen := xlen } else h
  { h with in_progress := false, include_x_corners := false,
           has_y_communication := false, vars := [] }

/-- `BoutMesh::get_handle`, `boutmesh.cxx` L2117-2177.  A new handle does not initialise
`include_x_corners` and `has_y_communication`: `junk` is what is found there.  `none` stands
for following a dangling pointer. -/
def get_handle (junk : Bool × Bool) (xlen ylen : Int) (p : Pool) : Option (Nat × Pool) :=
  match p.comm_list with
  | [] =>
    let h : Handle := ⟨xlen, ylen, if xlen > 0 then xlen else 0, if ylen > 0 then ylen else 0,
      false, junk.1, junk.2, [], []⟩
    some (p.next, { (p.set p.next h) with next := p.next + 1 })
  | a :: rest =>
    match p.mem a with
    | none => none
    | some h => some (a, { (p.set a (h.reuse xlen ylen)) with comm_list := rest })

/-- `BoutMesh::free_handle`, `boutmesh.cxx` L2179-2182. -/
def free_handle (a : Nat) (p : Pool) : Option Pool :=
  match p.mem a with
  | none => none
  | some h => some { (p.set a { h with vars := [] }) with comm_list := a :: p.comm_list }

/-- The calls that start a communication. -/
inductive Start
  /-- `send(g)` -/
  | send (vars : List Var)
  /-- `sendX(g)`; `corners` is `include_corner_cells and not disable_corners` -/
  | sendX (vars : List Var) (corners : Bool)
  /-- `sendY(g)` -/
  | sendY (vars : List Var)
  /-- `irecvXIn` / `irecvXOut`, where they do not return `nullptr` -/
  | irecvX
deriving Repr, DecidableEq

/-- What is exchanged by a call. -/
def Start.job (nz : Nat) : Start → Job
  | .send vars => ⟨vars, nz, true, true, false⟩
  | .sendX vars corners => ⟨vars, nz, true, false, corners⟩
  | .sendY vars => ⟨vars, nz, false, true, false⟩
  | .irecvX => ⟨[], nz, false, false, false⟩

/-- The buffer lengths asked for: `send` L1144-1148, `sendX` L1166-1169, `sendY` L1225-1228,
`irecvX*` L1526, L1544. -/
def Start.lens (c : Cfg) (nz : Nat) : Start → Int × Int
  | .send vars => (msg_len nz vars 0 c.MXG 0 c.MYSUB, msg_len nz vars 0 c.LocalNx 0 c.MYG)
  | .sendX vars corners =>
    (msg_len nz vars 0 c.MXG 0 (if corners then c.LocalNy else c.MYSUB), 0)
  | .sendY vars => (0, msg_len nz vars 0 c.LocalNx 0 c.MYG)
  | .irecvX => (0, 0)

/-- The receive requests it posts (`request[0]` for `irecvX*`). -/
def Start.slots (c : Cfg) (s : Conn) (nz : Nat) : Start → List Nat
  | .irecvX => [0]
  | st => postedSlots c s (st.job nz)

/-- The fields of the handle set by the call.  (Posting on a request that is still active
loses it, so the new requests are added to those that are there.) -/
def Start.mark (c : Cfg) (s : Conn) (nz : Nat) (st : Start) (h : Handle) : Handle :=
  { h with vars := (st.job nz).vars, in_progress := true,
           requests := h.requests ++ st.slots c s nz,
           include_x_corners := match st with
            | .send _ => false
            | .sendX _ corners => corners
            | _ => h.include_x_corners,
           has_y_communication := match st with
            | .send _ => true
            | .sendY _ => true
            | _ => h.has_y_communication }

/-- The calls themselves, on handles: take a handle, store the fields, post the receives,
mark as in progress. -/
def Start.run (c : Cfg) (s : Conn) (nz : Nat) (junk : Bool × Bool) (st : Start) (p : Pool) :
    Option (Nat × Pool) :=
  match get_handle junk (st.lens c nz).1 (st.lens c nz).2 p with
  | none => none
  | some (a, p) =>
    match p.mem a with
    | none => none
    | some h => some (a, p.set a (st.mark c s nz h))

/-- What `wait` does to the requests, `boutmesh.cxx` L1336-1388: if the group is empty only
`request[0]` is waited for. -/
def Handle.complete (h : Handle) : Handle :=
  { h with requests := if h.vars = [] then h.requests.filter (· ≠ 0) else [] }

/-- `BoutMesh::wait`, `boutmesh.cxx` L1315-1467, on a non-null handle: returns the code and
the pool. -/
def wait (a : Nat) (p : Pool) : Option (Nat × Pool) :=
  match p.mem a with
  | none => none
  | some h =>
    if h.in_progress = false then some (2, p)
    else (free_handle a (p.set a h.complete)).map (fun p => (0, p))

/-- What the users of the API may do, and the pools that result: start a communication of a
kind in `ok`, or wait for one that is outstanding (was started, not waited for since).  The
list holds the handles outstanding. -/
inductive Reach (c : Cfg) (s : Conn) (nz : Nat) (ok : Start → Prop) : Pool → List Nat → Prop
  | init : Reach c s nz ok Pool.empty []
  | start {p out a p'} (st : Start) (hok : ok st) (junk : Bool × Bool) (h : Reach c s nz ok p out)
      (hr : st.run c s nz junk p = some (a, p')) : Reach c s nz ok p' (a :: out)
  | wait {p out p' code} (a : Nat) (h : Reach c s nz ok p out) (ha : a ∈ out)
      (hr : wait a p = some (code, p')) : Reach c s nz ok p' (out.erase a)

/-! ### The invariant -/

/-- Everything that holds of a reachable pool. -/
structure Inv (p : Pool) (out : List Nat) : Prop where
  nodup : (p.comm_list ++ out).Nodup
  all : ∀ a, a < p.next ↔ a ∈ p.comm_list ++ out
  live : ∀ a, a ∈ p.comm_list ++ out → ∃ h, p.mem a = some h ∧ h.xbufflen ≤ h.xsize ∧
    h.ybufflen ≤ h.ysize
  busy : ∀ a ∈ out, ∃ h, p.mem a = some h ∧ h.in_progress = true

theorem Inv.empty : Inv Pool.empty [] :=
  ⟨by simp [Pool.empty], by simp [Pool.empty], by simp [Pool.empty], by simp⟩

theorem reuse_spec (h : Handle) (xlen ylen : Int) (x0 : h.xbufflen ≤ h.xsize)
    (y0 : h.ybufflen ≤ h.ysize) :
    xlen ≤ (h.reuse xlen ylen).xsize ∧ ylen ≤ (h.reuse xlen ylen).ysize ∧
    (h.reuse xlen ylen).xbufflen ≤ (h.reuse xlen ylen).xsize ∧
    (h.reuse xlen ylen).ybufflen ≤ (h.reuse xlen ylen).ysize := by
  by_cases hy : h.ybufflen < ylen <;> by_cases hx : h.xbufflen < xlen <;>
    simp [Handle.reuse, hx, hy] <;> omega

/-- What `get_handle` gives in an invariant state. -/
theorem get_spec {p : Pool} {out : List Nat} (hi : Inv p out) (junk : Bool × Bool)
    (xlen ylen : Int) :
    ∃ a p' h, get_handle junk xlen ylen p = some (a, p') ∧ a ∉ out ∧ p'.mem a = some h ∧
      (∀ b, b ≠ a → p'.mem b = p.mem b) ∧ xlen ≤ h.xsize ∧ ylen ≤ h.ysize ∧
      h.xbufflen ≤ h.xsize ∧ h.ybufflen ≤ h.ysize ∧
      h.in_progress = false ∧ h.vars = [] ∧ (p'.comm_list ++ a :: out).Nodup ∧
      (∀ b, b < p'.next ↔ b ∈ p'.comm_list ++ a :: out) ∧
      (∀ h0, p.mem a = some h0 → a ∈ p.comm_list → h.requests = h0.requests) ∧
      (a ∉ p.comm_list → h.requests = []) := by
  obtain ⟨nd, all, live, busy⟩ := hi
  cases hl : p.comm_list with
  | nil =>
    rw [hl] at nd all live
    have fresh : p.next ∉ out := by
      intro hm
      have := (all p.next).2 (by simpa using hm)
      omega
    refine ⟨p.next, _, _, by unfold get_handle; rw [hl], fresh, by simp [Pool.set]; rfl, ?_, ?_, ?_,
      ?_, ?_, rfl, rfl, ?_, ?_, ?_, ?_⟩
    · intro b hb; simp [Pool.set, hb]
    · simp only; split <;> omega
    · simp only; split <;> omega
    · simp only; split <;> omega
    · simp only; split <;> omega
    · simpa [Pool.set, hl] using ⟨fresh, by simpa using nd⟩
    · intro b
      have := all b
      simp only [Pool.set, hl, List.nil_append, List.mem_cons] at this ⊢
      rw [← this]
      omega
    · intro _ _ hm; cases hm
    · intro _; rfl
  | cons a rest =>
    rw [hl] at nd all live
    obtain ⟨h0, m0, x0, y0⟩ := live a (by simp)
    have nd' := nd
    rw [List.cons_append, List.nodup_cons, List.mem_append, not_or] at nd'
    refine ⟨a, { (p.set a (h0.reuse xlen ylen)) with comm_list := rest }, h0.reuse xlen ylen,
      by unfold get_handle; rw [hl]; simp only [m0], nd'.1.2,
      by simp [Pool.set], ?_, ?_, ?_, ?_, ?_, rfl, rfl, ?_, ?_, ?_, ?_⟩
    · intro b hb; simp [Pool.set, hb]
    · exact (reuse_spec h0 xlen ylen x0 y0).1
    · exact (reuse_spec h0 xlen ylen x0 y0).2.1
    · exact (reuse_spec h0 xlen ylen x0 y0).2.2.1
    · exact (reuse_spec h0 xlen ylen x0 y0).2.2.2
    · simp only
      rw [List.nodup_middle]; exact nd
    · intro b
      have := all b
      simp only [Pool.set, List.cons_append, List.mem_cons, List.mem_append] at this ⊢
      rw [this]
      tauto
    · intro h1 m1 _
      rw [m0] at m1
      cases m1
      unfold Handle.reuse
      simp only
      split <;> split <;> rfl
    · intro hm; simp at hm

/-- What starting a communication gives in an invariant state. -/
theorem start_spec {c : Cfg} {s : Conn} {nz : Nat} {p : Pool} {out : List Nat} (hi : Inv p out)
    (junk : Bool × Bool) (st : Start) :
    ∃ a p' h, st.run c s nz junk p = some (a, p') ∧ a ∉ out ∧ p'.mem a = some h ∧
      (∀ b, b ≠ a → p'.mem b = p.mem b) ∧ (st.lens c nz).1 ≤ h.xsize ∧ (st.lens c nz).2 ≤ h.ysize ∧
      h.vars = (st.job nz).vars ∧ Inv p' (a :: out) ∧
      (∀ h0, p.mem a = some h0 → a ∈ p.comm_list → h.requests = h0.requests ++ st.slots c s nz) ∧
      (a ∉ p.comm_list → h.requests = st.slots c s nz) := by
  obtain ⟨a, p1, h, g1, g2, g3, g4, g5, g6, g7, g8, g9, g10, g11, g12, g13, g14⟩ :=
    get_spec hi junk (st.lens c nz).1 (st.lens c nz).2
  obtain ⟨h', e1, e2, e3, e4, e5, e6, e7, e8⟩ : ∃ h' : Handle, st.mark c s nz h = h' ∧
      h'.xsize = h.xsize ∧ h'.ysize = h.ysize ∧ h'.xbufflen = h.xbufflen ∧
      h'.ybufflen = h.ybufflen ∧ h'.vars = (st.job nz).vars ∧ h'.in_progress = true ∧
      h'.requests = h.requests ++ st.slots c s nz :=
    ⟨_, rfl, rfl, rfl, rfl, rfl, rfl, rfl, rfl⟩
  have hrun : st.run c s nz junk p = some (a, p1.set a h') := by
    unfold Start.run
    rw [g1]
    simp only [g3, e1]
  refine ⟨a, p1.set a h', h', hrun, g2, by simp [Pool.set], ?_, by rw [e2]; exact g5,
    by rw [e3]; exact g6, e6, ?_, ?_, ?_⟩
  · intro b hb; simp only [Pool.set, if_neg hb]; exact g4 b hb
  · refine ⟨g11, g12, ?_, ?_⟩
    · intro b hb
      by_cases hba : b = a
      · subst hba
        exact ⟨h', by simp [Pool.set], by rw [e4, e2]; exact g7, by rw [e5, e3]; exact g8⟩
      · have hm : b ∈ p.comm_list ++ out := by
          have hlt := (g12 b).2 hb
          rw [← hi.all]
          -- the address was known before
          by_contra hn
          have hb' := hb
          rw [List.mem_append, List.mem_cons] at hb'
          unfold get_handle at g1
          cases hl : p.comm_list with
          | nil =>
            rw [hl] at g1
            simp only [Option.some.injEq, Prod.mk.injEq] at g1
            obtain ⟨r1, r2⟩ := g1
            rw [← r2] at hlt
            simp only [Pool.set] at hlt
            omega
          | cons a0 rest =>
            rw [hl] at g1
            cases hm0 : p.mem a0 with
            | none => simp only [hm0] at g1; cases g1
            | some h0 =>
              simp only [hm0, Option.some.injEq, Prod.mk.injEq] at g1
              obtain ⟨r1, r2⟩ := g1
              rw [← r2] at hlt
              simp only [Pool.set] at hlt
              omega
        obtain ⟨hb0, m0, x0, y0⟩ := hi.live b hm
        refine ⟨hb0, ?_, x0, y0⟩
        simp only [Pool.set, if_neg hba]
        rw [g4 b hba, m0]
    · intro b hb
      by_cases hba : b = a
      · subst hba; exact ⟨h', by simp [Pool.set], e7⟩
      · have hb0 : b ∈ out := by
          rcases List.mem_cons.1 hb with hb | hb
          · exact absurd hb hba
          · exact hb
        obtain ⟨hh, m0, i0⟩ := hi.busy b hb0
        refine ⟨hh, ?_, i0⟩
        simp only [Pool.set, if_neg hba]
        rw [g4 b hba, m0]
  · intro h0 m0 hl; rw [e8, g13 h0 m0 hl]
  · intro hl; rw [e8, g14 hl]; rfl

/-- What waiting gives in an invariant state. -/
theorem wait_spec {p : Pool} {out : List Nat} (hi : Inv p out) {a : Nat} (ha : a ∈ out) :
    ∃ p' h h', wait a p = some (0, p') ∧ p.mem a = some h ∧ p'.mem a = some h' ∧
      (∀ b, b ≠ a → p'.mem b = p.mem b) ∧ Inv p' (out.erase a) ∧
      p'.comm_list = a :: p.comm_list ∧
      h'.requests = (if h.vars = [] then h.requests.filter (· ≠ 0) else []) := by
  obtain ⟨h, m0, i0⟩ := hi.busy a ha
  obtain ⟨h1, m1, x1, y1⟩ := hi.live a (List.mem_append_right _ ha)
  rw [m0] at m1; cases m1
  obtain ⟨hw, e1, e2, e3, e4, e5⟩ : ∃ hw : Handle, h.complete = hw ∧ hw.xsize = h.xsize ∧
      hw.ysize = h.ysize ∧ hw.xbufflen = h.xbufflen ∧ hw.ybufflen = h.ybufflen :=
    ⟨_, rfl, rfl, rfl, rfl, rfl⟩
  have e6 : hw.requests = (if h.vars = [] then h.requests.filter (· ≠ 0) else []) := by
    rw [← e1]; rfl
  have outnd : out.Nodup := (List.nodup_append.1 hi.nodup).2.1
  have alive : a ∈ p.comm_list ++ out := List.mem_append_right _ ha
  have perm : (a :: p.comm_list ++ out.erase a).Perm (p.comm_list ++ out) := by
    have h1 := List.perm_cons_erase ha
    refine List.Perm.trans ?_ (List.Perm.append_left p.comm_list h1.symm)
    rw [List.cons_append]
    exact List.perm_middle.symm
  have memeq : ∀ b, (((p.set a hw).set a { hw with vars := [] })).mem b
      = if b = a then some { hw with vars := [] } else p.mem b := by
    intro b
    simp only [Pool.set]
    by_cases hb : b = a
    · simp [hb]
    · simp [hb]
  refine ⟨{ ((p.set a hw).set a { hw with vars := [] }) with comm_list := a :: p.comm_list }, h,
    { hw with vars := [] }, ?_, m0, ?_, ?_, ?_, rfl, e6⟩
  · unfold wait
    rw [m0]
    simp only [i0, Bool.true_eq_false, if_false]
    rw [e1]
    unfold free_handle
    simp [Pool.set]
  · simp [Pool.set]
  · intro b hb
    have := memeq b
    rw [if_neg hb] at this
    exact this
  · refine ⟨?_, ?_, ?_, ?_⟩
    · exact perm.nodup_iff.2 hi.nodup
    · intro b
      rw [perm.mem_iff, ← hi.all]
      rfl
    · intro b hb
      have hb' := perm.mem_iff.1 hb
      have := memeq b
      by_cases hba : b = a
      · rw [if_pos hba] at this
        exact ⟨_, this, by simp only [e4, e2]; exact x1, by simp only [e5, e3]; exact y1⟩
      · rw [if_neg hba] at this
        obtain ⟨hb0, m2, x2, y2⟩ := hi.live b hb'
        exact ⟨hb0, by rw [← m2]; exact this, x2, y2⟩
    · intro b hb
      have hbo := List.mem_of_mem_erase hb
      have hba : b ≠ a := by
        rintro rfl
        exact (List.Nodup.not_mem_erase outnd) hb
      have := memeq b
      rw [if_neg hba] at this
      obtain ⟨hh, m2, i2⟩ := hi.busy b hbo
      exact ⟨hh, by rw [← m2]; exact this, i2⟩

theorem reach_inv {c : Cfg} {s : Conn} {nz : Nat} {ok : Start → Prop} {p : Pool}
    {out : List Nat} (h : Reach c s nz ok p out) : Inv p out := by
  induction h with
  | init => exact Inv.empty
  | start st _ junk _ hr ih =>
    obtain ⟨a, p', hh, r1, _, _, _, _, _, _, r2, _⟩ := start_spec (c := c) (s := s) (nz := nz) ih junk st
    rw [hr] at r1
    obtain ⟨rfl, rfl⟩ := Prod.mk.inj (Option.some.inj r1)
    exact r2
  | wait a _ ha hr ih =>
    obtain ⟨p', hh, h', r1, _, _, _, r2, _⟩ := wait_spec ih ha
    rw [hr] at r1
    obtain ⟨_, rfl⟩ := Prod.mk.inj (Option.some.inj r1)
    exact r2

/-! ### Where messages lie in the buffers -/

/-- Values per `(x, y)`. -/
def weight (nz : Nat) (vars : List Var) : Int := (vars.map fun v => ((v.nz nz : Nat) : Int)).sum

theorem weight_nonneg (nz : Nat) (vars : List Var) : 0 ≤ weight nz vars := by
  unfold weight
  induction vars with
  | nil => simp
  | cons v l ih => simp only [List.map_cons, List.sum_cons]; omega

theorem msg_len_closed (nz : Nat) (vars : List Var) (a b c d : Int) :
    msg_len nz vars a b c d = (b - a) * (d - c) * weight nz vars := by
  have key : ∀ (l : List Var) (x : Int),
      l.foldl (fun len v => if v.is3D then len + (b - a) * (d - c) * nz * 1
        else len + (b - a) * (d - c) * 1) x = x + (b - a) * (d - c) * weight nz l := by
    intro l
    induction l with
    | nil => intro x; simp [weight]
    | cons v l ih =>
      intro x
      rw [List.foldl_cons, ih]
      unfold weight Var.nz
      simp only [List.map_cons, List.sum_cons]
      by_cases hv : v.is3D = true
      · simp only [hv, if_true]; ring
      · simp only [hv, if_false, Bool.false_eq_true]; push_cast; ring
  have := key vars 0
  unfold msg_len
  rw [this]; ring

/-- Two adjacent column ranges. -/
theorem msg_len_add (nz : Nat) (vars : List Var) (a b x c d : Int) :
    msg_len nz vars a b c d + msg_len nz vars b x c d = msg_len nz vars a x c d := by
  simp only [msg_len_closed]; ring

theorem msg_len_nonneg (nz : Nat) (vars : List Var) {a b c d : Int} (h1 : a ≤ b) (h2 : c ≤ d) :
    0 ≤ msg_len nz vars a b c d := by
  rw [msg_len_closed]
  exact Int.mul_nonneg (Int.mul_nonneg (by omega) (by omega)) (weight_nonneg nz vars)

theorem packAt_fits {α : Type} (off : Nat) (nz : Nat) (vars : List Var) (xge xlt yge ylt : Int)
    (hx : xge ≤ xlt) (hy : yge ≤ ylt) (store : Cell → α) (b : Nat → α) :
    (packAt off nz vars xge xlt yge ylt store b).len = msg_len nz vars xge xlt yge ylt ∧
    ∀ i : Nat, (off : Int) + msg_len nz vars xge xlt yge ylt ≤ (i : Int) →
      (packAt off nz vars xge xlt yge ylt store b).buf i = b i := by
  obtain ⟨h1, h2⟩ := C20_pack_length nz vars xge xlt yge ylt hx hy store (fun i => b (off + i))
  refine ⟨h1, ?_⟩
  intro i hi
  unfold packAt
  simp only
  have := msg_len_nonneg nz vars hx hy
  by_cases hlt : i < off
  · rw [if_pos hlt]
  · rw [if_neg hlt, h2 (i - off) (by omega)]
    congr 1; omega

/-- Packing and sending one Y side stays within the first `msg_len(0, LocalNx, 0, MYG)`
positions. -/
theorem sendSide_fits {α : Type} (c : Cfg) (hs : Sizes c) (j : Job) (w : Side)
    (h0 : 0 ≤ w.split) (h1 : w.split ≤ c.LocalNx) (yge ylt : Int) (hr : ylt - yge = c.MYG)
    (t1 t2 : Nat) (store : Cell → α) (b : Nat → α) :
    (∀ m ∈ (sendSide c j w yge ylt t1 t2 store b).2,
      (m.off : Int) + m.len ≤ msg_len j.nz j.vars 0 c.LocalNx 0 c.MYG) ∧
    ∀ i : Nat, msg_len j.nz j.vars 0 c.LocalNx 0 c.MYG ≤ (i : Int) →
      (sendSide c j w yge ylt t1 t2 store b).1 i = b i := by
  have g := hs.myg
  have A := msg_len_add j.nz j.vars 0 w.split c.LocalNx 0 c.MYG
  have B0 := msg_len_nonneg j.nz j.vars h0 g
  have C0 := msg_len_nonneg j.nz j.vars h1 g
  have E1 := msg_len_extents j.nz j.vars (a := 0) (b := w.split) (c := yge) (d := ylt)
    (a' := 0) (b' := w.split) (c' := 0) (d' := c.MYG) rfl (by omega)
  have E2 := msg_len_extents j.nz j.vars (a := w.split) (b := c.LocalNx) (c := yge) (d := ylt)
    (a' := w.split) (b' := c.LocalNx) (c' := 0) (d' := c.MYG) rfl (by omega)
  have P1 := packAt_fits 0 j.nz j.vars 0 w.split yge ylt h0 (by omega) store b
  unfold sendSide
  by_cases hi : w.ind ≠ -1
  · simp only [if_pos hi]
    have P2 := packAt_fits (packAt 0 j.nz j.vars 0 w.split yge ylt store b).len j.nz j.vars
      w.split c.LocalNx yge ylt h1 (by omega) store
      (packAt 0 j.nz j.vars 0 w.split yge ylt store b).buf
    by_cases ho : w.outd ≠ -1
    · simp only [if_pos ho]
      constructor
      · intro m hm
        simp only [List.cons_append, List.nil_append, List.mem_cons, List.not_mem_nil,
          or_false] at hm
        rcases hm with rfl | rfl
        · simp only; omega
        · simp only; omega
      · intro i hi'
        rw [P2.2 i (by omega), P1.2 i (by omega)]
    · simp only [if_neg ho]
      constructor
      · intro m hm
        simp only [List.append_nil, List.mem_cons, List.not_mem_nil, or_false] at hm
        rcases hm with rfl
        simp only; omega
      · intro i hi'
        rw [P1.2 i (by omega)]
  · simp only [if_neg hi]
    have P2 := packAt_fits 0 j.nz j.vars w.split c.LocalNx yge ylt h1 (by omega) store b
    by_cases ho : w.outd ≠ -1
    · simp only [if_pos ho]
      constructor
      · intro m hm
        simp only [List.nil_append, List.mem_cons, List.not_mem_nil, or_false] at hm
        rcases hm with rfl
        simp only; omega
      · intro i hi'
        rw [P2.2 i (by omega)]
    · simp only [if_neg ho]
      constructor
      · intro m hm; simp at hm
      · intro i _; trivial

theorem sendXSide_fits {α : Type} (c : Cfg) (hs : Sizes c) (j : Job) (dst : Int)
    (xge xlt : Int) (hr : xlt - xge = c.MXG) (t : Nat) (store : Cell → α) (b : Nat → α) :
    (∀ m ∈ (sendXSide c j dst xge xlt t store b).2, (m.off : Int) + m.len ≤
      msg_len j.nz j.vars 0 c.MXG 0 (if j.corners then c.LocalNy else c.MYSUB)) ∧
    ∀ i : Nat, msg_len j.nz j.vars 0 c.MXG 0 (if j.corners then c.LocalNy else c.MYSUB) ≤ (i : Int) →
      (sendXSide c j dst xge xlt t store b).1 i = b i := by
  have g := hs.mxg
  have gy := hs.myg
  obtain ⟨_, _, _, hM⟩ := hs.split
  have h3 : (xRows c j).2 - (xRows c j).1 = (if j.corners then c.LocalNy else c.MYSUB) - 0 := by
    unfold xRows
    cases j.corners <;> simp
  have h4 : (xRows c j).1 ≤ (xRows c j).2 := by
    unfold xRows Cfg.LocalNy
    cases j.corners <;> simp <;> omega
  have E := msg_len_extents j.nz j.vars (a := xge) (b := xlt) (c := (xRows c j).1)
    (d := (xRows c j).2) (a' := 0) (b' := c.MXG) (c' := 0)
    (d' := if j.corners then c.LocalNy else c.MYSUB) (by omega) h3
  have P := packAt_fits 0 j.nz j.vars xge xlt (xRows c j).1 (xRows c j).2 (by omega) h4 store b
  unfold sendXSide
  by_cases hd : dst ≠ -1
  · simp only [if_pos hd]
    constructor
    · intro m hm
      simp only [List.mem_cons, List.not_mem_nil, or_false] at hm
      subst hm
      simp only; omega
    · intro i hi
      rw [P.2 i (by omega)]
  · simp only [if_neg hd]
    exact ⟨fun m hm => by simp at hm, fun i _ => trivial⟩

/-- Length of a receive buffer. -/
def bufSize (h : Handle) : RBuf → Int
  | .u | .d => h.ysize
  | .i | .o => h.xsize

theorem postSide_fits (c : Cfg) (hs : Sizes c) (j : Job) (w : Side)
    (h0 : 0 ≤ w.split) (h1 : w.split ≤ c.LocalNx) (a b d e : Nat) (rb : RBuf) :
    ∀ r ∈ postSide c j w a b d e rb, r.buf = rb ∧
      (r.off : Int) + r.len ≤ msg_len j.nz j.vars 0 c.LocalNx 0 c.MYG := by
  have g := hs.myg
  have A := msg_len_add j.nz j.vars 0 w.split c.LocalNx 0 c.MYG
  have B0 := msg_len_nonneg j.nz j.vars h0 g
  have C0 := msg_len_nonneg j.nz j.vars h1 g
  intro r hr
  unfold postSide at hr
  simp only [List.mem_append] at hr
  by_cases hi : w.ind ≠ -1
  · simp only [if_pos hi, List.mem_cons, List.not_mem_nil, or_false] at hr
    rcases hr with rfl | hr
    · refine ⟨rfl, ?_⟩
      simp only; omega
    · by_cases ho : w.outd ≠ -1
      · simp only [if_pos ho, List.mem_cons, List.not_mem_nil, or_false] at hr
        subst hr
        refine ⟨rfl, ?_⟩
        simp only; omega
      · simp only [if_neg ho, List.not_mem_nil] at hr
  · simp only [if_neg hi, List.not_mem_nil, false_or] at hr
    by_cases ho : w.outd ≠ -1
    · simp only [if_pos ho, List.mem_cons, List.not_mem_nil, or_false] at hr
      subst hr
      refine ⟨rfl, ?_⟩
      simp only; omega
    · simp only [if_neg ho, List.not_mem_nil] at hr

theorem postX_fits (c : Cfg) (hs : Sizes c) (j : Job) (src : Int) (t slot : Nat) (rb : RBuf) :
    ∀ r ∈ postX c j src t slot rb, r.buf = rb ∧ (r.off : Int) + r.len ≤
      msg_len j.nz j.vars 0 c.MXG 0 (if j.corners then c.LocalNy else c.MYSUB) := by
  have g := hs.mxg
  have gy := hs.myg
  obtain ⟨_, _, _, hM⟩ := hs.split
  have h4 : (0 : Int) ≤ (if j.corners then c.LocalNy else c.MYSUB) := by
    unfold Cfg.LocalNy
    cases j.corners <;> simp <;> omega
  have N := msg_len_nonneg j.nz j.vars g h4
  intro r hr
  unfold postX at hr
  by_cases hd : src ≠ -1
  · simp only [if_pos hd, List.mem_cons, List.not_mem_nil, or_false] at hr
    subst hr
    refine ⟨rfl, ?_⟩
    simp only; omega
  · simp only [if_neg hd, List.not_mem_nil] at hr

theorem memB2 {β : Type} {P : Bool} {l : List β} {y : β}
    (h : y ∈ (if P then l else [])) : P = true ∧ y ∈ l := by
  cases P
  · simp at h
  · exact ⟨rfl, by simpa using h⟩

/-! ## The theorems -/

section
variable {c : Cfg} {s : Conn} {nz : Nat} {ok : Start → Prop} {p : Pool} {out : List Nat}
  (h : Reach c s nz ok p out)
include h

/-- **C40.** After any history of communications started and waited for (each wait for an
outstanding communication), starting a communication succeeds, gives a handle that no
outstanding communication uses, and changes no other handle. -/
theorem C40_handle_not_in_use (st : Start) (junk : Bool × Bool) :
    ∃ a p', st.run c s nz junk p = some (a, p') ∧ a ∉ out ∧ ∀ b, b ≠ a → p'.mem b = p.mem b := by
  obtain ⟨a, p', _, r1, r2, _, r4, _⟩ := start_spec (c := c) (s := s) (nz := nz) (reach_inv h) junk st
  exact ⟨a, p', r1, r2, r4⟩

/-- **C40.** Waiting for an outstanding communication succeeds and changes no other handle. -/
theorem C40_wait_succeeds {a : Nat} (ha : a ∈ out) :
    ∃ p', wait a p = some (0, p') ∧ ∀ b, b ≠ a → p'.mem b = p.mem b := by
  obtain ⟨p', _, _, r1, _, _, r4, _⟩ := wait_spec (reach_inv h) ha
  exact ⟨p', r1, r4⟩

/-- **C40.** No handle is lost or listed twice: the handles ever allocated are, without
repetition, the free ones and the ones in use. -/
theorem C40_no_handle_lost :
    (p.comm_list ++ out).Nodup ∧ ∀ a, a < p.next ↔ a ∈ p.comm_list ++ out :=
  ⟨(reach_inv h).nodup, (reach_inv h).all⟩

/-- **C40.** The buffers of the handle are long enough: every slice of a receive buffer that
a message may land in, every slice of a send buffer that is sent, and every position that
packing writes, lies inside the buffer – also if the handle was used for smaller messages
before. -/
theorem C40_buffers_suffice {α : Type} {conn : Int × Int → Conn} (hn : Net c conn)
    {q : Int × Int} (hq : IsRank c q) (hs : conn q = s) (st : Start) (junk : Bool × Bool)
    (a : Nat) (p' : Pool) (hr : st.run c s nz junk p = some (a, p')) :
    ∃ hd, p'.mem a = some hd ∧ hd.vars = (st.job nz).vars ∧
    (∀ r ∈ recvs c s (st.job nz), (r.off : Int) + r.len ≤ bufSize hd r.buf) ∧
    (∀ (store : Cell → α) (b : Nat → α),
      ((st.job nz).doX = true → ∀ dst, ∀ t,
        ((∀ m ∈ (sendXSide c (st.job nz) dst c.MXG (2 * c.MXG) t store b).2,
            (m.off : Int) + m.len ≤ hd.xsize) ∧
          ∀ i : Nat, hd.xsize ≤ (i : Int) →
            (sendXSide c (st.job nz) dst c.MXG (2 * c.MXG) t store b).1 i = b i) ∧
        ((∀ m ∈ (sendXSide c (st.job nz) dst c.MXSUB (c.MXSUB + c.MXG) t store b).2,
            (m.off : Int) + m.len ≤ hd.xsize) ∧
          ∀ i : Nat, hd.xsize ≤ (i : Int) →
            (sendXSide c (st.job nz) dst c.MXSUB (c.MXSUB + c.MXG) t store b).1 i = b i)) ∧
      ((st.job nz).doY = true → ∀ t t' : Nat,
        ((∀ m ∈ (sendSide c (st.job nz) s.up c.MYSUB (c.MYSUB + c.MYG) t t' store b).2,
            (m.off : Int) + m.len ≤ hd.ysize) ∧
          ∀ i : Nat, hd.ysize ≤ (i : Int) →
            (sendSide c (st.job nz) s.up c.MYSUB (c.MYSUB + c.MYG) t t' store b).1 i = b i) ∧
        ((∀ m ∈ (sendSide c (st.job nz) s.down c.MYG (2 * c.MYG) t t' store b).2,
            (m.off : Int) + m.len ≤ hd.ysize) ∧
          ∀ i : Nat, hd.ysize ≤ (i : Int) →
            (sendSide c (st.job nz) s.down c.MYG (2 * c.MYG) t t' store b).1 i = b i))) := by
  obtain ⟨a', p1, hd, r1, _, r3, _, r5, r6, r7, _, _⟩ :=
    start_spec (c := c) (s := s) (nz := nz) (reach_inv h) junk st
  rw [hr] at r1
  obtain ⟨rfl, rfl⟩ := Prod.mk.inj (Option.some.inj r1)
  have Lx : (st.job nz).doX = true → msg_len (st.job nz).nz (st.job nz).vars 0 c.MXG 0
      (if (st.job nz).corners then c.LocalNy else c.MYSUB) ≤ hd.xsize := by
    intro hx
    cases st with
    | send vars => exact r5
    | sendX vars corners => exact r5
    | sendY vars => cases hx
    | irecvX => cases hx
  have Ly : (st.job nz).doY = true → msg_len (st.job nz).nz (st.job nz).vars 0 c.LocalNx 0 c.MYG
      ≤ hd.ysize := by
    intro hx
    cases st with
    | send vars => exact r6
    | sendX vars corners => cases hx
    | sendY vars => exact r6
    | irecvX => cases hx
  have U := hn.okUp q hq
  have D := hn.okDown q hq
  rw [hs] at U D
  have sz := hn.sizes
  refine ⟨hd, r3, r7, ?_, ?_⟩
  · intro r hr'
    unfold recvs at hr'
    rw [List.mem_append] at hr'
    rcases hr' with hr' | hr'
    · obtain ⟨hx, hr'⟩ := memB2 hr'
      have L := Lx hx
      rcases List.mem_append.1 hr' with hr' | hr'
      · obtain ⟨e, f⟩ := postX_fits c sz _ _ _ _ _ r hr'
        rw [e]; unfold bufSize; simp only; omega
      · obtain ⟨e, f⟩ := postX_fits c sz _ _ _ _ _ r hr'
        rw [e]; unfold bufSize; simp only; omega
    · obtain ⟨hy, hr'⟩ := memB2 hr'
      have L := Ly hy
      rcases List.mem_append.1 hr' with hr' | hr'
      · obtain ⟨e, f⟩ := postSide_fits c sz _ _ U.split0 U.split1 _ _ _ _ _ r hr'
        rw [e]; unfold bufSize; simp only; omega
      · obtain ⟨e, f⟩ := postSide_fits c sz _ _ D.split0 D.split1 _ _ _ _ _ r hr'
        rw [e]; unfold bufSize; simp only; omega
  · intro store b
    constructor
    · intro hx dst t
      have L := Lx hx
      obtain ⟨a1, a2⟩ := sendXSide_fits c sz (st.job nz) dst c.MXG (2 * c.MXG) (by omega) t store b
      obtain ⟨b1, b2⟩ := sendXSide_fits c sz (st.job nz) dst c.MXSUB (c.MXSUB + c.MXG) (by omega) t store b
      exact ⟨⟨fun m hm => le_trans (a1 m hm) L, fun i hi => a2 i (le_trans L hi)⟩,
        ⟨fun m hm => le_trans (b1 m hm) L, fun i hi => b2 i (le_trans L hi)⟩⟩
    · intro hy t t'
      have L := Ly hy
      obtain ⟨a1, a2⟩ := sendSide_fits c sz (st.job nz) s.up U.split0 U.split1 c.MYSUB
        (c.MYSUB + c.MYG) (by omega) t t' store b
      obtain ⟨b1, b2⟩ := sendSide_fits c sz (st.job nz) s.down D.split0 D.split1 c.MYG
        (2 * c.MYG) (by omega) t t' store b
      exact ⟨⟨fun m hm => le_trans (a1 m hm) L, fun i hi => a2 i (le_trans L hi)⟩,
        ⟨fun m hm => le_trans (b1 m hm) L, fun i hi => b2 i (le_trans L hi)⟩⟩

end

/-- A communication of at least one field, or a single receive. -/
def NonEmpty (nz : Nat) (st : Start) : Prop := st = .irecvX ∨ (st.job nz).vars ≠ []

theorem reach_requests {c : Cfg} {s : Conn} {nz : Nat} {p : Pool} {out : List Nat}
    (h : Reach c s nz (NonEmpty nz) p out) :
    (∀ a ∈ p.comm_list, ∀ hd, p.mem a = some hd → hd.requests = []) ∧
    (∀ a ∈ out, ∀ hd, p.mem a = some hd → hd.vars = [] → hd.requests = [0]) := by
  induction h with
  | init => exact ⟨fun a ha => by simp [Pool.empty] at ha, fun a ha => by simp at ha⟩
  | @start p out a p' st hok junk hreach hr ih =>
    have hi := reach_inv hreach
    obtain ⟨a', p1, hd, r1, r2, r3, r4, _, _, r7, r8, r9, r10⟩ :=
      start_spec (c := c) (s := s) (nz := nz) hi junk st
    rw [hr] at r1
    obtain ⟨rfl, rfl⟩ := Prod.mk.inj (Option.some.inj r1)
    have reqs : hd.requests = st.slots c s nz := by
      by_cases hl : a ∈ p.comm_list
      · obtain ⟨h0, m0, _⟩ := hi.live a (List.mem_append_left _ hl)
        rw [r9 h0 m0 hl, ih.1 a hl h0 m0]; rfl
      · exact r10 hl
    constructor
    · intro b hb hd' hm
      have nb : b ≠ a := by
        rintro rfl
        have := r8.nodup
        rw [List.nodup_append] at this
        exact this.2.2 b hb b (by simp) rfl
      rw [r4 b nb] at hm
      -- `b` was in the list before
      have hbl : b ∈ p.comm_list := by
        have hlt := (r8.all b).2 (List.mem_append_left _ hb)
        by_contra hn
        have hbo : b ∉ out := by
          intro hbo
          have := r8.nodup
          rw [List.nodup_append] at this
          exact this.2.2 b hb b (List.mem_cons_of_mem _ hbo) rfl
        obtain ⟨hb0, mb, _⟩ := r8.live b (List.mem_append_left _ hb)
        have hnb : ¬ b < p.next := by
          rw [hi.all b, List.mem_append]; tauto
        -- the new list is contained in the old one
        unfold Start.run at hr
        cases hg : get_handle junk (st.lens c nz).1 (st.lens c nz).2 p with
        | none => rw [hg] at hr; cases hr
        | some res =>
          obtain ⟨a2, p2⟩ := res
          rw [hg] at hr
          simp only at hr
          cases hm2 : p2.mem a2 with
          | none => rw [hm2] at hr; cases hr
          | some h2 =>
            rw [hm2] at hr
            obtain ⟨e1, e2⟩ := Prod.mk.inj (Option.some.inj hr)
            rw [← e2] at hb
            simp only [Pool.set] at hb
            unfold get_handle at hg
            cases hl : p.comm_list with
            | nil =>
              rw [hl] at hg
              obtain ⟨f1, f2⟩ := Prod.mk.inj (Option.some.inj hg)
              rw [← f2] at hb
              simp only [Pool.set, hl] at hb
              cases hb
            | cons a0 rest =>
              rw [hl] at hg
              cases hm0 : p.mem a0 with
              | none => simp only [hm0] at hg; cases hg
              | some h0 =>
                simp only [hm0] at hg
                obtain ⟨f1, f2⟩ := Prod.mk.inj (Option.some.inj hg)
                rw [← f2] at hb
                simp only [Pool.set] at hb
                exact hn (by rw [hl]; exact List.mem_cons_of_mem _ hb)
      exact ih.1 b hbl hd' hm
    · intro b hb hd' hm hv
      by_cases nb : b = a
      · subst nb
        rw [r3] at hm
        cases hm
        rw [r7] at hv
        rcases hok with rfl | hne
        · rw [reqs]; rfl
        · exact absurd hv hne
      · rw [r4 b nb] at hm
        rcases List.mem_cons.1 hb with hb | hb
        · exact absurd hb nb
        · exact ih.2 b hb hd' hm hv
  | @wait p out p' code a hreach ha hr ih =>
    have hi := reach_inv hreach
    obtain ⟨p1, hd, hd', r1, r2, r3, r4, r5, r6, r7⟩ := wait_spec hi ha
    rw [hr] at r1
    obtain ⟨_, rfl⟩ := Prod.mk.inj (Option.some.inj r1)
    have outnd : out.Nodup := (List.nodup_append.1 hi.nodup).2.1
    constructor
    · intro b hb x hm
      by_cases nb : b = a
      · subst nb
        rw [r3] at hm
        cases hm
        rw [r7]
        by_cases hv : hd.vars = []
        · rw [if_pos hv, ih.2 b ha hd r2 hv]; rfl
        · rw [if_neg hv]
      · rw [r6] at hb
        rw [r4 b nb] at hm
        rcases List.mem_cons.1 hb with hb | hb
        · exact absurd hb nb
        · exact ih.1 b hb x hm
    · intro b hb x hm hv
      have nb : b ≠ a := by
        rintro rfl
        exact (List.Nodup.not_mem_erase outnd) hb
      rw [r4 b nb] at hm
      exact ih.2 b (List.mem_of_mem_erase hb) x hm hv

/-- **C40.** If no communication is of an empty group of fields, a new communication never
gets a handle with receives that are still pending: its requests are exactly those it
posted itself. -/
theorem C40_requests_clean {c : Cfg} {s : Conn} {nz : Nat} {p : Pool} {out : List Nat}
    (h : Reach c s nz (NonEmpty nz) p out) (st : Start) (junk : Bool × Bool) (a : Nat) (p' : Pool)
    (hr : st.run c s nz junk p = some (a, p')) :
    ∃ hd, p'.mem a = some hd ∧ hd.requests = st.slots c s nz := by
  have hi := reach_inv h
  obtain ⟨a', p1, hd, r1, r2, r3, r4, _, _, r7, r8, r9, r10⟩ :=
    start_spec (c := c) (s := s) (nz := nz) hi junk st
  rw [hr] at r1
  obtain ⟨rfl, rfl⟩ := Prod.mk.inj (Option.some.inj r1)
  refine ⟨hd, r3, ?_⟩
  by_cases hl : a ∈ p.comm_list
  · obtain ⟨h0, m0, _⟩ := hi.live a (List.mem_append_left _ hl)
    rw [r9 h0 m0 hl, (reach_requests h).1 a hl h0 m0]; rfl
  · exact r10 hl

/-! ### Violations -/

/-- Run a list of calls: `Sum.inl` starts, `Sum.inr` waits; the handles returned. -/
def calls (c : Cfg) (s : Conn) (nz : Nat) : List (Start ⊕ Nat) → Pool → Option (List Nat × Pool)
  | [], p => some ([], p)
  | .inl st :: l, p =>
    match st.run c s nz (false, false) p with
    | none => none
    | some (a, p) => (calls c s nz l p).map fun (as, p) => (a :: as, p)
  | .inr a :: l, p =>
    match wait a p with
    | none => none
    | some (_, p) => calls c s nz l p

/-- **C40, violated for a repeated wait.** `wait` does not reset `in_progress`, so a second
`wait` on the same handle is not refused but puts the handle on the free list again: two
communications started afterwards share one handle. -/
theorem C40_double_wait_violated :
    (calls singleNull (connOf singleNull (0, 1)) 1
      [.inl (.sendY [⟨0, true⟩]), .inr 0, .inr 0, .inl (.sendY [⟨0, true⟩]), .inl (.sendY [⟨1, true⟩])]
      Pool.empty).map (·.1) = some [0, 0, 0] := by decide

/-- **C40, violated for empty groups.** Communicating an empty group posts receives of
length zero but only `request[0]` is waited for; the next communication gets a handle with
receives pending. -/
theorem C40_empty_group_violated :
    ((calls singleNull (connOf singleNull (0, 1)) 1
      [.inl (.sendY []), .inr 0] Pool.empty).bind fun r => (r.2.mem 0).map (·.requests)) ≠ some [] ∧
    ((calls singleNull (connOf singleNull (0, 1)) 1
      [.inl (.sendY [⟨0, true⟩]), .inr 0] Pool.empty).bind fun r => (r.2.mem 0).map (·.requests))
      = some [] := by decide

/-- A non-trivial history: two overlapping communications, the first handle is reused by the
third. -/
example : (calls singleNull (connOf singleNull (0, 1)) 2
      [.inl (.sendY [⟨0, true⟩]), .inl (.sendX [⟨0, true⟩, ⟨1, false⟩] true), .inr 0,
       .inl (.send [⟨0, true⟩])] Pool.empty).map (·.1) = some [0, 1, 0] := by decide

end Verif.Comm
