/-
C42: what a communication leaves in the guard cells.
-/
import Verif.Comm.Sched

namespace Verif.Comm
open Verif.Mesh

/-- The data of all ranks. -/
abbrev World (α : Type) := Int × Int → Cell → α

/-- The receive posted in request slot `n` on rank `q`, with the data of the message that
MPI pairs it with. -/
def incoming {α : Type} (c : Cfg) (conn : Int × Int → Conn) (j : Job) (async : Bool)
    (W : World α) (B : Int × Int → SendBufs α) (q : Int × Int) (n : Nat) :
    Option (Recv × List α) :=
  match (recvs c (conn q) j).find? (fun r => decide (r.slot = n)) with
  | none => none
  | some r =>
    let p := (c.peX r.src, c.peY r.src)
    match (sends c (conn p) j async (W p) (B p)).find?
        (fun m => decide (m.dst = rankAt c q ∧ m.tag = r.tag)) with
    | none => none
    | some m => some (r, m.data)

/-- The result of sending and waiting on rank `q` when the messages arrive and are unpacked
in the order `es`; then the twist-shift. -/
def afterWait {α : Type} (c : Cfg) (conn : Int × Int → Conn) (j : Job) (async : Bool)
    (aligned : Var → Bool) (shiftZ : Bool → Int → (Nat → α) → Nat → α)
    (W : World α) (B : Int × Int → SendBufs α) (rbuf : RBuf → Nat → α) (q : Int × Int)
    (es : List Event) : Cell → α :=
  twistShift c (conn q) j aligned shiftZ
    (runEvents c (conn q) j (incoming c conn j async W B q) es ⟨W q, rbuf⟩).store

/-- The request slots a rank posts. -/
def postedSlots (c : Cfg) (s : Conn) (j : Job) : List Nat := (recvs c s j).map (·.slot)

/-! ### The six slots -/

/-- Peer of a slot. -/
def peerOf (s : Conn) : Nat → Int
  | 0 => s.up.ind
  | 1 => s.up.outd
  | 2 => s.down.ind
  | 3 => s.down.outd
  | 4 => s.IDATA_DEST
  | _ => s.ODATA_DEST

/-- Displacement from the sender's rectangle to the receiver's. -/
def shiftOf (c : Cfg) : Nat → Int × Int
  | 0 => (0, c.MYSUB)
  | 1 => (0, c.MYSUB)
  | 2 => (0, -c.MYSUB)
  | 3 => (0, -c.MYSUB)
  | 4 => (-c.MXSUB, 0)
  | _ => (c.MXSUB, 0)

/-- The tag of the message of a slot. -/
def tagOf : Nat → Nat
  | 0 => IN_SENT_DOWN
  | 1 => OUT_SENT_DOWN
  | 2 => IN_SENT_UP
  | 3 => OUT_SENT_UP
  | 4 => OUT_SENT_IN
  | _ => IN_SENT_OUT

/-- Whether a slot is posted. -/
def Posted (s : Conn) (j : Job) (n : Nat) : Prop :=
  n < 6 ∧ peerOf s n ≠ -1 ∧ (if n < 4 then j.doY = true else j.doX = true)

/-- The rectangle of the receiver, as in `unpackPlace`. -/
def rectOf (c : Cfg) (s : Conn) (j : Job) (n : Nat) : Int × Int × Int × Int :=
  let u := unpackPlace c s j n
  (u.1, u.2.1, u.2.2.1, u.2.2.2.1)

theorem postedSlots_eq (c : Cfg) (s : Conn) (j : Job) : postedSlots c s j =
    (if j.doX then (if s.IDATA_DEST ≠ -1 then [4] else []) ++
      (if s.ODATA_DEST ≠ -1 then [5] else []) else []) ++
    (if j.doY then ((if s.up.ind ≠ -1 then [0] else []) ++ (if s.up.outd ≠ -1 then [1] else [])) ++
      ((if s.down.ind ≠ -1 then [2] else []) ++ (if s.down.outd ≠ -1 then [3] else []))
     else []) := by
  have one : ∀ (P : Prop) [Decidable P] (r : Recv),
      (if P then [r] else []).map (·.slot) = if P then [r.slot] else [] := by
    intro P _ r; split <;> rfl
  unfold postedSlots recvs postX postSide
  cases j.doX <;> cases j.doY <;>
    simp only [Bool.false_eq_true, if_false, if_true, List.map_append, List.map_nil, one]

theorem mem_ite_list {β : Type} {P : Prop} [Decidable P] {x y : β} :
    y ∈ (if P then [x] else []) ↔ P ∧ y = x := by
  split
  · next h => simp [h]
  · next h => simp [h]

theorem mem_posted {c : Cfg} {s : Conn} {j : Job} {n : Nat} :
    n ∈ postedSlots c s j ↔ Posted s j n := by
  rw [postedSlots_eq]
  unfold Posted
  have six : n = 0 ∨ n = 1 ∨ n = 2 ∨ n = 3 ∨ n = 4 ∨ n = 5 ∨ 6 ≤ n := by omega
  rcases six with rfl | rfl | rfl | rfl | rfl | rfl | h6
  · cases j.doX <;> cases j.doY <;> simp [peerOf, mem_ite_list]
  · cases j.doX <;> cases j.doY <;> simp [peerOf, mem_ite_list]
  · cases j.doX <;> cases j.doY <;> simp [peerOf, mem_ite_list]
  · cases j.doX <;> cases j.doY <;> simp [peerOf, mem_ite_list]
  · cases j.doX <;> cases j.doY <;> simp [peerOf, mem_ite_list]
  · cases j.doX <;> cases j.doY <;> simp [peerOf, mem_ite_list]
  · have : ¬ n < 6 := by omega
    have e : ∀ k, k < 6 → ¬ n = k := by omega
    cases j.doX <;> cases j.doY <;> simp [mem_ite_list, this, e]

theorem nodup_posted (c : Cfg) (s : Conn) (j : Job) : (postedSlots c s j).Nodup := by
  rw [postedSlots_eq]
  have sub : ∀ (P : Prop) [Decidable P] (k : Nat), (if P then [k] else []).Sublist [k] := by
    intro P _ k; split <;> simp
  have subB : ∀ (P : Bool) (k l : List Nat), k.Sublist l → (if P then k else []).Sublist l := by
    intro P k l h; cases P <;> simp [h]
  have : ([4] ++ [5] ++ (([0] ++ [1]) ++ ([2] ++ [3])) : List Nat).Nodup := by decide
  refine this.sublist ?_
  exact (subB _ _ _ ((sub _ _).append (sub _ _))).append
    (subB _ _ _ (((sub _ _).append (sub _ _)).append ((sub _ _).append (sub _ _))))

/-- The record posted in a slot. -/
def recvOf (c : Cfg) (s : Conn) (j : Job) (n : Nat) : Recv :=
  let lenX := (msg_len j.nz j.vars 0 c.MXG 0 (if j.corners then c.LocalNy else c.MYSUB)).toNat
  let lenU := if s.up.ind ≠ -1 then (msg_len j.nz j.vars 0 s.up.split 0 c.MYG).toNat else 0
  let lenD := if s.down.ind ≠ -1 then (msg_len j.nz j.vars 0 s.down.split 0 c.MYG).toNat else 0
  match n with
  | 0 => ⟨0, s.up.ind, IN_SENT_DOWN, .u, 0, lenU⟩
  | 1 => ⟨1, s.up.outd, OUT_SENT_DOWN, .u, lenU,
      (msg_len j.nz j.vars s.up.split c.LocalNx 0 c.MYG).toNat⟩
  | 2 => ⟨2, s.down.ind, IN_SENT_UP, .d, 0, lenD⟩
  | 3 => ⟨3, s.down.outd, OUT_SENT_UP, .d, lenD,
      (msg_len j.nz j.vars s.down.split c.LocalNx 0 c.MYG).toNat⟩
  | 4 => ⟨4, s.IDATA_DEST, OUT_SENT_IN, .i, 0, lenX⟩
  | _ => ⟨5, s.ODATA_DEST, IN_SENT_OUT, .o, 0, lenX⟩

theorem find_ite {β : Type} {P : Prop} [Decidable P] {x : β} {f : β → Bool} :
    (if P then [x] else []).find? f = if P ∧ f x = true then some x else none := by
  by_cases h : P
  · rw [if_pos h]
    cases hf : f x <;> simp [hf, h]
  · simp [h]

theorem find_ite' {β : Type} {P : Prop} [Decidable P] {x : β} {f : β → Bool} :
    (if P then [] else [x]).find? f = if ¬ P ∧ f x = true then some x else none := by
  by_cases h : P
  · simp [h]
  · rw [if_neg h]
    cases hf : f x <;> simp [hf, h]

theorem find_recv {c : Cfg} {s : Conn} {j : Job} {n : Nat} (hp : Posted s j n) :
    (recvs c s j).find? (fun r => decide (r.slot = n)) = some (recvOf c s j n) := by
  obtain ⟨h6, hd, hf⟩ := hp
  unfold recvs postX postSide recvOf
  have six : n = 0 ∨ n = 1 ∨ n = 2 ∨ n = 3 ∨ n = 4 ∨ n = 5 := by omega
  rcases six with rfl | rfl | rfl | rfl | rfl | rfl
  · have hf : j.doY = true := by simpa using hf
    have hd : s.up.ind ≠ -1 := hd
    cases j.doX <;> simp [hf, hd, List.find?_append, find_ite, find_ite']
  · have hf : j.doY = true := by simpa using hf
    have hd : s.up.outd ≠ -1 := hd
    cases j.doX <;> simp [hf, hd, List.find?_append, find_ite, find_ite']
  · have hf : j.doY = true := by simpa using hf
    have hd : s.down.ind ≠ -1 := hd
    cases j.doX <;> simp [hf, hd, List.find?_append, find_ite, find_ite']
  · have hf : j.doY = true := by simpa using hf
    have hd : s.down.outd ≠ -1 := hd
    cases j.doX <;> simp [hf, hd, List.find?_append, find_ite, find_ite']
  · have hf : j.doX = true := by simpa using hf
    have hd : s.IDATA_DEST ≠ -1 := hd
    cases j.doY <;> simp [hf, hd, List.find?_append, find_ite, find_ite']
  · have hf : j.doX = true := by simpa using hf
    have hd : s.ODATA_DEST ≠ -1 := hd
    cases j.doY <;> simp [hf, hd, List.find?_append, find_ite, find_ite']

/-- Position of the peer of a slot. -/
def peerPos (c : Cfg) (s : Conn) (n : Nat) : Int × Int := (c.peX (peerOf s n), c.peY (peerOf s n))

/-- The data the peer sends: its rectangle is the receiver's, displaced back. -/
def dataOf {α : Type} (c : Cfg) (s : Conn) (j : Job) (W : World α) (n : Nat) : List α :=
  let r := rectOf c s j n
  let d := shiftOf c n
  payload j (r.1 - d.1) (r.2.1 - d.1) (r.2.2.1 - d.2) (r.2.2.2 - d.2) (W (peerPos c s n))

theorem pos_of_rank {c : Cfg} (hs : Sizes c) {p : Int × Int} (hp : IsRank c p) :
    (c.peX (rankAt c p), c.peY (rankAt c p)) = p := by
  have := (C16_proc_num_bijection c hs.nxpe hs.nype).1 p.1 p.2 hp.1 hp.2.1 hp.2.2.1 hp.2.2.2
  exact Prod.ext this.2.2.1 this.2.2.2

section
variable {c : Cfg} {conn : Int × Int → Conn} (hn : Net c conn) {q : Int × Int}
  (hq : IsRank c q)
include hn hq

theorem peer_rank {j : Job} {n : Nat} (hp : Posted (conn q) j n) :
    IsRank c (peerPos c (conn q) n) ∧ peerOf (conn q) n = rankAt c (peerPos c (conn q) n) := by
  obtain ⟨h6, hd, _⟩ := hp
  have U := hn.okUp q hq
  have D := hn.okDown q hq
  have key : ∃ p, IsRank c p ∧ peerOf (conn q) n = rankAt c p := by
    have col : ∀ {d : Int}, d ≠ -1 →
        (d = -1 ∨ ∃ y, 0 ≤ y ∧ y < c.NYPE ∧ d = c.PROC_NUM q.1 y) →
        ∃ p, IsRank c p ∧ d = rankAt c p := by
      rintro d hd (h | ⟨y, h0, h1, h2⟩)
      · exact absurd h hd
      · exact ⟨(q.1, y), ⟨hq.1, hq.2.1, h0, h1⟩, h2⟩
    have row : ∀ {d : Int}, d ≠ -1 →
        (d = -1 ∨ ∃ x, 0 ≤ x ∧ x < c.NXPE ∧ d = c.PROC_NUM x q.2) →
        ∃ p, IsRank c p ∧ d = rankAt c p := by
      rintro d hd (h | ⟨x, h0, h1, h2⟩)
      · exact absurd h hd
      · exact ⟨(x, q.2), ⟨h0, h1, hq.2.2.1, hq.2.2.2⟩, h2⟩
    have six : n = 0 ∨ n = 1 ∨ n = 2 ∨ n = 3 ∨ n = 4 ∨ n = 5 := by omega
    rcases six with rfl | rfl | rfl | rfl | rfl | rfl
    · exact col hd U.ind
    · exact col hd U.outd
    · exact col hd D.ind
    · exact col hd D.outd
    · exact row hd (hn.okI q hq)
    · exact row hd (hn.okO q hq)
  obtain ⟨p, hp, e⟩ := key
  have : peerPos c (conn q) n = p := by
    unfold peerPos; rw [e]; exact pos_of_rank hn.sizes hp
  rw [this]; exact ⟨hp, e⟩

theorem incoming_eq {α : Type} {j : Job} {n : Nat} (hp : Posted (conn q) j n) (async : Bool)
    (W : World α) (B : Int × Int → SendBufs α) :
    incoming c conn j async W B q n
      = some (recvOf c (conn q) j n, dataOf c (conn q) j W n) := by
  obtain ⟨pr, pe⟩ := peer_rank hn hq hp
  have hsrc : (recvOf c (conn q) j n).src = peerOf (conn q) n := by
    obtain ⟨h6, _, _⟩ := hp
    have six : n = 0 ∨ n = 1 ∨ n = 2 ∨ n = 3 ∨ n = 4 ∨ n = 5 := by omega
    rcases six with rfl | rfl | rfl | rfl | rfl | rfl <;> rfl
  have htag : (recvOf c (conn q) j n).tag = tagOf n := by
    obtain ⟨h6, _, _⟩ := hp
    have six : n = 0 ∨ n = 1 ∨ n = 2 ∨ n = 3 ∨ n = 4 ∨ n = 5 := by omega
    rcases six with rfl | rfl | rfl | rfl | rfl | rfl <;> rfl
  unfold incoming
  rw [find_recv hp]
  simp only [hsrc, htag]
  have hpos : (c.peX (peerOf (conn q) n), c.peY (peerOf (conn q) n)) = peerPos c (conn q) n := rfl
  rw [hpos, sends_eq]
  unfold dataOf
  generalize peerPos c (conn q) n = p at *
  obtain ⟨h6, hd, hf⟩ := hp
  have six : n = 0 ∨ n = 1 ∨ n = 2 ∨ n = 3 ∨ n = 4 ∨ n = 5 := by omega
  have hRq := rank_ne hn.sizes hq
  rcases six with rfl | rfl | rfl | rfl | rfl | rfl
  · have hf : j.doY = true := by simpa using hf
    have pe : (conn q).up.ind = rankAt c p := pe
    have e1 := (hn.in_iff hq pr).1 pe
    have e2 := hn.in_split hq pr pe
    have e3 : (conn q).UDATA_XSPLIT = (conn p).down.split := e2
    cases j.doX <;> simp [hf, List.find?_append, find_ite, find_ite', IN_SENT_DOWN,
      OUT_SENT_DOWN, IN_SENT_UP, OUT_SENT_UP, IN_SENT_OUT, OUT_SENT_IN, tagOf, e1, hRq, rectOf,
      unpackPlace, shiftOf, e3] <;> congr 1 <;> omega
  · have hf : j.doY = true := by simpa using hf
    have pe : (conn q).up.outd = rankAt c p := pe
    have e1 := (hn.out_iff hq pr).1 pe
    have e2 := hn.out_split hq pr pe
    have e3 : (conn q).UDATA_XSPLIT = (conn p).down.split := e2
    cases j.doX <;> simp [hf, List.find?_append, find_ite, find_ite', IN_SENT_DOWN,
      OUT_SENT_DOWN, IN_SENT_UP, OUT_SENT_UP, IN_SENT_OUT, OUT_SENT_IN, tagOf, e1, hRq, rectOf,
      unpackPlace, shiftOf, e3] <;> congr 1 <;> omega
  · have hf : j.doY = true := by simpa using hf
    have pe : (conn q).down.ind = rankAt c p := pe
    have e1 := (hn.in_iff pr hq).2 pe
    have e2 := hn.in_split pr hq e1
    have e3 : (conn q).DDATA_XSPLIT = (conn p).up.split := e2.symm
    cases j.doX <;> simp [hf, List.find?_append, find_ite, find_ite', IN_SENT_DOWN,
      OUT_SENT_DOWN, IN_SENT_UP, OUT_SENT_UP, IN_SENT_OUT, OUT_SENT_IN, tagOf, e1, hRq, rectOf,
      unpackPlace, shiftOf, e3] <;> congr 1 <;> omega
  · have hf : j.doY = true := by simpa using hf
    have pe : (conn q).down.outd = rankAt c p := pe
    have e1 := (hn.out_iff pr hq).2 pe
    have e2 := hn.out_split pr hq e1
    have e3 : (conn q).DDATA_XSPLIT = (conn p).up.split := e2.symm
    cases j.doX <;> simp [hf, List.find?_append, find_ite, find_ite', IN_SENT_DOWN,
      OUT_SENT_DOWN, IN_SENT_UP, OUT_SENT_UP, IN_SENT_OUT, OUT_SENT_IN, tagOf, e1, hRq, rectOf,
      unpackPlace, shiftOf, e3] <;> congr 1 <;> omega
  · have hf : j.doX = true := by simpa using hf
    have pe : (conn q).IDATA_DEST = rankAt c p := pe
    have e1 := (hn.x_iff pr hq).2 pe
    cases j.doY <;> simp [hf, List.find?_append, find_ite, find_ite', IN_SENT_DOWN,
      OUT_SENT_DOWN, IN_SENT_UP, OUT_SENT_UP, IN_SENT_OUT, OUT_SENT_IN, tagOf, e1, hRq, rectOf,
      unpackPlace, shiftOf] <;> congr 1 <;> omega
  · have hf : j.doX = true := by simpa using hf
    have pe : (conn q).ODATA_DEST = rankAt c p := pe
    have e1 := (hn.x_iff hq pr).1 pe
    cases j.doY <;> simp [hf, List.find?_append, find_ite, find_ite', IN_SENT_DOWN,
      OUT_SENT_DOWN, IN_SENT_UP, OUT_SENT_UP, IN_SENT_OUT, OUT_SENT_IN, tagOf, e1, hRq, rectOf,
      unpackPlace, shiftOf] <;> congr 1 <;> omega

end

end Verif.Comm
