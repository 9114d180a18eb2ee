/-
C18: the theorems.
-/
import Verif.Comm.Match

namespace Verif.Comm
open Verif.Mesh

theorem len_payload_rows {α : Type} (j : Job) (c : Cfg) (hs : Sizes c) (a b : Int) (hab : a ≤ b)
    (store : Cell → α) {yge ylt : Int} (h : ylt - yge = c.MYG) :
    (payload j a b yge ylt store).length = (msg_len j.nz j.vars a b 0 c.MYG).toNat := by
  have := hs.myg
  rw [length_payload j a b yge ylt store hab (by omega),
    msg_len_extents j.nz j.vars (a' := a) (b' := b) (c' := 0) (d' := c.MYG) rfl (by omega)]

theorem len_payload_x {α : Type} (j : Job) (c : Cfg) (hs : Sizes c) (a b : Int)
    (hab : b - a = c.MXG) (store : Cell → α) :
    (payload j a b (xRows c j).1 (xRows c j).2 store).length
      = (msg_len j.nz j.vars 0 c.MXG 0 (if j.corners then c.LocalNy else c.MYSUB)).toNat := by
  have h1 := hs.mxg
  have h2 := hs.myg
  obtain ⟨_, _, _, hM⟩ := hs.split
  have h3 : (xRows c j).2 - (xRows c j).1 = (if j.corners then c.LocalNy else c.MYSUB) - 0 := by
    unfold xRows
    cases j.corners <;> simp
  have h4 : (xRows c j).1 ≤ (xRows c j).2 := by
    unfold xRows Cfg.LocalNy
    cases j.corners <;> simp <;> omega
  rw [length_payload j a b _ _ store (by omega) h4,
    msg_len_extents j.nz j.vars (a' := 0) (b' := c.MXG) (c' := 0)
      (d' := if j.corners then c.LocalNy else c.MYSUB) (by omega) h3]

/-- **C18.** On every channel – from rank `p` to rank `q` with tag `t` – of a communication
over a symmetric network, the messages sent and the receives posted are the same in number
(at most one) and agree in length.  This holds for every group of fields, with X and/or Y
exchange, with or without corners, for blocking and non-blocking sends, whatever the field
data and old buffer contents are. -/
theorem C18_channels_match {α : Type} (c : Cfg) (conn : Int × Int → Conn) (hn : Net c conn)
    (j : Job) (async : Bool) (store : Cell → α) (b : SendBufs α) (p q : Int × Int)
    (hp : IsRank c p) (hq : IsRank c q) (t : Nat) :
    (chanSends c conn j async store b p q t).map (fun m => m.data.length)
      = (chanRecvs c conn j p q t).map (fun r => r.len) ∧
    (chanRecvs c conn j p q t).length ≤ 1 := by
  have hs := hn.sizes
  have U := hn.okUp p hp
  have D := hn.okDown p hp
  have g := hs.myg
  have hRp := rank_ne hs hp
  have hRq := rank_ne hs hq
  rw [chanSends_eq hs j async store b hq t, chanRecvs_eq hs j hp t]
  simp only
  -- the six channels
  have k4 := ite_list_congr (hn.x_iff hq hp).symm
    (fun _ => len_payload_x j c hs c.MXG (2 * c.MXG) (by omega) store)
  have k5 := ite_list_congr (hn.x_iff hp hq)
    (fun _ => len_payload_x j c hs c.MXSUB (c.MXSUB + c.MXG) (by omega) store)
  have k0 : (if (conn p).up.ind = rankAt c q then
        [(payload j 0 (conn p).up.split c.MYSUB (c.MYSUB + c.MYG) store).length] else [])
      = (if (conn q).down.ind = rankAt c p then
        [if (conn q).down.ind ≠ -1 then
          (msg_len j.nz j.vars 0 (conn q).down.split 0 c.MYG).toNat else 0] else []) := by
    apply ite_list_congr (hn.in_iff hp hq)
    intro e
    have e' := (hn.in_iff hp hq).1 e
    rw [len_payload_rows j c hs _ _ U.split0 store (by omega), hn.in_split hp hq e,
      if_pos (by rw [e']; exact hRp)]
  have k1 := ite_list_congr (hn.out_iff hp hq)
    (fun e => (by
      rw [len_payload_rows j c hs _ _ U.split1 store (by omega), hn.out_split hp hq e] :
      (payload j (conn p).up.split c.LocalNx c.MYSUB (c.MYSUB + c.MYG) store).length
        = (msg_len j.nz j.vars (conn q).down.split c.LocalNx 0 c.MYG).toNat))
  have k2 : (if (conn p).down.ind = rankAt c q then
        [(payload j 0 (conn p).down.split c.MYG (2 * c.MYG) store).length] else [])
      = (if (conn q).up.ind = rankAt c p then
        [if (conn q).up.ind ≠ -1 then
          (msg_len j.nz j.vars 0 (conn q).up.split 0 c.MYG).toNat else 0] else []) := by
    apply ite_list_congr (hn.in_iff hq hp).symm
    intro e
    have e' := (hn.in_iff hq hp).2 e
    rw [len_payload_rows j c hs _ _ D.split0 store (by omega), ← hn.in_split hq hp e',
      if_pos (by rw [e']; exact hRp)]
  have k3 := ite_list_congr (hn.out_iff hq hp).symm
    (fun e => (by
      rw [len_payload_rows j c hs _ _ D.split1 store (by omega),
        ← hn.out_split hq hp ((hn.out_iff hq hp).2 e)] :
      (payload j (conn p).down.split c.LocalNx c.MYG (2 * c.MYG) store).length
        = (msg_len j.nz j.vars (conn q).up.split c.LocalNx 0 c.MYG).toNat))
  have tag : t = 0 ∨ t = 1 ∨ t = 2 ∨ t = 3 ∨ t = 4 ∨ t = 5 ∨ 6 ≤ t := by omega
  constructor
  · unfold IN_SENT_UP OUT_SENT_UP IN_SENT_DOWN OUT_SENT_DOWN IN_SENT_OUT OUT_SENT_IN
    rcases tag with rfl | rfl | rfl | rfl | rfl | rfl | ht
    · cases j.doX <;> cases j.doY <;> simp [apply_ite, k0]
    · cases j.doX <;> cases j.doY <;> simp [apply_ite, k1]
    · cases j.doX <;> cases j.doY <;> simp [apply_ite, k2]
    · cases j.doX <;> cases j.doY <;> simp [apply_ite, k3]
    · cases j.doX <;> cases j.doY <;> simp [apply_ite, k4]
    · cases j.doX <;> cases j.doY <;> simp [apply_ite, k5]
    · have e : ∀ n, n < 6 → ¬ n = t := by omega
      cases j.doX <;> cases j.doY <;> simp [e]
  · unfold IN_SENT_UP OUT_SENT_UP IN_SENT_DOWN OUT_SENT_DOWN IN_SENT_OUT OUT_SENT_IN
    have one : ∀ (P : Prop) [Decidable P] (x : Recv),
        (if P then [x] else []).length ≤ 1 := by
      intro P _ x; split <;> simp
    rcases tag with rfl | rfl | rfl | rfl | rfl | rfl | ht
    · cases j.doX <;> cases j.doY <;> simp [one]
    · cases j.doX <;> cases j.doY <;> simp [one]
    · cases j.doX <;> cases j.doY <;> simp [one]
    · cases j.doX <;> cases j.doY <;> simp [one]
    · cases j.doX <;> cases j.doY <;> simp [one]
    · cases j.doX <;> cases j.doY <;> simp [one]
    · have e : ∀ n, n < 6 → ¬ n = t := by omega
      cases j.doX <;> cases j.doY <;> simp [e]

theorem mem1 {β : Type} {P : Prop} [Decidable P] {x y : β}
    (h : y ∈ (if P then [x] else [])) : P ∧ y = x := by
  split at h
  · next hP => simp at h; exact ⟨hP, h⟩
  · simp at h

theorem memB {β : Type} {P : Bool} {l : List β} {y : β}
    (h : y ∈ (if P then l else [])) : y ∈ l := by
  cases P
  · simp at h
  · simpa using h

/-- **C18.** Nothing is sent to, or expected from, a rank that does not exist: with
`C18_channels_match`, every message has its receive and every posted receive its message. -/
theorem C18_peers_exist {α : Type} (c : Cfg) (conn : Int × Int → Conn) (hn : Net c conn)
    (j : Job) (async : Bool) (store : Cell → α) (b : SendBufs α) (p : Int × Int)
    (hp : IsRank c p) :
    (∀ m ∈ sends c (conn p) j async store b, ∃ q, IsRank c q ∧ m.dst = rankAt c q) ∧
    (∀ r ∈ recvs c (conn p) j, ∃ q, IsRank c q ∧ r.src = rankAt c q) := by
  have col : ∀ {d : Int}, d ≠ -1 →
      (d = -1 ∨ ∃ q, 0 ≤ q ∧ q < c.NYPE ∧ d = c.PROC_NUM p.1 q) →
      ∃ q, IsRank c q ∧ d = rankAt c q := by
    rintro d hd (h | ⟨q, h0, h1, h2⟩)
    · exact absurd h hd
    · exact ⟨(p.1, q), ⟨hp.1, hp.2.1, h0, h1⟩, h2⟩
  have row : ∀ {d : Int}, d ≠ -1 →
      (d = -1 ∨ ∃ q, 0 ≤ q ∧ q < c.NXPE ∧ d = c.PROC_NUM q p.2) →
      ∃ q, IsRank c q ∧ d = rankAt c q := by
    rintro d hd (h | ⟨q, h0, h1, h2⟩)
    · exact absurd h hd
    · exact ⟨(q, p.2), ⟨h0, h1, hp.2.2.1, hp.2.2.2⟩, h2⟩
  have U := hn.okUp p hp
  have D := hn.okDown p hp
  constructor
  · intro m hm
    rw [sends_eq] at hm
    rcases List.mem_append.1 hm with h | h
    · rcases List.mem_append.1 (memB h) with h | h
      · obtain ⟨hd, rfl⟩ := mem1 h; exact row hd (hn.okI p hp)
      · obtain ⟨hd, rfl⟩ := mem1 h; exact row hd (hn.okO p hp)
    · rcases List.mem_append.1 (memB h) with h | h <;> rcases List.mem_append.1 h with h | h
      · obtain ⟨hd, rfl⟩ := mem1 h; exact col hd U.ind
      · obtain ⟨hd, rfl⟩ := mem1 h; exact col hd U.outd
      · obtain ⟨hd, rfl⟩ := mem1 h; exact col hd D.ind
      · obtain ⟨hd, rfl⟩ := mem1 h; exact col hd D.outd
  · intro m hm
    unfold recvs postX postSide at hm
    rcases List.mem_append.1 hm with h | h
    · rcases List.mem_append.1 (memB h) with h | h
      · obtain ⟨hd, rfl⟩ := mem1 h; exact row hd (hn.okI p hp)
      · obtain ⟨hd, rfl⟩ := mem1 h; exact row hd (hn.okO p hp)
    · rcases List.mem_append.1 (memB h) with h | h <;> rcases List.mem_append.1 h with h | h
      · obtain ⟨hd, rfl⟩ := mem1 h; exact col hd U.ind
      · obtain ⟨hd, rfl⟩ := mem1 h; exact col hd U.outd
      · obtain ⟨hd, rfl⟩ := mem1 h; exact col hd D.ind
      · obtain ⟨hd, rfl⟩ := mem1 h; exact col hd D.outd

/-- **C18.** Any sequence of communications, all ranks taking part in the same order, any
number of them outstanding: the `n`-th receive posted on a channel matches in length the
`n`-th message sent on it, which is how MPI pairs them.  (Field data and buffers may change
between communications.) -/
theorem C18_sequence_match {α : Type} (c : Cfg) (conn : Int × Int → Conn) (hn : Net c conn)
    (async : Bool) (js : List (Job × (Cell → α) × SendBufs α)) (p q : Int × Int)
    (hp : IsRank c p) (hq : IsRank c q) (t : Nat) :
    ((js.flatMap fun k => sends c (conn p) k.1 async k.2.1 k.2.2).filter
        (fun m => decide (m.dst = rankAt c q ∧ m.tag = t))).map (fun m => m.data.length)
      = ((js.flatMap fun k => recvs c (conn q) k.1).filter
        (fun r => decide (r.src = rankAt c p ∧ r.tag = t))).map (fun r => r.len) := by
  induction js with
  | nil => rfl
  | cons k js ih =>
    simp only [List.flatMap_cons, List.filter_append, List.map_append, ih]
    congr 1
    exact (C18_channels_match c conn hn k.1 async k.2.1 k.2.2 p q hp hq t).1

/-- **C18.** In particular on every accepted layout of the mesh. -/
theorem C18_layout_channels_match_partial {α : Type} (c : Cfg) (h : Layout c) (j : Job)
    (async : Bool) (store : Cell → α) (b : SendBufs α) (p q : Int × Int)
    (hp : IsRank c p) (hq : IsRank c q) (t : Nat) :
    (chanSends c (connOf c) j async store b p q t).map (fun m => m.data.length)
      = (chanRecvs c (connOf c) j p q t).map (fun r => r.len) ∧
    (chanRecvs c (connOf c) j p q t).length ≤ 1 :=
  C18_channels_match c (connOf c) (net_of_layout c h) j async store b p q hp hq t

/-- On the single null demo the inner leg's rank (0,0) sends 9 of its 12 columns up to the
outer leg and 3 to the core's side: two variables with 4 + 1 values per cell, 2 rows. -/
example : (recvs singleNull (connOf singleNull (0, 7))
      ⟨[⟨0, true⟩, ⟨1, false⟩], 4, true, true, false⟩)
    = [⟨5, 15, IN_SENT_OUT, .o, 0, 40⟩, ⟨2, 0, IN_SENT_UP, .d, 0, 90⟩,
       ⟨3, 12, OUT_SENT_UP, .d, 90, 30⟩] := by decide
example : Net singleNull (connOf singleNull) := net_of_layout _ singleNull_layout

end Verif.Comm
