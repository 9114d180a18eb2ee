/-
C18: every message has exactly one matching receive, and vice versa.
-/
import Verif.Comm.Model
import Verif.Mesh.ConnWitness

namespace Verif.Comm
open Verif.Mesh

/-- A rank position of the processor grid. -/
def IsRank (c : Cfg) (p : Int × Int) : Prop :=
  0 ≤ p.1 ∧ p.1 < c.NXPE ∧ 0 ≤ p.2 ∧ p.2 < c.NYPE

/-- The MPI rank at a position. -/
def rankAt (c : Cfg) (p : Int × Int) : Int := c.PROC_NUM p.1 p.2

/-- The validity of one Y side of a rank: the split is a column, destinations are ranks of
the same processor column (or -1), and if there is nobody for the inner columns but
somebody for the outer ones there are no inner columns. -/
structure SideOk (c : Cfg) (px : Int) (w : Side) : Prop where
  split0 : 0 ≤ w.split
  split1 : w.split ≤ c.LocalNx
  ind : w.ind = -1 ∨ ∃ q, 0 ≤ q ∧ q < c.NYPE ∧ w.ind = c.PROC_NUM px q
  outd : w.outd = -1 ∨ ∃ q, 0 ≤ q ∧ q < c.NYPE ∧ w.outd = c.PROC_NUM px q
  noInner : w.ind = -1 → w.outd ≠ -1 → w.split = 0

/-- A symmetric network of connections (property C19). -/
structure Net (c : Cfg) (conn : Int × Int → Conn) : Prop where
  sizes : Sizes c
  mygLe : c.MYG ≤ c.MYSUB
  okUp : ∀ p, IsRank c p → SideOk c p.1 (conn p).up
  okDown : ∀ p, IsRank c p → SideOk c p.1 (conn p).down
  symIn : ∀ px py qy, IsRank c (px, py) → IsRank c (px, qy) →
    ((conn (px, py)).up.ind = c.PROC_NUM px qy ↔ (conn (px, qy)).down.ind = c.PROC_NUM px py)
  symOut : ∀ px py qy, IsRank c (px, py) → IsRank c (px, qy) →
    ((conn (px, py)).up.outd = c.PROC_NUM px qy ↔ (conn (px, qy)).down.outd = c.PROC_NUM px py)
  splitIn : ∀ px py qy, IsRank c (px, py) → IsRank c (px, qy) →
    (conn (px, py)).up.ind = c.PROC_NUM px qy →
    (conn (px, py)).up.split = (conn (px, qy)).down.split
  splitOut : ∀ px py qy, IsRank c (px, py) → IsRank c (px, qy) →
    (conn (px, py)).up.outd = c.PROC_NUM px qy →
    (conn (px, py)).up.split = (conn (px, qy)).down.split
  okI : ∀ p, IsRank c p → (conn p).IDATA_DEST = -1 ∨
    ∃ q, 0 ≤ q ∧ q < c.NXPE ∧ (conn p).IDATA_DEST = c.PROC_NUM q p.2
  okO : ∀ p, IsRank c p → (conn p).ODATA_DEST = -1 ∨
    ∃ q, 0 ≤ q ∧ q < c.NXPE ∧ (conn p).ODATA_DEST = c.PROC_NUM q p.2
  symX : ∀ px qx py, IsRank c (px, py) → IsRank c (qx, py) →
    ((conn (px, py)).ODATA_DEST = c.PROC_NUM qx py ↔ (conn (qx, py)).IDATA_DEST = c.PROC_NUM px py)

/-- The connections the mesh computes. -/
def connOf (c : Cfg) (p : Int × Int) : Conn :=
  match topology c p.1 p.2 with
  | .ok s => s
  | .error _ => default_connections c p.1 p.2

theorem connOf_eq {c : Cfg} (h : Layout c) {p : Int × Int} (hp : IsRank c p) :
    topology c p.1 p.2 = .ok (connOf c p) := by
  obtain ⟨s, hs, _⟩ := C19_connections_follow_topology_partial c h p.1 p.2 hp.1 hp.2.1
    hp.2.2.1 hp.2.2.2
  unfold connOf
  rw [hs]

theorem connOf_sym {c : Cfg} (h : Layout c) {px py qy : Int} (hp : IsRank c (px, py))
    (hq : IsRank c (px, qy)) (s t : Conn) (es : connOf c (px, py) = s)
    (et : connOf c (px, qy) = t) :
    (s.up.ind = c.PROC_NUM px qy ↔ t.down.ind = c.PROC_NUM px py) ∧
    (s.up.ind = c.PROC_NUM px qy → s.up.split = t.down.split) ∧
    (s.up.outd = c.PROC_NUM px qy ↔ t.down.outd = c.PROC_NUM px py) ∧
    (s.up.outd = c.PROC_NUM px qy → s.up.split = t.down.split) := by
  have h1 := connOf_eq h hp
  have h2 := connOf_eq h hq
  rw [es] at h1
  rw [et] at h2
  obtain ⟨a, b, d, e⟩ := C19_connections_symmetric_partial c h px py qy hp.1 hp.2.1 hp.2.2.1
    hp.2.2.2 hq.2.2.1 hq.2.2.2 s t h1 h2
  exact ⟨a, fun x => (b x).1, d, fun x => (e x).1⟩

theorem connOf_valid {c : Cfg} (h : Layout c) {p : Int × Int} (hp : IsRank c p) (s : Conn)
    (es : connOf c p = s) : SideOk c p.1 s.up ∧ SideOk c p.1 s.down := by
  have h1 := connOf_eq h hp
  rw [es] at h1
  have key := C19_destinations_valid_partial c h p.1 p.2 hp.1 hp.2.1 hp.2.2.1 hp.2.2.2 s h1
  obtain ⟨a, b, d, e⟩ := key s.up (Or.inl rfl)
  obtain ⟨a', b', d', e'⟩ := key s.down (Or.inr rfl)
  exact ⟨⟨a.1, a.2, b.imp id (·.1), d.imp id (·.1), e⟩,
    ⟨a'.1, a'.2, b'.imp id (·.1), d'.imp id (·.1), e'⟩⟩

theorem connOf_x {c : Cfg} (h : Layout c) {p : Int × Int} (hp : IsRank c p) (s : Conn)
    (es : connOf c p = s) :
    (s.IDATA_DEST = -1 ∨ ∃ q, 0 ≤ q ∧ q < c.NXPE ∧ s.IDATA_DEST = c.PROC_NUM q p.2) ∧
    (s.ODATA_DEST = -1 ∨ ∃ q, 0 ≤ q ∧ q < c.NXPE ∧ s.ODATA_DEST = c.PROC_NUM q p.2) := by
  obtain ⟨a, b, k, d, e, hc⟩ := h.cuts
  have e1 := topology_eq h hc (py := p.2) hp.1 hp.2.1
  rw [connOf_eq h hp, es] at e1
  have i1 := topoEff_io c a b k d e p.1 p.2
  rw [← Except.ok.inj e1] at i1
  rw [i1.1, i1.2]
  unfold default_connections
  simp only
  obtain ⟨h0, h1, h2, h3⟩ := hp
  constructor
  · split
    · right; exact ⟨c.NXPE - 1, by omega, by omega, rfl⟩
    · by_cases hz : p.1 = 0
      · left; unfold Cfg.PROC_NUM; rw [if_pos (by omega)]
      · right; exact ⟨p.1 - 1, by omega, by omega, rfl⟩
  · split
    · right; exact ⟨0, by omega, by omega, rfl⟩
    · by_cases hz : p.1 = c.NXPE - 1
      · left; unfold Cfg.PROC_NUM; rw [if_pos (by omega)]
      · right; exact ⟨p.1 + 1, by omega, by omega, rfl⟩

theorem connOf_symX {c : Cfg} (h : Layout c) {px qx py : Int} (hp : IsRank c (px, py))
    (hq : IsRank c (qx, py)) (s t : Conn) (es : connOf c (px, py) = s)
    (et : connOf c (qx, py) = t) :
    s.ODATA_DEST = c.PROC_NUM qx py ↔ t.IDATA_DEST = c.PROC_NUM px py := by
  have h1 := connOf_eq h hp
  have h2 := connOf_eq h hq
  rw [es] at h1
  rw [et] at h2
  exact (C19_x_connections_symmetric_partial c h px qx py hp.1 hp.2.1 hq.1 hq.2.1 hp.2.2.1
      hp.2.2.2 s t h1 h2).1

theorem checks_myg {c : Cfg} (h : topologyChecks c = .ok ()) : c.MYG ≤ c.MYSUB := by
  unfold topologyChecks at h
  by_contra hc
  split at h
  · cases h
  split at h
  · cases h
  split at h
  · cases h
  rw [if_pos (by omega)] at h
  cases h

/-- The connections of an accepted layout form a symmetric network. -/
theorem net_of_layout (c : Cfg) (h : Layout c) : Net c (connOf c) where
  sizes := h.sizes
  mygLe := checks_myg h.checks
  okUp := fun p hp => (connOf_valid h hp _ rfl).1
  okDown := fun p hp => (connOf_valid h hp _ rfl).2
  symIn := fun px py qy hp hq => (connOf_sym h hp hq _ _ rfl rfl).1
  symOut := fun px py qy hp hq => (connOf_sym h hp hq _ _ rfl rfl).2.2.1
  splitIn := fun px py qy hp hq => (connOf_sym h hp hq _ _ rfl rfl).2.1
  splitOut := fun px py qy hp hq => (connOf_sym h hp hq _ _ rfl rfl).2.2.2
  okI := fun p hp => (connOf_x h hp _ rfl).1
  okO := fun p hp => (connOf_x h hp _ rfl).2
  symX := fun px qx py hp hq => connOf_symX h hp hq _ _ rfl rfl

/-! ## The sends of a rank, spelt out -/

theorem slice_congr {α : Type} {b b' : Nat → α} {off len : Nat}
    (h : ∀ i, off ≤ i → i < off + len → b i = b' i) : slice b off len = slice b' off len := by
  unfold slice
  apply List.map_congr_left
  intro i hi
  rw [List.mem_range] at hi
  exact h _ (by omega) (by omega)

/-- The data of a rectangle in packing order. -/
def payload {α : Type} (j : Job) (xge xlt yge ylt : Int) (store : Cell → α) : List α :=
  (cells j.nz j.vars xge xlt yge ylt).map store

theorem length_payload {α : Type} (j : Job) (xge xlt yge ylt : Int) (store : Cell → α)
    (hx : xge ≤ xlt) (hy : yge ≤ ylt) :
    (payload j xge xlt yge ylt store).length = (msg_len j.nz j.vars xge xlt yge ylt).toNat := by
  unfold payload
  rw [List.length_map, ← length_cells _ _ _ _ _ _ hx hy]; simp

theorem packAt_slice {α : Type} (off : Nat) (j : Job) (xge xlt yge ylt : Int)
    (store : Cell → α) (b : Nat → α) :
    let p := packAt off j.nz j.vars xge xlt yge ylt store b
    slice p.buf off p.len = payload j xge xlt yge ylt store ∧
    p.len = (cells j.nz j.vars xge xlt yge ylt).length ∧
    ∀ i, i < off → p.buf i = b i := by
  intro p
  obtain ⟨h1, h2⟩ := put_fold store (cells j.nz j.vars xge xlt yge ylt) ⟨0, fun i => b (off + i)⟩
  rw [← pack_eq] at h1 h2
  have hl : p.len = (cells j.nz j.vars xge xlt yge ylt).length := by
    show (pack_data _ _ _ _ _ _ _ _).len = _
    rw [h1]; simp
  refine ⟨?_, hl, ?_⟩
  · unfold slice payload
    apply List.ext_getElem?
    intro i
    rw [List.getElem?_map, List.getElem?_map]
    by_cases hi : i < p.len
    · rw [List.getElem?_range hi]
      have hi' := hi
      rw [hl] at hi'
      rw [List.getElem?_eq_getElem hi']
      simp only [Option.map_some]
      congr 1
      show (if off + i < off then b (off + i) else
        (pack_data j.nz j.vars xge xlt yge ylt store (fun i => b (off + i))).buf (off + i - off)) = _
      rw [if_neg (by omega), h2, if_neg (by simp)]
      rw [show off + i - off - (⟨0, fun i => b (off + i)⟩ : Packing α).len = i by
        show off + i - off - 0 = i; omega, List.getElem?_eq_getElem hi']
    · rw [List.getElem?_eq_none (by simpa using hi), List.getElem?_eq_none (by omega)]
      rfl
  · intro i hi
    show (if i < off then b i else _) = b i
    rw [if_pos hi]

/-- Whether blocking or not, `sendSide` transmits the inner columns to `ind` and the outer
ones to `outd`. -/
theorem sendSide_msgs {α : Type} (c : Cfg) (j : Job) (w : Side) (yge ylt : Int)
    (tagIn tagOut : Nat) (store : Cell → α) (b : Nat → α) (async : Bool) :
    (let r := sendSide c j w yge ylt tagIn tagOut store b
     if async then r.2.map (asynchronous r.1) else r.2.map blocking) =
      (if w.ind ≠ -1 then [⟨w.ind, tagIn, payload j 0 w.split yge ylt store⟩] else []) ++
      (if w.outd ≠ -1 then [⟨w.outd, tagOut, payload j w.split c.LocalNx yge ylt store⟩]
       else []) := by
  have P0 := packAt_slice 0 j 0 w.split yge ylt store b
  unfold sendSide
  by_cases hi : w.ind = -1
  · simp only [hi, ne_eq, not_true_eq_false, if_false, List.nil_append]
    by_cases ho : w.outd = -1
    · simp [ho]
    · have P1 := packAt_slice 0 j w.split c.LocalNx yge ylt store b
      simp only at P1
      cases async <;> simp [ho, blocking, asynchronous, P1.1]
  · by_cases ho : w.outd = -1
    · simp only at P0
      cases async <;> simp [hi, ho, blocking, asynchronous, P0.1]
    · have P1 := packAt_slice (packAt 0 j.nz j.vars 0 w.split yge ylt store b).len j w.split
        c.LocalNx yge ylt store (packAt 0 j.nz j.vars 0 w.split yge ylt store b).buf
      simp only at P0 P1
      have hs : slice (packAt (packAt 0 j.nz j.vars 0 w.split yge ylt store b).len j.nz j.vars
          w.split c.LocalNx yge ylt store (packAt 0 j.nz j.vars 0 w.split yge ylt store b).buf).buf
          0 (packAt 0 j.nz j.vars 0 w.split yge ylt store b).len
          = payload j 0 w.split yge ylt store := by
        rw [← P0.1]
        apply slice_congr
        intro i _ hi
        exact P1.2.2 i (by omega)
      cases async <;> simp [hi, ho, blocking, asynchronous, P0.1, P1.1, hs]

theorem sendXSide_msgs {α : Type} (c : Cfg) (j : Job) (dest xge xlt : Int) (tag : Nat)
    (store : Cell → α) (b : Nat → α) (async : Bool) :
    (let r := sendXSide c j dest xge xlt tag store b
     if async then r.2.map (asynchronous r.1) else r.2.map blocking) =
      if dest ≠ -1 then [⟨dest, tag, payload j xge xlt (xRows c j).1 (xRows c j).2 store⟩]
      else [] := by
  have P0 := packAt_slice 0 j xge xlt (xRows c j).1 (xRows c j).2 store b
  simp only at P0
  unfold sendXSide
  by_cases hd : dest = -1
  · simp [hd]
  · cases async <;> simp [hd, blocking, asynchronous, P0.1]

/-- The messages of a rank. -/
theorem sends_eq {α : Type} (c : Cfg) (s : Conn) (j : Job) (async : Bool) (store : Cell → α)
    (b : SendBufs α) :
    sends c s j async store b =
      (if j.doX then
        (if s.IDATA_DEST ≠ -1 then [⟨s.IDATA_DEST, IN_SENT_OUT,
          payload j c.MXG (2 * c.MXG) (xRows c j).1 (xRows c j).2 store⟩] else []) ++
        (if s.ODATA_DEST ≠ -1 then [⟨s.ODATA_DEST, OUT_SENT_IN,
          payload j c.MXSUB (c.MXSUB + c.MXG) (xRows c j).1 (xRows c j).2 store⟩] else [])
       else []) ++
      (if j.doY then
        ((if s.up.ind ≠ -1 then [⟨s.up.ind, IN_SENT_UP,
            payload j 0 s.up.split c.MYSUB (c.MYSUB + c.MYG) store⟩] else []) ++
         (if s.up.outd ≠ -1 then [⟨s.up.outd, OUT_SENT_UP,
            payload j s.up.split c.LocalNx c.MYSUB (c.MYSUB + c.MYG) store⟩] else [])) ++
        ((if s.down.ind ≠ -1 then [⟨s.down.ind, IN_SENT_DOWN,
            payload j 0 s.down.split c.MYG (2 * c.MYG) store⟩] else []) ++
         (if s.down.outd ≠ -1 then [⟨s.down.outd, OUT_SENT_DOWN,
            payload j s.down.split c.LocalNx c.MYG (2 * c.MYG) store⟩] else []))
       else []) := by
  unfold sends
  have h1 := sendXSide_msgs c j s.IDATA_DEST c.MXG (2 * c.MXG) IN_SENT_OUT store b.i async
  have h2 := sendXSide_msgs c j s.ODATA_DEST c.MXSUB (c.MXSUB + c.MXG) OUT_SENT_IN store b.o async
  have h3 := sendSide_msgs c j s.up c.MYSUB (c.MYSUB + c.MYG) IN_SENT_UP OUT_SENT_UP store b.u async
  have h4 := sendSide_msgs c j s.down c.MYG (2 * c.MYG) IN_SENT_DOWN OUT_SENT_DOWN store b.d async
  simp only at h1 h2 h3 h4
  simp only [h1, h2, h3, h4]

/-! ## Symmetry for arbitrary pairs of ranks -/

theorem rank_inj {c : Cfg} {p q : Int × Int} (hp : IsRank c p)
    (hq : IsRank c q) (e : rankAt c p = rankAt c q) : p = q := by
  obtain ⟨p0, p1, p2, p3⟩ := hp
  obtain ⟨q0, q1, q2, q3⟩ := hq
  unfold rankAt Cfg.PROC_NUM at e
  rw [if_neg (by omega), if_neg (by omega), if_neg (by omega), if_neg (by omega)] at e
  have := block_unique (m := c.NXPE) (p := p.2) (q := q.2) (r := p.1) (s := q.1)
    p2 q2 p0 p1 q0 q1 e
  exact Prod.ext this.2 this.1

theorem rank_ne {c : Cfg} (h : Sizes c) {p : Int × Int} (hp : IsRank c p) : rankAt c p ≠ -1 :=
  proc_num_ne h hp.1 hp.2.1 hp.2.2.1 hp.2.2.2

section
variable {c : Cfg} {conn : Int × Int → Conn} (hn : Net c conn) {p q : Int × Int}
  (hp : IsRank c p) (hq : IsRank c q)
include hn hp hq

/-- A Y destination of a rank in another processor column is impossible. -/
theorem dest_column {px : Int} {d : Int} (h0 : 0 ≤ px) (h1 : px < c.NXPE)
    (hd : d = -1 ∨ ∃ y, 0 ≤ y ∧ y < c.NYPE ∧ d = c.PROC_NUM px y) (e : d = rankAt c q) :
    q.1 = px := by
  rcases hd with hd | ⟨y, y0, y1, hd⟩
  · exact absurd (e ▸ hd) (rank_ne hn.sizes hq)
  · have : rankAt c (px, y) = rankAt c q := by rw [← e]; exact hd.symm
    have := rank_inj (c := c) (p := (px, y)) ⟨h0, h1, y0, y1⟩ hq this
    rw [← this]

theorem dest_row {py : Int} {d : Int} (h0 : 0 ≤ py) (h1 : py < c.NYPE)
    (hd : d = -1 ∨ ∃ x, 0 ≤ x ∧ x < c.NXPE ∧ d = c.PROC_NUM x py) (e : d = rankAt c q) :
    q.2 = py := by
  rcases hd with hd | ⟨x, x0, x1, hd⟩
  · exact absurd (e ▸ hd) (rank_ne hn.sizes hq)
  · have : rankAt c (x, py) = rankAt c q := by rw [← e]; exact hd.symm
    have := rank_inj (c := c) (p := (x, py)) ⟨x0, x1, h0, h1⟩ hq this
    rw [← this]

theorem Net.in_iff : (conn p).up.ind = rankAt c q ↔ (conn q).down.ind = rankAt c p := by
  constructor
  · intro e
    have hc := dest_column hn hp hq hp.1 hp.2.1 (hn.okUp p hp).ind e
    obtain ⟨px, py⟩ := p
    obtain ⟨qx, qy⟩ := q
    simp only at hc
    subst hc
    exact (hn.symIn qx py qy hp hq).1 e
  · intro e
    have hc := dest_column hn hq hp hq.1 hq.2.1 (hn.okDown q hq).ind e
    obtain ⟨px, py⟩ := p
    obtain ⟨qx, qy⟩ := q
    simp only at hc
    subst hc
    exact (hn.symIn px py qy hp hq).2 e

theorem Net.out_iff : (conn p).up.outd = rankAt c q ↔ (conn q).down.outd = rankAt c p := by
  constructor
  · intro e
    have hc := dest_column hn hp hq hp.1 hp.2.1 (hn.okUp p hp).outd e
    obtain ⟨px, py⟩ := p
    obtain ⟨qx, qy⟩ := q
    simp only at hc
    subst hc
    exact (hn.symOut qx py qy hp hq).1 e
  · intro e
    have hc := dest_column hn hq hp hq.1 hq.2.1 (hn.okDown q hq).outd e
    obtain ⟨px, py⟩ := p
    obtain ⟨qx, qy⟩ := q
    simp only at hc
    subst hc
    exact (hn.symOut px py qy hp hq).2 e

theorem Net.in_split (e : (conn p).up.ind = rankAt c q) :
    (conn p).up.split = (conn q).down.split := by
  have hc := dest_column hn hp hq hp.1 hp.2.1 (hn.okUp p hp).ind e
  obtain ⟨px, py⟩ := p
  obtain ⟨qx, qy⟩ := q
  simp only at hc
  subst hc
  exact hn.splitIn qx py qy hp hq e

theorem Net.out_split (e : (conn p).up.outd = rankAt c q) :
    (conn p).up.split = (conn q).down.split := by
  have hc := dest_column hn hp hq hp.1 hp.2.1 (hn.okUp p hp).outd e
  obtain ⟨px, py⟩ := p
  obtain ⟨qx, qy⟩ := q
  simp only at hc
  subst hc
  exact hn.splitOut qx py qy hp hq e

theorem Net.x_iff : (conn p).ODATA_DEST = rankAt c q ↔ (conn q).IDATA_DEST = rankAt c p := by
  constructor
  · intro e
    have hc := dest_row hn hp hq hp.2.2.1 hp.2.2.2 (hn.okO p hp) e
    obtain ⟨px, py⟩ := p
    obtain ⟨qx, qy⟩ := q
    simp only at hc
    subst hc
    exact (hn.symX px qx qy hp hq).1 e
  · intro e
    have hc := dest_row hn hq hp hq.2.2.1 hq.2.2.2 (hn.okI q hq) e
    obtain ⟨px, py⟩ := p
    obtain ⟨qx, qy⟩ := q
    simp only at hc
    subst hc
    exact (hn.symX px qx py hp hq).2 e

end

/-! ## Matching -/

/-- The messages rank `p` sends to rank `q` with tag `t`, in order. -/
def chanSends {α : Type} (c : Cfg) (conn : Int × Int → Conn) (j : Job) (async : Bool)
    (store : Cell → α) (b : SendBufs α) (p q : Int × Int) (t : Nat) : List (Msg α) :=
  (sends c (conn p) j async store b).filter (fun m => decide (m.dst = rankAt c q ∧ m.tag = t))

/-- The receives rank `q` posts for messages from rank `p` with tag `t`, in order. -/
def chanRecvs (c : Cfg) (conn : Int × Int → Conn) (j : Job) (p q : Int × Int) (t : Nat) :
    List Recv :=
  (recvs c (conn q) j).filter (fun r => decide (r.src = rankAt c p ∧ r.tag = t))

theorem filter_send {α : Type} {d R : Int} {tag t : Nat} {x : List α} (hR : R ≠ -1) :
    (if d ≠ -1 then [(⟨d, tag, x⟩ : Msg α)] else []).filter
      (fun m => decide (m.dst = R ∧ m.tag = t))
      = if d = R ∧ tag = t then [⟨d, tag, x⟩] else [] := by
  by_cases hd : d = -1
  · rw [if_neg (by simpa using hd)]
    rw [if_neg (by rintro ⟨rfl, _⟩; exact hR hd)]
    rfl
  · rw [if_pos hd]
    by_cases h : d = R ∧ tag = t
    · rw [if_pos h, List.filter_cons_of_pos (by simp [h]), List.filter_nil]
    · rw [if_neg h, List.filter_cons_of_neg (by simpa using h), List.filter_nil]

theorem filter_recv {d R : Int} {tag t slot off len : Nat} {b : RBuf} (hR : R ≠ -1) :
    (if d ≠ -1 then [(⟨slot, d, tag, b, off, len⟩ : Recv)] else []).filter
      (fun m => decide (m.src = R ∧ m.tag = t))
      = if d = R ∧ tag = t then [⟨slot, d, tag, b, off, len⟩] else [] := by
  by_cases hd : d = -1
  · rw [if_neg (by simpa using hd)]
    rw [if_neg (by rintro ⟨rfl, _⟩; exact hR hd)]
    rfl
  · rw [if_pos hd]
    by_cases h : d = R ∧ tag = t
    · rw [if_pos h, List.filter_cons_of_pos (by simp [h]), List.filter_nil]
    · rw [if_neg h, List.filter_cons_of_neg (by simpa using h), List.filter_nil]

/-- The content of a channel, tag by tag. -/
theorem chanSends_eq {α : Type} {c : Cfg} {conn : Int × Int → Conn} (hs : Sizes c) (j : Job)
    (async : Bool) (store : Cell → α) (b : SendBufs α) {p q : Int × Int} (hq : IsRank c q)
    (t : Nat) :
    chanSends c conn j async store b p q t =
      let s := conn p
      let R := rankAt c q
      (if j.doX then
        (if s.IDATA_DEST = R ∧ IN_SENT_OUT = t then [⟨s.IDATA_DEST, IN_SENT_OUT,
          payload j c.MXG (2 * c.MXG) (xRows c j).1 (xRows c j).2 store⟩] else []) ++
        (if s.ODATA_DEST = R ∧ OUT_SENT_IN = t then [⟨s.ODATA_DEST, OUT_SENT_IN,
          payload j c.MXSUB (c.MXSUB + c.MXG) (xRows c j).1 (xRows c j).2 store⟩] else [])
       else []) ++
      (if j.doY then
        ((if s.up.ind = R ∧ IN_SENT_UP = t then [⟨s.up.ind, IN_SENT_UP,
            payload j 0 s.up.split c.MYSUB (c.MYSUB + c.MYG) store⟩] else []) ++
         (if s.up.outd = R ∧ OUT_SENT_UP = t then [⟨s.up.outd, OUT_SENT_UP,
            payload j s.up.split c.LocalNx c.MYSUB (c.MYSUB + c.MYG) store⟩] else [])) ++
        ((if s.down.ind = R ∧ IN_SENT_DOWN = t then [⟨s.down.ind, IN_SENT_DOWN,
            payload j 0 s.down.split c.MYG (2 * c.MYG) store⟩] else []) ++
         (if s.down.outd = R ∧ OUT_SENT_DOWN = t then [⟨s.down.outd, OUT_SENT_DOWN,
            payload j s.down.split c.LocalNx c.MYG (2 * c.MYG) store⟩] else []))
       else []) := by
  have hR := rank_ne hs hq
  unfold chanSends
  rw [sends_eq]
  cases j.doX <;> cases j.doY <;>
    simp only [Bool.false_eq_true, if_false, if_true, List.filter_append, filter_send hR,
      List.filter_nil]

theorem chanRecvs_eq {c : Cfg} {conn : Int × Int → Conn} (hs : Sizes c) (j : Job)
    {p q : Int × Int} (hp : IsRank c p) (t : Nat) :
    chanRecvs c conn j p q t =
      let s := conn q
      let R := rankAt c p
      let lenX := (msg_len j.nz j.vars 0 c.MXG 0 (if j.corners then c.LocalNy else c.MYSUB)).toNat
      let lenU := if s.up.ind ≠ -1 then (msg_len j.nz j.vars 0 s.up.split 0 c.MYG).toNat else 0
      let lenD := if s.down.ind ≠ -1 then (msg_len j.nz j.vars 0 s.down.split 0 c.MYG).toNat else 0
      (if j.doX then
        (if s.IDATA_DEST = R ∧ OUT_SENT_IN = t then
          [⟨4, s.IDATA_DEST, OUT_SENT_IN, .i, 0, lenX⟩] else []) ++
        (if s.ODATA_DEST = R ∧ IN_SENT_OUT = t then
          [⟨5, s.ODATA_DEST, IN_SENT_OUT, .o, 0, lenX⟩] else [])
       else []) ++
      (if j.doY then
        ((if s.up.ind = R ∧ IN_SENT_DOWN = t then
            [⟨0, s.up.ind, IN_SENT_DOWN, .u, 0, lenU⟩] else []) ++
         (if s.up.outd = R ∧ OUT_SENT_DOWN = t then
            [⟨1, s.up.outd, OUT_SENT_DOWN, .u, lenU,
              (msg_len j.nz j.vars s.up.split c.LocalNx 0 c.MYG).toNat⟩] else [])) ++
        ((if s.down.ind = R ∧ IN_SENT_UP = t then
            [⟨2, s.down.ind, IN_SENT_UP, .d, 0, lenD⟩] else []) ++
         (if s.down.outd = R ∧ OUT_SENT_UP = t then
            [⟨3, s.down.outd, OUT_SENT_UP, .d, lenD,
              (msg_len j.nz j.vars s.down.split c.LocalNx 0 c.MYG).toNat⟩] else []))
       else []) := by
  have hR := rank_ne hs hp
  unfold chanRecvs recvs postX postSide
  cases j.doX <;> cases j.doY <;>
    simp only [Bool.false_eq_true, if_false, if_true, List.filter_append, filter_recv hR,
      List.filter_nil]

theorem ite_list_congr {β : Type} {a b : Prop} [Decidable a] [Decidable b] {x y : β}
    (h : a ↔ b) (e : a → x = y) : (if a then [x] else []) = (if b then [y] else []) := by
  by_cases ha : a
  · rw [if_pos ha, if_pos (h.1 ha), e ha]
  · rw [if_neg ha, if_neg (fun hb => ha (h.2 hb))]

/-- `msg_len` depends only on the extents. -/
theorem msg_len_shift (nz : Nat) (vars : List Var) (a b c d x y : Int) :
    msg_len nz vars (a + x) (b + x) (c + y) (d + y) = msg_len nz vars a b c d := by
  unfold msg_len
  rw [show b + x - (a + x) = b - a by ring, show d + y - (c + y) = d - c by ring]

theorem msg_len_extents (nz : Nat) (vars : List Var) {a b c d a' b' c' d' : Int}
    (h1 : b - a = b' - a') (h2 : d - c = d' - c') :
    msg_len nz vars a b c d = msg_len nz vars a' b' c' d' := by
  unfold msg_len; rw [h1, h2]

end Verif.Comm
