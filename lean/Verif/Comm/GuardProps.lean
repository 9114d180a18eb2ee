/-
C42: the theorems.
-/
import Verif.Comm.Guard

namespace Verif.Comm
open Verif.Mesh

/-- The buffer and offset a slot is unpacked from. -/
def placeBuf (c : Cfg) (s : Conn) (j : Job) (n : Nat) : RBuf := (unpackPlace c s j n).2.2.2.2.1
def placeOff (c : Cfg) (s : Conn) (j : Job) (n : Nat) : Nat := (unpackPlace c s j n).2.2.2.2.2

/-- The data of a slot is in the buffer where it will be looked for. -/
def Ready {α : Type} (c : Cfg) (s : Conn) (j : Job) (W : World α) (n : Nat)
    (buf : RBuf → Nat → α) : Prop :=
  ∀ (i : Nat) (x : α), (dataOf c s j W n)[i]? = some x →
    buf (placeBuf c s j n) (placeOff c s j n + i) = x

/-- The cells a slot fills. -/
def Reg (c : Cfg) (s : Conn) (j : Job) (n : Nat) (d : Cell) : Prop :=
  let r := rectOf c s j n
  InRect j.nz j.vars r.1 r.2.1 r.2.2.1 r.2.2.2 d

/-- The value a slot puts in a cell. -/
def slotVal {α : Type} (c : Cfg) (s : Conn) (W : World α) (n : Nat) (d : Cell) : α :=
  W (peerPos c s n) ⟨d.v, d.x - (shiftOf c n).1, d.y - (shiftOf c n).2, d.z⟩

theorem unpack_ready {α : Type} (c : Cfg) (s : Conn) (j : Job) (W : World α) (n : Nat)
    (w : Waiting α) (hr : Ready c s j W n w.buf) (d : Cell) :
    (Reg c s j n d → (unpackSlot c s j n w).store d = slotVal c s W n d) ∧
    (¬ Reg c s j n d → (unpackSlot c s j n w).store d = w.store d) := by
  have e : (unpackSlot c s j n w).store = (unpack_data j.nz j.vars (rectOf c s j n).1
      (rectOf c s j n).2.1 (rectOf c s j n).2.2.1 (rectOf c s j n).2.2.2
      (fun i => w.buf (placeBuf c s j n) (placeOff c s j n + i)) w.store).store := rfl
  rw [e, unpack_eq, get_fold _ (slotVal c s W n)]
  · simp only [mem_cells]
    exact ⟨fun h => if_pos h, fun h => if_neg h⟩
  · intro i a ha
    simp only [Nat.zero_add]
    apply hr
    unfold dataOf payload slotVal
    simp only
    have sh := cells_shift j.nz j.vars ((rectOf c s j n).1 - (shiftOf c n).1)
      ((rectOf c s j n).2.1 - (shiftOf c n).1) ((rectOf c s j n).2.2.1 - (shiftOf c n).2)
      ((rectOf c s j n).2.2.2 - (shiftOf c n).2) (shiftOf c n).1 (shiftOf c n).2
    simp only [Int.sub_add_cancel] at sh
    rw [sh, List.getElem?_map] at ha
    rw [List.getElem?_map]
    cases hc : (cells j.nz j.vars ((rectOf c s j n).1 - (shiftOf c n).1)
      ((rectOf c s j n).2.1 - (shiftOf c n).1) ((rectOf c s j n).2.2.1 - (shiftOf c n).2)
      ((rectOf c s j n).2.2.2 - (shiftOf c n).2))[i]? with
    | none => rw [hc] at ha; cases ha
    | some a0 =>
      rw [hc] at ha
      have ha' := Option.some.inj ha
      rw [← ha']
      simp only [Option.map_some]
      congr 2
      cases a0; simp

section
variable {c : Cfg} {conn : Int × Int → Conn} (hn : Net c conn) {q : Int × Int}
  (hq : IsRank c q)
include hn hq

/-- Receives are posted where `wait` will look for the data. -/
theorem post_place {j : Job} {n : Nat} (hp : Posted (conn q) j n) :
    (recvOf c (conn q) j n).buf = placeBuf c (conn q) j n ∧
    (recvOf c (conn q) j n).off = placeOff c (conn q) j n := by
  obtain ⟨h6, hd, _⟩ := hp
  have U := hn.okUp q hq
  have D := hn.okDown q hq
  have z : ∀ a : Int, msg_len j.nz j.vars a a 0 c.MYG = 0 := by
    intro a
    have := length_cells j.nz j.vars a a 0 c.MYG (by omega) hn.sizes.myg
    rw [← this]
    have : cells j.nz j.vars a a 0 c.MYG = [] := by
      apply List.eq_nil_iff_forall_not_mem.2
      intro x hx
      have := mem_cells.1 hx
      obtain ⟨_, h, _⟩ := this
      omega
    rw [this]; rfl
  have six : n = 0 ∨ n = 1 ∨ n = 2 ∨ n = 3 ∨ n = 4 ∨ n = 5 := by omega
  rcases six with rfl | rfl | rfl | rfl | rfl | rfl
  · exact ⟨rfl, rfl⟩
  · refine ⟨rfl, ?_⟩
    show (if (conn q).up.ind ≠ -1 then _ else 0) =
      (msg_len j.nz j.vars 0 (conn q).up.split 0 c.MYG).toNat
    by_cases hi : (conn q).up.ind = -1
    · rw [if_neg (by simpa using hi), U.noInner hi hd, z]; rfl
    · rw [if_pos hi]
  · exact ⟨rfl, rfl⟩
  · refine ⟨rfl, ?_⟩
    show (if (conn q).down.ind ≠ -1 then _ else 0) =
      (msg_len j.nz j.vars 0 (conn q).down.split 0 c.MYG).toNat
    by_cases hi : (conn q).down.ind = -1
    · rw [if_neg (by simpa using hi), D.noInner hi hd, z]; rfl
    · rw [if_pos hi]
  · exact ⟨rfl, rfl⟩
  · exact ⟨rfl, rfl⟩

/-- Two posted slots never share buffer space: different buffers, or one ends where the
other begins. -/
theorem slots_apart {α : Type} {j : Job} {n m : Nat} (hp : Posted (conn q) j n)
    (hm : Posted (conn q) j m) (hne : n ≠ m) (W : World α) :
    placeBuf c (conn q) j n ≠ placeBuf c (conn q) j m ∨
    placeOff c (conn q) j n + (dataOf c (conn q) j W n).length ≤ placeOff c (conn q) j m ∨
    placeOff c (conn q) j m + (dataOf c (conn q) j W m).length ≤ placeOff c (conn q) j n := by
  have U := hn.okUp q hq
  have D := hn.okDown q hq
  have g := hn.sizes.myg
  have l0 : (dataOf c (conn q) j W 0).length
      = (msg_len j.nz j.vars 0 (conn q).UDATA_XSPLIT 0 c.MYG).toNat := by
    have : (0:Int) ≤ (conn q).UDATA_XSPLIT := U.split0
    unfold dataOf rectOf unpackPlace shiftOf
    simp only
    rw [length_payload _ _ _ _ _ _ (by omega) (by omega),
      msg_len_extents j.nz j.vars (a' := 0) (b' := (conn q).UDATA_XSPLIT) (c' := 0)
        (d' := c.MYG) (by omega) (by omega)]
  have l2 : (dataOf c (conn q) j W 2).length
      = (msg_len j.nz j.vars 0 (conn q).DDATA_XSPLIT 0 c.MYG).toNat := by
    have : (0:Int) ≤ (conn q).DDATA_XSPLIT := D.split0
    unfold dataOf rectOf unpackPlace shiftOf
    simp only
    rw [length_payload _ _ _ _ _ _ (by omega) (by omega),
      msg_len_extents j.nz j.vars (a' := 0) (b' := (conn q).DDATA_XSPLIT) (c' := 0)
        (d' := c.MYG) (by omega) (by omega)]
  have six : n = 0 ∨ n = 1 ∨ n = 2 ∨ n = 3 ∨ n = 4 ∨ n = 5 := by have := hp.1; omega
  have six' : m = 0 ∨ m = 1 ∨ m = 2 ∨ m = 3 ∨ m = 4 ∨ m = 5 := by have := hm.1; omega
  rcases six with rfl | rfl | rfl | rfl | rfl | rfl <;>
    rcases six' with rfl | rfl | rfl | rfl | rfl | rfl <;>
    first
    | exact absurd rfl hne
    | (left; show (_ : RBuf) ≠ _; intro h; cases h; done)
    | (right; left; rw [l0]; show 0 + _ ≤ _; exact (Nat.zero_add _).le)
    | (right; right; rw [l0]; show 0 + _ ≤ _; exact (Nat.zero_add _).le)
    | (right; left; rw [l2]; show 0 + _ ≤ _; exact (Nat.zero_add _).le)
    | (right; right; rw [l2]; show 0 + _ ≤ _; exact (Nat.zero_add _).le)

theorem ready_after {α : Type} {j : Job} {n : Nat} (hp : Posted (conn q) j n) (async : Bool)
    (W : World α) (B : Int × Int → SendBufs α) (w : Waiting α) :
    Ready c (conn q) j W n (arriveEff (incoming c conn j async W B q) n w).buf := by
  intro i x hx
  obtain ⟨hb, ho⟩ := post_place hn hq hp
  unfold arriveEff
  rw [incoming_eq hn hq hp async W B]
  simp only [land]
  rw [hb, ho, if_pos ⟨rfl, by omega⟩, show placeOff c (conn q) j n + i - placeOff c (conn q) j n = i
    by omega, hx]
  rfl

theorem ready_keeps {α : Type} {j : Job} {n m : Nat} (hp : Posted (conn q) j n)
    (hm : Posted (conn q) j m) (hne : n ≠ m) (async : Bool)
    (W : World α) (B : Int × Int → SendBufs α) (w : Waiting α)
    (hr : Ready c (conn q) j W m w.buf) :
    Ready c (conn q) j W m (arriveEff (incoming c conn j async W B q) n w).buf := by
  intro i x hx
  obtain ⟨hb, ho⟩ := post_place hn hq hp
  have hi : i < (dataOf c (conn q) j W m).length := (List.getElem?_eq_some_iff.1 hx).1
  rw [← hr i x hx]
  unfold arriveEff
  rw [incoming_eq hn hq hp async W B]
  simp only [land]
  rw [hb, ho]
  rcases slots_apart hn hq hp hm hne W with h | h | h
  · rw [if_neg (fun hh => h hh.1.symm)]
  · split
    · rw [List.getElem?_eq_none (by omega)]; rfl
    · rfl
  · rw [if_neg (fun hh => by omega)]

/-- The rectangles of different slots do not overlap. -/
theorem regs_apart {j : Job} {n m : Nat} (hcorner : ¬ (j.corners = true ∧ j.doX = true ∧ j.doY = true))
    (hp : Posted (conn q) j n) (hm : Posted (conn q) j m) (hne : n ≠ m) (d : Cell)
    (hd : Reg c (conn q) j n d) : ¬ Reg c (conn q) j m d := by
  intro hd'
  obtain ⟨_, hx, hy, _⟩ := hd
  obtain ⟨_, hx', hy', _⟩ := hd'
  obtain ⟨_, hMX, _, hMY⟩ := hn.sizes.split
  have g := hn.sizes.myg
  have gx := hn.sizes.mxg
  obtain ⟨h6, _, hf⟩ := hp
  obtain ⟨h6', _, hf'⟩ := hm
  have rows : (n < 4 ∧ 4 ≤ m ∨ m < 4 ∧ 4 ≤ n) → xRows c j = (c.MYG, c.MYG + c.MYSUB) := by
    intro h
    unfold xRows
    rw [if_neg]
    intro hc
    apply hcorner
    rcases h with ⟨h1, h2⟩ | ⟨h1, h2⟩
    · rw [if_pos h1] at hf; rw [if_neg (by omega)] at hf'; exact ⟨hc, hf', hf⟩
    · rw [if_pos h1] at hf'; rw [if_neg (by omega)] at hf; exact ⟨hc, hf, hf'⟩
  have six : n = 0 ∨ n = 1 ∨ n = 2 ∨ n = 3 ∨ n = 4 ∨ n = 5 := by omega
  have six' : m = 0 ∨ m = 1 ∨ m = 2 ∨ m = 3 ∨ m = 4 ∨ m = 5 := by omega
  rcases six with rfl | rfl | rfl | rfl | rfl | rfl <;>
    rcases six' with rfl | rfl | rfl | rfl | rfl | rfl <;>
    first
    | exact absurd rfl hne
    | (simp only [rectOf, unpackPlace] at hx hx' hy hy'; omega)
    | (have := rows (by omega); simp only [rectOf, unpackPlace, this] at hx hx' hy hy'; omega)

/-- Every schedule leaves the peers' data in the guard cells of the posted slots, and all
other cells as they were. -/
theorem wait_effect {α : Type} {j : Job}
    (hcorner : ¬ (j.corners = true ∧ j.doX = true ∧ j.doY = true)) (async : Bool)
    (W : World α) (B : Int × Int → SendBufs α) (rbuf : RBuf → Nat → α) (es : List Event)
    (hes : Schedule (postedSlots c (conn q) j) [] es) (d : Cell) :
    (∀ n, Posted (conn q) j n → Reg c (conn q) j n d →
      (runEvents c (conn q) j (incoming c conn j async W B q) es ⟨W q, rbuf⟩).store d
        = slotVal c (conn q) W n d) ∧
    ((∀ n, Posted (conn q) j n → ¬ Reg c (conn q) j n d) →
      (runEvents c (conn q) j (incoming c conn j async W B q) es ⟨W q, rbuf⟩).store d
        = W q d) := by
  have := schedule_effect c (conn q) j (incoming c conn j async W B q)
    (Posted (conn q) j) (Ready c (conn q) j W) (Reg c (conn q) j) (slotVal c (conn q) W)
    (fun n hp w => ready_after hn hq hp async W B w)
    (fun n m hp hm hne w hr => ready_keeps hn hq hp hm hne async W B w hr)
    (fun n hp w hr d => unpack_ready c (conn q) j W n w hr d)
    (fun n m d hp hm hne hd => regs_apart hn hq hcorner hp hm hne d hd)
    (postedSlots c (conn q) j) [] es hes
    (by rw [List.append_nil]; exact nodup_posted c (conn q) j)
    (by intro n hnm; rw [List.append_nil] at hnm; exact mem_posted.1 hnm)
    ⟨W q, rbuf⟩ (by simp) d
  rw [List.append_nil] at this
  exact ⟨fun n hp hr => this.1 n (mem_posted.2 hp) hr,
    fun hno => this.2 (fun n hm => hno n (mem_posted.1 hm))⟩

end

end Verif.Comm
