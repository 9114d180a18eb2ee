import Verif.Fft.Par

/-!
# Invariant of the thread-safe transforms

Proof material for `C77`; nothing here is part of the specification.
-/

namespace Verif.Fft

variable {α β : Type}

/-- Lengths of the allocated blocks. -/
def Heap.shape (h : Heap α) (j : Nat) : Option Nat := (h.get j).map (·.len)

/-- Exactly one block, of length `n`, at `id`. -/
def Own (h : Heap α) (id n : Nat) : Prop := h.shape = fun j => if j = id then some n else none

/-- Nothing allocated. -/
def Dead (h : Heap α) : Prop := h.shape = fun _ => none

theorem Own.get {h : Heap α} {id n : Nat} (ho : Own h id n) :
    ∃ b, h.get id = some b ∧ b.len = n := by
  have := congrFun ho id
  simp only [Heap.shape, if_true] at this
  cases hb : h.get id with
  | none => rw [hb] at this; cases this
  | some b => rw [hb] at this; exact ⟨b, rfl, by simpa using this⟩

theorem Own.alloc {h : Heap α} (hd : Dead h) (n : Nat) (junk : Nat → α) :
    Own (h.alloc n junk).1 (h.alloc n junk).2 n := by
  funext j
  simp only [Heap.shape, Heap.alloc]
  by_cases hj : j = h.next
  · simp [hj]
  · simp only [if_neg hj]
    have := congrFun hd j
    simp only [Heap.shape] at this
    rw [this]
    exact (if_neg hj).symm

theorem Own.free {h : Heap α} {id n : Nat} (ho : Own h id n) :
    ∃ h', h.free id = .ok h' ∧ Dead h' := by
  obtain ⟨b, hb, hl⟩ := ho.get
  refine ⟨⟨h.next, fun i => if i = id then none else h.get i⟩, by simp [Heap.free, hb], ?_⟩
  funext j
  simp only [Heap.shape]
  by_cases hj : j = id
  · simp [hj]
  · have := congrFun ho j
    simp only [Heap.shape, if_neg hj] at this
    simp [hj] at this ⊢
    exact this

theorem read_ok {h : Heap α} {id : Nat} {b : Block α} (hb : h.get id = some b) {i : Nat}
    (hi : i < b.len) : h.read id i = .ok (b.dat i) := by
  simp [Heap.read, hb, hi]

theorem write_ok {h : Heap α} {id : Nat} {b : Block α} (hb : h.get id = some b) {i : Nat}
    (hi : i < b.len) (v : α) : ∃ h', h.write id i v = .ok h' ∧ h'.shape = h.shape ∧
      h'.get id = some ⟨b.len, fun k => if k = i then v else b.dat k⟩ := by
  refine ⟨⟨h.next, fun j => if j = id then
    some ⟨b.len, fun k => if k = i then v else b.dat k⟩ else h.get j⟩,
    by simp [Heap.write, hb, hi], ?_, by simp⟩
  funext j
  simp only [Heap.shape]
  by_cases hj : j = id
  · simp [hj, hb]
  · simp [hj]

theorem readMany_ok {h : Heap α} {id : Nat} {b : Block α} (hb : h.get id = some b)
    {off w : Nat} (hw : off + w ≤ b.len) :
    h.readMany id off w = .ok (fun j => b.dat (off + j)) := by
  simp [Heap.readMany, hb, hw]

theorem writeMany_ok {h : Heap α} {id : Nat} {b : Block α} (hb : h.get id = some b)
    {off w : Nat} (hw : off + w ≤ b.len) (v : Nat → α) :
    ∃ h', h.writeMany id off w v = .ok h' ∧ h'.shape = h.shape ∧
      h'.get id = some ⟨b.len,
        fun k => if off ≤ k ∧ k < off + w then v (k - off) else b.dat k⟩ := by
  refine ⟨⟨h.next, fun j => if j = id then some ⟨b.len,
    fun k => if off ≤ k ∧ k < off + w then v (k - off) else b.dat k⟩ else h.get j⟩,
    by simp [Heap.writeMany, hb, hw], ?_, by simp⟩
  funext j
  simp only [Heap.shape]
  by_cases hj : j = id
  · simp [hj, hb]
  · simp [hj]

/-- The plan made for thread `i`. -/
def planFor (tr : Tr α β) (L : Nat) (g : Shared α β) (i : Nat) : Plan :=
  ⟨L, g.fin, i * tr.inW L, g.fout, i * tr.outW L⟩

/-- Work arrays and plans are in place for `M` threads and `L` points. -/
def Ready (tr : Tr α β) (g : Shared α β) (L M : Nat) : Prop :=
  Own g.hin g.fin (tr.inW L * M) ∧ Own g.hout g.fout (tr.outW L * M) ∧ Own g.hpl g.p M ∧
  ∀ b, g.hpl.get g.p = some b → ∀ i < M, b.dat i = some (planFor tr L g i)

/-- State of the static variables between calls. -/
def Cache (tr : Tr α β) (g : Shared α β) : Prop :=
  (g.size = 0 ∧ Dead g.hin ∧ Dead g.hout ∧ Dead g.hpl) ∨
  (0 < g.size ∧ Ready tr g g.size g.nth)

section
variable (tr : Tr α β) (norm : Nat → β → β) (N L : Nat)

/-- The test which lets a thread go on to use the work arrays. -/
def Settled (g : Shared α β) : Prop := g.size = L ∧ N ≤ g.nth

/-- What holds while some thread is at `pc` inside the critical section. -/
def CritOK (g : Shared α β) : Pc → Prop
  | .reSize => Cache tr g
  | .reNth => Cache tr g ∧ g.size = L
  | .chkFree => Cache tr g ∧ ¬ Settled N L g
  | .destroy i => ¬ Settled N L g ∧ (∃ a, Own g.hin g.fin a) ∧ (∃ a, Own g.hout g.fout a) ∧
      Own g.hpl g.p g.nth ∧ i ≤ g.nth ∧
      ∀ b, g.hpl.get g.p = some b → ∀ j, i ≤ j → j < g.nth → ∃ pl, b.dat j = some pl
  | .delP => ¬ Settled N L g ∧ (∃ a, Own g.hin g.fin a) ∧ (∃ a, Own g.hout g.fout a) ∧
      ∃ a, Own g.hpl g.p a
  | .freeIn => ¬ Settled N L g ∧ (∃ a, Own g.hin g.fin a) ∧ (∃ a, Own g.hout g.fout a) ∧
      Dead g.hpl
  | .freeOut => ¬ Settled N L g ∧ Dead g.hin ∧ (∃ a, Own g.hout g.fout a) ∧ Dead g.hpl
  | .allocIn => ¬ Settled N L g ∧ Dead g.hin ∧ Dead g.hout ∧ Dead g.hpl
  | .allocOut => ¬ Settled N L g ∧ Own g.hin g.fin (tr.inW L * N) ∧ Dead g.hout ∧ Dead g.hpl
  | .allocP => ¬ Settled N L g ∧ Own g.hin g.fin (tr.inW L * N) ∧
      Own g.hout g.fout (tr.outW L * N) ∧ Dead g.hpl
  | .plan i => ¬ Settled N L g ∧ Own g.hin g.fin (tr.inW L * N) ∧
      Own g.hout g.fout (tr.outW L * N) ∧ Own g.hpl g.p N ∧ i ≤ N ∧
      ∀ b, g.hpl.get g.p = some b → ∀ j < i, b.dat j = some (planFor tr L g j)
  | .setSize => ¬ Settled N L g ∧ Ready tr g L N
  | .setNth => g.size = L ∧ Ready tr g L N
  | .unlock => Cache tr g ∧ Settled N L g
  | _ => False

/-- Inside the critical section. -/
def isCrit : Pc → Bool
  | .reSize | .reNth | .chkFree | .destroy _ | .delP | .freeIn | .freeOut | .allocIn
  | .allocOut | .allocP | .plan _ | .setSize | .setNth | .unlock => true
  | _ => false

theorem CritOK.isCrit {tr : Tr α β} {N L : Nat} {g : Shared α β} {pc : Pc}
    (h : CritOK tr N L g pc) : isCrit pc = true := by
  cases pc <;> first | rfl | exact absurd h id

/-- Cells `off + j`, `j < w`, of the block at `id` hold `f j`. -/
def Slice {γ : Type} (h : Heap γ) (id off w : Nat) (f : Nat → γ) : Prop :=
  ∀ b, h.get id = some b → ∀ j < w, b.dat (off + j) = f j

/-- What a thread knows at its program counter. -/
def ThOK (g : Shared α β) (t : Nat) (x : Th α β) : Prop :=
  match x.pc with
  | .start => True
  | .chkNth => x.todo ≠ [] ∧ g.size = L
  | .ptrIn => x.todo ≠ [] ∧ Settled N L g
  | .offIn => x.todo ≠ [] ∧ Settled N L g ∧ x.fin = g.fin
  | .ptrOut => x.todo ≠ [] ∧ Settled N L g ∧ x.fin = g.fin ∧ x.finOff = t * tr.inW L
  | .offOut => x.todo ≠ [] ∧ Settled N L g ∧ x.fin = g.fin ∧ x.finOff = t * tr.inW L ∧
      x.fout = g.fout
  | .fill i => Settled N L g ∧ x.fin = g.fin ∧ x.finOff = t * tr.inW L ∧
      x.fout = g.fout ∧ x.foutOff = t * tr.outW L ∧ i ≤ tr.inW L ∧
      ∃ inp rest, x.todo = inp :: rest ∧ Slice g.hin g.fin (t * tr.inW L) i inp
  | .getPlan => Settled N L g ∧ x.fout = g.fout ∧ x.foutOff = t * tr.outW L ∧
      ∃ inp rest, x.todo = inp :: rest ∧ Slice g.hin g.fin (t * tr.inW L) (tr.inW L) inp
  | .execRead => Settled N L g ∧ x.fout = g.fout ∧ x.foutOff = t * tr.outW L ∧
      x.pl = some (planFor tr L g t) ∧
      ∃ inp rest, x.todo = inp :: rest ∧ Slice g.hin g.fin (t * tr.inW L) (tr.inW L) inp
  | .execWrite => Settled N L g ∧ x.fout = g.fout ∧ x.foutOff = t * tr.outW L ∧
      x.pl = some (planFor tr L g t) ∧
      ∃ inp rest, x.todo = inp :: rest ∧ x.tmp = tr.run L inp
  | .store i => Settled N L g ∧ x.fout = g.fout ∧ x.foutOff = t * tr.outW L ∧ i ≤ tr.outW L ∧
      ∃ inp rest, x.todo = inp :: rest ∧
        Slice g.hout g.fout (t * tr.outW L) (tr.outW L) (tr.run L inp) ∧
        ∀ j, x.out j = if j < i then some (norm L (tr.run L inp j)) else none
  | _ => x.todo ≠ []

/-- The `out` array a call with row `inp` must produce. -/
def expected (inp : Nat → α) : (Nat → α) × (Nat → Option β) :=
  (inp, fun j => if j < tr.outW L then some (norm L (tr.run L inp j)) else none)

/-- The finished calls are the first ones, with the right results. -/
def HistOK (calls : List (Nat → α)) (x : Th α β) : Prop :=
  ∃ k, x.done = (calls.take k).map (expected tr norm L) ∧ x.todo = calls.drop k

/-- The invariant of a parallel region. -/
structure Inv (calls : Nat → List (Nat → α)) (s : St α β) : Prop where
  free : s.g.lock = none → Cache tr s.g
  held : ∀ h, s.g.lock = some h → h < N ∧ CritOK tr N L s.g (s.th h).pc
  crit : ∀ t < N, isCrit (s.th t).pc = true → s.g.lock = some t
  ths : ∀ t < N, ThOK tr norm N L s.g t (s.th t)
  hist : ∀ t < N, HistOK tr norm L (calls t) (s.th t)

end

theorem Cache.ready {tr : Tr α β} {N L : Nat} {g : Shared α β} (hL : 0 < L)
    (h : Cache tr g) (hs : Settled N L g) : Ready tr g L g.nth := by
  rcases h with ⟨h0, _⟩ | ⟨_, h⟩
  · exact absurd (h0.symm.trans hs.1) (by omega)
  · rwa [hs.1] at h

/-- Whoever passed the test finds arrays for at least `N` threads. -/
theorem Inv.ready {tr : Tr α β} {norm : Nat → β → β} {N L : Nat} {calls : Nat → List (Nat → α)}
    {s : St α β} (hL : 0 < L) (h : Inv tr norm N L calls s) (hs : Settled N L s.g) :
    ∃ M, N ≤ M ∧ Ready tr s.g L M := by
  cases hl : s.g.lock with
  | none => exact ⟨_, hs.2, (h.free hl).ready hL hs⟩
  | some t =>
    obtain ⟨-, hc⟩ := h.held t hl
    revert hc
    generalize (s.th t).pc = pc
    intro hc
    cases pc <;> first
      | exact absurd hc id
      | exact absurd hs hc.1
      | exact absurd hs hc.2
      | exact ⟨_, hs.2, Cache.ready hL hc hs⟩
      | exact ⟨_, hs.2, Cache.ready hL hc.1 hs⟩
      | exact ⟨N, Nat.le_refl _, hc.2⟩

end Verif.Fft
