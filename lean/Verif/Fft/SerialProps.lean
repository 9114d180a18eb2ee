import Verif.Fft.Serial
import Verif.Fft.ParInv

/-!
# Facts about the cached serial transforms

Proof material for `C77`; nothing here is part of the specification.
-/

namespace Verif.Fft

open Verif.Fourier

variable {α β γ : Type}

/-- State of the static variables between calls, for functions which allocate `a n`, `b n`
cells and plan `pts n` points. -/
def SOK (a b pts : Nat → Nat) (c : SCache α β) : Prop :=
  (c.n = 0 ∧ Dead c.hin ∧ Dead c.hout) ∨
  (0 < c.n ∧ Own c.hin c.fin (a c.n) ∧ Own c.hout c.fout (b c.n) ∧
    c.p = mkPlan (pts c.n) c.fin 0 c.fout 0)

theorem setup_ok {a b pts : Nat → Nat} {c : SCache α β} (h : SOK a b pts c) {length : Nat}
    (hl : 0 < length) (o : Junk α β) :
    ∃ c', setup (a length) (b length) (pts length) length o c = .ok c' ∧ c'.n = length ∧
      Own c'.hin c'.fin (a length) ∧ Own c'.hout c'.fout (b length) ∧
      c'.p = mkPlan (pts length) c'.fin 0 c'.fout 0 := by
  unfold setup
  by_cases e : length ≠ c.n
  · rw [if_pos e]
    rcases h with ⟨h0, h1, h2⟩ | ⟨h0, h1, h2, h3⟩
    · rw [if_neg (by omega)]
      exact ⟨_, rfl, rfl, Own.alloc h1 _ _, Own.alloc h2 _ _, rfl⟩
    · rw [if_pos h0]
      obtain ⟨hi, e1, d1⟩ := h1.free
      obtain ⟨ho, e2, d2⟩ := h2.free
      rw [e1]
      dsimp only
      rw [e2]
      exact ⟨_, rfl, rfl, Own.alloc d1 _ _, Own.alloc d2 _ _, rfl⟩
  · rw [if_neg e]
    have e' : length = c.n := Decidable.not_not.mp e
    rcases h with ⟨h0, h1, h2⟩ | ⟨h0, h1, h2, h3⟩
    · omega
    · exact ⟨c, rfl, e'.symm, by rw [e']; exact h1, by rw [e']; exact h2, by rw [e']; exact h3⟩

/-- Contents after a sequence of assignments. -/
def applyW (ws : List (Nat × α)) (f : Nat → α) : Nat → α :=
  ws.foldl (fun f w k => if k = w.1 then w.2 else f k) f

theorem applyW_keep {ws : List (Nat × α)} {f : Nat → α} {k : Nat} (h : ∀ w ∈ ws, w.1 ≠ k) :
    applyW ws f k = f k := by
  induction ws generalizing f with
  | nil => rfl
  | cons w rest ih =>
    rw [applyW, List.foldl_cons]
    refine (ih fun w' hw' => h w' (List.mem_cons_of_mem _ hw')).trans ?_
    rw [if_neg (h w List.mem_cons_self).symm]

theorem applyW_val {ws : List (Nat × α)} {f : Nat → α} {k : Nat} {v : α}
    (h1 : ∃ w ∈ ws, w.1 = k) (h2 : ∀ w ∈ ws, w.1 = k → w.2 = v) : applyW ws f k = v := by
  induction ws generalizing f with
  | nil => obtain ⟨w, hw, _⟩ := h1; cases hw
  | cons w rest ih =>
    rw [applyW, List.foldl_cons]
    by_cases e : ∃ w' ∈ rest, w'.1 = k
    · exact ih e fun w' hw' => h2 w' (List.mem_cons_of_mem _ hw')
    · refine (applyW_keep fun w' hw' e' => e ⟨w', hw', e'⟩).trans ?_
      obtain ⟨w', hw', e'⟩ := h1
      rcases List.mem_cons.mp hw' with rfl | hm
      · rw [if_pos e'.symm]
        exact h2 _ List.mem_cons_self e'
      · exact absurd ⟨w', hm, e'⟩ e

theorem applyW_append (ws ws' : List (Nat × α)) (f : Nat → α) :
    applyW (ws ++ ws') f = applyW ws' (applyW ws f) := List.foldl_append

theorem writeAll_ok {h : Heap α} {ptr : Nat} {b : Block α} (hb : h.get ptr = some b)
    (ws : List (Nat × α)) (hw : ∀ w ∈ ws, w.1 < b.len) :
    ∃ h', writeAll ptr ws h = .ok h' ∧ h'.shape = h.shape ∧
      h'.get ptr = some ⟨b.len, applyW ws b.dat⟩ := by
  induction ws generalizing h b with
  | nil => exact ⟨h, rfl, rfl, hb⟩
  | cons w rest ih =>
    obtain ⟨i, v⟩ := w
    obtain ⟨h1, e1, e2, e3⟩ := write_ok hb (hw (i, v) List.mem_cons_self) v
    obtain ⟨h2, f1, f2, f3⟩ := ih e3 fun w hm => hw w (List.mem_cons_of_mem _ hm)
    refine ⟨h2, ?_, f2.trans e2, f3⟩
    simp only [writeAll]
    rw [e1]
    exact f1

theorem readAll_ok {h : Heap β} {ptr : Nat} {b : Block β} (hb : h.get ptr = some b) (f : β → γ)
    (l : List Nat) (out : Nat → Option γ) (hl : ∀ i ∈ l, i < b.len) :
    ∃ out', readAll h ptr f l out = .ok out' ∧
      ∀ j, out' j = if j ∈ l then some (f (b.dat j)) else out j := by
  induction l generalizing out with
  | nil => exact ⟨out, rfl, fun j => by simp⟩
  | cons i rest ih =>
    simp only [readAll]
    rw [read_ok hb (hl i List.mem_cons_self)]
    dsimp only
    obtain ⟨out', e1, e2⟩ := ih (fun j => if j = i then some (f (b.dat i)) else out j)
      fun i hi => hl i (List.mem_cons_of_mem _ hi)
    refine ⟨out', e1, fun j => ?_⟩
    rw [e2 j]
    by_cases h1 : j ∈ rest
    · rw [if_pos h1, if_pos (List.mem_cons_of_mem _ h1)]
    · rw [if_neg h1]
      by_cases h2 : j = i
      · subst h2; rw [if_pos rfl, if_pos List.mem_cons_self]
      · rw [if_neg h2, if_neg (by simp [h1, h2])]

/-- Setting up, filling and executing leaves the transform of what was written in the
output array, whatever the arrays held before. -/
theorem prepare_ok {tr : Tr α β} {a b pts : Nat → Nat} {c : SCache α β} (h : SOK a b pts c)
    {length : Nat} (hl : 0 < length) (hp : 0 < pts length) (ws : List (Nat × α))
    (hw : ∀ w ∈ ws, w.1 < a length) (hin : tr.inW (pts length) ≤ a length)
    (hout : tr.outW (pts length) ≤ b length) (f : Nat → α)
    (hf : ∀ d : Nat → α, ∀ j < tr.inW (pts length), applyW ws d j = f j) (o : Junk α β) :
    ∃ c', prepare tr (a length) (b length) (pts length) length ws o c = .ok c' ∧
      c'.n = length ∧ SOK a b pts c' ∧
      ∃ blk, c'.hout.get c'.fout = some blk ∧ blk.len = b length ∧
        ∀ j < tr.outW (pts length), blk.dat j = tr.run (pts length) f j := by
  obtain ⟨c1, s1, s2, s3, s4, s5⟩ := setup_ok h hl o
  obtain ⟨bi, g1, l1⟩ := s3.get
  obtain ⟨h1, w1, w2, w3⟩ := writeAll_ok g1 ws (by rw [l1]; exact hw)
  obtain ⟨bo, g2, l2⟩ := s4.get
  obtain ⟨h2, x1, x2, x3⟩ := writeMany_ok w3 (off := 0) (w := tr.inW (pts length))
    (by dsimp only; rw [l1]; omega) o.after
  obtain ⟨h3, y1, y2, y3⟩ := writeMany_ok g2 (off := 0) (w := tr.outW (pts length))
    (by rw [l2]; omega) (tr.run (pts length) fun j => applyW ws bi.dat (0 + j))
  have hrun : tr.run (pts length) (fun j => applyW ws bi.dat (0 + j)) = tr.run (pts length) f :=
    tr.run_congr _ _ _ fun j hj => by rw [Nat.zero_add]; exact hf _ j hj
  refine ⟨{ c1 with hin := h2, hout := h3 }, ?_, s2, .inr ⟨by dsimp only; omega, ?_, ?_, ?_⟩,
    ⟨_, y3, l2, ?_⟩⟩
  · unfold prepare
    rw [s1]
    dsimp only
    rw [w1]
    dsimp only [exec]
    rw [s5, mkPlan, if_neg (by omega)]
    dsimp only
    rw [readMany_ok w3 (by dsimp only; rw [l1]; omega)]
    dsimp only
    rw [x1]
    dsimp only
    rw [y1]
  · dsimp only
    rw [s2]
    exact (x2.trans w2).trans s3
  · dsimp only
    rw [s2]
    exact y2.trans s4
  · dsimp only
    rw [s2]
    exact s5
  · intro j hj
    dsimp only
    rw [if_pos ⟨Nat.zero_le _, by omega⟩, hrun]
    rfl

/-! ## The four functions -/

theorem mem_map_range {f : Nat → α} {n : Nat} {w : Nat × α}
    (h : w ∈ (List.range n).map fun (i : Nat) => (i, f i)) : w.1 < n ∧ w.2 = f w.1 := by
  obtain ⟨i, hi, rfl⟩ := List.mem_map.mp h
  exact ⟨List.mem_range.mp hi, rfl⟩

theorem range_writes {f d : Nat → α} {n : Nat} (j : Nat) (hj : j < n) :
    applyW ((List.range n).map fun (i : Nat) => (i, f i)) d j = f j :=
  applyW_val ⟨_, List.mem_map.mpr ⟨j, List.mem_range.mpr hj, rfl⟩, rfl⟩ fun w hw e => by
    rw [(mem_map_range hw).2, e]

/-- The cache of `rfft`. -/
def OkR (c : SCache ℝ ℂ) : Prop := SOK (fun n => n) (fun n => n / 2 + 1) (fun n => n) c
/-- The cache of `irfft`. -/
def OkI (c : SCache ℂ ℝ) : Prop := SOK (fun n => n / 2 + 1) (fun n => n) (fun n => n) c
/-- The cache of `DST`. -/
def OkD (c : SCache ℝ ℂ) : Prop :=
  SOK (fun n => 2 * n) (fun n => 2 * n) (fun n => 2 * (n - 1)) c
/-- The cache of `DST_rev`. -/
def OkV (c : SCache ℂ ℝ) : Prop :=
  SOK (fun n => 2 * (n - 1)) (fun n => 2 * (n - 1)) (fun n => 2 * (n - 1)) c

theorem sRfft_ok {c : SCache ℝ ℂ} (h : OkR c) {length : Nat} (hl : 0 < length) (inp : Nat → ℝ)
    (o : Junk ℝ ℂ) : ∃ c' out, sRfft length inp o c = .ok (c', out) ∧ OkR c' ∧
      ∀ k, out k = if k < length / 2 + 1 then some (rfft length inp k) else none := by
  obtain ⟨c', e1, e2, e3, blk, e4, e5, e6⟩ := prepare_ok (tr := trR2C) h hl hl
    ((List.range length).map fun (i : Nat) => (i, inp i)) (fun w hw => (mem_map_range hw).1)
    (Nat.le_refl _) (Nat.le_refl _) inp (fun d j hj => range_writes j hj) o
  obtain ⟨out, f1, f2⟩ := readAll_ok e4 (fun v => v * ((1 / c'.n : ℝ) : ℂ))
    (List.range (c'.n / 2 + 1)) (fun _ => none)
    (fun i hi => by rw [e5, ← e2]; exact List.mem_range.mp hi)
  refine ⟨c', out, ?_, e3, fun k => ?_⟩
  · unfold sRfft
    rw [e1]
    dsimp only
    rw [f1]
  · rw [f2 k]
    simp only [List.mem_range, e2]
    by_cases hk : k < length / 2 + 1
    · rw [if_pos hk, if_pos hk, e6 k hk]
      rfl
    · rw [if_neg hk, if_neg hk]

theorem sIrfft_ok {c : SCache ℂ ℝ} (h : OkI c) {length : Nat} (hl : 0 < length) (inp : Nat → ℂ)
    (o : Junk ℂ ℝ) : ∃ c' out, sIrfft length inp o c = .ok (c', out) ∧ OkI c' ∧
      ∀ k, out k = if k < length then some (irfft length inp k) else none := by
  obtain ⟨c', e1, e2, e3, blk, e4, e5, e6⟩ := prepare_ok (tr := trC2R) h hl hl
    ((List.range (length / 2 + 1)).map fun (i : Nat) => (i, inp i))
    (fun w hw => (mem_map_range hw).1)
    (Nat.le_refl _) (Nat.le_refl _) inp (fun d j hj => range_writes j hj) o
  obtain ⟨out, f1, f2⟩ := readAll_ok e4 (fun v => v) (List.range c'.n) (fun _ => none)
    (fun i hi => by rw [e5, ← e2]; exact List.mem_range.mp hi)
  refine ⟨c', out, ?_, e3, fun k => ?_⟩
  · unfold sIrfft
    rw [e1]
    dsimp only
    rw [f1]
  · rw [f2 k]
    simp only [List.mem_range, e2]
    by_cases hk : k < length
    · rw [if_pos hk, if_pos hk, e6 k hk]
      rfl
    · rw [if_neg hk, if_neg hk]

theorem mem_inner {length j : Nat} : j ∈ inner length ↔ 1 ≤ j ∧ j < length - 1 := by
  unfold inner
  cases h : length - 1 with
  | zero => simp
  | succ m =>
    rw [List.range_succ_eq_map, List.tail_cons, List.mem_map]
    constructor
    · rintro ⟨a, ha, rfl⟩
      have := List.mem_range.mp ha
      omega
    · rintro ⟨h1, h2⟩
      exact ⟨j - 1, List.mem_range.mpr (by omega), by omega⟩

theorem mem_pairs {length : Nat} {f g : Nat → α} {w : Nat × α}
    (h : w ∈ (inner length).flatMap fun (j : Nat) => [(j, f j), (2 * (length - 1) - j, g j)]) :
    ∃ j, 1 ≤ j ∧ j < length - 1 ∧ ((w.1 = j ∧ w.2 = f j) ∨ (w.1 = 2 * (length - 1) - j ∧ w.2 = g j)) := by
  obtain ⟨j, hj, hm⟩ := List.mem_flatMap.mp h
  obtain ⟨h1, h2⟩ := mem_inner.mp hj
  refine ⟨j, h1, h2, ?_⟩
  rcases List.mem_cons.mp hm with rfl | hm
  · exact .inl ⟨rfl, rfl⟩
  · rw [List.mem_singleton] at hm
    subst hm
    exact .inr ⟨rfl, rfl⟩

theorem pairs_writes {length : Nat} (z : α) (first f g d : Nat → α) (j : Nat)
    (hj : j < 2 * (length - 1)) :
    applyW (((List.range length).map fun (i : Nat) => (i, first i)) ++
      ([(0, z), (length - 1, z)] ++
        (inner length).flatMap fun (j : Nat) => [(j, f j), (2 * (length - 1) - j, g j)])) d j =
      if j = 0 ∨ j = length - 1 then z
      else if j < length - 1 then f j else g (2 * (length - 1) - j) := by
  rw [applyW_append, applyW_append]
  by_cases h0 : j = 0 ∨ j = length - 1
  · rw [if_pos h0, applyW_keep]
    · refine applyW_val ?_ ?_
      · rcases h0 with h | h
        · exact ⟨(0, z), by simp, h.symm⟩
        · exact ⟨(length - 1, z), by simp, h.symm⟩
      · intro w hw _
        simp only [List.mem_cons, List.not_mem_nil, or_false] at hw
        rcases hw with rfl | rfl <;> rfl
    · intro w hw e
      obtain ⟨i, i1, i2, h⟩ := mem_pairs hw
      rcases h with h | h
      · have := h.1; omega
      · have := h.1; omega
  · rw [if_neg h0]
    by_cases h1 : j < length - 1
    · rw [if_pos h1]
      refine applyW_val ⟨(j, f j), List.mem_flatMap.mpr ⟨j, mem_inner.mpr ⟨by omega, h1⟩,
        List.mem_cons_self⟩, rfl⟩ fun w hw e => ?_
      obtain ⟨i, i1, i2, h⟩ := mem_pairs hw
      rcases h with h | h
      · have := h.1
        rw [h.2, show i = j by omega]
      · have := h.1; omega
    · rw [if_neg h1]
      refine applyW_val ⟨(2 * (length - 1) - (2 * (length - 1) - j), g (2 * (length - 1) - j)),
        List.mem_flatMap.mpr ⟨2 * (length - 1) - j, mem_inner.mpr ⟨by omega, by omega⟩,
        by simp⟩, by dsimp only; omega⟩ fun w hw e => ?_
      obtain ⟨i, i1, i2, h⟩ := mem_pairs hw
      rcases h with h | h
      · have := h.1; omega
      · have := h.1
        rw [h.2, show i = 2 * (length - 1) - j by omega]

theorem pairs_bound {length : Nat} (hl : 2 ≤ length) {z : α} {first f g : Nat → α}
    {w : Nat × α} (hw : w ∈ (((List.range length).map fun (i : Nat) => (i, first i)) ++
      ([(0, z), (length - 1, z)] ++
        (inner length).flatMap fun (j : Nat) => [(j, f j), (2 * (length - 1) - j, g j)]))) :
    w.1 < 2 * (length - 1) := by
  rcases List.mem_append.mp hw with h | h
  · have := (mem_map_range h).1
    omega
  · rcases List.mem_append.mp h with h | h
    · simp only [List.mem_cons, List.not_mem_nil, or_false] at h
      rcases h with rfl | rfl <;> dsimp only <;> omega
    · obtain ⟨i, i1, i2, h⟩ := mem_pairs h
      rcases h with h | h
      · have := h.1; omega
      · have := h.1; omega

theorem sDst_ok {c : SCache ℝ ℂ} (h : OkD c) {length : Nat} (hl : 2 ≤ length) (inp : Nat → ℝ)
    (o : Junk ℝ ℂ) : ∃ c' out, sDst length inp o c = .ok (c', out) ∧ OkD c' ∧
      ∀ k, out k = if k < length then some (dst length inp k) else none := by
  obtain ⟨c', e1, e2, e3, blk, e4, e5, e6⟩ := prepare_ok (tr := trR2C) h (length := length)
    (by omega) (by omega) (dstWrites length inp)
    (fun w hw => by
      have := pairs_bound hl hw
      omega)
    (by dsimp only [trR2C]; omega) (by dsimp only [trR2C]; omega) (dstBuf length inp)
    (fun d j hj => by
      unfold dstWrites dstBuf
      exact pairs_writes 0 inp inp (fun j => -inp j) d j hj) o
  obtain ⟨out, f1, f2⟩ := readAll_ok e4 (fun v => -v.im / ((length : ℝ) - 1)) (inner length)
    (fun j => if j = 0 ∨ j = length - 1 then some 0 else none)
    (fun i hi => by
      have := mem_inner.mp hi
      rw [e5]; omega)
  refine ⟨c', out, ?_, e3, fun k => ?_⟩
  · unfold sDst
    rw [if_neg (by omega), e1]
    dsimp only
    rw [f1]
  · rw [f2 k]
    simp only [mem_inner]
    by_cases hk : 1 ≤ k ∧ k < length - 1
    · rw [if_pos hk, if_pos (by omega), e6 k (by dsimp only [trR2C]; omega), dst, if_neg (by omega)]
      rfl
    · rw [if_neg hk]
      by_cases h0 : k = 0 ∨ k = length - 1
      · rw [if_pos h0, if_pos (by omega), dst, if_pos h0]
      · rw [if_neg h0, if_neg (by omega)]

theorem sDstRev_ok {c : SCache ℂ ℝ} (h : OkV c) {length : Nat} (hl : 2 ≤ length) (inp : Nat → ℂ)
    (o : Junk ℂ ℝ) : ∃ c' out, sDstRev length inp o c = .ok (c', out) ∧ OkV c' ∧
      ∀ k, out k = if k < length then some (dstRev length (fun j => (inp j).re) k) else none := by
  obtain ⟨c', e1, e2, e3, blk, e4, e5, e6⟩ := prepare_ok (tr := trC2R) h (length := length)
    (by omega) (by omega) (dstRevWrites length inp)
    (fun w hw => pairs_bound hl hw)
    (by dsimp only [trC2R]; omega) (by dsimp only [trC2R]; omega)
    (dstRevBuf length fun j => (inp j).re)
    (fun d j hj => by
      unfold dstRevWrites dstRevBuf
      exact pairs_writes 0 inp (fun j => ⟨0, -(inp j).re / 2⟩) (fun j => ⟨0, (inp j).re / 2⟩) d j
        (by dsimp only [trC2R] at hj; omega)) o
  obtain ⟨out, f1, f2⟩ := readAll_ok e4 (fun v => v) (inner length)
    (fun j => if j = 0 ∨ j = length - 1 then some 0 else none)
    (fun i hi => by
      have := mem_inner.mp hi
      rw [e5]; omega)
  refine ⟨c', out, ?_, e3, fun k => ?_⟩
  · unfold sDstRev
    rw [if_neg (by omega), e1]
    dsimp only
    rw [f1]
  · rw [f2 k]
    simp only [mem_inner]
    by_cases hk : 1 ≤ k ∧ k < length - 1
    · rw [if_pos hk, if_pos (by omega), e6 k (by dsimp only [trC2R]; omega), dstRev,
        if_neg (by omega)]
      rfl
    · rw [if_neg hk]
      by_cases h0 : k = 0 ∨ k = length - 1
      · rw [if_pos h0, if_pos (by omega), dstRev, if_pos h0]
      · rw [if_neg h0, if_neg (by omega)]

end Verif.Fft
