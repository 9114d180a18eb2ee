import Verif.Fft.Thms

/-!
# C77: where the claim fails, and cases which meet the hypotheses
-/

namespace Verif.Fft

open Verif.Fourier

/-- Junk which is all zero. -/
def zeroOrc : Orc ℝ ℂ := ⟨fun _ => 0, fun _ => 0⟩

/-- `n` steps of thread `t`. -/
def steps (t n : Nat) : Sched ℝ ℂ := List.replicate n (t, zeroOrc)

/-- Two threads, one call each. -/
noncomputable def twoThreads (g : Shared ℝ ℂ) : St ℝ ℂ :=
  ⟨g, fun _ => Th.fresh [fun z => (z : ℝ)] fun _ => 0⟩

/-- Observable outcome of a run: undefined behaviour? -/
def hitsUb {γ : Type} : Out γ → Bool
  | .error (.ub _) => true
  | _ => false

theorem hitsUb_iff {γ : Type} {o : Out γ} (h : hitsUb o = true) : ∃ m, o = .error (.ub m) := by
  match o, h with
  | .error (.ub m), _ => exact ⟨m, rfl⟩

/-- If two threads call `rfft` at the same time with different lengths, the one which
arrives second releases the arrays the first is using: use after free. -/
theorem C77_two_lengths_violated :
    ∃ (lenOf : Nat → Nat) (sched : Sched ℝ ℂ), (∀ t, 0 < lenOf t) ∧
      ∃ m, run trR2C normR 2 lenOf sched (twoThreads .init) = .error (.ub m) := by
  refine ⟨fun t => if t = 0 then 2 else 4, steps 0 17 ++ steps 1 9 ++ steps 0 1, ?_, ?_⟩
  · intro t; dsimp only; split <;> decide
  · exact hitsUb_iff (by decide +kernel)

/-- Program counters and remaining calls of two threads. -/
def look (o : Out (St ℝ ℂ)) : Option (Pc × Nat × Pc × Nat × Bool) :=
  match o with
  | .ok s => some ((s.th 0).pc, (s.th 0).todo.length, (s.th 1).pc, (s.th 1).todo.length,
      s.g.lock == some 0)
  | .error _ => none

/-- The first test of `size` is not synchronised with its update: one thread can be about
to write `size` inside the critical section while another is about to read it outside.
With plain `int`s that is a data race, whose outcome the C++ standard leaves undefined
(the theorems above assume that accesses are not torn or reordered). -/
theorem C77_unsynchronised_check_violated :
    ∃ sched s, run trR2C normR 2 (fun _ => 2) sched (twoThreads .init) = .ok s ∧
      (s.th 0).pc = .setSize ∧ s.g.lock = some 0 ∧
      (s.th 1).pc = .start ∧ (s.th 1).todo ≠ [] := by
  have h : look (run trR2C normR 2 (fun _ => 2) (steps 0 10) (twoThreads .init)) =
      some (.setSize, 1, .start, 1, true) := by decide +kernel
  refine ⟨steps 0 10, ?_⟩
  cases hr : run trR2C normR 2 (fun _ => 2) (steps 0 10) (twoThreads .init) with
  | error e => rw [hr] at h; cases h
  | ok s =>
    rw [hr] at h
    simp only [look, Option.some.injEq, Prod.mk.injEq, beq_iff_eq] at h
    exact ⟨s, rfl, h.1, h.2.2.2.2, h.2.2.1, fun e => by rw [e] at h; simp at h⟩

/-! ## `DST` is not thread safe -/

/-- The state in which both threads enter `DST` for the first time. -/
def dstStart : DSt := ⟨.init, fun _ => .fill, fun _ _ => none⟩

/-- `DST` has no per-thread work arrays in any build, yet the Laplacian inverters call it
from every thread of a parallel loop.  For rows of any length: if a second thread fills the
shared array between the first one's filling and executing, the first thread gets the sine
transform of the *other* row. -/
theorem C77_dst_threads_violated (length : Nat) (hl : 2 ≤ length) (row : Nat → Nat → ℝ)
    (o : Junk ℝ ℂ) :
    ∃ s, dstRun length row [(0, o), (1, o), (0, o), (0, o)] dstStart = .ok s ∧
      s.pc 0 = .done ∧
      (∀ k < length, s.out 0 k = some (dst length (row 1) k)) ∧
      ((∃ i, 1 ≤ i ∧ i < length - 1 ∧ row 0 i ≠ row 1 i) →
        ∃ k < length, s.out 0 k ≠ some (dst length (row 0) k)) := by
  have hinit : OkD SCache.init := .inl ⟨rfl, dead_empty, dead_empty⟩
  obtain ⟨c1, s1, s2, s3, s4, s5⟩ := setup_ok hinit (length := length) (by omega) o
  obtain ⟨bi, g1, l1⟩ := s3.get
  obtain ⟨h1, w1, w2, w3⟩ := writeAll_ok g1 (dstWrites length (row 0)) (fun w hw => by
    have := pairs_bound hl hw
    rw [l1]; omega)
  have hc1 : OkD { c1 with hin := h1 } := .inr ⟨by dsimp only; omega, by
    dsimp only; rw [s2]; exact w2.trans s3, by dsimp only; rw [s2]; exact s4, by
    dsimp only; rw [s2]; exact s5⟩
  obtain ⟨c2, out, e1, e2, e3⟩ := sDst_ok hc1 hl (row 1) o
  unfold sDst at e1
  rw [if_neg (by omega)] at e1
  unfold prepare at e1
  cases q1 : setup (2 * length) (2 * length) (2 * (length - 1)) length o { c1 with hin := h1 } with
  | error e => rw [q1] at e1; cases e1
  | ok k1 =>
    rw [q1] at e1
    dsimp only at e1
    cases q2 : writeAll k1.fin (dstWrites length (row 1)) k1.hin with
    | error e => rw [q2] at e1; cases e1
    | ok k2 =>
      rw [q2] at e1
      dsimp only at e1
      cases q3 : exec trR2C o { k1 with hin := k2 } with
      | error e => rw [q3] at e1; cases e1
      | ok k3 =>
        rw [q3] at e1
        dsimp only at e1
        cases q4 : readAll k3.hout k3.fout (fun v => -v.im / ((length : ℝ) - 1)) (inner length)
            (fun j => if j = 0 ∨ j = length - 1 then some 0 else none) with
        | error e => rw [q4] at e1; cases e1
        | ok out' =>
          rw [q4] at e1
          cases e1
          have hout : ∀ k < length, out k = some (dst length (row 1) k) := fun k hk => by
            rw [e3 k, if_pos hk]
          refine ⟨⟨c2, fun u => if u = 0 then .done else if u = 1 then .exec else .fill,
            fun u => if u = 0 then out else fun _ => none⟩, ?_, rfl, hout, ?_⟩
          · simp only [dstRun, dstStep, dstStart, s1, w1, q1, q2, q3, q4, if_true,
              Nat.one_ne_zero, Nat.zero_ne_one, if_false]
            congr 2
            funext u
            by_cases h0 : u = 0
            · simp [h0]
            · by_cases h1 : u = 1
              · simp [h1]
              · simp [h0, h1]
          · rintro ⟨i, i1, i2, hne⟩
            refine Classical.byContradiction fun hno => hne ?_
            have heq : ∀ k < length, dst length (row 0) k = dst length (row 1) k := by
              intro k hk
              refine Classical.byContradiction fun hne => hno ⟨k, hk, ?_⟩
              show out k ≠ _
              rw [hout k hk]
              intro e
              exact hne (Option.some.inj e).symm
            rw [← C53_dst_roundtrip length (row 0) i i1 i2,
              ← C53_dst_roundtrip length (row 1) i i1 i2]
            rw [dstRev_eq _ i i1 i2, dstRev_eq _ i i1 i2]
            unfold sines
            refine Finset.sum_congr rfl fun m hm => ?_
            rw [Finset.mem_Ico] at hm
            rw [heq m (by omega)]

/-! ## Cases which meet the hypotheses -/

/-- A history which changes length back and forth. -/
example (o : Junk ℝ ℂ) (o' : Junk ℂ ℝ) : ∀ x ∈ [Call.rfft 8 (fun z => z) o,
    .irfft 8 (fun _ => 1) o', .rfft 5 (fun _ => 2) o, .dst 4 (fun z => z) o,
    .rfft 8 (fun z => z * z) o, .dstRev 4 (fun _ => 1) o'], x.enough := by
  intro x hx
  simp only [List.mem_cons, List.not_mem_nil, or_false] at hx
  rcases hx with rfl | rfl | rfl | rfl | rfl | rfl <;> simp [Call.enough]

/-- A region in which two threads interleave and both finish is a reachable history, so
the next region starts with arrays for two threads and two points. -/
theorem twoThreads_finish :
    ∃ s, run trR2C normR 2 (fun _ => 2) (steps 0 5 ++ steps 1 3 ++ steps 0 30 ++ steps 1 30)
      (twoThreads .init) = .ok s ∧ s.finished 2 := by
  have h : look (run trR2C normR 2 (fun _ => 2)
      (steps 0 5 ++ steps 1 3 ++ steps 0 30 ++ steps 1 30) (twoThreads .init)) =
      some (.start, 0, .start, 0, false) := by decide +kernel
  cases hr : run trR2C normR 2 (fun _ => 2)
      (steps 0 5 ++ steps 1 3 ++ steps 0 30 ++ steps 1 30) (twoThreads .init) with
  | error e => rw [hr] at h; cases h
  | ok s =>
    rw [hr] at h
    simp only [look, Option.some.injEq, Prod.mk.injEq, List.length_eq_zero_iff] at h
    refine ⟨s, rfl, fun t ht => ?_⟩
    match t, ht with
    | 0, _ => exact ⟨h.1, h.2.1⟩
    | 1, _ => exact ⟨h.2.2.1, h.2.2.2.1⟩

theorem reached_after_region : ∃ g, Reached trR2C normR g ∧ g.size = 2 ∧ g.nth = 2 := by
  obtain ⟨s, h1, h2⟩ := twoThreads_finish
  have hs : (match run trR2C normR 2 (fun _ => 2)
      (steps 0 5 ++ steps 1 3 ++ steps 0 30 ++ steps 1 30) (twoThreads .init) with
    | .ok s => s.g.size == 2 && s.g.nth == 2
    | .error _ => false) = true := by decide +kernel
  rw [h1] at hs
  simp only [Bool.and_eq_true, beq_iff_eq] at hs
  exact ⟨s.g, .region 2 2 (by decide) (fun _ => [fun z => (z : ℝ)]) (fun _ => 0) _ .init h1 h2,
    hs.1, hs.2⟩

/-- From there a larger team with another length: the hypotheses of
`C77_every_schedule_rfft` hold in a state whose caches have to be replaced. -/
example : ∃ g, Reached trR2C normR g ∧ g.size = 2 ∧ ∀ (calls : Nat → List (Nat → ℝ)) sched,
    ∃ s, run trR2C normR 3 (fun _ => 5) sched ⟨g, fun t => Th.fresh (calls t) fun _ => 0⟩ = .ok s := by
  obtain ⟨g, h1, h2, -⟩ := reached_after_region
  refine ⟨g, h1, h2, fun calls sched => ?_⟩
  obtain ⟨s, h, -⟩ := C77_every_schedule_rfft h1 3 5 (by decide) calls (fun _ => 0) sched
  exact ⟨s, h⟩

end Verif.Fft
