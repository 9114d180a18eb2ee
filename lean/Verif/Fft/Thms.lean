import Verif.Fft.Calls
import Verif.Fft.SerialProps
import Verif.Fft.ParLive
import Verif.Num.FourierThms3

/-!
# C77: the transforms give the transform of their arguments, whatever was called before
and whatever other threads do

Specification: `Verif.Fourier.rfft`, `irfft`, `dst`, `dstRev` (what one call in isolation
computes; `C53` says what that means) and the definitions below.
-/

namespace Verif.Fft

open Verif.Fourier

/-! ## Specification -/

/-- What a call must leave in the caller's array: the transform of its own row, in the
cells the documentation promises and nowhere else. -/
noncomputable def Call.result : Call → Res
  | .rfft n row _ => .cplx fun k => if k < n / 2 + 1 then some (Fourier.rfft n row k) else none
  | .irfft n row _ => .real fun k => if k < n then some (Fourier.irfft n row k) else none
  | .dst n row _ => .real fun k => if k < n then some (Fourier.dst n row k) else none
  | .dstRev n row _ =>
    .real fun k => if k < n then some (Fourier.dstRev n (fun j => (row j).re) k) else none

/-- At least one point, for the sine transforms at least two. -/
def Call.enough : Call → Prop
  | .rfft n _ _ | .irfft n _ _ => 1 ≤ n
  | .dst n _ _ | .dstRev n _ _ => 2 ≤ n

/-- The transform and normalisation of `rfft` in OpenMP builds
(`src/invert/fft_fftw.cxx` L288-290, L310-316). -/
noncomputable def normR (n : Nat) (v : ℂ) : ℂ := v * ((1 / n : ℝ) : ℂ)

/-- `irfft` does not normalise (L379-381). -/
def normI (_ : Nat) (v : ℝ) : ℝ := v

/-- Shared state of `rfft` or `irfft` after any number of parallel regions, each with any
number of threads, any row length, any calls by each thread and any schedule. -/
inductive Reached {α β : Type} (tr : Tr α β) (norm : Nat → β → β) : Shared α β → Prop
  | init : Reached tr norm .init
  | region {g : Shared α β} {s : St α β} (N L : Nat) (hL : 0 < L)
      (calls : Nat → List (Nat → α)) (tmp : Nat → β) (sched : Sched α β) :
      Reached tr norm g →
      run tr norm N (fun _ => L) sched ⟨g, fun t => Th.fresh (calls t) tmp⟩ = .ok s →
      s.finished N → Reached tr norm s.g

/-! ## Serial builds -/

theorem doCall_ok {c : Caches} (hr : OkR c.r) (hi : OkI c.i) (hd : OkD c.d) (hv : OkV c.v)
    (x : Call) (hx : x.enough) :
    ∃ c', doCall x c = .ok (c', x.result) ∧ OkR c'.r ∧ OkI c'.i ∧ OkD c'.d ∧ OkV c'.v := by
  cases x with
  | rfft n row o =>
    obtain ⟨k, out, e1, e2, e3⟩ := sRfft_ok hr hx row o
    exact ⟨{ c with r := k }, by simp only [doCall, e1, Call.result]; rw [funext e3], e2, hi, hd, hv⟩
  | irfft n row o =>
    obtain ⟨k, out, e1, e2, e3⟩ := sIrfft_ok hi hx row o
    exact ⟨{ c with i := k }, by simp only [doCall, e1, Call.result]; rw [funext e3], hr, e2, hd, hv⟩
  | dst n row o =>
    obtain ⟨k, out, e1, e2, e3⟩ := sDst_ok hd hx row o
    exact ⟨{ c with d := k }, by simp only [doCall, e1, Call.result]; rw [funext e3], hr, hi, e2, hv⟩
  | dstRev n row o =>
    obtain ⟨k, out, e1, e2, e3⟩ := sDstRev_ok hv hx row o
    exact ⟨{ c with v := k }, by simp only [doCall, e1, Call.result]; rw [funext e3], hr, hi, hd, e2⟩

theorem doCalls_ok {c : Caches} (hr : OkR c.r) (hi : OkI c.i) (hd : OkD c.d) (hv : OkV c.v)
    (xs : List Call) (hx : ∀ x ∈ xs, x.enough) :
    ∃ c', doCalls xs c = .ok (c', xs.map Call.result) ∧ OkR c'.r ∧ OkI c'.i ∧ OkD c'.d ∧
      OkV c'.v := by
  induction xs generalizing c with
  | nil => exact ⟨c, rfl, hr, hi, hd, hv⟩
  | cons x rest ih =>
    obtain ⟨c1, e1, r1, i1, d1, v1⟩ := doCall_ok hr hi hd hv x (hx x List.mem_cons_self)
    obtain ⟨c2, e2, h2⟩ := ih r1 i1 d1 v1 fun y hy => hx y (List.mem_cons_of_mem _ hy)
    refine ⟨c2, ?_, h2⟩
    simp only [doCalls]
    rw [e1]
    dsimp only
    rw [e2]
    rfl

theorem dead_empty {α : Type} : Dead (Heap.empty : Heap α) := rfl

/-- In a build without OpenMP, every history of calls of `rfft`, `irfft`, `DST` and
`DST_rev`, with any lengths in any order, runs without touching memory it does not own,
and every call returns the transform of its own arguments: nothing of earlier calls (their
lengths, rows, plans, or whatever is left in the work arrays) can be seen. -/
theorem C77_every_history (xs : List Call) (hx : ∀ x ∈ xs, x.enough) :
    ∃ c, doCalls xs .init = .ok (c, xs.map Call.result) := by
  obtain ⟨c, h, _⟩ := doCalls_ok (c := .init) (.inl ⟨rfl, dead_empty, dead_empty⟩)
    (.inl ⟨rfl, dead_empty, dead_empty⟩) (.inl ⟨rfl, dead_empty, dead_empty⟩)
    (.inl ⟨rfl, dead_empty, dead_empty⟩) xs hx
  exact ⟨c, h⟩

theorem shape_one {α : Type} {h : Heap α} {id n : Nat} (ho : Own h id n) (i : Nat)
    (hi : h.get i ≠ none) : i = id := by
  by_cases e : i = id
  · exact e
  · have := congrFun ho i
    simp only [Heap.shape, if_neg e] at this
    cases hg : h.get i with
    | none => exact absurd hg hi
    | some b => rw [hg] at this; cases this

theorem shape_dead {α : Type} {h : Heap α} (ho : Dead h) (i : Nat) : h.get i = none := by
  have := congrFun ho i
  simp only [Heap.shape] at this
  cases hg : h.get i with
  | none => rfl
  | some b => rw [hg] at this; cases this

/-- At most one block is allocated. -/
def AtMostOne {α : Type} (h : Heap α) : Prop :=
  ∀ i j, h.get i ≠ none → h.get j ≠ none → i = j

theorem Own.one {α : Type} {h : Heap α} {id n : Nat} (ho : Own h id n) : AtMostOne h :=
  fun i j hi hj => (shape_one ho i hi).trans (shape_one ho j hj).symm

theorem Dead.one {α : Type} {h : Heap α} (ho : Dead h) : AtMostOne h :=
  fun i _ hi _ => absurd (shape_dead ho i) hi

theorem SOK.one {α β : Type} {a b pts : Nat → Nat} {c : SCache α β} (h : SOK a b pts c) :
    AtMostOne c.hin ∧ AtMostOne c.hout := by
  rcases h with ⟨_, h1, h2⟩ | ⟨_, h1, h2, _⟩
  · exact ⟨h1.one, h2.one⟩
  · exact ⟨h1.one, h2.one⟩

/-- Changing the length leaks nothing: after every history each of the four functions
holds at most one input and one output array. -/
theorem C77_memory (xs : List Call) (hx : ∀ x ∈ xs, x.enough) (c : Caches) (rs : List Res)
    (h : doCalls xs .init = .ok (c, rs)) :
    (AtMostOne c.r.hin ∧ AtMostOne c.r.hout) ∧ (AtMostOne c.i.hin ∧ AtMostOne c.i.hout) ∧
    (AtMostOne c.d.hin ∧ AtMostOne c.d.hout) ∧ (AtMostOne c.v.hin ∧ AtMostOne c.v.hout) := by
  obtain ⟨c', h', r, i, d, v⟩ := doCalls_ok (c := .init) (.inl ⟨rfl, dead_empty, dead_empty⟩)
    (.inl ⟨rfl, dead_empty, dead_empty⟩) (.inl ⟨rfl, dead_empty, dead_empty⟩)
    (.inl ⟨rfl, dead_empty, dead_empty⟩) xs hx
  rw [h] at h'
  cases h'
  exact ⟨r.one, i.one, d.one, v.one⟩

/-- The `Array` overloads: a non-empty array of `size` reals gives `size/2 + 1` Fourier
coefficients, after any history. -/
theorem C77_array_rfft (xs : List Call) (hx : ∀ x ∈ xs, x.enough) (c : Caches) (rs : List Res)
    (h : doCalls xs .init = .ok (c, rs)) (size : Nat) (hs : 0 < size) (row : Nat → ℝ)
    (o : Junk ℝ ℂ) :
    ∃ c', arrayRfft size row o c.r = .ok (c', fun k =>
      if k < size / 2 + 1 then some (Fourier.rfft size row k) else none) := by
  obtain ⟨c', h', r, i, d, v⟩ := doCalls_ok (c := .init) (.inl ⟨rfl, dead_empty, dead_empty⟩)
    (.inl ⟨rfl, dead_empty, dead_empty⟩) (.inl ⟨rfl, dead_empty, dead_empty⟩)
    (.inl ⟨rfl, dead_empty, dead_empty⟩) xs hx
  rw [h] at h'
  cases h'
  obtain ⟨k, out, e1, e2, e3⟩ := sRfft_ok r hs row o
  refine ⟨k, ?_⟩
  rw [arrayRfft, if_neg (by omega), e1, funext e3]

/-- ... and back: coefficients of the right number give the row of `length` points; any
other number is refused. -/
theorem C77_array_irfft (xs : List Call) (hx : ∀ x ∈ xs, x.enough) (c : Caches) (rs : List Res)
    (h : doCalls xs .init = .ok (c, rs)) (size length : Nat) (hl : 0 < length) (row : Nat → ℂ)
    (o : Junk ℂ ℝ) :
    (size = length / 2 + 1 → ∃ c', arrayIrfft size row length o c.i = .ok (c', fun k =>
      if k < length then some (Fourier.irfft length row k) else none)) ∧
    (size ≠ length / 2 + 1 → ∃ m, arrayIrfft size row length o c.i = .error (.exc m)) := by
  obtain ⟨c', h', r, i, d, v⟩ := doCalls_ok (c := .init) (.inl ⟨rfl, dead_empty, dead_empty⟩)
    (.inl ⟨rfl, dead_empty, dead_empty⟩) (.inl ⟨rfl, dead_empty, dead_empty⟩)
    (.inl ⟨rfl, dead_empty, dead_empty⟩) xs hx
  rw [h] at h'
  cases h'
  obtain ⟨k, out, e1, e2, e3⟩ := sIrfft_ok i hl row o
  constructor
  · intro hs
    refine ⟨k, ?_⟩
    rw [arrayIrfft, if_neg (by omega), if_neg (by omega), e1, funext e3]
  · intro hs
    unfold arrayIrfft
    by_cases h0 : size = 0
    · exact ⟨_, if_pos h0⟩
    · rw [if_neg h0]
      exact ⟨_, if_pos hs⟩

/-- Not so for a single point: `ASSERT1(length > 0)` lets a sine transform of one point
through (the Laplacian inverters with `dst = true` on a grid of three points in Z make such
calls), and then FFTW is asked to run a plan for zero points, or an array of zero cells is
written. -/
theorem C77_dst_one_point_violated (row : Nat → ℝ) (crow : Nat → ℂ) (o : Junk ℝ ℂ)
    (o' : Junk ℂ ℝ) :
    (∃ m, sDst 1 row o .init = .error (.ub m)) ∧ ∃ m, sDstRev 1 crow o' .init = .error (.ub m) :=
  ⟨⟨_, rfl⟩, ⟨_, rfl⟩⟩

/-- The `Array` overload of `irfft` lets `length = 0` through for an array of one
coefficient; the static plan is then null (or stale) and executing it is undefined. -/
theorem C77_irfft_zero_length_violated (row : Nat → ℂ) (o : Junk ℂ ℝ) :
    ∃ m, arrayIrfft 1 row 0 o .init = .error (.ub m) := ⟨_, rfl⟩

/-! ## OpenMP builds -/

theorem reached_cache {α β : Type} {tr : Tr α β} {norm : Nat → β → β} {g : Shared α β}
    (h : Reached tr norm g) : g.lock = none ∧ Cache tr g := by
  induction h with
  | init => exact ⟨rfl, .inl ⟨rfl, dead_empty, dead_empty, dead_empty⟩⟩
  | region N L hL calls tmp sched _ hr hf ih =>
    obtain ⟨s', h1, h2⟩ := run_inv (calls := calls) hL sched (inv_start ih.2 ih.1 tmp)
    rw [hr] at h1
    cases h1
    exact inv_end h2 hf

/-- In an OpenMP build, after any history of parallel regions, when every thread of a team
of any size calls `rfft` any number of times with rows of the same length `L`: under every
schedule no call touches memory it does not own or uses an invalid plan, and each finished
call has returned the transform of its own row. -/
theorem C77_every_schedule_rfft {g : Shared ℝ ℂ} (hg : Reached trR2C normR g) (N L : Nat)
    (hL : 0 < L) (calls : Nat → List (Nat → ℝ)) (tmp : Nat → ℂ) (sched : Sched ℝ ℂ) :
    ∃ s, run trR2C normR N (fun _ => L) sched ⟨g, fun t => Th.fresh (calls t) tmp⟩ = .ok s ∧
      ∀ t < N, ∃ k, (s.th t).todo = (calls t).drop k ∧
        (s.th t).done = ((calls t).take k).map fun row =>
          (row, fun i => if i < L / 2 + 1 then some (Fourier.rfft L row i) else none) := by
  obtain ⟨hl, hc⟩ := reached_cache hg
  obtain ⟨s, h1, h2⟩ := run_inv (N := N) (norm := normR) (calls := calls) hL sched
    (inv_start hc hl tmp)
  refine ⟨s, h1, fun t ht => ?_⟩
  obtain ⟨k, k1, k2⟩ := h2.hist t ht
  exact ⟨k, k2, k1⟩

/-- The same for `irfft`. -/
theorem C77_every_schedule_irfft {g : Shared ℂ ℝ} (hg : Reached trC2R normI g) (N L : Nat)
    (hL : 0 < L) (calls : Nat → List (Nat → ℂ)) (tmp : Nat → ℝ) (sched : Sched ℂ ℝ) :
    ∃ s, run trC2R normI N (fun _ => L) sched ⟨g, fun t => Th.fresh (calls t) tmp⟩ = .ok s ∧
      ∀ t < N, ∃ k, (s.th t).todo = (calls t).drop k ∧
        (s.th t).done = ((calls t).take k).map fun row =>
          (row, fun i => if i < L then some (Fourier.irfft L row i) else none) := by
  obtain ⟨hl, hc⟩ := reached_cache hg
  obtain ⟨s, h1, h2⟩ := run_inv (N := N) (norm := normI) (calls := calls) hL sched
    (inv_start hc hl tmp)
  refine ⟨s, h1, fun t ht => ?_⟩
  obtain ⟨k, k1, k2⟩ := h2.hist t ht
  exact ⟨k, k2, k1⟩

/-- No deadlock: as long as some thread has calls left, some thread moves on when it is
scheduled. -/
theorem C77_no_deadlock {α β : Type} (tr : Tr α β) (norm : Nat → β → β) {g : Shared α β}
    (hg : Reached tr norm g) (N L : Nat) (hL : 0 < L) (calls : Nat → List (Nat → α))
    (tmp : Nat → β) (sched : Sched α β) (s : St α β)
    (hs : run tr norm N (fun _ => L) sched ⟨g, fun t => Th.fresh (calls t) tmp⟩ = .ok s)
    (hf : ¬ s.finished N) :
    ∃ t < N, ∀ o, ∃ s', step tr norm N (fun _ => L) t o s = .ok s' ∧
      (s'.th t).pc ≠ (s.th t).pc := by
  obtain ⟨hl, hc⟩ := reached_cache hg
  obtain ⟨s1, h1, h2⟩ := run_inv (N := N) (norm := norm) (calls := calls) hL sched
    (inv_start hc hl tmp)
  rw [hs] at h1
  cases h1
  obtain ⟨t, ht, hst⟩ := not_all_stuck h2 hf
  refine ⟨t, ht, fun o => ?_⟩
  obtain ⟨s', e1, e2⟩ := step_inv hL h2 ht o
  refine ⟨s', e1, ?_⟩
  obtain ⟨-, -, h3⟩ := step_mu (tr.inW L + tr.outW L + N + s.g.nth + 1) (by omega) (by omega)
    (by omega) h2 (by omega) ht e1
  rcases h3 with h3 | h3
  · exact absurd h3.1 hst
  · exact h3.2.1

/-- ... and every region ends: whatever the schedule, only a bounded number of steps make
a thread move on. -/
theorem C77_terminates {α β : Type} (tr : Tr α β) (norm : Nat → β → β) {g : Shared α β}
    (hg : Reached tr norm g) (N L : Nat) (hL : 0 < L) (calls : Nat → List (Nat → α))
    (tmp : Nat → β) :
    ∃ B, ∀ sched : Sched α β,
      moves tr norm N (fun _ => L) sched ⟨g, fun t => Th.fresh (calls t) tmp⟩ ≤ B := by
  obtain ⟨hl, hc⟩ := reached_cache hg
  exact ⟨_, fun sched => moves_le (tr.inW L + tr.outW L + N + g.nth + 1) hL (by omega) (by omega)
    (by omega) sched (inv_start hc hl tmp) (by dsimp only; omega)⟩

/-- Between parallel regions at most one input array, one output array and one array of
plans are allocated. -/
theorem C77_threads_memory {α β : Type} (tr : Tr α β) (norm : Nat → β → β) {g : Shared α β}
    (hg : Reached tr norm g) : AtMostOne g.hin ∧ AtMostOne g.hout ∧ AtMostOne g.hpl := by
  rcases (reached_cache hg).2 with ⟨_, h1, h2, h3⟩ | ⟨_, h1, h2, h3, _⟩
  · exact ⟨h1.one, h2.one, h3.one⟩
  · exact ⟨h1.one, h2.one, h3.one⟩

end Verif.Fft
