import Verif.Cyclic.Lemmas2
import Mathlib.Data.Rat.Defs
import Mathlib.Algebra.Field.Rat
import Mathlib.Tactic.NormNum
import Mathlib.Tactic.Linarith
import Mathlib.Tactic.IntervalCases
import Mathlib.Algebra.Order.Field.Rat
import Mathlib.Data.List.Nodup
/-! # C22 and C23: the parallel tridiagonal solver -/
namespace Verif.Cyclic

variable {K : Type} [Field K] [DecidableEq K] (tiny : K → Prop) [DecidablePred tiny]

/-- Reduced view of a successful `distSolve`. -/
theorem distSolve_view {P Nsys : Nat} {N : Nat → Nat} {periodic : Bool} {co : Nat → Nat → Nat → Row K}
    {order : Nat → List Nat} (h0 : ∀ v, v = 0 → tiny v) (hP : 1 ≤ P)
    (hord : ∀ q, q < P → ∀ p, p < P → p ∈ order q)
    {x : Nat → Nat → Nat → K}
    (h : distSolve tiny P Nsys N periodic co order = .ok x) :
    ∀ s, s < Nsys → ∃ (U L : Nat → Row K) (u l : Row K) (x1 xn : K),
      (∀ q, q < P → reduce tiny (co q s) (N q) = .ok (U q, L q)) ∧
      pairRed tiny P (inter U L) = .ok (u, l) ∧ solve2x2 periodic u l = .ok (x1, xn) ∧
      ∀ q, q < P → ∀ j, x q s j = glued P N (fun q j => co q s j) (inter U L) x1 xn q j := by
  intro s hs
  unfold distSolve at h
  simp only at h
  split at h
  · cases h
  rename_i v1 c1
  split at h
  · cases h
  rename_i v2 c2
  split at h
  · cases h
  rename_i v3 c3
  simp only [Except.ok.injEq] at h
  -- stage 1
  have r1 : ∀ q, q < P → ∀ s', s' < Nsys → ∃ w, reduce tiny (co q s') (N q) = .ok w := by
    intro q hq s' hs'
    obtain ⟨_, hc⟩ := checkAll_ok c1 q hq
    exact checkAll_ok hc s' hs'
  obtain ⟨p, hpP, hp⟩ := owner_exists Nsys P P s (by rw [sendStart_end Nsys P hP]; exact hs)
  obtain ⟨_, hc2⟩ := checkAll_ok c2 p hpP
  obtain ⟨f, hf⟩ := checkAll_ok hc2 (s - sendStart Nsys P p) (by omega)
  have hsi : sendStart Nsys P p + (s - sendStart Nsys P p) = s := by omega
  rw [ifcs_eq, hsi] at hf
  set U : Nat → Row K := fun q => (valD (Row.zero, Row.zero) (reduce tiny (co q s) (N q))).1 with hU
  set L : Nat → Row K := fun q => (valD (Row.zero, Row.zero) (reduce tiny (co q s) (N q))).2 with hL
  have hf' := hf
  unfold ifaceSolve at hf'
  simp only at hf'
  have hpr : ∃ u l, pairRed tiny P (inter U L) = .ok (u, l) := by
    cases hc : pairRed tiny P (inter U L) with
    | error e =>
      unfold pairRed at hc
      rw [hc] at hf'; simp at hf'
    | ok w => exact ⟨w.1, w.2, rfl⟩
  obtain ⟨u, l, hpr⟩ := hpr
  have hpr' := hpr
  unfold pairRed at hpr'
  rw [hpr'] at hf'
  simp only at hf'
  cases h22 : solve2x2 periodic u l with
  | error e => rw [h22] at hf'; simp at hf'
  | ok w =>
    obtain ⟨x1, xn⟩ := w
    rw [h22] at hf'
    simp only at hf'
    rw [backSolve_ok tiny h0 (pairRed_reduce tiny hP hpr)] at hf'
    simp only [Except.ok.injEq] at hf'
    refine ⟨U, L, u, l, x1, xn, ?_, hpr, h22, ?_⟩
    · intro q hq
      obtain ⟨w, hw⟩ := r1 q hq s hs
      simp only [hU, hL, hw, valD]
    · intro q hq j
      rw [← h]
      simp only
      have hends : (if P > 1 then
          scatter Nsys P (fun p i => valD (fun _ => (0:K)) (ifaceSolve tiny P periodic
              (ifcs Nsys P (fun q s => valD (Row.zero, Row.zero) (reduce tiny (co q s) (N q))) p i))) q (order q) s
          else (valD (fun _ => (0:K)) (ifaceSolve tiny P periodic
              (ifcs Nsys P (fun q s => valD (Row.zero, Row.zero) (reduce tiny (co q s) (N q))) 0 s)) 0,
            valD (fun _ => (0:K)) (ifaceSolve tiny P periodic
              (ifcs Nsys P (fun q s => valD (Row.zero, Row.zero) (reduce tiny (co q s) (N q))) 0 s)) 1)) =
          (f (2*q), f (2*q+1)) := by
        split
        · rw [scatter_val Nsys P _ q s p hp (order q) (hord q hq p hpP)]
          simp only [ifcs_eq, hsi]
          rw [hf]
          rfl
        · have hp0 : p = 0 := by omega
          have hq0 : q = 0 := by omega
          subst hp0
          subst hq0
          have e : s - sendStart Nsys P 0 = s := by simp [sendStart]
          rw [ifcs_eq, show sendStart Nsys P 0 + s = s by simp [sendStart], hf]
          rfl
      rw [hends]
      simp only
      obtain ⟨w, hw⟩ := r1 q hq s hs
      rw [backSolve_ok tiny h0 hw]
      simp only [valD, glued, hf']

/-- **C22.** If `solve` returns on all processors, then for every system every row on every processor is
satisfied by the returned values: the result is a solution of the global (periodic or not) tridiagonal system,
for any number of processors, systems and rows per processor and any message arrival order. -/
theorem C22_solves {P Nsys : Nat} {N : Nat → Nat} {periodic : Bool} {co : Nat → Nat → Nat → Row K}
    {order : Nat → List Nat} (h0 : ∀ v, v = 0 → tiny v) (hP : 1 ≤ P)
    (hord : ∀ q, q < P → (order q).Perm (List.range P))
    {x : Nat → Nat → Nat → K}
    (h : distSolve tiny P Nsys N periodic co order = .ok x) :
    ∀ s, s < Nsys → Solves P N periodic (fun q j => co q s j) (fun q j => x q s j) := by
  intro s hs
  obtain ⟨U, L, u, l, x1, xn, hred, hpr, h22, hx⟩ := distSolve_view tiny h0 hP
    (fun q hq p hp => (hord q hq).mem_iff.mpr (List.mem_range.mpr hp)) h s hs
  obtain ⟨hu, hl⟩ := solve2x2_ok h22
  have g := glue tiny hP N periodic h0 (fun q j => co q s j) U L hred u l hpr x1 xn hu hl
  intro q hq j hj
  have gq := g q hq j hj
  have hN2 : ∀ q, q < P → 2 ≤ N q := fun q hq => (reduce_ok tiny (hred q hq)).1
  have e1 : prevVal P N periodic (fun q j => x q s j) q j =
      prevVal P N periodic (glued P N (fun q j => co q s j) (inter U L) x1 xn) q j := by
    unfold prevVal
    simp only [hx q hq, hx (q-1) (by omega), hx (P-1) (by omega)]
  have e2 : nextVal P N periodic (fun q j => x q s j) q j =
      nextVal P N periodic (glued P N (fun q j => co q s j) (inter U L) x1 xn) q j := by
    unfold nextVal
    by_cases hqP : q + 1 = P
    · simp only [hx q hq, hx 0 (by omega)]
      rw [if_neg (show ¬ (q + 1 ≠ P) by omega), if_neg (show ¬ (q + 1 ≠ P) by omega)]
    · simp only [hx q hq, hx 0 (by omega), hx (q+1) (by omega)]
  rw [e1, e2]
  show (co q s j).Holds _ (x q s j) _
  rw [hx q hq]
  exact gq

/-- **C22.** For a non-singular matrix the returned values are the only solution: the answer depends neither
on the number of processors the rows are spread over nor on the message order. -/
theorem C22_unique {P : Nat} {N : Nat → Nat} {periodic : Bool} {co : Nat → Nat → Row K}
    (hns : NonSingular P N periodic co) {x y : Nat → Nat → K}
    (hP : 1 ≤ P) (hN : ∀ q, q < P → 1 ≤ N q)
    (hx : Solves P N periodic co x) (hy : Solves P N periodic co y) :
    ∀ q, q < P → ∀ j, j < N q → x q j = y q j := by
  intro q hq j hj
  have := hns (fun q j => x q j - y q j) (by
    intro q hq j hj
    have a := hx q hq j hj
    have b := hy q hq j hj
    have e1 : prevVal P N periodic (fun q j => x q j - y q j) q j = prevVal P N periodic x q j - prevVal P N periodic y q j := by
      unfold prevVal; split
      · rfl
      · split
        · rfl
        · split
          · rfl
          · ring
    have e2 : nextVal P N periodic (fun q j => x q j - y q j) q j = nextVal P N periodic x q j - nextVal P N periodic y q j := by
      unfold nextVal; split
      · rfl
      · split
        · rfl
        · split
          · rfl
          · ring
    rw [e1, e2]
    unfold Row.Holds Row.hom at *
    simp only
    linear_combination a - b) q hq j hj
  exact sub_eq_zero.mp this

/-- **C22.** The solver fails only for the stated reasons: if every matrix is non-singular and neither the local
reductions nor the reductions of the gathered interface equations meet a small pivot (the check which throws
"Zero pivot"), `solve` returns; in particular it never divides by zero. -/
theorem C22_succeeds {P Nsys : Nat} {N : Nat → Nat} {periodic : Bool} {co : Nat → Nat → Nat → Row K}
    {order : Nat → List Nat} (h0 : ∀ v, v = 0 → tiny v) (hP : 1 ≤ P)
    (hN : ∀ q, q < P → 2 ≤ N q)
    (hns : ∀ s, s < Nsys → NonSingular P N periodic (fun q j => co q s j)) :
    (∃ x, distSolve tiny P Nsys N periodic co order = .ok x) ∨
      distSolve tiny P Nsys N periodic co order = .error (.exc "Zero pivot in CyclicReduce::reduce") := by
  have upErr : ∀ (co : Nat → Row K) i u e, upLoop tiny co i u = .error e → e = .exc "Zero pivot in CyclicReduce::reduce" := by
    intro co i
    induction i with
    | zero => intro u e h; simp [upLoop] at h
    | succ i ih =>
      intro u e h
      simp only [upLoop] at h
      split at h
      · simpa using h.symm
      · exact ih _ _ h
  have loErr : ∀ (co : Nat → Row K) k i u e, loLoop tiny co k i u = .error e → e = .exc "Zero pivot in CyclicReduce::reduce" := by
    intro co k
    induction k with
    | zero => intro i u e h; simp [loLoop] at h
    | succ k ih =>
      intro i u e h
      simp only [loLoop] at h
      split at h
      · simpa using h.symm
      · exact ih _ _ _ h
  have redErr : ∀ (co : Nat → Row K) n e, 2 ≤ n → reduce tiny co n = .error e → e = .exc "Zero pivot in CyclicReduce::reduce" := by
    intro co n e hn h
    unfold reduce at h
    rw [if_neg (by omega)] at h
    cases hu : upLoop tiny co (n - 2) (co (n - 2)) with
    | error e' =>
      rw [hu] at h
      simp only [Except.error.injEq] at h
      rw [← h]; exact upErr _ _ _ _ hu
    | ok u =>
      cases hl : loLoop tiny co (n - 2) 2 (co 1) with
      | error e' =>
        rw [hu, hl] at h
        simp only [Except.error.injEq] at h
        rw [← h]; exact loErr _ _ _ _ _ hl
      | ok l => rw [hu, hl] at h; simp at h
  cases hd : distSolve tiny P Nsys N periodic co order with
  | ok x => exact Or.inl ⟨x, rfl⟩
  | error e =>
    right
    rw [Except.error.injEq]
    unfold distSolve at hd
    simp only at hd
    split at hd
    · rename_i e' c1
      simp only [Except.error.injEq] at hd
      subst hd
      obtain ⟨q, hq, hc⟩ := checkAll_err c1
      obtain ⟨s, hs, hc'⟩ := checkAll_err hc
      exact redErr _ _ _ (hN q hq) hc'
    rename_i v1 c1
    have r1 : ∀ q, q < P → ∀ s', s' < Nsys → ∃ w, reduce tiny (co q s') (N q) = .ok w := by
      intro q hq s' hs'
      obtain ⟨_, hc⟩ := checkAll_ok c1 q hq
      exact checkAll_ok hc s' hs'
    split at hd
    · rename_i e' c2
      simp only [Except.error.injEq] at hd
      subst hd
      obtain ⟨p, hp, hc⟩ := checkAll_err c2
      obtain ⟨i, hi, hc'⟩ := checkAll_err hc
      rw [ifcs_eq] at hc'
      set s := sendStart Nsys P p + i with hsdef
      have hs : s < Nsys := by
        have h1 := sendStart_mono Nsys P (show p + 1 ≤ P from hp)
        rw [sendStart_end Nsys P hP, sendStart] at h1
        omega
      unfold ifaceSolve at hc'
      simp only at hc'
      set U : Nat → Row K := fun q => (valD (Row.zero, Row.zero) (reduce tiny (co q s) (N q))).1 with hU
      set L : Nat → Row K := fun q => (valD (Row.zero, Row.zero) (reduce tiny (co q s) (N q))).2 with hL
      have hred : ∀ q, q < P → reduce tiny (co q s) (N q) = .ok (U q, L q) := by
        intro q hq
        obtain ⟨w, hw⟩ := r1 q hq s hs
        simp only [hU, hL, hw, valD]
      cases hpr : pairRed tiny P (inter U L) with
      | error e2 =>
        have hpr' := hpr
        unfold pairRed at hpr'
        rw [hpr'] at hc'
        simp only [Except.error.injEq] at hc'
        rw [← hc']
        unfold pairRed at hpr
        split at hpr
        · exact redErr _ _ _ (by omega) hpr
        · cases hpr
      | ok w =>
        obtain ⟨u, l⟩ := w
        have hpr' := hpr
        unfold pairRed at hpr'
        rw [hpr'] at hc'
        simp only at hc'
        exfalso
        cases h22 : solve2x2 periodic u l with
        | ok w =>
          obtain ⟨x1, xn⟩ := w
          rw [h22] at hc'
          simp only at hc'
          rw [backSolve_ok tiny h0 (pairRed_reduce tiny hP hpr)] at hc'
          cases hc'
        | error e3 =>
          obtain ⟨v1, vn, hne, hu, hl⟩ := solve2x2_err h22
          have hredh : ∀ q, q < P → reduce tiny (fun j => (co q s j).hom) (N q) = .ok ((U q).hom, (L q).hom) :=
            fun q hq => reduce_hom tiny (hred q hq)
          have hin : inter (fun q => (U q).hom) (fun q => (L q).hom) = fun k => (inter U L k).hom := by
            funext k; simp only [inter]; split <;> rfl
          have hprh := pairRed_hom tiny hpr
          rw [← hin] at hprh
          have g := glue tiny hP N periodic h0 (fun q j => (co q s j).hom) _ _ hredh _ _ hprh v1 vn hu hl
          have z := hns s hs _ g
          have z1 := z 0 (by omega) 0 (by have := hN 0 (by omega); omega)
          have z2 := z (P-1) (by omega) (N (P-1) - 1) (by have := hN (P-1) (by omega); omega)
          simp only [glued] at z1 z2
          rw [bsVal_zero] at z1
          simp only [Nat.mul_zero, bsVal_zero] at z1
          rw [bsVal_last _ _ (hN (P-1) (by omega)), show 2*(P-1)+1 = 2*P-1 by omega, bsVal_last _ _ (by omega)] at z2
          rcases hne with hne | hne
          · exact hne z1
          · exact hne z2
    · rename_i v2 c2
      split at hd
      · rename_i e' c3
        exfalso
        obtain ⟨q, hq, hc⟩ := checkAll_err c3
        obtain ⟨s, hs, hc'⟩ := checkAll_err hc
        obtain ⟨w, hw⟩ := r1 q hq s hs
        rw [backSolve_ok tiny h0 hw] at hc'
        cases hc'
      · cases hd

/-! ### C23 -/

/-- **C23.** The three independent computations of where a processor's systems start (sender loop, `allocMemory`,
unpacking) agree. -/
theorem C23_starts_agree (Nsys P p : Nat) :
    sys0 Nsys P p = sendStart Nsys P p ∧ scatterStart Nsys P p = sendStart Nsys P p :=
  ⟨sys0_eq Nsys P p, scatterStart_eq Nsys P p⟩

/-- **C23.** Every system has exactly one owner: the ranges `[sys0, sys0+myns)` partition `[0, Nsys)`. -/
theorem C23_partition (Nsys P : Nat) (hP : 1 ≤ P) :
    (∀ s, s < Nsys → ∃! p, p < P ∧ sys0 Nsys P p ≤ s ∧ s < sys0 Nsys P p + nsp Nsys P p) ∧
    (∀ p, p < P → sys0 Nsys P p + nsp Nsys P p ≤ Nsys) := by
  refine ⟨fun s hs => ?_, fun p hp => ?_⟩
  · obtain ⟨p, hp, h⟩ := owner_exists Nsys P P s (by rw [sendStart_end Nsys P hP]; exact hs)
    refine ⟨p, ⟨hp, by rw [sys0_eq]; exact h⟩, ?_⟩
    rintro q ⟨_, hq⟩
    rw [sys0_eq] at hq
    exact owner_unique Nsys P hq h
  · have h1 := sendStart_mono Nsys P (show p + 1 ≤ P from hp)
    rw [sendStart_end Nsys P hP, sendStart] at h1
    rw [sys0_eq]; omega

/-- **C23.** The load is balanced: processors differ by at most one system. -/
theorem C23_balanced (Nsys P p q : Nat) : nsp Nsys P p ≤ nsp Nsys P q + 1 := by
  unfold nsp; split <;> split <;> omega

/-- **C23.** Every gather message sent has exactly one matching posted receive (same source, destination, tag
and length) and conversely; no pair of processors exchanges two. -/
theorem C23_gather_matched (Nsys P : Nat) (m : Msg) :
    ((∃ q, q < P ∧ m ∈ gatherSends Nsys P q) ↔ (∃ p, p < P ∧ m ∈ gatherRecvs Nsys P p)) := by
  unfold gatherSends gatherRecvs
  simp only [List.mem_map, List.mem_filter, List.mem_range, decide_eq_true_eq]
  constructor
  · rintro ⟨q, hq, p, ⟨hp, hne, hpos⟩, rfl⟩
    refine ⟨p, hp, ?_⟩
    rw [if_pos hpos]
    simp only [List.mem_map, List.mem_filter, List.mem_range, decide_eq_true_eq]
    exact ⟨q, ⟨hq, fun h => hne h.symm⟩, by congr 1; omega⟩
  · rintro ⟨p, hp, h⟩
    split at h
    swap
    · simp at h
    rename_i hpos
    simp only [List.mem_map, List.mem_filter, List.mem_range, decide_eq_true_eq] at h
    obtain ⟨q, ⟨hq, hne⟩, rfl⟩ := h
    exact ⟨q, hq, p, ⟨hp, fun h => hne h.symm, hpos⟩, by congr 1; omega⟩

/-- **C23.** The same for the solution messages. -/
theorem C23_scatter_matched (Nsys P : Nat) (m : Msg) :
    ((∃ p, p < P ∧ m ∈ scatterSends Nsys P p) ↔ (∃ q, q < P ∧ m ∈ scatterRecvs Nsys P q)) := by
  unfold scatterSends scatterRecvs
  simp only [List.mem_map, List.mem_filter, List.mem_range, decide_eq_true_eq]
  constructor
  · rintro ⟨p, hp, h⟩
    split at h
    swap
    · simp at h
    rename_i hpos
    simp only [List.mem_map, List.mem_filter, List.mem_range, decide_eq_true_eq] at h
    obtain ⟨q, ⟨hq, hne⟩, rfl⟩ := h
    exact ⟨q, hq, p, ⟨hp, fun h => hne h.symm, hpos⟩, rfl⟩
  · rintro ⟨q, hq, p, ⟨hp, hne, hpos⟩, rfl⟩
    refine ⟨p, hp, ?_⟩
    rw [if_pos hpos]
    simp only [List.mem_map, List.mem_filter, List.mem_range, decide_eq_true_eq]
    exact ⟨q, ⟨hq, fun h => hne h.symm⟩, rfl⟩

/-- **C23.** At most one message per (source, destination) pair in each phase. -/
theorem C23_no_duplicates (Nsys P q : Nat) :
    ((gatherSends Nsys P q).map (fun m => (m.src, m.dst))).Nodup ∧
    ((scatterRecvs Nsys P q).map (fun m => (m.src, m.dst))).Nodup ∧
    ((gatherRecvs Nsys P q).map (fun m => (m.src, m.dst))).Nodup ∧
    ((scatterSends Nsys P q).map (fun m => (m.src, m.dst))).Nodup := by
  have key : ∀ (f : Nat → Bool) (g : Nat → Nat × Nat), Function.Injective g →
      (((List.range P).filter f).map g).Nodup := by
    intro f g hg
    exact List.Nodup.map hg (List.nodup_range.filter _)
  refine ⟨?_, ?_, ?_, ?_⟩
  · unfold gatherSends
    rw [List.map_map]
    exact key _ _ (fun a b h => by simpa using h)
  · unfold scatterRecvs
    rw [List.map_map]
    exact key _ _ (fun a b h => by simpa using h)
  · unfold gatherRecvs
    split
    · rw [List.map_map]
      exact key _ _ (fun a b h => by simpa using h)
    · simp
  · unfold scatterSends
    split
    · rw [List.map_map]
      exact key _ _ (fun a b h => by simpa using h)
    · simp

/-- **C23.** No receive overruns the receive buffer. -/
theorem C23_buffers_fit (Nsys P p : Nat) (m : Msg) :
    (m ∈ gatherRecvs Nsys P p → m.len ≤ recvLen Nsys P p) ∧
    (m ∈ scatterRecvs Nsys P p → m.len ≤ recvLen Nsys P p) := by
  constructor
  · intro h
    unfold gatherRecvs at h
    split at h
    swap
    · simp at h
    simp only [List.mem_map, List.mem_filter, List.mem_range, decide_eq_true_eq] at h
    obtain ⟨q, _, rfl⟩ := h
    simp only [recvLen]; omega
  · intro h
    unfold scatterRecvs at h
    simp only [List.mem_map, List.mem_filter, List.mem_range, decide_eq_true_eq] at h
    obtain ⟨q, _, rfl⟩ := h
    have := C23_balanced Nsys P q p
    simp only [recvLen]; omega

/-! ### Non-vacuity -/

/-- A diagonally dominant system split over two processors with 2 and 3 rows, two right-hand sides. -/
def exRow (s : Nat) (j : Nat) : Row ℚ := { a := 1, b := 4, c := 1, r := (s + j : ℚ) }

example : ∃ x, distSolve (K := ℚ) (fun v => v = 0) 2 3 (fun q => q + 2) false (fun _ s j => exRow s j)
    (fun _ => [1, 0]) = .ok x := by
  exact ⟨_, by
    simp (config := {decide := true}) [distSolve, checkAll, reduce, upLoop, loLoop, exRow, valD, ifaceSolve, ifcs, solve2x2,
      backSolve, nsp, sendStart, sys0, bet, fwd, scatter, scatterStart, List.range_succ]
    norm_num
    rfl⟩

/-- The hypothesis of `C22_succeeds` is met, e.g. by a lower triangular matrix on two processors. -/
example : NonSingular (K := ℚ) 2 (fun _ => 2) false (fun _ _ => ⟨1, 2, 0, 5⟩) := by
  intro x hx
  have h00 := hx 0 (by omega) 0 (show _ < 2 by omega)
  have h01 := hx 0 (by omega) 1 (show _ < 2 by omega)
  have h10 := hx 1 (by omega) 0 (show _ < 2 by omega)
  have h11 := hx 1 (by omega) 1 (show _ < 2 by omega)
  simp [Row.Holds, Row.hom, prevVal, nextVal] at h00 h01 h10 h11
  rw [h00] at h01
  have h01' : x 0 1 = 0 := by linarith
  rw [h01'] at h10
  have h10' : x 1 0 = 0 := by linarith
  rw [h10'] at h11
  have h11' : x 1 1 = 0 := by linarith
  intro q hq j hj
  interval_cases q <;> interval_cases j <;> assumption

example : distSolve (K := ℚ) (fun v => v = 0) 1 1 (fun _ => 1) false (fun _ _ _ => ⟨0, 1, 0, 1⟩) (fun _ => [0]) =
    .error (.ub "co(j, 4*(nloc-2)+i) out of range") := by
  simp [distSolve, checkAll, reduce]

end Verif.Cyclic
