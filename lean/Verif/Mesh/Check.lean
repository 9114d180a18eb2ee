/-
C21: validation of the Y decomposition and the choice of the processor grid.
-/
import Verif.Mesh.Index

namespace Verif.Mesh

/-! ## Specification -/

/-- The rows at which one poloidal region ends and the next begins: the X-point branch
cuts and, in a double null, the upper targets.  Region `[k_i, k_{i+1})` lies between two
consecutive entries. -/
def regionStarts (jyseps1_1 jyseps2_1 jyseps1_2 jyseps2_2 ny_inner : Int) : List Int :=
  if jyseps2_1 = jyseps1_2 then [jyseps1_1 + 1, jyseps2_2 + 1]
  else [jyseps1_1 + 1, jyseps2_1 + 1, ny_inner, jyseps1_2 + 1, jyseps2_2 + 1]

/-- No processor of `m` rows contains rows on both sides of row boundary `k`. -/
def NotStraddled (m k : Int) : Prop := ∀ p y1 y2 : Int,
  p * m ≤ y1 → y1 < p * m + m → p * m ≤ y2 → y2 < p * m + m → (y1 < k ↔ y2 < k)

/-! ## Lemmas -/

theorem tmod_ne_zero_iff (a m : Int) : a.tmod m ≠ 0 ↔ ¬ m ∣ a :=
  not_congr ⟨Int.dvd_of_tmod_eq_zero, Int.tmod_eq_zero_of_dvd⟩

theorem notStraddled_iff {m : Int} (hm : 0 < m) (k : Int) : NotStraddled m k ↔ m ∣ k := by
  constructor
  · intro h
    -- look at the processor containing row `k`
    have e := Int.mul_ediv_add_emod k m
    have h0 := Int.emod_nonneg k (by omega : m ≠ 0)
    have h1 := Int.emod_lt_of_pos k hm
    have e' : k / m * m + k % m = k := by rw [Int.mul_comm]; exact e
    by_contra hd
    have hr : k % m ≠ 0 := fun hc => hd (Int.dvd_of_emod_eq_zero hc)
    have := (h (k / m) (k / m * m) k (by omega) (by omega) (by omega) (by omega)).1 (by omega)
    omega
  · rintro ⟨q, hq⟩ p y1 y2 a b a' b'
    rw [Int.mul_comm] at hq
    by_cases hpq : p < q
    · have : (p + 1) * m ≤ q * m := Int.mul_le_mul_of_nonneg_right (by omega) (by omega)
      rw [Int.add_mul] at this
      constructor <;> intro _ <;> omega
    · have : q * m ≤ p * m := Int.mul_le_mul_of_nonneg_right (by omega) (by omega)
      constructor <;> intro _ <;> omega

/-! ## C21: the check -/

/-- **C21.** For all inputs the check succeeds exactly when: the number `m` of rows per
rank is not zero, it is at least the guard width (unless there is one rank), and `m`
divides `ny` and every row where a poloidal region starts. -/
theorem C21_check_success_iff (np ny myg j11 j21 j12 j22 nyi : Int) :
    checkBoutMeshYDecomposition np ny myg j11 j21 j12 j22 nyi = some true ↔
      ny.tdiv np ≠ 0 ∧ (myg ≤ ny.tdiv np ∨ np = 1) ∧ ny.tdiv np ∣ ny ∧
      ∀ k ∈ regionStarts j11 j21 j12 j22 nyi, ny.tdiv np ∣ k := by
  unfold checkBoutMeshYDecomposition regionStarts
  simp only [tmod_ne_zero_iff]
  generalize ny.tdiv np = m
  by_cases h1 : m < myg ∧ np ≠ 1
  · rw [if_pos h1]
    constructor
    · intro hc; cases hc
    · rintro ⟨_, h, _⟩; omega
  rw [if_neg h1]
  by_cases h2 : m = 0
  · rw [if_pos h2]
    constructor
    · intro hc; cases hc
    · rintro ⟨h, _⟩; exact absurd h2 h
  rw [if_neg h2]
  have hg : myg ≤ m ∨ np = 1 := by omega
  by_cases hs : j21 = j12
  · have hs' : ¬ (j21 ≠ j12) := by omega
    simp only [if_neg hs', if_pos hs]
    by_cases ha : m ∣ j11 + 1
    · rw [if_neg (not_not_intro ha)]
      by_cases hb : m ∣ j22 - j11
      · rw [if_neg (not_not_intro hb)]
        have h22 : m ∣ j22 + 1 := by
          have := Int.dvd_add ha hb
          have e : j11 + 1 + (j22 - j11) = j22 + 1 := by omega
          rwa [e] at this
        by_cases hd : m ∣ ny - j22 - 1
        · have hny : m ∣ ny := by
            have := Int.dvd_add h22 hd
            have e : j22 + 1 + (ny - j22 - 1) = ny := by omega
            rwa [e] at this
          simp [hd, h2, hg, hny, ha, h22]
        · simp only [if_pos hd]
          constructor
          · intro hc; simp at hc
          · rintro ⟨_, _, hny, hk⟩
            exact absurd (by
              have := Int.dvd_sub hny h22
              have e : ny - (j22 + 1) = ny - j22 - 1 := by omega
              rwa [e] at this) hd
      · simp only [if_pos hb]
        constructor
        · intro hc; simp at hc
        · rintro ⟨_, _, _, hk⟩
          have h22 : m ∣ j22 + 1 := hk _ (by simp)
          exact absurd (by
            have := Int.dvd_sub h22 ha
            have e : j22 + 1 - (j11 + 1) = j22 - j11 := by omega
            rwa [e] at this) hb
    · simp only [if_pos ha]
      constructor
      · intro hc; simp at hc
      · rintro ⟨_, _, _, hk⟩; exact absurd (hk _ (by simp)) ha
  · have hs' : j21 ≠ j12 := hs
    simp only [if_pos hs', if_neg hs]
    have iff5 : (m ∣ j11 + 1 ∧ m ∣ j21 - j11 ∧ m ∣ j22 - j12 ∧ m ∣ nyi - j21 - 1 ∧
        m ∣ j12 - nyi + 1 ∧ m ∣ ny - j22 - 1) ↔
        (m ∣ ny ∧ ∀ k ∈ [j11 + 1, j21 + 1, nyi, j12 + 1, j22 + 1], m ∣ k) := by
      constructor
      · rintro ⟨a, b, d, e, f, g⟩
        have k1 : m ∣ j21 + 1 := by
          have := Int.dvd_add a b; rwa [show j11 + 1 + (j21 - j11) = j21 + 1 by omega] at this
        have k2 : m ∣ nyi := by
          have := Int.dvd_add k1 e; rwa [show j21 + 1 + (nyi - j21 - 1) = nyi by omega] at this
        have k3 : m ∣ j12 + 1 := by
          have := Int.dvd_add k2 f; rwa [show nyi + (j12 - nyi + 1) = j12 + 1 by omega] at this
        have k4 : m ∣ j22 + 1 := by
          have := Int.dvd_add k3 d; rwa [show j12 + 1 + (j22 - j12) = j22 + 1 by omega] at this
        have k5 : m ∣ ny := by
          have := Int.dvd_add k4 g; rwa [show j22 + 1 + (ny - j22 - 1) = ny by omega] at this
        refine ⟨k5, ?_⟩
        simp [a, k1, k2, k3, k4]
      · rintro ⟨hny, hk⟩
        have a := hk (j11 + 1) (by simp)
        have k1 := hk (j21 + 1) (by simp)
        have k2 := hk nyi (by simp)
        have k3 := hk (j12 + 1) (by simp)
        have k4 := hk (j22 + 1) (by simp)
        refine ⟨a, ?_, ?_, ?_, ?_, ?_⟩
        · have := Int.dvd_sub k1 a; rwa [show j21 + 1 - (j11 + 1) = j21 - j11 by omega] at this
        · have := Int.dvd_sub k4 k3; rwa [show j22 + 1 - (j12 + 1) = j22 - j12 by omega] at this
        · have := Int.dvd_sub k2 k1; rwa [show nyi - (j21 + 1) = nyi - j21 - 1 by omega] at this
        · have := Int.dvd_sub k3 k2; rwa [show j12 + 1 - nyi = j12 - nyi + 1 by omega] at this
        · have := Int.dvd_sub hny k4; rwa [show ny - (j22 + 1) = ny - j22 - 1 by omega] at this
    rw [← iff5]
    by_cases a : m ∣ j11 + 1 <;> by_cases b : m ∣ j21 - j11 <;> by_cases d : m ∣ j22 - j12 <;>
      by_cases e : m ∣ nyi - j21 - 1 <;> by_cases f : m ∣ j12 - nyi + 1 <;>
      by_cases g : m ∣ ny - j22 - 1 <;> simp [a, b, d, e, f, g, h2, hg]

/-- **C21.** Consequently, when `np` ranks share `ny` rows equally, the check succeeds
exactly when every rank has at least `MYG` rows (or there is one rank) and no rank has
rows in two different poloidal regions. -/
theorem C21_check_no_straddling (np ny myg j11 j21 j12 j22 nyi m : Int)
    (hnp : 0 < np) (hm : 0 < m) (hny : ny = np * m) :
    checkBoutMeshYDecomposition np ny myg j11 j21 j12 j22 nyi = some true ↔
      (myg ≤ m ∨ np = 1) ∧ ∀ k ∈ regionStarts j11 j21 j12 j22 nyi, NotStraddled m k := by
  have hd : ny.tdiv np = m := by
    rw [hny, Int.mul_comm, Int.mul_tdiv_cancel _ (by omega)]
  rw [C21_check_success_iff, hd]
  have hdv : m ∣ ny := ⟨np, by rw [hny, Int.mul_comm]⟩
  constructor
  · rintro ⟨_, a, _, b⟩
    exact ⟨a, fun k hk => (notStraddled_iff hm k).2 (b k hk)⟩
  · rintro ⟨a, b⟩
    exact ⟨by omega, a, hdv, fun k hk => (notStraddled_iff hm k).1 (b k hk)⟩

/-- **C21.** The check is well defined (does not divide by zero) whenever there are at
least as many rows as ranks, or the guard width is positive and there are several ranks. -/
theorem C21_check_defined (np ny myg j11 j21 j12 j22 nyi : Int) (hnp : 0 < np)
    (h : np ≤ ny ∨ (0 < myg ∧ np ≠ 1 ∧ 0 ≤ ny)) :
    checkBoutMeshYDecomposition np ny myg j11 j21 j12 j22 nyi ≠ none := by
  unfold checkBoutMeshYDecomposition
  intro hc
  simp only at hc
  by_cases h1 : ny.tdiv np < myg ∧ np ≠ 1
  · rw [if_pos h1] at hc; cases hc
  rw [if_neg h1] at hc
  by_cases h2 : ny.tdiv np = 0
  · rcases h with h | ⟨a, b, _⟩
    · have : 1 ≤ ny.tdiv np := by
        rw [Int.tdiv_eq_ediv_of_nonneg (by omega)]
        exact (Int.le_ediv_iff_mul_le hnp).2 (by omega)
      omega
    · omega
  rw [if_neg h2] at hc
  repeat' split at hc
  all_goals cases hc

/-- **C21 violated (finding).** With `MYG = 0` and more ranks than rows the check divides
by zero (`(jyseps1_1+1) % 0`). -/
theorem C21_check_division_by_zero :
    checkBoutMeshYDecomposition 8 4 0 (-1) 2 2 3 2 = none := by decide

example : checkBoutMeshYDecomposition 8 32 2 3 11 19 27 16 = some true ∧
    checkBoutMeshYDecomposition 8 32 2 4 11 19 27 16 = some false := by decide

/-! ## C21: automatic choice -/

/-- `i` processors in X (and `npes / i` in Y) is an acceptable split. -/
def GoodSplit (npes mx ny myg j11 j21 j12 j22 nyi i : Int) : Prop :=
  1 ≤ i ∧ i ≤ npes ∧ npes.tmod i = 0 ∧ mx.tmod i = 0 ∧ ny.tmod (npes.tdiv i) = 0 ∧
  checkBoutMeshYDecomposition (npes.tdiv i) ny myg j11 j21 j12 j22 nyi = some true

section
variable {nearer : Int → Int → Bool} {npes mx ny myg j11 j21 j12 j22 nyi : Int}

theorem splitStep_spec {best i b : Int} (h1 : 1 ≤ i) (h2 : i ≤ npes)
    (h : splitStep nearer npes mx ny myg j11 j21 j12 j22 nyi best i = some b)
    (hb : best = -1 ∨ GoodSplit npes mx ny myg j11 j21 j12 j22 nyi best) :
    (b = -1 ∨ GoodSplit npes mx ny myg j11 j21 j12 j22 nyi b) ∧
    (b = -1 → best = -1 ∧ ¬ GoodSplit npes mx ny myg j11 j21 j12 j22 nyi i) := by
  unfold splitStep at h
  by_cases hc : npes.tmod i = 0 ∧ mx.tmod i = 0 ∧ ny.tmod (npes.tdiv i) = 0
  · rw [if_pos hc] at h
    cases hk : checkBoutMeshYDecomposition (npes.tdiv i) ny myg j11 j21 j12 j22 nyi with
    | none => rw [hk] at h; cases h
    | some r =>
      rw [hk] at h
      cases r with
      | false =>
        simp only [Option.some.injEq] at h
        subst h
        refine ⟨hb, fun hm => ⟨hm, fun hg => ?_⟩⟩
        rw [hg.2.2.2.2.2] at hk; cases hk
      | true =>
        have hg : GoodSplit npes mx ny myg j11 j21 j12 j22 nyi i :=
          ⟨h1, h2, hc.1, hc.2.1, hc.2.2, hk⟩
        simp only at h
        by_cases hn : best < 1 ∨ nearer i best = true
        · rw [if_pos hn] at h; cases h
          exact ⟨Or.inr hg, fun hm => by omega⟩
        · rw [if_neg hn] at h; cases h
          refine ⟨hb, fun hm => ?_⟩
          omega
  · rw [if_neg hc] at h; cases h
    exact ⟨hb, fun hm => ⟨hm, fun hg => hc ⟨hg.2.2.1, hg.2.2.2.1, hg.2.2.2.2.1⟩⟩⟩

theorem splitLoop_spec : ∀ (n : Nat) (i best b : Int), 1 ≤ i → i + n = npes + 1 →
    splitLoop nearer npes mx ny myg j11 j21 j12 j22 nyi n i best = some b →
    (best = -1 ∨ GoodSplit npes mx ny myg j11 j21 j12 j22 nyi best) →
    (b = -1 ∨ GoodSplit npes mx ny myg j11 j21 j12 j22 nyi b) ∧
    (b = -1 → best = -1 ∧ ∀ k, i ≤ k → ¬ GoodSplit npes mx ny myg j11 j21 j12 j22 nyi k) := by
  intro n
  induction n with
  | zero =>
    intro i best b h1 h2 h hb
    simp only [splitLoop, Option.some.injEq] at h
    subst h
    refine ⟨hb, fun hm => ⟨hm, fun k hk hg => ?_⟩⟩
    have := hg.2.1
    omega
  | succ n ih =>
    intro i best b h1 h2 h hb
    simp only [splitLoop] at h
    cases hs : splitStep nearer npes mx ny myg j11 j21 j12 j22 nyi best i with
    | none => rw [hs] at h; cases h
    | some b' =>
      rw [hs] at h
      have hstep := splitStep_spec h1 (by omega) hs hb
      have := ih (i + 1) b' b (by omega) (by push_cast at h2; omega) h hstep.1
      refine ⟨this.1, fun hm => ?_⟩
      have h3 := this.2 hm
      have h4 := hstep.2 h3.1
      refine ⟨h4.1, fun k hk => ?_⟩
      by_cases hki : k = i
      · subst hki; exact h4.2
      · exact h3.2 k (by omega)

/-- **C21.** Whatever the floating point "nearer to the ideal" comparison returns, a split
chosen automatically is acceptable: `NXPE*NYPE = NPES`, `NXPE` divides the X points,
`NYPE` divides `ny`, and the decomposition check passes. -/
theorem C21_find_split_sound {nx mxg x y : Int} (hn : 0 < npes)
    (h : findProcessorSplit nearer npes nx mxg ny myg j11 j21 j12 j22 nyi = some (.ok (x, y))) :
    0 < x ∧ 0 < y ∧ x * y = npes ∧ x ∣ nx - 2 * mxg ∧ y ∣ ny ∧
    checkBoutMeshYDecomposition y ny myg j11 j21 j12 j22 nyi = some true := by
  unfold findProcessorSplit at h
  cases hl : splitLoop nearer npes (nx - 2 * mxg) ny myg j11 j21 j12 j22 nyi npes.toNat 1 (-1) with
  | none => rw [hl] at h; cases h
  | some best =>
    rw [hl] at h
    simp only at h
    by_cases hb : best < 1
    · rw [if_pos hb] at h; cases h
    · rw [if_neg hb] at h
      cases h
      have := (splitLoop_spec npes.toNat 1 (-1) x (by omega) (by omega) hl (Or.inl rfl)).1
      rcases this with h0 | ⟨g1, g2, g3, g4, g5, g6⟩
      · omega
      · have e := (block_decomp (y := npes) (m := x) (by omega) (by omega))
        rw [g3] at e
        have hxy : x * npes.tdiv x = npes := by rw [Int.mul_comm]; omega
        have hpos : 0 < npes.tdiv x := by
          by_contra hc
          have : npes.tdiv x = 0 := by omega
          rw [this, Int.mul_zero] at hxy; omega
        exact ⟨by omega, hpos, hxy, Int.dvd_of_tmod_eq_zero g4, Int.dvd_of_tmod_eq_zero g5, g6⟩

/-- **C21.** The automatic choice throws only if no acceptable split exists. -/
theorem C21_find_split_complete {nx mxg : Int} {e : String} (hn : 0 < npes)
    (h : findProcessorSplit nearer npes nx mxg ny myg j11 j21 j12 j22 nyi = some (.error e))
    (x y : Int) (hx : 0 < x) (hy : 0 < y) (hxy : x * y = npes) (hdx : x ∣ nx - 2 * mxg)
    (hdy : y ∣ ny) :
    checkBoutMeshYDecomposition y ny myg j11 j21 j12 j22 nyi ≠ some true := by
  unfold findProcessorSplit at h
  cases hl : splitLoop nearer npes (nx - 2 * mxg) ny myg j11 j21 j12 j22 nyi npes.toNat 1 (-1) with
  | none => rw [hl] at h; cases h
  | some best =>
    rw [hl] at h
    simp only at h
    by_cases hb : best < 1
    · have hs := splitLoop_spec npes.toNat 1 (-1) best (by omega) (by omega) hl (Or.inl rfl)
      have hm : best = -1 := by
        rcases hs.1 with h0 | g
        · exact h0
        · have := g.1; omega
      intro hck
      have hq : npes.tdiv x = y := by
        rw [← hxy, Int.mul_comm, Int.mul_tdiv_cancel _ (by omega)]
      have hle : x ≤ npes := by
        have := Int.mul_le_mul_of_nonneg_left (show 1 ≤ y by omega) (show 0 ≤ x by omega)
        omega
      refine (hs.2 hm).2 x (by omega) ⟨by omega, hle, ?_, Int.tmod_eq_zero_of_dvd hdx, ?_, ?_⟩
      · exact Int.tmod_eq_zero_of_dvd ⟨y, hxy.symm⟩
      · rw [hq]; exact Int.tmod_eq_zero_of_dvd hdy
      · rw [hq]; exact hck
    · rw [if_neg hb] at h; cases h

theorem splitLoop_ne_none (hny : 0 < ny) : ∀ (n : Nat) (i best : Int),
    1 ≤ i → i + n = npes + 1 →
    splitLoop nearer npes mx ny myg j11 j21 j12 j22 nyi n i best ≠ none := by
  intro n
  induction n with
  | zero => intro i best _ _ h; cases h
  | succ n ih =>
    intro i best h1 h2
    simp only [splitLoop]
    cases hs : splitStep nearer npes mx ny myg j11 j21 j12 j22 nyi best i with
    | some b => exact ih (i + 1) b (by omega) (by push_cast at h2; omega)
    | none =>
      exfalso
      unfold splitStep at hs
      by_cases hc : npes.tmod i = 0 ∧ mx.tmod i = 0 ∧ ny.tmod (npes.tdiv i) = 0
      · rw [if_pos hc] at hs
        have hi : i ≤ npes := by push_cast at h2; omega
        have e := block_decomp (y := npes) (m := i) (by omega) (by omega)
        rw [hc.1] at e
        have hpos : 0 < npes.tdiv i := by
          by_contra hcc
          have : npes.tdiv i = 0 := by omega
          rw [this, Int.zero_mul] at e; omega
        have hle : npes.tdiv i ≤ ny := Int.le_of_dvd hny (Int.dvd_of_tmod_eq_zero hc.2.2)
        have := C21_check_defined (npes.tdiv i) ny myg j11 j21 j12 j22 nyi hpos (Or.inl hle)
        cases hk : checkBoutMeshYDecomposition (npes.tdiv i) ny myg j11 j21 j12 j22 nyi with
        | none => exact this hk
        | some r =>
          rw [hk] at hs
          cases r
          · cases hs
          · simp only at hs
            split at hs <;> cases hs
      · rw [if_neg hc] at hs; cases hs

/-- **C21.** On a grid with at least one row the automatic choice never divides by zero. -/
theorem C21_find_split_defined {nx mxg : Int} (hny : 0 < ny) (hn : 0 < npes) :
    findProcessorSplit nearer npes nx mxg ny myg j11 j21 j12 j22 nyi ≠ none := by
  unfold findProcessorSplit
  have := splitLoop_ne_none (nearer := nearer) (npes := npes) (mx := nx - 2 * mxg) (myg := myg)
    (j11 := j11) (j21 := j21) (j12 := j12) (j22 := j22) (nyi := nyi) hny npes.toNat 1 (-1)
    (by omega) (by omega)
  cases hl : splitLoop nearer npes (nx - 2 * mxg) ny myg j11 j21 j12 j22 nyi npes.toNat 1 (-1) with
  | none => exact absurd hl this
  | some best => simp only; split <;> simp

end

example : findProcessorSplit (fun a b => decide (a < b)) 6 16 2 32 2 (-1) 16 16 31 16
    = some (.ok (3, 2)) := rfl
example : findProcessorSplit (fun _ _ => true) 5 16 2 32 2 (-1) 16 16 31 16
    = some (.error "Could not find a valid value for NXPE") := rfl

/-- **C21.** A split requested through the options `NXPE` or `NYPE` is accepted only if it
uses all ranks, honours the requested value (`NXPE` wins over `NYPE`), and passes the
decomposition check. -/
theorem C21_choose_split_sound {npes nype ny myg j11 j21 j12 j22 nyi x y : Int}
    {nxpe : Option Int}
    (h : chooseProcessorSplit npes nxpe nype ny myg j11 j21 j12 j22 nyi = some (.ok (x, y))) :
    x * y = npes ∧ (∀ n, nxpe = some n → x = n) ∧ (nxpe = none → y = nype) ∧
    checkBoutMeshYDecomposition y ny myg j11 j21 j12 j22 nyi = some true := by
  unfold chooseProcessorSplit at h
  have fin : ∀ a b : Int, (if b = 0 then none
      else match checkBoutMeshYDecomposition b ny myg j11 j21 j12 j22 nyi with
        | none => none
        | some false => some (Except.error "bad decomposition")
        | some true => some (Except.ok (a, b))) = some (Except.ok (x, y)) →
      a = x ∧ b = y ∧ checkBoutMeshYDecomposition b ny myg j11 j21 j12 j22 nyi = some true := by
    intro a b hh
    by_cases hb : b = 0
    · rw [if_pos hb] at hh; cases hh
    · rw [if_neg hb] at hh
      cases hk : checkBoutMeshYDecomposition b ny myg j11 j21 j12 j22 nyi with
      | none => rw [hk] at hh; cases hh
      | some r =>
        rw [hk] at hh
        cases r
        · cases hh
        · cases hh; exact ⟨rfl, rfl, rfl⟩
  have prod : ∀ n : Int, n ≠ 0 → npes.tmod n = 0 → n * npes.tdiv n = npes := by
    intro n _ hm
    have := Int.mul_tdiv_add_tmod npes n
    omega
  cases nxpe with
  | some n =>
    simp only at h
    by_cases h0 : n = 0
    · simp [h0] at h
    · by_cases hm : npes.tmod n ≠ 0
      · simp [h0, hm] at h
      · simp only [h0, hm, if_false] at h
        obtain ⟨rfl, rfl, hk⟩ := fin _ _ h
        exact ⟨prod n h0 (by omega), fun k hk => (Option.some.inj hk), fun hc => (by cases hc), hk⟩
  | none =>
    simp only at h
    by_cases h0 : nype = 0
    · simp [h0] at h
    · by_cases hm : npes.tmod nype ≠ 0
      · simp [h0, hm] at h
      · simp only [h0, hm, if_false] at h
        obtain ⟨rfl, rfl, hk⟩ := fin (npes.tdiv nype) nype (by rw [if_neg h0]; exact h)
        refine ⟨?_, fun k hk => (by cases hk), fun _ => rfl, hk⟩
        rw [Int.mul_comm]; exact prod nype h0 (by omega)

example : chooseProcessorSplit 6 (some 3) 1 32 2 (-1) 16 16 31 16 = some (.ok (3, 2)) := rfl

/-! ## C21: correction of the separatrix indices -/

/-- **C21.** The separatrix indices kept by the mesh are always ordered and inside the
grid: `-1 ≤ jyseps1_1 ≤ jyseps2_1 ≤ jyseps1_2 ≤ jyseps2_2 < ny`. -/
theorem C21_indices_ordered {ny a b e f g : Int} {d : YDecomp}
    (h : setYDecompositionIndices ny a b e f g = .ok d) :
    -1 ≤ d.jyseps1_1 ∧ d.jyseps1_1 ≤ d.jyseps2_1 ∧ d.jyseps2_1 ≤ d.jyseps1_2 ∧
    d.jyseps1_2 ≤ d.jyseps2_2 ∧ d.jyseps2_2 < ny ∧ d.ny_inner = g := by
  unfold setYDecompositionIndices at h
  simp only [bind, Except.bind, pure, Except.pure] at h
  repeat' split at h
  all_goals first
    | (cases h; done)
    | (cases h; simp only; grind)

/-- **C21.** Indices that are already ordered and inside the grid are kept unchanged. -/
theorem C21_indices_kept {ny a b e f g : Int} (h1 : -1 ≤ a) (h2 : a ≤ b) (h3 : b ≤ e)
    (h4 : e ≤ f) (h5 : f < ny) :
    ∃ n, setYDecompositionIndices ny a b e f g = .ok ⟨a, b, e, f, g, n⟩ ∧
      (n = 0 ↔ a = -1 ∧ f = ny - 1) ∧ (n = 2 ↔ ¬ (a = -1 ∧ f = ny - 1) ∧ b < e) := by
  unfold setYDecompositionIndices
  have e1 : (if a < -1 then -1 else a) = a := if_neg (by omega)
  have e2 : (if b < a then a + 1 else b) = b := if_neg (by omega)
  have e3 : (if e < b then b else e) = e := if_neg (by omega)
  have e4 : (if f ≥ ny then ny - 1 else f) = f := if_neg (by omega)
  simp only [e1, e2, e3, e4]
  rw [if_neg (by omega : ¬ f < e)]
  refine ⟨_, rfl, ?_, ?_⟩
  · by_cases hh : a < 0 ∧ f ≥ ny - 1
    · rw [if_pos hh]; constructor <;> intro _ <;> omega
    · rw [if_neg hh]; split <;> constructor <;> intro _ <;> omega
  · by_cases hh : a < 0 ∧ f ≥ ny - 1
    · rw [if_pos hh]; constructor <;> intro _ <;> omega
    · rw [if_neg hh]; split <;> constructor <;> intro _ <;> omega

/-- **C21.** The correction throws exactly if the (corrected) second X-point lies at or
beyond the end of the grid. -/
theorem C21_indices_throw {ny a b e f g : Int} :
    (∃ m, setYDecompositionIndices ny a b e f g = .error m) ↔
      (ny ≤ e ∨ ny ≤ b ∨ (b < max a (-1) ∧ ny ≤ max a (-1) + 1)) := by
  have key : ∀ j11 j21 j12 j22 : Int, j11 = (if a < -1 then -1 else a) →
      j21 = (if b < j11 then j11 + 1 else b) → j12 = (if e < j21 then j21 else e) →
      j22 = (if f ≥ ny then ny - 1 else f) →
      ((j22 < j12 ∧ j12 ≥ ny) ↔
        (ny ≤ e ∨ ny ≤ b ∨ (b < max a (-1) ∧ ny ≤ max a (-1) + 1))) := by
    intro j11 j21 j12 j22 h1 h2 h3 h4
    have m1 : j11 = max a (-1) := by rw [h1]; split <;> omega
    have m4 : ny ≤ j12 → j22 < j12 := by intro h; rw [h4]; split <;> omega
    constructor
    · rintro ⟨_, hx⟩
      rw [h3] at hx
      split at hx
      · rw [h2] at hx
        split at hx
        · right; right; omega
        · right; left; omega
      · left; omega
    · intro h
      have : ny ≤ j12 := by
        rw [h3]; split
        · rename_i hlt
          rcases h with h | h | h
          · omega
          · rw [h2]; split <;> omega
          · rw [h2]; split <;> omega
        · rename_i hlt
          rcases h with h | h | h
          · omega
          · have : b ≤ j21 := by rw [h2]; split <;> omega
            omega
          · have : j21 = j11 + 1 := by rw [h2, if_pos (by omega)]
            omega
      exact ⟨m4 this, this⟩
  rw [← key _ _ _ _ rfl rfl rfl rfl]
  unfold setYDecompositionIndices
  simp only [bind, Except.bind, pure, Except.pure]
  generalize (if a < -1 then -1 else a) = j11
  generalize (if b < j11 then j11 + 1 else b) = j21
  generalize (if e < j21 then j21 else e) = j12
  generalize (if f ≥ ny then ny - 1 else f) = j22
  by_cases h1 : j22 < j12
  · rw [if_pos h1]
    by_cases h2 : j12 ≥ ny
    · rw [if_pos h2]
      exact ⟨fun _ => ⟨h1, h2⟩, fun _ => ⟨_, rfl⟩⟩
    · rw [if_neg h2]
      exact ⟨fun ⟨m, hm⟩ => (by cases hm), fun h => absurd h.2 h2⟩
  · rw [if_neg h1]
    exact ⟨fun ⟨m, hm⟩ => (by cases hm), fun h => absurd h.1 h1⟩

example : setYDecompositionIndices 32 (-5) (-7) (-9) 40 16 = .ok ⟨-1, 0, 0, 31, 16, 0⟩ := rfl
example : ∃ m, setYDecompositionIndices 8 (-1) 3 12 7 4 = .error m := ⟨_, rfl⟩

end Verif.Mesh
