import Verif.Invert.PcrPivots
import Verif.Invert.SptThms
import Verif.Invert.LaplaceWide
import Mathlib.Tactic.IntervalCases

/-!
# C66: what the parallel cyclic reduction solvers guarantee

That what they return satisfies the equation and the boundary conditions is in the C54 theorems, and that all solvers return the same
field in `C58_solvers_agree`: both hold of every `LapSetup.Returned`, which these solvers are part of.
-/

/-! ## Messages -/

namespace Verif.Pcr
open Verif.Cyclic

/-- The exchanges of one solve. -/
inductive Phase
  | cr (d : Nat)
  | pcr (l : Nat)
  | pair
  | back

/-- The messages processor `p` sends: receiver and tag.  `cr_forward_multiple_row` (pcr.cxx:713-720), `pcr_forward_single_row`
(L846-909, L942-980), `cr_backward_multiple_row` (L776-781).  Ranks are relative to the first processor of the row in X
(`myrank = yproc * nprocs + xproc`, L130). -/
def sends (P : Nat) : Phase → Nat → List (Nat × Nat)
  | .cr _, p => if 0 < p then [(p - 1, 0)] else []
  | .pcr l, p =>
    let D := 2 ^ l
    if (p / D + 1) % 2 = 0 then
      (if p + D < P then [(p + D, 203)] else []) ++ if D ≤ p then [(p - D, 201)] else []
    else
      (if p + D < P then [(p + D, 200)] else []) ++ if D ≤ p then [(p - D, 202)] else []
  | .pair, p =>
    if p < P / 2 then [(p + P / 2, 301)] else if 0 < P / 2 then [(p - P / 2, 300)] else []
  | .back, p => if p < P - 1 then [(p + 1, 100)] else []

/-- The messages processor `p` waits for: sender, tag, and the index `0` or `n_mpi + 1` they are stored at (`true` for the latter).
pcr.cxx:708-711, 721-729, 846-909, 942-980, 773-775, 783-788. -/
def recvs (P : Nat) : Phase → Nat → List (Nat × Nat × Bool)
  | .cr _, p => if p < P - 1 then [(p + 1, 0, true)] else []
  | .pcr l, p =>
    let D := 2 ^ l
    if (p / D + 1) % 2 = 0 then
      (if p + D < P then [(p + D, 202, true)] else []) ++ if D ≤ p then [(p - D, 200, false)] else []
    else
      (if p + D < P then [(p + D, 201, true)] else []) ++ if D ≤ p then [(p - D, 203, false)] else []
  | .pair, p =>
    if p < P / 2 then [(p + P / 2, 300, true)] else if 0 < P / 2 then [(p - P / 2, 301, false)] else []
  | .back, p => if 0 < p then [(p - 1, 100, false)] else []

theorem parity_up (p l : Nat) : (p + 2 ^ l) / 2 ^ l = p / 2 ^ l + 1 := Nat.add_div_right p (Nat.two_pow_pos l)

theorem parity_down {p l : Nat} (h : 2 ^ l ≤ p) : p / 2 ^ l = (p - 2 ^ l) / 2 ^ l + 1 := by
  rw [← parity_up, Nat.sub_add_cancel h]

/-- **Every message has exactly one receiver.**  In each exchange, whatever the (even) number of processors: a processor waits for a
message from another with some tag if and only if that one sends it; and no two messages between two processors in one exchange have
the same tag, so none can be taken for another.  In each exchange all receives are started before anything is waited for, so that none
waits for ever. -/
theorem C66_messages (P : Nat) (hP : P = 1 ∨ 2 ∣ P) (f : Phase) (p q t : Nat) (hp : p < P) (hq : q < P) :
    ((q, t) ∈ sends P f p ↔ ∃ b, (p, t, b) ∈ recvs P f q) ∧ ((sends P f p).map Prod.fst).Nodup ∧
    ∀ m ∈ sends P f p, m.1 < P := by
  cases f with
  | cr d =>
    simp only [sends, recvs]
    refine ⟨?_, ?_, ?_⟩
    · split_ifs <;> simp <;> omega
    · split_ifs <;> simp
    · split_ifs <;> simp; omega
  | back =>
    simp only [sends, recvs]
    refine ⟨?_, ?_, ?_⟩
    · split_ifs <;> simp <;> omega
    · split_ifs <;> simp
    · split_ifs <;> simp; omega
  | pair =>
    simp only [sends, recvs]
    refine ⟨?_, ?_, ?_⟩
    · split_ifs <;> simp <;> omega
    · split_ifs <;> simp
    · split_ifs <;> simp <;> omega
  | pcr l =>
    have hD : 0 < 2 ^ l := Nat.two_pow_pos l
    simp only [sends, recvs]
    refine ⟨?_, ?_, ?_⟩
    · by_cases c1 : q = p + 2 ^ l
      · have e : q / 2 ^ l = p / 2 ^ l + 1 := by rw [c1]; exact parity_up p l
        generalize 2 ^ l = D at *
        generalize q / D = a at *
        generalize p / D = b at *
        subst e
        split_ifs <;> simp <;> omega
      · by_cases c2 : p = q + 2 ^ l
        · have e : p / 2 ^ l = q / 2 ^ l + 1 := by rw [c2]; exact parity_up q l
          generalize 2 ^ l = D at *
          generalize q / D = a at *
          generalize p / D = b at *
          subst e
          split_ifs <;> simp <;> omega
        · generalize 2 ^ l = D at *
          generalize q / D = a at *
          generalize p / D = b at *
          split_ifs <;> simp <;> omega
    · generalize 2 ^ l = D at *
      generalize p / D = b at *
      split_ifs <;> simp <;> omega
    · generalize 2 ^ l = D at *
      generalize p / D = b at *
      split_ifs <;> simp <;> omega

variable {K : Type} [Field K]

/-- What is stored after the messages of one exchange have arrived, each holding what its sender puts in. -/
noncomputable def delivered {R : Type} (n : Nat) (msg : Nat → R) (rs : List (Nat × Nat × Bool)) (s : Nat → R) : Nat → R :=
  rs.foldl (fun s m => upd s (if m.2.2 then n + 1 else 0) (msg m.1)) s

/-- The exchanges of the model are those messages. -/
theorem C66_exchanges (P n : Nat) (w : Nat → Nat → Row K) (x : Nat → Nat → K) (p : Nat) (hp : p < P) (d l : Nat) :
    crExchange P n d w p = delivered n (fun q => w q d) (recvs P (.cr d) p) (w p) ∧
    pcrExchange P n (2 ^ l) w p = delivered n (fun q => w q n) (recvs P (.pcr l) p) (w p) ∧
    backExchange n x p = delivered n (fun q => x q n) (recvs P .back p) (x p) := by
  have hD : 0 < 2 ^ l := Nat.two_pow_pos l
  refine ⟨?_, ?_, ?_⟩
  · funext i
    unfold crExchange recvs
    dsimp only
    by_cases c : p < P - 1
    · rw [if_pos c]
      simp only [delivered, List.foldl, upd, if_true]
      by_cases ci : i = n + 1
      · rw [if_pos ⟨ci, by omega⟩, if_pos ci]
      · rw [if_neg (fun h => ci h.1), if_neg ci]
    · rw [if_neg c, if_neg (by omega)]; rfl
  · funext i
    unfold pcrExchange recvs
    dsimp only
    generalize 2 ^ l = D at *
    generalize p / D = b at *
    by_cases c0 : (b + 1) % 2 = 0 <;> by_cases c1 : p + D < P <;> by_cases c2 : D ≤ p <;>
      simp only [c0, c1, c2, if_true, if_false, delivered, List.foldl, List.nil_append, List.append_nil, List.cons_append, upd,
        and_true, and_false, Bool.false_eq_true] <;>
      by_cases ci : i = 0 <;> by_cases cj : i = n + 1 <;> first | omega | simp [ci, cj] <;> omega
  · funext i
    unfold backExchange recvs
    dsimp only
    by_cases c : 0 < p
    · rw [if_pos c]
      simp only [delivered, List.foldl, upd, Bool.false_eq_true, if_false]
      by_cases ci : i = 0
      · rw [if_pos ⟨ci, c⟩, if_pos ci]
      · rw [if_neg (fun h => ci h.1), if_neg ci]
    · rw [if_neg c, if_neg (by omega)]; rfl

example : sends 8 (.pcr 1) 3 = [(5, 203), (1, 201)] ∧ recvs 8 (.pcr 1) 5 = [(7, 201, true), (3, 203, false)] := by decide

end Verif.Pcr

/-! ## The solution -/

namespace Verif.Pcr
open Verif.Cyclic
variable {K : Type} [Field K]

/-- **The cyclic reduction solves the system.**  Over any field, for every number of processors and of points per processor that are
powers of two, every number of boundary rows and every content of uninitialised memory: if nothing is divided by zero, all rows of all
processors hold. -/
theorem C66_pcr_solves (L : Line) {M N : Nat} (hP : L.P = 2 ^ M) (hn : L.n = 2 ^ N) (co : Nat → Nat → Row K)
    (junk : Nat → Nat → K) (hpiv : L.Pivots co) : Solves L.P L.rows false co (L.pcr co junk) :=
  L.pcr_solves hP hn co junk hpiv

/-- **So does the Thomas variant**, if there are at least two points per processor and the boundary rows refer only to points further
in. -/
theorem C66_thomas_solves_partial (L : Line) {M : Nat} (hP : L.P = 2 ^ M) (hn : 2 ≤ L.n) (hx : 1 ≤ L.xstart) (co : Nat → Nat → Row K)
    (hin : L.Inward co) (junk : Nat → Nat → K) (hpiv : L.ThPivots co) : Solves L.P L.rows false co (L.pcrThomas co junk) :=
  L.pcrThomas_solves hP hn hx co hin junk hpiv

/-! ### Where the Thomas variant does not -/

/-- `x'' = ...` on two processors with one point each and a boundary point at either end. -/
def oneRow : Nat → Nat → Row ℚ := fun p j => if p = 0 ∧ j = 0 then ⟨0, 1, 0, 0⟩ else if p = 1 ∧ j = 1 then ⟨0, 1, 0, 0⟩ else ⟨1, -4, 1, 1⟩

/-- **One point per processor.**  The constructor accepts it, nothing is divided by zero, but the result solves nothing: each row is
reduced with itself.  The same problem is solved by `LaplacePCR`. -/
theorem C66_thomas_one_point_violated :
    (⟨2, 1, 1⟩ : Line).ThPivots oneRow ∧ (⟨2, 1, 1⟩ : Line).Inward oneRow ∧
    ¬ Solves 2 (⟨2, 1, 1⟩ : Line).rows false oneRow ((⟨2, 1, 1⟩ : Line).pcrThomas oneRow fun _ _ => 0) ∧
    Solves 2 (⟨2, 1, 1⟩ : Line).rows false oneRow ((⟨2, 1, 1⟩ : Line).pcr oneRow fun _ _ => 0) := by
  refine ⟨⟨?_, ?_, ⟨?_, ?_, ?_, ?_⟩⟩, ⟨?_, ?_⟩, ?_, ?_⟩
  · intro ix h; have : ix = 0 := by change ix < 1 at h; omega
    subst this; decide +kernel
  · intro ix h; have : ix = 0 := by change ix < 1 at h; omega
    subst this; decide +kernel
  · intro p _ i h1 h2; change i < 1 at h2; omega
  · intro p h; change p < 2 at h; interval_cases p <;> decide +kernel
  · intro l h; exact absurd (lt_of_lt_of_le h (by decide : _ ≤ 0)) (Nat.not_lt_zero l)
  · intro p h; change p < 2 at h; interval_cases p <;> decide +kernel
  · intro ix h1 h2; change ix < 1 at h2; omega
  · intro ix h1 h2; change ix + 1 < 2 at h1; change 2 < ix + 1 + 1 at h2; omega
  · intro h
    exact absurd (h 0 (by decide) 1 (by decide)) (by unfold Row.Holds; decide +kernel)
  · intro p h j hj
    interval_cases p
    · change j < 2 at hj; interval_cases j <;> (unfold Row.Holds; decide +kernel)
    · change j < 2 at hj; interval_cases j <;> (unfold Row.Holds; decide +kernel)

/-- Two guard cells of which only the outermost is a boundary row (`INVERT_BNDRY_ONE`), two points. -/
def narrow : Nat → Nat → Row ℚ := fun _ j => if j = 0 then ⟨0, 1, 0, 1⟩ else if j = 5 then ⟨0, 1, 0, 0⟩ else ⟨1, -4, 1, 0⟩

/-- **One boundary row with two guard cells.**  The remaining guard cell has the row of an interior point, which also refers to the
outer boundary; the Thomas variant drops this.  `LaplacePCR` eliminates both rows. -/
theorem C66_thomas_narrow_violated :
    (⟨1, 2, 2⟩ : Line).ThPivots narrow ∧
    ¬ Solves 1 (⟨1, 2, 2⟩ : Line).rows false narrow ((⟨1, 2, 2⟩ : Line).pcrThomas narrow fun _ _ => 0) ∧
    Solves 1 (⟨1, 2, 2⟩ : Line).rows false narrow ((⟨1, 2, 2⟩ : Line).pcr narrow fun _ _ => 0) := by
  refine ⟨⟨?_, ?_, ⟨?_, ?_, ?_, ?_⟩⟩, ?_, ?_⟩
  · intro ix h; change ix < 2 at h; interval_cases ix <;> decide +kernel
  · intro ix h; change ix < 2 at h; interval_cases ix <;> decide +kernel
  · intro p _ i h1 h2; change i < 2 at h2; omega
  · intro p h; change p < 1 at h; interval_cases p; decide +kernel
  · intro l h; exact absurd (lt_of_lt_of_le h (by decide : _ ≤ 0)) (Nat.not_lt_zero l)
  · intro p h; change p < 1 at h; interval_cases p; decide +kernel
  · intro h
    exact absurd (h 0 (by decide) 1 (by decide)) (by unfold Row.Holds; decide +kernel)
  · intro p h j hj
    interval_cases p
    change j < 6 at hj; interval_cases j <;> (unfold Row.Holds; decide +kernel)

end Verif.Pcr

/-! ## The inversion -/

namespace Verif.Laplace

open Verif.Fourier Verif.Cyclic Finset Complex
open scoped Classical

theorem blockDominant_congr {θ β : ℝ} {P : Nat} {N N' : Nat → Nat} {k0 k1 : Nat} {co : Nat → Nat → Row ℂ} (hP : 1 ≤ P)
    (h : ∀ q, q < P → N q = N' q) (hd : BlockDominant θ β P N k0 k1 co) : BlockDominant θ β P N' k0 k1 co := by
  obtain ⟨d0, d1, d2, d3⟩ := hd
  refine ⟨by rw [← h 0 (by omega)]; exact d0, by rw [← h _ (by omega)]; exact d1, fun h1 => by rw [← h 0 (by omega)]; exact d2 h1, ?_⟩
  intro q hq j hj
  have := d3 q hq j (by rw [h q hq]; exact hj)
  have e : blockCls P N k0 k1 q j = blockCls P N' k0 k1 q j := by unfold blockCls; rw [h q hq]
  rw [← e]
  exact this

/-- The rows of a Helmholtz-type problem are dominant. -/
theorem helmholtz_dominant {s : LapSetup} (hw : s.WellFormed) (hper : s.periodicX = false) (hu : s.Uniform)
    {θ β : ℝ} (hθ : 0 < θ) (hθ1 : θ ≤ 1) (hβ : 0 < β) (hh : HelmholtzWide s θ β) (rhs x0 : Nat → Int → Nat → ℝ) (kz : Nat) :
    s.line.Dominant (fun q j => s.rows rhs x0 q kz j) := by
  have hP := hw.1
  refine s.line.dominant_of_block hP hθ hβ rfl ?_ (blockDominant_congr hP (fun q hq => line_rows hw hper hu hq)
    ((wide_rows_at hw hper hθ1 hβ hh rhs x0).2.2 kz))
  rw [(hu (s.P - 1) (by omega)).1]
  rfl

/-- **Success.**  A Helmholtz-type problem on a power of two of processors with a power of two of points is solved by both, whatever
the right-hand side, the boundary flags (of value, gradient, decay or cylinder type) and the content of uninitialised memory:
nothing is divided by zero. -/
theorem C66_helmholtz_succeeds {s : LapSetup} (hw : s.WellFormed) (hper : s.periodicX = false) (hu : s.Uniform)
    {M N : Nat} (hM : s.P = 2 ^ M) (hN : (s.geom 0).xend - (s.geom 0).xstart + 1 = 2 ^ N)
    {θ β : ℝ} (hθ : 0 < θ) (hθ1 : θ ≤ 1) (hβ : 0 < β) (hh : HelmholtzWide s θ β) (junk : Nat → Nat → Nat → ℂ)
    (rhs x0 : Nat → Int → Nat → ℝ) :
    (∃ x, s.pcrSolve junk rhs x0 = .ok x) ∧ ∃ x, s.pcrThomasSolve junk rhs x0 = .ok x := by
  have hP := hw.1
  have hrows := (wide_rows_at hw hper hθ1 hβ hh rhs x0).1
  have hln : s.line.n = 2 ^ N := by
    show ((s.geom 0).xend - (s.geom 0).xstart + 1).toNat = 2 ^ N
    rw [hN]; norm_cast
  have p1 : isPow2 s.P = true := (isPow2_iff _).mpr ⟨M, hM⟩
  have p2 : isPow2 (s.P * s.line.n) = true := (isPow2_iff _).mpr ⟨M + N, by rw [hM, hln, pow_add]⟩
  have hx : 1 ≤ s.line.xstart := by
    have := (hw.2.2.2.2 0 (by omega)).1
    show 1 ≤ (s.geom 0).xstart.toNat
    omega
  have hn2 : 2 ≤ s.line.n := by
    have := hh.rows 0 (by omega)
    show 2 ≤ ((s.geom 0).xend - (s.geom 0).xstart + 1).toNat
    omega
  have hf : s.FullWidth := ⟨hh.widthIn, by
    have := hh.widthOut
    rw [(hu (s.P - 1) (by omega)).1] at this
    exact this⟩
  have hmat : ∀ q, q < s.P → ∀ kz, ∃ r, s.matrix rhs x0 q kz = .ok r := fun q hq kz => ⟨_, hrows q hq kz⟩
  have hd := fun kz => helmholtz_dominant hw hper hu hθ hθ1 hβ hh rhs x0 kz
  constructor
  · unfold LapSetup.pcrSolve
    rw [if_neg (by simp [p1]), if_neg (by simp [p2]), if_pos (fun q hq kz _ => hmat q hq kz),
      if_pos (fun kz _ => s.line.pivots_of_dominant hM hln (hd kz))]
    exact ⟨_, rfl⟩
  · unfold LapSetup.pcrThomasSolve
    rw [if_neg (by simp [p1]), if_neg (by simp [p2]), if_pos (fun q hq kz _ => hmat q hq kz),
      if_pos (fun kz _ => s.line.thPivots_of_dominant hM hn2 hx (rows_inward hw hper hu hf (fun q hq => hmat q hq kz)) (hd kz))]
    exact ⟨_, rfl⟩

/-- **The restriction.**  Both refuse other numbers of processors, or of points. -/
theorem C66_powers_of_two {s : LapSetup} {junk : Nat → Nat → Nat → ℂ} {rhs x0 : Nat → Int → Nat → ℝ} {x : Nat → Nat → Nat → ℝ}
    (h : s.pcrSolve junk rhs x0 = .ok x ∨ s.pcrThomasSolve junk rhs x0 = .ok x) :
    ∃ M N, s.P = 2 ^ M ∧ s.line.n = 2 ^ N := by
  rcases h with h | h
  · unfold LapSetup.pcrSolve at h
    split_ifs at h with h1 h2
    exact pow2_split (by simpa using h1) (by simpa using h2)
  · unfold LapSetup.pcrThomasSolve at h
    split_ifs at h with h1 h2
    exact pow2_split (by simpa using h1) (by simpa using h2)

/-- **The same field from all solvers.**  For a Helmholtz-type problem with the matrix built without guard cells, `LaplacePCR`,
`LaplacePCR_THOMAS` and `LaplaceCyclic` agree at every point, for any message order, pivot threshold and uninitialised memory. -/
theorem C66_same_as_cyclic {s : LapSetup} (hw : s.WellFormed) (hper : s.periodicX = false) (hu : s.Uniform) (hg : s.flags.guards = false)
    {θ β : ℝ} (hθ : 0 < θ) (hθ1 : θ ≤ 1) (hβ : 0 < β) (hh : HelmholtzWide s θ β)
    {tiny : ℂ → Prop} (h0 : ∀ v, v = 0 → tiny v) {order : Nat → List Nat} (hord : ∀ q, q < s.P → (order q).Perm (List.range s.P))
    {junk junk' : Nat → Nat → Nat → ℂ} {rhs x0 : Nat → Int → Nat → ℝ} {x y z : Nat → Nat → Nat → ℝ}
    (hx : s.solve tiny order rhs x0 = .ok x) (hy : s.pcrSolve junk rhs x0 = .ok y) (hz : s.pcrThomasSolve junk' rhs x0 = .ok z)
    (q : Nat) (hq : q < s.P) (j : Nat) (hj : j < s.N q) : y q j = x q j ∧ z q j = x q j := by
  have hn2 : 2 ≤ s.line.n := by
    have := hh.rows 0 (by have := hw.1; omega)
    show 2 ≤ ((s.geom 0).xend - (s.geom 0).xstart + 1).toNat
    omega
  have hf : s.FullWidth := ⟨hh.widthIn, by
    have := hh.widthOut
    rw [(hu (s.P - 1) (by have := hw.1; omega)).1] at this
    exact this⟩
  have rx : (s.withGuards s.flags.guards).Returned rhs x0 x := .cyclic hg tiny h0 order hord hx
  exact ⟨C58_solvers_agree hw hper hθ hθ1 hβ hh _ (Or.inr (Or.inr rfl)) (.pcr hg hper hu junk hy) rx q hq j hj,
    C58_solvers_agree hw hper hθ hθ1 hβ hh _ (Or.inr (Or.inr rfl)) (.pcrThomas hg hper hu hn2 hf junk' hz) rx q hq j hj⟩

/-- **A `FieldPerp` is not solved for.**  Before any `Field3D` has been, whatever is returned for a `FieldPerp` is the transform of
uninitialised memory, the same for every right-hand side; after a `Field3D` with at least two slices in Y has been, the arrays are
overrun. -/
theorem C66_fieldperp_violated {s : LapSetup} {junk : Nat → Nat → Nat → ℂ} {rhs x0 : Nat → Int → Nat → ℝ} :
    (∀ x, s.pcrPerp 0 junk rhs x0 = .ok x → x = fun q j => irfft s.n (s.back (fun q kz j => junk kz q j) q j)) ∧
    ∀ ny, 2 ≤ ny → ∀ x, s.pcrPerp ((s.maxmode + 1) * ny) junk rhs x0 ≠ .ok x := by
  constructor
  · intro x h
    unfold LapSetup.pcrPerp at h
    split_ifs at h
    simpa using (Except.ok.inj h).symm
  · intro ny hny x h
    have : s.maxmode + 1 < (s.maxmode + 1) * ny := by nlinarith
    unfold LapSetup.pcrPerp at h
    rw [if_pos this] at h
    split_ifs at h

/-- The example of `LaplaceExist` with two boundary cells and four points on each of two processors. -/
noncomputable def exPcr : LapSetup :=
  { exSetup with geom := fun q => { exGeom q with localNx := 8, xstart := 2, xend := 5 } }

theorem exPcr_wellFormed : exPcr.WellFormed := by
  refine ⟨by decide, by decide, by decide, rfl, ?_⟩
  intro q hq
  have hq' : q < 2 := hq
  refine ⟨by simp [exPcr, exGeom], by simp [exPcr, exGeom], by simp [exPcr, exGeom],
    by simp [exPcr, exGeom], ?_⟩
  simp only [exPcr, exSetup, exGeom, decide_eq_true_eq]
  omega

theorem exPcr_helmholtz : HelmholtzWide exPcr (1 / 201) (1 / 2) := by
  constructor
  · simp [exPcr, exSetup]
  · intro q _ j; simp only [exPcr, exGeom]; norm_num
  · intro q _ j; rfl
  · intro q _ j; simp [exPcr, exSetup]
  · intro q _ j; simp only [exPcr, exSetup]; norm_num
  · intro q _ j
    simp only [five, exPcr, exSetup, exGeom]
    norm_num
  · intro q _ j
    simp only [five, exPcr, exSetup, exGeom]
    norm_num
  · norm_num
  · intro q _ j; simp only [exPcr, exGeom]; norm_num
  · decide
  · decide
  · intro q _; simp [exPcr]
  · decide
  · decide
  · decide

/-- The hypotheses are met. -/
example (junk : Nat → Nat → Nat → ℂ) (rhs x0 : Nat → Int → Nat → ℝ) :
    (∃ x, exPcr.pcrSolve junk rhs x0 = .ok x) ∧ ∃ x, exPcr.pcrThomasSolve junk rhs x0 = .ok x :=
  C66_helmholtz_succeeds exPcr_wellFormed rfl (fun _ _ => ⟨rfl, rfl⟩) (M := 1) (N := 2) rfl (by simp [exPcr]) (by norm_num) (by norm_num)
    (by norm_num) exPcr_helmholtz junk rhs x0

end Verif.Laplace
