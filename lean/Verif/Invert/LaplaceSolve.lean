import Verif.Invert.LaplaceProps

namespace Verif.Laplace

open Verif.Fourier Verif.Cyclic Finset Complex
open scoped Classical

/-- The processors of one row in X fit together: at least one guard cell, sizes as
`BoutMesh` makes them, the first and last know that they are. -/
def LapSetup.WellFormed (s : LapSetup) : Prop :=
  1 ≤ s.P ∧ 0 < s.n ∧ 2 * s.maxmode ≤ s.n ∧ s.opts.incIntShear = false ∧
  ∀ q, q < s.P → 1 ≤ (s.geom q).xstart ∧ (s.geom q).xstart ≤ (s.geom q).xend
    ∧ (s.geom q).localNx = (s.geom q).xend + 1 + (s.geom q).xstart
    ∧ ((s.geom q).firstX = true ↔ q = 0) ∧ ((s.geom q).lastX = true ↔ q + 1 = s.P)

/-- What a successful solve means. -/
theorem solve_view {s : LapSetup} {tiny : ℂ → Prop} {order : Nat → List Nat}
    {rhs x0 : Nat → Int → Nat → ℝ} {x : Nat → Nat → Nat → ℝ}
    (hP : 1 ≤ s.P) (h0 : ∀ v, v = 0 → tiny v)
    (hord : ∀ q, q < s.P → (order q).Perm (List.range s.P))
    (h : s.solve tiny order rhs x0 = .ok x) :
    ∃ (co : Nat → Nat → Nat → Row ℂ) (X : Nat → Nat → Nat → ℂ),
      (∀ q, q < s.P → ∀ kz, kz ≤ s.maxmode → s.matrix rhs x0 q kz = .ok (co q kz))
      ∧ (∀ kz, kz ≤ s.maxmode →
          Solves s.P s.N s.periodicX (fun q j => co q kz j) (fun q j => X q kz j))
      ∧ x = fun q j => irfft s.n (s.back X q j) := by
  unfold LapSetup.solve at h
  split_ifs at h with hall
  split at h
  · rename_i X hX
    refine ⟨s.rows rhs x0, X, ?_, ?_, (Except.ok.inj h).symm⟩
    · intro q hq kz hkz
      obtain ⟨r, hr⟩ := hall q hq kz (by omega)
      unfold LapSetup.rows
      rw [hr]
    · intro kz hkz
      exact C22_solves tiny h0 hP hord hX kz (by omega)
  · exact absurd h (by simp)

theorem setRows_off {P : Nat → Prop} {v : Nat → Coef3} {rows : Nat → Row ℂ} {j : Nat} (h : ¬ P j) :
    setRows P v rows j = rows j := by unfold setRows; rw [if_neg h]

theorem zeroRhs_off {P : Nat → Prop} {rows : Nat → Row ℂ} {j : Nat} (h : ¬ P j) :
    zeroRhs P rows j = rows j := by unfold zeroRhs; rw [if_neg h]

theorem inb_le {g : Geom} (h : 1 ≤ g.xstart) (fl : LapFlags) :
    1 ≤ inbndry g.xstart fl ∧ inbndry g.xstart fl ≤ g.xstart := by
  unfold inbndry; split_ifs <;> omega

theorem outb_le {g : Geom} (h : 1 ≤ g.xstart) (fl : LapFlags) :
    1 ≤ outbndry g.xstart fl ∧ outbndry g.xstart fl ≤ g.xstart := by
  unfold outbndry; split_ifs <;> omega

/-- Rows beyond the inner boundary are not touched. -/
theorem innerRows_off {g : Geom} {co : LapCoef} {fl : LapFlags} {kz : Nat} {kw : ℝ}
    {rows r : Nat → Row ℂ} (h : innerRows g co fl kz kw rows = .ok r) (j : Nat)
    (hj : ¬ ((j : Int) < inbndry g.xstart fl)) : r j = rows j := by
  unfold innerRows at h
  dsimp only at h
  have hs : ∀ v w, setRows (fun ix : Nat => (ix : Int) < inbndry g.xstart fl) v w j = w j :=
    fun v w => setRows_off hj
  have hz : ∀ w, zeroRhs (fun ix : Nat => (ix : Int) < inbndry g.xstart fl) w j = w j :=
    fun w => zeroRhs_off hj
  split_ifs at h <;> first
    | (obtain rfl := Except.ok.inj h
       simp only [hs, hz])
    | (split at h
       · exact absurd h (by simp)
       · obtain rfl := Except.ok.inj h
         simp only [hs, hz])

/-- Rows before the outer boundary are not touched. -/
theorem outerRows_off {g : Geom} {co : LapCoef} {fl : LapFlags} {per : Bool} {kz : Nat} {kw : ℝ}
    {rows r : Nat → Row ℂ} (h : outerRows g co fl per kz kw rows = .ok r) (j : Nat)
    (hj1 : ¬ (xe g per - xs g per - (j : Int) < outbndry g.xstart fl))
    (hj2 : ¬ (xe g per - xs g per - (j : Int) < inbndry g.xstart fl)) : r j = rows j := by
  unfold outerRows at h
  dsimp only at h
  have hs1 : ∀ v w, setRows (fun p : Nat => xe g per - xs g per - (p : Int) < outbndry g.xstart fl
      ∧ (p : Int) ≤ xe g per - xs g per) v w j = w j := fun v w => setRows_off fun h => hj1 h.1
  have hs2 : ∀ v w, setRows (fun p : Nat => xe g per - xs g per - (p : Int) < inbndry g.xstart fl
      ∧ (p : Int) ≤ xe g per - xs g per) v w j = w j := fun v w => setRows_off fun h => hj2 h.1
  have hz : ∀ w, zeroRhs (fun p : Nat => xe g per - xs g per - (p : Int) < outbndry g.xstart fl
      ∧ (p : Int) ≤ xe g per - xs g per) w j = w j := fun w => zeroRhs_off fun h => hj1 h.1
  split_ifs at h <;> first
    | (obtain rfl := Except.ok.inj h
       simp only [hs1, hs2, hz])
    | (split at h
       · exact absurd h (by simp)
       · obtain rfl := Except.ok.inj h
         simp only [hs1, hs2, hz])

/-- The discretised operator and the user's right-hand side as a matrix row. -/
noncomputable def LapSetup.interiorRow (s : LapSetup) (rhs : Nat → Int → Nat → ℝ) (q kz j : Nat) :
    Row ℂ :=
  let t := tridagCoefs s.opts (s.geom q) (s.ix q j) (kz * 2 * Real.pi / s.zlength)
    (some ((s.coef q).C1, (s.coef q).C2)) (some (s.coef q).D)
  { a := t.a, b := t.b + ((s.coef q).A (s.ix q j) : ℂ), c := t.c,
    r := rfft s.n (rhs q (s.ix q j)) kz }

/-- At an interior X index the matrix row is the discretised operator and the
right-hand side that of the user. -/
theorem matrix_interior {s : LapSetup} (hw : s.WellFormed) (hper : s.periodicX = false)
    {rhs x0 : Nat → Int → Nat → ℝ} {q kz : Nat} (hq : q < s.P) {r : Nat → Row ℂ}
    (h : s.matrix rhs x0 q kz = .ok r) (j : Nat)
    (h1 : (s.geom q).xstart ≤ s.ix q j) (h2 : s.ix q j ≤ (s.geom q).xend) :
    r j = s.interiorRow rhs q kz j := by
  obtain ⟨_, _, _, _, hg⟩ := hw
  obtain ⟨hg1, hg2, hg3, hgf, hgl⟩ := hg q hq
  have hi := inb_le hg1 s.flags
  have ho := outb_le hg1 s.flags
  have hbase : baseRows s.opts (s.geom q) (s.coef q) s.periodicX (kz * 2 * Real.pi / s.zlength)
      (s.bk rhs x0 q kz) j = s.interiorRow rhs q kz j := by
    unfold baseRows
    dsimp only
    have hb : s.bk rhs x0 q kz j = rfft s.n (rhs q (s.ix q j)) kz := by
      unfold LapSetup.bk
      dsimp only
      rw [if_neg]
      rintro (⟨h, _⟩ | ⟨h, _⟩) <;> omega
    rw [hb]; rfl
  rw [← hbase]
  unfold LapSetup.matrix tridagMatrix at h
  dsimp only at h
  rw [hper, if_pos rfl] at h
  rw [hper]
  have hix : s.ix q j = xs (s.geom q) false + j := by unfold LapSetup.ix; rw [hper]
  generalize hb : baseRows s.opts (s.geom q) (s.coef q) false (kz * 2 * Real.pi / s.zlength)
    (s.bk rhs x0 q kz) = base at h ⊢
  have hout : ∀ rows : Nat → Row ℂ,
      (if (s.geom q).lastX = true then
        outerRows (s.geom q) (s.coef q) s.flags false kz (kz * 2 * Real.pi / s.zlength) rows
        else .ok rows) = .ok r → r j = rows j := by
    intro rows hr
    split_ifs at hr with hl
    · refine outerRows_off hr j ?_ ?_
      · have : xe (s.geom q) false = (s.geom q).localNx - 1 := by
          unfold xe; rw [if_neg]; simp [hl]
        omega
      · have : xe (s.geom q) false = (s.geom q).localNx - 1 := by
          unfold xe; rw [if_neg]; simp [hl]
        omega
    · rw [Except.ok.inj hr]
  split at h
  · exact absurd h (by simp)
  · rename_i rows1 hr1
    rw [hout _ h]
    split_ifs at hr1 with hf
    · refine innerRows_off hr1 j ?_
      have : xs (s.geom q) false = 0 := by
        unfold xs; rw [if_neg]; simp [hf]
      omega
    · rw [Except.ok.inj hr1]

end Verif.Laplace
