import Verif.Invert.ParSpec
import Verif.Invert.LaplaceThms

namespace Verif.Par

open Verif.Fourier Verif.Cyclic Finset Complex
open Verif.Laplace (cw cw_congr cw_add cw_smul cw_deriv deriv_cw waves_eq_cw irfft_cw leftOf rightOf diffZ
  prevVal_left nextVal_right Five cw_row)

/-- Multiplying the amplitudes by `cos - i sin` moves the waves up. -/
theorem cw_phaseMinus {n : Nat} (hn : 0 < n) (L ts : ℝ) (c : Nat → ℂ) (t : ℝ) :
    cw n (fun k => c k * phaseMinus (k * 2 * Real.pi / L * ts)) t = cw n c (t - ts * (n / L)) := by
  have hn' : (n : ℝ) ≠ 0 := by exact_mod_cast hn.ne'
  unfold cw
  rw [← waves_shift n hn _ _ (fun k : Nat => (k : ℝ) * 2 * Real.pi / L * ts) (ts * (n / L)) t]
  · apply waves_congr
    · rw [if_pos rfl, if_pos rfl, if_pos rfl]
      simp [phaseMinus]
    · intro m h1 _
      rw [if_neg (by omega), if_neg (by omega), if_neg (by omega)]
      simp only [phaseMinus, mul_re, mul_im]
      constructor <;> ring
  · intro m
    field_simp

/-- Multiplying the amplitudes by `cos + i sin` moves the waves down. -/
theorem cw_phasePlus {n : Nat} (hn : 0 < n) (L ts : ℝ) (c : Nat → ℂ) (t : ℝ) :
    cw n (fun k => c k * phasePlus (k * 2 * Real.pi / L * ts)) t = cw n c (t + ts * (n / L)) := by
  have h := cw_phaseMinus hn L (-ts) c t
  rw [show t - -ts * (n / L) = t + ts * (n / L) by ring] at h
  rw [← h]
  congr 1
  funext k
  congr 1
  unfold phasePlus phaseMinus
  rw [mul_neg, Real.cos_neg, Real.sin_neg, neg_neg]

section
variable {s : Surface} (hw : s.WellFormed) {kind : Kind} {stale : Nat → Nat → Nat → Row ℂ}
  {rhs : Nat → Int → Nat → ℝ} {q k j : Nat}

/-- Geometry of an interior row. -/
theorem interior_facts (hw : s.WellFormed) (hq : q < s.P) (h1 : s.localYstart q ≤ s.iy q j)
    (h2 : s.iy q j ≤ (s.geom q).yend) :
    s.y0 q ≤ j ∧ (s.firstY q = true → (s.geom q).ystart ≤ j)
    ∧ (j : Int) < s.size q ∧ (s.lastY q = true → (j : Int) < s.size q - (s.geom q).ystart)
    ∧ (s.closed = true → s.size q = (s.geom q).localNy - 2 * (s.geom q).ystart)
    ∧ ((j : Int) - s.y0 q < (s.geom q).localNy - (s.geom q).ystart - s.localYstart q) := by
  obtain ⟨_, _, hg⟩ := hw
  obtain ⟨g1, g2⟩ := hg q hq
  unfold Surface.iy Surface.localYstart Surface.y0 Geom.yend at *
  unfold Surface.size
  have hc : s.closed = true → s.firstY q = false ∧ s.lastY q = false := by
    intro h; unfold Surface.firstY Surface.lastY; simp [h]
  cases hf : s.firstY q <;> cases hl : s.lastY q <;> cases hy : s.ylow <;> cases hcl : s.closed <;>
    simp [hf, hl, hy, hcl] at h1 h2 hc ⊢ <;> omega

theorem row_interior (hw : s.WellFormed) (hq : q < s.P) (h1 : s.localYstart q ≤ s.iy q j)
    (h2 : s.iy q j ≤ (s.geom q).yend) :
    s.row kind stale rhs q k j =
      { a := (s.entries kind q k (s.iy q j)).1
          * (if s.closed = true ∧ q = 0 ∧ j = 0 then phaseMinus (s.kw k * s.ts) else 1)
        b := (s.entries kind q k (s.iy q j)).2.1
        c := (s.entries kind q k (s.iy q j)).2.2
          * (if s.closed = true ∧ q + 1 = s.P ∧ j + 1 = s.N q then phasePlus (s.kw k * s.ts) else 1)
        r := rfft s.n (rhs q (s.iy q j)) k } := by
  obtain ⟨i1, i2, i3, i4, i5, i6⟩ := interior_facts hw hq h1 h2
  have hbase : s.baseRow kind stale rhs q k j =
      { a := (s.entries kind q k (s.iy q j)).1, b := (s.entries kind q k (s.iy q j)).2.1
        c := (s.entries kind q k (s.iy q j)).2.2, r := rfft s.n (rhs q (s.iy q j)) k } := by
    unfold Surface.baseRow
    dsimp only
    rw [if_pos ⟨by omega, i6⟩]
    have : (j : Int) - s.y0 q + s.localYstart q = s.iy q j := by unfold Surface.iy; omega
    rw [this]
  unfold Surface.row
  dsimp only
  rw [hbase]
  cases hc : s.closed
  · simp only [Bool.false_eq_true, if_false, false_and, mul_one]
    rw [if_neg (fun h => by have := i4 h.1; omega)]
    rw [if_neg (fun h => by have := i2 h.1; omega)]
  · simp only [if_true, true_and]
    have i5' := i5 hc
    have e : ((j : Int) = (s.geom q).localNy - 2 * (s.geom q).ystart - 1) ↔ j + 1 = s.N q := by
      unfold Surface.N; omega
    simp only [e]
    by_cases ha : q = 0 ∧ j = 0
    · by_cases hb : q + 1 = s.P ∧ j + 1 = s.N q
      · rw [if_pos ha, if_pos hb, if_pos ha, if_pos hb]
      · rw [if_pos ha, if_neg hb, if_pos ha, if_neg hb, mul_one]
    · by_cases hb : q + 1 = s.P ∧ j + 1 = s.N q
      · rw [if_neg ha, if_pos hb, if_neg ha, if_pos hb, mul_one]
      · rw [if_neg ha, if_neg hb, if_neg ha, if_neg hb, mul_one, mul_one]

end

/-- What a successful solve means. -/
theorem solve_view {s : Surface} {kind : Kind} {tiny : ℂ → Prop} [DecidablePred tiny]
    {order : Nat → List Nat} {stale : Nat → Nat → Nat → Row ℂ} {rhs : Nat → Int → Nat → ℝ}
    {x : Nat → Nat → Nat → ℝ} (hP : 1 ≤ s.P) (h0 : ∀ v, v = 0 → tiny v)
    (hord : ∀ q, q < s.P → (order q).Perm (List.range s.P))
    (h : s.solve kind tiny order stale rhs = .ok x) :
    ∃ X : Nat → Nat → Nat → ℂ,
      (∀ k, k ≤ s.n / 2 →
        Solves s.P s.N s.closed (fun q j => s.row kind stale rhs q k j) (fun q j => X q k j))
      ∧ x = fun q j => irfft s.n fun k => X q k j := by
  unfold Surface.solve at h
  split at h
  · rename_i X hX
    exact ⟨X, fun k hk => C22_solves tiny h0 hP hord hX k (by omega), (Except.ok.inj h).symm⟩
  · exact absurd h (by simp)

/-- The amplitudes below and above a row, as the matrix sees them. -/
noncomputable def Surface.ampBelow (s : Surface) (X : Nat → Nat → Nat → ℂ) (q j k : Nat) : ℂ :=
  let l := leftOf s.P s.N q j
  X l.1 k l.2 * (if s.closed = true ∧ q = 0 ∧ j = 0 then phaseMinus (s.kw k * s.ts) else 1)

noncomputable def Surface.ampAbove (s : Surface) (X : Nat → Nat → Nat → ℂ) (q j k : Nat) : ℂ :=
  let r := rightOf s.P s.N q j
  X r.1 k r.2 * (if s.closed = true ∧ q + 1 = s.P ∧ j + 1 = s.N q then phasePlus (s.kw k * s.ts) else 1)

theorem cw_below {s : Surface} (hn : 0 < s.n) (X : Nat → Nat → Nat → ℂ) (q j : Nat) :
    cw s.n (s.ampBelow X q j) = s.below (fun q j => cw s.n fun k => X q k j) q j := by
  funext t
  unfold Surface.ampBelow Surface.below
  dsimp only
  split_ifs with h
  · exact cw_phaseMinus hn s.zlength s.ts _ t
  · simp only [mul_one]

theorem cw_above {s : Surface} (hn : 0 < s.n) (X : Nat → Nat → Nat → ℂ) (q j : Nat) :
    cw s.n (s.ampAbove X q j) = s.above (fun q j => cw s.n fun k => X q k j) q j := by
  funext t
  unfold Surface.ampAbove Surface.above
  dsimp only
  split_ifs with h
  · exact cw_phasePlus hn s.zlength s.ts _ t
  · simp only [mul_one]

/-- The equation of mode `k` at an interior row. -/
theorem mode_row {s : Surface} (hw : s.WellFormed) {kind : Kind} {stale : Nat → Nat → Nat → Row ℂ}
    {rhs : Nat → Int → Nat → ℝ} {X : Nat → Nat → Nat → ℂ}
    (hX : ∀ k, k ≤ s.n / 2 →
        Solves s.P s.N s.closed (fun q j => s.row kind stale rhs q k j) (fun q j => X q k j))
    {q j : Nat} (hq : q < s.P) (h1 : s.localYstart q ≤ s.iy q j)
    (h2 : s.iy q j ≤ (s.geom q).yend) (k : Nat) (hk : k ≤ s.n / 2) :
    (s.entries kind q k (s.iy q j)).1 * s.ampBelow X q j k
      + (s.entries kind q k (s.iy q j)).2.1 * X q k j
      + (s.entries kind q k (s.iy q j)).2.2 * s.ampAbove X q j k
      = rfft s.n (rhs q (s.iy q j)) k := by
  obtain ⟨i1, i2, i3, i4, i5, i6⟩ := interior_facts hw hq h1 h2
  obtain ⟨_, _, hg⟩ := id hw
  obtain ⟨g1, g2⟩ := hg q hq
  have hj : j < s.N q := by unfold Surface.N; omega
  have := hX k hk q hq j hj
  dsimp only at this
  rw [row_interior hw hq h1 h2] at this
  unfold Row.Holds at this
  have hleft : j ≠ 0 ∨ q ≠ 0 ∨ s.closed = true := by
    by_contra hc
    push Not at hc
    obtain ⟨hj0, hq0, hc0⟩ := hc
    have hf : s.firstY q = true := by unfold Surface.firstY; simp [hq0, hc0]
    have := i2 hf
    omega
  have hright : j + 1 ≠ s.N q ∨ q + 1 ≠ s.P ∨ s.closed = true := by
    by_contra hc
    push Not at hc
    obtain ⟨hj0, hq0, hc0⟩ := hc
    have hf : s.lastY q = true := by unfold Surface.lastY; simp [hq0, hc0]
    have := i4 hf
    unfold Surface.N at hj0
    omega
  rw [prevVal_left hleft, nextVal_right hright] at this
  dsimp only at this
  rw [← this]
  unfold Surface.ampBelow Surface.ampAbove
  dsimp only
  ring

/-- The waves through a row of the result are those of the solver's amplitudes. -/
theorem result_waves {n : Nat} (hn : 0 < n) (c : Nat → ℂ) {a b : Nat → ℝ} {M : ℝ}
    (h : IsRow n (irfft n c) a b M) : waves n a b = cw n c := by
  rw [waves_eq_cw hn h]
  apply cw_congr
  · rw [C53_rfft_irfft n hn c 0 (by omega), if_pos (Or.inl rfl), ofReal_re]
  · intro m h1 h2
    rw [C53_rfft_irfft n hn c m (by omega), if_neg (by omega)]

end Verif.Par
