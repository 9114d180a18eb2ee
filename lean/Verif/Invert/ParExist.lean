import Verif.Invert.ParThms
import Verif.Invert.LaplaceExist
import Verif.Cyclic.Block

/-!
# C55: when the parallel inversion succeeds
-/

namespace Verif.Par

open Verif.Fourier Verif.Cyclic Verif.Laplace Complex

/-- Number of boundary rows of the first processor. -/
def Surface.k0 (s : Surface) : Nat := if s.closed then 0 else ((s.geom 0).ystart).toNat

/-- Number of boundary rows of the last processor. -/
def Surface.k1 (s : Surface) : Nat := if s.closed then 0 else ((s.geom (s.P - 1)).ystart).toNat

theorem norm_phaseMinus (t : ℝ) : ‖phaseMinus t‖ = 1 := by
  have h : ‖phaseMinus t‖ ^ 2 = 1 := by
    rw [← Complex.normSq_eq_norm_sq]
    unfold phaseMinus
    rw [Complex.normSq_mk]
    have := Real.sin_sq_add_cos_sq t
    nlinarith
  have := norm_nonneg (phaseMinus t)
  nlinarith

theorem norm_phasePlus (t : ℝ) : ‖phasePlus t‖ = 1 := by
  have h : ‖phasePlus t‖ ^ 2 = 1 := by
    rw [← Complex.normSq_eq_norm_sq]
    unfold phasePlus
    rw [Complex.normSq_mk]
    have := Real.sin_sq_add_cos_sq t
    nlinarith
  have := norm_nonneg (phasePlus t)
  nlinarith

/-- Every processor has two interior points. -/
def Surface.TwoRows (s : Surface) : Prop :=
  ∀ q, q < s.P → 2 * (s.geom q).ystart + 2 ≤ (s.geom q).localNy

theorem size_facts {s : Surface} (hw : s.WellFormed) (h2 : s.TwoRows) {q : Nat} (hq : q < s.P) :
    2 ≤ s.size q
    ∧ (s.firstY q = true → (s.geom q).ystart + 1 ≤ s.size q)
    ∧ (s.lastY q = true → (s.geom q).ystart + 1 ≤ s.size q)
    ∧ (s.firstY q = true → s.lastY q = true → 2 * (s.geom q).ystart + 1 ≤ s.size q) := by
  obtain ⟨_, _, hg⟩ := hw
  obtain ⟨g1, g2⟩ := hg q hq
  have := h2 q hq
  unfold Surface.size
  cases hf : s.firstY q <;> cases hy : s.ylow <;> cases hl : s.lastY q <;> simp <;> omega

theorem block_of_entries {s : Surface} (hw : s.WellFormed) (h2 : s.TwoRows) {kind : Kind}
    {θ β : ℝ} (hβ1 : β ≤ 1) (k : Nat)
    (hrow : ∀ q, q < s.P → ∀ y, s.localYstart q ≤ y → y ≤ (s.geom q).yend →
      ‖(s.entries kind q k y).1‖ + ‖(s.entries kind q k y).2.2‖
          ≤ (1 - θ) * ‖(s.entries kind q k y).2.1‖
        ∧ β ≤ ‖(s.entries kind q k y).2.1‖)
    (stale : Nat → Nat → Nat → Row ℂ) (rhs : Nat → Int → Nat → ℝ) :
    BlockDominant θ β s.P s.N s.k0 s.k1 (fun q j => s.row kind stale rhs q k j) := by
  obtain ⟨hP, hn, hg⟩ := id hw
  have f0 : s.firstY 0 = !s.closed := by unfold Surface.firstY; simp
  have l0 : ∀ q, s.lastY q = (!s.closed && decide (q + 1 = s.P)) := fun q => rfl
  have fq : ∀ q, s.firstY q = (!s.closed && decide (q = 0)) := fun q => rfl
  have s0 := size_facts hw h2 (show 0 < s.P by omega)
  have sP := size_facts hw h2 (show s.P - 1 < s.P by omega)
  have gP := (hg (s.P - 1) (by omega)).1
  have g0 := (hg 0 (by omega)).1
  refine ⟨?_, ?_, ?_, ?_⟩
  · unfold Surface.k0 Surface.N
    cases hc : s.closed
    · have := s0.2.1 (by rw [f0, hc]; rfl)
      simp; omega
    · simp; omega
  · unfold Surface.k1 Surface.N
    cases hc : s.closed
    · have := sP.2.2.1 (by rw [l0, hc]; simp; omega)
      simp; omega
    · simp; omega
  · intro hP1
    unfold Surface.k0 Surface.k1 Surface.N
    rw [hP1]
    cases hc : s.closed
    · have := s0.2.2.2 (by rw [f0, hc]; rfl) (by rw [l0, hc]; simp; omega)
      simp; omega
    · simp; omega
  · intro q hq j hj
    dsimp only
    obtain ⟨g1, g2⟩ := hg q hq
    by_cases c0 : q = 0 ∧ j < s.k0
    · have e : blockCls s.P s.N s.k0 s.k1 q j = 0 := if_pos c0
      rw [e]
      obtain ⟨rfl, cj⟩ := c0
      have hopen : s.closed = false := by
        cases hc : s.closed
        · rfl
        · unfold Surface.k0 at cj; simp [hc] at cj
      have hjy : (j : Int) < (s.geom 0).ystart := by
        unfold Surface.k0 at cj; simp [hopen] at cj; omega
      rw [(row_lower hw kind stale rhs hopen k j hjy).1]
      refine ⟨rfl, ?_, ?_⟩ <;> simp [hβ1]
    · by_cases c1 : q + 1 = s.P ∧ s.N q ≤ j + s.k1
      · have e : blockCls s.P s.N s.k0 s.k1 q j = 2 := by
          unfold blockCls; rw [if_neg c0, if_pos c1]
        rw [e]
        obtain ⟨cq, cj⟩ := c1
        have hopen : s.closed = false := by
          cases hc : s.closed
          · rfl
          · unfold Surface.k1 at cj; simp [hc] at cj; omega
        have hqP : s.P - 1 = q := by omega
        have hk1 : (s.k1 : Int) = (s.geom q).ystart := by
          unfold Surface.k1; rw [hqP]; simp [hopen]; omega
        have hjs : (j : Int) < s.size q := by unfold Surface.N at hj; omega
        have hsz : (s.N q : Int) = s.size q := by unfold Surface.N; omega
        rw [(row_upper hw kind stale rhs hopen q k j cq (by omega) hjs).1]
        refine ⟨rfl, ?_, ?_⟩ <;> simp [hβ1]
      · have e : blockCls s.P s.N s.k0 s.k1 q j = 1 := by
          unfold blockCls; rw [if_neg c0, if_neg c1]
        rw [e]
        have hb : s.localYstart q ≤ s.iy q j ∧ s.iy q j ≤ (s.geom q).yend := by
          have hsz : (s.N q : Int) = s.size q := by
            unfold Surface.N at hj ⊢; omega
          have hk1 : s.lastY q = true → (s.k1 : Int) = (s.geom q).ystart ∧ q + 1 = s.P := by
            intro hl
            rw [l0] at hl
            simp at hl
            have hqP : s.P - 1 = q := by omega
            unfold Surface.k1; rw [hqP]; simp [hl.1]; omega
          have hk0 : s.firstY q = true → (s.k0 : Int) = (s.geom q).ystart ∧ q = 0 := by
            intro hl
            rw [fq] at hl
            simp at hl
            obtain ⟨h1, rfl⟩ := hl
            unfold Surface.k0; simp [h1]; omega
          unfold Surface.iy Surface.y0 Surface.localYstart Geom.yend
          unfold Surface.size at hsz
          cases hf : s.firstY q <;> cases hl : s.lastY q <;> cases hy : s.ylow <;>
            simp [hf, hl, hy] at hk1 hk0 hsz ⊢ <;> omega
        obtain ⟨r1, r2⟩ := hrow q hq _ hb.1 hb.2
        rw [row_interior hw hq hb.1 hb.2]
        refine ⟨?_, r2⟩
        dsimp only
        refine le_trans (le_of_eq ?_) r1
        congr 1
        · rw [norm_mul]; split_ifs
          · rw [norm_phaseMinus, mul_one]
          · rw [norm_one, mul_one]
        · rw [norm_mul]; split_ifs
          · rw [norm_phasePlus, mul_one]
          · rw [norm_one, mul_one]

/-- Dominant entries make the inversion succeed. -/
theorem solve_succeeds {s : Surface} (hw : s.WellFormed) (h2 : s.TwoRows) {kind : Kind}
    {θ β : ℝ} (hθ : 0 < θ) (hθ1 : θ ≤ 1) (hβ : 0 < β) (hβ1 : β ≤ 1)
    (hrow : ∀ k q, q < s.P → ∀ y, s.localYstart q ≤ y → y ≤ (s.geom q).yend →
      ‖(s.entries kind q k y).1‖ + ‖(s.entries kind q k y).2.2‖
          ≤ (1 - θ) * ‖(s.entries kind q k y).2.1‖
        ∧ β ≤ ‖(s.entries kind q k y).2.1‖)
    {tiny : ℂ → Prop} [DecidablePred tiny] (h0 : ∀ v, v = 0 → tiny v)
    (htiny : ∀ v, tiny v → ‖v‖ < θ * (θ * β)) (order : Nat → List Nat)
    (stale : Nat → Nat → Nat → Row ℂ) (rhs : Nat → Int → Nat → ℝ) :
    ∃ x, s.solve kind tiny order stale rhs = .ok x := by
  obtain ⟨X, hX⟩ := C22_block_succeeds hθ hθ1 hβ (P := s.P) (Nsys := 1 + s.n / 2) (N := s.N)
    (periodic := s.closed) (co := s.row kind stale rhs) (order := order) h0 htiny hw.1 (by
      intro q hq
      have := (size_facts hw h2 hq).1
      unfold Surface.N; omega) (k0 := s.k0) (k1 := s.k1)
    (fun k _ => block_of_entries hw h2 hβ1 k (hrow k) stale rhs)
  unfold Surface.solve
  rw [hX]
  exact ⟨_, rfl⟩

/-- **C55 (existence, InvertParDiv).**  If `A ≥ β > 0`, `B ≤ 0` and the metric is positive,
the system is solved, whatever the right-hand side and the number of processors: on a
surface where `A` outweighs a fraction `θ` of the diagonal. -/
theorem C55_div_succeeds {s : Surface} (hw : s.WellFormed) (h2 : s.TwoRows)
    {θ β : ℝ} (hθ : 0 < θ) (hθ1 : θ ≤ 1) (hβ : 0 < β) (hβ1 : β ≤ 1)
    (hpos : ∀ q, q < s.P → ∀ y, 0 < (s.geom q).dy y ∧ 0 < (s.geom q).J y ∧ 0 < (s.geom q).g22 y)
    (hB : ∀ q, q < s.P → ∀ y, (s.coef q).B y ≤ 0) (hA : ∀ q, q < s.P → ∀ y, β ≤ (s.coef q).A y)
    (hres : ∀ q, q < s.P → ∀ y,
      θ * (coefDiv (s.geom q) (s.coef q) y).2.1.re ≤ (s.coef q).A y)
    {tiny : ℂ → Prop} [DecidablePred tiny] (h0 : ∀ v, v = 0 → tiny v)
    (htiny : ∀ v, tiny v → ‖v‖ < θ * (θ * β)) (order : Nat → List Nat)
    (stale : Nat → Nat → Nat → Row ℂ) (rhs : Nat → Int → Nat → ℝ) :
    ∃ x, s.solve .div tiny order stale rhs = .ok x := by
  refine solve_succeeds hw h2 hθ hθ1 hβ hβ1 ?_ h0 htiny order stale rhs
  intro k q hq y _ _
  have r := hres q hq y
  obtain ⟨d0, j0, g0⟩ := hpos q hq y
  obtain ⟨d1, j1, g1⟩ := hpos q hq (y + 1)
  obtain ⟨d2, j2, g2⟩ := hpos q hq (y - 1)
  have b0 := hB q hq y
  have b1 := hB q hq (y + 1)
  have b2 := hB q hq (y - 1)
  have a0 := hA q hq y
  unfold Surface.entries
  dsimp only
  unfold coefDiv at r ⊢
  dsimp only at r ⊢
  rw [Complex.ofReal_re] at r
  rw [Complex.norm_real, Complex.norm_real, Complex.norm_real]
  set bL := 0.5 * ((s.coef q).B y + (s.coef q).B (y - 1)) * (0.5 * ((s.geom q).J y + (s.geom q).J (y - 1))) /
      (0.5 * ((s.geom q).dy y + (s.geom q).dy (y - 1)) * (0.5 * ((s.geom q).g22 y + (s.geom q).g22 (y - 1)))
        * (s.geom q).J y * (s.geom q).dy y) with hbL
  set bR := 0.5 * ((s.coef q).B y + (s.coef q).B (y + 1)) * (0.5 * ((s.geom q).J y + (s.geom q).J (y + 1))) /
      (0.5 * ((s.geom q).dy y + (s.geom q).dy (y + 1)) * (0.5 * ((s.geom q).g22 y + (s.geom q).g22 (y + 1)))
        * (s.geom q).J y * (s.geom q).dy y) with hbR
  have hL : bL ≤ 0 := by
    rw [hbL]
    apply div_nonpos_of_nonpos_of_nonneg
    · apply mul_nonpos_of_nonpos_of_nonneg <;> linarith
    · positivity
  have hR : bR ≤ 0 := by
    rw [hbR]
    apply div_nonpos_of_nonpos_of_nonneg
    · apply mul_nonpos_of_nonpos_of_nonneg <;> linarith
    · positivity
  rw [Real.norm_eq_abs, Real.norm_eq_abs, Real.norm_eq_abs, abs_of_nonpos hL, abs_of_nonpos hR,
    abs_of_nonneg (by linarith)]
  constructor <;> linarith

/-- **C55 (existence, InvertPar).**  The same for `A + B Grad2_par2 + D D2DZ2 + E DDY` with
`B, D ≤ 0`, if the first-derivative term does not outweigh the second-derivative one at
the mesh spacing. -/
theorem C55_par_succeeds {s : Surface} (hw : s.WellFormed) (h2 : s.TwoRows)
    {θ β : ℝ} (hθ : 0 < θ) (hθ1 : θ ≤ 1) (hβ : 0 < β) (hβ1 : β ≤ 1)
    (hC : ∀ q, q < s.P → ∀ y, (s.coef q).C y = 0) (hD : ∀ q, q < s.P → ∀ y, (s.coef q).D y ≤ 0)
    (hA : ∀ q, q < s.P → ∀ y, β ≤ (s.coef q).A y)
    (hE : ∀ q, q < s.P → ∀ y,
      |((s.coef q).E y + sg (s.geom q) y * (s.coef q).B y
          + (if s.nonuniform then (s.coef q).B y / (s.geom q).g22 y * (s.geom q).d1dy y else 0))
        / (s.geom q).dy y|
      ≤ 2 * -((s.coef q).B y / (s.geom q).g22 y / (s.geom q).dy y ^ 2))
    (hres : ∀ q, q < s.P → ∀ y,
      θ * ((s.coef q).A y + 2 * -((s.coef q).B y / (s.geom q).g22 y / (s.geom q).dy y ^ 2))
        ≤ (s.coef q).A y)
    {tiny : ℂ → Prop} [DecidablePred tiny] (h0 : ∀ v, v = 0 → tiny v)
    (htiny : ∀ v, tiny v → ‖v‖ < θ * (θ * β)) (order : Nat → List Nat)
    (stale : Nat → Nat → Nat → Row ℂ) (rhs : Nat → Int → Nat → ℝ) :
    ∃ x, s.solve .par tiny order stale rhs = .ok x := by
  refine solve_succeeds hw h2 hθ hθ1 hβ hβ1 ?_ h0 htiny order stale rhs
  intro k q hq y _ _
  have r := hres q hq y
  have e := hE q hq y
  have c0 := hC q hq y
  have d0 := hD q hq y
  have a0 := hA q hq y
  have heq : (if s.nonuniform = true then
        (s.coef q).E y + sg (s.geom q) y * (s.coef q).B y + (s.coef q).B y / (s.geom q).g22 y * (s.geom q).d1dy y
      else (s.coef q).E y + sg (s.geom q) y * (s.coef q).B y)
      = (s.coef q).E y + sg (s.geom q) y * (s.coef q).B y
          + (if s.nonuniform then (s.coef q).B y / (s.geom q).g22 y * (s.geom q).d1dy y else 0) := by
    split_ifs <;> ring
  unfold Surface.entries
  dsimp only
  unfold coefPar
  dsimp only
  rw [heq, c0, zero_div, mul_zero, neg_zero]
  set ee := ((s.coef q).E y + sg (s.geom q) y * (s.coef q).B y
          + (if s.nonuniform then (s.coef q).B y / (s.geom q).g22 y * (s.geom q).d1dy y else 0))
        / (s.geom q).dy y with hee
  set bb := (s.coef q).B y / (s.geom q).g22 y / (s.geom q).dy y ^ 2 with hbb
  have n1 := norm_le_parts (bb - 0.5 * ee) 0
  have n3 := norm_le_parts (bb + 0.5 * ee) 0
  have n2 := re_le_norm ((s.coef q).A y - 2 * bb - s.kw k ^ 2 * (s.coef q).D y) 0
  rw [abs_zero, add_zero] at n1 n3
  have he := abs_le.1 e
  have hkd : s.kw k ^ 2 * (s.coef q).D y ≤ 0 :=
    mul_nonpos_of_nonneg_of_nonpos (sq_nonneg _) d0
  have hh : (0.5 : ℝ) = 1 / 2 := by norm_num
  have habs := abs_nonneg ee
  rw [abs_of_nonpos (by rw [hh]; linarith [he.1, he.2])] at n1 n3
  rw [abs_of_nonneg (by linarith)] at n2
  refine ⟨?_, by linarith⟩
  have h3 : (1 - θ) * ((s.coef q).A y - 2 * bb - s.kw k ^ 2 * (s.coef q).D y)
      ≤ (1 - θ) * ‖(⟨(s.coef q).A y - 2 * bb - s.kw k ^ 2 * (s.coef q).D y, 0⟩ : ℂ)‖ := by
    apply mul_le_mul_of_nonneg_left n2; linarith
  have h4 : 0 ≤ (1 - θ) * -(s.kw k ^ 2 * (s.coef q).D y) := by
    apply mul_nonneg <;> linarith
  nlinarith

/-! ## A concrete surface -/

/-- Two processors, two guard cells, an open surface. -/
noncomputable def exSurface (closed : Bool) : Surface where
  P := 2
  n := 4
  zlength := 1
  closed := closed
  ts := 1 / 4
  ylow := false
  nonuniform := false
  geom := fun _ => { localNy := 8, ystart := 2, dy := fun _ => 1, d1dy := fun _ => 0,
                     g22 := fun _ => 1, J := fun _ => 1 }
  coef := fun _ => { A := fun _ => 1, B := fun _ => -1, C := fun _ => 0, D := fun _ => -1, E := fun _ => 0 }

theorem exSurface_wellFormed (b : Bool) : (exSurface b).WellFormed :=
  ⟨by simp [exSurface], by simp [exSurface], fun q _ => by simp [exSurface]⟩

theorem exSurface_twoRows (b : Bool) : (exSurface b).TwoRows := fun q _ => by simp [exSurface]

open scoped Classical in
/-- The hypotheses of the theorems above are met, on open and closed surfaces. -/
example (b : Bool) (stale : Nat → Nat → Nat → Row ℂ) (rhs : Nat → Int → Nat → ℝ) :
    (∃ x, (exSurface b).solve .div (fun v => ‖v‖ < 1 / 10) (fun _ => [1, 0]) stale rhs = .ok x)
    ∧ (∃ x, (exSurface b).solve .par (fun v => ‖v‖ < 1 / 10) (fun _ => [1, 0]) stale rhs = .ok x) := by
  constructor
  · refine C55_div_succeeds (exSurface_wellFormed b) (exSurface_twoRows b) (θ := 1 / 3) (β := 1)
      (by norm_num) (by norm_num) (by norm_num) le_rfl ?_ ?_ ?_ ?_
      (fun v hv => by rw [hv, norm_zero]; norm_num) (fun v hv => by linarith) _ stale rhs
    · intro q _ y; simp [exSurface]
    · intro q _ y; simp [exSurface]
    · intro q _ y; simp [exSurface]
    · intro q _ y; simp only [exSurface, coefDiv, Complex.ofReal_re]; norm_num
  · refine C55_par_succeeds (exSurface_wellFormed b) (exSurface_twoRows b) (θ := 1 / 3) (β := 1)
      (by norm_num) (by norm_num) (by norm_num) le_rfl ?_ ?_ ?_ ?_ ?_
      (fun v hv => by rw [hv, norm_zero]; norm_num) (fun v hv => by linarith) _ stale rhs
    · intro q _ y; rfl
    · intro q _ y; simp [exSurface]
    · intro q _ y; simp [exSurface]
    · intro q _ y; simp [exSurface, sg]
    · intro q _ y; simp only [exSurface]; norm_num

end Verif.Par
