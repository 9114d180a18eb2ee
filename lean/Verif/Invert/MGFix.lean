import Mathlib.Analysis.SpecialFunctions.Pow.Real
import Verif.Invert.MGCycle

/-! # C84: solutions are fixed points of the cycle; where the claim fails -/

namespace Verif.MG

open Finset Spec

variable {K : Type} [Field K] [LinearOrder K]

/-- Two vectors agree on the processors that exist, ghosts included. -/
def Agree (d : Dim) (x y : Vec K) : Prop :=
  ∀ p i k, p < d.np → i ≤ d.nx + 1 → k ≤ d.nz + 1 → x p i k = y p i k

omit [Field K] [LinearOrder K] in
theorem agree_inside {d : Dim} {x y : Vec K} (hx : 0 < d.nx) (hz : 0 < d.nz)
    (h : ∀ p i k, p < d.np → 1 ≤ i → i ≤ d.nx → 1 ≤ k → k ≤ d.nz → x p i k = y p i k)
    (ho : ∀ p k, p < d.np → k ≤ d.nz + 1 → d.np > 1 → (p = 0 → x p 0 k = y p 0 k)
      ∧ (p + 1 = d.np → x p (d.nx + 1) k = y p (d.nx + 1) k)) :
    Agree d (comm d x) (comm d y) := by
  have hZ : ∀ p i k, p < d.np → 1 ≤ i → i ≤ d.nx → k ≤ d.nz + 1 → commZ d x p i k = commZ d y p i k := by
    intro p i k hp i1 i2 hk
    unfold commZ
    have hii : 1 ≤ i ∧ i ≤ d.nx := ⟨i1, i2⟩
    simp only [if_pos hii]
    by_cases k0 : k = 0
    · rw [if_pos k0, if_pos k0]
      exact h p i _ hp i1 i2 hz (Nat.le_refl _)
    · by_cases k9 : k = d.nz + 1
      · rw [if_neg k0, if_neg k0, if_pos k9, if_pos k9]
        exact h p i _ hp i1 i2 (Nat.le_refl _) hz
      · rw [if_neg k0, if_neg k0, if_neg k9, if_neg k9]
        exact h p i k hp i1 i2 (by omega) (by omega)
  have hO : ∀ p k, (commZ d x p 0 k = x p 0 k ∧ commZ d y p 0 k = y p 0 k)
      ∧ (commZ d x p (d.nx + 1) k = x p (d.nx + 1) k ∧ commZ d y p (d.nx + 1) k = y p (d.nx + 1) k) := by
    intro p k
    unfold commZ
    rw [if_neg (by omega), if_neg (by omega), if_neg (by omega), if_neg (by omega)]
    exact ⟨⟨rfl, rfl⟩, ⟨rfl, rfl⟩⟩
  intro p i k hp hi hk
  unfold comm
  by_cases hn : d.np > 1
  · simp only [if_pos hn]
    split_ifs with h1 h2
    · exact hZ _ _ _ (by omega) hx (Nat.le_refl _) hk
    · exact hZ _ _ _ h2.2 (Nat.le_refl _) hx hk
    · by_cases i0 : i = 0
      · subst i0
        have hp0 : p = 0 := by
          by_contra hc
          exact h1 ⟨rfl, by omega⟩
        rw [(hO p k).1.1, (hO p k).1.2]
        exact (ho p k hp hk hn).1 hp0
      · by_cases i1 : i = d.nx + 1
        · subst i1
          have hp0 : p + 1 = d.np := by
            by_contra hc
            exact h2 ⟨rfl, by omega⟩
          rw [(hO p k).2.1, (hO p k).2.2]
          exact (ho p k hp hk hn).2 hp0
        · exact hZ p i k hp (by omega) (by omega) hk
  · simp only [if_neg hn]
    split_ifs with h1 h2
    · exact hZ _ _ _ hp hx (Nat.le_refl _) hk
    · exact hZ _ _ _ hp (Nat.le_refl _) hx hk
    · exact hZ p i k hp (by omega) (by omega) hk

omit [Field K] [LinearOrder K] in
theorem agree_comm {d : Dim} {x y : Vec K} (hx : 0 < d.nx) (hz : 0 < d.nz) (h : Agree d x y) :
    Agree d (comm d x) (comm d y) :=
  agree_inside hx hz (fun p i k hp _ i2 _ k2 => h p i k hp (by omega) (by omega))
    (fun p k hp hk _ => ⟨fun _ => h p 0 k hp (by omega) hk, fun _ => h p _ k hp (Nat.le_refl _) hk⟩)

omit [Field K] [LinearOrder K] in
theorem Agree.trans {d : Dim} {x y z : Vec K} (h : Agree d x y) (h' : Agree d y z) : Agree d x z :=
  fun p i k a b c => (h p i k a b c).trans (h' p i k a b c)

omit [Field K] [LinearOrder K] in
theorem Agree.symm {d : Dim} {x y : Vec K} (h : Agree d x y) : Agree d y x :=
  fun p i k a b c => (h p i k a b c).symm

/-- `x` solves the system of matrix `A` and right hand side `b`. -/
def Solves (d : Dim) (A : Mat K) (b x : Vec K) : Prop :=
  ∀ p i k, p < d.np → 1 ≤ i → i ≤ d.nx → 1 ≤ k → k ≤ d.nz → row A x p i k = b p i k

omit [LinearOrder K] in
theorem row_agree {d : Dim} {A : Mat K} {x y : Vec K} (h : Agree d x y) (p i k : Nat)
    (hp : p < d.np) (i1 : 1 ≤ i) (i2 : i ≤ d.nx) (k1 : 1 ≤ k) (k2 : k ≤ d.nz) :
    row A x p i k = row A y p i k := by
  have e : ∀ i' k', i' ≤ d.nx + 1 → k' ≤ d.nz + 1 → x p i' k' = y p i' k' :=
    fun i' k' a b => h p i' k' hp a b
  unfold row off
  rw [e i k (by omega) (by omega), e i (k - 1) (by omega) (by omega),
    e i (k + 1) (by omega) (by omega), e (i - 1) k (by omega) (by omega),
    e (i + 1) k (by omega) (by omega), e (i - 1) (k - 1) (by omega) (by omega),
    e (i - 1) (k + 1) (by omega) (by omega), e (i + 1) (k - 1) (by omega) (by omega),
    e (i + 1) (k + 1) (by omega) (by omega)]

omit [Field K] [LinearOrder K] in
theorem mem_cells (d : Dim) (i k : Nat) :
    (i, k) ∈ cells d ↔ 1 ≤ i ∧ i ≤ d.nx ∧ 1 ≤ k ∧ k ≤ d.nz := by
  unfold cells
  simp only [List.mem_flatMap, List.mem_range, List.mem_map, Prod.mk.injEq]
  constructor
  · rintro ⟨a, ha, b, hb, rfl, rfl⟩; omega
  · rintro ⟨h1, h2, h3, h4⟩
    exact ⟨i - 1, by omega, k - 1, by omega, by omega, by omega⟩

variable [IsStrictOrderedRing K]

theorem diag_ne {d : Dim} {atol : K} {A : Mat K} (h0 : 0 < atol) (hb : badDiag d atol A = false)
    (p i k : Nat) (hp : p < d.np) (hc : (i, k) ∈ cells d) : A p i k 4 ≠ 0 := by
  intro he
  have : badDiag d atol A = true := by
    unfold badDiag
    rw [List.any_eq_true]
    refine ⟨p, List.mem_range.2 hp, ?_⟩
    rw [List.any_eq_true]
    refine ⟨(i, k), hc, ?_⟩
    simp [he, h0]
  rw [hb] at this
  cases this

omit [LinearOrder K] [IsStrictOrderedRing K] in
theorem gs_same (A : Nat → Nat → Nat → K) (b x : Nat → Nat → K) (cs : List (Nat × Nat))
    (h : ∀ c ∈ cs, (b c.1 c.2 - off A x c.1 c.2) / A c.1 c.2 4 = x c.1 c.2) :
    cs.foldl (gsCell A b) x = x := by
  induction cs with
  | nil => rfl
  | cons c cs ih =>
    have e : gsCell A b x c = x := by
      funext i k
      unfold gsCell
      split_ifs with hc
      · rw [hc.1, hc.2]; exact h c List.mem_cons_self
      · rfl
    rw [List.foldl_cons, e]
    exact ih fun c' hc' => h c' (List.mem_cons_of_mem _ hc')

/-- Smoothing leaves a solution with consistent ghosts unchanged. -/
theorem smoothings_solution {s : Par K} {d : Dim} {A : Mat K} {b x : Vec K} (hx : 0 < d.nx)
    (hz : 0 < d.nz) (h0 : 0 < s.atol) (hb : badDiag d s.atol A = false)
    (hf : Agree d (comm d x) x) (h : Solves d A b x) :
    ∃ y, smoothings s d A x b = .ok y ∧ Agree d y x := by
  have hup : ∀ (x' : Vec K), Agree d x' x → ∀ p i k, p < d.np → (i, k) ∈ cells d →
      (b p i k - off (A p) (x' p) i k) / A p i k 4 = x' p i k := by
    intro x' ha p i k hp hc
    have hm := (mem_cells d i k).1 hc
    have hs := h p i k hp hm.1 hm.2.1 hm.2.2.1 hm.2.2.2
    rw [← row_agree ha p i k hp hm.1 hm.2.1 hm.2.2.1 hm.2.2.2] at hs
    unfold row at hs
    rw [div_eq_iff (diag_ne h0 hb p i k hp hc)]
    linear_combination -hs
  have hself : Agree d x x := fun _ _ _ _ _ _ => rfl
  unfold smoothings
  rw [if_neg (by rw [hb]; exact Bool.false_ne_true)]
  by_cases hm : s.mgsm = 0
  · rw [if_pos hm]
    have one : ∀ x', Agree d x' x → Agree d (jacobi d s.omega A x' b) x := by
      intro x' ha
      have : Agree d (jacobi d s.omega A x' b) (comm d x') := by
        unfold jacobi
        refine agree_comm hx hz ?_
        intro p i k hp hi hk
        dsimp only
        split_ifs with hin
        · have hm := (inside_iff d i k).1 hin
          have := hup x' ha p i k hp ((mem_cells d i k).2 hm)
          rw [mul_div_assoc, this]; ring
        · rfl
      exact (this.trans (agree_comm hx hz ha)).trans hf
    exact ⟨_, rfl, one _ (one _ hself)⟩
  · rw [if_neg hm]
    have one : ∀ x' cs, Agree d x' x → (∀ c ∈ cs, c ∈ cells d) →
        Agree d (comm d (gsSweep cs A x' b)) x := by
      intro x' cs ha hcs
      have : Agree d (gsSweep cs A x' b) x' := by
        intro p i k hp _ _
        unfold gsSweep
        rw [gs_same (A p) (b p) (x' p) cs fun c hc => hup x' ha p c.1 c.2 hp (hcs c hc)]
      exact ((agree_comm hx hz this).trans (agree_comm hx hz ha)).trans hf
    exact ⟨_, rfl, one _ _ (one _ _ hself fun c hc => hc) fun c hc => List.mem_reverse.1 hc⟩

/-- A lowest solver which returns zero for zero. -/
def LowZero (d : Dim) (low : Vec K → Vec K → Out (Vec K)) : Prop :=
  ∀ b, (∀ p i k, p < d.np → 1 ≤ i → i ≤ d.nx → 1 ≤ k → k ≤ d.nz → b p i k = 0) →
    ∀ x, Agree d x (fun _ _ _ => 0) → ∃ y, low x b = .ok y ∧ Agree d y (fun _ _ _ => 0)

/-- The levels fit together: same processors, sizes halved, none empty. -/
def Hier.Nested (h : Hier K) : Prop :=
  h.Pos ∧ ∀ l, l < h.top → (h.dim l).np = (h.dim (l + 1)).np
    ∧ (h.dim (l + 1)).nx = 2 * (h.dim l).nx ∧ (h.dim (l + 1)).nz = 2 * (h.dim l).nz

theorem cycle_solution {h : Hier K} {low : Vec K → Vec K → Out (Vec K)} (hn : h.Nested)
    (h0 : 0 < h.par.atol) (hb : ∀ l, 1 ≤ l → l ≤ h.top → badDiag (h.dim l) h.par.atol (h.mat l) = false)
    (hl : LowZero (h.dim 0) low) :
    ∀ l, l ≤ h.top → ∀ b x, (1 ≤ l ∨ Agree (h.dim l) x (fun _ _ _ => 0)) →
      Agree (h.dim l) (comm (h.dim l) x) x → Solves (h.dim l) (h.mat l) b x →
      ∃ y, cycleMG h low l x b = .ok y ∧ Agree (h.dim l) y x := by
  intro l
  induction l with
  | zero =>
    intro _ b x hz hf hs
    have hz' : Agree (h.dim 0) x (fun _ _ _ => 0) := by
      rcases hz with hz | hz
      · omega
      · exact hz
    have hb0 : ∀ p i k, p < (h.dim 0).np → 1 ≤ i → i ≤ (h.dim 0).nx → 1 ≤ k → k ≤ (h.dim 0).nz →
        b p i k = 0 := by
      intro p i k hp i1 i2 k1 k2
      rw [← hs p i k hp i1 i2 k1 k2, row_agree hz' p i k hp i1 i2 k1 k2, row_zero]
    obtain ⟨y, e, ha⟩ := hl b hb0 x hz'
    exact ⟨y, e, ha.trans hz'.symm⟩
  | succ l ih =>
    intro hle b x _ hf hs
    obtain ⟨hx, hz⟩ := hn.1 (l + 1) hle
    obtain ⟨hcx, hcz⟩ := hn.1 l (by omega)
    obtain ⟨n1, n2, n3⟩ := hn.2 l (by omega)
    obtain ⟨s1, e1, a1⟩ := smoothings_solution hx hz h0 (hb (l + 1) (by omega) hle) hf hs
    have hself : Agree (h.dim (l + 1)) x x := fun _ _ _ _ _ _ => rfl
    -- the residual vanishes
    have hr : Agree (h.dim (l + 1)) (residualVec (h.dim (l + 1)) (h.mat (l + 1)) s1 b)
        (fun _ _ _ => 0) := by
      have : Agree (h.dim (l + 1)) (residualVec (h.dim (l + 1)) (h.mat (l + 1)) s1 b)
          (comm (h.dim (l + 1)) fun _ _ _ => 0) := by
        unfold residualVec
        refine agree_comm hx hz ?_
        intro p i k hp hi hk
        dsimp only
        split_ifs with hin
        · obtain ⟨c1, c2, c3, c4⟩ := (inside_iff _ i k).1 hin
          rw [row_agree a1 p i k hp c1 c2 c3 c4, hs p i k hp c1 c2 c3 c4, sub_self]
        · rfl
      rwa [fixed_zero] at this
    have hp0 : ∀ p i k, p < (h.dim l).np → 1 ≤ i → i ≤ (h.dim l).nx → 1 ≤ k → k ≤ (h.dim l).nz →
        projection (h.dim l) (residualVec (h.dim (l + 1)) (h.mat (l + 1)) s1 b) p i k = 0 := by
      intro p i k hp i1 i2 k1 k2
      unfold projection
      rw [comm_inside _ _ _ _ _ i1 i2 k1 k2]
      simp only [(inside_iff _ i k).2 ⟨i1, i2, k1, k2⟩, if_true]
      rw [hr p _ _ (by omega) (by omega) (by omega), hr p _ _ (by omega) (by omega) (by omega),
        hr p _ _ (by omega) (by omega) (by omega), hr p _ _ (by omega) (by omega) (by omega)]
      simp
    obtain ⟨y, e2, a2⟩ := ih (by omega)
      (projection (h.dim l) (residualVec (h.dim (l + 1)) (h.mat (l + 1)) s1 b)) (fun _ _ _ => 0)
      (Or.inr fun _ _ _ _ _ _ => rfl) (by rw [fixed_zero]; exact fun _ _ _ _ _ _ => rfl)
      (fun p i k hp i1 i2 k1 k2 => by rw [hp0 p i k hp i1 i2 k1 k2, row_zero])
    have hi : Agree (h.dim (l + 1)) (prolongation (h.dim l) (h.dim (l + 1)) y) (fun _ _ _ => 0) := by
      have : Agree (h.dim (l + 1)) (prolongation (h.dim l) (h.dim (l + 1)) y)
          (comm (h.dim (l + 1)) fun _ _ _ => 0) := by
        unfold prolongation
        refine agree_comm hx hz ?_
        intro p i k hp hi hk
        dsimp only
        split_ifs with hin
        · obtain ⟨c1, c2, c3, c4⟩ := (inside_iff _ _ _).1 hin
          exact a2 p _ _ (by omega) (by omega) (by omega)
        · rfl
      rwa [fixed_zero] at this
    have ha : Agree (h.dim (l + 1))
        (fun p i k => s1 p i k + prolongation (h.dim l) (h.dim (l + 1)) y p i k) x := by
      intro p i k hp hi' hk
      show s1 p i k + prolongation (h.dim l) (h.dim (l + 1)) y p i k = x p i k
      rw [hi p i k hp hi' hk, a1 p i k hp hi' hk, add_zero]
    obtain ⟨s2, e3, a3⟩ := smoothings_solution (x := fun p i k =>
        s1 p i k + prolongation (h.dim l) (h.dim (l + 1)) y p i k) hx hz h0
      (hb (l + 1) (by omega) hle)
      (((agree_comm hx hz ha).trans hf).trans ha.symm)
      (fun p i k hp i1 i2 k1 k2 => by
        rw [row_agree ha p i k hp i1 i2 k1 k2, hs p i k hp i1 i2 k1 k2])
    refine ⟨s2, ?_, a3.trans ha⟩
    simp only [cycleMG, bind, Except.bind]
    rw [show h.smooth (l + 1) x b = .ok s1 from e1]
    simp only
    rw [e2]
    exact e3

omit [IsStrictOrderedRing K] in
theorem lowGmres_zero {h : Hier K} (arn : Arn K) (hs : h.par.sqrt 0 = 0)
    (ht : 0 < h.par.atol * h.par.rtol) : LowZero (h.dim 0) (lowGmres h arn) := by
  intro b hb x _
  refine ⟨fun _ _ _ => 0, ?_, fun _ _ _ _ _ _ => rfl⟩
  unfold lowGmres pGMRES
  have e : vectorProd (h.dim 0) b b = 0 := by
    unfold vectorProd
    refine Finset.sum_eq_zero fun p hp => Finset.sum_eq_zero fun i hi => Finset.sum_eq_zero fun k hk => ?_
    have hp' := Finset.mem_range.mp hp
    have hi' := Finset.mem_range.mp hi
    have hk' := Finset.mem_range.mp hk
    rw [hb p (i + 1) (k + 1) hp' (by omega) (by omega) (by omega) (by omega), mul_zero]
  simp only [e, hs, if_pos ht]

omit [IsStrictOrderedRing K] in
theorem hier_nested {c : Cfg K} (hx : 0 < c.nx) (hz : 0 < c.nz) : c.hier.Nested := by
  obtain ⟨_, a2, a3⟩ := avail_spec c.mglevel c.nx c.nz
  exact ⟨hier_pos hx hz, fun l hl => ⟨rfl, halve a2 hl, halve a3 hl⟩⟩

omit [IsStrictOrderedRing K] in
theorem serial_nested {c : Cfg K} (hp : 0 < c.np) (hx : 0 < c.nx) (hz : 0 < c.nz) :
    c.serial.Nested := by
  obtain ⟨a1, a2, a3⟩ := serialGo_spec (c.mglevel - c.aclevel)
    ((c.hier.dim 0).np * (c.hier.dim 0).nx) (c.hier.dim 0).nz 1
  exact ⟨serial_pos hp hx hz, fun l hl => ⟨rfl, halve a2 hl, halve a3 hl⟩⟩

/-- **C84, the cycle.**  With at least two levels per processor and usable diagonals on every
level: one multigrid cycle, whichever smoother and however many further levels on one processor,
leaves a solution of the system unchanged. -/
theorem C84_cycle {c : Cfg K} (hp : 0 < c.np) (hx : 0 < c.nx) (hz : 0 < c.nz)
    (hs : c.par.sqrt 0 = 0) (h0 : 0 < c.par.atol) (hr : 0 < c.par.rtol)
    (htop : 1 ≤ c.hier.top)
    (hb : ∀ l, 1 ≤ l → l ≤ c.hier.top → badDiag (c.hier.dim l) c.par.atol (c.hier.mat l) = false)
    (hbs : ∀ l, 1 ≤ l → l ≤ c.serial.top →
      badDiag (c.serial.dim l) c.par.atol (c.serial.mat l) = false)
    (b x : Vec K) (hf : Fixed c.dim x) (hsol : Solves c.dim (fineMat c) b x) :
    ∃ y, cycleMG c.hier c.low c.hier.top x b = .ok y ∧ Agree c.dim y x := by
  have hpos := hier_pos (c := c) hx hz 0 (Nat.zero_le _)
  have hlow : LowZero (c.hier.dim 0) c.low := by
    unfold Cfg.low
    split_ifs
    · intro b hb0 x hx0
      have hi : decide (c.aclevel - 1 > 0) = true := decide_eq_true htop
      unfold lowSerial
      rw [if_pos hi]
      obtain ⟨y, e, ha⟩ := cycle_solution (serial_nested (c := c) hp hx hz) h0 hbs
        (lowGmres_zero c.arnLow hs (mul_pos h0 hr)) c.serial.top (Nat.le_refl _)
        (gather (c.hier.dim 0) b) (comm (c.serial.dim c.serial.top) fun _ _ _ => 0)
        (Or.inr (by rw [fixed_zero]; exact fun _ _ _ _ _ _ => rfl))
        (by rw [fixed_zero, fixed_zero]; exact fun _ _ _ _ _ _ => rfl)
        (by
          intro p i k _ i1 i2 k1 k2
          rw [fixed_zero, row_zero]
          unfold gather
          split_ifs with hc
          · obtain ⟨c1, c2, c3, c4⟩ := hc
            refine (hb0 _ _ _ ?_ (by omega) ?_ c3 c4).symm
            · exact Nat.div_lt_of_lt_mul (by rw [Nat.mul_comm]; omega)
            · have := Nat.mod_lt (i - 1) hpos.1; omega
          · rfl)
      simp only [bind, Except.bind]
      rw [e]
      refine ⟨_, rfl, ?_⟩
      have : Agree (c.hier.dim 0) (scatter (c.hier.dim 0) x y) (comm (c.hier.dim 0) fun _ _ _ => 0) := by
        unfold scatter
        refine agree_comm hpos.1 hpos.2 ?_
        intro p i k hp' hi' hk'
        dsimp only
        split_ifs with hin
        · obtain ⟨c1, c2, c3, c4⟩ := (inside_iff _ i k).1 hin
          rw [fixed_zero] at ha
          refine ha 0 _ k Nat.one_pos ?_ ?_
          · show p * (c.hier.dim 0).nx + i ≤ ((c.hier.dim 0).np * (c.hier.dim 0).nx) / 2 ^ (c.serial.top - c.serial.top) + 1
            rw [Nat.sub_self, Nat.pow_zero, Nat.div_one]
            have := Nat.mul_le_mul_right (c.hier.dim 0).nx (show p + 1 ≤ (c.hier.dim 0).np from hp')
            rw [Nat.add_mul, Nat.one_mul] at this
            omega
          · show k ≤ (c.hier.dim 0).nz / 2 ^ (c.serial.top - c.serial.top) + 1
            rw [Nat.sub_self, Nat.pow_zero, Nat.div_one]
            omega
        · exact hx0 p i k hp' hi' hk'
      rwa [fixed_zero] at this
    · exact lowGmres_zero c.arnLow hs (mul_pos h0 hr)
  have := cycle_solution (low := c.low) (hier_nested (c := c) hx hz) h0 hb hlow c.hier.top (Nat.le_refl _) b x
    (Or.inl htop) (by rw [hier_dim, hf]; exact fun _ _ _ _ _ _ => rfl)
    (by rw [hier_dim, hier_mat]; exact hsol)
  rwa [hier_dim] at this

/-! ## Where the claim fails -/

omit [IsStrictOrderedRing K] in
/-- **Finding.**  The outer boundary looks at the inner boundary's `INVERT_SET`
(multigrid_laplace.cxx L305 and L549): with a gradient set at the outer boundary only, every field
returned has zero gradient there, and does not meet the condition asked for unless that is zero. -/
theorem C84_outer_set_violated {c : Cfg K} (hx : 0 < c.nx) (hp : 0 < c.np)
    (hg : c.out.grad = true) (hi : c.inn.set = false) (bin x0 f : Nat → Nat → K)
    (h : solve c bin x0 = .ok f) (z : Nat) : f (c.np * c.nx + 1) z = f (c.np * c.nx) z
      ∧ (c.out.set = true → x0 (c.np * c.nx + 1) z
          * (c.par.sqrt (c.coef.gxx (c.np * c.nx)) * c.coef.dx (c.np * c.nx)) ≠ 0 →
        ¬ OuterBC c.out c.par.sqrt c.coef (c.np * c.nx) x0 f z) := by
  suffices hm : f (c.np * c.nx + 1) z = f (c.np * c.nx) z by
    refine ⟨hm, fun ho hne hbc => hne ?_⟩
    unfold OuterBC at hbc
    simp only [ho, hg, if_true] at hbc
    rw [← hbc, hm, sub_self]
  unfold solve at h
  simp only [bind, Except.bind] at h
  split at h
  · cases h
  · cases h
    rw [guard_out x0 hx hp z]
    unfold ghostOut
    simp [hg, hi]

omit [IsStrictOrderedRing K] in
/-- **Finding.**  When the local grid allows a single level (odd sizes) but the global one more,
the matrices of the serial levels are never filled (`if (level > 0) kMG->setMultigridC(0)`,
multigrid_laplace.cxx L388-390), and the solve works with uninitialised memory. -/
theorem C84_serial_violated {c : Cfg K} (h1 : c.aclevel = 1) (h2 : 2 ≤ c.mglevel)
    (bin x0 : Nat → Nat → K)
    (hb : ¬ c.par.sqrt (vectorProd (c.hier.dim c.hier.top) (fineRhs c bin x0) (fineRhs c bin x0))
      < c.par.atol * c.par.rtol) :
    solve c bin x0 = .error (.ub "uninitialised matrix") := by
  have htop : c.hier.top = 0 := by show c.aclevel - 1 = 0; omega
  unfold solve getSolution
  rw [if_pos (Or.inl htop)]
  unfold pGMRES
  simp only
  have hp : c.hier.par = c.par := rfl
  rw [hp, if_neg hb]
  have hl : cycleMG c.hier c.low c.hier.top (fun _ _ _ => 0) (fineRhs c bin x0)
      = .error (.ub "uninitialised matrix") := by
    rw [htop]
    show c.low _ _ = _
    unfold Cfg.low
    rw [if_pos (by omega)]
    unfold lowSerial
    rw [if_neg (by simp [h1])]
  simp only [bind, Except.bind]
  rw [hl]

/-- **Finding.**  On a non-uniform grid the correction is added as `D * d1_dx` instead of
`D * g11 * d1_dx / dx` (multigrid_laplace.cxx L630-633): a field whose system is solved exactly
misses the equation by this term. -/
theorem C84_nonuniform_violated {c : Cfg K} {x : Vec K} (hu : c.nonuniform = true)
    (hx : 0 < c.nx) (hz : 0 < c.nz) (bin x0 : Nat → Nat → K) (hf : Fixed c.dim x)
    (hs : Solves c.dim (fineMat c) (fineRhs c bin x0) x) (p i k : Nat) (hp : p < c.np)
    (i1 : 1 ≤ i) (i2 : i ≤ c.nx) (k1 : 1 ≤ k) (k2 : k ≤ c.nz) :
    let f := result c x0 x
    let gi := p * c.nx + i
    op c.coef c.nz true f gi (k - 1) = bin gi (k - 1)
      + c.coef.D gi (k - 1) * c.coef.d1dx gi * (c.coef.g11 gi / c.coef.dx gi - 1)
        * ((f (gi + 1) (k - 1) - f (gi - 1) (k - 1)) / 2) := by
  intro f gi
  have h := eliminate hf bin x0 hx hz p i k hp i1 i2 k1 k2
  rw [hs p i k hp i1 i2 k1 k2, sub_self] at h
  have w : wide (baseMat c p i k) c.nz f gi (k - 1)
      = op c.coef c.nz true f gi (k - 1)
        - c.coef.D gi (k - 1) * c.coef.d1dx gi * (c.coef.g11 gi / c.coef.dx gi - 1)
        * ((f (gi + 1) (k - 1) - f (gi - 1) (k - 1)) / 2) := by
    unfold wide op baseMat Cfg.gi d2dx2 d2dz2 d2dxdz Spec.ddx Spec.ddz up dn
    simp only [hu, if_true]
    ring
  have h' : wide (baseMat c p i k) c.nz f gi (k - 1) = bin gi (k - 1) := (sub_eq_zero.1 h.symm).symm
  linear_combination h' - w

end Verif.MG
