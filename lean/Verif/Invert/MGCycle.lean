import Verif.Invert.MGThms

/-! # C84: the coarse matrices and the multigrid cycle -/

namespace Verif.MG

open Finset Spec

variable {K : Type} [Field K] [LinearOrder K]

/-! ## The coarse matrices -/

/-- The rows next to the boundaries have no entries for the ghost rows. -/
def Closed (d : Dim) (A : Mat K) : Prop :=
  (∀ k, 1 ≤ k → k ≤ d.nz → A 0 1 k 0 = 0 ∧ A 0 1 k 1 = 0 ∧ A 0 1 k 2 = 0) ∧
  (∀ p k, p + 1 = d.np → 1 ≤ k → k ≤ d.nz →
    A p d.nx k 6 = 0 ∧ A p d.nx k 7 = 0 ∧ A p d.nx k 8 = 0)

omit [LinearOrder K] in
theorem closed_fine (c : Cfg K) : Closed c.dim (fineMat c) := by
  constructor
  · intro k _ _
    have e : fineMat c 0 1 k = if 0 + 1 = c.np ∧ 1 = c.nx then
        outerRow c.out.grad (innerRow c.inn.grad (baseMat c 0 1 k))
        else innerRow c.inn.grad (baseMat c 0 1 k) := rfl
    rw [e]
    split_ifs
    · refine ⟨?_, ?_, ?_⟩ <;> simp [outerRow, innerRow]
    · refine ⟨?_, ?_, ?_⟩ <;> simp [innerRow]
  · intro p k hp _ _
    unfold fineMat
    rw [if_pos ⟨hp, rfl⟩]
    refine ⟨?_, ?_, ?_⟩ <;> simp [outerRow]

omit [LinearOrder K] in
theorem inside_iff (d : Dim) (i k : Nat) :
    d.inside i k = true ↔ 1 ≤ i ∧ i ≤ d.nx ∧ 1 ≤ k ∧ k ≤ d.nz := by
  simp [Dim.inside, and_assoc]

omit [LinearOrder K] in
theorem closed_coarse {dc df : Dim} {A : Mat K} (hn : dc.np = df.np) (hx : df.nx = 2 * dc.nx)
    (hz : df.nz = 2 * dc.nz) (h0 : 0 < dc.nx) (h : Closed df A) : Closed dc (setMatrixC dc A) := by
  obtain ⟨h1, h2⟩ := h
  constructor
  · intro k k1 k2
    have e := h1 (2 * k - 1) (by omega) (by omega)
    have e' := h1 (2 * k - 1 + 1) (by omega) (by omega)
    have hi : dc.inside 1 k = true := (inside_iff dc 1 k).2 ⟨by omega, by omega, k1, k2⟩
    unfold setMatrixC
    simp only [hi, if_true]
    rw [show 2 * 1 - 1 = 1 from rfl, e.1, e.2.1, e.2.2, e'.1, e'.2.1, e'.2.2]
    simp
  · intro p k hp k1 k2
    have e := h2 p (2 * k - 1) (by omega) (by omega) (by omega)
    have e' := h2 p (2 * k - 1 + 1) (by omega) (by omega) (by omega)
    have hi : dc.inside dc.nx k = true := (inside_iff dc _ k).2 ⟨by omega, by omega, k1, k2⟩
    unfold setMatrixC
    simp only [hi, if_true]
    have ex : 2 * dc.nx - 1 + 1 = df.nx := by omega
    rw [ex, e.1, e.2.1, e.2.2, e'.1, e'.2.1, e'.2.2]
    simp

omit [LinearOrder K] in
/-- The prolonged vector: each fine cell, ghosts included, holds the value of its coarse cell. -/
theorem prol_in {dc df : Dim} {y : Vec K} (hx : df.nx = 2 * dc.nx) (hz : df.nz = 2 * dc.nz)
    (h0 : 0 < dc.nx) (h1 : 0 < dc.nz) (hy : Fixed dc y) (p i k : Nat) (i1 : 1 ≤ i)
    (i2 : i ≤ df.nx) (hk : k ≤ df.nz + 1) :
    prolongation dc df y p i k = y p ((i + 1) / 2) ((k + 1) / 2) := by
  have hf : Fixed df (prolongation dc df y) := comm_idem df (by omega) (by omega) _
  have base : ∀ k, 1 ≤ k → k ≤ df.nz →
      prolongation dc df y p i k = y p ((i + 1) / 2) ((k + 1) / 2) := by
    intro k k1 k2
    unfold prolongation
    rw [comm_inside df _ p i k i1 i2 k1 k2]
    exact if_pos ((inside_iff dc _ _).2 ⟨by omega, by omega, by omega, by omega⟩)
  by_cases k0 : k = 0
  · rw [k0, fixed_zlo hf p i i1 i2, base _ (by omega) (Nat.le_refl _)]
    have e : (df.nz + 1) / 2 = dc.nz := by omega
    have e' : (0 + 1) / 2 = 0 := rfl
    rw [e, e', fixed_zlo hy p _ (by omega) (by omega)]
  · by_cases k1 : k = df.nz + 1
    · rw [k1, fixed_zhi hf p i i1 i2, base 1 (Nat.le_refl _) (by omega)]
      have e : (df.nz + 1 + 1) / 2 = dc.nz + 1 := by omega
      have e' : (1 + 1) / 2 = 1 := rfl
      rw [e, e', fixed_zhi hy p _ (by omega) (by omega)]
    · exact base k (by omega) (by omega)

omit [LinearOrder K] in
theorem prol_lo {dc df : Dim} {y : Vec K} (hn : dc.np = df.np) (hx : df.nx = 2 * dc.nx)
    (hz : df.nz = 2 * dc.nz) (h0 : 0 < dc.nx) (h1 : 0 < dc.nz) (hy : Fixed dc y) (p k : Nat)
    (hp0 : 0 < p) (hp : p < df.np) (hk : k ≤ df.nz + 1) :
    prolongation dc df y p 0 k = y p 0 ((k + 1) / 2) := by
  have hf : Fixed df (prolongation dc df y) := comm_idem df (by omega) (by omega) _
  rw [fixed_xlo hf (by omega) p k hp0 hp, prol_in hx hz h0 h1 hy _ _ _ (by omega) (Nat.le_refl _) hk]
  have e : (df.nx + 1) / 2 = dc.nx := by omega
  rw [e, fixed_xlo hy h0 p _ hp0 (by omega)]

omit [LinearOrder K] in
theorem prol_hi {dc df : Dim} {y : Vec K} (hn : dc.np = df.np) (hx : df.nx = 2 * dc.nx)
    (hz : df.nz = 2 * dc.nz) (h0 : 0 < dc.nx) (h1 : 0 < dc.nz) (hy : Fixed dc y) (p k : Nat)
    (hp : p + 1 < df.np) (hk : k ≤ df.nz + 1) :
    prolongation dc df y p (df.nx + 1) k = y p (dc.nx + 1) ((k + 1) / 2) := by
  have hf : Fixed df (prolongation dc df y) := comm_idem df (by omega) (by omega) _
  rw [fixed_xhi hf (by omega) p k hp, prol_in hx hz h0 h1 hy _ _ _ (Nat.le_refl _) (by omega) hk]
  have e : (1 + 1) / 2 = 1 := rfl
  rw [e, fixed_xhi hy h0 p _ (by omega)]

variable [IsStrictOrderedRing K]

/-- The product with the coarse matrix is half of: prolong, multiply with the fine matrix,
project. -/
theorem galerkin {dc df : Dim} {A : Mat K} {y : Vec K} (hn : dc.np = df.np)
    (hx : df.nx = 2 * dc.nx) (hz : df.nz = 2 * dc.nz) (h0 : 0 < dc.nx) (h1 : 0 < dc.nz)
    (hA : Closed df A) (hy : Fixed dc y) (p i k : Nat) (hp : p < dc.np) (i1 : 1 ≤ i)
    (i2 : i ≤ dc.nx) (k1 : 1 ≤ k) (k2 : k ≤ dc.nz) :
    row (setMatrixC dc A) y p i k
      = projection dc (multiAVec df A (prolongation dc df y)) p i k / 2 := by
  have hi : dc.inside i k = true := (inside_iff dc i k).2 ⟨i1, i2, k1, k2⟩
  obtain ⟨a, rfl⟩ : ∃ a, i = a + 1 := ⟨i - 1, by omega⟩
  obtain ⟨b, rfl⟩ : ∃ b, k = b + 1 := ⟨k - 1, by omega⟩
  have ia : 2 * (a + 1) - 1 = 2 * a + 1 := by omega
  have ib : 2 * (b + 1) - 1 = 2 * b + 1 := by omega
  have ja : 2 * (a + 1) = 2 * a + 2 := by omega
  have jb : 2 * (b + 1) = 2 * b + 2 := by omega
  unfold projection
  rw [comm_inside dc _ _ _ _ i1 i2 k1 k2]
  simp only [hi, if_true]
  rw [ia, ib, ja, jb]
  have mul : ∀ i' k', 1 ≤ i' → i' ≤ df.nx → 1 ≤ k' → k' ≤ df.nz →
      multiAVec df A (prolongation dc df y) p i' k' = row A (prolongation dc df y) p i' k' := by
    intro i' k' a1 a2 a3 a4
    unfold multiAVec
    rw [comm_inside df _ _ _ _ a1 a2 a3 a4]
    exact if_pos ((inside_iff df _ _).2 ⟨a1, a2, a3, a4⟩)
  rw [mul _ _ (by omega) (by omega) (by omega) (by omega),
    mul _ _ (by omega) (by omega) (by omega) (by omega),
    mul _ _ (by omega) (by omega) (by omega) (by omega),
    mul _ _ (by omega) (by omega) (by omega) (by omega)]
  have val : ∀ i' k', 1 ≤ i' → i' ≤ df.nx → k' ≤ df.nz + 1 →
      prolongation dc df y p i' k' = y p ((i' + 1) / 2) ((k' + 1) / 2) :=
    fun i' k' a1 a2 a3 => prol_in hx hz h0 h1 hy p i' k' a1 a2 a3
  have q0 : (2 * b + 1) / 2 = b := by omega
  have q1 : (2 * b + 1 + 1) / 2 = b + 1 := by omega
  have q2 : (2 * b + 2 + 1) / 2 = b + 1 := by omega
  have q3 : (2 * b + 3 + 1) / 2 = b + 2 := by omega
  have p1 : (2 * a + 1 + 1) / 2 = a + 1 := by omega
  have p2 : (2 * a + 2 + 1) / 2 = a + 1 := by omega
  unfold row off setMatrixC
  simp only [hi, if_true]
  simp only [ia, ib, Nat.add_sub_cancel]
  simp only [show 2 * a + 2 - 1 = 2 * a + 1 from by omega, show 2 * b + 2 - 1 = 2 * b + 1 from by omega,
    show 2 * a + 1 + 1 = 2 * a + 2 from rfl, show 2 * b + 1 + 1 = 2 * b + 2 from rfl,
    show 2 * a + 2 + 1 = 2 * a + 3 from rfl, show 2 * b + 2 + 1 = 2 * b + 3 from rfl]
  rw [val (2 * a + 1) (2 * b) (by omega) (by omega) (by omega),
    val (2 * a + 1) (2 * b + 1) (by omega) (by omega) (by omega),
    val (2 * a + 1) (2 * b + 2) (by omega) (by omega) (by omega),
    val (2 * a + 1) (2 * b + 3) (by omega) (by omega) (by omega),
    val (2 * a + 2) (2 * b) (by omega) (by omega) (by omega),
    val (2 * a + 2) (2 * b + 1) (by omega) (by omega) (by omega),
    val (2 * a + 2) (2 * b + 2) (by omega) (by omega) (by omega),
    val (2 * a + 2) (2 * b + 3) (by omega) (by omega) (by omega)]
  rw [q0, q1, q2, q3, p1, p2]
  -- the row below and the row above: either consistent values, or no entries
  have low : (∀ k', k' ≤ df.nz + 1 → prolongation dc df y p (2 * a) k' = y p a ((k' + 1) / 2)) ∨
      (∀ k', 1 ≤ k' → k' ≤ df.nz → A p (2 * a + 1) k' 0 = 0 ∧ A p (2 * a + 1) k' 1 = 0
        ∧ A p (2 * a + 1) k' 2 = 0) := by
    by_cases ha : a = 0
    · by_cases hp0 : p = 0
      · right; intro k' c1 c2; rw [ha, hp0]; exact hA.1 k' c1 c2
      · left; intro k' hk'; rw [ha]
        exact prol_lo hn hx hz h0 h1 hy p k' (by omega) (by omega) hk'
    · left; intro k' hk'
      rw [val (2 * a) k' (by omega) (by omega) hk', show (2 * a + 1) / 2 = a from by omega]
  have high : (∀ k', k' ≤ df.nz + 1 →
        prolongation dc df y p (2 * a + 3) k' = y p (a + 2) ((k' + 1) / 2)) ∨
      (∀ k', 1 ≤ k' → k' ≤ df.nz → A p (2 * a + 2) k' 6 = 0 ∧ A p (2 * a + 2) k' 7 = 0
        ∧ A p (2 * a + 2) k' 8 = 0) := by
    by_cases ha : a + 1 = dc.nx
    · have e : 2 * a + 2 = df.nx := by omega
      have e3 : 2 * a + 3 = df.nx + 1 := by omega
      by_cases hp0 : p + 1 = df.np
      · right; intro k' c1 c2; rw [e]; exact hA.2 p k' hp0 c1 c2
      · left; intro k' hk'; rw [e3, show a + 2 = dc.nx + 1 from by omega]
        exact prol_hi hn hx hz h0 h1 hy p k' (by omega) hk'
    · left; intro k' hk'
      rw [val (2 * a + 3) k' (by omega) (by omega) hk', show (2 * a + 3 + 1) / 2 = a + 2 from by omega]
  rcases low with hl | hl <;> rcases high with hh | hh
  · rw [hl (2 * b) (by omega), hl (2 * b + 1) (by omega), hl (2 * b + 2) (by omega),
      hl (2 * b + 3) (by omega), hh (2 * b) (by omega), hh (2 * b + 1) (by omega),
      hh (2 * b + 2) (by omega), hh (2 * b + 3) (by omega), q0, q1, q2, q3]
    ring
  · rw [hl (2 * b) (by omega), hl (2 * b + 1) (by omega), hl (2 * b + 2) (by omega),
      hl (2 * b + 3) (by omega), q0, q1, q2, q3]
    obtain ⟨u1, u2, u3⟩ := hh (2 * b + 1) (by omega) (by omega)
    obtain ⟨v1, v2, v3⟩ := hh (2 * b + 2) (by omega) (by omega)
    rw [u1, u2, u3, v1, v2, v3]
    ring
  · rw [hh (2 * b) (by omega), hh (2 * b + 1) (by omega),
      hh (2 * b + 2) (by omega), hh (2 * b + 3) (by omega), q0, q1, q2, q3]
    obtain ⟨u1, u2, u3⟩ := hl (2 * b + 1) (by omega) (by omega)
    obtain ⟨v1, v2, v3⟩ := hl (2 * b + 2) (by omega) (by omega)
    rw [u1, u2, u3, v1, v2, v3]
    ring
  · obtain ⟨u1, u2, u3⟩ := hl (2 * b + 1) (by omega) (by omega)
    obtain ⟨v1, v2, v3⟩ := hl (2 * b + 2) (by omega) (by omega)
    obtain ⟨w1, w2, w3⟩ := hh (2 * b + 1) (by omega) (by omega)
    obtain ⟨z1, z2, z3⟩ := hh (2 * b + 2) (by omega) (by omega)
    rw [u1, u2, u3, v1, v2, v3, w1, w2, w3, z1, z2, z3]
    ring

omit [Field K] [LinearOrder K] [IsStrictOrderedRing K] in
theorem halve {n top l : Nat} (hd : 2 ^ top ∣ n) (hl : l < top) :
    n / 2 ^ (top - (l + 1)) = 2 * (n / 2 ^ (top - l)) := by
  have e : top - l = (top - (l + 1)) + 1 := by omega
  obtain ⟨m, hm⟩ : 2 ^ (top - l) ∣ n := Nat.dvd_trans (Nat.pow_dvd_pow 2 (by omega)) hd
  have hpos : 0 < 2 ^ (top - (l + 1)) := Nat.pow_pos (by omega)
  rw [hm, Nat.mul_div_cancel_left _ (by rw [e, Nat.pow_succ]; omega)]
  rw [e, Nat.pow_succ, Nat.mul_assoc, Nat.mul_div_cancel_left _ hpos]

omit [IsStrictOrderedRing K] in
theorem hier_closed {c : Cfg K} (hx : 0 < c.nx) : ∀ n, n ≤ c.hier.top →
    Closed (c.hier.dim (c.hier.top - n)) (levelMat c.np c.nx c.nz c.hier.top (fineMat c) n) := by
  obtain ⟨_, a2, a3⟩ := avail_spec c.mglevel c.nx c.nz
  intro n
  induction n with
  | zero => intro _; rw [Nat.sub_zero, hier_dim]; exact closed_fine c
  | succ n ih =>
    intro hn
    have e : c.hier.top - n = (c.hier.top - (n + 1)) + 1 := by omega
    have h := ih (by omega)
    rw [e] at h
    refine closed_coarse (dc := c.hier.dim (c.hier.top - (n + 1))) (df := c.hier.dim (c.hier.top - (n + 1) + 1)) rfl ?_ ?_ ?_ h
    · exact halve a2 (show c.hier.top - (n + 1) < c.hier.top by omega)
    · exact halve a3 (show c.hier.top - (n + 1) < c.hier.top by omega)
    · exact div_pos_of_dvd hx a2 (Nat.sub_le _ _)

/-- **C84, the coarse levels.**  For every solver, every level but the finest and every vector:
the coarse matrix times the vector is one half of the projection (mean over 2×2 cells) of the next
finer matrix times the prolonged (copied to 2×2 cells) vector.  In particular the coarse matrices
need no information from other processors. -/
theorem C84_galerkin {c : Cfg K} (hx : 0 < c.nx) (hz : 0 < c.nz) (l : Nat) (hl : l < c.hier.top)
    (y : Vec K) (hy : Fixed (c.hier.dim l) y) (p i k : Nat) (hp : p < c.np) (i1 : 1 ≤ i)
    (i2 : i ≤ (c.hier.dim l).nx) (k1 : 1 ≤ k) (k2 : k ≤ (c.hier.dim l).nz) :
    row (c.hier.mat l) y p i k
      = projection (c.hier.dim l) (multiAVec (c.hier.dim (l + 1)) (c.hier.mat (l + 1))
          (prolongation (c.hier.dim l) (c.hier.dim (l + 1)) y)) p i k / 2 := by
  obtain ⟨_, a2, a3⟩ := avail_spec c.mglevel c.nx c.nz
  have hc := hier_closed (c := c) hx (c.hier.top - (l + 1)) (by omega)
  rw [show c.hier.top - (c.hier.top - (l + 1)) = l + 1 from by omega] at hc
  have e : c.hier.top - l = (c.hier.top - (l + 1)) + 1 := by omega
  have hm : c.hier.mat l = setMatrixC (c.hier.dim l) (c.hier.mat (l + 1)) := by
    show levelMat c.np c.nx c.nz c.hier.top (fineMat c) (c.hier.top - l) = _
    rw [e, levelMat]
    rw [show c.hier.top - (c.hier.top - (l + 1) + 1) = l from by omega]
    rfl
  rw [hm]
  have hpos := hier_pos (c := c) hx hz l (by omega)
  exact galerkin (dc := c.hier.dim l) (df := c.hier.dim (l + 1)) rfl (halve a2 hl) (halve a3 hl) hpos.1 hpos.2 hc hy p i k hp i1 i2 k1 k2

end Verif.MG
