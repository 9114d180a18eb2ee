import Verif.Num.BndryMain
import Mathlib.Tactic.IntervalCases

/-! # C31: gradient conditions, cell by cell conditions and modifiers -/
namespace Verif.Num
open Polynomial

variable {K : Type} [Field K]

/-! ## Neumann conditions -/

theorem mode_outer (stagger : Bool) (loc : Loc) (s : Side) (h : mode stagger loc s = .outer) : s.bx + s.by = 1 := by
  revert h; cases stagger <;> cases loc <;> cases s <;> decide
theorem mode_inner (stagger : Bool) (loc : Loc) (s : Side) (h : mode stagger loc s = .inner) : s.bx + s.by = -1 := by
  revert h; cases stagger <;> cases loc <;> cases s <;> decide

theorem neumann_low (m : Mode) (val delta d : K) (w k : Int) (hw : m = .mid → w ≤ 2) (hk : k < w)
    (h : ∀ a ∈ neumannLine m val delta d w, a.1 ≠ k) : k ≤ lastFree m := by
  by_contra hh
  unfold neumannLine at h
  cases m <;> simp only [lastFree] at hh h
  · have hw := hw rfl
    by_cases h0 : k = 0
    · exact h _ List.mem_cons_self h0.symm
    · have h1 : k = 1 := by omega
      have h2 : w = 2 := by omega
      rw [if_pos h2] at h
      exact h _ (List.mem_cons_of_mem _ List.mem_cons_self) h1.symm
  · by_cases h0 : k = 0
    · exact h _ List.mem_cons_self h0.symm
    · exact h (k, extrap3 k) (List.mem_cons_of_mem _ ((mem_fill _ _ _ _).2 ⟨⟨by simp only; omega, hk⟩, rfl⟩)) rfl
  · by_cases h0 : k = -1
    · exact h _ List.mem_cons_self h0.symm
    · exact h (k, extrap3 k) (List.mem_cons_of_mem _ ((mem_fill _ _ _ _).2 ⟨⟨by simp only; omega, hk⟩, rfl⟩)) rfl

/-- **C31.** The Neumann condition: if the field is a polynomial of degree at most two along a line through the boundary
and the condition's value is the derivative (with respect to the coordinate, not the outward one) at the boundary, every
guard cell receives the polynomial's value.  With the boundary half way between cells this needs at most two guard cells
(see `C31_neumann_wide_violated`); staggered fields may have any number. -/
theorem C31_neumann_exact [CharZero K] (r : BReg) (hlo : r.lo ≤ r.hi) (stagger : Bool) (loc : Loc)
    (hw : mode stagger loc r.side = .mid → r.width ≤ 2) (pts : List (Int × Int)) (hv : r.Visits r.next1d pts) (nz : Int)
    (gen d : Int × Int → Int → K) (f : Fld K) (p : Int × Int) (hp : p ∈ pts) (z : Int) (hz : 0 ≤ z ∧ z < nz)
    (P : K[X]) (hP : P.natDegree ≤ 2) (xb h : K) (hh : h = ((r.side.bx + r.side.by : Int) : K) * d p z)
    (hval : gen p z = P.derivative.eval xb)
    (hin : ∀ j ≤ lastFree (mode stagger loc r.side), along r.side f p z j = P.eval (bpos (mode stagger loc r.side) xb h j))
    (k : Int) (hk : k < r.width) :
    along r.side (applyCond .neumann r stagger loc pts nz gen d f) p z k =
      P.eval (bpos (mode stagger loc r.side) xb h k) := by
  refine cond_exact .neumann (by decide) r hlo stagger loc pts hv nz gen d f p hp z hz
      (fun j => P.eval (bpos (mode stagger loc r.side) xb h j)) r.width ?_ ?_ k hk
  · intro a ha
    simp only [condLine, neumannLine] at ha
    rw [← hh, hval] at ha
    have ho := mode_outer stagger loc r.side
    have hi := mode_inner stagger loc r.side
    generalize mode stagger loc r.side = m at ha ho hi ⊢
    cases m <;> simp only at ha
    · rcases List.mem_cons.1 ha with rfl | ha
      · simp only [bpos, off, eval5 P (show P.natDegree ≤ 5 by omega), deriv5 P (show P.natDegree ≤ 5 by omega),
          coeff_zero_of hP (show 2 < 3 by omega), coeff_zero_of hP (show 2 < 4 by omega),
          coeff_zero_of hP (show 2 < 5 by omega)]
        push_cast
        field_simp
        ring
      · by_cases h2 : r.width = 2
        · rw [if_pos h2, List.mem_singleton] at ha
          subst ha
          simp only [bpos, off, eval5 P (show P.natDegree ≤ 5 by omega), deriv5 P (show P.natDegree ≤ 5 by omega),
            coeff_zero_of hP (show 2 < 3 by omega), coeff_zero_of hP (show 2 < 4 by omega),
            coeff_zero_of hP (show 2 < 5 by omega)]
          push_cast
          field_simp
          ring
        · rw [if_neg h2] at ha; cases ha
    · rw [ho rfl] at hh
      rcases List.mem_cons.1 ha with rfl | ha
      · rw [show d p z = h by rw [hh]; simp]
        simp only [bpos, off, eval5 P (show P.natDegree ≤ 5 by omega), deriv5 P (show P.natDegree ≤ 5 by omega),
          coeff_zero_of hP (show 2 < 3 by omega), coeff_zero_of hP (show 2 < 4 by omega),
          coeff_zero_of hP (show 2 < 5 by omega)]
        push_cast
        field_simp
        ring
      · rw [((mem_fill _ _ _ _).1 ha).2]; exact ex3_poly P hP .outer xb h a.1
    · rw [hi rfl] at hh
      rcases List.mem_cons.1 ha with rfl | ha
      · rw [show d p z = -h by rw [hh]; simp]
        simp only [bpos, off, eval5 P (show P.natDegree ≤ 5 by omega), deriv5 P (show P.natDegree ≤ 5 by omega),
          coeff_zero_of hP (show 2 < 3 by omega), coeff_zero_of hP (show 2 < 4 by omega),
          coeff_zero_of hP (show 2 < 5 by omega)]
        push_cast
        field_simp
        ring
      · rw [((mem_fill _ _ _ _).1 ha).2]; exact ex3_poly P hP .inner xb h a.1
  · intro k hk hne
    exact hin k (neumann_low _ _ _ _ _ k hw hk hne)

/-- **C31.** The gradient imposed by the Neumann condition, for any field: the centred difference across a boundary half
way between cells, the one-sided second order difference at a cell on the boundary. -/
theorem C31_neumann_value [CharZero K] (r : BReg) (hlo : r.lo ≤ r.hi) (stagger : Bool) (loc : Loc)
    (pts : List (Int × Int)) (hv : r.Visits r.next1d pts) (nz : Int) (gen d : Int × Int → Int → K) (f : Fld K)
    (p : Int × Int) (hp : p ∈ pts) (z : Int) (hz : 0 ≤ z ∧ z < nz) :
    let L := along r.side (applyCond .neumann r stagger loc pts nz gen d f) p z
    let h := ((r.side.bx + r.side.by : Int) : K) * d p z
    (mode stagger loc r.side = .mid → L 0 - L (-1) = h * gen p z ∧ (r.width = 2 → L 1 - L (-2) = 3 * h * gen p z)) ∧
    (mode stagger loc r.side = .outer → (3 * L 0 - 4 * L (-1) + L (-2)) / 2 = h * gen p z) ∧
    (mode stagger loc r.side = .inner → (3 * L (-1) - 4 * L (-2) + L (-3)) / 2 = h * gen p z) := by
  intro L h
  have G : ∀ a ∈ condLine .neumann (mode stagger loc r.side) (gen p z) ((r.side.bx + r.side.by : Int) * d p z) (d p z)
      r.width, L a.1 = a.2 L :=
    (lines_spec r.side pts (visits1d_transverse r hlo pts hv) nz
      (fun p z => condLine .neumann (mode stagger loc r.side) (gen p z) ((r.side.bx + r.side.by : Int) * d p z) (d p z)
        r.width) (fun _ _ => good_cond .neumann (by decide) _ _ _ _ _) f p hp z hz).1
  refine ⟨fun e => ?_, fun e => ?_, fun e => ?_⟩
  · rw [e] at G
    simp only [condLine, neumannLine] at G
    refine ⟨?_, fun h2 => ?_⟩
    · have := G _ List.mem_cons_self
      simp only at this
      rw [this]; ring
    · rw [if_pos h2] at G
      have := G _ (List.mem_cons_of_mem _ List.mem_cons_self)
      simp only at this
      rw [this]; ring
  · have hs := mode_outer stagger loc r.side e
    rw [e] at G
    have := G _ List.mem_cons_self
    simp only at this
    simp only [h, hs]
    rw [this]
    push_cast
    field_simp
    ring
  · have hs := mode_inner stagger loc r.side e
    rw [e] at G
    have := G _ List.mem_cons_self
    simp only at this
    simp only [h, hs]
    rw [this]
    push_cast
    field_simp
    ring

/-- **C31 (violated).** With three or more guard cells and the boundary half way between cells, the Neumann condition sets
only the first guard cell: on a zero-gradient boundary of the constant field one, the second guard cell keeps its previous
content. -/
theorem C31_neumann_wide_violated (r : BReg) (hw : 3 ≤ r.width) (hlo : r.lo ≤ r.hi) (pts : List (Int × Int))
    (hv : r.Visits r.next1d pts) (nz : Int) (gen d : Int × Int → Int → K) (f : Fld K) (p : Int × Int) (hp : p ∈ pts)
    (z : Int) (hz : 0 ≤ z ∧ z < nz) (k : Int) (hk : 1 ≤ k) :
    along r.side (applyCond .neumann r false .centre pts nz gen d f) p z k = along r.side f p z k := by
  refine (lines_spec r.side pts (visits1d_transverse r hlo pts hv) nz
      (fun p z => condLine .neumann (mode false .centre r.side) (gen p z) ((r.side.bx + r.side.by : Int) * d p z) (d p z)
        r.width) (fun _ _ => good_cond .neumann (by decide) _ _ _ _ _) f p hp z hz).2 k ?_
  intro a ha
  simp only [condLine, neumannLine, mode, Bool.false_eq_true, if_false, if_neg (show ¬ r.width = 2 by omega),
    List.mem_singleton] at ha
  subst ha
  simp only
  omega

/-- **C31.** `neumann_o4` (one guard cell, or the first of three or more): exact for polynomials of degree four. -/
theorem C31_neumann_o4_exact [CharZero K] (r : BReg) (hlo : r.lo ≤ r.hi) (hw2 : r.width ≠ 2) (pts : List (Int × Int))
    (hv : r.Visits r.next1d pts) (nz : Int) (gen d : Int × Int → Int → K)
    (body : Int × Int → Int → List (Int × ((Int → K) → K)))
    (hbody : ∀ p z, neumannO4Line (gen p z) (((r.side.bx + r.side.by : Int) : K) * d p z) r.width = some (body p z))
    (f : Fld K) (p : Int × Int) (hp : p ∈ pts) (z : Int) (hz : 0 ≤ z ∧ z < nz) (P : K[X]) (hP : P.natDegree ≤ 4) (xb h : K)
    (hh : h = ((r.side.bx + r.side.by : Int) : K) * d p z) (hval : gen p z = P.derivative.eval xb)
    (hin : ∀ j ≤ -1, along r.side f p z j = P.eval (bpos .mid xb h j)) :
    along r.side (applyLines r.side pts nz body f) p z 0 = P.eval (bpos .mid xb h 0) := by
  have hb : ∀ p z, body p z = [(0, fun g => 12 * (((r.side.bx + r.side.by : Int) : K) * d p z) * gen p z / 11 +
      (17 * g (-1) + 9 * g (-2) - 5 * g (-3) + g (-4)) / 22)] := by
    intro p z
    have := hbody p z
    unfold neumannO4Line at this
    rw [if_neg hw2] at this
    exact (Option.some.inj this).symm
  refine line_exact r.side pts (visits1d_transverse r hlo pts hv) nz body ?_ f p hp z hz
    (fun j => P.eval (bpos .mid xb h j)) 1 ?_ ?_ ?_ 0 (by omega)
  · intro p z
    rw [hb]
    refine ⟨List.pairwise_singleton _ _, fun a ha => ?_⟩
    rw [List.mem_singleton] at ha
    subst ha
    intro g g' h
    simp only at h ⊢
    rw [h _ (by omega), h _ (by omega), h _ (by omega), h _ (by omega)]
  · intro a ha
    rw [hb, List.mem_singleton] at ha
    subst ha
    simp
  · intro a ha
    rw [hb, List.mem_singleton, ← hh, hval] at ha
    subst ha
    simp only [bpos, off, eval5 P (show P.natDegree ≤ 5 by omega), deriv5 P (show P.natDegree ≤ 5 by omega),
      coeff_zero_of hP (show 4 < 5 by omega)]
    push_cast
    field_simp
    ring
  · intro k hk hne
    refine hin k ?_
    have : k ≠ 0 := by
      intro e
      exact hne _ (by rw [hb]; exact List.mem_singleton_self _) e.symm
    omega

/-- **C31 (violated).** `neumann_4thorder` imposes minus the value asked for: polynomials of degree four are continued
exactly into both guard cells when the condition's value is *minus* the derivative at the boundary. -/
theorem C31_neumann_4thorder_sign_violated [CharZero K] (r : BReg) (hlo : r.lo ≤ r.hi) (stagger : Bool) (loc : Loc)
    (pts : List (Int × Int)) (hv : r.Visits r.next1d pts) (nz : Int) (gen d : Int × Int → Int → K) (f : Fld K)
    (p : Int × Int) (hp : p ∈ pts) (z : Int) (hz : 0 ≤ z ∧ z < nz)
    (P : K[X]) (hP : P.natDegree ≤ 4) (xb h : K) (hh : h = ((r.side.bx + r.side.by : Int) : K) * d p z)
    (hval : gen p z = - P.derivative.eval xb)
    (hin : ∀ j ≤ -1, along r.side f p z j = P.eval (bpos .mid xb h j)) (k : Int) (hk : k < 2) :
    along r.side (applyCond .neumann4th r stagger loc pts nz gen d f) p z k = P.eval (bpos .mid xb h k) := by
  refine cond_exact .neumann4th (by decide) r hlo stagger loc pts hv nz gen d f p hp z hz
      (fun j => P.eval (bpos .mid xb h j)) 2 ?_ ?_ k hk
  · intro a ha
    simp only [condLine, neumann4thLine, List.mem_cons, List.not_mem_nil, or_false] at ha
    rw [← hh, hval] at ha
    rcases ha with rfl | rfl
    all_goals
      simp only [bpos, off, eval5 P (show P.natDegree ≤ 5 by omega), deriv5 P (show P.natDegree ≤ 5 by omega),
        coeff_zero_of hP (show 4 < 5 by omega)]
      push_cast
      field_simp
      ring
  · intro k hk hne
    refine hin k ?_
    simp only [condLine, neumann4thLine, List.mem_cons, List.not_mem_nil, or_false] at hne
    have h0 := hne _ (Or.inl rfl)
    have h1 := hne _ (Or.inr rfl)
    simp only at h0 h1
    omega

/-- **C31 (violated).** `dirichlet_4thorder` is not even exact for constants: with the value one on a field that is one
everywhere, the guard cells do not become one. -/
theorem C31_dirichlet_4thorder_violated :
    ∃ (r : BReg) (pts : List (Int × Int)), r.width = 2 ∧ r.Visits r.next1d pts ∧
      applyCond .dirichlet4th r false .centre pts 1 (fun _ _ => (1 : ℚ)) (fun _ _ => 1) (fun _ _ _ => 1) 6 0 0 ≠ 1 := by
  exact ⟨⟨.xout, 0, 0, 2, 8, 1⟩, [(6, 0)], rfl, ⟨1, by decide⟩, by decide +kernel⟩

/-! ## Dirichlet condition on a three-dimensional field, boundary half way -/

/-- **C31.** The Dirichlet condition on a three-dimensional field with the boundary half way between cells: the mean of the
two cells next to the boundary is the given value, the other guard cells have the generator's values at their own positions,
and nothing else changes. -/
theorem C31_dirichlet_3D_mid [CharZero K] (r : BReg) (hlo : r.lo ≤ r.hi) (pts : List (Int × Int))
    (hv : r.Visits r.next1d pts) (nz : Int) (gen : Int × Int → Int → K) (far : Int × Int → Int → Int → K) (f : Fld K) :
    let f' := dirichlet3DMid r.side pts nz r.width gen far f
    (∀ p ∈ pts, ∀ z, 0 ≤ z → z < nz →
      (along r.side f' p z 0 + along r.side f' p z (-1)) / 2 = gen p z ∧
      ∀ i, 1 ≤ i → i < r.width → along r.side f' p z i = far p i z) ∧
    (∀ x y z, ¬ (r.Guard x y ∧ 0 ≤ z ∧ z < nz) → f' x y z = f x y z) := by
  intro f'
  have ht := visits1d_transverse r hlo pts hv
  set prog : List (Asg K) := pts.flatMap fun p =>
    ((ints 0 nz).map fun z => (⟨p, z, 0, first2 (gen p z)⟩ : Asg K)) ++
    ((ints 1 r.width).flatMap fun i => (ints 0 nz).map fun z => (⟨p, z, i, fun _ => far p i z⟩ : Asg K)) with hprog
  have hmem : ∀ a : Asg K, a ∈ prog ↔ ∃ p ∈ pts, ((∃ z, (0 ≤ z ∧ z < nz) ∧ a = ⟨p, z, 0, first2 (gen p z)⟩) ∨
      ∃ i, (1 ≤ i ∧ i < r.width) ∧ ∃ z, (0 ≤ z ∧ z < nz) ∧ a = ⟨p, z, i, fun _ => far p i z⟩) := by
    intro a
    simp only [hprog, List.mem_flatMap, List.mem_append, List.mem_map, mem_ints, eq_comm]
  have hcaus : ∀ a ∈ prog, a.Causal := by
    intro a ha
    obtain ⟨p, _, ⟨z, _, rfl⟩ | ⟨i, _, z, _, rfl⟩⟩ := (hmem a).1 ha
    · exact causal_first2 _
    · intro g g' _; rfl
  have hpw : prog.Pairwise (Before r.side) := by
    rw [hprog, List.pairwise_flatMap]
    constructor
    · intro p _
      rw [List.pairwise_append]
      refine ⟨?_, ?_, ?_⟩
      · rw [List.pairwise_map]
        refine (ints_sorted 0 nz).imp ?_
        intro z z' hz j _ h
        simp only [Asg.at, Prod.mk.injEq] at h
        omega
      · rw [List.pairwise_flatMap]
        constructor
        · intro i _
          rw [List.pairwise_map]
          refine (ints_sorted 0 nz).imp ?_
          intro z z' hz j _ h
          simp only [Asg.at, Prod.mk.injEq] at h
          omega
        · refine (ints_sorted 1 r.width).imp ?_
          intro i i' hi a ha b hb j hj h
          obtain ⟨z, _, rfl⟩ := List.mem_map.1 ha
          obtain ⟨z', _, rfl⟩ := List.mem_map.1 hb
          simp only [Asg.at, Prod.mk.injEq] at h hj
          have := along_step r.side _ _ _ _ h.1 h.2.1
          omega
      · intro a ha b hb j hj h
        obtain ⟨z, _, rfl⟩ := List.mem_map.1 ha
        obtain ⟨i, hi, hb⟩ := List.mem_flatMap.1 hb
        obtain ⟨z', _, rfl⟩ := List.mem_map.1 hb
        rw [mem_ints] at hi
        simp only [Asg.at, Prod.mk.injEq] at h hj
        have := along_step r.side _ _ _ _ h.1 h.2.1
        omega
    · refine ht.imp ?_
      intro p q hpq a ha b hb j hj h
      have ea : a.p = p := by
        rcases List.mem_append.1 ha with ha | ha
        · obtain ⟨z, _, rfl⟩ := List.mem_map.1 ha; rfl
        · obtain ⟨i, _, ha⟩ := List.mem_flatMap.1 ha
          obtain ⟨z, _, rfl⟩ := List.mem_map.1 ha; rfl
      have eb : b.p = q := by
        rcases List.mem_append.1 hb with ha | ha
        · obtain ⟨z, _, rfl⟩ := List.mem_map.1 ha; rfl
        · obtain ⟨i, _, ha⟩ := List.mem_flatMap.1 ha
          obtain ⟨z, _, rfl⟩ := List.mem_map.1 ha; rfl
      simp only [Asg.at, Prod.mk.injEq, ea, eb] at h
      exact hpq j b.k ⟨h.1, h.2.1⟩
  have spec := run_spec r.side prog f hcaus hpw
  refine ⟨fun p hp z h0 h1 => ⟨?_, fun i hi1 hi2 => ?_⟩, ?_⟩
  · have := spec ⟨p, z, 0, first2 (gen p z)⟩ ((hmem _).2 ⟨p, hp, Or.inl ⟨z, ⟨h0, h1⟩, rfl⟩⟩)
    simp only [first2] at this
    have e : along r.side f' p z 0 = 2 * gen p z - along r.side f' p z (-1) := this
    rw [e]; ring
  · exact spec ⟨p, z, i, fun _ => far p i z⟩ ((hmem _).2 ⟨p, hp, Or.inr ⟨i, ⟨hi1, hi2⟩, z, ⟨h0, h1⟩, rfl⟩⟩)
  · intro x y z hn
    refine run_ne r.side prog f x y z ?_
    intro a ha h
    obtain ⟨pts', hv', _, hg, _⟩ := C31_points r hlo
    rw [← visits_unique r _ _ _ hv hv'] at hg
    obtain ⟨p, hp, ⟨w, hw, rfl⟩ | ⟨i, hi, w, hw, rfl⟩⟩ := (hmem a).1 ha
    · simp only [Asg.at, Prod.mk.injEq] at h
      obtain ⟨h1, h2, rfl⟩ := h
      have hwd := ((mem_visits1d r hlo pts hv p).1 hp).1
      exact hn ⟨(hg x y).2 ⟨p, hp, 0, ⟨le_rfl, hwd⟩, h1.symm, h2.symm⟩, hw.1, hw.2⟩
    · simp only [Asg.at, Prod.mk.injEq] at h
      obtain ⟨h1, h2, rfl⟩ := h
      exact hn ⟨(hg x y).2 ⟨p, hp, i, ⟨by omega, hi.2⟩, h1.symm, h2.symm⟩, hw.1, hw.2⟩

/-! ## Conditions applied cell by cell -/

/-- **C31.** Robin condition `a f + b df = g` with `b ≠ 0` (`df` the difference of two neighbours in the direction of the
coordinate): holds at every guard cell of the final field, and no other cell changes. -/
theorem C31_robin (r : BReg) (hlo : r.lo ≤ r.hi) (cells : List (Int × Int)) (hv : r.Visits r.next cells) (nz : Int)
    (a b g : K) (hb : b ≠ 0) (f : Fld K) :
    let f' := robin r.side cells nz a b g f
    (∀ x y z, r.Guard x y → 0 ≤ z → z < nz →
      a * f' (x - r.side.bx) (y - r.side.by) z +
        b * (((r.side.bx + r.side.by : Int) : K) * (f' x y z - f' (x - r.side.bx) (y - r.side.by) z)) = g) ∧
    (∀ x y z, ¬ (r.Guard x y ∧ 0 ≤ z ∧ z < nz) → f' x y z = f x y z) := by
  intro f'
  obtain ⟨h1, h2⟩ := cells_spec r hlo cells hv nz
    (fun _ _ l => l (-1) + (if r.side.bx < 0 ∨ r.side.by < 0 then (-1 : K) else 1) * (g - a * l (-1)) / b)
    (by intro p z g g' h; beta_reduce; rw [h _ (by omega)]) f
  refine ⟨fun x y z hg h0 h1' => ?_, h2⟩
  have := h1 x y z hg h0 h1'
  have e : along r.side f' (x, y) z (-1) = f' (x - r.side.bx) (y - r.side.by) z := by
    simp only [along]; congr 1 <;> ring
  have this : f' x y z = f' (x - r.side.bx) (y - r.side.by) z + (if r.side.bx < 0 ∨ r.side.by < 0 then (-1 : K) else 1) *
      (g - a * f' (x - r.side.bx) (y - r.side.by) z) / b := by rw [← e]; exact this
  rw [this]
  have hs : ((r.side.bx + r.side.by : Int) : K) * (if r.side.bx < 0 ∨ r.side.by < 0 then (-1 : K) else 1) = 1 := by
    cases r.side <;> simp [Side.bx, Side.by]
  generalize f' (x - r.side.bx) (y - r.side.by) z = u at *
  generalize (if r.side.bx < 0 ∨ r.side.by < 0 then (-1 : K) else 1) = s at *
  generalize ((r.side.bx + r.side.by : Int) : K) = t at *
  have : t * (u + s * (g - a * u) / b - u) = (t * s) * (g - a * u) / b := by field_simp; ring
  rw [this, hs]
  field_simp
  ring

/-- **C31.** Robin condition without the gradient term: `a f = g` in every guard cell. -/
theorem C31_robin_const (r : BReg) (hlo : r.lo ≤ r.hi) (cells : List (Int × Int)) (hv : r.Visits r.next cells) (nz : Int)
    (a g : K) (ha : a ≠ 0) (f : Fld K) :
    let f' := robinConst r.side cells nz a g f
    (∀ x y z, r.Guard x y → 0 ≤ z → z < nz → a * f' x y z = g) ∧
    (∀ x y z, ¬ (r.Guard x y ∧ 0 ≤ z ∧ z < nz) → f' x y z = f x y z) := by
  intro f'
  obtain ⟨h1, h2⟩ := cells_spec r hlo cells hv nz (fun _ _ _ => g / a) (by intros; rfl) f
  refine ⟨fun x y z hg h0 h1' => ?_, h2⟩
  have : f' x y z = g / a := h1 x y z hg h0 h1'
  rw [this]; field_simp

/-- **C31.** Constant gradient: the difference across every guard cell equals the one before it. -/
theorem C31_const_gradient (r : BReg) (hlo : r.lo ≤ r.hi) (cells : List (Int × Int)) (hv : r.Visits r.next cells) (nz : Int)
    (f : Fld K) :
    let f' := constGradient r.side cells nz f
    (∀ x y z, r.Guard x y → 0 ≤ z → z < nz →
      f' x y z - f' (x - r.side.bx) (y - r.side.by) z =
        f' (x - r.side.bx) (y - r.side.by) z - f' (x - 2 * r.side.bx) (y - 2 * r.side.by) z) ∧
    (∀ x y z, ¬ (r.Guard x y ∧ 0 ≤ z ∧ z < nz) → f' x y z = f x y z) := by
  intro f'
  obtain ⟨h1, h2⟩ := cells_spec r hlo cells hv nz (fun _ _ g => 2 * g (-1) - g (-2))
    (by intro p z g g' h; beta_reduce; rw [h _ (by omega), h _ (by omega)]) f
  refine ⟨fun x y z hg h0 h1' => ?_, h2⟩
  have := h1 x y z hg h0 h1'
  have e : along r.side f' (x, y) z (-1) = f' (x - r.side.bx) (y - r.side.by) z := by
    simp only [along]; congr 1 <;> ring
  have e2 : along r.side f' (x, y) z (-2) = f' (x - 2 * r.side.bx) (y - 2 * r.side.by) z := by
    simp only [along]; congr 1 <;> ring
  have this : f' x y z = 2 * f' (x - r.side.bx) (y - r.side.by) z - f' (x - 2 * r.side.bx) (y - 2 * r.side.by) z := by
    rw [← e, ← e2]; exact this
  rw [this]; ring

/-- **C31.** Parallel zero gradient: every guard cell is its inner neighbour times the metric ratio. -/
theorem C31_neumann_par (r : BReg) (hlo : r.lo ≤ r.hi) (cells : List (Int × Int)) (hv : r.Visits r.next cells) (nz : Int)
    (ratio : Int × Int → Int → K) (f : Fld K) :
    let f' := neumannPar r.side cells nz ratio f
    (∀ x y z, r.Guard x y → 0 ≤ z → z < nz → f' x y z = f' (x - r.side.bx) (y - r.side.by) z * ratio (x, y) z) ∧
    (∀ x y z, ¬ (r.Guard x y ∧ 0 ≤ z ∧ z < nz) → f' x y z = f x y z) := by
  intro f'
  obtain ⟨h1, h2⟩ := cells_spec r hlo cells hv nz (fun p z l => l (-1) * ratio p z)
    (by intro p z g g' h; beta_reduce; rw [h _ (by omega)]) f
  refine ⟨fun x y z hg h0 h1' => ?_, h2⟩
  have := h1 x y z hg h0 h1'
  have e : along r.side f' (x, y) z (-1) = f' (x - r.side.bx) (y - r.side.by) z := by
    simp only [along]; congr 1 <;> ring
  rw [← e]; exact this

/-- **C31.** The time derivative is zero in every guard cell and unchanged elsewhere. -/
theorem C31_ddt_zero (r : BReg) (hlo : r.lo ≤ r.hi) (cells : List (Int × Int)) (hv : r.Visits r.next cells) (nz : Int)
    (ddt : Fld K) :
    let d' := applyDdtZero r.side cells nz ddt
    (∀ x y z, r.Guard x y → 0 ≤ z → z < nz → d' x y z = 0) ∧
    (∀ x y z, ¬ (r.Guard x y ∧ 0 ≤ z ∧ z < nz) → d' x y z = ddt x y z) := by
  intro d'
  obtain ⟨h1, h2⟩ := cells_spec r hlo cells hv nz (fun _ _ _ => (0 : K)) (by intros; rfl) ddt
  exact ⟨h1, h2⟩

/-- **C31.** Relaxation: in every guard cell the time derivative drives the field towards what the modified condition
would make of it, at the given rate; unchanged elsewhere. -/
theorem C31_relax (r : BReg) (hlo : r.lo ≤ r.hi) (cells : List (Int × Int)) (hv : r.Visits r.next cells) (nz : Int)
    (rate : K) (op : Fld K → Fld K) (f ddt : Fld K) :
    let d' := relaxDdt r.side cells nz rate op f ddt
    (∀ x y z, r.Guard x y → 0 ≤ z → z < nz → d' x y z = rate * (op f x y z - f x y z)) ∧
    (∀ x y z, ¬ (r.Guard x y ∧ 0 ≤ z ∧ z < nz) → d' x y z = ddt x y z) := by
  intro d'
  obtain ⟨h1, h2⟩ := cells_spec r hlo cells hv nz (fun p z _ => rate * (op f p.1 p.2 z - f p.1 p.2 z))
    (by intros; rfl) ddt
  exact ⟨h1, h2⟩

/-- Non-vacuity: the four guard cells of a lower Y boundary two cells wide. -/
example : ∃ cells, (⟨.ydown, 3, 4, 2, 8, 9⟩ : BReg).Visits (⟨.ydown, 3, 4, 2, 8, 9⟩ : BReg).next cells ∧
    cells = [(3, 1), (3, 0), (4, 1), (4, 0)] :=
  ⟨_, ⟨4, rfl⟩, by decide⟩

/-! ## Modifiers -/

/-- **C31.** On two-dimensional fields relaxation applies the modified condition at the time given. -/
theorem C31_relax_apply_2D (op : K → Fld K → Fld K) (t : K) (f : Fld K) : relaxApply2D op t f = op t f := rfl

/-- **C31 (violated).** On three-dimensional fields the time is dropped: a time-dependent condition is applied as at time
zero. -/
theorem C31_relax_time_violated : ∃ (op : ℚ → Fld ℚ → Fld ℚ) (t : ℚ) (f : Fld ℚ), relaxApply3D op t f ≠ op t f := by
  refine ⟨fun t _ _ _ _ => t, 1, fun _ _ _ => 0, ?_⟩
  intro h
  have := congrFun (congrFun (congrFun h 0) 0) 0
  simp [relaxApply3D] at this

/-- **C31.** The field-aligned modifiers: if the two transforms are inverse to each other, the transformed result is the
modified condition applied to the transformed field. -/
theorem C31_aligned_apply (fwd back op : Fld K → Fld K) (h : ∀ f, fwd (back f) = f) (f : Fld K) :
    fwd (alignedApply fwd back op f) = op (fwd f) := by
  unfold alignedApply; rw [h]

/-- **C31 (violated).** `apply_ddt` of the field-aligned modifiers leaves the *field* transformed although only its time
derivative was to change. -/
theorem C31_aligned_ddt_violated : ∃ (fwd back : Fld ℚ → Fld ℚ) (f : Fld ℚ), (∀ g, fwd (back g) = g) ∧
    (∀ g, back (fwd g) = g) ∧ (alignedDdt fwd back (fun _ d => d) f f).1 ≠ f := by
  refine ⟨fun g x y z => g x y (z + 1), fun g x y z => g x y (z - 1), fun _ _ z => z, ?_, ?_, ?_⟩
  · intro g; funext x y z; simp
  · intro g; funext x y z; simp
  · intro h
    have := congrFun (congrFun (congrFun h 0) 0) 0
    simp [alignedDdt] at this

/-- **C31 (violated).** The `width` modifier moves the boundary: with two guard cells and width one, the Dirichlet value is
imposed between the two guard cells, and the cells on the two sides of the boundary keep values whose mean is not it. -/
theorem C31_width_violated : ∃ (r : BReg) (pts : List (Int × Int)) (f : Fld ℚ), r.width = 2 ∧
    (r.withWidth 1).Visits (r.withWidth 1).next1d pts ∧
    (let f' := applyCond .dirichlet (r.withWidth 1) false .centre pts 1 (fun _ _ => (1 : ℚ)) (fun _ _ => 1) f
     (f' 2 0 0 + f' 1 0 0) / 2 ≠ 1 ∧ (f' 1 0 0 + f' 0 0 0) / 2 = 1) := by
  exact ⟨⟨.xin, 0, 0, 2, 8, 1⟩, [(0, 0)], fun _ _ _ => 0, rfl, ⟨1, by decide⟩, by decide +kernel⟩

end Verif.Num
