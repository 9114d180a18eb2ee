import Verif.Invert.LapPetscFit

/-! # The rows of the matrix of `LaplacePetsc` in global indices -/

namespace Verif.LapPetsc

/-- The offsets written in an interior row. -/
def mainSt (fourth : Bool) : List (Int × Int) :=
  if fourth then
    [(0, 0), (-2, -2), (-2, -1), (-2, 0), (-2, 1), (-2, 2), (-1, -2), (-1, -1), (-1, 0), (-1, 1),
     (-1, 2), (0, -2), (0, -1), (0, 1), (0, 2), (1, -2), (1, -1), (1, 0), (1, 1), (1, 2),
     (2, -2), (2, -1), (2, 0), (2, 1), (2, 2)]
  else [(0, 0), (-1, -1), (-1, 0), (-1, 1), (0, -1), (0, 1), (1, -1), (1, 0), (1, 1)]

/-- The offsets written in an inner boundary row. -/
def innerSt (fourth : Bool) : List (Int × Int) :=
  if fourth then [(0, 0), (1, 0), (2, 0), (3, 0), (4, 0)] else [(0, 0), (1, 0), (2, 0)]

/-- The offsets written in an outer boundary row. -/
def outerSt (fourth : Bool) : List (Int × Int) :=
  if fourth then [(0, 0), (-1, 0), (-2, 0), (-3, 0), (-4, 0)] else [(0, 0), (-1, 0), (-2, 0)]

/-- The column of an offset, in global indices. -/
def colG (g : Grid) (gx z : Int) (s : Int × Int) : Int :=
  (gx + s.1) * (g.nz : Int) + wrapZ g.nz (z + s.2)

/-- The conditions under which writing the columns `cs` into a row gives exactly `cs`. -/
structure Good (g : Grid) (fo : Bool) (p : Nat) (i : Int) (cs : List Int) : Prop where
  nd : cs.Nodup
  range : ∀ c ∈ cs, 0 ≤ c ∧ c < (g.size : Int)
  diag : (cs.countP fun c => inDiag g p c) ≤ (nnz g fo p (i - (g.Istart p : Int))).1
  off : (cs.countP fun c => !inDiag g p c) ≤ (nnz g fo p (i - (g.Istart p : Int))).2

theorem pair_inj (n X Y w v : Int) (hw : 0 ≤ w ∧ w < n) (hv : 0 ≤ v ∧ v < n)
    (h : X * n + w = Y * n + v) : X = Y ∧ w = v := by
  have h1 := (block n X w hw Y).1
  have h2 := (block n Y v hv X).1
  have hX : ¬ X < Y := by
    intro hlt
    have := h1.2 hlt
    have := (block n Y v hv Y).2.2 (le_refl _)
    omega
  have hY : ¬ Y < X := by
    intro hlt
    have := h2.2 hlt
    have := (block n X w hw X).2.2 (le_refl _)
    omega
  have e : X = Y := by omega
  subst e
  exact ⟨rfl, by omega⟩

theorem nodup_cols (g : Grid) (gx z : Int) (hz : 0 ≤ z ∧ z < (g.nz : Int)) (L : List (Int × Int))
    (m : Int) (hm : 0 ≤ m) (hmn : 2 * m + 1 ≤ g.nz) (hL : L.Nodup)
    (hb : ∀ s ∈ L, -m ≤ s.2 ∧ s.2 ≤ m) : (L.map (colG g gx z)).Nodup := by
  unfold List.Nodup
  rw [List.pairwise_map]
  refine List.Pairwise.imp_of_mem ?_ hL
  intro a b ha hbm hab h
  apply hab
  have h1 := hb a ha
  have h2 := hb b hbm
  have hw := wrap_range g.nz z a.2 hz (by omega)
  have hv := wrap_range g.nz z b.2 hz (by omega)
  obtain ⟨e1, e2⟩ := pair_inj (g.nz : Int) (gx + a.1) (gx + b.1) _ _ hw hv h
  have e3 : a.2 = b.2 := by
    unfold wrapZ at e2
    by_cases c1 : z + a.2 < 0 <;> by_cases c2 : z + b.2 < 0 <;>
      by_cases c3 : z + a.2 > (g.nz : Int) - 1 <;> by_cases c4 : z + b.2 > (g.nz : Int) - 1 <;>
      simp only [c1, c2, c3, c4, if_true, if_false] at e2 <;> omega
  exact Prod.ext (by omega) e3

/-- Ownership of an X index. -/
def own (g : Grid) (p : Nat) (x : Int) : Bool :=
  decide ((g.lo p : Int) ≤ x) && decide (x < (g.hi p : Int))

theorem countP_cols (g : Grid) (p : Nat) (hp : p < g.P) (x z : Int)
    (hz : 0 ≤ z ∧ z < (g.nz : Int)) (L : List (Int × Int))
    (hb : ∀ s ∈ L, -(g.nz : Int) ≤ s.2 ∧ s.2 ≤ g.nz) :
    ((L.map (colG g (x + (p : Int) * (g.mx : Int)) z)).countP fun c => inDiag g p c)
        = L.countP (fun s => own g p (x + s.1))
      ∧ ((L.map (colG g (x + (p : Int) * (g.mx : Int)) z)).countP fun c => !inDiag g p c)
        = L.countP (fun s => !own g p (x + s.1)) := by
  have key : ∀ s ∈ L, inDiag g p (colG g (x + (p : Int) * (g.mx : Int)) z s)
      = own g p (x + s.1) := by
    intro s hs
    have := inDiag_col g p hp (x + s.1) (wrapZ g.nz (z + s.2)) (wrap_range g.nz z s.2 hz (hb s hs))
    unfold own
    rw [← this]
    unfold colG
    congr 2
    ring
  constructor
  · rw [List.countP_map]
    apply List.countP_congr
    intro s hs
    simp only [Function.comp_apply, key s hs]
  · rw [List.countP_map]
    apply List.countP_congr
    intro s hs
    simp only [Function.comp_apply, key s hs]

theorem range_cols (g : Grid) (hP : 0 < g.P) (gx z : Int)
    (hz : 0 ≤ z ∧ z < (g.nz : Int)) (s : Int × Int)
    (hb : -(g.nz : Int) ≤ s.2 ∧ s.2 ≤ g.nz) (h : 0 ≤ gx + s.1 ∧ gx + s.1 < (g.gnx : Int)) :
    0 ≤ colG g gx z s ∧ colG g gx z s < (g.size : Int) := by
  have hw := wrap_range g.nz z s.2 hz hb
  have h1 := (block (g.nz : Int) (gx + s.1) _ hw 0).2.2 h.1
  have h2 := (block (g.nz : Int) (gx + s.1) _ hw (g.gnx : Int)).1.2 h.2
  rw [size_eq g hP]
  unfold colG
  push_cast
  constructor
  · linarith
  · exact h2

theorem pmx_le (g : Grid) (p : Nat) (hp : p < g.P) :
    (p : Int) * (g.mx : Int) + (g.mx : Int) ≤ (g.P : Int) * (g.mx : Int) := by
  have h : (p + 1) * g.mx ≤ g.P * g.mx := Nat.mul_le_mul_right _ hp
  have h2 : (((p + 1) * g.mx : Nat) : Int) ≤ ((g.P * g.mx : Nat) : Int) := by exact_mod_cast h
  push_cast at h2
  linarith

theorem own_eqs (g : Grid) (p : Nat) (x : Int) (hx : (g.lo p : Int) ≤ x ∧ x < (g.hi p : Int)) :
    own g p (x + 0) = true ∧ own g p (x + -1) = decide ((g.lo p : Int) < x)
      ∧ own g p (x + 1) = decide (x < (g.hi p : Int) - 1)
      ∧ own g p (x + -2) = decide ((g.lo p : Int) + 1 < x)
      ∧ own g p (x + 2) = decide (x < (g.hi p : Int) - 2) := by
  unfold own
  refine ⟨?_, ?_, ?_, ?_, ?_⟩
  · simp; omega
  · by_cases h : (g.lo p : Int) < x <;> simp [h] <;> omega
  · by_cases h : x < (g.hi p : Int) - 1 <;> simp [h] <;> omega
  · by_cases h : (g.lo p : Int) + 1 < x <;> simp [h] <;> omega
  · by_cases h : x < (g.hi p : Int) - 2 <;> simp [h] <;> omega

theorem wide4 (g : Grid) (hf : Fits g true) (p : Nat) (hp : p < g.P) (x : Int)
    (hx : (g.xs : Int) ≤ x ∧ x < (g.xs : Int) + g.mx) :
    (4 : Int) ≤ (g.hi p : Int) - g.lo p ∧ (p = 0 → (g.lo p : Int) + 1 < x)
      ∧ (p + 1 = g.P → x < (g.hi p : Int) - 2) := by
  obtain ⟨hP, hm, h3, h4, h5⟩ := hf
  rcases lo_cases g p with h | h <;> rcases hi_cases g p with h' | h' <;> omega

theorem good_main (g : Grid) (fo : Bool) (hf : Fits g fo) (p : Nat) (hp : p < g.P) (x z : Int)
    (hx : (g.xs : Int) ≤ x ∧ x < (g.xs : Int) + g.mx) (hz : 0 ≤ z ∧ z < (g.nz : Int)) :
    Good g fo p (rowIdx g p (x, z))
      ((mainSt fo).map (colG g (x + (p : Int) * (g.mx : Int)) z)) := by
  have hlo := lo_cases g p
  have hhi := hi_cases g p
  have hpm := pmx_le g p hp
  have hpm0 : 0 ≤ (p : Int) * (g.mx : Int) := by positivity
  have hgn : (g.gnx : Int) = (g.P : Int) * (g.mx : Int) + 2 * g.xs := by
    unfold Grid.gnx; push_cast; rfl
  have hx' : (g.lo p : Int) ≤ x ∧ x < (g.hi p : Int) := by omega
  cases fo
  · have hcap := cap2 g hf p hp x z hx' hz
    obtain ⟨hP, hm, h3, h4, h5⟩ := hf
    have hb : ∀ s ∈ mainSt false, (-1 ≤ s.2 ∧ s.2 ≤ 1) ∧ (-1 ≤ s.1 ∧ s.1 ≤ 1) := by decide
    have hc := countP_cols g p hp x z hz (mainSt false) (fun s hs => by have := hb s hs; omega)
    refine ⟨nodup_cols g _ z hz _ 1 (by omega) (by omega) (by decide) (fun s hs => (hb s hs).1),
      ?_, ?_, ?_⟩
    · intro c hcm
      obtain ⟨s, hs, rfl⟩ := List.mem_map.1 hcm
      have := hb s hs
      exact range_cols g (by omega) _ z hz s (by omega) (by omega)
    · rw [hc.1]
      dsimp only at hcap
      obtain ⟨e0, em, ep, _, _⟩ := own_eqs g p x hx'
      simp only [mainSt, Bool.false_eq_true, if_false, List.countP_cons, List.countP_nil, e0, em, ep]
      generalize nnz g false p _ = c at *
      by_cases c1 : (g.lo p : Int) < x <;> by_cases c2 : x < (g.hi p : Int) - 1 <;>
        simp [c1, c2] <;> omega
    · rw [hc.2]
      dsimp only at hcap
      obtain ⟨e0, em, ep, _, _⟩ := own_eqs g p x hx'
      simp only [mainSt, Bool.false_eq_true, if_false, List.countP_cons, List.countP_nil, e0, em, ep]
      generalize nnz g false p _ = c at *
      by_cases c1 : (g.lo p : Int) < x <;> by_cases c2 : x < (g.hi p : Int) - 1 <;>
        simp [c1, c2] <;> omega
  · have hcap := cap4 g hf p hp x z hx' hz
    obtain ⟨hR, hp0, hp1⟩ := wide4 g hf p hp x hx
    obtain ⟨hP, hm, h3, h4, h5⟩ := hf
    have hb : ∀ s ∈ mainSt true, (-2 ≤ s.2 ∧ s.2 ≤ 2) ∧ (-2 ≤ s.1 ∧ s.1 ≤ 2) := by decide
    have hc := countP_cols g p hp x z hz (mainSt true) (fun s hs => by have := hb s hs; omega)
    obtain ⟨e0, em, ep, em2, ep2⟩ := own_eqs g p x hx'
    refine ⟨nodup_cols g _ z hz _ 2 (by omega) (by omega) (by decide) (fun s hs => (hb s hs).1),
      ?_, ?_, ?_⟩
    · intro c hcm
      obtain ⟨s, hs, rfl⟩ := List.mem_map.1 hcm
      have := hb s hs
      exact range_cols g (by omega) _ z hz s (by omega) (by omega)
    · rw [hc.1]
      dsimp only at hcap
      simp only [mainSt, if_true, List.countP_cons, List.countP_nil, e0, em, ep, em2, ep2]
      generalize nnz g true p _ = c at *
      clear hc hb hlo hhi h3 h4 h5 hpm hgn
      by_cases c1 : (g.lo p : Int) < x <;> by_cases c2 : x < (g.hi p : Int) - 1 <;>
        by_cases c3 : (g.lo p : Int) + 1 < x <;> by_cases c4 : x < (g.hi p : Int) - 2 <;>
        simp only [c1, c2, c3, c4, decide_true, decide_false, if_true, Bool.false_eq_true, if_false]
          <;> omega
    · rw [hc.2]
      dsimp only at hcap
      simp only [mainSt, if_true, List.countP_cons, List.countP_nil, e0, em, ep, em2, ep2]
      generalize nnz g true p _ = c at *
      clear hc hb hlo hhi h3 h4 h5 hpm hgn
      by_cases c1 : (g.lo p : Int) < x <;> by_cases c2 : x < (g.hi p : Int) - 1 <;>
        by_cases c3 : (g.lo p : Int) + 1 < x <;> by_cases c4 : x < (g.hi p : Int) - 2 <;>
        simp only [c1, c2, c3, c4, decide_true, decide_false, if_true, Bool.false_eq_true, if_false,
          Bool.not_true, Bool.not_false]
          <;> omega

theorem good_inner (g : Grid) (fo : Bool) (hf : Fits g fo) (x z : Int)
    (hx : 0 ≤ x ∧ x < (g.xs : Int)) (hz : 0 ≤ z ∧ z < (g.nz : Int)) :
    Good g fo 0 (rowIdx g 0 (x, z)) ((innerSt fo).map (colG g (x + ((0 : Nat) : Int) * (g.mx : Int)) z)) := by
  have hp : 0 < g.P := by have := hf.1; omega
  have hlo := lo_cases g 0
  have hhi := hi_cases g 0
  have hpm := pmx_le g 0 hp
  have hgn : (g.gnx : Int) = (g.P : Int) * (g.mx : Int) + 2 * g.xs := by
    unfold Grid.gnx; push_cast; rfl
  have hx' : (g.lo 0 : Int) ≤ x ∧ x < (g.hi 0 : Int) := by omega
  cases fo
  · have hcap := (cap2 g hf 0 hp x z hx' hz).1
    obtain ⟨hP, hm, h3, h4, h5⟩ := hf
    have hb : ∀ s ∈ innerSt false, s.2 = 0 ∧ (0 ≤ s.1 ∧ s.1 ≤ 2) := by decide
    have hc := countP_cols g 0 hp x z hz (innerSt false) (fun s hs => by have := hb s hs; omega)
    have ho : ∀ s ∈ innerSt false, own g 0 (x + s.1) = true := by
      intro s hs
      have := hb s hs
      unfold own
      simp only [Bool.and_eq_true, decide_eq_true_eq]
      omega
    refine ⟨nodup_cols g _ z hz _ 0 (by omega) (by omega) (by decide)
      (fun s hs => by have := hb s hs; omega), ?_, ?_, ?_⟩
    · intro c hcm
      obtain ⟨s, hs, rfl⟩ := List.mem_map.1 hcm
      have := hb s hs
      exact range_cols g (by omega) _ z hz s (by omega) (by omega)
    · rw [hc.1]
      have := List.countP_le_length (p := fun s => own g 0 (x + s.1)) (l := innerSt false)
      have e : (innerSt false).length = 3 := rfl
      omega
    · rw [hc.2]
      have : (innerSt false).countP (fun s => !own g 0 (x + s.1)) = 0 := by
        rw [List.countP_eq_zero]
        intro s hs
        simp [ho s hs]
      omega
  · have hcap := (cap4 g hf 0 hp x z hx' hz).1
    obtain ⟨hP, hm, h3, h4, h5⟩ := hf
    have hb : ∀ s ∈ innerSt true, s.2 = 0 ∧ (0 ≤ s.1 ∧ s.1 ≤ 4) := by decide
    have hc := countP_cols g 0 hp x z hz (innerSt true) (fun s hs => by have := hb s hs; omega)
    have ho : ∀ s ∈ innerSt true, own g 0 (x + s.1) = true := by
      intro s hs
      have := hb s hs
      unfold own
      simp only [Bool.and_eq_true, decide_eq_true_eq]
      omega
    have hPm : (g.P : Int) * (g.mx : Int) + 2 * g.xs ≥ x + 5 := by
      have : (g.mx : Int) ≤ (g.P : Int) * g.mx := by omega
      omega
    refine ⟨nodup_cols g _ z hz _ 0 (by omega) (by omega) (by decide)
      (fun s hs => by have := hb s hs; omega), ?_, ?_, ?_⟩
    · intro c hcm
      obtain ⟨s, hs, rfl⟩ := List.mem_map.1 hcm
      have := hb s hs
      exact range_cols g (by omega) _ z hz s (by omega) (by omega)
    · rw [hc.1]
      have := List.countP_le_length (p := fun s => own g 0 (x + s.1)) (l := innerSt true)
      have e : (innerSt true).length = 5 := rfl
      omega
    · rw [hc.2]
      have : (innerSt true).countP (fun s => !own g 0 (x + s.1)) = 0 := by
        rw [List.countP_eq_zero]
        intro s hs
        simp [ho s hs]
      omega

theorem good_outer (g : Grid) (fo : Bool) (hf : Fits g fo) (p : Nat) (hpP : p + 1 = g.P) (x z : Int)
    (hx : (g.xs : Int) + g.mx ≤ x ∧ x < (g.mx : Int) + 2 * g.xs) (hz : 0 ≤ z ∧ z < (g.nz : Int)) :
    Good g fo p (rowIdx g p (x, z)) ((outerSt fo).map (colG g (x + (p : Int) * (g.mx : Int)) z)) := by
  have hp : p < g.P := by omega
  have hlo := lo_cases g p
  have hhi := hi_cases g p
  have hpm : (g.P : Int) * (g.mx : Int) = (p : Int) * (g.mx : Int) + g.mx := by
    rw [← hpP]; push_cast; ring
  have hpm0 : 0 ≤ (p : Int) * (g.mx : Int) := by positivity
  have hpm1 : p ≠ 0 → (g.mx : Int) ≤ (p : Int) * (g.mx : Int) := fun h =>
    mul_pos_of _ _ (by omega) (by omega)
  have hgn : (g.gnx : Int) = (g.P : Int) * (g.mx : Int) + 2 * g.xs := by
    unfold Grid.gnx; push_cast; rfl
  have hx' : (g.lo p : Int) ≤ x ∧ x < (g.hi p : Int) := by omega
  cases fo
  · have hcap := (cap2 g hf p hp x z hx' hz).1
    obtain ⟨hP, hm, h3, h4, h5⟩ := hf
    have hb : ∀ s ∈ outerSt false, s.2 = 0 ∧ (-2 ≤ s.1 ∧ s.1 ≤ 0) := by decide
    have hc := countP_cols g p hp x z hz (outerSt false) (fun s hs => by have := hb s hs; omega)
    have ho : ∀ s ∈ outerSt false, own g p (x + s.1) = true := by
      intro s hs
      have := hb s hs
      unfold own
      simp only [Bool.and_eq_true, decide_eq_true_eq]
      omega
    refine ⟨nodup_cols g _ z hz _ 0 (by omega) (by omega) (by decide)
      (fun s hs => by have := hb s hs; omega), ?_, ?_, ?_⟩
    · intro c hcm
      obtain ⟨s, hs, rfl⟩ := List.mem_map.1 hcm
      have := hb s hs
      exact range_cols g (by omega) _ z hz s (by omega) (by omega)
    · rw [hc.1]
      have := List.countP_le_length (p := fun s => own g p (x + s.1)) (l := outerSt false)
      have e : (outerSt false).length = 3 := rfl
      omega
    · rw [hc.2]
      have : (outerSt false).countP (fun s => !own g p (x + s.1)) = 0 := by
        rw [List.countP_eq_zero]
        intro s hs
        simp [ho s hs]
      omega
  · have hcap := (cap4 g hf p hp x z hx' hz).1
    obtain ⟨hP, hm, h3, h4, h5⟩ := hf
    have hb : ∀ s ∈ outerSt true, s.2 = 0 ∧ (-4 ≤ s.1 ∧ s.1 ≤ 0) := by decide
    have hc := countP_cols g p hp x z hz (outerSt true) (fun s hs => by have := hb s hs; omega)
    have ho : ∀ s ∈ outerSt true, own g p (x + s.1) = true := by
      intro s hs
      have := hb s hs
      unfold own
      simp only [Bool.and_eq_true, decide_eq_true_eq]
      omega
    refine ⟨nodup_cols g _ z hz _ 0 (by omega) (by omega) (by decide)
      (fun s hs => by have := hb s hs; omega), ?_, ?_, ?_⟩
    · intro c hcm
      obtain ⟨s, hs, rfl⟩ := List.mem_map.1 hcm
      have := hb s hs
      exact range_cols g (by omega) _ z hz s (by omega) (by omega)
    · rw [hc.1]
      have := List.countP_le_length (p := fun s => own g p (x + s.1)) (l := outerSt true)
      have e : (outerSt true).length = 5 := rfl
      omega
    · rw [hc.2]
      have : (outerSt true).countP (fun s => !own g p (x + s.1)) = 0 := by
        rw [List.countP_eq_zero]
        intro s hs
        simp [ho s hs]
      omega

end Verif.LapPetsc
