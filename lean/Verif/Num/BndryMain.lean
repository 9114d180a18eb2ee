import Verif.Num.BndryProps
import Mathlib.Tactic.FieldSimp
import Mathlib.Tactic.LinearCombination
import Mathlib.Tactic.NormNum

/-! # C31: what the boundary conditions impose -/
namespace Verif.Num
open Polynomial

variable {K : Type} [Field K]

/-! ## Every line body is well formed -/

theorem mem_fill (ex : Int → (Int → K) → K) (a w : Int) (b : Int × ((Int → K) → K)) :
    b ∈ fill ex a w ↔ (a ≤ b.1 ∧ b.1 < w) ∧ b.2 = ex b.1 := by
  unfold fill
  simp only [List.mem_map, mem_ints]
  constructor
  · rintro ⟨i, hi, rfl⟩; exact ⟨hi, rfl⟩
  · rintro ⟨h, e⟩; exact ⟨b.1, h, Prod.ext rfl e.symm⟩

theorem fill_sorted (ex : Int → (Int → K) → K) (a w : Int) : (fill ex a w).Pairwise (fun a b => a.1 < b.1) := by
  unfold fill
  rw [List.pairwise_map]
  exact (ints_sorted a w).imp (fun h => h)

/-- Expressions of cell `i` reading cells further inside only. -/
def CausalAt (i : Int) (e : (Int → K) → K) : Prop := ∀ g g' : Int → K, (∀ j < i, g j = g' j) → e g = e g'

theorem causal_extrap2 (i : Int) : CausalAt i (extrap2 (K := K) i) := by
  intro g g' h; unfold extrap2; rw [h _ (by omega), h _ (by omega)]
theorem causal_extrap3 (i : Int) : CausalAt i (extrap3 (K := K) i) := by
  intro g g' h; unfold extrap3; rw [h _ (by omega), h _ (by omega), h _ (by omega)]
theorem causal_extrap4 (i : Int) : CausalAt i (extrap4 (K := K) i) := by
  intro g g' h; unfold extrap4; rw [h _ (by omega), h _ (by omega), h _ (by omega), h _ (by omega)]

theorem good_fill (ex : Int → (Int → K) → K) (h : ∀ i, CausalAt i (ex i)) (a w : Int) : GoodBody (fill ex a w) :=
  ⟨fill_sorted ex a w, fun b hb => by
    obtain ⟨_, e⟩ := (mem_fill _ _ _ _).1 hb
    rw [e]; exact h b.1⟩

theorem good_cons (i : Int) (e : (Int → K) → K) (h : CausalAt i e) (l : List (Int × ((Int → K) → K))) (hl : GoodBody l)
    (hlt : ∀ b ∈ l, i < b.1) : GoodBody ((i, e) :: l) := by
  refine ⟨List.pairwise_cons.2 ⟨hlt, hl.sorted⟩, fun a ha => ?_⟩
  rcases List.mem_cons.1 ha with rfl | ha
  · exact h
  · exact hl.causal a ha

theorem good_dirichlet (first : K → (Int → K) → K) (ex : Int → (Int → K) → K) (hf : ∀ v, CausalAt 0 (first v))
    (h : ∀ i, CausalAt i (ex i)) (m : Mode) (val : K) (w : Int) : GoodBody (dirichletLine first ex m val w) := by
  unfold dirichletLine
  cases m
  · exact good_cons 0 _ (hf val) _ (good_fill ex h 1 w) (fun b hb => by have := ((mem_fill _ _ _ _).1 hb).1; omega)
  · exact good_cons 0 _ (fun _ _ _ => rfl) _ (good_fill ex h 1 w)
      (fun b hb => by have := ((mem_fill _ _ _ _).1 hb).1; omega)
  · exact good_cons (-1) _ (fun _ _ _ => rfl) _ (good_fill ex h 0 w)
      (fun b hb => by have := ((mem_fill _ _ _ _).1 hb).1; omega)

theorem causal_first2 (v : K) : CausalAt 0 (first2 v) := by
  intro g g' h; unfold first2; rw [h _ (by omega)]
theorem causal_first3 (v : K) : CausalAt 0 (first3 v) := by
  intro g g' h; unfold first3; rw [h _ (by omega), h _ (by omega)]
theorem causal_first4 (v : K) : CausalAt 0 (first4 v) := by
  intro g g' h; unfold first4; rw [h _ (by omega), h _ (by omega), h _ (by omega)]

theorem good_free (ex : Int → (Int → K) → K) (h : ∀ i, CausalAt i (ex i)) (m : Mode) (w : Int) :
    GoodBody (freeLine ex m w) := by
  unfold freeLine; cases m
  · exact good_fill ex h 0 w
  · exact good_fill ex h 0 w
  · exact good_fill ex h (-1) w

theorem good_neumann (m : Mode) (val delta d : K) (w : Int) : GoodBody (neumannLine m val delta d w) := by
  unfold neumannLine
  cases m
  · refine good_cons 0 _ ?_ _ ?_ ?_
    · intro g g' h; beta_reduce; rw [h _ (by omega)]
    · by_cases hw : w = 2
      · rw [if_pos hw]
        refine ⟨List.pairwise_singleton _ _, fun a ha => ?_⟩
        rw [List.mem_singleton] at ha
        subst ha
        intro g g' h
        simp only at h ⊢
        rw [h _ (by omega)]
      · rw [if_neg hw]
        exact ⟨List.Pairwise.nil, fun a ha => by cases ha⟩
    · intro b hb
      by_cases hw : w = 2
      · rw [if_pos hw, List.mem_singleton] at hb; subst hb; simp
      · rw [if_neg hw] at hb; cases hb
  · refine good_cons 0 _ ?_ _ (good_fill _ causal_extrap3 1 w)
      (fun b hb => by have := ((mem_fill _ _ _ _).1 hb).1; omega)
    intro g g' h; beta_reduce; rw [h _ (by omega), h _ (by omega)]
  · refine good_cons (-1) _ ?_ _ (good_fill _ causal_extrap3 0 w)
      (fun b hb => by have := ((mem_fill _ _ _ _).1 hb).1; omega)
    intro g g' h; beta_reduce; rw [h _ (by omega), h _ (by omega)]

theorem good_two (e0 e1 : (Int → K) → K) (h0 : CausalAt 0 e0) (h1 : CausalAt 1 e1) :
    GoodBody [((0 : Int), e0), (1, e1)] := by
  refine good_cons 0 _ h0 _ ⟨List.pairwise_singleton _ _, fun a ha => ?_⟩ ?_
  · rw [List.mem_singleton] at ha; subst ha; exact h1
  · intro b hb; rw [List.mem_singleton] at hb; subst hb; simp

theorem good_dirichlet4th (val : K) : GoodBody (dirichlet4th val) := by
  refine good_two _ _ ?_ ?_
  · intro g g' h; beta_reduce; rw [h _ (by omega), h _ (by omega), h _ (by omega), h _ (by omega)]
  · intro g g' h; beta_reduce; rw [h _ (by omega), h _ (by omega), h _ (by omega), h _ (by omega)]

theorem good_neumann4th (val delta : K) : GoodBody (neumann4thLine val delta) := by
  refine good_two _ _ ?_ ?_
  · intro g g' h; beta_reduce; rw [h _ (by omega), h _ (by omega), h _ (by omega), h _ (by omega)]
  · intro g g' h; beta_reduce; rw [h _ (by omega), h _ (by omega), h _ (by omega)]

/-- All conditions but the staggered three-dimensional Dirichlet condition, which sets one cell twice. -/
theorem good_cond (c : Cond) (hc : c ≠ .dirichletX3D) (m : Mode) (val delta d : K) (w : Int) :
    GoodBody (condLine c m val delta d w) := by
  cases c
  · exact good_dirichlet _ _ causal_first2 causal_extrap2 m val w
  · exact absurd rfl hc
  · exact good_dirichlet _ _ causal_first3 causal_extrap3 m val w
  · exact good_dirichlet _ _ causal_first4 causal_extrap4 m val w
  · exact good_dirichlet4th val
  · exact good_neumann m val delta d w
  · exact good_neumann4th val delta
  · exact good_free _ causal_extrap2 m w
  · exact good_free _ causal_extrap3 m w

/-! ## The doubly set cell -/

theorem run_append (s : Side) (l l' : List (Asg K)) (f : Fld K) : run s (l ++ l') f = run s l' (run s l f) := by
  unfold run; rw [List.foldl_append]

theorem run_flatMap_congr {α : Type} (s : Side) (g g' : α → List (Asg K)) : ∀ (l : List α) (f : Fld K),
    (∀ a ∈ l, ∀ f, run s (g a) f = run s (g' a) f) → run s (l.flatMap g) f = run s (l.flatMap g') f := by
  intro l
  induction l with
  | nil => intros; rfl
  | cons a l ih =>
    intro f h
    rw [List.flatMap_cons, List.flatMap_cons, run_append, run_append, h a List.mem_cons_self,
      ih _ (fun b hb => h b (List.mem_cons_of_mem _ hb))]

theorem applyLines_congr (s : Side) (pts : List (Int × Int)) (nz : Int)
    (body body' : Int × Int → Int → List (Int × ((Int → K) → K)))
    (h : ∀ p z f, run s ((body p z).map fun a => ⟨p, z, a.1, a.2⟩) f = run s ((body' p z).map fun a => ⟨p, z, a.1, a.2⟩) f)
    (f : Fld K) : applyLines s pts nz body f = applyLines s pts nz body' f := by
  unfold applyLines pointsZ
  refine run_flatMap_congr s _ _ pts f (fun p _ f => ?_)
  exact run_flatMap_congr s _ _ _ f (fun z _ f => h p z f)

/-- A cell set twice in a row, the second time without reading the first. -/
theorem dead_write (s : Side) (p : Int × Int) (z i : Int) (e e' : (Int → K) → K) (h : CausalAt i e') (f : Fld K) :
    (⟨p, z, i, e'⟩ : Asg K).exec s ((⟨p, z, i, e⟩ : Asg K).exec s f) = (⟨p, z, i, e'⟩ : Asg K).exec s f := by
  have key : e' (along s ((⟨p, z, i, e⟩ : Asg K).exec s f) p z) = e' (along s f p z) := by
    refine h _ _ (fun j hj => ?_)
    refine exec_ne s f _ _ _ _ ?_
    intro hh
    simp only [Asg.at, Prod.mk.injEq, and_true] at hh
    have := along_step s _ _ _ _ hh.1 hh.2
    omega
  funext x y w
  rw [Asg.exec]
  dsimp only
  rw [key]
  simp only [Asg.exec, Fld.set]
  split_ifs <;> rfl

theorem stag3D_run (s : Side) (m : Mode) (val : K) (w : Int) (hw : 0 < w) (p : Int × Int) (z : Int) (f : Fld K) :
    run s ((dirichlet3DStag true m val w).map fun a => ⟨p, z, a.1, a.2⟩) f =
    run s ((dirichlet2D m val w).map fun a => ⟨p, z, a.1, a.2⟩) f := by
  cases m
  · rfl
  · rfl
  · have e : fill (K := K) extrap2 0 w = (0, extrap2 0) :: fill extrap2 1 w := by
      unfold fill; rw [ints_cons 0 w hw]; rfl
    unfold dirichlet3DStag dirichlet2D dirichletLine
    simp only [if_true, List.singleton_append, List.map_cons, e]
    unfold run
    simp only [List.foldl_cons]
    rw [dead_write s p z 0 _ _ (causal_extrap2 0)]

/-- The staggered three-dimensional Dirichlet condition has the effect of the two-dimensional one. -/
theorem applyCond_x3D (r : BReg) (stagger : Bool) (loc : Loc) (hlo : r.lo ≤ r.hi) (pts : List (Int × Int))
    (hv : r.Visits r.next1d pts) (nz : Int) (gen d : Int × Int → Int → K) (f : Fld K) :
    applyCond .dirichletX3D r stagger loc pts nz gen d f = applyCond .dirichlet r stagger loc pts nz gen d f := by
  by_cases hw : 0 < r.width
  · exact applyLines_congr r.side pts nz _ _ (fun p z f => stag3D_run r.side _ _ _ hw p z f) f
  · have : pts = [] := by
      rw [List.eq_nil_iff_forall_not_mem]
      intro p hp
      exact hw ((mem_visits1d r hlo pts hv p).1 hp).1
    subst this
    rfl

/-! ## Cells touched -/

theorem mem_dirichlet (first : K → (Int → K) → K) (ex : Int → (Int → K) → K) (m : Mode) (val : K) (w : Int) (hw : 0 < w)
    (a : Int × ((Int → K) → K)) (ha : a ∈ dirichletLine first ex m val w) :
    (0 ≤ a.1 ∧ a.1 < w) ∨ (m = .inner ∧ a.1 = -1) := by
  unfold dirichletLine at ha
  cases m
  all_goals
    rcases List.mem_cons.1 ha with rfl | ha
    · first | exact Or.inl ⟨le_rfl, hw⟩ | exact Or.inr ⟨rfl, rfl⟩
    · have := ((mem_fill _ _ _ _).1 ha).1
      exact Or.inl (by omega)

theorem mem_cond (c : Cond) (m : Mode) (val delta d : K) (w : Int) (hw : 0 < w)
    (h4 : c = .dirichlet4th ∨ c = .neumann4th → 2 ≤ w)
    (a : Int × ((Int → K) → K)) (ha : a ∈ condLine c m val delta d w) :
    (0 ≤ a.1 ∧ a.1 < w) ∨ (m = .inner ∧ a.1 = -1) := by
  cases c
  · exact mem_dirichlet _ _ m val w hw a ha
  · cases m
    · exact mem_dirichlet first2 extrap2 .mid val w hw a ha
    · exact mem_dirichlet first2 extrap2 .outer val w hw a ha
    · simp only [condLine, dirichlet3DStag, if_true] at ha
      rcases List.mem_cons.1 ha with rfl | ha
      · exact Or.inr ⟨rfl, rfl⟩
      · rcases List.mem_append.1 ha with ha | ha
        · rw [List.mem_singleton] at ha; subst ha; exact Or.inl ⟨le_rfl, hw⟩
        · exact Or.inl ((mem_fill _ _ _ _).1 ha).1
  · exact mem_dirichlet _ _ m val w hw a ha
  · exact mem_dirichlet _ _ m val w hw a ha
  · have := h4 (Or.inl rfl)
    simp only [condLine, dirichlet4th, List.mem_cons, List.not_mem_nil, or_false] at ha
    rcases ha with rfl | rfl <;> refine Or.inl ⟨by simp, ?_⟩ <;> simp only <;> omega
  · cases m
    · simp only [condLine, neumannLine] at ha
      rcases List.mem_cons.1 ha with rfl | ha
      · exact Or.inl ⟨le_rfl, hw⟩
      · by_cases h2 : w = 2
        · rw [if_pos h2, List.mem_singleton] at ha; subst ha; exact Or.inl ⟨by simp, by simp only; omega⟩
        · rw [if_neg h2] at ha; cases ha
    · simp only [condLine, neumannLine] at ha
      rcases List.mem_cons.1 ha with rfl | ha
      · exact Or.inl ⟨le_rfl, hw⟩
      · have := ((mem_fill _ _ _ _).1 ha).1; exact Or.inl (by omega)
    · simp only [condLine, neumannLine] at ha
      rcases List.mem_cons.1 ha with rfl | ha
      · exact Or.inr ⟨rfl, rfl⟩
      · have := ((mem_fill _ _ _ _).1 ha).1; exact Or.inl (by omega)
  · have := h4 (Or.inr rfl)
    simp only [condLine, neumann4thLine, List.mem_cons, List.not_mem_nil, or_false] at ha
    rcases ha with rfl | rfl <;> refine Or.inl ⟨by simp, ?_⟩ <;> simp only <;> omega
  all_goals
    simp only [condLine, freeLine] at ha
    cases m <;> simp only at ha <;> have := ((mem_fill _ _ _ _).1 ha).1
    · exact Or.inl (by omega)
    · exact Or.inl (by omega)
    · by_cases h : a.1 = -1
      · exact Or.inr ⟨rfl, h⟩
      · exact Or.inl (by omega)

/-- **C31.** Applying a boundary condition changes no cell but the guard cells of its boundary and, for a field whose
points lie on the boundary itself (staggered, at a lower boundary), the last layer of the grid; all of them at z points of the
domain.  (The two fourth order conditions set two guard cells whatever the width, so they need two.) -/
theorem C31_frame (c : Cond) (r : BReg) (hlo : r.lo ≤ r.hi) (stagger : Bool) (loc : Loc) (pts : List (Int × Int))
    (hv : r.Visits r.next1d pts) (nz : Int) (gen d : Int × Int → Int → K) (f : Fld K)
    (h4 : c = .dirichlet4th ∨ c = .neumann4th → 2 ≤ r.width) (x y z : Int)
    (h : ¬ (0 ≤ z ∧ z < nz ∧ (r.Guard x y ∨ (mode stagger loc r.side = .inner ∧ r.Edge x y)))) :
    applyCond c r stagger loc pts nz gen d f x y z = f x y z := by
  obtain ⟨pts', hv', _, hg, he⟩ := C31_points r hlo
  rw [← visits_unique r _ _ _ hv hv'] at hg he
  refine lines_frame r.side pts nz _ f x y z ?_
  intro p hp h0 h1 a ha hxy
  have hw := ((mem_visits1d r hlo pts hv p).1 hp).1
  apply h
  refine ⟨h0, h1, ?_⟩
  rcases mem_cond c _ _ _ _ _ hw h4 a ha with hk | ⟨hm, hk⟩
  · exact Or.inl ((hg x y).2 ⟨p, hp, a.1, hk, hxy.1.symm, hxy.2.symm⟩)
  · rw [hk] at hxy
    exact Or.inr ⟨hm, (he x y hw).2 ⟨p, hp, hxy.1.symm, hxy.2.symm⟩⟩

/-- **C31 (violated).** With one guard cell the fourth order conditions assign outside the guard cells (beyond the array). -/
theorem C31_4thorder_one_guard_violated :
    ∃ (r : BReg) (pts : List (Int × Int)) (x : Int), r.width = 1 ∧ r.Visits r.next1d pts ∧ ¬ (0 ≤ x ∧ x < r.nx) ∧
      applyCond .dirichlet4th r false .centre pts 1 (fun _ _ => (1 : ℚ)) (fun _ _ => 1) (fun _ _ _ => 0) x 0 0 ≠ 0 := by
  refine ⟨⟨.xout, 0, 0, 1, 8, 1⟩, [(7, 0)], 8, rfl, ⟨1, by decide⟩, by decide, by decide +kernel⟩

/-! ## Exactness -/

/-- Where the boundary lies, in cell spacings, measured from one cell before the point numbered zero. -/
def off : Mode → K
  | .mid => 1/2
  | .outer => 0
  | .inner => 1

/-- Position of cell `j` of a boundary line (`h` the signed spacing outwards, `xb` the position of the boundary). -/
def bpos (m : Mode) (xb h : K) (j : Int) : K := xb + h * ((j : K) + off m)

/-- The last cell a condition leaves alone. -/
def lastFree : Mode → Int
  | .inner => -2
  | _ => -1

/-- If the values of a function satisfy every assignment of a line, and agree with the field inside, they are what the
condition produces. -/
theorem line_exact (s : Side) (pts : List (Int × Int)) (ht : Transverse s pts) (nz : Int)
    (body : Int × Int → Int → List (Int × ((Int → K) → K))) (hb : ∀ p z, GoodBody (body p z)) (f : Fld K)
    (p : Int × Int) (hp : p ∈ pts) (z : Int) (hz : 0 ≤ z ∧ z < nz) (Q : Int → K) (w : Int)
    (hlow : ∀ a ∈ body p z, -1 ≤ a.1) (hQ : ∀ a ∈ body p z, Q a.1 = a.2 Q)
    (hin : ∀ k < w, (∀ a ∈ body p z, a.1 ≠ k) → along s f p z k = Q k) (k : Int) (hk : k < w) :
    along s (applyLines s pts nz body f) p z k = Q k := by
  obtain ⟨h1, h2⟩ := lines_spec s pts ht nz body hb f p hp z hz
  have main : ∀ n : Nat, ∀ k : Int, k < -1 + n → k < w → along s (applyLines s pts nz body f) p z k = Q k := by
    intro n
    induction n with
    | zero =>
      intro k hk hw
      have : ∀ a ∈ body p z, a.1 ≠ k := fun a ha e => by have := hlow a ha; push_cast at hk; omega
      rw [h2 k this, hin k hw this]
    | succ n ih =>
      intro k hk hw
      by_cases hex : ∃ a ∈ body p z, a.1 = k
      · obtain ⟨a, ha, rfl⟩ := hex
        rw [h1 a ha, hQ a ha]
        exact (hb p z).causal a ha _ _ (fun j hj => ih j (by push_cast at hk; omega) (by omega))
      · push Not at hex
        rw [h2 k hex, hin k hw hex]
  exact main (k + 2).toNat k (by omega) hk

theorem cond_low (c : Cond) (m : Mode) (val delta d : K) (w : Int) (a : Int × ((Int → K) → K))
    (ha : a ∈ condLine c m val delta d w) : -1 ≤ a.1 := by
  have hd : ∀ (first : K → (Int → K) → K) (ex : Int → (Int → K) → K), a ∈ dirichletLine first ex m val w → -1 ≤ a.1 := by
    intro first ex ha
    unfold dirichletLine at ha
    cases m
    all_goals
      rcases List.mem_cons.1 ha with rfl | ha
      · simp
      · have := ((mem_fill _ _ _ _).1 ha).1; omega
  cases c
  · exact hd _ _ ha
  · cases m
    · exact hd first2 extrap2 ha
    · exact hd first2 extrap2 ha
    · simp only [condLine, dirichlet3DStag, if_true] at ha
      rcases List.mem_cons.1 ha with rfl | ha
      · simp
      · rcases List.mem_append.1 ha with ha | ha
        · rw [List.mem_singleton] at ha; subst ha; simp
        · have := ((mem_fill _ _ _ _).1 ha).1; omega
  · exact hd _ _ ha
  · exact hd _ _ ha
  · simp only [condLine, dirichlet4th, List.mem_cons, List.not_mem_nil, or_false] at ha
    rcases ha with rfl | rfl <;> simp
  · cases m
    · simp only [condLine, neumannLine] at ha
      rcases List.mem_cons.1 ha with rfl | ha
      · simp
      · by_cases h2 : w = 2
        · rw [if_pos h2, List.mem_singleton] at ha; subst ha; simp
        · rw [if_neg h2] at ha; cases ha
    all_goals
      simp only [condLine, neumannLine] at ha
      rcases List.mem_cons.1 ha with rfl | ha
      · simp
      · have := ((mem_fill _ _ _ _).1 ha).1; omega
  · simp only [condLine, neumann4thLine, List.mem_cons, List.not_mem_nil, or_false] at ha
    rcases ha with rfl | rfl <;> simp
  all_goals
    simp only [condLine, freeLine] at ha
    cases m <;> simp only at ha <;> have := ((mem_fill _ _ _ _).1 ha).1 <;> omega

/-- `line_exact` for a condition on a region. -/
theorem cond_exact (c : Cond) (hc : c ≠ .dirichletX3D) (r : BReg) (hlo : r.lo ≤ r.hi) (stagger : Bool) (loc : Loc)
    (pts : List (Int × Int)) (hv : r.Visits r.next1d pts) (nz : Int) (gen d : Int × Int → Int → K) (f : Fld K)
    (p : Int × Int) (hp : p ∈ pts) (z : Int) (hz : 0 ≤ z ∧ z < nz) (Q : Int → K) (w : Int)
    (hQ : ∀ a ∈ condLine c (mode stagger loc r.side) (gen p z) ((r.side.bx + r.side.by : Int) * d p z) (d p z) r.width,
      Q a.1 = a.2 Q)
    (hin : ∀ k < w, (∀ a ∈ condLine c (mode stagger loc r.side) (gen p z) ((r.side.bx + r.side.by : Int) * d p z) (d p z)
      r.width, a.1 ≠ k) → along r.side f p z k = Q k) (k : Int) (hk : k < w) :
    along r.side (applyCond c r stagger loc pts nz gen d f) p z k = Q k :=
  line_exact r.side pts (visits1d_transverse r hlo pts hv) nz
    (fun p z => condLine c (mode stagger loc r.side) (gen p z) ((r.side.bx + r.side.by : Int) * d p z) (d p z) r.width)
    (fun _ _ => good_cond c hc _ _ _ _ _) f p hp z hz Q w
    (fun a ha => cond_low c _ _ _ _ _ a ha) hQ hin k hk

theorem free_low (ex : Int → (Int → K) → K) (m : Mode) (w k : Int) (hk : k < w)
    (h : ∀ a ∈ freeLine ex m w, a.1 ≠ k) : k ≤ lastFree m := by
  by_contra hh
  unfold freeLine at h
  cases m <;> simp only [lastFree] at hh h
  all_goals exact h (k, ex k) ((mem_fill _ _ _ _).2 ⟨⟨by simp only; omega, hk⟩, rfl⟩) rfl

theorem dirichlet_low (first : K → (Int → K) → K) (ex : Int → (Int → K) → K) (m : Mode) (val : K) (w k : Int) (hk : k < w)
    (h : ∀ a ∈ dirichletLine first ex m val w, a.1 ≠ k) : k ≤ lastFree m := by
  by_contra hh
  unfold dirichletLine at h
  cases m <;> simp only [lastFree] at hh h
  · by_cases h0 : k = 0
    · exact h _ List.mem_cons_self h0.symm
    · exact h (k, ex k) (List.mem_cons_of_mem _ ((mem_fill _ _ _ _).2 ⟨⟨by simp only; omega, hk⟩, rfl⟩)) rfl
  · by_cases h0 : k = 0
    · exact h _ List.mem_cons_self h0.symm
    · exact h (k, ex k) (List.mem_cons_of_mem _ ((mem_fill _ _ _ _).2 ⟨⟨by simp only; omega, hk⟩, rfl⟩)) rfl
  · by_cases h0 : k = -1
    · exact h _ List.mem_cons_self h0.symm
    · exact h (k, ex k) (List.mem_cons_of_mem _ ((mem_fill _ _ _ _).2 ⟨⟨by simp only; omega, hk⟩, rfl⟩)) rfl

theorem dirichlet_sat (first : K → (Int → K) → K) (ex : Int → (Int → K) → K) (m : Mode) (val : K) (w : Int) (Q : Int → K)
    (h0 : m = .mid → Q 0 = first val Q) (h1 : m = .outer → Q 0 = val) (h2 : m = .inner → Q (-1) = val)
    (hx : ∀ i, Q i = ex i Q) : ∀ a ∈ dirichletLine first ex m val w, Q a.1 = a.2 Q := by
  intro a ha
  unfold dirichletLine at ha
  cases m
  all_goals
    rcases List.mem_cons.1 ha with rfl | ha
    · first | exact h0 rfl | exact h1 rfl | exact h2 rfl
    · rw [((mem_fill _ _ _ _).1 ha).2]; exact hx _

theorem ex2_poly (P : K[X]) (hP : P.natDegree ≤ 1) (m : Mode) (xb h : K) (i : Int) :
    P.eval (bpos m xb h i) = extrap2 i (fun j => P.eval (bpos m xb h j)) := by
  simp only [extrap2, bpos, eval5 P (show P.natDegree ≤ 5 by omega), coeff_zero_of hP (show 1 < 2 by omega),
    coeff_zero_of hP (show 1 < 3 by omega), coeff_zero_of hP (show 1 < 4 by omega),
    coeff_zero_of hP (show 1 < 5 by omega)]
  push_cast
  ring

theorem ex3_poly (P : K[X]) (hP : P.natDegree ≤ 2) (m : Mode) (xb h : K) (i : Int) :
    P.eval (bpos m xb h i) = extrap3 i (fun j => P.eval (bpos m xb h j)) := by
  simp only [extrap3, bpos, eval5 P (show P.natDegree ≤ 5 by omega), 
    coeff_zero_of hP (show 2 < 3 by omega), coeff_zero_of hP (show 2 < 4 by omega),
    coeff_zero_of hP (show 2 < 5 by omega)]
  push_cast
  ring

theorem ex4_poly (P : K[X]) (hP : P.natDegree ≤ 3) (m : Mode) (xb h : K) (i : Int) :
    P.eval (bpos m xb h i) = extrap4 i (fun j => P.eval (bpos m xb h j)) := by
  simp only [extrap4, bpos, eval5 P (show P.natDegree ≤ 5 by omega), coeff_zero_of hP (show 3 < 4 by omega),
    coeff_zero_of hP (show 3 < 5 by omega)]
  push_cast
  ring

/-- The degree up to which a Dirichlet condition is exact. -/
def dirichletDegree : Cond → Option Nat
  | .dirichlet | .dirichletX3D => some 1
  | .dirichletO3 => some 2
  | .dirichletO4 => some 3
  | _ => none

/-- **C31.** The Dirichlet conditions of second, third and fourth order: if the field is a polynomial of degree at most
one, two or three along a line through the boundary and the condition's value is the polynomial's value at the boundary, then
every guard cell (and the cell on the boundary, if there is one) receives the polynomial's value; for every staggering, any
number of guard cells, and every boundary. -/
theorem C31_dirichlet_exact [CharZero K] (c : Cond) (deg : Nat) (hc : dirichletDegree c = some deg) (r : BReg)
    (hlo : r.lo ≤ r.hi) (stagger : Bool) (loc : Loc) (pts : List (Int × Int)) (hv : r.Visits r.next1d pts) (nz : Int)
    (gen d : Int × Int → Int → K) (f : Fld K) (p : Int × Int) (hp : p ∈ pts) (z : Int) (hz : 0 ≤ z ∧ z < nz)
    (P : K[X]) (hP : P.natDegree ≤ deg) (xb h : K) (hval : gen p z = P.eval xb)
    (hin : ∀ j ≤ lastFree (mode stagger loc r.side), along r.side f p z j = P.eval (bpos (mode stagger loc r.side) xb h j))
    (k : Int) (hk : k < r.width) :
    along r.side (applyCond c r stagger loc pts nz gen d f) p z k = P.eval (bpos (mode stagger loc r.side) xb h k) := by
  have h1 : mode stagger loc r.side = .outer → P.eval (bpos (mode stagger loc r.side) xb h 0) = gen p z := by
    intro e; rw [e, hval]; simp [bpos, off]
  have h2 : mode stagger loc r.side = .inner → P.eval (bpos (mode stagger loc r.side) xb h (-1)) = gen p z := by
    intro e; rw [e, hval]; simp [bpos, off]
  have D1 : P.natDegree ≤ 1 → along r.side (applyCond .dirichlet r stagger loc pts nz gen d f) p z k =
      P.eval (bpos (mode stagger loc r.side) xb h k) := by
    intro hP
    refine cond_exact .dirichlet (by decide) r hlo stagger loc pts hv nz gen d f p hp z hz (fun j => P.eval (bpos (mode stagger loc r.side) xb h j)) r.width ?_ ?_ k hk
    · refine dirichlet_sat first2 extrap2 _ _ _ _ ?_ h1 h2 (ex2_poly P hP _ xb h)
      intro e
      rw [hval]
      beta_reduce
      rw [e]
      simp only [first2, bpos, off, eval5 P (show P.natDegree ≤ 5 by omega), coeff_zero_of hP (show 1 < 2 by omega),
        coeff_zero_of hP (show 1 < 3 by omega), coeff_zero_of hP (show 1 < 4 by omega),
        coeff_zero_of hP (show 1 < 5 by omega)]
      push_cast
      field_simp
      ring
    · intro k hk hne
      exact hin k (dirichlet_low first2 extrap2 _ _ _ k hk hne)
  cases c <;> simp only [dirichletDegree, Option.some.injEq, reduceCtorEq] at hc <;> subst hc
  · exact D1 hP
  · rw [applyCond_x3D r stagger loc hlo pts hv]; exact D1 hP
  · refine cond_exact .dirichletO3 (by decide) r hlo stagger loc pts hv nz gen d f p hp z hz (fun j => P.eval (bpos (mode stagger loc r.side) xb h j)) r.width ?_ ?_ k hk
    · refine dirichlet_sat first3 extrap3 _ _ _ _ ?_ h1 h2 (ex3_poly P hP _ xb h)
      intro e
      rw [hval]
      beta_reduce
      rw [e]
      simp only [first3, bpos, off, eval5 P (show P.natDegree ≤ 5 by omega), coeff_zero_of hP (show 2 < 3 by omega),
        coeff_zero_of hP (show 2 < 4 by omega), coeff_zero_of hP (show 2 < 5 by omega)]
      push_cast
      field_simp
      ring
    · intro k hk hne
      exact hin k (dirichlet_low first3 extrap3 _ _ _ k hk hne)
  · refine cond_exact .dirichletO4 (by decide) r hlo stagger loc pts hv nz gen d f p hp z hz (fun j => P.eval (bpos (mode stagger loc r.side) xb h j)) r.width ?_ ?_ k hk
    · refine dirichlet_sat first4 extrap4 _ _ _ _ ?_ h1 h2 (ex4_poly P hP _ xb h)
      intro e
      rw [hval]
      beta_reduce
      rw [e]
      simp only [first4, bpos, off, eval5 P (show P.natDegree ≤ 5 by omega), coeff_zero_of hP (show 3 < 4 by omega),
        coeff_zero_of hP (show 3 < 5 by omega)]
      push_cast
      field_simp
      ring
    · intro k hk hne
      exact hin k (dirichlet_low first4 extrap4 _ _ _ k hk hne)

/-- Non-vacuity: three guard cells at an outer X boundary, fourth order, `x ^ 3`. -/
example : ∃ pts, (⟨.xout, 0, 1, 3, 12, 2⟩ : BReg).Visits (⟨.xout, 0, 1, 3, 12, 2⟩ : BReg).next1d pts ∧ (9, 1) ∈ pts ∧
    dirichletDegree .dirichletO4 = some 3 ∧
    (∀ j ≤ lastFree (mode false .centre .xout), along .xout (fun x _ _ => ((x : ℚ) - 17/2) ^ 3) (9, 1) 0 j =
      (X ^ 3 : ℚ[X]).eval (bpos (mode false .centre .xout) 0 1 j)) ∧
    ∃ k : Int, k < 3 ∧ (X ^ 3 : ℚ[X]).eval (bpos (mode false .centre .xout) 0 1 k) ≠ 0 := by
  refine ⟨_, visits1d _ (by decide), ?_, rfl, ?_, 0, by decide, ?_⟩
  · decide
  · intro j _
    simp only [along, Side.bx, eval_pow, eval_X, bpos, mode, off, Bool.false_eq_true, if_false]
    push_cast
    ring
  · simp only [eval_pow, eval_X, bpos, mode, off, Bool.false_eq_true, if_false]
    norm_num

/-- **C31.** The value imposed by the Dirichlet conditions, for any field whatever: the interpolant of second, third or
fourth order through the guard cell and the cells inside takes the given value at the boundary (the cell on the boundary has
the value itself if the field is staggered), and the guard cells beyond continue that interpolant (its second, third, fourth
differences vanish). -/
theorem C31_dirichlet_value [CharZero K] (c : Cond) (r : BReg) (hlo : r.lo ≤ r.hi) (stagger : Bool) (loc : Loc)
    (pts : List (Int × Int)) (hv : r.Visits r.next1d pts) (nz : Int) (gen d : Int × Int → Int → K) (f : Fld K)
    (p : Int × Int) (hp : p ∈ pts) (z : Int) (hz : 0 ≤ z ∧ z < nz) :
    let L := along r.side (applyCond c r stagger loc pts nz gen d f) p z
    let m := mode stagger loc r.side
    ((c = .dirichlet ∨ c = .dirichletX3D ∨ c = .dirichletO3 ∨ c = .dirichletO4) →
      (m = .outer → L 0 = gen p z) ∧ (m = .inner → L (-1) = gen p z)) ∧
    ((c = .dirichlet ∨ c = .dirichletX3D) → m = .mid → (L 0 + L (-1)) / 2 = gen p z) ∧
    (c = .dirichletO3 → m = .mid → (3 * L 0 + 6 * L (-1) - L (-2)) / 8 = gen p z) ∧
    (c = .dirichletO4 → m = .mid → (5 * L 0 + 15 * L (-1) - 5 * L (-2) + L (-3)) / 16 = gen p z) ∧
    (∀ k, k < r.width → (if m = .inner then 0 else 1) ≤ k →
      ((c = .dirichlet ∨ c = .dirichletX3D) → L k - 2 * L (k - 1) + L (k - 2) = 0) ∧
      (c = .dirichletO3 → L k - 3 * L (k - 1) + 3 * L (k - 2) - L (k - 3) = 0) ∧
      (c = .dirichletO4 → L k - 4 * L (k - 1) + 6 * L (k - 2) - 4 * L (k - 3) + L (k - 4) = 0)) := by
  intro L m
  have hx3 : c = .dirichletX3D → L = along r.side (applyCond .dirichlet r stagger loc pts nz gen d f) p z := by
    intro e; simp only [L]; rw [e, applyCond_x3D r stagger loc hlo pts hv]
  have gen_eq : ∀ c' : Cond, c' ≠ .dirichletX3D →
      L = along r.side (applyCond c' r stagger loc pts nz gen d f) p z →
      ∀ a ∈ condLine c' m (gen p z) ((r.side.bx + r.side.by : Int) * d p z) (d p z) r.width, L a.1 = a.2 L := by
    intro c' hc' hL a ha
    rw [hL]
    exact (lines_spec r.side pts (visits1d_transverse r hlo pts hv) nz
      (fun p z => condLine c' (mode stagger loc r.side) (gen p z) ((r.side.bx + r.side.by : Int) * d p z) (d p z) r.width)
      (fun _ _ => good_cond c' hc' _ _ _ _ _) f p hp z hz).1 a ha
  have G1 : (c = .dirichlet ∨ c = .dirichletX3D) → ∀ a ∈ dirichletLine first2 extrap2 m (gen p z) r.width, L a.1 = a.2 L := by
    intro h
    rcases h with rfl | h
    · exact gen_eq .dirichlet (by decide) rfl
    · exact gen_eq .dirichlet (by decide) (hx3 h)
  have G2 : c = .dirichletO3 → ∀ a ∈ dirichletLine first3 extrap3 m (gen p z) r.width, L a.1 = a.2 L := by
    rintro rfl; exact gen_eq .dirichletO3 (by decide) rfl
  have G3 : c = .dirichletO4 → ∀ a ∈ dirichletLine first4 extrap4 m (gen p z) r.width, L a.1 = a.2 L := by
    rintro rfl; exact gen_eq .dirichletO4 (by decide) rfl
  have outerv : ∀ (first : K → (Int → K) → K) (ex : Int → (Int → K) → K),
      (∀ a ∈ dirichletLine first ex m (gen p z) r.width, L a.1 = a.2 L) →
      (m = .outer → L 0 = gen p z) ∧ (m = .inner → L (-1) = gen p z) := by
    intro first ex h
    constructor
    · intro e; rw [e] at h; exact h _ List.mem_cons_self
    · intro e; rw [e] at h; exact h _ List.mem_cons_self
  have far : ∀ (first : K → (Int → K) → K) (ex : Int → (Int → K) → K),
      (∀ a ∈ dirichletLine first ex m (gen p z) r.width, L a.1 = a.2 L) →
      ∀ k, k < r.width → (if m = .inner then 0 else 1) ≤ k → L k = ex k L := by
    intro first ex h k hk hk'
    refine h (k, ex k) ?_
    unfold dirichletLine
    generalize m = m' at hk'
    cases m'
    all_goals
      refine List.mem_cons_of_mem _ ((mem_fill _ _ _ _).2 ⟨⟨?_, hk⟩, rfl⟩)
      simpa using hk'
  refine ⟨?_, ?_, ?_, ?_, ?_⟩
  · rintro (h | h | h | h)
    · exact outerv _ _ (G1 (Or.inl h))
    · exact outerv _ _ (G1 (Or.inr h))
    · exact outerv _ _ (G2 h)
    · exact outerv _ _ (G3 h)
  · intro h e
    have := G1 h
    rw [e] at this
    have := this (0, first2 (gen p z)) List.mem_cons_self
    simp only [first2] at this
    rw [this]; ring
  · intro h e
    have := G2 h
    rw [e] at this
    have := this (0, first3 (gen p z)) List.mem_cons_self
    simp only [first3] at this
    rw [this]; field_simp; ring
  · intro h e
    have := G3 h
    rw [e] at this
    have := this (0, first4 (gen p z)) List.mem_cons_self
    simp only [first4] at this
    rw [this]; field_simp; ring
  · intro k hk hk'
    refine ⟨fun h => ?_, fun h => ?_, fun h => ?_⟩
    · have := far _ _ (G1 h) k hk hk'
      simp only [extrap2] at this
      rw [this]; ring
    · have := far _ _ (G2 h) k hk hk'
      simp only [extrap3] at this
      rw [this]; ring
    · have := far _ _ (G3 h) k hk hk'
      simp only [extrap4] at this
      rw [this]; ring

/-- **C31.** The free conditions of second and third order continue polynomials of degree one and two into every guard
cell (and onto the cell on the boundary of a staggered field). -/
theorem C31_free_exact (c : Cond) (deg : Nat) (hc : (c = .freeO2 ∧ deg = 1) ∨ (c = .freeO3 ∧ deg = 2)) (r : BReg)
    (hlo : r.lo ≤ r.hi) (stagger : Bool) (loc : Loc) (pts : List (Int × Int)) (hv : r.Visits r.next1d pts) (nz : Int)
    (gen d : Int × Int → Int → K) (f : Fld K) (p : Int × Int) (hp : p ∈ pts) (z : Int) (hz : 0 ≤ z ∧ z < nz)
    (P : K[X]) (hP : P.natDegree ≤ deg) (xb h : K)
    (hin : ∀ j ≤ lastFree (mode stagger loc r.side), along r.side f p z j = P.eval (bpos (mode stagger loc r.side) xb h j))
    (k : Int) (hk : k < r.width) :
    along r.side (applyCond c r stagger loc pts nz gen d f) p z k = P.eval (bpos (mode stagger loc r.side) xb h k) := by
  rcases hc with ⟨rfl, rfl⟩ | ⟨rfl, rfl⟩
  · refine cond_exact .freeO2 (by decide) r hlo stagger loc pts hv nz gen d f p hp z hz
      (fun j => P.eval (bpos (mode stagger loc r.side) xb h j)) r.width ?_ ?_ k hk
    · intro a ha
      have e : a.2 = extrap2 a.1 := by
        simp only [condLine, freeLine] at ha
        generalize mode stagger loc r.side = m at ha
        cases m <;> exact ((mem_fill _ _ _ _).1 ha).2
      rw [e]
      exact ex2_poly P hP _ xb h a.1
    · intro k hk hne
      exact hin k (free_low extrap2 _ _ k hk hne)
  · refine cond_exact .freeO3 (by decide) r hlo stagger loc pts hv nz gen d f p hp z hz
      (fun j => P.eval (bpos (mode stagger loc r.side) xb h j)) r.width ?_ ?_ k hk
    · intro a ha
      have e : a.2 = extrap3 a.1 := by
        simp only [condLine, freeLine] at ha
        generalize mode stagger loc r.side = m at ha
        cases m <;> exact ((mem_fill _ _ _ _).1 ha).2
      rw [e]
      exact ex3_poly P hP _ xb h a.1
    · intro k hk hne
      exact hin k (free_low extrap3 _ _ k hk hne)

end Verif.Num
