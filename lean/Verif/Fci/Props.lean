/-
C70, lemmas: the field line maps and the parallel boundary regions.
-/
import Verif.Fci.Model
import Verif.Mesh.GFieldProps
import Mathlib.Tactic.FieldSimp
import Mathlib.Tactic.Ring
import Mathlib.Tactic.Linarith
import Mathlib.Tactic.LinearCombination
import Mathlib.Data.List.Nodup
import Mathlib.Data.List.Pairwise

namespace Verif.Fci
open Verif.GField (rng loop3 mem_rng mem_loop3)

variable {K : Type} [Field K] [LinearOrder K] [IsStrictOrderedRing K]

/-! ## Specification -/

/-- The field line from `p` ends inside the domain. -/
def Inside (g : Grid) (m : Line K) (p : Pt) : Prop := (g.xstart : K) ≤ m.xt p ∧ m.xt p ≤ g.xend

/-- `p` is a point of the interior. -/
def Interior (g : Grid) (p : Pt) : Prop :=
  (g.xstart ≤ p.x ∧ p.x ≤ g.xend) ∧ (g.ystart ≤ p.y ∧ p.y ≤ g.yend) ∧ 0 ≤ p.z ∧ p.z < g.nz

/-! ## The interior -/

theorem mem_interior {g : Grid} {p : Pt} : p ∈ g.interior ↔ Interior g p := by
  unfold Grid.interior Interior
  simp only [List.mem_map, mem_loop3]
  constructor
  · rintro ⟨q, h, rfl⟩; dsimp only; omega
  · intro h
    refine ⟨(p.x - g.xstart, p.y - g.ystart, p.z), by dsimp only; omega, ?_⟩
    obtain ⟨x, y, z⟩ := p
    simp only [Pt.mk.injEq]; dsimp only at h; refine ⟨?_, ?_, trivial⟩ <;> omega

theorem rng_nodup (n : Int) : (rng n).Nodup := by
  unfold rng
  exact List.Nodup.map (fun a b h => by exact_mod_cast h) List.nodup_range

theorem loop3_nodup (a b c : Int) : (loop3 a b c).Nodup := by
  unfold loop3
  rw [List.nodup_flatMap]
  constructor
  · intro x _
    rw [List.nodup_flatMap]
    constructor
    · intro y _
      exact List.Nodup.map (fun z z' h => by simp only [Prod.mk.injEq, true_and] at h; exact h) (rng_nodup c)
    · refine (rng_nodup b).imp ?_
      intro y y' hne q h1 h2
      simp only [List.mem_map] at h1 h2
      obtain ⟨z, _, rfl⟩ := h1
      obtain ⟨z', _, e⟩ := h2
      simp only [Prod.mk.injEq] at e
      exact hne e.2.1.symm
  · refine (rng_nodup a).imp ?_
    intro x x' hne q h1 h2
    simp only [List.mem_flatMap, List.mem_map] at h1 h2
    obtain ⟨y, _, z, _, rfl⟩ := h1
    obtain ⟨y', _, z', _, e⟩ := h2
    simp only [Prod.mk.injEq] at e
    exact hne e.1.symm

theorem interior_nodup (g : Grid) : g.interior.Nodup := by
  unfold Grid.interior
  refine List.Nodup.map ?_ (loop3_nodup _ _ _)
  rintro ⟨a, b, c⟩ ⟨a', b', c'⟩ h
  simp only [Pt.mk.injEq] at h
  simp only [Prod.mk.injEq]; omega

/-! ## One map -/

open Classical in
/-- The points whose line leaves, on the side the code calls inner. -/
noncomputable def leaveIn (g : Grid) (m : Line K) : List Pt :=
  g.interior.filter fun p => decide (¬ Inside g m p ∧ m.xt p < 0)

open Classical in
/-- The points whose line leaves, on the side the code calls outer. -/
noncomputable def leaveOut (g : Grid) (m : Line K) : List Pt :=
  g.interior.filter fun p => decide (¬ Inside g m p ∧ ¬ m.xt p < 0)

open Classical in
theorem build_eq (g : Grid) (geo : Geo K) (m : Line K) (o : Int) (inner outer : List (BPoint K)) :
    (build g geo m o inner outer).inner = inner ++ (leaveIn g m).map (record g geo m o) ∧
    (build g geo m o inner outer).outer = outer ++ (leaveOut g m).map (record g geo m o) ∧
    ∀ p, (build g geo m o inner outer).mask p = decide (p ∈ g.interior ∧ ¬ Inside g m p) := by
  unfold build leaveIn leaveOut
  have key : ∀ (l : List Pt) (s : St K),
      (l.foldl (step g geo m o) s).inner =
        s.inner ++ (l.filter fun p => decide (¬ Inside g m p ∧ m.xt p < 0)).map (record g geo m o) ∧
      (l.foldl (step g geo m o) s).outer =
        s.outer ++ (l.filter fun p => decide (¬ Inside g m p ∧ ¬ m.xt p < 0)).map (record g geo m o) ∧
      ∀ p, (l.foldl (step g geo m o) s).mask p = (decide (p ∈ l ∧ ¬ Inside g m p) || s.mask p) := by
    intro l
    induction l with
    | nil => intro s; simp
    | cons a l ih =>
      intro s
      rw [List.foldl_cons]
      obtain ⟨i1, i2, i3⟩ := ih (step g geo m o s a)
      rw [i1, i2]
      by_cases hi : Inside g m a
      · have e : step g geo m o s a = s := by unfold step; rw [if_pos (show m.xt a ≥ g.xstart ∧ m.xt a ≤ g.xend from hi)]
        rw [e] at i3 ⊢
        refine ⟨by simp [hi], by simp [hi], ?_⟩
        intro p; rw [i3]
        congr 1
        rw [decide_eq_decide]
        constructor
        · rintro ⟨h1, h2⟩; exact ⟨List.mem_cons_of_mem _ h1, h2⟩
        · rintro ⟨h1, h2⟩
          rcases List.mem_cons.mp h1 with rfl | h1
          · exact absurd hi h2
          · exact ⟨h1, h2⟩
      · have hm : ∀ p, (step g geo m o s a).mask p = if p = a then true else s.mask p := by
          intro p; unfold step; rw [if_neg (show ¬ (m.xt a ≥ g.xstart ∧ m.xt a ≤ g.xend) from hi)]; dsimp only; split <;> rfl
        have hmask : ∀ p, (decide (p ∈ l ∧ ¬ Inside g m p) || (step g geo m o s a).mask p) =
            (decide (p ∈ a :: l ∧ ¬ Inside g m p) || s.mask p) := by
          intro p
          rw [hm]
          by_cases ha : p = a
          · subst ha; simp [hi]
          · simp [ha]
        by_cases hx : m.xt a < 0
        · have e : (step g geo m o s a).inner = s.inner ++ [record g geo m o a] ∧ (step g geo m o s a).outer = s.outer := by
            unfold step; rw [if_neg (show ¬ (m.xt a ≥ g.xstart ∧ m.xt a ≤ g.xend) from hi)]; dsimp only; rw [if_pos hx]; exact ⟨rfl, rfl⟩
          refine ⟨by rw [e.1]; simp [hi, hx], by rw [e.2]; simp [hx], ?_⟩
          intro p; rw [i3]; exact hmask p
        · have e : (step g geo m o s a).inner = s.inner ∧ (step g geo m o s a).outer = s.outer ++ [record g geo m o a] := by
            unfold step; rw [if_neg (show ¬ (m.xt a ≥ g.xstart ∧ m.xt a ≤ g.xend) from hi)]; dsimp only; rw [if_neg hx]; exact ⟨rfl, rfl⟩
          refine ⟨by rw [e.1]; simp [hx], ?_, ?_⟩
          · rw [e.2]
            have : decide (¬ Inside g m a ∧ ¬ m.xt a < 0) = true := by simp only [decide_eq_true_eq]; exact ⟨hi, hx⟩
            rw [List.filter_cons, if_pos this]; simp
          · intro p; rw [i3]; exact hmask p
  obtain ⟨a, b, c⟩ := key g.interior ⟨fun _ => false, inner, outer⟩
  refine ⟨a, b, ?_⟩
  intro p; rw [c]; simp

theorem mem_leaveIn {g : Grid} {m : Line K} {p : Pt} : p ∈ leaveIn g m ↔ Interior g p ∧ ¬ Inside g m p ∧ m.xt p < 0 := by
  unfold leaveIn; simp only [List.mem_filter, mem_interior, decide_eq_true_eq]

theorem mem_leaveOut {g : Grid} {m : Line K} {p : Pt} :
    p ∈ leaveOut g m ↔ Interior g p ∧ ¬ Inside g m p ∧ ¬ m.xt p < 0 := by
  unfold leaveOut; simp only [List.mem_filter, mem_interior, decide_eq_true_eq]

theorem leaveIn_nodup (g : Grid) (m : Line K) : (leaveIn g m).Nodup := by
  unfold leaveIn; exact (interior_nodup g).filter _

theorem leaveOut_nodup (g : Grid) (m : Line K) : (leaveOut g m).Nodup := by
  unfold leaveOut; exact (interior_nodup g).filter _

/-! ## The transform -/

open Classical in
theorem construct_one (g : Grid) (geo : Geo K) (lines : Int → Line K) (h : g.ystart = 1) :
    (construct g geo lines).fwdIn = (leaveIn g (lines 1)).map (record g geo (lines 1) 1) ∧
    (construct g geo lines).fwdOut = (leaveOut g (lines 1)).map (record g geo (lines 1) 1) ∧
    (construct g geo lines).bwdIn = (leaveIn g (lines (-1))).map (record g geo (lines (-1)) (-1)) ∧
    (construct g geo lines).bwdOut = (leaveOut g (lines (-1))).map (record g geo (lines (-1)) (-1)) ∧
    (∀ o, o = 1 ∨ o = -1 → ∀ p, (construct g geo lines).mask o p = decide (p ∈ g.interior ∧ ¬ Inside g (lines o) p)) := by
  have e : construct g geo lines = addMaps g geo lines ⟨[], [], [], [], fun _ _ => false⟩ 1 := by
    unfold construct; rw [h]; rfl
  rw [e]
  obtain ⟨a1, a2, a3⟩ := build_eq g geo (lines 1) 1 [] []
  obtain ⟨b1, b2, b3⟩ := build_eq g geo (lines (-1)) (-1) [] []
  refine ⟨a1, a2, b1, b2, ?_⟩
  rintro o (rfl | rfl) p
  · exact a3 p
  · exact b3 p

open Classical in
theorem construct_two (g : Grid) (geo : Geo K) (lines : Int → Line K) (h : g.ystart = 2) :
    (construct g geo lines).fwdIn = (leaveIn g (lines 1)).map (record g geo (lines 1) 1) ++
      (leaveIn g (lines 2)).map (record g geo (lines 2) 2) ∧
    (construct g geo lines).fwdOut = (leaveOut g (lines 1)).map (record g geo (lines 1) 1) ++
      (leaveOut g (lines 2)).map (record g geo (lines 2) 2) ∧
    (construct g geo lines).bwdIn = (leaveIn g (lines (-1))).map (record g geo (lines (-1)) (-1)) ++
      (leaveIn g (lines (-2))).map (record g geo (lines (-2)) (-2)) ∧
    (construct g geo lines).bwdOut = (leaveOut g (lines (-1))).map (record g geo (lines (-1)) (-1)) ++
      (leaveOut g (lines (-2))).map (record g geo (lines (-2)) (-2)) ∧
    (∀ o, o = 1 ∨ o = -1 ∨ o = 2 ∨ o = -2 → ∀ p,
      (construct g geo lines).mask o p = decide (p ∈ g.interior ∧ ¬ Inside g (lines o) p)) := by
  have e : construct g geo lines =
      addMaps g geo lines (addMaps g geo lines ⟨[], [], [], [], fun _ _ => false⟩ 1) 2 := by
    unfold construct; rw [h]; rfl
  rw [e]
  obtain ⟨a1, a2, a3⟩ := build_eq g geo (lines 1) 1 [] []
  obtain ⟨b1, b2, b3⟩ := build_eq g geo (lines (-1)) (-1) [] []
  have c := build_eq g geo (lines 2) 2 (build g geo (lines 1) 1 [] []).inner (build g geo (lines 1) 1 [] []).outer
  have d := build_eq g geo (lines (-2)) (-2) (build g geo (lines (-1)) (-1) [] []).inner
    (build g geo (lines (-1)) (-1) [] []).outer
  rw [a1, a2] at c
  rw [b1, b2] at d
  unfold addMaps
  dsimp only
  rw [a1, a2, b1, b2]
  refine ⟨c.1, c.2.1, d.1, d.2.1, ?_⟩
  rintro o (rfl | rfl | rfl | rfl) p
  · exact a3 p
  · exact b3 p
  · exact c.2.2 p
  · exact d.2.2 p

/-! ## Applying a condition -/

theorem next_next (p : Pt) (d : Int) : (p.next d).next (-d) = p := by
  obtain ⟨x, y, z⟩ := p; unfold Pt.next; simp only [Pt.mk.injEq]; refine ⟨trivial, ?_, trivial⟩; omega

theorem next_inj {p q : Pt} {d : Int} (h : p.next d = q.next d) : p = q := by
  rw [← next_next p d, ← next_next q d, h]

theorem put_same (s : Slices K) (o : Int) (q : Pt) (v : K) : put s o q v o q = v := by unfold put; rw [if_pos ⟨rfl, rfl⟩]

/-- The value depends on the slices only through the opposite one. -/
theorem value_congr (op : Op) (src : Src K) (dy f : Pt → K) (dir : Int) (s s' : Slices K) (h : s (-dir) = s' (-dir))
    (b : BPoint K) : op.value src dy f dir s b = op.value src dy f dir s' b := by
  cases op <;> unfold Op.value <;> dsimp only
  · rw [h]
  · rw [h]

theorem apply_other (op : Op) (src : Src K) (dy f : Pt → K) (dir o : Int) (ho : o ≠ dir) :
    ∀ (bs : List (BPoint K)) (s : Slices K), op.apply src dy f dir bs s o = s o := by
  intro bs
  induction bs with
  | nil => intro s; rfl
  | cons b bs ih =>
    intro s
    unfold Op.apply
    rw [List.foldl_cons]
    refine (ih _).trans ?_
    funext q; unfold put; rw [if_neg (fun h => ho h.1)]

theorem apply_eq (op : Op) (src : Src K) (dy f : Pt → K) (dir : Int) (hd : dir ≠ 0) (q : Pt) (v : K) :
    ∀ (bs : List (BPoint K)) (s : Slices K), (∀ b ∈ bs, b.p.next dir = q → op.value src dy f dir s b = v) →
      (s dir q = v ∨ ∃ b ∈ bs, b.p.next dir = q) → op.apply src dy f dir bs s dir q = v := by
  intro bs
  induction bs with
  | nil => intro s _ h; rcases h with h | ⟨b, hb, _⟩; exacts [h, absurd hb (by simp)]
  | cons b bs ih =>
    intro s hc h
    unfold Op.apply
    rw [List.foldl_cons]
    have hopp : ∀ v' q', put s dir q' v' (-dir) = s (-dir) := by
      intro v' q'; funext r; unfold put; rw [if_neg (fun h => by omega)]
    apply ih
    · intro b' hb' e
      rw [value_congr op src dy f dir _ s (hopp _ _)]
      exact hc b' (List.mem_cons_of_mem _ hb') e
    · by_cases e : b.p.next dir = q
      · left; rw [e, put_same]; exact hc b List.mem_cons_self e
      · rcases h with h | ⟨b', hb', e'⟩
        · left; unfold put; rw [if_neg (fun h => e h.2.symm)]; exact h
        · right
          rcases List.mem_cons.mp hb' with rfl | hb'
          · exact absurd e' e
          · exact ⟨b', hb', e'⟩

theorem apply_none (op : Op) (src : Src K) (dy f : Pt → K) (dir : Int) (q : Pt) :
    ∀ (bs : List (BPoint K)) (s : Slices K), (∀ b ∈ bs, b.p.next dir ≠ q) → op.apply src dy f dir bs s dir q = s dir q := by
  intro bs
  induction bs with
  | nil => intro s _; rfl
  | cons b bs ih =>
    intro s h
    unfold Op.apply
    rw [List.foldl_cons]
    refine (ih _ fun b' hb' => h b' (List.mem_cons_of_mem _ hb')).trans ?_
    unfold put; rw [if_neg (fun e => h b List.mem_cons_self e.2.symm)]

theorem record_p (g : Grid) (geo : Geo K) (m : Line K) (o : Int) (p : Pt) : (record g geo m o p).p = p := rfl

end Verif.Fci
