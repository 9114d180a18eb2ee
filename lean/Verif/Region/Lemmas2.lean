import Verif.Region.Lemmas
import Mathlib.Data.List.Perm.Basic
/-! Helper lemmas for region operations (C05, C06). -/

namespace Verif.Region
open Region

theorem stdSort_perm (l : List Ind) : (stdSort l).Perm l := List.mergeSort_perm _ _

theorem stdSort_sorted (l : List Ind) : (stdSort l).Pairwise (fun a b => a.ind ≤ b.ind) := by
  have := List.pairwise_mergeSort (le := fun (a b : Ind) => decide (a.ind ≤ b.ind))
    (by intro a b c h1 h2; simp at *; omega) (by intro a b; simp; omega) l
  exact this.imp (by intro a b h; simpa using h)

theorem stdContains_sort (l : List Ind) (v : Ind) :
    stdContains (stdSort l) v = true ↔ v.ind ∈ l.map Ind.ind := by
  unfold stdContains
  simp only [List.any_eq_true, decide_eq_true_eq, List.mem_map]
  constructor
  · rintro ⟨i, hi, e⟩; exact ⟨i, (stdSort_perm l).mem_iff.1 hi, e⟩
  · rintro ⟨i, hi, e⟩; exact ⟨i, (stdSort_perm l).mem_iff.2 hi, e⟩

theorem stdUnique_subset (l : List Ind) : ∀ i ∈ stdUnique l, i ∈ l := by
  fun_induction stdUnique l with
  | case1 => simp
  | case2 a => simp
  | case3 a b rest h ih =>
    intro i hi
    have := ih i hi
    simp at this ⊢; tauto
  | case4 a b rest h ih =>
    intro i hi
    simp only [List.mem_cons] at hi
    rcases hi with rfl | hi
    · simp
    · have := ih i hi
      simp at this ⊢; tauto

theorem stdUnique_covers (l : List Ind) : ∀ i ∈ l, ∃ j ∈ stdUnique l, j.ind = i.ind := by
  fun_induction stdUnique l with
  | case1 => simp
  | case2 a => simp
  | case3 a b rest h ih =>
    intro i hi
    simp only [List.mem_cons] at hi
    rcases hi with rfl | rfl | hi
    · exact ih i (by simp)
    · obtain ⟨j, hj, e⟩ := ih a (by simp); exact ⟨j, hj, e.trans h⟩
    · exact ih i (by simp [hi])
  | case4 a b rest h ih =>
    intro i hi
    simp only [List.mem_cons] at hi
    rcases hi with rfl | hi
    · exact ⟨i, by simp, rfl⟩
    · obtain ⟨j, hj, e⟩ := ih i (by simpa using hi)
      exact ⟨j, by simp [hj], e⟩

theorem stdUnique_strict (l : List Ind) (h : l.Pairwise (fun a b => a.ind ≤ b.ind)) :
    (stdUnique l).Pairwise (fun a b => a.ind < b.ind) := by
  fun_induction stdUnique l with
  | case1 => simp
  | case2 a => simp
  | case3 a b rest e ih =>
    apply ih
    simp only [List.pairwise_cons, List.mem_cons] at h ⊢
    exact ⟨fun x hx => h.1 x (Or.inr hx), h.2.2⟩
  | case4 a b rest e ih =>
    rw [List.pairwise_cons]
    rw [List.pairwise_cons] at h
    refine ⟨?_, ih h.2⟩
    intro x hx
    have hx' := stdUnique_subset _ x hx
    have hab := h.1 b (by simp)
    have hb := h.2
    rw [List.pairwise_cons] at hb
    simp only [List.mem_cons] at hx'
    rcases hx' with rfl | hx'
    · omega
    · have := hb.1 x hx'; omega

/-- Specification of a periodic roll of a flat index. -/
def rollSpec (s p i : Int) : Int := p * (i / p) + (i + s) % p

theorem shiftIndex_eq {s p i : Int} (hs : 0 ≤ s) (hp : 0 < p) (hi : 0 ≤ i) :
    shiftIndex s p i = rollSpec s p i := by
  unfold shiftIndex rollSpec
  rw [Int.tmod_eq_emod_of_nonneg (by omega), Int.tdiv_eq_ediv_of_nonneg hi]
  omega

theorem rollSpec_zero (p i : Int) : rollSpec 0 p i = i := by
  unfold rollSpec; rw [Int.add_zero]; exact Int.mul_ediv_add_emod i p

theorem rollSpec_one (s i : Int) : rollSpec s 1 i = i := by
  unfold rollSpec; simp

theorem rollSpec_add_period (s p i : Int) : rollSpec (p + s) p i = rollSpec s p i := by
  unfold rollSpec
  rw [show i + (p + s) = i + s + p by omega, Int.add_emod_right]

theorem rollSpec_ediv {s p i : Int} (hp : 0 < p) : rollSpec s p i / p = i / p := by
  unfold rollSpec
  rw [Int.add_comm, Int.add_mul_ediv_left _ _ (by omega),
    Int.ediv_eq_zero_of_lt (Int.emod_nonneg _ (by omega)) (Int.emod_lt_of_pos _ hp)]
  omega

theorem rollSpec_emod {s p i : Int} (_hp : 0 < p) : rollSpec s p i % p = (i + s) % p := by
  unfold rollSpec
  rw [Int.mul_add_emod_self_left, Int.emod_emod_of_dvd _ (dvd_refl p)]

theorem rollSpec_nonneg {s p i : Int} (hp : 0 < p) (hi : 0 ≤ i) : 0 ≤ rollSpec s p i := by
  unfold rollSpec
  have := Int.mul_nonneg (show 0 ≤ p by omega) (Int.ediv_nonneg hi (show 0 ≤ p by omega))
  have := Int.emod_nonneg (i + s) (show p ≠ 0 by omega)
  omega

theorem rollSpec_comp {s t p i : Int} (hp : 0 < p) :
    rollSpec t p (rollSpec s p i) = rollSpec (s + t) p i := by
  have h1 := rollSpec_ediv (s := s) (i := i) hp
  have h2 := rollSpec_emod (s := s) (i := i) hp
  generalize hj : rollSpec s p i = j at h1 h2
  unfold rollSpec
  rw [h1, Int.add_emod j t, h2, ← Int.add_emod, Int.add_assoc]

theorem periodicShift_indices (r : Region) (s p : Int) (hp : 0 < p) (h0 : ∀ i ∈ r.indices, 0 ≤ i.ind) :
    ∃ r', r.periodicShift s p = .ok r' ∧
      r'.indices = r.indices.map (fun i => { i with ind := rollSpec s p i.ind }) ∧
      r'.ny = r.ny ∧ r'.nz = r.nz ∧
      (r' = r ∨ r'.blocks = getContiguousBlocks maxRegionBlockSize r'.indices) := by
  induction hn : (-s).toNat using Nat.strongRecOn generalizing s with
  | _ n ih =>
    rw [periodicShift]
    split
    · rename_i h
      refine ⟨r, rfl, ?_, rfl, rfl, Or.inl rfl⟩
      conv_lhs => rw [← List.map_id r.indices]
      apply List.map_congr_left
      intro i _
      rcases h with rfl | rfl
      · rw [rollSpec_zero]; rfl
      · rw [rollSpec_one]; rfl
    · split
      · rename_i hs
        obtain ⟨r', h1, h2, h3⟩ := ih (-(p + s)).toNat (by omega) (p + s) rfl
        refine ⟨r', h1, ?_, h3⟩
        rw [h2]
        apply List.map_congr_left
        intro i _
        rw [rollSpec_add_period]
      · rw [if_neg (by omega)]
        refine ⟨_, rfl, ?_, rfl, rfl, Or.inr rfl⟩
        simp only [setIndices]
        apply List.map_congr_left
        intro i hi
        rw [shiftIndex_eq (by omega) hp (h0 i hi)]

/-- The region object built for a box. -/
def boxRegion (xs xe ys ye zs ze ny nz maxb : Int) : Region :=
  let l := xBox ny nz xs (xe - xs + 1).toNat ys (ye - ys + 1).toNat zs (ze - zs + 1).toNat
  { indices := l, blocks := getContiguousBlocks maxb l, ny := ny, nz := nz }

theorem ofBox_eq (xs xe ys ye zs ze ny nz maxb : Int) (hny : 0 < ny) (hnz : 0 < nz) (hmax : 0 < maxb) :
    Region.ofBox .ind3D xs xe ys ye zs ze ny nz maxb = .ok (boxRegion xs xe ys ye zs ze ny nz maxb) := by
  unfold Region.ofBox
  rw [createRegionIndices_eq xs xe ys ye zs ze ny nz hny hnz]
  simp [hmax, boxRegion]

end Verif.Region
