import Mathlib.Algebra.BigOperators.Intervals
import Mathlib.Algebra.BigOperators.Ring.Finset
import Mathlib.Data.Int.Interval
import Mathlib.Tactic.Ring
import Mathlib.Tactic.LinearCombination
import Mathlib.Tactic.FieldSimp
import Verif.Num.Bndry

/-!
# C46: the Arakawa form of the Poisson bracket

Model of `bracket(…, BRACKET_ARAKAWA)` and `bracket(…, BRACKET_ARAKAWA_OLD)` in `src/mesh/difops.cxx` L638-862, 864-1148.

Simplifications: `BoutReal` is a field; the metric has no Z dependence (`BOUT_USE_METRIC_3D` off); every `y` is treated
separately, so a field is a function of `(x, z)` (for a `Field2D`, of `x`); `BOUT_FOR` is its loop in serial order (each point of
the result is written by one iteration only); the early return for `GlobalNx == 1 || GlobalNz == 1` is in `bracket33`.
A read `F[jz]` outside `0 <= jz < LocalNz` is the outcome `none`.
-/
namespace Verif.Num

variable {K : Type} [Field K]

/-- difops.cxx:1022-1089 (and 722-766): the loop over z split in three: `(jz, jzp, jzm)` in the order of execution. -/
def zSplit (ncz : Int) : List (Int × Int × Int) :=
  (0, 1, ncz - 1) :: ((ints 1 (ncz - 1)).map (fun jz => (jz, jz + 1, jz - 1)) ++ [(ncz - 1, 0, ncz - 2)])

/-- difops.cxx:1119-1123 (and 787-791): `(jz, jzp, jzm)` of the single loop. -/
def zWhole (ncz : Int) : List (Int × Int × Int) :=
  (ints 0 ncz).map (fun jz => (jz, if jz + 1 < ncz then jz + 1 else 0, if jz - 1 ≥ 0 then jz - 1 else ncz - 1))

/-- difops.cxx:1031-1043 (and the three copies): `Jpp + Jpx + Jxp`. -/
def arakawaTerms (F G : Int → Int → K) (jx jz jzp jzm : Int) : K :=
  let xm := jx - 1
  let xp := jx + 1
  let Jpp := (F jx jzp - F jx jzm) * (G xp jz - G xm jz) - (F xp jz - F xm jz) * (G jx jzp - G jx jzm)
  let Jpx := G xp jz * (F xp jzp - F xp jzm) - G xm jz * (F xm jzp - F xm jzm) - G jx jzp * (F xp jzp - F xm jzp) +
    G jx jzm * (F xp jzm - F xm jzm)
  let Jxp := G xp jzp * (F jx jzp - F xp jz) - G xm jzm * (F xm jz - F jx jzm) - G xm jzp * (F jx jzp - F xm jz) +
    G xp jzm * (F xp jz - F jx jzm)
  Jpp + Jpx + Jxp

/-- difops.cxx:727-734 (and two copies): the terms for a `Field2D` `g`. -/
def arakawaTerms2 (f : Int → Int → K) (g : Int → K) (jx jzp jzm : Int) : K :=
  let gxm := g (jx - 1)
  let gc := g jx
  let gxp := g (jx + 1)
  let Jpp := 2 * (f jx jzp - f jx jzm) * (gxp - gxm)
  let Jpx := gxp * (f (jx + 1) jzp - f (jx + 1) jzm) - gxm * (f (jx - 1) jzp - f (jx - 1) jzm) +
    gc * (f (jx + 1) jzm - f (jx + 1) jzp - f (jx - 1) jzm + f (jx - 1) jzp)
  Jpp + Jpx

/-- difops.cxx:794-808: the terms for a `Field2D` `g` in `BRACKET_ARAKAWA_OLD`. -/
def arakawaTerms2Old (f : Int → Int → K) (g : Int → K) (jx jz jzp jzm : Int) : K :=
  let Jpp := (f jx jzp - f jx jzm) * (g (jx + 1) - g (jx - 1)) - (f (jx + 1) jz - f (jx - 1) jz) * (g jx - g jx)
  let Jpx := g (jx + 1) * (f (jx + 1) jzp - f (jx + 1) jzm) - g (jx - 1) * (f (jx - 1) jzp - f (jx - 1) jzm) -
    g jx * (f (jx + 1) jzp - f (jx - 1) jzp) + g jx * (f (jx + 1) jzm - f (jx - 1) jzm)
  let Jxp := g (jx + 1) * (f jx jzp - f (jx + 1) jz) - g (jx - 1) * (f (jx - 1) jz - f jx jzm) -
    g (jx - 1) * (f jx jzp - f (jx - 1) jz) + g (jx + 1) * (f (jx + 1) jz - f jx jzm)
  Jpp + Jpx + Jxp

/-- Are the z indices of an iteration inside the rows of the field? -/
def zInside (ncz : Int) (t : Int × Int × Int) : Bool :=
  decide ((0 ≤ t.1 ∧ t.1 < ncz) ∧ (0 ≤ t.2.1 ∧ t.2.1 < ncz) ∧ (0 ≤ t.2.2 ∧ t.2.2 < ncz))

/-- `result(jx, jz) = v`. -/
def set2 (r : Int → Int → K) (x z : Int) (v : K) : Int → Int → K := fun x' z' => if x' = x ∧ z' = z then v else r x' z'

/-- The loops over the interior points of one y: `term jx jz jzp jzm * spacingFactor` for every column and every `(jz, jzp, jzm)`
of the list; `none` on an access outside the rows. -/
def bracketLoop (zs : List (Int × Int × Int)) (xstart xend ncz : Int) (dx dz : Int → K)
    (term : Int → Int → Int → Int → K) (r : Int → Int → K) : Option (Int → Int → K) :=
  if zs.all (zInside ncz) then
    some ((ints xstart (xend + 1)).foldl (fun r jx =>
      zs.foldl (fun r t => set2 r jx t.1 (term jx t.1 t.2.1 t.2.2 * (1 / (12 * dz jx * dx jx)))) r) r)
  else none

/-- What the brackets read of the mesh. -/
structure Perp (K : Type) where
  xstart : Int
  xend : Int
  ncz : Int
  GlobalNx : Int
  GlobalNz : Int
  dx : Int → K
  dz : Int → K

/-- difops.cxx:864-885, 991-1091 `bracket(Field3D, Field3D, BRACKET_ARAKAWA)`; `r` is the unset result. -/
def bracket33 (M : Perp K) (f g : Int → Int → K) (r : Int → Int → K) : Option (Int → Int → K) :=
  if M.GlobalNx = 1 ∨ M.GlobalNz = 1 then some (fun _ _ => 0)
  else bracketLoop (zSplit M.ncz) M.xstart M.xend M.ncz M.dx M.dz (arakawaTerms f g) r

/-- difops.cxx:864-885, 1093-1148 `bracket(Field3D, Field3D, BRACKET_ARAKAWA_OLD)`. -/
def bracket33Old (M : Perp K) (f g : Int → Int → K) (r : Int → Int → K) : Option (Int → Int → K) :=
  if M.GlobalNx = 1 ∨ M.GlobalNz = 1 then some (fun _ _ => 0)
  else bracketLoop (zWhole M.ncz) M.xstart M.xend M.ncz M.dx M.dz (arakawaTerms f g) r

/-- difops.cxx:638-653, 701-772 `bracket(Field3D, Field2D, BRACKET_ARAKAWA)`. -/
def bracket32 (M : Perp K) (f : Int → Int → K) (g : Int → K) (r : Int → Int → K) : Option (Int → Int → K) :=
  bracketLoop (zSplit M.ncz) M.xstart M.xend M.ncz M.dx M.dz (fun jx _ jzp jzm => arakawaTerms2 f g jx jzp jzm) r

/-- difops.cxx:774-812 `bracket(Field3D, Field2D, BRACKET_ARAKAWA_OLD)`. -/
def bracket32Old (M : Perp K) (f : Int → Int → K) (g : Int → K) (r : Int → Int → K) : Option (Int → Int → K) :=
  bracketLoop (zWhole M.ncz) M.xstart M.xend M.ncz M.dx M.dz (arakawaTerms2Old f g) r

/-- difops.cxx:845-848 `bracket(Field2D, Field3D, BRACKET_ARAKAWA)`. -/
def bracket23 (M : Perp K) (f : Int → K) (g : Int → Int → K) (r : Int → Int → K) : Option (Int → Int → K) :=
  (bracket32 M g f r).map (fun h x z => -h x z)

/-! ## The loops -/

theorem mem_araInts (a b i : Int) : i ∈ ints a b ↔ a ≤ i ∧ i < b := by
  unfold ints
  simp only [List.mem_map, List.mem_range]
  constructor
  · rintro ⟨n, hn, rfl⟩; omega
  · intro h; exact ⟨(i - a).toNat, by omega, by omega⟩

theorem zInside_split {n : Int} (hn : 2 ≤ n) : (zSplit n).all (zInside n) = true := by
  rw [List.all_eq_true]
  intro t ht
  unfold zSplit at ht
  simp only [List.mem_cons, List.mem_append, List.mem_map, mem_araInts, List.not_mem_nil, or_false] at ht
  unfold zInside
  rw [decide_eq_true_eq]
  rcases ht with rfl | ⟨a, ha, rfl⟩ | rfl <;> simp only <;> omega

theorem zInside_whole {n : Int} (hn : 1 ≤ n) : (zWhole n).all (zInside n) = true := by
  rw [List.all_eq_true]
  intro t ht
  unfold zWhole at ht
  simp only [List.mem_map, mem_araInts] at ht
  obtain ⟨a, ha, rfl⟩ := ht
  unfold zInside
  rw [decide_eq_true_eq]
  dsimp only
  split_ifs <;> omega

/-- Writes that do not touch `(x, z)`. -/
theorem inner_other (zs : List (Int × Int × Int)) (v : Int × Int × Int → K) (jx x z : Int) (h : x = jx → ∀ t ∈ zs, t.1 ≠ z)
    (r : Int → Int → K) : zs.foldl (fun r t => set2 r jx t.1 (v t)) r x z = r x z := by
  induction zs generalizing r with
  | nil => rfl
  | cons t zs ih =>
    rw [List.foldl_cons, ih (fun e u hu => h e u (List.mem_cons_of_mem _ hu))]
    unfold set2
    rw [if_neg]
    rintro ⟨e, e'⟩
    exact h e t List.mem_cons_self e'.symm

/-- If every write to `(x, z)` in the list writes `w`, and there is one, the value is `w`. -/
theorem inner_value (zs : List (Int × Int × Int)) (v : Int × Int × Int → K) (x z : Int) (w : K)
    (hv : ∀ t ∈ zs, t.1 = z → v t = w) (hex : ∃ t ∈ zs, t.1 = z) (r : Int → Int → K) :
    zs.foldl (fun r t => set2 r x t.1 (v t)) r x z = w := by
  induction zs generalizing r with
  | nil => obtain ⟨t, ht, _⟩ := hex; exact absurd ht List.not_mem_nil
  | cons t zs ih =>
    rw [List.foldl_cons]
    by_cases hz : ∃ u ∈ zs, u.1 = z
    · exact ih (fun u hu => hv u (List.mem_cons_of_mem _ hu)) hz _
    · rw [inner_other zs v x x z (fun _ u hu e => hz ⟨u, hu, e⟩)]
      obtain ⟨u, hu, e⟩ := hex
      rcases List.mem_cons.1 hu with rfl | hu
      · unfold set2; rw [if_pos ⟨rfl, e.symm⟩]; exact hv _ List.mem_cons_self e
      · exact absurd ⟨u, hu, e⟩ hz

theorem outer_other (xs : List Int) (zs : List (Int × Int × Int)) (v : Int → Int × Int × Int → K) (x z : Int) (h : x ∉ xs)
    (r : Int → Int → K) :
    xs.foldl (fun r jx => zs.foldl (fun r t => set2 r jx t.1 (v jx t)) r) r x z = r x z := by
  induction xs generalizing r with
  | nil => rfl
  | cons a xs ih =>
    rw [List.foldl_cons, ih (fun hx => h (List.mem_cons_of_mem _ hx))]
    exact inner_other zs (v a) a x z (fun e => absurd (e ▸ List.mem_cons_self) h) r

theorem outer_value (xs : List Int) (zs : List (Int × Int × Int)) (v : Int → Int × Int × Int → K) (x z : Int) (w : K)
    (hx : x ∈ xs) (hv : ∀ t ∈ zs, t.1 = z → v x t = w) (hex : ∃ t ∈ zs, t.1 = z) (r : Int → Int → K) :
    xs.foldl (fun r jx => zs.foldl (fun r t => set2 r jx t.1 (v jx t)) r) r x z = w := by
  induction xs generalizing r with
  | nil => exact absurd hx List.not_mem_nil
  | cons a xs ih =>
    rw [List.foldl_cons]
    by_cases h : x ∈ xs
    · exact ih h _
    · rw [outer_other xs zs v x z h]
      rcases List.mem_cons.1 hx with rfl | hx
      · exact inner_value zs (v x) x z w hv hex r
      · exact absurd hx h

/-- The neighbours of `z` around the torus. -/
def zNext (n z : Int) : Int := (z + 1) % n
/-- The neighbour below. -/
def zPrev (n z : Int) : Int := (z - 1) % n

theorem zNext_eq {n z : Int} (hz : 0 ≤ z) (hn : z < n) : zNext n z = if z + 1 < n then z + 1 else 0 := by
  unfold zNext
  split_ifs with h
  · exact Int.emod_eq_of_lt (by omega) h
  · have : z + 1 = n := by omega
    rw [this, Int.emod_self]

theorem zPrev_eq {n z : Int} (hz : 0 ≤ z) (hn : z < n) : zPrev n z = if z - 1 ≥ 0 then z - 1 else n - 1 := by
  unfold zPrev
  split_ifs with h
  · exact Int.emod_eq_of_lt h (by omega)
  · have : z - 1 = -1 := by omega
    rw [this, ← Int.add_mul_emod_self_left (-1) n 1]
    have h2 : -1 + n * 1 = n - 1 := by omega
    rw [h2]
    exact Int.emod_eq_of_lt (by omega) (by omega)

theorem zSplit_spec {n : Int} (hn : 2 ≤ n) :
    (∀ t ∈ zSplit n, t = (t.1, zNext n t.1, zPrev n t.1) ∧ 0 ≤ t.1 ∧ t.1 < n) ∧ ∀ z, 0 ≤ z → z < n → ∃ t ∈ zSplit n, t.1 = z := by
  constructor
  · intro t ht
    unfold zSplit at ht
    simp only [List.mem_cons, List.mem_append, List.mem_map, mem_araInts, List.not_mem_nil, or_false] at ht
    rcases ht with rfl | ⟨a, ha, rfl⟩ | rfl
    · refine ⟨?_, by simp, by simp; omega⟩
      rw [zNext_eq (by simp) (by simp; omega), zPrev_eq (by simp) (by simp; omega)]
      simp only [Prod.mk.injEq, true_and]
      split_ifs <;> omega
    · refine ⟨?_, by simp; omega, by simp; omega⟩
      rw [zNext_eq (by simp; omega) (by simp; omega), zPrev_eq (by simp; omega) (by simp; omega)]
      simp only [Prod.mk.injEq, true_and]
      split_ifs <;> omega
    · refine ⟨?_, by simp; omega, by simp⟩
      rw [zNext_eq (by simp; omega) (by simp), zPrev_eq (by simp; omega) (by simp)]
      simp only [Prod.mk.injEq, true_and]
      split_ifs <;> omega
  · intro z hz hz'
    unfold zSplit
    simp only [List.mem_cons, List.mem_append, List.mem_map, mem_araInts, List.not_mem_nil, or_false]
    by_cases h0 : z = 0
    · exact ⟨_, Or.inl rfl, h0.symm⟩
    · by_cases h1 : z = n - 1
      · exact ⟨_, Or.inr (Or.inr rfl), h1.symm⟩
      · exact ⟨(z, z + 1, z - 1), Or.inr (Or.inl ⟨z, by omega, rfl⟩), rfl⟩

theorem zWhole_spec {n : Int} :
    (∀ t ∈ zWhole n, t = (t.1, zNext n t.1, zPrev n t.1) ∧ 0 ≤ t.1 ∧ t.1 < n) ∧ ∀ z, 0 ≤ z → z < n → ∃ t ∈ zWhole n, t.1 = z := by
  constructor
  · intro t ht
    unfold zWhole at ht
    simp only [List.mem_map, mem_araInts] at ht
    obtain ⟨a, ha, rfl⟩ := ht
    dsimp only
    rw [zNext_eq ha.1 ha.2, zPrev_eq ha.1 ha.2]
    exact ⟨rfl, ha⟩
  · intro z hz hz'
    unfold zWhole
    exact ⟨_, List.mem_map.2 ⟨z, (mem_araInts _ _ _).2 ⟨hz, hz'⟩, rfl⟩, rfl⟩

/-- What a loop leaves at each point. -/
theorem bracketLoop_value (zs : List (Int × Int × Int)) (xstart xend n : Int) (dx dz : Int → K) (term : Int → Int → Int → Int → K)
    (r : Int → Int → K) (hin : zs.all (zInside n) = true)
    (hs : (∀ t ∈ zs, t = (t.1, zNext n t.1, zPrev n t.1) ∧ 0 ≤ t.1 ∧ t.1 < n) ∧ ∀ z, 0 ≤ z → z < n → ∃ t ∈ zs, t.1 = z) :
    ∃ h, bracketLoop zs xstart xend n dx dz term r = some h ∧
      (∀ x z, xstart ≤ x → x ≤ xend → 0 ≤ z → z < n →
        h x z = term x z (zNext n z) (zPrev n z) * (1 / (12 * dz x * dx x))) ∧
      ∀ x z, ¬ (xstart ≤ x ∧ x ≤ xend ∧ 0 ≤ z ∧ z < n) → h x z = r x z := by
  unfold bracketLoop
  rw [if_pos hin]
  refine ⟨_, rfl, ?_, ?_⟩
  · intro x z h1 h2 h3 h4
    refine outer_value _ zs (fun jx t => term jx t.1 t.2.1 t.2.2 * (1 / (12 * dz jx * dx jx))) x z _
      ((mem_araInts _ _ _).2 ⟨h1, by omega⟩) ?_ (hs.2 z h3 h4) r
    intro t ht e
    have := (hs.1 t ht).1
    rw [e] at this
    rw [this]
  · intro x z h
    by_cases hx : x ∈ ints xstart (xend + 1)
    · have hx' := (mem_araInts _ _ _).1 hx
      have hz : ∀ t ∈ zs, t.1 ≠ z := by
        intro t ht e
        have := hs.1 t ht
        omega
      clear hs hin
      generalize ints xstart (xend + 1) = xs
      induction xs generalizing r with
      | nil => rfl
      | cons a xs ih =>
        rw [List.foldl_cons, ih]
        exact inner_other zs _ a x z (fun _ => hz) r
    · exact outer_other _ zs _ x z hx r

end Verif.Num
