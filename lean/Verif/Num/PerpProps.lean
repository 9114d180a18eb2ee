import Verif.Num.Perp

/-! # C29: conservation of the perpendicular finite volume operators -/
namespace Verif.Num

variable {K : Type} [Field K] [LinearOrder K] [IsStrictOrderedRing K]

open Finset

omit [LinearOrder K] [IsStrictOrderedRing K] in
/-- Fluxes of a chain of ranks telescope (cf. `line_telescope`). -/
theorem chain_telescope (p M : Nat) (hp : 0 < p) (g : Int) (w result Φ : Nat → Int → K)
    (hcell : ∀ r, r < p → ∀ j, g ≤ j → j ≤ g + M - 1 → result r j * w r j = Φ r j - Φ r (j - 1))
    (hface : ∀ r, r + 1 < p → Φ r (g + M - 1) = Φ (r + 1) (g - 1)) :
    ∑ r ∈ range p, ∑ j ∈ Icc g (g + M - 1), result r j * w r j = Φ (p - 1) (g + M - 1) - Φ 0 (g - 1) := by
  have h1 : ∀ r ∈ range p, ∑ j ∈ Icc g (g + M - 1), result r j * w r j = Φ r (g + M - 1) - Φ r (g - 1) := by
    intro r hr
    rw [← sum_Icc_sub (Φ r) g M]
    apply sum_congr rfl
    intro j hj
    rw [mem_Icc] at hj
    exact hcell r (mem_range.1 hr) j hj.1 hj.2
  rw [sum_congr rfl h1]
  clear h1
  obtain ⟨q, rfl⟩ : ∃ q, p = q + 1 := ⟨p - 1, by omega⟩
  rw [Nat.add_sub_cancel]
  have : ∀ n, n ≤ q → ∑ r ∈ range (n + 1), (Φ r (g + M - 1) - Φ r (g - 1)) = Φ n (g + M - 1) - Φ 0 (g - 1) := by
    intro n
    induction n with
    | zero => intro _; simp
    | succ n ih =>
      intro hn
      rw [sum_range_succ, ih (by omega), hface n (by omega)]
      ring
  exact this q le_rfl

/-! ## `Div_a_Grad_perp`, X part -/

/-- Specification: the diffusive flux `a J g11 df/dx` through the face between `i` and `i + 1`. -/
def perpXSpec (C : XLine K) (i : Int) : K :=
  (C.a i + C.a (i + 1)) / 2 * ((C.J i * C.g11 i + C.J (i + 1) * C.g11 (i + 1)) / 2) *
    ((C.f (i + 1) - C.f i) / ((C.dx i + C.dx (i + 1)) / 2))

theorem perpXFlux_eq (C : XLine K) (i : Int) : perpXFlux C i = perpXSpec C i := by
  unfold perpXFlux perpXSpec
  rw [div_div_eq_mul_div]
  ring

/-- The part of an X line seen by the rank whose local column `0` is column `off` of the line. -/
def XLine.shift (G : XLine K) (off : Int) : XLine K :=
  ⟨fun i => G.f (i + off), fun i => G.a (i + off), fun i => G.v (i + off), fun i => G.J (i + off),
    fun i => G.g11 (i + off), fun i => G.dx (i + off)⟩

theorem perpXSpec_shift (G : XLine K) (off i : Int) : perpXSpec (G.shift off) i = perpXSpec G (i + off) := by
  unfold perpXSpec XLine.shift
  simp only
  rw [show i + 1 + off = i + off + 1 by omega]

theorem divAGradPerpX_cell (xs xe : Int) (C : XLine K) (i : Int) (h0 : xs ≤ i) (h1 : i ≤ xe)
    (hV : C.dx i * C.J i ≠ 0) :
    divAGradPerpX xs xe C i * (C.dx i * C.J i) = perpXSpec C i - perpXSpec C (i - 1) := by
  have body := foldl_three (fun r j => addAt (addAt r j (perpXFlux C j / (C.dx j * C.J j))) (j + 1)
      (-(perpXFlux C j / (C.dx (j + 1) * C.J (j + 1)))))
    (fun j => perpXFlux C j / (C.dx j * C.J j)) (fun j => -(perpXFlux C j / (C.dx (j + 1) * C.J (j + 1))))
    (fun _ => 0) (by
      intro r j i
      simp only [addAt_apply]
      have : (if i = j - 1 then (0 : K) else 0) = 0 := ite_self _
      rw [this, add_zero, add_assoc])
  unfold divAGradPerpX
  simp only
  rw [body]
  simp only [ite_self, add_zero]
  rw [show i - 1 + 1 = i by omega, if_pos (by omega), if_pos (by omega), perpXFlux_eq, perpXFlux_eq,
    ← sub_eq_add_neg, ← sub_div, div_mul_cancel₀ _ hV]

/-- **C29.** The X part of `Div_a_Grad_perp` on an X line divided between `p` ranks with `M` columns each: the total of
`J dx * result` is the flux through the outermost faces; nothing is gained or lost between ranks. -/
theorem C29_div_a_grad_perp_x_conserves (p M : Nat) (hp : 0 < p) (g : Int) (G : XLine K)
    (hV : ∀ i, G.dx i * G.J i ≠ 0) :
    ∑ r ∈ range p, ∑ i ∈ Icc g (g + M - 1), divAGradPerpX g (g + M - 1) (G.shift (r * M - g)) i *
        (G.dx (i + (r * M - g)) * G.J (i + (r * M - g))) =
      perpXSpec G (p * M - 1) - perpXSpec G (-1) := by
  rw [chain_telescope p M hp g (fun r i => G.dx (i + (r * M - g)) * G.J (i + (r * M - g)))
    (fun r i => divAGradPerpX g (g + M - 1) (G.shift (r * M - g)) i)
    (fun r i => perpXSpec (G.shift (r * M - g)) i)]
  · have e1 : ((p - 1 : Nat) : Int) * M = p * M - M := by
      rw [show ((p - 1 : Nat) : Int) = p - 1 by omega]; rw [Int.sub_mul, Int.one_mul]
    rw [perpXSpec_shift, perpXSpec_shift, e1, show g + (M : Int) - 1 + (p * M - M - g) = p * M - 1 by omega]
    simp only [Nat.cast_zero, Int.zero_mul]
    rw [show g - 1 + (0 - g) = -1 by omega]
  · intro r _ i h0 h1
    exact divAGradPerpX_cell g (g + M - 1) (G.shift (r * M - g)) i h0 h1 (hV (i + (r * M - g)))
  · intro r hr
    have : ((r + 1 : Nat) : Int) * M = r * M + M := by push_cast; rw [Int.add_mul, Int.one_mul]
    simp only [perpXSpec_shift]
    rw [this, show g + (M : Int) - 1 + (r * M - g) = g - 1 + (r * M + M - g) by omega]

/-! ## Sums over any kind of index -/

omit [LinearOrder K] [IsStrictOrderedRing K] in
theorem addTo_apply {ι : Type} [DecidableEq ι] (r : ι → K) (j : ι) (x : K) (i : ι) :
    addTo r j x i = r i + if i = j then x else 0 := by
  unfold addTo; split_ifs <;> simp

omit [LinearOrder K] [IsStrictOrderedRing K] in
theorem foldl_contribG {ι : Type} (body : (ι → K) → ι → (ι → K)) (con : ι → ι → K)
    (h : ∀ r j i, body r j i = r i + con j i) (L : List ι) (r : ι → K) (i : ι) :
    (L.foldl body r) i = r i + (L.map (fun j => con j i)).sum := by
  induction L generalizing r with
  | nil => simp
  | cons x xs ih => rw [List.foldl_cons, ih, h]; simp [add_assoc]

omit [LinearOrder K] [IsStrictOrderedRing K] in
/-- In a loop over distinct points, only the pass for `i` writes `A` to point `i`. -/
theorem sum_single {ι : Type} [DecidableEq ι] (L : List ι) (hL : L.Nodup) (i : ι) (hi : i ∈ L) (A : ι → K) :
    (L.map (fun j => if i = j then A j else 0)).sum = A i := by
  rw [← List.sum_toFinset _ hL, Finset.sum_ite_eq, if_pos (List.mem_toFinset.2 hi)]

omit [LinearOrder K] [IsStrictOrderedRing K] in
/-- Only the pass for `back i` writes to point `i` through the neighbour map `next`. -/
theorem sum_back {ι : Type} [DecidableEq ι] (L : List ι) (hL : L.Nodup) (i : ι) (next back : ι → ι)
    (hb : back i ∈ L) (hn : next (back i) = i) (hinj : ∀ j ∈ L, next j = i → j = back i) (A : ι → K) :
    (L.map (fun j => if i = next j then A j else 0)).sum = A (back i) := by
  rw [← sum_single L hL (back i) hb A]
  congr 1
  apply List.map_congr_left
  intro j hj
  by_cases h : i = next j
  · rw [if_pos h, if_pos (hinj j hj h.symm).symm]
  · rw [if_neg h, if_neg]
    rintro rfl
    exact h hn.symm

theorem zp_lt {nz k : Nat} (hn : 0 < nz) : zp nz k < nz := Nat.mod_lt _ hn
theorem zm_lt {nz k : Nat} (hn : 0 < nz) : zm nz k < nz := Nat.mod_lt _ hn

theorem zp_zm {nz k : Nat} (hk : k < nz) : zp nz (zm nz k) = k := by
  unfold zp zm
  by_cases h : k = 0
  · subst h
    rw [Nat.zero_add, Nat.mod_eq_of_lt (show nz - 1 < nz by omega), Nat.sub_add_cancel (by omega), Nat.mod_self]
  · rw [show k + nz - 1 = (k - 1) + nz by omega, Nat.add_mod_right, Nat.mod_eq_of_lt (show k - 1 < nz by omega),
      Nat.sub_add_cancel (by omega), Nat.mod_eq_of_lt hk]

theorem zm_zp {nz k : Nat} (hk : k < nz) : zm nz (zp nz k) = k := by
  unfold zp zm
  by_cases h : k + 1 = nz
  · rw [h, Nat.mod_self, Nat.zero_add, Nat.mod_eq_of_lt (by omega)]; omega
  · rw [Nat.mod_eq_of_lt (show k + 1 < nz by omega), show k + 1 + nz - 1 = k + nz by omega, Nat.add_mod_right,
      Nat.mod_eq_of_lt hk]

omit [LinearOrder K] [IsStrictOrderedRing K] in
/-- A sum over a periodic direction does not change when its argument is shifted. -/
theorem sum_zm (nz : Nat) (Φ : Nat → K) : ∑ k ∈ range nz, Φ (zm nz k) = ∑ k ∈ range nz, Φ k := by
  rcases Nat.eq_zero_or_pos nz with h | h
  · subst h; simp
  · refine Finset.sum_bij' (fun k _ => zm nz k) (fun k _ => zp nz k) ?_ ?_ ?_ ?_ ?_
    · intro k _; exact mem_range.2 (zm_lt h)
    · intro k _; exact mem_range.2 (zp_lt h)
    · intro k hk; exact zp_zm (mem_range.1 hk)
    · intro k hk; exact zm_zp (mem_range.1 hk)
    · intro k _; rfl

/-! ## `Div_a_Grad_perp`, Y and Z parts -/

theorem mem_yzPoints (a b : Int) (nz : Nat) (j : Int) (k : Nat) :
    (j, k) ∈ yzPoints a b nz ↔ (a ≤ j ∧ j ≤ b) ∧ k < nz := by
  unfold yzPoints
  simp only [List.mem_flatMap, List.mem_map, List.mem_range, Prod.mk.injEq, mem_irange]
  constructor
  · rintro ⟨j', h1, k', h2, rfl, rfl⟩; exact ⟨h1, h2⟩
  · rintro ⟨h1, h2⟩; exact ⟨j, h1, k, h2, rfl, rfl⟩

theorem yzPoints_nodup (a b : Int) (nz : Nat) : (yzPoints a b nz).Nodup := by
  unfold yzPoints
  rw [List.nodup_flatMap]
  constructor
  · intro j _
    exact List.Nodup.map (fun x y h => by simpa using h) List.nodup_range
  · refine List.Pairwise.imp ?_ (irange_nodup a b)
    intro x y hxy
    rw [Function.onFun, List.disjoint_left]
    rintro ⟨u, v⟩ h1 h2
    simp only [List.mem_map, Prod.mk.injEq] at h1 h2
    obtain ⟨_, _, rfl, _⟩ := h1
    obtain ⟨_, _, h, _⟩ := h2
    exact hxy h.symm

theorem perpYDown_eq (nz : Nat) (S : YZ K) (j : Int) (k : Nat) : perpYDown nz S j k = perpYUp nz S (j - 1) k := by
  unfold perpYDown perpYUp
  simp only [sub_add_cancel]
  rw [add_comm (S.g_23 j k / _), add_comm (S.dz j k), add_comm (S.dy j k), add_comm (S.a j k),
    add_comm (S.J j k * S.g23 j k), show S.f j (zp nz k) - S.f j (zm nz k) + S.f (j - 1) (zp nz k) - S.f (j - 1) (zm nz k) =
      S.f (j - 1) (zp nz k) - S.f (j - 1) (zm nz k) + S.f j (zp nz k) - S.f j (zm nz k) by ring,
    add_comm (S.dy (j - 1) k)]

/-- **C29.** The Y and Z part of `Div_a_Grad_perp` in each cell is a sum of flux differences; the same function gives
the flux seen from the two sides of a face. -/
theorem C29_div_a_grad_perp_yz_cell (ystart yend : Int) (nz : Nat) (S : YZ K) (j : Int) (k : Nat)
    (h0 : ystart ≤ j) (h1 : j ≤ yend) (hk : k < nz) :
    divAGradPerpYZ ystart yend nz S (j, k) =
      (perpYUp nz S j k - perpYUp nz S (j - 1) k) / (S.dy j k * S.J j k) +
      (perpZ nz S j k - perpZ nz S j (zm nz k)) / (S.J j k * S.dz j k) := by
  have hn : 0 < nz := by omega
  have hb : ∀ (r : Int × Nat → K) (p i : Int × Nat), perpYZBody nz S r p i = r i +
      ((if i = p then (perpYUp nz S p.1 p.2 - perpYUp nz S (p.1 - 1) p.2) / (S.dy p.1 p.2 * S.J p.1 p.2) +
          perpZ nz S p.1 p.2 / (S.J p.1 p.2 * S.dz p.1 p.2) else 0) +
       (if i = (p.1, zp nz p.2) then
          -(perpZ nz S p.1 p.2 / (S.J p.1 (zp nz p.2) * S.dz p.1 (zp nz p.2))) else 0)) := by
    rintro r ⟨j', k'⟩ i
    unfold perpYZBody
    simp only [addTo_apply, perpYDown_eq]
    by_cases hi : i = (j', k') <;> simp only [hi, if_true, if_false] <;> split_ifs <;> ring
  unfold divAGradPerpYZ
  rw [foldl_contribG _ _ hb, zero_add, List.sum_map_add, sum_single _ (yzPoints_nodup ystart yend nz) (j, k)
    ((mem_yzPoints _ _ _ _ _).2 ⟨⟨h0, h1⟩, hk⟩)]
  have := sum_back (yzPoints ystart yend nz) (yzPoints_nodup ystart yend nz) (j, k)
    (fun q => (q.1, zp nz q.2)) (fun q => (q.1, zm nz q.2))
    ((mem_yzPoints _ _ _ _ _).2 ⟨⟨h0, h1⟩, zm_lt hn⟩) (by simp only [zp_zm hk])
    (by
      rintro ⟨j', k'⟩ hq hjk
      simp only [Prod.mk.injEq] at hjk ⊢
      have := ((mem_yzPoints _ _ _ _ _).1 hq).2
      exact ⟨hjk.1, by rw [← hjk.2, zm_zp this]⟩)
    (fun q => -(perpZ nz S q.1 q.2 / (S.J q.1 (zp nz q.2) * S.dz q.1 (zp nz q.2))))
  rw [this]
  simp only [zp_zm hk]
  rw [sub_div (perpZ nz S j k)]
  ring

/-- **C29.** With the usual grids (`dz` uniform, `dy` independent of Z) the total of `J dy * result` over the surface
is the Y flux through its two ends: the Z fluxes and the inner Y fluxes cancel. -/
theorem C29_div_a_grad_perp_yz_conserves (ystart : Int) (M nz : Nat) (S : YZ K) (dz : K)
    (hdz : ∀ j k, S.dz j k = dz) (dy : Int → K) (hdy : ∀ j k, S.dy j k = dy j)
    (hV : ∀ j k, dy j * S.J j k ≠ 0) :
    ∑ j ∈ Icc ystart (ystart + M - 1), ∑ k ∈ range nz,
        divAGradPerpYZ ystart (ystart + M - 1) nz S (j, k) * (dy j * S.J j k) =
      ∑ k ∈ range nz, (perpYUp nz S (ystart + M - 1) k - perpYUp nz S (ystart - 1) k) := by
  have h1 : ∀ j ∈ Icc ystart (ystart + M - 1), ∑ k ∈ range nz,
      divAGradPerpYZ ystart (ystart + M - 1) nz S (j, k) * (dy j * S.J j k) =
      ∑ k ∈ range nz, perpYUp nz S j k - ∑ k ∈ range nz, perpYUp nz S (j - 1) k := by
    intro j hj
    rw [mem_Icc] at hj
    have : ∀ k ∈ range nz, divAGradPerpYZ ystart (ystart + M - 1) nz S (j, k) * (dy j * S.J j k) =
        (perpYUp nz S j k - perpYUp nz S (j - 1) k) +
        (dy j / dz * perpZ nz S j k - dy j / dz * perpZ nz S j (zm nz k)) := by
      intro k hk
      rw [C29_div_a_grad_perp_yz_cell _ _ _ _ _ _ hj.1 hj.2 (mem_range.1 hk), add_mul, hdy,
        div_mul_cancel₀ _ (hV j k), hdz]
      congr 1
      have hJ : S.J j k ≠ 0 := right_ne_zero_of_mul (hV j k)
      rcases eq_or_ne dz 0 with hz | hz
      · simp [hz]
      · field_simp
    rw [sum_congr rfl this, sum_add_distrib, sum_sub_distrib, sum_sub_distrib,
      sum_zm nz (fun k => dy j / dz * perpZ nz S j k), sub_self, add_zero]
  rw [sum_congr rfl h1, sum_Icc_sub (fun j => ∑ k ∈ range nz, perpYUp nz S j k), sum_sub_distrib]

/-- **C29.** A constant `f` has no fluxes. -/
theorem C29_div_a_grad_perp_constant (xs xe : Int) (C : XLine K) (c : K) (hC : ∀ i, C.f i = c) (i : Int)
    (h0 : xs ≤ i) (h1 : i ≤ xe) (hV : C.dx i * C.J i ≠ 0) : divAGradPerpX xs xe C i = 0 := by
  have := divAGradPerpX_cell xs xe C i h0 h1 hV
  have e : ∀ i, perpXSpec C i = 0 := by intro i; unfold perpXSpec; simp [hC]
  rw [e, e, sub_zero] at this
  exact (mul_eq_zero.1 this).resolve_right hV

/-! ## `Div_f_v`, X part -/

/-- Specification: the upwind flux through a face with velocity (times Jacobian) `v`. -/
def upwindFlux (L R v : K) : K := if 0 < v then v * L else if v < 0 then v * R else 0

/-- Specification: velocity times Jacobian at the face between `i` and `i + 1`. -/
def faceV (C : XLine K) (i : Int) : K := (C.v i + C.v (i + 1)) / 2 * ((C.J i + C.J (i + 1)) / 2)

/-- The flux at an inner face: from the upwind side's edge value. -/
def fvInner (edges : K → K → K → Edges K) (C : XLine K) (i : Int) : K :=
  upwindFlux (edges (C.f i) (C.f (i - 1)) (C.f (i + 1))).R
    (edges (C.f (i + 1)) (C.f i) (C.f (i + 2))).L (faceV C i)

/-- The flux at the outer X boundary: out with the edge value, in with the boundary value. -/
def fvOuter (b : Bool) (edges : K → K → K → Edges K) (C : XLine K) (i : Int) : K :=
  if b then upwindFlux (edges (C.f i) (C.f (i - 1)) (C.f (i + 1))).R ((C.f i + C.f (i + 1)) / 2) (faceV C i) else 0

/-- The flux at the inner X boundary, the lower face of cell `i + 1`. -/
def fvInnerBndry (b : Bool) (edges : K → K → K → Edges K) (C : XLine K) (i : Int) : K :=
  if b then upwindFlux ((C.f i + C.f (i + 1)) / 2) (edges (C.f (i + 1)) (C.f i) (C.f (i + 2))).L (faceV C i) else 0

/-- Cell `i`'s share of the flux through its right face. -/
def shareR (R : XRank) (b : Bool) (edges : K → K → K → Edges K) (C : XLine K) (i : Int) : K :=
  if i = R.xend ∧ R.lastX = true then fvOuter b edges C i
  else if 0 < faceV C i then faceV C i * (edges (C.f i) (C.f (i - 1)) (C.f (i + 1))).R else 0

/-- Cell `i`'s share of the flux through its left face. -/
def shareL (R : XRank) (b : Bool) (edges : K → K → K → Edges K) (C : XLine K) (i : Int) : K :=
  if i = R.xstart ∧ R.firstX = true then fvInnerBndry b edges C (i - 1)
  else if faceV C (i - 1) < 0 then faceV C (i - 1) * (edges (C.f i) (C.f (i - 1)) (C.f (i + 1))).L else 0

theorem vRight_eq (C : XLine K) (i : Int) : vRight C i = faceV C i := by unfold vRight faceV; ring
theorem vLeft_eq (C : XLine K) (i : Int) : vLeft C i = faceV C (i - 1) := by
  unfold vLeft faceV; rw [sub_add_cancel]; ring

theorem fvRight_apply (R : XRank) (b : Bool) (edges : K → K → K → Edges K) (C : XLine K) (r : Int → K) (j i : Int) :
    fvRight R b edges C r j i = r i + ((if i = j then shareR R b edges C j / (C.dx j * C.J j) else 0) +
      (if i = j + 1 then -(shareR R b edges C j / (C.dx (j + 1) * C.J (j + 1))) else 0)) := by
  unfold fvRight shareR
  simp only [vRight_eq]
  by_cases hb : j = R.xend ∧ R.lastX = true
  · simp only [if_pos hb]
    cases b
    · simp [fvOuter]
    · have e : (if faceV C j > 0 then faceV C j * (edges (C.f j) (C.f (j - 1)) (C.f (j + 1))).R
          else faceV C j * (1/2) * (C.f (j + 1) + C.f j)) = fvOuter true edges C j := by
        unfold fvOuter upwindFlux
        rw [if_pos rfl]
        by_cases h1 : 0 < faceV C j
        · rw [if_pos h1, if_pos h1]
        · rw [if_neg h1, if_neg h1]
          by_cases h2 : faceV C j < 0
          · rw [if_pos h2]; ring
          · have : faceV C j = 0 := le_antisymm (not_lt.1 h1) (not_lt.1 h2)
            rw [if_neg h2, this]; ring
      simp only [if_true, e, addAt_apply, add_assoc]
  · simp only [if_neg hb]
    by_cases h1 : 0 < faceV C j
    · simp only [if_pos h1, gt_iff_lt, addAt_apply, add_assoc]
    · simp [if_neg h1]

theorem fvLeft_apply (R : XRank) (b : Bool) (edges : K → K → K → Edges K) (C : XLine K) (r : Int → K) (j i : Int) :
    fvLeft R b edges C r j i = r i + ((if i = j then -(shareL R b edges C j / (C.dx j * C.J j)) else 0) +
      (if i = j - 1 then shareL R b edges C j / (C.dx (j - 1) * C.J (j - 1)) else 0)) := by
  unfold fvLeft shareL
  simp only [vLeft_eq]
  by_cases hb : j = R.xstart ∧ R.firstX = true
  · simp only [if_pos hb]
    cases b
    · simp [fvInnerBndry]
    · have e : (if faceV C (j - 1) < 0 then faceV C (j - 1) * (edges (C.f j) (C.f (j - 1)) (C.f (j + 1))).L
          else faceV C (j - 1) * (1/2) * (C.f (j - 1) + C.f j)) = fvInnerBndry true edges C (j - 1) := by
        unfold fvInnerBndry upwindFlux
        rw [if_pos rfl, sub_add_cancel, show j - 1 + 2 = j + 1 by omega]
        by_cases h1 : faceV C (j - 1) < 0
        · rw [if_pos h1, if_neg (not_lt.2 h1.le), if_pos h1]
        · rw [if_neg h1, if_neg h1]
          by_cases h2 : 0 < faceV C (j - 1)
          · rw [if_pos h2]; ring
          · have : faceV C (j - 1) = 0 := le_antisymm (not_lt.1 h2) (not_lt.1 h1)
            rw [if_neg h2, this]; ring
      simp only [if_true, e, addAt_apply, add_assoc]
  · simp only [if_neg hb]
    by_cases h1 : faceV C (j - 1) < 0
    · simp only [if_pos h1, addAt_apply, add_assoc]
    · simp [if_neg h1]

/-- The local result, guard cells included. -/
theorem divFvXLocal_eq (R : XRank) (b : Bool) (edges : K → K → K → Edges K) (C : XLine K) (i : Int) :
    divFvXLocal R b edges C i =
      ((if R.xstart ≤ i ∧ i ≤ R.xend then shareR R b edges C i - shareL R b edges C i else 0) +
      (if R.xstart ≤ i - 1 ∧ i - 1 ≤ R.xend then -shareR R b edges C (i - 1) else 0) +
      (if R.xstart ≤ i + 1 ∧ i + 1 ≤ R.xend then shareL R b edges C (i + 1) else 0)) / (C.dx i * C.J i) := by
  unfold divFvXLocal
  rw [foldl_three (fun r i => fvLeft R b edges C (fvRight R b edges C r i) i)
    (fun j => (shareR R b edges C j - shareL R b edges C j) / (C.dx j * C.J j))
    (fun j => -(shareR R b edges C j / (C.dx (j + 1) * C.J (j + 1))))
    (fun j => shareL R b edges C j / (C.dx (j - 1) * C.J (j - 1)))]
  · rw [sub_add_cancel, add_sub_cancel_right]
    split_ifs <;> ring
  · intro r j i
    rw [fvLeft_apply, fvRight_apply, sub_div]
    split_ifs <;> ring

/-- Rank `r` of `p` on an X line of `p * M` columns with two guard cells. -/
def fvRank (p M r : Nat) : XRank := { xstart := 2, xend := M + 1, firstX := decide (r = 0), lastX := decide (r + 1 = p) }

/-- The X part of `Div_f_v` on every rank: the loop, then the exchange of fluxes. -/
def divFvX (p M : Nat) (b : Bool) (edges : K → K → K → Edges K) (G : XLine K) (r : Nat) : Option (Int → K) :=
  communicateFluxes p M 2 (fun r => divFvXLocal (fvRank p M r) b edges (G.shift (r * M - 2))) r

/-- The flux through the face between columns `x` and `x + 1` of the whole line. -/
def fvFace (N : Int) (b : Bool) (edges : K → K → K → Edges K) (G : XLine K) (x : Int) : K :=
  if x = N - 1 then fvOuter b edges G x else if x = -1 then fvInnerBndry b edges G x else fvInner edges G x

theorem faceV_shift (G : XLine K) (off i : Int) : faceV (G.shift off) i = faceV G (i + off) := by
  unfold faceV XLine.shift; simp only; rw [show i + 1 + off = i + off + 1 by omega]

/-- The shares of the two sides of an inner face add up to the upwind flux. -/
theorem share_add (edges : K → K → K → Edges K) (G : XLine K) (x : Int) :
    (if 0 < faceV G x then faceV G x * (edges (G.f x) (G.f (x - 1)) (G.f (x + 1))).R else 0) +
    (if faceV G x < 0 then faceV G x * (edges (G.f (x + 1)) (G.f x) (G.f (x + 2))).L else 0) = fvInner edges G x := by
  unfold fvInner upwindFlux
  by_cases h1 : 0 < faceV G x
  · rw [if_pos h1, if_pos h1, if_neg (not_lt.2 h1.le), add_zero]
  · rw [if_neg h1, if_neg h1, zero_add]

/-- The right share of local column `i` of rank `r` in terms of the whole line. -/
theorem shareR_global (p M r : Nat) (hr : r < p) (b : Bool) (edges : K → K → K → Edges K) (G : XLine K) (i : Int)
    (h0 : 2 ≤ i) (h1 : i ≤ M + 1) :
    shareR (fvRank p M r) b edges (G.shift (r * M - 2)) i =
      let x := i + (r * M - 2)
      if x = p * M - 1 then fvOuter b edges G x
      else if 0 < faceV G x then faceV G x * (edges (G.f x) (G.f (x - 1)) (G.f (x + 1))).R else 0 := by
  have hiff : (i = (fvRank p M r).xend ∧ (fvRank p M r).lastX = true) ↔ i + (r * M - 2) = (p : Int) * M - 1 := by
    simp only [fvRank, decide_eq_true_eq]
    constructor
    · rintro ⟨h, rfl⟩; push_cast; rw [Int.add_mul, Int.one_mul]; omega
    · intro h
      have hrp : r + 1 = p := by
        by_contra hne
        have := Int.mul_le_mul_of_nonneg_right (show (r : Int) + 1 + 1 ≤ p by omega) (show (0 : Int) ≤ M by omega)
        rw [Int.add_mul, Int.add_mul, Int.one_mul] at this
        omega
      refine ⟨?_, hrp⟩
      have : (p : Int) * M = r * M + M := by rw [← hrp]; push_cast; rw [Int.add_mul, Int.one_mul]
      omega
  have ef : ∀ d : Int, (G.shift (r * M - 2)).f (i + d) = G.f (i + (r * M - 2) + d) := by
    intro d; unfold XLine.shift; simp only; congr 1; omega
  have e0 := ef 0
  have e1 := ef 1
  have em := ef (-1)
  simp only [add_zero] at e0
  rw [show i + -1 = i - 1 by omega, show i + (↑r * ↑M - 2) + -1 = i + (↑r * ↑M - 2) - 1 by omega] at em
  unfold shareR
  simp only [faceV_shift]
  by_cases h : i + (r * M - 2) = (p : Int) * M - 1
  · rw [if_pos (hiff.2 h), if_pos h]
    unfold fvOuter
    rw [faceV_shift, e0, e1, em]
  · rw [if_neg (fun hh => h (hiff.1 hh)), if_neg h, e0, e1, em]

/-- The left share of local column `i` of rank `r` in terms of the whole line. -/
theorem shareL_global (p M r : Nat) (b : Bool) (edges : K → K → K → Edges K) (G : XLine K) (i : Int)
    (h0 : 2 ≤ i) (h1 : i ≤ M + 1) :
    shareL (fvRank p M r) b edges (G.shift (r * M - 2)) i =
      let x := i + (r * M - 2)
      if x = 0 then fvInnerBndry b edges G (x - 1)
      else if faceV G (x - 1) < 0 then faceV G (x - 1) * (edges (G.f x) (G.f (x - 1)) (G.f (x + 1))).L else 0 := by
  have hiff : (i = (fvRank p M r).xstart ∧ (fvRank p M r).firstX = true) ↔ i + (r * M - 2) = (0 : Int) := by
    simp only [fvRank, decide_eq_true_eq]
    constructor
    · rintro ⟨h, rfl⟩; simp only [Nat.cast_zero, Int.zero_mul]; omega
    · intro h
      have hr0 : r = 0 := by
        by_contra hne
        have := Int.mul_le_mul_of_nonneg_right (show (1 : Int) ≤ r by omega) (show (0 : Int) ≤ M by omega)
        rw [Int.one_mul] at this
        omega
      subst hr0
      simp only [Nat.cast_zero, Int.zero_mul] at h
      exact ⟨by omega, rfl⟩
  have ef : ∀ d : Int, (G.shift (r * M - 2)).f (i + d) = G.f (i + (r * M - 2) + d) := by
    intro d; unfold XLine.shift; simp only; congr 1; omega
  have e0 := ef 0
  have e1 := ef 1
  have em := ef (-1)
  simp only [add_zero] at e0
  rw [show i + -1 = i - 1 by omega, show i + (↑r * ↑M - 2) + -1 = i + (↑r * ↑M - 2) - 1 by omega] at em
  unfold shareL
  simp only [faceV_shift]
  rw [show i - 1 + (↑r * ↑M - 2) = i + (↑r * ↑M - 2) - 1 by omega]
  by_cases h : i + (r * M - 2) = (0 : Int)
  · rw [if_pos (hiff.2 h), if_pos h]
    unfold fvInnerBndry
    rw [faceV_shift, sub_add_cancel, show i - 1 + 2 = i + 1 by omega, e0, e1, em, sub_add_cancel,
      show i - 1 + (↑r * ↑M - 2) = i + (↑r * ↑M - 2) - 1 by omega,
      show i + (↑r * ↑M - 2) - 1 + 2 = i + (↑r * ↑M - 2) + 1 by omega]
  · rw [if_neg (fun hh => h (hiff.1 hh)), if_neg h, e0, e1, em]

/-- Share of column `x` of the whole line in the flux through its right face. -/
def gR (N : Int) (b : Bool) (edges : K → K → K → Edges K) (G : XLine K) (x : Int) : K :=
  if x = N - 1 then fvOuter b edges G x
  else if 0 < faceV G x then faceV G x * (edges (G.f x) (G.f (x - 1)) (G.f (x + 1))).R else 0

/-- Share of column `x` of the whole line in the flux through its left face. -/
def gL (b : Bool) (edges : K → K → K → Edges K) (G : XLine K) (x : Int) : K :=
  if x = 0 then fvInnerBndry b edges G (x - 1)
  else if faceV G (x - 1) < 0 then faceV G (x - 1) * (edges (G.f x) (G.f (x - 1)) (G.f (x + 1))).L else 0

theorem face_right (N : Int) (b : Bool) (edges : K → K → K → Edges K) (G : XLine K) (x : Int) (h0 : 0 ≤ x) :
    gR N b edges G x + (if x = N - 1 then 0 else gL b edges G (x + 1)) = fvFace N b edges G x := by
  unfold gR gL fvFace
  by_cases h : x = N - 1
  · rw [if_pos h, if_pos h, if_pos h, add_zero]
  · rw [if_neg h, if_neg h, if_neg h, if_neg (show ¬ x + 1 = 0 by omega), if_neg (show ¬ x = -1 by omega),
      add_sub_cancel_right,
      show x + 1 + 1 = x + 2 by omega, share_add]

theorem face_left (N : Int) (b : Bool) (edges : K → K → K → Edges K) (G : XLine K) (x : Int) (h0 : 0 ≤ x)
    (h1 : x < N) :
    gL b edges G x + (if x = 0 then 0 else gR N b edges G (x - 1)) = fvFace N b edges G (x - 1) := by
  unfold gR gL fvFace
  by_cases h : x = 0
  · rw [if_pos h, if_pos h, if_neg (by omega), if_pos (by omega), add_zero]
  · rw [if_neg h, if_neg h, if_neg (show ¬ x - 1 = N - 1 by omega), if_neg (show ¬ x - 1 = N - 1 by omega),
      if_neg (show ¬ x - 1 = -1 by omega), add_comm, sub_add_cancel]
    have := share_add edges G (x - 1)
    rw [sub_add_cancel, show x - 1 + 2 = x + 1 by omega] at this
    exact this

/-- **C29.** `Div_f_v` in X: on every rank, after the exchange of fluxes, each cell holds the difference of the upwind
fluxes through its two faces, a function of the whole line and the global column only. -/
theorem C29_div_f_v_x_cell (p M r : Nat) (hr : r < p) (hM : 0 < M) (b : Bool) (edges : K → K → K → Edges K)
    (G : XLine K) (hV : ∀ i, G.dx i * G.J i ≠ 0) :
    ∃ g, divFvX p M b edges G r = some g ∧ ∀ x : Int, r * M ≤ x → x < r * M + M →
      g (x - (r * M - 2)) * (G.dx x * G.J x) = fvFace (p * M) b edges G x - fvFace (p * M) b edges G (x - 1) := by
  have hrM : (r : Int) * M + M ≤ p * M := by
    have := Int.mul_le_mul_of_nonneg_right (show (r : Int) + 1 ≤ p by omega) (show (0 : Int) ≤ M by omega)
    rwa [Int.add_mul, Int.one_mul] at this
  have hr0M : (0 : Int) ≤ r * M := by positivity
  refine ⟨_, by unfold divFvX communicateFluxes; rw [if_neg (by simp)], ?_⟩
  intro x hx0 hx1
  obtain ⟨i, rfl⟩ : ∃ i, x = i + (r * M - 2) := ⟨x - (r * M - 2), by omega⟩
  have h2 : 2 ≤ i := by omega
  have h3 : i ≤ M + 1 := by omega
  rw [add_sub_cancel_right]
  -- the contributions of this rank
  have hloc : divFvXLocal (fvRank p M r) b edges (G.shift (r * M - 2)) i *
      (G.dx (i + (r * M - 2)) * G.J (i + (r * M - 2))) =
      gR (p * M) b edges G (i + (r * M - 2)) - gL b edges G (i + (r * M - 2)) +
      (if i = 2 then 0 else -gR (p * M) b edges G (i + (r * M - 2) - 1)) +
      (if i = M + 1 then 0 else gL b edges G (i + (r * M - 2) + 1)) := by
    rw [divFvXLocal_eq]
    rw [show (G.shift (r * M - 2)).dx i * (G.shift (r * M - 2)).J i =
      G.dx (i + (r * M - 2)) * G.J (i + (r * M - 2)) from rfl, div_mul_cancel₀ _ (hV _)]
    congr 1
    · congr 1
      · rw [if_pos (show (fvRank p M r).xstart ≤ i ∧ i ≤ (fvRank p M r).xend from ⟨h2, h3⟩),
          shareR_global p M r hr b edges G i h2 h3, shareL_global p M r b edges G i h2 h3]
        rfl
      · by_cases hi : i = 2
        · rw [if_pos hi, if_neg]
          simp only [fvRank]; omega
        · rw [if_neg hi, if_pos (show (fvRank p M r).xstart ≤ i - 1 ∧ i - 1 ≤ (fvRank p M r).xend by
            simp only [fvRank]; omega), shareR_global p M r hr b edges G (i - 1) (by omega) (by omega),
            show i - 1 + (↑r * ↑M - 2) = i + (↑r * ↑M - 2) - 1 by omega]
          rfl
    · by_cases hi : i = M + 1
      · rw [if_pos hi, if_neg]
        simp only [fvRank]; omega
      · rw [if_neg hi, if_pos (show (fvRank p M r).xstart ≤ i + 1 ∧ i + 1 ≤ (fvRank p M r).xend by
          simp only [fvRank]; omega), shareL_global p M r b edges G (i + 1) (by omega) (by omega),
          show i + 1 + (↑r * ↑M - 2) = i + (↑r * ↑M - 2) + 1 by omega]
        rfl
  -- what the previous rank sends
  have hprev : 0 < r → divFvXLocal (fvRank p M (r - 1)) b edges (G.shift ((r - 1 : Nat) * M - 2)) (M + 2) *
      (G.dx (r * M) * G.J (r * M)) = -gR (p * M) b edges G (r * M - 1) := by
    intro h
    have e1 : ((r - 1 : Nat) : Int) * M = r * M - M := by
      rw [show ((r - 1 : Nat) : Int) = r - 1 by omega]; rw [Int.sub_mul, Int.one_mul]
    rw [divFvXLocal_eq]
    rw [show (G.shift ((r - 1 : Nat) * M - 2)).dx (M + 2) * (G.shift ((r - 1 : Nat) * M - 2)).J (M + 2) =
      G.dx (M + 2 + ((r - 1 : Nat) * M - 2)) * G.J (M + 2 + ((r - 1 : Nat) * M - 2)) from rfl, e1,
      show (M : Int) + 2 + (r * M - M - 2) = r * M by omega, div_mul_cancel₀ _ (hV _)]
    rw [if_neg (by simp only [fvRank]; omega), if_pos (by simp only [fvRank]; omega),
      if_neg (by simp only [fvRank]; omega), zero_add, add_zero, ← e1,
      shareR_global p M (r - 1) (by omega) b edges G _ (by omega) (by omega)]
    rw [e1, show (M : Int) + 2 - 1 + (r * M - M - 2) = r * M - 1 by omega]
    rfl
  -- what the next rank sends
  have hnext : r + 1 < p → divFvXLocal (fvRank p M (r + 1)) b edges (G.shift ((r + 1 : Nat) * M - 2)) 1 *
      (G.dx (r * M + M - 1) * G.J (r * M + M - 1)) = gL b edges G (r * M + M) := by
    intro h
    have e1 : ((r + 1 : Nat) : Int) * M = r * M + M := by push_cast; rw [Int.add_mul, Int.one_mul]
    rw [divFvXLocal_eq]
    rw [show (G.shift ((r + 1 : Nat) * M - 2)).dx 1 * (G.shift ((r + 1 : Nat) * M - 2)).J 1 =
      G.dx (1 + ((r + 1 : Nat) * M - 2)) * G.J (1 + ((r + 1 : Nat) * M - 2)) from rfl, e1,
      show (1 : Int) + (r * M + M - 2) = r * M + M - 1 by omega, div_mul_cancel₀ _ (hV _)]
    rw [if_neg (by simp only [fvRank]; omega), if_neg (by simp only [fvRank]; omega),
      if_pos (by simp only [fvRank]; omega), zero_add, zero_add, ← e1,
      shareL_global p M (r + 1) b edges G _ (by omega) (by omega)]
    rw [e1, show (1 : Int) + 1 + (r * M + M - 2) = r * M + M by omega]
    rfl
  rw [← face_right (p * M) b edges G _ (by omega), ← face_left (p * M) b edges G _ (by omega) (by omega)]
  -- put together
  have hfirst : i + (r * M - 2) = (0 : Int) ↔ i = 2 ∧ r = 0 := by
    constructor
    · intro h
      have : (r : Int) * M = 0 := by omega
      refine ⟨by omega, ?_⟩
      rcases Int.mul_eq_zero.1 this with h | h <;> omega
    · rintro ⟨rfl, rfl⟩; simp
  have hlast : i + (r * M - 2) = (p : Int) * M - 1 ↔ i = M + 1 ∧ r + 1 = p := by
    constructor
    · intro h
      have hrp : r + 1 = p := by
        by_contra hne
        have := Int.mul_le_mul_of_nonneg_right (show (r : Int) + 1 + 1 ≤ p by omega) (show (0 : Int) ≤ M by omega)
        rw [Int.add_mul, Int.add_mul, Int.one_mul] at this
        omega
      have : (p : Int) * M = r * M + M := by rw [← hrp]; push_cast; rw [Int.add_mul, Int.one_mul]
      exact ⟨by omega, hrp⟩
    · rintro ⟨rfl, rfl⟩; push_cast; rw [Int.add_mul, Int.one_mul]; omega
  have hprev' : (if 0 < r ∧ i = 2 then
      divFvXLocal (fvRank p M (r - 1)) b edges (G.shift ((r - 1 : Nat) * M - 2)) (M + 4 - 2) else 0) *
      (G.dx (i + (r * M - 2)) * G.J (i + (r * M - 2))) =
      if 0 < r ∧ i = 2 then -gR (p * M) b edges G (i + (r * M - 2) - 1) else 0 := by
    by_cases h : 0 < r ∧ i = 2
    · rw [if_pos h, if_pos h, h.2, show (2 : Int) + (r * M - 2) = r * M by omega, ← hprev h.1,
        show (M : Int) + 4 - 2 = M + 2 by omega]
    · rw [if_neg h, if_neg h, zero_mul]
  have hnext' : (if r + 1 < p ∧ i = M + 1 then
      divFvXLocal (fvRank p M (r + 1)) b edges (G.shift ((r + 1 : Nat) * M - 2)) 1 else 0) *
      (G.dx (i + (r * M - 2)) * G.J (i + (r * M - 2))) =
      if r + 1 < p ∧ i = M + 1 then gL b edges G (i + (r * M - 2) + 1) else 0 := by
    by_cases h : r + 1 < p ∧ i = M + 1
    · rw [if_pos h, if_pos h, h.2, show (M : Int) + 1 + (r * M - 2) = r * M + M - 1 by omega, hnext h.1,
        show (r : Int) * M + M - 1 + 1 = r * M + M by omega]
    · rw [if_neg h, if_neg h, zero_mul]
  have hval : (let LocalNx : Int := M + 4
      let g := divFvXLocal (fvRank p M r) b edges (G.shift (r * M - 2))
      let g := if 0 < r then addAt (fun i => if i = 0 then
        divFvXLocal (fvRank p M (r - 1)) b edges (G.shift ((r - 1 : Nat) * M - 2)) (LocalNx - 2) else g i) 2
        (divFvXLocal (fvRank p M (r - 1)) b edges (G.shift ((r - 1 : Nat) * M - 2)) (LocalNx - 2)) else g
      let g := if r + 1 < p then
        addAt (fun i => if i = LocalNx - 1 then
          divFvXLocal (fvRank p M (r + 1)) b edges (G.shift ((r + 1 : Nat) * M - 2)) 1 else g i) (LocalNx - 3)
          (divFvXLocal (fvRank p M (r + 1)) b edges (G.shift ((r + 1 : Nat) * M - 2)) 1) else g
      g) i = divFvXLocal (fvRank p M r) b edges (G.shift (r * M - 2)) i +
      (if 0 < r ∧ i = 2 then
        divFvXLocal (fvRank p M (r - 1)) b edges (G.shift ((r - 1 : Nat) * M - 2)) (M + 4 - 2) else 0) +
      (if r + 1 < p ∧ i = M + 1 then
        divFvXLocal (fvRank p M (r + 1)) b edges (G.shift ((r + 1 : Nat) * M - 2)) 1 else 0) := by
    simp only
    have ha : (i = (M : Int) + 4 - 3) = (i = M + 1) := by rw [show (M : Int) + 4 - 3 = M + 1 by omega]
    by_cases c1 : 0 < r <;> by_cases c2 : r + 1 < p
    · simp only [if_true, c1, c2, addAt_apply, if_neg (show ¬ i = (M : Int) + 4 - 1 by omega),
        if_neg (show ¬ i = 0 by omega), ha, c1, c2, true_and]
    · simp only [if_true, addAt_apply, if_neg (show ¬ i = 0 by omega), c1, c2, true_and, false_and,
        if_false, add_zero]
    · simp only [if_true, addAt_apply, if_neg (show ¬ i = (M : Int) + 4 - 1 by omega), ha, c1, c2,
        true_and, false_and, if_false, add_zero]
    · simp only [if_neg c1, if_neg c2, c1, c2, false_and, if_false, add_zero]
  refine Eq.trans (congrArg (· * (G.dx (i + (r * M - 2)) * G.J (i + (r * M - 2)))) hval) ?_
  rw [add_mul, add_mul, hloc, hprev', hnext']
  clear hval hprev' hnext' hloc hprev hnext
  simp only [hfirst, hlast]
  generalize gR ((p : Int) * M) b edges G (i + (r * M - 2)) = A
  generalize gL b edges G (i + (r * M - 2)) = B
  generalize gR ((p : Int) * M) b edges G (i + (r * M - 2) - 1) = C
  generalize gL b edges G (i + (r * M - 2) + 1) = D
  clear hfirst hlast hV
  split_ifs <;> first | ring1 | (exfalso; omega)

/-- **C29.** Conservation of `Div_f_v` in X: the total of `J dx * result` over all ranks is the flux through the two X
boundaries, and zero when `bndry_flux` is not set. -/
theorem C29_div_f_v_x_conserves (p M : Nat) (hp : 0 < p) (hM : 0 < M) (b : Bool) (edges : K → K → K → Edges K)
    (G : XLine K) (hV : ∀ i, G.dx i * G.J i ≠ 0) (res : Nat → Int → K)
    (hres : ∀ r, r < p → divFvX p M b edges G r = some (res r)) :
    ∑ r ∈ range p, ∑ i ∈ Icc (2 : Int) (2 + M - 1), res r i * (G.dx (i + (r * M - 2)) * G.J (i + (r * M - 2))) =
      fvOuter b edges G (p * M - 1) - fvInnerBndry b edges G (-1) := by
  rw [chain_telescope p M hp 2 (fun r i => G.dx (i + (r * M - 2)) * G.J (i + (r * M - 2))) res
    (fun r i => fvFace (p * M) b edges G (i + (r * M - 2)))]
  · have e1 : ((p - 1 : Nat) : Int) * M = p * M - M := by
      rw [show ((p - 1 : Nat) : Int) = p - 1 by omega]; rw [Int.sub_mul, Int.one_mul]
    have hpM : (0 : Int) < p * M := by positivity
    simp only [e1, Nat.cast_zero, Int.zero_mul]
    rw [show (2 : Int) + M - 1 + (p * M - M - 2) = p * M - 1 by omega, show (2 : Int) - 1 + (0 - 2) = -1 by omega]
    unfold fvFace
    rw [if_pos rfl, if_neg (by omega), if_pos rfl]
  · intro r hr i h0 h1
    obtain ⟨g, hg, hx⟩ := C29_div_f_v_x_cell p M r hr hM b edges G hV
    rw [hres r hr] at hg
    injection hg with hg
    have := hx (i + (r * M - 2)) (by omega) (by omega)
    rw [add_sub_cancel_right] at this
    rw [hg, this, show i - 1 + (↑r * ↑M - 2) = i + (↑r * ↑M - 2) - 1 by omega]
  · intro r hr
    have : ((r + 1 : Nat) : Int) * M = r * M + M := by push_cast; rw [Int.add_mul, Int.one_mul]
    simp only [this]
    rw [show (2 : Int) + (M : Int) - 1 + (r * M - 2) = 2 - 1 + (r * M + M - 2) by omega]

/-- **C29.** With another number of X guard cells `communicateFluxes` (hence `Div_f_v`) throws. -/
theorem C29_div_f_v_guard (p M : Nat) (xstart : Int) (f : Nat → Int → K) (r : Nat) :
    communicateFluxes p M xstart f r = none ↔ xstart ≠ 2 := by
  unfold communicateFluxes
  by_cases h : xstart ≠ 2
  · simp [h]
  · simp [h]

/-! ## `Div_f_v`, Z and Y parts -/

/-- Specification: velocity times Jacobian between `k` and the next point in Z. -/
def zV (nz : Nat) (C : ZLine K) (k : Nat) : K :=
  (C.v k + C.v (zp nz k)) / 2 * ((C.J k + C.J (zp nz k)) / 2)

/-- The upwind flux between `k` and the next point in Z. -/
def zFlux (nz : Nat) (edges : K → K → K → Edges K) (C : ZLine K) (k : Nat) : K :=
  upwindFlux (edges (C.f k) (C.f (zm nz k)) (C.f (zp nz k))).R
    (edges (C.f (zp nz k)) (C.f k) (C.f (zp nz (zp nz k)))).L (zV nz C k)

/-- **C29.** `Div_f_v` in Z: each cell holds the difference of the upwind fluxes through its two faces. -/
theorem C29_div_f_v_z_cell (nz : Nat) (edges : K → K → K → Edges K) (C : ZLine K) (k : Nat) (hk : k < nz) :
    divFvZ nz edges C k = (zFlux nz edges C k - zFlux nz edges C (zm nz k)) / (C.J k * C.dz k) := by
  have hn : 0 < nz := by omega
  let up : Nat → K := fun j => if 0 < zV nz C j then
    zV nz C j * (edges (C.f j) (C.f (zm nz j)) (C.f (zp nz j))).R else 0
  let dn : Nat → K := fun j => if zV nz C (zm nz j) < 0 then
    zV nz C (zm nz j) * (edges (C.f j) (C.f (zm nz j)) (C.f (zp nz j))).L else 0
  let con : Nat → Nat → K := fun j i =>
      (((if i = j then (up j - dn j) / (C.J j * C.dz j) else 0) +
       (if i = zp nz j then -(up j / (C.J (zp nz j) * C.dz (zp nz j))) else 0)) +
       (if i = zm nz j then dn j / (C.J (zm nz j) * C.dz (zm nz j)) else 0))
  have hb : ∀ (r : Nat → K) (j i : Nat), j < nz → fvZBody nz edges C r j i = r i + con j i := by
    intro r j i hj
    have e1 : 1/4 * (C.v (zp nz j) + C.v j) * (C.J (zp nz j) + C.J j) = zV nz C j := by unfold zV; ring
    have e2 : 1/4 * (C.v (zm nz j) + C.v j) * (C.J (zm nz j) + C.J j) = zV nz C (zm nz j) := by
      unfold zV; rw [zp_zm hj]; ring
    unfold fvZBody
    simp only [e1, e2, con, up, dn]
    by_cases h1 : 0 < zV nz C j <;> by_cases h2 : zV nz C (zm nz j) < 0 <;>
      simp only [h1, h2, gt_iff_lt, if_true, if_false, addTo_apply] <;> split_ifs <;> ring
  have hfold : ∀ (L : List Nat) (r : Nat → K), (∀ j ∈ L, j < nz) →
      (L.foldl (fvZBody nz edges C) r) k = r k + (L.map (fun j => con j k)).sum := by
    intro L
    induction L with
    | nil => intro r _; simp
    | cons x xs ih =>
      intro r hL
      rw [List.foldl_cons, ih _ (fun j hj => hL j (List.mem_cons_of_mem _ hj)), hb _ _ _ (hL x List.mem_cons_self)]
      simp [add_assoc]
  unfold divFvZ
  rw [hfold _ _ (fun j hj => List.mem_range.1 hj), zero_add]
  simp only [con]
  rw [List.sum_map_add, List.sum_map_add, sum_single _ List.nodup_range k (List.mem_range.2 hk),
    sum_back _ List.nodup_range k (zp nz) (zm nz) (List.mem_range.2 (zm_lt hn)) (zp_zm hk)
      (fun j hj h => by rw [← h, zm_zp (List.mem_range.1 hj)])
      (fun j => -(up j / (C.J (zp nz j) * C.dz (zp nz j)))),
    sum_back _ List.nodup_range k (zm nz) (zp nz) (List.mem_range.2 (zp_lt hn)) (zm_zp hk)
      (fun j hj h => by rw [← h, zp_zm (List.mem_range.1 hj)])
      (fun j => dn j / (C.J (zm nz j) * C.dz (zm nz j))), zp_zm hk, zm_zp hk]
  have hz : ∀ j, j < nz → zFlux nz edges C j = up j + dn (zp nz j) := by
    intro j hj
    simp only [up, dn, zm_zp hj]
    unfold zFlux upwindFlux
    by_cases h1 : 0 < zV nz C j
    · simp only [if_pos h1, if_neg (not_lt.2 h1.le), add_zero]
    · simp only [if_neg h1, zero_add]
  rw [hz k hk, hz (zm nz k) (zm_lt hn), zp_zm hk]
  ring

/-- **C29.** The Z part conserves the total around each Z line. -/
theorem C29_div_f_v_z_conserves (nz : Nat) (edges : K → K → K → Edges K) (C : ZLine K)
    (hV : ∀ k, C.J k * C.dz k ≠ 0) :
    ∑ k ∈ range nz, divFvZ nz edges C k * (C.J k * C.dz k) = 0 := by
  have : ∀ k ∈ range nz, divFvZ nz edges C k * (C.J k * C.dz k) =
      zFlux nz edges C k - zFlux nz edges C (zm nz k) := by
    intro k hk
    rw [C29_div_f_v_z_cell nz edges C k (mem_range.1 hk), div_mul_cancel₀ _ (hV k)]
  rw [sum_congr rfl this, sum_sub_distrib, sum_zm nz (zFlux nz edges C), sub_self]

/-- Specification: the centred Y flux. -/
def fvYFlux (C : Col K) (j : Int) : K :=
  (C.f j + C.f (j + 1)) / 2 * ((C.v j + C.v (j + 1)) / 2 * ((C.J j + C.J (j + 1)) / 2))

/-- **C29.** The Y part of `Div_f_v` conserves the total on a field line divided between any number of ranks. -/
theorem C29_div_f_v_y_conserves (p M : Nat) (hp : 0 < p) (g : Int) (G : Col K) (hG : GoodLine G) :
    lineTotal p M g G (fun r => divFvY (lineCol G M g r)) = fvYFlux G (p * M - 1) - fvYFlux G (-1) := by
  have hs : ∀ (off j : Int), fvYFlux (G.shift off) j = fvYFlux G (j + off) := by
    intro off j
    unfold fvYFlux Col.shift
    simp only
    rw [show j + 1 + off = j + off + 1 by omega]
  rw [line_telescope p M hp g G _ (fun r => fvYFlux (lineCol G M g r))]
  · have e1 : ((p - 1 : Nat) : Int) * M = p * M - M := by
      rw [show ((p - 1 : Nat) : Int) = p - 1 by omega]; rw [Int.sub_mul, Int.one_mul]
    unfold lineCol
    rw [hs, hs, e1, show g + (M : Int) - 1 + (p * M - M - g) = p * M - 1 by omega]
    simp only [Nat.cast_zero, Int.zero_mul]
    rw [show g - 1 + (0 - g) = -1 by omega]
  · intro r _ j _ _
    have hv := hG.lineVol M g r j
    unfold divFvY fvYFlux
    simp only [sub_add_cancel]
    rw [mul_comm ((lineCol G M g r).J j), div_mul_cancel₀ _ hv]
    ring
  · intro r hr
    have : ((r + 1 : Nat) : Int) * M = r * M + M := by push_cast; rw [Int.add_mul, Int.one_mul]
    unfold lineCol
    rw [hs, hs, this, show g + (M : Int) - 1 + (r * M - g) = g - 1 + (r * M + M - g) by omega]

/-! ## `Div_Perp_Lap` -/

/-- The Z flux through the face above `(i, k)`. -/
def lapZFlux (nz : Nat) (S : XZ K) (i : Int) (k : Nat) : K :=
  lapGU nz S i k * ((S.J i k + S.J i (zp nz k)) / 2) * ((S.a i k + S.a i (zp nz k)) / 2)

/-- The X flux through the face between `(i, k)` and `(i + 1, k)`. -/
def lapXFlux (nz : Nat) (S : XZ K) (i : Int) (k : Nat) : K :=
  lapGR nz S i k * ((S.J i k + S.J (i + 1) k) / 2) * ((S.a i k + S.a (i + 1) k) / 2)

/-- **C29 (a counterexample).**  `Div_Perp_Lap` adds the flow through the lower Z face instead of subtracting it: on a
metric without Z dependence each cell gets the difference of its X fluxes but the sum of its Z fluxes. -/
theorem C29_div_perp_lap_violated (nz : Nat) (S : XZ K) (i : Int) (k : Nat) (hk : k < nz)
    (hg13 : ∀ i k, S.g13 i k = S.g13 i 0) (hg33 : ∀ i k, S.g33 i k = S.g33 i 0)
    (hdx : ∀ i k, S.dx i k = S.dx i 0) (hdz : ∀ i k, S.dz i k = S.dz 0 0) :
    divPerpLap nz S i k = (lapXFlux nz S i k - lapXFlux nz S (i - 1) k) / (S.dx i k * S.J i k) +
      (lapZFlux nz S i k + lapZFlux nz S i (zm nz k)) / (S.dz i k * S.J i k) := by
  have e1 : lapGL nz S i k = lapGR nz S (i - 1) k := by
    unfold lapGL lapGR
    rw [sub_add_cancel, hdz i k, hdz (i - 1) k, add_comm (S.dx (i - 1) k)]
    congr 2
    ring
  have e2 : lapGD nz S i k = lapGU nz S i (zm nz k) := by
    unfold lapGD lapGU
    rw [zp_zm hk, hdz i k, hdz i (zm nz k), hdx i k, hdx i (zm nz k), hg13 i k, hg13 i (zm nz k), hg33 i k,
      hg33 i (zm nz k)]
    congr 2
    ring
  unfold divPerpLap lapXFlux lapZFlux
  simp only [e1, e2, zp_zm hk, sub_add_cancel]
  ring

/-- The total over a Z line is then not zero: `f` rising from 0 to 1 with `a` larger on the way up. -/
example : ∑ k ∈ range 3, divPerpLap 3 (⟨fun _ k => if k = 1 then 1 else 0, fun _ k => if k = 2 then 0 else 1,
    fun _ _ => 1, fun _ _ => 0, fun _ _ => 0, fun _ _ => 1, fun _ _ => 1, fun _ _ => 1⟩ : XZ ℚ) 0 k = 1 := by
  decide +kernel

end Verif.Num
