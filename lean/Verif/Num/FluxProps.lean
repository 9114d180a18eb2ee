import Verif.Num.Flux
import Mathlib.Tactic.LinearCombination

/-! # C29: conservation of the finite volume operators along Y -/
namespace Verif.Num

variable {K : Type} [Field K] [LinearOrder K] [IsStrictOrderedRing K]

open Finset

/-! ## The loops as sums -/

omit [LinearOrder K] [IsStrictOrderedRing K] in
theorem addAt_apply (r : Int → K) (j : Int) (x : K) (i : Int) : addAt r j x i = r i + if i = j then x else 0 := by
  unfold addAt; split_ifs <;> simp

theorem irange_nodup (a b : Int) : (irange a b).Nodup := by
  unfold irange
  apply List.Nodup.map _ List.nodup_range
  intro x y h
  simp only at h
  omega

theorem mem_irange (a b j : Int) : j ∈ irange a b ↔ a ≤ j ∧ j ≤ b := by
  unfold irange
  simp only [List.mem_map, List.mem_range]
  constructor
  · rintro ⟨n, hn, rfl⟩; omega
  · rintro ⟨h1, h2⟩; exact ⟨(j - a).toNat, by omega, by omega⟩

omit [LinearOrder K] [IsStrictOrderedRing K] in
theorem irange_sum (a b : Int) (g : Int → K) : ((irange a b).map g).sum = ∑ j ∈ Icc a b, g j := by
  rw [← List.sum_toFinset g (irange_nodup a b)]
  congr 1
  ext j
  rw [List.mem_toFinset, mem_irange, mem_Icc]

omit [LinearOrder K] [IsStrictOrderedRing K] in
theorem foldl_contrib (body : (Int → K) → Int → (Int → K)) (con : Int → Int → K)
    (h : ∀ r j i, body r j i = r i + con j i) (L : List Int) (r : Int → K) (i : Int) :
    (L.foldl body r) i = r i + (L.map (fun j => con j i)).sum := by
  induction L generalizing r with
  | nil => simp
  | cons x xs ih => rw [List.foldl_cons, ih, h]; simp [add_assoc]

omit [LinearOrder K] [IsStrictOrderedRing K] in
/-- A loop in which cell `j` contributes to itself and to its two neighbours. -/
theorem foldl_three (body : (Int → K) → Int → (Int → K)) (A B C : Int → K)
    (h : ∀ r j i, body r j i = r i + ((if i = j then A j else 0) + (if i = j + 1 then B j else 0) +
      (if i = j - 1 then C j else 0))) (a b : Int) (i : Int) :
    ((irange a b).foldl body (fun _ => 0)) i = (if a ≤ i ∧ i ≤ b then A i else 0) +
      (if a ≤ i - 1 ∧ i - 1 ≤ b then B (i - 1) else 0) + (if a ≤ i + 1 ∧ i + 1 ≤ b then C (i + 1) else 0) := by
  rw [foldl_contrib body _ h, irange_sum, sum_add_distrib, sum_add_distrib, zero_add]
  congr 1
  · congr 1
    · rw [Finset.sum_ite_eq]
      simp only [mem_Icc]
    · have : ∀ j ∈ Icc a b, (if i = j + 1 then B j else 0) = if i - 1 = j then B j else 0 := by
        intro j _
        by_cases hj : i = j + 1
        · rw [if_pos hj, if_pos (by omega)]
        · rw [if_neg hj, if_neg (by omega)]
      rw [sum_congr rfl this, Finset.sum_ite_eq]
      simp only [mem_Icc]
  · have : ∀ j ∈ Icc a b, (if i = j - 1 then C j else 0) = if i + 1 = j then C j else 0 := by
      intro j _
      by_cases hj : i = j - 1
      · rw [if_pos hj, if_pos (by omega)]
      · rw [if_neg hj, if_neg (by omega)]
    rw [sum_congr rfl this, Finset.sum_ite_eq]
    simp only [mem_Icc]

/-! ## Specification -/

/-- The local Lax-Friedrichs flux through a face with velocity `v` and maximum wave speed `a`: upwind where the flow
is faster than the waves, a mixture elsewhere.  `R` and `L` are the values below and above the face. -/
def laxFlux (R L v a : K) : K :=
  if v > a then R * v else if v < -a then L * v else 1/2 * v * (R + L) + 1/2 * a * (R - L)

/-- The flux through the face above cell `j` of a field line. -/
def innerFlux (edges : K → K → K → Edges K) (C : Col K) (j : Int) : K :=
  laxFlux (edges (C.f j) (C.f (j - 1)) (C.f (j + 1))).R (edges (C.f (j + 1)) (C.f j) (C.f (j + 2))).L
    (1/2 * (C.v j + C.v (j + 1))) (max (C.wave j) (C.wave (j + 1)))

/-- The flux into the boundary after the last cell `j` of an open field line. -/
def upperBoundaryFlux (fixflux : Bool) (edges : K → K → K → Edges K) (C : Col K) (j : Int) : K :=
  let mid := 1/2 * (C.f j + C.f (j + 1))
  let vb := 1/2 * (C.v j + C.v (j + 1))
  if fixflux then mid * vb
  else
    let r := (edges (C.f j) (C.f (j - 1)) (C.f (j + 1))).R
    r * vb + C.wave j * (r - mid)

/-- The flux through the boundary before the first cell `j`. -/
def lowerBoundaryFlux (fixflux : Bool) (edges : K → K → K → Edges K) (C : Col K) (j : Int) : K :=
  let mid := 1/2 * (C.f (j - 1) + C.f j)
  let vb := 1/2 * (C.v (j - 1) + C.v j)
  if fixflux then mid * vb
  else
    let l := (edges (C.f j) (C.f (j - 1)) (C.f (j + 1))).L
    l * vb - C.wave j * (l - mid)

/-- The cross-section of the face above cell `j`. -/
def area (C : Col K) (j : Int) : K := (C.J j + C.J (j + 1)) / (C.sqrt_g22 j + C.sqrt_g22 (j + 1))

/-- Flux times area through the face above `j`, on a rank. -/
def faceFlux (R : YRank) (fixflux : Bool) (edges : K → K → K → Edges K) (C : Col K) (j : Int) : K :=
  area C j *
    (if R.lastY = true ∧ R.periodicY = false ∧ j = R.yend then upperBoundaryFlux fixflux edges C j
     else if R.firstY = true ∧ R.periodicY = false ∧ j + 1 = R.ystart then lowerBoundaryFlux fixflux edges C (j + 1)
     else innerFlux edges C j)

omit [IsStrictOrderedRing K] in
theorem BOUTMAX2_eq (a b : K) : BOUTMAX2 a b = max a b := (C28_min_max a b 0).2.2

/-- The two contributions to a face from its two sides add up to the Lax-Friedrichs flux. -/
theorem parts_add (R L v a : K) (ha : 0 ≤ a) :
    (if v > a then R * v else if v < -a then 0 else R * (1/2) * (v + a)) +
      (if v < -a then L * v else if v > a then 0 else L * (1/2) * (v - a)) = laxFlux R L v a := by
  unfold laxFlux
  by_cases h1 : v > a
  · rw [if_pos h1, if_neg (by linarith), if_pos h1, if_pos h1, add_zero]
  · by_cases h2 : v < -a
    · rw [if_neg h1, if_pos h2, if_pos h2, if_neg h1, if_pos h2, zero_add]
    · rw [if_neg h1, if_neg h2, if_neg h2, if_neg h1, if_neg h1, if_neg h2]; ring

theorem fluxes_add (R : YRank) (fixflux : Bool) (edges : K → K → K → Edges K) (C : Col K)
    (hw : ∀ j, 0 ≤ C.wave j) (j : Int) (h1 : ¬ (R.lastY = true ∧ j = R.yend ∧ R.periodicY = false))
    (h2 : ¬ (R.firstY = true ∧ j + 1 = R.ystart ∧ R.periodicY = false)) :
    fluxUp R fixflux edges C j + fluxDown R fixflux edges C (j + 1) = innerFlux edges C j := by
  unfold fluxUp fluxDown innerFlux
  simp only [if_neg h1, if_neg h2]
  rw [show j + 1 - 1 = j by omega, show j + 1 + 1 = j + 2 by omega, BOUTMAX2_eq, BOUTMAX2_eq,
    show 1/2 * (C.v (j + 1) + C.v j) = 1/2 * (C.v j + C.v (j + 1)) by ring, max_comm (C.wave (j + 1)) (C.wave j)]
  exact parts_add _ _ _ _ (le_max_of_le_left (hw j))

theorem divParBody_con (R : YRank) (fixflux : Bool) (edges : K → K → K → Edges K) (C : Col K) (r : Int → K)
    (j i : Int) : divParBody R fixflux edges C r j i = r i +
      ((if i = j then fluxUp R fixflux edges C j * (areaUp C j / (C.dy j * C.J j)) -
          fluxDown R fixflux edges C j * (areaDown C j / (C.dy j * C.J j)) else 0) +
       (if i = j + 1 then -(fluxUp R fixflux edges C j * (areaUp C j / (C.dy (j + 1) * C.J (j + 1)))) else 0) +
       (if i = j - 1 then fluxDown R fixflux edges C j * (areaDown C j / (C.dy (j - 1) * C.J (j - 1))) else 0)) := by
  unfold divParBody
  simp only [addAt_apply]
  split_ifs <;> ring

omit [LinearOrder K] [IsStrictOrderedRing K] in
theorem areaDown_eq (C : Col K) (j : Int) : areaDown C (j + 1) = areaUp C j := by
  unfold areaDown areaUp
  rw [show j + 1 - 1 = j by omega, add_comm (C.J (j + 1)), add_comm (C.sqrt_g22 (j + 1))]

/-- **C29.** `Div_par` in every cell of a rank is the difference of the fluxes through its two faces, divided by the
cell's volume: the local Lax-Friedrichs flux inside (with any reconstruction `edges`), the boundary flux on a target.
The fluxes on the rank's outermost faces are those computed with the neighbours' values in the guard cells. -/
theorem C29_div_par_cell (R : YRank) (fixflux : Bool) (edges : K → K → K → Edges K) (C : Col K)
    (hw : ∀ j, 0 ≤ C.wave j) (j : Int) (h0 : R.ystart ≤ j) (h1 : j ≤ R.yend) (hV : C.dy j * C.J j ≠ 0) :
    divPar R fixflux edges C j * (C.dy j * C.J j) =
      faceFlux R fixflux edges C j - faceFlux R fixflux edges C (j - 1) := by
  have body := foldl_three (divParBody R fixflux edges C) _ _ _ (divParBody_con R fixflux edges C)
  unfold divPar
  rw [body]
  have eD : areaDown C j = area C (j - 1) := by
    have := areaDown_eq C (j - 1); rw [show j - 1 + 1 = j by omega] at this; exact this
  have eD1 : areaDown C (j + 1) = area C j := areaDown_eq C j
  have eU : areaUp C j = area C j := rfl
  have eU1 : areaUp C (j - 1) = area C (j - 1) := rfl
  rw [show j - 1 + 1 = j by omega, show j + 1 - 1 = j by omega, eD, eD1, eU, eU1]
  -- the upper face
  have up : fluxUp R fixflux edges C j * (area C j / (C.dy j * C.J j)) +
      (if (if R.firstY = false ∨ R.periodicY = true then R.ystart - 1 else R.ystart) ≤ j + 1 ∧
          j + 1 ≤ (if R.lastY = false ∨ R.periodicY = true then R.yend + 1 else R.yend) then
        fluxDown R fixflux edges C (j + 1) * (area C j / (C.dy j * C.J j)) else 0) =
      faceFlux R fixflux edges C j / (C.dy j * C.J j) := by
    unfold faceFlux
    by_cases hb : R.lastY = true ∧ R.periodicY = false ∧ j = R.yend
    · rw [if_neg, if_pos hb]
      · have : fluxUp R fixflux edges C j = upperBoundaryFlux fixflux edges C j := by
          unfold fluxUp upperBoundaryFlux
          simp only [if_pos (show R.lastY = true ∧ j = R.yend ∧ R.periodicY = false from ⟨hb.1, hb.2.2, hb.2.1⟩)]
        rw [this]; ring
      · rw [if_neg (by simp [hb.1, hb.2.1] : ¬ (R.lastY = false ∨ R.periodicY = true))]
        omega
    · rw [if_pos, if_neg hb, if_neg (by omega), ← fluxes_add R fixflux edges C hw j (by tauto) (by omega)]
      · ring
      · constructor
        · split_ifs <;> omega
        · split_ifs with hc
          · omega
          · push Not at hc
            have : j ≠ R.yend := fun he => hb ⟨by simpa using hc.1, by simpa using hc.2, he⟩
            omega
  have down : -(fluxDown R fixflux edges C j * (area C (j - 1) / (C.dy j * C.J j))) +
      (if (if R.firstY = false ∨ R.periodicY = true then R.ystart - 1 else R.ystart) ≤ j - 1 ∧
          j - 1 ≤ (if R.lastY = false ∨ R.periodicY = true then R.yend + 1 else R.yend) then
        -(fluxUp R fixflux edges C (j - 1) * (area C (j - 1) / (C.dy j * C.J j))) else 0) =
      -(faceFlux R fixflux edges C (j - 1) / (C.dy j * C.J j)) := by
    unfold faceFlux
    by_cases hb : R.firstY = true ∧ R.periodicY = false ∧ j - 1 + 1 = R.ystart
    · rw [if_neg, if_neg (by omega), if_pos hb]
      · have : fluxDown R fixflux edges C j = lowerBoundaryFlux fixflux edges C (j - 1 + 1) := by
          unfold fluxDown lowerBoundaryFlux
          simp only [if_pos (show R.firstY = true ∧ j = R.ystart ∧ R.periodicY = false from
            ⟨hb.1, by omega, hb.2.1⟩)]
          rw [show j - 1 + 1 = j by omega, add_comm (C.f (j - 1)), add_comm (C.v (j - 1))]
        rw [this]; ring
      · rw [if_neg (by simp [hb.1, hb.2.1] : ¬ (R.firstY = false ∨ R.periodicY = true))]
        omega
    · have hadd := fluxes_add R fixflux edges C hw (j - 1) (by omega) (by tauto)
      rw [show j - 1 + 1 = j by omega] at hadd
      rw [if_pos, if_neg (by omega), if_neg hb, ← hadd]
      · ring
      · constructor
        · split_ifs with hc
          · omega
          · push Not at hc
            have : j ≠ R.ystart := fun he => hb ⟨by simpa using hc.1, by simpa using hc.2, by omega⟩
            omega
        · split_ifs <;> omega
  have inr : (if R.firstY = false ∨ R.periodicY = true then R.ystart - 1 else R.ystart) ≤ j ∧
      j ≤ (if R.lastY = false ∨ R.periodicY = true then R.yend + 1 else R.yend) := by
    constructor <;> split_ifs <;> omega
  rw [if_pos inr]
  have : ∀ a b c d x y : K, a + c = x → -b + d = -y → a - b + d + c = x - y := by
    intro a b c d x y h1 h2; linear_combination h1 + h2
  rw [this _ _ _ _ _ _ up down, ← sub_div, div_mul_cancel₀ _ hV]

/-! ## A field line divided between ranks -/

/-- The part of a field line `G` seen by a rank whose local row `0` is row `off` of the line; guard cells hold the
values of the neighbouring rows, as after a communication (C42). -/
def Col.shift (G : Col K) (off : Int) : Col K :=
  ⟨fun j => G.f (j + off), fun j => G.v (j + off), fun j => G.wave (j + off), fun j => G.J (j + off),
    fun j => G.sqrt_g22 (j + off), fun j => G.g22 (j + off), fun j => G.dy (j + off)⟩

/-- Rank `r` of `p` on a field line of `p * M` rows with `g` guard cells. -/
def lineRank (p M : Nat) (g : Int) (periodic : Bool) (r : Nat) : YRank :=
  { ystart := g, yend := g + M - 1, firstY := decide (r = 0), lastY := decide (r + 1 = p), periodicY := periodic }

def lineCol (G : Col K) (M : Nat) (g : Int) (r : Nat) : Col K := G.shift (r * M - g)

/-- The total of `J dy * result` over the cells of all ranks. -/
def lineTotal (p M : Nat) (g : Int) (G : Col K) (result : Nat → Int → K) : K :=
  ∑ r ∈ range p, ∑ j ∈ Icc g (g + M - 1),
    result r j * ((lineCol G M g r).dy j * (lineCol G M g r).J j)

omit [LinearOrder K] [IsStrictOrderedRing K] in
theorem sum_Icc_sub (Φ : Int → K) (g : Int) (M : Nat) :
    ∑ j ∈ Icc g (g + M - 1), (Φ j - Φ (j - 1)) = Φ (g + M - 1) - Φ (g - 1) := by
  rw [← irange_sum]
  unfold irange
  rw [show (g + (M : Int) - 1 + 1 - g).toNat = M by omega, List.map_map]
  induction M with
  | zero => simp
  | succ M ih =>
    rw [List.range_succ, List.map_append, List.sum_append, ih]
    simp only [List.map_cons, List.map_nil, List.sum_cons, List.sum_nil, Function.comp]
    rw [show g + ((M + 1 : Nat) : Int) - 1 = g + M by omega]
    ring

/-- The fluxes of all ranks telescope: if each rank's result is a flux difference, and neighbouring ranks agree on
the flux through the face between them, the total over the line is what goes in and out at the ends. -/
theorem line_telescope (p M : Nat) (hp : 0 < p) (g : Int) (G : Col K) (result Φ : Nat → Int → K)
    (hcell : ∀ r, r < p → ∀ j, g ≤ j → j ≤ g + M - 1 →
      result r j * ((lineCol G M g r).dy j * (lineCol G M g r).J j) = Φ r j - Φ r (j - 1))
    (hface : ∀ r, r + 1 < p → Φ r (g + M - 1) = Φ (r + 1) (g - 1)) :
    lineTotal p M g G result = Φ (p - 1) (g + M - 1) - Φ 0 (g - 1) := by
  unfold lineTotal
  have h1 : ∀ r ∈ range p, ∑ j ∈ Icc g (g + M - 1), result r j * ((lineCol G M g r).dy j * (lineCol G M g r).J j) =
      Φ r (g + M - 1) - Φ r (g - 1) := by
    intro r hr
    rw [← sum_Icc_sub (Φ r) g M]
    apply sum_congr rfl
    intro j hj
    rw [mem_Icc] at hj
    exact hcell r (mem_range.1 hr) j hj.1 hj.2
  rw [sum_congr rfl h1]
  clear h1
  obtain ⟨q, rfl⟩ : ∃ q, p = q + 1 := ⟨p - 1, by omega⟩
  rw [Nat.add_sub_cancel]
  have : ∀ n, n ≤ q → ∑ r ∈ range (n + 1), (Φ r (g + M - 1) - Φ r (g - 1)) = Φ n (g + M - 1) - Φ 0 (g - 1) := by
    intro n
    induction n with
    | zero => intro _; simp
    | succ n ih =>
      intro hn
      rw [sum_range_succ, ih (by omega), hface n (by omega)]
      ring
  exact this q le_rfl

theorem area_shift (G : Col K) (off j : Int) : area (G.shift off) j = area G (j + off) := by
  unfold area Col.shift
  simp only
  rw [show j + 1 + off = j + off + 1 by omega]

theorem innerFlux_shift (edges : K → K → K → Edges K) (G : Col K) (off j : Int) :
    innerFlux edges (G.shift off) j = innerFlux edges G (j + off) := by
  unfold innerFlux Col.shift
  simp only
  rw [show j + 1 + off = j + off + 1 by omega, show j - 1 + off = j + off - 1 by omega,
    show j + 2 + off = j + off + 2 by omega]

theorem upper_shift (b : Bool) (edges : K → K → K → Edges K) (G : Col K) (off j : Int) :
    upperBoundaryFlux b edges (G.shift off) j = upperBoundaryFlux b edges G (j + off) := by
  unfold upperBoundaryFlux Col.shift
  simp only
  rw [show j + 1 + off = j + off + 1 by omega, show j - 1 + off = j + off - 1 by omega]

theorem lower_shift (b : Bool) (edges : K → K → K → Edges K) (G : Col K) (off j : Int) :
    lowerBoundaryFlux b edges (G.shift off) j = lowerBoundaryFlux b edges G (j + off) := by
  unfold lowerBoundaryFlux Col.shift
  simp only
  rw [show j + 1 + off = j + off + 1 by omega, show j - 1 + off = j + off - 1 by omega]

/-- Non-zero cell volumes and non-negative wave speeds. -/
structure GoodLine (G : Col K) : Prop where
  vol : ∀ j, G.dy j * G.J j ≠ 0
  wave : ∀ j, 0 ≤ G.wave j

omit [IsStrictOrderedRing K] in
theorem GoodLine.lineVol {G : Col K} (hG : GoodLine G) (M : Nat) (g : Int) (r : Nat) (j : Int) :
    (lineCol G M g r).dy j * (lineCol G M g r).J j ≠ 0 := hG.vol (j + (r * M - g))

omit [IsStrictOrderedRing K] in
theorem GoodLine.lineWave {G : Col K} (hG : GoodLine G) (M : Nat) (g : Int) (r : Nat) (j : Int) :
    0 ≤ (lineCol G M g r).wave j := hG.wave (j + (r * M - g))

/-- **C29.** Conservation on an open field line, however it is divided between processors: the total of
`J dy * Div_par` over all cells of all ranks is the flux through the last face minus the flux through the first, for
every field, velocity, wave speed, metric and reconstruction. -/
theorem C29_div_par_conserves (p M : Nat) (hp : 0 < p) (hM : 0 < M) (g : Int) (fixflux : Bool)
    (edges : K → K → K → Edges K) (G : Col K) (hG : GoodLine G) :
    lineTotal p M g G (fun r => divPar (lineRank p M g false r) fixflux edges (lineCol G M g r)) =
      area G (p * M - 1) * upperBoundaryFlux fixflux edges G (p * M - 1) -
      area G (-1) * lowerBoundaryFlux fixflux edges G 0 := by
  rw [line_telescope p M hp g G _ (fun r => faceFlux (lineRank p M g false r) fixflux edges (lineCol G M g r))]
  · have e1 : ((p - 1 : Nat) : Int) * M = p * M - M := by
      rw [show ((p - 1 : Nat) : Int) = p - 1 by omega]; rw [Int.sub_mul, Int.one_mul]
    unfold faceFlux lineCol
    rw [area_shift, area_shift, if_pos, if_neg, if_pos, upper_shift, lower_shift, e1]
    · rw [show g + (M : Int) - 1 + (p * M - M - g) = p * M - 1 by omega]
      simp only [Nat.cast_zero, Int.zero_mul]
      rw [show g - 1 + (0 - g) = -1 by omega, show g - 1 + 1 + (0 - g) = 0 by omega]
    · simp [lineRank]
    · simp only [lineRank]; omega
    · simp [lineRank, Nat.sub_add_cancel hp]
  · intro r hr j h0 h1
    exact C29_div_par_cell (lineRank p M g false r) fixflux edges (lineCol G M g r) (hG.lineWave M g r) j h0 h1
      (hG.lineVol M g r j)
  · intro r hr
    unfold faceFlux lineCol
    rw [area_shift, area_shift, if_neg, if_neg, if_neg, if_neg, innerFlux_shift, innerFlux_shift]
    · have : ((r + 1 : Nat) : Int) * M = r * M + M := by push_cast; rw [Int.add_mul, Int.one_mul]
      rw [this, show g + (M : Int) - 1 + (r * M - g) = g - 1 + (r * M + M - g) by omega]
    · simp [lineRank]
    · simp only [lineRank]; omega
    · simp only [lineRank]; omega
    · have : ¬ (r + 1 = p) := by omega
      simp [lineRank, this]

/-- A field line that closes on itself after `N` rows. -/
structure Closed (G : Col K) (N : Int) : Prop where
  f : ∀ j, G.f (j + N) = G.f j
  v : ∀ j, G.v (j + N) = G.v j
  wave : ∀ j, G.wave (j + N) = G.wave j
  J : ∀ j, G.J (j + N) = G.J j
  s : ∀ j, G.sqrt_g22 (j + N) = G.sqrt_g22 j
  g : ∀ j, G.g22 (j + N) = G.g22 j
  dy : ∀ j, G.dy (j + N) = G.dy j

/-- **C29.** Conservation on a closed field line: the total is zero. -/
theorem C29_div_par_conserves_periodic (p M : Nat) (hp : 0 < p) (hM : 0 < M) (g : Int) (fixflux : Bool)
    (edges : K → K → K → Edges K) (G : Col K) (hG : GoodLine G) (hc : Closed G (p * M)) :
    lineTotal p M g G (fun r => divPar (lineRank p M g true r) fixflux edges (lineCol G M g r)) = 0 := by
  have hper : ∀ r j, faceFlux (lineRank p M g true r) fixflux edges (lineCol G M g r) j =
      area G (j + (r * M - g)) * innerFlux edges G (j + (r * M - g)) := by
    intro r j
    unfold faceFlux lineCol
    rw [if_neg (by simp [lineRank]), if_neg (by simp [lineRank]), area_shift, innerFlux_shift]
  rw [line_telescope p M hp g G _ (fun r => faceFlux (lineRank p M g true r) fixflux edges (lineCol G M g r))]
  · simp only [hper]
    have e1 : ((p - 1 : Nat) : Int) * M = p * M - M := by
      rw [show ((p - 1 : Nat) : Int) = p - 1 by omega]; rw [Int.sub_mul, Int.one_mul]
    rw [e1, show g + (M : Int) - 1 + (p * M - M - g) = -1 + p * M by omega]
    simp only [Nat.cast_zero, Int.zero_mul]
    rw [show g - 1 + (0 - g) = -1 by omega]
    have a1 : area G (-1 + p * M) = area G (-1) := by
      unfold area
      rw [show (-1 : Int) + p * M + 1 = (-1 + 1) + p * M by omega, hc.J, hc.J, hc.s, hc.s]
    have a2 : innerFlux edges G (-1 + p * M) = innerFlux edges G (-1) := by
      unfold innerFlux
      rw [show (-1 : Int) + p * M + 1 = (-1 + 1) + p * M by omega,
        show (-1 : Int) + p * M - 1 = (-1 - 1) + p * M by omega,
        show (-1 : Int) + p * M + 2 = (-1 + 2) + p * M by omega, hc.f, hc.f, hc.f, hc.f, hc.v, hc.v, hc.wave, hc.wave]
    rw [a1, a2, sub_self]
  · intro r hr j h0 h1
    exact C29_div_par_cell (lineRank p M g true r) fixflux edges (lineCol G M g r) (hG.lineWave M g r) j h0 h1
      (hG.lineVol M g r j)
  · intro r hr
    simp only [hper]
    have : ((r + 1 : Nat) : Int) * M = r * M + M := by push_cast; rw [Int.add_mul, Int.one_mul]
    rw [this, show g + (M : Int) - 1 + (r * M - g) = g - 1 + (r * M + M - g) by omega]

/-- **C29.** The answer in a cell does not depend on how the line is divided: it is a function of the line and the
global row. -/
theorem C29_div_par_decomposition (p M : Nat) (g : Int) (fixflux : Bool)
    (edges : K → K → K → Edges K) (G : Col K) (hG : GoodLine G) (r : Nat) (hr : r < p) (y : Int)
    (h0 : r * M ≤ y) (h1 : y < r * M + M) :
    divPar (lineRank p M g false r) fixflux edges (lineCol G M g r) (y - (r * M - g)) =
      (area G y * (if y = p * M - 1 then upperBoundaryFlux fixflux edges G y else innerFlux edges G y) -
       area G (y - 1) * (if y = 0 then lowerBoundaryFlux fixflux edges G y else innerFlux edges G (y - 1))) /
      (G.dy y * G.J y) := by
  have hM : 0 < M := by omega
  have hcell := C29_div_par_cell (lineRank p M g false r) fixflux edges (lineCol G M g r) (hG.lineWave M g r)
    (y - (r * M - g)) (by simp only [lineRank]; omega) (by simp only [lineRank]; omega) (hG.lineVol M g r _)
  have hy : y - (r * M - g) + (r * M - g) = y := by omega
  have e : (lineCol G M g r).dy (y - (r * M - g)) * (lineCol G M g r).J (y - (r * M - g)) = G.dy y * G.J y := by
    unfold lineCol Col.shift; simp only [hy]
  rw [e] at hcell
  rw [eq_div_iff (hG.vol y), hcell]
  have hrM : (r : Int) * M + M ≤ p * M := by
    have := Int.mul_le_mul_of_nonneg_right (show (r : Int) + 1 ≤ p by omega) (show (0 : Int) ≤ M by omega)
    rwa [Int.add_mul, Int.one_mul] at this
  have hlast : (r + 1 = p ∧ y - (r * M - g) = g + M - 1) ↔ y = p * M - 1 := by
    constructor
    · rintro ⟨rfl, h⟩
      push_cast
      rw [Int.add_mul, Int.one_mul]
      omega
    · intro h
      have hrp : r + 1 = p := by
        by_contra hne
        have := Int.mul_le_mul_of_nonneg_right (show (r : Int) + 1 + 1 ≤ p by omega) (show (0 : Int) ≤ M by omega)
        rw [Int.add_mul, Int.add_mul, Int.one_mul] at this
        omega
      refine ⟨hrp, ?_⟩
      have : (p : Int) * M = r * M + M := by rw [← hrp]; push_cast; rw [Int.add_mul, Int.one_mul]
      omega
  have hfirst : (r = 0 ∧ y - (r * M - g) - 1 + 1 = g) ↔ y = 0 := by
    constructor
    · rintro ⟨rfl, h⟩
      simp only [Nat.cast_zero, Int.zero_mul] at h
      omega
    · intro h
      have hr0 : r = 0 := by
        by_contra hne
        have := Int.mul_le_mul_of_nonneg_right (show (1 : Int) ≤ r by omega) (show (0 : Int) ≤ M by omega)
        rw [Int.one_mul] at this
        omega
      subst hr0
      simp only [Nat.cast_zero, Int.zero_mul, true_and]
      omega
  have A : faceFlux (lineRank p M g false r) fixflux edges (lineCol G M g r) (y - (r * M - g)) =
      area G y * (if y = p * M - 1 then upperBoundaryFlux fixflux edges G y else innerFlux edges G y) := by
    unfold faceFlux lineCol
    rw [area_shift, upper_shift, innerFlux_shift, hy]
    congr 1
    by_cases hl : y = p * M - 1
    · rw [if_pos hl, if_pos]
      obtain ⟨a, b⟩ := hlast.2 hl
      simp only [lineRank, decide_eq_true_eq]
      exact ⟨a, trivial, b⟩
    · rw [if_neg hl, if_neg, if_neg]
      · simp only [lineRank]; omega
      · simp only [lineRank, decide_eq_true_eq]
        rintro ⟨a, _, b⟩
        exact hl (hlast.1 ⟨a, b⟩)
  have B : faceFlux (lineRank p M g false r) fixflux edges (lineCol G M g r) (y - (r * M - g) - 1) =
      area G (y - 1) * (if y = 0 then lowerBoundaryFlux fixflux edges G y else innerFlux edges G (y - 1)) := by
    unfold faceFlux lineCol
    rw [area_shift, upper_shift, lower_shift, innerFlux_shift, show y - (↑r * ↑M - g) - 1 + (↑r * ↑M - g) = y - 1 by omega,
      show y - (↑r * ↑M - g) - 1 + 1 + (↑r * ↑M - g) = y by omega]
    congr 1
    rw [if_neg (by simp only [lineRank]; omega)]
    by_cases hl : y = 0
    · rw [if_pos hl, if_pos]
      obtain ⟨a, b⟩ := hfirst.2 hl
      simp only [lineRank, decide_eq_true_eq]
      exact ⟨a, trivial, b⟩
    · rw [if_neg hl, if_neg]
      simp only [lineRank, decide_eq_true_eq]
      rintro ⟨a, _, b⟩
      exact hl (hfirst.1 ⟨a, b⟩)
  rw [A, B]

/-- **C29.** Consistency: for a constant field the numerical flux is the field times the velocity on the face,
whatever the wave speed, for every reconstruction that reproduces constants (C28). -/
theorem C29_flux_consistent (c v a : K) : laxFlux c c v a = c * v := by
  unfold laxFlux
  split_ifs
  · rfl
  · rfl
  · ring

end Verif.Num
