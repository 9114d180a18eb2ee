import Verif.Invert.Pcr
import Mathlib.LinearAlgebra.FiniteDimensional.Lemmas
import Mathlib.Tactic.FieldSimp
import Mathlib.Tactic.LinearCombination

/-!
# C66: the reduction and the substitution
-/
namespace Verif.Pcr
open Verif.Cyclic

variable {K : Type} [Field K]

/-- A loop that writes each of its indices once, from values that it does not write (or from the old value there), is one
simultaneous write. -/
theorem foldl_upd {R : Type} (f : (Nat → R) → Nat → R) (A : Nat → Prop)
    (hloc : ∀ i, A i → ∀ s s' : Nat → R, (∀ j, (¬ A j ∨ j = i) → s j = s' j) → f s i = f s' i) :
    ∀ (L : List Nat), L.Nodup → (∀ i ∈ L, A i) → ∀ (s : Nat → R) (j : Nat),
      L.foldl (fun s i => upd s i (f s i)) s j = if j ∈ L then f s j else s j := by
  intro L
  induction L with
  | nil => intro _ _ s j; simp
  | cons i t ih =>
    intro hnd hA s j
    rw [List.foldl_cons, ih (List.nodup_cons.mp hnd).2 (fun k hk => hA k (List.mem_cons_of_mem _ hk))]
    have hit := (List.nodup_cons.mp hnd).1
    by_cases hj : j ∈ t
    · rw [if_pos hj, if_pos (List.mem_cons_of_mem _ hj)]
      apply hloc j (hA j (List.mem_cons_of_mem _ hj))
      intro k hk
      unfold upd
      by_cases hki : k = i
      · rcases hk with hk | hk
        · exact absurd (hA i List.mem_cons_self) (hki ▸ hk)
        · subst hki; subst hk; exact absurd hj hit
      · rw [if_neg hki]
    · rw [if_neg hj]
      unfold upd
      by_cases hji : j = i
      · rw [if_pos hji, if_pos (by rw [hji]; exact List.mem_cons_self), hji]
      · rw [if_neg hji, if_neg (by simp [hji, hj])]

theorem mem_crIdx {n d : Nat} (hd : 1 ≤ d) (i : Nat) : i ∈ crIdx n d ↔ 2 * d ∣ i ∧ 1 ≤ i ∧ i ≤ n := by
  unfold crIdx
  simp only [List.mem_map, List.mem_range]
  constructor
  · rintro ⟨k, hk, rfl⟩
    refine ⟨Dvd.intro _ rfl, Nat.mul_pos (by omega) (by omega), ?_⟩
    calc 2 * d * (k + 1) ≤ 2 * d * (n / (2 * d)) := Nat.mul_le_mul_left _ hk
      _ ≤ n := Nat.mul_div_le _ _
  · rintro ⟨⟨m, rfl⟩, h1, h2⟩
    have hm : 1 ≤ m := by
      rcases Nat.eq_zero_or_pos m with rfl | h
      · simp at h1
      · exact h
    refine ⟨m - 1, ?_, by rw [Nat.sub_add_cancel hm]⟩
    have : m ≤ n / (2 * d) := (Nat.le_div_iff_mul_le (by omega)).mpr (by rw [Nat.mul_comm]; exact h2)
    omega

theorem nodup_crIdx {n d : Nat} (hd : 1 ≤ d) : (crIdx n d).Nodup := by
  unfold crIdx
  refine List.Nodup.map ?_ List.nodup_range
  intro a b h
  have := Nat.eq_of_mul_eq_mul_left (show 0 < 2 * d by omega) h
  omega

theorem mem_backIdx {n d : Nat} (hd : 1 ≤ d) (hn : 2 * d ∣ n) (hn1 : 1 ≤ n) (i : Nat) :
    i ∈ backIdx n d ↔ d ∣ i ∧ ¬ 2 * d ∣ i ∧ i < n := by
  obtain ⟨m, rfl⟩ := hn
  have hm : 1 ≤ m := by
    rcases Nat.eq_zero_or_pos m with rfl | h
    · simp at hn1
    · exact h
  obtain ⟨q, rfl⟩ : ∃ q, m = q + 1 := ⟨m - 1, by omega⟩
  have hcount : (2 * d * (q + 1) - d) / (2 * d) = q := by
    have e : 2 * d * (q + 1) - d = d + 2 * d * q := by
      have : 2 * d * (q + 1) = 2 * d * q + 2 * d := by ring
      omega
    rw [e, Nat.add_mul_div_left _ _ (by omega), Nat.div_eq_of_lt (by omega), Nat.zero_add]
  unfold backIdx
  rw [hcount]
  simp only [List.mem_map, List.mem_range]
  constructor
  · rintro ⟨k, hk, rfl⟩
    obtain ⟨j, rfl⟩ : ∃ j, q = k + j := ⟨q - k, by omega⟩
    have e : 2 * d * (k + j + 1) - d - 2 * d * k = d * (2 * j + 1) := by
      have e1 : 2 * d * (k + j + 1) = 2 * d * k + (d * (2 * j + 1) + d) := by ring
      omega
    rw [e]
    refine ⟨Dvd.intro _ rfl, ?_, ?_⟩
    · rintro ⟨c, hc⟩
      have : d * (2 * j + 1) = d * (2 * c) := by rw [hc]; ring
      have := Nat.eq_of_mul_eq_mul_left (by omega) this
      omega
    · have e1 : 2 * d * (k + j + 1) = 2 * d * k + (d * (2 * j + 1) + d) := by ring
      omega
  · rintro ⟨⟨c, rfl⟩, h2, h3⟩
    have hodd : c % 2 = 1 := by
      by_contra h
      exact h2 ⟨c / 2, by rw [show c = 2 * (c / 2) by omega]; rw [show 2 * (c / 2) / 2 = c / 2 by omega]; ring⟩
    obtain ⟨j, rfl⟩ : ∃ j, c = 2 * j + 1 := ⟨c / 2, by omega⟩
    have hj : j ≤ q := by
      by_contra h
      have : 2 * d * (q + 1) ≤ d * (2 * j + 1) := by
        calc 2 * d * (q + 1) = d * (2 * (q + 1)) := by ring
          _ ≤ d * (2 * j + 1) := Nat.mul_le_mul_left _ (by omega)
      omega
    obtain ⟨k, rfl⟩ : ∃ k, q = k + j := ⟨q - j, by omega⟩
    refine ⟨k, by omega, ?_⟩
    have e1 : 2 * d * (k + j + 1) = 2 * d * k + (d * (2 * j + 1) + d) := by ring
    omega

theorem nodup_backIdx {n d : Nat} (hd : 1 ≤ d) : (backIdx n d).Nodup := by
  unfold backIdx
  rw [List.nodup_iff_injective_getElem]
  intro a b h
  simp only [List.getElem_map, List.getElem_range] at h
  have ha := a.2
  have hb := b.2
  simp only [List.length_map, List.length_range] at ha hb
  have h1 : 2 * d * a.1 ≤ n - d := by
    calc 2 * d * a.1 ≤ 2 * d * ((n - d) / (2 * d)) := Nat.mul_le_mul_left _ (by omega)
      _ ≤ n - d := Nat.mul_div_le _ _
  have h2 : 2 * d * b.1 ≤ n - d := by
    calc 2 * d * b.1 ≤ 2 * d * ((n - d) / (2 * d)) := Nat.mul_le_mul_left _ (by omega)
      _ ≤ n - d := Nat.mul_div_le _ _
  have h3 : 2 * d * a.1 = 2 * d * b.1 := by
    generalize 2 * d * a.1 = u at *
    generalize 2 * d * b.1 = v at *
    omega
  exact Fin.ext (Nat.eq_of_mul_eq_mul_left (by omega) h3)

/-- One level of cyclic reduction, all rows at once. -/
theorem crLevel_eq {P n d : Nat} (hd : 1 ≤ d) (w : Nat → Nat → Row K) (p j : Nat) :
    crLevel P n d w p j = if 2 * d ∣ j ∧ 1 ≤ j ∧ j ≤ n then
      reduce (crExchange P n d w p (j - d)) (crExchange P n d w p j) (crExchange P n d w p (min (j + d) (n + 1)))
    else crExchange P n d w p j := by
  unfold crLevel crLoop
  have key := foldl_upd (R := Row K) (fun s i => reduce (s (i - d)) (s i) (s (min (i + d) (n + 1))))
    (fun i => 2 * d ∣ i ∧ 1 ≤ i ∧ i ≤ n) (by
      rintro i ⟨⟨c, rfl⟩, h1, h2⟩ s s' hs
      have hc : 1 ≤ c := by
        rcases Nat.eq_zero_or_pos c with rfl | h
        · simp at h1
        · exact h
      rw [hs (2 * d * c) (Or.inr rfl), hs (2 * d * c - d) (Or.inl ?_), hs (min (2 * d * c + d) (n + 1)) (Or.inl ?_)]
      · rintro ⟨⟨e, he⟩, h3, h4⟩
        by_cases h5 : 2 * d * c + d ≤ n + 1
        · rw [Nat.min_eq_left h5] at he
          have : d * (2 * c + 1) = d * (2 * e) := by
            rw [show d * (2 * c + 1) = 2 * d * c + d by ring, he]; ring
          have := Nat.eq_of_mul_eq_mul_left (by omega) this
          omega
        · rw [Nat.min_eq_right (by omega)] at h4
          omega
      · rintro ⟨⟨e, he⟩, h3, h4⟩
        obtain ⟨c', rfl⟩ : ∃ c', c = c' + 1 := ⟨c - 1, by omega⟩
        have : d * (2 * c' + 1) = d * (2 * e) := by
          have e1 : 2 * d * (c' + 1) = d * (2 * c' + 1) + d := by ring
          have e2 : d * (2 * e) = 2 * d * e := by ring
          omega
        have := Nat.eq_of_mul_eq_mul_left (by omega) this
        omega)
    (crIdx n d) (nodup_crIdx hd) (fun i hi => (mem_crIdx hd i).mp hi) (crExchange P n d w p) j
  rw [key]
  simp only [mem_crIdx hd]

/-- One level of substitution, all values at once. -/
theorem backLevel_eq {n d : Nat} (hd : 1 ≤ d) (hn : 2 * d ∣ n) (hn1 : 1 ≤ n) (s : Nat → Row K) (x : Nat → K) (j : Nat) :
    backLevel n d s x j = if d ∣ j ∧ ¬ 2 * d ∣ j ∧ j < n then backVal (s j) (x (j - d)) (x (j + d)) else x j := by
  unfold backLevel
  have key := foldl_upd (R := K) (fun x i => backVal (s i) (x (i - d)) (x (i + d)))
    (fun i => d ∣ i ∧ ¬ 2 * d ∣ i ∧ i < n) (by
      rintro i ⟨⟨c, rfl⟩, h1, h2⟩ y y' hy
      have hodd : c % 2 = 1 := by
        by_contra h
        exact h1 ⟨c / 2, by rw [show c = 2 * (c / 2) by omega]; rw [show 2 * (c / 2) / 2 = c / 2 by omega]; ring⟩
      obtain ⟨m, rfl⟩ : ∃ m, c = 2 * m + 1 := ⟨c / 2, by omega⟩
      rw [hy (d * (2 * m + 1) - d) (Or.inl ?_), hy (d * (2 * m + 1) + d) (Or.inl ?_)]
      · rintro ⟨-, h3, -⟩
        exact h3 ⟨m + 1, by ring⟩
      · rintro ⟨-, h3, -⟩
        refine h3 ⟨m, ?_⟩
        have : d * (2 * m + 1) = 2 * d * m + d := by ring
        omega)
    (backIdx n d) (nodup_backIdx hd) (fun i hi => (mem_backIdx hd hn hn1 i).mp hi) x j
  rw [key]
  simp only [mem_backIdx hd hn hn1]

/-! ## The equations at distance `d` -/

/-- The value `d` points before row `i` of processor `p`, across processor boundaries; 0 before the first point. -/
def prv (n d : Nat) (x : Nat → Nat → K) (p i : Nat) : K :=
  if i = d then (if p = 0 then 0 else x (p - 1) n) else x p (i - d)

/-- The value `d` points after row `i` of processor `p`; 0 after the last point. -/
def nxt (P n d : Nat) (x : Nat → Nat → K) (p i : Nat) : K :=
  if i = n then (if p + 1 < P then x (p + 1) d else 0) else x p (i + d)

/-- `x` solves the rows that are multiples of `d`, which couple points at distance `d`. -/
def E (P n d : Nat) (w : Nat → Nat → Row K) (x : Nat → Nat → K) : Prop :=
  ∀ p, p < P → ∀ i, 1 ≤ i → i ≤ n → d ∣ i → (w p i).Holds (prv n d x p i) (x p i) (nxt P n d x p i)

theorem reduce_holds {ip row inn : Row K} {xa xb xc xd xe : K} (h1 : ip.b ≠ 0) (h2 : inn.b ≠ 0)
    (hip : ip.Holds xa xb xc) (hin : inn.Holds xc xd xe) (h : (reduce ip row inn).Holds xa xc xe) :
    row.Holds xb xc xd := by
  unfold Row.Holds reduce combine at *
  dsimp only at h
  have e1 : row.a = row.a / ip.b * ip.b := by field_simp
  have e2 : row.c = row.c / inn.b * inn.b := by field_simp
  rw [e1, e2]
  have e3 : -row.a / ip.b = -(row.a / ip.b) := by ring
  have e4 : -row.c / inn.b = -(row.c / inn.b) := by ring
  rw [e3, e4] at h
  linear_combination h + row.a / ip.b * hip + row.c / inn.b * hin

/-- One level backwards: the odd rows and the reduced rows give the rows of the level. -/
theorem E_step {P n d : Nat} (hd : 1 ≤ d) (hn : 2 * d ∣ n) (hn1 : 1 ≤ n) {w : Nat → Nat → Row K}
    (hdum : w (P - 1) (n + 1) = dummy) (hok : CrOK P n d w) {x : Nat → Nat → K}
    (h2 : E P n (2 * d) (crLevel P n d w) x)
    (hodd : ∀ p, p < P → ∀ i, 1 ≤ i → i ≤ n → d ∣ i → ¬ 2 * d ∣ i →
      (w p i).Holds (prv n d x p i) (x p i) (nxt P n d x p i)) :
    E P n d w x := by
  intro p hp i hi1 hi2 hdi
  by_cases he : 2 * d ∣ i
  swap
  · exact hodd p hp i hi1 hi2 hdi he
  have hred := h2 p hp i hi1 hi2 he
  rw [crLevel_eq hd, if_pos ⟨he, hi1, hi2⟩] at hred
  obtain ⟨c, rfl⟩ := he
  have hc : 1 ≤ c := by
    rcases Nat.eq_zero_or_pos c with rfl | h
    · simp at hi1
    · exact h
  obtain ⟨hb1, hb2⟩ := hok p hp _ ((mem_crIdx hd _).mpr ⟨⟨c, rfl⟩, hi1, hi2⟩)
  obtain ⟨c', rfl⟩ : ∃ c', c = c' + 1 := ⟨c - 1, by omega⟩
  obtain ⟨m, hm⟩ := hn
  have e1 : 2 * d * (c' + 1) = 2 * d * c' + 2 * d := by ring
  have hi : 2 * d * c' + d < n := by omega
  -- the row before
  have x1 : crExchange P n d w p (2 * d * (c' + 1) - d) = w p (2 * d * c' + d) := by
    unfold crExchange
    rw [if_neg (by omega), e1]
    congr 1
    omega
  have x2 : crExchange P n d w p (2 * d * (c' + 1)) = w p (2 * d * (c' + 1)) := by
    unfold crExchange
    rw [if_neg (by omega)]
  rw [x1] at hb1
  rw [x1, x2] at hred
  have n1 : ¬ 2 * d ∣ 2 * d * c' + d := by
    rintro ⟨e, he⟩
    have : d * (2 * c' + 1) = d * (2 * e) := by
      rw [show d * (2 * c' + 1) = 2 * d * c' + d by ring, he]; ring
    have := Nat.eq_of_mul_eq_mul_left (by omega) this
    omega
  have hip := hodd p hp (2 * d * c' + d) (by omega) (by omega) ⟨2 * c' + 1, by ring⟩ n1
  have t1 : nxt P n d x p (2 * d * c' + d) = x p (2 * d * (c' + 1)) := by
    unfold nxt
    rw [if_neg (by omega), e1]
    congr 1
    omega
  have t2 : prv n d x p (2 * d * c' + d) = prv n (2 * d) x p (2 * d * (c' + 1)) := by
    unfold prv
    rw [e1]
    generalize 2 * d * c' = u
    by_cases hz : u = 0
    · rw [if_pos (show u + d = d by omega), if_pos (show u + 2 * d = 2 * d by omega)]
    · rw [if_neg (show ¬ u + d = d by omega), if_neg (show ¬ u + 2 * d = 2 * d by omega)]
      congr 1
      omega
  rw [t1, t2] at hip
  have t3 : prv n d x p (2 * d * (c' + 1)) = x p (2 * d * c' + d) := by
    unfold prv
    rw [if_neg (by omega), e1]
    congr 1
    omega
  rw [t3]
  by_cases hin : 2 * d * (c' + 1) = n
  · -- the last row of the processor
    have hmin : min (2 * d * (c' + 1) + d) (n + 1) = n + 1 := by omega
    rw [hmin] at hb2 hred
    by_cases hP : p + 1 < P
    · have x3 : crExchange P n d w p (n + 1) = w (p + 1) d := by
        unfold crExchange
        rw [if_pos ⟨rfl, hP⟩]
      rw [x3] at hb2 hred
      have nd : ¬ 2 * d ∣ d := fun h => absurd (Nat.le_of_dvd hd h) (by omega)
      have hnext := hodd (p + 1) hP d hd (by omega) ⟨1, by ring⟩ nd
      have t4 : prv n d x (p + 1) d = x p (2 * d * (c' + 1)) := by
        unfold prv
        rw [if_pos rfl, if_neg (by omega), hin]
        rfl
      have t5 : nxt P n d x (p + 1) d = nxt P n (2 * d) x p (2 * d * (c' + 1)) := by
        unfold nxt
        rw [if_neg (by omega), if_pos hin, if_pos hP]
        congr 1
        omega
      rw [t4, t5] at hnext
      have t6 : nxt P n d x p (2 * d * (c' + 1)) = x (p + 1) d := by
        unfold nxt
        rw [if_pos hin, if_pos hP]
      rw [t6]
      exact reduce_holds hb1 hb2 hip hnext hred
    · have hpl : p = P - 1 := by omega
      have x3 : crExchange P n d w p (n + 1) = dummy := by
        unfold crExchange
        rw [if_neg (by omega), hpl, hdum]
      rw [x3] at hb2 hred
      have t6 : nxt P n d x p (2 * d * (c' + 1)) = 0 := by
        unfold nxt
        rw [if_pos hin, if_neg hP]
      have t7 : nxt P n (2 * d) x p (2 * d * (c' + 1)) = 0 := by
        unfold nxt
        rw [if_pos hin, if_neg hP]
      rw [t7] at hred
      rw [t6]
      refine reduce_holds hb1 hb2 hip ?_ hred
      unfold Row.Holds dummy
      ring
  · have e2 : 2 * d * (c' + 1) + d < n := by
      have : 2 * d * (c' + 1) < 2 * d * m := by omega
      have := Nat.lt_of_mul_lt_mul_left this
      have : 2 * d * (c' + 1 + 1) ≤ 2 * d * m := Nat.mul_le_mul_left _ this
      have : 2 * d * (c' + 1 + 1) = 2 * d * (c' + 1) + 2 * d := by ring
      omega
    have hmin : min (2 * d * (c' + 1) + d) (n + 1) = 2 * d * (c' + 1) + d := by omega
    rw [hmin] at hb2 hred
    have x3 : crExchange P n d w p (2 * d * (c' + 1) + d) = w p (2 * d * (c' + 1) + d) := by
      unfold crExchange
      rw [if_neg (by omega)]
    rw [x3] at hb2 hred
    have n2 : ¬ 2 * d ∣ 2 * d * (c' + 1) + d := by
      rintro ⟨e, he⟩
      have : d * (2 * (c' + 1) + 1) = d * (2 * e) := by
        rw [show d * (2 * (c' + 1) + 1) = 2 * d * (c' + 1) + d by ring, he]; ring
      have := Nat.eq_of_mul_eq_mul_left (by omega) this
      omega
    have hnext := hodd p hp (2 * d * (c' + 1) + d) (by omega) (by omega) ⟨2 * (c' + 1) + 1, by ring⟩ n2
    have t4 : prv n d x p (2 * d * (c' + 1) + d) = x p (2 * d * (c' + 1)) := by
      unfold prv
      rw [if_neg (by omega), Nat.add_sub_cancel]
    have t5 : nxt P n d x p (2 * d * (c' + 1) + d) = nxt P n (2 * d) x p (2 * d * (c' + 1)) := by
      unfold nxt
      rw [if_neg (by omega), if_neg hin]
      congr 1
      omega
    rw [t4, t5] at hnext
    have t6 : nxt P n d x p (2 * d * (c' + 1)) = x p (2 * d * (c' + 1) + d) := by
      unfold nxt
      rw [if_neg hin]
    rw [t6]
    exact reduce_holds hb1 hb2 hip hnext hred

/-! ## What the levels leave alone -/

theorem crForward_keeps {P n : Nat} (w : Nat → Nat → Row K) (l : Nat) :
    (∀ p, crForward P n w l p 0 = w p 0) ∧ crForward P n w l (P - 1) (n + 1) = w (P - 1) (n + 1) := by
  induction l with
  | zero => exact ⟨fun _ => rfl, rfl⟩
  | succ l ih =>
    rw [crForward]
    refine ⟨fun p => ?_, ?_⟩
    · rw [crLevel_eq Nat.one_le_two_pow, if_neg (by omega)]
      unfold crExchange
      rw [if_neg (by omega), ih.1]
    · rw [crLevel_eq Nat.one_le_two_pow, if_neg (by omega)]
      unfold crExchange
      rw [if_neg (by omega), ih.2]

theorem crForward_odd {P n : Nat} (w : Nat → Nat → Row K) (l k p i : Nat) (hi : i ≤ n) (h : ¬ 2 ^ (l + 1) ∣ i) :
    crForward P n w (l + k) p i = crForward P n w l p i := by
  induction k with
  | zero => rfl
  | succ k ih =>
    rw [← Nat.add_assoc, crForward, crLevel_eq Nat.one_le_two_pow, if_neg, crExchange, if_neg (by omega), ih]
    rintro ⟨h1, -, -⟩
    refine h (dvd_trans ?_ h1)
    rw [← pow_succ']
    exact pow_dvd_pow 2 (by omega)

theorem pcrForward_keeps {P n : Nat} (w : Nat → Nat → Row K) (l p i : Nat) (h1 : 1 ≤ i) (h2 : i < n) :
    pcrForward P n w l p i = w p i := by
  induction l with
  | zero => rfl
  | succ l ih =>
    rw [pcrForward, pcrLevel, upd, if_neg (by omega), pcrExchange, if_neg (by omega), if_neg (by omega), ih]

/-! ## Substitution -/

/-- The equations of the rows that the levels `l` and above leave. -/
def OddEq (n L : Nat) (s : Nat → Row K) (l : Nat) (x : Nat → K) : Prop :=
  ∀ k, l ≤ k → k < L → ∀ i, 2 ^ k ∣ i → ¬ 2 ^ (k + 1) ∣ i → i < n →
    (s i).Holds (x (i - 2 ^ k)) (x i) (x (i + 2 ^ k))

theorem backVal_holds {row : Row K} (h : row.b ≠ 0) (xm xp : K) : row.Holds xm (backVal row xm xp) xp := by
  unfold Row.Holds backVal
  field_simp
  ring

theorem backLoop_spec {n L : Nat} (hn1 : 1 ≤ n) (hL : 2 ^ L ∣ n) (s : Nat → Row K)
    (hb : ∀ i, 1 ≤ i → i < n → (s i).b ≠ 0) :
    ∀ l, l ≤ L → ∀ x : Nat → K, OddEq n L s l x →
      OddEq n L s 0 (backLoop n s l x) ∧ backLoop n s l x 0 = x 0 ∧ backLoop n s l x n = x n := by
  intro l
  induction l with
  | zero => intro _ x hx; exact ⟨hx, rfl, rfl⟩
  | succ l ih =>
    intro hl x hx
    have hd : 1 ≤ 2 ^ l := Nat.one_le_two_pow
    have hn : 2 * 2 ^ l ∣ n := by
      rw [← pow_succ']
      exact dvd_trans (pow_dvd_pow 2 hl) hL
    have hval := backLevel_eq hd hn hn1 s x
    have key : OddEq n L s l (backLevel n (2 ^ l) s x) := by
      intro k hk1 hk2 i h1 h2 h3
      rcases Nat.lt_or_ge l k with hlk | hlk
      · -- a level above: its points are not written
        have hdvd : 2 * 2 ^ l ∣ 2 ^ k := by rw [← pow_succ']; exact pow_dvd_pow 2 hlk
        have keep : ∀ j, 2 ^ k ∣ j → backLevel n (2 ^ l) s x j = x j := fun j hj => by
          rw [hval, if_neg]
          rintro ⟨-, h, -⟩
          exact h (dvd_trans hdvd hj)
        rw [keep i h1, keep (i - 2 ^ k) (Nat.dvd_sub h1 (dvd_refl _)), keep (i + 2 ^ k) (Dvd.dvd.add h1 (dvd_refl _))]
        exact hx k hlk hk2 i h1 h2 h3
      · obtain rfl : k = l := by omega
        rw [pow_succ'] at h2
        have e0 : backLevel n (2 ^ k) s x i = backVal (s i) (x (i - 2 ^ k)) (x (i + 2 ^ k)) := by
          rw [hval, if_pos ⟨h1, h2, h3⟩]
        have keep : ∀ j, 2 * 2 ^ k ∣ j → backLevel n (2 ^ k) s x j = x j := fun j hj => by
          rw [hval, if_neg]
          rintro ⟨-, h, -⟩
          exact h hj
        have hi1 : 1 ≤ i := by
          rcases Nat.eq_zero_or_pos i with rfl | h
          · exact absurd (dvd_zero _) h2
          · exact h
        obtain ⟨c, rfl⟩ := h1
        have hodd : c % 2 = 1 := by
          by_contra h
          refine h2 ⟨c / 2, ?_⟩
          rw [mul_assoc, mul_left_comm]
          congr 1
          omega
        rw [e0, keep, keep]
        · exact backVal_holds (hb _ hi1 h3) _ _
        · refine ⟨(c + 1) / 2, ?_⟩
          rw [mul_assoc, mul_left_comm, ← Nat.mul_succ]
          congr 1
          omega
        · refine ⟨(c - 1) / 2, ?_⟩
          rw [mul_assoc, mul_left_comm]
          have : 2 * ((c - 1) / 2) = c - 1 := by omega
          rw [this, Nat.mul_sub_one]
    obtain ⟨r1, r2, r3⟩ := ih (by omega) _ key
    rw [backLoop]
    refine ⟨r1, ?_, ?_⟩
    · rw [r2, hval, if_neg]
      rintro ⟨-, h, -⟩
      exact h (dvd_zero _)
    · rw [r3, hval, if_neg]
      rintro ⟨-, -, h⟩
      omega

end Verif.Pcr
