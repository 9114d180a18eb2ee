/-
The flux surface through a processor, in processor coordinates: which processors of a column
share a field line, following the topology specification `upNeighbour`.
-/
import Verif.Mesh.Connect
import Verif.Mesh.Closed
import Verif.Mesh.YComm
import Mathlib.Tactic.SplitIfs

namespace Verif.Mesh

open Verif

/-- Specification: a row of processor `p` and a row of processor `q` lie on one field line at
radial position `x`. -/
def SameSurface (c : Cfg) (x p q : Int) : Prop :=
  ∃ r r' : Int, 0 ≤ r ∧ r < c.MYSUB ∧ 0 ≤ r' ∧ r' < c.MYSUB ∧
    ((∃ n, followUp c x n (p * c.MYSUB + r) = some (q * c.MYSUB + r')) ∨
     (∃ n, followUp c x n (q * c.MYSUB + r') = some (p * c.MYSUB + r)))

/-- The processor after `p`. -/
def upQ (c : Cfg) (a b k d e x p : Int) : Option Int :=
  if x < c.ixseps1 ∧ p = e - 1 then some a
  else if x < c.ixseps1 ∧ p = a - 1 then some e
  else if DoubleNull c ∧ x < c.ixseps2 ∧ p = b - 1 then some d
  else if DoubleNull c ∧ x < c.ixseps2 ∧ p = d - 1 then some b
  else if DoubleNull c ∧ p = k - 1 then none
  else if p = c.NYPE - 1 then none
  else some (p + 1)

section
variable {c : Cfg} (h : Layout c) {a b k d e : Int} (hc : Cuts c a b k d e)
include h hc

/-- The last row of a processor goes to the first row of the next one on the field line. -/
theorem upNeighbour_last (x p : Int) :
    upNeighbour c x (p * c.MYSUB + (c.MYSUB - 1)) = (upQ c a b k d e x p).map fun q => q * c.MYSUB := by
  obtain ⟨_, _, ey, hM⟩ := h.sizes.split
  have E := last_row_eq (p := p) hM hc.he
  have A := last_row_eq (p := p) hM hc.ha
  have N := last_row_eq (p := p) (q := c.NYPE) (j := c.ny - 1) hM (by omega)
  unfold upNeighbour upQ
  simp only [E, A, N]
  by_cases dn : DoubleNull c
  · have B := last_row_eq (p := p) hM (hc.hb dn)
    have D := last_row_eq (p := p) hM (hc.hd dn)
    have Kk := last_row_eq (p := p) (q := k) (j := c.ny_inner - 1) hM (by have := hc.hk dn; omega)
    simp only [B, D, Kk]
    have := hc.ha; have := hc.he; have := hc.hb dn; have := hc.hd dn
    split_ifs <;> simp only [Option.map] <;> first | rfl | (congr 1 <;> first | omega | (rw [Int.add_mul]; omega))
  · simp only [dn, false_and, if_false]
    have := hc.ha; have := hc.he
    split_ifs <;> simp only [Option.map] <;> first | rfl | (congr 1 <;> first | omega | (rw [Int.add_mul]; omega))

/-- Inside a processor the field line goes from row to row. -/
theorem upNeighbour_inside (x p r : Int) (h1 : r < c.MYSUB - 1) (h0 : 0 ≤ r) :
    upNeighbour c x (p * c.MYSUB + r) = some (p * c.MYSUB + r + 1) := by
  obtain ⟨_, _, ey, hM⟩ := h.sizes.split
  have key : ∀ q j : Int, j + 1 = q * c.MYSUB → p * c.MYSUB + r ≠ j := by
    intro q j hj hh
    have e1 : (q - p) * c.MYSUB = r + 1 := by rw [Int.sub_mul]; omega
    have hlt : (q - p) * c.MYSUB < 1 * c.MYSUB := by omega
    have hgt : 0 * c.MYSUB < (q - p) * c.MYSUB := by omega
    have := mul_lt_imp hM hlt
    have := mul_lt_imp hM hgt
    omega
  have E := key _ _ hc.he
  have A := key _ _ hc.ha
  have N := key c.NYPE (c.ny - 1) (by omega)
  unfold upNeighbour
  rw [if_neg (fun hh => E hh.2), if_neg (fun hh => A hh.2),
    if_neg (fun hh => key _ _ (hc.hb hh.1) hh.2.2), if_neg (fun hh => key _ _ (hc.hd hh.1) hh.2.2),
    if_neg (fun hh => key k (c.ny_inner - 1) (by have := hc.hk hh.1; omega) hh.2), if_neg N]

end

/-- `q` is reached from `p` going up. -/
inductive ReachQ (c : Cfg) (a b k d e x : Int) : Int → Int → Prop where
  | refl (p : Int) : ReachQ c a b k d e x p p
  | step (p q r : Int) : upQ c a b k d e x p = some q → ReachQ c a b k d e x q r → ReachQ c a b k d e x p r

theorem ReachQ.trans {c : Cfg} {a b k d e x p q r : Int} (h1 : ReachQ c a b k d e x p q)
    (h2 : ReachQ c a b k d e x q r) : ReachQ c a b k d e x p r := by
  induction h1 with
  | refl p => exact h2
  | step p q r' hu _ ih => exact .step _ _ _ hu (ih h2)

section
variable {c : Cfg} (h : Layout c) {a b k d e : Int} (hc : Cuts c a b k d e)
include h hc

theorem block_walk (x p r : Int) (h0 : 0 ≤ r) (h1 : r < c.MYSUB) :
    ∃ n, followUp c x n (p * c.MYSUB + r) = some (p * c.MYSUB + (c.MYSUB - 1)) := by
  refine ⟨_, followUp_to c x (p * c.MYSUB + r) (p * c.MYSUB + (c.MYSUB - 1)) (by omega) ?_⟩
  intro t ht1 ht2
  have := upNeighbour_inside h hc x p (t - p * c.MYSUB) (by omega) (by omega)
  rw [show p * c.MYSUB + (t - p * c.MYSUB) = t by omega] at this
  exact this

/-- Processors to rows. -/
theorem reachQ_rows (x p q : Int) (hr : ReachQ c a b k d e x p q) :
    ∃ n, followUp c x n (p * c.MYSUB) = some (q * c.MYSUB) := by
  obtain ⟨_, _, ey, hM⟩ := h.sizes.split
  induction hr with
  | refl p => exact ⟨0, rfl⟩
  | step p q r hu _ ih =>
      obtain ⟨n, hn⟩ := block_walk h hc x p 0 (by omega) hM
      obtain ⟨m, hm⟩ := ih
      have hl := upNeighbour_last h hc x p
      rw [hu] at hl
      refine ⟨n + (1 + m), ?_⟩
      rw [show p * c.MYSUB + 0 = p * c.MYSUB by omega] at hn
      rw [followUp_add, hn, Option.bind_some, followUp_add]
      simp only [followUp, hl, Option.map, Option.bind_some]
      exact hm

/-- Rows to processors. -/
theorem rows_reachQ (x : Int) (n : Nat) : ∀ (p r q r' : Int), 0 ≤ r → r < c.MYSUB → 0 ≤ r' → r' < c.MYSUB →
    followUp c x n (p * c.MYSUB + r) = some (q * c.MYSUB + r') → ReachQ c a b k d e x p q := by
  obtain ⟨_, _, ey, hM⟩ := h.sizes.split
  induction n with
  | zero =>
      intro p r q r' h0 h1 h0' h1' hf
      simp only [followUp, Option.some.injEq] at hf
      have e1 : (p - q) * c.MYSUB = r' - r := by rw [Int.sub_mul]; omega
      have hlt : (p - q) * c.MYSUB < 1 * c.MYSUB := by omega
      have hgt : (-1) * c.MYSUB < (p - q) * c.MYSUB := by omega
      have := mul_lt_imp hM hlt
      have := mul_lt_imp hM hgt
      have : p = q := by omega
      subst this
      exact .refl p
  | succ n ih =>
      intro p r q r' h0 h1 h0' h1' hf
      simp only [followUp] at hf
      by_cases hr : r < c.MYSUB - 1
      · rw [upNeighbour_inside h hc x p r hr h0, Option.bind_some] at hf
        exact ih p (r+1) q r' (by omega) (by omega) h0' h1' (by rw [← Int.add_assoc]; exact hf)
      · have er : r = c.MYSUB - 1 := by omega
        rw [er, upNeighbour_last h hc x p] at hf
        cases hu : upQ c a b k d e x p with
        | none => rw [hu] at hf; simp at hf
        | some q1 =>
            rw [hu] at hf
            simp only [Option.map, Option.bind_some] at hf
            exact .step _ _ _ hu (ih q1 0 q r' (by omega) hM h0' h1' (by rw [Int.add_zero]; exact hf))

theorem sameSurface_iff (x p q : Int) :
    SameSurface c x p q ↔ (ReachQ c a b k d e x p q ∨ ReachQ c a b k d e x q p) := by
  obtain ⟨_, _, ey, hM⟩ := h.sizes.split
  constructor
  · rintro ⟨r, r', h0, h1, h0', h1', ⟨n, hn⟩ | ⟨n, hn⟩⟩
    · exact Or.inl (rows_reachQ h hc x n p r q r' h0 h1 h0' h1' hn)
    · exact Or.inr (rows_reachQ h hc x n q r' p r h0' h1' h0 h1 hn)
  · rintro (hr | hr)
    · obtain ⟨n, hn⟩ := reachQ_rows h hc x p q hr
      exact ⟨0, 0, by omega, hM, by omega, hM, Or.inl ⟨n, by simpa using hn⟩⟩
    · obtain ⟨n, hn⟩ := reachQ_rows h hc x q p hr
      exact ⟨0, 0, by omega, hM, by omega, hM, Or.inr ⟨n, by simpa using hn⟩⟩
end

/-! ### The surfaces -/

/-- `lo, lo+1, …, hi-1`. -/
def ivl (lo hi : Int) : List Int := (List.range (hi - lo).toNat).map fun t : Nat => lo + t

theorem mem_ivl {lo hi q : Int} : q ∈ ivl lo hi ↔ lo ≤ q ∧ q < hi := by
  unfold ivl
  simp only [List.mem_map, List.mem_range]
  constructor
  · rintro ⟨t, ht, rfl⟩; omega
  · rintro ⟨h1, h2⟩; exact ⟨(q - lo).toNat, by omega, by omega⟩

/-- Which kind of surface passes through processor `p` at `x`. -/
inductive Kind where
  | lowerPF | upperPF | coreSN | coreDN | solSN | midLower | midUpper | solIn | solOut
deriving DecidableEq

/-- See `Kind`. -/
def kind (c : Cfg) (a b k d e x p : Int) : Kind :=
  if c.jyseps2_1 = c.jyseps1_2 then
    if x < c.ixseps1 then if p < a ∨ e ≤ p then .lowerPF else .coreSN
    else .solSN
  else if x < c.ixseps1 ∧ (p < a ∨ e ≤ p) then .lowerPF
  else if x < c.ixseps2 ∧ b ≤ p ∧ p < d then .upperPF
  else if x < c.ixseps1 ∧ x < c.ixseps2 then .coreDN
  else if x < c.ixseps2 then .midLower
  else if x < c.ixseps1 then .midUpper
  else if p < k then .solIn else .solOut

/-- The processors of a surface, in the order of the field line. -/
def surf (c : Cfg) (a b k d e : Int) : Kind → List Int
  | .lowerPF => ivl 0 a ++ ivl e c.NYPE
  | .upperPF => ivl k d ++ ivl b k
  | .coreSN => ivl a e
  | .coreDN => ivl a b ++ ivl d e
  | .solSN => ivl 0 c.NYPE
  | .midLower => ivl 0 b ++ ivl d c.NYPE
  | .midUpper => ivl k e ++ ivl a k
  | .solIn => ivl 0 k
  | .solOut => ivl k c.NYPE

section
variable {c : Cfg} {a b k d e : Int} (hc : Cuts c a b k d e)
include hc

theorem mem_surf_self (x p : Int) (h0 : 0 ≤ p) (h1 : p < c.NYPE) : p ∈ surf c a b k d e (kind c a b k d e x p) := by
  have := hc.a0; have := hc.ae; have := hc.eN
  unfold kind
  by_cases dn : c.jyseps2_1 = c.jyseps1_2
  · rw [if_pos dn]
    split_ifs <;> simp only [surf, List.mem_append, mem_ivl] <;> omega
  · have := hc.ab dn; have := hc.bk dn; have := hc.kd dn; have := hc.de dn
    rw [if_neg dn]
    split_ifs <;> simp only [surf, List.mem_append, mem_ivl] <;> omega

/-- Going up stays on the surface. -/
theorem kind_up (x p q : Int) (h0 : 0 ≤ p) (h1 : p < c.NYPE) (hu : upQ c a b k d e x p = some q) :
    kind c a b k d e x q = kind c a b k d e x p ∧ 0 ≤ q ∧ q < c.NYPE := by
  have := hc.a0; have := hc.ae; have := hc.eN; have := hc.legs
  unfold upQ at hu
  unfold DoubleNull at hu
  unfold kind
  by_cases dn : c.jyseps2_1 = c.jyseps1_2
  · simp only [dn, ne_eq, not_true_eq_false, false_and, if_false, if_true] at hu ⊢
    split_ifs at hu <;> (try cases hu) <;> (refine ⟨?_, by omega, by omega⟩) <;> split_ifs <;> first | rfl | omega
  · have := hc.ab dn; have := hc.bk dn; have := hc.kd dn; have := hc.de dn
    by_cases hx1 : x < c.ixseps1 <;> by_cases hx2 : x < c.ixseps2 <;>
      simp only [dn, hx1, hx2, ne_eq, not_false_eq_true, true_and, false_and, if_false, if_true] at hu ⊢ <;>
      split_ifs at hu <;> (try cases hu) <;> (refine ⟨?_, by omega, by omega⟩) <;> split_ifs <;> first | rfl | omega

theorem kind_reach (x p q : Int) (hr : ReachQ c a b k d e x p q) (h0 : 0 ≤ p) (h1 : p < c.NYPE) :
    kind c a b k d e x q = kind c a b k d e x p ∧ 0 ≤ q ∧ q < c.NYPE := by
  induction hr with
  | refl p => exact ⟨rfl, h0, h1⟩
  | step p q r hu _ ih =>
      obtain ⟨e1, l0, l1⟩ := kind_up hc x p q h0 h1 hu
      obtain ⟨e2, m0, m1⟩ := ih l0 l1
      exact ⟨e2.trans e1, m0, m1⟩

end

theorem reach_run {c : Cfg} {a b k d e x : Int} (p q : Int) (hpq : p ≤ q)
    (hs : ∀ t, p ≤ t → t < q → upQ c a b k d e x t = some (t + 1)) : ReachQ c a b k d e x p q := by
  obtain ⟨n, hn⟩ : ∃ n : Nat, q = p + n := ⟨(q - p).toNat, by omega⟩
  induction n generalizing p with
  | zero => have : p = q := by omega
            subst this; exact .refl p
  | succ m ih =>
      exact .step _ _ _ (hs p (by omega) (by omega)) (ih (p+1) (by omega) (fun t h1 h2 => hs t (by omega) h2) (by omega))

/-- Two runs joined end to start. -/
structure Joined (c : Cfg) (a b k d e x l1 h1 l2 h2 : Int) : Prop where
  run1 : ∀ t, l1 ≤ t → t < h1 - 1 → upQ c a b k d e x t = some (t + 1)
  run2 : ∀ t, l2 ≤ t → t < h2 - 1 → upQ c a b k d e x t = some (t + 1)
  join : l1 < h1 → l2 < h2 → upQ c a b k d e x (h1 - 1) = some l2

theorem Joined.reach {c : Cfg} {a b k d e x l1 h1 l2 h2 : Int} (J : Joined c a b k d e x l1 h1 l2 h2) {p q : Int}
    (hp : p ∈ ivl l1 h1 ++ ivl l2 h2) (hq : q ∈ ivl l1 h1 ++ ivl l2 h2) :
    ReachQ c a b k d e x p q ∨ ReachQ c a b k d e x q p := by
  have one : ∀ p q, p ∈ ivl l1 h1 → q ∈ ivl l2 h2 → ReachQ c a b k d e x p q := by
    intro p q hp hq
    rw [mem_ivl] at hp hq
    refine (reach_run p (h1 - 1) (by omega) (fun t a b => J.run1 t (by omega) b)).trans ?_
    exact .step _ _ _ (J.join (by omega) (by omega)) (reach_run l2 q (by omega) (fun t a b => J.run2 t a (by omega)))
  rw [List.mem_append] at hp hq
  rcases hp with hp | hp <;> rcases hq with hq | hq
  · rw [mem_ivl] at hp hq
    by_cases hle : p ≤ q
    · exact Or.inl (reach_run p q hle (fun t a b => J.run1 t (by omega) (by omega)))
    · exact Or.inr (reach_run q p (by omega) (fun t a b => J.run1 t (by omega) (by omega)))
  · exact Or.inl (one p q hp hq)
  · exact Or.inr (one q p hq hp)
  · rw [mem_ivl] at hp hq
    by_cases hle : p ≤ q
    · exact Or.inl (reach_run p q hle (fun t a b => J.run2 t (by omega) (by omega)))
    · exact Or.inr (reach_run q p (by omega) (fun t a b => J.run2 t (by omega) (by omega)))

/-- Each surface is two joined runs. -/
def runs (c : Cfg) (a b k d e : Int) : Kind → Int × Int × Int × Int
  | .lowerPF => (0, a, e, c.NYPE)
  | .upperPF => (k, d, b, k)
  | .coreSN => (a, e, 0, 0)
  | .coreDN => (a, b, d, e)
  | .solSN => (0, c.NYPE, 0, 0)
  | .midLower => (0, b, d, c.NYPE)
  | .midUpper => (k, e, a, k)
  | .solIn => (0, k, 0, 0)
  | .solOut => (k, c.NYPE, 0, 0)

theorem ivl_nil (l : Int) : ivl l l = [] := by simp [ivl]

theorem surf_runs (c : Cfg) (a b k d e : Int) (K : Kind) : surf c a b k d e K =
    ivl (runs c a b k d e K).1 (runs c a b k d e K).2.1 ++ ivl (runs c a b k d e K).2.2.1 (runs c a b k d e K).2.2.2 := by
  cases K <;> simp [surf, runs, ivl_nil]

theorem upQ_next {c : Cfg} {a b k d e x t : Int} (h1 : ¬ (x < c.ixseps1 ∧ t = e - 1)) (h2 : ¬ (x < c.ixseps1 ∧ t = a - 1))
    (h3 : ¬ (DoubleNull c ∧ x < c.ixseps2 ∧ t = b - 1)) (h4 : ¬ (DoubleNull c ∧ x < c.ixseps2 ∧ t = d - 1))
    (h5 : ¬ (DoubleNull c ∧ t = k - 1)) (h6 : ¬ t = c.NYPE - 1) : upQ c a b k d e x t = some (t + 1) := by
  unfold upQ
  rw [if_neg h1, if_neg h2, if_neg h3, if_neg h4, if_neg h5, if_neg h6]

section
variable {c : Cfg} {a b k d e : Int} (hc : Cuts c a b k d e)
include hc

theorem joined (x p : Int) (h0 : 0 ≤ p) (h1 : p < c.NYPE) :
    let r := runs c a b k d e (kind c a b k d e x p)
    Joined c a b k d e x r.1 r.2.1 r.2.2.1 r.2.2.2 := by
  have := hc.a0; have := hc.ae; have := hc.eN; have := hc.legs
  by_cases dn : c.jyseps2_1 = c.jyseps1_2
  · have hnd : ¬ DoubleNull c := fun hh => hh dn
    unfold kind
    rw [if_pos dn]
    by_cases hx1 : x < c.ixseps1
    · rw [if_pos hx1]
      by_cases hp : p < a ∨ e ≤ p
      · rw [if_pos hp]
        refine ⟨?_, ?_, ?_⟩
        · intro t t0 t1; simp only [runs] at t0 t1; apply upQ_next <;> first | omega | exact fun hh => hnd hh.1
        · intro t t0 t1; simp only [runs] at t0 t1; apply upQ_next <;> first | omega | exact fun hh => hnd hh.1
        · intro l1 l2; simp only [runs] at l1 l2 ⊢
          unfold upQ; rw [if_neg (by omega), if_pos (by omega)]
      · rw [if_neg hp]
        refine ⟨?_, ?_, ?_⟩
        · intro t t0 t1; simp only [runs] at t0 t1; apply upQ_next <;> first | omega | exact fun hh => hnd hh.1
        · intro t t0 t1; simp only [runs] at t0 t1; omega
        · intro l1 l2; simp only [runs] at l2; omega
    · rw [if_neg hx1]
      refine ⟨?_, ?_, ?_⟩
      · intro t t0 t1; simp only [runs] at t0 t1; apply upQ_next <;> first | omega | exact fun hh => hnd hh.1
      · intro t t0 t1; simp only [runs] at t0 t1; omega
      · intro l1 l2; simp only [runs] at l2; omega
  · have hd : DoubleNull c := dn
    have := hc.ab dn; have := hc.bk dn; have := hc.kd dn; have := hc.de dn
    unfold kind
    rw [if_neg dn]
    by_cases c1 : x < c.ixseps1 ∧ (p < a ∨ e ≤ p)
    · rw [if_pos c1]
      refine ⟨?_, ?_, ?_⟩
      · intro t t0 t1; simp only [runs] at t0 t1; apply upQ_next <;> omega
      · intro t t0 t1; simp only [runs] at t0 t1; apply upQ_next <;> omega
      · intro l1 l2; simp only [runs] at l1 l2 ⊢
        unfold upQ; rw [if_neg (by omega), if_pos (by omega)]
    rw [if_neg c1]
    by_cases c2 : x < c.ixseps2 ∧ b ≤ p ∧ p < d
    · rw [if_pos c2]
      refine ⟨?_, ?_, ?_⟩
      · intro t t0 t1; simp only [runs] at t0 t1; apply upQ_next <;> omega
      · intro t t0 t1; simp only [runs] at t0 t1; apply upQ_next <;> omega
      · intro l1 l2; simp only [runs] at l1 l2 ⊢
        unfold upQ; rw [if_neg (by omega), if_neg (by omega), if_neg (by omega), if_pos ⟨hd, by omega, rfl⟩]
    rw [if_neg c2]
    by_cases c3 : x < c.ixseps1 ∧ x < c.ixseps2
    · rw [if_pos c3]
      refine ⟨?_, ?_, ?_⟩
      · intro t t0 t1; simp only [runs] at t0 t1; apply upQ_next <;> omega
      · intro t t0 t1; simp only [runs] at t0 t1; apply upQ_next <;> omega
      · intro l1 l2; simp only [runs] at l1 l2 ⊢
        unfold upQ; rw [if_neg (by omega), if_neg (by omega), if_pos ⟨hd, by omega, rfl⟩]
    rw [if_neg c3]
    by_cases c4 : x < c.ixseps2
    · rw [if_pos c4]
      refine ⟨?_, ?_, ?_⟩
      · intro t t0 t1; simp only [runs] at t0 t1; apply upQ_next <;> omega
      · intro t t0 t1; simp only [runs] at t0 t1; apply upQ_next <;> omega
      · intro l1 l2; simp only [runs] at l1 l2 ⊢
        unfold upQ; rw [if_neg (by omega), if_neg (by omega), if_pos ⟨hd, by omega, rfl⟩]
    rw [if_neg c4]
    by_cases c5 : x < c.ixseps1
    · rw [if_pos c5]
      refine ⟨?_, ?_, ?_⟩
      · intro t t0 t1; simp only [runs] at t0 t1; apply upQ_next <;> omega
      · intro t t0 t1; simp only [runs] at t0 t1; apply upQ_next <;> omega
      · intro l1 l2; simp only [runs] at l1 l2 ⊢
        unfold upQ; rw [if_pos (by omega)]
    rw [if_neg c5]
    by_cases c6 : p < k
    · rw [if_pos c6]
      refine ⟨?_, ?_, ?_⟩
      · intro t t0 t1; simp only [runs] at t0 t1; apply upQ_next <;> omega
      · intro t t0 t1; simp only [runs] at t0 t1; omega
      · intro l1 l2; simp only [runs] at l2; omega
    · rw [if_neg c6]
      refine ⟨?_, ?_, ?_⟩
      · intro t t0 t1; simp only [runs] at t0 t1; apply upQ_next <;> omega
      · intro t t0 t1; simp only [runs] at t0 t1; omega
      · intro l1 l2; simp only [runs] at l2; omega

/-- The processors of the surface are exactly those sharing a field line with `p`. -/
theorem mem_surf_iff (h : Layout c) (x p q : Int) (h0 : 0 ≤ p) (h1 : p < c.NYPE) (q0 : 0 ≤ q) (q1 : q < c.NYPE) :
    q ∈ surf c a b k d e (kind c a b k d e x p) ↔ SameSurface c x p q := by
  rw [sameSurface_iff h hc]
  constructor
  · intro hq
    have hp := mem_surf_self hc x p h0 h1
    rw [surf_runs] at hp hq
    exact (joined hc x p h0 h1).reach hp hq
  · rintro (hr | hr)
    · obtain ⟨e1, _, _⟩ := kind_reach hc x p q hr h0 h1
      rw [← e1]; exact mem_surf_self hc x q q0 q1
    · obtain ⟨e1, _, _⟩ := kind_reach hc x q p hr q0 q1
      rw [e1]; exact mem_surf_self hc x q q0 q1
end

end Verif.Mesh
