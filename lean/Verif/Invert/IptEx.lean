import Mathlib.Tactic.Linarith
import Mathlib.Tactic.NormNum
import Mathlib.Algebra.Field.Rat
import Verif.Invert.IptThms

/-!
# C82: an example, and where the property fails
-/

namespace Verif.Ipt

open Verif.IptSpec

/-- A solver of systems with three unknowns. -/
def tri3 : Tri ℚ := fun a b c r i =>
  let det := b 0 * (b 1 * b 2 - c 1 * a 2) - c 0 * a 1 * b 2
  if i = 0 then (r 0 * (b 1 * b 2 - c 1 * a 2) - c 0 * (r 1 * b 2 - c 1 * r 2)) / det
  else if i = 1 then (b 0 * (r 1 * b 2 - c 1 * r 2) - r 0 * (a 1 * b 2)) / det
  else (b 0 * (b 1 * r 2 - r 1 * a 2) - c 0 * (a 1 * r 2) + r 0 * (a 1 * a 2)) / det

theorem row3 (a b c u : Nat → ℚ) :
    row 3 a b c u 0 = b 0 * u 0 + c 0 * u 1 ∧ row 3 a b c u 1 = a 1 * u 0 + b 1 * u 1 + c 1 * u 2 ∧
      row 3 a b c u 2 = a 2 * u 1 + b 2 * u 2 := by
  simp [row]

theorem three (i : Nat) (h : i < 3) : i = 0 ∨ i = 1 ∨ i = 2 := by omega

def vec (x y z : ℚ) : Nat → ℚ := fun i => if i = 0 then x else if i = 1 then y else z

theorem null3 {a b c : Nat → ℚ} (h : Nonsing 3 a b c) (x y z : ℚ) (h0 : b 0 * x + c 0 * y = 0)
    (h1 : a 1 * x + b 1 * y + c 1 * z = 0) (h2 : a 2 * y + b 2 * z = 0) : x = 0 ∧ y = 0 ∧ z = 0 := by
  have := h (vec x y z) (fun i hi => by
    have hr := row3 a b c (vec x y z)
    rcases three i hi with rfl | rfl | rfl
    · rw [hr.1]; exact h0
    · rw [hr.2.1]; exact h1
    · rw [hr.2.2]; exact h2)
  exact ⟨this 0 (by omega), this 1 (by omega), this 2 (by omega)⟩

theorem det3 {a b c : Nat → ℚ} (h : Nonsing 3 a b c) : b 0 * (b 1 * b 2 - c 1 * a 2) - c 0 * a 1 * b 2 ≠ 0 := by
  intro hd
  obtain ⟨p1, p2, p3⟩ := null3 h (b 1 * b 2 - c 1 * a 2) (-(a 1 * b 2)) (a 1 * a 2) (by linarith) (by ring) (by ring)
  obtain ⟨q1, q2, q3⟩ := null3 h (-(c 0 * b 2)) (b 0 * b 2) (-(b 0 * a 2)) (by ring) (by linarith) (by ring)
  obtain ⟨s1, s2, s3⟩ := null3 h (c 0 * c 1) (-(b 0 * c 1)) (b 0 * b 1 - a 1 * c 0) (by ring) (by ring) (by linarith)
  have e0 : ∀ (_ : b 0 = 0) (_ : a 1 = 0), False := fun e1 e2 => by
    have := null3 h 1 0 0 (by rw [e1]; ring) (by rw [e2]; ring) (by ring)
    exact one_ne_zero this.1
  by_cases hb : b 2 = 0
  · by_cases ha : a 2 = 0
    · by_cases hc : c 1 = 0
      · have := null3 h 0 0 1 (by ring) (by rw [hc]; ring) (by rw [hb]; ring)
        exact one_ne_zero this.2.2
      · have hc0 : c 0 = 0 := (mul_eq_zero.1 s1).resolve_right hc
        have hb0 : b 0 = 0 := (mul_eq_zero.1 (neg_eq_zero.1 s2)).resolve_right hc
        have := null3 h (c 1) 0 (-(a 1)) (by rw [hb0]; ring) (by ring) (by rw [hb]; ring)
        exact hc this.1
    · exact e0 ((mul_eq_zero.1 (neg_eq_zero.1 q3)).resolve_right ha) ((mul_eq_zero.1 p3).resolve_right ha)
  · exact e0 ((mul_eq_zero.1 q2).resolve_right hb) ((mul_eq_zero.1 (neg_eq_zero.1 p2)).resolve_right hb)

theorem tri3_solves : Solves 3 tri3 := by
  intro a b c r h i hi
  have hd := det3 h
  have hr := row3 a b c (tri3 a b c r)
  rcases three i hi with rfl | rfl | rfl
  · rw [hr.1]; simp only [tri3, if_true, Nat.one_ne_zero, if_false]; rw [mul_div_assoc', mul_div_assoc', ← add_div, div_eq_iff hd]; ring
  · rw [hr.2.1]; simp only [tri3, if_true, Nat.one_ne_zero, if_false, Nat.reduceEqDiff]
    rw [mul_div_assoc', mul_div_assoc', mul_div_assoc', ← add_div, ← add_div, div_eq_iff hd]; ring
  · rw [hr.2.2]; simp only [tri3, if_true, Nat.one_ne_zero, if_false, Nat.reduceEqDiff]
    rw [mul_div_assoc', mul_div_assoc', ← add_div, div_eq_iff hd]; ring

/-- Two processors with one cell each: `u(i-1) - 3 u(i) + u(i+1)`, and at the ends boundary cell = minus inner cell. -/
def mat2 (k : ℚ) : Mat ℚ where
  a := fun p i => if p = 0 ∧ i = 0 then 0 else 1
  b := fun p i => if (p = 0 ∧ i = 0) ∨ (p = 1 ∧ i = 2) then 1 else -k
  c := fun p i => if p = 1 ∧ i = 2 then 0 else 1

def geo2 : Geo := { N := 2, xs := 1, xe := 1, ncx := 3 }

def zero4 : RCoef ℚ := ⟨0, 0, 0, 0, 0, 0, 0, 0⟩

/-- Two processors, no coarse grids; the test accepts zero residuals only. -/
def env2 (g : Geo) (maxits fuel : Nat) : Env ℚ Unit :=
  { g := g, o := { maxits := maxits, maxCycle := 1, maxLevel := 0 }, tri := tri3, small := fun q => q = 0,
    test := fun _ ρ _ r2 _ => (List.range g.N).all (fun p => ρ p = 0) && decide (r2 = 0), tests := fun _ => true,
    e := fun _ _ _ => (0, 0), modes := [()], junk := zero4, fuel := fuel }

def call2 (j : Nat) (k : ℚ) (r : ℚ) : Call ℚ Unit :=
  { jy := j, mat := fun _ => mat2 k, b := fun _ p i => if i = 1 then r * (p + 1) else 0 }

theorem mat2_regular : Regular geo2 (fun q => decide (q = 0)) (mat2 3) := by
  have own : ∀ p u r, p < 2 → Rows geo2 (mat2 3) p r u →
      (p = 0 → u 0 + u 1 = r 0 ∧ u 0 - 3 * u 1 + u 2 = r 1) ∧ (p = 1 → u 0 - 3 * u 1 + u 2 = r 1 ∧ u 1 + u 2 = r 2) := by
    intro p u r _ hu
    have hr := row3 ((mat2 3).a p) ((mat2 3).b p) ((mat2 3).c p) u
    refine ⟨fun hp => ?_, fun hp => ?_⟩ <;> subst hp
    · have h0 := hu 0 (by decide) (by simp [Copy, geo2])
      have h1 := hu 1 (by decide) (by simp [Copy, geo2])
      rw [show geo2.ncx = 3 from rfl, hr.1] at h0
      rw [show geo2.ncx = 3 from rfl, hr.2.1] at h1
      simp [mat2] at h0 h1
      exact ⟨by linarith, by linarith⟩
    · have h1 := hu 1 (by decide) (by simp [Copy, geo2])
      have h2 := hu 2 (by decide) (by simp [Copy, geo2])
      rw [show geo2.ncx = 3 from rfl, hr.2.1] at h1
      rw [show geo2.ncx = 3 from rfl, hr.2.2] at h2
      simp [mat2] at h1 h2
      exact ⟨by linarith, by linarith⟩
  have low : ∀ u, Lower geo2 (mat2 3) 1 u → u 1 = 1 / 4 := by
    intro u hu
    have h := (own 1 u _ (by decide) hu.rows).2 rfl
    have hc := hu.copies 0 (by decide) (by simp [Copy, geo2])
    simp [geo2] at hc
    linarith [h.1, h.2]
  have upp : ∀ u, Upper geo2 (mat2 3) 0 u → u 1 = 1 / 4 := by
    intro u hu
    have h := (own 0 u _ (by decide) hu.rows).1 rfl
    have hc := hu.copies 2 (by decide) (by simp [Copy, geo2])
    simp [geo2] at hc
    linarith [h.1, h.2]
  refine ⟨by decide, ?_, by decide, ?_, ?_⟩
  · intro p hp u hu hc i hi
    have hp' : p = 0 ∨ p = 1 := by have : p < 2 := hp; omega
    rcases hp' with rfl | rfl
    · have h := (own 0 u _ (by decide) hu).1 rfl
      have h2 := hc 2 (by decide) (by simp [Copy, geo2])
      have e0 : u 0 = 0 := by linarith [h.1, h.2]
      have e1 : u 1 = 0 := by linarith [h.1, h.2]
      rcases three i hi with rfl | rfl | rfl <;> assumption
    · have h := (own 1 u _ (by decide) hu).2 rfl
      have h2 := hc 0 (by decide) (by simp [Copy, geo2])
      have e0 : u 1 = 0 := by linarith [h.1, h.2]
      have e1 : u 2 = 0 := by linarith [h.1, h.2]
      rcases three i hi with rfl | rfl | rfl <;> assumption
  · intro p hp u hu
    have : p = 0 := by have : p + 1 < 2 := hp; omega
    subst this
    rw [show geo2.xs = 1 from rfl, low u hu]
    norm_num
  · intro p hp w u v hw hu hv
    have : p = 0 := by have : p + 1 < 2 := hp; omega
    subst this
    unfold pivot
    rw [if_pos rfl, show geo2.xs = 1 from rfl, show geo2.xe = 1 from rfl, low w hw, upp v hv]
    norm_num

/-- The example: the hypotheses of C82 hold, the call returns and gives the solution; so does a second one with another
right-hand side. -/
theorem C82_example :
    Solves (env2 geo2 100 101).g.ncx (env2 geo2 100 101).tri ∧
    Regular (env2 geo2 100 101).g (env2 geo2 100 101).small ((call2 0 3 15).mat ()) ∧
    ((solve (env2 geo2 100 101) true Obj.new (call2 0 3 15)).2.map fun x => [x () 0 0, x () 0 1, x () 0 2, x () 1 0, x () 1 1, x () 1 2])
      = some [6, -6, -9, -6, -9, 9] ∧
    ((solve (env2 geo2 100 101) true (solves (env2 geo2 100 101) true Obj.new [call2 0 3 15]) (call2 0 3 30)).2.map
      fun x => [x () 0 0, x () 0 1, x () 0 2, x () 1 0, x () 1 1, x () 1 2]) = some [12, -12, -18, -12, -18, 18] := by
  refine ⟨tri3_solves, mat2_regular, ?_, ?_⟩ <;> decide +kernel

/-- Coefficients changed between two calls: the object keeps the old ones (unless one of the flags that happen to turn
storing off is set), and the second call returns an array that violates the new rows. -/
theorem C82_stale_violated :
    ∃ x, (solve (env2 geo2 100 101) true (solves (env2 geo2 100 101) true Obj.new [call2 0 3 15]) (call2 0 5 15)).2
        = some x ∧
      ¬Solution geo2 ((call2 0 5 15).mat ()) ((call2 0 5 15).b ()) (x ()) ∧
      row 3 ((mat2 5).a 0) ((mat2 5).b 0) ((mat2 5).c 0) (x () 0) 1 ≠ 15 := by
  have h : (solve (env2 geo2 100 101) true (solves (env2 geo2 100 101) true Obj.new [call2 0 3 15])
      (call2 0 5 15)).2.isSome = true := by decide +kernel
  obtain ⟨x, hx⟩ := Option.isSome_iff_exists.1 h
  have hv : ((solve (env2 geo2 100 101) true (solves (env2 geo2 100 101) true Obj.new [call2 0 3 15])
      (call2 0 5 15)).2.map fun x => decide (row 3 ((mat2 5).a 0) ((mat2 5).b 0) ((mat2 5).c 0) (x () 0) 1 = 15))
      = some false := by decide +kernel
  rw [hx] at hv
  have hrow : row 3 ((mat2 5).a 0) ((mat2 5).b 0) ((mat2 5).c 0) (x () 0) 1 ≠ 15 := by
    intro e
    simp [e] at hv
  refine ⟨x, hx, fun hs => hrow ?_, hrow⟩
  have := hs.rows 0 (by decide) 1 (by decide) (by simp [Copy, geo2])
  refine Eq.trans this ?_
  simp [call2]

/-! ## Where no call can return -/

theorem loop_never {K M : Type} [Field K] {g : Geo} {o : Opts} {test : Test K} {tests : Nat → Bool}
    {e : Nat → M → Nat → K × K} {modes : List M} {t : Task K M} {md : M} (hm : md ∈ modes) (P : (Nat → X4 K) → Prop)
    (hlev : o.maxLevel = 0) (hgs : ∀ X, P X → P (gs g (t.mat md) (t.rc md) (t.rr md) X))
    (hno : ∀ k X, P X → test k (fun p => if p < g.N then res1 g (t.rc md) (t.rr md) X p else 0)
      (fun p => if p < g.N then (X p).x1 else 0) (res2 (t.rc md) (t.rr md) X (g.N - 1)) (X (g.N - 1)).x2 = false)
    (fuel n count : Nat) (X : M → Nat → X4 K) (cv : M → Bool) (hX : P (X md)) (hcv : cv md = false) (Y : M → Nat → X4 K) :
    loop g o test tests e modes t fuel n count X cv ≠ .done Y := by
  induction fuel generalizing n count X cv with
  | zero => intro h; cases h
  | succ fuel ih =>
    simp only [loop]
    split
    · intro h; cases h
    have hv : ∀ n X, P (X md) → P (visit g t cv n X md) := by
      intro n
      induction n with
      | zero => intro X hX; exact hX
      | succ n ihn =>
        intro X hX
        refine ihn _ ?_
        show P (if cv md then X md else _)
        rw [hcv]
        exact hgs _ hX
    have hX' := hv o.maxCycle X hX
    generalize visit g t cv o.maxCycle X = X' at hX'
    have hcv' : (if tests n then check g test (n + 1) t X' cv else cv) md = false := by
      split
      · rw [check, hcv, Bool.false_or]; exact hno _ _ hX'
      · exact hcv
    generalize (if tests n then check g test (n + 1) t X' cv else cv) = cv' at hcv'
    have hall : ¬modes.all cv' = true := fun h => by
      have := List.all_eq_true.1 h md hm
      rw [hcv'] at this; cases this
    rw [if_neg hall]
    by_cases h3 : o.maxits < count + o.maxCycle
    · rw [if_pos h3]; intro h; cases h
    rw [if_neg h3]
    exact ih _ _ _ _ hX' hcv'

theorem iterate_never {K M : Type} [Field K] {g : Geo} {o : Opts} {test : Test K} {tests : Nat → Bool}
    {e : Nat → M → Nat → K × K} {modes : List M} {t : Task K M} {md : M} (hm : md ∈ modes) (P : (Nat → X4 K) → Prop)
    (hlev : o.maxLevel = 0) (hgs : ∀ X, P X → P (gs g (t.mat md) (t.rc md) (t.rr md) X))
    (hno : ∀ k X, P X → test k (fun p => if p < g.N then res1 g (t.rc md) (t.rr md) X p else 0)
      (fun p => if p < g.N then (X p).x1 else 0) (res2 (t.rc md) (t.rr md) X (g.N - 1)) (X (g.N - 1)).x2 = false)
    (fuel : Nat) (X : M → Nat → X4 K) (hX : P (X md)) (Y : M → Nat → X4 K) :
    iterate g o test tests e modes t fuel X ≠ .done Y := by
  unfold iterate
  dsimp only
  have hcv : check g test 0 t X (fun _ => false) md = false := by
    rw [check, Bool.false_or]; exact hno _ _ hX
  rw [if_neg (fun h => by
    have := List.all_eq_true.1 h md hm
    rw [hcv] at this; cases this)]
  exact loop_never hm P hlev hgs hno _ _ _ _ _ hX hcv Y

theorem solve_none {K M : Type} [Field K] {E : Env K M} {store : Bool} {s : Obj K M} {c : Call K M}
    (h : ∀ Y, iterate E.g E.o E.test E.tests E.e E.modes (task E (build E store s c) c) E.fuel
      ((build E store s c).saved c.jy) ≠ .done Y) : (solve E store s c).2 = none := by
  unfold solve
  dsimp only
  split
  · next X hX => exact absurd hX (h X)
  · rfl

def geo1 : Geo := { N := 1, xs := 1, xe := 1, ncx := 3 }

/-- One processor, `-u(0) ... `: boundary, inner row, boundary. -/
def mat1 : Mat ℚ where
  a := fun _ i => if i = 0 then 0 else 1
  b := fun _ i => if i = 1 then -3 else 1
  c := fun _ i => if i = 2 then 0 else 1

def call1 : Call ℚ Unit := { jy := 0, mat := fun _ => mat1, b := fun _ _ i => if i = 1 then 5 else 0 }

theorem gs_one (m : Mat ℚ) (rc : Nat → RCoef ℚ) (rr : Nat → Rhs ℚ) (X : Nat → X4 ℚ) :
    (gs geo1 m rc rr X 0).x1 = (X 0).x1 := by
  have l0 : last geo1 0 = true := rfl
  have b0 : isBlack 0 = false := rfl
  simp [gs, bndryWork, receive, redWork, blackWork, l0, b0, first]

/-- On one processor (allowed, without coarse grids) nothing ever updates the only reduced unknown that is used: a call
with a local solution other than zero at the first cell throws, whatever `maxits`. -/
theorem C82_one_processor_violated (maxits fuel : Nat) :
    (solve (env2 geo1 maxits fuel) true Obj.new call1).2 = none ∧
    ∃ u : Nat → ℚ, ∀ i, i < 3 → row 3 (mat1.a 0) (mat1.b 0) (mat1.c 0) u i = if i = 1 then 5 else 0 := by
  refine ⟨?_, ⟨vec 1 (-1) 1, ?_⟩⟩
  · refine solve_none fun Y => ?_
    have hb : build (env2 geo1 maxits fuel) true Obj.new call1
        = build (env2 geo1 0 0) true Obj.new call1 := rfl
    have ht : task (env2 geo1 maxits fuel) (build (env2 geo1 maxits fuel) true Obj.new call1) call1
        = task (env2 geo1 0 0) (build (env2 geo1 0 0) true Obj.new call1) call1 := rfl
    rw [hb, show task (env2 geo1 maxits fuel) (build (env2 geo1 0 0) true Obj.new call1) call1
        = task (env2 geo1 0 0) (build (env2 geo1 0 0) true Obj.new call1) call1 from rfl]
    refine iterate_never (md := ()) List.mem_cons_self (fun X => (X 0).x1 = 0) rfl (fun X hX => ?_) (fun k X hX => ?_) _ _ ?_ Y
    · rw [show (env2 geo1 maxits fuel).g = geo1 from rfl, gs_one]; exact hX
    · have e1 : ((task (env2 geo1 0 0) (build (env2 geo1 0 0) true Obj.new call1) call1).rr () 0).rr1 = -1 := by
        decide +kernel
      have e2 : ((task (env2 geo1 0 0) (build (env2 geo1 0 0) true Obj.new call1) call1).rc () 0).cr1 = 0 := by
        decide +kernel
      have e3 : ((task (env2 geo1 0 0) (build (env2 geo1 0 0) true Obj.new call1) call1).rc () 0).ar1 = 0 := by
        decide +kernel
      have hres : res1 geo1 ((task (env2 geo1 0 0) (build (env2 geo1 0 0) true Obj.new call1) call1).rc ())
          ((task (env2 geo1 0 0) (build (env2 geo1 0 0) true Obj.new call1) call1).rr ()) X 0 = -1 := by
        rw [res1, e1, e2, e3, hX]; ring
      show ((List.range 1).all _ && _) = false
      simp only [List.range_one, List.all_cons, List.all_nil, Bool.and_true]
      rw [show (env2 geo1 maxits fuel).g = geo1 from rfl]
      have hn : (0 : Nat) < geo1.N := by decide
      rw [Bool.and_eq_false_iff]
      exact Or.inl (decide_eq_false (by rw [if_pos hn, hres]; norm_num))
    · rfl
  · intro i hi
    have hr := row3 (mat1.a 0) (mat1.b 0) (mat1.c 0) (vec 1 (-1) 1)
    rcases three i hi with rfl | rfl | rfl
    · rw [hr.1]; norm_num [mat1, vec]
    · rw [hr.2.1]; norm_num [mat1, vec]
    · rw [hr.2.2]; norm_num [mat1, vec]

/-- A second y index: `levels[0]` has no coefficients for it (zero, in fresh memory), so its residuals never change, and
the call throws, whatever `maxits`, although the same call at the first y index returns. -/
theorem C82_second_y_violated (maxits fuel : Nat) :
    (solve (env2 geo2 maxits fuel) true (solves (env2 geo2 100 101) true Obj.new [call2 0 3 15]) (call2 1 3 15)).2 = none
      ∧ (solve (env2 geo2 100 101) true Obj.new (call2 1 3 15)).2.isSome = true := by
  refine ⟨solve_none fun Y => ?_, by decide +kernel⟩
  generalize hs : solves (env2 geo2 100 101) true Obj.new [call2 0 3 15] = s
  have ht : task (env2 geo2 maxits fuel) (build (env2 geo2 maxits fuel) true s (call2 1 3 15)) (call2 1 3 15)
      = task (env2 geo2 0 0) (build (env2 geo2 0 0) true s (call2 1 3 15)) (call2 1 3 15) := rfl
  rw [ht]
  subst hs
  generalize ht : task (env2 geo2 0 0) (build (env2 geo2 0 0) true (solves (env2 geo2 100 101) true Obj.new [call2 0 3 15])
    (call2 1 3 15)) (call2 1 3 15) = t
  have e1 : (t.rr () 1).rr1 ≠ 0 := by rw [← ht]; decide +kernel
  have e2 : (t.rc () 1).cr1 = 0 := by rw [← ht]; decide +kernel
  have e3 : (t.rc () 1).ar1 = 0 := by rw [← ht]; decide +kernel
  have e4 : (t.rc () 1).br1 = 0 := by rw [← ht]; decide +kernel
  refine iterate_never (md := ()) List.mem_cons_self (fun _ => True) rfl (fun X hX => trivial) (fun k X hX => ?_) _ _ trivial Y
  show ((List.range 2).all _ && _) = false
  simp only [show List.range 2 = [0, 1] from rfl, List.all_cons, List.all_nil, Bool.and_true]
  have hn : (1 : Nat) < (env2 geo2 maxits fuel).g.N := (by decide : 1 < 2)
  have hres : res1 (env2 geo2 maxits fuel).g (t.rc ()) (t.rr ()) X 1 = (t.rr () 1).rr1 := by
    rw [res1, e2, e3, e4]; ring
  rw [Bool.and_eq_false_iff, Bool.and_eq_false_iff]
  exact Or.inl (Or.inr (decide_eq_false (by rw [if_pos hn, hres]; exact e1)))

/-- `INVERT_KX_ZERO` subtracts each processor's own mean: with one cell per processor it returns zero in every cell,
whatever the solution. -/
theorem C82_kx_zero_violated {K : Type} [Field K] (g : Geo) (hg : g.xs = g.xe) (x : Nat → Nat → K) (p : Nat) :
    kxZero g x p g.xs = 0 := by
  unfold kxZero
  rw [if_pos ⟨le_refl _, by omega⟩, show g.xe + 1 - g.xs = 1 by omega]
  simp

end Verif.Ipt
