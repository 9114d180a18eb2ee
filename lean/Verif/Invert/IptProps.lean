import Mathlib.Tactic.Ring
import Mathlib.Tactic.LinearCombination
import Mathlib.Tactic.FieldSimp
import Verif.Invert.IptSpec

/-!
# Lemmas for C82: the local problems, the reduced rows, the loop
-/

namespace Verif.Ipt

open Verif.IptSpec

variable {K M : Type} [Field K]

theorem inner_iff (g : Geo) (p i : Nat) : inner g p i = true ↔ Copy g p i := by
  unfold inner Copy first last
  by_cases h1 : p = 0 <;> by_cases h2 : p + 1 = g.N <;> simp [h1, h2] <;> omega

theorem patch_copy {g : Geo} {p i : Nat} (h : Copy g p i) (v : K) (f : Nat → K) : patch g p v f i = v := by
  rw [patch, if_pos ((inner_iff g p i).2 h)]

theorem patch_own {g : Geo} {p i : Nat} (h : ¬Copy g p i) (v : K) (f : Nat → K) : patch g p v f i = f i := by
  rw [patch, if_neg (fun e => h ((inner_iff g p i).1 e))]

theorem row_copy {g : Geo} (m : Mat K) {p i : Nat} (h : Copy g p i) (u : Nat → K) :
    row g.ncx (patch g p 0 (m.a p)) (patch g p 1 (m.b p)) (patch g p 0 (m.c p)) u i = u i := by
  simp only [row, patch_copy h]; simp

theorem row_own {g : Geo} (m : Mat K) {p i : Nat} (h : ¬Copy g p i) (u : Nat → K) :
    row g.ncx (patch g p 0 (m.a p)) (patch g p 1 (m.b p)) (patch g p 0 (m.c p)) u i
      = row g.ncx (m.a p) (m.b p) (m.c p) u i := by
  simp only [row, patch_own h]

theorem nonsing {g : Geo} {m : Mat K} {p : Nat} (h : Local g m p) :
    Nonsing g.ncx (patch g p 0 (m.a p)) (patch g p 1 (m.b p)) (patch g p 0 (m.c p)) := by
  intro u hu
  refine h u (fun i hi hc => ?_) (fun i hi hc => ?_)
  · have := hu i hi; rwa [row_own m hc] at this
  · have := hu i hi; rwa [row_copy m hc] at this

/-- The local solve: the rows hold, and the copied cells have the given values. -/
theorem local_rows {g : Geo} {tri : Tri K} (ht : Solves g.ncx tri) {m : Mat K} {p : Nat} (h : Local g m p) (r : Nat → K) :
    Rows g m p r (localSolve g tri m p r) ∧ ∀ i, i < g.ncx → Copy g p i → localSolve g tri m p r i = r i := by
  have hh := ht _ _ _ r (nonsing h)
  refine ⟨fun i hi hc => ?_, fun i hi hc => ?_⟩
  · have := hh i hi; rwa [row_own m hc] at this
  · have := hh i hi; rwa [row_copy m hc] at this

theorem row_sub (n : Nat) (a b c u v : Nat → K) (i : Nat) :
    row n a b c (fun j => u j - v j) i = row n a b c u i - row n a b c v i := by
  simp only [row]; split <;> split <;> ring

theorem row_comb (n : Nat) (a b c u v w : Nat → K) (s t : K) (i : Nat) :
    row n a b c (fun j => u j + v j * s + w j * t) i = row n a b c u i + row n a b c v i * s + row n a b c w i * t := by
  simp only [row]; split <;> split <;> ring

theorem local_unique {g : Geo} {m : Mat K} {p : Nat} (h : Local g m p) {r u v : Nat → K} (hu : Rows g m p r u)
    (hv : Rows g m p r v) (hc : ∀ i, i < g.ncx → Copy g p i → u i = v i) (i : Nat) (hi : i < g.ncx) : u i = v i := by
  have := h (fun j => u j - v j) (fun j hj hcj => by rw [row_sub, hu j hj hcj, hv j hj hcj, sub_self])
    (fun j hj hcj => by simp only [hc j hj hcj, sub_self]) i hi
  exact sub_eq_zero.1 this

theorem row_zero (n : Nat) (a b c : Nat → K) (i : Nat) : row n a b c (fun _ => 0) i = 0 := by simp [row]

/-- The code's guard vectors are the responses. -/
theorem lower_resp {g : Geo} {tri : Tri K} (ht : Solves g.ncx tri) {m : Mat K} {p : Nat} (h : Local g m p)
    (hx : g.xs ≤ g.xe) : Lower g m p (lowerGuard g tri m p) := by
  unfold lowerGuard
  by_cases hp : p = 0
  · rw [if_pos (by simp [first, hp])]
    refine ⟨fun i _ _ => row_zero _ _ _ _ _, fun i hi hc => ?_⟩
    rcases hc with ⟨h0, _⟩ | ⟨_, h1⟩
    · exact absurd hp h0
    · rw [if_neg (by omega)]
  · rw [if_neg (by simp [first, hp])]
    have hh := local_rows ht h (fun i => if i + 1 = g.xs then (1 : K) else 0)
    refine ⟨fun i hi hc => ?_, fun i hi hc => ?_⟩
    · rw [hh.1 i hi hc]
      show (if i + 1 = g.xs then (1 : K) else 0) = 0
      rw [if_neg]
      intro e
      exact hc (Or.inl ⟨hp, by omega⟩)
    · exact hh.2 i hi hc

theorem upper_resp {g : Geo} {tri : Tri K} (ht : Solves g.ncx tri) {m : Mat K} {p : Nat} (h : Local g m p)
    (hx : g.xs ≤ g.xe) : Upper g m p (upperGuard g tri m p) := by
  unfold upperGuard
  by_cases hp : p + 1 = g.N
  · rw [if_pos (by simp [last, hp])]
    refine ⟨fun i _ _ => row_zero _ _ _ _ _, fun i hi hc => ?_⟩
    rcases hc with ⟨h0, h1⟩ | ⟨h0, h1⟩
    · rw [if_neg (by omega)]
    · exact absurd hp h0
  · rw [if_neg (by simp [last, hp])]
    have hh := local_rows ht h (fun i => if i = g.xe + 1 then (1 : K) else 0)
    refine ⟨fun i hi hc => ?_, fun i hi hc => ?_⟩
    · rw [hh.1 i hi hc]
      show (if i = g.xe + 1 then (1 : K) else 0) = 0
      rw [if_neg]
      intro e
      exact hc (Or.inr ⟨hp, by omega⟩)
    · exact hh.2 i hi hc

theorem lower_unique {g : Geo} {m : Mat K} {p : Nat} (h : Local g m p) {u v : Nat → K} (hu : Lower g m p u)
    (hv : Lower g m p v) (i : Nat) (hi : i < g.ncx) : u i = v i :=
  local_unique h hu.rows hv.rows (fun j hj hc => by rw [hu.copies j hj hc, hv.copies j hj hc]) i hi

theorem upper_unique {g : Geo} {m : Mat K} {p : Nat} (h : Local g m p) {u v : Nat → K} (hu : Upper g m p u)
    (hv : Upper g m p v) (i : Nat) (hi : i < g.ncx) : u i = v i :=
  local_unique h hu.rows hv.rows (fun j hj hc => by rw [hu.copies j hj hc, hv.copies j hj hc]) i hi

/-! ## The reduced unknowns agree between processors -/

def Synced (g : Geo) (X : Nat → X4 K) : Prop :=
  ∀ p, p + 1 < g.N → (X p).x3 = (X (p + 1)).x1 ∧ (X (p + 1)).x0 = (X p).x1

theorem sync_synced (g : Geo) (X : Nat → X4 K) : Synced g (sync g X) := by
  intro p hp
  have h1 : last g p = false := by simp [last]; omega
  have h2 : first (p + 1) = false := by simp [first]
  simp [sync, receive, h1, h2]

theorem sync_id {g : Geo} {X : Nat → X4 K} (h : Synced g X) (p : Nat) (hp : p < g.N) : sync g X p = X p := by
  have h1 : (if first p then (X p).x0 else (X (p - 1)).x1) = (X p).x0 := by
    cases p with
    | zero => simp [first]
    | succ q => simp [first, (h q hp).2]
  have h2 : (if last g p then (X p).x3 else (X (p + 1)).x1) = (X p).x3 := by
    by_cases e : p + 1 = g.N
    · simp [last, e]
    · simp [last, e, (h p (by omega)).1]
  show ({ X p with x0 := _, x3 := _ } : X4 K) = _
  rw [h1, h2]

theorem bndry_keep {g : Geo} (m : Mat K) {X : Nat → X4 K} (h : Synced g X) : Synced g (bndryWork g m X) := by
  intro p hp
  have h1 : last g p = false := by simp [last]; omega
  have h2 : first (p + 1) = false := by simp [first]
  have := h p hp
  constructor
  · have e1 : (bndryWork g m X p).x3 = (X p).x3 := by simp only [bndryWork, h1, Bool.false_eq_true, if_false]; split <;> rfl
    have e2 : (bndryWork g m X (p + 1)).x1 = (X (p + 1)).x1 := by
      simp only [bndryWork, h2, Bool.false_eq_true, if_false]; split <;> rfl
    rw [e1, e2, this.1]
  · have e1 : (bndryWork g m X (p + 1)).x0 = (X (p + 1)).x0 := by simp only [bndryWork, h2, Bool.false_eq_true, if_false]; split <;> rfl
    have e2 : (bndryWork g m X p).x1 = (X p).x1 := by
      simp only [bndryWork, h1, Bool.false_eq_true, if_false]; split <;> rfl
    rw [e1, e2, this.2]

theorem isBlack_succ (p : Nat) : isBlack (p + 1) = !isBlack p := by
  unfold isBlack
  by_cases h : p % 2 = 1
  · have : ¬(p + 1) % 2 = 1 := by omega
    simp [h, this]
  · have : (p + 1) % 2 = 1 := by omega
    simp [h, this]

theorem red_x0 (g : Geo) (rc : Nat → RCoef K) (rr : Nat → Rhs K) (X : Nat → X4 K) (p : Nat) :
    (redWork g rc rr X p).x0 = (X p).x0 ∧ (redWork g rc rr X p).x3 = (X p).x3 := by
  unfold redWork
  constructor <;> (dsimp only; split <;> split <;> rfl)

theorem red_x1 (g : Geo) (rc : Nat → RCoef K) (rr : Nat → Rhs K) (X : Nat → X4 K) (p : Nat) (h : isBlack p = true) :
    (redWork g rc rr X p).x1 = (X p).x1 := by
  unfold redWork
  simp only [h]
  split <;> rfl

theorem receive_no (g : Geo) {who : Nat → Bool} {p : Nat} (h : who p = false) (X : Nat → X4 K) :
    receive g who X p = X p := by
  rw [receive, h, if_neg (by simp)]

theorem receive_x1 (g : Geo) (who : Nat → Bool) (X : Nat → X4 K) (p : Nat) :
    (receive g who X p).x1 = (X p).x1 ∧ (receive g who X p).x2 = (X p).x2 := by
  unfold receive; split <;> exact ⟨rfl, rfl⟩

theorem receive_x0 (g : Geo) {who : Nat → Bool} {p : Nat} (h : who (p + 1) = true) (X : Nat → X4 K) :
    (receive g who X (p + 1)).x0 = (X p).x1 := by
  simp [receive, h, first]

theorem receive_x3 (g : Geo) {who : Nat → Bool} {p : Nat} (h : who p = true) (X : Nat → X4 K) (hp : p + 1 < g.N) :
    (receive g who X p).x3 = (X (p + 1)).x1 := by
  have : ¬p + 1 = g.N := by omega
  simp [receive, h, last, this]

/-- A sweep leaves the neighbours' copies up to date, whatever they were before. -/
theorem gs_synced (g : Geo) (m : Mat K) (rc : Nat → RCoef K) (rr : Nat → Rhs K) (X : Nat → X4 K) :
    Synced g (gs g m rc rr X) := by
  refine bndry_keep m ?_
  intro p hp
  have h1 : last g p = false := by simp [last]; omega
  have h2 : first (p + 1) = false := by simp [first]
  have hb := isBlack_succ p
  generalize blackWork g rc rr X = Y
  cases hc : isBlack p with
  | true =>
    have hc1 : isBlack (p + 1) = false := by rw [hb, hc]; rfl
    constructor
    · rw [receive_x3 g hc _ hp, (receive_x1 g _ _ _).1]
    · rw [receive_no g hc1, (red_x0 g rc rr _ (p + 1)).1, receive_x0 g (by simp [hc1]), (receive_x1 g _ _ _).1,
        red_x1 g rc rr _ p hc, (receive_x1 g _ _ _).1]
  | false =>
    have hc1 : isBlack (p + 1) = true := by rw [hb, hc]; rfl
    constructor
    · rw [receive_no g hc, (red_x0 g rc rr _ p).2, receive_x3 g (by simp [hc]) _ hp, (receive_x1 g _ _ _).1,
        red_x1 g rc rr _ (p + 1) hc1, (receive_x1 g _ _ _).1]
    · rw [receive_x0 g hc1, (receive_x1 g _ _ _).1]

theorem visit_synced (g : Geo) (t : Task K M) (cv : M → Bool) (n : Nat) (X : M → Nat → X4 K)
    (h : ∀ md, Synced g (X md)) (md : M) : Synced g (visit g t cv n X md) := by
  induction n generalizing X with
  | zero => exact h md
  | succ n ih =>
    refine ih _ fun md => ?_
    show Synced g (if cv md then X md else _)
    by_cases hc : cv md = true
    · rw [if_pos hc]; exact h md
    · rw [if_neg hc]; exact gs_synced _ _ _ _ _

theorem visit_conv (g : Geo) (t : Task K M) (cv : M → Bool) (n : Nat) (X : M → Nat → X4 K) (md : M)
    (hc : cv md = true) : visit g t cv n X md = X md := by
  induction n generalizing X with
  | zero => rfl
  | succ n ih =>
    show visit g t cv n _ md = _
    rw [ih, if_pos hc]

theorem correct_conv (g : Geo) (cv : M → Bool) (e : M → Nat → K × K) (X : M → Nat → X4 K) (md : M)
    (hc : cv md = true) (h : Synced g (X md)) (p : Nat) (hp : p < g.N) : correct g cv e X md p = X md p := by
  have : correct g cv e X md = sync g (X md) := by
    unfold correct
    congr 1
    funext p
    rw [if_pos hc]
  rw [this, sync_id h p hp]

/-! ## The loop -/

/-- The test accepted the residuals of the state of this mode. -/
def Accepted (g : Geo) (test : Test K) (t : Task K M) (md : M) (Y : Nat → X4 K) : Prop :=
  ∃ k, test k (fun p => if p < g.N then res1 g (t.rc md) (t.rr md) Y p else 0)
    (fun p => if p < g.N then (Y p).x1 else 0)
    (res2 (t.rc md) (t.rr md) Y (g.N - 1)) (Y (g.N - 1)).x2 = true

theorem accepted_congr {g : Geo} (hN : 0 < g.N) {test : Test K} {t : Task K M} {md : M} {Y Z : Nat → X4 K}
    (h : ∀ p, p < g.N → Y p = Z p) (hy : Accepted g test t md Y) : Accepted g test t md Z := by
  obtain ⟨k, hk⟩ := hy
  refine ⟨k, ?_⟩
  rw [← hk]
  have e1 : (fun p => if p < g.N then res1 g (t.rc md) (t.rr md) Z p else 0)
      = fun p => if p < g.N then res1 g (t.rc md) (t.rr md) Y p else 0 := by
    funext p
    by_cases hp : p < g.N
    · simp only [if_pos hp, res1, h p hp]
    · simp only [if_neg hp]
  have e2 : (fun p => if p < g.N then (Z p).x1 else 0) = fun p => if p < g.N then (Y p).x1 else 0 := by
    funext p
    by_cases hp : p < g.N
    · simp only [if_pos hp, h p hp]
    · simp only [if_neg hp]
  rw [e1, e2]
  simp only [res2, h (g.N - 1) (by omega)]

theorem check_acc {g : Geo} {test : Test K} {k : Nat} {t : Task K M} {X : M → Nat → X4 K} {cv : M → Bool}
    (h : ∀ md, cv md = true → Accepted g test t md (X md)) (md : M) (hc : check g test k t X cv md = true) :
    Accepted g test t md (X md) := by
  unfold check at hc
  cases hv : cv md with
  | true => exact h md hv
  | false => rw [hv, Bool.false_or] at hc; exact ⟨k, hc⟩

theorem loop_done {g : Geo} (hN : 0 < g.N) {o : Opts} {test : Test K} {tests : Nat → Bool} {e : Nat → M → Nat → K × K}
    {modes : List M} {t : Task K M} (fuel n count : Nat) (X : M → Nat → X4 K) (cv : M → Bool)
    (hs : ∀ md, Synced g (X md)) (ha : ∀ md, cv md = true → Accepted g test t md (X md)) {Y : M → Nat → X4 K}
    (h : loop g o test tests e modes t fuel n count X cv = .done Y) :
    (∀ md, Synced g (Y md)) ∧ ∀ md, md ∈ modes → Accepted g test t md (Y md) := by
  induction fuel generalizing n count X cv with
  | zero => cases h
  | succ fuel ih =>
    simp only [loop] at h
    by_cases h1 : o.maxits < count + (o.maxCycle - 1)
    · rw [if_pos h1] at h; cases h
    rw [if_neg h1] at h
    have hs' : ∀ md, Synced g (visit g t cv o.maxCycle X md) := visit_synced g t cv _ X hs
    have ha' : ∀ md, cv md = true → Accepted g test t md (visit g t cv o.maxCycle X md) := fun md hc => by
      rw [visit_conv g t cv _ X md hc]; exact ha md hc
    generalize hX : visit g t cv o.maxCycle X = X' at h hs' ha'
    generalize hcv : (if tests n then check g test (n + 1) t X' cv else cv) = cv' at h
    have ha2 : ∀ md, cv' md = true → Accepted g test t md (X' md) := by
      intro md hc
      subst hcv
      by_cases ht : tests n = true
      · rw [if_pos ht] at hc; exact check_acc ha' md hc
      · rw [if_neg ht] at hc; exact ha' md hc
    by_cases h2 : modes.all cv' = true
    · rw [if_pos h2] at h
      cases h
      exact ⟨hs', fun md hm => ha2 md (List.all_eq_true.1 h2 md hm)⟩
    rw [if_neg h2] at h
    by_cases h3 : o.maxits < count + o.maxCycle
    · rw [if_pos h3] at h; cases h
    rw [if_neg h3] at h
    by_cases h4 : o.maxLevel = 0
    · rw [if_pos h4] at h
      exact ih _ _ _ _ hs' ha2 h
    rw [if_neg h4] at h
    by_cases h5 : o.maxits < count + o.maxCycle + (2 * o.maxLevel - 1) * o.maxCycle
    · rw [if_pos h5] at h; cases h
    rw [if_neg h5] at h
    refine ih _ _ _ _ (fun md => sync_synced _ _) (fun md hc => ?_) h
    exact accepted_congr hN (fun p hp => (correct_conv g cv' (e n) X' md hc (hs' md) p hp).symm) (ha2 md hc)

theorem iterate_done {g : Geo} (hN : 0 < g.N) {o : Opts} {test : Test K} {tests : Nat → Bool} {e : Nat → M → Nat → K × K}
    {modes : List M} {t : Task K M} {fuel : Nat} {X : M → Nat → X4 K}
    (hs : ∀ md, Synced g (X md)) {Y : M → Nat → X4 K}
    (h : iterate g o test tests e modes t fuel X = .done Y) :
    (∀ md, Synced g (Y md)) ∧ ∀ md, md ∈ modes → Accepted g test t md (Y md) := by
  unfold iterate at h
  have ha : ∀ md, check g test 0 t X (fun _ => false) md = true → Accepted g test t md (X md) := fun md hc =>
    check_acc (cv := fun _ => false) (fun md h => by cases h) md hc
  dsimp only at h
  by_cases h2 : modes.all (check g test 0 t X fun _ => false) = true
  · rw [if_pos h2] at h
    cases h
    exact ⟨hs, fun md hm => ha md (List.all_eq_true.1 h2 md hm)⟩
  · rw [if_neg h2] at h
    exact loop_done hN _ _ _ _ _ hs ha h

/-- The loop ends: with as many passes as sweeps allowed, it has returned or thrown. -/
theorem loop_ends (g : Geo) (o : Opts) (ho : 1 ≤ o.maxCycle) (test : Test K) (tests : Nat → Bool)
    (e : Nat → M → Nat → K × K) (modes : List M) (t : Task K M) (fuel n count : Nat) (X : M → Nat → X4 K) (cv : M → Bool)
    (hf : o.maxits + 1 < fuel + count) (hfu : 0 < fuel) :
    loop g o test tests e modes t fuel n count X cv ≠ .more := by
  induction fuel generalizing n count X cv with
  | zero => omega
  | succ fuel ih =>
    simp only [loop]
    by_cases h1 : o.maxits < count + (o.maxCycle - 1)
    · rw [if_pos h1]; intro h; cases h
    rw [if_neg h1]
    generalize visit g t cv o.maxCycle X = X'
    generalize (if tests n then check g test (n + 1) t X' cv else cv) = cv'
    by_cases h2 : modes.all cv' = true
    · rw [if_pos h2]; intro h; cases h
    rw [if_neg h2]
    by_cases h3 : o.maxits < count + o.maxCycle
    · rw [if_pos h3]; intro h; cases h
    rw [if_neg h3]
    by_cases h4 : o.maxLevel = 0
    · rw [if_pos h4]
      exact ih _ _ _ _ (by omega) (by omega)
    rw [if_neg h4]
    generalize (2 * o.maxLevel - 1) * o.maxCycle = q
    by_cases h5 : o.maxits < count + o.maxCycle + q
    · rw [if_pos h5]; intro h; cases h
    rw [if_neg h5]
    exact ih _ _ _ _ (by omega) (by omega)

end Verif.Ipt
