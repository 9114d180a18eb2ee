import Mathlib.Tactic.Ring
import Mathlib.Tactic.SplitIfs
import Mathlib.Tactic.Linarith
import Mathlib.Tactic.FieldSimp
import Verif.Invert.MGSpec

/-! # Lemmas about the multigrid model -/

namespace Verif.MG

open Finset

variable {K : Type}

/-! ## Ghost cells -/

/-- The ghost cells of `x` hold the values of the cells they stand for. -/
def Fixed (d : Dim) (x : Vec K) : Prop := comm d x = x

theorem comm_idem (d : Dim) (hx : 0 < d.nx) (hz : 0 < d.nz) (x : Vec K) :
    Fixed d (comm d x) := by
  have hn : d.nx ≠ 0 := by omega
  have hzz : d.nz ≠ 0 := by omega
  have e1 : d.nz ≠ d.nz + 1 := by omega
  have e2 : d.nx ≠ d.nx + 1 := by omega
  have l1 : 1 ≤ d.nx := hx
  have l2 : 1 ≤ d.nz := hz
  unfold Fixed
  funext p i k
  unfold comm commZ
  by_cases hp : d.np > 1
  · simp only [if_pos hp]
    by_cases i0 : i = 0
    · subst i0
      by_cases p0 : 0 < p
      · simp [p0, l1, hn, e2, hzz, e1, l2]
        by_cases k0 : k = 0 <;> by_cases k1 : k = d.nz + 1 <;> simp_all
      · simp [p0, hn, Nat.succ_ne_zero]
    · by_cases i1 : i = d.nx + 1
      · subst i1
        by_cases p1 : p + 1 < d.np
        · simp [p1, l1, hn, e2, hzz, e1, l2, Ne.symm e2]
          by_cases k0 : k = 0 <;> by_cases k1 : k = d.nz + 1 <;> simp_all
        · simp [p1]
      · simp [i0, i1]
        by_cases hi : 1 ≤ i ∧ i ≤ d.nx
        · simp [hi, hzz, e1]
          by_cases k0 : k = 0 <;> by_cases k1 : k = d.nz + 1 <;> simp_all
        · have hi' : ¬ i ≤ d.nx := by omega
          simp [hi']
  · simp only [if_neg hp]
    by_cases i0 : i = 0
    · subst i0
      simp [l1, hn, e2, hzz, e1, l2]
      by_cases k0 : k = 0 <;> by_cases k1 : k = d.nz + 1 <;> simp_all
    · by_cases i1 : i = d.nx + 1
      · subst i1
        simp [l1, hn, e2, hzz, e1, l2]
        by_cases k0 : k = 0 <;> by_cases k1 : k = d.nz + 1 <;> simp_all
      · simp [i0, i1]
        by_cases hi : 1 ≤ i ∧ i ≤ d.nx
        · simp [hi, hzz, e1]
          by_cases k0 : k = 0 <;> by_cases k1 : k = d.nz + 1 <;> simp_all
        · have hi' : ¬ i ≤ d.nx := by omega
          simp [hi']

/-- Inside cells are not touched by the exchange. -/
theorem comm_inside (d : Dim) (x : Vec K) (p i k : Nat) (h1 : 1 ≤ i) (h2 : i ≤ d.nx)
    (h3 : 1 ≤ k) (h4 : k ≤ d.nz) : comm d x p i k = x p i k := by
  have a : i ≠ 0 := by omega
  have b : i ≠ d.nx + 1 := by omega
  have c : k ≠ 0 := by omega
  have e : k ≠ d.nz + 1 := by omega
  unfold comm commZ
  by_cases hp : d.np > 1 <;> simp [hp, a, b, c, e]

theorem fixed_zlo {d : Dim} {x : Vec K} (h : Fixed d x) (p i : Nat) (h1 : 1 ≤ i) (h2 : i ≤ d.nx) :
    x p i 0 = x p i d.nz := by
  have a : i ≠ 0 := by omega
  have b : i ≠ d.nx + 1 := by omega
  have := congrFun (congrFun (congrFun h p) i) 0
  rw [← this]
  unfold comm commZ
  by_cases hp : d.np > 1 <;> simp [hp, a, b, h1, h2]

theorem fixed_zhi {d : Dim} {x : Vec K} (h : Fixed d x) (p i : Nat) (h1 : 1 ≤ i) (h2 : i ≤ d.nx) :
    x p i (d.nz + 1) = x p i 1 := by
  have a : i ≠ 0 := by omega
  have b : i ≠ d.nx + 1 := by omega
  have := congrFun (congrFun (congrFun h p) i) (d.nz + 1)
  rw [← this]
  unfold comm commZ
  by_cases hp : d.np > 1 <;> simp [hp, a, b, h1, h2]

theorem commZ_of_fixed {d : Dim} {x : Vec K} (h : Fixed d x) (p i k : Nat) (h1 : 1 ≤ i)
    (h2 : i ≤ d.nx) : commZ d x p i k = x p i k := by
  unfold commZ
  rw [if_pos ⟨h1, h2⟩]
  by_cases k0 : k = 0
  · rw [if_pos k0, k0, fixed_zlo h p i h1 h2]
  · rw [if_neg k0]
    by_cases k1 : k = d.nz + 1
    · rw [if_pos k1, k1, fixed_zhi h p i h1 h2]
    · rw [if_neg k1]

theorem fixed_xlo {d : Dim} {x : Vec K} (h : Fixed d x) (hx : 0 < d.nx) (p k : Nat) (hp : 0 < p)
    (hpn : p < d.np) : x p 0 k = x (p - 1) d.nx k := by
  have := congrFun (congrFun (congrFun h p) 0) k
  rw [← this]
  have hn : d.np > 1 := by omega
  unfold comm
  simp only [if_pos hn]
  rw [if_pos ⟨trivial, hp⟩]
  exact commZ_of_fixed h _ _ _ hx (Nat.le_refl _)

theorem fixed_xhi {d : Dim} {x : Vec K} (h : Fixed d x) (hx : 0 < d.nx) (p k : Nat)
    (hpn : p + 1 < d.np) : x p (d.nx + 1) k = x (p + 1) 1 k := by
  have := congrFun (congrFun (congrFun h p) (d.nx + 1)) k
  rw [← this]
  have hn : d.np > 1 := by omega
  unfold comm
  simp only [if_pos hn]
  rw [if_neg (by omega), if_pos ⟨trivial, hpn⟩]
  exact commZ_of_fixed h _ _ _ (Nat.le_refl _) hx

variable [Field K] [LinearOrder K]

omit [LinearOrder K] in
theorem comm_lin (d : Dim) (a : K) (x y : Vec K) :
    comm d (fun p i k => x p i k + a * y p i k)
      = fun p i k => comm d x p i k + a * comm d y p i k := by
  funext p i k
  unfold comm commZ
  by_cases hp : d.np > 1
  · simp only [if_pos hp]; split_ifs <;> rfl
  · simp only [if_neg hp]; split_ifs <;> rfl

omit [LinearOrder K] in
theorem comm_smul (d : Dim) (a : K) (y : Vec K) :
    comm d (fun p i k => a * y p i k) = fun p i k => a * comm d y p i k := by
  funext p i k
  unfold comm commZ
  by_cases hp : d.np > 1
  · simp only [if_pos hp]; split_ifs <;> rfl
  · simp only [if_neg hp]; split_ifs <;> rfl

omit [LinearOrder K] in
theorem comm_add (d : Dim) (x y : Vec K) :
    comm d (fun p i k => x p i k + y p i k)
      = fun p i k => comm d x p i k + comm d y p i k := by
  funext p i k
  unfold comm commZ
  by_cases hp : d.np > 1
  · simp only [if_pos hp]; split_ifs <;> rfl
  · simp only [if_neg hp]; split_ifs <;> rfl

omit [LinearOrder K] in
theorem fixed_zero (d : Dim) : Fixed d (fun _ _ _ => (0 : K)) := by
  unfold Fixed
  funext p i k
  unfold comm commZ
  by_cases hp : d.np > 1
  · simp only [if_pos hp]; split_ifs <;> rfl
  · simp only [if_neg hp]; split_ifs <;> rfl

omit [LinearOrder K] in
theorem fixed_smul {d : Dim} {x : Vec K} (a : K) (h : Fixed d x) :
    Fixed d (fun p i k => a * x p i k) := by
  unfold Fixed at *
  rw [comm_smul, h]

omit [LinearOrder K] in
theorem fixed_add {d : Dim} {x y : Vec K} (h : Fixed d x) (h' : Fixed d y) :
    Fixed d (fun p i k => x p i k + y p i k) := by
  unfold Fixed at *
  rw [comm_add, h, h']

omit [LinearOrder K] in
theorem fixed_axpys {d : Dim} (cs : List K) (vs : List (Vec K)) (hv : ∀ v ∈ vs, Fixed d v) :
    ∀ (x : Vec K), Fixed d x → Fixed d (axpys x cs vs) := by
  induction cs generalizing vs with
  | nil => intro x h; cases vs <;> exact h
  | cons c cs ih =>
    intro x h
    cases vs with
    | nil => exact h
    | cons v vs =>
      refine ih vs (fun w hw => hv w (List.mem_cons_of_mem _ hw)) _ ?_
      exact fixed_add h (fixed_smul c (hv v List.mem_cons_self))

/-! ## Smoothing, cycle and GMRES leave consistent ghosts -/

theorem smoothings_fixed {s : Par K} {d : Dim} {A : Mat K} {x b y : Vec K} (hx : 0 < d.nx)
    (hz : 0 < d.nz) (h : smoothings s d A x b = .ok y) : Fixed d y := by
  unfold smoothings at h
  split_ifs at h
  · cases h; exact comm_idem d hx hz _
  · cases h; exact comm_idem d hx hz _

/-- Every level has at least one cell. -/
def Hier.Pos (h : Hier K) : Prop := ∀ l, l ≤ h.top → 0 < (h.dim l).nx ∧ 0 < (h.dim l).nz

theorem cycle_fixed {h : Hier K} {low : Vec K → Vec K → Out (Vec K)} (hp : h.Pos)
    (hl : ∀ x b y, Fixed (h.dim 0) x → low x b = .ok y → Fixed (h.dim 0) y) :
    ∀ (l : Nat), l ≤ h.top → ∀ (x b y : Vec K), Fixed (h.dim l) x →
      cycleMG h low l x b = .ok y → Fixed (h.dim l) y := by
  intro l
  cases l with
  | zero => intro _ x b y hx h1; exact hl x b y hx h1
  | succ l =>
    intro hle x b y _ h1
    simp only [cycleMG, bind, Except.bind] at h1
    split at h1
    · cases h1
    · split at h1
      · cases h1
      · exact smoothings_fixed (hp _ hle).1 (hp _ hle).2 h1

theorem attempt_spec {g : Gm K} {rhs sol : Vec K} {ini : K}
    (hpre : ∀ q w, g.pre q = .ok w → Fixed g.dim w) (hsol : Fixed g.dim sol)
    (vs : List (Vec K)) (v : Vec K) (pe : K) (num : Nat) (o : Inner K ⊕ (Vec K × Inner K))
    (hne : vs ≠ []) (hvs : ∀ u ∈ vs, Fixed g.dim u)
    (h : attempt g rhs sol ini vs v pe num = .ok o) :
    num + 1 ≤ g.maxit ∧
    ((∃ res, o = .inl res ∧ Fixed g.dim res.p ∧ res.r = residualVec g.dim g.mat res.p rhs
        ∧ (res.done = true → g.isTop = true →
          g.par.sqrt (vectorProd g.dim res.r res.r) ≤ g.par.rtol * ini + g.par.atol)
        ∧ (res.num = num + 1 ∨ res.num = num) ∧ (res.done = false → 2 ≤ vs.length))
      ∨ (∃ w res, o = .inr (w, res) ∧ Fixed g.dim w ∧ Fixed g.dim res.p
        ∧ res.r = residualVec g.dim g.mat res.p rhs ∧ res.num = num + 1 ∧ res.done = false)) := by
  simp only [attempt, bind, Except.bind] at h
  split at h
  · cases h
  · rename_i w hw
    split at h
    · cases h
    · rename_i y _
      split_ifs at h with h1 h2 h3 h4
      · cases h
        refine ⟨by omega, Or.inl ⟨_, rfl, fixed_axpys _ _ hvs _ hsol, rfl, fun _ _ => h3,
          Or.inl rfl, fun h => nomatch h⟩⟩
      · cases h
        refine ⟨by omega, Or.inl ⟨_, rfl, fixed_axpys _ _ hvs _ hsol, rfl, fun _ ht => ?_,
          Or.inr rfl, fun hd => ?_⟩⟩
        · rw [h4.1] at ht; cases ht
        · have : vs.length ≠ 1 := of_decide_eq_false hd
          have : vs.length ≠ 0 := fun e => hne (List.length_eq_zero_iff.mp e)
          omega
      · cases h
        exact ⟨by omega, Or.inr ⟨_, _, rfl, hpre _ _ hw, fixed_axpys _ _ hvs _ hsol, rfl, rfl, rfl⟩⟩

/-- What is known when the inner loop ends. -/
theorem inner_spec {g : Gm K} {rhs sol : Vec K} {ini : K}
    (hpre : ∀ q w, g.pre q = .ok w → Fixed g.dim w) (hsol : Fixed g.dim sol) :
    ∀ (n : Nat) (vs : List (Vec K)) (v : Vec K) (pe : K) (num : Nat) (res : Inner K),
      vs ≠ [] → (∀ u ∈ vs, Fixed g.dim u) →
      inner g rhs sol ini n vs v pe num = .ok res →
      Fixed g.dim res.p ∧ res.r = residualVec g.dim g.mat res.p rhs
        ∧ (res.done = true → g.isTop = true →
          g.par.sqrt (vectorProd g.dim res.r res.r) ≤ g.par.rtol * ini + g.par.atol)
        ∧ (res.done = false → num + 1 ≤ res.num ∨ (2 ≤ vs.length ∧ num ≤ res.num))
        ∧ res.num ≤ g.maxit := by
  intro n
  induction n with
  | zero =>
    intro vs v pe num res hne hvs h
    simp only [inner, bind, Except.bind] at h
    split at h
    · cases h
    · rename_i o ho
      obtain ⟨hm, hs⟩ := attempt_spec hpre hsol _ _ _ _ _ hne hvs ho
      rcases hs with ⟨res', rfl, a1, a2, a3, a4, a5⟩ | ⟨w, res', rfl, a0, a1, a2, a3, a4⟩
      · cases h
        exact ⟨a1, a2, a3, fun hd => Or.inr ⟨a5 hd, by omega⟩, by omega⟩
      · cases h
        exact ⟨a1, a2, (fun hd => by rw [a4] at hd; cases hd), fun hd => Or.inl (by omega), by omega⟩
  | succ n ih =>
    intro vs v pe num res hne hvs h
    simp only [inner, bind, Except.bind] at h
    split at h
    · cases h
    · rename_i o ho
      obtain ⟨hm, hs⟩ := attempt_spec hpre hsol _ _ _ _ _ hne hvs ho
      rcases hs with ⟨res', rfl, a1, a2, a3, a4, a5⟩ | ⟨w, res', rfl, a0, a1, a2, a3, a4⟩
      · cases h
        exact ⟨a1, a2, a3, fun hd => Or.inr ⟨a5 hd, by omega⟩, by omega⟩
      · simp only at h
        split at h
        · cases h
        · rename_i a cs _
          have hf : Fixed g.dim (axpys (fun p i k => a * w p i k) cs vs) :=
            fixed_axpys _ _ hvs _ (fixed_smul a a0)
          obtain ⟨b1, b2, b3, b4, b5⟩ := ih _ _ _ _ _ (by simp) (by
            intro u hu
            rcases List.mem_append.mp hu with hu | hu
            · exact hvs u hu
            · rw [List.mem_singleton.mp hu]; exact hf) h
          exact ⟨b1, b2, b3, fun hd => Or.inl (by rcases b4 hd with h | h <;> omega), b5⟩

theorem outer_spec {g : Gm K} {rhs : Vec K} {ini : K}
    (hpre : ∀ q w, g.pre q = .ok w → Fixed g.dim w) :
    ∀ (fuel : Nat) (w sol : Vec K) (pe : K) (num : Nat) (x : Vec K),
      Fixed g.dim w → Fixed g.dim sol → outer g rhs ini fuel w sol pe num = .ok x →
      Fixed g.dim x ∧ (g.isTop = true →
        g.par.sqrt (vectorProd g.dim (residualVec g.dim g.mat x rhs)
          (residualVec g.dim g.mat x rhs)) ≤ g.par.rtol * ini + g.par.atol) := by
  intro fuel
  induction fuel with
  | zero => intro w sol pe num x _ _ h; cases h
  | succ fuel ih =>
    intro w sol pe num x hw hsol h
    rw [outer] at h
    split at h
    · cases h
    · rename_i a _
      simp only [bind, Except.bind] at h
      split at h
      · cases h
      · rename_i res hres
        obtain ⟨b1, b2, b3, _, _⟩ := inner_spec hpre hsol _ _ _ _ _ _ (by simp)
          (by intro u hu; rw [List.mem_singleton.mp hu]; exact fixed_smul a hw) hres
        split at h
        · cases h
        · rename_i w' hw'
          split_ifs at h with h1 h2
          · cases h
            refine ⟨b1, fun ht => ?_⟩
            rw [← b2]; exact b3 h2 ht
          · exact ih _ _ _ _ _ (hpre _ _ hw') b1 h

theorem pGMRES_spec {g : Gm K} {rhs x : Vec K}
    (hpre : ∀ q w, g.pre q = .ok w → Fixed g.dim w) (h : pGMRES g rhs = .ok x) :
    Fixed g.dim x ∧ (g.isTop = true →
      (g.par.sqrt (vectorProd g.dim (residualVec g.dim g.mat x rhs)
        (residualVec g.dim g.mat x rhs))
          ≤ g.par.rtol * g.par.sqrt (vectorProd g.dim rhs rhs) + g.par.atol)
      ∨ (x = (fun _ _ _ => 0) ∧
          g.par.sqrt (vectorProd g.dim rhs rhs) < g.par.atol * g.par.rtol)) := by
  unfold pGMRES at h
  simp only at h
  split_ifs at h with h1
  · cases h
    exact ⟨fixed_zero _, fun _ => Or.inr ⟨rfl, h1⟩⟩
  · simp only [bind, Except.bind] at h
    split at h
    · cases h
    · rename_i w hw
      obtain ⟨a1, a2⟩ := outer_spec hpre _ _ _ _ _ _ (hpre _ _ hw) (fixed_zero _) h
      exact ⟨a1, fun ht => Or.inl (a2 ht)⟩

/-! ## The loop ends -/

/-- No run of an inner loop ends in the marker of an endless loop, unless the preconditioner
does. -/
theorem attempt_ends {g : Gm K} {rhs sol : Vec K} {ini : K}
    (hpre : ∀ q, g.pre q ≠ .error (.ub "runaway"))
    (vs : List (Vec K)) (v : Vec K) (pe : K) (num : Nat) :
      attempt g rhs sol ini vs v pe num ≠ .error (.ub "runaway") := by
  intro h
  simp only [attempt, bind, Except.bind] at h
  split at h
  · rename_i e he; cases h; exact hpre _ he
  · split at h
    · cases h
    · split_ifs at h <;> cases h

theorem inner_ends {g : Gm K} {rhs sol : Vec K} {ini : K}
    (hpre : ∀ q, g.pre q ≠ .error (.ub "runaway")) :
    ∀ (n : Nat) (vs : List (Vec K)) (v : Vec K) (pe : K) (num : Nat),
      inner g rhs sol ini n vs v pe num ≠ .error (.ub "runaway") := by
  intro n
  induction n with
  | zero =>
    intro vs v pe num h
    simp only [inner, bind, Except.bind] at h
    split at h
    · rename_i e he; cases h; exact attempt_ends hpre _ _ _ _ he
    · split at h <;> cases h
  | succ n ih =>
    intro vs v pe num h
    simp only [inner, bind, Except.bind] at h
    split at h
    · rename_i e he; cases h; exact attempt_ends hpre _ _ _ _ he
    · split at h
      · cases h
      · split at h
        · cases h
        · exact ih _ _ _ _ h

theorem outer_ends {g : Gm K} {rhs : Vec K} {ini : K}
    (hpre : ∀ q w, g.pre q = .ok w → Fixed g.dim w)
    (hend : ∀ q, g.pre q ≠ .error (.ub "runaway")) :
    ∀ (fuel : Nat) (w sol : Vec K) (pe : K) (num : Nat), Fixed g.dim w → Fixed g.dim sol →
      num ≤ g.maxit → g.maxit + 1 ≤ fuel + num →
      outer g rhs ini fuel w sol pe num ≠ .error (.ub "runaway") := by
  intro fuel
  induction fuel with
  | zero => intro w sol pe num _ _ h1 h2; omega
  | succ fuel ih =>
    intro w sol pe num hw hsol h1 h2 h
    rw [outer] at h
    split at h
    · cases h
    · rename_i a _
      simp only [bind, Except.bind] at h
      split at h
      · rename_i e he; cases h; exact inner_ends hend _ _ _ _ _ he
      · rename_i res hres
        obtain ⟨b1, b2, b3, b4, b5⟩ := inner_spec hpre hsol _ _ _ _ _ _ (by simp)
          (by intro u hu; rw [List.mem_singleton.mp hu]; exact fixed_smul a hw) hres
        split at h
        · rename_i e he; cases h; exact hend _ he
        · rename_i w' hw'
          split_ifs at h with h3 h4
          · cases h
          · have hd : res.done = false := by simpa using h4
            have : num + 1 ≤ res.num := by
              rcases b4 hd with h | h
              · exact h
              · simp at h
            exact ih _ _ _ _ (hpre _ _ hw') b1 b5 (by omega) h

theorem pGMRES_ends {g : Gm K} (rhs : Vec K)
    (hpre : ∀ q w, g.pre q = .ok w → Fixed g.dim w)
    (hend : ∀ q, g.pre q ≠ .error (.ub "runaway")) :
    pGMRES g rhs ≠ .error (.ub "runaway") := by
  intro h
  unfold pGMRES at h
  simp only at h
  split_ifs at h
  simp only [bind, Except.bind] at h
  split at h
  · rename_i e he; cases h; exact hend _ he
  · rename_i w hw
    exact outer_ends hpre hend _ _ _ _ _ (hpre _ _ hw) (fixed_zero _) (by omega) (by omega) h

end Verif.MG
