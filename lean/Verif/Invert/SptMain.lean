import Verif.Invert.SptProps

namespace Verif.Spt

open Verif.Cyclic

variable {K : Type} [Field K] [DecidableEq K]

theorem setRank_same (f : Nat → Nat → K) (q : Nat) (v : Nat → K) : setRank f q v q = v := if_pos rfl
theorem setRank_ne (f : Nat → Nat → K) {p q : Nat} (v : Nat → K) (h : p ≠ q) : setRank f q v p = f p := if_neg h

/-- After `k` calls, before the turn-around. -/
def InvF (P : Nat) (R : Nat → RankSys K) (k : Nat) (s : St K) : Prop :=
  s.proc = (k : Int) + 1 ∧ s.dir = (if k + 1 = P - 1 then -1 else 1) ∧
  ∃ β, ElimAll R (k + 1) s.gam s.u β ∧ s.msg = (β k ((R k).n - 1), s.u k ((R k).n - 1))

/-- After `P - 1` calls or more; processors `m .. P - 1` are done. -/
def InvB (P : Nat) (R : Nat → RankSys K) (m : Nat) (s : St K) : Prop :=
  s.proc = (m : Int) - 1 ∧ s.dir = -1 ∧
  ∃ u β, ElimAll R P s.gam u β ∧ SubstFrom R P m s.gam u s.u ∧ (∀ q, q < m → s.u q = u q) ∧
    (0 < m → s.msg = (s.gam m 0, s.u m 0))

theorem start_inv (P : Nat) (hP : 2 ≤ P) (R : Nat → RankSys K) (hn : ∀ q, q < P → 1 ≤ (R q).n) (jg ju : Nat → Nat → K) (s : St K)
    (h : start P R jg ju = .ok s) : InvF P R 0 s := by
  unfold start at h
  rw [if_neg (by omega)] at h
  split at h
  · cases h
  · rename_i g u bet um hf
    cases h
    obtain ⟨β, hE, h1, h2, h3, h4⟩ := forward_start (R 0) (hn 0 (by omega)) _ _ _ _ _ _ _ _ hf
    refine ⟨rfl, ?_, fun _ => β, ⟨?_, ?_, ?_⟩, ?_⟩
    · dsimp only
      by_cases e : P = 2
      · rw [if_pos e, if_pos (by omega)]
      · rw [if_neg e, if_neg (by omega)]
    · intro q hq
      have : q = 0 := by omega
      subst this
      dsimp only
      rw [setRank_same, setRank_same]
      exact hE
    · dsimp only
      rw [setRank_same]
      exact ⟨h1, h2⟩
    · intro q hq; omega
    · dsimp only
      rw [setRank_same, h3, h4]

/-- One more processor in the forward direction: the relations extend. -/
theorem elimAll_step (R : Nat → RankSys K) (p : Nat) (hn : 1 ≤ (R p).n) (gam u β : Nat → Nat → K) (he : ElimAll R (p + 1) gam u β)
    (g' u' β' : Nat → K) (hE : Elim (R (p + 1)) g' u' β') (h1 : g' 0 * β p ((R p).n - 1) = (R (p + 1)).cm)
    (h2 : β' 0 = ((R (p + 1)).row 0).b - ((R (p + 1)).row 0).a * g' 0)
    (h3 : u' 0 * β' 0 = ((R (p + 1)).row 0).r - ((R (p + 1)).row 0).a * u p ((R p).n - 1)) :
    ElimAll R (p + 2) (setRank gam (p + 1) g') (setRank u (p + 1) u') (setRank β (p + 1) β') := by
  refine ⟨?_, ?_, ?_⟩
  · intro q hq
    by_cases e : q = p + 1
    · subst e
      rw [setRank_same, setRank_same, setRank_same]
      exact hE
    · rw [setRank_ne _ _ e, setRank_ne _ _ e, setRank_ne _ _ e]
      exact he.each q (by omega)
  · rw [setRank_ne _ _ (by omega), setRank_ne _ _ (by omega)]
    exact he.first
  · intro q hq
    by_cases e : q = p
    · subst e
      rw [setRank_same, setRank_same, setRank_same, setRank_ne _ _ (by omega), setRank_ne _ _ (by omega)]
      exact ⟨h1, h2, h3⟩
    · rw [setRank_ne _ _ (by omega), setRank_ne _ _ (by omega), setRank_ne _ _ (by omega), setRank_ne _ _ (by omega),
        setRank_ne _ _ (by omega)]
      exact he.join q (by omega)

theorem next_forward (P : Nat) (R : Nat → RankSys K) (hn : ∀ q, q < P → 1 ≤ (R q).n) (k : Nat) (hk : k + 2 < P) (s t : St K) (b : Bool)
    (hi : InvF P R k s) (h : next P R s = .ok (b, t)) : b = false ∧ InvF P R (k + 1) t := by
  obtain ⟨hp, hd, β, he, hm⟩ := hi
  have hd' : s.dir = 1 := by rw [hd, if_neg (by omega)]
  unfold next at h
  rw [if_neg (by omega)] at h
  have ep : s.proc.toNat = k + 1 := by omega
  rw [ep] at h
  unfold work at h
  rw [if_neg (by omega), if_pos (by omega)] at h
  rw [hm] at h
  dsimp only at h
  cases hf : tridagForward (R (k + 1)) (s.gam (k + 1)) (s.u (k + 1)) false (β k ((R k).n - 1)) (s.u k ((R k).n - 1)) with
  | error e => rw [hf] at h; cases h
  | ok r =>
    obtain ⟨g', u', bet', um'⟩ := r
    rw [hf] at h
    cases h
    have hb : β k ((R k).n - 1) ≠ 0 := (he.each k (by omega)).piv _ (by have := hn k (by omega); omega)
    obtain ⟨β', hE, h1, h2, h3, h4, h5⟩ := forward_next (R (k + 1)) (hn _ (by omega)) _ _ _ _ hb _ _ _ _ hf
    refine ⟨rfl, ?_, ?_, setRank β (k + 1) β', ?_, ?_⟩
    · dsimp only; rw [hp, hd']; push_cast; omega
    · dsimp only
      by_cases e : k + 1 + 1 = P - 1
      · rw [if_pos (by omega), if_pos e]
      · rw [if_neg (by omega), if_neg e, hd']
    · exact elimAll_step R k (hn k (by omega)) _ _ _ he _ _ _ hE h1 h2 h3
    · dsimp only
      rw [setRank_same, setRank_same, h4, h5]

theorem next_turn (P : Nat) (hP : 2 ≤ P) (R : Nat → RankSys K) (hn : ∀ q, q < P → 1 ≤ (R q).n) (s t : St K) (b : Bool)
    (hi : InvF P R (P - 2) s) (h : next P R s = .ok (b, t)) : b = false ∧ InvB P R (P - 1) t := by
  obtain ⟨hp, hd, β, he, hm⟩ := hi
  have hd' : s.dir = -1 := by rw [hd, if_pos (by omega)]
  obtain ⟨k, rfl⟩ : ∃ k, P = k + 2 := ⟨P - 2, by omega⟩
  simp only [Nat.add_sub_cancel] at *
  unfold next at h
  rw [if_neg (by omega)] at h
  have ep : s.proc.toNat = k + 1 := by omega
  rw [ep] at h
  unfold work at h
  rw [if_pos (by omega)] at h
  rw [hm] at h
  dsimp only at h
  cases hf : tridagForward (R (k + 1)) (s.gam (k + 1)) (s.u (k + 1)) false (β k ((R k).n - 1)) (s.u k ((R k).n - 1)) with
  | error e => rw [hf] at h; cases h
  | ok r =>
    obtain ⟨g', u', bet', um'⟩ := r
    rw [hf] at h
    cases h
    have hb : β k ((R k).n - 1) ≠ 0 := (he.each k (by omega)).piv _ (by have := hn k (by omega); omega)
    obtain ⟨β', hE, h1, h2, h3, h4, h5⟩ := forward_next (R (k + 1)) (hn _ (by omega)) _ _ _ _ hb _ _ _ _ hf
    obtain ⟨hS, hm'⟩ := back_ok (R (k + 1)).n g' u' 0 0
    refine ⟨rfl, ?_, ?_, setRank s.u (k + 1) u', setRank β (k + 1) β', ?_, ?_, ?_, ?_⟩
    · dsimp only; rw [hp, hd']; push_cast; omega
    · dsimp only
      rw [if_neg (by omega), hd']
    · exact elimAll_step R k (hn k (by omega)) _ _ _ he _ _ _ hE h1 h2 h3
    · intro q hq hq'
      have : q = k + 1 := by omega
      subst this
      rw [if_pos rfl, if_pos rfl]
      dsimp only
      rw [setRank_same, setRank_same, setRank_same]
      exact hS
    · intro q hq
      dsimp only
      rw [setRank_ne _ _ (by omega), setRank_ne _ _ (by omega)]
    · intro _
      dsimp only
      have e : k + 2 - 1 = k + 1 := by omega
      rw [e, setRank_same, setRank_same, hm']

theorem next_back (P : Nat) (R : Nat → RankSys K) (m : Nat) (hm : m + 1 < P) (s t : St K) (b : Bool)
    (hi : InvB P R (m + 1) s) (h : next P R s = .ok (b, t)) : b = false ∧ InvB P R m t := by
  obtain ⟨hp, hd, u, β, he, hx, hu, hmsg⟩ := hi
  have hmsg := hmsg (by omega)
  unfold next at h
  rw [if_neg (by push_cast at hp; omega)] at h
  have ep : s.proc.toNat = m := by push_cast at hp; omega
  rw [ep] at h
  unfold work at h
  rw [if_neg (by omega), if_neg (by omega)] at h
  cases h
  obtain ⟨hS, hm'⟩ := back_ok (R m).n (s.gam m) (s.u m) s.msg.1 s.msg.2
  refine ⟨rfl, ?_, ?_, u, β, he, ?_, ?_, ?_⟩
  · dsimp only; rw [hp, hd]; push_cast; omega
  · dsimp only
    rw [hp, hd, if_neg (by push_cast; omega)]
  · intro q hq hq'
    dsimp only
    by_cases e : q = m
    · subst e
      rw [setRank_same, if_neg (by omega), if_neg (by omega), setRank_ne _ _ (by omega)]
      rw [hmsg, hu q (by omega)] at hS
      rw [hmsg, hu q (by omega)]
      exact hS
    · rw [setRank_ne _ _ e]
      have := hx q (by omega) hq'
      by_cases e' : q + 1 = P
      · rw [if_pos e', if_pos e'] at this ⊢; exact this
      · rw [if_neg e', if_neg e'] at this ⊢
        rw [setRank_ne _ _ (by omega)]; exact this
  · intro q hq
    dsimp only
    rw [setRank_ne _ _ (by omega)]
    exact hu q (by omega)
  · intro h0
    dsimp only
    rw [if_neg (by omega), setRank_same, hm']

/-- After `k` calls. -/
theorem calls_inv (P : Nat) (hP : 2 ≤ P) (R : Nat → RankSys K) (hn : ∀ q, q < P → 1 ≤ (R q).n) (s0 : St K) (h0 : InvF P R 0 s0) (k : Nat) :
    ∀ s, calls P R k s0 = .ok s → (k + 2 ≤ P → InvF P R k s) ∧ (P - 1 ≤ k → InvB P R (2 * P - 2 - k) s) := by
  induction k with
  | zero =>
    intro s h
    cases h
    exact ⟨fun _ => h0, fun h => absurd h (by omega)⟩
  | succ k ih =>
    intro s h
    unfold calls at h
    split at h
    · cases h
    · rename_i s' hs'
      obtain ⟨i1, i2⟩ := ih s' hs'
      split at h
      · cases h
      · rename_i b s'' hn'
        cases h
        constructor
        · intro hk
          exact (next_forward P R hn k (by omega) s' s b (i1 (by omega)) hn').2
        · intro hk
          by_cases e : k + 1 = P - 1
          · have := next_turn P hP R hn s' s b (by have := i1 (by omega); rwa [show P - 2 = k by omega]) hn'
            rw [show 2 * P - 2 - (k + 1) = P - 1 by omega]
            exact this.2
          · have i := i2 (by omega)
            by_cases e' : 2 * P - 2 - k = 0
            · -- finished: nothing changes
              rw [e'] at i
              rw [show 2 * P - 2 - (k + 1) = 0 by omega]
              unfold next at hn'
              rw [if_pos (by have := i.1; push_cast at this; omega)] at hn'
              cases hn'
              exact i
            · have em : 2 * P - 2 - k = (2 * P - 2 - (k + 1)) + 1 := by omega
              rw [em] at i
              exact (next_back P R _ (by omega) s' s b i hn').2

/-- **C58.** The pipelined Thomas algorithm on any number (at least two) of processors with any number of rows each: once the slice
has been moved along at least `2 P - 2` times, the values on the processors solve the distributed tridiagonal system in which the
upper coefficient of the last row of a processor is the one the next processor has for its guard cell. -/
theorem C58_spt_solves_joined (P : Nat) (hP : 2 ≤ P) (R : Nat → RankSys K) (hn : ∀ q, q < P → 1 ≤ (R q).n)
    (jg ju : Nat → Nat → K) (k : Nat) (hk : 2 * P - 2 ≤ k) (s : St K)
    (h : solveMode P R jg ju k = .ok s) : Solves P (fun q => (R q).n) false (joined P R) s.u := by
  unfold solveMode at h
  split at h
  · cases h
  · rename_i s0 h0
    have i := (calls_inv P hP R hn s0 (start_inv P hP R hn jg ju s0 h0) k s h).2 (by omega)
    rw [show 2 * P - 2 - k = 0 by omega] at i
    obtain ⟨-, -, u, β, he, hx, -, -⟩ := i
    exact solves_of P R hn s.gam u β s.u he hx

/-- **C58.** So they solve the system itself if each processor's coefficient for the guard cell before its first row is its
neighbour's coefficient for that row. -/
theorem C58_spt_solves (P : Nat) (hP : 2 ≤ P) (R : Nat → RankSys K) (hn : ∀ q, q < P → 1 ≤ (R q).n)
    (hc : ∀ q, q + 1 < P → (R (q + 1)).cm = ((R q).row ((R q).n - 1)).c) (jg ju : Nat → Nat → K) (k : Nat) (hk : 2 * P - 2 ≤ k) (s : St K)
    (h : solveMode P R jg ju k = .ok s) : Solves P (fun q => (R q).n) false (fun q j => (R q).row j) s.u := by
  intro q hq j hj
  have := C58_spt_solves_joined P hP R hn jg ju k hk s h q hq j hj
  rw [joined_eq P R hc q hq j] at this
  exact this

/-- **C58, violated.** Where the coefficients differ, the row is wrong by their difference times the value beyond the boundary: the
returned values satisfy it only if that value is zero. -/
theorem C58_spt_guard_violated (P : Nat) (hP : 2 ≤ P) (R : Nat → RankSys K) (hn : ∀ q, q < P → 1 ≤ (R q).n)
    (jg ju : Nat → Nat → K) (k : Nat) (hk : 2 * P - 2 ≤ k) (s : St K) (h : solveMode P R jg ju k = .ok s) (q : Nat) (hq : q + 1 < P)
    (hc : (R (q + 1)).cm ≠ ((R q).row ((R q).n - 1)).c) :
    ((R q).row ((R q).n - 1)).Holds (prevVal P (fun q => (R q).n) false s.u q ((R q).n - 1)) (s.u q ((R q).n - 1))
      (nextVal P (fun q => (R q).n) false s.u q ((R q).n - 1)) ↔ s.u (q + 1) 0 = 0 := by
  have hnq := hn q (by omega)
  have hj : (R q).n - 1 + 1 = (R q).n := by omega
  have := C58_spt_solves_joined P hP R hn jg ju k hk s h q (by omega) ((R q).n - 1) (by show _ < (R q).n; omega)
  have e : nextVal P (fun q => (R q).n) false s.u q ((R q).n - 1) = s.u (q + 1) 0 := by
    unfold nextVal
    dsimp only
    rw [if_neg (by omega), if_pos (by omega)]
  unfold joined at this
  rw [if_pos ⟨hj, by omega⟩] at this
  unfold Row.Holds at this ⊢
  dsimp only at this
  rw [e] at this ⊢
  generalize prevVal P (fun q => (R q).n) false s.u q ((R q).n - 1) = v at this ⊢
  constructor
  · intro h
    have : ((R (q + 1)).cm - ((R q).row ((R q).n - 1)).c) * s.u (q + 1) 0 = 0 := by linear_combination this - h
    rcases mul_eq_zero.1 this with z | z
    · exact absurd (sub_eq_zero.1 z) hc
    · exact z
  · intro z
    rw [z, mul_zero] at this ⊢
    exact this

/-- **C58.** `next` reports completion at the call after `2 P - 2` calls and not before, so the loop of `finish` ends, and
it ends with the solution. -/
theorem C58_spt_finishes (P : Nat) (hP : 2 ≤ P) (R : Nat → RankSys K) (hn : ∀ q, q < P → 1 ≤ (R q).n) (jg ju : Nat → Nat → K) (k : Nat)
    (s t : St K) (b : Bool) (h : solveMode P R jg ju k = .ok s) (hb : next P R s = .ok (b, t)) : b = true ↔ 2 * P - 2 ≤ k := by
  unfold solveMode at h
  split at h
  · cases h
  · rename_i s0 h0
    obtain ⟨i1, i2⟩ := calls_inv P hP R hn s0 (start_inv P hP R hn jg ju s0 h0) k s h
    have hproc : b = true ↔ s.proc < 0 := by
      unfold next at hb
      by_cases e : s.proc < 0
      · rw [if_pos e] at hb; cases hb; exact ⟨fun _ => e, fun _ => rfl⟩
      · rw [if_neg e] at hb
        split at hb
        · cases hb
        · cases hb; exact ⟨fun h => (by cases h), fun h => absurd h e⟩
    rw [hproc]
    by_cases c : k + 2 ≤ P
    · have := (i1 c).1
      omega
    · have := (i2 (by omega)).1
      omega

end Verif.Spt
