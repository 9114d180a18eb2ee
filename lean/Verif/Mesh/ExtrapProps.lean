import Verif.Mesh.Extrap
import Mathlib.Tactic.Ring
import Mathlib.Tactic.LinearCombination
import Mathlib.Tactic.NormNum
import Mathlib.Tactic.FieldSimp

/-! Lemmas about the model of `interpolateAndExtrapolate`. -/

namespace Verif.Extrap

variable {K : Type} [Field K]

/-- The guard cells in line with `p`. -/
def OnLine (m : Mesh) (s : Side) (p q : Pt) : Prop := ∃ k, 0 ≤ k ∧ k < m.width s ∧ q = along s p k

/-- Inside the array. -/
def Mesh.InArray (m : Mesh) (p : Pt) : Prop := 0 ≤ p.x ∧ p.x < m.localNx ∧ 0 ≤ p.y ∧ p.y < m.localNy

theorem rd_ok {m : Mesh} {r : Pt → K} {p : Pt} {v : K} (h : m.rd r p = .ok v) : v = r p ∧ m.InArray p := by
  unfold Mesh.rd at h
  split at h
  · rename_i hb
    exact ⟨(Except.ok.inj h).symm, hb⟩
  · cases h

theorem rd_in {m : Mesh} {p : Pt} (r : Pt → K) (h : m.InArray p) : m.rd r p = .ok (r p) := by
  unfold Mesh.rd; exact if_pos h

theorem rd_out {m : Mesh} {p : Pt} (r : Pt → K) (h : ¬ m.InArray p) : m.rd r p = .error (.ub "index outside the array") := by
  unfold Mesh.rd; exact if_neg h

theorem bx_by (s : Side) : s.bx ≠ 0 ∨ s.bY ≠ 0 := by cases s <;> simp [Side.bx, Side.bY]

theorem along_inj {s : Side} {p : Pt} {i j : Int} (h : along s p i = along s p j) : i = j := by
  unfold along at h
  have h1 := congrArg Pt.x h
  have h2 := congrArg Pt.y h
  dsimp only at h1 h2
  cases s <;> simp only [Side.bx, Side.bY] at h1 h2 <;> omega

theorem along_zero (s : Side) (p : Pt) : along s p 0 = p := by
  unfold along
  cases p
  simp

theorem upd_same (r : Pt → K) (p : Pt) (v : K) : upd r p v p = v := by unfold upd; rw [if_pos rfl]
theorem upd_other (r : Pt → K) {p q : Pt} (v : K) (h : q ≠ p) : upd r p v q = r q := by unfold upd; rw [if_neg h]

/-- One step of the loop. -/
theorem extrapLoop_succ {m : Mesh} {s : Side} {p : Pt} {n : Nat} {i : Int} {r r' : Pt → K}
    (h : extrapLoop m s p (n + 1) i r = .ok r') :
    extrapLoop m s p n (i + 1) (upd r (along s p i) (3 * r (along s p (i - 1)) - 3 * r (along s p (i - 2)) + r (along s p (i - 3)))) = .ok r' ∧
    m.InArray (along s p (i - 1)) ∧ m.InArray (along s p (i - 2)) ∧ m.InArray (along s p (i - 3)) := by
  rw [extrapLoop] at h
  simp only [bind, Except.bind] at h
  cases h1 : m.rd r (along s p (i - 1)) with
  | error e => rw [h1] at h; cases h
  | ok a =>
    rw [h1] at h; dsimp only at h
    cases h2 : m.rd r (along s p (i - 2)) with
    | error e => rw [h2] at h; cases h
    | ok b =>
      rw [h2] at h; dsimp only at h
      cases h3 : m.rd r (along s p (i - 3)) with
      | error e => rw [h3] at h; cases h
      | ok c =>
        rw [h3] at h; dsimp only at h
        obtain ⟨e1, b1⟩ := rd_ok h1
        obtain ⟨e2, b2⟩ := rd_ok h2
        obtain ⟨e3, b3⟩ := rd_ok h3
        rw [e1, e2, e3] at h
        exact ⟨h, b1, b2, b3⟩

/-- The loop writes only the cells from `i` on. -/
theorem extrapLoop_frame {m : Mesh} {s : Side} {p : Pt} : ∀ (n : Nat) (i : Int) (r r' : Pt → K),
    extrapLoop m s p n i r = .ok r' → ∀ q, (∀ k, i ≤ k → k < i + n → q ≠ along s p k) → r' q = r q
  | 0, i, r, r', h, q, _ => by rw [extrapLoop] at h; rw [Except.ok.inj h]
  | n + 1, i, r, r', h, q, hq => by
    have h1 := (extrapLoop_succ h).1
    rw [extrapLoop_frame n (i + 1) _ r' h1 q (fun k h2 h3 => hq k (by omega) (by push_cast; omega)),
      upd_other _ _ (hq i (le_refl _) (by push_cast; omega))]

/-- If the three cells before lie on a function with vanishing third difference, so do the cells written. -/
theorem extrapLoop_cont {m : Mesh} {s : Side} {p : Pt} (F : Int → K)
    (hF : ∀ k, F k = 3 * F (k - 1) - 3 * F (k - 2) + F (k - 3)) : ∀ (n : Nat) (i : Int) (r r' : Pt → K),
    extrapLoop m s p n i r = .ok r' → r (along s p (i - 1)) = F (i - 1) → r (along s p (i - 2)) = F (i - 2) →
    r (along s p (i - 3)) = F (i - 3) → ∀ k, i ≤ k → k < i + n → r' (along s p k) = F k
  | 0, i, r, r', _, _, _, _, k, h1, h2 => by simp at h2; omega
  | n + 1, i, r, r', h, a1, a2, a3, k, h1, h2 => by
    have hs := (extrapLoop_succ h).1
    rw [a1, a2, a3, ← hF i] at hs
    have ne : ∀ j, j ≠ i → along s p j ≠ along s p i := fun j hj hh => hj (along_inj hh)
    by_cases hk : k = i
    · subst hk
      rw [extrapLoop_frame n (k + 1) _ r' hs _ (fun j h3 _ hh => by have := along_inj hh; omega), upd_same]
    · refine extrapLoop_cont F hF n (i + 1) _ r' hs ?_ ?_ ?_ k (by omega) (by push_cast at h2; omega)
      · rw [show i + 1 - 1 = i by omega, upd_same]
      · rw [show i + 1 - 2 = i - 1 by omega, upd_other _ _ (ne _ (by omega)), a1]
      · rw [show i + 1 - 3 = i - 2 by omega, upd_other _ _ (ne _ (by omega)), a2]

/-- The loop succeeds if the cells it reads are in the array. -/
theorem extrapLoop_ok {m : Mesh} {s : Side} {p : Pt} : ∀ (n : Nat) (i : Int) (r : Pt → K),
    (∀ k, i - 3 ≤ k → k < i + n - 1 → m.InArray (along s p k)) → ∃ r', extrapLoop m s p n i r = .ok r'
  | 0, i, r, _ => ⟨r, rfl⟩
  | n + 1, i, r, h => by
    obtain ⟨r', hr⟩ := extrapLoop_ok n (i + 1) (upd r (along s p i) (3 * r (along s p (i - 1)) - 3 * r (along s p (i - 2)) + r (along s p (i - 3))))
      (fun k h1 h2 => h k (by omega) (by push_cast; omega))
    refine ⟨r', ?_⟩
    rw [extrapLoop]
    simp only [bind, Except.bind]
    rw [rd_in r (h (i - 1) (by omega) (by push_cast; omega)), rd_in r (h (i - 2) (by omega) (by push_cast; omega)),
      rd_in r (h (i - 3) (by omega) (by push_cast; omega))]
    exact hr

theorem constLoop_succ {m : Mesh} {s : Side} {p : Pt} {n : Nat} {i : Int} {r r' : Pt → K}
    (h : constLoop m s p (n + 1) i r = .ok r') :
    constLoop m s p n (i + 1) (upd r (along s p i) (r (along s p (-1)))) = .ok r' ∧ m.InArray (along s p (-1)) := by
  rw [constLoop] at h
  simp only [bind, Except.bind] at h
  cases h1 : m.rd r (along s p (-1)) with
  | error e => rw [h1] at h; cases h
  | ok a =>
    rw [h1] at h; dsimp only at h
    obtain ⟨e1, b1⟩ := rd_ok h1
    rw [e1] at h
    exact ⟨h, b1⟩

theorem constLoop_frame {m : Mesh} {s : Side} {p : Pt} : ∀ (n : Nat) (i : Int) (r r' : Pt → K),
    constLoop m s p n i r = .ok r' → ∀ q, (∀ k, i ≤ k → k < i + n → q ≠ along s p k) → r' q = r q
  | 0, i, r, r', h, q, _ => by rw [constLoop] at h; rw [Except.ok.inj h]
  | n + 1, i, r, r', h, q, hq => by
    have h1 := (constLoop_succ h).1
    rw [constLoop_frame n (i + 1) _ r' h1 q (fun k h2 h3 => hq k (by omega) (by push_cast; omega)),
      upd_other _ _ (hq i (le_refl _) (by push_cast; omega))]

theorem constLoop_val {m : Mesh} {s : Side} {p : Pt} : ∀ (n : Nat) (i : Int) (r r' : Pt → K), 0 ≤ i →
    constLoop m s p n i r = .ok r' → ∀ k, i ≤ k → k < i + n → r' (along s p k) = r (along s p (-1))
  | 0, i, r, r', _, _, k, h1, h2 => by simp at h2; omega
  | n + 1, i, r, r', hi, h, k, h1, h2 => by
    have hs := (constLoop_succ h).1
    have e : upd r (along s p i) (r (along s p (-1))) (along s p (-1)) = r (along s p (-1)) :=
      upd_other _ _ (fun hh => by have := along_inj hh; omega)
    by_cases hk : k = i
    · subst hk
      rw [constLoop_frame n (k + 1) _ r' hs _ (fun j h3 _ hh => by have := along_inj hh; omega), upd_same]
    · rw [constLoop_val n (i + 1) _ r' (by omega) hs k (by omega) (by push_cast at h2; omega), e]

theorem constLoop_ok {m : Mesh} {s : Side} {p : Pt} (h : m.InArray (along s p (-1))) : ∀ (n : Nat) (i : Int) (r : Pt → K),
    ∃ r', constLoop m s p n i r = .ok r'
  | 0, i, r => ⟨r, rfl⟩
  | n + 1, i, r => by
    obtain ⟨r', hr⟩ := constLoop_ok h n (i + 1) (upd r (along s p i) (r (along s p (-1))))
    refine ⟨r', ?_⟩
    rw [constLoop]
    simp only [bind, Except.bind]
    rw [rd_in r h]
    exact hr

theorem es_range (loc : Target) (noExtra : Bool) (s : Side) : extrapStart loc noExtra s = 0 ∨ extrapStart loc noExtra s = 1 := by
  unfold extrapStart
  split
  · exact Or.inr rfl
  · exact Or.inl rfl

/-- What `extraPoint` does. -/
theorem extraPoint_ok {m : Mesh} {s : Side} {f r r' : Pt → K} {p : Pt} (h : extraPoint m s f r p = .ok r') :
    r' = upd r p ((9 * (f (along s p (-1)) + f p) - f (along s p (-2)) - f (along s p 1)) / 16) ∧ m.InArray p := by
  unfold extraPoint at h
  split at h
  · cases h
  · simp only [bind, Except.bind] at h
    cases h1 : m.rd f (along s p (-1)) with
    | error e => rw [h1] at h; cases h
    | ok a =>
      rw [h1] at h; dsimp only at h
      cases h2 : m.rd f p with
      | error e => rw [h2] at h; cases h
      | ok b =>
        rw [h2] at h; dsimp only at h
        cases h3 : m.rd f (along s p (-2)) with
        | error e => rw [h3] at h; cases h
        | ok c =>
          rw [h3] at h; dsimp only at h
          cases h4 : m.rd f (along s p 1) with
          | error e => rw [h4] at h; cases h
          | ok d =>
            rw [h4] at h; dsimp only at h
            obtain ⟨e1, _⟩ := rd_ok h1
            obtain ⟨e2, b2⟩ := rd_ok h2
            obtain ⟨e3, _⟩ := rd_ok h3
            obtain ⟨e4, _⟩ := rd_ok h4
            rw [← Except.ok.inj h, e1, e2, e3, e4]
            exact ⟨rfl, b2⟩

/-- One point of a boundary: it is split into the extra point and the guard cells. -/
theorem point_split {m : Mesh} {threeD moved : Bool} {s : Side} {es : Int} {f r r' : Pt → K} {p : Pt}
    (h : point m threeD moved s es f r p = .ok r') :
    ∃ r1, guards m threeD s es r1 p = .ok r' ∧
      ((¬ (es > 0 ∧ moved = true) ∧ r1 = r) ∨ ((es > 0 ∧ moved = true) ∧
        r1 = upd r p ((9 * (f (along s p (-1)) + f p) - f (along s p (-2)) - f (along s p 1)) / 16))) := by
  unfold point at h
  simp only [bind, Except.bind] at h
  by_cases hc : es > 0 ∧ moved = true
  · rw [if_pos hc] at h
    cases h1 : extraPoint m s f r p with
    | error e => rw [h1] at h; cases h
    | ok r1 =>
      rw [h1] at h; dsimp only at h
      exact ⟨r1, h, Or.inr ⟨hc, (extraPoint_ok h1).1⟩⟩
  · rw [if_neg hc] at h
    exact ⟨r, h, Or.inl ⟨hc, rfl⟩⟩

theorem guards_frame {m : Mesh} {threeD : Bool} {s : Side} {es : Int} {r r' : Pt → K} {p : Pt}
    (h : guards m threeD s es r p = .ok r') (q : Pt) (hq : ∀ k, es ≤ k → k < m.width s → q ≠ along s p k) : r' q = r q := by
  unfold guards at h
  have hk : ∀ k, es ≤ k → k < es + ((m.width s - es).toNat : Int) → q ≠ along s p k := by
    intro k h1 h2
    refine hq k h1 ?_
    omega
  split at h
  · split at h
    · cases h
    · exact extrapLoop_frame _ _ _ _ h q hk
  · exact constLoop_frame _ _ _ _ h q hk

/-- A point of a boundary changes only the guard cells in line with it (and none if the boundary has no width). -/
theorem point_frame {m : Mesh} {threeD moved : Bool} {loc : Target} {noExtra : Bool} {s : Side} {f r r' : Pt → K} {p : Pt}
    (hw : 0 < m.width s) (h : point m threeD moved s (extrapStart loc noExtra s) f r p = .ok r') (q : Pt) (hq : ¬ OnLine m s p q) :
    r' q = r q := by
  obtain ⟨r1, h1, h2⟩ := point_split h
  have hes := es_range loc noExtra s
  rw [guards_frame h1 q (fun k h3 h4 hh => hq ⟨k, by omega, h4, hh⟩)]
  rcases h2 with ⟨_, rfl⟩ | ⟨_, rfl⟩
  · rfl
  · exact upd_other _ _ (fun hh => hq ⟨0, le_refl _, hw, by rw [along_zero]; exact hh⟩)

/-- The result of the loops, job by job. -/
theorem runJobs_cons {m : Mesh} {threeD moved : Bool} {loc : Target} {noExtra : Bool} {f r r' : Pt → K} {s : Side} {p : Pt}
    {js : List (Side × Pt)} (h : runJobs m threeD moved loc noExtra f ((s, p) :: js) r = .ok r') :
    ∃ r1, point m threeD moved s (extrapStart loc noExtra s) f r p = .ok r1 ∧
      runJobs m threeD moved loc noExtra f js r1 = .ok r' := by
  rw [runJobs] at h
  simp only [bind, Except.bind] at h
  cases h1 : point m threeD moved s (extrapStart loc noExtra s) f r p with
  | error e => rw [h1] at h; cases h
  | ok r1 => rw [h1] at h; exact ⟨r1, rfl, h⟩

theorem runJobs_frame {m : Mesh} {threeD moved : Bool} {loc : Target} {noExtra : Bool} {f : Pt → K} :
    ∀ (js : List (Side × Pt)) (r r' : Pt → K), runJobs m threeD moved loc noExtra f js r = .ok r' →
    (∀ j ∈ js, 0 < m.width j.1) → ∀ q, (∀ j ∈ js, ¬ OnLine m j.1 j.2 q) → r' q = r q
  | [], r, r', h, _, q, _ => by rw [runJobs] at h; rw [Except.ok.inj h]
  | (s, p) :: js, r, r', h, hw, q, hq => by
    obtain ⟨r1, h1, h2⟩ := runJobs_cons h
    rw [runJobs_frame js r1 r' h2 (fun j hj => hw j (List.mem_cons_of_mem _ hj)) q (fun j hj => hq j (List.mem_cons_of_mem _ hj)),
      point_frame (hw (s, p) List.mem_cons_self) h1 q (hq (s, p) List.mem_cons_self)]

end Verif.Extrap
