import Verif.Mesh.ExtrapProps

/-!
# C74: metric quantities in the boundary guard cells

`interpolateAndExtrapolate` moves a quantity of the geometry to a staggered location and continues it into the guard cells
at the boundaries of the grid.
-/

namespace Verif.Extrap

variable {K : Type} [Field K]

/-- A polynomial of degree at most two in each of `x` and `y`. -/
structure Quad (K : Type) where
  c : Fin 3 → Fin 3 → K

/-- Its value. -/
def Quad.eval (f : Quad K) (x y : K) : K :=
  (f.c 0 0 + f.c 0 1 * y + f.c 0 2 * y ^ 2) + (f.c 1 0 + f.c 1 1 * y + f.c 1 2 * y ^ 2) * x
    + (f.c 2 0 + f.c 2 1 * y + f.c 2 2 * y ^ 2) * x ^ 2

/-- Its values at the centres of the cells, or at their lower faces in X or Y. -/
def Quad.at (f : Quad K) (loc : Target) (p : Pt) : K :=
  match loc with
  | .centre => f.eval p.x p.y
  | .xlow => f.eval (p.x - 1 / 2) p.y
  | .ylow => f.eval p.x (p.y - 1 / 2)

/-- A cell of the grid of this processor. -/
def Mesh.Interior (m : Mesh) (p : Pt) : Prop := m.xstart ≤ p.x ∧ p.x ≤ m.xend ∧ m.ystart ≤ p.y ∧ p.y ≤ m.yend

/-- A guard cell of a boundary region. -/
def Mesh.GuardOf (m : Mesh) (b : Reg) (q : Pt) : Prop :=
  match b.side with
  | .xin => 0 ≤ q.x ∧ q.x < m.xstart ∧ b.lo ≤ q.y ∧ q.y ≤ b.hi
  | .xout => m.xend < q.x ∧ q.x < m.localNx ∧ b.lo ≤ q.y ∧ q.y ≤ b.hi
  | .ydown => 0 ≤ q.y ∧ q.y < m.ystart ∧ b.lo ≤ q.x ∧ q.x ≤ b.hi
  | .yup => m.yend < q.y ∧ q.y < m.localNy ∧ b.lo ≤ q.x ∧ q.x ≤ b.hi

/-- The boundary regions are those of a BOUT mesh (`boutmesh.cxx` L925-990): those in X first, along the whole grid of the
processor; those in Y along some of it, and over the guard cells in X only if corner cells are included and there is a
boundary. There is at least one guard cell on every side. -/
structure Shape (m : Mesh) (bx bY : List Reg) : Prop where
  xguards : 1 ≤ m.xstart ∧ m.localNx = m.xend + 1 + m.xstart
  yguards : 1 ≤ m.ystart ∧ m.localNy = m.yend + 1 + m.ystart
  xside : ∀ b ∈ bx, (b.side = .xin ∨ b.side = .xout) ∧ b.lo = m.ystart ∧ b.hi = m.yend
  yside : ∀ b ∈ bY, (b.side = .ydown ∨ b.side = .yup)
  inner : ∀ b ∈ bY, b.lo < m.xstart → m.corners = true ∧ 0 ≤ b.lo ∧ ∃ c ∈ bx, c.side = .xin
  outer : ∀ b ∈ bY, m.xend < b.hi → m.corners = true ∧ b.hi < m.localNx ∧ ∃ c ∈ bx, c.side = .xout

/-- The boundaries that are extrapolated into. -/
def Active (exX exY : Bool) (b : Reg) : Prop := (exX = true ∧ b.side.bx ≠ 0) ∨ (exY = true ∧ b.side.bY ≠ 0)

theorem mem_jobs {m : Mesh} {exX exY : Bool} {bs : List Reg} {j : Side × Pt} :
    j ∈ m.jobs exX exY bs ↔ ∃ b ∈ bs, Active exX exY b ∧ j.1 = b.side ∧ j.2 ∈ m.innermost b := by
  unfold Mesh.jobs Active
  simp only [List.mem_flatMap, List.mem_filter, List.mem_map, Bool.or_eq_true, Bool.and_eq_true, bne_iff_ne]
  constructor
  · rintro ⟨b, ⟨h1, h2⟩, p, h3, rfl⟩
    exact ⟨b, h1, h2, rfl, h3⟩
  · rintro ⟨b, h1, h2, h3, h4⟩
    exact ⟨b, ⟨h1, h2⟩, j.2, h4, by rw [← h3]⟩

theorem jobs_append (m : Mesh) (exX exY : Bool) (a b : List Reg) :
    m.jobs exX exY (a ++ b) = m.jobs exX exY a ++ m.jobs exX exY b := by
  unfold Mesh.jobs
  rw [List.filter_append, List.flatMap_append]

/-- The innermost guard cells of a region. -/
theorem mem_innermost {m : Mesh} {b : Reg} {p : Pt} :
    p ∈ m.innermost b ↔ match b.side with
      | .xin => p.x = m.xstart - 1 ∧ b.lo ≤ p.y ∧ p.y ≤ b.hi
      | .xout => p.x = m.xend + 1 ∧ b.lo ≤ p.y ∧ p.y ≤ b.hi
      | .ydown => p.y = m.ystart - 1 ∧ b.lo ≤ p.x ∧ p.x ≤ b.hi
      | .yup => p.y = m.yend + 1 ∧ b.lo ≤ p.x ∧ p.x ≤ b.hi := by
  unfold Mesh.innermost
  simp only [List.mem_map, List.mem_range]
  cases hs : b.side <;> dsimp only [Mesh.width] <;> constructor
  · rintro ⟨k, h1, rfl⟩; dsimp only; omega
  · rintro ⟨h1, h2, h3⟩
    exact ⟨(p.y - b.lo).toNat, by omega, by cases p; simp only [Pt.mk.injEq] at *; omega⟩
  · rintro ⟨k, h1, rfl⟩; dsimp only; omega
  · rintro ⟨h1, h2, h3⟩
    exact ⟨(p.y - b.lo).toNat, by omega, by cases p; simp only [Pt.mk.injEq] at *; omega⟩
  · rintro ⟨k, h1, rfl⟩; dsimp only; omega
  · rintro ⟨h1, h2, h3⟩
    exact ⟨(p.x - b.lo).toNat, by omega, by cases p; simp only [Pt.mk.injEq] at *; omega⟩
  · rintro ⟨k, h1, rfl⟩; dsimp only; omega
  · rintro ⟨h1, h2, h3⟩
    exact ⟨(p.x - b.lo).toNat, by omega, by cases p; simp only [Pt.mk.injEq] at *; omega⟩

/-- The guard cells of a region are those in line with its innermost ones. -/
theorem guardOf_iff {m : Mesh} {b : Reg} {q : Pt} :
    m.GuardOf b q ↔ ∃ p ∈ m.innermost b, OnLine m b.side p q := by
  constructor
  · intro h
    unfold Mesh.GuardOf at h
    cases hs : b.side <;> rw [hs] at h <;> dsimp only at h
    · refine ⟨⟨m.xstart - 1, q.y⟩, ?_, m.xstart - 1 - q.x, by omega, by simp only [Mesh.width]; omega, ?_⟩
      · rw [mem_innermost, hs]; exact ⟨rfl, by dsimp only; omega, by dsimp only; omega⟩
      · cases q; simp only [along, Side.bx, Side.bY, Pt.mk.injEq]; omega
    · refine ⟨⟨m.xend + 1, q.y⟩, ?_, q.x - (m.xend + 1), by omega, by simp only [Mesh.width]; omega, ?_⟩
      · rw [mem_innermost, hs]; exact ⟨rfl, by dsimp only; omega, by dsimp only; omega⟩
      · cases q; simp only [along, Side.bx, Side.bY, Pt.mk.injEq]; omega
    · refine ⟨⟨q.x, m.ystart - 1⟩, ?_, m.ystart - 1 - q.y, by omega, by simp only [Mesh.width]; omega, ?_⟩
      · rw [mem_innermost, hs]; exact ⟨rfl, by dsimp only; omega, by dsimp only; omega⟩
      · cases q; simp only [along, Side.bx, Side.bY, Pt.mk.injEq]; omega
    · refine ⟨⟨q.x, m.yend + 1⟩, ?_, q.y - (m.yend + 1), by omega, by simp only [Mesh.width]; omega, ?_⟩
      · rw [mem_innermost, hs]; exact ⟨rfl, by dsimp only; omega, by dsimp only; omega⟩
      · cases q; simp only [along, Side.bx, Side.bY, Pt.mk.injEq]; omega
  · rintro ⟨p, hp, k, h1, h2, rfl⟩
    rw [mem_innermost] at hp
    unfold Mesh.GuardOf
    cases hs : b.side <;> rw [hs] at hp h2 <;> dsimp only [Mesh.width] at hp h2 <;> simp only [along, Side.bx, Side.bY] <;> omega

/-- Every job finds the three cells it starts from among those that hold the right value. -/
def Ready (m : Mesh) (moved : Bool) (loc : Target) (noExtra : Bool) : (Pt → Prop) → List (Side × Pt) → Prop
  | _, [] => True
  | S, (s, p) :: js =>
    (∀ k, extrapStart loc noExtra s - 3 ≤ k → k < extrapStart loc noExtra s → (k = 0 ∧ moved = true) ∨ S (along s p k)) ∧
      Ready m moved loc noExtra (fun q => S q ∨ OnLine m s p q) js

theorem ready_mono {m : Mesh} {moved : Bool} {loc : Target} {noExtra : Bool} : ∀ (js : List (Side × Pt)) (S T : Pt → Prop),
    (∀ q, S q → T q) → Ready m moved loc noExtra S js → Ready m moved loc noExtra T js
  | [], _, _, _, _ => trivial
  | (s, p) :: js, S, T, h, hr =>
    ⟨fun k h1 h2 => (hr.1 k h1 h2).imp id (h _), ready_mono js _ _ (fun q hq => hq.imp (h q) id) hr.2⟩

/-- It is enough if the cells are there before the loop starts. -/
theorem ready_of {m : Mesh} {moved : Bool} {loc : Target} {noExtra : Bool} : ∀ (js : List (Side × Pt)) (S : Pt → Prop),
    (∀ j ∈ js, ∀ k, extrapStart loc noExtra j.1 - 3 ≤ k → k < extrapStart loc noExtra j.1 →
      (k = 0 ∧ moved = true) ∨ S (along j.1 j.2 k)) → Ready m moved loc noExtra S js
  | [], _, _ => trivial
  | (s, p) :: js, S, h =>
    ⟨h (s, p) List.mem_cons_self, ready_mono js S _ (fun _ hq => Or.inl hq)
      (ready_of js S (fun j hj => h j (List.mem_cons_of_mem _ hj)))⟩

theorem ready_append {m : Mesh} {moved : Bool} {loc : Target} {noExtra : Bool} : ∀ (a b : List (Side × Pt)) (S : Pt → Prop),
    Ready m moved loc noExtra S a → Ready m moved loc noExtra (fun q => S q ∨ ∃ j ∈ a, OnLine m j.1 j.2 q) b →
    Ready m moved loc noExtra S (a ++ b)
  | [], b, S, _, h => ready_mono b _ _ (fun q hq => by
      rcases hq with h | ⟨j, hj, _⟩
      · exact h
      · cases hj) h
  | (s, p) :: a, b, S, h1, h2 => ⟨h1.1, ready_append a b _ h1.2 (ready_mono b _ _ (fun q hq => by
      rcases hq with h | ⟨j, hj, hl⟩
      · exact Or.inl (Or.inl h)
      · rcases List.mem_cons.mp hj with rfl | hj
        · exact Or.inl (Or.inr hl)
        · exact Or.inr ⟨j, hj, hl⟩) h2)⟩

/-- The loops keep the values right. -/
theorem ready_run {m : Mesh} {threeD moved : Bool} {loc : Target} {noExtra : Bool} {f : Pt → K} (F : Pt → K)
    (hF : ∀ s p k, F (along s p k) = 3 * F (along s p (k - 1)) - 3 * F (along s p (k - 2)) + F (along s p (k - 3))) :
    ∀ (js : List (Side × Pt)) (S : Pt → Prop) (r r' : Pt → K),
    (∀ j ∈ js, 0 < m.width j.1 ∧ m.enough threeD j.1 = true ∧ (extrapStart loc noExtra j.1 > 0 → moved = true →
      (9 * (f (along j.1 j.2 (-1)) + f j.2) - f (along j.1 j.2 (-2)) - f (along j.1 j.2 1)) / 16 = F j.2)) →
    Ready m moved loc noExtra S js → runJobs m threeD moved loc noExtra f js r = .ok r' → (∀ q, S q → r q = F q) →
    ∀ q, (S q ∨ ∃ j ∈ js, OnLine m j.1 j.2 q) → r' q = F q
  | [], S, r, r', _, _, h, hS, q, hq => by
    rw [runJobs] at h
    rw [← Except.ok.inj h]
    rcases hq with h | ⟨j, hj, _⟩
    · exact hS q h
    · cases hj
  | (s, p) :: js, S, r, r', hj, hr, h, hS, q, hq => by
    obtain ⟨r1, h1, h2⟩ := runJobs_cons h
    obtain ⟨hw, hen, hex⟩ := hj (s, p) List.mem_cons_self
    dsimp only at hw hen hex
    have key : ∀ q, (S q ∨ OnLine m s p q) → r1 q = F q := by
      obtain ⟨r2, h3, h4⟩ := point_split h1
      have hes := es_range loc noExtra s
      -- the base points
      have base : ∀ k, extrapStart loc noExtra s - 3 ≤ k → k < extrapStart loc noExtra s → r2 (along s p k) = F (along s p k) := by
        intro k h5 h6
        rcases h4 with ⟨hc, rfl⟩ | ⟨hc, rfl⟩
        · rcases hr.1 k h5 h6 with ⟨h7, h8⟩ | h7
          · exact absurd ⟨by omega, h8⟩ hc
          · exact hS _ h7
        · by_cases hk : k = 0
          · subst hk
            rw [along_zero, upd_same]
            exact hex hc.1 hc.2
          · rw [upd_other _ _ (fun hh => hk (by rw [← along_zero s p] at hh; exact along_inj (s := s) (p := p) (by
              rw [along_zero] at hh; rw [along_zero]; exact hh)))]
            rcases hr.1 k h5 h6 with ⟨h7, _⟩ | h7
            · exact absurd h7 hk
            · exact hS _ h7
      have hg := h3
      unfold guards at hg
      rw [if_pos hen] at hg
      split at hg
      · cases hg
      · have hl := extrapLoop_cont (m := m) (s := s) (p := p) (fun k => F (along s p k)) (fun k => hF s p k) _ _ _ _ hg
          (base _ (by omega) (by omega)) (base _ (by omega) (by omega)) (base _ (by omega) (by omega))
        intro q hq
        by_cases hon : ∃ k, extrapStart loc noExtra s ≤ k ∧ k < m.width s ∧ q = along s p k
        · obtain ⟨k, h5, h6, rfl⟩ := hon
          exact hl k h5 (by omega)
        · rw [guards_frame h3 q (fun k h5 h6 hh => hon ⟨k, h5, h6, hh⟩)]
          rcases h4 with ⟨hc, rfl⟩ | ⟨hc, rfl⟩
          · rcases hq with h | ⟨k, h5, h6, rfl⟩
            · exact hS q h
            · have : k < extrapStart loc noExtra s := by
                by_contra h7
                exact hon ⟨k, by omega, h6, rfl⟩
              exact base k (by omega) this
          · by_cases hqp : q = p
            · rw [hqp, upd_same]; exact hex hc.1 hc.2
            · rw [upd_other _ _ hqp]
              rcases hq with h | ⟨k, h5, h6, rfl⟩
              · exact hS q h
              · have : k < extrapStart loc noExtra s := by
                  by_contra h7
                  exact hon ⟨k, by omega, h6, rfl⟩
                exact absurd (by rw [show k = 0 by omega, along_zero]) hqp
    refine ready_run F hF js (fun q => S q ∨ OnLine m s p q) r1 r' (fun j hj' => hj j (List.mem_cons_of_mem _ hj')) hr.2 h2 key q ?_
    rcases hq with h | ⟨j, hj', hl⟩
    · exact Or.inl (Or.inl h)
    · rcases List.mem_cons.mp hj' with rfl | hj'
      · exact Or.inl (Or.inr hl)
      · exact Or.inr ⟨j, hj', hl⟩

/-! ## Corners -/

theorem fold_nan {ι : Type} (nan : K) (P : ι → Pt → Prop) [∀ i q, Decidable (P i q)] (g : (Pt → K) → ι → Pt → K)
    (hg : ∀ r i q, g r i q = if P i q then nan else r q) : ∀ (l : List ι) (r : Pt → K) (q : Pt),
    (∃ i ∈ l, P i q) → l.foldl g r q = nan
  | [], _, _, ⟨_, h, _⟩ => by cases h
  | a :: l, r, q, ⟨i, hi, hP⟩ => by
    rw [List.foldl_cons]
    by_cases h : ∃ i ∈ l, P i q
    · exact fold_nan nan P g hg l _ q h
    · have keep : ∀ (l : List ι) (r : Pt → K), (¬ ∃ i ∈ l, P i q) → l.foldl g r q = r q := by
        intro l
        induction l with
        | nil => intro r _; rfl
        | cons b l ih =>
          intro r hn
          rw [List.foldl_cons, ih _ (fun ⟨i, h1, h2⟩ => hn ⟨i, List.mem_cons_of_mem _ h1, h2⟩), hg, if_neg (fun h2 => hn ⟨b, List.mem_cons_self, h2⟩)]
      rw [keep l _ h, hg, if_pos]
      rcases List.mem_cons.mp hi with rfl | hi
      · exact hP
      · exact absurd ⟨i, hi, hP⟩ h

theorem fold_keep {ι : Type} (nan : K) (P : ι → Pt → Prop) [∀ i q, Decidable (P i q)] (g : (Pt → K) → ι → Pt → K)
    (hg : ∀ r i q, g r i q = if P i q then nan else r q) (q : Pt) : ∀ (l : List ι) (r : Pt → K),
    (¬ ∃ i ∈ l, P i q) → l.foldl g r q = r q
  | [], _, _ => rfl
  | b :: l, r, hn => by
    rw [List.foldl_cons, fold_keep nan P g hg q l _ (fun ⟨i, h1, h2⟩ => hn ⟨i, List.mem_cons_of_mem _ h1, h2⟩), hg,
      if_neg (fun h2 => hn ⟨b, List.mem_cons_self, h2⟩)]

/-- A corner cell: a guard cell in both directions. -/
def Mesh.Corner (m : Mesh) (q : Pt) : Prop :=
  ((0 ≤ q.x ∧ q.x < m.xstart) ∨ (m.localNx - m.xstart ≤ q.x ∧ q.x < m.localNx)) ∧
    ((0 ≤ q.y ∧ q.y < m.ystart) ∨ (m.localNy - m.ystart ≤ q.y ∧ q.y < m.localNy))

/-- The four cells invalidated for `i` and `j`. -/
def Four (m : Mesh) (i j : Nat) (q : Pt) : Prop :=
  ((q.x = i ∨ q.x = m.localNx - 1 - i) ∧ (q.y = j ∨ q.y = m.localNy - 1 - j))

instance (m : Mesh) (i j : Nat) (q : Pt) : Decidable (Four m i j q) := by unfold Four; infer_instance

theorem four_upd (m : Mesh) (nan : K) (r : Pt → K) (i j : Nat) (q : Pt) :
    upd (upd (upd (upd r ⟨i, j⟩ nan) ⟨i, m.localNy - 1 - j⟩ nan) ⟨m.localNx - 1 - i, j⟩ nan)
        ⟨m.localNx - 1 - i, m.localNy - 1 - j⟩ nan q = if Four m i j q then nan else r q := by
  have e : ∀ a b : Int, (q = (⟨a, b⟩ : Pt)) = (q.x = a ∧ q.y = b) := fun a b => by cases q; simp
  unfold upd Four
  simp only [e]
  by_cases h1 : q.x = i <;> by_cases h2 : q.x = m.localNx - 1 - i <;> by_cases h3 : q.y = j <;>
    by_cases h4 : q.y = m.localNy - 1 - j <;> simp [h1, h2, h3, h4]

open Classical in
/-- **C74.** If anything was extrapolated and corner cells are not included, the corner cells, and no others, are made
invalid. -/
theorem C74_corners (m : Mesh) (nan : K) (exX exY : Bool) (r : Pt → K) (q : Pt) :
    invalidate m nan exX exY r q =
      if m.corners = false ∧ (exX = true ∨ exY = true) ∧ m.Corner q then nan else r q := by
  unfold invalidate
  by_cases h : m.corners = false ∧ (exX = true ∨ exY = true)
  · have hc : (m.corners || (!exX && !exY)) = false := by
      obtain ⟨h1, h2⟩ := h
      rw [h1]
      rcases h2 with h2 | h2 <;> rw [h2] <;> simp
    rw [if_neg (by rw [hc]; simp)]
    have inner : ∀ (r : Pt → K) (i : Nat) (q : Pt), (List.range m.ystart.toNat).foldl (fun r (j : Nat) =>
        upd (upd (upd (upd r ⟨i, j⟩ nan) ⟨i, m.localNy - 1 - j⟩ nan) ⟨m.localNx - 1 - i, j⟩ nan)
        ⟨m.localNx - 1 - i, m.localNy - 1 - j⟩ nan) r q = if (∃ j ∈ List.range m.ystart.toNat, Four m i j q) then nan else r q := by
      intro r i q
      by_cases he : ∃ j ∈ List.range m.ystart.toNat, Four m i j q
      · rw [if_pos he]
        exact fold_nan nan (fun j q => Four m i j q) _ (fun r j q => four_upd m nan r i j q) _ r q he
      · rw [if_neg he]
        exact fold_keep nan (fun j q => Four m i j q) _ (fun r j q => four_upd m nan r i j q) q _ r he
    by_cases hq : m.Corner q
    · rw [if_pos ⟨h.1, h.2, hq⟩]
      refine fold_nan nan (fun i q => ∃ j ∈ List.range m.ystart.toNat, Four m i j q) _ inner _ r q ?_
      obtain ⟨hx, hy⟩ := hq
      refine ⟨(if q.x < m.xstart ∧ 0 ≤ q.x then q.x else m.localNx - 1 - q.x).toNat, List.mem_range.mpr ?_,
        (if q.y < m.ystart ∧ 0 ≤ q.y then q.y else m.localNy - 1 - q.y).toNat, List.mem_range.mpr ?_, ?_, ?_⟩
      · split <;> omega
      · split <;> omega
      · split <;> omega
      · split <;> omega
    · rw [if_neg (fun hh => hq hh.2.2)]
      refine fold_keep nan (fun i q => ∃ j ∈ List.range m.ystart.toNat, Four m i j q) _ inner q _ r ?_
      rintro ⟨i, hi, j, hj, hx, hy⟩
      rw [List.mem_range] at hi hj
      exact hq ⟨by omega, by omega⟩
  · rw [if_pos, if_neg (fun hh => h ⟨hh.1, hh.2.1⟩)]
    cases h1 : m.corners <;> cases h2 : exX <;> cases h3 : exY <;> simp_all

end Verif.Extrap
