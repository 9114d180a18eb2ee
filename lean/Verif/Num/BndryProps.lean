import Verif.Num.Bndry
import Verif.Num.StencilProps
import Verif.Comm.Boundary

/-! # C31: proofs about assignments along boundary lines -/
namespace Verif.Num

variable {K : Type} [Field K]

/-! ## Running assignments -/

/-- The cell an assignment writes, or the cell `j` on its line. -/
def Asg.at (s : Side) (a : Asg K) (j : Int) : Int × Int × Int := (a.p.1 + j * s.bx, a.p.2 + j * s.by, a.z)

/-- The expression of an assignment reads only cells further inside. -/
def Asg.Causal (a : Asg K) : Prop := ∀ g g' : Int → K, (∀ j < a.k, g j = g' j) → a.e g = a.e g'

/-- `b`, executed after `a`, does not write a cell of `a`'s line from `a`'s own inwards. -/
def Before (s : Side) (a b : Asg K) : Prop := ∀ j ≤ a.k, a.at s j ≠ b.at s b.k

theorem along_step (s : Side) (x y j k : Int) (h : x + j * s.bx = x + k * s.bx) (h' : y + j * s.by = y + k * s.by) :
    j = k := by
  cases s <;> simp only [Side.bx, Side.by] at h h' <;> omega

theorem exec_at (s : Side) (f : Fld K) (a : Asg K) :
    (a.exec s f) (a.p.1 + a.k * s.bx) (a.p.2 + a.k * s.by) a.z = a.e (along s f a.p a.z) := by
  unfold Asg.exec Fld.set
  rw [if_pos ⟨rfl, rfl, rfl⟩]

theorem exec_ne (s : Side) (f : Fld K) (a : Asg K) (x y z : Int) (h : a.at s a.k ≠ (x, y, z)) :
    (a.exec s f) x y z = f x y z := by
  unfold Asg.exec Fld.set
  rw [if_neg]
  rintro ⟨rfl, rfl, rfl⟩
  exact h rfl

theorem run_ne (s : Side) : ∀ (prog : List (Asg K)) (f : Fld K) (x y z : Int),
    (∀ a ∈ prog, a.at s a.k ≠ (x, y, z)) → run s prog f x y z = f x y z := by
  intro prog
  induction prog with
  | nil => intros; rfl
  | cons a l ih =>
    intro f x y z h
    show run s l (a.exec s f) x y z = _
    rw [ih _ _ _ _ (fun b hb => h b (List.mem_cons_of_mem _ hb)), exec_ne _ _ _ _ _ _ (h a List.mem_cons_self)]

/-- Every cell written satisfies its equation in the final field. -/
theorem run_spec (s : Side) : ∀ (prog : List (Asg K)) (f : Fld K), (∀ a ∈ prog, a.Causal) → prog.Pairwise (Before s) →
    ∀ a ∈ prog, along s (run s prog f) a.p a.z a.k = a.e (along s (run s prog f) a.p a.z) := by
  intro prog
  induction prog with
  | nil => intro f _ _ a ha; cases ha
  | cons a l ih =>
    intro f hc hp b hb
    rw [List.pairwise_cons] at hp
    show along s (run s l (a.exec s f)) b.p b.z b.k = b.e (along s (run s l (a.exec s f)) b.p b.z)
    rcases List.mem_cons.1 hb with rfl | hb
    · have key : ∀ j ≤ b.k, along s (run s l (b.exec s f)) b.p b.z j = along s (b.exec s f) b.p b.z j := by
        intro j hj
        exact run_ne s l _ _ _ _ (fun c hc => (hp.1 c hc j hj).symm)
      rw [key _ le_rfl]
      have e0 : along s (b.exec s f) b.p b.z b.k = b.e (along s f b.p b.z) := exec_at s f b
      rw [e0]
      refine hc b List.mem_cons_self _ _ (fun j hj => ?_)
      rw [key j hj.le]
      refine (exec_ne s f b _ _ _ ?_).symm
      intro h
      simp only [Asg.at, Prod.mk.injEq, and_true] at h
      have := along_step s _ _ _ _ h.1 h.2
      omega
    · exact ih _ (fun c hc' => hc c (List.mem_cons_of_mem _ hc')) hp.2 b hb

/-! ## Conditions given line by line -/

theorem mem_ints (a b j : Int) : j ∈ ints a b ↔ a ≤ j ∧ j < b := by
  unfold ints
  simp only [List.mem_map, List.mem_range]
  constructor
  · rintro ⟨n, h, rfl⟩; omega
  · intro h; exact ⟨(j - a).toNat, by omega, by omega⟩

theorem ints_sorted (a b : Int) : (ints a b).Pairwise (· < ·) := by
  unfold ints
  rw [List.pairwise_map]
  exact List.pairwise_lt_range.imp (by intro m n h; omega)

theorem mem_pointsZ (pts : List (Int × Int)) (nz : Int) (body : Int × Int → Int → List (Int × ((Int → K) → K)))
    (a : Asg K) : a ∈ pointsZ pts nz body ↔
      ∃ p ∈ pts, ∃ z, (0 ≤ z ∧ z < nz) ∧ ∃ b ∈ body p z, a = ⟨p, z, b.1, b.2⟩ := by
  unfold pointsZ
  simp only [List.mem_flatMap, List.mem_map, mem_ints]
  constructor
  · rintro ⟨p, hp, z, hz, b, hb, rfl⟩; exact ⟨p, hp, z, hz, b, hb, rfl⟩
  · rintro ⟨p, hp, z, hz, b, hb, rfl⟩; exact ⟨p, hp, z, hz, b, hb, rfl⟩

theorem pairwise_pointsZ (s : Side) (pts : List (Int × Int)) (nz : Int)
    (body : Int × Int → Int → List (Int × ((Int → K) → K)))
    (hpts : pts.Pairwise (fun p q => ∀ z, ∀ a ∈ body p z, ∀ b ∈ body q z, ∀ j ≤ a.1,
      ¬ (p.1 + j * s.bx = q.1 + b.1 * s.bx ∧ p.2 + j * s.by = q.2 + b.1 * s.by)))
    (hb : ∀ p z, (body p z).Pairwise (fun a b => a.1 < b.1)) :
    (pointsZ pts nz body).Pairwise (Before s) := by
  unfold pointsZ
  rw [List.pairwise_flatMap]
  constructor
  · intro p _
    rw [List.pairwise_flatMap]
    constructor
    · intro z _
      rw [List.pairwise_map]
      refine (hb p z).imp ?_
      intro a b hab j hj h
      simp only [Asg.at, Prod.mk.injEq, and_true] at h
      have := along_step s _ _ _ _ h.1 h.2
      simp only at hj
      omega
    · refine (ints_sorted 0 nz).imp ?_
      intro z z' hz a ha b hb' j _ h
      obtain ⟨a', _, rfl⟩ := List.mem_map.1 ha
      obtain ⟨b', _, rfl⟩ := List.mem_map.1 hb'
      simp only [Asg.at, Prod.mk.injEq] at h
      omega
  · refine hpts.imp ?_
    intro p q hpq a ha b hb' j hj h
    obtain ⟨z, _, ha⟩ := List.mem_flatMap.1 ha
    obtain ⟨z', _, hb'⟩ := List.mem_flatMap.1 hb'
    obtain ⟨a', ha', rfl⟩ := List.mem_map.1 ha
    obtain ⟨b', hb'', rfl⟩ := List.mem_map.1 hb'
    simp only [Asg.at, Prod.mk.injEq] at h
    obtain ⟨h1, h2, rfl⟩ := h
    exact hpq z a' ha' b' hb'' j hj ⟨h1, h2⟩

/-- Points of which no two lie on a common line through the boundary. -/
def Transverse (s : Side) (pts : List (Int × Int)) : Prop :=
  pts.Pairwise (fun p q => ∀ j k : Int, ¬ (p.1 + j * s.bx = q.1 + k * s.bx ∧ p.2 + j * s.by = q.2 + k * s.by))

/-- A line's assignments: numbered outwards and reading inwards only. -/
structure GoodBody (b : List (Int × ((Int → K) → K))) : Prop where
  sorted : b.Pairwise (fun a b => a.1 < b.1)
  causal : ∀ a ∈ b, ∀ g g' : Int → K, (∀ j < a.1, g j = g' j) → a.2 g = a.2 g'

/-- The effect of a condition on each boundary line: every assigned cell satisfies its equation, every other cell of the
line keeps its value. -/
theorem lines_spec (s : Side) (pts : List (Int × Int)) (ht : Transverse s pts) (nz : Int)
    (body : Int × Int → Int → List (Int × ((Int → K) → K))) (hb : ∀ p z, GoodBody (body p z)) (f : Fld K)
    (p : Int × Int) (hp : p ∈ pts) (z : Int) (hz : 0 ≤ z ∧ z < nz) :
    let L := along s (applyLines s pts nz body f) p z
    (∀ a ∈ body p z, L a.1 = a.2 L) ∧
    (∀ k, (∀ a ∈ body p z, a.1 ≠ k) → L k = along s f p z k) := by
  intro L
  refine ⟨fun a ha => ?_, fun k hk => ?_⟩
  · refine run_spec s (pointsZ pts nz body) f ?_ ?_ ⟨p, z, a.1, a.2⟩ ?_
    · intro c hc
      obtain ⟨q, _, w, _, b, hb', rfl⟩ := (mem_pointsZ _ _ _ _).1 hc
      exact (hb q w).causal b hb'
    · refine pairwise_pointsZ s pts nz body ?_ (fun p z => (hb p z).sorted)
      exact ht.imp (fun h z a _ (b : Int × ((Int → K) → K)) _ j _ => h j b.1)
    · exact (mem_pointsZ _ _ _ _).2 ⟨p, hp, z, hz, a, ha, rfl⟩
  · refine run_ne s (pointsZ pts nz body) f _ _ _ ?_
    intro c hc h
    obtain ⟨q, hq, w, _, b, hb', rfl⟩ := (mem_pointsZ _ _ _ _).1 hc
    simp only [Asg.at, Prod.mk.injEq] at h
    obtain ⟨h1, h2, h3⟩ := h
    subst h3
    by_cases hqp : q = p
    · subst hqp
      exact hk b hb' (along_step s _ _ _ _ h1 h2)
    · have hsym : ∀ q p : Int × Int, (∀ j k : Int, ¬ (p.1 + j * s.bx = q.1 + k * s.bx ∧ p.2 + j * s.by = q.2 + k * s.by)) →
          ∀ j k : Int, ¬ (q.1 + j * s.bx = p.1 + k * s.bx ∧ q.2 + j * s.by = p.2 + k * s.by) :=
        fun q p h j k hh => h k j ⟨hh.1.symm, hh.2.symm⟩
      have hF : pts.Pairwise (flip (fun p q : Int × Int => p ≠ q → ∀ j k : Int,
          ¬ (p.1 + j * s.bx = q.1 + k * s.bx ∧ p.2 + j * s.by = q.2 + k * s.by))) := by
        refine ht.imp ?_
        intro a b h _
        exact hsym _ _ h
      exact (List.Pairwise.forall_of_forall_of_flip (R := fun p q => p ≠ q → ∀ j k : Int,
          ¬ (p.1 + j * s.bx = q.1 + k * s.bx ∧ p.2 + j * s.by = q.2 + k * s.by))
          (fun x _ hx => absurd rfl hx) (List.Pairwise.imp (by intro a b h _; exact h) ht) hF hq hp hqp) b.1 k ⟨h1, h2⟩

/-- Cells on no boundary line, or not assigned on it, keep their values. -/
theorem lines_frame (s : Side) (pts : List (Int × Int)) (nz : Int)
    (body : Int × Int → Int → List (Int × ((Int → K) → K))) (f : Fld K) (x y z : Int)
    (h : ∀ p ∈ pts, 0 ≤ z → z < nz → ∀ a ∈ body p z, ¬ (p.1 + a.1 * s.bx = x ∧ p.2 + a.1 * s.by = y)) :
    applyLines s pts nz body f x y z = f x y z := by
  refine run_ne s (pointsZ pts nz body) f _ _ _ ?_
  intro c hc hh
  obtain ⟨q, hq, w, hw, b, hb', rfl⟩ := (mem_pointsZ _ _ _ _).1 hc
  simp only [Asg.at, Prod.mk.injEq] at hh
  obtain ⟨h1, h2, h3⟩ := hh
  subst h3
  exact h q hq hw.1 hw.2 b hb' ⟨h1, h2⟩

/-! ## The points of the loops -/

theorem loop_mono (r : BReg) (step : Int × Int → Int × Int) : ∀ (n : Nat) (p : Int × Int) (l : List (Int × Int)) (m : Nat),
    r.loop step n p = (l, true) → r.loop step (n + m) p = (l, true) := by
  intro n
  induction n with
  | zero =>
    intro p l m h
    simp only [BReg.loop, Prod.mk.injEq] at h
    obtain ⟨h1, h2⟩ := h
    subst h1
    cases m with
    | zero => simp only [BReg.loop, h2]
    | succ m => rw [Nat.zero_add, BReg.loop, if_pos h2]
  | succ n ih =>
    intro p l m h
    rw [show n + 1 + m = (n + m) + 1 by omega]
    unfold BReg.loop at h ⊢
    by_cases hd : r.isDone p = true
    · rw [if_pos hd] at h ⊢; exact h
    · rw [if_neg hd] at h ⊢
      simp only [Prod.mk.injEq] at h ⊢
      obtain ⟨h1, h2⟩ := h
      have := ih (step p) (r.loop step n (step p)).1 m (Prod.ext rfl h2)
      rw [this]
      exact ⟨h1, rfl⟩

theorem visits_unique (r : BReg) (step : Int × Int → Int × Int) (l l' : List (Int × Int)) (h : r.Visits step l)
    (h' : r.Visits step l') : l = l' := by
  obtain ⟨n, hn⟩ := h
  obtain ⟨m, hm⟩ := h'
  have a := loop_mono r step n _ l m hn
  have b := loop_mono r step m _ l' n hm
  rw [Nat.add_comm] at b
  rw [a] at b
  exact (Prod.mk.injEq _ _ _ _ ▸ b).1

/-- The boundary point number `t` (its coordinate along the boundary). -/
def BReg.pt (r : BReg) (t : Int) : Int × Int :=
  match r.side with
  | .xin => (r.width - 1, t)
  | .xout => (r.nx - r.width, t)
  | .ydown => (t, r.width - 1)
  | .yup => (t, r.ny - r.width)

theorem pt_next (r : BReg) (t : Int) : r.next1d (r.pt t) = r.pt (t + 1) := by
  unfold BReg.next1d BReg.pt; cases r.side <;> rfl

theorem pt_first (r : BReg) : r.first = r.pt r.lo := by
  unfold BReg.first BReg.pt; cases r.side <;> rfl

theorem pt_done (r : BReg) (t : Int) : r.isDone (r.pt t) = decide (r.width ≤ 0 ∨ t > r.hi) := by
  unfold BReg.isDone BReg.pt; cases r.side <;> simp only [decide_eq_decide] <;> omega

theorem loop1d (r : BReg) (hw : 0 < r.width) : ∀ (n : Nat) (t : Int), t + n = r.hi + 1 →
    r.loop r.next1d n (r.pt t) = ((ints t (r.hi + 1)).map r.pt, true) := by
  intro n
  induction n with
  | zero =>
    intro t h
    have : ints t (r.hi + 1) = [] := by
      unfold ints; rw [show (r.hi + 1 - t).toNat = 0 by omega]; rfl
    rw [this, BReg.loop, pt_done]
    simp only [List.map_nil, Prod.mk.injEq, true_and, decide_eq_true_eq]
    omega
  | succ n ih =>
    intro t h
    have e : ints t (r.hi + 1) = t :: ints (t + 1) (r.hi + 1) := by
      unfold ints
      rw [show (r.hi + 1 - t).toNat = n + 1 by omega, show (r.hi + 1 - (t + 1)).toNat = n by omega, List.range_succ_eq_map]
      simp only [List.map_cons, List.map_map, Nat.cast_zero, add_zero, List.cons.injEq, true_and]
      apply List.map_congr_left
      intro a _
      simp only [Function.comp, Nat.succ_eq_add_one]
      push_cast
      ring
    rw [BReg.loop, pt_done, if_neg (by simp only [decide_eq_true_eq]; omega), pt_next, ih (t + 1) (by push_cast at h; omega), e]
    rfl

/-- The points of a `next1d` loop: none for an empty boundary, otherwise one for every position along it. -/
theorem visits1d (r : BReg) (hlo : r.lo ≤ r.hi) :
    r.Visits r.next1d (if 0 < r.width then (ints r.lo (r.hi + 1)).map r.pt else []) := by
  by_cases hw : 0 < r.width
  · rw [if_pos hw]
    refine ⟨(r.hi + 1 - r.lo).toNat, ?_⟩
    rw [pt_first]
    exact loop1d r hw _ _ (by omega)
  · rw [if_neg hw]
    refine ⟨0, ?_⟩
    rw [BReg.loop, pt_first, pt_done]
    simp only [Prod.mk.injEq, true_and, decide_eq_true_eq]
    omega

theorem mem_visits1d (r : BReg) (hlo : r.lo ≤ r.hi) (pts : List (Int × Int)) (h : r.Visits r.next1d pts) (p : Int × Int) :
    p ∈ pts ↔ 0 < r.width ∧ ∃ t, (r.lo ≤ t ∧ t ≤ r.hi) ∧ p = r.pt t := by
  rw [visits_unique r _ _ _ h (visits1d r hlo)]
  by_cases hw : 0 < r.width
  · rw [if_pos hw]
    simp only [List.mem_map, mem_ints, hw, true_and]
    constructor
    · rintro ⟨t, ht, rfl⟩; exact ⟨t, ⟨ht.1, by omega⟩, rfl⟩
    · rintro ⟨t, ht, rfl⟩; exact ⟨t, ⟨ht.1, by omega⟩, rfl⟩
  · rw [if_neg hw]
    simp [hw]

theorem visits1d_transverse (r : BReg) (hlo : r.lo ≤ r.hi) (pts : List (Int × Int)) (h : r.Visits r.next1d pts) :
    Transverse r.side pts := by
  rw [visits_unique r _ _ _ h (visits1d r hlo)]
  by_cases hw : 0 < r.width
  · rw [if_pos hw]
    unfold Transverse
    rw [List.pairwise_map]
    refine (ints_sorted _ _).imp ?_
    intro t t' htt j k
    unfold BReg.pt
    cases r.side <;> simp only [Side.bx, Side.by] <;> omega
  · rw [if_neg hw]
    exact List.Pairwise.nil

/-- The guard cells of the boundary: `width` layers beyond the edge, along the whole boundary. -/
def BReg.Guard (r : BReg) (x y : Int) : Prop :=
  match r.side with
  | .xin => (0 ≤ x ∧ x < r.width) ∧ (r.lo ≤ y ∧ y ≤ r.hi)
  | .xout => (r.nx - r.width ≤ x ∧ x < r.nx) ∧ (r.lo ≤ y ∧ y ≤ r.hi)
  | .ydown => (r.lo ≤ x ∧ x ≤ r.hi) ∧ (0 ≤ y ∧ y < r.width)
  | .yup => (r.lo ≤ x ∧ x ≤ r.hi) ∧ (r.ny - r.width ≤ y ∧ y < r.ny)

/-- The last layer of grid cells inside the boundary. -/
def BReg.Edge (r : BReg) (x y : Int) : Prop :=
  match r.side with
  | .xin => x = r.width ∧ (r.lo ≤ y ∧ y ≤ r.hi)
  | .xout => x = r.nx - r.width - 1 ∧ (r.lo ≤ y ∧ y ≤ r.hi)
  | .ydown => (r.lo ≤ x ∧ x ≤ r.hi) ∧ y = r.width
  | .yup => (r.lo ≤ x ∧ x ≤ r.hi) ∧ y = r.ny - r.width - 1

/-- **C31.** The `next1d` loop visits exactly one point for each position along the boundary, and from those points the
`width` cells outwards are exactly the guard cells of the boundary, while the cell before is the last grid cell. -/
theorem C31_points (r : BReg) (hlo : r.lo ≤ r.hi) :
    ∃ pts, r.Visits r.next1d pts ∧ pts.Nodup ∧
      (∀ x y, r.Guard x y ↔ ∃ p ∈ pts, ∃ k, (0 ≤ k ∧ k < r.width) ∧ x = p.1 + k * r.side.bx ∧ y = p.2 + k * r.side.by) ∧
      (∀ x y, 0 < r.width → (r.Edge x y ↔ ∃ p ∈ pts, x = p.1 + (-1) * r.side.bx ∧ y = p.2 + (-1) * r.side.by)) := by
  refine ⟨_, visits1d r hlo, ?_, ?_, ?_⟩
  · by_cases hw : 0 < r.width
    · rw [if_pos hw]
      unfold List.Nodup
      rw [List.pairwise_map]
      refine (ints_sorted _ _).imp ?_
      intro t t' htt h
      unfold BReg.pt at h
      cases hs : r.side <;> rw [hs] at h <;> simp only [Prod.mk.injEq] at h <;> omega
    · rw [if_neg hw]; exact List.nodup_nil
  · intro x y
    have hm := mem_visits1d r hlo _ (visits1d r hlo)
    constructor
    · intro hg
      unfold BReg.Guard at hg
      cases hs : r.side <;> rw [hs] at hg <;> simp only at hg
      · refine ⟨r.pt y, (hm _).2 ⟨by omega, y, hg.2, rfl⟩, r.width - 1 - x, by omega, ?_⟩
        simp only [BReg.pt, hs, Side.bx, Side.by]; omega
      · refine ⟨r.pt y, (hm _).2 ⟨by omega, y, hg.2, rfl⟩, x - (r.nx - r.width), by omega, ?_⟩
        simp only [BReg.pt, hs, Side.bx, Side.by]; omega
      · refine ⟨r.pt x, (hm _).2 ⟨by omega, x, hg.1, rfl⟩, r.width - 1 - y, by omega, ?_⟩
        simp only [BReg.pt, hs, Side.bx, Side.by]; omega
      · refine ⟨r.pt x, (hm _).2 ⟨by omega, x, hg.1, rfl⟩, y - (r.ny - r.width), by omega, ?_⟩
        simp only [BReg.pt, hs, Side.bx, Side.by]; omega
    · rintro ⟨p, hp, k, hk, h1, h2⟩
      obtain ⟨hw, t, ht, rfl⟩ := (hm p).1 hp
      unfold BReg.Guard
      cases hs : r.side <;> simp only [BReg.pt, hs, Side.bx, Side.by] at h1 h2 ⊢ <;> omega
  · intro x y hw
    have hm := mem_visits1d r hlo _ (visits1d r hlo)
    constructor
    · intro hg
      unfold BReg.Edge at hg
      cases hs : r.side <;> rw [hs] at hg <;> simp only at hg
      · refine ⟨r.pt y, (hm _).2 ⟨hw, y, hg.2, rfl⟩, ?_⟩
        simp only [BReg.pt, hs, Side.bx, Side.by]; omega
      · refine ⟨r.pt y, (hm _).2 ⟨hw, y, hg.2, rfl⟩, ?_⟩
        simp only [BReg.pt, hs, Side.bx, Side.by]; omega
      · refine ⟨r.pt x, (hm _).2 ⟨hw, x, hg.1, rfl⟩, ?_⟩
        simp only [BReg.pt, hs, Side.bx, Side.by]; omega
      · refine ⟨r.pt x, (hm _).2 ⟨hw, x, hg.1, rfl⟩, ?_⟩
        simp only [BReg.pt, hs, Side.bx, Side.by]; omega
    · rintro ⟨p, hp, h1, h2⟩
      obtain ⟨_, t, ht, rfl⟩ := (hm p).1 hp
      unfold BReg.Edge
      cases hs : r.side <;> simp only [BReg.pt, hs, Side.bx, Side.by] at h1 h2 ⊢ <;> omega

/-! ## The points of the `next()` loops -/

/-- Walking from `p` through the cells `l` ends at `q`, no cell of `l` being beyond the end. -/
def Trav (r : BReg) (step : Int × Int → Int × Int) : List (Int × Int) → Int × Int → Int × Int → Prop
  | [], p, q => p = q
  | a :: l, p, q => p = a ∧ r.isDone p = false ∧ Trav r step l (step p) q

theorem trav_append (r : BReg) (step : Int × Int → Int × Int) : ∀ (l l' : List (Int × Int)) (p q t : Int × Int),
    Trav r step l p q → Trav r step l' q t → Trav r step (l ++ l') p t := by
  intro l
  induction l with
  | nil => intro l' p q t h h'; simp only [Trav] at h; subst h; exact h'
  | cons a l ih => intro l' p q t h h'; exact ⟨h.1, h.2.1, ih _ _ _ _ h.2.2 h'⟩

theorem trav_loop (r : BReg) (step : Int × Int → Int × Int) : ∀ (l : List (Int × Int)) (p q : Int × Int),
    Trav r step l p q → r.isDone q = true → r.loop step l.length p = (l, true) := by
  intro l
  induction l with
  | nil => intro p q h hq; simp only [Trav] at h; subst h; simp only [List.length_nil, BReg.loop, hq]
  | cons a l ih =>
    intro p q h hq
    obtain ⟨rfl, hd, h⟩ := h
    rw [List.length_cons, BReg.loop, hd, if_neg (by simp), ih _ _ h hq]

theorem ints_cons (a b : Int) (h : a < b) : ints a b = a :: ints (a + 1) b := by
  unfold ints
  obtain ⟨n, hn⟩ : ∃ n, (b - a).toNat = n + 1 := ⟨(b - a).toNat - 1, by omega⟩
  rw [hn, show (b - (a + 1)).toNat = n by omega, List.range_succ_eq_map]
  simp only [List.map_cons, List.map_map, Nat.cast_zero, add_zero, List.cons.injEq, true_and]
  apply List.map_congr_left
  intro a _
  simp only [Function.comp, Nat.succ_eq_add_one]
  push_cast
  ring

theorem ints_nil (a b : Int) (h : b ≤ a) : ints a b = [] := by
  unfold ints; rw [show (b - a).toNat = 0 by omega]; rfl

/-- Cell `k` outwards from boundary point `t`. -/
def BReg.cell (r : BReg) (k t : Int) : Int × Int := ((r.pt t).1 + k * r.side.bx, (r.pt t).2 + k * r.side.by)

/-- The cells in the order of the `next()` loop: layer by layer on X boundaries, line by line on Y boundaries. -/
def BReg.cells (r : BReg) : List (Int × Int) :=
  match r.side with
  | .xin | .xout => (ints 0 r.width).flatMap fun k => (ints r.lo (r.hi + 1)).map fun t => r.cell k t
  | .ydown | .yup => (ints r.lo (r.hi + 1)).flatMap fun t => (ints 0 r.width).map fun k => r.cell k t

theorem trav_row (r : BReg) (step : Int × Int → Int × Int) (g : Int → Int × Int) (b : Int) (q : Int × Int) :
    ∀ (n : Nat) (a : Int), a + n = b - 1 → (∀ j, a ≤ j → j < b → r.isDone (g j) = false) →
    (∀ j, a ≤ j → j < b - 1 → step (g j) = g (j + 1)) → step (g (b - 1)) = q →
    Trav r step ((ints a b).map g) (g a) q := by
  intro n
  induction n with
  | zero =>
    intro a h hd _ hl
    have : a = b - 1 := by omega
    rw [ints_cons a b (by omega), ints_nil (a + 1) b (by omega)]
    refine ⟨rfl, hd a (by omega) (by omega), ?_⟩
    rw [this]
    exact hl
  | succ n ih =>
    intro a h hd hs hl
    rw [ints_cons a b (by omega)]
    refine ⟨rfl, hd a (by omega) (by omega), ?_⟩
    rw [hs a (by omega) (by omega)]
    exact ih (a + 1) (by push_cast at h; omega) (fun j h1 h2 => hd j (by omega) h2) (fun j h1 h2 => hs j (by omega) h2) hl

theorem trav_rows (r : BReg) (step : Int × Int → Int × Int) (row : Int → List (Int × Int)) (g : Int → Int × Int) (b : Int) :
    ∀ (n : Nat) (a : Int), a + n = b → (∀ j, a ≤ j → j < b → Trav r step (row j) (g j) (g (j + 1))) →
    Trav r step ((ints a b).flatMap row) (g a) (g b) := by
  intro n
  induction n with
  | zero =>
    intro a h _
    rw [ints_nil a b (by omega), show a = b by omega]
    rfl
  | succ n ih =>
    intro a h hr
    rw [ints_cons a b (by push_cast at h; omega), List.flatMap_cons]
    exact trav_append _ _ _ _ _ _ _ (hr a le_rfl (by push_cast at h; omega))
      (ih (a + 1) (by push_cast at h; omega) (fun j h1 h2 => hr j (by omega) h2))

theorem visits2d (r : BReg) (hlo : r.lo ≤ r.hi) (hw : 0 < r.width) : r.Visits r.next r.cells := by
  have hf : r.first = r.cell 0 r.lo := by
    unfold BReg.first BReg.cell BReg.pt; cases r.side <;> simp
  refine ⟨r.cells.length, ?_⟩
  rw [hf]
  cases hs : r.side
  all_goals simp only [BReg.cells, hs]
  · refine trav_loop r _ _ _ (r.cell r.width r.lo) (trav_rows r _ _ (fun k => r.cell k r.lo) r.width r.width.toNat 0 (by omega) ?_) ?_
    · intro k h1 h2
      refine trav_row r _ (fun t => r.cell k t) _ _ (r.hi - r.lo).toNat r.lo (by omega) ?_ ?_ ?_
      · intro j h3 h4
        simp only [BReg.isDone, BReg.cell, BReg.pt, hs, Side.bx, Side.by, decide_eq_false_iff_not]; omega
      · intro j h3 h4
        simp only [BReg.next, BReg.cell, BReg.pt, hs, Side.bx, Side.by]
        rw [if_neg (by omega)]; ext <;> simp only <;> omega
      · simp only [BReg.next, BReg.cell, BReg.pt, hs, Side.bx, Side.by]
        rw [if_pos (by omega)]; ext <;> simp only <;> omega
    · simp only [BReg.isDone, BReg.cell, BReg.pt, hs, Side.bx, Side.by, decide_eq_true_eq]; omega
  · refine trav_loop r _ _ _ (r.cell r.width r.lo) (trav_rows r _ _ (fun k => r.cell k r.lo) r.width r.width.toNat 0 (by omega) ?_) ?_
    · intro k h1 h2
      refine trav_row r _ (fun t => r.cell k t) _ _ (r.hi - r.lo).toNat r.lo (by omega) ?_ ?_ ?_
      · intro j h3 h4
        simp only [BReg.isDone, BReg.cell, BReg.pt, hs, Side.bx, Side.by, decide_eq_false_iff_not]; omega
      · intro j h3 h4
        simp only [BReg.next, BReg.cell, BReg.pt, hs, Side.bx, Side.by]
        rw [if_neg (by omega)]; ext <;> simp only <;> omega
      · simp only [BReg.next, BReg.cell, BReg.pt, hs, Side.bx, Side.by]
        rw [if_pos (by omega)]; ext <;> simp only <;> omega
    · simp only [BReg.isDone, BReg.cell, BReg.pt, hs, Side.bx, Side.by, decide_eq_true_eq]; omega
  · refine trav_loop r _ _ _ (r.cell 0 (r.hi + 1)) (trav_rows r _ _ (fun t => r.cell 0 t) (r.hi + 1) (r.hi + 1 - r.lo).toNat r.lo (by omega) ?_) ?_
    · intro t h1 h2
      refine trav_row r _ (fun k => r.cell k t) _ _ (r.width - 1).toNat 0 (by omega) ?_ ?_ ?_
      · intro j h3 h4
        simp only [BReg.isDone, BReg.cell, BReg.pt, hs, Side.bx, Side.by, decide_eq_false_iff_not]; omega
      · intro j h3 h4
        simp only [BReg.next, BReg.cell, BReg.pt, hs, Side.bx, Side.by]
        rw [if_neg (by omega)]; ext <;> simp only <;> omega
      · simp only [BReg.next, BReg.cell, BReg.pt, hs, Side.bx, Side.by]
        rw [if_pos (by omega)]; ext <;> simp only <;> omega
    · simp only [BReg.isDone, BReg.cell, BReg.pt, hs, Side.bx, Side.by, decide_eq_true_eq]; omega
  · refine trav_loop r _ _ _ (r.cell 0 (r.hi + 1)) (trav_rows r _ _ (fun t => r.cell 0 t) (r.hi + 1) (r.hi + 1 - r.lo).toNat r.lo (by omega) ?_) ?_
    · intro t h1 h2
      refine trav_row r _ (fun k => r.cell k t) _ _ (r.width - 1).toNat 0 (by omega) ?_ ?_ ?_
      · intro j h3 h4
        simp only [BReg.isDone, BReg.cell, BReg.pt, hs, Side.bx, Side.by, decide_eq_false_iff_not]; omega
      · intro j h3 h4
        simp only [BReg.next, BReg.cell, BReg.pt, hs, Side.bx, Side.by]
        rw [if_neg (by omega)]; ext <;> simp only <;> omega
      · simp only [BReg.next, BReg.cell, BReg.pt, hs, Side.bx, Side.by]
        rw [if_pos (by omega)]; ext <;> simp only <;> omega
    · simp only [BReg.isDone, BReg.cell, BReg.pt, hs, Side.bx, Side.by, decide_eq_true_eq]; omega

theorem visits2d_zero (r : BReg) (hw : r.width ≤ 0) : r.Visits r.next [] := by
  refine ⟨0, ?_⟩
  rw [BReg.loop, pt_first, pt_done]
  simp only [Prod.mk.injEq, true_and, decide_eq_true_eq]
  omega

/-- Cells of which a later one never lies further inside on the same line. -/
def Outward (s : Side) (cells : List (Int × Int)) : Prop :=
  cells.Pairwise (fun p q => ∀ j ≤ 0, ¬ (p.1 + j * s.bx = q.1 ∧ p.2 + j * s.by = q.2))

theorem mem_cells (r : BReg) (p : Int × Int) :
    p ∈ r.cells ↔ ∃ k t, (0 ≤ k ∧ k < r.width) ∧ (r.lo ≤ t ∧ t ≤ r.hi) ∧ p = r.cell k t := by
  unfold BReg.cells
  cases hs : r.side <;> simp only [List.mem_flatMap, List.mem_map, mem_ints]
  all_goals
    constructor
    · rintro ⟨a, ha, b, hb, rfl⟩
      first | exact ⟨a, b, ha, ⟨hb.1, by omega⟩, rfl⟩ | exact ⟨b, a, hb, ⟨ha.1, by omega⟩, rfl⟩
    · rintro ⟨a, b, ha, hb, rfl⟩
      first | exact ⟨a, ha, b, ⟨hb.1, by omega⟩, rfl⟩ | exact ⟨b, ⟨hb.1, by omega⟩, a, ha, rfl⟩

theorem cells_outward (r : BReg) : Outward r.side r.cells := by
  unfold Outward BReg.cells
  cases hs : r.side <;> simp only
  all_goals
    rw [List.pairwise_flatMap]
    constructor
    · intro a _
      rw [List.pairwise_map]
      refine (ints_sorted _ _).imp ?_
      intro u v huv j hj
      simp only [BReg.cell, BReg.pt, hs, Side.bx, Side.by]
      omega
    · refine (ints_sorted _ _).imp ?_
      intro u v huv a ha b hb j hj
      obtain ⟨t, _, rfl⟩ := List.mem_map.1 ha
      obtain ⟨t', _, rfl⟩ := List.mem_map.1 hb
      simp only [BReg.cell, BReg.pt, hs, Side.bx, Side.by]
      omega

/-- **C31.** The `next` loop visits every guard cell of the boundary exactly once, never after a cell further out on the
same line. -/
theorem C31_cells (r : BReg) (hlo : r.lo ≤ r.hi) :
    ∃ cells, r.Visits r.next cells ∧ cells.Nodup ∧ Outward r.side cells ∧ (∀ x y, (x, y) ∈ cells ↔ r.Guard x y) := by
  by_cases hw : 0 < r.width
  · refine ⟨_, visits2d r hlo hw, ?_, cells_outward r, ?_⟩
    · have := cells_outward r
      unfold Outward at this
      refine this.imp ?_
      intro p q h e
      exact h 0 le_rfl (by subst e; simp)
    · intro x y
      rw [mem_cells]
      unfold BReg.Guard BReg.cell BReg.pt
      cases hs : r.side <;> simp only [Side.bx, Side.by, Prod.mk.injEq]
      · constructor
        · rintro ⟨k, t, hk, ht, h1, h2⟩; omega
        · intro h; exact ⟨r.width - 1 - x, y, by omega, by omega, by omega, by omega⟩
      · constructor
        · rintro ⟨k, t, hk, ht, h1, h2⟩; omega
        · intro h; exact ⟨x - (r.nx - r.width), y, by omega, by omega, by omega, by omega⟩
      · constructor
        · rintro ⟨k, t, hk, ht, h1, h2⟩; omega
        · intro h; exact ⟨r.width - 1 - y, x, by omega, by omega, by omega, by omega⟩
      · constructor
        · rintro ⟨k, t, hk, ht, h1, h2⟩; omega
        · intro h; exact ⟨y - (r.ny - r.width), x, by omega, by omega, by omega, by omega⟩
  · refine ⟨[], visits2d_zero r (by omega), List.nodup_nil, List.Pairwise.nil, ?_⟩
    intro x y
    unfold BReg.Guard
    cases r.side <;> simp only [List.not_mem_nil, false_iff] <;> omega

/-- The effect of a condition applied cell by cell: every guard cell satisfies its equation in the final field, all other
cells keep their value. -/
theorem cells_spec (r : BReg) (hlo : r.lo ≤ r.hi) (cells : List (Int × Int)) (hv : r.Visits r.next cells) (nz : Int)
    (e : Int × Int → Int → (Int → K) → K) (hc : ∀ p z g g', (∀ j < 0, g j = g' j) → e p z g = e p z g') (f : Fld K) :
    let f' := applyCells r.side cells nz e f
    (∀ x y z, r.Guard x y → 0 ≤ z → z < nz → f' x y z = e (x, y) z (along r.side f' (x, y) z)) ∧
    (∀ x y z, ¬ (r.Guard x y ∧ 0 ≤ z ∧ z < nz) → f' x y z = f x y z) := by
  intro f'
  obtain ⟨cells', hv', _, ho, hm⟩ := C31_cells r hlo
  rw [← visits_unique r _ _ _ hv hv'] at ho hm
  constructor
  · intro x y z hg h0 h1
    have := run_spec r.side (pointsZ cells nz fun p z => [(0, e p z)]) f ?_ ?_ ⟨(x, y), z, 0, e (x, y) z⟩ ?_
    · have hh : along r.side f' (x, y) z 0 = f' x y z := by simp [along]
      rw [← hh]
      exact this
    · intro c hc'
      obtain ⟨q, _, w, _, b, hb', rfl⟩ := (mem_pointsZ _ _ _ _).1 hc'
      rw [List.mem_singleton] at hb'
      subst hb'
      exact hc q w
    · refine pairwise_pointsZ r.side cells nz _ ?_ (fun p z => List.pairwise_singleton _ _)
      refine ho.imp ?_
      intro p q h z a ha b hb j hj hh
      rw [List.mem_singleton] at ha hb
      subst ha
      subst hb
      refine h j hj ⟨by rw [hh.1]; simp, by rw [hh.2]; simp⟩
    · exact (mem_pointsZ _ _ _ _).2 ⟨(x, y), (hm x y).2 hg, z, ⟨h0, h1⟩, (0, e (x, y) z), List.mem_singleton_self _, rfl⟩
  · intro x y z h
    refine run_ne r.side _ f _ _ _ ?_
    intro c hc' hh
    obtain ⟨q, hq, w, hw, b, hb', rfl⟩ := (mem_pointsZ _ _ _ _).1 hc'
    rw [List.mem_singleton] at hb'
    subst hb'
    simp only [Asg.at, Prod.mk.injEq, zero_mul, add_zero] at hh
    obtain ⟨rfl, rfl, rfl⟩ := hh
    exact h ⟨(hm _ _).1 hq, hw.1, hw.2⟩

end Verif.Num
