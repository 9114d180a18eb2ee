import Verif.Invert.LapSlice

/-! # C93: theorems about Laplacian inversions slice by slice -/
namespace Verif.LapSlice

variable {S : Type}

/-! ## The range of slices -/

theorem mem_indices (r : Int × Int) (j : Int) : j ∈ indices r ↔ r.1 ≤ j ∧ j ≤ r.2 := by
  simp only [indices, List.mem_map, List.mem_range]
  constructor
  · rintro ⟨i, hi, rfl⟩
    omega
  · rintro ⟨h1, h2⟩
    exact ⟨(j - r.1).toNat, by omega, by omega⟩

theorem indices_nodup (r : Int × Int) : (indices r).Nodup := by
  refine List.Nodup.map (fun a b h => ?_) List.nodup_range
  simpa using h

/-- A cache that is empty or holds this mesh's answers. -/
def Good (s : Cache) (m : YMesh) : Prop :=
  (s.lower = none ∨ s.lower = some (m.row.any (·.1))) ∧ (s.upper = none ∨ s.upper = some (m.row.any (·.2)))

theorem hasLower_good {s : Cache} {m : YMesh} (h : Good s m) : (hasLower s m).1 = m.row.any (·.1) ∧ Good (hasLower s m).2 m := by
  unfold hasLower
  obtain ⟨h1 | h1, h2⟩ := h <;> rw [h1] <;> simp [Good, h1, h2]

theorem hasUpper_good {s : Cache} {m : YMesh} (h : Good s m) : (hasUpper s m).1 = m.row.any (·.2) ∧ Good (hasUpper s m).2 m := by
  unfold hasUpper
  obtain ⟨h1, h2 | h2⟩ := h <;> rw [h2] <;> simp [Good, h1, h2]

theorem slices_good {s : Cache} {m : YMesh} (o : Opts) (g : Bool) (h : Good s m) :
    (slices o m g s).1 = indices (if g then range0 o m (m.row.any (·.1)) (m.row.any (·.2))
        else range o m (m.row.any (·.1)) (m.row.any (·.2))) ∧ Good (slices o m g s).2 m := by
  obtain ⟨a1, a2⟩ := hasLower_good h
  obtain ⟨b1, b2⟩ := hasUpper_good a2
  unfold slices
  simp only [a1, b1]
  exact ⟨trivial, b2⟩

/-- Every cache that calls of the queries and inversions on one mesh can leave. -/
inductive History (m : YMesh) : Cache → Prop
  | start : History m ⟨none, none⟩
  | lower {s} : History m s → History m (hasLower s m).2
  | upper {s} : History m s → History m (hasUpper s m).2
  | solve {s} (o : Opts) (g : Bool) : History m s → History m (slices o m g s).2

theorem History.good {m : YMesh} {s : Cache} (h : History m s) : Good s m := by
  induction h with
  | start => exact ⟨.inl rfl, .inl rfl⟩
  | lower _ ih => exact (hasLower_good ih).2
  | upper _ ih => exact (hasUpper_good ih).2
  | solve o g _ ih => exact (slices_good o g ih).2

theorem loop_ok (inv : Int → S → Option S) (b : Int → S) (js : List Int) (hjs : js.Nodup) (x : Int → S)
    (h : ∀ j ∈ js, inv j (b j) ≠ none) :
    (loop inv b js x).2 = false ∧ (∀ j ∈ js, inv j (b j) = some ((loop inv b js x).1 j))
    ∧ ∀ j, j ∉ js → (loop inv b js x).1 j = x j := by
  induction js generalizing x with
  | nil => exact ⟨rfl, by simp, fun _ _ => rfl⟩
  | cons jy js ih =>
    obtain ⟨hn, hnd⟩ := List.nodup_cons.1 hjs
    cases hv : inv jy (b jy) with
    | none => exact absurd hv (h jy (List.mem_cons_self ..))
    | some v =>
      obtain ⟨e1, e2, e3⟩ := ih hnd (fun j => if j = jy then v else x j) fun j hj => h j (List.mem_cons_of_mem _ hj)
      have hl : loop inv b (jy :: js) x = loop inv b js (fun j => if j = jy then v else x j) := by
        rw [loop, hv]
      rw [hl]
      refine ⟨e1, ?_, ?_⟩
      · intro j hj
        rcases List.mem_cons.1 hj with rfl | hj
        · rw [hv, e3 j hn]; simp
        · exact e2 j hj
      · intro j hj
        have h1 : j ≠ jy := fun e => hj (e ▸ List.mem_cons_self ..)
        rw [e3 j fun h2 => hj (List.mem_cons_of_mem _ h2)]
        simp [h1]

theorem loop_status (inv : Int → S → Option S) (b : Int → S) (js : List Int) (x : Int → S) :
    (loop inv b js x).2 = js.any fun j => (inv j (b j)).isNone := by
  induction js generalizing x with
  | nil => rfl
  | cons jy js ih =>
    rw [loop]
    cases hv : inv jy (b jy) with
    | none => simp [hv]
    | some v => simp [hv, ih]

/-- **C93, slices.** Whatever was done on this mesh before, without extra excluded rows either overload inverts the slices of the
interior, and with `include_yguards` also the guard slices beyond the boundaries the row of processors has, each with its own
slice of the right hand side, and leaves every other slice of the result as it was; it reports failure exactly if one of those
inversions fails. -/
theorem C93_slices_partial (m : YMesh) (o : Opts) (h1 : o.extraLower = 0) (h2 : o.extraUpper = 0) (g : Bool) (s : Cache)
    (hs : History m s) (hm : 0 ≤ m.ystart ∧ m.ystart ≤ m.yend ∧ m.yend ≤ m.localNy - 1) (inv : Int → S → Option S)
    (b x : Int → S) :
    let wanted : Int → Prop := fun j => (m.ystart ≤ j ∧ j ≤ m.yend)
      ∨ (o.includeYguards ∧ (∃ q ∈ m.row, q.1) ∧ 0 ≤ j ∧ j < m.ystart)
      ∨ (o.includeYguards ∧ (∃ q ∈ m.row, q.2) ∧ m.yend < j ∧ j < m.localNy)
    let r := (solve o m g inv b x s).1
    ((∀ j, wanted j → inv j (b j) ≠ none) → ∀ j, (wanted j → inv j (b j) = some (r.1 j)) ∧ (¬ wanted j → r.1 j = x j))
    ∧ (r.2 = true ↔ ∃ j, wanted j ∧ inv j (b j) = none) := by
  intro wanted r
  have hw : ∀ j, j ∈ (slices o m g s).1 ↔ wanted j := by
    intro j
    rw [(slices_good o g hs.good).1, mem_indices]
    have e1 : (∃ q ∈ m.row, q.1 = true) ↔ m.row.any (·.1) = true := by rw [List.any_eq_true]
    have e2 : (∃ q ∈ m.row, q.2 = true) ↔ m.row.any (·.2) = true := by rw [List.any_eq_true]
    simp only [wanted, e1, e2]
    generalize m.row.any (·.1) = lo
    generalize m.row.any (·.2) = hi
    obtain ⟨oi, ol, ou⟩ := o
    simp only at h1 h2
    subst h1 h2
    cases g <;> cases oi <;> cases lo <;> cases hi <;> simp [range, range0] <;> omega
  have hnd : (slices o m g s).1.Nodup := by
    rw [(slices_good o g hs.good).1]; exact indices_nodup _
  have hr : r = loop inv b (slices o m g s).1 x := rfl
  refine ⟨fun hok j => ?_, ?_⟩
  · obtain ⟨-, e2, e3⟩ := loop_ok inv b _ hnd x fun j hj => hok j ((hw j).1 hj)
    exact ⟨fun h => by rw [hr]; exact e2 j ((hw j).2 h), fun h => by rw [hr]; exact e3 j fun hj => h ((hw j).1 hj)⟩
  · rw [hr, loop_status, List.any_eq_true]
    constructor
    · rintro ⟨j, hj, h⟩
      exact ⟨j, (hw j).1 hj, by simpa using h⟩
    · rintro ⟨j, hj, h⟩
      exact ⟨j, (hw j).2 hj, by simp [h]⟩

/-- **C93, extra rows.** `extra_yguards_lower` and `_upper` remove that many of the first and last slices of `solve(b)` at an
existing boundary, and nothing where there is none. -/
theorem C93_extra (m : YMesh) (o : Opts) (s : Cache) (hs : History m s) (j : Int) :
    j ∈ (slices o m false s).1 ↔
      ∃ first last : Int, (∀ i, i ∈ (slices ⟨o.includeYguards, 0, 0⟩ m false s).1 ↔ first ≤ i ∧ i ≤ last)
        ∧ first + (if ∃ q ∈ m.row, q.1 then o.extraLower else 0) ≤ j
        ∧ j ≤ last - (if ∃ q ∈ m.row, q.2 then o.extraUpper else 0)
        ∧ (first, last) = range ⟨o.includeYguards, 0, 0⟩ m (m.row.any (·.1)) (m.row.any (·.2)) := by
  have e1 : (∃ q ∈ m.row, q.1 = true) ↔ m.row.any (·.1) = true := by rw [List.any_eq_true]
  have e2 : (∃ q ∈ m.row, q.2 = true) ↔ m.row.any (·.2) = true := by rw [List.any_eq_true]
  rw [(slices_good o false hs.good).1, mem_indices]
  simp only [(slices_good _ false hs.good).1, mem_indices, e1, e2]
  generalize m.row.any (·.1) = lo
  generalize m.row.any (·.2) = hi
  constructor
  · intro h
    refine ⟨_, _, fun i => Iff.rfl, ?_, ?_, rfl⟩ <;> cases lo <;> cases hi <;> simp_all [range]
  · rintro ⟨f, l, -, h1, h2, h3⟩
    obtain ⟨rfl, rfl⟩ := Prod.mk.inj h3
    cases lo <;> cases hi <;> simp_all [range]

/-! ## Collective operations -/

/-- Every processor of a row has the same operations left. -/
def Uniform {P R : Type} (rowOf : P → R) (st : R → Bool) (s : P → List Op) : Prop :=
  (∃ J : R → List Int, ∀ p, s p = (J (rowOf p)).map Op.row ++ [Op.world (st (rowOf p))]) ∨ ∀ p, s p = []

theorem uniform_step {P R : Type} {rowOf : P → R} {st : R → Bool} {s s' : P → List Op} (h : Uniform rowOf st s)
    (hstep : Step rowOf s s') : Uniform rowOf st s' := by
  classical
  cases hstep with
  | row r p0 hp0 h1 h2 =>
    rcases h with ⟨J, hJ⟩ | h
    · left
      refine ⟨fun q => if q = r then (J q).tail else J q, fun p => ?_⟩
      by_cases hp : rowOf p = r
      · obtain ⟨jy, rest, e1, e2⟩ := h1 p hp
        rw [hJ p] at e1
        rw [e2]
        simp only [hp, if_true]
        rw [hp] at e1
        cases hJr : J r with
        | nil => rw [hJr] at e1; simp at e1
        | cons a l =>
          rw [hJr] at e1
          simp only [List.map_cons, List.cons_append, List.cons.injEq] at e1
          simp [e1.2]
      · rw [h2 p hp, hJ p]; simp [hp]
    · obtain ⟨jy, rest, e1, -⟩ := h1 p0 hp0
      rw [h p0] at e1; cases e1
  | world h1 =>
    right
    intro p
    obtain ⟨w, rest, e1, e2⟩ := h1 p
    rcases h with ⟨J, hJ⟩ | h
    · rw [hJ p] at e1
      cases hJr : J (rowOf p) with
      | nil => rw [hJr] at e1; simp at e1; rw [e2, ← e1.2]
      | cons a l => rw [hJr] at e1; simp at e1
    · rw [h p] at e1; cases e1

theorem uniform_reachable {P R : Type} {rowOf : P → R} {st : R → Bool} {s s' : P → List Op} (h : Uniform rowOf st s)
    (hr : Relation.ReflTransGen (Step rowOf) s s') : Uniform rowOf st s' := by
  induction hr with
  | refl => exact h
  | tail _ hs ih => exact uniform_step ih hs

/-- **C93, no deadlock.** If the processors of a row agree on the range and on which slices fail (the same for an inversion
that is itself collective), then in every reachable state either every processor has finished or a collective operation can take
place; the operations that meet are always those of the same slice; and no run has more steps than operations. -/
theorem C93_progress {P R : Type} [Nonempty P] (rowOf : P → R) (js : P → List Int) (fails : P → Int → Bool)
    (hjs : ∀ p q, rowOf p = rowOf q → js p = js q) (hf : ∀ p q, rowOf p = rowOf q → fails p = fails q) (s : P → List Op)
    (hr : Relation.ReflTransGen (Step rowOf) (fun p => program (fails p) (js p)) s) :
    ((∀ p, s p = []) ∨ ∃ s', Step rowOf s s') ∧ (∀ p q, rowOf p = rowOf q → s p = s q)
    ∧ ∀ s', Step rowOf s s' → (∀ p, (s' p).length ≤ (s p).length) ∧ ∃ p, (s' p).length < (s p).length := by
  classical
  have hU : ∃ st, Uniform rowOf st (fun p => program (fails p) (js p)) := by
    by_cases h0 : ∃ _ : R, True
    · let pick : R → Option P := fun r => if h : ∃ p, rowOf p = r then some h.choose else none
      have hpick : ∀ p, ∃ q, pick (rowOf p) = some q ∧ rowOf q = rowOf p := by
        intro p
        have h : ∃ q, rowOf q = rowOf p := ⟨p, rfl⟩
        exact ⟨h.choose, by simp [pick, h], h.choose_spec⟩
      refine ⟨fun r => ((pick r).map fun p => (js p).any (fails p)).getD false, .inl
        ⟨fun r => ((pick r).map fun p => attempted (fails p) (js p)).getD [], fun p => ?_⟩⟩
      obtain ⟨q, h1, h2⟩ := hpick p
      simp only [h1, Option.map_some, Option.getD_some]
      rw [hjs q p h2, hf q p h2]; rfl
    · exact absurd ⟨rowOf (Classical.arbitrary P), trivial⟩ h0
  obtain ⟨st, hU⟩ := hU
  have hs := uniform_reachable hU hr
  refine ⟨?_, ?_, ?_⟩
  · rcases hs with ⟨J, hJ⟩ | h
    · right
      by_cases hall : ∀ p, J (rowOf p) = []
      · refine ⟨fun _ => [], .world _ _ fun p => ⟨st (rowOf p), [], by rw [hJ p, hall p]; rfl, rfl⟩⟩
      · push Not at hall
        obtain ⟨p0, hp0⟩ := hall
        refine ⟨fun p => if rowOf p = rowOf p0 then (s p).tail else s p, .row _ _ (rowOf p0) p0 rfl ?_ ?_⟩
        · intro p hp
          cases hJr : J (rowOf p0) with
          | nil => exact absurd hJr hp0
          | cons a l =>
            refine ⟨a, l.map Op.row ++ [Op.world (st (rowOf p))], by rw [hJ p, hp, hJr]; rfl, ?_⟩
            rw [if_pos hp, hJ p, hp, hJr]; rfl
        · intro p hp; rw [if_neg hp]
    · exact .inl h
  · intro p q hpq
    rcases hs with ⟨J, hJ⟩ | h
    · rw [hJ p, hJ q, hpq]
    · rw [h p, h q]
  · intro s' hstep
    cases hstep with
    | row r p0 hp0 h1 h2 =>
      refine ⟨fun p => ?_, p0, ?_⟩
      · by_cases hp : rowOf p = r
        · obtain ⟨_, _, e1, e2⟩ := h1 p hp
          rw [e1, e2]; simp
        · rw [h2 p hp]
      · obtain ⟨_, _, e1, e2⟩ := h1 p0 hp0
        rw [e1, e2]; simp
    | world h1 =>
      refine ⟨fun p => ?_, Classical.arbitrary P, ?_⟩
      · obtain ⟨_, _, e1, e2⟩ := h1 p
        rw [e1, e2]; simp
      · obtain ⟨_, _, e1, e2⟩ := h1 (Classical.arbitrary P)
        rw [e1, e2]; simp

/-- The programs describe the calls: the operations of one processor's `solve`, with its failures, and its status. -/
theorem C93_program (o : Opts) (m : YMesh) (g : Bool) (inv : Int → S → Option S) (b x : Int → S) (s : Cache) :
    let js := (slices o m g s).1
    let fails := fun j => (inv j (b j)).isNone
    (program fails js).getLast? = some (Op.world (solve o m g inv b x s).1.2)
    ∧ ∀ j, Op.row j ∈ program fails js → j ∈ js := by
  intro js fails
  refine ⟨?_, ?_⟩
  · have : (solve o m g inv b x s).1.2 = js.any fails := loop_status inv b js x
    rw [this, program]; simp
  · intro j hj
    have key : ∀ l : List Int, ∀ i ∈ attempted fails l, i ∈ l := by
      intro l
      induction l with
      | nil => intro i hi; exact hi
      | cons a l ih =>
        intro i hi
        rw [attempted] at hi
        split_ifs at hi
        · simp at hi; subst hi; exact List.mem_cons_self ..
        · rcases List.mem_cons.1 hi with rfl | hi
          · exact List.mem_cons_self ..
          · exact List.mem_cons_of_mem _ (ih i hi)
    simp only [program, List.mem_append, List.mem_map, List.mem_singleton] at hj
    rcases hj with ⟨i, hi, e⟩ | e
    · cases e; exact key js j hi
    · cases e

end Verif.LapSlice
