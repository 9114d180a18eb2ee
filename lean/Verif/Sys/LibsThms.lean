import Verif.Sys.Libs

/-!
# C86: the libraries are initialised before their first use and finalised once
-/
namespace Verif.Libs

/-- Whether a thread is inside the critical section. -/
def Pc.crit : Pc → Bool
  | .ctorTest _ | .ctorInit _ | .ctorIncr _ | .copyIncr _ _ | .dtorDecr _ | .dtorTest | .dtorFinal
  | .cleanTest | .cleanFinal | .cleanZero => true
  | _ => false

/-- What holds while the lock is held at a place. -/
def Inside (s : State) : Pc → Prop
  | .ctorInit _ => s.count = s.objs.card ∧ s.objs = ∅ ∧ s.up = false
  | .ctorIncr _ => s.count = s.objs.card ∧ s.up = true
  | .dtorTest => s.count = s.objs.card ∧ s.up = true
  | .dtorFinal => s.count = s.objs.card ∧ s.objs = ∅ ∧ s.up = true
  | .cleanTest | .cleanFinal | .cleanZero => False
  | _ => s.count = s.objs.card ∧ (s.up = true ↔ s.objs ≠ ∅)

/-- The invariant of histories without `cleanup`. -/
structure Inv (s : State) : Prop where
  held : ∀ t, (s.pc t).crit = true ↔ s.lock = some t
  free : s.lock = none → s.count = s.objs.card ∧ (s.up = true ↔ s.objs ≠ ∅)
  inside : ∀ t, s.lock = some t → Inside s (s.pc t)
  noclean : ∀ t, s.pc t ≠ .cleanWait
  dying : ∀ t o, (s.pc t).dying = some o → o ∈ s.objs
  once : ∀ t t' o, (s.pc t).dying = some o → (s.pc t').dying = some o → t = t'
  source : ∀ t o, (s.pc t).source = some o → o ∈ s.objs ∧ ∀ t', (s.pc t').dying ≠ some o
  making : ∀ t o, (s.pc t).making = some o → o ∉ s.objs
  single : ∀ t t' o, (s.pc t).making = some o → (s.pc t').making = some o → t = t'

/-- The state of the library after calls. -/
def after : Bool → List Ev → Bool
  | b, [] => b
  | _, .init :: l => after true l
  | _, .final :: l => after false l
  | b, .use :: l => after b l

theorem goodFrom_append : ∀ (l : List Ev) (b : Bool) (m : List Ev),
    GoodFrom b (l ++ m) ↔ GoodFrom b l ∧ GoodFrom (after b l) m
  | [], b, m => by simp [GoodFrom, after]
  | .init :: l, b, m => by
    show _ ∧ GoodFrom true (l ++ m) ↔ (_ ∧ GoodFrom true l) ∧ _
    rw [goodFrom_append l true m, and_assoc]; rfl
  | .final :: l, b, m => by
    show _ ∧ GoodFrom false (l ++ m) ↔ (_ ∧ GoodFrom false l) ∧ _
    rw [goodFrom_append l false m, and_assoc]; rfl
  | .use :: l, b, m => by
    show _ ∧ GoodFrom b (l ++ m) ↔ (_ ∧ GoodFrom b l) ∧ _
    rw [goodFrom_append l b m, and_assoc]; rfl

theorem after_append : ∀ (l : List Ev) (b : Bool) (m : List Ev), after b (l ++ m) = after (after b l) m
  | [], _, _ => rfl
  | .init :: l, _, m => after_append l true m
  | .final :: l, _, m => after_append l false m
  | .use :: l, b, m => after_append l b m

/-- The log is good and the flag says what it says. -/
def LogOk (s : State) : Prop := Good s ∧ after false s.log.reverse = s.up

theorem logOk_init {s s' : State} (h : LogOk s) (hu : s.up = false) (hl : s'.log = .init :: s.log)
    (hu' : s'.up = true) : LogOk s' := by
  unfold LogOk Good at *
  rw [hl, List.reverse_cons, goodFrom_append, after_append, h.2, hu, hu']
  exact ⟨⟨h.1, rfl, trivial⟩, rfl⟩

theorem logOk_final {s s' : State} (h : LogOk s) (hu : s.up = true) (hl : s'.log = .final :: s.log)
    (hu' : s'.up = false) : LogOk s' := by
  unfold LogOk Good at *
  rw [hl, List.reverse_cons, goodFrom_append, after_append, h.2, hu, hu']
  exact ⟨⟨h.1, rfl, trivial⟩, rfl⟩

theorem logOk_use {s s' : State} (h : LogOk s) (hu : s.up = true) (hl : s'.log = .use :: s.log)
    (hu' : s'.up = s.up) : LogOk s' := by
  unfold LogOk Good at *
  rw [hl, List.reverse_cons, goodFrom_append, after_append, h.2, hu', hu]
  exact ⟨⟨h.1, rfl, trivial⟩, rfl⟩

theorem logOk_same {s s' : State} (h : LogOk s) (hl : s'.log = s.log) (hu' : s'.up = s.up) : LogOk s' := by
  unfold LogOk Good at *
  rw [hl, hu']
  exact h

theorem card_zero {s : State} (h : s.count = (s.objs.card : Int)) : s.count = 0 ↔ s.objs = ∅ := by
  rw [h, Int.natCast_eq_zero, Finset.card_eq_zero]

/-- Moves outside the critical section that leave objects alone. -/
theorem inv_outside {s : State} {t : Nat} {p : Pc} (h : Inv s) (hc : (s.pc t).crit = false)
    (hp : p.crit = false) (hw : p ≠ .cleanWait)
    (hd : ∀ o, p.dying = some o → o ∈ s.objs ∧ (∀ i, (s.pc i).dying ≠ some o) ∧ ∀ i, (s.pc i).source ≠ some o)
    (hso : ∀ o, p.source = some o → o ∈ s.objs ∧ ∀ i, (s.pc i).dying ≠ some o)
    (hm : ∀ o, p.making = some o → o ∉ s.objs ∧ ∀ i, (s.pc i).making ≠ some o) : Inv (s.at t p) := by
  have hpt : (s.at t p).pc t = p := if_pos rfl
  have hpi : ∀ i, i ≠ t → (s.at t p).pc i = s.pc i := fun i hi => if_neg hi
  refine ⟨?_, h.free, ?_, ?_, ?_, ?_, ?_, ?_, ?_⟩
  · intro i
    rcases Decidable.em (i = t) with rfl | hi
    · have := h.held i
      rw [hpt, hp]
      rw [hc] at this
      exact this
    · rw [hpi i hi]; exact h.held i
  · intro i hi
    have hit : i ≠ t := by
      rintro rfl
      have := (h.held i).2 hi
      rw [hc] at this
      cases this
    rw [hpi i hit]
    have := h.inside i hi
    exact this
  · intro i
    rcases Decidable.em (i = t) with rfl | hi
    · rw [hpt]; exact hw
    · rw [hpi i hi]; exact h.noclean i
  · intro i o hi
    rcases Decidable.em (i = t) with rfl | hit
    · rw [hpt] at hi; exact (hd o hi).1
    · rw [hpi i hit] at hi; exact h.dying i o hi
  · intro i j o hi hj
    rcases Decidable.em (i = t) with hit | hit <;> rcases Decidable.em (j = t) with hjt | hjt
    · exact hit.trans hjt.symm
    · rw [hit, hpt] at hi; rw [hpi j hjt] at hj
      exact absurd hj ((hd o hi).2.1 j)
    · rw [hjt, hpt] at hj; rw [hpi i hit] at hi
      exact absurd hi ((hd o hj).2.1 i)
    · rw [hpi i hit] at hi; rw [hpi j hjt] at hj
      exact h.once i j o hi hj
  · intro i o hi
    have key : o ∈ s.objs ∧ ∀ j, (s.pc j).dying ≠ some o := by
      rcases Decidable.em (i = t) with rfl | hit
      · rw [hpt] at hi; exact hso o hi
      · rw [hpi i hit] at hi; exact h.source i o hi
    refine ⟨key.1, fun j hj => ?_⟩
    rcases Decidable.em (j = t) with rfl | hjt
    · rw [hpt] at hj
      rcases Decidable.em (i = j) with rfl | hij
      · rw [hpt] at hi
        cases p <;> simp [Pc.dying, Pc.source] at hi hj
      · rw [hpi i hij] at hi
        exact (hd o hj).2.2 i hi
    · rw [hpi j hjt] at hj; exact key.2 j hj
  · intro i o hi
    rcases Decidable.em (i = t) with rfl | hit
    · rw [hpt] at hi; exact (hm o hi).1
    · rw [hpi i hit] at hi; exact h.making i o hi
  · intro i j o hi hj
    rcases Decidable.em (i = t) with hit | hit <;> rcases Decidable.em (j = t) with hjt | hjt
    · exact hit.trans hjt.symm
    · rw [hit, hpt] at hi; rw [hpi j hjt] at hj
      exact absurd hj ((hm o hi).2 j)
    · rw [hjt, hpt] at hj; rw [hpi i hit] at hi
      exact absurd hi ((hm o hj).2 i)
    · rw [hpi i hit] at hi; rw [hpi j hjt] at hj
      exact h.single i j o hi hj

/-- The facts of objects kept by steps that take objects from the hands of one thread: `keep` says
which of its claims remain, `gone` what it destroyed and `made` what it made. -/
theorem shape_step {s s' : State} {t : Nat} (h : Inv s)
    (hpi : ∀ i, i ≠ t → s'.pc i = s.pc i)
    (hd : ∀ o, (s'.pc t).dying = some o → (s.pc t).dying = some o ∧ s'.objs = s.objs)
    (hso : ∀ o, (s'.pc t).source = some o → (s.pc t).source = some o ∧ s'.objs = s.objs)
    (hm : ∀ o, (s'.pc t).making = some o → (s.pc t).making = some o ∧ s'.objs = s.objs)
    (hobj : ∀ o, o ∈ s'.objs ↔ (o ∈ s.objs ∧ (s'.objs = s.objs ∨ (s.pc t).dying ≠ some o))
      ∨ (s'.objs ≠ s.objs ∧ (s.pc t).making = some o))
    (hw : s'.pc t ≠ .cleanWait) :
    (∀ i, s'.pc i ≠ .cleanWait)
    ∧ (∀ i o, (s'.pc i).dying = some o → o ∈ s'.objs)
    ∧ (∀ i j o, (s'.pc i).dying = some o → (s'.pc j).dying = some o → i = j)
    ∧ (∀ i o, (s'.pc i).source = some o → o ∈ s'.objs ∧ ∀ j, (s'.pc j).dying ≠ some o)
    ∧ (∀ i o, (s'.pc i).making = some o → o ∉ s'.objs)
    ∧ (∀ i j o, (s'.pc i).making = some o → (s'.pc j).making = some o → i = j) := by
  have D : ∀ i o, (s'.pc i).dying = some o → (s.pc i).dying = some o := by
    intro i o hi
    rcases Decidable.em (i = t) with rfl | hit
    · exact (hd o hi).1
    · rwa [hpi i hit] at hi
  have S : ∀ i o, (s'.pc i).source = some o → (s.pc i).source = some o := by
    intro i o hi
    rcases Decidable.em (i = t) with rfl | hit
    · exact (hso o hi).1
    · rwa [hpi i hit] at hi
  have M : ∀ i o, (s'.pc i).making = some o → (s.pc i).making = some o := by
    intro i o hi
    rcases Decidable.em (i = t) with rfl | hit
    · exact (hm o hi).1
    · rwa [hpi i hit] at hi
  refine ⟨?_, ?_, ?_, ?_, ?_, ?_⟩
  · intro i
    rcases Decidable.em (i = t) with rfl | hit
    · exact hw
    · rw [hpi i hit]; exact h.noclean i
  · intro i o hi
    have h1 := h.dying i o (D i o hi)
    rcases Decidable.em (s'.objs = s.objs) with he | he
    · rw [he]; exact h1
    · refine (hobj o).2 (Or.inl ⟨h1, Or.inr fun ht => he ?_⟩)
      have := h.once i t o (D i o hi) ht
      subst this
      exact (hd o hi).2
  · exact fun i j o hi hj => h.once i j o (D i o hi) (D j o hj)
  · intro i o hi
    obtain ⟨h1, h2⟩ := h.source i o (S i o hi)
    exact ⟨(hobj o).2 (Or.inl ⟨h1, Or.inr (h2 t)⟩), fun j hj => h2 j (D j o hj)⟩
  · intro i o hi hmem
    rcases (hobj o).1 hmem with ⟨h1, _⟩ | ⟨he, ht⟩
    · exact h.making i o (M i o hi) h1
    · have := h.single i t o (M i o hi) ht
      subst this
      exact he (hm o hi).2
  · exact fun i j o hi hj => h.single i j o (M i o hi) (M j o hj)

/-- Histories of the theorem: `cleanup` is not called, options are not refused, and objects of a class
that does not count copies are not copied. -/
def Plain (k : Kind) (u : Uses) : Prop :=
  u.cleanup = false ∧ (u.throw = true → k.throws = false) ∧ (u.copy = true → k.counted = true)

/-- One step keeps the invariant and the library's view. -/
theorem inv_step {k : Kind} {u : Uses} (hk : k.locked = true) (hu : Plain k u) {s s' : State}
    {t : Nat} {a : Act} (h : Inv s) (hf : Fair s t a) (ha : u.ok a) (hs : step k s t a = some s') :
    Inv s' ∧ (LogOk s → LogOk s') := by
  have hpt : ∀ p, (s.at t p).pc t = p := fun p => if_pos rfl
  have hpi : ∀ p i, i ≠ t → (s.at t p).pc i = s.pc i := fun p i hi => if_neg hi
  have hheld := h.held t
  have hin := h.inside t
  -- entering
  have ent : ∀ p, (s.pc t).crit = false → p.crit = true → p.making = (s.pc t).making →
      p.dying = (s.pc t).dying → p.source = (s.pc t).source →
      (s.count = s.objs.card → (s.up = true ↔ s.objs ≠ ∅) → Inside { s.at t p with lock := some t } p) →
      enter k s t p = some s' → Inv s' ∧ (LogOk s → LogOk s') := by
    intro p hc hp hm hd hso hI hs
    unfold enter at hs
    rw [if_pos hk] at hs
    split_ifs at hs with hl
    cases hs
    obtain ⟨f1, f2⟩ := h.free hl
    have hsh := shape_step (s' := { s.at t p with lock := some t }) (t := t) h
      (fun i hi => hpi p i hi) (fun o ho => ⟨hd ▸ (hpt p) ▸ ho, rfl⟩)
      (fun o ho => ⟨hso ▸ (hpt p) ▸ ho, rfl⟩) (fun o ho => ⟨hm ▸ (hpt p) ▸ ho, rfl⟩)
      (fun o => ⟨fun ho => Or.inl ⟨ho, Or.inl rfl⟩, fun ho => ho.elim (·.1) fun x => absurd rfl x.1⟩)
      (by
        show (s.at t p).pc t ≠ _
        rw [hpt]; rintro rfl; cases hp)
    obtain ⟨a1, a2, a3, a4, a5, a6⟩ := hsh
    refine ⟨⟨?_, (fun hx => nomatch hx), ?_, a1, a2, a3, a4, a5, a6⟩, fun hl => logOk_same hl rfl rfl⟩
    · intro i
      show ((s.at t p).pc i).crit = true ↔ some t = some i
      rcases Decidable.em (i = t) with rfl | hi
      · rw [hpt, hp]; exact ⟨fun _ => rfl, fun _ => rfl⟩
      · rw [hpi p i hi]
        constructor
        · intro hx
          have := (h.held i).1 hx
          rw [hl] at this; cases this
        · intro hx; cases hx; exact absurd rfl hi
    · intro i hi
      cases hi
      show Inside _ ((s.at t p).pc t)
      rw [hpt]
      exact hI f1 f2
  -- moving inside
  have inn : ∀ p, (s.pc t).crit = true → p.crit = true → s'.lock = s.lock → s'.pc t = p →
      (∀ i, i ≠ t → s'.pc i = s.pc i) →
      (∀ o, p.dying = some o → (s.pc t).dying = some o ∧ s'.objs = s.objs) →
      (∀ o, p.source = some o → (s.pc t).source = some o ∧ s'.objs = s.objs) →
      (∀ o, p.making = some o → (s.pc t).making = some o ∧ s'.objs = s.objs) →
      (∀ o, o ∈ s'.objs ↔ (o ∈ s.objs ∧ (s'.objs = s.objs ∨ (s.pc t).dying ≠ some o))
        ∨ (s'.objs ≠ s.objs ∧ (s.pc t).making = some o)) → Inside s' p → Inv s' := by
    intro p hc hp hl hpt' hpi' hd hso hm hobj hI
    have hlt := hheld.1 hc
    have hw : s'.pc t ≠ .cleanWait := by rw [hpt']; rintro rfl; cases hp
    obtain ⟨a1, a2, a3, a4, a5, a6⟩ := shape_step h hpi' (hpt' ▸ hd) (hpt' ▸ hso) (hpt' ▸ hm) hobj hw
    refine ⟨?_, ?_, ?_, a1, a2, a3, a4, a5, a6⟩
    · intro i
      rw [hl]
      rcases Decidable.em (i = t) with rfl | hi
      · rw [hpt', hp]; exact ⟨fun _ => hlt, fun _ => rfl⟩
      · rw [hpi' i hi]; exact h.held i
    · intro hx; rw [hl, hlt] at hx; cases hx
    · intro i hi
      rw [hl, hlt] at hi
      cases hi
      rw [hpt']; exact hI
  -- leaving
  have lea : (s.pc t).crit = true → s'.lock = none → s'.pc t = .idle →
      (∀ i, i ≠ t → s'.pc i = s.pc i) →
      (∀ o, o ∈ s'.objs ↔ (o ∈ s.objs ∧ (s'.objs = s.objs ∨ (s.pc t).dying ≠ some o))
        ∨ (s'.objs ≠ s.objs ∧ (s.pc t).making = some o)) →
      s'.count = s'.objs.card → (s'.up = true ↔ s'.objs ≠ ∅) → Inv s' := by
    intro hc hl hpt' hpi' hobj c1 c2
    have hlt := hheld.1 hc
    obtain ⟨a1, a2, a3, a4, a5, a6⟩ := shape_step h hpi' (fun o ho => by rw [hpt'] at ho; cases ho)
      (fun o ho => by rw [hpt'] at ho; cases ho) (fun o ho => by rw [hpt'] at ho; cases ho) hobj
      (by rw [hpt']; intro hx; cases hx)
    refine ⟨?_, fun _ => ⟨c1, c2⟩, ?_, a1, a2, a3, a4, a5, a6⟩
    · intro i
      rw [hl]
      refine ⟨fun hx => ?_, fun hx => nomatch hx⟩
      rcases Decidable.em (i = t) with rfl | hi
      · rw [hpt'] at hx; cases hx
      · rw [hpi' i hi] at hx
        have := (h.held i).1 hx
        rw [hlt] at this
        cases this
        exact absurd rfl hi
    · intro i hi
      rw [hl] at hi; cases hi
  have same : ∀ (o : Nat), o ∈ s.objs ↔ (o ∈ s.objs ∧ (s.objs = s.objs ∨ (s.pc t).dying ≠ some o))
        ∨ (s.objs ≠ s.objs ∧ (s.pc t).making = some o) := fun o =>
    ⟨fun ho => Or.inl ⟨ho, Or.inl rfl⟩, fun ho => ho.elim (·.1) fun x => absurd rfl x.1⟩
  unfold step at hs
  cases hp : s.pc t with
  | idle =>
    have hc : (s.pc t).crit = false := by rw [hp]; rfl
    rw [hp] at hs
    cases a with
    | create o =>
      cases hs
      refine ⟨inv_outside h hc rfl (by simp) (by simp [Pc.dying]) (by simp [Pc.source]) ?_, fun hl => logOk_same hl rfl rfl⟩
      intro o' ho; cases ho; exact hf
    | copy src o =>
      have ha' : u.copy = true := ha
      dsimp only at hs
      rw [if_pos (hu.2.2 ha')] at hs
      cases hs
      obtain ⟨f1, f2, f3, f4⟩ := hf
      refine ⟨inv_outside h hc rfl (by simp) (by simp [Pc.dying]) ?_ ?_, fun hl => logOk_same hl rfl rfl⟩
      · intro o' ho; cases ho; exact ⟨f1, f3⟩
      · intro o' ho; cases ho; exact ⟨f2, f4⟩
    | destroy o =>
      cases hs
      refine ⟨inv_outside h hc rfl (by simp) ?_ (by simp [Pc.source]) (by simp [Pc.making]), fun hl => logOk_same hl rfl rfl⟩
      intro o' ho; cases ho; exact hf
    | use o =>
      cases hs
      refine ⟨⟨h.held, h.free, h.inside, h.noclean, h.dying, h.once, h.source, h.making, h.single⟩, fun hl => logOk_use hl ?_ rfl rfl⟩
      have hne : s.objs ≠ ∅ := Finset.ne_empty_of_mem hf.1
      cases hlk : s.lock with
      | none => exact (h.free hlk).2.2 hne
      | some i =>
        have := h.inside i hlk
        cases hpi2 : s.pc i <;> rw [hpi2] at this <;> simp only [Inside] at this <;> tauto
    | cleanup => have ha' : u.cleanup = true := ha; rw [hu.1] at ha'; cases ha'
    | go => cases hs
    | throw => cases hs
  | ctorWait o =>
    rw [hp] at hs
    cases a <;> try (cases hs; done)
    exact ent (.ctorTest o) (by rw [hp]; rfl) rfl (by rw [hp]; rfl) (by rw [hp]; rfl) (by rw [hp]; rfl) (fun x y => ⟨x, y⟩) hs
  | ctorTest o =>
    have hc : (s.pc t).crit = true := by rw [hp]; rfl
    have hI := hin (hheld.1 hc)
    rw [hp] at hs hI
    cases a <;> try (cases hs; done)
    dsimp only at hs
    by_cases h0 : s.count = 0
    · rw [if_pos h0] at hs
      cases hs
      refine ⟨?_, fun hl => logOk_same hl rfl rfl⟩
      have he := (card_zero hI.1).1 h0
      exact inn _ hc rfl rfl (hpt _) (hpi _) (by simp [Pc.dying]) (by simp [Pc.source])
        (fun o' ho => ⟨by rw [hp]; exact ho, rfl⟩) same ⟨hI.1, he, by
          have := hI.2
          cases hup : s.up with
          | false => exact hup
          | true => exact absurd he (this.1 hup)⟩
    · rw [if_neg h0] at hs
      cases hs
      refine ⟨?_, fun hl => logOk_same hl rfl rfl⟩
      exact inn _ hc rfl rfl (hpt _) (hpi _) (by simp [Pc.dying]) (by simp [Pc.source])
        (fun o' ho => ⟨by rw [hp]; exact ho, rfl⟩) same ⟨hI.1, hI.2.2 fun he => h0 ((card_zero hI.1).2 he)⟩
  | ctorInit o =>
    have hc : (s.pc t).crit = true := by rw [hp]; rfl
    have hI := hin (hheld.1 hc)
    rw [hp] at hs hI
    cases a <;> try (cases hs; done)
    cases hs
    exact ⟨inn _ hc rfl rfl (hpt _) (hpi _) (by simp [Pc.dying]) (by simp [Pc.source])
        (fun o' ho => ⟨by rw [hp]; exact ho, rfl⟩) same ⟨hI.1, rfl⟩, fun hl => logOk_init hl hI.2.2 rfl rfl⟩
  | ctorIncr o =>
    have hc : (s.pc t).crit = true := by rw [hp]; rfl
    have hI := hin (hheld.1 hc)
    have hnew : o ∉ s.objs := h.making t o (by rw [hp]; rfl)
    have hne : insert o s.objs ≠ s.objs := fun he => hnew (he ▸ Finset.mem_insert_self o s.objs)
    rw [hp] at hs hI
    cases a <;> try (cases hs; done)
    · cases hs
      refine ⟨lea hc rfl (hpt _) (hpi _) ?_ ?_ ?_, fun hl => logOk_same hl rfl rfl⟩
      · intro o'
        show o' ∈ insert o s.objs ↔ (o' ∈ s.objs ∧ (insert o s.objs = s.objs ∨ _)) ∨ (insert o s.objs ≠ s.objs ∧ _)
        rw [hp, Finset.mem_insert]
        constructor
        · rintro (rfl | ho)
          · exact Or.inr ⟨hne, rfl⟩
          · exact Or.inl ⟨ho, Or.inr (by simp [Pc.dying])⟩
        · rintro (⟨ho, _⟩ | ⟨_, ho⟩)
          · exact Or.inr ho
          · cases ho; exact Or.inl rfl
      · show s.count + 1 = ((insert o s.objs).card : Int)
        rw [Finset.card_insert_of_notMem hnew, hI.1]; rfl
      · exact ⟨fun _ => Finset.insert_ne_empty _ _, fun _ => hI.2⟩
    · have ha' : u.throw = true := ha
      dsimp only at hs
      rw [hu.2.1 ha'] at hs; cases hs
  | copyWait src o =>
    rw [hp] at hs
    cases a <;> try (cases hs; done)
    exact ent (.copyIncr src o) (by rw [hp]; rfl) rfl (by rw [hp]; rfl) (by rw [hp]; rfl) (by rw [hp]; rfl) (fun x y => ⟨x, y⟩) hs
  | copyIncr src o =>
    have hc : (s.pc t).crit = true := by rw [hp]; rfl
    have hI := hin (hheld.1 hc)
    have hnew : o ∉ s.objs := h.making t o (by rw [hp]; rfl)
    have hsrc := (h.source t src (by rw [hp]; rfl)).1
    have hne : insert o s.objs ≠ s.objs := fun he => hnew (he ▸ Finset.mem_insert_self o s.objs)
    rw [hp] at hs hI
    cases a <;> try (cases hs; done)
    cases hs
    refine ⟨lea hc rfl (hpt _) (hpi _) ?_ ?_ ?_, fun hl => logOk_same hl rfl rfl⟩
    · intro o'
      show o' ∈ insert o s.objs ↔ (o' ∈ s.objs ∧ (insert o s.objs = s.objs ∨ _)) ∨ (insert o s.objs ≠ s.objs ∧ _)
      rw [hp, Finset.mem_insert]
      constructor
      · rintro (rfl | ho)
        · exact Or.inr ⟨hne, rfl⟩
        · exact Or.inl ⟨ho, Or.inr (by simp [Pc.dying])⟩
      · rintro (⟨ho, _⟩ | ⟨_, ho⟩)
        · exact Or.inr ho
        · cases ho; exact Or.inl rfl
    · show s.count + 1 = ((insert o s.objs).card : Int)
      rw [Finset.card_insert_of_notMem hnew, hI.1]; rfl
    · exact ⟨fun _ => Finset.insert_ne_empty _ _, fun _ => hI.2.2 (Finset.ne_empty_of_mem hsrc)⟩
  | dtorWait o =>
    rw [hp] at hs
    cases a <;> try (cases hs; done)
    exact ent (.dtorDecr o) (by rw [hp]; rfl) rfl (by rw [hp]; rfl) (by rw [hp]; rfl) (by rw [hp]; rfl) (fun x y => ⟨x, y⟩) hs
  | dtorDecr o =>
    have hc : (s.pc t).crit = true := by rw [hp]; rfl
    have hI := hin (hheld.1 hc)
    have hold : o ∈ s.objs := h.dying t o (by rw [hp]; rfl)
    have hne : s.objs.erase o ≠ s.objs := fun he => by
      rw [← he] at hold; exact Finset.notMem_erase o s.objs hold
    rw [hp] at hs hI
    cases a <;> try (cases hs; done)
    cases hs
    refine ⟨inn _ hc rfl rfl (hpt _) (hpi _) (by simp [Pc.dying]) (by simp [Pc.source]) (by simp [Pc.making]) ?_
      ⟨?_, hI.2.2 (Finset.ne_empty_of_mem hold)⟩, fun hl => logOk_same hl rfl rfl⟩
    · intro o'
      show o' ∈ s.objs.erase o ↔ (o' ∈ s.objs ∧ (s.objs.erase o = s.objs ∨ _)) ∨ (s.objs.erase o ≠ s.objs ∧ _)
      rw [hp, Finset.mem_erase]
      constructor
      · rintro ⟨h1, h2⟩
        exact Or.inl ⟨h2, Or.inr fun hx => h1 (by cases hx; rfl)⟩
      · rintro (⟨h1, h2⟩ | ⟨_, hx⟩)
        · rcases h2 with h2 | h2
          · exact absurd h2 hne
          · exact ⟨fun hx => h2 (by rw [hx]; rfl), h1⟩
        · cases hx
    · show s.count - 1 = ((s.objs.erase o).card : Int)
      have h1 := Finset.card_erase_of_mem hold
      have h2 := Finset.card_pos.2 ⟨o, hold⟩
      have h3 := hI.1
      omega
  | dtorTest =>
    have hc : (s.pc t).crit = true := by rw [hp]; rfl
    have hI := hin (hheld.1 hc)
    rw [hp] at hs hI
    cases a <;> try (cases hs; done)
    dsimp only at hs
    by_cases h0 : s.count = 0
    · rw [if_pos h0] at hs
      cases hs
      exact ⟨inn _ hc rfl rfl (hpt _) (hpi _) (by simp [Pc.dying]) (by simp [Pc.source]) (by simp [Pc.making])
        same ⟨hI.1, (card_zero hI.1).1 h0, hI.2⟩, fun hl => logOk_same hl rfl rfl⟩
    · rw [if_neg h0] at hs
      cases hs
      exact ⟨lea hc rfl (hpt _) (hpi _) same hI.1
        ⟨fun _ he => h0 ((card_zero hI.1).2 he), fun _ => hI.2⟩, fun hl => logOk_same hl rfl rfl⟩
  | dtorFinal =>
    have hc : (s.pc t).crit = true := by rw [hp]; rfl
    have hI := hin (hheld.1 hc)
    rw [hp] at hs hI
    cases a <;> try (cases hs; done)
    cases hs
    exact ⟨lea hc rfl (hpt _) (hpi _) same hI.1 ⟨(fun hx => nomatch hx), fun hx => absurd hI.2.1 hx⟩,
      fun hl => logOk_final hl hI.2.2 rfl rfl⟩
  | cleanWait => exact absurd hp (h.noclean t)
  | cleanTest =>
    have hc : (s.pc t).crit = true := by rw [hp]; rfl
    have hI := hin (hheld.1 hc); rw [hp] at hI; exact hI.elim
  | cleanFinal =>
    have hc : (s.pc t).crit = true := by rw [hp]; rfl
    have hI := hin (hheld.1 hc); rw [hp] at hI; exact hI.elim
  | cleanZero =>
    have hc : (s.pc t).crit = true := by rw [hp]; rfl
    have hI := hin (hheld.1 hc); rw [hp] at hI; exact hI.elim

theorem inv_start : Inv start := by
  refine ⟨?_, ?_, ?_, ?_, ?_, ?_, ?_, ?_, ?_⟩ <;> simp [start, Pc.crit, Pc.dying, Pc.source, Pc.making]

theorem reach_inv {k : Kind} {u : Uses} (hk : k.locked = true) (hu : Plain k u) {s : State}
    (h : Reach k u start s) : Inv s ∧ LogOk s := by
  induction h with
  | refl => exact ⟨inv_start, trivial, rfl⟩
  | step t a _ hf ha hs ih =>
    obtain ⟨h1, h2⟩ := inv_step hk hu ih.1 hf ha hs
    exact ⟨h1, h2 ih.2⟩

/-- **C86, lifetimes.**  For every number of threads, schedule and history of constructing, copying
(where copies are counted), using and destroying: the library is initialised only while it is not,
finalised only while it is and used only in between; it is up while there is an object that is not
being destroyed; and when no constructor or destructor is running, it is up exactly when there are
objects. -/
theorem C86_lifetime_partial (k : Kind) (hk : k.locked = true) (u : Uses) (hu : Plain k u) (s : State)
    (h : Reach k u start s) :
    Good s ∧ (∀ o ∈ s.objs, (∀ t, (s.pc t).dying ≠ some o) → s.up = true)
      ∧ ((∀ t, s.pc t = .idle) → (s.up = true ↔ s.objs ≠ ∅)) := by
  obtain ⟨hi, hl⟩ := reach_inv hk hu h
  refine ⟨hl.1, ?_, ?_⟩
  · intro o ho _
    have hne : s.objs ≠ ∅ := Finset.ne_empty_of_mem ho
    cases hlk : s.lock with
    | none => exact (hi.free hlk).2.2 hne
    | some i =>
      have := hi.inside i hlk
      cases hpi2 : s.pc i <;> rw [hpi2] at this <;> simp only [Inside] at this <;> tauto
  · intro hq
    cases hlk : s.lock with
    | none => exact (hi.free hlk).2
    | some i =>
      have := (hi.held i).2 hlk
      rw [hq i] at this; cases this

/-- **C86, no deadlock.**  Whenever some thread is in the middle of a constructor, copy, destructor or
cleanup, some thread can go on. -/
theorem C86_no_deadlock (k : Kind) (hk : k.locked = true) (u : Uses) (hu : Plain k u) (s : State)
    (h : Reach k u start s) (t : Nat) (ht : s.pc t ≠ .idle) : ∃ t' s', step k s t' .go = some s' := by
  obtain ⟨hi, -⟩ := reach_inv hk hu h
  have ent : ∀ p, s.lock = none → ∃ s', enter k s t p = some s' := by
    intro p hl
    unfold enter
    rw [if_pos hk, if_pos hl]
    exact ⟨_, rfl⟩
  cases hlk : s.lock with
  | some i =>
    have hc := (hi.held i).2 hlk
    refine ⟨i, ?_⟩
    unfold step
    cases hp : s.pc i <;> rw [hp] at hc <;> simp [Pc.crit] at hc ⊢
  | none =>
    refine ⟨t, ?_⟩
    have hc : (s.pc t).crit = false := by
      cases hx : (s.pc t).crit with
      | false => rfl
      | true => rw [(hi.held t).1 hx] at hlk; cases hlk
    have hnc := hi.noclean t
    unfold step
    cases hp : s.pc t <;> rw [hp] at hc ht hnc <;> simp [Pc.crit] at hc ht hnc
    · exact ent _ hlk
    · exact ent _ hlk
    · exact ent _ hlk

end Verif.Libs
