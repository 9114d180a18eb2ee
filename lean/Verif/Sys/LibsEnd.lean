import Verif.Sys.LibsThms

/-!
# C86: the end of the run (`BoutFinalise` calls `cleanup`), and where the claim fails
-/
namespace Verif.Libs

/-- What holds of the counts, outside the section: as in a run, or after a cleanup. -/
def Rest (s : State) : Prop :=
  (s.count = s.objs.card ∧ (s.up = true ↔ s.objs ≠ ∅)) ∨ (s.up = false ∧ s.count ≤ 0)

def Inside2 (s : State) : Pc → Prop
  | .dtorTest => (s.count = s.objs.card ∧ s.up = true) ∨ (s.up = false ∧ s.count < 0)
  | .dtorFinal => s.count = 0 ∧ s.objs = ∅ ∧ s.up = true
  | .cleanFinal => s.up = true
  | .cleanZero => s.up = false
  | _ => Rest s

/-- No object is being made. -/
def Pc.ending : Pc → Bool
  | .idle | .dtorWait _ | .dtorDecr _ | .dtorTest | .dtorFinal | .cleanWait | .cleanTest | .cleanFinal
  | .cleanZero => true
  | _ => false

structure Inv2 (s : State) : Prop where
  held : ∀ t, (s.pc t).crit = true ↔ s.lock = some t
  free : s.lock = none → Rest s
  inside : ∀ t, s.lock = some t → Inside2 s (s.pc t)
  ending : ∀ t, (s.pc t).ending = true
  dying : ∀ t o, (s.pc t).dying = some o → o ∈ s.objs
  once : ∀ t t' o, (s.pc t).dying = some o → (s.pc t').dying = some o → t = t'

/-- A cleanup by `t` has begun its section, or is over. -/
def Late (t : Nat) (s : State) : Prop :=
  s.pc t = .cleanTest ∨ s.pc t = .cleanFinal ∨ s.pc t = .cleanZero ∨ (s.up = false ∧ s.count ≤ 0)

/-- The end of a run: nothing is made or used any more. -/
def Ending (u : Uses) : Prop :=
  u.create = false ∧ u.copy = false ∧ u.use = false ∧ u.throw = false

theorem rest_card {s : State} (h : s.count = s.objs.card ∧ (s.up = true ↔ s.objs ≠ ∅)) :
    (0 < s.count → s.up = true) ∧ (s.count ≤ 0 → s.up = false) := by
  have h1 := h.1
  constructor
  · intro hp
    refine h.2.2 fun he => ?_
    rw [he, Finset.card_empty] at h1
    omega
  · intro hp
    cases hup : s.up with
    | false => rfl
    | true =>
      have := Finset.card_pos.2 (Finset.nonempty_iff_ne_empty.2 (h.2.1 hup))
      omega

theorem inv2_step {k : Kind} {u : Uses} (hk : k.locked = true) (hu : Ending u) {s s' : State}
    {t : Nat} {a : Act} (h : Inv2 s) (hf : Fair s t a) (ha : u.ok a) (hs : step k s t a = some s') :
    Inv2 s' ∧ (LogOk s → LogOk s') ∧ ∀ t0, Late t0 s → Late t0 s' := by
  have hpt : ∀ p, (s.at t p).pc t = p := fun p => if_pos rfl
  have hpi : ∀ p i, i ≠ t → (s.at t p).pc i = s.pc i := fun p i hi => if_neg hi
  have hheld := h.held t
  have hin := h.inside t
  -- what is kept when the thread gives up objects only
  have gen : (s'.pc t).ending = true → (∀ i, i ≠ t → s'.pc i = s.pc i) →
      (s'.lock = none ∨ s'.lock = some t) → ((s'.pc t).crit = true ↔ s'.lock = some t) →
      ((s.pc t).crit = true ∨ s.lock = none) →
      (∀ o, (s'.pc t).dying = some o → (s.pc t).dying = some o ∧ s'.objs = s.objs) →
      (∀ o, o ∈ s.objs → (o ∈ s'.objs ∨ (s.pc t).dying = some o)) →
      (s'.lock = none → Rest s') → (s'.lock = some t → Inside2 s' (s'.pc t)) → Inv2 s' := by
    intro he hi hl hcl hown hd hob h1 h2
    have D : ∀ i o, (s'.pc i).dying = some o → (s.pc i).dying = some o := by
      intro i o hx
      rcases Decidable.em (i = t) with rfl | hit
      · exact (hd o hx).1
      · rwa [hi i hit] at hx
    refine ⟨?_, h1, ?_, ?_, ?_, ?_⟩
    · intro i
      rcases Decidable.em (i = t) with rfl | hit
      · exact hcl
      · rw [hi i hit]
        constructor
        · intro hx
          have hx' := (h.held i).1 hx
          rcases hown with hown | hown
          · rw [hheld.1 hown] at hx'; cases hx'; exact absurd rfl hit
          · rw [hown] at hx'; cases hx'
        · intro hx
          rcases hl with hl | hl <;> rw [hl] at hx <;> cases hx
          exact absurd rfl hit
    · intro i hx
      rcases hl with hl | hl <;> rw [hl] at hx <;> cases hx
      exact h2 hl
    · intro i
      rcases Decidable.em (i = t) with rfl | hit
      · exact he
      · rw [hi i hit]; exact h.ending i
    · intro i o hx
      rcases hob o (h.dying i o (D i o hx)) with hy | hy
      · exact hy
      · have := h.once i t o (D i o hx) hy
        subst this
        rw [(hd o hx).2]
        exact h.dying i o (D i o hx)
    · exact fun i j o hx hy => h.once i j o (D i o hx) (D j o hy)
  -- steps that leave the counts alone and are not those of a cleanup's section
  have late : ∀ t0, s'.up = s.up → s'.count = s.count →
      (∀ i, i ≠ t → s'.pc i = s.pc i) →
      (s.pc t ≠ .cleanTest ∧ s.pc t ≠ .cleanFinal ∧ s.pc t ≠ .cleanZero) → Late t0 s → Late t0 s' := by
    intro t0 h1 h2 h3 ⟨h4, h5, h6⟩ hL
    unfold Late at *
    rw [h1, h2]
    rcases Decidable.em (t0 = t) with rfl | hit
    · rcases hL with hL | hL | hL | hL
      · exact absurd hL h4
      · exact absurd hL h5
      · exact absurd hL h6
      · exact Or.inr (Or.inr (Or.inr hL))
    · rw [h3 t0 hit]; exact hL
  have ent : ∀ p, (s.pc t).crit = false → p.crit = true → p.ending = true → p.dying = (s.pc t).dying →
      (Rest s → Inside2 { s.at t p with lock := some t } p) →
      (s.pc t ≠ .cleanTest ∧ s.pc t ≠ .cleanFinal ∧ s.pc t ≠ .cleanZero) →
      enter k s t p = some s' → Inv2 s' ∧ (LogOk s → LogOk s') ∧ ∀ t0, Late t0 s → Late t0 s' := by
    intro p hc hp he hd hI hne hs
    unfold enter at hs
    rw [if_pos hk] at hs
    split_ifs at hs with hl
    cases hs
    have hq : ({ s.at t p with lock := some t } : State).pc t = p := if_pos rfl
    refine ⟨gen (by rw [hq]; exact he) (hpi p) (Or.inr rfl)
      (by rw [hq, hp]; exact ⟨fun _ => rfl, fun _ => rfl⟩) (Or.inr hl)
      (fun o ho => by rw [hq, hd] at ho; exact ⟨ho, rfl⟩) (fun o ho => Or.inl ho) (fun hx => nomatch hx)
      (fun _ => by rw [hq]; exact hI (h.free hl)), fun hl => logOk_same hl rfl rfl, ?_⟩
    exact fun t0 => late t0 rfl rfl (hpi p) hne
  unfold step at hs
  cases hp : s.pc t with
  | idle =>
    have hc : (s.pc t).crit = false := by rw [hp]; rfl
    rw [hp] at hs
    have key : ∀ p, p.crit = false → p.ending = true →
        (∀ o, p.dying = some o → o ∈ s.objs ∧ ∀ i, (s.pc i).dying ≠ some o) → s' = s.at t p →
        Inv2 s' ∧ (LogOk s → LogOk s') ∧ ∀ t0, Late t0 s → Late t0 s' := by
      intro p hpc hpe hpd he
      subst he
      refine ⟨⟨?_, h.free, ?_, ?_, ?_, ?_⟩, fun hl => logOk_same hl rfl rfl,
        fun t0 => late t0 rfl rfl (hpi p) (by rw [hp]; simp)⟩
      · intro i
        rcases Decidable.em (i = t) with rfl | hit
        · rw [hpt, hpc, ← hc]; exact h.held i
        · rw [hpi p i hit]; exact h.held i
      · intro i hi
        have hit : i ≠ t := by
          rintro rfl
          rw [(h.held i).2 hi] at hc; cases hc
        rw [hpi p i hit]
        exact h.inside i hi
      · intro i
        rcases Decidable.em (i = t) with rfl | hit
        · rw [hpt]; exact hpe
        · rw [hpi p i hit]; exact h.ending i
      · intro i o hi
        rcases Decidable.em (i = t) with rfl | hit
        · rw [hpt] at hi; exact (hpd o hi).1
        · rw [hpi p i hit] at hi; exact h.dying i o hi
      · intro i j o hi hj
        rcases Decidable.em (i = t) with hit | hit <;> rcases Decidable.em (j = t) with hjt | hjt
        · exact hit.trans hjt.symm
        · rw [hit, hpt] at hi; rw [hpi p j hjt] at hj; exact absurd hj ((hpd o hi).2 j)
        · rw [hjt, hpt] at hj; rw [hpi p i hit] at hi; exact absurd hi ((hpd o hj).2 i)
        · rw [hpi p i hit] at hi; rw [hpi p j hjt] at hj; exact h.once i j o hi hj
    cases a with
    | create o => have ha' : u.create = true := ha; rw [hu.1] at ha'; cases ha'
    | copy src o => have ha' : u.copy = true := ha; rw [hu.2.1] at ha'; cases ha'
    | use o => have ha' : u.use = true := ha; rw [hu.2.2.1] at ha'; cases ha'
    | destroy o =>
      cases hs
      exact key _ rfl rfl (fun o' ho => by cases ho; exact ⟨hf.1, hf.2.1⟩) rfl
    | cleanup =>
      cases hs
      exact key _ rfl rfl (fun o' ho => by cases ho) rfl
    | go => cases hs
    | throw => cases hs
  | ctorWait o => have := h.ending t; rw [hp] at this; cases this
  | ctorTest o => have := h.ending t; rw [hp] at this; cases this
  | ctorInit o => have := h.ending t; rw [hp] at this; cases this
  | ctorIncr o => have := h.ending t; rw [hp] at this; cases this
  | copyWait src o => have := h.ending t; rw [hp] at this; cases this
  | copyIncr src o => have := h.ending t; rw [hp] at this; cases this
  | dtorWait o =>
    rw [hp] at hs
    cases a <;> try (cases hs; done)
    exact ent (.dtorDecr o) (by rw [hp]; rfl) rfl rfl (by rw [hp]; rfl) (fun x => x) (by rw [hp]; simp) hs
  | cleanWait =>
    rw [hp] at hs
    cases a <;> try (cases hs; done)
    exact ent .cleanTest (by rw [hp]; rfl) rfl rfl (by rw [hp]; rfl) (fun x => x) (by rw [hp]; simp) hs
  | dtorDecr o =>
    have hc : (s.pc t).crit = true := by rw [hp]; rfl
    have hlt := hheld.1 hc
    have hI := hin hlt
    have hold : o ∈ s.objs := h.dying t o (by rw [hp]; rfl)
    rw [hp] at hs hI
    cases a <;> try (cases hs; done)
    cases hs
    have hq : ∀ c b, ({ s.at t .dtorTest with count := c, objs := b } : State).pc t = .dtorTest :=
      fun _ _ => if_pos rfl
    refine ⟨gen (by rw [hq]; rfl) (hpi _) (Or.inr hlt)
      (by rw [hq]; exact ⟨fun _ => hlt, fun _ => rfl⟩) (Or.inl hc)
      (fun o' ho => by rw [hq] at ho; cases ho) ?_ (fun hx => nomatch (hlt.symm.trans hx)) ?_,
      fun hl => logOk_same hl rfl rfl, ?_⟩
    · intro o' ho
      rcases Decidable.em (o' = o) with rfl | hne
      · exact Or.inr (by rw [hp]; rfl)
      · exact Or.inl (Finset.mem_erase.2 ⟨hne, ho⟩)
    · intro _
      rw [hq]
      rcases hI with ⟨h1, h2⟩ | ⟨h1, h2⟩
      · refine Or.inl ⟨?_, h2.2 (Finset.ne_empty_of_mem hold)⟩
        show s.count - 1 = ((s.objs.erase o).card : Int)
        have h3 := Finset.card_erase_of_mem hold
        have h4 := Finset.card_pos.2 ⟨o, hold⟩
        omega
      · refine Or.inr ⟨h1, ?_⟩
        show s.count - 1 < 0
        omega
    · intro t0 hL
      unfold Late at *
      rcases Decidable.em (t0 = t) with rfl | hit
      · rw [hp] at hL
        rcases hL with hL | hL | hL | hL
        · cases hL
        · cases hL
        · cases hL
        · refine Or.inr (Or.inr (Or.inr ⟨hL.1, ?_⟩))
          show s.count - 1 ≤ 0
          omega
      · rcases hL with hL | hL | hL | hL
        · exact Or.inl ((hpi _ t0 hit).trans hL)
        · exact Or.inr (Or.inl ((hpi _ t0 hit).trans hL))
        · exact Or.inr (Or.inr (Or.inl ((hpi _ t0 hit).trans hL)))
        · refine Or.inr (Or.inr (Or.inr ⟨hL.1, ?_⟩))
          show s.count - 1 ≤ 0
          omega
  | dtorTest =>
    have hc : (s.pc t).crit = true := by rw [hp]; rfl
    have hlt := hheld.1 hc
    have hI := hin hlt
    rw [hp] at hs hI
    cases a <;> try (cases hs; done)
    dsimp only at hs
    by_cases h0 : s.count = 0
    · rw [if_pos h0] at hs
      cases hs
      refine ⟨gen (by rw [hpt]; rfl) (hpi _) (Or.inr hlt)
        (by rw [hpt]; exact ⟨fun _ => hlt, fun _ => rfl⟩) (Or.inl hc)
        (fun o' ho => by rw [hpt] at ho; cases ho) (fun o ho => Or.inl ho)
        (fun hx => nomatch (hlt.symm.trans hx)) ?_, fun hl => logOk_same hl rfl rfl,
        fun t0 => late t0 rfl rfl (hpi _) (by rw [hp]; simp)⟩
      intro _
      rw [hpt]
      rcases hI with ⟨h1, h2⟩ | ⟨h1, h2⟩
      · exact ⟨h0, (card_zero h1).1 h0, h2⟩
      · omega
    · rw [if_neg h0] at hs
      cases hs
      have hq : (leave s t).pc t = .idle := if_pos rfl
      refine ⟨gen (by rw [hq]; rfl) (hpi _) (Or.inl rfl)
        (by rw [hq]; exact ⟨fun hx => (nomatch hx), fun hx => nomatch hx⟩) (Or.inl hc)
        (fun o' ho => by rw [hq] at ho; cases ho) (fun o ho => Or.inl ho) ?_ (fun hx => nomatch hx),
        fun hl => logOk_same hl rfl rfl,
        fun t0 => late t0 rfl rfl (hpi _) (by rw [hp]; simp)⟩
      intro _
      rcases hI with ⟨h1, h2⟩ | ⟨h1, h2⟩
      · exact Or.inl ⟨h1, ⟨fun _ he => h0 ((card_zero h1).2 he), fun _ => h2⟩⟩
      · exact Or.inr ⟨h1, by show s.count ≤ 0; omega⟩
  | dtorFinal =>
    have hc : (s.pc t).crit = true := by rw [hp]; rfl
    have hlt := hheld.1 hc
    have hI := hin hlt
    rw [hp] at hs hI
    obtain ⟨i1, i2, i3⟩ := hI
    cases a <;> try (cases hs; done)
    cases hs
    have hq : ({ leave s t with up := false, log := .final :: s.log } : State).pc t = .idle := if_pos rfl
    refine ⟨gen (by rw [hq]; rfl) (hpi _) (Or.inl rfl)
        (by rw [hq]; exact ⟨fun hx => (nomatch hx), fun hx => nomatch hx⟩) (Or.inl hc)
        (fun o' ho => by rw [hq] at ho; cases ho) (fun o ho => Or.inl ho) ?_ (fun hx => nomatch hx),
        fun hl => logOk_final hl i3 rfl rfl, fun t0 _ => Or.inr (Or.inr (Or.inr ⟨rfl, ?_⟩))⟩
    · exact fun _ => Or.inr ⟨rfl, by show s.count ≤ 0; omega⟩
    · show s.count ≤ 0
      omega
  | cleanTest =>
    have hc : (s.pc t).crit = true := by rw [hp]; rfl
    have hlt := hheld.1 hc
    have hI := hin hlt
    rw [hp] at hs hI
    cases a <;> try (cases hs; done)
    dsimp only at hs
    have hcl : cleans k s.count = decide (0 < s.count) := by unfold cleans; rw [if_pos hk]
    rw [hcl] at hs
    by_cases h0 : 0 < s.count
    · rw [if_pos (decide_eq_true h0)] at hs
      cases hs
      refine ⟨gen (by rw [hpt]; rfl) (hpi _) (Or.inr hlt)
        (by rw [hpt]; exact ⟨fun _ => hlt, fun _ => rfl⟩) (Or.inl hc)
        (fun o' ho => by rw [hpt] at ho; cases ho) (fun o ho => Or.inl ho)
        (fun hx => nomatch (hlt.symm.trans hx)) ?_, fun hl => logOk_same hl rfl rfl, ?_⟩
      · intro _
        rw [hpt]
        rcases hI with hI | ⟨h1, h2⟩
        · exact (rest_card hI).1 h0
        · omega
      · intro t0 hL
        rcases Decidable.em (t0 = t) with rfl | hit
        · exact Or.inr (Or.inl (hpt _))
        · unfold Late at *
          rw [hpi _ t0 hit]; exact hL
    · rw [if_neg (by simpa using h0)] at hs
      cases hs
      have hq : (leave s t).pc t = .idle := if_pos rfl
      have hup : s.up = false := by
        rcases hI with hI | ⟨h1, _⟩
        · exact (rest_card hI).2 (by omega)
        · exact h1
      refine ⟨gen (by rw [hq]; rfl) (hpi _) (Or.inl rfl)
        (by rw [hq]; exact ⟨fun hx => (nomatch hx), fun hx => nomatch hx⟩) (Or.inl hc)
        (fun o' ho => by rw [hq] at ho; cases ho) (fun o ho => Or.inl ho) (fun _ => hI) (fun hx => nomatch hx),
        fun hl => logOk_same hl rfl rfl, fun t0 _ => Or.inr (Or.inr (Or.inr ⟨hup, ?_⟩))⟩
      show s.count ≤ 0
      omega
  | cleanFinal =>
    have hc : (s.pc t).crit = true := by rw [hp]; rfl
    have hlt := hheld.1 hc
    have hI : s.up = true := by have := hin hlt; rw [hp] at this; exact this
    rw [hp] at hs
    cases a <;> try (cases hs; done)
    cases hs
    have hq : ({ s.at t .cleanZero with up := false, log := .final :: s.log } : State).pc t = .cleanZero := if_pos rfl
    refine ⟨gen (by rw [hq]; rfl) (hpi _) (Or.inr hlt)
        (by rw [hq]; exact ⟨fun _ => hlt, fun _ => rfl⟩) (Or.inl hc)
        (fun o' ho => by rw [hq] at ho; cases ho) (fun o ho => Or.inl ho)
        (fun hx => nomatch (hlt.symm.trans hx)) (fun _ => by rw [hq]; exact rfl),
        fun hl => logOk_final hl hI rfl rfl, ?_⟩
    intro t0 hL
    rcases Decidable.em (t0 = t) with rfl | hit
    · exact Or.inr (Or.inr (Or.inl hq))
    · unfold Late at *
      rcases hL with hL | hL | hL | hL
      · exact Or.inl ((hpi _ t0 hit).trans hL)
      · exact Or.inr (Or.inl ((hpi _ t0 hit).trans hL))
      · exact Or.inr (Or.inr (Or.inl ((hpi _ t0 hit).trans hL)))
      · rw [hI] at hL; cases hL.1
  | cleanZero =>
    have hc : (s.pc t).crit = true := by rw [hp]; rfl
    have hlt := hheld.1 hc
    have hI : s.up = false := by have := hin hlt; rw [hp] at this; exact this
    rw [hp] at hs
    cases a <;> try (cases hs; done)
    cases hs
    have hq : (leave { s with count := 0 } t).pc t = .idle := if_pos rfl
    refine ⟨gen (by rw [hq]; rfl) (hpi _) (Or.inl rfl)
        (by rw [hq]; exact ⟨fun hx => (nomatch hx), fun hx => nomatch hx⟩) (Or.inl hc)
        (fun o' ho => by rw [hq] at ho; cases ho) (fun o ho => Or.inl ho)
        (fun _ => Or.inr ⟨hI, Int.le_refl 0⟩) (fun hx => nomatch hx),
        fun hl => logOk_same hl rfl rfl, fun t0 _ => Or.inr (Or.inr (Or.inr ⟨hI, Int.le_refl 0⟩))⟩

instance (s : State) : Decidable (Good s) := by unfold Good; infer_instance

theorem inv2_of {k : Kind} {u : Uses} (hk : k.locked = true) (hu : Plain k u) {s : State}
    (h : Reach k u start s) (hq : ∀ t, (s.pc t).ending = true) : Inv2 s := by
  obtain ⟨hi, -⟩ := reach_inv hk hu h
  refine ⟨hi.held, fun hl => Or.inl (hi.free hl), ?_, hq, hi.dying, hi.once⟩
  intro t ht
  have h1 := hi.inside t ht
  have h2 := hq t
  have h3 := (hi.held t).2 ht
  cases hp : s.pc t with
  | idle => rw [hp] at h3; cases h3
  | ctorWait o => rw [hp] at h2; cases h2
  | ctorTest o => rw [hp] at h2; cases h2
  | ctorInit o => rw [hp] at h2; cases h2
  | ctorIncr o => rw [hp] at h2; cases h2
  | copyWait src o => rw [hp] at h2; cases h2
  | copyIncr src o => rw [hp] at h2; cases h2
  | dtorWait o => rw [hp] at h3; cases h3
  | dtorDecr o => rw [hp] at h1; exact Or.inl h1
  | dtorTest => rw [hp] at h1; exact Or.inl h1
  | dtorFinal =>
    rw [hp] at h1
    obtain ⟨a, b, c⟩ := h1
    exact ⟨by rw [a, b]; rfl, b, c⟩
  | cleanWait => exact absurd hp (hi.noclean t)
  | cleanTest => rw [hp] at h1; exact h1.elim
  | cleanFinal => rw [hp] at h1; exact h1.elim
  | cleanZero => rw [hp] at h1; exact h1.elim

theorem end_inv {k : Kind} {u : Uses} (hk : k.locked = true) (hu : Ending u) {s s' : State}
    (h : Reach k u s s') (hi : Inv2 s) : Inv2 s' ∧ (LogOk s → LogOk s') ∧ ∀ t, Late t s → Late t s' := by
  induction h with
  | refl => exact ⟨hi, id, fun _ => id⟩
  | step t a _ hf ha hs ih =>
    obtain ⟨h1, h2, h3⟩ := inv2_step hk hu ih.1 hf ha hs
    exact ⟨h1, h2 ∘ ih.2.1, fun t0 hL => h3 t0 (ih.2.2 t0 hL)⟩

/-- **C86, the end.**  When a run is followed by any number of cleanups and destructors, in any order
and on any threads, the library is still finalised only when it is up, so once; and once a cleanup
has looked at the count and everything has come to rest, the library is down. -/
theorem C86_cleanup_partial (k : Kind) (hk : k.locked = true) (u v : Uses) (hu : Plain k u) (hv : Ending v)
    (s s1 s2 : State) (h : Reach k u start s) (hq : ∀ t, (s.pc t).ending = true) (h1 : Reach k v s s1)
    (h2 : Reach k v s1 s2) :
    Good s2 ∧ ((∃ t, s1.pc t = .cleanTest) → (∀ t, s2.pc t = .idle) → s2.up = false)
      ∧ ((∀ t, s2.pc t = .idle) → s2.objs = ∅ → s2.up = false) := by
  obtain ⟨a1, a2, -⟩ := end_inv hk hv h1 (inv2_of hk hu h hq)
  obtain ⟨b1, b2, b3⟩ := end_inv hk hv h2 a1
  refine ⟨(b2 (a2 (reach_inv hk hu h).2)).1, ?_, ?_⟩
  · rintro ⟨t, ht⟩ hidle
    rcases b3 t (Or.inl ht) with hx | hx | hx | hx
    · rw [hidle t] at hx; cases hx
    · rw [hidle t] at hx; cases hx
    · rw [hidle t] at hx; cases hx
    · exact hx.1
  · intro hidle he
    have hlk : s2.lock = none := by
      cases hl : s2.lock with
      | none => rfl
      | some i =>
        have := (b1.held i).2 hl
        rw [hidle i] at this; cases this
    rcases b1.free hlk with hx | hx
    · cases hup : s2.up with
      | false => rfl
      | true => exact absurd he (hx.2.1 hup)
    · exact hx.1

/-! ## Runs -/

/-- A check that the program keeps its side, looking at the first `n` threads. -/
def fairB (s : State) (n t : Nat) : Act → Bool
  | .create o => decide (o ∉ s.objs) && (List.range n).all fun i => decide ((s.pc i).making ≠ some o)
  | .copy src o => decide (src ∈ s.objs) && decide (o ∉ s.objs)
      && ((List.range n).all fun i => decide ((s.pc i).dying ≠ some src))
      && (List.range n).all fun i => decide ((s.pc i).making ≠ some o)
  | .destroy o => decide (o ∈ s.objs) && ((List.range n).all fun i => decide ((s.pc i).dying ≠ some o))
      && (List.range n).all fun i => decide ((s.pc i).source ≠ some o)
  | .use o => decide (o ∈ s.objs) && (List.range n).all fun i => decide ((s.pc i).dying ≠ some o)
  | .cleanup => true
  | .go => decide (s.pc t ≠ .idle)
  | .throw => true

/-- Run a schedule of the first `n` threads. -/
def runs (k : Kind) (u : Uses) (n : Nat) : List (Nat × Act) → State → Option State
  | [], s => some s
  | (t, a) :: l, s =>
    if decide (t < n) && fairB s n t a && decide (u.ok a) then
      match step k s t a with
      | some s' => runs k u n l s'
      | none => none
    else none

theorem step_other {k : Kind} {s s' : State} {t : Nat} {a : Act} (h : step k s t a = some s') (i : Nat)
    (hi : i ≠ t) : s'.pc i = s.pc i := by
  have hat : ∀ p, (s.at t p).pc i = s.pc i := fun p => if_neg hi
  have hle : (leave s t).pc i = s.pc i := if_neg hi
  unfold step enter at h
  split at h <;> (try split_ifs at h) <;> cases h <;>
    first | rfl | exact hat _ | exact hle | skip
  all_goals first
    | (split_ifs <;> first | exact hat _ | exact hle | rfl)
    | exact if_neg hi

theorem runs_reach (k : Kind) (u : Uses) (n : Nat) (s0 : State) : ∀ (l : List (Nat × Act)) (s s' : State),
    (∀ i, n ≤ i → s.pc i = .idle) → runs k u n l s = some s' → Reach k u s0 s → Reach k u s0 s'
  | [], s, s', _, h, hr => by cases h; exact hr
  | (t, a) :: l, s, s', hid, h, hr => by
    unfold runs at h
    split_ifs at h with hc
    simp only [Bool.and_eq_true, decide_eq_true_eq] at hc
    obtain ⟨⟨ht, hf⟩, ha⟩ := hc
    cases hs : step k s t a with
    | none => rw [hs] at h; cases h
    | some s1 =>
      rw [hs] at h
      have lift : ∀ (f : Pc → Option Nat) (o : Nat), f .idle = none →
          ((List.range n).all fun i => decide (f (s.pc i) ≠ some o)) = true → ∀ i, f (s.pc i) ≠ some o := by
        intro f o hf0 hall i
        rcases Nat.lt_or_ge i n with hi | hi
        · exact of_decide_eq_true (List.all_eq_true.1 hall i (List.mem_range.2 hi))
        · rw [hid i hi, hf0]; simp
      refine runs_reach k u n s0 l s1 s' ?_ h (.step t a hr ?_ ha hs)
      · intro i hi
        rw [step_other hs i (by omega)]
        exact hid i hi
      · cases a with
        | create o =>
          simp only [fairB, Bool.and_eq_true, decide_eq_true_eq] at hf
          exact ⟨hf.1, lift Pc.making o rfl hf.2⟩
        | copy src o =>
          simp only [fairB, Bool.and_eq_true, decide_eq_true_eq] at hf
          exact ⟨hf.1.1.1, hf.1.1.2, lift Pc.dying src rfl hf.1.2, lift Pc.making o rfl hf.2⟩
        | destroy o =>
          simp only [fairB, Bool.and_eq_true, decide_eq_true_eq] at hf
          exact ⟨hf.1.1, lift Pc.dying o rfl hf.1.2, lift Pc.source o rfl hf.2⟩
        | use o =>
          simp only [fairB, Bool.and_eq_true, decide_eq_true_eq] at hf
          exact ⟨hf.1, lift Pc.dying o rfl hf.2⟩
        | cleanup => trivial
        | go =>
          have hg : s.pc t ≠ .idle := of_decide_eq_true hf
          exact hg
        | throw => trivial

/-- The calls of one thread, from begin to end. -/
def mk (t o : Nat) : List (Nat × Act) := [(t, .create o), (t, .go), (t, .go), (t, .go), (t, .go)]
def mkMore (t o : Nat) : List (Nat × Act) := [(t, .create o), (t, .go), (t, .go), (t, .go)]
def del (t o : Nat) : List (Nat × Act) := [(t, .destroy o), (t, .go), (t, .go), (t, .go)]
def delLast (t o : Nat) : List (Nat × Act) := [(t, .destroy o), (t, .go), (t, .go), (t, .go), (t, .go)]
def clean (t : Nat) : List (Nat × Act) := [(t, .cleanup), (t, .go), (t, .go), (t, .go), (t, .go)]

def anyUse : Uses := ⟨true, true, true, true, true⟩
def plainUse : Uses := ⟨true, false, true, false, false⟩
def copyUse : Uses := ⟨true, true, true, false, false⟩

/-- A run ends in a state like this. -/
def ends (k : Kind) (u : Uses) (n : Nat) (l : List (Nat × Act)) (P : State → Prop) [DecidablePred P] : Bool :=
  match runs k u n l start with
  | none => false
  | some s => decide (P s)

/-- A reachable state of a run, with what is seen of it. -/
theorem seen {k : Kind} {u : Uses} {n : Nat} {l : List (Nat × Act)} {P : State → Prop}
    [DecidablePred P] (h : ends k u n l P = true) : ∃ s, Reach k u start s ∧ P s := by
  unfold ends at h
  cases hs : runs k u n l start with
  | none => rw [hs] at h; cases h
  | some s =>
    rw [hs] at h
    exact ⟨s, runs_reach k u n start l start s (fun _ _ => rfl) hs .refl, of_decide_eq_true h⟩

/-! ## Where the claim fails -/

/-- **Finding.**  `cleanup` sets the count to zero "to ensure that finalise is not called again later":
an object made after a cleanup initialises the library again, and the destruction of one made before
then finalises it although the new one exists and is used. -/
theorem C86_cleanup_violated : ∃ s, Reach hypre anyUse start s ∧ 2 ∈ s.objs ∧ s.up = false ∧ ¬ Good s :=
  seen (n := 1) (l := mk 0 1 ++ clean 0 ++ mk 0 2 ++ delLast 0 1 ++ [(0, .use 2)])
    (P := fun s => 2 ∈ s.objs ∧ s.up = false ∧ ¬ Good s) (by decide +kernel)

/-- **Finding.**  After a cleanup and the destruction of one object the count is -1: the next object
does not initialise the library. -/
theorem C86_negative_violated : ∃ s, Reach petsc anyUse start s ∧ 2 ∈ s.objs ∧ s.count = 0 ∧ ¬ Good s :=
  seen (n := 1) (l := mk 0 1 ++ clean 0 ++ del 0 1 ++ mkMore 0 2 ++ [(0, .use 2)])
    (P := fun s => 2 ∈ s.objs ∧ s.count = 0 ∧ ¬ Good s) (by decide +kernel)

/-- **Finding.**  A `PetscLib` (or `SlepcLib`) can be copied, but copies are not counted: PETSc is
finalised while the copy exists. -/
theorem C86_copy_violated : ∃ s, Reach petsc copyUse start s ∧ 2 ∈ s.objs ∧ s.up = false ∧ ¬ Good s :=
  seen (n := 1) (l := mk 0 1 ++ [(0, .copy 1 2)] ++ delLast 0 1 ++ [(0, .use 2)])
    (P := fun s => 2 ∈ s.objs ∧ s.up = false ∧ ¬ Good s) (by decide +kernel)

/-- **Finding.**  When the first `PetscLib` refuses its own options, PETSc has been initialised but no
object is counted: the next one initialises it again. -/
theorem C86_options_violated : ∃ s, Reach petsc anyUse start s ∧ s.log = [.init, .init] ∧ ¬ Good s :=
  seen (n := 1) (l := [(0, .create 1), (0, .go), (0, .go), (0, .go), (0, .throw)] ++ mk 0 1)
    (P := fun s => s.log = [.init, .init] ∧ ¬ Good s) (by decide +kernel)

/-- **Finding.**  `SlepcLib` has no critical section: two threads making the first two objects
initialise SLEPc twice. -/
theorem C86_slepc_violated : ∃ s, Reach slepc plainUse start s ∧ s.log = [.init, .init] ∧ ¬ Good s :=
  seen (n := 2) (l := [(0, .create 1), (1, .create 2), (0, .go), (0, .go), (1, .go), (1, .go), (0, .go), (1, .go)])
    (P := fun s => s.log = [.init, .init] ∧ ¬ Good s) (by decide +kernel)

/-! ## The hypotheses are met -/

/-- Two threads of `HypreLib`, one copying the object of the other. -/
theorem exRun : ∃ s, Reach hypre copyUse start s ∧ s.objs = {1, 3} ∧ s.up = true ∧ s.log = [.use, .use, .init] :=
  seen (n := 2) (l := [(0, .create 1), (1, .create 2), (0, .go), (0, .go), (0, .go), (0, .go), (0, .use 1),
      (1, .go), (1, .go), (1, .go), (1, .copy 2 3), (1, .go), (1, .go), (1, .use 3), (0, .destroy 2), (0, .go),
      (0, .go), (0, .go)])
    (P := fun s => s.objs = {1, 3} ∧ s.up = true ∧ s.log = [.use, .use, .init]) (by decide +kernel)

example : ∃ s, Good s ∧ s.objs = {1, 3} := by
  obtain ⟨s, h1, h2, _, _⟩ := exRun
  exact ⟨s, (C86_lifetime_partial hypre rfl copyUse ⟨rfl, (fun h => nomatch h), fun _ => rfl⟩ s h1).1, h2⟩

/-- A thread waits while another is in the section. -/
example : ∃ s, Reach petsc plainUse start s ∧ s.pc 1 = .ctorWait 2 ∧ s.lock = some 0
    ∧ (step petsc s 1 .go).isNone = true :=
  seen (n := 2) (l := [(0, .create 1), (1, .create 2), (0, .go)])
    (P := fun s => s.pc 1 = .ctorWait 2 ∧ s.lock = some 0 ∧ (step petsc s 1 .go).isNone = true)
    (by decide +kernel)

def exEnd : Uses := ⟨false, false, false, true, false⟩

theorem runs_idle (k : Kind) (u : Uses) (n : Nat) : ∀ (l : List (Nat × Act)) (s s' : State),
    (∀ i, n ≤ i → s.pc i = .idle) → runs k u n l s = some s' → ∀ i, n ≤ i → s'.pc i = .idle
  | [], s, s', hid, h => by cases h; exact hid
  | (t, a) :: l, s, s', hid, h => by
    unfold runs at h
    split_ifs at h with hc
    simp only [Bool.and_eq_true, decide_eq_true_eq] at hc
    cases hs : step k s t a with
    | none => rw [hs] at h; cases h
    | some s1 =>
      rw [hs] at h
      refine runs_idle k u n l s1 s' (fun i hi => ?_) h
      rw [step_other hs i (by omega)]
      exact hid i hi

/-- Three parts of a run, checked: the first ends without anything being made, a cleanup of thread 0
is in its section after the second, and all is at rest after the third. -/
def threeParts (k : Kind) (n : Nat) (l0 l1 l2 : List (Nat × Act)) (P : State → Bool) : Bool :=
  match runs k plainUse n l0 start with
  | none => false
  | some s => ((List.range n).all fun i => (s.pc i).ending) && match runs k exEnd n l1 s with
    | none => false
    | some s1 => decide (s1.pc 0 = .cleanTest) && match runs k exEnd n l2 s1 with
      | none => false
      | some s2 => ((List.range n).all fun i => decide (s2.pc i = .idle)) && P s2

theorem three_spec {k : Kind} {n : Nat} {l0 l1 l2 : List (Nat × Act)} {P : State → Bool}
    (h : threeParts k n l0 l1 l2 P = true) : ∃ s s1 s2, Reach k plainUse start s
      ∧ (∀ t, (s.pc t).ending = true) ∧ Reach k exEnd s s1 ∧ s1.pc 0 = .cleanTest ∧ Reach k exEnd s1 s2
      ∧ (∀ t, s2.pc t = .idle) ∧ P s2 = true := by
  unfold threeParts at h
  cases h0 : runs k plainUse n l0 start with
  | none => rw [h0] at h; cases h
  | some s =>
    rw [h0] at h
    simp only [Bool.and_eq_true] at h
    obtain ⟨ha, h⟩ := h
    cases h1 : runs k exEnd n l1 s with
    | none => rw [h1] at h; cases h
    | some s1 =>
      rw [h1] at h
      simp only [Bool.and_eq_true, decide_eq_true_eq] at h
      obtain ⟨hb, h⟩ := h
      cases h2 : runs k exEnd n l2 s1 with
      | none => rw [h2] at h; cases h
      | some s2 =>
        rw [h2] at h
        simp only [Bool.and_eq_true] at h
        obtain ⟨hc, hp⟩ := h
        have i0 := runs_idle k plainUse n l0 start s (fun _ _ => rfl) h0
        have i1 := runs_idle k exEnd n l1 s s1 i0 h1
        have i2 := runs_idle k exEnd n l2 s1 s2 i1 h2
        refine ⟨s, s1, s2, runs_reach k _ n start l0 start s (fun _ _ => rfl) h0 .refl, fun t => ?_,
          runs_reach k _ n s l1 s s1 i0 h1 .refl, hb, runs_reach k _ n s1 l2 s1 s2 i1 h2 .refl, fun t => ?_, hp⟩
        · rcases Nat.lt_or_ge t n with ht | ht
          · exact List.all_eq_true.1 ha t (List.mem_range.2 ht)
          · rw [i0 t ht]; rfl
        · rcases Nat.lt_or_ge t n with ht | ht
          · exact of_decide_eq_true (List.all_eq_true.1 hc t (List.mem_range.2 ht))
          · exact i2 t ht

/-- Cleanup by one thread with an object left, which another was about to destroy and destroys later. -/
theorem exCleanup : ∃ s s1 s2, Reach petsc plainUse start s ∧ (∀ t, (s.pc t).ending = true)
    ∧ Reach petsc exEnd s s1 ∧ s1.pc 0 = .cleanTest ∧ Reach petsc exEnd s1 s2 ∧ (∀ t, s2.pc t = .idle)
    ∧ (decide (s2.objs = ∅) && decide (s2.log = [.final, .use, .init])) = true :=
  three_spec (k := petsc) (n := 2) (l0 := mk 0 1 ++ [(0, .use 1)])
  (l1 := [(1, .destroy 1), (0, .cleanup), (0, .go)])
  (l2 := [(0, .go), (0, .go), (0, .go), (1, .go), (1, .go), (1, .go)])
  (P := fun s => decide (s.objs = ∅) && decide (s.log = [.final, .use, .init])) (by decide +kernel)

example : ∃ s2 : State, Good s2 ∧ s2.up = false ∧ s2.log = [.final, .use, .init] := by
  obtain ⟨s, s1, s2, h0, hq, h1, ht, h2, hi, hp⟩ := exCleanup
  obtain ⟨a, b, _⟩ := C86_cleanup_partial petsc rfl plainUse exEnd
    ⟨rfl, (fun h => nomatch h), fun h => nomatch h⟩ ⟨rfl, rfl, rfl, rfl⟩ s s1 s2 h0 hq h1 h2
  simp only [Bool.and_eq_true, decide_eq_true_eq] at hp
  exact ⟨s2, a, b ⟨0, ht⟩ hi, hp.2⟩

end Verif.Libs
