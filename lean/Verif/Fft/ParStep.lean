import Verif.Fft.ParInv

/-!
# The invariant is preserved by every step

Proof material for `C77`; nothing here is part of the specification.
-/

namespace Verif.Fft

variable {α β : Type} {tr : Tr α β} {norm : Nat → β → β} {N L : Nat}
  {calls : Nat → List (Nat → α)}

theorem upd_self (s : St α β) (t : Nat) (x : Th α β) : (s.upd t x).th t = x := by simp [St.upd]

theorem upd_ne (s : St α β) {t u : Nat} (x : Th α β) (h : u ≠ t) : (s.upd t x).th u = s.th u := by
  simp [St.upd, h]

theorem upd_g (s : St α β) (t : Nat) (x : Th α β) : (s.upd t x).g = s.g := rfl

/-- What a change of the shared state may not disturb for thread `u`. -/
structure Keeps (tr : Tr α β) (N L : Nat) (g g' : Shared α β) (u : Nat) : Prop where
  size : g.size = L → g'.size = L
  settled : Settled N L g → Settled N L g' ∧ g'.fin = g.fin ∧ g'.fout = g.fout
  sliceIn : Settled N L g → ∀ w f, w ≤ tr.inW L →
    Slice g.hin g.fin (u * tr.inW L) w f → Slice g'.hin g'.fin (u * tr.inW L) w f
  sliceOut : Settled N L g → ∀ f,
    Slice g.hout g.fout (u * tr.outW L) (tr.outW L) f →
      Slice g'.hout g'.fout (u * tr.outW L) (tr.outW L) f

theorem Keeps.refl (g : Shared α β) (u : Nat) : Keeps tr N L g g u :=
  ⟨id, fun h => ⟨h, rfl, rfl⟩, fun _ _ _ _ h => h, fun _ _ h => h⟩

theorem Keeps.of_unsettled {g g' : Shared α β} {u : Nat} (h : ¬ Settled N L g)
    (hs : g.size = L → g'.size = L) : Keeps tr N L g g' u :=
  ⟨hs, fun x => absurd x h, fun x => absurd x h, fun x => absurd x h⟩

theorem ThOK.keeps {g g' : Shared α β} {u : Nat} {x : Th α β} (k : Keeps tr N L g g' u)
    (h : ThOK tr norm N L g u x) : ThOK tr norm N L g' u x := by
  unfold ThOK at h ⊢
  cases hp : x.pc <;> rw [hp] at h <;> dsimp only at h ⊢ <;>
    first
    | exact h
    | exact ⟨h.1, k.size h.2⟩
    | exact ⟨h.1, (k.settled h.2).1⟩
    | skip
  · exact ⟨h.1, (k.settled h.2.1).1, (k.settled h.2.1).2.1 ▸ h.2.2⟩
  · exact ⟨h.1, (k.settled h.2.1).1, (k.settled h.2.1).2.1 ▸ h.2.2.1, h.2.2.2⟩
  · exact ⟨h.1, (k.settled h.2.1).1, (k.settled h.2.1).2.1 ▸ h.2.2.1, h.2.2.2.1,
      (k.settled h.2.1).2.2 ▸ h.2.2.2.2⟩
  · obtain ⟨h1, h2, h3, h4, h5, h6, inp, rest, h7, h8⟩ := h
    obtain ⟨k1, k2, k3⟩ := k.settled h1
    exact ⟨k1, by rw [k2, h2], h3, by rw [k3, h4], h5, h6, inp, rest, h7, k.sliceIn h1 _ _ h6 h8⟩
  · obtain ⟨h1, h4, h5, inp, rest, h7, h8⟩ := h
    obtain ⟨k1, k2, k3⟩ := k.settled h1
    exact ⟨k1, by rw [k3, h4], h5, inp, rest, h7, k.sliceIn h1 _ _ (Nat.le_refl _) h8⟩
  · obtain ⟨h1, h4, h5, h6, inp, rest, h7, h8⟩ := h
    obtain ⟨k1, k2, k3⟩ := k.settled h1
    exact ⟨k1, by rw [k3, h4], h5, by rw [h6]; simp [planFor, k2, k3], inp, rest, h7,
      k.sliceIn h1 _ _ (Nat.le_refl _) h8⟩
  · obtain ⟨h1, h4, h5, h6, inp, rest, h7, h8⟩ := h
    obtain ⟨k1, k2, k3⟩ := k.settled h1
    exact ⟨k1, by rw [k3, h4], h5, by rw [h6]; simp [planFor, k2, k3], inp, rest, h7, h8⟩
  · obtain ⟨h1, h4, h5, h6, inp, rest, h7, h8, h9⟩ := h
    obtain ⟨k1, k2, k3⟩ := k.settled h1
    exact ⟨k1, by rw [k3, h4], h5, h6, inp, rest, h7, k.sliceOut h1 _ h8, h9⟩

/-- A step outside the critical section: data may change, shapes and variables do not. -/
theorem inv_data {s : St α β} {t : Nat} (h : Inv tr norm N L calls s) (ht : t < N)
    (hi : Heap α) (ho : Heap β) (x : Th α β)
    (hsi : hi.shape = s.g.hin.shape) (hso : ho.shape = s.g.hout.shape)
    (hk : ∀ u < N, u ≠ t → Keeps tr N L s.g { s.g with hin := hi, hout := ho } u)
    (hc : isCrit (s.th t).pc = false) (hc' : isCrit x.pc = false)
    (hx : ThOK tr norm N L { s.g with hin := hi, hout := ho } t x)
    (hh : HistOK tr norm L (calls t) x) :
    Inv tr norm N L calls (({ s with g := { s.g with hin := hi, hout := ho } } : St α β).upd t x) := by
  have own1 : ∀ id n, Own s.g.hin id n → Own hi id n := fun id n e => hsi.trans e
  have own2 : ∀ id n, Own s.g.hout id n → Own ho id n := fun id n e => hso.trans e
  have dead1 : Dead s.g.hin → Dead hi := fun e => hsi.trans e
  have dead2 : Dead s.g.hout → Dead ho := fun e => hso.trans e
  have rdy : ∀ L' M, Ready tr s.g L' M → Ready tr { s.g with hin := hi, hout := ho } L' M :=
    fun L' M e => ⟨own1 _ _ e.1, own2 _ _ e.2.1, e.2.2.1, e.2.2.2⟩
  have cch : Cache tr s.g → Cache tr { s.g with hin := hi, hout := ho } := by
    rintro (⟨a, b, c, d⟩ | ⟨a, b⟩)
    · exact .inl ⟨a, dead1 b, dead2 c, d⟩
    · exact .inr ⟨a, rdy _ _ b⟩
  constructor
  · intro hl; exact cch (h.free hl)
  · intro v hv
    obtain ⟨hvN, hcr⟩ := h.held v hv
    have hne : v ≠ t := by
      rintro rfl
      rw [hcr.isCrit] at hc
      cases hc
    refine ⟨hvN, ?_⟩
    rw [upd_ne _ _ hne]
    dsimp only
    revert hcr
    generalize (s.th v).pc = pc
    intro hcr
    cases pc <;> first
      | exact absurd hcr id
      | exact cch hcr
      | exact ⟨cch hcr.1, hcr.2⟩
      | exact ⟨hcr.1, rdy _ _ hcr.2⟩
      | exact ⟨hcr.1, dead1 hcr.2.1, dead2 hcr.2.2.1, hcr.2.2.2⟩
      | exact ⟨hcr.1, own1 _ _ hcr.2.1, dead2 hcr.2.2.1, hcr.2.2.2⟩
      | exact ⟨hcr.1, own1 _ _ hcr.2.1, own2 _ _ hcr.2.2.1, hcr.2.2.2⟩
      | exact ⟨hcr.1, hcr.2.1.imp (own1 _), hcr.2.2.1.imp (own2 _), hcr.2.2.2⟩
      | exact ⟨hcr.1, dead1 hcr.2.1, hcr.2.2.1.imp (own2 _), hcr.2.2.2⟩
  · intro u hu hcu
    by_cases e : u = t
    · subst e; rw [upd_self] at hcu; rw [hc'] at hcu; cases hcu
    · rw [upd_ne _ _ e] at hcu; exact h.crit u hu hcu
  · intro u hu
    by_cases e : u = t
    · subst e; rw [upd_self]; exact hx
    · rw [upd_ne _ _ e]; exact (h.ths u hu).keeps (hk u hu e)
  · intro u hu
    by_cases e : u = t
    · subst e; rw [upd_self]; exact hh
    · rw [upd_ne _ _ e]; exact h.hist u hu

/-- A step which changes only the thread's own variables. -/
theorem inv_local {s : St α β} {t : Nat} (h : Inv tr norm N L calls s) (ht : t < N)
    (x : Th α β) (hc : isCrit (s.th t).pc = false) (hc' : isCrit x.pc = false)
    (hx : ThOK tr norm N L s.g t x) (hh : HistOK tr norm L (calls t) x) :
    Inv tr norm N L calls (s.upd t x) :=
  inv_data h ht s.g.hin s.g.hout x rfl rfl (fun u _ _ => Keeps.refl _ _) hc hc' hx hh

/-- A step inside the critical section which stays inside. -/
theorem inv_crit {s : St α β} {t : Nat} (h : Inv tr norm N L calls s) (ht : t < N)
    (g : Shared α β) (pc : Pc) (hl : g.lock = some t)
    (hlock : s.g.lock = some t ∨ s.g.lock = none)
    (hk : ∀ u < N, u ≠ t → Keeps tr N L s.g g u)
    (htodo : (s.th t).todo ≠ []) (hcr : CritOK tr N L g pc) :
    Inv tr norm N L calls (s.goWith t g pc) := by
  constructor
  · intro e; simp only [St.goWith, St.goto, upd_g] at e; rw [hl] at e; cases e
  · intro v hv
    simp only [St.goWith, St.goto, upd_g] at hv
    rw [hl] at hv
    cases hv
    refine ⟨ht, ?_⟩
    simp only [St.goWith, St.goto, upd_self]
    exact hcr
  · intro u hu hcu
    simp only [St.goWith, St.goto, upd_g]
    by_cases e : u = t
    · subst e; exact hl
    · simp only [St.goWith, St.goto, upd_ne _ _ e] at hcu
      have := h.crit u hu hcu
      rcases hlock with h1 | h1
      · rw [h1] at this; cases this; exact absurd rfl e
      · rw [h1] at this; cases this
  · intro u hu
    by_cases e : u = t
    · subst e
      simp only [St.goWith, St.goto, upd_self]
      cases pc <;> first | exact absurd hcr id | exact htodo
    · simp only [St.goWith, St.goto, upd_ne _ _ e]; exact (h.ths u hu).keeps (hk u hu e)
  · intro u hu
    by_cases e : u = t
    · subst e; simp only [St.goWith, St.goto, upd_self]; exact h.hist u hu
    · simp only [St.goWith, St.goto, upd_ne _ _ e]; exact h.hist u hu

/-- Releasing the lock. -/
theorem inv_unlock {s : St α β} {t : Nat} (h : Inv tr norm N L calls s) (ht : t < N)
    (hl : s.g.lock = some t) (htodo : (s.th t).todo ≠ []) (hcr : CritOK tr N L s.g .unlock) :
    Inv tr norm N L calls (s.goWith t { s.g with lock := none } .ptrIn) := by
  constructor
  · intro _; exact hcr.1
  · intro v hv; cases hv
  · intro u hu hcu
    by_cases e : u = t
    · subst e; simp only [St.goWith, St.goto, upd_self] at hcu; cases hcu
    · simp only [St.goWith, St.goto, upd_ne _ _ e] at hcu
      have := h.crit u hu hcu
      rw [hl] at this; cases this; exact absurd rfl e
  · intro u hu
    have kk : Keeps tr N L s.g { s.g with lock := none } u :=
      ⟨id, fun h => ⟨h, rfl, rfl⟩, fun _ _ _ _ h => h, fun _ _ h => h⟩
    by_cases e : u = t
    · subst e
      simp only [St.goWith, St.goto, upd_self]
      exact ⟨htodo, hcr.2⟩
    · simp only [St.goWith, St.goto, upd_ne _ _ e]; exact (h.ths u hu).keeps kk
  · intro u hu
    by_cases e : u = t
    · subst e; simp only [St.goWith, St.goto, upd_self]; exact h.hist u hu
    · simp only [St.goWith, St.goto, upd_ne _ _ e]; exact h.hist u hu

theorem HistOK.of_eq {c : List (Nat → α)} {x y : Th α β} (h : HistOK tr norm L c x)
    (h1 : y.done = x.done) (h2 : y.todo = x.todo) : HistOK tr norm L c y := by
  obtain ⟨k, a, b⟩ := h
  exact ⟨k, h1.trans a, h2.trans b⟩

end Verif.Fft
