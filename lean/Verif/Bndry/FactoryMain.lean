import Verif.Bndry.FactoryProps

/-!
# C62: totality, choice of the option, findings
-/

namespace Verif.Bndry

open Verif.Str

theorem dropWhile_length (p : Char → Bool) (s : Chars) : (s.dropWhile p).length ≤ s.length := (List.dropWhile_sublist p).length_le

theorem trim_length (s : Chars) : (trim s ws).length ≤ s.length := by
  obtain ⟨p, q, e, -⟩ := C36_trim s ws
  have := congrArg List.length e
  simp only [List.length_append] at this
  omega

theorem split_length : ∀ (s : Chars) (l : Int), ∀ p ∈ splitTop l s, p.length ≤ s.length := by
  intro s
  induction s with
  | nil => intro l p hp; simp only [splitTop, List.mem_singleton] at hp; subst hp; simp
  | cons c cs ih =>
    intro l p hp
    by_cases h : c = ',' ∧ l = 0
    · rw [splitTop, if_pos h] at hp
      rcases List.mem_cons.1 hp with rfl | hp
      · simp
      · have := ih l p hp
        simp only [List.length_cons]; omega
    · rw [splitTop_cons _ _ _ h] at hp
      have ih' := ih (l + delta c)
      cases hs : splitTop (l + delta c) cs with
      | nil => exact absurd hs (splitTop_ne _ _)
      | cons q qs =>
        rw [hs] at hp ih'
        rcases List.mem_cons.1 hp with rfl | hp
        · have := ih' q (by simp)
          simp only [List.singleton_append, List.length_cons]; omega
        · have := ih' p (by simp [hp])
          simp only [List.length_cons]; omega

theorem between_length (s : Chars) : (between s).length ≤ s.length := by
  unfold between
  split
  · have := dropWhile_length (fun c => decide (c ≠ ')')) s.reverse
    simp only [List.length_reverse, List.length_tail] at this ⊢
    omega
  · exact Nat.le_refl _

/-- Every piece is shorter than the text. -/
theorem positional_length (name : Chars) (h : '(' ∈ name) :
    ∀ a ∈ positional (splitTop 0 (trim (between (name.dropWhile (fun c => decide (c ≠ '('))).tail) ws)), a.length < name.length := by
  intro a ha
  unfold positional at ha
  obtain ⟨p, hp, rfl⟩ := List.mem_map.1 ha
  have h1 := split_length _ _ p (List.mem_filter.1 hp).1
  have h2 := trim_length (between (name.dropWhile (fun c => decide (c ≠ '('))).tail)
  have h3 := between_length (name.dropWhile (fun c => decide (c ≠ '('))).tail
  have h4 := trim_length p
  have h5 := dropWhile_length (fun c => decide (c ≠ '(')) name
  have h6 : 0 < name.length := List.length_pos_of_mem h
  simp only [List.length_tail] at h3
  omega

theorem create_total (F : Factory) (par : Bool) : ∀ (fuel : Nat) (name : Chars), name.length < fuel → create F par fuel name ≠ .outOfFuel := by
  intro fuel
  induction fuel with
  | zero => intro name h; omega
  | succ k ih =>
    intro name h
    rw [create]
    by_cases hb : '(' ∉ name
    · rw [if_pos hb]
      unfold createBare
      split
      · simp
      · dsimp only
        split
        · split <;> simp
        · simp
    · rw [if_neg hb]
      dsimp only
      have hl := positional_length name (by simpa using hb)
      generalize positional _ = ps at *
      split
      · cases ps with
        | nil => simp
        | cons a rest =>
          dsimp only
          have := ih a (by have := hl a (by simp); omega)
          cases hc : create F par k a with
          | outOfFuel => exact absurd hc this
          | thrown => simp [createMod]
          | ub => simp [createMod]
          | ok b =>
            cases b <;> simp only [createMod] <;> (repeat' split) <;> simp
      · unfold createOp
        repeat' split
        all_goals simp

/-- **C62.** Reading a boundary condition ends, for every text. -/
theorem C62_total (F : Factory) (par : Bool) (name : Chars) : createStr F par name ≠ .outOfFuel :=
  create_total F par _ name (Nat.lt_succ_self _)

/-- **C62.** More fuel changes nothing. -/
theorem create_fuel (F : Factory) (par : Bool) : ∀ (fuel : Nat) (name : Chars), name.length < fuel → ∀ f2, name.length < f2 →
    create F par fuel name = create F par f2 name := by
  intro fuel
  induction fuel with
  | zero => intro name h; omega
  | succ k ih =>
    intro name h f2 h2
    cases f2 with
    | zero => omega
    | succ k2 =>
      rw [create, create]
      by_cases hb : '(' ∉ name
      · rw [if_pos hb, if_pos hb]
      · rw [if_neg hb, if_neg hb]
        dsimp only
        have hl := positional_length name (by simpa using hb)
        generalize positional _ = ps at *
        cases ps with
        | nil => rfl
        | cons a rest =>
          have := hl a (by simp)
          dsimp only
          rw [ih a (by omega) k2 (by omega)]

/-! ## What a returned condition is made of -/

/-- The operations and modifiers in a condition are registered, and their arguments accepted. -/
def Registered (F : Factory) (par : Bool) : Bc → Prop
  | .nothing => True
  | .op n args => n ∈ F.names par ∧ F.opOk n args = true
  | .mod n b args => n ∈ F.mods ∧ F.modOk n args = true ∧ b ≠ .nothing ∧ Registered F par b

/-- **C62.** Whatever the text, the condition returned consists of registered operations and modifiers with arguments they accept; a name that is
not registered is an error. -/
theorem C62_registered (F : Factory) (par : Bool) : ∀ (fuel : Nat) (name : Chars) (b : Bc), create F par fuel name = .ok b → Registered F par b := by
  intro fuel
  induction fuel with
  | zero => intro name b h; cases h
  | succ k ih =>
    intro name b h
    rw [create] at h
    by_cases hb : '(' ∉ name
    · rw [if_pos hb, createBare] at h
      split at h
      · injection h with h; subst h; trivial
      · dsimp only at h
        split at h
        · rename_i h1
          split at h
          · rename_i h2
            injection h with h; subst h; exact ⟨h1, h2⟩
          · cases h
        · cases h
    · rw [if_neg hb] at h
      dsimp only at h
      split at h
      · rename_i hm
        split at h
        · cases h
        · rename_i a rest _
          cases hc : create F par k a with
          | outOfFuel => rw [hc] at h; cases h
          | thrown => rw [hc] at h; cases h
          | ub => rw [hc] at h; cases h
          | ok b' =>
            rw [hc] at h
            have hr := ih a b' hc
            by_cases hn : b' = .nothing
            · subst hn
              simp only [createMod] at h
              injection h with h; subst h; trivial
            · rw [createMod.eq_2 _ _ _ _ _ (by simpa using hn)] at h
              split at h
              · injection h with h; subst h; trivial
              · split at h
                · rename_i h3
                  injection h with h; subst h
                  exact ⟨hm, h3, hn, hr⟩
                · cases h
      · unfold createOp at h
        split at h
        · rename_i h1
          split at h
          · cases h
          · split at h
            · rename_i h2
              injection h with h; subst h; exact ⟨h1, h2⟩
            · cases h
        · cases h

end Verif.Bndry
