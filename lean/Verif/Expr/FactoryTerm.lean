import Verif.Expr.FactoryMain
/-!
# FieldFactory: `parse` always terminates
-/
namespace Verif.Expr.Fac
open Verif.Str (Chars)
open Verif.Expr
variable {R : Type} [Zero R] {env : Env R} {t : Tree}

theorem findOption_mem {p : Path} {n : Chars} {r : Path × Chars} (h : findOption t p n = .ok r) :
    ∃ m, ((r.1, m), r.2) ∈ t.entries := by
  unfold findOption at h
  split at h
  · split at h
    · rename_i q hq
      cases h
      exact ⟨n, findUp_mem hq⟩
    · cases h
  · dsimp only at h
    split at h
    · rename_i v hv
      cases h
      exact ⟨_, val_mem hv⟩
    · cases h

/-- A call that returns normally leaves the section and the list of names being looked up as it found them. -/
theorem restores :
    (∀ (n : Chars) (st : St R) (r : Except Err (Gen R) × St R), resolve env t n st = some r → ∀ g, r.1 = .ok g →
      r.2.options = st.options ∧ r.2.lookup = st.lookup) ∧
    (∀ (input : Chars) (opt : Option Path) (st : St R) (r : Except Err (Gen R) × St R),
      parse env t input opt st = some r → ∀ g, r.1 = .ok g → r.2.options = st.options ∧ r.2.lookup = st.lookup) ∧
    (∀ (input : Chars) (ans : List (Chars × Gen R)) (st : St R) (r : Except Err (Gen R) × St R),
      run env t input ans st = some r → ∀ g, r.1 = .ok g → r.2.options = st.options ∧ r.2.lookup = st.lookup) := by
  refine resolve.mutual_partial_correctness env t
    (fun n st r => ∀ g, r.1 = .ok g → r.2.options = st.options ∧ r.2.lookup = st.lookup)
    (fun input opt st r => ∀ g, r.1 = .ok g → r.2.options = st.options ∧ r.2.lookup = st.lookup)
    (fun input ans st r => ∀ g, r.1 = .ok g → r.2.options = st.options ∧ r.2.lookup = st.lookup) ?_ ?_ ?_
  · intro parse' ih n st r h g hg
    cases hl : st.cache.lookup (keyOf st.options n) with
    | some g0 => simp only [hl] at h; cases h; exact ⟨rfl, rfl⟩
    | none =>
      simp only [hl] at h
      by_cases hk : keyOf st.options n ∈ st.lookup
      · rw [if_pos hk] at h; cases h; cases hg
      · rw [if_neg hk] at h
        cases ho : findOption t st.options n with
        | error e => simp only [ho] at h; cases h; cases hg
        | ok sv =>
          simp only [ho] at h
          generalize hpr : parse' sv.2 (some sv.1) { st with lookup := keyOf st.options n :: st.lookup } = pr at h
          cases pr with
          | none => cases h
          | some r' =>
            obtain ⟨res, st'⟩ := r'
            have hi := ih _ _ _ _ hpr
            cases res with
            | error e => simp only [bind, Option.bind] at h; cases h; cases hg
            | ok g0 =>
              simp only [bind, Option.bind] at h
              cases h
              obtain ⟨e1, e2⟩ := hi g0 rfl
              exact ⟨e1, by simp only; rw [e2]; rfl⟩
  · intro run' ih input opt st r h g hg
    cases hl : st.cache.lookup (textKey opt input) with
    | some g0 => simp only [hl] at h; cases h; exact ⟨rfl, rfl⟩
    | none =>
      simp only [hl] at h
      generalize hpr : run' input [] { st with options := opt.getD st.options } = pr at h
      cases pr with
      | none => cases h
      | some r' =>
        obtain ⟨res, st'⟩ := r'
        have hi := ih _ _ _ _ hpr
        cases res with
        | error e => simp only [bind, Option.bind] at h; cases h; cases hg
        | ok g0 => simp only [bind, Option.bind] at h; cases h; exact ⟨rfl, (hi g0 rfl).2⟩
  · intro resolve' run' ih1 ih2 input ans st r h g hg
    obtain ⟨o, ho⟩ := C14_terminates (withR env (known ans)) input
    have hrun : (parseString (withR env (known ans)) input).run = some o := ho
    rw [hrun] at h
    cases o with
    | ok g0 => simp only [bind, Option.bind] at h; cases h; exact ⟨rfl, rfl⟩
    | error e =>
      cases e with
      | parse w => simp only [bind, Option.bind] at h; cases h; cases hg
      | number => simp only [bind, Option.bind] at h; cases h; cases hg
      | ask n =>
        simp only [bind, Option.bind] at h
        generalize hpr : resolve' n st = pr at h
        cases pr with
        | none => cases h
        | some r' =>
          obtain ⟨res, st'⟩ := r'
          cases res with
          | error e => simp only at h; cases h; cases hg
          | ok g0 =>
            simp only at h
            obtain ⟨e1, e2⟩ := ih1 n st _ hpr g0 rfl
            obtain ⟨f1, f2⟩ := ih2 _ _ _ _ h g hg
            exact ⟨f1.trans e1, f2.trans e2⟩

/-- All keys that can come up, starting in section `p0` with text `x0`. -/
def keys (env : Env R) (t : Tree) (p0 : Path) (x0 : Chars) : List Chars :=
  (p0 :: t.entries.map (·.1.1)).flatMap fun p =>
    ((x0 :: t.entries.map (·.2)).flatMap (symsOf env.reserved)).map (keyOf p)

omit [Zero R] in
theorem mem_keys {p0 p : Path} {x0 x n : Chars} (hp : p ∈ p0 :: t.entries.map (·.1.1))
    (hx : x ∈ x0 :: t.entries.map (·.2)) (hn : n ∈ symsOf env.reserved x) : keyOf p n ∈ keys env t p0 x0 := by
  unfold keys
  rw [List.mem_flatMap]
  exact ⟨p, hp, List.mem_map_of_mem (List.mem_flatMap.mpr ⟨x, hx, hn⟩)⟩

theorem term_run (hna : GensOk env) (p0 : Path) (x0 : Chars) (m : Nat) :
    ∀ (st : St R), ((keys env t p0 x0).filter fun k => decide (k ∉ st.lookup)).length ≤ m →
    ∀ x, x ∈ x0 :: t.entries.map (·.2) → st.options ∈ p0 :: t.entries.map (·.1.1) → ∀ ans : List (Chars × Gen R),
    ∃ r, run env t x ans st = some r := by
  induction m using Nat.strongRecOn with
  | ind m ih =>
    have hres : ∀ (st : St R), ((keys env t p0 x0).filter fun k => decide (k ∉ st.lookup)).length ≤ m →
        ∀ x n, x ∈ x0 :: t.entries.map (·.2) → n ∈ symsOf env.reserved x → st.options ∈ p0 :: t.entries.map (·.1.1) →
        ∃ r, resolve env t n st = some r := by
      intro st hlen x n hx hn hp
      rw [resolve]
      cases hl : st.cache.lookup (keyOf st.options n) with
      | some g0 => exact ⟨_, rfl⟩
      | none =>
        simp only
        by_cases hk : keyOf st.options n ∈ st.lookup
        · rw [if_pos hk]; exact ⟨_, rfl⟩
        · rw [if_neg hk]
          cases ho : findOption t st.options n with
          | error e => exact ⟨_, rfl⟩
          | ok sv =>
            obtain ⟨v, hv⟩ := findOption_mem ho
            have hpar : ∃ r, parse env t sv.2 (some sv.1)
                { st with lookup := keyOf st.options n :: st.lookup } = some r := by
              rw [parse]
              cases hl2 : st.cache.lookup (textKey (some sv.1) sv.2) with
              | some g0 => exact ⟨_, rfl⟩
              | none =>
                simp only
                have hlt : ((keys env t p0 x0).filter fun k =>
                    decide (k ∉ keyOf st.options n :: st.lookup)).length < m := by
                  refine Nat.lt_of_lt_of_le (filter_lt (n := keyOf st.options n) ?_ (mem_keys hp hx hn) ?_ ?_) hlen
                  · intro a _ ha
                    simp only [decide_eq_true_eq, List.mem_cons, not_or] at ha ⊢
                    exact ha.2
                  · simpa using hk
                  · simp
                obtain ⟨r, hr⟩ := ih _ hlt
                  { st with lookup := keyOf st.options n :: st.lookup, options := (some sv.1).getD st.options }
                  (Nat.le_refl _) sv.2 (List.mem_cons_of_mem _ (List.mem_map.mpr ⟨_, hv, rfl⟩))
                  (List.mem_cons_of_mem _ (List.mem_map.mpr ⟨_, hv, rfl⟩)) []
                simp only [Option.getD] at hr ⊢
                rw [hr]
                obtain ⟨res, st'⟩ := r
                cases res <;> exact ⟨_, rfl⟩
            obtain ⟨r, hr⟩ := hpar
            simp only
            rw [hr]
            obtain ⟨res, st'⟩ := r
            cases res <;> exact ⟨_, rfl⟩
    intro st hlen x hx hp
    have hloop : ∀ (k : Nat) (ans : List (Chars × Gen R)) (st : St R),
        ((symsOf env.reserved x).filter fun n => (ans.lookup n).isNone).length ≤ k →
        ((keys env t p0 x0).filter fun k => decide (k ∉ st.lookup)).length ≤ m →
        st.options ∈ p0 :: t.entries.map (·.1.1) → ∃ r, run env t x ans st = some r := by
      intro k
      induction k using Nat.strongRecOn with
      | ind k ihk =>
        intro ans st hk hlen hp
        rw [run]
        obtain ⟨o, ho⟩ := C14_terminates (withR env (known ans)) x
        have hrun : (parseString (withR env (known ans)) x).run = some o := ho
        rw [hrun]
        cases o with
        | ok g0 => exact ⟨_, rfl⟩
        | error e =>
          cases e with
          | parse w => exact ⟨_, rfl⟩
          | number => exact ⟨_, rfl⟩
          | ask n =>
            obtain ⟨h1, h2⟩ := asked hna ho
            obtain ⟨r, hr⟩ := hres st hlen x n hx h1 hp
            simp only [bind, Option.bind, hr]
            obtain ⟨res, st'⟩ := r
            cases res with
            | error e => exact ⟨_, rfl⟩
            | ok g =>
              obtain ⟨e1, e2⟩ := restores.1 n st _ hr g rfl
              simp only at e1 e2 ⊢
              exact ihk _ (Nat.lt_of_lt_of_le (filter_cons_lt h1 h2) hk) ((n, g) :: ans) st' (Nat.le_refl _)
                (by rw [e2]; exact hlen) (by rw [e1]; exact hp)
    intro ans
    exact hloop _ ans st (Nat.le_refl _) hlen hp

/-- Every call of `parse`, in whatever state, returns a generator or throws: options that are defined in terms of each
other in a circle, of any length, never make it loop or recurse for ever. -/
theorem C67_terminates (hna : GensOk env) (t : Tree) (input : Chars) (opt : Option Path) (st : St R) :
    ∃ r, parse env t input opt st = some r := by
  rw [parse]
  cases hl : st.cache.lookup (textKey opt input) with
  | some g0 => exact ⟨_, rfl⟩
  | none =>
    obtain ⟨r, hr⟩ := term_run (t := t) hna (opt.getD st.options) input _ { st with options := opt.getD st.options }
      (Nat.le_refl _) input List.mem_cons_self List.mem_cons_self []
    simp only
    rw [hr]
    obtain ⟨res, st'⟩ := r
    cases res <;> exact ⟨_, rfl⟩

end Verif.Expr.Fac
