import Verif.Expr.FactorySpec
import Mathlib.Data.Nat.Find
/-!
# FieldFactory: soundness and completeness of `parse`
-/
namespace Verif.Expr.Fac
open Verif.Str (Chars)
open Verif.Expr
variable {R : Type} [Zero R] {env : Env R} {t : Tree}

/-- A text means at most one thing. -/
theorem means_unique {F : Path → Chars → Option (Path × Chars)} : ∀ {h1 h2 : Nat} {p : Path} {x : Chars} {g1 g2 : Gen R},
    Means Parses F env h1 p x g1 → Means Parses F env h2 p x g2 → g1 = g2
  | 0, _, _, _, _, _, hm, _ => hm.elim
  | _ + 1, 0, _, _, _, _, _, hm => hm.elim
  | h1 + 1, h2 + 1, p, x, g1, g2, ⟨ρ1, a1, b1⟩, ⟨ρ2, a2, b2⟩ => by
    let ans : List (Chars × Gen R) := (symsOf env.reserved x).filterMap fun n => match ρ1 n, ρ2 n with
      | .ok (some g), .ok (some _) => some (n, g)
      | _, _ => none
    have hmem : ∀ n g, (n, g) ∈ ans → ρ1 n = .ok (some g) ∧ ∃ g', ρ2 n = .ok (some g') := by
      intro n g hn
      obtain ⟨m, hm, he⟩ := List.mem_filterMap.mp hn
      split at he
      · rename_i g0 g0' e1 e2
        cases he
        exact ⟨e1, _, e2⟩
      · cases he
    have hl : ∀ n g, ans.lookup n = some g → (n, g) ∈ ans := by
      intro n g hn
      revert hn
      generalize ans = l
      induction l with
      | nil => intro h; simp at h
      | cons e es ih =>
        intro h
        rw [List.lookup_cons] at h
        by_cases he : n == e.1
        · rw [he] at h
          have := eq_of_beq he
          simp only [Option.some.injEq] at h
          rw [this, ← h]
          exact List.mem_cons_self
        · simp only [Bool.not_eq_true] at he
          rw [he] at h
          exact List.mem_cons_of_mem _ (ih h)
    have hx1 : ∀ n g, ans.lookup n = some g → ρ1 n = .ok (some g) := fun n g hn => (hmem n g (hl n g hn)).1
    have hx2 : ∀ n g, ans.lookup n = some g → ρ2 n = .ok (some g) := by
      intro n g hn
      obtain ⟨e1, g', e2⟩ := hmem n g (hl n g hn)
      obtain ⟨s, y, hf, hm⟩ := b1 n g e1
      obtain ⟨s', y', hf', hm'⟩ := b2 n g' e2
      rw [hf] at hf'
      cases hf'
      rw [means_unique hm hm', e2]
    have hno : ∀ n, n ∈ symsOf env.reserved x → ans.lookup n = none → (∃ g, ρ1 n = .ok (some g)) →
        (∃ g, ρ2 n = .ok (some g)) → False := by
      intro n hn hnone ⟨g, e1⟩ ⟨g', e2⟩
      have : (n, g) ∈ ans := List.mem_filterMap.mpr ⟨n, hn, by simp [e1, e2]⟩
      rw [List.lookup_eq_none_iff] at hnone
      have := hnone (n, g) this
      simp at this
    rcases parse_sim env x ans ρ1 hx1 with s1 | ⟨n, n1, n2, n3, n4⟩ <;>
      rcases parse_sim env x ans ρ2 hx2 with s2 | ⟨m, m1, m2, m3, m4⟩
    · rw [s2, a1, a2] at s1
      cases s1; rfl
    · rw [s1, a1] at m3; cases m3
    · rw [s2, a2] at n3; cases n3
    · rw [n3] at m3
      cases m3
      exact (hno n n1 n2 (n4 _ a1) (m4 _ a2)).elim

/-- Everything in the cache is what its key means. -/
def CacheOk (env : Env R) (t : Tree) (st : St R) : Prop :=
  ∀ k g, st.cache.lookup k = some g →
    (∃ p x h, PathOk p ∧ k = textKey (some p) x ∧ Means Parses (inherited t) env h p x g) ∨
    (∃ r s x h, RefKey k r ∧ findUp t r.2 r.1 = some (s, x) ∧ Means Parses (inherited t) env h s x g)

theorem cache_ref {st : St R} (hc : CacheOk env t st) {p : Path} {n : Chars} (hp : PathOk p) (hn : NameOk n) {g : Gen R}
    (h : st.cache.lookup (keyOf p n) = some g) :
    ∃ s x k, inherited t p n = some (s, x) ∧ Means Parses (inherited t) env k s x g := by
  rcases hc _ g h with ⟨q, x, k, hq, he, _⟩ | ⟨r, s, x, k, hr, hf, hm⟩
  · exfalso
    apply refKey_hash (refKey_keyOf hp hn)
    rw [he]
    simp [textKey]
  · have := refKey_inj hr (refKey_keyOf hp hn)
    subst this
    exact ⟨s, x, k, hf, hm⟩

theorem cache_text {st : St R} (hc : CacheOk env t st) {p : Path} {x : Chars} (hp : PathOk p) {g : Gen R}
    (h : st.cache.lookup (textKey (some p) x) = some g) : ∃ k, Means Parses (inherited t) env k p x g := by
  rcases hc _ g h with ⟨q, y, k, hq, he, hm⟩ | ⟨r, s, y, k, hr, _, _⟩
  · obtain ⟨h1, rfl⟩ := textKey_inj hp hq he
    rw [str_inj hp hq h1]
    exact ⟨k, hm⟩
  · exfalso
    apply refKey_hash hr
    simp [textKey]

omit [Zero R] in
theorem lookup_cons_some {k : Chars} {g : Gen R} {c : List (Chars × Gen R)} {k' : Chars} {g' : Gen R}
    (h : List.lookup k' ((k, g) :: c) = some g') : k' = k ∧ g' = g ∨ c.lookup k' = some g' := by
  rw [List.lookup_cons] at h
  by_cases he : k' == k
  · simp only [he] at h
    cases h
    exact .inl ⟨eq_of_beq he, rfl⟩
  · simp only [Bool.not_eq_true] at he
    rw [he] at h
    exact .inr h

/-- The same height for all answers. -/
theorem common_height {F : Path → Chars → Option (Path × Chars)} (p : Path) : ∀ (ans : List (Chars × Gen R)), ∃ h, ∀ q ∈ ans,
    (∃ h' s x, F p q.1 = some (s, x) ∧ Means Parses F env h' s x q.2) →
    ∃ s x, F p q.1 = some (s, x) ∧ Means Parses F env h s x q.2
  | [] => ⟨0, by simp⟩
  | q :: qs => by
    obtain ⟨h, hh⟩ := common_height (F := F) p qs
    by_cases hq : ∃ h' s x, F p q.1 = some (s, x) ∧ Means Parses F env h' s x q.2
    · obtain ⟨h', s, x, hf, hm⟩ := hq
      refine ⟨max h h', fun r hr he => ?_⟩
      rcases List.mem_cons.mp hr with rfl | hr
      · exact ⟨s, x, hf, hm.mono (Nat.le_max_right _ _)⟩
      · obtain ⟨s', x', hf', hm'⟩ := hh r hr he
        exact ⟨s', x', hf', hm'.mono (Nat.le_max_left _ _)⟩
    · refine ⟨h, fun r hr he => ?_⟩
      rcases List.mem_cons.mp hr with rfl | hr
      · exact absurd he hq
      · exact hh r hr he

omit [Zero R] in
theorem mem_of_lookup {n : Chars} {g : Gen R} : ∀ {l : List (Chars × Gen R)}, l.lookup n = some g → (n, g) ∈ l
  | [], h => by simp at h
  | e :: es, h => by
    rcases lookup_cons_some (k := e.1) (g := e.2) h with ⟨rfl, rfl⟩ | h
    · exact List.mem_cons_self
    · exact List.mem_cons_of_mem _ (mem_of_lookup h)

omit [Zero R] in
theorem known_ok {ans : List (Chars × Gen R)} {n : Chars} {g : Gen R} (h : known ans n = .ok (some g)) :
    ans.lookup n = some g := by
  unfold known at h
  cases hl : ans.lookup n with
  | none => simp [hl] at h
  | some g' => simp [hl] at h; rw [h]

/-- The registered generators never answer with `ask`, which is no exception of the program. -/
def GensOk (env : Env R) : Prop := ∀ s f a m, env.gen s = some f → f a ≠ .error (.ask m)

/-- The parser stops only at a name of the text that has no answer yet. -/
theorem asked (hna : GensOk env) {text : Chars} {ans : List (Chars × Gen R)} {n : Chars}
    (h : parseString (withR env (known ans)) text = throw (.ask n)) :
    n ∈ symsOf env.reserved text ∧ ans.lookup n = none := by
  rcases parse_sim env text ans (fun m => match ans.lookup m with | some g => .ok (some g) | none => .error .number)
    (by intro m g hm; simp [hm]) with hs | ⟨m, h1, h2, h3, _⟩
  · rw [h] at hs
    refine absurd hs.symm (parse_noask env text _ ⟨fun m k => ?_, hna⟩ n)
    cases ans.lookup m <;> simp
  · rw [h3] at h
    cases h
    exact ⟨h1, h2⟩

/-- What every call that returns has done. -/
theorem sound (hna : GensOk env) (ht : TreeOk env t) :
    (∀ (n : Chars) (st : St R) (r : Except Err (Gen R) × St R), resolve env t n st = some r →
      NameOk n → PathOk st.options → CacheOk env t st → CacheOk env t r.2 ∧ ∀ g, r.1 = .ok g →
      r.2.options = st.options ∧ r.2.lookup = st.lookup ∧
      ∃ s x h, inherited t st.options n = some (s, x) ∧ Means Parses (inherited t) env h s x g) ∧
    (∀ (input : Chars) (opt : Option Path) (st : St R) (r : Except Err (Gen R) × St R),
      parse env t input opt st = some r →
      ∀ p, opt = some p → TextOk env input → PathOk p → CacheOk env t st → CacheOk env t r.2 ∧ ∀ g, r.1 = .ok g →
      r.2.options = st.options ∧ r.2.lookup = st.lookup ∧ ∃ h, Means Parses (inherited t) env h p input g) ∧
    (∀ (input : Chars) (ans : List (Chars × Gen R)) (st : St R) (r : Except Err (Gen R) × St R),
      run env t input ans st = some r →
      TextOk env input → PathOk st.options → CacheOk env t st →
      (∀ n g, ans.lookup n = some g →
        ∃ h s x, inherited t st.options n = some (s, x) ∧ Means Parses (inherited t) env h s x g) →
      CacheOk env t r.2 ∧ ∀ g, r.1 = .ok g →
      r.2.options = st.options ∧ r.2.lookup = st.lookup ∧ ∃ h, Means Parses (inherited t) env h st.options input g) := by
  refine resolve.mutual_partial_correctness env t
    (fun n st r => NameOk n → PathOk st.options → CacheOk env t st → CacheOk env t r.2 ∧ ∀ g, r.1 = .ok g →
      r.2.options = st.options ∧ r.2.lookup = st.lookup ∧
      ∃ s x h, inherited t st.options n = some (s, x) ∧ Means Parses (inherited t) env h s x g)
    (fun input opt st r => ∀ p, opt = some p → TextOk env input → PathOk p → CacheOk env t st → CacheOk env t r.2 ∧
      ∀ g, r.1 = .ok g →
      r.2.options = st.options ∧ r.2.lookup = st.lookup ∧ ∃ h, Means Parses (inherited t) env h p input g)
    (fun input ans st r => TextOk env input → PathOk st.options → CacheOk env t st →
      (∀ n g, ans.lookup n = some g →
        ∃ h s x, inherited t st.options n = some (s, x) ∧ Means Parses (inherited t) env h s x g) →
      CacheOk env t r.2 ∧ ∀ g, r.1 = .ok g →
      r.2.options = st.options ∧ r.2.lookup = st.lookup ∧ ∃ h, Means Parses (inherited t) env h st.options input g) ?_ ?_ ?_
  · intro parse' ih n st r h hn hp hc
    cases hl : st.cache.lookup (keyOf st.options n) with
    | some g0 =>
      simp only [hl] at h
      cases h
      refine ⟨hc, fun g hg => ?_⟩
      cases hg
      exact ⟨rfl, rfl, by obtain ⟨s, x, k, h1, h2⟩ := cache_ref hc hp hn hl; exact ⟨s, x, k, h1, h2⟩⟩
    | none =>
      simp only [hl] at h
      by_cases hk : keyOf st.options n ∈ st.lookup
      · rw [if_pos hk] at h; cases h; exact ⟨hc, fun g hg => by cases hg⟩
      · rw [if_neg hk, findOption_own t st.options hn.1] at h
        cases ho : own t st.options n with
        | none => simp only [ho] at h; cases h; exact ⟨hc, fun g hg => by cases hg⟩
        | some sv =>
          obtain ⟨s, x⟩ := sv
          simp only [ho] at h
          generalize hpr : parse' x (some s) { st with lookup := keyOf st.options n :: st.lookup } = pr at h
          cases pr with
          | none => cases h
          | some r' =>
            obtain ⟨res, st'⟩ := r'
            obtain ⟨m, hm⟩ := own_mem ho
            obtain ⟨hps, hts⟩ := ht _ hm
            have hi := ih x (some s) _ _ hpr s rfl hts hps hc
            cases res with
            | error e => simp only [bind, Option.bind] at h; cases h; exact ⟨hi.1, fun g hg => by cases hg⟩
            | ok g0 =>
              simp only [bind, Option.bind] at h
              cases h
              obtain ⟨e1, e2, k, e4⟩ := hi.2 g0 rfl
              refine ⟨?_, fun g hg => ?_⟩
              · intro k' g' hl'
                rcases lookup_cons_some hl' with ⟨rfl, rfl⟩ | hl'
                · exact .inr ⟨ref st.options n, s, x, k, refKey_keyOf hp hn, own_inherited ho, e4⟩
                · exact hi.1 k' g' hl'
              · cases hg
                exact ⟨e1, by simp only; rw [e2]; rfl, s, x, k, own_inherited ho, e4⟩
  · rintro run' ih input _ st r h p rfl htx hp hc
    cases hl : st.cache.lookup (textKey (some p) input) with
    | some g0 =>
      simp only [hl] at h
      cases h
      refine ⟨hc, fun g hg => ?_⟩
      cases hg
      exact ⟨rfl, rfl, cache_text hc hp hl⟩
    | none =>
      simp only [hl] at h
      generalize hpr : run' input [] { st with options := (some p).getD st.options } = pr at h
      cases pr with
      | none => cases h
      | some r' =>
        obtain ⟨res, st'⟩ := r'
        have hi := ih input [] _ _ hpr htx hp hc (by simp)
        cases res with
        | error e => simp only [bind, Option.bind] at h; cases h; exact ⟨hi.1, fun g hg => by cases hg⟩
        | ok g0 =>
          simp only [bind, Option.bind] at h
          cases h
          obtain ⟨e1, e2, k, e4⟩ := hi.2 g0 rfl
          refine ⟨?_, fun g hg => ?_⟩
          · intro k' g' hl'
            rcases lookup_cons_some hl' with ⟨rfl, rfl⟩ | hl'
            · exact .inl ⟨p, input, k, hp, rfl, e4⟩
            · exact hi.1 k' g' hl'
          · cases hg
            exact ⟨rfl, e2, k, e4⟩
  · intro resolve' run' ih1 ih2 input ans st r h htx hp hc hans
    obtain ⟨o, ho⟩ := C14_terminates (withR env (known ans)) input
    have hrun : (parseString (withR env (known ans)) input).run = some o := ho
    rw [hrun] at h
    cases o with
    | ok g0 =>
      simp only [bind, Option.bind] at h
      cases h
      refine ⟨hc, fun g hg => ?_⟩
      cases hg
      obtain ⟨k, hk⟩ := common_height (env := env) (F := inherited t) st.options ans
      refine ⟨rfl, rfl, k + 1, known ans, ho, fun n g' hn => ?_⟩
      have hn := known_ok hn
      exact hk (n, g') (mem_of_lookup hn) (hans n g' hn)
    | error e =>
      cases e with
      | parse w => simp only [bind, Option.bind] at h; cases h; exact ⟨hc, fun g hg => by cases hg⟩
      | number => simp only [bind, Option.bind] at h; cases h; exact ⟨hc, fun g hg => by cases hg⟩
      | ask n =>
        simp only [bind, Option.bind] at h
        obtain ⟨hsym, _⟩ := asked hna ho
        generalize hpr : resolve' n st = pr at h
        cases pr with
        | none => cases h
        | some r' =>
          obtain ⟨res, st'⟩ := r'
          have hi := ih1 n st _ hpr (htx n hsym) hp hc
          cases res with
          | error e => simp only at h; cases h; exact ⟨hi.1, fun g hg => by cases hg⟩
          | ok g0 =>
            simp only at h
            obtain ⟨e1, e2, s, x, k, e4, e5⟩ := hi.2 g0 rfl
            simp only at e1 e2
            obtain ⟨f0, f1⟩ := ih2 input ((n, g0) :: ans) st' r h htx (by rw [e1]; exact hp) hi.1 (by
              intro m g' hm
              rw [e1]
              rcases lookup_cons_some hm with ⟨rfl, rfl⟩ | hm
              · exact ⟨k, s, x, e4, e5⟩
              · exact hans m g' hm)
            refine ⟨f0, fun g hg => ?_⟩
            obtain ⟨f1, f2, f3⟩ := f1 g hg
            exact ⟨f1.trans e1, f2.trans e2, by rw [e1] at f3; exact f3⟩

omit [Zero R] in
theorem filter_lt {α : Type} {p q : α → Bool} : ∀ {l : List α}, (∀ a ∈ l, q a = true → p a = true) →
    ∀ {n}, n ∈ l → p n = true → q n = false → (l.filter q).length < (l.filter p).length
  | [], _, _, h, _, _ => by simp at h
  | a :: l, hpq, n, hn, h1, h2 => by
    have hle : (l.filter q).length ≤ (l.filter p).length := by
      rw [← List.countP_eq_length_filter, ← List.countP_eq_length_filter]
      exact List.countP_mono_left fun a ha => hpq a (List.mem_cons_of_mem _ ha)
    rcases List.mem_cons.mp hn with rfl | hn
    · rw [List.filter_cons_of_pos h1, List.filter_cons_of_neg (by simp [h2])]
      simp; omega
    · have := filter_lt (fun a ha => hpq a (List.mem_cons_of_mem _ ha)) hn h1 h2
      rw [List.filter_cons, List.filter_cons]
      by_cases ha : q a = true
      · rw [if_pos ha, if_pos (hpq a List.mem_cons_self ha)]; simp; omega
      · rw [if_neg ha]; split <;> simp <;> omega

omit [Zero R] in
theorem filter_cons_lt {l : List Chars} {ans : List (Chars × Gen R)} {n : Chars} {g : Gen R} (h1 : n ∈ l)
    (h2 : ans.lookup n = none) :
    (l.filter fun m => (List.lookup m ((n, g) :: ans)).isNone).length < (l.filter fun m => (ans.lookup m).isNone).length := by
  refine filter_lt (fun a _ ha => ?_) h1 (by simp [h2]) (by simp)
  rw [List.lookup_cons] at ha
  split at ha
  · simp at ha
  · exact ha

/-- The keys being looked up belong to names that cannot be unfolded in fewer than `h` levels. -/
def Above (env : Env R) (t : Tree) (h : Nat) (lookup : List Chars) : Prop :=
  ∀ k ∈ lookup, ∀ r, RefKey k r → ∀ s x g, findUp t r.2 r.1 = some (s, x) → ∀ h' < h, ¬ Means Parses (own t) env h' s x g

/-- If the text has a meaning the factory finds it. -/
theorem complete_run (hna : GensOk env) (ht : TreeOk env t) (h : Nat) :
    ∀ (p : Path) (x : Chars) (g : Gen R), PathOk p → TextOk env x → Means Parses (own t) env h p x g →
    ∀ st : St R, st.options = p → CacheOk env t st → Above env t h st.lookup →
    ∃ st', run env t x [] st = some (.ok g, st') := by
  have strict : ∀ {h p x} {g : Gen R}, Means Parses (own t) env h p x g → Means Parses (inherited t) env h p x g :=
    fun hm => hm.weaken (fun _ _ _ h => h) (fun _ _ _ => own_inherited)
  induction h using Nat.strongRecOn with
  | ind h ih =>
    intro p x g hp htx hm st hst hc ha
    cases h with
    | zero => exact hm.elim
    | succ h =>
      obtain ⟨ρ, hD, hρ⟩ := hm
      -- resolving a name that has a meaning
      have hres : ∀ n g', NameOk n → ρ n = .ok (some g') → ∀ st : St R, st.options = p → CacheOk env t st →
          Above env t (h + 1) st.lookup → ∃ st', resolve env t n st = some (.ok g', st') := by
        intro n g' hn hng st hst hc ha
        obtain ⟨s, y, hF, hM⟩ := hρ n g' hng
        rw [resolve]
        cases hl : st.cache.lookup (keyOf st.options n) with
        | some g0 =>
          obtain ⟨s', y', k, h1, h2⟩ := cache_ref hc (by rw [hst]; exact hp) hn hl
          rw [hst, own_inherited hF] at h1
          cases h1
          exact ⟨st, by simp only; rw [means_unique h2 (strict hM)]⟩
        | none =>
          simp only
          have hk : keyOf st.options n ∉ st.lookup := by
            intro hk
            rw [hst] at hk
            exact ha _ hk _ (refKey_keyOf hp hn) s y g' (own_inherited hF) h (by omega) hM
          rw [if_neg hk, findOption_own t st.options hn.1, hst, hF]
          simp only
          obtain ⟨m, hmem⟩ := own_mem hF
          obtain ⟨hps, hts⟩ := ht _ hmem
          have hparse : ∃ o, parse env t y (some s)
              { st with lookup := keyOf p n :: st.lookup } = some (.ok g', o) := by
            rw [parse]
            cases hl2 : st.cache.lookup (textKey (some s) y) with
            | some g0 =>
              obtain ⟨k, hk2⟩ := cache_text hc hps hl2
              exact ⟨_, by simp only [hl2]; rw [means_unique hk2 (strict hM)]⟩
            | none =>
              simp only [hl2]
              -- the least number of levels
              have hex : ∃ h', Means Parses (own t) env h' s y g' := ⟨h, hM⟩
              classical
              have hle : Nat.find hex ≤ h := Nat.find_min' hex hM
              obtain ⟨st', hr⟩ := ih (Nat.find hex) (by omega) s y g' hps hts (Nat.find_spec hex)
                { st with lookup := keyOf p n :: st.lookup, options := s } rfl hc (by
                  intro k hkm r hr s1 x1 g1 hf h1 hlt hM1
                  rcases List.mem_cons.mp hkm with rfl | hkm
                  · have := refKey_inj hr (refKey_keyOf hp hn)
                    subst this
                    have hi : inherited t p n = some (s1, x1) := hf
                    rw [own_inherited hF] at hi
                    cases hi
                    rw [means_unique (strict hM1) (strict hM)] at hM1
                    exact Nat.find_min hex hlt hM1
                  · exact ha k hkm r hr s1 x1 g1 hf h1 (by omega) hM1)
              have hr' : run env t y [] { st with lookup := keyOf p n :: st.lookup, options := (some s).getD st.options } =
                some (.ok g', st') := hr
              simp only [Option.getD] at hr' ⊢
              rw [hr']
              exact ⟨_, rfl⟩
          obtain ⟨o, ho⟩ := hparse
          rw [hst] at ho 
          rw [ho]
          exact ⟨_, rfl⟩
      have hloop : ∀ (m : Nat) (ans : List (Chars × Gen R)) (st : St R),
          ((symsOf env.reserved x).filter fun n => (ans.lookup n).isNone).length ≤ m →
          (∀ n g', ans.lookup n = some g' → ρ n = .ok (some g')) → st.options = p → CacheOk env t st →
          Above env t (h + 1) st.lookup → ∃ st', run env t x ans st = some (.ok g, st') := by
        intro m
        induction m using Nat.strongRecOn with
        | ind m ihm =>
          intro ans st hlen hans hst hc ha
          rw [run]
          rcases parse_sim env x ans ρ hans with hs | ⟨n, h1, h2, h3, h4⟩
          · have hD' : parseString (withR env ρ) x = pure g := hD
            rw [hs, hD']
            exact ⟨st, rfl⟩
          · rw [h3]
            obtain ⟨g', hg'⟩ := h4 g hD
            obtain ⟨st', hr⟩ := hres n g' (htx n h1) hg' st hst hc ha
            obtain ⟨e3, e4⟩ := (sound hna ht).1 n st _ hr (htx n h1) (by rw [hst]; exact hp) hc
            obtain ⟨e1, e2, _⟩ := e4 g' rfl
            simp only at e1 e2 e3
            have hrun : (throw (Err.ask n) : P (Gen R)).run = some (.error (.ask n)) := rfl
            simp only [hrun, hr, bind, Option.bind]
            exact ihm _ (Nat.lt_of_lt_of_le (filter_cons_lt h1 h2) hlen) ((n, g') :: ans) st' (Nat.le_refl _)
              (fun m g0 hm => by
                rcases lookup_cons_some hm with ⟨rfl, rfl⟩ | hm
                · exact hg'
                · exact hans m g0 hm) (e1.trans hst) e3 (by rw [e2]; exact ha)
      exact hloop _ [] st (Nat.le_refl _) (by simp) hst hc ha

end Verif.Expr.Fac
