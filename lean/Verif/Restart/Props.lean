import Mathlib.Data.List.Nodup
import Mathlib.Tactic.Ring
import Verif.Restart.Model

/-! # C64: proofs about the restart file -/

namespace Verif.Restart

variable {T V : Type}

/-! ## Sections -/

theorem setKey_keys (k : String) (v : Val T V) : ∀ l : Sect T V, (setKey k v l).map Prod.fst = if k ∈ l.map Prod.fst then l.map Prod.fst else l.map Prod.fst ++ [k] := by
  intro l
  induction l with
  | nil => simp [setKey]
  | cons a l ih =>
    obtain ⟨k', v'⟩ := a
    by_cases h : k' = k
    · subst h; simp [setKey]
    · have hk : k ≠ k' := fun e => h e.symm
      rw [setKey, if_neg h, List.map_cons, ih]
      by_cases h2 : k ∈ l.map Prod.fst
      · rw [if_pos h2, if_pos (by rw [List.map_cons]; exact List.mem_cons_of_mem _ h2)]; rfl
      · rw [if_neg h2, if_neg (by rw [List.map_cons, List.mem_cons]; exact not_or.2 ⟨hk, h2⟩)]; rfl

theorem setKey_nodup (k : String) (v : Val T V) (l : Sect T V) (h : (l.map Prod.fst).Nodup) : ((setKey k v l).map Prod.fst).Nodup := by
  rw [setKey_keys]
  split
  · exact h
  · rename_i hk
    exact List.nodup_append.2 ⟨h, by simp, by intro a ha b hb hab; rw [List.mem_singleton] at hb; subst hb; subst hab; exact hk ha⟩

theorem getKey_setKey (k k2 : String) (v : Val T V) : ∀ l : Sect T V, getKey k2 (setKey k v l) = if k2 = k then some v else getKey k2 l := by
  intro l
  induction l with
  | nil =>
    by_cases h : k2 = k
    · subst h; simp [setKey, getKey]
    · rw [if_neg h]; simp [setKey, getKey, Ne.symm h]
  | cons a l ih =>
    obtain ⟨k', v'⟩ := a
    by_cases h : k' = k
    · subst h
      rw [setKey, if_pos rfl]
      by_cases h2 : k2 = k'
      · subst h2; simp [getKey]
      · rw [if_neg h2, getKey, getKey, if_neg (Ne.symm h2), if_neg (Ne.symm h2)]
    · rw [setKey, if_neg h, getKey, ih]
      by_cases h2 : k' = k2
      · subst h2; rw [if_pos rfl, if_neg h, getKey, if_pos rfl]
      · rw [if_neg h2, getKey, if_neg h2]

/-- Writing a list of keys and values one after the other. -/
def puts (ps : List (String × Val T V)) (l : Sect T V) : Sect T V := ps.foldl (fun l kv => setKey kv.1 kv.2 l) l

theorem setKey_skip (k : String) (v : Val T V) : ∀ (a b : Sect T V), k ∉ a.map Prod.fst → setKey k v (a ++ b) = a ++ setKey k v b := by
  intro a b
  induction a with
  | nil => intro _; rfl
  | cons x a ih =>
    intro h
    rw [List.map_cons, List.mem_cons, not_or] at h
    obtain ⟨x1, x2⟩ := x
    rw [List.cons_append, setKey, if_neg (Ne.symm h.1), ih h.2]; rfl

/-- Overwriting a block of the same keys. -/
theorem puts_over : ∀ (xs done rest tail : Sect T V), (done.map Prod.fst ++ xs.map Prod.fst).Nodup → rest.map Prod.fst = xs.map Prod.fst →
    puts xs (done ++ rest ++ tail) = done ++ xs ++ tail := by
  intro xs
  induction xs with
  | nil =>
    intro done rest tail _ hk
    have : rest = [] := by simpa using hk
    subst this; rfl
  | cons x xs ih =>
    intro done rest tail hn hk
    obtain ⟨k, v⟩ := x
    cases rest with
    | nil => simp at hk
    | cons y rest =>
      obtain ⟨k', v'⟩ := y
      simp only [List.map_cons, List.cons.injEq] at hk
      obtain ⟨h1, h2⟩ := hk
      subst h1
      have hnd : k' ∉ done.map Prod.fst := by
        intro h
        have := (List.nodup_append.1 hn).2.2 k' h k' (by simp)
        exact this rfl
      have e1 : setKey k' v (done ++ (k', v') :: rest ++ tail) = (done ++ [(k', v)]) ++ rest ++ tail := by
        rw [List.append_assoc, setKey_skip _ _ _ _ hnd]
        simp [setKey]
      show puts xs (setKey k' v (done ++ (k', v') :: rest ++ tail)) = _
      rw [e1, ih (done ++ [(k', v)]) rest tail (by simpa using hn) h2]
      simp

/-- Writing new keys. -/
theorem puts_new : ∀ (xs done : Sect T V), (done.map Prod.fst ++ xs.map Prod.fst).Nodup → puts xs done = done ++ xs := by
  intro xs
  induction xs with
  | nil => intro done _; simp [puts]
  | cons x xs ih =>
    intro done hn
    obtain ⟨k, v⟩ := x
    have hnd : k ∉ done.map Prod.fst := by
      intro h
      have := (List.nodup_append.1 hn).2.2 k h k (by simp)
      exact this rfl
    have e1 : setKey k v done = done ++ [(k, v)] := by
      have := setKey_skip k v done [] hnd
      simpa [setKey] using this
    show puts xs (setKey k v done) = _
    rw [e1, ih _ (by simpa using hn)]
    simp

/-! ## Snapshots -/

theorem names_fold_keys (f : String → Val T V) : ∀ (names : List String) (ro : Sect T V), (∀ n ∈ names, n ∈ ro.map Prod.fst) →
    (names.foldl (fun ro n => setKey n (f n) ro) ro).map Prod.fst = ro.map Prod.fst := by
  intro names
  induction names with
  | nil => intro ro _; rfl
  | cons n names ih =>
    intro ro h
    have e : (setKey n (f n) ro).map Prod.fst = ro.map Prod.fst := by rw [setKey_keys, if_pos (h n (by simp))]
    rw [List.foldl_cons, ih _ (by intro m hm; rw [e]; exact h m (by simp [hm])), e]

theorem names_fold_nodup (f : String → Val T V) : ∀ (names : List String) (ro : Sect T V), (ro.map Prod.fst).Nodup →
    ((names.foldl (fun ro n => setKey n (f n) ro) ro).map Prod.fst).Nodup := by
  intro names
  induction names with
  | nil => intro ro h; exact h
  | cons n names ih => intro ro h; exact ih _ (setKey_nodup _ _ _ h)

theorem names_fold_mem (f : String → Val T V) : ∀ (names : List String) (ro : Sect T V) (x : String), x ∈ names ∨ x ∈ ro.map Prod.fst →
    x ∈ (names.foldl (fun ro n => setKey n (f n) ro) ro).map Prod.fst := by
  intro names
  induction names with
  | nil => intro ro x h; rcases h with h | h; · cases h
           · exact h
  | cons n names ih =>
    intro ro x h
    refine ih _ x ?_
    have hk := setKey_keys n (f n) ro
    by_cases hx : x ∈ names
    · exact .inl hx
    · right
      rw [hk]
      rcases h with h | h
      · have : x = n := by simpa [hx] using h
        subst this
        split
        · assumption
        · simp
      · split
        · exact h
        · exact List.mem_append_left _ h

theorem names_fold_get (s : String → V) : ∀ (names : List String) (ro : Sect T V) (x : String),
    getKey x (names.foldl (fun ro n => setKey n (.fld (s n)) ro) ro) = if x ∈ names then some (.fld (s x)) else getKey x ro := by
  intro names
  induction names with
  | nil => intro ro x; simp
  | cons n names ih =>
    intro ro x
    rw [List.foldl_cons, ih, getKey_setKey]
    by_cases h : x ∈ names
    · rw [if_pos h, if_pos (by simp [h])]
    · rw [if_neg h]
      by_cases h2 : x = n
      · subst h2; simp
      · rw [if_neg h2, if_neg (by simp [h, h2])]

theorem snapshot_nodup (names : List String) (p : Sol T V) (ro : Sect T V) (h : (ro.map Prod.fst).Nodup) : ((snapshot names p ro).map Prod.fst).Nodup :=
  names_fold_nodup _ _ _ (setKey_nodup _ _ _ (setKey_nodup _ _ _ (setKey_nodup _ _ _ (setKey_nodup _ _ _ h))))

theorem setKey_mem (k : String) (v : Val T V) (l : Sect T V) (x : String) (h : x = k ∨ x ∈ l.map Prod.fst) : x ∈ (setKey k v l).map Prod.fst := by
  rw [setKey_keys]
  rcases h with h | h
  · subst h
    split
    · assumption
    · simp
  · split
    · exact h
    · exact List.mem_append_left _ h

/-- The keys a solver writes. -/
def solverKeys (names : List String) : List String := ["tt", "hist_hi", "run_id", "run_restart_from"] ++ names

theorem snapshot_mem (names : List String) (p : Sol T V) (ro : Sect T V) (x : String) (h : x ∈ solverKeys names) : x ∈ (snapshot names p ro).map Prod.fst := by
  refine names_fold_mem _ _ _ _ ?_
  rcases List.mem_append.1 h with h | h
  · right
    simp only [List.mem_cons, List.not_mem_nil, or_false] at h
    refine setKey_mem _ _ _ _ ?_
    rcases h with h | h | h | h
    · exact .inr (setKey_mem _ _ _ _ (.inr (setKey_mem _ _ _ _ (.inr (setKey_mem _ _ _ _ (.inl h))))))
    · exact .inr (setKey_mem _ _ _ _ (.inr (setKey_mem _ _ _ _ (.inl h))))
    · exact .inr (setKey_mem _ _ _ _ (.inl h))
    · exact .inl h
  · exact .inl h

/-- Taking a snapshot again does not change the keys. -/
theorem snapshot_keys (names : List String) (p : Sol T V) (ro : Sect T V) (h : ∀ x ∈ solverKeys names, x ∈ ro.map Prod.fst) :
    (snapshot names p ro).map Prod.fst = ro.map Prod.fst := by
  have e : ∀ (k : String) (v : Val T V) (l : Sect T V), l.map Prod.fst = ro.map Prod.fst → k ∈ solverKeys names → (setKey k v l).map Prod.fst = ro.map Prod.fst := by
    intro k v l hl hk
    rw [setKey_keys, if_pos (by rw [hl]; exact h k hk), hl]
  have e4 := e "run_restart_from" (.id p.from_) _ (e "run_id" (.id p.runId) _ (e "hist_hi" (.int p.iter) _ (e "tt" (.time p.time) ro rfl (by simp [solverKeys]))
    (by simp [solverKeys])) (by simp [solverKeys])) (by simp [solverKeys])
  rw [snapshot]
  rw [names_fold_keys, e4]
  intro n hn
  rw [e4]
  exact h n (by simp [solverKeys, hn])

/-- The names of variables must not be those of the solver's own entries. -/
def NotReserved (names : List String) : Prop := ∀ n ∈ names, n ∉ ["tt", "hist_hi", "run_id", "run_restart_from"]

/-- Reading a snapshot gives the state back. -/
theorem resume_snapshot (names : List String) (hn : NotReserved names) (init : String → V) (p : Sol T V) (ro : Sect T V) :
    resume names init (snapshot names p ro) = some ⟨p.time, p.iter, p.runId, defaultId, fun n => if n ∈ names then p.s n else init n⟩ := by
  have g : ∀ x, getKey x (snapshot names p ro) = if x ∈ names then some (.fld (p.s x)) else getKey x (setKey "run_restart_from" (.id p.from_)
      (setKey "run_id" (.id p.runId) (setKey "hist_hi" (.int p.iter) (setKey "tt" (.time p.time) ro)))) := names_fold_get _ _ _
  have r : ∀ x ∈ ["tt", "hist_hi", "run_id", "run_restart_from"], x ∉ names := fun x hx hm => hn x hm hx
  have g1 : getKey "tt" (snapshot names p ro) = some (.time p.time) := by
    rw [g, if_neg (r _ (by simp))]; simp [getKey_setKey]
  have g2 : getKey "hist_hi" (snapshot names p ro) = some (.int p.iter) := by
    rw [g, if_neg (r _ (by simp))]; simp [getKey_setKey]
  have g3 : getKey "run_id" (snapshot names p ro) = some (.id p.runId) := by
    rw [g, if_neg (r _ (by simp))]; simp [getKey_setKey]
  unfold resume
  rw [g1, g2, g3]
  simp only [Option.some.injEq, Sol.mk.injEq, true_and]
  funext n
  by_cases h : n ∈ names
  · rw [if_pos h, if_pos h, g, if_pos h]
  · rw [if_neg h, if_neg h]

/-! ## Events of the restart file -/

/-- The restart variables written by some events. -/
def restartOf : List (Ev T V) → List (String × Val T V)
  | [] => []
  | .putRestart k v :: es => (k, v) :: restartOf es
  | _ :: es => restartOf es

theorem restartOf_length (es : List (Ev T V)) : (restartOf es).length = restartPuts es := by
  induction es with
  | nil => rfl
  | cons e es ih => cases e <;> simp [restartOf, restartPuts, ih]

theorem restartOf_append (a b : List (Ev T V)) : restartOf (a ++ b) = restartOf a ++ restartOf b := by
  induction a with
  | nil => rfl
  | cons e a ih => cases e <;> simp [restartOf, ih]

theorem restartOf_take (es : List (Ev T V)) (k : Nat) : restartOf (es.take k) = (restartOf es).take (restartPuts (es.take k)) := by
  have h : restartOf es = restartOf (es.take k) ++ restartOf (es.drop k) := by rw [← restartOf_append, List.take_append_drop]
  rw [h, ← restartOf_length, List.take_left]

/-- Events that do not recreate the restart file. -/
def NoNew : List (Ev T V) → Prop := fun es => ∀ e ∈ es, e ≠ .newRestart

theorem after_restart (es : List (Ev T V)) (h : NoNew es) : ∀ F : Files T V, (F.after es).restart = puts (restartOf es) F.restart := by
  induction es with
  | nil => intro F; rfl
  | cons e es ih =>
    intro F
    have h2 := ih (fun x hx => h x (by simp [hx])) (F.apply e)
    show ((F.apply e).after es).restart = _
    rw [h2]
    cases e with
    | newRestart => exact absurd rfl (h .newRestart (by simp))
    | putRestart k v => rfl
    | newDump => rfl
    | putDump k v => rfl
    | check => rfl

theorem restartOf_puts (ro : Sect T V) : restartOf (ro.map (fun kv => (Ev.putRestart kv.1 kv.2 : Ev T V))) = ro := by
  induction ro with
  | nil => rfl
  | cons a ro ih => obtain ⟨k, v⟩ := a; simp [restartOf, ih]

theorem restartOf_dumps (ro : Sect T V) : restartOf (ro.map (fun kv => (Ev.putDump kv.1 kv.2 : Ev T V))) = [] := by
  induction ro with
  | nil => rfl
  | cons a ro ih => simp [restartOf, ih]

/-- The sections written by the outputs of a run. -/
def snaps (names : List String) : Sect T V → List (Sol T V) → List (Sect T V)
  | _, [] => []
  | ro, p :: ps => snapshot names p ro :: snaps names (snapshot names p ro) ps

theorem restartOf_outputs (c : Cfg T V) : ∀ (ps : List (Sol T V)) (fresh : Bool) (ro : Sect T V),
    restartOf (outputs c fresh ro ps) = (snaps c.names ro ps).flatten := by
  intro ps
  induction ps with
  | nil => intro _ _; rfl
  | cons p ps ih =>
    intro fresh ro
    rw [outputs, restartOf_append, ih, snaps, List.flatten_cons, outputStep, restartOf_append, restartOf_puts, restartOf_append, restartOf_append, restartOf_dumps]
    cases fresh <;> simp [restartOf]

theorem noNew_outputs (c : Cfg T V) : ∀ (ps : List (Sol T V)) (fresh : Bool) (ro : Sect T V), NoNew (outputs c fresh ro ps) := by
  intro ps
  induction ps with
  | nil => intro _ _ e he; cases he
  | cons p ps ih =>
    intro fresh ro e he
    rw [outputs, List.mem_append] at he
    rcases he with he | he
    · rw [outputStep] at he
      simp only [List.mem_append, List.mem_map, List.mem_singleton] at he
      rcases he with ⟨_, _, rfl⟩ | he | ⟨_, _, rfl⟩ | rfl
      · nofun
      · cases fresh
        · cases he
        · have : e = .newDump := by simpa using he
          subst this; nofun
      · nofun
      · nofun
    · exact ih _ _ e he

theorem snaps_keys (names : List String) : ∀ (ps : List (Sol T V)) (ro : Sect T V), (∀ x ∈ solverKeys names, x ∈ ro.map Prod.fst) →
    ∀ b ∈ snaps names ro ps, b.map Prod.fst = ro.map Prod.fst := by
  intro ps
  induction ps with
  | nil => intro _ _ b hb; cases hb
  | cons p ps ih =>
    intro ro h b hb
    have e := snapshot_keys names p ro h
    rw [snaps, List.mem_cons] at hb
    rcases hb with hb | hb
    · rw [hb, e]
    · rw [ih _ (by rw [e]; exact h) b hb, e]

theorem snaps_length (names : List String) : ∀ (ps : List (Sol T V)) (ro : Sect T V), (snaps names ro ps).length = ps.length := by
  intro ps
  induction ps with
  | nil => intro _; rfl
  | cons p ps ih => intro ro; simp [snaps, ih]

theorem snaps_get (names : List String) : ∀ (ps : List (Sol T V)) (ro : Sect T V) (i : Nat) (b : Sect T V), (snaps names ro ps)[i]? = some b →
    ∃ p ro', ps[i]? = some p ∧ b = snapshot names p ro' := by
  intro ps
  induction ps with
  | nil => intro _ i b h; cases i <;> cases h
  | cons p ps ih =>
    intro ro i b h
    cases i with
    | zero => exact ⟨p, ro, rfl, by simpa [snaps] using h.symm⟩
    | succ i => exact ih _ i b (by simpa [snaps] using h)

/-! ## Blocks of equal length -/

theorem take_blocks {α : Type} (R : Nat) : ∀ (bs : List (List α)), (∀ b ∈ bs, b.length = R) → ∀ m j, j ≤ R →
    bs.flatten.take (R * m + j) = (bs.take m).flatten ++ ((bs[m]?).getD []).take j := by
  intro bs
  induction bs with
  | nil => intro _ m j _; simp
  | cons b bs ih =>
    intro h m j hj
    have hb := h b (by simp)
    cases m with
    | zero =>
      simp only [List.flatten_cons, Nat.mul_zero, Nat.zero_add, List.take_zero, List.flatten_nil, List.nil_append, List.getElem?_cons_zero, Option.getD_some]
      rw [List.take_append_of_le_length (by omega)]
    | succ m =>
      have e : R * (m + 1) + j = b.length + (R * m + j) := by rw [hb]; ring
      rw [List.flatten_cons, e, List.take_length_add_append, ih (fun x hx => h x (by simp [hx])) m j hj]
      simp

theorem puts_append (a b : List (String × Val T V)) (l : Sect T V) : puts (a ++ b) l = puts b (puts a l) := by simp [puts, List.foldl_append]

/-- After whole blocks with the same keys, the section is the last block. -/
theorem puts_blocks : ∀ (bs : List (Sect T V)) (b0 : Sect T V), (b0.map Prod.fst).Nodup → (∀ b ∈ bs, b.map Prod.fst = b0.map Prod.fst) →
    puts bs.flatten b0 = bs.getLastD b0 := by
  intro bs
  induction bs with
  | nil => intro b0 _ _; rfl
  | cons b bs ih =>
    intro b0 hn hk
    have hb := hk b (by simp)
    have e : puts b b0 = b := by
      have := puts_over b [] b0 [] (by simpa [hb] using hn) hb.symm
      simpa using this
    rw [List.flatten_cons, puts_append, e, ih b (by rw [hb]; exact hn) (by intro x hx; rw [hk x (by simp [hx]), hb])]
    cases bs with
    | nil => rfl
    | cons x xs => simp [List.getLastD]

/-- Every file content after the first `r` restart variables of a run: block `m` is complete, the next one written up to its entry `j`. -/
theorem restart_content (c : Cfg T V) (ro : Sect T V) (start : Sol T V) (newId : String) (append initial : Bool) (outs : List (T × (String → V)))
    (hro : (ro.map Prod.fst).Nodup) (F : Files T V) (k m j : Nat) (hj : j < (snapshot c.names start ro).length)
    (hk : restartPuts ((runTrace c ro start newId append initial outs).take k) = (snapshot c.names start ro).length * (m + 1) + j) :
    ∃ b q ro', (start :: monitored start newId initial outs)[m]? = some q ∧ b = snapshot c.names q ro' ∧ (j = 0 ∧
      (F.after ((runTrace c ro start newId append initial outs).take k)).restart = b ∨
      ∃ p b', (start :: monitored start newId initial outs)[m + 1]? = some p ∧ b' = snapshot c.names p b ∧
        (F.after ((runTrace c ro start newId append initial outs).take k)).restart = b'.take j ++ b.drop j) := by
  generalize hS : snapshot c.names start ro = S at hj hk
  have hSn : (S.map Prod.fst).Nodup := by rw [← hS]; exact snapshot_nodup _ _ _ hro
  have hSk : ∀ x ∈ solverKeys c.names, x ∈ S.map Prod.fst := by intro x hx; rw [← hS]; exact snapshot_mem _ _ _ _ hx
  generalize hps : monitored start newId initial outs = ps
  have htr : runTrace c ro start newId append initial outs = .newRestart :: (S.map (fun kv => .putRestart kv.1 kv.2) ++ outputs c (!append) S ps) := by
    rw [runTrace, hS, hps]
  cases k with
  | zero =>
    rw [List.take_zero] at hk
    have h0 : 0 = S.length * (m + 1) + j := hk
    have h1 : S.length * (m + 1) = S.length * m + S.length := Nat.mul_succ ..
    omega
  | succ k =>
    have hNN : NoNew (S.map (fun kv => (Ev.putRestart kv.1 kv.2 : Ev T V)) ++ outputs c (!append) S ps) := by
      intro e he
      rcases List.mem_append.1 he with he | he
      · obtain ⟨_, _, rfl⟩ := List.mem_map.1 he; nofun
      · exact noNew_outputs c ps _ _ e he
    have hrest : restartOf (S.map (fun kv => (Ev.putRestart kv.1 kv.2 : Ev T V)) ++ outputs c (!append) S ps) = (S :: snaps c.names S ps).flatten := by
      rw [restartOf_append, restartOf_puts, restartOf_outputs, List.flatten_cons]
    rw [htr, List.take_succ_cons] at hk ⊢
    generalize hes : S.map (fun kv => (Ev.putRestart kv.1 kv.2 : Ev T V)) ++ outputs c (!append) S ps = es at hk hNN hrest ⊢
    have hk' : restartPuts (es.take k) = S.length * (m + 1) + j := hk
    have hF : (F.after (.newRestart :: es.take k)).restart = puts (restartOf (es.take k)) [] :=
      after_restart _ (fun e he => hNN e (List.mem_of_mem_take he)) _
    have hlen : ∀ b ∈ S :: snaps c.names S ps, b.length = S.length := by
      intro b hb
      rcases List.mem_cons.1 hb with hb | hb
      · rw [hb]
      · have := congrArg List.length (snaps_keys c.names ps S hSk b hb)
        simpa using this
    rw [restartOf_take, hrest, hk', take_blocks S.length _ hlen (m + 1) j (by omega)] at hF
    have hkeys : ∀ b ∈ snaps c.names S ps, b.map Prod.fst = S.map Prod.fst := snaps_keys c.names ps S hSk
    have hm : m ≤ ps.length := by
      have h1 : (es.take k).length ≤ es.length := List.length_take_le' ..
      have h2 : restartPuts (es.take k) ≤ (restartOf es).length := by
        rw [← restartOf_length, restartOf_take]; exact List.length_take_le' ..
      rw [hrest, hk'] at h2
      have h3 : ∀ (bs : List (Sect T V)), (∀ b ∈ bs, b.length = S.length) → bs.flatten.length = S.length * bs.length := by
        intro bs
        induction bs with
        | nil => intro _; simp
        | cons b bs ih => intro h; rw [List.flatten_cons, List.length_append, ih (fun x hx => h x (by simp [hx])), h b (by simp), List.length_cons]; ring
      rw [h3 _ hlen, List.length_cons, snaps_length] at h2
      have h4 : S.length * (m + 1) ≤ S.length * (ps.length + 1) := by omega
      have := Nat.le_of_mul_le_mul_left h4 (by omega)
      omega
    -- the block `m`
    have hblock : ∃ b q ro', (S :: snaps c.names S ps)[m]? = some b ∧ (start :: ps)[m]? = some q ∧ b = snapshot c.names q ro' := by
      cases m with
      | zero => exact ⟨S, start, ro, rfl, rfl, hS.symm⟩
      | succ m =>
        have hl : m < (snaps c.names S ps).length := by rw [snaps_length]; omega
        obtain ⟨q, ro', h1, h2⟩ := snaps_get c.names ps S m _ (List.getElem?_eq_getElem hl)
        exact ⟨_, q, ro', by rw [List.getElem?_cons_succ, List.getElem?_eq_getElem hl], by rw [List.getElem?_cons_succ]; exact h1, h2⟩
    obtain ⟨b, q, ro', hb, hq, hbq⟩ := hblock
    have hbm : b ∈ S :: snaps c.names S ps := List.mem_of_getElem? hb
    have hbk : b.map Prod.fst = S.map Prod.fst := by
      rcases List.mem_cons.1 hbm with h | h
      · rw [h]
      · exact hkeys b h
    -- after the complete blocks
    have hfull : puts ((S :: snaps c.names S ps).take (m + 1)).flatten [] = b := by
      rw [List.take_succ_cons, List.flatten_cons, puts_append, puts_new S [] (by simpa using hSn), List.nil_append,
        puts_blocks _ S hSn (fun x hx => hkeys x (List.mem_of_mem_take hx))]
      have hb' := hb
      cases m with
      | zero => simpa using hb'
      | succ m =>
        rw [List.getElem?_cons_succ] at hb'
        have hl : m < (snaps c.names S ps).length := (List.getElem?_eq_some_iff.1 hb').1
        rw [List.getLastD_eq_getLast?, List.getLast?_eq_getElem?, List.length_take, Nat.min_eq_left (by omega), Nat.add_sub_cancel,
          List.getElem?_take_of_lt (by omega), hb']
        rfl
    rw [puts_append, hfull] at hF
    refine ⟨b, q, ro', hq, hbq, ?_⟩
    by_cases hj0 : j = 0
    · left
      subst hj0
      rw [hF]
      exact ⟨rfl, rfl⟩
    · right
      -- the next block exists
      have hm1 : m < ps.length := by
        by_contra hmc
        have hnone : (S :: snaps c.names S ps)[m + 1]? = none := by
          rw [List.getElem?_eq_none]; rw [List.length_cons, snaps_length]; omega
        have h2 : restartPuts (es.take k) ≤ (restartOf es).length := by
          rw [← restartOf_length, restartOf_take]; exact List.length_take_le' ..
        have h5 : (restartOf (es.take k)).length = S.length * (m + 1) + j := by rw [restartOf_length, hk']
        rw [restartOf_take, hrest, hk', take_blocks S.length _ hlen (m + 1) j (by omega), hnone] at h5
        have h6 : ((S :: snaps c.names S ps).take (m + 1)).flatten.length = S.length * (m + 1) := by
          have h3 : ∀ (bs : List (Sect T V)), (∀ b ∈ bs, b.length = S.length) → bs.flatten.length = S.length * bs.length := by
            intro bs
            induction bs with
            | nil => intro _; simp
            | cons b bs ih => intro h; rw [List.flatten_cons, List.length_append, ih (fun x hx => h x (by simp [hx])), h b (by simp), List.length_cons]; ring
          rw [h3 _ (fun x hx => hlen x (List.mem_of_mem_take hx)), List.length_take, List.length_cons, snaps_length, Nat.min_eq_left (by omega)]
        simp only [Option.getD_none, List.take_nil, List.append_nil] at h5
        omega
      have hl : m < (snaps c.names S ps).length := by rw [snaps_length]; exact hm1
      have hnext : ∀ (ps : List (Sol T V)) (S : Sect T V) (m : Nat) (b b' : Sect T V), (S :: snaps c.names S ps)[m]? = some b → (snaps c.names S ps)[m]? = some b' →
          ∃ p, ps[m]? = some p ∧ b' = snapshot c.names p b := by
        intro ps
        induction ps with
        | nil => intro S m b b' _ h; cases m <;> cases h
        | cons p ps ih =>
          intro S m b b' h h'
          cases m with
          | zero =>
            have e1 : S = b := by simpa using h
            have e2 : snapshot c.names p S = b' := by simpa [snaps] using h'
            exact ⟨p, rfl, by rw [← e2, e1]⟩
          | succ m => exact ih _ m b b' (by simpa [snaps] using h) (by simpa [snaps] using h')
      obtain ⟨p, hp, hb'⟩ := hnext ps S m b _ hb (List.getElem?_eq_getElem hl)
      refine ⟨p, _, by rw [List.getElem?_cons_succ]; exact hp, rfl, ?_⟩
      rw [← hb', hF, List.getElem?_cons_succ, List.getElem?_eq_getElem hl, Option.getD_some]
      generalize hnb : (snaps c.names S ps)[m] = nb
      have hnk : nb.map Prod.fst = S.map Prod.fst := hkeys nb (by rw [← hnb]; exact List.getElem_mem hl)
      have hbb : b = b.take j ++ b.drop j := (List.take_append_drop j b).symm
      have := puts_over (nb.take j) [] (b.take j) (b.drop j) (by
          rw [List.map_nil, List.nil_append, List.map_take, hnk]
          exact List.Nodup.sublist (List.take_sublist _ _) hSn) (by rw [List.map_take, List.map_take, hnk, hbk])
      rw [List.nil_append, List.nil_append] at this
      rw [← this, ← hbb]

end Verif.Restart
