import Mathlib.Logic.Function.Iterate
import Mathlib.Tactic.Ring
import Verif.Restart.Props

/-! # C64: restarting continues where the last output was -/

namespace Verif.Restart

variable {T V : Type}

/-- **C64.** However often and wherever a run is stopped - at the end, by a monitor, or by a crash between any two writes - as long as it is not in the middle of
writing the restart file (the number of restart variables written is a whole number `m + 1` of snapshots), restarting reads the time, the counter, the id and all
evolving variables of one and the same moment: the beginning of the run (`m = 0`) or its `m`-th output, the last one it wrote. -/
theorem C64_restart_point (c : Cfg T V) (hn : NotReserved c.names) (ro : Sect T V) (start : Sol T V) (newId : String) (append initial : Bool)
    (outs : List (T × (String → V))) (hro : (ro.map Prod.fst).Nodup) (F : Files T V) (k m : Nat)
    (hk : restartPuts ((runTrace c ro start newId append initial outs).take k) = (snapshot c.names start ro).length * (m + 1)) (init : String → V) :
    ∃ q, (start :: monitored start newId initial outs)[m]? = some q ∧
      resume c.names init (F.after ((runTrace c ro start newId append initial outs).take k)).restart =
        some ⟨q.time, q.iter, q.runId, defaultId, fun n => if n ∈ c.names then q.s n else init n⟩ := by
  have hpos : 0 < (snapshot c.names start ro).length := by
    have h := snapshot_mem c.names start ro "tt" (by simp [solverKeys])
    have := List.length_pos_of_mem h
    simpa using this
  obtain ⟨b, q, ro', hq, hb, h⟩ := restart_content c ro start newId append initial outs hro F k m 0 hpos (by simpa using hk)
  refine ⟨q, hq, ?_⟩
  rcases h with ⟨_, h⟩ | ⟨p, b', _, _, h⟩
  · rw [h, hb, resume_snapshot _ hn]
  · rw [h, List.take_zero, List.nil_append, List.drop_zero, hb, resume_snapshot _ hn]

/-- **C64.** And if it is stopped in the middle of writing the restart file, exactly: the first `j` variables of the file are those of the new output, the
others still those of the one before. -/
theorem C64_torn_content (c : Cfg T V) (ro : Sect T V) (start : Sol T V) (newId : String) (append initial : Bool) (outs : List (T × (String → V)))
    (hro : (ro.map Prod.fst).Nodup) (F : Files T V) (k m j : Nat) (hj0 : 0 < j) (hj : j < (snapshot c.names start ro).length)
    (hk : restartPuts ((runTrace c ro start newId append initial outs).take k) = (snapshot c.names start ro).length * (m + 1) + j) :
    ∃ q p ro', (start :: monitored start newId initial outs)[m]? = some q ∧ (start :: monitored start newId initial outs)[m + 1]? = some p ∧
      (F.after ((runTrace c ro start newId append initial outs).take k)).restart =
        (snapshot c.names p (snapshot c.names q ro')).take j ++ (snapshot c.names q ro').drop j := by
  obtain ⟨b, q, ro', hq, hb, h⟩ := restart_content c ro start newId append initial outs hro F k m j hj hk
  rcases h with ⟨h, _⟩ | ⟨p, b', hp, hb', h⟩
  · omega
  · exact ⟨q, p, ro', hq, hp, by rw [h, hb', hb]⟩

/-- **C64.** A variable that the restart file does not have keeps the value from the input file; the others are read. -/
theorem C64_new_variable (names : List String) (init : String → V) (ro : Sect T V) (t : T) (ht : getKey "tt" ro = some (.time t)) :
    ∃ st, resume names init ro = some st ∧ st.time = t ∧ (∀ n ∈ names, getKey n ro = none → st.s n = init n) ∧
      ∀ n ∈ names, ∀ v, getKey n ro = some (.fld v) → st.s n = v := by
  unfold resume
  rw [ht]
  refine ⟨_, rfl, rfl, ?_, ?_⟩
  · intro n hn h; simp [hn, h]
  · intro n hn v h; simp [hn, h]

/-! ## The output file -/

/-- The records of a variable. -/
def recsIn (x : String) : List (String × List (Val T V)) → List (Val T V)
  | [] => []
  | (k, vs) :: l => if k = x then vs else recsIn x l

/-- The values that a list of writes gives to `x`. -/
def valuesOf (x : String) : List (String × Val T V) → List (Val T V)
  | [] => []
  | (k, v) :: l => if k = x then v :: valuesOf x l else valuesOf x l

theorem recsIn_add (x k : String) (v : Val T V) : ∀ d, recsIn x (addRec k v d) = if k = x then recsIn x d ++ [v] else recsIn x d := by
  intro d
  induction d with
  | nil => by_cases h : k = x <;> simp [addRec, recsIn, h]
  | cons a d ih =>
    obtain ⟨k', vs⟩ := a
    by_cases h : k' = k
    · subst h
      rw [addRec, if_pos rfl, recsIn]
      by_cases h2 : k' = x
      · rw [if_pos h2, if_pos h2, recsIn, if_pos h2]
      · rw [if_neg h2, if_neg h2, recsIn, if_neg h2]
    · rw [addRec, if_neg h, recsIn]
      by_cases h2 : k' = x
      · rw [if_pos h2, if_neg (by intro e; exact h (h2.trans e.symm)), recsIn, if_pos h2]
      · rw [if_neg h2, ih, recsIn, if_neg h2]

theorem valuesOf_append (x : String) (a b : List (String × Val T V)) : valuesOf x (a ++ b) = valuesOf x a ++ valuesOf x b := by
  induction a with
  | nil => rfl
  | cons y a ih =>
    obtain ⟨k, v⟩ := y
    by_cases h : k = x <;> simp [valuesOf, h, ih]

/-- The records written by some events. -/
def dumpOf : List (Ev T V) → List (String × Val T V)
  | [] => []
  | .putDump k v :: es => (k, v) :: dumpOf es
  | _ :: es => dumpOf es

theorem dumpOf_length (es : List (Ev T V)) : (dumpOf es).length = dumpPuts es := by
  induction es with
  | nil => rfl
  | cons e es ih => cases e <;> simp [dumpOf, dumpPuts, ih]

theorem dumpOf_append (a b : List (Ev T V)) : dumpOf (a ++ b) = dumpOf a ++ dumpOf b := by
  induction a with
  | nil => rfl
  | cons e a ih => cases e <;> simp [dumpOf, ih]

theorem dumpOf_take (es : List (Ev T V)) (k : Nat) : dumpOf (es.take k) = (dumpOf es).take (dumpPuts (es.take k)) := by
  have h : dumpOf es = dumpOf (es.take k) ++ dumpOf (es.drop k) := by rw [← dumpOf_append, List.take_append_drop]
  rw [h, ← dumpOf_length, List.take_left]

/-- Writing records. -/
def adds (ps : List (String × Val T V)) (d : List (String × List (Val T V))) : List (String × List (Val T V)) := ps.foldl (fun d kv => addRec kv.1 kv.2 d) d

theorem recsIn_adds (x : String) : ∀ (ps : List (String × Val T V)) d, recsIn x (adds ps d) = recsIn x d ++ valuesOf x ps := by
  intro ps
  induction ps with
  | nil => intro d; simp [adds, valuesOf]
  | cons a ps ih =>
    intro d
    obtain ⟨k, v⟩ := a
    show recsIn x (adds ps (addRec k v d)) = _
    rw [ih, recsIn_add]
    by_cases h : k = x <;> simp [valuesOf, h]

/-- With an empty output file, or without recreating it, the output file after some events is what the records give. -/
theorem after_dump : ∀ (es : List (Ev T V)) (F : Files T V), (∀ e ∈ es, e ≠ .newDump) → (F.after es).dump = adds (dumpOf es) F.dump := by
  intro es
  induction es with
  | nil => intro F _; rfl
  | cons e es ih =>
    intro F h
    show ((F.apply e).after es).dump = _
    rw [ih _ (fun x hx => h x (by simp [hx]))]
    cases e with
    | newDump => exact absurd rfl (h .newDump (by simp))
    | putDump k v => rfl
    | newRestart => rfl
    | putRestart k v => rfl
    | check => rfl

theorem dumpOf_puts (ro : Sect T V) : dumpOf (ro.map (fun kv => (Ev.putRestart kv.1 kv.2 : Ev T V))) = [] := by
  induction ro with
  | nil => rfl
  | cons a ro ih => simp [dumpOf, ih]

theorem dumpOf_dumps (ro : Sect T V) : dumpOf (ro.map (fun kv => (Ev.putDump kv.1 kv.2 : Ev T V))) = ro := by
  induction ro with
  | nil => rfl
  | cons a ro ih => obtain ⟨k, v⟩ := a; simp [dumpOf, ih]

theorem dumpOf_outputs (c : Cfg T V) : ∀ (ps : List (Sol T V)) (fresh : Bool) (ro : Sect T V),
    dumpOf (outputs c fresh ro ps) = (ps.map fun p => c.rec_ p.time p.s).flatten := by
  intro ps
  induction ps with
  | nil => intro _ _; rfl
  | cons p ps ih =>
    intro fresh ro
    rw [outputs, dumpOf_append, ih, outputStep, dumpOf_append, dumpOf_puts, dumpOf_append, dumpOf_append, dumpOf_dumps]
    cases fresh <;> simp [dumpOf]

theorem dumpOf_run (c : Cfg T V) (ro : Sect T V) (start : Sol T V) (newId : String) (append initial : Bool) (outs : List (T × (String → V))) :
    dumpOf (runTrace c ro start newId append initial outs) = ((monitored start newId initial outs).map fun p => c.rec_ p.time p.s).flatten := by
  rw [runTrace]
  show dumpOf (_ ++ _) = _
  rw [dumpOf_append, dumpOf_puts, dumpOf_outputs]; rfl

theorem noDump_outputs (c : Cfg T V) : ∀ (ps : List (Sol T V)) (ro : Sect T V), ∀ e ∈ outputs c false ro ps, e ≠ .newDump := by
  intro ps
  induction ps with
  | nil => intro _ e he; cases he
  | cons p ps ih =>
    intro ro e he
    rw [outputs, List.mem_append] at he
    rcases he with he | he
    · rw [outputStep] at he
      simp only [List.mem_append, List.mem_map, List.mem_singleton] at he
      rcases he with ⟨_, _, rfl⟩ | he | ⟨_, _, rfl⟩ | rfl
      · nofun
      · simp at he
      · nofun
      · nofun
    · exact ih _ e he

theorem noDump_run (c : Cfg T V) (ro : Sect T V) (start : Sol T V) (newId : String) (initial : Bool) (outs : List (T × (String → V))) :
    ∀ e ∈ runTrace c ro start newId true initial outs, e ≠ .newDump := by
  intro e he
  rw [runTrace, List.mem_cons, List.mem_append] at he
  rcases he with rfl | he | he
  · nofun
  · obtain ⟨_, _, rfl⟩ := List.mem_map.1 he; nofun
  · exact noDump_outputs c _ _ e he

/-- On empty output, recreating the file changes nothing until the first record, and it is recreated only then. -/
theorem after_dump_fresh (c : Cfg T V) (ro : Sect T V) (start : Sol T V) (newId : String) (initial : Bool) (outs : List (T × (String → V))) (F : Files T V)
    (hF : F.dump = []) (k : Nat) : (F.after ((runTrace c ro start newId false initial outs).take k)).dump =
      adds (dumpOf ((runTrace c ro start newId false initial outs).take k)) [] := by
  -- split the trace at the recreation
  have key : ∀ (pre post : List (Ev T V)) (F : Files T V), F.dump = [] → (∀ e ∈ pre, e ≠ .newDump) → dumpOf pre = [] → (∀ e ∈ post, e ≠ .newDump) → ∀ k,
      (F.after ((pre ++ .newDump :: post).take k)).dump = adds (dumpOf ((pre ++ .newDump :: post).take k)) [] := by
    intro pre
    induction pre with
    | nil =>
      intro post F hF _ _ h3 k
      cases k with
      | zero => exact hF
      | succ k =>
        show ((F.apply .newDump).after (post.take k)).dump = adds (dumpOf (post.take k)) []
        rw [after_dump _ _ (fun e he => h3 e (List.mem_of_mem_take he))]
        rfl
    | cons e pre ih =>
      intro post F hF h1 h2 h3 k
      cases k with
      | zero => exact hF
      | succ k =>
        have he := h1 e (by simp)
        cases e with
        | newDump => exact absurd rfl he
        | putDump k v => simp [dumpOf] at h2
        | newRestart => exact ih post (F.apply .newRestart) hF (fun x hx => h1 x (by simp [hx])) h2 h3 k
        | putRestart a b => exact ih post (F.apply (.putRestart a b)) hF (fun x hx => h1 x (by simp [hx])) h2 h3 k
        | check => exact ih post _ hF (fun x hx => h1 x (by simp [hx])) h2 h3 k
  rw [runTrace]
  cases hps : monitored start newId initial outs with
  | nil =>
    rw [outputs]
    have := after_dump ((Ev.newRestart :: ((snapshot c.names start ro).map (fun kv => Ev.putRestart kv.1 kv.2) ++ [])).take k) F (by
      intro e he
      have he := List.mem_of_mem_take he
      rw [List.append_nil, List.mem_cons] at he
      rcases he with rfl | he
      · nofun
      · obtain ⟨_, _, rfl⟩ := List.mem_map.1 he; nofun)
    rw [this, hF]
  | cons p ps =>
    have e : (Ev.newRestart :: ((snapshot c.names start ro).map (fun kv => Ev.putRestart kv.1 kv.2) ++ outputs c (!false) (snapshot c.names start ro) (p :: ps)))
        = (Ev.newRestart :: ((snapshot c.names start ro).map (fun kv => Ev.putRestart kv.1 kv.2) ++
            (snapshot c.names p (snapshot c.names start ro)).map (fun kv => Ev.putRestart kv.1 kv.2))) ++ .newDump ::
          ((c.rec_ p.time p.s).map (fun kv => Ev.putDump kv.1 kv.2) ++ [.check] ++ outputs c false (snapshot c.names p (snapshot c.names start ro)) ps) := by
      simp [outputs, outputStep]
    rw [e]
    refine key _ _ F hF ?_ ?_ ?_ k
    · intro e he
      rw [List.mem_cons, List.mem_append] at he
      rcases he with rfl | he | he
      · nofun
      · obtain ⟨_, _, rfl⟩ := List.mem_map.1 he; nofun
      · obtain ⟨_, _, rfl⟩ := List.mem_map.1 he; nofun
    · show dumpOf (_ ++ _) = _
      rw [dumpOf_append, dumpOf_puts, dumpOf_puts]; rfl
    · intro e he
      rw [List.mem_append, List.mem_append] at he
      rcases he with (he | he) | he
      · obtain ⟨_, _, rfl⟩ := List.mem_map.1 he; nofun
      · rw [List.mem_singleton] at he; subst he; nofun
      · exact noDump_outputs c _ _ e he

/-! ## Chains of runs -/

/-- The outputs of an integrator that needs nothing but the time and the variables. -/
def orbit (adv : T × (String → V) → T × (String → V)) (p : T × (String → V)) (n : Nat) : List (T × (String → V)) :=
  (List.range n).map fun i => adv^[i + 1] p

/-- The files after a chain of runs: a first one, and then any number of restarted ones that append to the output; each of them may be killed at any point at
which as many outputs have been written to the output file as to the restart file (`m`, of at most `n` it was asked for). `M` counts the outputs. -/
inductive Chain (c : Cfg T V) (adv : T × (String → V) → T × (String → V)) (D : Nat) (t0 : T) (init : String → V) : Nat → Files T V → Prop
  | first (id : String) (F : Files T V) (hF : F.dump = []) (n k m : Nat) (hm : 0 < m)
      (hr : restartPuts ((runTrace c [] ⟨t0, 0, defaultId, defaultId, init⟩ id false true (orbit adv (t0, init) n)).take k) =
        (snapshot c.names ⟨t0, 0, defaultId, defaultId, init⟩ ([] : Sect T V)).length * (m + 1))
      (hd : dumpPuts ((runTrace c [] ⟨t0, 0, defaultId, defaultId, init⟩ id false true (orbit adv (t0, init) n)).take k) = D * m) :
      Chain c adv D t0 init m (F.after ((runTrace c [] ⟨t0, 0, defaultId, defaultId, init⟩ id false true (orbit adv (t0, init) n)).take k))
  | next (id : String) (M : Nat) (F : Files T V) (h : Chain c adv D t0 init M F) (st : Sol T V) (hst : resume c.names init F.restart = some st) (n k m : Nat)
      (hr : restartPuts ((runTrace c F.restart st id true false (orbit adv (st.time, st.s) n)).take k) = (snapshot c.names st F.restart).length * (m + 1))
      (hd : dumpPuts ((runTrace c F.restart st id true false (orbit adv (st.time, st.s) n)).take k) = D * m) :
      Chain c adv D t0 init (M + m) (F.after ((runTrace c F.restart st id true false (orbit adv (st.time, st.s) n)).take k))

theorem orbit_get (adv : T × (String → V) → T × (String → V)) (p : T × (String → V)) (n i : Nat) (q : T × (String → V)) (h : (orbit adv p n)[i]? = some q) :
    q = adv^[i + 1] p := by
  rw [orbit, List.getElem?_map] at h
  cases hr : (List.range n)[i]? with
  | none => rw [hr] at h; cases h
  | some j =>
    rw [hr] at h
    obtain ⟨h1, h2⟩ := List.getElem?_eq_some_iff.1 hr
    rw [List.getElem_range] at h2
    subst h2
    exact (Option.some.inj h).symm

theorem run_restart_nodup (c : Cfg T V) (ro : Sect T V) (start : Sol T V) (newId : String) (append initial : Bool) (outs : List (T × (String → V)))
    (F : Files T V) (k : Nat) (hF : (F.restart.map Prod.fst).Nodup) :
    ((F.after ((runTrace c ro start newId append initial outs).take k)).restart.map Prod.fst).Nodup := by
  have key : ∀ (es : List (Ev T V)) (F : Files T V), (F.restart.map Prod.fst).Nodup → ((F.after es).restart.map Prod.fst).Nodup := by
    intro es
    induction es with
    | nil => intro F h; exact h
    | cons e es ih =>
      intro F h
      refine ih (F.apply e) ?_
      cases e with
      | newRestart => simp [Files.apply]
      | putRestart k v => exact setKey_nodup _ _ _ h
      | newDump => exact h
      | putDump k v => exact h
      | check => exact h
  exact key _ F hF

theorem take_recs (c : Cfg T V) (D : Nat) (hD : ∀ t s, (c.rec_ t s).length = D) (ps : List (Sol T V)) (es : List (Ev T V))
    (he : dumpOf es = (ps.map fun p => c.rec_ p.time p.s).flatten) (k m : Nat) (hd : dumpPuts (es.take k) = D * m) :
    dumpOf (es.take k) = ((ps.take m).map fun p => c.rec_ p.time p.s).flatten := by
  rw [dumpOf_take, he, hd]
  have := take_blocks D (ps.map fun p => c.rec_ p.time p.s) (by intro b hb; obtain ⟨p, _, rfl⟩ := List.mem_map.1 hb; exact hD _ _) m 0 (Nat.zero_le _)
  rw [Nat.add_zero] at this
  rw [this, List.take_zero, List.append_nil, List.map_take]

/-- **C64.** For an integrator that needs nothing but the time and the variables: after any chain of runs, each killed and restarted (appending to the output), the
restart file holds the state of the last output, and the output file has, for every variable, exactly the records of the uninterrupted run: one per output, in
order, none missing and none twice. -/
theorem C64_chain_partial (c : Cfg T V) (hn : NotReserved c.names) (adv : T × (String → V) → T × (String → V)) (D : Nat) (hD : ∀ t s, (c.rec_ t s).length = D) (t0 : T)
    (init : String → V) (hadv : ∀ p n, n ∉ c.names → (adv p).2 n = p.2 n) (M : Nat) (F : Files T V) (h : Chain c adv D t0 init M F) :
    0 < M ∧ (∃ st, resume c.names init F.restart = some st ∧ (st.time, st.s) = adv^[M - 1] (t0, init)) ∧
    ∀ x, recsIn x F.dump = (List.range M).flatMap fun i => valuesOf x (c.rec_ (adv^[i] (t0, init)).1 (adv^[i] (t0, init)).2) := by
  have hoff : ∀ i n, n ∉ c.names → (adv^[i] (t0, init)).2 n = init n := by
    intro i n hnn
    induction i with
    | zero => rfl
    | succ i ih => rw [Function.iterate_succ_apply', hadv _ n hnn, ih]
  have hnd : (F.restart.map Prod.fst).Nodup → True := fun _ => trivial
  suffices hs : (F.restart.map Prod.fst).Nodup ∧ 0 < M ∧ (∃ st, resume c.names init F.restart = some st ∧ (st.time, st.s) = adv^[M - 1] (t0, init)) ∧
    ∀ x, recsIn x F.dump = (List.range M).flatMap fun i => valuesOf x (c.rec_ (adv^[i] (t0, init)).1 (adv^[i] (t0, init)).2) from hs.2
  clear hnd
  have flat : ∀ (x : String) (ps : List (Sol T V)), valuesOf x (ps.map fun p => c.rec_ p.time p.s).flatten = ps.flatMap fun p => valuesOf x (c.rec_ p.time p.s) := by
    intro x ps
    induction ps with
    | nil => rfl
    | cons p ps ih => rw [List.map_cons, List.flatten_cons, valuesOf_append, ih, List.flatMap_cons]
  -- the first `m` monitored states of a run whose `i`-th monitored state is `f i`
  have recs : ∀ (x : String) (ps : List (Sol T V)) (m : Nat) (f : Nat → T × (String → V)), m ≤ ps.length → (∀ i q, ps[i]? = some q → (q.time, q.s) = f i) →
      ((ps.take m).flatMap fun p => valuesOf x (c.rec_ p.time p.s)) = (List.range m).flatMap fun i => valuesOf x (c.rec_ (f i).1 (f i).2) := by
    intro x ps
    induction ps with
    | nil => intro m f hm _; have : m = 0 := by simpa using hm
             subst this; rfl
    | cons p ps ih =>
      intro m f hm hf
      cases m with
      | zero => rfl
      | succ m =>
        have h0 := hf 0 p rfl
        have hrec := ih m (fun i => f (i + 1)) (by simpa using hm) (fun i q hq => hf (i + 1) q (by simpa using hq))
        rw [List.take_succ_cons, List.flatMap_cons, hrec, List.range_succ_eq_map, List.flatMap_cons, List.flatMap_map]
        rw [← h0]
  induction h with
  | first id F hF n k m hm hr hd =>
    generalize hstart : (⟨t0, 0, defaultId, defaultId, init⟩ : Sol T V) = start at hr hd
    have hs1 : start.time = t0 := by rw [← hstart]
    have hs2 : start.s = init := by rw [← hstart]
    obtain ⟨q, hq, hres⟩ := C64_restart_point c hn [] start id false true (orbit adv (t0, init) n) (by simp) F k m hr init
    -- monitored states
    have hmon : ∀ i q, (monitored start id true (orbit adv (t0, init) n))[i]? = some q → (q.time, q.s) = adv^[i] (t0, init) := by
      intro i q hq
      cases i with
      | zero =>
        have : (⟨start.time, start.iter, id, start.runId, start.s⟩ : Sol T V) = q := by simpa [monitored] using hq
        rw [← this, hs1, hs2]; rfl
      | succ i =>
        rw [monitored, if_pos rfl, List.singleton_append, List.getElem?_cons_succ, List.getElem?_mapIdx] at hq
        cases ho : (orbit adv (t0, init) n)[i]? with
        | none => rw [ho] at hq; cases hq
        | some o =>
          rw [ho] at hq
          have h1 := orbit_get adv _ n i o ho
          have h2 := Option.some.inj hq
          rw [← h2, ← h1]
    have hml : m ≤ (monitored start id true (orbit adv (t0, init) n)).length := by
      have := (List.getElem?_eq_some_iff.1 hq).1
      rw [List.length_cons] at this; omega
    refine ⟨?_, hm, ?_, ?_⟩
    · -- keys
      have := run_restart_nodup c [] start id false true (orbit adv (t0, init) n) { F with restart := [] } k (by simp)
      cases k with
      | zero =>
        exfalso
        have hr' : 0 = _ := hr
        have hpos : 0 < (snapshot c.names start ([] : Sect T V)).length := by
          have h := snapshot_mem c.names start ([] : Sect T V) "tt" (by simp [solverKeys])
          have := List.length_pos_of_mem h
          simpa using this
        have h9 := Nat.mul_pos hpos (Nat.succ_pos m)
        have h10 : (snapshot c.names start ([] : Sect T V)).length * (m + 1) = 0 := hr'.symm
        exact absurd h10 (Nat.ne_of_gt h9)
      | succ k => exact this
    · refine ⟨_, hres, ?_⟩
      obtain ⟨i, rfl⟩ : ∃ i, m = i + 1 := ⟨m - 1, by omega⟩
      rw [List.getElem?_cons_succ] at hq
      have h1 := hmon i q hq
      have h2 := congrArg Prod.fst h1
      have h3 := congrArg Prod.snd h1
      dsimp only at h2 h3
      rw [Nat.add_sub_cancel]
      refine Prod.ext h2 ?_
      funext x
      dsimp only
      by_cases hx : x ∈ c.names
      · rw [if_pos hx, h3]
      · rw [if_neg hx, hoff i x hx]
    · intro x
      rw [after_dump_fresh c _ _ _ _ _ F hF, recsIn_adds,
        take_recs c D hD _ _ (dumpOf_run c _ _ _ _ _ _) k m hd, flat, recs x _ m (fun i => adv^[i] (t0, init)) hml hmon]
      rfl
  | next id M F hch st hst n k m hr hd ih =>
    obtain ⟨hnd, hM, ⟨st', hst', hpos⟩, hrec⟩ := ih
    rw [hst] at hst'
    have := Option.some.inj hst'
    subst this
    obtain ⟨q, hq, hres⟩ := C64_restart_point c hn F.restart st id true false (orbit adv (st.time, st.s) n) hnd F k m hr init
    have hmon : ∀ i q, (monitored st id false (orbit adv (st.time, st.s) n))[i]? = some q → (q.time, q.s) = adv^[M + i] (t0, init) := by
      intro i q hq
      rw [monitored, if_neg (by simp), List.nil_append, List.getElem?_mapIdx] at hq
      cases ho : (orbit adv (st.time, st.s) n)[i]? with
      | none => rw [ho] at hq; cases hq
      | some o =>
        rw [ho] at hq
        have h1 := orbit_get adv _ n i o ho
        have h2 := Option.some.inj hq
        have h3 : adv^[i + 1] (st.time, st.s) = adv^[M + i] (t0, init) := by
          rw [hpos, ← Function.iterate_add_apply]; congr 1; omega
        rw [← h2, ← h3, ← h1]
    have hml : m ≤ (monitored st id false (orbit adv (st.time, st.s) n)).length := by
      have := (List.getElem?_eq_some_iff.1 hq).1
      rw [List.length_cons] at this; omega
    refine ⟨run_restart_nodup c _ _ _ _ _ _ F k hnd, by omega, ?_, ?_⟩
    · refine ⟨_, hres, ?_⟩
      have h1 : (q.time, q.s) = adv^[M + m - 1] (t0, init) := by
        cases m with
        | zero =>
          have : st = q := by simpa using hq
          rw [← this, hpos]; rfl
        | succ i =>
          rw [List.getElem?_cons_succ] at hq
          rw [hmon i q hq]; congr 1
      have h2 := congrArg Prod.fst h1
      have h3 := congrArg Prod.snd h1
      dsimp only at h2 h3
      refine Prod.ext h2 ?_
      funext x
      dsimp only
      by_cases hx : x ∈ c.names
      · rw [if_pos hx, h3]
      · rw [if_neg hx, hoff _ x hx]
    · intro x
      rw [after_dump _ _ (fun e he => noDump_run c _ _ _ _ _ e (List.mem_of_mem_take he)), recsIn_adds,
        take_recs c D hD _ _ (dumpOf_run c _ _ _ _ _ _) k m hd, flat, recs x _ m (fun i => adv^[M + i] (t0, init)) hml hmon, hrec x,
        List.range_add, List.flatMap_append, List.flatMap_map]

end Verif.Restart
