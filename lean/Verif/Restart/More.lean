import Verif.Restart.Main

/-! # C64: the check of the output file, and what goes wrong -/

namespace Verif.Restart

variable {T V : Type}

theorem addRec_keys (k : String) (v : Val T V) : ∀ d : List (String × List (Val T V)),
    (addRec k v d).map Prod.fst = if k ∈ d.map Prod.fst then d.map Prod.fst else d.map Prod.fst ++ [k] := by
  intro d
  induction d with
  | nil => simp [addRec]
  | cons a d ih =>
    obtain ⟨k', v'⟩ := a
    by_cases h : k' = k
    · subst h; simp [addRec]
    · have hk : k ≠ k' := fun e => h e.symm
      rw [addRec, if_neg h, List.map_cons, ih]
      by_cases h2 : k ∈ d.map Prod.fst
      · rw [if_pos h2, if_pos (by rw [List.map_cons]; exact List.mem_cons_of_mem _ h2)]; rfl
      · rw [if_neg h2, if_neg (by rw [List.map_cons, List.mem_cons]; exact not_or.2 ⟨hk, h2⟩)]; rfl

theorem adds_keys_same : ∀ (b : List (String × Val T V)) (d : List (String × List (Val T V))), (∀ k ∈ b.map Prod.fst, k ∈ d.map Prod.fst) →
    (adds b d).map Prod.fst = d.map Prod.fst := by
  intro b
  induction b with
  | nil => intro d _; rfl
  | cons a b ih =>
    intro d h
    have e : (addRec a.1 a.2 d).map Prod.fst = d.map Prod.fst := by rw [addRec_keys, if_pos (h a.1 (by simp))]
    show (adds b (addRec a.1 a.2 d)).map Prod.fst = _
    rw [ih _ (by intro k hk; rw [e]; exact h k (by rw [List.map_cons]; exact List.mem_cons_of_mem _ hk)), e]

theorem adds_keys_new : ∀ (b : List (String × Val T V)) (d : List (String × List (Val T V))), (d.map Prod.fst ++ b.map Prod.fst).Nodup →
    (adds b d).map Prod.fst = d.map Prod.fst ++ b.map Prod.fst := by
  intro b
  induction b with
  | nil => intro d _; simp [adds]
  | cons a b ih =>
    intro d h
    have hk : a.1 ∉ d.map Prod.fst := by
      intro hm
      exact (List.nodup_append.1 h).2.2 a.1 hm a.1 (by simp) rfl
    have e : (addRec a.1 a.2 d).map Prod.fst = d.map Prod.fst ++ [a.1] := by rw [addRec_keys, if_neg hk]
    show (adds b (addRec a.1 a.2 d)).map Prod.fst = _
    rw [ih _ (by rw [e]; simpa using h), e]
    simp

theorem adds_flatten_keys (keys : List String) : ∀ (bs : List (List (String × Val T V))) (d : List (String × List (Val T V))),
    (∀ b ∈ bs, b.map Prod.fst = keys) → d.map Prod.fst = keys → (adds bs.flatten d).map Prod.fst = keys := by
  intro bs
  induction bs with
  | nil => intro d _ h; exact h
  | cons b bs ih =>
    intro d hb hd
    have e : adds (b :: bs).flatten d = adds bs.flatten (adds b d) := by simp [adds, List.foldl_append]
    rw [e]
    refine ih _ (fun x hx => hb x (by simp [hx])) ?_
    rw [adds_keys_same _ _ (by intro k hk; rw [hb b (by simp)] at hk; rw [hd]; exact hk), hd]

theorem adds_flatten_new (keys : List String) (hk : keys.Nodup) (bs : List (List (String × Val T V))) (hb : ∀ b ∈ bs, b.map Prod.fst = keys) (hne : bs ≠ []) :
    (adds bs.flatten ([] : List (String × List (Val T V)))).map Prod.fst = keys := by
  cases bs with
  | nil => exact absurd rfl hne
  | cons b bs =>
    have e : adds (b :: bs).flatten ([] : List (String × List (Val T V))) = adds bs.flatten (adds b []) := by simp [adds, List.foldl_append]
    rw [e]
    refine adds_flatten_keys keys bs _ (fun x hx => hb x (by simp [hx])) ?_
    have h1 := hb b (by simp)
    rw [adds_keys_new b [] (by simpa [h1] using hk), h1]; rfl

theorem recsIn_mem : ∀ (d : List (String × List (Val T V))), (d.map Prod.fst).Nodup → ∀ kv ∈ d, recsIn kv.1 d = kv.2 := by
  intro d
  induction d with
  | nil => intro _ kv h; cases h
  | cons a d ih =>
    intro hn kv h
    obtain ⟨k', vs⟩ := a
    rw [List.map_cons, List.nodup_cons] at hn
    rcases List.mem_cons.1 h with rfl | h
    · simp [recsIn]
    · have hne : k' ≠ kv.1 := by
        intro e
        have hm : kv.1 ∈ d.map Prod.fst := List.mem_map_of_mem h
        rw [← e] at hm
        exact hn.1 hm
      rw [recsIn, if_neg hne, ih hn.2 kv h]

theorem valuesOf_length (x : String) : ∀ (b : List (String × Val T V)), (b.map Prod.fst).Nodup → x ∈ b.map Prod.fst → (valuesOf x b).length = 1 := by
  intro b
  induction b with
  | nil => intro _ h; cases h
  | cons a b ih =>
    intro hn h
    obtain ⟨k, v⟩ := a
    rw [List.map_cons, List.nodup_cons] at hn
    have hz : ∀ (b : List (String × Val T V)), x ∉ b.map Prod.fst → valuesOf x b = [] := by
      intro b
      induction b with
      | nil => intro _; rfl
      | cons y b ih2 =>
        intro hh
        rw [List.map_cons, List.mem_cons, not_or] at hh
        obtain ⟨y1, y2⟩ := y
        rw [valuesOf, if_neg (Ne.symm hh.1), ih2 hh.2]
    by_cases hk : k = x
    · subst hk
      rw [valuesOf, if_pos rfl, hz b hn.1]; rfl
    · rw [valuesOf, if_neg hk]
      refine ih hn.2 ?_
      rw [List.map_cons, List.mem_cons] at h
      rcases h with h | h
      · exact absurd h.symm hk
      · exact h

theorem aligned_of_lengths (M : Nat) (d : List (String × List (Val T V))) (h : ∀ kv ∈ d, kv.2.length = M) : aligned d = true := by
  have hsize : ∀ (d : List (String × List (Val T V))) (m : Nat), (∀ kv ∈ d, kv.2.length = M) → m = M → d.foldl (fun m kv => max m kv.2.length) m = M := by
    intro d
    induction d with
    | nil => intro m _ hm; exact hm
    | cons a d ih =>
      intro m h hm
      rw [List.foldl_cons]
      refine ih _ (fun x hx => h x (by simp [hx])) ?_
      rw [h a (by simp), hm, Nat.max_self]
  cases d with
  | nil => rfl
  | cons a d =>
    have hs : (a :: d).foldl (fun m kv => max m kv.2.length) 0 = M := by
      rw [List.foldl_cons]
      exact hsize d _ (fun x hx => h x (by simp [hx])) (by rw [h a (by simp)]; omega)
    rw [aligned, hs]
    simp only [List.tail_cons, List.all_eq_true, beq_iff_eq]
    intro kv hkv
    exact h kv (by simp [hkv])

/-- **C64.** In such a chain the check of the output file at the end of every output succeeds: appending never aborts the run. -/
theorem C64_check_passes (c : Cfg T V) (hn : NotReserved c.names) (adv : T × (String → V) → T × (String → V)) (D : Nat) (keys : List String) (hk : keys.Nodup)
    (hkeys : ∀ t s, (c.rec_ t s).map Prod.fst = keys) (hD : keys.length = D) (t0 : T)
    (init : String → V) (hadv : ∀ p n, n ∉ c.names → (adv p).2 n = p.2 n) (M : Nat) (F : Files T V) (h : Chain c adv D t0 init M F) :
    F.dump.map Prod.fst = keys ∧ aligned F.dump = true := by
  have hD' : ∀ t s, (c.rec_ t s).length = D := by
    intro t s
    have := congrArg List.length (hkeys t s)
    rw [List.length_map] at this
    omega
  have hmain := C64_chain_partial c hn adv D hD' t0 init hadv M F h
  have hdk : F.dump.map Prod.fst = keys := by
    clear hmain
    have blocks : ∀ (ps : List (Sol T V)), ∀ b ∈ ps.map (fun p => c.rec_ p.time p.s), b.map Prod.fst = keys := by
      intro ps b hb
      obtain ⟨p, _, rfl⟩ := List.mem_map.1 hb
      exact hkeys _ _
    induction h with
    | first id F hF n k m hm hr hd =>
      rw [after_dump_fresh c _ _ _ _ _ F hF, take_recs c D hD' _ _ (dumpOf_run c _ _ _ _ _ _) k m hd]
      refine adds_flatten_new keys hk _ (blocks _) ?_
      intro he
      have h0 : m ≤ (monitored (⟨t0, 0, defaultId, defaultId, init⟩ : Sol T V) id true (orbit adv (t0, init) n)).length := by
        obtain ⟨q, hq, _⟩ := C64_restart_point c hn [] _ id false true (orbit adv (t0, init) n) (by simp) F k m hr init
        have := (List.getElem?_eq_some_iff.1 hq).1
        rw [List.length_cons] at this; omega
      have := congrArg List.length he
      rw [List.length_map, List.length_take, Nat.min_eq_left h0] at this
      exact absurd this (Nat.ne_of_gt hm)
    | next id M F hch st hst n k m hr hd ih =>
      rw [after_dump _ _ (fun e he => noDump_run c _ _ _ _ _ e (List.mem_of_mem_take he)), take_recs c D hD' _ _ (dumpOf_run c _ _ _ _ _ _) k m hd]
      exact adds_flatten_keys keys _ _ (blocks _) ih
  refine ⟨hdk, aligned_of_lengths M _ ?_⟩
  intro kv hkv
  rw [← recsIn_mem F.dump (by rw [hdk]; exact hk) kv hkv, hmain.2.2 kv.1]
  have hx : kv.1 ∈ keys := by rw [← hdk]; exact List.mem_map_of_mem hkv
  have hl : ∀ (l : List Nat) , (l.flatMap fun i => valuesOf kv.1 (c.rec_ (adv^[i] (t0, init)).1 (adv^[i] (t0, init)).2)).length = l.length := by
    intro l
    induction l with
    | nil => rfl
    | cons i l ih =>
      rw [List.flatMap_cons, List.length_append, ih, valuesOf_length _ _ (by rw [hkeys]; exact hk) (by rw [hkeys]; exact hx), List.length_cons]
      omega
  rw [hl, List.length_range]

/-! ## A model with two variables -/

/-- dn/dt = 1, dvort/dt = 2 with exact integration over one output step; the output file has the time and both variables. -/
def exCfg : Cfg Nat Nat := ⟨["n", "vort"], fun t s => [("n", .fld (s "n")), ("t_array", .time t), ("vort", .fld (s "vort"))]⟩

def exAdv : Nat × (String → Nat) → Nat × (String → Nat) := fun p => (p.1 + 1, fun x => if x = "n" then p.2 x + 1 else if x = "vort" then p.2 x + 2 else p.2 x)

def exStart : Sol Nat Nat := ⟨0, 0, defaultId, defaultId, fun _ => 0⟩

/-- The first run of the example, asked for two outputs. -/
def exRun : List (Ev Nat Nat) := runTrace exCfg [] exStart "A" false true (orbit exAdv (0, fun _ => 0) 2)

/-- What is read back (time and the two variables), if anything. -/
def readBack (F : Files Nat Nat) : Option (List Nat) := (resume exCfg.names (fun _ => 0) F.restart).map fun st => [st.time, st.s "n", st.s "vort"]

/-- The numbers in a record list. -/
def nums (l : List (Val Nat Nat)) : List Nat := l.map fun v => match v with | .time t => t | .fld v => v | _ => 0

theorem exHyps : NotReserved exCfg.names ∧ (∀ t s, (exCfg.rec_ t s).map Prod.fst = ["n", "t_array", "vort"]) ∧
    ∀ p n, n ∉ exCfg.names → (exAdv p).2 n = p.2 n := by
  refine ⟨by intro n hn; revert n; decide, fun _ _ => rfl, ?_⟩
  intro p n hn
  have h1 : n ≠ "n" := fun e => hn (by simp [exCfg, e])
  have h2 : n ≠ "vort" := fun e => hn (by simp [exCfg, e])
  simp [exAdv, h1, h2]

/-- The state at the first output. -/
def exSt : Sol Nat Nat := ⟨1, 0, "A", defaultId, fun n => if n ∈ exCfg.names then (exAdv (0, fun _ => 0)).2 n else 0⟩

/-- The files when the first run is killed after the second of its three monitor calls. -/
def exF : Files Nat Nat := (⟨[], []⟩ : Files Nat Nat).after (exRun.take 28)

theorem exResume : resume exCfg.names (fun _ => 0) exF.restart = some exSt := by
  obtain ⟨q, hq, hr⟩ := C64_restart_point exCfg exHyps.1 [] exStart "A" false true (orbit exAdv (0, fun _ => 0) 2) (by simp) ⟨[], []⟩ 28 2
    (by decide +kernel) (fun _ => 0)
  have hq2 : (⟨1, 0, "A", defaultId, (exAdv (0, fun _ => 0)).2⟩ : Sol Nat Nat) = q := Option.some.inj hq
  rw [exF, exRun, hr, ← hq2]
  rfl

/-- The files after it has been restarted, as run B, for two more outputs. -/
def exG : Files Nat Nat := exF.after ((runTrace exCfg exF.restart exSt "B" true false (orbit exAdv (exSt.time, exSt.s) 2)).take 100)

/-- This is a chain in the sense of the theorem; the records are those of the uninterrupted run. -/
theorem exChain : Chain exCfg exAdv 3 0 (fun _ => 0) 4 exG ∧ readBack exG = some [3, 3, 6] ∧ nums (recsIn "vort" exG.dump) = [0, 2, 4, 6] := by
  have h1 : Chain exCfg exAdv 3 0 (fun _ => 0) 2 exF :=
    Chain.first (c := exCfg) (adv := exAdv) (D := 3) (t0 := 0) (init := fun _ => 0) "A" ⟨[], []⟩ rfl 2 28 2 (by decide) (by decide +kernel) (by decide +kernel)
  exact ⟨Chain.next "B" 2 exF h1 exSt exResume 2 100 2 (by decide +kernel) (by decide +kernel), by decide +kernel, by decide +kernel⟩

/-! ## Findings -/

/-- **Finding.** The restart file is overwritten in place, variable by variable. A crash in the middle leaves a file that is read without complaint although its
variables belong to different times: here `n` and the time are of the first output, `vort` is still the initial one. -/
theorem C64_torn_restart_violated : ∃ k, readBack ((⟨[], []⟩ : Files Nat Nat).after (exRun.take k)) = some [1, 1, 0] := ⟨23, by decide +kernel⟩

/-- **Finding.** A restarted run begins by emptying the restart file it has just read: if it is killed then, there is no state left to restart from. -/
theorem C64_truncated_violated (F : Files Nat Nat) (st : Sol Nat Nat) (id : String) (append initial : Bool) (outs : List (Nat × (String → Nat))) :
    (F.after ((runTrace exCfg F.restart st id append initial outs).take 1)).restart = [] ∧
    resume exCfg.names (fun _ => 0) (F.after ((runTrace exCfg F.restart st id append initial outs).take 1)).restart = none := ⟨rfl, rfl⟩

/-- **Finding.** The restart file is written before the output file. A crash in between, and a restart that appends: the records of that output are missing - here the
one at time 1 - and nothing tells so. -/
theorem C64_gap_violated : ∃ k, let F := (⟨[], []⟩ : Files Nat Nat).after (exRun.take k)
    readBack F = some [1, 1, 2] ∧
    let G := F.after (runTrace exCfg F.restart ⟨1, 0, "A", defaultId, (exAdv (0, fun _ => 0)).2⟩ "B" true false (orbit exAdv (exAdv (0, fun _ => 0)) 2))
    nums (recsIn "t_array" G.dump) = [0, 2, 3] ∧ aligned G.dump = true := ⟨24, by decide +kernel⟩

/-- **Finding.** A crash while the output file is written leaves variables with different numbers of records; every later run that appends to this file is aborted
by the check at the end of its first output. -/
theorem C64_append_abort_violated : ∃ k, let F := (⟨[], []⟩ : Files Nat Nat).after (exRun.take k)
    readBack F = some [1, 1, 2] ∧
    let tr := runTrace exCfg F.restart ⟨1, 0, "A", defaultId, (exAdv (0, fun _ => 0)).2⟩ "B" true false (orbit exAdv (exAdv (0, fun _ => 0)) 1)
    (match tr.getLast? with | some .check => true | _ => false) = true ∧ aligned (F.after tr).dump = false := ⟨25, by decide +kernel⟩

/-- The counter in a restart file. -/
def counter (F : Files Nat Nat) : Option Int := (resume exCfg.names (fun _ => 0) F.restart).map fun st => st.iter

/-- **Finding.** The counter of outputs in the restart file (`hist_hi`) lags by one, because it is written before it is incremented; so every restart loses one:
two outputs in one run leave 1, one output and one more after a restart leave 0. -/
theorem C64_counter_violated :
    counter ((⟨[], []⟩ : Files Nat Nat).after exRun) = some 1 ∧
    let F := (⟨[], []⟩ : Files Nat Nat).after (runTrace exCfg [] exStart "A" false true (orbit exAdv (0, fun _ => 0) 1))
    counter F = some 0 ∧
    counter (F.after (runTrace exCfg F.restart ⟨1, 0, "A", defaultId, (exAdv (0, fun _ => 0)).2⟩ "B" true false (orbit exAdv (exAdv (0, fun _ => 0)) 1))) = some 0 := by
  decide +kernel

/-- **Finding.** A restarted run writes back all that it has read: a variable that is not evolved any more stays in the restart file with its old value. When it is
evolved again later, it starts from that value, not from the input file. -/
theorem C64_stale_variable_violated : ∃ F : Files Nat Nat, let F1 := F.after (runTrace ⟨["n"], fun _ _ => []⟩ F.restart
      ⟨2, 1, "A", defaultId, fun x => if x = "n" then 2 else 0⟩ "B" true false [(50, fun _ => 50)])
    (resume ["n", "vort"] (fun _ => 7) F1.restart).map (fun st => [st.time, st.s "n", st.s "vort"]) = some [50, 50, 4] :=
  ⟨(⟨[], []⟩ : Files Nat Nat).after exRun, by decide +kernel⟩

end Verif.Restart
