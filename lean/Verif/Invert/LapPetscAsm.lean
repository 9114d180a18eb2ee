import Verif.Invert.LapPetscProps

/-! # Assembly of the matrix of `LaplacePetsc`: rows are written once, by their owner -/

namespace Verif.LapPetsc

/-- The numbers of the rows of a processor are distinct. -/
theorem numbered_idx {α : Type} (i : Int) (cs : List α) :
    (numbered (fun (i : Int) (_ : α) => i) i cs).1
      = (List.range cs.length).map fun (k : Nat) => i + (k : Int) := by
  induction cs generalizing i with
  | nil => simp [numbered]
  | cons c cs ih =>
    rw [numbered, ih, List.length_cons, List.range_succ_eq_map, List.map_cons, List.map_map]
    simp only [Function.comp_def]
    congr 1
    · simp
    · apply List.map_congr_left
      intro k _
      push_cast
      ring

theorem numbered_len {α β : Type} (body : Int → α → β) (i : Int) (cs : List α) :
    (numbered body i cs).2 = i + (cs.length : Int) := by
  induction cs generalizing i with
  | nil => simp [numbered]
  | cons c cs ih => rw [numbered, ih]; push_cast [List.length_cons]; ring

theorem allCells_idx (g : Grid) (p : Nat) (hp : p < g.P) :
    (allCells g p).map (rowIdx g p)
        = (List.range (allCells g p).length).map (fun (k : Nat) => (g.Istart p : Int) + (k : Int))
      ∧ (g.Istart p : Int) + ((allCells g p).length : Int) = (g.Iend p : Int) := by
  have h : numbered (fun (i : Int) (_ : Int × Int) => i) (g.Istart p) (allCells g p)
      = ((allCells g p).map (rowIdx g p), (g.Iend p : Int)) := by
    unfold allCells
    rw [numbered_append, numbered_append]
    rw [loop_inner g p hp]
    dsimp only
    rw [loop_main g p]
    dsimp only
    rw [loop_outer g p hp]
    simp
  constructor
  · rw [← numbered_idx, h]
  · rw [← numbered_len (fun (i : Int) (_ : Int × Int) => i), h]

theorem nodup_idx (g : Grid) (p : Nat) (hp : p < g.P) : ((allCells g p).map (rowIdx g p)).Nodup := by
  rw [(allCells_idx g p hp).1]
  unfold List.Nodup
  rw [List.pairwise_map]
  exact List.nodup_range.imp (fun h e => h (by omega))

theorem idx_range (g : Grid) (p : Nat) (hp : p < g.P) (c : Int × Int) (hc : c ∈ allCells g p) :
    (g.Istart p : Int) ≤ rowIdx g p c ∧ rowIdx g p c < (g.Iend p : Int) := by
  have h1 : rowIdx g p c ∈ (allCells g p).map (rowIdx g p) := List.mem_map_of_mem hc
  obtain ⟨ha, hb⟩ := allCells_idx g p hp
  rw [ha] at h1
  obtain ⟨k, hk, he⟩ := List.mem_map.1 h1
  rw [List.mem_range] at hk
  omega

theorem Istart_mono (g : Grid) (p q : Nat) (h : p ≤ q) : g.Istart p ≤ g.Istart q := by
  induction q with
  | zero => have : p = 0 := by omega
            subst this; exact Nat.le_refl _
  | succ q ih =>
    by_cases hp : p = q + 1
    · subst hp; exact Nat.le_refl _
    · have := ih (by omega)
      rw [Istart_succ, Grid.Iend]
      omega

theorem Iend_le (g : Grid) (p q : Nat) (h : p < q) : g.Iend p ≤ g.Istart q := by
  rw [← Istart_succ]
  exact Istart_mono g _ _ h

section
variable {K : Type} [Field K]

theorem put_keep (g : Grid) (fo : Bool) (p : Nat) (rs : List (Row K)) (s : Sys K) (i : Int)
    (h : ∀ r ∈ rs, r.i ≠ i) :
    (rs.foldl (putRow g fo p) s).mat i = s.mat i
      ∧ (rs.foldl (putRow g fo p) s).bs i = s.bs i
      ∧ (rs.foldl (putRow g fo p) s).xs i = s.xs i := by
  induction rs generalizing s with
  | nil => simp
  | cons r rs ih =>
    rw [List.foldl_cons]
    have h0 : i ≠ r.i := fun e => h r (by simp) e.symm
    have := ih (putRow g fo p s r) (fun q hq => h q (by simp [hq]))
    simpa [putRow, h0] using this

theorem put_at (g : Grid) (fo : Bool) (p : Nat) (rs : List (Row K)) (s : Sys K) (r : Row K)
    (hr : r ∈ rs) (hn : rs.Pairwise fun a b => a.i ≠ b.i) :
    (rs.foldl (putRow g fo p) s).mat r.i
        = r.entries.foldl (insertRow g fo p r.i) (s.mat r.i)
      ∧ (rs.foldl (putRow g fo p) s).bs r.i = r.rhs
      ∧ (rs.foldl (putRow g fo p) s).xs r.i = r.guess := by
  induction rs generalizing s with
  | nil => simp at hr
  | cons a rs ih =>
    rw [List.foldl_cons]
    rw [List.pairwise_cons] at hn
    rcases List.mem_cons.1 hr with e | hr'
    · subst e
      have := put_keep g fo p rs (putRow g fo p s r) r.i (fun q hq e => hn.1 q hq e.symm)
      simpa [putRow] using this
    · have hne : r.i ≠ a.i := fun e => hn.1 r hr' e.symm
      have := ih (putRow g fo p s a) hr' hn.2
      simpa [putRow, hne] using this

theorem rowsOf_i (g : Grid) (o : Opts) (f : Flds K) (p : Nat) :
    (rowsOf g o f p).map Row.i = (allCells g p).map (rowIdx g p) := by
  simp [rowsOf, allCells, mkRow, List.map_map, Function.comp_def]

theorem rowsOf_pairwise (g : Grid) (o : Opts) (f : Flds K) (p : Nat) (hp : p < g.P) :
    (rowsOf g o f p).Pairwise fun a b => a.i ≠ b.i := by
  have h := nodup_idx g p hp
  rw [← rowsOf_i g o f p] at h
  unfold List.Nodup at h
  rwa [List.pairwise_map] at h

theorem rowsOf_range (g : Grid) (o : Opts) (f : Flds K) (p : Nat) (hp : p < g.P) (r : Row K)
    (hr : r ∈ rowsOf g o f p) :
    (g.Istart p : Int) ≤ r.i ∧ r.i < (g.Iend p : Int) := by
  have h1 : r.i ∈ (rowsOf g o f p).map Row.i := List.mem_map_of_mem hr
  rw [rowsOf_i] at h1
  obtain ⟨c, hc, he⟩ := List.mem_map.1 h1
  rw [← he]
  exact idx_range g p hp c hc

/-- Fields stored on processor `p`. -/
def locF (g : Grid) (G : Flds K) (p : Nat) : Flds K := G.shift ((p : Int) * (g.mx : Int))

theorem assembleUpTo_eq (g : Grid) (o : Opts) (G : Flds K) (s : Sys K) (n : Nat) (hn : n ≤ g.P) :
    ∃ s', assembleUpTo g o G s n = .ok s'
      ∧ (∀ p < n, ∀ r ∈ rowsOf g o (locF g G p) p,
          s'.mat r.i = r.entries.foldl (insertRow g o.fourth p r.i) (s.mat r.i)
          ∧ s'.bs r.i = r.rhs ∧ s'.xs r.i = r.guess)
      ∧ (∀ i : Int, (i < 0 ∨ (g.Istart n : Int) ≤ i) → s'.mat i = s.mat i) := by
  induction n with
  | zero => exact ⟨s, rfl, fun p hp => absurd hp (Nat.not_lt_zero p), fun _ _ => rfl⟩
  | succ m ih =>
    obtain ⟨s1, h1, h2, h3⟩ := ih (by omega)
    have hm : m < g.P := by omega
    refine ⟨(rowsOf g o (locF g G m) m).foldl (putRow g o.fourth m) s1, ?_, ?_, ?_⟩
    · simp only [assembleUpTo, bind, Except.bind]
      rw [h1]
      dsimp only
      rw [procRows_eq g o _ m hm]
      rfl
    · intro p hp r hr
      by_cases hpm : p = m
      · subst hpm
        have hb := rowsOf_range g o _ p hm r hr
        have := put_at g o.fourth p _ s1 r hr (rowsOf_pairwise g o _ p hm)
        rw [h3 r.i (Or.inr hb.1)] at this
        exact this
      · have hb := rowsOf_range g o _ p (by omega) r hr
        have hk := put_keep g o.fourth m (rowsOf g o (locF g G m) m) s1 r.i (by
          intro q hq e
          have hq' := rowsOf_range g o _ m hm q hq
          have := Iend_le g p m (by omega)
          omega)
        rw [hk.1, hk.2.1, hk.2.2]
        exact h2 p (by omega) r hr
    · intro i hi
      have hk := put_keep g o.fourth m (rowsOf g o (locF g G m) m) s1 i (by
          intro q hq e
          have hq' := rowsOf_range g o _ m hm q hq
          rw [Istart_succ] at hi
          omega)
      rw [hk.1]
      apply h3
      have := Istart_mono g m (m + 1) (by omega)
      omega

/-! ## One row -/

theorem map_keep (l : List (Int × K)) (e : Int × K) (h : ∀ q ∈ l, q.1 ≠ e.1) :
    l.map (fun q => if q.1 = e.1 then e else q) = l := by
  induction l with
  | nil => rfl
  | cons a l ih =>
    rw [List.map_cons, if_neg (h a (by simp)), ih (fun q hq => h q (by simp [hq]))]

/-- Writing a list of values with distinct columns into a row which is empty, or holds entries
in a prefix of these columns, leaves exactly these values, provided there is room. -/
theorem insert_all (g : Grid) (fo : Bool) (p : Nat) (i : Int) (done old todo : List (Int × K))
    (hpre : (old.map Prod.fst) <+: (todo.map Prod.fst))
    (hnd : ((done ++ todo).map Prod.fst).Nodup)
    (hrange : ∀ e ∈ todo, 0 ≤ e.1 ∧ e.1 < (g.size : Int))
    (hd : ((done ++ todo).countP fun q => inDiag g p q.1)
      ≤ (nnz g fo p (i - (g.Istart p : Int))).1)
    (ho : ((done ++ todo).countP fun q => !inDiag g p q.1)
      ≤ (nnz g fo p (i - (g.Istart p : Int))).2) :
    todo.foldl (insertRow g fo p i) (done ++ old) = done ++ todo := by
  induction todo generalizing done old with
  | nil =>
    have : old = [] := by simpa using hpre
    subst this; simp
  | cons e t ih =>
    have hr := hrange e (by simp)
    have hr1 : ¬ e.1 < 0 := by omega
    have hr2 : ¬ (g.size : Int) ≤ e.1 := by omega
    have hnd' := hnd
    rw [List.map_append, List.map_cons, List.nodup_append] at hnd'
    have hdone : ∀ q ∈ done, q.1 ≠ e.1 := fun q hq =>
      hnd'.2.2 q.1 (List.mem_map_of_mem hq) e.1 (by simp)
    have ht : ∀ q ∈ t, q.1 ≠ e.1 := by
      intro q hq h
      have := (List.nodup_cons.1 hnd'.2.1).1
      apply this
      rw [← h]
      exact List.mem_map_of_mem hq
    have hstep : ∃ old', insertRow g fo p i (done ++ old) e = (done ++ [e]) ++ old'
        ∧ old'.map Prod.fst <+: t.map Prod.fst := by
      cases old with
      | nil =>
        refine ⟨[], ?_, by simp⟩
        unfold insertRow
        dsimp only
        rw [if_neg hr1, if_neg hr2]
        rw [if_neg (by
          simp only [List.append_nil, List.any_eq_true, decide_eq_true_eq, not_exists, not_and]
          exact hdone)]
        simp only [List.append_nil]
        simp only [List.countP_append, List.countP_cons] at hd ho
        cases hc : inDiag g p e.1
        · simp only [hc, Bool.not_false, if_true] at ho
          rw [if_neg (by simp), if_pos (by omega)]
        · simp only [hc, if_true] at hd
          rw [if_pos rfl, if_pos (by omega)]
      | cons q old' =>
        rw [List.map_cons, List.map_cons, List.cons_prefix_cons] at hpre
        refine ⟨old', ?_, hpre.2⟩
        unfold insertRow
        dsimp only
        rw [if_neg hr1, if_neg hr2]
        rw [if_pos (by
          rw [List.any_eq_true]
          exact ⟨q, by simp, by simp [hpre.1]⟩)]
        rw [List.map_append, List.map_cons, if_pos hpre.1]
        have e1 : done.map (fun q => if q.1 = e.1 then e else q) = done := map_keep done e hdone
        have e2 : old'.map (fun q => if q.1 = e.1 then e else q) = old' := by
          apply map_keep
          intro q hq h
          have h1 : q.1 ∈ t.map Prod.fst := hpre.2.subset (List.mem_map_of_mem hq)
          rw [h] at h1
          exact (List.nodup_cons.1 hnd'.2.1).1 h1
        rw [e1, e2]
        simp
    obtain ⟨old', h1, h2⟩ := hstep
    rw [List.foldl_cons, h1, ih (done ++ [e]) old' h2]
    · simp
    · simpa using hnd
    · intro q hq; exact hrange q (by simp [hq])
    · simpa using hd
    · simpa using ho

end

end Verif.LapPetsc
