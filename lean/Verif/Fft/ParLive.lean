import Verif.Fft.ParRun

/-!
# Progress of the thread-safe transforms

Proof material for `C77`; `moves` is used in its statement.
-/

namespace Verif.Fft

variable {α β : Type} {tr : Tr α β} {norm : Nat → β → β} {N L : Nat}
  {calls : Nat → List (Nat → α)}

/-- How many steps of a schedule make the thread which is scheduled move on (a thread
which waits for the lock or has finished does not move). -/
def moves (tr : Tr α β) (norm : Nat → β → β) (N : Nat) (lenOf : Nat → Nat) :
    Sched α β → St α β → Nat
  | [], _ => 0
  | (t, o) :: rest, s =>
    if t < N then
      match step tr norm N lenOf t o s with
      | .error _ => 0
      | .ok s' =>
        (if (s'.th t).pc = (s.th t).pc then 0 else 1) + moves tr norm N lenOf rest s'
    else moves tr norm N lenOf rest s

/-- Distance from the end of a call. -/
def rank (K : Nat) : Pc → Nat
  | .start => 27 * K
  | .chkNth => 26 * K
  | .wait => 25 * K
  | .reSize => 24 * K
  | .reNth => 23 * K
  | .chkFree => 22 * K
  | .destroy i => 20 * K + (K - i)
  | .delP => 20 * K
  | .freeIn => 19 * K
  | .freeOut => 18 * K
  | .allocIn => 17 * K
  | .allocOut => 16 * K
  | .allocP => 15 * K
  | .plan i => 13 * K + (K - i)
  | .setSize => 13 * K
  | .setNth => 12 * K
  | .unlock => 11 * K
  | .ptrIn => 10 * K
  | .offIn => 9 * K
  | .ptrOut => 8 * K
  | .offOut => 7 * K
  | .fill i => 5 * K + (K - i)
  | .getPlan => 5 * K
  | .execRead => 4 * K
  | .execWrite => 3 * K
  | .store i => 1 * K + (K - i)

/-- Steps a thread may still make. -/
def mu (K : Nat) (x : Th α β) : Nat := x.todo.length * (28 * K) + rank K x.pc

/-- The thread cannot move. -/
def Stuck (s : St α β) (t : Nat) : Prop :=
  ((s.th t).pc = .start ∧ (s.th t).todo = []) ∨ ((s.th t).pc = .wait ∧ s.g.lock ≠ none)

theorem step_mu (K : Nat) (hK1 : tr.inW L < K) (hK2 : tr.outW L < K) (hKN : N < K)
    {s s' : St α β} (h : Inv tr norm N L calls s) (hn : s.g.nth < K) {t : Nat} (ht : t < N)
    {o : Orc α β} (hs : step tr norm N (fun _ => L) t o s = .ok s') :
    s'.g.nth < K ∧ (∀ u, u ≠ t → s'.th u = s.th u) ∧
      ((Stuck s t ∧ s' = s) ∨
        (¬ Stuck s t ∧ (s'.th t).pc ≠ (s.th t).pc ∧ mu K (s'.th t) < mu K (s.th t))) := by
  have hT := h.ths t ht
  unfold ThOK at hT
  have key : ∀ (g : Shared α β) (x : Th α β), g.nth < K → s' = ({ s with g := g } : St α β).upd t x →
      x.pc ≠ (s.th t).pc → mu K x < mu K (s.th t) → ¬ Stuck s t →
      s'.g.nth < K ∧ (∀ u, u ≠ t → s'.th u = s.th u) ∧
      ((Stuck s t ∧ s' = s) ∨
        (¬ Stuck s t ∧ (s'.th t).pc ≠ (s.th t).pc ∧ mu K (s'.th t) < mu K (s.th t))) := by
    intro g x h1 h2 h3 h4 h5
    subst h2
    exact ⟨h1, fun u hu => upd_ne _ _ hu, .inr ⟨h5, by rw [upd_self]; exact h3,
      by rw [upd_self]; exact h4⟩⟩
  have keyGo : ∀ (g : Shared α β) (pc : Pc), g.nth < K → s' = s.goWith t g pc →
      pc ≠ (s.th t).pc → rank K pc < rank K (s.th t).pc → ¬ Stuck s t →
      s'.g.nth < K ∧ (∀ u, u ≠ t → s'.th u = s.th u) ∧
      ((Stuck s t ∧ s' = s) ∨
        (¬ Stuck s t ∧ (s'.th t).pc ≠ (s.th t).pc ∧ mu K (s'.th t) < mu K (s.th t))) := by
    intro g pc h1 h2 h3 h4 h5
    exact key g _ h1 h2 h3 (Nat.add_lt_add_left h4 _) h5
  have ns : (s.th t).pc ≠ .start → (s.th t).pc ≠ .wait → ¬ Stuck s t := by
    rintro a b (e | e)
    · exact a e.1
    · exact b e.1
  dsimp only [step] at hs
  cases hp : (s.th t).pc with
  | start =>
    rw [hp] at hs
    dsimp only at hs
    cases htd : (s.th t).todo with
    | nil =>
      rw [htd] at hs
      cases hs
      exact ⟨hn, fun _ _ => rfl, .inl ⟨.inl ⟨hp, htd⟩, rfl⟩⟩
    | cons a l =>
      rw [htd] at hs
      dsimp only at hs
      have nst : ¬ Stuck s t := by
        rintro (e | e)
        · rw [htd] at e; cases e.2
        · rw [hp] at e; cases e.1
      rw [hp] at keyGo
      by_cases e : s.g.size ≠ L
      · rw [if_pos e] at hs
        exact keyGo s.g .wait hn (Except.ok.inj hs).symm (by simp) (by simp only [rank]; omega) nst
      · rw [if_neg e] at hs
        exact keyGo s.g .chkNth hn (Except.ok.inj hs).symm (by simp) (by simp only [rank]; omega) nst
  | chkNth =>
    rw [hp] at hs keyGo ns
    dsimp only at hs
    have nst := ns (by simp) (by simp)
    by_cases e : s.g.nth < N
    · rw [if_pos e] at hs
      exact keyGo s.g .wait hn (Except.ok.inj hs).symm (by simp) (by simp only [rank]; omega) nst
    · rw [if_neg e] at hs
      exact keyGo s.g .ptrIn hn (Except.ok.inj hs).symm (by simp) (by simp only [rank]; omega) nst
  | wait =>
    rw [hp] at hs keyGo
    dsimp only at hs
    cases hl : s.g.lock with
    | some v =>
      rw [hl] at hs
      cases hs
      exact ⟨hn, fun _ _ => rfl, .inl ⟨.inr ⟨hp, by rw [hl]; simp⟩, rfl⟩⟩
    | none =>
      rw [hl] at hs
      have nst : ¬ Stuck s t := by
        rintro (e | e)
        · rw [hp] at e; cases e.1
        · exact e.2 hl
      exact keyGo { s.g with lock := some t } .reSize hn (Except.ok.inj hs).symm (by simp)
        (by simp only [rank]; omega) nst
  | reSize =>
    rw [hp] at hs keyGo ns
    dsimp only at hs
    have nst := ns (by simp) (by simp)
    by_cases e : s.g.size ≠ L
    · rw [if_pos e] at hs
      exact keyGo s.g .chkFree hn (Except.ok.inj hs).symm (by simp) (by simp only [rank]; omega) nst
    · rw [if_neg e] at hs
      exact keyGo s.g .reNth hn (Except.ok.inj hs).symm (by simp) (by simp only [rank]; omega) nst
  | reNth =>
    rw [hp] at hs keyGo ns
    dsimp only at hs
    have nst := ns (by simp) (by simp)
    by_cases e : s.g.nth < N
    · rw [if_pos e] at hs
      exact keyGo s.g .chkFree hn (Except.ok.inj hs).symm (by simp) (by simp only [rank]; omega) nst
    · rw [if_neg e] at hs
      exact keyGo s.g .unlock hn (Except.ok.inj hs).symm (by simp) (by simp only [rank]; omega) nst
  | chkFree =>
    rw [hp] at hs keyGo ns
    dsimp only at hs
    have nst := ns (by simp) (by simp)
    by_cases e : 0 < s.g.size
    · rw [if_pos e] at hs
      exact keyGo s.g (.destroy 0) hn (Except.ok.inj hs).symm (by simp)
        (by simp only [rank]; omega) nst
    · rw [if_neg e] at hs
      exact keyGo s.g .allocIn hn (Except.ok.inj hs).symm (by simp) (by simp only [rank]; omega) nst
  | destroy i =>
    rw [hp] at hs keyGo ns
    dsimp only at hs
    have nst := ns (by simp) (by simp)
    by_cases e : i < s.g.nth
    · rw [if_pos e] at hs
      cases hr : s.g.hpl.read s.g.p i with
      | error e => rw [hr] at hs; cases hs
      | ok r =>
        rw [hr] at hs
        cases r with
        | none => cases hs
        | some pl =>
          dsimp only at hs
          cases hw : s.g.hpl.write s.g.p i none with
          | error e => rw [hw] at hs; cases hs
          | ok h' =>
            rw [hw] at hs
            exact keyGo { s.g with hpl := h' } (.destroy (i + 1)) hn (Except.ok.inj hs).symm
              (by simp) (by simp only [rank]; omega) nst
    · rw [if_neg e] at hs
      have hcr := (h.held t (h.crit t ht (by rw [hp]; rfl))).2
      rw [hp] at hcr
      have := hcr.2.2.2.2.1
      exact keyGo s.g .delP hn (Except.ok.inj hs).symm (by simp) (by simp only [rank]; omega) nst
  | delP =>
    rw [hp] at hs keyGo ns
    dsimp only at hs
    have nst := ns (by simp) (by simp)
    cases hf : s.g.hpl.free s.g.p with
    | error e => rw [hf] at hs; cases hs
    | ok h' =>
      rw [hf] at hs
      exact keyGo { s.g with hpl := h' } .freeIn hn (Except.ok.inj hs).symm (by simp)
        (by simp only [rank]; omega) nst
  | freeIn =>
    rw [hp] at hs keyGo ns
    dsimp only at hs
    have nst := ns (by simp) (by simp)
    cases hf : s.g.hin.free s.g.fin with
    | error e => rw [hf] at hs; cases hs
    | ok h' =>
      rw [hf] at hs
      exact keyGo { s.g with hin := h' } .freeOut hn (Except.ok.inj hs).symm (by simp)
        (by simp only [rank]; omega) nst
  | freeOut =>
    rw [hp] at hs keyGo ns
    dsimp only at hs
    have nst := ns (by simp) (by simp)
    cases hf : s.g.hout.free s.g.fout with
    | error e => rw [hf] at hs; cases hs
    | ok h' =>
      rw [hf] at hs
      exact keyGo { s.g with hout := h' } .allocIn hn (Except.ok.inj hs).symm (by simp)
        (by simp only [rank]; omega) nst
  | allocIn =>
    rw [hp] at hs keyGo ns
    dsimp only at hs
    exact keyGo _ .allocOut (by exact hn) (Except.ok.inj hs).symm (by simp)
      (by simp only [rank]; omega) (ns (by simp) (by simp))
  | allocOut =>
    rw [hp] at hs keyGo ns
    dsimp only at hs
    exact keyGo _ .allocP (by exact hn) (Except.ok.inj hs).symm (by simp)
      (by simp only [rank]; omega) (ns (by simp) (by simp))
  | allocP =>
    rw [hp] at hs keyGo ns
    dsimp only at hs
    exact keyGo _ (.plan 0) (by exact hn) (Except.ok.inj hs).symm (by simp)
      (by simp only [rank]; omega) (ns (by simp) (by simp))
  | plan i =>
    rw [hp] at hs keyGo ns
    dsimp only at hs
    have nst := ns (by simp) (by simp)
    by_cases e : i < N
    · rw [if_pos e] at hs
      cases h1 : s.g.hin.writeMany s.g.fin (i * tr.inW L) (tr.inW L) o.ji with
      | error e => rw [h1] at hs; cases hs
      | ok hi =>
        rw [h1] at hs
        dsimp only at hs
        cases h2 : s.g.hout.writeMany s.g.fout (i * tr.outW L) (tr.outW L) o.jo with
        | error e => rw [h2] at hs; cases hs
        | ok ho =>
          rw [h2] at hs
          dsimp only at hs
          cases h3 : s.g.hpl.write s.g.p i
              (mkPlan L s.g.fin (i * tr.inW L) s.g.fout (i * tr.outW L)) with
          | error e => rw [h3] at hs; cases hs
          | ok hh =>
            rw [h3] at hs
            exact keyGo { s.g with hin := hi, hout := ho, hpl := hh } (.plan (i + 1)) hn
              (Except.ok.inj hs).symm (by simp) (by simp only [rank]; omega) nst
    · rw [if_neg e] at hs
      have hcr := (h.held t (h.crit t ht (by rw [hp]; rfl))).2
      rw [hp] at hcr
      have := hcr.2.2.2.2.1
      exact keyGo s.g .setSize hn (Except.ok.inj hs).symm (by simp) (by simp only [rank]; omega) nst
  | setSize =>
    rw [hp] at hs keyGo ns
    dsimp only at hs
    exact keyGo _ .setNth (by exact hn) (Except.ok.inj hs).symm (by simp)
      (by simp only [rank]; omega) (ns (by simp) (by simp))
  | setNth =>
    rw [hp] at hs keyGo ns
    dsimp only at hs
    exact keyGo _ .unlock (by exact hKN) (Except.ok.inj hs).symm (by simp)
      (by simp only [rank]; omega) (ns (by simp) (by simp))
  | unlock =>
    rw [hp] at hs keyGo ns
    dsimp only at hs
    exact keyGo _ .ptrIn (by exact hn) (Except.ok.inj hs).symm (by simp)
      (by simp only [rank]; omega) (ns (by simp) (by simp))
  | ptrIn =>
    rw [hp] at hs key ns
    dsimp only at hs
    refine key s.g _ hn (Except.ok.inj hs).symm (by simp) ?_ (ns (by simp) (by simp))
    simp only [mu, hp, rank]; omega
  | offIn =>
    rw [hp] at hs key ns
    dsimp only at hs
    refine key s.g _ hn (Except.ok.inj hs).symm (by simp) ?_ (ns (by simp) (by simp))
    simp only [mu, hp, rank]; omega
  | ptrOut =>
    rw [hp] at hs key ns
    dsimp only at hs
    refine key s.g _ hn (Except.ok.inj hs).symm (by simp) ?_ (ns (by simp) (by simp))
    simp only [mu, hp, rank]; omega
  | offOut =>
    rw [hp] at hs key ns
    dsimp only at hs
    refine key s.g _ hn (Except.ok.inj hs).symm (by simp) ?_ (ns (by simp) (by simp))
    simp only [mu, hp, rank]; omega
  | fill i =>
    rw [hp] at hs keyGo ns hT
    dsimp only at hs hT
    have nst := ns (by simp) (by simp)
    cases htd : (s.th t).todo with
    | nil => rw [htd] at hs; cases hs
    | cons inp rest =>
      rw [htd] at hs
      dsimp only at hs
      have hsz := hT.1.1
      have hi := hT.2.2.2.2.2.1
      by_cases e : i < tr.inW s.g.size
      · rw [if_pos e] at hs
        rw [hsz] at e
        cases hw : s.g.hin.write (s.th t).fin ((s.th t).finOff + i) (inp i) with
        | error e => rw [hw] at hs; cases hs
        | ok h' =>
          rw [hw] at hs
          exact keyGo { s.g with hin := h' } (.fill (i + 1)) hn (Except.ok.inj hs).symm (by simp)
            (by simp only [rank]; omega) nst
      · rw [if_neg e] at hs
        exact keyGo s.g .getPlan hn (Except.ok.inj hs).symm (by simp)
          (by simp only [rank]; omega) nst
  | getPlan =>
    rw [hp] at hs key ns
    dsimp only at hs
    cases hr : s.g.hpl.read s.g.p t with
    | error e => rw [hr] at hs; cases hs
    | ok r =>
      rw [hr] at hs
      refine key s.g _ hn (Except.ok.inj hs).symm (by simp) ?_ (ns (by simp) (by simp))
      simp only [mu, hp, rank]; omega
  | execRead =>
    rw [hp] at hs key ns
    dsimp only at hs
    cases hpl : (s.th t).pl with
    | none => rw [hpl] at hs; cases hs
    | some pl =>
      rw [hpl] at hs
      dsimp only at hs
      cases h1 : s.g.hin.readMany pl.inPtr pl.inOff (tr.inW pl.n) with
      | error e => rw [h1] at hs; cases hs
      | ok f =>
        rw [h1] at hs
        dsimp only at hs
        cases h2 : s.g.hin.writeMany pl.inPtr pl.inOff (tr.inW pl.n) o.ji with
        | error e => rw [h2] at hs; cases hs
        | ok h' =>
          rw [h2] at hs
          refine key { s.g with hin := h' } _ hn (Except.ok.inj hs).symm (by simp) ?_
            (ns (by simp) (by simp))
          simp only [mu, hp, rank]; omega
  | execWrite =>
    rw [hp] at hs key ns
    dsimp only at hs
    cases hpl : (s.th t).pl with
    | none => rw [hpl] at hs; cases hs
    | some pl =>
      rw [hpl] at hs
      dsimp only at hs
      cases h2 : s.g.hout.writeMany pl.outPtr pl.outOff (tr.outW pl.n) (s.th t).tmp with
      | error e => rw [h2] at hs; cases hs
      | ok h' =>
        rw [h2] at hs
        refine key { s.g with hout := h' } _ hn (Except.ok.inj hs).symm (by simp) ?_
          (ns (by simp) (by simp))
        simp only [mu, hp, rank]; omega
  | store i =>
    rw [hp] at hs key ns hT
    dsimp only at hs hT
    have nst := ns (by simp) (by simp)
    have hsz := hT.1.1
    have hi := hT.2.2.2.1
    cases htd : (s.th t).todo with
    | nil => rw [htd] at hs; cases hs
    | cons inp rest =>
      rw [htd] at hs
      dsimp only at hs
      by_cases e : i < tr.outW s.g.size
      · rw [if_pos e] at hs
        rw [hsz] at e
        cases hw : s.g.hout.read (s.th t).fout ((s.th t).foutOff + i) with
        | error e => rw [hw] at hs; cases hs
        | ok v =>
          rw [hw] at hs
          refine key s.g _ hn (Except.ok.inj hs).symm (by simp) ?_ nst
          simp only [mu, hp, rank, htd]; omega
      · rw [if_neg e] at hs
        refine key s.g _ hn (Except.ok.inj hs).symm (by simp) ?_ nst
        simp only [mu, hp, rank, htd, List.length_cons]
        rw [Nat.add_mul]
        omega

/-- Sum over the team. -/
def total (K N : Nat) (th : Nat → Th α β) : Nat :=
  match N with
  | 0 => 0
  | n + 1 => total K n th + mu K (th n)

theorem total_congr (K : Nat) {n : Nat} {a b : Nat → Th α β} (h : ∀ u < n, a u = b u) :
    total K n a = total K n b := by
  induction n with
  | zero => rfl
  | succ n ih =>
    simp only [total]
    rw [ih fun u hu => h u (by omega), h n (by omega)]

theorem total_lt (K : Nat) {n t : Nat} (ht : t < n) {a b : Nat → Th α β}
    (h : ∀ u, u ≠ t → a u = b u) (hm : mu K (a t) < mu K (b t)) :
    total K n a < total K n b := by
  induction n with
  | zero => omega
  | succ n ih =>
    simp only [total]
    by_cases e : t = n
    · subst e
      rw [total_congr K fun u hu => h u (by omega)]
      omega
    · rw [h n (by omega)]
      have := ih (by omega)
      omega

theorem moves_le (K : Nat) (hL : 0 < L) (hK1 : tr.inW L < K) (hK2 : tr.outW L < K) (hKN : N < K)
    (sched : Sched α β) {s : St α β} (h : Inv tr norm N L calls s) (hn : s.g.nth < K) :
    moves tr norm N (fun _ => L) sched s ≤ total K N s.th := by
  induction sched generalizing s with
  | nil => exact Nat.zero_le _
  | cons a rest ih =>
    obtain ⟨t, o⟩ := a
    simp only [moves]
    by_cases ht : t < N
    · rw [if_pos ht]
      obtain ⟨s', h1, h2⟩ := step_inv hL h ht o
      obtain ⟨q1, q2, q3⟩ := step_mu K hK1 hK2 hKN h hn ht h1
      rw [h1]
      dsimp only
      have := ih h2 q1
      rcases q3 with ⟨_, e⟩ | ⟨_, e1, e2⟩
      · subst e
        rw [if_pos rfl]
        omega
      · rw [if_neg e1]
        have := total_lt K ht q2 e2
        omega
    · rw [if_neg ht]
      exact ih h hn

/-- If nobody can move, everybody has finished. -/
theorem not_all_stuck {s : St α β} (h : Inv tr norm N L calls s) (hf : ¬ s.finished N) :
    ∃ t < N, ¬ Stuck s t := by
  cases hl : s.g.lock with
  | some v =>
    obtain ⟨hv, hc⟩ := h.held v hl
    refine ⟨v, hv, ?_⟩
    rintro (e | e)
    · rw [e.1] at hc; exact absurd hc id
    · rw [e.1] at hc; exact absurd hc id
  | none =>
    refine Classical.byContradiction fun hno => hf fun t ht => ?_
    have : Stuck s t := Classical.byContradiction fun h' => hno ⟨t, ht, h'⟩
    rcases this with e | e
    · exact e
    · exact absurd hl e.2

end Verif.Fft
