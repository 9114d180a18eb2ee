import Verif.Invert.SptMain

/-!
# C58: the messages of the pipelined solver

Every processor of a row in X executes the same list of calls `start` and `next`, one after the other, for the slices of the field
(`spt.cxx` L139-163); `proc` and `dir` of a slice evolve in the same way on all of them.  A call contains at most one wait, followed
by at most one blocking send or one posted receive (L346-354, L380, L460-478), with one message tag per slice (L70-73).
-/

namespace Verif.Spt

/-- What one call does on one processor. -/
structure Act where
  /-- wait for the receive posted earlier for this slice (L380) -/
  wait : Bool
  /-- blocking send to that processor (L346, L463-467) -/
  send : Option Int
  /-- post a receive from that processor (L350, L473-478) -/
  recv : Option Int
deriving DecidableEq

/-- `proc` and `dir` of a slice. -/
abbrev Pos := Int × Int

/-- Communication of `start` on processor `p` (L332-354). -/
def startAct (p : Int) : Act :=
  if p = 0 then ⟨false, some 1, none⟩ else if p = 1 then ⟨false, none, some 0⟩ else ⟨false, none, none⟩

/-- `proc`, `dir` after `start` (L332-333, L356-359). -/
def startPos (P : Nat) : Pos := (1, if P = 2 then -1 else 1)

/-- Communication of `next` on processor `p` (L370-480); the last processor sends inwards because `dir` has been reversed before. -/
def nextAct (p : Int) (s : Pos) : Act :=
  if s.1 < 0 then ⟨false, none, none⟩
  else if p = s.1 then ⟨true, if p ≠ 0 then some (if s.2 > 0 then p + 1 else p - 1) else none, none⟩
  else if p = s.1 + s.2 then ⟨false, none, some (if s.2 > 0 then p - 1 else p + 1)⟩
  else ⟨false, none, none⟩

/-- `proc`, `dir` after `next` (L371-373, L482-486). -/
def nextPos (P : Nat) (s : Pos) : Pos :=
  if s.1 < 0 then s
  else
    let proc := s.1 + s.2
    (proc, if proc = (P : Int) - 1 then -1 else s.2)

/-- `proc`, `dir` of a slice before its `c`-th call, counted from `start = 0`. -/
def posAt (P : Nat) : Nat → Pos
  | 0 => (0, 1)
  | 1 => startPos P
  | c + 2 => nextPos P (posAt P (c + 1))

/-- Communication of the `c`-th call of a slice on processor `p`. -/
def actAt (P : Nat) (p : Int) : Nat → Act
  | 0 => startAct p
  | c + 1 => nextAct p (posAt P (c + 1))

/-- The slice's way: outwards, then back, then finished. -/
theorem posAt_eq (P : Nat) (hP : 2 ≤ P) (c : Nat) :
    posAt P (c + 1) = if c + 1 < P - 1 then ((c : Int) + 1, 1) else if c + 1 ≤ 2 * P - 2 then (2 * (P : Int) - 2 - (c + 1), -1) else (-1, -1) := by
  induction c with
  | zero =>
    show startPos P = _
    unfold startPos
    by_cases h : P = 2
    · subst h; rfl
    · rw [if_neg h, if_pos (by omega)]; rfl
  | succ c ih =>
    show nextPos P (posAt P (c + 1)) = _
    rw [ih]
    unfold nextPos
    by_cases h1 : c + 1 < P - 1
    · rw [if_pos h1]
      dsimp only
      rw [if_neg (by omega)]
      by_cases h2 : c + 1 + 1 < P - 1
      · rw [if_pos h2, if_neg (by omega)]
        push_cast; rfl
      · rw [if_neg h2, if_pos (by omega), if_pos (by omega)]
        congr 1
        push_cast; omega
    · rw [if_neg h1, if_neg (show ¬ (c + 1 + 1 < P - 1) by omega)]
      by_cases h2 : c + 1 ≤ 2 * P - 2
      · rw [if_pos h2]
        dsimp only
        rw [if_neg (by omega)]
        by_cases h3 : c + 1 + 1 ≤ 2 * P - 2
        · rw [if_pos h3]
          congr 1
          · push_cast; omega
          · rw [ite_self]
        · rw [if_neg h3]
          congr 1
          · omega
          · rw [ite_self]
      · rw [if_neg h2, if_neg (show ¬ (c + 1 + 1 ≤ 2 * P - 2) by omega)]
        rfl

/-- Number of calls for slice `y` among the first `i`. -/
def countBefore (L : Nat → Nat) (y : Nat) : Nat → Nat
  | 0 => 0
  | i + 1 => countBefore L y i + if L i = y then 1 else 0

/-- What call number `i` does on processor `p`, when call `i` is for slice `L i`. -/
def act (P : Nat) (L : Nat → Nat) (p : Int) (i : Nat) : Act := actAt P p (countBefore L (L i) i)

/-- Processor `p` has waited (if it has to) in its first half of call `i` and communicated in the second half; `pc p` counts halves.

A wait ends when a matching send has taken place: an earlier call of another processor that sends to `p` for the same slice and is
the latest call for that slice before the one waiting.  A blocking send ends when the receiver has posted a receive for it in the same
call (the rendezvous protocol, the least favourable). -/
def Enabled (P : Nat) (L : Nat → Nat) (pc : Nat → Nat) (p : Nat) : Prop :=
  let i := pc p / 2
  if pc p % 2 = 0 then
    (act P L p i).wait = true → ∃ i' q, i' < i ∧ L i' = L i ∧ (∀ m, i' < m → m < i → L m ≠ L i) ∧ q < P ∧
      (act P L q i').send = some (p : Int) ∧ (act P L p i').recv = some (q : Int) ∧ 2 * i' + 2 ≤ pc q
  else
    ∀ t, (act P L p i).send = some t → ∃ q : Nat, t = (q : Int) ∧ q < P ∧ (act P L q i).recv = some (p : Int) ∧ 2 * i + 2 ≤ pc q

/-- The call before, of the same slice. -/
theorem prev_call (L : Nat → Nat) (i : Nat) (c : Nat) (h : countBefore L (L i) i = c + 1) :
    ∃ i', i' < i ∧ L i' = L i ∧ countBefore L (L i') i' = c ∧ ∀ m, i' < m → m < i → L m ≠ L i := by
  have key : ∀ y i c, countBefore L y i = c + 1 → ∃ i', i' < i ∧ L i' = y ∧ countBefore L y i' = c ∧ ∀ m, i' < m → m < i → L m ≠ y := by
    intro y i
    induction i with
    | zero => intro c h; cases h
    | succ i ih =>
      intro c h
      unfold countBefore at h
      by_cases e : L i = y
      · rw [if_pos e] at h
        exact ⟨i, by omega, e, by omega, fun m h1 h2 => by omega⟩
      · rw [if_neg e] at h
        obtain ⟨i', h1, h2, h3, h4⟩ := ih c (by omega)
        refine ⟨i', by omega, h2, h3, fun m m1 m2 => ?_⟩
        by_cases em : m = i
        · rw [em]; exact e
        · exact h4 m m1 (by omega)
  obtain ⟨i', h1, h2, h3, h4⟩ := key (L i) i c h
  exact ⟨i', h1, h2, by rw [h2]; exact h3, h4⟩

/-- Who sends to whom in the `c`-th call. -/
theorem send_iff (P : Nat) (hP : 2 ≤ P) (c : Nat) (p q : Nat) (hp : p < P) (hq : q < P) :
    (actAt P p c).send = some (q : Int) ↔ (actAt P q c).recv = some (p : Int) := by
  cases c with
  | zero =>
    show (startAct p).send = _ ↔ (startAct q).recv = _
    unfold startAct
    split_ifs <;> simp <;> omega
  | succ c =>
    show (nextAct p (posAt P (c + 1))).send = _ ↔ (nextAct q (posAt P (c + 1))).recv = _
    rw [posAt_eq P hP c]
    unfold nextAct
    split_ifs <;> simp at * <;> omega

/-- Targets of sends are processors. -/
theorem send_range (P : Nat) (hP : 2 ≤ P) (c : Nat) (p : Nat) (hp : p < P) (t : Int) (h : (actAt P p c).send = some t) :
    ∃ q : Nat, t = (q : Int) ∧ q < P := by
  cases c with
  | zero =>
    replace h : (startAct p).send = some t := h
    unfold startAct at h
    split_ifs at h
    · cases h; exact ⟨1, rfl, by omega⟩
  | succ c =>
    replace h : (nextAct p (posAt P (c + 1))).send = some t := h
    rw [posAt_eq P hP c] at h
    unfold nextAct at h
    have : 0 ≤ t ∧ t < P := by
      split_ifs at h <;> simp at * <;> omega
    exact ⟨t.toNat, by omega, by omega⟩

/-- A processor waits in a call exactly if it was sent to in the call before. -/
theorem wait_prev (P : Nat) (hP : 2 ≤ P) (c : Nat) (p : Nat) (hp : p < P) (h : (actAt P p c).wait = true) :
    ∃ c', c = c' + 1 ∧ ∃ q, q < P ∧ (actAt P q c').send = some (p : Int) := by
  cases c with
  | zero =>
    replace h : (startAct p).wait = true := h
    unfold startAct at h
    split_ifs at h
  | succ c =>
    refine ⟨c, rfl, ?_⟩
    replace h : (nextAct p (posAt P (c + 1))).wait = true := h
    have hpos : 0 ≤ (posAt P (c + 1)).1 ∧ (p : Int) = (posAt P (c + 1)).1 := by
      unfold nextAct at h
      by_cases h1 : (posAt P (c + 1)).1 < 0
      · rw [if_pos h1] at h; cases h
      · rw [if_neg h1] at h
        by_cases h2 : (p : Int) = (posAt P (c + 1)).1
        · exact ⟨by omega, h2⟩
        · rw [if_neg h2] at h
          split at h <;> cases h
    rw [posAt_eq P hP c] at hpos
    cases c with
    | zero =>
      refine ⟨0, by omega, ?_⟩
      show (startAct 0).send = _
      have : p = 1 := by
        split_ifs at hpos <;> simp at hpos <;> omega
      rw [this]; rfl
    | succ c =>
      have hpp := posAt_eq P hP c
      by_cases h1 : c + 1 < P - 1
      · refine ⟨c + 1, by omega, ?_⟩
        show (nextAct _ (posAt P (c + 1))).send = _
        rw [hpp, if_pos h1]
        unfold nextAct
        dsimp only
        rw [if_neg (by omega), if_pos (by push_cast; rfl)]
        dsimp only
        rw [if_pos (by omega), if_pos (by omega)]
        congr 1
        split_ifs at hpos <;> simp at hpos <;> push_cast <;> omega
      · by_cases h2 : c + 1 ≤ 2 * P - 2
        · have h3 : c + 1 + 1 ≤ 2 * P - 2 := by
            by_contra hcon
            rw [if_neg (by omega), if_neg (by omega)] at hpos
            simp at hpos
          refine ⟨2 * P - 2 - (c + 1), by omega, ?_⟩
          show (nextAct _ (posAt P (c + 1))).send = _
          rw [hpp, if_neg h1, if_pos h2]
          unfold nextAct
          dsimp only
          rw [if_neg (by omega), if_pos (by omega)]
          dsimp only
          rw [if_pos (by omega), if_neg (by omega)]
          congr 1
          rw [if_neg (by omega), if_pos (by omega)] at hpos
          simp at hpos
          omega
        · rw [if_neg (by omega), if_neg (by omega)] at hpos
          simp at hpos

/-- **C58, no deadlock.** Whatever list of calls the processors execute, for however many slices, and whatever point each of them has
reached: as long as some processor has not finished, some unfinished processor can go on, even if every send waits for its
receive. -/
theorem C58_spt_no_deadlock (P : Nat) (hP : 2 ≤ P) (L : Nat → Nat) (len : Nat) (pc : Nat → Nat) (h : ∃ p, p < P ∧ pc p < 2 * len) :
    ∃ p, p < P ∧ pc p < 2 * len ∧ Enabled P L pc p := by
  -- the slowest processor, and its call
  obtain ⟨p0, hp0, hlen⟩ := h
  have hmin : ∃ p, p < P ∧ ∀ q, q < P → pc p ≤ pc q := by
    have : ∀ n, 1 ≤ n → n ≤ P → ∃ p, p < n ∧ ∀ q, q < n → pc p ≤ pc q := by
      intro n
      induction n with
      | zero => intro h; omega
      | succ n ih =>
        intro _ hn
        by_cases hn0 : n = 0
        · subst hn0
          exact ⟨0, by omega, fun q hq => by have : q = 0 := by omega
                                             rw [this]⟩
        · obtain ⟨p, h1, h2⟩ := ih (by omega) (by omega)
          by_cases hc : pc p ≤ pc n
          · refine ⟨p, by omega, fun q hq => ?_⟩
            by_cases e : q = n
            · rw [e]; exact hc
            · exact h2 q (by omega)
          · refine ⟨n, by omega, fun q hq => ?_⟩
            by_cases e : q = n
            · rw [e]
            · have := h2 q (by omega); omega
    exact this P (by omega) (Nat.le_refl _)
  obtain ⟨p, hp, hpm⟩ := hmin
  have hp0' := hpm p0 hp0
  by_cases hev : pc p % 2 = 0
  · -- it can wait: everyone has finished the earlier calls
    refine ⟨p, hp, by omega, ?_⟩
    unfold Enabled
    dsimp only
    rw [if_pos hev]
    intro hw
    obtain ⟨c', hc, q, hq, hs⟩ := wait_prev P hP _ p hp hw
    obtain ⟨i', h1, h2, h3, h4⟩ := prev_call L _ c' hc
    refine ⟨i', q, h1, h2, h4, hq, ?_, ?_, ?_⟩
    · unfold act; rw [h3]; exact hs
    · unfold act; rw [h3]; exact (send_iff P hP c' q p hq hp).1 hs
    · have := hpm q hq; omega
  · by_cases hs : (act P L p (pc p / 2)).send = none
    · refine ⟨p, hp, by omega, ?_⟩
      unfold Enabled
      dsimp only
      rw [if_neg hev]
      intro t ht
      rw [hs] at ht; cases ht
    · obtain ⟨t, ht⟩ := Option.ne_none_iff_exists'.1 hs
      obtain ⟨q, rfl, hq⟩ := send_range P hP _ p hp t ht
      have hr := (send_iff P hP _ p q hp hq).1 ht
      by_cases hd : 2 * (pc p / 2) + 2 ≤ pc q
      · refine ⟨p, hp, by omega, ?_⟩
        unfold Enabled
        dsimp only
        rw [if_neg hev]
        intro t' ht'
        rw [ht] at ht'
        cases ht'
        exact ⟨q, rfl, hq, hr, hd⟩
      · -- the receiver is in the same call, about to post
        have hqp := hpm q hq
        have hi : pc q / 2 = pc p / 2 := by omega
        have hodd : pc q % 2 = 1 := by omega
        refine ⟨q, hq, by omega, ?_⟩
        unfold Enabled
        dsimp only
        rw [if_neg (by omega), hi]
        intro t ht2
        exfalso
        -- a processor that posts a receive does not send in the same call
        have hboth : ∀ c, (actAt P q c).send ≠ none → (actAt P q c).recv = none := by
          intro c hh
          cases c with
          | zero =>
            show (startAct q).recv = none
            replace hh : (startAct q).send ≠ none := hh
            unfold startAct at hh ⊢
            split_ifs at hh ⊢ <;> simp at *
          | succ c =>
            show (nextAct q (posAt P (c + 1))).recv = none
            replace hh : (nextAct q (posAt P (c + 1))).send ≠ none := hh
            unfold nextAct at hh ⊢
            split_ifs at hh ⊢ <;> simp at *
        have := hboth _ (by rw [show (actAt P q (countBefore L (L (pc p / 2)) (pc p / 2))).send = some t from ht2]; simp)
        rw [this] at hr
        cases hr

/-- **C58, messages match.** In every call every send has exactly its receive: for the same slice (so with the same tag), posted in the
same call by the processor it is sent to; and a processor that waits has posted the receive in the call before for that slice. -/
theorem C58_spt_messages_match (P : Nat) (hP : 2 ≤ P) (L : Nat → Nat) (i p q : Nat) (hp : p < P) (hq : q < P) :
    ((act P L p i).send = some (q : Int) ↔ (act P L q i).recv = some (p : Int)) ∧
    ((act P L p i).wait = true → ∃ i' r, i' < i ∧ L i' = L i ∧ (∀ m, i' < m → m < i → L m ≠ L i) ∧ r < P ∧
      (act P L r i').send = some (p : Int) ∧ (act P L p i').recv = some (r : Int)) := by
  refine ⟨send_iff P hP _ p q hp hq, fun hw => ?_⟩
  obtain ⟨c', hc, r, hr, hs⟩ := wait_prev P hP _ p hp hw
  obtain ⟨i', h1, h2, h3, h4⟩ := prev_call L _ c' hc
  refine ⟨i', r, h1, h2, h4, hr, ?_, ?_⟩
  · unfold act; rw [h3]; exact hs
  · unfold act; rw [h3]; exact (send_iff P hP c' r p hr hp).1 hs

/-- The numerical model moves the slice in the same way: after `start` and `k` calls of `next` its `proc` and `dir` are these. -/
theorem C58_spt_position {K : Type} [Field K] [DecidableEq K] (P : Nat) (hP : 2 ≤ P) (R : Nat → RankSys K) (hn : ∀ q, q < P → 1 ≤ (R q).n)
    (jg ju : Nat → Nat → K) (k : Nat) (s : St K) (h : solveMode P R jg ju k = .ok s) : (s.proc, s.dir) = posAt P (k + 1) := by
  unfold solveMode at h
  split at h
  · cases h
  · rename_i s0 h0
    clear hn
    induction k generalizing s with
    | zero =>
      cases h
      unfold start at h0
      rw [if_neg (by omega)] at h0
      split at h0
      · cases h0
      · cases h0; rfl
    | succ k ih =>
      unfold calls at h
      split at h
      · cases h
      · rename_i s' hs'
        have hi := ih s' hs'
        show _ = nextPos P (posAt P (k + 1))
        rw [← hi]
        split at h
        · cases h
        · rename_i b s'' hn'
          cases h
          unfold next at hn'
          unfold nextPos
          dsimp only
          by_cases e : s'.proc < 0
          · rw [if_pos e] at hn' ⊢
            cases hn'; rfl
          · rw [if_neg e] at hn' ⊢
            split at hn'
            · cases hn'
            · rename_i t ht
              cases hn'
              dsimp only
              have hkeep : t.proc = s'.proc ∧ t.dir = s'.dir := by
                unfold work at ht
                by_cases e1 : s'.proc.toNat + 1 = P
                · rw [if_pos e1] at ht
                  split at ht
                  · cases ht
                  · cases ht; exact ⟨rfl, rfl⟩
                · rw [if_neg e1] at ht
                  by_cases e2 : s'.dir > 0
                  · rw [if_pos e2] at ht
                    split at ht
                    · cases ht
                    · cases ht; exact ⟨rfl, rfl⟩
                  · rw [if_neg e2] at ht
                    cases ht; exact ⟨rfl, rfl⟩
              rw [hkeep.1, hkeep.2]

/-- Four processors, three slices started one after the other: the middle processors send and receive. -/
example : act 4 (fun i => [0, 1, 0, 2, 0, 1].getD i 0) 1 2 = ⟨true, some 2, none⟩ ∧
    act 4 (fun i => [0, 1, 0, 2, 0, 1].getD i 0) 2 2 = ⟨false, none, some 1⟩ ∧
    act 4 (fun i => [0, 1, 0, 2, 0, 1].getD i 0) 2 4 = ⟨true, some 3, none⟩ := by decide

end Verif.Spt
