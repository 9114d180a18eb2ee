import Verif.Common
import Mathlib.Data.List.Basic
/-!
# C33: the message stack (`src/sys/msg_stack.cxx`, `include/bout/msg_stack.hxx`)

`BOUT_USE_MSGSTACK` on.  `multi` is `omp_get_num_threads() > 1` at the call.
-/
namespace Verif.MsgStack

/-- msg_stack.hxx:106-107. -/
structure MS where
  stack : List String
  position : Nat

/-- msg_stack.hxx:70. -/
def init : MS := { stack := [], position := 0 }

/-- msg_stack.cxx:38-56 `push(message)`: new state and the returned id. -/
def push (multi : Bool) (m : String) (s : MS) : MS × Nat :=
  if multi then (s, s.position)
  else if s.position ≥ s.stack.length then
    ({ stack := s.stack ++ [m], position := s.position + 1 }, s.position)
  else ({ stack := s.stack.set s.position m, position := s.position + 1 }, s.position)

/-- msg_stack.cxx:58-64 `pop()`. -/
def pop (s : MS) : MS := if s.position = 0 then s else { s with position := s.position - 1 }

/-- msg_stack.cxx:66-79 `pop(id)`. -/
def popId (multi : Bool) (id : Int) (s : MS) : MS :=
  if multi then s
  else
    let id := if id < 0 then 0 else id
    if id ≤ (s.position : Int) then { s with position := id.toNat } else s

/-- msg_stack.cxx:81-87 `clear`. -/
def clear (_ : MS) : MS := { stack := [], position := 0 }

/-- msg_stack.cxx:96-104: the loop `for (i = position-1; i >= 0; i--)`; argument = `i+1`. -/
def dumpLoop (stack : List String) : Nat → String → String
  | 0, res => res
  | i + 1, res =>
    let m := stack.getD i ""
    dumpLoop stack i (if m ≠ "" then res ++ " -> " ++ m ++ "\n" else res)

/-- msg_stack.cxx:94-105 `getDump`. -/
def getDump (s : MS) : String := dumpLoop s.stack s.position "====== Back trace ======\n"

/-- The public operations. -/
inductive Op where
  | push (multi : Bool) (m : String)
  | pop
  | popId (multi : Bool) (id : Int)
  | clear

/-- One operation. -/
def step (s : MS) : Op → MS
  | .push multi m => (push multi m s).1
  | .pop => pop s
  | .popId multi id => popId multi id s
  | .clear => clear s

/-! ## Specification: a plain list of live messages, oldest first -/

/-- What each operation means for the list of live messages. -/
def specStep (l : List String) : Op → List String
  | .push multi m => if multi then l else l ++ [m]
  | .pop => l.dropLast
  | .popId multi id => if multi then l else l.take id.toNat
  | .clear => []

/-- The live messages. -/
def live (s : MS) : List String := s.stack.take s.position

def Inv (s : MS) : Prop := s.position ≤ s.stack.length

theorem inv_step (s : MS) (o : Op) (h : Inv s) : Inv (step s o) := by
  unfold Inv at *
  cases o with
  | push multi m =>
    simp only [step, push]
    split
    · exact h
    · split
      · simp; omega
      · simp; omega
  | pop =>
    simp only [step, pop]
    split
    · exact h
    · show s.position - 1 ≤ s.stack.length; omega
  | popId multi id =>
    have key : ∀ k : Int, (if k ≤ (s.position : Int) then ({ s with position := k.toNat } : MS) else s).position ≤
        (if k ≤ (s.position : Int) then ({ s with position := k.toNat } : MS) else s).stack.length := by
      intro k
      split
      · show k.toNat ≤ s.stack.length; omega
      · exact h
    simp only [step, popId]
    split
    · exact h
    · exact key _
  | clear => simp [step, clear]

theorem live_length (s : MS) (h : Inv s) : (live s).length = s.position := by
  unfold live Inv at *; simp; omega

theorem step_live (s : MS) (o : Op) (h : Inv s) : live (step s o) = specStep (live s) o := by
  unfold Inv at h
  cases o with
  | push multi m =>
    simp only [step, push, specStep, live]
    split
    · rfl
    · split
      · have : s.position = s.stack.length := by omega
        simp only [this]
        rw [List.take_of_length_le (by simp), List.take_of_length_le (Nat.le_refl _)]
      · rename_i h2
        have hlt : s.position < s.stack.length := by omega
        simp only
        rw [List.take_succ, List.take_set_of_le (Nat.le_refl _)]
        simp [hlt]
  | pop =>
    simp only [step, pop, specStep, live]
    split
    · rename_i h0; simp [h0]
    · rename_i h0
      show List.take (s.position - 1) s.stack = _
      rw [List.dropLast_eq_take, List.take_take, List.length_take]
      congr 1
      omega
  | popId multi id =>
    have key : ∀ k : Int, k.toNat = id.toNat →
        List.take (if k ≤ (s.position : Int) then ({ s with position := k.toNat } : MS) else s).position
          (if k ≤ (s.position : Int) then ({ s with position := k.toNat } : MS) else s).stack =
        List.take id.toNat (List.take s.position s.stack) := by
      intro k hk
      rw [List.take_take]
      split
      · show List.take k.toNat s.stack = _
        congr 1; omega
      · congr 1; omega
    simp only [step, popId, specStep, live]
    split
    · rfl
    · refine key _ ?_
      split <;> omega
  | clear => simp [step, clear, specStep, live]

/-- States reachable by any history of operations. -/
def Reachable (s : MS) : Prop := ∃ os : List Op, os.foldl step init = s

theorem Reachable.inv {s : MS} (h : Reachable s) : Inv s := by
  obtain ⟨os, rfl⟩ := h
  have : ∀ (os : List Op) (s : MS), Inv s → Inv (os.foldl step s) := by
    intro os
    induction os with
    | nil => intro s h; exact h
    | cons o os ih => intro s h; exact ih _ (inv_step s o h)
  exact this os init (by simp [Inv, init])

/-- **C33.** For every history of operations the stack behaves like a list of messages: `push` appends, `pop`
removes the newest, `pop(id)` truncates to `id` entries, and stale text above the top is never resurrected. -/
theorem C33_history (os : List Op) : live (os.foldl step init) = os.foldl specStep [] := by
  have : ∀ (os : List Op) (s : MS), Inv s → live (os.foldl step s) = os.foldl specStep (live s) := by
    intro os
    induction os with
    | nil => intro s h; rfl
    | cons o os ih =>
      intro s h
      rw [List.foldl_cons, List.foldl_cons, ih _ (inv_step s o h), step_live s o h]
  exact this os init (by simp [Inv, init])

/-- **C33.** `push` returns the depth before the push, so `pop(push(m))` is the identity on live messages. -/
theorem C33_push_pop_id {s : MS} (h : Reachable s) (m : String) :
    (push false m s).2 = (live s).length ∧
    live (popId false ((push false m s).2 : Int) (push false m s).1) = live s := by
  have hI := h.inv
  have e : (push false m s).2 = s.position := by simp only [push]; split <;> [rfl; (split <;> rfl)]
  refine ⟨by rw [e, live_length s hI], ?_⟩
  have h1 := step_live (push false m s).1 (.popId false ((push false m s).2 : Int)) (inv_step s (.push false m) hI)
  have h2 := step_live s (.push false m) hI
  simp only [step, specStep, Bool.false_eq_true, if_false] at h1 h2
  rw [h1, h2, e]
  simp only [Int.toNat_natCast]
  rw [List.take_left' (live_length s hI)]

theorem dumpLoop_spec (stack : List String) : ∀ (n : Nat) (res : String), n ≤ stack.length →
    dumpLoop stack n res =
      ((stack.take n).reverse.filter (fun m => decide (m ≠ ""))).foldl (fun r m => r ++ " -> " ++ m ++ "\n") res
  | 0, res, _ => by simp [dumpLoop]
  | n + 1, res, h => by
    have hlt : n < stack.length := by omega
    simp only [dumpLoop]
    rw [dumpLoop_spec stack n _ (by omega), List.take_succ, List.getD_eq_getElem?_getD]
    simp only [List.getElem?_eq_getElem hlt, Option.getD_some, Option.toList_some, List.reverse_append,
      List.reverse_cons, List.reverse_nil, List.nil_append, List.cons_append]
    by_cases hm : stack[n] = ""
    · simp [hm]
    · simp [hm, List.filter_cons]

/-- **C33.** The back trace lists exactly the live non-empty messages, newest first. -/
theorem C33_dump {s : MS} (h : Reachable s) :
    getDump s = ((live s).reverse.filter (fun m => decide (m ≠ ""))).foldl
      (fun r m => r ++ " -> " ++ m ++ "\n") "====== Back trace ======\n" :=
  dumpLoop_spec s.stack s.position _ h.inv

/-! ## Scoped trackers (`TRACE`) -/

/-- A single-threaded program using `TRACE` scopes, raw pushes and exceptions. -/
inductive Prog where
  | skip
  | raw (m : String)                -- msg_stack.push(m), never popped
  | throw
  | seq (p q : Prog)
  | scope (m : String) (p : Prog)   -- { TRACE(m); p }
  | tryCatch (p q : Prog)           -- try { p } catch (...) { q }

/-- msg_stack.hxx:151-169: `MsgStackItem` pushes on construction and, on destruction, calls `pop(point)` unless the
scope is being left by an exception.  The result says whether an exception is propagating. -/
def exec : Prog → MS → MS × Bool
  | .skip, s => (s, false)
  | .raw m, s => ((push false m s).1, false)
  | .throw, s => (s, true)
  | .seq p q, s => match exec p s with
    | (s', true) => (s', true)
    | (s', false) => exec q s'
  | .scope m p, s =>
    let (s1, point) := push false m s
    match exec p s1 with
    | (s', true) => (s', true)
    | (s', false) => (popId false (point : Int) s', false)
  | .tryCatch p q, s => match exec p s with
    | (s', true) => exec q s'
    | (s', false) => (s', false)

theorem push_inv (m : String) (s : MS) (h : Inv s) : Inv (push false m s).1 := inv_step s (.push false m) h

theorem push_live (m : String) (s : MS) (h : Inv s) : live (push false m s).1 = live s ++ [m] := by
  have := step_live s (.push false m) h
  simpa [step, specStep] using this

theorem push_ret (m : String) (s : MS) : (push false m s).2 = s.position := by
  simp only [push]; split <;> [rfl; (split <;> rfl)]

theorem popId_live (n : Nat) (s : MS) (h : Inv s) : live (popId false (n : Int) s) = (live s).take n := by
  have := step_live s (.popId false (n : Int)) h
  simpa [step, specStep] using this

theorem exec_prefix : ∀ (p : Prog) (s : MS), Inv s → Inv (exec p s).1 ∧ live s <+: live (exec p s).1
  | .skip, s, h => ⟨h, List.prefix_refl _⟩
  | .raw m, s, h => ⟨push_inv m s h, by simp only [exec]; rw [push_live m s h]; exact List.prefix_append _ _⟩
  | .throw, s, h => ⟨h, List.prefix_refl _⟩
  | .seq p q, s, h => by
    obtain ⟨h1, h2⟩ := exec_prefix p s h
    simp only [exec]
    split
    · rename_i s' e; rw [e] at h1 h2; exact ⟨h1, h2⟩
    · rename_i s' e; rw [e] at h1 h2
      obtain ⟨h3, h4⟩ := exec_prefix q s' h1
      exact ⟨h3, h2.trans h4⟩
  | .scope m p, s, h => by
    obtain ⟨h1, h2⟩ := exec_prefix p (push false m s).1 (push_inv m s h)
    rw [push_live m s h] at h2
    have h2' : live s <+: live (exec p (push false m s).1).1 := (List.prefix_append _ _).trans h2
    simp only [exec]
    split
    · rename_i s' e; rw [e] at h1 h2'; exact ⟨h1, h2'⟩
    · rename_i s' e; rw [e] at h1 h2'
      refine ⟨inv_step s' (.popId false _) h1, ?_⟩
      simp only at h1 h2'
      simp only
      rw [popId_live _ _ h1, push_ret, ← live_length s h]
      obtain ⟨t, ht⟩ := h2'
      rw [← ht, List.take_left' rfl]
      exact List.prefix_refl _
  | .tryCatch p q, s, h => by
    obtain ⟨h1, h2⟩ := exec_prefix p s h
    simp only [exec]
    split
    · rename_i s' e; rw [e] at h1 h2
      obtain ⟨h3, h4⟩ := exec_prefix q s' h1
      exact ⟨h3, h2.trans h4⟩
    · rename_i s' e; rw [e] at h1 h2; exact ⟨h1, h2⟩

/-- **C33.** Leaving a tracked scope normally restores exactly the messages that were live on entry, whatever the
body did: nested scopes, forgotten pushes, exceptions thrown and caught inside. -/
theorem C33_scope_restores {s : MS} (h : Reachable s) (m : String) (p : Prog) {s' : MS}
    (e : exec (.scope m p) s = (s', false)) : live s' = live s := by
  have hI := h.inv
  obtain ⟨h1, h2⟩ := exec_prefix p (push false m s).1 (push_inv m s hI)
  rw [push_live m s hI] at h2
  simp only [exec] at e
  split at e
  · simp at e
  · rename_i s1 e1
    rw [e1] at h1 h2
    simp only [Prod.mk.injEq, and_true] at e
    rw [← e, popId_live _ _ h1, push_ret, ← live_length s hI]
    obtain ⟨t, ht⟩ := h2
    simp only at ht
    rw [← ht, List.append_assoc, List.take_left' rfl]

/-- The messages of the scopes open at the point where `p` lets an exception escape (`none`: it does not throw).
Independent of the stack: a plain reading of the program text. -/
def openScopes : Prog → Option (List String)
  | .skip => none
  | .raw _ => none
  | .throw => some []
  | .seq p q => (openScopes p).orElse (fun _ => openScopes q)
  | .scope m p => (openScopes p).map (m :: ·)
  | .tryCatch p q => match openScopes p with
    | some _ => openScopes q
    | none => none

/-- Programs made of scopes, sequencing and throws. -/
def Plain : Prog → Prop
  | .skip => True
  | .raw _ => False
  | .throw => True
  | .seq p q => Plain p ∧ Plain q
  | .scope _ p => Plain p
  | .tryCatch _ _ => False

/-- **C33.** When an exception escapes, the back trace consists of the messages live before plus exactly the scopes
open at the throw, outermost first. -/
theorem C33_backtrace : ∀ (p : Prog) (s : MS), Plain p → Reachable s →
    ((exec p s).2 = (openScopes p).isSome) ∧ live (exec p s).1 = live s ++ (openScopes p).getD [] := by
  have key : ∀ (p : Prog) (s : MS), Plain p → Inv s →
      ((exec p s).2 = (openScopes p).isSome) ∧ live (exec p s).1 = live s ++ (openScopes p).getD [] := by
    intro p
    induction p with
    | skip => intro s _ h; simp [exec, openScopes]
    | raw m => intro s hp; exact absurd hp (by simp [Plain])
    | throw => intro s _ h; simp [exec, openScopes]
    | seq p q ihp ihq =>
      intro s hp h
      obtain ⟨a, b⟩ := ihp s hp.1 h
      have hI := (exec_prefix p s h).1
      simp only [exec, openScopes]
      cases hex : exec p s with
      | mk s' t =>
        rw [hex] at a b hI
        simp only at a b hI
        cases t with
        | true =>
          obtain ⟨l, hl⟩ := Option.isSome_iff_exists.mp a.symm
          simp [hl] at b ⊢
          exact b
        | false =>
          have hn : openScopes p = none := by
            cases ho : openScopes p with
            | none => rfl
            | some l => rw [ho] at a; simp at a
          obtain ⟨c, d⟩ := ihq s' hp.2 hI
          simp only [hn, Option.getD_none, List.append_nil, Option.orElse_none] at b ⊢
          rw [d, b]
          exact ⟨c, rfl⟩
    | scope m p ih =>
      intro s hp h
      obtain ⟨a, b⟩ := ih (push false m s).1 hp (push_inv m s h)
      have hI := (exec_prefix p _ (push_inv m s h)).1
      rw [push_live m s h] at b
      simp only [exec, openScopes]
      cases hex : exec p (push false m s).1 with
      | mk s' t =>
        rw [hex] at a b hI
        simp only at a b hI
        cases t with
        | true =>
          obtain ⟨l, hl⟩ := Option.isSome_iff_exists.mp a.symm
          simp [hl] at b ⊢
          exact b
        | false =>
          have hn : openScopes p = none := by
            cases ho : openScopes p with
            | none => rfl
            | some l => rw [ho] at a; simp at a
          simp only [hn, Option.getD_none, List.append_nil, Option.map_none, Option.isSome_none] at b ⊢
          refine ⟨trivial, ?_⟩
          rw [popId_live _ _ hI, push_ret, ← live_length s h, b, List.take_left' rfl]
    | tryCatch p q _ _ => intro s hp; exact absurd hp (by simp [Plain])
  intro p s hp h
  exact key p s hp h.inv

/-- In a parallel region `push` records nothing but `pop()` still removes a message: unbalanced (finding F20).
(The scoped trackers use `pop(id)`, which is guarded.) -/
theorem C33_pop_in_parallel_violated : ∃ s, Reachable s ∧
    live (step (step s (.push true "inner")) .pop) ≠ live s :=
  ⟨step init (.push false "outer"), ⟨[.push false "outer"], rfl⟩, by decide⟩

example : live ([Op.push false "a", .push false "b", .pop, .push false "c", .popId false 1].foldl step init) = ["a"] := by
  decide

example : (exec (.scope "a" (.seq (.tryCatch (.scope "b" .throw) .skip) (.raw "c"))) init).1.position = 0 ∧
    live (exec (.scope "a" (.scope "b" .throw)) init).1 = ["a", "b"] := by decide

end Verif.MsgStack
