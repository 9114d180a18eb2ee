import Verif.Array.Lemmas
/-! Per-operation lemmas: invariant, effect on visible contents, absence of UB. -/

namespace Verif.Array
open State
variable {V : Type}

/-- contents of a handle list under a memory -/
def view (m : Nat → Option (List V)) (hs : List (Option Nat)) : List (Option (List V)) :=
  hs.map (fun h => h.bind m)

theorem contents_eq (s : State V) : s.contents = view s.mem s.handles := rfl

theorem view_congr {m m' : Nat → Option (List V)} {hs : List (Option Nat)}
    (h : ∀ c, some c ∈ hs → m' c = m c) : view m' hs = view m hs := by
  unfold view
  apply List.map_congr_left
  intro x hx
  cases x with
  | none => rfl
  | some c => exact h c hx

theorem view_append (m : Nat → Option (List V)) (a b : List (Option Nat)) :
    view m (a ++ b) = view m a ++ view m b := by simp [view]

theorem view_set (m : Nat → Option (List V)) (a : List (Option Nat)) (k : Nat) (h : Option Nat) :
    view m (a.set k h) = (view m a).set k (h.bind m) := by simp [view, List.map_set]

theorem view_getElem? {m : Nat → Option (List V)} {a : List (Option Nat)} {k : Nat} {p : Option Nat}
    (h : a[k]? = some p) : (view m a)[k]? = some (p.bind m) := by simp [view, h]

theorem view_length (m : Nat → Option (List V)) (a : List (Option Nat)) :
    (view m a).length = a.length := by simp [view]

theorem mem_append_singleton_iff {l : List (Option Nat)} {p : Option Nat} {b : Nat}
    (hp : p = none ∨ p ∈ l) : some b ∈ l ++ [p] ↔ some b ∈ l := by
  simp only [List.mem_append, List.mem_singleton]
  constructor
  · rintro (h | h)
    · exact h
    · rcases hp with rfl | hp
      · simp at h
      · rw [h]; exact hp
  · exact Or.inl

theorem copyCtor_spec {s s' : State V} {src : Nat} (h : Inv s) (e : s.copyCtor src = .ok s') :
    ∃ p, s.handles[src]? = some p ∧ s' = { s with handles := s.handles ++ [p] } ∧ Inv s' := by
  unfold copyCtor at e
  split at e
  · simp at e
  · rename_i p hp
    simp only [Except.ok.injEq] at e
    refine ⟨p, hp, e.symm, ?_⟩
    subst e
    exact inv_of_same_refs h rfl rfl rfl
      (fun b => mem_append_singleton_iff (Or.inr (List.mem_of_getElem? hp)))

theorem moveCtor_spec {s s' : State V} {src : Nat} (h : Inv s) (e : s.moveCtor src = .ok s') :
    ∃ p, s.handles[src]? = some p ∧ s' = { s with handles := s.handles.set src none ++ [p] } ∧ Inv s' := by
  unfold moveCtor at e
  split at e
  · simp at e
  · rename_i p hp
    simp only [Except.ok.injEq] at e
    refine ⟨p, hp, e.symm, ?_⟩
    subst e
    refine inv_of_same_refs h rfl rfl rfl (fun b => ?_)
    simp only [List.mem_append, List.mem_singleton]
    constructor
    · rintro (hx | hx)
      · exact mem_set_none hx
      · rw [hx]; exact List.mem_of_getElem? hp
    · intro hx
      by_cases hpb : p = some b
      · right; exact hpb.symm
      · left
        rw [List.mem_iff_getElem?] at hx ⊢
        obtain ⟨i, hi⟩ := hx
        refine ⟨i, ?_⟩
        rw [List.getElem?_set_ne]
        · exact hi
        · rintro rfl; rw [hp] at hi; simp at hi; exact hpb hi

theorem assign_spec {s s' : State V} {t dst src : Nat} (h : Inv s) (e : s.assign t dst src = .ok s') :
    ∃ p, s.handles[src]? = some p ∧ dst < s.handles.length ∧ s'.handles = s.handles.set dst p ∧
      (∀ c, some c ∈ s'.handles → s'.mem c = s.mem c) ∧ Inv s' := by
  unfold assign at e
  cases h1 : s.copyCtor src with
  | error x => simp [h1, bind, Except.bind] at e
  | ok s1 =>
    simp only [h1, bind, Except.bind] at e
    obtain ⟨p, hp, rfl, hI1⟩ := copyCtor_spec h h1
    split at e
    · rename_i hdst
      obtain ⟨q, hq⟩ : ∃ q, s.handles[dst]? = some q := ⟨_, List.getElem?_eq_getElem hdst⟩
      have hsw : ({ s with handles := s.handles ++ [p] } : State V).swapLast dst =
          .ok { s with handles := s.handles.set dst p ++ [q] } := by
        unfold swapLast
        simp only [List.getElem?_append_left hdst, hq, List.getLast?_concat, List.dropLast_concat]
        rw [List.set_append_left _ _ hdst]
      simp only [hsw] at e
      have hI2 : Inv ({ s with handles := s.handles.set dst p ++ [q] } : State V) := by
        refine inv_of_same_refs h rfl rfl rfl (fun b => ?_)
        simp only [List.mem_append, List.mem_singleton]
        constructor
        · rintro (hx | hx)
          · rcases List.mem_or_eq_of_mem_set hx with hx | hx
            · exact hx
            · rw [hx]; exact List.mem_of_getElem? hp
          · rw [hx]; exact List.mem_of_getElem? hq
        · intro hx
          by_cases hqb : q = some b
          · right; exact hqb.symm
          · left
            rw [List.mem_iff_getElem?] at hx ⊢
            obtain ⟨i, hi⟩ := hx
            refine ⟨i, ?_⟩
            rw [List.getElem?_set_ne]
            · exact hi
            · rintro rfl; rw [hq] at hi; simp at hi; exact hqb hi
      split at e
      · simp at e
      · rename_i s3 h3
        obtain ⟨hh, _, hm, hI3, _⟩ := release_spec hI2 h3
        simp only [Except.ok.injEq] at e
        have hh' : s3.handles = s.handles.set dst p ++ [none] := by
          rw [hh, show (s.handles ++ [p]).length - 1 = (s.handles.set dst p).length by simp]
          rw [List.set_append_right _ _ (by omega)]
          simp
        have hs' : s'.handles = s.handles.set dst p := by
          rw [← e]; simp [hh']
        refine ⟨p, hp, hdst, hs', ?_, ?_⟩
        · intro c hc
          rw [← e]
          rw [hs'] at hc
          exact hm c (by rw [hh']; simp [hc])
        · rw [← e]
          refine inv_of_same_refs hI3 rfl rfl rfl (fun b => ?_)
          simp only [hh', List.dropLast_concat]
          simp
    · simp at e

theorem moveLast_spec {s s' : State V} {hs : List (Option Nat)} {k p : Nat} (h : Inv s)
    (hh : s.handles = hs ++ [some p]) (hk : hs[k]? = some none) (e : s.moveLast k = .ok s') :
    s' = { s with handles := hs.set k (some p) } ∧ Inv s' := by
  unfold moveLast at e
  have hlast : s.handles.getLast? = some (some p) := by rw [hh]; simp
  simp only [hlast, Except.ok.injEq] at e
  have e' : s' = { s with handles := hs.set k (some p) } := by
    rw [← e]; simp [hh]
  refine ⟨e', ?_⟩
  rw [e']
  refine inv_of_same_refs h rfl rfl rfl (fun b => ?_)
  rw [hh]
  simp only [List.mem_append, List.mem_singleton]
  have hlt := (List.getElem?_eq_some_iff.1 hk).1
  constructor
  · intro hx
    rcases List.mem_or_eq_of_mem_set hx with hx | hx
    · exact Or.inl hx
    · exact Or.inr hx
  · rintro (hx | hx)
    · rw [List.mem_iff_getElem?] at hx ⊢
      obtain ⟨i, hi⟩ := hx
      refine ⟨i, ?_⟩
      rw [List.getElem?_set_ne]
      · exact hi
      · rintro rfl; rw [hk] at hi; simp at hi
    · rw [hx]; exact List.mem_set hlt _

theorem reallocate_spec {s s' : State V} {t k len : Nat} {j : V} (h : Inv s)
    (e : s.reallocate t k len j = .ok s') :
    ∃ p g, s'.handles = s.handles.set k (some p) ∧ k < s.handles.length ∧ s'.mem p = some g ∧
      g.length = len ∧ (∀ c, some c ∈ s.handles.set k none → c ≠ p ∧ s'.mem c = s.mem c) ∧ Inv s' := by
  unfold reallocate at e
  cases h1 : s.release t k with
  | error x => simp [h1, bind, Except.bind] at e
  | ok s1 =>
    simp only [h1, bind, Except.bind] at e
    obtain ⟨hh1, hk, hm1, hI1, _⟩ := release_spec h h1
    cases h2 : s1.getPush t len j with
    | error x => simp [h2] at e
    | ok s2 =>
      simp only [h2] at e
      obtain ⟨p, g, hh2, hg, hlen, hpn, hm2, hI2, _⟩ := getPush_spec hI1 h2
      obtain ⟨rfl, hI3⟩ := moveLast_spec hI2 hh2 (by rw [hh1, List.getElem?_set_self hk]) e
      refine ⟨p, g, by simp [hh1], hk, hg, hlen, ?_, hI3⟩
      intro c hc
      rw [← hh1] at hc
      have hcp : c ≠ p := by rintro rfl; exact hpn hc
      exact ⟨hcp, by simp only [hm2 c hcp, hm1 c hc]⟩

theorem ensureUnique_spec {s s' : State V} {t k : Nat} {j : V} (h : Inv s)
    (e : s.ensureUnique t k j = .ok s') :
    k < s'.handles.length ∧ s'.handles.length = s.handles.length ∧ s'.contents = s.contents ∧ Inv s' ∧
      (∀ b, s'.handles[k]? = some (some b) → ∀ i, s'.handles[i]? = some (some b) → i = k) := by
  unfold ensureUnique at e
  split at e
  · simp at e
  · rename_i hk
    simp only [Except.ok.injEq] at e
    subst e
    refine ⟨(List.getElem?_eq_some_iff.1 hk).1, rfl, rfl, h, ?_⟩
    intro b hb; rw [hk] at hb; simp at hb
  · rename_i b hk
    have hlt := (List.getElem?_eq_some_iff.1 hk).1
    have hbm : some b ∈ s.handles := List.mem_of_getElem? hk
    split at e
    · rename_i h1
      simp only [Except.ok.injEq] at e
      subst e
      refine ⟨hlt, rfl, rfl, h, ?_⟩
      intro b' hb' i hi
      have : b' = b := by rw [hk] at hb'; simpa using hb'.symm
      subst this
      by_contra hne
      have hc := count_set_none hk
      rw [inv_useCount_handle h hbm] at h1
      have : some b' ∈ s.handles.set k none := by
        rw [List.mem_iff_getElem?]
        exact ⟨i, by rw [List.getElem?_set_ne (fun h => hne h.symm)]; exact hi⟩
      have := List.count_pos_iff.2 this
      omega
    · split at e
      · simp at e
      · rename_i d hd
        simp only [bind, Except.bind] at e
        cases h1 : s.getPush t d.length j with
        | error x => simp [h1] at e
        | ok s1 =>
          obtain ⟨p, g, hh1, hg, hlen, hpn, hm1, hI1, hps, _⟩ := getPush_spec h h1
          simp only [h1, hh1, List.getLast?_concat] at e
          rw [← hh1] at e
          have hI2 := inv_setMem (b := p) (d := d) hI1 (by rw [hh1]; simp)
          cases h3 : ({ s1 with mem := setMem s1.mem p (some d) } : State V).release t k with
          | error x => simp [h3] at e
          | ok s3 =>
            simp only [h3] at e
            obtain ⟨hh3, hk3, hm3, hI3, _⟩ := release_spec hI2 h3
            have hh3' : s3.handles = s.handles.set k none ++ [some p] := by
              rw [hh3]; simp only [hh1]
              rw [List.set_append_left _ _ hlt]
            obtain ⟨rfl, hI4⟩ := moveLast_spec hI3 hh3' (by rw [List.getElem?_set_self hlt]) e
            have hset : (s.handles.set k none).set k (some p) = s.handles.set k (some p) := by simp
            refine ⟨by simpa using hlt, by simp, ?_, hI4, ?_⟩
            · rw [contents_eq, contents_eq]
              simp only [hset]
              have hp3 : s3.mem p = some d := by
                rw [hm3 p (by rw [hh3']; simp)]; simp [setMem]
              apply List.ext_getElem?
              intro i
              by_cases hi : k = i
              · subst hi
                rw [view_getElem? (p := some p) (by rw [List.getElem?_set_self hlt]), view_getElem? hk]
                simp [hp3, hd]
              · unfold view
                rw [List.getElem?_map, List.getElem?_map, List.getElem?_set_ne hi]
                cases hx : s.handles[i]? with
                | none => rfl
                | some x =>
                  cases x with
                  | none => rfl
                  | some c =>
                    have hcp : c ≠ p := by rintro rfl; exact hpn (List.mem_of_getElem? hx)
                    have hc3 : some c ∈ s3.handles := by
                      rw [hh3']
                      refine List.mem_append_left _ ?_
                      rw [List.mem_iff_getElem?]
                      exact ⟨i, by rw [List.getElem?_set_ne hi]; exact hx⟩
                    simp only [Option.map_some, Option.bind_some, Option.some.injEq]
                    rw [hm3 c hc3]
                    simp only [setMem, hcp, if_false]
                    exact hm1 c hcp
            · intro b' hb' i hi
              simp only [hset] at hb' hi
              rw [List.getElem?_set_self hlt] at hb'
              simp only [Option.some.injEq] at hb'
              subst hb'
              by_contra hne
              rw [List.getElem?_set_ne (fun h => hne h.symm)] at hi
              exact hpn (List.mem_of_getElem? hi)

theorem write_spec {s s' : State V} {k i : Nat} {v : V} (h : Inv s) (e : s.write k i v = .ok s') :
    ∃ b d, s.handles[k]? = some (some b) ∧ s.mem b = some d ∧ i < d.length ∧
      s' = { s with mem := setMem s.mem b (some (d.set i v)) } ∧ Inv s' := by
  unfold write at e
  split at e
  · rename_i b hk
    split at e
    · rename_i d hd
      split at e
      · rename_i hi
        simp only [Except.ok.injEq] at e
        refine ⟨b, d, hk, hd, hi, e.symm, ?_⟩
        rw [← e]
        exact inv_setMem h (List.mem_of_getElem? hk)
      · simp at e
    · simp at e
  · simp at e

theorem cleanup_inv {s : State V} (h : Inv s) : Inv s.cleanup := by
  refine ⟨?_, ?_, ?_, ?_, ?_⟩
  · intro b hb
    have hb' : some b ∈ s.handles := hb
    refine ⟨?_, by simp [stored, cleanup]⟩
    simp only [cleanup]
    rw [if_neg (by tauto)]
    exact (h.live b hb').1
  · simp [stored, cleanup]
  · simp [cleanup]
  · intro b hb
    simp only [cleanup] at hb ⊢
    split at hb
    · simp at hb
    · exact h.fresh b hb
  · intro b hb
    simp only [cleanup] at hb ⊢
    split at hb
    · simp at hb
    · rename_i hn
      rcases h.noleak b hb with hh | hh
      · exact Or.inl hh
      · left; by_contra hc; exact hn ⟨hh, hc⟩

theorem step_inv {s s' : State V} {t : Nat} {j : V} {o : Op V} (h : Inv s)
    (e : s.step t j o = .ok s') : Inv s' := by
  cases o <;> simp only [State.step, Except.ok.injEq] at e
  case new len => obtain ⟨_, _, _, _, _, _, _, hI, _⟩ := getPush_spec h e; exact hI
  case newEmpty =>
    rw [← e]
    exact inv_of_same_refs h rfl rfl rfl (fun b => mem_append_singleton_iff (Or.inl rfl))
  case copyCtor src => obtain ⟨_, _, _, hI⟩ := copyCtor_spec h e; exact hI
  case moveCtor src => obtain ⟨_, _, _, hI⟩ := moveCtor_spec h e; exact hI
  case assign d sr => obtain ⟨_, _, _, _, _, hI⟩ := assign_spec h e; exact hI
  case destroy k => exact (release_spec h e).2.2.2.1
  case reallocate k len => obtain ⟨_, _, _, _, _, _, _, hI⟩ := reallocate_spec h e; exact hI
  case ensureUnique k => exact (ensureUnique_spec h e).2.2.2.1
  case write k i v => obtain ⟨_, _, _, _, _, _, hI⟩ := write_spec h e; exact hI
  case disableStore => rw [← e]; exact inv_of_same_refs h rfl rfl rfl (fun _ => Iff.rfl)
  case cleanup => rw [← e]; exact cleanup_inv h

theorem run_inv {s s' : State V} {os : List (Nat × V × Op V)} (h : Inv s) (e : s.run os = .ok s') :
    Inv s' := by
  induction os generalizing s with
  | nil => simp only [State.run, Except.ok.injEq] at e; exact e ▸ h
  | cons a os ih =>
    obtain ⟨t, j, o⟩ := a
    simp only [State.run] at e
    split at e
    · rename_i s1 h1; exact ih (step_inv h h1) e
    · simp at e

theorem getPush_ok (s : State V) (t len : Nat) (j : V) (ht : t < s.arena.length) :
    ∃ s', s.getPush t len j = .ok s' := by
  unfold getPush
  rw [List.getElem?_eq_getElem ht]
  simp only
  split <;> exact ⟨_, rfl⟩

theorem release_ok {s : State V} (h : Inv s) (t k : Nat) (ht : t < s.arena.length)
    (hk : k < s.handles.length) : ∃ s', s.release t k = .ok s' := by
  unfold release
  rw [List.getElem?_eq_getElem hk]
  cases hx : s.handles[k] with
  | none => exact ⟨_, rfl⟩
  | some b =>
    have hb := h.live b (by rw [← hx]; exact List.getElem_mem hk)
    simp only
    split
    · split
      · rw [List.getElem?_eq_getElem ht]
        cases hm : s.mem b with
        | none => exact absurd hm hb.1
        | some d => exact ⟨_, rfl⟩
      · exact ⟨_, rfl⟩
    · exact ⟨_, rfl⟩

end Verif.Array
