import Verif.Array.Model
import Mathlib.Data.List.Basic
import Mathlib.Data.List.Nodup
import Mathlib.Data.List.Perm.Basic
/-! Helper lemmas for the Array properties. -/

namespace Verif.Array
open State
variable {V : Type}

/-- The bookkeeping invariant. -/
structure Inv (s : State V) : Prop where
  live : ∀ b, some b ∈ s.handles → s.mem b ≠ none ∧ b ∉ s.stored
  nodup : s.stored.Nodup
  sizes : ∀ e ∈ s.arena.flatten, ∃ d, s.mem e.2 = some d ∧ d.length = e.1
  fresh : ∀ b, s.mem b ≠ none → b < s.next
  noleak : ∀ b, s.mem b ≠ none → some b ∈ s.handles ∨ b ∈ s.stored

theorem flatten_perm_of_getElem? {α} {ar : List (List α)} {t : Nat} {st : List α} (h : ar[t]? = some st) :
    ar.flatten.Perm (st ++ (ar.eraseIdx t).flatten) := by
  induction ar generalizing t with
  | nil => simp at h
  | cons a ar ih =>
    cases t with
    | zero => simp at h; subst h; simp
    | succ t =>
      simp at h
      simp only [List.flatten_cons, List.eraseIdx_cons_succ]
      refine (List.Perm.append_left a (ih h)).trans ?_
      rw [← List.append_assoc, ← List.append_assoc]
      exact List.Perm.append_right _ List.perm_append_comm

theorem flatten_set_perm {α} {ar : List (List α)} {t : Nat} {st st' : List α} (h : ar[t]? = some st) :
    (ar.set t st').flatten.Perm (st' ++ (ar.eraseIdx t).flatten) := by
  have h1 : (ar.set t st')[t]? = some st' := by
    rw [List.getElem?_set_self]
    exact (List.getElem?_eq_some_iff.1 h).1
  have := flatten_perm_of_getElem? h1
  rwa [List.eraseIdx_set_eq] at this

theorem mem_set_none {l : List (Option Nat)} {k b} (h : some b ∈ l.set k none) : some b ∈ l := by
  rcases List.mem_or_eq_of_mem_set h with h | h
  · exact h
  · simp at h

theorem count_set_none {l : List (Option Nat)} {k b : Nat} (h : l[k]? = some (some b)) :
    (l.set k none).count (some b) + 1 = l.count (some b) := by
  induction l generalizing k with
  | nil => simp at h
  | cons a l ih =>
    cases k with
    | zero => simp at h; subst h; simp
    | succ k =>
      simp at h
      have := ih h
      simp only [List.set_cons_succ, List.count_cons]
      omega

theorem mem_set_none_of_ne {l : List (Option Nat)} {k b c : Nat} (h : l[k]? = some (some b)) (hc : c ≠ b)
    (hm : some c ∈ l) : some c ∈ l.set k none := by
  rw [List.mem_iff_getElem?] at hm ⊢
  obtain ⟨i, hi⟩ := hm
  refine ⟨i, ?_⟩
  rw [List.getElem?_set_ne]
  · exact hi
  · rintro rfl; rw [h] at hi; simp at hi; exact hc hi.symm

theorem inv_useCount_handle {s : State V} (h : Inv s) {b : Nat} (hb : some b ∈ s.handles) :
    s.useCount b = s.handles.count (some b) := by
  unfold useCount
  rw [List.count_eq_zero.2 (h.live b hb).2]; rfl

/-! ### Elementary transitions -/

theorem getPush_spec {s s' : State V} {t len : Nat} {j : V} (h : Inv s) (e : s.getPush t len j = .ok s') :
    ∃ p d, s'.handles = s.handles ++ [some p] ∧ s'.mem p = some d ∧ d.length = len ∧
      some p ∉ s.handles ∧ (∀ c, c ≠ p → s'.mem c = s.mem c) ∧ Inv s' ∧ p ∉ s'.stored ∧
      s'.useStore = s.useStore ∧ s'.arena.length = s.arena.length := by
  unfold getPush at e
  split at e
  · simp at e
  · rename_i st hst
    split at e
    · rename_i n b hf
      simp only [Except.ok.injEq] at e
      subst e
      have hn : n = len := by simpa using List.find?_some hf
      subst hn
      have hmemst := List.mem_of_find?_eq_some hf
      have hp := flatten_perm_of_getElem? hst
      have hmem : (n, b) ∈ s.arena.flatten := hp.mem_iff.2 (List.mem_append_left _ hmemst)
      obtain ⟨d, hd, hlen⟩ := h.sizes _ hmem
      have hps := flatten_set_perm (st' := st.eraseP (fun e => decide (e.1 = n))) hst
      have hst' : st.Perm ((n, b) :: st.eraseP (fun e => decide (e.1 = n))) := by
        clear hp hps hmem hst
        induction st with
        | nil => simp at hf
        | cons a st ih =>
          rw [List.find?_cons] at hf
          split at hf
          · rename_i ha
            simp only [Option.some.injEq] at hf
            subst hf
            rw [List.eraseP_cons_of_pos (by simp)]
          · rename_i ha
            rw [List.eraseP_cons_of_neg (by simp [ha])]
            exact (List.Perm.cons a (ih hf (List.mem_of_find?_eq_some hf))).trans (List.Perm.swap _ _ _)
      have hfl : s.arena.flatten.Perm
          ((n, b) :: (s.arena.set t (st.eraseP (fun e => decide (e.1 = n)))).flatten) := by
        refine hp.trans ((hst'.append_right _).trans ?_)
        exact List.Perm.cons _ hps.symm
      have hstored : s.stored.Perm (b :: ((s.arena.set t (st.eraseP (fun e => decide (e.1 = n)))).flatten.map Prod.snd)) := by
        have := hfl.map Prod.snd
        simpa [stored] using this
      have hnd := hstored.nodup_iff.1 h.nodup
      rw [List.nodup_cons] at hnd
      have hbh : some b ∉ s.handles := fun hb => (h.live b hb).2 (hstored.mem_iff.2 (by simp))
      refine ⟨b, d, rfl, hd, hlen, hbh, fun _ _ => rfl, ?_, hnd.1, rfl, by simp⟩
      refine ⟨?_, hnd.2, ?_, h.fresh, ?_⟩
      · intro c hc
        simp only [List.mem_append, List.mem_singleton, Option.some.injEq] at hc
        rcases hc with hc | rfl
        · have := h.live c hc
          refine ⟨this.1, fun hx => this.2 (hstored.mem_iff.2 (List.mem_cons_of_mem _ hx))⟩
        · exact ⟨by simp [hd], hnd.1⟩
      · intro e he
        exact h.sizes e (hfl.mem_iff.2 (List.mem_cons_of_mem _ he))
      · intro c hc
        rcases h.noleak c hc with hh | hh
        · left; simp [hh]
        · rcases List.mem_cons.1 (hstored.mem_iff.1 hh) with rfl | hh
          · left; simp
          · right; exact hh
    · rename_i hf
      simp only [Except.ok.injEq] at e
      subst e
      have hnone : s.mem s.next = none := by
        by_contra hc; exact absurd (h.fresh _ hc) (by omega)
      have hnh : some s.next ∉ s.handles := fun hb => (h.live _ hb).1 hnone
      have hns : s.next ∉ s.stored := by
        intro hx
        unfold stored at hx
        rw [List.mem_map] at hx
        obtain ⟨e, he, hee⟩ := hx
        obtain ⟨d, hd, _⟩ := h.sizes e he
        rw [hee, hnone] at hd; simp at hd
      refine ⟨s.next, List.replicate len j, rfl, by simp [setMem], by simp, hnh, ?_, ?_, hns, rfl, rfl⟩
      · intro c hc; simp [setMem, hc]
      · refine ⟨?_, h.nodup, ?_, ?_, ?_⟩
        · intro c hc
          simp only [List.mem_append, List.mem_singleton, Option.some.injEq] at hc
          by_cases hcn : c = s.next
          · subst hcn; exact ⟨by simp [setMem], hns⟩
          · rcases hc with hc | hc
            · have := h.live c hc
              exact ⟨by simp [setMem, hcn, this.1], this.2⟩
            · exact absurd hc hcn
        · intro e he
          obtain ⟨d, hd, hl⟩ := h.sizes e he
          refine ⟨d, ?_, hl⟩
          have : e.2 ≠ s.next := by rintro hx; rw [hx, hnone] at hd; simp at hd
          simp [setMem, this, hd]
        · intro c hc
          show c < s.next + 1
          by_cases hcn : c = s.next
          · omega
          · simp only [setMem, hcn, if_false] at hc
            have := h.fresh c hc; omega
        · intro c hc
          by_cases hcn : c = s.next
          · subst hcn; left; simp
          · simp only [setMem, hcn, if_false] at hc
            rcases h.noleak c hc with hh | hh
            · left; simp [hh]
            · right; exact hh

theorem release_spec {s s' : State V} {t k : Nat} (h : Inv s) (e : s.release t k = .ok s') :
    s'.handles = s.handles.set k none ∧ k < s.handles.length ∧
      (∀ c, some c ∈ s'.handles → s'.mem c = s.mem c) ∧ Inv s' ∧ s'.useStore = s.useStore ∧
      s'.arena.length = s.arena.length := by
  unfold release at e
  split at e
  · simp at e
  · rename_i hk
    simp only [Except.ok.injEq] at e
    subst e
    have hlt := (List.getElem?_eq_some_iff.1 hk).1
    have hself : s.handles.set k none = s.handles := by
      apply List.ext_getElem?
      intro i
      by_cases hi : k = i
      · subst hi; rw [List.getElem?_set_self hlt, hk]
      · rw [List.getElem?_set_ne hi]
    exact ⟨hself.symm, hlt, fun _ _ => rfl, h, rfl, rfl⟩
  · rename_i b hk
    have hlt := (List.getElem?_eq_some_iff.1 hk).1
    have hbm : some b ∈ s.handles := List.mem_of_getElem? hk
    have hb := h.live b hbm
    have huc := inv_useCount_handle h hbm
    have hcs := count_set_none hk
    split at e
    · rename_i h1
      have hnot : some b ∉ s.handles.set k none := by
        rw [← List.count_eq_zero]; omega
      split at e
      · rename_i hus
        split at e
        · rename_i st d hst hd
          simp only [Except.ok.injEq] at e
          subst e
          refine ⟨rfl, hlt, fun _ _ => rfl, ?_, rfl, by simp⟩
          have hp := flatten_perm_of_getElem? hst
          have hps := flatten_set_perm (st' := (d.length, b) :: st) hst
          have hfl : (s.arena.set t ((d.length, b) :: st)).flatten.Perm ((d.length, b) :: s.arena.flatten) :=
            hps.trans (List.Perm.cons _ hp.symm)
          have hstored : ((s.arena.set t ((d.length, b) :: st)).flatten.map Prod.snd).Perm (b :: s.stored) := by
            have := hfl.map Prod.snd
            simpa [stored] using this
          refine ⟨?_, ?_, ?_, h.fresh, ?_⟩
          · intro c hc
            have hcb : c ≠ b := by rintro rfl; exact hnot hc
            have := h.live c (mem_set_none hc)
            refine ⟨this.1, fun hx => ?_⟩
            rcases List.mem_cons.1 (hstored.mem_iff.1 hx) with hx | hx
            · exact hcb hx
            · exact this.2 hx
          · exact hstored.nodup_iff.2 (List.nodup_cons.2 ⟨hb.2, h.nodup⟩)
          · intro e he
            rcases List.mem_cons.1 (hfl.mem_iff.1 he) with rfl | he
            · exact ⟨d, hd, rfl⟩
            · exact h.sizes e he
          · intro c hc
            by_cases hcb : c = b
            · subst hcb; right; exact hstored.mem_iff.2 (by simp)
            · rcases h.noleak c hc with hh | hh
              · left; exact mem_set_none_of_ne hk hcb hh
              · right; exact hstored.mem_iff.2 (by simp [hh])
        · simp at e
        · simp at e
      · simp only [Except.ok.injEq] at e
        subst e
        refine ⟨rfl, hlt, ?_, ?_, rfl, rfl⟩
        · intro c hc
          have hcb : c ≠ b := by rintro rfl; exact hnot hc
          simp [setMem, hcb]
        · refine ⟨?_, h.nodup, ?_, ?_, ?_⟩
          · intro c hc
            have hcb : c ≠ b := by rintro rfl; exact hnot hc
            have := h.live c (mem_set_none hc)
            exact ⟨by simp [setMem, hcb, this.1], this.2⟩
          · intro e he
            obtain ⟨d, hd, hl⟩ := h.sizes e he
            have : e.2 ≠ b := by
              rintro hx; apply hb.2; unfold stored; rw [List.mem_map]; exact ⟨e, he, hx⟩
            exact ⟨d, by simp [setMem, this, hd], hl⟩
          · intro c hc
            by_cases hcb : c = b
            · subst hcb; simp [setMem] at hc
            · simp only [setMem, hcb, if_false] at hc; exact h.fresh c hc
          · intro c hc
            by_cases hcb : c = b
            · subst hcb; simp [setMem] at hc
            · simp only [setMem, hcb, if_false] at hc
              rcases h.noleak c hc with hh | hh
              · left; exact mem_set_none_of_ne hk hcb hh
              · right; exact hh
    · rename_i h1
      simp only [Except.ok.injEq] at e
      subst e
      refine ⟨rfl, hlt, fun _ _ => rfl, ?_, rfl, rfl⟩
      refine ⟨fun c hc => h.live c (mem_set_none hc), h.nodup, h.sizes, h.fresh, ?_⟩
      intro c hc
      by_cases hcb : c = b
      · subst hcb
        left
        show some c ∈ s.handles.set k none
        rw [← List.count_pos_iff]
        have : 0 < s.handles.count (some c) := List.count_pos_iff.2 hbm
        omega
      · rcases h.noleak c hc with hh | hh
        · left; exact mem_set_none_of_ne hk hcb hh
        · right; exact hh

/-- Changing handles without changing the set of referenced blocks keeps the invariant. -/
theorem inv_of_same_refs {s s' : State V} (h : Inv s) (hm : s'.mem = s.mem) (ha : s'.arena = s.arena)
    (hn : s'.next = s.next) (hh : ∀ b, some b ∈ s'.handles ↔ some b ∈ s.handles) : Inv s' := by
  have hst : s'.stored = s.stored := by unfold stored; rw [ha]
  refine ⟨?_, ?_, ?_, ?_, ?_⟩
  · intro b hb; rw [hm, hst]; exact h.live b ((hh b).1 hb)
  · rw [hst]; exact h.nodup
  · rw [ha, hm]; exact h.sizes
  · rw [hm, hn]; exact h.fresh
  · intro b hb; rw [hm] at hb; rw [hst, hh]; exact h.noleak b hb

/-- Overwriting an allocated, unstored block with data keeps the invariant. -/
theorem inv_setMem {s : State V} (h : Inv s) {b : Nat} {d : List V} (hb : some b ∈ s.handles) :
    Inv { s with mem := setMem s.mem b (some d) } := by
  have hl := h.live b hb
  refine ⟨?_, h.nodup, ?_, ?_, ?_⟩
  · intro c hc
    refine ⟨?_, (h.live c hc).2⟩
    by_cases hcb : c = b
    · simp [setMem, hcb]
    · simp [setMem, hcb, (h.live c hc).1]
  · intro e he
    obtain ⟨d', hd, hlen⟩ := h.sizes e he
    have : e.2 ≠ b := by
      rintro hx; apply hl.2; unfold stored; rw [List.mem_map]; exact ⟨e, he, hx⟩
    exact ⟨d', by simp [setMem, this, hd], hlen⟩
  · intro c hc
    by_cases hcb : c = b
    · subst hcb; exact h.fresh c hl.1
    · simp only [setMem, hcb, if_false] at hc; exact h.fresh c hc
  · intro c hc
    by_cases hcb : c = b
    · subst hcb; exact Or.inl hb
    · simp only [setMem, hcb, if_false] at hc; exact h.noleak c hc

theorem inv_init (n : Nat) : Inv (State.init V n) := by
  have : (List.replicate n ([] : List (Nat × Nat))).flatten = [] := by simp
  refine ⟨?_, ?_, ?_, ?_, ?_⟩ <;> simp [State.init, stored, this]

end Verif.Array
