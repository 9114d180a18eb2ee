import Verif.Fft.ParStep

/-!
# Every step and every schedule of the thread-safe transforms

Proof material for `C77`; nothing here is part of the specification.
-/

namespace Verif.Fft

variable {α β : Type} {tr : Tr α β} {norm : Nat → β → β} {N L : Nat}
  {calls : Nat → List (Nat → α)}

theorem slice_end {t N w : Nat} (ht : t < N) {M : Nat} (hM : N ≤ M) : t * w + w ≤ w * M := by
  have h1 : (t + 1) * w ≤ M * w := Nat.mul_le_mul_right w (by omega)
  rw [Nat.add_mul, Nat.one_mul] at h1
  rw [Nat.mul_comm w M]
  exact h1

/-- Different threads have disjoint slices. -/
theorem slice_apart {t u w j k : Nat} (h : u ≠ t) (hj : j < w) (hk : k < w) :
    u * w + j ≠ t * w + k := by
  intro e
  rcases Nat.lt_or_gt_of_ne h with h1 | h1
  · have : (u + 1) * w ≤ t * w := Nat.mul_le_mul_right w h1
    rw [Nat.add_mul, Nat.one_mul] at this
    omega
  · have : (t + 1) * w ≤ u * w := Nat.mul_le_mul_right w h1
    rw [Nat.add_mul, Nat.one_mul] at this
    omega

theorem step_inv (hL : 0 < L) {s : St α β} (h : Inv tr norm N L calls s) {t : Nat} (ht : t < N)
    (o : Orc α β) :
    ∃ s', step tr norm N (fun _ => L) t o s = .ok s' ∧ Inv tr norm N L calls s' := by
  have hT := h.ths t ht
  have hH := h.hist t ht
  have lockOf : isCrit (s.th t).pc = true → s.g.lock = some t := h.crit t ht
  have critOf : isCrit (s.th t).pc = true → CritOK tr N L s.g (s.th t).pc := fun e =>
    (h.held t (lockOf e)).2
  unfold ThOK at hT
  dsimp only [step]
  cases hp : (s.th t).pc with
  | start =>
    dsimp only
    cases htd : (s.th t).todo with
    | nil => exact ⟨s, rfl, h⟩
    | cons a l =>
      dsimp only
      have hc : isCrit (s.th t).pc = false := by rw [hp]; rfl
      by_cases e : s.g.size ≠ L
      · rw [if_pos e]
        exact ⟨_, rfl, inv_local h ht _ hc rfl (show _ ≠ _ by rw [htd]; simp) (hH.of_eq rfl rfl)⟩
      · rw [if_neg e]
        exact ⟨_, rfl, inv_local h ht _ hc rfl
          ⟨by show _ ≠ _; rw [htd]; simp, Decidable.not_not.mp e⟩ (hH.of_eq rfl rfl)⟩
  | chkNth =>
    rw [hp] at hT
    dsimp only at hT ⊢
    have hc : isCrit (s.th t).pc = false := by rw [hp]; rfl
    by_cases e : s.g.nth < N
    · rw [if_pos e]
      exact ⟨_, rfl, inv_local h ht _ hc rfl hT.1 (hH.of_eq rfl rfl)⟩
    · rw [if_neg e]
      exact ⟨_, rfl, inv_local h ht _ hc rfl ⟨hT.1, hT.2, by omega⟩ (hH.of_eq rfl rfl)⟩
  | wait =>
    rw [hp] at hT
    dsimp only at hT ⊢
    cases hl : s.g.lock with
    | some v => exact ⟨s, rfl, h⟩
    | none =>
      have := h.free hl
      refine ⟨_, rfl, inv_crit h ht _ .reSize rfl (.inr hl) (fun u _ _ => ?_) hT ?_⟩
      · exact ⟨id, fun h => ⟨h, rfl, rfl⟩, fun _ _ _ _ h => h, fun _ _ h => h⟩
      · exact this
  | reSize =>
    rw [hp] at hT lockOf critOf
    have hl := lockOf rfl
    have hcr := critOf rfl
    dsimp only at hT ⊢
    by_cases e : s.g.size ≠ L
    · rw [if_pos e]
      exact ⟨_, rfl, inv_crit h ht s.g .chkFree hl (.inl hl) (fun u _ _ => Keeps.refl _ _) hT
        ⟨hcr, fun x => e x.1⟩⟩
    · rw [if_neg e]
      exact ⟨_, rfl, inv_crit h ht s.g .reNth hl (.inl hl) (fun u _ _ => Keeps.refl _ _) hT
        ⟨hcr, Decidable.not_not.mp e⟩⟩
  | reNth =>
    rw [hp] at hT lockOf critOf
    have hl := lockOf rfl
    have hcr := critOf rfl
    dsimp only at hT ⊢
    by_cases e : s.g.nth < N
    · rw [if_pos e]
      exact ⟨_, rfl, inv_crit h ht s.g .chkFree hl (.inl hl) (fun u _ _ => Keeps.refl _ _) hT
        ⟨hcr.1, fun x => by have := x.2; omega⟩⟩
    · rw [if_neg e]
      exact ⟨_, rfl, inv_crit h ht s.g .unlock hl (.inl hl) (fun u _ _ => Keeps.refl _ _) hT
        ⟨hcr.1, hcr.2, by omega⟩⟩
  | chkFree =>
    rw [hp] at hT lockOf critOf
    have hl := lockOf rfl
    have hcr := critOf rfl
    dsimp only at hT ⊢
    by_cases e : 0 < s.g.size
    · rw [if_pos e]
      refine ⟨_, rfl, inv_crit h ht s.g (.destroy 0) hl (.inl hl) (fun u _ _ => Keeps.refl _ _) hT ?_⟩
      rcases hcr.1 with ⟨e0, _⟩ | ⟨_, r1, r2, r3, r4⟩
      · omega
      · exact ⟨hcr.2, ⟨_, r1⟩, ⟨_, r2⟩, r3, Nat.zero_le _, fun b hb j _ hj => ⟨_, r4 b hb j hj⟩⟩
    · rw [if_neg e]
      refine ⟨_, rfl, inv_crit h ht s.g .allocIn hl (.inl hl) (fun u _ _ => Keeps.refl _ _) hT ?_⟩
      rcases hcr.1 with ⟨_, r1, r2, r3⟩ | ⟨e0, _⟩
      · exact ⟨hcr.2, r1, r2, r3⟩
      · omega
  | destroy i =>
    rw [hp] at hT lockOf critOf
    have hl := lockOf rfl
    obtain ⟨c1, c2, c3, c4, c5, c6⟩ := critOf rfl
    dsimp only at hT ⊢
    by_cases e : i < s.g.nth
    · rw [if_pos e]
      obtain ⟨b, hb, hbl⟩ := c4.get
      obtain ⟨pl, hpl⟩ := c6 b hb i (Nat.le_refl _) e
      rw [read_ok hb (hbl ▸ e), hpl]
      dsimp only
      obtain ⟨h', hw, hsh, hg⟩ := write_ok hb (hbl ▸ e) none
      rw [hw]
      dsimp only
      refine ⟨_, rfl, inv_crit h ht { s.g with hpl := h' } (.destroy (i + 1)) hl (.inl hl)
        (fun u _ _ => Keeps.of_unsettled c1 id) hT ⟨c1, c2, c3, hsh.trans c4, e, ?_⟩⟩
      intro b' hb' j hj hj'
      rw [hg] at hb'
      cases hb'
      dsimp only
      rw [if_neg (by omega)]
      exact c6 b hb j (by omega) hj'
    · rw [if_neg e]
      exact ⟨_, rfl, inv_crit h ht s.g .delP hl (.inl hl) (fun u _ _ => Keeps.refl _ _) hT
        ⟨c1, c2, c3, _, c4⟩⟩
  | delP =>
    rw [hp] at hT lockOf critOf
    have hl := lockOf rfl
    obtain ⟨c1, c2, c3, _, c4⟩ := critOf rfl
    dsimp only at hT ⊢
    obtain ⟨h', hf, hd⟩ := c4.free
    rw [hf]
    exact ⟨_, rfl, inv_crit h ht _ .freeIn hl (.inl hl)
        (fun u _ _ => Keeps.of_unsettled c1 id) hT ⟨c1, c2, c3, hd⟩⟩
  | freeIn =>
    rw [hp] at hT lockOf critOf
    have hl := lockOf rfl
    obtain ⟨c1, ⟨_, c2⟩, c3, c4⟩ := critOf rfl
    dsimp only at hT ⊢
    obtain ⟨h', hf, hd⟩ := c2.free
    rw [hf]
    exact ⟨_, rfl, inv_crit h ht _ .freeOut hl (.inl hl)
        (fun u _ _ => Keeps.of_unsettled c1 id) hT ⟨c1, hd, c3, c4⟩⟩
  | freeOut =>
    rw [hp] at hT lockOf critOf
    have hl := lockOf rfl
    obtain ⟨c1, c2, ⟨_, c3⟩, c4⟩ := critOf rfl
    dsimp only at hT ⊢
    obtain ⟨h', hf, hd⟩ := c3.free
    rw [hf]
    exact ⟨_, rfl, inv_crit h ht _ .allocIn hl (.inl hl)
        (fun u _ _ => Keeps.of_unsettled c1 id) hT ⟨c1, c2, hd, c4⟩⟩
  | allocIn =>
    rw [hp] at hT lockOf critOf
    have hl := lockOf rfl
    obtain ⟨c1, c2, c3, c4⟩ := critOf rfl
    dsimp only at hT ⊢
    exact ⟨_, rfl, inv_crit h ht _ .allocOut hl (.inl hl)
        (fun u _ _ => Keeps.of_unsettled c1 id) hT ⟨c1, Own.alloc c2 _ _, c3, c4⟩⟩
  | allocOut =>
    rw [hp] at hT lockOf critOf
    have hl := lockOf rfl
    obtain ⟨c1, c2, c3, c4⟩ := critOf rfl
    dsimp only at hT ⊢
    exact ⟨_, rfl, inv_crit h ht _ .allocP hl (.inl hl)
        (fun u _ _ => Keeps.of_unsettled c1 id) hT ⟨c1, c2, Own.alloc c3 _ _, c4⟩⟩
  | allocP =>
    rw [hp] at hT lockOf critOf
    have hl := lockOf rfl
    obtain ⟨c1, c2, c3, c4⟩ := critOf rfl
    dsimp only at hT ⊢
    exact ⟨_, rfl, inv_crit h ht _ (.plan 0) hl (.inl hl)
        (fun u _ _ => Keeps.of_unsettled c1 id) hT
        ⟨c1, c2, c3, Own.alloc c4 _ _, Nat.zero_le _, fun _ _ j hj => absurd hj (Nat.not_lt_zero _)⟩⟩
  | plan i =>
    rw [hp] at hT lockOf critOf
    have hl := lockOf rfl
    obtain ⟨c1, c2, c3, c4, c5, c6⟩ := critOf rfl
    dsimp only at hT ⊢
    by_cases e : i < N
    · rw [if_pos e]
      obtain ⟨b1, hb1, hl1⟩ := c2.get
      obtain ⟨b2, hb2, hl2⟩ := c3.get
      obtain ⟨b3, hb3, hl3⟩ := c4.get
      obtain ⟨hi, hwi, hsi, -⟩ := writeMany_ok (off := i * tr.inW L) (w := tr.inW L) hb1
        (by rw [hl1]; exact slice_end e (Nat.le_refl _)) o.ji
      rw [hwi]
      dsimp only
      obtain ⟨ho, hwo, hso, -⟩ := writeMany_ok (off := i * tr.outW L) (w := tr.outW L) hb2
        (by rw [hl2]; exact slice_end e (Nat.le_refl _)) o.jo
      rw [hwo]
      dsimp only
      obtain ⟨h', hw, hsh, hg⟩ := write_ok hb3 (i := i) (by omega)
        (mkPlan L s.g.fin (i * tr.inW L) s.g.fout (i * tr.outW L))
      rw [hw]
      dsimp only
      refine ⟨_, rfl, inv_crit h ht { s.g with hin := hi, hout := ho, hpl := h' } (.plan (i + 1))
        hl (.inl hl) (fun u _ _ => Keeps.of_unsettled c1 id) hT
        ⟨c1, hsi.trans c2, hso.trans c3, hsh.trans c4, e, ?_⟩⟩
      intro b' hb' j hj
      rw [hg] at hb'
      cases hb'
      dsimp only
      by_cases ej : j = i
      · subst ej
        rw [if_pos rfl, mkPlan, if_neg (by omega)]
        rfl
      · rw [if_neg ej]
        exact c6 b3 hb3 j (by omega)
    · rw [if_neg e]
      have : i = N := by omega
      subst this
      exact ⟨_, rfl, inv_crit h ht s.g .setSize hl (.inl hl) (fun u _ _ => Keeps.refl _ _) hT
        ⟨c1, c2, c3, c4, c6⟩⟩
  | setSize =>
    rw [hp] at hT lockOf critOf
    have hl := lockOf rfl
    obtain ⟨c1, c2⟩ := critOf rfl
    dsimp only at hT ⊢
    exact ⟨_, rfl, inv_crit h ht _ .setNth hl (.inl hl)
        (fun u _ _ => Keeps.of_unsettled c1 fun _ => rfl) hT ⟨rfl, c2⟩⟩
  | setNth =>
    rw [hp] at hT lockOf critOf
    have hl := lockOf rfl
    obtain ⟨c1, c2⟩ := critOf rfl
    dsimp only at hT ⊢
    refine ⟨_, rfl, inv_crit h ht _ .unlock hl (.inl hl) (fun u _ _ => ?_) hT ⟨.inr ⟨?_, ?_⟩, ?_⟩⟩
    · exact ⟨id, fun h => ⟨⟨h.1, Nat.le_refl _⟩, rfl, rfl⟩, fun _ _ _ _ h => h, fun _ _ h => h⟩
    · show 0 < s.g.size
      omega
    · show Ready tr _ s.g.size N
      rw [c1]
      exact c2
    · exact ⟨c1, Nat.le_refl _⟩
  | unlock =>
    rw [hp] at hT lockOf critOf
    have hl := lockOf rfl
    have hcr := critOf rfl
    dsimp only at hT ⊢
    exact ⟨_, rfl, inv_unlock h ht hl hT hcr⟩
  | ptrIn =>
    rw [hp] at hT
    dsimp only at hT ⊢
    have hc : isCrit (s.th t).pc = false := by rw [hp]; rfl
    exact ⟨_, rfl, inv_local h ht _ hc rfl ⟨hT.1, hT.2, rfl⟩ (hH.of_eq rfl rfl)⟩
  | offIn =>
    rw [hp] at hT
    dsimp only at hT ⊢
    have hc : isCrit (s.th t).pc = false := by rw [hp]; rfl
    exact ⟨_, rfl, inv_local h ht _ hc rfl ⟨hT.1, hT.2.1, hT.2.2, by dsimp only; rw [hT.2.1.1]⟩
      (hH.of_eq rfl rfl)⟩
  | ptrOut =>
    rw [hp] at hT
    dsimp only at hT ⊢
    have hc : isCrit (s.th t).pc = false := by rw [hp]; rfl
    exact ⟨_, rfl, inv_local h ht _ hc rfl ⟨hT.1, hT.2.1, hT.2.2.1, hT.2.2.2, rfl⟩
      (hH.of_eq rfl rfl)⟩
  | offOut =>
    rw [hp] at hT
    dsimp only at hT ⊢
    have hc : isCrit (s.th t).pc = false := by rw [hp]; rfl
    obtain ⟨a1, a2, a3, a4, a5⟩ := hT
    obtain ⟨inp, rest, hr⟩ := List.exists_cons_of_ne_nil a1
    exact ⟨_, rfl, inv_local h ht _ hc rfl ⟨a2, a3, a4, a5, by dsimp only; rw [a2.1],
      Nat.zero_le _, inp, rest, hr, fun _ _ j hj => absurd hj (Nat.not_lt_zero _)⟩
      (hH.of_eq rfl rfl)⟩
  | fill i =>
    rw [hp] at hT
    dsimp only at hT ⊢
    have hc : isCrit (s.th t).pc = false := by rw [hp]; rfl
    obtain ⟨a1, a2, a3, a4, a5, a6, inp, rest, a7, a8⟩ := hT
    rw [a7]
    dsimp only
    by_cases e : i < tr.inW s.g.size
    · rw [if_pos e]
      rw [a1.1] at e
      obtain ⟨M, hM, r1, r2, r3, r4⟩ := h.ready hL a1
      obtain ⟨b, hb, hbl⟩ := r1.get
      have hend := slice_end (w := tr.inW L) ht hM
      obtain ⟨h', hw, hsh, hg⟩ := write_ok hb (i := t * tr.inW L + i)
        (by rw [hbl]; omega) (inp i)
      have hw' : s.g.hin.write (s.th t).fin ((s.th t).finOff + i) (inp i) = .ok h' := by
        rw [a2, a3]; exact hw
      rw [hw']
      dsimp only
      refine ⟨_, rfl, inv_data h ht h' s.g.hout { s.th t with pc := .fill (i + 1) } hsh rfl (fun u _ hu => ?_) hc rfl ?_
        (hH.of_eq rfl rfl)⟩
      · refine ⟨id, fun h => ⟨h, rfl, rfl⟩, fun _ w f hwl hsl => ?_, fun _ _ h => h⟩
        intro b' hb' j hj
        dsimp only at hb'
        rw [hg] at hb'
        cases hb'
        dsimp only
        rw [if_neg (slice_apart hu (by omega) e)]
        exact hsl b hb j hj
      · refine ⟨a1, a2, a3, a4, a5, e, inp, rest, a7, ?_⟩
        intro b' hb' j hj
        dsimp only at hb'
        rw [hg] at hb'
        cases hb'
        dsimp only
        by_cases ej : j = i
        · subst ej; rw [if_pos rfl]
        · rw [if_neg (by omega)]
          exact a8 b hb j (by omega)
    · rw [if_neg e]
      rw [a1.1] at e
      have hi : i = tr.inW L := by omega
      subst hi
      exact ⟨_, rfl, inv_local h ht _ hc rfl ⟨a1, a4, a5, inp, rest, a7, a8⟩ (hH.of_eq rfl rfl)⟩
  | getPlan =>
    rw [hp] at hT
    dsimp only at hT ⊢
    have hc : isCrit (s.th t).pc = false := by rw [hp]; rfl
    obtain ⟨a1, a4, a5, inp, rest, a7, a8⟩ := hT
    obtain ⟨M, hM, r1, r2, r3, r4⟩ := h.ready hL a1
    obtain ⟨b, hb, hbl⟩ := r3.get
    rw [read_ok hb (i := t) (by omega), r4 b hb t (by omega)]
    exact ⟨_, rfl, inv_local h ht _ hc rfl ⟨a1, a4, a5, rfl, inp, rest, a7, a8⟩
      (hH.of_eq rfl rfl)⟩
  | execRead =>
    rw [hp] at hT
    dsimp only at hT ⊢
    have hc : isCrit (s.th t).pc = false := by rw [hp]; rfl
    obtain ⟨a1, a4, a5, a6, inp, rest, a7, a8⟩ := hT
    obtain ⟨M, hM, r1, r2, r3, r4⟩ := h.ready hL a1
    obtain ⟨b, hb, hbl⟩ := r1.get
    have hend := slice_end (w := tr.inW L) ht hM
    rw [a6]
    dsimp only [planFor]
    rw [readMany_ok hb (by rw [hbl]; exact hend)]
    obtain ⟨h', hw, hsh, hg⟩ := writeMany_ok (off := t * tr.inW L) (w := tr.inW L) hb
      (by rw [hbl]; exact hend) o.ji
    dsimp only
    rw [hw]
    dsimp only
    refine ⟨_, rfl, inv_data h ht h' s.g.hout _ hsh rfl (fun u _ hu => ?_) hc rfl ?_
        (hH.of_eq rfl rfl)⟩
    · refine ⟨id, fun h => ⟨h, rfl, rfl⟩, fun _ w f hwl hsl => ?_, fun _ _ h => h⟩
      intro b' hb' j hj
      dsimp only at hb'
      rw [hg] at hb'
      cases hb'
      dsimp only
      rw [if_neg]
      · exact hsl b hb j hj
      · rintro ⟨q1, q2⟩
        exact slice_apart (w := tr.inW L) (j := j)
          (k := u * tr.inW L + j - t * tr.inW L) hu (by omega) (by omega) (by omega)
    · refine ⟨a1, a4, a5, rfl, inp, rest, a7, ?_⟩
      exact tr.run_congr L _ _ fun j hj => a8 b hb j hj
  | execWrite =>
    rw [hp] at hT
    dsimp only at hT ⊢
    have hc : isCrit (s.th t).pc = false := by rw [hp]; rfl
    obtain ⟨a1, a4, a5, a6, inp, rest, a7, a8⟩ := hT
    obtain ⟨M, hM, r1, r2, r3, r4⟩ := h.ready hL a1
    obtain ⟨b, hb, hbl⟩ := r2.get
    have hend := slice_end (w := tr.outW L) ht hM
    rw [a6]
    dsimp only [planFor]
    obtain ⟨h', hw, hsh, hg⟩ := writeMany_ok (off := t * tr.outW L) (w := tr.outW L) hb
      (by rw [hbl]; exact hend) (s.th t).tmp
    rw [hw]
    dsimp only
    refine ⟨_, rfl, inv_data h ht s.g.hin h' _ rfl hsh (fun u _ hu => ?_) hc rfl ?_
        (hH.of_eq rfl rfl)⟩
    · refine ⟨id, fun h => ⟨h, rfl, rfl⟩, fun _ _ _ _ h => h, fun _ f hsl => ?_⟩
      intro b' hb' j hj
      dsimp only at hb'
      rw [hg] at hb'
      cases hb'
      dsimp only
      rw [if_neg]
      · exact hsl b hb j hj
      · rintro ⟨q1, q2⟩
        exact slice_apart (w := tr.outW L) (j := j)
          (k := u * tr.outW L + j - t * tr.outW L) hu (by omega) (by omega) (by omega)
    · refine ⟨a1, a4, a5, Nat.zero_le _, inp, rest, a7, ?_, fun j => by
        rw [if_neg (Nat.not_lt_zero _)]⟩
      intro b' hb' j hj
      dsimp only at hb'
      rw [hg] at hb'
      cases hb'
      dsimp only
      rw [if_pos ⟨by omega, by omega⟩, a8]
      congr 1
      omega
  | store i =>
    rw [hp] at hT
    dsimp only at hT ⊢
    have hc : isCrit (s.th t).pc = false := by rw [hp]; rfl
    obtain ⟨a1, a4, a5, a6, inp, rest, a7, a8, a9⟩ := hT
    rw [a7]
    dsimp only
    rw [a1.1]
    by_cases e : i < tr.outW L
    · rw [if_pos e]
      obtain ⟨M, hM, r1, r2, r3, r4⟩ := h.ready hL a1
      obtain ⟨b, hb, hbl⟩ := r2.get
      have hend := slice_end (w := tr.outW L) ht hM
      rw [a4, a5, read_ok hb (i := t * tr.outW L + i) (by omega), a8 b hb i e]
      refine ⟨_, rfl, inv_local h ht _ hc rfl ⟨a1, rfl, rfl, e, inp, rest, rfl, a8, ?_⟩
        (hH.of_eq rfl a7.symm)⟩
      intro j
      dsimp only
      by_cases ej : j = i
      · subst ej
        rw [if_pos rfl, if_pos (by omega)]
      · rw [if_neg ej, a9 j]
        by_cases e1 : j < i
        · rw [if_pos e1, if_pos (by omega)]
        · rw [if_neg e1, if_neg (by omega)]
    · rw [if_neg e]
      have hi : i = tr.outW L := by omega
      subst hi
      refine ⟨_, rfl, inv_local h ht _ hc rfl trivial ?_⟩
      obtain ⟨k, k1, k2⟩ := hH
      refine ⟨k + 1, ?_, ?_⟩
      · dsimp only
        have hlt : k < (calls t).length := by
          rcases Nat.lt_or_ge k (calls t).length with h' | h'
          · exact h'
          · rw [List.drop_eq_nil_of_le h', a7] at k2
            cases k2
        have hget : (calls t)[k] = inp := by
          rw [List.drop_eq_getElem_cons hlt, a7] at k2
          exact (List.cons.inj k2).1.symm
        rw [k1, List.take_succ_eq_append_getElem hlt, List.map_append, hget]
        congr 1
        show [_] = [_]
        congr 1
        exact Prod.ext rfl (funext a9)
      · dsimp only
        rw [a7] at k2
        rw [← List.tail_drop, ← k2]
        rfl

theorem run_inv (hL : 0 < L) (sched : Sched α β) {s : St α β} (h : Inv tr norm N L calls s) :
    ∃ s', run tr norm N (fun _ => L) sched s = .ok s' ∧ Inv tr norm N L calls s' := by
  induction sched generalizing s with
  | nil => exact ⟨s, rfl, h⟩
  | cons a rest ih =>
    obtain ⟨t, o⟩ := a
    simp only [run]
    by_cases ht : t < N
    · rw [if_pos ht]
      obtain ⟨s', h1, h2⟩ := step_inv hL h ht o
      rw [h1]
      exact ih h2
    · rw [if_neg ht]
      exact ih h

/-- The beginning of a parallel region. -/
theorem inv_start {g : Shared α β} (hg : Cache tr g) (hl : g.lock = none) (tmp : Nat → β) :
    Inv tr norm N L calls ⟨g, fun t => Th.fresh (calls t) tmp⟩ := by
  constructor
  · intro _; exact hg
  · intro v hv; rw [hl] at hv; cases hv
  · intro u _ hu; cases hu
  · intro u _; exact trivial
  · intro u _; exact ⟨0, rfl, rfl⟩

/-- The end of a parallel region. -/
theorem inv_end {s : St α β} (h : Inv tr norm N L calls s) (hf : s.finished N) :
    s.g.lock = none ∧ Cache tr s.g := by
  have : s.g.lock = none := by
    cases hl : s.g.lock with
    | none => rfl
    | some v =>
      obtain ⟨hv, hc⟩ := h.held v hl
      rw [(hf v hv).1] at hc
      exact absurd hc id
  exact ⟨this, h.free this⟩

end Verif.Fft
