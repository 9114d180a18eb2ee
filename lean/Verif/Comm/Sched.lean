/-
The order in which messages arrive and are unpacked does not matter.
-/
import Verif.Comm.MatchProps

namespace Verif.Comm
open Verif.Mesh

/-- The effect of an arrival. -/
def arriveEff {α : Type} (incoming : Nat → Option (Recv × List α)) (n : Nat) (w : Waiting α) :
    Waiting α :=
  match incoming n with
  | some (r, data) => land r data w
  | none => w

theorem arriveEff_store {α : Type} (incoming : Nat → Option (Recv × List α)) (n : Nat)
    (w : Waiting α) : (arriveEff incoming n w).store = w.store := by
  unfold arriveEff
  split <;> rfl

theorem erase_append_mem {n m : Nat} {l k : List Nat} (h : m ∈ l.erase n ++ (n :: k)) :
    m = n ∨ m ∈ l ++ k := by
  rcases List.mem_append.1 h with h | h
  · right; exact List.mem_append_left _ (List.mem_of_mem_erase h)
  · rcases List.mem_cons.1 h with h | h
    · left; exact h
    · right; exact List.mem_append_right _ h

/-- If unpacking slot `n` writes `val n` on the region `reg n` whenever its data is in the
buffer, landing one slot does not disturb the data of another, and regions are disjoint,
then every schedule has the same effect. -/
theorem schedule_effect {α : Type} (c : Cfg) (s : Conn) (j : Job)
    (incoming : Nat → Option (Recv × List α)) (posted : Nat → Prop)
    (ready : Nat → (RBuf → Nat → α) → Prop) (reg : Nat → Cell → Prop) (val : Nat → Cell → α)
    (H1 : ∀ n, posted n → ∀ w : Waiting α, ready n (arriveEff incoming n w).buf)
    (H2 : ∀ n m, posted n → posted m → n ≠ m → ∀ w : Waiting α, ready m w.buf →
      ready m (arriveEff incoming n w).buf)
    (H5 : ∀ n, posted n → ∀ w : Waiting α, ready n w.buf → ∀ d,
      (reg n d → (unpackSlot c s j n w).store d = val n d) ∧
      (¬ reg n d → (unpackSlot c s j n w).store d = w.store d))
    (H6 : ∀ n m d, posted n → posted m → n ≠ m → reg n d → ¬ reg m d)
    (pending arrived : List Nat) (es : List Event) (hsch : Schedule pending arrived es) :
    (pending ++ arrived).Nodup → (∀ n ∈ pending ++ arrived, posted n) →
    ∀ w : Waiting α, (∀ n ∈ arrived, ready n w.buf) → ∀ d,
      (∀ n ∈ pending ++ arrived, reg n d → (runEvents c s j incoming es w).store d = val n d) ∧
      ((∀ n ∈ pending ++ arrived, ¬ reg n d) →
        (runEvents c s j incoming es w).store d = w.store d) := by
  induction hsch with
  | done => intro _ _ w _ d; simp [runEvents]
  | @arrive pending arrived es n hn _ ih =>
    intro hnd hpost w hready d
    have hperm : (pending.erase n ++ (n :: arrived)).Perm (pending ++ arrived) := by
      have h1 : (pending.erase n ++ (n :: arrived)).Perm (n :: (pending.erase n ++ arrived)) :=
        List.perm_middle
      have h2 : (n :: pending.erase n).Perm pending := (List.perm_cons_erase hn).symm
      exact h1.trans ((h2.append_right arrived))
    have hpn : posted n := hpost n (List.mem_append_left _ hn)
    have hnd' := hperm.nodup_iff.2 hnd
    have hnotin : n ∉ arrived := by
      intro h
      exact (List.nodup_append.1 hnd).2.2 n hn n h rfl
    have := ih hnd' (fun m hm => hpost m (hperm.mem_iff.1 hm)) (arriveEff incoming n w)
      (by
        intro m hm
        rcases List.mem_cons.1 hm with rfl | hm
        · exact H1 _ hpn w
        · have hmn : n ≠ m := fun e => hnotin (e ▸ hm)
          exact H2 n m hpn (hpost m (List.mem_append_right _ hm)) hmn w (hready m hm)) d
    have er : runEvents c s j incoming (.arrive n :: es) w
        = runEvents c s j incoming es (arriveEff incoming n w) := rfl
    rw [er]
    refine ⟨fun m hm => this.1 m (hperm.mem_iff.2 hm), fun hno => ?_⟩
    rw [this.2 (fun m hm => hno m (hperm.mem_iff.1 hm)), arriveEff_store]
  | @unpack pending arrived es n hn _ ih =>
    intro hnd hpost w hready d
    have hperm : (n :: (pending ++ arrived.erase n)).Perm (pending ++ arrived) := by
      have h2 : (n :: arrived.erase n).Perm arrived := (List.perm_cons_erase hn).symm
      exact List.perm_middle.symm.trans (h2.append_left pending)
    have hpn : posted n := hpost n (List.mem_append_right _ hn)
    have hnd' := List.nodup_cons.1 (hperm.nodup_iff.2 hnd)
    have sub : ∀ m, m ∈ pending ++ arrived.erase n → m ∈ pending ++ arrived :=
      fun m hm => hperm.mem_iff.1 (List.mem_cons_of_mem _ hm)
    have hih := ih hnd'.2 (fun m hm => hpost m (sub m hm)) (unpackSlot c s j n w)
      (fun m hm => hready m (List.mem_of_mem_erase hm)) d
    have er : runEvents c s j incoming (.unpack n :: es) w
        = runEvents c s j incoming es (unpackSlot c s j n w) := rfl
    rw [er]
    have h5 := H5 n hpn w (hready n hn) d
    constructor
    · intro m hm hreg
      by_cases hmn : m = n
      · subst hmn
        rw [hih.2 ?_]
        · exact h5.1 hreg
        · intro k hk
          have hkm : m ≠ k := fun e => hnd'.1 (e ▸ hk)
          exact H6 m k d hpn (hpost k (sub k hk)) hkm hreg
      · have : m ∈ pending ++ arrived.erase n := by
          rcases List.mem_cons.1 (hperm.mem_iff.2 hm) with h | h
          · exact absurd h hmn
          · exact h
        exact hih.1 m this hreg
    · intro hno
      rw [hih.2 (fun m hm => hno m (sub m hm))]
      exact h5.2 (hno n (List.mem_append_right _ hn))

end Verif.Comm
