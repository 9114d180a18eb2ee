/-
The twist-shift loops of `wait` in closed form.
-/
import Verif.Comm.GuardProps
import Mathlib.Data.List.Nodup

namespace Verif.Comm
open Verif.Mesh

variable {α : Type} (shiftZ : Bool → Int → (Nat → α) → Nat → α)

/-- Apply the shift to every row selected by `sel`. -/
def rowsIf (up : Bool) (sel : Var → Int → Int → Prop) [∀ v x y, Decidable (sel v x y)]
    (store : Cell → α) : Cell → α :=
  fun d => if sel d.v d.x d.y then shiftZ up d.x (fun z => store { d with z := z }) d.z
    else store d

theorem shiftRow_fold (up : Bool) (v : Var) (L : List (Int × Int)) (hL : L.Nodup)
    (store : Cell → α) :
    L.foldl (fun st p => shiftRow shiftZ up v st p.1 p.2) store
      = rowsIf shiftZ up (fun w x y => w = v ∧ (x, y) ∈ L) store := by
  induction L generalizing store with
  | nil => funext d; simp [rowsIf]
  | cons p L ih =>
    obtain ⟨a, b⟩ := p
    obtain ⟨h1, h2⟩ := List.nodup_cons.1 hL
    rw [List.foldl_cons, ih h2]
    funext d
    unfold rowsIf
    by_cases hv : d.v = v
    · by_cases hm : (d.x, d.y) ∈ L
      · have hne : ¬ (d.x = a ∧ d.y = b) := by
          rintro ⟨rfl, rfl⟩; exact h1 hm
        rw [if_pos ⟨hv, hm⟩, if_pos ⟨hv, List.mem_cons_of_mem _ hm⟩]
        congr 1
        funext z
        unfold shiftRow
        rw [if_neg (fun h => hne h.2)]
      · rw [if_neg (fun h => hm h.2)]
        unfold shiftRow
        by_cases he : d.x = a ∧ d.y = b
        · have : (d.x, d.y) ∈ (a, b) :: L := by rw [he.1, he.2]; exact List.mem_cons_self
          rw [if_pos ⟨hv, he.1, he.2⟩, if_pos ⟨hv, this⟩, he.1]
        · have : ¬ (d.x, d.y) ∈ (a, b) :: L := by
            intro h
            rcases List.mem_cons.1 h with h | h
            · exact he ⟨congrArg Prod.fst h, congrArg Prod.snd h⟩
            · exact hm h
          rw [if_neg (fun h => he h.2), if_neg (fun h => this h.2)]
    · rw [if_neg (fun h => hv h.1), if_neg (fun h => hv h.1)]
      unfold shiftRow
      rw [if_neg (fun h => hv h.1)]

theorem nodup_span (a b : Int) : (span a b).Nodup := by
  unfold span
  exact List.Nodup.map (fun x y h => by simpa using h) List.nodup_range

theorem shiftRect_eq (up : Bool) (v : Var) (xge xlt yge ylt : Int) (store : Cell → α) :
    shiftRect shiftZ up v xge xlt yge ylt store
      = rowsIf shiftZ up (fun w x y => w = v ∧ (xge ≤ x ∧ x < xlt) ∧ (yge ≤ y ∧ y < ylt)) store := by
  have e : shiftRect shiftZ up v xge xlt yge ylt store
      = ((span xge xlt).flatMap fun x => (span yge ylt).map fun y => (x, y)).foldl
          (fun st p => shiftRow shiftZ up v st p.1 p.2) store := by
    unfold shiftRect
    rw [foldl_flatMap']
    congr 1
    funext st jx
    rw [List.foldl_map]
  rw [e, shiftRow_fold]
  · funext d
    unfold rowsIf
    have : ((d.x, d.y) ∈ (span xge xlt).flatMap fun x => (span yge ylt).map fun y => (x, y)) ↔
        ((xge ≤ d.x ∧ d.x < xlt) ∧ (yge ≤ d.y ∧ d.y < ylt)) := by
      simp only [List.mem_flatMap, List.mem_map, mem_span, Prod.mk.injEq]
      constructor
      · rintro ⟨x, hx, y, hy, rfl, rfl⟩; exact ⟨hx, hy⟩
      · rintro ⟨hx, hy⟩; exact ⟨_, hx, _, hy, rfl, rfl⟩
    by_cases h : d.v = v ∧ ((xge ≤ d.x ∧ d.x < xlt) ∧ (yge ≤ d.y ∧ d.y < ylt))
    · rw [if_pos h, if_pos ⟨h.1, this.2 h.2⟩]
    · rw [if_neg h, if_neg (fun hh => h ⟨hh.1, this.1 hh.2⟩)]
  · rw [List.nodup_flatMap]
    refine ⟨fun x _ => (nodup_span yge ylt).map (fun a b h => by simpa using h), ?_⟩
    refine (nodup_span xge xlt).imp ?_
    intro a b hab
    simp only [Function.onFun]
    intro p h1 h2
    simp only [List.mem_map] at h1 h2
    obtain ⟨y, _, rfl⟩ := h1
    obtain ⟨y', _, h⟩ := h2
    exact hab (by simpa using (congrArg Prod.fst h).symm)

/-- On rows not selected nothing changes. -/
theorem rowsIf_neg (up : Bool) (sel : Var → Int → Int → Prop) [∀ v x y, Decidable (sel v x y)]
    (store : Cell → α) {d : Cell} (h : ¬ sel d.v d.x d.y) :
    rowsIf shiftZ up sel store d = store d := by
  unfold rowsIf; rw [if_neg h]

theorem rowsIf_pos (up : Bool) (sel : Var → Int → Int → Prop) [∀ v x y, Decidable (sel v x y)]
    (store : Cell → α) {d : Cell} (h : sel d.v d.x d.y) :
    rowsIf shiftZ up sel store d = shiftZ up d.x (fun z => store { d with z := z }) d.z := by
  unfold rowsIf; rw [if_pos h]

/-- The twist-shift of one variable: the lower guard rows of the columns with a lower
branch cut, the upper ones with an upper branch cut, each once. -/
theorem twistVar_eq (c : Cfg) (hs : Sizes c) (s : Conn) (hD : SideOk c px s.down)
    (hU : SideOk c px s.up) (store : Cell → α) (v : Var) (d : Cell) :
    twistVar c s shiftZ store v d =
      if d.v = v ∧ 0 ≤ d.x ∧ d.x < c.LocalNx ∧ 0 ≤ d.y ∧ d.y < c.MYG ∧
          hasBranchCutLower s d.x = true then
        shiftZ false d.x (fun z => store { d with z := z }) d.z
      else if d.v = v ∧ 0 ≤ d.x ∧ d.x < c.LocalNx ∧ c.LocalNy - c.MYG ≤ d.y ∧ d.y < c.LocalNy ∧
          hasBranchCutUpper s d.x = true then
        shiftZ true d.x (fun z => store { d with z := z }) d.z
      else store d := by
  obtain ⟨_, _, _, hM⟩ := hs.split
  have hg := hs.myg
  have hLy : c.LocalNy = c.MYSUB + 2 * c.MYG := rfl
  have d0 : 0 ≤ s.DDATA_XSPLIT := hD.split0
  have d1 : s.DDATA_XSPLIT ≤ c.LocalNx := hD.split1
  have u0 : 0 ≤ s.UDATA_XSPLIT := hU.split0
  have u1 : s.UDATA_XSPLIT ≤ c.LocalNx := hU.split1
  have ap : ∀ (P : Prop) [Decidable P] (up : Bool) (a b e f : Int) (st : Cell → α),
      (if P then shiftRect shiftZ up v a b e f st else st)
        = rowsIf shiftZ up (fun w x y => P ∧ w = v ∧ (a ≤ x ∧ x < b) ∧ (e ≤ y ∧ y < f)) st := by
    intro P _ up a b e f st
    by_cases hP : P
    · rw [if_pos hP, shiftRect_eq]
      funext d; unfold rowsIf; simp [hP]
    · rw [if_neg hP]
      funext d; unfold rowsIf; rw [if_neg (fun h => hP h.1)]
  have bl : hasBranchCutLower s d.x = true ↔
      (((s.TS_down_in = true ∧ s.DDATA_INDEST ≠ -1) ∧ d.x < s.DDATA_XSPLIT) ∨
       ((s.TS_down_out = true ∧ s.DDATA_OUTDEST ≠ -1) ∧ d.x ≥ s.DDATA_XSPLIT)) := by
    unfold hasBranchCutLower; simp
  have bu : hasBranchCutUpper s d.x = true ↔
      (((s.TS_up_in = true ∧ s.UDATA_INDEST ≠ -1) ∧ d.x < s.UDATA_XSPLIT) ∨
       ((s.TS_up_out = true ∧ s.UDATA_OUTDEST ≠ -1) ∧ d.x ≥ s.UDATA_XSPLIT)) := by
    unfold hasBranchCutUpper; simp
  unfold twistVar
  simp only [ap]
  by_cases h1 : d.v = v ∧ 0 ≤ d.x ∧ d.x < c.LocalNx ∧ 0 ≤ d.y ∧ d.y < c.MYG ∧
      hasBranchCutLower s d.x = true
  · rw [if_pos h1]
    obtain ⟨hv, x0, x1, y0, y1, hb⟩ := h1
    rw [rowsIf_neg shiftZ true _ _ (by omega), rowsIf_neg shiftZ true _ _ (by omega)]
    rcases bl.1 hb with ⟨hf, hx⟩ | ⟨hf, hx⟩
    · rw [rowsIf_neg shiftZ false _ _ (by omega),
        rowsIf_pos shiftZ false _ _ ⟨hf, hv, ⟨x0, hx⟩, ⟨y0, y1⟩⟩]
    · rw [rowsIf_pos shiftZ false _ _ ⟨hf, hv, ⟨hx, x1⟩, ⟨y0, y1⟩⟩]
      congr 1; funext z
      exact rowsIf_neg shiftZ false _ _ (d := { d with z := z }) (by simp only; omega)
  · rw [if_neg h1]
    by_cases h2 : d.v = v ∧ 0 ≤ d.x ∧ d.x < c.LocalNx ∧ c.LocalNy - c.MYG ≤ d.y ∧
        d.y < c.LocalNy ∧ hasBranchCutUpper s d.x = true
    · rw [if_pos h2]
      obtain ⟨hv, x0, x1, y0, y1, hb⟩ := h2
      have low : ∀ z, rowsIf shiftZ false (fun w x y =>
            (s.TS_down_out = true ∧ s.DDATA_OUTDEST ≠ -1) ∧ w = v ∧
              (s.DDATA_XSPLIT ≤ x ∧ x < c.LocalNx) ∧ (0 ≤ y ∧ y < c.MYG))
          (rowsIf shiftZ false (fun w x y =>
            (s.TS_down_in = true ∧ s.DDATA_INDEST ≠ -1) ∧ w = v ∧
              (0 ≤ x ∧ x < s.DDATA_XSPLIT) ∧ (0 ≤ y ∧ y < c.MYG)) store) { d with z := z }
          = store { d with z := z } := by
        intro z
        rw [rowsIf_neg shiftZ false _ _ (by simp only; omega),
          rowsIf_neg shiftZ false _ _ (by simp only; omega)]
      rcases bu.1 hb with ⟨hf, hx⟩ | ⟨hf, hx⟩
      · rw [rowsIf_neg shiftZ true _ _ (by omega),
          rowsIf_pos shiftZ true _ _ ⟨hf, hv, ⟨x0, hx⟩, ⟨y0, y1⟩⟩]
        congr 1; funext z; exact low z
      · rw [rowsIf_pos shiftZ true _ _ ⟨hf, hv, ⟨hx, x1⟩, ⟨y0, y1⟩⟩]
        congr 1; funext z
        rw [rowsIf_neg shiftZ true _ _ (by simp only; omega)]
        exact low z
    · rw [if_neg h2]
      rw [bl] at h1
      rw [bu] at h2
      rw [rowsIf_neg shiftZ true _ _ (fun h => h2 ⟨h.2.1, by omega, by omega, by omega, by omega,
          Or.inr ⟨h.1, h.2.2.1.1⟩⟩),
        rowsIf_neg shiftZ true _ _ (fun h => h2 ⟨h.2.1, by omega, by omega, by omega, by omega,
          Or.inl ⟨h.1, h.2.2.1.2⟩⟩),
        rowsIf_neg shiftZ false _ _ (fun h => h1 ⟨h.2.1, by omega, by omega, by omega, by omega,
          Or.inr ⟨h.1, h.2.2.1.1⟩⟩),
        rowsIf_neg shiftZ false _ _ (fun h => h1 ⟨h.2.1, by omega, by omega, by omega, by omega,
          Or.inl ⟨h.1, h.2.2.1.2⟩⟩)]

/-- The twist-shift of a group without repeated fields. -/
theorem twistShift_eq (c : Cfg) (hs : Sizes c) (s : Conn) (hD : SideOk c px s.down)
    (hU : SideOk c px s.up) (j : Job) (hnd : j.vars.Nodup) (aligned : Var → Bool)
    (store : Cell → α) (d : Cell) :
    twistShift c s j aligned shiftZ store d =
      if j.doY = true ∧ d.v ∈ j.vars ∧ d.v.is3D = true ∧ aligned d.v = true ∧
          0 ≤ d.x ∧ d.x < c.LocalNx then
        if 0 ≤ d.y ∧ d.y < c.MYG ∧ hasBranchCutLower s d.x = true then
          shiftZ false d.x (fun z => store { d with z := z }) d.z
        else if c.LocalNy - c.MYG ≤ d.y ∧ d.y < c.LocalNy ∧ hasBranchCutUpper s d.x = true then
          shiftZ true d.x (fun z => store { d with z := z }) d.z
        else store d
      else store d := by
  have key : ∀ (L : List Var), L.Nodup → ∀ (st : Cell → α) (d : Cell),
      L.foldl (twistVar c s shiftZ) st d =
        if d.v ∈ L then twistVar c s shiftZ st d.v d else st d := by
    intro L
    induction L with
    | nil => intro _ st d; simp
    | cons v L ih =>
      intro hL st d
      obtain ⟨h1, h2⟩ := List.nodup_cons.1 hL
      rw [List.foldl_cons, ih h2]
      by_cases hv : d.v = v
      · subst hv
        rw [if_neg h1, if_pos List.mem_cons_self]
      · have keep : ∀ d' : Cell, d'.v = d.v → twistVar c s shiftZ st v d' = st d' := by
          intro d' e
          rw [twistVar_eq shiftZ c hs s hD hU, if_neg (fun h => hv (e ▸ h.1)),
            if_neg (fun h => hv (e ▸ h.1))]
        by_cases hm : d.v ∈ L
        · rw [if_pos hm, if_pos (List.mem_cons_of_mem _ hm)]
          rw [twistVar_eq shiftZ c hs s hD hU (twistVar c s shiftZ st v) d.v d,
            twistVar_eq shiftZ c hs s hD hU st d.v d, keep d rfl]
          have kz : ∀ z, twistVar c s shiftZ st v { d with z := z } = st { d with z := z } :=
            fun z => keep _ rfl
          simp only [kz]
        · rw [if_neg hm, if_neg (by simp [hv, hm]), keep d rfl]
  unfold twistShift
  cases hy : j.doY with
  | false => simp
  | true =>
    rw [if_pos rfl, key _ ((hnd.filter _).filter _)]
    simp only [List.mem_filter, true_and]
    by_cases hm : (d.v ∈ j.vars ∧ d.v.is3D = true) ∧ aligned d.v = true
    · rw [if_pos hm, twistVar_eq shiftZ c hs s hD hU]
      by_cases hx : 0 ≤ d.x ∧ d.x < c.LocalNx
      · rw [if_pos (show d.v ∈ j.vars ∧ _ from ⟨hm.1.1, hm.1.2, hm.2, hx⟩)]
        simp only [hx.1, hx.2, true_and]
      · rw [if_neg (by omega), if_neg (by omega), if_neg (fun h => hx h.2.2.2)]
    · rw [if_neg hm, if_neg (fun h => hm ⟨⟨h.1, h.2.1⟩, h.2.2.1⟩)]

end Verif.Comm
