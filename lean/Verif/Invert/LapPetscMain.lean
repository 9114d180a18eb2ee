import Verif.Invert.LapPetscRow
import Verif.Invert.LapPetscSpec
import Mathlib.Algebra.CharZero.Defs
import Mathlib.Tactic.FieldSimp

/-! # The assembled rows of `LaplacePetsc` and the equations they stand for -/

namespace Verif.LapPetsc

section
variable {K : Type} [Field K]

/-- `Coeffs` in global indices (no boundary conditions on the index). -/
def coeffsG (nz : Nat) (o : Opts) (f : Flds K) (x z : Int) : Cf K :=
  let c : Cf K := ⟨f.g11 x z, f.g33 x z, 2 * f.g13 x z, 0, 0⟩
  let c : Cf K := if o.allTerms then { c with c4 := f.G1 x z, c5 := f.G3 x z } else c
  let c : Cf K :=
    if o.nonuniform then
        { c with
          c4 := c.c4 - 1 / 2 * ((f.dx (x + 1) z - f.dx (x - 1) z) / (f.dx x z * f.dx x z)) * c.c1 }
    else c
  let c : Cf K :=
    if o.incShear then
      { c with c2 := c.c2 + f.g11 x z * f.ist x z * f.ist x z, c3 := 0 }
    else c
  let c : Cf K :=
    if o.issetD then
      ⟨c.c1 * f.D x z, c.c2 * f.D x z, c.c3 * f.D x z, c.c4 * f.D x z, c.c5 * f.D x z⟩
    else c
  let c : Cf K :=
    if o.issetC then
        { c with
          c4 := c.c4 + (f.g11 x z * ddxC o.fourth f x z + f.g13 x z * ddzC nz o.fourth f x z)
          c5 := c.c5 + (f.g13 x z * ddxC o.fourth f x z + f.g33 x z * ddzC nz o.fourth f x z) }
    else c
  if o.issetE then { c with c4 := c.c4 + f.Ex x z, c5 := c.c5 + f.Ez x z } else c

theorem ddxC_shift (fo : Bool) (G : Flds K) (k x z : Int) :
    ddxC fo (G.shift k) x z = ddxC fo G (x + k) z := by
  unfold ddxC Flds.shift
  have e1 : x + 2 + k = x + k + 2 := by ring
  have e2 : x + 1 + k = x + k + 1 := by ring
  have e3 : x - 2 + k = x + k - 2 := by ring
  have e4 : x - 1 + k = x + k - 1 := by ring
  simp only [e1, e2, e3, e4]

/-- The coefficients computed on a processor are those of the global fields. -/
theorem coeffs_loc (g : Grid) (o : Opts) (G : Flds K) (k x z : Int) (h1 : 1 ≤ g.xs)
    (h2 : o.issetC = true → 2 ≤ g.xs)
    (hx : (g.xs : Int) ≤ x ∧ x < (g.xs : Int) + g.mx) :
    coeffs g o (G.shift k) x z = coeffsG g.nz o G (x + k) z := by
  unfold coeffs coeffsG
  rw [ddxC_shift]
  have c1 : x ≠ 0 ∧ x ≠ g.LocalNx - 1 := by unfold Grid.LocalNx; omega
  have e1 : x + 1 + k = x + k + 1 := by ring
  have e2 : x - 1 + k = x + k - 1 := by ring
  simp only [c1, ne_eq, not_false_eq_true, and_self, if_true]
  by_cases hc : o.issetC = true
  · have hxs := h2 hc
    have c2 : x > 1 ∧ x < g.LocalNx - 2 := by unfold Grid.LocalNx; omega
    simp only [c2, and_self, if_true, hc]
    simp only [Flds.shift, e1, e2, ddzC]
  · simp only [Bool.eq_false_iff.mpr hc, Bool.false_eq_true, if_false]
    simp only [Flds.shift, e1, e2]

/-- Entries of a row in global indices. -/
def entG (g : Grid) (gx z : Int) (calls : List (Int × Int × K)) : List (Int × K) :=
  calls.map fun e => (colG g gx z (e.1, e.2.1), e.2.2)

theorem entG_fst (g : Grid) (gx z : Int) (calls : List (Int × Int × K)) :
    (entG g gx z calls).map Prod.fst
      = (calls.map fun e => (e.1, e.2.1)).map (colG g gx z) := by
  simp [entG, List.map_map, Function.comp_def]

/-- The calls of an outer boundary row which take effect. -/
def outerFin (o : Opts) (f : Flds K) (x z : Int) : List (Int × Int × K) :=
  if has o.outerFlags acGrad || !o.fourth then (outerCalls o f x z).tail else outerCalls o f x z

/-- The row of a point of the whole plane. -/
def rowG (g : Grid) (o : Opts) (G : Flds K) (gx z : Int) : List (Int × K) :=
  if gx < (g.xs : Int) then entG g gx z (innerCalls o G gx z)
  else if gx < (g.xs : Int) + (g.P : Int) * (g.mx : Int) then
    entG g gx z (mainEntries o G (coeffsG g.nz o G gx z) gx z)
  else entG g gx z (outerFin o G gx z)

/-- The columns of a row depend only on the place. -/
def colsG (g : Grid) (fo : Bool) (gx z : Int) : List Int :=
  (if gx < (g.xs : Int) then innerSt fo
   else if gx < (g.xs : Int) + (g.P : Int) * (g.mx : Int) then mainSt fo
   else outerSt fo).map (colG g gx z)

theorem innerCalls_st (o : Opts) (f : Flds K) (x z : Int) :
    (innerCalls o f x z).map (fun e => (e.1, e.2.1)) = innerSt o.fourth := by
  unfold innerCalls innerSt
  by_cases h : has o.innerFlags acGrad = true <;> by_cases h' : o.fourth = true <;> simp [h, h']

theorem mainEntries_st (o : Opts) (f : Flds K) (c : Cf K) (x z : Int) :
    (mainEntries o f c x z).map (fun e => (e.1, e.2.1)) = mainSt o.fourth := by
  unfold mainEntries mainSt
  by_cases h' : o.fourth = true <;> simp [h']

theorem outerFin_st (o : Opts) (f : Flds K) (x z : Int) :
    (outerFin o f x z).map (fun e => (e.1, e.2.1)) = outerSt o.fourth := by
  unfold outerFin outerCalls outerSt
  by_cases h : has o.outerFlags acGrad = true <;> by_cases h' : o.fourth = true <;> simp [h, h']

theorem rowG_fst (g : Grid) (o : Opts) (G : Flds K) (gx z : Int) :
    (rowG g o G gx z).map Prod.fst = colsG g o.fourth gx z := by
  unfold rowG colsG
  by_cases h : gx < (g.xs : Int)
  · rw [if_pos h, if_pos h, entG_fst, innerCalls_st]
  · rw [if_neg h, if_neg h]
    by_cases h' : gx < (g.xs : Int) + (g.P : Int) * (g.mx : Int)
    · rw [if_pos h', if_pos h', entG_fst, mainEntries_st]
    · rw [if_neg h', if_neg h', entG_fst, outerFin_st]

/-- Writing a row with good columns into an empty or previously assembled row. -/
theorem write_good (g : Grid) (fo : Bool) (p : Nat) (i : Int) (old es : List (Int × K))
    (hg : Good g fo p i (es.map Prod.fst))
    (hold : old.map Prod.fst <+: es.map Prod.fst) :
    es.foldl (insertRow g fo p i) old = es := by
  have := insert_all g fo p i [] old es hold (by simpa using hg.nd)
    (fun e he => hg.range e.1 (List.mem_map_of_mem he))
    (by have := hg.diag; rw [List.countP_map] at this; simpa [Function.comp_def] using this)
    (by have := hg.off; rw [List.countP_map] at this; simpa [Function.comp_def] using this)
  simpa using this

/-- One value written to the first column of the row, which is empty or assembled. -/
theorem write_first (g : Grid) (fo : Bool) (p : Nat) (i : Int) (old es : List (Int × K)) (v : K)
    (e : Int × K) (es' : List (Int × K)) (hes : es = e :: es')
    (hg : Good g fo p i (es.map Prod.fst))
    (hold : old = [] ∨ old.map Prod.fst = es.map Prod.fst) :
    (insertRow g fo p i old (e.1, v)).map Prod.fst <+: es.map Prod.fst := by
  subst hes
  rcases hold with h | h
  · subst h
    have h1 := insert_all g fo p i [] [] [(e.1, v)] (by simp) (by simp) (by
        intro q hq
        have : q = (e.1, v) := by simpa using hq
        subst this
        exact hg.range e.1 (by simp))
      (by
        have := hg.diag
        simp only [List.map_cons, List.countP_cons] at this
        simp only [List.nil_append, List.countP_cons, List.countP_nil]
        omega)
      (by
        have := hg.off
        simp only [List.map_cons, List.countP_cons] at this
        simp only [List.nil_append, List.countP_cons, List.countP_nil]
        omega)
    simp only [List.nil_append, List.foldl_cons, List.foldl_nil] at h1
    rw [h1]
    simp
  · cases old with
    | nil => simp at h
    | cons q qs =>
      have hr := hg.range e.1 (by simp)
      have hq : q.1 = e.1 := by
        have := congrArg List.head? h
        simpa using this
      unfold insertRow
      dsimp only
      rw [if_neg (by omega), if_neg (by omega), if_pos (by
        rw [List.any_eq_true]; exact ⟨q, by simp, by simp [hq]⟩)]
      have : ((q :: qs).map fun q => if q.1 = e.1 then (e.1, v) else q).map Prod.fst
          = (q :: qs).map Prod.fst := by
        rw [List.map_map]
        apply List.map_congr_left
        intro r _
        simp only [Function.comp_apply]
        by_cases hr' : r.1 = e.1
        · rw [if_pos hr', hr']
        · rw [if_neg hr']
      rw [this, h]; exact List.prefix_refl _

/-- A row which is empty or holds the columns of its place. -/
def RowOk (g : Grid) (fo : Bool) (gx z : Int) (row : List (Int × K)) : Prop :=
  row = [] ∨ row.map Prod.fst = colsG g fo gx z

theorem mkRow_entries (g : Grid) (p : Nat) (hp : p < g.P) (hz : 0 < g.nz) (f : Flds K)
    (calls : Int → Int → List (Int × Int × K)) (rhs : Int → Int → K) (i : Int) (c : Int × Int) :
    (mkRow g p f calls rhs i c).entries
      = entG g (c.1 + (p : Int) * (g.mx : Int)) c.2 (calls c.1 c.2) := by
  unfold mkRow entG colG
  apply List.map_congr_left
  intro e _
  rw [column_eq g p hp hz]

/-- What the hypotheses on sizes say. -/
def Sized (g : Grid) (o : Opts) : Prop := Fits g o.fourth ∧ (o.issetC = true → 2 ≤ g.xs)

/-- Every row written by a processor ends up as the row of its point of the plane. -/
theorem row_written (g : Grid) (o : Opts) (G : Flds K) (hs : Sized g o) (p : Nat) (hp : p < g.P)
    (x z : Int) (hc : (x, z) ∈ allCells g p) (old : List (Int × K))
    (hold : RowOk g o.fourth (x + (p : Int) * (g.mx : Int)) z old) :
    ∃ r ∈ rowsOf g o (locF g G p) p, r.i = rowIdx g p (x, z)
      ∧ r.entries.foldl (insertRow g o.fourth p r.i) old
          = rowG g o G (x + (p : Int) * (g.mx : Int)) z
      ∧ r.rhs = (if x + (p : Int) * (g.mx : Int) < (g.xs : Int) then
            bndryValue G o.innerFlags (x + (p : Int) * (g.mx : Int)) z
          else if x + (p : Int) * (g.mx : Int) < (g.xs : Int) + (g.P : Int) * (g.mx : Int) then
            G.b (x + (p : Int) * (g.mx : Int)) z
          else bndryValue G o.outerFlags (x + (p : Int) * (g.mx : Int)) z)
      ∧ r.guess = G.x0 (x + (p : Int) * (g.mx : Int)) z := by
  obtain ⟨hf, hC⟩ := hs
  have hnz : 0 < g.nz := by
    have := hf.2.2
    by_cases h : o.fourth = true
    · simp only [h, if_true] at this; omega
    · simp only [Bool.eq_false_iff.mpr h, Bool.false_eq_true, if_false] at this; omega
  have hxs1 : 1 ≤ g.xs := by
    have := hf.2.2
    by_cases h : o.fourth = true
    · simp only [h, if_true] at this; omega
    · simp only [Bool.eq_false_iff.mpr h, Bool.false_eq_true, if_false] at this; omega
  have hpm := pmx_le g p hp
  have hpm0 : 0 ≤ (p : Int) * (g.mx : Int) := by positivity
  unfold allCells at hc
  rw [List.mem_append, List.mem_append] at hc
  rcases hc with (hc | hc) | hc
  · have hm := (mem_inner g p (x, z)).1 hc
    obtain ⟨hp0, hx1, hx2, hz1, hz2⟩ := hm
    dsimp only at hx1 hx2 hz1 hz2
    have hlt : x + (p : Int) * (g.mx : Int) < (g.xs : Int) := by subst hp0; simpa using hx2
    refine ⟨mkRow g p (locF g G p) (innerCalls o (locF g G p)) (bndryRhs o.innerFlags (locF g G p))
      (rowIdx g p (x, z)) (x, z), ?_, rfl, ?_, ?_, rfl⟩
    · unfold rowsOf
      rw [List.mem_append, List.mem_append]
      exact Or.inl (Or.inl (List.mem_map_of_mem hc))
    · rw [mkRow_entries g p hp hnz]
      dsimp only
      have e : innerCalls o (locF g G p) x z = innerCalls o G (x + (p : Int) * (g.mx : Int)) z := rfl
      have hrow : rowG g o G (x + (p : Int) * (g.mx : Int)) z
          = entG g (x + (p : Int) * (g.mx : Int)) z (innerCalls o (locF g G p) x z) := by
        unfold rowG; rw [if_pos hlt, e]
      rw [hrow]
      have hfst := rowG_fst g o G (x + (p : Int) * (g.mx : Int)) z
      rw [hrow] at hfst
      apply write_good
      · rw [hfst]
        unfold colsG
        rw [if_pos hlt]
        subst hp0
        exact good_inner g o.fourth hf x z ⟨hx1, hx2⟩ ⟨hz1, hz2⟩
      · rw [hfst]
        rcases hold with h | h
        · subst h; simp
        · rw [h]; exact List.prefix_refl _
    · rw [if_pos hlt]
      rfl
  · have hm := (mem_main g (x, z)).1 hc
    obtain ⟨hx1, hx2, hz1, hz2⟩ := hm
    dsimp only at hx1 hx2 hz1 hz2
    have hnl : ¬ x + (p : Int) * (g.mx : Int) < (g.xs : Int) := by omega
    have hlt : x + (p : Int) * (g.mx : Int) < (g.xs : Int) + (g.P : Int) * (g.mx : Int) := by omega
    refine ⟨mkRow g p (locF g G p) (mainCalls g o (locF g G p)) (locF g G p).b
      (rowIdx g p (x, z)) (x, z), ?_, rfl, ?_, ?_, rfl⟩
    · unfold rowsOf
      rw [List.mem_append, List.mem_append]
      exact Or.inl (Or.inr (List.mem_map.2 ⟨(x, z), hc, rfl⟩))
    · rw [mkRow_entries g p hp hnz]
      dsimp only
      have e : mainCalls g o (locF g G p) x z
          = mainEntries o G (coeffsG g.nz o G (x + (p : Int) * (g.mx : Int)) z)
              (x + (p : Int) * (g.mx : Int)) z := by
        unfold mainCalls locF
        rw [coeffs_loc g o G _ x z hxs1 hC ⟨hx1, hx2⟩]
        rfl
      have hrow : rowG g o G (x + (p : Int) * (g.mx : Int)) z
          = entG g (x + (p : Int) * (g.mx : Int)) z (mainCalls g o (locF g G p) x z) := by
        unfold rowG; rw [if_neg hnl, if_pos hlt, e]
      rw [hrow]
      have hfst := rowG_fst g o G (x + (p : Int) * (g.mx : Int)) z
      rw [hrow] at hfst
      apply write_good
      · rw [hfst]
        unfold colsG
        rw [if_neg hnl, if_pos hlt]
        exact good_main g o.fourth hf p hp x z ⟨hx1, hx2⟩ ⟨hz1, hz2⟩
      · rw [hfst]
        rcases hold with h | h
        · subst h; simp
        · rw [h]; exact List.prefix_refl _
    · rw [if_neg hnl, if_pos hlt]
      rfl
  · have hm := (mem_outer g p (x, z)).1 hc
    obtain ⟨hpP, hx1, hx2, hz1, hz2⟩ := hm
    dsimp only at hx1 hx2 hz1 hz2
    have hpe : (g.P : Int) * (g.mx : Int) = (p : Int) * (g.mx : Int) + g.mx := by
      rw [← hpP]; push_cast; ring
    have hnl : ¬ x + (p : Int) * (g.mx : Int) < (g.xs : Int) := by omega
    have hnl2 : ¬ x + (p : Int) * (g.mx : Int) < (g.xs : Int) + (g.P : Int) * (g.mx : Int) := by
      omega
    refine ⟨mkRow g p (locF g G p) (outerCalls o (locF g G p)) (bndryRhs o.outerFlags (locF g G p))
      (rowIdx g p (x, z)) (x, z), ?_, rfl, ?_, ?_, rfl⟩
    · unfold rowsOf
      rw [List.mem_append]
      exact Or.inr (List.mem_map_of_mem hc)
    · rw [mkRow_entries g p hp hnz]
      dsimp only
      have e : outerCalls o (locF g G p) x z = outerCalls o G (x + (p : Int) * (g.mx : Int)) z := rfl
      have hrow : rowG g o G (x + (p : Int) * (g.mx : Int)) z
          = entG g (x + (p : Int) * (g.mx : Int)) z (outerFin o G (x + (p : Int) * (g.mx : Int)) z) := by
        unfold rowG; rw [if_neg hnl, if_neg hnl2]
      have hfst := rowG_fst g o G (x + (p : Int) * (g.mx : Int)) z
      have hgood : Good g o.fourth p (rowIdx g p (x, z))
          ((rowG g o G (x + (p : Int) * (g.mx : Int)) z).map Prod.fst) := by
        rw [hfst]
        unfold colsG
        rw [if_neg hnl, if_neg hnl2]
        exact good_outer g o.fourth hf p hpP x z ⟨hx1, hx2⟩ ⟨hz1, hz2⟩
      have hold' : old = [] ∨ old.map Prod.fst
          = (rowG g o G (x + (p : Int) * (g.mx : Int)) z).map Prod.fst := by
        rw [hfst]; exact hold
      rw [e]
      show ((entG g (x + (p : Int) * (g.mx : Int)) z (outerCalls o G (x + (p : Int) * (g.mx : Int)) z)).foldl
        (insertRow g o.fourth p (rowIdx g p (x, z))) old) = _
      generalize x + (p : Int) * (g.mx : Int) = gx at *
      by_cases hcase : (has o.outerFlags acGrad || !o.fourth) = true
      · have hfin : outerFin o G gx z = (outerCalls o G gx z).tail := by
          unfold outerFin; rw [if_pos hcase]
        have hcons : entG g gx z (outerCalls o G gx z)
            = (colG g gx z (0, 0), 1) :: entG g gx z (outerFin o G gx z) := by
          rw [hfin]; unfold entG outerCalls; simp
        rw [hcons, List.foldl_cons, ← hrow]
        apply write_good _ _ _ _ _ _ hgood
        have hst := outerFin_st o G gx z
        obtain ⟨e0, es', hes⟩ : ∃ e0 es', rowG g o G gx z = e0 :: es' ∧ e0.1 = colG g gx z (0, 0) := by
          rw [hrow]
          cases hl : outerFin o G gx z with
          | nil =>
            rw [hl] at hst
            unfold outerSt at hst
            by_cases h' : o.fourth = true <;> simp [h'] at hst
          | cons a l =>
            refine ⟨_, _, by unfold entG; rw [List.map_cons], ?_⟩
            rw [hl] at hst
            unfold outerSt at hst
            have ha : (a.1, a.2.1) = (0, 0) := by
              by_cases h' : o.fourth = true
              · simp only [h', if_true, List.map_cons, List.cons.injEq] at hst; exact hst.1
              · simp only [Bool.eq_false_iff.mpr h', Bool.false_eq_true, if_false, List.map_cons,
                  List.cons.injEq] at hst
                exact hst.1
            rw [ha]
        rw [← hes.2]
        exact write_first g o.fourth p _ old _ 1 e0 es' hes.1 hgood hold'
      · have hfin : outerFin o G gx z = outerCalls o G gx z := by
          unfold outerFin; rw [if_neg hcase]
        rw [← hfin, ← hrow]
        apply write_good _ _ _ _ _ _ hgood
        rcases hold' with h | h
        · subst h; simp
        · rw [h]; exact List.prefix_refl _
    · rw [if_neg hnl, if_neg hnl2]
      rfl

end

end Verif.LapPetsc
