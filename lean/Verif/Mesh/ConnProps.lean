/-
C19: the theorems.
-/
import Verif.Mesh.Connect

namespace Verif.Mesh

section
variable {c : Cfg} (h : Layout c) {a b k d e : Int} (hc : Cuts c a b k d e)
include h hc

theorem upSpec_twist {px py jx : Int} (hx0 : 0 ≤ px) (hx1 : px < c.NXPE) (hy0 : 0 ≤ py)
    (hy1 : py < c.NYPE) (j0 : 0 ≤ jx) (j1 : jx < c.LocalNx) :
    (upSpec c a b k d e px py).twist jx =
      upTwist c (c.getGlobalXIndex px jx) (c.getGlobalYIndexNoBoundaries py c.yend) := by
  obtain ⟨_, _, ey, hM⟩ := h.sizes.split
  have a0 := hc.a0; have ae := hc.ae; have eN := hc.eN; have legs := hc.legs
  have hrow : c.getGlobalYIndexNoBoundaries py c.yend = py * c.MYSUB + (c.MYSUB - 1) := by
    unfold Cfg.getGlobalYIndexNoBoundaries Cfg.yend; omega
  rw [hrow]
  have r22 : py * c.MYSUB + (c.MYSUB - 1) = c.jyseps2_2 ↔ py = e - 1 := last_row_eq hM hc.he
  have hcut := mkSide_twist h.sizes hx0 hx1 (o := cutUp c a b d e py) (nb := py + 1)
    (fun t ht => cutUp_range h hc hy0 hy1 t ht) j0 j1
  unfold upSpec upTwist
  generalize c.getGlobalXIndex px jx = gx at *
  by_cases hs : DoubleNull c
  · have ab := hc.ab hs; have bk := hc.bk hs; have kd := hc.kd hs; have de := hc.de hs
    have r21 : py * c.MYSUB + (c.MYSUB - 1) = c.jyseps2_1 ↔ py = b - 1 :=
      last_row_eq hM (hc.hb hs)
    simp only [hs, true_and, r22, r21]
    by_cases hk : py = k - 1
    · have h1 : ¬ py = e - 1 := by omega
      have h3 : ¬ py = b - 1 := by omega
      rw [if_pos hk]
      simp [Side.twist, h1, h3]
    rw [if_neg hk, hcut]
    unfold cutTwist cutUp tsLower tsUpper
    simp only [hs, true_and]
    by_cases h1 : py = e - 1
    · have h3 : ¬ py = b - 1 := by omega
      simp only [h3, and_false]
      simp only [h1, if_true]
      by_cases hx : c.ixseps2 < c.ixseps1
      · have hx' : ¬ c.ixseps1 ≤ c.ixseps2 := by omega
        simp [hx, hx']
      · have hx' : c.ixseps1 ≤ c.ixseps2 := by omega
        simp [hx, hx']
    by_cases h2 : py = a - 1
    · have h3 : ¬ py = b - 1 := by omega
      simp only [h1, h3, and_false, if_false, decide_false, ite_self]
      simp only [h2, if_true, Bool.false_and]
    by_cases h3 : py = b - 1
    · simp only [h1, h2, and_false, if_false]
      simp only [h3, if_true, and_true]
      by_cases hx : c.ixseps2 < c.ixseps1
      · simp [hx]
      · simp [hx]
    by_cases h4 : py = d - 1
    · simp only [h1, h2, h3, and_false, if_false, decide_false, ite_self]
      simp only [h4, if_true, Bool.false_and]
    simp [h1, h2, h3, h4]
  · simp only [hs, false_and, if_false, r22]
    rw [hcut]
    unfold cutTwist cutUp tsLower
    simp only [hs, false_and, if_false]
    by_cases h1 : py = e - 1
    · simp [h1]
    by_cases h2 : py = a - 1
    · simp only [h1, and_false, if_false, decide_false]
      simp only [h2, if_true, Bool.false_and]
    simp [h1, h2]

theorem downSpec_twist {px py jx : Int} (hx0 : 0 ≤ px) (hx1 : px < c.NXPE) (hy0 : 0 ≤ py)
    (hy1 : py < c.NYPE) (j0 : 0 ≤ jx) (j1 : jx < c.LocalNx) :
    (downSpec c a b k d e px py).twist jx =
      downTwist c (c.getGlobalXIndex px jx) (c.getGlobalYIndexNoBoundaries py c.ystart) := by
  obtain ⟨_, _, ey, hM⟩ := h.sizes.split
  have a0 := hc.a0; have ae := hc.ae; have eN := hc.eN; have legs := hc.legs
  have hrow : c.getGlobalYIndexNoBoundaries py c.ystart = py * c.MYSUB := by
    unfold Cfg.getGlobalYIndexNoBoundaries Cfg.ystart; omega
  rw [hrow]
  have r11 : py * c.MYSUB = c.jyseps1_1 + 1 ↔ py = a := first_row_eq hM hc.ha
  have hcut := mkSide_twist h.sizes hx0 hx1 (o := cutDown c a b d e py) (nb := py - 1)
    (fun t ht => cutDown_range h hc hy0 hy1 t ht) j0 j1
  unfold downSpec downTwist
  generalize c.getGlobalXIndex px jx = gx at *
  by_cases hs : DoubleNull c
  · have ab := hc.ab hs; have bk := hc.bk hs; have kd := hc.kd hs; have de := hc.de hs
    have r12 : py * c.MYSUB = c.jyseps1_2 + 1 ↔ py = d := first_row_eq hM (hc.hd hs)
    simp only [hs, true_and, r11, r12]
    by_cases hk : py = k
    · have h1 : ¬ py = a := by omega
      have h3 : ¬ py = d := by omega
      rw [if_pos hk]
      simp [Side.twist, h1, h3]
    rw [if_neg hk, hcut]
    unfold cutTwist cutDown tsLower tsUpper
    simp only [hs, true_and]
    by_cases h1 : py = a
    · have h3 : ¬ py = d := by omega
      simp only [h3, and_false]
      simp only [h1, if_true]
      by_cases hx : c.ixseps2 < c.ixseps1
      · have hx' : ¬ c.ixseps1 ≤ c.ixseps2 := by omega
        simp [hx, hx']
      · have hx' : c.ixseps1 ≤ c.ixseps2 := by omega
        simp [hx, hx']
    by_cases h2 : py = e
    · have h3 : ¬ py = d := by omega
      simp only [h1, h3, and_false, if_false, decide_false, ite_self]
      simp only [h2, if_true, Bool.false_and]
    by_cases h3 : py = d
    · simp only [h1, h2, and_false, if_false]
      simp only [h3, if_true, and_true]
      by_cases hx : c.ixseps2 < c.ixseps1
      · simp [hx]
      · simp [hx]
    by_cases h4 : py = b
    · simp only [h1, h2, h3, and_false, if_false, decide_false, ite_self]
      simp only [h4, if_true, Bool.false_and]
    simp [h1, h2, h3, h4]
  · simp only [hs, false_and, if_false, r11]
    rw [hcut]
    unfold cutTwist cutDown tsLower
    simp only [hs, false_and, if_false]
    by_cases h1 : py = a
    · simp [h1]
    by_cases h2 : py = e
    · simp only [h1, and_false, if_false, decide_false]
      simp only [h2, if_true, Bool.false_and]
    simp [h1, h2]

theorem cut_sym {py q ixs : Int} {ts : Bool} (hy0 : 0 ≤ py) (hy1 : py < c.NYPE)
    (hq0 : 0 ≤ q) (hq1 : q < c.NYPE) :
    cutUp c a b d e py = some ⟨ixs, q, ts⟩ ↔ cutDown c a b d e q = some ⟨ixs, py, ts⟩ := by
  have a0 := hc.a0; have ae := hc.ae; have eN := hc.eN
  unfold cutUp cutDown
  by_cases hs : DoubleNull c
  · have ab := hc.ab hs; have bk := hc.bk hs; have kd := hc.kd hs; have de := hc.de hs
    simp only [hs, true_and]
    split_ifs <;> (try simp only [Option.some.injEq, Cut.mk.injEq, reduceCtorEq]) <;>
      first
      | (constructor <;> (rintro ⟨h1, h2, h3⟩; refine ⟨h1, by omega, h3⟩))
      | (constructor <;> (rintro ⟨h1, h2, h3⟩; exfalso; omega))
      | (constructor <;> (intro hh; first | exact hh.elim | (obtain ⟨h1, h2, h3⟩ := hh; exfalso; omega)))
      | trivial
  · simp only [hs, false_and, if_false]
    split_ifs <;> (try simp only [Option.some.injEq, Cut.mk.injEq, reduceCtorEq]) <;>
      first
      | (constructor <;> (rintro ⟨h1, h2, h3⟩; refine ⟨h1, by omega, h3⟩))
      | (constructor <;> (rintro ⟨h1, h2, h3⟩; exfalso; omega))
      | (constructor <;> (intro hh; first | exact hh.elim | (obtain ⟨h1, h2, h3⟩ := hh; exfalso; omega)))
      | trivial

theorem cut_adj (py : Int) :
    (cutUp c a b d e py).map Cut.ixs = (cutDown c a b d e (py + 1)).map Cut.ixs := by
  have a0 := hc.a0; have ae := hc.ae; have eN := hc.eN
  unfold cutUp cutDown
  by_cases hs : DoubleNull c
  · have ab := hc.ab hs; have bk := hc.bk hs; have kd := hc.kd hs; have de := hc.de hs
    simp only [hs, true_and]
    split_ifs <;> first | rfl | omega
  · simp only [hs, false_and, if_false]
    split_ifs <;> first | rfl | omega

end

theorem splitAt_nonneg (c : Cfg) (px ixs : Int) : 0 ≤ splitAt c px ixs := by
  unfold splitAt; omega

/-- Split position chosen by a side built from a cut. -/
theorem mkSide_split (c : Cfg) (px : Int) (o : Option Cut) (nb : Int) :
    (mkSide c px o nb).split = match o.map Cut.ixs with
      | some ixs => splitAt c px ixs
      | none => 0 := by
  unfold mkSide
  cases o with
  | none => rfl
  | some t =>
    simp only [Option.map_some]
    by_cases h0 : 0 < splitAt c px t.ixs
    · simp only [if_pos h0]
    · simp only [if_neg h0]
      have := splitAt_nonneg c px t.ixs
      omega

theorem mkSide_ind (c : Cfg) (px : Int) (o : Option Cut) (nb r : Int) (hr : r ≠ -1) :
    (mkSide c px o nb).ind = r ↔
      ∃ t, o = some t ∧ 0 < splitAt c px t.ixs ∧ c.PROC_NUM px t.q = r := by
  unfold mkSide
  cases o with
  | none =>
    constructor
    · intro h; exact absurd h.symm hr
    · rintro ⟨t, ht, _⟩; cases ht
  | some t =>
    simp only
    by_cases h0 : 0 < splitAt c px t.ixs
    · simp only [if_pos h0]
      constructor
      · intro h; exact ⟨t, rfl, h0, h⟩
      · rintro ⟨t', ht, _, h⟩; cases ht; exact h
    · simp only [if_neg h0]
      constructor
      · intro h; exact absurd h.symm hr
      · rintro ⟨t', ht, h, _⟩; cases ht; exact absurd h h0

theorem mkSide_tsIn (c : Cfg) (px : Int) (t : Cut) (nb : Int)
    (h0 : 0 < splitAt c px t.ixs) : (mkSide c px (some t) nb).tsIn = t.ts := by
  unfold mkSide; simp only [if_pos h0]

theorem mkSide_tsOut (c : Cfg) (px : Int) (o : Option Cut) (nb : Int) :
    (mkSide c px o nb).tsOut = false := by
  unfold mkSide
  cases o with
  | none => rfl
  | some t => simp only; split <;> rfl

theorem mkSide_outd (c : Cfg) (px : Int) (o : Option Cut) (nb : Int) (hL : 0 < c.LocalNx) :
    (mkSide c px o nb).outd =
      if (mkSide c px o nb).split = c.LocalNx then -1 else c.PROC_NUM px nb := by
  unfold mkSide
  cases o with
  | none => simp only; rw [if_neg (by omega)]
  | some t =>
    simp only
    by_cases h0 : 0 < splitAt c px t.ixs
    · simp only [if_pos h0]
    · simp only [if_neg h0]; rw [if_neg (by omega)]

/-- Both ends of the Y connections agree, message by message. -/
theorem sides_sym {c : Cfg} (h : Layout c) {a b k d e : Int} (hc : Cuts c a b k d e)
    {px py qy : Int} (hx0 : 0 ≤ px) (hx1 : px < c.NXPE) (hy0 : 0 ≤ py) (hy1 : py < c.NYPE)
    (hq0 : 0 ≤ qy) (hq1 : qy < c.NYPE) :
    let u := upSpec c a b k d e px py
    let w := downSpec c a b k d e px qy
    (u.ind = c.PROC_NUM px qy ↔ w.ind = c.PROC_NUM px py) ∧
    (u.ind = c.PROC_NUM px qy → u.split = w.split ∧ u.tsIn = w.tsIn) ∧
    (u.outd = c.PROC_NUM px qy ↔ w.outd = c.PROC_NUM px py) ∧
    (u.outd = c.PROC_NUM px qy → u.split = w.split ∧ u.tsOut = w.tsOut) := by
  intro u w
  have hsz := h.sizes
  have hL := localNx_pos hsz
  have nq := proc_num_ne hsz hx0 hx1 hq0 hq1
  have np := proc_num_ne hsz hx0 hx1 hy0 hy1
  have inj : ∀ p q, c.PROC_NUM px p ≠ -1 → (c.PROC_NUM px p = c.PROC_NUM px q ↔ p = q) := by
    intro p q hp
    constructor
    · intro hh; exact (C16_proc_num_injective c hsz.nxpe hsz.nype px p px q hp hh).2
    · rintro rfl; rfl
  have ucase : (DoubleNull c ∧ py = k - 1 ∧ u = ⟨c.LocalNx, -1, -1, false, false⟩) ∨
      (¬ (DoubleNull c ∧ py = k - 1) ∧ u = mkSide c px (cutUp c a b d e py) (py + 1)) := by
    by_cases hh : DoubleNull c ∧ py = k - 1
    · left; exact ⟨hh.1, hh.2, by show upSpec _ _ _ _ _ _ _ _ = _; unfold upSpec; rw [if_pos hh]⟩
    · right; exact ⟨hh, by show upSpec _ _ _ _ _ _ _ _ = _; unfold upSpec; rw [if_neg hh]⟩
  have wcase : (DoubleNull c ∧ qy = k ∧ w = ⟨c.LocalNx, -1, -1, false, false⟩) ∨
      (¬ (DoubleNull c ∧ qy = k) ∧ w = mkSide c px (cutDown c a b d e qy) (qy - 1)) := by
    by_cases hh : DoubleNull c ∧ qy = k
    · left; exact ⟨hh.1, hh.2, by show downSpec _ _ _ _ _ _ _ _ = _; unfold downSpec; rw [if_pos hh]⟩
    · right; exact ⟨hh, by show downSpec _ _ _ _ _ _ _ _ = _; unfold downSpec; rw [if_neg hh]⟩
  -- no cut touches the upper targets
  have noUp : DoubleNull c → cutUp c a b d e (k - 1) = none := by
    intro hs
    have ab := hc.ab hs; have bk := hc.bk hs; have kd := hc.kd hs; have de := hc.de hs
    unfold cutUp
    rw [if_neg (by omega), if_neg (by omega), if_neg (by omega), if_neg (by omega)]
  have noDown : DoubleNull c → cutDown c a b d e k = none := by
    intro hs
    have ab := hc.ab hs; have bk := hc.bk hs; have kd := hc.kd hs; have de := hc.de hs
    unfold cutDown
    rw [if_neg (by omega), if_neg (by omega), if_neg (by omega), if_neg (by omega)]
  -- the inner connection
  have uin : u.ind = c.PROC_NUM px qy ↔
      ∃ t, cutUp c a b d e py = some t ∧ 0 < splitAt c px t.ixs ∧ c.PROC_NUM px t.q = c.PROC_NUM px qy := by
    rcases ucase with ⟨hs, hk, hu⟩ | ⟨_, hu⟩
    · rw [hu]
      constructor
      · intro hh; exact absurd hh.symm nq
      · rintro ⟨t, ht, _⟩; rw [hk, noUp hs] at ht; cases ht
    · rw [hu]; exact mkSide_ind c px _ _ _ nq
  have win : w.ind = c.PROC_NUM px py ↔
      ∃ t, cutDown c a b d e qy = some t ∧ 0 < splitAt c px t.ixs ∧ c.PROC_NUM px t.q = c.PROC_NUM px py := by
    rcases wcase with ⟨hs, hk, hu⟩ | ⟨_, hu⟩
    · rw [hu]
      constructor
      · intro hh; exact absurd hh.symm np
      · rintro ⟨t, ht, _⟩; rw [hk, noDown hs] at ht; cases ht
    · rw [hu]; exact mkSide_ind c px _ _ _ np
  have inSym : u.ind = c.PROC_NUM px qy ↔ w.ind = c.PROC_NUM px py := by
    rw [uin, win]
    constructor
    · rintro ⟨t, ht, h0, hp⟩
      have htq : qy = t.q := (inj qy t.q nq).1 hp.symm
      refine ⟨⟨t.ixs, py, t.ts⟩, ?_, h0, rfl⟩
      apply (cut_sym h hc hy0 hy1 hq0 hq1).1
      rw [ht, htq]
    · rintro ⟨t, ht, h0, hp⟩
      have htq : py = t.q := (inj py t.q np).1 hp.symm
      refine ⟨⟨t.ixs, qy, t.ts⟩, ?_, h0, rfl⟩
      apply (cut_sym h hc hy0 hy1 hq0 hq1).2
      rw [ht, htq]
  have inEq : u.ind = c.PROC_NUM px qy → u.split = w.split ∧ u.tsIn = w.tsIn := by
    intro hu
    obtain ⟨t, ht, h0, hp⟩ := uin.1 hu
    have htq : qy = t.q := (inj qy t.q nq).1 hp.symm
    have hd : cutDown c a b d e qy = some ⟨t.ixs, py, t.ts⟩ := by
      apply (cut_sym h hc hy0 hy1 hq0 hq1).1
      rw [ht, htq]
    rcases ucase with ⟨hs, hk, _⟩ | ⟨_, hu'⟩
    · rw [hk, noUp hs] at ht; cases ht
    rcases wcase with ⟨hs, hk, _⟩ | ⟨_, hw'⟩
    · rw [hk, noDown hs] at hd; cases hd
    rw [hu', hw', ht, hd, mkSide_split, mkSide_split]
    refine ⟨rfl, ?_⟩
    rw [mkSide_tsIn c px t (py + 1) h0]
    exact (mkSide_tsIn c px ⟨t.ixs, py, t.ts⟩ (qy - 1) h0).symm
  -- the outer connection goes straight on
  have outSplit : qy = py + 1 → u.split = w.split ∧
      (u.outd = -1 ↔ w.outd = -1) ∧ u.tsOut = w.tsOut := by
    intro hq
    rcases ucase with ⟨hs, hk, hu⟩ | ⟨nu, hu⟩
    · rcases wcase with ⟨_, _, hw⟩ | ⟨nw, _⟩
      · rw [hu, hw]; exact ⟨rfl, Iff.rfl, rfl⟩
      · exact absurd ⟨hs, by omega⟩ nw
    · rcases wcase with ⟨hs, hk, _⟩ | ⟨_, hw⟩
      · exact absurd ⟨hs, by omega⟩ nu
      · have hsp : u.split = w.split := by
          rw [hu, hw, mkSide_split, mkSide_split, cut_adj h hc py, hq]
        refine ⟨hsp, ?_, ?_⟩
        · have n1 : c.PROC_NUM px (py + 1) ≠ -1 := by rw [← hq]; exact nq
          have n2 : c.PROC_NUM px (qy - 1) ≠ -1 := by
            rw [show qy - 1 = py by omega]; exact np
          have e1 : u.outd = if u.split = c.LocalNx then -1 else c.PROC_NUM px (py + 1) := by
            rw [hu]; exact mkSide_outd c px _ _ hL
          have e2 : w.outd = if w.split = c.LocalNx then -1 else c.PROC_NUM px (qy - 1) := by
            rw [hw]; exact mkSide_outd c px _ _ hL
          rw [e1, e2, hsp]
          by_cases hl : w.split = c.LocalNx
          · rw [if_pos hl, if_pos hl]
          · rw [if_neg hl, if_neg hl]
            exact ⟨fun x => absurd x n1, fun x => absurd x n2⟩
        · rw [hu, hw, mkSide_tsOut, mkSide_tsOut]
  have uout : ∀ r, r ≠ -1 → u.outd = r → r = c.PROC_NUM px (py + 1) := by
    intro r hr hh
    rcases ucase with ⟨_, _, hu⟩ | ⟨_, hu⟩
    · rw [hu] at hh; exact absurd hh.symm hr
    · rw [hu, mkSide_outd c px _ _ hL] at hh
      split at hh
      · exact absurd hh.symm hr
      · exact hh.symm
  have wout : ∀ r, r ≠ -1 → w.outd = r → r = c.PROC_NUM px (qy - 1) := by
    intro r hr hh
    rcases wcase with ⟨_, _, hu⟩ | ⟨_, hu⟩
    · rw [hu] at hh; exact absurd hh.symm hr
    · rw [hu, mkSide_outd c px _ _ hL] at hh
      split at hh
      · exact absurd hh.symm hr
      · exact hh.symm
  have uall : u.outd = -1 ∨ u.outd = c.PROC_NUM px (py + 1) := by
    by_cases hh : u.outd = -1
    · left; exact hh
    · right; exact uout _ hh rfl
  have wall : w.outd = -1 ∨ w.outd = c.PROC_NUM px (qy - 1) := by
    by_cases hh : w.outd = -1
    · left; exact hh
    · right; exact wout _ hh rfl
  refine ⟨inSym, inEq, ?_, ?_⟩
  · constructor
    · intro hh
      have hq : qy = py + 1 := (inj qy (py + 1) nq).1 (uout _ nq hh)
      have := outSplit hq
      rcases wall with hw | hw
      · exact absurd ((hh ▸ this.2.1.2 hw : c.PROC_NUM px qy = -1)) nq
      · rw [hw]; congr 1; omega
    · intro hh
      have hq : py = qy - 1 := (inj py (qy - 1) np).1 (wout _ np hh)
      have := outSplit (by omega)
      rcases uall with hw | hw
      · exact absurd ((hh ▸ this.2.1.1 hw : c.PROC_NUM px py = -1)) np
      · rw [hw]; congr 1; omega
  · intro hh
    have hq : qy = py + 1 := (inj qy (py + 1) nq).1 (uout _ nq hh)
    have := outSplit hq
    exact ⟨this.1, this.2.2⟩

/-! ## The properties -/

/-- **C19, partial.** On every rank of an accepted layout the connections are set up
without error and agree with the topology: for each local column `jx` (guard columns
included) the rank above is the owner of the row that follows this rank's last row along
the field line, or nobody where the field line ends on a target; likewise below; and a
column is marked for twist-shifting exactly at the branch cut that closes the innermost
flux surfaces.  Missing: layouts with one row per rank and private flux regions, and
degenerate layouts with an empty region (see the `violated` theorems). -/
theorem C19_connections_follow_topology_partial (c : Cfg) (h : Layout c) (px py : Int)
    (hx0 : 0 ≤ px) (hx1 : px < c.NXPE) (hy0 : 0 ≤ py) (hy1 : py < c.NYPE) :
    ∃ s, topology c px py = .ok s ∧ ∀ jx, 0 ≤ jx → jx < c.LocalNx →
      s.up.dest jx = ownerOf c px (upNeighbour c (c.getGlobalXIndex px jx)
        (c.getGlobalYIndexNoBoundaries py c.yend)) ∧
      s.down.dest jx = ownerOf c px (downNeighbour c (c.getGlobalXIndex px jx)
        (c.getGlobalYIndexNoBoundaries py c.ystart)) ∧
      hasBranchCutUpper s jx = upTwist c (c.getGlobalXIndex px jx)
        (c.getGlobalYIndexNoBoundaries py c.yend) ∧
      hasBranchCutLower s jx = downTwist c (c.getGlobalXIndex px jx)
        (c.getGlobalYIndexNoBoundaries py c.ystart) := by
  obtain ⟨a, b, k, d, e, hc⟩ := h.cuts
  refine ⟨_, topology_eq h hc hx0 hx1, ?_⟩
  intro jx j0 j1
  rw [hasBranchCutUpper_eq, hasBranchCutLower_eq, topoEff_up h.sizes hc hx1 hy0,
    topoEff_down h.sizes hc hx1 hy1]
  exact ⟨upSpec_dest h hc hy0 hy1 j0 j1, downSpec_dest h hc hy0 hy1 j0 j1,
    upSpec_twist h hc hx0 hx1 hy0 hy1 j0 j1, downSpec_twist h hc hx0 hx1 hy0 hy1 j0 j1⟩

/-- **C19, partial.** The two ends of every Y connection agree.  If rank `p` sends its
inner (outer) columns up to rank `q`, then `q` sends its inner (outer) columns down to `p`
and vice versa; both use the same split column – hence the same message length – and the
same twist-shift flag.  (Same restriction as
`C19_connections_follow_topology_partial`.) -/
theorem C19_connections_symmetric_partial (c : Cfg) (h : Layout c) (px py qy : Int)
    (hx0 : 0 ≤ px) (hx1 : px < c.NXPE) (hy0 : 0 ≤ py) (hy1 : py < c.NYPE)
    (hq0 : 0 ≤ qy) (hq1 : qy < c.NYPE) (s t : Conn)
    (hs : topology c px py = .ok s) (ht : topology c px qy = .ok t) :
    (s.UDATA_INDEST = c.PROC_NUM px qy ↔ t.DDATA_INDEST = c.PROC_NUM px py) ∧
    (s.UDATA_INDEST = c.PROC_NUM px qy →
      s.UDATA_XSPLIT = t.DDATA_XSPLIT ∧ s.TS_up_in = t.TS_down_in) ∧
    (s.UDATA_OUTDEST = c.PROC_NUM px qy ↔ t.DDATA_OUTDEST = c.PROC_NUM px py) ∧
    (s.UDATA_OUTDEST = c.PROC_NUM px qy →
      s.UDATA_XSPLIT = t.DDATA_XSPLIT ∧ s.TS_up_out = t.TS_down_out) := by
  obtain ⟨a, b, k, d, e, hc⟩ := h.cuts
  have e1 := topology_eq h hc (py := py) hx0 hx1
  have e2 := topology_eq h hc (py := qy) hx0 hx1
  rw [hs] at e1
  rw [ht] at e2
  have u := topoEff_up h.sizes hc (px := px) (py := py) hx1 hy0
  have w := topoEff_down h.sizes hc (px := px) (py := qy) hx1 hq1
  rw [← Except.ok.inj e1] at u
  rw [← Except.ok.inj e2] at w
  have := sides_sym h hc hx0 hx1 hy0 hy1 hq0 hq1
  simp only at this
  rw [← u, ← w] at this
  exact this

/-- Destinations of the Y connections are always real ranks or `-1`, and a connection with
an inner destination has at least one inner column, one with an outer destination has at
least one outer column, and if there is no inner destination but an outer one then there
are no inner columns at all. -/
theorem C19_destinations_valid_partial (c : Cfg) (h : Layout c) (px py : Int)
    (hx0 : 0 ≤ px) (hx1 : px < c.NXPE) (hy0 : 0 ≤ py) (hy1 : py < c.NYPE) (s : Conn)
    (hs : topology c px py = .ok s) :
    ∀ w, (w = s.up ∨ w = s.down) →
      (0 ≤ w.split ∧ w.split ≤ c.LocalNx) ∧
      (w.ind = -1 ∨ ((∃ q, 0 ≤ q ∧ q < c.NYPE ∧ w.ind = c.PROC_NUM px q) ∧ 0 < w.split)) ∧
      (w.outd = -1 ∨ ((∃ q, 0 ≤ q ∧ q < c.NYPE ∧ w.outd = c.PROC_NUM px q) ∧
        w.split < c.LocalNx)) ∧
      (w.ind = -1 → w.outd ≠ -1 → w.split = 0) := by
  obtain ⟨a, b, k, d, e, hc⟩ := h.cuts
  have e1 := topology_eq h hc (py := py) hx0 hx1
  rw [hs] at e1
  have u := topoEff_up h.sizes hc (px := px) (py := py) hx1 hy0
  have w' := topoEff_down h.sizes hc (px := px) (py := py) hx1 hy1
  rw [← Except.ok.inj e1] at u w'
  have hL := localNx_pos h.sizes
  have key : ∀ (o : Option Cut) (nb : Int), (∀ t, o = some t → 0 ≤ t.q ∧ t.q < c.NYPE) →
      let w := mkSide c px o nb
      (0 ≤ w.split ∧ w.split ≤ c.LocalNx) ∧
      (w.ind = -1 ∨ ((∃ q, 0 ≤ q ∧ q < c.NYPE ∧ w.ind = c.PROC_NUM px q) ∧ 0 < w.split)) ∧
      (w.outd = -1 ∨ ((∃ q, 0 ≤ q ∧ q < c.NYPE ∧ w.outd = c.PROC_NUM px q) ∧
        w.split < c.LocalNx)) ∧
      (w.ind = -1 → w.outd ≠ -1 → w.split = 0) := by
    intro o nb ho w
    have hsp : 0 ≤ w.split ∧ w.split ≤ c.LocalNx := by
      show 0 ≤ (mkSide c px o nb).split ∧ (mkSide c px o nb).split ≤ c.LocalNx
      rw [mkSide_split]
      cases o with
      | none => simp only [Option.map_none]; omega
      | some t =>
        simp only [Option.map_some]
        exact ⟨splitAt_nonneg c px t.ixs, split_le c hL px t.ixs⟩
    have hout : w.outd = -1 ∨ ((∃ q, 0 ≤ q ∧ q < c.NYPE ∧ w.outd = c.PROC_NUM px q) ∧
        w.split < c.LocalNx) := by
      have := mkSide_outd c px o nb hL
      by_cases hl : (mkSide c px o nb).split = c.LocalNx
      · rw [if_pos hl] at this; left; exact this
      · rw [if_neg hl] at this
        by_cases hnb : 0 ≤ nb ∧ nb < c.NYPE
        · right; exact ⟨⟨nb, hnb.1, hnb.2, this⟩, by have : w.split ≠ c.LocalNx := hl; omega⟩
        · left; rw [show w.outd = _ from this]
          exact proc_num_out h.sizes (by omega)
    refine ⟨hsp, ?_, hout, ?_⟩
    · by_cases hi : w.ind = -1
      · left; exact hi
      · obtain ⟨t, ht, h0, hp⟩ := (mkSide_ind c px o nb w.ind hi).1 rfl
        right
        refine ⟨⟨t.q, (ho t ht).1, (ho t ht).2, hp.symm⟩, ?_⟩
        show 0 < (mkSide c px o nb).split
        rw [mkSide_split, ht]; exact h0
    · intro hi _
      show (mkSide c px o nb).split = 0
      rw [mkSide_split]
      cases ho' : o with
      | none => rfl
      | some t =>
        simp only [Option.map_some]
        have hq := ho t ho'
        have hne := proc_num_ne h.sizes hx0 hx1 hq.1 hq.2
        by_contra hcon
        have h0 : 0 < splitAt c px t.ixs := by
          have := splitAt_nonneg c px t.ixs
          omega
        have := (mkSide_ind c px o nb _ hne).2 ⟨t, ho', h0, rfl⟩
        exact hne (this.symm.trans hi)
  intro w hw
  rcases hw with rfl | rfl
  · rw [u]
    unfold upSpec
    by_cases hh : DoubleNull c ∧ py = k - 1
    · rw [if_pos hh]; simp; omega
    · rw [if_neg hh]; exact key _ _ (fun t ht => cutUp_range h hc hy0 hy1 t ht)
  · rw [w']
    unfold downSpec
    by_cases hh : DoubleNull c ∧ py = k
    · rw [if_pos hh]; simp; omega
    · rw [if_neg hh]; exact key _ _ (fun t ht => cutDown_range h hc hy0 hy1 t ht)

/-- **C19.** Connections in X are symmetric: rank `p`'s outer neighbour is the rank at
`qx` exactly if that rank's inner neighbour is `p`; it is the next rank, wrapping around
if X is periodic, and nobody at the ends otherwise. -/
theorem C19_x_connections_symmetric_partial (c : Cfg) (h : Layout c) (px qx py : Int)
    (hx0 : 0 ≤ px) (hx1 : px < c.NXPE) (hq0 : 0 ≤ qx) (hq1 : qx < c.NXPE)
    (hy0 : 0 ≤ py) (hy1 : py < c.NYPE) (s t : Conn)
    (hs : topology c px py = .ok s) (ht : topology c qx py = .ok t) :
    (s.ODATA_DEST = c.PROC_NUM qx py ↔ t.IDATA_DEST = c.PROC_NUM px py) ∧
    (s.ODATA_DEST = c.PROC_NUM qx py ↔
      qx = px + 1 ∨ (c.periodicX = true ∧ px = c.NXPE - 1 ∧ qx = 0)) ∧
    (s.ODATA_DEST = -1 ↔ c.periodicX = false ∧ px = c.NXPE - 1) ∧
    (s.IDATA_DEST = -1 ↔ c.periodicX = false ∧ px = 0) := by
  obtain ⟨a, b, k, d, e, hc⟩ := h.cuts
  have e1 := topology_eq h hc (py := py) hx0 hx1
  have e2 := topology_eq h hc (py := py) hq0 hq1
  rw [hs] at e1
  rw [ht] at e2
  have i1 := topoEff_io c a b k d e px py
  have i2 := topoEff_io c a b k d e qx py
  rw [← Except.ok.inj e1] at i1
  rw [← Except.ok.inj e2] at i2
  rw [i1.1, i1.2, i2.1]
  have hN := h.sizes.nxpe
  have val : ∀ x, 0 ≤ x → x < c.NXPE → c.PROC_NUM x py = py * c.NXPE + x := by
    intro x a b
    unfold Cfg.PROC_NUM; rw [if_neg (by omega), if_neg (by omega)]
  have out : ∀ x, (x < 0 ∨ c.NXPE ≤ x) → c.PROC_NUM x py = -1 := by
    intro x a
    unfold Cfg.PROC_NUM; rw [if_pos (by omega)]
  have hpn := Int.mul_nonneg hy0 (show 0 ≤ c.NXPE by omega)
  unfold default_connections
  simp only
  rw [val px hx0 hx1, val qx hq0 hq1]
  cases hp : c.periodicX with
  | false =>
    simp only [Bool.false_eq_true, false_and, if_false]
    by_cases hl : px = c.NXPE - 1
    · rw [out (px + 1) (by omega)]
      by_cases hf : qx = 0
      · rw [out (qx - 1) (by omega)]
        by_cases hf' : px = 0
        · rw [out (px - 1) (by omega)]; simp; omega
        · rw [val (px - 1) (by omega) (by omega)]; simp; omega
      · rw [val (qx - 1) (by omega) (by omega)]
        by_cases hf' : px = 0
        · rw [out (px - 1) (by omega)]; simp; omega
        · rw [val (px - 1) (by omega) (by omega)]; simp; omega
    · rw [val (px + 1) (by omega) (by omega)]
      by_cases hf : qx = 0
      · rw [out (qx - 1) (by omega)]
        by_cases hf' : px = 0
        · rw [out (px - 1) (by omega)]; simp; omega
        · rw [val (px - 1) (by omega) (by omega)]; simp; omega
      · rw [val (qx - 1) (by omega) (by omega)]
        by_cases hf' : px = 0
        · rw [out (px - 1) (by omega)]; simp; omega
        · rw [val (px - 1) (by omega) (by omega)]; simp; omega
  | true =>
    simp only [true_and, val 0 (by omega) hN, val (c.NXPE - 1) (by omega) (by omega)]
    by_cases hl : px = c.NXPE - 1
    · by_cases hf : qx = 0
      · by_cases hf' : px = 0
        · simp [hl, hf]; omega
        · rw [val (px - 1) (by omega) (by omega)]; simp [hf, hf']; omega
      · rw [val (qx - 1) (by omega) (by omega)]
        by_cases hf' : px = 0
        · simp [hf]; omega
        · rw [val (px - 1) (by omega) (by omega)]; simp [hf, hf', hl]; omega
    · rw [val (px + 1) (by omega) (by omega)]
      by_cases hf : qx = 0
      · by_cases hf' : px = 0
        · simp [hl, hf, hf']; omega
        · rw [val (px - 1) (by omega) (by omega)]; simp [hf, hf', hl]; omega
      · rw [val (qx - 1) (by omega) (by omega)]
        by_cases hf' : px = 0
        · simp [hf, hf', hl]; omega
        · rw [val (px - 1) (by omega) (by omega)]; simp [hf, hf', hl]; omega

end Verif.Mesh
