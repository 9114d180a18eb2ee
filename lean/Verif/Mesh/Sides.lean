/-
C19: what each rank's connections look like, in processor coordinates.
-/
import Verif.Mesh.Topo

namespace Verif.Mesh

/-- One side (upper or lower) of a rank's Y connections. -/
structure Side where
  split : Int
  ind : Int
  outd : Int
  tsIn : Bool
  tsOut : Bool
deriving Repr, DecidableEq

/-- The upper Y connection of a rank. -/
def Conn.up (s : Conn) : Side :=
  ⟨s.UDATA_XSPLIT, s.UDATA_INDEST, s.UDATA_OUTDEST, s.TS_up_in, s.TS_up_out⟩
/-- The lower Y connection of a rank. -/
def Conn.down (s : Conn) : Side :=
  ⟨s.DDATA_XSPLIT, s.DDATA_INDEST, s.DDATA_OUTDEST, s.TS_down_in, s.TS_down_out⟩

/-- A branch cut at a processor boundary: inside `ixs` the neighbour is processor row `q`. -/
structure Cut where
  ixs : Int
  q : Int
  ts : Bool
deriving DecidableEq

def cutUp (c : Cfg) (a b d e py : Int) : Option Cut :=
  if py = e - 1 then some ⟨c.ixseps1, a, tsLower c⟩
  else if py = a - 1 then some ⟨c.ixseps1, e, false⟩
  else if DoubleNull c ∧ py = b - 1 then some ⟨c.ixseps2, d, tsUpper c⟩
  else if DoubleNull c ∧ py = d - 1 then some ⟨c.ixseps2, b, false⟩
  else none

def cutDown (c : Cfg) (a b d e py : Int) : Option Cut :=
  if py = a then some ⟨c.ixseps1, e - 1, tsLower c⟩
  else if py = e then some ⟨c.ixseps1, a - 1, false⟩
  else if DoubleNull c ∧ py = d then some ⟨c.ixseps2, b - 1, tsUpper c⟩
  else if DoubleNull c ∧ py = b then some ⟨c.ixseps2, d - 1, false⟩
  else none

/-- The connection made of a cut `o` and the straight neighbour `nb`. -/
def mkSide (c : Cfg) (px : Int) (o : Option Cut) (nb : Int) : Side :=
  match o with
  | some t =>
    if 0 < splitAt c px t.ixs then
      ⟨splitAt c px t.ixs, c.PROC_NUM px t.q,
        if splitAt c px t.ixs = c.LocalNx then -1 else c.PROC_NUM px nb, t.ts, false⟩
    else ⟨0, -1, c.PROC_NUM px nb, false, false⟩
  | none => ⟨0, -1, c.PROC_NUM px nb, false, false⟩

def upSpec (c : Cfg) (a b k d e px py : Int) : Side :=
  if DoubleNull c ∧ py = k - 1 then ⟨c.LocalNx, -1, -1, false, false⟩
  else mkSide c px (cutUp c a b d e py) (py + 1)

def downSpec (c : Cfg) (a b k d e px py : Int) : Side :=
  if DoubleNull c ∧ py = k then ⟨c.LocalNx, -1, -1, false, false⟩
  else mkSide c px (cutDown c a b d e py) (py - 1)

/-! ### Projections of the effects -/

def Side.set (c : Cfg) (px : Int) (xl q : Int) (ts : Bool) (s : Side) : Side :=
  ⟨xl, c.PROC_NUM px q, if xl = c.LocalNx then -1 else s.outd, ts, s.tsOut⟩

theorem connEff_up (c : Cfg) (px py up down ixs : Int) (ts : Bool) (s : Conn) :
    (connEff c px py up down ixs ts s).up =
      if 0 < splitAt c px ixs ∧ py = up then s.up.set c px (splitAt c px ixs) down ts
      else s.up := by
  unfold connEff
  by_cases h1 : 0 < splitAt c px ixs ∧ py = up
  · by_cases h2 : 0 < splitAt c px ixs ∧ py = down
    · simp only [if_pos h1, if_pos h2]; rfl
    · simp only [if_pos h1, if_neg h2]; rfl
  · by_cases h2 : 0 < splitAt c px ixs ∧ py = down
    · simp only [if_neg h1, if_pos h2]; rfl
    · simp only [if_neg h1, if_neg h2]

theorem connEff_down (c : Cfg) (px py up down ixs : Int) (ts : Bool) (s : Conn) :
    (connEff c px py up down ixs ts s).down =
      if 0 < splitAt c px ixs ∧ py = down then s.down.set c px (splitAt c px ixs) up ts
      else s.down := by
  unfold connEff
  by_cases h1 : 0 < splitAt c px ixs ∧ py = up
  · by_cases h2 : 0 < splitAt c px ixs ∧ py = down
    · simp only [if_pos h1, if_pos h2]; rfl
    · simp only [if_pos h1, if_neg h2]; rfl
  · by_cases h2 : 0 < splitAt c px ixs ∧ py = down
    · simp only [if_neg h1, if_pos h2]; rfl
    · simp only [if_neg h1, if_neg h2]

theorem connEff_io (c : Cfg) (px py up down ixs : Int) (ts : Bool) (s : Conn) :
    (connEff c px py up down ixs ts s).IDATA_DEST = s.IDATA_DEST ∧
    (connEff c px py up down ixs ts s).ODATA_DEST = s.ODATA_DEST := by
  unfold connEff
  by_cases h1 : 0 < splitAt c px ixs ∧ py = up
  · by_cases h2 : 0 < splitAt c px ixs ∧ py = down
    · simp only [if_pos h1, if_pos h2]; exact ⟨rfl, rfl⟩
    · simp only [if_pos h1, if_neg h2]; exact ⟨rfl, rfl⟩
  · by_cases h2 : 0 < splitAt c px ixs ∧ py = down
    · simp only [if_neg h1, if_pos h2]; exact ⟨rfl, rfl⟩
    · simp only [if_neg h1, if_neg h2, and_self]

theorem targEff_up (c : Cfg) (px py k : Int) (s : Conn) :
    (targEff c px py k s).up =
      if py = k - 1 then ⟨c.nx - px * c.MXSUB, -1, -1, s.TS_up_in, s.TS_up_out⟩ else s.up := by
  unfold targEff
  by_cases h1 : py = k - 1
  · rw [if_pos h1]
    have h2 : ¬ py = k := by omega
    simp only [if_pos h1, if_neg h2]; rfl
  · rw [if_neg h1]
    by_cases h2 : py = k
    · simp only [if_neg h1, if_pos h2]; rfl
    · simp only [if_neg h1, if_neg h2]

theorem targEff_down (c : Cfg) (px py k : Int) (s : Conn) :
    (targEff c px py k s).down =
      if py = k then ⟨c.nx - px * c.MXSUB, -1, -1, s.TS_down_in, s.TS_down_out⟩
      else s.down := by
  unfold targEff
  by_cases h1 : py = k - 1
  · have h2 : ¬ py = k := by omega
    rw [if_neg h2]
    simp only [if_pos h1, if_neg h2]; rfl
  · by_cases h2 : py = k
    · rw [if_pos h2]; simp only [if_neg h1, if_pos h2]; rfl
    · rw [if_neg h2]; simp only [if_neg h1, if_neg h2]

theorem targEff_io (c : Cfg) (px py k : Int) (s : Conn) :
    (targEff c px py k s).IDATA_DEST = s.IDATA_DEST ∧
    (targEff c px py k s).ODATA_DEST = s.ODATA_DEST := by
  unfold targEff
  by_cases h1 : py = k - 1 <;> by_cases h2 : py = k <;> simp [h1, h2]
  all_goals split <;> simp

def Side.clip (c : Cfg) (s : Side) : Side :=
  ⟨if s.split > c.LocalNx then c.LocalNx else s.split, s.ind, s.outd, s.tsIn, s.tsOut⟩

theorem clip_up (c : Cfg) (s : Conn) : (clipSplits c s).up = s.up.clip c := rfl
theorem clip_down (c : Cfg) (s : Conn) : (clipSplits c s).down = s.down.clip c := rfl

theorem split_le (c : Cfg) (h : 0 < c.LocalNx) (px ixs : Int) :
    splitAt c px ixs ≤ c.LocalNx := by unfold splitAt; omega

theorem ts_of_up (s : Conn) : s.TS_up_in = s.up.tsIn ∧ s.TS_up_out = s.up.tsOut := ⟨rfl, rfl⟩
theorem ts_of_down (s : Conn) : s.TS_down_in = s.down.tsIn ∧ s.TS_down_out = s.down.tsOut :=
  ⟨rfl, rfl⟩

/-- A cut at this processor (or none) followed by clipping. -/
theorem mkSide_of_set (c : Cfg) (h : 0 < c.LocalNx) (px ixs q nb : Int) (ts : Bool) :
    Side.clip c (if 0 < splitAt c px ixs then
        Side.set c px (splitAt c px ixs) q ts ⟨0, -1, c.PROC_NUM px nb, false, false⟩
      else ⟨0, -1, c.PROC_NUM px nb, false, false⟩)
    = mkSide c px (some ⟨ixs, q, ts⟩) nb := by
  have := split_le c h px ixs
  unfold mkSide Side.clip
  by_cases h0 : 0 < splitAt c px ixs
  · rw [if_pos h0]
    simp only [if_pos h0, Side.set]
    rw [if_neg (by omega)]
  · rw [if_neg h0]
    simp only [if_neg h0]
    rw [if_neg (by omega)]

theorem mkSide_none_clip (c : Cfg) (h : 0 < c.LocalNx) (px nb : Int) :
    Side.clip c ⟨0, -1, c.PROC_NUM px nb, false, false⟩ = mkSide c px none nb := by
  unfold mkSide Side.clip
  simp only
  rw [if_neg (by omega)]

theorem topoEff_up {c : Cfg} (hsz : Sizes c) {a b k d e : Int} (hc : Cuts c a b k d e)
    {px py : Int} (hx1 : px < c.NXPE) (hy0 : 0 ≤ py) :
    (topoEff c a b k d e px py).up = upSpec c a b k d e px py := by
  have hL := localNx_pos hsz
  have hb := nx_bound hsz hx1
  have a0 := hc.a0
  have ae := hc.ae
  have dflt : (default_connections c px py).up = ⟨0, -1, c.PROC_NUM px (py + 1), false, false⟩ :=
    rfl
  unfold topoEff upSpec
  simp only [clip_up]
  by_cases hs : DoubleNull c
  · have ab := hc.ab hs
    have bk := hc.bk hs
    have kd := hc.kd hs
    have de := hc.de hs
    simp only [hs, true_and, if_true, targEff_up, (ts_of_up _).1, (ts_of_up _).2, connEff_up]
    unfold cutUp
    simp only [hs, true_and]
    by_cases ha : 0 < a
    · simp only [if_pos ha, connEff_up, dflt]
      by_cases hk : py = k - 1
      · have h1 : ¬ py = e - 1 := by omega
        have h2 : ¬ py = a - 1 := by omega
        have h3 : ¬ py = b - 1 := by omega
        have h4 : ¬ py = d - 1 := by omega
        simp only [if_pos hk, h1, h2, h3, h4, and_false, if_false]
        unfold Side.clip
        simp only
        by_cases hgt : c.nx - px * c.MXSUB > c.LocalNx
        · rw [if_pos hgt]
        · rw [if_neg hgt]; congr 1; omega
      rw [if_neg hk, if_neg hk]
      by_cases h1 : py = e - 1
      · have h2 : ¬ py = a - 1 := by omega
        have h3 : ¬ py = b - 1 := by omega
        have h4 : ¬ py = d - 1 := by omega
        simp only [h2, h3, h4, and_false, if_false]
        simp only [h1, and_true, if_true]
        exact mkSide_of_set c hL px _ _ _ _
      by_cases h2 : py = a - 1
      · have h3 : ¬ py = b - 1 := by omega
        have h4 : ¬ py = d - 1 := by omega
        simp only [h1, h3, h4, and_false, if_false]
        simp only [h2, and_true, if_true]
        exact mkSide_of_set c hL px _ _ _ _
      by_cases h3 : py = b - 1
      · have h4 : ¬ py = d - 1 := by omega
        simp only [h1, h2, h4, and_false, if_false]
        simp only [h3, and_true, if_true]
        exact mkSide_of_set c hL px _ _ _ _
      by_cases h4 : py = d - 1
      · simp only [h1, h2, h3, and_false, if_false]
        simp only [h4, and_true, if_true]
        exact mkSide_of_set c hL px _ _ _ _
      simp only [h1, h2, h3, h4, and_false, if_false]
      exact mkSide_none_clip c hL px _
    · have h2 : ¬ py = a - 1 := by omega
      simp only [if_neg ha, connEff_up, dflt]
      by_cases hk : py = k - 1
      · have h1 : ¬ py = e - 1 := by omega
        have h3 : ¬ py = b - 1 := by omega
        have h4 : ¬ py = d - 1 := by omega
        simp only [if_pos hk, h1, h3, h4, and_false, if_false]
        unfold Side.clip
        simp only
        by_cases hgt : c.nx - px * c.MXSUB > c.LocalNx
        · rw [if_pos hgt]
        · rw [if_neg hgt]; congr 1; omega
      rw [if_neg hk, if_neg hk]
      by_cases h1 : py = e - 1
      · have h3 : ¬ py = b - 1 := by omega
        have h4 : ¬ py = d - 1 := by omega
        simp only [h3, h4, and_false, if_false]
        simp only [h1, and_true, if_true]
        exact mkSide_of_set c hL px _ _ _ _
      by_cases h3 : py = b - 1
      · have h4 : ¬ py = d - 1 := by omega
        simp only [h1, h2, h4, and_false, if_false]
        simp only [h3, and_true, if_true]
        exact mkSide_of_set c hL px _ _ _ _
      by_cases h4 : py = d - 1
      · simp only [h1, h2, h3, and_false, if_false]
        simp only [h4, and_true, if_true]
        exact mkSide_of_set c hL px _ _ _ _
      simp only [h1, h2, h3, h4, and_false, if_false]
      exact mkSide_none_clip c hL px _
  · simp only [hs, false_and, if_false]
    unfold cutUp
    simp only [hs, false_and, if_false]
    by_cases ha : 0 < a
    · simp only [if_pos ha, connEff_up, dflt]
      by_cases h1 : py = e - 1
      · have h2 : ¬ py = a - 1 := by omega
        simp only [h2, and_false, if_false]
        simp only [h1, and_true, if_true]
        exact mkSide_of_set c hL px _ _ _ _
      by_cases h2 : py = a - 1
      · simp only [h1, and_false, if_false]
        simp only [h2, and_true, if_true]
        exact mkSide_of_set c hL px _ _ _ _
      simp only [h1, h2, and_false, if_false]
      exact mkSide_none_clip c hL px _
    · have h2 : ¬ py = a - 1 := by omega
      simp only [if_neg ha, connEff_up, dflt]
      by_cases h1 : py = e - 1
      · simp only [h1, and_true, if_true]
        exact mkSide_of_set c hL px _ _ _ _
      simp only [h1, h2, and_false, if_false]
      exact mkSide_none_clip c hL px _

theorem topoEff_down {c : Cfg} (hsz : Sizes c) {a b k d e : Int} (hc : Cuts c a b k d e)
    {px py : Int} (hx1 : px < c.NXPE) (hy1 : py < c.NYPE) :
    (topoEff c a b k d e px py).down = downSpec c a b k d e px py := by
  have hL := localNx_pos hsz
  have hb := nx_bound hsz hx1
  have a0 := hc.a0
  have ae := hc.ae
  have legs := hc.legs
  have dflt : (default_connections c px py).down =
      ⟨0, -1, c.PROC_NUM px (py - 1), false, false⟩ := rfl
  unfold topoEff downSpec
  simp only [clip_down]
  by_cases hs : DoubleNull c
  · have ab := hc.ab hs
    have bk := hc.bk hs
    have kd := hc.kd hs
    have de := hc.de hs
    simp only [hs, true_and, if_true, targEff_down, (ts_of_down _).1, (ts_of_down _).2,
      connEff_down]
    unfold cutDown
    simp only [hs, true_and]
    by_cases ha : 0 < a
    · simp only [if_pos ha, connEff_down, dflt]
      by_cases hk : py = k
      · have h1 : ¬ py = e := by omega
        have h2 : ¬ py = a := by omega
        have h3 : ¬ py = b := by omega
        have h4 : ¬ py = d := by omega
        simp only [if_pos hk, h1, h2, h3, h4, and_false, if_false]
        unfold Side.clip
        simp only
        by_cases hgt : c.nx - px * c.MXSUB > c.LocalNx
        · rw [if_pos hgt]
        · rw [if_neg hgt]; congr 1; omega
      rw [if_neg hk, if_neg hk]
      by_cases h2 : py = a
      · have h1 : ¬ py = e := by omega
        have h3 : ¬ py = b := by omega
        have h4 : ¬ py = d := by omega
        simp only [h1, h3, h4, and_false, if_false]
        simp only [h2, and_true, if_true]
        exact mkSide_of_set c hL px _ _ _ _
      by_cases h1 : py = e
      · have h3 : ¬ py = b := by omega
        have h4 : ¬ py = d := by omega
        simp only [h2, h3, h4, and_false, if_false]
        simp only [h1, and_true, if_true]
        exact mkSide_of_set c hL px _ _ _ _
      by_cases h4 : py = d
      · have h3 : ¬ py = b := by omega
        simp only [h1, h2, h3, and_false, if_false]
        simp only [h4, and_true, if_true]
        exact mkSide_of_set c hL px _ _ _ _
      by_cases h3 : py = b
      · simp only [h1, h2, h4, and_false, if_false]
        simp only [h3, and_true, if_true]
        exact mkSide_of_set c hL px _ _ _ _
      simp only [h1, h2, h3, h4, and_false, if_false]
      exact mkSide_none_clip c hL px _
    · have h1 : ¬ py = e := by omega
      simp only [if_neg ha, connEff_down, dflt]
      by_cases hk : py = k
      · have h2 : ¬ py = a := by omega
        have h3 : ¬ py = b := by omega
        have h4 : ¬ py = d := by omega
        simp only [if_pos hk, h2, h3, h4, and_false, if_false]
        unfold Side.clip
        simp only
        by_cases hgt : c.nx - px * c.MXSUB > c.LocalNx
        · rw [if_pos hgt]
        · rw [if_neg hgt]; congr 1; omega
      rw [if_neg hk, if_neg hk]
      by_cases h2 : py = a
      · have h3 : ¬ py = b := by omega
        have h4 : ¬ py = d := by omega
        simp only [h3, h4, and_false, if_false]
        simp only [h2, and_true, if_true]
        exact mkSide_of_set c hL px _ _ _ _
      by_cases h4 : py = d
      · have h3 : ¬ py = b := by omega
        simp only [h1, h2, h3, and_false, if_false]
        simp only [h4, and_true, if_true]
        exact mkSide_of_set c hL px _ _ _ _
      by_cases h3 : py = b
      · simp only [h1, h2, h4, and_false, if_false]
        simp only [h3, and_true, if_true]
        exact mkSide_of_set c hL px _ _ _ _
      simp only [h1, h2, h3, h4, and_false, if_false]
      exact mkSide_none_clip c hL px _
  · simp only [hs, false_and, if_false]
    unfold cutDown
    simp only [hs, false_and, if_false]
    by_cases ha : 0 < a
    · simp only [if_pos ha, connEff_down, dflt]
      by_cases h2 : py = a
      · have h1 : ¬ py = e := by omega
        simp only [h1, and_false, if_false]
        simp only [h2, and_true, if_true]
        exact mkSide_of_set c hL px _ _ _ _
      by_cases h1 : py = e
      · simp only [h2, and_false, if_false]
        simp only [h1, and_true, if_true]
        exact mkSide_of_set c hL px _ _ _ _
      simp only [h1, h2, and_false, if_false]
      exact mkSide_none_clip c hL px _
    · have h1 : ¬ py = e := by omega
      simp only [if_neg ha, connEff_down, dflt]
      by_cases h2 : py = a
      · simp only [h2, and_true, if_true]
        exact mkSide_of_set c hL px _ _ _ _
      simp only [h1, h2, and_false, if_false]
      exact mkSide_none_clip c hL px _

theorem topoEff_io (c : Cfg) (a b k d e px py : Int) :
    (topoEff c a b k d e px py).IDATA_DEST = (default_connections c px py).IDATA_DEST ∧
    (topoEff c a b k d e px py).ODATA_DEST = (default_connections c px py).ODATA_DEST := by
  unfold topoEff
  have hclip : ∀ s : Conn, (clipSplits c s).IDATA_DEST = s.IDATA_DEST ∧
      (clipSplits c s).ODATA_DEST = s.ODATA_DEST := fun s => ⟨rfl, rfl⟩
  simp only [(hclip _).1, (hclip _).2]
  by_cases hs : DoubleNull c <;> by_cases ha : 0 < a <;>
    simp only [hs, ha, if_true, if_false, (targEff_io _ _ _ _ _).1, (targEff_io _ _ _ _ _).2,
      (connEff_io _ _ _ _ _ _ _ _).1, (connEff_io _ _ _ _ _ _ _ _).2, and_self]

end Verif.Mesh
