/-
C19: the connections computed by every rank agree with the topology and with each other.
-/
import Verif.Mesh.Check
import Verif.Mesh.Spec

namespace Verif.Mesh

/-! ## The effect of the connection functions in processor coordinates -/

/-- Number of local columns of the processor column `px` that lie below global X `ixs`. -/
def splitAt (c : Cfg) (px ixs : Int) : Int := max 0 (min (ixs - px * c.MXSUB) c.LocalNx)

def upSet (c : Cfg) (px down xl : Int) (ts : Bool) (s : Conn) : Conn :=
  { s with UDATA_XSPLIT := xl
           UDATA_INDEST := c.PROC_NUM px down
           UDATA_OUTDEST := if xl = c.LocalNx then -1 else s.UDATA_OUTDEST
           TS_up_in := ts }

def downSet (c : Cfg) (px up xl : Int) (ts : Bool) (s : Conn) : Conn :=
  { s with DDATA_XSPLIT := xl
           DDATA_INDEST := c.PROC_NUM px up
           DDATA_OUTDEST := if xl = c.LocalNx then -1 else s.DDATA_OUTDEST
           TS_down_in := ts }

def connEff (c : Cfg) (px py up down ixs : Int) (ts : Bool) (s : Conn) : Conn :=
  let xl := splitAt c px ixs
  let s := if 0 < xl ∧ py = up then upSet c px down xl ts s else s
  if 0 < xl ∧ py = down then downSet c px up xl ts s else s

section
variable {c : Cfg} (h : Sizes c)
include h

theorem mype_eq {px py q : Int} (hx0 : 0 ≤ px) (hx1 : px < c.NXPE) (hq0 : 0 ≤ q)
    (hq1 : q < c.NYPE) : (c.NXPE * py + px = c.PROC_NUM px q) ↔ py = q := by
  have hN := h.nxpe
  unfold Cfg.PROC_NUM
  rw [if_neg (by omega), if_neg (by omega)]
  constructor
  · intro e
    have : c.NXPE * py = c.NXPE * q := by rw [Int.mul_comm c.NXPE q]; omega
    exact Int.eq_of_mul_eq_mul_left (by omega) this
  · rintro rfl; rw [Int.mul_comm]

theorem yproc_block {p r : Int} (hp0 : 0 ≤ p) (hp1 : p < c.NYPE) (h0 : 0 ≤ r)
    (h1 : r < c.MYSUB) : c.YPROC (p * c.MYSUB + r) = p := by
  obtain ⟨_, _, ey, hM⟩ := h.split
  unfold Cfg.YPROC
  have := block_bound (n := c.NYPE) h1 hp1 hM
  have h2 := Int.mul_nonneg hp0 (by omega : (0:Int) ≤ c.MYSUB)
  rw [if_neg (by omega), tdiv_block hp0 h0 h1]

theorem split_nonneg {px : Int} (hx0 : 0 ≤ px) : 0 ≤ px * c.MXSUB := by
  obtain ⟨_, hMX, _, _⟩ := h.split
  exact Int.mul_nonneg hx0 (by omega)

theorem localNx_pos : 0 < c.LocalNx := by
  obtain ⟨_, hMX, _, _⟩ := h.split
  have := h.mxg
  unfold Cfg.LocalNx; omega

/-- Common tail of `set_connection` with `xge = 0`. -/
theorem connect_tail {px py up down ixs : Int} {ts : Bool} {s : Conn}
    (hx0 : 0 ≤ px) (hx1 : px < c.NXPE) (hu0 : 0 ≤ up) (hu1 : up < c.NYPE)
    (hd0 : 0 ≤ down) (hd1 : down < c.NYPE) :
    (if (0:Int) ≠ 0 ∧ ixs ≠ c.MX then Except.error "can only divide X domain in 2"
      else
        let xgeL := c.getLocalXIndex px 0
        let xltL := c.getLocalXIndex px ixs
        if xgeL ≥ c.LocalNx ∨ xltL ≤ 0 then .ok s
        else
          let xgeL := if xgeL < 0 then 0 else xgeL
          let xltL := if xltL > c.LocalNx then c.LocalNx else xltL
          let mype := c.NXPE * py + px
          let s := if mype = c.PROC_NUM px up then
              connectUp c px down xgeL xltL ts s else s
          let s := if mype = c.PROC_NUM px down then
              connectDown c px up xgeL xltL ts s else s
          .ok s)
      = .ok (connEff c px py up down ixs ts s) := by
  rw [if_neg (fun x => x.1 rfl)]
  have hnn := split_nonneg h hx0
  have hL := localNx_pos h
  have hg := h.mxg
  have g0 : c.getLocalXIndex px 0 = 0 - px * c.MXSUB := rfl
  have g1 : c.getLocalXIndex px ixs = ixs - px * c.MXSUB := rfl
  simp only [mype_eq h hx0 hx1 hu0 hu1, mype_eq h hx0 hx1 hd0 hd1]
  unfold connEff
  by_cases hs : ixs - px * c.MXSUB ≤ 0
  · have hz : splitAt c px ixs = 0 := by unfold splitAt; omega
    rw [if_pos (by omega)]
    simp [hz]
  · rw [if_neg (by omega)]
    have hge : (if c.getLocalXIndex px 0 < 0 then (0:Int) else c.getLocalXIndex px 0) = 0 := by
      split <;> omega
    have hlt : (if c.getLocalXIndex px ixs > c.LocalNx then c.LocalNx
        else c.getLocalXIndex px ixs) = splitAt c px ixs := by
      unfold splitAt; split <;> omega
    have hpos : 0 < splitAt c px ixs := by unfold splitAt; omega
    simp only [hge, hlt, hpos, true_and]
    simp only [connectUp, connectDown, if_pos hg, upSet, downSet]

/-- `set_connection` from a bottom row to a top row. -/
theorem set_connection_bt {px py A B ixs : Int} {ts : Bool} {s : Conn}
    (hx0 : 0 ≤ px) (hx1 : px < c.NXPE) (hA0 : 0 ≤ A) (hA1 : A < c.NYPE)
    (hB0 : 0 ≤ B) (hB1 : B < c.NYPE) :
    set_connection c px py (A * c.MYSUB) (B * c.MYSUB + (c.MYSUB - 1)) 0 ixs ts s
      = .ok (connEff c px py B A ixs ts s) := by
  obtain ⟨_, _, ey, hM⟩ := h.split
  unfold set_connection
  by_cases hi : ixs ≤ 0
  · rw [if_pos hi]
    have hnn := split_nonneg h hx0
    have hz : splitAt c px ixs = 0 := by
      have := localNx_pos h
      unfold splitAt; omega
    simp [connEff, hz]
  rw [if_neg hi]
  have hAb := block_bound (r := 0) (n := c.NYPE) hM hA1 hM
  have hBb := block_bound (r := c.MYSUB - 1) (n := c.NYPE) (by omega) hB1 hM
  have hAn := Int.mul_nonneg hA0 (by omega : (0:Int) ≤ c.MYSUB)
  have hBn := Int.mul_nonneg hB0 (by omega : (0:Int) ≤ c.MYSUB)
  have hMY : c.MY = c.NYPE * c.MYSUB := ey
  rw [if_neg (by omega), if_neg (by omega)]
  have y1 : c.YPROC (A * c.MYSUB) = A := by
    have := yproc_block h hA0 hA1 (r := 0) (by omega) hM
    simpa using this
  have y2 : c.YPROC (B * c.MYSUB + (c.MYSUB - 1)) = B :=
    yproc_block h hB0 hB1 (by omega) (by omega)
  simp only [y1, y2]
  have i1 : c.YLOCAL (A * c.MYSUB) A = c.MYG := by unfold Cfg.YLOCAL; omega
  have i2 : c.YLOCAL (B * c.MYSUB + (c.MYSUB - 1)) B = c.MYSUB + c.MYG - 1 := by
    unfold Cfg.YLOCAL; omega
  simp only [i1, i2, and_self, if_true]
  exact connect_tail h hx0 hx1 hB0 hB1 hA0 hA1

/-- `set_connection` from a top row to a bottom row; needs more than one row per rank. -/
theorem set_connection_tb {px py A B ixs : Int} {ts : Bool} {s : Conn} (hM2 : 2 ≤ c.MYSUB)
    (hx0 : 0 ≤ px) (hx1 : px < c.NXPE) (hA0 : 0 ≤ A) (hA1 : A < c.NYPE)
    (hB0 : 0 ≤ B) (hB1 : B < c.NYPE) :
    set_connection c px py (A * c.MYSUB + (c.MYSUB - 1)) (B * c.MYSUB) 0 ixs ts s
      = .ok (connEff c px py A B ixs ts s) := by
  obtain ⟨_, _, ey, hM⟩ := h.split
  unfold set_connection
  by_cases hi : ixs ≤ 0
  · rw [if_pos hi]
    have hnn := split_nonneg h hx0
    have hz : splitAt c px ixs = 0 := by
      have := localNx_pos h
      unfold splitAt; omega
    simp [connEff, hz]
  rw [if_neg hi]
  have hAb := block_bound (r := c.MYSUB - 1) (n := c.NYPE) (by omega) hA1 hM
  have hBb := block_bound (r := 0) (n := c.NYPE) hM hB1 hM
  have hAn := Int.mul_nonneg hA0 (by omega : (0:Int) ≤ c.MYSUB)
  have hBn := Int.mul_nonneg hB0 (by omega : (0:Int) ≤ c.MYSUB)
  have hMY : c.MY = c.NYPE * c.MYSUB := ey
  rw [if_neg (by omega), if_neg (by omega)]
  have y1 : c.YPROC (B * c.MYSUB) = B := by
    have := yproc_block h hB0 hB1 (r := 0) (by omega) hM
    simpa using this
  have y2 : c.YPROC (A * c.MYSUB + (c.MYSUB - 1)) = A :=
    yproc_block h hA0 hA1 (by omega) (by omega)
  simp only [y1, y2]
  have i1 : c.YLOCAL (B * c.MYSUB) B = c.MYG := by unfold Cfg.YLOCAL; omega
  have i2 : c.YLOCAL (A * c.MYSUB + (c.MYSUB - 1)) A = c.MYSUB + c.MYG - 1 := by
    unfold Cfg.YLOCAL; omega
  have i3 : ¬ (c.MYSUB + c.MYG - 1 = c.MYG ∧ c.MYG = c.MYSUB + c.MYG - 1) := by omega
  simp only [i1, i2, and_self, if_true]
  rw [if_neg i3]
  exact connect_tail h hx0 hx1 hA0 hA1 hB0 hB1

theorem set_connection_out1 {px py ypos1 ypos2 ixs : Int} {ts : Bool} {s : Conn}
    (h1 : ypos1 < 0) : set_connection c px py ypos1 ypos2 0 ixs ts s = .ok s := by
  unfold set_connection
  split
  · rfl
  · rw [if_pos (Or.inl h1)]

/-- The effect of the upper targets of a double null, standing between processors
`k - 1` and `k`. -/
def targEff (c : Cfg) (px py k : Int) (s : Conn) : Conn :=
  let xl := c.nx - px * c.MXSUB
  let s := if py = k - 1 then
      { s with UDATA_XSPLIT := xl, UDATA_INDEST := -1, UDATA_OUTDEST := -1 } else s
  if py = k then { s with DDATA_XSPLIT := xl, DDATA_INDEST := -1, DDATA_OUTDEST := -1 } else s

theorem nx_bound {px : Int} (hx1 : px < c.NXPE) : c.LocalNx ≤ c.nx - px * c.MXSUB := by
  obtain ⟨ex, hMX, _, _⟩ := h.split
  have := block_bound (r := c.MXSUB - 1) (n := c.NXPE) (by omega) hx1 hMX
  unfold Cfg.MX at ex
  unfold Cfg.LocalNx
  omega

theorem add_target_eff {px py k : Int} {s : Conn} (hx0 : 0 ≤ px) (hx1 : px < c.NXPE)
    (hk0 : 0 < k) (hk1 : k < c.NYPE) :
    add_target c px py (k * c.MYSUB - 1) 0 c.nx s = .ok (targEff c px py k s) := by
  obtain ⟨ex, hMX, ey, hM⟩ := h.split
  have hL := localNx_pos h
  have hb := nx_bound h hx1
  have hnn := split_nonneg h hx0
  have hg := h.mxg
  unfold add_target
  rw [if_neg (by omega)]
  have hkb := block_bound (r := 0) (n := c.NYPE) hM hk1 hM
  have hkn := Int.mul_le_mul_of_nonneg_right (show 1 ≤ k by omega) (show 0 ≤ c.MYSUB by omega)
  have hMY : c.MY = c.NYPE * c.MYSUB := ey
  rw [if_neg (by omega)]
  have y1 : c.YPROC (k * c.MYSUB - 1) = k - 1 := by
    have := yproc_block h (p := k - 1) (r := c.MYSUB - 1) (by omega) (by omega) (by omega)
      (by omega)
    rw [show (k - 1) * c.MYSUB + (c.MYSUB - 1) = k * c.MYSUB - 1 by ring] at this
    exact this
  have y2 : c.YPROC (k * c.MYSUB - 1 + 1) = k := by
    have := yproc_block h (p := k) (r := 0) (by omega) hk1 (by omega) hM
    rw [show k * c.MYSUB + 0 = k * c.MYSUB - 1 + 1 by ring] at this
    exact this
  simp only [y1, y2]
  rw [if_neg (by omega)]
  simp only [Cfg.getLocalXIndex,
    mype_eq h hx0 hx1 (show 0 ≤ k - 1 by omega) (show k - 1 < c.NYPE by omega),
    mype_eq h hx0 hx1 (show 0 ≤ k by omega) hk1]
  rw [if_neg (by omega)]
  unfold targEff
  simp only [targetUp, targetDown, if_pos (show 0 - px * c.MXSUB ≤ c.MXG by omega),
    if_pos (show c.nx - px * c.MXSUB ≥ c.LocalNx by omega)]

end

/-! ## The layout in processor coordinates -/

/-- A layout accepted by the checks of the mesh, with every region present. -/
structure Layout (c : Cfg) : Prop where
  sizes : Sizes c
  ordered : Ordered c
  check : checkBoutMeshYDecomposition c.NYPE c.ny c.MYG c.jyseps1_1 c.jyseps2_1 c.jyseps1_2
    c.jyseps2_2 c.ny_inner = some true
  checks : topologyChecks c = .ok ()
  /-- More than one row per rank – or no private flux regions to connect. -/
  rows : 2 ≤ c.MYSUB ∨ (¬ DoubleNull c ∧ c.jyseps1_1 = -1)

/-- The rows where regions start, counted in processors: lower legs end at `a`, the core
is `[a,b)` and `[d,e)`, the upper legs `[b,k)` and `[k,d)`. -/
structure Cuts (c : Cfg) (a b k d e : Int) : Prop where
  ha : c.jyseps1_1 + 1 = a * c.MYSUB
  he : c.jyseps2_2 + 1 = e * c.MYSUB
  hb : DoubleNull c → c.jyseps2_1 + 1 = b * c.MYSUB
  hk : DoubleNull c → c.ny_inner = k * c.MYSUB
  hd : DoubleNull c → c.jyseps1_2 + 1 = d * c.MYSUB
  a0 : 0 ≤ a
  ae : a < e
  eN : e ≤ c.NYPE
  ab : DoubleNull c → a < b
  bk : DoubleNull c → b < k
  kd : DoubleNull c → k < d
  de : DoubleNull c → d < e
  legs : a = 0 ↔ e = c.NYPE

theorem mul_lt_imp {a b m : Int} (hm : 0 < m) (h : a * m < b * m) : a < b := by
  by_contra hc
  have := Int.mul_le_mul_of_nonneg_right (show b ≤ a by omega) (show 0 ≤ m by omega)
  omega

theorem Layout.cuts {c : Cfg} (h : Layout c) : ∃ a b k d e, Cuts c a b k d e := by
  obtain ⟨_, _, ey, hM⟩ := h.sizes.split
  have hN := h.sizes.nype
  have hdv : c.ny.tdiv c.NYPE = c.MYSUB := rfl
  obtain ⟨_, _, _, hk⟩ := (C21_check_success_iff _ _ _ _ _ _ _ _).1 h.check
  rw [hdv] at hk
  obtain ⟨lo, hi, core, inner, l1, l2, outer, legs⟩ := h.ordered
  have ltc : ∀ {p q : Int}, p * c.MYSUB < q * c.MYSUB → p < q := fun hh => mul_lt_imp hM hh
  by_cases hs : DoubleNull c
  · have hs' : ¬ c.jyseps2_1 = c.jyseps1_2 := hs
    simp only [regionStarts, if_neg hs', List.mem_cons, List.not_mem_nil, or_false,
      forall_eq_or_imp, forall_eq] at hk
    obtain ⟨⟨a, ha⟩, ⟨b, hb⟩, ⟨k, hk⟩, ⟨d, hd⟩, ⟨e, he⟩⟩ := hk
    rw [Int.mul_comm] at ha hb hk hd he
    have := inner hs; have := l1 hs; have := l2 hs; have := outer hs
    have h1 : a < b := ltc (by omega)
    have h2 : b < k := ltc (by omega)
    have h3 : k < d := ltc (by omega)
    have h4 : d < e := ltc (by omega)
    have h5 : e < c.NYPE + 1 := ltc (by rw [Int.add_mul]; omega)
    have h6 : -1 < a := ltc (by omega)
    refine ⟨a, b, k, d, e, ha, he, fun _ => hb, fun _ => hk, fun _ => hd, by omega, by omega,
      by omega, fun _ => h1, fun _ => h2, fun _ => h3, fun _ => h4, ?_⟩
    constructor
    · intro h0
      rw [h0] at ha
      have : c.jyseps2_2 = c.ny - 1 := legs.1 (by omega)
      have e1 : e * c.MYSUB = c.NYPE * c.MYSUB := by omega
      exact Int.eq_of_mul_eq_mul_right (by omega) e1
    · intro h0
      rw [h0] at he
      have : c.jyseps1_1 = -1 := legs.2 (by omega)
      have e1 : a * c.MYSUB = 0 * c.MYSUB := by omega
      exact Int.eq_of_mul_eq_mul_right (by omega) e1
  · have hs' : c.jyseps2_1 = c.jyseps1_2 := by unfold DoubleNull at hs; omega
    simp only [regionStarts, if_pos hs', List.mem_cons, List.not_mem_nil, or_false,
      forall_eq_or_imp, forall_eq] at hk
    obtain ⟨⟨a, ha⟩, ⟨e, he⟩⟩ := hk
    rw [Int.mul_comm] at ha he
    have := core hs
    have h4 : a < e := ltc (by omega)
    have h5 : e < c.NYPE + 1 := ltc (by rw [Int.add_mul]; omega)
    have h6 : -1 < a := ltc (by omega)
    refine ⟨a, 0, 0, 0, e, ha, he, fun hh => absurd hh hs, fun hh => absurd hh hs,
      fun hh => absurd hh hs, by omega, by omega, by omega, fun hh => absurd hh hs,
      fun hh => absurd hh hs, fun hh => absurd hh hs, fun hh => absurd hh hs, ?_⟩
    constructor
    · intro h0
      rw [h0] at ha
      have : c.jyseps2_2 = c.ny - 1 := legs.1 (by omega)
      have e1 : e * c.MYSUB = c.NYPE * c.MYSUB := by omega
      exact Int.eq_of_mul_eq_mul_right (by omega) e1
    · intro h0
      rw [h0] at he
      have : c.jyseps1_1 = -1 := legs.2 (by omega)
      have e1 : a * c.MYSUB = 0 * c.MYSUB := by omega
      exact Int.eq_of_mul_eq_mul_right (by omega) e1

/-- Twist-shift flags passed for the two core joins. -/
def tsLower (c : Cfg) : Bool := if DoubleNull c then decide (c.ixseps1 ≤ c.ixseps2) else true
def tsUpper (c : Cfg) : Bool := decide (c.ixseps1 > c.ixseps2)

/-- The sequence of effects of `topology`. -/
def topoEff (c : Cfg) (a b k d e px py : Int) : Conn :=
  let s := default_connections c px py
  let s := connEff c px py (e - 1) a c.ixseps1 (tsLower c) s
  let s := if 0 < a then connEff c px py (a - 1) e c.ixseps1 false s else s
  let s := if DoubleNull c then
      targEff c px py k
        (connEff c px py (d - 1) b c.ixseps2 false
          (connEff c px py (b - 1) d c.ixseps2 (tsUpper c) s))
    else s
  clipSplits c s

theorem seps_lower (c : Cfg) : (seps c).lower = c.ixseps1 := by
  unfold seps; split_ifs <;> simp

theorem seps_upper (c : Cfg) (h : DoubleNull c) : (seps c).upper = c.ixseps2 := by
  unfold seps
  rw [if_neg h]
  split_ifs <;> simp_all

theorem topology_eq {c : Cfg} (h : Layout c) {a b k d e : Int} (hc : Cuts c a b k d e)
    {px py : Int} (hx0 : 0 ≤ px) (hx1 : px < c.NXPE) :
    topology c px py = .ok (topoEff c a b k d e px py) := by
  have hsz := h.sizes
  obtain ⟨_, _, ey, hM⟩ := hsz.split
  have j22 : c.jyseps2_2 = (e - 1) * c.MYSUB + (c.MYSUB - 1) := by
    have := hc.he
    rw [Int.sub_mul]; omega
  have a0 := hc.a0
  have ae := hc.ae
  have eN := hc.eN
  unfold topology
  rw [h.checks]
  simp only [bind, Except.bind, pure, Except.pure]
  -- the lower X-point
  have step1 : ∀ ts s, set_connection c px py (c.jyseps1_1 + 1) c.jyseps2_2 0 c.ixseps1 ts s
      = .ok (connEff c px py (e - 1) a c.ixseps1 ts s) := by
    intro ts s
    rw [hc.ha, j22]
    exact set_connection_bt hsz hx0 hx1 (by omega) (by omega) (by omega) (by omega)
  have step2 : ∀ s, set_connection c px py c.jyseps1_1 (c.jyseps2_2 + 1) 0 c.ixseps1 false s
      = .ok (if 0 < a then connEff c px py (a - 1) e c.ixseps1 false s else s) := by
    intro s
    by_cases ha : 0 < a
    · rw [if_pos ha]
      have j11 : c.jyseps1_1 = (a - 1) * c.MYSUB + (c.MYSUB - 1) := by
        have := hc.ha
        rw [Int.sub_mul]; omega
      have heN : e < c.NYPE := by
        have := hc.legs
        omega
      rw [hc.he, j11]
      have hM2 : 2 ≤ c.MYSUB := by
        rcases h.rows with r | ⟨_, r⟩
        · exact r
        · exfalso
          have e1 : a * c.MYSUB = 0 * c.MYSUB := by have := hc.ha; omega
          have := Int.eq_of_mul_eq_mul_right (by omega) e1
          omega
      exact set_connection_tb hsz hM2 hx0 hx1 (by omega) (by omega) (by omega) heN
    · rw [if_neg ha]
      apply set_connection_out1 hsz
      have : a = 0 := by omega
      have h1 := hc.ha
      rw [this] at h1; omega
  by_cases hs : DoubleNull c
  · have hs' : ¬ c.jyseps2_1 = c.jyseps1_2 := hs
    have hM2 : 2 ≤ c.MYSUB := by
      rcases h.rows with r | ⟨r, _⟩
      · exact r
      · exact absurd hs r
    have jb := hc.hb hs
    have jk := hc.hk hs
    have jd := hc.hd hs
    have ab := hc.ab hs
    have bk := hc.bk hs
    have kd := hc.kd hs
    have de := hc.de hs
    have m1 : (c.ny_inner - c.jyseps2_1 - 1).tmod c.MYSUB = 0 := by
      apply Int.tmod_eq_zero_of_dvd
      exact ⟨k - b, by rw [Int.mul_comm, Int.sub_mul]; omega⟩
    have m2 : (c.jyseps1_2 - c.ny_inner + 1).tmod c.MYSUB = 0 := by
      apply Int.tmod_eq_zero_of_dvd
      exact ⟨d - k, by rw [Int.mul_comm, Int.sub_mul]; omega⟩
    have step3 : ∀ ts s, set_connection c px py c.jyseps2_1 (c.jyseps1_2 + 1) 0 c.ixseps2 ts s
        = .ok (connEff c px py (b - 1) d c.ixseps2 ts s) := by
      intro ts s
      have j21 : c.jyseps2_1 = (b - 1) * c.MYSUB + (c.MYSUB - 1) := by
        rw [Int.sub_mul]; omega
      rw [jd, j21]
      exact set_connection_tb hsz hM2 hx0 hx1 (by omega) (by omega) (by omega) (by omega)
    have step4 : ∀ ts s, set_connection c px py (c.jyseps2_1 + 1) c.jyseps1_2 0 c.ixseps2 ts s
        = .ok (connEff c px py (d - 1) b c.ixseps2 ts s) := by
      intro ts s
      have j12 : c.jyseps1_2 = (d - 1) * c.MYSUB + (c.MYSUB - 1) := by
        rw [Int.sub_mul]; omega
      rw [jb, j12]
      exact set_connection_bt hsz hx0 hx1 (by omega) (by omega) (by omega) (by omega)
    have step5 : ∀ s, add_target c px py (c.ny_inner - 1) 0 c.nx s
        = .ok (targEff c px py k s) := by
      intro s
      rw [jk]
      exact add_target_eff hsz hx0 hx1 (by omega) (by omega)
    rw [if_neg hs', if_neg (not_not_intro m1), if_neg (not_not_intro m2)]
    simp only [seps_lower, seps_upper c hs, step1, step2, step3, step4, step5]
    unfold topoEff tsLower tsUpper
    simp only [if_pos hs]
  · have hs' : c.jyseps2_1 = c.jyseps1_2 := by unfold DoubleNull at hs; omega
    rw [if_pos hs']
    simp only [step1, step2]
    unfold topoEff tsLower
    simp only [if_neg hs]

end Verif.Mesh
