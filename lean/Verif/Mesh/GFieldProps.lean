/-
C69: gathering a field onto one processor and scattering it again.
-/
import Verif.Mesh.GField
import Mathlib.Tactic.Linarith
import Mathlib.Tactic.Ring
import Mathlib.Tactic.SplitIfs

namespace Verif.GField
open Verif.Mesh

variable {V : Type*}

/-! ## Specification -/

/-- The points processor `p` is responsible for: its interior in X and Y, and the X boundary cells if it is at the X edge of
the processor grid. -/
def Owned (c : Cfg) (nz p jx jy jz : Int) : Prop :=
  (c.xstart ≤ jx ∨ c.peX p = 0 ∧ 0 ≤ jx) ∧ (jx ≤ c.xend ∨ c.peX p = c.NXPE - 1 ∧ jx < c.LocalNx) ∧
  c.ystart ≤ jy ∧ jy ≤ c.yend ∧ 0 ≤ jz ∧ jz < nz

/-- The ranks. -/
def Rank (c : Cfg) (p : Int) : Prop := 0 ≤ p ∧ p < c.NXPE * c.NYPE

/-- The documented layout of the data: `[x*ny*nz + y*nz + z]`. -/
def doc (c : Cfg) (nz x y z : Int) : Int := x * c.ny * nz + y * nz + z

/-- The place in the global array of local point `(jx, jy, jz)` of processor `p`. -/
def home (c : Cfg) (nz p jx jy jz : Int) : Int :=
  doc c nz (c.getGlobalXIndex (c.peX p) jx) (c.getGlobalYIndexNoBoundaries (c.peY p) jy) jz

/-! ## Loops and memory -/

theorem mem_rng {n k : Int} : k ∈ rng n ↔ 0 ≤ k ∧ k < n := by
  unfold rng
  simp only [List.mem_map, List.mem_range]
  constructor
  · rintro ⟨a, h, rfl⟩; omega
  · rintro ⟨h0, h1⟩; exact ⟨k.toNat, by omega, by omega⟩

theorem mem_loop3 {a b c : Int} {q : Int × Int × Int} :
    q ∈ loop3 a b c ↔ (0 ≤ q.1 ∧ q.1 < a) ∧ (0 ≤ q.2.1 ∧ q.2.1 < b) ∧ 0 ≤ q.2.2 ∧ q.2.2 < c := by
  obtain ⟨x, y, z⟩ := q
  unfold loop3
  simp only [List.mem_flatMap, List.mem_map, mem_rng, Prod.mk.injEq]
  constructor
  · rintro ⟨x', hx, y', hy, z', hz, rfl, rfl, rfl⟩; exact ⟨hx, hy, hz⟩
  · rintro ⟨hx, hy, hz⟩; exact ⟨x, hx, y, hy, z, hz, rfl, rfl, rfl⟩

theorem store_eq {Q : Type*} (addr : Q → Int) (val : Q → V) (a : Int) (v : V) :
    ∀ (qs : List Q) (d : Int → V), (∀ q ∈ qs, addr q = a → val q = v) → (d a = v ∨ ∃ q ∈ qs, addr q = a) →
      store qs addr val d a = v := by
  intro qs
  induction qs with
  | nil => intro d _ h; rcases h with h | ⟨q, hq, _⟩; exacts [h, absurd hq (by simp)]
  | cons q qs ih =>
    intro d hc h
    unfold store
    rw [List.foldl_cons]
    apply ih
    · intro q' h'; exact hc q' (List.mem_cons_of_mem _ h')
    · by_cases e : addr q = a
      · left; unfold upd; rw [if_pos e.symm]; exact hc q List.mem_cons_self e
      · rcases h with h | ⟨q', hq', e'⟩
        · left; unfold upd; rw [if_neg (fun x => e x.symm)]; exact h
        · right
          rcases List.mem_cons.mp hq' with rfl | hm
          · exact absurd e' e
          · exact ⟨q', hm, e'⟩

theorem store_other {Q : Type*} (addr : Q → Int) (val : Q → V) (a : Int) :
    ∀ (qs : List Q) (d : Int → V), (∀ q ∈ qs, addr q ≠ a) → store qs addr val d a = d a := by
  intro qs
  induction qs with
  | nil => intro d _; rfl
  | cons q qs ih =>
    intro d h
    unfold store
    rw [List.foldl_cons]
    refine (ih _ fun q' h' => h q' (List.mem_cons_of_mem _ h')).trans ?_
    unfold upd; rw [if_neg (fun x => h q List.mem_cons_self x.symm)]

theorem storeL_eq {Q : Type*} (addr : Q → Int × Int × Int) (val : Q → V) (a b c : Int) (v : V) :
    ∀ (qs : List Q) (f : Local V), (∀ q ∈ qs, addr q = (a, b, c) → val q = v) →
      (f a b c = v ∨ ∃ q ∈ qs, addr q = (a, b, c)) → storeL qs addr val f a b c = v := by
  intro qs
  induction qs with
  | nil => intro d _ h; rcases h with h | ⟨q, hq, _⟩; exacts [h, absurd hq (by simp)]
  | cons q qs ih =>
    intro d hc h
    unfold storeL
    rw [List.foldl_cons]
    apply ih
    · intro q' h'; exact hc q' (List.mem_cons_of_mem _ h')
    · by_cases e : addr q = (a, b, c)
      · left; unfold updL; rw [if_pos (by rw [e]; exact ⟨rfl, rfl, rfl⟩)]; exact hc q List.mem_cons_self e
      · rcases h with h | ⟨q', hq', e'⟩
        · left; unfold updL
          rw [if_neg]; · exact h
          rintro ⟨x, y, z⟩; exact e (by rw [x, y, z])
        · right
          rcases List.mem_cons.mp hq' with rfl | hm
          · exact absurd e' e
          · exact ⟨q', hm, e'⟩

theorem storeL_other {Q : Type*} (addr : Q → Int × Int × Int) (val : Q → V) (a b c : Int) :
    ∀ (qs : List Q) (f : Local V), (∀ q ∈ qs, addr q ≠ (a, b, c)) → storeL qs addr val f a b c = f a b c := by
  intro qs
  induction qs with
  | nil => intro d _; rfl
  | cons q qs ih =>
    intro d h
    unfold storeL
    rw [List.foldl_cons]
    refine (ih _ fun q' h' => h q' (List.mem_cons_of_mem _ h')).trans ?_
    unfold updL; rw [if_neg]
    rintro ⟨x, y, z⟩; exact h q List.mem_cons_self (by rw [x, y, z])

/-! ## Layout -/

/-- Row-major addresses are distinct. -/
theorem row_major_inj {ny nz x y z x' y' z' : Int} (hx : 0 ≤ x) (hy : 0 ≤ y ∧ y < ny) (hz : 0 ≤ z ∧ z < nz)
    (hx' : 0 ≤ x') (hy' : 0 ≤ y' ∧ y' < ny) (hz' : 0 ≤ z' ∧ z' < nz)
    (h : x * ny * nz + y * nz + z = x' * ny * nz + y' * nz + z') : x = x' ∧ y = y' ∧ z = z' := by
  have e : (x * ny + y) * nz + z = (x' * ny + y') * nz + z' := by linarith [h]
  have n1 := Int.mul_nonneg hx (by omega : (0 : Int) ≤ ny)
  have n2 := Int.mul_nonneg hx' (by omega : (0 : Int) ≤ ny)
  obtain ⟨a, b⟩ := block_unique (by omega) (by omega) hz.1 hz.2 hz'.1 hz'.2 e
  obtain ⟨c, d⟩ := block_unique hx hx' hy.1 hy.2 hy'.1 hy'.2 a
  exact ⟨c, d, b⟩

theorem row_major_bound {nx ny nz x y z : Int} (hx : 0 ≤ x ∧ x < nx) (hy : 0 ≤ y ∧ y < ny) (hz : 0 ≤ z ∧ z < nz) :
    0 ≤ x * ny * nz + y * nz + z ∧ x * ny * nz + y * nz + z < nx * ny * nz := by
  have a := block_bound hy.2 hx.2 (by omega : 0 < ny)
  have b := block_bound hz.2 a (by omega : 0 < nz)
  have n1 := Int.mul_nonneg hx.1 (by omega : (0 : Int) ≤ ny)
  have n2 := Int.mul_nonneg (by omega : 0 ≤ x * ny + y) (by omega : (0 : Int) ≤ nz)
  constructor <;> linarith

theorem ny_eq (g : G) : g.ny = g.c.ny := by
  unfold G.ny Cfg.GlobalNy Cfg.ystart
  split <;> split <;> omega

theorem at_eq (g : G) (x y z : Int) : g.at x y z = doc g.c g.nz x y z := by
  unfold G.at doc; rw [ny_eq]; ring

/-! ## Processors -/

theorem pe_tmod (c : Cfg) (p : Int) : c.peX p = p.tmod c.NXPE := rfl

theorem rank_pe {c : Cfg} (h : Sizes c) {p : Int} (hp : Rank c p) :
    (0 ≤ c.peX p ∧ c.peX p < c.NXPE) ∧ (0 ≤ c.peY p ∧ c.peY p < c.NYPE) :=
  let t := (C16_proc_num_bijection c h.nxpe h.nype).2 p hp.1 hp.2
  ⟨t.1, t.2.1⟩

theorem rank_ext {c : Cfg} (h : Sizes c) {p q : Int} (hp : Rank c p) (hq : Rank c q) (hx : c.peX p = c.peX q)
    (hy : c.peY p = c.peY q) : p = q := by
  have a := ((C16_proc_num_bijection c h.nxpe h.nype).2 p hp.1 hp.2).2.2
  have b := ((C16_proc_num_bijection c h.nxpe h.nype).2 q hq.1 hq.2).2.2
  rw [hx, hy] at a; omega

/-- The points a processor loops over are the ones it owns, counted from its own origin. -/
theorem mem_pts (g : G) (h : Sizes g.c) (p jx jy jz : Int) :
    (jx - (localOrigin g.c p).1, jy - (localOrigin g.c p).2, jz) ∈ g.pts p ↔ Owned g.c g.nz p jx jy jz := by
  have hm := h.mxg
  have hs := h.split.2.1
  unfold G.pts
  rw [mem_loop3]
  unfold Owned localOrigin size
  rw [pe_tmod]
  unfold Cfg.xstart Cfg.xend Cfg.ystart Cfg.yend Cfg.LocalNx
  dsimp only
  generalize p.tmod g.c.NXPE = px
  generalize g.c.MXSUB = m at *
  generalize g.c.MXG = w at *
  generalize g.c.NXPE = n at *
  split_ifs <;> constructor <;> intro ⟨a, b, c⟩ <;> refine ⟨?_, ?_, ?_⟩ <;> omega

/-- Where a looped-over point goes. -/
theorem at_home (g : G) (h : Sizes g.c) {p : Int} {q : Int × Int × Int} :
    g.at (q.1 + (origin g.c p).1) (q.2.1 + (origin g.c p).2) q.2.2 =
      home g.c g.nz p ((localOrigin g.c p).1 + q.1) ((localOrigin g.c p).2 + q.2.1) q.2.2 := by
  rw [at_eq]
  unfold home
  congr 1
  · unfold origin localOrigin Cfg.getGlobalXIndex Cfg.xend Cfg.xstart
    rw [pe_tmod]
    dsimp only
    have e : g.c.MXG + g.c.MXSUB - 1 - g.c.MXG + 1 = g.c.MXSUB := by omega
    rw [e]
    by_cases h0 : p.tmod g.c.NXPE = 0
    · rw [if_neg (by omega), if_pos h0]; omega
    · rw [if_pos (by omega), if_neg h0]; omega
  · unfold origin localOrigin Cfg.getGlobalYIndexNoBoundaries Cfg.yend Cfg.ystart Cfg.peY
    dsimp only
    have e : g.c.MYG + g.c.MYSUB - 1 - g.c.MYG + 1 = g.c.MYSUB := by omega
    rw [e]; omega

theorem owned_of_mem (g : G) (h : Sizes g.c) {p : Int} {q : Int × Int × Int} (hq : q ∈ g.pts p) :
    Owned g.c g.nz p ((localOrigin g.c p).1 + q.1) ((localOrigin g.c p).2 + q.2.1) q.2.2 := by
  rw [← mem_pts g h]
  have : ((localOrigin g.c p).1 + q.1 - (localOrigin g.c p).1, (localOrigin g.c p).2 + q.2.1 - (localOrigin g.c p).2,
    q.2.2) = q := by
    obtain ⟨a, b, c⟩ := q; simp only [Prod.mk.injEq]; refine ⟨?_, ?_, trivial⟩ <;> omega
  rw [this]; exact hq

/-- The global position of an owned point is inside the grid. -/
theorem owned_inside {c : Cfg} (h : Sizes c) {nz p jx jy jz : Int} (hp : Rank c p) (ho : Owned c nz p jx jy jz) :
    (0 ≤ c.getGlobalXIndex (c.peX p) jx ∧ c.getGlobalXIndex (c.peX p) jx < c.nx) ∧
    (0 ≤ c.getGlobalYIndexNoBoundaries (c.peY p) jy ∧ c.getGlobalYIndexNoBoundaries (c.peY p) jy < c.ny) ∧
    0 ≤ jz ∧ jz < nz := by
  obtain ⟨⟨x0, x1⟩, y0, y1⟩ := rank_pe h hp
  obtain ⟨ex, px, ey, py⟩ := h.split
  obtain ⟨o1, o2, o3, o4, o5, o6⟩ := ho
  have hm := h.mxg
  unfold Cfg.getGlobalXIndex Cfg.getGlobalYIndexNoBoundaries
  unfold Cfg.xstart at o1
  unfold Cfg.xend Cfg.LocalNx at o2
  unfold Cfg.ystart at o3
  unfold Cfg.yend at o4
  unfold Cfg.MX at ex
  have n1 := Int.mul_nonneg x0 (by omega : 0 ≤ c.MXSUB)
  have n2 := Int.mul_nonneg y0 (by omega : 0 ≤ c.MYSUB)
  have b1 := block_bound (r := c.MXSUB - 1) (by omega) x1 px
  have b2 := block_bound (r := jy - c.MYG) (by omega) y1 py
  refine ⟨⟨?_, ?_⟩, ⟨by omega, by omega⟩, o5, o6⟩
  · omega
  · rcases o2 with o2 | ⟨e, o2⟩ <;> omega

/-- Two owned points at the same global position are the same point of the same processor. -/
theorem owned_unique {c : Cfg} (h : Sizes c) {nz p jx jy jz p' jx' jy' jz' : Int} (hp : Rank c p) (hp' : Rank c p')
    (ho : Owned c nz p jx jy jz) (ho' : Owned c nz p' jx' jy' jz')
    (gx : c.getGlobalXIndex (c.peX p) jx = c.getGlobalXIndex (c.peX p') jx')
    (gy : c.getGlobalYIndexNoBoundaries (c.peY p) jy = c.getGlobalYIndexNoBoundaries (c.peY p') jy') :
    p = p' ∧ jx = jx' ∧ jy = jy' := by
  obtain ⟨⟨x0, x1⟩, y0, y1⟩ := rank_pe h hp
  obtain ⟨⟨x0', x1'⟩, y0', y1'⟩ := rank_pe h hp'
  obtain ⟨ex, px, ey, py⟩ := h.split
  obtain ⟨o1, o2, o3, o4, o5, o6⟩ := ho
  obtain ⟨q1, q2, q3, q4, q5, q6⟩ := ho'
  have hm := h.mxg
  unfold Cfg.getGlobalXIndex at gx
  unfold Cfg.getGlobalYIndexNoBoundaries at gy
  unfold Cfg.xstart at o1 q1
  unfold Cfg.xend Cfg.LocalNx at o2 q2
  unfold Cfg.ystart at o3 q3
  unfold Cfg.yend at o4 q4
  have hy := block_unique (p := c.peY p) (q := c.peY p') (m := c.MYSUB) (r := jy - c.MYG) (s := jy' - c.MYG) y0 y0'
    (by omega) (by omega) (by omega) (by omega) (by omega)
  have key : ∀ a b u v : Int, 0 ≤ a → a < c.NXPE → 0 ≤ b → b < c.NXPE →
      (u ≤ c.MXG + c.MXSUB - 1 ∨ a = c.NXPE - 1 ∧ u < c.MXSUB + 2 * c.MXG) →
      (c.MXG ≤ v ∨ b = 0 ∧ 0 ≤ v) → u + a * c.MXSUB = v + b * c.MXSUB → ¬ a < b := by
    intro a b u v a0 a1 b0 b1 hu hv e hl
    have t : (a + 1) * c.MXSUB ≤ b * c.MXSUB := Int.mul_le_mul_of_nonneg_right (by omega) (by omega)
    have t2 : (a + 1) * c.MXSUB = a * c.MXSUB + c.MXSUB := by ring
    rcases hu with hu | hu <;> omega
  have k1 := key _ _ _ _ x0 x1 x0' x1' o2 q1 gx
  have k2 := key _ _ _ _ x0' x1' x0 x1 q2 o1 gx.symm
  have exx : c.peX p = c.peX p' := by omega
  have := rank_ext h hp hp' exx hy.1
  rw [exx] at gx
  exact ⟨this, by omega, by omega⟩

/-- Every global position has an owner. -/
theorem owner_exists {c : Cfg} (h : Sizes c) {nz x y z : Int} (hx : 0 ≤ x ∧ x < c.nx) (hy : 0 ≤ y ∧ y < c.ny)
    (hz : 0 ≤ z ∧ z < nz) :
    ∃ p jx jy, Rank c p ∧ Owned c nz p jx jy z ∧ c.getGlobalXIndex (c.peX p) jx = x ∧
      c.getGlobalYIndexNoBoundaries (c.peY p) jy = y := by
  obtain ⟨ex, px, ey, py⟩ := h.split
  have hm := h.mxg
  have hn := h.nxpe
  obtain ⟨⟨y0, y1, y2, y3, y4⟩, _⟩ := C17_y_owner c h y hy.1 hy.2
  have hcol : ∃ a u, 0 ≤ a ∧ a < c.NXPE ∧ (c.xstart ≤ u ∨ a = 0 ∧ 0 ≤ u) ∧
      (u ≤ c.xend ∨ a = c.NXPE - 1 ∧ u < c.LocalNx) ∧ c.getGlobalXIndex a u = x := by
    unfold Cfg.xstart Cfg.xend Cfg.LocalNx Cfg.getGlobalXIndex
    unfold Cfg.MX at ex
    by_cases l : x < c.MXG
    · exact ⟨0, x, by omega, hn, Or.inr ⟨rfl, hx.1⟩, Or.inl (by omega), by omega⟩
    · by_cases r : x < c.nx - c.MXG
      · obtain ⟨⟨a, b, d, e, f⟩, _⟩ := C17_x_owner c h x (by omega) r
        exact ⟨_, _, a, b, Or.inl d, Or.inl e, f⟩
      · have t : (c.NXPE - 1) * c.MXSUB = c.NXPE * c.MXSUB - c.MXSUB := by ring
        refine ⟨c.NXPE - 1, x - (c.NXPE - 1) * c.MXSUB, by omega, by omega, Or.inl ?_, Or.inr ⟨rfl, ?_⟩, by omega⟩
        · rw [t]; omega
        · rw [t]; omega
  obtain ⟨a, u, a0, a1, hu, hv, hg⟩ := hcol
  obtain ⟨r0, r1, r2, r3⟩ := (C16_proc_num_bijection c h.nxpe h.nype).1 a (c.YPROC y) a0 a1 y0 y1
  refine ⟨c.PROC_NUM a (c.YPROC y), u, _, ⟨r0, r1⟩, ⟨?_, ?_, y2, y3, hz.1, hz.2⟩, ?_, ?_⟩
  · rw [r2]; exact hu
  · rw [r2]; exact hv
  · rw [r2]; exact hg
  · rw [r3]; exact y4

theorem home_inj {c : Cfg} (h : Sizes c) {nz p jx jy jz p' jx' jy' jz' : Int} (hp : Rank c p) (hp' : Rank c p')
    (ho : Owned c nz p jx jy jz) (ho' : Owned c nz p' jx' jy' jz')
    (e : home c nz p jx jy jz = home c nz p' jx' jy' jz') : p = p' ∧ jx = jx' ∧ jy = jy' ∧ jz = jz' := by
  obtain ⟨a, b, d⟩ := owned_inside h hp ho
  obtain ⟨a', b', d'⟩ := owned_inside h hp' ho'
  unfold home doc at e
  obtain ⟨e1, e2, e3⟩ := row_major_inj a.1 b d a'.1 b' d' e
  obtain ⟨f1, f2, f3⟩ := owned_unique h hp hp' ho ho' e1 e2
  exact ⟨f1, f2, f3, e3⟩

end Verif.GField
