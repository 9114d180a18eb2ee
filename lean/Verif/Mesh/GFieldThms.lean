/-
C69, the theorems: see `GFieldProps`.
-/
import Verif.Mesh.GFieldProps

namespace Verif.GField
open Verif.Mesh

variable {V : Type*}

/-- The slots of a message are distinct. -/
theorem slot3_inj (g : G) {p : Int} {q q' : Int × Int × Int} (hq : q ∈ g.pts p) (hq' : q' ∈ g.pts p)
    (e : slot3 (size g.c p).2 g.nz q = slot3 (size g.c p).2 g.nz q') : q = q' := by
  unfold G.pts at hq hq'
  rw [mem_loop3] at hq hq'
  unfold slot3 at e
  obtain ⟨a, b, c⟩ := row_major_inj hq.1.1 hq.2.1 hq.2.2 hq'.1.1 hq'.2.1 hq'.2.2 e
  exact Prod.ext a (Prod.ext b c)

theorem pack_slot (g : G) (p : Int) (f : Local V) (junk : Int → V) {q : Int × Int × Int} (hq : q ∈ g.pts p) :
    g.pack p f junk (slot3 (size g.c p).2 g.nz q) =
      f ((localOrigin g.c p).1 + q.1) ((localOrigin g.c p).2 + q.2.1) q.2.2 := by
  unfold G.pack
  apply store_eq
  · intro q' h' e; rw [slot3_inj g h' hq e]
  · exact Or.inr ⟨q, hq, rfl⟩

theorem packOut_slot (g : G) (p : Int) (d junk : Int → V) {q : Int × Int × Int} (hq : q ∈ g.pts p) :
    g.packOut p d junk (slot3 (size g.c p).2 g.nz q) =
      d (g.at (q.1 + (origin g.c p).1) (q.2.1 + (origin g.c p).2) q.2.2) := by
  unfold G.packOut
  apply store_eq
  · intro q' h' e; rw [slot3_inj g h' hq e]
  · exact Or.inr ⟨q, hq, rfl⟩

/-- The looped-over form of an owned point. -/
theorem owned_q (g : G) (h : Sizes g.c) {p jx jy jz : Int} (ho : Owned g.c g.nz p jx jy jz) :
    ∃ q ∈ g.pts p, (localOrigin g.c p).1 + q.1 = jx ∧ (localOrigin g.c p).2 + q.2.1 = jy ∧ q.2.2 = jz :=
  ⟨_, (mem_pts g h p jx jy jz).2 ho, by dsimp only; omega, by dsimp only; omega, rfl⟩

/-- What `gather` leaves at a place: the value `v`, if every processor that owns a point there has `v`. -/
theorem gather_step (g : G) (h : Sizes g.c) {p : Int} (hp : Rank g.c p) (f : Local V)
    {p0 jx jy jz : Int} (hp0 : Rank g.c p0) (ho : Owned g.c g.nz p0 jx jy jz) (v : V) (hv : p = p0 → f jx jy jz = v)
    (val : Int × Int × Int → V)
    (hval : ∀ q ∈ g.pts p, val q = f ((localOrigin g.c p).1 + q.1) ((localOrigin g.c p).2 + q.2.1) q.2.2)
    (d : Int → V) (hd : d (home g.c g.nz p0 jx jy jz) = v ∨ p = p0) :
    store (g.pts p) (fun q => g.at (q.1 + (origin g.c p).1) (q.2.1 + (origin g.c p).2) q.2.2) val d
      (home g.c g.nz p0 jx jy jz) = v := by
  apply store_eq
  · intro q hq e
    rw [hval q hq]
    rw [at_home g h] at e
    obtain ⟨e1, e2, e3, e4⟩ := home_inj h hp hp0 (owned_of_mem g h hq) ho e
    rw [e2, e3, e4]; exact hv e1
  · rcases hd with hd | rfl
    · exact Or.inl hd
    · right
      obtain ⟨q, hq, e1, e2, e3⟩ := owned_q g h ho
      refine ⟨q, hq, ?_⟩
      rw [at_home g h, e1, e2, e3]

/-- **C69.** After `gather` the array on the chosen processor holds, at the documented position of every global point, the
value its owner had: for every decomposition, every root, every order of arrival, and whatever was in memory before. -/
theorem C69_gather (g : G) (h : Sizes g.c) (root : Int) (hr : Rank g.c root) (f : Int → Local V)
    (junk : Int → Int → V) (arrived : List Int) (ha : ∀ p, p ∈ arrived ↔ Rank g.c p ∧ p ≠ root) (d : Int → V)
    (p jx jy jz : Int) (hp : Rank g.c p) (ho : Owned g.c g.nz p jx jy jz) :
    g.gather root f junk arrived d
      (doc g.c g.nz (g.c.getGlobalXIndex (g.c.peX p) jx) (g.c.getGlobalYIndexNoBoundaries (g.c.peY p) jy) jz) =
        f p jx jy jz := by
  show g.gather root f junk arrived d (home g.c g.nz p jx jy jz) = _
  unfold G.gather
  have key : ∀ (l : List Int) (e : Int → V), (∀ a ∈ l, Rank g.c a) →
      (e (home g.c g.nz p jx jy jz) = f p jx jy jz ∨ p ∈ l) →
      l.foldl (fun d pe => g.unpack pe (g.pack pe (f pe) (junk pe)) d) e (home g.c g.nz p jx jy jz) = f p jx jy jz := by
    intro l
    induction l with
    | nil => intro e _ he; rcases he with he | he; exacts [he, absurd he (by simp)]
    | cons a l ih =>
      intro e hl he
      rw [List.foldl_cons]
      apply ih _ fun b hb => hl b (List.mem_cons_of_mem _ hb)
      by_cases hap : e (home g.c g.nz p jx jy jz) = f p jx jy jz ∨ a = p
      · left
        unfold G.unpack
        exact gather_step g h (hl a List.mem_cons_self) (f a) hp ho _ (fun e => by rw [e]) _
          (fun q hq => pack_slot g a (f a) (junk a) hq) e hap
      · right
        rcases he with he | he
        · exact absurd (Or.inl he) hap
        · rcases List.mem_cons.mp he with rfl | hm
          · exact absurd (Or.inr rfl) hap
          · exact hm
  apply key
  · intro a h'; exact ((ha a).1 h').1
  · by_cases e : p = root
    · left
      unfold G.copyIn
      exact gather_step g h hr (f root) hp ho _ (fun e => by rw [e]) _ (fun q _ => rfl) d (Or.inr e.symm)
    · right; exact (ha p).2 ⟨hp, e⟩

/-- **C69.** `gather` fills the whole array: every position of the `nx` by `ny` by `nz` grid has exactly one owner. -/
theorem C69_one_owner (c : Cfg) (h : Sizes c) (nz x y z : Int) (hx : 0 ≤ x ∧ x < c.nx) (hy : 0 ≤ y ∧ y < c.ny)
    (hz : 0 ≤ z ∧ z < nz) :
    ∃ p jx jy, (Rank c p ∧ Owned c nz p jx jy z ∧ c.getGlobalXIndex (c.peX p) jx = x ∧
      c.getGlobalYIndexNoBoundaries (c.peY p) jy = y) ∧
      ∀ p' jx' jy', Rank c p' → Owned c nz p' jx' jy' z → c.getGlobalXIndex (c.peX p') jx' = x →
        c.getGlobalYIndexNoBoundaries (c.peY p') jy' = y → p' = p ∧ jx' = jx ∧ jy' = jy := by
  obtain ⟨p, jx, jy, hp, ho, e1, e2⟩ := owner_exists h (nz := nz) hx hy hz
  refine ⟨p, jx, jy, ⟨hp, ho, e1, e2⟩, ?_⟩
  intro p' jx' jy' hp' ho' f1 f2
  exact owned_unique h hp' hp ho' ho (f1.trans e1.symm) (f2.trans e2.symm)

/-- **C69.** The array has as many elements as the constructor allocates, and `gather` touches nothing outside it. -/
theorem C69_gather_bounds (g : G) (h : Sizes g.c) (root : Int) (hr : Rank g.c root) (f : Int → Local V)
    (junk : Int → Int → V) (arrived : List Int) (ha : ∀ p, p ∈ arrived ↔ Rank g.c p ∧ p ≠ root) (d : Int → V)
    (a : Int) (hb : a < 0 ∨ g.c.nx * g.ny * g.nz ≤ a) : g.gather root f junk arrived d a = d a := by
  rw [ny_eq] at hb
  have step : ∀ p, Rank g.c p → ∀ (val : Int × Int × Int → V) (e : Int → V),
      store (g.pts p) (fun q => g.at (q.1 + (origin g.c p).1) (q.2.1 + (origin g.c p).2) q.2.2) val e a = e a := by
    intro p hp val e
    apply store_other
    intro q hq
    rw [at_home g h]
    obtain ⟨i1, i2, i3⟩ := owned_inside h hp (owned_of_mem g h hq)
    have := row_major_bound i1 i2 i3
    unfold home doc
    omega
  unfold G.gather
  have key : ∀ (l : List Int) (e : Int → V), (∀ b ∈ l, Rank g.c b) →
      l.foldl (fun d pe => g.unpack pe (g.pack pe (f pe) (junk pe)) d) e a = e a := by
    intro l
    induction l with
    | nil => intro e _; rfl
    | cons b l ih =>
      intro e hl
      rw [List.foldl_cons]
      refine (ih _ fun b hb => hl b (List.mem_cons_of_mem _ hb)).trans ?_
      unfold G.unpack
      exact step b (hl b List.mem_cons_self) _ e
  refine (key _ _ fun b hb => ((ha b).1 hb).1).trans ?_
  unfold G.copyIn
  exact step root hr _ d

/-- **C69.** Messages: the buffer for processor `p` has room for exactly the points of `p`, every point has its own slot, and
the slots of `GlobalField2D` are those of `GlobalField3D` with one Z point. -/
theorem C69_messages (g : G) (p : Int) :
    (∀ q ∈ g.pts p, 0 ≤ slot3 (size g.c p).2 g.nz q ∧ slot3 (size g.c p).2 g.nz q < g.msgLen p) ∧
    (∀ q ∈ g.pts p, ∀ q' ∈ g.pts p, slot3 (size g.c p).2 g.nz q = slot3 (size g.c p).2 g.nz q' → q = q') ∧
    (∀ x y, slot2 (size g.c p).2 x y = slot3 (size g.c p).2 1 (x, y, 0)) := by
  refine ⟨?_, fun q hq q' hq' e => slot3_inj g hq hq' e, ?_⟩
  · intro q hq
    unfold G.pts at hq
    rw [mem_loop3] at hq
    exact row_major_bound hq.1 hq.2.1 hq.2.2
  · intro x y; unfold slot2 slot3; ring

/-- **C69.** After `scatter` every processor has, at each point it owns, the value of the global array there; its other points
are left as allocated. -/
theorem C69_scatter (g : G) (h : Sizes g.c) (root : Int) (d : Int → V) (junk : Int → Int → V) (new : Local V)
    (p jx jy jz : Int) (hp : Rank g.c p) :
    (Owned g.c g.nz p jx jy jz → g.scatter root d junk p new jx jy jz =
      d (doc g.c g.nz (g.c.getGlobalXIndex (g.c.peX p) jx) (g.c.getGlobalYIndexNoBoundaries (g.c.peY p) jy) jz)) ∧
    (¬ Owned g.c g.nz p jx jy jz → g.scatter root d junk p new jx jy jz = new jx jy jz) := by
  have hval : ∀ q ∈ g.pts p,
      (if p = root then fun q : Int × Int × Int => d (g.at (q.1 + (origin g.c p).1) (q.2.1 + (origin g.c p).2) q.2.2)
        else fun q => g.packOut p d (junk p) (slot3 (size g.c p).2 g.nz q)) q =
      d (home g.c g.nz p ((localOrigin g.c p).1 + q.1) ((localOrigin g.c p).2 + q.2.1) q.2.2) := by
    intro q hq
    rw [← at_home g h]
    by_cases e : p = root
    · rw [if_pos e]
    · rw [if_neg e]; exact packOut_slot g p d (junk p) hq
  constructor
  · intro ho
    unfold G.scatter
    apply storeL_eq
    · intro q hq e
      rw [hval q hq]
      simp only [Prod.mk.injEq] at e
      rw [e.1, e.2.1, e.2.2]; rfl
    · right
      obtain ⟨q, hq, e1, e2, e3⟩ := owned_q g h ho
      exact ⟨q, hq, by rw [e1, e2, e3]⟩
  · intro hn
    unfold G.scatter
    apply storeL_other
    intro q hq e
    simp only [Prod.mk.injEq] at e
    have := owned_of_mem g h hq
    rw [e.1, e.2.1, e.2.2] at this
    exact hn this

/-- **C69.** Gathering a field and scattering it gives every processor its own values back. -/
theorem C69_gather_scatter (g : G) (h : Sizes g.c) (root : Int) (hr : Rank g.c root) (f : Int → Local V)
    (junk junk' : Int → Int → V) (arrived : List Int) (ha : ∀ p, p ∈ arrived ↔ Rank g.c p ∧ p ≠ root) (d : Int → V)
    (new : Local V) (p jx jy jz : Int) (hp : Rank g.c p) (ho : Owned g.c g.nz p jx jy jz) :
    g.scatter root (g.gather root f junk arrived d) junk' p new jx jy jz = f p jx jy jz := by
  rw [(C69_scatter g h root _ junk' new p jx jy jz hp).1 ho]
  exact C69_gather g h root hr f junk arrived ha d p jx jy jz hp ho

/-- **C69.** Scattering an array and gathering the pieces gives the whole array back. -/
theorem C69_scatter_gather (g : G) (h : Sizes g.c) (root : Int) (hr : Rank g.c root) (d d' : Int → V)
    (junk junk' : Int → Int → V) (new : Int → Local V) (arrived : List Int)
    (ha : ∀ p, p ∈ arrived ↔ Rank g.c p ∧ p ≠ root) (x y z : Int) (hx : 0 ≤ x ∧ x < g.c.nx)
    (hy : 0 ≤ y ∧ y < g.c.ny) (hz : 0 ≤ z ∧ z < g.nz) :
    g.gather root (fun p => g.scatter root d junk p (new p)) junk' arrived d' (doc g.c g.nz x y z) =
      d (doc g.c g.nz x y z) := by
  obtain ⟨p, jx, jy, hp, ho, e1, e2⟩ := owner_exists h (nz := g.nz) hx hy hz
  have a := C69_gather g h root hr (fun p => g.scatter root d junk p (new p)) junk' arrived ha d' p jx jy z hp ho
  rw [e1, e2] at a
  rw [a, (C69_scatter g h root d junk (new p) p jx jy z hp).1 ho, e1, e2]

/-- **C69.** `operator()(x, y, z)` of the global field reads the documented position. -/
theorem C69_access (g : G) (x y z : Int) : g.at x y z = doc g.c g.nz x y z := at_eq g x y z

/-- **C69, what fails.** The Y guard cells are not gathered: nothing a processor holds outside its own rows `ystart … yend`
has any effect on the result. -/
theorem C69_guards_not_gathered (g : G) (h : Sizes g.c) (root : Int) (hr : Rank g.c root) (f f' : Int → Local V)
    (junk : Int → Int → V) (arrived : List Int) (ha : ∀ p, p ∈ arrived ↔ Rank g.c p ∧ p ≠ root) (d : Int → V)
    (same : ∀ p jx jy jz, Owned g.c g.nz p jx jy jz → f p jx jy jz = f' p jx jy jz)
    (x y z : Int) (hx : 0 ≤ x ∧ x < g.c.nx) (hy : 0 ≤ y ∧ y < g.c.ny) (hz : 0 ≤ z ∧ z < g.nz) :
    g.gather root f junk arrived d (doc g.c g.nz x y z) = g.gather root f' junk arrived d (doc g.c g.nz x y z) := by
  obtain ⟨p, jx, jy, hp, ho, e1, e2⟩ := owner_exists h (nz := g.nz) hx hy hz
  have a := C69_gather g h root hr f junk arrived ha d p jx jy z hp ho
  have b := C69_gather g h root hr f' junk arrived ha d p jx jy z hp ho
  rw [e1, e2] at a b
  rw [a, b, same p jx jy z ho]

theorem demo_sizes : Sizes demo34 := ⟨by decide, by decide, by decide, by decide, by decide, rfl⟩

example : Rank demo34 7 ∧ Owned demo34 5 7 2 3 4 ∧ Owned demo34 5 6 0 3 4 ∧ ¬ Owned demo34 5 7 0 3 4 ∧
    Owned demo34 5 8 6 3 4 ∧ (G.mk demo34 5).ny = 32 := by
  unfold Rank Owned; decide

example : ∃ arrived : List Int, ∀ p, p ∈ arrived ↔ Rank demo34 p ∧ p ≠ 4 :=
  ⟨(rng 12).filter (· ≠ 4), fun p => by
    have e : demo34.NXPE * demo34.NYPE = 12 := by decide
    unfold Rank; rw [List.mem_filter, mem_rng, e]; simp⟩

end Verif.GField
