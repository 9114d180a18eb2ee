import Verif.Solver.VarsProps
import Mathlib.Tactic.Linarith

namespace Verif.Vars

/-- `L` lists every evolving number exactly once, and is the order in which `save_vars` writes them: for every content of
the fields and every vector of at least `getLocalN()` entries, entry `k` becomes the value of `L[k]` and the entries after
the first `getLocalN()` do not change. -/
structure IsLayout (S : Solver) (L : List Slot) : Prop where
  nodup : L.Nodup
  mem : ∀ s, s ∈ L ↔ Evolves S s
  length : L.length = getLocalN S
  save : ∀ (V : Type) (st : St V) (u : List V), getLocalN S ≤ u.length →
    saveVars S st u = some (L.map (val S.nz st) ++ u.drop (getLocalN S))

def idSt (nz : Nat) : St Slot where
  v2 := fun i pt => .s2 i pt
  d2 := fun i pt => .s2 i pt
  v3 := fun i k => .s3 i (k / nz) (k % nz)
  d3 := fun i k => .s3 i (k / nz) (k % nz)

/-- A slot whose z index is in range. -/
def InZ (nz : Nat) : Slot → Prop
  | .s2 _ _ => True
  | .s3 _ _ z => z < nz

theorem addr_div {nz pt z : Nat} (hz : z < nz) : (pt * nz + z) / nz = pt := by
  rw [Nat.mul_comm, Nat.mul_add_div (by omega), Nat.div_eq_of_lt hz]; rfl
theorem addr_mod {nz pt z : Nat} (hz : z < nz) : (pt * nz + z) % nz = z := by
  rw [Nat.mul_comm, Nat.mul_add_mod, Nat.mod_eq_of_lt hz]

theorem val_idSt (nz : Nat) (s : Slot) (h : InZ nz s) : val nz (idSt nz) s = s := by
  cases s with
  | s2 i pt => rfl
  | s3 i pt z => simp only [val, idSt, addr_div h, addr_mod h]

theorem layout_inZ (S : Solver) (s : Slot) (hs : s ∈ layout S) : InZ S.nz s := by
  rw [mem_layout] at hs
  cases s with
  | s2 i pt => trivial
  | s3 i pt z => exact hs.1

theorem map_idSt (S : Solver) (L : List Slot) (h : ∀ s ∈ L, InZ S.nz s) : L.map (val S.nz (idSt S.nz)) = L := by
  conv_rhs => rw [← List.map_id L]
  exact List.map_congr_left (fun s hs => val_idSt S.nz s (h s hs))

theorem isLayout_unique (S : Solver) (h : Ok S) (L : List Slot) (hL : IsLayout S L) : L = layout S := by
  have h1 := hL.save Slot (idSt S.nz) (List.replicate (getLocalN S) (.s2 0 0)) (by simp)
  rw [saveVars_eq S h _ _ (by simp)] at h1
  simp only [Option.some.injEq, List.drop_replicate, Nat.sub_self, List.replicate_zero, List.append_nil] at h1
  rw [map_idSt S _ (layout_inZ S), map_idSt S L] at h1
  · exact h1.symm
  · intro s hs; exact layout_inZ S s ((mem_layout S s).mpr ((hL.mem s).mp hs))

/-- The flat vector has exactly one entry per evolving number, `getLocalN()` in all, and `save_vars` never writes outside
it. -/
theorem C25_layout (S : Solver) (h : Ok S) : ∃ L, IsLayout S L :=
  ⟨layout S, layout_nodup S h, mem_layout S, layout_length S h, fun _ st u hu => saveVars_eq S h st u hu⟩

/-- The order is the same whatever is saved: time derivatives and equation types go to the entries of their variables. -/
theorem C25_saves (S : Solver) (h : Ok S) (L : List Slot) (hL : IsLayout S L) {V : Type} (st : St V) (u : List V)
    (hu : getLocalN S ≤ u.length) (zero one : V) :
    saveDerivs S st u = some (L.map (der S.nz st) ++ u.drop (getLocalN S)) ∧
    setId zero one S st u = some (L.map (fun s => if isConstraint S s then zero else one) ++ u.drop (getLocalN S)) := by
  rw [isLayout_unique S h L hL]
  exact ⟨saveDerivs_eq S h st u hu, setId_eq zero one S h st u hu⟩

/-! ## Loading -/

variable {V : Type}

theorem foldl_set (nz : Nat) : ∀ (L : List Slot), L.Nodup → (∀ s ∈ L, InZ nz s) → ∀ (ys : List V) (st : St V),
    L.length ≤ ys.length →
    let st' := (L.zip ys).foldl (fun st sy => setV nz st sy.1 sy.2) st
    (∀ (k : Nat) (s : Slot) (y : V), L[k]? = some s → ys[k]? = some y → val nz st' s = y) ∧
    (∀ i pt, Slot.s2 i pt ∉ L → st'.v2 i pt = st.v2 i pt) ∧
    (∀ i k, Slot.s3 i (k / nz) (k % nz) ∉ L → st'.v3 i k = st.v3 i k) ∧
    st'.d2 = st.d2 ∧ st'.d3 = st.d3 := by
  intro L
  induction L with
  | nil => intro _ _ ys st _; simp
  | cons s L ih =>
    intro hn hz ys st hlen
    cases ys with
    | nil => simp at hlen
    | cons y ys =>
      rw [List.nodup_cons] at hn
      obtain ⟨i1, i2, i3, i4, i5⟩ := ih hn.2 (fun s hs => hz s (by simp [hs])) ys (setV nz st s y) (by simpa using hlen)
      intro st'
      have hst : st' = (L.zip ys).foldl (fun st sy => setV nz st sy.1 sy.2) (setV nz st s y) := by
        simp only [st', List.zip_cons_cons, List.foldl_cons]
      rw [← hst] at i1 i2 i3 i4 i5
      refine ⟨?_, ?_, ?_, ?_, ?_⟩
      · intro k s' y' hs hy
        cases k with
        | succ k => exact i1 k s' y' (by simpa using hs) (by simpa using hy)
        | zero =>
          simp only [List.getElem?_cons_zero, Option.some.injEq] at hs hy
          subst hs; subst hy
          cases s with
          | s2 i pt => simp only [val]; rw [i2 i pt hn.1]; simp [setV, upd]
          | s3 i pt z =>
            have hzz : z < nz := hz (.s3 i pt z) (by simp)
            simp only [val]
            rw [i3 i (pt * nz + z) (by rw [addr_div hzz, addr_mod hzz]; exact hn.1)]
            simp [setV, upd, ind2Dto3D]
      · intro i pt hni
        rw [List.mem_cons, not_or] at hni
        rw [i2 i pt hni.2]
        cases s with
        | s2 i' pt' =>
          simp only [setV, upd]
          rw [if_neg]; rintro ⟨rfl, rfl⟩; exact hni.1 rfl
        | s3 i' pt' z' => rfl
      · intro i k hni
        rw [List.mem_cons, not_or] at hni
        rw [i3 i k hni.2]
        cases s with
        | s2 i' pt' => rfl
        | s3 i' pt' z' =>
          have hzz : z' < nz := hz (.s3 i' pt' z') (by simp)
          simp only [setV, upd, ind2Dto3D]
          rw [if_neg]; rintro ⟨rfl, rfl⟩
          exact hni.1 (by rw [addr_div hzz, addr_mod hzz])
      · rw [i4]; cases s <;> rfl
      · rw [i5]; cases s <;> rfl

/-- Exchange values and time derivatives. -/
def St.swap (st : St V) : St V := { v2 := st.d2, d2 := st.v2, v3 := st.d3, d3 := st.v3 }

theorem setD_swap (nz : Nat) (st : St V) (s : Slot) (y : V) : (setD nz st s y).swap = setV nz st.swap s y := by
  cases s <;> rfl

theorem foldl_setD_swap (nz : Nat) (l : List (Slot × V)) (st : St V) :
    (l.foldl (fun st sy => setD nz st sy.1 sy.2) st).swap = l.foldl (fun st sy => setV nz st sy.1 sy.2) st.swap := by
  induction l generalizing st with
  | nil => rfl
  | cons a l ih => rw [List.foldl_cons, List.foldl_cons, ih, setD_swap]

/-- `load_vars` puts entry `k` of the vector into the variable `L[k]` and changes no other element of any field and no time
derivative. -/
theorem C25_load_vars (S : Solver) (h : Ok S) (L : List Slot) (hL : IsLayout S L) (st : St V) (u : List V)
    (hu : getLocalN S ≤ u.length) :
    ∃ st', loadVars S st u = some st' ∧
      (∀ (k : Nat) (s : Slot) (y : V), L[k]? = some s → u[k]? = some y → val S.nz st' s = y) ∧
      (∀ i pt, Slot.s2 i pt ∉ L → st'.v2 i pt = st.v2 i pt) ∧
      (∀ i k, Slot.s3 i (k / S.nz) (k % S.nz) ∉ L → st'.v3 i k = st.v3 i k) ∧
      st'.d2 = st.d2 ∧ st'.d3 = st.d3 := by
  have hl := isLayout_unique S h L hL
  subst hl
  have hlen := layout_length S h
  refine ⟨_, ?_, foldl_set S.nz (layout S) hL.nodup (layout_inZ S) u st (by omega)⟩
  rw [loadVars, loop_loadVars, foldlM_load (setV S.nz) (layout S) st u 0 (by omega)]
  simp

/-- `load_derivs` puts entry `k` of the vector into the time derivative of `L[k]` and changes nothing else. -/
theorem C25_load_derivs (S : Solver) (h : Ok S) (L : List Slot) (hL : IsLayout S L) (st : St V) (u : List V)
    (hu : getLocalN S ≤ u.length) :
    ∃ st', loadDerivs S st u = some st' ∧
      (∀ (k : Nat) (s : Slot) (y : V), L[k]? = some s → u[k]? = some y → der S.nz st' s = y) ∧
      (∀ i pt, Slot.s2 i pt ∉ L → st'.d2 i pt = st.d2 i pt) ∧
      (∀ i k, Slot.s3 i (k / S.nz) (k % S.nz) ∉ L → st'.d3 i k = st.d3 i k) ∧
      st'.v2 = st.v2 ∧ st'.v3 = st.v3 := by
  have hl := isLayout_unique S h L hL
  subst hl
  have hlen := layout_length S h
  obtain ⟨a1, a2, a3, a4, a5⟩ := foldl_set S.nz (layout S) hL.nodup (layout_inZ S) u st.swap (by omega)
  rw [← foldl_setD_swap] at a1 a2 a3 a4 a5
  refine ⟨((layout S).zip u).foldl (fun st (sy : Slot × V) => setD S.nz st sy.1 sy.2) st, ?_, ?_, a2, a3, a4, a5⟩
  · rw [loadDerivs, loop_loadDerivs, foldlM_load (setD S.nz) (layout S) st u 0 (by omega)]
    simp
  · intro k s y hs hy
    have := a1 k s y hs hy
    cases s <;> exact this

theorem st_ext (a b : St V) (h1 : ∀ i k, a.v2 i k = b.v2 i k) (h2 : a.d2 = b.d2) (h3 : ∀ i k, a.v3 i k = b.v3 i k)
    (h4 : a.d3 = b.d3) : a = b := by
  cases a; cases b
  simp only [St.mk.injEq]
  exact ⟨funext fun i => funext fun k => h1 i k, h2, funext fun i => funext fun k => h3 i k, h4⟩

/-- Saving the variables, doing anything at all to the variables, and loading again restores every evolving number; if
nothing was done it is the identity on the fields. -/
theorem C25_save_load (S : Solver) (h : Ok S) (st st1 : St V) (u : List V) (hu : getLocalN S ≤ u.length) :
    ∃ w st', saveVars S st u = some w ∧ loadVars S st1 w = some st' ∧
      (∀ s, Evolves S s → val S.nz st' s = val S.nz st s) ∧ (st1 = st → st' = st) := by
  obtain ⟨L, hL⟩ := C25_layout S h
  have hs := hL.save V st u hu
  have hlen := hL.length
  obtain ⟨st', e1, e2, e3, e4, e5, e6⟩ := C25_load_vars S h L hL st1 (L.map (val S.nz st) ++ u.drop (getLocalN S)) (by
    simp only [List.length_append, List.length_map]; omega)
  have hev : ∀ s, s ∈ L → val S.nz st' s = val S.nz st s := by
    intro s hsL
    obtain ⟨k, hk⟩ := List.mem_iff_getElem?.mp hsL
    refine e2 k s _ hk ?_
    have hkl : k < L.length := by
      by_contra hc
      rw [List.getElem?_eq_none (by omega)] at hk; simp at hk
    rw [List.getElem?_append_left (by simpa using hkl), List.getElem?_map, hk]; rfl
  refine ⟨_, st', hs, e1, fun s hev' => hev s ((hL.mem s).mpr hev'), ?_⟩
  rintro rfl
  apply st_ext _ _ _ e5 _ e6
  · intro i pt
    by_cases hm : Slot.s2 i pt ∈ L
    · exact hev _ hm
    · exact e3 i pt hm
  · intro i k
    by_cases hm : Slot.s3 i (k / S.nz) (k % S.nz) ∈ L
    · have := hev _ hm
      simp only [val] at this
      have hk : k / S.nz * S.nz + k % S.nz = k := by rw [Nat.mul_comm]; exact Nat.div_add_mod k S.nz
      rw [hk] at this; exact this
    · exact e4 i k hm

/-- Loading a vector and saving again gives the vector back. -/
theorem C25_load_save (S : Solver) (h : Ok S) (st : St V) (u u' : List V) (hu : u.length = getLocalN S)
    (hu' : u'.length = getLocalN S) :
    ∃ st', loadVars S st u = some st' ∧ saveVars S st' u' = some u := by
  obtain ⟨L, hL⟩ := C25_layout S h
  obtain ⟨st', e1, e2, _⟩ := C25_load_vars S h L hL st u (by omega)
  refine ⟨st', e1, ?_⟩
  rw [hL.save V st' u' (by omega), List.drop_eq_nil_of_le (by omega), List.append_nil]
  congr 1
  apply List.ext_getElem
  · simp [hL.length, hu]
  · intro k h1 h2
    rw [List.getElem_map]
    exact e2 k _ _ (List.getElem?_eq_getElem _) (List.getElem?_eq_getElem _)

/-! ## Split right-hand side -/

/-- With a split operator, `run_rhs` gives every evolving number the sum of its two time derivatives, the second evaluated
on the variables as they were before the first (elements that do not evolve keep what the first evaluation left); it
neither reads nor writes outside its temporary arrays. -/
theorem C25_split_rhs [Add V] (S : Solver) (h : Ok S) (junk : V) (pre conv diff post : St V → St V) (st : St V) :
    ∃ st2 st', runRhsSplit S junk pre conv diff post st = some st' ∧
      (∀ s, Evolves S s → val S.nz st2 s = val S.nz st s) ∧
      (∀ i pt, ¬ Evolves S (.s2 i pt) → st2.v2 i pt = (post (conv (pre st))).v2 i pt) ∧
      (∀ i k, ¬ Evolves S (.s3 i (k / S.nz) (k % S.nz)) → st2.v3 i k = (post (conv (pre st))).v3 i k) ∧
      (∀ s, Evolves S s →
        der S.nz st' s = der S.nz (post (conv (pre st))) s + der S.nz (post (diff (pre st2))) s) ∧
      st'.v2 = (post (diff (pre st2))).v2 ∧ st'.v3 = (post (diff (pre st2))).v3 := by
  obtain ⟨L, hL⟩ := C25_layout S h
  have hlen := hL.length
  have hpos : ∀ s, Evolves S s → ∃ k, L[k]? = some s ∧ k < L.length := by
    intro s hs
    obtain ⟨k, hk⟩ := List.mem_iff_getElem?.mp ((hL.mem s).mpr hs)
    refine ⟨k, hk, ?_⟩
    by_contra hc
    rw [List.getElem?_eq_none (by omega)] at hk; simp at hk
  have s1 := hL.save V st (List.replicate (getLocalN S) junk) (by simp)
  rw [List.drop_replicate, Nat.sub_self, List.replicate_zero, List.append_nil] at s1
  obtain ⟨st2, l1, l2, l3, l4, l5, l6⟩ := C25_load_vars S h L hL (post (conv (pre st))) (L.map (val S.nz st)) (by simp [hlen])
  have s2 := (C25_saves S h L hL st2 (L.map (val S.nz st)) (by simp [hlen]) junk junk).1
  rw [List.drop_eq_nil_of_le (by simp [hlen]), List.append_nil] at s2
  have s3 := (C25_saves S h L hL (post (diff (pre st2))) (List.replicate (getLocalN S) junk) (by simp) junk junk).1
  rw [List.drop_replicate, Nat.sub_self, List.replicate_zero, List.append_nil] at s3
  obtain ⟨st', d1, d2, d3, d4, d5, d6⟩ := C25_load_derivs S h L hL (post (diff (pre st2)))
    (List.zipWith (· + ·) (L.map (der S.nz st2)) (L.map (der S.nz (post (diff (pre st2)))))) (by simp [hlen])
  refine ⟨st2, st', ?_, ?_, ?_, ?_, ?_, d5, d6⟩
  · simp only [runRhsSplit, s1, l1, s2, s3, Option.bind_eq_bind, Option.bind_some]
    exact d1
  · intro s hs
    obtain ⟨k, hk, hkl⟩ := hpos s hs
    exact l2 k s _ hk (by rw [List.getElem?_map, hk]; rfl)
  · intro i pt hn; exact l3 i pt (fun hm => hn ((hL.mem _).mp hm))
  · intro i k hn; exact l4 i k (fun hm => hn ((hL.mem _).mp hm))
  · intro s hs
    obtain ⟨k, hk, hkl⟩ := hpos s hs
    have := d2 k s (der S.nz st2 s + der S.nz (post (diff (pre st2))) s) hk (by
      rw [List.getElem?_zipWith, List.getElem?_map, List.getElem?_map, hk]; rfl)
    rw [this]
    congr 1
    cases s with
    | s2 i pt => simp only [der, l5]
    | s3 i pt z => simp only [der, l6]

/-! ## Global index -/

def blk (t : Nat × Nat × List Slot) : List Slot := t.2.2
def putT (nz : Nat) (g : GI) (t : Nat × Nat × List Slot) : GI := g.put (t.1 * nz + t.2.1) t.2.2.length

def triples (S : Solver) (b : Bool) (pt : Nat) : List (Nat × Nat × List Slot) :=
  (List.range S.nz).map (fun z => (pt, z, block S b pt z))

theorem block_length (S : Solver) (b : Bool) (pt z : Nat) :
    (block S b pt z).length = (if z = 0 then (S.f2d.zipIdx.filter (on b)).length else 0) + (S.f3d.zipIdx.filter (on b)).length := by
  simp only [block, List.length_append, row3, List.length_map]
  split <;> simp [row2]

theorem range_cons (n : Nat) (h : 0 < n) : List.range n = 0 :: List.range' 1 (n - 1) := by
  rw [List.range_eq_range']
  obtain ⟨m, rfl⟩ : ∃ m, n = m + 1 := ⟨n - 1, by omega⟩
  rfl

theorem giPoint_triples (S : Solver) (hz : 0 < S.nz) (b : Bool) (n2 n3 : Nat) (h2 : (S.f2d.zipIdx.filter (on b)).length = n2)
    (h3 : (S.f3d.zipIdx.filter (on b)).length = n3) (g : GI) (pt : Nat) :
    giPoint S.nz n2 n3 g pt = (triples S b pt).foldl (putT S.nz) g := by
  rw [triples, List.foldl_map, range_cons S.nz hz, List.foldl_cons, giPoint]
  have h0 : putT S.nz g (pt, 0, block S b pt 0) = g.put (ind2Dto3D S.nz pt 0) (n2 + n3) := by
    simp [putT, block_length, h2, h3, ind2Dto3D]
  rw [h0]
  generalize g.put _ _ = g'
  have gen : ∀ (l : List Nat) (g : GI), (∀ z ∈ l, z ≠ 0) →
      l.foldl (fun g jz => g.put (ind2Dto3D S.nz pt jz) n3) g =
      l.foldl (fun x y => putT S.nz x (pt, y, block S b pt y)) g := by
    intro l
    induction l with
    | nil => intro g _; rfl
    | cons a l ih =>
      intro g ha
      rw [List.foldl_cons, List.foldl_cons, ih _ (fun z hz => ha z (by simp [hz]))]
      have : g.put (ind2Dto3D S.nz pt a) n3 = putT S.nz g (pt, a, block S b pt a) := by
        simp [putT, block_length, h3, ind2Dto3D, ha a (by simp)]
      rw [this]
  apply gen
  intro z hz'
  rw [List.mem_range'_1] at hz'; omega

theorem triples_flat (S : Solver) (hz : 0 < S.nz) (b : Bool) (pt : Nat) : (triples S b pt).flatMap blk = col S b pt := by
  rw [triples, List.flatMap_map, col, range_cons S.nz hz]
  simp only [List.flatMap_cons, blk, block, if_true]
  rw [List.append_assoc]
  congr 2
  apply List.flatMap_congr
  intro z hz'
  rw [List.mem_range'_1] at hz'
  rw [if_neg (by omega)]; rfl

/-- The keys in the order of the loops. -/
def allT (S : Solver) : List (Nat × Nat × List Slot) :=
  (if S.f2d.countP (fun f => f.evolveBndry) + S.f3d.countP (fun f => f.evolveBndry) > 0 then S.bndry2.flatMap (triples S true)
    else []) ++ S.nobndry2.flatMap (triples S false)

theorem foldl_flatMap' {A B G : Type} (f : G → B → G) (k : A → List B) (l : List A) (g : G) :
    (l.flatMap k).foldl f g = l.foldl (fun g a => (k a).foldl f g) g := by
  induction l generalizing g with
  | nil => rfl
  | cons a l ih => rw [List.flatMap_cons, List.foldl_append, List.foldl_cons, ih]

theorem globalIndex_eq (S : Solver) (hz : 0 < S.nz) (start : Int) :
    globalIndex S start = (allT S).foldl (putT S.nz) { index := fun _ => -1, ind := start } := by
  rw [allT, List.foldl_append, globalIndex]
  have hf : giPoint S.nz S.f2d.length S.f3d.length = fun g pt => (triples S false pt).foldl (putT S.nz) g := by
    funext g pt; exact giPoint_triples S hz false _ _ (filter_on_false _) (filter_on_false _) g pt
  have ht : giPoint S.nz (S.f2d.countP (fun f => f.evolveBndry)) (S.f3d.countP (fun f => f.evolveBndry)) =
      fun g pt => (triples S true pt).foldl (putT S.nz) g := by
    funext g pt; exact giPoint_triples S hz true _ _ (filter_on_true _) (filter_on_true _) g pt
  simp only [hf, ht]
  rw [foldl_flatMap']
  congr 1
  split
  · rw [foldl_flatMap']
  · rfl

theorem allT_flat (S : Solver) (hz : 0 < S.nz) : (allT S).flatMap blk = layout S := by
  rw [allT, List.flatMap_append, layout]
  have h1 : ∀ b (l : List Nat), (l.flatMap (triples S b)).flatMap blk = l.flatMap (col S b) := by
    intro b l
    rw [List.flatMap_assoc]
    exact List.flatMap_congr (fun pt _ => triples_flat S hz b pt)
  rw [h1]
  congr 1
  split
  · exact h1 _ _
  · rename_i hc
    symm
    rw [List.flatMap_nil, List.flatMap_eq_nil_iff]
    intro pt _
    apply List.eq_nil_of_length_eq_zero
    rw [col_length, filter_on_true, filter_on_true]
    have c1 : S.f2d.countP (fun f => f.evolveBndry) = 0 := by omega
    have c2 : S.f3d.countP (fun f => f.evolveBndry) = 0 := by omega
    rw [c1, c2]; simp

theorem allT_mem (S : Solver) (t : Nat × Nat × List Slot) (ht : t ∈ allT S) :
    t.2.1 < S.nz ∧ (t.1 ∈ S.bndry2 ∨ t.1 ∈ S.nobndry2) ∧ ∀ s ∈ blk t, At t.1 t.2.1 s := by
  have key : ∀ b (l : List Nat), t ∈ l.flatMap (triples S b) → t.2.1 < S.nz ∧ t.1 ∈ l ∧ ∀ s ∈ blk t, At t.1 t.2.1 s := by
    intro b l h
    simp only [List.mem_flatMap, triples, List.mem_map, List.mem_range] at h
    obtain ⟨pt, hpt, z, hz, rfl⟩ := h
    refine ⟨hz, hpt, ?_⟩
    intro s hs
    simp only [blk, block, List.mem_append] at hs
    rcases hs with hs | hs
    · split at hs
      · rw [mem_row2] at hs
        rename_i h0
        obtain ⟨i, f, rfl, _⟩ := hs
        exact ⟨rfl, h0⟩
      · simp at hs
    · rw [mem_row3] at hs
      obtain ⟨i, f, rfl, _⟩ := hs
      exact ⟨rfl, rfl⟩
  rw [allT, List.mem_append] at ht
  rcases ht with ht | ht
  · split at ht
    · obtain ⟨a, b, c⟩ := key _ _ ht; exact ⟨a, Or.inl b, c⟩
    · simp at ht
  · obtain ⟨a, b, c⟩ := key _ _ ht; exact ⟨a, Or.inr b, c⟩

theorem allT_pairwise (S : Solver) (h : Ok S) : (allT S).Pairwise (fun a c => ¬ (a.1 = c.1 ∧ a.2.1 = c.2.1)) := by
  have one : ∀ b pt, (triples S b pt).Pairwise (fun a c => ¬ (a.1 = c.1 ∧ a.2.1 = c.2.1)) := by
    intro b pt
    rw [triples, List.pairwise_map]
    refine (List.nodup_range (n := S.nz)).imp ?_
    intro z z' hne hh; exact hne hh.2
  have fst : ∀ b pt t, t ∈ triples S b pt → t.1 = pt := by
    intro b pt t ht
    simp only [triples, List.mem_map] at ht
    obtain ⟨z, _, rfl⟩ := ht; rfl
  have many : ∀ b (l : List Nat), l.Nodup → (l.flatMap (triples S b)).Pairwise (fun a c => ¬ (a.1 = c.1 ∧ a.2.1 = c.2.1)) := by
    intro b l hl
    rw [List.pairwise_flatMap]
    refine ⟨fun pt _ => one b pt, hl.imp ?_⟩
    intro p q hne a ha c hc hh
    rw [fst b p a ha, fst b q c hc] at hh
    exact hne hh.1
  rw [allT, List.pairwise_append]
  refine ⟨?_, many _ _ h.nobnd, ?_⟩
  · split
    · exact many _ _ h.bnd
    · exact List.Pairwise.nil
  · intro a ha c hc hh
    split at ha
    · simp only [List.mem_flatMap] at ha hc
      obtain ⟨p, hp, ha⟩ := ha
      obtain ⟨q, hq, hc⟩ := hc
      rw [fst _ p a ha, fst _ q c hc] at hh
      exact h.disj p hp (hh.1 ▸ hq)
    · simp at ha

theorem foldl_putT_other (nz : Nat) (l : List (Nat × Nat × List Slot)) (g : GI) (k : Nat)
    (hk : ∀ t ∈ l, t.1 * nz + t.2.1 ≠ k) : (l.foldl (putT nz) g).index k = g.index k := by
  induction l generalizing g with
  | nil => rfl
  | cons t l ih =>
    rw [List.foldl_cons, ih _ (fun t ht => hk t (by simp [ht]))]
    simp only [putT, GI.put]
    rw [if_neg (fun h => hk t (by simp) h.symm)]

theorem foldl_putT_ind (nz : Nat) (l : List (Nat × Nat × List Slot)) (g : GI) :
    (l.foldl (putT nz) g).ind = g.ind + ((l.flatMap blk).length : Int) := by
  induction l generalizing g with
  | nil => simp
  | cons t l ih =>
    rw [List.foldl_cons, ih, List.flatMap_cons, List.length_append]
    simp only [putT, GI.put, blk]
    push_cast; ring

/-- The counter ends at the start plus the number of local unknowns (the code's own assertion). -/
theorem C25_globalIndex_total (S : Solver) (h : Ok S) (start : Int) :
    (globalIndex S start).ind = start + getLocalN S := by
  rw [globalIndex_eq S h.nz_pos, foldl_putT_ind, allT_flat S h.nz_pos, layout_length S h]

/-- `globalIndex(start)` at a grid point where something evolves is `start` plus the position in the solver's vector of the
first number stored there; at points outside the evolving regions it is -1. -/
theorem C25_globalIndex (S : Solver) (h : Ok S) (L : List Slot) (hL : IsLayout S L) (start : Int) (pt z : Nat)
    (hz : z < S.nz) :
    ((∃ s, Evolves S s ∧ At pt z s) →
      ∃ (k : Nat) (s : Slot), (globalIndex S start).index (pt * S.nz + z) = start + k ∧ L[k]? = some s ∧ At pt z s ∧
        ∀ (j : Nat) (s' : Slot), j < k → L[j]? = some s' → ¬ At pt z s') ∧
    (pt ∉ S.bndry2 → pt ∉ S.nobndry2 → (globalIndex S start).index (pt * S.nz + z) = -1) := by
  have hl := isLayout_unique S h L hL
  subst hl
  rw [globalIndex_eq S h.nz_pos]
  constructor
  · rintro ⟨s, hs, hat⟩
    have hs' : s ∈ (allT S).flatMap blk := by rw [allT_flat S h.nz_pos, mem_layout]; exact hs
    rw [List.mem_flatMap] at hs'
    obtain ⟨t, ht, hst⟩ := hs'
    have htm := allT_mem S t ht
    have heq : t.1 = pt ∧ t.2.1 = z := by
      have := htm.2.2 s hst
      cases s with
      | s2 i p => simp only [At] at this hat; omega
      | s3 i p z' => simp only [At] at this hat; omega
    obtain ⟨A, B, hAB⟩ := List.append_of_mem ht
    have hpw := allT_pairwise S h
    rw [hAB, List.pairwise_append, List.pairwise_cons] at hpw
    obtain ⟨_, ⟨hB, _⟩, hA⟩ := hpw
    have hkey : ∀ t' ∈ allT S, t'.1 * S.nz + t'.2.1 = pt * S.nz + z → t'.1 = t.1 ∧ t'.2.1 = t.2.1 := by
      intro t' ht' he
      have hz' := (allT_mem S t' ht').1
      rw [heq.1, heq.2]
      constructor
      · rw [← addr_div (pt := t'.1) hz', he, addr_div hz]
      · rw [← addr_mod (pt := t'.1) hz', he, addr_mod hz]
    have hidx : ((allT S).foldl (putT S.nz) { index := fun _ => -1, ind := start }).index (pt * S.nz + z) =
        start + ((A.flatMap blk).length : Int) := by
      rw [hAB, List.foldl_append, List.foldl_cons, foldl_putT_other]
      · simp only [putT, GI.put, heq, if_true]
        rw [foldl_putT_ind]
      · intro t' ht' he
        have := hkey t' (by rw [hAB]; simp [ht']) he
        exact hB t' ht' ⟨this.1.symm, this.2.symm⟩
    have hlay : layout S = A.flatMap blk ++ (blk t ++ B.flatMap blk) := by
      rw [← allT_flat S h.nz_pos, hAB, List.flatMap_append, List.flatMap_cons]
    cases hb : blk t with
    | nil => rw [hb] at hst; simp at hst
    | cons s0 bs =>
      refine ⟨(A.flatMap blk).length, s0, hidx, ?_, ?_, ?_⟩
      · rw [hlay, hb, List.getElem?_append_right (Nat.le_refl _)]; simp
      · have := htm.2.2 s0 (by rw [hb]; simp)
        rw [heq.1, heq.2] at this; exact this
      · intro j s' hj hs' hat'
        rw [hlay, List.getElem?_append_left hj] at hs'
        have hmem := List.mem_of_getElem? hs'
        rw [List.mem_flatMap] at hmem
        obtain ⟨t', ht', hst'⟩ := hmem
        have h' := (allT_mem S t' (by rw [hAB]; simp [ht'])).2.2 s' hst'
        have : t'.1 = pt ∧ t'.2.1 = z := by
          cases s' with
          | s2 i p => simp only [At] at h' hat'; omega
          | s3 i p z' => simp only [At] at h' hat'; omega
        exact hA t' ht' t (by simp) ⟨this.1.trans heq.1.symm, this.2.trans heq.2.symm⟩
  · intro h1 h2
    rw [foldl_putT_other]
    intro t ht he
    obtain ⟨hz', hreg, _⟩ := allT_mem S t ht
    have : t.1 = pt := by rw [← addr_div (pt := t.1) hz', he, addr_div hz]
    rw [this] at hreg
    rcases hreg with hr | hr
    · exact h1 hr
    · exact h2 hr

/-! ## A concrete case -/

def exS : Solver :=
  { f2d := [⟨true, false⟩], f3d := [⟨false, false⟩, ⟨true, true⟩], nz := 2, bndry2 := [0, 3], nobndry2 := [1, 2],
    bndry3 := [0, 1, 6, 7], nobndry3 := [2, 3, 4, 5] }

theorem exS_ok : Ok exS where
  nz_pos := by decide
  bnd := by decide
  nobnd := by decide
  disj := by simp [exS]
  bnd3 := by decide
  nobnd3 := by decide
  bnd3_mem := by intro k; simp only [exS, List.mem_cons, List.not_mem_nil, or_false]; omega
  nobnd3_mem := by intro k; simp only [exS, List.mem_cons, List.not_mem_nil, or_false]; omega

example : getLocalN exS = 16 ∧ layout exS = [.s2 0 0, .s3 1 0 0, .s3 1 0 1, .s2 0 3, .s3 1 3 0, .s3 1 3 1,
    .s2 0 1, .s3 0 1 0, .s3 1 1 0, .s3 0 1 1, .s3 1 1 1, .s2 0 2, .s3 0 2 0, .s3 1 2 0, .s3 0 2 1, .s3 1 2 1] := by decide

example : (List.range 8).map (globalIndex exS 100).index = [100, 102, 106, 109, 111, 114, 103, 105] := by decide

def exB : Solver :=
  { f2d := [⟨true, false⟩], f3d := [⟨false, false⟩], nz := 2, bndry2 := [0], nobndry2 := [1],
    bndry3 := [0, 1], nobndry3 := [2, 3] }

/-- At a boundary point where 2D variables evolve but no 3D variable does, `globalIndex` does not give -1 for `z > 0`, as
it does for points without unknowns, but the index of the next point's first unknown. -/
theorem C25_globalIndex_2d_boundary :
    (globalIndex exB 0).index 1 = 1 ∧ (globalIndex exB 0).index 2 = 1 ∧ (¬ ∃ s, Evolves exB s ∧ At 0 1 s) := by
  refine ⟨by decide, by decide, ?_⟩
  rintro ⟨s, hs, hat⟩
  cases s with
  | s2 i p => simp [At] at hat
  | s3 i p z =>
    simp only [At] at hat
    obtain ⟨rfl, rfl⟩ := hat
    obtain ⟨_, f, hf, h⟩ := hs
    have hi : i = 0 := by
      by_contra hne
      obtain ⟨m, rfl⟩ : ∃ m, i = m + 1 := ⟨i - 1, by omega⟩
      simp [exB] at hf
    subst hi
    simp [exB] at hf h
    subst hf
    simp at h

end Verif.Vars
