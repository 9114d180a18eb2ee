import Verif.Invert.IptProps

/-!
# C82: the iterative parallel tridiagonal Laplacian solver
-/

namespace Verif.Ipt

open Verif.IptSpec

variable {K M : Type} [Field K]

section near

variable {g : Geo} {tri : Tri K} {small : K → Bool} {m : Mat K}

theorem minvb_rows (ht : Solves g.ncx tri) {p : Nat} (h : Local g m p) (b : Nat → K) :
    Rows g m p b (localSolve g tri m p (patch g p 0 b))
      ∧ ∀ i, i < g.ncx → Copy g p i → localSolve g tri m p (patch g p 0 b) i = 0 := by
  have hh := local_rows ht h (patch g p 0 b)
  refine ⟨fun i hi hc => ?_, fun i hi hc => ?_⟩
  · rw [hh.1 i hi hc, patch_own hc]
  · rw [hh.2 i hi hc, patch_copy hc]

/-- The rebuilt solution satisfies every row, and its cells match up to the residuals of the reduced rows. -/
theorem near (ht : Solves g.ncx tri) (hr : Regular g small m) (junk : RCoef K) (b : Nat → Nat → K) (X : Nat → X4 K)
    (hs : Synced g X) :
    let lc := fun p => buildL g tri small m p
    let rr := fun p => initRhs g tri small lc m b p
    Near g m b (fun p ix => reconstruct g (lc p) (rr p) (X p) p ix)
      (fun p => res1 g (fun p => buildR g tri small junk m p) rr X p)
      ∧ ∀ p, p + 1 < g.N → reconstruct g (lc (p + 1)) (rr (p + 1)) (X (p + 1)) (p + 1) g.xs = (X (p + 1)).x1 := by
  intro lc rr
  obtain ⟨hi1, hi2, hi3⟩ := hr.inside
  have hlo := fun p hp => lower_resp ht (hr.loc p hp) hi2
  have hup := fun p hp => upper_resp ht (hr.loc p hp) hi2
  have hmb := fun p hp => minvb_rows ht (hr.loc p hp) (b p)
  have hal : ∀ p, p + 1 < g.N → lowerGuard g tri m (p + 1) g.xs ≠ 0 := fun p hp e => by
    have := hr.coupled p hp _ (hlo (p + 1) hp)
    rw [e, hr.small0] at this
    cases this
  have hx1 : ∀ p, p + 1 < g.N → reconstruct g (lc (p + 1)) (rr (p + 1)) (X (p + 1)) (p + 1) g.xs = (X (p + 1)).x1 := by
    intro p hp
    have h2 : first (p + 1) = false := by simp [first]
    have := hal p hp
    simp only [reconstruct, h2, Bool.false_eq_true, if_false, LCoef.al, LCoef.bl, lc, buildL, rr, initRhs]
    field_simp
    ring
  refine ⟨⟨fun p hp i hi hc => ?_, fun p hp => ?_, fun p hp w u v hw hu hv => ?_⟩, hx1⟩
  · have := row_comb g.ncx (m.a p) (m.b p) (m.c p) (rr p).minvb (lc p).up (lc p).lo (X p).x3
      (if first p then (X p).x0 else ((X p).x1 - (rr p).minvb g.xs - (lc p).bl g * (X p).x3) / (lc p).al g) i
    refine Eq.trans this ?_
    have e1 : row g.ncx (m.a p) (m.b p) (m.c p) (rr p).minvb i = b p i := (hmb p hp).1 i hi hc
    have e2 : row g.ncx (m.a p) (m.b p) (m.c p) (lc p).up i = 0 := (hup p hp).rows i hi hc
    have e3 : row g.ncx (m.a p) (m.b p) (m.c p) (lc p).lo i = 0 := (hlo p hp).rows i hi hc
    rw [e1, e2, e3]
    ring
  · have hc : Copy g p (g.xe + 1) := Or.inr ⟨by omega, by omega⟩
    have e1 : (rr p).minvb (g.xe + 1) = 0 := (hmb p (by omega)).2 _ hi3 hc
    have e2 : (lc p).up (g.xe + 1) = 1 := by
      have := (hup p (by omega)).copies _ hi3 hc
      rwa [if_pos rfl] at this
    have e3 : (lc p).lo (g.xe + 1) = 0 := by
      have := (hlo p (by omega)).copies _ hi3 hc
      rwa [if_neg (by omega)] at this
    rw [hx1 p hp]
    simp only [reconstruct, e1, e2, e3, ← (hs p hp).1]
    ring
  · have hpN : p < g.N := by omega
    have hl1 := fun i hi => lower_unique (hr.loc (p + 1) hp) hw (hlo (p + 1) hp) i hi
    have hl0 := fun i hi => lower_unique (hr.loc p hpN) hu (hlo p hpN) i hi
    have hu0 := fun i hi => upper_unique (hr.loc p hpN) hv (hup p hpN) i hi
    have hpiv := hr.pivots p hp w u v hw hu hv
    have ha := hal p hp
    have hxs : g.xs < g.ncx := by omega
    have hxe : g.xe < g.ncx := by omega
    have hc : Copy g (p + 1) (g.xs - 1) := Or.inl ⟨by omega, by omega⟩
    have hx0 : g.xs - 1 < g.ncx := by omega
    have e1 : (rr (p + 1)).minvb (g.xs - 1) = 0 := (hmb (p + 1) hp).2 _ hx0 hc
    have e2 : (lc (p + 1)).up (g.xs - 1) = 0 := by
      have := (hup (p + 1) hp).copies _ hx0 hc
      rwa [if_neg (by omega)] at this
    have e3 : (lc (p + 1)).lo (g.xs - 1) = 1 := by
      have := (hlo (p + 1) hp).copies _ hx0 hc
      rwa [if_pos (by omega)] at this
    have h2 : first (p + 1) = false := by simp [first]
    have hz : upperGuard g tri m (p + 1) g.xs * xend g (p + 1) (X (p + 1))
        = upperGuard g tri m (p + 1) g.xs * (X (p + 1)).x3 := by
      unfold xend upperGuard
      by_cases hl : last g (p + 1) = true
      · rw [if_pos hl]; simp
      · rw [if_neg hl, if_neg hl]
    have hcr : (if last g (p + 1) then m.a (p + 1) (g.xe + 1) * upperGuard g tri m (p + 1) g.xs / m.b (p + 1) (g.xe + 1)
        else -(1 / (1 - lowerGuard g tri m (p + 1) g.xs *
          (fromBelow g small (upperGuard g tri m) (lowerGuard g tri m) (p + 1)).2)) * upperGuard g tri m (p + 1) g.xs)
        * xend g (p + 1) (X (p + 1))
        = -(1 / (1 - lowerGuard g tri m (p + 1) g.xs *
          (fromBelow g small (upperGuard g tri m) (lowerGuard g tri m) (p + 1)).2)) *
            (upperGuard g tri m (p + 1) g.xs * (X (p + 1)).x3) := by
      by_cases hl : last g (p + 1) = true
      · have : upperGuard g tri m (p + 1) g.xs = 0 := by rw [upperGuard, if_pos hl]
        rw [if_pos hl, this]; ring
      · rw [if_neg hl, mul_assoc, hz]
    have hR : (initRhs g tri small lc m b (p + 1)).rr1
        = (lc (p + 1)).r1 * sendR g small (lc p) (rr p).minvb + (lc (p + 1)).r2 * (rr (p + 1)).minvb g.xs := by
      simp only [initRhs, h2, Bool.false_eq_true, if_false, rr]; rfl
    -- the value at the last cell of processor `p`
    have hx : reconstruct g (lc p) (rr p) (X p) p g.xe
        = sendR g small (lc p) (rr p).minvb + sendB g small (upperGuard g tri m p) (lowerGuard g tri m p) * (X p).x3
          + sendA g small (upperGuard g tri m p) (lowerGuard g tri m p) * (X p).x1 := by
      by_cases h0 : p = 0
      · have hf : first p = true := by simp [first, h0]
        have hlow : ∀ i, lowerGuard g tri m p i = 0 := fun i => by rw [lowerGuard, if_pos hf]
        simp only [reconstruct, hf, if_true, sendR, sendB, sendA, LCoef.al, lc, buildL, hlow, hr.small0]
        ring
      · have hf : first p = false := by simp [first, h0]
        obtain ⟨q, rfl⟩ : ∃ q, p = q + 1 := ⟨p - 1, by omega⟩
        have hsm := hr.coupled q hpN _ (hlo (q + 1) hpN)
        have ha' := hal q hpN
        simp only [reconstruct, hf, Bool.false_eq_true, if_false, sendR, sendB, sendA, LCoef.al, LCoef.bl, LCoef.au, lc,
          buildL, hsm]
        field_simp
        ring
    have hpv : pivot g p w u v = 1 - lowerGuard g tri m (p + 1) g.xs *
        sendB g small (upperGuard g tri m p) (lowerGuard g tri m p) := by
      unfold pivot sendB
      rw [hl1 _ hxs, hl0 _ hxe, hl0 _ hxs, hu0 _ hxe, hu0 _ hxs]
      by_cases h0 : p = 0
      · have hf : first p = true := by simp [first, h0]
        have hlow : ∀ i, lowerGuard g tri m p i = 0 := fun i => by rw [lowerGuard, if_pos hf]
        rw [if_pos h0, hlow, hr.small0, if_pos rfl]
      · obtain ⟨q, rfl⟩ : ∃ q, p = q + 1 := ⟨p - 1, by omega⟩
        have hsm := hr.coupled q hpN _ (hlo (q + 1) hpN)
        rw [if_neg h0, hsm, if_neg (by simp)]
    have hfb : fromBelow g small (upperGuard g tri m) (lowerGuard g tri m) (p + 1)
        = (sendA g small (upperGuard g tri m p) (lowerGuard g tri m p),
          sendB g small (upperGuard g tri m p) (lowerGuard g tri m p)) := by
      rw [fromBelow, h2, if_neg (by simp)]; rfl
    rw [hpv] at hpiv ⊢
    rw [hl1 _ hxs]
    have hleft : reconstruct g (lc (p + 1)) (rr (p + 1)) (X (p + 1)) (p + 1) (g.xs - 1)
        = ((X (p + 1)).x1 - (rr (p + 1)).minvb g.xs - upperGuard g tri m (p + 1) g.xs * (X (p + 1)).x3)
          / lowerGuard g tri m (p + 1) g.xs := by
      simp only [reconstruct, h2, Bool.false_eq_true, if_false, e1, e2, e3, LCoef.al, LCoef.bl]
      simp only [lc, buildL]
      ring
    show lowerGuard g tri m (p + 1) g.xs * (reconstruct g (lc (p + 1)) (rr (p + 1)) (X (p + 1)) (p + 1) (g.xs - 1)
      - reconstruct g (lc p) (rr p) (X p) p g.xe) = _
    rw [hleft, hx]
    simp only [res1]
    rw [show (rr (p + 1)).rr1 = _ from hR]
    simp only [buildR]
    rw [hcr, hfb]
    simp only [lc, buildL, hfb]
    rw [(hs p hp).1, (hs p hp).2]
    clear_value rr
    field_simp
    ring

end near

/-! ## Histories -/

/-- Between calls at y index `j` with matrices `m`. -/
structure Held (E : Env K M) (j : Nat) (m : M → Mat K) (s : Obj K M) : Prop where
  synced : ∀ md, Synced E.g (s.saved j md)
  state : (s.levels = none ∧ s.first j = true) ∨
    ((∀ md p, s.lc j md p = buildL E.g E.tri E.small (m md) p) ∧
      ∃ f, s.levels = some f ∧ ∀ md p, f j md p = buildR E.g E.tri E.small E.junk (m md) p)

theorem held_new (E : Env K M) (j : Nat) (m : M → Mat K) : Held E j m Obj.new :=
  ⟨fun _ _ _ => ⟨rfl, rfl⟩, Or.inl ⟨rfl, rfl⟩⟩

/-- After building, the coefficients are those of the matrices. -/
theorem build_held {E : Env K M} {store : Bool} {s : Obj K M} {c : Call K M} (h : Held E c.jy c.mat s) :
    let s' := build E store s c
    Held E c.jy c.mat s' ∧ (∀ md p, s'.lc c.jy md p = buildL E.g E.tri E.small (c.mat md) p) ∧
      ∃ f, s'.levels = some f ∧ ∀ md p, f c.jy md p = buildR E.g E.tri E.small E.junk (c.mat md) p := by
  intro s'
  have hs' : s' = build E store s c := rfl
  clear_value s'
  have key : (∀ md p, s'.lc c.jy md p = buildL E.g E.tri E.small (c.mat md) p) ∧
      ∃ f, s'.levels = some f ∧ ∀ md p, f c.jy md p = buildR E.g E.tri E.small E.junk (c.mat md) p := by
    rw [hs', build]
    by_cases hb : (s.first c.jy || !store) = true
    · rw [if_pos hb]
      refine ⟨fun md p => by simp, ?_⟩
      rcases h.state with ⟨h1, h2⟩ | ⟨h1, f, h2, h3⟩
      · rw [h1]
        exact ⟨_, rfl, fun md p => by simp⟩
      · rw [h2]
        exact ⟨f, rfl, h3⟩
    · rw [if_neg hb]
      rcases h.state with ⟨h1, h2⟩ | ⟨h1, h2⟩
      · rw [h2] at hb; simp at hb
      · exact ⟨h1, h2⟩
  refine ⟨⟨?_, Or.inr key⟩, key⟩
  have : s'.saved = s.saved := by rw [hs', build]; split <;> rfl
  rw [this]
  exact h.synced

/-- The reduced problem with the coefficients of the call's own matrices. -/
def freshTask (E : Env K M) (c : Call K M) : Task K M :=
  { mat := c.mat, rc := fun md p => buildR E.g E.tri E.small E.junk (c.mat md) p,
    rr := fun md p => initRhs E.g E.tri E.small (fun p => buildL E.g E.tri E.small (c.mat md) p) (c.mat md) (c.b md) p }

/-- One call, from a state held. -/
theorem solve_held {E : Env K M} (hN : 0 < E.g.N) {store : Bool} {s : Obj K M} {c : Call K M}
    (h : Held E c.jy c.mat s) :
    Held E c.jy c.mat (solve E store s c).1 ∧
    ∀ x, (solve E store s c).2 = some x →
      ∃ X : M → Nat → X4 K, (∀ md, Synced E.g (X md)) ∧
        (∀ md p ix, x md p ix = reconstruct E.g (buildL E.g E.tri E.small (c.mat md) p)
          (initRhs E.g E.tri E.small (fun p => buildL E.g E.tri E.small (c.mat md) p) (c.mat md) (c.b md) p)
          (X md p) p ix) ∧
        ∀ md, md ∈ E.modes → Accepted E.g E.test
          (freshTask E c) md (X md) := by
  have hb := build_held (store := store) h
  dsimp only at hb
  unfold solve
  dsimp only
  generalize build E store s c = s' at hb ⊢
  obtain ⟨h1, h2, f, h3, h4⟩ := hb
  have ht : task E s' c = freshTask E c := by
    unfold task freshTask
    congr 1
    · funext md p
      rw [h3]; exact h4 md p
    · funext md p
      congr 1
      funext q
      exact h2 md q
  rw [ht]
  generalize hi : iterate E.g E.o E.test E.tests E.e E.modes _ E.fuel (s'.saved c.jy) = R
  cases R with
  | done X =>
    have hd := iterate_done hN h1.synced hi
    refine ⟨⟨fun md => ?_, Or.inr ⟨h2, f, h3, h4⟩⟩, fun x hx => ?_⟩
    · simpa using hd.1 md
    · cases hx
      exact ⟨X, hd.1, fun md p ix => by dsimp only; rw [h2]; rfl, hd.2⟩
  | threw => exact ⟨h1, fun x hx => by cases hx⟩
  | more => exact ⟨h1, fun x hx => by cases hx⟩

theorem solves_held {E : Env K M} (hN : 0 < E.g.N) {store : Bool} {j : Nat} {m : M → Mat K} (cs : List (Call K M))
    (hc : ∀ c, c ∈ cs → c.jy = j ∧ c.mat = m) (s : Obj K M) (h : Held E j m s) : Held E j m (solves E store s cs) := by
  induction cs generalizing s with
  | nil => exact h
  | cons c cs ih =>
    refine ih (fun c' hc' => hc c' (List.mem_cons_of_mem _ hc')) _ ?_
    obtain ⟨rfl, rfl⟩ := hc c List.mem_cons_self
    exact (solve_held hN h).1

/-- **C82.**  After any calls at one y index with the same matrices, whether they returned or threw, a call that returns
gives, for every mode of the solver, an array that satisfies every row of the mode's system exactly; each processor's
copies of the cells above it agree with the next processor's; its copies of the cells below differ by the residual of one
reduced row; and the convergence test accepted those residuals, and the values at the processors' first cells, of just
this result.  Whatever the coarse grids contribute, whichever cycles test. -/
theorem C82_converged_partial {E : Env K M} (hN : 0 < E.g.N) (ht : Solves E.g.ncx E.tri) {store : Bool} (cs : List (Call K M))
    (c : Call K M) (hc : ∀ c', c' ∈ cs → c'.jy = c.jy ∧ c'.mat = c.mat) (x : M → Nat → Nat → K)
    (hx : (solve E store (solves E store Obj.new cs) c).2 = some x) (md : M) (hm : md ∈ E.modes)
    (hr : Regular E.g E.small (c.mat md)) :
    ∃ ρ : Nat → K, Near E.g (c.mat md) (c.b md) (x md) ρ ∧
      ∃ k v r2 x2, E.test k ρ v r2 x2 = true ∧ ∀ p, p + 1 < E.g.N → v (p + 1) = x md (p + 1) E.g.xs := by
  obtain ⟨X, h1, h2, h3⟩ := (solve_held hN (solves_held hN cs hc _ (held_new E _ _))).2 x hx
  obtain ⟨k, hk⟩ := h3 md hm
  have hn := near ht hr E.junk (c.b md) (X md) (h1 md)
  dsimp only at hn
  have hxe : x md = fun p ix => reconstruct E.g (buildL E.g E.tri E.small (c.mat md) p)
          (initRhs E.g E.tri E.small (fun p => buildL E.g E.tri E.small (c.mat md) p) (c.mat md) (c.b md) p)
          (X md p) p ix := by
    funext p ix; exact h2 md p ix
  refine ⟨_, ?_, k, _, _, _, hk, fun p hp => ?_⟩
  · rw [hxe]
    refine ⟨hn.1.rows, hn.1.upper, fun p hp w u v hw hu hv => ?_⟩
    rw [hn.1.lower p hp w u v hw hu hv]
    simp only [if_pos hp]
    rfl
  · rw [hxe, if_pos hp]
    exact (hn.2 p hp).symm

/-- A test that accepts only zero residuals leaves only the exact solution. -/
theorem C82_exact {E : Env K M} (hN : 0 < E.g.N) (ht : Solves E.g.ncx E.tri) {store : Bool} (cs : List (Call K M))
    (c : Call K M) (hc : ∀ c', c' ∈ cs → c'.jy = c.jy ∧ c'.mat = c.mat) (x : M → Nat → Nat → K)
    (hx : (solve E store (solves E store Obj.new cs) c).2 = some x) (md : M) (hm : md ∈ E.modes)
    (hr : Regular E.g E.small (c.mat md))
    (hz : ∀ k ρ v r2 x2, E.test k ρ v r2 x2 = true → ∀ p, p < E.g.N → ρ p = 0) :
    Solution E.g (c.mat md) (c.b md) (x md) := by
  obtain ⟨ρ, hn, k, v, r2, x2, hk, _⟩ := C82_converged_partial hN ht cs c hc x hx md hm hr
  refine ⟨hn.rows, hn.upper, fun p hp => ?_⟩
  have hl := lower_resp ht (hr.loc (p + 1) hp) hr.inside.2.1
  have hl0 := lower_resp ht (hr.loc p (by omega)) hr.inside.2.1
  have hu0 := upper_resp ht (hr.loc p (by omega)) hr.inside.2.1
  have := hn.lower p hp _ _ _ hl hl0 hu0
  rw [hz k ρ v r2 x2 hk (p + 1) hp, mul_zero, neg_zero] at this
  rcases mul_eq_zero.1 this with h | h
  · have h' := hr.coupled p hp _ hl
    rw [h, hr.small0] at h'
    cases h'
  · exact sub_eq_zero.1 h

/-- A call always ends: it returns or throws, after at most `maxits` sweeps. -/
theorem C82_ends (g : Geo) (o : Opts) (ho : 1 ≤ o.maxCycle) (test : Test K) (tests : Nat → Bool)
    (e : Nat → M → Nat → K × K) (modes : List M) (t : Task K M) (fuel : Nat) (hf : o.maxits + 1 < fuel) (X : M → Nat → X4 K) :
    (∃ Y, iterate g o test tests e modes t fuel X = .done Y) ∨ iterate g o test tests e modes t fuel X = .threw := by
  unfold iterate
  dsimp only
  split
  · exact Or.inl ⟨_, rfl⟩
  · have := loop_ends g o ho test tests e modes t fuel 0 0 X (check g test 0 t X fun _ => false) (by omega) (by omega)
    cases h : loop g o test tests e modes t fuel 0 0 X (check g test 0 t X fun _ => false) with
    | done Y => exact Or.inl ⟨_, rfl⟩
    | threw => exact Or.inr rfl
    | more => exact absurd h this

/-! ## Solutions are fixed points -/

/-- The values of the processors agree where they overlap, with each other and with the boundary rows. -/
structure Consistent (g : Geo) (m : Mat K) (X : Nat → X4 K) : Prop where
  below : ∀ p, p < g.N → first p = false → (X p).x0 = (X (p - 1)).x1
  above : ∀ p, p < g.N → last g p = false → (X p).x3 = (X (p + 1)).x1
  inner : ∀ p, first p = true → (X p).x0 = -m.c p (g.xs - 1) * (X p).x1 / m.b p (g.xs - 1)
  outer : ∀ p, last g p = true → (X p).x3 = -m.a p (g.xe + 1) * (X p).x2 / m.b p (g.xe + 1)

theorem receive_same {g : Geo} {m : Mat K} {X Y : Nat → X4 K} (hX : Consistent g m X) (who : Nat → Bool)
    (hY : ∀ p, p < g.N → Y p = X p) (p : Nat) (hp : p < g.N) : receive g who Y p = X p := by
  unfold receive
  split
  · have e1 : (if first p then (Y p).x0 else (Y (p - 1)).x1) = (X p).x0 := by
      cases hf : first p
      · simp only [Bool.false_eq_true, if_false]
        rw [hY (p - 1) (by omega), hX.below p hp hf]
      · simp only [if_true]; rw [hY p hp]
    have e2 : (if last g p then (Y p).x3 else (Y (p + 1)).x1) = (X p).x3 := by
      cases hl : last g p
      · have : p + 1 < g.N := by
          simp only [last, decide_eq_false_iff_not] at hl
          omega
        simp only [Bool.false_eq_true, if_false]
        rw [hY (p + 1) this, hX.above p hp hl]
      · simp only [if_true]; rw [hY p hp]
    rw [e1, e2, hY p hp]
  · exact hY p hp

/-- The sweep leaves every solution of the reduced rows unchanged, on any number of processors. -/
theorem C82_fixed {g : Geo} (tri : Tri K) (small : K → Bool) (junk : RCoef K) (m : Mat K) (rr : Nat → Rhs K)
    (X : Nat → X4 K) (hX : Consistent g m X)
    (h1 : ∀ p, p < g.N → res1 g (fun p => buildR g tri small junk m p) rr X p = 0)
    (h2 : ∀ p, p < g.N → last g p = true → res2 (fun p => buildR g tri small junk m p) rr X p = 0)
    (p : Nat) (hp : p < g.N) : gs g m (fun p => buildR g tri small junk m p) rr X p = X p := by
  generalize hrc : (fun p => buildR g tri small junk m p) = rc at *
  have hb : ∀ p, (rc p).br1 = 1 ∧ (rc p).brinv1 = 1 ∧ (rc p).br2 = 1 ∧ (rc p).brinv2 = 1 := by
    intro p; rw [← hrc]; exact ⟨rfl, rfl, rfl, rfl⟩
  have b1 : ∀ p, p < g.N → blackWork g rc rr X p = X p := by
    intro p hp
    unfold blackWork
    split
    · have h := h1 p hp
      unfold res1 at h
      rw [(hb p).1] at h
      have : ((rr p).rr1 - (rc p).ar1 * (X p).x0 - (rc p).cr1 * xend g p (X p)) * (rc p).brinv1 = (X p).x1 := by
        rw [(hb p).2.1]; linear_combination h
      rw [this]
    · rfl
  have b2 := fun p hp => receive_same hX (fun p => !isBlack p) b1 p hp
  have b3 : ∀ p, p < g.N →
      redWork g rc rr (receive g (fun p => !isBlack p) (blackWork g rc rr X)) p = X p := by
    intro p hp
    unfold redWork
    rw [b2 p hp]
    have e1 : (if !isBlack p && !last g p then
        { X p with x1 := ((rr p).rr1 - (rc p).ar1 * (X p).x0 - (rc p).cr1 * (X p).x3) * (rc p).brinv1 }
        else X p) = X p := by
      split
      · rename_i hc
        have hl : last g p = false := by
          cases hl : last g p
          · rfl
          · rw [hl] at hc; simp at hc
        have h := h1 p hp
        unfold res1 xend at h
        rw [(hb p).1, hl] at h
        simp only [Bool.false_eq_true, if_false] at h
        have : ((rr p).rr1 - (rc p).ar1 * (X p).x0 - (rc p).cr1 * (X p).x3) * (rc p).brinv1 = (X p).x1 := by
          rw [(hb p).2.1]; linear_combination h
        rw [this]
      · rfl
    rw [e1]
    dsimp only
    split
    · rename_i hl
      have h := h2 p hp hl
      unfold res2 at h
      rw [(hb p).2.2.1] at h
      have : ((rr p).rr2 - (rc p).ar2 * (X p).x1 - (rc p).cr2 * (X p).x3) * (rc p).brinv2 = (X p).x2 := by
        rw [(hb p).2.2.2]; linear_combination h
      rw [this]
    · rfl
  have b4 := fun p hp => receive_same hX isBlack b3 p hp
  unfold gs bndryWork
  rw [b4 p hp]
  dsimp only
  have e1 : (if first p then { X p with x0 := -m.c p (g.xs - 1) * (X p).x1 / m.b p (g.xs - 1) } else X p) = X p := by
    split
    · rename_i hf; rw [← hX.inner p hf]
    · rfl
  rw [e1]
  split
  · rename_i hl; rw [← hX.outer p hl]
  · rfl

/-- The hypotheses of `C82_fixed` are met: three processors with different values. -/
def fixX (p : Nat) : X4 ℚ := ⟨if p = 0 then -1 else p, p + 1, 5, if p = 2 then -5 else p + 2⟩

example (g : Geo) (hN : g.N = 3) (tri : Tri ℚ) (small : ℚ → Bool) (junk : RCoef ℚ) :
    let m : Mat ℚ := ⟨fun _ _ => 1, fun _ _ => 1, fun _ _ => 1⟩
    let rc := fun p => buildR g tri small junk m p
    ∃ rr : Nat → Rhs ℚ, Consistent g m fixX ∧ (∀ p, p < g.N → res1 g rc rr fixX p = 0)
      ∧ (∀ p, p < g.N → last g p = true → res2 rc rr fixX p = 0) := by
  intro m rc
  refine ⟨fun p => ⟨fun _ => 0, (rc p).ar1 * (fixX p).x0 + (rc p).br1 * (fixX p).x1 + (rc p).cr1 * xend g p (fixX p),
    (rc p).ar2 * (fixX p).x1 + (rc p).br2 * (fixX p).x2 + (rc p).cr2 * (fixX p).x3⟩, ⟨?_, ?_, ?_, ?_⟩, ?_, ?_⟩
  · intro p hp hf
    have hp0 : p ≠ 0 := by simpa [first] using hf
    obtain ⟨q, rfl⟩ : ∃ q, p = q + 1 := ⟨p - 1, by omega⟩
    simp [fixX]
  · intro p hp hl
    have hp2 : p ≠ 2 := by
      simp only [last, decide_eq_false_iff_not] at hl
      omega
    simp [fixX, hp2]
    ring
  · intro p hf
    have hp0 : p = 0 := by simpa [first] using hf
    simp [fixX, hp0, m]
  · intro p hl
    have hp2 : p = 2 := by
      simp only [last, decide_eq_true_eq] at hl
      omega
    simp [fixX, hp2, m]
  · intro p _; simp only [res1]; ring
  · intro p _ _; simp only [res2]; ring

/-! ## Two processors -/

theorem gs_two {g : Geo} (hN : g.N = 2) (m : Mat K) (rc : Nat → RCoef K) (rr : Nat → Rhs K) (X : Nat → X4 K)
    (h0 : (rc 0).ar1 = 0) (h1 : (rc 1).ar1 = 0) (h2 : (rc 1).cr1 = 0) (h3 : ∀ p, (rc p).br1 = 1 ∧ (rc p).brinv1 = 1)
    (h4 : (rc 1).br2 = 1 ∧ (rc 1).brinv2 = 1 ∧ (rc 1).cr2 = 0) :
    res1 g rc rr (gs g m rc rr X) 0 = 0 ∧ res1 g rc rr (gs g m rc rr X) 1 = 0 ∧ res2 rc rr (gs g m rc rr X) 1 = 0 := by
  have l0 : last g 0 = false := by simp [last, hN]
  have l1 : last g 1 = true := by simp [last, hN]
  have f0 : first 0 = true := rfl
  have f1 : first 1 = false := rfl
  have b0 : isBlack 0 = false := rfl
  have b1 : isBlack 1 = true := rfl
  refine ⟨?_, ?_, ?_⟩ <;>
  simp [res1, res2, gs, bndryWork, receive, redWork, blackWork, xend, l0, l1, f0, f1, b0, b1, h0, h1, h2, h3, h4]

theorem visit_two {g : Geo} (hN : g.N = 2) (t : Task K M) (cv : M → Bool) (md : M) (hcv : cv md = false)
    (h0 : (t.rc md 0).ar1 = 0) (h1 : (t.rc md 1).ar1 = 0) (h2 : (t.rc md 1).cr1 = 0)
    (h3 : ∀ p, (t.rc md p).br1 = 1 ∧ (t.rc md p).brinv1 = 1)
    (h4 : (t.rc md 1).br2 = 1 ∧ (t.rc md 1).brinv2 = 1 ∧ (t.rc md 1).cr2 = 0) (n : Nat) (X : M → Nat → X4 K) :
    res1 g (t.rc md) (t.rr md) (visit g t cv (n + 1) X md) 0 = 0 ∧
      res1 g (t.rc md) (t.rr md) (visit g t cv (n + 1) X md) 1 = 0 ∧
      res2 (t.rc md) (t.rr md) (visit g t cv (n + 1) X md) 1 = 0 := by
  induction n generalizing X with
  | zero =>
    show res1 g _ _ (if cv md then X md else _) 0 = 0 ∧ res1 g _ _ (if cv md then X md else _) 1 = 0 ∧
      res2 _ _ (if cv md then X md else _) 1 = 0
    rw [hcv]
    exact gs_two hN _ _ _ _ h0 h1 h2 h3 h4
  | succ n ih => exact ih _

/-- On two processors (so without coarse grids) one sweep solves the reduced rows, and the call returns, provided the
memory the level was made in held a zero where the code never assigns `cr(2)`. -/
theorem C82_two {E : Env K M} (hN : E.g.N = 2) {store : Bool} (cs : List (Call K M))
    (c : Call K M) (hc : ∀ c', c' ∈ cs → c'.jy = c.jy ∧ c'.mat = c.mat) (hs0 : E.small 0 = true)
    (hcy : 1 ≤ E.o.maxCycle) (hits : E.o.maxCycle ≤ E.o.maxits) (hfu : 1 ≤ E.fuel)
    (hts : E.tests 0 = true) (hj : E.junk.cr2 = 0)
    (htest : ∀ k v x2, E.test k (fun _ => 0) v 0 x2 = true) :
    ∃ x, (solve E store (solves E store Obj.new cs) c).2 = some x := by
  have hh := solves_held (E := E) (by omega) (store := store) cs hc _ (held_new E _ _)
  generalize solves E store Obj.new cs = s at hh
  have hb := build_held (store := store) hh
  dsimp only at hb
  unfold solve
  dsimp only
  generalize build E store s c = s' at hb ⊢
  obtain ⟨h1, h2, f, h3, h4⟩ := hb
  have ht : task E s' c = freshTask E c := by
    unfold task freshTask
    congr 1
    · funext md p
      rw [h3]; exact h4 md p
    · funext md p
      congr 1
      funext q
      exact h2 md q
  rw [ht]
  have l0 : last E.g 0 = false := by simp [last, hN]
  have l1 : last E.g 1 = true := by simp [last, hN]
  suffices ∃ Y, iterate E.g E.o E.test E.tests E.e E.modes (freshTask E c) E.fuel (s'.saved c.jy) = .done Y by
    obtain ⟨Y, hY⟩ := this
    rw [hY]
    exact ⟨_, rfl⟩
  unfold iterate
  dsimp only
  generalize check E.g E.test 0 (freshTask E c) (s'.saved c.jy) (fun _ => false) = cv
  split
  · exact ⟨_, rfl⟩
  obtain ⟨fu, hfu⟩ : ∃ fu, E.fuel = fu + 1 := ⟨E.fuel - 1, by omega⟩
  obtain ⟨n, hn⟩ : ∃ n, E.o.maxCycle = n + 1 := ⟨E.o.maxCycle - 1, by omega⟩
  rw [hfu]
  simp only [loop]
  rw [if_neg (by omega), hts, if_pos rfl]
  rw [if_pos]
  · exact ⟨_, rfl⟩
  refine List.all_eq_true.2 fun md _ => ?_
  unfold check
  cases hcv : cv md with
  | true => rfl
  | false =>
    rw [Bool.false_or, hn]
    have hv := visit_two hN (freshTask E c) cv md hcv (by simp [freshTask, buildR, lowerGuard, first])
      (by simp [freshTask, buildR, lowerGuard, first, fromBelow, sendA, hs0])
      (by simp [freshTask, buildR, upperGuard, l1]) (fun p => ⟨rfl, rfl⟩) ⟨rfl, rfl, hj⟩ n (s'.saved c.jy)
    have e1 : (fun p => if p < E.g.N then res1 E.g ((freshTask E c).rc md) ((freshTask E c).rr md)
        (visit E.g (freshTask E c) cv (n + 1) (s'.saved c.jy) md) p else 0) = fun _ => 0 := by
      funext p
      by_cases hp : p < E.g.N
      · rw [if_pos hp]
        have : p = 0 ∨ p = 1 := by omega
        rcases this with rfl | rfl
        · exact hv.1
        · exact hv.2.1
      · rw [if_neg hp]
    rw [e1, show E.g.N - 1 = 1 by omega, hv.2.2]
    exact htest _ _ _

end Verif.Ipt
