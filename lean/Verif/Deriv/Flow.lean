import Verif.Deriv.DispatchThms

/-!
# C65: advection and flux derivatives, which calls return, and the calls that cannot
-/
namespace Verif.Deriv
open Verif.Str Verif.Num Polynomial

variable {K : Type} [Field K] [LinearOrder K] [IsStrictOrderedRing K]

theorem stagger4_ok {e : Env K} {vl inl out allowed : Loc} {st : Stagger} (h : stagger4 e vl inl out allowed = .ok st) :
    inl = out ∧ stagger3 e vl out allowed = .ok st := by
  unfold stagger4 at h
  by_cases h1 : inl ≠ out
  · rw [if_pos h1] at h; cases h
  · rw [if_neg h1] at h
    by_cases h2 : ¬ (vl = inl ∨ (vl = .centre ∧ inl = allowed) ∨ (vl = allowed ∧ inl = .centre))
    · rw [if_pos h2] at h; cases h
    · rw [if_neg h2] at h; exact ⟨not_not.mp h1, h⟩

/-- What a flow derivative that returns has done. -/
theorem flow_ok {e : Env K} {d : Dir} {t : Deriv} {v f r : LField K} {outloc : Option Loc} {method : Chars}
    {region : Int → Bool} (hv : v.Legal e) (hn : e.npoints d ≠ 1)
    (h : flowDerivative e d t v f outloc method region = .ok r) :
    f.loc = outloc.getD f.loc ∧
    (f.loc = v.loc ∨ (f.loc = .centre ∧ v.loc = d.low) ∨ (f.loc = d.low ∧ v.loc = .centre)) ∧
    ∃ m, get e.hash true method d (stagOf d v.loc f.loc) t e.store = .ok m ∧
      ((m ≠ .split ∧ guardsOK e d m ∧ r.loc = f.loc ∧
        ∀ i, r.val i = if region i then flowVal e m (stagOf d v.loc f.loc) v.val f.val i else e.junk i) ∨
      (m = .split ∧ ∃ a b, flowDerivative0 e d .upwind v f (some f.loc) defaultName region = .ok a ∧
        standardDerivative e d .standard v (some f.loc) defaultName region = .ok b ∧
        r.loc = a.loc ∧ ∀ i, r.val i = a.val i + b.val i * f.val i)) := by
  simp only [flowDerivative, bind, Except.bind] at h
  cases hst : stagger4 e v.loc f.loc (outloc.getD f.loc) d.low with
  | error x => rw [hst] at h; cases h
  | ok st =>
    rw [hst] at h
    dsimp only at h
    rw [if_neg hn] at h
    obtain ⟨hio, hst3⟩ := stagger4_ok hst
    rw [← hio] at h hst3
    refine ⟨hio, ?_⟩
    cases hg : get e.hash true method d st t e.store with
    | error x => rw [hg] at h; cases h
    | ok m =>
      rw [hg] at h
      dsimp only at h
      cases hl : normaliseLocation e f.loc with
      | error x => rw [hl] at h; cases h
      | ok l =>
        rw [hl] at h
        dsimp only at h
        obtain ⟨hl1, hl2⟩ := normalise_ok hl
        obtain ⟨_, hv2⟩ := normalise_ok hv
        obtain ⟨hs1, hs2⟩ := stagger3_ok hst3
        have hs4 : st = stagOf d v.loc f.loc := hs2 (fun hh => ⟨hv2 hh, hl2 hh⟩)
        refine ⟨hs1, m, by rw [← hs4]; exact hg, ?_⟩
        rw [hl1] at h
        by_cases hsp : m = .split
        · right
          rw [if_pos hsp] at h
          refine ⟨hsp, ?_⟩
          cases ha : flowDerivative0 e d .upwind v f (some f.loc) defaultName region with
          | error x => rw [ha] at h; cases h
          | ok a =>
            rw [ha] at h
            dsimp only at h
            cases hb : standardDerivative e d .standard v (some f.loc) defaultName region with
            | error x => rw [hb] at h; cases h
            | ok b =>
              rw [hb] at h
              have := (Except.ok.inj h).symm
              subst this
              exact ⟨a, b, rfl, rfl, rfl, fun i => rfl⟩
        · left
          rw [if_neg hsp] at h
          by_cases hgu : ¬ (guardsOK e d m = true)
          · rw [if_pos hgu] at h; cases h
          · rw [if_neg hgu] at h
            have := (Except.ok.inj h).symm
            subst this
            refine ⟨hsp, not_not.mp hgu, rfl, fun i => ?_⟩
            dsimp only; rw [← hs4]

theorem flow0_ok {e : Env K} {d : Dir} {t : Deriv} {v f r : LField K} {outloc : Option Loc} {method : Chars}
    {region : Int → Bool} (hv : v.Legal e) (hn : e.npoints d ≠ 1)
    (h : flowDerivative0 e d t v f outloc method region = .ok r) :
    ∃ m, get e.hash true method d (stagOf d v.loc f.loc) t e.store = .ok m ∧ r.loc = f.loc ∧
        (f.loc = v.loc ∨ (f.loc = .centre ∧ v.loc = d.low) ∨ (f.loc = d.low ∧ v.loc = .centre)) ∧
        ∀ i, r.val i = if region i then flowVal e m (stagOf d v.loc f.loc) v.val f.val i else e.junk i := by
  simp only [flowDerivative0, bind, Except.bind] at h
  cases hst : stagger4 e v.loc f.loc (outloc.getD f.loc) d.low with
  | error x => rw [hst] at h; cases h
  | ok st =>
    rw [hst] at h
    dsimp only at h
    rw [if_neg hn] at h
    obtain ⟨hio, hst3⟩ := stagger4_ok hst
    rw [← hio] at h hst3
    cases hg : get e.hash true method d st t e.store with
    | error x => rw [hg] at h; cases h
    | ok m =>
      rw [hg] at h
      dsimp only at h
      cases hl : normaliseLocation e f.loc with
      | error x => rw [hl] at h; cases h
      | ok l =>
        rw [hl] at h
        dsimp only at h
        obtain ⟨hl1, hl2⟩ := normalise_ok hl
        obtain ⟨_, hv2⟩ := normalise_ok hv
        obtain ⟨hs1, hs2⟩ := stagger3_ok hst3
        have hs4 : st = stagOf d v.loc f.loc := hs2 (fun hh => ⟨hv2 hh, hl2 hh⟩)
        by_cases hgu : ¬ (guardsOK e d m = true)
        · rw [if_pos hgu] at h; cases h
        · rw [if_neg hgu] at h
          have := (Except.ok.inj h).symm
          subst this
          refine ⟨m, by rw [← hs4]; exact hg, hl1, hs1, fun i => ?_⟩
          dsimp only; rw [← hs4]

/-- The value of an advection method: exact for any velocity on an unstaggered grid, and for a uniform velocity on a
staggered one. -/
theorem upwind_exact (e : Env K) (is3D fftw : Bool) (st : Stagger) (d : Dir) (m : Impl)
    (hm : m ∈ table is3D fftw .upwind st d) (q : Nat)
    (hq : (m.meta.key, q) ∈ exactDegree .upwind (decide (st ≠ .none)))
    (P : K[X]) (hP : P.natDegree ≤ q) (x0 h : K) (hh : h ≠ 0) (l : Bool) (v : Int → K)
    (hv : st ≠ .none → ∃ c, v = fun _ => c) (i : Int) :
    flowVal e m st v (sample P x0 h (outLow st l)) i / h = v i * P.derivative.eval (pos x0 h (outLow st l) i) := by
  have hstag : st ≠ .none → m ∈ [Impl.vU1s, .vU2s, .vC2s, .vC4s] →
      flowVal e m st v (sample P x0 h (outLow st l)) i / h = v i * P.derivative.eval (pos x0 h (outLow st l) i) := by
    intro hst hm
    obtain ⟨c, rfl⟩ := hv hst
    have h1 := C30_staggered_upwind P x0 h e.nan c hh st hst l i
    have h2 := C30_staggered_upwind_central P (C c) x0 h e.nan hh st hst l i
    have hC : sample (C c) x0 h (inLow st l) = fun _ => c := by funext j; simp [sample]
    rw [hC] at h2
    simp only [eval_C, natDegree_C, Nat.zero_le, forall_const] at h2
    have hdec : decide (st ≠ .none) = true := by simpa using hst
    rw [hdec] at hq
    have hfl : ∀ func : Stencil K → Stencil K → K, (m.flx : Option (Stencil K → Stencil K → K)) = some func →
        flowVal e m st (fun _ => c) (sample P x0 h (outLow st l)) i =
          flowStencil func st m.wide e.nan (fun _ => c) (sample P x0 h (outLow st l)) i := by
      intro func hf
      rw [flowVal, if_pos (Or.inr hst), hf]
    simp only [List.mem_cons, List.not_mem_nil, or_false] at hm
    rcases hm with hm | hm | hm | hm
    · subst hm
      have : q = 1 := by simpa [exactDegree, Impl.meta] using hq
      rw [hfl _ rfl]; exact h1.1 (this ▸ hP)
    · subst hm
      have : q = 2 := by simpa [exactDegree, Impl.meta] using hq
      rw [hfl _ rfl]; exact h1.2 (this ▸ hP)
    · subst hm
      have : q = 2 := by simpa [exactDegree, Impl.meta] using hq
      rw [hfl _ rfl]; exact h2.1 (this ▸ hP)
    · subst hm
      have : q = 4 := by simpa [exactDegree, Impl.meta] using hq
      rw [hfl _ rfl]; exact h2.2 (this ▸ hP)
  cases st with
  | none =>
    have hu := C30_upwind P x0 h e.nan hh l v i
    simp only [outLow]
    simp only [table, List.mem_cons, List.not_mem_nil, or_false] at hm
    rcases hm with hm | hm | hm | hm | hm | hm <;> subst hm
    · have : q = 2 := by simpa [exactDegree, Impl.meta] using hq
      exact hu.1 (this ▸ hP)
    · have : q = 4 := by simpa [exactDegree, Impl.meta] using hq
      exact hu.2.1 (this ▸ hP)
    · have : q = 1 := by simpa [exactDegree, Impl.meta] using hq
      exact hu.2.2.1 (this ▸ hP)
    · have : q = 2 := by simpa [exactDegree, Impl.meta] using hq
      exact hu.2.2.2.1 (this ▸ hP)
    · have : q = 3 := by simpa [exactDegree, Impl.meta] using hq
      exact hu.2.2.2.2.1 (this ▸ hP)
    · have : q = 2 := by simpa [exactDegree, Impl.meta] using hq
      exact hu.2.2.2.2.2 (this ▸ hP)
  | c2l => exact hstag (by decide) hm
  | l2c => exact hstag (by decide) hm

/-- **C65.** Advection derivatives (`VDDX`, `VDDY`, `VDDZ` in index space).  With the conventions of
`C65_derivative_exact`: the result is at the field's location, and it is `v dP/dx` there, exactly, up to the degree of
the method; for any velocity if velocity and field are at the same location, for a uniform one if they are staggered. -/
theorem C65_advection_exact (e : Env K) (is3D fftw : Bool) (o : Opts) (he : Ready e is3D fftw o) (d : Dir)
    (v f r : LField K) (hv : v.Legal e) (hn : e.npoints d ≠ 1) (outloc : Option Loc) (method : Chars)
    (region : Int → Bool) (hr : flowDerivative e d .upwind v f outloc method region = .ok r)
    (P : K[X]) (x0 h : K) (hh : h ≠ 0) (hs : ∀ i, f.val i = sample P x0 h (isLow d f.loc) i)
    (huni : v.loc ≠ f.loc → ∃ c, ∀ i, v.val i = c)
    (q : Nat) (hP : P.natDegree ≤ q)
    (hq : (resolve o method .upwind d (stagOf d v.loc f.loc), q) ∈
      exactDegree .upwind (decide (stagOf d v.loc f.loc ≠ .none))) :
    r.loc = f.loc ∧ (outloc = none ∨ outloc = some f.loc) ∧
    ∀ i, region i = true → r.val i / h = v.val i * P.derivative.eval (pos x0 h (isLow d f.loc) i) := by
  obtain ⟨hout, hcase, m, hg, hm⟩ := flow_ok hv hn hr
  obtain ⟨hmt, hk⟩ := get_degree e is3D fftw o he .upwind d _ method q _ hq m hg
  have hns : m ≠ .split := by
    rintro rfl
    have := (degree_name _ _ _ _ hq).1
    have hnot : Impl.split ∉ table is3D fftw .upwind (stagOf d v.loc f.loc) d := by
      cases stagOf d v.loc f.loc <;> simp [table]
    exact hnot hmt
  rcases hm with ⟨_, _, hl, hval⟩ | ⟨hsp, _⟩
  swap
  · exact absurd hsp hns
  refine ⟨hl, ?_, fun i hi => ?_⟩
  · cases outloc with
    | none => exact Or.inl rfl
    | some x => right; simp only [Option.getD_some] at hout; rw [← hout]
  · obtain ⟨_, hl2⟩ := loc_cases d v.loc f.loc hcase
    rw [hval i, hi, if_pos rfl, hl2]
    have hfs : f.val = sample P x0 h (outLow (stagOf d v.loc f.loc) (isLow d v.loc)) := by
      funext j; rw [hs j, ← hl2]
    rw [hfs]
    rw [← hk] at hq
    refine upwind_exact e is3D fftw _ d m hmt q hq P hP x0 h hh _ v.val (fun hst => ?_) i
    have hne : v.loc ≠ f.loc := fun heq => hst (by rw [stagOf, if_pos heq])
    obtain ⟨c, hc⟩ := huni hne
    exact ⟨c, funext hc⟩

/-- The value of a flux method with a uniform velocity. -/
theorem flux_exact (e : Env K) (is3D fftw : Bool) (st : Stagger) (d : Dir) (m : Impl)
    (hm : m ∈ table is3D fftw .flux st d) (q : Nat)
    (hq : (m.meta.key, q) ∈ exactDegree .flux (decide (st ≠ .none)))
    (P : K[X]) (hP : P.natDegree ≤ q) (x0 h : K) (hh : h ≠ 0) (l : Bool) (c : K) (i : Int) :
    flowVal e m st (fun _ => c) (sample P x0 h (outLow st l)) i / h =
      c * P.derivative.eval (pos x0 h (outLow st l) i) := by
  have hu := C30_flux_uniform c e.nan (sample P x0 h (outLow st l)) i
  have hf : m.meta.type = .flux := by
    have key : ∀ m ∈ table is3D fftw .flux st d, m.meta.type = .flux := by cases st <;> simp only [table] <;> decide
    exact key m hm
  have hfl : ∀ func : Stencil K → Stencil K → K, (m.flx : Option (Stencil K → Stencil K → K)) = some func →
      flowVal e m st (fun _ => c) (sample P x0 h (outLow st l)) i =
        flowStencil func st m.wide e.nan (fun _ => c) (sample P x0 h (outLow st l)) i := by
    intro func hf'
    rw [flowVal, if_pos (Or.inl hf), hf']
  have hstag : st ≠ .none → m ∈ [Impl.fU1s, .fU2s, .split] →
      flowVal e m st (fun _ => c) (sample P x0 h (outLow st l)) i / h =
        c * P.derivative.eval (pos x0 h (outLow st l) i) := by
    intro hst hm
    have h1 := C30_staggered_upwind P x0 h e.nan c hh st hst l i
    have hdec : decide (st ≠ .none) = true := by simpa using hst
    rw [hdec] at hq
    simp only [List.mem_cons, List.not_mem_nil, or_false] at hm
    rcases hm with hm | hm | hm
    · subst hm
      have : q = 1 := by simpa [exactDegree, Impl.meta] using hq
      rw [hfl _ rfl]
      show flowStencil FDDX_U1_stag st false e.nan _ _ i / h = _
      rw [(hu.2.2.2.2 st).1]; exact h1.1 (this ▸ hP)
    · subst hm
      have : q = 2 := by simpa [exactDegree, Impl.meta] using hq
      rw [hfl _ rfl]
      show flowStencil FDDX_U2_stag st true e.nan _ _ i / h = _
      rw [(hu.2.2.2.2 st).2]; exact h1.2 (this ▸ hP)
    · subst hm
      simp [exactDegree, Impl.meta] at hq
  cases st with
  | none =>
    have hup := C30_upwind P x0 h e.nan hh l (fun _ => c) i
    simp only [outLow] at hu hfl ⊢
    simp only [table, List.mem_cons, List.not_mem_nil, or_false] at hm
    rcases hm with hm | hm | hm | hm | hm <;> subst hm
    · have : q = 1 := by simpa [exactDegree, Impl.meta] using hq
      rw [hfl _ rfl]
      show flowStencil FDDX_U1 .none false e.nan _ _ i / h = _
      rw [hu.1]; exact hup.2.2.1 (this ▸ hP)
    · have : q = 2 := by simpa [exactDegree, Impl.meta] using hq
      rw [hfl _ rfl]
      show flowStencil FDDX_U2 .none true e.nan _ _ i / h = _
      rw [hu.2.1]; exact hup.2.2.2.1 (this ▸ hP)
    · have : q = 2 := by simpa [exactDegree, Impl.meta] using hq
      rw [hfl _ rfl]
      have hw : ∀ f : Int → K, flowStencil FDDX_C2 .none (Impl.wide .fC2) e.nan (fun _ => c) f i =
          flowStencil FDDX_C2 .none false e.nan (fun _ => c) f i := fun f => rfl
      rw [hw]
      show flowStencil FDDX_C2 .none false e.nan _ _ i / h = _
      rw [hu.2.2.1]; exact hup.1 (this ▸ hP)
    · have : q = 4 := by simpa [exactDegree, Impl.meta] using hq
      rw [hfl _ rfl]
      show flowStencil FDDX_C4 .none true e.nan _ _ i / h = _
      rw [hu.2.2.2.1]; exact hup.2.1 (this ▸ hP)
    · simp [exactDegree, Impl.meta] at hq
  | c2l => exact hstag (by decide) hm
  | l2c => exact hstag (by decide) hm

/-- **C65.** Flux derivatives (`FDDX`, `FDDY`, `FDDZ` in index space) with a uniform velocity `c`: the result is
`d(cP)/dx` at the field's location, exactly, up to the degree of the method. -/
theorem C65_flux_exact (e : Env K) (is3D fftw : Bool) (o : Opts) (he : Ready e is3D fftw o) (d : Dir)
    (v f r : LField K) (hv : v.Legal e) (hn : e.npoints d ≠ 1) (outloc : Option Loc) (method : Chars)
    (region : Int → Bool) (hr : flowDerivative e d .flux v f outloc method region = .ok r)
    (P : K[X]) (x0 h : K) (hh : h ≠ 0) (hs : ∀ i, f.val i = sample P x0 h (isLow d f.loc) i)
    (c : K) (huni : ∀ i, v.val i = c) (q : Nat) (hP : P.natDegree ≤ q)
    (hq : (resolve o method .flux d (stagOf d v.loc f.loc), q) ∈
      exactDegree .flux (decide (stagOf d v.loc f.loc ≠ .none))) :
    r.loc = f.loc ∧ (outloc = none ∨ outloc = some f.loc) ∧
    ∀ i, region i = true → r.val i / h = (C c * P).derivative.eval (pos x0 h (isLow d f.loc) i) := by
  obtain ⟨hout, hcase, m, hg, hm⟩ := flow_ok hv hn hr
  obtain ⟨hmt, hk⟩ := get_degree e is3D fftw o he .flux d _ method q _ hq m hg
  have hns : m ≠ .split := by
    rintro rfl
    rw [← hk] at hq
    revert hq
    generalize decide (stagOf d v.loc f.loc ≠ .none) = s
    cases s <;> simp [exactDegree, Impl.meta]
  rcases hm with ⟨_, _, hl, hval⟩ | ⟨hsp, _⟩
  swap
  · exact absurd hsp hns
  refine ⟨hl, ?_, fun i hi => ?_⟩
  · cases outloc with
    | none => exact Or.inl rfl
    | some x => right; simp only [Option.getD_some] at hout; rw [← hout]
  · obtain ⟨_, hl2⟩ := loc_cases d v.loc f.loc hcase
    rw [hval i, hi, if_pos rfl, hl2]
    have hfs : f.val = sample P x0 h (outLow (stagOf d v.loc f.loc) (isLow d v.loc)) := by
      funext j; rw [hs j, ← hl2]
    have hvc : v.val = fun _ => c := funext huni
    rw [hfs, hvc]
    rw [← hk] at hq
    rw [flux_exact e is3D fftw _ d m hmt q hq P hP x0 h hh _ c i]
    simp

/-- **C65.** The `SPLIT` flux method: for a velocity and a field at the same location, sampling polynomials `V` and `P`,
the result is `d(VP)/dx`, exactly, as far as the default first derivative is exact for `V` and the default advection
method for `P`. -/
theorem C65_split_exact (e : Env K) (is3D fftw : Bool) (o : Opts) (he : Ready e is3D fftw o) (d : Dir)
    (v f r : LField K) (hv : v.Legal e) (hvf : v.loc = f.loc) (hn : e.npoints d ≠ 1) (outloc : Option Loc)
    (region : Int → Bool) (hr : flowDerivative e d .flux v f outloc "SPLIT".toList region = .ok r)
    (V P : K[X]) (x0 h : K) (hh : h ≠ 0) (hs : ∀ i, f.val i = sample P x0 h (isLow d f.loc) i)
    (hsv : ∀ i, v.val i = sample V x0 h (isLow d f.loc) i) (q q' : Nat) (hP : P.natDegree ≤ q) (hV : V.natDegree ≤ q')
    (hq : (defaultSpec o (initialDefault .upwind) d .none .upwind, q) ∈ exactDegree .upwind false)
    (hq' : (defaultSpec o (initialDefault .standard) d .none .standard, q') ∈ exactDegree .standard false) :
    r.loc = f.loc ∧
    ∀ i, region i = true → r.val i / h = (V * P).derivative.eval (pos x0 h (isLow d f.loc) i) := by
  obtain ⟨hout, hcase, m, hg, hm⟩ := flow_ok hv hn hr
  have hst : stagOf d v.loc f.loc = .none := by rw [stagOf, if_pos hvf]
  rw [hst] at hg hm
  have hne : "SPLIT".toList ≠ defaultName := by decide
  have hinj : KeyInj e.hash (fun n => n ∈ methodNames ∨ n = "SPLIT".toList) := by
    have hS : "SPLIT".toList ∈ methodNames := by decide
    intro a b c a' b' c' h1 h2
    refine he.names a b c a' b' c' ?_ ?_
    · rcases h1 with h | h
      · exact h
      · rw [h]; exact hS
    · rcases h2 with h | h
      · exact h
      · rw [h]; exact hS
  have hms : m = .split := by
    have := get_name e is3D fftw o he .flux d .none "SPLIT".toList hne hinj
    have hfind : (table is3D fftw .flux .none d).find? (fun m => m.meta.key = "SPLIT".toList) = some .split := by
      simp only [table]; decide +kernel
    rw [hfind] at this
    have h2 : get e.hash true "SPLIT".toList d .none .flux e.store = .ok .split := this
    rw [hg] at h2
    exact Except.ok.inj h2
  rcases hm with ⟨hns, _⟩ | ⟨_, a, b, ha, hb, hl, hval⟩
  · exact absurd hms hns
  obtain ⟨ma, hga, hla, _, hvala⟩ := flow0_ok hv hn ha
  have hrb := C65_derivative_exact e is3D fftw o he d .standard rfl v b hv hn _ _ region hb V x0 h hh
    (fun i => by rw [hsv i, hvf]) q' hV
  obtain ⟨mb, _, _, hlb, _, _⟩ := standard_ok hv hn hb
  have hlb' : b.loc = v.loc := by rw [hlb, Option.getD_some, hvf]
  have hstb : stagOf d v.loc b.loc = .none := by rw [hlb', stagOf, if_pos rfl]
  rw [hstb] at hrb
  have hres : ∀ t, resolve o defaultName t d .none = defaultSpec o (initialDefault t) d .none t := by
    intro t; rw [resolve, if_pos rfl]
  obtain ⟨_, hbv⟩ := hrb (by rw [hres]; exact hq')
  refine ⟨by rw [hl, hla], fun i hi => ?_⟩
  have hbi := hbv i hi
  rw [hst] at hga hvala
  obtain ⟨hmt, hk⟩ := get_degree e is3D fftw o he .upwind d .none defaultName q false (by rw [hres]; exact hq) ma hga
  rw [← hres, ← hk] at hq
  have hfs : f.val = sample P x0 h (isLow d f.loc) := funext hs
  have hai := upwind_exact e is3D fftw .none d ma hmt q hq P hP x0 h hh (isLow d f.loc) v.val (fun h => absurd rfl h) i
  simp only [outLow] at hai
  rw [← hfs] at hai
  rw [hlb', hvf] at hbi
  have hord : Deriv.standard.order = 1 := rfl
  rw [hord, pow_one, Function.iterate_one] at hbi
  rw [hval i, add_div, mul_div_right_comm, hvala i, hi, if_pos rfl, hai, hbi, hs i, hsv i]
  simp only [sample, derivative_mul, eval_add, eval_mul]
  ring

end Verif.Deriv
