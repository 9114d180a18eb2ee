import Verif.Deriv.DispatchProps

/-!
# C65: the derivatives are exact where their method says so
-/
namespace Verif.Deriv
open Verif.Str Verif.Num Polynomial

variable {K : Type} [Field K] [LinearOrder K] [IsStrictOrderedRing K]

/-- Whether a location is half a cell down in a direction. -/
def isLow (d : Dir) (l : Loc) : Bool := decide (l = d.low)

theorem low_ne_centre (d : Dir) : d.low ≠ .centre := by cases d <;> decide

theorem loc_cases (d : Dir) (inl out : Loc)
    (h : out = inl ∨ (out = .centre ∧ inl = d.low) ∨ (out = d.low ∧ inl = .centre)) :
    isLow d inl = inLow (stagOf d inl out) (isLow d inl) ∧ isLow d out = outLow (stagOf d inl out) (isLow d inl) := by
  have hne := low_ne_centre d
  rcases h with h | ⟨h1, h2⟩ | ⟨h1, h2⟩
  · subst h; simp [stagOf, inLow, outLow]
  · subst h1 h2
    have : stagOf d d.low .centre = .l2c := by
      rw [stagOf, if_neg hne, if_neg (fun h => hne h.symm)]
    rw [this]; simp [isLow, inLow, outLow, Ne.symm hne]
  · subst h1 h2
    have : stagOf d .centre d.low = .c2l := by
      rw [stagOf, if_neg (Ne.symm hne), if_pos rfl]
    rw [this]; simp [isLow, inLow, outLow, Ne.symm hne]

theorem std_exact (e : Env K) (is3D fftw : Bool) (t : Deriv) (ht : t.isFlow = false) (st : Stagger) (d : Dir) (m : Impl)
    (hm : m ∈ table is3D fftw t st d) (q : Nat) (hq : (m.meta.key, q) ∈ exactDegree t (decide (st ≠ .none)))
    (P : K[X]) (hP : P.natDegree ≤ q) (x0 h : K) (hh : h ≠ 0) (l : Bool) (i : Int) :
    stdValue e m st (sample P x0 h (inLow st l)) i / h ^ t.order =
      (derivative^[t.order] P).eval (pos x0 h (outLow st l) i) := by
  have hc := C30_first_central P x0 h e.nan hh l i
  have hhc := C30_higher_central P x0 h e.nan hh l i
  have hw2 := fun hP => C30_first_W2 P hP x0 h e.nan hh l i
  have hw3 := fun hP => C30_first_W3 P hP x0 h e.nan hh l i
  have hs2 := fun hP => C30_first_S2 P hP x0 h e.nan hh l i
  have hst := fun hne => C30_staggered P x0 h e.nan hh st hne l i
  cases t with
  | upwind => cases ht
  | flux => cases ht
  | standard =>
    simp only [Deriv.order, pow_one, Function.iterate_one]
    cases st with
    | none =>
      simp only [table, List.mem_append, List.mem_cons, List.not_mem_nil, or_false] at hm
      simp only [inLow, outLow]
      rcases hm with (hm | hm | hm | hm | hm) | hm
      · subst hm
        have : q = 2 := by simpa [exactDegree, Impl.meta] using hq
        exact hc.1 (this ▸ hP)
      · subst hm
        have : q = 4 := by simpa [exactDegree, Impl.meta] using hq
        exact hc.2 (this ▸ hP)
      · subst hm
        have : q = 1 := by simpa [exactDegree, Impl.meta] using hq
        exact hw2 (this ▸ hP)
      · subst hm
        have : q = 3 := by simpa [exactDegree, Impl.meta] using hq
        exact hs2 (this ▸ hP)
      · subst hm
        have : q = 2 := by simpa [exactDegree, Impl.meta] using hq
        exact hw3 (this ▸ hP)
      · split at hm
        · simp only [List.mem_cons, List.not_mem_nil, or_false] at hm
          subst hm
          simp [exactDegree, Impl.meta] at hq
        · cases hm
    | c2l =>
      simp only [table, List.mem_cons, List.not_mem_nil, or_false] at hm
      rcases hm with hm | hm
      · subst hm
        have : q = 2 := by simpa [exactDegree, Impl.meta] using hq
        exact (hst (by decide)).1 (this ▸ hP)
      · subst hm
        have : q = 4 := by simpa [exactDegree, Impl.meta] using hq
        exact (hst (by decide)).2.1 (this ▸ hP)
    | l2c =>
      simp only [table, List.mem_cons, List.not_mem_nil, or_false] at hm
      rcases hm with hm | hm
      · subst hm
        have : q = 2 := by simpa [exactDegree, Impl.meta] using hq
        exact (hst (by decide)).1 (this ▸ hP)
      · subst hm
        have : q = 4 := by simpa [exactDegree, Impl.meta] using hq
        exact (hst (by decide)).2.1 (this ▸ hP)
  | second =>
    simp only [Deriv.order]
    show _ = P.derivative.derivative.eval _
    cases st with
    | none =>
      simp only [table, List.mem_append, List.mem_cons, List.not_mem_nil, or_false] at hm
      simp only [inLow, outLow]
      rcases hm with (hm | hm) | hm
      · subst hm
        have : q = 3 := by simpa [exactDegree, Impl.meta] using hq
        exact hhc.1 (this ▸ hP)
      · subst hm
        have : q = 5 := by simpa [exactDegree, Impl.meta] using hq
        exact hhc.2.1 (this ▸ hP)
      · split at hm
        · simp only [List.mem_cons, List.not_mem_nil, or_false] at hm
          subst hm
          simp [exactDegree, Impl.meta] at hq
        · cases hm
    | c2l =>
      simp only [table, List.mem_cons, List.not_mem_nil, or_false] at hm
      subst hm
      have : q = 3 := by simpa [exactDegree, Impl.meta] using hq
      exact (hst (by decide)).2.2 (this ▸ hP)
    | l2c =>
      simp only [table, List.mem_cons, List.not_mem_nil, or_false] at hm
      subst hm
      have : q = 3 := by simpa [exactDegree, Impl.meta] using hq
      exact (hst (by decide)).2.2 (this ▸ hP)
  | fourth =>
    simp only [Deriv.order]
    show _ = P.derivative.derivative.derivative.derivative.eval _
    cases st with
    | none =>
      simp only [table, List.mem_cons, List.not_mem_nil, or_false] at hm
      subst hm
      have : q = 5 := by simpa [exactDegree, Impl.meta] using hq
      exact hhc.2.2 (this ▸ hP)
    | c2l => simp [table] at hm
    | l2c => simp [table] at hm

theorem degree_name (t : Deriv) (s : Bool) (n : Chars) (q : Nat) (h : (n, q) ∈ exactDegree t s) :
    n ∈ methodNames ∧ n ≠ defaultName := by
  have key : ∀ p ∈ exactDegree t s, p.1 ∈ methodNames ∧ p.1 ≠ defaultName := by
    cases t <;> cases s <;> decide +kernel
  exact key _ h

/-- The method of a call whose resolved name has a documented degree. -/
theorem get_degree (e : Env K) (is3D fftw : Bool) (o : Opts) (he : Ready e is3D fftw o) (t : Deriv) (d : Dir)
    (st : Stagger) (method : Chars) (q : Nat) (s : Bool) (hq : (resolve o method t d st, q) ∈ exactDegree t s) (m : Impl)
    (hg : get e.hash t.isFlow method d st t e.store = .ok m) :
    m ∈ table is3D fftw t st d ∧ m.meta.key = resolve o method t d st := by
  obtain ⟨hn1, hn2⟩ := degree_name t s _ q hq
  have hinj : KeyInj e.hash (fun n => n ∈ methodNames ∨ n = resolve o method t d st) := by
    intro a b c a' b' c' h1 h2
    refine he.names a b c a' b' c' ?_ ?_
    · rcases h1 with h | h
      · exact h
      · rw [h]; exact hn1
    · rcases h2 with h | h
      · exact h
      · rw [h]; exact hn1
  have hM := C65_methods e is3D fftw o he t d st method hn2 hinj
  by_cases hmem : resolve o method t d st ∈ methodsOf is3D fftw t st d
  · obtain ⟨m', h1, h2, h3⟩ := hM.1 hmem
    rw [hg] at h3
    have := Except.ok.inj h3
    subst this
    exact ⟨h1, h2⟩
  · rw [hM.2 hmem] at hg; cases hg

/-- **C65.** A derivative is exact at the location asked for.  In a program with the built-in methods and any options,
take a field that samples a polynomial `P` at its own cell location on a uniform grid of spacing `h`.  Whatever first,
second or fourth derivative, direction, output location and method are asked for, if the call returns, its result is at
the location asked for (or the field's own), and if the method named (or the default method the options give) is exact to
degree `q ≥ deg P`, then at every point of the region the result, divided by the power of the spacing, is the derivative
of `P` at the position of the *output* location. -/
theorem C65_derivative_exact (e : Env K) (is3D fftw : Bool) (o : Opts) (he : Ready e is3D fftw o) (d : Dir) (t : Deriv)
    (ht : t.isFlow = false) (f r : LField K) (hf : f.Legal e) (hn : e.npoints d ≠ 1) (outloc : Option Loc)
    (method : Chars) (region : Int → Bool) (hr : standardDerivative e d t f outloc method region = .ok r)
    (P : K[X]) (x0 h : K) (hh : h ≠ 0) (hs : ∀ i, f.val i = sample P x0 h (isLow d f.loc) i)
    (q : Nat) (hP : P.natDegree ≤ q)
    (hq : (resolve o method t d (stagOf d f.loc r.loc), q) ∈
      exactDegree t (decide (stagOf d f.loc r.loc ≠ .none))) :
    r.loc = outloc.getD f.loc ∧
    ∀ i, region i = true → r.val i / h ^ t.order = (derivative^[t.order] P).eval (pos x0 h (isLow d r.loc) i) := by
  obtain ⟨m, hg, _, hloc, hcase, hval⟩ := standard_ok hf hn hr
  refine ⟨hloc, fun i hi => ?_⟩
  rw [← hloc] at hg
  have hg' : get e.hash t.isFlow method d (stagOf d f.loc r.loc) t e.store = .ok m := by rw [ht]; exact hg
  obtain ⟨hm, hk⟩ := get_degree e is3D fftw o he t d _ method q _ hq m hg'
  obtain ⟨hl1, hl2⟩ := loc_cases d f.loc r.loc hcase
  rw [hval i, hi, if_pos rfl, hl2]
  have hfs : f.val = sample P x0 h (inLow (stagOf d f.loc r.loc) (isLow d f.loc)) := by
    funext j; rw [hs j, ← hl1]
  rw [hfs]
  rw [← hk] at hq
  exact std_exact e is3D fftw t ht _ d m hm q hq P hP x0 h hh _ i

/-- **C65.** On a mesh with one point in the direction every derivative is zero, whatever method is named. -/
theorem C65_single_point (e : Env K) (d : Dir) (t : Deriv) (f r : LField K) (hn : e.npoints d = 1) (outloc : Option Loc)
    (method : Chars) (region : Int → Bool) (hr : standardDerivative e d t f outloc method region = .ok r) :
    r.loc = outloc.getD f.loc ∧ ∀ i, r.val i = 0 := by
  simp only [standardDerivative, bind, Except.bind] at hr
  cases hst : stagger3 e f.loc (outloc.getD f.loc) d.low with
  | error x => rw [hst] at hr; cases hr
  | ok st =>
    rw [hst] at hr
    dsimp only at hr
    rw [if_pos hn] at hr
    cases hl : normaliseLocation e (outloc.getD f.loc) with
    | error x => rw [hl] at hr; cases hr
    | ok l =>
      rw [hl] at hr
      have := (Except.ok.inj hr).symm
      subst this
      exact ⟨(normalise_ok hl).1, fun _ => rfl⟩

end Verif.Deriv
