import Verif.Deriv.Flow

/-!
# C65: which derivative calls return, and documented calls that cannot
-/
namespace Verif.Deriv
open Verif.Str Verif.Num Polynomial

variable {K : Type} [Field K] [LinearOrder K] [IsStrictOrderedRing K]

/-- Guard cells the methods of a name need: as many as the widest stencil of that name and type. -/
def guardsNeeded (t : Deriv) (st : Stagger) (n : Chars) : Nat :=
  if (t = .standard ∧ (n = "C2".toList ∨ n = "W2".toList)) ∨ (t = .second ∧ st = .none ∧ n = "C2".toList) then 1 else 2

theorem guards_table (e : Env K) (is3D fftw : Bool) (t : Deriv) (ht : t.isFlow = false) (st : Stagger) (d : Dir)
    (m : Impl) (hm : m ∈ table is3D fftw t st d) : guardsOK e d m = decide (guardsNeeded t st m.meta.key ≤ e.nguard d) := by
  have key : ∀ m ∈ table is3D fftw t st d, (if m.wide then 2 else 1) = guardsNeeded t st m.meta.key := by
    cases is3D <;> cases fftw <;> cases d <;> cases t <;> cases st <;>
      first | decide +kernel | (exact absurd ht (by decide))
  rw [guardsOK, key m hm]

/-- **C65.** Which calls return.  On a mesh with more than one point in the direction, a first, second or fourth
derivative returns exactly if the output location is the field's own, or one of the two is the cell centre and the other
the lower face in the direction of the derivative; if an off-centre location is asked for only on a staggered grid; if
the name (or the default for it) is a method of that type, staggering and direction; and if there are enough guard
cells.  In all other cases an exception is thrown. -/
theorem C65_returns_iff (e : Env K) (is3D fftw : Bool) (o : Opts) (he : Ready e is3D fftw o) (d : Dir) (t : Deriv)
    (ht : t.isFlow = false) (f : LField K) (hf : f.Legal e) (hn : e.npoints d ≠ 1) (outloc : Option Loc)
    (method : Chars) (region : Int → Bool)
    (hd : resolve o method t d (stagOf d f.loc (outloc.getD f.loc)) ≠ defaultName)
    (hinj : KeyInj e.hash (fun n => n ∈ methodNames ∨ n = resolve o method t d (stagOf d f.loc (outloc.getD f.loc)))) :
    (∃ r, standardDerivative e d t f outloc method region = .ok r) ↔
      ((outloc.getD f.loc = f.loc ∨ (outloc.getD f.loc = .centre ∧ f.loc = d.low) ∨
          (outloc.getD f.loc = d.low ∧ f.loc = .centre)) ∧
        (outloc.getD f.loc ≠ .centre → e.staggerGrids = true)) ∧
      resolve o method t d (stagOf d f.loc (outloc.getD f.loc)) ∈
        methodsOf is3D fftw t (stagOf d f.loc (outloc.getD f.loc)) d ∧
      guardsNeeded t (stagOf d f.loc (outloc.getD f.loc))
        (resolve o method t d (stagOf d f.loc (outloc.getD f.loc))) ≤ e.nguard d := by
  have hM := C65_methods e is3D fftw o he t d _ method hd hinj
  rw [ht] at hM
  obtain ⟨-, hfc⟩ := normalise_ok hf
  constructor
  · rintro ⟨r, hr⟩
    obtain ⟨m, hg, hgu, hl, hcase, _⟩ := standard_ok hf hn hr
    rw [hl] at hcase
    have hmem : resolve o method t d (stagOf d f.loc (outloc.getD f.loc)) ∈
        methodsOf is3D fftw t (stagOf d f.loc (outloc.getD f.loc)) d := by
      by_contra hno
      rw [hM.2 hno] at hg; cases hg
    obtain ⟨m', h1, h2, h3⟩ := hM.1 hmem
    rw [hg] at h3
    have := Except.ok.inj h3
    subst this
    rw [guards_table e is3D fftw t ht _ d m h1, h2] at hgu
    refine ⟨⟨hcase, fun hne => ?_⟩, hmem, by simpa using hgu⟩
    by_contra hsg
    have hsg : e.staggerGrids = false := by simpa using hsg
    simp only [standardDerivative, bind, Except.bind] at hr
    cases hst : stagger3 e f.loc (outloc.getD f.loc) d.low with
    | error x => rw [hst] at hr; cases hr
    | ok st =>
      rw [hst] at hr
      dsimp only at hr
      rw [if_neg hn] at hr
      cases hgg : get e.hash false method d st t e.store with
      | error x => rw [hgg] at hr; cases hr
      | ok m2 =>
        rw [hgg] at hr
        have hl : normaliseLocation e (outloc.getD f.loc) = .error .location := by
          rw [normaliseLocation, hsg, if_neg (by decide), if_pos hne]
        rw [hl] at hr; cases hr
  · rintro ⟨⟨hcase, hsg⟩, hmem, hgu⟩
    obtain ⟨m, h1, h2, h3⟩ := hM.1 hmem
    have hst : stagger3 e f.loc (outloc.getD f.loc) d.low = .ok (stagOf d f.loc (outloc.getD f.loc)) := by
      rw [stagger3, if_neg (not_not.mpr hcase)]
      by_cases h : e.staggerGrids = false ∨ outloc.getD f.loc = f.loc
      · rw [if_pos h]
        have : f.loc = outloc.getD f.loc := by
          rcases h with h | h
          · by_contra hne
            have := hsg (fun hh => hne ((hfc h).trans hh.symm))
            rw [h] at this; cases this
          · exact h.symm
        rw [stagOf, if_pos this]
      · have hne : ¬ (f.loc = outloc.getD f.loc) := fun hh => h (Or.inr hh.symm)
        rw [if_neg h, stagOf, if_neg hne]
        by_cases hlo : outloc.getD f.loc = d.low
        · rw [if_pos hlo, if_pos hlo]
        · rw [if_neg hlo, if_neg hlo]
    have hlow : d.low ≠ .vshift := by cases d <;> decide
    have hl : normaliseLocation e (outloc.getD f.loc) = .ok (outloc.getD f.loc) := by
      rcases hcase with hc | ⟨hc, _⟩ | ⟨hc, _⟩
      · rw [hc]; exact hf
      · rw [hc, normaliseLocation]
        cases e.staggerGrids <;> rfl
      · have hs := hsg (by rw [hc]; exact low_ne_centre d)
        rw [hc, normaliseLocation, hs, if_pos rfl, if_neg hlow]
    have hgu' : guardsOK e d m = true := by
      rw [guards_table e is3D fftw t ht _ d m h1, h2]; simpa using hgu
    simp only [standardDerivative, bind, Except.bind, hst]
    rw [if_neg hn, h3]
    dsimp only
    rw [hl]
    dsimp only
    rw [if_neg (not_not.mpr hgu')]
    exact ⟨_, rfl⟩

/-- **C65, violated.** A staggered fourth derivative (`D4DX4` and the like from centre to face or back) throws, whatever
method is asked for and whatever the options say: there is none, not even the default. -/
theorem C65_staggered_fourth_violated (e : Env K) (is3D fftw : Bool) (o : Opts) (he : Ready e is3D fftw o) (d : Dir)
    (st : Stagger) (hst : st ≠ .none) (method : Chars) (hd : resolve o method .fourth d st ≠ defaultName)
    (hinj : KeyInj e.hash (fun n => n ∈ methodNames ∨ n = resolve o method .fourth d st)) :
    get e.hash false method d st .fourth e.store = .error .notFound := by
  refine (C65_methods e is3D fftw o he .fourth d st method hd hinj).2 ?_
  cases st with
  | none => exact absurd rfl hst
  | c2l => simp [methodsOf]
  | l2c => simp [methodsOf]

/-- Options that ask for FFT derivatives in Z, as in the manual. -/
def fftOpts : Opts := fun s k =>
  if s = "ddz".toList ∧ (k = "first".toList ∨ k = "second".toList) then some "fft".toList else none

/-- **C65, violated.** Asking for FFT derivatives in Z in the input file (`[ddz] first = fft`, `second = fft`) makes every
default staggered first or second derivative in Z throw, and every default second derivative in Z of a `Field2D`
(which is zero): the FFT methods exist only for unstaggered `Field3D`, but the default is set for all. -/
theorem C65_fft_default_violated (e : Env K) (is3D fftw : Bool) (he : Ready e is3D fftw fftOpts) (t : Deriv)
    (ht : t = .standard ∨ t = .second) (st : Stagger) (hst : st ≠ .none ∨ is3D = false) :
    get e.hash false defaultName .z st t e.store = .error .notFound := by
  have hres : resolve fftOpts defaultName t .z st = "FFT".toList := by
    rcases ht with rfl | rfl <;> cases st <;> decide +kernel
  have hflow : t.isFlow = false := by rcases ht with rfl | rfl <;> rfl
  have := (C65_methods e is3D fftw fftOpts he t .z st defaultName (by rw [hres]; decide) (by
    rw [hres]
    have hS : "FFT".toList ∈ methodNames := by decide
    intro a b c a' b' c' h1 h2
    refine he.names a b c a' b' c' ?_ ?_
    · rcases h1 with h | h
      · exact h
      · rw [h]; exact hS
    · rcases h2 with h | h
      · exact h
      · rw [h]; exact hS)).2 (by
    rw [hres]
    rcases ht with rfl | rfl <;> cases st <;> cases is3D <;> cases fftw <;>
      first | (exfalso; revert hst; decide) | decide +kernel)
  rw [hflow] at this
  exact this

/-- **C65, violated.** A method named in a call is compared as it is written, one named in the options in upper case: the
same text `c4` works as an option but throws as an argument. -/
theorem C65_case_violated (e : Env K) (is3D fftw : Bool) (he : Ready e is3D fftw (fun _ _ => some "c4".toList)) (d : Dir)
    (hinj : KeyInj e.hash (fun n => n ∈ methodNames ∨ n = "c4".toList)) :
    get e.hash false defaultName d .none .standard e.store = .ok .ddxC4 ∧
    get e.hash false "c4".toList d .none .standard e.store = .error .notFound := by
  set o : Opts := fun _ _ => some "c4".toList with ho
  have hres : resolve o defaultName .standard d .none = "C4".toList := by
    cases d <;> decide +kernel
  constructor
  · have h := get_resolved e is3D fftw o he .standard d .none defaultName (by rw [hres]; decide)
    rw [hres] at h
    have h2 := get_name e is3D fftw o he .standard d .none "C4".toList (by decide) (by
      have hS : "C4".toList ∈ methodNames := by decide
      intro a b c a' b' c' h1 h2
      refine he.names a b c a' b' c' ?_ ?_
      · rcases h1 with h | h
        · exact h
        · rw [h]; exact hS
      · rcases h2 with h | h
        · exact h
        · rw [h]; exact hS)
    have hfind : (table is3D fftw .standard .none d).find? (fun m => m.meta.key = "C4".toList) = some .ddxC4 := by
      cases is3D <;> cases fftw <;> cases d <;> decide +kernel
    rw [hfind] at h2
    exact h.trans h2
  · have h2 := get_name e is3D fftw o he .standard d .none "c4".toList (by decide) hinj
    have hfind : (table is3D fftw .standard .none d).find? (fun m => m.meta.key = "c4".toList) = none := by
      cases is3D <;> cases fftw <;> cases d <;> decide +kernel
    rw [hfind] at h2
    exact h2

/-! ## The hypotheses can be met -/

theorem sample_types : KeyInj sampleHash IsTypeName := by
  intro d s n d' s' n' hn hn' he
  refine keyInj_of_nodup _ _ typeKeys_nodup d s n d' s' n' ?_ ?_ he
  · obtain ⟨t, rfl⟩ := hn
    exact List.mem_map.mpr ⟨t, by cases t <;> decide, rfl⟩
  · obtain ⟨t, rfl⟩ := hn'
    exact List.mem_map.mpr ⟨t, by cases t <;> decide, rfl⟩

/-- A program on a staggered grid with the built-in methods. -/
def sampleEnv (o : Opts) : Env ℚ :=
  { hash := sampleHash, store := after sampleHash (builtins true true ++ [.initialise o]), staggerGrids := true,
    npoints := fun _ => 16, nguard := fun _ => 2, nan := 7, junk := fun _ => 9, fft1 := fun _ _ => 0,
    fft2 := fun _ _ => 0 }

theorem sample_names : KeyInj sampleHash (· ∈ methodNames) := keyInj_of_nodup _ _ methodKeys_nodup

theorem ready_of (e : Env K) (a b : Bool) (o : Opts) (hh : e.hash = sampleHash)
    (hs : e.store = after sampleHash (builtins a b ++ [.initialise o])) : Ready e a b o where
  store := by rw [hh]; exact hs
  types := by rw [hh]; exact sample_types
  names := by rw [hh]; exact sample_names

theorem sample_ready (o : Opts) : Ready (sampleEnv o) true true o :=
  ready_of _ _ _ _ (by simp only [sampleEnv]) (by simp only [sampleEnv])

theorem sample_legal (o : Opts) (g : Int → ℚ) : LField.Legal (sampleEnv o) ⟨.centre, g⟩ := by
  simp [LField.Legal, normaliseLocation, sampleEnv]

/-- A quadratic at cell centres, differentiated at the lower faces with the default method: the call returns and the
theorem applies. -/
example : ∃ r, standardDerivative (sampleEnv (fun _ _ => none)) .x .standard
    ⟨.centre, sample (X ^ 2 : ℚ[X]) 0 (1/2) false⟩ (some .xlow) defaultName (fun i => decide (0 ≤ i)) = .ok r ∧
    r.loc = .xlow ∧ r.val 3 / (1/2) = 5/2 := by
  have hret := (C65_returns_iff (sampleEnv (fun _ _ => none)) true true _ (sample_ready _) .x .standard rfl
    ⟨.centre, sample (X ^ 2 : ℚ[X]) 0 (1/2) false⟩ (sample_legal _ _) (by decide) (some .xlow) defaultName (fun i => decide (0 ≤ i))
    (by decide +kernel) (by
      have hres : resolve (fun _ _ => none) defaultName .standard .x (stagOf .x .centre .xlow) = "C2".toList := by
        decide +kernel
      have hS : "C2".toList ∈ methodNames := by decide
      show KeyInj sampleHash (fun n => n ∈ methodNames ∨
        n = resolve (fun _ _ => none) defaultName .standard .x (stagOf .x .centre .xlow))
      rw [hres]
      intro a b c a' b' c' h1 h2
      refine (sample_ready (fun _ _ => none)).names a b c a' b' c' ?_ ?_
      · rcases h1 with h | h
        · exact h
        · rw [h]; exact hS
      · rcases h2 with h | h
        · exact h
        · rw [h]; exact hS)).2 ⟨⟨Or.inr (Or.inr ⟨rfl, rfl⟩), fun _ => rfl⟩, by decide +kernel, by decide +kernel⟩
  obtain ⟨r, hr⟩ := hret
  refine ⟨r, hr, ?_⟩
  obtain ⟨_, _, _, hl, _, _⟩ := standard_ok (sample_legal _ _) (by decide) hr
  have hl : r.loc = .xlow := hl
  have h := C65_derivative_exact (sampleEnv (fun _ _ => none)) true true _ (sample_ready _) .x .standard rfl _ r
    (sample_legal _ _)
    (by decide) _ _ _ hr (X ^ 2) 0 (1/2) (by norm_num) (fun i => rfl) 2 (by simp) (by rw [hl]; decide +kernel)
  refine ⟨hl, ?_⟩
  have h3 := h.2 3 (by decide)
  rw [hl] at h3
  have e1 : Deriv.standard.order = 1 := rfl
  rw [e1, pow_one] at h3
  rw [h3]
  have e2 : isLow .x .xlow = true := by decide
  rw [e2]
  simp [pos]
  norm_num

end Verif.Deriv
