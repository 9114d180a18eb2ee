import Verif.Deriv.Dispatch
import Verif.Num.StencilMore

/-!
# C65: a derivative call computes the derivative it names, at the location it names
-/
namespace Verif.Deriv
open Verif.Str Verif.Num Polynomial

variable {K : Type} [Field K] [LinearOrder K] [IsStrictOrderedRing K]

/-! ## Specification -/

/-- The methods the code offers, by derivative type, staggering and direction. -/
def methodsOf (is3D fftw : Bool) (t : Deriv) (st : Stagger) (d : Dir) : List Chars :=
  let fft := if is3D && fftw && d = .z then ["FFT".toList] else []
  match t, st with
  | .standard, .none => ["C2".toList, "C4".toList, "W2".toList, "S2".toList, "W3".toList] ++ fft
  | .second, .none => ["C2".toList, "C4".toList] ++ fft
  | .fourth, .none => ["C2".toList]
  | .upwind, .none => ["C2".toList, "C4".toList, "U1".toList, "U2".toList, "U3".toList, "W3".toList]
  | .flux, .none => ["U1".toList, "U2".toList, "C2".toList, "C4".toList, "SPLIT".toList]
  | .standard, _ => ["C2".toList, "C4".toList]
  | .second, _ => ["C2".toList]
  | .fourth, _ => []
  | .upwind, _ => ["U1".toList, "U2".toList, "C2".toList, "C4".toList]
  | .flux, _ => ["U1".toList, "U2".toList, "SPLIT".toList]

/-- The degree up to which a method differentiates polynomials exactly (on a uniform grid). -/
def exactDegree (t : Deriv) (staggered : Bool) : List (Chars × Nat) :=
  match t, staggered with
  | .standard, false => [("C2".toList, 2), ("C4".toList, 4), ("W2".toList, 1), ("S2".toList, 3), ("W3".toList, 2)]
  | .second, false => [("C2".toList, 3), ("C4".toList, 5)]
  | .fourth, false => [("C2".toList, 5)]
  | .upwind, false => [("C2".toList, 2), ("C4".toList, 4), ("U1".toList, 1), ("U2".toList, 2), ("U3".toList, 3),
      ("W3".toList, 2)]
  | .flux, false => [("U1".toList, 1), ("U2".toList, 2), ("C2".toList, 2), ("C4".toList, 4)]
  | .standard, true => [("C2".toList, 2), ("C4".toList, 4)]
  | .second, true => [("C2".toList, 3)]
  | .fourth, true => []
  | .upwind, true => [("U1".toList, 1), ("U2".toList, 2), ("C2".toList, 2), ("C4".toList, 4)]
  | .flux, true => [("U1".toList, 1), ("U2".toList, 2)]

/-- How often a derivative type differentiates. -/
def Deriv.order : Deriv → Nat
  | .second => 2
  | .fourth => 4
  | _ => 1

/-- The staggering of a derivative from one location to another. -/
def stagOf (d : Dir) (inloc outloc : Loc) : Stagger :=
  if inloc = outloc then .none else if outloc = d.low then .c2l else .l2c

/-- The method a call uses: the one named, or the default read from the options. -/
def resolve (o : Opts) (method : Chars) (t : Deriv) (d : Dir) (st : Stagger) : Chars :=
  if method = defaultName then defaultSpec o (initialDefault t) d st t else method

/-- A program that has made the built-in registrations and read its options, with a hash function that confuses none of
the names in use. -/
structure Ready (e : Env K) (is3D fftw : Bool) (o : Opts) : Prop where
  store : e.store = after e.hash (builtins is3D fftw ++ [.initialise o])
  types : KeyInj e.hash IsTypeName
  names : KeyInj e.hash (· ∈ methodNames)

/-! ## The built-in registrations -/

/-- The built-in methods of a type, staggering and direction. -/
def table (is3D fftw : Bool) (t : Deriv) (st : Stagger) (d : Dir) : List Impl :=
  let fft (m : Impl) := if is3D && fftw && d = .z then [m] else []
  match t, st with
  | .standard, .none => [.ddxC2, .ddxC4, .ddxW2, .ddxS2, .ddxW3] ++ fft .fft1
  | .second, .none => [.d2C2, .d2C4] ++ fft .fft2
  | .fourth, .none => [.d4C2]
  | .upwind, .none => [.vC2, .vC4, .vU1, .vU2, .vU3, .vW3]
  | .flux, .none => [.fU1, .fU2, .fC2, .fC4, .split]
  | .standard, _ => [.ddxC2s, .ddxC4s]
  | .second, _ => [.d2C2s]
  | .fourth, _ => []
  | .upwind, _ => [.vU1s, .vU2s, .vC2s, .vC4s]
  | .flux, _ => [.fU1s, .fU2s, .split]

theorem filter_regs (is3D fftw : Bool) (t : Deriv) (st : Stagger) (d : Dir) :
    (builtinRegs is3D fftw).filter (fun r => r.impl.meta.type = t ∧ r.dir = d ∧ r.stag = st) =
      (table is3D fftw t st d).map (fun m => ⟨m, d, st⟩) := by
  cases is3D <;> cases fftw <;> cases t <;> cases st <;> cases d <;> decide +kernel

theorem table_keys (is3D fftw : Bool) (t : Deriv) (st : Stagger) (d : Dir) :
    (table is3D fftw t st d).map (fun m => m.meta.key) = methodsOf is3D fftw t st d := by
  cases is3D <;> cases fftw <;> cases t <;> cases st <;> cases d <;> rfl

theorem first_regs (t : Deriv) (d : Dir) (st : Stagger) (name : Chars) (l : List Reg) (o : Opts) :
    firstRegistered t d st name (l.map Reg.op ++ [.initialise o]) =
      ((l.filter (fun r => r.impl.meta.type = t ∧ r.dir = d ∧ r.stag = st)).find?
        (fun r => r.impl.meta.key = name)).map Reg.impl := by
  induction l with
  | nil => rfl
  | cons r l ih =>
    simp only [List.map_cons, List.cons_append, Reg.op, firstRegistered, true_and, List.filter_cons, decide_eq_true_eq]
    by_cases h1 : r.impl.meta.type = t ∧ r.dir = d ∧ r.stag = st
    · rw [if_pos h1, List.find?_cons]
      by_cases h2 : r.impl.meta.key = name
      · rw [if_pos ⟨h1.1, h1.2.1, h1.2.2, h2⟩]; simp [h2]
      · rw [if_neg (fun h => h2 h.2.2.2)]; simp only [h2, decide_false]; exact ih
    · rw [if_neg h1, if_neg (fun h => h1 ⟨h.1, h.2.1, h.2.2.1⟩)]; exact ih

theorem regNames_map (l : List Reg) (o : Opts) (n : Chars) :
    n ∈ regNames (l.map Reg.op ++ [.initialise o]) → ∃ r ∈ l, r.impl.meta.key = n := by
  induction l with
  | nil => intro h; cases h
  | cons r l ih =>
    intro h
    simp only [List.map_cons, List.cons_append, Reg.op, regNames, List.mem_cons] at h
    rcases h with h | h
    · exact ⟨r, by simp, h.symm⟩
    · obtain ⟨r', h1, h2⟩ := ih h
      exact ⟨r', List.mem_cons_of_mem _ h1, h2⟩

theorem key_mem (m : Impl) : m.meta.key ∈ methodNames := by cases m <;> decide

theorem get_name (e : Env K) (is3D fftw : Bool) (o : Opts) (he : Ready e is3D fftw o) (t : Deriv) (d : Dir)
    (st : Stagger) (name : Chars) (hd : name ≠ defaultName)
    (hinj : KeyInj e.hash (fun n => n ∈ methodNames ∨ n = name)) :
    get e.hash t.isFlow name d st t e.store =
      match (table is3D fftw t st d).find? (fun m => m.meta.key = name) with
      | some m => .ok m
      | none => .error .notFound := by
  rw [he.store, C65_lookup _ _ _ _ _ _ hd, builtins, first_regs, filter_regs]
  · have : ∀ l : List Impl, ((l.map (fun m => (⟨m, d, st⟩ : Reg))).find? (fun r => r.impl.meta.key = name)).map Reg.impl =
        l.find? (fun m => m.meta.key = name) := by
      intro l
      induction l with
      | nil => rfl
      | cons m l ih =>
        simp only [List.map_cons, List.find?_cons]
        by_cases h : m.meta.key = name
        · simp [h]
        · simp only [h, decide_false]; exact ih
    rw [this]
    cases (table is3D fftw t st d).find? (fun m => m.meta.key = name) <;> rfl
  · intro a b c a' b' c' h1 h2
    refine hinj a b c a' b' c' (h1.imp (fun h => ?_) id) (h2.imp (fun h => ?_) id)
    all_goals
      obtain ⟨r, _, hr⟩ := regNames_map _ _ _ h
      rw [← hr]; exact key_mem _

theorem ready_default (e : Env K) (is3D fftw : Bool) (o : Opts) (he : Ready e is3D fftw o) (t : Deriv) (d : Dir)
    (st : Stagger) : defOf e.hash e.store d st t = some (defaultSpec o (initialDefault t) d st t) := by
  rw [he.store]
  refine C65_default_builtin e.hash he.types _ (fun op hop => ?_) o d st t
  obtain ⟨r, _, rfl⟩ := List.mem_map.mp hop
  exact ⟨_, _, _, _, _, _, rfl⟩

/-- The lookup of a call, by the name it resolves to. -/
theorem get_resolved (e : Env K) (is3D fftw : Bool) (o : Opts) (he : Ready e is3D fftw o) (t : Deriv) (d : Dir)
    (st : Stagger) (method : Chars) (hd : resolve o method t d st ≠ defaultName) :
    get e.hash t.isFlow method d st t e.store =
      get e.hash t.isFlow (resolve o method t d st) d st t e.store := by
  by_cases hm : method = defaultName
  · have := ready_default e is3D fftw o he t d st
    simp only [defOf] at this
    have hr : resolve o method t d st = defaultSpec o (initialDefault t) d st t := by rw [resolve, if_pos hm]
    rw [hr] at hd ⊢
    simp only [get, this, hm, nameLookup, ne_eq, not_true_eq_false, if_false, hd, not_false_eq_true, if_true]
  · rw [resolve, if_neg hm]

/-- **C65.** What can be asked for: with the built-in methods, a name gives a method exactly if it is in the list of its
type, staggering and direction, and every other name is refused with an exception. -/
theorem C65_methods (e : Env K) (is3D fftw : Bool) (o : Opts) (he : Ready e is3D fftw o) (t : Deriv) (d : Dir)
    (st : Stagger) (method : Chars) (hd : resolve o method t d st ≠ defaultName)
    (hinj : KeyInj e.hash (fun n => n ∈ methodNames ∨ n = resolve o method t d st)) :
    (resolve o method t d st ∈ methodsOf is3D fftw t st d →
      ∃ m ∈ table is3D fftw t st d, m.meta.key = resolve o method t d st ∧
        get e.hash t.isFlow method d st t e.store = .ok m) ∧
    (resolve o method t d st ∉ methodsOf is3D fftw t st d →
      get e.hash t.isFlow method d st t e.store = .error .notFound) := by
  rw [get_resolved e is3D fftw o he t d st method hd, get_name e is3D fftw o he t d st _ hd hinj, ← table_keys]
  generalize resolve o method t d st = n
  constructor
  · intro h
    obtain ⟨m, h1, h2⟩ := List.mem_map.mp h
    cases hf : (table is3D fftw t st d).find? (fun m => m.meta.key = n) with
    | none =>
      have := List.find?_eq_none.mp hf m h1
      simp [h2] at this
    | some m' =>
      exact ⟨m', List.mem_of_find?_eq_some hf, by simpa using List.find?_some hf, rfl⟩
  · intro h
    cases hf : (table is3D fftw t st d).find? (fun m => m.meta.key = n) with
    | none => rfl
    | some m' =>
      exact absurd (List.mem_map.mpr ⟨m', List.mem_of_find?_eq_some hf, by simpa using List.find?_some hf⟩) h

/-! ## The kernels -/

/-- A field that can exist on this mesh: its location is one `setLocation` accepts. -/
def LField.Legal (e : Env K) (f : LField K) : Prop := normaliseLocation e f.loc = .ok f.loc

theorem normalise_ok {e : Env K} {l l' : Loc} (h : normaliseLocation e l = .ok l') :
    l' = l ∧ (e.staggerGrids = false → l = .centre) := by
  unfold normaliseLocation at h
  cases hs : e.staggerGrids with
  | true =>
    rw [hs, if_pos rfl] at h
    by_cases hv : l = .vshift
    · rw [if_pos hv] at h; cases h
    · rw [if_neg hv] at h
      exact ⟨(Except.ok.inj h).symm, fun h => by cases h⟩
  | false =>
    rw [hs, if_neg (by decide)] at h
    by_cases hc : l ≠ .centre
    · rw [if_pos hc] at h; cases h
    · rw [if_neg hc] at h
      have hc := not_not.mp hc
      exact ⟨by rw [hc]; exact (Except.ok.inj h).symm, fun _ => hc⟩

theorem stagger3_ok {e : Env K} {inl out allowed : Loc} {st : Stagger} (h : stagger3 e inl out allowed = .ok st) :
    (out = inl ∨ (out = .centre ∧ inl = allowed) ∨ (out = allowed ∧ inl = .centre)) ∧
    ((e.staggerGrids = false → inl = .centre ∧ out = .centre) →
      st = if inl = out then .none else if out = allowed then .c2l else .l2c) := by
  unfold stagger3 at h
  by_cases h1 : ¬ (out = inl ∨ (out = .centre ∧ inl = allowed) ∨ (out = allowed ∧ inl = .centre))
  · rw [if_pos h1] at h; cases h
  · rw [if_neg h1] at h
    refine ⟨not_not.mp h1, fun hc => ?_⟩
    by_cases h2 : e.staggerGrids = false ∨ out = inl
    · rw [if_pos h2] at h
      have : inl = out := by
        rcases h2 with h2 | h2
        · rw [(hc h2).1, (hc h2).2]
        · exact h2.symm
      rw [if_pos this]; exact (Except.ok.inj h).symm
    · rw [if_neg h2] at h
      rw [if_neg (fun hh => h2 (Or.inr hh.symm))]
      by_cases h3 : out = allowed
      · rw [if_pos h3] at h ⊢; exact (Except.ok.inj h).symm
      · rw [if_neg h3] at h ⊢; exact (Except.ok.inj h).symm

theorem standard_ok {e : Env K} {d : Dir} {t : Deriv} {f r : LField K} {outloc : Option Loc} {method : Chars}
    {region : Int → Bool} (hf : f.Legal e) (hn : e.npoints d ≠ 1)
    (h : standardDerivative e d t f outloc method region = .ok r) :
    ∃ m, get e.hash false method d (stagOf d f.loc (outloc.getD f.loc)) t e.store = .ok m ∧ guardsOK e d m ∧
      r.loc = outloc.getD f.loc ∧
      (r.loc = f.loc ∨ (r.loc = .centre ∧ f.loc = d.low) ∨ (r.loc = d.low ∧ f.loc = .centre)) ∧
      ∀ i, r.val i = if region i then stdValue e m (stagOf d f.loc r.loc) f.val i else e.junk i := by
  simp only [standardDerivative, bind, Except.bind] at h
  cases hst : stagger3 e f.loc (outloc.getD f.loc) d.low with
  | error x => rw [hst] at h; cases h
  | ok st =>
    rw [hst] at h
    dsimp only at h
    rw [if_neg hn] at h
    cases hg : get e.hash false method d st t e.store with
    | error x => rw [hg] at h; cases h
    | ok m =>
      rw [hg] at h
      dsimp only at h
      cases hl : normaliseLocation e (outloc.getD f.loc) with
      | error x => rw [hl] at h; cases h
      | ok l =>
        rw [hl] at h
        dsimp only at h
        by_cases hgu : ¬ (guardsOK e d m = true)
        · rw [if_pos hgu] at h; cases h
        · rw [if_neg hgu] at h
          obtain ⟨hl1, hl2⟩ := normalise_ok hl
          obtain ⟨_, hf2⟩ := normalise_ok hf
          obtain ⟨hs1, hs2⟩ := stagger3_ok hst
          have hs3 := hs2 (fun hh => ⟨hf2 hh, hl2 hh⟩)
          have hs4 : st = stagOf d f.loc (outloc.getD f.loc) := hs3
          have hr := (Except.ok.inj h).symm
          subst hr
          refine ⟨m, by rw [← hs4]; exact hg, not_not.mp hgu, hl1, ?_, fun i => ?_⟩
          · dsimp only; rw [hl1]; exact hs1
          · dsimp only; rw [hl1, ← hs4]

/-! ## The names in the manual -/

/-- The section of the input file for each direction, the key for each type of derivative, and its built-in default. -/
def docSection : List (Dir × Chars) := [(.x, "ddx".toList), (.y, "ddy".toList), (.yOrth, "ddy".toList), (.z, "ddz".toList)]
def docKey : List (Deriv × Chars × Chars) :=
  [(.standard, "first".toList, "C2".toList), (.second, "second".toList, "C2".toList), (.fourth, "fourth".toList, "C2".toList),
   (.upwind, "upwind".toList, "U1".toList), (.flux, "flux".toList, "U1".toList)]

/-- **C65.** The default of an unstaggered derivative, in the words of the manual: the entry `sect:key`, else `diff:key`, else the
built-in one. -/
theorem C65_documented_default {F : Type} (hash : Chars → Key) (hinj : KeyInj hash IsTypeName) (regs : List (Op F))
    (hregs : ∀ op ∈ regs, ∃ flow f t d st n, op = .register flow f t d st n) (o : Opts) {d : Dir} {t : Deriv} {sect key dflt : Chars}
    (hd : (d, sect) ∈ docSection) (ht : (t, key, dflt) ∈ docKey) :
    defOf hash (after hash (regs ++ [.initialise o])) d .none t =
      some (match o sect key with
        | some m => upper m
        | none => match o "diff".toList key with
          | some m => upper m
          | none => dflt) := by
  rw [C65_default_builtin hash hinj regs hregs]
  have e1 : d.sect = sect := by
    simp only [docSection, List.mem_cons, Prod.mk.injEq, List.not_mem_nil, or_false] at hd
    rcases hd with ⟨rfl, rfl⟩ | ⟨rfl, rfl⟩ | ⟨rfl, rfl⟩ | ⟨rfl, rfl⟩ <;> rfl
  have e2 : t.opt = key ∧ initialDefault t = dflt ∧ upper dflt = dflt := by
    simp only [docKey, List.mem_cons, Prod.mk.injEq, List.not_mem_nil, or_false] at ht
    rcases ht with ⟨rfl, rfl, rfl⟩ | ⟨rfl, rfl, rfl⟩ | ⟨rfl, rfl, rfl⟩ | ⟨rfl, rfl, rfl⟩ | ⟨rfl, rfl, rfl⟩ <;> decide
  obtain ⟨e2, e3, e4⟩ := e2
  simp only [defaultSpec, e1, e2, e3]
  cases o sect key with
  | some m => rfl
  | none =>
    cases o "diff".toList key with
    | some m => rfl
    | none => exact congrArg some e4

/-- The staggered location that belongs to each direction. -/
def docLow : List (Dir × Loc) := [(.x, .xlow), (.y, .ylow), (.yOrth, .ylow), (.z, .zlow)]

/-- **C65.** The location of a result: that of the field, or one of the two moves between cell centre and the lower face in the
direction of the derivative. -/
theorem C65_moves {e : Env K} {d : Dir} {t : Deriv} {f r : LField K} {outloc : Option Loc} {method : Chars} {region : Int → Bool}
    (hf : f.Legal e) (hn : e.npoints d ≠ 1) (h : standardDerivative e d t f outloc method region = .ok r) {low : Loc}
    (hd : (d, low) ∈ docLow) : r.loc = f.loc ∨ (f.loc = .centre ∧ r.loc = low) ∨ (f.loc = low ∧ r.loc = .centre) := by
  have e1 : d.low = low := by
    simp only [docLow, List.mem_cons, Prod.mk.injEq, List.not_mem_nil, or_false] at hd
    rcases hd with ⟨rfl, rfl⟩ | ⟨rfl, rfl⟩ | ⟨rfl, rfl⟩ | ⟨rfl, rfl⟩ <;> rfl
  obtain ⟨m, -, -, -, h1, -⟩ := standard_ok hf hn h
  rw [e1] at h1
  tauto

end Verif.Deriv
