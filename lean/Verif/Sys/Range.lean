import Verif.Common
import Mathlib.Data.List.Basic
import Mathlib.Data.List.Flatten
import Mathlib.Logic.Function.Iterate
/-!
# C34: `RangeIterator` (`include/bout/sys/range.hxx`, `src/sys/range.cxx`)

The chain of ranges reached through the `n` pointers is a list; the `cur` pointer is the remaining suffix of it
(`[]` = null).  `int` is `Int`.
-/
namespace Verif.Range

/-- One link of the chain: `is`, `ie` and `delete_next` (range.hxx:69-73). -/
structure Node where
  is : Int
  ie : Int
  own : Bool := false
  deriving DecidableEq

/-- Iteration state: `cur`, `ind`, `curend`. -/
structure It where
  cur : List Node
  ind : Int
  curend : Int

/-- range.cxx:56-69 `first` (the constructors, range.cxx:3-36, set the same state). -/
def first : List Node → It
  | [] => { cur := [], ind := 0, curend := 0 }
  | r :: t =>
    if r.is > r.ie then
      match t with
      | [] => { cur := [], ind := r.is, curend := r.ie }
      | r' :: t' => { cur := r' :: t', ind := r'.is, curend := r'.ie }
    else { cur := r :: t, ind := r.is, curend := r.ie }

/-- range.cxx:87 `isDone`. -/
def isDone (s : It) : Bool := s.cur.isEmpty

/-- range.cxx:71-85 `next`. -/
def next (s : It) : It :=
  if isDone s then s
  else
    let ind := s.ind + 1
    if ind > s.curend then
      match s.cur.tail with
      | [] => { s with cur := [], ind := ind }
      | r :: t => { cur := r :: t, ind := r.is, curend := r.ie }
    else { s with ind := ind }

/-- range.cxx:99-107 `intersects(int)` with `all = true`. -/
def intersectsInt (i : Int) : List Node → Bool
  | [] => false
  | r :: t => if decide (r.is ≤ i ∧ r.ie ≥ i) then true else intersectsInt i t

/-- range.cxx:89-97 `intersects(other, all = true)`; only the first range of `other` is looked at. -/
def intersects (other : Node) : List Node → Bool
  | [] => false
  | r :: t => if decide (other.is ≤ r.ie ∧ other.ie ≥ r.is) then true else intersects other t

/-- range.cxx:123-132 `operator+=`: a copy of `r` (sharing `r`'s own chain) is put at the end, and the old last
link becomes its owner. -/
def plusEq : List Node → List Node → List Node
  | [], r => r
  | [a], r => { a with own := true } :: r
  | a :: t, r => a :: plusEq t r

/-- range.cxx:141-163: effect of one removed range `b` on the link `it`; `hd` is the head object `this` when `it` is
not the head.  Note that on total overlap the code invalidates `this` (`is = 1; ie = 0`), not `it`. -/
def inner (st : Option Node × Node × List Node) (b : Node) : Option Node × Node × List Node :=
  let (hd, it, rest) := st
  if b.is ≤ it.ie ∧ b.ie ≥ it.is then
    if b.is ≤ it.is ∧ b.ie ≥ it.ie then
      match hd with
      | none => (none, { it with is := 1, ie := 0 }, rest)
      | some h => (some { h with is := 1, ie := 0 }, it, rest)
    else if b.is > it.is ∧ b.ie ≥ it.ie then (hd, { it with ie := b.is - 1 }, rest)
    else if b.is ≤ it.is ∧ b.ie < it.ie then (hd, { it with is := b.ie + 1 }, rest)
    else (hd, { it with ie := b.is - 1, own := true }, { is := b.ie + 1, ie := it.ie, own := false } :: rest)
  else (hd, it, rest)

/-- range.cxx:134-182 `operator-=`: the outer loop.  `hd = none` while `it` is the head; `done` are the links passed so
far (newest first).  Deleting a link that was not allocated by this chain, and following a pointer into a freed
link, are `ub`.  `fuel` bounds the number of iterations. -/
def outer (rs : List Node) : Nat → Option Node → List Node → Node → List Node → Out (List Node)
  | 0, _, _, _, _ => .error (.exc "out of fuel")
  | fuel + 1, hd, done, it, rest =>
    let st := rs.foldl inner (hd, it, rest)
    let hd' := st.1
    let it' := st.2.1
    let rest' := st.2.2
    let h := hd'.getD it'
    let finish := match hd' with
      | none => [it']
      | some h => h :: done.reverse ++ [it']
    let advance := match rest' with
      | [] => .ok finish
      | nx :: rest'' => match hd' with
        | none => outer rs fuel (some it') done nx rest''
        | some h => outer rs fuel (some h) (it' :: done) nx rest''
    if h.is > h.ie then
      match rest' with
      | [] => .ok finish
      | tmp :: rest'' =>
        if it'.own = false then .error (.ub "delete of a range this chain does not own")
        else if tmp.own = true ∧ rest'' ≠ [] then .error (.ub "use of a freed range")
        else outer rs fuel hd' done { tmp with own := it'.own } rest''
    else advance

/-- `a -= r`. -/
def minusEq (fuel : Nat) (a r : List Node) : Out (List Node) :=
  match a with
  | [] => .ok []
  | h :: t => outer r fuel none [] h t

/-! ## Specification -/

/-- The integers of a range, in order; none if `ie < is`. -/
def elems (r : Node) : List Int := (List.range (r.ie - r.is + 1).toNat).map (fun (k : Nat) => r.is + (k : Int))

/-- The integers of a chain of ranges, in order. -/
def points (rs : List Node) : List Int := (rs.map elems).flatten

def Valid (r : Node) : Prop := r.is ≤ r.ie

instance (r : Node) : Decidable (Valid r) := inferInstanceAs (Decidable (r.is ≤ r.ie))

theorem mem_elems (r : Node) (i : Int) : i ∈ elems r ↔ r.is ≤ i ∧ i ≤ r.ie := by
  unfold elems
  simp only [List.mem_map, List.mem_range]
  constructor
  · rintro ⟨k, hk, rfl⟩; omega
  · rintro ⟨h1, h2⟩; exact ⟨(i - r.is).toNat, by omega, by omega⟩

theorem mem_points (rs : List Node) (i : Int) : i ∈ points rs ↔ ∃ r ∈ rs, r.is ≤ i ∧ i ≤ r.ie := by
  unfold points
  simp only [List.mem_flatten, List.mem_map]
  constructor
  · rintro ⟨_, ⟨r, hr, rfl⟩, hi⟩; exact ⟨r, hr, (mem_elems r i).mp hi⟩
  · rintro ⟨r, hr, hi⟩; exact ⟨_, ⟨r, hr, rfl⟩, (mem_elems r i).mpr hi⟩

/-- `It` stands in front of the sequence `l`: `l` is what remains to be visited, current element first. -/
def Ahead : It → List Int → Prop
  | s, l => ∀ k, (isDone (next^[k] s) = true ↔ l.length ≤ k) ∧
      (∀ h : k < l.length, (next^[k] s).ind = l[k])

theorem ahead_nil (s : It) (h : s.cur = []) : Ahead s [] := by
  have hn : next s = s := by simp [next, isDone, h]
  have : ∀ k, next^[k] s = s := by
    intro k; induction k with
    | zero => rfl
    | succ k ih => rw [Function.iterate_succ_apply, hn, ih]
  intro k
  rw [this k]
  exact ⟨by simp [isDone, h], by simp⟩

theorem ahead_cons (s : It) (x : Int) (l : List Int) (h1 : isDone s = false) (h2 : s.ind = x)
    (h3 : Ahead (next s) l) : Ahead s (x :: l) := by
  intro k
  cases k with
  | zero => exact ⟨by simp [h1], by intro _; simpa using h2⟩
  | succ k =>
    rw [Function.iterate_succ_apply]
    obtain ⟨a, b⟩ := h3 k
    exact ⟨by rw [a]; simp, by intro h; simpa using b (by simpa using h)⟩

theorem elems_cons (r : Node) (h : r.is ≤ r.ie) : elems r = r.is :: elems { r with is := r.is + 1 } := by
  unfold elems
  have e : (r.ie - r.is + 1).toNat = (r.ie - (r.is + 1) + 1).toNat + 1 := by omega
  rw [e, List.range_succ_eq_map]
  simp only [List.map_cons, List.map_map]
  congr 1
  · simp
  · apply List.map_congr_left
    intro k _
    simp only [Function.comp]
    push_cast; omega

theorem elems_empty (r : Node) (h : r.ie < r.is) : elems r = [] := by
  unfold elems
  have : (r.ie - r.is + 1).toNat = 0 := by omega
  rw [this]; rfl

theorem ahead_run (r : Node) : ∀ (n : Nat) (t : List Node) (i : Int), (r.ie - i).toNat = n → i ≤ r.ie →
    (∀ nx t', t = nx :: t' → Ahead { cur := nx :: t', ind := nx.is, curend := nx.ie } (points t)) →
    Ahead { cur := r :: t, ind := i, curend := r.ie } (elems { r with is := i } ++ points t) := by
  intro n
  induction n with
  | zero =>
    intro t i hn hi ht
    have hie : i = r.ie := by omega
    rw [elems_cons _ (by simpa using hi), elems_empty _ (by simp; omega)]
    simp only [List.cons_append, List.nil_append]
    apply ahead_cons
    · rfl
    · rfl
    · simp only [next, isDone, List.isEmpty_cons, Bool.false_eq_true, if_false, List.tail_cons]
      rw [if_pos (by omega)]
      cases t with
      | nil => exact ahead_nil _ rfl
      | cons nx t' => exact ht nx t' rfl
  | succ n ih =>
    intro t i hn hi ht
    rw [elems_cons _ (by simpa using hi)]
    simp only [List.cons_append]
    apply ahead_cons
    · rfl
    · rfl
    · simp only [next, isDone, List.isEmpty_cons, Bool.false_eq_true, if_false]
      rw [if_neg (by omega)]
      exact ih t (i+1) (by omega) (by omega) ht

theorem ahead_chain : ∀ (rs : List Node), (∀ r ∈ rs, Valid r) → ∀ r t, rs = r :: t →
    Ahead { cur := r :: t, ind := r.is, curend := r.ie } (points rs) := by
  intro rs
  induction rs with
  | nil => intro _ r t h; cases h
  | cons a rs ih =>
    intro hv r t h
    simp only [List.cons.injEq] at h
    obtain ⟨rfl, rfl⟩ := h
    have e : points (a :: rs) = elems { a with is := a.is } ++ points rs := by simp [points]
    rw [e]
    refine ahead_run a _ rs a.is rfl (hv a (by simp)) ?_
    intro nx t' ht
    have := ih (fun r hr => hv r (by simp [hr])) nx t' ht
    exact this

/-- **C34.** Iterating a chain whose ranges after the first are non-empty visits exactly its points, in order:
before the k-th step the iterator is not done and yields the k-th point, and it is done after the last.
(`first` skips an empty first range, but an empty range later in the chain is visited: see below.) -/
theorem C34_iteration_partial (r : Node) (t : List Node) (hv : ∀ x ∈ t, Valid x) (k : Nat) :
    (isDone (next^[k] (first (r :: t))) = true ↔ (points (r :: t)).length ≤ k) ∧
    (∀ h : k < (points (r :: t)).length, (next^[k] (first (r :: t))).ind = (points (r :: t))[k]) := by
  suffices h : Ahead (first (r :: t)) (points (r :: t)) from h k
  by_cases hempty : r.is > r.ie
  · have e : points (r :: t) = points t := by
      simp [points, elems_empty r (by omega)]
    rw [e]
    cases t with
    | nil => exact ahead_nil _ (by simp [first, hempty])
    | cons a t =>
      have := ahead_chain (a :: t) hv a t rfl
      simpa [first, hempty] using this
  · have hf : first (r :: t) = { cur := r :: t, ind := r.is, curend := r.ie } := by simp [first, hempty]
    rw [hf]
    refine ahead_chain (r :: t) ?_ r t rfl
    intro x hx
    rcases List.mem_cons.mp hx with rfl | hx
    · unfold Valid; omega
    · exact hv x hx

/-- The unrestricted claim fails: an empty range in the middle of a chain contributes one spurious point
(finding F18): `RangeIterator(0, 0, RangeIterator(1, 0))` visits 0 and then 1. -/
theorem C34_iteration_violated : ∃ rs : List Node, ∃ k,
    isDone (next^[k] (first rs)) = false ∧ (next^[k] (first rs)).ind ∉ points rs :=
  ⟨[{ is := 0, ie := 0 }, { is := 1, ie := 0 }], 1, by decide, by decide⟩

/-- **C34.** `intersects(i)` is membership. -/
theorem C34_intersects_point (rs : List Node) (i : Int) : intersectsInt i rs = true ↔ i ∈ points rs := by
  rw [mem_points]
  induction rs with
  | nil => simp [intersectsInt]
  | cons r t ih =>
    simp only [intersectsInt, List.mem_cons, exists_eq_or_imp]
    by_cases h : r.is ≤ i ∧ r.ie ≥ i
    · rw [if_pos (by simpa using h)]
      simp only [true_iff]
      exact Or.inl ⟨h.1, h.2⟩
    · rw [if_neg (by simpa using h), ih]
      constructor
      · exact Or.inr
      · rintro (h' | h')
        · exfalso; omega
        · exact h'

/-- **C34.** For non-empty ranges `intersects(other)` holds iff the first range of `other` shares a point. -/
theorem C34_intersects_range (rs : List Node) (o : Node) (ho : Valid o) (hv : ∀ r ∈ rs, Valid r) :
    intersects o rs = true ↔ ∃ i, i ∈ points rs ∧ o.is ≤ i ∧ i ≤ o.ie := by
  induction rs with
  | nil => simp [intersects, points]
  | cons r t ih =>
    have hr := hv r (by simp)
    unfold Valid at *
    have ih' := ih (fun x hx => hv x (by simp [hx]))
    simp only [intersects]
    by_cases h : o.is ≤ r.ie ∧ o.ie ≥ r.is
    · rw [if_pos (by simpa using h)]
      simp only [true_iff]
      refine ⟨max o.is r.is, ?_, by omega, by omega⟩
      rw [mem_points]
      exact ⟨r, by simp, by omega, by omega⟩
    · rw [if_neg (by simpa using h), ih']
      constructor
      · rintro ⟨i, hi, h'⟩
        refine ⟨i, ?_, h'⟩
        rw [mem_points] at hi ⊢
        obtain ⟨x, hx, hh⟩ := hi
        exact ⟨x, by simp [hx], hh⟩
      · rintro ⟨i, hi, h'⟩
        refine ⟨i, ?_, h'⟩
        rw [mem_points] at hi ⊢
        obtain ⟨x, hx, hh⟩ := hi
        rcases List.mem_cons.mp hx with rfl | hx
        · exfalso; omega
        · exact ⟨x, hx, hh⟩

/-- **C34.** `a += r` has the points of `a` followed by those of `r`. -/
theorem C34_plus (a r : List Node) : points (plusEq a r) = points a ++ points r := by
  induction a with
  | nil => simp [plusEq, points]
  | cons x t ih =>
    cases t with
    | nil =>
      simp only [plusEq, points, List.map_cons, List.flatten_cons, List.map_nil, List.flatten_nil,
        List.append_nil]
      rfl
    | cons y t =>
      simp only [plusEq, points, List.map_cons, List.flatten_cons, List.append_assoc] at ih ⊢
      rw [ih]

/-! ### Subtraction -/

/-- What is left of `n` after removing `b` (not covering `n`). -/
def cut (b n : Node) : List (Int × Int) :=
  if b.is ≤ n.ie ∧ b.ie ≥ n.is then
    if b.is > n.is ∧ b.ie ≥ n.ie then [(n.is, b.is - 1)]
    else if b.is ≤ n.is ∧ b.ie < n.ie then [(b.ie + 1, n.ie)]
    else [(n.is, b.is - 1), (b.ie + 1, n.ie)]
  else [(n.is, n.ie)]

def rng (n : Node) : Int × Int := (n.is, n.ie)

def Good (b n : Node) : Prop := n.is ≤ n.ie ∧ ¬ (b.is ≤ n.is ∧ b.ie ≥ n.ie)

def full : Option Node → List Node → List Node
  | none, _ => []
  | some h, done => h :: done.reverse

theorem outer_spec (b : Node) (hb : Valid b) : ∀ (fuel : Nat) (hd : Option Node) (done : List Node) (it : Node)
    (rest : List Node), (∀ n ∈ it :: rest, Good b n) → (∀ h, hd = some h → h.is ≤ h.ie) → (hd = none → done = []) →
    (((it :: rest).map (fun n => (cut b n).length)).sum ≤ fuel) →
    ∃ res, outer [b] fuel hd done it rest = .ok res ∧
      res.map rng = (full hd done).map rng ++ ((it :: rest).map (cut b)).flatten := by
  intro fuel
  induction fuel with
  | zero =>
    intro hd done it rest _ _ _ hf
    exfalso
    have : 0 < (cut b it).length := by
      unfold cut; split
      · split
        · simp
        · split <;> simp
      · simp
    simp only [List.map_cons, List.sum_cons] at hf; omega
  | succ fuel ih =>
    intro hd done it rest hg hh hdn hf
    have gi := hg it (by simp)
    unfold Good at gi
    -- one inner step
    have hin : ∃ it' extra, ([b].foldl inner (hd, it, rest)) = (hd, it', extra ++ rest) ∧ it'.is ≤ it'.ie ∧
        (∀ n ∈ extra, Good b n ∧ cut b n = [rng n]) ∧ cut b it = rng it' :: extra.map rng := by
      simp only [List.foldl_cons, List.foldl_nil, inner]
      by_cases h1 : b.is ≤ it.ie ∧ b.ie ≥ it.is
      · rw [if_pos h1, if_neg gi.2]
        by_cases h2 : b.is > it.is ∧ b.ie ≥ it.ie
        · rw [if_pos h2]
          exact ⟨_, [], rfl, by simp; omega, by simp, by simp [cut, h1, h2, rng]⟩
        · rw [if_neg h2]
          by_cases h3 : b.is ≤ it.is ∧ b.ie < it.ie
          · rw [if_pos h3]
            exact ⟨_, [], rfl, by simp; omega, by simp, by
              simp only [cut, rng, List.map_nil]
              rw [if_pos h1, if_neg h2, if_pos h3]⟩
          · rw [if_neg h3]
            refine ⟨_, [{ is := b.ie + 1, ie := it.ie, own := false }], rfl, by simp; omega, ?_, ?_⟩
            · intro n hn
              simp only [List.mem_singleton] at hn
              subst hn
              have hb' := hb
              unfold Valid at hb'
              have hcn : ¬ (b.is ≤ it.ie ∧ b.ie ≥ b.ie + 1) := by omega
              exact ⟨⟨by show b.ie + 1 ≤ it.ie; omega, by show ¬ (b.is ≤ b.ie + 1 ∧ b.ie ≥ it.ie); omega⟩, by
                simp only [cut, rng]; rw [if_neg hcn]⟩
            · simp only [cut, rng, List.map_cons, List.map_nil]
              rw [if_pos h1, if_neg h2, if_neg h3]
      · rw [if_neg h1]
        exact ⟨it, [], rfl, gi.1, by simp, by simp [cut, h1, rng]⟩
    obtain ⟨it', extra, hst, hit', hex, hcut⟩ := hin
    have hsum : (((extra ++ rest).map (fun n => (cut b n).length)).sum) ≤ fuel := by
      have hl : (extra.map (fun n => (cut b n).length)).sum = extra.length := by
        clear hst hcut
        induction extra with
        | nil => rfl
        | cons e es ih' =>
          simp only [List.map_cons, List.sum_cons, List.length_cons]
          rw [(hex e (by simp)).2, ih' (fun n hn => hex n (by simp [hn]))]
          simp; omega
      simp only [List.map_cons, List.sum_cons, hcut, List.length_cons, List.length_map] at hf
      rw [List.map_append, List.sum_append, hl]; omega
    have hgood : ∀ n ∈ extra ++ rest, Good b n := by
      intro n hn
      rcases List.mem_append.mp hn with h | h
      · exact (hex n h).1
      · exact hg n (by simp [h])
    have hflat : ((extra ++ rest).map (cut b)).flatten = extra.map rng ++ (rest.map (cut b)).flatten := by
      rw [List.map_append, List.flatten_append]
      congr 1
      clear hst hcut hsum hgood
      induction extra with
      | nil => rfl
      | cons e es ih' =>
        simp only [List.map_cons, List.flatten_cons]
        rw [(hex e (by simp)).2, ih' (fun n hn => hex n (by simp [hn]))]
        rfl
    have hh' : ¬ ((hd.getD it').is > (hd.getD it').ie) := by
      cases hd with
      | none => simp; exact hit'
      | some h => simp; exact hh h rfl
    have goalflat : ((it :: rest).map (cut b)).flatten = rng it' :: ((extra ++ rest).map (cut b)).flatten := by
      rw [hflat]; simp [hcut]
    simp only [outer, hst]
    rw [if_neg hh', goalflat]
    cases hr : extra ++ rest with
    | nil =>
      cases hd with
      | none => exact ⟨_, rfl, by simp [full]⟩
      | some h => exact ⟨_, rfl, by simp [full]⟩
    | cons nx rest'' =>
      rw [hr] at hgood hsum
      cases hd with
      | none =>
        have hd0 := hdn rfl
        subst hd0
        obtain ⟨res, h1, h2⟩ := ih (some it') [] nx rest'' hgood (by rintro h ⟨⟩; exact hit') (by simp) hsum
        exact ⟨res, h1, by rw [h2]; simp [full]⟩
      | some h =>
        obtain ⟨res, h1, h2⟩ := ih (some h) (it' :: done) nx rest'' hgood
          (by rintro h' ⟨⟩; exact hh h rfl) (by simp) hsum
        exact ⟨res, h1, by rw [h2]; simp [full]⟩

/-- **C34.** Subtracting one non-empty range that covers none of the ranges of `a` completely removes exactly its
points. (Missing: total overlap, where the code is wrong, and several ranges at once.) -/
theorem C34_minus_partial (a : List Node) (b : Node) (ha : a ≠ []) (hb : Valid b)
    (hv : ∀ n ∈ a, Valid n ∧ ¬ (b.is ≤ n.is ∧ n.ie ≤ b.ie)) :
    ∃ res, minusEq (2 * a.length) a [b] = .ok res ∧
      ∀ i, i ∈ points res ↔ i ∈ points a ∧ ¬ (b.is ≤ i ∧ i ≤ b.ie) := by
  cases a with
  | nil => exact absurd rfl ha
  | cons h t =>
    have hg : ∀ n ∈ h :: t, Good b n := fun n hn => ⟨(hv n hn).1, fun hx => (hv n hn).2 ⟨hx.1, hx.2⟩⟩
    have hfuel : ((h :: t).map (fun n => (cut b n).length)).sum ≤ 2 * (h :: t).length := by
      generalize h :: t = l
      induction l with
      | nil => simp
      | cons x xs ih =>
        have : (cut b x).length ≤ 2 := by
          unfold cut; split
          · split
            · simp
            · split <;> simp
          · simp
        simp only [List.map_cons, List.sum_cons, List.length_cons]; omega
    obtain ⟨res, h1, h2⟩ := outer_spec b hb _ none [] h t hg (by simp) (by simp) hfuel
    refine ⟨res, h1, ?_⟩
    have mem_rng : ∀ (l : List Node) (i : Int), i ∈ points l ↔ ∃ q ∈ l.map rng, q.1 ≤ i ∧ i ≤ q.2 := by
      intro l i
      rw [mem_points]
      simp [rng]
    intro i
    rw [mem_rng res, h2, mem_points]
    simp only [full, List.map_nil, List.nil_append, List.mem_flatten, List.mem_map]
    have one : ∀ n, Good b n → ((∃ q ∈ cut b n, q.1 ≤ i ∧ i ≤ q.2) ↔
        (n.is ≤ i ∧ i ≤ n.ie) ∧ ¬ (b.is ≤ i ∧ i ≤ b.ie)) := by
      intro n hn
      unfold Good at hn
      unfold Valid at hb
      unfold cut
      split
      · split
        · simp; omega
        · split
          · simp; omega
          · simp; omega
      · simp; omega
    constructor
    · rintro ⟨q, ⟨_, ⟨n, hn, rfl⟩, hq⟩, hi⟩
      obtain ⟨h3, h4⟩ := (one n (hg n hn)).mp ⟨q, hq, hi⟩
      exact ⟨⟨n, hn, h3⟩, h4⟩
    · rintro ⟨⟨n, hn, h3⟩, h4⟩
      obtain ⟨q, hq, hi⟩ := (one n (hg n hn)).mpr ⟨h3, h4⟩
      exact ⟨q, ⟨_, ⟨n, hn, rfl⟩, hq⟩, hi⟩

/-- Total overlap of a range other than the first invalidates the wrong range (finding F6): `(0..1)+(3..4) -= (3..4)`
leaves 3 and 4 in and removes 0 and 1. -/
theorem C34_minus_total_overlap_violated : ∃ (a : List Node) (b : Node) (res : List Node),
    (∀ n ∈ a, Valid n) ∧ Valid b ∧ minusEq 10 a [b] = .ok res ∧ 3 ∈ points a ∧ (b.is ≤ 3 ∧ 3 ≤ b.ie) ∧ 3 ∈ points res ∧
      0 ∈ points a ∧ ¬ (b.is ≤ 0 ∧ 0 ≤ b.ie) ∧ 0 ∉ points res := by
  refine ⟨plusEq [{ is := 0, ie := 1 }] [{ is := 3, ie := 4 }], { is := 3, ie := 4 },
    [{ is := 1, ie := 0, own := true }, { is := 3, ie := 4 }], by decide, by decide, by decide, by decide, by decide,
    by decide, by decide, by decide, by decide⟩

/-- Total overlap of the first of three ranges joined with `+=` reads freed memory (finding F19). -/
theorem C34_minus_use_after_free :
    minusEq 10 (plusEq (plusEq [{ is := 0, ie := 1 }] [{ is := 3, ie := 4 }]) [{ is := 6, ie := 7 }])
      [{ is := 0, ie := 1 }] = .error (.ub "use of a freed range") := by decide

/-- Non-trivial instances of the hypotheses. -/
example : minusEq 4 [{ is := 0, ie := 9 }, { is := 20, ie := 25 }] [{ is := 3, ie := 4 }] =
    .ok [{ is := 0, ie := 2, own := true }, { is := 5, ie := 9 }, { is := 20, ie := 25 }] := by decide

end Verif.Range
