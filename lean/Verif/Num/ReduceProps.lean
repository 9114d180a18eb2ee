/-
C51: reductions, averages and smoothing.
-/
import Verif.Num.Reduce
import Mathlib.Tactic.Ring
import Mathlib.Tactic.Linarith
import Mathlib.Tactic.FieldSimp
import Mathlib.Tactic.LinearCombination
import Mathlib.Tactic.NormNum
import Mathlib.Data.Rat.Defs
import Mathlib.Algebra.Order.Ring.Rat
import Mathlib.Algebra.BigOperators.Group.List.Basic
import Mathlib.Algebra.Order.Ring.Abs

namespace Verif.Reduce

open Verif

variable {K : Type} [Field K] [LinearOrder K]

/-! ### Specification -/

/-- `m` is the smallest of the values in `l`. -/
def IsMin (m : K) (l : List K) : Prop := m ∈ l ∧ ∀ y ∈ l, m ≤ y

/-- `m` is the largest of the values in `l`. -/
def IsMax (m : K) (l : List K) : Prop := m ∈ l ∧ ∀ y ∈ l, y ≤ m

/-! ### A reduction picks an extreme element -/

/-- What `min` and `max` have in common. -/
structure Sel (step : K → K → K) (rel : K → K → Prop) : Prop where
  cases : ∀ a b, step a b = a ∨ step a b = b
  left : ∀ a b, rel (step a b) a
  right : ∀ a b, rel (step a b) b
  refl : ∀ a, rel a a
  trans : ∀ a b c, rel a b → rel b c → rel a c

theorem min_sel : Sel (K := K) minStep (· ≤ ·) := by
  refine ⟨?_, ?_, ?_, le_refl, fun _ _ _ => le_trans⟩ <;> intro a b <;> unfold minStep <;> by_cases h : b < a
  · rw [if_pos h]; exact Or.inr rfl
  · rw [if_neg h]; exact Or.inl rfl
  · rw [if_pos h]; exact le_of_lt h
  · rw [if_neg h]
  · rw [if_pos h]
  · rw [if_neg h]; exact not_lt.mp h

theorem max_sel : Sel (K := K) maxStep (fun a b => b ≤ a) := by
  refine ⟨?_, ?_, ?_, le_refl, fun _ _ _ h1 h2 => le_trans h2 h1⟩ <;> intro a b <;> unfold maxStep <;> by_cases h : a < b
  · rw [if_pos h]; exact Or.inr rfl
  · rw [if_neg h]; exact Or.inl rfl
  · rw [if_pos h]; exact le_of_lt h
  · rw [if_neg h]
  · rw [if_pos h]
  · rw [if_neg h]; exact not_lt.mp h

/-- `m` is an extreme element of `l`. -/
def Ext (rel : K → K → Prop) (m : K) (l : List K) : Prop := m ∈ l ∧ ∀ y ∈ l, rel m y

theorem ext_step {step : K → K → K} {rel : K → K → Prop} (S : Sel step rel) {a b : K} {l k : List K}
    (ha : Ext rel a l) (hb : Ext rel b k) : Ext rel (step a b) (l ++ k) := by
  constructor
  · rcases S.cases a b with h | h <;> rw [h, List.mem_append]
    · exact Or.inl ha.1
    · exact Or.inr hb.1
  · intro y hy
    rcases List.mem_append.mp hy with h | h
    · exact S.trans _ _ _ (S.left a b) (ha.2 y h)
    · exact S.trans _ _ _ (S.right a b) (hb.2 y h)

theorem ext_single {step : K → K → K} {rel : K → K → Prop} (S : Sel step rel) (a : K) : Ext rel a [a] :=
  ⟨by simp, by intro y hy; simp at hy; subst hy; exact S.refl y⟩

theorem ext_congr {rel : K → K → Prop} {m : K} {l k : List K} (h : ∀ y, y ∈ l ↔ y ∈ k) (hm : Ext rel m l) :
    Ext rel m k := ⟨(h m).mp hm.1, fun y hy => hm.2 y ((h y).mpr hy)⟩

theorem ext_foldl {step : K → K → K} {rel : K → K → Prop} (S : Sel step rel) (xs : List K) (a : K) (l : List K)
    (ha : Ext rel a l) : Ext rel (xs.foldl step a) (l ++ xs) := by
  induction xs generalizing a l with
  | nil => simpa using ha
  | cons x xs ih =>
      have := ih (step a x) (l ++ [x]) (ext_step S ha (ext_single S x))
      simpa using this

theorem ext_threads {step : K → K → K} {rel : K → K → Prop} (S : Sel step rel) (th : List (List K)) (a : K)
    (l : List K) (ha : Ext rel a l) :
    Ext rel (th.foldl (fun acc t =>
        match t with
        | [] => acc
        | y :: ys => step acc (ys.foldl step y)) a) (l ++ th.flatten) := by
  induction th generalizing a l with
  | nil => simpa using ha
  | cons t ts ih =>
      cases t with
      | nil => simpa using ih a l ha
      | cons y ys =>
          have h1 := ext_foldl S ys y [y] (ext_single S y)
          have := ih _ _ (ext_step S ha h1)
          simpa using this

theorem localReduce_ok {step : K → K → K} {rel : K → K → Prop} (S : Sel step rel) (th : List (List K))
    (hne : th.flatten ≠ []) : ∃ m, localReduce step th.flatten.head? th = .ok m ∧ Ext rel m th.flatten := by
  cases h : th.flatten with
  | nil => exact absurd h hne
  | cons x xs =>
      refine ⟨_, by simp only [localReduce, List.head?_cons]; rfl, ?_⟩
      have := ext_threads S th x [x] (ext_single S x)
      rw [h] at this
      refine ext_congr ?_ this
      intro y
      simp

theorem mapM_ok {A B : Type} (f : A → Out B) (g : A → B) (l : List A) (h : ∀ a ∈ l, f a = .ok (g a)) :
    l.mapM f = .ok (l.map g) := by
  induction l with
  | nil => rfl
  | cons a as ih =>
      rw [List.mapM_cons, h a (by simp), ih (fun b hb => h b (by simp [hb]))]
      rfl

theorem reduce_all {step : K → K → K} {rel : K → K → Prop} (S : Sel step rel) (ranks : List (List (List K)))
    (h0 : ranks ≠ []) (hne : ∀ th ∈ ranks, th.flatten ≠ []) :
    ∃ m, (∀ r, reduceField step ranks r true = .ok m) ∧ Ext rel m ranks.flatten.flatten := by
  have hex : ∀ th : List (List K), ∃ m, th.flatten ≠ [] →
      (localReduce step th.flatten.head? th = .ok m ∧ Ext rel m th.flatten) := by
    intro th
    by_cases h : th.flatten = []
    · exact ⟨0, fun hh => absurd h hh⟩
    · obtain ⟨m, hm⟩ := localReduce_ok S th h
      exact ⟨m, fun _ => hm⟩
  choose g hg using hex
  have hm := mapM_ok (fun th => localReduce step th.flatten.head? th) g ranks (fun th hth => (hg th (hne th hth)).1)
  cases ranks with
  | nil => exact absurd rfl h0
  | cons t ts =>
      refine ⟨(ts.map g).foldl step (g t), ?_, ?_⟩
      · intro r
        simp only [reduceField, if_true, hm, bind, Except.bind, List.map_cons]
        rfl
      · have ht := (hg t (hne t (by simp))).2
        have key : ∀ (us : List (List (List K))) (a : K) (l : List K), (∀ u ∈ us, u.flatten ≠ []) → Ext rel a l →
            Ext rel ((us.map g).foldl step a) (l ++ us.flatten.flatten) := by
          intro us
          induction us with
          | nil => intro a l _ ha; simpa using ha
          | cons u us ih =>
              intro a l hu ha
              have h1 := (hg u (hu u (by simp))).2
              have := ih _ _ (fun v hv => hu v (by simp [hv])) (ext_step S ha h1)
              simpa using this
        have := key ts _ _ (fun u hu => hne u (by simp [hu])) ht
        simpa using this

/-- C51: `min(f, true)` is the smallest value over all ranks, the same on every rank, however
the cells are divided between ranks and threads. -/
theorem C51_min_all (ranks : List (List (List K))) (h0 : ranks ≠ []) (hne : ∀ th ∈ ranks, th.flatten ≠ []) :
    ∃ m, (∀ r, reduceField minStep ranks r true = .ok m) ∧ IsMin m ranks.flatten.flatten :=
  reduce_all min_sel ranks h0 hne

/-- C51: `max(f, true)` likewise. -/
theorem C51_max_all (ranks : List (List (List K))) (h0 : ranks ≠ []) (hne : ∀ th ∈ ranks, th.flatten ≠ []) :
    ∃ m, (∀ r, reduceField maxStep ranks r true = .ok m) ∧ IsMax m ranks.flatten.flatten :=
  reduce_all max_sel ranks h0 hne

/-- C51: without `allpe` the result is that of the calling rank, whatever the others hold. -/
theorem C51_local (ranks : List (List (List K))) (r : Nat) (hne : (ranks.getD r []).flatten ≠ []) :
    (∃ m, reduceField minStep ranks r false = .ok m ∧ IsMin m (ranks.getD r []).flatten) ∧
    (∃ m, reduceField maxStep ranks r false = .ok m ∧ IsMax m (ranks.getD r []).flatten) :=
  ⟨localReduce_ok min_sel _ hne, localReduce_ok max_sel _ hne⟩

/-- C51: the results do not depend on the decomposition: the same cells give the same answer. -/
theorem C51_min_max_decomposition (a b : List (List (List K))) (ha : a ≠ []) (hb : b ≠ [])
    (hna : ∀ th ∈ a, th.flatten ≠ []) (hnb : ∀ th ∈ b, th.flatten ≠ [])
    (hp : ∀ v, v ∈ a.flatten.flatten ↔ v ∈ b.flatten.flatten) (r q : Nat) :
    reduceField minStep a r true = reduceField minStep b q true ∧
    reduceField maxStep a r true = reduceField maxStep b q true := by
  obtain ⟨m, h1, h2, h3⟩ := C51_min_all a ha hna
  obtain ⟨m', h1', h2', h3'⟩ := C51_min_all b hb hnb
  obtain ⟨M, g1, g2, g3⟩ := C51_max_all a ha hna
  obtain ⟨M', g1', g2', g3'⟩ := C51_max_all b hb hnb
  rw [h1, h1', g1, g1']
  exact ⟨by rw [le_antisymm (h3 _ ((hp _).mpr h2')) (h3' _ ((hp _).mp h2))],
    by rw [le_antisymm (g3' _ ((hp _).mp g2)) (g3 _ ((hp _).mpr g2'))]⟩

/-- A rank on which the region has no cells makes `min` and `max` dereference an end iterator,
although other ranks have cells (for example a boundary region). -/
theorem C51_empty_rank_violated (K : Type) [Field K] [LinearOrder K] : ∃ (ranks : List (List (List K))),
    ranks.flatten.flatten ≠ [] ∧ reduceField minStep ranks 0 true = .error (.ub "region.cbegin() of an empty region") :=
  ⟨[[[1]], [[]]], List.cons_ne_nil _ _, by rfl⟩

/-! ### mean -/

theorem sum_flatten' (l : List (List K)) : (l.map List.sum).sum = l.flatten.sum := by
  induction l with
  | nil => rfl
  | cons a as ih => rw [List.map_cons, List.sum_cons, ih, List.flatten_cons, List.sum_append]

theorem mean_tot (ranks : List (List (List K))) :
    ((ranks.map fun th => (th.map List.sum).sum).sum = ranks.flatten.flatten.sum) ∧
    ((ranks.map fun th => (th.map List.length).sum).sum = ranks.flatten.flatten.length) := by
  induction ranks with
  | nil => exact ⟨rfl, rfl⟩
  | cons t ts ih =>
      constructor
      · simp only [List.map_cons, List.sum_cons, ih.1, List.flatten_cons, List.flatten_append, List.sum_append]
        rw [sum_flatten']
      · simp only [List.map_cons, List.sum_cons, ih.2, List.flatten_cons, List.flatten_append, List.length_append]
        rw [List.length_flatten (L := t)]

/-- C51: `mean(f, true)` is the sum over all cells of all ranks divided by their number, the
same on every rank, also if some ranks have no cells. -/
theorem C51_mean_all (ranks : List (List (List K))) (hne : ranks.flatten.flatten ≠ []) (r : Nat) :
    meanField ranks r true = .ok (ranks.flatten.flatten.sum / (ranks.flatten.flatten.length : K)) := by
  obtain ⟨h1, h2⟩ := mean_tot ranks
  have hl : ranks.flatten.flatten.length ≠ 0 := fun h => hne (List.length_eq_zero_iff.mp h)
  simp only [meanField, if_true]
  rw [h1, h2, if_neg hl]

/-- C51: without `allpe`, the mean over the cells of the calling rank. -/
theorem C51_mean_local (ranks : List (List (List K))) (r : Nat) (hne : (ranks.getD r []).flatten ≠ []) :
    meanField ranks r false = .ok ((ranks.getD r []).flatten.sum / ((ranks.getD r []).flatten.length : K)) := by
  have hl : (ranks.getD r []).flatten.length ≠ 0 := fun h => hne (List.length_eq_zero_iff.mp h)
  simp only [meanField, Bool.false_eq_true, if_false]
  rw [sum_flatten', ← List.length_flatten, if_neg hl]

/-- C51: the mean does not depend on the decomposition. -/
theorem C51_mean_decomposition (a b : List (List (List K))) (hp : a.flatten.flatten.Perm b.flatten.flatten)
    (hne : a.flatten.flatten ≠ []) (r q : Nat) : meanField a r true = meanField b q true := by
  rw [C51_mean_all a hne, C51_mean_all b (fun h => hne (by rw [h] at hp; exact List.Perm.eq_nil hp)),
    hp.sum_eq, hp.length_eq]

/-- C51: the mean lies between the minimum and the maximum. -/
theorem C51_mean_between [IsStrictOrderedRing K] (ranks : List (List (List K))) (hne : ranks.flatten.flatten ≠ [])
    (r : Nat) (lo hi : K) (h : ∀ v ∈ ranks.flatten.flatten, lo ≤ v ∧ v ≤ hi) :
    ∃ m, meanField ranks r true = .ok m ∧ lo ≤ m ∧ m ≤ hi := by
  refine ⟨_, C51_mean_all ranks hne r, ?_⟩
  generalize ranks.flatten.flatten = l at *
  have hl : 0 < (l.length : K) := by
    have : l.length ≠ 0 := fun h => hne (List.length_eq_zero_iff.mp h)
    exact_mod_cast Nat.pos_of_ne_zero this
  have key : ∀ l : List K, (∀ v ∈ l, lo ≤ v ∧ v ≤ hi) → lo * (l.length : K) ≤ l.sum ∧ l.sum ≤ hi * (l.length : K) := by
    intro l
    induction l with
    | nil => intro _; simp
    | cons a as ih =>
        intro h
        obtain ⟨h1, h2⟩ := ih (fun v hv => h v (by simp [hv]))
        obtain ⟨h3, h4⟩ := h a (by simp)
        simp only [List.length_cons, List.sum_cons, Nat.cast_add, Nat.cast_one]
        constructor <;> nlinarith
  obtain ⟨h1, h2⟩ := key l h
  exact ⟨(le_div_iff₀ hl).mpr h1, (div_le_iff₀ hl).mpr h2⟩

/-! ### isUniform -/

/-- C51: on one rank, `isUniform` is true if and only if every cell equals the first, exactly or
to rounding. -/
theorem C51_uniform_local (close : K → K → Bool) (ranks : List (List K)) (r : Nat) (x : K) (xs : List K)
    (h : ranks.getD r [] = x :: xs) :
    isUniform close ranks r false = .ok true ↔ ∀ y ∈ x :: xs, y = x ∨ close y x = true := by
  unfold isUniform
  rw [if_neg (by decide), h]
  simp [uniformLocal]

/-- `isUniform(f, true)` is true if and only if the field is uniform on some rank. -/
theorem C51_uniform_all_is_some_rank (close : K → K → Bool) (ranks : List (List K))
    (hne : ∀ l ∈ ranks, l ≠ []) (r : Nat) :
    isUniform close ranks r true = .ok true ↔
      ∃ l ∈ ranks, ∀ y ∈ l, y = l.headD 0 ∨ close y (l.headD 0) = true := by
  have hm := mapM_ok (uniformLocal close)
    (fun l => l.all fun y => decide (y = l.headD 0) || close y (l.headD 0)) ranks (by
      intro l hl
      cases l with
      | nil => exact absurd rfl (hne [] hl)
      | cons x xs => rfl)
  simp only [isUniform, if_true, hm, bind, Except.bind]
  simp [List.any_eq_true, pure, Except.pure]

/-- A field that is not uniform on rank 1 and differs between ranks is reported uniform, and
`getUniform(f, true)` accepts it with different results on different ranks. -/
theorem C51_uniform_all_violated : ∃ ranks : List (List ℚ),
    (∀ l ∈ ranks, l ≠ []) ∧ isUniform (fun _ _ => false) ranks 0 true = .ok true ∧
    isUniform (fun _ _ => false) ranks 1 false = .ok false ∧
    getUniform (fun _ _ => false) ranks 0 true = .ok 1 ∧ getUniform (fun _ _ => false) ranks 1 true = .ok 7 :=
  ⟨[[1, 1], [7, 3]], by decide, by rfl, by rfl, by rfl, by rfl⟩

/-! ### Averages -/

/-- Sum of `f p x` over all processors of a communicator and all interior indices. -/
def total (np w : Nat) (a : Int) (f : Nat → Int → K) : K :=
  ((List.range np).map fun p => sumFrom a w (f p)).sum

theorem sum_div (l : List K) (c : K) : (l.map fun x => x / c).sum = l.sum / c := by
  induction l with
  | nil => simp
  | cons a as ih => simp [ih, add_div]

theorem average_eq [CharZero K] (np w : Nat) (hw : 0 < w) (a : Int) (f : Nat → Int → K) (p : Nat) (hp : p < np) :
    averageX np w a f p = total np w a f / ((np * w : Nat) : K) := by
  have hw' : (w : K) ≠ 0 := by exact_mod_cast hw.ne'
  unfold averageX total
  by_cases h1 : np = 1
  · subst h1
    have : p = 0 := by omega
    subst this
    simp [List.range_succ]
  · simp only [if_neg h1]
    have e : (List.range np).map (fun q => sumFrom a w (f q) / (w : K)) =
        ((List.range np).map fun q => sumFrom a w (f q)).map fun x => x / (w : K) := by
      rw [List.map_map]; rfl
    rw [e, sum_div, div_div, Nat.cast_mul, mul_comm (w : K)]

/-- C51: `averageX` is the mean over the interior points of the whole X line, on every
processor of the line, whatever the number of processors. -/
theorem C51_averageX [CharZero K] (np w : Nat) (hw : 0 < w) (xstart : Int) (f : Nat → Int → K) (p : Nat) (hp : p < np) :
    averageX np w xstart f p = total np w xstart f / ((np * w : Nat) : K) :=
  average_eq np w hw xstart f p hp

/-- C51: `averageY` is the mean over the interior points of the Y communicator. -/
theorem C51_averageY [CharZero K] (np h : Nat) (hh : 0 < h) (ystart : Int) (f : Nat → Int → K) (p : Nat) (hp : p < np) :
    averageY np h ystart f p = total np h ystart f / ((np * h : Nat) : K) :=
  average_eq np h hh ystart f p hp

/-- Sum over the whole domain. -/
def total2 (npx npy w h : Nat) (xstart ystart : Int) (f : Nat → Nat → Int → Int → K) : K :=
  ((List.range npx).map fun px => sumFrom xstart w fun i => total npy h ystart fun q y => f px q i y).sum

theorem sumFrom_div (a : Int) (w : Nat) (f : Int → K) (c : K) : sumFrom a w (fun i => f i / c) = sumFrom a w f / c := by
  unfold sumFrom
  rw [← sum_div, List.map_map]; rfl

/-- C51: `Average_XY` is the mean over the interior of the whole domain, when the domain is a
full rectangle of processors with equal shares. -/
theorem C51_averageXY [CharZero K] (npx npy w h : Nat) (hh : 0 < h) (xstart ystart gnx : Int)
    (hg : gnx - 2 * xstart = npx * w) (f : Nat → Nat → Int → Int → K) (py : Nat) (hp : py < npy) :
    averageXY npx npy w h xstart ystart gnx f py =
      total2 npx npy w h xstart ystart f / ((npx * w * (npy * h) : Nat) : K) := by
  unfold averageXY total2
  simp only
  have e : (fun px => sumFrom xstart w fun i => averageY npy h ystart (fun q y => f px q i y) py) =
      (fun x => x / ((npy * h : Nat) : K)) ∘ (fun px => sumFrom xstart w fun i => total npy h ystart fun q y => f px q i y) := by
    funext px
    simp only [Function.comp]
    rw [← sumFrom_div]
    congr 1
    funext i
    exact C51_averageY npy h hh ystart _ py hp
  rw [e, ← List.map_map, sum_div, hg, div_div]
  congr 1
  push_cast
  ring

/-- C51: `Vol_Integral` is 2π Σ J f dx dy over the whole domain. -/
theorem C51_volIntegral [CharZero K] (npx npy w h : Nat) (hw : 0 < w) (hh : 0 < h) (hx : 0 < npx) (xstart ystart gnx gny nyb : Int)
    (hg : gnx - 2 * xstart = npx * w) (hgy : gny - nyb * 2 * ystart = npy * h) (twopi : K)
    (J var dx dy : Nat → Nat → Int → Int → K) (py : Nat) (hp : py < npy) :
    volIntegral npx npy w h xstart ystart gnx gny nyb twopi J var dx dy py =
      total2 npx npy w h xstart ystart (fun a b x y => J a b x y * var a b x y * dx a b x y * dy a b x y) * twopi := by
  unfold volIntegral
  rw [C51_averageXY npx npy w h hh xstart ystart gnx hg _ py hp, hg, hgy]
  have hy : 0 < npy := by omega
  have : ((npx * w * (npy * h) : Nat) : K) ≠ 0 := by
    have : npx * w * (npy * h) ≠ 0 := by positivity
    exact_mod_cast this
  push_cast at this ⊢
  rw [div_mul_cancel₀ _ this]

/-- C51: `DC` of a field that does not depend on z is the field, and `DC` is linear. -/
theorem C51_dc [CharZero K] (nz : Nat) (hn : 0 < nz) (c a b : K) (f g : Nat → K) :
    dc nz (fun _ => c) = c ∧ dc nz (fun z => a * f z + b * g z) = a * dc nz f + b * dc nz g := by
  have hn' : (nz : K) ≠ 0 := by exact_mod_cast hn.ne'
  unfold dc
  constructor
  · simp [hn']
  · have : ∀ n : Nat, ((List.range n).map fun z => a * f z + b * g z).sum =
        a * ((List.range n).map f).sum + b * ((List.range n).map g).sum := by
      intro n
      induction n with
      | zero => simp
      | succ m ih => simp only [List.range_succ, List.map_append, List.sum_append, ih]; simp; ring
    rw [this]
    field_simp

/-! ### Smoothing -/

/-- C51: the 1-2-1 filter leaves linear profiles unchanged and removes the grid-scale
oscillation; end points are untouched. -/
theorem C51_smooth [CharZero K] (n i : Int) (a b : K) (hi : ¬ (i = 0 ∨ i = n - 1)) :
    smoothLine n (fun x => a + b * (x : K)) i = a + b * (i : K) ∧
    (∀ g : Int → K, (∀ x, g (x+1) = - g x) → smoothLine n g i = 0) ∧
    (∀ g : Int → K, smoothLine n g 0 = g 0 ∧ smoothLine n g (n-1) = g (n-1)) := by
  refine ⟨?_, ?_, ?_⟩
  · rw [smoothLine, if_neg hi, smooth3]
    push_cast
    ring
  · intro g hg
    have h1 := hg i
    have h2 := hg (i-1)
    rw [show i - 1 + 1 = i by ring] at h2
    rw [smoothLine, if_neg hi, smooth3, h1]
    linear_combination (1/4) * h2
  · intro g
    simp [smoothLine]

/-- C51: the 1-2-1 filter stays between the smallest and the largest of the three values. -/
theorem C51_smooth_bounded [IsStrictOrderedRing K] (n i : Int) (g : Int → K) (lo hi : K)
    (h : ∀ j, lo ≤ g j ∧ g j ≤ hi) : lo ≤ smoothLine n g i ∧ smoothLine n g i ≤ hi := by
  unfold smoothLine
  split
  · exact h i
  · have h0 := h i; have h1 := h (i-1); have h2 := h (i+1)
    unfold smooth3
    constructor <;> linarith [h0.1, h0.2, h1.1, h1.2, h2.1, h2.2]

/-- C51: `smoothXY` leaves functions linear in x and y unchanged. -/
theorem C51_smoothXY [CharZero K] (a b c d : K) (x y : Int) :
    smoothXY (fun x y => a + b * (x : K) + c * (y : K) + d * (x : K) * (y : K)) x y
      = a + b * (x : K) + c * (y : K) + d * (x : K) * (y : K) := by
  unfold smoothXY
  push_cast
  ring

theorem C51_smoothXY_bounded [IsStrictOrderedRing K] (f : Int → Int → K) (lo hi : K)
    (h : ∀ i j, lo ≤ f i j ∧ f i j ≤ hi) (x y : Int) : lo ≤ smoothXY f x y ∧ smoothXY f x y ≤ hi := by
  have a := h x y; have b := h (x+1) y; have c := h (x+2) y; have d := h (x+1) (y-1); have e := h (x+1) (y+1)
  have k := h (x-1) y; have l := h (x-2) y; have m := h (x-1) (y-1); have o := h (x-1) (y+1)
  have p := h x (y-1); have q := h x (y-2); have r := h x (y+1); have s := h x (y+2)
  unfold smoothXY
  constructor <;>
  linarith [a.1, a.2, b.1, b.2, c.1, c.2, d.1, d.2, e.1, e.2, k.1, k.2, l.1, l.2, m.1, m.2, o.1, o.2, p.1, p.2,
    q.1, q.2, r.1, r.2, s.1, s.2]

/-! ### The nonlinear filter -/

theorem sum_upd2 (f : Nat → K) (n i j : Nat) (hi : i < n) (hj : j < n) (hij : i ≠ j) (e : K) :
    ∑ k ∈ Finset.range n, upd2 f i (f i - e) j (f j + e) k = ∑ k ∈ Finset.range n, f k := by
  have : ∀ k, upd2 f i (f i - e) j (f j + e) k = f k + ((if k = i then -e else 0) + (if k = j then e else 0)) := by
    intro k
    unfold upd2
    by_cases h1 : k = i
    · have h2 : k ≠ j := fun h => hij (h1 ▸ h)
      rw [if_pos h1, if_pos h1, if_neg h2, h1]; ring
    · by_cases h2 : k = j
      · rw [if_neg h1, if_pos h2, if_neg h1, if_pos h2, h2]; ring
      · rw [if_neg h1, if_neg h2, if_neg h1, if_neg h2]; ring
  simp only [this, Finset.sum_add_distrib, Finset.sum_ite_eq', Finset.mem_range, hi, hj, if_true]
  ring

theorem nlStep_sum (w : K) (f : Nat → K) (n i : Nat) (h1 : 1 ≤ i) (h2 : i + 1 < n) :
    ∑ k ∈ Finset.range n, nlStep w f i k = ∑ k ∈ Finset.range n, f k := by
  unfold nlStep
  simp only
  split
  · split
    · exact sum_upd2 f n (i+1) i h2 (by omega) (by omega) _
    · exact sum_upd2 f n (i-1) i (by omega) (by omega) (by omega) _
  · rfl

/-- C51: `nl_filter` conserves the sum of the values. -/
theorem C51_nlfilter_conserves (w : K) (n : Nat) (f : Nat → K) :
    ∑ k ∈ Finset.range n, nlFilter w n f k = ∑ k ∈ Finset.range n, f k := by
  unfold nlFilter
  have : ∀ (l : List Nat) (g : Nat → K), (∀ i ∈ l, 1 ≤ i ∧ i + 1 < n) →
      ∑ k ∈ Finset.range n, (l.foldl (nlStep w) g) k = ∑ k ∈ Finset.range n, g k := by
    intro l
    induction l with
    | nil => intro g _; rfl
    | cons i is ih =>
        intro g h
        rw [List.foldl_cons, ih _ (fun j hj => h j (by simp [hj])),
          nlStep_sum w g n i (h i (by simp)).1 (h i (by simp)).2]
  apply this
  intro i hi
  simp only [List.mem_map, List.mem_range] at hi
  obtain ⟨k, hk, rfl⟩ := hi
  omega

/-- C51: a profile without interior extrema is not changed. -/
theorem C51_nlfilter_monotone (w : K) (n : Nat) (f : Nat → K)
    (h : ∀ i, 1 ≤ i → i + 1 < n → (f (i+1) - f i) * (f (i-1) - f i) ≤ 0) : nlFilter w n f = f := by
  unfold nlFilter
  have : ∀ (l : List Nat), (∀ i ∈ l, 1 ≤ i ∧ i + 1 < n) → l.foldl (nlStep w) f = f := by
    intro l
    induction l with
    | nil => intro _; rfl
    | cons i is ih =>
        intro hl
        have e : nlStep w f i = f := by
          unfold nlStep
          simp only
          rw [if_neg (not_lt.mpr (h i (hl i (by simp)).1 (hl i (by simp)).2))]
        rw [List.foldl_cons, e, ih (fun j hj => hl j (by simp [hj]))]
  apply this
  intro i hi
  simp only [List.mem_map, List.mem_range] at hi
  obtain ⟨k, hk, rfl⟩ := hi
  omega

section Bound
variable [IsStrictOrderedRing K]

theorem fabs_eq (a : K) : fabs a = |a| := by
  unfold fabs
  by_cases h : a < 0
  · rw [if_pos h, abs_of_neg h]
  · rw [if_neg h, abs_of_nonneg (not_lt.mp h)]

/-- The amount moved: it has the sign of both differences, is at most half the larger and at
most the smaller. -/
theorem move_bound (w D d : K) (hw0 : 0 ≤ w) (hw1 : w ≤ 1) (hs : 0 < D * d) :
    let e := if fabs (w * (1/2) * D) < fabs (w * d) then w * (1/2) * D else w * d
    (0 < D → 0 ≤ e ∧ e ≤ D / 2 ∧ e ≤ d) ∧ (D < 0 → e ≤ 0 ∧ D / 2 ≤ e ∧ d ≤ e) := by
  intro e
  constructor
  · intro hD
    have hd : 0 < d := (pos_iff_pos_of_mul_pos hs).mp hD
    have h1 : 0 ≤ w * (1/2) * D := by positivity
    have h2 : 0 ≤ w * d := by positivity
    have h3 : w * (1/2) * D ≤ D / 2 := by nlinarith
    have h4 : w * d ≤ d := by nlinarith
    show 0 ≤ e ∧ e ≤ D / 2 ∧ e ≤ d
    have he : e = if fabs (w * (1/2) * D) < fabs (w * d) then w * (1/2) * D else w * d := rfl
    rw [fabs_eq, fabs_eq, abs_of_nonneg h1, abs_of_nonneg h2] at he
    by_cases c : w * (1/2) * D < w * d
    · rw [if_pos c] at he
      rw [he]; exact ⟨h1, h3, by linarith⟩
    · rw [if_neg c] at he
      rw [he]; exact ⟨h2, by linarith [not_lt.mp c], h4⟩
  · intro hD
    have hd : d < 0 := (neg_iff_neg_of_mul_pos hs).mp hD
    have h1 : w * (1/2) * D ≤ 0 := by nlinarith
    have h2 : w * d ≤ 0 := by nlinarith
    have h3 : D / 2 ≤ w * (1/2) * D := by nlinarith
    have h4 : d ≤ w * d := by nlinarith
    have he : e = if fabs (w * (1/2) * D) < fabs (w * d) then w * (1/2) * D else w * d := rfl
    rw [fabs_eq, fabs_eq, abs_of_nonpos h1, abs_of_nonpos h2] at he
    by_cases c : -(w * (1/2) * D) < -(w * d)
    · rw [if_pos c] at he
      rw [he]; exact ⟨h1, h3, by linarith⟩
    · rw [if_neg c] at he
      rw [he]; exact ⟨h2, by linarith [not_lt.mp c], h4⟩

theorem nlStep_bound (w : K) (hw0 : 0 ≤ w) (hw1 : w ≤ 1) (f : Nat → K) (i n : Nat) (h1 : 1 ≤ i) (h2 : i + 1 < n)
    (lo hi : K) (h : ∀ k, k < n → lo ≤ f k ∧ f k ≤ hi) (k : Nat) (hk : k < n) :
    lo ≤ nlStep w f i k ∧ nlStep w f i k ≤ hi := by
  have a := h i (by omega)
  have b := h (i+1) h2
  have c := h (i-1) (by omega)
  have d := h k hk
  have core : ∀ (j : Nat) (small : K), (lo ≤ f j ∧ f j ≤ hi) → 0 < (f j - f i) * small →
      lo ≤ upd2 f j (f j - (if fabs (w * (1/2) * (f j - f i)) < fabs (w * small) then w * (1/2) * (f j - f i) else w * small))
          i (f i + (if fabs (w * (1/2) * (f j - f i)) < fabs (w * small) then w * (1/2) * (f j - f i) else w * small)) k ∧
      upd2 f j (f j - (if fabs (w * (1/2) * (f j - f i)) < fabs (w * small) then w * (1/2) * (f j - f i) else w * small))
          i (f i + (if fabs (w * (1/2) * (f j - f i)) < fabs (w * small) then w * (1/2) * (f j - f i) else w * small)) k ≤ hi := by
    intro j small hj hs
    obtain ⟨m1, m2⟩ := move_bound w (f j - f i) small hw0 hw1 hs
    generalize (if fabs (w * (1/2) * (f j - f i)) < fabs (w * small) then w * (1/2) * (f j - f i) else w * small) = e at m1 m2 ⊢
    have hne : f j - f i ≠ 0 := fun h0 => by rw [h0, zero_mul] at hs; exact lt_irrefl _ hs
    have b1 : lo ≤ f j - e ∧ f j - e ≤ hi ∧ lo ≤ f i + e ∧ f i + e ≤ hi := by
      rcases lt_or_gt_of_ne hne with hD | hD
      · obtain ⟨p, q, r⟩ := m2 hD
        refine ⟨?_, ?_, ?_, ?_⟩ <;> linarith [hj.1, hj.2, a.1, a.2]
      · obtain ⟨p, q, r⟩ := m1 hD
        refine ⟨?_, ?_, ?_, ?_⟩ <;> linarith [hj.1, hj.2, a.1, a.2]
    unfold upd2
    split
    · exact ⟨b1.1, b1.2.1⟩
    · split
      · exact ⟨b1.2.2.1, b1.2.2.2⟩
      · exact d
  unfold nlStep
  simp only
  by_cases hs : 0 < (f (i+1) - f i) * (f (i-1) - f i)
  · rw [if_pos hs]
    split
    · exact core (i+1) (f (i-1) - f i) b hs
    · exact core (i-1) (f (i+1) - f i) c (by rw [mul_comm]; exact hs)
  · rw [if_neg hs]; exact d

/-- C51: for a weight between 0 and 1, `nl_filter` never leaves the range of its input. -/
theorem C51_nlfilter_bounded (w : K) (hw0 : 0 ≤ w) (hw1 : w ≤ 1) (n : Nat) (f : Nat → K) (lo hi : K)
    (h : ∀ k, k < n → lo ≤ f k ∧ f k ≤ hi) (k : Nat) (hk : k < n) :
    lo ≤ nlFilter w n f k ∧ nlFilter w n f k ≤ hi := by
  unfold nlFilter
  have : ∀ (l : List Nat) (g : Nat → K), (∀ i ∈ l, 1 ≤ i ∧ i + 1 < n) → (∀ k, k < n → lo ≤ g k ∧ g k ≤ hi) →
      ∀ k, k < n → lo ≤ (l.foldl (nlStep w) g) k ∧ (l.foldl (nlStep w) g) k ≤ hi := by
    intro l
    induction l with
    | nil => intro g _ hg; exact hg
    | cons i is ih =>
        intro g hl hg
        rw [List.foldl_cons]
        apply ih _ (fun j hj => hl j (by simp [hj]))
        intro k hk
        exact nlStep_bound w hw0 hw1 g i n (hl i (by simp)).1 (hl i (by simp)).2 lo hi hg k hk
  apply this _ _ _ h k hk
  intro i hi
  simp only [List.mem_map, List.mem_range] at hi
  obtain ⟨k, hk, rfl⟩ := hi
  omega
end Bound

/-- A concrete run: a spike is spread, the sum is kept. -/
theorem C51_nlfilter_example :
    (List.range 4).map (nlFilter (1 : ℚ) 4 (fun k => if k = 1 then 4 else 0)) = [2, 2, 0, 0] := by decide +kernel

/-- The hypotheses of the reduction theorems are met by three ranks, one with an idle thread. -/
theorem C51_example : reduceField minStep [[[3, 5], [2]], [[7], []], [[4]]] 1 true = .ok (2 : ℚ) ∧
    reduceField maxStep [[[3, 5], [2]], [[7], []], [[4]]] 2 true = .ok (7 : ℚ) ∧
    meanField [[[3, 5], [2]], [[7], []], [[4]]] 0 true = .ok (21/5 : ℚ) := by
  refine ⟨by rfl, by rfl, by rw [C51_mean_all _ (by simp)]; norm_num⟩

end Verif.Reduce
