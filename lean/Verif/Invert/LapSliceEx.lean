import Verif.Invert.LapSliceThms

/-! # C93: what the code gets wrong, and concrete cases -/
namespace Verif.LapSlice

/-- Four interior slices between guard slices 0, 1 and 6, 7: a mesh with both boundaries and one without. -/
def open_ : YMesh := ⟨2, 5, 8, [(true, true)]⟩
def closed : YMesh := ⟨2, 5, 8, [(false, false)]⟩

/-- **C93 is violated: several meshes.** The answers of `hasBndryLowerY` and `hasBndryUpperY` are kept in function-local static
variables: after they were asked of a mesh without boundaries, they deny those of every other mesh, and the guard slices are not
solved; the other way round slices are solved beyond a boundary that is not there. -/
theorem C93_cache_violated :
    let first := (slices ⟨true, 0, 0⟩ closed false ⟨none, none⟩).2
    let second := (slices ⟨true, 0, 0⟩ open_ false ⟨none, none⟩).2
    (slices ⟨true, 0, 0⟩ open_ false first).1 = [2, 3, 4, 5]
    ∧ (slices ⟨true, 0, 0⟩ open_ false ⟨none, none⟩).1 = [0, 1, 2, 3, 4, 5, 6, 7]
    ∧ (slices ⟨true, 0, 0⟩ closed false second).1 = [0, 1, 2, 3, 4, 5, 6, 7]
    ∧ (slices ⟨true, 0, 0⟩ closed false ⟨none, none⟩).1 = [2, 3, 4, 5] := by decide

/-- **C93 is violated: excluded rows and first guesses.** `solve(b, x0)` ignores `extra_yguards_lower` and `_upper`: it solves
slices that `solve(b)` leaves out. -/
theorem C93_guess_violated :
    (slices ⟨false, 1, 1⟩ open_ false ⟨none, none⟩).1 = [3, 4]
    ∧ (slices ⟨false, 1, 1⟩ open_ true ⟨none, none⟩).1 = [2, 3, 4, 5] := by decide

/-- **C93 is violated: a failure on one processor only.** If the inversion fails on one processor of a row and not on another, the
first waits for all processors to report while the second waits for it in the next slice: nothing can take place. -/
theorem C93_deadlock_violated :
    let rowOf : Bool → Unit := fun _ => ()
    let s : Bool → List Op := fun p => program (fun jy => p && jy == 2) [2, 3]
    ∃ s', Step rowOf s s' ∧ (∃ p, s' p ≠ []) ∧ ¬ ∃ s'', Step rowOf s' s'' := by
  intro rowOf s
  have ht : s true = [Op.row 2, Op.world true] := by decide
  have hf : s false = [Op.row 2, Op.row 3, Op.world false] := by decide
  refine ⟨fun p => (s p).tail, .row _ _ () true rfl ?_ fun p hp => absurd rfl hp, ⟨true, by show (s true).tail ≠ []; rw [ht]; simp⟩, ?_⟩
  · intro p _
    cases p
    · exact ⟨2, _, hf, by rw [hf]; rfl⟩
    · exact ⟨2, _, ht, by rw [ht]; rfl⟩
  · rintro ⟨s'', h⟩
    cases h with
    | row r _ _ h1 _ =>
      obtain ⟨_, _, e, -⟩ := h1 true rfl
      rw [ht] at e; simp at e
    | world h1 =>
      obtain ⟨_, _, e, -⟩ := h1 false
      rw [hf] at e; simp at e

/-- `C93_slices_partial`: guard slices included, queries made before, one of which is for the upper boundary. -/
theorem C93_slices_example :
    History open_ (hasUpper ⟨none, none⟩ open_).2 ∧ 0 ≤ open_.ystart ∧ open_.ystart ≤ open_.yend ∧ open_.yend ≤ open_.localNy - 1
    ∧ (slices ⟨true, 0, 0⟩ open_ true (hasUpper ⟨none, none⟩ open_).2).1 = [0, 1, 2, 3, 4, 5, 6, 7] :=
  ⟨.upper .start, by decide, by decide, by decide, by decide⟩

/-- A row that shares a boundary which only one of its processors has. -/
theorem C93_row_example :
    (slices ⟨true, 0, 0⟩ ⟨1, 2, 4, [(false, false), (true, false)]⟩ false ⟨none, none⟩).1 = [0, 1, 2] := by decide

/-- `C93_progress`: two rows of two, of which one fails in its second slice. -/
theorem C93_progress_example :
    let rowOf : Bool × Bool → Bool := fun p => p.1
    let js : Bool × Bool → List Int := fun _ => [2, 3, 4]
    let fails : Bool × Bool → Int → Bool := fun p jy => p.1 && jy == 3
    (∀ p q, rowOf p = rowOf q → js p = js q) ∧ (∀ p q, rowOf p = rowOf q → fails p = fails q)
    ∧ program (fails (true, false)) (js (true, false)) = [.row 2, .row 3, .world true]
    ∧ program (fails (false, false)) (js (false, false)) = [.row 2, .row 3, .row 4, .world false] := by
  intro rowOf js fails
  refine ⟨fun _ _ _ => rfl, fun p q h => ?_, by decide, by decide⟩
  funext jy
  simp only [fails, rowOf] at h ⊢
  rw [h]

end Verif.LapSlice
