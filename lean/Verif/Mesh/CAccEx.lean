import Verif.Mesh.CAccThms

/-! # C91: what the code gets wrong, and concrete cases -/
namespace Verif.CAcc

/-- Coordinates on `n` by 1 by 2 points whose values are all `v`. -/
def flat (n v : Nat) : Coords Nat := ⟨n, 1, 2, fun _ _ => v⟩

/-- Memory that holds 999. -/
def junk : Nat → Nat → Nat := fun _ _ => 999

/-- The value an accessor made at the end of a history gives, if the history is possible and the object exists. -/
def see (d : Bool) (h : List (Op Nat)) (a blk index : Nat) (s : Sym) : Option Nat :=
  (run d (start junk) h).bind fun st => (st.coords.lookup a).map fun c =>
    let r := construct d st a c blk
    lookup d r.1 r.2 index s

/-- **C91 is violated: objects at the same address.** A `Coordinates` object is destroyed and another made where it was: its
accessor gives the values of the first one. -/
theorem C91_reuse_violated :
    see false [.create 5 (flat 1 10), .construct 5 0, .destroy 5, .create 5 (flat 1 20)] 5 1 0 .J = some 10
    ∧ see false [.create 5 (flat 1 10), .construct 5 0, .destroy 5, .clear (some 5), .create 5 (flat 1 20)] 5 1 0 .J
      = some 20 := by
  decide

/-- **C91 is violated: and on a larger mesh reads outside the array.** With three points where there was one, the cell read for
the last point is beyond the array that was allocated. -/
theorem C91_bounds_violated :
    see false [.create 5 (flat 1 10), .construct 5 0, .destroy 5, .create 5 (flat 3 20)] 5 1 5 .J = some 999
    ∧ arraySize false (flat 1 10) ≤ cell false ⟨0, 2⟩ 5 .J := by
  decide

/-- **C91 is violated: changed coordinates.** After a change the accessor gives the old value (documented: the user has to call
`clear`). -/
theorem C91_stale_violated :
    see false [.create 5 (flat 1 10), .construct 5 0, .modify 5 .J 0 11] 5 1 0 .J = some 10
    ∧ see false [.create 5 (flat 1 10), .construct 5 0, .modify 5 .J 0 11, .clear none] 5 1 0 .J = some 11 := by
  decide

/-- **C91 is violated: accessors outlive their data.** An accessor made before `clear` reads what another array has put into
the block. -/
theorem C91_dangling_violated :
    (run false (start junk) [.create 5 (flat 1 10), .construct 5 0, .clear none, .other 0 6 77]).map
      (fun s => lookup false s ⟨0, 2⟩ 0 .J) = some 77 := by
  decide

/-- `C91_snapshot`, `C91_current_partial`: their hypotheses hold in a history with other objects, other arrays and a second
accessor. -/
theorem C91_snapshot_example :
    let h1 : List (Op Nat) := [.create 5 (flat 2 10), .create 6 (flat 1 3), .construct 6 4, .construct 5 2, .clear (some 5)]
    let h2 : List (Op Nat) := [.other 7 0 1, .construct 5 8, .clear (some 6), .destroy 6]
    cachedAfter 5 h1 false = false
    ∧ ((run false (start junk) h1).bind fun s => (step false s (.construct 5 0)).bind fun s => run false s h2).isSome
    ∧ see false (h1 ++ .construct 5 0 :: h2) 5 9 3 .g_33 = some 10 := by
  decide

/-- `C91_clear`: two objects cached. -/
theorem C91_clear_example :
    ((run true (start junk) [.create 5 (flat 2 10), .create 6 (flat 1 3), .construct 6 4, .construct 5 2]).map
      fun s => ((clear s none).2, (clear s (some 5)).2, (clear s (some 7)).2)) = some (2, 1, 0) := by
  decide

end Verif.CAcc
