import Verif.Model.Basic
/-!
# More slice operations
-/
namespace Fiksi

/-- `slice.swap(i, j)` (panics when out of bounds). -/
def swapIdx {α : Type} (l : List α) (i j : Nat) : R (List α) := do
  let a ← idx l i
  let b ← idx l j
  let l ← setIdx l i b
  setIdx l j a

/-- `&slice[start..end]` (panics when out of bounds). -/
def sliceIdx {α : Type} (l : List α) (start stop : Nat) : R (List α) :=
  if start ≤ stop ∧ stop ≤ l.length then .ok ((l.drop start).take (stop - start)) else .error .indexOutOfBounds

end Fiksi
