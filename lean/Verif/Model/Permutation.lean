import Verif.Model.Slices
/-!
# Permutations as swaps (`solvi/src/permutation.rs`)
-/
namespace Fiksi

/-- `PermutationSequence`, `permutation.rs:26-30`. -/
structure PermutationSequence where
  swapSequence : List (Nat × Nat)
  indicesLen : Nat
  deriving DecidableEq, Repr

/-- The loop `while !seen[i]`, `permutation.rs:47-51`: the new `seen` and `stack`. The first argument bounds the number of iterations. -/
def chase (permutation : List Nat) : Nat → Nat → List Bool → List Nat → R (List Bool × List Nat)
  | 0, _, _, _ => .error .outOfFuel
  | fuel + 1, i, seen, stack => do
      if ← idx seen i then pure (seen, stack)
      else
        let seen ← setIdx seen i true
        let next ← idx permutation i
        chase permutation fuel next seen (stack ++ [i])

/-- The swaps of a cycle, `permutation.rs:53-58`. -/
def cycleSwaps : List Nat → List (Nat × Nat)
  | [] => []
  | pivot :: rest => rest.reverse.map (fun swap => (pivot, swap))

/-- An iteration of `build_for_gather_permutation`, `permutation.rs:46-59`. State: swaps and `seen` (the stack is empty in between). -/
def gatherStep (permutation : List Nat) (st : List (Nat × Nat) × List Bool) (i : Nat) : R (List (Nat × Nat) × List Bool) := do
  let (seen, stack) ← chase permutation (permutation.length + 1) i st.2 []
  pure (st.1 ++ cycleSwaps stack, seen)

/-- `PermutationSequence::build_for_gather_permutation`, `permutation.rs:41-65`. -/
def PermutationSequence.buildForGather (permutation : List Nat) : R PermutationSequence := do
  let (swaps, _) ← permutation.foldlM (gatherStep permutation) ([], List.replicate permutation.length false)
  pure ⟨swaps, permutation.length⟩

/-- `PermutationSequence::permute_slice`, `permutation.rs:70-80`. -/
def PermutationSequence.permuteSlice {α : Type} (p : PermutationSequence) (slice : List α) : R (List α) :=
  if slice.length < p.indicesLen then .error .assertion
  else p.swapSequence.foldlM (fun (s : List α) (swap : Nat × Nat) => swapIdx s swap.1 swap.2) slice

end Fiksi
