import Verif.Proofs.OrderChildren
import Mathlib.Tactic.IntervalCases
/-!
# C46: the ordering of absorbed columns
-/
namespace Fiksi
open Spec

/-- C46: for fewer than 2³¹ columns in groups whose ranges are disjoint, `order_children` succeeds, its result lists every column exactly once, every
column lies in the range of its group, and the cell after the permutation keeps its content. -/
theorem C46_order_children {n : Int} {cols : Mem ColamdCol} {root : Int → Int} (h : Grouped n cols.get root) (n0 : 0 ≤ n) (hn : n ≤ cols.size)
    (hsn : n < 2 ^ 31) (p : Mem Int) (hp : n ≤ p.size) :
    ∃ p', orderChildren n cols p = .ok p' ∧ p'.size = p.size ∧ (p'.toList.take n.toNat).Perm (span 0 n.toNat) ∧
      (∀ c, 0 ≤ c → c < n → ∃ x, (cols.get (root c)).score ≤ x ∧ x < (cols.get (root c)).score + (cols.get (root c)).thickness ∧ p'.get x = c) ∧
      ∀ x, n ≤ x → p'.get x = p.get x := by
  obtain ⟨p', h1, h2, h3, h4⟩ := orderChildren_of h n0 hn hsn p hp
  refine ⟨p', h1, h2, perm_of_positions n0 (by omega) (finalPosition n cols root) fun c c0 c1 => ⟨?_, h3 c c0 c1⟩,
    fun c c0 c1 => ⟨finalPosition n cols root c, (h.position c0 c1).1, (h.position c0 c1).2, h3 c c0 c1⟩, h4⟩
  obtain ⟨r0, r1, r2⟩ := h.principal c c0 c1
  have := h.position c0 c1
  have := h.order _ r0 r1 r2
  omega

/-- Columns 1 and 2 are absorbed by column 0 (column 2 through column 1); column 3 comes first. -/
def groupedExample : Mem ColamdCol :=
  .ofList [⟨-1, 0, 3, 1, 0, 0⟩, ⟨-2, 0, 0, -1, 0, 0⟩, ⟨-2, 0, 1, -1, 0, 0⟩, ⟨-1, 0, 1, 0, 0, 0⟩] ⟨0, 0, 0, 0, 0, 0⟩

example : Grouped 4 groupedExample.get (fun c => if c = 3 then 3 else 0) where
  kind := by intro c h0 h1; interval_cases c <;> decide +kernel
  self := by intro c h0 h1; interval_cases c <;> decide +kernel
  principal := by intro c h0 h1; interval_cases c <;> decide +kernel
  unordered := by intro c h0 h1; interval_cases c <;> decide +kernel
  parent := by intro c h0 h1; interval_cases c <;> decide +kernel
  acyclic := ⟨fun c => c.toNat, by intro c h0 h1; interval_cases c <;> decide +kernel⟩
  thickness := by intro c h0 h1; interval_cases c <;> decide +kernel
  order := by intro c h0 h1; interval_cases c <;> decide +kernel
  disjoint := by intro c d h0 h1 h2 h3; interval_cases c <;> interval_cases d <;> decide +kernel

example : (orderChildren 4 groupedExample (.ofList [9, 9, 9, 9, -1] 0)).map Mem.toList = .ok [3, 1, 2, 0, -1] := by decide +kernel

end Fiksi
