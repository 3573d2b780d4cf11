import Verif.Model.Basic
import Mathlib.Data.Finset.Lattice.Fold
/-!
# Ordered collections

`indexmap::IndexMap` (`fiksi/src/collections.rs`) is an association list in insertion order: inserting an existing key keeps its
position. `hashbrown::HashMap` is modelled by the same type where its iteration order is never used.
A `BTreeSet<u32>` is a `Finset Nat`; `ascending` is its iteration order.
-/
namespace Fiksi

/-- `IndexMap<K, V>`. -/
abbrev IMap (κ α : Type) := List (κ × α)

namespace IMap
variable {κ α : Type} [DecidableEq κ]

/-- `IndexMap::get`. -/
def get? (m : IMap κ α) (k : κ) : Option α := (m.find? (fun p => p.1 == k)).map (·.2)

/-- `IndexMap::contains_key`. -/
def contains (m : IMap κ α) (k : κ) : Bool := m.any (fun p => p.1 == k)

/-- `IndexMap::insert`. -/
def insert (m : IMap κ α) (k : κ) (v : α) : IMap κ α :=
  if m.contains k then m.map (fun p => if p.1 == k then (k, v) else p) else m ++ [(k, v)]

/-- `IndexMap::keys`. -/
def keys (m : IMap κ α) : List κ := m.map (·.1)

end IMap

/-- The elements of a `BTreeSet<u32>` in iteration (ascending) order. -/
def ascending (s : Finset Nat) : List Nat := (List.range (s.sup id + 1)).filter (fun i => decide (i ∈ s))

/-- `u32::MAX`. -/
def u32Max : Nat := 2 ^ 32 - 1

/-- `u32::saturating_add(1)`. -/
def saturatingSucc (n : Nat) : Nat := min (n + 1) u32Max

end Fiksi
