/-!
# Shared vocabulary of the model: panics, checked indexing, handles, tags

A Rust panic is the explicit value `Except.error p`; a function of the model returns in `R` exactly when the Rust function
contains a panicking operation (slice index, `unreachable!`, `assert!`, `expect`/`unwrap`, checked arithmetic).
-/
namespace Fiksi

/-- The ways in which the modelled Rust code can panic. `outOfFuel` is not a panic: a `while` loop or an unbounded recursion of
the code is a recursion on a fuel argument in the model, and `outOfFuel` means that the bound given by the caller was reached. It
is proved not to occur wherever the code terminates. -/
inductive Panic where
  | indexOutOfBounds
  | unreachable
  | assertion
  | conversion
  | unwrapNone
  | overflow
  | outOfFuel
  deriving DecidableEq, Repr

/-- Result of a Rust function that may panic. -/
abbrev R (α : Type) := Except Panic α

/-- `slice[i]` (panics when out of bounds). -/
def idx {α : Type} (l : List α) (i : Nat) : R α :=
  match l[i]? with
  | some a => .ok a
  | none => .error .indexOutOfBounds

/-- `slice[i] = a` (panics when out of bounds). -/
def setIdx {α : Type} (l : List α) (i : Nat) (a : α) : R (List α) :=
  if i < l.length then .ok (l.set i a) else .error .indexOutOfBounds

/-- `usize → u32` conversion followed by `unwrap`/`expect`. -/
def toU32 (n : Nat) : R Nat :=
  if n < 2 ^ 32 then .ok n else .error .conversion

/-- `Option::unwrap`. -/
def unwrap {α : Type} : Option α → R α
  | some a => .ok a
  | none => .error .unwrapNone

/-- Untyped part of `ElementHandle<T>` (`fiksi/src/elements/mod.rs:26-32`) and `ConstraintHandle<T>`
(`fiksi/src/constraints/mod.rs:63-69`). The phantom type `T` is an explicit tag wherever it matters. -/
structure Handle where
  systemId : Nat
  id : Nat
  deriving DecidableEq, Repr

/-- `ElementTag`, `fiksi/src/elements/mod.rs:496-501`. -/
inductive ElementTag where
  | length | point | line | circle
  deriving DecidableEq, Repr

/-- `ConstraintTag`, `fiksi/src/constraints/mod.rs:896-908`. -/
inductive ConstraintTag where
  | pointPointCoincidence
  | pointPointDistance
  | pointPointPointAngle
  | pointLineIncidence
  | pointLineDistance
  | pointCircleIncidence
  | segmentSegmentLengthEquality
  | lineLineAngle
  | lineLineParallelism
  | lineLinePerpendicularity
  | lineCircleTangency
  deriving DecidableEq, Repr

/-- `Constraint::VALENCY` of the eleven types, `fiksi/src/constraints/mod.rs:948-990`, and
`ConstraintTag::valency`, `fiksi/src/constraints/mod.rs:911-925`. -/
def ConstraintTag.valency : ConstraintTag → Nat
  | .pointPointCoincidence => 2
  | .pointPointDistance => 1
  | .pointPointPointAngle => 1
  | .pointLineIncidence => 1
  | .pointLineDistance => 1
  | .pointCircleIncidence => 1
  | .segmentSegmentLengthEquality => 1
  | .lineLineAngle => 1
  | .lineLineParallelism => 1
  | .lineLinePerpendicularity => 1
  | .lineCircleTangency => 1

end Fiksi
