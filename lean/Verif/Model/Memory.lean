import Verif.Model.Basic
/-!
# Memory accessed through signed offsets

`colamd_rs` works on `i32` buffers, indexing them with `as usize` casts or through raw pointers (`*A.offset(i as isize)`). A buffer is a
size and its contents. An access outside the buffer is a panic for a slice and undefined behaviour for a raw pointer; both are the
error value `indexOutOfBounds` here, so that a theorem that says that a function returns also says that its raw pointers are only
dereferenced inside the buffers.
-/
namespace Fiksi

/-- A buffer of the given size. -/
structure Mem (α : Type) where
  size : Nat
  get : Int → α

namespace Mem
variable {α : Type}

/-- `m[i as usize]` or `*m.offset(i as isize)`. -/
def read (m : Mem α) (i : Int) : R α :=
  if 0 ≤ i ∧ i < m.size then .ok (m.get i) else .error .indexOutOfBounds

/-- `m[i as usize] = v` or `*m.offset(i as isize) = v`. -/
def write (m : Mem α) (i : Int) (v : α) : R (Mem α) :=
  if 0 ≤ i ∧ i < m.size then .ok ⟨m.size, fun j => if j = i then v else m.get j⟩ else .error .indexOutOfBounds

/-- An assignment to fields of `m[i as usize]`. -/
def modify (m : Mem α) (i : Int) (f : α → α) : R (Mem α) := do
  let v ← m.read i
  m.write i (f v)

/-- `&m[start as usize..stop as usize]`. -/
def slice (m : Mem α) (start stop : Int) : R (List α) :=
  if 0 ≤ start ∧ start ≤ stop ∧ stop ≤ m.size then .ok ((List.range (stop - start).toNat).map (fun i : Nat => m.get (start + i)))
  else .error .indexOutOfBounds

/-- The buffer with the contents of a slice. -/
def ofList (l : List α) (d : α) : Mem α := ⟨l.length, fun i => l.getD i.toNat d⟩

/-- The contents as a slice. -/
def toList (m : Mem α) : List α := (List.range m.size).map (fun i : Nat => m.get i)

end Mem

/-- The integers `start, start + 1, …, start + n - 1`: a loop over `start..start + n`, or over the pointers from `start` to
`start + n`. -/
def span (start : Int) (n : Nat) : List Int := (List.range n).map (fun i : Nat => start + i)

/-- The result `x` of an operation on `i32`, with overflow checks. It is also used for casts to `i32` that would lose bits. -/
def i32 (x : Int) : R Int :=
  if -(2 ^ 31) ≤ x ∧ x < 2 ^ 31 then .ok x else .error .overflow

/-- `a - b` for `i32`, with overflow checks. -/
def subI32 (a b : Int) : R Int :=
  if -(2 ^ 31) ≤ a - b ∧ a - b < 2 ^ 31 then .ok (a - b) else .error .overflow

/-- `a * b` for `i32`, with overflow checks. -/
def mulI32 (a b : Int) : R Int :=
  if -(2 ^ 31) ≤ a * b ∧ a * b < 2 ^ 31 then .ok (a * b) else .error .overflow

/-- `n as i32` for a `usize`: the low 32 bits. -/
def asI32 (n : Nat) : Int := (((n + 2 ^ 31) % 2 ^ 32 : Nat) : Int) - 2 ^ 31

/-- `usize::checked_add` on a 64-bit target. -/
def checkedAdd64 (a b : Nat) : Option Nat := if a + b < 2 ^ 64 then some (a + b) else none

/-- `usize::checked_mul` on a 64-bit target. -/
def checkedMul64 (a b : Nat) : Option Nat := if a * b < 2 ^ 64 then some (a * b) else none

end Fiksi
