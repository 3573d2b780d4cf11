import Verif.Model.Expr
/-!
# The perturbation generator (`fiksi/src/rand.rs`)
-/
namespace Fiksi

/-- The state after one step of `Rng::next_u32`, `rand.rs:24-30`, which is also its result. (`wrapping_mul` and `wrapping_add`
on `u32` are arithmetic modulo `2^32`.) -/
def rngNext (state : Nat) : Nat := (state * 1664525 % 2 ^ 32 + 1013904223) % 2 ^ 32

/-- `Rng::next_f64`, `rand.rs:36-39`: the value and the new state. -/
def rngNextF64 {F : Type} [Mul F] [Div F] [One F] [FloatOps F] (state : Nat) : F × Nat :=
  let val := rngNext state
  ((1 / FloatOps.ofNat (2 ^ 32 - 1)) * FloatOps.ofNat val, val)

end Fiksi
