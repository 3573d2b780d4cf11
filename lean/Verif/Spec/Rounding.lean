import Verif.Spec.Geometry
import Verif.Model.Expr
/-!
# Rounded arithmetic, and what a residual should be

A format without limits on the exponent: results are rounded, but nothing overflows, underflows or becomes NaN.
-/
namespace Fiksi.Spec

/-- An arithmetic on real numbers with rounded results. `rnd` rounds the results of `+`, `-`, `*`, `/` and `sqrt` (as IEEE 754 prescribes); the other functions are those of some library. -/
structure Arith where
  rnd : ℝ → ℝ
  sin : ℝ → ℝ
  cos : ℝ → ℝ
  /-- Argument order `y x`. -/
  atan2 : ℝ → ℝ → ℝ

/-- Rounding has a relative error of at most `u` (`2⁻⁵³` for binary64), `atan2` one of at most `2u`. -/
structure Arith.Accurate (A : Arith) (u : ℝ) : Prop where
  pos : 0 ≤ u
  small : u ≤ 1 / 10 ^ 6
  rnd : ∀ x, |A.rnd x - x| ≤ u * |x|
  atan2 : ∀ x y, |A.atan2 y x - Complex.arg ⟨x, y⟩| ≤ 2 * u * |Complex.arg ⟨x, y⟩|

/-- A number with a significand of 53 bits (the format binary64 of IEEE 754, without limits on the exponent). -/
def Representable (x : ℝ) : Prop := ∃ m e : ℤ, |m| < 2 ^ 53 ∧ x = m * 2 ^ e

/-- Results are rounded to a nearest number of the format, with any rule for ties. -/
def Arith.Binary64 (A : Arith) : Prop := ∀ x, Representable (A.rnd x) ∧ ∀ y, Representable y → |A.rnd x - x| ≤ |y - x|

/-- Rounding does not depend on the exponent: the rule for ties treats `x` and `2 x` alike (ties to even and ties away from zero do). -/
def Arith.Uniform (A : Arith) : Prop := ∀ x, A.rnd (2 * x) = 2 * A.rnd x

/-- The numbers of an arithmetic. -/
structure Fl (A : Arith) where
  val : ℝ

noncomputable section
variable {A : Arith}

instance : Add (Fl A) := ⟨fun a b => ⟨A.rnd (a.val + b.val)⟩⟩
instance : Sub (Fl A) := ⟨fun a b => ⟨A.rnd (a.val - b.val)⟩⟩
instance : Mul (Fl A) := ⟨fun a b => ⟨A.rnd (a.val * b.val)⟩⟩
instance : Div (Fl A) := ⟨fun a b => ⟨A.rnd (a.val / b.val)⟩⟩
instance : Neg (Fl A) := ⟨fun a => ⟨-a.val⟩⟩
instance : Zero (Fl A) := ⟨⟨0⟩⟩
instance : One (Fl A) := ⟨⟨1⟩⟩
instance : FloatOps (Fl A) where
  sqrt a := ⟨A.rnd (Real.sqrt a.val)⟩
  atan2 a b := ⟨A.atan2 a.val b.val⟩
  sin a := ⟨A.sin a.val⟩
  cos a := ⟨A.cos a.val⟩
  abs a := ⟨|a.val|⟩
  signum a := ⟨if a.val < 0 then -1 else 1⟩
  pi := ⟨A.rnd Real.pi⟩
  ofNat n := ⟨A.rnd n⟩
  ltB a b := decide (a.val < b.val)
  eqB a b := decide (a.val = b.val)

end

/-- The value of an element as real numbers. -/
def Elem.real {A : Arith} : Elem (Fl A) → Elem ℝ
  | .length v => .length v.val
  | .point x y => .point x.val y.val
  | .line p q => .line p q
  | .circle c r => .circle c r

/-- A constraint with a real parameter. -/
def Con.real {A : Arith} : Con (Fl A) → Con ℝ
  | .pointPointCoincidence p q => .pointPointCoincidence p q
  | .pointPointDistance p q d => .pointPointDistance p q d.val
  | .pointPointPointAngle p q r d => .pointPointPointAngle p q r d.val
  | .pointLineIncidence p l => .pointLineIncidence p l
  | .pointLineDistance p l d => .pointLineDistance p l d.val
  | .pointCircleIncidence p c => .pointCircleIncidence p c
  | .segmentSegmentLengthEquality a b c d => .segmentSegmentLengthEquality a b c d
  | .lineLineAngle l m d => .lineLineAngle l m d.val
  | .lineLineParallelism l m => .lineLineParallelism l m
  | .lineLinePerpendicularity l m => .lineLinePerpendicularity l m
  | .lineCircleTangency l c => .lineCircleTangency l c

/-- The figure with real coordinates. -/
def Store.real {A : Arith} (st : Store (Fl A)) : Store ℝ := ⟨st.elems.map Elem.real, st.cons.map Con.real, st.fixed⟩

namespace Geo
open ComplexConjugate

/-- `x` is by how much a constraint is missed, in the exact plane; `s` is the size of the quantities that are compared. Lengths are distances, the deviation from parallel and perpendicular is the
cross and dot product of the directions. -/
def Deviation (st : Store ℝ) (con : Con ℝ) (x s : ℝ) : Prop :=
  match con with
  | .pointPointCoincidence p q => ∃ P Q, PointIs st p P ∧ PointIs st q Q ∧ x = dist P Q ∧ s = dist P Q
  | .pointPointDistance p q d => ∃ P Q, PointIs st p P ∧ PointIs st q Q ∧ x = dist P Q - d ∧ s = dist P Q + |d|
  | .pointPointPointAngle p q r θ => ∃ P Q R, PointIs st p P ∧ PointIs st q Q ∧ PointIs st r R ∧ TurnedBy (θ + x) (P - Q) (R - Q) ∧ s = 4 * Real.pi + |θ|
  | .pointLineIncidence p l => ∃ P A B, PointIs st p P ∧ LineIs st l A B ∧ x = (conj (B - A) * (P - A)).im ∧ s = dist A B * dist P A
  | .pointLineDistance p l d => ∃ P A B, PointIs st p P ∧ LineIs st l A B ∧ AtSignedDistance P A B (d + x) ∧ s = dist P A + |d|
  | .pointCircleIncidence p c => ∃ P C r, PointIs st p P ∧ CircleIs st c C r ∧ x = dist P C - r ∧ s = dist P C + |r|
  | .segmentSegmentLengthEquality a b c d => ∃ A B C D, PointIs st a A ∧ PointIs st b B ∧ PointIs st c C ∧ PointIs st d D ∧
      x = dist C D - dist A B ∧ s = dist C D + dist A B
  | .lineLineAngle l m θ => ∃ A B C D, LineIs st l A B ∧ LineIs st m C D ∧ TurnedBy (θ + x) (B - A) (D - C) ∧ s = 4 * Real.pi + |θ|
  | .lineLineParallelism l m => ∃ A B C D, LineIs st l A B ∧ LineIs st m C D ∧ x = (conj (D - C) * (B - A)).im ∧ s = dist A B * dist C D
  | .lineLinePerpendicularity l m => ∃ A B C D, LineIs st l A B ∧ LineIs st m C D ∧ x = (conj (D - C) * (B - A)).re ∧ s = dist A B * dist C D
  | .lineCircleTangency l c => ∃ A B C r, LineIs st l A B ∧ CircleIs st c C r ∧ x = Metric.infDist C {p | OnLine p A B} - r ∧
      s = (|A.re| * dist B C + |B.re| * dist C A + |C.re| * dist A B) / dist A B + |r|

/-- Lines have two different points, and the arms of an angle do not vanish. -/
def Proper (st : Store ℝ) : Con ℝ → Prop
  | .pointPointPointAngle p q r _ => ∃ P Q R, PointIs st p P ∧ PointIs st q Q ∧ PointIs st r R ∧ P ≠ Q ∧ R ≠ Q
  | .pointLineDistance _ l _ => ∃ A B, LineIs st l A B ∧ A ≠ B
  | .lineLineAngle l m _ => ∃ A B C D, LineIs st l A B ∧ LineIs st m C D ∧ A ≠ B ∧ C ≠ D
  | .lineCircleTangency l _ => ∃ A B, LineIs st l A B ∧ A ≠ B
  | _ => True

end Geo

end Fiksi.Spec
