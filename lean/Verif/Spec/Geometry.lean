import Verif.Spec.Store
import Mathlib.Analysis.SpecialFunctions.Complex.Arg
import Mathlib.Topology.MetricSpace.HausdorffDistance
/-!
# Plane geometry, independent of the code

Points of the plane are complex numbers. These are the relations the documentation of the constraints promises
(`fiksi/src/constraints/mod.rs:298-891`).
-/
namespace Fiksi.Spec.Geo

open Complex

/-- `p` lies on the infinite line through `a` and `b`. -/
def OnLine (p a b : ℂ) : Prop := ∃ t : ℝ, p = a + t * (b - a)

/-- The direction `d - c` is a multiple of the direction `b - a`. -/
def Parallel (a b c d : ℂ) : Prop := ∃ t : ℝ, d - c = t * (b - a)

/-- The directions `b - a` and `d - c` are orthogonal. -/
def Perpendicular (a b c d : ℂ) : Prop := (b - a).re * (d - c).re + (b - a).im * (d - c).im = 0

/-- `p` is at signed distance `s` from the line through `a` and `b`: it is reached from a point of the line by going `s` along
the unit normal (the direction of the line turned by `+90°`). -/
def AtSignedDistance (p a b : ℂ) (s : ℝ) : Prop :=
  ∃ foot : ℂ, OnLine foot a b ∧ p = foot + s * (I * (b - a) / ‖b - a‖)

/-- The direction of `v` is the direction of `u` turned by the angle `θ` (modulo full turns). -/
def TurnedBy (θ : ℝ) (u v : ℂ) : Prop := v / ‖v‖ = u / ‖u‖ * exp (θ * I)

/-- The circle with centre `c` and radius `r` touches the line through `a` and `b`: `r` is the distance of `c` from the line. -/
def Tangent (a b c : ℂ) (r : ℝ) : Prop := Metric.infDist c {p | OnLine p a b} = r

/-- Element `i` of the store is a point with value `P`. -/
def PointIs (st : Store ℝ) (i : Nat) (P : ℂ) : Prop := st.value i = some (.point P.re P.im)
/-- Element `i` of the store is a line through `A` and `B`. -/
def LineIs (st : Store ℝ) (i : Nat) (A B : ℂ) : Prop := st.value i = some (.line A.re A.im B.re B.im)
/-- Element `i` of the store is a circle. -/
def CircleIs (st : Store ℝ) (i : Nat) (C : ℂ) (r : ℝ) : Prop := st.value i = some (.circle C.re C.im r)

/-- The geometric relation a constraint stands for. -/
def Holds (st : Store ℝ) : Con ℝ → Prop
  | .pointPointCoincidence p q => ∃ P Q, PointIs st p P ∧ PointIs st q Q ∧ P = Q
  | .pointPointDistance p q d => ∃ P Q, PointIs st p P ∧ PointIs st q Q ∧ dist P Q = d
  | .pointPointPointAngle p q r θ => ∃ P Q R, PointIs st p P ∧ PointIs st q Q ∧ PointIs st r R ∧ TurnedBy θ (P - Q) (R - Q)
  | .pointLineIncidence p l => ∃ P A B, PointIs st p P ∧ LineIs st l A B ∧ OnLine P A B
  | .pointLineDistance p l d => ∃ P A B, PointIs st p P ∧ LineIs st l A B ∧ AtSignedDistance P A B d
  | .pointCircleIncidence p c => ∃ P C r, PointIs st p P ∧ CircleIs st c C r ∧ dist P C = r
  | .segmentSegmentLengthEquality a b c d => ∃ A B C D, PointIs st a A ∧ PointIs st b B ∧ PointIs st c C ∧ PointIs st d D ∧
      dist A B = dist C D
  | .lineLineAngle l m θ => ∃ A B C D, LineIs st l A B ∧ LineIs st m C D ∧ TurnedBy θ (B - A) (D - C)
  | .lineLineParallelism l m => ∃ A B C D, LineIs st l A B ∧ LineIs st m C D ∧ Parallel A B C D
  | .lineLinePerpendicularity l m => ∃ A B C D, LineIs st l A B ∧ LineIs st m C D ∧ Perpendicular A B C D
  | .lineCircleTangency l c => ∃ A B C r, LineIs st l A B ∧ CircleIs st c C r ∧ Tangent A B C r

/-- The configuration is not degenerate for the constraint: lines have two different points, the arms of an angle do not
vanish, and an angle parameter is strictly inside `(-π, π)`. -/
def Regular (st : Store ℝ) : Con ℝ → Prop
  | .pointPointPointAngle p q r θ => (∃ P Q R, PointIs st p P ∧ PointIs st q Q ∧ PointIs st r R ∧ P ≠ Q ∧ R ≠ Q) ∧
      -Real.pi < θ ∧ θ < Real.pi
  | .pointLineIncidence _ l => ∃ A B, LineIs st l A B ∧ A ≠ B
  | .pointLineDistance _ l _ => ∃ A B, LineIs st l A B ∧ A ≠ B
  | .lineLineAngle l m θ => (∃ A B C D, LineIs st l A B ∧ LineIs st m C D ∧ A ≠ B ∧ C ≠ D) ∧ -Real.pi < θ ∧ θ < Real.pi
  | .lineLineParallelism l _ => ∃ A B, LineIs st l A B ∧ A ≠ B
  | .lineCircleTangency l _ => ∃ A B, LineIs st l A B ∧ A ≠ B
  | _ => True

/-- The rigid motion that turns by `φ` about the origin and then moves by `t`. -/
noncomputable def motion (φ : ℝ) (t : ℂ) (p : ℂ) : ℂ := exp (φ * I) * p + t

/-- Apply a map of the plane to the points of an element. -/
def mapElem (f : ℂ → ℂ) : Elem ℝ → Elem ℝ
  | .point x y => .point (f ⟨x, y⟩).re (f ⟨x, y⟩).im
  | e => e

end Fiksi.Spec.Geo
