import Verif.Spec.Rounding
/-!
# The size of a figure, and figures that differ by rounding
-/
namespace Fiksi.Spec

noncomputable section

/-- The coordinates and lengths of an element. -/
def Elem.numbers : Elem ℝ → List ℝ
  | .length v => [v]
  | .point x y => [x, y]
  | .line _ _ => []
  | .circle _ _ => []

/-- The distance a constraint requires. -/
def Con.distance : Con ℝ → Option ℝ
  | .pointPointDistance _ _ d => some d
  | .pointLineDistance _ _ d => some d
  | _ => none

/-- All coordinates, lengths and required distances. -/
def Store.numbers (st : Store ℝ) : List ℝ := st.elems.flatMap Elem.numbers ++ st.cons.filterMap Con.distance

/-- The size of a figure: the root of the mean of the squares of its numbers. -/
def Store.size (st : Store ℝ) : ℝ := √((st.numbers.map (fun x => x ^ 2)).sum / st.numbers.length)

end

/-- The power of a length that the deviation of a constraint is (`Geo.Deviation`), for the constraints that stay well conditioned when lines and arms are short. -/
def Con.dimension {F : Type} : Con F → Option Nat
  | .pointPointCoincidence _ _ => some 1
  | .pointPointDistance _ _ _ => some 1
  | .pointLineIncidence _ _ => some 2
  | .pointCircleIncidence _ _ => some 1
  | .segmentSegmentLengthEquality _ _ _ _ => some 1
  | .lineLineParallelism _ _ => some 2
  | .lineLinePerpendicularity _ _ => some 2
  | _ => none

/-- The power of a length that the deviation of a constraint is. -/
def Con.degree {F : Type} : Con F → Nat
  | .pointPointPointAngle _ _ _ _ => 0
  | .lineLineAngle _ _ _ => 0
  | .pointLineIncidence _ _ => 2
  | .lineLineParallelism _ _ => 2
  | .lineLinePerpendicularity _ _ => 2
  | _ => 1

namespace Geo

/-- The lines that a distance, an angle or a tangency is about, and the arms of an angle, are at least `δ` long, and the angle is by at least a millionth less than a straight one. -/
def Roomy (st : Store ℝ) (δ : ℝ) : Con ℝ → Prop
  | .pointPointPointAngle p q r θ => |θ| ≤ Real.pi - 1 / 10 ^ 6 ∧ ∃ P Q R, PointIs st p P ∧ PointIs st q Q ∧ PointIs st r R ∧ δ ≤ dist P Q ∧ δ ≤ dist R Q
  | .pointLineDistance _ l _ => ∃ A B, LineIs st l A B ∧ δ ≤ dist A B
  | .lineLineAngle l m θ => |θ| ≤ Real.pi - 1 / 10 ^ 6 ∧ ∃ A B C D, LineIs st l A B ∧ LineIs st m C D ∧ δ ≤ dist A B ∧ δ ≤ dist C D
  | .lineCircleTangency l _ => ∃ A B, LineIs st l A B ∧ δ ≤ dist A B
  | _ => True

end Geo

/-- Two elements of the same form whose numbers differ by the factor `1 ± ε` at most. -/
def Elem.Near {A : Arith} (ε : ℝ) : Elem (Fl A) → Elem (Fl A) → Prop
  | .length v, .length v' => |v'.val - v.val| ≤ ε * |v.val|
  | .point x y, .point x' y' => |x'.val - x.val| ≤ ε * |x.val| ∧ |y'.val - y.val| ≤ ε * |y.val|
  | .line p q, .line p' q' => p' = p ∧ q' = q
  | .circle c r, .circle c' r' => c' = c ∧ r' = r
  | _, _ => False

end Fiksi.Spec
