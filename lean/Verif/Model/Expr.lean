import Verif.Model.Basic
/-!
# Residual expressions (`fiksi/src/constraints/expressions.rs`)

The scalar type `F` stands for `f64`. It is abstract: the same definitions run on `Float` and are reasoned about on `ℝ`.
-/
namespace Fiksi

/-- The `f64` library functions used by the modelled code. Comparison results are `Bool`s, as in Rust. -/
class FloatOps (F : Type) where
  sqrt : F → F
  /-- `y.atan2(x)`, argument order `y x`. -/
  atan2 : F → F → F
  sin : F → F
  cos : F → F
  abs : F → F
  /-- `f64::signum`: `1` for `+0.0` and positive numbers, `-1` for negative numbers. -/
  signum : F → F
  pi : F
  /-- `n as f64` for an unsigned integer. -/
  ofNat : Nat → F
  ltB : F → F → Bool
  eqB : F → F → Bool

/-- `Expression`, `expressions.rs:28-40`, with the fields of its eleven payload structs (`expressions.rs:280-283`, `305-311`,
`357-364`, `433-437`, `487-492`, `548-552`, `580-585`, `624-632`, `700-705`, `756-761`, `803-808`). -/
inductive Expr (F : Type) where
  | variableVariableEquality (variable1 variable2 : Nat)
  | pointPointDistance (point1 point2 : Nat) (distance : F)
  | pointPointPointAngle (point1 point2 point3 : Nat) (angle : F)
  | pointLineIncidence (point linePoint1 linePoint2 : Nat)
  | pointLineDistance (point linePoint1 linePoint2 : Nat) (distance : F)
  | pointCircleIncidence (point circleCenter circleRadius : Nat)
  | segmentSegmentLengthEquality (s1p1 s1p2 s2p1 s2p2 : Nat)
  | lineLineAngle (l1p1 l1p2 l2p1 l2p2 : Nat) (angle : F)
  | lineLineParallelism (l1p1 l1p2 l2p1 l2p2 : Nat)
  | lineLinePerpendicularity (l1p1 l1p2 l2p1 l2p2 : Nat)
  | lineCircleTangency (linePoint1 linePoint2 circleCenter circleRadius : Nat)
  deriving DecidableEq, Repr

/-- `Expression::variable_indices`, `expressions.rs:48-182`. The fixed-size buffer is dropped; `u32` additions are on `Nat`
(no overflow: the indices are below the number of variables, see `C05`). -/
def Expr.variableIndices {F : Type} : Expr F → List Nat
  | .variableVariableEquality a b => [a, b]
  | .pointPointDistance p q _ => [p, p + 1, q, q + 1]
  | .pointPointPointAngle p q r _ => [p, p + 1, q, q + 1, r, r + 1]
  | .pointLineIncidence p a b => [p, p + 1, a, a + 1, b, b + 1]
  | .pointLineDistance p a b _ => [p, p + 1, a, a + 1, b, b + 1]
  | .pointCircleIncidence p c r => [p, p + 1, c, c + 1, r]
  | .segmentSegmentLengthEquality a b c d => [a, a + 1, b, b + 1, c, c + 1, d, d + 1]
  | .lineLineAngle a b c d _ => [a, a + 1, b, b + 1, c, c + 1, d, d + 1]
  | .lineLineParallelism a b c d => [a, a + 1, b, b + 1, c, c + 1, d, d + 1]
  | .lineLinePerpendicularity a b c d => [a, a + 1, b, b + 1, c, c + 1, d, d + 1]
  | .lineCircleTangency a b c r => [a, a + 1, b, b + 1, c, c + 1, r]

section
variable {F : Type} [Add F] [Sub F] [Mul F] [Div F] [Neg F] [Zero F] [One F] [FloatOps F]
open FloatOps

/-- `Expression::transform`, `expressions.rs:195-211`. -/
def Expr.transform (lengthScaleRecip : F) : Expr F → Expr F
  | .pointPointDistance p q d => .pointPointDistance p q (lengthScaleRecip * d)
  | .pointLineDistance p a b d => .pointLineDistance p a b (lengthScaleRecip * d)
  | e => e

/-- `FloatExt::square`, `expressions.rs:20-25`. -/
def square (x : F) : F := x * x

/-- `VariableVariableEquality::compute_residual_and_gradient_`, `expressions.rs:294-300`. -/
def vveResGrad (a b : F) : F × List F := (b - a, [-1, 1])

/-- `PointPointDistance::compute_residual_and_gradient_`, `expressions.rs:327-352`. -/
def ppdResGrad (x1 y1 x2 y2 d : F) : F × List F :=
  let distance := sqrt (square (x1 - x2) + square (y1 - y2))
  let residual := distance - d
  let distanceRecip := 1 / distance
  (residual,
    [(x1 - x2) * distanceRecip, (y1 - y2) * distanceRecip,
     -(x1 - x2) * distanceRecip, -(y1 - y2) * distanceRecip])

/-- The wrap of an angle difference into `[-π, π]`, `expressions.rs:392-399` and `664-671`. -/
def wrapAngle (angle : F) : F :=
  if ltB pi angle then angle - (1 + 1) * pi
  else if ltB angle (-pi) then angle + (1 + 1) * pi
  else angle

/-- `PointPointPointAngle::compute_residual_and_gradient_`, `expressions.rs:375-424`. `u`, `v` are the vectors
`point1 - point2` and `point3 - point2`; `length_squared` is `x*x + y*y`, `recip` is `1/x`. -/
def pppaResGrad (x1 y1 x2 y2 x3 y3 paramAngle : F) : F × List F :=
  let ux := x1 - x2
  let uy := y1 - y2
  let vx := x3 - x2
  let vy := y3 - y2
  let angle := wrapAngle (atan2 vy vx - atan2 uy ux)
  let residual := angle - paramAngle
  let uSquaredRecip := 1 / (ux * ux + uy * uy)
  let vSquaredRecip := 1 / (vx * vx + vy * vy)
  let d1x := uy * uSquaredRecip
  let d1y := -ux * uSquaredRecip
  let d3x := -vy * vSquaredRecip
  let d3y := vx * vSquaredRecip
  let d2x := -d1x - d3x
  let d2y := -d1y - d3y
  (residual, [d1x, d1y, d2x, d2y, d3x, d3y])

/-- `PointLineIncidence::compute_residual_and_gradient_`, `expressions.rs:448-476`; `cross` is `u.x*v.y - u.y*v.x`. -/
def pliResGrad (x y x1 y1 x2 y2 : F) : F × List F :=
  let ux := x2 - x1
  let uy := y2 - y1
  let vx := x - x1
  let vy := y - y1
  let residual := ux * vy - uy * vx
  (residual, [-uy, ux, -y + y2, x - x2, vy, -vx])

/-- `PointLineDistance::compute_residual_and_gradient_`, `expressions.rs:503-543`. -/
def pldResGrad (x y x1 y1 x2 y2 paramDistance : F) : F × List F :=
  let ux := x2 - x1
  let uy := y2 - y1
  let vx := x - x1
  let vy := y - y1
  let cross := ux * vy - uy * vx
  let lineLengthSquared := ux * ux + uy * uy
  let lineLength := sqrt lineLengthSquared
  let lineLengthRecip := 1 / lineLength
  let a := cross / lineLengthSquared
  let b := -a * ux
  let c := x + a * uy
  let residual := lineLengthRecip * cross - paramDistance
  (residual,
    [-lineLengthRecip * uy,
     lineLengthRecip * ux,
     -lineLengthRecip * (b - y2 + y),
     -lineLengthRecip * (x2 - c),
     lineLengthRecip * (b + vy),
     -lineLengthRecip * (c - x1)])

/-- `PointCircleIncidence::compute_residual_and_gradient_`, `expressions.rs:563-575`. -/
def pciResGrad (x y cx cy r : F) : F × List F :=
  let p := ppdResGrad x y cx cy r
  (p.1, p.2 ++ [-1])

/-- `SegmentSegmentLengthEquality::compute_residual_and_gradient_`, `expressions.rs:596-619`. -/
def ssleResGrad (a b c d e f g h : F) : F × List F :=
  let p := ppdResGrad a b c d 0
  let q := ppdResGrad e f g h 0
  (q.1 - p.1, p.2.map (fun x => -x) ++ q.2)

/-- `LineLineAngle::compute_residual_and_gradient_`, `expressions.rs:643-695`. -/
def llaResGrad (a1x a1y a2x a2y b1x b1y b2x b2y paramAngle : F) : F × List F :=
  let ux := a2x - a1x
  let uy := a2y - a1y
  let vx := b2x - b1x
  let vy := b2y - b1y
  let angle := wrapAngle (atan2 vy vx - atan2 uy ux)
  let residual := angle - paramAngle
  let uSquaredRecip := 1 / (ux * ux + uy * uy)
  let vSquaredRecip := 1 / (vx * vx + vy * vy)
  let d1x := -uy * uSquaredRecip
  let d1y := ux * uSquaredRecip
  let d2x := vy * vSquaredRecip
  let d2y := -vx * vSquaredRecip
  (residual, [d1x, d1y, -d1x, -d1y, d2x, d2y, -d2x, -d2y])

/-- `LineLineParallelism::compute_residual_and_gradient_`, `expressions.rs:716-751`. -/
def llparResGrad (a1x a1y a2x a2y b1x b1y b2x b2y : F) : F × List F :=
  let ux := a2x - a1x
  let uy := a2y - a1y
  let vx := b2x - b1x
  let vy := b2y - b1y
  (vx * uy - vy * ux, [vy, -vx, -vy, vx, -uy, ux, uy, -ux])

/-- `LineLinePerpendicularity::compute_residual_and_gradient_`, `expressions.rs:772-798`. -/
def llperpResGrad (a1x a1y a2x a2y b1x b1y b2x b2y : F) : F × List F :=
  let ux := a2x - a1x
  let uy := a2y - a1y
  let vx := b2x - b1x
  let vy := b2y - b1y
  (vx * ux + vy * uy, [-vx, -vy, vx, vy, -ux, -uy, ux, uy])

/-- `LineCircleTangency::compute_residual_and_gradient_`, `expressions.rs:819-873`. `distance_squared` of kurbo is
`(p1-p2).hypot2()`. -/
def lctResGrad (x1 y1 x2 y2 cx cy r : F) : F × List F :=
  let length2 := (x1 - x2) * (x1 - x2) + (y1 - y2) * (y1 - y2)
  let length := sqrt length2
  if eqB length 0 then (0, [0, 0, 0, 0, 0, 0, 0])
  else
    let lengthRecip := 1 / length
    let signedArea := x1 * (y2 - cy) + x2 * (cy - y1) + cx * (y1 - y2)
    let residual := lengthRecip * abs signedArea - r
    let sign := signum signedArea
    let length3Recip := 1 / (length2 * length)
    (residual,
      [sign * length3Recip * (length2 * (y2 - cy) + signedArea * (x2 - x1)),
       sign * length3Recip * (length2 * (-x2 + cx) + signedArea * (y2 - y1)),
       sign * length3Recip * (length2 * (cy - y1) - signedArea * (x2 - x1)),
       sign * length3Recip * (length2 * (x1 - cx) - signedArea * (y2 - y1)),
       sign * lengthRecip * (y1 - y2),
       sign * lengthRecip * (-x1 + x2),
       -1])

/-- `Expression::compute_residual_and_gradient`, `expressions.rs:214-276`: dispatch on the kind, given the values of the
expression's variables in the order of `variable_indices`. The Rust buffers have length 8 and are resliced (`reslice`,
`expressions.rs:878-880`); a wrong number of values is a panic here. -/
def Expr.computeResidualAndGradient (e : Expr F) (vs : List F) : R (F × List F) :=
  match e, vs with
  | .variableVariableEquality _ _, [a, b] => .ok (vveResGrad a b)
  | .pointPointDistance _ _ d, [a, b, c, e] => .ok (ppdResGrad a b c e d)
  | .pointPointPointAngle _ _ _ t, [a, b, c, d, e, f] => .ok (pppaResGrad a b c d e f t)
  | .pointLineIncidence _ _ _, [a, b, c, d, e, f] => .ok (pliResGrad a b c d e f)
  | .pointLineDistance _ _ _ t, [a, b, c, d, e, f] => .ok (pldResGrad a b c d e f t)
  | .pointCircleIncidence _ _ _, [a, b, c, d, e] => .ok (pciResGrad a b c d e)
  | .segmentSegmentLengthEquality _ _ _ _, [a, b, c, d, e, f, g, h] => .ok (ssleResGrad a b c d e f g h)
  | .lineLineAngle _ _ _ _ t, [a, b, c, d, e, f, g, h] => .ok (llaResGrad a b c d e f g h t)
  | .lineLineParallelism _ _ _ _, [a, b, c, d, e, f, g, h] => .ok (llparResGrad a b c d e f g h)
  | .lineLinePerpendicularity _ _ _ _, [a, b, c, d, e, f, g, h] => .ok (llperpResGrad a b c d e f g h)
  | .lineCircleTangency _ _ _ _, [a, b, c, d, e, f, g] => .ok (lctResGrad a b c d e f g)
  | _, _ => .error .unwrapNone

/-- `Variable`, `fiksi/src/variable_map.rs:6-20`. -/
inductive Variable (F : Type) where
  | free (value : F) (idx : Nat)
  | fixed (value : F)

/-- The value carried by a `Variable` in either case. -/
def Variable.value {F : Type} : Variable F → F
  | .free v _ => v
  | .fixed v => v

/-- `Expression::calculate_residual`, `expressions.rs:883-961`. The variable map is the function `get`. -/
def Expr.calculateResidual (e : Expr F) (get : Nat → R (Variable F)) : R F := do
  let vs ← e.variableIndices.mapM (fun i => do let v ← get i; pure v.value)
  let rg ← e.computeResidualAndGradient vs
  pure rg.1

/-- The loop of `map_residual_and_gradient`, `expressions.rs:1003-1007`: entry `i` of the local gradient is *assigned* to the
slot of the free variable of argument `i`. -/
def writeGradient : List (Variable F × F) → List F → R (List F)
  | [], gradient => .ok gradient
  | (.free _ i, g) :: rest, gradient => do
      let gradient ← setIdx gradient i g
      writeGradient rest gradient
  | (.fixed _, _) :: rest, gradient => writeGradient rest gradient

/-- `Expression::calculate_residual_and_gradient`, `expressions.rs:962-1090`. -/
def Expr.calculateResidualAndGradient (e : Expr F) (get : Nat → R (Variable F)) (gradient : List F) :
    R (F × List F) := do
  let vars ← e.variableIndices.mapM get
  let rg ← e.computeResidualAndGradient (vars.map Variable.value)
  let gradient ← writeGradient (vars.zip rg.2) gradient
  pure (rg.1, gradient)

/-- `IdentityVariableMap::get_value`, `fiksi/src/variable_map.rs:88-94`. -/
def identityMap (values : List F) (i : Nat) : R (Variable F) := do
  let v ← idx values i
  pure (.free v i)

/-- `Pose2D`, `expressions.rs:1094-1097`. -/
structure Pose2D (F : Type) where
  rotation : F
  tx : F
  ty : F

/-- `Pose2D::new`, `expressions.rs:1101-1106`. -/
def Pose2D.new : Pose2D F := ⟨0, 0, 0⟩

/-- `Pose2D::transform_point`, `expressions.rs:1122-1136`. -/
def Pose2D.transformPoint (p : Pose2D F) (u v : F) : F × F :=
  let s := sin p.rotation
  let c := cos p.rotation
  let uc := u * c
  let us := u * s
  let vc := v * c
  let vs := v * s
  (p.tx + uc - vs, p.ty + us + vc)

/-- `Pose2D::gradient_chain_rule_point`, `expressions.rs:1139-1158`. -/
def Pose2D.gradientChainRulePoint (p : Pose2D F) (u v : F) (g0 g1 : F) : F × F × F :=
  let s := sin p.rotation
  let c := cos p.rotation
  let uc := u * c
  let us := u * s
  let vc := v * c
  let vs := v * s
  ((-us - vc) * g0 + (uc - vs) * g1, g0, g1)

end

end Fiksi
