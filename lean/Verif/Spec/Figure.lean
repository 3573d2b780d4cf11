import Verif.Spec.Geometry
import Mathlib.Logic.Relation
/-!
# Figures that are the same up to names, order and position, independent of the code
-/
namespace Fiksi.Spec

namespace Geo
open Complex

/-- Turn by `φ` about the origin, after mirroring in the x-axis if `mirror` holds. -/
noncomputable def turn (φ : ℝ) (mirror : Bool) (p : ℂ) : ℂ := exp (φ * I) * ⟨p.re, if mirror then -p.im else p.im⟩

/-- What is read for an element whose points have been moved. -/
def mapValue (f : ℂ → ℂ) : ElementValue ℝ → ElementValue ℝ
  | .length v => .length v
  | .point x y => .point (f ⟨x, y⟩).re (f ⟨x, y⟩).im
  | .line x0 y0 x1 y1 => .line (f ⟨x0, y0⟩).re (f ⟨x0, y0⟩).im (f ⟨x1, y1⟩).re (f ⟨x1, y1⟩).im
  | .circle x y r => .circle (f ⟨x, y⟩).re (f ⟨x, y⟩).im r

end Geo

section
variable {F : Type}

/-- The element with the numbers of its parts replaced. -/
def Elem.rename (ρ : Nat → Nat) : Elem F → Elem F
  | .line p q => .line (ρ p) (ρ q)
  | .circle c r => .circle (ρ c) (ρ r)
  | e => e

/-- The constraint with the numbers of its arguments replaced. -/
def Con.rename (ρ : Nat → Nat) : Con F → Con F
  | .pointPointCoincidence p q => .pointPointCoincidence (ρ p) (ρ q)
  | .pointPointDistance p q d => .pointPointDistance (ρ p) (ρ q) d
  | .pointPointPointAngle p q r a => .pointPointPointAngle (ρ p) (ρ q) (ρ r) a
  | .pointLineIncidence p l => .pointLineIncidence (ρ p) (ρ l)
  | .pointLineDistance p l d => .pointLineDistance (ρ p) (ρ l) d
  | .pointCircleIncidence p c => .pointCircleIncidence (ρ p) (ρ c)
  | .segmentSegmentLengthEquality a b c d => .segmentSegmentLengthEquality (ρ a) (ρ b) (ρ c) (ρ d)
  | .lineLineAngle l m a => .lineLineAngle (ρ l) (ρ m) a
  | .lineLineParallelism l m => .lineLineParallelism (ρ l) (ρ m)
  | .lineLinePerpendicularity l m => .lineLinePerpendicularity (ρ l) (ρ m)
  | .lineCircleTangency l c => .lineCircleTangency (ρ l) (ρ c)

/-- Two ways to state the same requirement with the arguments in another order. -/
inductive Con.Flip : Con ℝ → Con ℝ → Prop
  | coincidence (p q : Nat) : Flip (.pointPointCoincidence p q) (.pointPointCoincidence q p)
  | distance (p q : Nat) (d : ℝ) : Flip (.pointPointDistance p q d) (.pointPointDistance q p d)
  | angle (p q r : Nat) (a : ℝ) : Flip (.pointPointPointAngle p q r a) (.pointPointPointAngle r q p (-a))
  | firstSegment (a b c d : Nat) : Flip (.segmentSegmentLengthEquality a b c d) (.segmentSegmentLengthEquality b a c d)
  | secondSegment (a b c d : Nat) : Flip (.segmentSegmentLengthEquality a b c d) (.segmentSegmentLengthEquality a b d c)
  | segments (a b c d : Nat) : Flip (.segmentSegmentLengthEquality a b c d) (.segmentSegmentLengthEquality c d a b)
  | lineAngle (l m : Nat) (a : ℝ) : Flip (.lineLineAngle l m a) (.lineLineAngle m l (-a))
  | parallelism (l m : Nat) : Flip (.lineLineParallelism l m) (.lineLineParallelism m l)
  | perpendicularity (l m : Nat) : Flip (.lineLinePerpendicularity l m) (.lineLinePerpendicularity m l)

end

/-- `st'` is the figure `st` with the elements numbered by `ρ` and all points moved by `f`; the constraints are in any order, and symmetric ones have their arguments in any order. -/
structure Store.SameFigure (f : ℂ → ℂ) (ρ : Equiv.Perm Nat) (st st' : Store ℝ) : Prop where
  elems : ∀ i, st'.elems[ρ i]? = st.elems[i]?.map fun e => (Geo.mapElem f e).rename ρ
  fixed : ∀ i, ρ i ∈ st'.fixed ↔ i ∈ st.fixed
  cons : ∃ l, st'.cons.Perm l ∧ List.Forall₂ (fun con con' => Relation.ReflTransGen Con.Flip (con.rename ρ) con') st.cons l

/-- The constraint does not refer to the orientation of the plane. Angles are measured from the x-axis on the way and have a cut. -/
def Con.Turns (φ : ℝ) (mirror : Bool) : Con ℝ → Prop
  | .pointPointPointAngle _ _ _ _ => φ = 0 ∧ mirror = false
  | .lineLineAngle _ _ _ => φ = 0 ∧ mirror = false
  | .pointLineDistance _ _ _ => mirror = false
  | .lineCircleTangency _ _ => mirror = false
  | _ => True

end Fiksi.Spec
