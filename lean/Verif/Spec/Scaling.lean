import Verif.Spec.Store
/-!
# Drawing the same figure at another size
-/
namespace Fiksi.Spec

variable {F : Type} [Mul F]

/-- The element at `k` times the size. -/
def Elem.scaled (k : F) : Elem F → Elem F
  | .length v => .length (k * v)
  | .point x y => .point (k * x) (k * y)
  | .line p q => .line p q
  | .circle c r => .circle c r

/-- The constraint at `k` times the size: distances grow, angles do not. -/
def Con.scaled (k : F) : Con F → Con F
  | .pointPointDistance p q d => .pointPointDistance p q (k * d)
  | .pointLineDistance p l d => .pointLineDistance p l (k * d)
  | c => c

/-- A constraint of this kind has a length as its parameter. -/
def lengthLike : ConstraintTag → Bool
  | .pointPointDistance => true
  | .pointLineDistance => true
  | _ => false

/-- The same call at `k` times the size. -/
def Op.scaled (k : F) : Op F → Op F
  | .createLength v => .createLength (k * v)
  | .createPoint x y => .createPoint (k * x) (k * y)
  | .createLine p q => .createLine p q
  | .createCircle c r => .createCircle c r
  | .createCon c => .createCon (c.scaled k)
  | .fix tag i => .fix tag i
  | .unfix tag i => .unfix tag i
  | .updatePoint i x y => .updatePoint i (k * x) (k * y)
  | .updateLength i v => .updateLength i (k * v)
  | .updateParameter tag i v => .updateParameter tag i (if lengthLike tag then k * v else v)
  | .solve result => .solve (result.map (Elem.scaled k))

/-- The value at `k` times the size. -/
def scaledValue (k : F) : ElementValue F → ElementValue F
  | .length v => .length (k * v)
  | .point x y => .point (k * x) (k * y)
  | .line x0 y0 x1 y1 => .line (k * x0) (k * y0) (k * x1) (k * y1)
  | .circle x y r => .circle (k * x) (k * y) (k * r)

end Fiksi.Spec
