import Verif.Spec.Store
import Verif.Model.Svg
import Verif.Proofs.Real
/-!
# Specification: what a drawing of a system shows
-/
namespace Fiksi.Spec

/-- The calls that configure a renderer. -/
inductive RenderOp (κ : Type) where
  | hide (tag : ElementTag) (h : Handle)
  | setColor (tag : ElementTag) (h : Handle) (color : κ)

section
variable {F κ : Type}

/-- The effect of a call on a renderer. -/
def RenderOp.apply (r : SystemRenderer κ) : RenderOp κ → SystemRenderer κ
  | .hide tag h => r.hideElement tag h
  | .setColor tag h c => r.setElementColor tag h c

/-- The element with handle `h` was hidden. -/
def Hidden (rops : List (RenderOp κ)) (h : Handle) : Prop := ∃ tag, RenderOp.hide tag h ∈ rops

/-- `c` is the colour of the element with handle `h`: the one set last, or else the default. -/
def HasColor (rops : List (RenderOp κ)) (default : κ) (h : Handle) (c : κ) : Prop :=
  (∃ before tag after, rops = before ++ RenderOp.setColor tag h c :: after ∧ ∀ tag' c', RenderOp.setColor tag' h c' ∉ after) ∨
    (c = default ∧ ∀ tag' c', RenderOp.setColor tag' h c' ∉ rops)

/-- The kind, the coordinates and the identifier of a shape. -/
inductive Drawn (F : Type) where
  | point (x y : F) (id : Nat)
  | line (x0 y0 x1 y1 : F) (id : Nat)
  | circle (x y r : F) (id : Nat)
  deriving DecidableEq

/-- What a shape shows. -/
def _root_.Fiksi.SvgShape.drawn : SvgShape F κ → Drawn F
  | .point x y _ _ _ _ i => .point x y i
  | .line x0 y0 x1 y1 _ _ i => .line x0 y0 x1 y1 i
  | .circle x y r _ _ i => .circle x y r i

/-- The outline colour of a shape. -/
def _root_.Fiksi.SvgShape.stroke : SvgShape F κ → κ
  | .point _ _ _ k _ _ _ => k
  | .line _ _ _ _ k _ _ => k
  | .circle _ _ _ k _ _ => k

/-- The identifier of a shape. -/
def Drawn.id : Drawn F → Nat
  | .point _ _ i => i
  | .line _ _ _ _ i => i
  | .circle _ _ _ i => i

/-- The point that shows an element. -/
def drawnAbove (id : Nat) : ElementValue F → Option (Drawn F)
  | .point x y => some (.point x y id)
  | _ => none

/-- The line or circle that shows an element. -/
def drawnBelow (id : Nat) : ElementValue F → Option (Drawn F)
  | .line x0 y0 x1 y1 => some (.line x0 y0 x1 y1 id)
  | .circle x y r => some (.circle x y r id)
  | _ => none

/-- The points of the plane that a shape covers (without its stroke; a point is its centre). -/
def Drawn.covers : Drawn ℝ → ℝ × ℝ → Prop
  | .point x y _, q => q = (x, y)
  | .line x0 y0 x1 y1 _, q => ∃ t : ℝ, 0 ≤ t ∧ t ≤ 1 ∧ q = (x0 + t * (x1 - x0), y0 + t * (y1 - y0))
  | .circle x y r _, q => (q.1 - x) ^ 2 + (q.2 - y) ^ 2 ≤ r ^ 2

end

end Fiksi.Spec
