import Verif.Model.System
import Verif.Model.Lm
/-!
# Rendering a system (`fiksi_svg/src/lib.rs`)

The output is modelled as the list of drawn shapes in document order and the view box; the formatting of numbers and colours as text is
not modelled. Colours are an arbitrary type with the default colour and the lightened fill as parameters. `HashMap` and `HashSet` are only
read with a key, so they are lists searched with the equality of handles (their `Hash` agrees with it, `elements/mod.rs:246-251`).
`kurbo::Rect` is modelled from its documentation.
-/
namespace Fiksi

/-- A shape of the document, `lib.rs:100-111`, `117-128`, `134-143`. -/
inductive SvgShape (F κ : Type) where
  | point (cx cy r : F) (stroke : κ) (strokeWidth : F) (fill : κ) (id : Nat)
  | line (x1 y1 x2 y2 : F) (stroke : κ) (strokeWidth : F) (id : Nat)
  | circle (cx cy r : F) (stroke : κ) (strokeWidth : F) (id : Nat)
  deriving DecidableEq, Repr

/-- `SystemRenderer`, `lib.rs:35-38`. The latest colour of an element is the first in the list. -/
structure SystemRenderer (κ : Type) where
  colors : List (AnyElementHandle × κ)
  hidden : List AnyElementHandle

/-- `kurbo::Rect`. -/
structure SvgRect (F : Type) where
  x0 : F
  y0 : F
  x1 : F
  y1 : F
  deriving DecidableEq, Repr

section
variable {F κ : Type}

/-- `SystemRenderer::new`, `lib.rs:42-47`. -/
def SystemRenderer.new (κ : Type) : SystemRenderer κ := ⟨[], []⟩

/-- `SystemRenderer::set_element_color`, `lib.rs:50-57`. -/
def SystemRenderer.setElementColor (r : SystemRenderer κ) (tag : ElementTag) (h : Handle) (color : κ) : SystemRenderer κ :=
  { r with colors := (asAnyElement tag h, color) :: r.colors }

/-- `SystemRenderer::hide_element`, `lib.rs:62-64`. -/
def SystemRenderer.hideElement (r : SystemRenderer κ) (tag : ElementTag) (h : Handle) : SystemRenderer κ :=
  { r with hidden := asAnyElement tag h :: r.hidden }

/-- `self.hidden.contains(&handle)`. -/
def SystemRenderer.isHidden (r : SystemRenderer κ) (h : AnyElementHandle) : Bool := r.hidden.any (·.eqB h)

/-- `self.colors.get(&handle).unwrap_or(&DEFAULT_ELEMENT_COLOR)`. -/
def SystemRenderer.color (r : SystemRenderer κ) (default : κ) (h : AnyElementHandle) : κ :=
  match r.colors.find? (fun q => q.1.eqB h) with
  | some q => q.2
  | none => default

variable [Add F] [Sub F] [Mul F] [Div F] [Neg F] [Zero F] [One F] [FloatOps F]
open FloatOps

/-- `f64::min`. -/
def svgMin (x y : F) : F := if ltB x y then x else y

/-- `f64::max`. -/
def svgMax (x y : F) : F := if ltB x y then y else x

/-- `Rect::union`. -/
def SvgRect.union (a b : SvgRect F) : SvgRect F := ⟨svgMin a.x0 b.x0, svgMin a.y0 b.y0, svgMax a.x1 b.x1, svgMax a.y1 b.y1⟩

/-- `Line::bounding_box`. -/
def svgLineBox (x0 y0 x1 y1 : F) : SvgRect F := ⟨svgMin x0 x1, svgMin y0 y1, svgMax x0 x1, svgMax y0 y1⟩

/-- `Circle::bounding_box`. -/
def svgCircleBox (x y r : F) : SvgRect F := ⟨x - FloatOps.abs r, y - FloatOps.abs r, x + FloatOps.abs r, y + FloatOps.abs r⟩

/-- `bbox.union(…)`; the initial box `[∞, -∞]` is `none`. -/
def svgUnion (bbox : Option (SvgRect F)) (b : SvgRect F) : Option (SvgRect F) :=
  match bbox with
  | none => some b
  | some a => some (a.union b)

/-- The variables `top`, `bottom` and `bbox` of `render_system`, `lib.rs:79-88`. -/
structure SvgState (F κ : Type) where
  top : List (SvgShape F κ)
  bottom : List (SvgShape F κ)
  bbox : Option (SvgRect F)

/-- The body of the loop for a visible element, `lib.rs:95-148`. -/
def svgDraw (r : SystemRenderer κ) (default : κ) (lighten : κ → κ) (strokeWidth : F) (st : SvgState F κ) (h : AnyElementHandle) :
    ElementValue F → SvgState F κ
  | .point x y =>
      { st with
        bbox := svgUnion st.bbox ⟨x, y, x, y⟩
        top := st.top ++ [.point x y strokeWidth (r.color default h) (strokeWidth * ratio 25 100) (lighten (r.color default h)) h.asId] }
  | .line x0 y0 x1 y1 =>
      { st with
        bbox := svgUnion st.bbox (svgLineBox x0 y0 x1 y1)
        bottom := st.bottom ++ [.line x0 y0 x1 y1 (r.color default h) strokeWidth h.asId] }
  | .circle x y rad =>
      { st with
        bbox := svgUnion st.bbox (svgCircleBox x y rad)
        bottom := st.bottom ++ [.circle x y rad (r.color default h) strokeWidth h.asId] }
  | .length _ => st

/-- An iteration of the loop over the elements, `lib.rs:90-149`. -/
def svgElement (r : SystemRenderer κ) (default : κ) (lighten : κ → κ) (strokeWidth : F) (s : System F) (st : SvgState F κ)
    (h : AnyElementHandle) : R (SvgState F κ) := do
  if r.isHidden h then pure st
  else do
    let v ← s.getValueAny h
    pure (svgDraw r default lighten strokeWidth st h v)

/-- `Rect::inflate` by a tenth of the larger side, `lib.rs:151-152`. -/
def svgInflate (b : SvgRect F) : SvgRect F :=
  let d := svgMax (b.x1 - b.x0) (b.y1 - b.y0) * ratio 1 10
  ⟨b.x0 - d, b.y0 - d, b.x1 + d, b.y1 + d⟩

/-- The document: the view box (`none` stands for the infinite box when nothing is drawn and none was given) and the shapes. -/
structure SvgDocument (F κ : Type) where
  viewBox : Option (SvgRect F)
  shapes : List (SvgShape F κ)

/-- `SystemRenderer::render_system`, `lib.rs:71-163`. -/
def SystemRenderer.renderSystem (r : SystemRenderer κ) (default : κ) (lighten : κ → κ) (viewbox : Option (SvgRect F)) (strokeWidth : F)
    (s : System F) : R (SvgDocument F κ) := do
  let handles ← s.getElementHandles
  let st ← handles.foldlM (svgElement r default lighten strokeWidth s) ⟨[], [], none⟩
  let bbox := st.bbox.map svgInflate
  pure ⟨match viewbox with
    | some v => some v
    | none => bbox, st.bottom ++ st.top⟩

end

end Fiksi
