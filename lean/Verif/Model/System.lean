import Verif.Model.Expr
import Verif.Model.Graph
import Verif.Model.ExprGraph
/-!
# `System`, elements and constraints (`fiksi/src/lib.rs`, `elements/mod.rs`, `constraints/mod.rs`)

`HashSet<u32>` (`fixed_variables`) is a `Finset Nat`; none of the modelled functions iterates over it.
`variables_transformed` and `expressions_transformed` (`lib.rs:279`, `lib.rs:300`) are scratch buffers which `solve` overwrites in
full before reading them; they are local values in the model of `solve`.
-/
namespace Fiksi

/-- `EncodedElement`, `lib.rs:123-128`. -/
inductive EncodedElement where
  | length (idx : Nat)
  | point (idx : Nat)
  | line (point1 point2 : Nat)
  | circle (center radius : Nat)
  deriving DecidableEq, Repr

/-- `EncodedConstraint`, `lib.rs:134-137`. -/
structure EncodedConstraint where
  tag : ConstraintTag
  expressionsIdx : Nat
  deriving DecidableEq, Repr

/-- `ElementValue`, `lib.rs:140-149`. -/
inductive ElementValue (F : Type) where
  | length (v : F)
  | point (x y : F)
  | line (x0 y0 x1 y1 : F)
  | circle (x y r : F)
  deriving DecidableEq, Repr

/-- `System`, `lib.rs:256-303`. -/
structure System (F : Type) where
  id : Nat
  graph : Graph
  equationGraph : ExprGraph
  elements : List EncodedElement
  vars : List F
  variableToPrimitive : List Nat
  fixedVariables : Finset Nat
  constraints : List EncodedConstraint
  expressions : List (Expr F)
  expressionToConstraint : List Nat

/-- `System::new`, `lib.rs:307-325`. The global `AtomicU32` counter is a parameter; the result carries its new value
(`fetch_add` wraps). -/
def System.new (F : Type) (counter : Nat) : System F × Nat :=
  ({ id := counter, graph := Graph.new, equationGraph := ExprGraph.new, elements := [], vars := [],
     variableToPrimitive := [], fixedVariables := ∅, constraints := [], expressions := [],
     expressionToConstraint := [] }, (counter + 1) % 2 ^ 32)

section
variable {F : Type}

/-- `System::add_element::<T, N>`, `lib.rs:363-407`, with `N = values.length`. -/
def System.addElement (s : System F) (values : List F) (encode : Nat → EncodedElement) : R (Handle × System F) := do
  let id ← toU32 s.elements.length
  let variablesIdx ← toU32 s.vars.length
  let (_, graph) ← s.graph.addElement values.length
  pure (⟨s.id, id⟩, { s with
    vars := s.vars ++ values
    equationGraph := s.equationGraph.insertVariables values.length
    variableToPrimitive := s.variableToPrimitive ++ List.replicate values.length id
    graph := graph
    elements := s.elements ++ [encode variablesIdx] })

/-- One iteration of the loop of `add_constraint`, `lib.rs:433-442`. -/
def System.addExpression (id : Nat) (s : System F) (e : Expr F) : R (System F) := do
  let eg ← s.equationGraph.insertExpression e.variableIndices
  pure { s with
    equationGraph := eg
    expressions := s.expressions ++ [e]
    expressionToConstraint := s.expressionToConstraint ++ [id] }

/-- `System::add_constraint`, `lib.rs:412-445`. -/
def System.addConstraint (s : System F) (tag : ConstraintTag) (exprs : List (Expr F)) : R (Handle × System F) := do
  let id ← toU32 s.constraints.length
  let expressionsIdx ← toU32 s.expressions.length
  let s ← exprs.foldlM (System.addExpression id)
    { s with constraints := s.constraints ++ [⟨tag, expressionsIdx⟩] }
  pure (⟨s.id, id⟩, s)

/-- `let &EncodedElement::Point { idx } = &system.elements[id] else { unreachable!() }`, e.g. `elements/mod.rs:370-373`. -/
def System.expectPoint (s : System F) (h : Handle) : R Nat := do
  match (← idx s.elements h.id) with
  | .point i => pure i
  | _ => .error .unreachable

/-- The same for `Length`, e.g. `elements/mod.rs:446-449`. -/
def System.expectLength (s : System F) (h : Handle) : R Nat := do
  match (← idx s.elements h.id) with
  | .length i => pure i
  | _ => .error .unreachable

/-- The same for `Line`, e.g. `constraints/mod.rs:481-487`. -/
def System.expectLine (s : System F) (h : Handle) : R (Nat × Nat) := do
  match (← idx s.elements h.id) with
  | .line a b => pure (a, b)
  | _ => .error .unreachable

/-- The same for `Circle`, e.g. `constraints/mod.rs:585-591`. -/
def System.expectCircle (s : System F) (h : Handle) : R (Nat × Nat) := do
  match (← idx s.elements h.id) with
  | .circle c r => pure (c, r)
  | _ => .error .unreachable

/-! ## Elements (`elements/mod.rs`) -/

/-- `Length::create`, `elements/mod.rs:280-284`. -/
def System.createLength (s : System F) (length : F) : R (Handle × System F) :=
  s.addElement [length] .length

/-- `Point::create`, `elements/mod.rs:321-325`. -/
def System.createPoint (s : System F) (x y : F) : R (Handle × System F) :=
  s.addElement [x, y] .point

/-- `Line::create`, `elements/mod.rs:365-382`. -/
def System.createLine (s : System F) (point1 point2 : Handle) : R (Handle × System F) := do
  let a ← s.expectPoint point1
  let b ← s.expectPoint point2
  s.addElement [] (fun _ => .line a b)

/-- `Circle::create`, `elements/mod.rs:437-454`. -/
def System.createCircle (s : System F) (center radius : Handle) : R (Handle × System F) := do
  let c ← s.expectPoint center
  let r ← s.expectLength radius
  s.addElement [] (fun _ => .circle c r)

/-- `T::from_encoded_element` of the four element types selected by the tag `T`, `elements/mod.rs:295-300`, `336-344`,
`393-411`, `465-480`. -/
def fromEncodedElement (tag : ElementTag) (e : EncodedElement) (vars : List F) : R (ElementValue F) :=
  match tag, e with
  | .length, .length i => do
      let v ← idx vars i
      pure (.length v)
  | .point, .point i => do
      let x ← idx vars i
      let y ← idx vars (i + 1)
      pure (.point x y)
  | .line, .line a b => do
      let x0 ← idx vars a
      let y0 ← idx vars (a + 1)
      let x1 ← idx vars b
      let y1 ← idx vars (b + 1)
      pure (.line x0 y0 x1 y1)
  | .circle, .circle c r => do
      let x ← idx vars c
      let y ← idx vars (c + 1)
      let r ← idx vars r
      pure (.circle x y r)
  | _, _ => .error .unreachable

/-- `T::variable_indices`, `elements/mod.rs:302-307`, `346-351`, `413-422`, `482-491`. -/
def elementVariableIndices (tag : ElementTag) (e : EncodedElement) : R (List Nat) :=
  match tag, e with
  | .length, .length i => .ok [i]
  | .point, .point i => .ok [i, i + 1]
  | .line, .line a b => .ok [a, a + 1, b, b + 1]
  | .circle, .circle c r => .ok [c, c + 1, r]
  | _, _ => .error .unreachable

/-- `ElementHandle<T>::fix`, `elements/mod.rs:60-65`. -/
def System.fix (s : System F) (tag : ElementTag) (h : Handle) : R (System F) := do
  let e ← idx s.elements h.id
  let vs ← elementVariableIndices tag e
  pure { s with fixedVariables := s.fixedVariables ∪ vs.toFinset }

/-- `ElementHandle<T>::unfix`, `elements/mod.rs:80-85`. -/
def System.unfix (s : System F) (tag : ElementTag) (h : Handle) : R (System F) := do
  let e ← idx s.elements h.id
  let vs ← elementVariableIndices tag e
  pure { s with fixedVariables := vs.foldl Finset.erase s.fixedVariables }

/-- `ElementHandle<T>::get_value`, `elements/mod.rs:88-100`. -/
def System.getValue (s : System F) (tag : ElementTag) (h : Handle) : R (ElementValue F) := do
  if h.systemId ≠ s.id then .error .assertion
  else
    let e ← idx s.elements h.id
    fromEncodedElement tag e s.vars

/-- `AnyElementHandle`, `elements/mod.rs:117-123`. -/
structure AnyElementHandle where
  systemId : Nat
  id : Nat
  tag : ElementTag
  deriving DecidableEq, Repr

/-- `ElementHandle<T>::as_any_element`, `elements/mod.rs:106-112`. -/
def asAnyElement (tag : ElementTag) (h : Handle) : AnyElementHandle := ⟨h.systemId, h.id, tag⟩

/-- `AnyElementHandle::as_tagged_element`, `elements/mod.rs:167-182`: the variant and the typed handle in it. -/
def AnyElementHandle.asTaggedElement (h : AnyElementHandle) : ElementTag × Handle :=
  match h.tag with
  | .length => (.length, ⟨h.systemId, h.id⟩)
  | .point => (.point, ⟨h.systemId, h.id⟩)
  | .line => (.line, ⟨h.systemId, h.id⟩)
  | .circle => (.circle, ⟨h.systemId, h.id⟩)

/-- `AnyElementHandle::as_id`, `elements/mod.rs:133-135`. -/
def AnyElementHandle.asId (h : AnyElementHandle) : Nat := (h.systemId <<< 32) + h.id

/-- `<AnyElementHandle as PartialEq>::eq`, `elements/mod.rs:226-231`: tags are not compared. (`ElementHandle<T>`,
`elements/mod.rs:201-205`, and the constraint handles, `constraints/mod.rs:240-244`, `265-270`, compare the same two fields.) -/
def AnyElementHandle.eqB (a b : AnyElementHandle) : Bool := a.systemId == b.systemId && a.id == b.id

/-- `<AnyElementHandle as Ord>::cmp`, `elements/mod.rs:234-239`: lexicographic comparison of the pair. (The same for the other
three handle types.) -/
def AnyElementHandle.cmp (a b : AnyElementHandle) : Ordering := (compare a.systemId b.systemId).then (compare a.id b.id)

/-- `AnyElementHandle::get_value`, `elements/mod.rs:138-164`. -/
def System.getValueAny (s : System F) (h : AnyElementHandle) : R (ElementValue F) := do
  if h.systemId ≠ s.id then .error .assertion
  else
    let e ← idx s.elements h.id
    match h.tag with
    | .length => fromEncodedElement .length e s.vars
    | .point => fromEncodedElement .point e s.vars
    | .line => fromEncodedElement .line e s.vars
    | .circle => fromEncodedElement .circle e s.vars

/-- `ElementTag::from(&EncodedElement)`, `elements/mod.rs:503-512`. -/
def EncodedElement.tag : EncodedElement → ElementTag
  | .length _ => .length
  | .point _ => .point
  | .line _ _ => .line
  | .circle _ _ => .circle

/-- `System::get_element_handles`, `lib.rs:331-342`. -/
def System.getElementHandles (s : System F) : R (List AnyElementHandle) :=
  s.elements.zipIdx.mapM (fun (e, i) => do
    let id ← toU32 i
    pure ⟨s.id, id, e.tag⟩)

/-- `ElementHandle<Point>::update_value`, `elements/mod.rs:560-567`. -/
def System.updatePoint (s : System F) (h : Handle) (x y : F) : R (System F) := do
  let i ← s.expectPoint h
  let vs ← setIdx s.vars i x
  let vs ← setIdx vs (i + 1) y
  pure { s with vars := vs }

/-- `ElementHandle<Length>::update_value`, `elements/mod.rs:572-578`. -/
def System.updateLength (s : System F) (h : Handle) (length : F) : R (System F) := do
  let i ← s.expectLength h
  let vs ← setIdx s.vars i length
  pure { s with vars := vs }

/-! ## Constraints (`constraints/mod.rs`) -/

/-- The common tail of all `create` functions: `system.graph.add_constraint(..)` then `system.add_constraint(..)`. -/
def System.createConstraint (s : System F) (tag : ConstraintTag) (valency : Nat) (incident : List Nat)
    (exprs : List (Expr F)) : R (Handle × System F) := do
  let (_, graph) ← s.graph.addConstraint valency incident
  { s with graph := graph }.addConstraint tag exprs

/-- `PointPointCoincidence::create`, `constraints/mod.rs:317-352`. -/
def System.createPointPointCoincidence (s : System F) (point1 point2 : Handle) : R (Handle × System F) := do
  let p ← s.expectPoint point1
  let q ← s.expectPoint point2
  s.createConstraint .pointPointCoincidence 2 [point1.id, point2.id]
    [.variableVariableEquality p q, .variableVariableEquality (p + 1) (q + 1)]

/-- `PointPointDistance::create`, `constraints/mod.rs:372-400`. -/
def System.createPointPointDistance (s : System F) (point1 point2 : Handle) (distance : F) : R (Handle × System F) := do
  let p ← s.expectPoint point1
  let q ← s.expectPoint point2
  s.createConstraint .pointPointDistance 1 [point1.id, point2.id] [.pointPointDistance p q distance]

/-- `PointPointPointAngle::create`, `constraints/mod.rs:416-454`. -/
def System.createPointPointPointAngle (s : System F) (point1 point2 point3 : Handle) (angle : F) :
    R (Handle × System F) := do
  let p ← s.expectPoint point1
  let q ← s.expectPoint point2
  let r ← s.expectPoint point3
  s.createConstraint .pointPointPointAngle 1 [point1.id, point2.id, point3.id] [.pointPointPointAngle p q r angle]

/-- `PointLineIncidence::create`, `constraints/mod.rs:473-506`. -/
def System.createPointLineIncidence (s : System F) (point line : Handle) : R (Handle × System F) := do
  let p ← s.expectPoint point
  let (a, b) ← s.expectLine line
  let ea ← idx s.variableToPrimitive a
  let eb ← idx s.variableToPrimitive b
  s.createConstraint .pointLineIncidence 1 [point.id, ea, eb] [.pointLineIncidence p a b]

/-- `PointLineDistance::create`, `constraints/mod.rs:527-562`. -/
def System.createPointLineDistance (s : System F) (point line : Handle) (distance : F) : R (Handle × System F) := do
  let p ← s.expectPoint point
  let (a, b) ← s.expectLine line
  let ea ← idx s.variableToPrimitive a
  let eb ← idx s.variableToPrimitive b
  s.createConstraint .pointLineDistance 1 [point.id, ea, eb] [.pointLineDistance p a b distance]

/-- `PointCircleIncidence::create`, `constraints/mod.rs:577-610`. -/
def System.createPointCircleIncidence (s : System F) (point circle : Handle) : R (Handle × System F) := do
  let p ← s.expectPoint point
  let (c, r) ← s.expectCircle circle
  let ec ← idx s.variableToPrimitive c
  let er ← idx s.variableToPrimitive r
  s.createConstraint .pointCircleIncidence 1 [point.id, ec, er] [.pointCircleIncidence p c r]

/-- `SegmentSegmentLengthEquality::create`, `constraints/mod.rs:625-676`. -/
def System.createSegmentSegmentLengthEquality (s : System F) (s1p1 s1p2 s2p1 s2p2 : Handle) :
    R (Handle × System F) := do
  let a ← s.expectPoint s1p1
  let b ← s.expectPoint s1p2
  let c ← s.expectPoint s2p1
  let d ← s.expectPoint s2p2
  let ea ← idx s.variableToPrimitive a
  let eb ← idx s.variableToPrimitive b
  let ec ← idx s.variableToPrimitive c
  let ed ← idx s.variableToPrimitive d
  s.createConstraint .segmentSegmentLengthEquality 1 [ea, eb, ec, ed] [.segmentSegmentLengthEquality a b c d]

/-- `LineLineAngle::create`, `constraints/mod.rs:690-731`. -/
def System.createLineLineAngle (s : System F) (line1 line2 : Handle) (angle : F) : R (Handle × System F) := do
  let (a, b) ← s.expectLine line1
  let (c, d) ← s.expectLine line2
  let ea ← idx s.variableToPrimitive a
  let eb ← idx s.variableToPrimitive b
  let ec ← idx s.variableToPrimitive c
  let ed ← idx s.variableToPrimitive d
  s.createConstraint .lineLineAngle 1 [ea, eb, ec, ed] [.lineLineAngle a b c d angle]

/-- `LineLineParallelism::create`, `constraints/mod.rs:745-784`. -/
def System.createLineLineParallelism (s : System F) (line1 line2 : Handle) : R (Handle × System F) := do
  let (a, b) ← s.expectLine line1
  let (c, d) ← s.expectLine line2
  let ea ← idx s.variableToPrimitive a
  let eb ← idx s.variableToPrimitive b
  let ec ← idx s.variableToPrimitive c
  let ed ← idx s.variableToPrimitive d
  s.createConstraint .lineLineParallelism 1 [ea, eb, ec, ed] [.lineLineParallelism a b c d]

/-- `LineLinePerpendicularity::create`, `constraints/mod.rs:798-837`. -/
def System.createLineLinePerpendicularity (s : System F) (line1 line2 : Handle) : R (Handle × System F) := do
  let (a, b) ← s.expectLine line1
  let (c, d) ← s.expectLine line2
  let ea ← idx s.variableToPrimitive a
  let eb ← idx s.variableToPrimitive b
  let ec ← idx s.variableToPrimitive c
  let ed ← idx s.variableToPrimitive d
  s.createConstraint .lineLinePerpendicularity 1 [ea, eb, ec, ed] [.lineLinePerpendicularity a b c d]

/-- `LineCircleTangency::create`, `constraints/mod.rs:852-891`. -/
def System.createLineCircleTangency (s : System F) (line circle : Handle) : R (Handle × System F) := do
  let (a, b) ← s.expectLine line
  let (c, r) ← s.expectCircle circle
  let ea ← idx s.variableToPrimitive a
  let eb ← idx s.variableToPrimitive b
  let ec ← idx s.variableToPrimitive c
  let er ← idx s.variableToPrimitive r
  s.createConstraint .lineCircleTangency 1 [ea, eb, ec, er] [.lineCircleTangency a b c r]

/-- `ConstraintHandle<..>::update_parameter`, `constraints/mod.rs:992-1046`; the four typed versions are selected by the tag `T`.
(There is no such method for the other seven types.) -/
def System.updateParameter (s : System F) (tag : ConstraintTag) (h : Handle) (v : F) : R (System F) := do
  let c ← idx s.constraints h.id
  let e ← idx s.expressions c.expressionsIdx
  match tag, e with
  | .pointPointDistance, .pointPointDistance p q _ => do
      let es ← setIdx s.expressions c.expressionsIdx (.pointPointDistance p q v)
      pure { s with expressions := es }
  | .pointPointPointAngle, .pointPointPointAngle p q r _ => do
      let es ← setIdx s.expressions c.expressionsIdx (.pointPointPointAngle p q r v)
      pure { s with expressions := es }
  | .pointLineDistance, .pointLineDistance p a b _ => do
      let es ← setIdx s.expressions c.expressionsIdx (.pointLineDistance p a b v)
      pure { s with expressions := es }
  | .lineLineAngle, .lineLineAngle a b c' d _ => do
      let es ← setIdx s.expressions c.expressionsIdx (.lineLineAngle a b c' d v)
      pure { s with expressions := es }
  | _, _ => .error .unreachable

/-- `AnyConstraintHandle`, `constraints/mod.rs:127-133`. -/
structure AnyConstraintHandle where
  systemId : Nat
  id : Nat
  tag : ConstraintTag
  deriving DecidableEq, Repr

/-- `ConstraintHandle<T>::as_any_constraint`, `constraints/mod.rs:116-122`. -/
def asAnyConstraint (tag : ConstraintTag) (h : Handle) : AnyConstraintHandle := ⟨h.systemId, h.id, tag⟩

/-- `<AnyConstraintHandle as PartialEq>::eq`, `constraints/mod.rs:265-270`. -/
def AnyConstraintHandle.eqB (a b : AnyConstraintHandle) : Bool := a.systemId == b.systemId && a.id == b.id

/-- `AnyConstraintHandle::as_tagged_constraint`, `constraints/mod.rs:171-221`. -/
def AnyConstraintHandle.asTaggedConstraint (h : AnyConstraintHandle) : ConstraintTag × Handle :=
  match h.tag with
  | .pointPointCoincidence => (.pointPointCoincidence, ⟨h.systemId, h.id⟩)
  | .pointPointDistance => (.pointPointDistance, ⟨h.systemId, h.id⟩)
  | .pointPointPointAngle => (.pointPointPointAngle, ⟨h.systemId, h.id⟩)
  | .pointLineIncidence => (.pointLineIncidence, ⟨h.systemId, h.id⟩)
  | .pointLineDistance => (.pointLineDistance, ⟨h.systemId, h.id⟩)
  | .pointCircleIncidence => (.pointCircleIncidence, ⟨h.systemId, h.id⟩)
  | .segmentSegmentLengthEquality => (.segmentSegmentLengthEquality, ⟨h.systemId, h.id⟩)
  | .lineLineAngle => (.lineLineAngle, ⟨h.systemId, h.id⟩)
  | .lineLineParallelism => (.lineLineParallelism, ⟨h.systemId, h.id⟩)
  | .lineLinePerpendicularity => (.lineLinePerpendicularity, ⟨h.systemId, h.id⟩)
  | .lineCircleTangency => (.lineCircleTangency, ⟨h.systemId, h.id⟩)

/-- `System::get_constraint_handles`, `lib.rs:347-358`. -/
def System.getConstraintHandles (s : System F) : R (List AnyConstraintHandle) :=
  s.constraints.zipIdx.mapM (fun (c, i) => do
    let id ← toU32 i
    pure ⟨s.id, id, c.tag⟩)

variable [Add F] [Sub F] [Mul F] [Div F] [Neg F] [Zero F] [One F] [FloatOps F]

/-- `utils::sum_squares`, `fiksi/src/utils.rs`: left-to-right `Iterator::sum` of the squares, starting from zero. -/
def sumSquares (vs : List F) : F := vs.foldl (fun acc v => acc + v * v) 0

/-- The body shared by `ConstraintHandle<T>::calculate_residual` (`constraints/mod.rs:88-110`) and
`AnyConstraintHandle::calculate_residual` (`constraints/mod.rs:144-168`), after the system check. -/
def System.residualOf (s : System F) (valency : Nat) (id : Nat) : R F := do
  let constraint ← idx s.constraints id
  if valency > 1 then
    let rs ← (List.range valency).mapM (fun offset => do
      let e ← idx s.expressions (constraint.expressionsIdx + offset)
      e.calculateResidual (identityMap s.vars))
    pure (FloatOps.sqrt (sumSquares rs))
  else
    let e ← idx s.expressions constraint.expressionsIdx
    e.calculateResidual (identityMap s.vars)

/-- `ConstraintHandle<T>::calculate_residual`, `constraints/mod.rs:88-110`; `tag` is the type parameter `T`. -/
def System.calculateResidual (s : System F) (tag : ConstraintTag) (h : Handle) : R F := do
  if h.systemId ≠ s.id then .error .assertion
  else s.residualOf tag.valency h.id

/-- `AnyConstraintHandle::calculate_residual`, `constraints/mod.rs:144-168`. -/
def System.calculateResidualAny (s : System F) (h : AnyConstraintHandle) : R F := do
  if h.systemId ≠ s.id then .error .assertion
  else s.residualOf h.tag.valency h.id

end

end Fiksi
