import Verif.Model.System
/-!
# Specification of the API: a store of numbered elements and constraints

What a user of `fiksi::System` relies on, said without variable indices, offsets, encoded elements or graphs: elements and
constraints are numbered in creation order, points and lengths carry values, lines and circles refer to points and lengths by
number, constraints refer to elements by number. (Only the API's own value type `ElementValue` and its tags are shared with the
model.)
-/
namespace Fiksi.Spec

/-- An element as the user sees it. `line`/`circle` name the elements they are built from. -/
inductive Elem (F : Type) where
  | length (v : F)
  | point (x y : F)
  | line (p q : Nat)
  | circle (c r : Nat)
  deriving DecidableEq, Repr

/-- The kind of an element. -/
def Elem.kind {F : Type} : Elem F → ElementTag
  | .length _ => .length
  | .point _ _ => .point
  | .line _ _ => .line
  | .circle _ _ => .circle

/-- A constraint as the user sees it: arguments are element numbers. -/
inductive Con (F : Type) where
  | pointPointCoincidence (p q : Nat)
  | pointPointDistance (p q : Nat) (distance : F)
  | pointPointPointAngle (p q r : Nat) (angle : F)
  | pointLineIncidence (p l : Nat)
  | pointLineDistance (p l : Nat) (distance : F)
  | pointCircleIncidence (p c : Nat)
  | segmentSegmentLengthEquality (a b c d : Nat)
  | lineLineAngle (l m : Nat) (angle : F)
  | lineLineParallelism (l m : Nat)
  | lineLinePerpendicularity (l m : Nat)
  | lineCircleTangency (l c : Nat)
  deriving DecidableEq, Repr

/-- The kind of a constraint. -/
def Con.kind {F : Type} : Con F → ConstraintTag
  | .pointPointCoincidence _ _ => .pointPointCoincidence
  | .pointPointDistance _ _ _ => .pointPointDistance
  | .pointPointPointAngle _ _ _ _ => .pointPointPointAngle
  | .pointLineIncidence _ _ => .pointLineIncidence
  | .pointLineDistance _ _ _ => .pointLineDistance
  | .pointCircleIncidence _ _ => .pointCircleIncidence
  | .segmentSegmentLengthEquality _ _ _ _ => .segmentSegmentLengthEquality
  | .lineLineAngle _ _ _ => .lineLineAngle
  | .lineLineParallelism _ _ => .lineLineParallelism
  | .lineLinePerpendicularity _ _ => .lineLinePerpendicularity
  | .lineCircleTangency _ _ => .lineCircleTangency

/-- The same constraint with another parameter (`none` for kinds without a parameter). -/
def Con.withParameter {F : Type} (v : F) : Con F → Option (Con F)
  | .pointPointDistance p q _ => some (.pointPointDistance p q v)
  | .pointPointPointAngle p q r _ => some (.pointPointPointAngle p q r v)
  | .pointLineDistance p l _ => some (.pointLineDistance p l v)
  | .lineLineAngle l m _ => some (.lineLineAngle l m v)
  | _ => none

/-- The state of a system as the user sees it. `fixed` is the set of fixed points and lengths. -/
structure Store (F : Type) where
  elems : List (Elem F)
  cons : List (Con F)
  fixed : Finset Nat

/-- A new system. -/
def Store.empty (F : Type) : Store F := ⟨[], [], ∅⟩

section
variable {F : Type}

/-- Element number `i` is a point. -/
def Store.IsPoint (st : Store F) (i : Nat) : Prop := ∃ x y, st.elems[i]? = some (.point x y)
/-- Element number `i` is a length. -/
def Store.IsLength (st : Store F) (i : Nat) : Prop := ∃ v, st.elems[i]? = some (.length v)
/-- Element number `i` is a line. -/
def Store.IsLine (st : Store F) (i : Nat) : Prop := ∃ p q, st.elems[i]? = some (.line p q)
/-- Element number `i` is a circle. -/
def Store.IsCircle (st : Store F) (i : Nat) : Prop := ∃ c r, st.elems[i]? = some (.circle c r)

/-- Coordinates of point number `i`. -/
def Store.pointAt (st : Store F) (i : Nat) : Option (F × F) :=
  match st.elems[i]? with
  | some (.point x y) => some (x, y)
  | _ => none

/-- Value of length number `i`. -/
def Store.lengthAt (st : Store F) (i : Nat) : Option F :=
  match st.elems[i]? with
  | some (.length v) => some v
  | _ => none

/-- The value of element number `i`: lines and circles are assembled from the current values of their parts. -/
def Store.value (st : Store F) (i : Nat) : Option (ElementValue F) :=
  match st.elems[i]? with
  | none => none
  | some (.length v) => some (.length v)
  | some (.point x y) => some (.point x y)
  | some (.line p q) =>
      match st.pointAt p, st.pointAt q with
      | some (x0, y0), some (x1, y1) => some (.line x0 y0 x1 y1)
      | _, _ => none
  | some (.circle c r) =>
      match st.pointAt c, st.lengthAt r with
      | some (x, y), some r => some (.circle x y r)
      | _, _ => none

/-- The points and lengths an element consists of (its degrees of freedom). -/
def Store.primitives (st : Store F) (i : Nat) : Finset Nat :=
  match st.elems[i]? with
  | none => ∅
  | some (.length _) => {i}
  | some (.point _ _) => {i}
  | some (.line p q) => {p, q}
  | some (.circle c r) => {c, r}

/-- The end points of line number `i`. -/
def Store.lineEnds (st : Store F) (i : Nat) : List Nat :=
  match st.elems[i]? with
  | some (.line p q) => [p, q]
  | _ => []

/-- Centre and radius element of circle number `i`. -/
def Store.circleParts (st : Store F) (i : Nat) : List Nat :=
  match st.elems[i]? with
  | some (.circle c r) => [c, r]
  | _ => []

/-- The points and lengths a constraint acts on, in argument order. -/
def Store.actsOn (st : Store F) : Con F → List Nat
  | .pointPointCoincidence p q => [p, q]
  | .pointPointDistance p q _ => [p, q]
  | .pointPointPointAngle p q r _ => [p, q, r]
  | .pointLineIncidence p l => p :: st.lineEnds l
  | .pointLineDistance p l _ => p :: st.lineEnds l
  | .pointCircleIncidence p c => p :: st.circleParts c
  | .segmentSegmentLengthEquality a b c d => [a, b, c, d]
  | .lineLineAngle l m _ => st.lineEnds l ++ st.lineEnds m
  | .lineLineParallelism l m => st.lineEnds l ++ st.lineEnds m
  | .lineLinePerpendicularity l m => st.lineEnds l ++ st.lineEnds m
  | .lineCircleTangency l c => st.lineEnds l ++ st.circleParts c

/-- The arguments of a constraint exist and have the right kinds (what the typed handles of the API guarantee). -/
def Store.ConOk (st : Store F) : Con F → Prop
  | .pointPointCoincidence p q => st.IsPoint p ∧ st.IsPoint q
  | .pointPointDistance p q _ => st.IsPoint p ∧ st.IsPoint q
  | .pointPointPointAngle p q r _ => st.IsPoint p ∧ st.IsPoint q ∧ st.IsPoint r
  | .pointLineIncidence p l => st.IsPoint p ∧ st.IsLine l
  | .pointLineDistance p l _ => st.IsPoint p ∧ st.IsLine l
  | .pointCircleIncidence p c => st.IsPoint p ∧ st.IsCircle c
  | .segmentSegmentLengthEquality a b c d => st.IsPoint a ∧ st.IsPoint b ∧ st.IsPoint c ∧ st.IsPoint d
  | .lineLineAngle l m _ => st.IsLine l ∧ st.IsLine m
  | .lineLineParallelism l m => st.IsLine l ∧ st.IsLine m
  | .lineLinePerpendicularity l m => st.IsLine l ∧ st.IsLine m
  | .lineCircleTangency l c => st.IsLine l ∧ st.IsCircle c

/-- Same element up to the numbers stored in a point or length. -/
def SameShape : Elem F → Elem F → Prop
  | .length _, .length _ => True
  | .point _ _, .point _ _ => True
  | .line p q, .line p' q' => p = p' ∧ q = q'
  | .circle c r, .circle c' r' => c = c' ∧ r = r'
  | _, _ => False

/-- The calls of the API that change a system. `solve` carries its outcome (new values of all elements): the outcome of the
numerical optimiser is arbitrary. -/
inductive Op (F : Type) where
  | createLength (v : F)
  | createPoint (x y : F)
  | createLine (p q : Nat)
  | createCircle (c r : Nat)
  | createCon (c : Con F)
  | fix (tag : ElementTag) (i : Nat)
  | unfix (tag : ElementTag) (i : Nat)
  | updatePoint (i : Nat) (x y : F)
  | updateLength (i : Nat) (v : F)
  | updateParameter (tag : ConstraintTag) (i : Nat) (v : F)
  | solve (result : List (Elem F))

/-- The call only uses elements and constraints that exist, with the type they were created with (the typed handles of the API
enforce this, as long as the handles come from the same system). -/
def Store.Legal (st : Store F) : Op F → Prop
  | .createLength _ => True
  | .createPoint _ _ => True
  | .createLine p q => st.IsPoint p ∧ st.IsPoint q
  | .createCircle c r => st.IsPoint c ∧ st.IsLength r
  | .createCon c => st.ConOk c
  | .fix tag i => ∃ e, st.elems[i]? = some e ∧ e.kind = tag
  | .unfix tag i => ∃ e, st.elems[i]? = some e ∧ e.kind = tag
  | .updatePoint i _ _ => st.IsPoint i
  | .updateLength i _ => st.IsLength i
  | .updateParameter tag i v => ∃ c, st.cons[i]? = some c ∧ c.kind = tag ∧ (c.withParameter v).isSome
  | .solve result => List.Forall₂ SameShape st.elems result

/-- The effect of a call. -/
def Store.step (st : Store F) : Op F → Store F
  | .createLength v => { st with elems := st.elems ++ [.length v] }
  | .createPoint x y => { st with elems := st.elems ++ [.point x y] }
  | .createLine p q => { st with elems := st.elems ++ [.line p q] }
  | .createCircle c r => { st with elems := st.elems ++ [.circle c r] }
  | .createCon c => { st with cons := st.cons ++ [c] }
  | .fix _ i => { st with fixed := st.fixed ∪ st.primitives i }
  | .unfix _ i => { st with fixed := st.fixed \ st.primitives i }
  | .updatePoint i x y => { st with elems := st.elems.set i (.point x y) }
  | .updateLength i v => { st with elems := st.elems.set i (.length v) }
  | .updateParameter _ i v =>
      match st.cons[i]? with
      | some c => { st with cons := st.cons.set i ((c.withParameter v).getD c) }
      | none => st
  | .solve result => { st with elems := result }

/-- The kind of the element a call creates. -/
def Op.createdElement : Op F → Option ElementTag
  | .createLength _ => some .length
  | .createPoint _ _ => some .point
  | .createLine _ _ => some .line
  | .createCircle _ _ => some .circle
  | _ => none

/-- The kind of the constraint a call creates. -/
def Op.createdConstraint : Op F → Option ConstraintTag
  | .createCon c => some c.kind
  | _ => none

/-- The call may change coordinates or lengths. -/
def Op.changesValues : Op F → Bool
  | .updatePoint _ _ _ => true
  | .updateLength _ _ => true
  | .solve _ => true
  | _ => false

/-- The call changes the parameter of constraint number `i`. -/
def Op.changesParameterOf (i : Nat) : Op F → Bool
  | .updateParameter _ j _ => i == j
  | _ => false

/-- A sequence of calls, each legal in the state it is made in. -/
def Store.LegalRun : Store F → List (Op F) → Prop
  | _, [] => True
  | st, op :: ops => st.Legal op ∧ (st.step op).LegalRun ops

/-- The effect of a sequence of calls. -/
def Store.run (st : Store F) (ops : List (Op F)) : Store F := ops.foldl Store.step st

end

end Fiksi.Spec
