import Verif.Spec.Store
/-!
# A client of the API

The client keeps the handles it was given, in the order in which they were issued, and makes calls with them. `exec` translates
one call to the modelled API functions. A call that names a handle the client does not have is an error here (it cannot be made).
-/
namespace Fiksi

open Spec (Op Con Elem)

/-- A system together with the handles issued so far. -/
structure Client (F : Type) where
  sys : System F
  elemHandles : List Handle
  conHandles : List Handle

section
variable {F : Type}

/-- A client of a new system. -/
def Client.new (F : Type) (counter : Nat) : Client F := ⟨(System.new F counter).1, [], []⟩

/-- The values of the degrees of freedom of an element, in the order of its variables. -/
def elemValues : Elem F → List F
  | .length v => [v]
  | .point x y => [x, y]
  | .line _ _ => []
  | .circle _ _ => []

/-- Create a constraint with the handles of the named elements: the eleven `create` functions. -/
def Client.createCon (c : Client F) : Con F → R (Handle × System F)
  | .pointPointCoincidence p q => do
      c.sys.createPointPointCoincidence (← idx c.elemHandles p) (← idx c.elemHandles q)
  | .pointPointDistance p q d => do
      c.sys.createPointPointDistance (← idx c.elemHandles p) (← idx c.elemHandles q) d
  | .pointPointPointAngle p q r a => do
      c.sys.createPointPointPointAngle (← idx c.elemHandles p) (← idx c.elemHandles q) (← idx c.elemHandles r) a
  | .pointLineIncidence p l => do
      c.sys.createPointLineIncidence (← idx c.elemHandles p) (← idx c.elemHandles l)
  | .pointLineDistance p l d => do
      c.sys.createPointLineDistance (← idx c.elemHandles p) (← idx c.elemHandles l) d
  | .pointCircleIncidence p k => do
      c.sys.createPointCircleIncidence (← idx c.elemHandles p) (← idx c.elemHandles k)
  | .segmentSegmentLengthEquality p q r s => do
      c.sys.createSegmentSegmentLengthEquality (← idx c.elemHandles p) (← idx c.elemHandles q)
        (← idx c.elemHandles r) (← idx c.elemHandles s)
  | .lineLineAngle l m a => do
      c.sys.createLineLineAngle (← idx c.elemHandles l) (← idx c.elemHandles m) a
  | .lineLineParallelism l m => do
      c.sys.createLineLineParallelism (← idx c.elemHandles l) (← idx c.elemHandles m)
  | .lineLinePerpendicularity l m => do
      c.sys.createLineLinePerpendicularity (← idx c.elemHandles l) (← idx c.elemHandles m)
  | .lineCircleTangency l k => do
      c.sys.createLineCircleTangency (← idx c.elemHandles l) (← idx c.elemHandles k)

/-- One API call. For `solve` the new values of the variables are those named in the call (the model of the real `solve` in
`Verif.Model.Solve` is related to this by `C25`). -/
def Client.exec (c : Client F) : Op F → R (Client F)
  | .createLength v => do
      let (h, s) ← c.sys.createLength v
      pure { c with sys := s, elemHandles := c.elemHandles ++ [h] }
  | .createPoint x y => do
      let (h, s) ← c.sys.createPoint x y
      pure { c with sys := s, elemHandles := c.elemHandles ++ [h] }
  | .createLine p q => do
      let (h, s) ← c.sys.createLine (← idx c.elemHandles p) (← idx c.elemHandles q)
      pure { c with sys := s, elemHandles := c.elemHandles ++ [h] }
  | .createCircle p r => do
      let (h, s) ← c.sys.createCircle (← idx c.elemHandles p) (← idx c.elemHandles r)
      pure { c with sys := s, elemHandles := c.elemHandles ++ [h] }
  | .createCon con => do
      let (h, s) ← c.createCon con
      pure { c with sys := s, conHandles := c.conHandles ++ [h] }
  | .fix tag i => do
      let s ← c.sys.fix tag (← idx c.elemHandles i)
      pure { c with sys := s }
  | .unfix tag i => do
      let s ← c.sys.unfix tag (← idx c.elemHandles i)
      pure { c with sys := s }
  | .updatePoint i x y => do
      let s ← c.sys.updatePoint (← idx c.elemHandles i) x y
      pure { c with sys := s }
  | .updateLength i v => do
      let s ← c.sys.updateLength (← idx c.elemHandles i) v
      pure { c with sys := s }
  | .updateParameter tag i v => do
      let s ← c.sys.updateParameter tag (← idx c.conHandles i) v
      pure { c with sys := s }
  | .solve result =>
      pure { c with sys := { c.sys with vars := result.flatMap elemValues } }

/-- A sequence of API calls. -/
def Client.run (c : Client F) (ops : List (Op F)) : R (Client F) := ops.foldlM Client.exec c

end

end Fiksi
