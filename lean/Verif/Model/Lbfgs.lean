import Verif.Model.Lm
/-!
# L-BFGS (`fiksi/src/solve/lbfgs.rs`)

Vectors of the code that are slices of one flat buffer (`s_history`, `y_history`) are separate lists here. `a <= b` is `leB a b`.
-/
namespace Fiksi

section
variable {F : Type} [Add F] [Sub F] [Mul F] [Div F] [Neg F] [Zero F] [One F] [FloatOps F]
open FloatOps

/-- `a <= b`. -/
def leB (a b : F) : Bool := ltB a b || eqB a b

/-- `dot_product`, `lbfgs.rs:213-216`, and the loops `lbfgs.rs:90-93`, `108-113`, `130-133`, `174-181` (whose vectors all have one
entry per variable). -/
def dot (a b : List F) : F := (List.zipWith (· * ·) a b).foldl (· + ·) 0

/-- `compute_gradient`, `lbfgs.rs:195-211`; `n` is the length of the gradient buffer. -/
def computeGradient (jacobian residuals : List F) (n : Nat) : R (List F) :=
  (List.range n).mapM (fun i => (List.range residuals.length).foldlM (fun (acc : F) c => do
    let j ← idx jacobian (c * n + i)
    let r ← idx residuals c
    pure (acc + j * r)) 0)

/-! ## Line search, `lbfgs.rs:218-507` -/

/-- `Param`, `lbfgs.rs:246-256`. -/
structure Param (F : Type) where
  p : F
  phi : F
  dphi : F

/-- The buffers in `Eval`, `lbfgs.rs:258-267`. -/
structure EvalState (F : Type) where
  scratch : List F
  jacobian : List F
  residuals : List F
  gradient : List F

/-- `Eval::calculate_phi`, `lbfgs.rs:270-286`. -/
def calculatePhi (p : Problem F) (vars direction : List F) (st : EvalState F) (t : F) : R (Param F × EvalState F) := do
  let scratch ← (List.range vars.length).foldlM (fun (scratch : List F) i => do
    let x ← idx vars i
    let d ← idx direction i
    setIdx scratch i (x + t * d)) st.scratch
  let rj ← p.denseJacobian scratch st.residuals st.jacobian
  let gradient ← computeGradient rj.2 rj.1 st.gradient.length
  pure (⟨t, sumSquares rj.1, dot gradient direction⟩, ⟨scratch, rj.2, rj.1, gradient⟩)

/-- `secant`, `lbfgs.rs:290-292`. -/
def secant (a b : Param F) : F := (a.p * b.dphi - b.p * a.dphi) / (b.dphi - a.dphi)

/-- `HagerZhangLineSearch::satisfies_wolfe`, `lbfgs.rs:306-321`; `phi0` and `dphi0` are the fields of the struct. -/
def satisfiesWolfe (phi0 dphi0 : F) (c : Param F) : Bool :=
  (leB c.phi (phi0 + c.p * (ratio 1 10000 * dphi0)) && leB (ratio 9 10 * dphi0) c.dphi) ||
  (leB c.phi (phi0 + ratio 1 (10 ^ 6)) && leB c.dphi ((ofNat 2 * ratio 1 10000 - 1) * dphi0) && leB (ratio 9 10 * dphi0) c.dphi)

/-- The loop U3 of `update`, `lbfgs.rs:344-359`. It has no bound in the code; the model gives up after `fuel` rounds. -/
def updateLoop (p : Problem F) (vars direction : List F) (phi0 : F) :
    Nat → EvalState F → Param F → Param F → R ((Param F × Param F) × EvalState F)
  | 0, _, _, _ => .error .outOfFuel
  | fuel + 1, st, a, b => do
      let (d, st) ← calculatePhi p vars direction st ((1 - ratio 5 10) * a.p + ratio 5 10 * b.p)
      if leB 0 d.dphi then pure ((a, d), st)
      else if leB d.phi (phi0 + ratio 1 (10 ^ 6)) then updateLoop p vars direction phi0 fuel st d b
      else updateLoop p vars direction phi0 fuel st a d

/-- `HagerZhangLineSearch::update`, `lbfgs.rs:324-361`. -/
def update (p : Problem F) (vars direction : List F) (phi0 : F) (fuel : Nat) (st : EvalState F) (a b c : Param F) :
    R ((Param F × Param F) × EvalState F) :=
  if ltB c.p a.p || ltB b.p c.p then pure ((a, b), st)
  else if leB 0 c.dphi then pure ((a, c), st)
  else if leB c.phi (phi0 + ratio 1 (10 ^ 6)) then pure ((c, b), st)
  else updateLoop p vars direction phi0 fuel st a c

/-- `HzResult`, `lbfgs.rs:294-297`. -/
inductive HzResult (F α : Type) where
  | satisfied (c : Param F)
  | unsatisfied (x : α)

/-- The two equal endings of `secant2`, `lbfgs.rs:384-391` and `393-400`: a second secant step to `t`. -/
def secondSecant (p : Problem F) (vars direction : List F) (phi0 dphi0 : F) (fuel : Nat) (st : EvalState F) (a_ b_ : Param F) (t : F) :
    R (HzResult F (Param F × Param F) × EvalState F) := do
  let (c_, st) ← calculatePhi p vars direction st t
  if satisfiesWolfe phi0 dphi0 c_ then pure (.satisfied c_, st)
  else
    let (ab, st) ← update p vars direction phi0 fuel st a_ b_ c_
    pure (.unsatisfied ab, st)

/-- `HagerZhangLineSearch::secant2`, `lbfgs.rs:367-404`. -/
def secant2 (p : Problem F) (vars direction : List F) (phi0 dphi0 : F) (fuel : Nat) (st : EvalState F) (a b : Param F) :
    R (HzResult F (Param F × Param F) × EvalState F) := do
  let (c, st) ← calculatePhi p vars direction st (secant a b)
  if satisfiesWolfe phi0 dphi0 c then pure (.satisfied c, st)
  else
    let ((a_, b_), st) ← update p vars direction phi0 fuel st a b c
    if eqB c.p b_.p then secondSecant p vars direction phi0 dphi0 fuel st a_ b_ (secant b b_)
    else if eqB c.p a_.p then secondSecant p vars direction phi0 dphi0 fuel st a_ b_ (secant a a_)
    else pure (.unsatisfied (a_, b_), st)

/-- `HagerZhangLineSearch::search`, `lbfgs.rs:421-447`, with `n` iterations to go. -/
def search (p : Problem F) (vars direction : List F) (phi0 dphi0 : F) (fuel : Nat) :
    Nat → EvalState F → Param F → Param F → Param F → R (Param F × EvalState F)
  | 0, st, _, _, c => do
      let (_, st) ← calculatePhi p vars direction st c.p
      pure (c, st)
  | n + 1, st, a, b, c => do
      match ← secant2 p vars direction phi0 dphi0 fuel st a b with
      | (.satisfied c, st) => pure (c, st)
      | (.unsatisfied (a_, b_), st) =>
          if ltB (ratio 66 100 * (b.p - a.p)) (b_.p - a_.p) then do
            let (c, st) ← calculatePhi p vars direction st (ratio 5 10 * (a.p + b.p))
            if satisfiesWolfe phi0 dphi0 c then pure (c, st)
            else
              let ((a, b), st) ← update p vars direction phi0 fuel st a b c
              search p vars direction phi0 dphi0 fuel n st a b c
          else search p vars direction phi0 dphi0 fuel n st a_ b_ c

/-- `HagerZhangLineSearch::run` with `bracket`, `lbfgs.rs:408-417`, `450-460`. -/
def lineSearchRun (p : Problem F) (vars direction : List F) (phi0 dphi0 : F) (fuel : Nat) (st : EvalState F) :
    R (Param F × EvalState F) := do
  let (c, st) ← calculatePhi p vars direction st 1
  if satisfiesWolfe phi0 dphi0 c then pure (c, st)
  else
    let (b, st) ← calculatePhi p vars direction st (ofNat 5)
    search p vars direction phi0 dphi0 fuel 100 st ⟨0, phi0, dphi0⟩ b c

/-- `line_search`, `lbfgs.rs:481-506`. -/
def lineSearch (p : Problem F) (vars direction : List F) (phi0 : F) (fuel : Nat) (st : EvalState F) : R (Param F × EvalState F) :=
  lineSearchRun p vars direction phi0 (dot st.gradient direction) fuel st

/-! ## The optimiser, `lbfgs.rs:20-193` -/

/-- One slot of the ring buffers `s_history`, `y_history` and `rho_history`. -/
structure Correction (F : Type) where
  s : List F
  y : List F
  rho : F

/-- An iteration of the first loop, `lbfgs.rs:83-99`. State: direction, `alpha`. -/
def firstLoop (history : List (Correction F)) (k : Nat) (st : List F × List F) (i : Nat) : R (List F × List F) := do
  let h ← idx history ((k + i) % 5)
  let a := h.rho * dot h.s st.1
  let alpha ← setIdx st.2 i a
  pure (List.zipWith (fun d y => d - a * y) st.1 h.y, alpha)

/-- The scaling, `lbfgs.rs:101-121`. -/
def scaleDirection (history : List (Correction F)) (k : Nat) (direction : List F) : R (List F) :=
  if 0 < k then do
    let h ← idx history ((k - 1) % 5)
    if ltB 0 (dot h.y h.y) then pure (direction.map (fun d => d * (dot h.s h.y / dot h.y h.y))) else pure direction
  else pure direction

/-- An iteration of the second loop, `lbfgs.rs:123-139`. -/
def secondLoop (history : List (Correction F)) (k : Nat) (alpha : List F) (direction : List F) (i : Nat) : R (List F) := do
  let h ← idx history ((k + i) % 5)
  let beta := h.rho * dot h.y direction
  let a ← idx alpha i
  pure (List.zipWith (fun d s => d + s * (a - beta)) direction h.s)

/-- The step direction in iteration `k`, `lbfgs.rs:78-143`. (`alpha` is kept between the iterations in the code; the entries read
are written before in the same iteration.) -/
def lbfgsDirection (history : List (Correction F)) (k : Nat) (gradient : List F) : R (List F) := do
  let len := min k 5
  let (direction, alpha) ← (List.range len).reverse.foldlM (firstLoop history k) (gradient, List.replicate 5 0)
  let direction ← scaleDirection history k direction
  let direction ← (List.range len).foldlM (secondLoop history k alpha) direction
  pure (direction.map (fun d => d * -1))

/-- The variables of `lbfgs`. `corrections` is not in the code: it records all corrections so far, oldest first. -/
structure LbfgsState (F : Type) where
  vars : List F
  jacobian : List F
  residuals : List F
  gradient : List F
  history : List (Correction F)
  ssr : F
  corrections : List (Correction F)

/-- The new correction, `lbfgs.rs:147-150`, `173-183`: from the step, the old and the new gradient. -/
def newCorrection (step : F) (direction old new : List F) : Correction F :=
  let s := direction.map (fun d => step * d)
  let y := List.zipWith (· - ·) new old
  ⟨s, y, 1 / dot s y⟩

/-- Iteration `k` of the loop, `lbfgs.rs:77-192`: `true` stands for `break`. -/
def lbfgsStep (p : Problem F) (fuel k : Nat) (st : LbfgsState F) : R (Bool × LbfgsState F) := do
  let direction ← lbfgsDirection st.history k st.gradient
  let (c, ev) ← lineSearch p st.vars direction st.ssr fuel ⟨st.vars, st.jacobian, st.residuals, st.gradient⟩
  let h := newCorrection c.p direction st.gradient ev.gradient
  let history ← setIdx st.history (k % 5) h
  let stop := ltB (abs (st.ssr - c.phi)) (ratio 1 (10 ^ 10)) || ltB c.phi (ratio 1 (10 ^ 6))
  pure (stop, ⟨ev.scratch, ev.jacobian, ev.residuals, ev.gradient, history, if stop then st.ssr else c.phi, st.corrections ++ [h]⟩)

/-- The loop from iteration `k` on with `n` iterations to go, `lbfgs.rs:77-192`. -/
def lbfgsLoop (p : Problem F) (fuel : Nat) : Nat → Nat → LbfgsState F → R (LbfgsState F)
  | 0, _, st => .ok st
  | n + 1, k, st => do
      let (stop, st) ← lbfgsStep p fuel k st
      if stop then pure st else lbfgsLoop p fuel n (k + 1) st

/-- The state before the loop, `lbfgs.rs:42-75`; `none` stands for the early return. -/
def lbfgsStart (p : Problem F) (vars : List F) : R (Option (LbfgsState F)) := do
  let n := p.numVariables
  let rj ← p.denseJacobian vars (List.replicate p.numResiduals 0) (List.replicate (p.numResiduals * n) 0)
  if ltB (sumSquares rj.1) (ratio 1 10000) then pure none
  else
    let gradient ← computeGradient rj.2 rj.1 n
    pure (some ⟨vars, rj.2, rj.1, gradient, List.replicate 5 ⟨List.replicate n 0, List.replicate n 0, 0⟩, sumSquares rj.1, []⟩)

/-- `lbfgs`, `lbfgs.rs:20-193`. -/
def lbfgs (p : Problem F) (fuel : Nat) (vars : List F) : R (List F) := do
  match ← lbfgsStart p vars with
  | none => pure vars
  | some st =>
      let st ← lbfgsLoop p fuel 100 0 st
      pure st.vars

end

end Fiksi
