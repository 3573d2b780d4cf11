import Verif.Proofs.Lbfgs
import Verif.Proofs.LineSearch
/-!
# C27: the corrections L-BFGS uses; C54: where the line search leaves its buffers
-/
namespace Fiksi

open Spec FloatOps Matrix

/-! ## C54 -/

set_option linter.unusedSectionVars false
variable {F : Type} [Add F] [Sub F] [Mul F] [Div F] [Neg F] [Zero F] [One F] [FloatOps F]

/-- C54: when `line_search` returns the step `c`, the scratch variables are exactly `x + c.p · direction`, the residuals, Jacobian and
gradient are those of these variables, and `c.phi` is their sum of squared residuals — on every path through the search, for every
number type. -/
theorem C54_buffers_at_step {p : Problem F} (hp : p.DenseOk) {vars direction : List F} (hv : vars.length = p.numVariables)
    (hd : direction.length = p.numVariables) {phi0 : F} {fuel : Nat} {st st' : EvalState F} (hst : st.Sized p) {c : Param F}
    (h : lineSearch p vars direction phi0 fuel st = .ok (c, st')) :
    st'.scratch = List.zipWith (fun x d => x + c.p * d) vars direction ∧
    p.residuals st'.scratch = .ok st'.residuals ∧ c.phi = sumSquares st'.residuals ∧
    (∃ rs jac, p.denseJacobian st'.scratch rs jac = .ok (st'.residuals, st'.jacobian)) ∧
    computeGradient st'.jacobian st'.residuals p.numVariables = .ok st'.gradient := by
  obtain ⟨⟨r, h1, h2⟩, h3⟩ := (lineSearch_ends hp hv hd phi0 fuel hst).get h
  have h4 := h3.scratch
  have h5 := h3.residuals
  rw [h1, Except.ok.injEq] at h5
  subst h5
  have h6 := h3.jacobian
  rw [← h4] at h1 h6
  exact ⟨h4, h1, h2, h6, h3.gradient⟩

/-! ## The states of L-BFGS -/

/-- The states at the start of iteration `k`. -/
inductive LbfgsReaches (p : Problem F) (fuel : Nat)
    (x : List F) : Nat → LbfgsState F → Prop
  | start {st : LbfgsState F} : lbfgsStart p x = .ok (some st) → LbfgsReaches p fuel x 0 st
  | step {k : Nat} {st st' : LbfgsState F} : LbfgsReaches p fuel x k st → lbfgsStep p fuel k st = .ok (false, st') →
      LbfgsReaches p fuel x (k + 1) st'

/-- The invariant of the loop. -/
structure LbfgsState.Ok (p : Problem ℝ) (k : Nat) (st : LbfgsState ℝ) : Prop where
  at_ : EvalState.At p ⟨st.vars, st.jacobian, st.residuals, st.gradient⟩ st.vars
  ssr : st.ssr = sumSquares st.residuals
  ring : RingOk p.numVariables k st.history st.corrections

/-- The direction in iteration `k`: minus the matrix of the corrections whose slots are read, times the gradient. -/
noncomputable def usedMatrix (n k : Nat) (corrections : List (Correction ℝ)) : Matrix (Fin n) (Fin n) ℝ :=
  bfgsMatrix (bfgsScale (corrections.getLast?.map (Correction.pair n))) ((usedCorrections k corrections).map (Correction.pair n))

theorem lbfgsDirection_ok {n k : Nat} {history corrections : List (Correction ℝ)} (h : RingOk n k history corrections) {g : List ℝ}
    (hg : g.length = n) :
    ∃ d, lbfgsDirection history k g = .ok d ∧ d.length = n ∧ vec n d = -(usedMatrix n k corrections *ᵥ vec n g) := by
  obtain ⟨d, h1, h2, h3⟩ := lbfgsDirection_slots (k := k) h.length h.sized hg
  rw [h.newest, h.matrix] at h3
  exact ⟨d, h1, h2, h3⟩

theorem newCorrection_sized {n : Nat} {step : F} {d old new : List F} (hd : d.length = n) (ho : old.length = n) (hn : new.length = n) :
    (newCorrection step d old new).Sized n := by
  constructor <;> simp [newCorrection, hd, ho, hn]

/-- What one iteration does, if it ends. -/
structure StepSpec (p : Problem ℝ) (k : Nat) (st st' : LbfgsState ℝ) (stop : Bool) : Prop where
  ok : stop = false → st'.Ok p (k + 1)
  length : st'.vars.length = p.numVariables
  /-- The step is along the direction, and the correction is what changed. -/
  moved : ∃ (t : ℝ) (d : List ℝ) (c : Correction ℝ), lbfgsDirection st.history k st.gradient = .ok d ∧
    vec p.numVariables st'.vars = vec p.numVariables st.vars + t • vec p.numVariables d ∧
    st'.corrections = st.corrections ++ [c] ∧
    vec p.numVariables c.s = vec p.numVariables st'.vars - vec p.numVariables st.vars ∧
    vec p.numVariables c.y = vec p.numVariables st'.gradient - vec p.numVariables st.gradient ∧
    c.rho = 1 / (vec p.numVariables c.s ⬝ᵥ vec p.numVariables c.y)

theorem lbfgsStep_ends {p : Problem ℝ} (hp : p.DenseOk) {fuel k : Nat} {st : LbfgsState ℝ} (hst : st.Ok p k) :
    Ends (fun r => StepSpec p k st r.2 r.1) (lbfgsStep p fuel k st) := by
  have hv : st.vars.length = p.numVariables := hst.at_.sized.scratch
  obtain ⟨d, h1, h2, -⟩ := lbfgsDirection_ok hst.ring hst.at_.sized.gradient
  rw [lbfgsStep, h1, ok_bind]
  refine (lineSearch_ends hp hv h2 st.ssr fuel hst.at_.sized).bind (fun r hr => ?_)
  obtain ⟨c, ev⟩ := r
  obtain ⟨⟨r, m1, m2⟩, m3⟩ := hr
  have m4 := m3.residuals
  simp only at m1 m2 m4
  rw [m1, Except.ok.injEq] at m4
  subst m4
  simp only
  rw [setIdx_of _ (by rw [hst.ring.length]; omega), ok_bind]
  have hsz := newCorrection_sized (step := c.p) h2 hst.at_.sized.gradient m3.sized.gradient
  have hvars : vec p.numVariables ev.scratch = vec p.numVariables st.vars + c.p • vec p.numVariables d := by
    rw [m3.scratch]
    ext i
    simp only [along]
    rw [vec_zipWith hv h2]
    simp
  refine .ok ⟨fun hstop => ⟨?_, ?_, hst.ring.push hsz⟩, m3.sized.scratch, c.p, d, _, h1, hvars, rfl, ?_, ?_, ?_⟩
  · have := m3
    rw [← m3.scratch] at this
    exact this
  · simp only at hstop
    simp only [hstop, Bool.false_eq_true, if_false]
    exact m2
  · rw [hvars]
    ext i
    simp only [newCorrection]
    rw [vec_map h2]
    simp
  · ext i
    simp only [newCorrection]
    rw [vec_zipWith m3.sized.gradient hst.at_.sized.gradient]
    simp
  · rw [← dot_eq hsz.1 hsz.2]
    rfl

theorem lbfgsStart_ok {p : Problem ℝ} (hp : p.DenseOk) {x : List ℝ} (hx : x.length = p.numVariables) :
    ∃ o, lbfgsStart p x = .ok o ∧ ∀ st, o = some st → st.Ok p 0 ∧ st.vars = x := by
  obtain ⟨r, j, h1, h2, h3, h4⟩ := hp x (List.replicate p.numResiduals 0) (List.replicate (p.numResiduals * p.numVariables) 0) hx
    (by simp) (by simp)
  obtain ⟨g, h5, h6⟩ := computeGradient_ok (jacobian := j) (residuals := r) (n := p.numVariables) (by rw [h3, h4])
  rw [lbfgsStart]
  rw [h1, ok_bind]
  split
  · exact ⟨none, rfl, by simp⟩
  · rw [h5, ok_bind]
    refine ⟨_, rfl, fun st hst => ?_⟩
    cases hst
    exact ⟨⟨⟨⟨hx, h4, h3, h6⟩, rfl, h2, ⟨_, _, h1⟩, h5⟩, rfl, RingOk.start _⟩, rfl⟩

theorem LbfgsReaches.ok {p : Problem ℝ} (hp : p.DenseOk) {fuel : Nat} {x : List ℝ} (hx : x.length = p.numVariables) {k : Nat}
    {st : LbfgsState ℝ} (h : LbfgsReaches p fuel x k st) : st.Ok p k := by
  induction h with
  | start h =>
    obtain ⟨o, h1, h2⟩ := lbfgsStart_ok hp hx
    rw [h, Except.ok.injEq] at h1
    exact (h2 _ h1.symm).1
  | step _ h ih => exact ((lbfgsStep_ends hp ih).get h).ok rfl

/-! ## C27 -/

/-- The corrections the two-loop recursion should use in iteration `k`: the `min k 5` most recent ones. -/
def recentCorrections (corrections : List (Correction ℝ)) : List (Correction ℝ) :=
  corrections.drop (corrections.length - 5)

/-- The direction L-BFGS should take: minus the matrix of the most recent corrections times the gradient. -/
noncomputable def Spec.lbfgsDirection (n : Nat) (corrections : List (Correction ℝ)) (gradient : List ℝ) : Fin n → ℝ :=
  -((bfgsMatrix (bfgsScale (corrections.getLast?.map (Correction.pair n))) ((recentCorrections corrections).map (Correction.pair n)))
    *ᵥ vec n gradient)

/-- C27 (partial): in the first iteration and from the sixth on, for every problem and start, the direction is the BFGS direction of
the `min(k,5)` most recent corrections. (Full statement: in every iteration; false in iterations 1 to 4, see
`C27_early_iterations_wrong`.) -/
theorem C27_direction_partial {p : Problem ℝ} (hp : p.DenseOk) {fuel : Nat} {x : List ℝ} (hx : x.length = p.numVariables) {k : Nat}
    {st : LbfgsState ℝ} (h : LbfgsReaches p fuel x k st) (hk : k = 0 ∨ 5 ≤ k) :
    st.corrections.length = k ∧ ∃ d, lbfgsDirection st.history k st.gradient = .ok d ∧
      vec p.numVariables d = Spec.lbfgsDirection p.numVariables st.corrections st.gradient := by
  have hok := h.ok hp hx
  obtain ⟨d, h1, -, h2⟩ := lbfgsDirection_ok hok.ring hok.at_.sized.gradient
  refine ⟨hok.ring.count, d, h1, ?_⟩
  rw [h2, usedMatrix, Spec.lbfgsDirection, usedCorrections, recentCorrections, hok.ring.count]
  rcases hk with rfl | hk
  · have := List.length_eq_zero_iff.1 hok.ring.count
    rw [this]
    rfl
  · rw [if_neg (by omega)]

/-- C27, what iterations 1 to 4 do instead: of the corrections so far they use none, none, the oldest one, and the oldest three. -/
theorem C27_early_direction {p : Problem ℝ} (hp : p.DenseOk) {fuel : Nat} {x : List ℝ} (hx : x.length = p.numVariables) {k : Nat}
    {st : LbfgsState ℝ} (h : LbfgsReaches p fuel x k st) (hk : k < 5) :
    ∃ d, lbfgsDirection st.history k st.gradient = .ok d ∧
      vec p.numVariables d = -((bfgsMatrix (bfgsScale (st.corrections.getLast?.map (Correction.pair p.numVariables)))
        ((st.corrections.take (2 * k - 5)).map (Correction.pair p.numVariables))) *ᵥ vec p.numVariables st.gradient) := by
  have hok := h.ok hp hx
  obtain ⟨d, h1, -, h2⟩ := lbfgsDirection_ok hok.ring hok.at_.sized.gradient
  refine ⟨d, h1, ?_⟩
  rw [h2, usedMatrix, usedCorrections, if_pos hk]

/-- C27: the corrections are what the name says: iteration `k` adds the change of the variables, the change of the gradient, and the
reciprocal of their product; the variables change along the direction. -/
theorem C27_corrections {p : Problem ℝ} (hp : p.DenseOk) {fuel : Nat} {x : List ℝ} (hx : x.length = p.numVariables) {k : Nat}
    {st st' : LbfgsState ℝ} {stop : Bool} (h : LbfgsReaches p fuel x k st) (hs : lbfgsStep p fuel k st = .ok (stop, st')) :
    ∃ (t : ℝ) (d : List ℝ) (c : Correction ℝ), lbfgsDirection st.history k st.gradient = .ok d ∧
      vec p.numVariables st'.vars = vec p.numVariables st.vars + t • vec p.numVariables d ∧
      st'.corrections = st.corrections ++ [c] ∧
      vec p.numVariables c.s = vec p.numVariables st'.vars - vec p.numVariables st.vars ∧
      vec p.numVariables c.y = vec p.numVariables st'.gradient - vec p.numVariables st.gradient ∧
      c.rho = 1 / (vec p.numVariables c.s ⬝ᵥ vec p.numVariables c.y) :=
  ((lbfgsStep_ends hp (h.ok hp hx)).get hs).moved

/-! ## No panic -/

theorem lbfgsLoop_ends {p : Problem ℝ} (hp : p.DenseOk) {fuel : Nat} : ∀ (n k : Nat) (st : LbfgsState ℝ), st.Ok p k →
    Ends (fun st' => st'.vars.length = p.numVariables) (lbfgsLoop p fuel n k st) := by
  intro n
  induction n with
  | zero => intro k st h; exact .ok h.at_.sized.scratch
  | succ n ih =>
    intro k st h
    rw [lbfgsLoop]
    refine (lbfgsStep_ends hp h).bind (fun r hr => ?_)
    obtain ⟨stop, st1⟩ := r
    cases stop with
    | true => exact .ok hr.length
    | false => exact ih (k + 1) st1 (hr.ok rfl)

/-- L-BFGS does not panic on problems that do not panic. (It may not return: the loop U3 of the line search has no bound.) -/
theorem lbfgs_ends {p : Problem ℝ} (hp : p.DenseOk) {fuel : Nat} {x : List ℝ} (hx : x.length = p.numVariables) :
    Ends (fun x' => x'.length = p.numVariables) (lbfgs p fuel x) := by
  obtain ⟨o, h1, h2⟩ := lbfgsStart_ok hp hx
  rw [lbfgs, h1, ok_bind]
  cases o with
  | none => exact .ok hx
  | some st =>
    simp only
    exact (lbfgsLoop_ends hp 100 0 st (h2 st rfl).1).bind (fun st' h => .ok h)

/-- The numerical subproblems of `Decomposer::None` and `SinglePass` have a dense Jacobian. -/
theorem Subsystem.Ok.denseOk {sub : Subsystem F} (hok : sub.Ok) : sub.problem.DenseOk := by
  intro x rs jac hx hrs hjac
  have hx : x.length = sub.freeVariables.length := hx
  have hrs : rs.length = sub.expressions.length := hrs
  have hjac : jac.length = sub.expressions.length * sub.freeVariables.length := hjac
  have hex : ∀ id ∈ sub.expressions, ∃ d, rowData sub x id = .ok d ∧ SlotsLt sub.freeVariables.length d.2 := by
    intro id hid
    obtain ⟨e, he, hv⟩ := hok id hid
    obtain ⟨rg, -, h, -⟩ := rowData_total hx he hv
    exact ⟨_, h, slotsLt_of _ _⟩
  obtain ⟨rs', jac', q1, q2, q3, -, -, q5⟩ := dense_fold (sub := sub) (u := x) rfl sub.expressions 0 rs jac hex (by omega)
    (by rw [hjac, Nat.zero_add])
  obtain ⟨l, h1, h2, h3⟩ := residuals_total hok hx
  have : rs' = l := by
    apply List.ext_getElem?
    intro row
    by_cases hrow : row < sub.expressions.length
    · obtain ⟨id, hid⟩ : ∃ id, sub.expressions[row]? = some id := ⟨_, List.getElem?_eq_getElem hrow⟩
      obtain ⟨e, he, hv⟩ := hok id (List.mem_of_getElem? hid)
      obtain ⟨rg, -, hd, hc⟩ := rowData_total hx he hv
      obtain ⟨r, h4, h5⟩ := h3 row id e hid he
      have a2 := (q5 row id _ hid hd).1
      rw [Nat.zero_add] at a2
      rw [h5, a2, ← Except.ok.inj (h4.symm.trans hc)]
    · rw [List.getElem?_eq_none (by omega), List.getElem?_eq_none (by omega)]
  subst this
  exact ⟨rs', jac', q1, h1, h2, q3.trans hjac⟩

end Fiksi
