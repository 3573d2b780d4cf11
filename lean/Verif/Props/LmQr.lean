import Verif.Proofs.LmQr
import Verif.Proofs.QrColamd
import Verif.Proofs.Settles
import Verif.Props.SolvePanic
/-!
# Levenberg–Marquardt with the sparse QR and `colamd` (C41, C52, C53)

The linear solver is the model of the one in `solvi`, with the column ordering of `colamd_rs`. What remains assumed: exact arithmetic, and that
sorting sorts.
-/
namespace Fiksi

set_option linter.unusedSectionVars false
variable {F : Type} [Add F] [Sub F] [Mul F] [Div F] [Neg F] [Zero F] [One F] [FloatOps F]

open Spec

/-- C41 with the column ordering of the crate: the factorisation and the solution, as in `C41_solve`, for matrices for which the workspace of `colamd`
has fewer than 2^31 entries. -/
theorem C41_colamd_solve (cast : ℝ → Int) (ordering : QrOrdering) (st : SparseStructure)
    (hfit : workspace st.nrows st.ncols st.rowIndices.length < 2 ^ 31)
    (hst : WellFormed st) (hr : FullRank st) (earlier : List (SparseColMat ℝ))
    (hearlier : ∀ a ∈ earlier, a.structure' = st ∧ MatWellFormed a) (a : SparseColMat ℝ) (ha : MatWellFormed a) (hast : a.structure' = st)
    (A : Nat → Nat → ℝ) (hA : Represents a A) (b : List ℝ) (hb : b.length = st.nrows) :
    ∃ s q flag b', SymbolicQr.build (colamdOfStructure cast) st ordering = .ok s ∧
      (earlier ++ [a]).foldlM (fun (q : Qr ℝ) a => q.factorize a) (s.numeric ℝ) = .ok q ∧ q.solve b = .ok (flag, b') ∧ b'.length = b.length ∧
      (flag = true ↔ IndependentColumns A st.nrows st.ncols) ∧
      (flag = true → ∀ x : List ℝ, residualSquared A st.nrows st.ncols b b' ≤ residualSquared A st.nrows st.ncols b x ∧
        (residualSquared A st.nrows st.ncols b x = residualSquared A st.nrows st.ncols b b' → ∀ c, c < st.ncols → x.getD c 0 = b'.getD c 0)) :=
  C41_solve ordering st (colamdOfStructure_orders cast hst hfit) hst hr earlier hearlier a ha hast A hA b hb

/-- Case: the matrix `[[3, 0], [4, 0], [0, 2]]` of `C41_case`. -/
example : workspace qrExample.structure'.nrows qrExample.structure'.ncols qrExample.structure'.rowIndices.length < 2 ^ 31 := by
  norm_num [workspace, qrExample]

/-- The matrix of a Levenberg–Marquardt step with `m` residuals, `n` variables and `k` entries fits the workspace of `colamd`. -/
def Spec.FitsWorkspace (m n k : Nat) : Prop := workspace (m + n) n k < 2 ^ 31

theorem qrColamd_exact (cast : ℝ → Int) {sort : SortByKey} (hsort : Sorts sort) :
    (qrLeastSquares sort (colamdOfStructure cast) : LeastSquares ℝ).Exact FitsWorkspace :=
  qrLeastSquares_exact hsort (fun a m n k ha h1 h2 h3 hS => colamdOfStructure_orders cast ha (by
    rw [h1, h2]
    unfold FitsWorkspace workspace at *
    omega))

theorem Reaches.expressions_le {counter : Nat} {ops : List (Op F)} {c : Client F} (h : Reaches counter ops c) :
    c.sys.expressions.length ≤ 2 * ((Store.empty F).run ops).cons.length := by
  rw [h.crel.rel.exprs, List.length_flatMap]
  have : ∀ l : List (Spec.Con F), (l.map (fun a => (encCon ((Store.empty F).run ops).elems a).length)).sum ≤ 2 * l.length := by
    intro l
    induction l with
    | nil => simp
    | cons a l ih =>
      have : (encCon ((Store.empty F).run ops).elems a).length ≤ 2 := by cases a <;> simp [encCon]
      simp only [List.map_cons, List.sum_cons, List.length_cons]
      omega
  exact this _

theorem Reaches.fits {counter : Nat} {ops : List (Op F)} {c : Client F} (h : Reaches counter ops c) (hshort : ops.length < 2 ^ 24) :
    ∀ m n k, m ≤ c.sys.expressions.length → n ≤ c.sys.vars.length → k ≤ 8 * m + n → FitsWorkspace m n k := by
  intro m n k hm hn hk
  obtain ⟨h1, h2⟩ := run_size (Store.empty F) ops h.legal
  have h3 := h.crel.rel.vars_length_le
  have h4 : c.sys.expressions.length ≤ 2 * ((Store.empty F).run ops).cons.length := by
    rw [h.crel.rel.exprs, List.length_flatMap]
    have : ∀ l : List (Spec.Con F), (l.map (fun a => (encCon ((Store.empty F).run ops).elems a).length)).sum ≤ 2 * l.length := by
      intro l
      induction l with
      | nil => simp
      | cons a l ih =>
        have : (encCon ((Store.empty F).run ops).elems a).length ≤ 2 := by cases a <;> simp [encCon]
        simp only [List.map_cons, List.sum_cons, List.length_cons]
        omega
    exact this _
  have h5 : (Store.empty F).elems.length = 0 := rfl
  have h6 : (Store.empty F).cons.length = 0 := rfl
  unfold FitsWorkspace workspace
  omega

/-- C52: Levenberg–Marquardt with the sparse QR returns; `f + 1` bounds the number of linear solves of each step. -/
theorem C52_qr_returns_partial (cast : ℝ → Int) {sort : SortByKey} (hsort : Sorts sort)
    {p : Problem ℝ} {pattern : List (Nat × Nat)} (hp : p.Total pattern)
    (hfit : FitsWorkspace p.numResiduals p.numVariables (pattern.length + p.numVariables)) {x r : List ℝ} (hx : x.length = p.numVariables)
    (hr : p.residuals x = .ok r) {f : Nat} (hf : (r.map (fun v => v * v)).sum * 10 ^ 62 < 4 * 2 ^ f) :
    ∃ st, lmRun p (qrLeastSquares sort (colamdOfStructure cast)) (f + 1) x = .ok st :=
  C52_returns_partial hp (qrColamd_exact cast hsort) hfit hx hr hf

/-- C53: `solve` with the optimisers and the linear solver as they are in the crates does not panic with the decomposers `None` and
`SinglePass`, after any legal history of fewer than 2^24 calls: it returns, or is still in one of the loops without a bound after `fuel` rounds of it. -/
theorem C53_solve_qr_no_panic_partial (cast : ℝ → Int) {sort : SortByKey} (hsort : Sorts sort)
    {counter : Nat} {ops : List (Op ℝ)} {c : Client ℝ} (h : Reaches counter ops c) (hshort : ops.length < 2 ^ 24) {fuel : Nat} {ord : HashOrder} (hord : ord.Ok)
    {opts : SolvingOptions} (hd : opts.decomposer ≠ .recursiveAssembly) :
    (∃ s', c.sys.solve (crateOptimize (qrLeastSquares sort (colamdOfStructure cast)) fuel) ord opts = .ok s') ∨
      c.sys.solve (crateOptimize (qrLeastSquares sort (colamdOfStructure cast)) fuel) ord opts = .error .outOfFuel :=
  C53_solve_optimizers_no_panic h (qrColamd_exact cast hsort).safe (h.fits hshort) hord hd

/-- C52, C53: `solve` with Levenberg–Marquardt returns, with the decomposers `None` and `SinglePass`, after any legal history: there is a result
that the model gives for all loop bounds from some on. (In exact arithmetic; there division by zero gives zero. `C52_nan_never_returns` shows what
happens with floating-point numbers if the system has size 0.) -/
theorem C52_solve_returns_partial (cast : ℝ → Int) {sort : SortByKey} (hsort : Sorts sort)
    {counter : Nat} {ops : List (Op ℝ)} {c : Client ℝ} (h : Reaches counter ops c) (hshort : ops.length < 2 ^ 24) {ord : HashOrder} (hord : ord.Ok) {opts : SolvingOptions}
    (hd : opts.decomposer ≠ .recursiveAssembly) (ho : opts.optimizer = .levenbergMarquardt) :
    ∃ s' k, ∀ fuel, k ≤ fuel → c.sys.solve (crateOptimize (qrLeastSquares sort (colamdOfStructure cast)) fuel) ord opts = .ok s' := by
  have hkeeps := fun (p : Problem ℝ) x => levenbergMarquardt_keeps p (qrLeastSquares sort (colamdOfStructure cast)) x
  choose lim hlim using fun p x => (hkeeps p x).settles
  have hsafe : Optimize.Safe False c.sys.expressions.length c.sys.vars.length (fun (o : Optimizer) p x => match o with | .levenbergMarquardt => lim p x | .lBfgs => .ok x) := by
    intro o sub x hok hw hx
    cases o with
    | levenbergMarquardt =>
      obtain ⟨fuel, x', h1, h2⟩ := C53_lm_no_panic hok.total (qrColamd_exact cast hsort) (h.fits hshort _ _ _ hw.1 hw.2 sub.size_le) hx
      exact .inl ⟨x', (hlim _ _).ok_of (hkeeps _ _) h1, h2⟩
    | lBfgs => exact .inl ⟨x, rfl, hx⟩
  obtain ⟨s', h1⟩ := C53_solve_no_panic_partial h hsafe hord hd
  obtain ⟨k, hk⟩ := solve_settles (fam := crateOptimize (qrLeastSquares sort (colamdOfStructure cast))) (opts := opts)
    (lim := fun o p x => match o with | .levenbergMarquardt => lim p x | .lBfgs => .ok x)
    (by rw [ho]; exact hlim) (fun hr => absurd hr hd) ord c.sys
  exact ⟨s', k, fun fuel hf => by rw [← h1]; exact hk fuel hf⟩

/-- The assumption on sorting can be met. -/
example : Sorts exampleSort := exampleSort_sorts

end Fiksi
