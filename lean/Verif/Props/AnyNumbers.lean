import Verif.Proofs.QrAny
import Verif.Props.LmQr
import Verif.Props.LmNan
import Verif.Props.Analyze
import Verif.Props.SolveRecursive
/-!
# C30, C53: no panic in any arithmetic

The theorems of `SolvePanic`, `LmQr`, `SolveRecursive` and `Analyze` are about exact arithmetic. Here nothing is assumed of the numbers: operations may round, overflow
or give undefined results, and comparisons may have any outcome (those with undefined operands are all false).
-/
namespace Fiksi

open Spec

set_option linter.unusedSectionVars false
variable {F : Type} [Add F] [Sub F] [Mul F] [Div F] [Neg F] [Zero F] [One F] [FloatOps F]

/-! ## Levenberg–Marquardt -/

/-- The sizes of the buffers between two rounds. -/
structure LmState.Sized (p : Problem F) (pattern : List (Nat × Nat)) (st : LmState F) : Prop where
  vars : st.vars.length = p.numVariables
  scratch : st.scratch.length = p.numVariables
  residuals : st.residuals.length = p.numResiduals
  augmented : Spec.Augmented p.numResiduals p.numVariables st.triplets
  positions : Spec.positions st.triplets = pattern ++ (List.range p.numVariables).map (fun i => (p.numResiduals + i, i))

section
variable {p : Problem F} {pattern : List (Nat × Nat)} (hp : p.Total pattern) {ls : LeastSquares F} {sym : ls.Symbolic}
  (hsym : ∀ ts μ b, Spec.Augmented p.numResiduals p.numVariables ts →
      Spec.positions ts = pattern ++ (List.range p.numVariables).map (fun i => (p.numResiduals + i, i)) → b.length = p.numResiduals →
      ∃ o, ls.solve sym p.numResiduals p.numVariables ts μ (b ++ List.replicate p.numVariables 0) = .ok o ∧
        ∀ b', o = some b' → p.numVariables ≤ b'.length)
include hp hsym

theorem lmInner_any : ∀ (fuel : Nat) (st : LmState F), st.Sized p pattern →
    Ends (fun r => r.2.vars.length = p.numVariables ∧ (r.1 = false → r.2.Sized p pattern)) (lmInner p ls sym fuel st) := by
  intro fuel
  induction fuel with
  | zero => intro st _; exact .inr rfl
  | succ fuel ih =>
    intro st hst
    obtain ⟨o, h1, h2⟩ := hsym st.triplets (FloatOps.sqrt st.lambda) st.residuals hst.augmented hst.positions hst.residuals
    rw [lmInner, h1, ok_bind]
    cases o with
    | none =>
      exact ih { st with lambda := st.lambda * FloatOps.ofNat 8 } ⟨hst.vars, hst.scratch, hst.residuals, hst.augmented, hst.positions⟩
    | some b' =>
      have h2 := h2 b' rfl
      simp only
      split
      · exact .ok ⟨hst.vars, by simp⟩
      · obtain ⟨scratch, h6, h7⟩ := lmTrial_ok hst.vars (delta := b'.take p.numVariables)
          (by rw [List.length_take]; omega) st.scratch hst.scratch
        obtain ⟨r, h8, h9⟩ := hp.residuals scratch h7
        rw [h6, ok_bind, h8, ok_bind]
        split
        · rw [lmAccept]
          simp only
          split
          · exact .ok ⟨h7, by simp⟩
          · obtain ⟨rt, q1, q2, -, q5, q6⟩ := lmJacobian_any hp h7 hst.residuals
            rw [q1, ok_bind]
            exact .ok ⟨h7, fun _ => ⟨h7, h7, q2, q5, q6⟩⟩
        · exact ih { st with scratch := scratch, lambda := st.lambda * FloatOps.ofNat 2 }
            ⟨hst.vars, h7, hst.residuals, hst.augmented, hst.positions⟩

theorem lmOuter_any {fuel : Nat} : ∀ (n : Nat) (st : LmState F), st.Sized p pattern →
    Ends (fun st' => st'.vars.length = p.numVariables) (lmOuter p ls sym fuel n st) := by
  intro n
  induction n with
  | zero => intro st h; exact .ok h.vars
  | succ n ih =>
    intro st hst
    rw [lmOuter]
    split
    · exact .ok hst.vars
    · refine (lmInner_any hp hsym fuel st hst).bind (fun r hr => ?_)
      obtain ⟨stop, st'⟩ := r
      cases stop with
      | true => exact .ok hr.1
      | false => exact ih st' (hr.2 rfl)

end

/-- Levenberg–Marquardt does not panic, whatever its numbers are. -/
theorem lm_any {p : Problem F} {pattern : List (Nat × Nat)} (hp : p.Total pattern) {S : Nat → Nat → Nat → Prop} {ls : LeastSquares F} (hls : ls.Sturdy S)
    (hS : S p.numResiduals p.numVariables (pattern.length + p.numVariables)) {fuel : Nat} {x : List F} (hx : x.length = p.numVariables) :
    Ends (fun x' => x'.length = p.numVariables) (levenbergMarquardt p ls fuel x) := by
  obtain ⟨rt, q1, q2, -, q5, q6⟩ := lmJacobian_any hp hx (rs := List.replicate p.numResiduals 0) (by simp)
  obtain ⟨sym, h1, h2⟩ := hls p.numResiduals p.numVariables rt.2 q5 (lmJacobian_size q6 ▸ hS)
  rw [levenbergMarquardt, lmRun, lmStart, q1, ok_bind, h1, ok_bind]
  exact (lmOuter_any hp (sym := sym) (fun ts μ b a1 a2 a3 => h2 ts μ b a1 (a2.trans q6.symm) a3) 100 _
    ⟨hx, hx, q2, q5, q6⟩).bind (fun st h => .ok h)

/-! ## L-BFGS -/

/-- The direction has an entry for each variable. -/
theorem lbfgsDirection_any {n k : Nat} {history : List (Correction F)} (hl : history.length = 5) (hs : ∀ c ∈ history, c.Sized n) {g : List F}
    (hg : g.length = n) : ∃ d, lbfgsDirection history k g = .ok d ∧ d.length = n := by
  have hget : ∀ i, ∃ c, idx history (i % 5) = .ok c ∧ c.Sized n := by
    intro i
    have hi : i % 5 < history.length := by omega
    exact ⟨_, idx_of (List.getElem?_eq_getElem hi), hs _ (List.getElem_mem hi)⟩
  rw [lbfgsDirection]
  obtain ⟨⟨d, alpha⟩, h1, h2, h3⟩ := foldlM_ok (fun st : List F × List F => st.1.length = n ∧ st.2.length = 5) (firstLoop history k)
    (List.range (min k 5)).reverse (g, List.replicate 5 0) ⟨hg, by simp⟩ (by
    rintro ⟨d, alpha⟩ i hi ⟨e1, e2⟩
    have hi : i < 5 := by
      rw [List.mem_reverse, List.mem_range] at hi
      omega
    obtain ⟨c, hc1, hc2⟩ := hget (k + i)
    rw [firstLoop, hc1, ok_bind]
    simp only at e1 e2 ⊢
    rw [setIdx_of _ (by omega), ok_bind]
    exact ⟨_, rfl, by simp [e1, hc2.2], by simpa using e2⟩)
  simp only [h1, ok_bind]
  simp only at h2 h3
  obtain ⟨d', h4, h5⟩ : ∃ d', scaleDirection history k d = .ok d' ∧ d'.length = n := by
    rw [scaleDirection]
    split
    · obtain ⟨c, hc1, hc2⟩ := hget (k - 1)
      rw [hc1, ok_bind]
      split
      · exact ⟨_, rfl, by simpa using h2⟩
      · exact ⟨_, rfl, h2⟩
    · exact ⟨_, rfl, h2⟩
  rw [h4, ok_bind]
  obtain ⟨d'', h6, h7⟩ := foldlM_ok (fun d : List F => d.length = n) (secondLoop history k alpha) (List.range (min k 5)) d' h5 (by
    intro d i hi e1
    have hi : i < 5 := by
      rw [List.mem_range] at hi
      omega
    obtain ⟨c, hc1, hc2⟩ := hget (k + i)
    obtain ⟨a, ha⟩ := idx_any (l := alpha) (i := i) (by omega)
    rw [secondLoop, hc1, ok_bind]
    simp only
    rw [ha, ok_bind]
    exact ⟨_, rfl, by simp [e1, hc2.1]⟩)
  rw [h6, ok_bind]
  exact ⟨_, rfl, by simpa using h7⟩

/-- The sizes of the buffers at the start of an iteration. -/
structure LbfgsState.Sized (p : Problem F) (st : LbfgsState F) : Prop where
  buffers : EvalState.Sized p ⟨st.vars, st.jacobian, st.residuals, st.gradient⟩
  slots : st.history.length = 5
  sized : ∀ c ∈ st.history, c.Sized p.numVariables

theorem lbfgsStep_any {p : Problem F} (hp : p.DenseOk) {fuel k : Nat} {st : LbfgsState F} (hst : st.Sized p) :
    Ends (fun r => r.2.Sized p) (lbfgsStep p fuel k st) := by
  obtain ⟨d, h1, h2⟩ := lbfgsDirection_any (k := k) hst.slots hst.sized (g := st.gradient) hst.buffers.gradient
  rw [lbfgsStep, h1, ok_bind]
  refine (lineSearch_ends hp hst.buffers.scratch h2 st.ssr fuel hst.buffers).bind (fun r hr => ?_)
  obtain ⟨c, ev⟩ := r
  obtain ⟨-, m3⟩ := hr
  have m3 := m3.sized
  simp only at m3 ⊢
  rw [setIdx_of _ (by rw [hst.slots]; omega), ok_bind]
  have hsz := newCorrection_sized (step := c.p) h2 hst.buffers.gradient m3.gradient
  refine .ok ⟨m3, by simpa using hst.slots, fun c' hc' => ?_⟩
  rcases List.mem_or_eq_of_mem_set hc' with h | h
  · exact hst.sized c' h
  · rw [h]; exact hsz

theorem lbfgsLoop_any {p : Problem F} (hp : p.DenseOk) {fuel : Nat} : ∀ (n k : Nat) (st : LbfgsState F), st.Sized p →
    Ends (fun st' => st'.vars.length = p.numVariables) (lbfgsLoop p fuel n k st) := by
  intro n
  induction n with
  | zero => intro k st h; exact .ok h.buffers.scratch
  | succ n ih =>
    intro k st h
    rw [lbfgsLoop]
    refine (lbfgsStep_any hp h).bind (fun r hr => ?_)
    obtain ⟨stop, st1⟩ := r
    cases stop with
    | true => exact .ok hr.buffers.scratch
    | false => exact ih (k + 1) st1 hr

/-- L-BFGS does not panic, whatever its numbers are. -/
theorem lbfgs_any {p : Problem F} (hp : p.DenseOk) {fuel : Nat} {x : List F} (hx : x.length = p.numVariables) :
    Ends (fun x' => x'.length = p.numVariables) (lbfgs p fuel x) := by
  obtain ⟨r, j, h1, h2, h3, h4⟩ := hp x (List.replicate p.numResiduals 0) (List.replicate (p.numResiduals * p.numVariables) 0) hx
    (by simp) (by simp)
  obtain ⟨g, h5, h6⟩ := computeGradient_ok (jacobian := j) (residuals := r) (n := p.numVariables) (by rw [h3, h4])
  rw [lbfgs, lbfgsStart, h1]
  simp only [ok_bind]
  split
  · exact .ok hx
  · rw [h5]
    simp only [ok_bind, pure_eq_ok]
    refine (lbfgsLoop_any hp 100 0 _ ⟨⟨hx, h4, h3, h6⟩, by simp, fun c hc => ?_⟩).bind (fun st' h => .ok h)
    rw [List.eq_of_mem_replicate hc]
    simp [Correction.Sized]

/-! ## `solve` -/

/-- The linear solver of the crate does not panic, whatever its numbers are. -/
theorem qrColamd_sturdy (cast : F → Int) {sort : SortByKey} (hsort : Sorts sort) :
    (qrLeastSquares sort (colamdOfStructure cast) : LeastSquares F).Sturdy FitsWorkspace :=
  qrLeastSquares_sturdy hsort (fun a m n k ha h1 h2 h3 hS => colamdOfStructure_orders cast ha (by
    rw [h1, h2]
    unfold FitsWorkspace workspace at *
    omega))

/-- C53, in any arithmetic: `solve` with the optimisers and the linear solver as they are in the crates does not panic with the decomposers
`None` and `SinglePass`, after any legal history of fewer than 2^24 calls, whatever the results of the arithmetic operations and of the comparisons
are: it returns, or is still in one of the loops without a bound after `fuel` rounds of it. In particular coordinates and parameters may be
infinite or undefined, and the matrices of the linear solver singular. (Full statement: for all decomposers; false, see `C53_recursive_panics`.) -/
theorem C53_solve_any_numbers_partial (cast : F → Int) {sort : SortByKey} (hsort : Sorts sort)
    {counter : Nat} {ops : List (Op F)} {c : Client F} (h : Reaches counter ops c) (hshort : ops.length < 2 ^ 24) {fuel : Nat} {ord : HashOrder} (hord : ord.Ok)
    {opts : SolvingOptions} (hd : opts.decomposer ≠ .recursiveAssembly) :
    (∃ s', c.sys.solve (crateOptimize (qrLeastSquares sort (colamdOfStructure cast) : LeastSquares F) fuel) ord opts = .ok s') ∨
      c.sys.solve (crateOptimize (qrLeastSquares sort (colamdOfStructure cast) : LeastSquares F) fuel) ord opts = .error .outOfFuel := by
  have ht : (crateOptimize (qrLeastSquares sort (colamdOfStructure cast) : LeastSquares F) fuel).Safe True c.sys.expressions.length c.sys.vars.length := by
    intro o sub x hok hw hx
    have : Ends (fun x' => x'.length = sub.problem.numVariables)
        (crateOptimize (qrLeastSquares sort (colamdOfStructure cast) : LeastSquares F) fuel o sub.problem x) := by
      cases o with
      | levenbergMarquardt => exact lm_any hok.total (qrColamd_sturdy cast hsort) (h.fits hshort _ _ _ hw.1 hw.2 sub.size_le) hx
      | lBfgs => exact lbfgs_any hok.denseOk hx
    rcases this with h | h
    · exact .inl h
    · exact .inr ⟨trivial, h⟩
  rcases h.solve_ends (ht.safeFor _) hord hd with ⟨s', h1, -⟩ | ⟨-, h1⟩
  · exact .inl ⟨s', h1⟩
  · exact .inr h1

/-- Case: the arithmetic of `LmNan`, with an undefined number, and a history with an undefined coordinate and an undefined distance. -/
example : ∃ (c : Client NanInt), Reaches 0 [.createPoint .nan 0, .createPoint (.numb 3) 1, .createCon (.pointPointDistance 0 1 .nan)] c := by
  apply exists_reaches
  · simp [Store.LegalRun, Store.Legal, Store.empty, Store.step, Store.IsPoint, Store.ConOk]
  · simp

/-- C53, in any arithmetic, for recursive assembly (partial): it does not panic once the plans exist, after any legal history of fewer than 2^22 calls
in which no constraint joins two constrained parts. (Full statement: for all histories; false, see `C53_recursive_panics`, `C49_missing_argument`.) -/
theorem C53_recursive_any_numbers_partial (cast : F → Int) {sort : SortByKey} (hsort : Sorts sort)
    {counter : Nat} {ops : List (Op F)} {c : Client F} (h : Reaches counter ops c) (hshort : ops.length < 2 ^ 22)
    (hn : NeverJoins ((Store.empty F).run ops).arguments) {ord : HashOrder} (hord : ord.Ok) {L : Nat} (hL : L < 2 ^ 22) (hplan : c.sys.Planned ord L)
    {fuel : Nat} {opts : SolvingOptions} (hd : opts.decomposer = .recursiveAssembly) :
    (∃ s', c.sys.solve (crateOptimize (qrLeastSquares sort (colamdOfStructure cast) : LeastSquares F) fuel) ord opts = .ok s') ∨
      c.sys.solve (crateOptimize (qrLeastSquares sort (colamdOfStructure cast) : LeastSquares F) fuel) ord opts = .error .outOfFuel := by
  rcases C53_recursive_no_panic_partial h hn hord hplan (E := True)
    (optimize := crateOptimize (qrLeastSquares sort (colamdOfStructure cast) : LeastSquares F) fuel) (by
    intro p pattern x hp hm hnv hpat hx
    rcases lm_any (fuel := fuel) hp (qrColamd_sturdy cast hsort)
      (h.fits_steps hshort hL p.numResiduals p.numVariables (pattern.length + p.numVariables) hm hnv (by omega)) hx with h1 | h1
    · exact .inl h1
    · exact .inr ⟨trivial, h1⟩) hd with h1 | h1
  · exact .inl h1
  · exact .inr h1.2

/-! Case: the two distances between three points at the end of `SolveRecursive`. -/

/-! ## `analyze` -/

theorem subtractRow_any {n t s : Nat} {m : List F} (ht : (t + 1) * n ≤ m.length) (hs : (s + 1) * n ≤ m.length) (a : F) :
    ∃ m', subtractRow n t s a m = .ok m' ∧ m'.length = m.length :=
  foldlM_ok (fun m' : List F => m'.length = m.length) _ (List.range n) m rfl (fun m' col hcol hm' => by
    have h1 := flat_lt (List.mem_range.1 hcol) ht
    have h2 := flat_lt (List.mem_range.1 hcol) hs
    obtain ⟨x, hx⟩ := idx_any (l := m') (i := t * n + col) (by omega)
    obtain ⟨y, hy⟩ := idx_any (l := m') (i := s * n + col) (by omega)
    exact ⟨_, by rw [hx, ok_bind, hy, ok_bind, setIdx_of _ (by omega)], by simpa using hm'⟩)

theorem scaleRow_any {n t : Nat} {m : List F} (ht : (t + 1) * n ≤ m.length) (a : F) :
    ∃ m', scaleRow n t a m = .ok m' ∧ m'.length = m.length :=
  foldlM_ok (fun m' : List F => m'.length = m.length) _ (List.range n) m rfl (fun m' col hcol hm' => by
    have h1 := flat_lt (List.mem_range.1 hcol) ht
    obtain ⟨x, hx⟩ := idx_any (l := m') (i := t * n + col) (by omega)
    exact ⟨_, by rw [hx, ok_bind, setIdx_of _ (by omega)], by simpa using hm'⟩)

theorem findPivot_any {eps : F} {n row : Nat} {m : List F} (hm : (row + 1) * n ≤ m.length) {columns : List Nat} (hc : ColumnsOk n columns) :
    ∀ (k i : Nat), i + k = n → ∃ o, findPivot eps n row columns m k i = .ok o ∧ ∀ j, o = some j → i ≤ j ∧ j < n := by
  intro k
  induction k with
  | zero => intro i hi; exact ⟨none, rfl, by simp⟩
  | succ k ih =>
    intro i hi
    obtain ⟨h1, h2⟩ := hc.idx (j := i) (by omega)
    obtain ⟨x, hx⟩ := idx_any (flat_lt h2 hm)
    rw [findPivot, h1, ok_bind, hx, ok_bind]
    split
    · exact ⟨some i, rfl, fun j hj => by cases hj; omega⟩
    · obtain ⟨o, h4, h5⟩ := ih (i + 1) (by omega)
      exact ⟨o, h4, fun j hj => by have := h5 j hj; omega⟩

/-- The sizes before a row. -/
structure GaussState.Sized (nr n row : Nat) (st : GaussState F) : Prop where
  matrix : st.matrix.length = nr * n
  columns : ColumnsOk n st.columns
  increases : st.increases.length = nr
  current : st.current ≤ row

theorem gaussRow_any {eps : F} {nr n row : Nat} {st : GaussState F} (h : st.Sized nr n row) (hr : row < nr) (hn : row < n) :
    ∃ st', gaussRow eps n st row = .ok st' ∧ st'.Sized nr n (row + 1) := by
  have hrow : ∀ t, t < nr → (t + 1) * n ≤ nr * n := fun t ht => Nat.mul_le_mul_right n ht
  obtain ⟨⟨m, k⟩, h1, h2, -⟩ := foldlM_range (fun i (s : List F × Nat) => s.1.length = nr * n ∧ s.2 ≤ i) (eliminate n row st.columns st.increases) row
    (st.matrix, 0) ⟨h.matrix, le_rfl⟩ (by
    rintro t ht ⟨m, k⟩ ⟨e1, e2⟩
    simp only at e1 e2
    obtain ⟨c1, c2⟩ := h.columns.idx (j := k) (by omega)
    obtain ⟨f, hf⟩ := idx_any (flat_lt c2 (by rw [e1]; exact hrow row hr : (row + 1) * n ≤ m.length))
    obtain ⟨m', g1, g2⟩ := subtractRow_any (m := m) (n := n) (t := row) (s := t) (by rw [e1]; exact hrow row hr) (by rw [e1]; exact hrow t (by omega)) f
    obtain ⟨b, hb⟩ := idx_any (l := st.increases) (i := t) (by rw [h.increases]; omega)
    refine ⟨_, by rw [eliminate]; simp only; rw [c1, ok_bind, hf, ok_bind, g1, ok_bind, hb, ok_bind]; rfl, by rw [g2]; exact e1, ?_⟩
    simp only
    split <;> omega)
  simp only at h2
  have hcur := h.current
  obtain ⟨o, h3, h4⟩ := findPivot_any (eps := eps) (m := m) (row := row) (by rw [h2]; exact hrow row hr) h.columns (n - st.current) st.current (by omega)
  rw [gaussRow, h1, ok_bind]
  simp only
  rw [h3, ok_bind]
  cases o with
  | none => exact ⟨_, rfl, h2, h.columns, h.increases, by simp only; omega⟩
  | some i =>
    obtain ⟨h5, h6⟩ := h4 i rfl
    obtain ⟨columns, h7, h8, -⟩ := h.columns.swap h5 h6
    obtain ⟨c1, c2⟩ := h8.idx (j := st.current) (by omega)
    obtain ⟨f, hf⟩ := idx_any (flat_lt c2 (by rw [h2]; exact hrow row hr : (row + 1) * n ≤ m.length))
    obtain ⟨m1, g1, g2⟩ := scaleRow_any (m := m) (n := n) (t := row) (by rw [h2]; exact hrow row hr) f
    obtain ⟨m2, g3, g4⟩ := foldlM_ok (fun m' : List F => m'.length = nr * n) (backSubstitute n row (colAt columns st.current)) (List.range row) m1 (g2.trans h2) (by
      intro m' t ht hm'
      have ht := List.mem_range.1 ht
      obtain ⟨x, hx⟩ := idx_any (flat_lt c2 (by rw [hm']; exact hrow t (by omega) : (t + 1) * n ≤ m'.length))
      obtain ⟨m'', e1, e2⟩ := subtractRow_any (m := m') (n := n) (t := t) (s := row) (by rw [hm']; exact hrow t (by omega)) (by rw [hm']; exact hrow row hr) x
      exact ⟨m'', by rw [backSubstitute, hx, ok_bind, e1], e2.trans hm'⟩)
    simp only
    rw [h7, ok_bind, c1, ok_bind, hf, ok_bind, g1, ok_bind, g3, ok_bind, setIdx_of _ (by rw [h.increases]; exact hr), ok_bind]
    exact ⟨_, rfl, g4, h8, by simpa using h.increases, by simp only; omega⟩

theorem gaussJordan_any {eps : F} {nr n : Nat} {A : List F} (hA : A.length = nr * n) {columns : List Nat} (hc : ColumnsOk n columns) :
    ∃ st, gaussJordan eps A nr n columns = .ok st ∧ st.increases.length = nr := by
  obtain ⟨st, h1, h2⟩ := foldlM_range (fun row (st : GaussState F) => st.Sized nr n row) (gaussRow eps n) (min nr n)
    ⟨A, columns, 0, List.replicate nr false⟩ ⟨hA, hc, by simp, le_rfl⟩ (fun row hrow st hst => gaussRow_any hst (by omega) (by omega))
  exact ⟨st, h1, h2.increases⟩

/-- C30, in any arithmetic: on every system that can be built the analysis does not panic, whatever the numbers are, and it returns the handles of
the constraints owning certain expressions, in the order of the expressions. -/
theorem C30_analyze_any_numbers {counter : Nat} {ops : List (Op F)} {c : Client F} (h : Reaches counter ops c) :
    ∃ l flagged, c.sys.analyze = .ok l ∧ flagged.Pairwise (· < ·) ∧ (∀ i ∈ flagged, i < c.sys.expressions.length) ∧
      List.Forall₂ (HandleOfExpression c.sys) flagged l := by
  have hlen : c.sys.whole.freeVariables.length = c.sys.vars.length := by simp [System.whole]
  have hlen' : c.sys.whole.expressions.length = c.sys.expressions.length := by simp [System.whole]
  obtain ⟨rs, jac, h1, h2, h3, -⟩ := dense_fold (sub := c.sys.whole) (u := c.sys.vars) rfl c.sys.whole.expressions 0
    (List.replicate c.sys.expressions.length 0) (List.replicate (c.sys.expressions.length * c.sys.vars.length) 0)
    (fun id hid => by
      obtain ⟨e, he, hv⟩ := h.wholeOk id hid
      obtain ⟨rg, -, h, -⟩ := rowData_total (by rw [hlen]) he hv
      exact ⟨_, h, slotsLt_of _ _⟩) (by simp [hlen']) (by simp [hlen, hlen'])
  have h3 : jac.length = c.sys.expressions.length * c.sys.vars.length := by simpa using h3
  obtain ⟨st, h4, h5⟩ := gaussJordan_any (eps := FloatOps.ofNat 1 / FloatOps.ofNat (10 ^ 8)) h3 (columns := List.range c.sys.vars.length)
    ⟨by simp, by simp, by simp, List.nodup_range⟩
  obtain ⟨l, h6, h7⟩ := mapM_forall₂ (f := fun p : Bool × Nat => c.sys.overconstraint p.2)
    (Q := fun p hd => HandleOfExpression c.sys p.2 hd) (st.increases.zipIdx.filter (fun p => !p.1)) (by
      rintro ⟨b, i⟩ hp
      have := (List.mem_zipIdx' (List.mem_filter.1 hp).1).1
      rw [h5] at this
      exact h.overconstraint this)
  refine ⟨l, falseFlags st.increases, ?_, falseFlags_sorted _, fun i hi => by rw [← h5]; exact lt_of_getElem? (mem_falseFlags.1 hi), ?_⟩
  · rw [System.analyze, System.findOverconstraints]
    simp only
    rw [c.sys.whole_jacobian, Subsystem.denseJacobian]
    simp only
    rw [h1, ok_bind]
    simp only
    rw [h4, ok_bind, h6]
  · rw [falseFlags, List.forall₂_map_left_iff]
    exact h7

/-- Case: an undefined distance between points one of which is undefined; the two coordinates of a coincidence are two expressions. -/
example : ∃ (c : Client NanInt) (l : List AnyConstraintHandle), Reaches 0 [.createPoint .nan 0, .createPoint (.numb 3) 1, .createCon (.pointPointDistance 0 1 .nan),
    .createCon (.pointPointCoincidence 0 1)] c ∧ c.sys.analyze = .ok l := by
  obtain ⟨c, hc⟩ : ∃ (c : Client NanInt), Reaches 0 [.createPoint .nan 0, .createPoint (.numb 3) 1, .createCon (.pointPointDistance 0 1 .nan),
      .createCon (.pointPointCoincidence 0 1)] c := by
    apply exists_reaches
    · simp [Store.LegalRun, Store.Legal, Store.empty, Store.step, Store.IsPoint, Store.ConOk]
    · simp
  obtain ⟨l, -, hl, -⟩ := C30_analyze_any_numbers hc
  exact ⟨c, l, hc, hl⟩

end Fiksi
