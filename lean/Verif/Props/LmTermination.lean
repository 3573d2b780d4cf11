import Verif.Props.Lm
import Mathlib.Algebra.BigOperators.Group.Finset.Basic
import Mathlib.Algebra.Order.BigOperators.Group.Finset
import Mathlib.Tactic.Positivity
/-!
# C52: Levenberg–Marquardt ends (exact arithmetic, exact linear solver)
-/
namespace Fiksi

set_option linter.unusedSectionVars false
variable {F : Type} [Add F] [Sub F] [Mul F] [Div F] [Neg F] [Zero F] [One F] [FloatOps F]
open FloatOps
open Spec (entrySum)

/-! ## Specification -/

/-- `δ` solves the normal equations of the damped least-squares problem: `(JᵀJ + μ² I) δ = Jᵀ b`. -/
def Spec.IsDampedLeastSquares (J : Nat → Nat → ℝ) (m n : Nat) (μ : ℝ) (b δ : List ℝ) : Prop :=
  δ.length = n ∧ ∀ c < n, (∑ r ∈ Finset.range m, J r c * ((∑ c' ∈ Finset.range n, J r c' * δ.getD c' 0) - b.getD r 0)) +
    μ ^ 2 * δ.getD c 0 = 0

/-- Triplets of an `m × n` matrix followed by the entries for the damping. -/
def Spec.Augmented (m n : Nat) (ts : List (Nat × Nat × F)) : Prop :=
  ∃ top : List (Nat × Nat × F), (∀ t ∈ top, t.1 < m ∧ t.2.1 < n) ∧
    ts = top ++ (List.range n).map (fun i => (m + i, i, (0 : F)))

/-- The positions of triplets. -/
def Spec.positions (ts : List (Nat × Nat × F)) : List (Nat × Nat) := ts.map (fun t => (t.1, t.2.1))

open Spec

/-- A linear solver that does not panic and returns exact solutions, for matrices with the positions it was built for, if `S` holds for the number
of rows and columns (without the damping) and the number of triplets. -/
def LeastSquares.Exact (S : Nat → Nat → Nat → Prop) (ls : LeastSquares ℝ) : Prop :=
  ∀ m n ts₀, Augmented m n ts₀ → S m n ts₀.length → ∃ sym, ls.build m n ts₀ = .ok sym ∧
    ∀ ts μ b, Augmented m n ts → positions ts = positions ts₀ → 0 < μ → b.length = m →
      ∃ b', ls.solve sym m n ts μ (b ++ List.replicate n 0) = .ok (some b') ∧ IsDampedLeastSquares (entrySum ts) m n μ b (b'.take n)

/-- A problem that does not panic, computes the same residuals with and without the Jacobian, and whose Jacobian has the same
positions everywhere. -/
structure Problem.Total (p : Problem F) (pattern : List (Nat × Nat)) : Prop where
  residuals : ∀ x, x.length = p.numVariables → ∃ r, p.residuals x = .ok r ∧ r.length = p.numResiduals
  sparse : ∀ x rs, x.length = p.numVariables → rs.length = p.numResiduals → ∃ r ts, p.sparseJacobian x rs [] = .ok (r, ts) ∧
    p.residuals x = .ok r ∧ positions ts = pattern ∧ ∀ t ∈ ts, t.1 < p.numResiduals ∧ t.2.1 < p.numVariables

/-! ## The step is bounded by the residual and the damping -/

theorem sum_map_getD (l : List ℝ) (f : ℝ → ℝ) : (l.map f).sum = ∑ i ∈ Finset.range l.length, f (l.getD i 0) := by
  induction l with
  | nil => simp
  | cons a l ih =>
    rw [List.map_cons, List.sum_cons, List.length_cons, Finset.sum_range_succ', ih]
    simp [add_comm]

theorem damped_bound {J : Nat → Nat → ℝ} {m n : Nat} {μ : ℝ} {b δ : List ℝ} (hb : b.length = m)
    (h : IsDampedLeastSquares J m n μ b δ) : 4 * μ ^ 2 * normSquared δ ≤ normSquared b := by
  obtain ⟨h1, h2⟩ := h
  rw [normSquared_real, normSquared_real, sum_map_getD, sum_map_getD, h1, hb]
  set w : Nat → ℝ := fun r => ∑ c' ∈ Finset.range n, J r c' * δ.getD c' 0 with hw
  have h3 : ∑ c ∈ Finset.range n, δ.getD c 0 * ((∑ r ∈ Finset.range m, J r c * (w r - b.getD r 0)) + μ ^ 2 * δ.getD c 0) = 0 :=
    Finset.sum_eq_zero (fun c hc => by rw [h2 c (Finset.mem_range.1 hc), mul_zero])
  have h4 : ∑ c ∈ Finset.range n, δ.getD c 0 * ∑ r ∈ Finset.range m, J r c * (w r - b.getD r 0) =
      ∑ r ∈ Finset.range m, w r * (w r - b.getD r 0) := by
    simp only [Finset.mul_sum]
    rw [Finset.sum_comm]
    refine Finset.sum_congr rfl (fun r _ => ?_)
    rw [hw, Finset.sum_mul]
    refine Finset.sum_congr rfl (fun c _ => by ring)
  have h5 : ∑ c ∈ Finset.range n, δ.getD c 0 * ((∑ r ∈ Finset.range m, J r c * (w r - b.getD r 0)) + μ ^ 2 * δ.getD c 0) =
      ∑ r ∈ Finset.range m, w r * (w r - b.getD r 0) + μ ^ 2 * ∑ c ∈ Finset.range n, δ.getD c 0 * δ.getD c 0 := by
    rw [← h4, Finset.mul_sum, ← Finset.sum_add_distrib]
    refine Finset.sum_congr rfl (fun c _ => by ring)
  rw [h5] at h3
  have h6 : ∑ r ∈ Finset.range m, w r * (w r - b.getD r 0) ≥ ∑ r ∈ Finset.range m, -(b.getD r 0 * b.getD r 0 / 4) :=
    Finset.sum_le_sum (fun r _ => by nlinarith [sq_nonneg (2 * w r - b.getD r 0)])
  have h7 : ∑ r ∈ Finset.range m, -(b.getD r 0 * b.getD r 0 / 4) = -(∑ r ∈ Finset.range m, b.getD r 0 * b.getD r 0) / 4 := by
    rw [Finset.sum_neg_distrib, neg_div, Finset.sum_div]
  rw [h7] at h6
  linarith

/-! ## The loops -/

/-- What holds whenever the inner loop starts. -/
structure LmState.Ready (p : Problem ℝ) (pattern : List (Nat × Nat)) (st : LmState ℝ) : Prop where
  vars : st.vars.length = p.numVariables
  scratch : st.scratch.length = p.numVariables
  residuals : st.residuals.length = p.numResiduals
  ssr : normSquared st.residuals = st.ssr
  augmented : Augmented p.numResiduals p.numVariables st.triplets
  positions : positions st.triplets = pattern ++ (List.range p.numVariables).map (fun i => (p.numResiduals + i, i))
  lambda : (10 ^ 50 : ℝ)⁻¹ ≤ st.lambda

theorem ratio_one (k : Nat) : (ratio 1 (10 ^ k) : ℝ) = (10 ^ k)⁻¹ := by
  simp [ratio, ofNat]

theorem lmJacobian_any {p : Problem F} {pattern : List (Nat × Nat)} (hp : p.Total pattern) {x rs : List F}
    (hx : x.length = p.numVariables) (hrs : rs.length = p.numResiduals) :
    ∃ rt, lmJacobian p x rs = .ok rt ∧ rt.1.length = p.numResiduals ∧ (∃ r, p.residuals x = .ok r ∧ rt.1 = r.map (fun r => -r)) ∧
      Augmented p.numResiduals p.numVariables rt.2 ∧
      positions rt.2 = pattern ++ (List.range p.numVariables).map (fun i => (p.numResiduals + i, i)) := by
  obtain ⟨r, ts, h1, h2, h3, h4⟩ := hp.sparse x rs hx hrs
  obtain ⟨r', h5, h6⟩ := hp.residuals x hx
  rw [h2, Except.ok.injEq] at h5
  subst h5
  refine ⟨_, by rw [lmJacobian, h1, ok_bind]; rfl, by simpa using h6, ⟨r, h2, rfl⟩,
    ⟨ts, h4, rfl⟩, ?_⟩
  simp only [positions, List.map_append, List.map_map] at h3 ⊢
  rw [h3]
  rfl

theorem lmJacobian_ok {p : Problem ℝ} {pattern : List (Nat × Nat)} (hp : p.Total pattern) {x rs : List ℝ}
    (hx : x.length = p.numVariables) (hrs : rs.length = p.numResiduals) :
    ∃ rt, lmJacobian p x rs = .ok rt ∧ rt.1.length = p.numResiduals ∧ (∃ r, p.residuals x = .ok r ∧ normSquared rt.1 = normSquared r) ∧
      Augmented p.numResiduals p.numVariables rt.2 ∧
      positions rt.2 = pattern ++ (List.range p.numVariables).map (fun i => (p.numResiduals + i, i)) := by
  obtain ⟨rt, h1, h2, ⟨r, h3, h4⟩, h5⟩ := lmJacobian_any hp hx hrs
  exact ⟨rt, h1, h2, ⟨r, h3, by rw [h4]; exact normSquared_neg (fun x => neg_mul_neg x x) r⟩, h5⟩

theorem lmTrial_ok {n : Nat} {vars delta : List F} (hv : vars.length = n) (hd : delta.length = n) (scratch : List F)
    (hs : scratch.length = n) : ∃ s, (List.range n).foldlM (lmTrial vars delta) scratch = .ok s ∧ s.length = n :=
  foldlM_ok (fun (s : List F) => s.length = n) (lmTrial vars delta) (List.range n) scratch hs (fun s i hi hl => by
    rw [List.mem_range] at hi
    refine ⟨_, by rw [lmTrial, idx_getD (by omega), ok_bind, idx_getD (by omega), ok_bind, setIdx_of _ (by omega)], by simpa using hl⟩)

theorem lmRelax_ge (lambda : ℝ) : (10 ^ 50 : ℝ)⁻¹ ≤ lmRelax lambda := by
  rw [lmRelax]
  simp only [ratio_one]
  split
  · exact le_refl _
  · rename_i h
    simpa [ltB] using h

theorem pow50_pos : (0 : ℝ) < (10 ^ 50 : ℝ)⁻¹ := by positivity

theorem lmInner_ends {p : Problem ℝ} {pattern : List (Nat × Nat)} (hp : p.Total pattern) {ls : LeastSquares ℝ} {sym : ls.Symbolic}
    (hsym : ∀ ts μ b, Augmented p.numResiduals p.numVariables ts →
      positions ts = pattern ++ (List.range p.numVariables).map (fun i => (p.numResiduals + i, i)) → 0 < μ → b.length = p.numResiduals →
      ∃ b', ls.solve sym p.numResiduals p.numVariables ts μ (b ++ List.replicate p.numVariables 0) = .ok (some b') ∧
        IsDampedLeastSquares (entrySum ts) p.numResiduals p.numVariables μ b (b'.take p.numVariables)) :
    ∀ (fuel : Nat) (st : LmState ℝ), st.Ready p pattern → st.ssr * 10 ^ 12 < 4 * st.lambda * 2 ^ fuel →
      ∃ stop st', lmInner p ls sym (fuel + 1) st = .ok (stop, st') ∧ (stop = false → st'.Ready p pattern ∧ st'.ssr ≤ st.ssr) := by
  intro fuel
  induction fuel using Nat.strong_induction_on with
  | h fuel ih =>
    intro st hst hf
    have hlam : 0 < st.lambda := lt_of_lt_of_le pow50_pos hst.lambda
    obtain ⟨b', h1, h2⟩ := hsym st.triplets (Real.sqrt st.lambda) st.residuals hst.augmented hst.positions (Real.sqrt_pos.2 hlam)
      hst.residuals
    have h3 := damped_bound hst.residuals h2
    rw [Real.sq_sqrt hlam.le, hst.ssr] at h3
    rw [lmInner]
    simp only [sqrt, h1, ok_bind]
    by_cases h4 : ltB (normSquared (b'.take p.numVariables)) (ratio 1 (10 ^ 12)) = true
    · rw [if_pos h4]
      exact ⟨true, st, rfl, by simp⟩
    rw [if_neg h4]
    simp only [ltB, decide_eq_true_eq, ratio_one, not_lt] at h4
    have h5 : 4 * st.lambda ≤ st.ssr * 10 ^ 12 := by
      have : 4 * st.lambda * (10 ^ 12)⁻¹ ≤ st.ssr := le_trans (mul_le_mul_of_nonneg_left h4 (by linarith)) h3
      rw [← div_eq_mul_inv, div_le_iff₀ (by positivity)] at this
      exact this
    obtain ⟨f', rfl⟩ : ∃ f', fuel = f' + 1 := by
      cases fuel with
      | zero => exfalso; rw [pow_zero, mul_one] at hf; linarith
      | succ f' => exact ⟨f', rfl⟩
    obtain ⟨scratch, h6, h7⟩ := lmTrial_ok hst.vars h2.1 st.scratch hst.scratch
    obtain ⟨r, h8, h9⟩ := hp.residuals scratch h7
    rw [h6, ok_bind, h8, ok_bind]
    by_cases h10 : ltB (normSquared r) st.ssr = true
    · rw [if_pos h10, lmAccept]
      simp only
      split
      · exact ⟨true, _, rfl, by simp⟩
      · obtain ⟨rt, q1, q2, ⟨r', q3, q4⟩, q5, q6⟩ := lmJacobian_ok hp h7 hst.residuals
        rw [h8, Except.ok.injEq] at q3
        subst q3
        rw [q1, ok_bind]
        refine ⟨false, _, rfl, fun _ => ⟨⟨h7, h7, q2, q4, q5, q6, lmRelax_ge _⟩, ?_⟩⟩
        simp only [ltB, decide_eq_true_eq] at h10
        exact h10.le
    · rw [if_neg h10]
      refine ih f' (by omega) { st with scratch := scratch, lambda := st.lambda * ofNat 2 }
        ⟨hst.vars, h7, hst.residuals, hst.ssr, hst.augmented, hst.positions, ?_⟩ ?_
      · show _ ≤ st.lambda * ((2 : ℕ) : ℝ)
        have := hst.lambda
        push_cast
        linarith
      · show st.ssr * 10 ^ 12 < 4 * (st.lambda * ((2 : ℕ) : ℝ)) * 2 ^ f'
        push_cast
        calc _ < _ := hf
          _ = _ := by ring

theorem lmOuter_ends {p : Problem ℝ} {pattern : List (Nat × Nat)} (hp : p.Total pattern) {ls : LeastSquares ℝ} {sym : ls.Symbolic}
    (hsym : ∀ ts μ b, Augmented p.numResiduals p.numVariables ts →
      positions ts = pattern ++ (List.range p.numVariables).map (fun i => (p.numResiduals + i, i)) → 0 < μ → b.length = p.numResiduals →
      ∃ b', ls.solve sym p.numResiduals p.numVariables ts μ (b ++ List.replicate p.numVariables 0) = .ok (some b') ∧
        IsDampedLeastSquares (entrySum ts) p.numResiduals p.numVariables μ b (b'.take p.numVariables)) {fuel : Nat} :
    ∀ (n : Nat) (st : LmState ℝ), st.Ready p pattern → st.ssr * 10 ^ 62 < 4 * 2 ^ fuel →
      ∃ st', lmOuter p ls sym (fuel + 1) n st = .ok st' := by
  intro n
  induction n with
  | zero => intro st _ _; exact ⟨st, rfl⟩
  | succ n ih =>
    intro st hst hf
    rw [lmOuter]
    split
    · exact ⟨st, rfl⟩
    · have hf' : st.ssr * 10 ^ 12 < 4 * st.lambda * 2 ^ fuel := by
        have h1 : st.ssr * 10 ^ 12 < (10 ^ 50 : ℝ)⁻¹ * (4 * 2 ^ fuel) := by
          rw [inv_mul_eq_div, lt_div_iff₀ (by positivity)]
          calc st.ssr * 10 ^ 12 * 10 ^ 50 = st.ssr * 10 ^ 62 := by ring
            _ < _ := hf
        have h2 : (10 ^ 50 : ℝ)⁻¹ * (4 * 2 ^ fuel) ≤ st.lambda * (4 * 2 ^ fuel) :=
          mul_le_mul_of_nonneg_right hst.lambda (by positivity)
        calc _ < _ := h1
          _ ≤ _ := h2
          _ = _ := by ring
      obtain ⟨stop, st', h1, h2⟩ := lmInner_ends hp hsym fuel st hst hf'
      rw [h1, ok_bind]
      simp only
      split
      · exact ⟨st', rfl⟩
      · rename_i hs
        obtain ⟨h3, h4⟩ := h2 (by simpa using hs)
        exact ih st' h3 (lt_of_le_of_lt (mul_le_mul_of_nonneg_right h4 (by positivity)) hf)

theorem lmJacobian_size {ts : List (Nat × Nat × F)} {m n : Nat} {pattern : List (Nat × Nat)}
    (h : positions ts = pattern ++ (List.range n).map (fun i => (m + i, i))) : pattern.length + n = ts.length := by
  have := congrArg List.length h
  simpa [positions] using this.symm

/-- C52: in exact arithmetic and with an exact linear solver, the Levenberg–Marquardt optimiser returns, for every problem and start;
each search for a damping factor takes at most `f + 1` rounds if the sum of squared residuals at the start is below `4·2^f / 10^62`. -/
theorem C52_returns_partial {p : Problem ℝ} {pattern : List (Nat × Nat)} (hp : p.Total pattern) {S : Nat → Nat → Nat → Prop} {ls : LeastSquares ℝ}
    (hls : ls.Exact S) (hS : S p.numResiduals p.numVariables (pattern.length + p.numVariables))
    {x r : List ℝ} (hx : x.length = p.numVariables) (hr : p.residuals x = .ok r) {f : Nat}
    (hf : (r.map (fun v => v * v)).sum * 10 ^ 62 < 4 * 2 ^ f) : ∃ st, lmRun p ls (f + 1) x = .ok st := by
  obtain ⟨rt, q1, q2, ⟨r', q3, q4⟩, q5, q6⟩ := lmJacobian_ok hp hx (rs := List.replicate p.numResiduals 0) (by simp)
  rw [hr, Except.ok.injEq] at q3
  subst q3
  obtain ⟨sym, h1, h2⟩ := hls p.numResiduals p.numVariables rt.2 q5 (lmJacobian_size q6 ▸ hS)
  rw [lmRun, lmStart, q1, ok_bind, h1, ok_bind]
  refine lmOuter_ends hp (sym := sym) (fun ts μ b a1 a2 a3 a4 => h2 ts μ b a1 (a2.trans q6.symm) a3 a4) 100 _
    ⟨hx, hx, q2, rfl, q5, q6, ?_⟩ ?_
  · show _ ≤ ratio 5 10
    norm_num [ratio, ofNat]
  · show normSquared rt.1 * 10 ^ 62 < _
    rw [q4, normSquared_real]
    exact hf

/-! ## The subproblems of `solve` are total -/

/-- The positions pushed for one expression. -/
def Subsystem.rowPattern (sub : Subsystem F) (ik : Nat × Nat) : List (Nat × Nat) :=
  match sub.allExpressions[ik.1]? with
  | none => []
  | some e => e.variableIndices.filterMap (fun v => (sub.freeVariables.idxOf? v).map (fun c => (ik.2, c)))

theorem compute_length {e : Expr F} {h : Nat → F} {rg : F × List F}
    (hrg : e.computeResidualAndGradient (e.variableIndices.map h) = .ok rg) : rg.2.length = e.variableIndices.length := by
  cases e <;> cases hrg
  case lineCircleTangency => unfold lctResGrad; dsimp only; split <;> rfl
  all_goals rfl

theorem pushRow_positions (sub : Subsystem F) (u : List F) (k : Nat) : ∀ (is : List Nat) (gs : List F), gs.length = is.length →
    positions (pushRow k ((is.map (sub.varOf u)).zip gs)) =
      is.filterMap (fun v => (sub.freeVariables.idxOf? v).map (fun c => (k, c))) := by
  intro is
  induction is with
  | nil => intro gs _; rfl
  | cons i is ih =>
    intro gs hg
    cases gs with
    | nil => cases hg
    | cons g gs =>
      have ih := ih gs (by simpa using hg)
      rw [List.map_cons, List.zip_cons_cons, Subsystem.varOf]
      cases hk : sub.freeVariables.idxOf? i with
      | none => rw [List.filterMap_cons_none (by simp [hk])]; exact ih
      | some c =>
        rw [List.filterMap_cons_some (b := (k, c)) (by simp [hk])]
        exact congrArg _ ih

theorem sparse_positions {sub : Subsystem F} {u : List F} (hu : u.length = sub.freeVariables.length) :
    ∀ (ids : List Nat) (k : Nat) (rs : List F) (ts : List (Nat × Nat × F)),
    (∀ id ∈ ids, ∃ e, sub.allExpressions[id]? = some e ∧ ∀ v ∈ e.variableIndices, v < sub.systemVariables.length) →
    k + ids.length ≤ rs.length →
    ∃ rs' ts', (ids.zipIdx k).foldlM (sub.sparseRow u) (rs, ts) = .ok (rs', ts') ∧
      positions ts' = positions ts ++ (ids.zipIdx k).flatMap sub.rowPattern := by
  intro ids
  induction ids with
  | nil => intro k rs ts _ _; exact ⟨rs, ts, rfl, by simp⟩
  | cons id ids ih =>
    intro k rs ts hd hlen
    rw [List.length_cons] at hlen
    obtain ⟨e, he, hv⟩ := hd id (List.mem_cons_self ..)
    obtain ⟨rg, h1, h2, -⟩ := rowData_total hu he hv
    obtain ⟨rs', ts', h3, h4⟩ := ih (k + 1) (rs.set k rg.1) (ts ++ pushRow k ((e.variableIndices.map (sub.varOf u)).zip rg.2))
      (fun i hi => hd i (List.mem_cons_of_mem _ hi)) (by simp; omega)
    refine ⟨rs', ts', ?_, ?_⟩
    · rw [List.zipIdx_cons, List.foldlM_cons, sparseRow_of h2 ts (by omega), ok_bind, h3]
    · rw [h4, List.zipIdx_cons, List.flatMap_cons, ← List.append_assoc]
      congr 1
      simp only [positions, List.map_append]
      congr 1
      have := pushRow_positions sub u k e.variableIndices rg.2 (compute_length h1)
      rw [positions] at this
      rw [this, Subsystem.rowPattern, he]

/-- The positions of the sparse Jacobian of a subproblem; they do not depend on the values. -/
def Subsystem.pattern (sub : Subsystem F) : List (Nat × Nat) := sub.expressions.zipIdx.flatMap sub.rowPattern

theorem Subsystem.pattern_lt (sub : Subsystem F) : ∀ rc ∈ sub.pattern, rc.1 < sub.expressions.length ∧ rc.2 < sub.freeVariables.length := by
  intro rc hrc
  rw [pattern, List.mem_flatMap] at hrc
  obtain ⟨⟨id, k⟩, h1, h2⟩ := hrc
  rw [rowPattern] at h2
  split at h2
  · cases h2
  · rw [List.mem_filterMap] at h2
    obtain ⟨v, -, h3⟩ := h2
    rw [Option.map_eq_some_iff] at h3
    obtain ⟨c, h4, rfl⟩ := h3
    rw [List.idxOf?_eq_some_iff] at h4
    rw [List.mem_zipIdx_iff_getElem?] at h1
    exact ⟨(List.getElem?_eq_some_iff.1 h1).1, h4.1⟩

/-- The numerical subproblems of `Decomposer::None` and `SinglePass` are total. -/
theorem Subsystem.Ok.total {sub : Subsystem F} (hok : sub.Ok) : sub.problem.Total sub.pattern where
  residuals := fun x hx => by
    obtain ⟨rs, h1, h2, -⟩ := residuals_total hok hx
    exact ⟨rs, h1, h2⟩
  sparse := fun x rs hx hrs => by
    have hrs : rs.length = sub.expressions.length := hrs
    obtain ⟨rs', ts, h1, h2⟩ := sparse_positions hx sub.expressions 0 rs [] hok (by simpa using hrs.ge)
    obtain ⟨l, h3, h4⟩ := sparse_residuals sub.expressions 0 rs [] rs' ts (by simpa using hrs) h1
    refine ⟨rs', ts, h1, ?_, by simpa [positions, Subsystem.pattern] using h2, fun t ht => ?_⟩
    · rw [h4]
      exact h3
    · refine sub.pattern_lt (t.1, t.2.1) ?_
      have : positions ts = sub.pattern := by simpa [positions, Subsystem.pattern] using h2
      rw [← this]
      exact List.mem_map.2 ⟨t, ht, rfl⟩

end Fiksi
