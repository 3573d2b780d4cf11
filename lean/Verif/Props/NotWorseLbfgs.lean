import Verif.Props.NotWorse
import Verif.Props.LbfgsWorse
import Verif.Props.LbfgsReturns
import Verif.Proofs.ObjectiveMap
/-!
# Solving with L-BFGS does not make coincidences worse (property C81)

The residuals of coincidences are linear, and for linear residuals L-BFGS does not increase the sum of the squares (`C68_linear_partial`).
-/
open scoped Matrix
namespace Fiksi
open Spec Matrix

/-- The coefficient of a free variable in the value of variable `v`. -/
noncomputable def Subsystem.coefficient (sub : Subsystem ℝ) (v : Nat) (k : Nat) : ℝ := if sub.freeVariables.idxOf? v = some k then 1 else 0

/-- The part of the value of variable `v` that the free variables do not change. -/
noncomputable def Subsystem.offset (sub : Subsystem ℝ) (v : Nat) : ℝ := match sub.freeVariables.idxOf? v with
  | some _ => 0
  | none => sub.systemVariables.getD v 0

theorem Subsystem.valueOf_affine (sub : Subsystem ℝ) (x : List ℝ) (v : Nat) :
    sub.valueOf x v = ∑ k : Fin sub.freeVariables.length, sub.coefficient v k * x.getD k 0 + sub.offset v := by
  unfold valueOf coefficient offset
  cases hk : sub.freeVariables.idxOf? v with
  | none => simp
  | some k =>
    obtain ⟨hlt, -, -⟩ := List.idxOf?_eq_some_iff.1 hk
    rw [Finset.sum_eq_single ⟨k, hlt⟩]
    · simp
    · intro b _ hb
      rw [if_neg, zero_mul]
      intro hc
      exact hb (Fin.ext (Option.some.inj hc).symm)
    · simp

theorem Subsystem.valueOf_set (sub : Subsystem ℝ) {x : List ℝ} (hx : x.length = sub.freeVariables.length) (v : Nat) {k : Nat} (hk : k < sub.freeVariables.length) (s : ℝ) :
    sub.valueOf (x.set k s) v = sub.valueOf x v + sub.coefficient v k * (s - x.getD k 0) := by
  unfold valueOf coefficient
  cases hv : sub.freeVariables.idxOf? v with
  | none => simp
  | some j =>
    simp only [Option.some.injEq, List.getD_eq_getElem?_getD, List.getElem?_set]
    by_cases h : j = k
    · subst h
      simp [hx, hk]
    · simp [h, Ne.symm h]

/-- A subproblem all of whose equations are equalities of distinct variables, as L-BFGS sees it: linear least squares. -/
theorem Subsystem.Ok.equalities_linear {sub : Subsystem ℝ} (hok : sub.Ok)
    (heq : ∀ id ∈ sub.expressions, ∀ e, sub.allExpressions[id]? = some e → ∃ a b, a ≠ b ∧ e = .variableVariableEquality a b) :
    ∃ (A : Matrix (Fin sub.expressions.length) (Fin sub.problem.numVariables) ℝ) (b : Fin sub.expressions.length → ℝ), sub.problem.Evaluates (Objective.linear A b) := by
  obtain ⟨Q, h1, h2, h3, -⟩ := hok.fitting_rows
  have hm : sub.expressions.length = Q.m := h1.rows
  have hn : sub.freeVariables.length = Q.n := h1.columns
  have hpl : sub.Plain := by
    intro id hid e he
    obtain ⟨a, b, hab, rfl⟩ := heq id hid e he
    simp [Expr.variableIndices, hab]
  have hrow : ∀ r : Fin sub.expressions.length, ∃ ab : Nat × Nat, sub.allExpressions[sub.expressions[r]]? = some (.variableVariableEquality ab.1 ab.2) := by
    intro r
    obtain ⟨e, he, -⟩ := hok _ (List.getElem_mem r.2)
    obtain ⟨a, b, -, rfl⟩ := heq _ (List.getElem_mem r.2) e he
    exact ⟨(a, b), he⟩
  choose ab hab using hrow
  have hres : ∀ x, x.length = sub.freeVariables.length → ∀ r : Fin sub.expressions.length, (Q.res x).getD r 0 = sub.valueOf x (ab r).2 - sub.valueOf x (ab r).1 := by
    intro x hx r
    obtain ⟨rs, g1, g2, g3⟩ := residuals_total hok hx
    rw [h2 x hx] at g1
    cases g1
    obtain ⟨q, g4, g5⟩ := g3 r _ _ (List.getElem?_eq_getElem r.2) (hab r)
    rw [List.getD_eq_getElem?_getD, g5, Option.getD_some, equality_residual g4]
  have hjac : ∀ x, x.length = sub.freeVariables.length → ∀ (r : Fin sub.expressions.length) (k : Fin sub.freeVariables.length),
      Q.jac x r k = sub.coefficient (ab r).2 k - sub.coefficient (ab r).1 k := by
    intro x hx r k
    have g1 := h3 x hx (fun id hid e he => by
      obtain ⟨a, b, -, rfl⟩ := heq id hid e he
      trivial) r (by rw [← hm]; exact r.2) k (by rw [← hn]; exact k.2)
    have g2 : (fun s => (Q.res (x.set k s)).getD r 0) = fun s => (sub.valueOf x (ab r).2 - sub.valueOf x (ab r).1) +
        (sub.coefficient (ab r).2 k - sub.coefficient (ab r).1 k) * (s - x.getD k 0) := by
      funext s
      rw [hres _ (by simpa using hx), sub.valueOf_set hx _ k.2, sub.valueOf_set hx _ k.2]
      ring
    rw [g2] at g1
    refine g1.unique ?_
    simpa using (((hasDerivAt_id (x.getD k 0)).sub_const (x.getD k 0)).const_mul (sub.coefficient (ab r).2 k - sub.coefficient (ab r).1 k)).const_add
      (sub.valueOf x (ab r).2 - sub.valueOf x (ab r).1)
  refine ⟨fun r k => sub.coefficient (ab r).2 k - sub.coefficient (ab r).1 k, fun r => sub.offset (ab r).1 - sub.offset (ab r).2, ?_⟩
  have hE := hok.evaluates hpl h1
  have hlin : ∀ (v : Fin sub.freeVariables.length → ℝ) (r : Fin sub.expressions.length),
      ((fun r k => sub.coefficient (ab r).2 k - sub.coefficient (ab r).1 k : Matrix (Fin sub.expressions.length) (Fin sub.freeVariables.length) ℝ) *ᵥ v -
        fun r => sub.offset (ab r).1 - sub.offset (ab r).2) r = (Q.res (List.ofFn v)).getD r 0 := by
    intro v r
    rw [hres _ (by simp), sub.valueOf_affine, sub.valueOf_affine]
    simp only [Pi.sub_apply, mulVec, dotProduct, sub_mul, Finset.sum_sub_distrib]
    have : ∀ k : Fin sub.freeVariables.length, (List.ofFn v).getD k 0 = v k := by
      intro k
      simp [List.getD_eq_getElem?_getD]
    simp only [this]
    ring
  have hobj : Q.objective sub.problem.numVariables = Objective.linear (m := sub.expressions.length) (n := sub.problem.numVariables)
      (fun r k => sub.coefficient (ab r).2 k - sub.coefficient (ab r).1 k) (fun r => sub.offset (ab r).1 - sub.offset (ab r).2) := by
    unfold Fitting.objective Objective.linear
    congr 1
    · funext v
      rw [← hm, ← Fin.sum_univ_eq_sum_range (fun c => (Q.res (List.ofFn v)).getD c 0 ^ 2)]
      exact Finset.sum_congr rfl fun r _ => by rw [sq]; exact congrArg₂ (· * ·) (hlin v r).symm (hlin v r).symm
    · funext v k
      rw [← hm, ← Fin.sum_univ_eq_sum_range (fun c => Q.jac (List.ofFn v) c k * (Q.res (List.ofFn v)).getD c 0)]
      refine Finset.sum_congr rfl fun r _ => ?_
      rw [hjac (List.ofFn v) (List.length_ofFn) r k]
      exact congrArg₂ (· * ·) rfl (hlin v r).symm
  rw [← hobj]
  exact hE

/-- L-BFGS does not increase the sum of the squares of equalities of distinct variables. -/
theorem lbfgs_notWorse (ls : LeastSquares ℝ) (fuel : Nat) {exprs : List (Expr ℝ)} (heq : ∀ e ∈ exprs, ∃ a b, a ≠ b ∧ e = .variableVariableEquality a b) :
    (crateOptimize ls fuel).NotWorse .lBfgs exprs := by
  intro sub x x' hsub hok hx h
  obtain ⟨A, b, hE⟩ := hok.equalities_linear fun id _ e he => heq e (hsub ▸ List.mem_of_getElem? he)
  obtain ⟨k, z, h1, h2, h3⟩ := C68_linear_partial A b hE hx
  have h4 : z = x' := by
    have g1 : Settles (fun n => lbfgs sub.problem n x) (.ok z) := ⟨k, h1⟩
    exact Except.ok.inj (g1.ok_of (lbfgs_keeps sub.problem x) h)
  subst h4
  have key : ∀ u, u.length = sub.problem.numVariables → ∃ r, sub.problem.residuals u = .ok r ∧ (r.map (· ^ 2)).sum = (Objective.linear A b).cost (vec sub.problem.numVariables u) := by
    intro u hu
    obtain ⟨r, j, -, g2, g3, -, g5, -⟩ := hE.values u (List.replicate sub.problem.numResiduals 0) (List.replicate (sub.problem.numResiduals * sub.problem.numVariables) 0) hu
      (by simp) (by simp) .zero
    refine ⟨r, g2, ?_⟩
    rw [← g5, ← g3]
    exact squares_eq_sum r
  obtain ⟨r, g1, g2⟩ := key x hx
  obtain ⟨r', g3, g4⟩ := key z h2
  exact .inr ⟨r, r', g1, g3, by rw [g2, g4]; exact h3⟩

section
variable {counter : Nat} {ops : List (Op ℝ)} {c : Client ℝ} (h : Reaches counter ops c) (hnz : ((Store.empty ℝ).run ops).NonZero)
  (hn : NeverJoins ((Store.empty ℝ).run ops).arguments) {ord : HashOrder} (hord : ord.Ok) {opts : SolvingOptions} (hd : opts.decomposer = .none) (hp : opts.perturb = false)
include h hnz hn hord hd hp

/-- C81 (partial), for L-BFGS and figures all of whose constraints are coincidences of two different points: `solve` returns, and the sum of the squares of the residuals is not larger than
before, over all constraints and over every linked part of them. With coincidences this is the sum of the squares of the distances that should be zero. -/
theorem C81_lbfgs_coincidences_not_worse_partial (hl : ops.length + 1 < 2 ^ 30) (ho : opts.optimizer = .lBfgs)
    (hco : ∀ con ∈ ((Store.empty ℝ).run ops).cons, ∃ p q, p ≠ q ∧ con = .pointPointCoincidence p q) (ls : LeastSquares ℝ) {S : Finset Nat} (hS : ((Store.empty ℝ).run ops).Part S) :
    ∃ s' k, (∀ fuel, k ≤ fuel → c.sys.solve (crateOptimize ls fuel) ord opts = .ok s') ∧
      ∃ r r' : Nat → ℝ, (∀ (n : Nat) hdl con, c.conHandles[n]? = some hdl → ((Store.empty ℝ).run ops).cons[n]? = some con →
        c.sys.calculateResidual con.kind hdl = .ok (r n) ∧ s'.calculateResidual con.kind hdl = .ok (r' n)) ∧ ∑ n ∈ S, r' n ^ 2 ≤ ∑ n ∈ S, r n ^ 2 := by
  have hr := h.crel.rel
  have hcalm : ∀ con ∈ ((Store.empty ℝ).run ops).cons, con.Calm ∧ (((Store.empty ℝ).run ops).pointsOf con).Nodup := by
    intro con hcon
    obtain ⟨p, q, hpq, rfl⟩ := hco con hcon
    exact ⟨trivial, by simp [Store.pointsOf, hpq]⟩
  have hexpr : ∀ e ∈ c.sys.scaledExpressions, ∃ a b, a ≠ b ∧ e = .variableVariableEquality a b := by
    intro e he
    rw [System.scaledExpressions, List.mem_map] at he
    obtain ⟨e0, he0, rfl⟩ := he
    rw [hr.exprs, List.mem_flatMap] at he0
    obtain ⟨con, hcon, he0⟩ := he0
    have h2 := encCon_nodup hr (hr.wfCon con hcon) (hcalm con hcon).2 e0 he0
    obtain ⟨p, q, -, rfl⟩ := hco con hcon
    simp only [encCon, List.mem_cons, List.not_mem_nil, or_false] at he0
    rcases he0 with rfl | rfl
    · exact ⟨_, _, by simpa [Expr.variableIndices] using h2, rfl⟩
    · exact ⟨_, _, by simpa [Expr.variableIndices] using h2, rfl⟩
  obtain ⟨s', k, hk⟩ := C52_lbfgs_solve_returns_partial ls h hcalm hord (opts := opts) (by rw [hd]; simp) ho
  refine ⟨s', k, hk, ?_⟩
  obtain ⟨r, r', h1, h2⟩ := h.notWorse hnz hn hord hd hp hl (by rw [ho]; exact lbfgs_notWorse ls k hexpr) (hk k le_rfl) hS
  have hpos := h.scale_pos hnz
  have key : ∀ f : Nat → ℝ, ∑ n ∈ S, (f n / c.sys.scale ^ ((Store.empty ℝ).run ops).power n) ^ 2 = (∑ n ∈ S, f n ^ 2) / (c.sys.scale ^ 1) ^ 2 := by
    intro f
    rw [Finset.sum_div]
    refine Finset.sum_congr rfl fun n hnS => ?_
    have hcon := List.getElem?_eq_getElem (hS.1 n hnS)
    obtain ⟨p, q, -, hpq⟩ := hco _ (List.getElem_mem (hS.1 n hnS))
    have hpow : ((Store.empty ℝ).run ops).power n = 1 := by
      rw [Store.power, hcon, hpq]
      rfl
    rw [hpow, div_pow]
  rw [key, key, div_le_div_iff_of_pos_right (by positivity)] at h2
  exact ⟨r, r', h1, h2⟩

end

/-- A figure that meets the hypotheses, with residuals that are not zero: a point between two others, to coincide with both. -/
example : ∃ c, Reaches 0 tugOps c ∧ ((Store.empty ℝ).run tugOps).NonZero ∧ NeverJoins ((Store.empty ℝ).run tugOps).arguments ∧ ((Store.empty ℝ).run tugOps).Part (Finset.range 2) ∧
    (∀ con ∈ ((Store.empty ℝ).run tugOps).cons, ∃ p q, p ≠ q ∧ con = .pointPointCoincidence p q) ∧ c.sys.calculateResidual .pointPointCoincidence ⟨0, 0⟩ = .ok 2 := by
  obtain ⟨c, h1, h2, h3, h4, h5, -⟩ := C81_singlePass_worse (fun _ => 0) exampleSort_sorts (ord := fun _ s => ascending s) (fun _ s => ⟨ascending_nodup s, fun v => mem_ascending s v⟩)
  refine ⟨c, h1, h2, h3, Store.part_all _, fun con hcon => ?_, h5⟩
  rw [h4] at hcon
  simp only [List.mem_cons, List.not_mem_nil, or_false] at hcon
  rcases hcon with rfl | rfl
  · exact ⟨0, 2, by norm_num, rfl⟩
  · exact ⟨1, 2, by norm_num, rfl⟩

end Fiksi
