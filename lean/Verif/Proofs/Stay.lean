import Verif.Props.Rest
import Verif.Props.AnyNumbers
/-!
# Solving where the optimisers return their start, in any arithmetic
-/
namespace Fiksi

open Spec

set_option linter.unusedSectionVars false
variable {F : Type} [Add F] [Sub F] [Mul F] [Div F] [Neg F] [Zero F] [One F] [FloatOps F]

/-! ## The optimisers -/

/-- Levenberg–Marquardt returns its start if the sum of squares computed there is below the bound. -/
theorem lm_stays {p : Problem F} {pattern : List (Nat × Nat)} (hp : p.Total pattern) (hc : p.Consistent) {S : Nat → Nat → Nat → Prop} {ls : LeastSquares F} (hls : ls.Sturdy S)
    (hS : S p.numResiduals p.numVariables (pattern.length + p.numVariables)) {fuel : Nat} {x : List F} (hx : x.length = p.numVariables)
    (hr : ∀ r, p.residuals x = .ok r → FloatOps.ltB (normSquared (r.map (fun r => -r))) (ratio 1 (10 ^ 8)) = true) : levenbergMarquardt p ls fuel x = .ok x := by
  obtain ⟨rt, q1, q2, -, q5, q6⟩ := lmJacobian_any hp hx (rs := List.replicate p.numResiduals 0) (by simp)
  obtain ⟨sym, h1, -⟩ := hls p.numResiduals p.numVariables rt.2 q5 (lmJacobian_size q6 ▸ hS)
  rw [levenbergMarquardt, lmRun, lmStart, q1, ok_bind, h1, ok_bind]
  rw [lmJacobian, bind_eq_ok] at q1
  obtain ⟨⟨rs, ts⟩, h4, h3⟩ := q1
  cases h3
  have h5 := hr rs (hc x rs ts h4)
  simp only [pure_eq_ok, ok_bind]
  rw [lmOuter, if_pos h5]
  rfl

/-- L-BFGS returns its start if the sum of squares computed there is below the bound. -/
theorem lbfgs_stays {p : Problem F} (hp : p.DenseOk) (hc : p.DenseConsistent) {fuel : Nat} {x : List F} (hx : x.length = p.numVariables)
    (hr : ∀ r, p.residuals x = .ok r → FloatOps.ltB (sumSquares r) (ratio 1 10000) = true) : lbfgs p fuel x = .ok x := by
  obtain ⟨r, j, h1, -⟩ := hp x (List.replicate p.numResiduals 0) (List.replicate (p.numResiduals * p.numVariables) 0) hx (by simp) (by simp)
  rw [lbfgs, lbfgsStart, h1]
  simp only [ok_bind]
  rw [if_pos (hr r (hc x r j h1))]
  rfl

/-! ## `solve` -/

/-- Some entries of `V` are replaced by the multiples of those of `T`. -/
def Rewritten (V T : List F) (scale : F) (V' : List F) : Prop :=
  V'.length = V.length ∧ ∀ (v : Nat) x, T[v]? = some x → V'[v]? = V[v]? ∨ V'[v]? = some (scale * x)

theorem writeVars_rewritten {V T values V₁ V' : List F} {scale : F} {l : List (Nat × Nat)} (hl : ∀ p ∈ l, ∃ x, values[p.2]? = some x ∧ T[p.1]? = some x)
    (h1 : Rewritten V T scale V₁) (h : l.foldlM (writeVars scale values) V₁ = .ok V') : Rewritten V T scale V' := by
  refine foldlM_inv (Rewritten V T scale) _ _ _ _ h1 (fun t p t' hp ht h1 => ?_) h
  rw [writeVars, bind_eq_ok] at h1
  obtain ⟨x, h2, h3⟩ := h1
  obtain ⟨x', h4, h5⟩ := hl p hp
  rw [idx_eq_ok, h4] at h2
  cases h2
  rw [setIdx_eq_ok] at h3
  obtain ⟨h6, rfl⟩ := h3
  refine ⟨by rw [List.length_set]; exact ht.1, fun v y hy => ?_⟩
  by_cases hv : p.1 = v
  · subst hv
    rw [h5] at hy
    cases hy
    exact .inr (List.getElem?_set_self h6)
  · rw [List.getElem?_set_ne hv]
    exact ht.2 v y hy

section
variable {optimize : Optimize F} {T V : List F} {scale : F} {exprs : List (Expr F)} {m n : Nat} (hT : T.length = n) (hV : V.length = n)
  (hk : ∀ o (sub : Subsystem F) x, sub.systemVariables = T → sub.allExpressions = exprs → sub.Ok → sub.Within m n → sub.freeVariables.mapM (idx T) = .ok x →
    optimize o sub.problem x = .ok x)
include hT hV hk

theorem solveWhole_stays {opts : SolvingOptions} {s : System F} {constraints free : Finset Nat} {st : SolveState F} (h1 : st.transformed = T) (h2 : Rewritten V T scale st.vars)
    (hf : ∀ v ∈ free, v < n) {es : List (List Nat)} (hes : (ascending constraints).mapM s.constraintExpressions = .ok es) (he : ExprsOk exprs n es.flatten)
    (hm : es.flatten.length ≤ m) (hn : (ascending free).length ≤ n) :
    ∃ st', solveWhole optimize opts s scale exprs constraints free st = .ok st' ∧ st'.transformed = T ∧ Rewritten V T scale st'.vars := by
  subst h1
  have hf' : ∀ v ∈ ascending free, v < n := fun v hv => hf v ((mem_ascending _ _).1 hv)
  obtain ⟨values, h3, h4⟩ := mapM_idx_ok (l := st.transformed) (is := ascending free) (by rw [hT]; exact hf')
  have hok : Subsystem.Ok ⟨st.transformed, exprs, es.flatten, ascending free⟩ := fun id hid => by rw [hT]; exact he id hid
  obtain ⟨vars, h7, h8⟩ := writeVars_ok (scale := scale) (values := values) (l := (ascending free).zipIdx) (vars := st.vars)
    (fun p hp => ⟨by rw [h2.1, hV]; exact hf' _ (mem_zipIdx_fst hp), by rw [h4]; exact zipIdx_snd_lt hp⟩)
  rw [solveWhole, h3, ok_bind, hes, ok_bind]
  simp only
  rw [hk opts.optimizer _ values rfl rfl hok ⟨hm, hn⟩ h3, ok_bind, h7, ok_bind]
  exact ⟨_, rfl, rfl, writeVars_rewritten (zipIdx_values h3) h2 h7⟩

theorem solveBlock_stays {opts : SolvingOptions} {freeList expressions : List Nat} {st : SolveState F} (h1 : st.transformed = T) (h2 : Rewritten V T scale st.vars)
    (hf : ∀ v ∈ freeList, v < n) (he : ExprsOk exprs n expressions) (hm : expressions.length ≤ m) (hn : freeList.length ≤ n) :
    ∃ st', solveBlock optimize opts scale exprs freeList expressions st = .ok st' ∧ st'.transformed = T ∧ Rewritten V T scale st'.vars := by
  subst h1
  obtain ⟨values, h3, h4⟩ := mapM_idx_ok (l := st.transformed) (is := freeList) (by rw [hT]; exact hf)
  have hok : Subsystem.Ok ⟨st.transformed, exprs, expressions, freeList⟩ := fun id hid => by rw [hT]; exact he id hid
  obtain ⟨tr, h5, h6⟩ := writeTransformed_ok (values := values) (l := freeList.zipIdx) (vars := st.transformed)
    (fun p hp => ⟨by rw [hT]; exact hf _ (mem_zipIdx_fst hp), by rw [h4]; exact zipIdx_snd_lt hp⟩)
  obtain ⟨vars, h7, h8⟩ := writeVars_ok (scale := scale) (values := values) (l := freeList.zipIdx) (vars := st.vars)
    (fun p hp => ⟨by rw [h2.1, hV]; exact hf _ (mem_zipIdx_fst hp), by rw [h4]; exact zipIdx_snd_lt hp⟩)
  rw [solveBlock, h3, ok_bind]
  simp only
  rw [hk opts.optimizer _ values rfl rfl hok ⟨hm, hn⟩ h3, ok_bind, h5, ok_bind, h7, ok_bind]
  exact ⟨_, rfl, writeTransformed_same (zipIdx_values h3) h5, writeVars_rewritten (zipIdx_values h3) h2 h7⟩

end

theorem Reaches.solveComponent_stays {counter : Nat} {ops : List (Op F)} {c : Client F} (h : Reaches counter ops c) {optimize : Optimize F}
    (hk : ∀ o (sub : Subsystem F) x, sub.systemVariables = c.sys.scaledVariables → sub.allExpressions = c.sys.scaledExpressions → sub.Ok →
      sub.Within c.sys.expressions.length c.sys.vars.length → sub.freeVariables.mapM (idx c.sys.scaledVariables) = .ok x → optimize o sub.problem x = .ok x)
    {ord : HashOrder} (hord : ord.Ok) {opts : SolvingOptions} (hd : opts.decomposer ≠ .recursiveAssembly) (hp : opts.perturb = false) {st : SolveState F} {ck : Component × Nat}
    (hc : ck.1 ∈ c.sys.graph.components) (h1 : st.transformed = c.sys.scaledVariables) (h2 : Rewritten c.sys.vars c.sys.scaledVariables c.sys.scale st.vars) :
    ∃ st', solveComponent optimize ord opts c.sys c.sys.scale c.sys.scaledExpressions st ck = .ok st' ∧ st'.transformed = c.sys.scaledVariables ∧
      Rewritten c.sys.vars c.sys.scaledVariables c.sys.scale st'.vars := by
  have hT : c.sys.scaledVariables.length = c.sys.vars.length := by simp [System.scaledVariables]
  unfold solveComponent
  split
  · exact ⟨st, rfl, h1, h2⟩
  · obtain ⟨free, h3⟩ := h.freeVariables_ok hc
    have hf : ∀ v ∈ free, v < c.sys.vars.length := fun v hv => h.varOf_lt ((freeVariables_spec h3 v).1 hv).1
    have h4 : perturbFree opts free st = .ok st := by rw [perturbFree, hp]; rfl
    rw [h3, ok_bind, h4, ok_bind]
    cases hdec : opts.decomposer with
    | none =>
      obtain ⟨es, h4, h5, h6⟩ := h.whole_calls hc
      exact solveWhole_stays hT rfl hk h1 h2 hf h4 (h.exprsOk h5) h6 (length_le_of_lt (ascending_nodup _) (fun v hv => hf v ((mem_ascending _ _).1 hv)))
    | singlePass =>
      obtain ⟨blocks, h4, h5⟩ := h.block_calls hf
      show ∃ st', solveSinglePass optimize ord opts c.sys c.sys.scale c.sys.scaledExpressions ck.2 free st = .ok st' ∧ _
      rw [solveSinglePass, h4, ok_bind]
      refine foldlM_ok (fun t : SolveState F => t.transformed = c.sys.scaledVariables ∧ Rewritten c.sys.vars c.sys.scaledVariables c.sys.scale t.vars)
        (fun (st : SolveState F) (bi : Block × Nat) =>
          solveBlock optimize opts c.sys.scale c.sys.scaledExpressions (ord [ck.2, 0, bi.2] bi.1.freeVariables) bi.1.expressions st)
        blocks.zipIdx st ⟨h1, h2⟩ (fun t bi hbi hs => ?_)
      obtain ⟨h6, h7, h8⟩ := h5 _ (mem_zipIdx_fst hbi)
      have hlt : ∀ v ∈ ord [ck.2, 0, bi.2] bi.1.freeVariables, v < c.sys.vars.length := fun v hv => hf v (h6 v (((hord _ _).2 v).1 hv))
      exact solveBlock_stays hT rfl hk hs.1 hs.2 hlt (h.exprsOk h7) h8 (length_le_of_lt (hord _ _).1 hlt)
    | recursiveAssembly => exact absurd hdec hd

/-- If the optimiser returns its start on all problems at the scaled values, then `solve` returns, and each variable keeps its value or is multiplied by the two rounded factors. -/
theorem Reaches.solve_stays {counter : Nat} {ops : List (Op F)} {c : Client F} (h : Reaches counter ops c) {optimize : Optimize F}
    (hk : ∀ o (sub : Subsystem F) x, sub.systemVariables = c.sys.scaledVariables → sub.allExpressions = c.sys.scaledExpressions → sub.Ok →
      sub.Within c.sys.expressions.length c.sys.vars.length → sub.freeVariables.mapM (idx c.sys.scaledVariables) = .ok x → optimize o sub.problem x = .ok x)
    {ord : HashOrder} (hord : ord.Ok) {opts : SolvingOptions} (hd : opts.decomposer ≠ .recursiveAssembly) (hp : opts.perturb = false) :
    ∃ V', c.sys.solve optimize ord opts = .ok { c.sys with vars := V' } ∧ V'.length = c.sys.vars.length ∧
      ∀ (v : Nat) x, c.sys.vars[v]? = some x → V'[v]? = some x ∨ V'[v]? = some (c.sys.scale * (x * (1 / c.sys.scale))) := by
  obtain ⟨st, h1, -, h2⟩ := foldlM_ok (fun t : SolveState F => t.transformed = c.sys.scaledVariables ∧ Rewritten c.sys.vars c.sys.scaledVariables c.sys.scale t.vars)
    (solveComponent optimize ord opts c.sys c.sys.scale c.sys.scaledExpressions) c.sys.graph.components.zipIdx
    ⟨c.sys.vars, c.sys.scaledVariables, 42, []⟩ ⟨rfl, rfl, fun _ _ _ => .inl rfl⟩
    (fun t ck hck hs => h.solveComponent_stays hk hord hd hp (mem_zipIdx_fst hck) hs.1 hs.2)
  refine ⟨st.vars, by rw [System.solve, System.solveLoop, h1]; rfl, h2.1, fun v x hx => ?_⟩
  rw [← hx]
  exact h2.2 v _ (by rw [System.scaledVariables, List.getElem?_map, hx]; rfl)

/-- The optimisers of the crate return their start where the sum of squared residuals of at most all expressions, each of which is `Small`, is found to be below their bound. -/
theorem Reaches.crate_stays (cast : F → Int) {sort : SortByKey} (hsort : Sorts sort) {counter : Nat} {ops : List (Op F)} {c : Client F} (h : Reaches counter ops c)
    (hshort : ops.length < 2 ^ 24) {Small : F → Prop}
    (hz : ∀ e ∈ c.sys.scaledExpressions, ∀ r, e.calculateResidual (identityMap c.sys.scaledVariables) = .ok r → Small r)
    (hlm : ∀ r : List F, r.length ≤ c.sys.expressions.length → (∀ y ∈ r, Small y) → FloatOps.ltB (normSquared (r.map (fun r => -r))) (ratio 1 (10 ^ 8)) = true)
    (hlb : ∀ r : List F, r.length ≤ c.sys.expressions.length → (∀ y ∈ r, Small y) → FloatOps.ltB (sumSquares r) (ratio 1 10000 : F) = true)
    {fuel : Nat} {ord : HashOrder} (hord : ord.Ok) {opts : SolvingOptions} (hd : opts.decomposer ≠ .recursiveAssembly) (hp : opts.perturb = false) :
    ∃ V', c.sys.solve (crateOptimize (qrLeastSquares sort (colamdOfStructure cast) : LeastSquares F) fuel) ord opts = .ok { c.sys with vars := V' } ∧ V'.length = c.sys.vars.length ∧
      ∀ (v : Nat) x, c.sys.vars[v]? = some x → V'[v]? = some x ∨ V'[v]? = some (c.sys.scale * (x * (1 / c.sys.scale))) := by
  refine h.solve_stays (fun o sub x h1 h2 hok hw hx => ?_) hord hd hp
  obtain ⟨T, E, es, free⟩ := sub
  simp only at h1 h2 hx
  subst h1 h2
  have hlen : x.length = free.length := (mapM_forall hx).length_eq.symm
  have hr : ∀ r, (⟨c.sys.scaledVariables, c.sys.scaledExpressions, es, free⟩ : Subsystem F).problem.residuals x = .ok r →
      r.length ≤ c.sys.expressions.length ∧ ∀ y ∈ r, Small y := by
    intro r hr
    refine ⟨by rw [← (mapM_forall hr).length_eq]; exact hw.1, fun y hy => ?_⟩
    obtain ⟨i, -, hi⟩ := forall₂_mem_right (mapM_forall hr) hy
    rw [bind_eq_ok] at hi
    obtain ⟨e, h1, h2⟩ := hi
    rw [idx_eq_ok] at h1
    exact hz e (List.mem_of_getElem? h1) y (calculateResidual_mono (fun v var hv => subsystem_value hx hv) h2)
  cases o with
  | levenbergMarquardt =>
    exact lm_stays hok.total (Subsystem.problem_consistent _) (qrColamd_sturdy cast hsort) (h.fits hshort _ _ _ hw.1 hw.2 (Subsystem.size_le _)) hlen
      (fun r h3 => hlm r (hr r h3).1 (hr r h3).2)
  | lBfgs => exact lbfgs_stays hok.denseOk (Subsystem.problem_denseConsistent _) hlen (fun r h3 => hlb r (hr r h3).1 (hr r h3).2)

end Fiksi
