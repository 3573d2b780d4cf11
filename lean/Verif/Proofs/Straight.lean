import Verif.Proofs.Balance
/-!
# Points on a line: the steps of Levenberg–Marquardt

The derivatives of a distance between two points of a line point along the line, so no step leaves the line.
-/
namespace Fiksi
open Spec Matrix

/-! ## Weights that no derivative sees as long as they keep their sums -/

namespace Spec.Fitting
variable {P : Fitting}

theorem Run.keeps {W : Set (Nat → ℝ)} {x0 : List ℝ}
    (hω : ∀ x, x.length = P.n → (∀ ω ∈ W, weigh ω P.n x = weigh ω P.n x0) → ∀ ω ∈ W, ∀ r < P.m, ∑ c ∈ Finset.range P.n, P.jac x r c * ω c = 0) {k : Nat} {x z : List ℝ} {lam : ℝ} (hx : x.length = P.n)
    (hl : 0 < lam) (h0 : ∀ ω ∈ W, weigh ω P.n x = weigh ω P.n x0) (h : P.Run k x lam z) : z.length = P.n ∧ ∀ ω ∈ W, weigh ω P.n z = weigh ω P.n x0 := by
  have one : ∀ {x δ : List ℝ} {lam μ : ℝ}, x.length = P.n → (∀ ω ∈ W, weigh ω P.n x = weigh ω P.n x0) → 0 < lam → P.Search x lam μ δ →
      (add x δ).length = P.n ∧ (∀ ω ∈ W, weigh ω P.n (add x δ) = weigh ω P.n x0) ∧ 0 < μ := by
    intro x δ lam μ hx h0 hl h
    obtain ⟨h1, h2⟩ := h.isStep hl
    refine ⟨by simp [add, hx, h2.1], fun ω hw => ?_, h1⟩
    rw [weigh_add hx h2.1, h2.balanced h1.ne' (hω x hx h0 ω hw), add_zero, h0 ω hw]
  induction h with
  | spent => exact ⟨hx, h0⟩
  | solved _ => exact ⟨hx, h0⟩
  | tiny _ _ _ => exact ⟨hx, h0⟩
  | stalled _ h2 _ _ =>
    obtain ⟨h3, h4, -⟩ := one hx h0 hl h2
    exact ⟨h3, h4⟩
  | step _ h2 _ _ _ ih =>
    obtain ⟨h3, h4, h5⟩ := one hx h0 hl h2
    exact ih h3 (lt_of_lt_of_le (by positivity) (le_max_left ..)) h4

end Spec.Fitting

section
variable {n : Nat}

theorem Spec.Objective.Lbfgs.keeps {P : Objective n} {W : Set (Fin n → ℝ)} {x z : Fin n → ℝ} (hω : ∀ y, (∀ ω ∈ W, ω ⬝ᵥ y = ω ⬝ᵥ x) → ∀ ω ∈ W, ω ⬝ᵥ P.grad y = 0) (h : P.Lbfgs x z) :
    ∀ ω ∈ W, ω ⬝ᵥ z = ω ⬝ᵥ x := by
  have move : ∀ cs y (t : ℝ), (∀ ω ∈ W, ω ⬝ᵥ y = ω ⬝ᵥ x) → (∀ ω ∈ W, ∀ c ∈ cs, ω ⬝ᵥ Pair.s c = 0 ∧ ω ⬝ᵥ Pair.y c = 0) → ∀ ω ∈ W, ω ⬝ᵥ (y + t • P.direction cs y) = ω ⬝ᵥ x := by
    intro cs y t hy hcs ω hw
    rw [dotProduct_add, dotProduct_smul, Objective.direction, dotProduct_neg, Matrix.dotProduct_mulVec, bfgsMatrix_balanced _ _ (fun c hc => hcs ω hw c ?_), smul_dotProduct, hω y hy ω hw, smul_zero, neg_zero,
      smul_zero, add_zero, hy ω hw]
    unfold Objective.counting at hc
    split at hc
    · exact List.mem_of_mem_take hc
    · exact List.mem_of_mem_drop hc
  have steps : ∀ k cs y z, P.Steps k cs y z → (∀ ω ∈ W, ω ⬝ᵥ y = ω ⬝ᵥ x) → (∀ ω ∈ W, ∀ c ∈ cs, ω ⬝ᵥ Pair.s c = 0 ∧ ω ⬝ᵥ Pair.y c = 0) → ∀ ω ∈ W, ω ⬝ᵥ z = ω ⬝ᵥ x := by
    intro k cs y z h
    induction h with
    | spent => intro hy _; exact hy
    | last _ _ => intro hy hcs; exact move _ _ _ hy hcs
    | @step _ _ _ _ t _ _ _ ih =>
      intro hy hcs
      have hm := move _ _ t hy hcs
      refine ih hm fun ω hw c hc => ?_
      rw [List.mem_append, List.mem_singleton] at hc
      rcases hc with hc | rfl
      · exact hcs ω hw c hc
      · refine ⟨?_, ?_⟩
        · show ω ⬝ᵥ (_ - _) = 0
          rw [dotProduct_sub, hm ω hw, hy ω hw, sub_self]
        · show ω ⬝ᵥ (_ - _) = 0
          rw [dotProduct_sub, hω _ hm ω hw, hω _ hy ω hw, sub_self]
  cases h with
  | small _ => exact fun _ _ => rfl
  | steps _ h => exact steps _ _ _ _ h (fun _ _ => rfl) (by simp)

end

/-! ## Subproblems -/

/-- A row of the Jacobian of a subproblem applied to weights. -/
theorem Subsystem.Ok.weighed {sub : Subsystem ℝ} (hok : sub.Ok) : ∃ P : Fitting, sub.problem.Computes P sub.pattern ∧ P.m = sub.expressions.length ∧ P.n = sub.freeVariables.length ∧
    ∀ (w : Nat → ℝ) x, x.length = P.n → (∀ id ∈ sub.expressions, ∀ e, sub.allExpressions[id]? = some e → (∀ v ∈ e.variableIndices, v ∉ sub.freeVariables → w v = 0) ∧
        ∀ rg, e.computeResidualAndGradient (e.variableIndices.map (sub.valueOf x)) = .ok rg → (List.zipWith (· * ·) rg.2 (e.variableIndices.map w)).sum = 0) →
      ∀ r < P.m, ∑ c ∈ Finset.range P.n, P.jac x r c * w (sub.freeVariables.getD c 0) = 0 := by
  obtain ⟨P, h1, -, -, h3⟩ := hok.fitting_rows
  have hm : P.m = sub.expressions.length := h1.rows.symm
  have hn : P.n = sub.freeVariables.length := h1.columns.symm
  refine ⟨P, h1, hm, hn, fun w x hx hw r hr => ?_⟩
  rw [hm] at hr
  have hid := List.getElem?_eq_getElem hr
  generalize sub.expressions[r] = id at hid
  obtain ⟨e, he, hv⟩ := hok id (List.mem_of_getElem? hid)
  obtain ⟨rg, h4, h5, -⟩ := rowData_total (hx.trans hn) he hv
  obtain ⟨-, h7⟩ := h3 x (hx.trans hn) r id _ hid h5
  obtain ⟨hz, hs⟩ := hw id (List.mem_of_getElem? hid) e he
  have h8 : ∀ c ∈ Finset.range sub.freeVariables.length, P.jac x r c * w (sub.freeVariables.getD c 0) = P.jac x r c * (sub.freeVariables.map w).getD c 0 := by
    intro c hc
    have hc := Finset.mem_range.1 hc
    simp [List.getD_eq_getElem?_getD, List.getElem?_eq_getElem hc]
  rw [hn, Finset.sum_congr rfl h8]
  simp only [h7]
  rw [slot_sum (sub.freeVariables.map w) _ (fun p hp y i hpi => ?_), varOf_change, ← List.length_map (f := changeOf sub.freeVariables (sub.freeVariables.map w)), zipWith_take_length]
  · rw [← hs rg h4]
    congr 2
    refine List.map_congr_left fun v hv' => ?_
    unfold changeOf
    split
    · rename_i k hk
      obtain ⟨hlt, h9, -⟩ := List.idxOf?_eq_some_iff.1 hk
      simp [List.getD_eq_getElem?_getD, List.getElem?_eq_getElem hlt, h9]
    · rename_i hk
      exact (hz v hv' (List.idxOf?_eq_none_iff.1 hk)).symm
  · obtain ⟨hp1, -⟩ := List.of_mem_zip hp
    obtain ⟨v, -, h8⟩ := List.mem_map.1 hp1
    rw [hpi] at h8
    unfold Subsystem.varOf at h8
    split at h8
    · rename_i k hk
      cases h8
      exact (List.idxOf?_eq_some_iff.1 hk).1
    · cases h8

/-! ## Distances along a line -/

/-- The weights of one point. -/
def normalAt (a b : ℝ) (t v : Nat) : ℝ := if v = t then a else if v = t + 1 then b else 0

/-- The expression is about the lengths of segments between points whose coordinates start at places in `T`, or about none of these points. -/
def Expr.Along (T : Set Nat) : Expr ℝ → Prop
  | .pointPointDistance p q _ => p ∈ T ∧ q ∈ T ∨ ∀ t ∈ T, ∀ v ∈ [p, p + 1, q, q + 1], v ≠ t ∧ v ≠ t + 1
  | .segmentSegmentLengthEquality p q r s => p ∈ T ∧ q ∈ T ∧ r ∈ T ∧ s ∈ T ∨ ∀ t ∈ T, ∀ v ∈ [p, p + 1, q, q + 1, r, r + 1, s, s + 1], v ≠ t ∧ v ≠ t + 1
  | .pointCircleIncidence p q r => (p ∈ T ∧ q ∈ T ∧ ∀ t ∈ T, r ≠ t ∧ r ≠ t + 1) ∨ ∀ t ∈ T, ∀ v ∈ [p, p + 1, q, q + 1, r], v ≠ t ∧ v ≠ t + 1
  | e => ∀ t ∈ T, ∀ v ∈ e.variableIndices, v ≠ t ∧ v ≠ t + 1

theorem normalAt_away {a b : ℝ} {t : Nat} {l : List Nat} (h : ∀ v ∈ l, v ≠ t ∧ v ≠ t + 1) (gs : List ℝ) : (List.zipWith (· * ·) gs (l.map (normalAt a b t))).sum = 0 := by
  induction l generalizing gs with
  | nil => simp
  | cons v l ih =>
    cases gs with
    | nil => simp
    | cons g gs =>
      have := h v (by simp)
      rw [List.map_cons, List.zipWith_cons_cons, List.sum_cons, ih (fun v hv => h v (by simp [hv])), normalAt, if_neg this.1, if_neg this.2]
      simp

theorem ppd_along {a b κ x1 y1 x2 y2 d : ℝ} (h1 : a * x1 + b * y1 = κ) (h2 : a * x2 + b * y2 = κ) (α β : ℝ) :
    (List.zipWith (· * ·) (ppdResGrad x1 y1 x2 y2 d).2 [α * a, α * b, β * a, β * b]).sum = 0 := by
  simp only [ppdResGrad, List.zipWith_cons_cons, List.zipWith_nil_right, List.sum_cons, List.sum_nil]
  generalize 1 / FloatOps.sqrt (square (x1 - x2) + square (y1 - y2)) = R
  linear_combination R * (α - β) * (h1 - h2)

theorem Expr.Along.gradient {T : Set Nat} (hsep : ∀ t ∈ T, t + 1 ∉ T) {e : Expr ℝ} (h : e.Along T) {a b κ : ℝ} {f : Nat → ℝ} (hf : ∀ t ∈ T, t ∈ e.variableIndices → a * f t + b * f (t + 1) = κ) {t : Nat} (ht : t ∈ T)
    {rg : ℝ × List ℝ} (hrg : e.computeResidualAndGradient (e.variableIndices.map f) = .ok rg) : (List.zipWith (· * ·) rg.2 (e.variableIndices.map (normalAt a b t))).sum = 0 := by
  have hw : ∀ u ∈ T, ∃ α : ℝ, normalAt a b t u = α * a ∧ normalAt a b t (u + 1) = α * b := by
    intro u hu
    by_cases hut : u = t
    · exact ⟨1, by simp [normalAt, hut], by simp [normalAt, hut]⟩
    · refine ⟨0, ?_, ?_⟩
      · rw [normalAt, if_neg hut, if_neg fun (hc : u = t + 1) => hsep t ht (hc ▸ hu), zero_mul]
      · rw [normalAt, if_neg fun (hc : u + 1 = t) => hsep u hu (hc ▸ ht), if_neg (by omega), zero_mul]
  cases e with
  | pointPointDistance p q d =>
    rcases h with ⟨hp, hq⟩ | h
    · obtain ⟨α, h1, h2⟩ := hw p hp
      obtain ⟨β, h3, h4⟩ := hw q hq
      cases hrg
      simp only [Expr.variableIndices, List.map_cons, List.map_nil, h1, h2, h3, h4]
      exact ppd_along (hf p hp (by simp [Expr.variableIndices])) (hf q hq (by simp [Expr.variableIndices])) α β
    · exact normalAt_away (h t ht) _
  | pointCircleIncidence p q r =>
    rcases h with ⟨hp, hq, hr⟩ | h
    · obtain ⟨α, h1, h2⟩ := hw p hp
      obtain ⟨β, h3, h4⟩ := hw q hq
      have h5 : normalAt a b t r = 0 := by rw [normalAt, if_neg (hr t ht).1, if_neg (hr t ht).2]
      cases hrg
      simp only [Expr.variableIndices, List.map_cons, List.map_nil, h1, h2, h3, h4, h5]
      have e1 := ppd_along (d := 0) (hf p hp (by simp [Expr.variableIndices])) (hf q hq (by simp [Expr.variableIndices])) α β
      simp only [pciResGrad, ppdResGrad, List.cons_append, List.nil_append, List.zipWith_cons_cons, List.zipWith_nil_right, List.sum_cons, List.sum_nil] at e1 ⊢
      linear_combination e1
    · exact normalAt_away (h t ht) _
  | segmentSegmentLengthEquality p q r s =>
    rcases h with ⟨hp, hq, hr, hs⟩ | h
    · obtain ⟨α, h1, h2⟩ := hw p hp
      obtain ⟨β, h3, h4⟩ := hw q hq
      obtain ⟨γ, h5, h6⟩ := hw r hr
      obtain ⟨δ, h7, h8⟩ := hw s hs
      cases hrg
      simp only [Expr.variableIndices, List.map_cons, List.map_nil, h1, h2, h3, h4, h5, h6, h7, h8]
      have e1 := ppd_along (d := 0) (hf p hp (by simp [Expr.variableIndices])) (hf q hq (by simp [Expr.variableIndices])) α β
      have e2 := ppd_along (d := 0) (hf r hr (by simp [Expr.variableIndices])) (hf s hs (by simp [Expr.variableIndices])) γ δ
      simp only [ssleResGrad, ppdResGrad, List.map_cons, List.map_nil, List.cons_append, List.nil_append, List.zipWith_cons_cons, List.zipWith_nil_right, List.sum_cons, List.sum_nil] at e1 e2 ⊢
      linear_combination e2 - e1
    · exact normalAt_away (h t ht) _
  | _ => exact normalAt_away (h t ht) _

/-- The optimisers of the crate leave the points on their line. -/
theorem crateOptimize_straight {S : Nat → Nat → Nat → Prop} {ls : LeastSquares ℝ} (hls : ls.Exact S) {fuel : Nat} {o : Optimizer} {sub : Subsystem ℝ} (hok : sub.Ok) (hpl : o = .lBfgs → sub.Plain)
    (hS : S sub.expressions.length sub.freeVariables.length (sub.pattern.length + sub.freeVariables.length)) {T : Set Nat} (hsep : ∀ t ∈ T, t + 1 ∉ T)
    (hpair : ∀ t ∈ T, t ∈ sub.freeVariables ↔ t + 1 ∈ sub.freeVariables) (hnd : sub.freeVariables.Nodup)
    (hT : ∀ id ∈ sub.expressions, ∀ e, sub.allExpressions[id]? = some e → e.Along T) {a b κ : ℝ} {x x' : List ℝ}
    (hlevel : ∀ t ∈ T, a * sub.valueOf x t + b * sub.valueOf x (t + 1) = κ) (hx : x.length = sub.freeVariables.length) (h : crateOptimize ls fuel o sub.problem x = .ok x') :
    ∀ t ∈ T, a * sub.valueOf x' t + b * sub.valueOf x' (t + 1) = κ := by
  obtain ⟨P, h1, hm, hn, h2⟩ := hok.weighed
  -- the weighted sum of a point is its place across the line
  have hat : ∀ (y : List ℝ) (u : Nat), u ∈ sub.freeVariables → ∀ ω : ℝ, ∑ c ∈ Finset.range P.n, (if sub.freeVariables.getD c 0 = u then ω else 0) * y.getD c 0 = ω * sub.valueOf y u := by
    intro y u hu ω
    obtain ⟨k, hk⟩ : ∃ k, sub.freeVariables.idxOf? u = some k := by
      cases hi : sub.freeVariables.idxOf? u with
      | none => exact absurd hu (List.idxOf?_eq_none_iff.1 hi)
      | some k => exact ⟨k, rfl⟩
    obtain ⟨hlt, h9, -⟩ := List.idxOf?_eq_some_iff.1 hk
    rw [Finset.sum_eq_single k]
    · rw [Subsystem.valueOf, hk, List.getD_eq_getElem?_getD, List.getElem?_eq_getElem hlt, Option.getD_some, if_pos h9]
    · intro c hc hck
      have hc := Finset.mem_range.1 hc
      rw [hn] at hc
      rw [List.getD_eq_getElem?_getD, List.getElem?_eq_getElem hc, Option.getD_some, if_neg, zero_mul]
      intro he
      exact hck ((hnd.getElem_inj_iff).1 (he.trans h9.symm))
    · intro hk'
      exact absurd (Finset.mem_range.2 (by rw [hn]; exact hlt)) hk'
  have hweigh : ∀ (y : List ℝ) (t : Nat), t ∈ T → t ∈ sub.freeVariables → Fitting.weigh (fun c => normalAt a b t (sub.freeVariables.getD c 0)) P.n y = a * sub.valueOf y t + b * sub.valueOf y (t + 1) := by
    intro y t ht htf
    rw [← hat y t htf a, ← hat y (t + 1) ((hpair t ht).1 htf) b, ← Finset.sum_add_distrib, Fitting.weigh]
    refine Finset.sum_congr rfl fun c _ => ?_
    rw [← add_mul, normalAt]
    congr 1
    by_cases e1 : sub.freeVariables.getD c 0 = t
    · rw [if_pos e1, if_pos e1, if_neg (by omega), add_zero]
    · rw [if_neg e1, if_neg e1, zero_add]
  have hfixed : ∀ (y : List ℝ) (t : Nat), t ∈ T → t ∉ sub.freeVariables → sub.valueOf y t = sub.valueOf x t ∧ sub.valueOf y (t + 1) = sub.valueOf x (t + 1) := by
    intro y t ht htf
    have htf' := fun hc => htf ((hpair t ht).2 hc)
    simp only [Subsystem.valueOf, List.idxOf?_eq_none_iff.2 htf, List.idxOf?_eq_none_iff.2 htf', and_self]
  let W : Set (Nat → ℝ) := { ω | ∃ t ∈ T, t ∈ sub.freeVariables ∧ ω = fun c => normalAt a b t (sub.freeVariables.getD c 0) }
  have level : ∀ y : List ℝ, (∀ ω ∈ W, Fitting.weigh ω P.n y = Fitting.weigh ω P.n x) → ∀ t ∈ T, a * sub.valueOf y t + b * sub.valueOf y (t + 1) = κ := by
    intro y hy t ht
    by_cases htf : t ∈ sub.freeVariables
    · rw [← hweigh y t ht htf, hy _ ⟨t, ht, htf, rfl⟩, hweigh x t ht htf, hlevel t ht]
    · rw [(hfixed y t ht htf).1, (hfixed y t ht htf).2, hlevel t ht]
  have rows : ∀ y, y.length = P.n → (∀ ω ∈ W, Fitting.weigh ω P.n y = Fitting.weigh ω P.n x) → ∀ ω ∈ W, ∀ r < P.m, ∑ c ∈ Finset.range P.n, P.jac y r c * ω c = 0 := by
    rintro y hy hkeep _ ⟨t, ht, htf, rfl⟩
    refine h2 (normalAt a b t) y hy fun id hid e he => ⟨fun v _ hvf => ?_, fun rg hrg => ?_⟩
    · rw [normalAt, if_neg fun (hc : v = t) => hvf (hc ▸ htf), if_neg fun (hc : v = t + 1) => hvf (hc ▸ (hpair t ht).1 htf)]
    · exact (hT id hid e he).gradient hsep (fun u hu _ => level y hkeep u hu) ht hrg
  refine level x' ?_
  cases o with
  | levenbergMarquardt =>
    have hrun := C66_lm_is_method h1 hls (by rw [hm, hn]; exact hS) (hx.trans hn.symm) h
    exact (hrun.keeps (W := W) (x0 := x) rows (hx.trans hn.symm) (by norm_num) (fun _ _ => rfl)).2
  | lBfgs =>
    have hrun := (C67_lbfgs_is_method (hok.evaluates (hpl rfl) h1) hx h).2
    have hN : sub.problem.numVariables = P.n := hn.symm
    have hdot : ∀ (ω : Nat → ℝ) (y : List ℝ), ∑ c : Fin sub.problem.numVariables, ω c * y.getD c 0 = Fitting.weigh ω P.n y := by
      intro ω y
      rw [Fin.sum_univ_eq_sum_range (fun c => ω c * y.getD c 0), hN]
      rfl
    have h5 := hrun.keeps (W := { ω | ∃ ω' ∈ W, ω = fun c : Fin sub.problem.numVariables => ω' c }) ?_
    · intro ω hw
      have := h5 _ ⟨ω, hw, rfl⟩
      simp only [dotProduct, vec, hdot] at this
      exact this
    · rintro u hu _ ⟨ω, hw, rfl⟩
      have hkeep : ∀ ω ∈ W, Fitting.weigh ω P.n (List.ofFn u) = Fitting.weigh ω P.n x := by
        intro ω hw
        have := hu _ ⟨ω, hw, rfl⟩
        simp only [dotProduct, vec, hdot] at this
        rw [← this, ← hdot]
        refine Finset.sum_congr rfl fun c _ => ?_
        rw [List.getD_eq_getElem?_getD, List.getElem?_ofFn, dif_pos c.2]
        rfl
      have h6 := rows (List.ofFn u) (by rw [List.length_ofFn, hN]) hkeep ω hw
      simp only [dotProduct, Fitting.objective, Finset.mul_sum]
      rw [Finset.sum_comm]
      refine Finset.sum_eq_zero fun r hr => ?_
      rw [Fin.sum_univ_eq_sum_range (fun c => ω c * (P.jac (List.ofFn u) r c * (P.res (List.ofFn u)).getD r 0))]
      have h6 := h6 r (Finset.mem_range.1 hr)
      generalize (P.res (List.ofFn u)).getD r 0 = ρ
      generalize List.ofFn u = U at h6
      rw [hN]
      calc _ = (∑ c ∈ Finset.range P.n, P.jac U r c * ω c) * ρ := by
            rw [Finset.sum_mul]
            exact Finset.sum_congr rfl fun c _ => by ring
        _ = 0 := by rw [h6, zero_mul]

end Fiksi
