import Verif.Proofs.Turned
/-!
# One equation that is solved along a straight line
-/
namespace Fiksi.Spec
open Finset

namespace Fitting

/-- The step for one residual is along its gradient. -/
theorem IsStep.single {P : Fitting} (hm : P.m = 1) {x δ : List ℝ} {lam : ℝ} (hl : 0 < lam) (h : P.IsStep x lam δ) :
    (∀ c < P.n, δ.getD c 0 = -((P.res x).getD 0 0 / ((∑ c ∈ range P.n, P.jac x 0 c ^ 2) + lam)) * P.jac x 0 c) ∧
      squares δ = (∑ c ∈ range P.n, P.jac x 0 c ^ 2) * ((P.res x).getD 0 0 / ((∑ c ∈ range P.n, P.jac x 0 c ^ 2) + lam)) ^ 2 := by
  obtain ⟨hδ, h⟩ := h
  have hN : 0 ≤ ∑ c ∈ range P.n, P.jac x 0 c ^ 2 := sum_nonneg fun _ _ => sq_nonneg _
  rw [hm] at h
  simp only [sum_range_one] at h
  set r := (P.res x).getD 0 0
  set S := ∑ c' ∈ range P.n, P.jac x 0 c' * δ.getD c' 0 with hS
  have h1 : ∀ c < P.n, δ.getD c 0 = -((S + r) / lam) * P.jac x 0 c := by
    intro c hc
    have h2 := h c hc
    field_simp
    linarith
  have h2 : S = -((S + r) / lam) * ∑ c ∈ range P.n, P.jac x 0 c ^ 2 := by
    have h3 : S = ∑ c ∈ range P.n, -((S + r) / lam) * P.jac x 0 c ^ 2 := by
      conv_lhs => rw [hS]
      refine sum_congr rfl fun c hc => ?_
      rw [h1 c (mem_range.1 hc)]
      ring
    rw [← mul_sum] at h3
    exact h3
  set N := ∑ c ∈ range P.n, P.jac x 0 c ^ 2 with hNd
  have h3 : (S + r) / lam = r / (N + lam) := by
    have h4 : N + lam ≠ 0 := by linarith
    have h5 : lam ≠ 0 := hl.ne'
    rw [div_eq_div_iff h5 h4]
    field_simp at h2
    linarith
  rw [h3] at h1
  refine ⟨h1, ?_⟩
  rw [squares_eq_sum, hδ, hNd, sum_mul]
  refine sum_congr rfl fun c hc => ?_
  rw [h1 c (mem_range.1 hc)]
  ring

/-- Every step taken from a point of `I` with a damping of at most `1/2` stays in `I`, divides the cost by nine at least, and is not short where the cost is not small. -/
structure Contracts (P : Fitting) (I : List ℝ → Prop) (κ : ℝ) : Prop where
  stays : ∀ {x δ lam}, I x → 0 < lam → lam ≤ 1 / 2 → P.IsStep x lam δ → I (add x δ)
  cost : ∀ {x δ lam}, I x → 0 < lam → lam ≤ 1 / 2 → P.IsStep x lam δ → P.cost (add x δ) ≤ P.cost x / 9
  long : ∀ {x δ lam}, I x → 0 < lam → lam ≤ 1 / 2 → P.IsStep x lam δ → κ * P.cost x ≤ squares δ

theorem Contracts.search {P : Fitting} {I : List ℝ → Prop} {κ : ℝ} (h : P.Contracts I κ) {x δ : List ℝ} {lam μ : ℝ} (hx : I x) (hl : 0 < lam) (hl' : lam ≤ 1 / 2) (hc : 0 < P.cost x)
    (hs : P.Search x lam μ δ) : μ = lam ∧ P.IsStep x lam δ := by
  cases hs with
  | found h1 _ => exact ⟨rfl, h1⟩
  | doubled h1 _ h3 _ =>
    have := h.cost hx hl hl' h1
    linarith

/-- The method ends where the cost is small. -/
theorem Contracts.run {P : Fitting} {I : List ℝ → Prop} {κ : ℝ} (hκ : 0 < κ) (h : P.Contracts I κ) {k : Nat} {x z : List ℝ} {lam : ℝ} (hl : 0 < lam) (hl' : lam ≤ 1 / 2) (hx : I x)
    (hr : P.Run k x lam z) : I z ∧ P.cost z ≤ max (max (1 / 10 ^ 8) (1 / (κ * 10 ^ 12))) (P.cost x / 9 ^ k) := by
  induction hr with
  | spent => exact ⟨hx, by simp⟩
  | solved h1 => exact ⟨hx, h1.le.trans ((le_max_left _ _).trans (le_max_left _ _))⟩
  | tiny h1 h2 h3 =>
    obtain ⟨-, h4⟩ := h.search hx hl hl' (lt_of_lt_of_le (by positivity) h1) h2
    have h5 := h.long hx hl hl' h4
    refine ⟨hx, le_trans ?_ ((le_max_right _ _).trans (le_max_left _ _))⟩
    rw [le_div_iff₀ (by positivity)]
    have h6 : (0 : ℝ) < 10 ^ 12 := by positivity
    have h7 := mul_lt_mul_of_pos_right (h5.trans_lt h3) h6
    rw [one_div, inv_mul_cancel₀ h6.ne'] at h7
    linarith
  | stalled h1 h2 h3 h4 =>
    have h0 := lt_of_lt_of_le (by positivity) h1
    obtain ⟨-, h5⟩ := h.search hx hl hl' h0 h2
    have h6 := h.cost hx hl hl' h5
    exact ⟨h.stays hx hl hl' h5, by linarith⟩
  | step h1 h2 h3 h4 _ ih =>
    have h0 := lt_of_lt_of_le (by positivity) h1
    obtain ⟨rfl, h5⟩ := h.search hx hl hl' h0 h2
    obtain ⟨h6, h7⟩ := ih (lt_max_of_lt_right (by positivity)) (max_le (by linarith) (by norm_num)) (h.stays hx hl hl' h5)
    refine ⟨h6, h7.trans (max_le_max le_rfl ?_)⟩
    have h8 := h.cost hx hl hl' h5
    rw [pow_succ', ← div_div]
    exact div_le_div_of_nonneg_right h8 (by positivity)

/-- The only residual is the length of a vector minus a number; a step along the gradient changes the length of the vector, not its direction. -/
structure Gap (P : Fitting) (dx dy R : List ℝ → ℝ) (s t : ℝ) : Prop where
  m : P.m = 1
  s0 : 0 ≤ s
  t0 : 0 ≤ t
  lo : 1 ≤ s + t
  hi : s + t ≤ 3
  res : ∀ x, x.length = P.n → P.res x = [√(dx x ^ 2 + dy x ^ 2) - R x]
  norm : ∀ x, x.length = P.n → 0 < dx x ^ 2 + dy x ^ 2 → ∑ c ∈ range P.n, P.jac x 0 c ^ 2 = s + t
  step : ∀ x δ κ, x.length = P.n → δ.length = P.n → 0 < dx x ^ 2 + dy x ^ 2 → (∀ c < P.n, δ.getD c 0 = -κ * P.jac x 0 c) →
    dx (add x δ) = dx x * (1 - κ * s / √(dx x ^ 2 + dy x ^ 2)) ∧ dy (add x δ) = dy x * (1 - κ * s / √(dx x ^ 2 + dy x ^ 2)) ∧ R (add x δ) = R x + κ * t

/-- The length of the vector is positive, and the number is not negative. -/
def Open (P : Fitting) (dx dy R : List ℝ → ℝ) (x : List ℝ) : Prop := x.length = P.n ∧ 0 < dx x ^ 2 + dy x ^ 2 ∧ 0 ≤ R x

theorem Gap.after {P : Fitting} {dx dy R : List ℝ → ℝ} {s t : ℝ} (h : P.Gap dx dy R s t) {x δ : List ℝ} {lam : ℝ} (hx : P.Open dx dy R x) (hl : 0 < lam) (hs : P.IsStep x lam δ) :
    P.Open dx dy R (add x δ) ∧ √(dx (add x δ) ^ 2 + dy (add x δ) ^ 2) - R (add x δ) = lam / (s + t + lam) * (√(dx x ^ 2 + dy x ^ 2) - R x) ∧
      squares δ = (s + t) * ((√(dx x ^ 2 + dy x ^ 2) - R x) / (s + t + lam)) ^ 2 := by
  obtain ⟨h1, h2, h3⟩ := hx
  obtain ⟨h4, h5⟩ := hs.single h.m hl
  rw [h.norm x h1 h2, h.res x h1, List.getD_cons_zero] at h4 h5
  set L := √(dx x ^ 2 + dy x ^ 2) with hL
  have hL0 : 0 < L := Real.sqrt_pos.2 h2
  obtain ⟨h6, h7, h8⟩ := h.step x δ _ h1 hs.1 h2 h4
  have hs0 := h.s0
  have ht0 := h.t0
  have hd : 0 < s + t + lam := by linarith
  have h9 : dx (add x δ) ^ 2 + dy (add x δ) ^ 2 = (L - (L - R x) / (s + t + lam) * s) ^ 2 := by
    rw [h6, h7, ← hL]
    have h10 : L ^ 2 = dx x ^ 2 + dy x ^ 2 := Real.sq_sqrt h2.le
    calc _ = (dx x ^ 2 + dy x ^ 2) * (1 - (L - R x) / (s + t + lam) * s / L) ^ 2 := by ring
      _ = (L * (1 - (L - R x) / (s + t + lam) * s / L)) ^ 2 := by rw [← h10]; ring
      _ = _ := by
        congr 1
        field_simp
  have h10 : L - (L - R x) / (s + t + lam) * s = (L * (t + lam) + s * R x) / (s + t + lam) := by
    field_simp
    ring
  have h11 : 0 < L - (L - R x) / (s + t + lam) * s := by
    rw [h10]
    exact div_pos (add_pos_of_pos_of_nonneg (mul_pos hL0 (by linarith)) (mul_nonneg hs0 h3)) hd
  have h12 : R (add x δ) = (R x * (s + lam) + t * L) / (s + t + lam) := by
    rw [h8]
    field_simp
    ring
  refine ⟨⟨by simp [add, h1, hs.1], by rw [h9]; positivity, ?_⟩, ?_, h5⟩
  · rw [h12]
    exact div_nonneg (add_nonneg (mul_nonneg h3 (by linarith)) (mul_nonneg ht0 hL0.le)) hd.le
  · rw [h9, Real.sqrt_sq h11.le, h10, h12]
    field_simp
    ring

theorem Gap.contracts {P : Fitting} {dx dy R : List ℝ → ℝ} {s t : ℝ} (h : P.Gap dx dy R s t) : P.Contracts (P.Open dx dy R) (6 / 25) := by
  have hcost : ∀ x, x.length = P.n → P.cost x = (√(dx x ^ 2 + dy x ^ 2) - R x) ^ 2 := by
    intro x hx
    rw [cost, h.res x hx]
    simp [squares]
  have hlo := h.lo
  have hhi := h.hi
  refine ⟨fun hx hl _ hs => (h.after hx hl hs).1, ?_, ?_⟩
  · intro x δ lam hx hl hl' hs
    obtain ⟨h1, h2, -⟩ := h.after hx hl hs
    rw [hcost _ h1.1, hcost _ hx.1, h2, mul_pow]
    have h3 : lam / (s + t + lam) ≤ 1 / 3 := by
      rw [div_le_div_iff₀ (by linarith) (by norm_num)]
      linarith
    have h4 : 0 ≤ lam / (s + t + lam) := div_nonneg hl.le (by linarith)
    have h5 : (lam / (s + t + lam)) ^ 2 ≤ 1 / 9 := by
      have := pow_le_pow_left₀ h4 h3 2
      norm_num at this ⊢
      exact this
    have h6 := mul_le_mul_of_nonneg_right h5 (sq_nonneg (√(dx x ^ 2 + dy x ^ 2) - R x))
    linarith
  · intro x δ lam hx hl hl' hs
    obtain ⟨-, -, h3⟩ := h.after hx hl hs
    rw [hcost _ hx.1, h3, div_pow, ← mul_div_assoc, le_div_iff₀ (by positivity)]
    have h4 : 6 / 25 * (s + t + lam) ^ 2 ≤ s + t := by nlinarith
    nlinarith [sq_nonneg (√(dx x ^ 2 + dy x ^ 2) - R x)]

/-- The residual is small at the end. -/
theorem Gap.run {P : Fitting} {dx dy R : List ℝ → ℝ} {s t : ℝ} (h : P.Gap dx dy R s t) {x z : List ℝ} (hx : P.Open dx dy R x) (hr : P.Run 100 x (1 / 2) z) (hc : P.cost x ≤ 10 ^ 80) :
    P.Open dx dy R z ∧ P.cost z ≤ 1 / 10 ^ 8 := by
  obtain ⟨h1, h2⟩ := h.contracts.run (by norm_num) (by norm_num) le_rfl hx hr
  refine ⟨h1, h2.trans (max_le (max_le le_rfl (by norm_num)) ?_)⟩
  rw [div_le_iff₀ (by positivity)]
  refine hc.trans ?_
  norm_num

end Fitting
end Fiksi.Spec

namespace Fiksi
open Spec

/-! ## The expressions with one such equation -/

theorem slot_ite {sub : Subsystem ℝ} {x : List ℝ} (k : Nat) (vs : List Nat) (gs : List ℝ) :
    (slotVals k ((vs.map (sub.varOf x)).zip gs)).sum = (List.zipWith (fun v g => if sub.freeVariables.idxOf? v = some k then g else 0) vs gs).sum := by
  induction vs generalizing gs with
  | nil => simp [slotVals]
  | cons v vs ih =>
    cases gs with
    | nil => simp [slotVals]
    | cons g gs =>
      rw [List.map_cons, List.zip_cons_cons, List.zipWith_cons_cons, List.sum_cons, ← ih]
      unfold Subsystem.varOf
      cases sub.freeVariables.idxOf? v with
      | none => simp [slotVals]
      | some i =>
        simp only [slotVals, Option.some.injEq]
        split <;> simp

theorem ite_none {free : List Nat} {k v : Nat} (hv : free.idxOf? v = some k) {vs : List Nat} (hn : v ∉ vs) (gs : List ℝ) :
    (List.zipWith (fun w g => if free.idxOf? w = some k then g else 0) vs gs).sum = 0 := by
  induction vs generalizing gs with
  | nil => simp
  | cons w vs ih =>
    cases gs with
    | nil => simp
    | cons g gs =>
      rw [List.mem_cons, not_or] at hn
      rw [List.zipWith_cons_cons, List.sum_cons, ih hn.2, if_neg, add_zero]
      intro hw
      obtain ⟨h1, h2, -⟩ := List.idxOf?_eq_some_iff.1 hv
      obtain ⟨h3, h4, -⟩ := List.idxOf?_eq_some_iff.1 hw
      exact hn.1 (h2.symm.trans h4)

theorem ite_one {free : List Nat} {k v : Nat} (hv : free.idxOf? v = some k) {vs : List Nat} (hn : vs.Nodup) {gs : List ℝ} {i : Nat} {g : ℝ} (h1 : vs[i]? = some v) (h2 : gs[i]? = some g) :
    (List.zipWith (fun w g => if free.idxOf? w = some k then g else 0) vs gs).sum = g := by
  induction vs generalizing gs i with
  | nil => simp at h1
  | cons w vs ih =>
    cases gs with
    | nil => simp at h2
    | cons g' gs =>
      rw [List.nodup_cons] at hn
      rw [List.zipWith_cons_cons, List.sum_cons]
      cases i with
      | zero =>
        simp only [List.getElem?_cons_zero, Option.some.injEq] at h1 h2
        subst h1 h2
        rw [if_pos hv, ite_none hv hn.1, add_zero]
      | succ i =>
        rw [List.getElem?_cons_succ] at h1 h2
        rw [ih hn.2 h1 h2, if_neg, zero_add]
        intro hw
        obtain ⟨h3, h4, -⟩ := List.idxOf?_eq_some_iff.1 hv
        obtain ⟨h5, h6, -⟩ := List.idxOf?_eq_some_iff.1 hw
        exact hn.1 ((h6.symm.trans h4) ▸ List.mem_of_getElem? h1)

/-- One if the variable is free. -/
noncomputable def act (free : List Nat) (v : Nat) : ℝ := if v ∈ free then 1 else 0

theorem valueOf_add {sub : Subsystem ℝ} {x δ : List ℝ} (hx : x.length = sub.freeVariables.length) (hδ : δ.length = sub.freeVariables.length) (v : Nat) :
    sub.valueOf (Fitting.add x δ) v = sub.valueOf x v + changeOf sub.freeVariables δ v := by
  by_cases hv : v ∈ sub.freeVariables
  · rw [valueOf_in hv, valueOf_in hv, changeOf_add hx hδ]
  · rw [valueOf_out hv, valueOf_out hv, changeOf_out hv, add_zero]

/-- The problem of a subsystem with one equation. -/
theorem Subsystem.Ok.single {sub : Subsystem ℝ} (hok : sub.Ok) {id : Nat} {e : Expr ℝ} (hids : sub.expressions = [id]) (he : sub.allExpressions[id]? = some e) (hn : e.variableIndices.Nodup) :
    ∃ P : Fitting, sub.problem.Computes P sub.pattern ∧ P.m = 1 ∧ P.n = sub.freeVariables.length ∧ (∀ x, x.length = sub.freeVariables.length → sub.calculateResiduals x = .ok (P.res x)) ∧
      ∀ x, x.length = sub.freeVariables.length → ∀ rg, e.computeResidualAndGradient (e.variableIndices.map (sub.valueOf x)) = .ok rg →
        P.res x = [rg.1] ∧
        (∀ δ κ, δ.length = sub.freeVariables.length → (∀ c < P.n, δ.getD c 0 = -κ * P.jac x 0 c) →
          ∀ (i v : Nat) g, e.variableIndices[i]? = some v → rg.2[i]? = some g → changeOf sub.freeVariables δ v = -κ * (act sub.freeVariables v * g)) ∧
        (rg.2.length = e.variableIndices.length → ∑ c ∈ Finset.range P.n, P.jac x 0 c ^ 2 = (List.zipWith (fun v g => act sub.freeVariables v * g ^ 2) e.variableIndices rg.2).sum) := by
  obtain ⟨P, h1, h2, -, h3⟩ := hok.fitting_rows
  have hm : P.m = 1 := by rw [← h1.rows]; show sub.expressions.length = 1; rw [hids]; rfl
  have hnn : P.n = sub.freeVariables.length := h1.columns.symm
  refine ⟨P, h1, hm, hnn, h2, fun x hx rg hrg => ?_⟩
  have hmem : id ∈ sub.expressions := by rw [hids]; simp
  obtain ⟨e', he', hv⟩ := hok id hmem
  rw [he] at he'
  cases he'
  obtain ⟨rg', h4, h5, -⟩ := rowData_total hx he hv
  rw [hrg] at h4
  cases h4
  obtain ⟨h6, h7⟩ := h3 x hx 0 id _ (by rw [hids]; rfl) h5
  have hjac : ∀ c, P.jac x 0 c = (List.zipWith (fun v g => if sub.freeVariables.idxOf? v = some c then g else 0) e.variableIndices rg.2).sum := by
    intro c
    rw [h7, slot_ite]
  have hone : ∀ (i v : Nat) g k, e.variableIndices[i]? = some v → rg.2[i]? = some g → sub.freeVariables.idxOf? v = some k → P.jac x 0 k = g := by
    intro i v g k g1 g2 g3
    rw [hjac, ite_one g3 hn g1 g2]
  have hch : ∀ δ κ, δ.length = sub.freeVariables.length → (∀ c < P.n, δ.getD c 0 = κ * P.jac x 0 c) →
      ∀ (i v : Nat) g, e.variableIndices[i]? = some v → rg.2[i]? = some g → changeOf sub.freeVariables δ v = κ * (act sub.freeVariables v * g) := by
    intro δ κ hδ hκ i v g g1 g2
    unfold changeOf act
    cases hk : sub.freeVariables.idxOf? v with
    | none => rw [if_neg (List.idxOf?_eq_none_iff.1 hk)]; simp
    | some k =>
      obtain ⟨g3, g4, -⟩ := List.idxOf?_eq_some_iff.1 hk
      simp only
      rw [if_pos (g4 ▸ List.getElem_mem g3), one_mul, hκ k (by rw [hnn]; exact g3), hone i v g k g1 g2 hk]
  refine ⟨?_, fun δ κ hδ hκ => hch δ (-κ) hδ hκ, fun hlen => ?_⟩
  · have h8 : (P.res x).length = 1 := by rw [← hm]; exact (h1.residuals x (hx.trans hnn.symm)).2
    obtain ⟨a, ha⟩ := List.length_eq_one_iff.1 h8
    rw [ha] at h6 ⊢
    rw [List.getD_cons_zero] at h6
    rw [h6]
  · have h8 : ∀ c < P.n, ((List.range P.n).map (P.jac x 0)).getD c 0 = P.jac x 0 c := by
      intro c hc
      rw [List.getD_eq_getElem?_getD, List.getElem?_map, List.getElem?_range hc]
      rfl
    have h9 : ∑ c ∈ Finset.range P.n, P.jac x 0 c ^ 2 =
        ∑ c ∈ Finset.range P.n, (slotVals c ((e.variableIndices.map (sub.varOf x)).zip rg.2)).sum * ((List.range P.n).map (P.jac x 0)).getD c 0 := by
      refine Finset.sum_congr rfl fun c hc => ?_
      rw [h8 c (Finset.mem_range.1 hc), ← h7, sq]
    rw [h9, slot_sum _ _ (fun p hp y i hpi => ?_), varOf_change]
    · rw [List.take_of_length_le hlen.le]
      refine congrArg List.sum (List.ext_getElem (by simp [hlen]) fun i i1 i2 => ?_)
      have i3 : i < e.variableIndices.length := by
        rw [List.length_zipWith] at i2
        omega
      have i4 : i < rg.2.length := by omega
      simp only [List.getElem_zipWith, List.getElem_map]
      rw [hch _ 1 (by simp [hnn]) (fun c hc => by rw [h8 c hc, one_mul]) i _ _ (List.getElem?_eq_getElem i3) (List.getElem?_eq_getElem i4)]
      ring
    · obtain ⟨hp1, -⟩ := List.of_mem_zip hp
      obtain ⟨v, -, h10⟩ := List.mem_map.1 hp1
      rw [hpi] at h10
      unfold Subsystem.varOf at h10
      split at h10
      · rename_i k hk
        cases h10
        rw [hnn]
        exact (List.idxOf?_eq_some_iff.1 hk).1
      · cases h10

theorem act_nonneg (free : List Nat) (v : Nat) : 0 ≤ act free v := by
  unfold act
  split <;> norm_num

theorem act_le_one (free : List Nat) (v : Nat) : act free v ≤ 1 := by
  unfold act
  split <;> norm_num

theorem act_of_mem {free : List Nat} {v : Nat} (h : v ∈ free) : act free v = 1 := if_pos h

/-- A distance of two points. -/
theorem Subsystem.Ok.distance_gap {sub : Subsystem ℝ} (hok : sub.Ok) {id p q : Nat} {d : ℝ} (hids : sub.expressions = [id]) (he : sub.allExpressions[id]? = some (.pointPointDistance p q d))
    (hn : [p, p + 1, q, q + 1].Nodup) (hp : p ∈ sub.freeVariables ↔ p + 1 ∈ sub.freeVariables) (hq : q ∈ sub.freeVariables ↔ q + 1 ∈ sub.freeVariables)
    (hfree : p ∈ sub.freeVariables ∨ q ∈ sub.freeVariables) :
    ∃ P : Fitting, sub.problem.Computes P sub.pattern ∧ P.m = 1 ∧ P.n = sub.freeVariables.length ∧ (∀ x, x.length = sub.freeVariables.length → sub.calculateResiduals x = .ok (P.res x)) ∧
      P.Gap (fun x => sub.valueOf x p - sub.valueOf x q) (fun x => sub.valueOf x (p + 1) - sub.valueOf x (q + 1)) (fun _ => d) (act sub.freeVariables p + act sub.freeVariables q) 0 := by
  obtain ⟨P, h1, h2, h3, h4, h5⟩ := hok.single hids he hn
  have hp' : act sub.freeVariables (p + 1) = act sub.freeVariables p := by simp only [act, hp]
  have hq' : act sub.freeVariables (q + 1) = act sub.freeVariables q := by simp only [act, hq]
  have hpos : ∀ x, 0 < (sub.valueOf x p - sub.valueOf x q) ^ 2 + (sub.valueOf x (p + 1) - sub.valueOf x (q + 1)) ^ 2 →
      0 < √((sub.valueOf x p - sub.valueOf x q) ^ 2 + (sub.valueOf x (p + 1) - sub.valueOf x (q + 1)) ^ 2) := fun x hx => Real.sqrt_pos.2 hx
  refine ⟨P, h1, h2, h3, h4, h2, add_nonneg (act_nonneg _ _) (act_nonneg _ _), le_rfl, ?_, ?_, ?_, ?_, ?_⟩
  · rcases hfree with hf | hf <;> rw [act_of_mem hf] <;> linarith [act_nonneg sub.freeVariables p, act_nonneg sub.freeVariables q]
  · linarith [act_le_one sub.freeVariables p, act_le_one sub.freeVariables q]
  · intro x hx
    obtain ⟨h6, -, -⟩ := h5 x (hx.trans h3) _ rfl
    rw [h6]
    simp only [ppdResGrad, FloatOps.sqrt, square, sq]
  · intro x hx hL
    obtain ⟨-, -, h8⟩ := h5 x (hx.trans h3) _ rfl
    rw [h8 rfl]
    simp only [Expr.variableIndices, ppdResGrad, FloatOps.sqrt, square, List.zipWith_cons_cons, List.zipWith_nil_left, List.sum_cons, List.sum_nil, hp', hq']
    simp only [← sq]
    have hL' := hpos x hL
    have hsq := Real.sq_sqrt hL.le
    set L := √((sub.valueOf x p - sub.valueOf x q) ^ 2 + (sub.valueOf x (p + 1) - sub.valueOf x (q + 1)) ^ 2) with hLd
    field_simp
    rw [hsq]
    ring
  · intro x δ κ hx hδ hL hκ
    obtain ⟨-, h7, -⟩ := h5 x (hx.trans h3) _ rfl
    have h8 := h7 δ κ (hδ.trans h3) hκ
    have c0 := h8 0 _ _ rfl rfl
    have c1 := h8 1 _ _ rfl rfl
    have c2 := h8 2 _ _ rfl rfl
    have c3 := h8 3 _ _ rfl rfl
    have hL' := hpos x hL
    simp only [FloatOps.sqrt, square, hp', hq'] at c0 c1 c2 c3
    simp only [← sq] at c0 c1 c2 c3
    simp only [valueOf_add (hx.trans h3) (hδ.trans h3), c0, c1, c2, c3]
    set L := √((sub.valueOf x p - sub.valueOf x q) ^ 2 + (sub.valueOf x (p + 1) - sub.valueOf x (q + 1)) ^ 2) with hLd
    refine ⟨?_, ?_, by ring⟩
    · field_simp
      ring
    · field_simp
      ring

/-- A point on a circle. -/
theorem Subsystem.Ok.circle_gap {sub : Subsystem ℝ} (hok : sub.Ok) {id p q r : Nat} (hids : sub.expressions = [id]) (he : sub.allExpressions[id]? = some (.pointCircleIncidence p q r))
    (hn : [p, p + 1, q, q + 1, r].Nodup) (hp : p ∈ sub.freeVariables ↔ p + 1 ∈ sub.freeVariables) (hq : q ∈ sub.freeVariables ↔ q + 1 ∈ sub.freeVariables)
    (hfree : p ∈ sub.freeVariables ∨ q ∈ sub.freeVariables ∨ r ∈ sub.freeVariables) :
    ∃ P : Fitting, sub.problem.Computes P sub.pattern ∧ P.m = 1 ∧ P.n = sub.freeVariables.length ∧ (∀ x, x.length = sub.freeVariables.length → sub.calculateResiduals x = .ok (P.res x)) ∧
      P.Gap (fun x => sub.valueOf x p - sub.valueOf x q) (fun x => sub.valueOf x (p + 1) - sub.valueOf x (q + 1)) (fun x => sub.valueOf x r) (act sub.freeVariables p + act sub.freeVariables q)
        (act sub.freeVariables r) := by
  obtain ⟨P, h1, h2, h3, h4, h5⟩ := hok.single hids he hn
  have hp' : act sub.freeVariables (p + 1) = act sub.freeVariables p := by simp only [act, hp]
  have hq' : act sub.freeVariables (q + 1) = act sub.freeVariables q := by simp only [act, hq]
  have hpos : ∀ x, 0 < (sub.valueOf x p - sub.valueOf x q) ^ 2 + (sub.valueOf x (p + 1) - sub.valueOf x (q + 1)) ^ 2 →
      0 < √((sub.valueOf x p - sub.valueOf x q) ^ 2 + (sub.valueOf x (p + 1) - sub.valueOf x (q + 1)) ^ 2) := fun x hx => Real.sqrt_pos.2 hx
  refine ⟨P, h1, h2, h3, h4, h2, add_nonneg (act_nonneg _ _) (act_nonneg _ _), act_nonneg _ _, ?_, ?_, ?_, ?_, ?_⟩
  · rcases hfree with hf | hf | hf <;> rw [act_of_mem hf] <;> linarith [act_nonneg sub.freeVariables p, act_nonneg sub.freeVariables q, act_nonneg sub.freeVariables r]
  · linarith [act_le_one sub.freeVariables p, act_le_one sub.freeVariables q, act_le_one sub.freeVariables r]
  · intro x hx
    obtain ⟨h6, -, -⟩ := h5 x (hx.trans h3) _ rfl
    rw [h6]
    simp only [pciResGrad, ppdResGrad, FloatOps.sqrt, square, sq]
  · intro x hx hL
    obtain ⟨-, -, h8⟩ := h5 x (hx.trans h3) _ rfl
    rw [h8 rfl]
    simp only [Expr.variableIndices, pciResGrad, ppdResGrad, FloatOps.sqrt, square, List.cons_append, List.nil_append, List.zipWith_cons_cons, List.zipWith_nil_left, List.sum_cons, List.sum_nil, hp', hq']
    simp only [← sq]
    have hL' := hpos x hL
    have hsq := Real.sq_sqrt hL.le
    set L := √((sub.valueOf x p - sub.valueOf x q) ^ 2 + (sub.valueOf x (p + 1) - sub.valueOf x (q + 1)) ^ 2) with hLd
    field_simp
    rw [hsq]
    ring
  · intro x δ κ hx hδ hL hκ
    obtain ⟨-, h7, -⟩ := h5 x (hx.trans h3) _ rfl
    have h8 := h7 δ κ (hδ.trans h3) hκ
    have c0 := h8 0 _ _ rfl rfl
    have c1 := h8 1 _ _ rfl rfl
    have c2 := h8 2 _ _ rfl rfl
    have c3 := h8 3 _ _ rfl rfl
    have c4 := h8 4 _ _ rfl rfl
    have hL' := hpos x hL
    simp only [FloatOps.sqrt, square, hp', hq'] at c0 c1 c2 c3 c4
    simp only [← sq] at c0 c1 c2 c3 c4
    simp only [valueOf_add (hx.trans h3) (hδ.trans h3), c0, c1, c2, c3, c4]
    set L := √((sub.valueOf x p - sub.valueOf x q) ^ 2 + (sub.valueOf x (p + 1) - sub.valueOf x (q + 1)) ^ 2) with hLd
    refine ⟨?_, ?_, by ring⟩
    · field_simp
      ring
    · field_simp
      ring

end Fiksi
