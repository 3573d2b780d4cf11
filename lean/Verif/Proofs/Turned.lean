import Verif.Proofs.LinearModel
/-!
# Subsystems that are images of each other

The variables of the second subsystem are those of the first one in another order, and pairs of variables are turned or mirrored. If the sums of the squares of the linear models agree, then so do
the runs of Levenberg–Marquardt.
-/
namespace Fiksi
open Spec

/-- Variable `v` of the second system is `a v` times variable `pos v` of the first one plus `b v` times variable `pos (mate v)`. -/
structure Turn where
  pos : Nat → Nat
  inv : Nat → Nat
  mate : Nat → Nat
  a : Nat → ℝ
  b : Nat → ℝ

/-- The values in the second system. -/
noncomputable def Turn.apply (t : Turn) (g : Nat → ℝ) (v : Nat) : ℝ := t.a v * g (t.pos v) + t.b v * g (t.pos (t.mate v))

/-- The values in the first system. -/
noncomputable def Turn.undo (t : Turn) (g : Nat → ℝ) (v : Nat) : ℝ := t.a (t.inv v) * g (t.inv v) + t.b (t.mate (t.inv v)) * g (t.mate (t.inv v))

/-- The map of the first `n` variables is orthogonal. -/
structure Turn.Ok (t : Turn) (n : Nat) : Prop where
  mate_lt : ∀ v < n, t.mate v < n
  mate_mate : ∀ v < n, t.mate (t.mate v) = v
  row : ∀ v < n, t.a v ^ 2 + t.b v ^ 2 = 1
  rows : ∀ v < n, t.a v * t.b (t.mate v) + t.b v * t.a (t.mate v) = 0
  column : ∀ v < n, t.a v ^ 2 + t.b (t.mate v) ^ 2 = 1
  columns : ∀ v < n, t.a v * t.b v + t.a (t.mate v) * t.b (t.mate v) = 0

/-- The free variables correspond to each other. -/
structure Turn.Fits (t : Turn) (n : Nat) (free free' : List Nat) : Prop where
  nodup : free.Nodup
  nodup' : free'.Nodup
  lt : ∀ v ∈ free', v < n
  mate : ∀ v < n, t.mate v ∈ free' ↔ v ∈ free'
  pos : ∀ v < n, t.pos v ∈ free ↔ v ∈ free'
  inv_pos : ∀ v ∈ free', t.inv (t.pos v) = v
  inv : ∀ v ∈ free, t.inv v ∈ free'
  pos_inv : ∀ v ∈ free, t.pos (t.inv v) = v

section
variable {free : List Nat} {x δ : List ℝ}

theorem changeOf_map {v : Nat} (hv : v ∈ free) (f : Nat → ℝ) : changeOf free (free.map f) v = f v := by
  unfold changeOf
  cases hk : free.idxOf? v with
  | none => exact absurd hv (List.idxOf?_eq_none_iff.1 hk)
  | some k =>
    obtain ⟨hlt, h1, -⟩ := List.idxOf?_eq_some_iff.1 hk
    simp [List.getD_eq_getElem?_getD, List.getElem?_eq_getElem hlt, h1]

theorem changeOf_out {v : Nat} (hv : v ∉ free) (δ : List ℝ) : changeOf free δ v = 0 := by
  unfold changeOf
  rw [List.idxOf?_eq_none_iff.2 hv]

theorem changeOf_at (hn : free.Nodup) {k : Nat} {v : Nat} (hk : free[k]? = some v) (δ : List ℝ) : changeOf free δ v = δ.getD k 0 := by
  unfold changeOf
  have hv := List.mem_of_getElem? hk
  cases hj : free.idxOf? v with
  | none => exact absurd hv (List.idxOf?_eq_none_iff.1 hj)
  | some j =>
    obtain ⟨hlt, h1, -⟩ := List.idxOf?_eq_some_iff.1 hj
    obtain ⟨hlt', h2⟩ := List.getElem?_eq_some_iff.1 hk
    have : j = k := (List.Nodup.getElem_inj_iff hn).1 (h1.trans h2.symm)
    subst this
    rfl

theorem changeOf_self (hn : free.Nodup) (hx : x.length = free.length) : free.map (changeOf free x) = x := by
  refine List.ext_getElem (by simpa using hx.symm) fun i h1 h2 => ?_
  have h3 : i < free.length := by simpa using h1
  rw [List.getElem_map, changeOf_at hn (List.getElem?_eq_getElem h3), List.getD_eq_getElem?_getD, List.getElem?_eq_getElem h2, Option.getD_some]

theorem changeOf_add (hx : x.length = free.length) (hδ : δ.length = free.length) (v : Nat) : changeOf free (Fitting.add x δ) v = changeOf free x v + changeOf free δ v := by
  unfold changeOf
  cases free.idxOf? v with
  | none => simp
  | some k => exact Fitting.add_getD hx hδ k

theorem valueOf_in {sub : Subsystem ℝ} {v : Nat} (hv : v ∈ sub.freeVariables) : sub.valueOf x v = changeOf sub.freeVariables x v := by
  unfold Subsystem.valueOf changeOf
  cases hk : sub.freeVariables.idxOf? v with
  | none => exact absurd hv (List.idxOf?_eq_none_iff.1 hk)
  | some k => rfl

theorem valueOf_out {sub : Subsystem ℝ} {v : Nat} (hv : v ∉ sub.freeVariables) : sub.valueOf x v = sub.systemVariables.getD v 0 := by
  unfold Subsystem.valueOf
  rw [List.idxOf?_eq_none_iff.2 hv]

theorem squares_map_sum (hn : free.Nodup) (f : Nat → ℝ) : squares (free.map f) = ∑ v ∈ free.toFinset, f v ^ 2 := by
  rw [squares, List.map_map, List.sum_toFinset _ hn]
  rfl

end

theorem Expr.linear_congr (e : Expr ℝ) {g g' d d' : Nat → ℝ} (hg : ∀ v ∈ e.variableIndices, g v = g' v) (hd : ∀ v ∈ e.variableIndices, d v = d' v) : e.linear g d = e.linear g' d' := by
  unfold Expr.linear
  rw [List.map_congr_left hg, List.map_congr_left hd]

theorem model_zero {P : Fitting} {x : List ℝ} (hr : (P.res x).length = P.m) : P.model x (List.replicate P.n 0) = P.cost x := by
  rw [Fitting.model, Fitting.cost, squares_eq_sum, hr]
  refine Finset.sum_congr rfl fun r _ => ?_
  have h1 : ∀ c, (List.replicate P.n (0 : ℝ)).getD c 0 = 0 := by
    intro c
    rw [List.getD_eq_getElem?_getD, List.getElem?_replicate]
    split <;> rfl
  simp only [h1, mul_zero, Finset.sum_const_zero, zero_add]

section
variable {t : Turn} {n : Nat} {free free' : List Nat} (ht : t.Ok n) (hf : t.Fits n free free')
include ht hf

theorem Turn.apply_undo {g h : Nat → ℝ} (hg : ∀ v ∈ free, g v = t.undo h v) {v : Nat} (hv : v ∈ free') : t.apply g v = h v := by
  have hlt := hf.lt v hv
  have hm := (hf.mate v hlt).2 hv
  have hmlt := ht.mate_lt v hlt
  unfold Turn.apply
  rw [hg _ ((hf.pos v hlt).2 hv), hg _ ((hf.pos _ hmlt).2 hm), Turn.undo, Turn.undo, hf.inv_pos v hv, hf.inv_pos _ hm, ht.mate_mate v hlt]
  linear_combination h v * ht.row v hlt + h (t.mate v) * ht.rows v hlt

theorem Turn.isometry (g : Nat → ℝ) : ∑ v ∈ free'.toFinset, t.apply g v ^ 2 = ∑ v ∈ free.toFinset, g v ^ 2 := by
  have h1 : ∑ v ∈ free'.toFinset, t.b v ^ 2 * g (t.pos (t.mate v)) ^ 2 = ∑ v ∈ free'.toFinset, t.b (t.mate v) ^ 2 * g (t.pos v) ^ 2 := by
    refine Finset.sum_nbij' t.mate t.mate (fun v hv => ?_) (fun v hv => ?_) (fun v hv => ?_) (fun v hv => ?_) (fun v hv => ?_) <;> rw [List.mem_toFinset] at hv
    · rw [List.mem_toFinset]; exact (hf.mate v (hf.lt v hv)).2 hv
    · rw [List.mem_toFinset]; exact (hf.mate v (hf.lt v hv)).2 hv
    · exact ht.mate_mate v (hf.lt v hv)
    · exact ht.mate_mate v (hf.lt v hv)
    · rw [ht.mate_mate v (hf.lt v hv)]
  have h2 : ∑ v ∈ free'.toFinset, t.a v * t.b v * (g (t.pos v) * g (t.pos (t.mate v))) = ∑ v ∈ free'.toFinset, t.a (t.mate v) * t.b (t.mate v) * (g (t.pos v) * g (t.pos (t.mate v))) := by
    refine Finset.sum_nbij' t.mate t.mate (fun v hv => ?_) (fun v hv => ?_) (fun v hv => ?_) (fun v hv => ?_) (fun v hv => ?_) <;> rw [List.mem_toFinset] at hv
    · rw [List.mem_toFinset]; exact (hf.mate v (hf.lt v hv)).2 hv
    · rw [List.mem_toFinset]; exact (hf.mate v (hf.lt v hv)).2 hv
    · exact ht.mate_mate v (hf.lt v hv)
    · exact ht.mate_mate v (hf.lt v hv)
    · rw [ht.mate_mate v (hf.lt v hv)]; ring
  have h3 : ∑ v ∈ free'.toFinset, t.apply g v ^ 2 = ∑ v ∈ free'.toFinset, g (t.pos v) ^ 2 := by
    have h4 : ∀ v, t.apply g v ^ 2 = t.a v ^ 2 * g (t.pos v) ^ 2 + t.b v ^ 2 * g (t.pos (t.mate v)) ^ 2 + 2 * (t.a v * t.b v * (g (t.pos v) * g (t.pos (t.mate v)))) := by
      intro v
      rw [Turn.apply]
      ring
    simp only [h4]
    rw [Finset.sum_add_distrib, Finset.sum_add_distrib, h1, ← Finset.mul_sum, two_mul]
    nth_rewrite 2 [h2]
    rw [← Finset.sum_add_distrib, ← Finset.sum_add_distrib, ← Finset.sum_add_distrib]
    refine Finset.sum_congr rfl fun v hv => ?_
    have hlt := hf.lt v (List.mem_toFinset.1 hv)
    linear_combination g (t.pos v) ^ 2 * ht.column v hlt + g (t.pos v) * g (t.pos (t.mate v)) * ht.columns v hlt
  rw [h3]
  refine Finset.sum_nbij' t.pos t.inv (fun v hv => ?_) (fun v hv => ?_) (fun v hv => ?_) (fun v hv => ?_) (fun v hv => rfl) <;> rw [List.mem_toFinset] at hv
  · rw [List.mem_toFinset]; exact (hf.pos v (hf.lt v hv)).2 hv
  · rw [List.mem_toFinset]; exact hf.inv v hv
  · exact hf.inv_pos v hv
  · exact hf.pos_inv v hv

theorem Turn.apply_in {g h : Nat → ℝ} (hg : ∀ v ∈ free, g v = h v) {v : Nat} (hv : v ∈ free') : t.apply g v = t.apply h v := by
  have hlt := hf.lt v hv
  rw [Turn.apply, Turn.apply, hg _ ((hf.pos v hlt).2 hv), hg _ ((hf.pos _ (ht.mate_lt v hlt)).2 ((hf.mate v hlt).2 hv))]

theorem Turn.apply_out {g h : Nat → ℝ} (hg : ∀ v, v ∉ free → g v = h v) {v : Nat} (hlt : v < n) (hv : v ∉ free') : t.apply g v = t.apply h v := by
  rw [Turn.apply, Turn.apply, hg _ (fun hc => hv ((hf.pos v hlt).1 hc)), hg _ (fun hc => hv ((hf.mate v hlt).1 ((hf.pos _ (ht.mate_lt v hlt)).1 hc)))]

omit hf in
theorem Turn.apply_zero (v : Nat) {g : Nat → ℝ} (hg : ∀ v, g v = 0) : t.apply g v = 0 := by
  have := ht
  rw [Turn.apply, hg, hg]
  ring

end

/-- Two subsystems, the second of which is the image of the first one. -/
theorem Turn.carries {t : Turn} {n : Nat} {sub sub' : Subsystem ℝ} (ht : t.Ok n) (hf : t.Fits n sub.freeVariables sub'.freeVariables) (hok' : sub'.Ok)
    (hn : sub'.systemVariables.length = n) (hvars : ∀ v < n, sub'.systemVariables.getD v 0 = t.apply (fun v => sub.systemVariables.getD v 0) v)
    (hmodel : ∀ g d, (sub'.expressions.map fun id => ((sub'.allExpressions[id]?.map fun e => e.linear (t.apply g) (t.apply d)).getD 0) ^ 2).sum =
      (sub.expressions.map fun id => ((sub.allExpressions[id]?.map fun e => e.linear g d).getD 0) ^ 2).sum)
    {P P' : Fitting} (hPn : P.n = sub.freeVariables.length) (hPn' : P'.n = sub'.freeVariables.length)
    (hres : ∀ x, x.length = P.n → (P.res x).length = P.m) (hres' : ∀ x, x.length = P'.n → (P'.res x).length = P'.m)
    (hP : ∀ x δ, x.length = sub.freeVariables.length → δ.length = sub.freeVariables.length →
      P.model x δ = (sub.expressions.map fun id => ((sub.allExpressions[id]?.map fun e => e.linear (sub.valueOf x) (changeOf sub.freeVariables δ)).getD 0) ^ 2).sum)
    (hP' : ∀ x δ, x.length = sub'.freeVariables.length → δ.length = sub'.freeVariables.length →
      P'.model x δ = (sub'.expressions.map fun id => ((sub'.allExpressions[id]?.map fun e => e.linear (sub'.valueOf x) (changeOf sub'.freeVariables δ)).getD 0) ^ 2).sum) :
    P.Carries P' (fun x => sub'.freeVariables.map (t.apply (changeOf sub.freeVariables x))) := by
  set T : List ℝ → List ℝ := fun x => sub'.freeVariables.map (t.apply (changeOf sub.freeVariables x)) with hT
  have hlen : ∀ x, (T x).length = sub'.freeVariables.length := fun x => by simp [hT]
  have hval : ∀ x v, v < n → sub'.valueOf (T x) v = t.apply (sub.valueOf x) v := by
    intro x v hv
    by_cases hm : v ∈ sub'.freeVariables
    · rw [valueOf_in hm, changeOf_map hm]
      exact t.apply_in ht hf (fun u hu => (valueOf_in hu).symm) hm
    · rw [valueOf_out hm, hvars v hv]
      exact t.apply_out ht hf (fun u hu => (valueOf_out hu).symm) hv hm
  have hchange : ∀ δ v, v < n → changeOf sub'.freeVariables (T δ) v = t.apply (changeOf sub.freeVariables δ) v := by
    intro δ v hv
    by_cases hm : v ∈ sub'.freeVariables
    · rw [changeOf_map hm]
    · rw [changeOf_out hm]
      have h1 := t.apply_out ht hf (g := changeOf sub.freeVariables δ) (h := fun _ => 0) (fun u hu => changeOf_out hu δ) hv hm
      rw [h1, Turn.apply_zero ht v fun _ => rfl]
  have hmod : ∀ x δ, x.length = P.n → δ.length = P.n → P'.model (T x) (T δ) = P.model x δ := by
    intro x δ hx hδ
    rw [hP x δ (hx.trans hPn) (hδ.trans hPn), hP' _ _ (hlen x) (hlen δ), ← hmodel]
    refine congrArg List.sum (List.map_congr_left fun id hid => ?_)
    obtain ⟨e, he, hv⟩ := hok' id hid
    rw [he, Option.map_some, Option.getD_some, Option.map_some, Option.getD_some]
    rw [hn] at hv
    rw [e.linear_congr (fun v h => hval x v (hv v h)) (fun v h => hchange δ v (hv v h))]
  refine ⟨fun x _ => (hlen x).trans hPn'.symm, fun y hy => ?_, fun x δ hx hδ => ?_, fun x hx => ?_, fun x hx => ?_, hmod⟩
  · refine ⟨sub.freeVariables.map (t.undo (changeOf sub'.freeVariables y)), by simp [hPn], ?_⟩
    have h1 : T (sub.freeVariables.map (t.undo (changeOf sub'.freeVariables y))) = sub'.freeVariables.map (changeOf sub'.freeVariables y) :=
      List.map_congr_left fun v hv => t.apply_undo ht hf (fun u hu => changeOf_map hu _) hv
    rw [h1]
    exact changeOf_self hf.nodup' (hy.trans hPn')
  · simp only [hT]
    rw [Fitting.add, List.zipWith_map, List.zipWith_self]
    refine List.map_congr_left fun v _ => ?_
    rw [Turn.apply, Turn.apply, Turn.apply, changeOf_add (hx.trans hPn) (hδ.trans hPn), changeOf_add (hx.trans hPn) (hδ.trans hPn)]
    ring
  · simp only [hT]
    rw [squares_map_sum hf.nodup', t.isometry ht hf, ← squares_map_sum hf.nodup, changeOf_self hf.nodup (hx.trans hPn)]
  · rw [← model_zero (hres x hx), ← model_zero (hres' _ ((hlen x).trans hPn'.symm)), ← hmod x _ hx (by simp)]
    congr 1
    simp only [hT]
    refine List.ext_getElem (by simp [hPn']) fun i h1 h2 => ?_
    rw [List.getElem_replicate, List.getElem_map, Turn.apply_zero ht]
    intro v
    unfold changeOf
    cases sub.freeVariables.idxOf? v with
    | none => rfl
    | some k =>
      simp only [List.getD_eq_getElem?_getD, List.getElem?_replicate]
      split <;> rfl

end Fiksi
