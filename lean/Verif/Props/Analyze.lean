import Verif.Proofs.Analyze
import Verif.Proofs.Plan
/-!
# C30: what `System::analyze` reports
-/
namespace Fiksi

open Spec

/-! ## The elimination -/

/-- The rank of the first `k` rows of a matrix with `n` columns. -/
noncomputable def Spec.rowRank (n : Nat) (A : List ℝ) (k : Nat) : Nat :=
  Module.finrank ℝ (Submodule.span ℝ (rowVec n A '' {t | t < k}))

theorem gauss_counts {eps : ℝ} {nr n : Nat} {A : List ℝ} {st : GaussState ℝ} (h : GaussOk eps nr n A (min nr n) st) :
    (falseFlags st.increases).length + st.current = nr := by
  have h1 := falseFlags_length st.increases
  have h2 : rankOf st.increases nr = rankOf st.increases (min nr n) := by
    have : ∀ k, min nr n + k ≤ nr → rankOf st.increases (min nr n + k) = rankOf st.increases (min nr n) := by
      intro k
      induction k with
      | zero => intro _; rfl
      | succ k ih =>
        intro hk
        rw [← Nat.add_assoc, rankOf_succ (h.laterFlag (min nr n + k) (by omega) (by omega)), ih (by omega)]
        simp
    have h3 := this (nr - min nr n) (by omega)
    rwa [show min nr n + (nr - min nr n) = nr by omega] at h3
  rw [h.increases] at h1
  rw [h.current]
  omega

/-- C30 (elimination, partial): without tolerance, on a matrix that has no more rows than columns, or whose first `n` rows are
independent, a row is reported iff it is a linear combination of the rows before it, and the number of rows that are not reported is
the rank. (Full statement: for all matrices; false, see `C30_tall_matrix_wrong`.) -/
theorem C30_elimination_partial {nr n : Nat} {A : List ℝ} (hA : A.length = nr * n)
    (hshape : nr ≤ n ∨ ∀ t < n, ¬ DependentRow n A t) :
    ∃ st, gaussJordan 0 A nr n (List.range n) = .ok st ∧ st.increases.length = nr ∧
      (∀ t < nr, st.increases[t]? = some false ↔ DependentRow n A t) ∧
      (falseFlags st.increases).length + rowRank n A nr = nr := by
  obtain ⟨st, h1, h2, h3⟩ := gaussJordan_ok (eps := 0) (le_refl _) hA (columns := List.range n)
    ⟨by simp, by simp, by simp, List.nodup_range⟩
  have hrank := h2.rank_eq (min_le_left _ _) (min_le_right _ _) rfl
  have hcount := gauss_counts h2
  by_cases hle : nr ≤ n
  · rw [min_eq_left hle] at h3 hrank
    exact ⟨st, h1, h2.increases, h3 rfl, by rw [rowRank, ← hrank]; exact hcount⟩
  · have hind : ∀ t < n, ¬ DependentRow n A t := hshape.resolve_left hle
    have hmin : min nr n = n := min_eq_right (by omega)
    rw [hmin] at h3 hrank
    have hcur : st.current = n := by
      rw [h2.current, hmin, rankOf]
      have : ∀ b ∈ st.increases.take n, true = b := by
        intro b hb
        obtain ⟨t, ht, rfl⟩ := List.getElem_of_mem hb
        rw [List.length_take] at ht
        rw [List.getElem_take]
        by_contra hne
        refine hind t (by omega) ((h3 rfl t (by omega)).1 ?_)
        rw [List.getElem?_eq_getElem (by omega)]
        simpa using hne
      rw [List.count_eq_length.2 this, List.length_take, h2.increases]
      omega
    have htop : Submodule.span ℝ (rowVec n A '' {t | t < n}) = ⊤ := by
      apply Submodule.eq_top_of_finrank_eq
      rw [← hrank, hcur]
      simp
    have htop' : ∀ t, n ≤ t → Submodule.span ℝ (rowVec n A '' {s | s < t}) = ⊤ := by
      intro t ht
      rw [eq_top_iff, ← htop]
      exact Submodule.span_mono (Set.image_mono (fun s (hs : s < n) => lt_of_lt_of_le hs ht))
    refine ⟨st, h1, h2.increases, ?_, ?_⟩
    · intro t ht
      by_cases htn : t < n
      · exact h3 rfl t htn
      · refine ⟨fun _ => ?_, fun _ => h2.laterFlag t (by omega) ht⟩
        rw [DependentRow, htop' t (by omega)]
        trivial
    · rw [rowRank, htop' nr (by omega), finrank_top, Module.finrank_fin_fun]
      omega

/-- C30 (elimination, any tolerance): the elimination does not panic, the rows from number `n` on are always reported, and the number
of rows that are not reported is at most the rank. -/
theorem C30_elimination_rank_le {eps : ℝ} (heps : 0 ≤ eps) {nr n : Nat} {A : List ℝ} (hA : A.length = nr * n) :
    ∃ st, gaussJordan eps A nr n (List.range n) = .ok st ∧ st.increases.length = nr ∧
      (∀ t, n ≤ t → t < nr → st.increases[t]? = some false) ∧
      nr ≤ (falseFlags st.increases).length + rowRank n A nr := by
  obtain ⟨st, h1, h2, -⟩ := gaussJordan_ok heps hA (columns := List.range n) ⟨by simp, by simp, by simp, List.nodup_range⟩
  refine ⟨st, h1, h2.increases, fun t ht htr => h2.laterFlag t (by omega) htr, ?_⟩
  have hcount := gauss_counts h2
  have hrank := h2.rank_le (min_le_right _ _)
  have : Module.finrank ℝ (Submodule.span ℝ (rowVec n A '' {t | t < min nr n})) ≤ rowRank n A nr :=
    Submodule.finrank_mono (Submodule.span_mono (Set.image_mono (fun s (hs : s < min nr n) => lt_of_lt_of_le hs (min_le_left _ _))))
  omega

/-- C30 is false for matrices with more rows than columns: of the rows `(1, 0), (1, 0), (0, 1)` the last is reported, with every
tolerance, although it is independent of the others. -/
theorem C30_tall_matrix_wrong : ∃ (A : List ℝ), A.length = 3 * 2 ∧ ¬ DependentRow 2 A 2 ∧
    ∀ eps : ℝ, 0 ≤ eps → ∃ st, gaussJordan eps A 3 2 (List.range 2) = .ok st ∧ st.increases[2]? = some false := by
  refine ⟨[1, 0, 1, 0, 0, 1], rfl, ?_, ?_⟩
  · intro h
    have hle : Submodule.span ℝ (rowVec 2 [1, 0, 1, 0, 0, 1] '' {t | t < 2}) ≤ LinearMap.ker (LinearMap.proj (R := ℝ) (φ := fun _ : Fin 2 => ℝ) 1) := by
      rw [Submodule.span_le]
      rintro _ ⟨t, ht, rfl⟩
      have ht : t < 2 := ht
      interval_cases t <;> simp [rowVec, ent]
    have := hle h
    simp [rowVec, ent] at this
  · intro eps heps
    obtain ⟨st, h1, -, h3, -⟩ := C30_elimination_rank_le heps (nr := 3) (n := 2) (A := [1, 0, 1, 0, 0, 1]) rfl
    exact ⟨st, h1, h3 2 (by omega) (by omega)⟩

/-! ## Systems -/

/-- Row `i` of `G` is the gradient of the residual of expression `i` with respect to all variables, at their current values. -/
def Spec.GradientRows (s : System ℝ) (G : Nat → Fin s.vars.length → ℝ) : Prop :=
  ∀ (i : Nat) (e : Expr ℝ), s.expressions[i]? = some e → ∀ v : Fin s.vars.length, ∃ f : ℝ → ℝ,
    (∀ x, e.calculateResidual (identityMap (s.vars.set v x)) = .ok (f x)) ∧ HasDerivAt f (G i v) (s.vars.getD v 0)

theorem analyze_shape {counter : Nat} {ops : List (Op ℝ)} {c : Client ℝ} (h : Reaches counter ops c) {eps : ℝ} (heps : 0 ≤ eps) :
    ∃ rs jac st l, c.sys.whole.denseJacobian c.sys.vars (List.replicate c.sys.expressions.length 0)
        (List.replicate (c.sys.expressions.length * c.sys.vars.length) 0) = .ok (rs, jac) ∧
      jac.length = c.sys.expressions.length * c.sys.vars.length ∧
      gaussJordan eps jac c.sys.expressions.length c.sys.vars.length (List.range c.sys.vars.length) = .ok st ∧
      c.sys.findOverconstraints eps = .ok l ∧
      List.Forall₂ (HandleOfExpression c.sys) (falseFlags st.increases) l := by
  have hlen : c.sys.whole.freeVariables.length = c.sys.vars.length := by simp [System.whole]
  have hlen' : c.sys.whole.expressions.length = c.sys.expressions.length := by simp [System.whole]
  obtain ⟨rs, jac, h1, h2, h3, -⟩ := dense_fold (sub := c.sys.whole) (u := c.sys.vars) rfl c.sys.whole.expressions 0
    (List.replicate c.sys.expressions.length 0) (List.replicate (c.sys.expressions.length * c.sys.vars.length) 0)
    (fun id hid => by
      obtain ⟨e, he, hv⟩ := h.wholeOk id hid
      obtain ⟨rg, -, h, -⟩ := rowData_total (by rw [hlen]) he hv
      exact ⟨_, h, slotsLt_of _ _⟩) (by simp [hlen']) (by simp [hlen, hlen'])
  have h3 : jac.length = c.sys.expressions.length * c.sys.vars.length := by simpa using h3
  obtain ⟨st, h4, h5, -⟩ := gaussJordan_ok heps h3 (columns := List.range c.sys.vars.length)
    ⟨by simp, by simp, by simp, List.nodup_range⟩
  obtain ⟨l, h6, h7⟩ := mapM_forall₂ (f := fun p : Bool × Nat => c.sys.overconstraint p.2)
    (Q := fun p hd => HandleOfExpression c.sys p.2 hd) (st.increases.zipIdx.filter (fun p => !p.1)) (by
      rintro ⟨b, i⟩ hp
      have := (List.mem_zipIdx' (List.mem_filter.1 hp).1).1
      rw [h5.increases] at this
      exact h.overconstraint this)
  refine ⟨rs, jac, st, l, h1, h3, h4, ?_, ?_⟩
  · rw [System.findOverconstraints]
    simp only
    rw [c.sys.whole_jacobian, Subsystem.denseJacobian]
    simp only
    rw [h1, ok_bind]
    simp only
    rw [h4, ok_bind, h6]
  · rw [falseFlags, List.forall₂_map_left_iff]
    exact h7

/-- C30: on every system that can be built, with any tolerance, the analysis does not panic, and it returns the handles of the
constraints owning certain expressions, in the order of the expressions. -/
theorem C30_analyze_no_panic {counter : Nat} {ops : List (Op ℝ)} {c : Client ℝ} (h : Reaches counter ops c) :
    ∃ l flagged, c.sys.analyze = .ok l ∧ flagged.Pairwise (· < ·) ∧ (∀ i ∈ flagged, i < c.sys.expressions.length) ∧
      List.Forall₂ (HandleOfExpression c.sys) flagged l := by
  obtain ⟨rs, jac, st, l, -, h2, h3, h4, h5⟩ := analyze_shape h (eps := FloatOps.ofNat 1 / FloatOps.ofNat (10 ^ 8))
    (by simp only [FloatOps.ofNat]; positivity)
  refine ⟨l, _, h4, falseFlags_sorted _, ?_, h5⟩
  intro i hi
  obtain ⟨st', g1, g2, -⟩ := gaussJordan_ok (eps := FloatOps.ofNat 1 / FloatOps.ofNat (10 ^ 8))
    (by simp only [FloatOps.ofNat]; positivity) h2 (columns := List.range c.sys.vars.length) ⟨by simp, by simp, by simp, List.nodup_range⟩
  rw [h3, Except.ok.injEq] at g1
  subst g1
  rw [← g2.increases]
  exact lt_of_getElem? (mem_falseFlags.1 hi)

theorem jacobian_gradientRows {counter : Nat} {ops : List (Op ℝ)} {c : Client ℝ} (h : Reaches counter ops c)
    (hsmooth : ∀ e ∈ c.sys.expressions, SmoothAt e (e.variableIndices.map (fun v => c.sys.vars.getD v 0)))
    (hnd : ∀ e ∈ c.sys.expressions, e.variableIndices.Nodup) {rs jac : List ℝ}
    (h1 : c.sys.whole.denseJacobian c.sys.vars (List.replicate c.sys.expressions.length 0)
        (List.replicate (c.sys.expressions.length * c.sys.vars.length) 0) = .ok (rs, jac)) :
    GradientRows c.sys (rowVec c.sys.vars.length jac) := by
  have hlen : c.sys.whole.freeVariables.length = c.sys.vars.length := by simp [System.whole]
  have hlen' : c.sys.whole.expressions.length = c.sys.expressions.length := by simp [System.whole]
  have hval : ∀ u : List ℝ, u.length = c.sys.vars.length → ∀ e ∈ c.sys.expressions,
      e.variableIndices.map (c.sys.whole.valueOf u) = e.variableIndices.map (fun v => u.getD v 0) := by
    intro u hu e he
    apply List.map_congr_left
    intro v hv
    have hlt := h.crel.rel.expr_lt he hv
    have : c.sys.whole.freeVariables.idxOf? v = some v := by
      simp only [System.whole]
      rw [idxOf?_range, if_pos hlt]
    rw [Subsystem.valueOf, this]
  have hall : ∀ id ∈ c.sys.whole.expressions, ∀ e, c.sys.whole.allExpressions[id]? = some e → e ∈ c.sys.expressions :=
    fun id _ e he => List.mem_of_getElem? he
  obtain ⟨rs1, ts1, d1, d2, d3⟩ := C29_sparse_is_derivative h.wholeOk (u := c.sys.vars) (by rw [hlen])
    (fun id hid e he => by rw [hval _ rfl e (hall id hid e he)]; exact hsmooth e (hall id hid e he))
    (List.replicate c.sys.expressions.length 0) (by simp [hlen'])
  obtain ⟨rs2, ts2, jac2, s1, s2, s3, s4⟩ := C29_dense_eq_sparse_partial h.wholeOk (u := c.sys.vars) (by rw [hlen])
    (fun id hid e he => hnd e (hall id hid e he)) (List.replicate c.sys.expressions.length 0) (by simp [hlen'])
  rw [d1, Except.ok.injEq, Prod.mk.injEq] at s1
  obtain ⟨-, rfl⟩ := s1
  rw [hlen, hlen'] at s2
  rw [h1, Except.ok.injEq, Prod.mk.injEq] at s2
  obtain ⟨-, rfl⟩ := s2
  intro i e he v
  have hi : i < c.sys.expressions.length := lt_of_getElem? he
  obtain ⟨f, f1, f2⟩ := d3 i (by omega) v (by rw [hlen]; exact v.2)
  refine ⟨f, ?_, ?_⟩
  · intro x
    obtain ⟨rs', r1, r2⟩ := f1 x
    obtain ⟨rs'', q1, q2, q3⟩ := residuals_total h.wholeOk (u := c.sys.vars.set v x) (by simp [hlen])
    rw [r1, Except.ok.injEq] at q1
    obtain ⟨r, q4, q5⟩ := q3 i i e (by simp only [System.whole]; exact List.getElem?_range hi) he
    rw [c.sys.whole_getValue _ (by simp)] at q4
    rw [q4]
    rw [← q1, r2] at q5
    cases q5
    rfl
  · have := s4 i (by omega) v (by rw [hlen]; exact v.2)
    rw [hlen] at this
    rw [show rowVec c.sys.vars.length jac i v = entrySum ts1 i v by
      rw [rowVec, ent, List.getD_eq_getElem?_getD, this]; rfl]
    exact f2

/-- C30 (partial): consider a system that can be built, at values where the residuals are differentiable, in which no expression
takes the same variable twice. If it has no more expressions than variables, or the first `n` gradients are independent (`n` the
number of variables), then without tolerance the analysis reports exactly the constraints owning an expression whose gradient is
a linear combination of those of the expressions before it (once per such expression), and the number of the other expressions is the
rank of the Jacobian. (Full statement: for all systems, with the tolerance of the code; false, see `C30_tall_system_wrong` and
`C30_tolerance_wrong`.) -/
theorem C30_analyze_partial {counter : Nat} {ops : List (Op ℝ)} {c : Client ℝ} (h : Reaches counter ops c)
    (hsmooth : ∀ e ∈ c.sys.expressions, SmoothAt e (e.variableIndices.map (fun v => c.sys.vars.getD v 0)))
    (hnd : ∀ e ∈ c.sys.expressions, e.variableIndices.Nodup) :
    ∃ G l, GradientRows c.sys G ∧ c.sys.findOverconstraints 0 = .ok l ∧
      ((c.sys.expressions.length ≤ c.sys.vars.length ∨
          ∀ i < c.sys.vars.length, G i ∉ Submodule.span ℝ (G '' {t | t < i})) →
        ∃ flagged : List Nat, flagged.Pairwise (· < ·) ∧ List.Forall₂ (HandleOfExpression c.sys) flagged l ∧
          (∀ i, i ∈ flagged ↔ i < c.sys.expressions.length ∧ G i ∈ Submodule.span ℝ (G '' {t | t < i})) ∧
          l.length + Module.finrank ℝ (Submodule.span ℝ (G '' {t | t < c.sys.expressions.length})) = c.sys.expressions.length) := by
  obtain ⟨rs, jac, st, l, h1, h2, h3, h4, h5⟩ := analyze_shape h (le_refl (0 : ℝ))
  refine ⟨rowVec c.sys.vars.length jac, l, jacobian_gradientRows h hsmooth hnd h1, h4, ?_⟩
  intro hshape
  obtain ⟨st', g1, g2, g3, g4⟩ := C30_elimination_partial h2 hshape
  rw [h3, Except.ok.injEq] at g1
  subst g1
  refine ⟨falseFlags st.increases, falseFlags_sorted _, h5, ?_, ?_⟩
  · intro i
    rw [mem_falseFlags]
    constructor
    · intro hi
      have hlt : i < c.sys.expressions.length := by rw [← g2]; exact lt_of_getElem? hi
      exact ⟨hlt, (g3 i hlt).1 hi⟩
    · rintro ⟨hi, hd⟩
      exact (g3 i hi).2 hd
  · rw [← h5.length_eq]
    exact g4

/-- Two points made coincident twice, a case for `C30_analyze_partial`: four expressions in four variables, two of them dependent. -/
noncomputable def doubleOps : List (Op ℝ) :=
  [.createPoint 0 0, .createPoint 1 0, .createCon (.pointPointCoincidence 0 1), .createCon (.pointPointCoincidence 0 1)]

example : ∃ c, Reaches 0 doubleOps c ∧ c.sys.expressions.length ≤ c.sys.vars.length ∧ c.sys.expressions.length = 4 ∧
    (∀ e ∈ c.sys.expressions, SmoothAt e (e.variableIndices.map (fun v => c.sys.vars.getD v 0))) ∧
    (∀ e ∈ c.sys.expressions, e.variableIndices.Nodup) := by
  obtain ⟨c, h⟩ := exists_reaches 0 doubleOps (by
    simp [doubleOps, Store.LegalRun, Store.Legal, Store.empty, Store.step, Store.IsPoint, Store.ConOk]) (by simp [doubleOps])
  have hv : c.sys.vars = [0, 0, 1, 0] := h.crel.rel.vars
  have he : c.sys.expressions = [.variableVariableEquality 0 2, .variableVariableEquality 1 3, .variableVariableEquality 0 2,
      .variableVariableEquality 1 3] := h.crel.rel.exprs
  refine ⟨c, h, by simp [hv, he], by simp [he], ?_, ?_⟩ <;>
  · intro e hme
    rw [he] at hme
    simp only [List.mem_cons, List.not_mem_nil, or_false] at hme
    rcases hme with rfl | rfl | rfl | rfl <;> first | trivial | decide

/-- A matrix for the second alternative of `C30_elimination_partial`: three rows, two columns, the first two rows independent. -/
example : ∀ t < 2, ¬ DependentRow 2 [1, 0, 0, 1, 1, 1] t := by
  intro t ht h
  interval_cases t
  · simp [DependentRow] at h
    have := congrFun h 0
    simp [rowVec, ent] at this
  · have hle : Submodule.span ℝ (rowVec 2 [1, 0, 0, 1, 1, 1] '' {t | t < 1}) ≤ LinearMap.ker (LinearMap.proj (R := ℝ) (φ := fun _ : Fin 2 => ℝ) 1) := by
      rw [Submodule.span_le]
      rintro _ ⟨t, ht, rfl⟩
      have ht : t < 1 := ht
      interval_cases t
      simp [rowVec, ent]
    have := hle h
    simp [rowVec, ent] at this

/-! ## Witnesses -/

theorem vve_gradient {s : System ℝ} {G : Nat → Fin s.vars.length → ℝ} (hG : GradientRows s G) {i a b : Nat}
    (he : s.expressions[i]? = some (.variableVariableEquality a b)) (hab : a ≠ b) (ha : a < s.vars.length) (hb : b < s.vars.length)
    (v : Fin s.vars.length) : G i v = if (v : Nat) = a then -1 else if (v : Nat) = b then 1 else 0 := by
  obtain ⟨f, f1, f2⟩ := hG i _ he v
  have hf : ∀ x, f x = (s.vars.set v x).getD b 0 - (s.vars.set v x).getD a 0 := by
    intro x
    have := f1 x
    have e1 : idx (s.vars.set v x) a = .ok ((s.vars.set v x).getD a 0) := idx_of (by
      rw [List.getD_eq_getElem?_getD, List.getElem?_eq_getElem (by simpa using ha)]; rfl)
    have e2 : idx (s.vars.set v x) b = .ok ((s.vars.set v x).getD b 0) := idx_of (by
      rw [List.getD_eq_getElem?_getD, List.getElem?_eq_getElem (by simpa using hb)]; rfl)
    rw [Expr.calculateResidual] at this
    simp only [Expr.variableIndices, List.mapM_cons, List.mapM_nil, identityMap] at this
    rw [e1, e2] at this
    exact (Except.ok.inj this).symm
  have hd : HasDerivAt f (if (v : Nat) = a then -1 else if (v : Nat) = b then 1 else 0) (s.vars.getD v 0) := by
    rw [show f = _ from funext hf]
    by_cases h1 : (v : Nat) = a
    · rw [if_pos h1]
      have : (fun x => (s.vars.set v x).getD b 0 - (s.vars.set v x).getD a 0) = fun x => s.vars.getD b 0 - x := by
        funext x
        rw [← h1, List.getD_eq_getElem?_getD, List.getD_eq_getElem?_getD, List.getElem?_set_ne (by omega), List.getElem?_set_self v.2,
          List.getD_eq_getElem?_getD]
        rfl
      rw [this]
      simpa using (hasDerivAt_id (s.vars.getD v 0)).const_sub (s.vars.getD b 0)
    · rw [if_neg h1]
      by_cases h2 : (v : Nat) = b
      · rw [if_pos h2]
        have : (fun x => (s.vars.set v x).getD b 0 - (s.vars.set v x).getD a 0) = fun x => x - s.vars.getD a 0 := by
          funext x
          rw [← h2, List.getD_eq_getElem?_getD, List.getD_eq_getElem?_getD, List.getElem?_set_self v.2, List.getElem?_set_ne (by omega),
            List.getD_eq_getElem?_getD]
          rfl
        rw [this]
        exact (hasDerivAt_id (s.vars.getD v 0)).sub_const (s.vars.getD a 0)
      · rw [if_neg h2]
        have : (fun x => (s.vars.set v x).getD b 0 - (s.vars.set v x).getD a 0) = fun _ => s.vars.getD b 0 - s.vars.getD a 0 := by
          funext x
          rw [List.getD_eq_getElem?_getD, List.getD_eq_getElem?_getD, List.getElem?_set_ne (by omega), List.getElem?_set_ne (by omega),
            List.getD_eq_getElem?_getD, List.getD_eq_getElem?_getD]
        rw [this]
        exact hasDerivAt_const _ _
  exact f2.unique hd

/-- Three points; the first two are made coincident three times, then the first and the last. -/
noncomputable def tallOps : List (Op ℝ) :=
  [.createPoint 0 0, .createPoint 1 0, .createPoint 0 1,
   .createCon (.pointPointCoincidence 0 1), .createCon (.pointPointCoincidence 0 1), .createCon (.pointPointCoincidence 0 1),
   .createCon (.pointPointCoincidence 0 2)]

/-- C30 is false for systems with more expressions than variables: making two points coincident three times and then one of them
with a third point, the last constraint is reported, although the gradients of its expressions are independent of all the others. -/
theorem C30_tall_system_wrong : ∃ c, Reaches 0 tallOps c ∧ ∃ l, c.sys.analyze = .ok l ∧
    (∃ hd ∈ l, HandleOfExpression c.sys 6 hd) ∧
    ∀ G, GradientRows c.sys G → G 6 ∉ Submodule.span ℝ (G '' {t | t ≠ 6 ∧ t < 8}) := by
  obtain ⟨c, h⟩ := exists_reaches 0 tallOps (by
    simp [tallOps, Store.LegalRun, Store.Legal, Store.empty, Store.step, Store.IsPoint, Store.ConOk]) (by simp [tallOps])
  have hv : c.sys.vars = [0, 0, 1, 0, 0, 1] := h.crel.rel.vars
  have he : c.sys.expressions = [.variableVariableEquality 0 2, .variableVariableEquality 1 3, .variableVariableEquality 0 2,
      .variableVariableEquality 1 3, .variableVariableEquality 0 2, .variableVariableEquality 1 3, .variableVariableEquality 0 4,
      .variableVariableEquality 1 5] := h.crel.rel.exprs
  have hlen : c.sys.vars.length = 6 := by rw [hv]; rfl
  have hlen' : c.sys.expressions.length = 8 := by rw [he]; rfl
  have heps : (0 : ℝ) ≤ FloatOps.ofNat 1 / FloatOps.ofNat (10 ^ 8) := by simp only [FloatOps.ofNat]; positivity
  refine ⟨c, h, ?_⟩
  obtain ⟨rs, jac, st, l, -, h2, h3, h4, h5⟩ := analyze_shape h heps
  obtain ⟨st', g1, -, g3, -⟩ := C30_elimination_rank_le heps h2
  rw [h3, Except.ok.injEq] at g1
  subst g1
  refine ⟨l, h4, ?_, ?_⟩
  · have hm : 6 ∈ falseFlags st.increases := mem_falseFlags.2 (g3 6 (by omega) (by omega))
    obtain ⟨k, hk, hk'⟩ := List.getElem_of_mem hm
    have := h5.get hk (by rw [← h5.length_eq]; exact hk)
    refine ⟨_, List.get_mem l ⟨k, by rw [← h5.length_eq]; exact hk⟩, ?_⟩
    have hk'' : (falseFlags st.increases).get ⟨k, hk⟩ = 6 := hk'
    rw [hk''] at this
    exact this
  · intro G hG hmem
    have hle : Submodule.span ℝ (G '' {t | t ≠ 6 ∧ t < 8}) ≤ LinearMap.ker
        (LinearMap.proj (R := ℝ) (φ := fun _ : Fin c.sys.vars.length => ℝ) ⟨4, by omega⟩) := by
      rw [Submodule.span_le]
      rintro _ ⟨t, ⟨ht, ht'⟩, rfl⟩
      rw [SetLike.mem_coe, LinearMap.mem_ker, LinearMap.proj_apply]
      have key : ∀ a b : Nat, c.sys.expressions[t]? = some (.variableVariableEquality a b) → a ≠ b → a < 6 → b < 6 → a ≠ 4 → b ≠ 4 →
          G t ⟨4, by omega⟩ = 0 := by
        intro a b h1 h2 h3 h4 h5 h6
        rw [vve_gradient hG h1 h2 (by omega) (by omega), if_neg (by simpa using h5.symm), if_neg (by simpa using h6.symm)]
      interval_cases t
      · exact key 0 2 (by rw [he]; rfl) (by omega) (by omega) (by omega) (by omega) (by omega)
      · exact key 1 3 (by rw [he]; rfl) (by omega) (by omega) (by omega) (by omega) (by omega)
      · exact key 0 2 (by rw [he]; rfl) (by omega) (by omega) (by omega) (by omega) (by omega)
      · exact key 1 3 (by rw [he]; rfl) (by omega) (by omega) (by omega) (by omega) (by omega)
      · exact key 0 2 (by rw [he]; rfl) (by omega) (by omega) (by omega) (by omega) (by omega)
      · exact key 1 3 (by rw [he]; rfl) (by omega) (by omega) (by omega) (by omega) (by omega)
      · exact absurd rfl ht
      · exact key 1 5 (by rw [he]; rfl) (by omega) (by omega) (by omega) (by omega) (by omega)
    have := hle hmem
    rw [LinearMap.mem_ker, LinearMap.proj_apply,
      vve_gradient hG (a := 0) (b := 4) (by rw [he]; rfl) (by omega) (by omega) (by omega)] at this
    simp at this

theorem GradientRows.unique {s : System ℝ} {G G' : Nat → Fin s.vars.length → ℝ} (h : GradientRows s G) (h' : GradientRows s G') {i : Nat}
    (hi : i < s.expressions.length) : G i = G' i := by
  funext v
  obtain ⟨f, f1, f2⟩ := h i _ (List.getElem?_eq_getElem hi) v
  obtain ⟨f', f1', f2'⟩ := h' i _ (List.getElem?_eq_getElem hi) v
  have : f = f' := funext fun x => Except.ok.inj ((f1 x).symm.trans (f1' x))
  subst this
  exact f2.unique f2'

theorem small_row {eps : ℝ} {n : Nat} {A : List ℝ} (hn : 0 < n) (hA : A.length = 1 * n) (hsmall : ∀ c < n, |ent n A 0 c| ≤ eps) :
    ∃ st, gaussJordan eps A 1 n (List.range n) = .ok st ∧ st.increases = [false] := by
  have hcols : ColumnsOk n (List.range n) := ⟨by simp, by simp, by simp, List.nodup_range⟩
  obtain ⟨o, h1, h2⟩ := findPivot_spec (eps := eps) (nr := 1) (row := 0) hA (by omega) hcols n 0 (by omega)
  have ho : o = none := by
    cases o with
    | none => rfl
    | some j => exact absurd (hsmall _ (hcols.idx h2.2.1).2) (not_le.2 h2.2.2)
  subst ho
  refine ⟨⟨A, List.range n, 0, [false]⟩, ?_, rfl⟩
  rw [gaussJordan, min_eq_left hn]
  show ((List.range 1).foldlM (gaussRow eps n) ⟨A, List.range n, 0, [false]⟩) = _
  have h3 : gaussRow eps n ⟨A, List.range n, 0, [false]⟩ 0 = .ok ⟨A, List.range n, 0, [false]⟩ := by
    rw [gaussRow]
    show (findPivot eps n 0 (List.range n) A (n - 0) 0 >>= _) = _
    rw [Nat.sub_zero, h1, ok_bind]
    rfl
  show (gaussRow eps n ⟨A, List.range n, 0, [false]⟩ 0 >>= fun s => (pure s : R _)) = _
  rw [h3]
  rfl

/-- An angle between points that are far apart. -/
noncomputable def farOps : List (Op ℝ) :=
  [.createPoint 1000000000 0, .createPoint 0 0, .createPoint 0 1000000000, .createCon (.pointPointPointAngle 0 1 2 0)]

noncomputable def farJacobian : R (List ℝ × List ℝ) := do
  let c ← (Client.new ℝ 0).run farOps
  c.sys.whole.denseJacobian c.sys.vars (List.replicate c.sys.expressions.length 0)
        (List.replicate (c.sys.expressions.length * c.sys.vars.length) 0)

theorem farJacobian_eq : farJacobian = .ok (let p := pppaResGrad (1000000000 : ℝ) 0 0 0 0 1000000000 0; ([p.1], p.2)) := by rfl

/-- C30 is false with the tolerance of the code: if an angle at points 10⁹ apart is the only constraint, it is reported, although its
gradient is not zero. -/
theorem C30_tolerance_wrong : ∃ c, Reaches 0 farOps c ∧ ∃ hd, c.sys.analyze = .ok [hd] ∧ HandleOfExpression c.sys 0 hd ∧
    ∀ G, GradientRows c.sys G → G 0 ≠ 0 := by
  obtain ⟨c, h⟩ := exists_reaches 0 farOps (by
    simp [farOps, Store.LegalRun, Store.Legal, Store.empty, Store.step, Store.IsPoint, Store.ConOk]) (by simp [farOps])
  have hv : c.sys.vars = [1000000000, 0, 0, 0, 0, 1000000000] := h.crel.rel.vars
  have he : c.sys.expressions = [.pointPointPointAngle 0 2 4 0] := h.crel.rel.exprs
  have hlen : c.sys.vars.length = 6 := by rw [hv]; rfl
  have hlen' : c.sys.expressions.length = 1 := by rw [he]; rfl
  have heps : (0 : ℝ) ≤ FloatOps.ofNat 1 / FloatOps.ofNat (10 ^ 8) := by simp only [FloatOps.ofNat]; positivity
  have hj := farJacobian_eq
  rw [farJacobian, h.run, ok_bind] at hj
  obtain ⟨rs, jac, st, l, h1, h2, h3, h4, h5⟩ := analyze_shape h heps
  have hjac : jac = (pppaResGrad (1000000000 : ℝ) 0 0 0 0 1000000000 0).2 := by
    rw [h1, Except.ok.injEq, Prod.mk.injEq] at hj
    exact hj.2
  refine ⟨c, h, ?_⟩
  rw [hlen, hlen'] at h3 h2
  obtain ⟨st', g1, g2⟩ := small_row (eps := FloatOps.ofNat 1 / FloatOps.ofNat (10 ^ 8)) (n := 6) (A := jac) (by omega) h2 (by
    intro k hk
    rw [hjac]
    interval_cases k <;> simp [ent, pppaResGrad, FloatOps.ofNat] <;> norm_num)
  rw [h3, Except.ok.injEq] at g1
  subst g1
  rw [g2] at h5
  have h6 : falseFlags [false] = [0] := rfl
  rw [h6] at h5
  obtain ⟨hd, l', h7, h8, rfl⟩ := List.forall₂_cons_left_iff.1 h5
  have : l' = [] := by simpa using h8
  subst this
  refine ⟨hd, h4, h7, ?_⟩
  intro G hG h0
  have hs := jacobian_gradientRows h (by
    intro e hme
    rw [he, List.mem_singleton] at hme
    subst hme
    rw [hv]
    show ((⟨0, 1000000000⟩ : ℂ) - ⟨0, 0⟩) / (⟨1000000000, 0⟩ - ⟨0, 0⟩) ∈ Complex.slitPlane
    right
    simp [Complex.div_im, Complex.normSq]) (by
    intro e hme
    rw [he, List.mem_singleton] at hme
    subst hme
    decide) h1
  rw [GradientRows.unique hG hs (by omega)] at h0
  have := congrFun h0 ⟨1, by omega⟩
  simp only [rowVec, hjac, hlen] at this
  simp [ent, pppaResGrad] at this

end Fiksi
