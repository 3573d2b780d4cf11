import Verif.Props.ClusterJacobian
import Verif.Proofs.SubsystemLine
/-!
# Dense Jacobians of the problems of `RecursiveAssembly` (C63)
-/
namespace Fiksi

set_option linter.unusedSectionVars false
variable {F : Type} [Add F] [Sub F] [Mul F] [Div F] [Neg F] [Zero F] [One F] [FloatOps F]

open Spec (entrySum Op Store)

/-! ## The places of the entries -/

/-- Row and column of a triplet. -/
def place (t : Nat × Nat × F) : Nat × Nat := (t.1, t.2.1)

/-- The places of the entries of one expression. -/
def ClusteredSystem.exprPlaces (cs : ClusteredSystem) (exprs : List (Expr F)) (ei : Nat × Nat) : List (Nat × Nat) :=
  match exprs[ei.1]? with
  | some e => e.variableIndices.map fun v => (cs.numPoseExpressions + ei.2, cs.slot v)
  | none => []

/-- The column of the first coordinate of a point. -/
def ClusteredSystem.pointSlot (cs : ClusteredSystem) (elements : List EncodedElement) (point : Nat) : Nat :=
  match elements[point]? with
  | some (.point i) => cs.slot i
  | _ => 0

/-- The places of the entries of one point of cluster number `k`, from row `r`. -/
def pointPlaces (r k u : Nat) : List (Nat × Nat) :=
  [(r, 3 * k), (r, 3 * k + 1), (r, 3 * k + 2), (r + 1, 3 * k), (r + 1, 3 * k + 1), (r + 1, 3 * k + 2), (r, u), (r + 1, u + 1)]

/-- The places of the entries of the points of a cluster. -/
def ClusteredSystem.pointsPlaces (cs : ClusteredSystem) (elements : List EncodedElement) (k : Nat) : Nat → List Nat → List (Nat × Nat)
  | _, [] => []
  | r, p :: l => pointPlaces r k (cs.pointSlot elements p) ++ cs.pointsPlaces elements k (r + 2) l

/-- The places of the entries of the clusters. -/
def ClusteredSystem.clustersPlaces (cs : ClusteredSystem) (elements : List EncodedElement) : Nat → Nat → List (Nat × List Nat) → List (Nat × Nat)
  | _, _, [] => []
  | r, k, q :: l => cs.pointsPlaces elements k r q.2 ++ cs.clustersPlaces elements (r + 2 * q.2.length) (k + 1) l

/-- Different variables have different columns, after those of the poses. -/
structure ClusteredSystem.Slots (cs : ClusteredSystem) : Prop where
  after : ∀ v i, cs.mapping.get? v = some i → 3 * cs.clusters.length ≤ i
  inj : ∀ v v' i, cs.mapping.get? v = some i → cs.mapping.get? v' = some i → v = v'

theorem build_slots {s : System F} {T : List F} {step : RecombinationStep} {cs : ClusteredSystem} {values : List F}
    (h : ClusteredSystem.build s T step = .ok (cs, values)) : cs.Slots ∧ cs.numVariables = values.length := by
  simp only [ClusteredSystem.build, bind_eq_ok] at h
  obtain ⟨es, -, reach, -, elements, -, ⟨clusters, np⟩, -, ⟨mapping, vs⟩, h2, h⟩ := h
  cases h
  have key := foldlM_inv (fun st : IMap Nat Nat × List F => 3 * clusters.length ≤ st.2.length ∧
      (∀ v i, st.1.get? v = some i → 3 * clusters.length ≤ i ∧ i < st.2.length) ∧ ∀ v v' i, st.1.get? v = some i → st.1.get? v' = some i → v = v') _ _ _ _
    ⟨by simp [Nat.mul_comm], by simp [IMap.get?], by simp [IMap.get?]⟩ (fun st i st' _ hst h3 => ?_) h2
  · exact ⟨⟨fun v i hv => (key.2.1 v i hv).1, key.2.2⟩, rfl⟩
  · obtain ⟨a1, a2, a3⟩ := hst
    have ins : ∀ (m : IMap Nat Nat) (len k : Nat), 3 * clusters.length ≤ len → (∀ v i, m.get? v = some i → 3 * clusters.length ≤ i ∧ i < len) →
        (∀ v v' i, m.get? v = some i → m.get? v' = some i → v = v') →
        (∀ v i, (m.insert k len).get? v = some i → 3 * clusters.length ≤ i ∧ i < len + 1) ∧
        ∀ v v' i, (m.insert k len).get? v = some i → (m.insert k len).get? v' = some i → v = v' := by
      intro m len k hlen h1 h2
      refine ⟨fun v i hv => ?_, fun v v' i hv hv' => ?_⟩
      · rw [IMap.get?_insert] at hv
        split at hv
        · cases hv; omega
        · have := h1 v i hv; omega
      · rw [IMap.get?_insert] at hv hv'
        split at hv <;> split at hv'
        · rename_i e1 e2; rw [e1, e2]
        · cases hv; have := h1 _ _ hv'; omega
        · cases hv'; have := h1 _ _ hv; omega
        · exact h2 v v' i hv hv'
    rw [addElementVariables, bind_eq_ok] at h3
    obtain ⟨el, -, h3⟩ := h3
    cases el with
    | length j =>
      simp only [bind_eq_ok] at h3
      obtain ⟨v, -, h3⟩ := h3
      cases h3
      obtain ⟨b1, b2⟩ := ins st.1 st.2.length j a1 a2 a3
      exact ⟨by simp; omega, by simpa using b1, b2⟩
    | point j =>
      simp only [bind_eq_ok] at h3
      obtain ⟨x, -, y, -, h3⟩ := h3
      cases h3
      obtain ⟨b1, b2⟩ := ins st.1 st.2.length j a1 a2 a3
      obtain ⟨c1, c2⟩ := ins _ (st.2.length + 1) (j + 1) (by omega) b1 b2
      exact ⟨by simp; omega, fun v i hv => by have := c1 v i hv; simp only [List.length_append, List.length_cons, List.length_nil]; omega, c2⟩
    | line a b => cases h3; exact ⟨a1, a2, a3⟩
    | circle a b => cases h3; exact ⟨a1, a2, a3⟩

section
variable {cs : ClusteredSystem} {u : List ℝ}

theorem pushRow_place (row : Nat) (w : List ℝ) : ∀ (is : List Nat) (gs : List ℝ), gs.length = is.length →
    (pushRow row ((is.map fun v => Variable.free (w.getD (cs.slot v) 0) (cs.slot v)).zip gs)).map place = is.map fun v => (row, cs.slot v) := by
  intro is
  induction is with
  | nil => intro gs _; simp [pushRow]
  | cons i is ih =>
    intro gs h
    cases gs with
    | nil => simp at h
    | cons g gs =>
      simp only [List.map_cons, List.zip_cons_cons, pushRow]
      rw [ih gs (by simpa using h)]
      rfl

theorem variable_eq {v : Nat} {x : Variable ℝ} (h : cs.variable u v = .ok x) :
    x = .free (u.getD (cs.slot v) 0) (cs.slot v) ∧ cs.mapping.get? v = some (cs.slot v) ∧ cs.slot v < u.length := by
  simp only [ClusteredSystem.variable, bind_eq_ok, unwrap_eq_ok, idx_eq_ok] at h
  obtain ⟨i, h1, y, h2, h3⟩ := h
  cases h3
  have hs : cs.slot v = i := by rw [ClusteredSystem.slot, h1]; rfl
  rw [hs, List.getD_eq_getElem?_getD, h2]
  exact ⟨rfl, h1, lt_of_getElem? h2⟩

theorem exprs_places (hsl : cs.Slots) {exprs : List (Expr ℝ)} : ∀ (l : List Nat) (k : Nat) {st st' : List ℝ × List (Nat × Nat × ℝ)},
    (∀ id ∈ l, ∀ e, exprs[id]? = some e → e.variableIndices.Nodup) →
    (l.zipIdx k).foldlM (cs.exprRow exprs u) st = .ok st' →
    st'.2.map place = st.2.map place ++ (l.zipIdx k).flatMap (cs.exprPlaces exprs) ∧ ((l.zipIdx k).flatMap (cs.exprPlaces exprs)).Nodup ∧
      ∀ q ∈ (l.zipIdx k).flatMap (cs.exprPlaces exprs), cs.numPoseExpressions + k ≤ q.1 ∧ q.2 < u.length := by
  intro l
  induction l with
  | nil => intro k st st' _ h; cases h; simp
  | cons id l ih =>
    intro k st st' hnd h
    rw [List.zipIdx_cons, List.foldlM_cons, bind_eq_ok] at h
    obtain ⟨st1, h1, h2⟩ := h
    obtain ⟨a1, a2, a3⟩ := ih (k + 1) (fun id hid => hnd id (List.mem_cons_of_mem _ hid)) h2
    simp only [ClusteredSystem.exprRow, bind_eq_ok, idx_eq_ok, setIdx_eq_ok] at h1
    obtain ⟨e, h3, vars, h4, rg, h5, rs, -, h6⟩ := h1
    cases h6
    have hvar : ∀ v ∈ e.variableIndices, cs.mapping.get? v = some (cs.slot v) ∧ cs.slot v < u.length := by
      intro v hv
      obtain ⟨x, -, hx⟩ := forall₂_mem (mapM_forall h4) hv
      exact (variable_eq hx).2
    have hvars : vars = e.variableIndices.map fun v => Variable.free (u.getD (cs.slot v) 0) (cs.slot v) := by
      have h7 : e.variableIndices.mapM (cs.variable u) = .ok (e.variableIndices.map fun v => Variable.free (u.getD (cs.slot v) 0) (cs.slot v)) :=
        mapM_ok_of _ _ _ fun v hv => by
          obtain ⟨x, -, hx⟩ := forall₂_mem (mapM_forall h4) hv
          rw [hx, (variable_eq hx).1]
      rw [h4, Except.ok.injEq] at h7
      exact h7
    have hlen : rg.2.length = e.variableIndices.length := by
      refine gradient_length (h := fun v => u.getD (cs.slot v) 0) ?_
      rw [hvars, List.map_map] at h5
      exact h5
    have hpl : cs.exprPlaces exprs (id, k) = e.variableIndices.map fun v => (cs.numPoseExpressions + k, cs.slot v) := by
      rw [ClusteredSystem.exprPlaces, h3]
    rw [List.zipIdx_cons, List.flatMap_cons, hpl]
    refine ⟨?_, ?_, ?_⟩
    · rw [a1, List.map_append, hvars, pushRow_place _ _ _ _ hlen, List.append_assoc]
    · rw [List.nodup_append]
      refine ⟨(hnd id (List.mem_cons_self ..) e h3).map_on ?_, a2, ?_⟩
      · intro v hv v' hv' hvv
        have hvv : cs.slot v = cs.slot v' := (Prod.mk.inj hvv).2
        exact hsl.inj v v' _ (hvar v hv).1 (hvv ▸ (hvar v' hv').1)
      · rintro q hq q' hq' rfl
        obtain ⟨v, -, rfl⟩ := List.mem_map.1 hq
        have := (a3 _ hq').1
        simp only at this
        omega
    · intro q hq
      rcases List.mem_append.1 hq with hq | hq
      · obtain ⟨v, hv, rfl⟩ := List.mem_map.1 hq
        exact ⟨le_rfl, (hvar v hv).2⟩
      · have := a3 q hq
        exact ⟨by omega, this.2⟩

theorem pointTerm_eq {elements : List EncodedElement} {T : List ℝ} {point : Nat} {x y x' y' : ℝ} {v : Nat}
    (h : cs.pointTerm elements T u point = .ok ((x, y), v, (x', y'))) : v = cs.pointSlot elements point ∧ (∃ i, cs.mapping.get? i = some v) ∧ v + 1 < u.length := by
  rw [ClusteredSystem.pointTerm, bind_eq_ok] at h
  obtain ⟨el, h1, h⟩ := h
  rw [idx_eq_ok] at h1
  cases el with
  | point i =>
    simp only [bind_eq_ok, unwrap_eq_ok, idx_eq_ok] at h
    obtain ⟨a, h2, b, h3, v', h4, p, h5, q, h6, h7⟩ := h
    cases h7
    exact ⟨by rw [ClusteredSystem.pointSlot, h1]; simp [ClusteredSystem.slot, h4], ⟨i, h4⟩, lt_of_getElem? h6⟩
  | length i => cases h
  | line a b => cases h
  | circle a b => cases h

theorem points_places (hsl : cs.Slots) {elements : List EncodedElement} {T : List ℝ} {k : Nat} (hk : k < cs.clusters.length) {pose : Pose2D ℝ} (hp : poseAt u k = .ok pose) :
    ∀ (l : List Nat) {st st' : Nat × List ℝ × List (Nat × Nat × ℝ)}, l.foldlM (cs.pointRows elements T u k pose) st = .ok st' →
    st'.1 = st.1 + 2 * l.length ∧ st'.2.2.map place = st.2.2.map place ++ cs.pointsPlaces elements k st.1 l ∧ (cs.pointsPlaces elements k st.1 l).Nodup ∧
      ∀ q ∈ cs.pointsPlaces elements k st.1 l, st.1 ≤ q.1 ∧ q.1 < st.1 + 2 * l.length ∧ q.2 < u.length := by
  have hpose : 3 * k + 2 < u.length := by
    simp only [poseAt, bind_eq_ok, idx_eq_ok] at hp
    obtain ⟨_, -, _, -, _, h, -⟩ := hp
    exact lt_of_getElem? h
  intro l
  induction l with
  | nil => intro st st' h; cases h; simp [ClusteredSystem.pointsPlaces]
  | cons p l ih =>
    intro st st' h
    rw [List.foldlM_cons, bind_eq_ok] at h
    obtain ⟨st1, h1, h2⟩ := h
    simp only [ClusteredSystem.pointRows, bind_eq_ok, setIdx_eq_ok] at h1
    obtain ⟨⟨⟨x, y⟩, v, ⟨x', y'⟩⟩, q1, rs1, -, rs2, -, q6⟩ := h1
    cases q6
    obtain ⟨e1, ⟨i, e2⟩, e3⟩ := pointTerm_eq q1
    have e4 := hsl.after i v e2
    obtain ⟨a1, a2, a3, a4⟩ := ih h2
    simp only at a1 a2 a3 a4
    rw [ClusteredSystem.pointsPlaces, ← e1, List.length_cons]
    have hin : ∀ q ∈ pointPlaces st.1 k v, st.1 ≤ q.1 ∧ q.1 < st.1 + 2 ∧ q.2 < u.length := by
      intro q hq
      simp only [pointPlaces, List.mem_cons, List.not_mem_nil, or_false] at hq
      rcases hq with rfl | rfl | rfl | rfl | rfl | rfl | rfl | rfl <;> refine ⟨?_, ?_, ?_⟩ <;> simp only <;> omega
    refine ⟨by omega, ?_, ?_, ?_⟩
    · rw [a2, List.map_append, List.append_assoc]
      rfl
    · rw [List.nodup_append]
      refine ⟨?_, a3, ?_⟩
      · simp only [pointPlaces, List.nodup_cons, List.mem_cons, List.not_mem_nil, or_false, Prod.mk.injEq, not_or, List.nodup_nil, not_false_eq_true, and_true]
        omega
      · rintro q hq q' hq' rfl
        have := hin q hq
        have := a4 q hq'
        omega
    · intro q hq
      rcases List.mem_append.1 hq with hq | hq
      · have := hin q hq; omega
      · have := a4 q hq; omega

theorem clusters_places (hsl : cs.Slots) {elements : List EncodedElement} {T : List ℝ} :
    ∀ (l : List (Nat × List Nat)) (k : Nat) {st st' : Nat × List ℝ × List (Nat × Nat × ℝ)}, k + l.length ≤ cs.clusters.length →
    (l.zipIdx k).foldlM (fun (st : Nat × List ℝ × List (Nat × Nat × ℝ)) (ck : (Nat × List Nat) × Nat) => do
      let pose ← poseAt u ck.2
      ck.1.2.foldlM (cs.pointRows elements T u ck.2 pose) st) st = .ok st' →
    st'.2.2.map place = st.2.2.map place ++ cs.clustersPlaces elements st.1 k l ∧ (cs.clustersPlaces elements st.1 k l).Nodup ∧
      ∀ q ∈ cs.clustersPlaces elements st.1 k l, st.1 ≤ q.1 ∧ q.1 < st.1 + 2 * countPoints l ∧ q.2 < u.length := by
  intro l
  induction l with
  | nil => intro k st st' _ h; cases h; simp [ClusteredSystem.clustersPlaces]
  | cons q l ih =>
    intro k st st' hk h
    rw [List.zipIdx_cons, List.foldlM_cons, bind_eq_ok] at h
    obtain ⟨st1, h1, h2⟩ := h
    rw [bind_eq_ok] at h1
    obtain ⟨pose, hp, h1⟩ := h1
    rw [List.length_cons] at hk
    obtain ⟨a1, a2, a3, a4⟩ := points_places hsl (by omega) hp q.2 h1
    obtain ⟨b1, b2, b3⟩ := ih (k + 1) (by omega) h2
    have hcount : countPoints (q :: l) = q.2.length + countPoints l := by simp [countPoints]
    rw [ClusteredSystem.clustersPlaces, hcount, ← a1]
    refine ⟨by rw [b1, a2, List.append_assoc], ?_, ?_⟩
    · rw [List.nodup_append]
      refine ⟨a3, b2, ?_⟩
      rintro p hp p' hp' rfl
      have := a4 p hp
      have := b3 p hp'
      omega
    · intro p hp
      rcases List.mem_append.1 hp with hp | hp
      · have := a4 p hp; omega
      · have := b3 p hp; omega

/-- The places of all entries. -/
def ClusteredSystem.places (cs : ClusteredSystem) (s : System F) (exprs : List (Expr F)) : List (Nat × Nat) :=
  cs.expressions.zipIdx.flatMap (cs.exprPlaces exprs) ++ cs.clustersPlaces s.elements 0 0 cs.clusters

/-- The arguments of the expressions of the problem are different variables. -/
def ClusteredSystem.Plain (cs : ClusteredSystem) (exprs : List (Expr F)) : Prop :=
  ∀ id ∈ cs.expressions, ∀ e, exprs[id]? = some e → e.variableIndices.Nodup

theorem triplet_places (hsl : cs.Slots) (hcount : cs.numPoseExpressions = 2 * countPoints cs.clusters) {s : System ℝ} {exprs : List (Expr ℝ)} (hpl : cs.Plain exprs) {T : List ℝ}
    {residuals rs : List ℝ} {ts : List (Nat × Nat × ℝ)} (h : cs.residualsAndTriplets s exprs T u residuals [] = .ok (rs, ts)) :
    ts.map place = cs.places s exprs ∧ (cs.places s exprs).Nodup ∧ ∀ q ∈ cs.places s exprs, q.2 < u.length := by
  simp only [ClusteredSystem.residualsAndTriplets, bind_eq_ok] at h
  obtain ⟨⟨rs1, ts1⟩, h1, ⟨n2, rs2, ts2⟩, h2, h3⟩ := h
  obtain ⟨rfl, rfl⟩ : rs = rs2 ∧ ts = ts2 := by cases h3; exact ⟨rfl, rfl⟩
  obtain ⟨a1, a2, a3⟩ := exprs_places (cs := cs) (u := u) (exprs := exprs) hsl cs.expressions 0 (st := (residuals, [])) hpl h1
  obtain ⟨b1, b2, b3⟩ := clusters_places (cs := cs) (u := u) hsl cs.clusters 0 (by omega) h2
  rw [ClusteredSystem.places]
  refine ⟨?_, ?_, ?_⟩
  · simp only at b1 a1
    rw [b1, a1]
    rfl
  · rw [List.nodup_append]
    refine ⟨a2, b2, ?_⟩
    rintro p hp p' hp' rfl
    have := a3 p hp
    have := b3 p hp'
    simp only at this
    omega
  · intro p hp
    rcases List.mem_append.1 hp with hp | hp
    · exact (a3 p hp).2
    · exact (b3 p hp).2.2

end

/-! ## Writing the entries -/

theorem dense_write {n : Nat} : ∀ (ts : List (Nat × Nat × ℝ)) {jac j : List ℝ}, (ts.map place).Nodup → (∀ q ∈ ts.map place, q.2 < n) →
    ts.foldlM (fun (m : List ℝ) (t : Nat × Nat × ℝ) => setIdx m (t.1 * n + t.2.1) t.2.2) jac = .ok j →
    j.length = jac.length ∧ (∀ t ∈ ts, j[t.1 * n + t.2.1]? = some t.2.2) ∧ ∀ row c, c < n → (row, c) ∉ ts.map place → j[row * n + c]? = jac[row * n + c]? := by
  have hinj : ∀ {r c r' c' : Nat}, c < n → c' < n → r * n + c = r' * n + c' → (r, c) = (r', c') := by
    intro r c r' c' h1 h2 h3
    have h4 : (r * n + c) / n = (r' * n + c') / n := by rw [h3]
    have h5 : (r * n + c) % n = (r' * n + c') % n := by rw [h3]
    rw [Nat.mul_comm r, Nat.mul_comm r', Nat.mul_add_div (by omega), Nat.mul_add_div (by omega), Nat.div_eq_of_lt h1, Nat.div_eq_of_lt h2] at h4
    rw [Nat.mul_comm r, Nat.mul_comm r', Nat.mul_add_mod, Nat.mul_add_mod, Nat.mod_eq_of_lt h1, Nat.mod_eq_of_lt h2] at h5
    rw [Prod.mk.injEq]
    exact ⟨by simpa using h4, h5⟩
  intro ts
  induction ts with
  | nil => intro jac j _ _ h; cases h; simp
  | cons t ts ih =>
    intro jac j hn hc h
    rw [List.map_cons, List.nodup_cons] at hn
    rw [List.foldlM_cons, bind_eq_ok] at h
    obtain ⟨m, h1, h2⟩ := h
    rw [setIdx_eq_ok] at h1
    obtain ⟨h3, rfl⟩ := h1
    obtain ⟨a1, a2, a3⟩ := ih hn.2 (fun q hq => hc q (List.mem_cons_of_mem _ hq)) h2
    have ht : t.2.1 < n := hc (place t) (by simp)
    refine ⟨by rw [a1, List.length_set], fun t' ht' => ?_, fun row c hcn hnot => ?_⟩
    · rcases List.mem_cons.1 ht' with rfl | ht'
      · rw [a3 _ _ ht hn.1, List.getElem?_set_self h3]
      · exact a2 t' ht'
    · rw [List.map_cons, List.mem_cons, not_or] at hnot
      rw [a3 row c hcn hnot.2, List.getElem?_set_ne]
      intro he
      exact hnot.1 (hinj ht hcn he).symm

theorem entrySum_of_not_mem {row c : Nat} : ∀ {ts : List (Nat × Nat × ℝ)}, (row, c) ∉ ts.map place → entrySum ts row c = 0 := by
  intro ts
  induction ts with
  | nil => intro _; rfl
  | cons a ts ih =>
    intro h
    rw [List.map_cons, List.mem_cons, not_or] at h
    rw [entrySum_cons, ih h.2, if_neg, add_zero]
    rintro ⟨h1, h2⟩
    exact h.1 (by rw [place, h1, h2])

theorem entrySum_of_mem : ∀ {ts : List (Nat × Nat × ℝ)}, (ts.map place).Nodup → ∀ t ∈ ts, entrySum ts t.1 t.2.1 = t.2.2 := by
  intro ts
  induction ts with
  | nil => intro _ t ht; cases ht
  | cons a ts ih =>
    intro hn t ht
    rw [List.map_cons, List.nodup_cons] at hn
    rw [entrySum_cons]
    rcases List.mem_cons.1 ht with rfl | ht
    · rw [if_pos ⟨rfl, rfl⟩, entrySum_of_not_mem hn.1, add_zero]
    · rw [if_neg, zero_add, ih hn.2 t ht]
      rintro ⟨h1, h2⟩
      exact hn.1 (List.mem_map.2 ⟨t, ht, by rw [place, place, h1, h2]⟩)

section
variable {s : System ℝ} {T : List ℝ} {step : RecombinationStep} {cs : ClusteredSystem} {start : List ℝ}
  (hb : ClusteredSystem.build s T step = .ok (cs, start)) {exprs : List (Expr ℝ)} (hpl : cs.Plain exprs)
include hb hpl

theorem ClusteredSystem.dense_triplets {u rs jac r j : List ℝ} (hu : u.length = cs.numVariables) (h : (cs.problem s exprs T).denseJacobian u rs jac = .ok (r, j)) :
    ∃ ts, (cs.problem s exprs T).sparseJacobian u rs [] = .ok (r, ts) ∧ ts.map place = cs.places s exprs ∧ (cs.places s exprs).Nodup ∧
      j.length = jac.length ∧ (∀ t ∈ ts, j[t.1 * cs.numVariables + t.2.1]? = some t.2.2) ∧
      ∀ row c, c < cs.numVariables → (row, c) ∉ cs.places s exprs → j[row * cs.numVariables + c]? = jac[row * cs.numVariables + c]? := by
  simp only [ClusteredSystem.problem, bind_eq_ok] at h
  obtain ⟨⟨r', ts⟩, h1, j', h2, h3⟩ := h
  cases h3
  obtain ⟨a1, a2, a3⟩ := triplet_places (build_slots hb).1 (build_counts hb).1 hpl h1
  obtain ⟨b1, b2, b3⟩ := dense_write ts (a1 ▸ a2) (a1 ▸ hu ▸ a3) h2
  exact ⟨ts, h1, a1, a2, b1, b2, fun row c hc hn => b3 row c hc (a1 ▸ hn)⟩

/-- Outside the places of the entries the buffer stays zero. -/
theorem ClusteredSystem.buffer_zero {jac : List ℝ} (h : (cs.problem s exprs T).Buffer jac) :
    jac.length = (cs.problem s exprs T).numResiduals * cs.numVariables ∧
    ∀ row < (cs.problem s exprs T).numResiduals, ∀ c < cs.numVariables, (row, c) ∉ cs.places s exprs → jac[row * cs.numVariables + c]? = some 0 := by
  induction h with
  | zero =>
    refine ⟨by simp [ClusteredSystem.problem], fun row hrow c hc _ => ?_⟩
    have hlt : row * cs.numVariables + c < (cs.problem s exprs T).numResiduals * cs.numVariables := by
      calc row * cs.numVariables + c < (row + 1) * cs.numVariables := by rw [Nat.add_mul]; omega
        _ ≤ _ := Nat.mul_le_mul_right _ hrow
    rw [List.getElem?_replicate]
    exact if_pos hlt
  | next _ hx _ hd ih =>
    obtain ⟨ts, -, -, -, h4, -, h6⟩ := ClusteredSystem.dense_triplets hb hpl hx hd
    exact ⟨h4.trans ih.1, fun row hrow c hc hn => (h6 row c hc hn).trans (ih.2 row hrow c hc hn)⟩

/-- C63 (dense, partial): the dense Jacobian, which `RecursiveAssembly` hands to L-BFGS, has the derivatives too, whatever earlier evaluations left in the buffer, if no
expression of the problem has the same variable twice among its arguments. (Full statement: without that restriction; false, see `C63_dense_overwrites`.) -/
theorem C63_dense_jacobian_partial {u rs jac r j : List ℝ} (hu : u.length = cs.numVariables) (hr : rs.length = (cs.problem s exprs T).numResiduals)
    (hbuf : (cs.problem s exprs T).Buffer jac) (hrun : (cs.problem s exprs T).denseJacobian u rs jac = .ok (r, j)) (hs : cs.SmoothOn exprs u) :
    (cs.problem s exprs T).residuals u = .ok r ∧ j.length = (cs.problem s exprs T).numResiduals * (cs.problem s exprs T).numVariables ∧
      ∀ row < (cs.problem s exprs T).numResiduals, ∀ c < (cs.problem s exprs T).numVariables, ∃ f : ℝ → ℝ,
        (∀ z, ∃ rs', (cs.problem s exprs T).residuals (u.set c z) = .ok rs' ∧ rs'[row]? = some (f z)) ∧
        ∃ d, j[row * (cs.problem s exprs T).numVariables + c]? = some d ∧ HasDerivAt f d (u.getD c 0) := by
  obtain ⟨z1, z2⟩ := ClusteredSystem.buffer_zero hb hpl hbuf
  obtain ⟨ts, h1, h2, h3, h4, h5, h6⟩ := ClusteredSystem.dense_triplets hb hpl hu hrun
  obtain ⟨a1, a2⟩ := C63_cluster_jacobian_is_derivative hb (exprs := exprs) (u := u) hr h1 hs
  refine ⟨a1, h4.trans z1, fun row hrow c hc => ?_⟩
  obtain ⟨f, f1, f2⟩ := a2 row hrow c (by rw [hu]; exact hc)
  refine ⟨f, f1, _, ?_, f2⟩
  change j[row * cs.numVariables + c]? = _
  by_cases hp : (row, c) ∈ cs.places s exprs
  · rw [← h2] at hp
    obtain ⟨t, ht, he⟩ := List.mem_map.1 hp
    obtain ⟨rfl, rfl⟩ := Prod.mk.inj he
    rw [h5 t ht, entrySum_of_mem (h2 ▸ h3) t ht]
  · rw [h6 row c hc hp, z2 row hrow c hc hp, entrySum_of_not_mem (h2 ▸ hp)]

end

/-- A case: the step of the case for C63, on zeroed buffers. -/
example : ∃ c, Reaches 0 chainOps c ∧ ClusteredSystem.build c.sys c.sys.vars chainStep = .ok (chainCluster, [0, 0, 0, 1, 0, 3, 1]) ∧
    chainCluster.Plain c.sys.expressions ∧
    ∃ r j, (chainCluster.problem c.sys c.sys.expressions c.sys.vars).denseJacobian [1, 2, 3, 1, 0, 3, 1] [0, 0, 0] (List.replicate 21 0) = .ok (r, j) := by
  obtain ⟨c, h⟩ := exists_reaches 0 chainOps (by
    simp [chainOps, Store.LegalRun, Store.Legal, Store.empty, Store.step, Store.IsPoint, Store.ConOk]) (by simp [chainOps])
  obtain ⟨h1, h2, h3, h4⟩ := chain_sys h
  refine ⟨c, h, ?_, ?_, ?_⟩
  · unfold ClusteredSystem.build System.constraintExpressions
    rw [h1, h2, h4]
    rfl
  · rw [h3]
    intro id hid e he
    simp only [chainCluster, List.mem_singleton] at hid
    subst hid
    simp only [List.getElem?_cons_succ, List.getElem?_cons_zero, Option.some.injEq] at he
    subst he
    decide
  · unfold ClusteredSystem.problem
    simp only
    unfold ClusteredSystem.residualsAndTriplets
    rw [h1, h2, h3]
    exact ⟨_, _, rfl⟩

/-! ## An argument in two places -/

/-- The only step of the plan for two lines with a common end point that are to be parallel. -/
def sharedStep : RecombinationStep :=
  ⟨[0], [0, 1, 2], [], [(0, [0, 1]), (1, [0, 2]), (2, [1, 2])], [(0, [0, 1]), (1, [2])], [(0, [0, 1]), (1, [0, 2]), (2, [1, 2])]⟩

/-- The step is the one that the code plans. -/
example : okAnd (recursivePlans [.createPoint 0 0, .createPoint 1 0, .createPoint 3 1, .createLine 0 1, .createLine 1 2, .createCon (.lineLineParallelism 3 4)])
    (fun l => l.map (fun r => okAnd r (fun (s : List RecombinationStep) => s.map RecombinationStep.data == [sharedStep.data])) == [true]) = true := by
  decide +kernel

/-- The problem of that step: three poses, then the coordinates of the three points. -/
def sharedCluster : ClusteredSystem :=
  ⟨15, [0, 1, 2], [(0, [0, 1]), (1, [0, 2]), (2, [1, 2])], [0], 12, [(0, 9), (1, 10), (2, 11), (3, 12), (4, 13), (5, 14)]⟩

/-- Its values at the start. -/
def sharedStart : List ℝ := [0, 0, 0, 0, 0, 0, 0, 0, 0, 0, 0, 1, 0, 3, 1]

set_option maxRecDepth 20000 in
/-- C63 is false for the dense Jacobian: `PushTriplet` promises that values pushed at the same place are added, and `DenseColMat` overwrites. For two lines with a common end
point that are to be parallel, `RecursiveAssembly` hands to L-BFGS a problem whose equation changes at rate `-1` with the x coordinate of the common point; the sparse Jacobian
says so, the dense one has `0` there. -/
theorem C63_dense_overwrites : ∃ c, Reaches 0 sharedOps c ∧ ClusteredSystem.build c.sys c.sys.vars sharedStep = .ok (sharedCluster, sharedStart) ∧
    let p := sharedCluster.problem c.sys c.sys.expressions c.sys.vars
    sharedCluster.SmoothOn c.sys.expressions sharedStart ∧
    (∃ r j, p.denseJacobian sharedStart (List.replicate p.numResiduals 0) (List.replicate (p.numResiduals * p.numVariables) 0) = .ok (r, j) ∧
      j[12 * p.numVariables + 11]? = some 0) ∧
    (∃ r ts, p.sparseJacobian sharedStart (List.replicate p.numResiduals 0) [] = .ok (r, ts) ∧ entrySum ts 12 11 = -1) ∧
    ∃ f : ℝ → ℝ, (∀ z, ∃ rs', p.residuals (sharedStart.set 11 z) = .ok rs' ∧ rs'[12]? = some (f z)) ∧ HasDerivAt f (-1) 1 := by
  obtain ⟨c, h⟩ := exists_reaches 0 sharedOps (by
    simp [sharedOps, Store.LegalRun, Store.Legal, Store.empty, Store.step, Store.IsPoint, Store.IsLine, Store.ConOk]) (by simp [sharedOps])
  have hv : c.sys.vars = [0, 0, 1, 0, 3, 1] := h.crel.rel.vars
  have he : c.sys.expressions = [.lineLineParallelism 0 2 2 4] := h.crel.rel.exprs
  have key : (do let c ← (Client.new ℝ 0).run sharedOps
                 pure (c.sys.elements, c.sys.constraints) : R _) = .ok ([.point 0, .point 2, .point 4, .line 0 2, .line 2 4], [⟨.lineLineParallelism, 0⟩]) := rfl
  rw [h.run, ok_bind] at key
  simp only [pure_eq_ok, Except.ok.injEq, Prod.mk.injEq] at key
  obtain ⟨h1, h2⟩ := key
  have hb : ClusteredSystem.build c.sys c.sys.vars sharedStep = .ok (sharedCluster, sharedStart) := by
    unfold ClusteredSystem.build System.constraintExpressions
    rw [h1, hv, h2]
    rfl
  have hs : sharedCluster.SmoothOn c.sys.expressions sharedStart := by
    rw [he]
    intro id hid e he vars hv
    simp only [sharedCluster, List.mem_singleton] at hid
    subst hid
    simp only [List.getElem?_cons_zero, Option.some.injEq] at he
    subst he
    have : [Variable.free 0 9, Variable.free 0 10, Variable.free 1 11, Variable.free 0 12, Variable.free 1 11, Variable.free 0 12, Variable.free 3 13, Variable.free (1 : ℝ) 14] = vars := by
      have h5 : (Expr.lineLineParallelism 0 2 2 4 : Expr ℝ).variableIndices.mapM (sharedCluster.variable sharedStart) =
        .ok [Variable.free 0 9, Variable.free 0 10, Variable.free 1 11, Variable.free 0 12, Variable.free 1 11, Variable.free 0 12, Variable.free 3 13, Variable.free (1 : ℝ) 14] := rfl
      rw [h5] at hv
      exact Except.ok.inj hv
    subst this
    simp [SmoothAt]
  have hsp : ∃ r ts, (sharedCluster.problem c.sys c.sys.expressions c.sys.vars).sparseJacobian sharedStart (List.replicate 13 0) [] = .ok (r, ts) ∧ entrySum ts 12 11 = -1 := by
    unfold ClusteredSystem.problem
    simp only
    unfold ClusteredSystem.residualsAndTriplets
    rw [h1, hv, he]
    refine ⟨_, _, rfl, ?_⟩
    simp [Variable.value]
    norm_num [entrySum, llparResGrad, pushRow, sharedCluster]
  refine ⟨c, h, hb, hs, ?_, hsp, ?_⟩
  · unfold ClusteredSystem.problem
    simp only
    unfold ClusteredSystem.residualsAndTriplets
    rw [h1, hv, he]
    refine ⟨_, _, rfl, ?_⟩
    have : (0 : ℝ) = -(0 - 0) := by norm_num
    conv_rhs => rw [this]
    rfl
  · obtain ⟨r, ts, h3, h4⟩ := hsp
    obtain ⟨f, f1, f2⟩ := (C63_cluster_jacobian_is_derivative hb rfl h3 hs).2 12 (by show 12 < 13; decide) 11 (by simp [sharedStart])
    rw [h4] at f2
    exact ⟨f, f1, by simpa [sharedStart] using f2⟩

end Fiksi
