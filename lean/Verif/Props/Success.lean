import Verif.Props.Rest
/-!
# C62: what the optimiser has solved is still solved in the end
-/
namespace Fiksi
open Spec

/-- Where the optimiser returns, all residuals of its problem are at most `ε`. -/
def Optimize.Attains (optimize : Optimize ℝ) (ε : ℝ) : Prop := ∀ (o : Optimizer) (p : Problem ℝ) (x x' : List ℝ), optimize o p x = .ok x' →
  ∃ r, p.residuals x' = .ok r ∧ ∀ y ∈ r, |y| ≤ ε

/-! ## Reading -/

theorem mapM_mono_on {α β : Type} {f g : α → R β} : ∀ {l : List α} {r : List β}, (∀ a ∈ l, ∀ b, f a = .ok b → g a = .ok b) → l.mapM f = .ok r → l.mapM g = .ok r := by
  intro l
  induction l with
  | nil => intro r _ hr; exact hr
  | cons a l ih =>
    intro r h hr
    rw [List.mapM_cons, bind_eq_ok] at hr
    obtain ⟨b, h1, hr⟩ := hr
    rw [bind_eq_ok] at hr
    obtain ⟨bs, h2, hr⟩ := hr
    rw [List.mapM_cons, h a (by simp) b h1, ok_bind, ih (fun a ha => h a (by simp [ha])) h2, ok_bind]
    exact hr

theorem calculateResidual_mono_on {get : Nat → R (Variable ℝ)} {T : List ℝ} {e : Expr ℝ} {r : ℝ}
    (h : ∀ v ∈ e.variableIndices, ∀ var, get v = .ok var → T[v]? = some var.value)
    (hr : e.calculateResidual get = .ok r) : e.calculateResidual (identityMap T) = .ok r := by
  rw [Expr.calculateResidual, bind_eq_ok] at hr ⊢
  obtain ⟨vs, h1, h2⟩ := hr
  refine ⟨vs, mapM_mono_on (fun v hv x hx => ?_) h1, h2⟩
  rw [bind_eq_ok] at hx ⊢
  obtain ⟨var, h3, h4⟩ := hx
  cases h4
  refine ⟨.free var.value v, ?_, rfl⟩
  rw [identityMap, idx_of (h v hv var h3)]
  rfl

/-- Expression number `i` is at most `ε` at the values `V`, divided by the scale. -/
def SatAt (exprs : List (Expr ℝ)) (scale ε : ℝ) (V : List ℝ) (i : Nat) : Prop :=
  ∀ e, exprs[i]? = some e → ∃ r, e.calculateResidual (identityMap (V.map (· * (1 / scale)))) = .ok r ∧ |r| ≤ ε

theorem SatAt.congr {exprs : List (Expr ℝ)} {scale ε : ℝ} {V V' : List ℝ} {i : Nat} (h : SatAt exprs scale ε V i)
    (hv : ∀ e, exprs[i]? = some e → ∀ v ∈ e.variableIndices, V'[v]? = V[v]?) : SatAt exprs scale ε V' i := by
  intro e he
  obtain ⟨r, h1, h2⟩ := h e he
  refine ⟨r, calculateResidual_mono_on (fun v hve var hvar => ?_) h1, h2⟩
  rw [identityMap, bind_eq_ok] at hvar
  obtain ⟨x, h3, h4⟩ := hvar
  cases h4
  rw [idx_eq_ok] at h3
  rw [List.getElem?_map, hv e he v hve, ← List.getElem?_map]
  exact h3

/-- A value and its scaled copy agree. -/
def Synced (scale : ℝ) (st : SolveState ℝ) (v : Nat) : Prop := ∀ x, st.transformed[v]? = some x → st.vars[v]? = some (scale * x)

/-! ## Writing back -/

theorem writeVars_values {scale : ℝ} {values : List ℝ} : ∀ {l : List (Nat × Nat)} {V V' : List ℝ}, (l.map Prod.fst).Nodup → l.foldlM (writeVars scale values) V = .ok V' →
    ∀ p ∈ l, ∃ x, values[p.2]? = some x ∧ V'[p.1]? = some (scale * x) := by
  intro l
  induction l with
  | nil => intro V V' _ _ p hp; cases hp
  | cons q l ih =>
    intro V V' hn h p hp
    rw [List.map_cons, List.nodup_cons] at hn
    rw [List.foldlM_cons, bind_eq_ok] at h
    obtain ⟨V1, h1, h2⟩ := h
    rcases List.mem_cons.1 hp with rfl | hp
    · rw [writeVars, bind_eq_ok] at h1
      obtain ⟨x, h3, h1⟩ := h1
      rw [idx_eq_ok] at h3
      rw [setIdx_eq_ok] at h1
      obtain ⟨h4, rfl⟩ := h1
      refine ⟨x, h3, ?_⟩
      rw [(writeVars_frame (W := (· ∈ l.map Prod.fst)) (fun p hp => List.mem_map_of_mem hp) h2).2 _ hn.1]
      exact List.getElem?_set_self h4
    · exact ih hn.2 h2 p hp

theorem writeTransformed_values {values : List ℝ} : ∀ {l : List (Nat × Nat)} {V V' : List ℝ}, (l.map Prod.fst).Nodup → l.foldlM (writeTransformed values) V = .ok V' →
    ∀ p ∈ l, V'[p.1]? = values[p.2]? := by
  intro l
  induction l with
  | nil => intro V V' _ _ p hp; cases hp
  | cons q l ih =>
    intro V V' hn h p hp
    rw [List.map_cons, List.nodup_cons] at hn
    rw [List.foldlM_cons, bind_eq_ok] at h
    obtain ⟨V1, h1, h2⟩ := h
    rcases List.mem_cons.1 hp with rfl | hp
    · rw [writeTransformed, bind_eq_ok] at h1
      obtain ⟨x, h3, h1⟩ := h1
      rw [idx_eq_ok] at h3
      rw [setIdx_eq_ok] at h1
      obtain ⟨h4, rfl⟩ := h1
      rw [h3, (writeTransformed_frame (W := (· ∈ l.map Prod.fst)) (fun p hp => List.mem_map_of_mem hp) h2).2 _ hn.1]
      exact List.getElem?_set_self h4
    · exact ih hn.2 h2 p hp

theorem zipIdx_fst_nodup {l : List Nat} (h : l.Nodup) : (l.zipIdx.map Prod.fst).Nodup := by rwa [List.zipIdx_map_fst]

/-! ## One call of the optimiser -/

section
variable {optimize : Optimize ℝ} {ε : ℝ} (hatt : optimize.Attains ε) {scale : ℝ} (hs : scale ≠ 0) {exprs : List (Expr ℝ)}
include hatt hs

theorem call_sat {o : Optimizer} {T V' : List ℝ} {es free : List Nat} {x values : List ℝ}
    (ho : optimize o (⟨T, exprs, es, free⟩ : Subsystem ℝ).problem x = .ok values)
    (hw : ∀ p ∈ free.zipIdx, ∃ x, values[p.2]? = some x ∧ V'[p.1]? = some (scale * x))
    (hsync : ∀ i ∈ es, ∀ e, exprs[i]? = some e → ∀ v ∈ e.variableIndices, v ∉ free → ∀ x, T[v]? = some x → V'[v]? = some (scale * x)) :
    ∀ i ∈ es, SatAt exprs scale ε V' i := by
  intro i hi e he
  obtain ⟨rs, h1, h2⟩ := hatt _ _ _ _ ho
  obtain ⟨r, h3, h4⟩ := forall₂_mem (mapM_forall h1) hi
  rw [bind_eq_ok] at h4
  obtain ⟨e', h5, h4⟩ := h4
  rw [idx_eq_ok, he] at h5
  cases h5
  refine ⟨r, calculateResidual_mono_on (fun v hv var hvar => ?_) h4, h2 r h3⟩
  have key : ∀ y, V'[v]? = some (scale * y) → (V'.map (· * (1 / scale)))[v]? = some y := by
    intro y hy
    rw [List.getElem?_map, hy, Option.map_some]
    congr 1
    field_simp
  apply key
  unfold Subsystem.getValue at hvar
  split at hvar
  · rename_i k hk
    rw [bind_eq_ok] at hvar
    obtain ⟨y, h6, h7⟩ := hvar
    cases h7
    rw [idx_eq_ok] at h6
    obtain ⟨hlt, h8, -⟩ := List.idxOf?_eq_some_iff.1 hk
    obtain ⟨y', h9, h10⟩ := hw (v, k) (List.mem_zipIdx_iff_getElem?.2 (by rw [List.getElem?_eq_getElem hlt]; exact congrArg some h8))
    rw [h6] at h9
    cases h9
    exact h10
  · rename_i hk
    rw [bind_eq_ok] at hvar
    obtain ⟨y, h6, h7⟩ := hvar
    cases h7
    rw [idx_eq_ok] at h6
    exact hsync i hi e he v hv (List.idxOf?_eq_none_iff.1 hk) y h6

theorem solveWhole_sat {opts : SolvingOptions} {s : System ℝ} {constraints free : Finset Nat} {st st' : SolveState ℝ} {es : List (List Nat)}
    (hes : (ascending constraints).mapM s.constraintExpressions = .ok es)
    (hsync : ∀ i ∈ es.flatten, ∀ e, exprs[i]? = some e → ∀ v ∈ e.variableIndices, v ∉ free → Synced scale st v)
    (h : solveWhole optimize opts s scale exprs constraints free st = .ok st') : ∀ i ∈ es.flatten, SatAt exprs scale ε st'.vars i := by
  have hfr := (solveWhole_spec h).1
  simp only [solveWhole, bind_eq_ok] at h
  obtain ⟨values, h3, es', h4, values', h5, vars, h6, h7⟩ := h
  rw [hes] at h4
  cases h4
  cases h7
  refine call_sat hatt hs h5 (writeVars_values (zipIdx_fst_nodup (ascending_nodup free)) h6) fun i hi e he v hv hnf x hx => ?_
  have hnf' : v ∉ free := fun hc => hnf ((mem_ascending _ _).2 hc)
  rw [hfr.vars.2 v hnf']
  exact hsync i hi e he v hv hnf' x hx

theorem solveBlock_sat {opts : SolvingOptions} {freeList es : List Nat} (hn : freeList.Nodup) {st st' : SolveState ℝ}
    (hsync : ∀ i ∈ es, ∀ e, exprs[i]? = some e → ∀ v ∈ e.variableIndices, v ∉ freeList → Synced scale st v)
    (h : solveBlock optimize opts scale exprs freeList es st = .ok st') : (∀ i ∈ es, SatAt exprs scale ε st'.vars i) ∧ ∀ v ∈ freeList, Synced scale st' v := by
  have hfr := (solveBlock_spec h).1
  simp only [solveBlock, bind_eq_ok] at h
  obtain ⟨values, h3, values', h4, tr, h5, vars, h6, h7⟩ := h
  cases h7
  have hw := writeVars_values (zipIdx_fst_nodup hn) h6
  refine ⟨call_sat hatt hs h4 hw fun i hi e he v hv hnf x hx => ?_, fun v hv x hx => ?_⟩
  · rw [hfr.vars.2 v hnf]
    exact hsync i hi e he v hv hnf x hx
  · obtain ⟨k, hk⟩ := List.mem_iff_getElem?.1 hv
    have hmem : (v, k) ∈ freeList.zipIdx := List.mem_zipIdx_iff_getElem?.2 hk
    obtain ⟨y, h8, h9⟩ := hw _ hmem
    have h10 := writeTransformed_values (zipIdx_fst_nodup hn) h5 _ hmem
    simp only at hx h8 h9 h10
    rw [h10, h8] at hx
    cases hx
    exact h9

/-- The blocks of `SinglePass`, one after the other: `S` are the variables settled before. -/
theorem blocks_sat {opts : SolvingOptions} {ord : HashOrder} (hord : ord.Ok) {component : Nat} : ∀ (l : List (Block × Nat)) (S : Nat → Prop) (st st' : SolveState ℝ),
    (∀ v, S v → Synced scale st v) → (∀ v, S v → ∀ b ∈ l, v ∉ b.1.freeVariables) → l.Pairwise (fun b b' => Disjoint b.1.freeVariables b'.1.freeVariables) →
    (∀ (j : Nat) b, l[j]? = some b → ∀ i ∈ b.1.expressions, ∀ e, exprs[i]? = some e → ∀ v ∈ e.variableIndices, S v ∨ ∃ j', j' ≤ j ∧ ∃ b', l[j']? = some b' ∧ v ∈ b'.1.freeVariables) →
    l.foldlM (fun (st : SolveState ℝ) (bi : Block × Nat) => solveBlock optimize opts scale exprs (ord [component, 0, bi.2] bi.1.freeVariables) bi.1.expressions st) st = .ok st' →
    (∀ b ∈ l, ∀ i ∈ b.1.expressions, SatAt exprs scale ε st'.vars i) ∧ ∀ v, S v → st'.vars[v]? = st.vars[v]? := by
  intro l
  induction l with
  | nil =>
    intro S st st' _ _ _ _ h
    cases h
    exact ⟨by simp, fun _ _ => rfl⟩
  | cons b l ih =>
    intro S st st' hS hSl hdis hord' h
    rw [List.foldlM_cons, bind_eq_ok] at h
    obtain ⟨st1, h1, h2⟩ := h
    rw [List.pairwise_cons] at hdis
    have hmem : ∀ v, v ∈ ord [component, 0, b.2] b.1.freeVariables ↔ v ∈ b.1.freeVariables := (hord _ _).2
    have hfr := (solveBlock_spec h1).1
    have hread : ∀ i ∈ b.1.expressions, ∀ e, exprs[i]? = some e → ∀ v ∈ e.variableIndices, S v ∨ v ∈ b.1.freeVariables := by
      intro i hi e he v hv
      rcases hord' 0 b rfl i hi e he v hv with h3 | ⟨j', h3, b', h4, h5⟩
      · exact .inl h3
      · have : j' = 0 := by omega
        subst this
        cases h4
        exact .inr h5
    obtain ⟨h3, h4⟩ := solveBlock_sat hatt hs (hord _ _).1 (fun i hi e he v hv hnf => by
      rcases hread i hi e he v hv with h3 | h3
      · exact hS v h3
      · exact absurd ((hmem v).2 h3) hnf) h1
    have hkeep : ∀ v, S v → st1.vars[v]? = st.vars[v]? ∧ st1.transformed[v]? = st.transformed[v]? := by
      intro v hv
      have hnf : v ∉ ord [component, 0, b.2] b.1.freeVariables := fun hc => hSl v hv b (by simp) ((hmem v).1 hc)
      exact ⟨hfr.vars.2 v hnf, hfr.transformed.2 v hnf⟩
    obtain ⟨h5, h6⟩ := ih (fun v => S v ∨ v ∈ b.1.freeVariables) st1 st'
      (fun v hv => by
        rcases hv with hv | hv
        · intro x hx
          rw [(hkeep v hv).1]
          rw [(hkeep v hv).2] at hx
          exact hS v hv x hx
        · exact h4 v ((hmem v).2 hv))
      (fun v hv b' hb' => by
        rcases hv with hv | hv
        · exact hSl v hv b' (by simp [hb'])
        · exact Finset.disjoint_left.1 (hdis.1 b' hb') hv)
      hdis.2
      (fun j b' hb' i hi e he v hv => by
        rcases hord' (j + 1) b' (by simpa using hb') i hi e he v hv with h7 | ⟨j', h7, b'', h8, h9⟩
        · exact .inl (.inl h7)
        · cases j' with
          | zero =>
            simp only [List.getElem?_cons_zero, Option.some.injEq] at h8
            subst h8
            exact .inl (.inr h9)
          | succ j' => exact .inr ⟨j', by omega, b'', by simpa using h8, h9⟩)
      h2
    refine ⟨fun b' hb' i hi => ?_, fun v hv => (h6 v (.inl hv)).trans (hkeep v hv).1⟩
    rcases List.mem_cons.1 hb' with rfl | hb'
    · exact (h3 i hi).congr fun e he v hv => h6 v (hread i hi e he v hv)
    · exact h5 b' hb' i hi

end

/-! ## Which variables an equation reads -/

section
variable {F : Type}

theorem Rel.reads_prim {s : System F} {st : Store F} (hr : Rel s st) {con : Spec.Con F} (hcon : st.ConOk con) {ex : Expr F} (hex : ex ∈ encCon st.elems con) {v : Nat}
    (hv : v ∈ ex.variableIndices) : ∃ p ∈ st.actsOn con, ∃ el, s.elements[p]? = some el ∧ v ∈ el.variableIndices ∧ (el.isPoint = true ∨ ∃ k, el = .length k) := by
  have pt : ∀ {p : Nat}, st.IsPoint p → ∀ w, (w = off st.elems p ∨ w = off st.elems p + 1) → ∃ el, s.elements[p]? = some el ∧ w ∈ el.variableIndices ∧ (el.isPoint = true ∨ ∃ k, el = .length k) := by
    rintro p ⟨x, y, hp⟩ w hw
    refine ⟨_, hr.element_at hp, ?_, .inl rfl⟩
    simpa [encElem, EncodedElement.variableIndices] using hw
  have len : ∀ {p : Nat}, st.IsLength p → ∀ w, w = off st.elems p → ∃ el, s.elements[p]? = some el ∧ w ∈ el.variableIndices ∧ (el.isPoint = true ∨ ∃ k, el = .length k) := by
    rintro p ⟨x, hp⟩ w hw
    refine ⟨_, hr.element_at hp, ?_, .inr ⟨_, rfl⟩⟩
    simpa [encElem, EncodedElement.variableIndices] using hw
  have two : ∀ {a b : Nat}, st.IsPoint a → st.IsPoint b → (v = off st.elems a ∨ v = off st.elems a + 1 ∨ v = off st.elems b ∨ v = off st.elems b + 1) →
      ∃ p ∈ [a, b], ∃ el, s.elements[p]? = some el ∧ v ∈ el.variableIndices ∧ (el.isPoint = true ∨ ∃ k, el = .length k) := by
    intro a b ha hb h
    rcases h with h | h | h | h
    · exact ⟨a, by simp, pt ha v (.inl h)⟩
    · exact ⟨a, by simp, pt ha v (.inr h)⟩
    · exact ⟨b, by simp, pt hb v (.inl h)⟩
    · exact ⟨b, by simp, pt hb v (.inr h)⟩
  have circ : ∀ {a b : Nat}, st.IsPoint a → st.IsLength b → (v = off st.elems a ∨ v = off st.elems a + 1 ∨ v = off st.elems b) →
      ∃ p ∈ [a, b], ∃ el, s.elements[p]? = some el ∧ v ∈ el.variableIndices ∧ (el.isPoint = true ∨ ∃ k, el = .length k) := by
    intro a b ha hb h
    rcases h with h | h | h
    · exact ⟨a, by simp, pt ha v (.inl h)⟩
    · exact ⟨a, by simp, pt ha v (.inr h)⟩
    · exact ⟨b, by simp, len hb v h⟩
  cases con <;> simp only [Store.ConOk] at hcon <;> simp only [encCon, List.mem_cons, List.not_mem_nil, or_false] at hex
  case pointPointCoincidence p q =>
    rcases hex with rfl | rfl <;> simp only [Expr.variableIndices, List.mem_cons, List.not_mem_nil, or_false] at hv <;>
    · exact two hcon.1 hcon.2 (by tauto)
  case pointPointDistance p q d =>
    subst hex
    simp only [Expr.variableIndices, List.mem_cons, List.not_mem_nil, or_false] at hv
    exact two hcon.1 hcon.2 hv
  case pointPointPointAngle p q r a =>
    subst hex
    simp only [Expr.variableIndices, List.mem_cons, List.not_mem_nil, or_false] at hv
    rcases hv with h | h | h
    · exact ⟨p, by simp [Store.actsOn], pt hcon.1 v (.inl h)⟩
    · exact ⟨p, by simp [Store.actsOn], pt hcon.1 v (.inr h)⟩
    · obtain ⟨w, h1, h2⟩ := two hcon.2.1 hcon.2.2 h
      exact ⟨w, List.mem_cons_of_mem _ h1, h2⟩
  case segmentSegmentLengthEquality a b c d =>
    subst hex
    simp only [Expr.variableIndices, List.mem_cons, List.not_mem_nil, or_false] at hv
    rcases hv with h | h | h | h | h
    · exact ⟨a, by simp [Store.actsOn], pt hcon.1 v (.inl h)⟩
    · exact ⟨a, by simp [Store.actsOn], pt hcon.1 v (.inr h)⟩
    · exact ⟨b, by simp [Store.actsOn], pt hcon.2.1 v (.inl h)⟩
    · exact ⟨b, by simp [Store.actsOn], pt hcon.2.1 v (.inr h)⟩
    · obtain ⟨w, h1, h2⟩ := two hcon.2.2.1 hcon.2.2.2 h
      exact ⟨w, List.mem_cons_of_mem _ (List.mem_cons_of_mem _ h1), h2⟩
  case pointCircleIncidence p c =>
    subst hex
    obtain ⟨a, b, -, ha, hb, h1, h2⟩ := hr.circle hcon.2
    simp only [Expr.variableIndices, List.mem_cons, List.not_mem_nil, or_false, h1] at hv
    rcases hv with h | h | h
    · exact ⟨p, by simp [Store.actsOn], pt hcon.1 v (.inl h)⟩
    · exact ⟨p, by simp [Store.actsOn], pt hcon.1 v (.inr h)⟩
    · obtain ⟨w, h3, h4⟩ := circ ha hb h
      exact ⟨w, by rw [Store.actsOn, h2]; exact List.mem_cons_of_mem _ h3, h4⟩
  case lineCircleTangency l c =>
    subst hex
    obtain ⟨a, b, -, ha, hb, h1, h2⟩ := hr.circle hcon.2
    obtain ⟨a', b', -, ha', hb', h1', h2'⟩ := hr.line hcon.1
    simp only [Expr.variableIndices, List.mem_cons, List.not_mem_nil, or_false, h1, h1'] at hv
    have : (v = off st.elems a' ∨ v = off st.elems a' + 1 ∨ v = off st.elems b' ∨ v = off st.elems b' + 1) ∨ (v = off st.elems a ∨ v = off st.elems a + 1 ∨ v = off st.elems b) := by tauto
    rw [Store.actsOn, h2, h2']
    rcases this with h | h
    · obtain ⟨w, h3, h4⟩ := two ha' hb' h
      exact ⟨w, List.mem_append_left _ h3, h4⟩
    · obtain ⟨w, h3, h4⟩ := circ ha hb h
      exact ⟨w, List.mem_append_right _ h3, h4⟩
  case pointLineIncidence p l | pointLineDistance p l d =>
    subst hex
    obtain ⟨a, b, -, ha, hb, h1, h2⟩ := hr.line hcon.2
    simp only [Expr.variableIndices, List.mem_cons, List.not_mem_nil, or_false, h1] at hv
    rcases hv with h | h | h
    · exact ⟨p, by simp [Store.actsOn], pt hcon.1 v (.inl h)⟩
    · exact ⟨p, by simp [Store.actsOn], pt hcon.1 v (.inr h)⟩
    · obtain ⟨w, h3, h4⟩ := two ha hb h
      exact ⟨w, by rw [Store.actsOn, h2]; exact List.mem_cons_of_mem _ h3, h4⟩
  all_goals
    subst hex
    obtain ⟨a, b, -, ha, hb, h1, h2⟩ := hr.line hcon.2
    obtain ⟨a', b', -, ha', hb', h1', h2'⟩ := hr.line hcon.1
    simp only [Expr.variableIndices, List.mem_cons, List.not_mem_nil, or_false, h1, h1'] at hv
    have : (v = off st.elems a' ∨ v = off st.elems a' + 1 ∨ v = off st.elems b' ∨ v = off st.elems b' + 1) ∨ (v = off st.elems a ∨ v = off st.elems a + 1 ∨ v = off st.elems b ∨ v = off st.elems b + 1) := by tauto
    rw [Store.actsOn, h2, h2']
    rcases this with h | h
    · obtain ⟨w, h3, h4⟩ := two ha' hb' h
      exact ⟨w, List.mem_append_left _ h3, h4⟩
    · obtain ⟨w, h3, h4⟩ := two ha hb h
      exact ⟨w, List.mem_append_right _ h3, h4⟩

theorem Rel.reads_varOf {s : System F} {st : Store F} (hr : Rel s st) {con : Spec.Con F} (hcon : st.ConOk con) {ex : Expr F} (hex : ex ∈ encCon st.elems con) {v : Nat}
    (hv : v ∈ ex.variableIndices) : ∃ p ∈ st.actsOn con, ∃ el, s.elements[p]? = some el ∧ v ∈ el.variableIndices := by
  obtain ⟨p, h1, el, h2, h3, -⟩ := hr.reads_prim hcon hex hv
  exact ⟨p, h1, el, h2, h3⟩

/-- Different constrained elements have different variables. -/
theorem Reaches.varOf_unique {counter : Nat} {ops : List (Op F)} {c : Client F} (h : Reaches counter ops c) {p q : Nat}
    (hp : Constrained ((Store.empty F).run ops).arguments p) (hq : Constrained ((Store.empty F).run ops).arguments q)
    {el el' : EncodedElement} (h1 : c.sys.elements[p]? = some el) (h2 : c.sys.elements[q]? = some el') {v : Nat} (h3 : v ∈ el.variableIndices) (h4 : v ∈ el'.variableIndices) : p = q := by
  have hr := h.crel.rel
  have own : ∀ {i : Nat} {el : EncodedElement}, Constrained ((Store.empty F).run ops).arguments i → c.sys.elements[i]? = some el → v ∈ el.variableIndices →
      c.sys.variableToPrimitive[v]? = some i := by
    rintro i el ⟨l, hl, hil⟩ h1 h2
    obtain ⟨con, hcon, rfl⟩ := List.mem_map.1 hl
    obtain ⟨p, h3, h4⟩ := hr.owner_of_var h1 h2
    have hpi : p = i := by
      rcases actsOn_primitive hr (hr.wfCon con hcon) hil with ⟨x, y, he⟩ | ⟨x, he⟩ <;>
        (rw [Store.primitives, he] at h3; simpa using h3)
    rw [← hpi]
    exact h4
  have h5 := own hp h1 h3
  rw [own hq h2 h4] at h5
  cases h5
  rfl

end

/-! ## Components -/

section
variable {counter : Nat} {ops : List (Op ℝ)} {c : Client ℝ} (h : Reaches counter ops c)
include h

theorem Reaches.constrained_of_mem {comp : Component} (hcomp : comp ∈ c.sys.graph.components) {i : Nat} (hi : i ∈ comp.elements) :
    Constrained ((Store.empty ℝ).run ops).arguments i := (C17_elements_partitioned h i).2 ⟨comp, hcomp, hi⟩

/-- All variables an equation reads belong to the elements in `E`. -/
def System.ReadsWithin (s : System ℝ) (E : Finset Nat) (i : Nat) : Prop := ∀ e, s.scaledExpressions[i]? = some e → ∀ v ∈ e.variableIndices, s.VarOf E v

omit h in
theorem scaled_reads {s : System ℝ} {i : Nat} {e : Expr ℝ} (he : s.scaledExpressions[i]? = some e) : ∃ e0, s.expressions[i]? = some e0 ∧ e0.variableIndices = e.variableIndices := by
  rw [System.scaledExpressions, List.getElem?_map, Option.map_eq_some_iff] at he
  obtain ⟨e0, h1, rfl⟩ := he
  exact ⟨e0, h1, (transform_variableIndices _ _).symm⟩

omit h in
theorem Reaches.equation_in {F : Type} [Add F] [Sub F] [Mul F] [Div F] [Neg F] [Zero F] [One F] [FloatOps F] {counter : Nat} {ops : List (Op F)} {c : Client F}
    (h : Reaches counter ops c) {n i : Nat} (hi : ((Store.empty F).run ops).EquationOf n i) {e : Expr F} (he : c.sys.expressions[i]? = some e) :
    ∃ con, ((Store.empty F).run ops).cons[n]? = some con ∧ e ∈ encCon ((Store.empty F).run ops).elems con := by
  obtain ⟨con, h1, h2, h3⟩ := hi
  refine ⟨con, h1, ?_⟩
  rw [Store.firstEquation, ← flatMap_encCon_length ((Store.empty F).run ops).elems] at h2 h3
  have h4 := h.crel.rel.expression_at h1 (j := i - ((((Store.empty F).run ops).cons.take n).flatMap (encCon ((Store.empty F).run ops).elems)).length)
    (by rw [encCon_length, ← con_equations_eq]; omega)
  rw [Nat.add_sub_cancel' h2, he] at h4
  exact List.mem_of_getElem? h4.symm

variable (hn : NeverJoins ((Store.empty ℝ).run ops).arguments)
include hn

theorem Reaches.whole_within {comp : Component} (hcomp : comp ∈ c.sys.graph.components) {n i : Nat} (hnc : n ∈ comp.constraints)
    (hi : ((Store.empty ℝ).run ops).EquationOf n i) : c.sys.ReadsWithin comp.elements i := by
  intro e he v hv
  obtain ⟨e0, h1, h2⟩ := scaled_reads he
  obtain ⟨con, h3, h4⟩ := h.equation_in hi h1
  rw [← h2] at hv
  obtain ⟨p, h5, el, h6, h7⟩ := h.crel.rel.reads_varOf (h.crel.rel.wfCon con (List.mem_of_getElem? h3)) h4 hv
  exact ⟨p, (C17_linked_together_partial h hn hcomp).2 n hnc con h3 p h5, el, h6, h7⟩

theorem Reaches.paired_within {comp : Component} (hcomp : comp ∈ c.sys.graph.components) {i u : Nat} (hu : c.sys.VarOf comp.elements u)
    (hi : c.sys.ReadsVar i u) : c.sys.ReadsWithin comp.elements i := by
  intro e he v hv
  obtain ⟨e0, h1, h2⟩ := scaled_reads he
  rw [← h2] at hv
  have hr := h.crel.rel
  obtain ⟨e', h3, h4⟩ := hi
  rw [h1] at h3
  cases h3
  have hmem := List.mem_of_getElem? h1
  rw [hr.exprs, List.mem_flatMap] at hmem
  obtain ⟨con, hcon, hex⟩ := hmem
  obtain ⟨p, h5, el, h6, h7⟩ := hr.reads_varOf (hr.wfCon con hcon) hex hv
  obtain ⟨q, h8, el', h9, h10⟩ := hr.reads_varOf (hr.wfCon con hcon) hex h4
  obtain ⟨q', h11, el'', h12, h13⟩ := hu
  have hl : ((Store.empty ℝ).run ops).actsOn con ∈ ((Store.empty ℝ).run ops).arguments := List.mem_map_of_mem hcon
  have hq : q = q' := h.varOf_unique ⟨_, hl, h8⟩ (h.constrained_of_mem hcomp h11) h9 h12 h10 h13
  subst hq
  exact ⟨p, (C17_linked_together_partial h hn hcomp).1 q p h11 (.single ⟨_, hl, h8, h5⟩), el, h6, h7⟩

variable {optimize : Optimize ℝ} {ε : ℝ} (hatt : optimize.Attains ε) (hs : c.sys.scale ≠ 0) {ord : HashOrder} (hord : ord.Ok)
include hatt hs hord

theorem Reaches.component_sat {opts : SolvingOptions} (hd : opts.decomposer ≠ .recursiveAssembly) {ck : Component × Nat} (hcomp : ck.1 ∈ c.sys.graph.components) {st st' : SolveState ℝ}
    (hfix : ∀ v ∈ c.sys.fixedVariables, Synced c.sys.scale st v) (hc : solveComponent optimize ord opts c.sys c.sys.scale c.sys.scaledExpressions st ck = .ok st') :
    (∀ v, ¬ (c.sys.VarOf ck.1.elements v ∧ v ∉ c.sys.fixedVariables) → st'.vars[v]? = st.vars[v]? ∧ st'.transformed[v]? = st.transformed[v]?) ∧
      ∃ calls, st'.calls = st.calls ++ calls ∧ ∀ call ∈ calls, ∀ i ∈ call, SatAt c.sys.scaledExpressions c.sys.scale ε st'.vars i ∧ c.sys.ReadsWithin ck.1.elements i := by
  unfold solveComponent at hc
  split at hc
  · cases hc
    exact ⟨fun _ _ => ⟨rfl, rfl⟩, [], by simp, by simp⟩
  rw [bind_eq_ok] at hc
  obtain ⟨free, hfree, hc⟩ := hc
  rw [bind_eq_ok] at hc
  obtain ⟨st1, h1, hc⟩ := hc
  have hf := freeVariables_spec hfree
  obtain ⟨h2, h3⟩ := perturbFree_spec h1
  have hfix1 : ∀ v ∈ c.sys.fixedVariables, Synced c.sys.scale st1 v := by
    intro v hv x hx
    have hnf : v ∉ free := fun hcon => ((hf v).1 hcon).2 hv
    rw [h2.vars.2 v hnf]
    rw [h2.transformed.2 v hnf] at hx
    exact hfix v hv x hx
  have hframe : ∀ {st' : SolveState ℝ}, st1.Frame (· ∈ free) st' → ∀ v, ¬ (c.sys.VarOf ck.1.elements v ∧ v ∉ c.sys.fixedVariables) →
      st'.vars[v]? = st.vars[v]? ∧ st'.transformed[v]? = st.transformed[v]? := by
    intro st' hst v hv
    rw [← hf v] at hv
    exact ⟨(h2.trans hst).vars.2 v hv, (h2.trans hst).transformed.2 v hv⟩
  cases hdec : opts.decomposer with
  | none =>
    rw [hdec] at hc
    obtain ⟨h4, es, h5, h6⟩ := solveWhole_spec hc
    refine ⟨hframe h4, [es.flatten], by rw [h6, h3], ?_⟩
    have hw : ∀ i ∈ es.flatten, c.sys.ReadsWithin ck.1.elements i := by
      intro i hi
      obtain ⟨n, h7, h8⟩ := (mem_flatten_of_mapM h.crel.rel h5 i).1 hi
      exact h.whole_within hn hcomp ((mem_ascending _ _).1 h7) h8
    simp only [List.mem_singleton, forall_eq]
    refine fun i hi => ⟨solveWhole_sat hatt hs h5 (fun i hi e he v hv hnf => hfix1 v ?_) hc i hi, hw i hi⟩
    by_contra hcon
    exact hnf ((hf v).2 ⟨hw i hi e he v hv, hcon⟩)
  | singlePass =>
    rw [hdec] at hc
    simp only at hc
    obtain ⟨plan, M, p1, p2, -, -, p5, p6, p7⟩ := h.plan (free := free) (fun v hv => h.varOf_lt ((hf v).1 hv).1)
    obtain ⟨h4, h6⟩ := solveSinglePass_spec hord p1 (h.blocks_free hfree p1) hc
    rw [solveSinglePass, p1, ok_bind] at hc
    have hw : ∀ b ∈ plan, ∀ i ∈ b.expressions, c.sys.ReadsWithin ck.1.elements i := by
      intro b hb i hi
      obtain ⟨u, hu⟩ := (p5 i).1 (List.mem_flatten.2 ⟨b.expressions, by simpa [stepsOf] using ⟨b, hb, rfl⟩, hi⟩)
      obtain ⟨h7, h8⟩ := p2.1.edge _ hu
      exact h.paired_within hn hcomp ((hf u).1 h7).1 h8
    refine ⟨hframe h4, _, by rw [h6, h3], ?_⟩
    have hpair : plan.zipIdx.Pairwise (fun b b' => Disjoint b.1.freeVariables b'.1.freeVariables) := by
      rw [List.pairwise_iff_getElem]
      intro i j hi hj hij
      simp only [List.length_zipIdx] at hi hj
      simp only [List.getElem_zipIdx]
      exact p6.disjoint i j (plan[i].freeVariables, plan[i].expressions) (plan[j].freeVariables, plan[j].expressions) (by simp [stepsOf, hi]) (by simp [stepsOf, hj]) (by omega)
    obtain ⟨h7, -⟩ := blocks_sat hatt hs hord plan.zipIdx (fun v => v ∈ c.sys.fixedVariables) st1 st' hfix1
      (fun v hv b hb hcon => ((hf v).1 (h.blocks_free hfree p1 b.1 (mem_zipIdx_fst hb) hcon)).2 hv) hpair
      (fun j b hb i hi e he v hv => by
        have hb' : plan[j]? = some b.1 := by
          rw [List.getElem?_zipIdx, Option.map_eq_some_iff] at hb
          obtain ⟨b0, h8, rfl⟩ := hb
          exact h8
        by_cases hvf : v ∈ c.sys.fixedVariables
        · exact .inl hvf
        right
        have hvfree : v ∈ free := (hf v).2 ⟨hw b.1 (List.mem_of_getElem? hb') i hi e he v hv, hvf⟩
        obtain ⟨e0, h8, h9⟩ := scaled_reads he
        obtain ⟨j', s, h10, h11, h12⟩ := p7 j (b.1.freeVariables, b.1.expressions) (by simp [stepsOf, hb']) i hi v hvfree ⟨e0, h8, by rw [h9]; exact hv⟩
        rw [stepsOf, List.getElem?_map, Option.map_eq_some_iff] at h11
        obtain ⟨b', h13, rfl⟩ := h11
        exact ⟨j', h10, (b', j'), by rw [List.getElem?_zipIdx, h13]; simp, h12⟩)
      hc
    intro call hcall i hi
    obtain ⟨b, hb, rfl⟩ := List.mem_map.1 hcall
    obtain ⟨k, hk⟩ := List.mem_iff_getElem?.1 hb
    exact ⟨h7 (b, k) (List.mem_zipIdx_iff_getElem?.2 hk) i hi, hw b hb i hi⟩
  | recursiveAssembly => exact absurd hdec hd

/-- With the decomposers `None` and `SinglePass`, whatever was solved in some call is still solved after the last one. -/
theorem Reaches.loop_sat {opts : SolvingOptions} (hd : opts.decomposer ≠ .recursiveAssembly) {st : SolveState ℝ} (hl : c.sys.solveLoop optimize ord opts = .ok st) :
    ∀ call ∈ st.calls, ∀ i ∈ call, SatAt c.sys.scaledExpressions c.sys.scale ε st.vars i := by
  have key : ∀ (l : List (Component × Nat)) (st st' : SolveState ℝ), (∀ ck ∈ l, c.sys.graph.components[ck.2]? = some ck.1) → (l.map Prod.snd).Nodup →
      (∀ v ∈ c.sys.fixedVariables, Synced c.sys.scale st v) →
      (∀ call ∈ st.calls, ∀ i ∈ call, SatAt c.sys.scaledExpressions c.sys.scale ε st.vars i ∧
        ∃ (k : Nat) (comp : Component), c.sys.graph.components[k]? = some comp ∧ k ∉ l.map Prod.snd ∧ c.sys.ReadsWithin comp.elements i) →
      l.foldlM (solveComponent optimize ord opts c.sys c.sys.scale c.sys.scaledExpressions) st = .ok st' →
      ∀ call ∈ st'.calls, ∀ i ∈ call, SatAt c.sys.scaledExpressions c.sys.scale ε st'.vars i := by
    intro l
    induction l with
    | nil =>
      intro st st' _ _ _ hst hf call hcall i hi
      cases hf
      exact (hst call hcall i hi).1
    | cons ck l ih =>
      intro st st' hcomps hnd hfix hst hf
      rw [List.foldlM_cons, bind_eq_ok] at hf
      obtain ⟨st1, h1, h2⟩ := hf
      rw [List.map_cons, List.nodup_cons] at hnd
      have hck := hcomps ck (by simp)
      obtain ⟨h3, calls, h4, h5⟩ := h.component_sat hn hatt hs hord hd (List.mem_of_getElem? hck) hfix h1
      refine ih st1 st' (fun ck hck => hcomps ck (by simp [hck])) hnd.2 (fun v hv x hx => ?_) (fun call hcall i hi => ?_) h2
      · rw [(h3 v (fun hcon => hcon.2 hv)).2] at hx
        rw [(h3 v (fun hcon => hcon.2 hv)).1]
        exact hfix v hv x hx
      · rw [h4] at hcall
        rcases List.mem_append.1 hcall with hcall | hcall
        · obtain ⟨h6, k, comp, h7, h8, h9⟩ := hst call hcall i hi
          rw [List.map_cons, List.mem_cons, not_or] at h8
          refine ⟨h6.congr fun e he v hv => (h3 v ?_).1, k, comp, h7, h8.2, h9⟩
          rintro ⟨⟨p, hp, el, h10, h11⟩, -⟩
          obtain ⟨q, hq, el', h12, h13⟩ := h9 e he v hv
          have hpc := h.constrained_of_mem (List.mem_of_getElem? hck) hp
          have hpq := h.varOf_unique hpc (h.constrained_of_mem (List.mem_of_getElem? h7) hq) h10 h12 h11 h13
          subst hpq
          obtain ⟨k0, -, h14⟩ := (C17_elements_partitioned h p).1 hpc
          exact h8.1 ((h14 k ⟨comp, h7, hq⟩).trans (h14 ck.2 ⟨ck.1, hck, hp⟩).symm)
        · obtain ⟨h6, h7⟩ := h5 call hcall i hi
          exact ⟨h6, ck.2, ck.1, hck, hnd.1, h7⟩
  refine key _ _ _ (fun ck hck => List.mem_zipIdx_iff_getElem?.1 hck) (by rw [List.zipIdx_map_snd]; exact List.nodup_range') (fun v _ x hx => ?_) (by simp) hl
  simp only at hx
  rw [System.scaledVariables, List.getElem?_map, Option.map_eq_some_iff] at hx
  obtain ⟨y, h2, rfl⟩ := hx
  simp only
  rw [h2]
  congr 1
  field_simp

end

/-! ## Constraints -/

/-- The power of the unit of length in which the residual of a constraint is measured: angles 0, products of lengths 2, lengths 1. -/
def Spec.Con.lengthPower {F : Type} : Spec.Con F → Nat
  | .pointPointPointAngle .. => 0
  | .lineLineAngle .. => 0
  | .pointLineIncidence .. => 2
  | .lineLineParallelism .. => 2
  | .lineLinePerpendicularity .. => 2
  | _ => 1

theorem encCon_degree {F : Type} {es : List (Elem F)} {con : Spec.Con F} {e : Expr F} (h : e ∈ encCon es con) : lengthDegree e = con.lengthPower := by
  cases con <;> simp only [encCon, List.mem_cons, List.not_mem_nil, or_false] at h <;>
    first
    | (subst h; rfl)
    | (rcases h with rfl | rfl <;> rfl)

theorem SatAt.unscale {s : System ℝ} (hs : 0 < s.scale) {ε : ℝ} {V : List ℝ} {i : Nat} (h : SatAt s.scaledExpressions s.scale ε V i) {e : Expr ℝ} (he : s.expressions[i]? = some e) :
    ∃ r, e.calculateResidual (identityMap V) = .ok r ∧ |r| ≤ s.scale ^ lengthDegree e * ε := by
  obtain ⟨r, h1, h2⟩ := h (e.transform (1 / s.scale)) (by rw [System.scaledExpressions, List.getElem?_map, he]; rfl)
  have h3 := (C15_rescaling hs _ _ h1).1
  have h4 : (e.transform (1 / s.scale)).transform s.scale = e := by
    have hne := hs.ne'
    cases e <;> simp only [Expr.transform] <;> congr 1 <;> field_simp
  have h5 : (V.map (· * (1 / s.scale))).map (· * s.scale) = V := by
    rw [List.map_map]
    conv_rhs => rw [← List.map_id V]
    apply List.map_congr_left
    intro x _
    simp only [Function.comp_apply, id_eq]
    have hne := hs.ne'
    field_simp
  have h6 : lengthDegree (e.transform (1 / s.scale)) = lengthDegree e := by cases e <;> rfl
  rw [h4, h5, h6] at h3
  refine ⟨_, h3, ?_⟩
  rw [abs_mul, abs_of_pos (pow_pos hs _)]
  exact mul_le_mul_of_nonneg_left h2 (pow_pos hs _).le

theorem sumSquares_bound {B : ℝ} : ∀ {rs : List ℝ}, (∀ r ∈ rs, |r| ≤ B) → sumSquares rs ≤ rs.length * B ^ 2 := by
  intro rs h
  rw [sumSquares_real]
  induction rs with
  | nil => simp
  | cons a l ih =>
    rw [List.map_cons, List.sum_cons, List.length_cons]
    push_cast
    have h1 := ih fun r hr => h r (by simp [hr])
    have h2 : a ^ 2 ≤ B ^ 2 := sq_le_sq' (by linarith [neg_abs_le a, h a (by simp)]) (by linarith [le_abs_self a, h a (by simp)])
    linarith

theorem Rel.residual_bound {s : System ℝ} {st : Store ℝ} (hr : Rel s st) {V : List ℝ} {n : Nat} {con : Spec.Con ℝ} (hcon : st.cons[n]? = some con) {B : ℝ} (hB : 0 ≤ B)
    (h : ∀ i, st.EquationOf n i → ∀ e, s.expressions[i]? = some e → ∃ r, e.calculateResidual (identityMap V) = .ok r ∧ |r| ≤ B) :
    ∃ r, ({ s with vars := V } : System ℝ).residualOf con.kind.valency n = .ok r ∧ |r| ≤ √con.equations * B := by
  have hlen := encCon_length st.elems con
  have hat : ∀ j < con.kind.valency, ∃ e, s.expressions[((st.cons.take n).flatMap (encCon st.elems)).length + j]? = some e ∧ ∃ r, e.calculateResidual (identityMap V) = .ok r ∧ |r| ≤ B := by
    intro j hj
    have h1 := hr.expression_at hcon (j := j) (by omega)
    rw [List.getElem?_eq_getElem (show j < (encCon st.elems con).length by omega)] at h1
    refine ⟨_, h1, h _ ⟨con, hcon, ?_, ?_⟩ _ h1⟩
    · rw [Store.firstEquation, flatMap_encCon_length]; omega
    · rw [Store.firstEquation, flatMap_encCon_length, con_equations_eq]; omega
  rw [System.residualOf]
  simp only [idx_of (hr.constraint_at hcon), ok_bind]
  split
  · have key : ∀ l : List Nat, (∀ j ∈ l, j < con.kind.valency) → ∃ rs, l.mapM (fun offset => do
        let e ← idx s.expressions (((st.cons.take n).flatMap (encCon st.elems)).length + offset)
        e.calculateResidual (identityMap V)) = .ok rs ∧ (∀ r ∈ rs, |r| ≤ B) ∧ rs.length = l.length := by
      intro l
      induction l with
      | nil => intro _; exact ⟨[], rfl, by simp, rfl⟩
      | cons j l ih =>
        intro hl
        obtain ⟨rs, h1, h2, h3⟩ := ih fun j hj => hl j (by simp [hj])
        obtain ⟨e, h4, r, h5, h6⟩ := hat j (hl j (by simp))
        refine ⟨r :: rs, ?_, by simpa using ⟨h6, h2⟩, by simp [h3]⟩
        rw [List.mapM_cons, idx_of h4, ok_bind, h5, ok_bind, h1]
        rfl
    obtain ⟨rs, h1, h2, h3⟩ := key (List.range con.kind.valency) (fun j hj => List.mem_range.1 hj)
    rw [h1, ok_bind]
    refine ⟨_, rfl, ?_⟩
    have h4 := sumSquares_bound h2
    rw [h3, List.length_range, ← con_equations_eq] at h4
    show |√(sumSquares rs)| ≤ _
    rw [abs_of_nonneg (Real.sqrt_nonneg _)]
    calc √(sumSquares rs) ≤ √(con.equations * B ^ 2) := Real.sqrt_le_sqrt h4
      _ = √con.equations * B := by rw [Real.sqrt_mul (by positivity), Real.sqrt_sq hB]
  · rename_i hv
    have hv1 : con.kind.valency = 1 := by cases con <;> simp_all [Spec.Con.kind, ConstraintTag.valency]
    obtain ⟨e, h4, r, h5, h6⟩ := hat 0 (by omega)
    rw [Nat.add_zero] at h4
    refine ⟨r, ?_, ?_⟩
    · rw [idx_of h4, ok_bind, h5]
    · rw [con_equations_eq, hv1, Nat.cast_one, Real.sqrt_one, one_mul]
      exact h6

open Classical in
/-- The optimiser that fails unless all residuals are at most `ε` where `optimize` returns. -/
noncomputable def Optimize.checked (optimize : Optimize ℝ) (ε : ℝ) : Optimize ℝ := fun o p x => do
  let x' ← optimize o p x
  if ∃ r, p.residuals x' = .ok r ∧ ∀ y ∈ r, |y| ≤ ε then pure x' else .error .unwrapNone

theorem Optimize.checked_attains (optimize : Optimize ℝ) (ε : ℝ) : (optimize.checked ε).Attains ε := by
  intro o p x x' h
  rw [Optimize.checked, bind_eq_ok] at h
  obtain ⟨y, -, h⟩ := h
  split at h
  · rename_i hy
    cases h
    exact hy
  · cases h

theorem Optimize.of_checked {optimize : Optimize ℝ} {ε : ℝ} {o : Optimizer} {p : Problem ℝ} {x x' : List ℝ} (h : optimize.checked ε o p x = .ok x') : optimize o p x = .ok x' := by
  rw [Optimize.checked, bind_eq_ok] at h
  obtain ⟨y, h1, h⟩ := h
  split at h
  · cases h
    exact h1
  · cases h

/-! ## Whole systems -/

theorem foldlM_mono {σ α : Type} {f g : σ → α → R σ} (h : ∀ s a s', f s a = .ok s' → g s a = .ok s') : ∀ {l : List α} {s s' : σ}, l.foldlM f s = .ok s' → l.foldlM g s = .ok s' := by
  intro l
  induction l with
  | nil => intro s s' hs; exact hs
  | cons a l ih =>
    intro s s' hs
    rw [List.foldlM_cons, bind_eq_ok] at hs
    obtain ⟨s1, h1, h2⟩ := hs
    rw [List.foldlM_cons, h s a s1 h1, ok_bind]
    exact ih h2

/-- An optimiser that succeeds whenever another one does, with the same result, leads to the same result of `solve`. -/
theorem solve_mono {opt opt' : Optimize ℝ} (hle : ∀ o p x x', opt o p x = .ok x' → opt' o p x = .ok x') {ord : HashOrder} {opts : SolvingOptions} {s s' : System ℝ}
    (h : s.solve opt ord opts = .ok s') : s.solve opt' ord opts = .ok s' := by
  obtain ⟨st, h1, rfl⟩ := solve_eq h
  rw [System.solve]
  suffices h2 : s.solveLoop opt' ord opts = .ok st by rw [h2]; rfl
  unfold System.solveLoop at h1 ⊢
  refine foldlM_mono (fun st ck st' hc => ?_) h1
  unfold solveComponent at hc ⊢
  split
  · rename_i he
    rw [if_pos he] at hc
    exact hc
  rename_i he
  rw [if_neg he] at hc
  simp only [bind_eq_ok] at hc ⊢
  obtain ⟨free, h2, st1, h3, h4⟩ := hc
  refine ⟨free, h2, st1, h3, ?_⟩
  cases hd : opts.decomposer with
  | none =>
    rw [hd] at h4
    simp only [solveWhole, bind_eq_ok] at h4 ⊢
    obtain ⟨v, h5, es, h6, v', h7, h8⟩ := h4
    exact ⟨v, h5, es, h6, v', hle _ _ _ _ h7, h8⟩
  | singlePass =>
    rw [hd] at h4
    simp only [solveSinglePass, bind_eq_ok] at h4 ⊢
    obtain ⟨blocks, h5, h6⟩ := h4
    refine ⟨blocks, h5, foldlM_mono (fun st b st' hb => ?_) h6⟩
    simp only [solveBlock, bind_eq_ok] at hb ⊢
    obtain ⟨v, h5, v', h7, h8⟩ := hb
    exact ⟨v, h5, v', hle _ _ _ _ h7, h8⟩
  | recursiveAssembly =>
    rw [hd] at h4
    simp only [solveRecursive, bind_eq_ok] at h4 ⊢
    obtain ⟨steps, h5, h6⟩ := h4
    refine ⟨steps, h5, foldlM_mono (fun st b st' hb => ?_) h6⟩
    rw [solveStep, bind_eq_ok] at hb ⊢
    obtain ⟨⟨cs, v⟩, h5, hb⟩ := hb
    refine ⟨(cs, v), h5, ?_⟩
    simp only [bind_eq_ok] at hb ⊢
    obtain ⟨v', h7, h8⟩ := hb
    exact ⟨v', hle _ _ _ _ h7, h8⟩

theorem Reaches.scale_pos {counter : Nat} {ops : List (Op ℝ)} {c : Client ℝ} (h : Reaches counter ops c) (hnz : ((Store.empty ℝ).run ops).NonZero) : 0 < c.sys.scale := by
  refine (C15_system_scale c.sys (.inl ?_)).1
  rw [h.crel.rel.vars]
  obtain ⟨e, he, ⟨x, y, rfl, h0⟩ | ⟨x, rfl, h0⟩⟩ := hnz
  · rcases h0 with h0 | h0
    · exact ⟨x, List.mem_flatMap.2 ⟨_, he, by simp [elemValues]⟩, h0⟩
    · exact ⟨y, List.mem_flatMap.2 ⟨_, he, by simp [elemValues]⟩, h0⟩
  · exact ⟨x, List.mem_flatMap.2 ⟨_, he, by simp [elemValues]⟩, h0⟩

section
variable {counter : Nat} {ops : List (Op ℝ)} {c : Client ℝ} (h : Reaches counter ops c) (hnz : ((Store.empty ℝ).run ops).NonZero)
  (hn : NeverJoins ((Store.empty ℝ).run ops).arguments) {optimize : Optimize ℝ} {ε : ℝ} (hatt : optimize.Attains ε) (hε : 0 ≤ ε) {ord : HashOrder} (hord : ord.Ok)
include h hnz hn hatt hε hord

/-- C62, per constraint: a constraint all of whose equations were handed to the optimiser in some call is satisfied after the last call, even if the calls in between have moved
its elements. -/
theorem C62_solved_stays_solved_partial {opts : SolvingOptions} (hd : opts.decomposer ≠ .recursiveAssembly) {st : SolveState ℝ} (hs : c.sys.solveLoop optimize ord opts = .ok st)
    {n : Nat} {con : Spec.Con ℝ} {hdl : Handle} (hh : c.conHandles[n]? = some hdl) (hcon : ((Store.empty ℝ).run ops).cons[n]? = some con)
    (hc : ∀ i, ((Store.empty ℝ).run ops).EquationOf n i → ∃ call ∈ st.calls, i ∈ call) :
    ∃ r, ({ c.sys with vars := st.vars } : System ℝ).calculateResidual con.kind hdl = .ok r ∧ |r| ≤ √con.equations * (c.sys.scale ^ con.lengthPower * ε) := by
  have hpos := h.scale_pos hnz
  have hcr := h.crel.conHandle (lt_of_getElem? hcon)
  rw [hh] at hcr
  cases hcr
  rw [System.calculateResidual, if_neg (by simp)]
  refine h.crel.rel.residual_bound hcon (mul_nonneg (pow_pos hpos _).le hε) fun i hi e he => ?_
  obtain ⟨call, h1, h2⟩ := hc i hi
  obtain ⟨con', h3, h4⟩ := h.equation_in hi he
  rw [hcon] at h3
  cases h3
  rw [← encCon_degree h4]
  exact (h.loop_sat hn hatt hpos.ne' hord hd hs call h1 i h2).unscale hpos he

/-- C62 (partial): with the decomposer `None`, for histories in which no constraint joins two constrained parts (see C17): if every call of the optimiser ends where the residuals of
its problem are at most `ε`, then all constraints have small residuals in the end (at most `ε`, in the unit of length used for solving). In particular, for `ε = 0` all residuals are
zero. (Full statement: for all histories and decomposers; false, see `C62_unsatisfied_after_success`.) -/
theorem C62_success_satisfies_partial {opts : SolvingOptions} (hd : opts.decomposer = .none) {s' : System ℝ} (hs : c.sys.solve optimize ord opts = .ok s')
    {n : Nat} {con : Spec.Con ℝ} {hdl : Handle} (hh : c.conHandles[n]? = some hdl) (hcon : ((Store.empty ℝ).run ops).cons[n]? = some con) :
    ∃ r, s'.calculateResidual con.kind hdl = .ok r ∧ |r| ≤ √con.equations * (c.sys.scale ^ con.lengthPower * ε) := by
  obtain ⟨st, h1, rfl⟩ := solve_eq hs
  exact C62_solved_stays_solved_partial h hnz hn hatt hε hord (by simp [hd]) h1 hh hcon
    fun i hi => C22_every_constraint_used_partial h hn hord (by simp [hd]) h1 hi

/-- C62 (partial) for `SinglePass`: the same, if the system is not over-determined: every equation can be paired with a variable of its own that it reads and that is not fixed. -/
theorem C62_singlePass_success_satisfies_partial {opts : SolvingOptions} (hd : opts.decomposer = .singlePass) {M : Finset (Nat × Nat)}
    (hM : IsMatching (CanPair c.sys.ReadsVar (Finset.range c.sys.vars.length \ c.sys.fixedVariables)) M) (hall : ∀ i < c.sys.expressions.length, ∃ u, (u, i) ∈ M)
    {s' : System ℝ} (hs : c.sys.solve optimize ord opts = .ok s')
    {n : Nat} {con : Spec.Con ℝ} {hdl : Handle} (hh : c.conHandles[n]? = some hdl) (hcon : ((Store.empty ℝ).run ops).cons[n]? = some con) :
    ∃ r, s'.calculateResidual con.kind hdl = .ok r ∧ |r| ≤ √con.equations * (c.sys.scale ^ con.lengthPower * ε) := by
  obtain ⟨st, h1, rfl⟩ := solve_eq hs
  refine C62_solved_stays_solved_partial h hnz hn hatt hε hord (by simp [hd]) h1 hh hcon fun i hi => ?_
  have hr := h.crel.rel
  have hlt : i < c.sys.expressions.length := by
    obtain ⟨con', h2, h3, h4⟩ := hi
    rw [hcon] at h2
    cases h2
    rw [Store.firstEquation, ← flatMap_encCon_length ((Store.empty ℝ).run ops).elems] at h3 h4
    have h5 := hr.expression_at hcon (j := i - ((((Store.empty ℝ).run ops).cons.take n).flatMap (encCon ((Store.empty ℝ).run ops).elems)).length)
      (by rw [encCon_length, ← con_equations_eq]; omega)
    rw [Nat.add_sub_cancel' h3] at h5
    exact lt_of_getElem? (h5.trans (List.getElem?_eq_getElem (by rw [encCon_length, ← con_equations_eq]; omega)))
  obtain ⟨u, hu⟩ := hall i hlt
  obtain ⟨h2, h3⟩ := hM.edge _ hu
  rw [Finset.mem_sdiff] at h2
  obtain ⟨e, h4, h5⟩ := id h3
  obtain ⟨con', h6, h7⟩ := h.equation_in hi h4
  obtain ⟨p, h8, el, h9, h10⟩ := hr.reads_varOf (hr.wfCon con' (List.mem_of_getElem? h6)) h7 h5
  obtain ⟨k, ⟨comp, h11, h12⟩, -⟩ := (C17_elements_partitioned h p).1 ⟨_, List.mem_map_of_mem (List.mem_of_getElem? h6), h8⟩
  have hcomp := List.mem_of_getElem? h11
  obtain ⟨free, hf⟩ := h.freeVariables_ok hcomp
  have hfs := freeVariables_spec hf
  have huf : u ∈ free := (hfs u).2 ⟨⟨p, h12, el, h9, h10⟩, h2.2⟩
  refine C22_singlePass_uses_paired_partial h hord hd h1 hcomp hf (M := M.filter (fun q => q.1 ∈ free))
    ⟨fun q hq => ?_, fun q hq q' hq' => hM.left q (Finset.mem_filter.1 hq).1 q' (Finset.mem_filter.1 hq').1,
      fun q hq q' hq' => hM.right q (Finset.mem_filter.1 hq).1 q' (Finset.mem_filter.1 hq').1⟩ (fun v hv i' hi' => ?_) huf h3
  · rw [Finset.mem_filter] at hq
    exact ⟨hq.2, (hM.edge q hq.1).2⟩
  · have hlt' : i' < c.sys.expressions.length := by
      obtain ⟨e', h13, -⟩ := hi'
      exact lt_of_getElem? h13
    obtain ⟨u', hu'⟩ := hall i' hlt'
    refine ⟨u', Finset.mem_filter.2 ⟨hu', (hfs u').2 ⟨?_, ?_⟩⟩⟩
    · obtain ⟨e', h13, h14⟩ := (hM.edge _ hu').2
      have hwi := h.paired_within hn hcomp ((hfs v).1 hv).1 hi' (e'.transform (1 / c.sys.scale)) (by rw [System.scaledExpressions, List.getElem?_map, h13]; rfl)
      rw [transform_variableIndices] at hwi
      exact hwi u' h14
    · have := (hM.edge _ hu').1
      rw [Finset.mem_sdiff] at this
      exact this.2

end

/-- C62 (partial) for every optimiser: if solving succeeds with the optimiser that fails unless it ends at residuals of at most `ε`, then solving with the optimiser itself gives
the same result, and all constraints have residuals of at most `ε` (in the unit of length used for solving). -/
theorem C62_all_calls_succeed_partial {counter : Nat} {ops : List (Op ℝ)} {c : Client ℝ} (h : Reaches counter ops c) (hnz : ((Store.empty ℝ).run ops).NonZero)
    (hn : NeverJoins ((Store.empty ℝ).run ops).arguments) {optimize : Optimize ℝ} {ε : ℝ} (hε : 0 ≤ ε) {ord : HashOrder} (hord : ord.Ok)
    {opts : SolvingOptions} (hd : opts.decomposer = .none) {s' : System ℝ} (hs : c.sys.solve (optimize.checked ε) ord opts = .ok s') :
    c.sys.solve optimize ord opts = .ok s' ∧ ∀ (n : Nat) hdl con, c.conHandles[n]? = some hdl → ((Store.empty ℝ).run ops).cons[n]? = some con →
      ∃ r, s'.calculateResidual con.kind hdl = .ok r ∧ |r| ≤ √con.equations * (c.sys.scale ^ con.lengthPower * ε) :=
  ⟨solve_mono (fun _ _ _ _ h => Optimize.of_checked h) hs, fun _ _ _ h1 h2 =>
    C62_success_satisfies_partial h hnz hn (Optimize.checked_attains optimize ε) hε hord hd hs h1 h2⟩

/-- C62 (partial) in terms of geometry: if every call of the optimiser ends at residuals of zero, every constraint holds in the plane after `solve` (unless it has become degenerate). -/
theorem C62_success_holds_partial {counter : Nat} {ops : List (Op ℝ)} {c : Client ℝ} (h : Reaches counter ops c) (hl : ops.length + 1 < 2 ^ 30) (hnz : ((Store.empty ℝ).run ops).NonZero)
    (hn : NeverJoins ((Store.empty ℝ).run ops).arguments) {optimize : Optimize ℝ} (hatt : optimize.Attains 0) {ord : HashOrder} (hord : ord.Ok)
    {opts : SolvingOptions} (hd : opts.decomposer = .none) {s' : System ℝ} (hs : c.sys.solve optimize ord opts = .ok s') :
    ∃ result, Reaches counter (ops ++ [.solve result]) { c with sys := s' } ∧ ∀ con ∈ ((Store.empty ℝ).run ops).cons,
      Geo.Regular ((Store.empty ℝ).run (ops ++ [.solve result])) con → Geo.Holds ((Store.empty ℝ).run (ops ++ [.solve result])) con := by
  obtain ⟨result, h1⟩ := C25_solve_is_a_call h hl hord hs
  refine ⟨result, h1, fun con hcon hreg => ?_⟩
  obtain ⟨n, hcn⟩ := List.mem_iff_getElem?.1 hcon
  have hcn' : ((Store.empty ℝ).run (ops ++ [.solve result])).cons[n]? = some con := by
    rw [Store.run, List.foldl_append]
    exact hcn
  have hh := h.crel.conHandle (lt_of_getElem? hcn)
  obtain ⟨r, h2, h3⟩ := C62_success_satisfies_partial h hnz hn hatt le_rfl hord hd hs hh hcn
  obtain ⟨r', h4, h5⟩ := C12_zero_residual_iff_partial h1 hh hcn' hreg
  rw [h4] at h2
  cases h2
  refine h5.1 ?_
  rw [mul_zero, mul_zero] at h3
  exact abs_nonpos_iff.1 h3

end Fiksi
