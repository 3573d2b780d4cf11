import Verif.Proofs.Forest
/-!
# Depth levels
-/
namespace Fiksi

open Spec

variable {parents : List (Option Nat)}

theorem DepthOf_bound {v d : Nat} (h : DepthOf parents v d) : d < parents.length := by
  have key : ∃ S : Finset Nat, S ⊆ Finset.range parents.length ∧ S.card = d + 1 ∧ ∀ x ∈ S, ∃ e ≤ d, DepthOf parents x e := by
    induction h with
    | @root v h =>
      refine ⟨{v}, ?_, by simp, ?_⟩
      · intro x hx
        rw [Finset.mem_singleton] at hx
        subst hx
        exact Finset.mem_range.2 (List.getElem?_eq_some_iff.1 h).1
      · intro x hx
        rw [Finset.mem_singleton] at hx
        subst hx
        exact ⟨0, le_refl _, .root h⟩
    | @step v p d h hd ih =>
      obtain ⟨S, h1, h2, h3⟩ := ih
      have hv : v ∉ S := by
        intro hv
        obtain ⟨e, he, hde⟩ := h3 v hv
        have := DepthOf_unique hde (.step h hd)
        omega
      refine ⟨insert v S, ?_, by rw [Finset.card_insert_of_notMem hv, h2], ?_⟩
      · intro x hx
        rcases Finset.mem_insert.1 hx with rfl | hx
        · exact Finset.mem_range.2 (List.getElem?_eq_some_iff.1 h).1
        · exact h1 hx
      · intro x hx
        rcases Finset.mem_insert.1 hx with rfl | hx
        · exact ⟨d + 1, le_refl _, .step h hd⟩
        · obtain ⟨e, he, hde⟩ := h3 x hx
          exact ⟨e, by omega, hde⟩
  obtain ⟨S, h1, h2, -⟩ := key
  have := Finset.card_le_card h1
  rw [Finset.card_range] at this
  omega

/-- What is true of the levels at any time. -/
structure LevelsOk (parents : List (Option Nat)) (levels : List Nat) (maxLevel : Nat) : Prop where
  len : levels.length = parents.length
  level : ∀ (v l : Nat), levels[v]? = some l → l ≠ 0 → DepthOf parents v l
  le : ∀ (v l : Nat), levels[v]? = some l → l ≤ maxLevel
  reached : maxLevel ≠ 0 → ∃ v : Nat, levels[v]? = some maxLevel

/-- The path of nodes, from the last to the first; the parent of its head is `node`. -/
def PathTo (parents : List (Option Nat)) : Nat → List Nat → Prop
  | _, [] => True
  | node, v :: path => parents[v]? = some (some node) ∧ PathTo parents v path

theorem walkUp_spec {levels : List Nat} {m : Nat} (hl : LevelsOk parents levels m) {fuel : Nat} :
    ∀ node path d, DepthOf parents node d → d < fuel → PathTo parents node path →
      (∀ v ∈ path, levels[v]? = some 0) →
      ∃ node' path' d', walkUp parents levels fuel node path = .ok (node', path') ∧ levels[node']? = some d' ∧ DepthOf parents node' d' ∧
        PathTo parents node' path' ∧ (node = node' ∨ node ∈ path') ∧ (∀ x ∈ path, x ∈ path') ∧ (∀ v ∈ path', levels[v]? = some 0) := by
  induction fuel with
  | zero => intro node path d _ h; omega
  | succ fuel ih =>
    intro node path d hd hf hp hz
    have hnl := DepthOf_lt hd
    have h1 : levels[node]? = some (levels[node]'(by rw [hl.len]; exact hnl)) := List.getElem?_eq_getElem _
    rw [walkUp, idx_of h1, ok_bind]
    cases hd with
    | root h =>
      rw [idx_of h, ok_bind]
      have h0 : levels[node]'(by rw [hl.len]; exact hnl) = 0 := by
        by_contra hne
        have := DepthOf_unique (hl.level node _ h1 hne) (.root h)
        exact hne this
      rw [h0] at h1
      exact ⟨node, path, 0, by simp [h0], h1, .root h, hp, Or.inl rfl, fun x hx => hx, hz⟩
    | @step _ p d h hd =>
      rw [idx_of h, ok_bind]
      by_cases h0 : levels[node]'(by rw [hl.len]; exact hnl) = 0
      · rw [h0]
        rw [h0] at h1
        simp only
        obtain ⟨node', path', d', e1, e2, e3, e4, e5, e6, e7⟩ := ih p (node :: path) d hd (by omega) ⟨h, hp⟩ (by
          intro v hv
          rcases List.mem_cons.1 hv with rfl | hv
          · exact h1
          · exact hz v hv)
        exact ⟨node', path', d', e1, e2, e3, e4, Or.inr (e6 node (by simp)), fun x hx => e6 x (by simp [hx]), e7⟩
      · refine ⟨node, path, _, ?_, h1, hl.level node _ h1 h0, hp, Or.inl rfl, fun x hx => hx, hz⟩
        obtain ⟨k, hk⟩ := Nat.exists_eq_succ_of_ne_zero h0
        rw [hk]
        rfl

theorem walkBack_spec (path : List Nat) : ∀ (node d : Nat) (levels : List Nat) (m : Nat), LevelsOk parents levels m → DepthOf parents node d →
    PathTo parents node path → (∀ v ∈ path, ∃ l, levels[v]? = some l ∧ (l = 0 ∨ DepthOf parents v l)) →
    ∃ level' levels' m', path.foldlM walkBack (d, levels, m) = .ok (level', levels', m') ∧ LevelsOk parents levels' m' ∧
      (∀ v ∈ path, ∃ l, levels'[v]? = some l ∧ DepthOf parents v l) ∧ ∀ (v l : Nat), levels[v]? = some l → DepthOf parents v l → levels'[v]? = some l := by
  induction path with
  | nil => intro node d levels m hl _ _ _; exact ⟨d, levels, m, rfl, hl, by simp, fun _ _ h _ => h⟩
  | cons v path ih =>
    intro node d levels m hl hd hp hz
    obtain ⟨hpv, hp⟩ := hp
    have hdv : DepthOf parents v (d + 1) := .step hpv hd
    have hvl : v < levels.length := by rw [hl.len]; exact DepthOf_lt hdv
    obtain ⟨l, hl0, hl1⟩ := hz v (by simp)
    have hlle : l ≤ d + 1 := by
      rcases hl1 with rfl | h
      · omega
      · exact le_of_eq (DepthOf_unique h hdv)
    have hnew : LevelsOk parents (levels.set v (d + 1)) (max m (d + 1)) := by
      refine ⟨by rw [List.length_set]; exact hl.len, ?_, ?_, ?_⟩
      · intro w k hw hk
        by_cases hvw : v = w
        · subst hvw
          rw [List.getElem?_set_self hvl] at hw
          rw [← Option.some.inj hw]
          exact hdv
        · rw [List.getElem?_set_ne hvw] at hw
          exact hl.level w k hw hk
      · intro w k hw
        by_cases hvw : v = w
        · subst hvw
          rw [List.getElem?_set_self hvl] at hw
          rw [← Option.some.inj hw]
          omega
        · rw [List.getElem?_set_ne hvw] at hw
          have := hl.le w k hw
          omega
      · intro _
        by_cases hm : m ≤ d + 1
        · exact ⟨v, by rw [List.getElem?_set_self hvl, Nat.max_eq_right hm]⟩
        · obtain ⟨w, hw⟩ := hl.reached (by omega)
          have hvw : v ≠ w := by
            rintro rfl
            rw [hl0] at hw
            have := Option.some.inj hw
            omega
          exact ⟨w, by rw [List.getElem?_set_ne hvw, hw, Nat.max_eq_left (by omega)]⟩
    have hstep : walkBack (d, levels, m) v = .ok (d + 1, levels.set v (d + 1), max m (d + 1)) := by
      rw [walkBack]
      simp only
      rw [setIdx_of _ hvl]
      rfl
    obtain ⟨level', levels', m', e1, e2, e3, e4⟩ := ih v (d + 1) _ _ hnew hdv hp (by
      intro w hw
      by_cases hvw : v = w
      · subst hvw
        exact ⟨d + 1, by rw [List.getElem?_set_self hvl], Or.inr hdv⟩
      · obtain ⟨k, hk, hk'⟩ := hz w (by simp [hw])
        exact ⟨k, by rw [List.getElem?_set_ne hvw]; exact hk, hk'⟩)
    refine ⟨level', levels', m', by rw [List.foldlM_cons, hstep, ok_bind, e1], e2, ?_, ?_⟩
    · intro w hw
      rcases List.mem_cons.1 hw with rfl | hw
      · exact ⟨d + 1, e4 w (d + 1) (by rw [List.getElem?_set_self hvl]) hdv, hdv⟩
      · exact e3 w hw
    · intro w k hw hk
      apply e4 w k _ hk
      by_cases hvw : v = w
      · subst hvw
        rw [List.getElem?_set_self hvl, DepthOf_unique hdv hk]
      · rw [List.getElem?_set_ne hvw]
        exact hw

theorem nodeDepthLevels_spec (hf : IsForest parents) :
    ∃ levels m, nodeDepthLevels parents = .ok (levels, m) ∧ LevelsOk parents levels m ∧
      ∀ v, v < parents.length → ∃ d, levels[v]? = some d ∧ DepthOf parents v d := by
  obtain ⟨⟨levels, m⟩, h1, h2, h3⟩ := foldlM_prefix (fun (pre : List Nat) (st : List Nat × Nat) => LevelsOk parents st.1 st.2 ∧
      ∀ v ∈ pre, ∃ d, st.1[v]? = some d ∧ DepthOf parents v d) (levelStep parents) (List.range parents.length)
      (List.replicate parents.length 0, 0)
      ⟨⟨by simp, by
          intro v l h hl
          rw [List.getElem?_replicate] at h
          split at h
          · exact absurd (Option.some.inj h).symm hl
          · simp at h, by
          intro v l h
          rw [List.getElem?_replicate] at h
          split at h
          · exact le_of_eq (Option.some.inj h).symm
          · simp at h, by simp⟩, by simp⟩ (by
    rintro pre node post ⟨levels, m⟩ hl ⟨e1, e2⟩
    simp only at e1 e2
    have hn : node < parents.length := List.mem_range.1 (by rw [hl]; simp)
    obtain ⟨d, hd⟩ := hf node hn
    obtain ⟨node', path, d', f1, f2, f3, f4, f5, -, f6⟩ := walkUp_spec e1 (fuel := parents.length + 1) node [] d hd
      (by have := DepthOf_bound hd; omega) trivial (by simp)
    obtain ⟨level', levels', m', g1, g2, g3, g4⟩ := walkBack_spec path node' d' levels m e1 f3 f4 (fun v hv => ⟨0, f6 v hv, Or.inl rfl⟩)
    refine ⟨(levels', m'), ?_, g2, ?_⟩
    · rw [levelStep, f1, ok_bind]
      simp only
      rw [idx_of f2, ok_bind, g1]
      rfl
    · intro v hv
      rcases List.mem_append.1 hv with hv | hv
      · obtain ⟨k, hk1, hk2⟩ := e2 v hv
        exact ⟨k, g4 v k hk1 hk2, hk2⟩
      · rw [List.mem_singleton] at hv
        subst hv
        rcases f5 with rfl | f5
        · exact ⟨d', g4 _ _ f2 f3, f3⟩
        · exact g3 v f5)
  exact ⟨levels, m, h1, h2, fun v hv => h3 v (List.mem_range.2 hv)⟩

end Fiksi
