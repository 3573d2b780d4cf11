import Verif.Proofs.Levels
/-!
# Rooted forests (C37, C38)
-/
namespace Fiksi

open Spec

/-- C37: for every forest the post-order is a permutation of the nodes, and right before every node come exactly its descendants. So every
node comes after its descendants and every subtree is contiguous. -/
theorem C37_post_order (parents : List (Option Nat)) (hf : IsForest parents) :
    ∃ post, postOrder parents = .ok post ∧ post.Perm (List.range parents.length) ∧
      ∀ u, u < parents.length → ∃ A l B, post = A ++ (l ++ u :: B) ∧ ∀ v, v ∈ l ↔ Below parents v u := by
  obtain ⟨post, h1, h2, h3, h4⟩ := postOrder_listing hf
  refine ⟨post, h1, ?_, ?_⟩
  · rw [List.perm_ext_iff_of_nodup h3 List.nodup_range]
    intro v
    rw [h4, List.mem_range]
  · intro u hu
    exact PostForest_split h2 ((h4 u).2 hu)

/-- C37: positions of a node and its descendants. -/
theorem C37_post_order_positions (parents : List (Option Nat)) (hf : IsForest parents) :
    ∃ post, postOrder parents = .ok post ∧ (∀ (i k v u : Nat), post[i]? = some v → post[k]? = some u → Below parents v u →
      i < k ∧ ∀ (m w : Nat), i ≤ m → m < k → post[m]? = some w → Below parents w u) := by
  obtain ⟨post, h1, h2, h3⟩ := C37_post_order parents hf
  refine ⟨post, h1, ?_⟩
  intro i k v u hi hk hb
  have hnd : post.Nodup := h2.nodup_iff.2 List.nodup_range
  obtain ⟨A, l, B, hpost, hmem⟩ := h3 u (List.mem_range.1 (h2.mem_iff.1 (List.mem_of_getElem? hk)))
  have huniq : ∀ (a b x : Nat), post[a]? = some x → post[b]? = some x → a = b := by
    intro a b x ha hb
    obtain ⟨ha1, ha2⟩ := List.getElem?_eq_some_iff.1 ha
    obtain ⟨hb1, hb2⟩ := List.getElem?_eq_some_iff.1 hb
    exact (List.Nodup.getElem_inj_iff hnd).1 (ha2.trans hb2.symm)
  have hk' : k = A.length + l.length := by
    apply huniq _ _ u hk
    rw [hpost, List.getElem?_append_right (by omega), List.getElem?_append_right (by omega)]
    simp [show A.length + l.length - A.length - l.length = 0 by omega]
  have hi' : A.length ≤ i ∧ i < A.length + l.length := by
    obtain ⟨t, ht⟩ := List.mem_iff_getElem?.1 ((hmem v).2 hb)
    have htl := (List.getElem?_eq_some_iff.1 ht).1
    have : post[A.length + t]? = some v := by
      rw [hpost, List.getElem?_append_right (by omega), List.getElem?_append_left (by omega)]
      simpa using ht
    have := huniq _ _ v hi this
    omega
  refine ⟨by omega, ?_⟩
  intro m w hm1 hm2 hw
  rw [hpost, List.getElem?_append_right (by omega), List.getElem?_append_left (by omega)] at hw
  exact (hmem w).1 (List.mem_of_getElem? hw)

/-- C38: for every forest the level of every node is its distance to its root, and the maximum is the largest of them (zero without
nodes). -/
theorem C38_levels (parents : List (Option Nat)) (hf : IsForest parents) :
    ∃ levels maxLevel, nodeDepthLevels parents = .ok (levels, maxLevel) ∧ levels.length = parents.length ∧
      (∀ (v l : Nat), levels[v]? = some l → DepthOf parents v l) ∧ (∀ l ∈ levels, l ≤ maxLevel) ∧ (parents ≠ [] → maxLevel ∈ levels) ∧
      (parents = [] → maxLevel = 0) := by
  obtain ⟨levels, m, h1, h2, h3⟩ := nodeDepthLevels_spec hf
  refine ⟨levels, m, h1, h2.len, ?_, ?_, ?_, ?_⟩
  · intro v l hl
    have hv := (List.getElem?_eq_some_iff.1 hl).1
    obtain ⟨d, hd1, hd2⟩ := h3 v (by rw [← h2.len]; exact hv)
    rw [hl] at hd1
    rw [Option.some.inj hd1]
    exact hd2
  · intro l hl
    obtain ⟨v, hv⟩ := List.mem_iff_getElem?.1 hl
    exact h2.le v l hv
  · intro hne
    by_cases hm : m = 0
    · have h0 : 0 < levels.length := by rw [h2.len]; exact List.length_pos_iff.2 hne
      have hl : levels[0]? = some levels[0] := List.getElem?_eq_getElem h0
      have := h2.le 0 _ hl
      rw [hm, show 0 = levels[0] by omega]
      exact List.getElem_mem h0
    · obtain ⟨v, hv⟩ := h2.reached hm
      exact List.mem_of_getElem? hv
  · rintro rfl
    by_contra hm
    obtain ⟨v, hv⟩ := h2.reached hm
    have := (List.getElem?_eq_some_iff.1 hv).1
    rw [h2.len] at this
    simp at this

/-- The tree of the documentation (`utils.rs:14-24`) with a second tree beside it. -/
def exampleForest : List (Option Nat) := [some 1, some 5, some 5, some 4, some 5, some 6, none, some 8, none]

theorem exampleForest_ok : IsForest exampleForest := by
  have h6 : DepthOf exampleForest 6 0 := .root rfl
  have h5 : DepthOf exampleForest 5 1 := .step rfl h6
  have h4 : DepthOf exampleForest 4 2 := .step rfl h5
  have h8 : DepthOf exampleForest 8 0 := .root rfl
  have h1 : DepthOf exampleForest 1 2 := .step rfl h5
  intro v hv
  have : v = 0 ∨ v = 1 ∨ v = 2 ∨ v = 3 ∨ v = 4 ∨ v = 5 ∨ v = 6 ∨ v = 7 ∨ v = 8 := by
    simp [exampleForest] at hv; omega
  rcases this with rfl | rfl | rfl | rfl | rfl | rfl | rfl | rfl | rfl
  · exact ⟨_, .step rfl h1⟩
  · exact ⟨_, h1⟩
  · exact ⟨_, .step rfl h5⟩
  · exact ⟨_, .step rfl h4⟩
  · exact ⟨_, h4⟩
  · exact ⟨_, h5⟩
  · exact ⟨_, h6⟩
  · exact ⟨_, .step rfl h8⟩
  · exact ⟨_, h8⟩

/-- The hypothesis of C37 is met by a forest of two trees. -/
theorem C37_case : IsForest exampleForest ∧ postOrder exampleForest = .ok [3, 4, 2, 0, 1, 5, 6, 7, 8] := ⟨exampleForest_ok, by decide +kernel⟩

/-- The hypothesis of C38 is met by a forest of two trees. -/
theorem C38_case : IsForest exampleForest ∧ nodeDepthLevels exampleForest = .ok ([3, 2, 2, 3, 2, 1, 0, 1, 0], 3) :=
  ⟨exampleForest_ok, by decide +kernel⟩

end Fiksi
