import Verif.Proofs.EliminationTree
import Verif.Props.Forest
/-!
# Trees and their post-order
-/
namespace Fiksi

open Spec

/-- `x` is `y` or one of its descendants. -/
def Desc (parents : List (Option Nat)) (x y : Nat) : Prop := x = y ∨ Below parents x y

section
variable {parents : List (Option Nat)}

theorem Desc.refl (x : Nat) : Desc parents x x := Or.inl rfl

theorem Spec.Below.desc {x y : Nat} (h : Below parents x y) : Desc parents x y := Or.inr h

theorem Desc.trans {x y z : Nat} (h : Desc parents x y) (h' : Desc parents y z) : Desc parents x z := by
  rcases h with rfl | h
  · exact h'
  · rcases h' with rfl | h'
    · exact Or.inr h
    · exact Or.inr (Below_trans h h')

theorem Desc.below {x y z : Nat} (h : Desc parents x y) (h' : Below parents y z) : Below parents x z := by
  rcases h with rfl | h
  · exact h'
  · exact Below_trans h h'

theorem Spec.Below.trans_desc {x y z : Nat} (h : Below parents x y) (h' : Desc parents y z) : Below parents x z := by
  rcases h' with rfl | h'
  · exact h
  · exact Below_trans h h'

theorem Desc.comparable {x u w : Nat} (h : Desc parents x u) (h' : Desc parents x w) : Desc parents u w ∨ Below parents w u := by
  rcases h with rfl | h
  · exact Or.inl h'
  · rcases h' with rfl | h'
    · exact Or.inr h
    · rcases Below_comparable h h' with rfl | h | h
      · exact Or.inl (.refl _)
      · exact Or.inl h.desc
      · exact Or.inr h

/-- The parent is the first proper ancestor. -/
theorem Spec.Below.via_parent {x p u : Nat} (hp : parents[x]? = some (some p)) (h : Below parents x u) : Desc parents p u := by
  cases h with
  | parent h =>
    rw [hp] at h
    simp only [Option.some.injEq] at h
    exact Or.inl h
  | step h h' =>
    rw [hp] at h
    simp only [Option.some.injEq] at h
    subst h
    exact Or.inr h'

theorem Spec.Below.exists_parent {x u : Nat} (h : Below parents x u) : ∃ p, parents[x]? = some (some p) ∧ Desc parents p u := by
  cases h with
  | parent h => exact ⟨_, h, .refl _⟩
  | step h h' => exact ⟨_, h, h'.desc⟩

end

/-- The number of descendants. -/
noncomputable def descCount (parents : List (Option Nat)) (u : Nat) : Nat :=
  open Classical in ((Finset.range parents.length).filter (fun v => Below parents v u)).card

/-- A tree with larger parents, and its post-order. -/
structure Tree (parents : List (Option Nat)) (n : Nat) (post : List Nat) : Prop where
  len : parents.length = n
  up : Up parents
  bound : ∀ (k p : Nat), parents[k]? = some (some p) → p < n
  perm : post.Perm (List.range n)
  split : ∀ u, u < n → ∃ A l B, post = A ++ (l ++ u :: B) ∧ ∀ v, v ∈ l ↔ Below parents v u

theorem IsEtree.tree {symmetric : Bool} {a : SparseStructure} {parents : List (Option Nat)} (h : IsEtree symmetric a parents) :
    ∃ post, postOrder parents = .ok post ∧ Tree parents a.ncols post := by
  obtain ⟨post, h1, h2, h3⟩ := C37_post_order parents h.isForest
  rw [h.len] at h2 h3
  exact ⟨post, h1, h.len, h.up, h.bound, h2, h3⟩

namespace Tree
variable {parents : List (Option Nat)} {n : Nat} {post : List Nat} (t : Tree parents n post)
include t

theorem isForest : IsForest parents := t.up.isForest (by rw [t.len]; exact t.bound)

theorem length : post.length = n := by rw [t.perm.length_eq, List.length_range]

theorem nodup : post.Nodup := t.perm.nodup_iff.2 List.nodup_range

theorem mem {v : Nat} : v ∈ post ↔ v < n := by rw [t.perm.mem_iff, List.mem_range]

theorem below_bound {x y : Nat} (h : Below parents x y) : x < n ∧ y < n ∧ x < y := by
  refine ⟨by rw [← t.len]; exact Below_lt h, ?_, Below_up t.up h⟩
  induction h with
  | parent h => exact t.bound _ _ h
  | step _ _ ih => exact ih

theorem desc_le {x y : Nat} (h : Desc parents x y) : x ≤ y := by
  rcases h with rfl | h
  · exact le_refl _
  · exact le_of_lt (t.below_bound h).2.2

theorem desc_bound {x y : Nat} (h : Desc parents x y) (hx : x < n) : y < n := by
  rcases h with rfl | h
  · exact hx
  · exact (t.below_bound h).2.1

theorem below_irrefl {x : Nat} : ¬ Below parents x x := fun h => by have := (t.below_bound h).2.2; omega

/-- Of two ancestors the larger one is above. -/
theorem desc_of_le {x u w : Nat} (h : Desc parents x u) (h' : Desc parents x w) (hle : u ≤ w) : Desc parents u w := by
  rcases h.comparable h' with h1 | h1
  · exact h1
  · have := (t.below_bound h1).2.2
    omega

theorem below_of_lt {x u w : Nat} (h : Desc parents x u) (h' : Desc parents x w) (hlt : u < w) : Below parents u w := by
  rcases t.desc_of_le h h' (le_of_lt hlt) with rfl | h1
  · omega
  · exact h1

theorem place_getElem {v : Nat} (hv : v < n) : post[post.idxOf v]? = some v := by
  have hl := List.idxOf_lt_length_of_mem (t.mem.2 hv)
  rw [List.getElem?_eq_getElem hl, List.getElem_idxOf]

theorem place_lt {v : Nat} (hv : v < n) : post.idxOf v < n := by
  rw [← t.length]
  exact List.idxOf_lt_length_of_mem (t.mem.2 hv)

theorem place_eq {p v : Nat} (h : post[p]? = some v) : post.idxOf v = p := by
  obtain ⟨h1, h2⟩ := List.getElem?_eq_some_iff.1 h
  rw [← h2]
  exact List.Nodup.idxOf_getElem t.nodup p h1

theorem place_inj {u v : Nat} (hu : u < n) (hv : v < n) (h : post.idxOf u = post.idxOf v) : u = v := by
  have h1 := t.place_getElem hu
  rw [h, t.place_getElem hv] at h1
  exact (Option.some.inj h1).symm

theorem exists_interval {u : Nat} (hu : u < n) : ∃ s, s + descCount parents u = post.idxOf u ∧
    ∀ v, v < n → (Below parents v u ↔ s ≤ post.idxOf v ∧ post.idxOf v < post.idxOf u) := by
  obtain ⟨A, l, B, hpost, hmem⟩ := t.split u hu
  have hplace : post.idxOf u = A.length + l.length := by
    apply t.place_eq
    rw [hpost, List.getElem?_append_right (by omega), List.getElem?_append_right (by omega)]
    simp [show A.length + l.length - A.length - l.length = 0 by omega]
  have hlnd : l.Nodup := by
    have := t.nodup
    rw [hpost, List.nodup_append, List.nodup_append] at this
    exact this.2.1.1
  refine ⟨A.length, ?_, ?_⟩
  · rw [hplace, descCount]
    congr 1
    rw [← List.toFinset_card_of_nodup hlnd]
    congr 1
    ext v
    simp only [Finset.mem_filter, Finset.mem_range, List.mem_toFinset, hmem, and_iff_right_iff_imp]
    exact fun h => Below_lt h
  · intro v hv
    rw [hplace, ← hmem]
    constructor
    · intro hvl
      obtain ⟨k, hk⟩ := List.mem_iff_getElem?.1 hvl
      have hkl := (List.getElem?_eq_some_iff.1 hk).1
      have : post[A.length + k]? = some v := by
        rw [hpost, List.getElem?_append_right (by omega), List.getElem?_append_left (by omega)]
        simpa using hk
      rw [t.place_eq this]
      omega
    · rintro ⟨h1, h2⟩
      have := t.place_getElem hv
      rw [hpost, List.getElem?_append_right (by rw [← hpost]; exact h1), List.getElem?_append_left (by rw [← hpost]; omega)] at this
      exact List.mem_of_getElem? this

theorem descCount_le {u : Nat} (hu : u < n) : descCount parents u ≤ post.idxOf u := by
  obtain ⟨s, h, -⟩ := t.exists_interval hu
  omega

theorem below_iff_place {u v : Nat} (hu : u < n) (hv : v < n) :
    Below parents v u ↔ post.idxOf u - descCount parents u ≤ post.idxOf v ∧ post.idxOf v < post.idxOf u := by
  obtain ⟨s, h1, h2⟩ := t.exists_interval hu
  rw [h2 v hv, show post.idxOf u - descCount parents u = s by omega]

theorem desc_iff_place {u v : Nat} (hu : u < n) (hv : v < n) :
    Desc parents v u ↔ post.idxOf u - descCount parents u ≤ post.idxOf v ∧ post.idxOf v ≤ post.idxOf u := by
  constructor
  · rintro (rfl | h)
    · omega
    · have := (t.below_iff_place hu hv).1 h
      omega
  · rintro ⟨h1, h2⟩
    rcases Nat.lt_or_eq_of_le h2 with h | h
    · exact Or.inr ((t.below_iff_place hu hv).2 ⟨h1, h⟩)
    · exact Or.inl (t.place_inj hv hu h)

theorem below_place {u v : Nat} (h : Below parents v u) : post.idxOf v < post.idxOf u := by
  obtain ⟨h1, h2, -⟩ := t.below_bound h
  exact ((t.below_iff_place h2 h1).1 h).2

theorem desc_place {u v : Nat} (h : Desc parents v u) : post.idxOf v ≤ post.idxOf u := by
  rcases h with rfl | h
  · exact le_refl _
  · exact le_of_lt (t.below_place h)

/-- Subtrees are contiguous. -/
theorem desc_between {u v w x : Nat} (hu : u < n) (hv : Desc parents v u) (hx : Desc parents x u) (hw : w < n) (h1 : post.idxOf v ≤ post.idxOf w)
    (h2 : post.idxOf w ≤ post.idxOf x) : Desc parents w u := by
  have hvn : v < n := by
    rcases hv with rfl | h
    · exact hu
    · exact (t.below_bound h).1
  have hxn : x < n := by
    rcases hx with rfl | h
    · exact hu
    · exact (t.below_bound h).1
  have := (t.desc_iff_place hu hvn).1 hv
  have := (t.desc_iff_place hu hxn).1 hx
  exact (t.desc_iff_place hu hw).2 (by omega)

/-- An element of a prefix of the post-order has a smaller place than the next element. -/
theorem prefix_place {pre rest : List Nat} {j : Nat} (h : post = pre ++ j :: rest) : post.idxOf j = pre.length ∧ j < n ∧
    ∀ v, v < n → (v ∈ pre ↔ post.idxOf v < pre.length) := by
  have hj : post[pre.length]? = some j := by rw [h]; simp
  refine ⟨t.place_eq hj, t.mem.1 (List.mem_of_getElem? hj), ?_⟩
  intro v hv
  constructor
  · intro hvp
    obtain ⟨k, hk⟩ := List.mem_iff_getElem?.1 hvp
    have hkl := (List.getElem?_eq_some_iff.1 hk).1
    have : post[k]? = some v := by rw [h, List.getElem?_append_left hkl]; exact hk
    rw [t.place_eq this]
    exact hkl
  · intro hlt
    have := t.place_getElem hv
    rw [h, List.getElem?_append_left (by rw [← h]; exact hlt)] at this
    exact List.mem_of_getElem? this

end Tree

/-- The columns on the way from `j` up to but without `q`. -/
noncomputable def pathTo (parents : List (Option Nat)) (j q : Nat) : Finset Nat :=
  open Classical in (Finset.range parents.length).filter (fun x => Desc parents j x ∧ Below parents x q)

theorem mem_pathTo {parents : List (Option Nat)} {j q x : Nat} : x ∈ pathTo parents j q ↔ Desc parents j x ∧ Below parents x q := by
  simp only [pathTo, Finset.mem_filter, Finset.mem_range, and_iff_right_iff_imp]
  exact fun h => Below_lt h.2

theorem pathTo_card {parents : List (Option Nat)} (hf : IsForest parents) {j q dj dq : Nat} (h : Below parents j q) (hj : DepthOf parents j dj)
    (hq : DepthOf parents q dq) : (pathTo parents j q).card + dq = dj := by
  induction h generalizing dj with
  | @parent j q hp =>
    have : pathTo parents j q = {j} := by
      ext x
      rw [mem_pathTo, Finset.mem_singleton]
      constructor
      · rintro ⟨h1, h2⟩
        rcases h1 with rfl | h1
        · rfl
        · have := h1.via_parent hp
          exact absurd (this.below h2) (Below_irrefl hf)
      · rintro rfl
        exact ⟨.refl _, .parent hp⟩
    rw [this, Finset.card_singleton, DepthOf_unique hj (.step hp hq)]
    omega
  | @step j p q hp hb ih =>
    obtain ⟨e, he⟩ : ∃ e, DepthOf parents p e := hf p (Below_parent_lt hf hp)
    have hins : pathTo parents j q = insert j (pathTo parents p q) := by
      ext x
      rw [Finset.mem_insert, mem_pathTo, mem_pathTo]
      constructor
      · rintro ⟨h1, h2⟩
        rcases h1 with rfl | h1
        · exact Or.inl rfl
        · exact Or.inr ⟨h1.via_parent hp, h2⟩
      · rintro (rfl | ⟨h1, h2⟩)
        · exact ⟨.refl _, .step hp hb⟩
        · exact ⟨Or.inr ((Below.parent hp).trans_desc h1), h2⟩
    have hnot : j ∉ pathTo parents p q := by
      rw [mem_pathTo]
      rintro ⟨h1, -⟩
      exact Below_irrefl hf ((Below.parent hp).trans_desc h1)
    rw [hins, Finset.card_insert_of_notMem hnot, DepthOf_unique hj (.step hp he), ← ih he hq]
    omega

end Fiksi
