import Verif.Proofs.TreeOrder
import Verif.Model.Cholesky
/-!
# The arrays of the counting algorithm
-/
namespace Fiksi

open Spec

theorem zipIdx_split {α : Type} {l : List α} {pre post : List (α × Nat)} {v : α} {p : Nat} (h : l.zipIdx = pre ++ (v, p) :: post) :
    p = pre.length ∧ l = pre.map Prod.fst ++ v :: post.map Prod.fst ∧ l[p]? = some v := by
  have hp : p = pre.length := by
    have h1 := congrArg (fun l => l[pre.length]?) h
    simp only [List.getElem?_append_right (le_refl _), Nat.sub_self, List.getElem?_cons_zero, List.getElem?_zipIdx] at h1
    cases hl : l[pre.length]? with
    | none => rw [hl] at h1; simp at h1
    | some x =>
      rw [hl] at h1
      simp at h1
      exact h1.2.symm
  have hl : l = pre.map Prod.fst ++ v :: post.map Prod.fst := by
    have h1 := congrArg (List.map Prod.fst) h
    rw [List.zipIdx_map_fst] at h1
    simpa using h1
  refine ⟨hp, hl, ?_⟩
  rw [hl, hp]
  simp

namespace Tree
variable {parents : List (Option Nat)} {n : Nat} {post : List Nat} (t : Tree parents n post)
include t

theorem places_spec : ∃ places, placesInPostorder n post = .ok places ∧ places.length = n ∧ ∀ v, v < n → places[v]? = some (post.idxOf v) := by
  obtain ⟨places, h1, h2, h3⟩ := foldlM_prefix (fun (pre : List (Nat × Nat)) (places : List Nat) => places.length = n ∧ ∀ q ∈ pre, places[q.1]? = some (post.idxOf q.1))
    (fun (places : List Nat) p => setIdx places p.1 p.2) post.zipIdx (List.replicate n 0) ⟨by simp, by simp⟩ (by
    rintro pre ⟨v, p⟩ rest places hl ⟨e1, e2⟩
    obtain ⟨f1, f2, f3⟩ := zipIdx_split hl
    have hv : v < n := t.mem.1 (List.mem_of_getElem? f3)
    refine ⟨places.set v p, setIdx_of _ (by rw [e1]; exact hv), by simp [e1], ?_⟩
    intro q hq
    by_cases hvq : v = q.1
    · rw [← hvq, List.getElem?_set_self (by rw [e1]; exact hv), t.place_eq f3]
    · rw [List.getElem?_set_ne hvq]
      rcases List.mem_append.1 hq with hq | hq
      · exact e2 q hq
      · rw [List.mem_singleton] at hq
        subst hq
        exact absurd rfl hvq)
  refine ⟨places, h1, h2, fun v hv => ?_⟩
  exact h3 (v, post.idxOf v) (by
    rw [List.mem_iff_getElem?]
    exact ⟨post.idxOf v, by rw [List.getElem?_zipIdx, t.place_getElem hv]; simp⟩)

open Classical in
theorem sizes_spec : ∃ sizes, subtreeSizes parents n post = .ok sizes ∧ sizes.length = n ∧ ∀ v, v < n → sizes[v]? = some (descCount parents v + 1) := by
  obtain ⟨sizes, h1, h2, h3⟩ := foldlM_prefix (fun (pre : List Nat) (sizes : List Nat) => sizes.length = n ∧ ∀ v, v < n → sizes[v]? =
      some (((Finset.range n).filter (fun x => ∃ c ∈ pre, parents[c]? = some (some v) ∧ Desc parents x c)).card + 1))
    (addSubtree parents) post (List.replicate n 1) ⟨by simp, by
      intro v hv
      simp [List.getElem?_replicate, hv]⟩ (by
    intro pre j rest sizes hl ⟨e1, e2⟩
    obtain ⟨f1, hj, f2⟩ := t.prefix_place hl
    obtain ⟨o, ho⟩ : ∃ o, parents[j]? = some o := ⟨_, List.getElem?_eq_getElem (by rw [t.len]; exact hj)⟩
    rw [addSubtree, idx_of ho, ok_bind]
    have hnj : j ∉ pre := by
      rw [f2 j hj, f1]; omega
    cases o with
    | none =>
      refine ⟨sizes, rfl, e1, ?_⟩
      intro v hv
      rw [e2 v hv]
      congr 3
      refine Finset.filter_congr fun x _ => ?_
      simp only [List.mem_append, List.mem_singleton]
      constructor
      · rintro ⟨c, hc, h⟩
        exact ⟨c, Or.inl hc, h⟩
      · rintro ⟨c, hc | rfl, h⟩
        · exact ⟨c, hc, h⟩
        · rw [ho] at h
          simp at h
    | some p =>
      have hp := t.bound j p ho
      have hjp := t.up j p ho
      have hself : ((Finset.range n).filter (fun x => ∃ c ∈ pre, parents[c]? = some (some j) ∧ Desc parents x c)).card + 1 =
          ((Finset.range n).filter (fun x => Desc parents x j)).card := by
        rw [← Finset.card_insert_of_notMem (a := j)]
        · congr 1
          ext x
          simp only [Finset.mem_insert, Finset.mem_filter, Finset.mem_range]
          constructor
          · rintro (rfl | ⟨h1, c, -, h2, h3⟩)
            · exact ⟨hj, .refl _⟩
            · exact ⟨h1, h3.trans (Below.parent h2).desc⟩
          · rintro ⟨h1, rfl | h2⟩
            · exact Or.inl rfl
            · obtain ⟨c, hc, hxc⟩ := Below_iff.1 h2
              have hc' := mem_kids.1 hc
              have hcn : c < n := by rw [← t.len]; exact (List.getElem?_eq_some_iff.1 hc').1
              refine Or.inr ⟨h1, c, ?_, hc', hxc⟩
              rw [f2 c hcn, ← f1]
              exact t.below_place (.parent hc')
        · simp only [Finset.mem_filter, not_and, not_exists]
          rintro - c - h2 h3
          exact t.below_irrefl (h3.below (.parent h2))
      have hsj := e2 j hj
      rw [hself] at hsj
      simp only [addNatAt]
      rw [idx_of hsj, ok_bind, idx_of (e2 p hp), ok_bind]
      refine ⟨_, setIdx_of _ (by rw [e1]; exact hp), by simp [e1], ?_⟩
      intro v hv
      by_cases hpv : p = v
      · subst hpv
        rw [List.getElem?_set_self (by rw [e1]; exact hp)]
        congr 1
        rw [Nat.add_right_comm]
        congr 1
        rw [← Finset.card_union_of_disjoint]
        · congr 1
          ext x
          simp only [Finset.mem_union, Finset.mem_filter, Finset.mem_range, List.mem_append, List.mem_singleton]
          constructor
          · rintro (⟨h1, c, h2, h3⟩ | ⟨h1, h2⟩)
            · exact ⟨h1, c, Or.inl h2, h3⟩
            · exact ⟨h1, j, Or.inr rfl, ho, h2⟩
          · rintro ⟨h1, c, h2 | rfl, h3, h4⟩
            · exact Or.inl ⟨h1, c, h2, h3, h4⟩
            · exact Or.inr ⟨h1, h4⟩
        · rw [Finset.disjoint_left]
          intro x hx1 hx2
          simp only [Finset.mem_filter] at hx1 hx2
          obtain ⟨-, c, h2, h3, h4⟩ := hx1
          have hcj : c ≠ j := by rintro rfl; exact hnj h2
          rcases h4.comparable hx2.2 with h | h
          · rcases h with rfl | h
            · exact hcj rfl
            · exact t.below_irrefl ((h.via_parent h3).below (.parent ho))
          · exact t.below_irrefl ((h.via_parent ho).below (.parent h3))
      · rw [List.getElem?_set_ne hpv, e2 v hv]
        congr 3
        refine Finset.filter_congr fun x _ => ?_
        simp only [List.mem_append, List.mem_singleton]
        constructor
        · rintro ⟨c, hc, h⟩
          exact ⟨c, Or.inl hc, h⟩
        · rintro ⟨c, hc | rfl, h⟩
          · exact ⟨c, hc, h⟩
          · rw [ho] at h
            simp only [Option.some.injEq] at h
            exact absurd h.1 hpv)
  refine ⟨sizes, h1, h2, fun v hv => ?_⟩
  rw [h3 v hv, descCount, t.len]
  congr 3
  refine Finset.filter_congr fun x _ => ?_
  rw [Below_iff]
  constructor
  · rintro ⟨c, -, h1, h2⟩
    exact ⟨c, mem_kids.2 h1, h2⟩
  · rintro ⟨c, h1, h2⟩
    have := mem_kids.1 h1
    exact ⟨c, t.mem.2 (by rw [← t.len]; exact (List.getElem?_eq_some_iff.1 this).1), this, h2⟩

theorem firsts_spec {sizes : List Nat} (hs : ∀ v, v < n → sizes[v]? = some (descCount parents v + 1)) :
    ∃ firsts, firstDescendants n post sizes = .ok firsts ∧ firsts.length = n ∧
      ∀ v, v < n → ∃ f, firsts[v]? = some f ∧ f < n ∧ post.idxOf f = post.idxOf v - descCount parents v := by
  obtain ⟨firsts, h1, h2, h3⟩ := foldlM_prefix (fun (pre : List (Nat × Nat)) (firsts : List Nat) => firsts.length = n ∧
      ∀ q ∈ pre, ∃ f, firsts[q.1]? = some f ∧ f < n ∧ post.idxOf f = post.idxOf q.1 - descCount parents q.1)
    (firstDescendantStep post sizes) post.zipIdx (List.replicate n 0) ⟨by simp, by simp⟩ (by
    rintro pre ⟨v, p⟩ rest firsts hl ⟨e1, e2⟩
    obtain ⟨f1, f2, f3⟩ := zipIdx_split hl
    have hv : v < n := t.mem.1 (List.mem_of_getElem? f3)
    have hp := t.place_eq f3
    have hd := t.descCount_le hv
    have hpn := t.place_lt hv
    obtain ⟨f, hf⟩ : ∃ f, post[p - descCount parents v]? = some f := ⟨_, List.getElem?_eq_getElem (by rw [t.length]; omega)⟩
    rw [firstDescendantStep]
    simp only
    rw [idx_of (hs v hv), ok_bind, checkedSub, if_pos (by omega), ok_bind, show p + 1 - (descCount parents v + 1) = p - descCount parents v by omega,
      idx_of hf, ok_bind]
    refine ⟨firsts.set v f, setIdx_of _ (by rw [e1]; exact hv), by simp [e1], ?_⟩
    intro q hq
    by_cases hvq : v = q.1
    · rw [← hvq]
      exact ⟨f, by rw [List.getElem?_set_self (by rw [e1]; exact hv)], t.mem.1 (List.mem_of_getElem? hf), by rw [t.place_eq hf, hp]⟩
    · rw [List.getElem?_set_ne hvq]
      rcases List.mem_append.1 hq with hq | hq
      · exact e2 q hq
      · rw [List.mem_singleton] at hq
        subst hq
        exact absurd rfl hvq)
  refine ⟨firsts, h1, h2, fun v hv => ?_⟩
  exact h3 (v, post.idxOf v) (by
    rw [List.mem_iff_getElem?]
    exact ⟨post.idxOf v, by rw [List.getElem?_zipIdx, t.place_getElem hv]; simp⟩)

end Tree

/-- The first column of a row. -/
def FirstCol (a : SparseStructure) (i f : Nat) : Prop := Has a i f ∧ ∀ j, Has a i j → f ≤ j

theorem FirstCol_unique {a : SparseStructure} {i f f' : Nat} (h : FirstCol a i f) (h' : FirstCol a i f') : f = f' :=
  le_antisymm (h.2 f' h'.1) (h'.2 f h.1)

/-- A structure with its column elimination tree and a post-order. -/
structure Setting (a : SparseStructure) (parents : List (Option Nat)) (post : List Nat) : Prop where
  wf : WellFormed a
  etree : IsEtree false a parents
  tree : Tree parents a.ncols post

namespace Setting
variable {a : SparseStructure} {parents : List (Option Nat)} {post : List Nat} (s : Setting a parents post)
include s

theorem row_below {i x y : Nat} (hx : Has a i x) (hy : Has a i y) (h : x < y) : Below parents x y :=
  s.etree.meet x y h (hy.lt s.wf).2 (by simp only [Meet, Bool.false_eq_true, if_false]; exact ⟨i, hx, hy⟩)

theorem first_desc {i f j : Nat} (hf : FirstCol a i f) (hj : Has a i j) : Desc parents f j := by
  rcases Nat.lt_or_eq_of_le (hf.2 j hj) with h | h
  · exact Or.inr (s.row_below hf.1 hj h)
  · exact Or.inl h

theorem exists_first {i j : Nat} (h : Has a i j) : ∃ f, FirstCol a i f := by
  classical
  have hex : ∃ f, Has a i f := ⟨j, h⟩
  exact ⟨Nat.find hex, Nat.find_spec hex, fun k hk => Nat.find_min' hex hk⟩

/-- A child of a column is on the way from the first column of one of its rows. -/
theorem child_src {k p : Nat} (h : parents[k]? = some (some p)) : ∃ i f, Has a i p ∧ FirstCol a i f ∧ Desc parents f k := by
  obtain ⟨x, hm, hx, hd⟩ := s.etree.src k p h
  simp only [Meet, Bool.false_eq_true, if_false] at hm
  obtain ⟨i, h1, h2⟩ := hm
  obtain ⟨f, hf⟩ := s.exists_first h1
  exact ⟨i, f, h2, hf, (s.first_desc hf h1).trans hd⟩

/-- What the code's array of first columns holds. -/
def _root_.Fiksi.FirstColumns (a : SparseStructure) (firstColumns : List (Option Nat)) : Prop :=
  firstColumns.length = a.nrows ∧ ∀ i, i < a.nrows → ∃ o, firstColumns[i]? = some o ∧ ∀ f, o = some f ↔ FirstCol a i f

theorem firstColumns_spec : ∃ firstColumns, firstColumnsOf a post = .ok firstColumns ∧ FirstColumns a firstColumns := by
  obtain ⟨firsts, h1, h2, h3⟩ := foldlM_prefix (fun (pre : List Nat) (firsts : List (Option Nat)) => firsts.length = a.nrows ∧
      ∀ i, i < a.nrows → ∃ o, firsts[i]? = some o ∧ ∀ f, o = some f ↔ (f ∈ pre ∧ Has a i f ∧ ∀ j ∈ pre, Has a i j → f ≤ j))
    (fun (firsts : List (Option Nat)) j => do
      let rows ← a.indexColumn j
      rows.foldlM (noteFirst j) firsts) post (List.replicate a.nrows none) ⟨by simp, by
      intro i hi
      exact ⟨none, by simp [List.getElem?_replicate, hi], by simp⟩⟩ (by
    intro pre j rest firsts hl ⟨e1, e2⟩
    obtain ⟨f1, hj, f2⟩ := s.tree.prefix_place hl
    rw [s.wf.indexColumn hj, ok_bind]
    obtain ⟨firsts', g1, g2, g3⟩ := foldlM_prefix (fun (done : List Nat) (fs : List (Option Nat)) => fs.length = a.nrows ∧
        ∀ i, i < a.nrows → ∃ o, fs[i]? = some o ∧ (i ∈ done → firsts[i]? = some none → o = some j) ∧
          (¬ (i ∈ done ∧ firsts[i]? = some none) → firsts[i]? = some o)) (noteFirst j) (columnRows a j) firsts
        ⟨e1, fun i hi => ⟨_, List.getElem?_eq_getElem (by rw [e1]; exact hi), by simp, fun _ => List.getElem?_eq_getElem _⟩⟩ (by
      intro done i rest' fs hdr ⟨p1, p2⟩
      have hi : i < a.nrows := s.wf.columnRows_bound (j := j) (by rw [hdr]; simp)
      obtain ⟨o, ho, ho1, ho2⟩ := p2 i hi
      rw [noteFirst, idx_of ho, ok_bind]
      have hnd : i ∉ done := by
        have hnd : (columnRows a j).Pairwise (· < ·) := s.wf.columnRows_sorted hj
        rw [hdr, List.pairwise_append] at hnd
        intro h
        have := hnd.2.2 i h i (by simp)
        omega
      cases o with
      | none =>
        refine ⟨fs.set i (some j), setIdx_of _ (by rw [p1]; exact hi), by simp [p1], ?_⟩
        intro x hx
        by_cases hix : i = x
        · subst hix
          refine ⟨some j, List.getElem?_set_self (by rw [p1]; exact hi), fun _ _ => rfl, ?_⟩
          intro h
          have := ho2 (by simp [hnd])
          simp [this] at h
        · obtain ⟨o, q1, q2, q3⟩ := p2 x hx
          refine ⟨o, by rw [List.getElem?_set_ne hix]; exact q1, ?_, ?_⟩
          · intro hm
            rcases List.mem_append.1 hm with hm | hm
            · exact q2 hm
            · rw [List.mem_singleton] at hm
              exact absurd hm.symm hix
          · intro h
            exact q3 (fun h' => h ⟨by simp [h'.1], h'.2⟩)
      | some c =>
        refine ⟨fs, rfl, p1, ?_⟩
        intro x hx
        obtain ⟨o, q1, q2, q3⟩ := p2 x hx
        refine ⟨o, q1, ?_, ?_⟩
        · intro hm hn
          rcases List.mem_append.1 hm with hm | hm
          · exact q2 hm hn
          · rw [List.mem_singleton] at hm
            subst hm
            have := ho2 (by simp [hnd])
            rw [this] at hn
            simp at hn
        · intro h
          exact q3 (fun h' => h ⟨by simp [h'.1], h'.2⟩))
    refine ⟨firsts', g1, g2, ?_⟩
    intro i hi
    obtain ⟨o, q1, q2, q3⟩ := g3 i hi
    obtain ⟨o', r1, r2⟩ := e2 i hi
    refine ⟨o, q1, ?_⟩
    have hjp : j ∉ pre := by rw [f2 j hj, f1]; omega
    have hle : ∀ f ∈ pre, Has a i f → Has a i j → f ≤ j := by
      intro f hf hfi hji
      by_contra hlt
      have hfn := (hfi.lt s.wf).2
      have := s.tree.below_place (s.row_below hji hfi (by omega))
      rw [f1] at this
      have := (f2 f hfn).1 hf
      omega
    intro f
    by_cases hnew : i ∈ columnRows a j ∧ firsts[i]? = some none
    · have ho := q2 hnew.1 hnew.2
      subst ho
      rw [r1] at hnew
      have ho' : o' = none := by simpa using hnew.2
      subst ho'
      have hij := (s.wf.mem_columnRows hj).1 hnew.1
      have hno : ∀ f ∈ pre, ¬ Has a i f := by
        intro f hf hfi
        classical
        have hex : ∃ f, f ∈ pre ∧ Has a i f := ⟨f, hf, hfi⟩
        have := (r2 (Nat.find hex)).2 ⟨(Nat.find_spec hex).1, (Nat.find_spec hex).2, fun j hj hji => Nat.find_min' hex ⟨hj, hji⟩⟩
        simp at this
      simp only [Option.some.injEq, List.mem_append, List.mem_singleton]
      constructor
      · rintro rfl
        refine ⟨Or.inr rfl, hij, ?_⟩
        rintro k (hk | rfl) hki
        · exact absurd hki (hno k hk)
        · exact le_refl _
      · rintro ⟨h | h, h', -⟩
        · exact absurd h' (hno f h)
        · exact h.symm
    · have := q3 hnew
      rw [r1] at this
      simp only [Option.some.injEq] at this
      subst this
      rw [r2]
      simp only [List.mem_append, List.mem_singleton]
      have hold : Has a i j → ∃ f ∈ pre, Has a i f := by
        intro hji
        by_contra hno
        push Not at hno
        apply hnew
        refine ⟨(s.wf.mem_columnRows hj).2 hji, ?_⟩
        rw [r1]
        cases o' with
        | none => rfl
        | some f' =>
          obtain ⟨h1, h2, -⟩ := (r2 f').1 rfl
          exact absurd h2 (hno f' h1)
      constructor
      · rintro ⟨h1, h2, h3⟩
        refine ⟨Or.inl h1, h2, ?_⟩
        rintro k (hk | rfl) hki
        · exact h3 k hk hki
        · exact hle f h1 h2 hki
      · rintro ⟨h1, h2, h3⟩
        have h1' : f ∈ pre := by
          rcases h1 with h1 | rfl
          · exact h1
          · obtain ⟨g, hg, hgi⟩ := hold h2
            have h4 := h3 g (Or.inl hg) hgi
            have h5 := hle g hg hgi h2
            have : g = f := by omega
            exact this ▸ hg
        exact ⟨h1', h2, fun k hk hki => h3 k (Or.inl hk) hki⟩)
  refine ⟨firsts, h1, h2, fun i hi => ?_⟩
  obtain ⟨o, r1, r2⟩ := h3 i hi
  refine ⟨o, r1, fun f => ?_⟩
  rw [r2, FirstCol]
  constructor
  · rintro ⟨-, h, h'⟩
    exact ⟨h, fun j hj => h' j (s.tree.mem.2 (hj.lt s.wf).2) hj⟩
  · rintro ⟨h, h'⟩
    exact ⟨s.tree.mem.2 (h.lt s.wf).2, h, fun j _ hj => h' j hj⟩

end Setting

theorem FirstColumns.get {a : SparseStructure} {fc : List (Option Nat)} (h : FirstColumns a fc) {i f : Nat} (hf : FirstCol a i f) (hi : i < a.nrows) :
    fc[i]? = some (some f) := by
  obtain ⟨o, h1, h2⟩ := h.2 i hi
  rw [h1, (h2 f).2 hf]

theorem FirstColumns.first {a : SparseStructure} {fc : List (Option Nat)} (h : FirstColumns a fc) {i f : Nat} (hf : fc[i]? = some (some f)) :
    FirstCol a i f ∧ i < a.nrows := by
  have hi : i < a.nrows := by rw [← h.1]; exact (List.getElem?_eq_some_iff.1 hf).1
  obtain ⟨o, h1, h2⟩ := h.2 i hi
  rw [hf] at h1
  exact ⟨(h2 f).1 (Option.some.inj h1).symm, hi⟩

end Fiksi
