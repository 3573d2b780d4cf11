import Verif.Proofs.Counts
import Mathlib.Algebra.BigOperators.Ring.Finset
/-!
# The column counts
-/
namespace Fiksi

open Spec

/-- `f` is the first column of a row that also has an entry in the later column `u`. -/
def Nbr (a : SparseStructure) (f u : Nat) : Prop := ∃ i, FirstCol a i f ∧ Has a i u ∧ f < u

section
variable {a : SparseStructure} {parents : List (Option Nat)} {post : List Nat} (s : Setting a parents post)
include s

theorem Setting.nbr_below {f u : Nat} (h : Nbr a f u) : Below parents f u := by
  obtain ⟨i, h1, h2, h3⟩ := h
  exact s.row_below h1.1 h2 h3

theorem Setting.noteHigher_spec {places : List Nat} {fc : List (Option Nat)} (hp : ∀ v, v < a.ncols → places[v]? = some (post.idxOf v))
    (hfc : FirstColumns a fc) {P : Nat → Nat → Prop} {hadj : List (List Nat)} (hlen : hadj.length = a.ncols)
    (hinv : ∀ f, f < a.ncols → ∃ l, hadj[f]? = some l ∧ ∀ u, u ∈ l ↔ ∃ i, P i u ∧ FirstCol a i f ∧ f < u) {i j : Nat} (hij : Has a i j) :
    ∃ hadj', noteHigher places fc j (post.idxOf j) hadj i = .ok hadj' ∧ hadj'.length = a.ncols ∧
      ∀ f, f < a.ncols → ∃ l, hadj'[f]? = some l ∧ ∀ u, u ∈ l ↔ ∃ i', (P i' u ∨ (i' = i ∧ u = j)) ∧ FirstCol a i' f ∧ f < u := by
  obtain ⟨hi, hj⟩ := hij.lt s.wf
  obtain ⟨f, hf⟩ := s.exists_first hij
  have hfj := s.first_desc hf hij
  have hfn : f < a.ncols := (hf.1.lt s.wf).2
  rw [noteHigher, idx_of (hfc.get hf hi), ok_bind]
  simp only
  rw [idx_of (hp f hfn), ok_bind]
  by_cases hlt : post.idxOf f < post.idxOf j
  · rw [if_pos hlt]
    have hfltj : f < j := by
      rcases hfj with rfl | h
      · omega
      · exact (s.tree.below_bound h).2.2
    obtain ⟨l, hl1, hl2⟩ := hinv f hfn
    rw [idx_of hl1, ok_bind]
    refine ⟨hadj.set f (l ++ [j]), setIdx_of _ (by rw [hlen]; exact hfn), by simp [hlen], ?_⟩
    intro g hg
    by_cases hfg : f = g
    · subst hfg
      refine ⟨l ++ [j], List.getElem?_set_self (by rw [hlen]; exact hfn), ?_⟩
      intro u
      rw [List.mem_append, hl2, List.mem_singleton]
      constructor
      · rintro (⟨i', h1, h2⟩ | rfl)
        · exact ⟨i', Or.inl h1, h2⟩
        · exact ⟨i, Or.inr ⟨rfl, rfl⟩, hf, hfltj⟩
      · rintro ⟨i', h1 | ⟨-, h1⟩, h2⟩
        · exact Or.inl ⟨i', h1, h2⟩
        · exact Or.inr h1
    · obtain ⟨l', q1, q2⟩ := hinv g hg
      refine ⟨l', by rw [List.getElem?_set_ne hfg]; exact q1, ?_⟩
      intro u
      rw [q2]
      constructor
      · rintro ⟨i', h1, h2⟩
        exact ⟨i', Or.inl h1, h2⟩
      · rintro ⟨i', h1 | ⟨rfl, -⟩, h2⟩
        · exact ⟨i', h1, h2⟩
        · exact absurd (FirstCol_unique hf h2.1) hfg
  · rw [if_neg hlt]
    have hfj' : f = j := by
      rcases hfj with h | h
      · exact h
      · exact absurd (s.tree.below_place h) hlt
    refine ⟨hadj, rfl, hlen, ?_⟩
    intro g hg
    obtain ⟨l', q1, q2⟩ := hinv g hg
    refine ⟨l', q1, ?_⟩
    intro u
    rw [q2]
    constructor
    · rintro ⟨i', h1, h2⟩
      exact ⟨i', Or.inl h1, h2⟩
    · rintro ⟨i', h1 | ⟨rfl, rfl⟩, h2⟩
      · exact ⟨i', h1, h2⟩
      · have := FirstCol_unique hf h2.1
        omega

theorem Setting.hadj_spec {places : List Nat} {fc : List (Option Nat)} (hp : ∀ v, v < a.ncols → places[v]? = some (post.idxOf v))
    (hfc : FirstColumns a fc) : ∃ hadj, higherAdjacency a post places fc = .ok hadj ∧ hadj.length = a.ncols ∧
      ∀ f, f < a.ncols → ∃ l, hadj[f]? = some l ∧ ∀ u, u ∈ l ↔ Nbr a f u := by
  obtain ⟨hadj, h1, h2, h3⟩ := foldlM_prefix (fun (pre : List (Nat × Nat)) (hadj : List (List Nat)) => hadj.length = a.ncols ∧
      ∀ f, f < a.ncols → ∃ l, hadj[f]? = some l ∧ ∀ u, u ∈ l ↔ ∃ i, (Has a i u ∧ u ∈ pre.map Prod.fst) ∧ FirstCol a i f ∧ f < u)
    (fun (hadj : List (List Nat)) p => do
      let rows ← a.indexColumn p.1
      rows.foldlM (noteHigher places fc p.1 p.2) hadj) post.zipIdx (List.replicate a.ncols []) ⟨by simp, by
      intro f hf
      exact ⟨[], by simp [List.getElem?_replicate, hf], by simp⟩⟩ (by
    rintro pre ⟨j, p⟩ rest hadj hl ⟨e1, e2⟩
    obtain ⟨f1, f2, f3⟩ := zipIdx_split hl
    have hj : j < a.ncols := s.tree.mem.1 (List.mem_of_getElem? f3)
    have hpj := s.tree.place_eq f3
    rw [s.wf.indexColumn hj, ok_bind]
    subst hpj
    obtain ⟨hadj', g1, g2, g3⟩ := foldlM_prefix (fun (done : List Nat) (hadj : List (List Nat)) => hadj.length = a.ncols ∧
        ∀ f, f < a.ncols → ∃ l, hadj[f]? = some l ∧ ∀ u, u ∈ l ↔
          ∃ i, ((Has a i u ∧ u ∈ pre.map Prod.fst) ∨ (i ∈ done ∧ u = j)) ∧ FirstCol a i f ∧ f < u)
      (noteHigher places fc j (post.idxOf j)) (columnRows a j) hadj ⟨e1, by simpa using e2⟩ (by
        intro done i rest' hadj hdr ⟨p1, p2⟩
        obtain ⟨hadj', q1, q2, q3⟩ := s.noteHigher_spec hp hfc p1 p2 (i := i) (j := j) ((s.wf.mem_columnRows hj).1 (by rw [hdr]; simp))
        refine ⟨hadj', q1, q2, ?_⟩
        intro f hf
        obtain ⟨l, r1, r2⟩ := q3 f hf
        refine ⟨l, r1, ?_⟩
        intro u
        rw [r2]
        simp only [List.mem_append, List.mem_singleton]
        constructor
        · rintro ⟨i', (h | ⟨h1, h2⟩) | ⟨h1, h2⟩, h'⟩
          · exact ⟨i', Or.inl h, h'⟩
          · exact ⟨i', Or.inr ⟨Or.inl h1, h2⟩, h'⟩
          · exact ⟨i', Or.inr ⟨Or.inr h1, h2⟩, h'⟩
        · rintro ⟨i', h | ⟨h1 | h1, h2⟩, h'⟩
          · exact ⟨i', Or.inl (Or.inl h), h'⟩
          · exact ⟨i', Or.inl (Or.inr ⟨h1, h2⟩), h'⟩
          · exact ⟨i', Or.inr ⟨h1, h2⟩, h'⟩)
    refine ⟨hadj', g1, g2, ?_⟩
    intro f hf
    obtain ⟨l, r1, r2⟩ := g3 f hf
    refine ⟨l, r1, ?_⟩
    intro u
    rw [r2]
    constructor
    · rintro ⟨i, h | ⟨h1, rfl⟩, h'⟩
      · exact ⟨i, ⟨h.1, by rw [List.map_append]; exact List.mem_append_left _ h.2⟩, h'⟩
      · exact ⟨i, ⟨(s.wf.mem_columnRows hj).1 h1, by simp⟩, h'⟩
    · rintro ⟨i, ⟨h1, h2⟩, h'⟩
      rw [List.map_append, List.mem_append] at h2
      rcases h2 with h2 | h2
      · exact ⟨i, Or.inl ⟨h1, h2⟩, h'⟩
      · simp only [List.map_cons, List.map_nil, List.mem_singleton] at h2
        subst h2
        exact ⟨i, Or.inr ⟨(s.wf.mem_columnRows hj).2 h1, rfl⟩, h'⟩)
  refine ⟨hadj, h1, h2, fun f hf => ?_⟩
  obtain ⟨l, r1, r2⟩ := h3 f hf
  refine ⟨l, r1, fun u => ?_⟩
  rw [r2, List.zipIdx_map_fst, Nbr]
  constructor
  · rintro ⟨i, ⟨h1, -⟩, h2, h3⟩
    exact ⟨i, h2, h1, h3⟩
  · rintro ⟨i, h1, h2, h3⟩
    exact ⟨i, ⟨h2, s.tree.mem.2 (h2.lt s.wf).2⟩, h1, h3⟩

end

/-! ## The disjoint sets -/

/-- What the array of the disjoint sets satisfies. -/
def DsuOk (parents : List (Option Nat)) (linked : Nat → Prop) (dsu : List Nat) : Prop :=
  dsu.length = parents.length ∧ ∀ (x y : Nat), dsu[x]? = some y →
    (y = x ∧ ¬ linked x) ∨ (Below parents x y ∧ ∀ z, Desc parents x z → Below parents z y → linked z)

/-- The first ancestor that is not linked to its parent. -/
def Rep (parents : List (Option Nat)) (linked : Nat → Prop) (x r : Nat) : Prop :=
  Desc parents x r ∧ ¬ linked r ∧ ∀ z, Desc parents x z → Below parents z r → linked z

theorem Tree.dsuFind_spec {parents : List (Option Nat)} {n : Nat} {post : List Nat} (t : Tree parents n post) {linked : Nat → Prop} {fuel : Nat} :
    ∀ (dsu : List Nat) (x : Nat), DsuOk parents linked dsu → x < n → n - x ≤ fuel →
      ∃ dsu' r, dsuFind fuel dsu x = .ok (dsu', r) ∧ DsuOk parents linked dsu' ∧ Rep parents linked x r := by
  induction fuel with
  | zero => intro dsu x _ hx hf; omega
  | succ fuel ih =>
    intro dsu x hok hx hf
    have hl : dsu.length = n := by rw [hok.1, t.len]
    obtain ⟨y, hy⟩ : ∃ y, dsu[x]? = some y := ⟨_, List.getElem?_eq_getElem (by rw [hl]; exact hx)⟩
    rw [dsuFind, idx_of hy, ok_bind]
    by_cases hyx : y = x
    · rw [if_pos hyx]
      subst hyx
      refine ⟨dsu, y, rfl, hok, .refl _, ?_, ?_⟩
      · rcases hok.2 y y hy with ⟨-, h⟩ | ⟨h, -⟩
        · exact h
        · exact absurd h t.below_irrefl
      · intro z h1 h2
        exact absurd (h1.below h2) t.below_irrefl
    · rw [if_neg hyx]
      rcases hok.2 x y hy with ⟨h, -⟩ | ⟨hb, hlink⟩
      · exact absurd h hyx
      · obtain ⟨-, hyn, hxy⟩ := t.below_bound hb
        obtain ⟨dsu', r, e1, e2, e3⟩ := ih dsu y hok hyn (by omega)
        have hl' : dsu'.length = n := by rw [e2.1, t.len]
        rw [e1, ok_bind]
        simp only
        rw [setIdx_of _ (by rw [hl']; exact hx), ok_bind]
        have hall : ∀ z, Desc parents x z → Below parents z r → linked z := by
          intro z h1 h2
          rcases h1.comparable hb.desc with h3 | h3
          · rcases h3 with rfl | h3
            · exact e3.2.2 z (.refl _) h2
            · exact hlink z h1 h3
          · exact e3.2.2 z h3.desc h2
        refine ⟨dsu'.set x r, r, rfl, ⟨by simp [e2.1], ?_⟩, hb.desc.trans e3.1, e3.2.1, hall⟩
        intro v w hv
        by_cases hxv : x = v
        · subst hxv
          rw [List.getElem?_set_self (by rw [hl']; exact hx)] at hv
          simp only [Option.some.injEq] at hv
          subst hv
          exact Or.inr ⟨hb.trans_desc e3.1, hall⟩
        · rw [List.getElem?_set_ne hxv] at hv
          exact e2.2 v w hv

theorem DsuOk.link {parents : List (Option Nat)} (hf : IsForest parents) {linked : Nat → Prop} {dsu : List Nat} (h : DsuOk parents linked dsu) {j p : Nat}
    (hp : parents[j]? = some (some p)) :
    ∃ dsu', dsuLink dsu j (some p) = .ok dsu' ∧ DsuOk parents (fun x => linked x ∨ x = j) dsu' := by
  have hj : j < dsu.length := by rw [h.1]; exact (List.getElem?_eq_some_iff.1 hp).1
  refine ⟨dsu.set j p, setIdx_of _ hj, by simp [h.1], ?_⟩
  intro x y hxy
  by_cases hjx : j = x
  · subst hjx
    rw [List.getElem?_set_self hj] at hxy
    simp only [Option.some.injEq] at hxy
    subst hxy
    refine Or.inr ⟨.parent hp, ?_⟩
    intro z h1 h2
    rcases h1 with rfl | h1
    · exact Or.inr rfl
    · exact absurd ((h1.via_parent hp).below h2) (Below_irrefl hf)
  · rw [List.getElem?_set_ne hjx] at hxy
    rcases h.2 x y hxy with ⟨h1, h2⟩ | ⟨h1, h2⟩
    · refine Or.inl ⟨h1, ?_⟩
      rintro (h3 | h3)
      · exact h2 h3
      · exact hjx h3.symm
    · exact Or.inr ⟨h1, fun z h3 h4 => Or.inl (h2 z h3 h4)⟩

/-! ## The main loop -/

/-- The columns below `u` on the way from one of the columns seen. -/
noncomputable def seenTree (parents : List (Option Nat)) (seen : Nat → Nat → Prop) (u : Nat) : Finset Nat :=
  open Classical in (Finset.range parents.length).filter (fun y => ∃ x, seen u x ∧ Desc parents x y ∧ Below parents y u)

theorem mem_seenTree {parents : List (Option Nat)} {seen : Nat → Nat → Prop} {u y : Nat} :
    y ∈ seenTree parents seen u ↔ ∃ x, seen u x ∧ Desc parents x y ∧ Below parents y u := by
  simp only [seenTree, Finset.mem_filter, Finset.mem_range, and_iff_right_iff_imp]
  rintro ⟨x, -, -, h⟩
  exact Below_lt h

open Classical in
/-- The sum of the weights in the subtree of `k`. -/
noncomputable def weightSum (parents : List (Option Nat)) (w : List Int) (k : Nat) : Int :=
  ∑ x ∈ (Finset.range parents.length).filter (fun x => Desc parents x k), w.getD x 0

open Classical in
/-- The number of columns `u` for which a column in the subtree of `k` was seen. -/
noncomputable def hits (parents : List (Option Nat)) (seen : Nat → Nat → Prop) (k : Nat) : Nat :=
  ((Finset.range parents.length).filter (fun u => ∃ x, seen u x ∧ Desc parents x k)).card

open Classical in
theorem addAt_sum {parents : List (Option Nat)} {l : List Int} {i : Nat} (d : Int) (h : i < l.length) (hl : l.length = parents.length) :
    ∃ l', addAt l i d = .ok l' ∧ l'.length = l.length ∧
      ∀ k, weightSum parents l' k = weightSum parents l k + if Desc parents i k then d else 0 := by
  refine ⟨l.set i (l[i] + d), ?_, by simp, ?_⟩
  · rw [addAt, idx_of (List.getElem?_eq_getElem h), ok_bind]
    exact setIdx_of _ h
  · intro k
    have hterm : ∀ x, (l.set i (l[i] + d)).getD x 0 = l.getD x 0 + if x = i then d else 0 := by
      intro x
      simp only [List.getD_eq_getElem?_getD]
      by_cases hx : x = i
      · subst hx
        rw [List.getElem?_set_self h, List.getElem?_eq_getElem h]
        simp
      · rw [List.getElem?_set_ne (Ne.symm hx)]
        simp [hx]
    rw [weightSum, weightSum, Finset.sum_congr rfl (fun x _ => hterm x), Finset.sum_add_distrib, Finset.sum_ite_eq']
    have hi : i < parents.length := by omega
    simp only [Finset.mem_filter, Finset.mem_range, hi, true_and]

theorem addAt_ok {l : List Int} {i : Nat} (d : Int) (h : i < l.length) : ∃ l', addAt l i d = .ok l' ∧ l'.length = l.length := by
  refine ⟨l.set i (l[i] + d), ?_, by simp⟩
  rw [addAt, idx_of (List.getElem?_eq_getElem h), ok_bind]
  exact setIdx_of _ h

theorem hits_congr {parents : List (Option Nat)} {seen seen' : Nat → Nat → Prop} {k : Nat}
    (h : ∀ u, (∃ x, seen u x ∧ Desc parents x k) ↔ ∃ x, seen' u x ∧ Desc parents x k) : hits parents seen k = hits parents seen' k := by
  classical
  rw [hits, hits]
  congr 1
  exact Finset.filter_congr fun u _ => h u

theorem hits_add {parents : List (Option Nat)} {seen : Nat → Nat → Prop} {u j k : Nat} (hu : u < parents.length) (hj : Desc parents j k)
    (hno : ¬ ∃ x, seen u x ∧ Desc parents x k) : hits parents (fun v x => seen v x ∨ (v = u ∧ x = j)) k = hits parents seen k + 1 := by
  classical
  rw [hits, hits, ← Finset.card_insert_of_notMem (a := u)]
  · congr 1
    ext v
    simp only [Finset.mem_insert, Finset.mem_filter, Finset.mem_range]
    constructor
    · rintro ⟨h1, x, hx | ⟨rfl, rfl⟩, h2⟩
      · exact Or.inr ⟨h1, x, hx, h2⟩
      · exact Or.inl rfl
    · rintro (rfl | ⟨h1, x, hx, h2⟩)
      · exact ⟨hu, j, Or.inr ⟨rfl, rfl⟩, hj⟩
      · exact ⟨h1, x, Or.inl hx, h2⟩
  · simp only [Finset.mem_filter, not_and]
    exact fun _ => hno

open Classical in
/-- The number of columns passed whose parent is in the subtree of `k`. -/
noncomputable def passed (parents : List (Option Nat)) (done : List Nat) (k : Nat) : Nat :=
  ((Finset.range parents.length).filter (fun j => j ∈ done ∧ ∃ p, parents[j]? = some (some p) ∧ Desc parents p k)).card

theorem passed_none {parents : List (Option Nat)} {done : List Nat} {j k : Nat} (hj : parents[j]? = some none) :
    passed parents (done ++ [j]) k = passed parents done k := by
  classical
  rw [passed, passed]
  congr 1
  refine Finset.filter_congr fun x _ => ?_
  simp only [List.mem_append, List.mem_singleton]
  constructor
  · rintro ⟨h1 | rfl, p, h2, h3⟩
    · exact ⟨h1, p, h2, h3⟩
    · rw [hj] at h2
      simp at h2
  · rintro ⟨h1, h2⟩
    exact ⟨Or.inl h1, h2⟩

open Classical in
theorem passed_some {parents : List (Option Nat)} {done : List Nat} {j p k : Nat} (hj : parents[j]? = some (some p)) (hnew : j ∉ done) :
    passed parents (done ++ [j]) k = passed parents done k + if Desc parents p k then 1 else 0 := by
  have hlt := (List.getElem?_eq_some_iff.1 hj).1
  by_cases hp : Desc parents p k
  · rw [if_pos hp, passed, passed, ← Finset.card_insert_of_notMem (a := j)]
    · congr 1
      ext x
      simp only [Finset.mem_insert, Finset.mem_filter, Finset.mem_range, List.mem_append, List.mem_singleton]
      constructor
      · rintro ⟨h0, h1 | rfl, h2⟩
        · exact Or.inr ⟨h0, h1, h2⟩
        · exact Or.inl rfl
      · rintro (rfl | ⟨h0, h1, h2⟩)
        · exact ⟨hlt, Or.inr rfl, p, hj, hp⟩
        · exact ⟨h0, Or.inl h1, h2⟩
    · simp [hnew]
  · rw [if_neg hp, add_zero, passed, passed]
    congr 1
    refine Finset.filter_congr fun x _ => ?_
    simp only [List.mem_append, List.mem_singleton]
    constructor
    · rintro ⟨h1 | rfl, q, h2, h3⟩
      · exact ⟨h1, q, h2, h3⟩
      · rw [hj] at h2
        simp only [Option.some.injEq] at h2
        subst h2
        exact absurd h3 hp
    · rintro ⟨h1, h2⟩
      exact ⟨Or.inl h1, h2⟩

/-- What is true during the main loop. -/
structure CountInv (parents : List (Option Nat)) (post : List Nat) (base : Nat → Int) (seen : Nat → Nat → Prop) (linked : Nat → Prop)
    (st : CountState) : Prop where
  lenW : st.weights.length = parents.length
  lenC : st.colCounts.length = parents.length
  lenN : st.prevNbr.length = parents.length
  lenF : st.prevF.length = parents.length
  dsu : DsuOk parents linked st.dsu
  sum : ∀ k, k < parents.length → weightSum parents st.weights k = base k + hits parents seen k
  count : ∀ u, u < parents.length → st.colCounts[u]? = some (1 + (seenTree parents seen u).card)
  fresh : ∀ u : Nat, st.prevNbr[u]? = some none → ∀ x, ¬ seen u x
  nbr : ∀ u p : Nat, st.prevNbr[u]? = some (some p) → ∃ s, seen u s ∧ post.idxOf s = p ∧ ∀ x, seen u x → post.idxOf x ≤ p
  freshF : ∀ u : Nat, st.prevF[u]? = some none → ∀ x, ¬ seen u x
  leaf : ∀ u l : Nat, st.prevF[u]? = some (some l) → seen u l ∧ ∀ x, seen u x → post.idxOf x ≤ post.idxOf l ∨ Below parents l x

theorem addNatAt_of {l : List Nat} {i v : Nat} (d : Nat) (h : l[i]? = some v) : addNatAt l i d = .ok (l.set i (v + d)) := by
  rw [addNatAt, idx_of h, ok_bind]
  exact setIdx_of _ (List.getElem?_eq_some_iff.1 h).1

section
variable {parents : List (Option Nat)} {n : Nat} {post : List Nat} (t : Tree parents n post)
include t

/-- The leaf branch. -/
theorem Tree.addLeaf_spec {levels : List Nat} (hlev : ∀ v, v < n → ∃ d, levels[v]? = some d ∧ DepthOf parents v d) {seen : Nat → Nat → Prop}
    {linked : Nat → Prop} {base : Nat → Int} {st : CountState} (h : CountInv parents post base seen linked st) {j u : Nat} (hju : Below parents j u)
    (hseen : ∀ u x, seen u x → Below parents x u)
    (hlink : ∀ x, linked x ↔ post.idxOf x < post.idxOf j ∧ ∃ p, parents[x]? = some (some p))
    (hfirst : ∀ x, seen u x → post.idxOf x < post.idxOf j - descCount parents j) :
    ∃ st', addLeaf levels j u st = .ok st' ∧ st'.weights.length = parents.length ∧
      (∀ k, k < parents.length → weightSum parents st'.weights k = base k + hits parents (fun v x => seen v x ∨ (v = u ∧ x = j)) k) ∧
      st'.prevNbr = st.prevNbr ∧
      st'.prevF = st.prevF.set u (some j) ∧ DsuOk parents linked st'.dsu ∧
      ∃ c, st.colCounts[u]? = some c ∧ ∃ d, st'.colCounts = st.colCounts.set u (c + d) ∧
        (seenTree parents (fun v x => seen v x ∨ (v = u ∧ x = j)) u).card = (seenTree parents seen u).card + d := by
  have hf := t.isForest
  obtain ⟨hjn, hun, hjltu⟩ := t.below_bound hju
  obtain ⟨dj, hdj, hdj'⟩ := hlev j hjn
  obtain ⟨du, hdu, hdu'⟩ := hlev u hun
  classical
  obtain ⟨w1, hw1, hw1', hw1s⟩ := addAt_sum (l := st.weights) (i := j) 1 (by rw [h.lenW, t.len]; exact hjn) h.lenW
  have hcount := h.count u (by rw [t.len]; exact hun)
  obtain ⟨o, ho⟩ : ∃ o, st.prevF[u]? = some o := ⟨_, List.getElem?_eq_getElem (by rw [h.lenF, t.len]; exact hun)⟩
  have hsetF : setIdx st.prevF u (some j) = .ok (st.prevF.set u (some j)) := setIdx_of _ (by rw [h.lenF, t.len]; exact hun)
  rw [addLeaf, hw1, ok_bind, idx_of ho, ok_bind]
  cases o with
  | none =>
    have hpath := pathTo_card hf hju hdj' hdu'
    simp only [countLeaf]
    rw [idx_of hdj, ok_bind, idx_of hdu, ok_bind, checkedSub, if_pos (by omega), ok_bind, addNatAt_of _ hcount, ok_bind, pure_eq_ok, ok_bind]
    simp only
    rw [hsetF, ok_bind, pure_eq_ok]
    refine ⟨_, rfl, by rw [hw1', h.lenW], ?_, rfl, rfl, h.dsu, _, hcount, dj - du, rfl, ?_⟩
    · intro k hk
      simp only
      rw [hw1s, h.sum k hk]
      by_cases hjk : Desc parents j k
      · rw [if_pos hjk, hits_add (by rw [t.len]; exact hun) hjk (fun ⟨x, hx, _⟩ => h.freshF u ho x hx)]
        omega
      · rw [if_neg hjk, add_zero]
        congr 2
        refine hits_congr fun v => ⟨fun ⟨x, hx, h'⟩ => ⟨x, Or.inl hx, h'⟩, ?_⟩
        rintro ⟨x, hx | ⟨-, rfl⟩, h'⟩
        · exact ⟨x, hx, h'⟩
        · exact absurd h' hjk
    have h0 : seenTree parents seen u = ∅ := by
      ext y
      rw [mem_seenTree]
      simp only [Finset.notMem_empty, iff_false, not_exists, not_and]
      intro x hx
      exact absurd hx (h.freshF u ho x)
    have h1 : seenTree parents (fun v x => seen v x ∨ (v = u ∧ x = j)) u = pathTo parents j u := by
      ext y
      rw [mem_seenTree, mem_pathTo]
      constructor
      · rintro ⟨x, hx | ⟨-, rfl⟩, h'⟩
        · exact absurd hx (h.freshF u ho x)
        · exact h'
      · exact fun h' => ⟨j, Or.inr ⟨rfl, rfl⟩, h'⟩
    rw [h0, h1]
    simp only [Finset.card_empty]
    omega
  | some l =>
    obtain ⟨hl1, hl2⟩ := h.leaf u l ho
    have hlu := hseen u l hl1
    obtain ⟨hln, -, -⟩ := t.below_bound hlu
    have hlj := hfirst l hl1
    obtain ⟨dsu', q, e1, e2, e3⟩ := t.dsuFind_spec (fuel := st.dsu.length + 1) st.dsu l h.dsu hln (by rw [h.dsu.1, t.len]; omega)
    have hqu : Desc parents q u := by
      rcases e3.1.comparable hlu.desc with h1 | h1
      · exact h1
      · have := (hlink u).1 (e3.2.2 u hlu.desc h1)
        have := t.below_place hju
        omega
    have hqn : q < n := t.desc_bound e3.1 hln
    have hqj : post.idxOf j ≤ post.idxOf q := by
      rcases hqu with rfl | h1
      · exact le_of_lt (t.below_place hju)
      · obtain ⟨p, hp, -⟩ := h1.exists_parent
        by_contra hlt
        exact e3.2.1 ((hlink q).2 ⟨by omega, p, hp⟩)
    have hdjq : Desc parents j q := t.desc_between hqn e3.1 (.refl q) hjn (by omega) hqj
    have hbjq : Below parents j q := by
      rcases hdjq with rfl | h1
      · have := (t.desc_iff_place hjn hln).1 e3.1
        omega
      · exact h1
    obtain ⟨dq, hdq, hdq'⟩ := hlev q hqn
    have hpath := pathTo_card hf hbjq hdj' hdq'
    obtain ⟨w2, hw2, hw2', hw2s⟩ := addAt_sum (l := w1) (i := q) (-1) (by rw [hw1', h.lenW, t.len]; exact hqn) (by rw [hw1', h.lenW])
    simp only [countLeaf]
    rw [e1, ok_bind]
    simp only
    rw [idx_of hdj, ok_bind, idx_of hdq, ok_bind, checkedSub, if_pos (by omega), ok_bind, addNatAt_of _ hcount, ok_bind, hw2, ok_bind, pure_eq_ok, ok_bind]
    simp only
    rw [hsetF, ok_bind, pure_eq_ok]
    have hold : ∀ k, Desc parents j k → (∃ x, seen u x ∧ Desc parents x k) → Desc parents q k := by
      rintro k hjk ⟨x, hx, hxk⟩
      have hkn := t.desc_bound hjk hjn
      have hkp := t.desc_place hjk
      have hlk : Desc parents l k := by
        rcases hl2 x hx with h1 | h1
        · exact t.desc_between hkn hxk hjk hln h1 (by omega)
        · exact h1.desc.trans hxk
      rcases e3.1.comparable hlk with h1 | h1
      · exact h1
      · have := ((hlink k).1 (e3.2.2 k hlk h1)).1
        omega
    refine ⟨_, rfl, by rw [hw2', hw1', h.lenW], ?_, rfl, rfl, e2, _, hcount, dj - dq, rfl, ?_⟩
    · intro k hk
      simp only
      rw [hw2s, hw1s, h.sum k hk]
      by_cases hjk : Desc parents j k
      · rw [if_pos hjk]
        by_cases hqk : Desc parents q k
        · rw [if_pos hqk]
          have : hits parents (fun v x => seen v x ∨ (v = u ∧ x = j)) k = hits parents seen k := by
            refine hits_congr fun v => ⟨?_, fun ⟨x, hx, h'⟩ => ⟨x, Or.inl hx, h'⟩⟩
            rintro ⟨x, hx | ⟨rfl, rfl⟩, h'⟩
            · exact ⟨x, hx, h'⟩
            · exact ⟨l, hl1, e3.1.trans hqk⟩
          rw [this]
          omega
        · rw [if_neg hqk, hits_add (by rw [t.len]; exact hun) hjk (fun h' => hqk (hold k hjk h'))]
          omega
      · rw [if_neg hjk, if_neg (fun h' => hjk (hdjq.trans h')), add_zero, add_zero]
        congr 2
        refine hits_congr fun v => ⟨fun ⟨x, hx, h'⟩ => ⟨x, Or.inl hx, h'⟩, ?_⟩
        rintro ⟨x, hx | ⟨-, rfl⟩, h'⟩
        · exact ⟨x, hx, h'⟩
        · exact absurd h' hjk
    have hun' : seenTree parents (fun v x => seen v x ∨ (v = u ∧ x = j)) u = seenTree parents seen u ∪ pathTo parents j q := by
      ext y
      rw [Finset.mem_union, mem_seenTree, mem_seenTree, mem_pathTo]
      constructor
      · rintro ⟨x, hx | ⟨-, rfl⟩, h1, h2⟩
        · exact Or.inl ⟨x, hx, h1, h2⟩
        · rcases hdjq.comparable h1 with h3 | h3
          · exact Or.inl ⟨l, hl1, e3.1.trans h3, h2⟩
          · exact Or.inr ⟨h1, h3⟩
      · rintro (⟨x, hx, h1, h2⟩ | ⟨h1, h2⟩)
        · exact ⟨x, Or.inl hx, h1, h2⟩
        · exact ⟨j, Or.inr ⟨rfl, rfl⟩, h1, h2.trans_desc hqu⟩
    have hdisj : Disjoint (seenTree parents seen u) (pathTo parents j q) := by
      rw [Finset.disjoint_left]
      intro y hy1 hy2
      rw [mem_seenTree] at hy1
      rw [mem_pathTo] at hy2
      obtain ⟨x, hx, hxy, hyu⟩ := hy1
      have hyn := (t.below_bound hyu).1
      have hly : Desc parents l y := by
        rcases hl2 x hx with h1 | h1
        · exact t.desc_between hyn hxy hy2.1 hln h1 (by omega)
        · exact h1.desc.trans hxy
      have := ((hlink y).1 (e3.2.2 y hly hy2.2)).1
      have := t.desc_place hy2.1
      omega
    rw [hun', Finset.card_union_of_disjoint hdisj]
    omega

theorem Tree.visitNeighbor_spec {levels : List Nat} (hlev : ∀ v, v < n → ∃ d, levels[v]? = some d ∧ DepthOf parents v d) {seen : Nat → Nat → Prop}
    {linked : Nat → Prop} {base : Nat → Int} {st : CountState} (h : CountInv parents post base seen linked st) {j u : Nat} (hju : Below parents j u)
    (hseen : ∀ u x, seen u x → Below parents x u ∧ post.idxOf x ≤ post.idxOf j)
    (hlink : ∀ x, linked x ↔ post.idxOf x < post.idxOf j ∧ ∃ p, parents[x]? = some (some p)) :
    ∃ st', visitNeighbor levels j (post.idxOf j) (post.idxOf j - descCount parents j) st u = .ok st' ∧
      CountInv parents post base (fun v x => seen v x ∨ (v = u ∧ x = j)) linked st' := by
  obtain ⟨hjn, hun, hjltu⟩ := t.below_bound hju
  have hup : u < parents.length := by rw [t.len]; exact hun
  obtain ⟨o, ho⟩ : ∃ o, st.prevNbr[u]? = some o := ⟨_, List.getElem?_eq_getElem (by rw [h.lenN, t.len]; exact hun)⟩
  rw [visitNeighbor, idx_of ho, ok_bind]
  have hother : ∀ v, v ≠ u → seenTree parents (fun v x => seen v x ∨ (v = u ∧ x = j)) v = seenTree parents seen v := by
    intro v hv
    ext y
    rw [mem_seenTree, mem_seenTree]
    constructor
    · rintro ⟨x, hx | ⟨h1, -⟩, h'⟩
      · exact ⟨x, hx, h'⟩
      · exact absurd h1 hv
    · rintro ⟨x, hx, h'⟩
      exact ⟨x, Or.inl hx, h'⟩
  have hset : ∀ l : List (Option Nat), l.length = parents.length → setIdx l u (some (post.idxOf j)) = .ok (l.set u (some (post.idxOf j))) :=
    fun l hl => setIdx_of _ (by rw [hl]; exact hup)
  have hfresh' : ∀ v : Nat, (st.prevNbr.set u (some (post.idxOf j)))[v]? = some none → ∀ x, ¬ (seen v x ∨ (v = u ∧ x = j)) := by
    intro v hv x
    by_cases huv : u = v
    · subst huv
      rw [List.getElem?_set_self (by rw [h.lenN]; exact hup)] at hv
      simp at hv
    · rw [List.getElem?_set_ne huv] at hv
      rintro (hx | ⟨h1, -⟩)
      · exact h.fresh v hv x hx
      · exact huv h1.symm
  have hnbr' : ∀ v p : Nat, (st.prevNbr.set u (some (post.idxOf j)))[v]? = some (some p) → ∃ s, (seen v s ∨ (v = u ∧ s = j)) ∧ post.idxOf s = p ∧
      ∀ x, (seen v x ∨ (v = u ∧ x = j)) → post.idxOf x ≤ p := by
    intro v p hv
    by_cases huv : u = v
    · subst huv
      rw [List.getElem?_set_self (by rw [h.lenN]; exact hup)] at hv
      simp only [Option.some.injEq] at hv
      subst hv
      refine ⟨j, Or.inr ⟨rfl, rfl⟩, rfl, ?_⟩
      rintro x (hx | ⟨-, rfl⟩)
      · exact (hseen _ x hx).2
      · exact le_refl _
    · rw [List.getElem?_set_ne huv] at hv
      obtain ⟨s, h1, h2, h3⟩ := h.nbr v p hv
      refine ⟨s, Or.inl h1, h2, ?_⟩
      rintro x (hx | ⟨h4, -⟩)
      · exact h3 x hx
      · exact absurd h4.symm huv
  cases hleaf : newLeaf (post.idxOf j - descCount parents j) o with
  | true =>
    have hfirst : ∀ x, seen u x → post.idxOf x < post.idxOf j - descCount parents j := by
      intro x hx
      cases o with
      | none => exact absurd hx (h.fresh u ho x)
      | some p =>
        simp only [newLeaf, decide_eq_true_eq] at hleaf
        obtain ⟨s, h1, h2, h3⟩ := h.nbr u p ho
        have := h3 x hx
        omega
    obtain ⟨st', e1, e2, e8, e3, e4, e5, c, hc, d, e6, e7⟩ := t.addLeaf_spec hlev h hju (fun u x hx => (hseen u x hx).1) hlink hfirst
    simp only [addLeafIf]
    rw [e1, ok_bind, hset _ (by rw [e3]; exact h.lenN), ok_bind]
    refine ⟨_, rfl, e2, by simp [e6, h.lenC], by simp [e3, h.lenN], by simp [e4, h.lenF], e5, e8, ?_, ?_, ?_, ?_, ?_⟩
    · intro v hv
      simp only [e6]
      by_cases huv : u = v
      · subst huv
        rw [List.getElem?_set_self (by rw [h.lenC]; exact hup), e7]
        have := h.count u hv
        rw [hc] at this
        simp only [Option.some.injEq] at this
        rw [this]
        congr 1
        omega
      · rw [List.getElem?_set_ne huv, hother v (Ne.symm huv)]
        exact h.count v hv
    · simp only [e3]; exact hfresh'
    · simp only [e3]; exact hnbr'
    · intro v hv x
      simp only [e4] at hv
      by_cases huv : u = v
      · subst huv
        rw [List.getElem?_set_self (by rw [h.lenF]; exact hup)] at hv
        simp at hv
      · rw [List.getElem?_set_ne huv] at hv
        rintro (hx | ⟨h1, -⟩)
        · exact h.freshF v hv x hx
        · exact huv h1.symm
    · intro v l hv
      simp only [e4] at hv
      by_cases huv : u = v
      · subst huv
        rw [List.getElem?_set_self (by rw [h.lenF]; exact hup)] at hv
        simp only [Option.some.injEq] at hv
        subst hv
        refine ⟨Or.inr ⟨rfl, rfl⟩, ?_⟩
        rintro x (hx | ⟨-, rfl⟩)
        · exact Or.inl (hseen _ x hx).2
        · exact Or.inl (le_refl _)
      · rw [List.getElem?_set_ne huv] at hv
        obtain ⟨h1, h2⟩ := h.leaf v l hv
        refine ⟨Or.inl h1, ?_⟩
        rintro x (hx | ⟨h4, -⟩)
        · exact h2 x hx
        · exact absurd h4.symm huv
  | false =>
    simp only [addLeafIf, ok_bind]
    rw [hset _ h.lenN, ok_bind]
    cases o with
    | none => simp [newLeaf] at hleaf
    | some p =>
      simp only [newLeaf, decide_eq_false_iff_not, not_lt] at hleaf
      obtain ⟨s, hs1, hs2, hs3⟩ := h.nbr u p ho
      have hsb := hseen u s hs1
      have hsn := (t.below_bound hsb.1).1
      have hsj : Desc parents s j := (t.desc_iff_place hjn hsn).2 ⟨by omega, hsb.2⟩
      refine ⟨_, rfl, h.lenW, h.lenC, by simp [h.lenN], h.lenF, h.dsu, ?_, ?_, hfresh', hnbr', ?_, ?_⟩
      · intro k hk
        simp only
        rw [h.sum k hk]
        congr 2
        refine hits_congr fun v => ⟨fun ⟨x, hx, h'⟩ => ⟨x, Or.inl hx, h'⟩, ?_⟩
        rintro ⟨x, hx | ⟨rfl, rfl⟩, h'⟩
        · exact ⟨x, hx, h'⟩
        · exact ⟨s, hs1, hsj.trans h'⟩
      · intro v hv
        rw [h.count v hv]
        congr 3
        by_cases huv : v = u
        · subst huv
          ext y
          rw [mem_seenTree, mem_seenTree]
          constructor
          · rintro ⟨x, hx, h'⟩
            exact ⟨x, Or.inl hx, h'⟩
          · rintro ⟨x, hx | ⟨-, rfl⟩, h1, h2⟩
            · exact ⟨x, hx, h1, h2⟩
            · exact ⟨s, hs1, hsj.trans h1, h2⟩
        · rw [hother v huv]
      · intro v hv x
        rintro (hx | ⟨rfl, -⟩)
        · exact h.freshF v hv x hx
        · exact h.freshF v hv s hs1
      · intro v l hv
        obtain ⟨h1, h2⟩ := h.leaf v l hv
        refine ⟨Or.inl h1, ?_⟩
        rintro x (hx | ⟨rfl, rfl⟩)
        · exact h2 x hx
        · have hls : Desc parents l s := by
            rcases h2 s hs1 with h3 | h3
            · have := hs3 l h1
              have hln := (t.below_bound (hseen _ l h1).1).1
              exact Or.inl (t.place_inj hln hsn (by omega))
            · exact h3.desc
          rcases hls.trans hsj with rfl | h3
          · exact Or.inl (le_refl _)
          · exact Or.inr h3

end

open Classical in
/-- The last loop sums the weights of the subtrees. -/
theorem Tree.accumulate_spec {parents : List (Option Nat)} {n : Nat} {post : List Nat} (t : Tree parents n post) {w : List Int} (hw : w.length = n) :
    ∃ w', (List.range n).foldlM (accumulate parents) w = .ok w' ∧ w'.length = n ∧ ∀ k, k < n → w'[k]? = some (weightSum parents w k) := by
  have hgetD : ∀ k, k < n → w[k]? = some (w.getD k 0) := by
    intro k hk
    rw [List.getD_eq_getElem?_getD, List.getElem?_eq_getElem (by rw [hw]; exact hk)]
    rfl
  have hfull : ∀ m k, k ≤ m → k < n →
      insert k ((Finset.range n).filter (fun x => ∃ c, c < m ∧ parents[c]? = some (some k) ∧ Desc parents x c)) =
        (Finset.range parents.length).filter (fun x => Desc parents x k) := by
    intro m k hm hk
    ext x
    simp only [Finset.mem_insert, Finset.mem_filter, Finset.mem_range, t.len]
    constructor
    · rintro (rfl | ⟨h1, c, -, h2, h3⟩)
      · exact ⟨hk, .refl _⟩
      · exact ⟨h1, h3.trans (Below.parent h2).desc⟩
    · rintro ⟨h1, rfl | h2⟩
      · exact Or.inl rfl
      · obtain ⟨c, hc, hxc⟩ := Below_iff.1 h2
        have hc' := mem_kids.1 hc
        exact Or.inr ⟨h1, c, by have := t.up c k hc'; omega, hc', hxc⟩
  have hself : ∀ m k, k ∉ (Finset.range n).filter (fun x => ∃ c, c < m ∧ parents[c]? = some (some k) ∧ Desc parents x c) := by
    intro m k
    simp only [Finset.mem_filter, not_and, not_exists]
    rintro - c - h2 h3
    exact t.below_irrefl (h3.below (.parent h2))
  obtain ⟨w', h1, h2, h3⟩ := foldlM_prefix (fun (pre : List Nat) (w' : List Int) => w'.length = n ∧ ∀ k, k < n → w'[k]? =
      some (∑ x ∈ insert k ((Finset.range n).filter (fun x => ∃ c, c < pre.length ∧ parents[c]? = some (some k) ∧ Desc parents x c)), w.getD x 0))
    (accumulate parents) (List.range n) w ⟨hw, by
      intro k hk
      simpa using hgetD k hk⟩ (by
    intro pre j rest w' hl ⟨e1, e2⟩
    have hj : j = pre.length ∧ j < n := by
      have h1 := congrArg (fun l => l[pre.length]?) hl
      simp only [List.getElem?_append_right (le_refl _), Nat.sub_self, List.getElem?_cons_zero] at h1
      obtain ⟨h2, h3⟩ := List.getElem?_eq_some_iff.1 h1
      simp only [List.getElem_range] at h3
      simp only [List.length_range] at h2
      omega
    obtain ⟨hj1, hj⟩ := hj
    obtain ⟨o, ho⟩ : ∃ o, parents[j]? = some o := ⟨_, List.getElem?_eq_getElem (by rw [t.len]; exact hj)⟩
    rw [accumulate, idx_of ho, ok_bind, idx_of (e2 j hj), ok_bind]
    have hsame : ∀ k, o ≠ some k → ∀ x, (∃ c, c < (pre ++ [j]).length ∧ parents[c]? = some (some k) ∧ Desc parents x c) ↔
        ∃ c, c < pre.length ∧ parents[c]? = some (some k) ∧ Desc parents x c := by
      intro k hk x
      simp only [List.length_append, List.length_singleton]
      constructor
      · rintro ⟨c, hc, h⟩
        rcases Nat.lt_succ_iff_lt_or_eq.1 hc with hc | rfl
        · exact ⟨c, hc, h⟩
        · rw [← hj1, ho] at h
          exact absurd (Option.some.inj h.1) hk
      · rintro ⟨c, hc, h⟩
        exact ⟨c, by omega, h⟩
    cases o with
    | none =>
      refine ⟨w', rfl, e1, fun k hk => ?_⟩
      rw [e2 k hk]
      simp only [hsame k (by simp)]
    | some p =>
      have hp := t.bound j p ho
      simp only [addAtParent, addAt]
      rw [idx_of (e2 p hp), ok_bind]
      refine ⟨_, setIdx_of _ (by rw [e1]; exact hp), by simp [e1], fun k hk => ?_⟩
      by_cases hpk : p = k
      · subst hpk
        rw [List.getElem?_set_self (by rw [e1]; exact hp)]
        congr 1
        rw [hj1, hfull pre.length pre.length le_rfl (by omega), Finset.sum_insert (hself _ _), Finset.sum_insert (hself _ _), add_assoc]
        congr 1
        rw [← Finset.sum_union]
        · congr 1
          ext x
          simp only [Finset.mem_union, Finset.mem_filter, Finset.mem_range, List.length_append, List.length_singleton, t.len]
          constructor
          · rintro (⟨h1, c, h2, h3⟩ | ⟨h1, h2⟩)
            · exact ⟨h1, c, by omega, h3⟩
            · exact ⟨h1, pre.length, by omega, by rw [← hj1]; exact ho, h2⟩
          · rintro ⟨h1, c, h2, h3, h4⟩
            rcases Nat.lt_succ_iff_lt_or_eq.1 h2 with hc | rfl
            · exact Or.inl ⟨h1, c, hc, h3, h4⟩
            · exact Or.inr ⟨h1, h4⟩
        · rw [Finset.disjoint_left]
          intro x hx1 hx2
          simp only [Finset.mem_filter] at hx1 hx2
          obtain ⟨-, c, h2, h3, h4⟩ := hx1
          rw [hj1] at ho
          rcases h4.comparable hx2.2 with h | h
          · rcases h with rfl | h
            · omega
            · exact t.below_irrefl ((h.via_parent h3).below (.parent ho))
          · exact t.below_irrefl ((h.via_parent ho).below (.parent h3))
      · rw [List.getElem?_set_ne hpk, e2 k hk]
        simp only [hsame k (by simpa using hpk)])
  refine ⟨w', h1, h2, fun k hk => ?_⟩
  rw [h3 k hk, List.length_range, hfull n k hk.le hk, weightSum]

/-- The number of columns in which column `u` of the factor has an entry. -/
noncomputable def fillCount (a : SparseStructure) (parents : List (Option Nat)) (u : Nat) : Nat :=
  1 + (seenTree parents (fun u x => Nbr a x u) u).card

open Classical in
/-- The number of columns of the factor that have an entry in row `k`. -/
noncomputable def rowFillCount (a : SparseStructure) (parents : List (Option Nat)) (k : Nat) : Nat :=
  1 + ((Finset.range a.ncols).filter (fun u => k ∈ seenTree parents (fun u x => Nbr a x u) u)).card

open Classical in
/-- The weights of a subtree add up to the count of the row. -/
theorem Setting.weights_row {a : SparseStructure} {parents : List (Option Nat)} {post : List Nat} (s : Setting a parents post) {sizes : List Nat}
    (hlen : sizes.length = a.ncols) (hs : ∀ v, v < a.ncols → sizes[v]? = some (descCount parents v + 1)) {k : Nat} (hk : k < a.ncols) :
    weightSum parents (sizes.map (fun s => if s = 1 then (1 : Int) else 0)) k - passed parents post k +
      hits parents (fun u x => Nbr a x u) k = rowFillCount a parents k := by
  have t := s.tree
  have hleaf : ∀ u, u < a.ncols → (descCount parents u = 0 ↔ ¬ ∃ x, Nbr a x u) := by
    intro u hu
    rw [descCount, Finset.card_eq_zero, Finset.filter_eq_empty_iff]
    constructor
    · rintro h ⟨x, hx⟩
      have hb := s.nbr_below hx
      exact h (Finset.mem_range.2 (by rw [t.len]; exact (t.below_bound hb).1)) hb
    · rintro h x - hb
      obtain ⟨c, hc, -⟩ := Below_iff.1 hb
      have hc' := mem_kids.1 hc
      obtain ⟨i, f, h1, h2, h3⟩ := s.child_src hc'
      exact h ⟨f, i, h2, h1, by have := t.desc_le h3; have := t.up c u hc'; omega⟩
  have h1 : weightSum parents (sizes.map (fun s => if s = 1 then (1 : Int) else 0)) k =
      ((Finset.range a.ncols).filter (fun u => Desc parents u k ∧ ¬ ∃ x, Nbr a x u)).card := by
    rw [weightSum, t.len, Finset.card_filter, Finset.sum_filter]
    push_cast
    refine Finset.sum_congr rfl fun u hu => ?_
    have hu := Finset.mem_range.1 hu
    rw [List.getD_eq_getElem?_getD, List.getElem?_map, hs u hu]
    simp only [Option.map_some, Option.getD_some, Nat.add_eq_right, hleaf u hu]
    by_cases hd : Desc parents u k <;> simp [hd]
  have h2 : passed parents post k = ((Finset.range a.ncols).filter (fun u => Below parents u k)).card := by
    rw [passed, t.len]
    congr 1
    refine Finset.filter_congr fun u hu => ?_
    have hu := Finset.mem_range.1 hu
    constructor
    · rintro ⟨-, p, h1, h2⟩
      exact (Below.parent h1).trans_desc h2
    · intro h
      obtain ⟨p, h1, h2⟩ := h.exists_parent
      exact ⟨t.mem.2 hu, p, h1, h2⟩
  have h3 : hits parents (fun u x => Nbr a x u) k = ((Finset.range a.ncols).filter (fun u => Desc parents u k ∧ ∃ x, Nbr a x u)).card +
      ((Finset.range a.ncols).filter (fun u => k ∈ seenTree parents (fun u x => Nbr a x u) u)).card := by
    rw [hits, t.len, ← Finset.card_union_of_disjoint]
    · congr 1
      ext u
      simp only [Finset.mem_union, Finset.mem_filter, Finset.mem_range, mem_seenTree]
      constructor
      · rintro ⟨hu, x, hx, hd⟩
        rcases (s.nbr_below hx).desc.comparable hd with h | h
        · exact Or.inl ⟨hu, h, x, hx⟩
        · exact Or.inr ⟨hu, x, hx, hd, h⟩
      · rintro (⟨hu, hd, x, hx⟩ | ⟨hu, x, hx, hd, -⟩)
        · exact ⟨hu, x, hx, (s.nbr_below hx).desc.trans hd⟩
        · exact ⟨hu, x, hx, hd⟩
    · rw [Finset.disjoint_left]
      intro u hu1 hu2
      simp only [Finset.mem_filter, mem_seenTree] at hu1 hu2
      obtain ⟨-, x, -, -, h⟩ := hu2
      exact t.below_irrefl (hu1.2.1.below h)
  have h4 : ((Finset.range a.ncols).filter (fun u => Desc parents u k)).card = ((Finset.range a.ncols).filter (fun u => Below parents u k)).card + 1 := by
    rw [← Finset.card_insert_of_notMem (a := k)]
    · congr 1
      ext u
      simp only [Finset.mem_insert, Finset.mem_filter, Finset.mem_range]
      constructor
      · rintro ⟨hu, rfl | h⟩
        · exact Or.inl rfl
        · exact Or.inr ⟨hu, h⟩
      · rintro (rfl | ⟨hu, h⟩)
        · exact ⟨hk, .refl _⟩
        · exact ⟨hu, h.desc⟩
    · simp only [Finset.mem_filter, not_and]
      exact fun _ => t.below_irrefl
  have h5 := Finset.card_filter_add_card_filter_not (s := (Finset.range a.ncols).filter (fun u => Desc parents u k)) (fun u => ∃ x, Nbr a x u)
  rw [Finset.filter_filter, Finset.filter_filter] at h5
  rw [h1, h2, h3, rowFillCount]
  omega

theorem Setting.counts_spec {a : SparseStructure} {parents : List (Option Nat)} {post : List Nat} (s : Setting a parents post) :
    ∃ counts, CholeskyCounts.build a parents post = .ok counts ∧ FirstColumns a counts.firstColumns ∧
      counts.colCounts.length = a.ncols ∧ (∀ u, u < a.ncols → counts.colCounts[u]? = some (fillCount a parents u)) ∧
      counts.rowCounts.length = a.ncols ∧ (∀ k, k < a.ncols → counts.rowCounts[k]? = some (rowFillCount a parents k)) ∧
      (∀ v, v < a.ncols → ∃ d, counts.levels[v]? = some d ∧ DepthOf parents v d) := by
  have t := s.tree
  obtain ⟨levels, ml, h1, h2, h3⟩ := nodeDepthLevels_spec t.isForest
  rw [t.len] at h3
  obtain ⟨places, hp1, hp2, hp3⟩ := t.places_spec
  obtain ⟨sizes, hs1, hs2, hs3⟩ := t.sizes_spec
  obtain ⟨firsts, hf1, hf2, hf3⟩ := t.firsts_spec hs3
  obtain ⟨fc, hc1, hc2⟩ := s.firstColumns_spec
  obtain ⟨hadj, ha1, ha2, ha3⟩ := s.hadj_spec hp3 hc2
  obtain ⟨st, e1, e2⟩ := foldlM_prefix (fun (pre : List (Nat × Nat)) (st : CountState) =>
      CountInv parents post (fun k => weightSum parents (sizes.map (fun s => if s = 1 then (1 : Int) else 0)) k - passed parents (pre.map Prod.fst) k)
        (fun u x => x ∈ pre.map Prod.fst ∧ Nbr a x u) (fun x => x ∈ pre.map Prod.fst ∧ ∃ p, parents[x]? = some (some p)) st)
    (visitColumn parents levels places firsts hadj) post.zipIdx
    ⟨sizes.map (fun s => if s = 1 then (1 : Int) else 0), List.replicate a.ncols 1, List.replicate a.ncols none, List.replicate a.ncols none,
      List.range a.ncols⟩
    ⟨by simp [hs2, t.len], by simp [t.len], by simp [t.len], by simp [t.len], ⟨by simp [t.len], by
        intro x y hxy
        have hx : x < a.ncols := by
          have := (List.getElem?_eq_some_iff.1 hxy).1
          simpa using this
        rw [List.getElem?_range hx] at hxy
        exact Or.inl ⟨(Option.some.inj hxy).symm, by simp⟩⟩, by
        intro k hk
        simp [hits, passed], by
        intro u hu
        rw [t.len] at hu
        simp [hu, seenTree], by simp, by
        intro u p hp
        rw [List.getElem?_replicate] at hp
        split at hp <;> simp at hp, by simp, by
        intro u p hp
        rw [List.getElem?_replicate] at hp
        split at hp <;> simp at hp⟩ (by
    rintro pre ⟨j, p⟩ rest st hl hinv
    obtain ⟨q1, q2, q3⟩ := zipIdx_split hl
    have hpj := t.place_eq q3
    subst hpj
    obtain ⟨-, hj, q5⟩ := t.prefix_place q2
    rw [List.length_map, ← q1] at q5
    obtain ⟨o, ho⟩ : ∃ o, parents[j]? = some o := ⟨_, List.getElem?_eq_getElem (by rw [t.len]; exact hj)⟩
    have hnew : j ∉ pre.map Prod.fst := fun h => by
      have := (q5 j hj).1 h
      omega
    have hmap : (pre ++ [(j, post.idxOf j)]).map Prod.fst = pre.map Prod.fst ++ [j] := by simp
    obtain ⟨w, hw, hw', hw''⟩ : ∃ w, addAtParent st.weights (-1) o = .ok w ∧ w.length = st.weights.length ∧ ∀ k,
        weightSum parents w k + passed parents ((pre ++ [(j, post.idxOf j)]).map Prod.fst) k =
          weightSum parents st.weights k + passed parents (pre.map Prod.fst) k := by
      rw [hmap]
      cases o with
      | none => exact ⟨st.weights, rfl, rfl, fun k => by rw [passed_none ho]⟩
      | some p =>
        classical
        obtain ⟨w, hw, hw', hw''⟩ := addAt_sum (l := st.weights) (i := p) (-1) (by rw [hinv.lenW, t.len]; exact t.bound j p ho) hinv.lenW
        refine ⟨w, hw, hw', fun k => ?_⟩
        rw [hw'', passed_some ho hnew]
        by_cases hpk : Desc parents p k
        · rw [if_pos hpk, if_pos hpk]; omega
        · rw [if_neg hpk, if_neg hpk]; omega
    obtain ⟨f, hf, hfn, hfp⟩ := hf3 j hj
    obtain ⟨nbrs, hn1, hn2⟩ := ha3 j hj
    rw [visitColumn]
    simp only
    rw [idx_of ho, ok_bind, hw, ok_bind, idx_of hf, ok_bind, idx_of (hp3 f hfn), ok_bind, idx_of hn1, ok_bind, hfp]
    have hlink : ∀ x, (x ∈ pre.map Prod.fst ∧ ∃ p, parents[x]? = some (some p)) ↔ post.idxOf x < post.idxOf j ∧ ∃ p, parents[x]? = some (some p) := by
      intro x
      constructor
      · rintro ⟨h1, p, h2⟩
        exact ⟨(q5 x (by rw [← t.len]; exact (List.getElem?_eq_some_iff.1 h2).1)).1 h1, p, h2⟩
      · rintro ⟨h1, p, h2⟩
        exact ⟨(q5 x (by rw [← t.len]; exact (List.getElem?_eq_some_iff.1 h2).1)).2 h1, p, h2⟩
    obtain ⟨st', g1, g2⟩ := foldlM_prefix (fun (done : List Nat) (st : CountState) => CountInv parents post
        (fun k => weightSum parents (sizes.map (fun s => if s = 1 then (1 : Int) else 0)) k -
          passed parents ((pre ++ [(j, post.idxOf j)]).map Prod.fst) k)
        (fun u x => (x ∈ pre.map Prod.fst ∧ Nbr a x u) ∨ (u ∈ done ∧ x = j)) (fun x => x ∈ pre.map Prod.fst ∧ ∃ p, parents[x]? = some (some p)) st)
      (visitNeighbor levels j (post.idxOf j) (post.idxOf j - descCount parents j)) nbrs { st with weights := w }
      (by
        simp only [List.not_mem_nil, false_and, or_false]
        refine ⟨by rw [← hinv.lenW]; exact hw', hinv.lenC, hinv.lenN, hinv.lenF, hinv.dsu, ?_, hinv.count, hinv.fresh, hinv.nbr, hinv.freshF, hinv.leaf⟩
        intro k hk
        have h4 := hw'' k
        have h5 := hinv.sum k hk
        simp only
        omega) (by
        intro done u rest' st hdr hst
        have hju : Below parents j u := s.nbr_below ((hn2 u).1 (by rw [hdr]; simp))
        have hdone : ∀ v ∈ done, Below parents j v := fun v hv => s.nbr_below ((hn2 v).1 (by rw [hdr]; simp [hv]))
        obtain ⟨st', r1, r2⟩ := t.visitNeighbor_spec h3 hst hju (by
          rintro v x (⟨h4, h5⟩ | ⟨h4, rfl⟩)
          · have hb := s.nbr_below h5
            exact ⟨hb, le_of_lt ((q5 x (t.below_bound hb).1).1 h4)⟩
          · exact ⟨hdone v h4, le_refl _⟩) hlink
        refine ⟨st', r1, ?_⟩
        have : (fun u' x => (x ∈ pre.map Prod.fst ∧ Nbr a x u') ∨ (u' ∈ done ++ [u] ∧ x = j)) =
            (fun u' x => ((x ∈ pre.map Prod.fst ∧ Nbr a x u') ∨ (u' ∈ done ∧ x = j)) ∨ (u' = u ∧ x = j)) := by
          funext u' x
          simp only [List.mem_append, List.mem_singleton, eq_iff_iff]
          tauto
        rw [this]
        exact r2)
    rw [g1, ok_bind]
    have hseq : (fun u x => (x ∈ pre.map Prod.fst ∧ Nbr a x u) ∨ (u ∈ nbrs ∧ x = j)) =
        (fun u x => x ∈ (pre ++ [(j, post.idxOf j)]).map Prod.fst ∧ Nbr a x u) := by
      funext u x
      simp only [List.map_append, List.map_cons, List.map_nil, List.mem_append, List.mem_singleton, hn2, eq_iff_iff]
      constructor
      · rintro (⟨h4, h5⟩ | ⟨h4, rfl⟩)
        · exact ⟨Or.inl h4, h5⟩
        · exact ⟨Or.inr rfl, h4⟩
      · rintro ⟨h4 | rfl, h5⟩
        · exact Or.inl ⟨h4, h5⟩
        · exact Or.inr ⟨h5, rfl⟩
    rw [hseq] at g2
    cases o with
    | none =>
      refine ⟨st', rfl, ?_⟩
      have : (fun x => x ∈ (pre ++ [(j, post.idxOf j)]).map Prod.fst ∧ ∃ p, parents[x]? = some (some p)) =
          (fun x => x ∈ pre.map Prod.fst ∧ ∃ p, parents[x]? = some (some p)) := by
        funext x
        simp only [List.map_append, List.map_cons, List.map_nil, List.mem_append, List.mem_singleton, eq_iff_iff]
        constructor
        · rintro ⟨h4 | rfl, p, h5⟩
          · exact ⟨h4, p, h5⟩
          · rw [ho] at h5
            simp at h5
        · rintro ⟨h4, h5⟩
          exact ⟨Or.inl h4, h5⟩
      rw [this]
      exact g2
    | some p =>
      obtain ⟨dsu', d1, d2⟩ := g2.dsu.link t.isForest ho
      rw [d1, ok_bind]
      refine ⟨_, rfl, g2.lenW, g2.lenC, g2.lenN, g2.lenF, ?_, g2.sum, g2.count, g2.fresh, g2.nbr, g2.freshF, g2.leaf⟩
      have : (fun x => x ∈ (pre ++ [(j, post.idxOf j)]).map Prod.fst ∧ ∃ p, parents[x]? = some (some p)) =
          (fun x => (x ∈ pre.map Prod.fst ∧ ∃ p, parents[x]? = some (some p)) ∨ x = j) := by
        funext x
        simp only [List.map_append, List.map_cons, List.map_nil, List.mem_append, List.mem_singleton, eq_iff_iff]
        constructor
        · rintro ⟨h4 | rfl, h5⟩
          · exact Or.inl ⟨h4, h5⟩
          · exact Or.inr rfl
        · rintro (⟨h4, h5⟩ | rfl)
          · exact ⟨Or.inl h4, h5⟩
          · exact ⟨Or.inr rfl, p, ho⟩
      rw [this]
      exact d2)
  obtain ⟨w, k1, k2, k3⟩ := t.accumulate_spec (w := st.weights) (by rw [e2.lenW, t.len])
  refine ⟨⟨w.map Int.toNat, st.colCounts, levels, fc⟩, ?_, hc2, by rw [e2.lenC, t.len], ?_, by simp [k2], ?_, h3⟩
  · rw [CholeskyCounts.build]
    simp only
    rw [if_neg (by rw [t.len]; simp), if_neg (by rw [t.length]; simp), h1, ok_bind]
    simp only
    rw [hp1, ok_bind, hs1, ok_bind, hf1, ok_bind, hc1, ok_bind, ha1, ok_bind, e1, ok_bind, k1, ok_bind]
    rfl
  · intro u hu
    have := e2.count u (by rw [t.len]; exact hu)
    rw [this, fillCount]
    congr 3
    ext y
    rw [mem_seenTree, mem_seenTree, List.zipIdx_map_fst]
    constructor
    · rintro ⟨x, ⟨-, h4⟩, h5⟩
      exact ⟨x, h4, h5⟩
    · rintro ⟨x, h4, h5⟩
      exact ⟨x, ⟨t.mem.2 (t.below_bound (s.nbr_below h4)).1, h4⟩, h5⟩
  · intro k hk
    have h4 := e2.sum k (by rw [t.len]; exact hk)
    have h5 : hits parents (fun u x => x ∈ post.zipIdx.map Prod.fst ∧ Nbr a x u) k = hits parents (fun u x => Nbr a x u) k := by
      refine hits_congr fun u => ⟨fun ⟨x, hx, h'⟩ => ⟨x, hx.2, h'⟩, fun ⟨x, hx, h'⟩ => ⟨x, ⟨?_, hx⟩, h'⟩⟩
      rw [List.zipIdx_map_fst]
      exact t.mem.2 (t.below_bound (s.nbr_below hx)).1
    rw [h5, List.zipIdx_map_fst, s.weights_row hs2 hs3 hk] at h4
    simp only
    rw [List.getElem?_map, k3 k hk, h4]
    rfl

end Fiksi
