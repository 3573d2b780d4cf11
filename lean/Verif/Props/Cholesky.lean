import Verif.Proofs.CholeskyStructure
import Verif.Props.EliminationTree
/-!
# The symbolic factorisation (C42, C48)
-/
namespace Fiksi

open Spec

/-- The tree and the post-order that the code computes. -/
theorem exists_setting (a : SparseStructure) (ha : WellFormed a) :
    ∃ parents post, eliminationTree false a = .ok parents ∧ postOrder parents = .ok post ∧ Setting a parents post := by
  obtain ⟨parents, h1, h2⟩ := eliminationTree_spec false ha
  obtain ⟨post, h3, h4⟩ := h2.tree
  exact ⟨parents, post, h1, h3, ha, h2, h4⟩

theorem Setting.inR_iff {a : SparseStructure} {parents : List (Option Nat)} {post : List Nat} (s : Setting a parents post) {k j : Nat}
    (hj : j < a.ncols) : InR a parents k j ↔ Fill (Meet false a) k j := by
  have t := s.tree
  have hmeet : ∀ x y, Meet false a x y ↔ ∃ i, Has a i x ∧ Has a i y := by
    intro x y
    simp [Meet]
  constructor
  · rintro (rfl | ⟨f, ⟨i, h1, h2, h3⟩, h4, h5⟩)
    · exact Or.inl rfl
    · obtain ⟨hkn, -, hkj⟩ := t.below_bound h5
      refine Or.inr ⟨hkj, f, ?_, (hmeet f j).2 ⟨i, h1.1, h2⟩⟩
      rcases h4 with rfl | h4
      · exact .refl le_rfl
      · exact Reach_symm (fun x y h => h.symm) ((s.etree.below_iff hkn).1 h4).2
  · rintro (rfl | ⟨hkj, x, hr, hm⟩)
    · exact Or.inl rfl
    · obtain ⟨i, h1, h2⟩ := (hmeet x j).1 hm
      have hxk := (Reach_bound hr).2
      have hd : Desc parents x k := by
        rcases Nat.lt_or_eq_of_le hxk with hlt | heq
        · exact Or.inr ((s.etree.below_iff (by omega)).2 ⟨hlt, Reach_symm (fun x y h => h.symm) hr⟩)
        · exact Or.inl heq
      obtain ⟨f, hf⟩ := s.exists_first h1
      have hfx := s.first_desc hf h1
      have hxj : Below parents x j := s.row_below h1 h2 (by omega)
      refine Or.inr ⟨f, ⟨i, hf, h2, ?_⟩, hfx.trans hd, t.below_of_lt hd hxj.desc hkj⟩
      have := t.desc_le hfx
      omega

/-- C48: for every well-formed structure the symbolic factorisation succeeds. The structure of `R` is well-formed, in particular the rows of each
column are sorted and free of duplicates, and it has exactly the entries that elimination can produce. -/
theorem C48_structure (a : SparseStructure) (ha : WellFormed a) :
    ∃ parents post counts cs, eliminationTree false a = .ok parents ∧ postOrder parents = .ok post ∧
      CholeskyCounts.build a parents post = .ok counts ∧ CholeskyStructure.build a parents post counts = .ok cs ∧
      cs.lStructure.nrows = a.ncols ∧ cs.lStructure.ncols = a.ncols ∧ WellFormed cs.lStructure ∧
      ∀ k j, j < a.ncols → (Has cs.lStructure k j ↔ Fill (Meet false a) k j) := by
  obtain ⟨parents, post, h1, h2, s⟩ := exists_setting a ha
  obtain ⟨counts, h3, cs, h4, total, rcols, hcols, h5, h6, h7, h8⟩ := s.structure_spec
  have hw : WellFormed (ofColumns a.ncols rcols) := ofColumns_wellFormed h6.rsorted (by
    intro l hl i hi
    obtain ⟨c, hc⟩ := List.mem_iff_getElem?.1 hl
    have hcn : c < a.ncols := by rw [← h6.rlen]; exact (List.getElem?_eq_some_iff.1 hc).1
    rcases (h6.rmem c l hc i).1 hi with rfl | ⟨_, _, _, hb⟩
    · exact hcn
    · exact (s.tree.below_bound hb).1)
  refine ⟨parents, post, counts, cs, h1, h2, h3, h4, by rw [h7]; rfl, by rw [h7]; exact h6.rlen, by rw [h7]; exact hw, ?_⟩
  intro k j hj
  rw [h7, ofColumns_has hw, ← s.inR_iff hj]
  have hl : rcols[j]? = some (rcols[j]'(by rw [h6.rlen]; exact hj)) := List.getElem?_eq_getElem _
  constructor
  · rintro ⟨l, q1, q2⟩
    exact (h6.rmem j l q1 k).1 q2
  · intro h
    exact ⟨_, hl, (h6.rmem j _ hl k).2 h⟩

/-- C48: each column of the structure ends with the diagonal, and the count of the column is the number of its entries. -/
theorem C48_counts (a : SparseStructure) (ha : WellFormed a) :
    ∃ parents post counts cs, eliminationTree false a = .ok parents ∧ postOrder parents = .ok post ∧
      CholeskyCounts.build a parents post = .ok counts ∧ CholeskyStructure.build a parents post counts = .ok cs ∧
      ∀ j, j < a.ncols → ∃ rows, cs.lStructure.indexColumn j = .ok rows ∧ rows.getLast? = some j ∧ counts.colCounts[j]? = some rows.length := by
  obtain ⟨parents, post, h1, h2, s⟩ := exists_setting a ha
  obtain ⟨counts, h3, cs, h4, total, rcols, hcols, h5, h6, h7, h8⟩ := s.structure_spec
  have hw : WellFormed (ofColumns a.ncols rcols) := ofColumns_wellFormed h6.rsorted (by
    intro l hl i hi
    obtain ⟨c, hc⟩ := List.mem_iff_getElem?.1 hl
    have hcn : c < a.ncols := by rw [← h6.rlen]; exact (List.getElem?_eq_some_iff.1 hc).1
    rcases (h6.rmem c l hc i).1 hi with rfl | ⟨_, _, _, hb⟩
    · exact hcn
    · exact (s.tree.below_bound hb).1)
  refine ⟨parents, post, counts, cs, h1, h2, h3, h4, ?_⟩
  intro j hj
  have hl : rcols[j]? = some (rcols[j]'(by rw [h6.rlen]; exact hj)) := List.getElem?_eq_getElem _
  have hcount : counts.colCounts[j]? = (rcols[j]?).map List.length := by rw [← h6.rcounts, List.getElem?_map]
  refine ⟨_, ?_, h6.rlast j _ hl, ?_⟩
  · rw [h7, hw.indexColumn (by rw [show (ofColumns a.ncols rcols).ncols = rcols.length from rfl, h6.rlen]; exact hj), ofColumns_columnRows hl]
  · rw [hcount, hl]
    rfl

open Classical in
/-- C48: the counts of a row and of a column are the numbers of entries that elimination can produce in them. -/
theorem C48_fill_counts (a : SparseStructure) (ha : WellFormed a) :
    ∃ parents post counts, eliminationTree false a = .ok parents ∧ postOrder parents = .ok post ∧ CholeskyCounts.build a parents post = .ok counts ∧
      counts.rowCounts.length = a.ncols ∧ counts.colCounts.length = a.ncols ∧
      (∀ k, k < a.ncols → counts.rowCounts[k]? = some ((Finset.range a.ncols).filter (fun j => Fill (Meet false a) k j)).card) ∧
      ∀ j, j < a.ncols → counts.colCounts[j]? = some ((Finset.range a.ncols).filter (fun k => Fill (Meet false a) k j)).card := by
  obtain ⟨parents, post, h1, h2, s⟩ := exists_setting a ha
  obtain ⟨counts, h3, -, h4, h5, h6, h7, -⟩ := s.counts_spec
  have t := s.tree
  have hfill : ∀ k j, j < a.ncols → (Fill (Meet false a) k j ↔ k = j ∨ k ∈ seenTree parents (fun u x => Nbr a x u) j) := by
    intro k j hj
    rw [← s.inR_iff hj, mem_seenTree]
    rfl
  refine ⟨parents, post, counts, h1, h2, h3, h6, h4, ?_, ?_⟩
  · intro k hk
    rw [h7 k hk, rowFillCount, Nat.add_comm, ← Finset.card_insert_of_notMem (a := k)]
    · congr 2
      ext j
      simp only [Finset.mem_insert, Finset.mem_filter, Finset.mem_range]
      constructor
      · rintro (rfl | ⟨hj, h⟩)
        · exact ⟨hk, (hfill _ _ hk).2 (Or.inl rfl)⟩
        · exact ⟨hj, (hfill k j hj).2 (Or.inr h)⟩
      · rintro ⟨hj, h⟩
        rcases (hfill k j hj).1 h with rfl | h
        · exact Or.inl rfl
        · exact Or.inr ⟨hj, h⟩
    · simp only [Finset.mem_filter, mem_seenTree, not_and, not_exists]
      exact fun _ x _ _ => t.below_irrefl
  · intro j hj
    rw [h5 j hj, fillCount, Nat.add_comm, ← Finset.card_insert_of_notMem (a := j)]
    · congr 2
      ext k
      simp only [Finset.mem_insert, Finset.mem_filter, Finset.mem_range]
      constructor
      · rintro (rfl | h)
        · exact ⟨hj, (hfill _ _ hj).2 (Or.inl rfl)⟩
        · exact ⟨by rw [mem_seenTree] at h; obtain ⟨x, -, -, h⟩ := h; exact (t.below_bound h).1, (hfill k j hj).2 (Or.inr h)⟩
      · rintro ⟨hk, h⟩
        exact (hfill k j hj).1 h
    · simp only [mem_seenTree, not_and, not_exists]
      exact fun x _ _ => t.below_irrefl

open Classical in
/-- C42: the row permutation gives every row a different number, less than the number of rows and of the columns that no row gets. Every column is
the number of exactly one row, real or added; a real row that becomes a column's row has an entry in that column or in one below it in the
elimination tree. -/
theorem C42_rows (a : SparseStructure) (ha : WellFormed a) :
    ∃ parents post counts cs total, eliminationTree false a = .ok parents ∧ postOrder parents = .ok post ∧
      CholeskyCounts.build a parents post = .ok counts ∧ CholeskyStructure.build a parents post counts = .ok cs ∧
      total = a.nrows + ((Finset.range a.ncols).filter (fun c => ∀ i, i < a.nrows → cs.rowPermutation[i]? ≠ some (some c))).card ∧
      (∀ i, i < a.nrows → ∃ p, cs.rowPermutation[i]? = some (some p) ∧ p < total) ∧
      (∀ i i' p : Nat, cs.rowPermutation[i]? = some (some p) → cs.rowPermutation[i']? = some (some p) → i = i') ∧
      (∀ c, c < a.ncols → ∃ r, r < total ∧ cs.rowPermutation[r]? = some (some c)) ∧
      (∀ i c, i < a.nrows → cs.rowPermutation[i]? = some (some c) → c < a.ncols → ∃ f, Has a i f ∧ (f = c ∨ Below parents f c)) := by
  obtain ⟨parents, post, h1, h2, s⟩ := exists_setting a ha
  obtain ⟨counts, h3, cs, h4, total, rcols, hcols, h5, h6, h7, h8⟩ := s.structure_spec
  refine ⟨parents, post, counts, cs, total, h1, h2, h3, h4, ?_, h5.real, h5.inj, ?_, ?_⟩
  · have hcard : (Finset.Ico a.nrows total).card =
        ((Finset.range a.ncols).filter (fun c => ∀ i, i < a.nrows → cs.rowPermutation[i]? ≠ some (some c))).card := by
      refine Finset.card_bij (fun r _ => (cs.rowPermutation[r]?.getD none).getD 0) ?_ ?_ ?_
      · intro r hr
        rw [Finset.mem_Ico] at hr
        obtain ⟨c, hc, hrc⟩ := h5.range r hr.1 hr.2
        rw [Finset.mem_filter, Finset.mem_range, hrc]
        simp only [Option.getD_some]
        refine ⟨hc, fun i hi hic => ?_⟩
        have := h5.inj _ _ _ hrc hic
        omega
      · intro r hr r' hr' heq
        rw [Finset.mem_Ico] at hr hr'
        obtain ⟨c, hc, hrc⟩ := h5.range r hr.1 hr.2
        obtain ⟨c', hc', hrc'⟩ := h5.range r' hr'.1 hr'.2
        rw [hrc, hrc'] at heq
        simp only [Option.getD_some] at heq
        subst heq
        exact h5.inj _ _ _ hrc hrc'
      · intro c hc
        rw [Finset.mem_filter, Finset.mem_range] at hc
        obtain ⟨r, hr⟩ := h5.owner c hc.1
        have hrt := h5.used r c hr
        refine ⟨r, ?_, ?_⟩
        · rw [Finset.mem_Ico]
          refine ⟨?_, hrt⟩
          by_contra hlt
          exact hc.2 r (by omega) hr
        · rw [hr]
          rfl
    rw [Nat.card_Ico] at hcard
    have := h5.lo
    omega
  · intro c hc
    obtain ⟨r, hr⟩ := h5.owner c hc
    exact ⟨r, h5.used r c hr, hr⟩
  · intro i c hi hic hc
    obtain ⟨f, q1, q2⟩ := h5.anc i c hi hic hc
    exact ⟨f, q1.1, q2⟩

/-- C42: if every column can be given a row of its own in which it has an entry, no rows are added, and the row permutation permutes the rows. -/
theorem C42_full_rank (a : SparseStructure) (ha : WellFormed a) (hr : FullRank a) :
    ∃ parents post counts cs, eliminationTree false a = .ok parents ∧ postOrder parents = .ok post ∧
      CholeskyCounts.build a parents post = .ok counts ∧ CholeskyStructure.build a parents post counts = .ok cs ∧
      (∀ i, i < a.nrows → ∃ p, cs.rowPermutation[i]? = some (some p) ∧ p < a.nrows) ∧
      (∀ p, p < a.nrows → ∃ i, i < a.nrows ∧ cs.rowPermutation[i]? = some (some p)) ∧
      (∀ i i' p : Nat, cs.rowPermutation[i]? = some (some p) → cs.rowPermutation[i']? = some (some p) → i = i') := by
  obtain ⟨parents, post, h1, h2, s⟩ := exists_setting a ha
  obtain ⟨counts, h3, cs, h4, total, rcols, hcols, h5, h6, h7, h8⟩ := s.structure_spec
  have htotal := h5.total_eq s hr
  subst htotal
  refine ⟨parents, post, counts, cs, h1, h2, h3, h4, h5.real, ?_, h5.inj⟩
  have hreal := h5.real
  choose! g hg hg' using hreal
  have hsurj : Set.SurjOn g (Finset.range a.nrows) (Finset.range a.nrows) := by
    refine Finset.surjOn_of_injOn_of_card_le g ?_ ?_ le_rfl
    · intro i hi
      simp only [Finset.coe_range, Set.mem_Iio] at hi ⊢
      exact hg' i hi
    · intro i hi i' hi' heq
      simp only [Finset.coe_range, Set.mem_Iio] at hi hi'
      have q1 := hg i hi
      have q2 := hg i' hi'
      rw [heq] at q1
      exact h5.inj _ _ _ q1 q2
  intro p hp
  obtain ⟨i, hi, hip⟩ := hsurj (by simpa using hp : p ∈ ((Finset.range a.nrows : Finset Nat) : Set Nat))
  simp only [Finset.coe_range, Set.mem_Iio] at hi
  exact ⟨i, hi, by rw [← hip]; exact hg i hi⟩

/-- A structure with columns `{0, 2}`, `{1, 3}`, `{0, 1}`, `{2, 3, 4}`: eliminating fills in, and the row subtrees have several leaves. -/
def choleskyExample : SparseStructure := ⟨5, 4, [0, 2, 1, 3, 0, 1, 2, 3, 4], [0, 2, 4, 6, 9]⟩

theorem choleskyExample_ok : WellFormed choleskyExample :=
  (C32_accepted_iff 5 4 [0, 2, 1, 3, 0, 1, 2, 3, 4] [0, 2, 4, 6, 9] _).1 (by decide +kernel) |>.2

theorem choleskyExample_full : FullRank choleskyExample := by
  refine ⟨fun c => if c = 0 then 2 else if c = 1 then 3 else if c = 2 then 0 else 4, ?_, ?_⟩
  · intro c hc
    have hc : c < 4 := hc
    interval_cases c
    · exact ⟨1, 0, 2, rfl, rfl, by omega, by omega, rfl⟩
    · exact ⟨3, 2, 4, rfl, rfl, by omega, by omega, rfl⟩
    · exact ⟨4, 4, 6, rfl, rfl, by omega, by omega, rfl⟩
    · exact ⟨8, 6, 9, rfl, rfl, by omega, by omega, rfl⟩
  · intro c c' hc hc' h
    have hc : c < 4 := hc
    have hc' : c' < 4 := hc'
    interval_cases c <;> interval_cases c' <;> simp_all

/-- The hypotheses of C42 and C48 are met by a structure with fill, an assignment that follows the tree, and several leaves. -/
theorem C48_case : WellFormed choleskyExample ∧ FullRank choleskyExample ∧ eliminationTree false choleskyExample = .ok [some 2, some 2, some 3, none] ∧
    (do
      let counts ← CholeskyCounts.build choleskyExample [some 2, some 2, some 3, none] [0, 1, 2, 3]
      let cs ← CholeskyStructure.build choleskyExample [some 2, some 2, some 3, none] [0, 1, 2, 3] counts
      pure (counts.colCounts, cs.lStructure, cs.rowPermutation.take 5)) =
      .ok ([1, 1, 3, 4], ⟨4, 4, [0, 1, 0, 1, 2, 0, 1, 2, 3], [0, 1, 2, 5, 9]⟩, [some 0, some 1, some 3, some 2, some 4]) :=
  ⟨choleskyExample_ok, choleskyExample_full, by decide +kernel, by decide +kernel⟩

/-- The added rows of C42 occur: two columns with entries in one row only. -/
theorem C42_case : (do
      let parents ← eliminationTree false ⟨2, 2, [0, 0], [0, 1, 2]⟩
      let post ← postOrder parents
      let counts ← CholeskyCounts.build ⟨2, 2, [0, 0], [0, 1, 2]⟩ parents post
      let cs ← CholeskyStructure.build ⟨2, 2, [0, 0], [0, 1, 2]⟩ parents post counts
      pure cs.rowPermutation) = .ok [some 0, some 2, some 1, none] := by decide +kernel

end Fiksi
