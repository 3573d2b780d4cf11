import Verif.Proofs.RowAssign
import Verif.Proofs.Columns
/-!
# The structure of the factor and of the Householder vectors
-/
namespace Fiksi

open Spec

/-- The last step of the way up. -/
theorem Spec.Below.last {parents : List (Option Nat)} {x j : Nat} (h : Below parents x j) :
    ∃ k, Desc parents x k ∧ parents[k]? = some (some j) := by
  induction h with
  | parent hp => exact ⟨_, .refl _, hp⟩
  | step hp _ ih =>
    obtain ⟨k, h1, h2⟩ := ih
    exact ⟨k, (Below.parent hp).desc.trans h1, h2⟩

/-- The entries of `marker` that are marked for column `j` are those with `L`. -/
def MarkOk (N j : Nat) (L : Nat → Prop) (marker : List Nat) : Prop :=
  marker.length = N ∧ ∀ x v : Nat, marker[x]? = some v → v ≤ j + 1 ∧ (v = j + 1 ↔ L x)

theorem MarkOk.congr {N j : Nat} {L L' : Nat → Prop} {marker : List Nat} (h : MarkOk N j L marker) (hL : ∀ x, L x ↔ L' x) : MarkOk N j L' marker :=
  ⟨h.1, fun x v hx => ⟨(h.2 x v hx).1, (h.2 x v hx).2.trans (hL x)⟩⟩

theorem MarkOk.get {N j : Nat} {L : Nat → Prop} {marker : List Nat} (h : MarkOk N j L marker) {x : Nat} (hx : x < N) :
    ∃ v, marker[x]? = some v ∧ v ≤ j + 1 ∧ (v = j + 1 ↔ L x) := by
  have hv : marker[x]? = some (marker[x]'(by rw [h.1]; exact hx)) := List.getElem?_eq_getElem _
  exact ⟨_, hv, h.2 x _ hv⟩

theorem MarkOk.set {N j : Nat} {L : Nat → Prop} {marker : List Nat} (h : MarkOk N j L marker) {x : Nat} (hx : x < N) :
    MarkOk N j (fun y => L y ∨ y = x) (marker.set x (j + 1)) := by
  refine ⟨by simp [h.1], ?_⟩
  intro y v hy
  by_cases hxy : x = y
  · subst hxy
    rw [List.getElem?_set_self (by rw [h.1]; exact hx)] at hy
    simp only [Option.some.injEq] at hy
    subst hy
    simp
  · rw [List.getElem?_set_ne hxy] at hy
    obtain ⟨h1, h2⟩ := h.2 y v hy
    refine ⟨h1, h2.trans ?_⟩
    simp [Ne.symm hxy]

theorem Tree.markPath_spec {parents : List (Option Nat)} {n : Nat} {post : List Nat} (t : Tree parents n post) {N j : Nat} (hN : n ≤ N)
    (hj : j < n) {S0 H : List Nat} (hclosed : ∀ x ∈ S0, ∀ y, Below parents x y → Below parents y j → y ∈ S0) (hH : ∀ x ∈ H, j ≤ x) {fuel : Nat} :
    ∀ (k : Nat) (stack marker : List Nat), Desc parents k j → n - k + 1 ≤ fuel → stack.Nodup → (∀ x ∈ S0, x ∈ stack) →
      (∀ x ∈ stack, x ∈ S0 ∨ Below parents x k) → MarkOk N j (fun x => x ∈ stack ∨ x ∈ H) marker →
      ∃ stack' marker', markPath parents j fuel (some k) stack marker = .ok (stack', marker') ∧ stack'.Nodup ∧
        (∀ x, x ∈ stack' ↔ x ∈ stack ∨ (Desc parents k x ∧ Below parents x j)) ∧ MarkOk N j (fun x => x ∈ stack' ∨ x ∈ H) marker' := by
  induction fuel with
  | zero => intro k stack marker _ hf; omega
  | succ fuel ih =>
    intro k stack marker hkj hf hnd hsub hst hm
    rw [markPath]
    rcases hkj with rfl | hkj
    · rw [if_neg (by omega)]
      refine ⟨stack, marker, rfl, hnd, ?_, hm⟩
      intro x
      constructor
      · exact Or.inl
      · rintro (h | ⟨h1, h2⟩)
        · exact h
        · exact absurd (h1.below h2) t.below_irrefl
    · obtain ⟨hkn, -, hlt⟩ := t.below_bound hkj
      rw [if_pos hlt]
      obtain ⟨v, hv1, hv2, hv3⟩ := hm.get (x := k) (by omega)
      rw [idx_of hv1, ok_bind]
      by_cases hmark : v = j + 1
      · rw [if_neg (by simpa using hmark)]
        have hkS : k ∈ S0 := by
          rcases hv3.1 hmark with h1 | h1
          · rcases hst k h1 with h2 | h2
            · exact h2
            · exact absurd h2 t.below_irrefl
          · have := hH k h1
            omega
        refine ⟨stack, marker, rfl, hnd, ?_, hm⟩
        intro x
        constructor
        · exact Or.inl
        · rintro (h | ⟨h1 | h1, h2⟩)
          · exact h
          · exact hsub x (h1 ▸ hkS)
          · exact hsub x (hclosed k hkS x h1 h2)
      · rw [if_pos hmark, setIdx_of _ (by rw [hm.1]; omega), ok_bind]
        obtain ⟨p, hp, hpj⟩ := hkj.exists_parent
        rw [idx_of hp, ok_bind]
        have hkp : Below parents k p := .parent hp
        have hknot : k ∉ stack := fun h => hmark (hv3.2 (Or.inl h))
        obtain ⟨stack', marker', e1, e2, e3, e4⟩ := ih p (k :: stack) (marker.set k (j + 1)) hpj (by
            have := (t.below_bound hkp).2.2
            omega) (List.nodup_cons.2 ⟨hknot, hnd⟩) (fun x hx => List.mem_cons_of_mem _ (hsub x hx)) (by
            intro x hx
            rcases List.mem_cons.1 hx with rfl | hx
            · exact Or.inr hkp
            · rcases hst x hx with h1 | h1
              · exact Or.inl h1
              · exact Or.inr (h1.trans_desc hkp.desc)) ((hm.set (by omega)).congr (by
            intro x
            rw [List.mem_cons]
            tauto))
        refine ⟨stack', marker', e1, e2, ?_, e4⟩
        intro x
        rw [e3, List.mem_cons]
        constructor
        · rintro ((rfl | h1) | ⟨h1, h2⟩)
          · exact Or.inr ⟨.refl x, hkj⟩
          · exact Or.inl h1
          · exact Or.inr ⟨hkp.desc.trans h1, h2⟩
        · rintro (h1 | ⟨rfl | h1, h2⟩)
          · exact Or.inl (Or.inr h1)
          · exact Or.inl (Or.inl rfl)
          · exact Or.inr ⟨h1.via_parent hp, h2⟩

/-- Adding a row to a Householder vector. -/
theorem addHRow_spec {N j : Nat} {stack hRows marker : List Nat} (hnd : hRows.Nodup) (hm : MarkOk N j (fun x => x ∈ stack ∨ x ∈ hRows) marker)
    {row : Nat} (hrow : row < N) :
    ∃ hRows' marker', addHRow j (hRows, marker) row = .ok (hRows', marker') ∧ hRows'.Nodup ∧
      (∀ x, x ∈ hRows' ↔ x ∈ hRows ∨ (x = row ∧ row ∉ stack)) ∧ MarkOk N j (fun x => x ∈ stack ∨ x ∈ hRows') marker' := by
  obtain ⟨v, hv1, hv2, hv3⟩ := hm.get hrow
  rw [addHRow]
  simp only
  rw [idx_of hv1, ok_bind]
  by_cases hlt : v < j + 1
  · rw [if_pos hlt, setIdx_of _ (by rw [hm.1]; exact hrow), ok_bind]
    have hnot : ¬ (row ∈ stack ∨ row ∈ hRows) := fun h => by have := hv3.2 h; omega
    rw [not_or] at hnot
    refine ⟨_, _, rfl, ?_, ?_, ?_⟩
    · rw [List.nodup_append]
      refine ⟨hnd, by simp, ?_⟩
      intro x hx y hy hxy
      rw [List.mem_singleton] at hy
      exact hnot.2 (hy ▸ hxy ▸ hx)
    · intro x
      rw [List.mem_append, List.mem_singleton]
      constructor
      · rintro (h | h)
        · exact Or.inl h
        · exact Or.inr ⟨h, hnot.1⟩
      · rintro (h | ⟨h, -⟩)
        · exact Or.inl h
        · exact Or.inr h
    · refine (hm.set hrow).congr ?_
      intro x
      rw [List.mem_append, List.mem_singleton]
      tauto
  · rw [if_neg hlt]
    have hin : row ∈ stack ∨ row ∈ hRows := hv3.1 (by omega)
    refine ⟨hRows, marker, rfl, hnd, ?_, hm⟩
    intro x
    constructor
    · exact Or.inl
    · rintro (h | ⟨rfl, h⟩)
      · exact h
      · rcases hin with h1 | h1
        · exact absurd h1 h
        · exact h1

/-- The factor has an entry in row `k` and column `j`. -/
def InR (a : SparseStructure) (parents : List (Option Nat)) (k j : Nat) : Prop := k = j ∨ ∃ f, Nbr a f j ∧ Desc parents f k ∧ Below parents k j

/-- The Householder vector of column `j` has an entry in the (permuted) row `x`. -/
def HSet (a : SparseStructure) (parents rp : List (Option Nat)) (j x : Nat) : Prop :=
  x = j ∨ (j < x ∧ ∃ i f, rp[i]? = some (some x) ∧ FirstCol a i f ∧ Desc parents f j)

section
variable {a : SparseStructure} {parents : List (Option Nat)} {post : List Nat} (s : Setting a parents post)
include s

/-- What is true after some entries of column `j`. -/
structure ColumnInv (a : SparseStructure) (parents rp : List (Option Nat)) (j : Nat) (done : List Nat) (st : ColumnState) : Prop where
  nodup : st.stack.Nodup
  stack : ∀ x, x ∈ st.stack ↔ ∃ i ∈ done, ∃ f, FirstCol a i f ∧ Desc parents f x ∧ Below parents x j
  hnodup : st.hRows.Nodup
  hRows : ∀ x, x ∈ st.hRows ↔ x = j ∨ (j < x ∧ ∃ i ∈ done, rp[i]? = some (some x))
  mark : MarkOk (a.nrows + a.ncols) j (fun x => x ∈ st.stack ∨ x ∈ st.hRows) st.marker

theorem Setting.columnEntry_spec {fc rp : List (Option Nat)} {total : Nat} (hfc : FirstColumns a fc) (hrp : RowAssignment a parents rp total)
    {j : Nat} {done : List Nat} {st : ColumnState} (h : ColumnInv a parents rp j done st) {i : Nat} (hij : Has a i j) :
    ∃ st', columnEntry parents fc rp j st i = .ok st' ∧ ColumnInv a parents rp j (done ++ [i]) st' := by
  have t := s.tree
  obtain ⟨hi, hj⟩ := hij.lt s.wf
  obtain ⟨f, hf⟩ := s.exists_first hij
  have hfj := s.first_desc hf hij
  obtain ⟨stack', marker', e1, e2, e3, e4⟩ := t.markPath_spec (N := a.nrows + a.ncols) (j := j) (S0 := st.stack) (H := st.hRows) (by omega) hj
    (by
      intro x hx y hxy hyj
      obtain ⟨i', h1, f', h2, h3, h4⟩ := (h.stack x).1 hx
      exact (h.stack y).2 ⟨i', h1, f', h2, h3.trans hxy.desc, hyj⟩)
    (by
      intro x hx
      rcases (h.hRows x).1 hx with rfl | ⟨h1, -⟩
      · exact le_rfl
      · omega) (fuel := parents.length + 1) f st.stack st.marker hfj (by rw [t.len]; omega) h.nodup (fun _ hx => hx) (fun _ hx => Or.inl hx) h.mark
  obtain ⟨p, hp, hpt⟩ := hrp.real i hi
  have hhi := hrp.hi
  rw [columnEntry, idx_of (hfc.get hf hi), ok_bind, e1, ok_bind]
  simp only
  rw [idx_of hp, ok_bind]
  simp only
  have hstack : ∀ x, x ∈ stack' ↔ ∃ i' ∈ done ++ [i], ∃ f, FirstCol a i' f ∧ Desc parents f x ∧ Below parents x j := by
    intro x
    rw [e3, h.stack]
    constructor
    · rintro (⟨i', h1, h2⟩ | ⟨h1, h2⟩)
      · exact ⟨i', List.mem_append_left _ h1, h2⟩
      · exact ⟨i, by simp, f, hf, h1, h2⟩
    · rintro ⟨i', h1, f', h2, h3⟩
      rcases List.mem_append.1 h1 with h1 | h1
      · exact Or.inl ⟨i', h1, f', h2, h3⟩
      · rw [List.mem_singleton] at h1
        subst h1
        rw [FirstCol_unique hf h2]
        exact Or.inr h3
  by_cases hjp : j < p
  · obtain ⟨hRows', marker'', g1, g2, g3, g4⟩ := addHRow_spec h.hnodup e4 (row := p) (by omega)
    rw [addHRowIf, if_pos hjp, g1, ok_bind]
    refine ⟨_, rfl, e2, hstack, g2, ?_, g4⟩
    intro x
    rw [g3, h.hRows]
    constructor
    · rintro ((h1 | ⟨h1, i', h2, h3⟩) | ⟨rfl, h1⟩)
      · exact Or.inl h1
      · exact Or.inr ⟨h1, i', List.mem_append_left _ h2, h3⟩
      · exact Or.inr ⟨hjp, i, by simp, hp⟩
    · rintro (h1 | ⟨h1, i', h2, h3⟩)
      · exact Or.inl (Or.inl h1)
      · rcases List.mem_append.1 h2 with h2 | h2
        · exact Or.inl (Or.inr ⟨h1, i', h2, h3⟩)
        · rw [List.mem_singleton] at h2
          subst h2
          rw [hp] at h3
          simp only [Option.some.injEq] at h3
          refine Or.inr ⟨h3.symm, ?_⟩
          intro hin
          obtain ⟨_, _, _, _, _, hb⟩ := (hstack p).1 hin
          have := (t.below_bound hb).2.2
          omega
  · rw [addHRowIf, if_neg hjp, ok_bind]
    refine ⟨_, rfl, e2, hstack, h.hnodup, ?_, e4⟩
    intro x
    simp only
    rw [h.hRows]
    constructor
    · rintro (h1 | ⟨h1, i', h2, h3⟩)
      · exact Or.inl h1
      · exact Or.inr ⟨h1, i', List.mem_append_left _ h2, h3⟩
    · rintro (h1 | ⟨h1, i', h2, h3⟩)
      · exact Or.inl h1
      · rcases List.mem_append.1 h2 with h2 | h2
        · exact Or.inr ⟨h1, i', h2, h3⟩
        · rw [List.mem_singleton] at h2
          subst h2
          rw [hp] at h3
          simp only [Option.some.injEq] at h3
          omega

/-- The rows of the children that are left are rows of the parent. -/
theorem Setting.hset_step {rp : List (Option Nat)} {total : Nat} (hrp : RowAssignment a parents rp total) {j x : Nat} (hj : j < a.ncols) :
    HSet a parents rp j x ↔ (x = j ∨ (j < x ∧ ∃ i, Has a i j ∧ rp[i]? = some (some x))) ∨
      (¬ (∃ f, Nbr a f j ∧ Desc parents f x ∧ Below parents x j) ∧ ∃ k, parents[k]? = some (some j) ∧ HSet a parents rp k x) := by
  have t := s.tree
  constructor
  · rintro (rfl | ⟨hjx, i, f, h1, h2, h3⟩)
    · exact Or.inl (Or.inl rfl)
    · rcases h3 with rfl | h3
      · exact Or.inl (Or.inr ⟨hjx, i, h2.1, h1⟩)
      · obtain ⟨k, hk1, hk2⟩ := h3.last
        refine Or.inr ⟨?_, k, hk2, Or.inr ⟨?_, i, f, h1, h2, hk1⟩⟩
        · rintro ⟨f', -, -, hb⟩
          have := (t.below_bound hb).2.2
          omega
        · have := (t.below_bound (Below.parent hk2)).2.2
          omega
  · rintro ((h1 | ⟨h1, i, h2, h3⟩) | ⟨h1, k, h2, h3⟩)
    · exact Or.inl h1
    · obtain ⟨f, hf⟩ := s.exists_first h2
      exact Or.inr ⟨h1, i, f, h3, hf, s.first_desc hf h2⟩
    · have hkj : Below parents k j := .parent h2
      rcases h3 with rfl | ⟨h3, i, f, h4, h5, h6⟩
      · obtain ⟨i, f, q1, q2, q3⟩ := s.child_src h2
        refine absurd ⟨f, ⟨i, q2, q1, ?_⟩, q3, hkj⟩ h1
        have := t.desc_le q3
        have := (t.below_bound hkj).2.2
        omega
      · have hxj : j ≤ x := by
          by_cases hxn : x < a.ncols
          · obtain ⟨f', q1, q2⟩ := hrp.anc i x (h5.1.lt s.wf).1 h4 hxn
            rw [FirstCol_unique q1 h5] at q2
            exact t.desc_le ((t.below_of_lt h6 q2 h3).via_parent h2)
          · omega
        rcases Nat.lt_or_eq_of_le hxj with hlt | heq
        · exact Or.inr ⟨hlt, i, f, h4, h5, h6.trans hkj.desc⟩
        · exact Or.inl heq.symm

/-- Popping the stack. -/
theorem Setting.popColumns_spec {rp : List (Option Nat)} {total : Nat} (hrp : RowAssignment a parents rp total) {j : Nat} (hj : j < a.ncols)
    {hAll : List (List Nat)} (hall : ∀ k, k < j → ∃ l, hAll[k]? = some l ∧ ∀ x, x ∈ l ↔ HSet a parents rp k x) {cs : ColumnState}
    (h : ColumnInv a parents rp j (columnRows a j) cs) {rowIndices : List Nat} {start : Nat} (hlen : start + cs.stack.length ≤ rowIndices.length) :
    ∃ rowIndices' hRows marker, cs.stack.foldlM (popColumn parents j hAll) (rowIndices, start, cs.hRows, cs.marker) =
        .ok (rowIndices', start + cs.stack.length, hRows, marker) ∧ rowIndices'.length = rowIndices.length ∧
      rowIndices'.take (start + cs.stack.length) = rowIndices.take start ++ cs.stack ∧ hRows.Nodup ∧ (∀ x, x ∈ hRows ↔ HSet a parents rp j x) ∧
      marker.length = a.nrows + a.ncols ∧ ∀ x ∈ marker, x ≤ j + 1 := by
  have t := s.tree
  have hstack : ∀ x, x ∈ cs.stack ↔ ∃ f, Nbr a f j ∧ Desc parents f x ∧ Below parents x j := by
    intro x
    rw [h.stack]
    constructor
    · rintro ⟨i, h1, f, h2, h3, h4⟩
      refine ⟨f, ⟨i, h2, (s.wf.mem_columnRows hj).1 h1, ?_⟩, h3, h4⟩
      exact (t.below_bound (h3.below h4)).2.2
    · rintro ⟨f, ⟨i, h1, h2, h3⟩, h4, h5⟩
      exact ⟨i, (s.wf.mem_columnRows hj).2 h2, f, h1, h4, h5⟩
  obtain ⟨⟨rowIndices', stop, hRows, marker⟩, e1, e2, e3, e4, e5, e6, e7⟩ := foldlM_prefix
    (fun (done : List Nat) (r : List Nat × Nat × List Nat × List Nat) => r.1.length = rowIndices.length ∧ r.2.1 = start + done.length ∧
      r.1.take (start + done.length) = rowIndices.take start ++ done ∧ r.2.2.1.Nodup ∧
      (∀ x, x ∈ r.2.2.1 ↔ x ∈ cs.hRows ∨ (x ∉ cs.stack ∧ ∃ k ∈ done, parents[k]? = some (some j) ∧ HSet a parents rp k x)) ∧
      MarkOk (a.nrows + a.ncols) j (fun x => x ∈ cs.stack ∨ x ∈ r.2.2.1) r.2.2.2)
    (popColumn parents j hAll) cs.stack (rowIndices, start, cs.hRows, cs.marker)
    ⟨rfl, rfl, by simp, h.hnodup, by simp, h.mark⟩ (by
    rintro done k rest ⟨ri, stop, hRows, marker⟩ hl ⟨p1, p2, p3, p4, p5, p6⟩
    simp only at p1 p2 p3 p4 p5 p6
    have hkst : k ∈ cs.stack := by rw [hl]; simp
    obtain ⟨f, -, -, hkj⟩ := (hstack k).1 hkst
    obtain ⟨hkn, -, hklt⟩ := t.below_bound hkj
    have hlt : stop < ri.length := by
      rw [p1, p2]
      rw [hl] at hlen
      simp only [List.length_append, List.length_cons] at hlen
      omega
    have htake : (ri.set stop k).take (start + (done ++ [k]).length) = rowIndices.take start ++ (done ++ [k]) := by
      rw [List.length_append, List.length_singleton, ← Nat.add_assoc, ← p2, List.take_succ, List.getElem?_set_self hlt, List.take_set_of_le le_rfl,
        p2, p3]
      simp
    rw [popColumn]
    simp only
    rw [setIdx_of _ hlt, ok_bind]
    obtain ⟨op, hop⟩ : ∃ op, parents[k]? = some op := ⟨_, List.getElem?_eq_getElem (by rw [t.len]; exact hkn)⟩
    rw [idx_of hop, ok_bind, carryRows]
    by_cases hpj : op = some j
    · rw [if_pos hpj]
      subst hpj
      obtain ⟨rows, hrows1, hrows2⟩ := hall k hklt
      obtain ⟨⟨hRows', marker'⟩, g1, g2, g3, g4⟩ := foldlM_prefix (fun (seen : List Nat) (r : List Nat × List Nat) => r.1.Nodup ∧
          (∀ x, x ∈ r.1 ↔ x ∈ hRows ∨ (x ∈ seen ∧ x ∉ cs.stack)) ∧ MarkOk (a.nrows + a.ncols) j (fun x => x ∈ cs.stack ∨ x ∈ r.1) r.2)
        (addHRow j) rows (hRows, marker) ⟨p4, by simp, p6⟩ (by
        rintro seen row rest' ⟨hr, mk⟩ hl' ⟨q1, q2, q3⟩
        have hrowb : row < a.nrows + a.ncols := by
          have hhi := hrp.hi
          rcases (hrows2 row).1 (by rw [hl']; simp) with rfl | ⟨-, i, f', w1, w2, -⟩
          · omega
          · obtain ⟨p, w3, w4⟩ := hrp.real i (w2.1.lt s.wf).1
            rw [w1] at w3
            simp only [Option.some.injEq] at w3
            omega
        obtain ⟨hr', mk', w1, w2, w3, w4⟩ := addHRow_spec q1 q3 hrowb
        refine ⟨_, w1, w2, ?_, w4⟩
        intro x
        simp only
        rw [w3, q2, List.mem_append, List.mem_singleton]
        constructor
        · rintro ((h1 | ⟨h1, h2⟩) | ⟨h1, h2⟩)
          · exact Or.inl h1
          · exact Or.inr ⟨Or.inl h1, h2⟩
          · exact Or.inr ⟨Or.inr h1, h1 ▸ h2⟩
        · rintro (h1 | ⟨h1 | h1, h2⟩)
          · exact Or.inl (Or.inl h1)
          · exact Or.inl (Or.inr ⟨h1, h2⟩)
          · exact Or.inr ⟨h1, h1 ▸ h2⟩)
      rw [idx_of hrows1, ok_bind, g1, ok_bind]
      refine ⟨_, rfl, by simp [p1], by simp [p2]; omega, htake, g2, ?_, g4⟩
      intro x
      simp only at g3 ⊢
      rw [g3, p5]
      constructor
      · rintro ((h1 | ⟨h1, k', h2, h3⟩) | ⟨h1, h2⟩)
        · exact Or.inl h1
        · exact Or.inr ⟨h1, k', List.mem_append_left _ h2, h3⟩
        · exact Or.inr ⟨h2, k, by simp, hop, (hrows2 x).1 h1⟩
      · rintro (h1 | ⟨h1, k', h2, h3, h4⟩)
        · exact Or.inl (Or.inl h1)
        · rcases List.mem_append.1 h2 with h2 | h2
          · exact Or.inl (Or.inr ⟨h1, k', h2, h3, h4⟩)
          · rw [List.mem_singleton] at h2
            subst h2
            exact Or.inr ⟨(hrows2 x).2 h4, h1⟩
    · rw [if_neg hpj, pure_eq_ok, ok_bind]
      refine ⟨_, rfl, by simp [p1], by simp [p2]; omega, htake, p4, ?_, p6⟩
      intro x
      simp only
      rw [p5]
      constructor
      · rintro (h1 | ⟨h1, k', h2, h3⟩)
        · exact Or.inl h1
        · exact Or.inr ⟨h1, k', List.mem_append_left _ h2, h3⟩
      · rintro (h1 | ⟨h1, k', h2, h3, h4⟩)
        · exact Or.inl h1
        · rcases List.mem_append.1 h2 with h2 | h2
          · exact Or.inr ⟨h1, k', h2, h3, h4⟩
          · rw [List.mem_singleton] at h2
            subst h2
            rw [hop] at h3
            exact absurd (Option.some.inj h3) hpj)
  simp only at e2 e3 e4 e5 e6 e7
  refine ⟨rowIndices', hRows, marker, by rw [e1, e3], e2, e4, e5, ?_, e7.1, ?_⟩
  · intro x
    rw [e6, s.hset_step hrp hj, h.hRows, hstack]
    have h1 : (∃ i ∈ columnRows a j, rp[i]? = some (some x)) ↔ ∃ i, Has a i j ∧ rp[i]? = some (some x) := by
      constructor
      · rintro ⟨i, q1, q2⟩
        exact ⟨i, (s.wf.mem_columnRows hj).1 q1, q2⟩
      · rintro ⟨i, q1, q2⟩
        exact ⟨i, (s.wf.mem_columnRows hj).2 q1, q2⟩
    have h2 : (∃ k ∈ cs.stack, parents[k]? = some (some j) ∧ HSet a parents rp k x) ↔ ∃ k, parents[k]? = some (some j) ∧ HSet a parents rp k x := by
      constructor
      · rintro ⟨k, -, q⟩
        exact ⟨k, q⟩
      · rintro ⟨k, q1, q2⟩
        refine ⟨k, ?_, q1, q2⟩
        obtain ⟨i, f, w1, w2, w3⟩ := s.child_src q1
        rw [hstack]
        refine ⟨f, ⟨i, w2, w1, ?_⟩, w3, .parent q1⟩
        have := t.desc_le w3
        have := (t.below_bound (Below.parent q1)).2.2
        omega
    rw [h1, h2]
  · intro x hx
    obtain ⟨p, hp⟩ := List.mem_iff_getElem?.1 hx
    exact (e7.2 p x hp).1

end

end Fiksi
