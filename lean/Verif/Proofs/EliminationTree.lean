import Verif.Model.EliminationTree
import Verif.Spec.EliminationTree
import Verif.Proofs.Levels
import Verif.Proofs.PermuteColumns
/-!
# The elimination tree
-/
namespace Fiksi

open Spec

/-- Parents are larger than their children. -/
def Up (parents : List (Option Nat)) : Prop := ∀ (k p : Nat), parents[k]? = some (some p) → k < p

theorem Below_up {parents : List (Option Nat)} (h : Up parents) {x y : Nat} (hb : Below parents x y) : x < y := by
  induction hb with
  | parent hp => exact h _ _ hp
  | step hp _ ih => exact lt_trans (h _ _ hp) ih

theorem Below_mono {parents parents' : List (Option Nat)} (h : ∀ (k p : Nat), parents[k]? = some (some p) → parents'[k]? = some (some p)) {x y : Nat}
    (hb : Below parents x y) : Below parents' x y := by
  induction hb with
  | parent hp => exact .parent (h _ _ hp)
  | step hp _ ih => exact .step (h _ _ hp) ih

/-- What is true of the two forests during the walk; `pending` are the columns on the walk so far. -/
structure ClimbInv (meet : Nat → Nat → Prop) (n col : Nat) (pending : List Nat) (parents ancestors : List (Option Nat)) : Prop where
  lenP : parents.length = n
  lenA : ancestors.length = n
  up : ∀ (k p : Nat), parents[k]? = some (some p) → k < p ∧ p ≤ col
  root : ∀ k : Nat, ancestors[k]? = some none ↔ parents[k]? = some none
  anc : ∀ (k q : Nat), ancestors[k]? = some (some q) → Below parents k q ∨ (q = col ∧ k ∈ pending)
  src : ∀ (k p : Nat), parents[k]? = some (some p) → ∃ x, meet x p ∧ x < p ∧ (x = k ∨ Below parents x k)

theorem ClimbInv.upto {meet : Nat → Nat → Prop} {n col : Nat} {pending : List Nat} {parents ancestors : List (Option Nat)}
    (h : ClimbInv meet n col pending parents ancestors) {x y : Nat} (hb : Below parents x y) : x < y ∧ y ≤ col := by
  induction hb with
  | parent hp => exact h.up _ _ hp
  | step hp _ ih => exact ⟨lt_trans (h.up _ _ hp).1 ih.1, ih.2⟩

theorem climb_spec {meet : Nat → Nat → Prop} {n col start : Nat} (hcol : col < n) (hmeet : meet start col) (hstart : start < col) {fuel : Nat} :
    ∀ (k : Nat) (pending : List Nat) (parents ancestors : List (Option Nat)), ClimbInv meet n col pending parents ancestors →
      k ≤ col → col - k + 1 ≤ fuel → (∀ x ∈ pending, Below parents x k) → (start = k ∨ start ∈ pending) →
      ∃ parents' ancestors', climb col fuel (some k) parents ancestors = .ok (parents', ancestors') ∧ ClimbInv meet n col [] parents' ancestors' ∧
        (∀ (k p : Nat), parents[k]? = some (some p) → parents'[k]? = some (some p)) ∧ Below parents' start col := by
  induction fuel with
  | zero => intro k _ _ _ _ hk hf; omega
  | succ fuel ih =>
    intro k pending parents ancestors hinv hk hf hpend hst
    rw [climb]
    by_cases hkc : col ≤ k
    · have : k = col := by omega
      subst this
      rw [if_pos (le_refl _)]
      refine ⟨parents, ancestors, rfl, ⟨hinv.lenP, hinv.lenA, hinv.up, hinv.root, ?_, hinv.src⟩, fun _ _ h => h, ?_⟩
      · intro x q hx
        rcases hinv.anc x q hx with h | ⟨rfl, h⟩
        · exact Or.inl h
        · exact Or.inl (hpend x h)
      · rcases hst with h | h
        · omega
        · exact hpend _ h
    · rw [if_neg hkc]
      have hkn : k < n := by omega
      obtain ⟨o, ho⟩ : ∃ o, ancestors[k]? = some o := ⟨_, List.getElem?_eq_getElem (by rw [hinv.lenA]; exact hkn)⟩
      rw [idx_of ho, ok_bind, setIdx_of _ (by rw [hinv.lenA]; exact hkn), ok_bind]
      cases o with
      | none =>
        rw [linkRoot, setIdx_of _ (by rw [hinv.lenP]; exact hkn), ok_bind]
        have hpk := (hinv.root k).1 ho
        have hext : ∀ (x p : Nat), parents[x]? = some (some p) → (parents.set k (some col))[x]? = some (some p) := by
          intro x p hx
          have : k ≠ x := by
            rintro rfl
            rw [hpk] at hx
            simp at hx
          rw [List.getElem?_set_ne this]
          exact hx
        have hkcol : Below (parents.set k (some col)) k col := .parent (List.getElem?_set_self (by rw [hinv.lenP]; exact hkn))
        have hpcol : ∀ x ∈ pending, Below (parents.set k (some col)) x col := fun x hx => Below_trans (Below_mono hext (hpend x hx)) hkcol
        refine ⟨parents.set k (some col), ancestors.set k (some col), ?_, ⟨by simp [hinv.lenP], by simp [hinv.lenA], ?_, ?_, ?_, ?_⟩, hext, ?_⟩
        · cases fuel with
          | zero => omega
          | succ fuel => rfl
        · intro x p hx
          by_cases hkx : k = x
          · subst hkx
            rw [List.getElem?_set_self (by rw [hinv.lenP]; exact hkn)] at hx
            simp only [Option.some.injEq] at hx
            omega
          · rw [List.getElem?_set_ne hkx] at hx
            exact hinv.up x p hx
        · intro x
          by_cases hkx : k = x
          · subst hkx
            rw [List.getElem?_set_self (l := parents) (by rw [hinv.lenP]; exact hkn), List.getElem?_set_self (l := ancestors) (by rw [hinv.lenA]; exact hkn)]
          · rw [List.getElem?_set_ne hkx, List.getElem?_set_ne hkx]
            exact hinv.root x
        · intro x q hx
          by_cases hkx : k = x
          · subst hkx
            rw [List.getElem?_set_self (by rw [hinv.lenA]; exact hkn)] at hx
            simp only [Option.some.injEq] at hx
            subst hx
            exact Or.inl hkcol
          · rw [List.getElem?_set_ne hkx] at hx
            rcases hinv.anc x q hx with h | ⟨rfl, h⟩
            · exact Or.inl (Below_mono hext h)
            · exact Or.inl (hpcol x h)
        · intro x p hx
          by_cases hkx : k = x
          · subst hkx
            rw [List.getElem?_set_self (by rw [hinv.lenP]; exact hkn)] at hx
            simp only [Option.some.injEq] at hx
            subst hx
            refine ⟨start, hmeet, hstart, ?_⟩
            rcases hst with h | h
            · exact Or.inl h
            · exact Or.inr (Below_mono hext (hpend _ h))
          · rw [List.getElem?_set_ne hkx] at hx
            obtain ⟨y, h1, h2, h3⟩ := hinv.src x p hx
            exact ⟨y, h1, h2, h3.imp id (Below_mono hext)⟩
        · rcases hst with rfl | h
          · exact hkcol
          · exact hpcol _ h
      | some q =>
        rw [linkRoot, ok_bind]
        have hkp : k ∉ pending := fun h => by have := (hinv.upto (hpend k h)).1; omega
        have hkq : Below parents k q := by
          rcases hinv.anc k q ho with h | ⟨-, h⟩
          · exact h
          · exact absurd h hkp
        have := hinv.upto hkq
        obtain ⟨parents', ancestors', h1, h2, h3, h4⟩ := ih q (k :: pending) parents (ancestors.set k (some col))
          ⟨hinv.lenP, by simp [hinv.lenA], hinv.up, by
            intro x
            by_cases hkx : k = x
            · subst hkx
              rw [List.getElem?_set_self (by rw [hinv.lenA]; exact hkn), ← hinv.root, ho]
              simp
            · rw [List.getElem?_set_ne hkx]
              exact hinv.root x, by
            intro x r hx
            by_cases hkx : k = x
            · subst hkx
              rw [List.getElem?_set_self (by rw [hinv.lenA]; exact hkn)] at hx
              simp only [Option.some.injEq] at hx
              exact Or.inr ⟨hx.symm, by simp⟩
            · rw [List.getElem?_set_ne hkx] at hx
              rcases hinv.anc x r hx with h | ⟨h1, h2⟩
              · exact Or.inl h
              · exact Or.inr ⟨h1, by simp [h2]⟩, hinv.src⟩ (by omega) (by omega) (by
            intro x hx
            rcases List.mem_cons.1 hx with rfl | hx
            · exact hkq
            · exact Below_trans (hpend x hx) hkq) (by
            rcases hst with rfl | h
            · simp
            · simp [h])
        exact ⟨parents', ancestors', h1, h2, h3, h4⟩

/-- What is true between the walks. `touched c i`: the entry in row `i` and column `c` has been seen. -/
structure EtreeInv (symmetric : Bool) (a : SparseStructure) (col : Nat) (touched : Nat → Nat → Prop) (st : EtreeState) : Prop where
  core : ClimbInv (Meet symmetric a) a.ncols col [] st.parents st.ancestors
  sym : symmetric = true → ∀ y x, touched y x → x < y → Below st.parents x y
  len : symmetric = false → st.prevCol.length = a.nrows
  prev : symmetric = false → ∀ (i p : Nat), st.prevCol[i]? = some (some p) → touched p i ∧ ∀ x, touched x i → x ≤ p
  fresh : symmetric = false → ∀ i : Nat, st.prevCol[i]? = some none → ∀ x, ¬ touched x i
  nrm : symmetric = false → ∀ x y i, touched x i → touched y i → x < y → Below st.parents x y

theorem EtreeInv.touch {symmetric : Bool} {a : SparseStructure} {col : Nat} {touched : Nat → Nat → Prop} {st : EtreeState}
    (h : EtreeInv symmetric a col touched st) (hcol : col < a.ncols) {row : Nat} (hrow : row < a.nrows) (hhas : Has a row col)
    (htouch : ∀ x i, touched x i → x ≤ col ∧ Has a i x) (hnew : ¬ touched col row) :
    ∃ st', (if symmetric then touchSymmetric a.ncols col else touchNormal a.ncols col) st row = .ok st' ∧
      EtreeInv symmetric a col (fun x i => touched x i ∨ (x = col ∧ i = row)) st' := by
  cases symmetric with
  | true =>
    simp only [if_true, touchSymmetric]
    by_cases hrc : row < col
    · obtain ⟨parents', ancestors', h1, h2, h3, h4⟩ := climb_spec (meet := Meet true a) (start := row) hcol (by
          simp only [Meet, if_true]
          exact Or.inl ⟨hrc, hhas⟩) hrc (fuel := a.ncols + 1) row [] st.parents st.ancestors h.core (by omega) (by omega) (by simp) (Or.inl rfl)
      rw [h1, ok_bind]
      refine ⟨_, rfl, h2, ?_, by simp, by simp, by simp, by simp⟩
      rintro - y x (hyx | ⟨rfl, rfl⟩) hlt
      · exact Below_mono h3 (h.sym rfl y x hyx hlt)
      · exact h4
    · rw [show climb col (a.ncols + 1) (some row) st.parents st.ancestors = .ok (st.parents, st.ancestors) by rw [climb, if_pos (by omega)], ok_bind]
      refine ⟨_, rfl, h.core, ?_, by simp, by simp, by simp, by simp⟩
      rintro - y x (hyx | ⟨rfl, rfl⟩) hlt
      · exact h.sym rfl y x hyx hlt
      · exact absurd hlt hrc
  | false =>
    simp only [Bool.false_eq_true, if_false, touchNormal]
    have hlen := h.len rfl
    obtain ⟨o, ho⟩ : ∃ o, st.prevCol[row]? = some o := ⟨_, List.getElem?_eq_getElem (by rw [hlen]; exact hrow)⟩
    rw [idx_of ho, ok_bind]
    have hset : setIdx st.prevCol row (some col) = .ok (st.prevCol.set row (some col)) := setIdx_of _ (by rw [hlen]; exact hrow)
    have hprev : ∀ (i p : Nat), (st.prevCol.set row (some col))[i]? = some (some p) →
        (touched p i ∨ (p = col ∧ i = row)) ∧ ∀ x, (touched x i ∨ (x = col ∧ i = row)) → x ≤ p := by
      intro i p hp
      by_cases hri : row = i
      · subst hri
        rw [List.getElem?_set_self (by rw [hlen]; exact hrow)] at hp
        simp only [Option.some.injEq] at hp
        subst hp
        refine ⟨Or.inr ⟨rfl, rfl⟩, ?_⟩
        rintro x (hx | ⟨rfl, -⟩)
        · exact (htouch x row hx).1
        · exact le_refl _
      · rw [List.getElem?_set_ne hri] at hp
        obtain ⟨h1, h2⟩ := h.prev rfl i p hp
        refine ⟨Or.inl h1, ?_⟩
        rintro x (hx | ⟨-, rfl⟩)
        · exact h2 x hx
        · exact absurd rfl hri
    have hfresh : ∀ i : Nat, (st.prevCol.set row (some col))[i]? = some none → ∀ x, ¬ (touched x i ∨ (x = col ∧ i = row)) := by
      intro i hi x
      by_cases hri : row = i
      · subst hri
        rw [List.getElem?_set_self (by rw [hlen]; exact hrow)] at hi
        simp at hi
      · rw [List.getElem?_set_ne hri] at hi
        rintro (hx | ⟨-, rfl⟩)
        · exact h.fresh rfl i hi x hx
        · exact hri rfl
    cases o with
    | none =>
      rw [show climb col (a.ncols + 1) none st.parents st.ancestors = .ok (st.parents, st.ancestors) from rfl, ok_bind]
      simp only
      rw [hset, ok_bind]
      refine ⟨_, rfl, h.core, by simp, fun _ => by simp [hlen], fun _ => hprev, fun _ => hfresh, ?_⟩
      rintro - x y i (hx | ⟨hx1, hx2⟩) (hy | ⟨hy1, hy2⟩) hlt
      · exact h.nrm rfl x y i hx hy hlt
      · exact absurd hx (h.fresh rfl _ (hy2 ▸ ho) x)
      · exact absurd hy (h.fresh rfl _ (hx2 ▸ ho) y)
      · omega
    | some p =>
      obtain ⟨hp1, hp2⟩ := h.prev rfl row p ho
      have hpc : p < col := by
        have := (htouch p row hp1).1
        rcases Nat.lt_or_eq_of_le this with h' | rfl
        · exact h'
        · exact absurd hp1 hnew
      obtain ⟨parents', ancestors', h1, h2, h3, h4⟩ := climb_spec (meet := Meet false a) (start := p) hcol (by
          simp only [Meet, Bool.false_eq_true, if_false]
          exact ⟨row, (htouch p row hp1).2, hhas⟩) hpc (fuel := a.ncols + 1) p [] st.parents st.ancestors h.core (by omega) (by omega) (by simp)
          (Or.inl rfl)
      rw [h1, ok_bind]
      simp only
      rw [hset, ok_bind]
      refine ⟨_, rfl, h2, by simp, fun _ => by simp [hlen], fun _ => hprev, fun _ => hfresh, ?_⟩
      rintro - x y i (hx | ⟨hx1, hx2⟩) (hy | ⟨hy1, hy2⟩) hlt
      · exact Below_mono h3 (h.nrm rfl x y i hx hy hlt)
      · subst hy1 hy2
        have hxp := hp2 x hx
        rcases Nat.lt_or_eq_of_le hxp with h' | rfl
        · exact Below_trans (Below_mono h3 (h.nrm rfl x p _ hx hp1 h')) h4
        · exact h4
      · have := (htouch y _ hy).1
        omega
      · omega

/-- What the elimination tree satisfies. -/
structure IsEtree (symmetric : Bool) (a : SparseStructure) (parents : List (Option Nat)) : Prop where
  len : parents.length = a.ncols
  up : Up parents
  bound : ∀ (k p : Nat), parents[k]? = some (some p) → p < a.ncols
  src : ∀ (k p : Nat), parents[k]? = some (some p) → ∃ x, Meet symmetric a x p ∧ x < p ∧ (x = k ∨ Below parents x k)
  meet : ∀ x y, x < y → y < a.ncols → Meet symmetric a x y → Below parents x y

theorem Spec.Has.lt {s : SparseStructure} (hs : WellFormed s) {i j : Nat} (h : Has s i j) : i < s.nrows ∧ j < s.ncols := by
  obtain ⟨p, a, b, h1, h2, h3, h4, h5⟩ := h
  refine ⟨hs.bound i (List.mem_of_getElem? h5), ?_⟩
  have := (List.getElem?_eq_some_iff.1 h2).1
  rw [hs.count] at this
  omega

theorem Spec.Meet.symm {symmetric : Bool} {a : SparseStructure} {x y : Nat} (h : Meet symmetric a x y) : Meet symmetric a y x := by
  cases symmetric with
  | true => simp only [Meet, if_true] at *; exact h.symm
  | false =>
    simp only [Meet, Bool.false_eq_true, if_false] at *
    obtain ⟨i, h1, h2⟩ := h
    exact ⟨i, h2, h1⟩

theorem eliminationTree_spec (symmetric : Bool) {a : SparseStructure} (ha : WellFormed a) :
    ∃ parents, eliminationTree symmetric a = .ok parents ∧ IsEtree symmetric a parents := by
  obtain ⟨st, h1, h2⟩ := foldlM_prefix (fun pre st => EtreeInv symmetric a pre.length (fun x i => x < pre.length ∧ Has a i x) st)
    (etreeColumn symmetric a) (List.range a.ncols)
    ⟨List.replicate a.ncols none, List.replicate a.ncols none, if symmetric then [] else List.replicate a.nrows none⟩
    ⟨⟨by simp, by simp, by
        intro k p h
        rw [List.getElem?_replicate] at h
        split at h <;> simp at h, by simp, by
        intro k p h
        rw [List.getElem?_replicate] at h
        split at h <;> simp at h, by
        intro k p h
        rw [List.getElem?_replicate] at h
        split at h <;> simp at h⟩, by simp, by intro h; simp [h], by
        intro h i p hp
        simp only [h, Bool.false_eq_true, if_false] at hp
        rw [List.getElem?_replicate] at hp
        split at hp <;> simp at hp, by simp, by simp⟩ (by
    intro pre col post st hl hinv
    have hcol : col = pre.length := by
      have h := congrArg (fun l => l[pre.length]?) hl
      simp only [List.getElem?_append_right (le_refl _), Nat.sub_self, List.getElem?_cons_zero] at h
      have hlt : pre.length < a.ncols := by
        have := congrArg List.length hl
        simp at this
        omega
      rw [List.getElem?_range hlt] at h
      exact (Option.some.inj h).symm
    have hcn : col < a.ncols := List.mem_range.1 (by rw [hl]; simp)
    rw [← hcol] at hinv
    rw [etreeColumn, ha.indexColumn hcn, ok_bind]
    have hinv0 : EtreeInv symmetric a col (fun x i => (x < col ∧ Has a i x) ∨ (x = col ∧ i ∈ ([] : List Nat))) st := by
      simpa using hinv
    obtain ⟨st', e1, e2⟩ := foldlM_prefix (fun pre st => EtreeInv symmetric a col (fun x i => (x < col ∧ Has a i x) ∨ (x = col ∧ i ∈ pre)) st)
      (if symmetric then touchSymmetric a.ncols col else touchNormal a.ncols col) (columnRows a col) st hinv0 (by
        intro done row rest s hdr hs
        have hmem : row ∈ columnRows a col := by rw [hdr]; simp
        have hall : ∀ i ∈ done, Has a i col := fun i hi => (ha.mem_columnRows hcn).1 (by rw [hdr]; simp [hi])
        have hhas := (ha.mem_columnRows hcn).1 hmem
        obtain ⟨s', f1, f2⟩ := hs.touch hcn (ha.columnRows_bound hmem) hhas (by
          rintro x i (⟨h1, h2⟩ | ⟨rfl, h2⟩)
          · exact ⟨by omega, h2⟩
          · exact ⟨le_refl _, hall i h2⟩) (by
          rintro (⟨h, -⟩ | ⟨-, h⟩)
          · omega
          · have hnd : (columnRows a col).Pairwise (· < ·) := ha.columnRows_sorted hcn
            rw [hdr, List.pairwise_append] at hnd
            have := hnd.2.2 row h row (by simp)
            omega)
        refine ⟨s', f1, ?_⟩
        have : (fun x i => ((x < col ∧ Has a i x) ∨ (x = col ∧ i ∈ done)) ∨ (x = col ∧ i = row)) =
            (fun x i => (x < col ∧ Has a i x) ∨ (x = col ∧ i ∈ done ++ [row])) := by
          funext x i
          simp only [List.mem_append, List.mem_singleton, eq_iff_iff]
          tauto
        rw [this] at f2
        exact f2)
    refine ⟨st', e1, ?_⟩
    have : (fun x i => (x < col ∧ Has a i x) ∨ (x = col ∧ i ∈ columnRows a col)) = (fun x i => x < (pre ++ [col]).length ∧ Has a i x) := by
      funext x i
      rw [List.length_append, List.length_singleton, ← hcol]
      by_cases hx : x = col
      · subst hx
        rw [ha.mem_columnRows hcn]
        simp
      · simp only [hx, false_and, or_false, eq_iff_iff]
        constructor
        · rintro ⟨h, h'⟩; exact ⟨by omega, h'⟩
        · rintro ⟨h, h'⟩; exact ⟨by omega, h'⟩
    rw [this] at e2
    refine ⟨⟨e2.core.lenP, e2.core.lenA, ?_, e2.core.root, ?_, e2.core.src⟩, e2.sym, e2.len, e2.prev, e2.fresh, e2.nrm⟩
    · intro k p hp
      have := e2.core.up k p hp
      rw [List.length_append, List.length_singleton, ← hcol]
      omega
    · intro k q hq
      rcases e2.core.anc k q hq with h | ⟨-, h⟩
      · exact Or.inl h
      · simp at h)
  refine ⟨st.parents, ?_, h2.core.lenP, fun k p h => (h2.core.up k p h).1, ?_, h2.core.src, ?_⟩
  · rw [eliminationTree]
    rw [h1]
    rfl
  · intro k p hp
    obtain ⟨x, hm, hx, -⟩ := h2.core.src k p hp
    cases symmetric with
    | true =>
      simp only [Meet, if_true] at hm
      rcases hm with ⟨-, h⟩ | ⟨h, -⟩
      · exact (Spec.Has.lt ha h).2
      · omega
    | false =>
      simp only [Meet, Bool.false_eq_true, if_false] at hm
      obtain ⟨i, -, h⟩ := hm
      exact (Spec.Has.lt ha h).2
  · intro x y hxy hy hm
    rw [List.length_range] at h2
    cases symmetric with
    | true =>
      simp only [Meet, if_true] at hm
      rcases hm with ⟨-, h⟩ | ⟨h, -⟩
      · exact h2.sym rfl y x ⟨hy, h⟩ hxy
      · omega
    | false =>
      simp only [Meet, Bool.false_eq_true, if_false] at hm
      obtain ⟨i, h3, h4⟩ := hm
      exact h2.nrm rfl x y i ⟨by omega, h3⟩ ⟨hy, h4⟩ hxy

theorem Up.isForest {parents : List (Option Nat)} (h : Up parents) (hb : ∀ (k p : Nat), parents[k]? = some (some p) → p < parents.length) :
    IsForest parents := by
  have key : ∀ m v, v < parents.length → parents.length - v ≤ m → ∃ d, DepthOf parents v d := by
    intro m
    induction m with
    | zero => intro v hv h; omega
    | succ m ih =>
      intro v hv hm
      cases ho : parents[v] with
      | none => exact ⟨0, .root (by rw [List.getElem?_eq_getElem hv, ho])⟩
      | some p =>
        have hp : parents[v]? = some (some p) := by rw [List.getElem?_eq_getElem hv, ho]
        have := h v p hp
        obtain ⟨d, hd⟩ := ih p (hb v p hp) (by omega)
        exact ⟨d + 1, .step hp hd⟩
  exact fun v hv => key _ v hv (le_refl _)

theorem IsEtree.isForest {symmetric : Bool} {a : SparseStructure} {parents : List (Option Nat)} (h : IsEtree symmetric a parents) : IsForest parents :=
  h.up.isForest (by rw [h.len]; exact h.bound)

theorem Reach_trans {meet : Nat → Nat → Prop} {c x y z : Nat} (h : Reach meet c x y) (h' : Reach meet c y z) : Reach meet c x z := by
  induction h with
  | refl _ => exact h'
  | step h1 h2 _ ih => exact .step h1 h2 (ih h')

theorem Reach_mono {meet : Nat → Nat → Prop} {c c' x y : Nat} (hc : c ≤ c') (h : Reach meet c x y) : Reach meet c' x y := by
  induction h with
  | refl h => exact .refl (by omega)
  | step h1 h2 _ ih => exact .step (by omega) h2 ih

theorem Reach_bound {meet : Nat → Nat → Prop} {c x y : Nat} (h : Reach meet c x y) : x ≤ c ∧ y ≤ c := by
  induction h with
  | refl h => exact ⟨h, h⟩
  | step h1 _ _ ih => exact ⟨h1, ih.2⟩

theorem Reach_symm {meet : Nat → Nat → Prop} (hs : ∀ x y, meet x y → meet y x) {c x y : Nat} (h : Reach meet c x y) : Reach meet c y x := by
  induction h with
  | refl h => exact .refl h
  | step h1 h2 h3 ih => exact Reach_trans ih (.step (Reach_bound h3).1 (hs _ _ h2) (.refl h1))

/-- The ancestors of a column are the columns that it reaches through columns not larger than them. -/
theorem IsEtree.below_iff {symmetric : Bool} {a : SparseStructure} {parents : List (Option Nat)} (h : IsEtree symmetric a parents) {x c : Nat}
    (hc : c < a.ncols) : Below parents x c ↔ x < c ∧ Reach (Meet symmetric a) c x c := by
  constructor
  · have key : ∀ c x, Below parents x c → Reach (Meet symmetric a) c x c := by
      intro c
      induction c using Nat.strong_induction_on with
      | _ c ih =>
        have hpar : ∀ k, parents[k]? = some (some c) → Reach (Meet symmetric a) c k c := by
          intro k hk
          obtain ⟨y, h1, h2, h3⟩ := h.src k c hk
          have hkc := h.up k c hk
          have hyc : Reach (Meet symmetric a) c y c := .step (by omega) h1 (.refl (le_refl _))
          rcases h3 with rfl | h3
          · exact hyc
          · exact Reach_trans (Reach_symm (fun _ _ => Meet.symm) (Reach_mono (by omega) (ih k hkc y h3))) hyc
        intro x hx
        obtain ⟨k, hk, hxk⟩ := Below_iff.1 hx
        have hk' := mem_kids.1 hk
        rcases hxk with rfl | hxk
        · exact hpar _ hk'
        · have hkc := h.up k c hk'
          exact Reach_trans (Reach_mono (by omega) (ih k hkc x hxk)) (hpar k hk')
    exact fun hb => ⟨Below_up h.up hb, key c x hb⟩
  · rintro ⟨hxc, hr⟩
    have key : ∀ x z, Reach (Meet symmetric a) c x z → z = c → x = c ∨ Below parents x c := by
      intro x z hr hz
      induction hr with
      | refl _ => exact Or.inl hz
      | @step x y z hxc hm hr ih =>
        rcases Nat.lt_trichotomy x y with hlt | rfl | hlt
        · have hy := (Reach_bound hr).1
          have hb := h.meet x y hlt (by omega) hm
          rcases ih hz with rfl | hb'
          · exact Or.inr hb
          · exact Or.inr (Below_trans hb hb')
        · exact ih hz
        · have hb := h.meet y x hlt (by omega) hm.symm
          rcases ih hz with rfl | hb'
          · omega
          · rcases Below_comparable hb hb' with rfl | h' | h'
            · exact Or.inl rfl
            · exact Or.inr h'
            · have := Below_up h.up h'
              omega
    rcases key x c hr rfl with rfl | hb
    · omega
    · exact hb

end Fiksi
