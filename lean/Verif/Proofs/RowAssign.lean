import Verif.Proofs.RowQueues
import Verif.Proofs.Gauss
import Verif.Spec.Qr
/-!
# What the row permutation satisfies
-/
namespace Fiksi

open Spec

/-- The column whose queue has the rows with first column `f`, when the columns before `k` are done. -/
def Home (parents : List (Option Nat)) (k f c : Nat) : Prop :=
  Desc parents f c ∧ k ≤ c ∧ ∀ z, Desc parents f z → Below parents z c → z < k

theorem Tree.home_self {parents : List (Option Nat)} {n : Nat} {post : List Nat} (t : Tree parents n post) {k f : Nat} :
    Home parents k f k ↔ Desc parents f k :=
  ⟨fun h => h.1, fun h => ⟨h, le_rfl, fun _ _ hz => (t.below_bound hz).2.2⟩⟩

theorem Tree.home_succ {parents : List (Option Nat)} {n : Nat} {post : List Nat} (t : Tree parents n post) {k f c : Nat} (hc : k + 1 ≤ c) :
    Home parents (k + 1) f c ↔ Home parents k f c ∨ (Desc parents f k ∧ parents[k]? = some (some c)) := by
  constructor
  · rintro ⟨h1, -, h3⟩
    by_cases hk : Desc parents f k ∧ Below parents k c
    · right
      obtain ⟨p, hp, hpc⟩ := hk.2.exists_parent
      rcases hpc with rfl | hpc
      · exact ⟨hk.1, hp⟩
      · have := h3 p (hk.1.trans (Below.parent hp).desc) hpc
        have := (t.below_bound (Below.parent hp)).2.2
        omega
    · left
      refine ⟨h1, by omega, ?_⟩
      intro z hz hzc
      have := h3 z hz hzc
      have : z ≠ k := fun he => hk (he ▸ ⟨hz, hzc⟩)
      omega
  · rintro (⟨h1, h2, h3⟩ | ⟨h1, h2⟩)
    · exact ⟨h1, hc, fun z hz hzc => by have := h3 z hz hzc; omega⟩
    · refine ⟨h1.trans (Below.parent h2).desc, hc, ?_⟩
      intro z hz hzc
      rcases hz.comparable h1 with h4 | h4
      · have := t.desc_le h4
        omega
      · exact absurd ((h4.via_parent h2).below hzc) t.below_irrefl

/-- The rows that are not assigned. -/
def unassigned (m : Nat) (rp : List (Option Nat)) : Finset Nat := (Finset.range m).filter (fun i => rp[i]? = some none)

/-- What is true when the columns before `k` are done. -/
structure AssignInv (a : SparseStructure) (parents : List (Option Nat)) (k : Nat) (Q : Nat → List Nat) (st : QueueState) : Prop where
  queues : Queues a.nrows a.ncols k Q st
  len : st.rowPermutation.length = a.nrows + a.ncols
  lo : a.nrows ≤ st.mFictitious
  hi : st.mFictitious ≤ a.nrows + k
  mem : ∀ c, k ≤ c → ∀ i, i ∈ Q c ↔ (st.rowPermutation[i]? = some none ∧ ∃ f, FirstCol a i f ∧ Home parents k f c)
  used : ∀ r c : Nat, st.rowPermutation[r]? = some (some c) → c < k ∧ r < st.mFictitious
  anc : ∀ i c : Nat, i < a.nrows → st.rowPermutation[i]? = some (some c) → ∃ f, FirstCol a i f ∧ Desc parents f c
  inj : ∀ i i' c : Nat, st.rowPermutation[i]? = some (some c) → st.rowPermutation[i']? = some (some c) → i = i'
  owner : ∀ c, c < k → ∃ r : Nat, st.rowPermutation[r]? = some (some c)
  fict : ∀ r c : Nat, a.nrows ≤ r → st.rowPermutation[r]? = some (some c) → ∀ i f, FirstCol a i f → Desc parents f c →
    ∃ c', st.rowPermutation[i]? = some (some c') ∧ Below parents c' c
  left : (unassigned a.nrows st.rowPermutation).card + k = st.mFictitious
  full : ∀ r, a.nrows ≤ r → r < st.mFictitious → ∃ c : Nat, st.rowPermutation[r]? = some (some c)

theorem Setting.assignColumn_spec {a : SparseStructure} {parents : List (Option Nat)} {post : List Nat} (s : Setting a parents post) {k : Nat}
    (hk : k < a.ncols) {Q : Nat → List Nat} {st : QueueState} (h : AssignInv a parents k Q st) :
    ∃ st', assignColumn parents st k = .ok st' ∧ ∃ Q', AssignInv a parents (k + 1) Q' st' := by
  have t := s.tree
  obtain ⟨st', e1, e2, e3, e4⟩ := h.queues.assignColumn t.len (fun p hp => ⟨t.up k p hp, t.bound k p hp⟩) hk h.len (by
    have := h.hi
    omega)
  refine ⟨st', e1, fun c => if parents[k]? = some (some c) then (Q k).tail ++ Q c else Q c, ?_⟩
  generalize hr : (Q k).head?.getD st.mFictitious = r at e3
  have hrnone : st.rowPermutation[r]? = some none := by
    cases hQ : Q k with
    | nil =>
      rw [hQ] at hr
      simp only [List.head?_nil, Option.getD_none] at hr
      subst hr
      have hlt : st.mFictitious < st.rowPermutation.length := by
        have := h.hi
        rw [h.len]; omega
      cases hv : st.rowPermutation[st.mFictitious] with
      | none => rw [List.getElem?_eq_getElem hlt, hv]
      | some c =>
        have := (h.used st.mFictitious c (by rw [List.getElem?_eq_getElem hlt, hv])).2
        omega
    | cons i rest =>
      rw [hQ] at hr
      simp only [List.head?_cons, Option.getD_some] at hr
      subst hr
      exact ((h.mem k le_rfl i).1 (by rw [hQ]; simp)).1
  have hrlen : r < st.rowPermutation.length := (List.getElem?_eq_some_iff.1 hrnone).1
  have hself : st'.rowPermutation[r]? = some (some k) := by rw [e3]; exact List.getElem?_set_self hrlen
  have hne : ∀ x : Nat, x ≠ r → st'.rowPermutation[x]? = st.rowPermutation[x]? := by
    intro x hx
    rw [e3]
    exact List.getElem?_set_ne (Ne.symm hx)
  have hkeep : ∀ x c : Nat, st.rowPermutation[x]? = some (some c) → st'.rowPermutation[x]? = some (some c) := by
    intro x c hx
    rw [hne x (by rintro rfl; rw [hrnone] at hx; simp at hx)]
    exact hx
  have hback : ∀ x c : Nat, st'.rowPermutation[x]? = some (some c) → (x = r ∧ c = k) ∨ (x ≠ r ∧ st.rowPermutation[x]? = some (some c)) := by
    intro x c hx
    by_cases hxr : x = r
    · subst hxr
      rw [hself] at hx
      simp only [Option.some.injEq] at hx
      exact Or.inl ⟨rfl, hx.symm⟩
    · exact Or.inr ⟨hxr, by rw [← hne x hxr]; exact hx⟩
  have hnone : ∀ x : Nat, st'.rowPermutation[x]? = some none ↔ x ≠ r ∧ st.rowPermutation[x]? = some none := by
    intro x
    by_cases hxr : x = r
    · subst hxr
      rw [hself]
      simp
    · rw [hne x hxr]
      simp [hxr]
  -- The real row of the column, if there is one.
  have hreal : r < a.nrows → r ∈ Q k := by
    intro hrm
    cases hQ : Q k with
    | nil =>
      rw [hQ] at hr
      simp only [List.head?_nil, Option.getD_none] at hr
      have := h.lo
      omega
    | cons i rest =>
      rw [hQ] at hr
      simp only [List.head?_cons, Option.getD_some] at hr
      rw [← hr]
      simp
  have hfictr : a.nrows ≤ r → Q k = [] ∧ r = st.mFictitious := by
    intro hrm
    cases hQ : Q k with
    | nil =>
      rw [hQ] at hr
      simp only [List.head?_nil, Option.getD_none] at hr
      exact ⟨rfl, hr.symm⟩
    | cons i rest =>
      rw [hQ] at hr
      simp only [List.head?_cons, Option.getD_some] at hr
      have := h.queues.bound k le_rfl i (by rw [hQ]; simp)
      omega
  have hmf : st.mFictitious ≤ st'.mFictitious := by
    rw [e4]
    split <;> omega
  have hrmf : r < st'.mFictitious := by
    by_cases hrm : r < a.nrows
    · have := h.lo
      omega
    · obtain ⟨h1, h2⟩ := hfictr (by omega)
      rw [e4, if_pos h1]
      omega
  refine ⟨e2, by rw [e3, List.length_set, h.len], le_trans h.lo hmf, ?_, ?_, ?_, ?_, ?_, ?_, ?_, ?_, ?_⟩
  · have := h.hi
    rw [e4]
    split <;> omega
  · intro c hkc i
    have hmc := h.mem c (by omega) i
    have hmk := h.mem k le_rfl i
    have hQc : i ∈ Q c → i ≠ r := by
      intro hi hir
      have hrm : r < a.nrows := hir ▸ h.queues.bound c (by omega) i hi
      have := h.queues.disj c k i (by omega) le_rfl hi (hir ▸ hreal hrm)
      omega
    have htail : i ∈ (Q k).tail ↔ i ∈ Q k ∧ i ≠ r := by
      cases hQ : Q k with
      | nil => simp
      | cons x rest =>
        rw [hQ] at hr
        simp only [List.head?_cons, Option.getD_some] at hr
        subst hr
        have hnd := h.queues.nodup k le_rfl
        rw [hQ, List.nodup_cons] at hnd
        rw [List.tail_cons, List.mem_cons]
        constructor
        · intro hi
          exact ⟨Or.inr hi, fun he => hnd.1 (he ▸ hi)⟩
        · rintro ⟨h1 | h1, h2⟩
          · exact absurd h1 h2
          · exact h1
    rw [hnone]
    constructor
    · intro hi
      have hcase : i ∈ Q c ∨ (i ∈ (Q k).tail ∧ parents[k]? = some (some c)) := by
        by_cases hp : parents[k]? = some (some c)
        · rw [if_pos hp, List.mem_append] at hi
          rcases hi with hi | hi
          · exact Or.inr ⟨hi, hp⟩
          · exact Or.inl hi
        · rw [if_neg hp] at hi
          exact Or.inl hi
      rcases hcase with hi | ⟨hi, hp⟩
      · obtain ⟨h1, f, h2, h3⟩ := hmc.1 hi
        exact ⟨⟨hQc hi, h1⟩, f, h2, (t.home_succ hkc).2 (Or.inl h3)⟩
      · obtain ⟨h1, h2⟩ := htail.1 hi
        obtain ⟨h3, f, h4, h5⟩ := hmk.1 h1
        exact ⟨⟨h2, h3⟩, f, h4, (t.home_succ hkc).2 (Or.inr ⟨h5.1, hp⟩)⟩
    · rintro ⟨⟨h1, h2⟩, f, h3, h4⟩
      rcases (t.home_succ hkc).1 h4 with h5 | ⟨h5, h6⟩
      · have hi := hmc.2 ⟨h2, f, h3, h5⟩
        split
        · exact List.mem_append_right _ hi
        · exact hi
      · rw [if_pos h6]
        exact List.mem_append_left _ (htail.2 ⟨hmk.2 ⟨h2, f, h3, t.home_self.2 h5⟩, h1⟩)
  · intro x c hx
    rcases hback x c hx with ⟨rfl, rfl⟩ | ⟨-, hx⟩
    · exact ⟨by omega, hrmf⟩
    · have := h.used x c hx
      omega
  · intro i c hi hx
    rcases hback i c hx with ⟨rfl, rfl⟩ | ⟨-, hx⟩
    · obtain ⟨-, f, h2, h3⟩ := (h.mem c le_rfl i).1 (hreal hi)
      exact ⟨f, h2, h3.1⟩
    · exact h.anc i c hi hx
  · intro i i' c hx hx'
    rcases hback i c hx with ⟨rfl, h1⟩ | ⟨-, hx⟩ <;> rcases hback i' c hx' with ⟨rfl, h2⟩ | ⟨-, hx'⟩
    · rfl
    · have := (h.used i' c hx').1
      omega
    · have := (h.used i c hx).1
      omega
    · exact h.inj i i' c hx hx'
  · intro c hc
    by_cases hck : c = k
    · exact ⟨r, by rw [hck]; exact hself⟩
    · obtain ⟨x, hx⟩ := h.owner c (by omega)
      exact ⟨x, hkeep x c hx⟩
  · intro x c hxm hx i f hf hd
    rcases hback x c hx with ⟨rfl, rfl⟩ | ⟨-, hx⟩
    · obtain ⟨hQ, -⟩ := hfictr hxm
      have him := (hf.1.lt s.wf).1
      have hilen : i < st.rowPermutation.length := by rw [h.len]; omega
      cases hv : st.rowPermutation[i] with
      | none =>
        have := (h.mem c le_rfl i).2 ⟨by rw [List.getElem?_eq_getElem hilen, hv], f, hf, t.home_self.2 hd⟩
        rw [hQ] at this
        simp at this
      | some c' =>
        have hv' : st.rowPermutation[i]? = some (some c') := by rw [List.getElem?_eq_getElem hilen, hv]
        obtain ⟨f', hf', hd'⟩ := h.anc i c' him hv'
        rw [FirstCol_unique hf' hf] at hd'
        exact ⟨c', hkeep i c' hv', t.below_of_lt hd' hd (h.used i c' hv').1⟩
    · obtain ⟨c', h1, h2⟩ := h.fict x c hxm hx i f hf hd
      exact ⟨c', hkeep i c' h1, h2⟩
  · have hU : unassigned a.nrows st'.rowPermutation = (unassigned a.nrows st.rowPermutation).erase r := by
      ext x
      simp only [unassigned, Finset.mem_filter, Finset.mem_range, Finset.mem_erase, hnone]
      tauto
    rw [hU]
    have hleft := h.left
    by_cases hrm : r < a.nrows
    · have hmem : r ∈ unassigned a.nrows st.rowPermutation := by
        simp [unassigned, hrm, hrnone]
      have hpos := Finset.card_pos.2 ⟨r, hmem⟩
      rw [Finset.card_erase_of_mem hmem, e4, if_neg (fun hQ => by have := hreal hrm; rw [hQ] at this; simp at this)]
      omega
    · rw [Finset.erase_eq_of_notMem (by simp [unassigned]; omega), e4, if_pos (hfictr (by omega)).1]
      omega
  · intro x hxm hx
    by_cases hxr : x = r
    · exact ⟨k, by rw [hxr]; exact hself⟩
    · have hlt : x < st.mFictitious := by
        rw [e4] at hx
        split at hx
        · next hQ =>
          rw [hQ] at hr
          simp only [List.head?_nil, Option.getD_none] at hr
          omega
        · exact hx
      obtain ⟨c, hc⟩ := h.full x hxm hlt
      exact ⟨c, hkeep x c hc⟩

/-- What the row permutation satisfies. `total` counts the rows and the columns without a row. -/
structure RowAssignment (a : SparseStructure) (parents rp : List (Option Nat)) (total : Nat) : Prop where
  len : rp.length = a.nrows + a.ncols
  lo : a.nrows ≤ total
  hi : total ≤ a.nrows + a.ncols
  colsLe : a.ncols ≤ total
  real : ∀ i, i < a.nrows → ∃ p : Nat, rp[i]? = some (some p) ∧ p < total
  inj : ∀ i i' p : Nat, rp[i]? = some (some p) → rp[i']? = some (some p) → i = i'
  used : ∀ r p : Nat, rp[r]? = some (some p) → r < total
  owner : ∀ c, c < a.ncols → ∃ r : Nat, rp[r]? = some (some c)
  anc : ∀ i c : Nat, i < a.nrows → rp[i]? = some (some c) → c < a.ncols → ∃ f, FirstCol a i f ∧ Desc parents f c
  fict : ∀ r c : Nat, a.nrows ≤ r → rp[r]? = some (some c) → c < a.ncols ∧ ∀ i f, FirstCol a i f → Desc parents f c →
    ∃ c', rp[i]? = some (some c') ∧ Below parents c' c
  range : ∀ r, a.nrows ≤ r → r < total → ∃ c, c < a.ncols ∧ rp[r]? = some (some c)

theorem Setting.assignRows_spec {a : SparseStructure} {parents : List (Option Nat)} {post : List Nat} (s : Setting a parents post)
    {fc : List (Option Nat)} (hfc : FirstColumns a fc) :
    ∃ rp total, assignRows a.nrows a.ncols parents fc = .ok (rp, total) ∧ RowAssignment a parents rp total := by
  have t := s.tree
  obtain ⟨Q0, st0, h1, h2, h3, h4, h5⟩ := enqueue_spec s.wf hfc
  have hinit : AssignInv a parents 0 Q0 st0 := by
    have hn : ∀ x c : Nat, st0.rowPermutation[x]? ≠ some (some c) := by
      intro x c hx
      rw [h3, List.getElem?_replicate] at hx
      split at hx <;> simp at hx
    refine ⟨h2, by rw [h3]; simp, by omega, by omega, ?_, fun r c h => absurd h (hn r c), fun i c _ h => absurd h (hn i c),
      fun i _ c h => absurd h (hn i c), fun c hc => by omega, fun r c _ h => absurd h (hn r c), ?_, fun r h6 h7 => by omega⟩
    · intro c _ i
      rw [h5]
      constructor
      · intro hf
        have := (hf.1.lt s.wf).1
        refine ⟨by rw [h3, List.getElem?_replicate, if_pos (by omega)], c, hf, .refl c, Nat.zero_le _, ?_⟩
        intro z hz hzc
        exact absurd (hz.below hzc) t.below_irrefl
      · rintro ⟨-, f, hf, hd, -, hz⟩
        rcases hd with rfl | hd
        · exact hf
        · exact absurd (hz f (.refl f) hd) (by omega)
    · rw [h4]
      have : unassigned a.nrows st0.rowPermutation = Finset.range a.nrows := by
        ext x
        simp only [unassigned, Finset.mem_filter, Finset.mem_range, and_iff_left_iff_imp]
        intro hx
        rw [h3, List.getElem?_replicate, if_pos (by omega)]
      rw [this, Finset.card_range]
      rfl
  obtain ⟨st, e1, Q, e2⟩ := foldlM_range (fun k st => ∃ Q, AssignInv a parents k Q st) (assignColumn parents) a.ncols st0 ⟨Q0, hinit⟩ (by
    rintro k hk st ⟨Q, h⟩
    exact s.assignColumn_spec hk h)
  obtain ⟨⟨rp, top⟩, g1, g2, g3, g4, g5, g6⟩ := foldlM_range (fun i (r : List (Option Nat) × Nat) => r.1.length = a.nrows + a.ncols ∧
      r.2 = a.ncols + (unassigned i st.rowPermutation).card ∧
      (∀ x c : Nat, st.rowPermutation[x]? = some (some c) → r.1[x]? = some (some c)) ∧
      (∀ x : Nat, st.rowPermutation[x]? = some none → i ≤ x → r.1[x]? = some none) ∧
      (∃ num : Nat → Nat, (∀ x : Nat, st.rowPermutation[x]? = some none → x < i → r.1[x]? = some (some (num x)) ∧ a.ncols ≤ num x ∧ num x < r.2) ∧
        ∀ x y, num x = num y → st.rowPermutation[x]? = some none → st.rowPermutation[y]? = some none → x < i → y < i → x = y))
    numberRow a.nrows (st.rowPermutation, a.ncols) ⟨e2.len, by simp [unassigned], fun _ _ h => h, fun _ h _ => h, fun x => x, by simp, by simp⟩ (by
    rintro i hi ⟨r, top⟩ ⟨p1, p2, p3, p4, num, p5, p6⟩
    simp only at p1 p2 p3 p4 p5
    have hlt : i < st.rowPermutation.length := by rw [e2.len]; omega
    have hUs : unassigned (i + 1) st.rowPermutation = if st.rowPermutation[i]? = some none then insert i (unassigned i st.rowPermutation)
        else unassigned i st.rowPermutation := by
      ext x
      split
      · next hn =>
        simp only [unassigned, Finset.mem_filter, Finset.mem_range, Finset.mem_insert]
        constructor
        · rintro ⟨q1, q2⟩
          by_cases hx : x = i
          · exact Or.inl hx
          · exact Or.inr ⟨by omega, q2⟩
        · rintro (rfl | ⟨q1, q2⟩)
          · exact ⟨by omega, hn⟩
          · exact ⟨by omega, q2⟩
      · next hn =>
        simp only [unassigned, Finset.mem_filter, Finset.mem_range]
        constructor
        · rintro ⟨q1, q2⟩
          have : x ≠ i := fun he => hn (he ▸ q2)
          exact ⟨by omega, q2⟩
        · rintro ⟨q1, q2⟩
          exact ⟨by omega, q2⟩
    cases hv : st.rowPermutation[i] with
    | some c =>
      have hv' : st.rowPermutation[i]? = some (some c) := by rw [List.getElem?_eq_getElem hlt, hv]
      rw [numberRow]
      simp only
      rw [idx_of (p3 i c hv'), ok_bind]
      refine ⟨_, rfl, p1, ?_, p3, fun x hx hix => p4 x hx (by omega), num, ?_, ?_⟩
      · rw [hUs, hv', if_neg (by simp)]
        exact p2
      · intro x hx hix
        have : x ≠ i := by rintro rfl; rw [hv'] at hx; simp at hx
        exact p5 x hx (by omega)
      · intro x y hxy hx hy hxi hyi
        have : x ≠ i := by rintro rfl; rw [hv'] at hx; simp at hx
        have : y ≠ i := by rintro rfl; rw [hv'] at hy; simp at hy
        exact p6 x y hxy hx hy (by omega) (by omega)
    | none =>
      have hv' : st.rowPermutation[i]? = some none := by rw [List.getElem?_eq_getElem hlt, hv]
      have hi' : i < r.length := by rw [p1]; omega
      rw [numberRow]
      simp only
      rw [idx_of (p4 i hv' le_rfl), ok_bind]
      simp only
      rw [setIdx_of _ hi', ok_bind]
      refine ⟨_, rfl, by simp [p1], ?_, ?_, ?_, fun x => if x = i then top else num x, ?_, ?_⟩
      · rw [hUs, if_pos hv', Finset.card_insert_of_notMem (by simp [unassigned])]
        simp only
        omega
      · intro x c hx
        have : i ≠ x := by rintro rfl; rw [hv'] at hx; simp at hx
        simp only
        rw [List.getElem?_set_ne this]
        exact p3 x c hx
      · intro x hx hix
        simp only
        rw [List.getElem?_set_ne (by omega)]
        exact p4 x hx (by omega)
      · intro x hx hix
        simp only
        by_cases hxi : x = i
        · subst hxi
          rw [if_pos rfl, List.getElem?_set_self hi']
          exact ⟨rfl, by omega, by omega⟩
        · rw [if_neg hxi, List.getElem?_set_ne (Ne.symm hxi)]
          obtain ⟨q1, q2, q3⟩ := p5 x hx (by omega)
          exact ⟨q1, q2, by omega⟩
      · intro x y hxy hx hy hxi hyi
        simp only at hxy
        by_cases h1 : x = i <;> by_cases h2 : y = i
        · rw [h1, h2]
        · rw [if_pos h1, if_neg h2] at hxy
          have := (p5 y hy (by omega)).2.2
          omega
        · rw [if_neg h1, if_pos h2] at hxy
          have := (p5 x hx (by omega)).2.2
          omega
        · rw [if_neg h1, if_neg h2] at hxy
          exact p6 x y hxy hx hy (by omega) (by omega))
  obtain ⟨num, g6, g7⟩ := g6
  simp only at g2 g3 g4 g5 g6
  have htop : top = st.mFictitious := by
    have := e2.left
    omega
  have hcases : ∀ x : Nat, ∀ p, rp[x]? = some (some p) → (st.rowPermutation[x]? = some (some p) ∧ p < a.ncols) ∨
      (st.rowPermutation[x]? = some none ∧ x < a.nrows ∧ p = num x ∧ a.ncols ≤ p ∧ p < top) := by
    intro x p hx
    have hlt : x < st.rowPermutation.length := by
      rw [e2.len, ← g2]
      exact (List.getElem?_eq_some_iff.1 hx).1
    cases hv : st.rowPermutation[x] with
    | some c =>
      have hv' : st.rowPermutation[x]? = some (some c) := by rw [List.getElem?_eq_getElem hlt, hv]
      have := g4 x c hv'
      rw [hx] at this
      simp only [Option.some.injEq] at this
      subst this
      exact Or.inl ⟨hv', (e2.used x p hv').1⟩
    | none =>
      have hv' : st.rowPermutation[x]? = some none := by rw [List.getElem?_eq_getElem hlt, hv]
      by_cases hxm : x < a.nrows
      · obtain ⟨q1, q2, q3⟩ := g6 x hv' hxm
        rw [hx] at q1
        simp only [Option.some.injEq] at q1
        exact Or.inr ⟨hv', hxm, q1, by omega, by omega⟩
      · have := g5 x hv' (by omega)
        rw [hx] at this
        simp at this
  have hlo := e2.lo
  have hcols : a.ncols ≤ st.mFictitious := by
    have := e2.left
    omega
  refine ⟨rp, st.mFictitious, ?_, ⟨g2, hlo, e2.hi, hcols, ?_, ?_, ?_, ?_, ?_, ?_, ?_⟩⟩
  · rw [assignRows, h1, ok_bind, e1, ok_bind, g1, ok_bind]
    rfl
  · intro i hi
    have hlt : i < st.rowPermutation.length := by rw [e2.len]; omega
    cases hv : st.rowPermutation[i] with
    | some c =>
      have hv' : st.rowPermutation[i]? = some (some c) := by rw [List.getElem?_eq_getElem hlt, hv]
      have := (e2.used i c hv').1
      exact ⟨c, g4 i c hv', by omega⟩
    | none =>
      have hv' : st.rowPermutation[i]? = some none := by rw [List.getElem?_eq_getElem hlt, hv]
      obtain ⟨q1, q2, q3⟩ := g6 i hv' hi
      exact ⟨num i, q1, by omega⟩
  · intro i i' p hx hx'
    rcases hcases i p hx with ⟨q1, q2⟩ | ⟨q1, q2, q3, q4, q5⟩ <;> rcases hcases i' p hx' with ⟨r1, r2⟩ | ⟨r1, r2, r3, r4, r5⟩
    · exact e2.inj i i' p q1 r1
    · omega
    · omega
    · exact g7 i i' (by omega) q1 r1 q2 r2
  · intro r p hx
    rcases hcases r p hx with ⟨q1, -⟩ | ⟨-, q2, -⟩
    · exact (e2.used r p q1).2
    · omega
  · intro c hc
    obtain ⟨r, hr⟩ := e2.owner c hc
    exact ⟨r, g4 r c hr⟩
  · intro i c hi hx hc
    rcases hcases i c hx with ⟨q1, -⟩ | ⟨-, -, -, q4, -⟩
    · exact e2.anc i c hi q1
    · omega
  · intro r c hr hx
    rcases hcases r c hx with ⟨q1, q2⟩ | ⟨-, q2, -⟩
    · refine ⟨q2, ?_⟩
      intro i f hf hd
      obtain ⟨c', h6, h7⟩ := e2.fict r c hr q1 i f hf hd
      exact ⟨c', g4 i c' h6, h7⟩
    · omega
  · intro r h6 h7
    obtain ⟨c, hc⟩ := e2.full r h6 h7
    exact ⟨c, (e2.used r c hc).1, g4 r c hc⟩

/-- No column is left without a row when the structural column rank is full. -/
theorem RowAssignment.total_eq {a : SparseStructure} {parents rp : List (Option Nat)} {post : List Nat} {total : Nat} (s : Setting a parents post)
    (h : RowAssignment a parents rp total) (hr : FullRank a) : total = a.nrows := by
  have t := s.tree
  obtain ⟨g, hg, hinj⟩ := hr
  by_contra hne
  have hlo := h.lo
  obtain ⟨c, hc, hrc⟩ := h.range a.nrows le_rfl (by omega)
  obtain ⟨-, hfict⟩ := h.fict a.nrows c le_rfl hrc
  classical
  let D : Finset Nat := (Finset.range a.ncols).filter (fun x => Desc parents x c)
  have hstep : ∀ x ∈ D, ∃ c', rp[g x]? = some (some c') ∧ Below parents c' c := by
    intro x hx
    simp only [D, Finset.mem_filter, Finset.mem_range] at hx
    obtain ⟨f, hf⟩ := s.exists_first (hg x hx.1)
    exact hfict (g x) f hf ((s.first_desc hf (hg x hx.1)).trans hx.2)
  choose! w hw using hstep
  have hcard : D.card ≤ (D.erase c).card := by
    refine Finset.card_le_card_of_injOn w ?_ ?_
    · intro x hx
      have := (hw x hx).2
      have hb := t.below_bound this
      simp only [D, Finset.coe_erase, Set.mem_diff, Finset.mem_coe, Finset.mem_filter, Finset.mem_range, Set.mem_singleton_iff]
      exact ⟨⟨hb.1, this.desc⟩, by omega⟩
    · intro x hx y hy hxy
      have h1 := (hw x hx).1
      have h2 := (hw y hy).1
      rw [hxy] at h1
      have := h.inj _ _ _ h1 h2
      simp only [D, Finset.coe_filter, Finset.mem_range, Set.mem_setOf_eq] at hx hy
      exact hinj x y hx.1 hy.1 this
  have hcD : c ∈ D := by simp [D, hc, Desc.refl]
  rw [Finset.card_erase_of_mem hcD] at hcard
  have := Finset.card_pos.2 ⟨c, hcD⟩
  omega

end Fiksi
