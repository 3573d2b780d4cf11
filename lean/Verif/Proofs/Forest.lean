import Verif.Spec.Forest
import Verif.Proofs.Compress
import Mathlib.Data.Finset.Card
import Mathlib.Data.Finset.Range
import Mathlib.Data.List.Nodup
import Mathlib.Data.List.Perm.Subperm
/-!
# Rooted forests
-/
namespace Fiksi

open Spec

variable {parents : List (Option Nat)}

theorem DepthOf_lt {v d : Nat} (h : DepthOf parents v d) : v < parents.length := by
  cases h with
  | root h => exact (List.getElem?_eq_some_iff.1 h).1
  | step h _ => exact (List.getElem?_eq_some_iff.1 h).1

theorem DepthOf_unique {v d d' : Nat} (h : DepthOf parents v d) (h' : DepthOf parents v d') : d = d' := by
  induction h generalizing d' with
  | root h =>
    cases h' with
    | root _ => rfl
    | step h'' _ => rw [h] at h''; simp at h''
  | step h _ ih =>
    cases h' with
    | root h'' => rw [h] at h''; simp at h''
    | step h'' hd =>
      rw [h] at h''
      simp only [Option.some.injEq] at h''
      subst h''
      rw [ih hd]

theorem Below_depth {v u d : Nat} (h : Below parents v u) (hd : DepthOf parents v d) : ∃ e, DepthOf parents u e ∧ e < d := by
  induction h generalizing d with
  | parent h =>
    cases hd with
    | root h' => rw [h] at h'; simp at h'
    | step h' hd =>
      rw [h] at h'
      simp only [Option.some.injEq] at h'
      subst h'
      exact ⟨_, hd, by omega⟩
  | step h _ ih =>
    cases hd with
    | root h' => rw [h] at h'; simp at h'
    | step h' hd =>
      rw [h] at h'
      simp only [Option.some.injEq] at h'
      subst h'
      obtain ⟨e, h1, h2⟩ := ih hd
      exact ⟨e, h1, by omega⟩

theorem Below_lt {v u : Nat} (h : Below parents v u) : v < parents.length := by
  cases h with
  | parent h => exact (List.getElem?_eq_some_iff.1 h).1
  | step h _ => exact (List.getElem?_eq_some_iff.1 h).1

theorem Below_irrefl (hf : IsForest parents) {v : Nat} : ¬ Below parents v v := by
  intro h
  obtain ⟨d, hd⟩ := hf v (Below_lt h)
  obtain ⟨e, h1, h2⟩ := Below_depth h hd
  have := DepthOf_unique hd h1
  omega

theorem Below_trans {v u w : Nat} (h : Below parents v u) (h' : Below parents u w) : Below parents v w := by
  induction h with
  | parent h => exact .step h h'
  | step h _ ih => exact .step h (ih h')

theorem Below_parent_lt (hf : IsForest parents) {v p : Nat} (h : parents[v]? = some (some p)) : p < parents.length := by
  obtain ⟨d, hd⟩ := hf v (List.getElem?_eq_some_iff.1 h).1
  obtain ⟨e, h1, -⟩ := Below_depth (.parent h) hd
  exact DepthOf_lt h1

/-- The children of a node, in decreasing order. -/
def kids (parents : List (Option Nat)) (v : Nat) : List Nat :=
  ((List.range parents.length).filter (fun c => parents[c]? = some (some v))).reverse

theorem mem_kids {c v : Nat} : c ∈ kids parents v ↔ parents[c]? = some (some v) := by
  simp only [kids, List.mem_reverse, List.mem_filter, List.mem_range, decide_eq_true_eq, and_iff_right_iff_imp]
  exact fun h => (List.getElem?_eq_some_iff.1 h).1

theorem kids_nodup {v : Nat} : (kids parents v).Nodup := by
  rw [kids, List.nodup_reverse]
  exact List.nodup_range.filter _

/-- Being below a node: being below or equal to one of its children. -/
theorem Below_iff {x v : Nat} : Below parents x v ↔ ∃ c ∈ kids parents v, x = c ∨ Below parents x c := by
  constructor
  · intro h
    induction h with
    | parent h => exact ⟨_, mem_kids.2 h, Or.inl rfl⟩
    | step h _ ih =>
      obtain ⟨c, h1, h2⟩ := ih
      refine ⟨c, h1, Or.inr ?_⟩
      rcases h2 with rfl | h2
      · exact .parent h
      · exact .step h h2
  · rintro ⟨c, h1, rfl | h2⟩
    · exact .parent (mem_kids.1 h1)
    · exact Below_trans h2 (.parent (mem_kids.1 h1))

/-- Two ancestors of a node are comparable. -/
theorem Below_comparable {x u w : Nat} (h : Below parents x u) (h' : Below parents x w) : u = w ∨ Below parents u w ∨ Below parents w u := by
  induction h with
  | parent h =>
    cases h' with
    | parent h'' => rw [h] at h''; simp only [Option.some.injEq] at h''; exact Or.inl h''
    | step h'' hb => rw [h] at h''; simp only [Option.some.injEq] at h''; subst h''; exact Or.inr (Or.inl hb)
  | step h hb ih =>
    cases h' with
    | parent h'' => rw [h] at h''; simp only [Option.some.injEq] at h''; subst h''; exact Or.inr (Or.inr hb)
    | step h'' hb' => rw [h] at h''; simp only [Option.some.injEq] at h''; subst h''; exact ih hb'

/-- The post-order listing of a list of siblings. -/
inductive PostForest (parents : List (Option Nat)) : List Nat → List Nat → Prop where
  | nil : PostForest parents [] []
  | cons {c : Nat} {cs l l' : List Nat} : PostForest parents (kids parents c) l → PostForest parents cs l' →
      PostForest parents (c :: cs) (l ++ c :: l')

theorem PostForest_mem {ks L : List Nat} (h : PostForest parents ks L) {x : Nat} : x ∈ L ↔ ∃ c ∈ ks, x = c ∨ Below parents x c := by
  induction h with
  | nil => simp
  | cons _ _ ih1 ih2 =>
    rw [List.mem_append, List.mem_cons, ih1, ih2, ← Below_iff]
    simp only [List.mem_cons, exists_eq_or_imp]
    rw [← or_assoc]
    exact or_congr or_comm Iff.rfl

theorem PostForest_nodup (hf : IsForest parents) {ks L : List Nat} (h : PostForest parents ks L) (hks : ks.Nodup)
    (hind : ∀ c ∈ ks, ∀ c' ∈ ks, ¬ Below parents c c') : L.Nodup := by
  induction h with
  | nil => simp
  | @cons c cs l l' h1 h2 ih1 ih2 =>
    rw [List.nodup_cons] at hks
    have hk : ∀ a ∈ kids parents c, ∀ b ∈ kids parents c, ¬ Below parents a b := by
      intro a ha b hb hab
      have ha' := mem_kids.1 ha
      have hb' := mem_kids.1 hb
      cases hab with
      | parent h =>
        rw [ha'] at h
        simp only [Option.some.injEq] at h
        subst h
        exact Below_irrefl hf (.parent hb')
      | step h hab =>
        rw [ha'] at h
        simp only [Option.some.injEq] at h
        subst h
        exact Below_irrefl hf (Below_trans hab (.parent hb'))
    have n1 := ih1 kids_nodup hk
    have n2 := ih2 hks.2 (fun a ha b hb => hind a (by simp [ha]) b (by simp [hb]))
    rw [List.nodup_append]
    refine ⟨n1, ?_, ?_⟩
    · rw [List.nodup_cons]
      refine ⟨?_, n2⟩
      rw [PostForest_mem h2]
      rintro ⟨c', hc', he | hb⟩
      · exact hks.1 (he ▸ hc')
      · exact hind c (by simp) c' (by simp [hc']) hb
    · intro x hx y hy hxy
      subst hxy
      rw [PostForest_mem h1, ← Below_iff] at hx
      rcases List.mem_cons.1 hy with rfl | hy
      · exact Below_irrefl hf hx
      · rw [PostForest_mem h2] at hy
        obtain ⟨c', hc', he⟩ := hy
        rcases he with rfl | he
        · exact hind x (by simp [hc']) c (by simp) hx
        · rcases Below_comparable hx he with rfl | h | h
          · exact hks.1 hc'
          · exact hind c (by simp) c' (by simp [hc']) h
          · exact hind c' (by simp [hc']) c (by simp) h

open Classical in
/-- Every node has a listing of its descendants. -/
theorem PostForest_exists (hf : IsForest parents) (v : Nat) : ∃ L, PostForest parents (kids parents v) L := by
  have key : ∀ m v, ((Finset.range parents.length).filter (fun x => Below parents x v)).card ≤ m → ∃ L, PostForest parents (kids parents v) L := by
    intro m
    induction m with
    | zero =>
      intro v hv
      have : kids parents v = [] := by
        rw [List.eq_nil_iff_forall_not_mem]
        intro c hc
        have hc' : Below parents c v := .parent (mem_kids.1 hc)
        have : c ∈ (Finset.range parents.length).filter (fun x => Below parents x v) :=
          Finset.mem_filter.2 ⟨Finset.mem_range.2 (Below_lt hc'), hc'⟩
        rw [Finset.card_eq_zero.1 (Nat.le_zero.1 hv)] at this
        simp at this
      rw [this]
      exact ⟨[], .nil⟩
    | succ m ih =>
      intro v hv
      have hkid : ∀ c ∈ kids parents v, ∃ L, PostForest parents (kids parents c) L := by
        intro c hc
        have hc' : Below parents c v := .parent (mem_kids.1 hc)
        apply ih
        have hss : (Finset.range parents.length).filter (fun x => Below parents x c) ⊂
            (Finset.range parents.length).filter (fun x => Below parents x v) := by
          rw [Finset.ssubset_iff_of_subset]
          · refine ⟨c, Finset.mem_filter.2 ⟨Finset.mem_range.2 (Below_lt hc'), hc'⟩, ?_⟩
            intro h
            exact Below_irrefl hf (Finset.mem_filter.1 h).2
          · intro x hx
            rw [Finset.mem_filter] at *
            exact ⟨hx.1, Below_trans hx.2 hc'⟩
        have := Finset.card_lt_card hss
        omega
      generalize kids parents v = ks at hkid
      induction ks with
      | nil => exact ⟨[], .nil⟩
      | cons c cs ih2 =>
        obtain ⟨l, hl⟩ := hkid c (by simp)
        obtain ⟨l', hl'⟩ := ih2 (fun c hc => hkid c (by simp [hc]))
        exact ⟨_, .cons hl hl'⟩
  exact key _ v (le_refl _)

/-- Every listed node is preceded by exactly its descendants. -/
theorem PostForest_split {ks L : List Nat} (h : PostForest parents ks L) {u : Nat} (hu : u ∈ L) :
    ∃ A l B, L = A ++ (l ++ u :: B) ∧ ∀ v, v ∈ l ↔ Below parents v u := by
  induction h with
  | nil => simp at hu
  | @cons c cs l l' h1 h2 ih1 ih2 =>
    rcases List.mem_append.1 hu with hu | hu
    · obtain ⟨A, m, B, e1, e2⟩ := ih1 hu
      exact ⟨A, m, B ++ c :: l', by rw [e1]; simp, e2⟩
    · rcases List.mem_cons.1 hu with rfl | hu
      · refine ⟨[], l, l', rfl, ?_⟩
        intro v
        rw [PostForest_mem h1, ← Below_iff]
      · obtain ⟨A, m, B, e1, e2⟩ := ih2 hu
        exact ⟨l ++ c :: A, m, B, by rw [e1]; simp, e2⟩

/-! ## The linked lists -/

/-- The list starting at a link. -/
inductive Chain (next : List (Option Nat)) : Option Nat → List Nat → Prop where
  | nil : Chain next none []
  | cons {c : Nat} {o : Option Nat} {cs : List Nat} : next[c]? = some o → Chain next o cs → Chain next (some c) (c :: cs)

theorem Chain_congr {next next' : List (Option Nat)} {o : Option Nat} {l : List Nat} (h : Chain next o l)
    (he : ∀ c ∈ l, next'[c]? = next[c]?) : Chain next' o l := by
  induction h with
  | nil => exact .nil
  | cons h _ ih => exact .cons (by rw [he _ (by simp)]; exact h) (ih (fun c hc => he c (by simp [hc])))

theorem linkChild_spec (hf : IsForest parents) :
    ∃ head next, (List.range parents.length).foldlM (linkChild parents) (List.replicate parents.length none, List.replicate parents.length none) =
      .ok (head, next) ∧ head.length = parents.length ∧
      ∀ v, v < parents.length → ∃ o, head[v]? = some o ∧ Chain next o (kids parents v) := by
  obtain ⟨⟨head, next⟩, h1, h2, h3, h4⟩ := foldlM_prefix (fun (pre : List Nat) (st : List (Option Nat) × List (Option Nat)) =>
      st.1.length = parents.length ∧ st.2.length = parents.length ∧
      ∀ v, v < parents.length → ∃ o, st.1[v]? = some o ∧ Chain st.2 o ((pre.filter (fun c => parents[c]? = some (some v))).reverse))
    (linkChild parents) (List.range parents.length) (List.replicate parents.length none, List.replicate parents.length none)
    ⟨by simp, by simp, fun v hv => ⟨none, by simp [hv], .nil⟩⟩ (by
    rintro pre node post ⟨head, next⟩ hl ⟨e1, e2, e3⟩
    simp only at e1 e2 e3
    have hnode : node < parents.length := List.mem_range.1 (by rw [hl]; simp)
    have hnd : (pre ++ node :: post).Nodup := hl ▸ List.nodup_range
    have hnp : node ∉ pre := by
      intro h
      exact (List.nodup_append.1 hnd).2.2 node h node (by simp) rfl
    have hp : parents[node]? = some parents[node] := List.getElem?_eq_getElem hnode
    rw [linkChild, idx_of hp, ok_bind]
    cases hpn : parents[node] with
    | none =>
      rw [hpn] at hp
      refine ⟨_, rfl, e1, e2, ?_⟩
      intro v hv
      obtain ⟨o, f1, f2⟩ := e3 v hv
      refine ⟨o, f1, ?_⟩
      rw [List.filter_append]
      simpa [hp] using f2
    | some p =>
      rw [hpn] at hp
      have hpl := Below_parent_lt hf hp
      obtain ⟨o, f1, f2⟩ := e3 p hpl
      simp only
      rw [idx_of f1, ok_bind, setIdx_of _ (by omega), ok_bind, setIdx_of _ (by omega), ok_bind]
      refine ⟨_, rfl, by simpa using e1, by simpa using e2, ?_⟩
      intro v hv
      simp only
      have hcong : ∀ {w : Nat} {o : Option Nat}, Chain next o ((pre.filter (fun c => parents[c]? = some (some w))).reverse) → ∀ x,
          Chain (next.set node x) o ((pre.filter (fun c => parents[c]? = some (some w))).reverse) := by
        intro w o h x
        apply Chain_congr h
        intro c hc
        rw [List.mem_reverse, List.mem_filter] at hc
        rw [List.getElem?_set_ne]
        rintro rfl
        exact hnp hc.1
      by_cases hvp : p = v
      · subst hvp
        refine ⟨some node, by rw [List.getElem?_set_self (by omega)], ?_⟩
        rw [List.filter_append, List.reverse_append]
        simp only [List.filter_cons, hp, decide_true, if_true, List.filter_nil, List.reverse_cons, List.reverse_nil, List.nil_append]
        exact .cons (by rw [List.getElem?_set_self (by omega)]) (hcong f2 o)
      · obtain ⟨o', g1, g2⟩ := e3 v hv
        refine ⟨o', by rw [List.getElem?_set_ne hvp]; exact g1, ?_⟩
        rw [List.filter_append]
        have : ¬ parents[node]? = some (some v) := by
          rw [hp]
          simpa using hvp
        simp only [List.filter_cons, this, decide_false, Bool.false_eq_true, if_false, List.filter_nil, List.append_nil]
        exact hcong g2 o)
  exact ⟨head, next, h1, h2, h4⟩

/-- Traversing the children of a node. -/
theorem dfsFrom_children {next : List (Option Nat)} {ks L : List Nat} (h : PostForest parents ks L) :
    ∀ (node : Nat) (head : List (Option Nat)) (post stack : List Nat) (fuel : Nat) (o : Option Nat), head[node]? = some o → Chain next o ks →
      node ∉ L → L.Nodup → (∀ x ∈ L, ∃ o, head[x]? = some o ∧ Chain next o (kids parents x)) →
      ∃ head', dfsFrom next (fuel + 2 * L.length) node head post stack = dfsFrom next fuel node head' (post ++ L) stack ∧
        head'.length = head.length ∧ head'[node]? = some none ∧ ∀ y, y ∉ L → y ≠ node → head'[y]? = head[y]? := by
  induction h with
  | nil =>
    intro node head post stack fuel o ho hc _ _ _
    cases hc
    exact ⟨head, by simp, rfl, ho, fun _ _ _ => rfl⟩
  | @cons c cs l l' h1 h2 ih1 ih2 =>
    intro node head post stack fuel o ho hc hnL hnd hheads
    cases hc with
    | @cons _ o' _ hnext hchain =>
      have hnl : node < head.length := (List.getElem?_eq_some_iff.1 ho).1
      have hcn : c ≠ node := by
        rintro rfl
        exact hnL (by simp)
      rw [List.nodup_append, List.nodup_cons] at hnd
      obtain ⟨n1, ⟨n2, n3⟩, n4⟩ := hnd
      have hcl : c ∉ l := fun h => n4 c h c (by simp) rfl
      obtain ⟨oc, hoc, hocc⟩ := hheads c (by simp)
      -- descend
      have e0 : dfsFrom next (fuel + 2 * (l ++ c :: l').length) node head post stack =
          dfsFrom next ((fuel + 2 * l'.length + 1) + 2 * l.length) c (head.set node o') post (node :: stack) := by
        rw [show fuel + 2 * (l ++ c :: l').length = ((fuel + 2 * l'.length + 1) + 2 * l.length) + 1 by simp; omega]
        conv_lhs => rw [dfsFrom.eq_def]
        simp only
        rw [idx_of ho, ok_bind]
        simp only
        rw [idx_of hnext, ok_bind, setIdx_of _ hnl, ok_bind]
      obtain ⟨head1, f1, f2, f3, f4⟩ := ih1 c (head.set node o') post (node :: stack) (fuel + 2 * l'.length + 1) oc
        (by rw [List.getElem?_set_ne (Ne.symm hcn)]; exact hoc) hocc hcl n1 (by
          intro x hx
          obtain ⟨ox, hox1, hox2⟩ := hheads x (by simp [hx])
          refine ⟨ox, ?_, hox2⟩
          rw [List.getElem?_set_ne]
          · exact hox1
          · rintro rfl
            exact hnL (by simp [hx]))
      have hnl' : node ∉ l := fun h => hnL (by simp [h])
      have hnode1 : head1[node]? = some o' := by
        rw [f4 node hnl' (Ne.symm hcn), List.getElem?_set_self hnl]
      -- emit c
      have e1 : dfsFrom next (fuel + 2 * l'.length + 1) c head1 (post ++ l) (node :: stack) =
          dfsFrom next (fuel + 2 * l'.length) node head1 (post ++ l ++ [c]) stack := by
        rw [dfsFrom.eq_def]
        simp only
        rw [idx_of f3, ok_bind]
      obtain ⟨head2, g1, g2, g3, g4⟩ := ih2 node head1 (post ++ l ++ [c]) stack fuel o' hnode1 hchain (fun h => hnL (by simp [h])) n3 (by
          intro x hx
          obtain ⟨ox, hox1, hox2⟩ := hheads x (by simp [hx])
          refine ⟨ox, ?_, hox2⟩
          have hxl : x ∉ l := fun h => n4 x h x (by simp [hx]) rfl
          have hxc : x ≠ c := by rintro rfl; exact n2 hx
          have hxn : x ≠ node := by rintro rfl; exact hnL (by simp [hx])
          rw [f4 x hxl hxc, List.getElem?_set_ne (Ne.symm hxn)]
          exact hox1)
      refine ⟨head2, ?_, by rw [g2, f2, List.length_set], g3, ?_⟩
      · rw [e0, f1, e1, g1]
        simp
      · intro y hy hyn
        simp only [List.mem_append, List.mem_cons, not_or] at hy
        rw [g4 y hy.2.2 hyn, f4 y hy.1 hy.2.1, List.getElem?_set_ne (Ne.symm hyn)]

/-- Traversing a whole tree. -/
theorem dfsFrom_root {next : List (Option Nat)} {r : Nat} {L : List Nat} (h : PostForest parents (kids parents r) L) {head : List (Option Nat)}
    {post : List Nat} {fuel : Nat} (hr : r ∉ L) (hnd : L.Nodup) (hfuel : 2 * L.length + 1 ≤ fuel)
    (hheads : ∀ x, x = r ∨ x ∈ L → ∃ o, head[x]? = some o ∧ Chain next o (kids parents x)) :
    ∃ head', dfsFrom next fuel r head post [] = .ok (head', post ++ (L ++ [r])) ∧
      ∀ y, y ∉ L → y ≠ r → head'[y]? = head[y]? := by
  obtain ⟨o, h1, h2⟩ := hheads r (Or.inl rfl)
  obtain ⟨head', e1, e2, e3, e4⟩ := dfsFrom_children h r head post [] (fuel - 2 * L.length) o h1 h2 hr hnd (fun x hx => hheads x (Or.inr hx))
  refine ⟨head', ?_, e4⟩
  rw [show fuel = fuel - 2 * L.length + 2 * L.length by omega, e1, show fuel - 2 * L.length = (fuel - 2 * L.length - 1) + 1 by omega,
    dfsFrom.eq_def]
  simp only
  rw [idx_of e3, ok_bind]
  simp

/-- The roots. -/
def rootsOf (l : List (Option Nat × Nat)) : List Nat := l.filterMap (fun p => match p.1 with | none => some p.2 | some _ => none)

theorem PostForest_append {ks ks' L L' : List Nat} (h : PostForest parents ks L) (h' : PostForest parents ks' L') :
    PostForest parents (ks ++ ks') (L ++ L') := by
  induction h with
  | nil => exact h'
  | cons h1 _ _ ih2 =>
    rw [List.cons_append, List.append_assoc, List.cons_append]
    exact .cons h1 ih2

/-- The result is the listing of the roots in increasing order. -/
theorem postOrder_listing (hf : IsForest parents) :
    ∃ post, postOrder parents = .ok post ∧ PostForest parents (rootsOf parents.zipIdx) post ∧ post.Nodup ∧ ∀ v, v ∈ post ↔ v < parents.length := by
  obtain ⟨head, next, h1, h2, h3⟩ := linkChild_spec hf
  have hroot : ∀ r, (none, r) ∈ parents.zipIdx ↔ parents[r]? = some none := by
    intro r
    exact List.mem_zipIdx_iff_getElem?
  have hmemroots : ∀ (l : List (Option Nat × Nat)) r, r ∈ rootsOf l ↔ (none, r) ∈ l := by
    intro l r
    rw [rootsOf, List.mem_filterMap]
    constructor
    · rintro ⟨⟨o, x⟩, h1, h2⟩
      cases o with
      | none => simp at h2; subst h2; exact h1
      | some _ => simp at h2
    · intro h
      exact ⟨_, h, rfl⟩
  have hrootind : ∀ r, parents[r]? = some none → ∀ w, ¬ Below parents r w := by
    intro r hr w h
    cases h with
    | parent h => rw [hr] at h; simp at h
    | step h _ => rw [hr] at h; simp at h
  have hrootsnd : ∀ (l : List (Option Nat × Nat)), (l.map Prod.snd).Nodup → (rootsOf l).Nodup := by
    intro l
    induction l with
    | nil => simp [rootsOf]
    | cons x l ih =>
      obtain ⟨o, r⟩ := x
      intro hn
      rw [List.map_cons, List.nodup_cons] at hn
      cases o with
      | some _ => exact ih hn.2
      | none =>
        show (r :: rootsOf l).Nodup
        rw [List.nodup_cons]
        refine ⟨?_, ih hn.2⟩
        rw [hmemroots]
        intro h
        exact hn.1 (List.mem_map.2 ⟨_, h, rfl⟩)
  have hzip : (parents.zipIdx.map Prod.snd).Nodup := by
    rw [List.zipIdx_map_snd, ← List.range_eq_range']
    exact List.nodup_range
  have hlisting : ∀ (pre : List (Option Nat × Nat)), (∃ post, parents.zipIdx = pre ++ post) → ∀ L, PostForest parents (rootsOf pre) L → L.Nodup := by
    rintro pre ⟨post, hl⟩ L hL
    refine PostForest_nodup hf hL (hrootsnd pre ?_) ?_
    · rw [hl, List.map_append] at hzip
      exact (List.nodup_append.1 hzip).1
    · intro c hc c' _
      rw [hmemroots] at hc
      exact hrootind c ((hroot c).1 (by rw [hl]; simp [hc])) c'
  obtain ⟨⟨head', post⟩, e1, e2, -⟩ := foldlM_prefix (fun (pre : List (Option Nat × Nat)) (st : List (Option Nat) × List Nat) =>
      PostForest parents (rootsOf pre) st.2 ∧ ∀ y, y ∉ st.2 → st.1[y]? = head[y]?) (dfsRoot next parents.length) parents.zipIdx (head, [])
      ⟨.nil, fun _ _ => rfl⟩ (by
    rintro pre ⟨o, r⟩ rest ⟨hd, post⟩ hl ⟨f1, f2⟩
    simp only at f1 f2
    cases o with
    | some p =>
      refine ⟨(hd, post), rfl, ?_, f2⟩
      have : rootsOf (pre ++ [(some p, r)]) = rootsOf pre := by simp [rootsOf]
      rw [this]
      exact f1
    | none =>
      have hr : parents[r]? = some none := (hroot r).1 (by rw [hl]; simp)
      obtain ⟨L, hL⟩ := PostForest_exists hf r
      have hroots : rootsOf (pre ++ [(none, r)]) = rootsOf pre ++ [r] := by simp [rootsOf]
      have hnew : PostForest parents (rootsOf (pre ++ [(none, r)])) (post ++ (L ++ [r])) := by
        rw [hroots]
        exact PostForest_append f1 (.cons hL .nil)
      have hnd : (post ++ (L ++ [r])).Nodup := hlisting (pre ++ [(none, r)]) ⟨rest, by rw [hl]; simp⟩ _ hnew
      have hbound : ∀ x ∈ post ++ (L ++ [r]), x < parents.length := by
        intro x hx
        rw [PostForest_mem hnew] at hx
        obtain ⟨c, hc, rfl | hb⟩ := hx
        · rw [hmemroots] at hc
          have : (none, x) ∈ parents.zipIdx := by
            rw [hl]
            rcases List.mem_append.1 hc with h | h
            · simp [h]
            · simp only [List.mem_singleton, Prod.mk.injEq, true_and] at h
              simp [h]
          exact (List.getElem?_eq_some_iff.1 ((hroot x).1 this)).1
        · exact Below_lt hb
      have hlen : (post ++ (L ++ [r])).length ≤ parents.length := by
        have := (List.subperm_of_subset hnd (l₂ := List.range parents.length) (fun x hx => List.mem_range.2 (hbound x hx))).length_le
        simpa using this
      have hnd' := hnd
      rw [List.nodup_append, List.nodup_append] at hnd'
      obtain ⟨-, ⟨n1, -, n2⟩, n3⟩ := hnd'
      obtain ⟨head'', g1, g2⟩ := dfsFrom_root hL (head := hd) (post := post) (fuel := 2 * parents.length + 1) (next := next)
        (fun h => n2 r h r (by simp) rfl) n1 (by simp at hlen; omega) (by
          intro x hx
          have hx' : x ∈ L ++ [r] := by
            rcases hx with rfl | hx
            · simp
            · simp [hx]
          rw [f2 x (fun h => n3 x h x hx' rfl)]
          exact h3 x (hbound x (by simp only [List.mem_append]; exact Or.inr (List.mem_append.1 hx'))))
      refine ⟨(head'', post ++ (L ++ [r])), g1, hnew, ?_⟩
      intro y hy
      simp only [List.mem_append, List.mem_singleton, not_or] at hy
      rw [g2 y hy.2.1 hy.2.2, f2 y hy.1])
  simp only at e2
  refine ⟨post, ?_, e2, hlisting _ ⟨[], by simp⟩ _ e2, ?_⟩
  · rw [postOrder]
    simp only
    rw [h1, ok_bind]
    simp only
    rw [e1]
    rfl
  · intro v
    rw [PostForest_mem e2]
    constructor
    · rintro ⟨c, hc, rfl | hb⟩
      · rw [hmemroots, hroot] at hc
        exact (List.getElem?_eq_some_iff.1 hc).1
      · exact Below_lt hb
    · intro hv
      obtain ⟨d, hd⟩ := hf v hv
      clear hv
      induction hd with
      | @root v h => exact ⟨v, (hmemroots _ _).2 ((hroot v).2 h), Or.inl rfl⟩
      | @step v p d h _ ih =>
        obtain ⟨c, hc, rfl | hb⟩ := ih
        · exact ⟨p, hc, Or.inr (.parent h)⟩
        · exact ⟨c, hc, Or.inr (.step h hb)⟩

end Fiksi
