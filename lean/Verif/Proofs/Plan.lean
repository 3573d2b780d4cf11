import Verif.Proofs.Scc
import Verif.Spec.Plan
import Verif.Proofs.Reaches
import Verif.Props.ApiUpdates
/-! # Plans of the SinglePass decomposer -/
namespace Fiksi

open Relation (ReflTransGen)

/-- Equation `e` of the graph reads variable `v`. -/
def ExprGraph.Reads (g : ExprGraph) (e v : Nat) : Prop := ∃ vs, g.expressions[e]? = some vs ∧ v ∈ vs

/-- The two adjacency lists of an expression graph describe the same edges. -/
def ExprGraph.Consistent (g : ExprGraph) : Prop := ∀ v e, (∃ l, g.vars[v]? = some l ∧ e ∈ l) ↔ g.Reads e v

/-- The free variables are variables of the graph, and not too many. -/
structure MaskOk (g : ExprGraph) (free : Finset Nat) : Prop where
  bound : ∀ v ∈ free, v < g.vars.length
  small : free.card < 2 ^ 32 - 1

theorem maskedGraph_ok {g : ExprGraph} {free : Finset Nat} (h : MaskOk g free) : (maskedGraph g free).Ok := by
  refine ⟨ascending_nodup _, ?_, ?_⟩
  · intro a ha
    have ha' : a ∈ free := (mem_ascending _ _).1 ha
    exact ⟨g.vars[a]'(h.bound a ha'), List.getElem?_eq_getElem _⟩
  · show (ascending free).length < u32Max
    rw [ascending_length]
    have := h.small
    unfold u32Max
    omega

theorem maskedGraph_adj {g : ExprGraph} (hc : g.Consistent) (free : Finset Nat) (v e : Nat) :
    (maskedGraph g free).Adj v e ↔ Spec.CanPair g.Reads free v e := by
  unfold AToB.Adj Spec.CanPair maskedGraph
  simp only [mem_ascending]
  rw [← hc v e]

/-- The pairs of a matching. -/
def Matching.pairs (m : Matching) : Finset (Nat × Nat) := m.aToB.toFinset

theorem MOk.mem_pairs {g : AToB} {m : Matching} (h : MOk g m) (a b : Nat) : (a, b) ∈ m.pairs ↔ m.aToB.get? a = some b := by
  unfold Matching.pairs
  rw [List.mem_toFinset]
  exact ⟨fun hm => IMap.get?_of_mem h.nodupA hm, fun hm => IMap.mem_of_get? hm⟩

theorem MOk.isMatching {g : AToB} {m : Matching} (h : MOk g m) : Spec.IsMatching g.Adj m.pairs := by
  refine ⟨?_, ?_, ?_⟩
  · rintro ⟨a, b⟩ hp
    exact h.adj a b ((h.mem_pairs a b).1 hp)
  · rintro ⟨a, b⟩ hp ⟨a', b'⟩ hq he
    rw [h.mem_pairs] at hp hq
    cases he
    rw [hp] at hq
    cases hq
    rfl
  · rintro ⟨a, b⟩ hp ⟨a', b'⟩ hq he
    rw [h.mem_pairs, h.ab] at hp hq
    cases he
    rw [hp] at hq
    cases hq
    rfl

theorem MOk.card_pairs {g : AToB} {m : Matching} (h : MOk g m) : m.pairs.card = m.size := by
  unfold Matching.pairs Matching.size
  have hn : List.Nodup m.aToB := List.Nodup.of_map _ h.nodupA
  rw [List.toFinset_card_of_nodup hn, IMap.length_keys]

/-- The matching as a set of pairs. -/
theorem masked_matching {g : ExprGraph} (hc : g.Consistent) {free : Finset Nat} (hm : MaskOk g free) :
    ∃ m, findMaximumMatching (maskedGraph g free) = .ok m ∧ MOk (maskedGraph g free) m ∧
      Spec.IsMaximumMatching (Spec.CanPair g.Reads free) m.pairs := by
  obtain ⟨m, h1, h2, h3⟩ := findMaximumMatching_spec (maskedGraph_ok hm)
  have hadj : (maskedGraph g free).Adj = Spec.CanPair g.Reads free := by
    funext v e
    exact propext (maskedGraph_adj hc free v e)
  refine ⟨m, h1, h2, ?_, ?_⟩
  · rw [← hadj]; exact h2.isMatching
  · intro M' hM'
    rw [h2.card_pairs]
    exact h3 M' (by rw [hadj]; exact hM')

theorem option_mapM_flatten {f : Nat → Option (List Nat)} (l : List Nat) (h : ∀ a ∈ l, ∃ y, f a = some y) :
    ∃ ls, l.mapM f = some ls ∧ ∀ z, z ∈ ls.flatten ↔ ∃ a ∈ l, ∃ y, f a = some y ∧ z ∈ y := by
  induction l with
  | nil => exact ⟨[], rfl, by simp⟩
  | cons a l ih =>
    obtain ⟨y, hy⟩ := h a (by simp)
    obtain ⟨ls, h1, h2⟩ := ih (fun b hb => h b (by simp [hb]))
    refine ⟨y :: ls, ?_, ?_⟩
    · rw [List.mapM_cons, hy, h1]; rfl
    · intro z
      simp only [List.flatten_cons, List.mem_append, h2, List.mem_cons, exists_eq_or_imp, hy, Option.some.injEq, exists_eq_left']

section
variable {g : ExprGraph} {free : Finset Nat} {m : Matching}

/-- The neighbours of an equation in the directed graph. -/
theorem matchedGraph_neighbors (hc : g.Consistent) (hm : MaskOk g free) (h : MOk (maskedGraph g free) m) {x : Nat}
    (hx : x ∈ m.bToA.keys) : ∃ l, (matchedGraph g free m).neighbors x = some l ∧
      ∀ y, y ∈ l ↔ Spec.Feeds g.Reads free m.pairs x y := by
  obtain ⟨a, ha⟩ := (IMap.mem_keys_iff _ _).1 hx
  have hadj := h.adj a x ((h.ab a x).2 ha)
  rw [maskedGraph_adj hc] at hadj
  obtain ⟨haf, vs, hvs, hav⟩ := hadj
  set fl := (vs.filter (fun v => decide (v ∈ free))).filter (fun b => b == a || !m.aToB.contains b) with hfl
  have hmem : ∀ b, b ∈ fl ↔ b ∈ vs ∧ b ∈ free ∧ ((b, x) ∈ m.pairs ∨ ∀ e, (b, e) ∉ m.pairs) := by
    intro b
    rw [hfl]
    simp only [List.mem_filter, decide_eq_true_eq, Bool.or_eq_true, beq_iff_eq, Bool.not_eq_true']
    have h1 : (b, x) ∈ m.pairs ↔ b = a := by
      rw [h.mem_pairs, h.ab, ha]
      simp [eq_comm]
    have h2 : (∀ e, (b, e) ∉ m.pairs) ↔ m.aToB.contains b = false := by
      rw [IMap.contains_eq_isSome]
      simp only [h.mem_pairs]
      cases hb : m.aToB.get? b <;> simp
    rw [h1, h2, and_assoc]
  obtain ⟨ls, e1, e2⟩ := option_mapM_flatten (f := fun b => (maskedGraph g free).neighborsOfA b) fl (by
    intro b hb
    have hb' := ((hmem b).1 hb).2.1
    exact ⟨g.vars[b]'(hm.bound b hb'), List.getElem?_eq_getElem _⟩)
  refine ⟨ls.flatten.filter (fun b => b != x && m.bToA.contains b), ?_, ?_⟩
  · show (do
      let matchedA ← m.bToA.get? x
      let vs ← neighborsOfB g free x
      let ls ← (vs.filter (fun a => a == matchedA || !m.aToB.contains a)).mapM (fun a => (maskedGraph g free).neighborsOfA a)
      pure (ls.flatten.filter (fun b => b != x && m.bToA.contains b)) : Option (List Nat)) = _
    rw [ha]
    have hnb : neighborsOfB g free x = some (vs.filter (fun v => decide (v ∈ free))) := by
      unfold neighborsOfB
      rw [hvs]; rfl
    simp only [Option.bind_eq_bind, Option.bind_some, hnb]
    rw [← hfl, e1]
    rfl
  · intro y
    simp only [List.mem_filter, e2, Bool.and_eq_true, bne_iff_ne, ne_eq, IMap.contains_iff]
    unfold Spec.Feeds
    have hbk : ∀ z, z ∈ m.bToA.keys ↔ ∃ b, (b, z) ∈ m.pairs := by
      intro z
      rw [IMap.mem_keys_iff]
      constructor
      · rintro ⟨b, hb⟩; exact ⟨b, by rw [h.mem_pairs, h.ab]; exact hb⟩
      · rintro ⟨b, hb⟩; rw [h.mem_pairs, h.ab] at hb; exact ⟨b, hb⟩
    rw [hbk y]
    constructor
    · rintro ⟨⟨b, hb, l, hl, hyl⟩, hne, hyk⟩
      obtain ⟨h1, h2, h3⟩ := (hmem b).1 hb
      exact ⟨fun he => hne he.symm, (hbk x).1 hx, hyk, b, h2, ⟨vs, hvs, h1⟩, (hc b y).1 ⟨l, hl, hyl⟩, h3⟩
    · rintro ⟨hne, _, hyk, b, h2, ⟨vs', hvs', h1⟩, h4, h3⟩
      rw [hvs] at hvs'
      cases hvs'
      obtain ⟨l, hl, hyl⟩ := (hc b y).2 h4
      exact ⟨⟨b, (hmem b).2 ⟨h1, h2, h3⟩, l, hl, hyl⟩, fun he => hne he.symm, hyk⟩

theorem matchedGraph_edge (hc : g.Consistent) (hm : MaskOk g free) (h : MOk (maskedGraph g free) m) (x y : Nat) :
    (matchedGraph g free m).Edge x y ↔ Spec.Feeds g.Reads free m.pairs x y := by
  by_cases hx : x ∈ m.bToA.keys
  · obtain ⟨l, h1, h2⟩ := matchedGraph_neighbors hc hm h hx
    constructor
    · rintro ⟨l', h3, h4⟩
      rw [h1] at h3
      cases h3
      exact (h2 y).1 h4
    · intro hf
      exact ⟨l, h1, (h2 y).2 hf⟩
  · constructor
    · rintro ⟨l', h3, _⟩
      have : m.bToA.get? x = none := (IMap.get?_eq_none_iff _ _).2 hx
      simp only [matchedGraph, this, Option.bind_eq_bind, Option.bind_none] at h3
      exact absurd h3 (by simp)
    · rintro ⟨_, ⟨a, ha⟩, _⟩
      rw [h.mem_pairs, h.ab] at ha
      exact absurd ((IMap.mem_keys_iff _ _).2 ⟨a, ha⟩) hx

theorem MOk.mem_keysB (h : MOk (maskedGraph g free) m) (z : Nat) : z ∈ m.bToA.keys ↔ ∃ b, (b, z) ∈ m.pairs := by
  rw [IMap.mem_keys_iff]
  constructor
  · rintro ⟨b, hb⟩; exact ⟨b, by rw [h.mem_pairs, h.ab]; exact hb⟩
  · rintro ⟨b, hb⟩; rw [h.mem_pairs, h.ab] at hb; exact ⟨b, hb⟩

theorem MOk.keysB_length (h : MOk (maskedGraph g free) m) : m.bToA.keys.length ≤ free.card := by
  classical
  rw [← List.toFinset_card_of_nodup h.nodupB]
  refine Finset.card_le_card_of_injOn (fun b => (m.bToA.get? b).getD 0) ?_ ?_
  · intro b hb
    have hb' : b ∈ m.bToA.keys := by simpa using hb
    obtain ⟨a, ha⟩ := (IMap.mem_keys_iff _ _).1 hb'
    have := (h.adj a b ((h.ab a b).2 ha)).1
    show (m.bToA.get? b).getD 0 ∈ free
    rw [ha]
    exact (mem_ascending _ _).1 this
  · intro b hb b' hb' he
    have hb1 : b ∈ m.bToA.keys := by simpa using hb
    have hb2 : b' ∈ m.bToA.keys := by simpa using hb'
    obtain ⟨a, ha⟩ := (IMap.mem_keys_iff _ _).1 hb1
    obtain ⟨a', ha'⟩ := (IMap.mem_keys_iff _ _).1 hb2
    simp only [ha, ha', Option.getD_some] at he
    subst he
    have h1 := (h.ab a b).2 ha
    have h2 := (h.ab a b').2 ha'
    rw [h1] at h2
    cases h2
    rfl

theorem matchedGraph_ok (hc : g.Consistent) (hm : MaskOk g free) (h : MOk (maskedGraph g free) m) :
    (matchedGraph g free m).Ok := by
  refine ⟨h.nodupB, ?_, ?_, ?_⟩
  · intro x hx
    obtain ⟨l, h1, _⟩ := matchedGraph_neighbors hc hm h hx
    exact ⟨l, h1⟩
  · intro x _ y hy
    obtain ⟨_, _, h1, _⟩ := (matchedGraph_edge hc hm h x y).1 hy
    exact (h.mem_keysB y).2 h1
  · have h1 := h.keysB_length
    have h2 := hm.small
    show m.bToA.keys.length + 1 < 2 ^ 32
    omega

/-- The variables a step may change. -/
theorem sccBlock_ok (h : MOk (maskedGraph g free) m) (hc : g.Consistent) (es : List Nat) (hes : ∀ e ∈ es, e ∈ m.bToA.keys) :
    ∃ B, sccBlock g free m es = .ok B ∧ B.expressions = es ∧
      ∀ v, v ∈ B.freeVariables ↔ ∃ e ∈ es, g.Reads e v ∧ v ∈ free ∧ ((v, e) ∈ m.pairs ∨ ∀ e', (v, e') ∉ m.pairs) := by
  have hloop : ∀ (es : List Nat) (acc : Finset Nat), (∀ e ∈ es, e ∈ m.bToA.keys) →
      ∃ vs, es.foldlM (fun (acc : Finset Nat) e => do
        let matchedVar ← unwrap (m.bToA.get? e)
        let vars ← idx g.expressions e
        pure (acc ∪ (vars.filter (fun v => v == matchedVar || (!m.aToB.contains v && decide (v ∈ free)))).toFinset)) acc =
          (.ok vs : R (Finset Nat)) ∧
        ∀ v, v ∈ vs ↔ v ∈ acc ∨ ∃ e ∈ es, g.Reads e v ∧ v ∈ free ∧ ((v, e) ∈ m.pairs ∨ ∀ e', (v, e') ∉ m.pairs) := by
    intro es
    induction es with
    | nil => intro acc _; exact ⟨acc, rfl, by simp⟩
    | cons e es ih =>
      intro acc hes
      obtain ⟨a, ha⟩ := (IMap.mem_keys_iff _ _).1 (hes e (by simp))
      have hadj := h.adj a e ((h.ab a e).2 ha)
      rw [maskedGraph_adj hc] at hadj
      obtain ⟨haf, vs, hvs, hav⟩ := hadj
      obtain ⟨res, e1, e2⟩ := ih (acc ∪ (vs.filter (fun v => v == a || (!m.aToB.contains v && decide (v ∈ free)))).toFinset)
        (fun e' he' => hes e' (by simp [he']))
      refine ⟨res, ?_, ?_⟩
      · rw [List.foldlM_cons]
        have hidx : idx g.expressions e = .ok vs := by unfold idx; rw [hvs]
        simp only [ha, unwrap, ok_bind, hidx]
        exact e1
      · intro v
        rw [e2 v, Finset.mem_union, List.mem_toFinset, List.mem_filter]
        simp only [List.mem_cons, exists_eq_or_imp]
        have h1 : (v, e) ∈ m.pairs ↔ v = a := by
          rw [h.mem_pairs, h.ab, ha]
          simp [eq_comm]
        have h2 : (∀ e', (v, e') ∉ m.pairs) ↔ m.aToB.contains v = false := by
          rw [IMap.contains_eq_isSome]
          simp only [h.mem_pairs]
          cases hb : m.aToB.get? v <;> simp
        have h3 : g.Reads e v ↔ v ∈ vs := by
          unfold ExprGraph.Reads
          rw [hvs]; simp
        rw [h1, h2, h3, or_assoc]
        refine or_congr_right (or_congr_left ?_)
        simp only [Bool.or_eq_true, beq_iff_eq, Bool.and_eq_true, Bool.not_eq_true', decide_eq_true_eq]
        constructor
        · rintro ⟨k1, k2 | ⟨k2, k3⟩⟩
          · exact ⟨k1, k2 ▸ haf, Or.inl k2⟩
          · exact ⟨k1, k3, Or.inr k2⟩
        · rintro ⟨k1, k2, k3 | k3⟩
          · exact ⟨k1, Or.inl k3⟩
          · exact ⟨k1, Or.inr ⟨k3, k2⟩⟩
  obtain ⟨vs, h1, h2⟩ := hloop es ∅ hes
  refine ⟨⟨vs, es⟩, ?_, rfl, ?_⟩
  · unfold sccBlock
    rw [h1]
    rfl
  · intro v
    rw [h2 v]
    simp

end

theorem mapM_forall₂ {α β : Type} {f : α → R β} {Q : α → β → Prop} (l : List α) (h : ∀ a ∈ l, ∃ b, f a = .ok b ∧ Q a b) :
    ∃ bs, l.mapM f = .ok bs ∧ List.Forall₂ Q l bs := by
  induction l with
  | nil => exact ⟨[], rfl, List.Forall₂.nil⟩
  | cons a l ih =>
    obtain ⟨b, h1, h2⟩ := h a (by simp)
    obtain ⟨bs, h3, h4⟩ := ih (fun x hx => h x (by simp [hx]))
    refine ⟨b :: bs, ?_, List.Forall₂.cons h2 h4⟩
    rw [List.mapM_cons, h1, ok_bind, h3]
    rfl

theorem index_unique {ss : List (List Nat)} (h : ss.flatten.Nodup) {i j : Nat} {s t : List Nat} (hi : ss[i]? = some s)
    (hj : ss[j]? = some t) {x : Nat} (hs : x ∈ s) (ht : x ∈ t) : i = j := by
  rw [List.nodup_flatten] at h
  have hp := h.2
  rw [List.pairwise_iff_getElem] at hp
  obtain ⟨hi1, hi2⟩ := List.getElem?_eq_some_iff.1 hi
  obtain ⟨hj1, hj2⟩ := List.getElem?_eq_some_iff.1 hj
  rcases Nat.lt_trichotomy i j with hlt | heq | hgt
  · exact absurd (hj2 ▸ ht) (hp i j hi1 hj1 hlt (hi2 ▸ hs))
  · exact heq
  · exact absurd (hi2 ▸ hs) (hp j i hj1 hi1 hgt (hj2 ▸ ht))

theorem forall₂_getElem? {α β : Type} {Q : α → β → Prop} {l : List α} {m : List β} (h : List.Forall₂ Q l m) (i : Nat) {b : β}
    (hb : m[i]? = some b) : ∃ a, l[i]? = some a ∧ Q a b := by
  induction h generalizing i with
  | nil => simp at hb
  | cons h1 h2 ih =>
    cases i with
    | zero => simp only [List.getElem?_cons_zero, Option.some.injEq] at hb; subst hb; exact ⟨_, rfl, h1⟩
    | succ i => simpa using ih i (by simpa using hb)

theorem forall₂_getElem?' {α β : Type} {Q : α → β → Prop} {l : List α} {m : List β} (h : List.Forall₂ Q l m) (i : Nat) {a : α}
    (ha : l[i]? = some a) : ∃ b, m[i]? = some b ∧ Q a b := by
  induction h generalizing i with
  | nil => simp at ha
  | cons h1 h2 ih =>
    cases i with
    | zero => simp only [List.getElem?_cons_zero, Option.some.injEq] at ha; subst ha; exact ⟨_, rfl, h1⟩
    | succ i => simpa using ih i (by simpa using ha)

/-- The plan as the specification sees it. -/
def stepsOf (plan : List Block) : List (Finset Nat × List Nat) := plan.map (fun b => (b.freeVariables, b.expressions))

/-- Everything about the plan of the SinglePass decomposer. -/
theorem plan_spec {g : ExprGraph} (hc : g.Consistent) {free : Finset Nat} (hm : MaskOk g free) :
    ∃ plan M, g.findStronglyConnectedExpressions free = .ok plan ∧
      Spec.IsMaximumMatching (Spec.CanPair g.Reads free) M ∧
      Spec.IsSccOrder (((stepsOf plan).map Prod.snd).flatten) (Spec.Feeds g.Reads free M) ((stepsOf plan).map Prod.snd).reverse ∧
      ((stepsOf plan).map Prod.snd).flatten.Nodup ∧
      (∀ e, e ∈ ((stepsOf plan).map Prod.snd).flatten ↔ ∃ v, (v, e) ∈ M) ∧
      (∀ s ∈ stepsOf plan, ∀ v, v ∈ s.1 ↔ ∃ e ∈ s.2, g.Reads e v ∧ v ∈ free ∧ ((v, e) ∈ M ∨ ∀ e', (v, e') ∉ M)) := by
  obtain ⟨m, h1, h2, h3⟩ := masked_matching hc hm
  obtain ⟨sccs, h4, h5⟩ := tarjanPearce_spec (matchedGraph_ok hc hm h2)
  have hedge : (matchedGraph g free m).Edge = Spec.Feeds g.Reads free m.pairs := by
    funext x y
    exact propext (matchedGraph_edge hc hm h2 x y)
  rw [hedge] at h5
  have hsub : ∀ s ∈ sccs.reverse, ∀ e ∈ s, e ∈ m.bToA.keys := by
    intro s hs e he
    exact h5.perm.mem_iff.1 (List.mem_flatten.2 ⟨s, by simpa using hs, he⟩)
  obtain ⟨plan, h6, h7⟩ := mapM_forall₂ (f := sccBlock g free m)
    (Q := fun es B => B.expressions = es ∧
      ∀ v, v ∈ B.freeVariables ↔ ∃ e ∈ es, g.Reads e v ∧ v ∈ free ∧ ((v, e) ∈ m.pairs ∨ ∀ e', (v, e') ∉ m.pairs))
    sccs.reverse (fun s hs => sccBlock_ok h2 hc s (hsub s hs))
  have hexpr : (stepsOf plan).map Prod.snd = sccs.reverse := by
    unfold stepsOf
    rw [List.map_map]
    have hgen : ∀ (l : List (List Nat)) (bs : List Block), List.Forall₂ (fun es B => B.expressions = es ∧
        ∀ v, v ∈ B.freeVariables ↔ ∃ e ∈ es, g.Reads e v ∧ v ∈ free ∧ ((v, e) ∈ m.pairs ∨ ∀ e', (v, e') ∉ m.pairs)) l bs →
        bs.map (Prod.snd ∘ fun b : Block => (b.freeVariables, b.expressions)) = l := by
      intro l bs hf
      induction hf with
      | nil => rfl
      | cons k1 _ ih => simp only [List.map_cons, ih, Function.comp_apply, k1.1]
    exact hgen _ _ h7
  have hperm : sccs.reverse.flatten.Perm m.bToA.keys := (List.Perm.flatten (List.reverse_perm sccs)).trans h5.perm
  refine ⟨plan, m.pairs, ?_, h3, ?_, ?_, ?_, ?_⟩
  · unfold ExprGraph.findStronglyConnectedExpressions
    rw [h1, ok_bind, h4, ok_bind]
    exact h6
  · rw [hexpr, List.reverse_reverse]
    exact ⟨(List.Perm.flatten (List.reverse_perm sccs)).symm, h5.nonempty, h5.exact, h5.order⟩
  · rw [hexpr]; exact hperm.nodup_iff.2 h2.nodupB
  · intro e
    rw [hexpr, hperm.mem_iff, h2.mem_keysB]
  · intro s hs v
    unfold stepsOf at hs
    rw [List.mem_map] at hs
    obtain ⟨B, hB, rfl⟩ := hs
    obtain ⟨i, hi⟩ := List.mem_iff_getElem?.1 hB
    obtain ⟨es, _, k1, k2⟩ := forall₂_getElem? h7 i hi
    rw [k2 v, k1]

/-- Reversed indices. -/
theorem reverse_index {α : Type} {l : List α} {i : Nat} {x : α} (h : l[i]? = some x) : l.reverse[l.length - 1 - i]? = some x := by
  obtain ⟨hi, rfl⟩ := List.getElem?_eq_some_iff.1 h
  rw [List.getElem?_reverse (by omega)]
  rw [List.getElem?_eq_some_iff]
  have : l.length - 1 - (l.length - 1 - i) = i := by omega
  exact ⟨by omega, by simp only [this]⟩

theorem plan_ok {g : ExprGraph} {free : Finset Nat} {steps : List (Finset Nat × List Nat)} {M : Finset (Nat × Nat)}
    (h1 : Spec.IsMaximumMatching (Spec.CanPair g.Reads free) M)
    (hord : Spec.IsSccOrder ((steps.map Prod.snd).flatten) (Spec.Feeds g.Reads free M) (steps.map Prod.snd).reverse)
    (hmem : ∀ e, e ∈ (steps.map Prod.snd).flatten ↔ ∃ v, (v, e) ∈ M)
    (hnd : (steps.map Prod.snd).flatten.Nodup)
    (hfree : ∀ s ∈ steps, ∀ v, v ∈ s.1 ↔ ∃ e ∈ s.2, g.Reads e v ∧ v ∈ free ∧ ((v, e) ∈ M ∨ ∀ e', (v, e') ∉ M)) :
    Spec.PlanOk g.Reads free steps ∧ Spec.InSolvingOrder g.Reads free steps := by
  have hsnd : ∀ (i : Nat) s, steps[i]? = some s → (steps.map Prod.snd)[i]? = some s.2 := by
    intro i s hi
    rw [List.getElem?_map, hi]; rfl
  have hin : ∀ s ∈ steps, ∀ e ∈ s.2, ∃ v, (v, e) ∈ M := by
    intro s hs e he
    rw [← hmem]
    exact List.mem_flatten.2 ⟨s.2, List.mem_map_of_mem hs, he⟩
  -- two equations that feed each other are in the same step
  have hsame : ∀ (i j : Nat) s t, steps[i]? = some s → steps[j]? = some t → ∀ e ∈ s.2, ∀ e' ∈ t.2,
      Spec.StronglyConnected (Spec.Feeds g.Reads free M) e e' → i = j := by
    intro i j s t hi hj e he e' he' hsc
    have hs : s.2 ∈ (steps.map Prod.snd).reverse := by
      rw [List.mem_reverse]; exact List.mem_map_of_mem (List.mem_of_getElem? hi)
    have := (hord.exact s.2 hs e he e').2 hsc
    exact index_unique hnd (hsnd i s hi) (hsnd j t hj) this he'
  refine ⟨⟨?_, ?_, ?_, ?_, ?_⟩, ?_⟩
  · rw [List.flatMap_def]; exact hnd
  · intro i j s t hi hj hne
    rw [Finset.disjoint_left]
    intro v hvs hvt
    obtain ⟨e, he, r1, r2, r3⟩ := (hfree s (List.mem_of_getElem? hi) v).1 hvs
    obtain ⟨e', he', r1', _, r3'⟩ := (hfree t (List.mem_of_getElem? hj) v).1 hvt
    rcases r3 with r3 | r3
    · rcases r3' with r3' | r3'
      · have := h1.1.left _ r3 _ r3' rfl
        cases this
        exact hne (index_unique hnd (hsnd i s hi) (hsnd j t hj) he he')
      · exact absurd r3 (r3' e)
    · rcases r3' with r3' | r3'
      · exact absurd r3' (r3 e')
      · by_cases hee : e = e'
        · subst hee
          exact hne (index_unique hnd (hsnd i s hi) (hsnd j t hj) he he')
        · have p1 := hin s (List.mem_of_getElem? hi) e he
          have p2 := hin t (List.mem_of_getElem? hj) e' he'
          refine hne (hsame i j s t hi hj e he e' he' ⟨ReflTransGen.single ?_, ReflTransGen.single ?_⟩)
          · exact ⟨hee, p1, p2, v, r2, r1, r1', Or.inr r3⟩
          · exact ⟨fun h => hee h.symm, p2, p1, v, r2, r1', r1, Or.inr r3⟩
  · intro s hs v hv
    obtain ⟨_, _, _, r2, _⟩ := (hfree s hs v).1 hv
    exact r2
  · intro s hs v hv
    obtain ⟨e, he, r1, _⟩ := (hfree s hs v).1 hv
    exact ⟨e, he, r1⟩
  · intro s hs
    refine ⟨hord.nonempty s.2 (by rw [List.mem_reverse]; exact List.mem_map_of_mem hs), ?_⟩
    classical
    have hsn : s.2.Nodup := by
      rw [List.nodup_flatten] at hnd
      exact hnd.1 s.2 (List.mem_map_of_mem hs)
    rw [← List.toFinset_card_of_nodup hsn]
    have hch : ∀ e, ∃ v, e ∈ s.2 → (v, e) ∈ M := by
      intro e
      by_cases he : e ∈ s.2
      · obtain ⟨v, hv⟩ := hin s hs e he
        exact ⟨v, fun _ => hv⟩
      · exact ⟨0, fun h => absurd h he⟩
    choose f hf using hch
    refine Finset.card_le_card_of_injOn f ?_ ?_
    · intro e he
      have he' : e ∈ s.2 := by simpa using he
      have hpair := h1.1.edge _ (hf e he')
      exact (hfree s hs (f e)).2 ⟨e, he', hpair.2, hpair.1, Or.inl (hf e he')⟩
    · intro e he e' he' hee
      have k1 : e ∈ s.2 := by simpa using he
      have k2 : e' ∈ s.2 := by simpa using he'
      have := h1.1.left _ (hf e k1) _ (hf e' k2) hee
      exact congrArg Prod.snd this
  · intro j t hj e he v hv hr
    by_cases hun : ∀ e', (v, e') ∉ M
    · exact ⟨j, t, Nat.le_refl _, hj, (hfree t (List.mem_of_getElem? hj) v).2 ⟨e, he, hr, hv, Or.inr hun⟩⟩
    · have hun' : ∃ x, (v, x) ∈ M := by simpa using hun
      obtain ⟨x, hx⟩ := hun'
      have hxr : g.Reads x v := (h1.1.edge _ hx).2
      by_cases hxe : x = e
      · subst hxe
        exact ⟨j, t, Nat.le_refl _, hj, (hfree t (List.mem_of_getElem? hj) v).2 ⟨x, he, hr, hv, Or.inl hx⟩⟩
      · -- the step of `x`
        have hxin := (hmem x).2 ⟨v, hx⟩
        obtain ⟨s2, hs2, hxs⟩ := List.mem_flatten.1 hxin
        obtain ⟨s, hs, rfl⟩ := List.mem_map.1 hs2
        obtain ⟨i, hi⟩ := List.mem_iff_getElem?.1 hs
        refine ⟨i, s, ?_, hi, (hfree s hs v).2 ⟨x, hxs, hxr, hv, Or.inl hx⟩⟩
        have hfeed : Spec.Feeds g.Reads free M x e :=
          ⟨hxe, ⟨v, hx⟩, hin t (List.mem_of_getElem? hj) e he, v, hv, hxr, hr, Or.inl hx⟩
        have hlen : (steps.map Prod.snd).length = steps.length := List.length_map _
        have hil : i < steps.length := by
          obtain ⟨h, _⟩ := List.getElem?_eq_some_iff.1 hi; exact h
        have hjl : j < steps.length := by
          obtain ⟨h, _⟩ := List.getElem?_eq_some_iff.1 hj; exact h
        obtain ⟨k, t', k1, k2, k3⟩ := hord.order _ _ (reverse_index (hsnd i s hi)) x hxs e hfeed
        have hnd' : (steps.map Prod.snd).reverse.flatten.Nodup :=
          (List.Perm.flatten (List.reverse_perm _)).nodup_iff.2 hnd
        have hkj := index_unique hnd' k2 (reverse_index (hsnd j t hj)) k3 he
        omega

/-! ## Graphs of reachable systems -/

variable {F : Type}

open Spec in
theorem Reaches.consistent {counter : Nat} {ops : List (Op F)} {c : Client F} (h : Reaches counter ops c) :
    c.sys.equationGraph.Consistent := by
  intro v e
  have hr := h.crel.rel
  unfold ExprGraph.Reads
  rw [hr.eqGraph.expressions, List.getElem?_map]
  constructor
  · rintro ⟨l, hl, he⟩
    have hv : v < c.sys.vars.length := by
      have := (List.getElem?_eq_some_iff.1 hl).1
      rw [hr.eqGraph.varsLength] at this
      exact this
    rw [hr.eqGraph.vars v hv] at hl
    cases hl
    have hcnt := mem_usesOf c.sys.expressions v e
    rw [← List.count_pos_iff, hcnt] at he
    cases hk : c.sys.expressions[e]? with
    | none => rw [hk] at he; simp at he
    | some ex =>
      rw [hk] at he
      exact ⟨_, rfl, List.count_pos_iff.1 he⟩
  · rintro ⟨vs, hvs, hv⟩
    cases hk : c.sys.expressions[e]? with
    | none => rw [hk] at hvs; simp at hvs
    | some ex =>
      rw [hk] at hvs
      simp only [Option.map_some, Option.some.injEq] at hvs
      subst hvs
      have hvl := hr.expr_lt (List.mem_of_getElem? hk) hv
      refine ⟨_, hr.eqGraph.vars v hvl, ?_⟩
      rw [← List.count_pos_iff, mem_usesOf, hk]
      exact List.count_pos_iff.2 hv

open Spec in
theorem Reaches.maskOk {counter : Nat} {ops : List (Op F)} {c : Client F} (h : Reaches counter ops c) {free : Finset Nat}
    (hf : ∀ v ∈ free, v < c.sys.vars.length) : MaskOk c.sys.equationGraph free := by
  have hr := h.crel.rel
  refine ⟨fun v hv => by rw [hr.eqGraph.varsLength]; exact hf v hv, ?_⟩
  have h1 : free.card ≤ c.sys.vars.length := by
    have : free ⊆ Finset.range c.sys.vars.length := fun v hv => Finset.mem_range.2 (hf v hv)
    simpa using Finset.card_le_card this
  have h2 : c.sys.vars.length ≤ 2 * ((Spec.Store.empty F).run ops).elems.length := by
    rw [hr.vars]; exact flatMap_length_le _
  have h3 := h.size.1
  omega

end Fiksi
