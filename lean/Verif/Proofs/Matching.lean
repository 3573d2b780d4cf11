import Verif.Model.Matching
import Verif.Proofs.Basic
import Verif.Proofs.IndexMap
import Verif.Spec.Matching
import Mathlib.Data.List.Count
/-! # Hopcroft–Karp: validity, termination and maximality -/
namespace Fiksi

/-- What the callers guarantee about a graph: distinct vertices with neighbour lists, fewer than `u32::MAX` of them. -/
structure AToB.Ok (g : AToB) : Prop where
  nodup : g.verticesA.Nodup
  neighbors : ∀ a ∈ g.verticesA, ∃ l, g.neighborsOfA a = some l
  small : g.verticesA.length < u32Max

/-- Edges of the graph. -/
def AToB.Adj (g : AToB) (a b : Nat) : Prop := a ∈ g.verticesA ∧ ∃ l, g.neighborsOfA a = some l ∧ b ∈ l

/-- The two maps of a matching describe the same set of edges. -/
structure MOk (g : AToB) (m : Matching) : Prop where
  ab : ∀ a b, m.aToB.get? a = some b ↔ m.bToA.get? b = some a
  adj : ∀ a b, m.aToB.get? a = some b → g.Adj a b
  nodupA : m.aToB.keys.Nodup
  nodupB : m.bToA.keys.Nodup

theorem MOk.new (g : AToB) : MOk g Matching.new :=
  ⟨by simp [Matching.new], by simp [Matching.new], by simp [Matching.new, IMap.keys], by simp [Matching.new, IMap.keys]⟩

/-! ## Breadth-first search -/

/-- Invariant of the search. `cur` is the vertex whose neighbours are being scanned. -/
structure BInv (g : AToB) (m : Matching) (cur : Option Nat) (st : BfsState) : Prop where
  keys : st.distance.keys = g.verticesA
  queue : ∀ a ∈ st.queue, ∃ d, st.distance.get? a = some d ∧ d ≠ u32Max
  free : ∀ a ∈ g.verticesA, m.aToB.get? a = none → st.distance.get? a = some 0
  zero : ∀ a, st.distance.get? a = some 0 → m.aToB.get? a = none
  pred : ∀ a k, st.distance.get? a = some (k + 1) → k + 1 ≠ u32Max →
    ∃ p b, st.distance.get? p = some k ∧ g.Adj p b ∧ m.bToA.get? b = some a
  le : ∀ a d, st.distance.get? a = some d → d ≤ u32Max
  dummy : st.dummy ≠ u32Max → ∃ a b k, st.dummy = k + 1 ∧ st.distance.get? a = some k ∧ g.Adj a b ∧ m.bToA.get? b = none
  dummyLe : st.dummy ≤ u32Max
  closed : st.dummy = u32Max → ∀ a d, st.distance.get? a = some d → d ≠ u32Max → a ∉ st.queue → cur ≠ some a →
    ∀ b, g.Adj a b → ∃ a' d', m.bToA.get? b = some a' ∧ st.distance.get? a' = some d' ∧ d' ≠ u32Max

/-- All smaller distances occur. -/
theorem layers {g : AToB} {m : Matching} {cur : Option Nat} {st : BfsState} (h : BInv g m cur st) :
    ∀ d, d ≠ u32Max → ∀ a, st.distance.get? a = some d → ∀ j, j ≤ d → ∃ u, st.distance.get? u = some j := by
  intro d
  induction d with
  | zero =>
    intro _ a ha j hj
    have : j = 0 := by omega
    exact ⟨a, this ▸ ha⟩
  | succ d ih =>
    intro hd a ha j hj
    by_cases hjd : j = d + 1
    · exact ⟨a, hjd ▸ ha⟩
    · obtain ⟨p, b, hp, _, _⟩ := h.pred a d ha hd
      have hle := h.le a _ ha
      exact ih (by omega) p hp j (by omega)

/-- Finite distances are smaller than the number of vertices. -/
theorem BInv.bound {g : AToB} {m : Matching} {cur : Option Nat} {st : BfsState} (h : BInv g m cur st)
    {a d : Nat} (ha : st.distance.get? a = some d) (hd : d ≠ u32Max) : d < g.verticesA.length := by
  have hl := layers h d hd a ha
  choose! f hf using hl
  have hinj : Set.InjOn f (Finset.range (d + 1) : Finset Nat) := by
    intro i hi j hj hij
    simp only [Finset.coe_range, Set.mem_Iio] at hi hj
    have h1 := hf i (by omega)
    have h2 := hf j (by omega)
    rw [hij, h2] at h1
    exact (Option.some.inj h1).symm
  have hsub : (Finset.range (d + 1)).image f ⊆ g.verticesA.toFinset := by
    intro x hx
    obtain ⟨i, hi, rfl⟩ := Finset.mem_image.1 hx
    simp only [Finset.mem_range] at hi
    rw [List.mem_toFinset, ← h.keys, IMap.mem_keys_iff]
    exact ⟨i, hf i (by omega)⟩
  have h1 := Finset.card_le_card hsub
  rw [Finset.card_image_of_injOn hinj, Finset.card_range] at h1
  have h2 := List.toFinset_card_le g.verticesA
  omega

/-- Number of vertices without a distance plus length of the queue. -/
def bfsMeasure (g : AToB) (st : BfsState) : Nat :=
  g.verticesA.countP (fun a => st.distance.get? a == some u32Max) + st.queue.length

theorem countP_change {l : List Nat} (hn : l.Nodup) {x : Nat} (hx : x ∈ l) {p q : Nat → Bool}
    (hpx : p x = true) (hqx : q x = false) (h : ∀ y, y ≠ x → p y = q y) : l.countP q + 1 = l.countP p := by
  induction l with
  | nil => simp at hx
  | cons y l ih =>
    rw [List.nodup_cons] at hn
    rw [List.countP_cons, List.countP_cons]
    by_cases hy : y = x
    · subst hy
      have : l.countP q = l.countP p := by
        apply List.countP_congr
        intro z hz
        rw [h z (fun he => hn.1 (he ▸ hz))]
      rw [hpx, hqx, this]
      simp
    · have hxl : x ∈ l := by
        rcases List.mem_cons.1 hx with h' | h'
        · exact absurd h'.symm hy
        · exact h'
      rw [h y hy]
      have := ih hn.2 hxl
      omega

/-- Distances and the dummy distance only go from infinite to finite. -/
structure BMono (st st' : BfsState) : Prop where
  dist : ∀ a d, st.distance.get? a = some d → d ≠ u32Max → st'.distance.get? a = some d
  dummy : st.dummy ≠ u32Max → st'.dummy = st.dummy
  queue : ∀ a ∈ st.queue, a ∈ st'.queue

theorem BMono.rfl {st : BfsState} : BMono st st := ⟨fun _ _ h _ => h, fun _ => by trivial, fun _ h => h⟩

theorem BMono.trans {a b c : BfsState} (h : BMono a b) (h' : BMono b c) : BMono a c :=
  ⟨fun x d hx hd => h'.dist x d (h.dist x d hx hd) hd,
   fun hd => by
     have h1 := h.dummy hd
     rw [h'.dummy (by rw [h1]; exact hd), h1],
   fun x hx => h'.queue x (h.queue x hx)⟩

theorem bfsVisit_spec {g : AToB} (hg : g.Ok) {m : Matching} (hm : MOk g m) {c d b : Nat} {st : BfsState}
    (h : BInv g m (some c) st) (hc : st.distance.get? c = some d) (hd : d ≠ u32Max) (hb : g.Adj c b) :
    ∃ st', bfsVisit m (saturatingSucc d) st b = .ok st' ∧ BInv g m (some c) st' ∧ BMono st st' ∧
      bfsMeasure g st' = bfsMeasure g st ∧
      (st'.dummy = u32Max → ∃ a' d', m.bToA.get? b = some a' ∧ st'.distance.get? a' = some d' ∧ d' ≠ u32Max) := by
  have hbound := h.bound hc hd
  have hsmall := hg.small
  have hsat : saturatingSucc d = d + 1 := by unfold saturatingSucc; omega
  rw [hsat]
  unfold bfsVisit
  cases hmb : m.bToA.get? b with
  | none =>
    by_cases hdm : st.dummy = u32Max
    · refine ⟨{ st with dummy := d + 1 }, by simp [hdm], ?_, ?_, by rfl, ?_⟩
      · exact {
          keys := h.keys, queue := h.queue, free := h.free, zero := h.zero, pred := h.pred, le := h.le
          dummy := fun _ => ⟨c, b, d, by rfl, hc, hb, hmb⟩
          dummyLe := by show d + 1 ≤ u32Max; omega
          closed := by
            intro hx
            have hx' : d + 1 = u32Max := hx
            omega }
      · exact ⟨fun _ _ hx _ => hx, fun hx => absurd hdm hx, fun _ hx => hx⟩
      · intro hx
        have hx' : d + 1 = u32Max := hx
        omega
    · exact ⟨st, by simp [hdm], h, BMono.rfl, by rfl, fun hx => absurd hx hdm⟩
  | some a' =>
    have haa : m.aToB.get? a' = some b := (hm.ab a' b).2 hmb
    have hav : a' ∈ g.verticesA := (hm.adj a' b haa).1
    have hk : a' ∈ st.distance.keys := h.keys ▸ hav
    obtain ⟨d', hd'⟩ := (IMap.mem_keys_iff _ _).1 hk
    simp only [hd', unwrap, ok_bind]
    by_cases hmax : d' = u32Max
    · subst hmax
      simp only [if_true]
      have hne : ∀ x e, st.distance.get? x = some e → e ≠ u32Max → x ≠ a' := by
        intro x e hx he hxa
        subst hxa
        rw [hd'] at hx
        exact he (Option.some.inj hx).symm
      refine ⟨_, rfl, ?_, ?_, ?_, ?_⟩
      · exact {
          keys := by
            show (IMap.insert st.distance a' (d + 1)).keys = g.verticesA
            rw [IMap.keys_insert_of_mem _ _ hk, h.keys]
          queue := by
            intro x hx
            show ∃ e, (IMap.insert st.distance a' (d + 1)).get? x = some e ∧ e ≠ u32Max
            by_cases hxa : x = a'
            · subst hxa
              exact ⟨d + 1, IMap.get?_insert_self _ _ _, by omega⟩
            · rw [IMap.get?_insert_ne _ _ hxa]
              rcases List.mem_append.1 hx with hx | hx
              · exact h.queue x hx
              · exact absurd (List.mem_singleton.1 hx) hxa
          free := by
            intro x hx hxm
            show (IMap.insert st.distance a' (d + 1)).get? x = some 0
            have : x ≠ a' := by
              intro hxa; subst hxa; rw [haa] at hxm; exact absurd hxm (by simp)
            rw [IMap.get?_insert_ne _ _ this]
            exact h.free x hx hxm
          zero := by
            intro x hx
            change (IMap.insert st.distance a' (d + 1)).get? x = some 0 at hx
            by_cases hxa : x = a'
            · subst hxa
              rw [IMap.get?_insert_self] at hx
              simp at hx
            · rw [IMap.get?_insert_ne _ _ hxa] at hx
              exact h.zero x hx
          pred := by
            intro x k hx hkm
            change (IMap.insert st.distance a' (d + 1)).get? x = some (k + 1) at hx
            by_cases hxa : x = a'
            · subst hxa
              rw [IMap.get?_insert_self] at hx
              have hkd : d = k := by
                have := Option.some.inj hx
                omega
              subst hkd
              refine ⟨c, b, ?_, hb, hmb⟩
              show (IMap.insert st.distance x (d + 1)).get? c = some d
              rw [IMap.get?_insert_ne _ _ (hne c d hc hd)]
              exact hc
            · rw [IMap.get?_insert_ne _ _ hxa] at hx
              obtain ⟨p, b', hp, h2, h3⟩ := h.pred x k hx hkm
              refine ⟨p, b', ?_, h2, h3⟩
              show (IMap.insert st.distance a' (d + 1)).get? p = some k
              have hle := h.le x _ hx
              rw [IMap.get?_insert_ne _ _ (hne p k hp (by omega))]
              exact hp
          le := by
            intro x e hx
            change (IMap.insert st.distance a' (d + 1)).get? x = some e at hx
            rw [IMap.get?_insert] at hx
            split at hx
            · have := Option.some.inj hx; omega
            · exact h.le x e hx
          dummy := by
            intro hx
            obtain ⟨x, y, k, h1, h2, h3, h4⟩ := h.dummy hx
            refine ⟨x, y, k, h1, ?_, h3, h4⟩
            show (IMap.insert st.distance a' (d + 1)).get? x = some k
            have hle := h.dummyLe
            have hx' : st.dummy ≠ u32Max := hx
            rw [IMap.get?_insert_ne _ _ (hne x k h2 (by omega))]
            exact h2
          dummyLe := h.dummyLe
          closed := by
            intro hx x e hxe he hxq hxc y hy
            change (IMap.insert st.distance a' (d + 1)).get? x = some e at hxe
            have hxq' : x ∉ st.queue ∧ x ≠ a' := by
              change x ∉ st.queue ++ [a'] at hxq
              simpa using hxq
            rw [IMap.get?_insert_ne _ _ hxq'.2] at hxe
            obtain ⟨z, f, h1, h2, h3⟩ := h.closed hx x e hxe he hxq'.1 hxc y hy
            refine ⟨z, f, h1, ?_, h3⟩
            show (IMap.insert st.distance a' (d + 1)).get? z = some f
            rw [IMap.get?_insert_ne _ _ (hne z f h2 h3)]
            exact h2 }
      · refine ⟨?_, fun _ => rfl, fun x hx => List.mem_append_left _ hx⟩
        intro x e hx he
        show (IMap.insert st.distance a' (d + 1)).get? x = some e
        rw [IMap.get?_insert_ne _ _ (hne x e hx he)]
        exact hx
      · unfold bfsMeasure
        have := countP_change hg.nodup hav (p := fun a => st.distance.get? a == some u32Max)
          (q := fun a => (IMap.insert st.distance a' (d + 1)).get? a == some u32Max)
          (by simp [hd']) (by
            rw [IMap.get?_insert_self]
            have : d + 1 ≠ u32Max := by omega
            simp [this]) (by
            intro y hy
            rw [IMap.get?_insert_ne _ _ hy])
        simp only [List.length_append, List.length_singleton]
        omega
      · intro _
        refine ⟨a', d + 1, rfl, ?_, by omega⟩
        exact IMap.get?_insert_self _ _ _
    · simp only [hmax, if_false]
      exact ⟨st, rfl, h, BMono.rfl, by rfl, fun _ => ⟨a', d', rfl, hd', hmax⟩⟩

theorem bfsVisits_spec {g : AToB} (hg : g.Ok) {m : Matching} (hm : MOk g m) {c d : Nat} (hd : d ≠ u32Max) :
    ∀ (bs : List Nat) (st : BfsState), (∀ b ∈ bs, g.Adj c b) → BInv g m (some c) st → st.distance.get? c = some d →
    ∃ st', bs.foldlM (bfsVisit m (saturatingSucc d)) st = .ok st' ∧ BInv g m (some c) st' ∧ BMono st st' ∧
      bfsMeasure g st' = bfsMeasure g st ∧
      (st'.dummy = u32Max → ∀ b ∈ bs, ∃ a' d', m.bToA.get? b = some a' ∧ st'.distance.get? a' = some d' ∧ d' ≠ u32Max) := by
  intro bs
  induction bs with
  | nil => intro st _ h _; exact ⟨st, rfl, h, BMono.rfl, rfl, by simp⟩
  | cons b bs ih =>
    intro st hb h hc
    obtain ⟨s1, h1, h2, h3, h4, h5⟩ := bfsVisit_spec hg hm h hc hd (hb b (by simp))
    obtain ⟨s2, g1, g2, g3, g4, g5⟩ := ih s1 (fun b hb' => hb b (by simp [hb'])) h2 (h3.dist c d hc hd)
    refine ⟨s2, by rw [List.foldlM_cons, h1]; exact g1, g2, h3.trans g3, by rw [g4, h4], ?_⟩
    intro hdm x hx
    have h1dm : s1.dummy = u32Max := by
      by_contra hne
      rw [g3.dummy hne] at hdm
      exact hne hdm
    rcases List.mem_cons.1 hx with hx | hx
    · subst hx
      obtain ⟨a', d', k1, k2, k3⟩ := h5 h1dm
      exact ⟨a', d', k1, g3.dist a' d' k2 k3, k3⟩
    · exact g5 hdm x hx

theorem bfsLoop_spec {g : AToB} (hg : g.Ok) {m : Matching} (hm : MOk g m) :
    ∀ (fuel : Nat) (st : BfsState), bfsMeasure g st < fuel → BInv g m none st →
    ∃ st', bfsLoop g m fuel st = .ok st' ∧ BInv g m none st' ∧ st'.queue = [] := by
  intro fuel
  induction fuel with
  | zero => intro st h; omega
  | succ fuel ih =>
    intro st hf h
    unfold bfsLoop
    cases hq : st.queue with
    | nil => exact ⟨st, rfl, h, hq⟩
    | cons a queue =>
      obtain ⟨d, hd, hdm⟩ := h.queue a (by rw [hq]; simp)
      have hav : a ∈ g.verticesA := by
        rw [← h.keys, IMap.mem_keys_iff]; exact ⟨d, hd⟩
      simp only [hd, unwrap, ok_bind]
      have hqs : ∀ x ∈ queue, x ∈ st.queue := fun x hx => by rw [hq]; exact List.mem_cons_of_mem _ hx
      have hpop : BInv g m (some a) { st with queue := queue } := {
        keys := h.keys
        queue := fun x hx => h.queue x (hqs x hx)
        free := h.free, zero := h.zero, pred := h.pred, le := h.le, dummy := h.dummy, dummyLe := h.dummyLe
        closed := by
          intro hx x e hxe he hxq hxc
          refine h.closed hx x e hxe he ?_ (by simp)
          rw [hq]
          intro hm
          rcases List.mem_cons.1 hm with hm | hm
          · exact hxc (by rw [hm])
          · exact hxq hm }
      have hmeas : bfsMeasure g { st with queue := queue } < fuel := by
        unfold bfsMeasure at hf ⊢
        rw [hq] at hf
        simp only [List.length_cons] at hf
        show g.verticesA.countP (fun a => st.distance.get? a == some u32Max) + queue.length < fuel
        omega
      by_cases hge : d ≥ st.dummy
      · simp only [hge, if_true]
        refine ih _ hmeas { hpop with closed := ?_ }
        intro hx
        have hx' : st.dummy = u32Max := hx
        have := h.le a d hd
        omega
      · simp only [hge, if_false]
        obtain ⟨l, hl⟩ := hg.neighbors a hav
        simp only [hl, ok_bind]
        obtain ⟨s1, h1, h2, h3, h4, h5⟩ := bfsVisits_spec hg hm hdm l { st with queue := queue }
          (fun b hb => ⟨hav, l, hl, hb⟩) hpop hd
        rw [h1]
        simp only [ok_bind]
        refine ih s1 (by omega) { h2 with closed := ?_ }
        intro hx x e hxe he hxq _ y hy
        by_cases hxa : x = a
        · subst hxa
          obtain ⟨_, l', hl', hyl⟩ := hy
          rw [hl] at hl'
          cases hl'
          exact h5 hx y hyl
        · exact h2.closed hx x e hxe he hxq (by simpa using fun h => hxa h.symm) y hy

theorem get?_map_val {α β : Type} (m : IMap Nat α) (f : Nat → α → β) (k : Nat) :
    IMap.get? (m.map (fun p => (p.1, f p.1 p.2))) k = (IMap.get? m k).map (f k) := by
  induction m with
  | nil => rfl
  | cons p m ih =>
    rw [List.map_cons, IMap.get?_cons, IMap.get?_cons, ih]
    by_cases h : p.1 = k
    · subst h; simp
    · simp [h]

theorem bfsInit_inv {g : AToB} {m : Matching} {distance : IMap Nat Nat} (hk : distance.keys = g.verticesA) :
    BInv g m none (bfsInit m distance) ∧ bfsMeasure g (bfsInit m distance) ≤ g.verticesA.length := by
  have hd : (bfsInit m distance).distance = distance.map (fun p => (p.1, if m.aToB.contains p.1 then u32Max else 0)) := by
    apply List.map_congr_left
    intro p _
    split <;> rfl
  have hget : ∀ a, (bfsInit m distance).distance.get? a =
      (distance.get? a).map (fun _ => if m.aToB.contains a then u32Max else 0) := by
    intro a
    rw [hd]
    exact get?_map_val distance (fun k _ => if m.aToB.contains k then u32Max else 0) a
  have hun : ∀ a, m.aToB.contains a = true ↔ m.aToB.get? a ≠ none := by
    intro a; rw [IMap.contains_eq_isSome]; cases m.aToB.get? a <;> simp
  have hmax0 : (0 : Nat) ≠ u32Max := by decide
  have hcase : ∀ a d, (bfsInit m distance).distance.get? a = some d →
      (d = u32Max ∧ m.aToB.get? a ≠ none) ∨ (d = 0 ∧ m.aToB.get? a = none) := by
    intro a d h
    rw [hget] at h
    obtain ⟨_, _, h⟩ := Option.map_eq_some_iff.1 h
    by_cases hc : m.aToB.contains a = true
    · rw [if_pos hc] at h; exact Or.inl ⟨h.symm, (hun a).1 hc⟩
    · rw [if_neg hc] at h
      refine Or.inr ⟨h.symm, ?_⟩
      rw [hun] at hc
      exact not_not.1 hc
  have hfree : ∀ a ∈ g.verticesA, m.aToB.get? a = none → (bfsInit m distance).distance.get? a = some 0 := by
    intro a ha hn
    rw [hget]
    obtain ⟨d, hd⟩ := (IMap.mem_keys_iff _ _).1 (hk ▸ ha)
    have hc : ¬ m.aToB.contains a = true := by rw [hun]; simpa using hn
    rw [hd]
    simp [hc]
  have hkeys : (bfsInit m distance).distance.keys = g.verticesA := by
    rw [hd, ← hk]
    simp [IMap.keys]
  have hqueue : ∀ a, a ∈ (bfsInit m distance).queue ↔ a ∈ g.verticesA ∧ m.aToB.get? a = none := by
    intro a
    unfold bfsInit
    simp only [List.mem_map, List.mem_filter, Bool.not_eq_true']
    rw [← hk]
    constructor
    · rintro ⟨p, ⟨hp, hc⟩, rfl⟩
      refine ⟨List.mem_map_of_mem hp, ?_⟩
      have : ¬ m.aToB.contains p.1 = true := by simp [hc]
      rw [hun] at this
      exact not_not.1 this
    · rintro ⟨hp, hn⟩
      obtain ⟨p, hp', rfl⟩ := List.mem_map.1 hp
      refine ⟨p, ⟨hp', ?_⟩, rfl⟩
      have : ¬ m.aToB.contains p.1 = true := by rw [hun]; simpa using hn
      simpa using this
  constructor
  · exact {
      keys := hkeys
      queue := fun a ha => ⟨0, hfree a ((hqueue a).1 ha).1 ((hqueue a).1 ha).2, hmax0⟩
      free := hfree
      zero := by
        intro a ha
        rcases hcase a 0 ha with h | h
        · exact absurd h.1 hmax0
        · exact h.2
      pred := by
        intro a k ha hkm
        rcases hcase a _ ha with h | h
        · exact absurd h.1 hkm
        · exact absurd h.1 (by omega)
      le := by
        intro a d ha
        rcases hcase a d ha with h | h <;> omega
      dummy := fun h => absurd rfl h
      dummyLe := le_refl _
      closed := by
        intro _ a d ha hdm hq
        rcases hcase a d ha with h | h
        · exact absurd h.1 hdm
        · exfalso
          apply hq
          rw [hqueue]
          refine ⟨?_, h.2⟩
          rw [← hkeys, IMap.mem_keys_iff]
          exact ⟨d, ha⟩ }
  · unfold bfsMeasure
    have hql : (bfsInit m distance).queue.length = g.verticesA.countP (fun a => !m.aToB.contains a) := by
      unfold bfsInit
      rw [List.length_map, ← hk]
      unfold IMap.keys
      rw [List.countP_map, List.countP_eq_length_filter]
      rfl
    rw [hql]
    have hmono : g.verticesA.countP (fun a => (bfsInit m distance).distance.get? a == some u32Max) ≤
        g.verticesA.countP (fun a => m.aToB.contains a) := by
      apply List.countP_mono_left
      intro a _ h
      simp only [beq_iff_eq] at h
      rcases hcase a _ h with h | h
      · exact (hun a).2 h.2
      · exact absurd h.1.symm hmax0
    have := List.length_eq_countP_add_countP (l := g.verticesA) (fun a => m.aToB.contains a)
    have h2 : g.verticesA.countP (fun a => decide ¬ m.aToB.contains a = true) = g.verticesA.countP (fun a => !m.aToB.contains a) := by
      apply List.countP_congr
      intro a _
      simp
    omega

/-- `bfs` terminates without panicking and computes layered distances. -/
theorem bfs_spec {g : AToB} (hg : g.Ok) {m : Matching} (hm : MOk g m) {distance : IMap Nat Nat}
    (hk : distance.keys = g.verticesA) :
    ∃ st, bfs g m distance = .ok st ∧ BInv g m none st ∧ st.queue = [] := by
  obtain ⟨h1, h2⟩ := bfsInit_inv (m := m) hk
  exact bfsLoop_spec hg hm _ _ (by omega) h1

/-! ## Depth-first search -/

/-- The distances seen by `dfs`: defined exactly on the vertices, finite values smaller than their number. -/
structure DOk (g : AToB) (dist : IMap Nat Nat) : Prop where
  keys : dist.keys = g.verticesA
  bound : ∀ a d, dist.get? a = some d → d = u32Max ∨ d < g.verticesA.length

/-- Vertices given up by `dfs` in the current phase lead nowhere: see `equations.rs:401`. `d0` are the distances found by `bfs`. -/
structure DeadInv (g : AToB) (m : Matching) (d0 : IMap Nat Nat) (dummy : Nat) (dist : IMap Nat Nat) : Prop where
  same : ∀ x, dist.get? x = d0.get? x ∨ (dist.get? x = some u32Max)
  dead : ∀ x k, d0.get? x = some k → k ≠ u32Max → dist.get? x = some u32Max → ∀ b, g.Adj x b →
    (m.bToA.get? b = none → dummy ≠ k + 1) ∧
    (∀ a', m.bToA.get? b = some a' → d0.get? a' = some (k + 1) → dist.get? a' = some u32Max)

/-- Result of a successful augmentation from `a`: a matching, except that the former partner of `a` may still point to `a`. -/
structure Augmented (g : AToB) (m : Matching) (a : Nat) (m' : Matching) : Prop where
  ab : ∀ x b, m'.aToB.get? x = some b → m'.bToA.get? b = some x
  ba : ∀ x b, m'.bToA.get? b = some x → m'.aToB.get? x = some b ∨ (x = a ∧ m.aToB.get? a = some b)
  adj : ∀ x b, m'.aToB.get? x = some b → g.Adj x b
  nodupA : m'.aToB.keys.Nodup
  nodupB : m'.bToA.keys.Nodup
  matched : ∀ x, x ∈ m'.aToB.keys ↔ x = a ∨ x ∈ m.aToB.keys
  fresh : ∀ b, m'.aToB.get? a = some b → m.aToB.get? a ≠ some b

/-- What a call of `dfs` at `a` (at distance `d`) does. -/
structure DfsPost (g : AToB) (m : Matching) (dist : IMap Nat Nat) (dummy a d : Nat) (found : Bool) (m' : Matching)
    (dist' : IMap Nat Nat) : Prop where
  keys : dist'.keys = dist.keys
  mono : ∀ x, dist'.get? x = dist.get? x ∨ (dist'.get? x = some u32Max ∧ (x = a ∨ x ∈ m.aToB.keys))
  touchB : ∀ b, m'.bToA.get? b = m.bToA.get? b ∨ m.bToA.get? b = none ∨
    ∃ x e, m.bToA.get? b = some x ∧ dist.get? x = some e ∧ d < e ∧ e ≠ u32Max
  touchA : ∀ x, m'.aToB.get? x = m.aToB.get? x ∨ x = a ∨ ∃ e, dist.get? x = some e ∧ d < e ∧ e ≠ u32Max
  fail : found = false → m' = m ∧ dist'.get? a = some u32Max ∧
    ∀ d0, DeadInv g m d0 dummy dist → d0.get? a = some d → DeadInv g m d0 dummy dist'
  success : found = true → Augmented g m a m'

theorem DOk.mono {g : AToB} {dist dist' : IMap Nat Nat} (h : DOk g dist) (hk : dist'.keys = dist.keys)
    (hm : ∀ x, dist'.get? x = dist.get? x ∨ dist'.get? x = some u32Max) : DOk g dist' := by
  refine ⟨by rw [hk, h.keys], ?_⟩
  intro a d ha
  rcases hm a with h1 | h1
  · rw [h1] at ha; exact h.bound a d ha
  · rw [h1] at ha; exact Or.inl (Option.some.inj ha).symm

/-- Matching an unmatched `b` with `a`. -/
theorem Augmented.base {g : AToB} {m : Matching} (hm : MOk g m) {a b : Nat} (hb : g.Adj a b) (hn : m.bToA.get? b = none) :
    Augmented g m a (m.link a b) := by
  have hnb : ∀ x, m.aToB.get? x ≠ some b := by
    intro x hx
    rw [(hm.ab x b).1 hx] at hn
    exact absurd hn (by simp)
  refine ⟨?_, ?_, ?_, ?_, ?_, ?_, ?_⟩
  · intro x b' hx
    simp only [Matching.link, IMap.get?_insert] at hx ⊢
    by_cases hxa : x = a
    · rw [if_pos hxa] at hx
      rw [if_pos (Option.some.inj hx).symm, hxa]
    · rw [if_neg hxa] at hx
      have : b' ≠ b := fun h => hnb x (h ▸ hx)
      rw [if_neg this]
      exact (hm.ab x b').1 hx
  · intro x b' hx
    simp only [Matching.link, IMap.get?_insert] at hx ⊢
    by_cases hbb : b' = b
    · rw [if_pos hbb] at hx
      left
      rw [if_pos (Option.some.inj hx).symm, hbb]
    · rw [if_neg hbb] at hx
      have := (hm.ab x b').2 hx
      by_cases hxa : x = a
      · right; exact ⟨hxa, hxa ▸ this⟩
      · left; rw [if_neg hxa]; exact this
  · intro x b' hx
    simp only [Matching.link, IMap.get?_insert] at hx
    by_cases hxa : x = a
    · rw [if_pos hxa] at hx
      cases hx
      rw [hxa]; exact hb
    · rw [if_neg hxa] at hx
      exact hm.adj x b' hx
  · exact IMap.nodup_keys_insert _ _ _ hm.nodupA
  · exact IMap.nodup_keys_insert _ _ _ hm.nodupB
  · intro x
    exact IMap.mem_keys_insert _ _ _ _
  · intro b' hx
    simp only [Matching.link, IMap.get?_insert_self] at hx
    cases hx
    exact hnb a

/-- Passing the augmentation from the partner `p` of `b` on to `a`. -/
theorem Augmented.link {g : AToB} {m m1 : Matching} (hm : MOk g m) {a b p : Nat} (hb : g.Adj a b)
    (hp : m.bToA.get? b = some p) (hpa : a ≠ p) (h : Augmented g m p m1) (hbk : m1.bToA.get? b = some p)
    (hak : m1.aToB.get? a = m.aToB.get? a) : Augmented g m a (m1.link a b) := by
  have hpb : m.aToB.get? p = some b := (hm.ab p b).2 hp
  have hab : m.aToB.get? a ≠ some b := by
    intro hx
    have := (hm.ab a b).1 hx
    rw [hp] at this
    exact hpa (Option.some.inj this).symm
  have hnb : ∀ x, m1.aToB.get? x ≠ some b := by
    intro x hx
    have h1 := h.ab x b hx
    rw [hbk] at h1
    cases h1
    exact h.fresh b hx hpb
  refine ⟨?_, ?_, ?_, ?_, ?_, ?_, ?_⟩
  · intro x b' hx
    simp only [Matching.link, IMap.get?_insert] at hx ⊢
    by_cases hxa : x = a
    · rw [if_pos hxa] at hx
      rw [if_pos (Option.some.inj hx).symm, hxa]
    · rw [if_neg hxa] at hx
      have : b' ≠ b := fun h => hnb x (h ▸ hx)
      rw [if_neg this]
      exact h.ab x b' hx
  · intro x b' hx
    simp only [Matching.link, IMap.get?_insert] at hx ⊢
    by_cases hbb : b' = b
    · rw [if_pos hbb] at hx
      left
      rw [if_pos (Option.some.inj hx).symm, hbb]
    · rw [if_neg hbb] at hx
      have hx1 : m1.aToB.get? x = some b' := by
        rcases h.ba x b' hx with h1 | ⟨_, h1⟩
        · exact h1
        · rw [hpb] at h1
          exact absurd (Option.some.inj h1).symm hbb
      by_cases hxa : x = a
      · right
        refine ⟨hxa, ?_⟩
        rw [← hak, ← hxa]
        exact hx1
      · left; rw [if_neg hxa]; exact hx1
  · intro x b' hx
    simp only [Matching.link, IMap.get?_insert] at hx
    by_cases hxa : x = a
    · rw [if_pos hxa] at hx
      cases hx
      rw [hxa]; exact hb
    · rw [if_neg hxa] at hx
      exact h.adj x b' hx
  · exact IMap.nodup_keys_insert _ _ _ h.nodupA
  · exact IMap.nodup_keys_insert _ _ _ h.nodupB
  · intro x
    have h1 : p ∈ m.aToB.keys := (IMap.mem_keys_iff _ _).2 ⟨b, hpb⟩
    have h2 := IMap.mem_keys_insert m1.aToB a x b
    rw [show (m1.link a b).aToB.keys = (m1.aToB.insert a b).keys from rfl, h2, h.matched x]
    constructor
    · rintro (h3 | h3 | h3)
      · exact Or.inl h3
      · exact Or.inr (h3 ▸ h1)
      · exact Or.inr h3
    · rintro (h3 | h3)
      · exact Or.inl h3
      · exact Or.inr (Or.inr h3)
  · intro b' hx
    simp only [Matching.link, IMap.get?_insert_self] at hx
    cases hx
    exact hab

/-- The loop of `dfs`. `dist` are the distances at entry, `dist1` the current ones; the neighbours before `bs` failed. -/
theorem dfsLoop_spec {g : AToB} (hg : g.Ok) {m : Matching} (hm : MOk g m) {dummy a d : Nat} {dist : IMap Nat Nat}
    (hD : DOk g dist) (ha : dist.get? a = some d) (hd : d < g.verticesA.length) {nb : List Nat} (hnb : g.neighborsOfA a = some nb)
    (recurse : Nat → Matching × IMap Nat Nat → R (Bool × Matching × IMap Nat Nat))
    (hrec : ∀ p dist1, DOk g dist1 → dist1.get? p = some (d + 1) → d + 1 < g.verticesA.length →
      ∃ f m' dist', recurse p (m, dist1) = .ok (f, m', dist') ∧ DfsPost g m dist1 dummy p (d + 1) f m' dist') :
    ∀ (bs pre : List Nat) (dist1 : IMap Nat Nat), nb = pre ++ bs → dist1.keys = dist.keys →
      (∀ x, dist1.get? x = dist.get? x ∨ (dist1.get? x = some u32Max ∧ x ∈ m.aToB.keys)) →
      (∀ d0, DeadInv g m d0 dummy dist → d0.get? a = some d → DeadInv g m d0 dummy dist1 ∧ ∀ b ∈ pre,
        (m.bToA.get? b = none → dummy ≠ d + 1) ∧
        ∀ a', m.bToA.get? b = some a' → d0.get? a' = some (d + 1) → dist1.get? a' = some u32Max) →
      ∃ f m' dist', dfsLoop recurse dummy a (d + 1) bs (m, dist1) = .ok (f, m', dist') ∧
        DfsPost g m dist dummy a d f m' dist' := by
  have hsmall := hg.small
  have hav : a ∈ g.verticesA := by rw [← hD.keys, IMap.mem_keys_iff]; exact ⟨d, ha⟩
  intro bs
  induction bs with
  | nil =>
    intro pre dist1 hpre hk hmono hdead
    refine ⟨false, m, dist1.insert a u32Max, rfl, ?_⟩
    have hak : a ∈ dist1.keys := by rw [hk, hD.keys]; exact hav
    refine ⟨?_, ?_, fun b => Or.inl rfl, fun x => Or.inl rfl, ?_, by simp⟩
    · rw [IMap.keys_insert_of_mem _ _ hak, hk]
    · intro x
      rw [IMap.get?_insert]
      by_cases hxa : x = a
      · right; exact ⟨by rw [if_pos hxa], Or.inl hxa⟩
      · rw [if_neg hxa]
        rcases hmono x with h | h
        · exact Or.inl h
        · exact Or.inr ⟨h.1, Or.inr h.2⟩
    · intro _
      refine ⟨rfl, IMap.get?_insert_self _ _ _, ?_⟩
      intro d0 hdd hd0
      obtain ⟨h1, h2⟩ := hdead d0 hdd hd0
      have hset : ∀ x, dist1.get? x = some u32Max → (dist1.insert a u32Max).get? x = some u32Max := by
        intro x hx
        rw [IMap.get?_insert]
        split
        · rfl
        · exact hx
      refine ⟨?_, ?_⟩
      · intro x
        rw [IMap.get?_insert]
        split
        · exact Or.inr rfl
        · exact h1.same x
      · intro x k hx hkm hxd b hb
        by_cases hxa : x = a
        · subst hxa
          rw [hd0] at hx
          cases hx
          obtain ⟨_, l, hl, hbl⟩ := hb
          rw [hnb] at hl
          cases hl
          have hbp : b ∈ pre := by rw [hpre] at hbl; simpa using hbl
          exact ⟨(h2 b hbp).1, fun a' ha' hk' => hset a' ((h2 b hbp).2 a' ha' hk')⟩
        · rw [IMap.get?_insert_ne _ _ hxa] at hxd
          obtain ⟨g1, g2⟩ := h1.dead x k hx hkm hxd b hb
          exact ⟨g1, fun a' ha' hk' => hset a' (g2 a' ha' hk')⟩
  | cons b bs ih =>
    intro pre dist1 hpre hk hmono hdead
    have hab : g.Adj a b := ⟨hav, nb, hnb, by rw [hpre]; simp⟩
    have hD1 : DOk g dist1 := hD.mono hk (fun x => by
      rcases hmono x with h | h
      · exact Or.inl h
      · exact Or.inr h.1)
    have hmono' : ∀ x, dist1.get? x = dist.get? x ∨ (dist1.get? x = some u32Max ∧ (x = a ∨ x ∈ m.aToB.keys)) := by
      intro x
      rcases hmono x with h | h
      · exact Or.inl h
      · exact Or.inr ⟨h.1, Or.inr h.2⟩
    unfold dfsLoop
    cases hmb : m.bToA.get? b with
    | none =>
      by_cases hdum : dummy = d + 1
      · simp only [hdum, if_true]
        refine ⟨true, m.link a b, dist1, rfl, hk, hmono', ?_, ?_, by simp, fun _ => Augmented.base hm hab hmb⟩
        · intro b'
          by_cases hbb : b' = b
          · right; left; rw [hbb]; exact hmb
          · left; exact IMap.get?_insert_ne _ _ hbb
        · intro x
          by_cases hxa : x = a
          · right; left; exact hxa
          · left; exact IMap.get?_insert_ne _ _ hxa
      · simp only [hdum, if_false]
        refine ih (pre ++ [b]) dist1 (by simp [hpre]) hk hmono ?_
        intro d0 hdd hd0
        obtain ⟨h1, h2⟩ := hdead d0 hdd hd0
        refine ⟨h1, ?_⟩
        intro b' hb'
        rcases List.mem_append.1 hb' with hb' | hb'
        · exact h2 b' hb'
        · have := List.mem_singleton.1 hb'
          subst this
          exact ⟨fun _ => hdum, fun a' ha' => by rw [hmb] at ha'; exact absurd ha' (by simp)⟩
    | some p =>
      have hpb : m.aToB.get? p = some b := (hm.ab p b).2 hmb
      have hpk : p ∈ m.aToB.keys := (IMap.mem_keys_iff _ _).2 ⟨b, hpb⟩
      have hpv : p ∈ g.verticesA := (hm.adj p b hpb).1
      obtain ⟨e, he⟩ := (IMap.mem_keys_iff _ _).1 (hD1.keys ▸ hpv)
      simp only [he, unwrap, ok_bind]
      by_cases hed : e = d + 1
      · subst hed
        simp only [if_true]
        have hlt : d + 1 < g.verticesA.length := by
          rcases hD1.bound p _ he with h | h
          · omega
          · exact h
        have hep : dist.get? p = some (d + 1) := by
          rcases hmono p with h | h
          · rw [← h]; exact he
          · rw [h.1] at he
            have := Option.some.inj he
            omega
        obtain ⟨f, m1, dist2, hr, hpost⟩ := hrec p dist1 hD1 he hlt
        rw [hr]
        simp only [ok_bind]
        have hpa : a ≠ p := by
          intro h; subst h
          rw [ha] at hep
          have := Option.some.inj hep
          omega
        have hk2 : dist2.keys = dist.keys := by rw [hpost.keys, hk]
        have hmono2 : ∀ x, dist2.get? x = dist.get? x ∨ (dist2.get? x = some u32Max ∧ x ∈ m.aToB.keys) := by
          intro x
          rcases hpost.mono x with h | h
          · rw [h]; exact hmono x
          · refine Or.inr ⟨h.1, ?_⟩
            rcases h.2 with h2 | h2
            · rw [h2]; exact hpk
            · exact h2
        have hlift : ∀ x e, dist1.get? x = some e → e ≠ u32Max → dist.get? x = some e := by
          intro x e hx hem
          rcases hmono x with h | h
          · rw [← h]; exact hx
          · rw [h.1] at hx
            exact absurd (Option.some.inj hx).symm hem
        cases f with
        | true =>
          simp only [if_true]
          have hbk : m1.bToA.get? b = some p := by
            rcases hpost.touchB b with h | h | ⟨x, e, h1, h2, h3, h4⟩
            · rw [h]; exact hmb
            · rw [hmb] at h; exact absurd h (by simp)
            · rw [hmb] at h1
              cases h1
              rw [he] at h2
              have := Option.some.inj h2
              omega
          have hak : m1.aToB.get? a = m.aToB.get? a := by
            rcases hpost.touchA a with h | h | ⟨e, h1, h2, h3⟩
            · exact h
            · exact absurd h hpa
            · have := hlift a e h1 h3
              rw [ha] at this
              have := Option.some.inj this
              omega
          refine ⟨true, m1.link a b, dist2, rfl, hk2, ?_, ?_, ?_, by simp,
            fun _ => Augmented.link hm hab hmb hpa (hpost.success rfl) hbk hak⟩
          · intro x
            rcases hmono2 x with h | h
            · exact Or.inl h
            · exact Or.inr ⟨h.1, Or.inr h.2⟩
          · intro b'
            by_cases hbb : b' = b
            · right; right
              exact ⟨p, d + 1, by rw [hbb]; exact hmb, hep, by omega, by omega⟩
            · rw [show (m1.link a b).bToA.get? b' = m1.bToA.get? b' from IMap.get?_insert_ne _ _ hbb]
              rcases hpost.touchB b' with h | h | ⟨x, e, h1, h2, h3, h4⟩
              · exact Or.inl h
              · exact Or.inr (Or.inl h)
              · exact Or.inr (Or.inr ⟨x, e, h1, hlift x e h2 h4, by omega, h4⟩)
          · intro x
            by_cases hxa : x = a
            · exact Or.inr (Or.inl hxa)
            · rw [show (m1.link a b).aToB.get? x = m1.aToB.get? x from IMap.get?_insert_ne _ _ hxa]
              rcases hpost.touchA x with h | h | ⟨e, h1, h2, h3⟩
              · exact Or.inl h
              · exact Or.inr (Or.inr ⟨d + 1, by rw [h]; exact hep, by omega, by omega⟩)
              · exact Or.inr (Or.inr ⟨e, hlift x e h1 h3, by omega, h3⟩)
        | false =>
          simp only [Bool.false_eq_true, if_false]
          obtain ⟨hm1, hp2, hdd2⟩ := hpost.fail rfl
          subst hm1
          refine ih (pre ++ [b]) dist2 (by simp [hpre]) hk2 hmono2 ?_
          intro d0 hdd hd0
          obtain ⟨h1, h2⟩ := hdead d0 hdd hd0
          have hd0p : d0.get? p = some (d + 1) := by
            rcases h1.same p with h | h
            · rw [← h]; exact he
            · rw [h] at he
              have := Option.some.inj he
              omega
          refine ⟨hdd2 d0 h1 hd0p, ?_⟩
          intro b' hb'
          rcases List.mem_append.1 hb' with hb' | hb'
          · refine ⟨(h2 b' hb').1, fun a' ha' hk' => ?_⟩
            have := (h2 b' hb').2 a' ha' hk'
            rcases hpost.mono a' with h | h
            · rw [h]; exact this
            · exact h.1
          · have := List.mem_singleton.1 hb'
            subst this
            refine ⟨fun hn => by rw [hmb] at hn; exact absurd hn (by simp), fun a' ha' _ => ?_⟩
            rw [hmb] at ha'
            cases ha'
            exact hp2
      · simp only [hed, if_false]
        refine ih (pre ++ [b]) dist1 (by simp [hpre]) hk hmono ?_
        intro d0 hdd hd0
        obtain ⟨h1, h2⟩ := hdead d0 hdd hd0
        refine ⟨h1, ?_⟩
        intro b' hb'
        rcases List.mem_append.1 hb' with hb' | hb'
        · exact h2 b' hb'
        · have := List.mem_singleton.1 hb'
          subst this
          refine ⟨fun hn => by rw [hmb] at hn; exact absurd hn (by simp), fun a' ha' hk' => ?_⟩
          rw [hmb] at ha'
          cases ha'
          rcases h1.same p with h | h
          · rw [h, hk'] at he
            exact absurd (Option.some.inj he).symm hed
          · exact h

/-- `dfs` terminates without panicking and does what `DfsPost` says. -/
theorem dfs_spec {g : AToB} (hg : g.Ok) {m : Matching} (hm : MOk g m) (dummy : Nat) :
    ∀ (fuel a d : Nat) (dist : IMap Nat Nat), DOk g dist → dist.get? a = some d → d < g.verticesA.length →
      g.verticesA.length < fuel + d →
      ∃ f m' dist', dfs g dummy fuel a (m, dist) = .ok (f, m', dist') ∧ DfsPost g m dist dummy a d f m' dist' := by
  intro fuel
  induction fuel with
  | zero => intro a d dist _ _ h1 h2; omega
  | succ fuel ih =>
    intro a d dist hD ha hd hf
    have hav : a ∈ g.verticesA := by rw [← hD.keys, IMap.mem_keys_iff]; exact ⟨d, ha⟩
    obtain ⟨nb, hnb⟩ := hg.neighbors a hav
    have hsmall := hg.small
    have hsat : saturatingSucc d = d + 1 := by unfold saturatingSucc; omega
    unfold dfs
    simp only [ha, hnb, unwrap, ok_bind, hsat]
    refine dfsLoop_spec hg hm hD ha hd hnb (dfs g dummy fuel) ?_ nb [] dist rfl rfl (fun x => Or.inl rfl) ?_
    · intro p dist1 hD1 hp hlt
      exact ih p (d + 1) dist1 hD1 hp hlt (by omega)
    · intro d0 hdd _
      exact ⟨hdd, by simp⟩

theorem Augmented.mok {g : AToB} {m m' : Matching} {a : Nat} (h : Augmented g m a m') (ha : m.aToB.get? a = none) :
    MOk g m' := by
  refine ⟨fun x b => ⟨h.ab x b, fun hx => ?_⟩, h.adj, h.nodupA, h.nodupB⟩
  rcases h.ba x b hx with h1 | ⟨_, h1⟩
  · exact h1
  · rw [ha] at h1; exact absurd h1 (by simp)

/-- Number of edges. -/
def Matching.size (m : Matching) : Nat := m.aToB.keys.length

theorem Augmented.size {g : AToB} {m m' : Matching} {a : Nat} (h : Augmented g m a m') (hm : MOk g m)
    (ha : m.aToB.get? a = none) : m'.size = m.size + 1 := by
  have h1 : m'.aToB.keys.toFinset = insert a m.aToB.keys.toFinset := by
    ext x
    simp only [List.mem_toFinset, Finset.mem_insert]
    exact h.matched x
  have h2 : a ∉ m.aToB.keys.toFinset := by
    rw [List.mem_toFinset, ← IMap.get?_eq_none_iff]; exact ha
  have h3 := congrArg Finset.card h1
  rw [Finset.card_insert_of_notMem h2, List.toFinset_card_of_nodup h.nodupA, List.toFinset_card_of_nodup hm.nodupA] at h3
  exact h3

theorem MOk.size_le {g : AToB} {m : Matching} (h : MOk g m) : m.size ≤ g.verticesA.length := by
  unfold Matching.size
  rw [← List.toFinset_card_of_nodup h.nodupA]
  refine le_trans (Finset.card_le_card ?_) (List.toFinset_card_le g.verticesA)
  intro x hx
  rw [List.mem_toFinset, IMap.mem_keys_iff] at hx
  obtain ⟨b, hb⟩ := hx
  rw [List.mem_toFinset]
  exact (h.adj x b hb).1

/-- One phase: starting from `m0` with the distances of `bfs`, the loop over the vertices keeps a matching, and either has added an
edge or has left the matching alone and given up all unmatched vertices seen so far. -/
theorem phase_spec {g : AToB} (hg : g.Ok) {m0 : Matching} {d0 : IMap Nat Nat} {dummy : Nat} :
    ∀ (as pre : List Nat) (m : Matching) (dist : IMap Nat Nat), g.verticesA = pre ++ as → MOk g m → DOk g dist →
      (∀ a ∈ as, m.aToB.get? a = none → dist.get? a = some 0 ∧ d0.get? a = some 0) →
      ((m = m0 ∧ DeadInv g m0 d0 dummy dist ∧ ∀ a ∈ pre, m0.aToB.get? a = none → dist.get? a = some u32Max) ∨
        m0.size < m.size) →
      ∃ m' dist', as.foldlM (matchVertex g dummy) (m, dist) = .ok (m', dist') ∧ MOk g m' ∧ DOk g dist' ∧
        ((m' = m0 ∧ DeadInv g m0 d0 dummy dist' ∧ ∀ a ∈ g.verticesA, m0.aToB.get? a = none → dist'.get? a = some u32Max) ∨
          m0.size < m'.size) := by
  intro as
  induction as with
  | nil =>
    intro pre m dist hpre hm hD _ h
    refine ⟨m, dist, rfl, hm, hD, ?_⟩
    rw [hpre, List.append_nil]
    exact h
  | cons a as ih =>
    intro pre m dist hpre hm hD hz h
    have hav : a ∈ g.verticesA := by rw [hpre]; simp
    have hnodup := hg.nodup
    rw [hpre] at hnodup
    have hnot : a ∉ as := by
      have := (List.nodup_append.1 hnodup).2.1
      exact (List.nodup_cons.1 this).1
    rw [List.foldlM_cons]
    by_cases hc : m.aToB.contains a = true
    · have hstep : matchVertex g dummy (m, dist) a = .ok (m, dist) := by
        unfold matchVertex; simp [hc]
      rw [hstep]
      simp only [ok_bind]
      refine ih (pre ++ [a]) m dist (by simp [hpre]) hm hD (fun x hx => hz x (by simp [hx])) ?_
      rcases h with ⟨h1, h2, h3⟩ | h
      · refine Or.inl ⟨h1, h2, ?_⟩
        intro x hx hxn
        rcases List.mem_append.1 hx with hx | hx
        · exact h3 x hx hxn
        · have := List.mem_singleton.1 hx
          subst this
          rw [IMap.contains_eq_isSome, h1, hxn] at hc
          exact absurd hc (by simp)
      · exact Or.inr h
    · have hn : m.aToB.get? a = none := by
        rw [IMap.contains_eq_isSome] at hc
        cases hx : m.aToB.get? a
        · rfl
        · rw [hx] at hc; exact absurd rfl hc
      obtain ⟨ha0, had0⟩ := hz a (by simp) hn
      have hpos : 0 < g.verticesA.length := List.length_pos_of_mem hav
      obtain ⟨f, m1, dist1, hr, hpost⟩ := dfs_spec hg hm dummy (g.verticesA.length + 1) a 0 dist hD ha0 hpos (by omega)
      have hstep : matchVertex g dummy (m, dist) a = .ok (m1, dist1) := by
        unfold matchVertex
        simp only [hc]
        rw [hr]
        rfl
      rw [hstep]
      simp only [ok_bind]
      have hD1 : DOk g dist1 := hD.mono hpost.keys (fun x => by
        rcases hpost.mono x with h | h
        · exact Or.inl h
        · exact Or.inr h.1)
      cases f with
      | true =>
        have haug := hpost.success rfl
        refine ih (pre ++ [a]) m1 dist1 (by simp [hpre]) (haug.mok hn) hD1 ?_ ?_
        · intro x hx hxn
          have hxm : x ∉ m1.aToB.keys := (IMap.get?_eq_none_iff _ _).1 hxn
          rw [haug.matched] at hxm
          have hxm' : x ≠ a ∧ x ∉ m.aToB.keys := by simpa using hxm
          obtain ⟨k1, k2⟩ := hz x (by simp [hx]) ((IMap.get?_eq_none_iff _ _).2 hxm'.2)
          refine ⟨?_, k2⟩
          rcases hpost.mono x with h | h
          · rw [h]; exact k1
          · rcases h.2 with h2 | h2
            · exact absurd h2 hxm'.1
            · exact absurd h2 hxm'.2
        · right
          rw [haug.size hm hn]
          rcases h with ⟨h1, _⟩ | h
          · rw [h1]; omega
          · omega
      | false =>
        obtain ⟨hm1, ha1, hdd⟩ := hpost.fail rfl
        subst hm1
        refine ih (pre ++ [a]) m1 dist1 (by simp [hpre]) hm hD1 ?_ ?_
        · intro x hx hxn
          obtain ⟨k1, k2⟩ := hz x (by simp [hx]) hxn
          refine ⟨?_, k2⟩
          rcases hpost.mono x with h | h
          · rw [h]; exact k1
          · rcases h.2 with h2 | h2
            · exact absurd (h2 ▸ hx) hnot
            · exact absurd h2 ((IMap.get?_eq_none_iff _ _).1 hxn)
        · rcases h with ⟨h1, h2, h3⟩ | h
          · left
            subst h1
            refine ⟨rfl, hdd d0 h2 had0, ?_⟩
            intro x hx hxn
            rcases List.mem_append.1 hx with hx | hx
            · have := h3 x hx hxn
              rcases hpost.mono x with h | h
              · rw [h]; exact this
              · exact h.1
            · have := List.mem_singleton.1 hx
              subst this
              exact ha1
          · exact Or.inr h

/-- A phase that follows a successful `bfs` adds at least one edge. -/
theorem phase_progress {g : AToB} (hg : g.Ok) {m : Matching} (hm : MOk g m) {st : BfsState} (hb : BInv g m none st)
    (hdum : st.dummy ≠ u32Max) :
    ∃ m' dist', g.verticesA.foldlM (matchVertex g st.dummy) (m, st.distance) = .ok (m', dist') ∧ MOk g m' ∧
      dist'.keys = g.verticesA ∧ m.size < m'.size := by
  have hD : DOk g st.distance := by
    refine ⟨hb.keys, fun a d ha => ?_⟩
    by_cases h : d = u32Max
    · exact Or.inl h
    · exact Or.inr (hb.bound ha h)
  obtain ⟨m', dist', h1, h2, h3, h4⟩ := phase_spec hg (m0 := m) (d0 := st.distance) (dummy := st.dummy) g.verticesA [] m st.distance
    rfl hm hD (fun a ha hn => ⟨hb.free a ha hn, hb.free a ha hn⟩)
    (Or.inl ⟨rfl, ⟨fun x => Or.inl rfl, fun x k hx hk hx' => by rw [hx] at hx'; exact absurd (Option.some.inj hx') hk⟩, by simp⟩)
  refine ⟨m', dist', h1, h2, h3.keys, ?_⟩
  rcases h4 with ⟨_, hdead, hall⟩ | h4
  · exfalso
    obtain ⟨a, b, k, e1, e2, e3, e4⟩ := hb.dummy hdum
    have hle := hb.dummyLe
    have hkm : k ≠ u32Max := by omega
    have halive : dist'.get? a ≠ some u32Max := by
      intro hd
      exact (hdead.dead a k e2 hkm hd b e3).1 e4 e1
    -- walk back along predecessors
    have hback : ∀ k a, k ≠ u32Max → st.distance.get? a = some k → dist'.get? a ≠ some u32Max → False := by
      intro k
      induction k with
      | zero =>
        intro a _ ha hal
        have hn := hb.zero a ha
        refine hal (hall a ?_ hn)
        rw [← hb.keys, IMap.mem_keys_iff]
        exact ⟨0, ha⟩
      | succ k ih =>
        intro a hk ha hal
        obtain ⟨p, b, hp, hpb, hba⟩ := hb.pred a k ha hk
        have hle := hb.le a _ ha
        refine ih p (by omega) hp ?_
        intro hd
        exact hal ((hdead.dead p k hp (by omega) hd b hpb).2 a hba ha)
    exact hback k a hkm e2 halive
  · exact h4

/-- The matching found is maximum when `bfs` finds no augmenting path (König's argument). -/
theorem maximum_of_bfs {g : AToB} {m : Matching} (hm : MOk g m) {st : BfsState} (hb : BInv g m none st)
    (hq : st.queue = []) (hdum : st.dummy = u32Max) (M' : Finset (Nat × Nat)) (hM' : Spec.IsMatching g.Adj M') :
    M'.card ≤ m.size := by
  classical
  -- the partner of `b`, or `a` itself
  let f : Nat × Nat → Nat := fun p =>
    match st.distance.get? p.1 with
    | some d => if d = u32Max then p.1 else (m.bToA.get? p.2).getD 0
    | none => p.1
  have hcase : ∀ p ∈ M', (st.distance.get? p.1 = some u32Max ∧ f p = p.1 ∧ p.1 ∈ m.aToB.keys) ∨
      (∃ x e, m.bToA.get? p.2 = some x ∧ f p = x ∧ st.distance.get? x = some e ∧ e ≠ u32Max ∧ x ∈ m.aToB.keys) := by
    intro p hp
    have hadj := hM'.edge p hp
    obtain ⟨d, hd⟩ := (IMap.mem_keys_iff _ _).1 (hb.keys ▸ hadj.1)
    by_cases hdm : d = u32Max
    · left
      subst hdm
      refine ⟨hd, by simp [f, hd], ?_⟩
      by_contra hn
      have := hb.free p.1 hadj.1 ((IMap.get?_eq_none_iff _ _).2 hn)
      rw [hd] at this
      exact absurd (Option.some.inj this) (by decide)
    · right
      obtain ⟨x, e, h1, h2, h3⟩ := hb.closed hdum p.1 d hd hdm (by rw [hq]; simp) (by simp) p.2 hadj
      refine ⟨x, e, h1, by simp [f, hd, hdm, h1], h2, h3, ?_⟩
      rw [IMap.mem_keys_iff]
      exact ⟨p.2, (hm.ab x p.2).2 h1⟩
  have hinj : Set.InjOn f (M' : Set (Nat × Nat)) := by
    intro p hp q hq' hpq
    rcases hcase p hp with ⟨a1, a2, _⟩ | ⟨x, e, a1, a2, a3, a4, _⟩ <;>
      rcases hcase q hq' with ⟨b1, b2, _⟩ | ⟨y, e', b1, b2, b3, b4, _⟩
    · exact hM'.left p hp q hq' (by rw [← a2, ← b2, hpq])
    · exfalso
      rw [a2, b2] at hpq
      rw [← hpq, a1] at b3
      exact b4 (Option.some.inj b3).symm
    · exfalso
      rw [a2, b2] at hpq
      rw [hpq, b1] at a3
      exact a4 (Option.some.inj a3).symm
    · rw [a2, b2] at hpq
      subst hpq
      have h1 := (hm.ab x p.2).2 a1
      have h2 := (hm.ab x q.2).2 b1
      rw [h1] at h2
      exact hM'.right p hp q hq' (Option.some.inj h2)
  have hsub : M'.image f ⊆ m.aToB.keys.toFinset := by
    intro x hx
    obtain ⟨p, hp, rfl⟩ := Finset.mem_image.1 hx
    rw [List.mem_toFinset]
    rcases hcase p hp with ⟨_, a2, a3⟩ | ⟨x, e, _, a2, _, _, a5⟩
    · rw [a2]; exact a3
    · rw [a2]; exact a5
  have := Finset.card_le_card hsub
  rw [Finset.card_image_of_injOn hinj, List.toFinset_card_of_nodup hm.nodupA] at this
  exact this

theorem matchingLoop_spec {g : AToB} (hg : g.Ok) :
    ∀ (fuel : Nat) (m : Matching) (dist : IMap Nat Nat), MOk g m → dist.keys = g.verticesA →
      g.verticesA.length < fuel + m.size →
      ∃ m', matchingLoop g fuel (m, dist) = .ok m' ∧ MOk g m' ∧ ∀ M', Spec.IsMatching g.Adj M' → M'.card ≤ m'.size := by
  intro fuel
  induction fuel with
  | zero =>
    intro m dist hm _ hf
    have := hm.size_le
    omega
  | succ fuel ih =>
    intro m dist hm hk hf
    obtain ⟨st, h1, h2, h3⟩ := bfs_spec hg hm hk
    unfold matchingLoop
    simp only [h1, ok_bind]
    by_cases hdum : st.dummy = u32Max
    · simp only [hdum, ne_eq, not_true_eq_false, if_false]
      exact ⟨m, rfl, hm, fun M' hM' => maximum_of_bfs hm h2 h3 hdum M' hM'⟩
    · simp only [ne_eq, hdum, not_false_eq_true, if_true]
      obtain ⟨m', dist', e1, e2, e3, e4⟩ := phase_progress hg hm h2 hdum
      rw [e1]
      simp only [ok_bind]
      exact ih m' dist' e2 e3 (by omega)

theorem initial_keys (l : List Nat) (hn : l.Nodup) :
    ∀ (d : IMap Nat Nat), (∀ a ∈ l, a ∉ d.keys) → (l.foldl (fun d a => d.insert a u32Max) d).keys = d.keys ++ l := by
  induction l with
  | nil => intro d _; simp
  | cons a l ih =>
    intro d h
    rw [List.nodup_cons] at hn
    rw [List.foldl_cons, ih hn.2]
    · rw [IMap.keys_insert, if_neg (h a (by simp))]
      simp
    · intro x hx
      rw [IMap.mem_keys_insert]
      rintro (rfl | h')
      · exact hn.1 hx
      · exact h x (by simp [hx]) h'

/-- `find_maximum_matching` terminates without panicking and returns a maximum matching. -/
theorem findMaximumMatching_spec {g : AToB} (hg : g.Ok) :
    ∃ m, findMaximumMatching g = .ok m ∧ MOk g m ∧ ∀ M', Spec.IsMatching g.Adj M' → M'.card ≤ m.size := by
  refine matchingLoop_spec hg _ _ _ (MOk.new g) ?_ (by omega)
  rw [initial_keys _ hg.nodup _ (by simp [IMap.keys])]
  simp [IMap.keys]

end Fiksi
