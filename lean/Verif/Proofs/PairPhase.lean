import Verif.Proofs.PairScan
/-! # `decompose` on graphs of edges between two vertices: each step solves one pair -/
namespace Fiksi
open Spec

/-- A connected graph of edges between two different vertices, not too many between any two. -/
structure DCtx.Pairs (cx : DCtx) (d : Int) : Prop where
  ok : cx.Ok
  consistent : Consistent cx.g cx.vertices cx.edges
  edge : ∀ e ∈ cx.edges, ∃ a b, a ≠ b ∧ a ∈ cx.vertices ∧ b ∈ cx.vertices ∧ endsOf cx.g e = [a, b]
  few : ∀ a ∈ cx.vertices, ∀ b ∈ cx.vertices, a ≠ b → -(d + 1) < freedom cx.g cx.edges {a, b}
  connected : ConnectedSet cx.g cx.edges cx.vertices

/-- All neighbours of `x` are the same vertex. -/
def DCtx.Leaf (cx : DCtx) (x : Nat) : Prop :=
  ∀ u v, u ≠ x → v ≠ x → JoinedBy cx.g cx.edges x u → JoinedBy cx.g cx.edges x v → u = v

/-- The maps of a state after the pairs `P`. -/
structure PairMaps (cx : DCtx) (P : List (Finset Nat)) (m : IMap Nat (List Nat) × IMap Nat (List Nat) × IMap Nat (List Nat)) : Prop where
  leaf : ∀ x, cx.Leaf x → m.1.get? x = none
  front : ∀ x, ¬ cx.Leaf x → ∀ i, i ∈ (m.1.get? x).getD [] ↔ ∃ p, P[i]? = some p ∧ x ∈ p
  owned : ∀ i x, x ∈ (m.2.1.get? i).getD [] ↔ (∃ p, P[i]? = some p ∧ x ∈ p) ∧ ∀ i' < i, ∀ p, P[i']? = some p → x ∉ p
  frontier : ∀ i x, x ∈ (m.2.2.get? i).getD [] ↔ ¬ cx.Leaf x ∧ ∃ p, P[i]? = some p ∧ x ∈ p

/-- Step `j` of a plan for the pairs `P`. -/
structure PairStep (cx : DCtx) (P : List (Finset Nat)) (j : Nat) (s : RecombinationStep) : Prop where
  pair : ∃ p, P[j]? = some p ∧ (∀ x, x ∈ s.elements ↔ x ∈ p) ∧ ∀ e ∈ s.constraints, ∀ u ∈ endsOf cx.g e, u ∈ p
  maps : PairMaps cx (P.take j) (s.onFrontiers, s.ownedElements, s.frontierElements)

/-- The pairs of a plan. -/
structure PairList (cx : DCtx) (P : List (Finset Nat)) : Prop where
  nodup : P.Nodup
  pair : ∀ p ∈ P, ∃ a b, a ≠ b ∧ a ∈ cx.vertices ∧ b ∈ cx.vertices ∧ JoinedBy cx.g cx.edges a b ∧ p = {a, b}

/-- The steps emitted for the pairs `P`. -/
structure PairSteps (cx : DCtx) (P : List (Finset Nat)) (steps : List RecombinationStep) : Prop where
  length : steps.length = P.length
  step : ∀ j s, steps[j]? = some s → PairStep cx P j s

/-- The state of `decompose` after the pairs `P`. -/
structure PairState (cx : DCtx) (P : List (Finset Nat)) (st : DState) : Prop where
  inv : st.Inv cx
  graph : st.graph = cx.g
  vertices : st.vertices = cx.vertices
  available : st.available = cx.edges
  blocked : st.blocked = P
  pairs : PairList cx P
  handled : ∀ e ∈ cx.edges, e ∈ st.constraintsHandled ↔ ∃ p ∈ P, ∀ u ∈ endsOf cx.g e, u ∈ p
  seen : ∀ x, x ∈ st.verticesHandled ↔ ∃ p ∈ P, x ∈ p
  maps : PairMaps cx P st.maps
  steps : PairSteps cx P st.steps

variable {cx : DCtx} {d : Int}

theorem DCtx.Pairs.joined (hb : cx.Pairs d) {a b : Nat} (hne : a ≠ b) (h : JoinedBy cx.g cx.edges a b) :
    a ∈ cx.vertices ∧ b ∈ cx.vertices ∧ ∃ e ∈ cx.edges, ∀ u, u ∈ endsOf cx.g e ↔ u = a ∨ u = b := by
  obtain ⟨e, he, h1, h2⟩ := h
  obtain ⟨x, y, hxy, hx, hy, hends⟩ := hb.edge e he
  rw [hends] at h1 h2
  simp only [List.mem_cons, List.not_mem_nil, or_false] at h1 h2
  rcases h1 with rfl | rfl <;> rcases h2 with rfl | rfl
  · exact absurd rfl hne
  · exact ⟨hx, hy, e, he, fun u => by rw [hends]; simp⟩
  · exact ⟨hy, hx, e, he, fun u => by rw [hends]; simp [or_comm]⟩
  · exact absurd rfl hne

/-- A leaf lies in one pair only. -/
theorem DCtx.Leaf.one {x : Nat} (hx : cx.Leaf x) {P : List (Finset Nat)} (hP : PairList cx P) {p q : Finset Nat} (hp : p ∈ P) (hq : q ∈ P)
    (hxp : x ∈ p) (hxq : x ∈ q) : p = q := by
  have other : ∀ p ∈ P, x ∈ p → ∃ u, u ≠ x ∧ JoinedBy cx.g cx.edges x u ∧ p = {x, u} := by
    intro p hp hxp
    obtain ⟨a, b, hab, -, -, hj, rfl⟩ := hP.pair p hp
    rcases Finset.mem_insert.1 hxp with rfl | h
    · exact ⟨b, hab.symm, hj, rfl⟩
    · rw [Finset.mem_singleton] at h
      subst h
      exact ⟨a, hab, hj.symm, Finset.pair_comm _ _⟩
  obtain ⟨u, hu, hju, rfl⟩ := other p hp hxp
  obtain ⟨v, hv, hjv, rfl⟩ := other q hq hxq
  rw [hx u v hu hv hju hjv]

/-- The next pair. -/
theorem PairState.found (hb : cx.Pairs d) {P : List (Finset Nat)} {st : DState} (hs : PairState cx P st)
    (hn : ∃ e ∈ cx.edges, e ∉ st.constraintsHandled) {ord : HashOrder} (hord : ord.Ok) {step : Nat} {r : Option (Finset Nat)}
    (h : (⟨st.graph, st.blocked, st.available, st.vertices, -(d + 1)⟩ : DenseEnv).denseBfs ord step = .ok r) :
    ∃ S, r = some S ∧ PairList cx (P ++ [S]) := by
  rw [hs.graph, hs.blocked, hs.available, hs.vertices] at h
  obtain ⟨h2, h3⟩ := denseBfs_minimum (env := ⟨cx.g, P, cx.edges, cx.vertices, -(d + 1)⟩) hb.consistent hord h
  obtain ⟨e, he, hne⟩ := hn
  obtain ⟨a, b, hab, ha, hbv, hends⟩ := hb.edge e he
  have hj : JoinedBy cx.g cx.edges a b := ⟨e, he, by rw [hends]; simp, by rw [hends]; simp⟩
  have hcand : Candidate ⟨cx.g, P, cx.edges, cx.vertices, -(d + 1)⟩ {a, b} := by
    have hg : Grown ⟨cx.g, P, cx.edges, cx.vertices, -(d + 1)⟩ (insert a {b}) :=
      .more (.one hbv) ha (by simpa using hab) ⟨b, by simp, hj.symm⟩
    refine ⟨hg.sub, hg.connected, by rw [Finset.card_pair hab], fun hc => hne ?_, hb.few a ha b hbv hab⟩
    exact (hs.handled e he).2 ⟨_, hc, fun u hu => by rw [hends] at hu; simpa using hu⟩
  cases r with
  | none => exact absurd hcand (h3 rfl _)
  | some S =>
    obtain ⟨h4, h5⟩ := h2 S rfl
    have h6 := h5 _ hcand
    rw [Finset.card_pair hab] at h6
    have hcard : S.card = 2 := le_antisymm h6 h4.size
    obtain ⟨u, v, huv, rfl⟩ := Finset.card_eq_two.1 hcard
    have hu := h4.vertices (show u ∈ ({u, v} : Finset Nat) by simp)
    have hv := h4.vertices (show v ∈ ({u, v} : Finset Nat) by simp)
    obtain ⟨x, hx, y, hy, hyx, hxy⟩ := h4.connected.2 {u} (by simp) (by simp) (fun hc => huv (by
      have : v ∈ ({u} : Finset Nat) := by rw [hc]; simp
      exact (Finset.mem_singleton.1 this).symm))
    rw [Finset.mem_singleton] at hx hyx
    subst hx
    have hyv : y = v := by
      rcases Finset.mem_insert.1 hy with h | h
      · exact absurd h hyx
      · exact Finset.mem_singleton.1 h
    subst hyv
    refine ⟨_, rfl, ?_, ?_⟩
    · rw [List.nodup_append]
      refine ⟨hs.pairs.nodup, by simp, fun p hp q hq hpq => ?_⟩
      rw [List.mem_singleton] at hq
      subst hq
      subst hpq
      exact h4.fresh hp
    · intro p hp
      rcases List.mem_append.1 hp with hp | hp
      · exact hs.pairs.pair p hp
      · rw [List.mem_singleton] at hp
        subst hp
        exact ⟨_, _, huv, hu, hv, hxy, rfl⟩

/-- The other vertex of a pair. -/
theorem PairList.other {P : List (Finset Nat)} (hP : PairList cx P) {p : Finset Nat} (hp : p ∈ P) {x : Nat} (hx : x ∈ p) :
    ∃ u, u ≠ x ∧ u ∈ p ∧ JoinedBy cx.g cx.edges x u ∧ p = {x, u} := by
  obtain ⟨a, b, hab, -, -, hj, rfl⟩ := hP.pair p hp
  rcases Finset.mem_insert.1 hx with rfl | h
  · exact ⟨b, hab.symm, by simp, hj, rfl⟩
  · rw [Finset.mem_singleton] at h
    subst h
    exact ⟨a, hab, by simp, hj.symm, Finset.pair_comm _ _⟩

theorem PairList.sub {P : List (Finset Nat)} (hP : PairList cx P) {p : Finset Nat} (hp : p ∈ P) : p ⊆ cx.vertices := by
  obtain ⟨a, b, hab, ha, hb, hj, rfl⟩ := hP.pair p hp
  intro x hx
  rcases Finset.mem_insert.1 hx with rfl | h
  · exact ha
  · rw [Finset.mem_singleton] at h; exact h ▸ hb

theorem PairList.card {P : List (Finset Nat)} (hP : PairList cx P) {p : Finset Nat} (hp : p ∈ P) : p.card = 2 := by
  obtain ⟨a, b, hab, ha, hb, hj, rfl⟩ := hP.pair p hp
  exact Finset.card_pair hab

theorem getElem?_concat_iff {α : Type} (P : List α) (S : α) (i : Nat) (p : α) :
    (P ++ [S])[i]? = some p ↔ P[i]? = some p ∨ i = P.length ∧ p = S := by
  rcases lt_trichotomy i P.length with h | h | h
  · rw [List.getElem?_append_left h]
    exact ⟨.inl, fun h' => h'.elim id (fun h' => absurd h'.1 h.ne)⟩
  · subst h
    simp [eq_comm]
  · rw [List.getElem?_eq_none (by simp; omega), List.getElem?_eq_none (by omega)]
    simp
    omega

/-- What the scan of a new pair finds. -/
theorem PairState.scan (hb : cx.Pairs d) {P : List (Finset Nat)} {st : DState} (hs : PairState cx P st) {S : Finset Nat}
    (hPS : PairList cx (P ++ [S])) {done : List Nat} (hdone : ∀ v, v ∈ done ↔ v ∈ S) {sc : ScanState} {key : Nat}
    (h1 : ScanInv cx.nE cx.nC st S done sc) (h2 : ScanMore cx.nE key st S done sc) :
    (∀ v, v ∈ sc.core ↔ v ∈ S ∧ cx.Leaf v) ∧ (∀ v, v ∈ sc.frontier ↔ v ∈ S ∧ ¬ cx.Leaf v) ∧
      (∀ e ∈ cx.edges, e ∈ sc.st.constraintsHandled ↔ ∃ p ∈ P ++ [S], ∀ u ∈ endsOf cx.g e, u ∈ p) ∧
      (∀ e ∈ sc.st.stepConstraints, ∀ u ∈ endsOf cx.g e, u ∈ S) ∧ sc.st.stepConstraints ≠ [] ∧
      (∀ v, v ∈ sc.st.stepFixes ↔ v ∈ S ∧ ∀ p ∈ P, v ∉ p) ∧ (∀ v ∈ sc.core, sc.st.owningCluster.get? v = some key) := by
  have hS : S ∈ P ++ [S] := by simp
  have hsub := hPS.sub hS
  have hnE : ∀ v ∈ S, v < cx.nE := fun v hv => hb.ok.verts v (hsub hv)
  have hnew : S ∉ P := by
    have := hPS.nodup
    rw [List.nodup_append] at this
    exact fun h => this.2.2 S h S (by simp) rfl
  have hcl : ∀ v ∈ sc.core, cx.Leaf v := by
    intro v hv u u' hu hu' hj hj'
    have hvS : v ∈ S := (hdone v).1 ((h1.part v).1 (.inl hv))
    obtain ⟨w, hw, -, -, hSw⟩ := hPS.other hS hvS
    have inS : ∀ u, u ≠ v → JoinedBy cx.g cx.edges v u → u = w := by
      rintro u hu ⟨e, he, hve, hue⟩
      obtain ⟨el, hel, -, hinc⟩ := hb.consistent.vertex v (hsub hvS)
      obtain ⟨hlt, -⟩ := hb.consistent.edge e he
      have := h1.inner v hv el (by rw [hs.graph]; exact hel) e ((hinc e he).2 hve) (by rw [hs.available]; exact he) _
        (by rw [hs.graph]; exact List.getElem?_eq_getElem hlt) u (by rw [← endsOf_of (List.getElem?_eq_getElem hlt)]; exact hue)
      rw [hSw] at this
      rcases Finset.mem_insert.1 this with h | h
      · exact absurd h hu
      · exact Finset.mem_singleton.1 h
    rw [inS u hu hj, inS u' hu' hj']
  have hfl : ∀ v ∈ sc.frontier, ¬ cx.Leaf v := by
    intro v hv hl
    have hvS : v ∈ S := (hdone v).1 ((h1.part v).1 (.inr hv))
    obtain ⟨w, hw, hwS, hj, hSw⟩ := hPS.other hS hvS
    obtain ⟨el, hel, e, he, hav, c, hc, u, hu, huS⟩ := h2.leaves v hv
    rw [hs.graph] at hel hc
    rw [hs.available] at hav
    obtain ⟨el', hel', -, hinc⟩ := hb.consistent.vertex v (hsub hvS)
    rw [hel] at hel'
    cases hel'
    have hve := (hinc e hav).1 he
    have hue : u ∈ endsOf cx.g e := by rw [endsOf_of hc]; exact hu
    have := hl w u hw (by rintro rfl; exact huS hvS) hj ⟨e, hav, hve, hue⟩
    exact huS (this ▸ hwS)
  have hpart : ∀ v, v ∈ S ↔ v ∈ sc.core ∨ v ∈ sc.frontier := fun v => by rw [h1.part, hdone]
  have hin : ∀ e ∈ sc.st.stepConstraints, ∀ u ∈ endsOf cx.g e, u ∈ S := by
    intro e he u hu
    obtain ⟨-, -, c, hc, hu'⟩ := h1.consIn e he
    rw [hs.graph] at hc
    rw [endsOf_of hc] at hu
    exact hu' u hu
  have hcov : ∀ e ∈ cx.edges, (∀ u ∈ endsOf cx.g e, u ∈ S) → e ∈ sc.st.constraintsHandled := by
    intro e he hu
    obtain ⟨a, b, hab, ha, hbv, hends⟩ := hb.edge e he
    obtain ⟨el, hel, -, hinc⟩ := hb.consistent.vertex a ha
    obtain ⟨hlt, -⟩ := hb.consistent.edge e he
    exact h1.covered a ((hdone a).2 (hu a (by rw [hends]; simp))) el (by rw [hs.graph]; exact hel) e ((hinc e he).2 (by rw [hends]; simp))
      (by rw [hs.available]; exact he) hlt _ (by rw [hs.graph]; exact List.getElem?_eq_getElem hlt)
      (by rw [← endsOf_of (List.getElem?_eq_getElem hlt)]; exact hu)
  have hhand : ∀ e ∈ cx.edges, e ∈ sc.st.constraintsHandled ↔ ∃ p ∈ P ++ [S], ∀ u ∈ endsOf cx.g e, u ∈ p := by
    intro e he
    constructor
    · intro h
      rcases (h1.consMem e).1 h with h | h
      · obtain ⟨p, hp, hu⟩ := (hs.handled e he).1 h
        exact ⟨p, by simp [hp], hu⟩
      · exact ⟨S, hS, hin e h⟩
    · rintro ⟨p, hp, hu⟩
      rcases List.mem_append.1 hp with hp | hp
      · exact (h1.consMem e).2 (.inl ((hs.handled e he).2 ⟨p, hp, hu⟩))
      · rw [List.mem_singleton] at hp
        subst hp
        exact hcov e he hu
  refine ⟨fun v => ⟨fun h => ⟨(hpart v).2 (.inl h), hcl v h⟩, fun h => ((hpart v).1 h.1).resolve_right (fun hf => hfl v hf h.2)⟩,
    fun v => ⟨fun h => ⟨(hpart v).2 (.inr h), hfl v h⟩, fun h => ((hpart v).1 h.1).resolve_left (fun hf => h.2 (hcl v hf))⟩, hhand, hin, ?_,
    ?_, ?_⟩
  · obtain ⟨a, b, hab, ha, hbv, hj, hSab⟩ := hPS.pair S hS
    obtain ⟨-, -, e, he, hu⟩ := hb.joined hab hj
    have h3 := hcov e he (fun u hu' => by rw [hSab]; simpa using (hu u).1 hu')
    intro hnil
    rcases (h1.consMem e).1 h3 with h | h
    · obtain ⟨p, hp, hp'⟩ := (hs.handled e he).1 h
      have h4 : S ⊆ p := by
        intro x hx
        rw [hSab] at hx
        exact hp' x ((hu x).2 (by simpa using hx))
      have h5 : S = p := Finset.eq_of_subset_of_card_le h4 (by rw [hs.pairs.card hp, hPS.card hS])
      exact hnew (h5 ▸ hp)
    · rw [hnil] at h
      simp at h
  · intro v
    constructor
    · intro h
      obtain ⟨h3, -, h4⟩ := h1.fixMem v h
      refine ⟨(hdone v).1 h3, fun p hp hv => h4 ((hs.seen v).2 ⟨p, hp, hv⟩)⟩
    · rintro ⟨h3, h4⟩
      rcases (h1.vertMem v).1 (h2.seen v ((hdone v).2 h3) (hnE v h3)) with h | h
      · obtain ⟨p, hp, hv⟩ := (hs.seen v).1 h
        exact absurd hv (h4 p hp)
      · exact h
  · intro v hv
    have hvS : v ∈ S := (hpart v).2 (.inl hv)
    rcases h2.own v (h2.seen v ((hdone v).2 hvS) (hnE v hvS)) with h | h
    · obtain ⟨p, hp, hvp⟩ := (hs.seen v).1 h
      have := (hcl v hv).one hPS (p := p) (by simp [hp]) hS hvp hvS
      exact absurd (this ▸ hp) hnew
    · exact h

/-- The maps after a new pair. -/
theorem PairMaps.next {P : List (Finset Nat)} {S : Finset Nat} {m m' : IMap Nat (List Nat) × IMap Nat (List Nat) × IMap Nat (List Nat)}
    (h : PairMaps cx P m)
    (h1 : ∀ x, ¬ (x ∈ S ∧ ¬ cx.Leaf x) → m'.1.get? x = m.1.get? x)
    (h2 : ∀ x, x ∈ S ∧ ¬ cx.Leaf x → ∀ i, i ∈ (m'.1.get? x).getD [] ↔ i ∈ (m.1.get? x).getD [] ∨ i = P.length)
    (h3 : ∀ i x, x ∈ (m'.2.1.get? i).getD [] ↔ x ∈ (m.2.1.get? i).getD [] ∨ i = P.length ∧ x ∈ S ∧ ∀ p ∈ P, x ∉ p)
    (h4 : ∀ i x, x ∈ (m'.2.2.get? i).getD [] ↔ x ∈ (m.2.2.get? i).getD [] ∨ i = P.length ∧ x ∈ S ∧ ¬ cx.Leaf x) :
    PairMaps cx (P ++ [S]) m' := by
  refine ⟨fun x hx => by rw [h1 x (fun hc => hc.2 hx)]; exact h.leaf x hx, fun x hx i => ?_, fun i x => ?_, fun i x => ?_⟩
  · simp only [getElem?_concat_iff]
    by_cases hS : x ∈ S
    · rw [h2 x ⟨hS, hx⟩, h.front x hx]
      constructor
      · rintro (⟨p, hp, hxp⟩ | rfl)
        · exact ⟨p, .inl hp, hxp⟩
        · exact ⟨S, .inr ⟨rfl, rfl⟩, hS⟩
      · rintro ⟨p, hp | ⟨rfl, rfl⟩, hxp⟩
        · exact .inl ⟨p, hp, hxp⟩
        · exact .inr rfl
    · rw [h1 x (fun hc => hS hc.1), h.front x hx]
      constructor
      · rintro ⟨p, hp, hxp⟩
        exact ⟨p, .inl hp, hxp⟩
      · rintro ⟨p, hp | ⟨rfl, rfl⟩, hxp⟩
        · exact ⟨p, hp, hxp⟩
        · exact absurd hxp hS
  · simp only [getElem?_concat_iff]
    rw [h3, h.owned]
    constructor
    · rintro (⟨⟨p, hp, hxp⟩, ho⟩ | ⟨rfl, hxS, ho⟩)
      · refine ⟨⟨p, .inl hp, hxp⟩, fun i' hi' q hq => ?_⟩
        rcases hq with hq | ⟨rfl, rfl⟩
        · exact ho i' hi' q hq
        · have := (List.getElem?_eq_some_iff.1 hp).1
          omega
      · refine ⟨⟨S, .inr ⟨rfl, rfl⟩, hxS⟩, fun i' hi' q hq => ?_⟩
        rcases hq with hq | ⟨rfl, rfl⟩
        · exact ho q (List.mem_of_getElem? hq)
        · omega
    · rintro ⟨⟨p, hp | ⟨rfl, rfl⟩, hxp⟩, ho⟩
      · exact .inl ⟨⟨p, hp, hxp⟩, fun i' hi' q hq => ho i' hi' q (.inl hq)⟩
      · refine .inr ⟨rfl, hxp, fun q hq => ?_⟩
        obtain ⟨i', hi'⟩ := List.mem_iff_getElem?.1 hq
        exact ho i' (List.getElem?_eq_some_iff.1 hi').1 q (.inl hi')
  · simp only [getElem?_concat_iff]
    rw [h4, h.frontier]
    constructor
    · rintro (⟨hl, p, hp, hxp⟩ | ⟨rfl, hxS, hl⟩)
      · exact ⟨hl, p, .inl hp, hxp⟩
      · exact ⟨hl, S, .inr ⟨rfl, rfl⟩, hxS⟩
    · rintro ⟨hl, p, hp | ⟨rfl, rfl⟩, hxp⟩
      · exact .inl ⟨hl, p, hp, hxp⟩
      · exact .inr ⟨rfl, hxp, hl⟩

theorem PairStep.mono {P Q : List (Finset Nat)} {j : Nat} {s : RecombinationStep} (h : PairStep cx P j s) : PairStep cx (P ++ Q) j s := by
  obtain ⟨⟨p, hp, h1⟩, h2⟩ := h
  have hlt := (List.getElem?_eq_some_iff.1 hp).1
  refine ⟨⟨p, by rw [List.getElem?_append_left hlt]; exact hp, h1⟩, ?_⟩
  rw [List.take_append_of_le_length hlt.le]
  exact h2

/-- The claims of a step. -/
theorem claimFixes_maps {key : Nat} {core : List Nat} {st : DState} (h0 : ∀ x, x ∉ (st.ownedElements.get? key).getD []) :
    (claimFixes key core st).onFrontiers = st.onFrontiers ∧ (claimFixes key core st).frontierElements = st.frontierElements ∧
      (claimFixes key core st).owningCluster = st.owningCluster ∧
      ∀ i x, x ∈ ((claimFixes key core st).ownedElements.get? i).getD [] ↔ x ∈ (st.ownedElements.get? i).getD [] ∨ i = key ∧ x ∈ st.stepFixes := by
  rw [claimFixes]
  split
  · rename_i hc
    simp only [Bool.and_eq_true, List.isEmpty_iff] at hc
    refine ⟨rfl, rfl, rfl, fun i x => ?_⟩
    rw [hc.2]
    simp
  · refine ⟨rfl, rfl, rfl, fun i x => ?_⟩
    simp only [IMap.get?_insert]
    by_cases hi : i = key
    · subst hi
      simp [h0 x]
    · simp [hi]

/-- One more pair. -/
theorem PairState.step (hb : cx.Pairs d) {ord : HashOrder} (hord : ord.Ok) {P : List (Finset Nat)} {st st' : DState} (hs : PairState cx P st)
    {S : Finset Nat} (hPS : PairList cx (P ++ [S])) (h : assembleStep d ord cx.nE cx.nC P.length S st = .ok st') :
    st'.Inv cx ∧ PairSteps cx (P ++ [S]) st'.steps ∧
      (PairState cx (P ++ [S]) st' ∨ ∀ e ∈ cx.edges, e ∈ st'.constraintsHandled) := by
  have hS : S ∈ P ++ [S] := by simp
  have hsub : S ⊆ st.vertices := by rw [hs.vertices]; exact hPS.sub hS
  obtain ⟨hinv, -⟩ := assembleStep_inv hb.ok hord hs.inv hsub h
  refine ⟨hinv, ?_⟩
  rw [assembleStep, bind_eq_ok] at h
  obtain ⟨sc, hsc, h⟩ := h
  have hdone : ∀ v, v ∈ ord [P.length, 2] S ↔ v ∈ S := (hord _ _).2
  have h1 : ScanInv cx.nE cx.nC st S (ord [P.length, 2] S) sc := by
    have := ScanInv.fold (ord [P.length, 2] S) [] _ _ (ScanInv.init hs.inv.clean.1 hs.inv.clean.2) (by simpa using (hord _ _).1) hsc
    simpa using this
  have h2 : ScanMore cx.nE P.length st S (ord [P.length, 2] S) sc := by
    have := ScanMore.fold (ord [P.length, 2] S) [] _ _ ScanMore.init hsc
    simpa using this
  obtain ⟨hcore, hfront, hhand, hin, hne, hfix, hown⟩ := hs.scan hb hPS hdone h1 h2
  have hsize : sc.core.length + sc.frontier.card = 2 := by
    rw [h1.size, ← List.toFinset_card_of_nodup (hord [P.length, 2] S).1]
    refine Eq.trans ?_ (hPS.card hS)
    congr 1
    ext x
    rw [List.mem_toFinset, hdone]
  -- emitting the step
  obtain ⟨st2, hst2⟩ : ∃ st2, st2 = emitStep sc.realElements sc.st := ⟨_, rfl⟩
  obtain ⟨st3, hst3⟩ : ∃ st3, st3 = claimFixes P.length sc.core st2 := ⟨_, rfl⟩
  rw [← hst2] at h
  simp only at h
  rw [← hst3] at h
  have hm := h2.maps
  simp only [DState.maps, Prod.mk.injEq] at hm
  obtain ⟨hm1, hm2, hm3⟩ := hm
  rw [emitStep, if_neg (by simpa using hne)] at hst2
  have e2 : st2.onFrontiers = st.onFrontiers ∧ st2.ownedElements = st.ownedElements ∧ st2.frontierElements = st.frontierElements ∧
      st2.owningCluster = sc.st.owningCluster ∧ st2.stepFixes = sc.st.stepFixes := by
    rw [hst2]; exact ⟨hm1, hm2, hm3, rfl, rfl⟩
  have hsteps : PairSteps cx (P ++ [S]) st2.steps := by
    rw [hst2]
    simp only [h1.steps]
    refine ⟨by simp [hs.steps.length], fun j s hj => ?_⟩
    rw [getElem?_concat_iff] at hj
    rcases hj with hj | ⟨rfl, rfl⟩
    · exact (hs.steps.step j s hj).mono
    · rw [hs.steps.length]
      refine ⟨⟨S, by simp, fun x => ?_, hin⟩, ?_⟩
      · rw [h1.real, hdone]
        exact ⟨fun h => h.1, fun h => ⟨h, hb.ok.verts x (hPS.sub hS h)⟩⟩
      · rw [List.take_left']
        · simp only [hm1, hm2, hm3]
          exact hs.maps
        · rfl
  have hflat : ∀ e, e ∈ sc.st.constraintsHandled → e ∈ st2.steps.flatMap RecombinationStep.constraints := by
    intro e he
    rw [hst2]
    simp only [h1.steps, List.flatMap_append, List.flatMap_singleton, List.mem_append]
    exact ((h1.consMem e).1 he).imp (hs.inv.consMem e).2 id
  have g2 : st2.graph = st.graph ∧ st2.vertices = st.vertices ∧ st2.available = st.available ∧ st2.blocked = st.blocked ∧
      st2.constraintsHandled = sc.st.constraintsHandled ∧ st2.verticesHandled = sc.st.verticesHandled := by
    rw [hst2]; exact ⟨h1.graph, h1.vertices, h1.available, h1.blocked, rfl, rfl⟩
  clear hst2
  obtain ⟨e21, e22, e23, e24, e25⟩ := e2
  obtain ⟨e31, e32, e33, e34⟩ := claimFixes_maps (key := P.length) (core := sc.core) (st := st2) (fun x => by
    rw [e22]
    intro hx
    have := (hs.maps.owned P.length x).1 hx
    simp at this)
  rw [← hst3] at e31 e32 e33 e34
  have g3 : st3.graph = st.graph ∧ st3.vertices = st.vertices ∧ st3.available = st.available ∧ st3.blocked = st.blocked ∧
      st3.constraintsHandled = sc.st.constraintsHandled ∧ st3.verticesHandled = sc.st.verticesHandled ∧ st3.steps = st2.steps := by
    rw [hst3, claimFixes]
    obtain ⟨k1, k2, k3, k4, k5, k6⟩ := g2
    split
    · exact ⟨k1, k2, k3, k4, k5, k6, rfl⟩
    · exact ⟨k1, k2, k3, k4, k5, k6, rfl⟩
  clear hst3
  obtain ⟨m1, m2, m3, m4, m5, m6, m7⟩ := g3
  rw [bind_eq_ok] at h
  obtain ⟨st4, h4, h⟩ := h
  have hme := mergeCore_fold h4
  obtain ⟨f1, f2, f3⟩ := mergeCore_own_fold _ _ _ (fun v hv => by rw [e33, e24]; exact hown v hv) h4
  obtain ⟨n1, n2, n3⟩ := markFrontier_fold (nE := cx.nE) (key := P.length) (ord [P.length, 3] sc.frontier) st4
  have hfl : ∀ v, v ∈ ord [P.length, 3] sc.frontier ↔ v ∈ S ∧ ¬ cx.Leaf v := fun v => by rw [(hord _ _).2, hfront]
  obtain ⟨q1, q2, q3, q4⟩ := markFrontier_maps (nE := cx.nE) (key := P.length) (ord [P.length, 3] sc.frontier) st4 (hord _ _).1
  obtain ⟨st5, hst5⟩ : ∃ st5, st5 = (ord [P.length, 3] sc.frontier).foldl (markFrontier cx.nE P.length) st4 := ⟨_, rfl⟩
  rw [← hst5] at h n1 n2 n3 q1 q2 q3 q4
  have hsame : st3.Same st5 := hme.same.trans n1
  have hf4 : ∀ x, st4.onFrontiers.get? x = st.onFrontiers.get? x := by
    intro x
    rw [f1, e31, e21]
    split
    · rename_i hx
      exact (hs.maps.leaf x ((hcore x).1 hx).2).symm
    · rfl
  have hcard := hPS.card hS
  split at h
  · rename_i hle
    cases h
    refine ⟨by simp only [hsame.steps, m7]; exact hsteps, .inl ?_⟩
    refine ⟨hinv, ?_, ?_, ?_, ?_, hPS, ?_, ?_, ?_, by simp only [hsame.steps, m7]; exact hsteps⟩
    · simp only [n2, hme.graph, m1, hs.graph]
    · simp only [hsame.vertices, m2, hs.vertices]
    · simp only [n3]
      rw [← hs.available, ← m3]
      refine Finset.Subset.antisymm (fun e he => hme.sub e he) (fun e he => ?_)
      by_contra hc
      obtain ⟨v, -, el, c, -, -, h6, h7⟩ := hme.removed e he hc
      have heE : e ∈ cx.edges := by rw [m3, hs.available] at he; exact he
      obtain ⟨a, b, hab, -, -, hends⟩ := hb.edge e heE
      rw [m1, hs.graph] at h6
      rw [endsOf_of h6] at hends
      rw [hends] at h7
      have h8 : ({a, b} : Finset Nat) ⊆ sc.core.toFinset := by
        intro x hx
        rw [List.mem_toFinset]
        exact h7 x (by simpa using hx)
      have h9 := Finset.card_le_card h8
      rw [Finset.card_pair hab, List.toFinset_card_of_nodup h1.coreNodup] at h9
      omega
    · simp only [hsame.blocked, m4, hs.blocked]
    · intro e he
      simp only [hsame.consHandled, m5]
      exact hhand e he
    · intro x
      simp only [hsame.vertHandled, m6]
      rw [h1.vertMem, hs.seen, hfix]
      constructor
      · rintro (⟨p, hp, hx⟩ | ⟨hx, -⟩)
        · exact ⟨p, by simp [hp], hx⟩
        · exact ⟨S, hS, hx⟩
      · rintro ⟨p, hp, hx⟩
        by_cases hex : ∃ p ∈ P, x ∈ p
        · exact .inl hex
        · push Not at hex
          rcases List.mem_append.1 hp with hp | hp
          · exact absurd hx (hex p hp)
          · rw [List.mem_singleton] at hp
            subst hp
            exact .inr ⟨hx, hex⟩
    · refine hs.maps.next (fun x hx => ?_) (fun x hx i => ?_) (fun i x => ?_) (fun i x => ?_)
      · simp only [DState.maps]
        rw [q2 x (fun hc => hx ((hfl x).1 hc)), hf4]
      · simp only [DState.maps]
        rw [q3 x ((hfl x).2 hx), hf4]
        simp
      · simp only [DState.maps]
        rw [q1, f2, e34, e22, e25, hfix]
      · simp only [DState.maps]
        rw [q4, f3, e32, e23, List.mem_append]
        by_cases hi : i = P.length
        · rw [if_pos hi, List.mem_filter, hfl]
          constructor
          · rintro (h | ⟨h, -⟩)
            · exact .inl h
            · exact .inr ⟨hi, h⟩
          · rintro (h | ⟨-, h⟩)
            · exact .inl h
            · exact .inr ⟨h, by simpa using hb.ok.verts x (hPS.sub hS h.1)⟩
        · simp [hi]
  · rename_i hle
    have hst : st'.steps = st2.steps := (contract_same4 h).steps.trans (hsame.steps.trans m7)
    refine ⟨by rw [hst]; exact hsteps, .inr fun e he => ?_⟩
    have hf0 : sc.frontier = ∅ := by
      rw [← Finset.card_eq_zero]
      omega
    have hleaf : ∀ v ∈ S, cx.Leaf v := by
      intro v hv
      by_contra hl
      have := (hfront v).2 ⟨hv, hl⟩
      rw [hf0] at this
      simp at this
    have hall : S = cx.vertices := by
      by_contra hc
      obtain ⟨v, hv, u, -, huS, hj⟩ := hb.connected.2 S (hPS.sub hS) (Finset.card_pos.1 (by omega)) hc
      obtain ⟨w, hw, hwS, hj', -⟩ := hPS.other hS hv
      have := hleaf v hv w u hw (by rintro rfl; exact huS hv) hj' hj
      exact huS (this ▸ hwS)
    have h7 : e ∈ sc.st.constraintsHandled := by
      refine (hhand e he).2 ⟨S, hS, fun u hu => ?_⟩
      obtain ⟨a, b, -, ha, hbv, hends⟩ := hb.edge e he
      rw [hends] at hu
      rw [hall]
      simp only [List.mem_cons, List.not_mem_nil, or_false] at hu
      rcases hu with rfl | rfl
      · exact ha
      · exact hbv
    rw [← hinv.consMem, hst]
    exact hflat e h7

/-- Once all edges are handled, no step is added. -/
theorem assembleStep_done {ord : HashOrder} (hord : ord.Ok) {st st' : DState} (hi : st.Inv cx)
    (hall : ∀ e ∈ cx.edges, e ∈ st.constraintsHandled) {step : Nat} {sub : Finset Nat}
    (h : assembleStep d ord cx.nE cx.nC step sub st = .ok st') : st'.steps = st.steps := by
  rw [assembleStep, bind_eq_ok] at h
  obtain ⟨sc, hsc, h⟩ := h
  have h1 : ScanInv cx.nE cx.nC st sub (ord [step, 2] sub) sc := by
    have := ScanInv.fold (ord [step, 2] sub) [] _ _ (ScanInv.init hi.clean.1 hi.clean.2) (by simpa using (hord _ _).1) hsc
    simpa using this
  have hnil : sc.st.stepConstraints = [] := by
    rw [List.eq_nil_iff_forall_not_mem]
    intro e he
    obtain ⟨ha, hn, -⟩ := h1.consIn e he
    exact h1.consNew e he (hall e (hi.graph.availReal e ha hn))
  rw [emitStep, if_pos (by simpa using hnil)] at h
  simp only at h
  rw [bind_eq_ok] at h
  obtain ⟨st4, h4, h⟩ := h
  have h5 : st4.steps = st.steps := by
    rw [(mergeCore_fold h4).same.steps, ← h1.steps, claimFixes]
    split <;> rfl
  have h6 := (markFrontier_fold (nE := cx.nE) (key := step) (ord [step, 3] sc.frontier) st4).1.steps
  split at h
  · cases h
    exact h6.trans h5
  · exact (contract_same4 h).steps.trans (h6.trans h5)

theorem decomposeLoop_done (hcx : cx.Ok) {ord : HashOrder} (hord : ord.Ok) : ∀ (fuel step : Nat) (st : DState) (steps : List RecombinationStep),
    st.Inv cx → (∀ e ∈ cx.edges, e ∈ st.constraintsHandled) → decomposeLoop d ord cx.nE cx.nC fuel step st = .ok steps → steps = st.steps := by
  intro fuel
  induction fuel with
  | zero => intro step st steps _ _ h; simp [decomposeLoop] at h
  | succ fuel ih =>
    intro step st steps hi hall h
    rw [decomposeLoop] at h
    obtain ⟨r, h1, h2⟩ := (hi.env (-(d + 1))).denseBfs hord step
    simp only [h1, ok_bind] at h
    cases r with
    | none =>
      simp only [pure_eq_ok, Except.ok.injEq] at h
      subst h
      unfold lastStep
      simp only
      rw [if_pos]
      rw [List.isEmpty_iff, List.eq_nil_iff_forall_not_mem]
      intro e he
      simp only [List.mem_filter, (hord [step, 5] st.available).2, Bool.and_eq_true, decide_eq_true_eq, Bool.not_eq_true', decide_eq_false_iff_not] at he
      exact he.2.2 (hall e (hi.graph.availReal e he.1 he.2.1))
    | some sub =>
      simp only at h
      rw [bind_eq_ok] at h
      obtain ⟨st', h3, h4⟩ := h
      have hi' := (assembleStep_inv hcx hord hi (h2 sub rfl).1 h3).1
      have hst := assembleStep_done hord hi hall h3
      rw [ih _ _ _ hi' (fun e he => by rw [← hi'.consMem, hst, hi.consMem]; exact hall e he) h4, hst]

theorem decomposeLoop_pairs (hb : cx.Pairs d) {ord : HashOrder} (hord : ord.Ok) : ∀ (fuel : Nat) (P : List (Finset Nat)) (st : DState)
    (steps : List RecombinationStep), PairState cx P st → decomposeLoop d ord cx.nE cx.nC fuel P.length st = .ok steps →
    ∃ Q, PairList cx Q ∧ PairSteps cx Q steps := by
  intro fuel
  induction fuel with
  | zero => intro P st steps _ h; simp [decomposeLoop] at h
  | succ fuel ih =>
    intro P st steps hs h
    by_cases hall : ∀ e ∈ cx.edges, e ∈ st.constraintsHandled
    · rw [decomposeLoop_done hb.ok hord _ _ _ _ hs.inv hall h]
      exact ⟨P, hs.pairs, hs.steps⟩
    · push Not at hall
      rw [decomposeLoop, bind_eq_ok] at h
      obtain ⟨r, h1, h⟩ := h
      obtain ⟨S, rfl, hPS⟩ := hs.found hb hall hord h1
      simp only at h
      rw [bind_eq_ok] at h
      obtain ⟨st', h3, h4⟩ := h
      obtain ⟨hi, hsteps, hs' | hdone⟩ := hs.step hb hord hPS h3
      · exact ih _ _ _ hs' (by simpa using h4)
      · rw [decomposeLoop_done hb.ok hord _ _ _ _ hi hdone h4]
        exact ⟨_, hPS, hsteps⟩

/-- A plan for edges between two vertices has one step for each pair of joined vertices. -/
theorem decompose_pairs (hb : cx.Pairs d) {ord : HashOrder} (hord : ord.Ok) {steps : List RecombinationStep}
    (h : decompose d ord cx.g cx.vertices cx.edges = .ok steps) : ∃ P, PairList cx P ∧ PairSteps cx P steps := by
  rw [decompose, bind_eq_ok] at h
  obtain ⟨nc, h1, h⟩ := h
  rw [toU32_eq_ok] at h1
  obtain ⟨-, rfl⟩ := h1
  rw [bind_eq_ok] at h
  obtain ⟨ne, h1, h⟩ := h
  rw [toU32_eq_ok] at h1
  obtain ⟨-, rfl⟩ := h1
  refine decomposeLoop_pairs hb hord _ [] _ _ ⟨DState.Inv.init hb.ok, rfl, rfl, rfl, rfl, ⟨by simp, by simp⟩, by simp, by simp, ?_, rfl, by simp⟩ h
  exact ⟨by simp [DState.maps], by simp [DState.maps], by simp [DState.maps], by simp [DState.maps]⟩

end Fiksi
