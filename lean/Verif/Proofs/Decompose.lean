import Verif.Proofs.DenseBfs
/-! # Facts about `decompose`: what its plans contain, and termination -/
namespace Fiksi

/-- What `decompose` was called with. -/
structure DCtx where
  g : DGraph
  vertices : Finset Nat
  edges : Finset Nat

/-- Number of elements of the original graph. -/
abbrev DCtx.nE (cx : DCtx) : Nat := cx.g.elements.length
/-- Number of constraints of the original graph. -/
abbrev DCtx.nC (cx : DCtx) : Nat := cx.g.constraints.length

/-- The arguments of the call make sense. -/
structure DCtx.Ok (cx : DCtx) : Prop where
  range : cx.g.InRange
  verts : ∀ v ∈ cx.vertices, v < cx.nE
  edges : ∀ e ∈ cx.edges, e < cx.nC

/-- The constraints only link elements of the component, and each element knows its constraints. -/
def DCtx.Closed (cx : DCtx) : Prop :=
  ∀ e ∈ cx.edges, ∀ c, cx.g.constraints[e]? = some c → ∀ v ∈ c.incidentElements,
    v ∈ cx.vertices ∧ ∃ el, cx.g.elements[v]? = some el ∧ e ∈ el.incidentConstraints

/-- Parts of the state that a function leaves alone. -/
structure DState.Same (st st' : DState) : Prop where
  vertices : st'.vertices = st.vertices
  blocked : st'.blocked = st.blocked
  steps : st'.steps = st.steps
  consHandled : st'.constraintsHandled = st.constraintsHandled
  vertHandled : st'.verticesHandled = st.verticesHandled
  stepConstraints : st'.stepConstraints = st.stepConstraints
  stepFixes : st'.stepFixes = st.stepFixes

theorem DState.Same.refl (st : DState) : st.Same st := ⟨rfl, rfl, rfl, rfl, rfl, rfl, rfl⟩

theorem DState.Same.trans {a b c : DState} (h : a.Same b) (h' : b.Same c) : a.Same c :=
  ⟨h'.1.trans h.1, h'.2.trans h.2, h'.3.trans h.3, h'.4.trans h.4, h'.5.trans h.5, h'.6.trans h.6, h'.7.trans h.7⟩

/-- Everything inside the subgraph has been taken care of. -/
def DState.Done (cx : DCtx) (sub : Finset Nat) (st : DState) : Prop :=
  ∀ v ∈ sub, ∀ el, st.graph.elements[v]? = some el → ∀ e ∈ el.incidentConstraints, e ∈ st.available → e < cx.nC →
    ∀ c, st.graph.constraints[e]? = some c → (∀ u ∈ c.incidentElements, u ∈ sub) → e ∈ st.constraintsHandled

/-- The part of the invariant about the graph and the available edges. -/
structure DState.GraphInv (cx : DCtx) (st : DState) : Prop where
  range : st.graph.InRange
  elems : cx.nE ≤ st.graph.elements.length
  cons : cx.nC ≤ st.graph.constraints.length
  incMono : ∀ (v : Nat) el0, cx.g.elements[v]? = some el0 →
    ∃ el, st.graph.elements[v]? = some el ∧ ∀ e ∈ el0.incidentConstraints, e ∈ el.incidentConstraints
  availReal : ∀ e ∈ st.available, e < cx.nC → e ∈ cx.edges
  covered : ∀ e ∈ cx.edges, e ∉ st.available → e ∈ st.constraintsHandled
  orig : ∀ e ∈ cx.edges, e ∉ st.constraintsHandled → ∀ c0, cx.g.constraints[e]? = some c0 →
    ∃ c, st.graph.constraints[e]? = some c ∧ c.incidentElements = c0.incidentElements

/-! ## Scanning the subgraph -/

theorem scanEdges_spec {nC : Nat} {sub : Finset Nat} : ∀ (edges : List Nat) (b : Bool) (st : DState) (b' : Bool) (st' : DState),
    edges.foldlM (fun (bs : Bool × DState) edgeId => do
      let edge ← idx bs.2.graph.constraints edgeId
      if edge.incidentElements.all (fun u => decide (u ∈ sub)) then
        if edgeId < nC ∧ edgeId ∉ bs.2.constraintsHandled then
          pure (bs.1, { bs.2 with
            stepConstraints := bs.2.stepConstraints ++ [edgeId]
            constraintsHandled := insert edgeId bs.2.constraintsHandled })
        else pure bs
      else pure (true, bs.2)) (b, st) = (.ok (b', st') : R (Bool × DState)) →
    ∃ new, st' = { st with
        stepConstraints := st.stepConstraints ++ new
        constraintsHandled := st.constraintsHandled ∪ new.toFinset } ∧ new.Nodup ∧
      (∀ e ∈ new, e ∉ st.constraintsHandled ∧ e ∈ edges ∧ e < nC ∧
        ∃ c, st.graph.constraints[e]? = some c ∧ ∀ u ∈ c.incidentElements, u ∈ sub) ∧
      (∀ e ∈ edges, e < nC → ∀ c, st.graph.constraints[e]? = some c → (∀ u ∈ c.incidentElements, u ∈ sub) →
        e ∈ st.constraintsHandled ∪ new.toFinset) ∧
      (b = true → b' = true) ∧
      (b' = false → ∀ e ∈ edges, ∀ c, st.graph.constraints[e]? = some c → ∀ u ∈ c.incidentElements, u ∈ sub) := by
  intro edges
  induction edges with
  | nil =>
    intro b st b' st' h
    simp only [List.foldlM_nil, pure_eq_ok, Except.ok.injEq, Prod.mk.injEq] at h
    obtain ⟨rfl, rfl⟩ := h
    exact ⟨[], by simp, by simp, by simp, by simp, by simp, by simp⟩
  | cons e edges ih =>
    intro b st b' st' h
    rw [List.foldlM_cons, bind_eq_ok] at h
    obtain ⟨⟨b1, st1⟩, h1, h2⟩ := h
    rw [bind_eq_ok] at h1
    obtain ⟨c, hc, h1⟩ := h1
    rw [idx_eq_ok] at hc
    simp only at hc
    obtain ⟨new, hst, hnd, hnew, hcov, hb, hb'⟩ := ih _ _ _ _ h2
    by_cases hall : c.incidentElements.all (fun u => decide (u ∈ sub)) = true
    · rw [if_pos hall] at h1
      have hall' : ∀ u ∈ c.incidentElements, u ∈ sub := by simpa using hall
      by_cases hn : e < nC ∧ e ∉ st.constraintsHandled
      · rw [if_pos hn] at h1
        simp only [pure_eq_ok, Except.ok.injEq, Prod.mk.injEq] at h1
        obtain ⟨rfl, rfl⟩ := h1
        simp only at hst hnew hcov hb'
        refine ⟨e :: new, ?_, ?_, ?_, ?_, hb, ?_⟩
        · rw [hst]
          simp only [List.append_assoc, List.singleton_append, List.toFinset_cons, DState.mk.injEq, true_and, and_true]
          ext x; simp [or_left_comm]
        · exact List.nodup_cons.2 ⟨fun hx => (hnew e hx).1 (by simp), hnd⟩
        · intro x hx
          rcases List.mem_cons.1 hx with rfl | hx
          · exact ⟨hn.2, by simp, hn.1, c, hc, hall'⟩
          · obtain ⟨k1, k2, k3, k4⟩ := hnew x hx
            exact ⟨fun hk => k1 (by simp [hk]), by simp [k2], k3, k4⟩
        · intro x hx hxn c' hc' hin
          rcases List.mem_cons.1 hx with rfl | hx
          · simp
          · have := hcov x hx hxn c' hc' hin
            simp only [Finset.mem_union, Finset.mem_insert, List.mem_toFinset, List.mem_cons] at this ⊢
            tauto
        · intro hf x hx c' hc'
          rcases List.mem_cons.1 hx with rfl | hx
          · rw [hc] at hc'; cases hc'; exact hall'
          · exact hb' hf x hx c' hc'
      · rw [if_neg hn] at h1
        simp only [pure_eq_ok, Except.ok.injEq, Prod.mk.injEq] at h1
        obtain ⟨rfl, rfl⟩ := h1
        refine ⟨new, hst, hnd, fun x hx => ?_, ?_, hb, ?_⟩
        · obtain ⟨k1, k2, k3, k4⟩ := hnew x hx
          exact ⟨k1, by simp [k2], k3, k4⟩
        · intro x hx hxn c' hc' hin
          rcases List.mem_cons.1 hx with rfl | hx
          · have : x ∈ st.constraintsHandled := by
              by_contra hk
              exact hn ⟨hxn, hk⟩
            simp [this]
          · exact hcov x hx hxn c' hc' hin
        · intro hf x hx c' hc'
          rcases List.mem_cons.1 hx with rfl | hx
          · rw [hc] at hc'; cases hc'; exact hall'
          · exact hb' hf x hx c' hc'
    · rw [if_neg hall] at h1
      simp only [pure_eq_ok, Except.ok.injEq, Prod.mk.injEq] at h1
      obtain ⟨rfl, rfl⟩ := h1
      refine ⟨new, hst, hnd, fun x hx => ?_, ?_, fun _ => hb rfl, ?_⟩
      · obtain ⟨k1, k2, k3, k4⟩ := hnew x hx
        exact ⟨k1, by simp [k2], k3, k4⟩
      · intro x hx hxn c' hc' hin
        rcases List.mem_cons.1 hx with rfl | hx
        · rw [hc] at hc'; cases hc'
          exact absurd (by simpa using hin) hall
        · exact hcov x hx hxn c' hc' hin
      · intro hf
        rw [hb rfl] at hf
        cases hf

/-- What is known after scanning the vertices in `done`. -/
structure ScanInv (nE nC : Nat) (st0 : DState) (sub : Finset Nat) (done : List Nat) (sc : ScanState) : Prop where
  graph : sc.st.graph = st0.graph
  vertices : sc.st.vertices = st0.vertices
  available : sc.st.available = st0.available
  blocked : sc.st.blocked = st0.blocked
  steps : sc.st.steps = st0.steps
  part : ∀ v, (v ∈ sc.core ∨ v ∈ sc.frontier) ↔ v ∈ done
  coreNodup : sc.core.Nodup
  disj : ∀ v ∈ sc.core, v ∉ sc.frontier
  size : sc.core.length + sc.frontier.card = done.length
  real : ∀ v, v ∈ sc.realElements ↔ v ∈ done ∧ v < nE
  realNodup : sc.realElements.Nodup
  inner : ∀ v ∈ sc.core, ∀ el, st0.graph.elements[v]? = some el → ∀ e ∈ el.incidentConstraints, e ∈ st0.available →
    ∀ c, st0.graph.constraints[e]? = some c → ∀ u ∈ c.incidentElements, u ∈ sub
  covered : ∀ v ∈ done, ∀ el, st0.graph.elements[v]? = some el → ∀ e ∈ el.incidentConstraints, e ∈ st0.available → e < nC →
    ∀ c, st0.graph.constraints[e]? = some c → (∀ u ∈ c.incidentElements, u ∈ sub) → e ∈ sc.st.constraintsHandled
  consNodup : sc.st.stepConstraints.Nodup
  consMem : ∀ e, e ∈ sc.st.constraintsHandled ↔ e ∈ st0.constraintsHandled ∨ e ∈ sc.st.stepConstraints
  consNew : ∀ e ∈ sc.st.stepConstraints, e ∉ st0.constraintsHandled
  consIn : ∀ e ∈ sc.st.stepConstraints, e ∈ st0.available ∧ e < nC ∧
    ∃ c, st0.graph.constraints[e]? = some c ∧ ∀ u ∈ c.incidentElements, u ∈ sub
  fixNodup : sc.st.stepFixes.Nodup
  fixMem : ∀ v ∈ sc.st.stepFixes, v ∈ done ∧ v < nE ∧ v ∉ st0.verticesHandled
  vertMem : ∀ v, v ∈ sc.st.verticesHandled ↔ v ∈ st0.verticesHandled ∨ v ∈ sc.st.stepFixes

theorem ScanInv.step {nE nC key : Nat} {st0 : DState} {sub : Finset Nat} {done : List Nat} {sc sc' : ScanState} {v : Nat}
    (h : ScanInv nE nC st0 sub done sc) (hv : v ∉ done) (hs : scanVertex nE nC key sub sc v = .ok sc') :
    ScanInv nE nC st0 sub (done ++ [v]) sc' := by
  rw [scanVertex] at hs
  obtain ⟨real, hrd⟩ : ∃ real, real = if v < nE then sc.realElements ++ [v] else sc.realElements := ⟨_, rfl⟩
  obtain ⟨st, hsd⟩ : ∃ st, st = noteVertex nE key sc.st v := ⟨_, rfl⟩
  rw [← hsd] at hs
  rw [noteVertex] at hsd
  have hgraph : st.graph = st0.graph := by rw [← h.graph]; rw [hsd]; split <;> rfl
  have hverts : st.vertices = st0.vertices := by rw [← h.vertices]; rw [hsd]; split <;> rfl
  have havail : st.available = st0.available := by rw [← h.available]; rw [hsd]; split <;> rfl
  have hblock : st.blocked = st0.blocked := by rw [← h.blocked]; rw [hsd]; split <;> rfl
  have hsteps : st.steps = st0.steps := by rw [← h.steps]; rw [hsd]; split <;> rfl
  have hcons : st.stepConstraints = sc.st.stepConstraints := by rw [hsd]; split <;> rfl
  have hhand : st.constraintsHandled = sc.st.constraintsHandled := by rw [hsd]; split <;> rfl
  have hfix : st.stepFixes.Nodup ∧ (∀ w ∈ st.stepFixes, w ∈ done ++ [v] ∧ w < nE ∧ w ∉ st0.verticesHandled) ∧
      (∀ w, w ∈ st.verticesHandled ↔ w ∈ st0.verticesHandled ∨ w ∈ st.stepFixes) := by
    rw [hsd]
    split
    · rename_i hc
      have hnot := (h.vertMem v).not.1 hc.2
      rw [not_or] at hnot
      refine ⟨?_, ?_, ?_⟩
      · exact List.nodup_append.2 ⟨h.fixNodup, by simp, fun a ha b hb => by
          rw [List.mem_singleton] at hb; rintro rfl; exact hnot.2 (hb ▸ ha)⟩
      · intro w hw
        rcases List.mem_append.1 hw with hw | hw
        · obtain ⟨a, b⟩ := h.fixMem w hw
          exact ⟨by simp [a], b⟩
        · rw [List.mem_singleton] at hw
          subst hw
          exact ⟨by simp, hc.1, hnot.1⟩
      · intro w
        simp only [Finset.mem_insert, h.vertMem, List.mem_append, List.mem_singleton]
        tauto
    · refine ⟨h.fixNodup, fun w hw => ?_, h.vertMem⟩
      obtain ⟨a, b⟩ := h.fixMem w hw
      exact ⟨by simp [a], b⟩
  have hreal : ∀ w, w ∈ real ↔ w ∈ done ++ [v] ∧ w < nE := by
    intro w
    rw [hrd]
    split
    · rename_i hc
      simp only [List.mem_append, h.real, List.mem_singleton]
      constructor
      · rintro (⟨a, b⟩ | rfl)
        · exact ⟨.inl a, b⟩
        · exact ⟨.inr rfl, hc⟩
      · rintro ⟨a | a, b⟩
        · exact .inl ⟨a, b⟩
        · exact .inr a
    · rename_i hc
      simp only [List.mem_append, h.real, List.mem_singleton]
      constructor
      · rintro ⟨a, b⟩; exact ⟨.inl a, b⟩
      · rintro ⟨a | rfl, b⟩
        · exact ⟨a, b⟩
        · exact absurd b hc
  have hrealNodup : real.Nodup := by
    rw [hrd]
    split
    · exact List.nodup_append.2 ⟨h.realNodup, by simp, fun a ha b hb => by
        rw [List.mem_singleton] at hb
        rintro rfl
        exact hv (hb ▸ ((h.real _).1 ha).1)⟩
    · exact h.realNodup
  rw [bind_eq_ok] at hs
  obtain ⟨edges, he, hs⟩ := hs
  rw [DGraph.availableAt, bind_eq_ok] at he
  obtain ⟨el, hel, he⟩ := he
  rw [idx_eq_ok, hgraph] at hel
  simp only [pure_eq_ok, Except.ok.injEq] at he
  rw [bind_eq_ok] at hs
  obtain ⟨⟨b, st'⟩, h1, hs⟩ := hs
  rw [scanEdges] at h1
  obtain ⟨new, hst, hnd, hnew, hcov, -, hb⟩ := scanEdges_spec _ _ _ _ _ h1
  rw [hgraph] at hcov hb
  have hedge : ∀ e, e ∈ edges ↔ e ∈ el.incidentConstraints ∧ e ∈ st0.available := by
    intro e; rw [← he]; simp [havail]
  have hnew' : ∀ e ∈ new, e ∉ st0.constraintsHandled ∧ e ∉ sc.st.stepConstraints := by
    intro e hx
    have := (hnew e hx).1
    rw [hhand] at this
    rw [h.consMem, not_or] at this
    exact this
  have common : ∀ (core : List Nat) (frontier : Finset Nat),
      (∀ w, (w ∈ core ∨ w ∈ frontier) ↔ w ∈ done ++ [v]) → core.Nodup → (∀ w ∈ core, w ∉ frontier) →
      core.length + frontier.card = (done ++ [v]).length →
      (∀ w ∈ core, w ∈ sc.core ∨ (w = v ∧ b = false)) → ScanInv nE nC st0 sub (done ++ [v]) ⟨st', core, frontier, real⟩ := by
    intro core frontier p1 p2 p3 p4 p5
    refine ⟨by simp [hst, hgraph], by simp [hst, hverts], by simp [hst, havail], by simp [hst, hblock], by simp [hst, hsteps], p1, p2,
      p3, p4, hreal, hrealNodup, ?_, ?_, ?_, ?_, ?_, ?_, ?_, ?_, ?_⟩
    · intro w hw el' hel' e hi ha c hc
      rcases p5 w hw with hw | ⟨rfl, hbf⟩
      · exact h.inner w hw el' hel' e hi ha c hc
      · rw [hel] at hel'; cases hel'
        exact hb hbf e ((hedge e).2 ⟨hi, ha⟩) c hc
    · intro w hw el' hel' e hi ha hn c hc hin
      simp only [hst, hhand]
      rcases List.mem_append.1 hw with hw | hw
      · exact Finset.mem_union_left _ (h.covered w hw el' hel' e hi ha hn c hc hin)
      · rw [List.mem_singleton] at hw
        subst hw
        rw [hel] at hel'; cases hel'
        rw [← hhand]
        exact hcov e ((hedge e).2 ⟨hi, ha⟩) hn c hc hin
    · simp only [hst, hcons]
      exact List.nodup_append.2 ⟨h.consNodup, hnd, fun a ha b hb => by rintro rfl; exact (hnew' a hb).2 ha⟩
    · intro e
      simp only [hst, hhand, hcons, Finset.mem_union, h.consMem, List.mem_append, List.mem_toFinset]
      tauto
    · intro e hx
      simp only [hst, hcons, List.mem_append] at hx
      rcases hx with hx | hx
      · exact h.consNew e hx
      · exact (hnew' e hx).1
    · intro e hx
      simp only [hst, hcons, List.mem_append] at hx
      rcases hx with hx | hx
      · exact h.consIn e hx
      · obtain ⟨-, k2, k3, k4⟩ := hnew e hx
        rw [hgraph] at k4
        exact ⟨((hedge e).1 k2).2, k3, k4⟩
    · simp only [hst]; exact hfix.1
    · simp only [hst]; exact hfix.2.1
    · simp only [hst]; exact hfix.2.2
  have hvc : v ∉ sc.core ∧ v ∉ sc.frontier := by
    rw [← not_or, h.part]; exact hv
  simp only [← hrd] at hs
  split at hs
  · simp only [pure_eq_ok, Except.ok.injEq] at hs
    subst hs
    refine common sc.core (insert v sc.frontier) (fun w => ?_) h.coreNodup (fun w hw => ?_) ?_ (fun w hw => .inl hw)
    · simp only [Finset.mem_insert, List.mem_append, List.mem_singleton, ← h.part w]; tauto
    · rw [Finset.mem_insert, not_or]
      exact ⟨fun he => hvc.1 (he ▸ hw), h.disj w hw⟩
    · rw [Finset.card_insert_of_notMem hvc.2, List.length_append, ← h.size]; simp; omega
  · rename_i hbf
    simp only [pure_eq_ok, Except.ok.injEq] at hs
    subst hs
    refine common (sc.core ++ [v]) sc.frontier (fun w => ?_) ?_ (fun w hw => ?_) ?_ (fun w hw => ?_)
    · simp only [List.mem_append, List.mem_singleton, ← h.part w]; tauto
    · exact List.nodup_append.2 ⟨h.coreNodup, by simp, fun a ha b hb => by
        rw [List.mem_singleton] at hb; rintro rfl; exact hvc.1 (hb ▸ ha)⟩
    · rcases List.mem_append.1 hw with hw | hw
      · exact h.disj w hw
      · rw [List.mem_singleton] at hw; subst hw; exact hvc.2
    · rw [List.length_append, List.length_append, ← h.size]; simp; omega
    · rcases List.mem_append.1 hw with hw | hw
      · exact .inl hw
      · exact .inr ⟨List.mem_singleton.1 hw, by simpa using hbf⟩

theorem ScanInv.fold {nE nC key : Nat} {st0 : DState} {sub : Finset Nat} : ∀ (l done : List Nat) (sc sc' : ScanState),
    ScanInv nE nC st0 sub done sc → (done ++ l).Nodup → l.foldlM (scanVertex nE nC key sub) sc = .ok sc' →
    ScanInv nE nC st0 sub (done ++ l) sc' := by
  intro l
  induction l with
  | nil =>
    intro done sc sc' h _ hs
    simp only [List.foldlM_nil, pure_eq_ok, Except.ok.injEq] at hs
    subst hs
    simpa using h
  | cons v l ih =>
    intro done sc sc' h hn hs
    rw [List.foldlM_cons, bind_eq_ok] at hs
    obtain ⟨sc1, h1, h2⟩ := hs
    have hv : v ∉ done := by
      rw [List.nodup_append] at hn
      intro hx
      exact hn.2.2 v hx v (by simp) rfl
    have := ih (done ++ [v]) sc1 sc' (h.step hv h1) (by simpa using hn) h2
    simpa using this

theorem ScanInv.init {nE nC : Nat} {st0 : DState} {sub : Finset Nat} (h1 : st0.stepConstraints = []) (h2 : st0.stepFixes = []) :
    ScanInv nE nC st0 sub [] ⟨st0, [], ∅, []⟩ := by
  constructor <;> simp [h1, h2]

/-! ## Merging clusters and marking frontiers -/

/-- The effect of the loop over the core. -/
structure MergeEffect (core : List Nat) (st st' : DState) : Prop where
  same : st.Same st'
  graph : st'.graph = st.graph
  sub : ∀ e ∈ st'.available, e ∈ st.available
  removed : ∀ e ∈ st.available, e ∉ st'.available → ∃ v ∈ core, ∃ el c, st.graph.elements[v]? = some el ∧
    e ∈ el.incidentConstraints ∧ st.graph.constraints[e]? = some c ∧ ∀ u ∈ c.incidentElements, u ∈ core

theorem MergeEffect.refl (core : List Nat) (st : DState) : MergeEffect core st st :=
  ⟨.refl st, rfl, fun _ h => h, fun _ h h' => absurd h h'⟩

theorem MergeEffect.trans {core : List Nat} {a b c : DState} (h : MergeEffect core a b) (h' : MergeEffect core b c) :
    MergeEffect core a c := by
  refine ⟨h.same.trans h'.same, h'.graph.trans h.graph, fun e he => h.sub e (h'.sub e he), fun e he hn => ?_⟩
  by_cases hb : e ∈ b.available
  · have := h'.removed e hb hn
    rwa [h.graph] at this
  · exact h.removed e he hb

theorem mergeCore_effect {nE key : Nat} {core : List Nat} {st st' : DState} {v : Nat} (hv : v ∈ core)
    (h : mergeCore nE key core st v = .ok st') : MergeEffect core st st' := by
  rw [mergeCore, bind_eq_ok] at h
  obtain ⟨st1, h1, h⟩ := h
  have e1 : MergeEffect core st st1 := by
    split at h1
    · rw [bind_eq_ok] at h1
      obtain ⟨el, hel, h1⟩ := h1
      rw [idx_eq_ok] at hel
      rw [bind_eq_ok] at h1
      obtain ⟨av, hav, h1⟩ := h1
      simp only [pure_eq_ok, Except.ok.injEq] at h1
      subst h1
      have key := foldlM_inv (fun (av : Finset Nat) => (∀ e ∈ av, e ∈ st.available) ∧
        ∀ e ∈ st.available, e ∉ av → ∃ v ∈ core, ∃ el c, st.graph.elements[v]? = some el ∧
          e ∈ el.incidentConstraints ∧ st.graph.constraints[e]? = some c ∧ ∀ u ∈ c.incidentElements, u ∈ core)
        _ _ _ _ ⟨fun _ h => h, fun e he hn => absurd he hn⟩ (by
          intro s e s' he hs hs'
          rw [bind_eq_ok] at hs'
          obtain ⟨c, hc, hs'⟩ := hs'
          rw [idx_eq_ok] at hc
          simp only [pure_eq_ok, Except.ok.injEq] at hs'
          subst hs'
          split
          · rename_i hall
            refine ⟨fun x hx => hs.1 x (Finset.mem_of_mem_erase hx), fun x hx hn => ?_⟩
            by_cases hxs : x ∈ s
            · have : x = e := by
                by_contra hne
                exact hn (Finset.mem_erase.2 ⟨hne, hxs⟩)
              subst this
              exact ⟨v, hv, el, c, hel, he, hc, by simpa using hall⟩
            · exact hs.2 x hx hxs
          · exact hs) hav
      exact ⟨⟨rfl, rfl, rfl, rfl, rfl, rfl, rfl⟩, rfl, key.1, key.2⟩
    · simp only [pure_eq_ok, Except.ok.injEq] at h1
      subst h1
      exact .refl _ _
  refine e1.trans ?_
  rw [bind_eq_ok] at h
  obtain ⟨old, -, h⟩ := h
  rw [bind_eq_ok] at h
  obtain ⟨st2, h2, h⟩ := h
  simp only [pure_eq_ok, Except.ok.injEq] at h
  subst h
  split at h2
  · rw [bind_eq_ok] at h2
    obtain ⟨_, -, h2⟩ := h2
    rw [bind_eq_ok] at h2
    obtain ⟨_, -, h2⟩ := h2
    rw [bind_eq_ok] at h2
    obtain ⟨_, -, h2⟩ := h2
    rw [bind_eq_ok] at h2
    obtain ⟨_, -, h2⟩ := h2
    simp only [pure_eq_ok, Except.ok.injEq] at h2
    subst h2
    exact ⟨⟨rfl, rfl, rfl, rfl, rfl, rfl, rfl⟩, rfl, fun _ h => h, fun _ h h' => absurd h h'⟩
  · simp only [pure_eq_ok, Except.ok.injEq] at h2
    subst h2
    exact ⟨⟨rfl, rfl, rfl, rfl, rfl, rfl, rfl⟩, rfl, fun _ h => h, fun _ h h' => absurd h h'⟩

theorem mergeCore_fold {nE key : Nat} {core : List Nat} {st st' : DState}
    (h : core.foldlM (mergeCore nE key core) st = .ok st') : MergeEffect core st st' :=
  foldlM_inv (fun s => MergeEffect core st s) _ _ _ _ (.refl _ _) (fun _ _ _ ha hs h => hs.trans (mergeCore_effect ha h)) h

theorem markFrontier_fold {nE key : Nat} : ∀ (l : List Nat) (st : DState),
    st.Same (l.foldl (markFrontier nE key) st) ∧ (l.foldl (markFrontier nE key) st).graph = st.graph ∧
      (l.foldl (markFrontier nE key) st).available = st.available := by
  intro l
  induction l with
  | nil => intro st; exact ⟨.refl _, rfl, rfl⟩
  | cons v l ih =>
    intro st
    obtain ⟨h1, h2, h3⟩ := ih (markFrontier nE key st v)
    have h0 : st.Same (markFrontier nE key st v) := ⟨rfl, rfl, rfl, rfl, rfl, rfl, rfl⟩
    exact ⟨h0.trans h1, h2, h3⟩

/-! ## Contraction -/

/-- The invariant during the contraction of subgraph `sub` into the new vertex `core`. -/
structure ContractInv (cx : DCtx) (sub : Finset Nat) (st0 st : DState) : Prop where
  same : st0.Same st
  inv : st.GraphInv cx
  done : st.Done cx sub
  elems : st.graph.elements.length = st0.graph.elements.length

theorem contractEdges_inv {cx : DCtx} (hcx : cx.Ok) {sub frontier : Finset Nat} {core : Nat}
    {st0 : DState} {vertex : Nat} (hv : vertex ∈ sub) {el : DElement} : ∀ (edges : List Nat) (val : Int) (st : DState) (val' : Int) (st' : DState),
    (∀ e ∈ edges, e ∈ el.incidentConstraints) → st.graph.elements[vertex]? = some el → ContractInv cx sub st0 st →
    edges.foldlM (fun (bs : Int × DState) edgeId => do
      if edgeId ∉ bs.2.available then pure bs
      else
        let edge ← idx bs.2.graph.constraints edgeId
        if edge.incidentElements.all (fun u => decide (u ∈ sub)) then
          let new := mergeElements (fun u => !decide (u ∈ frontier)) core edge.incidentElements false
          if new.length = 2 then
            pure (bs.1 + edge.valency, { bs.2 with available := bs.2.available.erase edgeId })
          else
            let cs ← setIdx bs.2.graph.constraints edgeId { edge with incidentElements := new }
            pure (bs.1, { bs.2 with graph := { bs.2.graph with constraints := cs } })
        else pure bs) (val, st) = (.ok (val', st') : R (Int × DState)) →
    ContractInv cx sub st0 st' ∧ st'.graph.elements = st.graph.elements := by
  intro edges
  induction edges with
  | nil =>
    intro val st val' st' _ _ hi h
    simp only [List.foldlM_nil, pure_eq_ok, Except.ok.injEq, Prod.mk.injEq] at h
    obtain ⟨-, rfl⟩ := h
    exact ⟨hi, rfl⟩
  | cons e edges ih =>
    intro val st val' st' he hel hi h
    rw [List.foldlM_cons, bind_eq_ok] at h
    obtain ⟨⟨val1, st1⟩, h1, h2⟩ := h
    have next : ContractInv cx sub st0 st1 → st1.graph.elements = st.graph.elements →
        ContractInv cx sub st0 st' ∧ st'.graph.elements = st.graph.elements := by
      intro hi1 hg
      have := ih val1 st1 val' st' (fun x hx => he x (by simp [hx])) (by rw [hg]; exact hel) hi1 h2
      exact ⟨this.1, this.2.trans hg⟩
    by_cases hav : e ∉ st.available
    · rw [if_pos hav] at h1
      simp only [pure_eq_ok, Except.ok.injEq, Prod.mk.injEq] at h1
      obtain ⟨-, rfl⟩ := h1
      exact next hi rfl
    · rw [if_neg hav, bind_eq_ok] at h1
      rw [not_not] at hav
      obtain ⟨c, hc, h1⟩ := h1
      rw [idx_eq_ok] at hc
      simp only at hc
      by_cases hall : c.incidentElements.all (fun u => decide (u ∈ sub)) = true
      · rw [if_pos hall] at h1
        have hall' : ∀ u ∈ c.incidentElements, u ∈ sub := by simpa using hall
        have hhand : e < cx.nC → e ∈ st.constraintsHandled := fun hn => hi.done vertex hv el hel e (he e (by simp)) hav hn c hc hall'
        simp only at h1
        split at h1
        · simp only [pure_eq_ok, Except.ok.injEq, Prod.mk.injEq] at h1
          obtain ⟨-, rfl⟩ := h1
          refine next ⟨⟨hi.same.1, hi.same.2, hi.same.3, hi.same.4, hi.same.5, hi.same.6, hi.same.7⟩, ?_, ?_, hi.elems⟩ rfl
          · refine ⟨hi.inv.range, hi.inv.elems, hi.inv.cons, hi.inv.incMono, fun x hx => hi.inv.availReal x (Finset.mem_of_mem_erase hx),
              fun x hx hn => ?_, hi.inv.orig⟩
            by_cases hxe : x = e
            · subst hxe
              exact hhand (hcx.edges x hx)
            · exact hi.inv.covered x hx (fun hx' => hn (Finset.mem_erase.2 ⟨hxe, hx'⟩))
          · intro v' hv' el' hel' x hx hxa
            exact hi.done v' hv' el' hel' x hx (Finset.mem_of_mem_erase hxa)
        · rw [bind_eq_ok] at h1
          obtain ⟨cs, hcs, h1⟩ := h1
          rw [setIdx_eq_ok] at hcs
          obtain ⟨hlt, rfl⟩ := hcs
          simp only [pure_eq_ok, Except.ok.injEq, Prod.mk.injEq] at h1
          obtain ⟨-, rfl⟩ := h1
          refine next ⟨⟨hi.same.1, hi.same.2, hi.same.3, hi.same.4, hi.same.5, hi.same.6, hi.same.7⟩, ?_, ?_, hi.elems⟩ rfl
          · refine ⟨⟨fun v' el' hel' x hx => ?_⟩, hi.inv.elems, ?_, hi.inv.incMono, hi.inv.availReal, hi.inv.covered, ?_⟩
            · simp only [List.length_set]
              exact hi.inv.range.inc v' el' hel' x hx
            · simp only [List.length_set]
              exact hi.inv.cons
            · intro x hx hn c0 hc0
              have hxe : x ≠ e := by
                rintro rfl
                exact hn (hhand (hcx.edges x hx))
              simp only [List.getElem?_set_ne (Ne.symm hxe)]
              exact hi.inv.orig x hx hn c0 hc0
          · intro v' hv' el' hel' x hx hxa hxn c' hc' hin
            by_cases hxe : x = e
            · subst hxe; exact hhand hxn
            · simp only [List.getElem?_set_ne (Ne.symm hxe)] at hc'
              exact hi.done v' hv' el' hel' x hx hxa hxn c' hc' hin
      · rw [if_neg hall] at h1
        simp only [pure_eq_ok, Except.ok.injEq, Prod.mk.injEq] at h1
        obtain ⟨-, rfl⟩ := h1
        exact next hi rfl

theorem addEdge_spec {g g' : DGraph} {val : Int} {a b id : Nat} (h : g.addEdge val a b = .ok (id, g')) :
    id = g.constraints.length ∧ g'.constraints = g.constraints ++ [⟨val, [a, b]⟩] ∧ g'.elements.length = g.elements.length ∧
      ∀ (v : Nat) el', g'.elements[v]? = some el' → ∃ el, g.elements[v]? = some el ∧
        (∀ e ∈ el.incidentConstraints, e ∈ el'.incidentConstraints) ∧
        ∀ e ∈ el'.incidentConstraints, e ∈ el.incidentConstraints ∨ e = id := by
  have set_push : ∀ (l : List DElement) (i : Nat) (x : DElement), l[i]? = some x → ∀ (v : Nat) el',
      (l.set i { x with incidentConstraints := x.incidentConstraints ++ [g.constraints.length] })[v]? = some el' →
      ∃ el, l[v]? = some el ∧ (∀ e ∈ el.incidentConstraints, e ∈ el'.incidentConstraints) ∧
        ∀ e ∈ el'.incidentConstraints, e ∈ el.incidentConstraints ∨ e = g.constraints.length := by
    intro l i x hx v el' hv
    rw [List.getElem?_set] at hv
    split at hv
    · rename_i hiv
      subst hiv
      split at hv
      · cases hv
        refine ⟨x, hx, fun e he => by simp [he], fun e he => by simpa using he⟩
      · cases hv
    · exact ⟨el', hv, fun _ he => he, fun _ he => .inl he⟩
  rw [DGraph.addEdge, bind_eq_ok] at h
  obtain ⟨i, hi, h⟩ := h
  rw [toU32_eq_ok] at hi
  obtain ⟨-, rfl⟩ := hi
  rw [bind_eq_ok] at h
  obtain ⟨ea, hea, h⟩ := h
  rw [idx_eq_ok] at hea
  rw [bind_eq_ok] at h
  obtain ⟨es1, hes1, h⟩ := h
  rw [setIdx_eq_ok] at hes1
  obtain ⟨-, rfl⟩ := hes1
  rw [bind_eq_ok] at h
  obtain ⟨eb, heb, h⟩ := h
  rw [idx_eq_ok] at heb
  rw [bind_eq_ok] at h
  obtain ⟨es2, hes2, h⟩ := h
  rw [setIdx_eq_ok] at hes2
  obtain ⟨-, rfl⟩ := hes2
  simp only [pure_eq_ok, Except.ok.injEq, Prod.mk.injEq] at h
  obtain ⟨rfl, rfl⟩ := h
  refine ⟨rfl, rfl, by simp, fun v el' hv => ?_⟩
  obtain ⟨el1, h1, h2, h3⟩ := set_push _ _ _ heb v el' hv
  obtain ⟨el, h4, h5, h6⟩ := set_push _ _ _ hea v el1 h1
  refine ⟨el, h4, fun e he => h2 e (h5 e he), fun e he => ?_⟩
  rcases h3 e he with h | h
  · exact h6 e h
  · exact .inr h

theorem contractVertex_inv {cx : DCtx} (hcx : cx.Ok) {sub frontier : Finset Nat} {core vertex : Nat} (hv : vertex ∈ sub)
    {st0 : DState} {cs cs' : ContractState} (hi : ContractInv cx sub st0 cs.st)
    (h : contractVertex sub frontier core cs vertex = .ok cs') : ContractInv cx sub st0 cs'.st := by
  rw [contractVertex, bind_eq_ok] at h
  obtain ⟨el, hel, h⟩ := h
  rw [idx_eq_ok] at hel
  rw [bind_eq_ok] at h
  obtain ⟨⟨val, st⟩, h1, h⟩ := h
  rw [contractEdges] at h1
  obtain ⟨hi1, -⟩ := contractEdges_inv hcx hv _ _ _ _ _ (fun _ h => h) hel hi h1
  simp only at h
  split at h
  · rw [bind_eq_ok] at h
    obtain ⟨⟨id, g⟩, h2, h⟩ := h
    simp only [pure_eq_ok, Except.ok.injEq] at h
    subst h
    obtain ⟨rfl, hc, hl, hel'⟩ := addEdge_spec h2
    have hcl := hi1.inv.cons
    have hconsAt : ∀ x, x < cx.nC → g.constraints[x]? = st.graph.constraints[x]? := by
      intro x hx
      rw [hc, List.getElem?_append_left (by omega)]
    refine ⟨⟨hi1.same.1, hi1.same.2, hi1.same.3, hi1.same.4, hi1.same.5, hi1.same.6, hi1.same.7⟩, ?_, ?_, by rw [← hi1.elems]; exact hl⟩
    · refine ⟨⟨fun v el' h e he => ?_⟩, by rw [show (_ : DState).graph = g from rfl, hl]; exact hi1.inv.elems, ?_, ?_, ?_, ?_, ?_⟩
      · obtain ⟨el0, h3, -, h5⟩ := hel' v el' h
        simp only [hc, List.length_append, List.length_singleton]
        rcases h5 e he with h6 | h6
        · have := hi1.inv.range.inc v el0 h3 e h6; omega
        · omega
      · simp only [hc, List.length_append]; omega
      · intro v el0 h3
        obtain ⟨el1, h4, h5⟩ := hi1.inv.incMono v el0 h3
        obtain ⟨el2, h6⟩ : ∃ el2, g.elements[v]? = some el2 := getElem?_exists (by rw [hl]; exact lt_of_getElem? h4)
        obtain ⟨el3, h7, h8, -⟩ := hel' v el2 h6
        rw [h4] at h7
        cases h7
        exact ⟨el2, h6, fun e he => h8 e (h5 e he)⟩
      · intro e he hn
        rcases Finset.mem_insert.1 he with rfl | he
        · omega
        · exact hi1.inv.availReal e he hn
      · intro e he hn
        exact hi1.inv.covered e he (fun h => hn (Finset.mem_insert_of_mem h))
      · intro e he hn c0 hc0
        obtain ⟨c, h3, h4⟩ := hi1.inv.orig e he hn c0 hc0
        exact ⟨c, by simp only [hconsAt e (hcx.edges e he)]; exact h3, h4⟩
    · intro v' hv' el' hel1 x hx hxa hxn c hcx' hin
      obtain ⟨el0, h3, -, h5⟩ := hel' v' el' hel1
      have hne : x ≠ st.graph.constraints.length := by omega
      have hx' : x ∈ el0.incidentConstraints := (h5 x hx).resolve_right hne
      rcases Finset.mem_insert.1 hxa with h6 | h6
      · exact absurd h6 hne
      · exact hi1.done v' hv' el0 h3 x hx' h6 hxn c (by simp only [hconsAt x hxn] at hcx'; exact hcx') hin
  · simp only [pure_eq_ok, Except.ok.injEq] at h
    subst h
    exact hi1

/-- The effect of the contraction. -/
theorem contract_inv {cx : DCtx} (hcx : cx.Ok) {d : Int} {ord : HashOrder} (hord : ord.Ok) {step key : Nat} {sub frontier : Finset Nat}
    {core : List Nat} {st st' : DState} (hf : frontier ⊆ sub) (hi : st.GraphInv cx) (hd : st.Done cx sub)
    (hsub : ∀ v ∈ sub, v < st.graph.elements.length)
    (h : contract d ord step key sub frontier core st = .ok st') :
    st'.GraphInv cx ∧ st'.blocked = st.blocked ∧ st'.steps = st.steps ∧ st'.constraintsHandled = st.constraintsHandled ∧
      st'.verticesHandled = st.verticesHandled ∧ st'.stepConstraints = st.stepConstraints ∧ st'.stepFixes = st.stepFixes ∧
      st'.graph.elements.length = st.graph.elements.length + 1 ∧
      (st'.vertices = insert st.graph.elements.length (st.vertices \ core.toFinset) ∨
        st'.vertices = (insert st.graph.elements.length (st.vertices \ core.toFinset)).erase st.graph.elements.length) := by
  rw [contract, bind_eq_ok] at h
  obtain ⟨id, hid, h⟩ := h
  rw [toU32_eq_ok] at hid
  obtain ⟨-, rfl⟩ := hid
  rw [bind_eq_ok] at h
  obtain ⟨cs, hcs, h⟩ := h
  obtain ⟨st1, hst1⟩ : ∃ st1, st1 = replaceCore key core st.graph.elements.length st := ⟨_, rfl⟩
  rw [← hst1] at hcs
  rw [replaceCore] at hst1
  have hat : ∀ v, v < st.graph.elements.length → st1.graph.elements[v]? = st.graph.elements[v]? := by
    intro v hv
    rw [hst1]
    exact List.getElem?_append_left hv
  have hback : ∀ (v : Nat) el, st1.graph.elements[v]? = some el → st.graph.elements[v]? = some el ∨ el.incidentConstraints = [] := by
    intro v el hv
    by_cases hlt : v < st.graph.elements.length
    · rw [hat v hlt] at hv; exact .inl hv
    · rw [hst1] at hv
      simp only [List.getElem?_append_right (Nat.le_of_not_lt hlt)] at hv
      refine .inr ?_
      cases hvn : v - st.graph.elements.length with
      | zero => rw [hvn] at hv; simp at hv; rw [← hv]
      | succ k => rw [hvn] at hv; simp at hv
  have e1 : st1.available = st.available := by rw [hst1]
  have e2 : st1.constraintsHandled = st.constraintsHandled := by rw [hst1]
  have e3 : st1.graph.constraints = st.graph.constraints := by rw [hst1]
  have e4 : st1.graph.elements.length = st.graph.elements.length + 1 := by rw [hst1]; simp
  have hi1 : st1.GraphInv cx := by
    refine ⟨⟨fun v el hv e he => ?_⟩, by rw [e4]; have := hi.elems; omega, by rw [e3]; exact hi.cons, ?_, by rw [e1]; exact hi.availReal,
      by rw [e1, e2]; exact hi.covered, by rw [e2, e3]; exact hi.orig⟩
    · rw [e3]
      rcases hback v el hv with h1 | h1
      · exact hi.range.inc v el h1 e he
      · rw [h1] at he; simp at he
    · intro v el0 h0
      obtain ⟨el, h1, h2⟩ := hi.incMono v el0 h0
      exact ⟨el, by rw [hat v (lt_of_getElem? h1)]; exact h1, h2⟩
  have hd1 : st1.Done cx sub := by
    intro v hv el hel e he ha hn c hc hin
    rw [hat v (hsub v hv)] at hel
    rw [e1] at ha
    rw [e3] at hc
    rw [e2]
    exact hd v hv el hel e he ha hn c hc hin
  have hci : ContractInv cx sub st1 cs.st := foldlM_inv (fun (cs : ContractState) => ContractInv cx sub st1 cs.st) _ _ _ _
    (show ContractInv cx sub st1 st1 from ⟨.refl _, hi1, hd1, rfl⟩) (fun s a s' ha hs hs' => contractVertex_inv hcx (hf (((hord _ _).2 a).1 ha)) hs hs') hcs
  have hsame := hci.same
  have hsv : cs.st.vertices = insert st.graph.elements.length (st.vertices \ core.toFinset) := by rw [hsame.vertices, hst1]
  have hfr : cs.st.blocked = st.blocked ∧ cs.st.steps = st.steps ∧ cs.st.constraintsHandled = st.constraintsHandled ∧
      cs.st.verticesHandled = st.verticesHandled ∧ cs.st.stepConstraints = st.stepConstraints ∧ cs.st.stepFixes = st.stepFixes := by
    refine ⟨hsame.blocked.trans ?_, hsame.steps.trans ?_, hsame.consHandled.trans ?_, hsame.vertHandled.trans ?_,
      hsame.stepConstraints.trans ?_, hsame.stepFixes.trans ?_⟩ <;> rw [hst1]
  have hl2 : cs.st.graph.elements.length = st.graph.elements.length + 1 := hci.elems.trans e4
  obtain ⟨f1, f2, f3, f4, f5, f6⟩ := hfr
  have hi2 := hci.inv
  split at h
  · rw [bind_eq_ok] at h
    obtain ⟨el, hel, h⟩ := h
    rw [idx_eq_ok] at hel
    rw [bind_eq_ok] at h
    obtain ⟨es, hes, h⟩ := h
    rw [setIdx_eq_ok] at hes
    obtain ⟨-, rfl⟩ := hes
    simp only [pure_eq_ok, Except.ok.injEq] at h
    subst h
    refine ⟨?_, f1, f2, f3, f4, f5, f6, by simp [hl2], .inl hsv⟩
    refine ⟨⟨fun v el' hv e he => ?_⟩, by simp only [List.length_set]; exact hi2.elems, hi2.cons, ?_, hi2.availReal, hi2.covered, hi2.orig⟩
    · simp only [List.getElem?_set] at hv
      split at hv
      · split at hv
        · cases hv
          exact hi2.range.inc _ el hel e he
        · cases hv
      · exact hi2.range.inc v el' hv e he
    · intro v el0 h0
      obtain ⟨el', h1, h2⟩ := hi2.incMono v el0 h0
      simp only [List.getElem?_set]
      split
      · rename_i hiv
        subst hiv
        rw [h1] at hel
        cases hel
        rw [if_pos (lt_of_getElem? h1)]
        exact ⟨_, rfl, h2⟩
      · exact ⟨el', h1, h2⟩
  · simp only [pure_eq_ok, Except.ok.injEq] at h
    subst h
    exact ⟨⟨hi2.range, hi2.elems, hi2.cons, hi2.incMono, hi2.availReal, hi2.covered, hi2.orig⟩, f1, f2, f3, f4, f5, f6, hl2,
      .inr (by simp only [hsv])⟩

/-! ## One step -/

/-- A step of the plan is sensible. -/
structure StepOk (cx : DCtx) (s : RecombinationStep) : Prop where
  nodup : s.elements.Nodup
  elems : ∀ v ∈ s.elements, v ∈ cx.vertices
  free : ∀ v ∈ s.freeElements, v ∈ s.elements
  nonempty : s.constraints ≠ []
  closed : cx.Closed → ∀ e ∈ s.constraints, ∀ c, cx.g.constraints[e]? = some c → ∀ v ∈ c.incidentElements, v ∈ s.elements

/-- The invariant of the loop of `decompose`. -/
structure DState.Inv (cx : DCtx) (st : DState) : Prop where
  graph : st.GraphInv cx
  verts : ∀ v ∈ st.vertices, v < st.graph.elements.length
  vertsReal : ∀ v ∈ st.vertices, v < cx.nE → v ∈ cx.vertices
  clean : st.stepConstraints = [] ∧ st.stepFixes = []
  consNodup : (st.steps.flatMap RecombinationStep.constraints).Nodup
  consMem : ∀ e, e ∈ st.steps.flatMap RecombinationStep.constraints ↔ e ∈ st.constraintsHandled
  handled : ∀ e ∈ st.constraintsHandled, e ∈ cx.edges
  freeNodup : (st.steps.flatMap RecombinationStep.freeElements).Nodup
  freeMem : ∀ v ∈ st.steps.flatMap RecombinationStep.freeElements, v ∈ st.verticesHandled
  inVerts : cx.Closed → ∀ e ∈ cx.edges, e ∉ st.constraintsHandled → ∀ c0, cx.g.constraints[e]? = some c0 →
    ∀ v ∈ c0.incidentElements, v ∈ st.vertices
  steps : ∀ s ∈ st.steps, StepOk cx s

theorem assembleStep_inv {cx : DCtx} (hcx : cx.Ok) {d : Int} {ord : HashOrder} (hord : ord.Ok) {step : Nat} {sub : Finset Nat}
    {st st' : DState} (hi : st.Inv cx) (hsub : sub ⊆ st.vertices)
    (h : assembleStep d ord cx.nE cx.nC step sub st = .ok st') :
    st'.Inv cx ∧ ((st'.blocked = st.blocked ++ [sub] ∧ st'.vertices = st.vertices) ∨
      (st'.blocked = st.blocked ∧ st'.vertices.card + 1 ≤ st.vertices.card)) := by
  rw [assembleStep, bind_eq_ok] at h
  obtain ⟨sc, hsc, h⟩ := h
  have hs : ScanInv cx.nE cx.nC st sub (ord [step, 2] sub) sc := by
    have := ScanInv.fold (ord [step, 2] sub) [] _ _ (ScanInv.init hi.clean.1 hi.clean.2) (by simpa using (hord _ _).1) hsc
    simpa using this
  have hdone : ∀ v, v ∈ ord [step, 2] sub ↔ v ∈ sub := (hord _ _).2
  have hlen : (ord [step, 2] sub).length = sub.card := by
    rw [← List.toFinset_card_of_nodup (hord [step, 2] sub).1]
    congr 1
    ext x
    simp [hdone]
  -- the state after emitting the step
  obtain ⟨st2, hst2⟩ : ∃ st2, st2 = emitStep sc.realElements sc.st := ⟨_, rfl⟩
  obtain ⟨st3, hst3⟩ : ∃ st3, st3 = claimFixes step sc.core st2 := ⟨_, rfl⟩
  rw [← hst2] at h
  simp only at h
  rw [← hst3] at h
  have g2 : st2.graph = st.graph ∧ st2.vertices = st.vertices ∧ st2.available = st.available ∧ st2.blocked = st.blocked ∧
      st2.constraintsHandled = sc.st.constraintsHandled ∧ st2.verticesHandled = sc.st.verticesHandled ∧
      st2.stepFixes = sc.st.stepFixes ∧ st2.stepConstraints = [] ∧
      (st2.steps = st.steps ∧ sc.st.stepConstraints = [] ∨ ∃ s, st2.steps = st.steps ++ [s] ∧ s.constraints = sc.st.stepConstraints ∧
        s.freeElements = sc.st.stepFixes ∧ s.elements = sc.realElements ∧ s.constraints ≠ []) := by
    rw [hst2, emitStep]
    split
    · rename_i he
      exact ⟨hs.graph, hs.vertices, hs.available, hs.blocked, rfl, rfl, rfl, by simpa using he, .inl ⟨hs.steps, by simpa using he⟩⟩
    · rename_i he
      exact ⟨hs.graph, hs.vertices, hs.available, hs.blocked, rfl, rfl, rfl, rfl,
        .inr ⟨_, by rw [← hs.steps], rfl, rfl, rfl, by simpa using he⟩⟩
  obtain ⟨k1, k2, k3, k4, k5, k6, k7, k8, k9⟩ := g2
  have g3 : st3.graph = st.graph ∧ st3.vertices = st.vertices ∧ st3.available = st.available ∧ st3.blocked = st.blocked ∧
      st3.constraintsHandled = sc.st.constraintsHandled ∧ st3.verticesHandled = sc.st.verticesHandled ∧
      st3.stepFixes = [] ∧ st3.stepConstraints = [] ∧ st3.steps = st2.steps := by
    rw [hst3, claimFixes]
    split
    · rename_i he
      simp only [Bool.and_eq_true, List.isEmpty_iff] at he
      exact ⟨k1, k2, k3, k4, k5, k6, he.2, k8, rfl⟩
    · exact ⟨k1, k2, k3, k4, k5, k6, rfl, k8, rfl⟩
  clear hst2 hst3
  obtain ⟨m1, m2, m3, m4, m5, m6, m7, m8, m9⟩ := g3
  rw [bind_eq_ok] at h
  obtain ⟨st4, h4, h⟩ := h
  have hme := mergeCore_fold h4
  obtain ⟨n1, n2, n3⟩ := markFrontier_fold (nE := cx.nE) (key := step) (ord [step, 3] sc.frontier) st4
  obtain ⟨st5, hst5⟩ : ∃ st5, st5 = (ord [step, 3] sc.frontier).foldl (markFrontier cx.nE step) st4 := ⟨_, rfl⟩
  rw [← hst5] at h n1 n2 n3
  have hsame : st3.Same st5 := hme.same.trans n1
  have hgraph5 : st5.graph = st.graph := by rw [n2, hme.graph, m1]
  have hcorein : ∀ v ∈ sc.core, v ∈ sub := fun v hv => (hdone v).1 ((hs.part v).1 (.inl hv))
  have hfr : sc.frontier ⊆ sub := fun v hv => (hdone v).1 ((hs.part v).1 (.inr hv))
  have hsublt : ∀ v ∈ sub, v < st.graph.elements.length := fun v hv => hi.verts v (hsub hv)
  have hhand : ∀ e, e ∈ st5.constraintsHandled ↔ e ∈ st.constraintsHandled ∨ e ∈ sc.st.stepConstraints := by
    intro e; rw [hsame.consHandled, m5]; exact hs.consMem e
  have hconsNewE : ∀ e ∈ sc.st.stepConstraints, e ∈ cx.edges := by
    intro e he
    obtain ⟨a, b, -⟩ := hs.consIn e he
    exact hi.graph.availReal e a b
  have hgi : st5.GraphInv cx := by
    refine ⟨by rw [hgraph5]; exact hi.graph.range, by rw [hgraph5]; exact hi.graph.elems, by rw [hgraph5]; exact hi.graph.cons,
      by rw [hgraph5]; exact hi.graph.incMono, ?_, ?_, ?_⟩
    · intro e he hn
      rw [n3] at he
      have := hme.sub e he
      rw [m3] at this
      exact hi.graph.availReal e this hn
    · intro e he hn
      rw [hhand]
      by_cases hav : e ∈ st.available
      · rw [n3] at hn
        obtain ⟨v, hv, el, c, h1, h2, h3, h5⟩ := hme.removed e (by rw [m3]; exact hav) hn
        rw [m1] at h1 h3
        rw [← hs.consMem]
        exact hs.covered v ((hdone v).2 (hcorein v hv)) el h1 e h2 hav (hcx.edges e he) c h3 (fun u hu => hcorein u (h5 u hu))
      · exact .inl (hi.graph.covered e he hav)
    · intro e he hn c0 hc0
      rw [hgraph5]
      rw [hhand, not_or] at hn
      exact hi.graph.orig e he hn.1 c0 hc0
  have hdn : st5.Done cx sub := by
    intro v hv el hel e he ha hn c hc hin
    rw [hgraph5] at hel hc
    rw [n3] at ha
    have ha := hme.sub e ha
    rw [m3] at ha
    rw [hhand, ← hs.consMem]
    exact hs.covered v ((hdone v).2 hv) el hel e he ha hn c hc hin
  -- facts about the emitted steps
  have hsteps5 : st5.steps = st2.steps := hsame.steps.trans m9
  have newOk : ∀ s ∈ st2.steps, StepOk cx s := by
    rcases k9 with ⟨he, -⟩ | ⟨s, he, hc, hf, hel, hne⟩
    · rw [he]; exact hi.steps
    · rw [he]
      intro x hx
      rcases List.mem_append.1 hx with hx | hx
      · exact hi.steps x hx
      · rw [List.mem_singleton] at hx
        subst hx
        refine ⟨by rw [hel]; exact hs.realNodup, fun v hv => ?_, fun v hv => ?_, hne, fun hcl e hec c0 hc0 v hv => ?_⟩
        · rw [hel, hs.real, hdone] at hv
          exact hi.vertsReal v (hsub hv.1) hv.2
        · rw [hf] at hv
          rw [hel, hs.real]
          obtain ⟨a, b, -⟩ := hs.fixMem v hv
          exact ⟨a, b⟩
        · rw [hc] at hec
          obtain ⟨a, b, c, hcc, hin⟩ := hs.consIn e hec
          have heE := hconsNewE e hec
          obtain ⟨c', hc', hinc⟩ := hi.graph.orig e heE (hs.consNew e hec) c0 hc0
          rw [hcc] at hc'
          cases hc'
          rw [hel, hs.real, hdone]
          exact ⟨hin v (by rw [hinc]; exact hv), hcx.verts v (hcl e heE c0 hc0 v hv).1⟩
  have newCons : (st2.steps.flatMap RecombinationStep.constraints).Nodup ∧
      ∀ e, e ∈ st2.steps.flatMap RecombinationStep.constraints ↔ e ∈ st5.constraintsHandled := by
    rcases k9 with ⟨he, hem⟩ | ⟨s, he, hc, hf, hel, hne⟩
    · rw [he]
      refine ⟨hi.consNodup, fun e => ?_⟩
      rw [hhand, hem, hi.consMem]
      simp
    · rw [he, List.flatMap_append, List.flatMap_singleton, hc]
      refine ⟨List.nodup_append.2 ⟨hi.consNodup, hs.consNodup, fun a ha b hb => ?_⟩, fun e => ?_⟩
      · rintro rfl
        exact hs.consNew a hb ((hi.consMem a).1 ha)
      · rw [List.mem_append, hi.consMem, hhand]
  have newFree : (st2.steps.flatMap RecombinationStep.freeElements).Nodup ∧
      ∀ v ∈ st2.steps.flatMap RecombinationStep.freeElements, v ∈ st5.verticesHandled := by
    have hvm : ∀ v, v ∈ st5.verticesHandled ↔ v ∈ st.verticesHandled ∨ v ∈ sc.st.stepFixes := by
      intro v; rw [hsame.vertHandled, m6]; exact hs.vertMem v
    rcases k9 with ⟨he, hem⟩ | ⟨s, he, hc, hf, hel, hne⟩
    · rw [he]
      exact ⟨hi.freeNodup, fun v hv => (hvm v).2 (.inl (hi.freeMem v hv))⟩
    · rw [he, List.flatMap_append, List.flatMap_singleton, hf]
      refine ⟨List.nodup_append.2 ⟨hi.freeNodup, hs.fixNodup, fun a ha b hb => ?_⟩, fun v hv => ?_⟩
      · rintro rfl
        exact (hs.fixMem a hb).2.2 (hi.freeMem a ha)
      · rcases List.mem_append.1 hv with hv | hv
        · exact (hvm v).2 (.inl (hi.freeMem v hv))
        · exact (hvm v).2 (.inr hv)
  have hhandE : ∀ e ∈ st5.constraintsHandled, e ∈ cx.edges := by
    intro e he
    rcases (hhand e).1 he with he | he
    · exact hi.handled e he
    · exact hconsNewE e he
  have hclean : st5.stepConstraints = [] ∧ st5.stepFixes = [] := ⟨hsame.stepConstraints.trans m8, hsame.stepFixes.trans m7⟩
  have hv5 : st5.vertices = st.vertices := hsame.vertices.trans m2
  have hb5 : st5.blocked = st.blocked := hsame.blocked.trans m4
  split at h
  · simp only [pure_eq_ok, Except.ok.injEq] at h
    subst h
    refine ⟨⟨⟨hgi.range, hgi.elems, hgi.cons, hgi.incMono, hgi.availReal, hgi.covered, hgi.orig⟩, ?_, ?_, hclean, ?_, ?_, hhandE, ?_, ?_,
      ?_, ?_⟩, .inl ⟨by simp only [hb5], hv5⟩⟩
    · simp only [hv5, hgraph5]; exact hi.verts
    · simp only [hv5]; exact hi.vertsReal
    · simp only [hsteps5]; exact newCons.1
    · simp only [hsteps5]; exact newCons.2
    · simp only [hsteps5]; exact newFree.1
    · simp only [hsteps5]; exact newFree.2
    · intro hcl e he hn
      simp only [hv5]
      simp only [hhand, not_or] at hn
      exact hi.inVerts hcl e he hn.1
    · simp only [hsteps5]; exact newOk
  · rename_i hcard
    obtain ⟨q1, q2, q3, q4, q5, q6, q7, q8, q9⟩ := contract_inv hcx hord hfr hgi hdn (by rw [hgraph5]; exact hsublt) h
    have hcorecard : 2 ≤ sc.core.toFinset.card := by
      rw [List.toFinset_card_of_nodup hs.coreNodup]
      have := hs.size
      rw [hlen] at this
      omega
    have hcoresub : sc.core.toFinset ⊆ st.vertices := fun v hv => hsub (hcorein v (List.mem_toFinset.1 hv))
    have hcard1 : (st.vertices \ sc.core.toFinset).card + 2 ≤ st.vertices.card := by
      have := Finset.card_sdiff_of_subset hcoresub
      have := Finset.card_le_card hcoresub
      omega
    have hmem : ∀ v ∈ st'.vertices, v = st.graph.elements.length ∨ (v ∈ st.vertices ∧ v ∉ sc.core) := by
      intro v hv
      have : v ∈ insert st.graph.elements.length (st.vertices \ sc.core.toFinset) := by
        rcases q9 with q9 | q9
        · rw [q9, hgraph5, hv5] at hv; exact hv
        · rw [q9, hgraph5, hv5] at hv; exact Finset.mem_of_mem_erase hv
      simpa using this
    refine ⟨⟨q1, ?_, ?_, by rw [q6, q7]; exact hclean, by rw [q3, hsteps5]; exact newCons.1,
      by rw [q3, q4, hsteps5]; exact newCons.2, by rw [q4]; exact hhandE, by rw [q3, hsteps5]; exact newFree.1,
      by rw [q3, q5, hsteps5]; exact newFree.2, ?_, by rw [q3, hsteps5]; exact newOk⟩, .inr ⟨by rw [q2, hb5], ?_⟩⟩
    · intro v hv
      rw [q8, hgraph5]
      rcases hmem v hv with rfl | ⟨hv, -⟩
      · omega
      · have := hi.verts v hv; omega
    · intro v hv hlt
      rcases hmem v hv with rfl | ⟨hv, -⟩
      · have := hi.graph.elems; omega
      · exact hi.vertsReal v hv hlt
    · intro hcl e he hn c0 hc0 v hv
      rw [q4, hhand, not_or] at hn
      have hvv := hi.inVerts hcl e he hn.1 c0 hc0 v hv
      have hvne : v ≠ st.graph.elements.length := by have := hi.verts v hvv; omega
      have hvc : v ∉ sc.core := by
        intro hvc
        obtain ⟨-, el0, hel0, hinc⟩ := hcl e he c0 hc0 v hv
        obtain ⟨el, hel, hmono⟩ := hi.graph.incMono v el0 hel0
        have hav : e ∈ st.available := by
          by_contra hav
          exact hn.1 (hi.graph.covered e he hav)
        obtain ⟨c, hc, hceq⟩ := hi.graph.orig e he hn.1 c0 hc0
        have hin := hs.inner v hvc el hel e (hmono e hinc) hav c hc
        have := hs.covered v ((hdone v).2 (hcorein v hvc)) el hel e (hmono e hinc) hav (hcx.edges e he) c hc hin
        rw [hs.consMem] at this
        exact this.elim hn.1 hn.2
      have hmemv : v ∈ insert st.graph.elements.length (st.vertices \ sc.core.toFinset) := by simp [hvv, hvc]
      rcases q9 with q9 | q9
      · rw [q9, hgraph5, hv5]; exact hmemv
      · rw [q9, hgraph5, hv5]; exact Finset.mem_erase.2 ⟨hvne, hmemv⟩
    · have hle : st'.vertices.card ≤ (insert st.graph.elements.length (st.vertices \ sc.core.toFinset)).card := by
        rcases q9 with q9 | q9
        · rw [q9, hgraph5, hv5]
        · rw [q9, hgraph5, hv5]; exact Finset.card_le_card (Finset.erase_subset _ _)
      have := Finset.card_insert_le st.graph.elements.length (st.vertices \ sc.core.toFinset)
      omega

/-! ## The whole plan -/

/-- What a plan for the constraints `cx.edges` looks like. -/
structure PlanInv (cx : DCtx) (steps : List RecombinationStep) : Prop where
  nodup : (steps.flatMap RecombinationStep.constraints).Nodup
  mem : ∀ e, e ∈ steps.flatMap RecombinationStep.constraints ↔ e ∈ cx.edges
  free : (steps.flatMap RecombinationStep.freeElements).Nodup
  ok : ∀ s ∈ steps, StepOk cx s

theorem lastStep_inv {cx : DCtx} (hcx : cx.Ok) {ord : HashOrder} (hord : ord.Ok) {step : Nat} {st : DState} (hi : st.Inv cx) :
    PlanInv cx (lastStep ord cx.nE cx.nC step st).steps := by
  have hmem : ∀ e, e ∈ (ord [step, 5] st.available).filter (fun e => decide (e < cx.nC) && !decide (e ∈ st.constraintsHandled)) ↔
      e ∈ cx.edges ∧ e ∉ st.constraintsHandled := by
    intro e
    simp only [List.mem_filter, (hord [step, 5] st.available).2, Bool.and_eq_true, decide_eq_true_eq, Bool.not_eq_true', decide_eq_false_iff_not]
    constructor
    · rintro ⟨a, b, c⟩; exact ⟨hi.graph.availReal e a b, c⟩
    · rintro ⟨a, b⟩
      refine ⟨?_, hcx.edges e a, b⟩
      by_contra hav
      exact b (hi.graph.covered e a hav)
  unfold lastStep
  simp only
  split
  · rename_i he
    rw [List.isEmpty_iff] at he
    rw [he] at hmem
    refine ⟨hi.consNodup, fun e => ?_, hi.freeNodup, hi.steps⟩
    rw [hi.consMem]
    refine ⟨hi.handled e, fun h => ?_⟩
    by_contra hn
    have := (hmem e).2 ⟨h, hn⟩
    simp at this
  · rename_i he
    rw [List.isEmpty_iff] at he
    refine ⟨?_, fun e => ?_, ?_, fun s hs => ?_⟩
    · rw [List.flatMap_append, List.flatMap_singleton]
      refine List.nodup_append.2 ⟨hi.consNodup, (hord _ _).1.filter _, fun a ha b hb => ?_⟩
      rintro rfl
      exact ((hmem a).1 hb).2 ((hi.consMem a).1 ha)
    · rw [List.flatMap_append, List.flatMap_singleton, List.mem_append, hi.consMem, hmem]
      refine ⟨fun h => h.elim (hi.handled e) (fun h => h.1), fun h => ?_⟩
      by_cases hn : e ∈ st.constraintsHandled
      · exact .inl hn
      · exact .inr ⟨h, hn⟩
    · rw [List.flatMap_append, List.flatMap_singleton]
      refine List.nodup_append.2 ⟨hi.freeNodup, (hord _ _).1.filter _, fun a ha b hb => ?_⟩
      rintro rfl
      have h1 := hi.freeMem a ha
      have h2 := (List.mem_filter.1 hb).2
      simp [h1] at h2
    · rcases List.mem_append.1 hs with hs | hs
      · exact hi.steps s hs
      · rw [List.mem_singleton] at hs
        subst hs
        have hel : ∀ v, v ∈ (ord [step, 6] st.vertices).filter (fun v => decide (v < cx.nE)) ↔ v ∈ st.vertices ∧ v < cx.nE := by
          intro v; simp [(hord [step, 6] st.vertices).2]
        refine ⟨(hord _ _).1.filter _, fun v hv => ?_, fun v hv => ?_, he, fun hcl e hec c0 hc0 v hv => ?_⟩
        · obtain ⟨a, b⟩ := (hel v).1 hv
          exact hi.vertsReal v a b
        · refine (hel v).2 ?_
          have := List.mem_filter.1 hv
          simp only [(hord [step, 7] st.vertices).2, Bool.and_eq_true, decide_eq_true_eq] at this
          exact ⟨this.1, this.2.1⟩
        · obtain ⟨a, b⟩ := (hmem e).1 hec
          exact (hel v).2 ⟨hi.inVerts hcl e a b c0 hc0 v hv, hcx.verts v (hcl e a c0 hc0 v hv).1⟩

theorem DState.Inv.env {cx : DCtx} {st : DState} (hi : st.Inv cx) (k : Int) :
    (⟨st.graph, st.blocked, st.available, st.vertices, k⟩ : DenseEnv).Ok := ⟨hi.graph.range, hi.verts⟩

theorem decomposeLoop_plan {cx : DCtx} (hcx : cx.Ok) {d : Int} {ord : HashOrder} (hord : ord.Ok) :
    ∀ (fuel step : Nat) (st : DState) (steps : List RecombinationStep), st.Inv cx →
      decomposeLoop d ord cx.nE cx.nC fuel step st = .ok steps → PlanInv cx steps := by
  intro fuel
  induction fuel with
  | zero => intro step st steps _ h; simp [decomposeLoop] at h
  | succ fuel ih =>
    intro step st steps hi h
    rw [decomposeLoop] at h
    obtain ⟨r, h1, h2⟩ := (hi.env (-(d + 1))).denseBfs hord step
    simp only [h1, ok_bind] at h
    cases r with
    | none =>
      simp only [pure_eq_ok, Except.ok.injEq] at h
      subst h
      exact lastStep_inv hcx hord hi
    | some sub =>
      simp only at h
      rw [bind_eq_ok] at h
      obtain ⟨st', h3, h4⟩ := h
      exact ih _ _ _ (assembleStep_inv hcx hord hi (h2 sub rfl).1 h3).1 h4

theorem DState.Inv.init {cx : DCtx} (hcx : cx.Ok) : DState.Inv cx
    { graph := cx.g, vertices := cx.vertices, available := cx.edges, constraintsHandled := ∅, verticesHandled := ∅
      onFrontiers := [], ownedElements := [], owningCluster := [], frontierElements := [], blocked := [], steps := []
      stepConstraints := [], stepFixes := [] } := by
  refine ⟨⟨hcx.range, Nat.le_refl _, Nat.le_refl _, fun v el h => ⟨el, h, fun _ h => h⟩, fun _ h _ => h, fun _ h h' => absurd h h',
    fun _ _ _ c0 h => ⟨c0, h, rfl⟩⟩, hcx.verts, fun _ h _ => h, ⟨rfl, rfl⟩, by simp, by simp, by simp, by simp, by simp, ?_, by simp⟩
  intro hcl e he _ c0 hc0 v hv
  exact (hcl e he c0 hc0 v hv).1

theorem decompose_plan {cx : DCtx} (hcx : cx.Ok) {d : Int} {ord : HashOrder} (hord : ord.Ok) {steps : List RecombinationStep}
    (h : decompose d ord cx.g cx.vertices cx.edges = .ok steps) : PlanInv cx steps := by
  rw [decompose, bind_eq_ok] at h
  obtain ⟨nc, h1, h⟩ := h
  rw [toU32_eq_ok] at h1
  obtain ⟨-, rfl⟩ := h1
  rw [bind_eq_ok] at h
  obtain ⟨ne, h1, h⟩ := h
  rw [toU32_eq_ok] at h1
  obtain ⟨-, rfl⟩ := h1
  exact decomposeLoop_plan hcx hord _ _ _ _ (DState.Inv.init hcx) h

end Fiksi
