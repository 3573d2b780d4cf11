import Verif.Proofs.RigidStep
import Verif.Props.SuccessRecursive
import Verif.Spec.Carry
/-!
# C64: a step of recursive assembly solves its constraints and moves clusters as rigid bodies
-/
namespace Fiksi

set_option linter.unusedSectionVars false
variable {F : Type} [Add F] [Sub F] [Mul F] [Div F] [Neg F] [Zero F] [One F] [FloatOps F]
open Spec Spec.Geo

/-! ## The elements the step solves for -/

section
variable {F : Type}

theorem mem_reachClusters {r : List Nat} {o : Option (List Nat)} {c : Nat} : c ∈ reachClusters r o ↔ c ∈ r ∨ ∃ l, o = some l ∧ c ∈ l := by
  have key : ∀ (l r : List Nat), c ∈ l.foldl (fun r c => if r.contains c then r else r ++ [c]) r ↔ c ∈ r ∨ c ∈ l := by
    intro l
    induction l with
    | nil => intro r; simp
    | cons a l ih =>
      intro r
      rw [List.foldl_cons, ih]
      split
      · rename_i ha
        have ha : a ∈ r := by simpa using ha
        constructor
        · rintro (h | h)
          · exact .inl h
          · exact .inr (by simp [h])
        · rintro (h | h)
          · exact .inl h
          · rcases List.mem_cons.1 h with rfl | h
            · exact .inl ha
            · exact .inr h
      · simp [or_assoc]
  unfold reachClusters
  rw [key]
  cases o <;> simp

/-- The list only grows at its end. -/
theorem reachClusters_prefix (r : List Nat) (o : Option (List Nat)) : r <+: reachClusters r o := by
  unfold reachClusters
  generalize o.getD [] = l
  induction l generalizing r with
  | nil => exact List.prefix_rfl
  | cons a l ih =>
    rw [List.foldl_cons]
    split
    · exact ih r
    · exact (List.prefix_append r [a]).trans (ih _)

theorem isPoint_iff {el : EncodedElement} : el.isPoint = true ↔ ∃ k, el = .point k := by
  cases el <;> simp [EncodedElement.isPoint]

variable {elements : List EncodedElement} {step : RecombinationStep}

/-- What is known about the lists of `followClusters`. -/
structure FollowInv (elements : List EncodedElement) (step : RecombinationStep) (i : Nat) (st : List Nat × List Nat) : Prop where
  len : i ≤ st.1.length
  reached : ∀ c ∈ st.1, Affected elements step c
  solved : ∀ e ∈ st.2, SolvedFor elements step e
  base : ∀ e ∈ step.elements, e ∈ st.2
  start : ∀ e ∈ step.elements, IsPointAt elements e → ∀ c, OnFrontier step c e → c ∈ st.1
  done : ∀ (j : Nat) c, j < i → st.1[j]? = some c → ∀ l, step.frontierElements.get? c = some l → ∀ e ∈ l, IsPointAt elements e →
    (∀ c', OnFrontier step c' e → c' ∈ st.1) ∧ ∀ cl, step.onFrontiers.get? e = some cl → 1 < cl.length → e ∈ st.2

theorem followElement_effect {st st' : List Nat × List Nat} {e : Nat} (h : followElement elements step st e = .ok st') :
    st.1 <+: st'.1 ∧ (∀ x ∈ st.2, x ∈ st'.2) ∧ (∀ c ∈ st'.1, c ∈ st.1 ∨ (IsPointAt elements e ∧ OnFrontier step c e)) ∧
      (∀ x ∈ st'.2, x ∈ st.2 ∨ (x = e ∧ IsPointAt elements e ∧ ∃ cl, step.onFrontiers.get? e = some cl ∧ 1 < cl.length)) ∧
      (IsPointAt elements e → (∀ c, OnFrontier step c e → c ∈ st'.1) ∧ ∀ cl, step.onFrontiers.get? e = some cl → 1 < cl.length → e ∈ st'.2) := by
  rw [followElement, bind_eq_ok] at h
  obtain ⟨el, h1, h⟩ := h
  rw [idx_eq_ok] at h1
  by_cases hp : el.isPoint = true
  · rw [if_pos hp] at h
    obtain ⟨k, rfl⟩ := isPoint_iff.1 hp
    have hpt : IsPointAt elements e := ⟨k, h1⟩
    have m1 : ∀ c ∈ reachClusters st.1 (step.onFrontiers.get? e), c ∈ st.1 ∨ (IsPointAt elements e ∧ OnFrontier step c e) := by
      intro c hc
      rcases mem_reachClusters.1 hc with hc | hc
      · exact .inl hc
      · exact .inr ⟨hpt, hc⟩
    have m2 : ∀ c, OnFrontier step c e → c ∈ reachClusters st.1 (step.onFrontiers.get? e) := fun c hc => mem_reachClusters.2 (.inr hc)
    simp only at h
    split at h
    · rename_i hc
      cases h
      simp only [Bool.and_eq_true, decide_eq_true_eq] at hc
      refine ⟨reachClusters_prefix _ _, fun x hx => by simp [hx], m1, fun x hx => ?_, fun _ => ⟨m2, fun _ _ _ => by simp⟩⟩
      rcases List.mem_append.1 hx with hx | hx
      · exact .inl hx
      · refine .inr ⟨List.mem_singleton.1 hx, hpt, ?_⟩
        cases hg : step.onFrontiers.get? e with
        | none => rw [hg] at hc; simp at hc
        | some cl => rw [hg] at hc; exact ⟨cl, rfl, by simpa using hc.2⟩
    · rename_i hc
      cases h
      refine ⟨reachClusters_prefix _ _, fun x hx => hx, m1, fun x hx => .inl hx, fun _ => ⟨m2, fun cl hcl hl => ?_⟩⟩
      rw [hcl] at hc
      simp only [Option.map_some, Option.getD_some, Bool.and_eq_true, decide_eq_true_eq, not_and] at hc
      by_contra hn
      exact hc (by simpa using hn) hl
  · rw [if_neg hp] at h
    cases h
    refine ⟨List.prefix_rfl, fun x hx => hx, fun c hc => .inl hc, fun x hx => .inl hx, fun hpt => ?_⟩
    obtain ⟨k, hk⟩ := hpt
    rw [h1] at hk
    cases hk
    exact absurd rfl hp

theorem followElements_inv {i : Nat} {cluster : Nat} {frontier : List Nat} (hf : step.frontierElements.get? cluster = some frontier) (hc : Affected elements step cluster) :
    ∀ (l : List Nat) {st st' : List Nat × List Nat}, (∀ e ∈ l, e ∈ frontier) → FollowInv elements step i st → l.foldlM (followElement elements step) st = .ok st' →
      FollowInv elements step i st' ∧ st.1 <+: st'.1 ∧ (∀ x ∈ st.2, x ∈ st'.2) ∧
      ∀ e ∈ l, IsPointAt elements e → (∀ c, OnFrontier step c e → c ∈ st'.1) ∧ ∀ cl, step.onFrontiers.get? e = some cl → 1 < cl.length → e ∈ st'.2 := by
  intro l
  induction l with
  | nil => intro st st' _ hi h; cases h; exact ⟨hi, List.prefix_rfl, fun _ h => h, by simp⟩
  | cons e l ih =>
    intro st st' hl hi h
    rw [List.foldlM_cons, bind_eq_ok] at h
    obtain ⟨st1, h1, h2⟩ := h
    obtain ⟨f1, f2, f3, f4, f5⟩ := followElement_effect h1
    have hi1 : FollowInv elements step i st1 := by
      refine ⟨hi.len.trans f1.length_le, fun c hc' => ?_, fun x hx => ?_, fun x hx => f2 x (hi.base x hx), fun x hx hp c hc => f1.subset (hi.start x hx hp c hc), fun j c hj hcj l hl x hx hp => ?_⟩
      · rcases f3 c hc' with h | ⟨hp, ho⟩
        · exact hi.reached c h
        · exact .next hc hf (hl e (by simp)) hp ho
      · rcases f4 x hx with h | ⟨rfl, hp, ho⟩
        · exact hi.solved x h
        · exact .inr ⟨cluster, frontier, hc, hf, hl x (by simp), hp, ho⟩
      · have : st.1[j]? = some c ∨ st.1.length ≤ j := by
          by_cases hlt : j < st.1.length
          · left
            obtain ⟨t, ht⟩ := f1
            rw [← ht, List.getElem?_append_left hlt] at hcj
            exact hcj
          · exact .inr (by omega)
        rcases this with hj' | hj'
        · obtain ⟨g1, g2⟩ := hi.done j c hj hj' l hl x hx hp
          exact ⟨fun c' hc' => f1.subset (g1 c' hc'), fun cl hcl h1 => f2 x (g2 cl hcl h1)⟩
        · have := hi.len
          omega
    obtain ⟨g1, g2, g3, g4⟩ := ih (fun x hx => hl x (by simp [hx])) hi1 h2
    refine ⟨g1, f1.trans g2, fun x hx => g3 x (f2 x hx), fun x hx hp => ?_⟩
    rcases List.mem_cons.1 hx with rfl | hx
    · obtain ⟨k1, k2⟩ := f5 hp
      exact ⟨fun c hc => g2.subset (k1 c hc), fun cl hcl h1 => g3 x (k2 cl hcl h1)⟩
    · exact g4 x hx hp

theorem followClusters_inv : ∀ (fuel i : Nat) {st : List Nat × List Nat} {vars : List Nat}, FollowInv elements step i st → followClusters elements step fuel i st = .ok vars →
    ∃ st', FollowInv elements step st'.1.length st' ∧ vars = st'.2 := by
  intro fuel
  induction fuel with
  | zero => intro i st vars _ h; simp [followClusters] at h
  | succ fuel ih =>
    intro i st vars hi h
    rw [followClusters] at h
    split at h
    · rename_i hn
      cases h
      have : st.1.length = i := le_antisymm (List.getElem?_eq_none_iff.1 hn) hi.len
      exact ⟨st, this ▸ hi, rfl⟩
    · rename_i cluster hcl
      rw [bind_eq_ok] at h
      obtain ⟨frontier, h1, h⟩ := h
      rw [unwrap_eq_ok] at h1
      rw [bind_eq_ok] at h
      obtain ⟨st1, h2, h⟩ := h
      obtain ⟨g1, g2, g3, g4⟩ := followElements_inv h1 (hi.reached cluster (List.mem_of_getElem? hcl)) frontier (fun _ h => h) hi h2
      have hlt : i < st.1.length := lt_of_getElem? hcl
      have hget : ∀ j ≤ i, st1.1[j]? = st.1[j]? := by
        intro j hj
        obtain ⟨t, ht⟩ := g2
        rw [← ht, List.getElem?_append_left (by omega)]
      refine ih (i + 1) ⟨by have := g2.length_le; omega, g1.reached, g1.solved, g1.base, g1.start, fun j c hj hc l hl e he hp => ?_⟩ h
      · by_cases hji : j < i
        · exact g1.done j c hji hc l hl e he hp
        · have : j = i := by omega
          subst this
          rw [hget j (by omega), hcl] at hc
          cases hc
          rw [h1] at hl
          cases hl
          exact g4 e he hp

end

/-- The variables of the problem of a step are those of the elements the step solves for. -/
theorem build_solvedFor {s : System F} {T : List F} {step : RecombinationStep} {cs : ClusteredSystem} {values : List F}
    (h : ClusteredSystem.build s T step = .ok (cs, values)) (e : Nat) : e ∈ cs.stepPlusFrontierElements ↔ SolvedFor s.elements step e := by
  simp only [ClusteredSystem.build, bind_eq_ok] at h
  obtain ⟨es, -, reach, h1, elements, h2, ⟨clusters, np⟩, -, ⟨mapping, vs⟩, -, h⟩ := h
  cases h
  have hstart : (∀ c ∈ reach, Affected s.elements step c) ∧ ∀ e ∈ step.elements, IsPointAt s.elements e → ∀ c, OnFrontier step c e → c ∈ reach := by
    have key : ∀ (l : List Nat) (r r' : List Nat), (∀ e ∈ l, e ∈ step.elements) → (∀ c ∈ r, Affected s.elements step c) →
        l.foldlM (fun (reachable : List Nat) elementId => do
          let element ← idx s.elements elementId
          pure (if element.isPoint then reachClusters reachable (step.onFrontiers.get? elementId) else reachable)) r = (.ok r' : R (List Nat)) →
        (∀ c ∈ r', Affected s.elements step c) ∧ (∀ c ∈ r, c ∈ r') ∧ ∀ e ∈ l, IsPointAt s.elements e → ∀ c, OnFrontier step c e → c ∈ r' := by
      intro l
      induction l with
      | nil => intro r r' _ hr h; cases h; exact ⟨hr, fun _ h => h, by simp⟩
      | cons a l ih =>
        intro r r' hl hr h
        rw [List.foldlM_cons, bind_eq_ok] at h
        obtain ⟨r1, h3, h4⟩ := h
        rw [bind_eq_ok] at h3
        obtain ⟨el, h5, h3⟩ := h3
        rw [idx_eq_ok] at h5
        have hr1 : (∀ c ∈ r1, Affected s.elements step c) ∧ (∀ c ∈ r, c ∈ r1) ∧ (IsPointAt s.elements a → ∀ c, OnFrontier step c a → c ∈ r1) := by
          split at h3
          · rename_i hp
            cases h3
            obtain ⟨k, rfl⟩ := isPoint_iff.1 hp
            refine ⟨fun c hc => ?_, fun c hc => mem_reachClusters.2 (.inl hc), fun _ c hc => mem_reachClusters.2 (.inr hc)⟩
            rcases mem_reachClusters.1 hc with hc | hc
            · exact hr c hc
            · exact .start (hl a (by simp)) ⟨k, h5⟩ hc
          · rename_i hp
            cases h3
            refine ⟨hr, fun _ h => h, fun ⟨k, hk⟩ => ?_⟩
            rw [h5] at hk
            cases hk
            exact absurd rfl hp
        obtain ⟨g1, g2, g3⟩ := ih r1 r' (fun e he => hl e (by simp [he])) hr1.1 h4
        refine ⟨g1, fun c hc => g2 c (hr1.2.1 c hc), fun e he hp c hc => ?_⟩
        rcases List.mem_cons.1 he with rfl | he
        · exact g2 c (hr1.2.2 hp c hc)
        · exact g3 e he hp c hc
    obtain ⟨g1, -, g3⟩ := key step.elements [] reach (fun _ h => h) (by simp) h1
    exact ⟨g1, g3⟩
  obtain ⟨st', hi, rfl⟩ := followClusters_inv _ _ ⟨Nat.zero_le _, hstart.1, fun e he => .inl he, fun e he => he, hstart.2, fun j c hj => by omega⟩ h2
  have hall : ∀ c, Affected s.elements step c → c ∈ st'.1 := by
    intro c hc
    induction hc with
    | start he hp ho => exact hi.start _ he hp _ ho
    | next _ hf he hp ho ih =>
      obtain ⟨j, hj⟩ := List.mem_iff_getElem?.1 ih
      exact (hi.done j _ (lt_of_getElem? hj) hj _ hf _ he hp).1 _ ho
  refine ⟨hi.solved e, ?_⟩
  rintro (he | ⟨c, l, hc, hl, he, hp, cl, hcl, h1⟩)
  · exact hi.base e he
  · obtain ⟨j, hj⟩ := List.mem_iff_getElem?.1 (hall c hc)
    exact (hi.done j c (lt_of_getElem? hj) hj l hl e he hp).2 cl hcl h1

/-- The clusters with a pose in the problem. -/
theorem build_posed {s : System F} {T : List F} {step : RecombinationStep} {cs : ClusteredSystem} {values : List F}
    (h : ClusteredSystem.build s T step = .ok (cs, values)) (c : Nat) : c ∈ cs.clusters.keys ↔ Posed s.elements step c := by
  constructor
  · intro hc
    obtain ⟨q, hq, rfl⟩ := List.mem_map.1 hc
    have hne : ∀ q ∈ cs.clusters, q.2 ≠ [] := by
      have h' := h
      simp only [ClusteredSystem.build, bind_eq_ok] at h'
      obtain ⟨es, -, reach, -, elements, -, ⟨clusters, np⟩, h1, ⟨mapping, vs⟩, -, h'⟩ := h'
      cases h'
      refine foldlM_inv (fun st : IMap Nat (List Nat) × Nat => ∀ q ∈ st.1, q.2 ≠ []) _ _ _ _ (by simp) (fun st i st' _ hst h3 => ?_) h1
      rw [collectClusters, bind_eq_ok] at h3
      obtain ⟨el, -, h3⟩ := h3
      split at h3
      · cases h3; exact hst
      · rename_i cl _
        split at h3
        · cases h3
          have key : ∀ (l : List Nat) (m : IMap Nat (List Nat)), (∀ q ∈ m, q.2 ≠ []) → ∀ q ∈ l.foldl (fun (m : IMap Nat (List Nat)) c => m.pushEntry c i) m, q.2 ≠ [] := by
            intro l
            induction l with
            | nil => intro m hm; exact hm
            | cons c l ih =>
              intro m hm
              refine ih _ (fun q hq => ?_)
              rcases IMap.mem_insert hq with hq | rfl
              · exact hm q hq
              · simp
          exact key cl st.1 hst
        · cases h3; exact hst
    obtain ⟨e, he⟩ := List.exists_mem_of_ne_nil _ (hne q hq)
    obtain ⟨h1, h2, h3⟩ := build_tied h q hq e he
    exact ⟨e, (build_solvedFor h e).1 h1, h2, h3⟩
  · rintro ⟨e, h1, ⟨k, hk⟩, l, hl, hc⟩
    obtain ⟨q, hq, rfl, -⟩ := build_ties h ((build_solvedFor h e).2 h1) hk hl hc
    exact List.mem_map_of_mem hq

theorem owns_iff {step : RecombinationStep} {c e : Nat} : e ∈ (step.ownedElements.get? c).getD [] ↔ Owns step c e := by
  unfold Owns
  cases step.ownedElements.get? c <;> simp

/-- In the language of the specification. -/
theorem build_moves {s : System ℝ} {T : List ℝ} {step : RecombinationStep} {cs : ClusteredSystem} {values : List ℝ}
    (h : ClusteredSystem.build s T step = .ok (cs, values)) (e : Nat) : cs.Moves step e ↔ MayMove s.elements step e := by
  unfold ClusteredSystem.Moves MayMove
  rw [build_solvedFor h e]
  refine or_congr Iff.rfl ⟨?_, ?_⟩
  · rintro ⟨q, hq, he⟩
    exact ⟨q.1, (build_posed h q.1).1 (List.mem_map_of_mem hq), owns_iff.1 he⟩
  · rintro ⟨c, hc, he⟩
    obtain ⟨q, hq, rfl⟩ := List.mem_map.1 ((build_posed h c).2 hc)
    exact ⟨q, hq, owns_iff.2 he⟩

/-! ## C64 -/

/-- The effect of a step on the positions `T`, giving `T'`. -/
structure RigidEffect (elements : List EncodedElement) (exprs : List (Expr ℝ)) (equations : List Nat) (step : RecombinationStep) (ε : ℝ) (T T' : List ℝ) : Prop where
  /-- The equations hold up to `ε`. -/
  solved : ∀ i ∈ equations, ∃ e r, exprs[i]? = some e ∧ e.calculateResidual (identityMap T') = .ok r ∧ |r| ≤ ε
  /-- For each cluster there is one rotation and translation by which all points move that go along with it, up to `ε` in both coordinates. -/
  rigid : ∀ c, ∃ (φ : ℝ) (t : ℂ), ∀ e k, CarriedBy elements step c e → elements[e]? = some (.point k) → ∃ x y x' y', T[k]? = some x ∧ T[k + 1]? = some y ∧
    T'[k]? = some x' ∧ T'[k + 1]? = some y' ∧ |(motion φ t ⟨x, y⟩ - ⟨x', y'⟩).re| ≤ ε ∧ |(motion φ t ⟨x, y⟩ - ⟨x', y'⟩).im| ≤ ε
  /-- Nothing else moves. -/
  still : ∀ e, ¬ MayMove elements step e → ∀ k, (elements[e]? = some (.point k) → T'[k]? = T[k]? ∧ T'[k + 1]? = T[k + 1]?) ∧ (elements[e]? = some (.length k) → T'[k]? = T[k]?)

/-- C64: with `RecursiveAssembly`, consider any step of the plan for any component of a system built through the API. If the optimiser ends where all residuals of its problem are at most `ε`, then the
equations of the step hold up to `ε`, each cluster has moved as a rigid body (up to `ε`), and everything else has stayed where it was. The variables are updated along with their scaled copies. -/
theorem C64_step_effect {counter : Nat} {ops : List (Op ℝ)} {c : Client ℝ} (h : Reaches counter ops c) {ord : HashOrder} {comp : Component} {steps : List RecombinationStep}
    (hp : c.sys.recursivePlan ord comp = .ok steps) {step : RecombinationStep} (hstep : step ∈ steps) {optimize : Optimize ℝ} {ε : ℝ} (hatt : optimize.Attains ε) (hε : 0 ≤ ε)
    {st st' : SolveState ℝ} (hs : solveStep optimize c.sys c.sys.scale c.sys.scaledExpressions st step = .ok st') :
    ∃ es, step.constraints.mapM c.sys.constraintExpressions = .ok es ∧
      RigidEffect c.sys.elements c.sys.scaledExpressions es.flatten step ε st.transformed st'.transformed ∧
      (∀ v : Nat, (∀ x, st.transformed[v]? = some x → st.vars[v]? = some (c.sys.scale * x)) → ∀ x, st'.transformed[v]? = some x → st'.vars[v]? = some (c.sys.scale * x)) ∧
      ∀ e, SolvedFor c.sys.elements step e → ∀ k, c.sys.elements[e]? = some (.point k) → ∀ v, v = k ∨ v = k + 1 →
        ∀ x, st'.transformed[v]? = some x → st'.vars[v]? = some (c.sys.scale * x) := by
  have hr := h.crel.rel
  obtain ⟨cs, start, hb, he⟩ := solveStep_effect hr.separate hatt hε (decompose_once hp step hstep) hs
  have hex : ∃ es, step.constraints.mapM c.sys.constraintExpressions = .ok es ∧ cs.expressions = es.flatten := by
    have hb' := hb
    simp only [ClusteredSystem.build, bind_eq_ok] at hb'
    obtain ⟨es, h0, reach, -, elements, -, ⟨clusters, np⟩, -, ⟨mapping, vs⟩, -, h'⟩ := hb'
    cases h'
    exact ⟨es, h0, rfl⟩
  obtain ⟨es, h1, h2⟩ := hex
  refine ⟨es, h1, ⟨h2 ▸ he.solved, fun key => ?_, fun e hm k => ⟨fun hk => ?_, fun hk => ?_⟩⟩, he.synced, fun e hse k hk v hv => he.fresh v ?_⟩
  · by_cases hkey : key ∈ cs.clusters.keys
    · obtain ⟨j, hj⟩ := List.mem_iff_getElem?.1 hkey
      rw [IMap.keys, List.getElem?_map, Option.map_eq_some_iff] at hj
      obtain ⟨q, hq, rfl⟩ := hj
      obtain ⟨pose, hpose⟩ := he.rigid j (lt_of_getElem? hq)
      refine ⟨pose.rotation, ⟨pose.tx, pose.ty⟩, fun e k hc hk => ?_⟩
      have hcar : cs.Carries step j e := by
        refine ⟨q, hq, ?_⟩
        rcases hc.2.2 with ⟨g1, l, hl, hcl⟩ | ⟨g1, g2⟩
        · left
          obtain ⟨q', hq', hqq, hmem⟩ := build_ties hb ((build_solvedFor hb e).2 g1) hk hl hcl
          have : q' = q := by
            have hn := (build_counts hb).2
            have h3 := IMap.get?_of_mem hn hq'
            have h4 := IMap.get?_of_mem hn (List.mem_of_getElem? hq)
            rw [hqq, h4] at h3
            exact Prod.ext hqq (Option.some.inj h3).symm
          exact this ▸ hmem
        · exact .inr ⟨fun hc => g1 ((build_solvedFor hb e).1 hc), owns_iff.2 g2⟩
      obtain ⟨x, y, x', y', t1, t2, t3, t4, t5, t6⟩ := hpose e k hcar hk
      refine ⟨x, y, x', y', t1, t2, t3, t4, ?_, ?_⟩
      · rw [motion, ← C50_pose_is_motion]; exact t5
      · rw [motion, ← C50_pose_is_motion]; exact t6
    · exact ⟨0, 0, fun e k hc => absurd ((build_posed hb key).2 hc.1) hkey⟩
  · have := he.still e _ hk (.inl rfl) (fun hc => hm ((build_moves hb e).1 hc))
    exact ⟨this k (by simp [EncodedElement.variableIndices]), this (k + 1) (by simp [EncodedElement.variableIndices])⟩
  · exact he.still e _ hk (.inr ⟨k, rfl⟩) (fun hc => hm ((build_moves hb e).1 hc)) k (by simp [EncodedElement.variableIndices])
  · obtain ⟨u, g1, g2⟩ := (build_mapped hr.separate hb).point e ((build_solvedFor hb e).2 hse) k hk
    rcases hv with rfl | rfl
    · exact (IMap.mem_keys_iff _ _).2 ⟨_, g1⟩
    · exact (IMap.mem_keys_iff _ _).2 ⟨_, g2⟩

/-- C64: with exact solutions, distances between points that go along with one cluster stay as they are. -/
theorem C64_distances_kept {elements : List EncodedElement} {exprs : List (Expr ℝ)} {equations : List Nat} {step : RecombinationStep} {T T' : List ℝ}
    (h : RigidEffect elements exprs equations step 0 T T') {c e e' k k' : Nat} (he : CarriedBy elements step c e) (he' : CarriedBy elements step c e')
    (hk : elements[e]? = some (.point k)) (hk' : elements[e']? = some (.point k')) :
    ∃ P Q P' Q' : ℂ, T[k]? = some P.re ∧ T[k + 1]? = some P.im ∧ T[k']? = some Q.re ∧ T[k' + 1]? = some Q.im ∧
      T'[k]? = some P'.re ∧ T'[k + 1]? = some P'.im ∧ T'[k']? = some Q'.re ∧ T'[k' + 1]? = some Q'.im ∧ dist P' Q' = dist P Q := by
  obtain ⟨φ, t, hr⟩ := h.rigid c
  obtain ⟨x, y, x', y', a1, a2, a3, a4, a5, a6⟩ := hr e k he hk
  obtain ⟨z, w, z', w', b1, b2, b3, b4, b5, b6⟩ := hr e' k' he' hk'
  refine ⟨⟨x, y⟩, ⟨z, w⟩, ⟨x', y'⟩, ⟨z', w'⟩, a1, a2, b1, b2, a3, a4, b3, b4, ?_⟩
  have ha : (⟨x', y'⟩ : ℂ) = motion φ t ⟨x, y⟩ := (sub_eq_zero.1 (Complex.ext (abs_nonpos_iff.1 a5) (abs_nonpos_iff.1 a6))).symm
  have hb : (⟨z', w'⟩ : ℂ) = motion φ t ⟨z, w⟩ := (sub_eq_zero.1 (Complex.ext (abs_nonpos_iff.1 b5) (abs_nonpos_iff.1 b6))).symm
  rw [ha, hb, Complex.dist_eq, Complex.dist_eq, motion_sub, norm_rot]

/-- A case for C64: the second step for two points on a circle. An optimiser ends at residuals of zero, and cluster 5 carries the points 1 and 2. -/
example : ∃ c comp steps, Reaches 0 roundOps c ∧ c.sys.recursivePlan (fun tag => ascendingOrder (0 :: 1 :: tag)) comp = .ok steps ∧ roundStep2 ∈ steps ∧ (roundOptimize.checked 0).Attains 0 ∧
    (∃ st st', solveStep (roundOptimize.checked 0) c.sys c.sys.scale c.sys.scaledExpressions st roundStep2 = .ok st') ∧
    CarriedBy c.sys.elements roundStep2 5 1 ∧ CarriedBy c.sys.elements roundStep2 5 2 := by
  obtain ⟨c, h⟩ := exists_reaches 0 roundOps (by
    simp [roundOps, Store.LegalRun, Store.Legal, Store.empty, Store.step, Store.IsPoint, Store.IsLength, Store.IsCircle, Store.ConOk]) (by simp [roundOps])
  obtain ⟨-, h1, h3, -, h5, h2⟩ := round_sys h
  have hsc : c.sys.scale = 1 := by
    unfold System.scale
    rw [h3, h5]
    show Real.sqrt ((0 + 2 * 2 + 0 * 0 + -1 * -1 + 0 * 0 + 1 * 1 + 0 * 0 + 1 * 1) / ((7 : ℕ) : ℝ)) = 1
    norm_num
  have he : c.sys.scaledExpressions = roundExprs := by
    unfold System.scaledExpressions
    rw [h5]
    rfl
  obtain ⟨st', hst, -⟩ := round_step2 h1 h2 0
  rw [← he, ← hsc] at hst
  have s1 : SolvedFor c.sys.elements roundStep2 1 := .inl (by simp [roundStep2])
  have s2 : SolvedFor c.sys.elements roundStep2 2 := .inl (by simp [roundStep2])
  have p1 : IsPointAt c.sys.elements 1 := ⟨2, by rw [h1]; rfl⟩
  have p2 : IsPointAt c.sys.elements 2 := ⟨4, by rw [h1]; rfl⟩
  have f1 : OnFrontier roundStep2 5 1 := ⟨[2, 3, 5, 7], rfl, by simp⟩
  have f2 : OnFrontier roundStep2 5 2 := ⟨[5, 2, 4, 6], rfl, by simp⟩
  exact ⟨c, ⟨{0, 1, 2, 3}, {0, 1}⟩, _, h, round_plan h, by simp, Optimize.checked_attains _ _, ⟨_, _, hst⟩, ⟨⟨1, s1, p1, f1⟩, p1, .inl ⟨s1, f1⟩⟩, ⟨⟨1, s1, p1, f1⟩, p2, .inl ⟨s2, f2⟩⟩⟩

/-- A case with a point that is owned: in the second step for a chain of three points, cluster 0 carries the points 0 and 1, and point 0 is not solved for. -/
example : CarriedBy [.point 0, .point 2, .point 4] chainStep 0 0 ∧ CarriedBy [.point 0, .point 2, .point 4] chainStep 0 1 := by
  have s1 : SolvedFor [.point 0, .point 2, .point 4] chainStep 1 := .inl (by simp [chainStep])
  have f1 : OnFrontier chainStep 0 1 := ⟨[0], rfl, by simp⟩
  have p1 : IsPointAt [.point 0, .point 2, .point 4] 1 := ⟨2, rfl⟩
  refine ⟨⟨⟨1, s1, p1, f1⟩, ⟨0, rfl⟩, .inr ⟨?_, [0, 1], rfl, by simp⟩⟩, ⟨⟨1, s1, p1, f1⟩, p1, .inl ⟨s1, f1⟩⟩⟩
  rintro (h | ⟨c, l, -, -, -, -, cl, h, -⟩)
  · simp [chainStep] at h
  · have : chainStep.onFrontiers.get? 0 = none := rfl
    rw [this] at h
    cases h

end Fiksi
