import Verif.Proofs.DecomposeNames
/-!
# No element is owned by two clusters
-/
namespace Fiksi

/-- No element is owned twice. -/
def RecombinationStep.OwnedOnce (step : RecombinationStep) : Prop := (step.ownedElements.flatMap Prod.snd).Nodup

/-- The lists of the map have no element twice, and no two share an element. -/
structure IMap.Once (m : IMap Nat (List Nat)) : Prop where
  keys : m.keys.Nodup
  each : ∀ p ∈ m, p.2.Nodup
  apart : ∀ p ∈ m, ∀ q ∈ m, p.1 ≠ q.1 → List.Disjoint p.2 q.2

theorem IMap.Once.nodup {m : IMap Nat (List Nat)} (h : m.Once) : (m.flatMap Prod.snd).Nodup := by
  rw [List.nodup_flatMap]
  refine ⟨h.each, ?_⟩
  have h1 : m.Pairwise (fun p q => p.1 ≠ q.1) := List.pairwise_map.1 h.keys
  exact h1.imp_of_mem fun hp hq hne => h.apart _ hp _ hq hne

theorem IMap.Once.erase {m : IMap Nat (List Nat)} (h : m.Once) (k : Nat) : (m.erase k).Once :=
  ⟨h.keys.sublist (List.filter_sublist.map _), fun p hp => h.each p (IMap.mem_erase hp),
    fun p hp q hq => h.apart p (IMap.mem_erase hp) q (IMap.mem_erase hq)⟩

theorem IMap.Once.insert {m : IMap Nat (List Nat)} (h : m.Once) {k : Nat} {l : List Nat} (hl : l.Nodup) (hd : ∀ q ∈ m, q.1 ≠ k → List.Disjoint l q.2) :
    (m.insert k l).Once := by
  refine ⟨IMap.nodup_keys_insert _ _ _ h.keys, fun p hp => ?_, fun p hp q hq hne => ?_⟩
  · rcases IMap.mem_insert hp with hp | rfl
    · exact h.each p hp
    · exact hl
  · rcases IMap.mem_insert hp with hp | rfl <;> rcases IMap.mem_insert hq with hq | rfl
    · exact h.apart p hp q hq hne
    · exact (hd p hp hne).symm
    · exact hd q hq (Ne.symm hne)
    · exact absurd rfl hne

/-- The state of `decompose` between its parts. -/
structure DState.Once (st : DState) : Prop where
  owned : st.ownedElements.Once
  fixes : st.stepFixes.Nodup
  apart : ∀ p ∈ st.ownedElements, List.Disjoint st.stepFixes p.2
  handled : ∀ v, (v ∈ st.stepFixes ∨ ∃ p ∈ st.ownedElements, v ∈ p.2) → v ∈ st.verticesHandled
  steps : ∀ s ∈ st.steps, s.OwnedOnce

/-- The parts the invariant is about agree. -/
structure DState.Same5 (st st' : DState) : Prop where
  owned : st'.ownedElements = st.ownedElements
  fixes : st'.stepFixes = st.stepFixes
  handled : st'.verticesHandled = st.verticesHandled
  steps : st'.steps = st.steps

theorem DState.Same5.once {st st' : DState} (h : st.Same5 st') (ho : st.Once) : st'.Once := by
  obtain ⟨h1, h2, h3, h4⟩ := h
  exact ⟨h1 ▸ ho.owned, h2 ▸ ho.fixes, h1 ▸ h2 ▸ ho.apart, h1 ▸ h2 ▸ h3 ▸ ho.handled, h4 ▸ ho.steps⟩

theorem DState.Same5.refl (st : DState) : st.Same5 st := ⟨rfl, rfl, rfl, rfl⟩

theorem DState.Same5.trans {a b c : DState} (h : a.Same5 b) (h' : b.Same5 c) : a.Same5 c :=
  ⟨h'.owned.trans h.owned, h'.fixes.trans h.fixes, h'.handled.trans h.handled, h'.steps.trans h.steps⟩

theorem scanEdges_same5 {nC : Nat} {sub : Finset Nat} {edges : List Nat} {st : DState} {bs : Bool × DState}
    (h : scanEdges nC sub edges st = .ok bs) : st.Same5 bs.2 := by
  refine foldlM_inv (fun bs : Bool × DState => st.Same5 bs.2) _ _ _ _ (.refl st) (fun bs e _ bs' hb h1 => ?_) h
  rw [bind_eq_ok] at h1
  obtain ⟨edge, -, h1⟩ := h1
  split at h1
  · split at h1 <;> cases h1 <;> exact ⟨hb.1, hb.2, hb.3, hb.4⟩
  · cases h1; exact hb

theorem noteVertex_once {nE key v : Nat} {st : DState} (h : st.Once) : (noteVertex nE key st v).Once := by
  unfold noteVertex
  split
  · next hc =>
    have hv : v ∉ st.stepFixes := fun hx => hc.2 (h.handled v (.inl hx))
    refine ⟨h.owned, ?_, fun p hp x hx hxp => ?_, fun x hx => ?_, h.steps⟩
    · exact List.nodup_append.2 ⟨h.fixes, by simp, fun a ha b hb => by rw [List.mem_singleton.1 hb]; rintro rfl; exact hv ha⟩
    · rcases List.mem_append.1 hx with hx | hx
      · exact h.apart p hp hx hxp
      · rw [List.mem_singleton.1 hx] at hxp
        exact hc.2 (h.handled v (.inr ⟨p, hp, hxp⟩))
    · refine Finset.mem_insert.2 ?_
      rcases hx with hx | hx
      · rcases List.mem_append.1 hx with hx | hx
        · exact .inr (h.handled x (.inl hx))
        · exact .inl (List.mem_singleton.1 hx)
      · exact .inr (h.handled x (.inr hx))
  · exact h

theorem scanVertex_once {nE nC key : Nat} {sub : Finset Nat} {sc sc' : ScanState} {v : Nat} (ho : sc.st.Once) (h : scanVertex nE nC key sub sc v = .ok sc') : sc'.st.Once := by
  rw [scanVertex, bind_eq_ok] at h
  obtain ⟨edges, -, h⟩ := h
  rw [bind_eq_ok] at h
  obtain ⟨⟨b, st'⟩, h2, h⟩ := h
  have h4 := (scanEdges_same5 h2).once (noteVertex_once (nE := nE) (key := key) (v := v) ho)
  simp only at h
  split at h <;> cases h <;> exact h4

theorem emitStep_once {st : DState} (real : List Nat) (h : st.Once) : (emitStep real st).Once := by
  unfold emitStep
  split
  · exact h
  · refine ⟨h.owned, h.fixes, h.apart, h.handled, fun s hs => ?_⟩
    rcases List.mem_append.1 hs with h1 | h1
    · exact h.steps s h1
    · rw [List.mem_singleton.1 h1]; exact h.owned.nodup

theorem claimFixes_once {st : DState} (key : Nat) (core : List Nat) (h : st.Once) : (claimFixes key core st).Once := by
  unfold claimFixes
  split
  · exact h
  · refine ⟨h.owned.insert h.fixes fun q hq _ => h.apart q hq, by simp, fun p _ => by simp [List.Disjoint], fun v hv => ?_, h.steps⟩
    rcases hv with hv | ⟨p, hp, hv⟩
    · simp at hv
    · rcases IMap.mem_insert hp with hp | rfl
      · exact h.handled v (.inr ⟨p, hp, hv⟩)
      · exact h.handled v (.inl hv)

theorem mergeCore_once {nE key : Nat} {core : List Nat} {st st' : DState} {v : Nat} (h0 : st.Once) (h : mergeCore nE key core st v = .ok st') : st'.Once := by
  rw [mergeCore, bind_eq_ok] at h
  obtain ⟨st1, h1, h⟩ := h
  have hn1 : st1.Once := by
    split at h1
    · rw [bind_eq_ok] at h1
      obtain ⟨el, -, h1⟩ := h1
      rw [bind_eq_ok] at h1
      obtain ⟨av, -, h1⟩ := h1
      cases h1
      exact ⟨h0.1, h0.2, h0.3, h0.4, h0.5⟩
    · cases h1; exact h0
  rw [bind_eq_ok] at h
  obtain ⟨oldKey, -, h⟩ := h
  rw [bind_eq_ok] at h
  obtain ⟨st2, h2, h⟩ := h
  cases h
  split at h2
  · next hne =>
    rw [bind_eq_ok] at h2
    obtain ⟨oldOwned, ho, h2⟩ := h2
    rw [bind_eq_ok] at h2
    obtain ⟨mine, hm, h2⟩ := h2
    rw [bind_eq_ok] at h2
    obtain ⟨fr, -, h2⟩ := h2
    rw [bind_eq_ok] at h2
    obtain ⟨of, -, h2⟩ := h2
    cases h2
    rw [unwrap_eq_ok] at ho hm
    have ho' := IMap.mem_of_get? ho
    have hm' := IMap.mem_of_get? hm
    have hm1 := IMap.mem_erase hm'
    have hne' : (key, mine).1 ≠ (oldKey, oldOwned).1 := Ne.symm hne
    have hsub : ∀ x ∈ mine ++ oldOwned, ∃ p ∈ st1.ownedElements, (p.1 = key ∨ p.1 = oldKey) ∧ x ∈ p.2 := by
      intro x hx
      rcases List.mem_append.1 hx with hx | hx
      · exact ⟨_, hm1, .inl rfl, hx⟩
      · exact ⟨_, ho', .inr rfl, hx⟩
    refine ⟨(hn1.owned.erase oldKey).insert ?_ fun q hq hqk x hx hxq => ?_, hn1.fixes, fun p hp x hx hxp => ?_, fun x hx => ?_, hn1.steps⟩
    · exact List.nodup_append.2 ⟨hn1.owned.each _ hm1, hn1.owned.each _ ho', fun a ha b hb => by rintro rfl; exact hn1.owned.apart _ hm1 _ ho' hne' ha hb⟩
    · obtain ⟨p, hp, hpk, hxp⟩ := hsub x hx
      have hqo : q.1 ≠ oldKey := by simpa using (List.mem_filter.1 hq).2
      refine hn1.owned.apart p hp q (IMap.mem_erase hq) ?_ hxp hxq
      rcases hpk with hpk | hpk <;> rw [hpk]
      · exact Ne.symm hqk
      · exact Ne.symm hqo
    · rcases IMap.mem_insert hp with hp | rfl
      · exact hn1.apart p (IMap.mem_erase hp) hx hxp
      · obtain ⟨q, hq, -, hxq⟩ := hsub x hxp
        exact hn1.apart q hq hx hxq
    · rcases hx with hx | ⟨p, hp, hx⟩
      · exact hn1.handled x (.inl hx)
      · rcases IMap.mem_insert hp with hp | rfl
        · exact hn1.handled x (.inr ⟨p, IMap.mem_erase hp, hx⟩)
        · obtain ⟨q, hq, -, hxq⟩ := hsub x hx
          exact hn1.handled x (.inr ⟨q, hq, hxq⟩)
  · cases h2; exact ⟨hn1.1, hn1.2, hn1.3, hn1.4, hn1.5⟩

theorem markFrontier_same5 {nE key : Nat} : ∀ (l : List Nat) (st : DState), st.Same5 (l.foldl (markFrontier nE key) st) := by
  intro l
  induction l with
  | nil => exact fun st => .refl st
  | cons v l ih => exact fun st => (show st.Same5 (markFrontier nE key st v) from ⟨rfl, rfl, rfl, rfl⟩).trans (ih (markFrontier nE key st v))

theorem contractVertex_same5 {sub frontier : Finset Nat} {core v : Nat} {cs cs' : ContractState}
    (h : contractVertex sub frontier core cs v = .ok cs') : cs.st.Same5 cs'.st := by
  rw [contractVertex, bind_eq_ok] at h
  obtain ⟨el, -, h⟩ := h
  rw [bind_eq_ok] at h
  obtain ⟨⟨val, st⟩, h1, h⟩ := h
  have h2 : cs.st.Same5 st := by
    refine foldlM_inv (fun bs : Int × DState => cs.st.Same5 bs.2) _ _ _ _ (.refl _) (fun bs e _ bs' hb h1 => ?_) h1
    simp only at h1
    split at h1
    · cases h1; exact hb
    · rw [bind_eq_ok] at h1
      obtain ⟨edge, -, h1⟩ := h1
      split at h1
      · split at h1
        · cases h1; exact ⟨hb.1, hb.2, hb.3, hb.4⟩
        · rw [bind_eq_ok] at h1
          obtain ⟨cs, -, h1⟩ := h1
          cases h1; exact ⟨hb.1, hb.2, hb.3, hb.4⟩
      · cases h1; exact hb
  simp only at h
  split at h
  · rw [bind_eq_ok] at h
    obtain ⟨⟨id, g⟩, -, h⟩ := h
    cases h
    exact ⟨h2.1, h2.2, h2.3, h2.4⟩
  · cases h; exact h2

theorem contract_same5 {d : Int} {ord : HashOrder} {step key : Nat} {sub frontier : Finset Nat} {core : List Nat} {st st' : DState}
    (h : contract d ord step key sub frontier core st = .ok st') : st.Same5 st' := by
  rw [contract, bind_eq_ok] at h
  obtain ⟨coreId, -, h⟩ := h
  rw [bind_eq_ok] at h
  obtain ⟨cs, h1, h⟩ := h
  have h2 : st.Same5 cs.st :=
    foldlM_inv (fun cs : ContractState => st.Same5 cs.st) _ _ _ _ ⟨rfl, rfl, rfl, rfl⟩
      (fun _ _ _ _ hb h3 => hb.trans (contractVertex_same5 h3)) h1
  split at h
  · rw [bind_eq_ok] at h
    obtain ⟨el, -, h⟩ := h
    rw [bind_eq_ok] at h
    obtain ⟨es, -, h⟩ := h
    cases h
    exact ⟨h2.1, h2.2, h2.3, h2.4⟩
  · cases h; exact ⟨h2.1, h2.2, h2.3, h2.4⟩

theorem assembleStep_once {d : Int} {ord : HashOrder} {nE nC step : Nat} {sub : Finset Nat} {st st' : DState} (ho : st.Once)
    (h : assembleStep d ord nE nC step sub st = .ok st') : st'.Once := by
  rw [assembleStep, bind_eq_ok] at h
  obtain ⟨sc, hsc, h⟩ := h
  have h1 : sc.st.Once := foldlM_inv (fun sc : ScanState => sc.st.Once) _ _ _ _ ho (fun _ _ _ _ hs h2 => scanVertex_once hs h2) hsc
  rw [bind_eq_ok] at h
  obtain ⟨st2, h2, h⟩ := h
  have h3 : st2.Once := foldlM_inv DState.Once _ _ _ _ (claimFixes_once step sc.core (emitStep_once sc.realElements h1)) (fun _ _ _ _ hb h3 => mergeCore_once hb h3) h2
  have h4 := (markFrontier_same5 (nE := nE) (key := step) (ord [step, 3] sc.frontier) st2).once h3
  split at h
  · cases h; exact ⟨h4.1, h4.2, h4.3, h4.4, h4.5⟩
  · exact (contract_same5 h).once h4

theorem decomposeLoop_once {d : Int} {ord : HashOrder} {nE nC : Nat} : ∀ (fuel step : Nat) (st : DState) (steps : List RecombinationStep), st.Once →
    decomposeLoop d ord nE nC fuel step st = .ok steps → ∀ s ∈ steps, s.OwnedOnce := by
  intro fuel
  induction fuel with
  | zero => intro step st steps _ h; simp [decomposeLoop] at h
  | succ fuel ih =>
    intro step st steps ho h
    rw [decomposeLoop, bind_eq_ok] at h
    obtain ⟨r, -, h⟩ := h
    cases r with
    | none =>
      simp only [pure_eq_ok, Except.ok.injEq] at h
      subst h
      intro s hs
      unfold lastStep at hs
      simp only at hs
      split at hs
      · exact ho.steps s hs
      · rcases List.mem_append.1 hs with h3 | h3
        · exact ho.steps s h3
        · rw [List.mem_singleton.1 h3]; exact ho.owned.nodup
    | some sub =>
      simp only at h
      rw [bind_eq_ok] at h
      obtain ⟨st', h3, h4⟩ := h
      exact ih _ _ _ (assembleStep_once ho h3) h4

/-- In the steps of a plan, no element is owned by two clusters, or twice by one. -/
theorem decompose_once {d : Int} {ord : HashOrder} {g : DGraph} {vertices edges : Finset Nat} {steps : List RecombinationStep}
    (h : decompose d ord g vertices edges = .ok steps) : ∀ s ∈ steps, s.OwnedOnce := by
  rw [decompose, bind_eq_ok] at h
  obtain ⟨nC, -, h⟩ := h
  rw [bind_eq_ok] at h
  obtain ⟨nE, -, h⟩ := h
  exact decomposeLoop_once _ _ _ _ ⟨⟨by simp [IMap.keys], by simp, by simp⟩, by simp, by simp, by simp, by simp⟩ h

end Fiksi
