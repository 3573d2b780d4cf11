import Verif.Proofs.Decompose
/-!
# The element lists of recursive assembly steps only name elements of the component
-/
namespace Fiksi

variable {κ α : Type} [DecidableEq κ]

theorem IMap.mem_insert {m : IMap κ α} {k : κ} {v : α} {p : κ × α} (h : p ∈ m.insert k v) : p ∈ m ∨ p = (k, v) := by
  unfold IMap.insert at h
  split at h
  · obtain ⟨q, h1, rfl⟩ := List.mem_map.1 h
    split
    · exact .inr rfl
    · exact .inl h1
  · simpa using h

theorem IMap.mem_erase {m : IMap κ α} {k : κ} {p : κ × α} (h : p ∈ m.erase k) : p ∈ m := (List.mem_filter.1 h).1

/-- All lists of the map only name members of `E`. -/
def IMap.Names (E : Finset Nat) (m : IMap Nat (List Nat)) : Prop := ∀ p ∈ m, ∀ v ∈ p.2, v ∈ E

theorem IMap.Names.get {E : Finset Nat} {m : IMap Nat (List Nat)} (h : m.Names E) {k : Nat} {l : List Nat}
    (hk : m.get? k = some l) : ∀ v ∈ l, v ∈ E := h _ (IMap.mem_of_get? hk)

theorem IMap.Names.insert {E : Finset Nat} {m : IMap Nat (List Nat)} (h : m.Names E) {k : Nat} {l : List Nat}
    (hl : ∀ v ∈ l, v ∈ E) : (m.insert k l).Names E := by
  intro p hp v hv
  rcases IMap.mem_insert hp with h1 | rfl
  · exact h p h1 v hv
  · exact hl v hv

theorem IMap.Names.erase {E : Finset Nat} {m : IMap Nat (List Nat)} (h : m.Names E) (k : Nat) : (m.erase k).Names E :=
  fun p hp => h p (IMap.mem_erase hp)

theorem IMap.Names.pushEntry {E : Finset Nat} {m : IMap Nat (List Nat)} (h : m.Names E) {k v : Nat} (hv : v ∈ E) :
    (m.pushEntry k v).Names E := by
  refine h.insert (fun u hu => ?_)
  rcases List.mem_append.1 hu with h1 | h1
  · cases hg : m.get? k with
    | none => simp [hg] at h1
    | some l => rw [hg] at h1; exact h.get hg u h1
  · rw [List.mem_singleton.1 h1]; exact hv

/-- The element lists of a step only name members of `E`. -/
structure RecombinationStep.Names (E : Finset Nat) (s : RecombinationStep) : Prop where
  owned : s.ownedElements.Names E
  front : s.frontierElements.Names E

/-- The same for the state of `decompose`. -/
structure DState.Names (E : Finset Nat) (st : DState) : Prop where
  owned : st.ownedElements.Names E
  front : st.frontierElements.Names E
  fixes : ∀ v ∈ st.stepFixes, v ∈ E
  steps : ∀ s ∈ st.steps, s.Names E

/-- The parts of the state the invariant is about agree. -/
structure DState.Same4 (st st' : DState) : Prop where
  owned : st'.ownedElements = st.ownedElements
  front : st'.frontierElements = st.frontierElements
  fixes : st'.stepFixes = st.stepFixes
  steps : st'.steps = st.steps

theorem DState.Same4.names {E : Finset Nat} {st st' : DState} (h : st.Same4 st') (hn : st.Names E) : st'.Names E := by
  obtain ⟨h1, h2, h3, h4⟩ := h
  exact ⟨h1 ▸ hn.owned, h2 ▸ hn.front, h3 ▸ hn.fixes, h4 ▸ hn.steps⟩

theorem DState.Same4.refl (st : DState) : st.Same4 st := ⟨rfl, rfl, rfl, rfl⟩

theorem DState.Same4.trans {a b c : DState} (h : a.Same4 b) (h' : b.Same4 c) : a.Same4 c :=
  ⟨h'.owned.trans h.owned, h'.front.trans h.front, h'.fixes.trans h.fixes, h'.steps.trans h.steps⟩

theorem scanEdges_same4 {nC : Nat} {sub : Finset Nat} {edges : List Nat} {st : DState} {bs : Bool × DState}
    (h : scanEdges nC sub edges st = .ok bs) : st.Same4 bs.2 := by
  refine foldlM_inv (fun bs : Bool × DState => st.Same4 bs.2) _ _ _ _ (.refl st) (fun bs e _ bs' hb h1 => ?_) h
  rw [bind_eq_ok] at h1
  obtain ⟨edge, -, h1⟩ := h1
  split at h1
  · split at h1 <;> cases h1 <;> exact ⟨hb.1, hb.2, hb.3, hb.4⟩
  · cases h1; exact hb

theorem scanVertex_names {nE nC key : Nat} {sub E : Finset Nat} {sc sc' : ScanState} {v : Nat} (hv : v < nE → v ∈ E)
    (hn : sc.st.Names E) (h : scanVertex nE nC key sub sc v = .ok sc') : sc'.st.Names E := by
  rw [scanVertex, bind_eq_ok] at h
  obtain ⟨edges, -, h⟩ := h
  rw [bind_eq_ok] at h
  obtain ⟨⟨b, st'⟩, h2, h⟩ := h
  have h3 : (noteVertex nE key sc.st v).Names E := by
    unfold noteVertex
    split
    · next hc =>
      refine ⟨hn.owned, hn.front, fun u hu => ?_, hn.steps⟩
      rcases List.mem_append.1 hu with h4 | h4
      · exact hn.fixes u h4
      · rw [List.mem_singleton.1 h4]; exact hv hc.1
    · exact hn
  have h4 := (scanEdges_same4 h2).names h3
  simp only at h
  split at h <;> cases h <;> exact h4

theorem emitStep_names {E : Finset Nat} {st : DState} (real : List Nat) (hn : st.Names E) : (emitStep real st).Names E := by
  unfold emitStep
  split
  · exact hn
  · refine ⟨hn.owned, hn.front, hn.fixes, fun s hs => ?_⟩
    rcases List.mem_append.1 hs with h1 | h1
    · exact hn.steps s h1
    · rw [List.mem_singleton.1 h1]; exact ⟨hn.owned, hn.front⟩

theorem claimFixes_names {E : Finset Nat} {st : DState} (key : Nat) (core : List Nat) (hn : st.Names E) :
    (claimFixes key core st).Names E := by
  unfold claimFixes
  split
  · exact hn
  · exact ⟨hn.owned.insert hn.fixes, hn.front, by simp, hn.steps⟩

theorem mergeCore_names {nE key : Nat} {E : Finset Nat} {core : List Nat} {st st' : DState} {v : Nat} (hn : st.Names E)
    (h : mergeCore nE key core st v = .ok st') : st'.Names E := by
  rw [mergeCore, bind_eq_ok] at h
  obtain ⟨st1, h1, h⟩ := h
  have hn1 : st1.Names E := by
    split at h1
    · rw [bind_eq_ok] at h1
      obtain ⟨el, -, h1⟩ := h1
      rw [bind_eq_ok] at h1
      obtain ⟨av, -, h1⟩ := h1
      cases h1
      exact ⟨hn.1, hn.2, hn.3, hn.4⟩
    · cases h1; exact hn
  rw [bind_eq_ok] at h
  obtain ⟨oldKey, -, h⟩ := h
  rw [bind_eq_ok] at h
  obtain ⟨st2, h2, h⟩ := h
  cases h
  split at h2
  · rw [bind_eq_ok] at h2
    obtain ⟨oldOwned, ho, h2⟩ := h2
    rw [bind_eq_ok] at h2
    obtain ⟨mine, hm, h2⟩ := h2
    rw [bind_eq_ok] at h2
    obtain ⟨fr, -, h2⟩ := h2
    rw [bind_eq_ok] at h2
    obtain ⟨of, -, h2⟩ := h2
    cases h2
    rw [unwrap_eq_ok] at ho hm
    refine ⟨(hn1.owned.erase oldKey).insert (fun u hu => ?_), hn1.front.erase oldKey, hn1.fixes, hn1.steps⟩
    rcases List.mem_append.1 hu with h4 | h4
    · exact (hn1.owned.erase oldKey).get hm u h4
    · exact hn1.owned.get ho u h4
  · cases h2; exact ⟨hn1.1, hn1.2, hn1.3, hn1.4⟩

theorem markFrontier_names {nE key : Nat} {E : Finset Nat} : ∀ (l : List Nat) (st : DState), (∀ v ∈ l, v < nE → v ∈ E) →
    st.Names E → (l.foldl (markFrontier nE key) st).Names E := by
  intro l
  induction l with
  | nil => intro st _ hn; exact hn
  | cons v l ih =>
    intro st hl hn
    refine ih _ (fun u hu => hl u (List.mem_cons_of_mem _ hu)) ?_
    refine ⟨hn.owned, ?_, hn.fixes, hn.steps⟩
    unfold markFrontier
    split
    · next hv => exact hn.front.pushEntry (hl v List.mem_cons_self hv)
    · exact hn.front

theorem contractVertex_same4 {sub frontier : Finset Nat} {core v : Nat} {cs cs' : ContractState}
    (h : contractVertex sub frontier core cs v = .ok cs') : cs.st.Same4 cs'.st := by
  rw [contractVertex, bind_eq_ok] at h
  obtain ⟨el, -, h⟩ := h
  rw [bind_eq_ok] at h
  obtain ⟨⟨val, st⟩, h1, h⟩ := h
  have h2 : cs.st.Same4 st := by
    refine foldlM_inv (fun bs : Int × DState => cs.st.Same4 bs.2) _ _ _ _ (.refl _) (fun bs e _ bs' hb h1 => ?_) h1
    simp only at h1
    split at h1
    · cases h1; exact hb
    · rw [bind_eq_ok] at h1
      obtain ⟨edge, -, h1⟩ := h1
      split at h1
      · split at h1
        · cases h1; exact ⟨hb.1, hb.2, hb.3, hb.4⟩
        · rw [bind_eq_ok] at h1
          obtain ⟨cs, -, h1⟩ := h1
          cases h1; exact ⟨hb.1, hb.2, hb.3, hb.4⟩
      · cases h1; exact hb
  simp only at h
  split at h
  · rw [bind_eq_ok] at h
    obtain ⟨⟨id, g⟩, -, h⟩ := h
    cases h
    exact ⟨h2.1, h2.2, h2.3, h2.4⟩
  · cases h; exact h2

theorem contract_same4 {d : Int} {ord : HashOrder} {step key : Nat} {sub frontier : Finset Nat} {core : List Nat} {st st' : DState}
    (h : contract d ord step key sub frontier core st = .ok st') : st.Same4 st' := by
  rw [contract, bind_eq_ok] at h
  obtain ⟨coreId, -, h⟩ := h
  rw [bind_eq_ok] at h
  obtain ⟨cs, h1, h⟩ := h
  have h2 : st.Same4 cs.st :=
    foldlM_inv (fun cs : ContractState => st.Same4 cs.st) _ _ _ _ ⟨rfl, rfl, rfl, rfl⟩
      (fun _ _ _ _ hb h3 => hb.trans (contractVertex_same4 h3)) h1
  split at h
  · rw [bind_eq_ok] at h
    obtain ⟨el, -, h⟩ := h
    rw [bind_eq_ok] at h
    obtain ⟨es, -, h⟩ := h
    cases h
    exact ⟨h2.1, h2.2, h2.3, h2.4⟩
  · cases h; exact ⟨h2.1, h2.2, h2.3, h2.4⟩

theorem assembleStep_names {d : Int} {ord : HashOrder} (hord : ord.Ok) {nE nC step : Nat} {sub E : Finset Nat} {st st' : DState}
    (hsub : ∀ v ∈ sub, v < nE → v ∈ E) (hn : st.Names E) (h : assembleStep d ord nE nC step sub st = .ok st') : st'.Names E := by
  rw [assembleStep, bind_eq_ok] at h
  obtain ⟨sc, hsc, h⟩ := h
  have h1 : sc.st.Names E ∧ sc.frontier ⊆ sub := by
    refine foldlM_inv (fun sc : ScanState => sc.st.Names E ∧ sc.frontier ⊆ sub) _ _ _ _ ⟨hn, by simp⟩
      (fun sc v sc' hv hs h2 => ⟨scanVertex_names (fun hl => hsub v ((hord _ _).2 v |>.1 hv) hl) hs.1 h2, ?_⟩) hsc
    rw [scanVertex, bind_eq_ok] at h2
    obtain ⟨edges, -, h2⟩ := h2
    rw [bind_eq_ok] at h2
    obtain ⟨⟨b, st'⟩, -, h2⟩ := h2
    simp only at h2
    split at h2 <;> cases h2
    · intro u hu
      rcases Finset.mem_insert.1 hu with rfl | hu
      · exact (hord _ _).2 _ |>.1 hv
      · exact hs.2 hu
    · exact hs.2
  rw [bind_eq_ok] at h
  obtain ⟨st2, h2, h⟩ := h
  have h3 : st2.Names E :=
    foldlM_inv (DState.Names E) _ _ _ _ (claimFixes_names step sc.core (emitStep_names sc.realElements h1.1))
      (fun _ _ _ _ hb h3 => mergeCore_names hb h3) h2
  have h4 := markFrontier_names (key := step) (ord [step, 3] sc.frontier) st2
    (fun v hv hl => hsub v (h1.2 ((hord _ _).2 v |>.1 hv)) hl) h3
  split at h
  · cases h; exact ⟨h4.1, h4.2, h4.3, h4.4⟩
  · exact (contract_same4 h).names h4

theorem decomposeLoop_names {cx : DCtx} (hcx : cx.Ok) {d : Int} {ord : HashOrder} (hord : ord.Ok) :
    ∀ (fuel step : Nat) (st : DState) (steps : List RecombinationStep), st.Inv cx → st.Names cx.vertices →
      decomposeLoop d ord cx.nE cx.nC fuel step st = .ok steps → ∀ s ∈ steps, s.Names cx.vertices := by
  intro fuel
  induction fuel with
  | zero => intro step st steps _ _ h; simp [decomposeLoop] at h
  | succ fuel ih =>
    intro step st steps hi hn h
    rw [decomposeLoop] at h
    obtain ⟨r, h1, h2⟩ := (hi.env (-(d + 1))).denseBfs hord step
    simp only [h1, ok_bind] at h
    cases r with
    | none =>
      simp only [pure_eq_ok, Except.ok.injEq] at h
      subst h
      intro s hs
      unfold lastStep at hs
      simp only at hs
      split at hs
      · exact hn.steps s hs
      · rcases List.mem_append.1 hs with h3 | h3
        · exact hn.steps s h3
        · rw [List.mem_singleton.1 h3]; exact ⟨hn.owned, hn.front⟩
    | some sub =>
      simp only at h
      rw [bind_eq_ok] at h
      obtain ⟨st', h3, h4⟩ := h
      exact ih _ _ _ (assembleStep_inv hcx hord hi (h2 sub rfl).1 h3).1
        (assembleStep_names hord (fun v hv hl => hi.vertsReal v ((h2 sub rfl).1 hv) hl) hn h3) h4

/-- The element lists of the steps of a plan only name vertices of the component. -/
theorem decompose_names {cx : DCtx} (hcx : cx.Ok) {d : Int} {ord : HashOrder} (hord : ord.Ok) {steps : List RecombinationStep}
    (h : decompose d ord cx.g cx.vertices cx.edges = .ok steps) : ∀ s ∈ steps, s.Names cx.vertices := by
  rw [decompose, bind_eq_ok] at h
  obtain ⟨nC, h1, h⟩ := h
  rw [bind_eq_ok] at h
  obtain ⟨nE, h2, h⟩ := h
  rw [toU32_eq_ok] at h1 h2
  obtain ⟨-, rfl⟩ := h1
  obtain ⟨-, rfl⟩ := h2
  exact decomposeLoop_names hcx hord _ _ _ _ (DState.Inv.init hcx) ⟨by simp [IMap.Names], by simp [IMap.Names], by simp, by simp⟩ h

end Fiksi
