import Verif.Proofs.PairScan
import Verif.Proofs.OwnedOnce
/-!
# Clusters on whose frontier an element lies have a list of frontier elements
-/
namespace Fiksi

/-- Every cluster that is listed for a real element (below `nE`) lists that element, and is listed once. -/
structure Fronted (nE : Nat) (onFrontiers frontierElements : IMap Nat (List Nat)) : Prop where
  nodup : ∀ e < nE, ∀ l, onFrontiers.get? e = some l → l.Nodup
  listed : ∀ e < nE, ∀ l, onFrontiers.get? e = some l → ∀ c ∈ l, ∃ f, frontierElements.get? c = some f ∧ e ∈ f

theorem swapRemoveKey_spec {l l' : List Nat} {key : Nat} (hl : l.Nodup) (h : swapRemoveKey l key = .ok l') :
    l'.Nodup ∧ ∀ c, c ∈ l' ↔ c ∈ l ∧ c ≠ key := by
  unfold swapRemoveKey at h
  split at h
  · cases h
  · rename_i i hi
    obtain ⟨hlt, hk⟩ : ∃ hlt : i < l.length, l[i] = key := by
      have := List.idxOf?_eq_some_iff.1 hi
      exact ⟨this.1, by simpa using this.2.1⟩
    split at h
    · cases h
    · rename_i last hlast
      cases h
      have hsplit : l = l.take i ++ key :: l.drop (i + 1) := by
        rw [← hk, ← List.drop_eq_getElem_cons hlt, List.take_append_drop]
      generalize ha : l.take i = a at hsplit
      generalize hb : l.drop (i + 1) = b at hsplit
      have hai : a.length = i := by rw [← ha, List.length_take]; omega
      subst hsplit
      rw [← hai] at *
      rcases List.eq_nil_or_concat b with rfl | ⟨b', z, rfl⟩
      · have : last = key := by simpa using hlast.symm
        subst this
        rw [show (a ++ [last]).set a.length last = a ++ [last] by simp, List.dropLast_concat]
        rw [List.nodup_append] at hl
        refine ⟨hl.1, fun c => ?_⟩
        simp only [List.mem_append, List.mem_singleton]
        constructor
        · intro hc
          exact ⟨.inl hc, fun h => hl.2.2 c hc last (by simp) h⟩
        · rintro ⟨hc | hc, hne⟩
          · exact hc
          · exact absurd hc hne
      · rw [List.concat_eq_append] at *
        have : last = z := by
          rw [show a ++ key :: (b' ++ [z]) = (a ++ key :: b') ++ [z] by simp, List.getLast?_append] at hlast
          simpa using hlast.symm
        subst this
        have h1 : (a ++ key :: (b' ++ [last])).set a.length last = (a ++ last :: b') ++ [last] := by
          rw [List.set_append_right _ _ (le_refl _)]
          simp
        rw [h1, List.dropLast_concat]
        have hp : (a ++ key :: (b' ++ [last])).Perm (key :: (a ++ last :: b')) := by
          refine List.perm_middle.trans (List.Perm.cons _ (List.Perm.append_left a ?_))
          exact (List.perm_append_comm (l₁ := b') (l₂ := [last]))
        have hn := hp.nodup_iff.1 hl
        rw [List.nodup_cons] at hn
        refine ⟨hn.2, fun c => ?_⟩
        rw [hp.mem_iff, List.mem_cons]
        constructor
        · intro hc
          exact ⟨.inr hc, fun h => hn.1 (h ▸ hc)⟩
        · rintro ⟨hc | hc, hne⟩
          · exact absurd hc hne
          · exact hc

/-- Removing a cluster from the lists of its frontier elements. -/
theorem removeKey_fold {nE oldKey : Nat} : ∀ (l : List Nat) (m m' : IMap Nat (List Nat)),
    (∀ e < nE, ∀ q, m.get? e = some q → q.Nodup) →
    l.foldlM (fun (m : IMap Nat (List Nat)) element =>
        match m.get? element with
        | none => (.ok m : R (IMap Nat (List Nat)))
        | some l => do pure (m.insert element (← swapRemoveKey l oldKey))) m = .ok m' →
    (∀ v ∈ l, v < nE) →
    (∀ e < nE, ∀ q, m'.get? e = some q → q.Nodup) ∧
    (∀ e < nE, ∀ q, m'.get? e = some q → ∃ q0, m.get? e = some q0 ∧ ∀ c ∈ q, c ∈ q0) ∧
    (∀ e < nE, e ∈ l → ∀ q, m'.get? e = some q → oldKey ∉ q) := by
  intro l
  induction l with
  | nil => intro m m' hn h _; cases h; exact ⟨hn, fun e _ q hq => ⟨q, hq, fun _ h => h⟩, by simp⟩
  | cons a l ih =>
    intro m m' hn h hl
    rw [List.foldlM_cons, bind_eq_ok] at h
    obtain ⟨m1, h1, h2⟩ := h
    have ha : a < nE := hl a (by simp)
    have key : (∀ e < nE, ∀ q, m1.get? e = some q → q.Nodup) ∧ (∀ e < nE, ∀ q, m1.get? e = some q → ∃ q0, m.get? e = some q0 ∧ ∀ c ∈ q, c ∈ q0) ∧
        (∀ q, m1.get? a = some q → oldKey ∉ q) := by
      split at h1
      · rename_i hg
        cases h1
        exact ⟨hn, fun e _ q hq => ⟨q, hq, fun _ h => h⟩, fun q hq => by rw [hg] at hq; cases hq⟩
      · rename_i q hg
        rw [bind_eq_ok] at h1
        obtain ⟨q', h3, h1⟩ := h1
        cases h1
        obtain ⟨s1, s2⟩ := swapRemoveKey_spec (hn a ha q hg) h3
        refine ⟨fun e he r hr => ?_, fun e he r hr => ?_, fun r hr => ?_⟩
        · rw [IMap.get?_insert] at hr
          split at hr
          · cases hr; exact s1
          · exact hn e he r hr
        · rw [IMap.get?_insert] at hr
          split at hr
          · rename_i hea
            cases hr
            exact ⟨q, hea ▸ hg, fun c hc => ((s2 c).1 hc).1⟩
          · exact ⟨r, hr, fun _ h => h⟩
        · rw [IMap.get?_insert, if_pos rfl] at hr
          cases hr
          exact fun hc => ((s2 oldKey).1 hc).2 rfl
    obtain ⟨i1, i2, i3⟩ := ih m1 m' key.1 h2 (fun v hv => hl v (by simp [hv]))
    refine ⟨i1, fun e he q hq => ?_, fun e he hea q hq => ?_⟩
    · obtain ⟨q1, g1, g2⟩ := i2 e he q hq
      obtain ⟨q0, g3, g4⟩ := key.2.1 e he q1 g1
      exact ⟨q0, g3, fun c hc => g4 c (g2 c hc)⟩
    · rcases List.mem_cons.1 hea with rfl | hea
      · obtain ⟨q1, g1, g2⟩ := i2 e he q hq
        exact fun hc => key.2.2 q1 g1 (g2 _ hc)
      · exact i3 e he hea q hq

/-- The state between the parts of `decompose`. -/
structure DState.Fronted (nE step : Nat) (st : DState) : Prop where
  now : Fiksi.Fronted nE st.onFrontiers st.frontierElements
  real : ∀ p ∈ st.frontierElements, ∀ v ∈ p.2, v < nE
  old : ∀ e < nE, ∀ l, st.onFrontiers.get? e = some l → ∀ c ∈ l, c < step
  steps : ∀ s ∈ st.steps, Fiksi.Fronted nE s.onFrontiers s.frontierElements ∧ ∀ p ∈ s.frontierElements, ∀ v ∈ p.2, v < nE

/-- The parts the invariant is about agree. -/
structure DState.Same6 (st st' : DState) : Prop where
  front : st'.frontierElements = st.frontierElements
  on : st'.onFrontiers = st.onFrontiers
  steps : st'.steps = st.steps

theorem DState.Same6.fronted {nE step : Nat} {st st' : DState} (h : st.Same6 st') (ho : st.Fronted nE step) : st'.Fronted nE step := by
  obtain ⟨h1, h2, h3⟩ := h
  exact ⟨h1 ▸ h2 ▸ ho.now, h1 ▸ ho.real, h2 ▸ ho.old, h3 ▸ ho.steps⟩

theorem DState.Same6.refl (st : DState) : st.Same6 st := ⟨rfl, rfl, rfl⟩

theorem DState.Same6.trans {a b c : DState} (h : a.Same6 b) (h' : b.Same6 c) : a.Same6 c :=
  ⟨h'.front.trans h.front, h'.on.trans h.on, h'.steps.trans h.steps⟩

theorem scanEdges_same6 {nC : Nat} {sub : Finset Nat} {edges : List Nat} {st : DState} {bs : Bool × DState}
    (h : scanEdges nC sub edges st = .ok bs) : st.Same6 bs.2 := by
  refine foldlM_inv (fun bs : Bool × DState => st.Same6 bs.2) _ _ _ _ (.refl st) (fun bs e _ bs' hb h1 => ?_) h
  rw [bind_eq_ok] at h1
  obtain ⟨edge, -, h1⟩ := h1
  split at h1
  · split at h1 <;> cases h1 <;> exact ⟨hb.1, hb.2, hb.3⟩
  · cases h1; exact hb

theorem scanVertex_same6 {nE nC key : Nat} {sub : Finset Nat} {sc sc' : ScanState} {v : Nat} (h : scanVertex nE nC key sub sc v = .ok sc') : sc.st.Same6 sc'.st := by
  rw [scanVertex, bind_eq_ok] at h
  obtain ⟨edges, -, h⟩ := h
  rw [bind_eq_ok] at h
  obtain ⟨⟨b, st'⟩, h2, h⟩ := h
  have h3 : sc.st.Same6 (noteVertex nE key sc.st v) := by
    unfold noteVertex
    split
    · exact ⟨rfl, rfl, rfl⟩
    · exact .refl _
  have h4 := h3.trans (scanEdges_same6 h2)
  simp only at h
  split at h <;> cases h <;> exact h4

theorem emitStep_fronted {nE step : Nat} {st : DState} (real : List Nat) (h : st.Fronted nE step) : (emitStep real st).Fronted nE step := by
  unfold emitStep
  split
  · exact h
  · refine ⟨h.now, h.real, h.old, fun s hs => ?_⟩
    rcases List.mem_append.1 hs with h1 | h1
    · exact h.steps s h1
    · rw [List.mem_singleton.1 h1]; exact ⟨h.now, h.real⟩

theorem claimFixes_same6 {st : DState} (key : Nat) (core : List Nat) : st.Same6 (claimFixes key core st) := by
  unfold claimFixes
  split
  · exact .refl _
  · exact ⟨rfl, rfl, rfl⟩

theorem mergeCore_fronted {nE step key : Nat} {core : List Nat} {st st' : DState} {v : Nat} (h0 : st.Fronted nE step) (h : mergeCore nE key core st v = .ok st') :
    st'.Fronted nE step := by
  rw [mergeCore, bind_eq_ok] at h
  obtain ⟨st1, h1, h⟩ := h
  have hn1 : st1.Fronted nE step := by
    split at h1
    · rw [bind_eq_ok] at h1
      obtain ⟨el, -, h1⟩ := h1
      rw [bind_eq_ok] at h1
      obtain ⟨av, -, h1⟩ := h1
      cases h1
      exact ⟨h0.1, h0.2, h0.3, h0.4⟩
    · cases h1; exact h0
  rw [bind_eq_ok] at h
  obtain ⟨oldKey, -, h⟩ := h
  rw [bind_eq_ok] at h
  obtain ⟨st2, h2, h⟩ := h
  have hn2 : st2.Fronted nE step := by
    split at h2
    · rw [bind_eq_ok] at h2
      obtain ⟨oldOwned, ho, h2⟩ := h2
      rw [bind_eq_ok] at h2
      obtain ⟨mine, hm, h2⟩ := h2
      rw [bind_eq_ok] at h2
      obtain ⟨fr, hfr, h2⟩ := h2
      rw [bind_eq_ok] at h2
      obtain ⟨of, hof, h2⟩ := h2
      cases h2
      rw [unwrap_eq_ok] at hfr
      have hmem := IMap.mem_of_get? hfr
      obtain ⟨r1, r2, r3⟩ := removeKey_fold (nE := nE) fr st1.onFrontiers of hn1.now.nodup hof (hn1.real _ hmem)
      refine ⟨⟨r1, fun e he l hl c hc => ?_⟩, fun p hp => hn1.real p (IMap.mem_erase hp), fun e he l hl c hc => ?_, hn1.steps⟩
      · obtain ⟨l0, g1, g2⟩ := r2 e he l hl
        obtain ⟨f, f1, f2⟩ := hn1.now.listed e he l0 g1 c (g2 c hc)
        have hne : c ≠ oldKey := by
          rintro rfl
          rw [hfr] at f1
          cases f1
          exact r3 e he f2 l hl hc
        exact ⟨f, by rw [IMap.get?_erase, if_neg hne]; exact f1, f2⟩
      · obtain ⟨l0, g1, g2⟩ := r2 e he l hl
        exact hn1.old e he l0 g1 c (g2 c hc)
    · cases h2; exact ⟨hn1.1, hn1.2, hn1.3, hn1.4⟩
  cases h
  have hsub : ∀ e l, (st2.onFrontiers.erase v).get? e = some l → st2.onFrontiers.get? e = some l := by
    intro e l hl
    rw [IMap.get?_erase] at hl
    split at hl
    · cases hl
    · exact hl
  exact ⟨⟨fun e he l hl => hn2.now.nodup e he l (hsub e l hl), fun e he l hl => hn2.now.listed e he l (hsub e l hl)⟩, hn2.real,
    fun e he l hl => hn2.old e he l (hsub e l hl), hn2.steps⟩

theorem pushEntry_get? (m : IMap Nat (List Nat)) (k v k' : Nat) :
    (m.pushEntry k v).get? k' = if k' = k then some ((m.get? k).getD [] ++ [v]) else m.get? k' := by
  rw [IMap.pushEntry, IMap.get?_insert]

theorem markFrontier_fronted {nE step : Nat} : ∀ (l : List Nat) (st : DState), l.Nodup →
    (Fiksi.Fronted nE st.onFrontiers st.frontierElements) → (∀ p ∈ st.frontierElements, ∀ v ∈ p.2, v < nE) →
    (∀ e < nE, ∀ q, st.onFrontiers.get? e = some q → ∀ c ∈ q, c < step + 1) →
    (∀ e < nE, e ∈ l → ∀ q, st.onFrontiers.get? e = some q → ∀ c ∈ q, c < step) →
    (∀ s ∈ st.steps, Fiksi.Fronted nE s.onFrontiers s.frontierElements ∧ ∀ p ∈ s.frontierElements, ∀ v ∈ p.2, v < nE) →
    (l.foldl (markFrontier nE step) st).Fronted nE (step + 1) := by
  intro l
  induction l with
  | nil => intro st _ h1 h2 h3 _ h5; exact ⟨h1, h2, h3, h5⟩
  | cons v l ih =>
    intro st hn h1 h2 h3 h4 h5
    rw [List.nodup_cons] at hn
    rw [List.foldl_cons]
    have hon : (markFrontier nE step st v).onFrontiers = st.onFrontiers.pushEntry v step := rfl
    have hfr : (markFrontier nE step st v).frontierElements = if v < nE then st.frontierElements.pushEntry step v else st.frontierElements := rfl
    have hmono : ∀ c f, st.frontierElements.get? c = some f → ∃ f', (markFrontier nE step st v).frontierElements.get? c = some f' ∧ ∀ x ∈ f, x ∈ f' := by
      intro c f hf
      rw [hfr]
      split
      · rw [pushEntry_get?]
        split
        · rename_i hc
          subst hc
          exact ⟨_, rfl, fun x hx => by rw [hf]; simp [hx]⟩
        · exact ⟨f, hf, fun _ h => h⟩
      · exact ⟨f, hf, fun _ h => h⟩
    have hold : ∀ e < nE, ∀ q, (st.onFrontiers.pushEntry v step).get? e = some q →
        (e ≠ v ∧ st.onFrontiers.get? e = some q) ∨ (e = v ∧ ∃ q0, (q0 = [] ∨ st.onFrontiers.get? e = some q0) ∧ q = q0 ++ [step]) := by
      intro e he q hq
      rw [pushEntry_get?] at hq
      split at hq
      · rename_i hev
        subst hev
        cases hq
        refine .inr ⟨rfl, _, ?_, rfl⟩
        cases hg : st.onFrontiers.get? e with
        | none => exact .inl rfl
        | some q0 => exact .inr rfl
      · rename_i hev
        exact .inl ⟨hev, hq⟩
    refine ih _ hn.2 ⟨fun e he q hq => ?_, fun e he q hq c hc => ?_⟩ ?_ (fun e he q hq c hc => ?_) (fun e he hel q hq c hc => ?_) h5
    · rcases hold e he q hq with ⟨-, hq⟩ | ⟨rfl, q0, hq0, rfl⟩
      · exact h1.nodup e he q hq
      · refine List.nodup_append.2 ⟨?_, by simp, fun a ha b hb => ?_⟩
        · rcases hq0 with rfl | hq0
          · simp
          · exact h1.nodup e he q0 hq0
        · rw [List.mem_singleton.1 hb]
          rcases hq0 with rfl | hq0
          · simp at ha
          · exact (h4 e he (by simp) q0 hq0 a ha).ne
    · rcases hold e he q hq with ⟨-, hq⟩ | ⟨rfl, q0, hq0, rfl⟩
      · obtain ⟨f, f1, f2⟩ := h1.listed e he q hq c hc
        obtain ⟨f', f3, f4⟩ := hmono c f f1
        exact ⟨f', f3, f4 e f2⟩
      · rcases List.mem_append.1 hc with hc | hc
        · rcases hq0 with rfl | hq0
          · simp at hc
          · obtain ⟨f, f1, f2⟩ := h1.listed e he q0 hq0 c hc
            obtain ⟨f', f3, f4⟩ := hmono c f f1
            exact ⟨f', f3, f4 e f2⟩
        · rw [List.mem_singleton.1 hc, hfr, if_pos he, pushEntry_get?, if_pos rfl]
          exact ⟨_, rfl, by simp⟩
    · rw [hfr]
      split
      · rename_i hv
        intro p hp x hx
        rcases IMap.mem_insert hp with hp | rfl
        · exact h2 p hp x hx
        · rcases List.mem_append.1 hx with hx | hx
          · cases hg : st.frontierElements.get? step with
            | none => rw [hg] at hx; simp at hx
            | some f => rw [hg] at hx; exact h2 _ (IMap.mem_of_get? hg) x hx
          · rw [List.mem_singleton.1 hx]; exact hv
      · exact h2
    · rcases hold e he q hq with ⟨-, hq⟩ | ⟨rfl, q0, hq0, rfl⟩
      · exact h3 e he q hq c hc
      · rcases List.mem_append.1 hc with hc | hc
        · rcases hq0 with rfl | hq0
          · simp at hc
          · exact h3 e he q0 hq0 c hc
        · rw [List.mem_singleton.1 hc]; omega
    · rcases hold e he q hq with ⟨-, hq⟩ | ⟨rfl, q0, hq0, rfl⟩
      · exact h4 e he (by simp [hel]) q hq c hc
      · exact absurd hel hn.1

theorem contractVertex_same6 {sub frontier : Finset Nat} {core v : Nat} {cs cs' : ContractState}
    (h : contractVertex sub frontier core cs v = .ok cs') : cs.st.Same6 cs'.st := by
  rw [contractVertex, bind_eq_ok] at h
  obtain ⟨el, -, h⟩ := h
  rw [bind_eq_ok] at h
  obtain ⟨⟨val, st⟩, h1, h⟩ := h
  have h2 : cs.st.Same6 st := by
    refine foldlM_inv (fun bs : Int × DState => cs.st.Same6 bs.2) _ _ _ _ (.refl _) (fun bs e _ bs' hb h1 => ?_) h1
    simp only at h1
    split at h1
    · cases h1; exact hb
    · rw [bind_eq_ok] at h1
      obtain ⟨edge, -, h1⟩ := h1
      split at h1
      · split at h1
        · cases h1; exact ⟨hb.1, hb.2, hb.3⟩
        · rw [bind_eq_ok] at h1
          obtain ⟨cs, -, h1⟩ := h1
          cases h1; exact ⟨hb.1, hb.2, hb.3⟩
      · cases h1; exact hb
  simp only at h
  split at h
  · rw [bind_eq_ok] at h
    obtain ⟨⟨id, g⟩, -, h⟩ := h
    cases h
    exact ⟨h2.1, h2.2, h2.3⟩
  · cases h; exact h2

theorem contract_same6 {d : Int} {ord : HashOrder} {step key : Nat} {sub frontier : Finset Nat} {core : List Nat} {st st' : DState}
    (h : contract d ord step key sub frontier core st = .ok st') : st.Same6 st' := by
  rw [contract, bind_eq_ok] at h
  obtain ⟨coreId, -, h⟩ := h
  rw [bind_eq_ok] at h
  obtain ⟨cs, h1, h⟩ := h
  have h2 : st.Same6 cs.st :=
    foldlM_inv (fun cs : ContractState => st.Same6 cs.st) _ _ _ _ ⟨rfl, rfl, rfl⟩
      (fun _ _ _ _ hb h3 => hb.trans (contractVertex_same6 h3)) h1
  split at h
  · rw [bind_eq_ok] at h
    obtain ⟨el, -, h⟩ := h
    rw [bind_eq_ok] at h
    obtain ⟨es, -, h⟩ := h
    cases h
    exact ⟨h2.1, h2.2, h2.3⟩
  · cases h; exact ⟨h2.1, h2.2, h2.3⟩

theorem assembleStep_fronted {d : Int} {ord : HashOrder} (hord : ord.Ok) {nE nC step : Nat} {sub : Finset Nat} {st st' : DState} (ho : st.Fronted nE step)
    (h : assembleStep d ord nE nC step sub st = .ok st') : st'.Fronted nE (step + 1) := by
  rw [assembleStep, bind_eq_ok] at h
  obtain ⟨sc, hsc, h⟩ := h
  have h1 : sc.st.Fronted nE step := (foldlM_inv (fun sc : ScanState => st.Same6 sc.st) _ _ _ _ (.refl _)
    (fun _ _ _ _ hs h2 => hs.trans (scanVertex_same6 h2)) hsc : st.Same6 sc.st).fronted ho
  rw [bind_eq_ok] at h
  obtain ⟨st2, h2, h⟩ := h
  have h3 : st2.Fronted nE step := foldlM_inv (DState.Fronted nE step) _ _ _ _ ((claimFixes_same6 step sc.core).fronted (emitStep_fronted sc.realElements h1))
    (fun _ _ _ _ hb h3 => mergeCore_fronted hb h3) h2
  have h4 := markFrontier_fronted (nE := nE) (step := step) (ord [step, 3] sc.frontier) st2 (hord _ _).1 h3.now h3.real
    (fun e he q hq c hc => (h3.old e he q hq c hc).trans (Nat.lt_succ_self _)) (fun e he _ => h3.old e he) h3.steps
  split at h
  · cases h; exact ⟨h4.1, h4.2, h4.3, h4.4⟩
  · exact (contract_same6 h).fronted h4

theorem decomposeLoop_fronted {d : Int} {ord : HashOrder} (hord : ord.Ok) {nE nC : Nat} : ∀ (fuel step : Nat) (st : DState) (steps : List RecombinationStep),
    st.Fronted nE step → decomposeLoop d ord nE nC fuel step st = .ok steps →
    ∀ s ∈ steps, Fiksi.Fronted nE s.onFrontiers s.frontierElements ∧ ∀ p ∈ s.frontierElements, ∀ v ∈ p.2, v < nE := by
  intro fuel
  induction fuel with
  | zero => intro step st steps _ h; simp [decomposeLoop] at h
  | succ fuel ih =>
    intro step st steps ho h
    rw [decomposeLoop, bind_eq_ok] at h
    obtain ⟨r, -, h⟩ := h
    cases r with
    | none =>
      simp only [pure_eq_ok, Except.ok.injEq] at h
      subst h
      intro s hs
      unfold lastStep at hs
      simp only at hs
      split at hs
      · exact ho.steps s hs
      · rcases List.mem_append.1 hs with h3 | h3
        · exact ho.steps s h3
        · rw [List.mem_singleton.1 h3]; exact ⟨ho.now, ho.real⟩
    | some sub =>
      simp only at h
      rw [bind_eq_ok] at h
      obtain ⟨st', h3, h4⟩ := h
      exact ih _ _ _ (assembleStep_fronted hord ho h3) h4

/-- In the steps of a plan, a cluster on whose frontier a real element lies lists that element. -/
theorem decompose_fronted {d : Int} {ord : HashOrder} (hord : ord.Ok) {g : DGraph} {vertices edges : Finset Nat} {steps : List RecombinationStep}
    (h : decompose d ord g vertices edges = .ok steps) : ∀ s ∈ steps, Fronted g.elements.length s.onFrontiers s.frontierElements ∧
      ∀ p ∈ s.frontierElements, ∀ v ∈ p.2, v < g.elements.length := by
  rw [decompose, bind_eq_ok] at h
  obtain ⟨nC, -, h⟩ := h
  rw [bind_eq_ok] at h
  obtain ⟨nE, h1, h⟩ := h
  rw [toU32_eq_ok] at h1
  obtain ⟨-, rfl⟩ := h1
  exact decomposeLoop_fronted hord _ _ _ _ ⟨⟨by simp [IMap.get?], by simp [IMap.get?]⟩, by simp, by simp [IMap.get?], by simp⟩ h

end Fiksi
