import Verif.Proofs.GraphOk
import Verif.Proofs.Reaches
import Verif.Spec.Components
/-!
# The incremental connected components of `graph.rs`
-/
namespace Fiksi

open Spec (Constrained Linked NeverJoins Op)

/-- Component number `k` (from 0), empty when there is none. -/
def compAt (comps : List Component) (k : Nat) : Component := (comps[k]?).getD Component.empty

/-- The recorded component of element `i` (from 1). -/
def compOf (ec : List (Option Nat)) (i : Nat) : Option Nat := (ec[i]?).getD none

theorem compOf_eq_some {ec : List (Option Nat)} {i k : Nat} : compOf ec i = some k ↔ ec[i]? = some (some k) := by
  rw [compOf]
  cases h : ec[i]? with
  | none => simp
  | some o => simp

theorem compAt_set_self {comps : List Component} {k : Nat} (h : k < comps.length) (c : Component) : compAt (comps.set k c) k = c := by
  simp [compAt, h]

theorem compAt_set_ne {comps : List Component} {k j : Nat} (h : k ≠ j) (c : Component) :
    compAt (comps.set k c) j = compAt comps j := by
  simp [compAt, h]

/-- What the merging loop computes. -/
structure MergeResult (t : Nat) (es : List Nat) (st st' : MergeState) : Prop where
  len : st'.components.length = st.components.length
  ec : ∀ i, compOf st'.elementComponent i = if i ∈ es then some t else compOf st.elementComponent i
  elements : ∀ x, x ∈ st'.target.elements ↔ x ∈ st.target.elements ∨
    (∃ e ∈ es, ∃ k, compOf st.elementComponent e = some k ∧ x ∈ (compAt st.components (k - 1)).elements) ∨
    (x ∈ es ∧ compOf st.elementComponent x = none)
  constraints : ∀ x, x ∈ st'.target.constraints ↔ x ∈ st.target.constraints ∨
    (∃ e ∈ es, ∃ k, compOf st.elementComponent e = some k ∧ x ∈ (compAt st.components (k - 1)).constraints)
  emptied : ∀ e ∈ es, ∀ k, compOf st.elementComponent e = some k → compAt st'.components (k - 1) = Component.empty
  kept : ∀ k, (∀ e ∈ es, ∀ k', compOf st.elementComponent e = some k' → k' - 1 ≠ k) → compAt st'.components k = compAt st.components k

theorem mergeLoop_result {n m t : Nat} (ht : 1 ≤ t ∧ t ≤ m) : ∀ (es : List Nat) (st st' : MergeState), MergeShape st n m →
    (∀ e ∈ es, e < n) → compAt st.components (t - 1) = Component.empty → es.foldlM (mergeStep t) st = .ok st' →
    MergeResult t es st st' := by
  intro es
  induction es with
  | nil =>
    intro st st' _ _ _ h
    cases h
    exact ⟨rfl, by simp, by simp, by simp, by simp, fun _ _ => rfl⟩
  | cons e es ih =>
    intro st st' hsh hlt ht0 h
    rw [List.foldlM_cons, bind_eq_ok] at h
    obtain ⟨st1, h1, h2⟩ := h
    have hen : e < st.elementComponent.length := by rw [hsh.elementComponent]; exact hlt e (List.mem_cons_self ..)
    obtain ⟨o, ho⟩ := getElem?_exists hen
    have hco : compOf st.elementComponent e = o := by simp [compOf, ho]
    have hset : ∀ i, compOf (st.elementComponent.set e (some t)) i = if i = e then some t else compOf st.elementComponent i := by
      intro i
      by_cases hi : i = e
      · subst hi; simp [compOf, hen]
      · simp [compOf, hi, Ne.symm hi]
    obtain ⟨st1', h1', hsh1⟩ := mergeStep_ok (t := t) hsh ht e (hlt e (List.mem_cons_self ..))
    rw [h1, Except.ok.injEq] at h1'
    subst h1'
    unfold mergeStep at h1
    rw [idx_of ho, ok_bind] at h1
    cases o with
    | none =>
      simp only [setIdx_of _ hen, ok_bind, pure_eq_ok, Except.ok.injEq] at h1
      subst h1
      have r := ih _ st' hsh1 (fun a ha => hlt a (List.mem_cons_of_mem _ ha)) ht0 h2
      obtain ⟨r0, r1, r2, r3, r4, r5⟩ := r
      simp only [hset] at r0 r1 r2 r3 r4 r5
      refine ⟨r0, ?_, ?_, ?_, ?_, ?_⟩
      · intro i
        rw [r1]
        by_cases hi : i = e
        · simp [hi]
        · simp [hi]
      · intro x
        rw [r2, Finset.mem_insert]
        constructor
        · rintro ((rfl | h) | ⟨a, ha, k, hk, hx⟩ | ⟨hx, hn⟩)
          · exact .inr (.inr ⟨List.mem_cons_self .., hco⟩)
          · exact .inl h
          · split at hk
            · cases hk
              rw [ht0] at hx
              simp [Component.empty] at hx
            · exact .inr (.inl ⟨a, List.mem_cons_of_mem _ ha, k, hk, hx⟩)
          · split at hn
            · cases hn
            · exact .inr (.inr ⟨List.mem_cons_of_mem _ hx, hn⟩)
        · rintro (h | ⟨a, ha, k, hk, hx⟩ | ⟨hx, hn⟩)
          · exact .inl (.inr h)
          · by_cases hae : a = e
            · subst hae; rw [hco] at hk; cases hk
            · exact .inr (.inl ⟨a, (List.mem_cons.1 ha).resolve_left hae, k, by rwa [if_neg hae], hx⟩)
          · by_cases hxe : x = e
            · exact .inl (.inl hxe)
            · exact .inr (.inr ⟨(List.mem_cons.1 hx).resolve_left hxe, by rwa [if_neg hxe]⟩)
      · intro x
        rw [r3]
        constructor
        · rintro (h | ⟨a, ha, k, hk, hx⟩)
          · exact .inl h
          · split at hk
            · cases hk
              rw [ht0] at hx
              simp [Component.empty] at hx
            · exact .inr ⟨a, List.mem_cons_of_mem _ ha, k, hk, hx⟩
        · rintro (h | ⟨a, ha, k, hk, hx⟩)
          · exact .inl h
          · by_cases hae : a = e
            · subst hae; rw [hco] at hk; cases hk
            · exact .inr ⟨a, (List.mem_cons.1 ha).resolve_left hae, k, by rwa [if_neg hae], hx⟩
      · intro a ha k hk
        by_cases hae : a = e
        · subst hae; rw [hco] at hk; cases hk
        · exact r4 a ((List.mem_cons.1 ha).resolve_left hae) k (by rwa [if_neg hae])
      · intro k hk
        by_cases hkt : t - 1 = k
        · subst hkt
          by_cases hin : ∃ a ∈ es, ∃ k', (if a = e then some t else compOf st.elementComponent a) = some k' ∧ k' - 1 = t - 1
          · obtain ⟨a, ha, k', hk', hkk⟩ := hin
            rw [ht0, ← hkk]
            exact r4 a ha k' hk'
          · apply r5
            intro a ha k' hk' hkk
            exact hin ⟨a, ha, k', hk', hkk⟩
        · apply r5
          intro a ha k' hk'
          split at hk'
          · cases hk'; exact hkt
          · exact hk a (List.mem_cons_of_mem _ ha) k' hk'
    | some k0 =>
      have hk0 := hsh.valid e k0 ho
      have hk0l : k0 - 1 < st.components.length := by rw [hsh.components]; omega
      obtain ⟨c0, hc0⟩ := getElem?_exists hk0l
      have hca : compAt st.components (k0 - 1) = c0 := by simp [compAt, hc0]
      simp only [setIdx_of _ hen, ok_bind, pure_eq_ok, Except.ok.injEq, idx_of hc0] at h1
      subst h1
      have ht1 : compAt (st.components.set (k0 - 1) Component.empty) (t - 1) = Component.empty := by
        by_cases hkt : k0 - 1 = t - 1
        · rw [← hkt, compAt_set_self hk0l]
        · rw [compAt_set_ne hkt, ht0]
      have hat : ∀ j, compAt (st.components.set (k0 - 1) Component.empty) j = if j = k0 - 1 then Component.empty else compAt st.components j := by
        intro j
        split
        · rename_i hj; subst hj; rw [compAt_set_self hk0l]
        · rename_i hj; rw [compAt_set_ne (Ne.symm hj)]
      have r := ih _ st' hsh1 (fun a ha => hlt a (List.mem_cons_of_mem _ ha)) ht1 h2
      obtain ⟨r0, r1, r2, r3, r4, r5⟩ := r
      simp only [hset] at r0 r1 r2 r3 r4 r5
      simp only [hat] at r2 r3 r4 r5
      refine ⟨by simpa using r0, ?_, ?_, ?_, ?_, ?_⟩
      · intro i
        rw [r1]
        by_cases hi : i = e
        · simp [hi]
        · simp [hi]
      · intro x
        rw [r2, Finset.mem_union]
        constructor
        · rintro ((h | h) | ⟨a, ha, k, hk, hx⟩ | ⟨hx, hn⟩)
          · exact .inl h
          · exact .inr (.inl ⟨e, List.mem_cons_self .., k0, hco, by rwa [hca]⟩)
          · split at hx
            · simp [Component.empty] at hx
            · split at hk
              · cases hk
                rw [ht0] at hx
                simp [Component.empty] at hx
              · exact .inr (.inl ⟨a, List.mem_cons_of_mem _ ha, k, hk, hx⟩)
          · split at hn
            · cases hn
            · exact .inr (.inr ⟨List.mem_cons_of_mem _ hx, hn⟩)
        · rintro (h | ⟨a, ha, k, hk, hx⟩ | ⟨hx, hn⟩)
          · exact .inl (.inl h)
          · by_cases hkk : k - 1 = k0 - 1
            · rw [hkk, hca] at hx; exact .inl (.inr hx)
            · by_cases hae : a = e
              · subst hae; rw [hco] at hk; cases hk; exact absurd rfl hkk
              · exact .inr (.inl ⟨a, (List.mem_cons.1 ha).resolve_left hae, k, by rwa [if_neg hae], by rwa [if_neg hkk]⟩)
          · by_cases hxe : x = e
            · subst hxe; rw [hco] at hn; cases hn
            · exact .inr (.inr ⟨(List.mem_cons.1 hx).resolve_left hxe, by rwa [if_neg hxe]⟩)
      · intro x
        rw [r3, Finset.mem_union]
        constructor
        · rintro ((h | h) | ⟨a, ha, k, hk, hx⟩)
          · exact .inl h
          · exact .inr ⟨e, List.mem_cons_self .., k0, hco, by rwa [hca]⟩
          · split at hx
            · simp [Component.empty] at hx
            · split at hk
              · cases hk
                rw [ht0] at hx
                simp [Component.empty] at hx
              · exact .inr ⟨a, List.mem_cons_of_mem _ ha, k, hk, hx⟩
        · rintro (h | ⟨a, ha, k, hk, hx⟩)
          · exact .inl (.inl h)
          · by_cases hkk : k - 1 = k0 - 1
            · rw [hkk, hca] at hx; exact .inl (.inr hx)
            · by_cases hae : a = e
              · subst hae; rw [hco] at hk; cases hk; exact absurd rfl hkk
              · exact .inr ⟨a, (List.mem_cons.1 ha).resolve_left hae, k, by rwa [if_neg hae], by rwa [if_neg hkk]⟩
      · intro a ha k hk
        by_cases hin : ∃ b ∈ es, ∃ k', (if b = e then some t else compOf st.elementComponent b) = some k' ∧ k' - 1 = k - 1
        · obtain ⟨b, hb, k', hk', hkk⟩ := hin
          rw [← hkk]
          exact r4 b hb k' hk'
        · rw [r5 (k - 1) (fun b hb k' hk' hkk => hin ⟨b, hb, k', hk', hkk⟩)]
          split
          · rfl
          · rename_i hne
            by_cases hae : a = e
            · subst hae; rw [hco] at hk; cases hk; exact absurd rfl hne
            · exact absurd ⟨a, (List.mem_cons.1 ha).resolve_left hae, k, by rwa [if_neg hae], rfl⟩ hin
      · intro k hk
        have hne : k ≠ k0 - 1 := fun h => hk e (List.mem_cons_self ..) k0 hco h.symm
        by_cases hin : ∃ b ∈ es, ∃ k', (if b = e then some t else compOf st.elementComponent b) = some k' ∧ k' - 1 = k
        · obtain ⟨b, hb, k', hk', hkk⟩ := hin
          split at hk'
          · cases hk'
            rw [← hkk, ht0]
            exact r4 b hb t (by rw [if_pos (by assumption)])
          · exact absurd hkk (hk b (List.mem_cons_of_mem _ hb) k' hk')
        · rw [r5 k (fun b hb k' hk' hkk => hin ⟨b, hb, k', hk', hkk⟩), if_neg hne]

theorem pick_result {g : Graph} {n m : Nat} (h : GraphShape g n m) (all : List Nat) : ∀ (es : List Nat) (st st' : Option Nat × Nat),
    (∀ e ∈ es, e < n) → (∀ e ∈ es, e ∈ all) → (st.1 = none → st.2 = 0) →
    (∀ t, st.1 = some t → ∃ e ∈ all, compOf g.elementComponent e = some t ∧ (compAt g.components (t - 1)).elements ≠ ∅) →
    es.foldlM g.pickLargest st = .ok st' →
    (st'.1 = none → st'.2 = 0) ∧ st.2 ≤ st'.2 ∧
    (∀ t, st'.1 = some t → ∃ e ∈ all, compOf g.elementComponent e = some t ∧ (compAt g.components (t - 1)).elements ≠ ∅) ∧
    ∀ e ∈ es, ∀ k, compOf g.elementComponent e = some k → (compAt g.components (k - 1)).elements.card ≤ st'.2 := by
  intro es
  induction es with
  | nil =>
    intro st st' _ _ h1 h2 hf
    cases hf
    exact ⟨h1, le_refl _, h2, by simp⟩
  | cons e es ih =>
    intro st st' hlt hall h1 h2 hf
    rw [List.foldlM_cons, bind_eq_ok] at hf
    obtain ⟨st1, hf1, hf2⟩ := hf
    have hen : e < g.elementComponent.length := by rw [h.elementComponent]; exact hlt e (List.mem_cons_self ..)
    obtain ⟨o, ho⟩ := getElem?_exists hen
    have hco : compOf g.elementComponent e = o := by simp [compOf, ho]
    unfold Graph.pickLargest at hf1
    rw [idx_of ho, ok_bind] at hf1
    have hlt' : ∀ a ∈ es, a < n := fun a ha => hlt a (List.mem_cons_of_mem _ ha)
    have hall' : ∀ a ∈ es, a ∈ all := fun a ha => hall a (List.mem_cons_of_mem _ ha)
    cases o with
    | none =>
      cases hf1
      obtain ⟨q1, q2, q3, q4⟩ := ih _ st' hlt' hall' h1 h2 hf2
      refine ⟨q1, q2, q3, ?_⟩
      intro a ha k hk
      rcases List.mem_cons.1 ha with rfl | ha
      · rw [hco] at hk; cases hk
      · exact q4 a ha k hk
    | some k0 =>
      have hk0 := h.valid e k0 ho
      obtain ⟨c0, hc0⟩ := getElem?_exists (l := g.components) (i := k0 - 1) (by omega)
      have hca : compAt g.components (k0 - 1) = c0 := by simp [compAt, hc0]
      simp only [idx_of hc0, ok_bind] at hf1
      by_cases hgt : c0.elements.card > st.2
      · rw [if_pos hgt] at hf1
        cases hf1
        obtain ⟨q1, q2, q3, q4⟩ := ih _ st' hlt' hall' (by simp) (by
          intro t ht
          cases ht
          refine ⟨e, hall e (List.mem_cons_self ..), hco, ?_⟩
          rw [hca]
          intro h0
          rw [h0] at hgt
          simp at hgt) hf2
        refine ⟨q1, by simp only at q2; omega, q3, ?_⟩
        intro a ha k hk
        rcases List.mem_cons.1 ha with rfl | ha
        · rw [hco] at hk; cases hk; rw [hca]; exact q2
        · exact q4 a ha k hk
      · rw [if_neg hgt] at hf1
        cases hf1
        obtain ⟨q1, q2, q3, q4⟩ := ih _ st' hlt' hall' h1 h2 hf2
        refine ⟨q1, q2, q3, ?_⟩
        intro a ha k hk
        rcases List.mem_cons.1 ha with rfl | ha
        · rw [hco] at hk; cases hk; rw [hca]; omega
        · exact q4 a ha k hk

/-- The effect of `merge_connected_components` with target `t`. -/
structure GraphMerge (g : Graph) (c : Nat) (es : List Nat) (g' : Graph) (t : Nat) : Prop where
  pos : 1 ≤ t
  pick : (t = g.components.length + 1 ∧
      ∀ e ∈ es, ∀ k, compOf g.elementComponent e = some k → (compAt g.components (k - 1)).elements = ∅) ∨
    (∃ e ∈ es, compOf g.elementComponent e = some t ∧ (compAt g.components (t - 1)).elements ≠ ∅)
  ec : ∀ i, compOf g'.elementComponent i = if i ∈ es then some t else compOf g.elementComponent i
  elements : ∀ x, x ∈ (compAt g'.components (t - 1)).elements ↔ x ∈ (compAt g.components (t - 1)).elements ∨
    (∃ e ∈ es, ∃ k, compOf g.elementComponent e = some k ∧ x ∈ (compAt g.components (k - 1)).elements) ∨
    (x ∈ es ∧ compOf g.elementComponent x = none)
  constraints : ∀ x, x ∈ (compAt g'.components (t - 1)).constraints ↔ x = c ∨ x ∈ (compAt g.components (t - 1)).constraints ∨
    (∃ e ∈ es, ∃ k, compOf g.elementComponent e = some k ∧ x ∈ (compAt g.components (k - 1)).constraints)
  emptied : ∀ e ∈ es, ∀ k, compOf g.elementComponent e = some k → k - 1 ≠ t - 1 → compAt g'.components (k - 1) = Component.empty
  kept : ∀ k, k ≠ t - 1 → (∀ e ∈ es, ∀ k', compOf g.elementComponent e = some k' → k' - 1 ≠ k) →
    compAt g'.components k = compAt g.components k

theorem merge_result {g g' : Graph} {n m : Nat} (h : GraphShape g n m) {c : Nat} {es : List Nat} (hes : ∀ e ∈ es, e < n)
    (hg : g.mergeConnectedComponents c es = .ok g') : ∃ t, GraphMerge g c es g' t := by
  unfold Graph.mergeConnectedComponents at hg
  rw [bind_eq_ok] at hg
  obtain ⟨picked, hp, hg⟩ := hg
  obtain ⟨p1, -, p3, p4⟩ := pick_result h es es (none, 0) picked hes (fun _ h => h) (fun _ => rfl) (by simp) hp
  rw [bind_eq_ok] at hg
  obtain ⟨⟨t, comps⟩, ht, hg⟩ := hg
  have hcomps : 1 ≤ t ∧ t ≤ comps.length ∧ (∀ k, compAt comps k = compAt g.components k) ∧
      g.components.length ≤ comps.length ∧
      ((t = g.components.length + 1 ∧
        ∀ e ∈ es, ∀ k, compOf g.elementComponent e = some k → (compAt g.components (k - 1)).elements = ∅) ∨
      (∃ e ∈ es, compOf g.elementComponent e = some t ∧ (compAt g.components (t - 1)).elements ≠ ∅)) := by
    cases hp1 : picked.1 with
    | some t' =>
      rw [hp1] at ht
      cases ht
      obtain ⟨e, he, h1, h2⟩ := p3 t hp1
      have := h.valid e t (compOf_eq_some.1 h1)
      exact ⟨this.1, this.2, fun _ => rfl, le_refl _, .inr ⟨e, he, h1, h2⟩⟩
    | none =>
      rw [hp1] at ht
      simp only [bind_eq_ok] at ht
      obtain ⟨t', ht', ht⟩ := ht
      cases ht
      have := (toU32_eq_ok.1 ht').2
      rw [List.length_append, List.length_singleton] at this
      refine ⟨by omega, by simp; omega, ?_, by simp, .inl ⟨by omega, ?_⟩⟩
      · intro k
        simp only [compAt, List.getElem?_append]
        split
        · rfl
        · rw [List.getElem?_eq_none (l := g.components) (by omega)]
          cases k - g.components.length <;> simp [Component.empty]
      · intro e he k hk
        have := p4 e he k hk
        rw [p1 hp1] at this
        exact Finset.card_eq_zero.1 (by omega)
  obtain ⟨c1, c2, c3, c4, c5⟩ := hcomps
  simp only [bind_eq_ok] at hg
  obtain ⟨target, h1, st, h2, comps', h3, hg⟩ := hg
  cases hg
  have htl : t - 1 < comps.length := by omega
  have htarget : target = compAt g.components (t - 1) := by
    rw [← c3, compAt, idx_eq_ok.1 h1]; rfl
  have r := mergeLoop_result (n := n) (m := comps.length) ⟨c1, c2⟩ es _ st
    ⟨h.elementComponent, by simp, fun i k hk => by have := h.valid i k hk; omega⟩ hes (compAt_set_self htl _) h2
  obtain ⟨r0, r1, r2, r3, r4, r5⟩ := r
  have hset : ∀ k, compAt (comps.set (t - 1) Component.empty) k = if k = t - 1 then Component.empty else compAt g.components k := by
    intro k
    split
    · rename_i hk; rw [hk, compAt_set_self htl]
    · rename_i hk; rw [compAt_set_ne (Ne.symm hk), c3]
  have hl : t - 1 < st.components.length := by rw [r0]; simpa using htl
  rw [setIdx_of _ hl, Except.ok.injEq] at h3
  subst h3
  simp only [hset] at r2 r3 r5
  rw [htarget] at r2 r3
  refine ⟨t, c1, c5, r1, ?_, ?_, ?_, ?_⟩
  · intro x
    simp only [compAt_set_self hl]
    rw [r2]
    constructor
    · rintro (h | ⟨e, he, k, hk, hx⟩ | h)
      · exact .inl h
      · split at hx
        · simp [Component.empty] at hx
        · exact .inr (.inl ⟨e, he, k, hk, hx⟩)
      · exact .inr (.inr h)
    · rintro (h | ⟨e, he, k, hk, hx⟩ | h)
      · exact .inl h
      · by_cases hkt : k - 1 = t - 1
        · exact .inl (by rwa [hkt] at hx)
        · exact .inr (.inl ⟨e, he, k, hk, by rwa [if_neg hkt]⟩)
      · exact .inr (.inr h)
  · intro x
    simp only [compAt_set_self hl, Finset.mem_insert]
    rw [r3]
    constructor
    · rintro (h | h | ⟨e, he, k, hk, hx⟩)
      · exact .inl h
      · exact .inr (.inl h)
      · split at hx
        · simp [Component.empty] at hx
        · exact .inr (.inr ⟨e, he, k, hk, hx⟩)
    · rintro (h | h | ⟨e, he, k, hk, hx⟩)
      · exact .inl h
      · exact .inr (.inl h)
      · by_cases hkt : k - 1 = t - 1
        · exact .inr (.inl (by rwa [hkt] at hx))
        · exact .inr (.inr ⟨e, he, k, hk, by rwa [if_neg hkt]⟩)
  · intro e he k hk hkt
    simp only [compAt_set_ne (Ne.symm hkt)]
    exact r4 e he k hk
  · intro k hkt hk
    simp only [compAt_set_ne (Ne.symm hkt)]
    rw [r5 k hk, if_neg hkt]

/-- The incident lists of the constraints of a graph. -/
def Graph.incidents (g : Graph) : List (List Nat) := g.constraints.map GConstraint.incidentElements

/-- Elements and constraint arguments of component `k`. -/
def Graph.Member (g : Graph) (k i : Nat) : Prop :=
  i ∈ (compAt g.components k).elements ∨
    ∃ (c : Nat) (inc : List Nat), c ∈ (compAt g.components k).constraints ∧ g.incidents[c]? = some inc ∧ i ∈ inc

/-- The invariant of the components. -/
structure CompInv (g : Graph) : Prop where
  consLt : ∀ k, ∀ c ∈ (compAt g.components k).constraints, c < g.constraints.length
  consCover : ∀ c < g.constraints.length, ∃ k, c ∈ (compAt g.components k).constraints
  consUnique : ∀ k k', ∀ c ∈ (compAt g.components k).constraints, c ∈ (compAt g.components k').constraints → k = k'
  elemConstrained : ∀ k, ∀ i ∈ (compAt g.components k).elements, Constrained g.incidents i
  elemCover : ∀ i, Constrained g.incidents i → ∃ k, i ∈ (compAt g.components k).elements
  elemUnique : ∀ k k', ∀ i ∈ (compAt g.components k).elements, i ∈ (compAt g.components k').elements → k = k'
  indexed : ∀ i, Constrained g.incidents i ↔ compOf g.elementComponent i ≠ none
  linked : ∀ k i j, g.Member k i → g.Member k j → Linked g.incidents i j
  indexLinked : ∀ i k j, compOf g.elementComponent i = some k → g.Member (k - 1) j → Linked g.incidents i j

theorem CompInv.new : CompInv Graph.new := by
  constructor <;> simp [Graph.new, compAt, compOf, Component.empty, Constrained, Graph.incidents, Graph.Member]

theorem CompInv.congr {g g' : Graph} (h : CompInv g) (h1 : g'.components = g.components) (h2 : g'.incidents = g.incidents)
    (h3 : ∀ i, compOf g'.elementComponent i = compOf g.elementComponent i) (h4 : g'.constraints.length = g.constraints.length) :
    CompInv g' := by
  have hm : ∀ k i, g'.Member k i ↔ g.Member k i := by intro k i; rw [Graph.Member, Graph.Member, h1, h2]
  obtain ⟨a1, a2, a3, a4, a5, a6, a7, a8, a9⟩ := h
  constructor
  · rw [h1, h4]; exact a1
  · rw [h1, h4]; exact a2
  · rw [h1]; exact a3
  · rw [h1, h2]; exact a4
  · rw [h1, h2]; exact a5
  · rw [h1]; exact a6
  · intro i; rw [h2, h3]; exact a7 i
  · intro k i j; rw [hm, hm, h2]; exact a8 k i j
  · intro i k j; rw [h3, hm, h2]; exact a9 i k j

theorem CompInv.merge {g g' : Graph} {es : List Nat} {t n m : Nat} (h : CompInv g) (hsh : GraphShape g n m)
    (hm : GraphMerge g g.constraints.length es g' t)
    (hc : g'.incidents = g.incidents ++ [es]) (hlen : g'.constraints.length = g.constraints.length + 1) : CompInv g' := by
  have hnew : es ∈ g'.incidents := by rw [hc]; simp
  have hmono : ∀ {i j}, Linked g.incidents i j → Linked g'.incidents i j := fun hl =>
    hl.mono (fun c hcm => by rw [hc]; exact List.mem_append_left _ hcm)
  have hes : ∀ {i j}, i ∈ es → j ∈ es → Linked g'.incidents i j := fun hi hj => Linked.of_mem hnew hi hj
  have hconstr : ∀ i, Constrained g'.incidents i ↔ Constrained g.incidents i ∨ i ∈ es := by
    intro i
    rw [hc]
    constructor
    · rintro ⟨c, hcm, hi⟩
      rcases List.mem_append.1 hcm with h1 | h1
      · exact .inl ⟨c, h1, hi⟩
      · rw [List.mem_singleton] at h1; exact .inr (h1 ▸ hi)
    · rintro (⟨c, hcm, hi⟩ | hi)
      · exact ⟨c, List.mem_append_left _ hcm, hi⟩
      · exact ⟨es, by simp, hi⟩
  have hinc : g.incidents.length = g.constraints.length := by simp [Graph.incidents]
  -- A slot other than the target is empty or unchanged.
  have hother : ∀ k, k ≠ t - 1 → compAt g'.components k = Component.empty ∨
      (compAt g'.components k = compAt g.components k ∧ ∀ e ∈ es, ∀ k', compOf g.elementComponent e = some k' → k' - 1 ≠ k) := by
    intro k hk
    by_cases hin : ∃ e ∈ es, ∃ k', compOf g.elementComponent e = some k' ∧ k' - 1 = k
    · obtain ⟨e, he, k', h1, rfl⟩ := hin
      exact .inl (hm.emptied e he k' h1 hk)
    · have h2 : ∀ e ∈ es, ∀ k', compOf g.elementComponent e = some k' → k' - 1 ≠ k := fun e he k' h1 h2 => hin ⟨e, he, k', h1, h2⟩
      exact .inr ⟨hm.kept k hk h2, h2⟩
  -- Old members stay members in the old numbering of constraints.
  have hmember : ∀ k i, g.Member k i ↔ i ∈ (compAt g.components k).elements ∨
      ∃ (c : Nat) (inc : List Nat), c ∈ (compAt g.components k).constraints ∧ g'.incidents[c]? = some inc ∧ i ∈ inc := by
    intro k i
    rw [Graph.Member]
    constructor
    · rintro (h1 | ⟨c, inc, h1, h2, h3⟩)
      · exact .inl h1
      · exact .inr ⟨c, inc, h1, by rw [hc, List.getElem?_append_left (by rw [hinc]; exact h.consLt k c h1)]; exact h2, h3⟩
    · rintro (h1 | ⟨c, inc, h1, h2, h3⟩)
      · exact .inl h1
      · exact .inr ⟨c, inc, h1, by rwa [hc, List.getElem?_append_left (by rw [hinc]; exact h.consLt k c h1)] at h2, h3⟩
  have hother_member : ∀ k i, k ≠ t - 1 → g'.Member k i → g.Member k i := by
    intro k i hk hi
    rcases hother k hk with h1 | ⟨h1, -⟩
    · rw [Graph.Member, h1] at hi
      simp [Component.empty] at hi
    · rw [hmember, ← h1]; exact hi
  -- Members of the target are linked to all elements of the constraint.
  have hold_t : ∀ e ∈ es, ∀ j, g.Member (t - 1) j → Linked g'.incidents e j := by
    intro e he j hj
    rcases hm.pick with ⟨h1, -⟩ | ⟨e0, he0, h1, -⟩
    · exfalso
      have h2 : compAt g.components (t - 1) = Component.empty := by
        rw [compAt, List.getElem?_eq_none (by omega)]; rfl
      rw [Graph.Member, h2] at hj
      simp [Component.empty] at hj
    · exact (hes he he0).trans (hmono (h.indexLinked e0 t j h1 hj))
  have htarget : ∀ e ∈ es, ∀ j, g'.Member (t - 1) j → Linked g'.incidents e j := by
    intro e he j hj
    rcases hj with hj | ⟨c, inc, h1, h2, h3⟩
    · rw [hm.elements] at hj
      rcases hj with hj | ⟨e', he', k, hk, hj⟩ | ⟨hj, -⟩
      · exact hold_t e he j (.inl hj)
      · exact (hes he he').trans (hmono (h.indexLinked e' k j hk (.inl hj)))
      · exact hes he hj
    · rw [hm.constraints] at h1
      rcases h1 with rfl | h1 | ⟨e', he', k, hk, h1⟩
      · rw [hc, ← hinc, List.getElem?_append_right (le_refl _)] at h2
        simp only [Nat.sub_self, List.getElem?_cons_zero, Option.some.injEq] at h2
        subst h2
        exact hes he h3
      · exact hold_t e he j ((hmember _ _).2 (.inr ⟨c, inc, h1, h2, h3⟩))
      · exact (hes he he').trans (hmono (h.indexLinked e' k j hk ((hmember _ _).2 (.inr ⟨c, inc, h1, h2, h3⟩))))
  constructor
  · -- consLt
    intro k c hck
    rw [hlen]
    by_cases hk : k = t - 1
    · subst hk
      rw [hm.constraints] at hck
      rcases hck with rfl | h1 | ⟨e, -, k, -, h1⟩
      · omega
      · have := h.consLt _ c h1; omega
      · have := h.consLt _ c h1; omega
    · rcases hother k hk with h1 | ⟨h1, -⟩
      · rw [h1] at hck; simp [Component.empty] at hck
      · rw [h1] at hck; have := h.consLt _ c hck; omega
  · -- consCover
    intro c hlt
    rw [hlen] at hlt
    by_cases hcl : c = g.constraints.length
    · exact ⟨t - 1, (hm.constraints c).2 (.inl hcl)⟩
    · obtain ⟨k, hk⟩ := h.consCover c (by omega)
      by_cases hkt : k = t - 1
      · exact ⟨t - 1, (hm.constraints c).2 (.inr (.inl (hkt ▸ hk)))⟩
      · by_cases hin : ∃ e ∈ es, ∃ k', compOf g.elementComponent e = some k' ∧ k' - 1 = k
        · obtain ⟨e, he, k', h1, rfl⟩ := hin
          exact ⟨t - 1, (hm.constraints c).2 (.inr (.inr ⟨e, he, k', h1, hk⟩))⟩
        · exact ⟨k, by rw [hm.kept k hkt (fun e he k' h1 h2 => hin ⟨e, he, k', h1, h2⟩)]; exact hk⟩
  · -- consUnique
    have key : ∀ k, k ≠ t - 1 → ∀ c, c ∈ (compAt g'.components k).constraints → c ∈ (compAt g'.components (t - 1)).constraints → False := by
      intro k hk c h1 h2
      rcases hother k hk with h3 | ⟨h3, h4⟩
      · rw [h3] at h1; simp [Component.empty] at h1
      · rw [h3] at h1
        rw [hm.constraints] at h2
        rcases h2 with rfl | h2 | ⟨e, he, k', hk', h2⟩
        · have := h.consLt k _ h1; omega
        · exact hk (h.consUnique _ _ c h1 h2)
        · exact h4 e he k' hk' (h.consUnique _ _ c h2 h1)
    intro k k' c h1 h2
    by_cases hk : k = t - 1
    · by_cases hk' : k' = t - 1
      · rw [hk, hk']
      · exact (key k' hk' c h2 (hk ▸ h1)).elim
    · by_cases hk' : k' = t - 1
      · exact (key k hk c h1 (hk' ▸ h2)).elim
      · rcases hother k hk with h3 | ⟨h3, -⟩
        · rw [h3] at h1; simp [Component.empty] at h1
        · rcases hother k' hk' with h4 | ⟨h4, -⟩
          · rw [h4] at h2; simp [Component.empty] at h2
          · rw [h3] at h1; rw [h4] at h2
            exact h.consUnique _ _ c h1 h2
  · -- elemConstrained
    intro k i hi
    rw [hconstr]
    by_cases hk : k = t - 1
    · subst hk
      rw [hm.elements] at hi
      rcases hi with h1 | ⟨e, -, k, -, h1⟩ | ⟨h1, -⟩
      · exact .inl (h.elemConstrained _ i h1)
      · exact .inl (h.elemConstrained _ i h1)
      · exact .inr h1
    · rcases hother k hk with h1 | ⟨h1, -⟩
      · rw [h1] at hi; simp [Component.empty] at hi
      · rw [h1] at hi; exact .inl (h.elemConstrained _ i hi)
  · -- elemCover
    intro i hi
    by_cases hold : Constrained g.incidents i
    · obtain ⟨k, hk⟩ := h.elemCover i hold
      by_cases hkt : k = t - 1
      · exact ⟨t - 1, (hm.elements i).2 (.inl (hkt ▸ hk))⟩
      · by_cases hin : ∃ e ∈ es, ∃ k', compOf g.elementComponent e = some k' ∧ k' - 1 = k
        · obtain ⟨e, he, k', h1, rfl⟩ := hin
          exact ⟨t - 1, (hm.elements i).2 (.inr (.inl ⟨e, he, k', h1, hk⟩))⟩
        · exact ⟨k, by rw [hm.kept k hkt (fun e he k' h1 h2 => hin ⟨e, he, k', h1, h2⟩)]; exact hk⟩
    · have h1 : compOf g.elementComponent i = none := by
        by_contra h2; exact hold ((h.indexed i).2 h2)
      exact ⟨t - 1, (hm.elements i).2 (.inr (.inr ⟨((hconstr i).1 hi).resolve_left hold, h1⟩))⟩
  · -- elemUnique
    have key : ∀ k, k ≠ t - 1 → ∀ c, c ∈ (compAt g'.components k).elements → c ∈ (compAt g'.components (t - 1)).elements → False := by
      intro k hk c h1 h2
      rcases hother k hk with h3 | ⟨h3, h4⟩
      · rw [h3] at h1; simp [Component.empty] at h1
      · rw [h3] at h1
        rw [hm.elements] at h2
        rcases h2 with h2 | ⟨e, he, k', hk', h2⟩ | ⟨-, h2⟩
        · exact hk (h.elemUnique _ _ c h1 h2)
        · exact h4 e he k' hk' (h.elemUnique _ _ c h2 h1)
        · exact (h.indexed c).1 (h.elemConstrained k c h1) h2
    intro k k' c h1 h2
    by_cases hk : k = t - 1
    · by_cases hk' : k' = t - 1
      · rw [hk, hk']
      · exact (key k' hk' c h2 (hk ▸ h1)).elim
    · by_cases hk' : k' = t - 1
      · exact (key k hk c h1 (hk' ▸ h2)).elim
      · rcases hother k hk with h3 | ⟨h3, -⟩
        · rw [h3] at h1; simp [Component.empty] at h1
        · rcases hother k' hk' with h4 | ⟨h4, -⟩
          · rw [h4] at h2; simp [Component.empty] at h2
          · rw [h3] at h1; rw [h4] at h2
            exact h.elemUnique _ _ c h1 h2
  · -- indexed
    intro i
    rw [hconstr, hm.ec]
    split
    · simp [*]
    · rename_i hi
      rw [h.indexed]
      simp [hi]
  · -- linked
    intro k i j hi hj
    by_cases hk : k = t - 1
    · subst hk
      by_cases hne : ∃ e, e ∈ es
      · obtain ⟨e, he⟩ := hne
        exact (htarget e he i hi).symm.trans (htarget e he j hj)
      · -- no arguments: the target is fresh and only contains the new constraint
        exfalso
        have hem : ∀ e, e ∉ es := fun e he => hne ⟨e, he⟩
        rcases hm.pick with ⟨h1, -⟩ | ⟨e0, he0, -⟩
        · have h2 : compAt g.components (t - 1) = Component.empty := by
            rw [compAt, List.getElem?_eq_none (by omega)]; rfl
          rcases hi with hi | ⟨c, inc, h3, h4, h5⟩
          · rw [hm.elements, h2] at hi
            simp [Component.empty, hem] at hi
          · rw [hm.constraints, h2] at h3
            simp only [Component.empty, Finset.notMem_empty, false_or, hem, false_and, exists_const, or_false] at h3
            subst h3
            rw [hc, ← hinc, List.getElem?_append_right (le_refl _)] at h4
            simp only [Nat.sub_self, List.getElem?_cons_zero, Option.some.injEq] at h4
            subst h4
            exact hem i h5
        · exact hem e0 he0
    · exact hmono (h.linked k i j (hother_member k i hk hi) (hother_member k j hk hj))
  · -- indexLinked
    intro i k j hik hj
    rw [hm.ec] at hik
    split at hik
    · rename_i hi
      cases hik
      exact htarget i hi j hj
    · by_cases hk : k - 1 = t - 1
      · rcases hm.pick with ⟨h1, -⟩ | ⟨e0, he0, h1, h2⟩
        · exfalso
          have := hsh.valid i k (compOf_eq_some.1 hik)
          omega
        · obtain ⟨x, hx⟩ := Finset.nonempty_iff_ne_empty.2 h2
          rw [hk] at hj
          have h3 := hmono (h.indexLinked i k x hik (by rw [hk]; exact .inl hx))
          have h4 := hmono (h.indexLinked e0 t x h1 (.inl hx))
          exact h3.trans (h4.symm.trans (htarget e0 he0 j hj))
      · exact hmono (h.indexLinked i k j hik (hother_member _ _ hk hj))

/-! ## Completeness when no constraint joins separate parts -/

/-- Recorded indices are right and components contain the arguments of their constraints. -/
structure CompFull (g : Graph) : Prop where
  index : ∀ i k, compOf g.elementComponent i = some k → i ∈ (compAt g.components (k - 1)).elements
  contains : ∀ (k c : Nat) (inc : List Nat), c ∈ (compAt g.components k).constraints → g.incidents[c]? = some inc →
    ∀ i ∈ inc, i ∈ (compAt g.components k).elements

theorem CompFull.new : CompFull Graph.new := by
  constructor <;> simp [Graph.new, compAt, compOf, Component.empty, Graph.incidents]

theorem CompFull.linked {g : Graph} (h : CompFull g) (hi : CompInv g) {k i j : Nat} (hik : i ∈ (compAt g.components k).elements)
    (hl : Linked g.incidents i j) : j ∈ (compAt g.components k).elements := by
  induction hl with
  | refl => exact hik
  | tail _ h2 ih =>
    obtain ⟨inc, hinc, h3, h4⟩ := h2
    obtain ⟨c, hc⟩ := List.mem_iff_getElem?.1 hinc
    have hlt : c < g.constraints.length := by
      have := lt_of_getElem? hc
      simpa [Graph.incidents] using this
    obtain ⟨k', hk'⟩ := hi.consCover c hlt
    have h5 := h.contains k' c inc hk' hc _ h3
    have := hi.elemUnique _ _ _ ih h5
    subst this
    exact h.contains _ c inc hk' hc _ h4

theorem CompFull.merge {g g' : Graph} {es : List Nat} {t n m : Nat} (hf : CompFull g) (h : CompInv g) (hsh : GraphShape g n m)
    (hm : GraphMerge g g.constraints.length es g' t) (hc : g'.incidents = g.incidents ++ [es])
    (hj : ∀ i ∈ es, ∀ j ∈ es, Constrained g.incidents i → Constrained g.incidents j → Linked g.incidents i j) : CompFull g' := by
  have hinc : g.incidents.length = g.constraints.length := by simp [Graph.incidents]
  have hsame : ∀ e ∈ es, ∀ k, compOf g.elementComponent e = some k → k - 1 = t - 1 := by
    intro e he k hk
    have h1 := hf.index e k hk
    rcases hm.pick with ⟨-, h2⟩ | ⟨e0, he0, h2, -⟩
    · rw [h2 e he k hk] at h1
      simp at h1
    · have h3 := hf.index e0 t h2
      have h4 := hf.linked h h3 (hj e0 he0 e he ((h.indexed e0).2 (by rw [h2]; simp)) ((h.indexed e).2 (by rw [hk]; simp)))
      exact h.elemUnique _ _ e h1 h4
  have hes : ∀ i ∈ es, i ∈ (compAt g'.components (t - 1)).elements := by
    intro i hi
    rw [hm.elements]
    cases ho : compOf g.elementComponent i with
    | none => exact .inr (.inr ⟨hi, rfl⟩)
    | some k => exact .inr (.inl ⟨i, hi, k, ho, hf.index i k ho⟩)
  have hkept : ∀ k, k ≠ t - 1 → compAt g'.components k = compAt g.components k := by
    intro k hk
    exact hm.kept k hk (fun e he k' h1 h2 => hk (h2 ▸ hsame e he k' h1))
  constructor
  · intro i k hik
    rw [hm.ec] at hik
    split at hik
    · rename_i hi
      cases hik
      exact hes i hi
    · have h1 := hf.index i k hik
      by_cases hk : k - 1 = t - 1
      · rw [hk, hm.elements]; rw [hk] at h1; exact .inl h1
      · rw [hkept _ hk]; exact h1
  · intro k c inc hck hci i hi
    have hold : ∀ k, c ∈ (compAt g.components k).constraints → i ∈ (compAt g.components k).elements := by
      intro k hk
      have hlt := h.consLt k c hk
      rw [hc, List.getElem?_append_left (by omega)] at hci
      exact hf.contains k c inc hk hci i hi
    by_cases hk : k = t - 1
    · subst hk
      rw [hm.constraints] at hck
      rcases hck with rfl | h1 | ⟨e, he, k, hk, h1⟩
      · rw [hc, ← hinc, List.getElem?_append_right (le_refl _)] at hci
        simp only [Nat.sub_self, List.getElem?_cons_zero, Option.some.injEq] at hci
        subst hci
        exact hes i hi
      · rw [hm.elements]; exact .inl (hold _ h1)
      · rw [hm.elements]; exact .inr (.inl ⟨e, he, k, hk, hold _ h1⟩)
    · rw [hkept k hk] at hck ⊢
      exact hold k hck

/-! ## API calls change the graph by adding elements and constraints -/

variable {F : Type}

theorem pick_lt {g : Graph} : ∀ (es : List Nat) (st st' : Option Nat × Nat), es.foldlM g.pickLargest st = .ok st' →
    ∀ e ∈ es, e < g.elementComponent.length := by
  intro es
  induction es with
  | nil => simp
  | cons a es ih =>
    intro st st' h e he
    rw [List.foldlM_cons, bind_eq_ok] at h
    obtain ⟨st1, h1, h2⟩ := h
    rcases List.mem_cons.1 he with rfl | he
    · unfold Graph.pickLargest at h1
      rw [bind_eq_ok] at h1
      obtain ⟨o, h3, -⟩ := h1
      exact lt_of_getElem? (idx_eq_ok.1 h3)
    · exact ih st1 st' h2 e he

theorem addConstraint_parts {g g' : Graph} {v x : Nat} {es : List Nat} (h : g.addConstraint v es = .ok (x, g')) :
    ∃ g1, g.mergeConnectedComponents g.constraints.length es = .ok g1 ∧ g'.components = g1.components ∧
      g'.elementComponent = g1.elementComponent ∧ g'.constraints = g.constraints ++ [⟨v, es⟩] ∧
      ∀ e ∈ es, e < g.elementComponent.length := by
  unfold Graph.addConstraint at h
  simp only [bind_eq_ok] at h
  obtain ⟨c, h1, g1, h2, g2, h3, h4⟩ := h
  have hc := (toU32_eq_ok.1 h1).2
  subst hc
  cases h4
  unfold Graph.pushIncidentConstraint at h3
  rw [bind_eq_ok] at h3
  obtain ⟨es', -, h3⟩ := h3
  cases h3
  have h5 := h2
  unfold Graph.mergeConnectedComponents at h5
  simp only [bind_eq_ok] at h5
  obtain ⟨pk, h6, _, -, _, -, _, -, _, -, h7⟩ := h5
  cases h7
  exact ⟨_, h2, rfl, rfl, rfl, pick_lt _ _ _ h6⟩

/-- A graph reachable by adding elements and constraints. -/
def GraphStep (g g' : Graph) : Prop :=
  g' = g ∨ (∃ d x, g.addElement d = .ok (x, g')) ∨ ∃ v es x, g.addConstraint v es = .ok (x, g')

theorem System.addElement_graph {s s' : System F} {vs : List F} {enc : Nat → EncodedElement} {h : Handle}
    (hs : s.addElement vs enc = .ok (h, s')) : GraphStep s.graph s'.graph := by
  unfold System.addElement at hs
  simp only [bind_eq_ok] at hs
  obtain ⟨_, -, _, -, ⟨x, g⟩, hg, hs⟩ := hs
  cases hs
  exact .inr (.inl ⟨_, _, hg⟩)

theorem System.addConstraint_graph {s s' : System F} {tag : ConstraintTag} {es : List (Expr F)} {h : Handle}
    (hs : s.addConstraint tag es = .ok (h, s')) : s'.graph = s.graph := by
  unfold System.addConstraint at hs
  simp only [bind_eq_ok] at hs
  obtain ⟨id, -, _, -, s1, h1, hs⟩ := hs
  cases hs
  refine foldlM_inv (fun s1 : System F => s1.graph = s.graph) _ es _ s' ?_ ?_ h1
  · rfl
  · intro s1 e s2 _ h1 h2
    unfold System.addExpression at h2
    simp only [bind_eq_ok] at h2
    obtain ⟨_, -, h2⟩ := h2
    cases h2
    exact h1

theorem System.createConstraint_graph {s s' : System F} {tag : ConstraintTag} {v : Nat} {inc : List Nat} {es : List (Expr F)}
    {h : Handle} (hs : s.createConstraint tag v inc es = .ok (h, s')) : GraphStep s.graph s'.graph := by
  unfold System.createConstraint at hs
  simp only [bind_eq_ok] at hs
  obtain ⟨⟨x, g⟩, hg, hs⟩ := hs
  rw [System.addConstraint_graph hs]
  exact .inr (.inr ⟨_, _, _, hg⟩)

theorem Client.createCon_graph {c : Client F} {con : Spec.Con F} {h : Handle} {s' : System F}
    (hs : c.createCon con = .ok (h, s')) : GraphStep c.sys.graph s'.graph := by
  cases con <;> simp only [Client.createCon, bind_eq_ok] at hs
  · obtain ⟨_, -, _, -, hs⟩ := hs
    simp only [System.createPointPointCoincidence, bind_eq_ok] at hs
    obtain ⟨_, -, _, -, hs⟩ := hs
    exact System.createConstraint_graph hs
  · obtain ⟨_, -, _, -, hs⟩ := hs
    simp only [System.createPointPointDistance, bind_eq_ok] at hs
    obtain ⟨_, -, _, -, hs⟩ := hs
    exact System.createConstraint_graph hs
  · obtain ⟨_, -, _, -, _, -, hs⟩ := hs
    simp only [System.createPointPointPointAngle, bind_eq_ok] at hs
    obtain ⟨_, -, _, -, _, -, hs⟩ := hs
    exact System.createConstraint_graph hs
  · obtain ⟨_, -, _, -, hs⟩ := hs
    simp only [System.createPointLineIncidence, bind_eq_ok] at hs
    obtain ⟨_, -, _, -, _, -, _, -, hs⟩ := hs
    exact System.createConstraint_graph hs
  · obtain ⟨_, -, _, -, hs⟩ := hs
    simp only [System.createPointLineDistance, bind_eq_ok] at hs
    obtain ⟨_, -, _, -, _, -, _, -, hs⟩ := hs
    exact System.createConstraint_graph hs
  · obtain ⟨_, -, _, -, hs⟩ := hs
    simp only [System.createPointCircleIncidence, bind_eq_ok] at hs
    obtain ⟨_, -, _, -, _, -, _, -, hs⟩ := hs
    exact System.createConstraint_graph hs
  · obtain ⟨_, -, _, -, _, -, _, -, hs⟩ := hs
    simp only [System.createSegmentSegmentLengthEquality, bind_eq_ok] at hs
    obtain ⟨_, -, _, -, _, -, _, -, _, -, _, -, _, -, _, -, hs⟩ := hs
    exact System.createConstraint_graph hs
  · obtain ⟨_, -, _, -, hs⟩ := hs
    simp only [System.createLineLineAngle, bind_eq_ok] at hs
    obtain ⟨_, -, _, -, _, -, _, -, _, -, _, -, hs⟩ := hs
    exact System.createConstraint_graph hs
  · obtain ⟨_, -, _, -, hs⟩ := hs
    simp only [System.createLineLineParallelism, bind_eq_ok] at hs
    obtain ⟨_, -, _, -, _, -, _, -, _, -, _, -, hs⟩ := hs
    exact System.createConstraint_graph hs
  · obtain ⟨_, -, _, -, hs⟩ := hs
    simp only [System.createLineLinePerpendicularity, bind_eq_ok] at hs
    obtain ⟨_, -, _, -, _, -, _, -, _, -, _, -, hs⟩ := hs
    exact System.createConstraint_graph hs
  · obtain ⟨_, -, _, -, hs⟩ := hs
    simp only [System.createLineCircleTangency, bind_eq_ok] at hs
    obtain ⟨_, -, _, -, _, -, _, -, _, -, _, -, hs⟩ := hs
    exact System.createConstraint_graph hs

theorem Client.exec_graph {c c' : Client F} {op : Op F} (h : c.exec op = .ok c') : GraphStep c.sys.graph c'.sys.graph := by
  cases op <;> simp only [Client.exec, bind_eq_ok] at h
  · obtain ⟨⟨hd, s⟩, h1, h⟩ := h
    cases h
    exact System.addElement_graph h1
  · obtain ⟨⟨hd, s⟩, h1, h⟩ := h
    cases h
    exact System.addElement_graph h1
  · obtain ⟨_, -, _, -, ⟨hd, s⟩, h1, h⟩ := h
    cases h
    simp only [System.createLine, bind_eq_ok] at h1
    obtain ⟨_, -, _, -, h1⟩ := h1
    exact System.addElement_graph h1
  · obtain ⟨_, -, _, -, ⟨hd, s⟩, h1, h⟩ := h
    cases h
    simp only [System.createCircle, bind_eq_ok] at h1
    obtain ⟨_, -, _, -, h1⟩ := h1
    exact System.addElement_graph h1
  · obtain ⟨⟨hd, s⟩, h1, h⟩ := h
    cases h
    exact Client.createCon_graph h1
  · obtain ⟨_, -, s, h1, h⟩ := h
    cases h
    simp only [System.fix, bind_eq_ok] at h1
    obtain ⟨_, -, _, -, h1⟩ := h1
    cases h1
    exact .inl rfl
  · obtain ⟨_, -, s, h1, h⟩ := h
    cases h
    simp only [System.unfix, bind_eq_ok] at h1
    obtain ⟨_, -, _, -, h1⟩ := h1
    cases h1
    exact .inl rfl
  · obtain ⟨_, -, s, h1, h⟩ := h
    cases h
    simp only [System.updatePoint, bind_eq_ok] at h1
    obtain ⟨_, -, _, -, _, -, h1⟩ := h1
    cases h1
    exact .inl rfl
  · obtain ⟨_, -, s, h1, h⟩ := h
    cases h
    simp only [System.updateLength, bind_eq_ok] at h1
    obtain ⟨_, -, _, -, h1⟩ := h1
    cases h1
    exact .inl rfl
  · obtain ⟨_, -, s, h1, h⟩ := h
    cases h
    simp only [System.updateParameter, bind_eq_ok] at h1
    obtain ⟨_, -, _, -, h1⟩ := h1
    split at h1
    all_goals first
      | (rw [bind_eq_ok] at h1; obtain ⟨_, -, h1⟩ := h1; cases h1; exact .inl rfl)
      | cases h1
  · cases h
    exact .inl rfl

theorem CompInv.step {g g' : Graph} {n m : Nat} (h : CompInv g) (hsh : GraphShape g n m) (hs : GraphStep g g') :
    CompInv g' ∧ (NeverJoins g'.incidents → NeverJoins g.incidents ∧ (CompFull g → CompFull g')) := by
  rcases hs with rfl | ⟨d, x, hs⟩ | ⟨v, es, x, hs⟩
  · exact ⟨h, fun h => ⟨h, id⟩⟩
  · unfold Graph.addElement at hs
    rw [bind_eq_ok] at hs
    obtain ⟨_, -, hs⟩ := hs
    cases hs
    have hec : ∀ i, compOf (g.elementComponent ++ [none]) i = compOf g.elementComponent i := by
      intro i
      simp only [compOf, List.getElem?_append]
      split
      · rfl
      · rw [List.getElem?_eq_none (l := g.elementComponent) (by omega)]
        cases i - g.elementComponent.length <;> simp
    refine ⟨h.congr rfl rfl hec rfl, fun hn => ⟨hn, fun hf => ⟨?_, hf.contains⟩⟩⟩
    intro i k hik
    rw [hec] at hik
    exact hf.index i k hik
  · obtain ⟨g1, h1, h2, h3, h4, h5⟩ := addConstraint_parts hs
    obtain ⟨t, ht⟩ := merge_result hsh (by rw [hsh.elementComponent] at h5; exact h5) h1
    have ht' : GraphMerge g g.constraints.length es g' t := by
      obtain ⟨a1, a2, a3, a4, a5, a6, a7⟩ := ht
      constructor
      · exact a1
      · exact a2
      · rw [h3]; exact a3
      · rw [h2]; exact a4
      · rw [h2]; exact a5
      · rw [h2]; exact a6
      · rw [h2]; exact a7
    have hinc : g'.incidents = g.incidents ++ [es] := by simp [Graph.incidents, h4]
    refine ⟨h.merge hsh ht' hinc (by simp [h4]), fun hn => ?_⟩
    have htake : ∀ k ≤ g.incidents.length, g'.incidents.take k = g.incidents.take k := by
      intro k hk
      rw [hinc, List.take_append_of_le_length hk]
    refine ⟨?_, fun hf => hf.merge h hsh ht' hinc ?_⟩
    · intro k c hc
      have hlt := lt_of_getElem? hc
      have := hn k c (by rw [hinc, List.getElem?_append_left hlt]; exact hc)
      rwa [htake k (by omega)] at this
    · have := hn g.incidents.length es (by rw [hinc, List.getElem?_append_right (le_refl _)]; simp)
      rwa [htake _ (le_refl _), List.take_length] at this

/-- The invariant holds in every reached state. -/
theorem Reaches.comp {counter : Nat} : ∀ {ops : List (Op F)} {c : Client F}, Reaches counter ops c →
    CompInv c.sys.graph ∧ (NeverJoins c.sys.graph.incidents → CompFull c.sys.graph) := by
  intro ops
  induction ops using List.reverseRecOn with
  | nil =>
    intro c h
    cases h.run
    exact ⟨CompInv.new, fun _ => CompFull.new⟩
  | append_singleton ops op ih =>
    intro c h
    obtain ⟨h1, h2, h3⟩ := h
    rw [client_run_append] at h3
    obtain ⟨c1, h4, h5⟩ := h3
    have hr : Reaches counter ops c1 := ⟨by simp at h1; omega, ((legalRun_append _ _ _).1 h2).1, h4⟩
    obtain ⟨i1, i2⟩ := ih hr
    rw [Client.run, List.foldlM_cons, bind_eq_ok] at h5
    obtain ⟨c2, h6, h7⟩ := h5
    cases h7
    obtain ⟨j1, j2⟩ := i1.step hr.crel.rel.graph (Client.exec_graph h6)
    exact ⟨j1, fun hn => (j2 hn).2 (i2 (j2 hn).1)⟩

end Fiksi
