import Verif.Model.Permutation
import Verif.Proofs.Compress
import Mathlib.Data.List.Nodup
import Mathlib.Data.List.Perm.Subperm
import Mathlib.Logic.Function.Basic
/-!
# Permutations as swaps
-/
namespace Fiksi

section
variable {α : Type}

/-- Applying swaps. -/
def applySwaps (swaps : List (Nat × Nat)) (a : List α) : R (List α) :=
  swaps.foldlM (fun (s : List α) (swap : Nat × Nat) => swapIdx s swap.1 swap.2) a

theorem applySwaps_append (l l' : List (Nat × Nat)) (a : List α) :
    applySwaps (l ++ l') a = (do let b ← applySwaps l a; applySwaps l' b) := by
  rw [applySwaps, List.foldlM_append]
  rfl

theorem swapIdx_getElem? {a : List α} {i j : Nat} (hi : i < a.length) (hj : j < a.length) (hij : i ≠ j) :
    ∃ b, swapIdx a i j = .ok b ∧ b.length = a.length ∧ b[i]? = a[j]? ∧ b[j]? = a[i]? ∧ ∀ k, k ≠ i → k ≠ j → b[k]? = a[k]? := by
  have h1 : a[i]? = some a[i] := List.getElem?_eq_getElem hi
  have h2 : a[j]? = some a[j] := List.getElem?_eq_getElem hj
  refine ⟨(a.set i a[j]).set j a[i], ?_, by simp, ?_, ?_, ?_⟩
  · rw [swapIdx, idx_of h1, ok_bind, idx_of h2, ok_bind, setIdx_of _ hi, ok_bind, setIdx_of _ (by simpa using hj)]
  · rw [List.getElem?_set_ne (Ne.symm hij), List.getElem?_set_self hi, h2]
  · rw [List.getElem?_set_self (by simpa using hj), h1]
  · intro k hk1 hk2
    rw [List.getElem?_set_ne (Ne.symm hk2), List.getElem?_set_ne (Ne.symm hk1)]

/-- `p` runs through the cycle `c₀, cs`. -/
def Cycles (p : Nat → Nat) (c₀ : Nat) (cs : List Nat) : Prop :=
  p c₀ = cs.headD c₀ ∧ ∀ t, t < cs.length → p (cs.getD t 0) = cs.getD (t + 1) c₀

theorem cycleSwaps_spec (c₀ : Nat) (cs : List Nat) (hn : (c₀ :: cs).Nodup) (p : Nat → Nat) (hp : Cycles p c₀ cs) (a : List α)
    (ha : ∀ x ∈ c₀ :: cs, x < a.length) :
    ∃ b, applySwaps (cycleSwaps (c₀ :: cs)) a = .ok b ∧ b.length = a.length ∧ (∀ x ∈ c₀ :: cs, b[x]? = a[p x]?) ∧
      ∀ x, x ∉ c₀ :: cs → b[x]? = a[x]? := by
  induction cs generalizing p with
  | nil =>
    refine ⟨a, rfl, rfl, ?_, fun _ _ => rfl⟩
    intro x hx
    rw [List.mem_singleton] at hx
    subst hx
    rw [hp.1]
    rfl
  | cons c₁ cs ih =>
    have hn' : (c₀ :: cs).Nodup := by
      simp only [List.nodup_cons, List.mem_cons, not_or] at hn ⊢
      exact ⟨hn.1.2, hn.2.2⟩
    have hc01 : c₀ ≠ c₁ := by
      simp only [List.nodup_cons, List.mem_cons, not_or] at hn
      exact hn.1.1
    have hc1 : c₁ ∉ c₀ :: cs := by
      simp only [List.nodup_cons, List.mem_cons, not_or] at hn ⊢
      exact ⟨Ne.symm hc01, hn.2.1⟩
    obtain ⟨b, h1, h2, h3, h4⟩ := ih hn' (Function.update p c₀ (cs.headD c₀)) (by
      refine ⟨by simp, ?_⟩
      intro t ht
      have hne : cs.getD t 0 ≠ c₀ := by
        rw [List.getD_eq_getElem?_getD, List.getElem?_eq_getElem ht, Option.getD_some]
        intro he
        rw [List.nodup_cons] at hn'
        exact hn'.1 (he ▸ List.getElem_mem ht)
      rw [Function.update_of_ne hne]
      have := hp.2 (t + 1) (by simpa using ht)
      simpa using this) (fun x hx => ha x (by
        rcases List.mem_cons.1 hx with rfl | hx
        · simp
        · simp [hx]))
    obtain ⟨b', g1, g2, g3, g4, g5⟩ := swapIdx_getElem? (a := b) (i := c₀) (j := c₁) (by rw [h2]; exact ha c₀ (by simp))
      (by rw [h2]; exact ha c₁ (by simp)) hc01
    refine ⟨b', ?_, by rw [g2, h2], ?_, ?_⟩
    · have : cycleSwaps (c₀ :: c₁ :: cs) = cycleSwaps (c₀ :: cs) ++ [(c₀, c₁)] := by
        simp [cycleSwaps]
      rw [this, applySwaps_append, h1, ok_bind]
      show (List.foldlM _ b [(c₀, c₁)]) = _
      rw [List.foldlM_cons]
      simp only [g1, ok_bind, List.foldlM_nil, pure_eq_ok]
    · intro x hx
      rcases List.mem_cons.1 hx with rfl | hx'
      · rw [g3, h4 c₁ hc1, hp.1]
        rfl
      · rcases List.mem_cons.1 hx' with rfl | hx''
        · rw [g4, h3 c₀ (by simp), Function.update_self]
          have := hp.2 0 (by simp)
          simp only [List.getD_cons_zero, Nat.zero_add, List.getD_cons_succ] at this
          rw [this]
          cases cs <;> rfl
        · have hx0 : x ≠ c₀ := by
            rintro rfl
            rw [List.nodup_cons] at hn'
            exact hn'.1 hx''
          have hx1 : x ≠ c₁ := by
            rintro rfl
            exact hc1 (List.mem_cons_of_mem _ hx'')
          rw [g5 x hx0 hx1, h3 x (List.mem_cons_of_mem _ hx''), Function.update_of_ne hx0]
    · intro x hx
      simp only [List.mem_cons, not_or] at hx
      rw [g5 x hx.1 hx.2.1, h4 x (by simp [hx.1, hx.2.2])]

end

section
variable {perm : List Nat}

/-- The number of indices not seen. -/
def unseen (seen : List Bool) : Nat := seen.count false

theorem count_set_true {seen : List Bool} {i : Nat} (h : seen[i]? = some false) :
    (seen.set i true).count false + 1 = seen.count false ∧ (seen.set i true).count true = seen.count true + 1 := by
  induction seen generalizing i with
  | nil => simp at h
  | cons b seen ih =>
    cases i with
    | zero =>
      simp only [List.getElem?_cons_zero, Option.some.injEq] at h
      subst h
      simp
    | succ i =>
      simp only [List.getElem?_cons_succ] at h
      have := ih h
      simp only [List.set_cons_succ, List.count_cons]
      omega

/-- The state of the loop that follows a cycle: `stack` is the part of the cycle followed so far, `i` is next. -/
structure Chasing (perm : List Nat) (seen₀ : List Bool) (seen : List Bool) (stack : List Nat) (i : Nat) : Prop where
  len : seen.length = perm.length
  lt : i < perm.length
  nodup : stack.Nodup
  fresh : ∀ x ∈ stack, x < perm.length ∧ seen₀[x]? = some false
  marked : ∀ x, seen[x]? = some true ↔ seen₀[x]? = some true ∨ x ∈ stack
  chain : ∀ t, t + 1 < stack.length → perm[stack.getD t 0]? = stack[t + 1]?
  last : ∀ x, stack.getLast? = some x → perm[x]? = some i
  count : seen.count true = seen₀.count true + stack.length

theorem chase_spec (hb : ∀ x ∈ perm, x < perm.length) {seen₀ : List Bool} (hlen₀ : seen₀.length = perm.length) (fuel : Nat) :
    ∀ i seen stack, Chasing perm seen₀ seen stack i → seen.count false < fuel →
      ∃ seen' stack' i', chase perm fuel i seen stack = .ok (seen', stack') ∧ Chasing perm seen₀ seen' stack' i' ∧ seen'[i']? = some true ∧
        (∃ ext, stack' = stack ++ ext) ∧ seen'[i]? = some true := by
  induction fuel with
  | zero => intro i seen stack _ h; omega
  | succ fuel ih =>
    intro i seen stack h hf
    have hi : seen[i]? = some (seen[i]'(by rw [h.len]; exact h.lt)) := List.getElem?_eq_getElem _
    rw [chase, idx_of hi, ok_bind]
    cases hs : seen[i]'(by rw [h.len]; exact h.lt) with
    | true =>
      rw [hs] at hi
      exact ⟨seen, stack, i, rfl, h, hi, ⟨[], by simp⟩, hi⟩
    | false =>
      rw [hs] at hi
      have hp : perm[i]? = some (perm[i]'h.lt) := List.getElem?_eq_getElem _
      have hil : i < seen.length := by rw [h.len]; exact h.lt
      have hcount := count_set_true hi
      have hnot : ¬ (seen₀[i]? = some true ∨ i ∈ stack) := by
        rw [← h.marked i, hi]
        simp
      rw [not_or] at hnot
      have hseen₀ : seen₀[i]? = some false := by
        have h1 : seen₀[i]? = some (seen₀[i]'(by rw [hlen₀]; exact h.lt)) := List.getElem?_eq_getElem _
        cases hb : seen₀[i]'(by rw [hlen₀]; exact h.lt) with
        | false => rw [h1, hb]
        | true => rw [hb] at h1; exact absurd h1 hnot.1
      have hc : Chasing perm seen₀ (seen.set i true) (stack ++ [i]) (perm[i]'h.lt) := by
        refine ⟨by rw [List.length_set]; exact h.len, hb _ (List.getElem_mem _), ?_, ?_, ?_, ?_, ?_, ?_⟩
        · rw [List.nodup_append]
          refine ⟨h.nodup, by simp, ?_⟩
          rintro x hx y hy rfl
          rw [List.mem_singleton] at hy
          exact hnot.2 (hy ▸ hx)
        · intro x hx
          rcases List.mem_append.1 hx with hx | hx
          · exact h.fresh x hx
          · rw [List.mem_singleton] at hx
            subst hx
            exact ⟨h.lt, hseen₀⟩
        · intro x
          by_cases hxi : i = x
          · subst hxi
            rw [List.getElem?_set_self hil]
            simp
          · rw [List.getElem?_set_ne hxi, h.marked x]
            simp only [List.mem_append, List.mem_singleton]
            constructor
            · rintro (h1 | h1)
              · exact Or.inl h1
              · exact Or.inr (Or.inl h1)
            · rintro (h1 | h1 | h1)
              · exact Or.inl h1
              · exact Or.inr h1
              · exact absurd h1.symm hxi
        · intro t ht
          simp only [List.length_append, List.length_singleton] at ht
          by_cases ht' : t + 1 < stack.length
          · have e1 : (stack ++ [i]).getD t 0 = stack.getD t 0 := by
              rw [List.getD_eq_getElem?_getD, List.getElem?_append_left (by omega), ← List.getD_eq_getElem?_getD]
            rw [e1, List.getElem?_append_left ht']
            exact h.chain t ht'
          · have htl : t + 1 = stack.length := by omega
            have e1 : stack.getLast? = some ((stack ++ [i]).getD t 0) := by
              rw [List.getLast?_eq_getElem?, ← htl, Nat.add_sub_cancel, List.getD_eq_getElem?_getD, List.getElem?_append_left (by omega),
                List.getElem?_eq_getElem (by omega)]
              rfl
            rw [h.last _ e1, htl]
            simp
        · intro x hx
          simp at hx
          subst hx
          exact hp
        · rw [hcount.2, h.count]
          simp
          omega
      obtain ⟨seen', stack', i', h1, h2, h3, ⟨ext, h4⟩, h5⟩ := ih _ _ _ hc (by omega)
      refine ⟨seen', stack', i', ?_, h2, h3, ⟨i :: ext, by rw [h4]; simp⟩, ?_⟩
      · simp only [Bool.false_eq_true, if_false]
        rw [setIdx_of _ hil, ok_bind, idx_of hp, ok_bind]
        exact h1
      · rw [h2.marked i, h4]
        simp

/-- What is true between the cycles. -/
structure Gathered (perm : List Nat) (swaps : List (Nat × Nat)) (seen : List Bool) : Prop where
  len : seen.length = perm.length
  closed : ∀ (x y : Nat), perm[x]? = some y → (seen[x]? = some true ↔ seen[y]? = some true)
  effect : ∀ {α : Type} (a : List α), perm.length ≤ a.length → ∃ b, applySwaps swaps a = .ok b ∧ b.length = a.length ∧
    (∀ (x : Nat), seen[x]? = some true → b[x]? = a[perm.getD x 0]?) ∧ ∀ (x : Nat), ¬ seen[x]? = some true → b[x]? = a[x]?
  few : swaps.length ≤ seen.count true ∧ (0 < seen.count true → swaps.length < seen.count true)

theorem gatherStep_spec (hb : ∀ x ∈ perm, x < perm.length) (hnd : perm.Nodup) {swaps : List (Nat × Nat)} {seen : List Bool}
    (h : Gathered perm swaps seen) {i : Nat} (hi : i < perm.length) :
    ∃ swaps' seen', gatherStep perm (swaps, seen) i = .ok (swaps', seen') ∧ Gathered perm swaps' seen' ∧ seen'[i]? = some true ∧
      ∀ (x : Nat), seen[x]? = some true → seen'[x]? = some true := by
  have hstart : Chasing perm seen seen [] i :=
    ⟨h.len, hi, List.nodup_nil, by simp, by simp, by simp, by simp, by simp⟩
  obtain ⟨seen', stack, i', h1, h2, h3, -, h4⟩ := chase_spec hb h.len (perm.length + 1) i seen [] hstart (by
    have := List.count_le_length (a := false) (l := seen)
    rw [h.len] at this
    omega)
  have hmono : ∀ (x : Nat), seen[x]? = some true → seen'[x]? = some true := fun x hx => (h2.marked x).2 (Or.inl hx)
  refine ⟨swaps ++ cycleSwaps stack, seen', by rw [gatherStep, h1]; rfl, ?_, h4, hmono⟩
  have hinj : ∀ (x y z : Nat), perm[x]? = some z → perm[y]? = some z → x = y := by
    intro x y z hx hy
    obtain ⟨hx1, hx2⟩ := List.getElem?_eq_some_iff.1 hx
    obtain ⟨hy1, hy2⟩ := List.getElem?_eq_some_iff.1 hy
    exact (List.Nodup.getElem_inj_iff hnd).1 (hx2.trans hy2.symm)
  cases stack with
  | nil =>
    have hse : seen' = seen := by
      apply List.ext_getElem
      · rw [h2.len, h.len]
      · intro x hx1 hx2
        have := h2.marked x
        simp only [List.not_mem_nil, or_false] at this
        rw [List.getElem?_eq_getElem hx1, List.getElem?_eq_getElem hx2] at this
        simp only [Option.some.injEq] at this
        exact Bool.eq_iff_iff.2 this
    rw [hse]
    simpa [cycleSwaps] using h
  | cons c₀ cs =>
    -- the walk returned to its start
    have hlast : ∃ z, (c₀ :: cs).getLast? = some z := ⟨_, List.getLast?_eq_some_getLast (by simp)⟩
    obtain ⟨z, hz⟩ := hlast
    have hzi := h2.last z hz
    have hzmem : z ∈ c₀ :: cs := List.mem_of_getLast? hz
    have hi' : i' = c₀ := by
      rcases (h2.marked i').1 h3 with hs | hs
      · have := (h.closed z i' hzi).2 hs
        rw [(h2.fresh z hzmem).2] at this
        simp at this
      · obtain ⟨t, ht, hti⟩ := List.getElem_of_mem hs
        cases t with
        | zero => simpa using hti.symm
        | succ t =>
          exfalso
          have hch := h2.chain t ht
          rw [List.getElem?_eq_getElem ht, hti] at hch
          have he := hinj _ _ _ hch hzi
          rw [List.getD_eq_getElem?_getD, List.getElem?_eq_getElem (by omega), Option.getD_some] at he
          rw [List.getLast?_eq_getElem?, List.getElem?_eq_getElem (by simp)] at hz
          rw [← Option.some.inj hz] at he
          have := (List.Nodup.getElem_inj_iff h2.nodup).1 he
          simp only [List.length_cons] at this ht
          omega
    subst hi'
    have hcyc : Cycles (fun x => perm.getD x 0) i' cs := by
      constructor
      · simp only [List.getD_eq_getElem?_getD]
        cases cs with
        | nil =>
          simp at hz
          rw [hz, hzi]
          simpa using hz
        | cons c₁ cs =>
          have := h2.chain 0 (by simp)
          simp only [List.getD_cons_zero, Nat.zero_add, List.getElem?_cons_succ, List.getElem?_cons_zero] at this
          rw [this]
          rfl
      · intro t ht
        by_cases ht' : t + 1 < cs.length
        · have := h2.chain (t + 1) (by simpa using ht')
          simp only [List.getD_cons_succ, List.getElem?_cons_succ] at this
          simp only
          rw [List.getD_eq_getElem?_getD, this, List.getD_eq_getElem?_getD, List.getElem?_eq_getElem ht']
          rfl
        · have htl : t + 1 = cs.length := by omega
          have hzt : z = cs.getD t 0 := by
            rw [List.getLast?_eq_getElem?, List.length_cons, Nat.add_sub_cancel, ← htl, List.getElem?_cons_succ] at hz
            rw [List.getD_eq_getElem?_getD, hz]
            rfl
          simp only
          rw [← hzt, List.getD_eq_getElem?_getD, hzi, List.getD_eq_getElem?_getD, List.getElem?_eq_none (by omega)]
          rfl
    refine ⟨h2.len, ?_, ?_, ?_⟩
    · intro x y hxy
      rw [h2.marked x, h2.marked y, h.closed x y hxy]
      constructor
      · rintro (hs | hs)
        · exact Or.inl hs
        · right
          obtain ⟨t, ht, rfl⟩ := List.getElem_of_mem hs
          by_cases ht' : t + 1 < (i' :: cs).length
          · have := h2.chain t ht'
            rw [List.getD_eq_getElem?_getD, List.getElem?_eq_getElem ht, Option.getD_some, hxy] at this
            exact List.mem_of_getElem? this.symm
          · rw [List.getLast?_eq_getElem?, show (i' :: cs).length - 1 = t by omega, List.getElem?_eq_getElem ht] at hz
            rw [Option.some.inj hz, hzi] at hxy
            rw [← Option.some.inj hxy]
            simp
      · rintro (hs | hs)
        · exact Or.inl hs
        · right
          obtain ⟨t, ht, rfl⟩ := List.getElem_of_mem hs
          cases t with
          | zero =>
            simp only [List.getElem_cons_zero] at hxy
            rw [hinj _ _ _ hxy hzi]
            exact hzmem
          | succ t =>
            have hch := h2.chain t ht
            rw [List.getElem?_eq_getElem ht] at hch
            rw [hinj _ _ _ hxy hch, List.getD_eq_getElem?_getD, List.getElem?_eq_getElem (by omega), Option.getD_some]
            exact List.getElem_mem _
    · intro α a ha
      obtain ⟨b, e1, e2, e3, e4⟩ := h.effect a ha
      obtain ⟨b', f1, f2, f3, f4⟩ := cycleSwaps_spec i' cs h2.nodup _ hcyc b (by
        intro x hx
        have := (h2.fresh x hx).1
        omega)
      refine ⟨b', by rw [applySwaps_append, e1, ok_bind, f1], by rw [f2, e2], ?_, ?_⟩
      · intro x hx
        rcases (h2.marked x).1 hx with hs | hs
        · rw [f4 x, e3 x hs]
          intro hm
          rw [(h2.fresh x hm).2] at hs
          simp at hs
        · rw [f3 x hs, e4]
          have hxp : perm[x]? = some (perm.getD x 0) := by
            rw [List.getD_eq_getElem?_getD, List.getElem?_eq_getElem (h2.fresh x hs).1]; rfl
          intro hm
          have := (h.closed x _ hxp).2 hm
          rw [(h2.fresh x hs).2] at this
          simp at this
      · intro x hx
        rw [h2.marked x, not_or] at hx
        rw [f4 x hx.2, e4 x hx.1]
    · have hl : (cycleSwaps (i' :: cs)).length = cs.length := by simp [cycleSwaps]
      have := h.few.1
      rw [List.length_append, hl, h2.count]
      simp only [List.length_cons]
      constructor
      · omega
      · intro _; omega

end

end Fiksi
