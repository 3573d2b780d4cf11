import Verif.Proofs.Permutation
/-!
# Permuting in place (C35)
-/
namespace Fiksi

/-- C35: for a permutation of `0..n`, building the sequence does not panic, gives fewer than `n` swaps, and applying it to any slice of
at least that length puts `a[p[i]]` at every `i < n` and leaves the rest alone. -/
theorem C35_gather (p : List Nat) (hp : p.Perm (List.range p.length)) :
    ∃ s, PermutationSequence.buildForGather p = .ok s ∧ (0 < p.length → s.swapSequence.length < p.length) ∧
      ∀ {α : Type} (a : List α), p.length ≤ a.length → ∃ b, s.permuteSlice a = .ok b ∧ b.length = a.length ∧
        (∀ (i k : Nat), p[i]? = some k → b[i]? = a[k]?) ∧ ∀ (i : Nat), p.length ≤ i → b[i]? = a[i]? := by
  have hb : ∀ x ∈ p, x < p.length := fun x hx => List.mem_range.1 (hp.mem_iff.1 hx)
  have hnd : p.Nodup := hp.nodup_iff.2 List.nodup_range
  obtain ⟨⟨swaps, seen⟩, h1, h2, h3⟩ := foldlM_prefix (fun (pre : List Nat) (st : List (Nat × Nat) × List Bool) =>
      Gathered p st.1 st.2 ∧ ∀ x ∈ pre, st.2[x]? = some true) (gatherStep p) p ([], List.replicate p.length false)
      ⟨⟨by simp, by simp [List.getElem?_replicate], by
        intro α a _
        exact ⟨a, rfl, rfl, by simp [List.getElem?_replicate], fun _ _ => rfl⟩, by simp [List.count_replicate]⟩, by simp⟩ (by
    rintro pre i post ⟨swaps, seen⟩ hl ⟨e1, e2⟩
    obtain ⟨swaps', seen', f1, f2, f3, f4⟩ := gatherStep_spec hb hnd e1 (i := i) (hb i (by rw [hl]; simp))
    refine ⟨(swaps', seen'), f1, f2, ?_⟩
    intro x hx
    rcases List.mem_append.1 hx with hx | hx
    · exact f4 x (e2 x hx)
    · rw [List.mem_singleton] at hx
      subst hx
      exact f3)
  simp only at h2 h3
  have hall : ∀ (x : Nat), x < p.length → seen[x]? = some true := fun x hx => h3 x (hp.mem_iff.2 (List.mem_range.2 hx))
  have hcount : seen.count true ≤ p.length := by
    rw [← h2.len]
    exact List.count_le_length
  refine ⟨⟨swaps, p.length⟩, by rw [PermutationSequence.buildForGather, h1]; rfl, ?_, ?_⟩
  · intro hpos
    have : 0 < seen.count true := List.count_pos_iff.2 (List.mem_of_getElem? (hall 0 hpos))
    exact lt_of_lt_of_le (h2.few.2 this) hcount
  · intro α a ha
    obtain ⟨b, e1, e2, e3, e4⟩ := h2.effect a ha
    refine ⟨b, ?_, e2, ?_, ?_⟩
    · rw [PermutationSequence.permuteSlice, if_neg (by simpa using ha)]
      exact e1
    · intro i k hik
      have hi := (List.getElem?_eq_some_iff.1 hik).1
      rw [e3 i (hall i hi), List.getD_eq_getElem?_getD, hik]
      rfl
    · intro i hi
      apply e4
      rw [List.getElem?_eq_none (by rw [h2.len]; exact hi)]
      simp

/-- C35: a slice that is too short is rejected. -/
theorem C35_short_slice (s : PermutationSequence) {α : Type} (a : List α) (h : a.length < s.indicesLen) :
    s.permuteSlice a = .error .assertion := by
  rw [PermutationSequence.permuteSlice, if_pos h]

/-- The hypothesis of C35 is met by a permutation with cycles of length one, two and three. -/
theorem C35_case : [1, 2, 0, 3, 5, 4].Perm (List.range 6) ∧
    (do let s ← PermutationSequence.buildForGather [1, 2, 0, 3, 5, 4]; s.permuteSlice [10, 11, 12, 13, 14, 15, 16]) =
      .ok [11, 12, 10, 13, 15, 14, 16] := by decide +kernel

end Fiksi
