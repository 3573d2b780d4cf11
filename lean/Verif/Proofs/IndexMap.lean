import Verif.Model.IndexMap
import Mathlib.Data.List.Nodup
/-! # Lemmas about `IMap` and `ascending` -/
namespace Fiksi
namespace IMap
variable {κ α : Type} [DecidableEq κ]

@[simp] theorem get?_nil (k : κ) : get? ([] : IMap κ α) k = none := rfl

theorem get?_cons (p : κ × α) (m : IMap κ α) (k : κ) : get? (p :: m) k = if p.1 = k then some p.2 else get? m k := by
  unfold get?
  by_cases h : p.1 = k
  · simp [h]
  · simp [h]

theorem contains_iff (m : IMap κ α) (k : κ) : contains m k = true ↔ k ∈ keys m := by
  simp [contains, keys]

theorem contains_eq_isSome (m : IMap κ α) (k : κ) : contains m k = (get? m k).isSome := by
  induction m with
  | nil => rfl
  | cons p m ih =>
    rw [get?_cons]
    by_cases h : p.1 = k
    · simp [contains, h]
    · rw [if_neg h, ← ih]
      simp [contains, h]

theorem mem_keys_iff (m : IMap κ α) (k : κ) : k ∈ keys m ↔ ∃ v, get? m k = some v := by
  rw [← contains_iff, contains_eq_isSome, Option.isSome_iff_exists]

theorem get?_eq_none_iff (m : IMap κ α) (k : κ) : get? m k = none ↔ k ∉ keys m := by
  rw [mem_keys_iff]
  cases get? m k <;> simp

theorem get?_append (m n : IMap κ α) (k : κ) : get? (m ++ n) k = (get? m k).or (get? n k) := by
  induction m with
  | nil => simp
  | cons p m ih =>
    rw [List.cons_append, get?_cons, get?_cons, ih]
    by_cases h : p.1 = k <;> simp [h]

theorem get?_map_set (m : IMap κ α) (k k' : κ) (v : α) (hk : k ∈ keys m) :
    get? (m.map (fun p => if p.1 == k then (k, v) else p)) k' = if k' = k then some v else get? m k' := by
  induction m with
  | nil => simp [keys] at hk
  | cons p m ih =>
    simp only [keys, List.map_cons, List.mem_cons] at hk
    rw [List.map_cons, get?_cons, get?_cons]
    by_cases hm : k ∈ keys m
    · rw [ih hm]
      by_cases h1 : p.1 = k
      · by_cases h2 : k' = k
        · simp [h1, h2]
        · have : k ≠ k' := fun h => h2 h.symm
          simp [h1, h2, this]
      · by_cases h2 : k' = k
        · subst h2; simp [h1]
        · simp [h1, h2]
    · have h1 : p.1 = k := by
        rcases hk with hk | hk
        · exact hk.symm
        · exact absurd hk hm
      have hid : m.map (fun p => if p.1 == k then (k, v) else p) = m := by
        conv => rhs; rw [← List.map_id m]
        apply List.map_congr_left
        intro q hq
        have : q.1 ≠ k := fun h => hm (by rw [← h]; exact List.mem_map_of_mem hq)
        simp [this]
      rw [hid]
      by_cases h2 : k' = k
      · simp [h1, h2]
      · have : k ≠ k' := fun h => h2 h.symm
        simp [h1, h2, this]

theorem get?_insert (m : IMap κ α) (k k' : κ) (v : α) :
    get? (insert m k v) k' = if k' = k then some v else get? m k' := by
  unfold insert
  by_cases h : contains m k = true
  · rw [if_pos h, get?_map_set _ _ _ _ ((contains_iff m k).1 h)]
  · rw [if_neg h, get?_append]
    have hn : get? m k = none := by
      rw [get?_eq_none_iff, ← contains_iff]; exact h
    by_cases h2 : k' = k
    · subst h2
      rw [hn]
      simp [get?_cons]
    · have : k ≠ k' := fun h => h2 h.symm
      simp [get?_cons, h2, this]

theorem get?_insert_self (m : IMap κ α) (k : κ) (v : α) : get? (insert m k v) k = some v := by
  rw [get?_insert, if_pos rfl]

theorem get?_insert_ne (m : IMap κ α) {k k' : κ} (v : α) (h : k' ≠ k) : get? (insert m k v) k' = get? m k' := by
  rw [get?_insert, if_neg h]

theorem keys_insert (m : IMap κ α) (k : κ) (v : α) : keys (insert m k v) = if k ∈ keys m then keys m else keys m ++ [k] := by
  unfold insert
  by_cases h : contains m k = true
  · rw [if_pos h, if_pos ((contains_iff m k).1 h)]
    unfold keys
    rw [List.map_map]
    apply List.map_congr_left
    intro p _
    by_cases hp : p.1 = k <;> simp [hp]
  · rw [if_neg h, if_neg (fun h' => h ((contains_iff m k).2 h'))]
    simp [keys]

theorem keys_insert_of_mem (m : IMap κ α) {k : κ} (v : α) (h : k ∈ keys m) : keys (insert m k v) = keys m := by
  rw [keys_insert, if_pos h]

theorem mem_keys_insert (m : IMap κ α) (k k' : κ) (v : α) : k' ∈ keys (insert m k v) ↔ k' = k ∨ k' ∈ keys m := by
  rw [keys_insert]
  by_cases h : k ∈ keys m
  · rw [if_pos h]
    constructor
    · exact Or.inr
    · rintro (rfl | h')
      · exact h
      · exact h'
  · rw [if_neg h]
    simp [or_comm]

theorem nodup_keys_insert (m : IMap κ α) (k : κ) (v : α) (h : (keys m).Nodup) : (keys (insert m k v)).Nodup := by
  rw [keys_insert]
  by_cases hk : k ∈ keys m
  · rw [if_pos hk]; exact h
  · rw [if_neg hk]
    exact List.Nodup.append h (by simp) (by simpa using hk)

omit [DecidableEq κ] in
theorem length_keys (m : IMap κ α) : (keys m).length = m.length := by simp [keys]

theorem mem_of_get? {m : IMap κ α} {k : κ} {v : α} (h : get? m k = some v) : (k, v) ∈ m := by
  unfold get? at h
  obtain ⟨p, hp, rfl⟩ := Option.map_eq_some_iff.1 h
  have h1 := List.find?_some hp
  have h2 := List.mem_of_find?_eq_some hp
  simp only [beq_iff_eq] at h1
  rw [← h1]
  exact h2

theorem get?_of_mem {m : IMap κ α} {k : κ} {v : α} (hn : (keys m).Nodup) (h : (k, v) ∈ m) : get? m k = some v := by
  induction m with
  | nil => simp at h
  | cons p m ih =>
    rw [get?_cons]
    simp only [keys, List.map_cons, List.nodup_cons] at hn
    rcases List.mem_cons.1 h with h | h
    · subst h; simp
    · have : p.1 ≠ k := fun he => hn.1 (by rw [he]; exact List.mem_map_of_mem (f := Prod.fst) h)
      rw [if_neg this]
      exact ih hn.2 h

end IMap

theorem mem_ascending (s : Finset Nat) (i : Nat) : i ∈ ascending s ↔ i ∈ s := by
  simp only [ascending, List.mem_filter, List.mem_range, decide_eq_true_eq]
  constructor
  · exact fun h => h.2
  · intro h
    exact ⟨Nat.lt_succ_of_le (Finset.le_sup (f := id) h), h⟩

theorem ascending_nodup (s : Finset Nat) : (ascending s).Nodup := List.Nodup.filter _ List.nodup_range

theorem ascending_sorted (s : Finset Nat) : (ascending s).Pairwise (· < ·) := by
  exact List.Pairwise.filter _ List.pairwise_lt_range

theorem ascending_toFinset (s : Finset Nat) : (ascending s).toFinset = s := by
  ext i; rw [List.mem_toFinset, mem_ascending]

theorem ascending_length (s : Finset Nat) : (ascending s).length = s.card := by
  rw [← List.toFinset_card_of_nodup (ascending_nodup s), ascending_toFinset]

end Fiksi
