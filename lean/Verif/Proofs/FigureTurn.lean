import Verif.Proofs.ConTurn
/-!
# The variables of a turned and renumbered figure
-/
namespace Fiksi
open Spec

theorem off_cons_succ (x : Elem ℝ) (es : List (Elem ℝ)) (i : Nat) : off (x :: es) (i + 1) = (elemValues x).length + off es i := by
  simp [off]

/-- Every variable belongs to an element. -/
theorem exists_place (es : List (Elem ℝ)) {v : Nat} (hv : v < (es.flatMap elemValues).length) : ∃ i e k, es[i]? = some e ∧ k < (elemValues e).length ∧ v = off es i + k := by
  induction es generalizing v with
  | nil => simp at hv
  | cons x es ih =>
    by_cases hx : v < (elemValues x).length
    · exact ⟨0, x, v, rfl, hx, by simp [off]⟩
    · rw [List.flatMap_cons, List.length_append] at hv
      obtain ⟨i, e, k, h1, h2, h3⟩ := ih (v := v - (elemValues x).length) (by omega)
      exact ⟨i + 1, e, k, by simpa using h1, h2, by rw [off_cons_succ]; omega⟩

/-- The element a variable belongs to. -/
def ownerOf (es : List (Elem ℝ)) (v : Nat) : Nat := (owners es).getD v 0

theorem ownerOf_at {es : List (Elem ℝ)} {i k : Nat} {e : Elem ℝ} (h : es[i]? = some e) (hk : k < (elemValues e).length) : ownerOf es (off es i + k) = i := by
  rw [ownerOf, List.getD_eq_getElem?_getD, owner_at es h hk, Option.getD_some]

theorem off_lt {es : List (Elem ℝ)} {i k : Nat} {e : Elem ℝ} (h : es[i]? = some e) (hk : k < (elemValues e).length) : off es i + k < (es.flatMap elemValues).length := by
  have h1 := var_at es h hk
  rw [List.getElem?_eq_getElem hk] at h1
  exact lt_of_getElem? h1

/-- The map of the variables of a figure that is turned and renumbered. -/
noncomputable def figureTurn (c s e : ℝ) (es es' : List (Elem ℝ)) (ρ : Equiv.Perm Nat) : Turn where
  pos v := off es (ρ.symm (ownerOf es' v)) + (v - off es' (ownerOf es' v))
  inv v := off es' (ρ (ownerOf es v)) + (v - off es (ownerOf es v))
  mate v := match es'[ownerOf es' v]? with | some (.point _ _) => 2 * off es' (ownerOf es' v) + 1 - v | _ => v
  a v := match es'[ownerOf es' v]? with | some (.point _ _) => if v = off es' (ownerOf es' v) then c else e * c | _ => 1
  b v := match es'[ownerOf es' v]? with | some (.point _ _) => if v = off es' (ownerOf es' v) then -(e * s) else s | _ => 0

section
variable {c s e : ℝ} {es es' : List (Elem ℝ)} {ρ : Equiv.Perm Nat} {f : ℂ → ℂ} (hes : ∀ i, es'[ρ i]? = es[i]?.map fun e => (Geo.mapElem f e).rename ρ)
include hes

theorem turned_point {i : Nat} {x y : ℝ} (h : es[i]? = some (.point x y)) : ∃ x' y', es'[ρ i]? = some (.point x' y') := by
  rw [hes, h]
  exact ⟨_, _, rfl⟩

theorem turned_length {i : Nat} {x : ℝ} (h : es[i]? = some (.length x)) : es'[ρ i]? = some (.length x) := by
  rw [hes, h]
  rfl

theorem figure_place {v : Nat} (hv : v < (es'.flatMap elemValues).length) :
    (∃ i x, es[i]? = some (.length x) ∧ v = off es' (ρ i)) ∨ (∃ i x y, es[i]? = some (.point x y) ∧ v = off es' (ρ i)) ∨ ∃ i x y, es[i]? = some (.point x y) ∧ v = off es' (ρ i) + 1 := by
  obtain ⟨j, e', k, h1, h2, rfl⟩ := exists_place es' hv
  have h3 := hes (ρ.symm j)
  rw [Equiv.apply_symm_apply, h1] at h3
  cases h4 : es[ρ.symm j]? with
  | none => rw [h4] at h3; simp at h3
  | some e0 =>
    rw [h4, Option.map_some, Option.some.injEq] at h3
    subst h3
    cases e0 with
    | length x =>
      simp only [Geo.mapElem, Elem.rename, elemValues, List.length_cons, List.length_nil] at h2
      exact .inl ⟨ρ.symm j, x, h4, by rw [Equiv.apply_symm_apply]; omega⟩
    | point x y =>
      simp only [Geo.mapElem, Elem.rename, elemValues, List.length_cons, List.length_nil] at h2
      obtain rfl | rfl : k = 0 ∨ k = 1 := by omega
      · exact .inr (.inl ⟨ρ.symm j, x, y, h4, by rw [Equiv.apply_symm_apply]; rfl⟩)
      · exact .inr (.inr ⟨ρ.symm j, x, y, h4, by rw [Equiv.apply_symm_apply]⟩)
    | line p q => simp [Geo.mapElem, Elem.rename, elemValues] at h2
    | circle p q => simp [Geo.mapElem, Elem.rename, elemValues] at h2

theorem figureTurn_length {i : Nat} {x : ℝ} (h : es[i]? = some (.length x)) :
    (figureTurn c s e es es' ρ).pos (off es' (ρ i)) = off es i ∧ (figureTurn c s e es es' ρ).mate (off es' (ρ i)) = off es' (ρ i) ∧
    (figureTurn c s e es es' ρ).a (off es' (ρ i)) = 1 ∧ (figureTurn c s e es es' ρ).b (off es' (ρ i)) = 0 ∧ (figureTurn c s e es es' ρ).inv (off es i) = off es' (ρ i) := by
  have h1 := turned_length hes h
  have h2 : ownerOf es' (off es' (ρ i)) = ρ i := ownerOf_at (k := 0) h1 (by simp [elemValues])
  have h3 : ownerOf es (off es i) = i := ownerOf_at (k := 0) h (by simp [elemValues])
  simp only [figureTurn, h2, h3, h1, Equiv.symm_apply_apply, Nat.sub_self, Nat.add_zero, and_self]

theorem figureTurn_fst {i : Nat} {x y : ℝ} (h : es[i]? = some (.point x y)) :
    (figureTurn c s e es es' ρ).pos (off es' (ρ i)) = off es i ∧ (figureTurn c s e es es' ρ).mate (off es' (ρ i)) = off es' (ρ i) + 1 ∧
    (figureTurn c s e es es' ρ).a (off es' (ρ i)) = c ∧ (figureTurn c s e es es' ρ).b (off es' (ρ i)) = -(e * s) ∧ (figureTurn c s e es es' ρ).inv (off es i) = off es' (ρ i) := by
  obtain ⟨x', y', h1⟩ := turned_point hes h
  have h2 : ownerOf es' (off es' (ρ i)) = ρ i := ownerOf_at (k := 0) h1 (by simp [elemValues])
  have h3 : ownerOf es (off es i) = i := ownerOf_at (k := 0) h (by simp [elemValues])
  simp only [figureTurn, h2, h3, h1, Equiv.symm_apply_apply, Nat.sub_self, Nat.add_zero, if_true, and_self, and_true, true_and]
  omega

theorem figureTurn_snd {i : Nat} {x y : ℝ} (h : es[i]? = some (.point x y)) :
    (figureTurn c s e es es' ρ).pos (off es' (ρ i) + 1) = off es i + 1 ∧ (figureTurn c s e es es' ρ).mate (off es' (ρ i) + 1) = off es' (ρ i) ∧
    (figureTurn c s e es es' ρ).a (off es' (ρ i) + 1) = e * c ∧ (figureTurn c s e es es' ρ).b (off es' (ρ i) + 1) = s ∧ (figureTurn c s e es es' ρ).inv (off es i + 1) = off es' (ρ i) + 1 := by
  obtain ⟨x', y', h1⟩ := turned_point hes h
  have h2 : ownerOf es' (off es' (ρ i) + 1) = ρ i := ownerOf_at h1 (by simp [elemValues])
  have h3 : ownerOf es (off es i + 1) = i := ownerOf_at h (by simp [elemValues])
  simp only [figureTurn, h2, h3, h1, Equiv.symm_apply_apply, Nat.add_sub_cancel_left, Nat.succ_ne_self, if_false, and_self, and_true, true_and]
  omega

theorem figureTurn_moved (g : Nat → ℝ) : MovedValues c s e es es' ρ g ((figureTurn c s e es es' ρ).apply g) := by
  refine ⟨fun {i x y} h => ⟨?_, ?_⟩, fun {i x} h => ?_⟩
  · obtain ⟨h1, h2, h3, h4, -⟩ := figureTurn_fst (c := c) (s := s) (e := e) hes h
    obtain ⟨h5, -⟩ := figureTurn_snd (c := c) (s := s) (e := e) hes h
    rw [Turn.apply, h2, h1, h5, h3, h4]
    ring
  · obtain ⟨h1, h2, h3, h4, -⟩ := figureTurn_snd (c := c) (s := s) (e := e) hes h
    obtain ⟨h5, -⟩ := figureTurn_fst (c := c) (s := s) (e := e) hes h
    rw [Turn.apply, h2, h1, h5, h3, h4]
    ring
  · obtain ⟨h1, h2, h3, h4, -⟩ := figureTurn_length (c := c) (s := s) (e := e) hes h
    rw [Turn.apply, h2, h1, h3, h4]
    ring

theorem figureTurn_ok (h : c ^ 2 + s ^ 2 = 1) (he : e = 1 ∨ e = -1) : (figureTurn c s e es es' ρ).Ok (es'.flatMap elemValues).length := by
  have he2 : e ^ 2 = 1 := by rcases he with rfl | rfl <;> norm_num
  have key : ∀ v < (es'.flatMap elemValues).length, ∀ t, t = figureTurn c s e es es' ρ →
      t.mate v < (es'.flatMap elemValues).length ∧ t.mate (t.mate v) = v ∧ t.a v ^ 2 + t.b v ^ 2 = 1 ∧ t.a v * t.b (t.mate v) + t.b v * t.a (t.mate v) = 0 ∧
        t.a v ^ 2 + t.b (t.mate v) ^ 2 = 1 ∧ t.a v * t.b v + t.a (t.mate v) * t.b (t.mate v) = 0 := by
    rintro v hv t rfl
    rcases figure_place hes hv with ⟨i, x, h1, rfl⟩ | ⟨i, x, y, h1, rfl⟩ | ⟨i, x, y, h1, rfl⟩
    · obtain ⟨-, h2, h3, h4, -⟩ := figureTurn_length (c := c) (s := s) (e := e) hes h1
      rw [h2, h2, h3, h4]
      exact ⟨hv, rfl, by norm_num, by norm_num, by norm_num, by norm_num⟩
    · obtain ⟨-, h2, h3, h4, -⟩ := figureTurn_fst (c := c) (s := s) (e := e) hes h1
      obtain ⟨-, h5, h6, h7, -⟩ := figureTurn_snd (c := c) (s := s) (e := e) hes h1
      rw [h2, h5, h3, h4, h6, h7]
      obtain ⟨x', y', h8⟩ := turned_point hes h1
      exact ⟨off_lt h8 (by simp [elemValues]), rfl, by linear_combination h + s ^ 2 * he2, by linear_combination -(s * c) * he2, h, by ring⟩
    · obtain ⟨-, h2, h3, h4, -⟩ := figureTurn_fst (c := c) (s := s) (e := e) hes h1
      obtain ⟨-, h5, h6, h7, -⟩ := figureTurn_snd (c := c) (s := s) (e := e) hes h1
      rw [h5, h2, h3, h4, h6, h7]
      obtain ⟨x', y', h8⟩ := turned_point hes h1
      exact ⟨off_lt (k := 0) h8 (by simp [elemValues]), rfl, by linear_combination h + c ^ 2 * he2, by linear_combination -(s * c) * he2, by linear_combination h + (s ^ 2 + c ^ 2) * he2, by ring⟩
  exact ⟨fun v hv => (key v hv _ rfl).1, fun v hv => (key v hv _ rfl).2.1, fun v hv => (key v hv _ rfl).2.2.1, fun v hv => (key v hv _ rfl).2.2.2.1, fun v hv => (key v hv _ rfl).2.2.2.2.1,
    fun v hv => (key v hv _ rfl).2.2.2.2.2⟩

/-- The variables of the elements with `Q` correspond to those with `Q'`. -/
theorem figureTurn_fits {free free' : List Nat} {Q Q' : Nat → Prop} (hQ : ∀ i, Q' (ρ i) ↔ Q i) (hn : free.Nodup) (hn' : free'.Nodup)
    (hf : ∀ {i k e}, es[i]? = some e → k < (elemValues e).length → (off es i + k ∈ free ↔ Q i)) (hlt : ∀ v ∈ free, v < (es.flatMap elemValues).length)
    (hf' : ∀ {i k e}, es'[i]? = some e → k < (elemValues e).length → (off es' i + k ∈ free' ↔ Q' i)) (hlt' : ∀ v ∈ free', v < (es'.flatMap elemValues).length) :
    (figureTurn c s e es es' ρ).Fits (es'.flatMap elemValues).length free free' := by
  have key : ∀ v < (es'.flatMap elemValues).length, ∀ t, t = figureTurn c s e es es' ρ → (t.mate v ∈ free' ↔ v ∈ free') ∧ (t.pos v ∈ free ↔ v ∈ free') ∧ t.inv (t.pos v) = v := by
    rintro v hv t rfl
    rcases figure_place hes hv with ⟨i, x, h1, rfl⟩ | ⟨i, x, y, h1, rfl⟩ | ⟨i, x, y, h1, rfl⟩
    · obtain ⟨h0, h2, -, -, h5⟩ := figureTurn_length (c := c) (s := s) (e := e) hes h1
      have h6 := hf (k := 0) h1 (by simp [elemValues])
      have h7 := hf' (k := 0) (turned_length hes h1) (by simp [elemValues])
      rw [Nat.add_zero] at h6 h7
      rw [h2, h0, h5, h6, h7, hQ]
      exact ⟨Iff.rfl, Iff.rfl, rfl⟩
    · obtain ⟨h0, h2, -, -, h5⟩ := figureTurn_fst (c := c) (s := s) (e := e) hes h1
      obtain ⟨x', y', h8⟩ := turned_point hes h1
      have h6 := hf (k := 0) h1 (by simp [elemValues])
      have h7 := hf' (k := 0) h8 (by simp [elemValues])
      have h9 := hf' (k := 1) h8 (by simp [elemValues])
      rw [Nat.add_zero] at h6 h7
      rw [h2, h0, h5, h6, h7, h9, hQ]
      exact ⟨Iff.rfl, Iff.rfl, rfl⟩
    · obtain ⟨h0, h2, -, -, h5⟩ := figureTurn_snd (c := c) (s := s) (e := e) hes h1
      obtain ⟨x', y', h8⟩ := turned_point hes h1
      have h6 := hf (k := 1) h1 (by simp [elemValues])
      have h7 := hf' (k := 0) h8 (by simp [elemValues])
      have h9 := hf' (k := 1) h8 (by simp [elemValues])
      rw [Nat.add_zero] at h7
      rw [h2, h0, h5, h6, h7, h9, hQ]
      exact ⟨Iff.rfl, Iff.rfl, rfl⟩
  have back : ∀ v ∈ free, ∀ t, t = figureTurn c s e es es' ρ → t.inv v ∈ free' ∧ t.pos (t.inv v) = v := by
    rintro v hv t rfl
    obtain ⟨i, el, k, h1, h2, rfl⟩ := exists_place es (hlt v hv)
    have h3 := (hf h1 h2).1 hv
    cases el with
    | length x =>
      simp only [elemValues, List.length_cons, List.length_nil] at h2
      obtain rfl : k = 0 := by omega
      obtain ⟨h0, -, -, -, h5⟩ := figureTurn_length (c := c) (s := s) (e := e) hes h1
      rw [Nat.add_zero, h5, h0]
      exact ⟨(hf' (k := 0) (turned_length hes h1) (by simp [elemValues])).2 ((hQ i).2 h3), rfl⟩
    | point x y =>
      obtain ⟨x', y', h8⟩ := turned_point hes h1
      simp only [elemValues, List.length_cons, List.length_nil] at h2
      obtain rfl | rfl : k = 0 ∨ k = 1 := by omega
      · obtain ⟨h0, -, -, -, h5⟩ := figureTurn_fst (c := c) (s := s) (e := e) hes h1
        rw [Nat.add_zero, h5, h0]
        exact ⟨(hf' (k := 0) h8 (by simp [elemValues])).2 ((hQ i).2 h3), rfl⟩
      · obtain ⟨h0, -, -, -, h5⟩ := figureTurn_snd (c := c) (s := s) (e := e) hes h1
        rw [h5, h0]
        exact ⟨(hf' (k := 1) h8 (by simp [elemValues])).2 ((hQ i).2 h3), rfl⟩
    | line p q => simp [elemValues] at h2
    | circle p q => simp [elemValues] at h2
  exact ⟨hn, hn', hlt', fun v hv => (key v hv _ rfl).1, fun v hv => (key v hv _ rfl).2.1, fun v hv => (key v (hlt' v hv) _ rfl).2.2, fun v hv => (back v hv _ rfl).1, fun v hv => (back v hv _ rfl).2⟩

/-- The figures have the same number of variables, and their squares have the same sum. -/
theorem figure_squares (h : c ^ 2 + s ^ 2 = 1) (he : e = 1 ∨ e = -1) (g : Nat → ℝ) :
    ∑ v ∈ Finset.range (es'.flatMap elemValues).length, (figureTurn c s e es es' ρ).apply g v ^ 2 = ∑ v ∈ Finset.range (es.flatMap elemValues).length, g v ^ 2 := by
  have hf := figureTurn_fits (c := c) (s := s) (e := e) hes (free := List.range (es.flatMap elemValues).length) (free' := List.range (es'.flatMap elemValues).length) (Q := fun _ => True)
    (Q' := fun _ => True) (fun _ => Iff.rfl) List.nodup_range List.nodup_range (fun h1 h2 => by simpa using off_lt h1 h2) (fun v hv => List.mem_range.1 hv)
    (fun h1 h2 => by simpa using off_lt h1 h2) (fun v hv => List.mem_range.1 hv)
  have := Turn.isometry (figureTurn_ok hes h he) hf g
  rwa [List.toFinset_range, List.toFinset_range] at this

end

end Fiksi
