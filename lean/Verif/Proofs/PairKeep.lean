import Verif.Proofs.PairPhase
import Verif.Proofs.Freedom
import Verif.Props.Rigid
/-! # A plan of pairs: later steps keep the distances of earlier steps -/
namespace Fiksi
open Spec

variable {cx : DCtx}

theorem getD_mem_iff {α : Type} {o : Option (List α)} {a : α} : a ∈ o.getD [] ↔ ∃ l, o = some l ∧ a ∈ l := by
  cases o <;> simp

theorem take_getElem?_iff {α : Type} {l : List α} {i j : Nat} {a : α} : (l.take j)[i]? = some a ↔ i < j ∧ l[i]? = some a := by
  rw [List.getElem?_take]
  split <;> simp_all

theorem one_lt_length {α : Type} {l : List α} {a b : α} (hab : a ≠ b) (ha : a ∈ l) (hb : b ∈ l) : 1 < l.length := by
  rcases l with _ | ⟨x, _ | ⟨y, l⟩⟩
  · simp at ha
  · rw [List.mem_singleton] at ha hb
    exact absurd (ha.trans hb.symm) hab
  · simp

/-- A cluster with a pose is affected. -/
theorem Spec.Posed.affected {elements : List EncodedElement} {step : RecombinationStep} {c : Nat} (h : Posed elements step c) : Affected elements step c := by
  obtain ⟨e, h1, h2, h3⟩ := h
  rcases h1 with h1 | ⟨c', l, h4, h5, h6, -, -⟩
  · exact .start h1 h2 h3
  · exact .next h4 h5 h6 h2 h3

/-- The points of an earlier pair either all go along with the cluster of that pair, or all stay where they are. -/
theorem PairStep.keeps {P : List (Finset Nat)} (hP : PairList cx P) {j : Nat} {s : RecombinationStep} (hs : PairStep cx P j s)
    {elements : List EncodedElement} (hpt : ∀ x ∈ cx.vertices, IsPointAt elements x) {i : Nat} {p : Finset Nat} (hij : i < j) (hp : P[i]? = some p) :
    (∀ x ∈ p, CarriedBy elements s i x) ∨ ∀ x ∈ p, ¬ MayMove elements s x := by
  obtain ⟨pj, hpj, hel, -⟩ := hs.pair
  have hm := hs.maps
  have hv : ∀ x ∈ p, IsPointAt elements x := by
    intro x hx
    obtain ⟨a, b, -, ha, hb, -, rfl⟩ := hP.pair p (List.mem_of_getElem? hp)
    rcases Finset.mem_insert.1 hx with rfl | h
    · exact hpt _ ha
    · rw [Finset.mem_singleton] at h
      exact hpt _ (h ▸ hb)
  have inj : ∀ {a b : Nat} {q : Finset Nat}, P[a]? = some q → P[b]? = some q → a = b := by
    intro a b q ha hb
    obtain ⟨la, ea⟩ := List.getElem?_eq_some_iff.1 ha
    obtain ⟨lb, eb⟩ := List.getElem?_eq_some_iff.1 hb
    exact (hP.nodup.getElem_inj_iff).1 (ea.trans eb.symm)
  -- A point in two pairs is no leaf.
  have two : ∀ {x a b : Nat} {q r : Finset Nat}, P[a]? = some q → P[b]? = some r → x ∈ q → x ∈ r → a ≠ b → ¬ cx.Leaf x := by
    intro x a b q r ha hb hq hr hab hl
    have := hl.one hP (List.mem_of_getElem? ha) (List.mem_of_getElem? hb) hq hr
    exact hab (inj ha (this ▸ hb))
  have onF : ∀ {x a : Nat} {q : Finset Nat}, a < j → P[a]? = some q → x ∈ q → ¬ cx.Leaf x → OnFrontier s a x := by
    intro x a q haj ha hq hl
    exact getD_mem_iff.1 ((hm.front x hl a).2 ⟨q, take_getElem?_iff.2 ⟨haj, ha⟩, hq⟩)
  -- What is solved for is no leaf.
  have solved : ∀ {x : Nat}, x ∈ p → SolvedFor elements s x → ¬ cx.Leaf x := by
    intro x hx hsol hl
    rcases hsol with h | ⟨-, -, -, -, -, -, cl, h, -⟩
    · exact two hp hpj hx ((hel x).1 h) (by omega) hl
    · have := hm.leaf x hl
      simp only at this
      rw [this] at h
      cases h
  -- A point in two earlier pairs is solved for when one of them is affected.
  have shared : ∀ {x a b : Nat} {q r : Finset Nat}, a < j → b < j → P[a]? = some q → P[b]? = some r → x ∈ q → x ∈ r → a ≠ b → IsPointAt elements x →
      Affected elements s a → SolvedFor elements s x := by
    intro x a b q r haj hbj ha hb hq hr hab hx haff
    have hl := two ha hb hq hr hab
    obtain ⟨l, h1, h2⟩ := getD_mem_iff.1 ((hm.frontier a x).2 ⟨hl, q, take_getElem?_iff.2 ⟨haj, ha⟩, hq⟩)
    obtain ⟨cl, h3, h4⟩ := onF haj ha hq hl
    obtain ⟨cl', h5, h6⟩ := onF hbj hb hr hl
    rw [h3] at h5
    cases h5
    exact .inr ⟨a, l, haff, h1, h2, hx, cl, h3, one_lt_length hab h4 h6⟩
  by_cases hpo : Posed elements s i
  · left
    intro x hx
    refine ⟨hpo, hv x hx, ?_⟩
    by_cases hsol : SolvedFor elements s x
    · exact .inl ⟨hsol, onF hij hp hx (solved hx hsol)⟩
    · refine .inr ⟨hsol, getD_mem_iff.1 ((hm.owned i x).2 ⟨⟨p, take_getElem?_iff.2 ⟨hij, hp⟩, hx⟩, fun i' hi' q hq hxq => hsol ?_⟩)⟩
      exact shared hij (by omega) hp (take_getElem?_iff.1 hq).2 hx hxq (by omega) (hv x hx) hpo.affected
  · right
    intro x hx hmay
    have hns : ¬ SolvedFor elements s x := fun hsol => hpo ⟨x, hsol, hv x hx, onF hij hp hx (solved hx hsol)⟩
    rcases hmay with hsol | ⟨c, hc, hown⟩
    · exact hns hsol
    · obtain ⟨⟨q, hq, hxq⟩, hfirst⟩ := (hm.owned c x).1 (getD_mem_iff.2 hown)
      obtain ⟨hcj, hq⟩ := take_getElem?_iff.1 hq
      have hci : c ≠ i := by
        rintro rfl
        exact hpo hc
      exact hns (shared hcj hij hq hp hxq hx hci (hv x hx) hc.affected)

end Fiksi
