import Verif.Proofs.FigureSolve
/-!
# The parts of two corresponding figures, and what is read from them
-/
namespace Fiksi
open Spec

/-! ## What is read -/

/-- What is read for an element when the variables have the values `g`. -/
def readValue (es : List (Elem ℝ)) (g : Nat → ℝ) (i : Nat) : Elem ℝ → ElementValue ℝ
  | .length _ => .length (g (off es i))
  | .point _ _ => .point (g (off es i)) (g (off es i + 1))
  | .line p q => .line (g (off es p)) (g (off es p + 1)) (g (off es q)) (g (off es q + 1))
  | .circle p q => .circle (g (off es p)) (g (off es p + 1)) (g (off es q))

theorem Rel.reads {s s' : System ℝ} {st : Store ℝ} (hr : Rel s st) (hs : s' = { s with vars := s'.vars }) (hl : s'.vars.length = s.vars.length) {i : Nat} {e : Elem ℝ} (he : st.elems[i]? = some e) :
    s'.getValue e.kind ⟨s.id, i⟩ = .ok (readValue st.elems (fun v => s'.vars.getD v 0) i e) := by
  have hlt : ∀ {j k : Nat} {e : Elem ℝ}, st.elems[j]? = some e → k < (elemValues e).length → idx s'.vars (off st.elems j + k) = .ok (s'.vars.getD (off st.elems j + k) 0) := by
    intro j k e h1 h2
    have h3 := off_lt h1 h2
    rw [← hr.vars, ← hl] at h3
    rw [idx_of (List.getElem?_eq_getElem h3), List.getD_eq_getElem?_getD, List.getElem?_eq_getElem h3, Option.getD_some]
  have point : ∀ {j : Nat}, st.IsPoint j → idx s'.vars (off st.elems j) = .ok (s'.vars.getD (off st.elems j) 0) ∧ idx s'.vars (off st.elems j + 1) = .ok (s'.vars.getD (off st.elems j + 1) 0) := by
    rintro j ⟨x, y, h1⟩
    exact ⟨hlt (k := 0) h1 (by simp [elemValues]), hlt (k := 1) h1 (by simp [elemValues])⟩
  have length : ∀ {j : Nat}, st.IsLength j → idx s'.vars (off st.elems j) = .ok (s'.vars.getD (off st.elems j) 0) := by
    rintro j ⟨x, h1⟩
    exact hlt (k := 0) h1 (by simp [elemValues])
  have hid : s'.id = s.id := by rw [hs]
  have hel : s'.elements = s.elements := by rw [hs]
  unfold System.getValue
  rw [if_neg (by rw [hid]; simp), hel, idx_of (hr.element_at he), ok_bind]
  have hok := hr.wfElem i e he
  cases e with
  | length v => simp only [Elem.kind, encElem, fromEncodedElement, length ⟨v, he⟩, ok_bind, pure_eq_ok, readValue]
  | point x y => simp only [Elem.kind, encElem, fromEncodedElement, (point ⟨x, y, he⟩).1, (point ⟨x, y, he⟩).2, ok_bind, pure_eq_ok, readValue]
  | line p q => simp only [Elem.kind, encElem, fromEncodedElement, (point hok.1).1, (point hok.1).2, (point hok.2).1, (point hok.2).2, ok_bind, pure_eq_ok, readValue]
  | circle p q => simp only [Elem.kind, encElem, fromEncodedElement, (point hok.1).1, (point hok.1).2, length hok.2, ok_bind, pure_eq_ok, readValue]

/-- What is read in both figures after `solve`. -/
theorem figures_read {φ : ℝ} {mirror : Bool} {ρ : Equiv.Perm Nat} {counter counter' : Nat} {ops ops' : List (Op ℝ)} {c c' : Client ℝ} (h : Reaches counter ops c) (h' : Reaches counter' ops' c')
    (hsame : ((Store.empty ℝ).run ops).SameFigure (Geo.turn φ mirror) ρ ((Store.empty ℝ).run ops')) (hturns : ∀ con ∈ ((Store.empty ℝ).run ops).cons, con.Turns φ mirror)
    (hparts : SameParts ρ ((Store.empty ℝ).run ops) ((Store.empty ℝ).run ops') c.sys.graph.components c'.sys.graph.components)
    {S : Nat → Nat → Nat → Prop} {ls : LeastSquares ℝ} (hls : ls.Exact S) (hS : ∀ m n k, m ≤ c.sys.expressions.length → n ≤ c.sys.vars.length → k ≤ 8 * m + n → S m n k)
    (hS' : ∀ m n k, m ≤ c'.sys.expressions.length → n ≤ c'.sys.vars.length → k ≤ 8 * m + n → S m n k) {fuel fuel' : Nat} {ord ord' : HashOrder} {opts : SolvingOptions}
    (ho : opts.optimizer = .lBfgs → ((Store.empty ℝ).run ops).Distinct) (hd : opts.decomposer = .none) (hp : opts.perturb = false) {s s' : System ℝ}
    (hs : c.sys.solve (crateOptimize ls fuel) ord opts = .ok s) (hs' : c'.sys.solve (crateOptimize ls fuel') ord' opts = .ok s') {i : Nat} {e : Elem ℝ}
    (he : ((Store.empty ℝ).run ops).elems[i]? = some e) :
    ∃ w, s.getValue e.kind ⟨counter, i⟩ = .ok w ∧ s'.getValue e.kind ⟨counter', ρ i⟩ = .ok (Geo.mapValue (Geo.turn φ mirror) w) := by
  have hv := figures_solved h h' hsame hturns hparts hls hS hS' ho hd hp hs hs'
  obtain ⟨a1, a2, -, -⟩ := h.solve_whole hd hp hs
  obtain ⟨b1, b2, -, -⟩ := h'.solve_whole hd hp hs'
  have hr := h.crel.rel
  have hr' := h'.crel.rel
  have he' := hsame.elems i
  rw [he, Option.map_some] at he'
  have hkind : ((Geo.mapElem (Geo.turn φ mirror) e).rename ρ).kind = e.kind := by cases e <;> rfl
  have r1 := hr.reads a1 a2 he
  have r2 := hr'.reads b1 b2 he'
  rw [h.sysId] at r1
  rw [h'.sysId, hkind] at r2
  refine ⟨_, r1, r2.trans ?_⟩
  congr 1
  have hm := figureTurn_moved (c := Real.cos φ) (s := Real.sin φ) (e := if mirror then -1 else 1) hsame.elems (fun v => s.vars.getD v 0)
  have point : ∀ {j : Nat}, ((Store.empty ℝ).run ops).IsPoint j →
      s'.vars.getD (off ((Store.empty ℝ).run ops').elems (ρ j)) 0 =
        (Geo.turn φ mirror ⟨s.vars.getD (off ((Store.empty ℝ).run ops).elems j) 0, s.vars.getD (off ((Store.empty ℝ).run ops).elems j + 1) 0⟩).re ∧
      s'.vars.getD (off ((Store.empty ℝ).run ops').elems (ρ j) + 1) 0 =
        (Geo.turn φ mirror ⟨s.vars.getD (off ((Store.empty ℝ).run ops).elems j) 0, s.vars.getD (off ((Store.empty ℝ).run ops).elems j + 1) 0⟩).im := by
    rintro j ⟨x, y, h1⟩
    obtain ⟨x', y', h2⟩ := turned_point hsame.elems h1
    rw [(turn_coords φ mirror _ _).1, (turn_coords φ mirror _ _).2]
    exact ⟨(hv _ (off_lt (k := 0) h2 (by simp [elemValues]))).trans (hm.point h1).fst, (hv _ (off_lt (k := 1) h2 (by simp [elemValues]))).trans (hm.point h1).snd⟩
  have length : ∀ {j : Nat}, ((Store.empty ℝ).run ops).IsLength j → s'.vars.getD (off ((Store.empty ℝ).run ops').elems (ρ j)) 0 = s.vars.getD (off ((Store.empty ℝ).run ops).elems j) 0 := by
    rintro j ⟨x, h1⟩
    exact (hv _ (off_lt (k := 0) (turned_length hsame.elems h1) (by simp [elemValues]))).trans (hm.length h1)
  have hok := hr.wfElem i e he
  cases e with
  | length v => simp only [Geo.mapElem, Elem.rename, readValue, Geo.mapValue, length ⟨v, he⟩]
  | point x y => simp only [Geo.mapElem, Elem.rename, readValue, Geo.mapValue, (point ⟨x, y, he⟩).1, (point ⟨x, y, he⟩).2]
  | line p q => simp only [Geo.mapElem, Elem.rename, readValue, Geo.mapValue, (point hok.1).1, (point hok.1).2, (point hok.2).1, (point hok.2).2]
  | circle p q => simp only [Geo.mapElem, Elem.rename, readValue, Geo.mapValue, (point hok.1).1, (point hok.1).2, length hok.2]

/-! ## Parts when no constraint joins separate parts -/

section
variable {f : ℂ → ℂ} {ρ : Equiv.Perm Nat} {st st' : Store ℝ} (h : st.SameFigure f ρ st')
include h

theorem actsOn_rename (con : Spec.Con ℝ) : st'.actsOn (con.rename ρ) = (st.actsOn con).map ρ := by
  have line : ∀ l, st'.lineEnds (ρ l) = (st.lineEnds l).map ρ := by
    intro l
    unfold Store.lineEnds
    rw [h.elems l]
    cases st.elems[l]? with
    | none => rfl
    | some e => cases e <;> rfl
  have circ : ∀ l, st'.circleParts (ρ l) = (st.circleParts l).map ρ := by
    intro l
    unfold Store.circleParts
    rw [h.elems l]
    cases st.elems[l]? with
    | none => rfl
    | some e => cases e <;> rfl
  cases con <;> simp [Spec.Con.rename, Store.actsOn, line, circ]

omit h in
theorem actsOn_flips {con con' : Spec.Con ℝ} (hf : Relation.ReflTransGen Con.Flip con con') (j : Nat) : j ∈ st'.actsOn con' ↔ j ∈ st'.actsOn con := by
  induction hf with
  | refl => rfl
  | tail _ hf ih =>
    rw [← ih]
    cases hf <;> simp [Store.actsOn] <;> tauto

theorem acts_iff {con con' : Spec.Con ℝ} (hf : Relation.ReflTransGen Con.Flip (con.rename ρ) con') (i : Nat) : ρ i ∈ st'.actsOn con' ↔ i ∈ st.actsOn con := by
  rw [actsOn_flips hf, actsOn_rename h]
  simp

theorem touch_iff (i j : Nat) : Spec.Touch st'.arguments (ρ i) (ρ j) ↔ Spec.Touch st.arguments i j := by
  obtain ⟨l, h1, h2⟩ := h.cons
  unfold Spec.Touch Store.arguments
  constructor
  · rintro ⟨a, ha, hi, hj⟩
    obtain ⟨con', hcon', rfl⟩ := List.mem_map.1 ha
    obtain ⟨con, hcon, hf⟩ := forall₂_mem_right h2 (h1.mem_iff.1 hcon')
    exact ⟨_, List.mem_map_of_mem hcon, (acts_iff h hf i).1 hi, (acts_iff h hf j).1 hj⟩
  · rintro ⟨a, ha, hi, hj⟩
    obtain ⟨con, hcon, rfl⟩ := List.mem_map.1 ha
    obtain ⟨con', hcon', hf⟩ := forall₂_mem_right h2.flip hcon
    exact ⟨_, List.mem_map_of_mem (h1.mem_iff.2 hcon'), (acts_iff h hf i).2 hi, (acts_iff h hf j).2 hj⟩

theorem constrained_iff (i : Nat) : Spec.Constrained st'.arguments (ρ i) ↔ Spec.Constrained st.arguments i := by
  have h1 : ∀ (cs : List (List Nat)) i, Spec.Constrained cs i ↔ Spec.Touch cs i i := fun cs i => by simp [Spec.Constrained, Spec.Touch]
  rw [h1, h1, touch_iff h]

theorem linked_iff (i j : Nat) : Spec.Linked st'.arguments (ρ i) (ρ j) ↔ Spec.Linked st.arguments i j := by
  constructor
  · intro hl
    have key : ∀ b, Relation.ReflTransGen (Spec.Touch st'.arguments) (ρ i) b → Relation.ReflTransGen (Spec.Touch st.arguments) i (ρ.symm b) := by
      intro b hb
      induction hb with
      | refl => rw [Equiv.symm_apply_apply]
      | tail _ hab ih =>
        refine ih.tail ?_
        rw [← touch_iff h, Equiv.apply_symm_apply, Equiv.apply_symm_apply]
        exact hab
    have := key _ hl
    rwa [Equiv.symm_apply_apply] at this
  · intro hl
    induction hl with
    | refl => exact Relation.ReflTransGen.refl
    | tail _ hab ih => exact ih.tail ((touch_iff h _ _).2 hab)

end

section
variable {counter : Nat} {ops : List (Op ℝ)} {c : Client ℝ} (h : Reaches counter ops c) (hn : NeverJoins ((Store.empty ℝ).run ops).arguments)
include h hn

/-- The constraints of a part are those on its elements. -/
theorem Reaches.part_constraints {comp : Component} (hcomp : comp ∈ c.sys.graph.components) (n : Nat) :
    n ∈ comp.constraints ↔ ∃ con, ((Store.empty ℝ).run ops).cons[n]? = some con ∧ ∃ i ∈ ((Store.empty ℝ).run ops).actsOn con, i ∈ comp.elements := by
  have hr := h.crel.rel
  have hne : ∀ con ∈ ((Store.empty ℝ).run ops).cons, ∃ i, i ∈ ((Store.empty ℝ).run ops).actsOn con := by
    intro con hcon
    have hok := hr.wfCon con hcon
    cases con with
    | lineLineAngle l m a => obtain ⟨⟨p, q, hl⟩, -⟩ := hok; exact ⟨p, by simp [Store.actsOn, Store.lineEnds, hl]⟩
    | lineLineParallelism l m => obtain ⟨⟨p, q, hl⟩, -⟩ := hok; exact ⟨p, by simp [Store.actsOn, Store.lineEnds, hl]⟩
    | lineLinePerpendicularity l m => obtain ⟨⟨p, q, hl⟩, -⟩ := hok; exact ⟨p, by simp [Store.actsOn, Store.lineEnds, hl]⟩
    | lineCircleTangency l m => obtain ⟨⟨p, q, hl⟩, -⟩ := hok; exact ⟨p, by simp [Store.actsOn, Store.lineEnds, hl]⟩
    | _ => exact ⟨_, List.mem_cons_self ..⟩
  constructor
  · intro hnc
    have hlt := h.part_cons hcomp n ((mem_ascending _ _).2 hnc)
    refine ⟨_, List.getElem?_eq_getElem hlt, ?_⟩
    obtain ⟨i, hi⟩ := hne _ (List.getElem_mem hlt)
    exact ⟨i, hi, (C17_linked_together_partial h hn hcomp).2 n hnc _ (List.getElem?_eq_getElem hlt) i hi⟩
  · rintro ⟨con, h1, i, h2, h3⟩
    obtain ⟨k, ⟨D, h4, h5⟩, -⟩ := C17_constraints_partitioned h n (lt_of_getElem? h1)
    have h6 := (C17_linked_together_partial h hn (List.mem_of_getElem? h4)).2 n h5 con h1 i h2
    obtain ⟨k', h7⟩ := List.mem_iff_getElem?.1 hcomp
    obtain ⟨k0, -, h8⟩ := (C17_elements_partitioned h i).1 (h.constrained_of_mem hcomp h3)
    have h9 := (h8 k ⟨D, h4, h6⟩).trans (h8 k' ⟨comp, h7, h3⟩).symm
    subst h9
    rw [h4, Option.some.injEq] at h7
    rwa [← h7]

open Classical in
theorem Reaches.partSum_eq {comp : Component} (hcomp : comp ∈ c.sys.graph.components) (T : Spec.Con ℝ → ℝ) :
    partSum ((Store.empty ℝ).run ops) comp T =
      (((Store.empty ℝ).run ops).cons.map fun con => if ∃ i ∈ ((Store.empty ℝ).run ops).actsOn con, i ∈ comp.elements then T con else 0).sum := by
  have h1 : ∀ (l : List (Spec.Con ℝ)) (f : Spec.Con ℝ → ℝ), (l.map f).sum = ∑ n ∈ Finset.range l.length, (l[n]?.map f).getD 0 := by
    intro l f
    induction l with
    | nil => simp
    | cons a l ih => rw [List.map_cons, List.sum_cons, ih, List.length_cons, Finset.sum_range_succ']; simp [add_comm]
  have h2 : (ascending comp.constraints).toFinset = comp.constraints := by
    ext n
    rw [List.mem_toFinset, mem_ascending]
  rw [h1, partSum, ← List.sum_toFinset _ (ascending_nodup _), h2]
  have h3 : comp.constraints = (Finset.range ((Store.empty ℝ).run ops).cons.length).filter (fun n => n ∈ comp.constraints) := by
    ext n
    rw [Finset.mem_filter, Finset.mem_range]
    exact ⟨fun hc => ⟨h.part_cons hcomp n ((mem_ascending _ _).2 hc), hc⟩, fun hc => hc.2⟩
  rw [h3, Finset.sum_filter]
  refine Finset.sum_congr rfl fun n hn' => ?_
  rw [List.getElem?_eq_getElem (Finset.mem_range.1 hn'), Option.map_some, Option.getD_some, Option.map_some, Option.getD_some]
  refine if_congr ?_ rfl rfl
  rw [h.part_constraints hn hcomp, List.getElem?_eq_getElem (Finset.mem_range.1 hn')]
  simp

end

theorem sameParts_of_neverJoins {f : ℂ → ℂ} {ρ : Equiv.Perm Nat} {counter counter' : Nat} {ops ops' : List (Op ℝ)} {c c' : Client ℝ} (h : Reaches counter ops c) (h' : Reaches counter' ops' c')
    (hsame : ((Store.empty ℝ).run ops).SameFigure f ρ ((Store.empty ℝ).run ops')) (hn : NeverJoins ((Store.empty ℝ).run ops).arguments) (hn' : NeverJoins ((Store.empty ℝ).run ops').arguments) :
    SameParts ρ ((Store.empty ℝ).run ops) ((Store.empty ℝ).run ops') c.sys.graph.components c'.sys.graph.components := by
  refine ⟨fun comp' hcomp' hne => ?_, constrained_iff hsame⟩
  obtain ⟨j0, hj0⟩ := Finset.nonempty_iff_ne_empty.2 hne
  obtain ⟨i0, rfl⟩ := ρ.surjective j0
  obtain ⟨k, ⟨comp, hk, hi0⟩, -⟩ := (C17_elements_partitioned h i0).1 ((constrained_iff hsame i0).1 (h'.constrained_of_mem hcomp' hj0))
  have hcomp := List.mem_of_getElem? hk
  have hel : ∀ i, ρ i ∈ comp'.elements ↔ i ∈ comp.elements := by
    intro i
    constructor
    · intro hi
      exact (C17_linked_together_partial h hn hcomp).1 i0 i hi0 ((linked_iff hsame i0 i).1 (C17_component_linked h' hcomp' (.inl hj0) (.inl hi)))
    · intro hi
      exact (C17_linked_together_partial h' hn' hcomp').1 _ _ hj0 ((linked_iff hsame i0 i).2 (C17_component_linked h hcomp (.inl hi0) (.inl hi)))
  refine ⟨comp, hcomp, hel, fun T T' hT => ?_⟩
  rw [h.partSum_eq hn hcomp, h'.partSum_eq hn' hcomp']
  obtain ⟨l, h1, h2⟩ := hsame.cons
  rw [(h1.map _).sum_eq]
  have h3 : ∀ {cons l : List (Spec.Con ℝ)}, List.Forall₂ (fun con con' => Relation.ReflTransGen Con.Flip (con.rename ρ) con') cons l → (∀ con ∈ cons, con ∈ ((Store.empty ℝ).run ops).cons) →
      (l.map fun con => if ∃ i ∈ ((Store.empty ℝ).run ops').actsOn con, i ∈ comp'.elements then T' con else 0) =
        cons.map fun con => if ∃ i ∈ ((Store.empty ℝ).run ops).actsOn con, i ∈ comp.elements then T con else 0 := by
    intro cons l h2
    induction h2 with
    | nil => intro _; rfl
    | cons hab _ ih =>
      rename_i a b l1 l2 _
      intro hmem
      rw [List.map_cons, List.map_cons, ih fun con hcon => hmem con (by simp [hcon])]
      congr 1
      refine if_congr ⟨?_, ?_⟩ (hT a (hmem a (by simp)) b hab) rfl
      · rintro ⟨j, hj, hj'⟩
        obtain ⟨i, rfl⟩ := ρ.surjective j
        exact ⟨i, (acts_iff hsame hab i).1 hj, (hel i).1 hj'⟩
      · rintro ⟨i, hi, hi'⟩
        exact ⟨ρ i, (acts_iff hsame hab i).2 hi, (hel i).2 hi'⟩
  rw [h3 h2 fun con hcon => hcon]

/-- The parts of a figure that has only been moved. -/
theorem sameParts_refl {st st' : Store ℝ} (hcons : st'.cons = st.cons) (hargs : st'.arguments = st.arguments) (comps : List Component) : SameParts (Equiv.refl Nat) st st' comps comps := by
  refine ⟨fun comp hcomp _ => ⟨comp, hcomp, fun _ => Iff.rfl, fun T T' hT => ?_⟩, fun i => by rw [hargs]; rfl⟩
  unfold partSum
  rw [hcons]
  refine congrArg List.sum (List.map_congr_left fun n _ => ?_)
  cases hn : st.cons[n]? with
  | none => rfl
  | some con =>
    have h1 : con.rename (Equiv.refl Nat) = con := by cases con <;> rfl
    have := hT con (List.mem_of_getElem? hn) con (by rw [h1])
    simp [this]

end Fiksi
