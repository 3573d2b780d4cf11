import Verif.Spec.Svg
import Verif.Props.Api
import Mathlib.Tactic.Linarith
import Mathlib.Tactic.NormNum
/-!
# C51: rendering a system
-/
namespace Fiksi
open Spec

section
variable {F κ : Type}

theorem eqB_iff {a b : AnyElementHandle} : a.eqB b = true ↔ a.systemId = b.systemId ∧ a.id = b.id := by
  unfold AnyElementHandle.eqB
  rw [Bool.and_eq_true, beq_iff_eq, beq_iff_eq]

theorem asAny_eqB {t t' : ElementTag} {h h' : Handle} : (asAnyElement t h).eqB (asAnyElement t' h') = true ↔ h = h' := by
  rw [eqB_iff]
  cases h
  cases h'
  simp [asAnyElement]

/-- The renderer after a sequence of calls. -/
def rendererOf (rops : List (RenderOp κ)) : SystemRenderer κ := rops.foldl RenderOp.apply (SystemRenderer.new κ)

theorem rendererOf_append (rops : List (RenderOp κ)) (op : RenderOp κ) : rendererOf (rops ++ [op]) = op.apply (rendererOf rops) := by
  simp [rendererOf, List.foldl_append]

theorem isHidden_iff (rops : List (RenderOp κ)) (t : ElementTag) (h : Handle) :
    (rendererOf rops).isHidden (asAnyElement t h) = true ↔ Hidden rops h := by
  induction rops using List.reverseRecOn with
  | nil => simp [rendererOf, SystemRenderer.new, SystemRenderer.isHidden, Hidden]
  | append_singleton rops op ih =>
    rw [rendererOf_append]
    cases op with
    | hide t' h' =>
      have : (RenderOp.apply (rendererOf rops) (.hide t' h')).isHidden (asAnyElement t h) =
          ((asAnyElement t' h').eqB (asAnyElement t h) || (rendererOf rops).isHidden (asAnyElement t h)) := rfl
      rw [this, Bool.or_eq_true, ih, asAny_eqB]
      unfold Hidden
      constructor
      · rintro (rfl | ⟨t'', h1⟩)
        · exact ⟨t', by simp⟩
        · exact ⟨t'', by simp [h1]⟩
      · rintro ⟨t'', h1⟩
        rw [List.mem_append, List.mem_singleton] at h1
        rcases h1 with h1 | h1
        · exact Or.inr ⟨t'', h1⟩
        · cases h1
          exact Or.inl rfl
    | setColor t' h' k =>
      have : (RenderOp.apply (rendererOf rops) (.setColor t' h' k)).isHidden (asAnyElement t h) =
          (rendererOf rops).isHidden (asAnyElement t h) := rfl
      rw [this, ih]
      unfold Hidden
      simp

theorem color_of (rops : List (RenderOp κ)) (default : κ) (t : ElementTag) (h : Handle) :
    HasColor rops default h ((rendererOf rops).color default (asAnyElement t h)) := by
  induction rops using List.reverseRecOn with
  | nil => exact Or.inr ⟨rfl, by simp⟩
  | append_singleton rops op ih =>
    rw [rendererOf_append]
    have hkeep : (∀ t' k', op ≠ .setColor t' h k') →
        HasColor (rops ++ [op]) default h ((rendererOf rops).color default (asAnyElement t h)) := by
      intro hne
      generalize (rendererOf rops).color default (asAnyElement t h) = col at *
      rcases ih with ⟨b, t', a, h1, h2⟩ | ⟨h1, h2⟩
      · refine Or.inl ⟨b, t', a ++ [op], by rw [h1]; simp, fun t'' c' hm => ?_⟩
        rw [List.mem_append, List.mem_singleton] at hm
        rcases hm with hm | hm
        · exact h2 _ _ hm
        · exact hne _ _ hm.symm
      · refine Or.inr ⟨h1, fun t'' c' hm => ?_⟩
        rw [List.mem_append, List.mem_singleton] at hm
        rcases hm with hm | hm
        · exact h2 _ _ hm
        · exact hne _ _ hm.symm
    cases op with
    | hide t' h' => exact hkeep (fun _ _ hh => by cases hh)
    | setColor t' h' k =>
      by_cases hh : h' = h
      · subst hh
        have : (RenderOp.apply (rendererOf rops) (.setColor t' h' k)).color default (asAnyElement t h') = k := by
          unfold SystemRenderer.color RenderOp.apply SystemRenderer.setElementColor
          simp only [List.find?_cons]
          rw [asAny_eqB.2 rfl]
        rw [this]
        exact Or.inl ⟨rops, t', [], by simp, by simp⟩
      · have : (RenderOp.apply (rendererOf rops) (.setColor t' h' k)).color default (asAnyElement t h) =
            (rendererOf rops).color default (asAnyElement t h) := by
          unfold SystemRenderer.color RenderOp.apply SystemRenderer.setElementColor
          simp only [List.find?_cons]
          have : (asAnyElement t' h').eqB (asAnyElement t h) = false := by
            rw [Bool.eq_false_iff]
            intro hc
            exact hh (asAny_eqB.1 hc)
          rw [this]
        rw [this]
        exact hkeep (fun _ _ hc => by cases hc; exact hh rfl)

end

section
variable {F κ : Type} [Add F] [Sub F] [Mul F] [Div F] [Neg F] [Zero F] [One F] [FloatOps F]

/-- Reasoning about the loop over the elements. -/
theorem render_fold {counter : Nat} {ops : List (Op F)} {c : Client F} (h : Reaches counter ops c) (rops : List (RenderOp κ)) (default : κ)
    (lighten : κ → κ) (vb : Option (SvgRect F)) (w : F) (P : Nat → SvgState F κ → Prop) (h0 : P 0 ⟨[], [], none⟩)
    (hskip : ∀ k st, k < ((Store.empty F).run ops).elems.length → Hidden rops ⟨counter, k⟩ → P k st → P (k + 1) st)
    (hdraw : ∀ k st v t, k < ((Store.empty F).run ops).elems.length → ¬ Hidden rops ⟨counter, k⟩ → ((Store.empty F).run ops).value k = some v →
      P k st → P (k + 1) (svgDraw (rendererOf rops) default lighten w st (asAnyElement t ⟨counter, k⟩) v)) :
    ∃ st, (rendererOf rops).renderSystem default lighten vb w c.sys = .ok ⟨match vb with
        | some v => some v
        | none => st.bbox.map svgInflate, st.bottom ++ st.top⟩ ∧ P ((Store.empty F).run ops).elems.length st := by
  have hr := h.crel
  have hid : c.sys.id = counter := h.sysId
  generalize hst : (Store.empty F).run ops = store at *
  have hlen : store.elems.length < 2 ^ 32 := by have := h.size; rw [hst] at this; omega
  unfold SystemRenderer.renderSystem
  rw [hr.rel.getElementHandles hlen, ok_bind]
  have hm : store.elems.mapIdx (fun i e => (⟨c.sys.id, i, e.kind⟩ : AnyElementHandle)) =
      (List.range store.elems.length).map (fun i => asAnyElement ((store.elems[i]?.map Elem.kind).getD .length) ⟨counter, i⟩) := by
    apply List.ext_getElem?
    intro i
    rw [List.getElem?_mapIdx, List.getElem?_map]
    by_cases hi : i < store.elems.length
    · rw [List.getElem?_range hi, List.getElem?_eq_getElem hi]
      simp only [Option.map_some, asAnyElement, hid]
      rw [List.getElem?_eq_getElem hi]
      rfl
    · rw [List.getElem?_eq_none (by omega), List.getElem?_eq_none (by simp; omega)]
      rfl
  rw [hm]
  have key : ∀ k, k ≤ store.elems.length → ∃ st, ((List.range k).map (fun i => asAnyElement ((store.elems[i]?.map Elem.kind).getD .length) ⟨counter, i⟩)).foldlM
      (svgElement (rendererOf rops) default lighten w c.sys) ⟨[], [], none⟩ = .ok st ∧ P k st := by
    intro k
    induction k with
    | zero => intro _; exact ⟨_, rfl, h0⟩
    | succ k ih =>
      intro hk
      obtain ⟨st, h1, h2⟩ := ih (by omega)
      rw [List.range_succ, List.map_append, List.foldlM_append, h1, ok_bind]
      have he := List.getElem?_eq_getElem (show k < store.elems.length by omega)
      simp only [List.map_cons, List.map_nil, List.foldlM_cons, List.foldlM_nil, he, Option.map_some, Option.getD_some]
      unfold svgElement
      by_cases hh : Hidden rops ⟨counter, k⟩
      · rw [(isHidden_iff rops _ _).2 hh]
        exact ⟨st, rfl, hskip k st (by omega) hh h2⟩
      · have : (rendererOf rops).isHidden (asAnyElement store.elems[k].kind ⟨counter, k⟩) = false := by
          rw [Bool.eq_false_iff, ne_eq, isHidden_iff]
          exact hh
        rw [this]
        obtain ⟨v, hv1, hv2⟩ := hr.getValue he
        have hv3 : c.sys.getValueAny (asAnyElement store.elems[k].kind ⟨counter, k⟩) = .ok v := by
          rw [← hv2, ← hid]
          unfold System.getValueAny System.getValue asAnyElement
          cases store.elems[k] <;> rfl
        rw [if_neg (by simp), hv3, ok_bind]
        exact ⟨_, rfl, hdraw k st v _ (by omega) hh hv1 h2⟩
  obtain ⟨st, h1, h2⟩ := key _ (le_refl _)
  rw [h1, ok_bind]
  exact ⟨st, rfl, h2⟩

open Classical in
/-- C51 (what is drawn): rendering any system that can be built, with any sequence of calls to the renderer before, draws first one line or
circle for each line and circle that was not hidden, then one point for each point that was not hidden, each in creation order, at its
current value, and nothing else. Each is drawn in the colour set last for it. A given view box is used as it is. -/
theorem C51_shapes {counter : Nat} {ops : List (Op F)} {c : Client F} (h : Reaches counter ops c) (rops : List (RenderOp κ)) (default : κ)
    (lighten : κ → κ) (vb : Option (SvgRect F)) (w : F) :
    ∃ doc below above, (rendererOf rops).renderSystem default lighten vb w c.sys = .ok doc ∧ doc.shapes = below ++ above ∧
      below.map SvgShape.drawn = (List.range ((Store.empty F).run ops).elems.length).filterMap (fun i =>
        if Hidden rops ⟨counter, i⟩ then none else (((Store.empty F).run ops).value i).bind (drawnBelow (counter * 2 ^ 32 + i))) ∧
      above.map SvgShape.drawn = (List.range ((Store.empty F).run ops).elems.length).filterMap (fun i =>
        if Hidden rops ⟨counter, i⟩ then none else (((Store.empty F).run ops).value i).bind (drawnAbove (counter * 2 ^ 32 + i))) ∧
      (∀ s ∈ doc.shapes, ∃ i, s.drawn.id = counter * 2 ^ 32 + i ∧ i < ((Store.empty F).run ops).elems.length ∧ HasColor rops default ⟨counter, i⟩ s.stroke) ∧
      ∀ b, vb = some b → doc.viewBox = some b := by
  have hid : ∀ t i, (asAnyElement t ⟨counter, i⟩).asId = counter * 2 ^ 32 + i := fun t i => by
    simp [asAnyElement, AnyElementHandle.asId, Nat.shiftLeft_eq]
  obtain ⟨st, h1, h2, h3, h4⟩ := render_fold h rops default lighten vb w (fun k st =>
    st.bottom.map SvgShape.drawn = (List.range k).filterMap (fun i =>
        if Hidden rops ⟨counter, i⟩ then none else (((Store.empty F).run ops).value i).bind (drawnBelow (counter * 2 ^ 32 + i))) ∧
    st.top.map SvgShape.drawn = (List.range k).filterMap (fun i =>
        if Hidden rops ⟨counter, i⟩ then none else (((Store.empty F).run ops).value i).bind (drawnAbove (counter * 2 ^ 32 + i))) ∧
    ∀ s ∈ st.bottom ++ st.top, ∃ i, s.drawn.id = counter * 2 ^ 32 + i ∧ i < k ∧ HasColor rops default ⟨counter, i⟩ s.stroke)
    ⟨rfl, rfl, by simp⟩
    (by
      rintro k st hk hh ⟨e1, e2, e3⟩
      refine ⟨?_, ?_, fun s hs => ?_⟩
      · rw [List.range_succ, List.filterMap_append, ← e1]; simp [hh]
      · rw [List.range_succ, List.filterMap_append, ← e2]; simp [hh]
      · obtain ⟨i, i1, i2, i3⟩ := e3 s hs
        exact ⟨i, i1, by omega, i3⟩)
    (by
      rintro k st v t hk hh hv ⟨e1, e2, e3⟩
      have hcol := color_of rops default t ⟨counter, k⟩
      rw [List.range_succ, List.filterMap_append, List.filterMap_append, ← e1, ← e2]
      simp only [List.filterMap_cons, List.filterMap_nil, if_neg hh, hv, Option.bind_some]
      have old : ∀ s ∈ st.bottom ++ st.top, ∃ i, s.drawn.id = counter * 2 ^ 32 + i ∧ i < k + 1 ∧ HasColor rops default ⟨counter, i⟩ s.stroke := by
        intro s hs
        obtain ⟨i, i1, i2, i3⟩ := e3 s hs
        exact ⟨i, i1, by omega, i3⟩
      cases v with
      | length v => exact ⟨by simp [svgDraw, drawnBelow], by simp [svgDraw, drawnAbove], old⟩
      | point x y =>
        refine ⟨by simp [svgDraw, drawnBelow], by simp [svgDraw, drawnAbove, SvgShape.drawn, hid], fun s hs => ?_⟩
        simp only [svgDraw] at hs
        rw [← List.append_assoc, List.mem_append, List.mem_singleton] at hs
        rcases hs with hs | rfl
        · exact old s hs
        · exact ⟨k, hid t k, by omega, hcol⟩
      | line x0 y0 x1 y1 =>
        refine ⟨by simp [svgDraw, drawnBelow, SvgShape.drawn, hid], by simp [svgDraw, drawnAbove], fun s hs => ?_⟩
        simp only [svgDraw, List.mem_append, List.mem_singleton] at hs
        rcases hs with (hs | rfl) | hs
        · exact old s (by simp [hs])
        · exact ⟨k, hid t k, by omega, hcol⟩
        · exact old s (by simp [hs])
      | circle x y r =>
        refine ⟨by simp [svgDraw, drawnBelow, SvgShape.drawn, hid], by simp [svgDraw, drawnAbove], fun s hs => ?_⟩
        simp only [svgDraw, List.mem_append, List.mem_singleton] at hs
        rcases hs with (hs | rfl) | hs
        · exact old s (by simp [hs])
        · exact ⟨k, hid t k, by omega, hcol⟩
        · exact old s (by simp [hs]))
  exact ⟨_, st.bottom, st.top, h1, rfl, h2, h3, h4, fun b hb => by subst hb; rfl⟩

/-- C51 (identifiers): the shapes of a drawing have different identifiers. -/
theorem C51_once {counter : Nat} {ops : List (Op F)} {c : Client F} (h : Reaches counter ops c) (rops : List (RenderOp κ)) (default : κ)
    (lighten : κ → κ) (vb : Option (SvgRect F)) (w : F) {doc : SvgDocument F κ}
    (hd : (rendererOf rops).renderSystem default lighten vb w c.sys = .ok doc) : (doc.shapes.map (fun s => s.drawn.id)).Nodup := by
  have hid : ∀ t i, (asAnyElement t ⟨counter, i⟩).asId = counter * 2 ^ 32 + i := fun t i => by
    simp [asAnyElement, AnyElementHandle.asId, Nat.shiftLeft_eq]
  obtain ⟨st, h1, h2, h3⟩ := render_fold h rops default lighten vb w (fun k st =>
    ((st.bottom ++ st.top).map (fun s => s.drawn.id)).Nodup ∧ ∀ s ∈ st.bottom ++ st.top, s.drawn.id < counter * 2 ^ 32 + k)
    ⟨by simp, by simp⟩
    (by
      rintro k st hk hh ⟨e1, e2⟩
      exact ⟨e1, fun s hs => by have := e2 s hs; omega⟩)
    (by
      rintro k st v t hk hh hv ⟨e1, e2⟩
      have hnew : counter * 2 ^ 32 + k ∉ (st.bottom ++ st.top).map (fun s => s.drawn.id) := by
        intro hm
        obtain ⟨s, hs, he⟩ := List.mem_map.1 hm
        have := e2 s hs
        omega
      have hperm : ∀ s : SvgShape F κ, s.drawn.id = counter * 2 ^ 32 + k → ∀ l : List (SvgShape F κ), l.Perm (s :: (st.bottom ++ st.top)) →
          (l.map (fun s => s.drawn.id)).Nodup ∧ ∀ s ∈ l, s.drawn.id < counter * 2 ^ 32 + (k + 1) := by
        intro s hs l hl
        refine ⟨(hl.map _).nodup_iff.2 ?_, fun s' hs' => ?_⟩
        · rw [List.map_cons, List.nodup_cons, hs]
          exact ⟨hnew, e1⟩
        · have := hl.mem_iff.1 hs'
          rw [List.mem_cons] at this
          rcases this with rfl | this
          · omega
          · have := e2 s' this; omega
      cases v with
      | length v => exact ⟨e1, fun s hs => by have := e2 s hs; omega⟩
      | point x y =>
        refine hperm (.point x y w ((rendererOf rops).color default (asAnyElement t ⟨counter, k⟩))
          (w * ratio 25 100) (lighten ((rendererOf rops).color default (asAnyElement t ⟨counter, k⟩))) (asAnyElement t ⟨counter, k⟩).asId) (hid t k) _ ?_
        simp only [svgDraw]
        rw [← List.append_assoc]
        exact List.perm_append_singleton _ _
      | line x0 y0 x1 y1 =>
        refine hperm (.line x0 y0 x1 y1 ((rendererOf rops).color default (asAnyElement t ⟨counter, k⟩)) w (asAnyElement t ⟨counter, k⟩).asId) (hid t k) _ ?_
        simp only [svgDraw, List.append_assoc]
        exact List.perm_middle
      | circle x y r =>
        refine hperm (.circle x y r ((rendererOf rops).color default (asAnyElement t ⟨counter, k⟩)) w (asAnyElement t ⟨counter, k⟩).asId) (hid t k) _ ?_
        simp only [svgDraw, List.append_assoc]
        exact List.perm_middle)
  rw [h1] at hd
  cases hd
  exact h2

end

/-! ## The view box, over the reals -/

theorem svgMin_le (x y : ℝ) : svgMin x y ≤ x ∧ svgMin x y ≤ y := by
  unfold svgMin
  by_cases h : x < y
  · simp [FloatOps.ltB, h, h.le]
  · simp [FloatOps.ltB, h, not_lt.1 h]

theorem le_svgMax (x y : ℝ) : x ≤ svgMax x y ∧ y ≤ svgMax x y := by
  unfold svgMax
  by_cases h : x < y
  · simp [FloatOps.ltB, h, h.le]
  · simp [FloatOps.ltB, h, not_lt.1 h]

/-- The box contains the point. -/
def SvgRect.Contains (b : SvgRect ℝ) (q : ℝ × ℝ) : Prop := b.x0 ≤ q.1 ∧ q.1 ≤ b.x1 ∧ b.y0 ≤ q.2 ∧ q.2 ≤ b.y1

theorem union_left {a b : SvgRect ℝ} {q : ℝ × ℝ} (h : a.Contains q) : (a.union b).Contains q := by
  obtain ⟨h1, h2, h3, h4⟩ := h
  exact ⟨(svgMin_le _ _).1.trans h1, h2.trans (le_svgMax _ _).1, (svgMin_le _ _).1.trans h3, h4.trans (le_svgMax _ _).1⟩

theorem union_right {a b : SvgRect ℝ} {q : ℝ × ℝ} (h : b.Contains q) : (a.union b).Contains q := by
  obtain ⟨h1, h2, h3, h4⟩ := h
  exact ⟨(svgMin_le _ _).2.trans h1, h2.trans (le_svgMax _ _).2, (svgMin_le _ _).2.trans h3, h4.trans (le_svgMax _ _).2⟩

theorem svgUnion_new (bbox : Option (SvgRect ℝ)) (b : SvgRect ℝ) : ∃ b', svgUnion bbox b = some b' ∧ ∀ q, b.Contains q → b'.Contains q := by
  cases bbox with
  | none => exact ⟨b, rfl, fun _ h => h⟩
  | some a => exact ⟨_, rfl, fun _ h => union_right h⟩

theorem svgUnion_old {bbox : Option (SvgRect ℝ)} (b : SvgRect ℝ) {a : SvgRect ℝ} (ha : bbox = some a) :
    ∃ b', svgUnion bbox b = some b' ∧ ∀ q, a.Contains q → b'.Contains q := by
  subst ha
  exact ⟨_, rfl, fun _ h => union_left h⟩

theorem lineBox_contains {x0 y0 x1 y1 t : ℝ} (h0 : 0 ≤ t) (h1 : t ≤ 1) :
    (svgLineBox x0 y0 x1 y1).Contains (x0 + t * (x1 - x0), y0 + t * (y1 - y0)) := by
  have between : ∀ a b m : ℝ, m ≤ a → m ≤ b → m ≤ a + t * (b - a) := by
    intro a b m ha hb
    nlinarith [mul_nonneg h0 (sub_nonneg.2 hb), mul_nonneg (sub_nonneg.2 h1) (sub_nonneg.2 ha)]
  have between' : ∀ a b m : ℝ, a ≤ m → b ≤ m → a + t * (b - a) ≤ m := by
    intro a b m ha hb
    nlinarith [mul_nonneg h0 (sub_nonneg.2 hb), mul_nonneg (sub_nonneg.2 h1) (sub_nonneg.2 ha)]
  exact ⟨between _ _ _ (svgMin_le _ _).1 (svgMin_le _ _).2, between' _ _ _ (le_svgMax _ _).1 (le_svgMax _ _).2,
    between _ _ _ (svgMin_le _ _).1 (svgMin_le _ _).2, between' _ _ _ (le_svgMax _ _).1 (le_svgMax _ _).2⟩

theorem circleBox_contains {x y r : ℝ} {q : ℝ × ℝ} (h : (q.1 - x) ^ 2 + (q.2 - y) ^ 2 ≤ r ^ 2) : (svgCircleBox x y r).Contains q := by
  have h1 : |q.1 - x| ≤ |r| := sq_le_sq.1 (by nlinarith [sq_nonneg (q.2 - y)])
  have h2 : |q.2 - y| ≤ |r| := sq_le_sq.1 (by nlinarith [sq_nonneg (q.1 - x)])
  rw [abs_le] at h1 h2
  unfold svgCircleBox
  simp only [SvgRect.Contains, FloatOps.abs]
  exact ⟨by linarith, by linarith, by linarith, by linarith⟩

theorem inflate_contains {b : SvgRect ℝ} {q : ℝ × ℝ} (h : b.Contains q) : (svgInflate b).Contains q := by
  obtain ⟨h1, h2, h3, h4⟩ := h
  have hd : 0 ≤ svgMax (b.x1 - b.x0) (b.y1 - b.y0) * ratio 1 10 := by
    refine mul_nonneg ?_ ?_
    · have := (le_svgMax (b.x1 - b.x0) (b.y1 - b.y0)).1
      linarith
    · simp only [ratio, FloatOps.ofNat]
      positivity
  unfold svgInflate
  simp only [SvgRect.Contains]
  exact ⟨by linarith, by linarith, by linarith, by linarith⟩

/-- C51 (view box): if no view box is given, the view box of the drawing contains every shape (lines and discs as sets of points; points by
their centre). -/
theorem C51_view_box {κ : Type} {counter : Nat} {ops : List (Op ℝ)} {c : Client ℝ} (h : Reaches counter ops c) (rops : List (RenderOp κ))
    (default : κ) (lighten : κ → κ) (w : ℝ) {doc : SvgDocument ℝ κ}
    (hd : (rendererOf rops).renderSystem default lighten none w c.sys = .ok doc) :
    ∀ s ∈ doc.shapes, ∃ b, doc.viewBox = some b ∧ ∀ q, s.drawn.covers q → b.Contains q := by
  obtain ⟨st, h1, h2⟩ := render_fold h rops default lighten none w (fun _ st =>
    ∀ s ∈ st.bottom ++ st.top, ∃ b, st.bbox = some b ∧ ∀ q, s.drawn.covers q → b.Contains q)
    (by simp) (fun k st _ _ e => e)
    (by
      rintro k st v t hk hh hv e
      -- the shapes before stay inside
      have old : ∀ b : SvgRect ℝ, ∀ s ∈ st.bottom ++ st.top, ∃ b', svgUnion st.bbox b = some b' ∧ ∀ q, s.drawn.covers q → b'.Contains q := by
        intro b s hs
        obtain ⟨a, ha, hq⟩ := e s hs
        obtain ⟨b', hb', hc⟩ := svgUnion_old b ha
        exact ⟨b', hb', fun q hq' => hc q (hq q hq')⟩
      cases v with
      | length v => exact e
      | point x y =>
        intro s hs
        simp only [svgDraw] at hs
        rw [← List.append_assoc, List.mem_append, List.mem_singleton] at hs
        rcases hs with hs | rfl
        · exact old _ s hs
        · obtain ⟨b', hb', hc⟩ := svgUnion_new st.bbox ⟨x, y, x, y⟩
          refine ⟨b', hb', fun q hq => hc q ?_⟩
          have : q = (x, y) := hq
          subst this
          exact ⟨le_refl _, le_refl _, le_refl _, le_refl _⟩
      | line x0 y0 x1 y1 =>
        intro s hs
        simp only [svgDraw, List.mem_append, List.mem_singleton] at hs
        rcases hs with (hs | rfl) | hs
        · exact old _ s (by simp [hs])
        · obtain ⟨b', hb', hc⟩ := svgUnion_new st.bbox (svgLineBox x0 y0 x1 y1)
          refine ⟨b', hb', fun q hq => hc q ?_⟩
          obtain ⟨t, t0, t1, rfl⟩ := hq
          exact lineBox_contains t0 t1
        · exact old _ s (by simp [hs])
      | circle x y r =>
        intro s hs
        simp only [svgDraw, List.mem_append, List.mem_singleton] at hs
        rcases hs with (hs | rfl) | hs
        · exact old _ s (by simp [hs])
        · obtain ⟨b', hb', hc⟩ := svgUnion_new st.bbox (svgCircleBox x y r)
          exact ⟨b', hb', fun q hq => hc q (circleBox_contains hq)⟩
        · exact old _ s (by simp [hs]))
  rw [h1] at hd
  cases hd
  intro s hs
  obtain ⟨b, hb, hq⟩ := h2 s hs
  refine ⟨svgInflate b, by simp [hb], fun q hq' => inflate_contains (hq q hq')⟩

/-! ## Examples and limits -/

/-- A system with two points, a length, a line and a circle. -/
def svgOps : List (Op ℝ) := [.createPoint 0 0, .createPoint 3 4, .createLength 2, .createLine 0 1, .createCircle 0 2]

theorem svgOps_legal : (Store.empty ℝ).LegalRun svgOps := by
  simp [svgOps, Store.LegalRun, Store.Legal, Store.empty, Store.step, Store.IsPoint, Store.IsLength]

theorem svgOps_reaches : ∃ c, Reaches 0 svgOps c := by
  obtain ⟨c, h1, -, -⟩ := (CRel.new (F := ℝ) 0).run svgOps (by simp [Store.empty, svgOps]) (by simp [Store.empty, svgOps]) svgOps_legal
  exact ⟨c, by simp [svgOps], svgOps_legal, h1⟩

/-- With the second point hidden, the line, the circle and the first point are drawn, in this order. -/
example : ∃ c doc, Reaches 0 svgOps c ∧
    (rendererOf [RenderOp.hide .point ⟨0, 1⟩]).renderSystem () id none (1 : ℝ) c.sys = .ok doc ∧
    doc.shapes.map SvgShape.drawn = [.line 0 0 3 4 3, .circle 0 0 2 4, .point 0 0 0] := by
  obtain ⟨c, hc⟩ := svgOps_reaches
  obtain ⟨doc, b, a, h1, h2, h3, h4, _⟩ := C51_shapes hc [RenderOp.hide .point ⟨0, 1⟩] () id none 1
  refine ⟨c, doc, hc, h1, ?_⟩
  rw [h2, List.map_append, h3, h4]
  have hrun : (Store.empty ℝ).run svgOps = ⟨[.point 0 0, .point 3 4, .length 2, .line 0 1, .circle 0 2], [], ∅⟩ := by
    simp [svgOps, Store.run, Store.empty, Store.step]
  have hid : ∀ i, Hidden [RenderOp.hide (κ := Unit) .point ⟨0, 1⟩] ⟨0, i⟩ ↔ i = 1 := by
    intro i
    simp [Hidden]
  rw [hrun]
  simp [hid, List.range_succ, Store.value, Store.pointAt, Store.lengthAt, drawnBelow, drawnAbove]

/-- The marker of a point is not taken into account: the view box of a single point has no width and no height (an SVG viewer then shows
nothing). -/
theorem C51_single_point_degenerate (x y w : ℝ) {c : Client ℝ} (h : Reaches 0 [.createPoint x y] c) :
    ((rendererOf []).renderSystem () id none w c.sys).map SvgDocument.viewBox = .ok (some ⟨x, y, x, y⟩) := by
  obtain ⟨st, h1, h2⟩ := render_fold h ([] : List (RenderOp Unit)) () id none w (fun k st => (k = 0 → st.bbox = none) ∧ (k = 1 → st.bbox = some ⟨x, y, x, y⟩))
    ⟨fun _ => rfl, fun hh => by omega⟩
    (fun k st _ hh _ => by simp [Hidden] at hh)
    (by
      rintro k st v t hk _ hv ⟨e1, e2⟩
      have hk : k < 1 := hk
      have : k = 0 := by omega
      subst this
      have hv : some (ElementValue.point x y) = some v := hv
      cases hv
      refine ⟨fun hh => by omega, fun _ => ?_⟩
      simp [svgDraw, e1 rfl, svgUnion])
  have hb := h2.2 rfl
  rw [h1]
  simp only [Except.map, hb, Option.map_some]
  simp [svgInflate, svgMax, FloatOps.ltB]

end Fiksi
