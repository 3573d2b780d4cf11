import Verif.Proofs.WholeSolve
/-!
# The term of a constraint in a turned and renumbered figure
-/
namespace Fiksi
open Spec

/-- The values `g'` of the variables of the elements `es'` are the values `g` of those of `es`, with the points turned. -/
structure MovedValues (c s e : ℝ) (es es' : List (Elem ℝ)) (ρ : Nat → Nat) (g g' : Nat → ℝ) : Prop where
  point : ∀ {i x y}, es[i]? = some (.point x y) → TurnedAt c s e g g' (off es i) (off es' (ρ i))
  length : ∀ {i x}, es[i]? = some (.length x) → g' (off es' (ρ i)) = g (off es i)

theorem lineOff_rename {es es' : List (Elem ℝ)} {ρ : Nat → Nat} {f : ℂ → ℂ} (hes : ∀ i, es'[ρ i]? = es[i]?.map fun e => (Geo.mapElem f e).rename ρ) {l p q : Nat}
    (hl : es[l]? = some (.line p q)) : lineOff es l = (off es p, off es q) ∧ lineOff es' (ρ l) = (off es' (ρ p), off es' (ρ q)) := by
  have h1 := hes l
  rw [hl] at h1
  simp only [Option.map_some, Geo.mapElem, Elem.rename] at h1
  simp only [lineOff, hl, h1, and_self]

theorem circOff_rename {es es' : List (Elem ℝ)} {ρ : Nat → Nat} {f : ℂ → ℂ} (hes : ∀ i, es'[ρ i]? = es[i]?.map fun e => (Geo.mapElem f e).rename ρ) {l p q : Nat}
    (hl : es[l]? = some (.circle p q)) : circOff es l = (off es p, off es q) ∧ circOff es' (ρ l) = (off es' (ρ p), off es' (ρ q)) := by
  have h1 := hes l
  rw [hl] at h1
  simp only [Option.map_some, Geo.mapElem, Elem.rename] at h1
  simp only [circOff, hl, h1, and_self]

/-- A turned and renumbered constraint adds the same to the linear model. -/
theorem conTerm_turn {φ : ℝ} {mirror : Bool} {st : Store ℝ} {es' : List (Elem ℝ)} {ρ : Nat → Nat} {f : ℂ → ℂ} (r : ℝ)
    (hwf : ∀ (i : Nat) e, st.elems[i]? = some e → ElemOk st e)
    (hes : ∀ i, es'[ρ i]? = st.elems[i]?.map fun e => (Geo.mapElem f e).rename ρ) {g g' d d' : Nat → ℝ}
    (hg : MovedValues (Real.cos φ) (Real.sin φ) (if mirror then -1 else 1) st.elems es' ρ g g')
    (hd : MovedValues (Real.cos φ) (Real.sin φ) (if mirror then -1 else 1) st.elems es' ρ d d')
    {con : Spec.Con ℝ} (hcon : st.ConOk con) (ht : con.Turns φ mirror) : conTerm es' r (con.rename ρ) g' d' = conTerm st.elems r con g d := by
  have h : Real.cos φ ^ 2 + Real.sin φ ^ 2 = 1 := Real.cos_sq_add_sin_sq φ
  have he : (if mirror then (-1 : ℝ) else 1) = 1 ∨ (if mirror then (-1 : ℝ) else 1) = -1 := by cases mirror <;> simp
  have line : ∀ {l : Nat}, st.IsLine l → ∃ p q, st.IsPoint p ∧ st.IsPoint q ∧ lineOff st.elems l = (off st.elems p, off st.elems q) ∧ lineOff es' (ρ l) = (off es' (ρ p), off es' (ρ q)) := by
    rintro l ⟨p, q, hl⟩
    have := hwf l _ hl
    exact ⟨p, q, this.1, this.2, lineOff_rename hes hl⟩
  have circ : ∀ {l : Nat}, st.IsCircle l → ∃ p q, st.IsPoint p ∧ st.IsLength q ∧ circOff st.elems l = (off st.elems p, off st.elems q) ∧ circOff es' (ρ l) = (off es' (ρ p), off es' (ρ q)) := by
    rintro l ⟨p, q, hl⟩
    have := hwf l _ hl
    exact ⟨p, q, this.1, this.2, circOff_rename hes hl⟩
  have pg : ∀ {p : Nat}, st.IsPoint p → TurnedAt (Real.cos φ) (Real.sin φ) (if mirror then -1 else 1) g g' (off st.elems p) (off es' (ρ p)) := by
    rintro p ⟨x, y, hp⟩
    exact hg.point hp
  have pd : ∀ {p : Nat}, st.IsPoint p → TurnedAt (Real.cos φ) (Real.sin φ) (if mirror then -1 else 1) d d' (off st.elems p) (off es' (ρ p)) := by
    rintro p ⟨x, y, hp⟩
    exact hd.point hp
  have lg : ∀ {p : Nat}, st.IsLength p → g' (off es' (ρ p)) = g (off st.elems p) := by
    rintro p ⟨x, hp⟩
    exact hg.length hp
  have ld : ∀ {p : Nat}, st.IsLength p → d' (off es' (ρ p)) = d (off st.elems p) := by
    rintro p ⟨x, hp⟩
    exact hd.length hp
  have sq : ∀ {a b : ℝ}, a = (if mirror then (-1 : ℝ) else 1) * b → a ^ 2 = b ^ 2 := by
    rintro a b rfl
    rcases he with h | h <;> rw [h] <;> ring
  have same : ∀ {k k' : Nat → ℝ} {p p' : Nat}, φ = 0 ∧ mirror = false → TurnedAt (Real.cos φ) (Real.sin φ) (if mirror then -1 else 1) k k' p p' → k' p' = k p ∧ k' (p' + 1) = k (p + 1) := by
    rintro k k' p p' ⟨rfl, rfl⟩ hk
    refine ⟨?_, ?_⟩
    · rw [hk.fst]; simp
    · rw [hk.snd]; simp
  have one : mirror = false → (if mirror then (-1 : ℝ) else 1) = 1 := by rintro rfl; simp
  unfold conTerm
  cases con with
  | pointPointCoincidence p q =>
    simp only [Spec.Con.rename, encCon, List.map, List.sum_cons, List.sum_nil, add_zero, Expr.transform]
    exact turn_vve h he (pg hcon.1) (pd hcon.1) (pg hcon.2) (pd hcon.2)
  | pointPointDistance p q D =>
    simp only [Spec.Con.rename, encCon, List.map, List.sum_cons, List.sum_nil, add_zero, Expr.transform]
    rw [turn_ppd h he (pg hcon.1) (pd hcon.1) (pg hcon.2) (pd hcon.2)]
  | pointPointPointAngle p q u a =>
    obtain ⟨a1, a2⟩ := same ht (pg hcon.1)
    obtain ⟨a3, a4⟩ := same ht (pg hcon.2.1)
    obtain ⟨a5, a6⟩ := same ht (pg hcon.2.2)
    obtain ⟨b1, b2⟩ := same ht (pd hcon.1)
    obtain ⟨b3, b4⟩ := same ht (pd hcon.2.1)
    obtain ⟨b5, b6⟩ := same ht (pd hcon.2.2)
    simp only [Spec.Con.rename, encCon, List.map, Expr.transform, Expr.linear, Expr.variableIndices, a1, a2, a3, a4, a5, a6, b1, b2, b3, b4, b5, b6, Expr.computeResidualAndGradient]
  | pointLineIncidence p l =>
    obtain ⟨u, v, hu, hv, e1, e2⟩ := line hcon.2
    simp only [Spec.Con.rename, encCon, List.map, List.sum_cons, List.sum_nil, add_zero, Expr.transform, e1, e2]
    exact sq (turn_pli h he (pg hcon.1) (pd hcon.1) (pg hu) (pd hu) (pg hv) (pd hv))
  | pointLineDistance p l D =>
    obtain ⟨u, v, hu, hv, e1, e2⟩ := line hcon.2
    simp only [Spec.Con.rename, encCon, List.map, List.sum_cons, List.sum_nil, add_zero, Expr.transform, e1, e2]
    rw [turn_pld h he (pg hcon.1) (pd hcon.1) (pg hu) (pd hu) (pg hv) (pd hv) (one ht)]
  | pointCircleIncidence p l =>
    obtain ⟨u, v, hu, hv, e1, e2⟩ := circ hcon.2
    simp only [Spec.Con.rename, encCon, List.map, List.sum_cons, List.sum_nil, add_zero, Expr.transform, e1, e2]
    rw [turn_pci h he (pg hcon.1) (pd hcon.1) (pg hu) (pd hu) (lg hv) (ld hv)]
  | segmentSegmentLengthEquality p q u v =>
    simp only [Spec.Con.rename, encCon, List.map, List.sum_cons, List.sum_nil, add_zero, Expr.transform]
    rw [turn_ssle h he (pg hcon.1) (pd hcon.1) (pg hcon.2.1) (pd hcon.2.1) (pg hcon.2.2.1) (pd hcon.2.2.1) (pg hcon.2.2.2) (pd hcon.2.2.2)]
  | lineLineAngle l m a =>
    obtain ⟨p, q, hp, hq, e1, e2⟩ := line hcon.1
    obtain ⟨u, v, hu, hv, e3, e4⟩ := line hcon.2
    obtain ⟨a1, a2⟩ := same ht (pg hp)
    obtain ⟨a3, a4⟩ := same ht (pg hq)
    obtain ⟨a5, a6⟩ := same ht (pg hu)
    obtain ⟨a7, a8⟩ := same ht (pg hv)
    obtain ⟨b1, b2⟩ := same ht (pd hp)
    obtain ⟨b3, b4⟩ := same ht (pd hq)
    obtain ⟨b5, b6⟩ := same ht (pd hu)
    obtain ⟨b7, b8⟩ := same ht (pd hv)
    simp only [Spec.Con.rename, encCon, List.map, Expr.transform, Expr.linear, Expr.variableIndices, e1, e2, e3, e4, a1, a2, a3, a4, a5, a6, a7, a8, b1, b2, b3, b4, b5, b6, b7, b8, Expr.computeResidualAndGradient]
  | lineLineParallelism l m =>
    obtain ⟨p, q, hp, hq, e1, e2⟩ := line hcon.1
    obtain ⟨u, v, hu, hv, e3, e4⟩ := line hcon.2
    simp only [Spec.Con.rename, encCon, List.map, List.sum_cons, List.sum_nil, add_zero, Expr.transform, e1, e2, e3, e4]
    exact sq (turn_llpar h he (pg hp) (pd hp) (pg hq) (pd hq) (pg hu) (pd hu) (pg hv) (pd hv))
  | lineLinePerpendicularity l m =>
    obtain ⟨p, q, hp, hq, e1, e2⟩ := line hcon.1
    obtain ⟨u, v, hu, hv, e3, e4⟩ := line hcon.2
    simp only [Spec.Con.rename, encCon, List.map, List.sum_cons, List.sum_nil, add_zero, Expr.transform, e1, e2, e3, e4]
    rw [turn_llperp h he (pg hp) (pd hp) (pg hq) (pd hq) (pg hu) (pd hu) (pg hv) (pd hv)]
  | lineCircleTangency l m =>
    obtain ⟨p, q, hp, hq, e1, e2⟩ := line hcon.1
    obtain ⟨u, v, hu, hv, e3, e4⟩ := circ hcon.2
    simp only [Spec.Con.rename, encCon, List.map, List.sum_cons, List.sum_nil, add_zero, Expr.transform, e1, e2, e3, e4]
    rw [turn_lct h he (pg hp) (pd hp) (pg hq) (pd hq) (pg hu) (pd hu) (one ht) (lg hv) (ld hv)]

theorem wrapAngle_neg (x : ℝ) : wrapAngle (-x) = -wrapAngle x := by
  rw [wrapAngle_real, wrapAngle_real]
  unfold wrapR
  have := Real.pi_pos
  split_ifs <;> linarith

/-- The order of symmetric arguments does not matter. -/
theorem conTerm_flip (es : List (Elem ℝ)) (r : ℝ) (g d : Nat → ℝ) {con con' : Spec.Con ℝ} (h : con.Flip con') : conTerm es r con' g d = conTerm es r con g d := by
  unfold conTerm
  cases h with
  | coincidence p q =>
    simp only [encCon, List.map, List.sum_cons, List.sum_nil, add_zero, Expr.transform, Expr.linear, Expr.variableIndices, Expr.computeResidualAndGradient, vveResGrad, List.zipWith]
    ring
  | distance p q D =>
    simp only [encCon, List.map, List.sum_cons, List.sum_nil, add_zero, Expr.transform, Expr.linear, Expr.variableIndices, Expr.computeResidualAndGradient, ppdResGrad, square, List.zipWith]
    have h1 : ∀ x y u v : ℝ, (x - y) * (x - y) + (u - v) * (u - v) = (y - x) * (y - x) + (v - u) * (v - u) := fun _ _ _ _ => by ring
    rw [h1 (g (off es q))]
    ring
  | angle p q u a =>
    simp only [encCon, List.map, List.sum_cons, List.sum_nil, add_zero, Expr.transform, Expr.linear, Expr.variableIndices, Expr.computeResidualAndGradient, pppaResGrad, List.zipWith]
    generalize FloatOps.atan2 (g (off es p + 1) - g (off es q + 1)) (g (off es p) - g (off es q)) = A
    generalize FloatOps.atan2 (g (off es u + 1) - g (off es q + 1)) (g (off es u) - g (off es q)) = B
    rw [← neg_sub B A, wrapAngle_neg]
    ring
  | firstSegment p q u v =>
    simp only [encCon, List.map, List.sum_cons, List.sum_nil, add_zero, Expr.transform, Expr.linear, Expr.variableIndices, Expr.computeResidualAndGradient, ssleResGrad, ppdResGrad, square, List.zipWith,
      List.cons_append, List.nil_append]
    have h1 : ∀ x y u v : ℝ, (x - y) * (x - y) + (u - v) * (u - v) = (y - x) * (y - x) + (v - u) * (v - u) := fun _ _ _ _ => by ring
    rw [h1 (g (off es q)) (g (off es p))]
    ring
  | secondSegment p q u v =>
    simp only [encCon, List.map, List.sum_cons, List.sum_nil, add_zero, Expr.transform, Expr.linear, Expr.variableIndices, Expr.computeResidualAndGradient, ssleResGrad, ppdResGrad, square, List.zipWith,
      List.cons_append, List.nil_append]
    have h1 : ∀ x y u v : ℝ, (x - y) * (x - y) + (u - v) * (u - v) = (y - x) * (y - x) + (v - u) * (v - u) := fun _ _ _ _ => by ring
    rw [h1 (g (off es v)) (g (off es u))]
    ring
  | segments p q u v =>
    simp only [encCon, List.map, List.sum_cons, List.sum_nil, add_zero, Expr.transform, Expr.linear, Expr.variableIndices, Expr.computeResidualAndGradient, ssleResGrad, ppdResGrad, square, List.zipWith,
      List.cons_append, List.nil_append]
    ring
  | lineAngle l m a =>
    simp only [encCon, List.map, List.sum_cons, List.sum_nil, add_zero, Expr.transform, Expr.linear, Expr.variableIndices, Expr.computeResidualAndGradient, llaResGrad, List.zipWith]
    generalize FloatOps.atan2 (g ((lineOff es l).2 + 1) - g ((lineOff es l).1 + 1)) (g (lineOff es l).2 - g (lineOff es l).1) = A
    generalize FloatOps.atan2 (g ((lineOff es m).2 + 1) - g ((lineOff es m).1 + 1)) (g (lineOff es m).2 - g (lineOff es m).1) = B
    rw [← neg_sub B A, wrapAngle_neg]
    ring
  | parallelism l m =>
    simp only [encCon, List.map, List.sum_cons, List.sum_nil, add_zero, Expr.transform, Expr.linear, Expr.variableIndices, Expr.computeResidualAndGradient, llparResGrad, List.zipWith]
    ring
  | perpendicularity l m =>
    simp only [encCon, List.map, List.sum_cons, List.sum_nil, add_zero, Expr.transform, Expr.linear, Expr.variableIndices, Expr.computeResidualAndGradient, llperpResGrad, List.zipWith]
    ring

theorem conTerm_flips (es : List (Elem ℝ)) (r : ℝ) (g d : Nat → ℝ) {con con' : Spec.Con ℝ} (h : Relation.ReflTransGen Con.Flip con con') : conTerm es r con' g d = conTerm es r con g d := by
  induction h with
  | refl => rfl
  | tail _ h ih => rw [conTerm_flip es r g d h, ih]

end Fiksi
