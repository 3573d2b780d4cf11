import Verif.Proofs.FigureTurn
import Verif.Proofs.ObjectiveMap
/-!
# Solving a turned and renumbered figure
-/
namespace Fiksi
open Spec

/-! ## The variables and the unit of length -/

theorem turn_coords (φ : ℝ) (mirror : Bool) (x y : ℝ) :
    (Geo.turn φ mirror ⟨x, y⟩).re = Real.cos φ * x - (if mirror then -1 else 1) * Real.sin φ * y ∧
      (Geo.turn φ mirror ⟨x, y⟩).im = Real.sin φ * x + (if mirror then -1 else 1) * Real.cos φ * y := by
  unfold Geo.turn
  rw [Complex.mul_re, Complex.mul_im, Complex.exp_ofReal_mul_I_re, Complex.exp_ofReal_mul_I_im]
  cases mirror <;> simp <;> ring

section
variable {φ : ℝ} {mirror : Bool} {ρ : Equiv.Perm Nat} {st st' : Store ℝ} (h : st.SameFigure (Geo.turn φ mirror) ρ st')
include h

/-- The map of the variables. -/
noncomputable def Spec.Store.SameFigure.map (_ : st.SameFigure (Geo.turn φ mirror) ρ st') : Turn := figureTurn (Real.cos φ) (Real.sin φ) (if mirror then -1 else 1) st.elems st'.elems ρ

theorem Spec.Store.SameFigure.map_ok : h.map.Ok (st'.elems.flatMap elemValues).length :=
  figureTurn_ok h.elems (Real.cos_sq_add_sin_sq φ) (by cases mirror <;> simp)

theorem Spec.Store.SameFigure.vars {v : Nat} (hv : v < (st'.elems.flatMap elemValues).length) :
    (st'.elems.flatMap elemValues).getD v 0 = h.map.apply (fun v => (st.elems.flatMap elemValues).getD v 0) v := by
  have hm := figureTurn_moved (c := Real.cos φ) (s := Real.sin φ) (e := if mirror then -1 else 1) h.elems (fun v => (st.elems.flatMap elemValues).getD v 0)
  have at' : ∀ {es : List (Elem ℝ)} {i k : Nat} {e : Elem ℝ} {x : ℝ}, es[i]? = some e → (elemValues e)[k]? = some x → (es.flatMap elemValues).getD (off es i + k) 0 = x := by
    intro es i k e x h1 h2
    rw [List.getD_eq_getElem?_getD, var_at es h1 (lt_of_getElem? h2), h2, Option.getD_some]
  rcases figure_place h.elems hv with ⟨i, x, h1, rfl⟩ | ⟨i, x, y, h1, rfl⟩ | ⟨i, x, y, h1, rfl⟩
  · refine Eq.trans ?_ (hm.length h1).symm
    have h2 := at' (k := 0) (x := x) h1 rfl
    have h3 := at' (k := 0) (x := x) (turned_length h.elems h1) rfl
    rw [Nat.add_zero] at h2 h3
    rw [h2, h3]
  · refine Eq.trans ?_ (hm.point h1).fst.symm
    have h2 := at' (k := 0) (x := x) h1 rfl
    have h4 := at' (k := 1) (x := y) h1 rfl
    have h5 := h.elems i
    rw [h1] at h5
    have h3 := at' (k := 0) h5 rfl
    rw [Nat.add_zero] at h2 h3
    simp only [h2, h3, h4, (turn_coords φ mirror x y).1]
  · refine Eq.trans ?_ (hm.point h1).snd.symm
    have h2 := at' (k := 0) (x := x) h1 rfl
    have h4 := at' (k := 1) (x := y) h1 rfl
    have h5 := h.elems i
    rw [h1] at h5
    have h3 := at' (k := 1) h5 rfl
    rw [Nat.add_zero] at h2
    simp only [h2, h3, h4, (turn_coords φ mirror x y).2]

theorem Spec.Store.SameFigure.length_eq : (st'.elems.flatMap elemValues).length = (st.elems.flatMap elemValues).length := by
  have h1 := figure_squares (c := 1) (s := 0) (e := 1) h.elems (by norm_num) (.inl rfl) (fun _ => 1)
  have hm := figureTurn_moved (c := 1) (s := 0) (e := 1) h.elems (fun _ => 1)
  have h2 : ∀ v ∈ Finset.range (st'.elems.flatMap elemValues).length, (figureTurn 1 0 1 st.elems st'.elems ρ).apply (fun _ => 1) v ^ 2 = 1 := by
    intro v hv
    rcases figure_place h.elems (Finset.mem_range.1 hv) with ⟨i, x, h1, rfl⟩ | ⟨i, x, y, h1, rfl⟩ | ⟨i, x, y, h1, rfl⟩
    · rw [hm.length h1]; norm_num
    · rw [(hm.point h1).fst]; norm_num
    · rw [(hm.point h1).snd]; norm_num
  rw [Finset.sum_congr rfl h2] at h1
  simp only [one_pow, Finset.sum_const, Finset.card_range, nsmul_eq_mul, mul_one] at h1
  exact_mod_cast h1

omit h in
theorem flips_distance {con con' : Spec.Con ℝ} (hf : Relation.ReflTransGen Con.Flip con con') : con'.distance = con.distance := by
  induction hf with
  | refl => rfl
  | tail _ h ih =>
    rw [← ih]
    cases h <;> rfl

theorem Spec.Store.SameFigure.distances : (st'.cons.filterMap Spec.Con.distance).Perm (st.cons.filterMap Spec.Con.distance) := by
  obtain ⟨l, h1, h2⟩ := h.cons
  have h3 : l.filterMap Spec.Con.distance = st.cons.filterMap Spec.Con.distance := by
    clear h1
    generalize st.cons = l0 at h2
    induction h2 with
    | nil => rfl
    | cons hab _ ih =>
      rename_i a b l1 l2 _
      have h4 : b.distance = a.distance := by
        rw [flips_distance hab]
        cases a <;> rfl
      rw [List.filterMap_cons, List.filterMap_cons, h4, ih]
  rw [← h3]
  exact h1.filterMap _

theorem Spec.Store.SameFigure.size : st'.size = st.size := by
  have h0 : ∀ es : List (Elem ℝ), es.flatMap Elem.numbers = es.flatMap elemValues := by
    intro es
    congr 1
    funext e
    cases e <;> rfl
  have hsum : ∀ l : List ℝ, (l.map (fun x => x ^ 2)).sum = ∑ v ∈ Finset.range l.length, l.getD v 0 ^ 2 := by
    intro l
    rw [← squares_eq_sum]
    rfl
  have h1 : ((st'.elems.flatMap elemValues).map (fun x => x ^ 2)).sum = ((st.elems.flatMap elemValues).map (fun x => x ^ 2)).sum := by
    rw [hsum, hsum, ← figure_squares h.elems (Real.cos_sq_add_sin_sq φ) (e := if mirror then -1 else 1) (by cases mirror <;> simp)]
    exact Finset.sum_congr rfl fun v hv => by rw [h.vars (Finset.mem_range.1 hv)]; rfl
  have h2 := (h.distances.map (fun x => x ^ 2)).sum_eq
  have h3 := h.distances.length_eq
  unfold Store.size Store.numbers
  rw [h0, h0, List.map_append, List.map_append, List.sum_append, List.sum_append, List.length_append, List.length_append, h1, h2, h3, h.length_eq]

end

/-- The values are mapped linearly. -/
theorem Turn.smul (t : Turn) {free free' : List Nat} (k : ℝ) (x : List ℝ) :
    free'.map (t.apply (changeOf free (x.map (k * ·)))) = (free'.map (t.apply (changeOf free x))).map (k * ·) := by
  have h1 : ∀ v, changeOf free (x.map (k * ·)) v = k * changeOf free x v := by
    intro v
    unfold changeOf
    cases free.idxOf? v with
    | none => simp
    | some j =>
      simp only [List.getD_eq_getElem?_getD, List.getElem?_map]
      cases x[j]? <;> simp
  rw [List.map_map]
  refine List.map_congr_left fun v _ => ?_
  simp only [Function.comp_apply, Turn.apply, h1]
  ring

/-- All constraints are about distinct points. -/
def Spec.Store.Distinct (st : Store ℝ) : Prop := ∀ con ∈ st.cons, (st.pointsOf con).Nodup

theorem pointsOf_flips {st : Store ℝ} {con con' : Spec.Con ℝ} (hf : Relation.ReflTransGen Con.Flip con con') : (st.pointsOf con').Perm (st.pointsOf con) := by
  induction hf with
  | refl => rfl
  | tail _ hf ih =>
    refine List.Perm.trans ?_ ih
    cases hf with
    | coincidence p q => exact .swap _ _ _
    | distance p q d => exact .swap _ _ _
    | angle p q r a => exact (List.reverse_perm [p, q, r])
    | firstSegment a b c d => exact .swap _ _ _
    | secondSegment a b c d => exact .cons _ (.cons _ (.swap _ _ _))
    | segments a b c d => exact List.perm_append_comm (l₁ := [c, d]) (l₂ := [a, b])
    | lineAngle l m a => exact List.perm_append_comm
    | parallelism l m => exact List.perm_append_comm
    | perpendicularity l m => exact List.perm_append_comm

theorem pointsOf_rename {f : ℂ → ℂ} {ρ : Equiv.Perm Nat} {st st' : Store ℝ} (h : st.SameFigure f ρ st') (con : Spec.Con ℝ) : st'.pointsOf (con.rename ρ) = (st.pointsOf con).map ρ := by
  have line : ∀ l, st'.ends (ρ l) = (st.ends l).map ρ := by
    intro l
    unfold Store.ends
    rw [h.elems l]
    cases st.elems[l]? with
    | none => rfl
    | some e => cases e <;> rfl
  have circ : ∀ l, st'.centre (ρ l) = (st.centre l).map ρ := by
    intro l
    unfold Store.centre
    rw [h.elems l]
    cases st.elems[l]? with
    | none => rfl
    | some e => cases e <;> rfl
  cases con <;> simp [Spec.Con.rename, Store.pointsOf, line, circ]

theorem Spec.Store.SameFigure.distinct {f : ℂ → ℂ} {ρ : Equiv.Perm Nat} {st st' : Store ℝ} (h : st.SameFigure f ρ st') (hd : st.Distinct) : st'.Distinct := by
  obtain ⟨l, h1, h2⟩ := h.cons
  intro con' hcon'
  obtain ⟨con, hcon, hf⟩ := forall₂_mem_right h2 (h1.mem_iff.1 hcon')
  rw [(pointsOf_flips hf).nodup_iff, pointsOf_rename h]
  exact (hd con hcon).map ρ.injective

/-! ## The run of a part -/

section
variable {counter : Nat} {ops : List (Op ℝ)} {c : Client ℝ} (h : Reaches counter ops c)
include h

/-- The free variables of a part. -/
theorem Reaches.free_iff {comp : Component} (hcomp : comp ∈ c.sys.graph.components) {free : Finset Nat} (hf : c.sys.freeVariables comp.elements = .ok free) {i k : Nat} {e : Elem ℝ}
    (he : ((Store.empty ℝ).run ops).elems[i]? = some e) (hk : k < (elemValues e).length) :
    off ((Store.empty ℝ).run ops).elems i + k ∈ free ↔ i ∈ comp.elements ∧ i ∉ ((Store.empty ℝ).run ops).fixed := by
  have hr := h.crel.rel
  have ho : c.sys.variableToPrimitive[off ((Store.empty ℝ).run ops).elems i + k]? = some i := by rw [hr.owners]; exact owner_at _ he hk
  rw [freeVariables_spec hf, hr.fixed]
  refine and_congr ⟨?_, fun hi => ⟨i, hi, _, hr.element_at he, ?_⟩⟩ (not_congr ⟨?_, fun hi => ⟨i, hi, ho⟩⟩)
  · rintro ⟨p, hp, el, h1, h2⟩
    have h3 := h.owner_constrained (h.constrained_of_mem hcomp hp) h1 h2
    rw [ho, Option.some.injEq] at h3
    rwa [h3]
  · cases e with
    | length x =>
      simp only [elemValues, List.length_cons, List.length_nil] at hk
      obtain rfl : k = 0 := by omega
      simp [encElem, EncodedElement.variableIndices]
    | point x y =>
      simp only [elemValues, List.length_cons, List.length_nil] at hk
      obtain rfl | rfl : k = 0 ∨ k = 1 := by omega
      · simp [encElem, EncodedElement.variableIndices]
      · simp [encElem, EncodedElement.variableIndices]
    | line p q => simp [elemValues] at hk
    | circle p q => simp [elemValues] at hk
  · rintro ⟨j, hj, h1⟩
    rw [ho, Option.some.injEq] at h1
    rwa [h1]

theorem Reaches.free_lt {comp : Component} {free : Finset Nat} (hf : c.sys.freeVariables comp.elements = .ok free) :
    ∀ v ∈ ascending free, v < (((Store.empty ℝ).run ops).elems.flatMap elemValues).length := by
  intro v hv
  rw [← h.crel.rel.vars]
  exact h.varOf_lt ((freeVariables_spec hf v).1 ((mem_ascending _ _).1 hv)).1

theorem Reaches.part_cons {comp : Component} (hcomp : comp ∈ c.sys.graph.components) : ∀ n ∈ ascending comp.constraints, n < ((Store.empty ℝ).run ops).cons.length := fun n hn => by
  have h4 := (h.decomposeOk hcomp).edges n ((mem_ascending _ _).1 hn)
  have h5 : c.sys.graph.constraints.length = ((Store.empty ℝ).run ops).cons.length := by rw [h.crel.rel.graphCons]; simp
  simpa [DCtx.nC, Graph.toD, h5] using h4

/-- What an optimiser does to a part. -/
theorem Reaches.part_run {S : Nat → Nat → Nat → Prop} {ls : LeastSquares ℝ} (hls : ls.Exact S) (hS : ∀ m n k, m ≤ c.sys.expressions.length → n ≤ c.sys.vars.length → k ≤ 8 * m + n → S m n k) {fuel : Nat}
    {opts : SolvingOptions} (ho : opts.optimizer = .lBfgs → ((Store.empty ℝ).run ops).Distinct) {comp : Component} (hcomp : comp ∈ c.sys.graph.components) {V : List ℝ}
    (hs : c.sys.Solves (crateOptimize ls fuel) opts comp V) :
    ∃ free ids x', ∃ P : Fitting, c.sys.freeVariables comp.elements = .ok free ∧ (c.sys.partOf ids (ascending free)).Ok ∧ (∀ v ∈ free, V[v]? = some (c.sys.scale * changeOf (ascending free) x' v)) ∧
      P.n = (ascending free).length ∧ (∀ x, x.length = P.n → (P.res x).length = P.m) ∧
      (∀ x δ, x.length = (ascending free).length → δ.length = (ascending free).length → P.model x δ =
        (ids.map fun id => ((c.sys.scaledExpressions[id]?.map fun e => e.linear ((c.sys.partOf ids (ascending free)).valueOf x) (changeOf (ascending free) δ)).getD 0) ^ 2).sum) ∧
      opts.optimizer.Finds P ((ascending free).map fun v => c.sys.scaledVariables.getD v 0) x' ∧ (∀ x y z, opts.optimizer.Finds P x y → opts.optimizer.Finds P x z → y = z) ∧
      ∀ g d, (ids.map fun id => ((c.sys.scaledExpressions[id]?.map fun e => e.linear g d).getD 0) ^ 2).sum =
        ((ascending comp.constraints).map fun n => (((Store.empty ℝ).run ops).cons[n]?.map fun con => conTerm ((Store.empty ℝ).run ops).elems (1 / c.sys.scale) con g d).getD 0).sum := by
  obtain ⟨free, es, values, x', h1, h2, h3, h4, h5⟩ := hs
  have hr := h.crel.rel
  have hlen : c.sys.scaledVariables.length = c.sys.vars.length := by simp [System.scaledVariables]
  have heq : ∀ id ∈ es.flatten, id < c.sys.expressions.length := by
    intro id hid
    obtain ⟨n, h5, h6⟩ := (mem_flatten_of_mapM hr h2 id).1 hid
    exact h.equation_lt h6
  have hf' : ∀ v ∈ ascending free, v < c.sys.vars.length := fun v hv => by rw [hr.vars]; exact h.free_lt h1 v hv
  have hm : es.flatten.length ≤ c.sys.expressions.length := length_le_of_lt (flatten_nodup_of_mapM hr (ascending_nodup _) h2) heq
  have hk : (ascending free).length ≤ c.sys.vars.length := length_le_of_lt (ascending_nodup _) hf'
  have hok : (c.sys.partOf es.flatten (ascending free)).Ok := by
    intro id hid
    show ∃ e, c.sys.scaledExpressions[id]? = some e ∧ ∀ v ∈ e.variableIndices, v < c.sys.scaledVariables.length
    rw [hlen]
    exact h.exprsOk heq id hid
  obtain ⟨P, p1, p2, p3, p4⟩ := hok.linear_fitting
  have hplain : ((Store.empty ℝ).run ops).Distinct → (c.sys.partOf es.flatten (ascending free)).Plain := by
    intro hdist id _ e he
    have he : e ∈ c.sys.scaledExpressions := List.mem_of_getElem? he
    rw [System.scaledExpressions, List.mem_map] at he
    obtain ⟨e0, he0, rfl⟩ := he
    rw [hr.exprs, List.mem_flatMap] at he0
    obtain ⟨con, hcon, he0⟩ := he0
    rw [Expr.transform_variableIndices]
    exact encCon_nodup hr (hr.wfCon con hcon) (hdist con hcon) e0 he0
  have hvals : values = (ascending free).map fun v => c.sys.scaledVariables.getD v 0 := by
    obtain ⟨values', q1, q2⟩ := mapM_idx_ok (l := c.sys.scaledVariables) (is := ascending free) (by rw [hlen]; exact hf')
    have q3 : values.length = (ascending free).length := by
      rw [h3] at q1
      cases q1
      exact q2
    refine List.ext_getElem (by simpa using q3) fun i i1 i2 => ?_
    have i3 : i < (ascending free).length := by simpa using i2
    have i4 := valueOf_start (T := c.sys.scaledVariables) (exprs := []) (es := []) h3 ((ascending free)[i])
    rw [valueOf_in (List.getElem_mem i3), changeOf_at (ascending_nodup _) (List.getElem?_eq_getElem i3), List.getD_eq_getElem?_getD, List.getElem?_eq_getElem i1, Option.getD_some] at i4
    rw [i4, List.getElem_map]
  have hx0 : values.length = P.n := by rw [hvals, p3]; simp [System.partOf]
  refine ⟨free, es.flatten, x', P, h1, hok, h5, p3, fun x hx => (p1.residuals x hx).2, p4, ?_, ?_, fun g d => hr.sum_equations g d (h.part_cons hcomp) h2⟩
  · rw [← hvals]
    cases hopt : opts.optimizer with
    | levenbergMarquardt =>
      rw [hopt] at h4
      refine C66_lm_is_method p1 hls ?_ hx0 h4
      refine hS _ _ _ (by rw [p2]; exact hm) (by rw [p3]; exact hk) ?_
      have := (c.sys.partOf es.flatten (ascending free)).size_le
      rw [← p1.rows, ← p1.columns]
      exact this
    | lBfgs =>
      rw [hopt] at h4
      have h6 := C67_lbfgs_is_method (hok.evaluates (hplain (ho hopt)) p1) (hx0.trans p1.columns.symm) h4
      rw [p1.columns] at h6
      exact h6
  · intro x y z hy hz
    cases hopt : opts.optimizer with
    | levenbergMarquardt =>
      rw [hopt] at hy hz
      exact C66_method_deterministic (by norm_num) hy hz
    | lBfgs =>
      rw [hopt] at hy hz
      have h6 := hok.evaluates (hplain (ho hopt)) p1
      obtain ⟨y1, y2⟩ := hy
      obtain ⟨z1, z2⟩ := hz
      rw [← p1.columns] at y1 y2 z1 z2
      have h7 := C67_method_deterministic h6 y2 z2
      rw [← ofFn_vec y1, ← ofFn_vec z1, h7]

end

/-! ## Both figures -/

/-- The sum of a term over the constraints of a part. -/
noncomputable def partSum (st : Store ℝ) (comp : Component) (T : Spec.Con ℝ → ℝ) : ℝ := ((ascending comp.constraints).map fun n => (st.cons[n]?.map T).getD 0).sum

/-- The parts that `solve` treats correspond to each other. -/
structure SameParts (ρ : Equiv.Perm Nat) (st st' : Store ℝ) (comps comps' : List Component) : Prop where
  parts : ∀ comp' ∈ comps', comp'.elements ≠ ∅ → ∃ comp ∈ comps, (∀ i, ρ i ∈ comp'.elements ↔ i ∈ comp.elements) ∧
    ∀ T T' : Spec.Con ℝ → ℝ, (∀ con ∈ st.cons, ∀ con', Relation.ReflTransGen Con.Flip (con.rename ρ) con' → T' con' = T con) → partSum st' comp' T' = partSum st comp T
  constrained : ∀ i, Spec.Constrained st'.arguments (ρ i) ↔ Spec.Constrained st.arguments i

/-- Both figures are solved to corresponding values. -/
theorem figures_solved {φ : ℝ} {mirror : Bool} {ρ : Equiv.Perm Nat} {counter counter' : Nat} {ops ops' : List (Op ℝ)} {c c' : Client ℝ} (h : Reaches counter ops c) (h' : Reaches counter' ops' c')
    (hsame : ((Store.empty ℝ).run ops).SameFigure (Geo.turn φ mirror) ρ ((Store.empty ℝ).run ops')) (hturns : ∀ con ∈ ((Store.empty ℝ).run ops).cons, con.Turns φ mirror)
    (hparts : SameParts ρ ((Store.empty ℝ).run ops) ((Store.empty ℝ).run ops') c.sys.graph.components c'.sys.graph.components)
    {S : Nat → Nat → Nat → Prop} {ls : LeastSquares ℝ} (hls : ls.Exact S) (hS : ∀ m n k, m ≤ c.sys.expressions.length → n ≤ c.sys.vars.length → k ≤ 8 * m + n → S m n k)
    (hS' : ∀ m n k, m ≤ c'.sys.expressions.length → n ≤ c'.sys.vars.length → k ≤ 8 * m + n → S m n k) {fuel fuel' : Nat} {ord ord' : HashOrder} {opts : SolvingOptions}
    (ho : opts.optimizer = .lBfgs → ((Store.empty ℝ).run ops).Distinct) (hd : opts.decomposer = .none) (hp : opts.perturb = false) {s s' : System ℝ}
    (hs : c.sys.solve (crateOptimize ls fuel) ord opts = .ok s) (hs' : c'.sys.solve (crateOptimize ls fuel') ord' opts = .ok s') :
    ∀ v < (((Store.empty ℝ).run ops').elems.flatMap elemValues).length, s'.vars.getD v 0 = hsame.map.apply (fun v => s.vars.getD v 0) v := by
  obtain ⟨-, -, hout, hin⟩ := h.solve_whole hd hp hs
  obtain ⟨-, -, hout', hin'⟩ := h'.solve_whole hd hp hs'
  have hr := h.crel.rel
  have hr' := h'.crel.rel
  have hscale : c'.sys.scale = c.sys.scale := by rw [hr'.scale_size, hr.scale_size, hsame.size]
  have ht := hsame.map_ok
  -- the variables that are written
  have inFree : ∀ {counter : Nat} {ops : List (Op ℝ)} {c : Client ℝ} (h : Reaches counter ops c) {comp : Component} (hcomp : comp ∈ c.sys.graph.components) {i k : Nat} {e : Elem ℝ}
      (_ : ((Store.empty ℝ).run ops).elems[i]? = some e) (_ : k < (elemValues e).length), c.sys.Writes opts comp (off ((Store.empty ℝ).run ops).elems i + k) ↔
        i ∈ comp.elements ∧ i ∉ ((Store.empty ℝ).run ops).fixed := by
    intro counter ops c h comp hcomp i k e he hk
    obtain ⟨free, hf⟩ := h.freeVariables_ok hcomp
    rw [← h.free_iff hcomp hf he hk, freeVariables_spec hf, System.Writes]
    refine and_congr Iff.rfl ⟨fun hh => hh (by rw [hd]; simp), fun hh _ => hh⟩
  intro v hv
  -- the owner of the variable
  obtain ⟨j, e', k, he', hk, rfl⟩ := exists_place _ hv
  obtain ⟨i, rfl⟩ := ρ.surjective j
  obtain ⟨e, he⟩ : ∃ e, ((Store.empty ℝ).run ops).elems[i]? = some e := by
    have h1 := hsame.elems i
    rw [he'] at h1
    cases h2 : ((Store.empty ℝ).run ops).elems[i]? with
    | none => rw [h2] at h1; simp at h1
    | some e => exact ⟨e, rfl⟩
  have hlen : (elemValues e').length = (elemValues e).length := by
    have h1 := hsame.elems i
    rw [he', he, Option.map_some, Option.some.injEq] at h1
    subst h1
    cases e <;> rfl
  by_cases hfree : Spec.Constrained ((Store.empty ℝ).run ops').arguments (ρ i) ∧ ρ i ∉ ((Store.empty ℝ).run ops').fixed
  · obtain ⟨hcon, hnf⟩ := hfree
    obtain ⟨k', ⟨comp', hk', hmem'⟩, -⟩ := (C17_elements_partitioned h' (ρ i)).1 hcon
    have hcomp' := List.mem_of_getElem? hk'
    obtain ⟨comp, hcomp, hel, hsum⟩ := hparts.parts comp' hcomp' (Finset.ne_empty_of_mem hmem')
    have hmem := (hel i).1 hmem'
    obtain ⟨free, ids, x, P, p1, -, p3, p4, p5, p6, p7, -, p8⟩ := h.part_run hls hS ho hcomp (hin comp hcomp (Finset.ne_empty_of_mem hmem))
    obtain ⟨free', ids', x', P', q1, q2, q3, q4, q5, q6, q7, q9, q8⟩ := h'.part_run hls hS' (fun hl => hsame.distinct (ho hl)) hcomp' (hin' comp' hcomp' (Finset.ne_empty_of_mem hmem'))
    have hf : hsame.map.Fits (((Store.empty ℝ).run ops').elems.flatMap elemValues).length (ascending free) (ascending free') :=
      figureTurn_fits hsame.elems (Q := fun i => i ∈ comp.elements ∧ i ∉ ((Store.empty ℝ).run ops).fixed) (Q' := fun i => i ∈ comp'.elements ∧ i ∉ ((Store.empty ℝ).run ops').fixed)
        (fun i => by rw [hel, hsame.fixed]) (ascending_nodup _) (ascending_nodup _) (fun h1 h2 => by rw [mem_ascending]; exact h.free_iff hcomp p1 h1 h2) (h.free_lt p1)
        (fun h1 h2 => by rw [mem_ascending]; exact h'.free_iff hcomp' q1 h1 h2) (h'.free_lt q1)
    have hvars : ∀ v < (((Store.empty ℝ).run ops').elems.flatMap elemValues).length, c'.sys.scaledVariables.getD v 0 = hsame.map.apply (fun v => c.sys.scaledVariables.getD v 0) v := by
      have h1 : ∀ (s : System ℝ) v, s.scaledVariables.getD v 0 = s.vars.getD v 0 * (1 / s.scale) := by
        intro s v
        rw [System.scaledVariables, List.getD_eq_getElem?_getD, List.getElem?_map, List.getD_eq_getElem?_getD]
        cases s.vars[v]? <;> simp
      intro v hv
      simp only [h1, Turn.apply]
      rw [hr'.vars, hr.vars, hsame.vars hv, hscale, Turn.apply]
      ring
    have hcar := Turn.carries (sub := c.sys.partOf ids (ascending free)) (sub' := c'.sys.partOf ids' (ascending free')) ht hf q2
      (by rw [← hr'.vars]; simp [System.partOf, System.scaledVariables]) hvars (fun g d => by
        refine (q8 _ _).trans (Eq.trans ?_ (p8 g d).symm)
        rw [hscale]
        refine hsum (fun con => conTerm ((Store.empty ℝ).run ops).elems (1 / c.sys.scale) con g d)
          (fun con => conTerm ((Store.empty ℝ).run ops').elems (1 / c.sys.scale) con (hsame.map.apply g) (hsame.map.apply d)) (fun con hcon con' hflip => ?_)
        rw [conTerm_flips _ _ _ _ hflip]
        exact conTerm_turn _ hr.wfElem hsame.elems (figureTurn_moved hsame.elems g) (figureTurn_moved hsame.elems d) (hr.wfCon con hcon) (hturns con hcon))
      p4 q4 p5 q5 p6 q6
    have hrun := hcar.finds (fun k x _ => hsame.map.smul k x) p5 q5 (by rw [p4]; simp) p7
    have hstart : (ascending free').map (hsame.map.apply (changeOf (ascending free) ((ascending free).map fun v => c.sys.scaledVariables.getD v 0))) =
        (ascending free').map fun v => c'.sys.scaledVariables.getD v 0 := by
      refine List.map_congr_left fun v hv => ?_
      rw [hvars v (h'.free_lt q1 v hv)]
      exact Turn.apply_in ht hf (fun u hu => changeOf_map hu _) hv
    have hx' : x' = (ascending free').map (hsame.map.apply (changeOf (ascending free) x)) := by
      refine q9 _ _ _ q7 ?_
      rw [← hstart]
      exact hrun
    have hvf : off ((Store.empty ℝ).run ops').elems (ρ i) + k ∈ free' := (h'.free_iff hcomp' q1 he' hk).2 ⟨hmem', hnf⟩
    rw [List.getD_eq_getElem?_getD, q3 _ hvf, Option.getD_some, hx', changeOf_map ((mem_ascending _ _).2 hvf), hscale]
    have h2 := Turn.apply_in ht hf (g := fun v => s.vars.getD v 0) (h := fun v => c.sys.scale * changeOf (ascending free) x v) (fun u hu => by
      rw [List.getD_eq_getElem?_getD, p3 u ((mem_ascending _ _).1 hu), Option.getD_some]) ((mem_ascending _ _).2 hvf)
    rw [h2, Turn.apply, Turn.apply]
    ring
  · have hkeep' : s'.vars[off ((Store.empty ℝ).run ops').elems (ρ i) + k]? = c'.sys.vars[off ((Store.empty ℝ).run ops').elems (ρ i) + k]? := by
      refine hout' _ fun comp' hcomp' hw => ?_
      obtain ⟨h1, h2⟩ := (inFree h' hcomp' he' hk).1 hw
      exact hfree ⟨h'.constrained_of_mem hcomp' h1, h2⟩
    have hkeep : ∀ k < (elemValues e).length, s.vars[off ((Store.empty ℝ).run ops).elems i + k]? = c.sys.vars[off ((Store.empty ℝ).run ops).elems i + k]? := by
      intro k hk
      refine hout _ fun comp hcomp hw => ?_
      obtain ⟨h1, h2⟩ := (inFree h hcomp he hk).1 hw
      exact hfree ⟨(hparts.constrained i).2 (h.constrained_of_mem hcomp h1), fun hc => h2 ((hsame.fixed i).1 hc)⟩
    rw [List.getD_eq_getElem?_getD, hkeep', ← List.getD_eq_getElem?_getD, hr'.vars, hsame.vars hv]
    have hm := figureTurn_moved (c := Real.cos φ) (s := Real.sin φ) (e := if mirror then -1 else 1) hsame.elems (fun v => (((Store.empty ℝ).run ops).elems.flatMap elemValues).getD v 0)
    have hm' := figureTurn_moved (c := Real.cos φ) (s := Real.sin φ) (e := if mirror then -1 else 1) hsame.elems (fun v => s.vars.getD v 0)
    have same : ∀ k < (elemValues e).length, s.vars.getD (off ((Store.empty ℝ).run ops).elems i + k) 0 =
        (((Store.empty ℝ).run ops).elems.flatMap elemValues).getD (off ((Store.empty ℝ).run ops).elems i + k) 0 := by
      intro k hk
      rw [List.getD_eq_getElem?_getD, hkeep k hk, hr.vars, ← List.getD_eq_getElem?_getD]
    rw [hlen] at hk
    cases e with
    | length x =>
      simp only [elemValues, List.length_cons, List.length_nil] at hk
      obtain rfl : k = 0 := by omega
      have h0 := same 0 (by simp [elemValues])
      rw [Nat.add_zero] at h0 ⊢
      exact (hm.length he).trans (h0.symm.trans (hm'.length he).symm)
    | point x y =>
      simp only [elemValues, List.length_cons, List.length_nil] at hk
      have h0 := same 0 (by simp [elemValues])
      have h1 := same 1 (by simp [elemValues])
      rw [Nat.add_zero] at h0
      obtain rfl | rfl : k = 0 ∨ k = 1 := by omega
      · refine (hm.point he).fst.trans (Eq.trans ?_ (hm'.point he).fst.symm)
        simp only [h0, h1]
      · refine (hm.point he).snd.trans (Eq.trans ?_ (hm'.point he).snd.symm)
        simp only [h0, h1]
    | line p q => simp [elemValues] at hk
    | circle p q => simp [elemValues] at hk

end Fiksi
