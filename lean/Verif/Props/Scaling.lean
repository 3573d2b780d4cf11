import Verif.Spec.Scaling
import Verif.Props.Solve
import Verif.Props.Geometry
/-!
# C60: the result of `solve` does not depend on the unit of length
-/
namespace Fiksi
open Spec

section
variable {F : Type} [Mul F]

/-- The system at `k` times the size. -/
def System.scaled (k : F) (s : System F) : System F :=
  { s with vars := s.vars.map (k * ·), expressions := s.expressions.map (Expr.transform k) }

/-- The client of the scaled system: the same handles. -/
def Client.scaled (k : F) (c : Client F) : Client F := { c with sys := c.sys.scaled k }

/-- The store at `k` times the size. -/
def Store.scaled (k : F) (st : Store F) : Store F := { st with elems := st.elems.map (Elem.scaled k), cons := st.cons.map (Con.scaled k) }

theorem idx_map {α β : Type} (f : α → β) (l : List α) (i : Nat) : idx (l.map f) i = f <$> idx l i := by
  unfold idx
  rw [List.getElem?_map]
  cases l[i]? <;> rfl

theorem setIdx_map {α β : Type} (f : α → β) (l : List α) (i : Nat) (a : α) : setIdx (l.map f) i (f a) = List.map f <$> setIdx l i a := by
  unfold setIdx
  rw [List.length_map]
  split
  · rw [← List.map_set]
    rfl
  · rfl

theorem foldlM_commutes {α σ τ : Type} {g : σ → τ} {f : σ → α → R σ} {f' : τ → α → R τ} {l : List α} (h : ∀ st, ∀ a ∈ l, f' (g st) a = g <$> f st a) (st : σ) :
    l.foldlM f' (g st) = g <$> l.foldlM f st := by
  induction l generalizing st with
  | nil => rfl
  | cons a l ih =>
    rw [List.foldlM_cons, List.foldlM_cons, h st a (by simp), map_bind, bind_map_left]
    exact bind_congr fun st' => ih (fun st b hb => h st b (List.mem_cons_of_mem _ hb)) st'

theorem transform_variableIndices (k : F) (e : Expr F) : (e.transform k).variableIndices = e.variableIndices := by cases e <;> rfl

theorem scaled_addElement (k : F) (s : System F) (values : List F) (encode : Nat → EncodedElement) :
    (s.scaled k).addElement (values.map (k * ·)) encode = (fun r => (r.1, r.2.scaled k)) <$> s.addElement values encode := by
  simp [System.addElement, System.scaled, map_bind]

theorem scaled_addExpression (k : F) (id : Nat) (s : System F) (e : Expr F) :
    (s.scaled k).addExpression id (e.transform k) = (System.scaled k) <$> s.addExpression id e := by
  simp [System.addExpression, System.scaled, map_bind, transform_variableIndices]

theorem scaled_createConstraint (k : F) (s : System F) (tag : ConstraintTag) (valency : Nat) (incident : List Nat) (exprs : List (Expr F)) :
    (s.scaled k).createConstraint tag valency incident (exprs.map (Expr.transform k)) = (fun r => (r.1, r.2.scaled k)) <$> s.createConstraint tag valency incident exprs := by
  unfold System.createConstraint System.addConstraint
  rw [map_bind]
  refine bind_congr fun g => ?_
  simp only [map_bind]
  show _ = _
  refine bind_congr fun id => ?_
  show (toU32 (s.scaled k).expressions.length >>= _) = _
  rw [show (s.scaled k).expressions.length = s.expressions.length from List.length_map ..]
  refine bind_congr fun i => ?_
  rw [List.foldlM_map]
  have := foldlM_commutes (g := System.scaled k) (f := System.addExpression id) (f' := fun st e => System.addExpression id st (e.transform k)) (l := exprs)
    (fun st e _ => scaled_addExpression k id st e) { s with graph := g.2, constraints := s.constraints ++ [⟨tag, i⟩] }
  simp only [System.scaled] at this ⊢
  rw [this]
  simp [System.scaled]

theorem scaled_createCon (k : F) (c : Client F) (con : Spec.Con F) :
    (c.scaled k).createCon (con.scaled k) = (fun r => (r.1, r.2.scaled k)) <$> c.createCon con := by
  cases con <;>
  simp only [Client.createCon, Con.scaled, System.createPointPointCoincidence, System.createPointPointDistance, System.createPointPointPointAngle, System.createPointLineIncidence,
    System.createPointLineDistance, System.createPointCircleIncidence, System.createSegmentSegmentLengthEquality, System.createLineLineAngle, System.createLineLineParallelism,
    System.createLineLinePerpendicularity, System.createLineCircleTangency, map_bind, ← scaled_createConstraint] <;> rfl

theorem scaled_elemValues (k : F) (e : Elem F) : elemValues (e.scaled k) = (elemValues e).map (k * ·) := by cases e <;> rfl

theorem scaled_updateParameter (k : F) (s : System F) (tag : ConstraintTag) (h : Handle) (v : F) :
    (s.scaled k).updateParameter tag h (if lengthLike tag then k * v else v) = (System.scaled k) <$> s.updateParameter tag h v := by
  unfold System.updateParameter
  rw [map_bind]
  refine bind_congr fun c => ?_
  rw [map_bind]
  show (idx (s.expressions.map (Expr.transform k)) _ >>= _) = _
  rw [idx_map, bind_map_left]
  refine bind_congr fun e => ?_
  cases e <;> cases tag <;> try rfl
  all_goals
    simp only [Expr.transform, lengthLike, map_bind, ↓reduceIte, Bool.false_eq_true]
  · rename_i p q d
    exact (congrArg (· >>= _) (setIdx_map (Expr.transform k) s.expressions c.expressionsIdx (.pointPointDistance p q v))).trans (bind_map_left ..)
  · rename_i p q r d
    exact (congrArg (· >>= _) (setIdx_map (Expr.transform k) s.expressions c.expressionsIdx (.pointPointPointAngle p q r v))).trans (bind_map_left ..)
  · rename_i p a b d
    exact (congrArg (· >>= _) (setIdx_map (Expr.transform k) s.expressions c.expressionsIdx (.pointLineDistance p a b v))).trans (bind_map_left ..)
  · rename_i a b p q d
    exact (congrArg (· >>= _) (setIdx_map (Expr.transform k) s.expressions c.expressionsIdx (.lineLineAngle a b p q v))).trans (bind_map_left ..)

theorem scaled_exec (k : F) (c : Client F) (op : Op F) : (c.scaled k).exec (op.scaled k) = (Client.scaled k) <$> c.exec op := by
  cases op with
  | createLength v =>
    simp only [Client.exec, Op.scaled, System.createLength, map_bind]
    exact (congrArg (· >>= _) (scaled_addElement k c.sys [v] .length)).trans (bind_map_left ..)
  | createPoint x y =>
    simp only [Client.exec, Op.scaled, System.createPoint, map_bind]
    exact (congrArg (· >>= _) (scaled_addElement k c.sys [x, y] .point)).trans (bind_map_left ..)
  | createLine p q =>
    simp only [Client.exec, Op.scaled, System.createLine, map_bind, bind_assoc]
    refine bind_congr fun a => bind_congr fun b => bind_congr fun a' => bind_congr fun b' => ?_
    exact (congrArg (· >>= _) (scaled_addElement k c.sys [] _)).trans (bind_map_left ..)
  | createCircle p q =>
    simp only [Client.exec, Op.scaled, System.createCircle, map_bind, bind_assoc]
    refine bind_congr fun a => bind_congr fun b => bind_congr fun a' => bind_congr fun b' => ?_
    exact (congrArg (· >>= _) (scaled_addElement k c.sys [] _)).trans (bind_map_left ..)
  | createCon con =>
    simp only [Client.exec, Op.scaled, map_bind]
    rw [scaled_createCon, bind_map_left]
    rfl
  | fix tag i =>
    simp only [Client.exec, Op.scaled, System.fix, map_bind, bind_assoc]
    rfl
  | unfix tag i =>
    simp only [Client.exec, Op.scaled, System.unfix, map_bind, bind_assoc]
    rfl
  | updatePoint i x y =>
    simp only [Client.exec, Op.scaled, System.updatePoint, map_bind, bind_assoc]
    refine bind_congr fun a => bind_congr fun b => ?_
    refine (congrArg (· >>= _) (setIdx_map (k * ·) c.sys.vars b x)).trans ((bind_map_left ..).trans (bind_congr fun vs => ?_))
    exact (congrArg (· >>= _) (setIdx_map (k * ·) vs (b + 1) y)).trans (bind_map_left ..)
  | updateLength i v =>
    simp only [Client.exec, Op.scaled, System.updateLength, map_bind, bind_assoc]
    refine bind_congr fun a => bind_congr fun b => ?_
    exact (congrArg (· >>= _) (setIdx_map (k * ·) c.sys.vars b v)).trans (bind_map_left ..)
  | updateParameter tag i v =>
    simp only [Client.exec, Op.scaled, map_bind]
    refine bind_congr fun a => ?_
    exact (congrArg (· >>= _) (scaled_updateParameter k c.sys tag a v)).trans (bind_map_left ..)
  | solve result =>
    simp only [Client.exec, Op.scaled]
    show Except.ok _ = Except.ok _
    simp only [Client.scaled, System.scaled, List.flatMap_map, List.map_flatMap, scaled_elemValues]

theorem scaled_run (k : F) (c : Client F) (ops : List (Op F)) : (c.scaled k).run (ops.map (Op.scaled k)) = (Client.scaled k) <$> c.run ops := by
  unfold Client.run
  rw [List.foldlM_map]
  exact foldlM_commutes (fun c op _ => scaled_exec k c op) c

theorem scaled_kind (k : F) (e : Elem F) : (e.scaled k).kind = e.kind := by cases e <;> rfl

theorem scaled_conKind (k : F) (c : Spec.Con F) : (c.scaled k).kind = c.kind := by cases c <;> rfl

theorem scaled_isPoint (k : F) {st : Store F} {i : Nat} (h : st.IsPoint i) : (Store.scaled k st).IsPoint i := by
  obtain ⟨x, y, h⟩ := h
  exact ⟨k * x, k * y, by simp [Store.scaled, h, Elem.scaled]⟩

theorem scaled_isLength (k : F) {st : Store F} {i : Nat} (h : st.IsLength i) : (Store.scaled k st).IsLength i := by
  obtain ⟨x, h⟩ := h
  exact ⟨k * x, by simp [Store.scaled, h, Elem.scaled]⟩

theorem scaled_isLine (k : F) {st : Store F} {i : Nat} (h : st.IsLine i) : (Store.scaled k st).IsLine i := by
  obtain ⟨x, y, h⟩ := h
  exact ⟨x, y, by simp [Store.scaled, h, Elem.scaled]⟩

theorem scaled_isCircle (k : F) {st : Store F} {i : Nat} (h : st.IsCircle i) : (Store.scaled k st).IsCircle i := by
  obtain ⟨x, y, h⟩ := h
  exact ⟨x, y, by simp [Store.scaled, h, Elem.scaled]⟩

theorem scaled_legal (k : F) {st : Store F} {op : Op F} (h : st.Legal op) : (Store.scaled k st).Legal (op.scaled k) := by
  cases op with
  | createLength v => trivial
  | createPoint x y => trivial
  | createLine p q => exact ⟨scaled_isPoint k h.1, scaled_isPoint k h.2⟩
  | createCircle p q => exact ⟨scaled_isPoint k h.1, scaled_isLength k h.2⟩
  | createCon con =>
    cases con <;> simp only [Store.Legal, Store.ConOk, Op.scaled, Con.scaled] at h ⊢ <;>
      simp only [h, scaled_isPoint, scaled_isLine, scaled_isCircle, and_self]
  | fix tag i =>
    obtain ⟨e, h1, h2⟩ := h
    exact ⟨e.scaled k, by simp [Store.scaled, h1], by rw [scaled_kind, h2]⟩
  | unfix tag i =>
    obtain ⟨e, h1, h2⟩ := h
    exact ⟨e.scaled k, by simp [Store.scaled, h1], by rw [scaled_kind, h2]⟩
  | updatePoint i x y => exact scaled_isPoint k h
  | updateLength i v => exact scaled_isLength k h
  | updateParameter tag i v =>
    obtain ⟨c, h1, h2, h3⟩ := h
    refine ⟨c.scaled k, by simp [Store.scaled, h1], by rw [scaled_conKind, h2], ?_⟩
    cases c <;> simp [Con.withParameter, Con.scaled] at h3 ⊢
  | solve result =>
    simp only [Store.Legal, Op.scaled, Store.scaled] at h ⊢
    rw [List.forall₂_map_left_iff, List.forall₂_map_right_iff]
    refine h.imp fun a b hab => ?_
    cases a <;> cases b <;> exact hab

theorem scaled_primitives (k : F) (st : Store F) (i : Nat) : (Store.scaled k st).primitives i = st.primitives i := by
  unfold Store.primitives Store.scaled
  simp only [List.getElem?_map]
  cases st.elems[i]? with
  | none => rfl
  | some e => cases e <;> rfl

theorem scaled_step (k : F) {st : Store F} {op : Op F} (h : st.Legal op) : (Store.scaled k st).step (op.scaled k) = Store.scaled k (st.step op) := by
  cases op with
  | fix tag i => simp only [Store.step, Op.scaled, scaled_primitives]; rfl
  | unfix tag i => simp only [Store.step, Op.scaled, scaled_primitives]; rfl
  | updateParameter tag i v =>
    obtain ⟨c, h1, h2, h3⟩ := h
    have h4 : (Store.scaled k st).cons[i]? = some (c.scaled k) := by simp [Store.scaled, h1]
    simp only [Store.step, Op.scaled, h1, h4]
    subst h2
    unfold Store.scaled
    simp only [List.map_set]
    cases c <;> simp [Con.withParameter] at h3 <;> rfl
  | _ => simp [Store.step, Op.scaled, Store.scaled, Elem.scaled, List.map_set]

theorem scaled_legalRun (k : F) {st : Store F} {ops : List (Op F)} (h : st.LegalRun ops) : (Store.scaled k st).LegalRun (ops.map (Op.scaled k)) := by
  induction ops generalizing st with
  | nil => trivial
  | cons op ops ih => exact ⟨scaled_legal k h.1, by rw [scaled_step k h.1]; exact ih h.2⟩

theorem scaled_reaches (k : F) {counter : Nat} {ops : List (Op F)} {c : Client F} (h : Reaches counter ops c) :
    Reaches counter (ops.map (Op.scaled k)) (c.scaled k) where
  short := by rw [List.length_map]; exact h.short
  legal := scaled_legalRun k h.legal
  run := by
    have := scaled_run k (Client.new F counter) ops
    rw [h.run] at this
    exact this

theorem scaled_getValue (k : F) (s : System F) (tag : ElementTag) (h : Handle) : (s.scaled k).getValue tag h = scaledValue k <$> s.getValue tag h := by
  unfold System.getValue
  show (if h.systemId ≠ s.id then _ else _) = _
  split
  · rfl
  · rw [map_bind]
    refine bind_congr fun e => ?_
    cases tag <;> cases e <;> try rfl
    all_goals
      simp only [fromEncodedElement, System.scaled, idx_map, map_bind, bind_map_left]
      rfl

end

section
variable {F : Type} [Add F] [Sub F] [Mul F] [Div F] [Neg F] [Zero F] [One F] [FloatOps F]

/-- The state of `solve` on the scaled system. -/
def SolveState.scaled (k : F) (st : SolveState F) : SolveState F := { st with vars := st.vars.map (k * ·) }

variable {k scale : F} (massoc : ∀ x : F, k * scale * x = k * (scale * x))
include massoc

theorem scaled_writeVars (values vars : List F) (vi : Nat × Nat) :
    writeVars (k * scale) values (vars.map (k * ·)) vi = List.map (k * ·) <$> writeVars scale values vars vi := by
  unfold writeVars
  rw [map_bind]
  refine bind_congr fun x => ?_
  rw [massoc]
  exact setIdx_map (k * ·) vars vi.1 (scale * x)

theorem scaled_writeAll (values vars : List F) (l : List (Nat × Nat)) :
    l.foldlM (writeVars (k * scale) values) (vars.map (k * ·)) = List.map (k * ·) <$> l.foldlM (writeVars scale values) vars :=
  foldlM_commutes (fun vars vi _ => scaled_writeVars massoc values vars vi) vars

theorem scaled_solveWhole {optimize : Optimize F} {opts : SolvingOptions} {s : System F} {exprs : List (Expr F)}
    {constraints free : Finset Nat} {st : SolveState F} :
    solveWhole optimize opts (s.scaled k) (k * scale) exprs constraints free (st.scaled k) = SolveState.scaled k <$> solveWhole optimize opts s scale exprs constraints free st := by
  unfold solveWhole
  simp only [map_bind]
  refine bind_congr fun values => bind_congr fun expressions => bind_congr fun values' => ?_
  exact (congrArg (· >>= _) (scaled_writeAll massoc values' st.vars _)).trans (bind_map_left ..)

theorem scaled_solveBlock {optimize : Optimize F} {opts : SolvingOptions} {exprs : List (Expr F)} {freeList expressions : List Nat} {st : SolveState F} :
    solveBlock optimize opts (k * scale) exprs freeList expressions (st.scaled k) = SolveState.scaled k <$> solveBlock optimize opts scale exprs freeList expressions st := by
  unfold solveBlock
  simp only [map_bind]
  refine bind_congr fun values => bind_congr fun values' => bind_congr fun tr => ?_
  exact (congrArg (· >>= _) (scaled_writeAll massoc values' st.vars _)).trans (bind_map_left ..)

theorem scaled_solveSinglePass {optimize : Optimize F} {ord : HashOrder} {opts : SolvingOptions} {s : System F} {exprs : List (Expr F)} {component : Nat}
    {free : Finset Nat} {st : SolveState F} :
    solveSinglePass optimize ord opts (s.scaled k) (k * scale) exprs component free (st.scaled k) =
      SolveState.scaled k <$> solveSinglePass optimize ord opts s scale exprs component free st := by
  unfold solveSinglePass
  rw [map_bind]
  refine bind_congr fun blocks => ?_
  exact foldlM_commutes (fun st bi _ => scaled_solveBlock massoc) st

theorem scaled_moveElement {s : System F} {elements : List Nat} {pose : Pose2D F} {st : SolveState F} {i : Nat} :
    moveElement (s.scaled k) (k * scale) elements pose (st.scaled k) i = SolveState.scaled k <$> moveElement s scale elements pose st i := by
  unfold moveElement
  split
  · rfl
  rw [map_bind]
  refine bind_congr fun e => ?_
  cases e with
  | point j =>
    simp only [map_bind]
    refine bind_congr fun x => bind_congr fun y => bind_congr fun t1 => bind_congr fun t2 => ?_
    rw [massoc, massoc]
    refine (congrArg (· >>= _) (setIdx_map (k * ·) st.vars j _)).trans ((bind_map_left ..).trans (bind_congr fun vs => ?_))
    exact (congrArg (· >>= _) (setIdx_map (k * ·) vs (j + 1) _)).trans (bind_map_left ..)
  | _ => rfl

theorem scaled_solveStep {optimize : Optimize F} {s : System F} {exprs : List (Expr F)} {st : SolveState F} {step : RecombinationStep} :
    solveStep optimize (s.scaled k) (k * scale) exprs (st.scaled k) step = SolveState.scaled k <$> solveStep optimize s scale exprs st step := by
  unfold solveStep
  simp only [map_bind]
  refine bind_congr fun cs => bind_congr fun values => bind_congr fun tr => ?_
  refine (congrArg (· >>= _) (scaled_writeAll massoc values st.vars _)).trans ((bind_map_left ..).trans (bind_congr fun vars => ?_))
  refine foldlM_commutes (g := SolveState.scaled k) (fun st ck _ => ?_) { st with vars := vars, transformed := tr, calls := st.calls ++ [cs.1.expressions] }
  rw [map_bind]
  refine bind_congr fun pose => ?_
  exact foldlM_commutes (fun st i _ => scaled_moveElement massoc) st

theorem scaled_solveComponent {optimize : Optimize F} {ord : HashOrder} {opts : SolvingOptions} {s : System F} {exprs : List (Expr F)} {st : SolveState F}
    {ck : Component × Nat} :
    solveComponent optimize ord opts (s.scaled k) (k * scale) exprs (st.scaled k) ck = SolveState.scaled k <$> solveComponent optimize ord opts s scale exprs st ck := by
  unfold solveComponent
  split
  · rfl
  rw [map_bind]
  refine bind_congr fun free => ?_
  have hp : perturbFree opts free (st.scaled k) = SolveState.scaled k <$> perturbFree opts free st := by
    unfold perturbFree
    split
    · refine foldlM_commutes (g := SolveState.scaled k) (fun st v _ => ?_) st
      unfold perturbVariable
      simp only [map_bind]
      rfl
    · rfl
  rw [hp, bind_map_left, map_bind]
  refine bind_congr fun st => ?_
  split
  · exact scaled_solveWhole massoc
  · exact scaled_solveSinglePass massoc
  · unfold solveRecursive
    rw [map_bind]
    refine bind_congr fun steps => ?_
    exact foldlM_commutes (g := SolveState.scaled k) (fun st step _ => scaled_solveStep massoc) st

end

theorem scaled_scale {k : ℝ} (hk : 0 < k) (s : System ℝ) : (s.scaled k).scale = k * s.scale := by
  have hmem : (s.scaled k).vars ++ (s.scaled k).expressions.filterMap Expr.lengthParameter = (s.vars ++ s.expressions.filterMap Expr.lengthParameter).map (k * ·) := by
    simp only [System.scaled, List.map_append, List.map_filterMap, List.filterMap_map]
    congr 2
    funext e
    cases e <;> rfl
  unfold System.scale rootMeanSquares meanSquares
  rw [hmem, sumSquares_real, sumSquares_real, List.length_map]
  show √(_ / _) = k * √(_ / _)
  rw [List.map_map, show ((fun v : ℝ => v ^ 2) ∘ fun x => k * x) = fun x => (k * k) * x ^ 2 by funext x; simp only [Function.comp]; ring, List.sum_map_mul_left,
    mul_div_assoc, Real.sqrt_mul (by positivity), Real.sqrt_mul_self hk.le]

theorem scaled_transformed {k : ℝ} (hk : 0 < k) (s : System ℝ) : (s.scaled k).scaledVariables = s.scaledVariables ∧ (s.scaled k).scaledExpressions = s.scaledExpressions := by
  have hu : 1 / (k * s.scale) * k = 1 / s.scale := by
    rcases eq_or_ne s.scale 0 with h | h
    · rw [h]; simp
    · field_simp
  unfold System.scaledVariables System.scaledExpressions
  rw [scaled_scale hk]
  refine ⟨?_, ?_⟩
  · simp only [System.scaled, List.map_map]
    refine List.map_congr_left fun v _ => ?_
    simp only [Function.comp]
    rw [← hu]; ring
  · simp only [System.scaled, List.map_map]
    refine List.map_congr_left fun e _ => ?_
    cases e <;> simp only [Function.comp, Expr.transform]
    · rw [← hu, mul_assoc]
    · rw [← hu, mul_assoc]

/-- C60: if every coordinate, length and distance of a history is multiplied by `k > 0`, then `solve` does the same, with any optimiser, decomposer and
perturbation: it fails in the same way, or succeeds and all values are multiplied by `k`. -/
theorem C60_unit_of_length {k : ℝ} (hk : 0 < k) {counter : Nat} {ops : List (Op ℝ)} {c : Client ℝ} (h : Reaches counter ops c) :
    ∃ c', Reaches counter (ops.map (Op.scaled k)) c' ∧ c'.elemHandles = c.elemHandles ∧ c'.conHandles = c.conHandles ∧
      ∀ (optimize : Optimize ℝ) (ord : HashOrder) (opts : SolvingOptions),
        (∀ e, c.sys.solve optimize ord opts = .error e → c'.sys.solve optimize ord opts = .error e) ∧
        ∀ s, c.sys.solve optimize ord opts = .ok s → ∃ s', c'.sys.solve optimize ord opts = .ok s' ∧
          ∀ tag hd, s'.getValue tag hd = (s.getValue tag hd).map (scaledValue k) := by
  refine ⟨c.scaled k, scaled_reaches k h, rfl, rfl, fun optimize ord opts => ?_⟩
  have hsolve : (c.scaled k).sys.solve optimize ord opts = System.scaled k <$> c.sys.solve optimize ord opts := by
    unfold System.solve System.solveLoop
    have h1 := scaled_transformed hk c.sys
    simp only [Client.scaled]
    rw [h1.1, h1.2, scaled_scale hk, map_bind]
    have := foldlM_commutes (g := SolveState.scaled k) (l := c.sys.graph.components.zipIdx)
      (fun st ck _ => scaled_solveComponent (fun x => mul_assoc k c.sys.scale x) (optimize := optimize) (ord := ord) (opts := opts) (s := c.sys) (exprs := c.sys.scaledExpressions) (st := st) (ck := ck))
      ⟨c.sys.vars, c.sys.scaledVariables, 42, []⟩
    refine (congrArg (· >>= _) this).trans ((bind_map_left ..).trans (bind_congr fun st => ?_))
    rfl
  refine ⟨fun e he => by rw [hsolve, he]; rfl, fun s hs => ⟨s.scaled k, by rw [hsolve, hs]; rfl, fun tag hd => scaled_getValue k s tag hd⟩⟩

/-- A history for `C60_unit_of_length`: a distance between a fixed point and a free one. -/
example : ∃ c c' : Client ℝ, Reaches 0 fixedOps c ∧ Reaches 0 [.createPoint (1000 * 1) (1000 * 1), .createPoint (1000 * (-1)) (1000 * 1), .createCon (.pointPointDistance 0 1 (1000 * 1)), .fix .point 0] c' ∧
    c'.elemHandles = c.elemHandles :=
  let ⟨c, h⟩ := fixedOps_reaches
  let ⟨c', h1, h2, _⟩ := C60_unit_of_length (k := 1000) (by norm_num) h
  ⟨c, c', h, h1, h2⟩

end Fiksi
