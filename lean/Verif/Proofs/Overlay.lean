import Verif.Proofs.Solve
import Verif.Props.Scaling
/-!
# Solving one component does not read the variables of the others
-/
namespace Fiksi
open Spec Classical

section
variable {F : Type}

/-- The list with the entries outside `V` taken from `base`. -/
noncomputable def overlay (V : Nat → Prop) (base l : List F) : List F := l.mapIdx (fun i x => if V i then x else (base[i]?).getD x)

theorem overlay_length (V : Nat → Prop) (base l : List F) : (overlay V base l).length = l.length := by simp [overlay]

theorem overlay_get (V : Nat → Prop) (base l : List F) {i : Nat} (hi : V i) : (overlay V base l)[i]? = l[i]? := by
  simp [overlay, hi]

theorem overlay_idx (V : Nat → Prop) (base l : List F) {i : Nat} (hi : V i) : idx (overlay V base l) i = idx l i := by
  rw [idx, idx, overlay_get V base l hi]

theorem overlay_setIdx (V : Nat → Prop) (base l : List F) {i : Nat} (hi : V i) (x : F) : setIdx (overlay V base l) i x = overlay V base <$> setIdx l i x := by
  unfold setIdx
  rw [overlay_length]
  split
  · refine congrArg Except.ok (List.ext_getElem? fun j => ?_)
    by_cases hj : i = j
    · subst hj
      rw [overlay_get V base _ hi, List.getElem?_set, List.getElem?_set, overlay_length, if_pos rfl, if_pos rfl]
    · rw [List.getElem?_set_ne hj]
      simp only [overlay, List.getElem?_mapIdx]
      rw [List.getElem?_set_ne hj]
  · rfl

/-- Lists that agree on `V`. -/
theorem overlay_of_agree {V : Nat → Prop} {l l' : List F} (hl : l'.length = l.length) (h : ∀ v, V v → l'[v]? = l[v]?) : l' = overlay V l' l := by
  refine List.ext_getElem? fun j => ?_
  by_cases hj : V j
  · rw [overlay_get V l' l hj, h j hj]
  · simp only [overlay, List.getElem?_mapIdx, hj, if_false]
    by_cases hlt : j < l.length
    · rw [List.getElem?_eq_getElem hlt, List.getElem?_eq_getElem (by omega)]
      rfl
    · rw [List.getElem?_eq_none (by omega), List.getElem?_eq_none (by omega)]
      rfl

theorem bind_congr_ok {α β : Type} {x : R α} {f g : α → R β} (h : ∀ a, x = .ok a → f a = g a) : x >>= f = x >>= g := by
  cases x with
  | error e => rfl
  | ok a => exact h a rfl

theorem mapM_congr_mem {α β : Type} {f g : α → R β} {l : List α} (h : ∀ a ∈ l, f a = g a) : l.mapM f = l.mapM g := by
  induction l with
  | nil => rfl
  | cons a l ih =>
    rw [List.mapM_cons, List.mapM_cons, h a (by simp), ih fun b hb => h b (List.mem_cons_of_mem _ hb)]

theorem foldlM_congr_mem {α σ : Type} {f g : σ → α → R σ} {l : List α} (h : ∀ st, ∀ a ∈ l, f st a = g st a) (st : σ) : l.foldlM f st = l.foldlM g st := by
  induction l generalizing st with
  | nil => rfl
  | cons a l ih =>
    rw [List.foldlM_cons, List.foldlM_cons, h st a (by simp)]
    exact bind_congr fun st' => ih (fun st b hb => h st b (List.mem_cons_of_mem _ hb)) st'

end

section
variable {F : Type} [Add F] [Sub F] [Mul F] [Div F] [Neg F] [Zero F] [One F] [FloatOps F]

/-- The state with the variables outside `V` taken from elsewhere. -/
noncomputable def SolveState.overlay (V : Nat → Prop) (b1 b2 : List F) (st : SolveState F) : SolveState F :=
  { st with vars := Fiksi.overlay V b1 st.vars, transformed := Fiksi.overlay V b2 st.transformed }

/-- The two lists of expressions have the same expression number `e`, and it is about variables in `V`. -/
def SameExpr (V : Nat → Prop) (exprs exprs' : List (Expr F)) (e : Nat) : Prop :=
  exprs'[e]? = exprs[e]? ∧ ∀ ex, exprs[e]? = some ex → ∀ v ∈ ex.variableIndices, V v

omit [Add F] [Sub F] [Mul F] [Div F] [Neg F] [Zero F] [One F] [FloatOps F] in
theorem SameExpr.idx {V : Nat → Prop} {exprs exprs' : List (Expr F)} {e : Nat} (h : SameExpr V exprs exprs' e) : idx exprs' e = idx exprs e := by
  rw [Fiksi.idx, Fiksi.idx, h.1]

omit [Add F] [Sub F] [Mul F] [Div F] [Neg F] [Zero F] [One F] [FloatOps F] in
theorem SameExpr.vars {V : Nat → Prop} {exprs exprs' : List (Expr F)} {e : Nat} (h : SameExpr V exprs exprs' e) {ex : Expr F} (he : Fiksi.idx exprs e = .ok ex) :
    ∀ v ∈ ex.variableIndices, V v := h.2 ex (idx_eq_ok.1 he)

variable {V : Nat → Prop} {b1 b2 : List F} {exprs exprs' : List (Expr F)}

theorem subsystem_overlay {tr : List F} {es free : List Nat} (hes : ∀ e ∈ es, SameExpr V exprs exprs' e) :
    (⟨overlay V b2 tr, exprs', es, free⟩ : Subsystem F).problem = (⟨tr, exprs, es, free⟩ : Subsystem F).problem := by
  have hget : ∀ values v, V v → (⟨overlay V b2 tr, exprs', es, free⟩ : Subsystem F).getValue values v = (⟨tr, exprs, es, free⟩ : Subsystem F).getValue values v := by
    intro values v hv
    unfold Subsystem.getValue
    simp only
    cases free.idxOf? v with
    | none => simp only [overlay_idx V b2 tr hv]
    | some i => rfl
  unfold Subsystem.problem
  congr 1
  · funext values
    unfold Subsystem.calculateResiduals
    refine mapM_congr_mem fun e he => ?_
    simp only
    rw [(hes e he).idx]
    refine bind_congr_ok fun ex hex => ?_
    unfold Expr.calculateResidual
    rw [mapM_congr_mem fun v hv => by rw [hget values v ((hes e he).vars hex v hv)]]
  · funext values rs jac
    unfold Subsystem.denseJacobian
    refine foldlM_congr_mem (fun st ei hei => ?_) _
    have he := mem_zipIdx_fst hei
    unfold Subsystem.denseRow
    simp only
    rw [(hes _ he).idx]
    refine bind_congr_ok fun ex hex => ?_
    unfold Expr.calculateResidualAndGradient
    rw [mapM_congr_mem fun v hv => hget values v ((hes _ he).vars hex v hv)]
  · funext values rs ts
    unfold Subsystem.sparseJacobian
    refine foldlM_congr_mem (fun st ei hei => ?_) _
    have he := mem_zipIdx_fst hei
    unfold Subsystem.sparseRow
    simp only
    rw [(hes _ he).idx]
    refine bind_congr_ok fun ex hex => ?_
    rw [mapM_congr_mem fun v hv => hget values v ((hes _ he).vars hex v hv)]

theorem writeVars_overlay {scale : F} {values vars : List F} {l : List (Nat × Nat)} (hl : ∀ p ∈ l, V p.1) :
    l.foldlM (writeVars scale values) (overlay V b1 vars) = overlay V b1 <$> l.foldlM (writeVars scale values) vars := by
  refine foldlM_commutes (fun vars vi hvi => ?_) vars
  unfold writeVars
  rw [map_bind]
  exact bind_congr fun x => overlay_setIdx V b1 vars (hl vi hvi) _

theorem writeTransformed_overlay {values tr : List F} {l : List (Nat × Nat)} (hl : ∀ p ∈ l, V p.1) :
    l.foldlM (writeTransformed values) (overlay V b2 tr) = overlay V b2 <$> l.foldlM (writeTransformed values) tr := by
  refine foldlM_commutes (fun vars vi hvi => ?_) tr
  unfold writeTransformed
  rw [map_bind]
  exact bind_congr fun x => overlay_setIdx V b2 vars (hl vi hvi) _

theorem mapM_idx_overlay {tr : List F} {l : List Nat} (hl : ∀ v ∈ l, V v) : l.mapM (idx (overlay V b2 tr)) = l.mapM (idx tr) :=
  mapM_congr_mem fun v hv => overlay_idx V b2 tr (hl v hv)

theorem zipIdx_in {l : List Nat} (hl : ∀ v ∈ l, V v) : ∀ p ∈ l.zipIdx, V p.1 := fun _ hp => hl _ (mem_zipIdx_fst hp)

theorem solveWhole_overlay {optimize : Optimize F} {opts : SolvingOptions} {s : System F} {scale : F} {constraints free : Finset Nat} {st : SolveState F}
    (hfree : ∀ v ∈ free, V v) (hes : ∀ es, (ascending constraints).mapM s.constraintExpressions = .ok es → ∀ e ∈ es.flatten, SameExpr V exprs exprs' e) :
    solveWhole optimize opts s scale exprs' constraints free (st.overlay V b1 b2) = SolveState.overlay V b1 b2 <$> solveWhole optimize opts s scale exprs constraints free st := by
  have hf : ∀ v ∈ ascending free, V v := fun v hv => hfree v ((mem_ascending _ _).1 hv)
  unfold solveWhole
  simp only [map_bind]
  refine (congrArg (· >>= _) (mapM_idx_overlay hf)).trans (bind_congr fun values => bind_congr_ok fun es h1 => ?_)
  refine (congrArg (fun p => optimize opts.optimizer p values >>= _) (subsystem_overlay (hes es h1))).trans (bind_congr fun values' => ?_)
  exact (congrArg (· >>= _) (writeVars_overlay (zipIdx_in hf))).trans (bind_map_left ..)

theorem solveBlock_overlay {optimize : Optimize F} {opts : SolvingOptions} {scale : F} {freeList es : List Nat} {st : SolveState F}
    (hf : ∀ v ∈ freeList, V v) (hes : ∀ e ∈ es, SameExpr V exprs exprs' e) :
    solveBlock optimize opts scale exprs' freeList es (st.overlay V b1 b2) = SolveState.overlay V b1 b2 <$> solveBlock optimize opts scale exprs freeList es st := by
  unfold solveBlock
  simp only [map_bind]
  refine (congrArg (· >>= _) (mapM_idx_overlay hf)).trans (bind_congr fun values => ?_)
  refine (congrArg (fun p => optimize opts.optimizer p values >>= _) (subsystem_overlay hes)).trans (bind_congr fun values' => ?_)
  refine (congrArg (· >>= _) (writeTransformed_overlay (zipIdx_in hf))).trans ((bind_map_left ..).trans (bind_congr fun tr => ?_))
  exact (congrArg (· >>= _) (writeVars_overlay (zipIdx_in hf))).trans (bind_map_left ..)

theorem solveSinglePass_overlay {optimize : Optimize F} {ord : HashOrder} (hord : ord.Ok) {opts : SolvingOptions} {s : System F} {scale : F} {component : Nat} {free : Finset Nat} {st : SolveState F}
    (hblocks : ∀ blocks, s.equationGraph.findStronglyConnectedExpressions free = .ok blocks → ∀ b ∈ blocks, (∀ v ∈ b.freeVariables, V v) ∧ ∀ e ∈ b.expressions, SameExpr V exprs exprs' e) :
    solveSinglePass optimize ord opts s scale exprs' component free (st.overlay V b1 b2) = SolveState.overlay V b1 b2 <$> solveSinglePass optimize ord opts s scale exprs component free st := by
  unfold solveSinglePass
  rw [map_bind]
  refine bind_congr_ok fun blocks hb => foldlM_commutes (fun st bi hbi => ?_) st
  obtain ⟨h1, h2⟩ := hblocks blocks hb bi.1 (mem_zipIdx_fst hbi)
  exact solveBlock_overlay (fun v hv => h1 v (by simpa using (hord [component, 0, bi.2] bi.1.freeVariables).2 v |>.1 hv)) h2

/-! ## Recursive assembly -/

theorem point_in {s : System F} {E : Finset Nat} (hE : ∀ v, s.VarOf E v → V v) {p i : Nat} (hp : p ∈ E) (hi : idx s.elements p = .ok (.point i)) : V i ∧ V (i + 1) :=
  ⟨hE _ ⟨p, hp, _, idx_eq_ok.1 hi, by simp [EncodedElement.variableIndices]⟩, hE _ ⟨p, hp, _, idx_eq_ok.1 hi, by simp [EncodedElement.variableIndices]⟩⟩

theorem build_overlay {s : System F} {tr : List F} {step : RecombinationStep} {E : Finset Nat} (hE : ∀ v, s.VarOf E v → V v) (he : ∀ v ∈ step.elements, v ∈ E) (hn : step.Names E) :
    ClusteredSystem.build s (overlay V b2 tr) step = ClusteredSystem.build s tr step := by
  unfold ClusteredSystem.build
  refine bind_congr fun es => bind_congr fun reach => bind_congr_ok fun elements h1 => bind_congr fun cl => ?_
  have hel := followClusters_mem hn.front _ _ _ _ he h1
  refine congrArg (· >>= _) (foldlM_congr_mem (fun st i hi => ?_) _)
  unfold addElementVariables
  refine bind_congr_ok fun el hel' => ?_
  cases el with
  | length k => simp only [overlay_idx V b2 tr (hE k ⟨i, hel i hi, _, idx_eq_ok.1 hel', by simp [EncodedElement.variableIndices]⟩)]
  | point k => simp only [overlay_idx V b2 tr (point_in hE (hel i hi) hel').1, overlay_idx V b2 tr (point_in hE (hel i hi) hel').2]
  | line a b => rfl
  | circle a b => rfl

theorem build_clusters {s : System F} {tr : List F} {step : RecombinationStep} {E : Finset Nat} (he : ∀ v ∈ step.elements, v ∈ E) (hn : step.Names E) {cs : ClusteredSystem} {values : List F}
    (h : ClusteredSystem.build s tr step = .ok (cs, values)) : cs.clusters.Names E := by
  rw [ClusteredSystem.build, bind_eq_ok] at h
  obtain ⟨es, -, h⟩ := h
  rw [bind_eq_ok] at h
  obtain ⟨reach, -, h⟩ := h
  rw [bind_eq_ok] at h
  obtain ⟨elements, h1, h⟩ := h
  rw [bind_eq_ok] at h
  obtain ⟨⟨clusters, np⟩, h2, h⟩ := h
  rw [bind_eq_ok] at h
  obtain ⟨⟨mapping, vs⟩, -, h⟩ := h
  cases h
  have hel := followClusters_mem hn.front _ _ _ _ he h1
  refine foldlM_inv (fun st : IMap Nat (List Nat) × Nat => st.1.Names E) _ _ _ _ ?_ (fun st i st' hi hst h3 => ?_) h2
  · intro p hp; cases hp
  · rw [collectClusters, bind_eq_ok] at h3
    obtain ⟨el, -, h3⟩ := h3
    split at h3
    · cases h3; exact hst
    · split at h3
      · cases h3
        rename_i clusters _ _
        show (List.foldl _ st.1 clusters).Names E
        clear * - hst hel hi
        generalize st.1 = m at hst
        induction clusters generalizing m with
        | nil => exact hst
        | cons c cs ih => exact ih _ (hst.pushEntry (hel i hi))
      · cases h3; exact hst

theorem clustered_overlay {s s' : System F} (hs : s'.elements = s.elements) {tr : List F} {E : Finset Nat} (hE : ∀ v, s.VarOf E v → V v) {cs : ClusteredSystem} (hcl : cs.clusters.Names E)
    (hes : ∀ e ∈ cs.expressions, SameExpr V exprs exprs' e) : cs.problem s' exprs' (overlay V b2 tr) = cs.problem s exprs tr := by
  have hpt : ∀ values p, p ∈ E → cs.pointTerm s'.elements (overlay V b2 tr) values p = cs.pointTerm s.elements tr values p := by
    intro values p hp
    unfold ClusteredSystem.pointTerm
    rw [hs]
    refine bind_congr_ok fun el hel => ?_
    cases el with
    | point i => simp only [overlay_idx V b2 tr (point_in hE hp hel).1, overlay_idx V b2 tr (point_in hE hp hel).2]
    | _ => rfl
  have hrt : cs.residualsAndTriplets s' exprs' (overlay V b2 tr) = cs.residualsAndTriplets s exprs tr := by
    funext values rs ts
    unfold ClusteredSystem.residualsAndTriplets
    refine (congrArg (· >>= _) (foldlM_congr_mem (fun st ei hei => ?_) _)).trans (bind_congr fun r => congrArg (· >>= _) (foldlM_congr_mem (fun st ck hck => bind_congr fun pose => foldlM_congr_mem (fun st p hp => ?_) _) _))
    · rw [(hes _ (mem_zipIdx_fst hei)).idx]
    · unfold ClusteredSystem.pointRows
      rw [hpt _ p (hcl _ (mem_zipIdx_fst hck) p hp)]
  unfold ClusteredSystem.problem
  congr 1
  · funext values
    unfold ClusteredSystem.calculateResiduals
    refine (congrArg (· >>= _) (foldlM_congr_mem (fun st ei hei => ?_) _)).trans (bind_congr fun r => congrArg (· >>= _) (foldlM_congr_mem (fun st ck hck => bind_congr fun pose => foldlM_congr_mem (fun st p hp => ?_) _) _))
    · rw [(hes _ (mem_zipIdx_fst hei)).idx]
    · rw [hpt _ p (hcl _ (mem_zipIdx_fst hck) p hp)]
  · funext values rs jac
    rw [hrt]

theorem moveElement_overlay {s : System F} {scale : F} {elements : List Nat} {pose : Pose2D F} {st : SolveState F} {i : Nat} {E : Finset Nat} (hE : ∀ v, s.VarOf E v → V v) (hi : i ∈ E) :
    moveElement s scale elements pose (st.overlay V b1 b2) i = SolveState.overlay V b1 b2 <$> moveElement s scale elements pose st i := by
  unfold moveElement
  split
  · rfl
  rw [map_bind]
  refine bind_congr_ok fun e he => ?_
  cases e with
  | point j =>
    obtain ⟨h1, h2⟩ := point_in hE hi he
    simp only [map_bind]
    refine (congrArg (· >>= _) (overlay_idx V b2 st.transformed h1)).trans (bind_congr fun x => ?_)
    refine (congrArg (· >>= _) (overlay_idx V b2 st.transformed h2)).trans (bind_congr fun y => ?_)
    refine (congrArg (· >>= _) (overlay_setIdx V b2 st.transformed h1 _)).trans ((bind_map_left ..).trans (bind_congr fun t1 => ?_))
    refine (congrArg (· >>= _) (overlay_setIdx V b2 t1 h2 _)).trans ((bind_map_left ..).trans (bind_congr fun t2 => ?_))
    refine (congrArg (· >>= _) (overlay_setIdx V b1 st.vars h1 _)).trans ((bind_map_left ..).trans (bind_congr fun v1 => ?_))
    exact (congrArg (· >>= _) (overlay_setIdx V b1 v1 h2 _)).trans (bind_map_left ..)
  | _ => rfl

theorem solveStep_overlay {optimize : Optimize F} {s : System F} {scale : F} {st : SolveState F} {step : RecombinationStep} {E : Finset Nat} (hE : ∀ v, s.VarOf E v → V v)
    (he : ∀ v ∈ step.elements, v ∈ E) (hn : step.Names E)
    (hes : ∀ es, step.constraints.mapM s.constraintExpressions = .ok es → ∀ e ∈ es.flatten, SameExpr V exprs exprs' e) :
    solveStep optimize s scale exprs' (st.overlay V b1 b2) step = SolveState.overlay V b1 b2 <$> solveStep optimize s scale exprs st step := by
  unfold solveStep
  simp only [map_bind]
  refine (congrArg (· >>= _) (build_overlay hE he hn)).trans (bind_congr_ok fun ⟨cs, values⟩ hcs => ?_)
  obtain ⟨h1, es, h2, h3⟩ := build_names he hn hcs
  have h4 := build_clusters he hn hcs
  refine (congrArg (fun p => optimize .levenbergMarquardt p values >>= _) (clustered_overlay rfl hE h4 (h3 ▸ hes es h2))).trans (bind_congr fun values' => ?_)
  refine (congrArg (· >>= _) (writeTransformed_overlay fun p hp => hE _ (h1.mapping p hp))).trans ((bind_map_left ..).trans (bind_congr fun tr => ?_))
  refine (congrArg (· >>= _) (writeVars_overlay fun p hp => hE _ (h1.mapping p hp))).trans ((bind_map_left ..).trans (bind_congr fun vars => ?_))
  refine foldlM_commutes (g := SolveState.overlay V b1 b2) (fun st ck _ => ?_) { st with vars := vars, transformed := tr, calls := st.calls ++ [cs.expressions] }
  rw [map_bind]
  refine bind_congr fun pose => foldlM_commutes (fun st i hi => moveElement_overlay hE ?_) st
  cases hg : step.ownedElements.get? ck.1 with
  | none => rw [hg] at hi; simp at hi
  | some l => rw [hg] at hi; exact hn.owned.get hg i hi

theorem perturbFree_overlay {opts : SolvingOptions} {free : Finset Nat} {st : SolveState F} (hfree : ∀ v ∈ free, V v) :
    perturbFree opts free (st.overlay V b1 b2) = SolveState.overlay V b1 b2 <$> perturbFree opts free st := by
  unfold perturbFree
  split
  · refine foldlM_commutes (g := SolveState.overlay V b1 b2) (fun st v hv => ?_) st
    have hv := hfree v ((mem_ascending _ _).1 hv)
    unfold perturbVariable
    simp only [map_bind]
    refine (congrArg (· >>= _) (overlay_idx V b2 st.transformed hv)).trans (bind_congr fun x => ?_)
    exact (congrArg (· >>= _) (overlay_setIdx V b2 st.transformed hv _)).trans (bind_map_left ..)
  · rfl

/-! ## The generator does not depend on values -/

/-- The generator after the perturbation of one variable. -/
def rngStep (F : Type) [Mul F] [Div F] [One F] [FloatOps F] (seed : Nat) : Nat := (rngNextF64 (F := F) (rngNextF64 (F := F) seed).2).2

/-- The generator after the perturbation of `n` variables. -/
def rngAfter (F : Type) [Mul F] [Div F] [One F] [FloatOps F] (n seed : Nat) : Nat := (rngStep F)^[n] seed

theorem perturbVariable_rng {st st' : SolveState F} {v : Nat} (h : perturbVariable st v = .ok st') : st'.rng = rngStep F st.rng := by
  rw [perturbVariable, bind_eq_ok] at h
  obtain ⟨x, -, h⟩ := h
  rw [bind_eq_ok] at h
  obtain ⟨tr, -, h⟩ := h
  rw [← Except.ok.inj h, rngStep]

attribute [irreducible] rngStep

theorem perturb_rng : ∀ (l : List Nat) {st st' : SolveState F}, l.foldlM perturbVariable st = .ok st' → st'.rng = rngAfter F l.length st.rng
  | [], _, _, h => by cases h; rfl
  | v :: l, st, st', h => by
    rw [List.foldlM_cons, bind_eq_ok] at h
    obtain ⟨st1, h1, h2⟩ := h
    rw [perturb_rng l h2, perturbVariable_rng h1, List.length_cons, rngAfter, rngAfter, Function.iterate_succ_apply]

theorem perturbFree_rng {opts : SolvingOptions} {free : Finset Nat} {st st' : SolveState F} (h : perturbFree opts free st = .ok st') :
    st'.rng = if opts.perturb then rngAfter F (ascending free).length st.rng else st.rng := by
  unfold perturbFree at h
  split at h
  · next hp => rw [if_pos hp]; exact perturb_rng _ h
  · next hp => rw [if_neg hp]; cases h; rfl

theorem solveWhole_rng {optimize : Optimize F} {opts : SolvingOptions} {s : System F} {scale : F} {constraints free : Finset Nat} {st st' : SolveState F}
    (h : solveWhole optimize opts s scale exprs constraints free st = .ok st') : st'.rng = st.rng := by
  simp only [solveWhole, bind_eq_ok] at h
  obtain ⟨_, -, _, -, _, -, _, -, h⟩ := h
  cases h
  rfl

theorem solveBlock_rng {optimize : Optimize F} {opts : SolvingOptions} {scale : F} {freeList es : List Nat} {st st' : SolveState F}
    (h : solveBlock optimize opts scale exprs freeList es st = .ok st') : st'.rng = st.rng := by
  simp only [solveBlock, bind_eq_ok] at h
  obtain ⟨_, -, _, -, _, -, _, -, h⟩ := h
  cases h
  rfl

theorem moveElement_rng {s : System F} {scale : F} {elements : List Nat} {pose : Pose2D F} {st st' : SolveState F} {i : Nat} (h : moveElement s scale elements pose st i = .ok st') : st'.rng = st.rng := by
  unfold moveElement at h
  split at h
  · cases h; rfl
  · rw [bind_eq_ok] at h
    obtain ⟨el, -, h⟩ := h
    cases el with
    | point k =>
      simp only [bind_eq_ok] at h
      obtain ⟨x, -, y, -, t1, -, t2, -, v1, -, v2, -, h⟩ := h
      cases h
      rfl
    | _ => cases h; rfl

theorem solveStep_rng {optimize : Optimize F} {s : System F} {scale : F} {st st' : SolveState F} {step : RecombinationStep} (h : solveStep optimize s scale exprs st step = .ok st') : st'.rng = st.rng := by
  simp only [solveStep, bind_eq_ok] at h
  obtain ⟨_, -, _, -, _, -, _, -, h⟩ := h
  refine foldlM_inv (fun t : SolveState F => t.rng = st.rng) _ _ _ _ (by rfl) (fun t ck t' _ ht h1 => ?_) h
  rw [bind_eq_ok] at h1
  obtain ⟨pose, -, h1⟩ := h1
  exact foldlM_inv (fun t : SolveState F => t.rng = st.rng) _ _ _ _ ht (fun t i t' _ ht h2 => (moveElement_rng h2).trans ht) h1

theorem solveComponent_rng {optimize : Optimize F} {ord : HashOrder} {opts : SolvingOptions} {s : System F} {scale : F} {st st' : SolveState F} {ck : Component × Nat}
    (h : solveComponent optimize ord opts s scale exprs st ck = .ok st') :
    (ck.1.elements = ∅ ∧ st'.rng = st.rng) ∨ ∃ free, s.freeVariables ck.1.elements = .ok free ∧ st'.rng = if opts.perturb then rngAfter F (ascending free).length st.rng else st.rng := by
  unfold solveComponent at h
  split at h
  · next he => cases h; exact .inl ⟨he, rfl⟩
  · rw [bind_eq_ok] at h
    obtain ⟨free, hfree, h⟩ := h
    rw [bind_eq_ok] at h
    obtain ⟨st1, h1, h⟩ := h
    refine .inr ⟨free, hfree, ?_⟩
    rw [← perturbFree_rng h1]
    split at h
    · exact solveWhole_rng h
    · rw [solveSinglePass, bind_eq_ok] at h
      obtain ⟨blocks, -, h⟩ := h
      exact foldlM_inv (fun t : SolveState F => t.rng = st1.rng) _ _ _ _ rfl (fun t b t' _ ht h2 => (solveBlock_rng h2).trans ht) h
    · rw [solveRecursive, bind_eq_ok] at h
      obtain ⟨steps, -, h⟩ := h
      exact foldlM_inv (fun t : SolveState F => t.rng = st1.rng) _ _ _ _ rfl (fun t b t' _ ht h2 => (solveStep_rng h2).trans ht) h

theorem forall₂_unique {α β : Type} {P : α → β → Prop} (hP : ∀ a b b', P a b → P a b' → b = b') : ∀ {l : List α} {r r' : List β}, List.Forall₂ P l r → List.Forall₂ P l r' → r = r'
  | _, _, _, .nil, .nil => rfl
  | _, _, _, .cons h1 h2, .cons h3 h4 => by rw [hP _ _ _ h1 h3, forall₂_unique hP h2 h4]

theorem callsFor_unique {s : System F} {ord : HashOrder} {opts : SolvingOptions} {component : Nat} {comp : Component} {l l' : List (List Nat)} (h : s.CallsFor ord opts component comp l)
    (h' : s.CallsFor ord opts component comp l') : l = l' := by
  unfold System.CallsFor at h h'
  cases hd : opts.decomposer <;> rw [hd] at h h' <;> simp only at h h'
  · obtain ⟨es, h1, rfl⟩ := h
    obtain ⟨es', h2, rfl⟩ := h'
    rw [h1] at h2; cases h2; rfl
  · obtain ⟨f, b, h1, h2, rfl⟩ := h
    obtain ⟨f', b', h3, h4, rfl⟩ := h'
    rw [h1] at h3; cases h3
    rw [h2] at h4; cases h4; rfl
  · obtain ⟨steps, h1, h2⟩ := h
    obtain ⟨steps', h3, h4⟩ := h'
    rw [h1] at h3; cases h3
    refine forall₂_unique (fun a b b' hb hb' => ?_) h2 h4
    obtain ⟨m, h5, rfl⟩ := hb
    obtain ⟨m', h6, rfl⟩ := hb'
    rw [h5] at h6; cases h6; rfl

/-! ## Components -/

/-- A component inside `V`: its variables and the expressions handed to the optimiser are. -/
theorem solveComponent_inside {optimize : Optimize F} {ord : HashOrder} (hord : ord.Ok) {opts : SolvingOptions} {s : System F} {scale : F} {st : SolveState F} {ck : Component × Nat}
    (hok : DCtx.Ok ⟨s.graph.toD, ck.1.elements, ck.1.constraints⟩)
    (hV : ∀ v, s.VarOf ck.1.elements v → V v)
    (hes : ∀ n ∈ ck.1.constraints, ∀ es, s.constraintExpressions n = .ok es → ∀ e ∈ es, SameExpr V exprs exprs' e)
    (hblocks : ∀ free blocks, s.freeVariables ck.1.elements = .ok free → s.equationGraph.findStronglyConnectedExpressions free = .ok blocks →
      ∀ b ∈ blocks, b.freeVariables ⊆ free ∧ ∀ e ∈ b.expressions, SameExpr V exprs exprs' e) :
    solveComponent optimize ord opts s scale exprs' (st.overlay V b1 b2) ck = SolveState.overlay V b1 b2 <$> solveComponent optimize ord opts s scale exprs st ck := by
  have hflat : ∀ (l : List Nat) es, (∀ n ∈ l, n ∈ ck.1.constraints) → l.mapM s.constraintExpressions = .ok es → ∀ e ∈ es.flatten, SameExpr V exprs exprs' e := by
    intro l es hl h1 e he
    obtain ⟨m, hm, he⟩ := List.mem_flatten.1 he
    obtain ⟨n, hn, h2⟩ := forall₂_mem_right (mapM_forall h1) hm
    exact hes n (hl n hn) m h2 e he
  unfold solveComponent
  split
  · rfl
  rw [map_bind]
  refine bind_congr_ok fun free hfree => ?_
  have hf : ∀ v ∈ free, V v := fun v hv => hV v ((freeVariables_spec hfree v).1 hv).1
  rw [perturbFree_overlay hf, bind_map_left, map_bind]
  refine bind_congr fun st => ?_
  split
  · exact solveWhole_overlay hf fun es h1 => hflat _ _ (fun n hn => (mem_ascending _ _).1 hn) h1
  · exact solveSinglePass_overlay hord fun blocks hb b hbm => ⟨fun v hv => hf v ((hblocks free blocks hfree hb b hbm).1 hv), (hblocks free blocks hfree hb b hbm).2⟩
  · unfold solveRecursive
    rw [map_bind]
    refine bind_congr_ok fun steps hsteps => ?_
    have hord' : HashOrder.Ok (fun tag => ord (ck.2 :: 1 :: tag)) := fun tag s => hord _ s
    have hp := decompose_plan hok hord' hsteps
    have hn := decompose_names hok hord' hsteps
    exact foldlM_commutes (g := SolveState.overlay V b1 b2) (fun st step hst => solveStep_overlay hV (hp.ok step hst).elems (hn step hst)
      fun es h1 => hflat _ _ (fun n hn => (hp.mem n).1 (List.mem_flatMap.2 ⟨step, hst, hn⟩)) h1) st

end

end Fiksi
