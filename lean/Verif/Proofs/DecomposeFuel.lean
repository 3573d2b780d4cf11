import Verif.Proofs.Decompose
import Mathlib.Data.Finset.Powerset
/-! # `decompose` terminates -/
namespace Fiksi

/-- The loop bound of the model is not reached. -/
def NoFuel {α : Type} (x : R α) : Prop := x ≠ .error .outOfFuel

variable {α β σ : Type}

theorem NoFuel.ok (a : α) : NoFuel (.ok a : R α) := by simp [NoFuel]
theorem NoFuel.pure (a : α) : NoFuel (pure a : R α) := NoFuel.ok a

theorem NoFuel.bind {x : R α} {f : α → R β} (h : NoFuel x) (h' : ∀ a, x = .ok a → NoFuel (f a)) : NoFuel (x >>= f) := by
  cases x with
  | ok a => exact h' a rfl
  | error p => intro he; exact h (by simpa using he)

theorem NoFuel.idx (l : List α) (i : Nat) : NoFuel (idx l i) := by
  unfold NoFuel Fiksi.idx; split <;> simp

theorem NoFuel.setIdx (l : List α) (i : Nat) (a : α) : NoFuel (setIdx l i a) := by
  unfold NoFuel Fiksi.setIdx; split <;> simp

theorem NoFuel.toU32 (n : Nat) : NoFuel (toU32 n) := by
  unfold NoFuel Fiksi.toU32; split <;> simp

theorem NoFuel.unwrap (o : Option α) : NoFuel (unwrap o) := by
  cases o <;> simp [NoFuel, Fiksi.unwrap]

theorem NoFuel.ite {c : Prop} [Decidable c] {x y : R α} (h : NoFuel x) (h' : NoFuel y) : NoFuel (if c then x else y) := by
  split <;> assumption

theorem NoFuel.foldlM {f : σ → α → R σ} (h : ∀ s a, NoFuel (f s a)) : ∀ (l : List α) (s : σ), NoFuel (l.foldlM f s) := by
  intro l
  induction l with
  | nil => intro s; exact .pure s
  | cons a l ih =>
    intro s
    rw [List.foldlM_cons]
    exact (h s a).bind (fun s' _ => ih s')

theorem NoFuel.availableAt (g : DGraph) (av : Finset Nat) (v : Nat) : NoFuel (g.availableAt av v) :=
  (NoFuel.idx _ _).bind (fun _ _ => .pure _)

theorem NoFuel.scanVertex (nE nC key : Nat) (sub : Finset Nat) (sc : ScanState) (v : Nat) :
    NoFuel (scanVertex nE nC key sub sc v) := by
  refine (NoFuel.availableAt _ _ _).bind (fun edges _ => ?_)
  refine NoFuel.bind (NoFuel.foldlM (fun s a => (NoFuel.idx _ _).bind (fun _ _ => .ite (.ite (.pure _) (.pure _)) (.pure _))) _ _)
    (fun p _ => ?_)
  obtain ⟨b, st⟩ := p
  exact .ite (.pure _) (.pure _)

theorem NoFuel.swapRemoveKey (l : List Nat) (k : Nat) : NoFuel (swapRemoveKey l k) := by
  unfold NoFuel Fiksi.swapRemoveKey; split
  · simp
  · split <;> simp

theorem NoFuel.mergeCore (nE key : Nat) (core : List Nat) (st : DState) (v : Nat) : NoFuel (mergeCore nE key core st v) := by
  refine NoFuel.bind (.ite ((NoFuel.idx _ _).bind (fun _ _ => NoFuel.bind (NoFuel.foldlM (fun _ _ =>
    (NoFuel.idx _ _).bind (fun _ _ => .pure _)) _ _) (fun _ _ => .pure _))) (.pure _)) (fun _ _ => ?_)
  refine (NoFuel.unwrap _).bind (fun _ _ => ?_)
  refine NoFuel.bind (.ite ((NoFuel.unwrap _).bind (fun _ _ => (NoFuel.unwrap _).bind (fun _ _ => (NoFuel.unwrap _).bind (fun _ _ =>
    NoFuel.bind (NoFuel.foldlM (fun m a => ?_) _ _) (fun _ _ => .pure _))))) (.pure _)) (fun _ _ => .pure _)
  split
  · exact .ok _
  · exact (NoFuel.swapRemoveKey _ _).bind (fun _ _ => .pure _)

theorem NoFuel.addEdge (g : DGraph) (val : Int) (a b : Nat) : NoFuel (g.addEdge val a b) :=
  (NoFuel.toU32 _).bind (fun _ _ => (NoFuel.idx _ _).bind (fun _ _ => (NoFuel.setIdx _ _ _).bind (fun _ _ =>
    (NoFuel.idx _ _).bind (fun _ _ => (NoFuel.setIdx _ _ _).bind (fun _ _ => .pure _)))))

theorem NoFuel.contractVertex (sub frontier : Finset Nat) (core : Nat) (cs : ContractState) (v : Nat) :
    NoFuel (contractVertex sub frontier core cs v) := by
  refine (NoFuel.idx _ _).bind (fun el _ => ?_)
  refine NoFuel.bind (NoFuel.foldlM (fun s a => .ite (.pure _) ((NoFuel.idx _ _).bind (fun _ _ => .ite (.ite (.pure _)
    ((NoFuel.setIdx _ _ _).bind (fun _ _ => .pure _))) (.pure _)))) _ _) (fun p _ => ?_)
  obtain ⟨val, st⟩ := p
  refine .ite ((NoFuel.addEdge _ _ _ _).bind (fun q _ => ?_)) (.pure _)
  obtain ⟨i, g⟩ := q
  exact .pure _

theorem NoFuel.contract (d : Int) (ord : HashOrder) (step key : Nat) (sub frontier : Finset Nat) (core : List Nat) (st : DState) :
    NoFuel (contract d ord step key sub frontier core st) := by
  refine (NoFuel.toU32 _).bind (fun _ _ => NoFuel.bind (NoFuel.foldlM (fun s a => NoFuel.contractVertex _ _ _ _ _) _ _) (fun _ _ => ?_))
  exact .ite ((NoFuel.idx _ _).bind (fun _ _ => (NoFuel.setIdx _ _ _).bind (fun _ _ => .pure _))) (.pure _)

theorem NoFuel.assembleStep (d : Int) (ord : HashOrder) (nE nC step : Nat) (sub : Finset Nat) (st : DState) :
    NoFuel (assembleStep d ord nE nC step sub st) := by
  refine NoFuel.bind (NoFuel.foldlM (fun s a => NoFuel.scanVertex _ _ _ _ _ _) _ _) (fun _ _ => ?_)
  refine NoFuel.bind (NoFuel.foldlM (fun s a => NoFuel.mergeCore _ _ _ _ _) _ _) (fun _ _ => ?_)
  exact .ite (.pure _) (NoFuel.contract _ _ _ _ _ _ _ _)

/-- The measure that decreases with every step: unblocked sets of vertices, and the number of vertices. -/
def DState.measure (st : DState) : Nat := (st.vertices.powerset.filter (fun s => s ∉ st.blocked)).card + 2 ^ st.vertices.card

theorem DState.measure_pos (st : DState) : 1 ≤ st.measure := by
  have : 0 < 2 ^ st.vertices.card := Nat.pow_pos (by omega)
  unfold measure; omega

theorem measure_decreases {st st' : DState} {sub : Finset Nat} (hs : sub ⊆ st.vertices) (hb : sub ∉ st.blocked)
    (h : (st'.blocked = st.blocked ++ [sub] ∧ st'.vertices = st.vertices) ∨
      (st'.blocked = st.blocked ∧ st'.vertices.card + 1 ≤ st.vertices.card)) : st'.measure < st.measure := by
  rcases h with ⟨h1, h2⟩ | ⟨h1, h2⟩
  · unfold DState.measure
    rw [h1, h2]
    apply Nat.add_lt_add_right
    apply Finset.card_lt_card
    rw [Finset.ssubset_iff_of_subset]
    · exact ⟨sub, by simp [hs, hb], by simp⟩
    · intro s hs'
      simp only [Finset.mem_filter, List.mem_append, not_or] at hs' ⊢
      exact ⟨hs'.1, hs'.2.1⟩
  · unfold DState.measure
    have h3 : (st'.vertices.powerset.filter (fun s => s ∉ st'.blocked)).card ≤ 2 ^ st'.vertices.card := by
      rw [← Finset.card_powerset]
      exact Finset.card_le_card (Finset.filter_subset _ _)
    have h4 : 2 ^ st'.vertices.card + 2 ^ st'.vertices.card ≤ 2 ^ st.vertices.card := by
      have : 2 ^ (st'.vertices.card + 1) ≤ 2 ^ st.vertices.card := Nat.pow_le_pow_right (by omega) h2
      rw [Nat.pow_succ] at this
      omega
    have h5 : 0 < (st.vertices.powerset.filter (fun s => s ∉ st.blocked)).card :=
      Finset.card_pos.2 ⟨sub, by simp [hs, hb]⟩
    omega

theorem decomposeLoop_noFuel {cx : DCtx} (hcx : cx.Ok) {d : Int} {ord : HashOrder} (hord : ord.Ok) :
    ∀ (fuel step : Nat) (st : DState), st.Inv cx → st.measure ≤ fuel → NoFuel (decomposeLoop d ord cx.nE cx.nC fuel step st) := by
  intro fuel
  induction fuel with
  | zero => intro step st _ hm; have := st.measure_pos; omega
  | succ fuel ih =>
    intro step st hi hm
    rw [decomposeLoop]
    obtain ⟨r, h1, h2⟩ := (hi.env (-(d + 1))).denseBfs hord step
    simp only [h1, ok_bind]
    cases r with
    | none => exact .pure _
    | some sub =>
      refine (NoFuel.assembleStep _ _ _ _ _ _ _).bind (fun st' h3 => ?_)
      obtain ⟨h4, h5⟩ := assembleStep_inv hcx hord hi (h2 sub rfl).1 h3
      exact ih _ _ h4 (by have := measure_decreases (h2 sub rfl).1 (h2 sub rfl).2 h5; omega)

/-- `decompose` terminates: after fewer than `2 ^ (n + 1)` steps for `n` vertices it returns or panics. -/
theorem decompose_terminates {cx : DCtx} (hcx : cx.Ok) {d : Int} {ord : HashOrder} (hord : ord.Ok) :
    decompose d ord cx.g cx.vertices cx.edges ≠ .error .outOfFuel := by
  have : NoFuel (decompose d ord cx.g cx.vertices cx.edges) := by
    rw [decompose]
    refine (NoFuel.toU32 _).bind (fun n hn => (NoFuel.toU32 _).bind (fun m hm => ?_))
    rw [toU32_eq_ok] at hn hm
    obtain ⟨-, rfl⟩ := hn
    obtain ⟨-, rfl⟩ := hm
    refine decomposeLoop_noFuel hcx hord _ _ _ (DState.Inv.init hcx) ?_
    unfold DState.measure
    have : (cx.vertices.powerset.filter (fun s => s ∉ ([] : List (Finset Nat)))).card ≤ 2 ^ cx.vertices.card := by
      rw [← Finset.card_powerset]
      exact Finset.card_le_card (Finset.filter_subset _ _)
    simp only
    rw [Nat.pow_succ]
    omega
  exact this

end Fiksi
