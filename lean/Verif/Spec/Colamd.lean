import Verif.Model.Colamd
import Mathlib.Data.Int.Interval
import Mathlib.Data.Finset.Prod
import Mathlib.Algebra.BigOperators.Group.Finset.Basic
/-!
# Specification: groups of columns with the same representative
-/
namespace Fiksi

/-- The columns `0, …, n - 1` are split into groups; `root c` is the principal column of the group of `c`. A principal column (`start` is
`DEAD_PRINCIPAL`, `-1`) carries the first position of its group (`order`, the field `score`) and the size of its group (`thickness`); an
absorbed column (`DEAD_NON_PRINCIPAL`, `-2`) is not ordered yet and points to a parent (the field `thickness`) in the same group. -/
structure Spec.Grouped (n : Int) (cols : Int → ColamdCol) (root : Int → Int) : Prop where
  kind : ∀ c, 0 ≤ c → c < n → (cols c).start = -1 ∨ (cols c).start = -2
  self : ∀ c, 0 ≤ c → c < n → (cols c).start = -1 → root c = c
  principal : ∀ c, 0 ≤ c → c < n → 0 ≤ root c ∧ root c < n ∧ (cols (root c)).start = -1
  unordered : ∀ c, 0 ≤ c → c < n → (cols c).start = -2 → (cols c).score = -1
  parent : ∀ c, 0 ≤ c → c < n → (cols c).start = -2 → 0 ≤ (cols c).thickness ∧ (cols c).thickness < n ∧ root (cols c).thickness = root c
  acyclic : ∃ rank : Int → Nat, ∀ c, 0 ≤ c → c < n → (cols c).start = -2 → rank (cols c).thickness < rank c
  thickness : ∀ c, 0 ≤ c → c < n → (cols c).start = -1 → (cols c).thickness = ((Finset.Ico 0 n).filter (fun d => root d = c)).card
  order : ∀ c, 0 ≤ c → c < n → (cols c).start = -1 → 0 ≤ (cols c).score ∧ (cols c).score + (cols c).thickness ≤ n
  disjoint : ∀ c d, 0 ≤ c → c < n → 0 ≤ d → d < n → (cols c).start = -1 → (cols d).start = -1 → c ≠ d →
    (cols c).score + (cols c).thickness ≤ (cols d).score ∨ (cols d).score + (cols d).thickness ≤ (cols c).score

/-- The pattern given by the row indices `a` and the column pointers `p`: column `c` contains row `r`. -/
def Spec.Entry (a p : Int → Int) (r c : Int) : Prop := ∃ i, p c ≤ i ∧ i < p (c + 1) ∧ a i = r

/-- Row indices and column pointers that pass the checks: `n` columns that cover `0..nnz`, and rows in `0..m`. -/
structure Spec.ColumnForm (a p : Int → Int) (m n : Int) : Prop where
  rows : 0 ≤ m
  cols : 0 ≤ n
  first : p 0 = 0
  mono : ∀ c, 0 ≤ c → c < n → p c ≤ p (c + 1)
  bound : ∀ i, 0 ≤ i → i < p n → 0 ≤ a i ∧ a i < m

/-- The row indices are increasing in every column. -/
def Spec.SortedColumns (a p : Int → Int) (n : Int) : Prop := ∀ c, 0 ≤ c → c < n → ∀ i j, p c ≤ i → i < j → j < p (c + 1) → a i < a j

/-- Position `i` of column `c` is jumbled: its row occurred before in the column, or is smaller than the row just before it. -/
def Spec.jumbledAt (a p : Int → Int) (c i : Int) : Bool :=
  (span (p c) (i - p c).toNat).any fun j => decide (a j = a i ∨ (j + 1 = i ∧ a i < a j))

/-- The jumbled entries, column by column: the column and the row of each. -/
def Spec.jumbled (a p : Int → Int) (n : Int) : List (Int × Int) :=
  (span 0 n.toNat).flatMap fun c => ((span (p c) (p (c + 1) - p c).toNat).filter (Spec.jumbledAt a p c)).map fun i => (c, a i)

/-- `len` cells of `a` from `start` on list the elements of a set in increasing order. -/
def Spec.Lists (a : Int → Int) (start len : Int) (P : Int → Prop) : Prop :=
  0 ≤ len ∧ (∀ i j, start ≤ i → i < j → j < start + len → a i < a j) ∧ ∀ c, P c ↔ ∃ i, start ≤ i ∧ i < start + len ∧ a i = c

/-! ## Columns and rows that are ignored

`DenseCol k` and `DenseRow k` say that a column or row with `k` entries is dense. -/

open Classical in
/-- The number of entries of row `r` in columns that are not dense. -/
noncomputable def Spec.rowCount (a p : Int → Int) (n : Int) (DenseCol : Int → Prop) (r : Int) : Int :=
  ((Finset.Ico 0 n).filter (fun c => Spec.Entry a p r c ∧ ¬ DenseCol (p (c + 1) - p c))).card

/-- Row `r` is dense or empty. -/
def Spec.RowIgnored (a p : Int → Int) (n : Int) (DenseRow DenseCol : Int → Prop) (r : Int) : Prop :=
  DenseRow (Spec.rowCount a p n DenseCol r) ∨ Spec.rowCount a p n DenseCol r = 0

open Classical in
/-- The columns that are ignored, in increasing order within each kind: those of which all rows are ignored, the dense ones, and the empty ones. -/
noncomputable def Spec.lastColumns (a p : Int → Int) (n : Int) (DenseRow DenseCol : Int → Prop) : List Int :=
  (span 0 n.toNat).filter (fun c => p (c + 1) - p c ≠ 0 ∧ ¬ DenseCol (p (c + 1) - p c) ∧ ∀ r, Spec.Entry a p r c → Spec.RowIgnored a p n DenseRow DenseCol r) ++
    ((span 0 n.toNat).filter (fun c => p (c + 1) - p c ≠ 0 ∧ DenseCol (p (c + 1) - p c)) ++ (span 0 n.toNat).filter (fun c => p (c + 1) - p c = 0))

open Classical in
/-- The number of rows that are ignored. -/
noncomputable def Spec.ignoredRows (a p : Int → Int) (m n : Int) (DenseRow DenseCol : Int → Prop) : Int :=
  ((Finset.Ico 0 m).filter (Spec.RowIgnored a p n DenseRow DenseCol)).card

open Classical in
/-- How many other columns the rows of column `c` lead to: for every row of `c` that is not ignored, the number of other columns with that row that are
not dense. A column reached through several rows counts several times; at most `n` are counted. -/
noncomputable def Spec.initialScore (a p : Int → Int) (m n : Int) (DenseRow DenseCol : Int → Prop) (c : Int) : Int :=
  min n (∑ r ∈ (Finset.Ico 0 m).filter (fun r => Spec.Entry a p r c ∧ ¬ Spec.RowIgnored a p n DenseRow DenseCol r), (Spec.rowCount a p n DenseCol r - 1))

/-- Column `c` takes part in the ordering. -/
def Spec.Ordered (a p : Int → Int) (n : Int) (DenseRow DenseCol : Int → Prop) (c : Int) : Prop :=
  0 ≤ c ∧ c < n ∧ c ∉ Spec.lastColumns a p n DenseRow DenseCol

/-- Columns `c` and `d` share a row that is not ignored. -/
def Spec.Joined (a p : Int → Int) (n : Int) (DenseRow DenseCol : Int → Prop) (c d : Int) : Prop :=
  c ≠ d ∧ ∃ r, ¬ Spec.RowIgnored a p n DenseRow DenseCol r ∧ Spec.Entry a p r c ∧ Spec.Entry a p r d

/-- Two columns that take part share at most one row that is not ignored. -/
def Spec.OneShared (a p : Int → Int) (n : Int) (DenseRow DenseCol : Int → Prop) : Prop :=
  ∀ c d r r', Spec.Ordered a p n DenseRow DenseCol c → Spec.Ordered a p n DenseRow DenseCol d → c ≠ d →
    ¬ Spec.RowIgnored a p n DenseRow DenseCol r → ¬ Spec.RowIgnored a p n DenseRow DenseCol r' →
    Spec.Entry a p r c → Spec.Entry a p r d → Spec.Entry a p r' c → Spec.Entry a p r' d → r = r'

/-! ## Orderings of the vertices of a graph

`K` are the vertices and `Nb` says which of them are neighbours. -/

/-- Every vertex has at most one neighbour at a later position. The elimination of a vertex joins its later neighbours, so in this order it joins nothing. -/
def Spec.OneLater (K : Int → Prop) (Nb : Int → Int → Prop) (position : Int → Int) : Prop :=
  ∀ c d e, K c → K d → K e → Nb c d → Nb c e → position c < position d → position c < position e → d = e

/-- A forest: the vertices can be ordered so that every vertex has at most one later neighbour (its parent). -/
def Spec.ForestOrdered (K : Int → Prop) (Nb : Int → Int → Prop) : Prop :=
  ∃ position : Int → Int, (∀ c d, K c → K d → position c = position d → c = d) ∧ Spec.OneLater K Nb position

/-! ## The graph of a symmetric matrix -/

/-- Columns `c` and `d` of a symmetric matrix are neighbours: the entry in the strictly lower triangle is present. -/
def Spec.Neighbour (a p : Int → Int) (c d : Int) : Prop := (c < d ∧ Spec.Entry a p d c) ∨ (d < c ∧ Spec.Entry a p c d)

open Classical in
/-- The number of neighbours of column `c`. -/
noncomputable def Spec.valency (a p : Int → Int) (n c : Int) : Int := ((Finset.Ico 0 n).filter (Spec.Neighbour a p c)).card

open Classical in
/-- The number of pairs of neighbours. -/
noncomputable def Spec.edges (a p : Int → Int) (n : Int) : Int := ((Finset.Ico 0 n ×ˢ Finset.Ico 0 n).filter (fun e => e.2 < e.1 ∧ Spec.Entry a p e.1 e.2)).card

end Fiksi
