import Verif.Model.Py
import Mathlib.Algebra.Order.Field.Basic

/-! # Model of `DummyClf` and `_BinaryRelevance`, `alipy/query_strategy/multi_label.py` lines 620-790

Labels are integers. A feature matrix is given by its number of columns and its rows. A base classifier is a parameter: its class, how it is trained and what
the trained classifier answers. The answers are modelled example by example, as sklearn computes them. -/
namespace Alipy.BR
variable {K : Type} [Field K] [LinearOrder K]

/-- A feature matrix. multi_label.py lines 690 and 720. -/
structure Feat (K : Type) where
  cols : Nat
  rows : List (List K)

/-- What `decision_function` returns for one example: a number for two classes, otherwise a row. multi_label.py lines 752-757. -/
inductive Dec (K : Type) where
  | value (v : K)
  | row (vs : List K)

/-- A trained base classifier: `predict`, `predict_proba`, `decision_function`. multi_label.py lines 725, 752, 789. -/
structure Clf (K : Type) where
  label : List K → Int
  proba : List K → List K
  decision : List K → Dec K

/-- The class of the base classifier, as far as `predict_real` looks at it. multi_label.py lines 749-758. -/
inductive Kind where
  | svc | logistic | other
  deriving DecidableEq, Repr

/-- A base classifier: its class, and the result of `fit`, which may raise. multi_label.py lines 661-662 and 699. -/
structure Base (K : Type) where
  kind : Kind
  fit : Feat K → List Int → Except PyErr (Clf K)

/-- An entry of `clfs_`: a `DummyClf` with its `cls`, or a trained copy of the base classifier. multi_label.py lines 625-629 and 692-700. -/
inductive Member (K : Type) where
  | dummy (cls : Int)
  | clf (kind : Kind) (c : Clf K)

/-- Column `i` of the label matrix. multi_label.py lines 695 and 699. -/
def column (Y : List (List Int)) (i : Nat) : List Int := Y.map (fun r => r.getD i 0)

/-- `len(np.unique(col)) == 1`, line 695. -/
def single (col : List Int) : Bool :=
  match col with
  | [] => false
  | a :: r => r.all (fun v => decide (v = a))

/-- Lines 695-699: the classifier for one label. `int(y[0])`, line 629. -/
def member (b : Base K) (X : Feat K) (col : List Int) : Except PyErr (Member K) :=
  if single col then .ok (.dummy (col.headD 0))
  else
    match b.fit X col with
    | .error e => .error e
    | .ok c => .ok (.clf b.kind c)

/-- A trained `_BinaryRelevance` object: `clfs_` and `n_features_`; `n_labels_` is the number of classifiers. Lines 689-692. -/
structure Trained (K : Type) where
  features : Nat
  clfs : List (Member K)

/-- `train`, lines 665-702. `labels` is the number of columns of `Y`. -/
def train (b : Base K) (X : Feat K) (labels : Nat) (Y : List (List Int)) : Except PyErr (Trained K) :=
  match (List.range labels).mapM (fun i => member b X (column Y i)) with
  | .error e => .error e
  | .ok ms => .ok ⟨X.cols, ms⟩

/-- `predict` of one member, lines 635-636. -/
def Member.label : Member K → List K → Int
  | .dummy cls, _ => cls
  | .clf _ c, x => c.label x

/-- `ret[:, self.cls] = 1.` for a row of two zeros, lines 641-644: a negative index counts from the end. -/
def dummyRow (cls : Int) : Except PyErr (List K) :=
  if cls = 0 ∨ cls = -2 then .ok [1, 0] else if cls = 1 ∨ cls = -1 then .ok [0, 1] else .error .indexError

/-- Entry 1 of a row. Lines 750, 757, 764, 789. -/
def second (row : List K) : Except PyErr K :=
  match row[1]? with
  | none => .error .indexError
  | some v => .ok v

/-- Column 1 of `predict_proba`, line 789. -/
def Member.proba : Member K → List K → Except PyErr K
  | .dummy cls, _ =>
    match dummyRow cls with
    | .error e => .error e
    | .ok r => second r
  | .clf _ c, x => second (c.proba x)

/-- One entry of `predict_real`, lines 749-764 (and 638-639): classifiers which are neither SVC nor LogisticRegression leave the 0. -/
def Member.real : Member K → List K → Except PyErr K
  | .dummy cls, _ =>
    match dummyRow cls with
    | .error e => .error e
    | .ok r => second (r.map (fun v => v * 2 - 1))
  | .clf .other _, _ => .ok 0
  | .clf _ c, x =>
    match c.decision x with
    | .value v => second [-v, v]
    | .row vs => second vs

/-- The frame of the three methods, lines 717-726, 741-748, 781-788: a matrix with a row for each example. -/
def answers {β : Type} (t : Option (Trained K)) (X : Feat K) (f : Member K → List K → Except PyErr β) : Except PyErr (List (List β)) :=
  match t with
  | none => .error .valueError
  | some t => if X.cols ≠ t.features then .error .valueError else X.rows.mapM (fun x => t.clfs.mapM (fun m => f m x))

/-- `predict`, lines 704-726; `none` is an object that has not been trained. -/
def predict (t : Option (Trained K)) (X : Feat K) : Except PyErr (List (List Int)) := answers t X (fun m x => .ok (m.label x))

/-- `predict_proba`, lines 768-790. -/
def predictProba (t : Option (Trained K)) (X : Feat K) : Except PyErr (List (List K)) := answers t X Member.proba

/-- `predict_real`, lines 728-766. -/
def predictReal (t : Option (Trained K)) (X : Feat K) : Except PyErr (List (List K)) := answers t X Member.real

end Alipy.BR
