import Verif.Model.BinaryRelevance
import Verif.Model.Pool
import Verif.Model.MultiLabelSelect
import Verif.Model.MultiLabelBatch
import Verif.Model.CostSelect
import Verif.Model.Bmdr

/-! # What the strategies read from the label matrix

Every strategy is constructed with the labels of the whole data set. Modelled here is `select` from the label matrix to the result, with the training
of models as a parameter that gets exactly what the code passes to `fit`. The parts that do not depend on labels are those of the other models. -/
namespace Alipy.Peek
open Alipy Alipy.Select

/-! ## Strategies that select examples -/
section Instances
variable {α β K ρ : Type} [Field K] [LinearOrder K]

/-- query_labels.py lines 138-168 (uncertainty), 403-439 (QBC): nothing is trained for an improper batch size or a small pool; then a model is
fitted to `y[label_index]` and asked. `fit` stands for the features of the labelled examples, the training, and what is computed from
the trained model. -/
def viaModel (u : Coll α) (batch : Int) (y : List β) (lab : List Int) (fit : List β → Except PyErr ρ) (run : ρ → Except PyErr (List α)) :
    Except PyErr (List α) :=
  if batch ≤ 0 then .error .assertionError
  else if (u.items.length : Int) ≤ batch then .ok u.items
  else
    match pyAtAll y lab with
    | .error e => .error e
    | .ok ys =>
      match fit ys with
      | .error e => .error e
      | .ok p => run p

/-- `QueryInstanceUncertainty.select` without a model, query_labels.py lines 115-169. -/
def uncertaintySelect (log : K → K) (argsort : List K → List Nat) (m : Measure) (fit : List β → Except PyErr (Pred K)) (y : List β) (lab : List Int)
    (u : Coll α) (batch : Int) : Except PyErr (List α) :=
  viaModel u batch y lab fit (fun p => uncertainty log argsort m u p batch)

/-- `QueryInstanceQBC.select` without a model, vote entropy, query_labels.py lines 377-439. -/
def qbcSelect (log : K → K) (argsort : List K → List Nat) (fit : List β → Except PyErr (List (List Int))) (y : List β) (lab : List Int) (u : Coll α)
    (batch : Int) : Except PyErr (List α) :=
  viaModel u batch y lab fit (fun p => qbc log argsort u p batch)

/-- `np.unique`. query_labels.py line 696. -/
def classesOf (y : List Int) : List Int := sortBy (fun a b => decide (a ≤ b)) y.eraseDups

/-- `QueryExpectedErrorReduction.select` without a model, query_labels.py lines 653-713: `fit ys` are the predictions for the unlabelled examples and the
losses; the classes are those of the whole vector, line 696. -/
def eerSelect (argsort : List K → List Nat) (fit : List Int → Except PyErr (List (List K) × (Nat → Int → K))) (y : List Int) (lab : List Int) (u : Coll α)
    (batch : Int) : Except PyErr (List α) :=
  viaModel u batch y lab fit (fun p => eer argsort u (classesOf y) p.1 p.2 batch)

/-- `QueryInstanceBMDR` and `QueryInstanceSPAL`, query_labels.py lines 1087-1095, 1357-1365 (constructor) and 1189, 1263, 1465, 1554 (`select` uses
`self.y[label_index]` only): the labels are recoded with the classes of the whole vector; `run` is the rest. -/
def bmdrSelect (run : List Int → Except PyErr ρ) (lab : List Int) (y : List Int) : Except PyErr ρ :=
  match Bmdr.recode (classesOf y) y with
  | .error e => .error e
  | .ok y' =>
    match pyAtAll y' lab with
    | .error e => .error e
    | .ok ys => run ys

end Instances

/-! ## AUDI and AURO -/
section Ranking
variable {K : Type} [Field K] [LinearOrder K]
open MLSelect

/-- multi_label.py lines 568-580, query_type.py lines 149-152: the label ranking model is fitted to the labelled part of the label matrix, in which unknown
labels are 0. `train` gets the instances and their rows (and the features, which do not depend on the labels). -/
def fitRanking (train : List (Int × List Int) → Except PyErr (Int → Nat → EF K)) (Y : List (List Int)) (L : Nat) (l : MLIC) : Except PyErr (Int → Nat → EF K) :=
  match getLabelMatrix ((l.inner.map MLIC.toIx).map .tup) Y L 0 with
  | .error e => .error e
  | .ok rows => train rows

/-- `QueryMultiLabelAUDI.select`, multi_label.py lines 534-606. -/
def audiSelect (argsort : List (EF K) → List Nat) (train : List (Int × List Int) → Except PyErr (Int → Nat → EF K)) (Y : List (List Int)) (L : Nat) (eps : K)
    (lab unl : PairArg) : Except PyErr Sel := audi argsort (fitRanking train Y L) Y L eps lab unl

/-- `QueryTypeAURO.select`, query_type.py lines 98-172, without `y_mat`. -/
def auroSelect (argsort : List (EF K) → List Nat) (train : List (Int × List Int) → Except PyErr (Int → Nat → EF K)) (Y : List (List Int)) (L : Nat)
    (lab unl : PairArg) : Except PyErr AuroSel := auro argsort (fitRanking train Y L) Y.length L lab unl

end Ranking

/-! ## Cost-sensitive strategies -/
section Cost
variable {K μ : Type} [Field K] [LinearOrder K]
open CostSensitive

/-- `train_models`, cost_sensitive.py lines 290-304 and 655-670: the classifier of class `j` is fitted to the examples whose label `j` is known. -/
def trainClasses (fit : Nat → List (Nat × Int) → Except PyErr μ) (n c : Nat) (lab : Nat → Nat → Bool) (y : Nat → Nat → Int) : Except PyErr (List μ) :=
  (List.range c).mapM (fun j => fit j (((List.range n).filter (fun i => lab i j)).map (fun i => (i, y i j))))

/-- `cal_relevance`, lines 322-336: the votes of the nearest examples, by their label if it is known, otherwise by the prediction. -/
def relevance (knn : List Nat) (lab : Nat → Bool) (y pred : Nat → Int) : Int :=
  Int.sign ((knn.map (fun i => Int.sign (if lab i then y i else pred i))).sum)

/-- `QueryCostSensitiveHALC.select`, cost_sensitive.py lines 379-468. `dec` and `cls` are `decision_function` and `predict` of a classifier for an example, `knn i` the nearest
examples of `i` (from `nsmallestarg` of the distances), `order` is `np.argsort` of a column. `none`: `cal_Udes` does not return. -/
def halcSelect (fit : Nat → List (Nat × Int) → Except PyErr μ) (dec : μ → Nat → K) (cls : μ → Nat → Int) (knn : Nat → List Nat) (n c fuel : Nat)
    (tree : Nat → Nat → Bool) (w : Nat → K) (order : (Nat → WithBot K) → List Nat) (cost : Option (List Int)) (budget : Nat)
    (lab unlab : Nat → Nat → Bool) (y : Nat → Nat → Int) : Option (Except PyErr (List (Nat × Nat))) :=
  match trainClasses fit n c lab y with
  | .error e => some (.error e)
  | .ok ms =>
    let dv := fun i j => ((ms[j]?).map (fun m => dec m i)).getD 1
    let flag := fun i j => relevance (knn i) (fun k => lab k j) (fun k => y k j) (fun k => ((ms[j]?).map (fun m => cls m k)).getD 0)
    let info := fun i j => halcInfo fuel c tree lab unlab w dv flag i j
    if (List.range n).all (fun i => (List.range c).all (fun j => (info i j).isSome)) then
      some (costSelect c (fun i j => (info i j).getD 0) (fun j => order (fun i => (info i j).getD 0)) cost budget)
    else none

/-- `QueryCostSensitivePerformance.select`, cost_sensitive.py lines 565-653. -/
def perfSelect (fit : Nat → List (Nat × Int) → Except PyErr μ) (dec : μ → Nat → K) (n c : Nat) (order : (Nat → WithBot K) → List Nat)
    (cost : Option (List Int)) (budget : Nat) (lab unlab : Nat → Nat → Bool) (y : Nat → Nat → Int) : Except PyErr (List (Nat × Nat)) :=
  match trainClasses fit n c lab y with
  | .error e => .error e
  | .ok ms =>
    let info := perfInfo unlab (fun i j => ((ms[j]?).map (fun m => dec m i)).getD 1)
    costSelect c info (fun j => order (fun i => info i j)) cost budget

end Cost

/-! ## MMC -/
section MMC
variable {K : Type} [Field K] [LinearOrder K]
open MLBatch

/-- multi_label.py lines 902-903 and 911-912, one row: sorted in descending order and divided by the sum (which is not 0). -/
def normRow (r : List K) : List K :=
  let s := (sortBy (fun a b => decide (a ≤ b)) r).reverse
  s.map (fun v => v / s.sum)

/-- Lines 904-908: the model for the number of labels. It is a `DummyClf`, with the first value, if all rows of the *whole* matrix have the same sum; otherwise a
logistic regression, `lrFit`. -/
def numModel (lrFit : List (List K) → List Int → Except PyErr (List K → Int)) (Y : List (List Int)) (feats : List (List K)) (sums : List Int) :
    Except PyErr (List K → Int) :=
  if BR.single (Y.map List.sum) then .ok (fun _ => sums.headD 0) else lrFit feats sums

/-- `QueryMultiLabelMMC.sequential_select` for at least two unlabelled examples, multi_label.py lines 889-922: the position of the example to ask for. -/
def mmcSelect (b : BR.Base K) (lrFit : List (List K) → List Int → Except PyErr (List K → Int)) (argsort : List K → List Nat) (choose : List Nat → Nat)
    (X : Int → List K) (cols labels : Nat) (lab unl : List Int) (Y : List (List Int)) : Except PyErr Nat :=
  match pyAtAll Y lab with
  | .error e => .error e
  | .ok Yl =>
    match BR.train b ⟨cols, lab.map X⟩ labels Yl with
    | .error e => .error e
    | .ok t =>
      match BR.predictProba (some t) ⟨cols, lab.map X⟩ with
      | .error e => .error e
      | .ok trnf =>
        match BR.predictProba (some t) ⟨cols, unl.map X⟩ with
        | .error e => .error e
        | .ok poolf =>
          match numModel lrFit Y (trnf.map normRow) (Yl.map List.sum) with
          | .error e => .error e
          | .ok num => mmcAsk choose (poolf.map (fun r => mmcScore r (argsort r).reverse (num (normRow r))))

/-- `QueryMultiLabelAdaptive.sequential_select`, multi_label.py lines 1055-1109, as far as the labels are concerned: `ask` is computed from `y[label_index]`. -/
def adaptiveSelect (ask : List (List Int) → Except PyErr Nat) (lab : List Int) (Y : List (List Int)) : Except PyErr Nat :=
  match pyAtAll Y lab with
  | .error e => .error e
  | .ok Yl => ask Yl

end MMC

end Alipy.Peek
