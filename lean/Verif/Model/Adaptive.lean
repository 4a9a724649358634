import Verif.Model.BinaryRelevance
import Verif.Model.MultiLabelBatch
import Verif.Model.Split
import Mathlib.Analysis.SpecialFunctions.Pow.Real

/-! # The values of `QueryMultiLabelAdaptive`: `alipy/query_strategy/multi_label.py`, lines 1058-1109

Numbers are reals. An infinite margin is `⊤`. Binary relevance is the model of `Verif.Model.BinaryRelevance`. -/
namespace Alipy.Adaptive
open Alipy MLBatch

/-- `pos[real <= 0] = np.inf`, `pos.min(axis=1)`, lines 1066-1067, 1070, for one row. -/
noncomputable def posMin (r : List ℝ) : WithTop ℝ := (r.map (fun v : ℝ => if v ≤ 0 then ⊤ else (v : WithTop ℝ))).foldr min ⊤

/-- `neg[real >= 0] = -np.inf`, `neg.max(axis=1)`, lines 1068-1070, for one row. -/
noncomputable def negMax (r : List ℝ) : WithBot ℝ := (r.map (fun v : ℝ => if 0 ≤ v then ⊥ else (v : WithBot ℝ))).foldr max ⊥

/-- `separation_margin`, line 1070. -/
noncomputable def margin (r : List ℝ) : WithTop ℝ :=
  match posMin r, negMax r with
  | some p, some q => ((p - q : ℝ) : WithTop ℝ)
  | _, _ => ⊤

/-- `uncertainty = 1. / separation_margin`, line 1071. -/
noncomputable def uncertainty (r : List ℝ) : ℝ :=
  match margin r with
  | some m => 1 / m
  | none => 0

/-- `self.y[label_index].mean(axis=0).sum()`, line 1074: the sum of the means of the columns. -/
noncomputable def averagePos (labels : Nat) (Yl : List (List Int)) : ℝ :=
  ((List.range labels).map (fun i => ((BR.column Yl i).map (fun v : Int => (v : ℝ))).sum / Yl.length)).sum

/-- `label_cardinality`, line 1075, for one row. -/
noncomputable def cardinality (avg : ℝ) (pred : List Int) : ℝ := Real.sqrt ((((pred.sum : Int) : ℝ) - avg) ^ 2)

/-- `score`, line 1080. -/
noncomputable def score (b u c : ℝ) : ℝ := u ^ b * c ^ (1 - b)

/-- The largest entry of a row (`np.max(.., axis=1)`, not empty), with `0 if i<0 else i`. Lines 1094-1095 and 1099-1100. -/
noncomputable def clippedMax (r : List ℝ) : ℝ := let m := r.tail.foldl max (r.headD 0); if m < 0 then 0 else m

/-- Lines 1092-1102 for one row: `pos`, `neg` and `err`. -/
noncomputable def rowErr (r : List ℝ) : ℝ :=
  let pos := clippedMax (r.map (fun v => 1 - (if v < 0 then 1 else v)))
  let neg := clippedMax (r.map (fun v => 1 + (if 0 < v then -1 else v)))
  neg + pos

/-- Lines 1088-1104 for one candidate: the pool example with its predicted labels is added to the training data. -/
noncomputable def approxErr (base : BR.Base ℝ) (X : Int → List ℝ) (cols labels : Nat) (lab unl : List Int) (Yl pred : List (List Int)) (k : Nat) : Except PyErr ℝ :=
  match BR.train base ⟨cols, lab.map X ++ [X (unl.getD k 0)]⟩ labels (Yl ++ [pred.getD k []]) with
  | .error e => .error e
  | .ok t =>
    match BR.predictReal (some t) ⟨cols, unl.map X⟩ with
    | .error e => .error e
    | .ok real => .ok ((real.map rowErr).sum)

/-- An entry of `approx_err`; errors have been handled. Line 1106. -/
def valueOf : Except PyErr ℝ → ℝ
  | .ok v => v
  | .error _ => 0

/-- The scores for all `b`, lines 1078-1080. -/
noncomputable def scores (betas : List ℝ) (labels : Nat) (Yl : List (List Int)) (real : List (List ℝ)) (pred : List (List Int)) : List (List ℝ) :=
  betas.map (fun b => List.zipWith (fun r p => score b (uncertainty r) (cardinality (averagePos labels Yl) p)) real pred)

/-- `sequential_select` for at least two unlabelled examples, lines 1058-1109: the position of the example to ask for. `min` and `max` of rows without entries raise. -/
noncomputable def select (base : BR.Base ℝ) (betas : List ℝ) (order : List Nat → List Nat) (choose : List Nat → Nat) (X : Int → List ℝ) (cols labels : Nat)
    (lab unl : List Int) (Y : List (List Int)) : Except PyErr Nat :=
  match pyAtAll Y lab with
  | .error e => .error e
  | .ok Yl =>
    match BR.train base ⟨cols, lab.map X⟩ labels Yl with
    | .error e => .error e
    | .ok t =>
      match BR.predictReal (some t) ⟨cols, unl.map X⟩ with
      | .error e => .error e
      | .ok real =>
        match BR.predict (some t) ⟨cols, unl.map X⟩ with
        | .error e => .error e
        | .ok pred =>
          if labels = 0 then .error .valueError
          else
            let sc := scores betas labels Yl real pred
            let err := approxErr base X cols labels lab unl Yl pred
            match (candidates order sc).mapM err with
            | .error e => .error e
            | .ok _ => adaptiveAsk order choose sc (fun k => valueOf (err k))

end Alipy.Adaptive
