import Verif.Model.Params

/-! # The parameters of the strategies as documented -/
namespace Alipy.Params.Spec
open Alipy.Params

/-- The value a user means: the one passed, or else the default. -/
def meant (kw : Kw) (name : String) (default : PVal) : PVal := (kw.lookup name).getD default

/-- The documented parameters of the kernels that matter for the kernel passed. -/
def kernelParams (g : String) (kw : Kw) : List (String × PVal) :=
  if meant kw "kernel" (.str "rbf") = .str "rbf" then [("kernel", .str "rbf"), (g, .num 1)]
  else if meant kw "kernel" (.str "rbf") = .str "poly" then [("kernel", .str "rbf"), ("coef0", .num 1), ("degree", .num 3), (g, .num 1)]
  else [("kernel", .str "rbf")]

/-- The parameters of the constructors, with their documented defaults, as far as they matter. -/
def params (c : Cls) (kw : Kw) : List (String × PVal) :=
  match c with
  | .uncertainty => [("measure", .str "entropy")]
  | .random | .oldRandom | .eer => []
  | .qbc => [("method", .str "query_by_bagging"), ("disagreement", .str "vote_entropy")]
  | .quire => ("lambda", .num 1) :: kernelParams "gamma" kw
  | .density => [("metric", .str "manhattan")]
  | .bmdr => [("beta", .num 1000), ("gamma", .num (1 / 10)), ("rho", .num 1)] ++ kernelParams "gamma_ker" kw
  | .spal => [("mu", .num (1 / 10)), ("gamma", .num (1 / 10)), ("rho", .num 1), ("lambda_init", .num (1 / 10)), ("lambda_pace", .num (1 / 100))] ++ kernelParams "gamma_ker" kw
  | .lal => [("mode", .str "LAL_iterative"), ("data_path", .str "."), ("cls_est", .num 50), ("train_slt", .bool true)]
  | .coreset => [("distance", .str "euclidean")]
  | .weighted => [("uncertainty_meansure", .str "entropy"), ("distance", .str "euclidean"), ("beta", .num 1)]

/-- The object has every parameter as the user means it. -/
def Kept (c : Cls) (kw ps : Kw) : Prop := ∀ p ∈ params c kw, ps.lookup p.1 = some (meant kw p.1 p.2)

/-- A kernel that may be passed. -/
def IsKernel (k : PVal) : Prop := k = .str "rbf" ∨ k = .str "poly" ∨ k = .str "linear" ∨ ∃ n, k = .obj n true

/-- The values passed are among the documented ones. -/
def Valid (c : Cls) (kw : Kw) : Prop :=
  match c with
  | .uncertainty => ∃ s ∈ ["least_confident", "margin", "entropy", "distance_to_boundary"], meant kw "measure" (.str "entropy") = .str s
  | .qbc => ∃ s ∈ ["vote_entropy", "KL_divergence"], meant kw "disagreement" (.str "vote_entropy") = .str s
  | .quire | .bmdr | .spal => IsKernel (meant kw "kernel" (.str "rbf"))
  | .lal => ∃ s ∈ ["LAL_iterative", "LAL_independent"], meant kw "mode" (.str "LAL_iterative") = .str s
  | .density => meant kw "metric" (.str "manhattan") ≠ .none
  | .weighted => (∃ s ∈ ["least_confident", "margin", "entropy"], meant kw "uncertainty_meansure" (.str "entropy") = .str s) ∧
      ∃ s ∈ ["cityblock", "cosine", "euclidean", "l1", "l2", "manhattan"], meant kw "distance" (.str "euclidean") = .str s
  | .random | .oldRandom | .eer | .coreset => True

/-- Names that are not parameters of the strategies: those the caller of the constructor or of `select` fills in. -/
def reserved : List String := ["X", "y", "train_idx", "self", "label_index", "unlabel_index", "batch_size"]

/-- The strategies an experiment knows by name. -/
def experimentStrategies : List (String × Cls) :=
  [("QueryInstanceUncertainty", .uncertainty), ("QueryRandom", .random), ("QueryInstanceRandom", .random), ("QueryInstanceQBC", .qbc), ("QueryExpectedErrorReduction", .eer),
    ("QueryInstanceQUIRE", .quire), ("QueryInstanceGraphDensity", .density), ("QueryInstanceBMDR", .bmdr), ("QueryInstanceSPAL", .spal), ("QueryInstanceLAL", .lal)]

/-- The strategies of the toolbox. -/
def toolboxStrategies : List (String × Cls) :=
  [("QueryInstanceUncertainty", .uncertainty), ("QueryRandom", .oldRandom), ("QueryInstanceRandom", .random), ("QueryInstanceQBC", .qbc), ("QueryExpectedErrorReduction", .eer),
    ("QueryInstanceQUIRE", .quire), ("QueryInstanceGraphDensity", .density), ("QueryInstanceBMDR", .bmdr), ("QueryInstanceSPAL", .spal), ("QueryInstanceLAL", .lal),
    ("QueryInstanceCoresetGreedy", .coreset), ("QueryInstanceDensityWeighted", .weighted)]

/-- All documented names of parameters of a strategy. -/
def names : Cls → List String
  | .uncertainty => ["measure"]
  | .random | .oldRandom | .eer => []
  | .qbc => ["method", "disagreement"]
  | .quire => ["lambda", "kernel", "gamma", "coef0", "degree"]
  | .density => ["metric"]
  | .bmdr => ["beta", "gamma", "rho", "kernel", "gamma_ker", "coef0", "degree"]
  | .spal => ["mu", "gamma", "rho", "lambda_init", "lambda_pace", "kernel", "gamma_ker", "coef0", "degree"]
  | .lal => ["mode", "data_path", "cls_est", "train_slt"]
  | .coreset => ["distance"]
  | .weighted => ["uncertainty_meansure", "distance", "beta"]

/-- The strategies that are told the training indexes. -/
def needsTrain : Cls → Bool
  | .quire | .density | .coreset => true
  | _ => false

end Alipy.Params.Spec
