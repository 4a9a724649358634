import Verif.Model.Py
import Mathlib.Data.Rat.Defs

/-! # How the parameters of a strategy get from the user to the strategy: `alipy/experiment/al_experiment.py` lines 120-230 and 361-405, `alipy/toolbox.py` lines 386-414, and the constructors of
`alipy/query_strategy/query_labels.py`

Calls of Python with positional and keyword arguments are modelled, and which attributes the constructors set from them. The data sets are values that are not looked into. -/
namespace Alipy.Params
open Alipy

/-- A Python value. `obj` are values not looked into: arrays, and callables if `callable` is set. The values in `kwargs`, al_experiment.py lines 120 and 164-200. -/
inductive PVal where
  | none
  | str (s : String)
  | num (q : ℚ)
  | bool (b : Bool)
  | obj (id : Nat) (callable : Bool)
  deriving DecidableEq, Repr

/-- Keyword arguments: a dictionary, hence every name once. al_experiment.py lines 120 and 204. -/
abbrev Kw := List (String × PVal)

/-- The value of `kwargs.pop(name, default)`. al_experiment.py lines 164-200, query_labels.py lines 790-801. -/
def get (kw : Kw) (name : String) (default : PVal) : PVal := (kw.lookup name).getD default

/-- What `kwargs.pop(name, …)` leaves. al_experiment.py lines 164-200. -/
def del (kw : Kw) (name : String) : Kw := kw.filter (fun p => p.1 ≠ name)

/-- The signature of a function: names of the parameters, with defaults, and whether there is `**kwargs`. For instance query_labels.py line 780. -/
structure Sig where
  params : List (String × Option PVal)
  star : Bool

/-- Python's binding of arguments: positional ones first, then by name. A name bound twice, an unknown name (without `**kwargs`) and a parameter without value raise TypeError. The result: the
parameters with their values, and `kwargs`. For instance al_experiment.py lines 166, 185, 193 and 375. -/
def call (s : Sig) (pos : List PVal) (kw : Kw) : Except PyErr (Kw × Kw) :=
  let names := s.params.map Prod.fst
  if names.length < pos.length then .error .typeError
  else if kw.any (fun p => (names.take pos.length).contains p.1) then .error .typeError
  else if !s.star && kw.any (fun p => !names.contains p.1) then .error .typeError
  else
    let rest := s.params.drop pos.length
    if rest.any (fun p => p.2.isNone && (kw.lookup p.1).isNone) then .error .typeError
    else
      .ok ((names.take pos.length).zip pos ++ rest.map (fun p => (p.1, get kw p.1 (p.2.getD .none))), kw.filter (fun p => !names.contains p.1))

/-- The classes of query_labels.py. query_labels.py lines 30-42 (`__all__`). -/
inductive Cls where
  | uncertainty | random | qbc | eer | quire | density | bmdr | spal | lal | coreset | weighted | oldRandom
  deriving DecidableEq, Repr

/-- The signatures of the constructors: query_labels.py lines 109, 369, 631, 780, 921, 1076, 1346, 1633, 1809, 1913, 264; utils/interface.py line 38 (`QueryInstanceRandom` has no constructor of
its own). -/
def sig : Cls → Sig
  | .uncertainty => ⟨[("X", some .none), ("y", some .none), ("measure", some (.str "entropy"))], false⟩
  | .random => ⟨[("X", some .none), ("y", some .none)], true⟩
  | .oldRandom => ⟨[("X", some .none), ("y", some .none)], false⟩
  | .qbc => ⟨[("X", some .none), ("y", some .none), ("method", some (.str "query_by_bagging")), ("disagreement", some (.str "vote_entropy"))], false⟩
  | .eer => ⟨[("X", none), ("y", none)], false⟩
  | .quire => ⟨[("X", none), ("y", none), ("train_idx", none)], true⟩
  | .density => ⟨[("X", none), ("y", none), ("train_idx", none), ("metric", some (.str "manhattan"))], false⟩
  | .bmdr => ⟨[("X", none), ("y", none), ("beta", some (.num 1000)), ("gamma", some (.num (1 / 10))), ("rho", some (.num 1))], true⟩
  | .spal => ⟨[("X", none), ("y", none), ("mu", some (.num (1 / 10))), ("gamma", some (.num (1 / 10))), ("rho", some (.num 1)), ("lambda_init", some (.num (1 / 10))),
      ("lambda_pace", some (.num (1 / 100)))], true⟩
  | .lal => ⟨[("X", none), ("y", none), ("mode", some (.str "LAL_iterative")), ("data_path", some (.str ".")), ("cls_est", some (.num 50)), ("train_slt", some (.bool true))], true⟩
  | .coreset => ⟨[("X", none), ("y", none), ("train_idx", none), ("distance", some (.str "euclidean"))], false⟩
  | .weighted => ⟨[("X", none), ("y", none), ("uncertainty_meansure", some (.str "entropy")), ("distance", some (.str "euclidean")), ("beta", some (.num 1))], false⟩

/-- The kernel of QUIRE, BMDR and SPAL and the parameters it is computed with (query_labels.py lines 789-803, 1102-1116, 1375-1389); `g` is the name of the parameter of the kernel, `gamma` or
`gamma_ker`. -/
def kernel (g : String) (extra : Kw) : Except PyErr Kw :=
  let k := get extra "kernel" (.str "rbf")
  if k = .str "rbf" then .ok [("kernel", k), (g, get extra g (.num 1))]
  else if k = .str "poly" then .ok [("kernel", k), ("coef0", get extra "coef0" (.num 1)), ("degree", get extra "degree" (.num 3)), (g, get extra g (.num 1))]
  else if k = .str "linear" then .ok [("kernel", k)]
  else match k with
    | .obj _ true => .ok [("kernel", k)]
    | _ => .error .notImplementedError

/-- The bodies of the constructors: the values of the parameters that are kept (query_labels.py lines 109-114, 369-376, 786-803, 921-923, 1098-1116, 1368-1389, 1633-1645, 1809-1818, 1913-1920). Not
modelled: the checks of the data, the directory of LAL and its download. -/
def init (c : Cls) (b extra : Kw) : Except PyErr Kw :=
  match c with
  | .uncertainty =>
    if [PVal.str "least_confident", .str "margin", .str "entropy", .str "distance_to_boundary"].contains (get b "measure" .none) then .ok b else .error .valueError
  | .qbc => if [PVal.str "vote_entropy", .str "KL_divergence"].contains (get b "disagreement" .none) then .ok b else .error .valueError
  | .quire =>
    match kernel "gamma" (del extra "lambda") with
    | .error e => .error e
    | .ok k => .ok (b ++ ("lambda", get extra "lambda" (.num 1)) :: k)
  | .bmdr | .spal =>
    match kernel "gamma_ker" extra with
    | .error e => .error e
    | .ok k => .ok (b ++ k)
  | .lal => if [PVal.str "LAL_iterative", .str "LAL_independent"].contains (get b "mode" .none) then .ok b else .error .assertionError
  | .weighted =>
    if [PVal.str "least_confident", .str "margin", .str "entropy"].contains (get b "uncertainty_meansure" .none) &&
        [PVal.str "cityblock", .str "cosine", .str "euclidean", .str "l1", .str "l2", .str "manhattan"].contains (get b "distance" .none) then .ok b
    else .error .assertionError
  | .random | .oldRandom | .eer | .density | .coreset => .ok b

/-- The construction of an object. For instance al_experiment.py line 185. -/
def construct (c : Cls) (pos : List PVal) (kw : Kw) : Except PyErr Kw :=
  match call (sig c) pos kw with
  | .error e => .error e
  | .ok (b, extra) => init c b extra

/-- What a round of an experiment queries with: the class, the parameters of the object, and the options its `select` reads besides the index sets and the batch size. al_experiment.py lines 390-406. -/
structure Ran where
  cls : Cls
  params : Kw
  options : Kw
  deriving DecidableEq, Repr

/-- An object and options, or what its construction raised. al_experiment.py lines 163-202. -/
def ran (c : Cls) (options : Kw) : Except PyErr Kw → Except PyErr Ran
  | .error e => .error e
  | .ok ps => .ok ⟨c, ps, options⟩

/-- The names of the parameters of `select` that the loop sets itself: a keyword argument of that name passed on in lines 392-393 of al_experiment.py raises TypeError. -/
def selectNames : List String := ["self", "label_index", "unlabel_index", "batch_size"]

/-- `set_query_strategy(name, **kw)` of `AlExperiment` and the use of the strategy in a round with training indexes `train` (al_experiment.py lines 155-202 and 372-403). A keyword argument of the name of a
parameter of `set_query_strategy`, `self` or `strategy`, cannot be passed. -/
def experiment (X y train : PVal) (name : String) (kw : Kw) : Except PyErr Ran :=
  if name = "QueryInstanceQBC" then
    ran .qbc [("model", .obj 0 false)]
      (construct .qbc [X, y, get kw "method" (.str "query_by_bagging"), get (del kw "method") "disagreement" (.str "vote_entropy")] [])
  else if name = "QueryInstanceUncertainty" then
    ran .uncertainty [("model", .obj 0 false)] (construct .uncertainty [X, y, get kw "measure" (.str "entropy")] [])
  else if name = "QueryInstanceRandom" ∨ name = "QueryRandom" then
    ran .random [] (construct .random [X, y] [])
  else if name = "QueryExpectedErrorReduction" then
    ran .eer [("model", .obj 0 false)] (construct .eer [X, y] [])
  else if name = "QueryInstanceGraphDensity" then
    let metric := get kw "metric" (.str "manhattan")
    if metric = .none then .error .genericException
    else if (del kw "metric").any (fun p => selectNames.contains p.1) then .error .typeError
    else ran .density [] (construct .density [X, y, train, metric] [])
  else if name = "QueryInstanceQUIRE" then
    ran .quire [] (construct .quire [X, y, train] (del kw "metric"))
  else if name = "QueryInstanceBMDR" then
    let rest := del (del (del kw "beta") "gamma") "rho"
    ran .bmdr [("qp_solver", get rest "qp_sover" (.str "ECOS"))]
      (construct .bmdr [X, y, get kw "beta" (.num 1000), get kw "gamma" (.num (1 / 10)), get kw "rho" (.num 1)] rest)
  else if name = "QueryInstanceSPAL" then
    let rest := del (del (del (del (del kw "mu") "gamma") "rho") "lambda_init") "lambda_pace"
    ran .spal [("qp_solver", get rest "qp_sover" (.str "ECOS"))]
      (construct .spal [X, y, get kw "mu" (.num (1 / 10)), get kw "gamma" (.num (1 / 10)), get kw "rho" (.num 1), get kw "lambda_init" (.num (1 / 10)), get kw "lambda_pace" (.num (1 / 100))] rest)
  else if name = "QueryInstanceLAL" then
    let rest := del (del (del (del kw "mode") "data_path") "cls_est") "train_slt"
    ran .lal []
      (construct .lal [X, y, get kw "mode" (.str "LAL_iterative"), get kw "data_path" (.str "."), get kw "cls_est" (.num 50), get kw "train_slt" (.bool true)] rest)
  else .error .notImplementedError

/-- The names of the classes (query_labels.py line 30). -/
def clsOf (name : String) : Option Cls :=
  [("QueryInstanceUncertainty", Cls.uncertainty), ("QueryRandom", .oldRandom), ("QueryInstanceRandom", .random), ("QueryInstanceQBC", .qbc), ("QueryExpectedErrorReduction", .eer),
    ("QueryInstanceQUIRE", .quire), ("QueryInstanceGraphDensity", .density), ("QueryInstanceBMDR", .bmdr), ("QueryInstanceSPAL", .spal), ("QueryInstanceLAL", .lal),
    ("QueryInstanceCoresetGreedy", .coreset), ("QueryInstanceDensityWeighted", .weighted)].lookup name

/-- `ToolBox.get_query_strategy(name, **kw)` for the strategies of query_labels.py (toolbox.py lines 407-414): everything is passed by name. -/
def toolbox (X y : PVal) (name : String) (kw : Kw) : Except PyErr (Cls × Kw) :=
  match clsOf name with
  | none => .error .keyError
  | some c =>
    if kw.any (fun p => p.1 = "X" || p.1 = "y") then .error .typeError
    else
      match construct c [] (("X", X) :: ("y", y) :: kw) with
      | .error e => .error e
      | .ok ps => .ok (c, ps)

/-- `set_performance_metric(metric, **kw)` and the use of the metric in the rounds (al_experiment.py lines 221-228, 383 and 414): the function called and its keyword arguments. -/
def metric (known : List String) (name : String) (_kw : Kw) : Except PyErr (String × Kw) :=
  if known.contains name then .ok (name, []) else .error .notImplementedError

end Alipy.Params
