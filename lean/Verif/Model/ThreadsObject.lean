import Verif.Model.Py

/-!
# The attributes of an `aceThreading` object through `save` and `recover`

`alipy/utils/multi_thread.py` lines 65-124, 143-179, 262-285 and 310-348. Scheduling and files are in `Model/Threads.lean`, the round-wise
decision of `recover` too; here are the attributes: what the constructor sets, what `__getstate__` puts into the breakpoint file, what
`__setstate__` takes out of it, and what `recover` passes to the constructor. The types of data, indexes, savers, functions and the dictionary
of global parameters are parameters.
-/
namespace Alipy.ThreadsObject

variable {χ τ ι φ γ ρ σ : Type}

/-- The arguments of the constructor. multi_thread.py lines 65-66. -/
structure Args (χ τ ι φ ρ : Type) where
  examples : χ
  labels : χ
  train : List τ
  test : List τ
  labelIdx : List ι
  unlabelIdx : List ι
  func : Option φ
  max : Option Int
  refresh : ρ
  path : String

/-- The attributes of an object. `glob = none`: there is no attribute `_global_parameters`, it is first set by `__init_threads`.
multi_thread.py lines 67-75, 84-87, 106-120 and 170. -/
structure Ace (χ τ ι φ γ ρ σ : Type) where
  examples : χ
  labels : χ
  train : List τ
  test : List τ
  labelIdx : List ι
  unlabelIdx : List ι
  refresh : ρ
  path : String
  rounds : Nat
  max : Int
  func : Option φ
  glob : Option (Option γ)
  alive : List Bool
  saver : List σ
  recoverArr : Option (List Bool)
  deriving DecidableEq

/-- What the rest of the program does for the constructor: `os.path.abspath`; a new `StateIO` from round, training, test, labelled and unlabelled
indexes and directory; the check of the parameters of a function. multi_thread.py lines 74, 88-104 and 134-140. -/
structure Env (τ ι φ σ : Type) where
  abspath : String → String
  mkSaver : Nat → τ → τ → ι → ι → String → Except PyErr σ
  accepts : φ → Bool

/-- The savers of the rounds, in turn. multi_thread.py lines 88-104. -/
def mkSavers (env : Env τ ι φ σ) (path : String) : Nat → List τ → List τ → List ι → List ι → Except PyErr (List σ)
  | i, a :: as, b :: bs, c :: cs, d :: ds =>
    match env.mkSaver i a b c d path with
    | .error e => .error e
    | .ok s =>
      match mkSavers env path (i + 1) as bs cs ds with
      | .error e => .error e
      | .ok ss => .ok (s :: ss)
  | _, _, _, _, _ => .ok []

/-- `max_thread`, multi_thread.py lines 106-110. -/
def maxThread (rounds : Nat) : Option Int → Except PyErr Int
  | none => .ok rounds
  | some m => if 0 < m then .ok m else .error .assertionError

/-- `target_func`, multi_thread.py lines 118-120 and 126-141. The `NameError` is `genericException` here. -/
def checkFunc (env : Env τ ι φ σ) : Option φ → Except PyErr (Option φ)
  | none => .ok none
  | some f => if env.accepts f then .ok (some f) else .error .genericException

/-- The constructor, multi_thread.py lines 65-120. -/
def new (env : Env τ ι φ σ) (a : Args χ τ ι φ ρ) : Except PyErr (Ace χ τ ι φ γ ρ σ) :=
  if a.train.length = a.test.length ∧ a.test.length = a.labelIdx.length ∧ a.labelIdx.length = a.unlabelIdx.length then
    match mkSavers env (env.abspath a.path) 0 a.train a.test a.labelIdx a.unlabelIdx with
    | .error e => .error e
    | .ok savers =>
      match maxThread a.labelIdx.length a.max with
      | .error e => .error e
      | .ok m =>
        match checkFunc env a.func with
        | .error e => .error e
        | .ok f => .ok
          { examples := a.examples, labels := a.labels, train := a.train, test := a.test, labelIdx := a.labelIdx, unlabelIdx := a.unlabelIdx
            refresh := a.refresh, path := env.abspath a.path, rounds := a.labelIdx.length, max := m, func := f, glob := none
            alive := List.replicate a.labelIdx.length false, saver := savers, recoverArr := none }
  else .error .assertionError

/-- `start_all_threads` up to the start of the first thread, multi_thread.py lines 161-170 and 182-185: the global parameters become an attribute, and
the rounds to be run are settled. The result is the object and the value of `global_parameters` which every thread gets, line 178. -/
def enter (a : Ace χ τ ι φ γ ρ σ) (g : Option γ) : Except PyErr (Ace χ τ ι φ γ ρ σ × Option γ) :=
  match a.func with
  | none => .error .genericException
  | some _ =>
    match a.recoverArr with
    | none => .ok ({ a with glob := some g, recoverArr := some (List.replicate a.rounds true) }, g)
    | some l => if l.length = a.rounds then .ok ({ a with glob := some g }, g) else .error .assertionError

/-- What is in the breakpoint file. multi_thread.py lines 263-278. -/
structure Pickled (χ τ ι φ γ ρ σ : Type) where
  examples : χ
  labels : χ
  train : List τ
  test : List τ
  labelIdx : List ι
  unlabelIdx : List ι
  refresh : ρ
  path : String
  rounds : Nat
  max : Int
  func : Option φ
  glob : Option γ
  alive : List Bool
  saver : List σ

/-- `__getstate__`, multi_thread.py lines 262-279. Before the first `start_all_threads` there is no `_global_parameters`. -/
def getstate (a : Ace χ τ ι φ γ ρ σ) : Except PyErr (Pickled χ τ ι φ γ ρ σ) :=
  match a.glob with
  | none => .error .attributeError
  | some g => .ok ⟨a.examples, a.labels, a.train, a.test, a.labelIdx, a.unlabelIdx, a.refresh, a.path, a.rounds, a.max, a.func, g, a.alive, a.saver⟩

/-- The savers after `recover`: those that were loaded, and the new ones of the constructor for the rest. multi_thread.py lines 328-346. -/
def takeLoaded : List σ → List (Option σ) → List σ
  | s :: ss, l :: ls => l.getD s :: takeLoaded ss ls
  | ss, [] => ss
  | [], _ => []

/-- `recover`, multi_thread.py lines 319-348, for what `__setstate__` (lines 281-285) has taken from the breakpoint file. `loaded` is what the loop has
found for every round: whether it is to be run, and the saver of its file. -/
def recover (env : Env τ ι φ σ) (b : Pickled χ τ ι φ γ ρ σ) (loaded : List (Bool × Option σ)) : Except PyErr (Ace χ τ ι φ γ ρ σ) :=
  match new env ⟨b.examples, b.labels, b.train, b.test, b.labelIdx, b.unlabelIdx, b.func, some b.max, b.refresh, b.path⟩ with
  | .error e => .error e
  | .ok a => .ok { a with saver := takeLoaded a.saver (loaded.map Prod.snd), recoverArr := some (loaded.map Prod.fst) }

end Alipy.ThreadsObject
