import Verif.Model.Files
/-!
# What is kept where
-/
namespace Alipy.Spec
open Alipy.Files

/-- The things an experiment keeps. -/
inductive FileRole where
  | settings | oracle | train | test | labelled (ragged : Bool) | unlabelled (ragged : Bool) | round (k : Int) | threads | thread (k : Int)
  deriving DecidableEq, Repr

/-- Their files, below the directory of the experiment. -/
def FileRole.file : FileRole → List String
  | .settings => ["al_settings.pkl"]
  | .oracle => ["oracle.pkl"]
  | .train => ["train_idx.txt"]
  | .test => ["test_idx.txt"]
  | .labelled r => [if r then "label_idx.npy" else "label_idx.txt"]
  | .unlabelled r => [if r then "unlabel_idx.npy" else "unlabel_idx.txt"]
  | .round k => ["AL_round_" ++ k.repr ++ ".pkl"]
  | .threads => ["multi_thread_state.pkl"]
  | .thread k => ["AL_result", "AL_round_" ++ k.repr ++ ".pkl"]

/-- What an action keeps under a role. -/
def kept {V : Type} : Act V → FileRole → Option (Obj V)
  | .box v, .settings => some (.box v)
  | .oracle v, .oracle => some (.oracle v)
  | .split _ a _ _ _, .train => some (.table a)
  | .split _ _ b _ _, .test => some (.table b)
  | .split r _ _ c _, .labelled r' => if r = r' then some (.table c) else none
  | .split r _ _ _ e, .unlabelled r' => if r = r' then some (.table e) else none
  | .round k v, .round j => if k = j then some (.saver v) else none
  | .threads v, .threads => some (.threads v)
  | .thread k v, .thread j => if k = j then some (.saver v) else none
  | _, _ => none

/-- What was kept last under a role. -/
def lastKept {V : Type} (l : List (Act V)) (r : FileRole) : Option (Obj V) := l.reverse.findSome? (fun a => kept a r)

/-- The directory is there, with `AL_result` in it, and none of the names is taken by a directory. -/
structure Ready {V : Type} (d : Disk V) (p : Path) : Prop where
  dir : d p = some .dir
  result : d (p ++ ["AL_result"]) = some .dir
  free : ∀ r : FileRole, d (p ++ r.file) ≠ some .dir

end Alipy.Spec
