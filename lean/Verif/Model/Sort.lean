/-! A structurally recursive stable sort, standing for numpy's sorting routines. -/
namespace Alipy

/-- Insert `a` before the first element `b` with `le a b`. Used for `np.argsort`, e.g. utils/misc.py lines 133 and 156. -/
def insertBy {α : Type} (le : α → α → Bool) (a : α) : List α → List α
  | [] => [a]
  | b :: bs => if le a b then a :: b :: bs else b :: insertBy le a bs

/-- Stable ascending sort with respect to `le`. Used for `np.argsort` and `np.unique`, e.g. query_labels.py lines 495, 530, 696. -/
def sortBy {α : Type} (le : α → α → Bool) : List α → List α
  | [] => []
  | a :: as => insertBy le a (sortBy le as)

end Alipy
