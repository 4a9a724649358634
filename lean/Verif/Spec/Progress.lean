import Mathlib.Data.Rat.Defs
import Mathlib.Algebra.Order.Field.Rat
import Mathlib.Algebra.BigOperators.Group.List.Basic

/-! Spec for the progress shown while querying. -/
namespace Alipy.Spec

/-- The numbers shown for `nL` initially labelled and `nU` unlabelled data after queries with the given performances and costs: percentage of initially
labelled data, number of queries, total cost, mean and squared standard deviation of the performances. -/
structure Describes (nL nU : Nat) (perfs costs : List ℚ) (pc : ℚ) (n : Nat) (total m v : ℚ) : Prop where
  percent : pc * (nL + nU) = 100 * nL
  queries : n = perfs.length
  cost : total = costs.sum
  mean : m * perfs.length = perfs.sum
  var : v * perfs.length = (perfs.map fun x => (x - m) ^ 2).sum

end Alipy.Spec
