import Mathlib.Data.Rat.Floor
/-! Notions used to state the properties of sampling and sorting helpers. Independent of the model. -/
namespace Spec

/-- A function that only rearranges lists (what `np.random.shuffle` may do). -/
def IsShuffle {α : Type} (f : List α → List α) : Prop := ∀ l, (f l).Perm l

/-- `r` is the integer nearest to `q`, the even one if there are two. -/
def IsRound (q : ℚ) (r : Int) : Prop :=
  |q - r| ≤ 1 / 2 ∧ (|q - r| = 1 / 2 → r % 2 = 0)

/-- `p` lists the positions of `a` in ascending order of the value there (`np.argsort`; the order of ties
is not specified). -/
def IsArgsort {α : Type} [LE α] (a : List α) (p : List Nat) : Prop :=
  p.Perm (List.range a.length) ∧
  p.Pairwise (fun i j => ∀ x y, a[i]? = some x → a[j]? = some y → x ≤ y)

end Spec
