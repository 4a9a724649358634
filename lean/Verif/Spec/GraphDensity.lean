import Verif.Model.GraphDensity

/-! What graph density sampling is meant to do (Ebert, Fritz, Schiele 2012, and the comments of the code): take an example of greatest density,
lower the density of its neighbours by this density, and go on with the examples that are left. Nothing is taken from the model but, for a
series of calls, the call itself. -/
namespace Alipy.Spec
open Alipy

variable {α K : Type}

/-- `xs` is a greedy choice from the examples `S` with the densities `f`; `g` are the densities of the examples that are left. Of equally dense
examples the one first in the order `pos` is taken. -/
inductive Greedy [Sub K] [LE K] (near : α → α → Prop) (pos : α → Nat) : (α → K) → (α → Prop) → List α → (α → K) → Prop where
  | done {f g : α → K} {S : α → Prop} : (∀ y, S y → g y = f y) → Greedy near pos f S [] g
  | pick {f f' g : α → K} {S : α → Prop} {x : α} {xs : List α} : S x → (∀ y, S y → f y ≤ f x) →
      (∀ y, S y → f y = f x → pos x ≤ pos y) →
      (∀ y, S y → y ≠ x → (near x y → f' y = f y - f x) ∧ (¬ near x y → f' y = f y)) →
      Greedy near pos f' (fun y => S y ∧ y ≠ x) xs g → Greedy near pos f S (x :: xs) g

/-- A series of calls on the same object, each followed by moving the selected examples to the labelled ones (as every experiment does), while
more than a batch is unlabelled. `xs` are the selected examples, in order. -/
inductive Series [Field K] [LinearOrder K] [DecidableEq α] (nbrs : Nat → List Nat) (train : List α) :
    List K → List α → List α → List α → List K → Prop where
  | done (d : List K) (l u : List α) : Series nbrs train d l u [] d
  | call {d d1 d2 : List K} {l u r xs : List α} {batch : Int} {fuel : Nat} : batch < u.length → batch.toNat ≤ fuel → 0 < batch →
      Select.graphDensity nbrs train fuel d l (.array u) batch = some (.ok (d1, r)) →
      Series nbrs train d1 (l ++ r) (u.filter (fun x => !decide (x ∈ r))) xs d2 → Series nbrs train d l u (r ++ xs) d2

/-- The neighbours in the symmetric graph of nearest neighbours. -/
def Linked (nn : Nat → List Nat) (i j : Nat) : Prop := j ∈ nn i ∨ i ∈ nn j

end Alipy.Spec
