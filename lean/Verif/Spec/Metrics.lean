import Mathlib.Algebra.Order.Field.Rat
import Mathlib.Algebra.BigOperators.Group.Finset.Basic
/-!
# What the metrics are meant to be
-/
namespace Alipy.Spec

/-- The weighted fraction of the positions `0 … n-1` with property `P`. -/
def fraction (n : Nat) (w : Nat → ℚ) (P : Nat → Prop) [DecidablePred P] : ℚ :=
  (∑ i ∈ Finset.range n, if P i then w i else 0) / ∑ i ∈ Finset.range n, w i

/-- The weight of position `i`: 1 without weights. -/
def weight (w : Option (List ℚ)) (i : Nat) : ℚ :=
  match w with
  | none => 1
  | some l => l.getD i 0

/-- The scores of the positions whose label has property `P`. -/
def scoresWith (P : Int → Bool) (y : List Int) (s : List ℚ) : List ℚ := ((y.zip s).filter (fun p => P p.1)).map Prod.snd

/-- What a (positive, negative) pair contributes: 1 if the positive is scored higher, one half for a tie. -/
def credit (p q : ℚ) : ℚ := if q < p then 1 else if q = p then 1 / 2 else 0

/-- The average contribution over all (positive, negative) pairs. -/
def pairStatistic (pos neg : List ℚ) : ℚ :=
  (pos.map (fun p => (neg.map (fun q => credit p q)).sum)).sum / (pos.length * neg.length)

/-- The scores of the samples of the positive class (default class 1). -/
def positives (pos : Option Int) (y : List Int) (s : List ℚ) : List ℚ := scoresWith (fun c => decide (c = pos.getD 1)) y s

/-- The scores of the other samples. -/
def negatives (pos : Option Int) (y : List Int) (s : List ℚ) : List ℚ := scoresWith (fun c => decide (c ≠ pos.getD 1)) y s

/-- The fraction of (relevant, irrelevant) pairs for which the irrelevant score is at least the relevant one. -/
def wrongPairs (rel irr : List ℚ) : ℚ :=
  (rel.map (fun r => (irr.countP (fun s => decide (r ≤ s)) : ℚ))).sum / (rel.length * irr.length)

/-- There is one weight per sample (or none are given). -/
def FitWeights (n : Nat) (w : Option (List ℚ)) : Prop := ∀ l ∈ w, l.length = n

instance (n : Nat) (w : Option (List ℚ)) : Decidable (FitWeights n w) :=
  match w with
  | none => isTrue (by intro l h; cases h)
  | some l => decidable_of_iff (l.length = n) ⟨fun h l' h' => by cases h'; exact h, fun h => h l rfl⟩

/-- Among the labels there are no three different ones. -/
def AtMostTwoValues (l : List Int) : Prop := ∀ x ∈ l, ∀ y ∈ l, ∀ z ∈ l, x = y ∨ y = z ∨ x = z

instance (l : List Int) : Decidable (AtMostTwoValues l) := inferInstanceAs (Decidable (∀ x ∈ l, ∀ y ∈ l, ∀ z ∈ l, x = y ∨ y = z ∨ x = z))

/-- The labels are 0 and 1, or -1 and 1 (or only one of them). -/
def BinaryLabels (y : List Int) : Prop := y ≠ [] ∧ ((∀ c ∈ y, c = 0 ∨ c = 1) ∨ ∀ c ∈ y, c = -1 ∨ c = 1)

instance (y : List Int) : Decidable (BinaryLabels y) :=
  inferInstanceAs (Decidable (y ≠ [] ∧ ((∀ c ∈ y, c = 0 ∨ c = 1) ∨ ∀ c ∈ y, c = -1 ∨ c = 1)))

end Alipy.Spec
