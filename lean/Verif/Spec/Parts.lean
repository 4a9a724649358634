import Verif.Spec.RankingMetrics
/-!
# What repeating examples and joining test sets is meant to do to a score
-/
namespace Alipy.Spec

/-- Every entry as often as the numbers say. -/
def repeated {α : Type} (k : List Nat) (l : List α) : List α := (l.zip k).flatMap (fun p => List.replicate p.2 p.1)

/-- How much a test set of `n` examples counts: its size, or the sum of the weights. -/
def amount (n : Nat) (w : Option (List ℚ)) : ℚ :=
  match w with
  | none => n
  | some l => l.sum

/-- The score of two test sets together. -/
def pooled (n m p q : ℚ) : ℚ := (n * p + m * q) / (n + m)

/-- The weights of two test sets together, which both have weights or both do not. -/
inductive Joined : Option (List ℚ) → Option (List ℚ) → Option (List ℚ) → Prop
  | none : Joined none none none
  | some (l m : List ℚ) : Joined (some l) (some m) (some (l ++ m))

/-- The labels exchanged: the first becomes the second, everything else the first. -/
def exchanged (a b : Int) (y : List Int) : List Int := y.map (fun c => if c = a then b else a)

end Alipy.Spec
