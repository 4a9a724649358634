import Verif.Model.Oracle
import Verif.Model.Repository
/-!
# What was asked and answered
-/
namespace Alipy.Spec
open Alipy
variable {β ι : Type}

/-- A query that was answered: what was asked, and who answered what, in order. -/
structure Asked (β ι : Type) where
  query : ι
  answers : List (String × Answer β)

/-- The oracle with this name answers the query. -/
def Answers (o : Oracles β ι) (q : ι) (n : String) (a : Answer β) : Prop := ∃ f, (n, f) ∈ o.dict ∧ f q = .ok a

/-- Any sequence of calls, successful or not, with the queries that were answered by all oracles asked. -/
inductive Asking : Oracles β ι → List (Asked β ι) → Prop
  | new : Asking Oracles.empty []
  | add {o : Oracles β ι} {log : List (Asked β ι)} (name : String) (f : ι → Except PyErr (Answer β)) : Asking o log → Asking (o.addOracle name f) log
  | one {o : Oracles β ι} {log : List (Asked β ι)} (pick : List String → String) (q : ι) (n : String) (a : Answer β) : Asking o log → Answers o q n a →
      Asking (o.queryFrom pick q (some n)).1 (log ++ [⟨q, [(n, a)]⟩])
  | oneFails {o : Oracles β ι} {log : List (Asked β ι)} (pick : List String → String) (q : ι) (n : String) : Asking o log → (∀ a, ¬ Answers o q n a) →
      Asking (o.queryFrom pick q (some n)).1 log
  | any {o : Oracles β ι} {log : List (Asked β ι)} (pick : List String → String) (q : ι) (a : Answer β) : Asking o log → Answers o q (pick (o.dict.map Prod.fst)) a →
      Asking (o.queryFrom pick q none).1 (log ++ [⟨q, [(pick (o.dict.map Prod.fst), a)]⟩])
  | anyFails {o : Oracles β ι} {log : List (Asked β ι)} (pick : List String → String) (q : ι) : Asking o log → (∀ a, ¬ Answers o q (pick (o.dict.map Prod.fst)) a) →
      Asking (o.queryFrom pick q none).1 log
  | some {o : Oracles β ι} {log : List (Asked β ι)} (q : ι) (ns : List String) (as : List (Answer β)) : Asking o log → List.Forall₂ (Answers o q) ns as →
      Asking (o.queryFromS q (some ns)).1 (log ++ [⟨q, ns.zip as⟩])
  | someFails {o : Oracles β ι} {log : List (Asked β ι)} (q : ι) (ns : List String) (n : String) : Asking o log → n ∈ ns → (∀ a, ¬ Answers o q n a) →
      Asking (o.queryFromS q (some ns)).1 log
  | all {o : Oracles β ι} {log : List (Asked β ι)} (q : ι) (as : List (Answer β)) : Asking o log → List.Forall₂ (Answers o q) (o.dict.map Prod.fst) as →
      Asking (o.queryFromS q none).1 (log ++ [⟨q, (o.dict.map Prod.fst).zip as⟩])
  | allFails {o : Oracles β ι} {log : List (Asked β ι)} (q : ι) (n : String) : Asking o log → n ∈ o.dict.map Prod.fst → (∀ a, ¬ Answers o q n a) →
      Asking (o.queryFromS q none).1 log

/-- The answers of the oracle with this name. -/
def answersOf (log : List (Asked β ι)) (n : String) : List (Answer β) := ((log.flatMap Asked.answers).filter (fun p => p.1 == n)).map Prod.snd

/-- What an `update_query` call was given. -/
structure Update (κ β : Type) where
  indexes : List κ
  labels : List β
  cost : Option (List ℚ)
  deriving DecidableEq

/-- What a column of the table of a repository shows. -/
def shown {κ β : Type} (q : RepoQuery κ β) : Update κ β := ⟨q.indexes.toList, q.labels.toList, q.cost.map Arg.toList⟩

/-- Any sequence of calls that change an `ElementRepository`, successful or not, with the successful `update_query` calls since it was made or cleared. -/
inductive ELog {κ β χ : Type} [DecidableEq κ] [DecidableEq χ] : ERepo κ β χ → List (Update κ β) → Prop
  | new {o : ERepo κ β χ} (labels : List β) (indexes : List κ) (examples : Option (List χ)) : ERepo.new labels indexes examples = .ok o → ELog o []
  | add {o : ERepo κ β χ} {log : List (Update κ β)} (k : κ) (b : β) (c : Option ℚ) (x : Option χ) : ELog o log → ELog (o.add k b c x).1 log
  | discard {o : ERepo κ β χ} {log : List (Update κ β)} (k : Option κ) (x : Option χ) : ELog o log → ELog (o.discard k x).1 log
  | update {o : ERepo κ β χ} {log : List (Update κ β)} (is : Arg κ) (ls : Arg β) (c : Option (Arg ℚ)) (x : Option (Arg χ)) : ELog o log →
      (o.updateQuery is ls c x).2 = none → ELog (o.updateQuery is ls c x).1 (log ++ [⟨is.toList, ls.toList, c.map Arg.toList⟩])
  | updateFails {o : ERepo κ β χ} {log : List (Update κ β)} (is : Arg κ) (ls : Arg β) (c : Option (Arg ℚ)) (x : Option (Arg χ)) : ELog o log →
      (o.updateQuery is ls c x).2 ≠ none → ELog (o.updateQuery is ls c x).1 log
  | clear {o : ERepo κ β χ} {log : List (Update κ β)} : ELog o log → o.clear.2 = none → ELog o.clear.1 []
  | clearFails {o : ERepo κ β χ} {log : List (Update κ β)} : ELog o log → o.clear.2 ≠ none → ELog o.clear.1 log

/-- Any sequence of calls that change a `MatrixRepository`, successful or not, with the successful `update_query` calls since it was made or cleared. -/
inductive MLog {κ γ : Type} [DecidableEq κ] [DecidableEq γ] : MRepo κ γ → List (Update κ (Lab γ)) → Prop
  | new {o : MRepo κ γ} (labels : List (Lab γ)) (indexes : List κ) (examples : Option (List (List γ))) : MRepo.new labels indexes examples = .ok o → MLog o []
  | add {o : MRepo κ γ} {log : List (Update κ (Lab γ))} (b : Lab γ) (k : κ) (c : Option ℚ) (x : Option (List γ)) : MLog o log → MLog (o.add b k c x).1 log
  | discard {o : MRepo κ γ} {log : List (Update κ (Lab γ))} (k : Option κ) (x : Option (List γ)) : MLog o log → MLog (o.discard k x).1 log
  | update {o : MRepo κ γ} {log : List (Update κ (Lab γ))} (ls : Arg (Lab γ)) (is : Arg κ) (c : Option (Arg ℚ)) (x : Option (Arg (List γ))) : MLog o log →
      (o.updateQuery ls is c x).2 = none → MLog (o.updateQuery ls is c x).1 (log ++ [⟨is.toList, ls.toList, c.map Arg.toList⟩])
  | updateFails {o : MRepo κ γ} {log : List (Update κ (Lab γ))} (ls : Arg (Lab γ)) (is : Arg κ) (c : Option (Arg ℚ)) (x : Option (Arg (List γ))) : MLog o log →
      (o.updateQuery ls is c x).2 ≠ none → MLog (o.updateQuery ls is c x).1 log
  | clear {o : MRepo κ γ} {log : List (Update κ (Lab γ))} : MLog o log → MLog o.clear []

end Alipy.Spec
