import Verif.Model.Resume
/-! What is expected of a session that is broken off and resumed. -/
namespace Alipy.Spec
open Alipy.Resume
variable {κ ε σ : Type}

/-- The process is never killed while it is writing the file. -/
def SafeCrashes (env : Env κ ε σ) (events : List Event) : Prop :=
  ∀ pre post, events = pre ++ .crash :: post → ∀ m, (run env pre).proc ≠ .writing m

/-- The process is never killed. -/
def NeverKilled (events : List Event) : Prop := .crash ∉ events

/-- The selections of the recorded states. -/
def selections (s : StateIO κ σ) : List (Obj σ) :=
  s.states.filterMap (fun e => match StateIO.entryGet e "select_index" with
    | .ok v => some v
    | .error _ => none)

end Alipy.Spec
