import Verif.Model.State
/-! What it means for an index container to behave as a set. Used to state the workspace properties for both kinds of
containers at once; `icLaw` and `mlLaw` (Verif/Proof/StateIO.lean) show that both satisfy it. -/
namespace Alipy.Spec

/-- The container operations `ops` are set union and set difference on `elems`, for selections `x` (meaning the elements
`means x`) that are `legal`, on containers that are `goodL` (target of `update`) / `goodU` (target of `difference_update`). -/
structure SetLaw {κ ε σ α : Type} (ops : CollOps κ ε σ) (elems : κ → List α) (means : σ → α → Prop)
    (goodL goodU : κ → Prop) (legal : σ → Prop) : Prop where
  nodupL : ∀ c, goodL c → (elems c).Nodup
  nodupU : ∀ c, goodU c → (elems c).Nodup
  len : ∀ c, ops.len c = (elems c).length
  update : ∀ c x, goodL c → legal x →
    ∃ c', ops.update c x = (c', none) ∧ goodL c' ∧ ∀ a, a ∈ elems c' ↔ a ∈ elems c ∨ means x a
  diff : ∀ c x, goodU c → legal x →
    ∃ c', ops.diff c x = (c', none) ∧ goodU c' ∧ ∀ a, a ∈ elems c' ↔ a ∈ elems c ∧ ¬ means x a

/-- The held states recorded the selections `sel`, in this order. -/
def Recorded {σ : Type} (states : List (Entry σ)) (sel : List σ) : Prop :=
  List.Forall₂ (fun e x => ∃ st, e = .st st ∧ st.getValue "select_index" = .ok (.sel x)) states sel

/-- The cost a held state reports: the sum of its cost entry, 0 if it has none. -/
def HasCost {σ : Type} (e : Entry σ) (c : ℚ) : Prop :=
  ∃ st, e = .st st ∧ ((∃ xs, st.getValue "cost" = .ok (.arr xs) ∧ c = xs.sum) ∨
    (st.getValue "cost" = .error .keyError ∧ c = 0))

/-- The number of indexes selected in a held state. -/
def HasSize {κ ε σ : Type} (ops : CollOps κ ε σ) (e : Entry σ) (n : Nat) : Prop :=
  ∃ st x, e = .st st ∧ st.getValue "select_index" = .ok (.sel x) ∧ n = ops.selLen x

end Alipy.Spec
