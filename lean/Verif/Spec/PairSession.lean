import Verif.Model.PairSession
import Verif.Spec.MultiLabel
import Verif.Spec.Workspace
import Verif.Spec.Stopping

/-! What a session promises, in terms of sets of pairs. Taken from the model: the syntax of index tuples, and `get_workspace` as the way a
user reads the record of a session. -/
namespace Alipy.Spec
open Alipy.PairSession

/-- The pair is one of the entries of the container. -/
def Holds (c : MLIC) (p : Int × Int) : Prop := (p.1, Second.scal p.2) ∈ c.inner

/-- The container holds different pairs, with labels (features) of the label set. -/
def Proper (size : Int) (c : MLIC) : Prop := c.inner.Nodup ∧ ∀ q ∈ c.inner, ∃ l, q.2 = Second.scal l ∧ 0 ≤ l ∧ l < size

/-- The list of index tuples is a proper question: legal tuples, at least one pair, only pairs that are unknown, at most `most` of them. -/
def Asks (size : Int) (most : Nat) (unknown : MLIC) (items : List Item) : Prop :=
  ∃ ixs, items = ixs.map .tup ∧ (∀ ix ∈ ixs, Legal size ix) ∧ (∃ p, DenotesAny size ixs p) ∧ (∀ p, DenotesAny size ixs p → Holds unknown p) ∧
    ∀ ps : List (Int × Int), ps.Nodup → (∀ p ∈ ps, DenotesAny size ixs p) → ps.length ≤ most

/-- The strategy always asks by a list of its own. -/
def AlwaysLists (size : Int) (strat : Nat → MLIC → MLIC → Except PyErr Answer) : Prop :=
  ∀ i known unknown, Proper size unknown → unknown.inner ≠ [] → ∃ items most, strat i known unknown = .ok (.fresh items) ∧ Asks size most unknown items

/-- The strategy asks by a list of at most `most` pairs while more than `small` entries are unknown, and hands back the container of unknown
entries otherwise. This is what the strategies of the library do. -/
def HandsBack (size : Int) (most small : Nat) (strat : Nat → MLIC → MLIC → Except PyErr Answer) : Prop :=
  ∀ i known unknown, (unknown.inner.length ≤ small → strat i known unknown = .ok .same) ∧
    (Proper size unknown → small < unknown.inner.length → ∃ items, strat i known unknown = .ok (.fresh items) ∧ Asks size most unknown items)

/-- The pair is meant by a recorded selection: a list means what its tuples denote, a container what it holds. -/
def Selected (size : Int) (x : List Item ⊕ MLIC) (p : Int × Int) : Prop :=
  match x with
  | .inl items => ∃ ix, Item.tup ix ∈ items ∧ Denotes size ix p
  | .inr c => Holds c p

/-- What a session has done properly, if it started with the known pairs `lab` and the unknown pairs `unlab`: the known and the unknown pairs
are a partition of these; the record (`get_workspace`) says the same; every recorded query asked for at least one pair, and for pairs that
were unknown and not known at the time only; and before none of these queries the session was over: some pair was unknown, and the bound not reached. -/
def Done (size : Int) (clock : Nat → ℚ) (stop : Stop) (v : ℚ) (lab unlab : Int × Int → Prop) (total : Nat) (r : PState) : Prop :=
  (∀ p, Holds r.known p ∨ Holds r.unknown p ↔ lab p ∨ unlab p) ∧ (∀ p, Holds r.known p → ¬ Holds r.unknown p) ∧
    Proper size r.known ∧ Proper size r.unknown ∧ StateIO.getWorkspace mlOps r.saver none = .ok (r.known, r.unknown) ∧
    (∃ sel, Recorded r.saver.states sel ∧ ∀ (k : Nat) x, sel[k]? = some x → ∃ K U, StateIO.getWorkspace mlOps r.saver (some k) = .ok (K, U) ∧
      (∃ p, Selected size x p) ∧ ∀ p, Selected size x p → Holds U p ∧ ¬ Holds K p) ∧
    ∀ k : Nat, k < r.saver.states.length → ∃ K U, StateIO.getWorkspace mlOps r.saver (some k) = .ok (K, U) ∧ U.inner ≠ [] ∧
      ¬ BoundReached stop.crit v k 0 total U.inner.length (clock k - stop.startTime)

end Alipy.Spec
