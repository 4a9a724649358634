import Verif.Model.State
import Mathlib.Data.List.Induction
import Mathlib.Tactic.Common
/-! # C62: `StateIO` as a list of states -/
namespace Alipy
namespace StateIO
variable {κ ε σ : Type} {ops : CollOps κ ε σ}

/-- What a user does to a saver. -/
inductive Act (σ : Type) where
  | add (s : State σ) | pop (i : Int) | recover (k : Option Int) | refresh | checkBatch

/-- The saver after an action, whether it raised or not. -/
def act (ops : CollOps κ ε σ) (s : StateIO κ σ) : Act σ → StateIO κ σ
  | .add st => (s.addState ops (.st st)).1
  | .pop i => (s.pop (some i)).1
  | .recover k => (s.recoverWorkspace ops k).1
  | .refresh => (s.refreshInfo ops).1
  | .checkBatch => s.checkBatchSize.1

/-- What each action should do to the list of states: adding appends, `pop(i)` takes away the state number `i` (counted from the end for
a negative `i`), `recover_workspace(k)` keeps the first `k`; everything else, and every number out of range, changes nothing. Nor
does `recover_workspace(k)` for a workspace that cannot be computed, `bad k`. -/
inductive ListStep {β : Type} (mk : State σ → β) (bad : Option Int → Prop) : List β → Act σ → List β → Prop
  | add (l : List β) (st : State σ) : ListStep mk bad l (.add st) (l ++ [mk st])
  | pop (pre post : List β) (x : β) (i : Int) (hi : i = pre.length ∨ i = -((post.length : Int) + 1)) :
      ListStep mk bad (pre ++ x :: post) (.pop i) (pre ++ post)
  | popOut (l : List β) (i : Int) (hi : i < -(l.length : Int) ∨ (l.length : Int) ≤ i) : ListStep mk bad l (.pop i) l
  | recover (pre post : List β) (k : Int) (hk : k = pre.length) : ListStep mk bad (pre ++ post) (.recover (some k)) pre
  | recoverAll (l : List β) : ListStep mk bad l (.recover none) l
  | recoverFails (l : List β) (k : Option Int) (h : bad k) : ListStep mk bad l (.recover k) l
  | refresh (l : List β) : ListStep mk bad l .refresh l
  | checkBatch (l : List β) : ListStep mk bad l .checkBatch l

theorem addState_states (s : StateIO κ σ) (st : State σ) : (s.addState ops (.st st)).1.states = s.states ++ [.st st] := by
  simp only [addState]
  cases entryCost (.st st : Entry σ) with
  | error e => rfl
  | ok c =>
    cases entryLen ops (.st st) with
    | error e => rfl
    | ok n => rfl

/-- **C62**: every action, on every saver, does to the states held what it should do to a list. -/
theorem C62_actions (s : StateIO κ σ) (a : Act σ) :
    ListStep Entry.st (fun k => ∃ err, s.getWorkspace ops k = .error err) s.states a (act ops s a).states := by
  cases a with
  | add st => rw [act, addState_states]; exact .add _ _
  | refresh =>
    have : (refreshInfo ops s).1.states = s.states := by unfold refreshInfo; split <;> rfl
    rw [act, this]; exact .refresh _
  | checkBatch =>
    have : s.checkBatchSize.1.states = s.states := by
      unfold checkBatchSize
      split
      · rfl
      · split <;> rfl
    rw [act, this]; exact .checkBatch _
  | recover k =>
    unfold act recoverWorkspace
    simp only
    split_ifs with h
    · cases hr : replay ops (s.states.take (k.getD s.states.length).toNat) s.initL s.initU with
      | error e => exact .recoverFails _ _ ⟨e, by unfold getWorkspace; simp only; rw [if_pos h, hr]⟩
      | ok w =>
        cases k with
        | none => simp; exact .recoverAll _
        | some k =>
          simp only [Option.getD_some] at h ⊢
          have e := List.take_append_drop k.toNat s.states
          conv => arg 3; rw [← e]
          refine .recover _ _ _ ?_
          rw [List.length_take]; omega
    · exact .recoverFails _ _ ⟨_, by unfold getWorkspace; simp only; rw [if_neg h]⟩
  | pop i =>
    unfold act pop
    simp only
    split_ifs with h0 h1 h1
    · have hj : i + s.states.length = ((i + s.states.length).toNat : Int) := by omega
      have hlt : (i + s.states.length).toNat < s.states.length := by omega
      rw [List.getElem?_eq_getElem hlt]
      simp only
      rw [List.eraseIdx_eq_take_drop_succ]
      have e : s.states = s.states.take (i + s.states.length).toNat ++ s.states[(i + s.states.length).toNat] :: s.states.drop ((i + s.states.length).toNat + 1) := by
        rw [List.getElem_cons_drop, List.take_append_drop]
      conv => arg 3; rw [e]
      refine .pop _ _ _ _ (Or.inr ?_)
      rw [List.length_drop]; omega
    · exact .popOut _ _ (by omega)
    · cases hg : s.states[i.toNat]? with
      | none => exact .popOut _ _ (by have := List.getElem?_eq_none_iff.1 hg; omega)
      | some x =>
        obtain ⟨hlt, hx⟩ := List.getElem?_eq_some_iff.1 hg
        simp only
        rw [List.eraseIdx_eq_take_drop_succ]
        have e : s.states = s.states.take i.toNat ++ x :: s.states.drop (i.toNat + 1) := by
          rw [← hx, List.getElem_cons_drop, List.take_append_drop]
        conv => arg 3; rw [e]
        refine .pop _ _ _ _ (Or.inl ?_)
        rw [List.length_take]; omega
    · omega

/-- **C62**: `get_state(i)` returns the state number `i`, and refuses every number that is not in `[0, len)`. -/
theorem C62_get_state (s : StateIO κ σ) (i : Int) :
    (∀ pre x post, s.states = pre ++ x :: post → i = pre.length → s.getState i = .ok x) ∧
      (i < 0 ∨ (s.states.length : Int) ≤ i → s.getState i = .error .assertionError) := by
  constructor
  · rintro pre x post h rfl
    unfold getState
    rw [if_pos (by rw [h]; simp)]
    simp [h]
  · intro h
    unfold getState
    rw [if_neg (by omega)]

/-- **C62**: what `pop(i)` returns is the state that it takes away; a number out of range raises `IndexError`. -/
theorem C62_pop_returns (s : StateIO κ σ) (i : Int) :
    (∀ pre x post, s.states = pre ++ x :: post → (i = pre.length ∨ i = -((post.length : Int) + 1)) →
      (s.pop (some i)).2 = .ok x ∧ (s.pop (some i)).1.states = pre ++ post) ∧
      (i < -(s.states.length : Int) ∨ (s.states.length : Int) ≤ i → s.pop (some i) = (s, .error .indexError)) := by
  constructor
  · rintro pre x post h hi
    have hj : (if i < 0 then i + s.states.length else i) = pre.length := by
      rw [h]
      rcases hi with rfl | rfl
      · rw [if_neg (by omega)]
      · rw [if_pos (by omega)]; simp; omega
    unfold pop
    simp only
    rw [hj, if_pos (by omega)]
    simp [h, List.eraseIdx_append_of_length_le]
  · intro h
    unfold pop
    simp only
    by_cases h0 : i < 0
    · rw [if_pos h0, if_neg (by omega)]
    · rw [if_neg h0, if_pos (by omega), List.getElem?_eq_none_iff.2 (by omega)]

/-- `pop()` without argument, documented to take the last state, raises `TypeError` for every saver. -/
theorem C62_pop_default_violation (s : StateIO κ σ) : s.pop none = (s, .error .typeError) := rfl

/-- **C62**: after additions only, the states are those added, in order. -/
theorem C62_added (L U : κ) (sts : List (State σ)) :
    ((sts.map Act.add).foldl (act ops) (StateIO.new L U)).states = sts.map Entry.st := by
  induction sts using List.reverseRecOn with
  | nil => rfl
  | append_singleton as a ih =>
    rw [List.map_append, List.foldl_append, List.map_append]
    simp only [List.map_cons, List.map_nil, List.foldl_cons, List.foldl_nil, act, addState_states, ih]

/-- Three states, the second of which is taken away by `pop(-2)`. -/
example (a b c : State (List Val)) (L U : IC) :
    ([Act.add a, .add b, .add c, .pop (-2)].foldl (act icOps) (StateIO.new L U)).states = [.st a, .st c] := by
  have h := C62_added (ops := icOps) L U [a, b, c]
  simp only [List.foldl_cons, List.foldl_nil, List.map_cons, List.map_nil] at h ⊢
  exact ((C62_pop_returns _ (-2)).1 [.st a] (.st b) [.st c] (by rw [h]; rfl) (Or.inr rfl)).2

end StateIO
end Alipy
