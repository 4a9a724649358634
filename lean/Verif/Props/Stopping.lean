import Verif.Spec.Stopping
import Verif.Props.StateIO
import Mathlib.Tactic.Linarith
import Mathlib.Tactic.GCongr

/-! # C21, C22: stopping criteria -/
namespace Alipy
open Spec
namespace Stop
variable {κ ε σ α : Type} {ops : CollOps κ ε σ} {elems : κ → List α} {means : σ → α → Prop} {goodL goodU : κ → Prop}
  {legal : σ → Prop}

theorem workspace_zero (s : StateIO κ σ) : StateIO.getWorkspace ops s (some 0) = .ok (s.initL, s.initU) := by
  simp [StateIO.getWorkspace, StateIO.replay]

/-! ## C21 -/

/-- C21 (constructor): the criterion and the value are the given ones; a number of queries is truncated to an integer; an unknown
name is refused. -/
theorem C21_constructor (v : PyNum) (now : ℚ) :
    (∃ s, new Option.none Option.none now = .ok s ∧ s.crit = .none) ∧
    (∀ n : Int, ∃ s, new (some "num_of_queries") (some (.int n)) now = .ok s ∧ s.crit = .numOfQueries ∧ s.value = some (n : ℚ)) ∧
    (∃ s, new (some "cost_limit") (some v) now = .ok s ∧ s.crit = .costLimit ∧ s.value = some v.val) ∧
    (∃ s, new (some "percent_of_unlabel") (some v) now = .ok s ∧ s.crit = .percentOfUnlabel ∧ s.value = some v.val) ∧
    (∃ s, new (some "time_limit") (some v) now = .ok s ∧ s.crit = .timeLimit ∧ s.value = some v.val ∧ s.startTime = now) ∧
    ∀ name : String, name ∉ ["num_of_queries", "cost_limit", "percent_of_unlabel", "time_limit"] → ∀ w,
      new (some name) w now = .error .valueError := by
  refine ⟨⟨_, rfl, rfl⟩, fun n => ⟨_, rfl, rfl, rfl⟩, ⟨_, rfl, rfl, rfl⟩, ⟨_, rfl, rfl, rfl⟩, ⟨_, rfl, rfl, rfl, rfl⟩, ?_⟩
  intro name hn w
  simp only [List.mem_cons, List.not_mem_nil, or_false, not_or] at hn
  have : parse (some name) = .error .valueError := by
    unfold parse
    split <;> simp_all
  simp [new, this]

/-- C21 (constructor): a number of queries given as a float is truncated towards zero; without a number the criterion is refused. -/
theorem C21_constructor_truncates (q now : ℚ) :
    (∃ s, ∃ z : Int, new (some "num_of_queries") (some (.float q)) now = .ok s ∧ s.crit = .numOfQueries ∧ s.value = some (z : ℚ) ∧
      (0 ≤ q → 0 ≤ z ∧ (z : ℚ) ≤ q ∧ q < z + 1) ∧ (q ≤ 0 → z ≤ 0 ∧ q ≤ z ∧ (z : ℚ) - 1 < q)) ∧
    new (some "num_of_queries") Option.none now = .error .typeError := by
  refine ⟨⟨_, pyTrunc q, rfl, rfl, rfl, ?_, ?_⟩, rfl⟩
  · intro h
    rw [pyTrunc, if_pos h]
    exact ⟨Int.floor_nonneg.2 h, Int.floor_le q, Int.lt_floor_add_one q⟩
  · intro h
    unfold pyTrunc
    split
    · rename_i h0
      have : q = 0 := le_antisymm h h0
      subst this
      simp
    · refine ⟨Int.ceil_le.2 (by simpa using h), Int.le_ceil q, ?_⟩
      have := Int.ceil_lt_add_one q
      linarith

/-- `update_information` succeeds, unless it has to divide by an empty initial pool. -/
theorem update_ok (st : Stop) (s : StateIO κ σ) (L U : κ) (hw : StateIO.getWorkspace ops s Option.none = .ok (L, U))
    (hp : st.crit = .percentOfUnlabel → ops.len s.initU ≠ 0) :
    ∃ st', st.update ops s = .ok st' ∧ st'.crit = st.crit ∧ st'.value = st.value ∧ st'.startTime = st.startTime ∧
      st'.initValue = st.initValue ∧ st'.unlabel = ops.len U ∧
      (st.crit = .numOfQueries → st'.iter = s.states.length) ∧ (st.crit = .costLimit → st'.accum = s.cost) ∧
      (st.crit = .percentOfUnlabel → st'.percent = ((ops.len s.initU : ℚ) - (ops.len U : ℚ)) / (ops.len s.initU : ℚ)) := by
  simp only [update, hw, workspace_zero]
  cases hc : st.crit with
  | percentOfUnlabel =>
    have := hp hc
    simp [this, hc]
  | none => simp [hc]
  | numOfQueries => simp [hc]
  | costLimit => simp [hc]
  | timeLimit => simp [hc]

/-- C21: after `update_information(saver)`, `is_stop()` answers True exactly if no unlabelled example is left or the configured
bound is reached by: the number of recorded queries, the reported total cost, the labelled fraction of the initial pool, the
time since the start. -/
theorem C21_stop_iff_empty_or_bound_reached (st : Stop) (s : StateIO κ σ) (L U : κ)
    (hw : StateIO.getWorkspace ops s Option.none = .ok (L, U)) (v : ℚ) (hv : st.crit ≠ .none → st.value = some v)
    (hp : st.crit = .percentOfUnlabel → ops.len s.initU ≠ 0 ∧ 0 ≤ v ∧ v ≤ 1) (now : ℚ) :
    ∃ st' b, st.update ops s = .ok st' ∧ st'.isStop now = .ok b ∧
      (b = true ↔ ops.len U = 0 ∨
        BoundReached st.crit v s.states.length s.cost (ops.len s.initU) (ops.len U) (now - st.startTime)) := by
  obtain ⟨st', h1, h2, h3, h4, -, h5, h6, h7, h8⟩ := update_ok st s L U hw (fun h => (hp h).1)
  refine ⟨st', ?_⟩
  by_cases h0 : ops.len U = 0
  · exact ⟨true, h1, by simp [isStop, h5, h0], by simp [h0]⟩
  · cases hc : st.crit with
    | none => exact ⟨false, h1, by simp [isStop, h5, h0, h2, hc], by simp [BoundReached, h0]⟩
    | numOfQueries =>
      have := hv (by simp [hc])
      exact ⟨_, h1, by simp only [isStop, h5, h0, h2, hc, h3, this, h6 hc, if_false]; rfl, by simp [BoundReached, h0]⟩
    | costLimit =>
      have := hv (by simp [hc])
      exact ⟨_, h1, by simp only [isStop, h5, h0, h2, hc, h3, this, h7 hc, if_false]; rfl, by simp [BoundReached, h0]⟩
    | percentOfUnlabel =>
      have := hv (by simp [hc])
      obtain ⟨-, hp1, hp2⟩ := hp hc
      have hp3 : ¬ (1 < v ∨ v < 0) := by rw [not_or]; exact ⟨not_lt.2 hp2, not_lt.2 hp1⟩
      exact ⟨_, h1, by simp only [isStop, h5, h0, h2, hc, h3, this, h8 hc, hp3, if_false]; rfl, by simp [BoundReached, h0]⟩
    | timeLimit =>
      have := hv (by simp [hc])
      exact ⟨_, h1, by simp only [isStop, h5, h0, h2, hc, h3, this, h4, if_false]; rfl, by simp [BoundReached, h0]⟩

/-- C21: while there are unlabelled examples, a percentage outside of [0, 1] raises ValueError. -/
theorem C21_percentage_out_of_range (st : Stop) (s : StateIO κ σ) (L U : κ)
    (hw : StateIO.getWorkspace ops s Option.none = .ok (L, U)) (v : ℚ) (hc : st.crit = .percentOfUnlabel)
    (hv : st.value = some v) (hv' : v < 0 ∨ 1 < v) (hU : ops.len U ≠ 0) (hU0 : ops.len s.initU ≠ 0) (now : ℚ) :
    ∃ st', st.update ops s = .ok st' ∧ st'.isStop now = .error .valueError := by
  obtain ⟨st', h1, h2, h3, h4, -, h5, -⟩ := update_ok st s L U hw (fun _ => hU0)
  refine ⟨st', h1, ?_⟩
  have : 1 < v ∨ v < 0 := hv'.symm
  simp [isStop, h5, hU, h2, hc, h3, hv, this]

/-- Finding: before the first `update_information` the object assumes 100 unlabelled examples, so an initially empty pool is
not noticed. -/
theorem C21_initially_empty_pool_unnoticed (now t : ℚ) :
    ∃ s, new Option.none Option.none now = .ok s ∧ s.isStop t = .ok false := ⟨_, rfl, rfl⟩

example : ∃ L U, StateIO.getWorkspace icOps StateIO.demo Option.none = .ok (L, U) ∧ icOps.len StateIO.demo.initU ≠ 0 :=
  ⟨_, _, rfl, by decide⟩

/-! ## C22 -/

theorem addStates_init {es : List (Entry σ)} {cs : List ℚ} {ns : List Nat} (hc : List.Forall₂ HasCost es cs)
    (hn : List.Forall₂ (HasSize ops) es ns) (s : StateIO κ σ) :
    (StateIO.addStates ops s es).initL = s.initL ∧ (StateIO.addStates ops s es).initU = s.initU ∧
    (StateIO.addStates ops s es).states = s.states ++ es ∧ (StateIO.addStates ops s es).cost = s.cost + cs.sum := by
  rw [StateIO.addStates_of hc hn]; simp

theorem sum_nonneg' {cs : List ℚ} (h : ∀ c ∈ cs, 0 ≤ c) : 0 ≤ cs.sum := by
  induction cs with
  | nil => simp
  | cons a r ih =>
    rw [List.sum_cons]
    have := h a (by simp)
    have := ih (fun c hc => h c (by simp [hc]))
    linarith

theorem hasSize_of_recorded {es : List (Entry σ)} {sel : List σ} (h : Recorded es sel) :
    List.Forall₂ (HasSize ops) es (sel.map ops.selLen) := by
  induction h with
  | nil => exact .nil
  | cons h _ ih =>
    obtain ⟨st, h1, h2⟩ := h
    exact .cons ⟨st, _, h1, h2, rfl⟩ ih

/-- C22: if `is_stop()` is True after some history, it is True after every extension of it by further recorded queries of
non-negative cost, at any later time - for every criterion. (`st'` is the same criterion object later on: it has the same
criterion, value and start time.) -/
theorem C22_stop_is_permanent (law : SetLaw ops elems means goodL goodU legal) (s : StateIO κ σ) (sel sel' : List σ)
    (es : List (Entry σ)) (cs : List ℚ)
    (hrec : Recorded s.states sel) (hrec' : Recorded es sel') (hlegal : ∀ x ∈ sel ++ sel', legal x)
    (hL : goodL s.initL) (hU : goodU s.initU) (hc : List.Forall₂ HasCost es cs) (hpos : ∀ c ∈ cs, 0 ≤ c)
    (st st' : Stop) (hsame : st'.crit = st.crit ∧ st'.value = st.value ∧ st'.startTime = st.startTime) (now now' : ℚ)
    (hnow : now ≤ now') (st1 : Stop) (hup : st.update ops s = .ok st1) (hstop : st1.isStop now = .ok true) :
    ∃ st2, st'.update ops (StateIO.addStates ops s es) = .ok st2 ∧ st2.isStop now' = .ok true := by
  have hn := hasSize_of_recorded (ops := ops) hrec'
  obtain ⟨i1, i2, i3, i4⟩ := addStates_init hc hn s
  have hrec2 : Recorded (StateIO.addStates ops s es).states (sel ++ sel') := by
    rw [i3]; exact List.rel_append hrec hrec'
  obtain ⟨⟨L, U⟩, hw, -, n2, -, m2⟩ := (StateIO.C16_workspace_is_replay law s sel hrec
    (fun x hx => hlegal x (by simp [hx])) hL hU).2.1
  obtain ⟨⟨L', U'⟩, hw', -, n2', -, m2'⟩ := (StateIO.C16_workspace_is_replay law (StateIO.addStates ops s es) (sel ++ sel') hrec2
    hlegal (by rw [i1]; exact hL) (by rw [i2]; exact hU)).2.1
  have hlen : ops.len U' ≤ ops.len U := by
    rw [law.len, law.len]
    refine (List.subperm_of_subset n2' ?_).length_le
    intro a ha
    obtain ⟨h1, h2⟩ := (m2' a).1 ha
    rw [i2] at h1
    exact (m2 a).2 ⟨h1, fun ⟨x, hx, hm⟩ => h2 ⟨x, by simp [hx], hm⟩⟩
  have hperc : st.crit = .percentOfUnlabel → ops.len s.initU ≠ 0 := by
    intro hcr h0
    simp [update, hw, workspace_zero, hcr, h0] at hup
  obtain ⟨st1', g1, g2, g3, g4, -, g5, g6, g7, g8⟩ := update_ok st s L U hw hperc
  rw [g1] at hup; cases hup
  obtain ⟨st2, k1, k2, k3, k4, -, k5, k6, k7, k8⟩ := update_ok st' (StateIO.addStates ops s es) L' U' hw'
    (fun h => by rw [i2]; exact hperc (hsame.1 ▸ h))
  refine ⟨st2, k1, ?_⟩
  by_cases h0 : ops.len U' = 0
  · simp [isStop, k5, h0]
  · have h0' : ops.len U ≠ 0 := by omega
    have hsum : 0 ≤ cs.sum := sum_nonneg' hpos
    cases hcr : st.crit with
    | none => simp [isStop, g5, h0', g2, hcr] at hstop
    | numOfQueries =>
      cases hv : st.value with
      | none => simp [isStop, g5, h0', g2, hcr, g3, hv] at hstop
      | some v =>
        simp only [isStop, g5, h0', g2, hcr, g3, hv, g6 hcr, if_false, Except.ok.injEq, decide_eq_true_eq] at hstop
        simp only [isStop, k5, h0, k2, hsame.1, hcr, k3, hsame.2.1, hv, k6 (hsame.1.trans hcr), if_false, Except.ok.injEq,
          decide_eq_true_eq, i3, List.length_append]
        refine le_trans hstop ?_
        exact_mod_cast Nat.le_add_right _ _
    | costLimit =>
      cases hv : st.value with
      | none => simp [isStop, g5, h0', g2, hcr, g3, hv] at hstop
      | some v =>
        simp only [isStop, g5, h0', g2, hcr, g3, hv, g7 hcr, if_false, Except.ok.injEq, decide_eq_true_eq] at hstop
        simp only [isStop, k5, h0, k2, hsame.1, hcr, k3, hsame.2.1, hv, k7 (hsame.1.trans hcr), if_false, Except.ok.injEq,
          decide_eq_true_eq, i4]
        linarith
    | timeLimit =>
      cases hv : st.value with
      | none => simp [isStop, g5, h0', g2, hcr, g3, hv] at hstop
      | some v =>
        simp only [isStop, g5, h0', g2, hcr, g3, hv, g4, if_false, Except.ok.injEq, decide_eq_true_eq] at hstop
        simp only [isStop, k5, h0, k2, hsame.1, hcr, k3, hsame.2.1, hv, k4, hsame.2.2, if_false, Except.ok.injEq,
          decide_eq_true_eq]
        linarith
    | percentOfUnlabel =>
      cases hv : st.value with
      | none => simp [isStop, g5, h0', g2, hcr, g3, hv] at hstop
      | some v =>
        by_cases hrange : 1 < v ∨ v < 0
        · simp [isStop, g5, h0', g2, hcr, g3, hv, hrange] at hstop
        · simp only [isStop, g5, h0', g2, hcr, g3, hv, g8 hcr, hrange, if_false, Except.ok.injEq, decide_eq_true_eq] at hstop
          simp only [isStop, k5, h0, k2, hsame.1, hcr, k3, hsame.2.1, hv, k8 (hsame.1.trans hcr), hrange, if_false,
            Except.ok.injEq, decide_eq_true_eq, i2]
          refine le_trans hstop ?_
          have : (ops.len U' : ℚ) ≤ ops.len U := by exact_mod_cast hlen
          gcongr

/-- What a program can do with a stopping criterion. -/
inductive Reachable (ops : CollOps κ ε σ) (name : Option String) (value : Option PyNum) : Stop → Prop where
  | new {now : ℚ} {s : Stop} : new name value now = .ok s → Reachable ops name value s
  | update {s s' : Stop} (saver : StateIO κ σ) : Reachable ops name value s → s.update ops saver = .ok s' →
      Reachable ops name value s'
  | reset {s : Stop} (now : ℚ) : Reachable ops name value s → Reachable ops name value (s.reset now)

/-- C22 (reset): after any use, `reset()` gives the object a new construction at that time would give. -/
theorem C22_reset_is_a_new_object (name : Option String) (value : Option PyNum) (s : Stop) (h : Reachable ops name value s)
    (now : ℚ) : new name value now = .ok (s.reset now) := by
  have key : ∀ s, Reachable ops name value s → ∀ now, ∃ t, new name value now = .ok t ∧ t.crit = s.crit ∧ t.value = s.initValue ∧
      t.initValue = s.initValue ∧ t.startTime = now ∧ t.iter = 0 ∧ t.accum = 0 ∧ t.unlabel = 100 ∧ t.percent = 0 := by
    intro s h
    induction h with
    | @new now0 s0 h =>
      intro now
      unfold Stop.new at h ⊢
      split at h
      · cases h
      · split at h
        · cases h
        · cases h; exact ⟨_, rfl, rfl, rfl, rfl, rfl, rfl, rfl, rfl, rfl⟩
        · cases h; exact ⟨_, rfl, rfl, rfl, rfl, rfl, rfl, rfl, rfl, rfl⟩
      · cases h; exact ⟨_, rfl, rfl, rfl, rfl, rfl, rfl, rfl, rfl, rfl⟩
    | @update s s' saver _ hu ih =>
      intro now
      obtain ⟨t, h1, h2⟩ := ih now
      have : s'.crit = s.crit ∧ s'.initValue = s.initValue := by
        unfold Stop.update at hu
        split at hu
        · cases hu
        · cases hu
        · cases hc : s.crit <;> simp only [hc] at hu
          case percentOfUnlabel =>
            split at hu
            · cases hu
            · cases hu; exact ⟨rfl, rfl⟩
          all_goals (cases hu; exact ⟨rfl, rfl⟩)
      rw [this.1, this.2]
      exact ⟨t, h1, h2⟩
    | @reset s now0 _ ih => intro now; exact ih now
  obtain ⟨t, h1, h2, h3, h4, h5, h6, h7, h8, h9⟩ := key s h now
  rw [h1]
  congr 1
  cases t; cases s
  simp_all [Stop.reset]

example : ∃ st st1 : Stop, new (some "num_of_queries") (some (.int 2)) 0 = .ok st ∧
    st.update icOps StateIO.demo = .ok st1 ∧ st1.isStop 5 = .ok true := by
  refine ⟨⟨.numOfQueries, some 2, some 2, 0, 0, 0, 100, 0⟩, ⟨.numOfQueries, some 2, some 2, 0, 2, 0, 0, 0⟩, ?_, ?_, ?_⟩
  · simp [new, parse]
  · rfl
  · rfl

end Stop
end Alipy
