import Verif.Model.Session
import Verif.Proof.IndexCollection
import Verif.Props.Knapsack
import Verif.Props.CostSelect
import Verif.Props.CostRandom
import Verif.Props.IEthresh
import Verif.Props.MainLoop
import Verif.Props.Session
/-!
# Greater limits only add (C140)
-/
namespace Alipy.Limits
open Alipy

/-! ## The stopping criteria -/

/-- What is needed of two stopping criteria: the second does not stop before the first. -/
structure Later (a b : Stop) : Prop where
  unlabel : a.unlabel = b.unlabel
  kind : b.crit = .none ∨ (a.crit = b.crit ∧ a.iter = b.iter ∧ a.accum = b.accum ∧ a.percent = b.percent ∧ a.startTime = b.startTime ∧
    ∃ v v' : ℚ, a.value = some v ∧ b.value = some v' ∧ v ≤ v' ∧ (a.crit = .percentOfUnlabel → 0 ≤ v ∧ v' ≤ 1))

theorem later_goes_on {a b : Stop} (h : Later a b) {now : ℚ} (ha : a.isStop now = .ok false) : b.isStop now = .ok false := by
  have h0 : a.unlabel ≠ 0 := by
    intro h0
    rw [Stop.isStop, if_pos h0] at ha
    cases ha
  have h0' : b.unlabel ≠ 0 := h.unlabel ▸ h0
  unfold Stop.isStop at ha ⊢
  rw [if_neg h0] at ha
  rw [if_neg h0']
  rcases h.kind with hn | ⟨hc, hi, hac, hp, ht, v, v', hv, hv', hle, hpc⟩
  · simp [hn]
  · rw [hv] at ha
    rw [hv', ← hc, ← hi, ← hac, ← hp, ← ht]
    cases hk : a.crit with
    | none => simp
    | numOfQueries => rw [hk] at ha; simp at ha ⊢; linarith
    | costLimit => rw [hk] at ha; simp at ha ⊢; linarith
    | timeLimit => rw [hk] at ha; simp at ha ⊢; linarith
    | percentOfUnlabel =>
      obtain ⟨h1, h2⟩ := hpc hk
      rw [hk] at ha
      simp only at ha ⊢
      rw [if_neg (by rintro (h | h) <;> linarith)] at ha
      rw [if_neg (by rintro (h | h) <;> linarith)]
      simp at ha ⊢
      linarith

theorem later_update {κ ε σ : Type} {ops : CollOps κ ε σ} {saver : StateIO κ σ} {a b a' : Stop} (h : Later a b)
    (ha : a.update ops saver = .ok a') : ∃ b', b.update ops saver = .ok b' ∧ Later a' b' := by
  unfold Stop.update at ha ⊢
  cases h1 : StateIO.getWorkspace ops saver Option.none with
  | error e => rw [h1] at ha; simp at ha
  | ok w =>
    cases h2 : StateIO.getWorkspace ops saver (some 0) with
    | error e => rw [h1, h2] at ha; simp at ha
    | ok w0 =>
      rw [h1, h2] at ha
      simp only at ha ⊢
      rcases h.kind with hn | ⟨hc, hi, hac, hp, ht, v, v', hv, hv', hle, hpc⟩
      · rw [hn]
        refine ⟨_, rfl, ?_, Or.inl rfl⟩
        cases hk : a.crit with
        | none => rw [hk] at ha; cases ha; rfl
        | numOfQueries => rw [hk] at ha; cases ha; rfl
        | costLimit => rw [hk] at ha; cases ha; rfl
        | timeLimit => rw [hk] at ha; cases ha; rfl
        | percentOfUnlabel =>
          rw [hk] at ha
          simp only at ha
          split at ha
          · cases ha
          · cases ha; rfl
      · rw [← hc]
        cases hk : a.crit with
        | none => rw [hk] at ha; cases ha; exact ⟨_, rfl, rfl, Or.inr ⟨rfl, hi, hac, hp, ht, v, v', hv, hv', hle, by simpa [hk] using hpc⟩⟩
        | numOfQueries => rw [hk] at ha; cases ha; exact ⟨_, rfl, rfl, Or.inr ⟨rfl, rfl, hac, hp, ht, v, v', hv, hv', hle, by simpa [hk] using hpc⟩⟩
        | costLimit => rw [hk] at ha; cases ha; exact ⟨_, rfl, rfl, Or.inr ⟨rfl, hi, rfl, hp, ht, v, v', hv, hv', hle, by simpa [hk] using hpc⟩⟩
        | timeLimit => rw [hk] at ha; cases ha; exact ⟨_, rfl, rfl, Or.inr ⟨rfl, hi, hac, hp, ht, v, v', hv, hv', hle, by simpa [hk] using hpc⟩⟩
        | percentOfUnlabel =>
          rw [hk] at ha
          simp only at ha ⊢
          split at ha
          · cases ha
          · rename_i hz
            rw [if_neg hz]
            cases ha
            exact ⟨_, rfl, rfl, Or.inr ⟨rfl, hi, hac, rfl, ht, v, v', hv, hv', hle, by simpa [hk] using hpc⟩⟩

theorem trunc_mono {p q : ℚ} (h : p ≤ q) : pyTrunc p ≤ pyTrunc q := by
  unfold pyTrunc
  split <;> split
  · exact Int.floor_mono h
  · linarith
  · rename_i h1 h2
    have a : ⌈p⌉ ≤ 0 := Int.ceil_le.2 (by push_cast; linarith)
    have b : 0 ≤ ⌊q⌋ := Int.floor_nonneg.2 h2
    exact a.trans b
  · exact Int.ceil_mono h

theorem trunc_int (n : Int) : pyTrunc (n : ℚ) = n := by
  unfold pyTrunc
  split <;> simp

theorem later_new {name : Option String} {v v' : PyNum} {now : ℚ} {st st' : Stop} (hv : v.val ≤ v'.val)
    (hp : name = some "percent_of_unlabel" → 0 ≤ v.val ∧ v'.val ≤ 1) (h : Stop.new name (some v) now = .ok st)
    (h' : Stop.new name (some v') now = .ok st') : Later st st' := by
  have key : ∀ w : PyNum, Stop.new (some "num_of_queries") (some w) now =
      .ok ⟨.numOfQueries, some (pyTrunc w.val : ℚ), some (pyTrunc w.val : ℚ), now, 0, 0, 100, 0⟩ := by
    intro w
    cases w with
    | int n => simp [Stop.new, Stop.parse, PyNum.val, trunc_int]
    | float q => simp [Stop.new, Stop.parse, PyNum.val]
  unfold Stop.parse at *
  by_cases h1 : name = some "num_of_queries"
  · subst h1
    rw [key] at h h'
    cases h; cases h'
    exact ⟨rfl, Or.inr ⟨rfl, rfl, rfl, rfl, rfl, _, _, rfl, rfl, by exact_mod_cast trunc_mono hv, by simp⟩⟩
  · have gen : ∀ w : PyNum, ∀ s, Stop.new name (some w) now = .ok s →
        ∃ c, Stop.parse name = .ok c ∧ s = ⟨c, some w.val, some w.val, now, 0, 0, 100, 0⟩ := by
      intro w s hs
      unfold Stop.new at hs
      split at hs
      · cases hs
      · rename_i hq
        exfalso
        unfold Stop.parse at hq
        split at hq <;> first | exact h1 rfl | cases hq
      · rename_i c hc hq
        cases hs
        exact ⟨c, hq, rfl⟩
    obtain ⟨c, hc, rfl⟩ := gen v st h
    obtain ⟨c', hc', rfl⟩ := gen v' st' h'
    rw [hc] at hc'
    cases hc'
    refine ⟨rfl, Or.inr ⟨rfl, rfl, rfl, rfl, rfl, _, _, rfl, rfl, hv, ?_⟩⟩
    intro hcp
    simp only at hcp
    subst hcp
    apply hp
    unfold Stop.parse at hc
    split at hc <;> first | rfl | cases hc

theorem later_none {name : Option String} {v v' : Option PyNum} {now now' : ℚ} {st st' : Stop} (h : Stop.new name v now = .ok st)
    (h' : Stop.new none v' now' = .ok st') : Later st st' := by
  have u : ∀ (name : Option String) (v : Option PyNum) (now : ℚ) (st : Stop), Stop.new name v now = .ok st → st.unlabel = 100 := by
    intro name v now st h
    unfold Stop.new at h
    split at h
    · cases h
    · split at h <;> cases h <;> rfl
    · cases h; rfl
  refine ⟨by rw [u _ _ _ _ h, u _ _ _ _ h'], Or.inl ?_⟩
  simp only [Stop.new, Stop.parse] at h'
  cases h'
  rfl

/-! ## The collections -/

theorem addAll_prefix : ∀ (vs : List Val) (c : IC), c.inner <+: (c.addAll vs).1.inner
  | [], c => List.prefix_refl _
  | v :: vs, c => by
    have h1 : c.inner <+: (c.add v).1.inner := by
      rcases IC.add_inner c v with h | ⟨h, _⟩ <;> rw [h]
      exact List.prefix_append _ _
    rw [IC.addAll]
    cases h : c.add v with
    | mk c' e =>
      rw [h] at h1
      cases e with
      | none => exact h1.trans (addAll_prefix vs c')
      | some e => exact h1

theorem eraseFirst_sublist (v : Val) : ∀ l : List Val, (IC.eraseFirst v l).Sublist l
  | [] => by simp [IC.eraseFirst]
  | x :: l => by
    rw [IC.eraseFirst]
    split
    · exact List.sublist_cons_self _ _
    · exact (eraseFirst_sublist v l).cons_cons x

theorem discardAll_sublist : ∀ (vs : List Val) (c : IC), (c.discardAll vs).inner.Sublist c.inner
  | [], c => List.Sublist.refl _
  | v :: vs, c => by
    rw [IC.discardAll]
    refine (discardAll_sublist vs (c.discard v)).trans ?_
    unfold IC.discard
    split
    · exact eraseFirst_sublist v _
    · exact List.Sublist.refl _

theorem addState_st {κ ε σ : Type} (ops : CollOps κ ε σ) (s : StateIO κ σ) (e : State σ) :
    (s.addState ops (.st e)).1.states = s.states ++ [.st e] ∧ (s.addState ops (.st e)).1.initL = s.initL ∧
      (s.addState ops (.st e)).1.initU = s.initU := by
  unfold StateIO.addState
  simp only [Bool.not_true, Bool.false_eq_true, if_false]
  split
  · exact ⟨rfl, rfl, rfl⟩
  · split <;> exact ⟨rfl, rfl, rfl⟩

/-! ## The loop of the experiment -/

/-- The second state of a loop comes later. -/
structure Onward (L L' U U' : IC) (s s' : StateIO IC (List Val)) : Prop where
  states : s.states <+: s'.states
  initL : s'.initL = s.initL
  initU : s'.initU = s.initU
  labelled : L.inner <+: L'.inner
  unlabelled : U'.inner.Sublist U.inner

theorem Onward.refl (L U : IC) (s : StateIO IC (List Val)) : Onward L L U U s s :=
  ⟨List.prefix_refl _, rfl, rfl, List.prefix_refl _, List.Sublist.refl _⟩

theorem Onward.trans {L L' L'' U U' U'' : IC} {s s' s'' : StateIO IC (List Val)} (h : Onward L L' U U' s s') (h' : Onward L' L'' U' U'' s' s'') :
    Onward L L'' U U'' s s'' :=
  ⟨h.states.trans h'.states, h'.initL.trans h.initL, h'.initU.trans h.initU, h.labelled.trans h'.labelled, h'.unlabelled.trans h.unlabelled⟩

theorem Onward.workspace {L L' U U' : IC} {s s' : StateIO IC (List Val)} (h : Onward L L' U U' s s') :
    s'.getWorkspace icOps (some s.states.length) = s.getWorkspace icOps none := by
  obtain ⟨t, ht⟩ := h.states
  unfold StateIO.getWorkspace
  rw [h.initL, h.initU, ← ht]
  simp

theorem body_later {env : LoopEnv} {i : Nat} {s r : LoopState} {t : Stop} (h : Later s.stop t) (hb : loopBody env i s = .ok r) :
    ∃ t', Later r.stop t' ∧ loopBody env i { s with stop := t } = .ok { r with stop := t' } := by
  unfold loopBody at hb ⊢
  simp only at hb ⊢
  cases h1 : env.strat i s.L s.U with
  | error e => rw [h1] at hb; cases hb
  | ok sel =>
    rw [h1] at hb
    simp only at hb ⊢
    cases h2 : s.L.update (.many sel) with
    | mk L' e =>
      rw [h2] at hb
      cases e with
      | some e => cases hb
      | none =>
        simp only at hb ⊢
        cases h3 : s.saver.addState icOps (.st (State.new icOps (.inr sel) (env.perf i) Option.none Option.none)) with
        | mk saver' e =>
          rw [h3] at hb
          cases e with
          | some e => cases hb
          | none =>
            simp only at hb ⊢
            cases h4 : s.stop.update icOps saver' with
            | error e => rw [h4] at hb; cases hb
            | ok st =>
              rw [h4] at hb
              obtain ⟨t', e, ht⟩ := later_update h h4
              cases hb
              rw [e]
              exact ⟨t', ht, rfl⟩

theorem body_onward {env : LoopEnv} {i : Nat} {s r : LoopState} (hb : loopBody env i s = .ok r) :
    Onward s.L r.L s.U r.U s.saver r.saver ∧ r.saver.states.length = s.saver.states.length + 1 := by
  unfold loopBody at hb
  cases h1 : env.strat i s.L s.U with
  | error e => rw [h1] at hb; cases hb
  | ok sel =>
    rw [h1] at hb
    simp only at hb
    cases h2 : s.L.update (.many sel) with
    | mk L' e =>
      rw [h2] at hb
      cases e with
      | some e => cases hb
      | none =>
        simp only at hb
        cases h3 : s.saver.addState icOps (.st (State.new icOps (.inr sel) (env.perf i) Option.none Option.none)) with
        | mk saver' e =>
          have hl := addState_st icOps s.saver (State.new icOps (.inr sel) (env.perf i) Option.none Option.none)
          rw [h3] at hb hl
          cases e with
          | some e => cases hb
          | none =>
            simp only at hb
            cases h4 : s.stop.update icOps saver' with
            | error e => rw [h4] at hb; cases hb
            | ok st =>
              rw [h4] at hb
              cases hb
              have hp := addAll_prefix sel s.L
              have hL : s.L.addAll sel = (L', none) := h2
              rw [hL] at hp
              exact ⟨⟨by simp only at hl ⊢; rw [hl.1]; exact List.prefix_append _ _, hl.2.1, hl.2.2, hp, discardAll_sublist sel s.U⟩, by
                simp only at hl ⊢; rw [hl.1]; simp⟩

theorem loop_onward {env : LoopEnv} : ∀ {fuel i : Nat} {s r : LoopState}, loop env fuel i s = some (.ok r) →
    Onward s.L r.L s.U r.U s.saver r.saver
  | 0, _, _, _, h => by simp [loop] at h
  | fuel + 1, i, s, r, h => by
    rw [loop] at h
    cases h1 : s.stop.isStop (env.clock i) with
    | error e => rw [h1] at h; simp at h
    | ok b =>
      rw [h1] at h
      cases b with
      | true => simp only [Option.some.injEq, Except.ok.injEq] at h; subst h; exact Onward.refl _ _ _
      | false =>
        simp only at h
        cases h2 : loopBody env i s with
        | error e => rw [h2] at h; simp at h
        | ok s' =>
          rw [h2] at h
          exact (body_onward h2).1.trans (loop_onward h)

theorem loop_fuel {env : LoopEnv} : ∀ {fuel i : Nat} {s : LoopState} {x : Except PyErr LoopState} (n : Nat), loop env fuel i s = some x →
    loop env (fuel + n) i s = some x
  | 0, _, _, _, _, h => by simp [loop] at h
  | fuel + 1, i, s, x, n, h => by
    rw [Nat.add_right_comm, loop]
    rw [loop] at h
    split at h
    · exact h
    · exact h
    · rename_i hs
      split at h
      · exact h
      · exact loop_fuel n h

theorem loop_later {env : LoopEnv} : ∀ {fuel i : Nat} {s r : LoopState} {t : Stop}, Later s.stop t → loop env fuel i s = some (.ok r) →
    ∃ n t', Later r.stop t' ∧ r.saver.states.length = s.saver.states.length + n ∧
      ∀ f, loop env (f + n) i { s with stop := t } = loop env f (i + n) { r with stop := t' }
  | 0, _, _, _, _, _, h => by simp [loop] at h
  | fuel + 1, i, s, r, t, hl, h => by
    rw [loop] at h
    cases h1 : s.stop.isStop (env.clock i) with
    | error e => rw [h1] at h; simp at h
    | ok b =>
      rw [h1] at h
      cases b with
      | true =>
        simp only [Option.some.injEq, Except.ok.injEq] at h
        subst h
        exact ⟨0, t, hl, rfl, fun f => rfl⟩
      | false =>
        simp only at h
        cases h2 : loopBody env i s with
        | error e => rw [h2] at h; simp at h
        | ok s' =>
          rw [h2] at h
          obtain ⟨t1, hl1, e1⟩ := body_later hl h2
          obtain ⟨n, t', hl', hlen, hf⟩ := loop_later hl1 h
          have hs' := (body_onward h2).2
          refine ⟨n + 1, t', hl', by omega, fun f => ?_⟩
          rw [← Nat.add_assoc, loop]
          simp only
          rw [later_goes_on hl h1]
          simp only
          rw [e1]
          simp only
          rw [hf f]
          congr 1
          omega

/-! ## C140 -/

/-- **C140**, `AlExperiment`: with a greater value of the stopping criterion, the experiment does what it does with the smaller one and
then goes on from there; the strategy, the performances and the clock being the same. -/
theorem C140_goes_on {env : LoopEnv} {Ldata Udata : List Val} {name : Option String} {v v' : PyNum} {now : ℚ} {st st' : Stop}
    (hv : v.val ≤ v'.val) (hp : name = some "percent_of_unlabel" → 0 ≤ v.val ∧ v'.val ≤ 1) (hst : Stop.new name (some v) now = .ok st)
    (hst' : Stop.new name (some v') now = .ok st') {fuel : Nat} {r : LoopState} (hr : mainLoop env Ldata Udata st fuel = some (.ok r)) :
    ∃ t, ∀ f, mainLoop env Ldata Udata st' (f + r.saver.states.length) = loop env f r.saver.states.length { r with stop := t } := by
  obtain ⟨n, t, _, hlen, hf⟩ := loop_later (t := st') (later_new hv hp hst hst') hr
  have : r.saver.states.length = n := by simpa [StateIO.new] using hlen
  subst this
  refine ⟨t, fun f => ?_⟩
  have := hf f
  rw [Nat.zero_add] at this
  exact this

theorem loop_both {env : LoopEnv} {Ldata Udata : List Val} {st st' : Stop} (h : Later st st') {fuel fuel' : Nat} {r r' : LoopState}
    (hr : mainLoop env Ldata Udata st fuel = some (.ok r)) (hr' : mainLoop env Ldata Udata st' fuel' = some (.ok r')) :
    Onward r.L r'.L r.U r'.U r.saver r'.saver := by
  obtain ⟨n, t, _, _, hf⟩ := loop_later (t := st') h hr
  have := loop_fuel n hr'
  rw [hf fuel'] at this
  exact (loop_onward (s := { r with stop := t }) this :)

/-- **C140**, `AlExperiment`: the queries recorded with the smaller value are the first queries recorded with the greater one, what is
labelled in the end is labelled with the greater value too, and the record of the longer run gives back the sets with which the shorter
one has ended. -/
theorem C140_experiment {env : LoopEnv} {Ldata Udata : List Val} {name : Option String} {v v' : PyNum} {now : ℚ} {st st' : Stop}
    (hv : v.val ≤ v'.val) (hp : name = some "percent_of_unlabel" → 0 ≤ v.val ∧ v'.val ≤ 1) (hst : Stop.new name (some v) now = .ok st)
    (hst' : Stop.new name (some v') now = .ok st') {fuel fuel' : Nat} {r r' : LoopState}
    (hr : mainLoop env Ldata Udata st fuel = some (.ok r)) (hr' : mainLoop env Ldata Udata st' fuel' = some (.ok r')) :
    r.saver.states <+: r'.saver.states ∧ r.L.inner <+: r'.L.inner ∧ r'.U.inner.Sublist r.U.inner ∧
      r'.saver.getWorkspace icOps (some r.saver.states.length) = r.saver.getWorkspace icOps none :=
  have h := loop_both (later_new hv hp hst hst') hr hr'
  ⟨h.states, h.labelled, h.unlabelled, h.workspace⟩

/-- **C140**: and every run is the beginning of the run without a criterion. -/
theorem C140_experiment_without {env : LoopEnv} {Ldata Udata : List Val} {name : Option String} {v v' : Option PyNum} {now now' : ℚ}
    {st st' : Stop} (hst : Stop.new name v now = .ok st) (hst' : Stop.new none v' now' = .ok st') {fuel fuel' : Nat} {r r' : LoopState}
    (hr : mainLoop env Ldata Udata st fuel = some (.ok r)) (hr' : mainLoop env Ldata Udata st' fuel' = some (.ok r')) :
    r.saver.states <+: r'.saver.states ∧ r.L.inner <+: r'.L.inner ∧ r'.U.inner.Sublist r.U.inner ∧
      r'.saver.getWorkspace icOps (some r.saver.states.length) = r.saver.getWorkspace icOps none :=
  have h := loop_both (later_none hst hst') hr hr'
  ⟨h.states, h.labelled, h.unlabelled, h.workspace⟩

/-! ### The loop of a user -/

section Session
variable {ρ χ β : Type} [DecidableEq χ] {ops : RepoOps ρ β} {o : Oracle χ β} {env : SessionEnv ρ}

theorem sbody_later (hblind : ∀ i s t, env.strat i { s with stop := t } = env.strat i s) {i : Nat} {s r : Session ρ} {t : Stop}
    (h : Later s.stop t) (hb : sessionBody ops o env i s = .ok r) :
    ∃ t', Later r.stop t' ∧ sessionBody ops o env i { s with stop := t } = .ok { r with stop := t' } := by
  unfold sessionBody at hb ⊢
  rw [hblind]
  cases h1 : env.strat i s with
  | error e => rw [h1] at hb; cases hb
  | ok sel =>
    rw [h1] at hb
    simp only at hb ⊢
    cases h5 : o.queryByIndex (sel.map Val.key) with
    | error e => rw [h5] at hb; cases hb
    | ok lc =>
      rw [h5] at hb
      simp only at hb ⊢
      cases h6 : ops.update s.repo (sel.map Val.key) lc.1 lc.2 with
      | mk repo' e =>
        rw [h6] at hb
        cases e with
        | some e => cases hb
        | none =>
          simp only at hb ⊢
          cases h2 : s.L.update (.many sel) with
          | mk L' e =>
            rw [h2] at hb
            cases e with
            | some e => cases hb
            | none =>
              simp only at hb ⊢
              cases h3 : s.saver.addState icOps (.st (State.new icOps (.inr sel) (env.perf i) none (some (.arr lc.2)))) with
              | mk saver' e =>
                rw [h3] at hb
                cases e with
                | some e => cases hb
                | none =>
                  simp only at hb ⊢
                  cases h4 : s.stop.update icOps saver' with
                  | error e => rw [h4] at hb; cases hb
                  | ok st =>
                    rw [h4] at hb
                    obtain ⟨t', e, ht⟩ := later_update h h4
                    cases hb
                    rw [e]
                    exact ⟨t', ht, rfl⟩

theorem sbody_onward {i : Nat} {s r : Session ρ} (hb : sessionBody ops o env i s = .ok r) : Onward s.L r.L s.U r.U s.saver r.saver := by
  unfold sessionBody at hb
  cases h1 : env.strat i s with
  | error e => rw [h1] at hb; cases hb
  | ok sel =>
    rw [h1] at hb
    simp only at hb
    cases h5 : o.queryByIndex (sel.map Val.key) with
    | error e => rw [h5] at hb; cases hb
    | ok lc =>
      rw [h5] at hb
      simp only at hb
      cases h6 : ops.update s.repo (sel.map Val.key) lc.1 lc.2 with
      | mk repo' e =>
        rw [h6] at hb
        cases e with
        | some e => cases hb
        | none =>
          simp only at hb
          cases h2 : s.L.update (.many sel) with
          | mk L' e =>
            rw [h2] at hb
            cases e with
            | some e => cases hb
            | none =>
              simp only at hb
              cases h3 : s.saver.addState icOps (.st (State.new icOps (.inr sel) (env.perf i) none (some (.arr lc.2)))) with
              | mk saver' e =>
                have hl := addState_st icOps s.saver (State.new icOps (.inr sel) (env.perf i) none (some (.arr lc.2)))
                rw [h3] at hb hl
                cases e with
                | some e => cases hb
                | none =>
                  simp only at hb
                  cases h4 : s.stop.update icOps saver' with
                  | error e => rw [h4] at hb; cases hb
                  | ok st =>
                    rw [h4] at hb
                    cases hb
                    have hp := addAll_prefix sel s.L
                    have hL : s.L.addAll sel = (L', none) := h2
                    rw [hL] at hp
                    exact ⟨by simp only at hl ⊢; rw [hl.1]; exact List.prefix_append _ _, hl.2.1, hl.2.2, hp, discardAll_sublist sel s.U⟩

theorem session_onward : ∀ {fuel i : Nat} {s r : Session ρ}, session ops o env fuel i s = some (.ok r) →
    Onward s.L r.L s.U r.U s.saver r.saver
  | 0, _, _, _, h => by simp [session] at h
  | fuel + 1, i, s, r, h => by
    rw [session] at h
    cases h1 : s.stop.isStop (env.clock i) with
    | error e => rw [h1] at h; simp at h
    | ok b =>
      rw [h1] at h
      cases b with
      | true => simp only [Option.some.injEq, Except.ok.injEq] at h; subst h; exact Onward.refl _ _ _
      | false =>
        simp only at h
        cases h2 : sessionBody ops o env i s with
        | error e => rw [h2] at h; simp at h
        | ok s' =>
          rw [h2] at h
          exact (sbody_onward h2).trans (session_onward h)

theorem session_fuel : ∀ {fuel i : Nat} {s : Session ρ} {x : Except PyErr (Session ρ)} (n : Nat), session ops o env fuel i s = some x →
    session ops o env (fuel + n) i s = some x
  | 0, _, _, _, _, h => by simp [session] at h
  | fuel + 1, i, s, x, n, h => by
    rw [Nat.add_right_comm, session]
    rw [session] at h
    split at h
    · exact h
    · exact h
    · split at h
      · exact h
      · exact session_fuel n h

theorem session_later (hblind : ∀ i s t, env.strat i { s with stop := t } = env.strat i s) : ∀ {fuel i : Nat} {s r : Session ρ} {t : Stop},
    Later s.stop t → session ops o env fuel i s = some (.ok r) →
    ∃ n t', Later r.stop t' ∧ ∀ f, session ops o env (f + n) i { s with stop := t } = session ops o env f (i + n) { r with stop := t' }
  | 0, _, _, _, _, _, h => by simp [session] at h
  | fuel + 1, i, s, r, t, hl, h => by
    rw [session] at h
    cases h1 : s.stop.isStop (env.clock i) with
    | error e => rw [h1] at h; simp at h
    | ok b =>
      rw [h1] at h
      cases b with
      | true =>
        simp only [Option.some.injEq, Except.ok.injEq] at h
        subst h
        exact ⟨0, t, hl, fun f => rfl⟩
      | false =>
        simp only at h
        cases h2 : sessionBody ops o env i s with
        | error e => rw [h2] at h; simp at h
        | ok s' =>
          rw [h2] at h
          obtain ⟨t1, hl1, e1⟩ := sbody_later hblind hl h2
          obtain ⟨n, t', hl', hf⟩ := session_later hblind hl1 h
          refine ⟨n + 1, t', hl', fun f => ?_⟩
          rw [← Nat.add_assoc, session]
          simp only
          rw [later_goes_on hl h1]
          simp only
          rw [e1]
          simp only
          rw [hf f]
          congr 1
          omega

/-- **C140**, the loop of a user with an oracle, a repository and costs: the same, for every strategy that does not look at the stopping
criterion. -/
theorem C140_session (hblind : ∀ i s t, env.strat i { s with stop := t } = env.strat i s) {Ldata Udata : List Val} {repo : ρ}
    {name : Option String} {v v' : PyNum} {now : ℚ} {st st' : Stop}
    (hv : v.val ≤ v'.val) (hp : name = some "percent_of_unlabel" → 0 ≤ v.val ∧ v'.val ≤ 1) (hst : Stop.new name (some v) now = .ok st)
    (hst' : Stop.new name (some v') now = .ok st') {fuel fuel' : Nat} {r r' : Session ρ}
    (hr : session ops o env fuel 0 (startSession Ldata Udata repo st) = some (.ok r))
    (hr' : session ops o env fuel' 0 (startSession Ldata Udata repo st') = some (.ok r')) :
    r.saver.states <+: r'.saver.states ∧ r.L.inner <+: r'.L.inner ∧ r'.U.inner.Sublist r.U.inner ∧
      r'.saver.getWorkspace icOps (some r.saver.states.length) = r.saver.getWorkspace icOps none := by
  obtain ⟨n, t, _, hf⟩ := session_later hblind (t := st') (later_new hv hp hst hst') hr
  have := session_fuel n hr'
  have e : startSession Ldata Udata repo st' = { startSession Ldata Udata repo st with stop := st' } := rfl
  rw [e, hf fuel'] at this
  have h := session_onward this
  exact ⟨h.states, h.labelled, h.unlabelled, h.workspace⟩

end Session

/-! ### Budgets -/

section Budgets
open Alipy.CostSensitive

theorem random_mono {K : Type} [Field K] [LinearOrder K] {costs : List K} {b b' : K} (hb : b ≤ b') (draw : Nat → Nat) :
    ∀ (fuel fuel' k : Nat) (pool : List (Int × Nat)) (cur : K) (acc r r' : List (Int × Nat)),
    randomLoop costs b draw fuel k pool cur acc = some (.ok r) → randomLoop costs b' draw fuel' k pool cur acc = some (.ok r') → r <+: r'
  | 0, _, _, _, _, _, _, _, h, _ => by simp [randomLoop] at h
  | fuel + 1, 0, _, _, _, _, _, _, _, h => by simp [randomLoop] at h
  | fuel + 1, fuel' + 1, k, [], cur, acc, r, r', h, _ => by simp [randomLoop] at h
  | fuel + 1, fuel' + 1, k, p :: pool, cur, acc, r, r', h, h' => by
    rw [randomLoop] at h h'
    cases hq : (p :: pool)[draw k % (p :: pool).length]? with
    | none => rw [hq] at h; simp at h
    | some q =>
      rw [hq] at h h'
      simp only at h h'
      cases hc : costs[q.2]? with
      | none => rw [hc] at h; simp at h
      | some c =>
        rw [hc] at h h'
        simp only at h h'
        have grow : ∀ (f k : Nat) (pool : List (Int × Nat)) (cur : K) (acc r : List (Int × Nat)),
            randomLoop costs b' draw f k pool cur acc = some (.ok r) → acc <+: r := by
          intro f
          induction f with
          | zero => intro k pool cur acc r h; simp [randomLoop] at h
          | succ f ih =>
            intro k pool cur acc r h
            cases pool with
            | nil => simp [randomLoop] at h
            | cons p pool =>
              rw [randomLoop] at h
              split at h
              · simp at h
              · split at h
                · simp at h
                · split at h
                  · simp only [Option.some.injEq, Except.ok.injEq] at h; subst h; exact List.prefix_refl _
                  · exact (List.prefix_append _ _).trans (ih _ _ _ _ _ h)
        by_cases h1 : b < cur + c
        · rw [if_pos h1] at h
          simp only [Option.some.injEq, Except.ok.injEq] at h
          subst h
          by_cases h2 : b' < cur + c
          · rw [if_pos h2] at h'
            simp only [Option.some.injEq, Except.ok.injEq] at h'
            subst h'
            exact List.prefix_refl _
          · rw [if_neg h2] at h'
            exact (List.prefix_append _ _).trans (grow _ _ _ _ _ _ h')
        · have h2 : ¬ b' < cur + c := fun h2 => h1 (lt_of_le_of_lt hb h2)
          rw [if_neg h1] at h
          rw [if_neg h2] at h'
          exact random_mono hb draw fuel fuel' _ _ _ _ _ _ h h'

/-- **C140**, random selection of pairs within a budget: with the same random numbers, a greater budget only adds pairs. -/
theorem C140_random_budget {K : Type} [Field K] [LinearOrder K] {b b' : K} (hb : b ≤ b') {fuel fuel' nClasses : Nat}
    {u : List (Int × Nat)} {cost : Option (List K)} {draw : Nat → Nat} {r r' : List (Int × Nat)}
    (hr : randomSelect fuel nClasses u cost b draw = some (.ok r)) (hr' : randomSelect fuel' nClasses u cost b' draw = some (.ok r')) :
    r <+: r' := by
  unfold randomSelect at hr hr'
  cases hc : labelCosts nClasses cost with
  | error e => rw [hc] at hr; simp at hr
  | ok c =>
    rw [hc] at hr hr'
    exact random_mono hb draw _ _ _ _ _ _ _ _ hr hr'

/-- **C140**, the knapsack: a greater capacity never gives a smaller value. -/
theorem C140_knapsack {K : Type} [AddCommMonoid K] [LinearOrder K] [IsOrderedAddMonoid K] {vals : List K} {costs : List Int} {cap cap' : Int}
    (hl : vals.length = costs.length) (hc : ∀ c ∈ costs, 0 ≤ c) (hcap : 0 ≤ cap) (hle : cap ≤ cap') :
    ∃ best best' f f', knapsack vals costs cap = .ok (best, f) ∧ knapsack vals costs cap' = .ok (best', f') ∧ best ≤ best' := by
  obtain ⟨best, f, e, hf, h1, h2, _⟩ := C44_optimal hl hc hcap
  obtain ⟨best', f', e', _, _, _, h3⟩ := C44_optimal hl hc (hcap.trans hle)
  exact ⟨best, best', f, f', e, e', h2 ▸ h3 f hf (h1.trans hle)⟩

/-- **C140**, `QueryCostSensitivePerformance`: with costs of at least one, a greater budget never selects pairs of less value. -/
theorem C140_performance {K : Type} [Field K] [LinearOrder K] [IsStrictOrderedRing K] {n c b b' : Nat} (unlab : Nat → Nat → Bool)
    (dv : Nat → Nat → K) {order : Nat → List Nat}
    (hord : ∀ j < c, Spec.Sorts n (fun i => perfInfo unlab dv i j) (order j)) {cost : Option (List Int)} {costs : List Int}
    (hcost : Spec.CostsOf c cost costs) (hc : ∀ x ∈ costs, 1 ≤ x) (hn : c ≤ n) (hb : c ≤ b) (hbb : b ≤ b') :
    ∃ sel sel', costSelect c (perfInfo unlab dv) order cost b = .ok sel ∧ costSelect c (perfInfo unlab dv) order cost b' = .ok sel' ∧
      (sel.map (fun p => |1 / dv p.1 p.2|)).sum ≤ (sel'.map (fun p => |1 / dv p.1 p.2|)).sum := by
  have hc0 : ∀ x ∈ costs, 0 ≤ x := fun x hx => le_trans (by decide) (hc x hx)
  obtain ⟨sel, h1, h2, h3, h4, _⟩ := C71_performance_partial (budget := b) unlab dv hord hcost hc0 hn hb
  rcases hbb.eq_or_lt with rfl | hlt
  · exact ⟨sel, sel, h1, h1, le_refl _⟩
  obtain ⟨sel', g1, _, _, _, g5⟩ := C71_performance_partial (budget := b') unlab dv hord hcost hc0 hn (hb.trans hbb)
  refine ⟨sel, sel', h1, g1, ?_⟩
  have hs : ∀ f : Nat × Nat → K, ∑ p ∈ sel.toFinset, f p = (sel.map f).sum := fun f => List.sum_toFinset f h2
  have hs' : ∑ p ∈ sel.toFinset, costs.getD p.2 0 = (sel.map (fun p => costs.getD p.2 0)).sum := List.sum_toFinset _ h2
  rw [← hs]
  have hlen : costs.length = c := by
    rcases hcost with ⟨_, rfl⟩ | ⟨_, h⟩
    · simp
    · exact h
  have hcard : ((sel.toFinset.card : Nat) : Int) ≤ b := by
    refine le_trans ?_ h4
    rw [← hs']
    have := Finset.card_nsmul_le_sum sel.toFinset (fun p => costs.getD p.2 0) 1 fun p hp => ?_
    · simpa using this
    have hlt : p.2 < costs.length := by rw [hlen]; exact (h3 p (List.mem_toFinset.1 hp)).2.1
    rw [List.getD_eq_getElem _ _ hlt]
    exact hc _ (List.getElem_mem hlt)
  refine g5 sel.toFinset (fun p hp => h3 p (List.mem_toFinset.1 hp)) ?_ ?_
  · rw [hs']; exact h4.trans (by exact_mod_cast hbb)
  · intro j _
    have := Finset.card_filter_le sel.toFinset (fun p => p.2 = j)
    have : sel.toFinset.card ≤ b := by exact_mod_cast hcard
    omega

end Budgets

/-- **C140**, `QueryNoisyOraclesIEthresh`: with a smaller `epsilon`, the oracles which were asked are asked, and in the same order
among others; the greatest upper confidence limit not being negative. -/
theorem C140_threshold {K : Type} [Field K] [LinearOrder K] [IsStrictOrderedRing K] {eps eps' : K} (he : eps' ≤ eps) {ui : List (Option K)}
    (hm : ∀ m, Noisy.npMax ui = some m → 0 ≤ m) : (Noisy.chosen eps ui).Sublist (Noisy.chosen eps' ui) := by
  unfold Noisy.chosen
  refine List.monotone_filter_right _ fun i => ?_
  cases h1 : Noisy.npMax ui with
  | none => cases ui.getD i none <;> simp [Noisy.npGe]
  | some m =>
    cases ui.getD i none with
    | none => simp [Noisy.npGe]
    | some a =>
      simp only [Noisy.npGe, Option.map_some, decide_eq_true_eq]
      exact fun h => (mul_le_mul_of_nonneg_right he (hm m h1)).trans h


/-! ### Cases -/

/-- One query of two, and two queries of two. -/
example : ∃ st st', Stop.new (some "num_of_queries") (some (.int (1 : Nat))) 0 = .ok st ∧
    Stop.new (some "num_of_queries") (some (.int (2 : Nat))) 0 = .ok st' ∧
    ((mainLoop firstTwo (idx true [0, 1]) (idx true [2, 3, 4, 5, 6]) st 6).bind
      (fun r => r.toOption.map (fun r => (r.saver.states.length, r.L.keys, r.U.keys)))) =
      some (1, [.num 0, .num 1, .num 2, .num 3], [.num 4, .num 5, .num 6]) ∧
    ((mainLoop firstTwo (idx true [0, 1]) (idx true [2, 3, 4, 5, 6]) st' 6).bind
      (fun r => r.toOption.map (fun r => (r.saver.states.length, r.L.keys, r.U.keys)))) =
      some (2, [.num 0, .num 1, .num 2, .num 3, .num 4, .num 5], [.num 6]) :=
  ⟨_, _, rfl, rfl, by rfl, by rfl⟩

/-- A strategy that does not look at the criterion. -/
example (ρ : Type) (i : Nat) (s : Session ρ) (t : Stop) : (takeTwo ρ).strat i { s with stop := t } = (takeTwo ρ).strat i s := rfl

/-- Drawing with a budget of 3 and of 5. -/
example : (CostSensitive.randomSelect (K := ℚ) 10 2 [(0, 0), (0, 1), (1, 0), (1, 1)] (some [1, 2]) 3 (fun _ => 0)).bind (·.toOption) =
      some [(0, 0), (0, 1)] ∧
    (CostSensitive.randomSelect (K := ℚ) 10 2 [(0, 0), (0, 1), (1, 0), (1, 1)] (some [1, 2]) 5 (fun _ => 0)).bind (·.toOption) =
      some [(0, 0), (0, 1), (1, 0)] := by
  constructor <;> decide +kernel

/-- A threshold of nine tenths and one of a half. -/
example : Noisy.chosen (9 / 10 : ℚ) [some (1 / 2), some 1, some (19 / 20)] = [1, 2] ∧
    Noisy.chosen (1 / 2 : ℚ) [some (1 / 2), some 1, some (19 / 20)] = [0, 1, 2] := by
  constructor <;> decide +kernel

end Alipy.Limits
