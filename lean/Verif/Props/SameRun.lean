import Verif.Spec.SameRun
import Verif.Spec.Experiment
import Verif.Props.Session
import Verif.Props.Experiment
/-!
# C158: the same experiment can be written in several ways
-/
namespace Alipy.SameRun
open Alipy Alipy.Spec

variable {ρ ρ' χ β : Type} [DecidableEq χ]

theorem add_plain (sv : StateIO IC (List Val)) (sel : List Val) (p : Obj (List Val)) :
    sv.addState icOps (.st (State.new icOps (.inr sel) p none none)) =
      ({ sv with states := sv.states ++ [.st (State.new icOps (.inr sel) p none none)], cost := sv.cost + 0, numq := sv.numq + sel.length }, none) := rfl

theorem add_cost (sv : StateIO IC (List Val)) (sel : List Val) (p : Obj (List Val)) (cs : List ℚ) :
    sv.addState icOps (.st (State.new icOps (.inr sel) p none (some (.arr cs)))) =
      ({ sv with states := sv.states ++ [.st (State.new icOps (.inr sel) p none (some (.arr cs)))], cost := sv.cost + cs.sum, numq := sv.numq + sel.length }, none) := rfl

theorem same_query (sel : List Val) (p : Obj (List Val)) (cs : List ℚ) :
    SameRecord (.st (State.new icOps (.inr sel) p none none)) (.st (State.new icOps (.inr sel) p none (some (.arr cs)))) := ⟨rfl, rfl⟩

theorem replay_same {es es' : List (Entry (List Val))} (h : List.Forall₂ SameRecord es es') : ∀ L U : IC,
    StateIO.replay icOps es L U = StateIO.replay icOps es' L U := by
  induction h with
  | nil => intros; rfl
  | cons h1 _ ih =>
    intro L U
    simp only [StateIO.replay, h1.select]
    simp only [ih]

theorem workspace_same {a b : StateIO IC (List Val)} (hL : a.initL = b.initL) (hU : a.initU = b.initU) (h : List.Forall₂ SameRecord a.states b.states) (k : Option Int) :
    StateIO.getWorkspace icOps a k = StateIO.getWorkspace icOps b k := by
  have hl := h.length_eq
  unfold StateIO.getWorkspace
  rw [hl, hL, hU]
  simp only
  split
  · exact replay_same (List.forall₂_take _ h) _ _
  · rfl

theorem update_same {a b : StateIO IC (List Val)} (hL : a.initL = b.initL) (hU : a.initU = b.initU) (h : List.Forall₂ SameRecord a.states b.states) {st : Stop}
    (hc : st.crit ≠ .costLimit) : st.update icOps a = st.update icOps b := by
  unfold Stop.update
  rw [workspace_same hL hU h, workspace_same hL hU h, h.length_eq]
  cases hcr : st.crit <;> simp_all

theorem crit_kept {a : StateIO IC (List Val)} {st st' : Stop} (h : st.update icOps a = .ok st') : st'.crit = st.crit := by
  unfold Stop.update at h
  split at h
  · cases h
  · cases h
  · simp only at h
    split at h
    · cases h; rfl
    · cases h; rfl
    · split at h
      · cases h
      · cases h; rfl
    · cases h; rfl

/-- One iteration of a session that does not raise, taken apart. -/
theorem body_ok {ops : RepoOps ρ β} {o : Oracle χ β} {env : SessionEnv ρ} {i : Nat} {s s' : Session ρ} (h : sessionBody ops o env i s = .ok s') :
    ∃ sel cs, env.strat i s = .ok sel ∧ s.L.update (.many sel) = (s'.L, none) ∧ s'.U = s.U.differenceUpdate (.many sel) ∧
      s.saver.addState icOps (.st (State.new icOps (.inr sel) (env.perf i) none (some (.arr cs)))) = (s'.saver, none) ∧ s.stop.update icOps s'.saver = .ok s'.stop := by
  unfold sessionBody at h
  split at h
  · cases h
  · rename_i sel hsel
    split at h
    · cases h
    · rename_i labels costs _
      split at h
      · cases h
      · split at h
        · cases h
        · rename_i L' hL
          simp only at h
          split at h
          · cases h
          · rename_i sv hsv
            split at h
            · cases h
            · rename_i st hst
              cases h
              exact ⟨sel, costs, hsel, hL, rfl, hsv, hst⟩

/-- One iteration of both. -/
theorem step_same {l : LoopState} {s s' : Session ρ} (h : SamePlace l s) (hc : l.stop.crit ≠ .costLimit) {sel : List Val} {cs : List ℚ} {p : Obj (List Val)}
    (hL : s.L.update (.many sel) = (s'.L, none)) (hU : s'.U = s.U.differenceUpdate (.many sel))
    (hsv : s.saver.addState icOps (.st (State.new icOps (.inr sel) p none (some (.arr cs)))) = (s'.saver, none)) (hst : s.stop.update icOps s'.saver = .ok s'.stop) :
    ∃ sv, l.L.update (.many sel) = (s'.L, none) ∧ l.saver.addState icOps (.st (State.new icOps (.inr sel) p none none)) = (sv, none) ∧
      l.stop.update icOps sv = .ok s'.stop ∧ SamePlace ⟨s'.L, l.U.differenceUpdate (.many sel), sv, s'.stop⟩ s' := by
  rw [add_cost] at hsv
  injection hsv with hsv _
  have hq : List.Forall₂ SameRecord (l.saver.states ++ [.st (State.new icOps (.inr sel) p none none)]) s'.saver.states := by
    rw [← hsv]
    exact List.rel_append h.queries (.cons (same_query _ _ _) .nil)
  have h1 : l.saver.initL = s'.saver.initL := by rw [← hsv]; exact h.start.1
  have h2 : l.saver.initU = s'.saver.initU := by rw [← hsv]; exact h.start.2
  refine ⟨_, by rw [h.labelled]; exact hL, add_plain _ _ _, ?_, ⟨rfl, by rw [hU, h.unlabelled], rfl, ⟨h1, h2⟩, ?_, hq⟩⟩
  · rw [← hst, h.stop]
    exact update_same (a := { l.saver with states := l.saver.states ++ [.st (State.new icOps (.inr sel) p none none)], cost := l.saver.cost + 0, numq := l.saver.numq + sel.length }) h1 h2 hq (h.stop ▸ hc)
  · rw [← hsv]
    exact congrArg (· + sel.length) h.count

theorem loop_same {ops : RepoOps ρ β} {o : Oracle χ β} {env : SessionEnv ρ} {lenv : LoopEnv} (hs : ∀ i s, env.strat i s = lenv.strat i s.L s.U) (hp : env.perf = lenv.perf)
    (hcl : env.clock = lenv.clock) : ∀ (fuel i : Nat) (s : Session ρ) (l : LoopState), SamePlace l s → l.stop.crit ≠ .costLimit → ∀ r, session ops o env fuel i s = some (.ok r) →
      ∃ q, loop lenv fuel i l = some (.ok q) ∧ SamePlace q r := by
  intro fuel
  induction fuel with
  | zero => intro i s l _ _ r hr; cases hr
  | succ fuel ih =>
    intro i s l h hc r hr
    simp only [session] at hr
    simp only [loop]
    rw [h.stop, ← hcl]
    cases hst : s.stop.isStop (env.clock i) with
    | error e => rw [hst] at hr; cases hr
    | ok b =>
      rw [hst] at hr
      cases b with
      | true =>
        simp only at hr ⊢
        cases hr
        exact ⟨l, rfl, h⟩
      | false =>
        simp only at hr ⊢
        split at hr
        · cases hr
        · rename_i s' hb
          obtain ⟨sel, cs, b1, b2, b3, b4, b5⟩ := body_ok hb
          obtain ⟨sv, c1, c2, c3, c4⟩ := step_same h hc b2 b3 b4 b5
          have hbody : loopBody lenv i l = .ok ⟨s'.L, l.U.differenceUpdate (.many sel), sv, s'.stop⟩ := by
            unfold loopBody
            rw [← congrFun hp i, h.labelled, h.unlabelled, ← hs i s, b1]
            simp only
            rw [← h.labelled, c1]
            simp only
            rw [c2]
            simp only
            rw [c3]
          rw [hbody]
          refine ih (i + 1) s' _ c4 ?_ r hr
          have := crit_kept c3
          exact this ▸ hc

/-- **C158**: a script that asks an oracle, keeps a repository and records costs makes the run which the built-in experiment makes with the same strategy, performances and clock, whatever
the oracle and the repository are: if the script ends without raising then so does the experiment, with the same sets and the same record. Not with `cost_limit`, because the experiment
records no costs (C24). -/
theorem C158_experiment_or_script {ops : RepoOps ρ β} {o : Oracle χ β} {env : SessionEnv ρ} {lenv : LoopEnv} (hs : ∀ i s, env.strat i s = lenv.strat i s.L s.U)
    (hp : env.perf = lenv.perf) (hcl : env.clock = lenv.clock) {stop : Stop} (hc : stop.crit ≠ .costLimit) (Ldata Udata : List Val) {repo : ρ} {fuel : Nat} {r : Session ρ}
    (hr : session ops o env fuel 0 (startSession Ldata Udata repo stop) = some (.ok r)) :
    ∃ q, mainLoop lenv Ldata Udata stop fuel = some (.ok q) ∧ SamePlace q r :=
  loop_same hs hp hcl fuel 0 _ _ ⟨rfl, rfl, rfl, ⟨rfl, rfl⟩, rfl, .nil⟩ hc r hr

/-- **C158**: under the conditions of C80 both do end, and do so in the same way. -/
theorem C158_both_end {y : List β} {ex : Option (List χ)} {cost : Option (List ℚ)} {ty : β → Nat} {o : Oracle χ β}
    (hnew : Oracle.new ty y ex none cost = .ok o) {lenv : LoopEnv} {env : SessionEnv (ERepo Key β Unit)} (hs : ∀ i s, env.strat i s = lenv.strat i s.L s.U)
    (hp : env.perf = lenv.perf) (hcl : env.clock = lenv.clock) (hst : GoodChoice env.strat) (a b : Bool)
    (ls us : List Nat) (hls : ls ≠ []) (hus : us ≠ []) (hnd : ls.Nodup) (hr : ∀ n ∈ us, n < y.length) (hdis : ∀ n ∈ ls, n ∉ us)
    (bs : List β) (hbs : ls.map (fun n => y[n]?) = bs.map some) (repo : ERepo Key β Unit)
    (hrepo : ERepo.new bs (ls.map (fun n : Nat => Key.num n)) none = .ok repo)
    (name : Option String) (value : Option PyNum) (now : ℚ) (stop : Stop) (hstop : Stop.new name value now = .ok stop) (hc : stop.crit ≠ .costLimit) (v : ℚ)
    (hv : stop.crit ≠ .none → stop.value = some v) (hpc : stop.crit = .percentOfUnlabel → 0 ≤ v ∧ v ≤ 1) :
    ∃ r q, ∀ fuel, us.length < fuel →
        session elementOps o env fuel 0 (startSession (ls.map (item a)) (us.map (item b)) repo stop) = some (.ok r) ∧
        mainLoop lenv (ls.map (item a)) (us.map (item b)) stop fuel = some (.ok q) ∧ SamePlace q r := by
  obtain ⟨r, qs, h, _⟩ := C80_element_repository hnew env hst a b ls us hls hus hnd hr hdis bs hbs repo hrepo name value now stop hstop v hv hpc
  obtain ⟨q, hq, hsame⟩ := C158_experiment_or_script hs hp hcl hc (ls.map (item a)) (us.map (item b)) (h (us.length + 1) (by omega))
  refine ⟨r, q, fun fuel hf => ?_⟩
  obtain ⟨q', hq', _⟩ := C158_experiment_or_script hs hp hcl hc (ls.map (item a)) (us.map (item b)) (h fuel hf)
  have : q' = q := by
    unfold mainLoop at hq hq'
    have e := loop_mono (us.length + 1) 0 _ _ (fuel - (us.length + 1)) hq
    rw [show us.length + 1 + (fuel - (us.length + 1)) = fuel by omega, hq'] at e
    injection e with e; injection e
  exact ⟨h fuel hf, this ▸ hq', hsame⟩

/-- **C158**: which kind of repository a script keeps makes no difference to its run: two scripts with the same oracle and the same strategy (which does not look into the repository)
end with the same sets, the same record and costs, and the same stopping criterion, if they end without raising. -/
theorem C158_any_repository {ops : RepoOps ρ β} {ops' : RepoOps ρ' β} {o : Oracle χ β} {env : SessionEnv ρ} {env' : SessionEnv ρ'} {strat : Nat → IC → IC → Except PyErr (List Val)}
    (hs : ∀ i s, env.strat i s = strat i s.L s.U) (hs' : ∀ i s, env'.strat i s = strat i s.L s.U) (hp : env.perf = env'.perf) (hcl : env.clock = env'.clock) :
    ∀ (fuel i : Nat) {s : Session ρ} {s' : Session ρ'} {r : Session ρ} {r' : Session ρ'},
      s.L = s'.L ∧ s.U = s'.U ∧ s.saver = s'.saver ∧ s.stop = s'.stop → session ops o env fuel i s = some (.ok r) → session ops' o env' fuel i s' = some (.ok r') →
      r.L = r'.L ∧ r.U = r'.U ∧ r.saver = r'.saver ∧ r.stop = r'.stop := by
  intro fuel
  induction fuel with
  | zero => intro i s s' r r' _ hr; cases hr
  | succ fuel ih =>
    rintro i ⟨L, U, p, sv, st⟩ ⟨L', U', p', sv', st'⟩ r r' ⟨e1, e2, e3, e4⟩ hr hr'
    dsimp only at e1 e2 e3 e4
    subst e1 e2 e3 e4
    simp only [session] at hr hr'
    rw [← hcl] at hr'
    cases hstop : st.isStop (env.clock i) with
    | error e => rw [hstop] at hr; cases hr
    | ok b =>
      rw [hstop] at hr hr'
      cases b with
      | true =>
        simp only at hr hr'
        cases hr; cases hr'
        exact ⟨rfl, rfl, rfl, rfl⟩
      | false =>
        simp only at hr hr'
        split at hr
        · cases hr
        · rename_i t hb
          split at hr'
          · cases hr'
          · rename_i t' hb'
            refine ih (i + 1) ?_ hr hr'
            unfold sessionBody at hb hb'
            simp only [hs, hs', ← hp] at hb hb'
            cases h1 : strat i L U with
            | error e => rw [h1] at hb; cases hb
            | ok sel =>
              rw [h1] at hb hb'
              simp only at hb hb'
              cases h2 : o.queryByIndex (sel.map Val.key) with
              | error e => rw [h2] at hb; cases hb
              | ok a =>
                rw [h2] at hb hb'
                obtain ⟨labels, costs⟩ := a
                simp only at hb hb'
                split at hb
                · cases hb
                · split at hb'
                  · cases hb'
                  · cases h3 : L.update (.many sel) with
                    | mk L1 e =>
                      rw [h3] at hb hb'
                      cases e with
                      | some e => cases hb
                      | none =>
                        simp only at hb hb'
                        rw [add_cost] at hb hb'
                        simp only at hb hb'
                        split at hb
                        · cases hb
                        · rename_i st1 h4
                          rw [h4] at hb'
                          cases hb; cases hb'
                          exact ⟨rfl, rfl, rfl, rfl⟩

/-! ## Rounds of an experiment -/

section
open Exper
variable {μ : Type}

/-- The query of iteration `i` has the performance `p`. -/
abbrev PerfAt (l : LoopState) (i : Nat) (p : Obj (List Val)) : Prop := ∃ e, l.saver.states[i]? = some e ∧ StateIO.entryGet e "performance" = .ok p

theorem own_states {env : Env μ} {k : Nat} {s₀ : LoopState} {i : Nat} {m : μ} {l : LoopState} (h : OwnRun env k s₀ i m l) (h0 : s₀.saver.states = []) : l.saver.states.length = i := by
  induction h with
  | start _ => rw [h0]; rfl
  | next _ _ _ _ _ hsv _ ih =>
    rw [add_plain] at hsv
    injection hsv with hsv _
    rw [← hsv]
    simp [ih]

theorem own_model {env : Env μ} {k : Nat} {s₀ : LoopState} {i : Nat} {m : μ} {l : LoopState} (h : OwnRun env k s₀ i m l) : env.train l.L.inner = .ok m := by
  cases h with
  | start h => exact h
  | next _ _ _ _ h _ _ => exact h

theorem own_crit {env : Env μ} {k : Nat} {s₀ : LoopState} {i : Nat} {m : μ} {l : LoopState} (h : OwnRun env k s₀ i m l) : l.stop.crit = s₀.stop.crit := by
  induction h with
  | start _ => rfl
  | next _ _ _ _ _ _ hst ih => rw [← ih]; exact crit_kept hst

/-- A round and a script that trains its model with the current labelled set before it selects: as long as the script does not raise, both are in the same state after every iteration. -/
theorem own_same {env : Env μ} {k : Nat} {Ldata Udata : List Val} {stop : Stop} (hc : stop.crit ≠ .costLimit) {ops : RepoOps ρ β} {o : Oracle χ β} {senv : SessionEnv ρ}
    (hs : ∀ i s m, env.train s.L.inner = .ok m → senv.strat i s = env.strat k i m s.L s.U) (hcl : ∀ i, senv.clock i = env.clock k i) {repo : ρ} {fuel : Nat} {r : Session ρ}
    (hr : session ops o senv fuel 0 (startSession Ldata Udata repo stop) = some (.ok r)) {i : Nat} {m : μ} {l : LoopState}
    (h : OwnRun env k ⟨IC.mk' Ldata, IC.mk' Udata, StateIO.new (IC.mk' Ldata) (IC.mk' Udata), stop⟩ i m l) (hp : ∀ (j : Nat) p, PerfAt l j p → p = senv.perf j) :
    ∃ s fuel', SamePlace l s ∧ session ops o senv fuel' i s = some (.ok r) := by
  induction h with
  | start _ => exact ⟨_, fuel, ⟨rfl, rfl, rfl, ⟨rfl, rfl⟩, rfl, .nil⟩, hr⟩
  | @next i m l sel L' sv st m' hrun hstop hsel hL htrain hsv hst ih =>
    have hsv' := hsv
    rw [add_plain] at hsv'
    injection hsv' with hsv' _
    have hlen := own_states hrun rfl
    have hpre : ∀ (j : Nat) p, PerfAt l j p → p = senv.perf j := by
      rintro j p ⟨e, he, hp'⟩
      refine hp j p ⟨e, ?_, hp'⟩
      rw [← hsv']
      exact List.getElem?_append_left (by
        by_contra hn
        rw [List.getElem?_eq_none (by omega)] at he
        cases he) |>.trans he
    obtain ⟨s, fuel', hsame, hsess⟩ := ih hpre
    cases fuel' with
    | zero => cases hsess
    | succ fuel' =>
      simp only [session] at hsess
      rw [← hsame.stop, hcl, hstop] at hsess
      simp only at hsess
      split at hsess
      · cases hsess
      · rename_i s' hb
        obtain ⟨sel', cs, b1, b2, b3, b4, b5⟩ := body_ok hb
        rw [hs i s m (by rw [← hsame.labelled]; exact own_model hrun), ← hsame.labelled, ← hsame.unlabelled, hsel] at b1
        injection b1 with b1
        subst b1
        have hperf : env.perf k m' = senv.perf i := hp i _ ⟨.st (State.new icOps (.inr sel) (env.perf k m') none none), by
          rw [← hsv', ← hlen]
          simp, rfl⟩
        rw [← hperf] at b4
        obtain ⟨sv2, c1, c2, c3, c4⟩ := step_same hsame (by rw [own_crit hrun]; exact hc) b2 b3 b4 b5
        rw [hL] at c1
        rw [hsv] at c2
        injection c1 with c1 _
        injection c2 with c2 _
        subst c1 c2
        rw [hst] at c3
        injection c3 with c3
        subst c3
        exact ⟨s', fuel', c4, hsess⟩

/-- **C158**: a round of an `AlExperiment` that has the result it should have (C91: with `multi_thread=False` or one thread every round that does not raise) has made the run that a script
makes which trains its own model with the labelled set, asks an oracle, keeps a repository and records costs. -/
theorem C158_round {env : Env μ} {k : Nat} {Ldata Udata : List Val} {stop : Stop} (hc : stop.crit ≠ .costLimit) {round : Round}
    (h : OwnResult env k ⟨IC.mk' Ldata, IC.mk' Udata, StateIO.new (IC.mk' Ldata) (IC.mk' Udata), stop⟩ round) {ops : RepoOps ρ β} {o : Oracle χ β} {senv : SessionEnv ρ}
    (hs : ∀ i s m, env.train s.L.inner = .ok m → senv.strat i s = env.strat k i m s.L s.U) (hcl : ∀ i, senv.clock i = env.clock k i)
    (hp : ∀ (j : Nat) p, PerfAt round.s j p → p = senv.perf j) {repo : ρ} {fuel : Nat} {r : Session ρ}
    (hr : session ops o senv fuel 0 (startSession Ldata Udata repo stop) = some (.ok r)) : SamePlace round.s r := by
  obtain ⟨_, m, hrun, hstop⟩ := h
  obtain ⟨s, fuel', hsame, hsess⟩ := own_same hc hs hcl hr hrun hp
  cases fuel' with
  | zero => cases hsess
  | succ fuel' =>
    simp only [session] at hsess
    rw [← hsame.stop, hcl, hstop] at hsess
    simp only at hsess
    cases hsess
    exact hsame

end

/-! ## Example -/

/-- Five examples, the first one labelled, two examples per query, two queries: the script and the experiment end in the same way. -/
example (o : Oracle Unit String) (ho : Oracle.new (fun _ => 0) ["a", "b", "c", "d", "e"] none none (some [1, 2, 3, 4, 5]) = .ok o) (repo : ERepo Key String Unit)
    (hrepo : ERepo.new ["a"] ([0].map (fun n : Nat => Key.num n)) none = .ok repo) (stop : Stop) (hstop : Stop.new (some "num_of_queries") (some (.int 2)) 0 = .ok stop) :
    ∃ r q, ∀ fuel, 4 < fuel →
      session elementOps o (takeTwo _) fuel 0 (startSession ([0].map (item true)) ([1, 2, 3, 4].map (item true)) repo stop) = some (.ok r) ∧
      mainLoop ⟨fun _ _ U => .ok (U.inner.take 2), fun _ => .other 0, fun i => i⟩ ([0].map (item true)) ([1, 2, 3, 4].map (item true)) stop fuel = some (.ok q) ∧ SamePlace q r := by
  have hs : stop.crit = .numOfQueries ∧ stop.value = some 2 := by
    injection hstop with hstop
    subst hstop
    exact ⟨rfl, rfl⟩
  have hgood : GoodChoice (takeTwo (ERepo Key String Unit)).strat := by
    intro i s hne hnd
    refine ⟨s.U.inner.take 2, rfl, ?_, fun w hw => List.mem_map_of_mem (List.mem_of_mem_take hw), hnd.sublist ((List.take_sublist 2 _).map _)⟩
    cases hu : s.U.inner with
    | nil => exact absurd hu hne
    | cons x l => simp
  exact C158_both_end ho (fun _ _ => rfl) rfl rfl hgood true true [0] [1, 2, 3, 4] (by decide) (by decide) (by decide) (by decide) (by decide) ["a"] rfl repo hrepo
    _ _ 0 stop hstop (by rw [hs.1]; decide) 2 (fun _ => hs.2) (by rw [hs.1]; intro h; cases h)

end Alipy.SameRun
