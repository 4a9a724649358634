import Verif.Spec.Experiment
import Verif.Props.MainLoop
import Verif.Props.Threads

namespace Alipy.Exper
open Alipy Spec

set_option linter.unusedSectionVars false
set_option linter.unusedSimpArgs false

variable {μ : Type} {env : Env μ} {k : Nat} {s₀ : LoopState}

/-! ## Rounds with their own model -/

theorem ownRun_unique {i : Nat} {m m' : μ} {s s' : LoopState} (h : OwnRun env k s₀ i m s) (h' : OwnRun env k s₀ i m' s') : m = m' ∧ s = s' := by
  induction h generalizing m' s' with
  | start ht =>
    cases h' with
    | start ht' => rw [ht] at ht'; injection ht' with e; exact ⟨e, rfl⟩
  | next h0 _ hs hu ht ha hp ih =>
    cases h' with
    | next h0' _ hs' hu' ht' ha' hp' =>
      obtain ⟨rfl, rfl⟩ := ih h0'
      rw [hs] at hs'; injection hs' with e; subst e
      rw [hu] at hu'; injection hu' with e; subst e
      rw [ht] at ht'; injection ht' with e; subst e
      rw [ha] at ha'; injection ha' with e; subst e
      rw [hp] at hp'; injection hp' with e; subst e
      exact ⟨rfl, rfl⟩

theorem ownRun_le {i j : Nat} {m : μ} {s : LoopState} (h : OwnRun env k s₀ j m s) (hij : i < j) :
    ∃ m' s', OwnRun env k s₀ i m' s' ∧ s'.stop.isStop (env.clock k i) = .ok false := by
  induction h with
  | start => omega
  | @next i' m1 s1 _ _ _ _ _ h0 hf _ _ _ _ _ ih =>
    by_cases e : i = i'
    · subst e; exact ⟨_, _, h0, hf⟩
    · exact ih (by omega)

/-- What is known of a round that has the model for itself. -/
inductive Good (env : Env μ) (k : Nat) (s₀ : LoopState) : Option μ → Round → Prop
  | fit0 (m sel) : Good env k s₀ m ⟨.fit, 0, s₀, sel, none, none⟩
  | pred0 {m'} (sel) : env.train s₀.L.inner = .ok m' → Good env k s₀ (some m') ⟨.pred, 0, s₀, sel, none, none⟩
  | check {m₀ m' i s} (sel) : env.train s₀.L.inner = .ok m₀ → OwnRun env k s₀ i m' s → Good env k s₀ (some m') ⟨.check, i, s, sel, some (env.perf k m₀), none⟩
  | select {m₀ m' i s} (sel) : env.train s₀.L.inner = .ok m₀ → OwnRun env k s₀ i m' s → s.stop.isStop (env.clock k i) = .ok false →
      Good env k s₀ (some m') ⟨.select, i, s, sel, some (env.perf k m₀), none⟩
  | fit {m₀ m' i s sel L'} (m) : env.train s₀.L.inner = .ok m₀ → OwnRun env k s₀ i m' s → s.stop.isStop (env.clock k i) = .ok false →
      env.strat k i m' s.L s.U = .ok sel → s.L.update (.many sel) = (L', none) →
      Good env k s₀ m ⟨.fit, i, { s with L := L', U := s.U.differenceUpdate (.many sel) }, sel, some (env.perf k m₀), none⟩
  | pred {m₀ m' m'' i s sel L'} : env.train s₀.L.inner = .ok m₀ → OwnRun env k s₀ i m' s → s.stop.isStop (env.clock k i) = .ok false →
      env.strat k i m' s.L s.U = .ok sel → s.L.update (.many sel) = (L', none) → env.train L'.inner = .ok m'' →
      Good env k s₀ (some m'') ⟨.pred, i, { s with L := L', U := s.U.differenceUpdate (.many sel) }, sel, some (env.perf k m₀), none⟩
  | ended {m₀ m' i s} (m sel) : env.train s₀.L.inner = .ok m₀ → OwnRun env k s₀ i m' s → s.stop.isStop (env.clock k i) = .ok true →
      Good env k s₀ m ⟨.ended, i, s, sel, some (env.perf k m₀), none⟩
  | failed (m r e) : r.pc = .ended → r.err = some e → Good env k s₀ m r

theorem good_step {m : Option μ} {r : Round} (h : Good env k s₀ m r) : Good env k s₀ (step env k m r).1 (step env k m r).2 := by
  cases h with
  | fit0 =>
    simp only [step]
    split
    · exact .failed _ _ _ rfl rfl
    · rename_i h; exact .pred0 _ h
  | pred0 _ ht =>
    simp only [step]
    exact .check _ ht (.start ht)
  | check _ ht hr =>
    simp only [step]
    split
    · exact .failed _ _ _ rfl rfl
    · rename_i h; exact .ended _ _ ht hr h
    · rename_i h; exact .select _ ht hr h
  | select _ ht hr hf =>
    simp only [step]
    split
    · exact .failed _ _ _ rfl rfl
    · rename_i h
      split
      · exact .failed _ _ _ rfl rfl
      · rename_i h2
        exact .fit _ ht hr hf h h2
  | fit _ ht hr hf hs hu =>
    simp only [step]
    split
    · exact .failed _ _ _ rfl rfl
    · rename_i h; exact .pred ht hr hf hs hu h
  | pred ht hr hf hs hu ht' =>
    simp only [step]
    split
    · exact .failed _ _ _ rfl rfl
    · rename_i h
      split
      · exact .failed _ _ _ rfl rfl
      · rename_i h2
        exact .check _ ht (.next hr hf hs hu ht' h h2)
  | ended _ _ ht hr hT => exact .ended _ _ ht hr hT
  | failed _ _ e hp he =>
    have : step env k m r = (m, r) := by simp only [step, hp]
    rw [this]; exact .failed _ _ _ hp he

theorem good_ended {m : Option μ} {r : Round} (h : Good env k s₀ m r) (hp : r.pc = .ended) (m' : Option μ) : Good env k s₀ m' r := by
  cases h with
  | fit0 => simp at hp
  | pred0 => simp at hp
  | check => simp at hp
  | select => simp at hp
  | fit => simp at hp
  | pred => simp at hp
  | ended _ _ a b c => exact .ended _ _ a b c
  | failed _ _ e a b => exact .failed _ _ _ a b

theorem good_result {m : Option μ} {r : Round} (h : Good env k s₀ m r) (hp : r.pc = .ended) (he : r.err = none) : OwnResult env k s₀ r := by
  cases h with
  | fit0 => simp at hp
  | pred0 => simp at hp
  | check => simp at hp
  | select => simp at hp
  | fit => simp at hp
  | pred => simp at hp
  | ended _ _ a b c => exact ⟨⟨_, a, rfl⟩, _, b, c⟩
  | failed _ _ e a b => rw [b] at he; cases he

/-- A round before its start. -/
def Fresh (r : Round) (s₀ : LoopState) : Prop := ∃ sel, r = ⟨.fit, 0, s₀, sel, none, none⟩

/-! ## The threads -/

theorem reach_threads {p : Threads.Par} {rounds : Nat → Round} {T : Threads.Sys} {c : Conf μ} (h : Reach p env rounds T c) :
    Threads.Reach p true (Threads.init p (fun _ => .missing) .missing) T := by
  induction h with
  | start => exact .start
  | main other _ ih => exact .step ih (.main other)
  | work _ _ _ ih => exact ih
  | finish k _ hw _ ih => exact .step ih (.work (.die rfl hw))

theorem one_running {p : Threads.Par} (hmax : p.max = 1) {rounds : Nat → Round} {T : Threads.Sys} {c : Conf μ} (h : Reach p env rounds T c) {i j : Nat}
    (hi : i < p.n) (hj : j < p.n) (h1 : T.w i = .running) (h2 : T.w j = .running) : i = j := by
  by_contra hne
  have hle := Threads.C41_at_most_max_thread (reach_threads h)
  rw [hmax, Threads.Sys.alive, List.countP_eq_length_filter] at hle
  have hsub : [i, j].Subperm ((List.range p.n).filter (fun i => decide (T.w i = .running))) := by
    apply List.Nodup.subperm (by simp [hne])
    intro x hx
    simp only [List.mem_cons, List.not_mem_nil, or_false] at hx
    rcases hx with rfl | rfl <;> simp [List.mem_filter, hi, hj, h1, h2]
  have := hsub.length_le
  simp at this
  omega

theorem mainStep_w (p : Threads.Par) (o : Nat) (T : Threads.Sys) (k : Nat) :
    (Threads.mainStep p o T).w k = T.w k ∨ (T.w k = .idle ∧ (Threads.mainStep p o T).w k = .running) := by
  have hstart : ∀ i a, (Threads.start T i a).w k = T.w k ∨ (T.w k = .idle ∧ (Threads.start T i a).w k = .running) := by
    intro i a
    unfold Threads.start
    split
    · rename_i h
      by_cases e : k = i
      · subst e; right; exact ⟨h, by simp [Threads.set]⟩
      · left; simp [Threads.set, e]
    · left; rfl
  unfold Threads.mainStep
  split
  · split
    · split
      · split
        · exact hstart _ _
        · exact .inl rfl
      · exact .inl rfl
    · exact .inl rfl
  · dsimp only
    split
    · exact hstart _ _
    · exact .inl rfl
  · exact .inl rfl
  · exact .inl rfl
  · exact .inl rfl
  · split
    · split
      · split <;> exact .inl rfl
      · exact .inl rfl
    · exact .inl rfl
  · exact .inl rfl
  · exact .inl rfl

theorem one_thread_inv {p : Threads.Par} (hmax : p.max = 1) {rounds : Nat → Round} {st : Nat → LoopState} (hfresh : ∀ k, Fresh (rounds k) (st k))
    {T : Threads.Sys} {c : Conf μ} (h : Reach p env rounds T c) (k : Nat) :
    (T.w k = .idle → Fresh (c.rounds k) (st k)) ∧ (T.w k = .running → Good env k (st k) c.model (c.rounds k)) ∧
      (T.w k = .ended → (c.rounds k).pc = .ended ∧ Good env k (st k) c.model (c.rounds k)) := by
  induction h with
  | start => exact ⟨fun _ => hfresh k, by simp [Threads.init], by simp [Threads.init]⟩
  | @main T c other h ih =>
    obtain ⟨i1, i2, i3⟩ := ih
    rcases mainStep_w p other T k with e | ⟨e1, e2⟩
    · rw [e]; exact ⟨i1, i2, i3⟩
    · rw [e2]
      refine ⟨by simp, fun _ => ?_, by simp⟩
      obtain ⟨sel, hr⟩ := i1 e1
      rw [hr]; exact .fit0 _ _
  | @work T c j h hj ih =>
    obtain ⟨i1, i2, i3⟩ := ih
    by_cases e : k = j
    · subst e
      refine ⟨by rw [hj]; simp, fun _ => ?_, by rw [hj]; simp⟩
      simp only [Conf.step, Threads.set, if_true]
      exact good_step (i2 hj)
    · have hr : ((c.step env j).rounds k) = c.rounds k := by simp [Conf.step, Threads.set, e]
      rw [hr]
      refine ⟨i1, fun hk => ?_, fun hk => ⟨(i3 hk).1, good_ended (i3 hk).2 (i3 hk).1 _⟩⟩
      have hT := Threads.C41_never_started_twice (reach_threads h)
      exact absurd (one_running hmax h (hT.2 k (by rw [hk]; simp)).1 (hT.2 j (by rw [hj]; simp)).1 hk hj) e
  | @finish T c j h hj hp ih =>
    obtain ⟨i1, i2, i3⟩ := ih
    by_cases e : k = j
    · subst e
      simp only [Threads.set, if_true]
      refine ⟨by simp, by simp, fun _ => ⟨hp, i2 hj⟩⟩
    · simp only [Threads.set, e, if_false]
      exact ⟨i1, i2, i3⟩

/-! ## Any schedule -/

/-- The environment of the loop of round `k` when its queries see the models `a` and its predictions the models `b`. -/
def lenv (env : Env μ) (k : Nat) (a b : Nat → μ) : LoopEnv := ⟨fun i => env.strat k i (a i), fun i => env.perf k (b i), env.clock k⟩

/-- `i` iterations of the loop. -/
inductive Follows (e : LoopEnv) (s₀ : LoopState) : Nat → LoopState → Prop
  | start : Follows e s₀ 0 s₀
  | next {i s s'} : Follows e s₀ i s → s.stop.isStop (e.clock i) = .ok false → loopBody e i s = .ok s' → Follows e s₀ (i + 1) s'

theorem follows_congr {e e' : LoopEnv} {i : Nat} {s : LoopState} (h : Follows e s₀ i s) (hs : ∀ j, j < i → e.strat j = e'.strat j) (hp : ∀ j, j < i → e.perf j = e'.perf j)
    (hc : ∀ j, e.clock j = e'.clock j) : Follows e' s₀ i s := by
  induction h with
  | start => exact .start
  | @next i s s' h0 hf hb ih =>
    refine .next (ih (fun j hj => hs j (by omega)) (fun j hj => hp j (by omega))) (by rw [← hc]; exact hf) ?_
    rw [← hb]
    simp only [loopBody, hs i (by omega), hp i (by omega)]

theorem follows_loop {e : LoopEnv} {i : Nat} {s : LoopState} (h : Follows e s₀ i s) (fuel : Nat) : loop e (i + fuel) 0 s₀ = loop e fuel i s := by
  induction h generalizing fuel with
  | start => simp
  | @next i s s' h0 hf hb ih =>
    have := ih (fuel + 1)
    rw [show i + 1 + fuel = i + (fuel + 1) by omega, this, loop, hf]
    simp [hb]

theorem lenv_follows {a b a' b' : Nat → μ} {i : Nat} {s : LoopState} (h : Follows (lenv env k a b) s₀ i s) (ha : ∀ j, j < i → a j = a' j) (hb : ∀ j, j < i → b j = b' j) :
    Follows (lenv env k a' b') s₀ i s :=
  follows_congr h (fun j hj => by simp [lenv, ha j hj]) (fun j hj => by simp [lenv, hb j hj]) (fun _ => rfl)

/-- What is known of a round whatever the others do. -/
inductive Loose (env : Env μ) (k : Nat) (s₀ : LoopState) : Round → Prop
  | fit0 (sel) : Loose env k s₀ ⟨.fit, 0, s₀, sel, none, none⟩
  | pred0 (sel) : Loose env k s₀ ⟨.pred, 0, s₀, sel, none, none⟩
  | check {a b i s} (sel q) : Follows (lenv env k a b) s₀ i s → Loose env k s₀ ⟨.check, i, s, sel, some q, none⟩
  | select {a b i s} (sel q) : Follows (lenv env k a b) s₀ i s → s.stop.isStop (env.clock k i) = .ok false → Loose env k s₀ ⟨.select, i, s, sel, some q, none⟩
  | upd {a b i s sel L'} (pc q) : pc = .fit ∨ pc = .pred → Follows (lenv env k a b) s₀ i s → s.stop.isStop (env.clock k i) = .ok false →
      env.strat k i (a i) s.L s.U = .ok sel → s.L.update (.many sel) = (L', none) →
      Loose env k s₀ ⟨pc, i, { s with L := L', U := s.U.differenceUpdate (.many sel) }, sel, some q, none⟩
  | ended {a b i s} (sel q) : Follows (lenv env k a b) s₀ i s → s.stop.isStop (env.clock k i) = .ok true → Loose env k s₀ ⟨.ended, i, s, sel, some q, none⟩
  | failed (r e) : r.pc = .ended → r.err = some e →
      ((∃ l, env.train l = .error e) ∨ ∃ a b n, ∀ fuel, n < fuel → loop (lenv env k a b) fuel 0 s₀ = some (.error e)) → Loose env k s₀ r

theorem loop_error {e : LoopEnv} {i : Nat} {s : LoopState} {x : PyErr} (h : Follows e s₀ i s) (he : ∀ fuel, loop e (fuel + 1) i s = some (.error x)) :
    ∀ fuel, i < fuel → loop e fuel 0 s₀ = some (.error x) := by
  intro fuel hf
  obtain ⟨d, rfl⟩ : ∃ d, fuel = i + (d + 1) := ⟨fuel - i - 1, by omega⟩
  rw [follows_loop h, he]

/-- `f` with another value at `i`. -/
def put (f : Nat → μ) (i : Nat) (x : μ) : Nat → μ := fun j => if j = i then x else f j

theorem loose_step {m : Option μ} {r : Round} (h : Loose env k s₀ r) (hm : m = none → (r.pc = .fit ∧ r.init = none) ∨ r.pc = .ended) : Loose env k s₀ (step env k m r).2 := by
  cases h with
  | fit0 =>
    simp only [step]
    split
    · rename_i e he; exact .failed _ e rfl rfl (.inl ⟨_, he⟩)
    · exact .pred0 _
  | pred0 =>
    cases m with
    | none => simp at hm
    | some m' => simp only [step]; exact .check (a := fun _ => m') (b := fun _ => m') _ _ .start
  | @check a b i s sel q hF =>
    simp only [step]
    split
    · rename_i e he
      refine .failed _ e rfl rfl (.inr ⟨a, b, i, loop_error hF ?_⟩)
      intro fuel; rw [loop]; simp [lenv, he]
    · rename_i he; exact .ended _ _ hF he
    · rename_i he; exact .select _ _ hF he
  | @select a b i s sel q hF hf =>
    cases m with
    | none => simp at hm
    | some m' =>
      have hF' : Follows (lenv env k (put a i m') b) s₀ i s := lenv_follows hF (fun j hj => by simp [put, Nat.ne_of_lt hj]) (fun _ _ => rfl)
      simp only [step]
      split
      · rename_i e he
        refine .failed _ e rfl rfl (.inr ⟨_, _, i, loop_error hF' ?_⟩)
        intro fuel; rw [loop]; simp [lenv, hf, loopBody, put, he]
      · rename_i sel' he
        split
        · rename_i L' e hu
          refine .failed _ e rfl rfl (.inr ⟨_, _, i, loop_error hF' ?_⟩)
          intro fuel; rw [loop]; simp [lenv, hf, loopBody, put, he, hu]
        · rename_i L' hu
          exact .upd _ _ (.inl rfl) hF' hf (by simpa [put] using he) hu
  | @upd a b i s sel L' pc q hpc hF hf hs hu =>
    rcases hpc with rfl | rfl
    · simp only [step]
      split
      · rename_i e he; exact .failed _ e rfl rfl (.inl ⟨_, he⟩)
      · exact .upd _ _ (.inr rfl) hF hf hs hu
    · cases m with
      | none => simp at hm
      | some m' =>
        have hF' : Follows (lenv env k a (put b i m')) s₀ i s := lenv_follows hF (fun _ _ => rfl) (fun j hj => by simp [put, Nat.ne_of_lt hj])
        simp only [step]
        split
        · rename_i sv e he
          refine .failed _ e rfl rfl (.inr ⟨_, _, i, loop_error hF' ?_⟩)
          intro fuel; rw [loop]; simp [lenv, hf, loopBody, put, hs, hu, he]
        · rename_i saver' he
          split
          · rename_i e hx
            refine .failed _ e rfl rfl (.inr ⟨_, _, i, loop_error hF' ?_⟩)
            intro fuel; rw [loop]; simp [lenv, hf, loopBody, put, hs, hu, he, hx]
          · rename_i stop' hx
            refine .check _ _ (.next hF' hf ?_)
            simp [lenv, loopBody, put, hs, hu, he, hx]
  | ended _ _ hF hT => exact .ended _ _ hF hT
  | failed _ e hp he hx =>
    have : step env k m r = (m, r) := by simp only [step, hp]
    rw [this]; exact .failed _ _ hp he hx

/-- Once fitted, the model stays fitted; and a round past its first `fit` has seen it fitted. -/
theorem step_model (m : Option μ) (r : Round) (hm : m = none → (r.pc = .fit ∧ r.init = none) ∨ r.pc = .ended) :
    ((step env k m r).1 = none → m = none) ∧
      ((step env k m r).1 = none → ((step env k m r).2.pc = .fit ∧ (step env k m r).2.init = none) ∨ (step env k m r).2.pc = .ended) := by
  cases m with
  | some m' =>
    have : (step env k (some m') r).1 ≠ none := by
      unfold step
      split
      · split <;> simp
      · split
        · rename_i h; cases h
        · split
          · simp
          · split
            · simp
            · split <;> simp
      · split <;> simp
      · split
        · rename_i h; cases h
        · split
          · simp
          · split <;> simp
      · simp
    exact ⟨fun h => absurd h this, fun h => absurd h this⟩
  | none =>
    refine ⟨fun _ => rfl, ?_⟩
    rcases hm rfl with ⟨h1, h2⟩ | h1
    · simp only [step, h1]
      split
      · simp [Round.fail]
      · simp
    · simp [step, h1]

theorem schedule_inv {p : Threads.Par} {rounds : Nat → Round} {st : Nat → LoopState} (hfresh : ∀ k, Fresh (rounds k) (st k))
    {T : Threads.Sys} {c : Conf μ} (h : Reach p env rounds T c) (k : Nat) :
    Loose env k (st k) (c.rounds k) ∧ (c.model = none → ((c.rounds k).pc = .fit ∧ (c.rounds k).init = none) ∨ (c.rounds k).pc = .ended) ∧
      (T.w k = .ended → (c.rounds k).pc = .ended) := by
  induction h generalizing k with
  | start =>
    obtain ⟨sel, hr⟩ := hfresh k
    dsimp only
    rw [hr]
    exact ⟨.fit0 _, by simp, by simp [Threads.init]⟩
  | @main T c other h ih =>
    refine ⟨(ih k).1, (ih k).2.1, ?_⟩
    rcases mainStep_w p other T k with e | ⟨e1, e2⟩
    · rw [e]; exact (ih k).2.2
    · rw [e2]; simp
  | @work T c j h hj ih =>
    have hs := step_model (env := env) (k := j) c.model (c.rounds j) (ih j).2.1
    by_cases e : k = j
    · subst e
      simp only [Conf.step, Threads.set, if_true]
      exact ⟨loose_step (ih k).1 (ih k).2.1, hs.2, by rw [hj]; simp⟩
    · simp only [Conf.step, Threads.set, e, if_false]
      exact ⟨(ih k).1, fun hn => (ih k).2.1 (hs.1 hn), (ih k).2.2⟩
  | @finish T c j h hj hp ih =>
    refine ⟨(ih k).1, (ih k).2.1, ?_⟩
    by_cases e : k = j
    · subst e; intro _; exact hp
    · simp only [Threads.set, e, if_false]; exact (ih k).2.2

/-! ## C91 -/

/-- **C91**, the result that a round has to give is determined: sets, record, initial point and number of iterations. -/
theorem C91_own_result_unique {r r' : Round} (h : OwnResult env k s₀ r) (h' : OwnResult env k s₀ r') : r.s = r'.s ∧ r.init = r'.init ∧ r.i = r'.i := by
  obtain ⟨⟨m₀, ht, hi⟩, m, hr, hs⟩ := h
  obtain ⟨⟨m₀', ht', hi'⟩, m', hr', hs'⟩ := h'
  rw [ht] at ht'; injection ht' with e; subst e
  have key : ∀ {i j : Nat} {m m' : μ} {s s' : LoopState}, OwnRun env k s₀ i m s → s.stop.isStop (env.clock k i) = .ok true → OwnRun env k s₀ j m' s' → ¬ i < j := by
    intro i j m m' s s' h1 h2 h3 hlt
    obtain ⟨m1, s1, h4, h5⟩ := ownRun_le h3 hlt
    obtain ⟨-, rfl⟩ := ownRun_unique h1 h4
    rw [h2] at h5; cases h5
  have heq : r.i = r'.i := by
    have := key hr hs hr'
    have := key hr' hs' hr
    omega
  refine ⟨?_, by rw [hi, hi'], heq⟩
  rw [heq] at hr
  exact (ownRun_unique hr hr').2

theorem fresh_new (l u : List Val) (stop : Stop) : Fresh (Round.new l u stop) ⟨IC.mk' l, IC.mk' u, StateIO.new (IC.mk' l) (IC.mk' u), stop⟩ := ⟨[], rfl⟩

/-- **C91**, what holds with `max_thread=1`: whatever the schedule, when `start_all_threads` has returned, every round has ended, and a round that has not raised has the result of a
loop with its own model. Missing: with more threads it is not so (`C91_shared_model_violation`). -/
theorem C91_one_thread_partial {p : Threads.Par} (hmax : p.max = 1) (Ls Us : Nat → List Val) (stop : Stop) {T : Threads.Sys} {c : Conf μ}
    (h : Reach p env (fun k => Round.new (Ls k) (Us k) stop) T c) (hd : T.pc = .done) (k : Nat) (hk : k < p.n) (htodo : p.todo k = true) :
    (c.rounds k).pc = .ended ∧ ((c.rounds k).err = none →
      OwnResult env k ⟨IC.mk' (Ls k), IC.mk' (Us k), StateIO.new (IC.mk' (Ls k)) (IC.mk' (Us k)), stop⟩ (c.rounds k)) := by
  have hw := Threads.C41_all_ended_when_done (reach_threads h) hd k
  rw [if_pos ⟨hk, htodo⟩] at hw
  have := (one_thread_inv hmax (fun k => fresh_new (Ls k) (Us k) stop) h k).2.2 hw
  exact ⟨this.1, good_result this.2 this.1⟩

theorem good_run {fuel : Nat} {x y : Option μ × Round} (h : runRound env k fuel x = some y) (hg : Good env k s₀ x.1 x.2) : Good env k s₀ y.1 y.2 ∧ y.2.pc = .ended := by
  induction fuel generalizing x with
  | zero => cases h
  | succ n ih =>
    rw [runRound] at h
    split at h
    · rename_i he; injection h with h; subst h; exact ⟨hg, he⟩
    · exact ih h (good_step hg)

theorem sequential_inv (rounds : Nat → Round) (st : Nat → LoopState) (hfresh : ∀ k, Fresh (rounds k) (st k)) (fuel : Nat) :
    ∀ n k (m : Option μ) rs, sequential env rounds fuel n k m = some (.ok rs) → rs.length = n ∧ ∀ j (r : Round), rs[j]? = some r → OwnResult env (k + j) (st (k + j)) r := by
  intro n
  induction n with
  | zero => intro k m rs h; rw [sequential] at h; injection h with h; injection h with h; subst h; exact ⟨rfl, by simp⟩
  | succ n ih =>
    intro k m rs h
    rw [sequential] at h
    split at h
    · cases h
    · rename_i m' r hrun
      split at h
      · cases h
      · rename_i herr
        split at h
        · cases h
        · cases h
        · rename_i rs' hrest
          injection h with h; injection h with h; subst h
          have := ih _ _ _ hrest
          refine ⟨by simp [this.1], ?_⟩
          intro j r' hj
          cases j with
          | zero =>
            simp only [List.getElem?_cons_zero, Option.some.injEq] at hj
            subst hj
            obtain ⟨sel, hr⟩ := hfresh k
            have hg := good_run (s₀ := st k) hrun (by rw [hr]; exact .fit0 _ _)
            exact good_result hg.1 hg.2 herr
          | succ j =>
            simp only [List.getElem?_cons_succ] at hj
            have := this.2 j r' hj
            rwa [show k + (j + 1) = k + 1 + j by omega]

/-- **C91**, what holds with `multi_thread=False`: if `start_query` does not raise, there is a result for each of the `n` rounds, and each is the result of a loop with its own model. The
model left by an earlier round does not matter. Missing: the rounds share the time limit, see `C91_time_limit_violation`. -/
theorem C91_sequential_partial (Ls Us : Nat → List Val) (stop : Stop) (fuel n : Nat) (m : Option μ) (rs : List Round)
    (h : sequential env (fun k => Round.new (Ls k) (Us k) stop) fuel n 0 m = some (.ok rs)) :
    rs.length = n ∧ ∀ k (r : Round), rs[k]? = some r → OwnResult env k ⟨IC.mk' (Ls k), IC.mk' (Us k), StateIO.new (IC.mk' (Ls k)) (IC.mk' (Us k)), stop⟩ r := by
  have := sequential_inv _ _ (fun k => fresh_new (Ls k) (Us k) stop) fuel n 0 m rs h
  exact ⟨this.1, fun k r hk => by simpa using this.2 k r hk⟩

/-- **C91**, what holds for any number of threads: the books of every round are right. `fit` does not raise, and the strategy returns, for every model, a non-empty part of a non-empty
unlabelled set. Then, whatever the schedule, when `start_all_threads` has returned, no round has raised; labelled and unlabelled set of every round are a partition of its training set; every
recorded query was made from examples unlabelled at the time; and the round has stopped exactly when its criterion says so. Missing: the recorded performances and the models that the
strategy has used can be those of other rounds (`C91_shared_model_violation`). -/
theorem C91_any_schedule_partial {p : Threads.Par} (htrain : ∀ l, ∃ m, env.train l = .ok m) (hgood : ∀ k m, GoodStrategy (fun i => env.strat k i m)) (x y : Bool) (ls us : Nat → List Int)
    (hls : ∀ k, ls k ≠ []) (hus : ∀ k, us k ≠ []) (hdis : ∀ k, ∀ i ∈ ls k, i ∉ us k) (name : Option String) (value : Option PyNum) (now : ℚ)
    (stop : Stop) (hnew : Stop.new name value now = .ok stop) (v : ℚ) (hv : stop.crit ≠ .none → stop.value = some v)
    (hp : stop.crit = .percentOfUnlabel → 0 ≤ v ∧ v ≤ 1) {T : Threads.Sys} {c : Conf μ}
    (h : Reach p env (fun k => Round.new (idx x (ls k)) (idx y (us k)) stop) T c) (hd : T.pc = .done) (k : Nat) (hk : k < p.n) (htodo : p.todo k = true) :
    (c.rounds k).pc = .ended ∧ (c.rounds k).err = none ∧ ∃ r, r = (c.rounds k).s ∧
      (∀ q, q ∈ r.L.keys ∨ q ∈ r.U.keys ↔ ∃ i, (i ∈ ls k ∨ i ∈ us k) ∧ q = .num i) ∧ (∀ q ∈ r.L.keys, q ∉ r.U.keys) ∧ r.L.keys.Nodup ∧ r.U.keys.Nodup ∧
      (∃ sel, Recorded r.saver.states sel ∧ ∀ (n : Nat) x, sel[n]? = some x → x ≠ [] ∧ ∃ L U,
        StateIO.getWorkspace icOps r.saver (some n) = .ok (L, U) ∧ ∀ w ∈ x, pyMem w U.inner = true ∧ pyMem w L.inner = false) ∧
      (r.U.inner = [] ∨ BoundReached stop.crit v r.saver.states.length 0 (IC.mk' (idx y (us k))).inner.length r.U.inner.length
        (env.clock k r.saver.states.length - stop.startTime)) ∧
      ∀ n : Nat, n < r.saver.states.length → ∃ L U, StateIO.getWorkspace icOps r.saver (some n) = .ok (L, U) ∧ U.inner ≠ [] ∧
        ¬ BoundReached stop.crit v n 0 (IC.mk' (idx y (us k))).inner.length U.inner.length (env.clock k n - stop.startTime) := by
  have hw := Threads.C41_all_ended_when_done (reach_threads h) hd k
  rw [if_pos ⟨hk, htodo⟩] at hw
  obtain ⟨h1, -, h3⟩ := schedule_inv (fun k => fresh_new (idx x (ls k)) (idx y (us k)) stop) h k
  have hend := h3 hw
  have hC : ∀ a b : Nat → μ, _ := fun a b => C23_main_loop_ends_and_keeps_the_partition (lenv env k a b) (fun i L U hU => hgood k (a i) i L U hU) x y (ls k) (us k) (hls k) (hus k) (hdis k)
    name value now stop hnew v hv hp
  refine ⟨hend, ?_⟩
  generalize c.rounds k = r at h1 hend
  cases h1 with
  | fit0 => simp at hend
  | pred0 => simp at hend
  | check => simp at hend
  | select => simp at hend
  | upd pc q hpc => rcases hpc with rfl | rfl <;> simp at hend
  | @ended a b i s sel q hF hT =>
    obtain ⟨r, hr, hrest⟩ := hC a b
    have h1 := hr (i + (us k).length + 1) (by omega)
    have h2 := follows_loop hF ((us k).length + 1)
    rw [mainLoop, show i + (us k).length + 1 = i + ((us k).length + 1) by omega, h2, loop] at h1
    simp only [lenv, hT, Option.some.injEq, Except.ok.injEq] at h1
    refine ⟨rfl, s, rfl, ?_⟩
    subst h1
    exact hrest
  | failed _ e _ he hx =>
    exfalso
    rcases hx with ⟨l, hl⟩ | ⟨a, b, n, hl⟩
    · obtain ⟨m, hm⟩ := htrain l; rw [hm] at hl; cases hl
    · obtain ⟨r, hr, -⟩ := hC a b
      have h1 := hr (n + (us k).length + 1) (by omega)
      have h2 := hl (n + (us k).length + 1) (by omega)
      rw [mainLoop, h2] at h1; cases h1

/-- **C91**, violation: two rounds, two threads. Whatever the data, the strategy and the models: there is a schedule after which the initial point of round 0 is the performance of the model
trained by round 1. If the two performances differ, round 0 can no longer have the result that it would have alone, however it goes on. -/
theorem C91_shared_model_violation (p : Threads.Par) (hn : 2 ≤ p.n) (hmax : 2 ≤ p.max) (h0 : p.todo 0 = true) (h1 : p.todo 1 = true) (Ls Us : Nat → List Val) (stop : Stop) (m₀ m₁ : μ)
    (ht0 : env.train (IC.mk' (Ls 0)).inner = .ok m₀) (ht1 : env.train (IC.mk' (Ls 1)).inner = .ok m₁) (hne : env.perf 0 m₀ ≠ env.perf 0 m₁) :
    ∃ T c, Reach p env (fun k => Round.new (Ls k) (Us k) stop) T c ∧ (c.rounds 0).init = some (env.perf 0 m₁) ∧
      ¬ OwnResult env 0 ⟨IC.mk' (Ls 0), IC.mk' (Us 0), StateIO.new (IC.mk' (Ls 0)) (IC.mk' (Us 0)), stop⟩ (c.rounds 0) := by
  have hn0 : 0 < p.n := by omega
  have hn1 : 1 < p.n := by omega
  have hm0 : 0 < p.max := by omega
  have hm1 : 1 < p.max := by omega
  let rounds := fun k => Round.new (Ls k) (Us k) stop
  have r0 : Reach p env rounds _ _ := .start
  have r1 := Reach.main 0 (Reach.main 0 (Reach.main 0 (Reach.main 0 (Reach.main 0 r0))))
  have hw : (Threads.mainStep p 0 (Threads.mainStep p 0 (Threads.mainStep p 0 (Threads.mainStep p 0 (Threads.mainStep p 0
      (Threads.init p (fun _ => .missing) .missing)))))).w = fun k => if k = 1 then .running else if k = 0 then .running else .idle := by
    simp [Threads.mainStep, Threads.init, Threads.start, hn0, hn1, h0, h1, hm0, hm1, Threads.set, Threads.next]
    rfl
  have r2 := Reach.work 0 (Reach.work 1 (Reach.work 0 r1 (by rw [hw]; simp)) (by rw [hw]; simp)) (by rw [hw]; simp)
  refine ⟨_, _, r2, ?_⟩
  have hinit : (((((⟨none, rounds⟩ : Conf μ).step env 0).step env 1).step env 0).rounds 0).init = some (env.perf 0 m₁) := by
    simp [Conf.step, Threads.set, rounds, Round.new, step, ht0, ht1]
  refine ⟨hinit, ?_⟩
  rintro ⟨⟨m', hm', hi⟩, -⟩
  rw [hinit] at hi
  rw [ht0] at hm'
  injection hm' with e
  subst e
  injection hi with hi
  exact hne hi.symm

/-- The initial point of a round does not change any more. -/
theorem step_init (m : Option μ) (r : Round) (q : Obj (List Val)) (h : r.init = some q) : (step env k m r).2.init = some q := by
  unfold step
  split
  · split <;> simp [Round.fail, h]
  · split
    · simp [Round.fail, h]
    · split
      · rename_i h'; rw [h] at h'; cases h'
      · split
        · simp [Round.fail, h]
        · split <;> simp [Round.fail, h]
  · split <;> simp [Round.fail, h]
  · split
    · simp [Round.fail, h]
    · split
      · simp [Round.fail, h]
      · split <;> simp [Round.fail, h]
  · exact h

/-- **C91**, violation (for any later moment): a round with the initial point of another model keeps it. -/
theorem C91_initial_point_stays (k : Nat) (c : Conf μ) (q : Obj (List Val)) (h : (c.rounds k).init = some q) (js : List Nat) :
    ((js.foldl (fun c j => c.step env j) c).rounds k).init = some q := by
  induction js generalizing c with
  | nil => exact h
  | cons j js ih =>
    apply ih
    by_cases e : k = j
    · subst e; simp only [Conf.step, Threads.set, if_true]; exact step_init _ _ _ h
    · simp only [Conf.step, Threads.set, e, if_false]; exact h

/-- **C91**, violation: with `time_limit` the time runs from the construction of the experiment, for all rounds together. With `multi_thread=False`, once a round has used the time up, no later
round makes a query. -/
theorem C91_time_limit_violation (Ls Us : Nat → List Val) (stop : Stop) (v : ℚ) (hc : stop.crit = .timeLimit) (hv : stop.value = some v) (fuel n : Nat) (m : Option μ) (rs : List Round)
    (h : sequential env (fun k => Round.new (Ls k) (Us k) stop) fuel n 0 m = some (.ok rs)) (j k : Nat) (rj rk : Round) (hj : rs[j]? = some rj) (hk : rs[k]? = some rk)
    (hused : v ≤ env.clock j rj.i - stop.startTime) (hlater : env.clock j rj.i ≤ env.clock k 0) : rk.s.saver.states = [] := by
  obtain ⟨-, mm, hr, -⟩ := (C91_sequential_partial Ls Us stop fuel n m rs h).2 k rk hk
  by_cases hi : rk.i = 0
  · rw [hi] at hr
    generalize rk.s = s at hr
    cases hr with
    | start => rfl
  · obtain ⟨m', s', h1, h2⟩ := ownRun_le hr (Nat.pos_of_ne_zero hi)
    exfalso
    cases h1 with
    | start =>
      simp only [Stop.isStop, hc, hv] at h2
      split at h2
      · cases h2
      · have : v ≤ env.clock k 0 - stop.startTime := by linarith
        simp [this] at h2

/-! ## Examples -/

/-- Models are the index lists they are trained with; the performance is the number of training examples; the strategy takes the first unlabelled example. -/
def exEnv : Env (List Val) := ⟨fun l => .ok l, fun _ m => .other (m.length), fun _ _ _ _ U => .ok (U.inner.take 1), fun k i => 10 * k + i⟩

/-- One query per round. -/
def exStop : Stop := ⟨.numOfQueries, some 1, some 1, 0, 0, 0, 100, 0⟩

example : ((sequential exEnv (fun k => Round.new (idx true (if k = 0 then [0] else [0, 1])) (idx true [5, 6, 7]) exStop) 20 2 0 none).bind
    (fun r => r.toOption.map (fun rs => rs.map (fun r => (r.i, r.s.saver.states.length, r.s.U.keys))))) = some [(1, 1, [.num 6, .num 7]), (1, 1, [.num 6, .num 7])] := by rfl

/-- A time limit of 2: round 0 makes two queries, round 1 none. -/
example : ((sequential exEnv (fun k => Round.new (idx true (if k = 0 then [0] else [0, 1])) (idx true [5, 6, 7]) ⟨.timeLimit, some 2, some 2, 0, 0, 0, 100, 0⟩) 20 2 0 none).bind
    (fun r => r.toOption.map (fun rs => rs.map (fun r => (r.i, r.s.saver.states.length))))) = some [(2, 2), (0, 0)] := by decide +kernel

example : (∀ l, ∃ m, exEnv.train l = .ok m) ∧ ∀ k m, GoodStrategy (fun i => exEnv.strat k i m) := by
  refine ⟨fun l => ⟨l, rfl⟩, fun k m i L U h => ⟨U.inner.take 1, rfl, ?_, fun v hv => ?_⟩⟩
  · cases hu : U.inner with
    | nil => exact absurd hu h
    | cons x l => simp
  · rw [IC.pyMem_iff]
    exact List.mem_map.2 ⟨v, List.mem_of_mem_take hv, rfl⟩

example : exEnv.perf 0 (IC.mk' (idx true [0])).inner ≠ exEnv.perf 0 (IC.mk' (idx true [0, 1])).inner := by decide +kernel

end Alipy.Exper
