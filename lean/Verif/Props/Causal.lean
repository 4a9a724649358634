import Verif.Spec.Causal
import Verif.Props.Experiment

/-! # C108: an experiment uses labels only after it has asked for them -/
namespace Alipy.Causal
open Alipy Exper Spec

set_option linter.unusedSimpArgs false

variable {β μ : Type}

theorem withLabels_agree {y y' : Key → β} {l : List Val} (h : AgreeOn y y' l) : withLabels y l = withLabels y' l := by
  unfold withLabels
  exact List.map_congr_left fun v hv => by rw [h v hv]

theorem add_mono (c : IC) (v : Val) : c.inner ⊆ (c.add v).1.inner := by
  intro x hx
  unfold IC.add
  cases hc : c.ety with
  | none =>
    simp only
    split
    · exact hx
    · split
      · exact hx
      · exact List.mem_append_left _ hx
  | some t =>
    simp only [hc]
    split
    · exact hx
    · split
      · exact hx
      · exact List.mem_append_left _ hx

theorem addAll_mono (vs : List Val) : ∀ c : IC, c.inner ⊆ (c.addAll vs).1.inner := by
  induction vs with
  | nil => exact fun c x hx => hx
  | cons v l ih =>
    intro c x hx
    simp only [IC.addAll]
    have h1 := add_mono c v hx
    rcases hc : c.add v with ⟨c', _ | e⟩
    · rw [hc] at h1
      exact ih c' h1
    · rw [hc] at h1
      exact h1

theorem step_mono (env : Env μ) (k : Nat) (m : Option μ) (r : Round) : r.s.L.inner ⊆ (step env k m r).2.s.L.inner := by
  intro x hx
  unfold step
  split
  · split <;> exact hx
  · split
    · exact hx
    · split
      · exact hx
      · split
        · exact hx
        · split <;> exact hx
  · split <;> exact hx
  · split
    · exact hx
    · split
      · exact hx
      · rename_i sel _
        have := addAll_mono sel r.s.L hx
        rcases hu : r.s.L.update (.many sel) with ⟨L', _ | e⟩
        · have he : r.s.L.addAll sel = (L', none) := hu
          rw [he] at this
          exact this
        · exact hx
  · exact hx

theorem getSel {sel : List Val} {p : Obj (List Val)} :
    StateIO.entryGet (.st (State.new icOps (.inr sel) p none none)) "select_index" = .ok (.sel sel) := by
  simp [StateIO.entryGet, State.getValue, State.new, dictSet, dictGet]

theorem replay_same {es es' : List (Entry (List Val))} (h : List.Forall₂ SameQuery es es') (L U : IC) :
    StateIO.replay icOps es L U = StateIO.replay icOps es' L U := by
  induction h generalizing L U with
  | nil => rfl
  | cons he _ ih =>
    obtain ⟨sel, p, p', rfl, rfl⟩ := he
    simp only [StateIO.replay, getSel]
    rcases icOps.diff U sel with ⟨U', _ | e⟩
    · simp only
      rcases icOps.update L sel with ⟨L', _ | e⟩
      · exact ih L' U'
      · rfl
    · rfl

theorem workspace_same {a b : StateIO IC (List Val)} (h : List.Forall₂ SameQuery a.states b.states) (hL : a.initL = b.initL) (hU : a.initU = b.initU) (it : Option Int) :
    a.getWorkspace icOps it = b.getWorkspace icOps it := by
  have hlen : a.states.length = b.states.length := h.length_eq
  simp only [StateIO.getWorkspace, hlen, hL, hU]
  split
  · exact replay_same (List.forall₂_take _ h) _ _
  · rfl

theorem stop_same {a b : StateIO IC (List Val)} (h : List.Forall₂ SameQuery a.states b.states) (hL : a.initL = b.initL) (hU : a.initU = b.initU)
    (hc : a.cost = b.cost) (s : Stop) : s.update icOps a = s.update icOps b := by
  simp only [Stop.update, workspace_same h hL hU, h.length_eq, hc]

theorem addState_new (s : StateIO IC (List Val)) (sel : List Val) (p : Obj (List Val)) :
    s.addState icOps (.st (State.new icOps (.inr sel) p none none)) =
      ({ s with states := s.states ++ [.st (State.new icOps (.inr sel) p none none)], cost := s.cost + 0, numq := s.numq + sel.length }, none) := by
  have h1 : StateIO.entryCost (.st (State.new icOps (.inr sel) p none none)) = .ok 0 := by
    simp [StateIO.entryCost, StateIO.entryHas, State.keys, State.new, dictSet]
  have h2 : StateIO.entryLen icOps (.st (State.new icOps (.inr sel) p none none)) = .ok sel.length := by
    simp only [StateIO.entryLen, getSel]; rfl
  simp only [StateIO.addState, h1, h2]
  simp

theorem fail_same {r r' : Round} (h : SameTrace r r') (e : PyErr) : SameTrace (r.fail e) (r'.fail e) :=
  ⟨rfl, h.i, h.L, h.U, h.stop, h.sel, rfl, h.started, h.queries, h.totals, h.initial⟩

theorem step_same (S : Study β μ) {y y' : Key → β} (k : Nat) {m : Option μ} {r r' : Round} (h : SameTrace r r') (hy : AgreeOn y y' r.s.L.inner) :
    (step (S.env y) k m r).1 = (step (S.env y') k m r').1 ∧ SameTrace (step (S.env y) k m r).2 (step (S.env y') k m r').2 := by
  unfold step
  rw [← h.pc]
  have hl := withLabels_agree hy
  have ht : (S.env y).train r.s.L.inner = (S.env y').train r'.s.L.inner := by
    simp only [Study.env, ← h.L, hl]
  cases r.pc with
  | fit =>
    simp only [ht]
    split
    · exact ⟨rfl, fail_same h _⟩
    · exact ⟨rfl, ⟨rfl, h.i, h.L, h.U, h.stop, h.sel, h.err, h.started, h.queries, h.totals, h.initial⟩⟩
  | pred =>
    simp only
    cases m with
    | none => exact ⟨rfl, fail_same h _⟩
    | some m' =>
      simp only
      have hst := h.started
      cases hi : r.init with
      | none =>
        cases hi' : r'.init with
        | none => exact ⟨rfl, ⟨rfl, h.i, h.L, h.U, h.stop, h.sel, h.err, rfl, h.queries, h.totals, h.initial⟩⟩
        | some q => rw [hi, hi'] at hst; cases hst
      | some q =>
        cases hi' : r'.init with
        | none => rw [hi, hi'] at hst; cases hst
        | some q' =>
          simp only [addState_new, h.sel]
          have hq : List.Forall₂ SameQuery (r.s.saver.states ++ [.st (State.new icOps (.inr r'.sel) ((S.env y).perf k m') none none)])
              (r'.s.saver.states ++ [.st (State.new icOps (.inr r'.sel) ((S.env y').perf k m') none none)]) :=
            List.rel_append h.queries (.cons ⟨_, _, _, rfl, rfl⟩ .nil)
          have hu := stop_same
            (a := { r.s.saver with states := r.s.saver.states ++ [.st (State.new icOps (.inr r'.sel) ((S.env y).perf k m') none none)], cost := r.s.saver.cost + 0, numq := r.s.saver.numq + r'.sel.length })
            (b := { r'.s.saver with states := r'.s.saver.states ++ [.st (State.new icOps (.inr r'.sel) ((S.env y').perf k m') none none)], cost := r'.s.saver.cost + 0, numq := r'.s.saver.numq + r'.sel.length })
            hq h.initial.1 h.initial.2 (by simp only [h.totals.1]) r.s.stop
          rw [hu, h.stop]
          generalize Stop.update icOps r'.s.stop _ = X
          cases X with
          | error e => exact ⟨rfl, fail_same h _⟩
          | ok stop' =>
            refine ⟨rfl, ⟨rfl, by simp only [h.i], h.L, h.U, rfl, rfl, h.err, rfl, hq, ⟨?_, ?_, h.totals.2.2⟩, h.initial⟩⟩
            · simp only [h.totals.1]
            · simp only [h.totals.2.1]
  | check =>
    have hck : r.s.stop.isStop ((S.env y).clock k r.i) = r'.s.stop.isStop ((S.env y').clock k r'.i) := by
      rw [h.stop, h.i]; rfl
    simp only [hck]
    generalize r'.s.stop.isStop _ = X
    rcases X with e | ⟨_ | _⟩
    · exact ⟨rfl, fail_same h _⟩
    · exact ⟨rfl, ⟨rfl, h.i, h.L, h.U, h.stop, h.sel, h.err, h.started, h.queries, h.totals, h.initial⟩⟩
    · exact ⟨rfl, ⟨rfl, h.i, h.L, h.U, h.stop, h.sel, h.err, h.started, h.queries, h.totals, h.initial⟩⟩
  | select =>
    simp only
    cases m with
    | none => exact ⟨rfl, fail_same h _⟩
    | some m' =>
      have hs : (S.env y).strat k r.i m' r.s.L r.s.U = (S.env y').strat k r'.i m' r'.s.L r'.s.U := by
        simp only [Study.env, ← h.L, ← h.U, ← h.i, hl]
      simp only [hs]
      cases (S.env y').strat k r'.i m' r'.s.L r'.s.U with
      | error e => exact ⟨rfl, fail_same h _⟩
      | ok sel =>
        simp only [h.L]
        rcases r'.s.L.update (.many sel) with ⟨L', _ | e⟩
        · exact ⟨rfl, ⟨rfl, h.i, rfl, by simp only [h.U], h.stop, rfl, h.err, h.started, h.queries, h.totals, h.initial⟩⟩
        · exact ⟨rfl, fail_same h _⟩
  | ended => exact ⟨rfl, h⟩

theorem new_same (l u : List Val) (stop : Stop) : SameTrace (Round.new l u stop) (Round.new l u stop) :=
  ⟨rfl, rfl, rfl, rfl, rfl, rfl, rfl, rfl, .nil, ⟨rfl, rfl, rfl⟩, ⟨rfl, rfl⟩⟩

/-- C108: two label vectors that agree on the examples labelled after `n` steps of a round (those initially labelled and those queried so far, under the first vector) give
the same round, performances aside, for one step more: the next query, the index sets, the decision to stop and any exception are the same. So a query depends on labels
only that have been asked for before, and a model is only trained with them. -/
theorem C108_only_known_labels (S : Study β μ) (y y' : Key → β) (k n : Nat) (ls us : List Val) (stop : Stop)
    (hy : AgreeOn y y' (after (S.env y) k (Round.new ls us stop) n).2.s.L.inner) :
    (after (S.env y) k (Round.new ls us stop) (n + 1)).1 = (after (S.env y') k (Round.new ls us stop) (n + 1)).1 ∧
      SameTrace (after (S.env y) k (Round.new ls us stop) (n + 1)).2 (after (S.env y') k (Round.new ls us stop) (n + 1)).2 := by
  induction n with
  | zero =>
    exact step_same S k (new_same ls us stop) hy
  | succ n ih =>
    have hmono := step_mono (S.env y) k (after (S.env y) k (Round.new ls us stop) n).1 (after (S.env y) k (Round.new ls us stop) n).2
    obtain ⟨h1, h2⟩ := ih fun v hv => hy v (hmono hv)
    have := step_same S k (m := (after (S.env y) k (Round.new ls us stop) (n + 1)).1) h2 hy
    rw [h1] at this
    simp only [after] at this h1 ⊢
    rw [h1]
    exact this

theorem add_keys (c : IC) (v : Val) : ∀ x ∈ (c.add v).1.inner, x ∈ c.inner ∨ x.key = v.key := by
  intro x hx
  unfold IC.add at hx
  have hk : v.item.key = v.key := rfl
  cases hc : c.ety with
  | none =>
    simp only [hc] at hx
    split at hx
    · exact .inl hx
    · split at hx
      · exact .inl hx
      · rcases List.mem_append.1 hx with h | h
        · exact .inl h
        · right; rw [List.mem_singleton.1 h, hk]
  | some t =>
    simp only [hc] at hx
    split at hx
    · exact .inl hx
    · split at hx
      · exact .inl hx
      · rcases List.mem_append.1 hx with h | h
        · exact .inl h
        · right; rw [List.mem_singleton.1 h, hk]

theorem addAll_keys (vs : List Val) : ∀ c : IC, ∀ x ∈ (c.addAll vs).1.inner, x ∈ c.inner ∨ x.key ∈ vs.map Val.key := by
  induction vs with
  | nil => exact fun c x hx => .inl hx
  | cons v l ih =>
    intro c x hx
    simp only [IC.addAll] at hx
    have h1 := add_keys c v
    rcases hc : c.add v with ⟨c', _ | e⟩
    · rw [hc] at hx h1
      rcases ih c' x hx with h | h
      · rcases h1 x h with h | h
        · exact .inl h
        · exact .inr (by simp [h])
      · exact .inr (by simp only [List.map_cons, List.mem_cons]; exact .inr h)
    · rw [hc] at hx h1
      rcases h1 x hx with h | h
      · exact .inl h
      · exact .inr (by simp [h])

theorem eraseFirst_sub (v : Val) (l : List Val) : IC.eraseFirst v l ⊆ l := by
  induction l with
  | nil => exact fun x hx => hx
  | cons a r ih =>
    intro x hx
    simp only [IC.eraseFirst] at hx
    split at hx
    · exact List.mem_cons_of_mem _ hx
    · rcases List.mem_cons.1 hx with h | h
      · rw [h]; exact List.mem_cons_self
      · exact List.mem_cons_of_mem _ (ih h)

theorem discardAll_sub (vs : List Val) : ∀ c : IC, (c.discardAll vs).inner ⊆ c.inner := by
  induction vs with
  | nil => exact fun c x hx => hx
  | cons v l ih =>
    intro c x hx
    have := ih (c.discard v) hx
    unfold IC.discard at this
    split at this
    · exact eraseFirst_sub v _ this
    · exact this

theorem within (S : Study β μ) (hf : FromUnlabelled S) (y : Key → β) (k : Nat) (P : Key → Prop) (m : Option μ) (r : Round)
    (hL : ∀ v ∈ r.s.L.inner, P v.key) (hU : ∀ v ∈ r.s.U.inner, P v.key) :
    (∀ v ∈ (step (S.env y) k m r).2.s.L.inner, P v.key) ∧ ∀ v ∈ (step (S.env y) k m r).2.s.U.inner, P v.key := by
  unfold step
  split
  · split <;> exact ⟨hL, hU⟩
  · split
    · exact ⟨hL, hU⟩
    · split
      · exact ⟨hL, hU⟩
      · split
        · exact ⟨hL, hU⟩
        · split <;> exact ⟨hL, hU⟩
  · split <;> exact ⟨hL, hU⟩
  · split
    · exact ⟨hL, hU⟩
    · split
      · exact ⟨hL, hU⟩
      · rename_i m' _ sel hsel
        have hk : ∀ v ∈ sel, P v.key := by
          intro v hv
          obtain ⟨w, hw, he⟩ := List.mem_map.1 (hf _ _ _ _ _ _ _ hsel v hv)
          rw [← he]; exact hU w hw
        rcases hu : r.s.L.update (.many sel) with ⟨L', _ | e⟩
        · have he : r.s.L.addAll sel = (L', none) := hu
          refine ⟨fun v hv => ?_, fun v hv => hU v (discardAll_sub sel _ hv)⟩
          have := addAll_keys sel r.s.L v (by rw [he]; exact hv)
          rcases this with h | h
          · exact hL v h
          · obtain ⟨w, hw, hwe⟩ := List.mem_map.1 h
            rw [← hwe]; exact hk w hw
        · exact ⟨hL, hU⟩
  · exact ⟨hL, hU⟩

/-- C108: the labels of the test examples do not influence the queries. Two label vectors that agree on the examples of the training set of a round, initially labelled
and unlabelled ones, give the same round, performances aside, at every moment, whatever the labels of all other examples; and if they agree on the test set, too, the
performances are also the same. -/
theorem C108_test_labels (S : Study β μ) (hf : FromUnlabelled S) (y y' : Key → β) (k n : Nat) (ls us : List Val) (stop : Stop)
    (hL : AgreeOn y y' (IC.mk' ls).inner) (hU : AgreeOn y y' (IC.mk' us).inner) :
    SameTrace (after (S.env y) k (Round.new ls us stop) n).2 (after (S.env y') k (Round.new ls us stop) n).2 ∧
      (AgreeOn y y' (S.test k) → after (S.env y) k (Round.new ls us stop) n = after (S.env y') k (Round.new ls us stop) n) := by
  have hin : ∀ n, (∀ v ∈ (after (S.env y) k (Round.new ls us stop) n).2.s.L.inner, y v.key = y' v.key) ∧
      ∀ v ∈ (after (S.env y) k (Round.new ls us stop) n).2.s.U.inner, y v.key = y' v.key := by
    intro n
    induction n with
    | zero => exact ⟨hL, hU⟩
    | succ n ih => exact within S hf y k (fun q => y q = y' q) _ _ ih.1 ih.2
  constructor
  · cases n with
    | zero => exact new_same ls us stop
    | succ n => exact (C108_only_known_labels S y y' k n ls us stop (hin n).1).2
  · intro ht
    induction n with
    | zero => rfl
    | succ n ih =>
      simp only [after]
      rw [← ih]
      have hl : withLabels y (after (S.env y) k (Round.new ls us stop) n).2.s.L.inner = withLabels y' (after (S.env y) k (Round.new ls us stop) n).2.s.L.inner :=
        withLabels_agree (hin n).1
      have hp : (S.env y).perf k = (S.env y').perf k := by
        funext m
        simp only [Study.env]
        congr 1
        exact List.map_congr_left fun v hv => ht v hv
      have htr : (S.env y).train (after (S.env y) k (Round.new ls us stop) n).2.s.L.inner = (S.env y').train (after (S.env y) k (Round.new ls us stop) n).2.s.L.inner := by
        show S.fit _ = S.fit _
        rw [hl]
      have hst : ∀ i m U, (S.env y).strat k i m (after (S.env y) k (Round.new ls us stop) n).2.s.L U =
          (S.env y').strat k i m (after (S.env y) k (Round.new ls us stop) n).2.s.L U := by
        intro i m U
        show S.ask k i m _ _ U = S.ask k i m _ _ U
        rw [hl]
      have hck : (S.env y).clock = (S.env y').clock := rfl
      unfold step
      simp only [hp, htr, hst, hck]

/-- C108, negative: with several threads the model is shared, and a query of round 0 can be made with the model that round 1 has trained, on labels that round 0 has never
asked for, those of its own test set included. Whatever the data, there is a schedule that does it. -/
theorem C108_shared_model_violation (p : Threads.Par) (hn : 2 ≤ p.n) (hmax : 2 ≤ p.max) (h0 : p.todo 0 = true) (h1 : p.todo 1 = true) (S : Study β μ) (Ls Us : Nat → List Val) (stop : Stop) :
    ∃ T, ∀ (y : Key → β) (m₀ m₁ : μ), S.fit (withLabels y (IC.mk' (Ls 0)).inner) = .ok m₀ → S.fit (withLabels y (IC.mk' (Ls 1)).inner) = .ok m₁ →
      stop.isStop (S.clock 0 0) = .ok false → ∀ sel L', S.ask 0 0 m₁ (withLabels y (IC.mk' (Ls 0)).inner) (IC.mk' (Ls 0)) (IC.mk' (Us 0)) = .ok sel →
      (IC.mk' (Ls 0)).update (.many sel) = (L', none) →
      ∃ c, Reach p (S.env y) (fun k => Round.new (Ls k) (Us k) stop) T c ∧ (c.rounds 0).sel = sel ∧ (c.rounds 0).s.L = L' := by
  have hn0 : 0 < p.n := by omega
  have hn1 : 1 < p.n := by omega
  have hm0 : 0 < p.max := by omega
  have hm1 : 1 < p.max := by omega
  let rounds := fun k => Round.new (Ls k) (Us k) stop
  have hw : (Threads.mainStep p 0 (Threads.mainStep p 0 (Threads.mainStep p 0 (Threads.mainStep p 0 (Threads.mainStep p 0
      (Threads.init p (fun _ => .missing) .missing)))))).w = fun k => if k = 1 then .running else if k = 0 then .running else .idle := by
    simp [Threads.mainStep, Threads.init, Threads.start, hn0, hn1, h0, h1, hm0, hm1, Threads.set, Threads.next]
    rfl
  refine ⟨Threads.mainStep p 0 (Threads.mainStep p 0 (Threads.mainStep p 0 (Threads.mainStep p 0 (Threads.mainStep p 0 (Threads.init p (fun _ => .missing) .missing))))),
    fun y m₀ m₁ ht0 ht1 hs sel L' hask hupd => ?_⟩
  have r0 : Reach p (S.env y) rounds _ _ := .start
  have r1 := Reach.main 0 (Reach.main 0 (Reach.main 0 (Reach.main 0 (Reach.main 0 r0))))
  have r2 := Reach.work 0 (Reach.work 0 (Reach.work 0 (Reach.work 1 (Reach.work 0 r1 (by rw [hw]; simp)) (by rw [hw]; simp)) (by rw [hw]; simp)) (by rw [hw]; simp)) (by rw [hw]; simp)
  refine ⟨_, r2, ?_⟩
  have e0 : (S.env y).train (IC.mk' (Ls 0)).inner = .ok m₀ := ht0
  have e1 : (S.env y).train (IC.mk' (Ls 1)).inner = .ok m₁ := ht1
  have e2 : (S.env y).strat 0 0 m₁ (IC.mk' (Ls 0)) (IC.mk' (Us 0)) = .ok sel := hask
  have e3 : stop.isStop ((S.env y).clock 0 0) = .ok false := hs
  simp [Conf.step, Threads.set, rounds, Round.new, step, e0, e1, e2, e3, hupd]

/-! ## Examples -/

/-- Models are the sums of the labels; the strategy asks for the first unlabelled example if the sum is even, and for the last otherwise. -/
def exStudy : Study Nat Nat where
  fit l := .ok (l.map Prod.snd).sum
  test _ := idx true [8, 9]
  metric _ ys m := .other (if ys.sum = m then 1 else 0)
  ask _ _ m _ _ U := .ok (if m % 2 = 0 then U.inner.take 1 else U.inner.reverse.take 1)
  clock _ _ := 0

example : FromUnlabelled exStudy := by
  intro k i m l L U sel h v hv
  simp only [exStudy, Except.ok.injEq] at h
  rw [← h] at hv
  split at hv
  · exact List.mem_map.2 ⟨v, List.mem_of_mem_take hv, rfl⟩
  · exact List.mem_map.2 ⟨v, List.mem_reverse.1 (List.mem_of_mem_take hv), rfl⟩

/-- Labels that differ in the test set alone, and labels that differ in example 5. -/
def exY (a b : Nat) : Key → Nat := fun k => if k = .num 8 then a else if k = .num 5 then b else 1

/-- The label of the test example 8 has no influence on the queries; the label of 5, once asked for, has. -/
example : (after (exStudy.env (exY 0 2)) 0 (Round.new (idx true [0, 1]) (idx true [5, 6, 7]) exStop) 4).2.s.L.keys = [.num 0, .num 1, .num 5] ∧
    (after (exStudy.env (exY 3 2)) 0 (Round.new (idx true [0, 1]) (idx true [5, 6, 7]) exStop) 4).2.s.L.keys = [.num 0, .num 1, .num 5] ∧
    (after (exStudy.env (exY 0 1)) 0 (Round.new (idx true [0]) (idx true [5, 6, 7]) exStop) 4).2.s.L.keys = [.num 0, .num 7] := by decide +kernel

example : (⟨.numOfQueries, some 2, some 2, 0, 0, 0, 100, 0⟩ : Stop).isStop 0 = .ok false := by decide +kernel

/-- The model of another round: with its own model, the round asks for 7, with the model trained with the label of 8 it asks for 5 if that label is odd. -/
example : exStudy.ask 0 0 ((withLabels (exY 3 1) (idx true [0])).map Prod.snd).sum [] (IC.mk' (idx true [0])) (IC.mk' (idx true [5, 6, 7])) = .ok (idx true [7]) ∧
    exStudy.ask 0 0 ((withLabels (exY 3 1) (idx true [8, 0])).map Prod.snd).sum [] (IC.mk' (idx true [0])) (IC.mk' (idx true [5, 6, 7])) = .ok (idx true [5]) := by decide +kernel

end Alipy.Causal
