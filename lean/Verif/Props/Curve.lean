import Verif.Model.Curve
import Verif.Spec.Curve
import Verif.Props.Experiment
import Verif.Props.Analyser

/-!
# C114: the learning curve of an experiment
-/
namespace Alipy.Exper
open Alipy Spec

set_option linter.unusedSectionVars false
set_option linter.unusedSimpArgs false

variable {μ : Type} {env : Env μ} {k : Nat} {s₀ : LoopState}

theorem ownRun_labelled {i : Nat} {m : μ} {s : LoopState} (h : OwnRun env k s₀ i m s) :
    Labelled env k s₀.L s₀.U i s.L s.U ∧ env.train s.L.inner = .ok m := by
  induction h with
  | start ht => exact ⟨.start, ht⟩
  | @next i m s sel L' saver' stop' m' _ _ hs hu ht _ _ ih =>
    have h1 := Labelled.query ih.1 ih.2 hs
    rw [hu] at h1
    exact ⟨h1, ht⟩

theorem labelled_unique {L₀ U₀ L U L' U' : IC} {q : Nat} (h : Labelled env k L₀ U₀ q L U) (h' : Labelled env k L₀ U₀ q L' U') : L = L' ∧ U = U' := by
  induction h generalizing L' U' with
  | start => cases h'; exact ⟨rfl, rfl⟩
  | query _ ht hs ih =>
    cases h' with
    | query h1 ht' hs' =>
      obtain ⟨rfl, rfl⟩ := ih h1
      rw [ht] at ht'; injection ht' with e; subst e
      rw [hs] at hs'; injection hs' with e; subst e
      exact ⟨rfl, rfl⟩

theorem performanceAfter_unique {L₀ U₀ : IC} {q : Nat} {x y : ℚ} (h : PerformanceAfter env k L₀ U₀ q x) (h' : PerformanceAfter env k L₀ U₀ q y) : x = y := by
  obtain ⟨L, U, m, h1, h2, h3⟩ := h
  obtain ⟨L', U', m', h1', h2', h3'⟩ := h'
  obtain ⟨rfl, rfl⟩ := labelled_unique h1 h1'
  rw [h2] at h2'; injection h2' with e; subst e
  rw [h3] at h3'; injection h3' with e; injection e

theorem addState_states {s s' : StateIO IC (List Val)} {t : State (List Val)} (h : s.addState icOps (.st t) = (s', none)) : s'.states = s.states ++ [.st t] := by
  unfold StateIO.addState at h
  simp only [Bool.not_true, Bool.false_eq_true, if_false] at h
  split at h
  · cases h
  · split at h
    · cases h
    · injection h with h _; subst h; rfl

theorem ownRun_states {i : Nat} {m : μ} {s : LoopState} (h : OwnRun env k s₀ i m s) (h0 : s₀.saver.states = []) :
    s.saver.states.length = i ∧ ∀ j < i, ∃ L U m' sel, Labelled env k s₀.L s₀.U (j + 1) L U ∧ env.train L.inner = .ok m' ∧
      s.saver.states[j]? = some (.st (State.new icOps (.inr sel) (env.perf k m') none none)) := by
  induction h with
  | start ht => exact ⟨by rw [h0]; rfl, fun j hj => absurd hj (by omega)⟩
  | @next i m s sel L' saver' stop' m' hr hf hs hu ht ha hp ih =>
    have e := addState_states ha
    refine ⟨by simp only [e, List.length_append, ih.1, List.length_singleton], fun j hj => ?_⟩
    by_cases hji : j < i
    · obtain ⟨L, U, m1, sl, h1, h2, h3⟩ := ih.2 j hji
      exact ⟨L, U, m1, sl, h1, h2, by simp only [e]; rw [List.getElem?_append_left (by omega)]; exact h3⟩
    · have hj' : j = i := by omega
      subst hj'
      obtain ⟨h1, h2⟩ := ownRun_labelled (OwnRun.next hr hf hs hu ht ha hp)
      exact ⟨_, _, m', sel, h1, h2, by simp only [e]; rw [List.getElem?_append_right (by omega), ih.1]; simp⟩

theorem performance_new (sel : List Val) (x : ℚ) : performance (.st (State.new icOps (.inr sel) (.arr [x]) none none)) = some x := by
  simp [performance, StateIO.entryGet, State.getValue, State.new, dictSet, dictGet, number]

theorem mapM_some {α β : Type} {f : α → Option β} : ∀ {l : List α} {b : List β}, List.Forall₂ (fun x y => f x = some y) l b → l.mapM f = some b
  | [], _, .nil => rfl
  | _ :: _, _, .cons h t => by rw [List.mapM_cons, h, mapM_some t]; rfl

theorem fold_own {r : Round} (h : OwnResult env k s₀ r) (h0 : s₀.saver.states = []) (hp : ∀ m, ∃ x, env.perf k m = .arr [x]) :
    ∃ p ps, fold r = some ⟨some p, ps⟩ ∧ ps.length = r.s.saver.states.length ∧ ∀ q x, after (some p, ps) q = some x ↔ q ≤ r.s.saver.states.length ∧
      PerformanceAfter env k s₀.L s₀.U q x := by
  obtain ⟨⟨m₀, ht, hi⟩, m, hr, -⟩ := h
  obtain ⟨p, hp0⟩ := hp m₀
  obtain ⟨hlen, hst⟩ := ownRun_states hr h0
  have hall : ∀ j : Nat, ∃ x, j < r.i → (PerformanceAfter env k s₀.L s₀.U (j + 1) x ∧ ∃ e, r.s.saver.states[j]? = some e ∧ performance e = some x) := by
    intro j
    by_cases hj : j < r.i
    · obtain ⟨L, U, m', sel, h1, h2, h3⟩ := hst j hj
      obtain ⟨x, hx⟩ := hp m'
      exact ⟨x, fun _ => ⟨⟨L, U, m', h1, h2, hx⟩, _, h3, by rw [hx]; exact performance_new sel x⟩⟩
    · exact ⟨0, fun h => absurd h hj⟩
  choose f hf using hall
  have hps : r.s.saver.states.mapM performance = some ((List.range r.i).map f) := by
    apply mapM_some
    rw [List.forall₂_iff_get]
    refine ⟨by simp [hlen], fun j h1 h2 => ?_⟩
    have hj : j < r.i := by rw [hlen] at h1; exact h1
    obtain ⟨-, e, he, hx⟩ := hf j hj
    rw [List.getElem?_eq_getElem h1] at he
    injection he with he
    simp only [List.get_eq_getElem, he, hx, List.getElem_map, List.getElem_range]
  refine ⟨p, (List.range r.i).map f, by simp only [fold, hi, Option.bind_some, hp0, number, hps], by simp [hlen], ?_⟩
  have hzero : PerformanceAfter env k s₀.L s₀.U 0 p := ⟨_, _, m₀, .start, ht, hp0⟩
  intro q x
  rw [hlen]
  cases q with
  | zero =>
    simp only [after, Option.some.injEq, Nat.zero_le, true_and]
    exact ⟨fun e => e ▸ hzero, fun h => performanceAfter_unique hzero h⟩
  | succ q =>
    simp only [after]
    by_cases hq : q < r.i
    · rw [List.getElem?_eq_getElem (by simpa using hq)]
      simp only [List.getElem_map, List.getElem_range, Option.some.injEq]
      exact ⟨fun e => ⟨by omega, e ▸ (hf q hq).1⟩, fun h => performanceAfter_unique (hf q hq).1 h.2⟩
    · rw [List.getElem?_eq_none (by simpa using hq)]
      simp only [reduceCtorEq, false_iff, not_and]
      omega

/-- The rounds of an experiment, each as its own run, as the analyser reads them. -/
theorem results_own {n N : Nat} {Ls Us : Nat → List Val} {stop : Stop} {rs : List Round} (hn : 0 < n) (hlen : rs.length = n)
    (hown : ∀ k (r : Round), rs[k]? = some r → OwnResult env k ⟨IC.mk' (Ls k), IC.mk' (Us k), StateIO.new (IC.mk' (Ls k)) (IC.mk' (Us k)), stop⟩ r)
    (hp : ∀ k < n, ∀ m, ∃ x, env.perf k m = .arr [x]) (hN : ∀ r ∈ rs, r.s.saver.states.length = N) :
    ∃ R, results rs = some R ∧ Analyser.Uniform true N R.toFolds ∧ ∀ q v, MeanAfter R.toFolds q v ↔ q ≤ N ∧ MeanPerformance env Ls Us n q v := by
  have hall : ∀ k : Nat, ∃ p ps, (k < n → ∃ r, rs[k]? = some r ∧ fold r = some ⟨some p, ps⟩ ∧ ps.length = N ∧
      ∀ q x, after (some p, ps) q = some x ↔ q ≤ N ∧ PerformanceAfter env k (IC.mk' (Ls k)) (IC.mk' (Us k)) q x) := by
    intro k
    by_cases hk : k < n
    · have hk' : k < rs.length := by omega
      have hr := List.getElem?_eq_getElem hk'
      obtain ⟨p, ps, h1, h2, h3⟩ := fold_own (hown k _ hr) rfl (hp k hk)
      have hNk := hN _ (List.getElem_mem hk')
      rw [hNk] at h2 h3
      exact ⟨p, ps, fun _ => ⟨_, hr, h1, h2, h3⟩⟩
    · exact ⟨0, [], fun h => absurd h hk⟩
  choose p ps hall using hall
  have hfold : rs.mapM fold = some ((List.range n).map (fun k => (⟨some (p k), ps k⟩ : Analyser.Fold ℚ))) := by
    apply mapM_some
    rw [List.forall₂_iff_get]
    refine ⟨by simp [hlen], fun j h1 h2 => ?_⟩
    obtain ⟨r, hr, hf, -⟩ := hall j (by omega)
    rw [List.getElem?_eq_getElem h1] at hr
    injection hr with hr
    simp only [List.get_eq_getElem, hr, hf, List.getElem_map, List.getElem_range]
  refine ⟨.states ((List.range n).map (fun k => (⟨some (p k), ps k⟩ : Analyser.Fold ℚ))), by simp only [results, hfold, Option.map_some], ⟨?_, ?_⟩, ?_⟩
  · simp only [Analyser.Results.toFolds, ne_eq, List.map_eq_nil_iff, List.range_eq_nil]; omega
  · intro f hf
    simp only [Analyser.Results.toFolds, List.map_map, List.mem_map, List.mem_range, Function.comp] at hf
    obtain ⟨j, hj, rfl⟩ := hf
    obtain ⟨-, -, -, h2, -⟩ := hall j hj
    exact ⟨rfl, h2⟩
  · intro q v
    simp only [MeanAfter, Analyser.Results.toFolds, List.map_map]
    constructor
    · rintro ⟨vs, h1, rfl⟩
      have hvl : vs.length = n := by simpa using (congrArg List.length h1).symm
      have hat : ∀ j < n, q ≤ N ∧ PerformanceAfter env j (IC.mk' (Ls j)) (IC.mk' (Us j)) q (vs.getD j 0) := by
        intro j hj
        have := congrArg (fun l => l[j]?) h1
        simp only [List.getElem?_map, List.getElem?_range hj, Option.map_some, Function.comp] at this
        rw [List.getElem?_eq_getElem (by omega), Option.map_some, Option.some.injEq] at this
        obtain ⟨-, -, -, -, h3⟩ := hall j hj
        rw [List.getD_eq_getElem _ _ (by omega)]
        exact (h3 q _).1 this
      refine ⟨(hat 0 hn).1, fun j => vs.getD j 0, fun j hj => (hat j hj).2, ?_⟩
      have : (List.range n).map (fun j => vs.getD j 0) = vs := by
        apply List.ext_getElem (by simp [hvl])
        intro j h1 h2
        simp only [List.getElem_map, List.getElem_range]
        rw [List.getD_eq_getElem _ _ h2]
      rw [this, hvl]
    · rintro ⟨hq, pf, hpf, rfl⟩
      refine ⟨(List.range n).map pf, ?_, by simp⟩
      rw [List.map_map]
      apply List.map_congr_left
      intro j hj
      obtain ⟨-, -, -, -, h3⟩ := hall j (List.mem_range.1 hj)
      exact (h3 q _).2 ⟨hq, hpf j (List.mem_range.1 hj)⟩

/-- An experiment that has been run: its name in the analyser, its surroundings, splits and stopping criterion, and the results of its `n` rounds. -/
structure Run (μ : Type) where
  name : String
  env : Env μ
  Ls : Nat → List Val
  Us : Nat → List Val
  stop : Stop
  n : Nat
  rs : List Round

/-- The results are those of `start_query(multi_thread=False)`. -/
def Run.Sequential (e : Run μ) : Prop := ∃ fuel m, sequential e.env (fun k => Round.new (e.Ls k) (e.Us k) e.stop) fuel e.n 0 m = some (.ok e.rs)

/-- The results are those of `start_query(max_thread=1)`: the rounds that are there when `start_all_threads` has returned. -/
def Run.OneThread (e : Run μ) : Prop :=
  ∃ (p : Threads.Par) (T : Threads.Sys) (c : Conf μ), p.max = 1 ∧ p.n = e.n ∧ (∀ k < e.n, p.todo k = true) ∧
    Reach p e.env (fun k => Round.new (e.Ls k) (e.Us k) e.stop) T c ∧ T.pc = .done ∧ (∀ k < e.n, (c.rounds k).err = none) ∧ e.rs = (List.range e.n).map c.rounds

/-- The points of the learning curve of an experiment with `N` queries per round, one for every `k` queries. -/
def Run.Curve (e : Run μ) (N k : Nat) (pts : List (ℚ × ℚ)) : Prop :=
  (pts.map Prod.fst).Pairwise (· < ·) ∧ ∀ x v, (x, v) ∈ pts ↔ ∃ q : Nat, q ≤ N ∧ k ∣ q ∧ x = q ∧ MeanPerformance e.env e.Ls e.Us e.n q v

theorem run_own {e : Run μ} (h : e.Sequential ∨ e.OneThread) : e.rs.length = e.n ∧
    ∀ k (r : Round), e.rs[k]? = some r → OwnResult e.env k ⟨IC.mk' (e.Ls k), IC.mk' (e.Us k), StateIO.new (IC.mk' (e.Ls k)) (IC.mk' (e.Us k)), e.stop⟩ r := by
  rcases h with ⟨fuel, m, h⟩ | ⟨p, T, c, hmax, hpn, htodo, hreach, hdone, herr, hrs⟩
  · exact C91_sequential_partial e.Ls e.Us e.stop fuel e.n m e.rs h
  · refine ⟨by rw [hrs]; simp, fun k r hk => ?_⟩
    rw [hrs, List.getElem?_map] at hk
    by_cases hkn : k < e.n
    · rw [List.getElem?_range hkn] at hk
      simp only [Option.map_some, Option.some.injEq] at hk
      subst hk
      exact (C91_one_thread_partial hmax e.Ls e.Us e.stop hreach hdone k (by omega) (htodo k hkn)).2 (herr k hkn)
    · rw [List.getElem?_eq_none (by simpa using hkn)] at hk
      cases hk

/-- **C114** End to end: any number of experiments with different names, run with `multi_thread=False` or `max_thread=1`, whose metric gives numbers and in each of which all rounds have made
equally many queries. Their results are added to the analyser, and `plot_learning_curves(plot_interval=k)` draws, for every experiment, exactly the points `(q, v)`, `q` every `k`-th number of
queries from 0 to the last one, and `v` the mean over the rounds of the performance of the model fitted to the examples that are labelled after `q` queries. -/
theorem C114_curve {k : Nat} (hk : 0 < k) {es : List (Run μ)} (hne : es ≠ []) (hnames : (es.map Run.name).Nodup) (N : Run μ → Nat)
    (h : ∀ e ∈ es, 0 < e.n ∧ (e.Sequential ∨ e.OneThread) ∧ (∀ j < e.n, ∀ m, ∃ x, e.env.perf j m = .arr [x]) ∧ ∀ r ∈ e.rs, r.s.saver.states.length = N e) :
    ∃ R : Run μ → Analyser.Results ℚ, (∀ e ∈ es, results e.rs = some (R e)) ∧ ∃ a, Analyser.addMethods ⟨[], true⟩ (es.map (fun e => (e.name, R e))) = .ok a ∧
      ∃ cs, Analyser.plotCurves a none none k = .ok cs ∧ List.Forall₂ (fun (e : Run μ) c => c.1 = e.name ∧ e.Curve (N e) k c.2) es cs := by
  have hall : ∀ e : Run μ, ∃ R : Analyser.Results ℚ, e ∈ es → (results e.rs = some R ∧ Analyser.Uniform true (N e) R.toFolds ∧
      ∀ q v, MeanAfter R.toFolds q v ↔ q ≤ N e ∧ MeanPerformance e.env e.Ls e.Us e.n q v) := by
    intro e
    by_cases he : e ∈ es
    · obtain ⟨h1, h2, h3, h4⟩ := h e he
      obtain ⟨h5, h6⟩ := run_own h2
      obtain ⟨R, hR⟩ := results_own h1 h5 h6 h3 h4
      exact ⟨R, fun _ => hR⟩
    · exact ⟨.lists [], fun hh => absurd hh he⟩
  choose R hR using hall
  refine ⟨R, fun e he => (hR e he).1, ?_⟩
  obtain ⟨a, ha, cs, hcs, hf⟩ := Analyser.C73_curve_partial (b := true) hk (ms := es.map (fun e => (e.name, R e))) (by simpa using hne)
    (by simpa [List.map_map, Function.comp_def] using hnames) (by
      intro m hm
      obtain ⟨e, he, rfl⟩ := List.mem_map.1 hm
      exact ⟨_, (hR e he).2.1⟩)
  refine ⟨a, ha, cs, hcs, ?_⟩
  rw [List.forall₂_map_left_iff] at hf
  rw [List.forall₂_iff_get] at hf ⊢
  refine ⟨hf.1, fun i h1 h2 => ?_⟩
  obtain ⟨h3, h4, h5⟩ := hf.2 i h1 h2
  have he : es.get ⟨i, h1⟩ ∈ es := List.get_mem es ⟨i, h1⟩
  refine ⟨h3, h4, fun x v => ?_⟩
  rw [h5]
  simp only [if_true, Nat.zero_le, true_and, Nat.sub_zero, add_zero, (hR _ he).2.2]
  constructor
  · rintro ⟨q, a, b, c, d⟩; exact ⟨q, c, a, b, d⟩
  · rintro ⟨q, c, a, b, d⟩; exact ⟨q, a, b, c, d⟩

/-! ## How many queries the rounds make -/

theorem ownRun_follows {i : Nat} {m : μ} {s : LoopState} (h : OwnRun env k s₀ i m s) : ∃ a b, Follows (lenv env k a b) s₀ i s := by
  induction h with
  | @start m ht => exact ⟨fun _ => m, fun _ => m, .start⟩
  | @next i m s sel L' saver' stop' m' hr hf hs hu ht ha hp ih =>
    obtain ⟨a, b, h⟩ := ih
    refine ⟨fun j => if j = i then m else a j, fun j => if j = i then m' else b j, .next (lenv_follows h ?_ ?_) hf ?_⟩
    · intro j hj; rw [if_neg (by omega)]
    · intro j hj; rw [if_neg (by omega)]
    · simp [loopBody, lenv, hs, hu, ha, hp]

theorem discardAll_length : ∀ (sel : List Val) (c : IC), c.inner.length ≤ (c.discardAll sel).inner.length + sel.length
  | [], c => by simp [IC.discardAll]
  | v :: sel, c => by
    have h1 := discardAll_length sel (c.discard v)
    have h2 : c.inner.length ≤ (c.discard v).inner.length + 1 := by
      have e := congrArg List.length (IC.discard_keys c v)
      simp only [IC.keys, List.length_map, List.length_erase] at e
      split at e <;> omega
    simp only [IC.discardAll, List.length_cons]
    omega

theorem ownRun_length {B : Nat} (hB : ∀ i m L U sel, env.strat k i m L U = .ok sel → sel.length ≤ B) {i : Nat} {m : μ} {s : LoopState} (h : OwnRun env k s₀ i m s) :
    s₀.U.inner.length ≤ s.U.inner.length + B * i := by
  induction h with
  | start => simp
  | @next i m s sel L' saver' stop' m' hr hf hs hu ht ha hp ih =>
    have h1 := discardAll_length sel s.U
    have h2 := hB _ _ _ _ _ hs
    show _ ≤ (s.U.discardAll sel).inner.length + _
    rw [Nat.mul_succ]
    omega

theorem mk'_idx_length_nodup (b : Bool) {us : List Int} (h : us.Nodup) : (IC.mk' (idx b us)).inner.length = us.length := by
  have h1 : (IC.mk' (idx b us)).keys.Perm (us.map Key.num) := by
    rw [List.perm_ext_iff_of_nodup (IC.reachable_nodup (.construct _)) (h.map (f := Key.num) (fun x y e => by injection e))]
    intro k
    rw [mem_mk'_idx]
    simp [eq_comm]
  simpa [IC.keys] using h1.length_eq

/-- **C114** With `num_of_queries = v` and a strategy that returns at least one and at most `b` unlabelled examples, where the unlabelled set has at least `b * v` examples, every round makes
exactly `v` queries, so `C114_curve` applies with `N = v`. -/
theorem C114_num_of_queries {e : Run μ} (h : e.Sequential ∨ e.OneThread) {x y : Bool} {ls us : Nat → List Int} (hL : e.Ls = fun k => idx x (ls k)) (hU : e.Us = fun k => idx y (us k))
    (hls : ∀ k < e.n, ls k ≠ []) (hus : ∀ k < e.n, us k ≠ [] ∧ (us k).Nodup) (hdis : ∀ k < e.n, ∀ i ∈ ls k, i ∉ us k)
    (hgood : ∀ k < e.n, ∀ m, GoodStrategy (fun i => e.env.strat k i m)) {v b : Nat} (hb : 0 < b)
    (hbatch : ∀ k < e.n, ∀ i m L U sel, e.env.strat k i m L U = .ok sel → sel.length ≤ b) (henough : ∀ k < e.n, b * v ≤ (us k).length)
    {now : ℚ} (hnew : Stop.new (some "num_of_queries") (some (.int v)) now = .ok e.stop) : ∀ r ∈ e.rs, r.s.saver.states.length = v := by
  intro r hr
  obtain ⟨hlen, hown⟩ := run_own h
  obtain ⟨k, hk, hrk⟩ := List.getElem_of_mem hr
  have hkn : k < e.n := by omega
  obtain ⟨-, m, hrun, hstop⟩ := hown k r (by rw [List.getElem?_eq_getElem hk, hrk])
  rw [hL, hU] at hrun
  obtain ⟨a, c, hF⟩ := ownRun_follows hrun
  obtain ⟨r', hr', hle, hor⟩ := C23_exactly_n_queries (lenv e.env k a c) (fun i L U hne => hgood k hkn (a i) i L U hne) x y (ls k) (us k) (hls k hkn) (hus k hkn).1 (hdis k hkn) v now e.stop hnew
  have h1 := hr' (r.i + (us k).length + 1) (by omega)
  have h2 := follows_loop hF ((us k).length + 1)
  rw [mainLoop, show r.i + (us k).length + 1 = r.i + ((us k).length + 1) by omega, h2, loop] at h1
  simp only [lenv, hstop, Option.some.injEq, Except.ok.injEq] at h1
  rw [h1]
  rcases hor with hor | hor
  · exact hor
  · have h3 := ownRun_length (hbatch k hkn) hrun
    have h4 := (ownRun_states hrun rfl).1
    rw [h1] at h3 h4
    simp only [hor, List.length_nil, Nat.zero_add, mk'_idx_length_nodup y (hus k hkn).2] at h3
    have h5 := Nat.le_of_mul_le_mul_left (Nat.le_trans (henough k hkn) h3) hb
    omega

/-! ## A case: two rounds, two queries each; the performance is the number of labelled examples over ten -/

def cvEnv : Env (List Val) := ⟨fun l => .ok l, fun _ m => .arr [(m.length : ℚ) / 10], fun _ _ _ _ U => .ok (U.inner.take 1), fun k i => 10 * k + i⟩
def cvStop : Stop := ⟨.numOfQueries, some 2, some 2, 0, 0, 0, 100, 0⟩
def cvLs (k : Nat) : List Val := idx true (if k = 0 then [0] else [0, 1])
def cvUs (_ : Nat) : List Val := idx true [5, 6, 7]
def cvRounds : List Round := (((sequential cvEnv (fun k => Round.new (cvLs k) (cvUs k) cvStop) 20 2 0 none).getD (.ok [])).toOption).getD []
def cvRun : Run (List Val) := ⟨"method", cvEnv, cvLs, cvUs, cvStop, 2, cvRounds⟩

example : cvRun.Sequential := ⟨20, none, by rfl⟩
example : ∀ r ∈ cvRun.rs, r.s.saver.states.length = 2 := by decide +kernel
example : ∀ j < cvRun.n, ∀ m, ∃ x, cvRun.env.perf j m = .arr [x] := fun _ _ _ => ⟨_, rfl⟩
example : Stop.new (some "num_of_queries") (some (.int 2)) 0 = .ok cvRun.stop := by rfl
/-- The curve: 3/20 (mean of 1/10 and 2/10), 5/20, 7/20. -/
example : (results cvRun.rs).bind (fun R => ((Analyser.addMethods ⟨[], true⟩ [("method", R)]).toOption.bind (fun a => (Analyser.plotCurves a none none 1).toOption))) =
    some [("method", [(0, 3 / 20), (1, 1 / 4), (2, 7 / 20)])] := by decide +kernel

end Alipy.Exper
