import Verif.Props.Curve

/-!
# C124: the curves of methods compared on one task start together and, when everything is queried, end together
-/
namespace Alipy.Exper
open Alipy Spec

set_option linter.unusedSectionVars false
set_option linter.unusedSimpArgs false

variable {μ : Type} {env : Env μ} {k : Nat} {s₀ : LoopState}

/-- Two experiments on one task: the same splits, the same learner, the same test. The strategies may be different. -/
structure SameTask (e e' : Run μ) : Prop where
  n : e.n = e'.n
  labelled : ∀ k < e.n, e.Ls k = e'.Ls k
  unlabelled : ∀ k < e.n, e.Us k = e'.Us k
  train : e.env.train = e'.env.train
  perf : e.env.perf = e'.env.perf

/-- The model depends on which examples it is fitted to, not on the order in which they have been labelled. -/
def OrderFree (train : List Val → Except PyErr μ) : Prop := ∀ l l', (l.map Val.key).Perm (l'.map Val.key) → train l = train l'

/-- A strategy with batch size `b`: asked with a non-empty unlabelled set it returns distinct members, `b` of them or all if there are fewer. -/
def BatchStrategy (b : Nat) (strat : Nat → IC → IC → Except PyErr (List Val)) : Prop :=
  ∀ i L U, U.inner ≠ [] → U.keys.Nodup → ∃ sel, strat i L U = .ok sel ∧ sel.length = min b U.inner.length ∧ (sel.map Val.key).Nodup ∧ ∀ v ∈ sel, pyMem v U.inner = true

/-- What is said of every experiment: it has run, in rounds from splits of a training set into non-empty disjoint parts, without a stopping criterion, with a strategy that asks for members of
the unlabelled set. -/
structure QueriesAll (e : Run μ) (ls us : Nat → List Int) : Prop where
  ran : e.Sequential ∨ e.OneThread
  labelled : ∃ x, ∀ k < e.n, e.Ls k = idx x (ls k)
  unlabelled : ∃ y, ∀ k < e.n, e.Us k = idx y (us k)
  split : ∀ k < e.n, ls k ≠ [] ∧ us k ≠ [] ∧ ∀ i ∈ ls k, i ∉ us k
  strategy : ∀ k < e.n, ∀ m, GoodStrategy (fun i => e.env.strat k i m)
  stop : ∃ now, Stop.new none none now = .ok e.stop

theorem follows_inv {e : LoopEnv} (hst : GoodStrategy e.strat) {stop0 : Stop} {v : ℚ} {L0 U0 : IC} (hv : stop0.crit ≠ .none → stop0.value = some v)
    (hp : stop0.crit = .percentOfUnlabel → 0 ≤ v ∧ v ≤ 1) (hnum : ∀ k ∈ U0.keys, ∃ j, k = .num j) (hU0 : U0.inner ≠ []) (h0 : LoopInv e.clock stop0 v L0 U0 0 s₀) {i : Nat} {s : LoopState}
    (h : Follows e s₀ i s) : LoopInv e.clock stop0 v L0 U0 i s := by
  induction h with
  | start => exact h0
  | @next i s s' _ hf hb ih =>
    obtain ⟨b, hb', hiff⟩ := loop_decision ih hv hp (e.clock i)
    rw [hf] at hb'
    injection hb' with hb'
    subst hb'
    simp only [Bool.false_eq_true, false_iff, not_or] at hiff
    obtain ⟨s'', h1, h2, -⟩ := loop_body_step hst ih hnum hU0 hiff.1 hiff.2
    rw [h1] at hb
    injection hb with hb
    exact hb ▸ h2

/-- The invariant of the loop, for a round run with its own model and no criterion. -/
theorem ownRun_inv {x y : Bool} {ls us : List Int} (hls : ls ≠ []) (hus : us ≠ []) {stop : Stop} {now : ℚ} (hnew : Stop.new none none now = .ok stop)
    (hst : ∀ m, GoodStrategy (fun i => env.strat k i m)) {i : Nat} {m : μ} {s : LoopState}
    (h : OwnRun env k ⟨IC.mk' (idx x ls), IC.mk' (idx y us), StateIO.new (IC.mk' (idx x ls)) (IC.mk' (idx y us)), stop⟩ i m s) :
    LoopInv (env.clock k) stop 0 (IC.mk' (idx x ls)) (IC.mk' (idx y us)) i s ∧ ∀ now, ∃ b, s.stop.isStop now = .ok b ∧ (b = true ↔ s.U.inner = []) := by
  obtain ⟨a, b, hF⟩ := ownRun_follows h
  have hs : stop.crit = .none := by
    simp only [Stop.new, Stop.parse] at hnew
    cases hnew
    rfl
  have hI := follows_inv (e := lenv env k a b) (v := 0) (fun i L U hne => hst (a i) i L U hne) (by simp [hs]) (by simp [hs])
    (fun k hk => let ⟨i, _, e⟩ := (mem_mk'_idx y us k).1 hk; ⟨i, e⟩) (mk'_idx_ne y hus) (loopInv_init x y hls hus hnew 0) hF
  refine ⟨hI, fun t => ?_⟩
  obtain ⟨c, h1, h2⟩ := loop_decision hI (by simp [hs]) (by simp [hs]) t
  exact ⟨c, h1, by simpa [hs, BoundReached] using h2⟩

/-- At the end of a round everything is labelled, once. -/
theorem ends_with_everything {e : Run μ} {ls us : Nat → List Int} (h : QueriesAll e ls us) {j : Nat} (hj : j < e.n) {r : Round} (hr : e.rs[j]? = some r) :
    r.s.U.inner = [] ∧ r.s.L.keys.Nodup ∧ ∀ q, q ∈ r.s.L.keys ↔ ∃ i, (i ∈ ls j ∨ i ∈ us j) ∧ q = .num i := by
  obtain ⟨-, hown⟩ := run_own h.ran
  obtain ⟨-, m, hrun, hstop⟩ := hown j r hr
  obtain ⟨x, hx⟩ := h.labelled
  obtain ⟨y, hy⟩ := h.unlabelled
  obtain ⟨now, hnew⟩ := h.stop
  obtain ⟨h1, h2, h3⟩ := h.split j hj
  rw [hx j hj, hy j hj] at hrun
  obtain ⟨a, c, hF⟩ := ownRun_follows hrun
  obtain ⟨hI, hdec⟩ := ownRun_inv h1 h2 hnew (h.strategy j hj) hrun
  obtain ⟨r', hr', hU, hL⟩ := C23_no_criterion_labels_everything (lenv e.env j a c) (fun i L U hne => h.strategy j hj (a i) i L U hne) x y (ls j) (us j) h1 h2 h3 now e.stop hnew
  have g1 := hr' (r.i + (us j).length + 1) (by omega)
  have g2 := follows_loop hF ((us j).length + 1)
  rw [mainLoop, show r.i + (us j).length + 1 = r.i + ((us j).length + 1) by omega, g2, loop] at g1
  simp only [lenv, hstop, Option.some.injEq, Except.ok.injEq] at g1
  subst g1
  exact ⟨hU, IC.reachable_nodup hI.reachL, hL⟩

/-! ## The start -/

/-- **C124** Before the first query all methods have the same performance: in every round, and in the mean. -/
theorem C124_start {e e' : Run μ} (h : SameTask e e') :
    (∀ k < e.n, ∀ x, PerformanceAfter e.env k (IC.mk' (e.Ls k)) (IC.mk' (e.Us k)) 0 x ↔ PerformanceAfter e'.env k (IC.mk' (e'.Ls k)) (IC.mk' (e'.Us k)) 0 x) ∧
      ∀ v, MeanPerformance e.env e.Ls e.Us e.n 0 v ↔ MeanPerformance e'.env e'.Ls e'.Us e'.n 0 v := by
  have key : ∀ (e e' : Run μ), SameTask e e' → ∀ k < e.n, ∀ x, PerformanceAfter e.env k (IC.mk' (e.Ls k)) (IC.mk' (e.Us k)) 0 x →
      PerformanceAfter e'.env k (IC.mk' (e'.Ls k)) (IC.mk' (e'.Us k)) 0 x := by
    rintro e e' h k hk x ⟨L, U, m, h1, h2, h3⟩
    cases h1
    rw [h.labelled k hk, h.train] at h2
    rw [h.perf] at h3
    exact ⟨_, _, m, .start, h2, h3⟩
  have hsym : SameTask e' e :=
    ⟨h.n.symm, fun k hk => (h.labelled k (by rw [h.n]; exact hk)).symm, fun k hk => (h.unlabelled k (by rw [h.n]; exact hk)).symm, h.train.symm, h.perf.symm⟩
  refine ⟨fun k hk x => ⟨key e e' h k hk x, key e' e hsym k (by rw [← h.n]; exact hk) x⟩, fun v => ⟨?_, ?_⟩⟩
  · rintro ⟨p, h1, rfl⟩
    exact ⟨p, fun k hk => key e e' h k (by rw [h.n]; exact hk) _ (h1 k (by rw [h.n]; exact hk)), by rw [h.n]⟩
  · rintro ⟨p, h1, rfl⟩
    exact ⟨p, fun k hk => key e' e hsym k (by rw [← h.n]; exact hk) _ (h1 k (by rw [← h.n]; exact hk)), by rw [h.n]⟩

/-! ## The end -/

/-- **C124** When everything is queried the last performance does not depend on the strategy: in every round both methods have labelled the same examples at the end, and the performance
after the last query, however many there were, is the same number. -/
theorem C124_end {e e' : Run μ} (h : SameTask e e') (hfree : OrderFree e.env.train) {ls us : Nat → List Int} (hq : QueriesAll e ls us) (hq' : QueriesAll e' ls us)
    (hp : ∀ j < e.n, ∀ m, ∃ x, e.env.perf j m = .arr [x]) {j : Nat} (hj : j < e.n) {r r' : Round} (hr : e.rs[j]? = some r) (hr' : e'.rs[j]? = some r') :
    r.s.L.keys.Perm r'.s.L.keys ∧ r.s.U.inner = [] ∧ r'.s.U.inner = [] ∧
      ∃ x, PerformanceAfter e.env j (IC.mk' (e.Ls j)) (IC.mk' (e.Us j)) r.s.saver.states.length x ∧
        PerformanceAfter e'.env j (IC.mk' (e'.Ls j)) (IC.mk' (e'.Us j)) r'.s.saver.states.length x := by
  have hj' : j < e'.n := by rw [← h.n]; exact hj
  obtain ⟨u1, n1, k1⟩ := ends_with_everything hq hj hr
  obtain ⟨u2, n2, k2⟩ := ends_with_everything hq' hj' hr'
  have hperm : r.s.L.keys.Perm r'.s.L.keys := (List.perm_ext_iff_of_nodup n1 n2).2 fun q => by rw [k1, k2]
  refine ⟨hperm, u1, u2, ?_⟩
  obtain ⟨-, o1⟩ := run_own hq.ran
  obtain ⟨-, o2⟩ := run_own hq'.ran
  obtain ⟨-, m, hrun, -⟩ := o1 j r hr
  obtain ⟨-, m', hrun', -⟩ := o2 j r' hr'
  obtain ⟨l1, t1⟩ := ownRun_labelled hrun
  obtain ⟨l2, t2⟩ := ownRun_labelled hrun'
  have hm : m = m' := by
    have := hfree _ _ hperm
    rw [t1, h.train, t2] at this
    injection this
  subst hm
  obtain ⟨x, hx⟩ := hp j hj m
  rw [(ownRun_states hrun rfl).1, (ownRun_states hrun' rfl).1]
  exact ⟨x, ⟨_, _, m, l1, t1, hx⟩, ⟨_, _, m, l2, t2, by rw [← h.perf]; exact hx⟩⟩

/-! ## How many queries that takes -/

theorem discardAll_exact : ∀ (sel : List Val) (c : IC), (sel.map Val.key).Nodup → (∀ v ∈ sel, v.key ∈ c.keys) → (c.discardAll sel).inner.length + sel.length = c.inner.length
  | [], c, _, _ => by simp [IC.discardAll]
  | v :: sel, c, hn, hm => by
    simp only [List.map_cons, List.nodup_cons] at hn
    have e := IC.discard_keys c v
    have h1 := discardAll_exact sel (c.discard v) hn.2 (fun w hw => by
      rw [e]
      exact (List.mem_erase_of_ne (fun he => hn.1 (List.mem_map.2 ⟨w, hw, he⟩))).2 (hm w (List.mem_cons_of_mem _ hw)))
    have h2 := congrArg List.length e
    rw [List.length_erase_of_mem (hm v List.mem_cons_self)] at h2
    have h3 : 0 < c.keys.length := List.length_pos_of_mem (hm v List.mem_cons_self)
    simp only [IC.keys, List.length_map] at h2 h3
    simp only [IC.discardAll, List.length_cons]
    omega

/-- **C124** With batch size `b` every round takes `⌈|U| / b⌉` queries to label everything, so methods with the same batch size have curves of the same length. -/
theorem C124_number_of_queries {e : Run μ} {ls us : Nat → List Int} (hq : QueriesAll e ls us) {b : Nat} (hb : 0 < b)
    (hbatch : ∀ k < e.n, ∀ m, BatchStrategy b (fun i => e.env.strat k i m)) {j : Nat} (hj : j < e.n) (hnd : (us j).Nodup) {r : Round} (hr : e.rs[j]? = some r) :
    r.s.saver.states.length = ⌈((us j).length : ℚ) / b⌉₊ := by
  obtain ⟨hend, -⟩ := ends_with_everything hq hj hr
  obtain ⟨-, hown⟩ := run_own hq.ran
  obtain ⟨-, m, hrun, -⟩ := hown j r hr
  obtain ⟨x, hx⟩ := hq.labelled
  obtain ⟨y, hy⟩ := hq.unlabelled
  obtain ⟨now, hnew⟩ := hq.stop
  obtain ⟨h1, h2, -⟩ := hq.split j hj
  rw [hx j hj, hy j hj] at hrun
  have key : ∀ {i : Nat} {m : μ} {s : LoopState}, OwnRun e.env j ⟨IC.mk' (idx x (ls j)), IC.mk' (idx y (us j)), StateIO.new (IC.mk' (idx x (ls j))) (IC.mk' (idx y (us j))), e.stop⟩ i m s →
      s.U.inner.length = (us j).length - b * i ∧ (0 < i → b * (i - 1) < (us j).length) := by
    intro i m s h
    induction h with
    | start => exact ⟨by simp [mk'_idx_length_nodup y hnd], fun h => absurd h (by omega)⟩
    | @next i m s sel L' saver' stop' m' hr hf hs hu ht ha hp ih =>
      obtain ⟨hI, hdec⟩ := ownRun_inv h1 h2 hnew (hq.strategy j hj) hr
      obtain ⟨c, hc, hiff⟩ := hdec (e.env.clock j i)
      rw [hf] at hc
      injection hc with hc
      subst hc
      have hne : s.U.inner ≠ [] := fun h => by simpa using hiff.2 h
      obtain ⟨sel', g1, g2, g3, g4⟩ := hbatch j hj m i s.L s.U hne (IC.reachable_nodup hI.reachU)
      simp only [hs, Except.ok.injEq] at g1
      subst g1
      have g5 := discardAll_exact sel s.U g3 (fun v hv => key_of_pyMem (g4 v hv))
      have g6 : 0 < s.U.inner.length := List.length_pos_iff.2 hne
      refine ⟨?_, fun _ => ?_⟩
      · show (s.U.discardAll sel).inner.length = _
        rw [Nat.mul_succ]
        omega
      · simp only [Nat.add_sub_cancel]
        omega
  obtain ⟨k1, k2⟩ := key hrun
  rw [(ownRun_states hrun rfl).1]
  rw [hend, List.length_nil] at k1
  have hb' : (0 : ℚ) < b := by exact_mod_cast hb
  have hpos : 0 < r.i := by
    rcases Nat.eq_zero_or_pos r.i with h0 | h0
    · rw [h0] at k1
      have : (us j).length ≠ 0 := by simpa using h2
      omega
    · exact h0
  symm
  rw [Nat.ceil_eq_iff (by omega)]
  constructor
  · rw [lt_div_iff₀ hb']
    have := k2 hpos
    have h3 : ((b * (r.i - 1) : Nat) : ℚ) < ((us j).length : ℚ) := by exact_mod_cast this
    push_cast at h3
    rw [mul_comm]
    exact h3
  · rw [div_le_iff₀ hb']
    have : (us j).length ≤ b * r.i := by omega
    have h3 : ((us j).length : ℚ) ≤ ((b * r.i : Nat) : ℚ) := by exact_mod_cast this
    push_cast at h3
    rw [mul_comm]
    exact h3

/-! ## The curves drawn -/

theorem curve_ends {pts : List (ℚ × ℚ)} {N k : Nat} {P : Nat → ℚ → Prop} (hkN : k ∣ N) (hfun : ∀ q v w, P q v → P q w → v = w) (hs : (pts.map Prod.fst).Pairwise (· < ·))
    (hm : ∀ x v, (x, v) ∈ pts ↔ ∃ q : Nat, q ≤ N ∧ k ∣ q ∧ x = q ∧ P q v) {a z : ℚ} (ha : P 0 a) (hz : P N z) :
    pts.head? = some (0, a) ∧ pts.getLast? = some ((N : ℚ), z) := by
  have m0 : ((0 : ℚ), a) ∈ pts := (hm _ _).2 ⟨0, Nat.zero_le _, Nat.dvd_zero _, by simp, ha⟩
  have mN : ((N : ℚ), z) ∈ pts := (hm _ _).2 ⟨N, le_refl _, hkN, rfl, hz⟩
  have hs' : pts.Pairwise (fun p q => p.1 < q.1) := List.pairwise_map.1 hs
  constructor
  · cases pts with
    | nil => simp at m0
    | cons p ps =>
      obtain ⟨x, v⟩ := p
      obtain ⟨q, hq, -, rfl, hP⟩ := (hm x v).1 List.mem_cons_self
      rcases List.mem_cons.1 m0 with h | h
      · rw [← h]; rfl
      · have := (List.pairwise_cons.1 hs').1 _ h
        have hq0 : (0 : ℚ) ≤ q := by positivity
        exact absurd this (by simp only [not_lt]; exact hq0)
  · rcases List.eq_nil_or_concat pts with rfl | ⟨ps, p, rfl⟩
    · simp at mN
    · obtain ⟨x, v⟩ := p
      rw [List.concat_eq_append] at *
      obtain ⟨q, hq, -, rfl, hP⟩ := (hm x v).1 (by simp)
      rcases List.mem_append.1 mN with h | h
      · have := (List.pairwise_append.1 hs').2.2 _ h _ List.mem_cons_self
        have hq' : (q : ℚ) ≤ N := by exact_mod_cast hq
        exact absurd this (by simp only [not_lt]; exact hq')
      · rw [List.mem_singleton.1 h]; simp

theorem meanPerformance_unique {Ls Us : Nat → List Val} {n q : Nat} {v w : ℚ} (h : MeanPerformance env Ls Us n q v) (h' : MeanPerformance env Ls Us n q w) : v = w := by
  obtain ⟨p, h1, rfl⟩ := h
  obtain ⟨p', h1', rfl⟩ := h'
  congr 2
  exact List.map_congr_left fun k hk => performanceAfter_unique (h1 k (List.mem_range.1 hk)) (h1' k (List.mem_range.1 hk))

/-- **C124** The curves that the analyser draws. Experiments on one task, each with a strategy of its own and its own batch size, query everything; the model does not depend on the order of the
labelled examples. Then all curves begin in one point, `(0, first)`, and the curve of a method with batch size `b` ends in `(⌈|U| / b⌉, last)`, at a height that is the same for all methods.
(`k` is the interval of the points that are drawn; the end is drawn if it is a multiple of it, which it always is for the default 1.) -/
theorem C124_curves {k : Nat} (hk : 0 < k) {es : List (Run μ)} (hne : es ≠ []) (hnames : (es.map Run.name).Nodup) (b : Run μ → Nat) (ls us : Nat → List Int) (M : Nat)
    (hsame : ∀ e ∈ es, ∀ e' ∈ es, SameTask e e') (hfree : ∀ e ∈ es, OrderFree e.env.train) (hq : ∀ e ∈ es, QueriesAll e ls us)
    (h : ∀ e ∈ es, 0 < e.n ∧ (∀ j < e.n, ∀ m, ∃ x, e.env.perf j m = .arr [x]) ∧ (∀ j < e.n, (us j).Nodup ∧ (us j).length = M) ∧ 0 < b e ∧
      (∀ j < e.n, ∀ m, BatchStrategy (b e) (fun i => e.env.strat j i m)) ∧ k ∣ ⌈(M : ℚ) / b e⌉₊) :
    ∃ R : Run μ → Analyser.Results ℚ, (∀ e ∈ es, results e.rs = some (R e)) ∧ ∃ a, Analyser.addMethods ⟨[], true⟩ (es.map (fun e => (e.name, R e))) = .ok a ∧
      ∃ cs, Analyser.plotCurves a none none k = .ok cs ∧ ∃ first last : ℚ,
        List.Forall₂ (fun (e : Run μ) c => c.1 = e.name ∧ c.2.head? = some (0, first) ∧ c.2.getLast? = some ((⌈(M : ℚ) / b e⌉₊ : ℚ), last)) es cs := by
  have hN : ∀ e ∈ es, ∀ (r : Round), r ∈ e.rs → r.s.saver.states.length = ⌈(M : ℚ) / b e⌉₊ := by
    intro e he r hr
    obtain ⟨-, -, h3, h4, h5, -⟩ := h e he
    obtain ⟨hlen, -⟩ := run_own (hq e he).ran
    obtain ⟨j, hj, rfl⟩ := List.getElem_of_mem hr
    have hj' : j < e.n := by omega
    rw [C124_number_of_queries (hq e he) h4 h5 hj' (h3 j hj').1 (List.getElem?_eq_getElem hj), (h3 j hj').2]
  obtain ⟨R, hR, a, ha, cs, hcs, hf⟩ := C114_curve hk hne hnames (fun e => ⌈(M : ℚ) / b e⌉₊)
    (fun e he => ⟨(h e he).1, (hq e he).ran, (h e he).2.1, hN e he⟩)
  refine ⟨R, hR, a, ha, cs, hcs, ?_⟩
  obtain ⟨e₀, he₀⟩ := List.exists_mem_of_ne_nil _ hne
  -- the performances of the first experiment at the start and at the end
  have hval : ∃ first last : ℚ, ∀ e ∈ es, MeanPerformance e.env e.Ls e.Us e.n 0 first ∧ MeanPerformance e.env e.Ls e.Us e.n ⌈(M : ℚ) / b e⌉₊ last := by
    obtain ⟨hlen₀, hown₀⟩ := run_own (hq e₀ he₀).ran
    have hr₀ : ∀ j (hj : j < e₀.n), e₀.rs[j]? = some (e₀.rs[j]'(by omega)) := fun j hj => List.getElem?_eq_getElem (by omega)
    have hfirst : ∀ j, ∃ x, j < e₀.n → PerformanceAfter e₀.env j (IC.mk' (e₀.Ls j)) (IC.mk' (e₀.Us j)) 0 x := by
      intro j
      by_cases hj : j < e₀.n
      · obtain ⟨⟨m, ht, -⟩, -⟩ := hown₀ j _ (hr₀ j hj)
        obtain ⟨x, hx⟩ := (h e₀ he₀).2.1 j hj m
        exact ⟨x, fun _ => ⟨_, _, m, .start, ht, hx⟩⟩
      · exact ⟨0, fun h => absurd h hj⟩
    have hlast : ∀ j, ∃ x, j < e₀.n → PerformanceAfter e₀.env j (IC.mk' (e₀.Ls j)) (IC.mk' (e₀.Us j)) ⌈(M : ℚ) / b e₀⌉₊ x := by
      intro j
      by_cases hj : j < e₀.n
      · obtain ⟨-, -, -, x, hx, -⟩ := C124_end (hsame e₀ he₀ e₀ he₀) (hfree e₀ he₀) (hq e₀ he₀) (hq e₀ he₀) (h e₀ he₀).2.1 hj (hr₀ j hj) (hr₀ j hj)
        rw [hN e₀ he₀ _ (List.getElem_mem _)] at hx
        exact ⟨x, fun _ => hx⟩
      · exact ⟨0, fun h => absurd h hj⟩
    choose p hp using hfirst
    choose z hz using hlast
    refine ⟨((List.range e₀.n).map p).sum / e₀.n, ((List.range e₀.n).map z).sum / e₀.n, fun e he => ⟨?_, z, fun j hj => ?_, by rw [(hsame e₀ he₀ e he).n]⟩⟩
    · exact ((C124_start (hsame e₀ he₀ e he)).2 _).1 ⟨p, hp, rfl⟩
    · have hj₀ : j < e₀.n := by rw [(hsame e₀ he₀ e he).n]; exact hj
      obtain ⟨hlen, -⟩ := run_own (hq e he).ran
      obtain ⟨-, -, -, x, hx, hx'⟩ := C124_end (hsame e₀ he₀ e he) (hfree e₀ he₀) (hq e₀ he₀) (hq e he) (h e₀ he₀).2.1 hj₀ (hr₀ j hj₀)
        (List.getElem?_eq_getElem (l := e.rs) (i := j) (by omega))
      rw [hN e₀ he₀ _ (List.getElem_mem _)] at hx
      rw [hN e he _ (List.getElem_mem _)] at hx'
      rw [performanceAfter_unique (hz j hj₀) hx]
      exact hx'
  obtain ⟨first, last, hv⟩ := hval
  refine ⟨first, last, ?_⟩
  rw [List.forall₂_iff_get] at hf ⊢
  refine ⟨hf.1, fun i h1 h2 => ?_⟩
  obtain ⟨h3, h4, h5⟩ := hf.2 i h1 h2
  have he : es.get ⟨i, h1⟩ ∈ es := List.get_mem es ⟨i, h1⟩
  exact ⟨h3, curve_ends (P := fun q v => MeanPerformance (es.get ⟨i, h1⟩).env (es.get ⟨i, h1⟩).Ls (es.get ⟨i, h1⟩).Us (es.get ⟨i, h1⟩).n q v) (h _ he).2.2.2.2.2 (fun q v w => meanPerformance_unique) h4 h5 (hv _ he).1 (hv _ he).2⟩

/-! ## A case: two strategies, one takes the first two, the other the last example; the performance is the sum of the labelled indexes -/

def mtSum (l : List Val) : ℚ := ((l.map Val.key).map (fun q => match q with | .num i => (i : ℚ) | _ => 0)).sum
def mtEnv (s : IC → List Val) : Env ℚ := ⟨fun l => .ok (mtSum l), fun _ m => .arr [m], fun _ _ _ _ U => .ok (s U), fun k i => 10 * k + i⟩
def mtStop : Stop := ⟨.none, none, none, 0, 0, 0, 100, 0⟩
def mtLs (k : Nat) : List Val := idx true (if k = 0 then [0] else [1])
def mtUs (k : Nat) : List Val := idx true (if k = 0 then [5, 6, 7] else [2, 3, 4])
def mtRounds (s : IC → List Val) : List Round := (((sequential (mtEnv s) (fun k => Round.new (mtLs k) (mtUs k) mtStop) 40 2 0 none).getD (.ok [])).toOption).getD []
def mtRun (name : String) (s : IC → List Val) : Run ℚ := ⟨name, mtEnv s, mtLs, mtUs, mtStop, 2, mtRounds s⟩
def mtTwo : Run ℚ := mtRun "two" (fun U => U.inner.take 2)
def mtOne : Run ℚ := mtRun "one" (fun U => U.inner.drop (U.inner.length - 1))

example : mtTwo.Sequential := ⟨40, none, by rfl⟩
example : mtOne.Sequential := ⟨40, none, by rfl⟩
example : SameTask mtTwo mtOne := ⟨rfl, fun _ _ => rfl, fun _ _ => rfl, rfl, rfl⟩
example : Stop.new none none 0 = .ok mtStop := by rfl
example : OrderFree mtTwo.env.train := fun _ _ h => congrArg Except.ok (List.Perm.sum_eq (h.map _))
theorem mt_two_batch (k : Nat) (m : ℚ) : BatchStrategy 2 (fun i => mtTwo.env.strat k i m) := fun _ _ U _ hn =>
  ⟨_, rfl, by simp, by rw [List.map_take]; exact hn.sublist (List.take_sublist _ _), fun v hv => (IC.pyMem_iff _ _).2 (List.mem_map_of_mem (List.mem_of_mem_take hv))⟩
example : QueriesAll mtTwo (fun k => if k = 0 then [0] else [1]) (fun k => if k = 0 then [5, 6, 7] else [2, 3, 4]) where
  ran := .inl ⟨40, none, by rfl⟩
  labelled := ⟨true, fun _ _ => rfl⟩
  unlabelled := ⟨true, fun _ _ => rfl⟩
  split k _ := by by_cases hk : k = 0 <;> simp [hk]
  strategy k _ m i L U hne := ⟨_, rfl, by simpa [mtTwo] using hne, fun v hv => (IC.pyMem_iff _ _).2 (List.mem_map_of_mem (List.mem_of_mem_take hv))⟩
  stop := ⟨0, rfl⟩
/-- The curves: both begin in (0, 1/2) and end at 14, after two and after three queries. -/
example : (results mtTwo.rs).bind (fun R => (results mtOne.rs).bind (fun R' => ((Analyser.addMethods ⟨[], true⟩ [("two", R), ("one", R')]).toOption.bind
    (fun a => (Analyser.plotCurves a none none 1).toOption)))) =
    some [("two", [(0, 1 / 2), (1, 17 / 2), (2, 14)]), ("one", [(0, 1 / 2), (1, 6), (2, 21 / 2), (3, 14)])] := by decide +kernel

end Alipy.Exper
