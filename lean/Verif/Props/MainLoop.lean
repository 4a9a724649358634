import Verif.Proof.MainLoop

/-! # C23, C24: the main loop of `AlExperiment` -/
namespace Alipy
open Spec
open StateIO (getWorkspace)

theorem reachable_mk' (l : List Val) : IC.Reachable (IC.mk' l) := .construct l

theorem mk'_idx_length (np : Bool) (l : List Int) : (IC.mk' (idx np l)).inner.length ≤ l.length := by
  have hsub : (IC.mk' (idx np l)).keys ⊆ l.map Key.num := by
    intro k hk
    obtain ⟨i, hi, rfl⟩ := (mem_mk'_idx np l k).1 hk
    exact List.mem_map.2 ⟨i, hi, rfl⟩
  have := (List.subperm_of_subset (IC.reachable_nodup (reachable_mk' _)) hsub).length_le
  simpa [IC.keys] using this

theorem mk'_idx_ne (np : Bool) {l : List Int} (h : l ≠ []) : (IC.mk' (idx np l)).inner ≠ [] := by
  obtain ⟨i, hi⟩ := List.exists_mem_of_ne_nil _ h
  intro e
  have := (mem_mk'_idx np l (.num i)).2 ⟨i, hi, rfl⟩
  simp [IC.keys, e] at this

theorem loopInv_init {clock : Nat → ℚ} (a b : Bool) {ls us : List Int} (hls : ls ≠ []) (hus : us ≠ []) {name : Option String}
    {value : Option PyNum} {now : ℚ} {stop : Stop} (hnew : Stop.new name value now = .ok stop) (v : ℚ) :
    LoopInv clock stop v (IC.mk' (idx a ls)) (IC.mk' (idx b us)) 0
      ⟨IC.mk' (idx a ls), IC.mk' (idx b us), StateIO.new (IC.mk' (idx a ls)) (IC.mk' (idx b us)), stop⟩ := by
  have hs : stop.unlabel = 100 ∧ stop.iter = 0 ∧ stop.accum = 0 ∧ stop.percent = 0 := by
    unfold Stop.new at hnew
    split at hnew
    · cases hnew
    · split at hnew <;> cases hnew <;> simp
    · cases hnew; simp
  obtain ⟨s1, s2, s3, s4⟩ := hs
  have hne := mk'_idx_ne b hus
  refine ⟨rfl, rfl, ?_, rfl, rfl, ⟨[], .nil, by simp, by simp⟩, reachable_mk' _, reachable_mk' _, ety_mk'_idx a ls hls,
    fun k hk => hk, rfl, rfl, rfl, by simp [s1, hne], fun _ => s2, fun _ => s3, fun _ => by simp [s4], ?_⟩
  · simp [getWorkspace, StateIO.new, StateIO.replay]
  · intro k hk; simp [StateIO.new] at hk

/-- C23 and the part of C24 about the end of the loop, for every criterion. The loop gets index lists (or arrays) `ls`, `us` and
a strategy that returns, from a non-empty unlabelled set, a non-empty list of its members (arbitrary otherwise, also depending on
the iteration). Then the loop ends after at most `|us|` iterations, without error, and
* labelled and unlabelled set are at the end a partition of the training set (the same set as at the start),
* every recorded query was non-empty and made, at the time, from unlabelled and not yet labelled examples,
* the loop stopped exactly when it had to: the unlabelled set is empty or the bound is reached at the end, and neither was the
  case before any of the recorded queries. -/
theorem C23_main_loop_ends_and_keeps_the_partition (env : LoopEnv) (hst : GoodStrategy env.strat) (a b : Bool) (ls us : List Int)
    (hls : ls ≠ []) (hus : us ≠ []) (hdis : ∀ i ∈ ls, i ∉ us) (name : Option String) (value : Option PyNum) (now : ℚ)
    (stop : Stop) (hnew : Stop.new name value now = .ok stop) (v : ℚ) (hv : stop.crit ≠ .none → stop.value = some v)
    (hp : stop.crit = .percentOfUnlabel → 0 ≤ v ∧ v ≤ 1) :
    ∃ r, (∀ fuel, us.length < fuel → mainLoop env (idx a ls) (idx b us) stop fuel = some (.ok r)) ∧
      -- partition
      (∀ k, k ∈ r.L.keys ∨ k ∈ r.U.keys ↔ ∃ i, (i ∈ ls ∨ i ∈ us) ∧ k = .num i) ∧ (∀ k ∈ r.L.keys, k ∉ r.U.keys) ∧
      r.L.keys.Nodup ∧ r.U.keys.Nodup ∧
      -- the queries
      (∃ sel, Recorded r.saver.states sel ∧ ∀ (k : Nat) x, sel[k]? = some x → x ≠ [] ∧ ∃ L U,
        getWorkspace icOps r.saver (some k) = .ok (L, U) ∧ ∀ w ∈ x, pyMem w U.inner = true ∧ pyMem w L.inner = false) ∧
      -- stopped in time and not too early
      (r.U.inner = [] ∨ BoundReached stop.crit v r.saver.states.length 0 (IC.mk' (idx b us)).inner.length r.U.inner.length
        (env.clock r.saver.states.length - stop.startTime)) ∧
      ∀ k : Nat, k < r.saver.states.length → ∃ L U, getWorkspace icOps r.saver (some k) = .ok (L, U) ∧ U.inner ≠ [] ∧
        ¬ BoundReached stop.crit v k 0 (IC.mk' (idx b us)).inner.length U.inner.length (env.clock k - stop.startTime) := by
  have hinit := loopInv_init (clock := env.clock) a b hls hus hnew v
  have hnum : ∀ k ∈ (IC.mk' (idx b us)).keys, ∃ j, k = .num j := fun k hk =>
    let ⟨i, _, e⟩ := (mem_mk'_idx b us k).1 hk; ⟨i, e⟩
  obtain ⟨r, j, h1, h2, h3⟩ := loop_ends hst hv hp hnum (mk'_idx_ne b hus) (us.length + 1) 0 _ hinit
    (by have := mk'_idx_length b us; show (IC.mk' (idx b us)).inner.length < _; omega)
  obtain ⟨sel, r1, r2, r3⟩ := h2.recd
  have hdis' : ∀ k, k ∈ r.saver.initL.keys → k ∉ r.saver.initU.keys := by
    intro k hk hk'
    rw [h2.initL] at hk; rw [h2.initU] at hk'
    obtain ⟨i, hi, rfl⟩ := (mem_mk'_idx a ls k).1 hk
    obtain ⟨i', hi', e⟩ := (mem_mk'_idx b us _).1 hk'
    cases e
    exact hdis i hi hi'
  have hL : IC.Reachable r.saver.initL := by rw [h2.initL]; exact reachable_mk' _
  have hU : IC.Reachable r.saver.initU := by rw [h2.initU]; exact reachable_mk' _
  have hE : r.saver.initL.ety = some ⟨false, .int⟩ := by rw [h2.initL]; exact ety_mk'_idx a ls hls
  have hC := StateIO.C17_single_label ⟨false, .int⟩ r.saver sel r1 (fun x hx => (r2 x hx).2) hL hE hU hdis' r3
  have hlen := StateIO.recorded_length r1
  have hnone : getWorkspace icOps r.saver (some r.saver.states.length) = .ok (r.L, r.U) := by
    have := h2.ws
    simpa [getWorkspace] using this
  obtain ⟨L, U, e, d1, d2⟩ := hC r.saver.states.length (Nat.le_refl _)
  rw [hnone] at e
  cases e
  refine ⟨r, ?_, ?_, d1, IC.reachable_nodup h2.reachL, IC.reachable_nodup h2.reachU, ⟨sel, r1, ?_⟩, ?_, h2.early⟩
  · intro fuel hf
    obtain ⟨k, rfl⟩ := Nat.exists_eq_add_of_le (Nat.succ_le_of_lt hf)
    exact loop_mono _ _ _ _ k h1
  · intro k
    have := d2.mem_iff (a := k)
    rw [List.mem_append, List.mem_append, h2.initL, h2.initU, mem_mk'_idx, mem_mk'_idx] at this
    rw [this]
    constructor
    · rintro (⟨i, hi, rfl⟩ | ⟨i, hi, rfl⟩)
      · exact ⟨i, .inl hi, rfl⟩
      · exact ⟨i, .inr hi, rfl⟩
    · rintro ⟨i, hi | hi, rfl⟩
      · exact .inl ⟨i, hi, rfl⟩
      · exact .inr ⟨i, hi, rfl⟩
  · intro k x hx
    have hk : k < sel.length := (List.getElem?_eq_some_iff.1 hx).1
    obtain ⟨L, U, e, g1, -⟩ := hC k (by omega)
    refine ⟨(r2 x (List.mem_of_getElem? hx)).1, L, U, e, fun w hw => ?_⟩
    obtain ⟨L', U', e', hm⟩ := r3 k x hx w hw
    rw [e] at e'
    cases e'
    refine ⟨hm, ?_⟩
    rw [← Bool.not_eq_true, IC.pyMem_iff]
    exact fun hl => g1 _ hl ((IC.pyMem_iff _ _).1 hm)
  · have := h2.iter
    rw [this]
    rwa [h2.iter] at h3

/-- C23 (query budget): with `num_of_queries = n` exactly `n` states are recorded, unless the unlabelled set is used up before
(then at most `n`). -/
theorem C23_exactly_n_queries (env : LoopEnv) (hst : GoodStrategy env.strat) (a b : Bool) (ls us : List Int)
    (hls : ls ≠ []) (hus : us ≠ []) (hdis : ∀ i ∈ ls, i ∉ us) (n : Nat) (now : ℚ) (stop : Stop)
    (hnew : Stop.new (some "num_of_queries") (some (.int n)) now = .ok stop) :
    ∃ r, (∀ fuel, us.length < fuel → mainLoop env (idx a ls) (idx b us) stop fuel = some (.ok r)) ∧
      r.saver.states.length ≤ n ∧ (r.saver.states.length = n ∨ r.U.inner = []) := by
  have hs : stop.crit = .numOfQueries ∧ stop.value = some (n : ℚ) := by
    simp only [Stop.new, Stop.parse] at hnew
    cases hnew
    simp
  obtain ⟨r, h1, -, -, -, -, -, h2, h3⟩ := C23_main_loop_ends_and_keeps_the_partition env hst a b ls us hls hus hdis _ _ now stop
    hnew n (fun _ => hs.2) (by simp [hs.1])
  simp only [hs.1, BoundReached, Nat.cast_le] at h2 h3
  have hle : r.saver.states.length ≤ n := by
    by_contra hc
    obtain ⟨L, U, -, -, h⟩ := h3 n (by omega)
    exact h (Nat.le_refl n)
  exact ⟨r, h1, hle, h2.symm.imp (fun h => by omega) id⟩

/-- Without a criterion the loop labels everything. -/
theorem C23_no_criterion_labels_everything (env : LoopEnv) (hst : GoodStrategy env.strat) (a b : Bool) (ls us : List Int)
    (hls : ls ≠ []) (hus : us ≠ []) (hdis : ∀ i ∈ ls, i ∉ us) (now : ℚ) (stop : Stop)
    (hnew : Stop.new none none now = .ok stop) :
    ∃ r, (∀ fuel, us.length < fuel → mainLoop env (idx a ls) (idx b us) stop fuel = some (.ok r)) ∧ r.U.inner = [] ∧
      ∀ k, k ∈ r.L.keys ↔ ∃ i, (i ∈ ls ∨ i ∈ us) ∧ k = .num i := by
  have hs : stop.crit = .none := by
    simp only [Stop.new, Stop.parse] at hnew
    cases hnew
    rfl
  obtain ⟨r, h1, h2, -, -, -, -, h3, -⟩ := C23_main_loop_ends_and_keeps_the_partition env hst a b ls us hls hus hdis _ _ now stop
    hnew 0 (by simp [hs]) (by simp [hs])
  have hU : r.U.inner = [] := by simpa [hs, BoundReached] using h3
  refine ⟨r, h1, hU, fun k => ?_⟩
  rw [← h2 k]
  simp [IC.keys, hU]

/-- Finding: an unlabelled set that is empty at the start is not noticed; without criterion the loop always makes one query. -/
theorem C23_empty_pool_is_queried (env : LoopEnv) (Ldata : List Val) (now : ℚ) (stop : Stop) (e : PyErr)
    (hnew : Stop.new none none now = .ok stop) (hstrat : env.strat 0 (IC.mk' Ldata) (IC.mk' []) = .error e) (fuel : Nat)
    (hf : 0 < fuel) : mainLoop env Ldata [] stop fuel = some (.error e) := by
  have hs : stop = ⟨.none, none, none, now, 0, 0, 100, 0⟩ := by
    simp only [Stop.new, Stop.parse] at hnew
    cases hnew
    rfl
  obtain ⟨k, rfl⟩ := Nat.exists_eq_add_of_le hf
  rw [Nat.add_comm]
  subst hs
  simp [mainLoop, loop, Stop.isStop, loopBody, hstrat]

/-! ## C24 -/

/-- C24, what holds: with `cost_limit = c` the loop stops at once if `c ≤ 0`, and otherwise only when the unlabelled set is empty.
Missing: the states recorded by the loop carry no cost, so the limit is not honoured (`C24_cost_limit_violation`). In a loop
written by the user that records costs the limit is honoured, by C21. -/
theorem C24_cost_limit_partial (env : LoopEnv) (hst : GoodStrategy env.strat) (a b : Bool) (ls us : List Int)
    (hls : ls ≠ []) (hus : us ≠ []) (hdis : ∀ i ∈ ls, i ∉ us) (c : PyNum) (now : ℚ) (stop : Stop)
    (hnew : Stop.new (some "cost_limit") (some c) now = .ok stop) :
    ∃ r, (∀ fuel, us.length < fuel → mainLoop env (idx a ls) (idx b us) stop fuel = some (.ok r)) ∧
      (c.val ≤ 0 → r.saver.states = []) ∧ (0 < c.val → r.U.inner = []) := by
  have hs : stop.crit = .costLimit ∧ stop.value = some c.val := by
    simp only [Stop.new, Stop.parse] at hnew
    cases hnew
    simp
  obtain ⟨r, h1, -, -, -, -, -, h2, h3⟩ := C23_main_loop_ends_and_keeps_the_partition env hst a b ls us hls hus hdis _ _ now stop
    hnew c.val (fun _ => hs.2) (by simp [hs.1])
  simp only [hs.1, BoundReached] at h2 h3
  refine ⟨r, h1, fun hc => ?_, fun hc => h2.resolve_right (not_le.2 hc)⟩
  by_contra hne
  obtain ⟨L, U, -, -, h⟩ := h3 0 (List.length_pos_of_ne_nil hne)
  exact h hc

/-- C24, violation: every positive limit, however small, lets the loop label the whole training set, and the saver reports
cost 0 throughout. -/
theorem C24_cost_limit_violation (env : LoopEnv) (hst : GoodStrategy env.strat) (a b : Bool) (ls us : List Int)
    (hls : ls ≠ []) (hus : us ≠ []) (c : PyNum) (hc : 0 < c.val) (now : ℚ) (stop : Stop)
    (hnew : Stop.new (some "cost_limit") (some c) now = .ok stop) :
    ∃ r, (∀ fuel, us.length < fuel → mainLoop env (idx a ls) (idx b us) stop fuel = some (.ok r)) ∧
      r.U.inner = [] ∧ r.saver.cost = 0 ∧ r.saver.states ≠ [] := by
  have hs : stop.crit = .costLimit ∧ stop.value = some c.val := by
    simp only [Stop.new, Stop.parse] at hnew
    cases hnew
    simp
  have hinit := loopInv_init (clock := env.clock) a b hls hus hnew c.val
  have hnum : ∀ k ∈ (IC.mk' (idx b us)).keys, ∃ j, k = .num j := fun k hk =>
    let ⟨i, _, e⟩ := (mem_mk'_idx b us k).1 hk; ⟨i, e⟩
  obtain ⟨r, j, h1, h2, h3⟩ := loop_ends hst (fun _ => hs.2) (by simp [hs.1]) hnum (mk'_idx_ne b hus) (us.length + 1) 0 _ hinit
    (by have := mk'_idx_length b us; show (IC.mk' (idx b us)).inner.length < _; omega)
  simp only [hs.1, BoundReached] at h3
  have hU := h3.resolve_right (not_le.2 hc)
  refine ⟨r, fun fuel hf => ?_, hU, h2.cost, fun he => ?_⟩
  · obtain ⟨k, rfl⟩ := Nat.exists_eq_add_of_le (Nat.succ_le_of_lt hf)
    exact loop_mono _ _ _ _ k h1
  · have := h2.ws
    simp [getWorkspace, he, StateIO.replay, h2.initU, h2.initL] at this
    have h4 := mk'_idx_ne b hus
    rw [this.2] at h4
    exact h4 hU

/-- A strategy meeting the hypotheses: take the first two unlabelled examples. -/
def firstTwo : LoopEnv := ⟨fun _ _ U => .ok (U.inner.take 2), fun _ => .other 0, fun i => i⟩

example : GoodStrategy firstTwo.strat := by
  intro i L U h
  refine ⟨U.inner.take 2, rfl, ?_, fun v hv => ?_⟩
  · cases hu : U.inner with
    | nil => exact absurd hu h
    | cons x l => simp
  · rw [IC.pyMem_iff]
    exact List.mem_map.2 ⟨v, List.mem_of_mem_take hv, rfl⟩

example : ((mainLoop firstTwo (idx true [0, 1]) (idx true [2, 3, 4, 5, 6]) ⟨.numOfQueries, some 2, some 2, 0, 0, 0, 100, 0⟩ 6).bind
    (fun r => r.toOption.map (fun r => (r.saver.states.length, r.U.keys)))) = some (2, [.num 6]) := by rfl

example : Stop.new (some "num_of_queries") (some (.int (2 : Nat))) 0 = .ok ⟨.numOfQueries, some 2, some 2, 0, 0, 0, 100, 0⟩ := by
  rfl

end Alipy
