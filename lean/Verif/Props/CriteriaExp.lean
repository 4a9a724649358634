import Verif.Props.Criteria
import Verif.Props.Curve

/-! # C147 for `AlExperiment` -/
namespace Alipy.Criteria
open Alipy Alipy.Spec Alipy.Limits

theorem body_few {env : LoopEnv} (h1 : ∀ i L U sel, env.strat i L U = .ok sel → sel.length ≤ 1) {i : Nat} {s r : LoopState}
    (hb : loopBody env i s = .ok r) : s.U.inner.length ≤ r.U.inner.length + 1 := by
  unfold loopBody at hb
  cases e1 : env.strat i s.L s.U with
  | error e => rw [e1] at hb; cases hb
  | ok sel =>
    rw [e1] at hb
    simp only at hb
    cases h2 : s.L.update (.many sel) with
    | mk L' e =>
      rw [h2] at hb
      cases e with
      | some e => cases hb
      | none =>
        simp only at hb
        cases h3 : s.saver.addState icOps (.st (State.new icOps (.inr sel) (env.perf i) Option.none Option.none)) with
        | mk saver' e =>
          rw [h3] at hb
          cases e with
          | some e => cases hb
          | none =>
            simp only at hb
            cases h4 : s.stop.update icOps saver' with
            | error e => rw [h4] at hb; cases hb
            | ok st =>
              rw [h4] at hb
              cases hb
              have := Exper.discardAll_length sel s.U
              have := h1 _ _ _ _ e1
              show s.U.inner.length ≤ (s.U.discardAll sel).inner.length + 1
              omega

theorem loop_counts {env : LoopEnv} (hst : GoodStrategy env.strat) {stop0 : Stop} {v : ℚ} {L0 U0 : IC}
    (hv : stop0.crit ≠ .none → stop0.value = some v) (hp : stop0.crit = .percentOfUnlabel → 0 ≤ v ∧ v ≤ 1)
    (hnum : ∀ k ∈ U0.keys, ∃ j, k = .num j) (hU0 : U0.inner ≠ []) : ∀ (fuel i : Nat) (s : LoopState),
    LoopInv env.clock stop0 v L0 U0 i s → s.U.inner.length < fuel → s.U.inner.length + i ≤ U0.inner.length →
    ((∀ i L U sel, env.strat i L U = .ok sel → sel.length ≤ 1) → U0.inner.length ≤ s.U.inner.length + i) →
    ∃ r j, loop env fuel i s = some (.ok r) ∧ LoopInv env.clock stop0 v L0 U0 j r ∧ (r.U.inner = [] ∨
      BoundReached stop0.crit v r.saver.states.length 0 U0.inner.length r.U.inner.length (env.clock j - stop0.startTime)) ∧
      r.U.inner.length + j ≤ U0.inner.length ∧
      ((∀ i L U sel, env.strat i L U = .ok sel → sel.length ≤ 1) → U0.inner.length ≤ r.U.inner.length + j) := by
  intro fuel
  induction fuel with
  | zero => intro i s _ hf; omega
  | succ fuel ih =>
    intro i s h hf c1 c2
    obtain ⟨b, hb, hiff⟩ := loop_decision h hv hp (env.clock i)
    cases b with
    | true => exact ⟨s, i, by simp [loop, hb], h, hiff.1 rfl, c1, c2⟩
    | false =>
      have hn : ¬ (s.U.inner = [] ∨ _) := fun hh => by have := hiff.2 hh; cases this
      rw [not_or] at hn
      obtain ⟨s', h1, h2, h3⟩ := loop_body_step hst h hnum hU0 hn.1 hn.2
      obtain ⟨r, j, g1, g2, g3, g4, g5⟩ := ih (i + 1) s' h2 (by omega) (by omega) (fun hs => by
        have := body_few hs h1
        have := c2 hs
        omega)
      exact ⟨r, j, by simp [loop, hb, h1, g1], g2, g3, g4, g5⟩

/-- The rounds of the experiment, without looking at the criterion. -/
def expRounds (env : LoopEnv) : Nat → Nat → LoopState → Except PyErr LoopState
  | 0, _, s => .ok s
  | n + 1, i, s =>
    match loopBody env i s with
    | .error e => .error e
    | .ok s' => expRounds env n (i + 1) s'

theorem expRounds_of {env : LoopEnv} : ∀ {fuel i : Nat} {s r : LoopState} {t : Stop}, Later s.stop t → loop env fuel i s = some (.ok r) →
    ∃ n t', expRounds env n i { s with stop := t } = .ok { r with stop := t' } ∧ r.saver.states.length = s.saver.states.length + n
  | 0, _, _, _, _, _, h => by simp [loop] at h
  | fuel + 1, i, s, r, t, hl, h => by
    rw [loop] at h
    cases h1 : s.stop.isStop (env.clock i) with
    | error e => rw [h1] at h; simp at h
    | ok b =>
      rw [h1] at h
      cases b with
      | true =>
        simp only [Option.some.injEq, Except.ok.injEq] at h
        subst h
        exact ⟨0, t, rfl, rfl⟩
      | false =>
        simp only at h
        cases h2 : loopBody env i s with
        | error e => rw [h2] at h; simp at h
        | ok s' =>
          rw [h2] at h
          obtain ⟨t1, hl1, e1⟩ := body_later hl h2
          obtain ⟨n, t', hn, hlen⟩ := expRounds_of hl1 h
          have hs := (body_onward h2).2
          refine ⟨n + 1, t', ?_, by omega⟩
          rw [expRounds, e1]
          exact hn

theorem expRounds_onward {env : LoopEnv} : ∀ {n i : Nat} {s r : LoopState}, expRounds env n i s = .ok r → Onward s.L r.L s.U r.U s.saver r.saver
  | 0, _, _, _, h => by cases h; exact Onward.refl _ _ _
  | n + 1, i, s, r, h => by
    rw [expRounds] at h
    cases h2 : loopBody env i s with
    | error e => rw [h2] at h; simp at h
    | ok s' =>
      rw [h2] at h
      exact (body_onward h2).1.trans (expRounds_onward h)

theorem expRounds_add {env : LoopEnv} : ∀ {n m i : Nat} {s : LoopState}, expRounds env (n + m) i s =
    match expRounds env n i s with
    | .error e => .error e
    | .ok r => expRounds env m (i + n) r
  | 0, m, i, s => by simp [expRounds]
  | n + 1, m, i, s => by
    rw [Nat.add_right_comm, expRounds, expRounds]
    cases loopBody env i s with
    | error e => rfl
    | ok s' =>
      simp only
      rw [expRounds_add]
      simp only [Nat.add_assoc, Nat.add_comm 1 n]

/-- **C147**, `AlExperiment`: for every strategy that returns at least one example of the pool, the settings of the criterion that say the same
thing lead to the same run. The experiment records no costs, so every positive `cost_limit` is the same as no criterion. -/
theorem C147_experiment (env : LoopEnv) (hst : GoodStrategy env.strat) (a b : Bool) (ls us : List Int) (hls : ls ≠ []) (hus : us ≠ [])
    (now : ℚ) : ExperimentAgree us.dedup.length (∀ i L U sel, env.strat i L U = .ok sel → sel.length ≤ 1)
      (SameExperiment env (idx a ls) (idx b us) now) := by
  have hlenU : (IC.mk' (idx b us)).inner.length = us.dedup.length := by
    have h1 : (IC.mk' (idx b us)).keys.Perm (us.dedup.map Key.num) := by
      rw [List.perm_ext_iff_of_nodup (IC.reachable_nodup (.construct _)) ((List.nodup_dedup _).map fun x y h => by cases h; rfl)]
      intro k
      rw [mem_mk'_idx]
      simp only [List.mem_map, List.mem_dedup]
      exact ⟨fun ⟨n, h1, h2⟩ => ⟨n, h1, h2.symm⟩, fun ⟨n, h1, h2⟩ => ⟨n, h1, h2.symm⟩⟩
    have := h1.length_eq
    simpa [IC.keys] using this
  have hne := mk'_idx_ne b hus
  have hN : (0 : ℚ) < us.dedup.length := by
    rw [← hlenU]
    exact_mod_cast List.length_pos_iff.2 hne
  have hnum : ∀ k ∈ (IC.mk' (idx b us)).keys, ∃ j, k = .num j := fun k hk =>
    let ⟨i, _, e⟩ := (mem_mk'_idx b us k).1 hk; ⟨i, e⟩
  have hlen0 : (idx b us).length = us.length := by simp [idx]
  have main : ∀ (c c' : Setting) (st st' : Stop) (v v' : ℚ), Stop.new c.1 c.2 now = .ok st →
      Stop.new c'.1 c'.2 now = .ok st' → (st.crit ≠ .none → st.value = some v) → (st'.crit ≠ .none → st'.value = some v') →
      (st.crit = .percentOfUnlabel → 0 ≤ v ∧ v ≤ 1) → (st'.crit = .percentOfUnlabel → 0 ≤ v' ∧ v' ≤ 1) →
      (∀ k u : Nat, 0 < u → u + k ≤ us.dedup.length →
        ((∀ i L U sel, env.strat i L U = .ok sel → sel.length ≤ 1) → us.dedup.length ≤ u + k) → ∀ elapsed,
        (BoundReached st.crit v k 0 us.dedup.length u elapsed ↔ BoundReached st'.crit v' k 0 us.dedup.length u elapsed)) →
      (st.startTime = st'.startTime) → SameExperiment env (idx a ls) (idx b us) now c c' := by
    intro c c' st st' v v' hc hc' hv hv' hp hp' hiff htime
    obtain ⟨r, j, e1, i1, s1, k1, k2⟩ := loop_counts hst hv hp hnum hne (us.length + 1) 0 _ (loopInv_init (clock := env.clock) a b hls hus hc v)
      (by have := mk'_idx_length b us; show (IC.mk' (idx b us)).inner.length < _; omega) (Nat.le_refl _) (fun _ => Nat.le_refl _)
    obtain ⟨r', j', e1', i1', s1', k1', k2'⟩ := loop_counts hst hv' hp' hnum hne (us.length + 1) 0 _
      (loopInv_init (clock := env.clock) a b hls hus hc' v')
      (by have := mk'_idx_length b us; show (IC.mk' (idx b us)).inner.length < _; omega) (Nat.le_refl _) (fun _ => Nat.le_refl _)
    rw [hlenU] at s1 k1 k2 s1' k1' k2'
    refine ⟨st, st', r, r', hc, hc', fun f hf => ?_, fun f hf => ?_, ?_⟩
    · obtain ⟨k, rfl⟩ := Nat.exists_eq_add_of_le (Nat.succ_le_of_lt (hlen0 ▸ hf))
      exact loop_fuel k e1
    · obtain ⟨k, rfl⟩ := Nat.exists_eq_add_of_le (Nat.succ_le_of_lt (hlen0 ▸ hf))
      exact loop_fuel k e1'
    have hnone : Stop.new none none now = .ok ⟨.none, none, none, now, 0, 0, 100, 0⟩ := rfl
    obtain ⟨n, t, g1, g2⟩ := expRounds_of (later_none hc hnone) e1
    obtain ⟨n', t', g1', g2'⟩ := expRounds_of (later_none hc' hnone) e1'
    simp only at g1 g1'
    have l1 : r.saver.states.length = n := by simpa [StateIO.new] using g2
    have l2 : r'.saver.states.length = n' := by simpa [StateIO.new] using g2'
    have j1 := i1.iter
    have j2 := i1'.iter
    have key : n = n' := by
      rcases Nat.lt_trichotomy n n' with hlt | heq | hlt
      · exfalso
        obtain ⟨m, rfl⟩ := Nat.exists_eq_add_of_le hlt.le
        rw [expRounds_add, g1] at g1'
        have hw := (expRounds_onward g1').workspace
        simp only at hw
        obtain ⟨L, U, w1, w2, w3⟩ := i1'.early r.saver.states.length (by omega)
        rw [hw, i1.ws] at w1
        cases w1
        rw [hlenU] at w3
        rcases s1 with hs | hs
        · exact w2 hs
        · refine w3 ?_
          rw [← htime, j1] at *
          exact (hiff _ _ (List.length_pos_iff.2 w2) (by omega) (fun hh => by have := k2 hh; omega) _).1 hs
      · exact heq
      · exfalso
        obtain ⟨m, rfl⟩ := Nat.exists_eq_add_of_le hlt.le
        rw [expRounds_add, g1'] at g1
        have hw := (expRounds_onward g1).workspace
        simp only at hw
        obtain ⟨L, U, w1, w2, w3⟩ := i1.early r'.saver.states.length (by omega)
        rw [hw, i1'.ws] at w1
        cases w1
        rw [hlenU] at w3
        rcases s1' with hs | hs
        · exact w2 hs
        · refine w3 ?_
          rw [← htime, j2] at *
          exact (hiff _ _ (List.length_pos_iff.2 w2) (by omega) (fun hh => by have := k2' hh; omega) _).2 hs
    subst key
    rw [g1] at g1'
    have := Except.ok.inj g1'
    injection this with i1 i2 i3
    exact ⟨i1, i2, i3⟩
  constructor
  · intro hs p hp0 hp1
    refine main _ _ ⟨.percentOfUnlabel, some p, some p, now, 0, 0, 100, 0⟩ ⟨.numOfQueries, some _, some _, now, 0, 0, 100, 0⟩ p _ rfl rfl
      (fun _ => rfl) (fun _ => rfl) (fun _ => ⟨hp0, hp1⟩) (by simp) ?_ rfl
    intro k u _ hu1 hu2 elapsed
    have hu : u + k = us.dedup.length := le_antisymm hu1 (hu2 hs)
    have e : ((us.dedup.length : ℚ) - u) = (k : ℚ) := by
      rw [← hu]; push_cast; ring
    simp only [BoundReached]
    rw [e, le_div_iff₀ hN]
    have : ((⌈p * us.dedup.length⌉ : Int) : ℚ) ≤ (k : ℚ) ↔ ⌈p * us.dedup.length⌉ ≤ (k : Int) := by
      constructor <;> intro h <;> exact_mod_cast h
    rw [this, Int.ceil_le]
    push_cast
    rfl
  · refine main _ _ ⟨.percentOfUnlabel, some 1, some 1, now, 0, 0, 100, 0⟩ ⟨.none, none, none, now, 0, 0, 100, 0⟩ 1 0
      rfl rfl (fun _ => rfl) (by simp) (fun _ => ⟨zero_le_one, le_refl _⟩) (by simp) ?_ rfl
    intro k u hu _ _ elapsed
    simp only [BoundReached, iff_false, not_le]
    rw [div_lt_one hN]
    have : (0 : ℚ) < u := by exact_mod_cast hu
    linarith
  · intro k hk
    refine main _ _ ⟨.numOfQueries, some k, some k, now, 0, 0, 100, 0⟩ ⟨.none, none, none, now, 0, 0, 100, 0⟩ k 0
      rfl rfl (fun _ => rfl) (by simp) (by simp) (by simp) ?_ rfl
    intro j u hu h1 _ elapsed
    simp only [BoundReached, iff_false, not_le]
    have : (j : Int) < k := by omega
    exact_mod_cast this
  · intro c hc
    refine main _ _ ⟨.costLimit, some c, some c, now, 0, 0, 100, 0⟩ ⟨.none, none, none, now, 0, 0, 100, 0⟩ c 0
      rfl rfl (fun _ => rfl) (by simp) (by simp) (by simp) ?_ rfl
    intro j u hu h1 _ elapsed
    simpa [BoundReached] using hc

/-- A case: three unlabelled examples, one per query; a third of them is one query. -/
example (perf : Nat → Obj (List Val)) (clock : Nat → ℚ) :
    SameExperiment ⟨fun _ _ U => .ok (U.inner.take 1), perf, clock⟩ (idx true [0]) (idx true [1, 2, 3]) 0
      (some "percent_of_unlabel", some (.float (1 / 3))) (some "num_of_queries", some (.int 1)) := by
  have h := C147_experiment ⟨fun _ _ U => .ok (U.inner.take 1), perf, clock⟩ (fun i L U hne => ⟨_, rfl, by
    cases hu : U.inner with
    | nil => exact absurd hu hne
    | cons x l => simp, fun v hv => by
      have := List.mem_of_mem_take hv
      rw [IC.pyMem_iff]
      exact List.mem_map_of_mem this⟩) true true [0] [1, 2, 3] (by simp) (by simp) 0
  have := h.percent_queries (by intro i L U sel e; cases e; simp) (1 / 3) (by norm_num) (by norm_num)
  rwa [show ⌈(1 / 3 : ℚ) * (([1, 2, 3] : List Int).dedup.length : ℚ)⌉ = 1 by
    rw [Int.ceil_eq_iff, show ([1, 2, 3] : List Int).dedup.length = 3 by decide]; norm_num] at this

end Alipy.Criteria
