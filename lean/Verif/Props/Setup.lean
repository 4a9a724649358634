import Verif.Spec.Setup
import Mathlib.Tactic

namespace Alipy.Setup
open Alipy Spec

set_option linter.unusedSectionVars false
set_option linter.unusedSimpArgs false

variable {ι ρ : Type}

/-! ## What the object knows after a history -/

theorem exec_metric (e : Exp ι ρ) (c : Call ι ρ) (h : (exec e c).2 = none) : (exec e c).1.metric = lastMetric e.metric [c] := by
  cases c with
  | strategy s f =>
    simp only [exec, lastMetric]
    cases s with
    | custom cls args => cases f <;> simp [setStrategy]
    | named name args =>
      simp only [setStrategy]
      split
      · split
        · split <;> simp
        · split <;> simp
      · simp
  | metric m =>
    simp only [exec, setMetric] at h ⊢
    split at h
    · rename_i hm; rw [if_pos hm]; rfl
    · cases h
  | data s => simp only [exec, setSplit, lastMetric]; split <;> rfl
  | splitAL n out => cases out <;> simp [exec, splitAL, lastMetric]
  | start multi run =>
    simp only [exec, startQuery, lastMetric]
    split
    · split
      · rfl
      · split
        · split <;> rfl
        · split
          · split <;> rfl
          · rfl
    · rfl

theorem start_keeps (e : Exp ι ρ) (multi : Bool) (run : Nat → Config ι → ρ × Option PyErr) : ∃ rs, (startQuery e multi run).1 = { e with results := rs } := by
  unfold startQuery
  split
  · split
    · exact ⟨_, rfl⟩
    · split
      · split <;> exact ⟨_, rfl⟩
      · dsimp only
        split
        · split <;> exact ⟨_, rfl⟩
        · exact ⟨_, rfl⟩
  · exact ⟨_, rfl⟩

theorem calls_metric (h : List (Call ι ρ)) : ∀ e : Exp ι ρ, NoneRaised e h → (calls e h).metric = lastMetric e.metric h := by
  induction h with
  | nil => intro e _; rfl
  | cons c h ih =>
    intro e hn
    have h1 := exec_metric e c hn.1
    have h2 := ih _ hn.2
    rw [h1] at h2
    show (calls (exec e c).1 h).metric = _
    rw [h2]
    cases c <;> rfl

/-- What is known of the split. -/
theorem calls_split (h : List (Call ι ρ)) : ∀ e : Exp ι ρ, NoneRaised e h → e.split = e.idx.isSome →
    (calls e h).idx = lastSplit e.idx h ∧ (calls e h).split = (lastSplit e.idx h).isSome := by
  induction h with
  | nil => intro e _ he; exact ⟨rfl, he⟩
  | cons c h ih =>
    intro e hn he
    show (calls (exec e c).1 h).idx = _ ∧ (calls (exec e c).1 h).split = _
    have hk : (exec e c).1.idx = lastSplit e.idx [c] ∧ (exec e c).1.split = (lastSplit e.idx [c]).isSome := by
      have h0 := hn.1
      cases c with
      | strategy s f =>
        simp only [exec, lastSplit]
        cases s with
        | custom cls args => cases f <;> simp [setStrategy, he]
        | named name args =>
          simp only [setStrategy]
          split
          · split
            · split <;> simp_all
            · split <;> simp [he]
          · simp [he]
      | metric m => simp only [exec, setMetric, lastSplit]; split <;> simp [he]
      | data s =>
        simp only [exec, setSplit] at h0 ⊢
        split at h0
        · rename_i hs; simp [hs, lastSplit]
        · cases h0
      | splitAL n out =>
        cases out with
        | error x => simp [exec, splitAL] at h0
        | ok s => simp [exec, splitAL, lastSplit]
      | start multi run =>
        obtain ⟨rs, hrs⟩ := start_keeps e multi run
        simp [exec, hrs, lastSplit, he]
    have := ih _ hn.2 (by rw [hk.1, hk.2])
    rw [hk.1] at this
    have hl : lastSplit (lastSplit e.idx [c]) h = lastSplit e.idx (c :: h) := by
      cases c with
      | splitAL n out => cases out <;> rfl
      | _ => rfl
    rw [hl] at this
    exact this

/-- The strategy is kept for use: as long as no predefined one follows a user-defined one. -/
def Kept (e : Exp ι ρ) (d : Option Strategy) : Prop :=
  match d with
  | none => e.custom = none
  | some (.custom cls args) => e.custom = some args ∧ e.qf = some (.custom cls args)
  | some (.named name args) => e.custom = none ∧ e.name = some name ∧ if perRound name then e.needTrain = true ∧ e.kw = some args else e.qf = some (.named name args)

theorem kept_used (e : Exp ι ρ) (s : Strategy) (h : Kept e (some s)) : used e = .ok (properUse s) := by
  cases s with
  | custom cls args =>
    obtain ⟨h1, h2⟩ := h
    simp [used, h1, h2, properUse]
  | named name args =>
    obtain ⟨h1, h2, h3⟩ := h
    simp only [used, h1, h2]
    split at h3
    · rename_i hp
      have hp' : name = "QueryInstanceGraphDensity" ∨ name = "QueryInstanceQUIRE" := by simpa [perRound] using hp
      simp [hp, h3.1, h3.2, properUse, hp']
    · rename_i hp
      have hp' : ¬ (name = "QueryInstanceGraphDensity" ∨ name = "QueryInstanceQUIRE") := by simpa [perRound] using hp
      simp [hp, h3, properUse, hp']

/-- A user-defined strategy is the last one only if no predefined one comes. -/
theorem calls_kept (h : List (Call ι ρ)) : ∀ (e : Exp ι ρ) (d : Option Strategy), NoneRaised e h → Kept e d → NotBack h →
    (∀ cls args, d = some (.custom cls args) → ∀ name args f, Call.strategy (.named name args) f ∉ h) → Kept (calls e h) (lastStrategy d h) := by
  induction h with
  | nil => intro e d _ hk _ _; exact hk
  | cons c h ih =>
    intro e d hn hk hb hd
    show Kept (calls (exec e c).1 h) _
    have same : (exec e c).1.custom = e.custom → (exec e c).1.qf = e.qf → (exec e c).1.name = e.name → (exec e c).1.kw = e.kw → (exec e c).1.needTrain = e.needTrain → Kept (exec e c).1 d := by
      intro h1 h2 h3 h4 h5
      cases d with
      | none => simp only [Kept] at hk ⊢; rw [h1, hk]
      | some s =>
        cases s with
        | custom cls args => simp only [Kept] at hk ⊢; rw [h1, h2]; exact hk
        | named name args => simp only [Kept] at hk ⊢; rw [h1, h2, h3, h4, h5]; exact hk
    have hd' : ∀ cls args, d = some (.custom cls args) → ∀ name args f, Call.strategy (.named name args) f ∉ h := fun cls args e1 name args' f hm => hd cls args e1 name args' f (List.mem_cons_of_mem _ hm)
    cases c with
    | strategy s f =>
      have h0 := hn.1
      simp only [lastStrategy]
      cases s with
      | custom cls args =>
        refine ih _ _ hn.2 ?_ hb.2 ?_
        · simp only [exec, setStrategy] at h0 ⊢
          cases f with
          | some x => simp at h0
          | none => simp [Kept]
        · intro cls' args' _; exact hb.1
      | named name args =>
        have hcust : e.custom = none := by
          cases d with
          | none => exact hk
          | some s =>
            cases s with
            | custom cls' args' => exact absurd List.mem_cons_self (hd cls' args' rfl name args f)
            | named name' args' => exact hk.1
        refine ih _ _ hn.2 ?_ (by simpa [NotBack] using hb) ?_
        · simp only [exec, setStrategy] at h0 ⊢
          split at h0
          · rename_i hkn
            rw [if_pos hkn]
            split at h0
            · rename_i hp
              simp only [hp, if_true] at h0 ⊢
              split at h0
              · cases h0
              · simp [Kept, hcust, hp]
            · rename_i hp
              cases f with
              | some x => simp at h0
              | none => simp [Kept, hcust, hp]
          · cases h0
        · intro cls' args' e1; cases e1
    | metric m =>
      refine ih _ d hn.2 (same ?_ ?_ ?_ ?_ ?_) (by simpa [NotBack] using hb) hd' <;> (simp only [exec, setMetric]; split <;> rfl)
    | data s =>
      refine ih _ d hn.2 (same ?_ ?_ ?_ ?_ ?_) (by simpa [NotBack] using hb) hd' <;> (simp only [exec, setSplit]; split <;> rfl)
    | splitAL n out =>
      refine ih _ d hn.2 (same ?_ ?_ ?_ ?_ ?_) (by simpa [NotBack] using hb) hd' <;> (cases out <;> rfl)
    | start multi run =>
      obtain ⟨rs, hrs⟩ := start_keeps e multi run
      refine ih _ d hn.2 (same ?_ ?_ ?_ ?_ ?_) (by simpa [NotBack] using hb) hd' <;> simp only [exec, hrs]

/-- The number of rounds fits the split if it has been set by `set_data_split`, the constructor, or `split_AL` with a `split` that makes as many rounds as asked for. -/
def SplitsCount : List (Call ι ρ) → Prop
  | [] => True
  | .splitAL n (.ok s) :: h => n = s.train.length ∧ s.sameLen = true ∧ SplitsCount h
  | _ :: h => SplitsCount h

theorem calls_count (h : List (Call ι ρ)) : ∀ e : Exp ι ρ, NoneRaised e h → SplitsCount h → (∀ s, e.idx = some s → e.count = s.train.length ∧ s.sameLen = true) →
    ∀ s, (calls e h).idx = some s → (calls e h).count = s.train.length ∧ s.sameLen = true := by
  induction h with
  | nil => intro e _ _ he; exact he
  | cons c h ih =>
    intro e hn hc he
    show ∀ s, (calls (exec e c).1 h).idx = some s → _
    have h0 := hn.1
    cases c with
    | strategy s f =>
      refine ih _ hn.2 (by simpa [SplitsCount] using hc) ?_
      have : (exec e (.strategy s f)).1.idx = e.idx ∧ (exec e (.strategy s f)).1.count = e.count := by
        cases s with
        | custom cls args => cases f <;> simp [exec, setStrategy]
        | named name args =>
          simp only [exec, setStrategy]
          split
          · split
            · split <;> simp_all
            · split <;> simp
          · simp
      rw [this.1, this.2]; exact he
    | metric m =>
      refine ih _ hn.2 (by simpa [SplitsCount] using hc) ?_
      have : (exec e (.metric m)).1.idx = e.idx ∧ (exec e (.metric m)).1.count = e.count := by simp only [exec, setMetric]; split <;> exact ⟨rfl, rfl⟩
      rw [this.1, this.2]; exact he
    | data s =>
      refine ih _ hn.2 (by simpa [SplitsCount] using hc) ?_
      simp only [exec, setSplit] at h0 ⊢
      split at h0
      · rename_i hs; simp [hs]
      · cases h0
    | splitAL n out =>
      cases out with
      | error x => simp [exec, splitAL] at h0
      | ok s =>
        obtain ⟨c1, c2, c3⟩ := hc
        refine ih _ hn.2 c3 ?_
        simp [exec, splitAL, c1, c2]
    | start multi run =>
      refine ih _ hn.2 (by simpa [SplitsCount] using hc) ?_
      obtain ⟨rs, hrs⟩ := start_keeps e multi run
      simp only [exec, hrs]; exact he

/-! ## The rounds -/

theorem configs_length (u : Except PyErr Used) (m : String) : ∀ a b c d : List ι, a.length = b.length → b.length = c.length → c.length = d.length → (configs u m a b c d).length = a.length
  | [], _, _, _, _, _, _ => by simp [configs]
  | x :: as, [], _, _, h, _, _ => by simp at h
  | x :: as, y :: bs, [], _, _, h, _ => by simp at h
  | x :: as, y :: bs, z :: cs, [], _, _, h => by simp at h
  | x :: as, y :: bs, z :: cs, w :: ds, h1, h2, h3 => by
    simp only [List.length_cons, Nat.add_right_cancel_iff] at h1 h2 h3
    simp [configs, configs_length u m as bs cs ds h1 h2 h3]

theorem configs_get (u : Except PyErr Used) (m : String) : ∀ (a b c d : List ι) (k : Nat) (x : Config ι), (configs u m a b c d)[k]? = some x →
    a[k]? = some x.train ∧ b[k]? = some x.test ∧ c[k]? = some x.lab ∧ d[k]? = some x.unl ∧ x.used = u ∧ x.metric = m
  | [], _, _, _, k, x, h => by simp [configs] at h
  | _ :: _, [], _, _, k, x, h => by simp [configs] at h
  | _ :: _, _ :: _, [], _, k, x, h => by simp [configs] at h
  | _ :: _, _ :: _, _ :: _, [], k, x, h => by simp [configs] at h
  | p :: as, q :: bs, r :: cs, s :: ds, 0, x, h => by
    simp only [configs, List.getElem?_cons_zero, Option.some.injEq] at h
    subst h; simp
  | p :: as, q :: bs, r :: cs, s :: ds, k + 1, x, h => by
    simp only [configs, List.getElem?_cons_succ] at h ⊢
    exact configs_get u m as bs cs ds k x h

theorem multiRounds_get (run : Nat → Config ι → ρ × Option PyErr) : ∀ (cs : List (Config ι)) (j k : Nat), (multiRounds run j cs)[k]? = (cs[k]?).map (fun c => (run (j + k) c).1)
  | [], j, k => by simp [multiRounds]
  | c :: cs, j, 0 => by simp [multiRounds]
  | c :: cs, j, k + 1 => by
    simp only [multiRounds, List.getElem?_cons_succ]
    rw [multiRounds_get run cs (j + 1) k, show j + 1 + k = j + (k + 1) by omega]

theorem multiRounds_length (run : Nat → Config ι → ρ × Option PyErr) : ∀ (cs : List (Config ι)) (j : Nat), (multiRounds run j cs).length = cs.length
  | [], j => rfl
  | c :: cs, j => by simp [multiRounds, multiRounds_length run cs (j + 1)]

theorem seqRounds_ok (run : Nat → Config ι → ρ × Option PyErr) : ∀ (cs : List (Config ι)) (j : Nat), (seqRounds run j cs).2 = none → (seqRounds run j cs).1 = multiRounds run j cs
  | [], j, _ => rfl
  | c :: cs, j, h => by
    simp only [seqRounds] at h ⊢
    split at h
    · cases h
    · rename_i r hr
      simp only [multiRounds, hr]
      rw [seqRounds_ok run cs (j + 1) h]

theorem seqRounds_raises (run : Nat → Config ι → ρ × Option PyErr) : ∀ (cs : List (Config ι)) (j : Nat), (seqRounds run j cs).2 = none ↔ ∀ k c, cs[k]? = some c → (run (j + k) c).2 = none
  | [], j => by simp [seqRounds]
  | c :: cs, j => by
    simp only [seqRounds]
    split
    · rename_i x hx
      simp only [reduceCtorEq, false_iff]
      intro h
      have := h 0 c (by simp)
      rw [Nat.add_zero, hx] at this
      cases this
    · rename_i r hr
      simp only [seqRounds_raises run cs (j + 1)]
      constructor
      · intro h k c' hk
        cases k with
        | zero => simp only [List.getElem?_cons_zero, Option.some.injEq] at hk; subst hk; rw [Nat.add_zero, hr]
        | succ k => simp only [List.getElem?_cons_succ] at hk; have := h k c' hk; rwa [show j + (k + 1) = j + 1 + k by omega]
      · intro h k c' hk
        have := h (k + 1) c' (by simpa using hk)
        rwa [show j + (k + 1) = j + 1 + k by omega] at this

theorem sameLen_iff (s : Idx ι) : s.sameLen = true ↔ s.train.length = s.test.length ∧ s.test.length = s.lab.length ∧ s.lab.length = s.unl.length := by
  simp [Idx.sameLen, and_assoc]

theorem runsWith_configs (run : Nat → Config ι → ρ × Option PyErr) (s : Strategy) (m : String) (d : Idx ι) (hd : d.sameLen = true) :
    RunsWith run s m d (multiRounds run 0 (configs (.ok (properUse s)) m d.train d.test d.lab d.unl)) := by
  obtain ⟨h1, h2, h3⟩ := (sameLen_iff d).1 hd
  refine ⟨by rw [multiRounds_length, configs_length _ _ _ _ _ _ h1 h2 h3], ?_⟩
  intro k r hr
  rw [multiRounds_get] at hr
  obtain ⟨c, hc, rfl⟩ := Option.map_eq_some_iff.1 hr
  obtain ⟨g1, g2, g3, g4, g5, g6⟩ := configs_get _ _ _ _ _ _ _ _ hc
  refine ⟨_, _, _, _, g1, g2, g3, g4, ?_⟩
  rw [← g5, ← g6, Nat.zero_add]

/-- The object right after its construction. -/
theorem create_ok {m : String} {idx : Option (Idx ι)} {e : Exp ι ρ} (h : create m idx = .ok e) :
    e.split = e.idx.isSome ∧ e.idx = idx ∧ e.metric = none ∧ e.custom = none ∧ e.results = [] ∧ ∀ s, e.idx = some s → e.count = s.train.length ∧ s.sameLen = true := by
  cases idx with
  | none => simp only [create, Except.ok.injEq] at h; subst h; simp
  | some s =>
    simp only [create, setSplit] at h
    split at h
    · rename_i e' he
      split at he
      · rename_i hs
        injection h with h; subst h
        injection he with he _; subst he
        simp [hs]
      · injection he with _ he; cases he
    · cases h

/-! ## C92 -/

/-- **C92**, what holds: after any sequence of calls none of which has raised, in which no predefined strategy follows a user-defined one, and `split_AL` has made as many rounds as asked for,
`start_query` runs with the last split, the last metric and the last strategy that have been set. It raises if no metric or no split was set. With threads it does not raise, and the results are those of the
rounds, one for each. One after another it raises exactly if a round raises; otherwise the results are added to those already there. Missing: the other histories (`C92_back_violation`,
`C92_metric_argument_violation`, `C92_failed_split_violation`, `C92_failed_strategy_violation`), exceptions in threads (`C92_lost_exception_violation`), and a second `start_query`
(`C92_accumulates_violation`). -/
theorem C92_settings_partial {m0 : String} {idx : Option (Idx ι)} {e : Exp ι ρ} (hcr : create m0 idx = .ok e) (h : List (Call ι ρ)) (hn : NoneRaised e h) (hb : NotBack h) (hsc : SplitsCount h)
    (run : Nat → Config ι → ρ × Option PyErr) (multi : Bool) :
    (lastSplit idx h = none → (startQuery (calls e h) multi run).2 = some .genericException) ∧
    (lastMetric none h = none → (startQuery (calls e h) multi run).2 = some .genericException) ∧
    ∀ d m s, lastSplit idx h = some d → lastMetric none h = some m → lastStrategy none h = some s →
      ((startQuery (calls e h) true run).2 = none ∧ RunsWith run s m d (startQuery (calls e h) true run).1.results) ∧
      ((startQuery (calls e h) false run).2 = none ↔
        ∀ k (a b c u : ι), d.train[k]? = some a → d.test[k]? = some b → d.lab[k]? = some c → d.unl[k]? = some u → (run k ⟨.ok (properUse s), m, a, b, c, u⟩).2 = none) ∧
      ((startQuery (calls e h) false run).2 = none → ∃ rs, (startQuery (calls e h) false run).1.results = (calls e h).results ++ rs ∧ RunsWith run s m d rs) := by
  obtain ⟨i1, i2, i3, i4, i5, i6⟩ := create_ok hcr
  have hM := calls_metric h e hn
  have hS := calls_split h e hn i1
  rw [i3] at hM
  rw [i2] at hS
  refine ⟨fun h0 => ?_, fun h0 => ?_, ?_⟩
  · rw [h0] at hS; simp [startQuery, hS.2]
  · rw [h0] at hM
    unfold startQuery
    split
    · simp [hM]
    · rfl
  intro d m s hd hm hs
  rw [hd] at hS
  rw [hm] at hM
  have hC := calls_count h e hn hsc i6 d hS.1
  have hU := kept_used _ s (by have := calls_kept h e none hn i4 hb (by simp); rwa [hs] at this)
  have hsp : (calls e h).split = true := by rw [hS.2]; rfl
  obtain ⟨l1, l2, l3⟩ := (sameLen_iff d).1 hC.2
  have hlen := configs_length (.ok (properUse s)) m d.train d.test d.lab d.unl l1 l2 l3
  set cs := configs (.ok (properUse s)) m d.train d.test d.lab d.unl with hcs
  have hseq : startQuery (calls e h) false run = ({ calls e h with results := (calls e h).results ++ (seqRounds run 0 cs).1 }, (seqRounds run 0 cs).2) := by
    have : seqAll run (calls e h).count cs = seqRounds run 0 cs := by
      rw [hC.1, seqAll, Int.toNat_natCast, ← hlen, List.take_length]
      split
      · rename_i rs x hx; rw [hx]
      · rename_i rs hx; rw [hx, if_neg (by omega)]
    simp [startQuery, hsp, hM, hS.1, hU, ← hcs, this]
  refine ⟨?_, ?_, ?_⟩
  · have : startQuery (calls e h) true run = ({ calls e h with results := multiRounds run 0 cs }, none) := by
      simp [startQuery, hsp, hM, hS.1, hC.2, hU, ← hcs]
    rw [this]
    exact ⟨rfl, runsWith_configs run s m d hC.2⟩
  · rw [hseq]
    simp only [seqRounds_raises, Nat.zero_add]
    constructor
    · intro hx k a b c u h1 h2 h3 h4
      have hk : k < cs.length := by rw [hlen]; exact (List.getElem?_eq_some_iff.1 h1).1
      obtain ⟨g1, g2, g3, g4, g5, g6⟩ := configs_get _ _ _ _ _ _ k cs[k] (by rw [← hcs]; exact List.getElem?_eq_getElem hk)
      have := hx k cs[k] (List.getElem?_eq_getElem hk)
      rw [h1] at g1; rw [h2] at g2; rw [h3] at g3; rw [h4] at g4
      injection g1 with g1; injection g2 with g2; injection g3 with g3; injection g4 with g4
      rw [g1, g2, g3, g4, ← g5, ← g6]
      exact this
    · intro hx k c hk
      obtain ⟨g1, g2, g3, g4, g5, g6⟩ := configs_get _ _ _ _ _ _ k c (by rw [← hcs]; exact hk)
      have := hx k _ _ _ _ g1 g2 g3 g4
      rwa [← g5, ← g6] at this
  · rw [hseq]
    intro hx
    refine ⟨_, rfl, ?_⟩
    rw [seqRounds_ok run cs 0 hx]
    exact runsWith_configs run s m d hC.2

/-- **C92**: `get_experiment_result` raises exactly before the first result, and gives the results otherwise. -/
theorem C92_results (e : Exp ι ρ) : (getResult e = .error .genericException ↔ e.results = []) ∧ (e.results ≠ [] → getResult e = .ok e.results) := by
  unfold getResult
  constructor
  · constructor
    · intro h
      split at h
      · rename_i h0; exact List.length_eq_zero_iff.1 h0
      · cases h
    · intro h; simp [h]
  · intro h
    rw [if_neg (by simpa using h)]

/-- **C92**: the setters that refuse change nothing: a wrong metric, an unknown strategy, a split with lists of different lengths. -/
theorem C92_refused (e : Exp ι ρ) : (∀ m, m ∉ metrics → exec e (.metric m) = (e, some .notImplementedError)) ∧
    (∀ name args f, name ∉ known → exec e (.strategy (.named name args) f) = (e, some .notImplementedError)) ∧
    ∀ s : Idx ι, ¬ (s.train.length = s.test.length ∧ s.test.length = s.lab.length ∧ s.lab.length = s.unl.length) → exec e (.data s) = (e, some .valueError) := by
  refine ⟨fun m h => ?_, fun name args f h => ?_, fun s h => ?_⟩
  · simp [exec, setMetric, h]
  · simp [exec, setStrategy, h]
  · have : s.sameLen = false := by
      cases hs : s.sameLen with
      | false => rfl
      | true => exact absurd ((sameLen_iff s).1 hs) h
    simp [exec, setSplit, this]

/-- **C92**, violation: the argument `performance_metric` of the constructor is ignored. As long as `set_performance_metric` is not called, `start_query` raises. -/
theorem C92_metric_argument_violation {m0 : String} {idx : Option (Idx ι)} {e : Exp ι ρ} (hcr : create m0 idx = .ok e) (h : List (Call ι ρ)) (hn : ∀ m, Call.metric m ∉ h) (multi : Bool)
    (run : Nat → Config ι → ρ × Option PyErr) : (startQuery (calls e h) multi run).2 = some .genericException := by
  have key : ∀ (h : List (Call ι ρ)) (e : Exp ι ρ), e.metric = none → (∀ m, Call.metric m ∉ h) → (calls e h).metric = none := by
    intro h
    induction h with
    | nil => intro e he _; exact he
    | cons c h ih =>
      intro e he hm
      refine ih _ ?_ (fun m hx => hm m (List.mem_cons_of_mem _ hx))
      cases c with
      | strategy s f =>
        cases s with
        | custom cls args => cases f <;> simp [exec, setStrategy, he]
        | named name args =>
          simp only [exec, setStrategy]
          split
          · split
            · split <;> simp [he]
            · split <;> simp [he]
          · exact he
      | metric m => exact absurd List.mem_cons_self (hm m)
      | data s => simp only [exec, setSplit]; split <;> exact he
      | splitAL n out => cases out <;> exact he
      | start multi run => obtain ⟨rs, hrs⟩ := start_keeps e multi run; simp only [exec, hrs]; exact he
  have := key h e (create_ok hcr).2.2.1 hn
  unfold startQuery
  split
  · simp [this]
  · rfl

/-- **C92**, violation: after a user-defined strategy a predefined one is not used as it should be. With QUIRE or graph density the rounds go on with the user-defined strategy; with the others
the keyword arguments of the user-defined strategy are passed on. None of the calls raises. -/
theorem C92_back_violation (e : Exp ι ρ) (hidx : e.idx.isSome) (cls a : Nat) (name : String) (b : Nat) (hk : name ∈ known) :
    NoneRaised e [.strategy (.custom cls a) none, .strategy (.named name b) none] ∧
    used (calls e [.strategy (.custom cls a) none, .strategy (.named name b) none]) =
      .ok (if name = "QueryInstanceGraphDensity" ∨ name = "QueryInstanceQUIRE" then .obj (.custom cls a) (some a) else .obj (.named name b) (some a)) ∧
    used (calls e [.strategy (.custom cls a) none, .strategy (.named name b) none]) ≠ .ok (properUse (.named name b)) := by
  obtain ⟨d, hd⟩ := Option.isSome_iff_exists.1 hidx
  by_cases hp : name = "QueryInstanceGraphDensity" ∨ name = "QueryInstanceQUIRE"
  · have hp' : perRound name = true := by simpa [perRound] using hp
    simp [NoneRaised, calls, exec, setStrategy, hk, hp', hd, used, hp, properUse]
  · have hp' : perRound name = false := by simpa [perRound] using hp
    simp [NoneRaised, calls, exec, setStrategy, hk, hp', hd, used, hp, properUse]

/-- **C92**, violation: with threads an exception in a round is lost, whatever the rounds raise (`run` is arbitrary); in particular `start_query` without a strategy set "succeeds". There is always a result for every round. -/
theorem C92_lost_exception_violation (e : Exp ι ρ) (d : Idx ι) (m : String) (he : e.split = true) (hd : e.idx = some d) (hl : d.sameLen = true) (hm : e.metric = some m)
    (run : Nat → Config ι → ρ × Option PyErr) :
    (startQuery e true run).2 = none ∧ (startQuery e true run).1.results.length = d.train.length := by
  obtain ⟨l1, l2, l3⟩ := (sameLen_iff d).1 hl
  have : startQuery e true run = ({ e with results := multiRounds run 0 (configs (used e) m d.train d.test d.lab d.unl) }, none) := by simp [startQuery, he, hd, hl, hm]
  rw [this]
  exact ⟨rfl, by rw [multiRounds_length, configs_length _ _ _ _ _ _ l1 l2 l3]⟩

/-- **C92**, violation: with `multi_thread=False` the results of `start_query` are added to those of the calls before, so that after a second call there are results of both for every round; with threads
they replace them. -/
theorem C92_accumulates_violation (e : Exp ι ρ) (run : Nat → Config ι → ρ × Option PyErr) :
    ∃ rs, (startQuery e false run).1.results = e.results ++ rs ∧
      ((startQuery e false run).2 = none → ∀ d, e.split = true → e.idx = some d → d.sameLen = true → e.count = d.train.length → rs.length = d.train.length) := by
  unfold startQuery
  split
  · split
    · exact ⟨[], by simp, by simp⟩
    · split
      · split
        · exact ⟨[], by simp, by simp⟩
        · exact ⟨[], by simp, by simp_all⟩
      · rename_i _ m hm _ s hs
        dsimp only
        rw [if_neg (by simp)]
        refine ⟨_, rfl, ?_⟩
        intro h0 d _ hd hl hc
        rw [hs] at hd; injection hd with hd; subst hd
        obtain ⟨l1, l2, l3⟩ := (sameLen_iff s).1 hl
        have hlen := configs_length (used e) m s.train s.test s.lab s.unl l1 l2 l3
        unfold seqAll at h0 ⊢
        rw [hc, Int.toNat_natCast, ← hlen, List.take_length] at h0 ⊢
        split at h0
        · cases h0
        · rename_i rs hx
          have h2 := seqRounds_ok run _ 0 (by rw [hx])
          rw [hx] at h2
          have h3 := multiRounds_length run (configs (used e) m s.train s.test s.lab s.unl) 0
          simp only at h2
          simp only [Nat.lt_irrefl, if_false]
          rw [h2, h3]
  · exact ⟨[], by simp, by simp⟩

/-- **C92**, violation: a `split_AL` that raises leaves the object changed. Before any split: `start_query` fails with AttributeError instead of asking for a split. After a split into `n` rounds: the number of
rounds is the new one, so that fewer rounds are run, or `IndexError` is raised. -/
theorem C92_failed_split_violation (e : Exp ι ρ) (m : String) (hm : e.metric = some m) (n : Nat) (x : PyErr) (run : Nat → Config ι → ρ × Option PyErr) (hok : ∀ k c, (run k c).2 = none) :
    (exec e (.splitAL n (.error x))).2 = some x ∧
    (e.idx = none → (startQuery (exec e (.splitAL n (.error x))).1 true run).2 = some .attributeError) ∧
    ∀ d, e.idx = some d → d.sameLen = true → ((startQuery (exec e (.splitAL n (.error x))).1 false run).2 = none ↔ n ≤ d.train.length) ∧
      (n ≤ d.train.length → ∃ rs, (startQuery (exec e (.splitAL n (.error x))).1 false run).1.results = e.results ++ rs ∧ rs.length = n) := by
  refine ⟨rfl, fun h => by simp [exec, splitAL, startQuery, hm, h], ?_⟩
  intro d hd hl
  obtain ⟨l1, l2, l3⟩ := (sameLen_iff d).1 hl
  set cs := configs (used (exec e (.splitAL n (.error x))).1) m d.train d.test d.lab d.unl with hcs
  have hlen : cs.length = d.train.length := configs_length _ _ _ _ _ _ l1 l2 l3
  have h1 : (seqRounds run 0 (cs.take n)).2 = none := (seqRounds_raises run _ 0).2 (fun k c _ => hok _ c)
  have h2 := seqRounds_ok run _ 0 h1
  have hs : startQuery (exec e (.splitAL n (.error x))).1 false run =
      ({ (exec e (.splitAL n (.error x))).1 with results := e.results ++ (seqAll run n cs).1 }, (seqAll run n cs).2) := by
    rw [hcs]
    simp only [exec, splitAL, startQuery, hm, hd]
    simp
  have hq : seqAll run n cs = (multiRounds run 0 (cs.take n), if cs.length < n then some .indexError else none) := by
    rw [seqAll, Int.toNat_natCast]
    split
    · rename_i rs y hy; rw [hy] at h1; cases h1
    · rename_i rs hy; rw [hy] at h2; rw [← h2]; split <;> rfl
  rw [hs, hq, hlen]
  constructor
  · constructor
    · intro h
      by_contra hc
      rw [if_pos (by omega)] at h
      cases h
    · intro h; simp [h]
  · intro h
    refine ⟨_, rfl, ?_⟩
    rw [multiRounds_length, List.length_take, hlen]
    omega

/-- **C92**, violation: a `set_query_strategy` that raises replaces the strategy partly. If the first one was QUIRE or graph density, the rounds after a failed second call raise (in threads: silently); QUIRE
and graph density before a split raise AttributeError instead of the intended ValueError, and cannot be used after a split either. -/
theorem C92_failed_strategy_violation (e : Exp ι ρ) (hc : e.custom = none) :
    (∀ name args x, name ∈ known → perRound name = false → e.qf = none → (exec e (.strategy (.named name args) (some x))).2 = some x ∧
      used (exec e (.strategy (.named name args) (some x))).1 = .error .attributeError) ∧
    (∀ name args, perRound name = true → e.idx = none → e.needTrain = false → (exec e (.strategy (.named name args) none)).2 = some .attributeError ∧
      ∀ s : Idx ι, used (calls e [.strategy (.named name args) none, .data s]) = .error .genericException) := by
  refine ⟨fun name args x h1 h2 h3 => ?_, fun name args h1 h2 h3 => ?_⟩
  · simp [exec, setStrategy, h1, h2, h3, used, hc]
  · have hk : name ∈ known := by
      have : name = "QueryInstanceGraphDensity" ∨ name = "QueryInstanceQUIRE" := by simpa [perRound] using h1
      rcases this with rfl | rfl <;> simp [known]
    constructor
    · simp [exec, setStrategy, hk, h1, h2]
    · intro s
      have hx : (exec e (.strategy (.named name args) none)).1 = { e with name := some name } := by simp [exec, setStrategy, hk, h1, h2]
      simp only [calls, List.foldl_cons, List.foldl_nil, hx]
      simp only [exec, setSplit]
      split <;> simp [used, hc, h1, h3]

/-! ## Examples -/

/-- Two rounds. -/
def exIdx : Idx Nat := ⟨[0, 1], [2, 3], [4, 5], [6, 7]⟩

/-- A run that notes the strategy and the index lists it is called with. -/
def exRun : Nat → Config Nat → (Nat × Except PyErr Used × String × List Nat) × Option PyErr := fun k c => ((k, c.used, c.metric, [c.train, c.test, c.lab, c.unl]), none)

/-- A history that meets the hypotheses of `C92_settings_partial`. -/
def exHist : List (Call Nat (Nat × Except PyErr Used × String × List Nat)) :=
  [.metric "accuracy_score", .splitAL 2 (.ok exIdx), .strategy (.named "QueryInstanceQBC" 3) none, .metric "zero_one_loss", .strategy (.named "QueryInstanceQUIRE" 4) none]

/-- The object after its construction without index lists. -/
def exNew : Exp Nat (Nat × Except PyErr Used × String × List Nat) := ⟨false, 0, none, none, none, none, none, none, false, []⟩

example : create "accuracy_score" none = .ok exNew := rfl

example : NoneRaised exNew exHist ∧ NotBack exHist ∧ SplitsCount exHist := by
  refine ⟨?_, ?_, ?_⟩
  · simp [NoneRaised, exHist, exNew, exec, setMetric, metrics, setStrategy, known, perRound, splitAL]
  · simp [NotBack, exHist]
  · simp [SplitsCount, exHist, exIdx, Idx.sameLen]

example : (startQuery (calls exNew exHist) true exRun).1.results =
    [(0, .ok (.fresh "QueryInstanceQUIRE" 4), "zero_one_loss", [0, 2, 4, 6]), (1, .ok (.fresh "QueryInstanceQUIRE" 4), "zero_one_loss", [1, 3, 5, 7])] := by rfl

end Alipy.Setup
