import Verif.Props.Session
import Verif.Props.Limits
import Verif.Spec.Criteria

/-! # C147: stopping criteria that say the same thing give the same run -/
namespace Alipy.Criteria
open Alipy Alipy.Spec Alipy.Limits

section general
variable {ρ χ β : Type} [DecidableEq χ] {ops : RepoOps ρ β} {o : Oracle χ β} {env : SessionEnv ρ}

/-- `n` rounds of the loop, without looking at the criterion. -/
def rounds (ops : RepoOps ρ β) (o : Oracle χ β) (env : SessionEnv ρ) : Nat → Nat → Session ρ → Except PyErr (Session ρ)
  | 0, _, s => .ok s
  | n + 1, i, s =>
    match sessionBody ops o env i s with
    | .error e => .error e
    | .ok s' => rounds ops o env n (i + 1) s'

theorem sbody_states {i : Nat} {s r : Session ρ} (hb : sessionBody ops o env i s = .ok r) :
    ∃ sel st, env.strat i s = .ok sel ∧ st.getValue "select_index" = .ok (.sel sel) ∧ r.saver.states = s.saver.states ++ [.st st] := by
  unfold sessionBody at hb
  cases h1 : env.strat i s with
  | error e => rw [h1] at hb; cases hb
  | ok sel =>
    rw [h1] at hb
    simp only at hb
    cases h5 : o.queryByIndex (sel.map Val.key) with
    | error e => rw [h5] at hb; cases hb
    | ok lc =>
      rw [h5] at hb
      simp only at hb
      cases h6 : ops.update s.repo (sel.map Val.key) lc.1 lc.2 with
      | mk repo' e =>
        rw [h6] at hb
        cases e with
        | some e => cases hb
        | none =>
          simp only at hb
          cases h2 : s.L.update (.many sel) with
          | mk L' e =>
            rw [h2] at hb
            cases e with
            | some e => cases hb
            | none =>
              simp only at hb
              cases h3 : s.saver.addState icOps (.st (State.new icOps (.inr sel) (env.perf i) none (some (.arr lc.2)))) with
              | mk saver' e =>
                have hl := addState_st icOps s.saver (State.new icOps (.inr sel) (env.perf i) none (some (.arr lc.2)))
                rw [h3] at hb hl
                cases e with
                | some e => cases hb
                | none =>
                  simp only at hb
                  cases h4 : s.stop.update icOps saver' with
                  | error e => rw [h4] at hb; cases hb
                  | ok st =>
                    rw [h4] at hb
                    cases hb
                    exact ⟨sel, _, rfl, by simp [State.new, State.getValue, dictSet, dictGet], hl.1⟩

theorem rounds_of_session (hblind : ∀ i s t, env.strat i { s with stop := t } = env.strat i s) :
    ∀ {fuel i : Nat} {s r : Session ρ} {t : Stop}, Later s.stop t → session ops o env fuel i s = some (.ok r) →
    ∃ n t', rounds ops o env n i { s with stop := t } = .ok { r with stop := t' } ∧ r.saver.states.length = s.saver.states.length + n
  | 0, _, _, _, _, _, h => by simp [session] at h
  | fuel + 1, i, s, r, t, hl, h => by
    rw [session] at h
    cases h1 : s.stop.isStop (env.clock i) with
    | error e => rw [h1] at h; simp at h
    | ok b =>
      rw [h1] at h
      cases b with
      | true =>
        simp only [Option.some.injEq, Except.ok.injEq] at h
        subst h
        exact ⟨0, t, rfl, rfl⟩
      | false =>
        simp only at h
        cases h2 : sessionBody ops o env i s with
        | error e => rw [h2] at h; simp at h
        | ok s' =>
          rw [h2] at h
          obtain ⟨t1, hl1, e1⟩ := sbody_later hblind hl h2
          obtain ⟨n, t', hn, hlen⟩ := rounds_of_session hblind hl1 h
          obtain ⟨sel, st, -, -, hs⟩ := sbody_states h2
          refine ⟨n + 1, t', ?_, by rw [hlen, hs]; simp; omega⟩
          rw [rounds, e1]
          exact hn

theorem rounds_states : ∀ {n i : Nat} {s r : Session ρ}, rounds ops o env n i s = .ok r →
    s.saver.states <+: r.saver.states ∧ r.saver.states.length = s.saver.states.length + n
  | 0, _, _, _, h => by cases h; exact ⟨List.prefix_refl _, rfl⟩
  | n + 1, i, s, r, h => by
    rw [rounds] at h
    cases h2 : sessionBody ops o env i s with
    | error e => rw [h2] at h; simp at h
    | ok s' =>
      rw [h2] at h
      obtain ⟨sel, st, -, -, hs⟩ := sbody_states h2
      obtain ⟨g1, g2⟩ := rounds_states h
      refine ⟨(by rw [hs]; exact List.prefix_append _ _ : s.saver.states <+: s'.saver.states).trans g1, ?_⟩
      rw [g2, hs]; simp; omega

theorem rounds_add : ∀ {n m i : Nat} {s : Session ρ}, rounds ops o env (n + m) i s =
    match rounds ops o env n i s with
    | .error e => .error e
    | .ok r => rounds ops o env m (i + n) r
  | 0, m, i, s => by simp [rounds]
  | n + 1, m, i, s => by
    rw [Nat.add_right_comm, rounds, rounds]
    cases sessionBody ops o env i s with
    | error e => rfl
    | ok s' =>
      simp only
      rw [rounds_add]
      simp only [Nat.add_assoc, Nat.add_comm 1 n]

/-- Every recorded state is a choice of the strategy. -/
theorem session_chosen {P : List Val → Prop} (hP : ∀ i s sel, env.strat i s = .ok sel → P sel) : ∀ {fuel i : Nat} {s r : Session ρ},
    session ops o env fuel i s = some (.ok r) →
    (∀ e ∈ s.saver.states, ∃ st sel, e = Entry.st st ∧ st.getValue "select_index" = .ok (.sel sel) ∧ P sel) →
    ∀ e ∈ r.saver.states, ∃ st sel, e = Entry.st st ∧ st.getValue "select_index" = .ok (.sel sel) ∧ P sel
  | 0, _, _, _, h, _ => by simp [session] at h
  | fuel + 1, i, s, r, h, hs => by
    rw [session] at h
    cases h1 : s.stop.isStop (env.clock i) with
    | error e => rw [h1] at h; simp at h
    | ok b =>
      rw [h1] at h
      cases b with
      | true =>
        simp only [Option.some.injEq, Except.ok.injEq] at h
        subst h
        exact hs
      | false =>
        simp only at h
        cases h2 : sessionBody ops o env i s with
        | error e => rw [h2] at h; simp at h
        | ok s' =>
          rw [h2] at h
          refine session_chosen hP h ?_
          obtain ⟨sel, st, e1, e2, e3⟩ := sbody_states h2
          rw [e3]
          intro e he
          rcases List.mem_append.1 he with he | he
          · exact hs e he
          · rw [List.mem_singleton] at he
            exact ⟨st, sel, he, e2, hP _ _ _ e1⟩

end general

/-! ## Batches are determined by the record -/

theorem records_unique {cost : Option (List ℚ)} {e : Entry (List Val)} {ns ms : List Nat} (h : RecordsBatch cost e ns) (h' : RecordsBatch cost e ms) :
    ns = ms := by
  obtain ⟨st, sel, rfl, h1, h2, -⟩ := h
  obtain ⟨st', sel', e', h1', h2', -⟩ := h'
  cases e'
  rw [h1] at h1'
  cases h1'
  rw [h2] at h2'
  exact List.map_injective_iff.2 num_inj h2'

theorem records_prefix {cost : Option (List ℚ)} : ∀ {a b : List (Entry (List Val))} {qs qs' : List (List Nat)}, a <+: b →
    List.Forall₂ (RecordsBatch cost) a qs → List.Forall₂ (RecordsBatch cost) b qs' → qs <+: qs'
  | _, _, [], _, _, .nil, _ => List.nil_prefix
  | _, _, _, _, hp, .cons h t, h' => by
    obtain ⟨u, rfl⟩ := hp
    cases h' with
    | cons g u' =>
      rw [records_unique h g]
      exact List.cons_prefix_cons.2 ⟨rfl, records_prefix (List.prefix_append _ _) t u'⟩

/-! ## Counting -/

theorem remaining_length {us : List Nat} {q : List (List Nat)} (hn : q.flatten.Nodup) (hs : ∀ n ∈ q.flatten, n ∈ us) :
    (remaining us q).length + q.flatten.length = us.dedup.length := by
  unfold remaining
  have h2 : (us.dedup.filter (fun n => decide (n ∈ q.flatten))).Perm q.flatten := by
    rw [List.perm_ext_iff_of_nodup ((List.nodup_dedup _).filter _) hn]
    intro a
    simp only [List.mem_filter, List.mem_dedup, decide_eq_true_eq]
    exact ⟨fun h => h.2, fun h => ⟨hs a h, h⟩⟩
  have h3 := List.length_eq_length_filter_add (l := us.dedup) (fun n => decide (n ∈ q.flatten))
  have h4 : us.dedup.filter (fun n => decide (n ∉ q.flatten)) = us.dedup.filter (fun n => !decide (n ∈ q.flatten)) := by
    congr 1; funext n; exact decide_not
  rw [h4, ← h2.length_eq]
  omega

theorem flatten_single : ∀ {q : List (List Nat)}, (∀ ns ∈ q, ns.length = 1) → q.flatten.length = q.length
  | [], _ => rfl
  | ns :: q, h => by
    rw [List.flatten_cons, List.length_append, flatten_single fun x hx => h x (List.mem_cons_of_mem _ hx), h ns List.mem_cons_self, List.length_cons]
    omega

theorem length_le_flatten : ∀ {q : List (List Nat)}, (∀ ns ∈ q, ns ≠ []) → q.length ≤ q.flatten.length
  | [], _ => by simp
  | ns :: q, h => by
    have h1 := length_le_flatten fun x hx => h x (List.mem_cons_of_mem _ hx)
    have h2 := List.length_pos_iff.2 (h ns List.mem_cons_self)
    rw [List.flatten_cons, List.length_append, List.length_cons]
    omega

theorem spent_const {cost : Option (List ℚ)} {w : ℚ} {q : List (List Nat)} (h : ∀ n ∈ q.flatten, price cost n = w) :
    spentOn cost q = w * q.flatten.length := by
  unfold spentOn
  rw [List.map_congr_left h, List.map_const', List.sum_replicate, nsmul_eq_mul, mul_comm]

/-- Examples left over: less was spent than the price of the whole pool. -/
theorem spent_lt {cost : Option (List ℚ)} {us : List Nat} {q : List (List Nat)} (hn : q.flatten.Nodup) (hs : ∀ n ∈ q.flatten, n ∈ us)
    (hpos : ∀ i ∈ us, 0 < price cost i) (hr : remaining us q ≠ []) : spentOn cost q < (us.dedup.map (price cost)).sum := by
  have hp : us.dedup.Perm (q.flatten ++ remaining us q) := by
    rw [List.perm_ext_iff_of_nodup (List.nodup_dedup _)]
    · intro a
      simp only [remaining, List.mem_append, List.mem_filter, List.mem_dedup, decide_eq_true_eq]
      constructor
      · intro h
        by_cases hq : a ∈ q.flatten
        · exact .inl hq
        · exact .inr ⟨h, hq⟩
      · rintro (h | h)
        · exact hs a h
        · exact h.1
    · refine hn.append ((List.nodup_dedup _).filter _) fun a h1 h2 => ?_
      have := (List.mem_filter.1 h2).2
      simp only [decide_eq_true_eq] at this
      exact this h1
  rw [(hp.map (price cost)).sum_eq, List.map_append, List.sum_append]
  have hrest : 0 < ((remaining us q).map (price cost)).sum := by
    apply List.sum_pos
    · intro x hx
      obtain ⟨i, hi, rfl⟩ := List.mem_map.1 hx
      exact hpos i (List.mem_dedup.1 (List.mem_filter.1 hi).1)
    · simpa using hr
  unfold spentOn
  linarith

/-! ## The runs -/

section runs
variable {ρ χ β : Type} [DecidableEq χ] {ops : RepoOps ρ β} {holds : ρ → List (Key × β) → Prop}

theorem outcome_agree {o : Oracle χ β} {env : SessionEnv ρ} (hblind : ∀ i s t, env.strat i { s with stop := t } = env.strat i s)
    {Ldata Udata : List Val} {repo : ρ} {c c' : Setting} {now : ℚ} {st st' : Stop} (hst : Stop.new c.1 c.2 now = .ok st)
    (hst' : Stop.new c'.1 c'.2 now = .ok st') {fuel fuel' : Nat} {r r' : Session ρ}
    (hr : session ops o env fuel 0 (startSession Ldata Udata repo st) = some (.ok r))
    (hr' : session ops o env fuel' 0 (startSession Ldata Udata repo st') = some (.ok r'))
    {y : List β} {cost : Option (List ℚ)} {ls us : List Nat} {v v' : ℚ} {tr tr' : Except PyErr (List β × List Key)} {sp sp' : ℚ}
    {qs qs' : List (List Nat)} (h : SessionOutcome y cost ls us env.clock st v r tr sp qs)
    (h' : SessionOutcome y cost ls us env.clock st' v' r' tr' sp' qs')
    (hag : ∀ q, q <+: qs ∨ q <+: qs' → remaining us q ≠ [] →
      (BoundReached st.crit v q.length (spentOn cost q) us.dedup.length (remaining us q).length (env.clock q.length - st.startTime) ↔
        BoundReached st'.crit v' q.length (spentOn cost q) us.dedup.length (remaining us q).length (env.clock q.length - st'.startTime))) :
    r.L = r'.L ∧ r.U = r'.U ∧ r.repo = r'.repo ∧ r.saver = r'.saver := by
  have hnone : Stop.new none none now = .ok ⟨.none, none, none, now, 0, 0, 100, 0⟩ := rfl
  obtain ⟨n, t, g1, g2⟩ := rounds_of_session hblind (later_none hst hnone) hr
  obtain ⟨n', t', g1', g2'⟩ := rounds_of_session hblind (later_none hst' hnone) hr'
  have e0 : ({ startSession Ldata Udata repo st with stop := ⟨.none, none, none, now, 0, 0, 100, 0⟩ } : Session ρ) =
      { startSession Ldata Udata repo st' with stop := ⟨.none, none, none, now, 0, 0, 100, 0⟩ } := rfl
  rw [← e0] at g1'
  have l1 : r.saver.states.length = n := by simpa [startSession, StateIO.new] using g2
  have l2 : r'.saver.states.length = n' := by simpa [startSession, StateIO.new] using g2'
  have q1 := h.recorded.length_eq
  have q2 := h'.recorded.length_eq
  have key : n = n' := by
    rcases Nat.lt_trichotomy n n' with hlt | heq | hlt
    · exfalso
      obtain ⟨m, rfl⟩ := Nat.exists_eq_add_of_le hlt.le
      rw [rounds_add, g1] at g1'
      have hpre := (rounds_states g1').1
      have hq : qs <+: qs' := records_prefix hpre h.recorded h'.recorded
      have ht : qs'.take qs.length = qs := (List.prefix_iff_eq_take.1 hq).symm
      obtain ⟨k1, k2⟩ := h'.inTime qs.length (by omega)
      rw [ht] at k1 k2
      rcases h.stopped with hs | hs
      · exact k1 hs
      · exact k2 ((hag qs (.inl (List.prefix_refl _)) k1).1 hs)
    · exact heq
    · exfalso
      obtain ⟨m, rfl⟩ := Nat.exists_eq_add_of_le hlt.le
      rw [rounds_add, g1'] at g1
      have hpre := (rounds_states g1).1
      have hq : qs' <+: qs := records_prefix hpre h'.recorded h.recorded
      have ht : qs.take qs'.length = qs' := (List.prefix_iff_eq_take.1 hq).symm
      obtain ⟨k1, k2⟩ := h.inTime qs'.length (by omega)
      rw [ht] at k1 k2
      rcases h'.stopped with hs | hs
      · exact k1 hs
      · exact k2 ((hag qs' (.inr (List.prefix_refl _)) k1).2 hs)
  subst key
  rw [g1] at g1'
  have := Except.ok.inj g1'
  injection this with i1 i2 i3 i4
  exact ⟨i1, i2, i3, i4⟩

theorem agree_law {legal : β → Prop} (law : RepoLaw ops holds legal) {y : List β} (hlegal : ∀ b ∈ y, legal b) {ex : Option (List χ)}
    {cost : Option (List ℚ)} {ty : β → Nat} {o : Oracle χ β} (hnew : Oracle.new ty y ex none cost = .ok o) {env : SessionEnv ρ}
    (hst : GoodChoice env.strat) (hblind : ∀ i s t, env.strat i { s with stop := t } = env.strat i s) (a b : Bool) {ls us : List Nat}
    (hls : ls ≠ []) (hus : us ≠ []) (hnd : ls.Nodup) (hr : ∀ n ∈ us, n < y.length) (hdis : ∀ n ∈ ls, n ∉ us) {repo : ρ} {bs : List β}
    (hrepo : holds repo ((ls.map (fun n : Nat => Key.num n)).zip bs)) (hbs : List.Forall₂ (fun (n : Nat) b => y[n]? = some b) ls bs)
    (hcost : ops.cost repo = 0) (now : ℚ) :
    CriteriaAgree us.dedup.length (∀ i s sel, env.strat i s = .ok sel → sel.length ≤ 1) (price cost) us
      (SameRun ops o env (ls.map (item a)) (us.map (item b)) repo now) := by
  have hN : (0 : ℚ) < us.dedup.length := by
    have : us.dedup ≠ [] := by
      obtain ⟨n, hn⟩ := List.exists_mem_of_ne_nil _ hus
      exact List.ne_nil_of_mem (List.mem_dedup.2 hn)
    exact_mod_cast List.length_pos_iff.2 this
  -- two settings that mean the same for every record that can occur
  have main : ∀ (P : List (List Nat) → Prop) (c c' : Setting) (st st' : Stop) (v v' : ℚ), Stop.new c.1 c.2 now = .ok st →
      Stop.new c'.1 c'.2 now = .ok st' → (st.crit ≠ .none → st.value = some v) → (st'.crit ≠ .none → st'.value = some v') →
      (st.crit = .percentOfUnlabel → 0 ≤ v ∧ v ≤ 1) → (st'.crit = .percentOfUnlabel → 0 ≤ v' ∧ v' ≤ 1) →
      (∀ (s r : Session ρ) (fuel : Nat) (qs : List (List Nat)), s.saver.states = [] → session ops o env fuel 0 s = some (.ok r) →
        List.Forall₂ (RecordsBatch cost) r.saver.states qs → ∀ q, q <+: qs → P q) →
      (∀ q, P q → q.flatten.Nodup → (∀ n ∈ q.flatten, n ∈ us) → (∀ ns ∈ q, ns ≠ []) →
        ((remaining us q).length + q.flatten.length = us.dedup.length) → remaining us q ≠ [] → ∀ elapsed,
        (BoundReached st.crit v q.length (spentOn cost q) us.dedup.length (remaining us q).length elapsed ↔
          BoundReached st'.crit v' q.length (spentOn cost q) us.dedup.length (remaining us q).length elapsed)) →
      (st.startTime = st'.startTime) →
      SameRun ops o env (ls.map (item a)) (us.map (item b)) repo now c c' := by
    intro P c c' st st' v v' hc hc' hv hv' hp hp' hP hiff htime
    obtain ⟨r, qs, e1, e2⟩ := session_law law hlegal hnew hst a b hls hus hnd hr hdis hrepo hbs hcost hc v hv hp
    obtain ⟨r', qs', e1', e2'⟩ := session_law law hlegal hnew hst a b hls hus hnd hr hdis hrepo hbs hcost hc' v' hv' hp'
    have hlen : (us.map (item b)).length = us.length := by simp
    refine ⟨st, st', r, r', hc, hc', fun f hf => e1 f (hlen ▸ hf), fun f hf => e1' f (hlen ▸ hf), ?_⟩
    refine outcome_agree hblind hc hc' (e1 _ (Nat.lt_succ_self _)) (e1' _ (Nat.lt_succ_self _)) e2 e2' ?_
    intro q hq hrem
    have fact : q.flatten.Nodup ∧ (∀ n ∈ q.flatten, n ∈ us) ∧ (∀ ns ∈ q, ns ≠ []) ∧ P q := by
      rcases hq with hq | hq
      · obtain ⟨u, hu⟩ := hq
        have h1 := e2.once
        have h2 := e2.pool
        have h3 := e2.batches
        refine ⟨?_, fun n hn => h2 n (by rw [← hu, List.flatten_append]; exact List.mem_append_left _ hn),
          fun ns hns => h3 ns (by rw [← hu]; exact List.mem_append_left _ hns), hP _ r _ qs rfl (e1 _ (Nat.lt_succ_self _)) e2.recorded q ⟨u, hu⟩⟩
        rw [← hu, List.flatten_append] at h1
        exact (List.nodup_append.1 (List.nodup_append.1 h1).2.1).1
      · obtain ⟨u, hu⟩ := hq
        have h1 := e2'.once
        have h2 := e2'.pool
        have h3 := e2'.batches
        refine ⟨?_, fun n hn => h2 n (by rw [← hu, List.flatten_append]; exact List.mem_append_left _ hn),
          fun ns hns => h3 ns (by rw [← hu]; exact List.mem_append_left _ hns), hP _ r' _ qs' rfl (e1' _ (Nat.lt_succ_self _)) e2'.recorded q ⟨u, hu⟩⟩
        rw [← hu, List.flatten_append] at h1
        exact (List.nodup_append.1 (List.nodup_append.1 h1).2.1).1
    obtain ⟨f1, f2, f3, f4⟩ := fact
    rw [← htime]
    exact hiff q f4 f1 f2 f3 (remaining_length f1 f2) hrem _
  have singles : (∀ i s sel, env.strat i s = .ok sel → sel.length ≤ 1) → ∀ (s r : Session ρ) (fuel : Nat) (qs : List (List Nat)),
      s.saver.states = [] → session ops o env fuel 0 s = some (.ok r) → List.Forall₂ (RecordsBatch cost) r.saver.states qs →
      ∀ q, q <+: qs → ∀ ns ∈ q, ns.length ≤ 1 := by
    intro hs s r fuel qs h0 hrun hrec q hq ns hns
    have hmem : ns ∈ qs := hq.subset hns
    have hch := session_chosen (P := fun sel => sel.length ≤ 1) hs hrun (by rw [h0]; simp)
    obtain ⟨k, hk, rfl⟩ := List.mem_iff_getElem.1 hmem
    have hk' : k < r.saver.states.length := by rw [hrec.length_eq]; exact hk
    obtain ⟨st, sel, d1, d2, d3, -⟩ := hrec.get hk' hk
    obtain ⟨st', sel', d1', d2', d3'⟩ := hch _ (List.getElem_mem hk')
    simp only [List.get_eq_getElem] at d1
    rw [d1] at d1'
    cases d1'
    rw [d2] at d2'
    cases d2'
    have := congrArg List.length d3
    simp only [List.length_map, List.get_eq_getElem] at this
    omega
  constructor
  · intro hs p hp0 hp1
    refine main (fun q => ∀ ns ∈ q, ns.length ≤ 1) _ _ ⟨.percentOfUnlabel, some p, some p, now, 0, 0, 100, 0⟩
      ⟨.numOfQueries, some _, some _, now, 0, 0, 100, 0⟩ p _ rfl rfl (fun _ => rfl) (fun _ => rfl) (fun _ => ⟨hp0, hp1⟩) (by simp)
      (singles hs) ?_ rfl
    intro q h1 _ _ hne hlen _ elapsed
    have hq := flatten_single fun ns hns => le_antisymm (h1 ns hns) (List.length_pos_iff.2 (hne ns hns))
    have e : ((us.dedup.length : ℚ) - (remaining us q).length) = (q.length : ℚ) := by
      rw [← hlen, hq]; push_cast; ring
    simp only [BoundReached]
    rw [e, le_div_iff₀ hN]
    have : ((⌈p * us.dedup.length⌉ : Int) : ℚ) ≤ (q.length : ℚ) ↔ ⌈p * us.dedup.length⌉ ≤ (q.length : Int) := by
      constructor <;> intro h <;> exact_mod_cast h
    rw [this, Int.ceil_le]
    push_cast
    rfl
  · intro hs w hw hpr c
    refine main (fun q => ∀ ns ∈ q, ns.length ≤ 1) _ _ ⟨.costLimit, some c, some c, now, 0, 0, 100, 0⟩
      ⟨.numOfQueries, some _, some _, now, 0, 0, 100, 0⟩ c _ rfl rfl (fun _ => rfl) (fun _ => rfl) (by simp) (by simp) (singles hs) ?_ rfl
    intro q h1 _ hin hne hlen _ elapsed
    have hq := flatten_single fun ns hns => le_antisymm (h1 ns hns) (List.length_pos_iff.2 (hne ns hns))
    simp only [BoundReached]
    rw [spent_const (w := w) (fun n hn => hpr n (hin n hn)), hq]
    have : ((⌈c / w⌉ : Int) : ℚ) ≤ (q.length : ℚ) ↔ ⌈c / w⌉ ≤ (q.length : Int) := by
      constructor <;> intro h <;> exact_mod_cast h
    rw [this, Int.ceil_le, div_le_iff₀ hw, mul_comm]
    push_cast
    rfl
  · intro w hw hpr p hp0 hp1
    refine main (fun _ => True) _ _ ⟨.costLimit, some _, some _, now, 0, 0, 100, 0⟩ ⟨.percentOfUnlabel, some p, some p, now, 0, 0, 100, 0⟩ _ p
      rfl rfl (fun _ => rfl) (fun _ => rfl) (by simp) (fun _ => ⟨hp0, hp1⟩) (by simp) ?_ rfl
    intro q _ _ hin _ hlen _ elapsed
    simp only [BoundReached]
    rw [spent_const (w := w) (fun n hn => hpr n (hin n hn))]
    have e : ((us.dedup.length : ℚ) - (remaining us q).length) = (q.flatten.length : ℚ) := by
      rw [← hlen]; push_cast; ring
    rw [e, le_div_iff₀ hN, PyNum.val]
    constructor
    · intro h
      have : w * (p * us.dedup.length) ≤ w * q.flatten.length := by linarith
      exact le_of_mul_le_mul_left this hw
    · intro h
      have := mul_le_mul_of_nonneg_left h hw.le
      linarith
  · refine main (fun _ => True) _ _ ⟨.percentOfUnlabel, some 1, some 1, now, 0, 0, 100, 0⟩ ⟨.none, none, none, now, 0, 0, 100, 0⟩ 1 0
      rfl rfl (fun _ => rfl) (by simp) (fun _ => ⟨zero_le_one, le_refl _⟩) (by simp) (by simp) ?_ rfl
    intro q _ _ hin _ hlen hrem elapsed
    simp only [BoundReached, iff_false, not_le]
    rw [div_lt_one hN]
    have : (0 : ℚ) < (remaining us q).length := by exact_mod_cast List.length_pos_iff.2 hrem
    linarith
  · intro k hk
    refine main (fun _ => True) _ _ ⟨.numOfQueries, some k, some k, now, 0, 0, 100, 0⟩ ⟨.none, none, none, now, 0, 0, 100, 0⟩ k 0
      rfl rfl (fun _ => rfl) (by simp) (by simp) (by simp) (by simp) ?_ rfl
    intro q _ _ hin hne hlen hrem elapsed
    simp only [BoundReached, iff_false, not_le]
    have h1 := length_le_flatten hne
    have h2 := List.length_pos_iff.2 hrem
    have : (q.length : Int) < k := by omega
    exact_mod_cast this
  · intro hpos c hc
    refine main (fun _ => True) _ _ ⟨.costLimit, some c, some c, now, 0, 0, 100, 0⟩ ⟨.none, none, none, now, 0, 0, 100, 0⟩ c 0
      rfl rfl (fun _ => rfl) (by simp) (by simp) (by simp) (by simp) ?_ rfl
    intro q _ hnd' hin hne hlen hrem elapsed
    simp only [BoundReached, iff_false, not_le]
    exact lt_of_lt_of_le (spent_lt hnd' hin hpos hrem) hc

end runs

/-! ## C147 -/

/-- **C147**, with an `ElementRepository`: in the loop of a user, for every strategy that chooses at least one example of the pool and none twice
(and does not look at the criterion), the settings that say the same thing lead to the same run. -/
theorem C147_element_repository {χ β : Type} [DecidableEq χ] {y : List β} {ex : Option (List χ)} {cost : Option (List ℚ)} {ty : β → Nat}
    {o : Oracle χ β} (hnew : Oracle.new ty y ex none cost = .ok o) (env : SessionEnv (ERepo Key β Unit)) (hst : GoodChoice env.strat)
    (hblind : ∀ i s t, env.strat i { s with stop := t } = env.strat i s) (a b : Bool)
    (ls us : List Nat) (hls : ls ≠ []) (hus : us ≠ []) (hnd : ls.Nodup) (hr : ∀ n ∈ us, n < y.length) (hdis : ∀ n ∈ ls, n ∉ us)
    (bs : List β) (hbs : ls.map (fun n => y[n]?) = bs.map some) (repo : ERepo Key β Unit)
    (hrepo : ERepo.new bs (ls.map (fun n : Nat => Key.num n)) none = .ok repo) (now : ℚ) :
    CriteriaAgree us.dedup.length (∀ i s sel, env.strat i s = .ok sel → sel.length ≤ 1) (price cost) us
      (SameRun elementOps o env (ls.map (item a)) (us.map (item b)) repo now) := by
  have hl := (forall₂_labels hbs).length_eq
  refine agree_law elementLaw (fun _ _ => trivial) hnew hst hblind a b hls hus hnd hr hdis (bs := bs) ?_ (forall₂_labels hbs) ?_ now
  · refine ERepo.Hist.new bs (ls.map (fun n : Nat => Key.num n)) none rfl ⟨?_, ?_, ?_, ?_⟩ ?_ hrepo
    · rw [eRow_label, List.map_snd_zip (by rw [List.length_map]; omega)]
    · rw [eRow_index, List.map_fst_zip (by rw [List.length_map]; omega)]
    · intro xs hx; cases hx
    · intro _ x hx
      obtain ⟨p, -, rfl⟩ := List.mem_map.1 hx
      rfl
    · apply eRow_noClash
      rw [List.map_fst_zip (by rw [List.length_map]; omega)]
      exact hnd.map num_inj
  · unfold ERepo.new at hrepo
    split at hrepo
    · cases hrepo; rfl
    · cases hrepo

/-- **C147**, with a `MatrixRepository`. -/
theorem C147_matrix_repository {χ γ : Type} [DecidableEq χ] [DecidableEq γ] {y : List (Lab γ)} {ex : Option (List χ)} {cost : Option (List ℚ)}
    {ty : Lab γ → Nat} {o : Oracle χ (Lab γ)} (hnew : Oracle.new ty y ex none cost = .ok o) (sh : Option Nat)
    (hsh : ∀ l ∈ y, l.shape = sh) (env : SessionEnv (MRepo Key γ)) (hst : GoodChoice env.strat)
    (hblind : ∀ i s t, env.strat i { s with stop := t } = env.strat i s) (a b : Bool)
    (ls us : List Nat) (hls : ls ≠ []) (hus : us ≠ []) (hnd : ls.Nodup) (hr : ∀ n ∈ us, n < y.length) (hdis : ∀ n ∈ ls, n ∉ us)
    (bs : List (Lab γ)) (hbs : ls.map (fun n => y[n]?) = bs.map some) (repo : MRepo Key γ)
    (hrepo : MRepo.new bs (ls.map (fun n : Nat => Key.num n)) none = .ok repo) (now : ℚ) :
    CriteriaAgree us.dedup.length (∀ i s sel, env.strat i s = .ok sel → sel.length ≤ 1) (price cost) us
      (SameRun matrixOps o env (ls.map (item a)) (us.map (item b)) repo now) := by
  have hf := forall₂_labels hbs
  have hl := hf.length_eq
  refine agree_law (matrixLaw sh) hsh hnew hst hblind a b hls hus hnd hr hdis (bs := bs) ?_ hf ?_ now
  · unfold MRepo.new at hrepo
    split at hrepo
    · cases bs with
      | nil => simp at hrepo
      | cons b0 bs0 =>
        simp only at hrepo
        split at hrepo
        · split at hrepo
          · cases hrepo
            refine ⟨_, rfl, ?_, ?_, rfl, ?_⟩
            · rw [List.map_snd_zip (by rw [List.length_map]; omega)]
            · rw [List.map_fst_zip (by rw [List.length_map]; omega)]
            · cases hf with
              | cons h1 _ => exact hsh _ (List.mem_of_getElem? h1)
          · cases hrepo
        · cases hrepo
    · cases hrepo
  · unfold MRepo.new at hrepo
    split at hrepo
    · cases bs with
      | nil => simp at hrepo
      | cons b0 bs0 =>
        simp only at hrepo
        split at hrepo
        · split at hrepo
          · cases hrepo; rfl
          · cases hrepo
        · cases hrepo
    · cases hrepo

/-! ## A case: five examples, the first one labelled, one example per query -/

def takeOne (ρ : Type) : SessionEnv ρ := ⟨fun _ s => .ok (s.U.inner.take 1), fun _ => .other 0, fun i => i⟩

theorem takeOne_good (ρ : Type) : GoodChoice (takeOne ρ).strat := by
  intro i s hne hnd
  refine ⟨s.U.inner.take 1, rfl, ?_, ?_, ?_⟩
  · cases hu : s.U.inner with
    | nil => exact absurd hu hne
    | cons x l => simp
  · intro w hw; exact List.mem_map_of_mem (List.mem_of_mem_take hw)
  · exact hnd.sublist ((List.take_sublist 1 _).map _)

/-- With four unlabelled examples, the fraction 3/10 is two queries, and so is a budget of 8 at a price of 5. -/
example (o : Oracle Unit String) (ho : Oracle.new (fun _ => 0) ["a", "b", "c", "d", "e"] none none (some [1, 5, 5, 5, 5]) = .ok o)
    (repo : ERepo Key String Unit) (hr : ERepo.new ["a"] ([0].map (fun n : Nat => Key.num n)) none = .ok repo) :
    SameRun elementOps o (takeOne _) ([0].map (item true)) ([1, 2, 3, 4].map (item true)) repo 0
        (some "percent_of_unlabel", some (.float (3 / 10))) (some "num_of_queries", some (.int 2)) ∧
      SameRun elementOps o (takeOne _) ([0].map (item true)) ([1, 2, 3, 4].map (item true)) repo 0
        (some "cost_limit", some (.float 8)) (some "num_of_queries", some (.int 2)) := by
  have h := C147_element_repository ho (takeOne _) (takeOne_good _) (fun _ _ _ => rfl) true true [0] [1, 2, 3, 4] (by simp) (by simp) (by simp)
    (by simp) (by simp) ["a"] rfl repo hr 0
  have hs : ∀ i s sel, (takeOne (ERepo Key String Unit)).strat i s = .ok sel → sel.length ≤ 1 := by
    intro i s sel e
    cases e
    simp
  refine ⟨?_, ?_⟩
  · have := h.percent_queries hs (3 / 10) (by norm_num) (by norm_num)
    rwa [show ⌈(3 / 10 : ℚ) * (([1, 2, 3, 4] : List Nat).dedup.length : ℚ)⌉ = 2 by
      rw [Int.ceil_eq_iff, show ([1, 2, 3, 4] : List Nat).dedup.length = 4 by decide]; norm_num] at this
  · have := h.cost_queries hs 5 (by norm_num) (by simp [price]) 8
    rwa [show ⌈(8 / 5 : ℚ)⌉ = 2 by rw [Int.ceil_eq_iff]; norm_num] at this

example : (Oracle.new (χ := Unit) (fun _ => 0) ["a", "b", "c", "d", "e"] none none (some [1, 5, 5, 5, 5])).toOption.isSome ∧
    (ERepo.new (χ := Unit) ["a"] ([0].map (fun n : Nat => Key.num n)) none).toOption.isSome := by decide +kernel

end Alipy.Criteria
