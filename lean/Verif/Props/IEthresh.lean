import Verif.Props.NoisyOracles
import Verif.Spec.Threshold
import Verif.Proof.Repository
import Mathlib.Tactic.Positivity

/-! # Properties of the oracle selection by threshold (IEthresh) and of CEAL -/
namespace Alipy.Noisy
set_option linter.unusedSectionVars false
set_option linter.unusedSimpArgs false
variable {β K : Type} [DecidableEq β]

section
variable [Field K] [LinearOrder K] [IsStrictOrderedRing K]

theorem npMax_some : ∀ (us : List K), us ≠ [] → ∃ m ∈ us, npMax (us.map some) = some m ∧ ∀ a ∈ us, a ≤ m
  | [], h => absurd rfl h
  | [x], _ => ⟨x, by simp, rfl, by simp⟩
  | x :: y :: r, _ => by
    obtain ⟨m, hm, h1, h2⟩ := npMax_some (y :: r) (by simp)
    have he : npMax ((x :: y :: r).map some) = some (max x m) := by
      simp only [List.map_cons] at h1 ⊢
      show (match some x, npMax (some y :: List.map some r) with
        | some a, some b => some (max a b)
        | _, _ => none) = _
      rw [h1]
    rcases max_choice x m with h | h
    · refine ⟨x, by simp, by rw [he, h], ?_⟩
      intro a ha
      rcases List.mem_cons.1 ha with ha | ha
      · exact ha.le
      · exact le_trans (h2 a ha) (by rw [← h]; exact le_max_right _ _)
    · refine ⟨m, List.mem_cons_of_mem _ hm, by rw [he, h], ?_⟩
      intro a ha
      rcases List.mem_cons.1 ha with ha | ha
      · rw [ha, ← h]; exact le_max_left _ _
      · exact h2 a ha

theorem chosen_threshold {us : List K} (hne : us ≠ []) (h0 : ∀ a ∈ us, 0 ≤ a) {eps : K} (he : eps ≤ 1) :
    Spec.AboveThreshold us eps (chosen eps (us.map some)) := by
  obtain ⟨m, hm, h1, h2⟩ := npMax_some us hne
  have hiff : ∀ i, i ∈ chosen eps (us.map some) ↔ ∃ a, us[i]? = some a ∧ eps * m ≤ a := by
    intro i
    simp only [chosen, List.mem_filter, List.mem_range, List.length_map, h1, Option.map_some]
    constructor
    · rintro ⟨hi, hg⟩
      refine ⟨us[i], by simp [hi], ?_⟩
      simpa [npGe, List.getD_eq_getElem?_getD, List.getElem?_map, hi] using hg
    · rintro ⟨a, ha, hle⟩
      have hi := (List.getElem?_eq_some_iff.1 ha).1
      refine ⟨hi, ?_⟩
      simp [npGe, List.getD_eq_getElem?_getD, List.getElem?_map, ha, hle]
  refine ⟨?_, m, hm, h2, hiff, ?_⟩
  · exact List.Pairwise.filter _ List.pairwise_lt_range
  · intro i hi
    refine (hiff i).2 ⟨m, hi, ?_⟩
    have := mul_le_mul_of_nonneg_right he (h0 m hm)
    rwa [one_mul] at this

theorem chosen_nodup (eps : K) (ui : List (Option K)) : (chosen eps ui).Nodup :=
  List.Nodup.filter _ List.nodup_range

theorem chosen_lt (eps : K) (ui : List (Option K)) : ∀ i ∈ chosen eps ui, i < ui.length := by
  intro i hi
  simpa using (List.mem_filter.1 hi).1

end

/-! ## The loops -/

theorem labelLoop_ok {ask : Nat → Key → Except PyErr β} {ans : Nat → Key → β} {k : Key} : ∀ (sel : List Nat) (h : List (List (Key × β))),
    (∀ i ∈ sel, ask i k = .ok (ans i k)) →
    labelLoop ask k h sel = (sel.foldl (fun h i => h.modify i (dictSet k (ans i k))) h, .ok (sel.map (fun i => ans i k)))
  | [], h, _ => rfl
  | i :: r, h, hs => by
    rw [labelLoop, hs i (by simp)]
    simp only
    rw [labelLoop_ok r _ (fun j hj => hs j (by simp [hj]))]
    rfl

theorem modify_fold_length {α : Type} (f : Nat → α → α) : ∀ (sel : List Nat) (h : List α), (sel.foldl (fun h i => h.modify i (f i)) h).length = h.length
  | [], _ => rfl
  | i :: r, h => by rw [List.foldl_cons, modify_fold_length f r]; simp

theorem modify_fold_get {α : Type} (f : Nat → α → α) : ∀ (sel : List Nat) (h : List α) (j : Nat), sel.Nodup →
    (sel.foldl (fun h i => h.modify i (f i)) h)[j]? = if j ∈ sel then h[j]?.map (f j) else h[j]?
  | [], _, _, _ => by simp
  | i :: r, h, j, hn => by
    have hn' := List.nodup_cons.1 hn
    rw [List.foldl_cons, modify_fold_get f r _ j hn'.2, List.getElem?_modify]
    by_cases hj : i = j
    · subst hj; simp [hn'.1]
    · have hj' : ¬ j = i := fun e => hj e.symm
      simp [hj, hj']

theorem scoreLoop_ok [Field K] {st : Stats K} {n : Nat} {vote : List (Key × β)} {hist : List (List (Key × β))} {u : Nat → K} :
    ∀ (sel : List Nat) (ui : List (Option K)), (∀ i ∈ sel, calcUia st n vote (hist.getD i []) = .ok (some (u i))) →
    scoreLoop st n vote hist ui sel = (sel.foldl (fun h i => h.modify i (fun _ => some (u i))) ui, none)
  | [], _, _ => rfl
  | i :: r, ui, h => by
    rw [scoreLoop, h i (by simp)]
    simp only
    rw [scoreLoop_ok r _ (fun j hj => h j (by simp [hj])), List.foldl_cons]
    congr 2
    rw [List.set_eq_modify]

theorem rewards_ok [Field K] {vote : List (Key × β)} : ∀ (hist : List (Key × β)), (∀ p ∈ hist, p.1 ∈ vote.map Prod.fst) →
    ∃ rs : List K, rewards vote hist = .ok rs ∧
      List.Forall₂ (fun p r => ∃ m, dictGet p.1 vote = some m ∧ r = if p.2 = m then 1 else 0) hist rs
  | [], _ => ⟨[], rfl, .nil⟩
  | (k, l) :: r, h => by
    obtain ⟨rs, h1, h2⟩ := rewards_ok r (fun p hp => h p (by simp [hp]))
    have hk := h (k, l) (by simp)
    cases hg : dictGet k vote with
    | none => exact absurd hk ((dictGet_eq_none k vote).1 hg)
    | some m =>
      exact ⟨(if l = m then 1 else 0) :: rs, by simp [rewards, hg, h1], .cons ⟨m, hg, rfl⟩ h2⟩

section
variable [Field K] [LinearOrder K] [IsStrictOrderedRing K]

/-- The statistical functions give non-negative numbers. -/
structure Stats.Nonneg (st : Stats K) : Prop where
  crit : ∀ n, 0 ≤ st.crit n
  std : ∀ l, 0 ≤ st.std l
  sqrt : ∀ n, 0 ≤ st.sqrt n

/-- The score of an oracle given its agreements. -/
def Stats.score (st : Stats K) (n : Nat) (rs : List K) : K := rs.sum / rs.length + st.crit (n - 1) * st.std rs / st.sqrt n

theorem sum_01_nonneg : ∀ {rs : List K}, (∀ r ∈ rs, 0 ≤ r) → 0 ≤ rs.sum
  | [], _ => by simp
  | a :: r, h => by
    rw [List.sum_cons]
    exact add_nonneg (h a (by simp)) (sum_01_nonneg (fun x hx => h x (by simp [hx])))

theorem score_nonneg {st : Stats K} (hst : st.Nonneg) (n : Nat) {rs : List K} (h : ∀ r ∈ rs, 0 ≤ r) : 0 ≤ st.score n rs :=
  add_nonneg (div_nonneg (sum_01_nonneg h) (Nat.cast_nonneg _)) (div_nonneg (mul_nonneg (hst.crit _) (hst.std _)) (hst.sqrt _))

/-- The states after calls of `select_by_given_instance` that returned, from a new object for `n` oracles; `log` lists the
instances and the oracles returned. -/
inductive IEReach (st : Stats K) (eps : K) (ask : Nat → Key → Except PyErr β) (n : Nat) : IE β K → List (Key × List Nat) → Prop where
  | new : IEReach st eps ask n (IE.new n) []
  | step {o o' : IE β K} {log k sel} : IEReach st eps ask n o log → o.select st eps ask k = (o', .ok sel) →
      IEReach st eps ask n o' (log ++ [(k, sel)])

/-- The invariant that holds for all histories, repeated instances included. -/
structure Good (n : Nat) (o : IE β K) (us : List K) : Prop where
  lenU : us.length = n
  lenH : o.hist.length = n
  ui : o.ui = us.map some
  nonneg : ∀ a ∈ us, 0 ≤ a
  voted : ∀ h ∈ o.hist, ∀ p ∈ h, p.1 ∈ o.vote.map Prod.fst

theorem good_new (n : Nat) : Good n (IE.new n : IE β K) (List.replicate n 1) where
  lenU := by simp
  lenH := by simp [IE.new]
  ui := by simp [IE.new]
  nonneg := by
    intro a ha
    rw [List.eq_of_mem_replicate ha]; exact zero_le_one
  voted := by
    intro h hh p hp
    rw [List.eq_of_mem_replicate hh] at hp
    simp at hp

theorem forall₂_right {α γ : Type} {R : α → γ → Prop} {l : List α} {m : List γ} (h : List.Forall₂ R l m) : ∀ b ∈ m, ∃ a ∈ l, R a b := by
  induction h with
  | nil => simp
  | cons h1 _ ih =>
    intro b hb
    rcases List.mem_cons.1 hb with hb | hb
    · subst hb; exact ⟨_, by simp, h1⟩
    · obtain ⟨a, ha, hr⟩ := ih b hb
      exact ⟨a, by simp [ha], hr⟩

theorem mem_dictSet_key {κ ν : Type} [DecidableEq κ] (k : κ) (v : ν) (d : List (κ × ν)) {p : κ × ν} (h : p ∈ dictSet k v d) :
    p = (k, v) ∨ p ∈ d := by
  induction d with
  | nil => simp [dictSet] at h; exact .inl h
  | cons q r ih =>
    obtain ⟨a, b⟩ := q
    by_cases hk : a = k
    · subst hk
      simp [dictSet] at h
      rcases h with h | h
      · exact .inl h
      · exact .inr (by simp [h])
    · simp [dictSet, hk] at h
      rcases h with h | h
      · exact .inr (by simp [h])
      · rcases ih h with h | h
        · exact .inl h
        · exact .inr (by simp [h])

theorem keys_dictSet {κ ν : Type} [DecidableEq κ] (k : κ) (v : ν) (d : List (κ × ν)) (x : κ) :
    x ∈ (dictSet k v d).map Prod.fst ↔ x = k ∨ x ∈ d.map Prod.fst := by
  rw [dictSet_map_keys]
  split
  · rename_i h
    constructor
    · exact .inr
    · rintro (rfl | h') <;> assumption
  · simp [or_comm]

/-- One call: everything it returns and does. -/
theorem select_step {st : Stats K} (hst : st.Nonneg) {eps : K} (he : eps ≤ 1) {n : Nat} (hn : 2 ≤ n) {ask : Nat → Key → Except PyErr β}
    {ans : Nat → Key → β} {o : IE β K} {us : List K} (hg : Good n o us) {k : Key} (hk : ∀ i < n, ask i k = .ok (ans i k)) :
    ∃ sel m us' h, Spec.AboveThreshold us eps sel ∧ Spec.Winner (sel.map (fun i => ans i k)) m ∧
      (∀ i, h[i]? = if i ∈ sel then (o.hist[i]?).map (dictSet k (ans i k)) else o.hist[i]?) ∧
      (∀ i ∈ sel, ∃ rs, rewards (dictSet k m o.vote) (h.getD i []) = .ok rs ∧ us'[i]? = some (st.score n rs)) ∧
      (∀ i, i ∉ sel → us'[i]? = us[i]?) ∧
      o.select st eps ask k = (⟨h, dictSet k m o.vote, us'.map some⟩, .ok sel) ∧
      Good n ⟨h, dictSet k m o.vote, us'.map some⟩ us' := by
  have hne : us ≠ [] := by intro hc; have := hg.lenU; rw [hc] at this; simp at this; omega
  have hthr := chosen_threshold hne hg.nonneg he
  have hsel : (chosen eps (us.map some)).Nodup := chosen_nodup _ _
  have hlt : ∀ i ∈ chosen eps (us.map some), i < n := by
    intro i hi
    have := chosen_lt eps _ i hi
    simpa [hg.lenU] using this
  have hselne : chosen eps (us.map some) ≠ [] := by
    obtain ⟨_, m, hm, _, _, h4⟩ := hthr
    obtain ⟨i, hi, hie⟩ := List.mem_iff_getElem.1 hm
    have := h4 i (by rw [List.getElem?_eq_getElem hi, hie])
    exact List.ne_nil_of_mem this
  generalize hs : chosen eps (us.map some) = sel at *
  have hlab := labelLoop_ok (ask := ask) (ans := ans) (k := k) sel o.hist (fun i hi => hk i (hlt i hi))
  generalize hh : sel.foldl (fun h i => h.modify i (dictSet k (ans i k))) o.hist = h at *
  have hget : ∀ i, h[i]? = if i ∈ sel then (o.hist[i]?).map (dictSet k (ans i k)) else o.hist[i]? := by
    intro i; rw [← hh]; exact modify_fold_get (fun i => dictSet k (ans i k)) sel o.hist i hsel
  have hlenh : h.length = n := by rw [← hh, modify_fold_length]; exact hg.lenH
  obtain ⟨m, hm1, hm2⟩ := C46_majority_partial (K := K) (labels := sel.map (fun i => ans i k)) (by simpa using hselne) none (by simp)
  have hvoted : ∀ x ∈ h, ∀ p ∈ x, p.1 ∈ (dictSet k m o.vote).map Prod.fst := by
    intro x hx p hp
    rw [keys_dictSet]
    obtain ⟨i, hi, hie⟩ := List.mem_iff_getElem.1 hx
    have h1 := hget i
    rw [List.getElem?_eq_getElem hi, hie] at h1
    have hio : i < o.hist.length := by rw [hg.lenH, ← hlenh]; exact hi
    rw [List.getElem?_eq_getElem hio] at h1
    by_cases his : i ∈ sel
    · rw [if_pos his, Option.map_some] at h1
      have h1 := Option.some.inj h1
      rw [h1] at hp
      rcases mem_dictSet_key _ _ _ hp with hp | hp
      · left; rw [hp]
      · right; exact hg.voted _ (List.getElem_mem hio) p hp
    · rw [if_neg his] at h1
      have h1 := Option.some.inj h1
      rw [h1] at hp
      right; exact hg.voted _ (List.getElem_mem hio) p hp
  have hrew : ∀ i : Nat, ∃ rs : List K, rewards (dictSet k m o.vote) (h.getD i []) = .ok rs ∧ ∀ r ∈ rs, 0 ≤ r := by
    intro i
    have hv : ∀ p ∈ h.getD i [], p.1 ∈ (dictSet k m o.vote).map Prod.fst := by
      intro p hp
      by_cases hi : i < h.length
      · rw [List.getD_eq_getElem?_getD, List.getElem?_eq_getElem hi] at hp
        exact hvoted _ (List.getElem_mem hi) p hp
      · rw [List.getD_eq_getElem?_getD, List.getElem?_eq_none (by omega)] at hp
        simp at hp
    obtain ⟨rs, h1, h2⟩ := rewards_ok (K := K) _ hv
    refine ⟨rs, h1, ?_⟩
    intro r hr
    obtain ⟨p, _, m', _, hre⟩ := forall₂_right h2 r hr
    rw [hre]; split
    · exact zero_le_one
    · exact le_refl _
  choose R hR1 hR2 using hrew
  have hcalc : ∀ i ∈ sel, calcUia st n (dictSet k m o.vote) (h.getD i []) = .ok (some (st.score n (R i))) := by
    intro i _
    simp only [calcUia, hR1 i]
    rw [if_neg (by omega)]
    rfl
  have hsc := scoreLoop_ok (st := st) (n := n) (vote := dictSet k m o.vote) (hist := h) (u := fun i => st.score n (R i)) sel (us.map some) hcalc
  have hmap : ∀ (l : List Nat) (v : List K), l.foldl (fun h i => h.modify i (fun _ => some (st.score n (R i)))) (v.map some) =
      (l.foldl (fun h i => h.modify i (fun _ => st.score n (R i))) v).map some := by
    intro l
    induction l with
    | nil => intro v; rfl
    | cons i r ih =>
      intro v
      rw [List.foldl_cons, List.foldl_cons, ← ih]
      congr 1
      apply List.ext_getElem?
      intro j
      simp only [List.getElem?_modify, List.getElem?_map]
      cases v[j]? <;> simp
      split <;> rfl
  rw [hmap] at hsc
  generalize hu : sel.foldl (fun h i => h.modify i (fun _ => st.score n (R i))) us = us' at *
  have hus : ∀ i, us'[i]? = if i ∈ sel then (us[i]?).map (fun _ => st.score n (R i)) else us[i]? := by
    intro i; rw [← hu]; exact modify_fold_get (fun i _ => st.score n (R i)) sel us i hsel
  have hlenu : us'.length = n := by rw [← hu, modify_fold_length (fun i _ => st.score n (R i))]; exact hg.lenU
  refine ⟨sel, m, us', h, hthr, hm2, hget, ?_, ?_, ?_, ?_⟩
  · intro i hi
    refine ⟨R i, hR1 i, ?_⟩
    have : i < us.length := by rw [hg.lenU]; exact hlt i hi
    rw [hus, if_pos hi, List.getElem?_eq_getElem this]
    rfl
  · intro i hi
    rw [hus, if_neg hi]
  · unfold IE.select
    have hlen : (us.map some).length = n := by simp [hg.lenU]
    have hemp : (us.map some).isEmpty = false := by
      cases us with
      | nil => exact absurd rfl hne
      | cons _ _ => rfl
    simp only [hg.ui, hs, hlab, hm1, hlen, hsc, hemp]
    simp
  · refine ⟨hlenu, hlenh, rfl, ?_, hvoted⟩
    intro a ha
    obtain ⟨i, hi, hie⟩ := List.mem_iff_getElem.1 ha
    have h1 := hus i
    rw [List.getElem?_eq_getElem hi, hie] at h1
    have hiu : i < us.length := by rw [hg.lenU, ← hlenu]; exact hi
    rw [List.getElem?_eq_getElem hiu] at h1
    by_cases his : i ∈ sel
    · rw [if_pos his] at h1
      have := Option.some.inj h1
      rw [this]; exact score_nonneg hst n (hR2 i)
    · rw [if_neg his] at h1
      have := Option.some.inj h1
      rw [this]; exact hg.nonneg _ (List.getElem_mem hiu)

theorem reach_good {st : Stats K} (hst : st.Nonneg) {eps : K} (he : eps ≤ 1) {n : Nat} (hn : 2 ≤ n) {ask : Nat → Key → Except PyErr β}
    {o : IE β K} {log : List (Key × List Nat)} (h : IEReach st eps ask n o log)
    {ans : Nat → Key → β} (hk : ∀ k ∈ log.map Prod.fst, ∀ i < n, ask i k = .ok (ans i k)) : ∃ us, Good n o us := by
  induction h with
  | new => exact ⟨_, good_new n⟩
  | @step o o' log k sel hr hs ih =>
    obtain ⟨us, hg⟩ := ih (fun k hk' => hk k (by rw [List.map_append]; exact List.mem_append_left _ hk'))
    obtain ⟨sel, m, us', h, _, _, _, _, _, h6, h7⟩ := select_step hst he hn hg (hk k (by simp))
    rw [h6] at hs
    cases hs
    exact ⟨us', h7⟩

/-- With at least two oracles, every call on an instance which all oracles know returns exactly the oracles whose score is at
least `eps` times the best score, which includes the best ones, after any history of such calls. -/
theorem C57_threshold_partial {st : Stats K} (hst : st.Nonneg) {eps : K} (he : eps ≤ 1) {n : Nat} (hn : 2 ≤ n) {ask : Nat → Key → Except PyErr β}
    {ans : Nat → Key → β} {o : IE β K} {log : List (Key × List Nat)} (h : IEReach st eps ask n o log)
    (hk : ∀ k ∈ log.map Prod.fst, ∀ i < n, ask i k = .ok (ans i k)) {k : Key} (hk' : ∀ i < n, ask i k = .ok (ans i k)) :
    ∃ o' sel us, o.select st eps ask k = (o', .ok sel) ∧ o.ui = us.map some ∧ us.length = n ∧ sel ≠ [] ∧ Spec.AboveThreshold us eps sel := by
  obtain ⟨us, hg⟩ := reach_good hst he hn h hk
  obtain ⟨sel, m, us', h, h1, h2, _, _, _, h6, h7⟩ := select_step hst he hn hg hk'
  refine ⟨_, sel, us, h6, hg.ui, hg.lenU, ?_, h1⟩
  intro hc
  subst hc
  exact absurd h2.1 (by simp)

/-! ## The scores -/

theorem rewards_spec {vote : List (Key × β)} : ∀ (hist : List (Key × β)) (rs : List K), rewards vote hist = .ok rs →
    List.Forall₂ (fun p r => ∃ m, dictGet p.1 vote = some m ∧ r = if p.2 = m then 1 else 0) hist rs
  | [], rs, h => by
    simp only [rewards] at h
    cases h
    exact .nil
  | (k, l) :: r, rs, h => by
    rw [rewards] at h
    cases hg : dictGet k vote with
    | none => rw [hg] at h; cases h
    | some m =>
      rw [hg] at h
      simp only at h
      cases hr : rewards (K := K) vote r with
      | error e => rw [hr] at h; cases h
      | ok t =>
        rw [hr] at h
        cases h
        exact .cons ⟨m, hg, rfl⟩ (rewards_spec r t hr)

/-- The invariant for histories without repeated instance. -/
structure Exact (st : Stats K) (n : Nat) (ans : Nat → Key → β) (o : IE β K) (us : List K) (log : List (Key × List Nat)) : Prop where
  good : Good n o us
  hist : ∀ i < n, o.hist[i]? = some ((log.filter (fun e => i ∈ e.2)).map (fun e => (e.1, ans i e.1)))
  vote : ∀ e ∈ log, ∃ m, dictGet e.1 o.vote = some m ∧ Spec.Winner (e.2.map (fun j => ans j e.1)) m
  score : ∀ i < n, ∃ rs, Spec.Agreement ans i log rs ∧ us[i]? = some (if rs.isEmpty then 1 else st.score n rs)

theorem dictSet_fresh {κ ν : Type} [DecidableEq κ] (k : κ) (v : ν) : ∀ (d : List (κ × ν)), k ∉ d.map Prod.fst → dictSet k v d = d ++ [(k, v)]
  | [], _ => rfl
  | (a, b) :: r, h => by
    have ha : ¬ a = k := fun e => h (by simp [e])
    have hr : k ∉ r.map Prod.fst := fun e => h (by simp only [List.map_cons]; exact List.mem_cons_of_mem _ e)
    simp [dictSet, ha, dictSet_fresh k v r hr]

theorem forall₂_imp_mem {α γ : Type} {R S : α → γ → Prop} {l : List α} {m : List γ} (h : List.Forall₂ R l m)
    (hi : ∀ a ∈ l, ∀ b, R a b → S a b) : List.Forall₂ S l m := by
  induction h with
  | nil => exact .nil
  | cons h1 _ ih => exact .cons (hi _ (by simp) _ h1) (ih (fun a ha => hi a (by simp [ha])))

theorem reach_exact {st : Stats K} (hst : st.Nonneg) {eps : K} (he : eps ≤ 1) {n : Nat} (hn : 2 ≤ n) {ask : Nat → Key → Except PyErr β}
    {o : IE β K} {log : List (Key × List Nat)} (h : IEReach st eps ask n o log) {ans : Nat → Key → β}
    (hk : ∀ k ∈ log.map Prod.fst, ∀ i < n, ask i k = .ok (ans i k)) (hnd : (log.map Prod.fst).Nodup) : ∃ us, Exact st n ans o us log := by
  induction h with
  | new =>
    refine ⟨_, good_new n, ?_, by simp, ?_⟩
    · intro i hi
      simp [IE.new, hi]
    · intro i hi
      exact ⟨[], by simp [Spec.Agreement], by simp [hi]⟩
  | @step o o' log k sel hr hs ih =>
    rw [List.map_append] at hnd
    have hfresh : k ∉ log.map Prod.fst := by
      intro hc
      exact (List.nodup_append.1 hnd).2.2 k hc k (by simp) rfl
    obtain ⟨us, hx⟩ := ih (fun k hk' => hk k (by rw [List.map_append]; exact List.mem_append_left _ hk')) (List.nodup_append.1 hnd).1
    obtain ⟨sel', m, us', h', hthr, hwin, hget, hsc, hrest, h6, h7⟩ := select_step hst he hn hx.good (hk k (by simp))
    rw [h6] at hs
    cases hs
    have hvote : ∀ e ∈ log ++ [(k, sel)], ∃ x, dictGet e.1 (dictSet k m o.vote) = some x ∧ Spec.Winner (e.2.map (fun j => ans j e.1)) x := by
      intro e hem
      rcases List.mem_append.1 hem with hem | hem
      · obtain ⟨x, hx1, hx2⟩ := hx.vote e hem
        have hne : e.1 ≠ k := fun hc => hfresh (by rw [← hc]; exact List.mem_map.2 ⟨e, hem, rfl⟩)
        exact ⟨x, by rw [dictGet_dictSet]; simp [hne, hne.symm, hx1], hx2⟩
      · rw [List.mem_singleton] at hem
        subst hem
        exact ⟨m, by rw [dictGet_dictSet]; simp, hwin⟩
    have hhist : ∀ i < n, h'[i]? = some (((log ++ [(k, sel)]).filter (fun e => i ∈ e.2)).map (fun e => (e.1, ans i e.1))) := by
      intro i hi
      rw [hget i, hx.hist i hi, List.filter_append]
      by_cases his : i ∈ sel
      · rw [if_pos his, Option.map_some, dictSet_fresh]
        · simp [his]
        · intro hc
          apply hfresh
          rw [List.map_map] at hc
          obtain ⟨e, he1, he2⟩ := List.mem_map.1 hc
          exact List.mem_map.2 ⟨e, (List.mem_filter.1 he1).1, he2⟩
      · rw [if_neg his]
        simp [his]
    refine ⟨us', h7, hhist, hvote, ?_⟩
    intro i hi
    by_cases his : i ∈ sel
    · obtain ⟨rs, hrs, hui⟩ := hsc i his
      have hgd : h'.getD i [] = ((log ++ [(k, sel)]).filter (fun e => i ∈ e.2)).map (fun e => (e.1, ans i e.1)) := by
        rw [List.getD_eq_getElem?_getD, hhist i hi]; rfl
      rw [hgd] at hrs
      have hf := rewards_spec _ _ hrs
      rw [List.forall₂_map_left_iff] at hf
      refine ⟨rs, ?_, ?_⟩
      · refine forall₂_imp_mem hf ?_
        rintro e he r ⟨x, hx1, hx2⟩
        obtain ⟨y, hy1, hy2⟩ := hvote e (List.mem_filter.1 he).1
        simp only at hx1 hx2
        rw [hy1] at hx1
        cases hx1
        exact ⟨x, hy2, hx2⟩
      · have hne : rs.isEmpty = false := by
          have := hf.length_eq
          cases rs with
          | nil => simp [his] at this
          | cons _ _ => rfl
        rw [hne, hui]; simp
    · obtain ⟨rs, h1, h2⟩ := hx.score i hi
      refine ⟨rs, ?_, ?_⟩
      · unfold Spec.Agreement at h1 ⊢
        rw [List.filter_append]
        simpa [his] using h1
      · rw [hrest i his, h2]

/-- After any history without repeated instance, the score of every oracle is 1 if it was never asked, and otherwise the mean of
its agreements with the winners of the votes it took part in plus the confidence term. -/
theorem C57_scores_partial {st : Stats K} (hst : st.Nonneg) {eps : K} (he : eps ≤ 1) {n : Nat} (hn : 2 ≤ n) {ask : Nat → Key → Except PyErr β}
    {o : IE β K} {log : List (Key × List Nat)} (h : IEReach st eps ask n o log) {ans : Nat → Key → β}
    (hk : ∀ k ∈ log.map Prod.fst, ∀ i < n, ask i k = .ok (ans i k)) (hnd : (log.map Prod.fst).Nodup) {i : Nat} (hi : i < n) :
    ∃ rs, Spec.Agreement ans i log rs ∧
      o.ui[i]? = some (some (if rs.isEmpty then 1 else rs.sum / rs.length + st.crit (n - 1) * st.std rs / st.sqrt n)) := by
  obtain ⟨us, hx⟩ := reach_exact hst he hn h hk hnd
  obtain ⟨rs, h1, h2⟩ := hx.score i hi
  refine ⟨rs, h1, ?_⟩
  rw [hx.good.ui, List.getElem?_map, h2]
  rfl

/-- Statistical functions for the example. -/
def exStats : Stats ℚ := ⟨fun _ => 2, fun l => |l.sum| / 4, fun _ => 1⟩

/-- Two oracles which agree on instance 5 only. -/
def exAsk : Nat → Key → Except PyErr Nat := fun i k => if i = 0 then .ok 1 else if k = .num 5 then .ok 1 else .ok 2

example : exStats.Nonneg := ⟨fun _ => by simp [exStats], fun l => by simp only [exStats]; positivity, fun _ => by simp [exStats]⟩

/-- The second instance is asked from both oracles as both agreed on the first one; then the second oracle scores lower and the
third instance is asked from the first oracle only. -/
example : let o := (IE.new 2 : IE Nat ℚ)
    let a := o.select exStats 1 exAsk (.num 5)
    let b := a.1.select exStats 1 exAsk (.num 6)
    a.2 = .ok [0, 1] ∧ b.2 = .ok [0, 1] ∧ (b.1.select exStats 1 exAsk (.num 7)).2 = .ok [0] ∧ b.1.ui = [some 2, some 1] := by decide +kernel

/-- With one oracle the score is NaN after the first call, and every later call raises IndexError. -/
theorem C57_single_violation {st : Stats K} {eps : K} (he : eps ≤ 1) {ask : Nat → Key → Except PyErr β} {k k' : Key} {l l' : β}
    (h : ask 0 k = .ok l) (_h' : ask 0 k' = .ok l') :
    ∃ o' : IE β K, (IE.new 1 : IE β K).select st eps ask k = (o', .ok [0]) ∧ (o'.select st eps ask k').2 = .error .indexError := by
  have hc : chosen eps [some (1 : K)] = [0] := by
    have h0 : List.range 1 = [0] := rfl
    simp [chosen, npGe, npMax, he, h0]
  have hc' : chosen eps [(none : Option K)] = [] := by
    have h0 : List.range 1 = [0] := rfl
    simp [chosen, npGe, npMax, h0]
  obtain ⟨m, hm1, hm2⟩ := C46_majority_partial (K := K) (labels := [l]) (by simp) none (by simp)
  have hml : m = l := by simpa using hm2.1
  subst hml
  refine ⟨⟨[[(k, m)]], [(k, m)], [none]⟩, ?_, ?_⟩
  · simp [IE.select, IE.new, hc, labelLoop, h, hm1, scoreLoop, calcUia, rewards, dictSet, dictGet]
  · simp [IE.select, hc', labelLoop, C46_empty_raises]

/-- One oracle does not know an instance: the call raises after the other oracle's answer has been recorded without a result of the
vote, and from then on the calls raise KeyError also for instances that both know. -/
theorem C57_unknown_instance_violation {st : Stats K} {eps : K} (he : eps ≤ 1) {ask : Nat → Key → Except PyErr β} {k k' : Key} (hkk : k ≠ k') {l l0 l1 : β}
    {e : PyErr} (h0 : ask 0 k = .ok l) (h1 : ask 1 k = .error e) (h0' : ask 0 k' = .ok l0) (h1' : ask 1 k' = .ok l1) :
    ∃ o' : IE β K, (IE.new 2 : IE β K).select st eps ask k = (o', .error e) ∧ (o'.select st eps ask k').2 = .error .keyError := by
  have hc : chosen eps [some (1 : K), some 1] = [0, 1] := by
    have h0 : List.range 2 = [0, 1] := rfl
    simp [chosen, npGe, npMax, he, h0]
  have hrep : List.replicate 2 (some (1 : K)) = [some 1, some 1] := rfl
  obtain ⟨m, hm1, hm2⟩ := C46_majority_partial (K := K) (labels := [l0, l1]) (by simp) none (by simp)
  refine ⟨⟨[[(k, l)], []], [], [some 1, some 1]⟩, ?_, ?_⟩
  · simp [IE.select, IE.new, hrep, hc, labelLoop, h0, h1, dictSet, List.replicate]
  · simp [IE.select, hc, labelLoop, h0', h1', hm1, scoreLoop, calcUia, rewards, dictSet, dictGet, hkk, hkk.symm]

/-! ## C58: CEAL -/

theorem flatten_get {α : Type} {c : Nat} (hc : 0 < c) : ∀ (q : List (List α)), (∀ r ∈ q, r.length = c) → ∀ p,
    q.flatten[p]? = (q[p / c]?).bind (fun r => r[p % c]?)
  | [], _, p => by simp
  | r :: q, h, p => by
    have hr := h r (by simp)
    rw [List.flatten_cons, List.getElem?_append]
    by_cases hp : p < r.length
    · rw [if_pos hp]
      have : p / c = 0 := Nat.div_eq_of_lt (by omega)
      rw [this, Nat.mod_eq_of_lt (by omega)]
      simp
    · rw [if_neg hp, flatten_get hc q (fun x hx => h x (by simp [hx])) (p - r.length), hr]
      have hpc : c ≤ p := by omega
      have h1 : p / c = (p - c) / c + 1 := by
        rw [Nat.div_eq p c, if_pos ⟨hc, hpc⟩]
      have h2 : p % c = (p - c) % c := Nat.mod_eq_sub_mod hpc
      rw [h1, h2]
      simp

theorem exists_largest : ∀ {d : List K}, d ≠ [] → ∃ v ∈ d, ∀ w ∈ d, w ≤ v
  | [], h => absurd rfl h
  | [a], _ => ⟨a, by simp, by simp⟩
  | a :: b :: r, _ => by
    obtain ⟨v, hv, h⟩ := exists_largest (d := b :: r) (by simp)
    rcases le_total a v with hav | hav
    · exact ⟨v, by simp only [List.mem_cons] at hv ⊢; exact .inr hv, by
        intro w hw
        rcases List.mem_cons.1 hw with hw | hw
        · rw [hw]; exact hav
        · exact h w hw⟩
    · exact ⟨a, by simp, by
        intro w hw
        rcases List.mem_cons.1 hw with hw | hw
        · rw [hw]
        · exact le_trans (h w hw) hav⟩

theorem bestPair_spec {α ν : Type} {u : List α} (hu : 0 < u.length) {names : List ν} (hn : names ≠ []) {q : List (List K)}
    (hq : q.length = names.length) (hrow : ∀ r ∈ q, r.length = u.length) :
    ∃ (i j : Nat) (x : α) (n : ν) (r : List K) (v : K), bestPair u names q = .ok (x, n) ∧ u[j]? = some x ∧ names[i]? = some n ∧
      q[i]? = some r ∧ r[j]? = some v ∧ ∀ r' ∈ q, ∀ w ∈ r', w ≤ v := by
  have hne : q.flatten ≠ [] := by
    cases q with
    | nil => simp at hq; exact absurd (List.length_eq_zero_iff.1 hq.symm) hn
    | cons r q =>
      intro hc
      have := hrow r (by simp)
      simp at hc
      rw [hc.1] at this
      simp at this
      omega
  obtain ⟨v, hv, hmax⟩ := exists_largest hne
  have hlt : q.flatten.findIdx (fun v => q.flatten.all (fun w => decide (w ≤ v))) < q.flatten.length := by
    rw [List.findIdx_lt_length]
    exact ⟨v, hv, by rw [List.all_eq_true]; exact fun w hw => decide_eq_true (hmax w hw)⟩
  have hprop := List.findIdx_getElem (w := hlt)
  have hget := flatten_get hu q hrow (q.flatten.findIdx (fun v => q.flatten.all (fun w => decide (w ≤ v))))
  rw [List.getElem?_eq_getElem hlt] at hget
  unfold bestPair
  simp only
  rw [if_neg (by simpa using hne)]
  generalize q.flatten.findIdx (fun v => q.flatten.all (fun w => decide (w ≤ v))) = p at *
  cases hr : q[p / u.length]? with
  | none => rw [hr] at hget; simp at hget
  | some r =>
    rw [hr] at hget
    simp only [Option.bind_some] at hget
    have hi : p / u.length < names.length := by rw [← hq]; exact (List.getElem?_eq_some_iff.1 hr).1
    have hj : p % u.length < u.length := Nat.mod_lt _ hu
    refine ⟨p / u.length, p % u.length, u[p % u.length], names[p / u.length], r, q.flatten[p], ?_, List.getElem?_eq_getElem hj,
      List.getElem?_eq_getElem hi, hr, hget.symm, ?_⟩
    · rw [List.getElem?_eq_getElem hj, List.getElem?_eq_getElem hi]
    · intro r' hr' w hw
      simp only [List.all_eq_true, decide_eq_true_eq] at hprop
      exact hprop w (List.mem_flatten.2 ⟨r', hr', hw⟩)

theorem qEntry_quality (dist : List K) (right : List Bool) (t c : K) : qEntry dist right t c = Spec.quality dist right (1 - t) c := by
  have h : ∀ (dist : List K) (right : List Bool), (List.zipWith (fun d (b : Bool) => d * if b then 1 else 0) dist right).sum =
      (((dist.zip right).filter Prod.snd).map Prod.fst).sum := by
    intro dist
    induction dist with
    | nil => intro right; simp
    | cons d r ih =>
      intro right
      cases right with
      | nil => simp
      | cons b bs => cases b <;> simpa using ih bs
  unfold qEntry Spec.quality
  rw [h]

/-- With at least two unlabelled examples CEAL returns an unlabelled example and an oracle for which uncertainty times mean
distance-weighted correctness on the neighbours divided by the cost is largest - for the costs given by the oracles, whatever the
keyword arguments are. -/
theorem C58_best_pair_partial {α ν : Type} {u : List α} (hu : 2 ≤ u.length) {names : List ν} (hn : names ≠ []) {kw : List (String × Nat)}
    {ini : Nat} {dist : Nat → Nat → List K} {tops : List K} (ht : tops.length = u.length)
    {ls : List (Labeler K)} (hl : ls.length = names.length) (hini : 2 ≤ ini) (hkw : dictGet "n_neighbors" kw ≠ some 0) :
    ∃ (i j : Nat) (x : α) (n : ν) (l : Labeler K) (t : K), ceal kw ini u names dist tops ls = .ok (x, n) ∧
      u[j]? = some x ∧ names[i]? = some n ∧ ls[i]? = some l ∧ tops[j]? = some t ∧
      ∀ (i' j' : Nat) (l' : Labeler K) (t' : K), ls[i']? = some l' → tops[j']? = some t' →
        Spec.quality (dist j' (min ((dictGet "n_neighbors" kw).getD 10) (ini - 1))) (l'.right j') (1 - t') l'.cost ≤
          Spec.quality (dist j (min ((dictGet "n_neighbors" kw).getD 10) (ini - 1))) (l.right j) (1 - t) l.cost := by
  have hev : dictGet "n_neighbors" (dictErase "n_neighbors" kw) = none := by
    rw [dictGet_dictErase]; simp
  have hk0 : min ((dictGet "n_neighbors" kw).getD 10) (ini - 1) ≠ 0 := by
    cases hd : dictGet "n_neighbors" kw with
    | none => simp only [Option.getD_none]; omega
    | some v =>
      have : v ≠ 0 := by rintro rfl; exact hkw hd
      simp only [Option.getD_some]
      omega
  unfold ceal
  simp only [hev, Option.getD_none]
  rw [if_neg (by omega), if_neg hk0]
  simp only [ne_eq, not_true_eq_false, if_false]
  generalize min ((dictGet "n_neighbors" kw).getD 10) (ini - 1) = k
  obtain ⟨i, j, x, n, r, v, h1, h2, h3, h4, h5, h6⟩ := bestPair_spec (u := u) (by omega) hn
    (q := ls.map (fun l => tops.mapIdx (fun i t => qEntry (dist i k) (l.right i) t l.cost))) (by simpa using hl) (by
      intro r hr
      obtain ⟨l, _, rfl⟩ := List.mem_map.1 hr
      simp [ht])
  rw [List.getElem?_map] at h4
  obtain ⟨l, hl1, hl2⟩ := Option.map_eq_some_iff.1 h4
  subst hl2
  rw [List.getElem?_mapIdx] at h5
  obtain ⟨t, ht1, ht2⟩ := Option.map_eq_some_iff.1 h5
  subst ht2
  refine ⟨i, j, x, n, l, t, h1, h2, h3, hl1, ht1, ?_⟩
  intro i' j' l' t' hl' ht'
  rw [← qEntry_quality, ← qEntry_quality]
  refine h6 (tops.mapIdx (fun i t => qEntry (dist i k) (l'.right i) t l'.cost)) (List.mem_map.2 ⟨l', List.mem_of_getElem? hl', rfl⟩) _ ?_
  refine List.mem_of_getElem? (i := j') ?_
  rw [List.getElem?_mapIdx, ht']
  rfl

example : ceal (K := ℚ) [("eval_cost", 1)] 4 [10, 20] ["a", "b"] (fun _ _ => [1, 1]) [1/2, 9/10]
    [⟨fun _ => [true, false], 1, 1⟩, ⟨fun _ => [true, true], 1, 1/2⟩] = .ok (10, "b") := by decide +kernel

/-- One unlabelled example (or none): the call raises. -/
theorem C58_last_example_violation {α ν : Type} {u : List α} (hu : u.length ≤ 1) (names : List ν) (kw : List (String × Nat)) (ini : Nat)
    (dist : Nat → Nat → List K) (tops : List K) (ls : List (Labeler K)) : ceal kw ini u names dist tops ls = .error .valueError := by
  simp [ceal, hu]

/-- One example labelled initially, or none: the call raises. -/
theorem C58_few_labelled_violation {α ν : Type} {ini : Nat} (hi : ini ≤ 1) (u : List α) (names : List ν) (kw : List (String × Nat))
    (dist : Nat → Nat → List K) (tops : List K) (ls : List (Labeler K)) : ceal kw ini u names dist tops ls = .error .valueError := by
  unfold ceal
  simp only
  split
  · rfl
  · rw [if_pos (by omega)]

/-- Correct answers on neighbours that coincide with an example do not count: an oracle that is right there is as good as one that is wrong. -/
theorem C58_nearest_ignored (dist : List K) (hd : ∀ d ∈ dist, d = 0) (right : List Bool) (t c : K) : Spec.quality dist right (1 - t) c = 0 := by
  have h : (((dist.zip right).filter Prod.snd).map Prod.fst).sum = 0 := by
    refine List.sum_eq_zero fun x hx => ?_
    obtain ⟨p, hp, rfl⟩ := List.mem_map.1 hx
    exact hd _ (List.of_mem_zip (a := p.1) (b := p.2) (List.mem_filter.1 hp).1).1
  unfold Spec.quality
  rw [h]
  simp

/-- `eval_cost` is never honoured: the accuracies of the oracles have no influence on the result. -/
theorem C58_eval_cost_violation {α ν : Type} (u : List α) (names : List ν) (kw : List (String × Nat)) (ini : Nat)
    (dist : Nat → Nat → List K) (tops : List K) (ls : List (Labeler K)) (acc : Labeler K → K) :
    ceal kw ini u names dist tops (ls.map (fun l => { l with accuracy := acc l })) = ceal kw ini u names dist tops ls := by
  have hev : dictGet "n_neighbors" (dictErase "n_neighbors" kw) = none := by
    rw [dictGet_dictErase]; simp
  simp only [ceal, hev, Option.getD_none, ne_eq, not_true_eq_false, if_false, List.map_map]
  rfl

end
end Alipy.Noisy
