import Verif.Model.NoisyOracles
import Verif.Spec.Vote
import Verif.Proof.MultiLabelTools
import Verif.Proof.Oracle
import Mathlib.Tactic.Ring
import Mathlib.Tactic.Linarith
import Mathlib.Algebra.Order.Field.Basic
import Mathlib.Data.Rat.Defs

/-! # Properties of majority voting and the noisy-oracle strategies -/
namespace Alipy.Noisy
set_option linter.unusedSectionVars false
set_option linter.unusedSimpArgs false
variable {χ β K : Type} [DecidableEq β] [DecidableEq χ]

theorem counter_snoc (l : List β) (x : β) :
    counter (l ++ [x]) = dictSet x ((dictGet x (counter l)).getD 0 + 1) (counter l) := by
  simp [counter, List.foldl_append]

theorem mem_dictSet {κ ν : Type} [DecidableEq κ] (k : κ) (v : ν) (d : List (κ × ν)) (h : (d.map Prod.fst).Nodup) (p : κ × ν) :
    p ∈ dictSet k v d ↔ p = (k, v) ∨ (p ∈ d ∧ p.1 ≠ k) := by
  have hn := dictSet_nodup k v d h
  obtain ⟨a, b⟩ := p
  constructor
  · intro hm
    have h1 := dictGet_of_mem hn hm
    rw [dictGet_dictSet] at h1
    by_cases hk : a = k
    · subst hk
      simp at h1
      left; rw [h1]
    · right
      have h1' : dictGet a d = some b := by simpa [hk, Ne.symm hk] using h1
      exact ⟨mem_of_dictGet h1', hk⟩
  · rintro (h1 | ⟨h1, h2⟩)
    · cases h1
      refine mem_of_dictGet ?_
      rw [dictGet_dictSet]; simp
    · refine mem_of_dictGet ?_
      rw [dictGet_dictSet]
      simpa [h2, Ne.symm h2] using dictGet_of_mem h h1

theorem counter_nodup (l : List β) : ((counter l).map Prod.fst).Nodup := by
  induction l using List.reverseRecOn with
  | nil => simp [counter]
  | append_singleton l x ih => rw [counter_snoc]; exact dictSet_nodup _ _ _ ih

theorem counter_get (l : List β) (x : β) : dictGet x (counter l) = if x ∈ l then some (l.count x) else none := by
  induction l using List.reverseRecOn with
  | nil => simp [counter, dictGet]
  | append_singleton l y ih =>
    rw [counter_snoc, dictGet_dictSet]
    by_cases h : x = y
    · subst h
      by_cases hm : x ∈ l
      · simp [ih, hm, List.count_append]
      · simp [ih, hm, List.count_append, List.count_eq_zero_of_not_mem hm]
    · have h' : ¬ y = x := fun e => h e.symm
      by_cases hm : x ∈ l
      · simp [h, h', ih, hm, List.count_append, List.count_singleton]
      · simp [h, h', ih, hm]

theorem dictSet_map_keys {κ ν : Type} [DecidableEq κ] (k : κ) (v : ν) (d : List (κ × ν)) :
    (dictSet k v d).map Prod.fst = if k ∈ d.map Prod.fst then d.map Prod.fst else d.map Prod.fst ++ [k] := by
  induction d with
  | nil => simp [dictSet]
  | cons p r ih =>
    obtain ⟨a, b⟩ := p
    by_cases h : a = k
    · subst h; simp [dictSet]
    · have h' : ¬ k = a := fun e => h e.symm
      simp only [dictSet, h, if_false, List.map_cons, ih, List.mem_cons, h', false_or]
      split <;> simp

theorem counter_mem_keys (l : List β) (x : β) : x ∈ (counter l).map Prod.fst ↔ x ∈ l := by
  have h := counter_get l x
  constructor
  · intro hm
    by_contra hc
    rw [if_neg hc, dictGet_eq_none] at h
    exact h hm
  · intro hm
    by_contra hc
    rw [if_pos hm] at h
    rw [(dictGet_eq_none x (counter l)).2 hc] at h
    cases h

theorem idxOf_append_of_mem {l m : List β} {x : β} (h : x ∈ l) : (l ++ m).idxOf x = l.idxOf x := List.idxOf_append_of_mem h

theorem counter_order (l : List β) : ((counter l).map Prod.fst).Pairwise (fun a b => l.idxOf a < l.idxOf b) := by
  induction l using List.reverseRecOn with
  | nil => simp [counter]
  | append_singleton l y ih =>
    rw [counter_snoc, dictSet_map_keys]
    have hstep : ((counter l).map Prod.fst).Pairwise (fun a b => (l ++ [y]).idxOf a < (l ++ [y]).idxOf b) := by
      refine List.Pairwise.imp_of_mem ?_ ih
      intro a b ha hb h
      rw [List.idxOf_append_of_mem ((counter_mem_keys l a).1 ha), List.idxOf_append_of_mem ((counter_mem_keys l b).1 hb)]
      exact h
    split
    · exact hstep
    · rename_i hy
      rw [List.pairwise_append]
      refine ⟨hstep, by simp, ?_⟩
      intro a ha b hb
      rw [List.mem_singleton] at hb
      subst hb
      have hal := (counter_mem_keys l a).1 ha
      have hbl : b ∉ l := fun h => hy ((counter_mem_keys l b).2 h)
      rw [List.idxOf_append_of_mem hal, List.idxOf_append_of_notMem hbl]
      have := List.idxOf_lt_length_of_mem hal
      omega

theorem foldl_max (r : List (β × Nat)) (p : β × Nat) :
    ∃ pre post, p :: r = pre ++ r.foldl (fun m q => if m.2 < q.2 then q else m) p :: post ∧
      (∀ q ∈ pre, q.2 < (r.foldl (fun m q => if m.2 < q.2 then q else m) p).2) ∧
      (∀ q ∈ post, q.2 ≤ (r.foldl (fun m q => if m.2 < q.2 then q else m) p).2) := by
  induction r using List.reverseRecOn with
  | nil => exact ⟨[], [], by simp⟩
  | append_singleton r q ih =>
    obtain ⟨pre, post, he, h1, h2⟩ := ih
    rw [List.foldl_append]
    simp only [List.foldl_cons, List.foldl_nil]
    generalize hM : r.foldl (fun m q => if m.2 < q.2 then q else m) p = M at *
    by_cases hlt : M.2 < q.2
    · rw [if_pos hlt]
      refine ⟨p :: r, [], by simp, ?_, by simp⟩
      intro x hx
      rw [he] at hx
      rcases List.mem_append.1 hx with hx | hx
      · exact lt_trans (h1 x hx) hlt
      · rcases List.mem_cons.1 hx with hx | hx
        · rw [hx]; exact hlt
        · exact lt_of_le_of_lt (h2 x hx) hlt
    · rw [if_neg hlt]
      refine ⟨pre, post ++ [q], ?_, h1, ?_⟩
      · rw [← List.cons_append, he]; simp
      · intro x hx
        rcases List.mem_append.1 hx with hx | hx
        · exact h2 x hx
        · rw [List.mem_singleton.1 hx]; omega

theorem mostCommon_spec {labels : List β} (h : labels ≠ []) :
    ∃ l, mostCommon (counter labels) = some (l, labels.count l) ∧ Spec.Winner labels l := by
  cases hc : counter labels with
  | nil =>
    obtain ⟨x, r, rfl⟩ := List.exists_cons_of_ne_nil h
    have := (counter_mem_keys (x :: r) x).2 (by simp)
    rw [hc] at this
    simp at this
  | cons p r =>
    obtain ⟨pre, post, he, h1, h2⟩ := foldl_max r p
    simp only [mostCommon]
    generalize r.foldl (fun m q => if m.2 < q.2 then q else m) p = M at *
    obtain ⟨l, n⟩ := M
    rw [← hc] at he
    have hmem : (l, n) ∈ counter labels := by rw [he]; simp
    have hget := dictGet_of_mem (counter_nodup labels) hmem
    rw [counter_get] at hget
    have hl : l ∈ labels := by
      by_contra hc'
      rw [if_neg hc'] at hget
      cases hget
    rw [if_pos hl] at hget
    have hn : labels.count l = n := by simpa using hget
    subst hn
    refine ⟨l, rfl, hl, ?_⟩
    intro x hx
    have hxk := (counter_mem_keys labels x).2 hx
    obtain ⟨⟨x', m⟩, hq, hxe⟩ := List.mem_map.1 hxk
    simp only at hxe
    subst hxe
    have hm := dictGet_of_mem (counter_nodup labels) hq
    rw [counter_get, if_pos hx] at hm
    have hm : labels.count x' = m := by simpa using hm
    rw [he] at hq
    have hord := counter_order labels
    rw [he, List.map_append, List.map_cons, List.pairwise_append, List.pairwise_cons] at hord
    rcases List.mem_append.1 hq with hq | hq
    · have := h1 _ hq
      simp only at this
      refine ⟨by omega, fun _ hcnt => by omega⟩
    · rcases List.mem_cons.1 hq with hq | hq
      · have : x' = l := congrArg Prod.fst hq
        subst this
        exact ⟨le_refl _, fun hne => absurd rfl hne⟩
      · have := h2 _ hq
        simp only at this
        refine ⟨by omega, fun _ _ => ?_⟩
        exact hord.2.1.1 x' (List.mem_map.2 ⟨_, hq, rfl⟩)

/-! ## C46 -/

/-- The vote returns the winner and its number of votes, with or without weights of the right number. -/
theorem C46_majority_partial {labels : List β} (h : labels ≠ []) (w : Option (List K)) (hw : ∀ ws, w = some ws → ws.length = labels.length) :
    ∃ l, majorityVote labels w = .ok (labels.count l, l) ∧ Spec.Winner labels l := by
  obtain ⟨l, h1, h2⟩ := mostCommon_spec h
  refine ⟨l, ?_, h2⟩
  unfold majorityVote
  have : sameLength labels.length w = true := by
    cases w with
    | none => rfl
    | some ws => simp [sameLength, hw ws rfl]
  rw [this, h1]
  rfl

example : majorityVote (K := ℚ) [3, 1, 1, 3, 2] none = .ok (2, 3) := by decide +kernel
example : majorityVote (K := ℚ) [2, 1, 3, 1] (some [1, 1, 1, 1]) = .ok (2, 1) := by decide +kernel

/-- There is only one winner, so the theorem above determines the result. -/
theorem C46_winner_unique {labels : List β} {l m : β} (hl : Spec.Winner labels l) (hm : Spec.Winner labels m) : l = m := by
  by_contra hne
  have h1 := hl.2 m hm.1
  have h2 := hm.2 l hl.1
  have he : labels.count m = labels.count l := le_antisymm h1.1 h2.1
  have := h1.2 (Ne.symm hne) he
  have := h2.2 hne he.symm
  omega

/-- Weights are ignored: whenever there is a second label among the answers, there are weights with which it has the greatest weight, the
winner none at all, and the winner wins nevertheless. -/
theorem C46_weights_ignored_violation [Field K] [LinearOrder K] [IsStrictOrderedRing K] {labels : List β} {l m : β} (hl : Spec.Winner labels l) (hm : m ∈ labels)
    (hlm : m ≠ l) :
    ∃ ws : List K, ws.length = labels.length ∧ majorityVote labels (some ws) = .ok (labels.count l, l) ∧
      Spec.weightOf labels ws l = 0 ∧ 0 < Spec.weightOf labels ws m ∧ ∀ x, x ≠ m → Spec.weightOf labels ws x = 0 := by
  have key : ∀ x, Spec.weightOf labels (labels.map (fun a => if a = m then (1 : K) else 0)) x = if x = m then (labels.count m : K) else 0 := by
    intro x
    unfold Spec.weightOf
    clear hl hm
    induction labels with
    | nil => simp
    | cons a r ih =>
      simp only [List.map_cons, List.zip_cons_cons]
      by_cases hax : a = x
      · subst hax
        rw [List.filter_cons_of_pos (by simp), List.map_cons, List.sum_cons, ih]
        by_cases ham : a = m
        · subst ham
          simp [add_comm]
        · simp [ham]
      · rw [List.filter_cons_of_neg (by simpa using hax), ih]
        by_cases hxm : x = m
        · subst hxm
          simp [List.count_cons, hax]
        · simp [hxm]
  refine ⟨labels.map (fun a => if a = m then 1 else 0), by simp, ?_, ?_, ?_, ?_⟩
  · obtain ⟨l', h1, h2⟩ := C46_majority_partial (K := K) (List.ne_nil_of_mem hm) (some (labels.map (fun a => if a = m then 1 else 0))) (by rintro ws ⟨⟩; simp)
    rw [h1, C46_winner_unique h2 hl]
  · rw [key, if_neg (Ne.symm hlm)]
  · rw [key, if_pos rfl]
    exact_mod_cast List.count_pos_iff.2 hm
  · intro x hx
    rw [key, if_neg hx]

/-- Two votes for 1 with weights 1 and 2, one vote for 0 with weight 5. -/
example : majorityVote (K := ℚ) [0, 1, 1] (some [5, 1, 2]) = .ok (2, 1) ∧ Spec.weightOf [0, 1, 1] [(5 : ℚ), 1, 2] 1 < Spec.weightOf [0, 1, 1] [5, 1, 2] 0 := by
  decide +kernel

/-- In general: the result is the same for all weights. -/
theorem C46_any_weights_violation (labels : List β) (ws : List K) (h : ws.length = labels.length) :
    majorityVote labels (some ws) = majorityVote (K := K) labels none := by
  simp [majorityVote, sameLength, h]

/-- No label at all: IndexError. -/
theorem C46_empty_raises : majorityVote (K := K) ([] : List β) none = .error .indexError := by
  simp [majorityVote, sameLength, counter, mostCommon]

theorem askEach_ok (k : Key) : ∀ (os : List (Oracle χ β)) (as : List (β × ℚ)), List.Forall₂ (fun o a => o.ask k = .ok a) os as →
    askEach k os = .ok as
  | [], [], _ => rfl
  | o :: os, a :: as, h => by
    cases h with
    | cons h1 h2 =>
      obtain ⟨l, c⟩ := a
      simp [askEach, Oracle.queryByIndex, h1, firstOf, askEach_ok k os as h2]

/-- Voting with a list of oracles which all know the instance: the winner of their answers, and the sum of their costs. -/
theorem C46_vote_of_list {k : Key} {os : List (Oracle χ β)} {as : List (β × ℚ)} (hne : os ≠ [])
    (h : List.Forall₂ (fun o a => o.ask k = .ok a) os as) :
    ∃ l, voteOfList k os = .ok ((as.map Prod.fst).count l, l, (as.map Prod.snd).sum) ∧ Spec.Winner (as.map Prod.fst) l := by
  have has : as.map Prod.fst ≠ [] := by
    intro hc
    rw [List.map_eq_nil_iff] at hc
    subst hc
    cases h
    exact hne rfl
  obtain ⟨l, h1, h2⟩ := C46_majority_partial (K := ℚ) has none (by simp)
  refine ⟨l, ?_, h2⟩
  simp [voteOfList, askEach_ok k os as h, h1]

theorem firsts_ok : ∀ (rs : List (Answer (List β))) (ls : List β), List.Forall₂ (fun r l => ∃ t, r.labels = l :: t) rs ls →
    firsts rs = .ok ls
  | [], [], _ => rfl
  | r :: rs, l :: ls, h => by
    cases h with
    | cons h1 h2 =>
      obtain ⟨t, ht⟩ := h1
      simp [firsts, ht, firsts_ok rs ls h2]

/-- Voting with an `Oracles` object: whenever `query_from_s` answers (with a label from each oracle), the result is the winner of
the first labels and the sum of all costs, and the object is changed exactly as by that query. -/
theorem C46_vote_of_oracles {k : Key} {o o' : Oracles (List β) Key} {names : Option (List String)} {rs : List (Answer (List β))} {ls : List β}
    (hq : o.queryFromS k names = (o', .ok rs)) (hne : ls ≠ []) (h : List.Forall₂ (fun r l => ∃ t, r.labels = l :: t) rs ls) :
    ∃ l, voteOfOracles k o names = (o', .ok (ls.count l, l, (rs.map (fun a => a.costs.nums.sum)).sum)) ∧ Spec.Winner ls l := by
  obtain ⟨l, h1, h2⟩ := C46_majority_partial (K := ℚ) hne none (by simp)
  refine ⟨l, ?_, h2⟩
  simp [voteOfOracles, hq, firsts_ok rs ls h, h1]

end Alipy.Noisy
