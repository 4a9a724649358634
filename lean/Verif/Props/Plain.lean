import Verif.Props.Knapsack
import Verif.Props.IEthresh
import Verif.Props.Committee
import Verif.Props.CostCurve
import Verif.Props.RankingMetrics
import Verif.Spec.Analyser
/-!
# C155: with the simplest setting the general method is the simple one
-/
namespace Alipy

/-! ## Equal costs: the knapsack takes the most valuable items -/

namespace CostSensitive
variable {K : Type} [Field K] [LinearOrder K] [IsStrictOrderedRing K]

private theorem sumOf_set_true : ∀ (f : List Bool) (l : List K) (j : Nat) (w : K), f[j]? = some false → l[j]? = some w →
    Spec.sumOf (f.set j true) l = Spec.sumOf f l + w
  | [], _, j, w, h, _ => by simp at h
  | _ :: _, [], j, w, _, h => by simp at h
  | b :: f, x :: l, 0, w, h, h' => by
    simp only [List.getElem?_cons_zero, Option.some.injEq] at h h'
    subst h h'
    simp [Spec.sumOf, add_comm]
  | b :: f, x :: l, j + 1, w, h, h' => by
    simp only [List.getElem?_cons_succ] at h h'
    have ih := sumOf_set_true f l j w h h'
    cases b <;> simp [Spec.sumOf, ih, add_assoc]

private theorem sumOf_set_false : ∀ (f : List Bool) (l : List K) (j : Nat) (w : K), f[j]? = some true → l[j]? = some w →
    Spec.sumOf (f.set j false) l + w = Spec.sumOf f l
  | [], _, j, w, h, _ => by simp at h
  | _ :: _, [], j, w, _, h => by simp at h
  | b :: f, x :: l, 0, w, h, h' => by
    simp only [List.getElem?_cons_zero, Option.some.injEq] at h h'
    subst h h'
    simp [Spec.sumOf, add_comm]
  | b :: f, x :: l, j + 1, w, h, h' => by
    simp only [List.getElem?_cons_succ] at h h'
    have ih := sumOf_set_false f l j w h h'
    cases b <;> simp [Spec.sumOf, ← ih, add_assoc]

private theorem sumOf_replicate (c : Int) : ∀ (f : List Bool), Spec.sumOf f (List.replicate f.length c) = (f.count true : Int) * c
  | [] => by simp [Spec.sumOf]
  | true :: f => by
    rw [List.length_cons, List.replicate_succ, Spec.sumOf, sumOf_replicate c f, List.count_cons_self]
    push_cast
    ring
  | false :: f => by
    rw [List.length_cons, List.replicate_succ, Spec.sumOf, sumOf_replicate c f]
    simp

private theorem count_set_true : ∀ (f : List Bool) (j : Nat), f[j]? = some false → (f.set j true).count true = f.count true + 1
  | [], j, h => by simp at h
  | b :: f, 0, h => by
    simp only [List.getElem?_cons_zero, Option.some.injEq] at h
    subst h
    simp
  | b :: f, j + 1, h => by
    simp only [List.getElem?_cons_succ] at h
    have ih := count_set_true f j h
    cases b <;> simp [ih]

private theorem count_set_false : ∀ (f : List Bool) (j : Nat), f[j]? = some true → (f.set j false).count true + 1 = f.count true
  | [], j, h => by simp at h
  | b :: f, 0, h => by
    simp only [List.getElem?_cons_zero, Option.some.injEq] at h
    subst h
    simp
  | b :: f, j + 1, h => by
    simp only [List.getElem?_cons_succ] at h
    have ih := count_set_false f j h
    cases b <;> simp [← ih]

/-- **C155**: if all items cost the same, the knapsack takes the most valuable ones — nothing left out is worth more than something taken —, and
of items which are all worth something as many as can be paid for. -/
theorem C155_equal_costs {vals : List K} {c cap : Int} (hc : 0 < c) (hcap : 0 ≤ cap) :
    ∃ best f, knapsack vals (List.replicate vals.length c) cap = .ok (best, f) ∧ f.length = vals.length ∧
      (∀ (i j : Nat) (v w : K), f[i]? = some true → f[j]? = some false → vals[i]? = some v → vals[j]? = some w → w ≤ v) ∧
      ((∀ v ∈ vals, 0 < v) → (f.count true : Int) = min (vals.length : Int) (cap / c)) := by
  obtain ⟨best, f, h1, h2, h3, h4, h5⟩ := C44_optimal (vals := vals) (costs := List.replicate vals.length c) (cap := cap) (by simp)
    (fun x hx => by rw [List.eq_of_mem_replicate hx]; exact hc.le) hcap
  have hcost : ∀ g : List Bool, g.length = vals.length → Spec.sumOf g (List.replicate vals.length c) = (g.count true : Int) * c := by
    intro g hg
    rw [← hg]
    exact sumOf_replicate c g
  refine ⟨best, f, h1, h2, ?_, ?_⟩
  · intro i j v w hi hj hv hw
    have hij : i ≠ j := by
      rintro rfl
      rw [hi] at hj
      simp at hj
    have hj' : (f.set i false)[j]? = some false := by rw [List.getElem?_set_ne hij]; exact hj
    have hle := h5 ((f.set i false).set j true) (by simp [h2]) (by
      rw [hcost _ (by simp [h2]), count_set_true _ _ hj', count_set_false _ _ hi]
      rw [hcost f h2] at h3
      exact h3)
    rw [sumOf_set_true _ _ _ _ hj' hw, ← h4, ← sumOf_set_false f vals i v hi hv] at hle
    linarith
  · intro hpos
    have hle : (f.count true : Int) ≤ cap / c := by
      rw [Int.le_ediv_iff_mul_le hc]
      rw [hcost f h2] at h3
      exact h3
    have hlen : f.count true ≤ vals.length := by rw [← h2]; exact List.count_le_length
    by_contra hne
    have hlt : (f.count true : Int) < min (vals.length : Int) (cap / c) := lt_of_le_of_ne (le_min (by exact_mod_cast hlen) hle) hne
    have hl1 : f.count true < f.length := by
      have := lt_of_lt_of_le hlt (min_le_left _ _)
      rw [h2]
      exact_mod_cast this
    have hl2 : (f.count true : Int) + 1 ≤ cap / c := by
      have := lt_of_lt_of_le hlt (min_le_right _ _)
      omega
    have hex : ∃ j : Nat, f[j]? = some false := by
      by_contra hcon
      have hall : ∀ b ∈ f, true = b := by
        intro b hb
        obtain ⟨j, hj⟩ := List.mem_iff_getElem?.1 hb
        cases b with
        | true => rfl
        | false => exact absurd ⟨j, hj⟩ hcon
      rw [List.count_eq_length.2 hall] at hl1
      omega
    obtain ⟨j, hj⟩ := hex
    have hjl : j < vals.length := by
      rw [← h2]
      exact (List.getElem?_eq_some_iff.1 hj).1
    have hw : vals[j]? = some vals[j] := List.getElem?_eq_getElem hjl
    have hle' := h5 (f.set j true) (by simp [h2]) (by
      rw [hcost _ (by simp [h2]), count_set_true _ _ hj]
      push_cast
      exact (Int.le_ediv_iff_mul_le hc).1 hl2)
    rw [sumOf_set_true _ _ _ _ hj hw, h4] at hle'
    have := hpos _ (List.getElem_mem hjl)
    linarith

/-- Five items of cost 3 and a capacity of 10: the three most valuable ones. -/
example : knapsack [(2 : ℚ), 7, 1, 5, 3] [3, 3, 3, 3, 3] 10 = .ok (15, [false, true, false, true, true]) := by decide +kernel

end CostSensitive

/-! ## The exponent 0: density weighting is uncertainty sampling -/

namespace Select
variable {α K : Type} [Field K] [LinearOrder K]

/-- **C155**: with `beta = 0` the density-weighted strategy selects what uncertainty sampling selects with the same measure, whatever the
distances are. For the entropy all probabilities have to be positive, since only uncertainty sampling replaces the others. -/
theorem C155_density (log : K → K) (argsort : List K → List Nat) {m : Measure} (hm : m ≠ .distance) (u : Coll α) {c : Nat} (hc : c ≠ 1) {rows dis : List (List K)}
    (hr : rows.length = u.items.length) (hd : dis.length = u.items.length) (hpos : m = .entropy → ∀ r ∈ rows, ∀ v ∈ r, 0 < v) {batch : Int} (hb : batch < u.items.length) :
    densitySelect log (fun _ => 1) argsort m u c rows dis batch = uncertainty log argsort m u (.mat c rows) batch := by
  have hz : ∀ l : List K, l.length = u.items.length → List.zipWith (fun x y => x * y) l (densityDiv (fun _ => 1) dis) = l := by
    intro l hl
    have e : densityDiv (fun _ => (1 : K)) dis = List.replicate l.length 1 := by
      unfold densityDiv
      rw [hl, ← hd, List.map_const', List.length_range]
    rw [e]
    clear e hl
    induction l with
    | nil => rfl
    | cons a l ih => simp [List.replicate_succ, ih]
  have key : ∀ s : List K, s.length = u.items.length → densityWeighted argsort u s (densityDiv (fun _ => 1) dis) batch = byLargest argsort u s batch := by
    intro s hs
    unfold densityWeighted byLargest frame
    rw [if_neg (by simp [densityDiv, hs, hd]), hz s hs]
    by_cases h0 : batch ≤ 0
    · rw [if_pos h0]
      unfold nlargestarg
      rw [if_neg (by omega)]
    · rw [if_neg h0, if_neg (by omega)]
  unfold densitySelect uncertainty
  rw [key _ (by simp [hr])]
  cases m with
  | distance => exact absurd rfl hm
  | entropy =>
    have hclip : rows.map (densityPat log .entropy c) = rows.map (fun r => entropyScore log (clip r)) := by
      apply List.map_congr_left
      intro r hrr
      have : clip r = r := by
        unfold clip
        conv_rhs => rw [← List.map_id r]
        apply List.map_congr_left
        intro v hv
        rw [if_neg (not_le.2 (hpos rfl r hrr v hv))]
        rfl
      rw [this]
      rfl
    simp only [if_neg hc, hclip]
  | margin => simp only [if_neg hc]; rfl
  | leastConfident => simp only [if_neg hc]; rfl

/-- The distances are not looked at. -/
example : (densitySelect (K := ℚ) (fun x => x) (fun _ => 1) (fun _ => [1, 2, 0]) .leastConfident (.list ["a", "b", "c"]) 2 [[1/2, 1/2], [1/10, 9/10], [2/5, 3/5]]
    [[0, 5, 9], [5, 0, 1], [9, 1, 0]] 2).toOption = some ["c", "a"] := by decide +kernel

end Select

/-! ## One oracle, and a threshold of 0 -/

namespace Noisy
variable {χ β K : Type} [DecidableEq β]

/-- **C155**: the majority vote of one oracle is its answer, at its cost; the exceptions are those of the oracle. -/
theorem C155_one_oracle (o : Oracle χ β) (k : Key) :
    voteOfList k [o] = (o.ask k).map (fun a => (1, a.1, a.2)) := by
  unfold voteOfList
  cases h : o.ask k with
  | error e => simp [askEach, Oracle.queryByIndex, h, Except.map]
  | ok a => simp [askEach, Oracle.queryByIndex, h, Except.map, firstOf, majorityVote, sameLength, mostCommon, counter, dictSet, dictGet]

section
variable [Field K] [LinearOrder K] [IsStrictOrderedRing K]

/-- **C155**: with `epsilon = 0` IEthresh asks all oracles in every call, as `QueryNoisyOraclesAll` does. -/
theorem C155_threshold_zero {st : Stats K} (hst : st.Nonneg) {n : Nat} (hn : 2 ≤ n) {ask : Nat → Key → Except PyErr β}
    {ans : Nat → Key → β} {o : IE β K} {log : List (Key × List Nat)} (h : IEReach st 0 ask n o log)
    (hk : ∀ k ∈ log.map Prod.fst, ∀ i < n, ask i k = .ok (ans i k)) {k : Key} (hk' : ∀ i < n, ask i k = .ok (ans i k)) :
    ∃ o', o.select st 0 ask k = (o', .ok (List.range n)) := by
  obtain ⟨us, hg⟩ := reach_good hst zero_le_one hn h hk
  obtain ⟨o', sel, us', h1, h2, h3, -, hs, m, -, -, hmem, -⟩ := C57_threshold_partial hst zero_le_one hn h hk hk'
  have hus : us' = us := by
    have e := h2.symm.trans hg.ui
    exact List.map_injective_iff.2 (Option.some_injective K) e
  subst hus
  have : sel = List.range n := by
    refine List.Pairwise.eq_of_mem_iff hs List.pairwise_lt_range ?_
    intro i
    rw [hmem, List.mem_range, zero_mul]
    constructor
    · rintro ⟨a, ha, -⟩
      rw [← h3]
      exact (List.getElem?_eq_some_iff.1 ha).1
    · intro hi
      exact ⟨us'[i], List.getElem?_eq_getElem (by omega), hg.nonneg _ (List.getElem_mem _)⟩
  exact ⟨o', by rw [h1, this]⟩

end
end Noisy

/-! ## Equal weights -/

namespace RankMetrics

private theorem weight_replicate (n : Nat) (k : ℚ) {i : Nat} (hi : i < n) : Spec.weight (some (List.replicate n k)) i = k := by
  simp only [Spec.weight]
  rw [List.getD_eq_getElem _ _ (by simpa using hi)]
  simp

private theorem sum_weight (n : Nat) (k : ℚ) : ∑ i ∈ Finset.range n, Spec.weight (some (List.replicate n k)) i = n * k := by
  rw [Finset.sum_congr rfl (fun i hi => weight_replicate n k (Finset.mem_range.1 hi))]
  simp

private theorem mean_replicate (n : Nat) {k : ℚ} (hk : k ≠ 0) (f : Nat → ℚ) :
    Spec.mean n (Spec.weight (some (List.replicate n k))) f = Spec.mean n (Spec.weight none) f := by
  unfold Spec.mean
  rw [sum_weight, Finset.sum_congr rfl (fun i hi => by rw [weight_replicate n k (Finset.mem_range.1 hi)]), ← Finset.mul_sum]
  simp only [Spec.weight, one_mul, Finset.sum_const, Finset.card_range, nsmul_eq_mul, mul_one]
  rw [mul_comm (n : ℚ) k, mul_div_mul_left _ _ hk]

private theorem npAverage_replicate {xs : List ℚ} (hx : xs ≠ []) {k : ℚ} (hk : k ≠ 0) : npAverage xs (some (List.replicate xs.length k)) = npAverage xs none := by
  have e : ∀ l : List ℚ, (List.zipWith (fun x v => x * v) l (List.replicate l.length k)).sum = l.sum * k := by
    intro l
    induction l with
    | nil => simp
    | cons a l ih => simp [List.replicate_succ, ih, add_mul]
  have hn : (xs.length : ℚ) ≠ 0 := by simpa using hx
  simp only [npAverage, e, List.sum_replicate, nsmul_eq_mul]
  rw [if_neg (mul_ne_zero hn hk), if_neg (by simpa using hx), mul_div_mul_right _ _ hk]

/-- **C155**: with equal weights the weighted accuracy, coverage error and ranking loss are those without weights, and with weights 1 so is
the label ranking average precision. -/
theorem C155_equal_weights {c : Nat} (hc : 1 < c) {y : List (List Int)} {s : List (List ℚ)} (h : Spec.Scored c y s) {a b : List Int} (ha : a ≠ [])
    (hab : a.length = b.length) {k : ℚ} (hk : k ≠ 0) :
    accuracyScore (.vec a) (.vec b) (some (List.replicate a.length k)) = accuracyScore (.vec a) (.vec b) none ∧
    coverageError c y s (some (List.replicate y.length k)) = coverageError c y s none ∧
    labelRankingLoss c y s (some (List.replicate y.length k)) = labelRankingLoss c y s none ∧
    lrapScore c y c s (some (List.replicate y.length 1)) = lrapScore c y c s none := by
  have hfit : ∀ (n : Nat) (q : ℚ), Spec.FitWeights n (some (List.replicate n q)) := by
    intro n q l hl
    simp only [Option.mem_def, Option.some.injEq] at hl
    subst hl
    simp
  have hfit0 : ∀ n : Nat, Spec.FitWeights n none := by
    intro n l hl
    simp at hl
  have hn : (a.length : ℚ) ≠ 0 := by simpa using ha
  have hy : (y.length : ℚ) ≠ 0 := by simpa using h.ne
  refine ⟨?_, ?_, ?_, ?_⟩
  · rw [C37_accuracy_vectors hab _ (hfit _ k) (by rw [sum_weight]; exact mul_ne_zero hn hk), C37_accuracy_vectors hab _ (hfit0 _) (by simpa [Spec.weight] using hn)]
    congr 2
    unfold Spec.fraction
    rw [sum_weight]
    have e : ∀ i ∈ Finset.range a.length, (if a[i]? = b[i]? then Spec.weight (some (List.replicate a.length k)) i else 0) =
        k * (if a[i]? = b[i]? then (1 : ℚ) else 0) := by
      intro i hi
      rw [weight_replicate _ k (Finset.mem_range.1 hi)]
      split <;> simp
    rw [Finset.sum_congr rfl e, ← Finset.mul_sum]
    simp only [Spec.weight, Finset.sum_const, Finset.card_range, nsmul_eq_mul, mul_one]
    rw [mul_comm (a.length : ℚ) k, mul_div_mul_left _ _ hk]
  · choose cov hcov using fun i => C64_exists (Spec.relScores y s i) (s.getD i [])
    rw [C64_coverage hc h _ (hfit _ k) (by rw [sum_weight]; exact mul_ne_zero hy hk) cov (fun i _ => hcov i),
      C64_coverage hc h _ (hfit0 _) (by simpa [Spec.weight] using hy) cov (fun i _ => hcov i), mean_replicate _ hk]
  · have h2 : Spec.AtMostTwoValues y.flatten := by
      have zo : ∀ v ∈ y.flatten, v = 0 ∨ v = 1 := by
        intro v hv
        obtain ⟨r, hr, hv⟩ := List.mem_flatten.1 hv
        exact h.zo r hr v hv
      intro a ha b hb c hc
      have := zo a ha
      have := zo b hb
      have := zo c hc
      omega
    rw [C40_ranking_loss hc h.ne h.len h.yrow h.srow h2 _ (hfit _ k), C40_ranking_loss hc h.ne h.len h.yrow h.srow h2 _ (hfit0 _)]
    have hl : (List.zipWith (fun r t => Spec.wrongPairs (Spec.scoresWith (fun c => decide (c ≠ 0)) r t)
        (Spec.scoresWith (fun c => decide (c = 0)) r t)) y s).length = y.length := by
      simp [← h.len]
    rw [← hl]
    exact npAverage_replicate (fun e => h.ne (List.length_eq_zero_iff.1 (by rw [← hl, e]; rfl))) hk
  · obtain ⟨q, h1, h2⟩ := C65_lrap_weights_violation h (l := List.replicate y.length 1) (by simp) (by simpa using hy)
    have h3 := h2.2 (Finset.sum_eq_zero (fun i hi => by
      rw [weight_replicate _ _ (Finset.mem_range.1 (Finset.mem_filter.1 hi).1), sub_self]))
    rw [h1, C65_lrap h, h3, mean_replicate _ one_ne_zero]
    rfl

example : coverageError 2 [[1, 0], [0, 1]] [[1, 2], [1, 2]] (some [3, 3]) = coverageError 2 [[1, 0], [0, 1]] [[1, 2], [1, 2]] none := by decide +kernel

end RankMetrics

/-! ## Queries of cost 1 -/

namespace CostCurve
open Alipy.Analyser
variable {K : Type} [Field K] [LinearOrder K] [IsStrictOrderedRing K] [FloorRing K]

/-- A line through the performances of a fold, one for every number of queries from `q0` on. -/
private def Steps (f : Option K × List K) (q0 : Nat) (pts : List (K × K)) : Prop :=
  ∀ i (p : K × K), pts[i]? = some p → p.1 = ((q0 + i : Nat) : K) ∧ Spec.after f (q0 + i) = some p.2

private theorem steps_on {f : Option K × List K} {q0 : Nat} {pts : List (K × K)} (h : Steps f q0 pts) {q : Nat} {v : K} (hv : Spec.OnPolyline pts (q : K) v) :
    Spec.after f q = some v := by
  rcases hv with ⟨p, hp, h1, h2⟩ | ⟨l, r, a, b, he, h1, h2, h3⟩
  · obtain ⟨i, hi⟩ := List.mem_iff_getElem?.1 hp
    obtain ⟨e1, e2⟩ := h i p hi
    have : q = q0 + i := by
      rw [e1] at h1
      exact_mod_cast h1
    rw [this, e2, h2]
  · obtain ⟨a1, a2⟩ := h l.length a (by rw [he]; simp)
    obtain ⟨b1, b2⟩ := h (l.length + 1) b (by rw [he]; simp)
    rw [a1, b1] at h3
    rw [a1] at h1
    rw [b1] at h2
    have h1' : q0 + l.length ≤ q := by exact_mod_cast h1
    have h2' : q ≤ q0 + (l.length + 1) := by exact_mod_cast h2
    have hq : q = q0 + l.length ∨ q = q0 + (l.length + 1) := by omega
    push_cast at h3
    rcases hq with rfl | rfl
    · rw [a2]
      push_cast at h3
      congr 1
      linarith
    · rw [b2]
      push_cast at h3
      congr 1
      linarith

omit [IsStrictOrderedRing K] in
private theorem costPoints_get : ∀ (f : List (Query K)), (∀ q ∈ f, q.cost.sum = 1) → ∀ (c : K) (i : Nat) (p : K × K), (Spec.costPoints c (pairs f))[i]? = some p →
    p.1 = c + (i + 1) ∧ (f.map Query.perf)[i]? = some p.2
  | [], _, c, i, p, h => by simp [pairs, Spec.costPoints] at h
  | q :: f, hf, c, 0, p, h => by
    simp only [pairs, List.map_cons, Spec.costPoints, List.getElem?_cons_zero, Option.some.injEq] at h
    subst h
    simp [hf q (by simp)]
  | q :: f, hf, c, i + 1, p, h => by
    simp only [pairs, List.map_cons, Spec.costPoints, List.getElem?_cons_succ] at h
    have ih := costPoints_get f (fun q hq => hf q (by simp [hq])) (c + q.cost.sum) i p h
    rw [hf q (by simp)] at ih
    refine ⟨?_, by simpa using ih.2⟩
    rw [ih.1]
    push_cast
    ring

private theorem fold_steps {f : List (Query K)} (hf : ∀ q ∈ f, q.cost.sum = 1) (p0 : Option K) :
    Steps (p0, f.map Query.perf) (if p0.isSome then 0 else 1) ((p0.toList.map (fun p => ((0 : K), p))) ++ Spec.costPoints 0 (pairs f)) := by
  cases p0 with
  | none =>
    intro i p hp
    simp only [Option.toList_none, List.map_nil, List.nil_append] at hp
    obtain ⟨h1, h2⟩ := costPoints_get f hf 0 i p hp
    refine ⟨by rw [h1]; simp [add_comm], ?_⟩
    simp only [Option.isSome_none, Bool.false_eq_true, if_false]
    rw [show 1 + i = i + 1 by omega]
    exact h2
  | some w =>
    intro i p hp
    cases i with
    | zero =>
      simp at hp
      subst hp
      simp [Spec.after]
    | succ i =>
      simp only [Option.toList_some, List.map_cons, List.map_nil, List.singleton_append, List.getElem?_cons_succ] at hp
      obtain ⟨h1, h2⟩ := costPoints_get f hf 0 i p hp
      refine ⟨by rw [h1]; simp, ?_⟩
      simp only [Option.isSome_some, if_true, Nat.zero_add]
      exact h2

omit [IsStrictOrderedRing K] in
private theorem total_unit {f : List (Query K)} (hf : ∀ q ∈ f, q.cost.sum = 1) : ((pairs f).map Prod.fst).sum = (f.length : K) := by
  induction f with
  | nil => simp [pairs]
  | cons q f ih =>
    have := ih (fun q hq => hf q (by simp [hq]))
    simp only [pairs, List.map_cons, List.sum_cons, List.length_cons, List.map_map] at this ⊢
    rw [hf q (by simp), this]
    push_cast
    ring

/-- **C155**: if every query costs 1, the curves over cost drawn with `plot_interval=1` are the learning curves over the number of queries (in the
sense of C73), up to one query less than the shortest fold has. `N` is the number of queries of that fold. -/
theorem C155_unit_costs {allState : Bool} {ms : List (Method K)} {start : Option K} (hms : ms ≠ [])
    (hf : ∀ m ∈ ms, m.folds ≠ [] ∧ ∀ f ∈ m.folds, f ≠ [] ∧ ∀ q ∈ f, q.cost.sum = 1) :
    ∃ (N : Nat) (cs : List (String × List (K × K))), (∃ m ∈ ms, ∃ f ∈ m.folds, f.length = N) ∧ (∀ m ∈ ms, ∀ f ∈ m.folds, N ≤ f.length) ∧
      plotCurves allState ms 0 start (some 1) = .ok cs ∧
      List.Forall₂ (fun m d => d.1 = m.name ∧
        Spec.LearningCurve (m.folds.map (fun f => ((if start.isSome then start else if allState then m.ip else none), (f.map Query.perf).take (N - 1))))
          (if ((if start.isSome then start else if allState then m.ip else none : Option K)).isSome then 0 else 1) 1 d.2) ms cs := by
  obtain ⟨c, ⟨⟨m0, hm0, f0, hf0, hc0⟩, hmin⟩, cs, h1, h2⟩ := C75_curve_partial (allState := allState) (ms := ms) (xShift := 0) (start := start) (interval := some 1) hms
    (by rintro s ⟨⟩; exact one_pos) (fun m hm => ⟨(hf m hm).1, fun f hfm => ⟨((hf m hm).2 f hfm).1, fun q hq => by rw [((hf m hm).2 f hfm).2 q hq]; exact one_pos⟩⟩)
  have htot : ∀ m ∈ ms, ∀ f ∈ m.folds, ((pairs f).map Prod.fst).sum = (f.length : K) := fun m hm f hfm => total_unit ((hf m hm).2 f hfm).2
  rw [htot m0 hm0 f0 hf0] at hc0
  have hN : ∀ m ∈ ms, ∀ f ∈ m.folds, f0.length ≤ f.length := by
    intro m hm f hfm
    have := hmin m hm f hfm
    rw [htot m hm f hfm, hc0] at this
    exact_mod_cast this
  have hN0 : 0 < f0.length := List.length_pos_iff.2 ((hf m0 hm0).2 f0 hf0).1
  refine ⟨f0.length, cs, ⟨m0, hm0, f0, hf0, rfl⟩, hN, h1, ?_⟩
  subst hc0
  rw [List.forall₂_iff_get] at h2 ⊢
  refine ⟨h2.1, fun i hi hi' => ?_⟩
  have hm : ms.get ⟨i, hi⟩ ∈ ms := List.get_mem ms ⟨i, hi⟩
  obtain ⟨hname, hcurve⟩ := h2.2 i hi hi'
  generalize ms.get ⟨i, hi⟩ = m at hm hname hcurve ⊢
  generalize cs.get ⟨i, hi'⟩ = d at hname hcurve ⊢
  refine ⟨hname, ?_⟩
  generalize (if start.isSome = true then start else if allState = true then m.ip else none : Option K) = p0 at hcurve ⊢
  obtain ⟨x0, ⟨l0, hl0, pt, hpt, hx0⟩, hx0', hpair, hfst, hmean⟩ := hcurve
  simp only [Option.getD_some] at hfst
  have hsteps : ∀ f ∈ m.folds, Steps (p0, f.map Query.perf) (if p0.isSome then 0 else 1) ((p0.toList.map (fun p => ((0 : K), p))) ++ Spec.costPoints 0 (pairs f)) :=
    fun f hfm => fold_steps ((hf m hm).2 f hfm).2 p0
  generalize hq0 : (if p0.isSome = true then 0 else 1 : Nat) = q0 at hsteps ⊢
  have hx0q : x0 = (q0 : K) := by
    obtain ⟨f, hfm, rfl⟩ := List.mem_map.1 hl0
    have := (hsteps f hfm 0 pt (by rw [← List.head?_eq_getElem?]; exact hpt)).1
    rw [← hx0, this]
    simp
  subst hx0q
  have hheight : ∀ (q : Nat) v, Spec.MeanHeight (m.folds.map (fun f => (p0.toList.map (fun p => ((0 : K), p))) ++ Spec.costPoints 0 (pairs f))) (q : K) v → q < f0.length →
      Spec.MeanAfter (m.folds.map (fun f => (p0, (f.map Query.perf).take (f0.length - 1)))) q v := by
    rintro q v ⟨vs, hvs, rfl⟩ hq
    refine ⟨vs, ?_, rfl⟩
    rw [List.map_map]
    rw [List.forall₂_map_left_iff] at hvs
    have key : ∀ (fs : List (List (Query K))), (∀ f ∈ fs, f ∈ m.folds) → ∀ vs : List K,
        List.Forall₂ (fun f w => Spec.OnPolyline ((p0.toList.map (fun p => ((0 : K), p))) ++ Spec.costPoints 0 (pairs f)) (q : K) w) fs vs →
        fs.map ((fun f => Spec.after f q) ∘ fun f => (p0, (f.map Query.perf).take (f0.length - 1))) = vs.map some := by
      intro fs hfs vs hv
      induction hv with
      | nil => rfl
      | @cons f w fs vs hw _ ih =>
        rw [List.map_cons, List.map_cons, ih (fun g hg => hfs g (by simp [hg]))]
        congr 1
        have e := steps_on (hsteps f (hfs f (by simp))) hw
        cases q with
        | zero => exact e
        | succ q =>
          simp only [Function.comp, Spec.after] at e ⊢
          rw [List.getElem?_take_of_lt (by omega)]
          exact e
    exact key _ (fun _ h => h) vs hvs
  have huniq : ∀ q v v', Spec.MeanAfter (m.folds.map (fun f => (p0, (f.map Query.perf).take (f0.length - 1)))) q v →
      Spec.MeanAfter (m.folds.map (fun f => (p0, (f.map Query.perf).take (f0.length - 1)))) q v' → v = v' := by
    rintro q v v' ⟨vs, e, rfl⟩ ⟨vs', e', rfl⟩
    have : vs = vs' := List.map_injective_iff.2 (Option.some_injective K) (e.symm.trans e')
    rw [this]
  have hbound : ∀ q v, Spec.MeanAfter (m.folds.map (fun f => (p0, (f.map Query.perf).take (f0.length - 1)))) q v → q < f0.length := by
    rintro q v ⟨vs, e, -⟩
    obtain ⟨f, fs, hfs⟩ := List.exists_cons_of_ne_nil (hf m hm).1
    rw [hfs] at e
    cases vs with
    | nil => simp at e
    | cons w vs =>
      simp only [List.map_cons, List.cons.injEq] at e
      cases q with
      | zero => exact hN0
      | succ q =>
        have e1 := e.1
        simp only [Spec.after] at e1
        have := (List.getElem?_eq_some_iff.1 e1).1
        simp at this
        omega
  refine ⟨hpair, ?_⟩
  have hto : ∀ x v, (x, v) ∈ d.2 → ∃ q : Nat, q0 ≤ q ∧ x = (q : K) ∧ Spec.MeanAfter (m.folds.map (fun f => (p0, (f.map Query.perf).take (f0.length - 1)))) q v := by
    intro x v hxv
    obtain ⟨j, hj1, hj2⟩ := (hfst x).1 (List.mem_map.2 ⟨_, hxv, rfl⟩)
    have hx : x = ((q0 + j : Nat) : K) := by rw [hj1]; push_cast; ring
    refine ⟨q0 + j, by omega, hx, ?_⟩
    have hm' := hmean x v hxv
    rw [sub_zero, hx] at hm'
    refine hheight _ _ hm' ?_
    rw [mul_one] at hj2
    exact_mod_cast hj2
  intro x v
  constructor
  · intro hxv
    obtain ⟨q, h1, h2, h3⟩ := hto x v hxv
    exact ⟨q, h1, one_dvd _, by rw [h2, add_zero], h3⟩
  · rintro ⟨q, g1, -, g3, g4⟩
    rw [add_zero] at g3
    have hq := hbound q v g4
    have hxm : x ∈ d.2.map Prod.fst := by
      rw [hfst]
      obtain ⟨j, rfl⟩ := Nat.exists_eq_add_of_le g1
      refine ⟨j, by rw [g3]; push_cast; ring, ?_⟩
      rw [mul_one]
      exact_mod_cast hq
    obtain ⟨⟨x', v'⟩, hd, hx'⟩ := List.mem_map.1 hxm
    simp only at hx'
    subst hx'
    obtain ⟨q', k1, k2, k3⟩ := hto x' v' hd
    have : q' = q := by
      rw [g3] at k2
      exact_mod_cast k2.symm
    subst this
    rw [huniq _ _ _ g4 k3]
    exact hd

/-- Two folds of three and four queries: the points for 1 and 2 queries. -/
example : (plotCurves (K := ℚ) false [⟨"m", [[⟨[1], 1/2⟩, ⟨[1], 3/5⟩, ⟨[1], 1⟩], [⟨[1], 1/4⟩, ⟨[1/2, 1/2], 1/5⟩, ⟨[1], 1⟩, ⟨[1], 1⟩]], none⟩] 0 none (some 1)).toOption =
    some [("m", [(1, 3/8), (2, 2/5)])] := by decide +kernel

end CostCurve
end Alipy
