import Verif.Model.Committee
import Verif.Spec.Committee
import Verif.Props.Select
import Verif.Proof.Split
/-!
# Properties of query by committee and density weighting (C55)
-/
set_option linter.unusedSectionVars false
namespace Alipy.Select
open Alipy

variable {α K : Type}

/-! ## Vote entropy -/

theorem log_tolerance {c e : ℝ} (hc : 0 < c) (he : 0 ≤ e) : Real.log c ≤ Real.log (c + e) ∧ c * Real.log (c + e) ≤ c * Real.log c + e := by
  refine ⟨Real.log_le_log hc (by linarith), ?_⟩
  have h2 : Real.log (c + e) - Real.log c ≤ e / c := by
    rw [← Real.log_div (by positivity) hc.ne']
    have := Real.log_le_sub_one_of_pos (x := (c + e) / c) (by positivity)
    have e : (c + e) / c - 1 = e / c := by field_simp; ring
    linarith
  have h3 : c * (Real.log (c + e) - Real.log c) ≤ c * (e / c) := mul_le_mul_of_nonneg_left h2 hc.le
  have h4 : c * (e / c) = e := by field_simp
  linarith

/-- One summand of the vote entropy. -/
theorem share_bounds {v m : ℝ} (hv : 0 < v) (hm : 0 < m) :
    Real.negMulLog (v / m) - 1 / 1000000000 / m ≤ -(v / m * Real.log ((v + 1 / 1000000000) / m)) ∧
      -(v / m * Real.log ((v + 1 / 1000000000) / m)) ≤ Real.negMulLog (v / m) := by
  have h := log_tolerance (c := v / m) (e := 1 / 1000000000 / m) (by positivity) (by positivity)
  rw [← add_div] at h
  unfold Real.negMulLog
  have h1 : v / m * Real.log (v / m) ≤ v / m * Real.log ((v + 1 / 1000000000) / m) := mul_le_mul_of_nonneg_left h.1 (by positivity)
  constructor
  · linarith [h.2]
  · linarith

theorem voteEntropy_bounds {votes : List Int} (hne : votes ≠ []) :
    Spec.voteEntropy votes - 1 / 1000000000 ≤ voteEntropy Real.log votes ∧ voteEntropy Real.log votes ≤ Spec.voteEntropy votes := by
  have hm : (0 : ℝ) < votes.length := by exact_mod_cast List.length_pos_iff.2 hne
  have e : voteEntropy Real.log votes =
      ∑ c ∈ votes.toFinset, -((votes.count c : ℝ) / votes.length * Real.log (((votes.count c : ℝ) + 1 / 1000000000) / votes.length)) := by
    unfold voteEntropy
    rw [← List.sum_toFinset _ (eraseDups_nodup votes), Finset.sum_neg_distrib]
    congr 1
    refine Finset.sum_congr ?_ (fun _ _ => rfl)
    ext x
    simp [List.mem_eraseDups]
  rw [e]
  have hpos : ∀ c ∈ votes.toFinset, (0 : ℝ) < votes.count c := by
    intro c hc
    exact_mod_cast List.count_pos_iff.2 (List.mem_toFinset.1 hc)
  unfold Spec.voteEntropy
  constructor
  · have h1 : ∑ c ∈ votes.toFinset, (Real.negMulLog ((votes.count c : ℝ) / votes.length) - 1 / 1000000000 / votes.length) ≤
        ∑ c ∈ votes.toFinset, -((votes.count c : ℝ) / votes.length * Real.log (((votes.count c : ℝ) + 1 / 1000000000) / votes.length)) :=
      Finset.sum_le_sum (fun c hc => (share_bounds (hpos c hc) hm).1)
    rw [Finset.sum_sub_distrib, Finset.sum_const, nsmul_eq_mul] at h1
    have h2 : (votes.toFinset.card : ℝ) ≤ votes.length := by exact_mod_cast List.toFinset_card_le votes
    have h3 : (votes.toFinset.card : ℝ) * (1 / 1000000000 / votes.length) ≤ 1 / 1000000000 := by
      calc (votes.toFinset.card : ℝ) * (1 / 1000000000 / votes.length) ≤ votes.length * (1 / 1000000000 / votes.length) :=
            mul_le_mul_of_nonneg_right h2 (by positivity)
        _ = 1 / 1000000000 := by field_simp
    linarith
  · exact Finset.sum_le_sum (fun c hc => (share_bounds (hpos c hc) hm).2)

theorem list_range_sum {M : Type} [AddCommMonoid M] (f : Nat → M) (n : Nat) : ((List.range n).map f).sum = ∑ i ∈ Finset.range n, f i := by
  induction n with
  | zero => simp
  | succ n ih => rw [List.range_succ, Finset.sum_range_succ]; simp [ih]

theorem voteEntropyMat_bounds {labels : Nat} {votes : List (List Nat)} (hne : votes ≠ []) :
    Spec.voteEntropyMat labels votes - labels * (1 / 1000000000 / votes.length) ≤ voteEntropyMat Real.log labels votes ∧
      voteEntropyMat Real.log labels votes ≤ Spec.voteEntropyMat labels votes := by
  have hm : (0 : ℝ) < votes.length := by exact_mod_cast List.length_pos_iff.2 hne
  have key : ∀ v : Nat, Real.negMulLog ((v : ℝ) / votes.length) - 1 / 1000000000 / votes.length ≤
        -(if v ≠ 0 then (v : ℝ) / votes.length * Real.log (((v : ℝ) + 1 / 1000000000) / votes.length) else 0) ∧
      -(if v ≠ 0 then (v : ℝ) / votes.length * Real.log (((v : ℝ) + 1 / 1000000000) / votes.length) else 0) ≤
        Real.negMulLog ((v : ℝ) / votes.length) := by
    intro v
    by_cases h0 : v = 0
    · subst h0
      simp only [ne_eq, not_true_eq_false, if_false, Nat.cast_zero, zero_div, Real.negMulLog_zero, neg_zero, le_refl, and_true]
      have : (0 : ℝ) ≤ 1 / 1000000000 / votes.length := by positivity
      linarith
    · rw [if_pos h0]
      exact share_bounds (by exact_mod_cast Nat.pos_of_ne_zero h0) hm
  have e : voteEntropyMat Real.log labels votes = ∑ l ∈ Finset.range labels,
      -(if (votes.map (fun r => r.getD l 0)).sum ≠ 0 then (((votes.map (fun r => r.getD l 0)).sum : Nat) : ℝ) / votes.length *
        Real.log (((((votes.map (fun r => r.getD l 0)).sum : Nat) : ℝ) + 1 / 1000000000) / votes.length) else 0) := by
    unfold voteEntropyMat
    rw [list_range_sum, Finset.sum_neg_distrib]
  rw [e]
  unfold Spec.voteEntropyMat
  constructor
  · have h1 := Finset.sum_le_sum (s := Finset.range labels) (fun l _ => (key (votes.map (fun r => r.getD l 0)).sum).1)
    rw [Finset.sum_sub_distrib, Finset.sum_const, nsmul_eq_mul, Finset.card_range] at h1
    exact h1
  · exact Finset.sum_le_sum (fun l _ => (key (votes.map (fun r => r.getD l 0)).sum).2)

/-- **C55**, class outputs: no unselected example has a vote entropy larger by more than `1e-9` than that of a selected one. `predict`
holds the classes predicted by every member. -/
theorem C55_vote_entropy {argsort : List ℝ → List Nat} (ha : ∀ l, Spec.IsArgsort l (argsort l)) {u : Coll α} (hu : u.items.Nodup)
    {predict : List (List Int)} (h2 : 2 ≤ predict.length) (hp : ∀ r ∈ predict, r.length = u.items.length) {batch : Int} {r : List α}
    (hr : qbc Real.log argsort u predict batch = .ok r) :
    Spec.NoneBetter u.items r (fun j i =>
      Spec.voteEntropy (predict.map (fun m => m.getD i 0)) + 1 / 1000000000 < Spec.voteEntropy (predict.map (fun m => m.getD j 0))) := by
  have hh : (predict.headD []).length = u.items.length := by
    cases predict with
    | nil => simp at h2
    | cons r rs => exact hp r (by simp)
  rintro i j x y hi hj hx hy hlt
  unfold qbc at hr
  rw [if_neg (by omega), hh] at hr
  have hil : i < u.items.length := (List.getElem?_eq_some_iff.1 hi).1
  have hjl : j < u.items.length := (List.getElem?_eq_some_iff.1 hj).1
  have key := byLargest_best (batch := batch) ha hu (by rw [List.length_map, List.length_range]) hr hi hj hx hy
    (a := voteEntropy Real.log (predict.map (fun m => m.getD i 0))) (b := voteEntropy Real.log (predict.map (fun m => m.getD j 0)))
    (by rw [List.getElem?_map, List.getElem?_range hil]; rfl) (by rw [List.getElem?_map, List.getElem?_range hjl]; rfl)
  have hne : ∀ k : Nat, predict.map (fun m => m.getD k 0) ≠ [] := by
    intro k h
    have := congrArg List.length h
    simp at this
    subst this
    simp at h2
  have b1 := voteEntropy_bounds (hne i)
  have b2 := voteEntropy_bounds (hne j)
  linarith [b1.2, b2.1]

/-- **C55**, 0/1 outputs for every label. -/
theorem C55_vote_entropy_labels {argsort : List ℝ → List Nat} (ha : ∀ l, Spec.IsArgsort l (argsort l)) {u : Coll α} (hu : u.items.Nodup)
    {labels : Nat} {predict : List (List (List Nat))} {batch : Int} {r : List α}
    (hr : qbcMat Real.log argsort u u.items.length labels predict batch = .ok r) :
    Spec.NoneBetter u.items r (fun j i =>
      Spec.voteEntropyMat labels (predict.map (fun m => m.getD i [])) + labels / 1000000000 <
        Spec.voteEntropyMat labels (predict.map (fun m => m.getD j []))) := by
  rintro i j x y hi hj hx hy hlt
  by_cases hall : batch ≤ 0 ∨ (u.items.length : Int) ≤ batch
  · unfold qbcMat frame at hr
    split_ifs at hr with h1 h2
    · simp at hr; subst hr; exact absurd (List.mem_of_getElem? hj) hy
    · omega
  unfold qbcMat at hr
  have h2 : 1 < predict.length := by
    by_contra hc
    rw [if_pos (by omega)] at hr
    unfold frame at hr
    rw [if_neg (by omega), if_neg (by omega)] at hr
    simp at hr
  rw [if_neg (by omega)] at hr
  have h3 : (!zeroOne predict) = false := by
    by_contra hc
    rw [if_pos (by simpa using hc)] at hr
    unfold frame at hr
    rw [if_neg (by omega), if_neg (by omega)] at hr
    simp at hr
  rw [h3] at hr
  simp only [Bool.false_eq_true, if_false] at hr
  have hil : i < u.items.length := (List.getElem?_eq_some_iff.1 hi).1
  have hjl : j < u.items.length := (List.getElem?_eq_some_iff.1 hj).1
  have key := byLargest_best (batch := batch) ha hu (by rw [List.length_map, List.length_range]) hr hi hj hx hy
    (a := voteEntropyMat Real.log labels (predict.map (fun m => m.getD i []))) (b := voteEntropyMat Real.log labels (predict.map (fun m => m.getD j [])))
    (by rw [List.getElem?_map, List.getElem?_range hil]; rfl) (by rw [List.getElem?_map, List.getElem?_range hjl]; rfl)
  have hne : ∀ k : Nat, predict.map (fun m => m.getD k []) ≠ [] := by
    intro k h
    have := congrArg List.length h
    simp at this
    subst this
    simp at h2
  have b1 := voteEntropyMat_bounds (labels := labels) (hne i)
  have b2 := voteEntropyMat_bounds (labels := labels) (hne j)
  have : (labels : ℝ) * (1 / 1000000000 / (predict.map (fun m => m.getD j [])).length) ≤ labels / 1000000000 := by
    have hl : (1 : ℝ) ≤ (predict.map (fun m => m.getD j [])).length := by
      rw [List.length_map]; exact_mod_cast h2.le
    rw [show (labels : ℝ) / 1000000000 = labels * (1 / 1000000000) by ring]
    exact mul_le_mul_of_nonneg_left (div_le_self (by norm_num) hl) (by positivity)
  linarith [b1.2, b2.1]

theorem zeroOne_iff {predict : List (List (List Nat))} : zeroOne predict = true ↔
    (∀ m ∈ predict, ∀ r ∈ m, ∀ v ∈ r, v = 0 ∨ v = 1) ∧ (∃ m ∈ predict, ∃ r ∈ m, 0 ∈ r) ∧ (∃ m ∈ predict, ∃ r ∈ m, 1 ∈ r) := by
  unfold zeroOne
  simp only [Bool.and_eq_true, List.all_eq_true, List.contains_iff_mem, List.mem_flatten, Bool.or_eq_true, beq_iff_eq, and_assoc]
  constructor
  · rintro ⟨h1, ⟨r, ⟨m, hm, hr⟩, h2⟩, ⟨r', ⟨m', hm', hr'⟩, h3⟩⟩
    exact ⟨fun m hm r hr v hv => h1 v ⟨r, ⟨m, hm, hr⟩, hv⟩, ⟨m, hm, r, hr, h2⟩, ⟨m', hm', r', hr', h3⟩⟩
  · rintro ⟨h1, ⟨m, hm, r, hr, h2⟩, ⟨m', hm', r', hr', h3⟩⟩
    exact ⟨fun v ⟨r, ⟨m, hm, hr⟩, hv⟩ => h1 m hm r hr v hv, ⟨r, ⟨m, hm, hr⟩, h2⟩, ⟨r', ⟨m', hm', hr'⟩, h3⟩⟩

/-- **C55**, 0/1 outputs for every label: a committee of several members whose predictions contain both values is accepted, and a batch is returned. -/
theorem C55_labels_accepted_partial {log : ℝ → ℝ} {argsort : List ℝ → List Nat} (ha : ∀ l, Spec.IsArgsort l (argsort l)) {u : Coll α} (hu : u.items.Nodup) {labels : Nat}
    {predict : List (List (List Nat))} {batch : Int} (hb : 0 < batch) (hp : 1 < predict.length) (h01 : ∀ m ∈ predict, ∀ r ∈ m, ∀ v ∈ r, v = 0 ∨ v = 1)
    (h0 : ∃ m ∈ predict, ∃ r ∈ m, 0 ∈ r) (h1 : ∃ m ∈ predict, ∃ r ∈ m, 1 ∈ r) :
    ∃ r, qbcMat log argsort u u.items.length labels predict batch = .ok r ∧ Spec.BatchOf u.items batch r := by
  unfold qbcMat
  rw [if_neg (by omega), if_neg (by rw [zeroOne_iff.2 ⟨h01, h0, h1⟩]; decide)]
  exact byLargest_batch ha hu (by rw [List.length_map, List.length_range]) hb

/-- A committee whose members all predict the same for all examples and labels is refused, as is every other one without a 0 or without a 1 (or with another value). -/
theorem C55_unanimous_violation {log : ℝ → ℝ} {argsort : List ℝ → List Nat} {u : Coll α} {n labels : Nat} {predict : List (List (List Nat))} {batch : Int} (hb : 0 < batch)
    (hlen : batch < u.items.length) (h : (∀ m ∈ predict, ∀ r ∈ m, 0 ∉ r) ∨ (∀ m ∈ predict, ∀ r ∈ m, 1 ∉ r) ∨ ∃ m ∈ predict, ∃ r ∈ m, ∃ v ∈ r, v ≠ 0 ∧ v ≠ 1) :
    qbcMat log argsort u n labels predict batch = .error .valueError := by
  have hz : zeroOne predict = false := by
    rw [Bool.eq_false_iff]
    intro hc
    obtain ⟨h1, ⟨m, hm, r, hr, h2⟩, ⟨m', hm', r', hr', h3⟩⟩ := zeroOne_iff.1 hc
    rcases h with h | h | ⟨m, hm, r, hr, v, hv, hv0, hv1⟩
    · exact h m hm r hr h2
    · exact h m' hm' r' hr' h3
    · rcases h1 m hm r hr v hv with h | h
      · exact hv0 h
      · exact hv1 h
  unfold qbcMat frame
  rw [if_neg (by omega), if_neg (by omega), hz]
  split_ifs
  · rfl
  · rfl
  · contradiction

example : qbcMat (fun x : ℚ => x - 1) argsortBy (.list [10, 11]) 2 1 [[[1], [1]], [[1], [1]]] 1 = .error .valueError := by decide +kernel

/-! ## KL divergence -/

theorem kl_column {e μ : ℝ} (he : 0 < e) (hμ : 0 ≤ μ) {l : List ℝ} (hl : ∀ a ∈ l, 0 ≤ a ∧ (0 < a → 0 < μ)) :
    (l.map (fun a => a * Real.log (a / μ))).sum - l.sum * (e / μ) ≤ (l.map (fun a => a * Real.log ((a + e) / (μ + e)))).sum ∧
      (l.map (fun a => a * Real.log ((a + e) / (μ + e)))).sum ≤ (l.map (fun a => a * Real.log (a / μ))).sum + l.length * e := by
  induction l with
  | nil => simp
  | cons a l ih =>
    obtain ⟨i1, i2⟩ := ih (fun b hb => hl b (by simp [hb]))
    obtain ⟨h0, hp⟩ := hl a (by simp)
    simp only [List.map_cons, List.sum_cons, List.length_cons]
    push_cast
    have key : a * Real.log (a / μ) - a * (e / μ) ≤ a * Real.log ((a + e) / (μ + e)) ∧
        a * Real.log ((a + e) / (μ + e)) ≤ a * Real.log (a / μ) + e := by
      rcases h0.eq_or_lt with h0 | h0
      · rw [← h0]; simp only [zero_mul]; constructor <;> linarith
      · have hm := hp h0
        have ta := log_tolerance h0 he.le
        have tm := log_tolerance hm he.le
        rw [Real.log_div h0.ne' hm.ne', Real.log_div (x := a + e) (by positivity) (by positivity)]
        constructor
        · have : Real.log (μ + e) ≤ Real.log μ + e / μ := by
            have h4 : μ * Real.log (μ + e) ≤ μ * (Real.log μ + e / μ) := by
              have : μ * (Real.log μ + e / μ) = μ * Real.log μ + e := by field_simp
              linarith [tm.2]
            exact le_of_mul_le_mul_left h4 hm
          have h5 : a * (Real.log a - Real.log μ - e / μ) ≤ a * (Real.log (a + e) - Real.log (μ + e)) :=
            mul_le_mul_of_nonneg_left (by linarith [ta.1]) h0.le
          linarith
        · have h5 : a * (Real.log (a + e) - Real.log (μ + e)) ≤ a * (Real.log (a + e) - Real.log μ) :=
            mul_le_mul_of_nonneg_left (by linarith [tm.1]) h0.le
          linarith [ta.2]
    constructor
    · linarith [key.1]
    · linarith [key.2]

theorem kl_column_mean {e : ℝ} (he : 0 < e) {l : List ℝ} (hl : ∀ a ∈ l, 0 ≤ a) :
    |(l.map (fun a => a * Real.log ((a + e) / (l.sum / l.length + e)))).sum - (l.map (fun a => a * Real.log (a / (l.sum / l.length)))).sum| ≤
      l.length * e := by
  have hs : 0 ≤ l.sum := List.sum_nonneg hl
  have hk := kl_column (e := e) (μ := l.sum / l.length) he (by positivity) (l := l) (by
    intro a ha
    refine ⟨hl a ha, fun hpos => ?_⟩
    have h1 : a ≤ l.sum := List.single_le_sum hl a ha
    have h2 : (0 : ℝ) < l.length := by exact_mod_cast List.length_pos_iff.2 (List.ne_nil_of_mem ha)
    have h3 : 0 < l.sum := by linarith
    positivity)
  have h4 : l.sum * (e / (l.sum / l.length)) ≤ l.length * e := by
    rcases hs.eq_or_lt with h | h
    · rw [← h]; simp only [zero_mul]; positivity
    · rw [div_div_eq_mul_div, mul_div_assoc']
      rw [mul_comm, mul_div_assoc, div_self h.ne', mul_one, mul_comm]
  rw [abs_le]
  constructor
  · linarith [hk.1]
  · linarith [hk.2]

theorem sum_swap {β : Type} (L : List β) (f : β → Nat → ℝ) (n : Nat) :
    (L.map (fun r => ∑ l ∈ Finset.range n, f r l)).sum = ∑ l ∈ Finset.range n, (L.map (fun r => f r l)).sum := by
  induction L with
  | nil => simp
  | cons r L ih => simp only [List.map_cons, List.sum_cons, ih, Finset.sum_add_distrib]

theorem klScore_bounds {labels : Nat} {inst : List (List ℝ)} (hne : inst ≠ []) (hpos : ∀ r ∈ inst, ∀ v ∈ r, 0 ≤ v) :
    |klScore Real.log labels inst - inst.length * Spec.avgKL labels inst| ≤ labels * (inst.length * (1 / 1000000000)) := by
  have hm : (inst.length : ℝ) ≠ 0 := by
    have : inst.length ≠ 0 := fun h => hne (List.length_eq_zero_iff.1 h)
    exact_mod_cast this
  unfold klScore Spec.avgKL
  rw [mul_div_assoc', mul_comm, mul_div_assoc, div_self hm, mul_one, list_range_sum]
  unfold Spec.kl
  rw [sum_swap, ← Finset.sum_sub_distrib]
  refine (Finset.abs_sum_le_sum_abs _ _).trans ?_
  have : ∀ l ∈ Finset.range labels, |(inst.map (fun r => r.getD l 0 * Real.log ((r.getD l 0 + 1 / 1000000000) /
      ((inst.map (fun r => r.getD l 0)).sum / inst.length + 1 / 1000000000)))).sum -
      (inst.map (fun r => r.getD l 0 * Real.log (r.getD l 0 / Spec.consensus inst l))).sum| ≤ inst.length * (1 / 1000000000) := by
    intro l _
    have h := kl_column_mean (e := 1 / 1000000000) (by norm_num) (l := inst.map (fun r => r.getD l 0)) (by
      intro a ha
      obtain ⟨r, hr, rfl⟩ := List.mem_map.1 ha
      rw [List.getD_eq_getElem?_getD]
      cases hg : r[l]? with
      | none => simp
      | some v => exact hpos r hr v (List.mem_of_getElem? hg))
    rw [List.map_map, List.map_map, List.length_map] at h
    exact h
  refine (Finset.sum_le_sum this).trans ?_
  rw [Finset.sum_const, nsmul_eq_mul, Finset.card_range]

/-- **C55**, KL divergence: no unselected example has an average divergence larger by more than `2e-9` times the number of classes than
that of a selected one. -/
theorem C55_kl {argsort : List ℝ → List Nat} (ha : ∀ l, Spec.IsArgsort l (argsort l)) {u : Coll α} (hu : u.items.Nodup)
    {labels : Nat} {predict : List (List (List ℝ))} (hpos : ∀ m ∈ predict, ∀ r ∈ m, ∀ v ∈ r, 0 ≤ v) {batch : Int} {r : List α}
    (hr : qbcKL Real.log argsort u u.items.length labels predict batch = .ok r) :
    Spec.NoneBetter u.items r (fun j i =>
      Spec.avgKL labels (predict.map (fun m => m.getD i [])) + 2 * labels / 1000000000 <
        Spec.avgKL labels (predict.map (fun m => m.getD j []))) := by
  rintro i j x y hi hj hx hy hlt
  by_cases hall : batch ≤ 0 ∨ (u.items.length : Int) ≤ batch
  · unfold qbcKL frame at hr
    split_ifs at hr with h1 h2
    · simp at hr; subst hr; exact absurd (List.mem_of_getElem? hj) hy
    · omega
  unfold qbcKL at hr
  have h2 : 1 < predict.length := by
    by_contra hc
    rw [if_pos (by omega)] at hr
    unfold frame at hr
    rw [if_neg (by omega), if_neg (by omega)] at hr
    simp at hr
  rw [if_neg (by omega)] at hr
  have hil : i < u.items.length := (List.getElem?_eq_some_iff.1 hi).1
  have hjl : j < u.items.length := (List.getElem?_eq_some_iff.1 hj).1
  have key := byLargest_best (batch := batch) ha hu (by rw [List.length_map, List.length_range]) hr hi hj hx hy
    (a := klScore Real.log labels (predict.map (fun m => m.getD i []))) (b := klScore Real.log labels (predict.map (fun m => m.getD j [])))
    (by rw [List.getElem?_map, List.getElem?_range hil]; rfl) (by rw [List.getElem?_map, List.getElem?_range hjl]; rfl)
  have hb : ∀ k : Nat, |klScore Real.log labels (predict.map (fun m => m.getD k [])) -
      predict.length * Spec.avgKL labels (predict.map (fun m => m.getD k []))| ≤ labels * (predict.length * (1 / 1000000000)) := by
    intro k
    have h := klScore_bounds (labels := labels) (inst := predict.map (fun m => m.getD k [])) (by
      intro h
      have := congrArg List.length h
      simp at this
      subst this
      simp at h2) (by
      intro r hr
      obtain ⟨m, hm, rfl⟩ := List.mem_map.1 hr
      rw [List.getD_eq_getElem?_getD]
      cases hg : m[k]? with
      | none => simp
      | some w => exact hpos m hm w (List.mem_of_getElem? hg))
    rw [List.length_map] at h
    exact h
  have b1 := abs_le.1 (hb i)
  have b2 := abs_le.1 (hb j)
  have hm : (0 : ℝ) < predict.length := by exact_mod_cast (by omega : 0 < predict.length)
  have h5 : (predict.length : ℝ) * (Spec.avgKL labels (predict.map (fun m => m.getD i [])) + 2 * labels / 1000000000) <
      predict.length * Spec.avgKL labels (predict.map (fun m => m.getD j [])) := mul_lt_mul_of_pos_left hlt hm
  have h6 : (predict.length : ℝ) * (Spec.avgKL labels (predict.map (fun m => m.getD i [])) + 2 * labels / 1000000000) =
      predict.length * Spec.avgKL labels (predict.map (fun m => m.getD i [])) + 2 * (labels * (predict.length * (1 / 1000000000))) := by ring
  linarith [b1.2, b2.1]

/-- A committee of three on four examples: the one on which they disagree most is chosen. -/
example : qbc (fun x : ℚ => x - 1) argsortBy (.list [10, 11, 12, 13]) [[0, 0, 1, 0], [0, 1, 0, 0], [0, 1, 2, 0]] 1 = .ok [12] := by
  decide +kernel

example : qbcMat (fun x : ℚ => x - 1) argsortBy (.list [10, 11]) 2 2 [[[1, 0], [1, 0]], [[1, 0], [0, 1]]] 1 = .ok [11] := by
  decide +kernel

example : qbcKL (fun x : ℚ => x - 1) argsortBy (.list [10, 11]) 2 2 [[[1/2, 1/2], [1, 0]], [[1/2, 1/2], [0, 1]]] 1 = .ok [11] := by
  decide +kernel

/-! ## Density weighting -/

section
variable [Field K] [LinearOrder K] [IsStrictOrderedRing K]

/-- The mean distance of the example at position `j` from the unlabelled examples. -/
def _root_.Alipy.Spec.meanDist (dis : List (List K)) (j : Nat) : K := (dis.map (fun r => r.getD j 0)).sum / dis.length

theorem density_best {log pow : K → K} {argsort : List K → List Nat} (ha : ∀ l, Spec.IsArgsort l (argsort l)) {m : Measure} {u : Coll α}
    (hu : u.items.Nodup) {c : Nat} {rows dis : List (List K)} {batch : Int} (hb : batch ≤ u.items.length) {r : List α}
    (hr : densitySelect log pow argsort m u c rows dis batch = .ok r)
    {i j : Nat} {x y : α} (hi : u.items[i]? = some x) (hj : u.items[j]? = some y) (hx : x ∈ r) (hy : y ∉ r) {ri rj : List K}
    (ei : rows[i]? = some ri) (ej : rows[j]? = some rj) :
    densityPat log m c rj * pow (Spec.meanDist dis j) ≤ densityPat log m c ri * pow (Spec.meanDist dis i) := by
  unfold densitySelect densityWeighted at hr
  split_ifs at hr with h1
  rw [not_or, not_not, not_not] at h1
  obtain ⟨h1, h2⟩ := h1
  set scores := List.zipWith (fun x y => x * y) (rows.map (densityPat log m c)) (densityDiv pow dis) with hs
  have hl : scores.length = u.items.length := by rw [hs, List.length_zipWith, h1, h2]; exact min_self _
  have hb0 : 0 < batch := by
    by_contra hc
    rw [(C31_not_positive _ _ (not_lt.1 hc)).1] at hr
    simp at hr
  have hil : i < u.items.length := (List.getElem?_eq_some_iff.1 hi).1
  have hjl : j < u.items.length := (List.getElem?_eq_some_iff.1 hj).1
  have hd : dis.length = u.items.length := by rw [← h2]; simp [densityDiv]
  have sc : ∀ k rk, k < u.items.length → rows[k]? = some rk → scores[k]? = some (densityPat log m c rk * pow (Spec.meanDist dis k)) := by
    intro k rk hk ek
    rw [hs, List.getElem?_zipWith, List.getElem?_map, ek]
    unfold densityDiv
    rw [List.getElem?_map, List.getElem?_range (by omega)]
    rfl
  by_cases hall : batch = u.items.length
  · exfalso
    obtain ⟨n, rfl⟩ := Int.eq_ofNat_of_zero_le (a := batch) (by omega)
    have hn : n = u.items.length := by exact_mod_cast hall
    obtain ⟨ps, e1, e2, e3, e4, e5⟩ := C31_nlargestarg_partial scores _ (ha scores) n (by omega) (by omega)
    rw [e1] at hr
    simp only at hr
    obtain ⟨r', hr', hf⟩ := pick_nat (u := u.items) (ps := ps) (by rw [← hl]; exact e4)
    rw [hr'] at hr
    simp at hr
    subst hr
    have hjm : j ∈ ps := by
      have : ps.Perm (List.range n) := (List.subperm_of_subset e3 (by
        intro k hk; have := e4 k hk; exact List.mem_range.2 (by omega))).perm_of_length_le (by rw [List.length_range]; omega)
      exact this.mem_iff.2 (List.mem_range.2 (by omega))
    exact hy (forall₂_mem_right hf j hjm y hj)
  · refine byLargest_best (scores := scores) (batch := batch) ha hu hl ?_ hi hj hx hy (sc i ri hil ei) (sc j rj hjl ej)
    unfold byLargest frame
    rw [if_neg (by omega), if_neg (by omega)]
    exact hr

/-- **C55**, density weighting by least confidence: no unselected example has a larger product of `1 - largest probability` and
the power of the mean distance than a selected one. -/
theorem C55_density_least_confident {log pow : K → K} {argsort : List K → List Nat} (ha : ∀ l, Spec.IsArgsort l (argsort l)) {u : Coll α}
    (hu : u.items.Nodup) {c : Nat} {rows dis : List (List K)} (hc : ∀ r ∈ rows, r.length = c) {batch : Int} (hb : batch ≤ u.items.length)
    {r : List α} (hr : densitySelect log pow argsort .leastConfident u c rows dis batch = .ok r) :
    Spec.NoneBetter u.items r (fun j i => ∃ rj ri tj ti, rows[j]? = some rj ∧ rows[i]? = some ri ∧ Spec.IsTop rj tj ∧ Spec.IsTop ri ti ∧
      (1 - ti) * pow (Spec.meanDist dis i) < (1 - tj) * pow (Spec.meanDist dis j)) := by
  rintro i j x y hi hj hx hy ⟨rj, ri, tj, ti, ej, ei, htj, hti, hlt⟩
  have key := density_best ha hu hb hr hi hj hx hy ei ej
  obtain ⟨rest, p1, p2⟩ := top_perm htj
  obtain ⟨rest', p1', p2'⟩ := top_perm hti
  have e1 := sorted_top p1 p2
  have e2 := sorted_top p1' p2'
  rw [hc rj (List.mem_of_getElem? ej)] at e1
  rw [hc ri (List.mem_of_getElem? ei)] at e2
  simp only [densityPat, leastScore, e1, e2] at key
  exact absurd key (not_le.2 hlt)

/-- **C55**: an example that is both less certain and farther from the others is not passed over for one that is selected (least
confidence; `beta` positive, so that `pow` is increasing). -/
theorem C55_density_dominance_partial {log pow : K → K} {argsort : List K → List Nat} (ha : ∀ l, Spec.IsArgsort l (argsort l)) {u : Coll α}
    (hu : u.items.Nodup) {c : Nat} {rows dis : List (List K)} (hc : ∀ r ∈ rows, r.length = c) (h1 : ∀ r ∈ rows, ∀ v ∈ r, v ≤ 1)
    (hp : ∀ a b, 0 ≤ a → a < b → 0 ≤ pow a ∧ pow a < pow b) (hd : ∀ r ∈ dis, ∀ v ∈ r, 0 ≤ v)
    {batch : Int} (hb : batch ≤ u.items.length)
    {r : List α} (hr : densitySelect log pow argsort .leastConfident u c rows dis batch = .ok r) :
    Spec.NoneBetter u.items r (fun j i => ∃ rj ri tj ti, rows[j]? = some rj ∧ rows[i]? = some ri ∧ Spec.IsTop rj tj ∧ Spec.IsTop ri ti ∧
      tj < ti ∧ Spec.meanDist dis i < Spec.meanDist dis j) := by
  rintro i j x y hi hj hx hy ⟨rj, ri, tj, ti, ej, ei, htj, hti, hlt, hdlt⟩
  refine C55_density_least_confident ha hu hc hb hr i j x y hi hj hx hy ⟨rj, ri, tj, ti, ej, ei, htj, hti, ?_⟩
  have h0 : 0 ≤ Spec.meanDist dis i := by
    unfold Spec.meanDist
    refine div_nonneg (List.sum_nonneg ?_) (Nat.cast_nonneg _)
    intro v hv
    obtain ⟨row, hrow, rfl⟩ := List.mem_map.1 hv
    rw [List.getD_eq_getElem?_getD]
    cases hg : row[i]? with
    | none => simp
    | some w => exact hd row hrow w (List.mem_of_getElem? hg)
  obtain ⟨q1, q2⟩ := hp _ _ h0 hdlt
  have q3 : ti ≤ 1 := h1 ri (List.mem_of_getElem? ei) ti hti.1
  calc (1 - ti) * pow (Spec.meanDist dis i) ≤ (1 - ti) * pow (Spec.meanDist dis j) := mul_le_mul_of_nonneg_left q2.le (by linarith)
    _ < (1 - tj) * pow (Spec.meanDist dis j) := mul_lt_mul_of_pos_right (by linarith) (by linarith)

/-- **C55**, density weighting by margin: the score is minus the margin times the power of the mean distance. -/
theorem C55_density_margin {log pow : K → K} {argsort : List K → List Nat} (ha : ∀ l, Spec.IsArgsort l (argsort l)) {u : Coll α}
    (hu : u.items.Nodup) {c : Nat} {rows dis : List (List K)} (hc : ∀ r ∈ rows, r.length = c) {batch : Int} (hb : batch ≤ u.items.length)
    {r : List α} (hr : densitySelect log pow argsort .margin u c rows dis batch = .ok r) :
    Spec.NoneBetter u.items r (fun j i => ∃ rj ri mj mi, rows[j]? = some rj ∧ rows[i]? = some ri ∧ Spec.IsMargin rj mj ∧ Spec.IsMargin ri mi ∧
      mj * pow (Spec.meanDist dis j) < mi * pow (Spec.meanDist dis i)) := by
  rintro i j x y hi hj hx hy ⟨rj, ri, mj, mi, ej, ei, hmj, hmi, hlt⟩
  have key := density_best ha hu hb hr hi hj hx hy ei ej
  obtain ⟨a, b, rest, p1, p2, p3, rfl⟩ := hmj
  obtain ⟨a', b', rest', p1', p2', p3', rfl⟩ := hmi
  have e1 := kth_margin p1 p2 p3
  have e2 := kth_margin p1' p2' p3'
  rw [hc rj (List.mem_of_getElem? ej)] at e1
  rw [hc ri (List.mem_of_getElem? ei)] at e2
  simp only [densityPat, e1, e2] at key
  linarith [mul_comm (b - a) (pow (Spec.meanDist dis j))]

/-- With the margin the diversity term works the wrong way round: of two examples with the same (positive) margin the one nearer to the
others is preferred. Whenever exactly one of them is selected, it is not the one farther away. -/
theorem C55_density_margin_violation {log pow : K → K} {argsort : List K → List Nat} (ha : ∀ l, Spec.IsArgsort l (argsort l)) {u : Coll α}
    (hu : u.items.Nodup) {c : Nat} {rows dis : List (List K)} (hc : ∀ r ∈ rows, r.length = c) (hp : StrictMono pow)
    {batch : Int} (hb : batch ≤ u.items.length) {r : List α} (hr : densitySelect log pow argsort .margin u c rows dis batch = .ok r)
    {i j : Nat} {x y : α} (hi : u.items[i]? = some x) (hj : u.items[j]? = some y) {ri rj : List K} {mg : K} (hm : 0 < mg)
    (ei : rows[i]? = some ri) (ej : rows[j]? = some rj) (mi : Spec.IsMargin ri mg) (mj : Spec.IsMargin rj mg)
    (hfar : Spec.meanDist dis i < Spec.meanDist dis j) : y ∈ r → x ∈ r := by
  intro hy
  by_contra hx
  exact C55_density_margin ha hu hc hb hr j i y x hj hi hy hx
    ⟨ri, rj, mg, mg, ei, ej, mi, mj, mul_lt_mul_of_pos_left (hp hfar) hm⟩

end

/-- **C55**, density weighting by entropy, for positive probabilities: no unselected example has a product of entropy and power of the
mean distance that is larger than that of a selected one by more than `1e-9` times the number of classes times that power. -/
theorem C55_density_entropy {pow : ℝ → ℝ} {argsort : List ℝ → List Nat} (ha : ∀ l, Spec.IsArgsort l (argsort l)) {u : Coll α}
    (hu : u.items.Nodup) {c : Nat} {rows dis : List (List ℝ)} (hc : ∀ r ∈ rows, r.length = c) (hpos : ∀ r ∈ rows, ∀ v ∈ r, 0 < v)
    (hp : ∀ x, 0 ≤ pow x) {batch : Int} (hb : batch ≤ u.items.length)
    {r : List α} (hr : densitySelect Real.log pow argsort .entropy u c rows dis batch = .ok r) :
    Spec.NoneBetter u.items r (fun j i => ∃ rj ri, rows[j]? = some rj ∧ rows[i]? = some ri ∧
      Spec.entropy ri * pow (Spec.meanDist dis i) + c / 1000000000 * pow (Spec.meanDist dis j) < Spec.entropy rj * pow (Spec.meanDist dis j)) := by
  rintro i j x y hi hj hx hy ⟨rj, ri, ej, ei, hlt⟩
  have key := density_best ha hu hb hr hi hj hx hy ei ej
  have hclip : ∀ row ∈ rows, clip row = row := by
    intro row hrow
    unfold clip
    conv_rhs => rw [← List.map_id row]
    apply List.map_congr_left
    intro v hv
    simp [not_le.2 (hpos row hrow v hv)]
  have b1 := entropyScore_bounds (hpos rj (List.mem_of_getElem? ej))
  have b2 := entropyScore_bounds (hpos ri (List.mem_of_getElem? ei))
  rw [hclip rj (List.mem_of_getElem? ej), hc rj (List.mem_of_getElem? ej)] at b1
  rw [hclip ri (List.mem_of_getElem? ei)] at b2
  simp only [densityPat] at key
  have c1 := mul_le_mul_of_nonneg_right b1.1 (hp (Spec.meanDist dis j))
  have c2 := mul_le_mul_of_nonneg_right b2.2 (hp (Spec.meanDist dis i))
  rw [sub_mul] at c1
  linarith

/-- Three examples on a line with equal margins: density weighting by margin takes the middle one. -/
example : densitySelect (fun x : ℚ => x) id argsortBy .margin (.list [7, 8, 9]) 2 [[1/4, 3/4], [3/4, 1/4], [1/4, 3/4]]
    [[0, 1, 2], [1, 0, 1], [2, 1, 0]] 1 = .ok [8] := by decide +kernel

example : Spec.meanDist [[0, 1, 2], [1, 0, 1], [2, 1, (0 : ℚ)]] 1 < Spec.meanDist [[0, 1, 2], [1, 0, 1], [2, 1, 0]] 0 := by decide +kernel

example : densitySelect (fun x : ℚ => x) id argsortBy .leastConfident (.list [7, 8, 9]) 2 [[1/4, 3/4], [1/2, 1/2], [1/3, 2/3]]
    [[0, 1, 2], [1, 0, 1], [2, 1, 0]] 2 = .ok [8, 9] := by decide +kernel

end Alipy.Select
