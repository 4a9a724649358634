import Verif.Model.Select
import Verif.Spec.Agree
import Verif.Props.Select
import Verif.Props.Committee
import Mathlib.Analysis.SpecialFunctions.Log.NegMulLog
import Mathlib.Analysis.SpecialFunctions.Log.Deriv
import Mathlib.Analysis.Complex.ExponentialBounds
import Mathlib.Analysis.Convex.SpecificFunctions.Basic
/-!
# C100: uncertainty measures and the listing of classes and examples
-/
set_option linter.unusedSectionVars false
set_option linter.unusedSimpArgs false
namespace Alipy.Select
open Alipy

variable {α K : Type}

/-! ## Picking -/

theorem pick_ok (l : List α) : ∀ (ps : List Nat), (∀ i ∈ ps, i < l.length) →
    ∃ r, pickAll l (ps.map (fun i : Nat => (i : Int))) = .ok r ∧ r.map some = ps.map (fun i => l[i]?)
  | [], _ => ⟨[], rfl, rfl⟩
  | i :: ps, h => by
    obtain ⟨r, h1, h2⟩ := pick_ok l ps (fun j hj => h j (List.mem_cons_of_mem _ hj))
    have hi := h i (by simp)
    refine ⟨l[i] :: r, ?_, ?_⟩
    · simp only [List.map_cons, pickAll, Int.natCast_nonneg, if_true, Int.toNat_natCast, List.getElem?_eq_getElem hi, h1]
    · simp [h2, hi]

theorem map_some_inj {l l' : List α} (h : l.map some = l'.map some) : l = l' := (List.map_injective_iff.2 (Option.some_injective α)) h

theorem nlargest_drop (p : List Nat) {n : Nat} (hn : 0 < n) (hle : n ≤ p.length) : nlargestarg p n = .ok (p.drop (p.length - n)) := by
  have hs : pySliceFrom p ((p.length : Int) - n) = p.drop (p.length - n) := by
    unfold pySliceFrom; rw [if_pos (by omega)]; congr 1; omega
  simp [nlargestarg, hn, hs]

/-- The whole pool in ascending order of the scores; the selection is its end. -/
theorem byLargest_end [LE K] {argsort : List K → List Nat} (ha : ∀ l, Spec.IsArgsort l (argsort l)) {u : Coll α} {f : α → K} {batch : Nat}
    (hb : 0 < batch) (hlt : batch < u.items.length) :
    ∃ q : List α, q.Perm u.items ∧ q.Pairwise (fun x y => f x ≤ f y) ∧
      byLargest argsort u (u.items.map f) batch = .ok (q.drop (q.length - batch)) := by
  obtain ⟨hperm, hsort⟩ := ha (u.items.map f)
  rw [List.length_map] at hperm
  have hmem : ∀ i ∈ argsort (u.items.map f), i < u.items.length := fun i hi => by simpa using hperm.mem_iff.1 hi
  obtain ⟨q, _, hq⟩ := pick_ok u.items (argsort (u.items.map f)) hmem
  have hlen : (argsort (u.items.map f)).length = u.items.length := by rw [hperm.length_eq]; simp
  have hqlen : q.length = u.items.length := by
    have := congrArg List.length hq
    simpa [hlen] using this
  refine ⟨q, ?_, ?_, ?_⟩
  · have : (q.map some).Perm (u.items.map some) := by
      rw [hq]
      refine (hperm.map (fun i => u.items[i]?)).trans (List.Perm.of_eq ?_)
      apply List.ext_getElem (by simp)
      intro i h1 h2
      simp at h1
      simp [h1]
    exact (List.map_perm_map_iff (Option.some_injective α)).1 this
  · have hp' : (q.map some).Pairwise (fun a b : Option α => ∀ x y, a = some x → b = some y → f x ≤ f y) := by
      rw [hq, List.pairwise_map]
      refine hsort.imp ?_
      intro i j h x y hx hy
      exact h (f x) (f y) (by simp [hx]) (by simp [hy])
    rw [List.pairwise_map] at hp'
    exact hp'.imp (fun h => h _ _ rfl rfl)
  · unfold byLargest frame
    rw [if_neg (by omega), if_neg (by omega), nlargest_drop _ hb (by omega)]
    simp only
    obtain ⟨r, h1, h2⟩ := pick_ok u.items ((argsort (u.items.map f)).drop ((argsort (u.items.map f)).length - batch))
      (fun i hi => hmem i (List.drop_subset _ _ hi))
    rw [h1]
    congr 1
    apply map_some_inj
    rw [h2, List.map_drop, List.map_drop, hq, hlen, hqlen]

theorem perm_sorted_eq [PartialOrder K] {f : α → K} {q q' : List α} (h : q.Perm q') (h1 : q.Pairwise (fun x y => f x ≤ f y))
    (h2 : q'.Pairwise (fun x y => f x ≤ f y)) (hinj : ∀ x ∈ q, ∀ y ∈ q, f x = f y → x = y) : q = q' := by
  refine List.Perm.eq_of_pairwise ?_ h1 h2 h
  intro a b ha hb hab hba
  exact hinj a ha b (h.mem_iff.2 hb) (le_antisymm hab hba)

/-- Selection by scores, for two listings of the pool and two ways to sort. -/
theorem byLargest_listing [PartialOrder K] {argsort argsort' : List K → List Nat} (ha : ∀ l, Spec.IsArgsort l (argsort l))
    (ha' : ∀ l, Spec.IsArgsort l (argsort' l)) {u u' : Coll α} (hu : u.items.Perm u'.items) {f : α → K}
    (hinj : ∀ x ∈ u.items, ∀ y ∈ u.items, f x = f y → x = y) {batch : Int} (hb : 0 < batch) :
    ∃ r r', byLargest argsort u (u.items.map f) batch = .ok r ∧ byLargest argsort' u' (u'.items.map f) batch = .ok r' ∧ r.Perm r' := by
  obtain ⟨n, rfl⟩ := Int.eq_ofNat_of_zero_le hb.le
  by_cases hlt : n < u.items.length
  · obtain ⟨q, p1, s1, e1⟩ := byLargest_end ha (f := f) (batch := n) (by omega) hlt
    obtain ⟨q', p2, s2, e2⟩ := byLargest_end ha' (u := u') (f := f) (batch := n) (by omega) (by rw [← hu.length_eq]; exact hlt)
    have : q = q' := perm_sorted_eq ((p1.trans hu).trans p2.symm) s1 s2
      (fun x hx y hy => hinj x (p1.mem_iff.1 hx) y (p1.mem_iff.1 hy))
    subst this
    exact ⟨_, _, e1, e2, List.Perm.refl _⟩
  · refine ⟨u.items, u'.items, ?_, ?_, hu⟩
    · unfold byLargest frame
      rw [if_neg (by omega), if_pos (by omega)]
    · have := hu.length_eq
      unfold byLargest frame
      rw [if_neg (by omega), if_pos (by omega)]

/-- Scores in the same order lead to the same selection. -/
theorem byLargest_same_order [PartialOrder K] {argsort argsort' : List K → List Nat} (ha : ∀ l, Spec.IsArgsort l (argsort l))
    (ha' : ∀ l, Spec.IsArgsort l (argsort' l)) {u : Coll α} {f g : α → K}
    (hinj : ∀ x ∈ u.items, ∀ y ∈ u.items, f x = f y → x = y) (hfg : ∀ x ∈ u.items, ∀ y ∈ u.items, g x ≤ g y → f x ≤ f y)
    {batch : Int} (hb : 0 < batch) :
    byLargest argsort u (u.items.map f) batch = byLargest argsort' u (u.items.map g) batch := by
  obtain ⟨n, rfl⟩ := Int.eq_ofNat_of_zero_le hb.le
  by_cases hlt : n < u.items.length
  · obtain ⟨q, p1, s1, e1⟩ := byLargest_end ha (f := f) (batch := n) (by omega) hlt
    obtain ⟨q', p2, s2, e2⟩ := byLargest_end ha' (f := g) (batch := n) (by omega) hlt
    have s2' : q'.Pairwise (fun x y => f x ≤ f y) :=
      s2.imp_of_mem (fun hx hy h => hfg _ (p2.mem_iff.1 hx) _ (p2.mem_iff.1 hy) h)
    have : q = q' := perm_sorted_eq (p1.trans p2.symm) s1 s2' (fun x hx y hy => hinj x (p1.mem_iff.1 hx) y (p1.mem_iff.1 hy))
    subst this
    exact e1.trans e2.symm
  · unfold byLargest frame
    rw [if_neg (by omega), if_pos (by omega), if_neg (by omega), if_pos (by omega)]

/-! ## The order of the classes -/

section
variable [Field K] [LinearOrder K]

theorem kth_perm {r r' : List K} (h : r.Perm r') (k : Nat) : kth r k = kth r' k := by
  have hs : ∀ l : List K, (sortBy (fun a b => decide (a ≤ b)) l).Pairwise (fun a b => a ≤ b) := fun l =>
    (sortBy_sorted (fun a b : K => decide (a ≤ b)) (by intro a b; simp only [decide_eq_true_eq]; exact le_total _ _)
    (by intro a b c; simp only [decide_eq_true_eq]; exact le_trans) l).imp (fun h => by simpa using h)
  unfold kth
  rw [List.Perm.eq_of_pairwise (fun a b _ _ => le_antisymm) (hs r) (hs r') (((sortBy_perm _ r).trans h).trans (sortBy_perm _ r').symm)]

theorem entropy_perm (log : K → K) {r r' : List K} (h : r.Perm r') : entropyScore log (clip r) = entropyScore log (clip r') := by
  unfold entropyScore clip
  rw [((h.map _).map _).sum_eq]

/-- **C100**: the order of the classes (of the columns of the prediction matrix) makes no difference, for any measure, batch size, and way
of sorting. -/
theorem C100_classes {log : K → K} {argsort : List K → List Nat} (m : Measure) (u : Coll α) {c : Nat} {rows rows' : List (List K)}
    (h : List.Forall₂ List.Perm rows rows') (hm : m ≠ .distance) (batch : Int) :
    uncertainty log argsort m u (.mat c rows) batch = uncertainty log argsort m u (.mat c rows') batch := by
  have key : ∀ s : List K → K, (∀ r r' : List K, r.Perm r' → s r = s r') → rows.map s = rows'.map s := by
    intro s hs
    induction h with
    | nil => rfl
    | cons h1 _ ih => rw [List.map_cons, List.map_cons, hs _ _ h1, ih]
  have e1 := key (fun r => entropyScore log (clip r)) (fun _ _ => entropy_perm log)
  have e2 := key (marginScore c) (fun r r' h => by unfold marginScore; rw [kth_perm h, kth_perm h])
  have e3 := key (leastScore c) (fun r r' h => by unfold leastScore; rw [kth_perm h])
  cases m with
  | distance => exact absurd rfl hm
  | entropy => simp only [uncertainty, e1]
  | margin => simp only [uncertainty, e2]
  | leastConfident => simp only [uncertainty, e3]

/-- The score of a measure. -/
def scoreOf (log : K → K) (c : Nat) : Measure → List K → K
  | .entropy, r => entropyScore log (clip r)
  | .margin, r => marginScore c r
  | _, r => leastScore c r

theorem uncertainty_eq {log : K → K} {argsort : List K → List Nat} {m : Measure} (hm : m ≠ .distance) (u : Coll α) {c : Nat} (hc : c ≠ 1)
    (rows : List (List K)) (batch : Int) :
    uncertainty log argsort m u (.mat c rows) batch = byLargest argsort u (rows.map (scoreOf log c m)) batch := by
  cases m with
  | distance => exact absurd rfl hm
  | entropy => simp only [uncertainty, if_neg hc]; rfl
  | margin => simp only [uncertainty, if_neg hc]; rfl
  | leastConfident => simp only [uncertainty, if_neg hc]; rfl

/-- **C100**: the order in which the unlabelled examples are listed makes no difference to what is selected, if no two of them are equally
uncertain (`pred x` are the predicted probabilities of the example `x`). -/
theorem C100_examples {log : K → K} {argsort argsort' : List K → List Nat} (ha : ∀ l, Spec.IsArgsort l (argsort l))
    (ha' : ∀ l, Spec.IsArgsort l (argsort' l)) {m : Measure} (hm : m ≠ .distance) {u u' : Coll α} (hu : u.items.Perm u'.items) {c : Nat}
    (hc : c ≠ 1) {pred : α → List K} (hne : ∀ x ∈ u.items, ∀ y ∈ u.items, scoreOf log c m (pred x) = scoreOf log c m (pred y) → x = y)
    {batch : Int} (hb : 0 < batch) :
    ∃ r r', uncertainty log argsort m u (.mat c (u.items.map pred)) batch = .ok r ∧
      uncertainty log argsort' m u' (.mat c (u'.items.map pred)) batch = .ok r' ∧ r.Perm r' := by
  rw [uncertainty_eq hm u hc, uncertainty_eq hm u' hc, List.map_map, List.map_map]
  exact byLargest_listing ha ha' hu (f := scoreOf log c m ∘ pred) hne hb

end

/-! ## The order of the committee -/

section
variable [Field K] [LinearOrder K]

theorem voteEntropy_perm (log : K → K) {v v' : List Int} (h : v.Perm v') : voteEntropy log v = voteEntropy log v' := by
  have hd : v.eraseDups.Perm v'.eraseDups := by
    rw [List.perm_ext_iff_of_nodup (eraseDups_nodup v) (eraseDups_nodup v')]
    intro a
    rw [List.mem_eraseDups, List.mem_eraseDups, h.mem_iff]
  unfold voteEntropy
  simp only [h.count_eq, h.length_eq]
  rw [(hd.map _).sum_eq]

/-- **C100**: the order of the members of a committee makes no difference to the selection by vote entropy. -/
theorem C100_committee {log : K → K} {argsort : List K → List Nat} (u : Coll α) {predict predict' : List (List Int)} (h : predict.Perm predict')
    {n : Nat} (hn : ∀ r ∈ predict, r.length = n) (batch : Int) : qbc log argsort u predict batch = qbc log argsort u predict' batch := by
  unfold qbc
  rw [h.length_eq]
  by_cases hl : predict'.length ≤ 1
  · rw [if_pos hl, if_pos hl]
  · have hh : (predict.headD []).length = (predict'.headD []).length := by
      have hl' := h.length_eq
      match predict, predict', h, hn, hl, hl' with
      | [], [], _, _, _, _ => rfl
      | a :: l, b :: l', h, hn, _, _ =>
        show a.length = b.length
        rw [hn a (by simp), hn b (h.mem_iff.2 (by simp))]
    rw [if_neg hl, if_neg hl, hh]
    congr 3
    apply List.map_congr_left
    intro i _
    exact voteEntropy_perm log (h.map _)

end

/-! ## Two classes -/

theorem kth_two (a b : ℝ) : kth [a, b] 1 = max a b ∧ kth [a, b] 0 = min a b := by
  unfold kth
  rcases le_total a b with h | h
  · simp [sortBy, insertBy, h]
  · rcases eq_or_lt_of_le h with rfl | h'
    · simp [sortBy, insertBy]
    · simp [sortBy, insertBy, not_le.2 h', h]

theorem conf_two {p : ℝ} (h0 : 0 < p) : Spec.confidence [p, 1 - p] = max p (1 - p) := by
  unfold Spec.confidence
  simp only [List.foldl_cons, List.foldl_nil]
  rw [max_eq_right h0.le]

theorem least_two {r : List ℝ} (h : Spec.TwoClasses r) : leastScore 2 r = 1 - Spec.confidence r := by
  obtain ⟨p, h0, h1, rfl⟩ := h
  rw [conf_two h0]
  unfold leastScore
  rw [(kth_two p (1 - p)).1]

theorem margin_two {r : List ℝ} (h : Spec.TwoClasses r) : marginScore 2 r = 1 - 2 * Spec.confidence r := by
  obtain ⟨p, h0, h1, rfl⟩ := h
  rw [conf_two h0]
  unfold marginScore
  rw [(kth_two p (1 - p)).1, (kth_two p (1 - p)).2]
  have := max_add_min p (1 - p)
  linarith

/-- `x * log (x + ε)`. -/
noncomputable def part (x : ℝ) : ℝ := x * Real.log (x + 1 / 1000000000)

theorem part_convex {x y t : ℝ} (hx : 0 ≤ x) (hy : 0 ≤ y) (hxy : x ≠ y) (h0 : 0 < t) (h1 : t < 1) :
    part (t * x + (1 - t) * y) < t * part x + (1 - t) * part y := by
  unfold part
  have e : (0 : ℝ) < 1 / 1000000000 := by norm_num
  generalize (1 / 1000000000 : ℝ) = ε at *
  have hc := Real.strictConvexOn_mul_log.2
  have hl := strictConcaveOn_log_Ioi.concaveOn.2
  have hc := @hc (x + ε) (by simp; linarith) (y + ε) (by simp; linarith) (fun h => hxy (by linarith)) t (1 - t) h0 (by linarith) (by ring)
  have hl := @hl (x + ε) (by simp; linarith) (y + ε) (by simp; linarith) t (1 - t) h0.le (by linarith) (by ring)
  simp only [smul_eq_mul] at hc hl
  have es : t * (x + ε) + (1 - t) * (y + ε) = t * x + (1 - t) * y + ε := by ring
  rw [es] at hc hl
  have hl' := mul_le_mul_of_nonneg_left hl e.le
  nlinarith [hc, hl']

theorem part_two {p q : ℝ} (h0 : 0 ≤ p) (hpq : p < q) (hq : q ≤ 1 / 2) : part q + part (1 - q) < part p + part (1 - p) := by
  have hd : (0:ℝ) < 1 - 2 * p := by linarith
  have ht0 : 0 < (1 - p - q) / (1 - 2 * p) := div_pos (by linarith) hd
  have ht1 : (1 - p - q) / (1 - 2 * p) < 1 := by rw [div_lt_one hd]; linarith
  have k1 := part_convex h0 (y := 1 - p) (by linarith) (by intro h; linarith) ht0 ht1
  have k2 := part_convex (x := 1 - p) (by linarith) h0 (by intro h; linarith) ht0 ht1
  have e1 : (1 - p - q) / (1 - 2 * p) * p + (1 - (1 - p - q) / (1 - 2 * p)) * (1 - p) = q := by
    have := hd.ne'
    rw [div_mul_eq_mul_div, one_sub_div this, div_mul_eq_mul_div, ← add_div, div_eq_iff this]; ring
  have e2 : (1 - p - q) / (1 - 2 * p) * (1 - p) + (1 - (1 - p - q) / (1 - 2 * p)) * p = 1 - q := by
    have := hd.ne'
    rw [div_mul_eq_mul_div, one_sub_div this, div_mul_eq_mul_div, ← add_div, div_eq_iff this]; ring
  rw [e1] at k1
  rw [e2] at k2
  linarith

theorem entropy_two {p : ℝ} (h0 : 0 < p) (h1 : p < 1) : entropyScore Real.log (clip [p, 1 - p]) = -(part p + part (1 - p)) := by
  unfold entropyScore clip part
  simp [not_le.2 h0, not_le.2 h1]

/-- The entropy of two classes is decided by the confidence. -/
theorem entropy_conf {r r' : List ℝ} (h : Spec.TwoClasses r) (h' : Spec.TwoClasses r') (hlt : Spec.confidence r' < Spec.confidence r) :
    entropyScore Real.log (clip r) < entropyScore Real.log (clip r') := by
  obtain ⟨p, hp0, hp1, rfl⟩ := h
  obtain ⟨q, hq0, hq1, rfl⟩ := h'
  rw [conf_two hp0, conf_two hq0] at hlt
  rw [entropy_two hp0 hp1, entropy_two hq0 hq1]
  have fold : ∀ x : ℝ, part x + part (1 - x) = part (min x (1 - x)) + part (1 - min x (1 - x)) := by
    intro x
    rcases le_total x (1 - x) with h | h
    · rw [min_eq_left h]
    · rw [min_eq_right h, sub_sub_cancel, add_comm]
  rw [fold p, fold q]
  have a1 := max_add_min p (1 - p)
  have a2 := max_add_min q (1 - q)
  have := part_two (p := min p (1 - p)) (q := min q (1 - q)) (le_min hp0.le (by linarith)) (by linarith)
    (by rcases le_total q (1 - q) with h | h
        · rw [min_eq_left h]; linarith
        · rw [min_eq_right h]; linarith)
  linarith

theorem score_conf {m : Measure} {r r' : List ℝ} (h : Spec.TwoClasses r) (h' : Spec.TwoClasses r') (hlt : Spec.confidence r' < Spec.confidence r) :
    scoreOf Real.log 2 m r < scoreOf Real.log 2 m r' := by
  cases m with
  | entropy => exact entropy_conf h h' hlt
  | margin =>
    show marginScore 2 r < marginScore 2 r'
    rw [margin_two h, margin_two h']; linarith
  | leastConfident =>
    show leastScore 2 r < leastScore 2 r'
    rw [least_two h, least_two h']; linarith
  | distance =>
    show leastScore 2 r < leastScore 2 r'
    rw [least_two h, least_two h']; linarith

/-- **C100** (partial: both classes have a positive probability): for two classes the measures `least_confident`, `margin` and `entropy` select the same
examples in the same order, if no two examples have the same confidence. -/
theorem C100_two_classes_partial {argsort argsort' : List ℝ → List Nat} (ha : ∀ l, Spec.IsArgsort l (argsort l))
    (ha' : ∀ l, Spec.IsArgsort l (argsort' l)) {m m' : Measure} (hm : m ≠ .distance) (hm' : m' ≠ .distance) {u : Coll α} {pred : α → List ℝ}
    (h2 : ∀ x ∈ u.items, Spec.TwoClasses (pred x))
    (hne : ∀ x ∈ u.items, ∀ y ∈ u.items, Spec.confidence (pred x) = Spec.confidence (pred y) → x = y) {batch : Int} (hb : 0 < batch) :
    uncertainty Real.log argsort m u (.mat 2 (u.items.map pred)) batch =
      uncertainty Real.log argsort' m' u (.mat 2 (u.items.map pred)) batch := by
  rw [uncertainty_eq hm u (by norm_num), uncertainty_eq hm' u (by norm_num), List.map_map, List.map_map]
  refine byLargest_same_order ha ha' ?_ ?_ hb
  · intro x hx y hy h
    apply hne x hx y hy
    simp only [Function.comp_apply] at h
    rcases lt_trichotomy (Spec.confidence (pred x)) (Spec.confidence (pred y)) with hl | hl | hl
    · exact absurd h (score_conf (h2 y hy) (h2 x hx) hl).ne'
    · exact hl
    · exact absurd h (score_conf (h2 x hx) (h2 y hy) hl).ne
  · intro x hx y hy h
    simp only [Function.comp_apply] at h ⊢
    rcases lt_trichotomy (Spec.confidence (pred x)) (Spec.confidence (pred y)) with hl | hl | hl
    · exact absurd h (not_le.2 (score_conf (h2 y hy) (h2 x hx) hl))
    · have : x = y := hne x hx y hy hl
      rw [this]
    · exact (score_conf (h2 x hx) (h2 y hy) hl).le

/-- **C100** (partial, as above), with ties: whatever measure is used, no example is left out that has a smaller confidence than a selected one. -/
theorem C100_two_classes_ties_partial {argsort : List ℝ → List Nat} (ha : ∀ l, Spec.IsArgsort l (argsort l))
    {m : Measure} (hm : m ≠ .distance) {u : Coll α} (hu : u.items.Nodup) {rows : List (List ℝ)} (hl : rows.length = u.items.length)
    (h2 : ∀ r ∈ rows, Spec.TwoClasses r) {batch : Int} {r : List α} (hr : uncertainty Real.log argsort m u (.mat 2 rows) batch = .ok r) :
    Spec.NoneBetter u.items r (fun j i => ∃ rj ri, rows[j]? = some rj ∧ rows[i]? = some ri ∧ Spec.confidence rj < Spec.confidence ri) := by
  rw [uncertainty_eq hm u (by norm_num)] at hr
  rintro i j x y hi hj hx hy ⟨rj, ri, ej, ei, hlt⟩
  have key := byLargest_best ha hu (by simpa using hl) hr hi hj hx hy (a := scoreOf Real.log 2 m ri) (b := scoreOf Real.log 2 m rj)
    (by simp [ei]) (by simp [ej])
  exact absurd key (not_le.2 (score_conf (h2 ri (List.mem_of_getElem? ei)) (h2 rj (List.mem_of_getElem? ej)) hlt))

/-! ## A probability of zero -/

theorem log_ten : Real.log 10 < 2.8 := by
  have h : Real.log 10 < Real.log 16 := Real.log_lt_log (by norm_num) (by norm_num)
  rw [show (16:ℝ) = 2 ^ 4 by norm_num, Real.log_pow] at h
  have := Real.log_two_lt_d9
  push_cast at h
  linarith

theorem entropy_certain : -(part (1 / 10000000) + part (1 - 1 / 10000000)) < entropyScore Real.log (clip [0, 1]) := by
  have e : entropyScore Real.log (clip [0, 1]) = -(part (1 / 1000000) + part 1) := by
    unfold entropyScore clip part
    have : ¬ ((1:ℝ) ≤ 0) := by norm_num
    simp [this]
  rw [e]
  have l1 : -20 < Real.log (1 / 10000000 + 1 / 1000000000) := by
    have h1 : Real.log (1 / 10000000) < Real.log (1 / 10000000 + 1 / 1000000000) := Real.log_lt_log (by norm_num) (by norm_num)
    rw [one_div, Real.log_inv, show (10000000:ℝ) = 10 ^ 7 by norm_num, Real.log_pow] at h1
    have := log_ten
    push_cast at h1
    norm_num at h1 ⊢
    linarith
  have l2 : -(1 / 1000000) ≤ Real.log (1 - 1 / 10000000 + 1 / 1000000000) := by
    have := Real.one_sub_inv_le_log_of_pos (x := 1 - 1 / 10000000 + 1 / 1000000000) (by norm_num)
    refine le_trans ?_ this
    norm_num
  have l3 : Real.log (1 / 1000000 + 1 / 1000000000) < -13 := by
    have h1 : Real.log (1 / 1000000 + 1 / 1000000000) < Real.log (1 / 524288) := Real.log_lt_log (by norm_num) (by norm_num)
    rw [one_div 524288, Real.log_inv, show (524288:ℝ) = 2 ^ 19 by norm_num, Real.log_pow] at h1
    have := Real.log_two_gt_d9
    push_cast at h1
    linarith
  have l4 : Real.log (1 + 1 / 1000000000) ≤ 1 / 1000000000 := by
    have := Real.log_le_sub_one_of_pos (x := 1 + 1 / 1000000000) (by norm_num)
    linarith
  unfold part
  nlinarith

theorem pick_two {argsort : List ℝ → List Nat} (ha : ∀ l, Spec.IsArgsort l (argsort l)) {x y : α} (hxy : x ≠ y) {a b : ℝ} :
    (b < a → byLargest argsort (.list [x, y]) [a, b] 1 = .ok [x]) ∧ (a < b → byLargest argsort (.list [x, y]) [a, b] 1 = .ok [y]) := by
  classical
  obtain ⟨q, h1, h2, h3⟩ := byLargest_end ha (u := .list [x, y]) (f := fun z => if z = x then a else b) (batch := 1) (by norm_num) (by simp [Coll.items])
  have e : (Coll.list [x, y]).items.map (fun z => if z = x then a else b) = [a, b] := by simp [Coll.items, hxy.symm]
  rw [e] at h3
  have hq : q = [x, y] ∨ q = [y, x] := by
    have : q.Perm [x, y] := h1
    have hl := this.length_eq
    match q, hl, this with
    | [a, b], _, this =>
      have ha : a = x ∨ a = y := by simpa using this.mem_iff (a := a) |>.1 (by simp)
      rcases ha with rfl | rfl
      · left
        have := (List.perm_cons a).1 this
        rw [List.perm_singleton] at this
        rw [this]
      · right
        have := (List.perm_cons a).1 (this.trans (List.Perm.swap _ _ _))
        rw [List.perm_singleton] at this
        rw [this]
  constructor <;> intro hlt
  · rcases hq with rfl | rfl
    · simp [hxy.symm] at h2; linarith
    · simpa using h3
  · rcases hq with rfl | rfl
    · simpa using h3
    · simp [hxy.symm] at h2; linarith

/-- **C100**, fails for a probability of zero: an example whose class is certain is taken to be more uncertain, by `entropy`, than every example
with a probability of at most `1e-7` for one class — which `least_confident` and `margin` prefer. -/
theorem C100_certain_violation {argsort : List ℝ → List Nat} (ha : ∀ l, Spec.IsArgsort l (argsort l)) {x y : α} (hxy : x ≠ y) {p : ℝ} (h0 : 0 < p)
    (h1 : p ≤ 1 / 10000000) :
    uncertainty Real.log argsort .entropy (.list [x, y]) (.mat 2 [[0, 1], [p, 1 - p]]) 1 = .ok [x] ∧
    uncertainty Real.log argsort .leastConfident (.list [x, y]) (.mat 2 [[0, 1], [p, 1 - p]]) 1 = .ok [y] ∧
    uncertainty Real.log argsort .margin (.list [x, y]) (.mat 2 [[0, 1], [p, 1 - p]]) 1 = .ok [y] := by
  have hp1 : p < 1 := by linarith [show (1 / 10000000 : ℝ) < 1 by norm_num]
  have ht : Spec.TwoClasses [p, 1 - p] := ⟨p, h0, hp1, rfl⟩
  have hk0 : kth [(0:ℝ), 1] 1 = 1 ∧ kth [(0:ℝ), 1] 0 = 0 := by
    have := kth_two 0 1
    simpa using this
  have hc : Spec.confidence [p, 1 - p] < 1 := by
    rw [conf_two h0]; exact max_lt hp1 (by linarith)
  rw [uncertainty_eq (by decide) _ (by norm_num), uncertainty_eq (by decide) _ (by norm_num), uncertainty_eq (by decide) _ (by norm_num)]
  refine ⟨(pick_two ha hxy).1 ?_, (pick_two ha hxy).2 ?_, (pick_two ha hxy).2 ?_⟩
  · show entropyScore Real.log (clip [p, 1 - p]) < entropyScore Real.log (clip [0, 1])
    rw [entropy_two h0 hp1]
    refine lt_of_le_of_lt ?_ entropy_certain
    rcases eq_or_lt_of_le h1 with rfl | h
    · exact le_rfl
    · have := part_two h0.le h (by norm_num)
      linarith
  · show leastScore 2 [0, 1] < leastScore 2 [p, 1 - p]
    rw [least_two ht]
    unfold leastScore
    rw [hk0.1]; linarith
  · show marginScore 2 [0, 1] < marginScore 2 [p, 1 - p]
    rw [margin_two ht]
    unfold marginScore
    rw [hk0.1, hk0.2]; linarith

/-- Three examples with different confidences; the hypotheses of the theorem about two classes. -/
example {argsort argsort' : List ℝ → List Nat} (ha : ∀ l, Spec.IsArgsort l (argsort l)) (ha' : ∀ l, Spec.IsArgsort l (argsort' l)) :
    uncertainty Real.log argsort .entropy (.list [0, 1]) (.mat 2 [[3 / 4, 1 - 3 / 4], [3 / 5, 1 - 3 / 5]]) 1 =
      uncertainty Real.log argsort' .margin (.list [0, 1]) (.mat 2 [[3 / 4, 1 - 3 / 4], [3 / 5, 1 - 3 / 5]]) 1 := by
  have hp : ∀ x : Nat, x = 0 ∨ x = 1 → Spec.TwoClasses (if x = 0 then [3 / 4, 1 - 3 / 4] else [3 / 5, 1 - 3 / 5]) ∧
      Spec.confidence (if x = 0 then [3 / 4, 1 - 3 / 4] else [3 / 5, 1 - 3 / 5]) = (if x = 0 then 3 / 4 else 3 / 5) := by
    rintro x (rfl | rfl)
    · refine ⟨⟨3 / 4, by norm_num, by norm_num, rfl⟩, ?_⟩
      simp only [if_true]
      rw [conf_two (by norm_num)]; norm_num
    · refine ⟨⟨3 / 5, by norm_num, by norm_num, rfl⟩, ?_⟩
      simp only [one_ne_zero, if_false]
      rw [conf_two (by norm_num)]; norm_num
  refine C100_two_classes_partial ha ha' (by decide) (by decide) (u := .list [0, 1])
    (pred := fun x : Nat => if x = 0 then [3 / 4, 1 - 3 / 4] else [3 / 5, 1 - 3 / 5]) ?_ ?_ (by norm_num)
  · intro x hx
    exact (hp x (by simpa [Coll.items] using hx)).1
  · intro x hx y hy h
    have hx' : x = 0 ∨ x = 1 := by simpa [Coll.items] using hx
    have hy' : y = 0 ∨ y = 1 := by simpa [Coll.items] using hy
    rw [(hp x hx').2, (hp y hy').2] at h
    rcases hx' with rfl | rfl <;> rcases hy' with rfl | rfl <;> first | rfl | (exfalso; norm_num at h)

end Alipy.Select
