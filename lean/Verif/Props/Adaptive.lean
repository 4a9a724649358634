import Verif.Model.Adaptive
import Verif.Spec.Adaptive
import Verif.Props.BinaryRelevance
import Verif.Props.MultiLabelBatch
import Verif.Proof.Split
import Verif.Props.Peek
import Mathlib.Tactic.FieldSimp

/-! # C90: the values of Adaptive -/
namespace Alipy.Adaptive
open Alipy MLBatch

/-! ## Uncertainty -/

theorem posMin_cases : ∀ r : List ℝ, (∃ p : ℝ, posMin r = (p : WithTop ℝ) ∧ IsLeast {v | v ∈ r ∧ 0 < v} p) ∨ (posMin r = ⊤ ∧ ∀ v ∈ r, v ≤ 0)
  | [] => Or.inr ⟨rfl, by simp⟩
  | a :: r => by
    have hc : posMin (a :: r) = min (if a ≤ 0 then ⊤ else (a : WithTop ℝ)) (posMin r) := by unfold posMin; rw [List.map_cons, List.foldr_cons]
    rw [hc]
    rcases posMin_cases r with ⟨p, h1, ⟨h2, h2'⟩, h3⟩ | ⟨h1, h2⟩
    · left
      by_cases ha : a ≤ 0
      · refine ⟨p, by rw [if_pos ha, h1]; exact min_eq_right le_top, ⟨List.mem_cons_of_mem _ h2, h2'⟩, ?_⟩
        rintro v ⟨hv, hp⟩
        rcases List.mem_cons.1 hv with rfl | hv
        · exact absurd hp (not_lt.2 ha)
        · exact h3 ⟨hv, hp⟩
      · refine ⟨min a p, by rw [if_neg ha, h1]; exact (WithTop.coe_min a p).symm, ?_, ?_⟩
        · rcases min_choice a p with h | h
          · rw [h]; exact ⟨by simp, not_le.1 ha⟩
          · rw [h]; exact ⟨List.mem_cons_of_mem _ h2, h2'⟩
        · rintro v ⟨hv, hp⟩
          rcases List.mem_cons.1 hv with rfl | hv
          · exact min_le_left _ _
          · exact (min_le_right _ _).trans (h3 ⟨hv, hp⟩)
    · by_cases ha : a ≤ 0
      · right
        refine ⟨by rw [if_pos ha, h1]; exact min_self _, ?_⟩
        intro v hv
        rcases List.mem_cons.1 hv with rfl | hv
        · exact ha
        · exact h2 v hv
      · left
        refine ⟨a, by rw [if_neg ha, h1]; exact min_eq_left le_top, ⟨by simp, not_le.1 ha⟩, ?_⟩
        rintro v ⟨hv, hp⟩
        rcases List.mem_cons.1 hv with rfl | hv
        · exact le_refl _
        · exact absurd hp (not_lt.2 (h2 v hv))

theorem negMax_cases : ∀ r : List ℝ, (∃ p : ℝ, negMax r = (p : WithBot ℝ) ∧ IsGreatest {v | v ∈ r ∧ v < 0} p) ∨ (negMax r = ⊥ ∧ ∀ v ∈ r, 0 ≤ v)
  | [] => Or.inr ⟨rfl, by simp⟩
  | a :: r => by
    have hc : negMax (a :: r) = max (if 0 ≤ a then ⊥ else (a : WithBot ℝ)) (negMax r) := by unfold negMax; rw [List.map_cons, List.foldr_cons]
    rw [hc]
    rcases negMax_cases r with ⟨p, h1, ⟨h2, h2'⟩, h3⟩ | ⟨h1, h2⟩
    · left
      by_cases ha : 0 ≤ a
      · refine ⟨p, by rw [if_pos ha, h1]; exact max_eq_right bot_le, ⟨List.mem_cons_of_mem _ h2, h2'⟩, ?_⟩
        rintro v ⟨hv, hp⟩
        rcases List.mem_cons.1 hv with rfl | hv
        · exact absurd hp (not_lt.2 ha)
        · exact h3 ⟨hv, hp⟩
      · refine ⟨max a p, by rw [if_neg ha, h1]; exact (WithBot.coe_max a p).symm, ?_, ?_⟩
        · rcases max_choice a p with h | h
          · rw [h]; exact ⟨by simp, not_le.1 ha⟩
          · rw [h]; exact ⟨List.mem_cons_of_mem _ h2, h2'⟩
        · rintro v ⟨hv, hp⟩
          rcases List.mem_cons.1 hv with rfl | hv
          · exact le_max_left _ _
          · exact (h3 ⟨hv, hp⟩).trans (le_max_right _ _)
    · by_cases ha : 0 ≤ a
      · right
        refine ⟨by rw [if_pos ha, h1]; exact max_self _, ?_⟩
        intro v hv
        rcases List.mem_cons.1 hv with rfl | hv
        · exact ha
        · exact h2 v hv
      · left
        refine ⟨a, by rw [if_neg ha, h1]; exact max_eq_left bot_le, ⟨by simp, not_le.1 ha⟩, ?_⟩
        rintro v ⟨hv, hp⟩
        rcases List.mem_cons.1 hv with rfl | hv
        · exact le_refl _
        · exact absurd hp (not_lt.2 (h2 v hv))

/-- **C90** (uncertainty): it is the inverse of the separation margin, which is never 0. -/
theorem C90_uncertainty (r : List ℝ) : Spec.Uncertainty r (uncertainty r) := by
  rcases posMin_cases r with ⟨p, h1, h2⟩ | ⟨h1, h2⟩
  · rcases negMax_cases r with ⟨q, g1, g2⟩ | ⟨g1, g2⟩
    · left
      refine ⟨p - q, by linarith [h2.1.2, g2.1.2], ⟨p, q, h2, g2, rfl⟩, ?_⟩
      unfold uncertainty margin
      rw [h1, g1]
    · right
      refine ⟨Or.inr g2, ?_⟩
      unfold uncertainty margin
      rw [h1, g1]
  · right
    refine ⟨Or.inl h2, ?_⟩
    unfold uncertainty margin
    rw [h1]

theorem uncertainty_nonneg (r : List ℝ) : 0 ≤ uncertainty r := by
  rcases C90_uncertainty r with ⟨m, h1, _, h3⟩ | ⟨_, h⟩
  · rw [h3]; positivity
  · rw [h]

/-! ## Cardinality -/

/-- A row of `L` labels which are `lo` or 1. -/
def Coded (lo : Int) (L : Nat) (r : List Int) : Prop := r.length = L ∧ ∀ v ∈ r, v = lo ∨ v = 1

theorem sum_coded {lo : Int} (hlo : lo ≤ 0) : ∀ {L : Nat} {r : List Int}, Coded lo L r → r.sum = lo * L + (1 - lo) * (Spec.size r : Int)
  | _, [], ⟨h, _⟩ => by subst h; simp [Spec.size]
  | 0, a :: r, ⟨h, _⟩ => by simp at h
  | L + 1, a :: r, ⟨h, hr⟩ => by
    have ih := sum_coded hlo (L := L) (r := r) ⟨by simpa using h, fun v hv => hr v (List.mem_cons_of_mem _ hv)⟩
    rw [List.sum_cons, ih]
    unfold Spec.size
    rw [List.countP_cons]
    rcases hr a (by simp) with rfl | rfl
    · rw [if_neg (by simpa using hlo)]; push_cast; ring
    · rw [if_pos (by simp)]; push_cast; ring

theorem column_sums (L : Nat) : ∀ {Y : List (List Int)}, (∀ r ∈ Y, r.length = L) →
    ((List.range L).map (fun i => ((BR.column Y i).map (fun v : Int => (v : ℝ))).sum)).sum = ((Y.map (fun r => ((r.sum : Int) : ℝ))).sum)
  | [], _ => by simp [BR.column]
  | r :: Y, h => by
    have ih := column_sums L (Y := Y) (fun s hs => h s (List.mem_cons_of_mem _ hs))
    simp only [BR.column, List.map_cons, List.sum_cons] at ih ⊢
    rw [List.sum_map_add, ih]
    congr 1
    have hr : r = (List.range L).map (fun i => r.getD i 0) := by
      apply List.ext_getElem
      · simp [h r (by simp)]
      · intro i h1 h2
        simp [List.getD_eq_getElem?_getD, h1]
    conv_rhs => rw [hr]
    generalize (List.range L) = l
    induction l with
    | nil => simp
    | cons a l ih => rw [List.map_cons, List.sum_cons, List.map_cons, List.sum_cons, ih]; push_cast; rfl

theorem averagePos_eq {lo : Int} (hlo : lo ≤ 0) {L : Nat} {Y : List (List Int)} (hne : Y ≠ []) (h : ∀ r ∈ Y, Coded lo L r) :
    averagePos L Y = lo * L + (1 - lo) * Spec.averageSize Y := by
  unfold averagePos
  have e : ∀ (l : List Nat) (f : Nat → ℝ) (c : ℝ), (l.map (fun i => f i / c)).sum = (l.map f).sum / c := by
    intro l f c
    induction l with
    | nil => simp
    | cons a l ih => simp [ih, add_div]
  rw [e, column_sums L (fun r hr => (h r hr).1)]
  have hn : (Y.length : ℝ) ≠ 0 := by
    have := List.length_pos_iff.2 hne
    positivity
  unfold Spec.averageSize
  field_simp
  clear hne hn e
  induction Y with
  | nil => simp
  | cons r Y ih =>
    have ih := ih (fun s hs => h s (List.mem_cons_of_mem _ hs))
    have hs := sum_coded hlo (h r (by simp))
    simp only [List.map_cons, List.sum_cons, List.length_cons]
    rw [ih, hs]
    push_cast
    ring

/-- **C90** (cardinality): for labels 0 and 1 (`lo` is 0) the second measure is the difference between the number of predicted labels and the average number
of labels of the labelled examples; for labels -1 and 1 it is twice this. -/
theorem C90_cardinality {lo : Int} (hlo : lo ≤ 0) {L : Nat} {Y : List (List Int)} (hne : Y ≠ []) (h : ∀ r ∈ Y, Coded lo L r) {p : List Int} (hp : Coded lo L p) :
    cardinality (averagePos L Y) p = (1 - lo) * |(Spec.size p : ℝ) - Spec.averageSize Y| := by
  unfold cardinality
  rw [Real.sqrt_sq_eq_abs, averagePos_eq hlo hne h, sum_coded hlo hp]
  have hp : (0 : ℝ) ≤ 1 - (lo : ℝ) := by
    have : (lo : ℝ) ≤ 0 := by exact_mod_cast hlo
    linarith
  rw [← abs_of_nonneg hp, ← abs_mul, abs_of_nonneg hp]
  congr 1
  push_cast
  ring

/-! ## The estimated error -/

theorem foldl_max_spec : ∀ (l : List ℝ) (a : ℝ), IsGreatest {v | v ∈ a :: l} (l.foldl max a)
  | [], a => ⟨by simp, by intro v hv; simp at hv; simp [hv]⟩
  | b :: l, a => by
    obtain ⟨h1, h2⟩ := foldl_max_spec l (max a b)
    simp only [List.foldl_cons]
    refine ⟨?_, ?_⟩
    · simp only [Set.mem_ofPred_eq, List.mem_cons] at h1 ⊢
      rcases h1 with h1 | h1
      · rcases max_choice a b with h | h
        · left; rw [h1, h]
        · right; left; rw [h1, h]
      · right; right; exact h1
    · intro v hv
      simp only [Set.mem_ofPred_eq, List.mem_cons] at hv
      rcases hv with rfl | rfl | hv
      · exact (le_max_left v b).trans (h2 (by simp))
      · exact (le_max_right a v).trans (h2 (by simp))
      · exact h2 (by simp [hv])

theorem clippedMax_spec {r : List ℝ} (hne : r ≠ []) : IsGreatest ({0} ∪ {v | v ∈ r}) (clippedMax r) := by
  cases r with
  | nil => exact absurd rfl hne
  | cons a l =>
    obtain ⟨h1, h2⟩ := foldl_max_spec l a
    have e : clippedMax (a :: l) = if l.foldl max a < 0 then 0 else l.foldl max a := rfl
    rw [e]
    by_cases h : l.foldl max a < 0
    · rw [if_pos h]
      refine ⟨Or.inl rfl, ?_⟩
      rintro v (rfl | hv)
      · exact le_refl _
      · exact (h2 hv).trans h.le
    · rw [if_neg h]
      refine ⟨Or.inr h1, ?_⟩
      rintro v (rfl | hv)
      · exact not_lt.1 h
      · exact h2 hv

/-- **C90** (estimated error of an example): the hinge losses of the worst positive and of the worst negative label. -/
theorem C90_error {r : List ℝ} (hne : r ≠ []) : Spec.Hinge r (rowErr r) := by
  have hp := clippedMax_spec (r := r.map (fun v => 1 - (if v < 0 then 1 else v))) (by simpa using hne)
  have hn := clippedMax_spec (r := r.map (fun v => 1 + (if 0 < v then -1 else v))) (by simpa using hne)
  refine ⟨_, _, ?_, ?_, add_comm _ _⟩
  · convert hp using 1
    ext x
    simp only [Set.mem_union, Set.mem_singleton_iff, Set.mem_ofPred_eq, List.mem_map]
    constructor
    · rintro (h | ⟨v, hv, h0, rfl⟩)
      · exact Or.inl h
      · exact Or.inr ⟨v, hv, by rw [if_neg (not_lt.2 h0)]⟩
    · rintro (h | ⟨v, hv, rfl⟩)
      · exact Or.inl h
      · split_ifs with h0
        · left; ring
        · exact Or.inr ⟨v, hv, not_lt.1 h0, rfl⟩
  · convert hn using 1
    ext x
    simp only [Set.mem_union, Set.mem_singleton_iff, Set.mem_ofPred_eq, List.mem_map]
    constructor
    · rintro (h | ⟨v, hv, h0, rfl⟩)
      · exact Or.inl h
      · exact Or.inr ⟨v, hv, by rw [if_neg (not_lt.2 h0)]⟩
    · rintro (h | ⟨v, hv, rfl⟩)
      · exact Or.inl h
      · split_ifs with h0
        · left; ring
        · exact Or.inr ⟨v, hv, not_lt.1 h0, rfl⟩

theorem total_err : ∀ {real : List (List ℝ)}, (∀ r ∈ real, r ≠ []) → Spec.TotalErr real ((real.map rowErr).sum)
  | [], _ => ⟨[], .nil, rfl⟩
  | r :: real, h => by
    obtain ⟨es, h1, h2⟩ := total_err (real := real) (fun s hs => h s (List.mem_cons_of_mem _ hs))
    exact ⟨rowErr r :: es, .cons (C90_error (h r (by simp))) h1, by simp [h2]⟩

/-! ## The choice -/

/-- The error estimated for a candidate `k`: the model is trained with the labelled examples and example `k` of the pool with its predicted labels, and its
errors on the pool are added. -/
def Retrained (base : BR.Base ℝ) (X : Int → List ℝ) (cols labels : Nat) (lab unl : List Int) (Yl pred : List (List Int)) (k : Nat) (e : ℝ) : Prop :=
  ∃ i p t real, unl[k]? = some i ∧ pred[k]? = some p ∧ BR.train base ⟨cols, lab.map X ++ [X i]⟩ labels (Yl ++ [p]) = .ok t ∧
    BR.predictReal (some t) ⟨cols, unl.map X⟩ = .ok real ∧ Spec.TotalErr real e

theorem real_rows {base : BR.Base ℝ} {F G : BR.Feat ℝ} {labels : Nat} {Y : List (List Int)} {t : BR.Trained ℝ} (ht : BR.train base F labels Y = .ok t) {real : List (List ℝ)}
    (hr : BR.predictReal (some t) G = .ok real) : real.length = G.rows.length ∧ ∀ r ∈ real, r.length = labels := by
  obtain ⟨_, hl, _⟩ := BR.train_member ht
  obtain ⟨h1, h2⟩ := BR.answers_entries hr
  refine ⟨h1, ?_⟩
  intro r hr
  obtain ⟨k, hk, rfl⟩ := List.getElem_of_mem hr
  obtain ⟨row, e, el, _⟩ := h2 k (G.rows[k]'(h1 ▸ hk)) (by simp)
  rw [List.getElem?_eq_getElem hk] at e
  cases e
  exact el.trans hl

theorem err_retrained {base : BR.Base ℝ} {X : Int → List ℝ} {cols labels : Nat} (hL : labels ≠ 0) {lab unl : List Int} {Yl pred : List (List Int)} {k : Nat} (hk : k < unl.length)
    (hkp : k < pred.length) {e : ℝ} (h : approxErr base X cols labels lab unl Yl pred k = .ok e) : Retrained base X cols labels lab unl Yl pred k e := by
  unfold approxErr at h
  split at h
  · cases h
  rename_i t ht
  split at h
  · cases h
  rename_i real hr
  cases h
  rw [List.getD_eq_getElem _ _ hk, List.getD_eq_getElem _ _ hkp] at ht
  refine ⟨unl[k], pred[k], t, real, List.getElem?_eq_getElem hk, List.getElem?_eq_getElem hkp, ht, hr, total_err ?_⟩
  intro r hr'
  have := (real_rows ht hr).2 r hr'
  rintro rfl
  exact hL this.symm

theorem member_coded {base : BR.Base ℝ} {F : BR.Feat ℝ} {lo : Int} {L : Nat} {Y : List (List Int)} (hne : Y ≠ []) (hY : ∀ r ∈ Y, Coded lo L r)
    (hfit : ∀ col c, col ≠ [] → base.fit F col = .ok c → ∀ x, c.label x ∈ col) {i : Nat} (hi : i < L) {m : BR.Member ℝ} (hm : BR.member base F (BR.column Y i) = .ok m) (x : List ℝ) :
    m.label x = lo ∨ m.label x = 1 := by
  have hcol : ∀ v ∈ BR.column Y i, v = lo ∨ v = 1 := by
    intro v hv
    obtain ⟨r, hr, rfl⟩ := List.mem_map.1 hv
    have hl : i < r.length := by rw [(hY r hr).1]; exact hi
    rw [List.getD_eq_getElem _ _ hl]
    exact (hY r hr).2 _ (List.getElem_mem hl)
  unfold BR.member at hm
  split_ifs at hm
  · cases hm
    apply hcol
    cases hY' : Y with
    | nil => exact absurd hY' hne
    | cons r Y' => simp [BR.column, BR.Member.label]
  · split at hm
    · cases hm
    · rename_i c hc
      cases hm
      exact hcol _ (hfit _ _ (by simpa [BR.column] using hne) hc x)

theorem pred_coded {base : BR.Base ℝ} {F G : BR.Feat ℝ} {lo : Int} {L : Nat} {Y : List (List Int)} (hne : Y ≠ []) (hY : ∀ r ∈ Y, Coded lo L r)
    (hfit : ∀ col c, col ≠ [] → base.fit F col = .ok c → ∀ x, c.label x ∈ col) {t : BR.Trained ℝ} (ht : BR.train base F L Y = .ok t) {pred : List (List Int)}
    (hp : BR.predict (some t) G = .ok pred) : pred.length = G.rows.length ∧ ∀ p ∈ pred, Coded lo L p := by
  obtain ⟨_, hl, hm⟩ := BR.train_member ht
  obtain ⟨h1, h2⟩ := BR.answers_entries hp
  refine ⟨h1, ?_⟩
  intro r hr
  obtain ⟨k, hk, rfl⟩ := List.getElem_of_mem hr
  obtain ⟨row, e, el, hv⟩ := h2 k (G.rows[k]'(h1 ▸ hk)) (by simp)
  rw [List.getElem?_eq_getElem hk] at e
  cases e
  refine ⟨el.trans hl, ?_⟩
  intro v hv'
  obtain ⟨i, hi, rfl⟩ := List.getElem_of_mem hv'
  obtain ⟨m, hm1, hm2⟩ := hv i _ (List.getElem?_eq_getElem hi)
  obtain ⟨m', g1, g2⟩ := hm i (by rw [← hl]; exact (List.getElem?_eq_some_iff.1 hm1).1)
  rw [hm1] at g1
  cases g1
  have := member_coded hne hY hfit (by rw [← hl]; exact (List.getElem?_eq_some_iff.1 hm1).1) g2 (G.rows[k]'(h1 ▸ hk))
  injection hm2 with hm2
  rw [hm2] at this
  exact this

theorem score_scale {k c : ℝ} (hk : 0 < k) (hc : 0 ≤ c) (b u : ℝ) : score b u (k * c) = k ^ (1 - b) * score b u c := by
  unfold score
  rw [Real.mul_rpow hk.le hc]
  ring

/-- The difference between the number of predicted labels and the average number of labels, for all examples of the pool. -/
noncomputable def gaps (Yl pred : List (List Int)) : List ℝ := pred.map (fun p => |(Spec.size p : ℝ) - Spec.averageSize Yl|)

theorem best_iff {lo : Int} (hlo : lo ≤ 0) {L : Nat} {Yl : List (List Int)} (hne : Yl ≠ []) (hY : ∀ r ∈ Yl, Coded lo L r) {pred : List (List Int)} (hp : ∀ p ∈ pred, Coded lo L p)
    {real : List (List ℝ)} (hlen : real.length = pred.length) (b : ℝ) (k : Nat) :
    Spec.BestFor b (real.map uncertainty) (gaps Yl pred) k ↔
      ∃ h : k < (List.zipWith (fun r p => score b (uncertainty r) (cardinality (averagePos L Yl) p)) real pred).length,
        ∀ w ∈ List.zipWith (fun r p => score b (uncertainty r) (cardinality (averagePos L Yl) p)) real pred,
          w ≤ (List.zipWith (fun r p => score b (uncertainty r) (cardinality (averagePos L Yl) p)) real pred)[k] := by
  have hpos : (0 : ℝ) < 1 - (lo : ℝ) := by
    have : (lo : ℝ) ≤ 0 := by exact_mod_cast hlo
    linarith
  have hval : ∀ j (h1 : j < real.length) (h2 : j < pred.length), score b (uncertainty real[j]) (cardinality (averagePos L Yl) pred[j]) =
      (1 - (lo : ℝ)) ^ (1 - b) * ((real.map uncertainty).getD j 0 ^ b * (gaps Yl pred).getD j 0 ^ (1 - b)) := by
    intro j h1 h2
    rw [C90_cardinality hlo hne hY (hp _ (List.getElem_mem h2)), score_scale hpos (abs_nonneg _)]
    unfold score gaps
    rw [List.getD_eq_getElem _ _ (by simpa using h1), List.getD_eq_getElem _ _ (by simpa using h2)]
    simp
  have hk := Real.rpow_pos_of_pos hpos (1 - b)
  constructor
  · rintro ⟨h1, h2⟩
    simp only [List.length_map] at h1 h2
    refine ⟨by simp [← hlen, h1], ?_⟩
    intro w hw
    obtain ⟨j, hj, rfl⟩ := List.getElem_of_mem hw
    simp only [List.length_zipWith, lt_min_iff] at hj
    rw [List.getElem_zipWith, List.getElem_zipWith, hval j hj.1 hj.2, hval k h1 (hlen ▸ h1)]
    exact mul_le_mul_of_nonneg_left (h2 j hj.1) hk.le
  · rintro ⟨h1, h2⟩
    simp only [List.length_zipWith, lt_min_iff] at h1
    refine ⟨by simpa using h1.1, ?_⟩
    intro j hj
    simp only [List.length_map] at hj
    have := h2 (score b (uncertainty real[j]) (cardinality (averagePos L Yl) (pred[j]'(hlen ▸ hj))))
      (List.mem_iff_getElem.2 ⟨j, by simp [← hlen, hj], by simp⟩)
    rw [List.getElem_zipWith, hval j hj (hlen ▸ hj), hval k h1.1 h1.2] at this
    exact le_of_mul_le_mul_left this hk

/-- **C90** (the choice): let the labels be 0 and 1, or -1 and 1. If `sequential_select` returns, then the example chosen is best for one of the trade-offs between uncertainty
and inconsistent number of labels, and among all that are best for some trade-off it has the smallest estimated error. No example of the pool is both more uncertain and more
inconsistent. -/
theorem C90_select_partial {base : BR.Base ℝ} {betas : List ℝ} (hb : ∀ b ∈ betas, 0 ≤ b ∧ b ≤ 1) {order : List Nat → List Nat} (hord : ∀ l, (order l).Perm l)
    {choose : List Nat → Nat} (hch : ∀ l : List Nat, l ≠ [] → choose l ∈ l) {X : Int → List ℝ} {cols labels : Nat} {lab unl : List Int} (hlab : lab ≠ [])
    {Y : List (List Int)} {lo : Int} (hlo : lo = 0 ∨ lo = -1) (hY : ∀ r ∈ Y, Coded lo labels r) (hbase : ∀ F col c, base.fit F col = .ok c → ∀ x, c.label x ∈ col)
    (hunl : unl ≠ []) {k : Nat} (h : select base betas order choose X cols labels lab unl Y = .ok k) :
    ∃ Yl t real pred, pyAtAll Y lab = .ok Yl ∧ BR.train base ⟨cols, lab.map X⟩ labels Yl = .ok t ∧ BR.predictReal (some t) ⟨cols, unl.map X⟩ = .ok real ∧
      BR.predict (some t) ⟨cols, unl.map X⟩ = .ok pred ∧ k < unl.length ∧
      ∃ u, List.Forall₂ Spec.Uncertainty real u ∧ (∃ b ∈ betas, Spec.BestFor b u (gaps Yl pred) k) ∧
        (∀ j < unl.length, ¬ (u.getD k 0 < u.getD j 0 ∧ (gaps Yl pred).getD k 0 < (gaps Yl pred).getD j 0)) ∧
        ∃ e, Retrained base X cols labels lab unl Yl pred k e ∧
          ∀ b ∈ betas, ∀ j, Spec.BestFor b u (gaps Yl pred) j → ∃ e', Retrained base X cols labels lab unl Yl pred j e' ∧ e ≤ e' := by
  unfold select at h
  split at h
  · cases h
  rename_i Yl hYl
  split at h
  · cases h
  rename_i t ht
  split at h
  · cases h
  rename_i real hreal
  split at h
  · cases h
  rename_i pred hpred
  split_ifs at h with hL
  dsimp only at h
  split at h
  · cases h
  rename_i errs herrs
  have hlo' : lo ≤ 0 := by rcases hlo with rfl | rfl <;> decide
  have hinv := pyAtAll_inv hYl
  have hYl0 : Yl ≠ [] := by
    rintro rfl
    cases hinv
    exact hlab rfl
  have hYlc : ∀ r ∈ Yl, Coded lo labels r := by
    intro r hr
    obtain ⟨i, hi, rfl⟩ := List.getElem_of_mem hr
    have := (List.forall₂_iff_get.1 hinv).2 i (by rw [hinv.length_eq]; exact hi) hi
    exact hY _ (Peek.pyAt_elem this)
  obtain ⟨hr1, hr2⟩ := real_rows ht hreal
  obtain ⟨hp1, hp2⟩ := pred_coded hYl0 hYlc (fun col c _ => hbase _ col c) ht hpred
  simp only [List.length_map] at hr1 hp1
  have hlen : real.length = pred.length := hr1.trans hp1.symm
  have hbi := best_iff hlo' hYl0 hYlc hp2 hlen
  have hscne : scores betas labels Yl real pred ≠ [] := by
    intro h0
    rw [h0] at h
    have hn : order [] = [] := List.perm_nil.1 (hord [])
    simp [adaptiveAsk, candidates, List.eraseDups_nil, hn] at h
  have hsne : ∀ s ∈ scores betas labels Yl real pred, s ≠ [] := by
    intro s hs
    obtain ⟨b, _, rfl⟩ := List.mem_map.1 hs
    rw [← List.length_pos_iff, List.length_zipWith, ← hlen, min_self, hr1]
    exact List.length_pos_iff.2 hunl
  obtain ⟨k', hk', hbest, hmin⟩ := C69_adaptive order hord choose hch hscne hsne (fun k => valueOf (approxErr base X cols labels lab unl Yl pred k))
  rw [hk'] at h
  cases h
  have hcand : ∀ b ∈ betas, ∀ j, Spec.BestFor b (real.map uncertainty) (gaps Yl pred) j → j ∈ candidates order (scores betas labels Yl real pred) := by
    intro b hb j hj
    unfold candidates
    rw [(hord _).mem_iff, List.mem_eraseDups, List.mem_flatten]
    exact ⟨_, List.mem_map_of_mem (List.mem_map_of_mem hb), mem_argmaxes.2 ((hbi b j).1 hj)⟩
  have herr : ∀ b ∈ betas, ∀ j, Spec.BestFor b (real.map uncertainty) (gaps Yl pred) j → ∃ e, approxErr base X cols labels lab unl Yl pred j = .ok e := by
    intro b hb j hj
    obtain ⟨i, hi, e⟩ := List.getElem_of_mem (hcand b hb j hj)
    obtain ⟨v, _, hv⟩ := (BR.mapM_some herrs).2 i j (by rw [← e]; simp)
    exact ⟨v, hv⟩
  obtain ⟨s, hs, hks, hbs⟩ := hbest
  obtain ⟨b, hbm, rfl⟩ := List.mem_map.1 hs
  have hbk : Spec.BestFor b (real.map uncertainty) (gaps Yl pred) k := (hbi b k).2 ⟨hks, hbs⟩
  have hlt : ∀ b j, Spec.BestFor b (real.map uncertainty) (gaps Yl pred) j → j < unl.length := by
    intro b j hj
    have := hj.1
    rwa [List.length_map, hr1] at this
  obtain ⟨e, he⟩ := herr b hbm k hbk
  refine ⟨Yl, t, real, pred, hYl, ht, hreal, hpred, hlt b k hbk, real.map uncertainty, ?_, ⟨b, hbm, hbk⟩, ?_, e,
    err_retrained hL (hlt b k hbk) (by rw [hp1]; exact hlt b k hbk) he, ?_⟩
  · rw [List.forall₂_map_right_iff]
    exact List.forall₂_same.2 (fun r _ => C90_uncertainty r)
  · rintro j hj ⟨hu, hc⟩
    have h1 := hbk.2 j (by rw [List.length_map, hr1]; exact hj)
    obtain ⟨b0, b1⟩ := hb b hbm
    have hu0 : 0 ≤ (real.map uncertainty).getD k 0 := by
      rw [List.getD_eq_getElem _ _ hbk.1, List.getElem_map]
      exact uncertainty_nonneg _
    have hc0 : 0 ≤ (gaps Yl pred).getD k 0 := by
      unfold gaps
      rw [List.getD_eq_getElem _ _ (by rw [List.length_map, hp1]; exact hlt b k hbk), List.getElem_map]
      exact abs_nonneg _
    generalize (real.map uncertainty).getD k 0 = u at *
    generalize (real.map uncertainty).getD j 0 = u' at *
    generalize (gaps Yl pred).getD k 0 = c at *
    generalize (gaps Yl pred).getD j 0 = c' at *
    rcases b0.eq_or_lt with rfl | b0
    · simp at h1
      linarith
    · have g1 : u ^ b < u' ^ b := Real.rpow_lt_rpow hu0 hu b0
      have g2 : c ^ (1 - b) ≤ c' ^ (1 - b) := Real.rpow_le_rpow hc0 hc.le (by linarith)
      have g3 : 0 < c' ^ (1 - b) := Real.rpow_pos_of_pos (lt_of_le_of_lt hc0 hc) _
      have g4 : 0 ≤ u ^ b := Real.rpow_nonneg hu0 _
      have : u ^ b * c ^ (1 - b) < u' ^ b * c' ^ (1 - b) :=
        lt_of_le_of_lt (mul_le_mul_of_nonneg_left g2 g4) (mul_lt_mul_of_pos_right g1 g3)
      linarith
  · intro b' hb' j hj
    obtain ⟨e', he'⟩ := herr b' hb' j hj
    refine ⟨e', err_retrained hL (hlt b' j hj) (by rw [hp1]; exact hlt b' j hj) he', ?_⟩
    obtain ⟨g1, g2⟩ := (hbi b' j).1 hj
    have := hmin _ (List.mem_map_of_mem hb') j g1 g2
    simpa only [he, he', valueOf] using this

theorem real_ok {base : BR.Base ℝ} {F G : BR.Feat ℝ} {lo : Int} (hlo : lo = 0 ∨ lo = -1) {L : Nat} {Y : List (List Int)} (hne : Y ≠ []) (hY : ∀ r ∈ Y, Coded lo L r)
    (hbase : ∀ F col, col ≠ [] → ∃ c, base.fit F col = .ok c ∧ ∀ x, c.label x ∈ col ∧ ∃ v, c.decision x = .value v) (hcols : G.cols = F.cols) :
    ∃ t real pred, BR.train base F L Y = .ok t ∧ BR.predictReal (some t) G = .ok real ∧ BR.predict (some t) G = .ok pred := by
  have hcne : ∀ i, BR.column Y i ≠ [] := fun i => by simpa [BR.column] using hne
  have hmem : ∀ i, ∃ m, BR.member base F (BR.column Y i) = .ok m := by
    intro i
    unfold BR.member
    split_ifs
    · exact ⟨_, rfl⟩
    · obtain ⟨c, hc, _⟩ := hbase F (BR.column Y i) (hcne i)
      exact ⟨_, by rw [hc]⟩
  obtain ⟨ms, hms⟩ := BR.mapM_ok_of (f := fun i => BR.member base F (BR.column Y i)) (l := List.range L) (fun i _ => hmem i)
  have ht : BR.train base F L Y = .ok ⟨F.cols, ms⟩ := by unfold BR.train; rw [hms]
  obtain ⟨_, hl, hm⟩ := BR.train_member ht
  have hreal : ∀ m ∈ ms, ∀ x : List ℝ, ∃ v, m.real x = .ok v := by
    intro m hmm x
    obtain ⟨i, hi, rfl⟩ := List.getElem_of_mem hmm
    have hiL : i < L := by rw [← hl]; exact hi
    obtain ⟨m', g1, g2⟩ := hm i hiL
    simp only [List.getElem?_eq_getElem hi, Option.some.injEq] at g1
    rw [g1]
    have hlabel := member_coded (x := x) hne hY (F := F) (base := base) (fun col c h0 hc x => by
      obtain ⟨c', hc', h'⟩ := hbase F col h0
      rw [hc] at hc'
      cases hc'
      exact (h' x).1) hiL g2
    unfold BR.member at g2
    split_ifs at g2
    · cases g2
      simp only [BR.Member.label] at hlabel
      simp only [BR.Member.real]
      generalize (BR.column Y i).headD 0 = z at hlabel
      rcases hlabel with rfl | rfl
      · rcases hlo with rfl | rfl
        · exact ⟨_, rfl⟩
        · exact ⟨_, rfl⟩
      · exact ⟨_, rfl⟩
    · obtain ⟨c, hc, hd⟩ := hbase F (BR.column Y i) (hcne i)
      rw [hc] at g2
      cases g2
      obtain ⟨v, hv⟩ := (hd x).2
      cases hk : base.kind
      · exact ⟨v, by simp [BR.Member.real, hv, BR.second]⟩
      · exact ⟨v, by simp [BR.Member.real, hv, BR.second]⟩
      · exact ⟨0, rfl⟩
  obtain ⟨real, h1⟩ := BR.answers_ok (t := ⟨F.cols, ms⟩) (X := G) (f := BR.Member.real) hcols (fun m hm x _ => hreal m hm x)
  obtain ⟨pred, h2⟩ := BR.answers_ok (t := ⟨F.cols, ms⟩) (X := G) (f := fun m x => .ok (m.label x)) hcols (fun m hm x _ => ⟨_, rfl⟩)
  exact ⟨_, real, pred, ht, h1, h2⟩

/-- **C90** (it returns): with valid indexes, at least one label and one trade-off, and a base classifier which can be trained with any labels, an example is chosen. -/
theorem C90_returns {base : BR.Base ℝ} {betas : List ℝ} (hb : betas ≠ []) {order : List Nat → List Nat} (hord : ∀ l, (order l).Perm l)
    {choose : List Nat → Nat} (hch : ∀ l : List Nat, l ≠ [] → choose l ∈ l) {X : Int → List ℝ} {cols labels : Nat} (hL : 0 < labels) {lab unl : List Int} (hlab : lab ≠ [])
    {Y : List (List Int)} {lo : Int} (hlo : lo = 0 ∨ lo = -1) (hY : ∀ r ∈ Y, Coded lo labels r) (hin : ∀ i ∈ lab, 0 ≤ i ∧ i < (Y.length : Int))
    (hbase : ∀ F col, col ≠ [] → ∃ c, base.fit F col = .ok c ∧ ∀ x, c.label x ∈ col ∧ ∃ v, c.decision x = .value v) (hunl : unl ≠ []) :
    ∃ k, select base betas order choose X cols labels lab unl Y = .ok k := by
  have hYl : ∀ {l : List Int}, (∀ i ∈ l, 0 ≤ i ∧ i < (Y.length : Int)) → ∃ vs, pyAtAll Y l = .ok vs := by
    intro l
    induction l with
    | nil => intro _; exact ⟨[], rfl⟩
    | cons i l ih =>
      intro h
      obtain ⟨vs, hvs⟩ := ih (fun j hj => h j (List.mem_cons_of_mem _ hj))
      obtain ⟨h0, h1⟩ := h i (by simp)
      obtain ⟨n, rfl⟩ := Int.eq_ofNat_of_zero_le h0
      have hn : n < Y.length := by exact_mod_cast h1
      refine ⟨Y[n] :: vs, ?_⟩
      have : pyAt Y (n : Int) = some Y[n] := by simp [pyAt, hn]
      simp only [pyAtAll, this, hvs, Except.map]
  obtain ⟨Yl, hYl⟩ := hYl hin
  have hinv := pyAtAll_inv hYl
  have hYl0 : Yl ≠ [] := by
    rintro rfl
    cases hinv
    exact hlab rfl
  have hYlc : ∀ r ∈ Yl, Coded lo labels r := by
    intro r hr
    obtain ⟨i, hi, rfl⟩ := List.getElem_of_mem hr
    have := (List.forall₂_iff_get.1 hinv).2 i (by rw [hinv.length_eq]; exact hi) hi
    exact hY _ (Peek.pyAt_elem this)
  obtain ⟨t, real, pred, ht, hreal, hpred⟩ := real_ok (F := ⟨cols, lab.map X⟩) (G := ⟨cols, unl.map X⟩) hlo hYl0 hYlc hbase rfl
  have hfit : ∀ col c, col ≠ [] → base.fit ⟨cols, lab.map X⟩ col = .ok c → ∀ x, c.label x ∈ col := by
    intro col c h0 hc x
    obtain ⟨c', hc', h'⟩ := hbase ⟨cols, lab.map X⟩ col h0
    rw [hc] at hc'
    cases hc'
    exact (h' x).1
  obtain ⟨hr1, _⟩ := real_rows ht hreal
  obtain ⟨hp1, hp2⟩ := pred_coded hYl0 hYlc hfit ht hpred
  simp only [List.length_map] at hr1 hp1
  have hsne : ∀ s ∈ scores betas labels Yl real pred, s ≠ [] ∧ s.length = unl.length := by
    intro s hs
    obtain ⟨b, _, rfl⟩ := List.mem_map.1 hs
    have : (List.zipWith (fun r p => score b (uncertainty r) (cardinality (averagePos labels Yl) p)) real pred).length = unl.length := by
      rw [List.length_zipWith, hr1, hp1, min_self]
    refine ⟨?_, this⟩
    rw [← List.length_pos_iff, this]
    exact List.length_pos_iff.2 hunl
  have hcand : ∀ k ∈ candidates order (scores betas labels Yl real pred), ∃ e, approxErr base X cols labels lab unl Yl pred k = .ok e := by
    intro k hk
    unfold candidates at hk
    rw [(hord _).mem_iff, List.mem_eraseDups, List.mem_flatten] at hk
    obtain ⟨l, hl, hkl⟩ := hk
    obtain ⟨s, hs, rfl⟩ := List.mem_map.1 hl
    obtain ⟨hks, _⟩ := mem_argmaxes.1 hkl
    rw [(hsne s hs).2] at hks
    unfold approxErr
    have hc : ∀ r ∈ Yl ++ [pred.getD k []], Coded lo labels r := by
      intro r hr
      rcases List.mem_append.1 hr with hr | hr
      · exact hYlc r hr
      · rw [List.mem_singleton.1 hr, List.getD_eq_getElem _ _ (by rw [hp1]; exact hks)]
        exact hp2 _ (List.getElem_mem _)
    obtain ⟨t', real', _, ht', hreal', _⟩ := real_ok (F := ⟨cols, lab.map X ++ [X (unl.getD k 0)]⟩) (G := ⟨cols, unl.map X⟩) hlo (by simp) hc hbase rfl
    rw [ht']
    dsimp only
    rw [hreal']
    exact ⟨_, rfl⟩
  obtain ⟨errs, herrs⟩ := BR.mapM_ok_of hcand
  obtain ⟨k, hk, _⟩ := C69_adaptive order hord choose hch (scores := scores betas labels Yl real pred) (by simpa [scores] using hb) (fun s hs => (hsne s hs).1)
    (fun k => valueOf (approxErr base X cols labels lab unl Yl pred k))
  refine ⟨k, ?_⟩
  unfold select
  rw [hYl]
  dsimp only
  rw [ht]
  dsimp only
  rw [hreal]
  dsimp only
  rw [hpred]
  dsimp only
  rw [if_neg (by omega), herrs]
  exact hk

/-- **C90** (violation): the documentation asks for a base classifier with `predict_proba`. If it is not one of the two that `predict_real` knows (SVC and LogisticRegression), all examples
have the same real values and so the same uncertainty, whatever the classifier predicts for them. -/
theorem C90_other_classifier_violation {base : BR.Base ℝ} (hk : base.kind = .other) {F G : BR.Feat ℝ} {L : Nat} {Y : List (List Int)} {t : BR.Trained ℝ}
    (ht : BR.train base F L Y = .ok t) {real : List (List ℝ)} (hr : BR.predictReal (some t) G = .ok real) :
    ∀ r ∈ real, ∀ r' ∈ real, r = r' ∧ uncertainty r = uncertainty r' := by
  have h : ∀ r ∈ real, ∀ r' ∈ real, r = r' := by
    obtain ⟨_, hl, hm⟩ := BR.train_member ht
    obtain ⟨h1, h2⟩ := BR.answers_entries hr
    intro r hr r' hr'
    obtain ⟨k, hk1, rfl⟩ := List.getElem_of_mem hr
    obtain ⟨k', hk2, rfl⟩ := List.getElem_of_mem hr'
    obtain ⟨row, e, el, hv⟩ := h2 k (G.rows[k]'(h1 ▸ hk1)) (by simp)
    obtain ⟨row', e', el', hv'⟩ := h2 k' (G.rows[k']'(h1 ▸ hk2)) (by simp)
    rw [List.getElem?_eq_getElem hk1] at e
    rw [List.getElem?_eq_getElem hk2] at e'
    cases e
    cases e'
    apply List.ext_getElem (el.trans el'.symm)
    intro i i1 i2
    obtain ⟨m, a1, a2⟩ := hv i _ (List.getElem?_eq_getElem i1)
    obtain ⟨m', b1, b2⟩ := hv' i _ (List.getElem?_eq_getElem i2)
    rw [a1] at b1
    cases b1
    obtain ⟨m', c1, c2⟩ := hm i (by rw [← hl]; exact (List.getElem?_eq_some_iff.1 a1).1)
    rw [a1] at c1
    cases c1
    unfold BR.member at c2
    split_ifs at c2
    · cases c2
      simp only [BR.Member.real] at a2 b2
      rw [a2] at b2
      exact Except.ok.inj b2
    · split at c2
      · cases c2
      · cases c2
        rw [hk] at a2 b2
        simp only [BR.Member.real] at a2 b2
        rw [a2] at b2
        exact Except.ok.inj b2
  exact fun r hr r' hr' => ⟨h r hr r' hr', by rw [h r hr r' hr']⟩

/-- **C88** (Adaptive with all its values): the choice depends on the labels of the labelled examples only. -/
theorem C88_adaptive_values {base : BR.Base ℝ} {betas : List ℝ} {order : List Nat → List Nat} {choose : List Nat → Nat} {X : Int → List ℝ} {cols labels : Nat} {lab unl : List Int}
    {Y Y' : List (List Int)} (h : Peek.Spec.SameAt Y Y' lab) :
    select base betas order choose X cols labels lab unl Y = select base betas order choose X cols labels lab unl Y' := by
  unfold select
  rw [Peek.pyAtAll_same h.2]

/-! ## Examples -/

/-- Positive values 1 and 3, negative values -1 and -2: the margin is 2. -/
example : Spec.Margin [3, -2, 1, -1] 2 :=
  ⟨1, -1, ⟨by simp, by rintro v ⟨hv, h⟩; simp at hv; rcases hv with rfl | rfl | rfl | rfl <;> revert h <;> norm_num⟩,
    ⟨by simp, by rintro v ⟨hv, h⟩; simp at hv; rcases hv with rfl | rfl | rfl | rfl <;> revert h <;> norm_num⟩, by norm_num⟩

/-- A base classifier: it predicts the first label it was trained with; the real value is the first feature. -/
noncomputable def exBase : BR.Base ℝ := ⟨.svc, fun _ col => match col with
  | [] => .error .valueError
  | a :: _ => .ok ⟨fun _ => a, fun _ => [0, 1], fun x => .value (x.headD 0)⟩⟩

/-- The hypotheses can be met: two labelled examples, three others, two labels. -/
example : ∃ k, select exBase [0, 1 / 2, 1] id (fun l => l.headD 0) (fun i => [(i : ℝ) - 3]) 1 2 [0, 1] [2, 3, 4]
    [[0, 1], [1, 0], [1, 1], [0, 0], [1, 0]] = .ok k ∧ k < 3 := by
  have hY : ∀ r ∈ ([[0, 1], [1, 0], [1, 1], [0, 0], [1, 0]] : List (List Int)), Coded 0 2 r := by
    intro r hr
    simp only [List.mem_cons, List.not_mem_nil, or_false] at hr
    rcases hr with rfl | rfl | rfl | rfl | rfl <;> exact ⟨rfl, by simp⟩
  have hch : ∀ l : List Nat, l ≠ [] → l.headD 0 ∈ l := by
    intro l hl
    cases l with
    | nil => exact absurd rfl hl
    | cons a l => simp
  obtain ⟨k, hk⟩ := C90_returns (base := exBase) (betas := [0, 1 / 2, 1]) (by simp) (order := id) (fun l => List.Perm.refl l) (choose := fun l => l.headD 0) hch
    (X := fun i => [(i : ℝ) - 3]) (cols := 1) (labels := 2) (by decide) (lab := [0, 1]) (unl := [2, 3, 4]) (by simp) (Or.inl rfl) hY (by simp)
    (by
      intro F col h
      cases col with
      | nil => exact absurd rfl h
      | cons a col => exact ⟨_, rfl, fun x => ⟨by simp, _, rfl⟩⟩) (by simp)
  refine ⟨k, hk, ?_⟩
  obtain ⟨_, _, _, _, _, _, _, _, h, _⟩ := C90_select_partial (base := exBase) (betas := [0, 1 / 2, 1]) (by intro b hb; simp at hb; rcases hb with rfl | rfl | rfl <;> norm_num)
    (order := id) (fun l => List.Perm.refl l) (choose := fun l => l.headD 0) hch
    (X := fun i => [(i : ℝ) - 3]) (cols := 1) (labels := 2) (lab := [0, 1]) (unl := [2, 3, 4]) (by simp) (Or.inl rfl) hY
    (by
      intro F col c h x
      cases col with
      | nil => simp [exBase] at h
      | cons a col => simp [exBase] at h; subst h; simp) (by simp) hk
  exact h

end Alipy.Adaptive
