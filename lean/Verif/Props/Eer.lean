import Verif.Model.Eer
import Verif.Spec.Eer
import Verif.Spec.Select
import Verif.Props.Select
/-!
# C119: expected error reduction asks for the examples after which the model is expected to be surest
-/
namespace Alipy.Eer
open Alipy Alipy.Select

variable {α μ : Type}

/-! ## The loss -/

theorem foldl_row {row : List ℝ} (h : ∀ p ∈ row, 0 < p) : ∀ acc : ℝ, row.foldl (fun acc p => acc + term p) (acc : WithTop ℝ) = ((acc + Spec.shannon row : ℝ) : WithTop ℝ) := by
  induction row with
  | nil => intro acc; simp [Spec.shannon]
  | cons p row ih =>
    intro acc
    have hp := h p (by simp)
    rw [List.foldl_cons, term, if_neg (not_le.2 hp), ← WithTop.coe_add, ih (fun q hq => h q (by simp [hq]))]
    simp only [Spec.shannon, List.map_cons, List.sum_cons, add_assoc]

theorem logLoss_ok {prob : List (List ℝ)} (h : ∀ r ∈ prob, ∀ p ∈ r, 0 < p) : logLoss prob = (((prob.map Spec.shannon).sum : ℝ) : WithTop ℝ) := by
  have key : ∀ (l : List (List ℝ)) (acc : ℝ), (∀ r ∈ l, ∀ p ∈ r, 0 < p) →
      l.foldl (fun acc row => row.foldl (fun acc p => acc + term p) acc) (acc : WithTop ℝ) = ((acc + (l.map Spec.shannon).sum : ℝ) : WithTop ℝ) := by
    intro l
    induction l with
    | nil => intro acc _; simp
    | cons r l ih =>
      intro acc h
      rw [List.foldl_cons, foldl_row (h r (by simp)), ih _ (fun r' hr' => h r' (by simp [hr']))]
      simp only [List.map_cons, List.sum_cons, add_assoc]
  have := key prob 0 h
  rw [zero_add] at this
  exact this

theorem row_top (row : List ℝ) : row.foldl (fun acc p => acc + term p) ⊤ = ⊤ := by
  induction row with
  | nil => rfl
  | cons p row ih => rw [List.foldl_cons, WithTop.top_add, ih]

theorem row_zero {row : List ℝ} (h : (0 : ℝ) ∈ row) : ∀ acc, row.foldl (fun acc p => acc + term p) acc = ⊤ := by
  induction row with
  | nil => cases h
  | cons p row ih =>
    intro acc
    rw [List.foldl_cons]
    rcases List.mem_cons.1 h with rfl | h
    · rw [term, if_pos le_rfl, WithTop.add_top, row_top]
    · exact ih h _

theorem prob_top (prob : List (List ℝ)) : prob.foldl (fun acc row => row.foldl (fun acc p => acc + term p) acc) ⊤ = ⊤ := by
  induction prob with
  | nil => rfl
  | cons r prob ih => rw [List.foldl_cons, row_top, ih]

theorem logLoss_zero {prob : List (List ℝ)} {row : List ℝ} (hr : row ∈ prob) (h : (0 : ℝ) ∈ row) : logLoss prob = ⊤ := by
  unfold logLoss
  generalize (0 : WithTop ℝ) = acc
  induction prob generalizing acc with
  | nil => cases hr
  | cons r prob ih =>
    rw [List.foldl_cons]
    rcases List.mem_cons.1 hr with rfl | hr
    · rw [row_zero h, prob_top]
    · exact ih hr _

theorem shannon_nonneg {row : List ℝ} (h : ∀ p ∈ row, 0 ≤ p ∧ p ≤ 1) : 0 ≤ Spec.shannon row := by
  refine List.sum_nonneg ?_
  intro v hv
  obtain ⟨p, hp, rfl⟩ := List.mem_map.1 hv
  have := Real.negMulLog_nonneg (h p hp).1 (h p hp).2
  rw [Real.negMulLog] at this
  linarith

theorem shannon_le {row : List ℝ} (h : ∀ p ∈ row, 0 < p) (hs : row.sum = 1) : Spec.shannon row ≤ Real.log row.length := by
  have hne : row ≠ [] := by rintro rfl; simp at hs
  have hc : (0 : ℝ) < row.length := by exact_mod_cast List.length_pos_of_ne_nil hne
  have key : ∀ l : List ℝ, (∀ p ∈ l, 0 < p) → Spec.shannon l ≤ l.sum * Real.log row.length + l.length * (1 / row.length) - l.sum := by
    intro l
    induction l with
    | nil => simp [Spec.shannon]
    | cons p l ih =>
      intro hl
      have hp := hl p (by simp)
      have ih := ih fun q hq => hl q (by simp [hq])
      have h1 : Real.log (1 / (p * row.length)) ≤ 1 / (p * row.length) - 1 := Real.log_le_sub_one_of_pos (by positivity)
      rw [one_div, Real.log_inv, Real.log_mul hp.ne' hc.ne'] at h1
      have h2 := mul_le_mul_of_nonneg_left h1 hp.le
      have h3 : p * ((p * row.length)⁻¹ - 1) = 1 / row.length - p := by field_simp
      rw [h3] at h2
      simp only [Spec.shannon, List.map_cons, List.sum_cons, List.length_cons, Nat.cast_add, Nat.cast_one] at ih ⊢
      linarith
  have := key row h
  rw [hs] at this
  have e : (row.length : ℝ) * (1 / row.length) = 1 := by field_simp
  rw [e] at this
  linarith

/-- **C119** (the loss): for probabilities none of which is zero, `log_loss` is the sum of the entropies of the rows; it is between 0 and the number of rows times the logarithm of the number of classes. -/
theorem C119_log_loss {prob : List (List ℝ)} {c : ℕ} (h : ∀ r ∈ prob, Spec.Positive c r ∧ r.sum = 1) :
    ∃ l : ℝ, logLoss prob = l ∧ l = (prob.map Spec.shannon).sum ∧ 0 ≤ l ∧ l ≤ prob.length * Real.log c := by
  refine ⟨_, logLoss_ok fun r hr => (h r hr).1.2, rfl, ?_, ?_⟩
  · refine List.sum_nonneg ?_
    intro v hv
    obtain ⟨r, hr, rfl⟩ := List.mem_map.1 hv
    refine shannon_nonneg fun p hp => ⟨((h r hr).1.2 p hp).le, ?_⟩
    rw [← (h r hr).2]
    exact List.single_le_sum (fun q hq => ((h r hr).1.2 q hq).le) p hp
  · induction prob with
    | nil => simp
    | cons r prob ih =>
      have h1 := shannon_le (h r (by simp)).1.2 (h r (by simp)).2
      rw [(h r (by simp)).1.1] at h1
      have h2 := ih fun r' hr' => h r' (by simp [hr'])
      simp only [List.map_cons, List.sum_cons, List.length_cons, Nat.cast_add, Nat.cast_one]
      linarith

/-! ## The scores -/

theorem classes_eq {y : List Int} {c : ℕ} (hc : ∀ v : Int, v ∈ y ↔ 0 ≤ v ∧ v < c) : classes y = (List.range c).map fun k : ℕ => (k : Int) := by
  have hp : (classes y).Perm y.dedup := List.perm_insertionSort _ _
  have h1 : (classes y).Pairwise (· ≤ ·) := List.pairwise_insertionSort _ _
  have h2 : ((List.range c).map fun k : ℕ => (k : Int)).Pairwise (· ≤ ·) := by
    rw [List.pairwise_map]
    exact List.pairwise_lt_range.imp fun h => by omega
  have hn : ((List.range c).map fun k : ℕ => (k : Int)).Nodup := List.nodup_range.map fun a b h => by simpa using h
  refine List.Perm.eq_of_pairwise (fun a b _ _ => le_antisymm) h1 h2 ((List.perm_ext_iff_of_nodup (hp.nodup_iff.2 (List.nodup_dedup y)) hn).2 fun v => ?_)
  rw [hp.mem_iff, List.mem_dedup, hc]
  simp only [List.mem_map, List.mem_range]
  constructor
  · rintro ⟨h, h'⟩
    exact ⟨v.toNat, by omega, by omega⟩
  · rintro ⟨k, hk, rfl⟩
    omega

theorem pyAt_nat {row : List ℝ} {k : ℕ} (hk : k < row.length) : pyAt row (k : Int) = some (row.getD k 0) := by
  simp [pyAt, hk]

/-- The score is the sum of the products with the losses. -/
theorem score_eq (fit : List (α × Int) → μ) (predict : μ → α → List ℝ) (lab : List (α × Int)) (rest : List α) (row : List ℝ) (x : α) : ∀ ks : List ℕ, (∀ k ∈ ks, k < row.length) →
    score fit predict lab rest row x (ks.map fun k : ℕ => (k : Int)) =
      .ok ((ks.map fun k : ℕ => scale (row.getD k 0) (logLoss (rest.map (predict (fit (lab ++ [(x, (k : Int))])))))).sum)
  | [], _ => rfl
  | k :: ks, h => by
    rw [List.map_cons, score, pyAt_nat (h k (by simp))]
    simp only
    rw [score_eq fit predict lab rest row x ks fun k' hk' => h k' (by simp [hk'])]
    rfl

theorem sum_coe (l : List ℝ) : (l.map fun v : ℝ => (v : WithTop ℝ)).sum = ((l.sum : ℝ) : WithTop ℝ) := by
  induction l with
  | nil => rfl
  | cons a l ih => rw [List.map_cons, List.sum_cons, List.sum_cons, ih, WithTop.coe_add]

theorem sum_top {l : List (WithTop ℝ)} (h : ⊤ ∈ l) : l.sum = ⊤ := by
  induction l with
  | nil => cases h
  | cons a l ih =>
    rw [List.sum_cons]
    rcases List.mem_cons.1 h with rfl | h
    · exact WithTop.top_add _
    · rw [ih h, WithTop.add_top]

theorem scores_eq {fit : List (α × Int) → μ} {predict : μ → α → List ℝ} {model : μ} {lab : List (α × Int)} {u : List α} {cl : List Int} {f : ℕ → α → WithTop ℝ}
    (hf : ∀ i x, u[i]? = some x → score fit predict lab (u.eraseIdx i) (predict model x) x cl = .ok (f i x)) : ∀ ps : List ℕ, (∀ i ∈ ps, i < u.length) →
    ∃ s, scores fit predict model lab u cl ps = .ok s ∧ s.length = ps.length ∧ ∀ (j : ℕ) i x, ps[j]? = some i → u[i]? = some x → s[j]? = some (f i x)
  | [], _ => ⟨[], rfl, rfl, by simp⟩
  | i :: ps, h => by
    obtain ⟨s, h1, h2, h3⟩ := scores_eq hf ps fun k hk => h k (by simp [hk])
    have hi := h i (by simp)
    refine ⟨f i u[i] :: s, ?_, by simp [h2], ?_⟩
    · rw [scores, List.getElem?_eq_getElem hi]
      simp only
      rw [hf i _ (List.getElem?_eq_getElem hi)]
      simp only
      rw [h1]
      rfl
    · intro j k x hj hx
      cases j with
      | zero =>
        simp only [List.getElem?_cons_zero, Option.some.injEq] at hj ⊢
        subst hj
        rw [List.getElem?_eq_getElem hi] at hx
        cases hx
        rfl
      | succ j =>
        simp only [List.getElem?_cons_succ] at hj ⊢
        exact h3 j k x hj hx

variable [DecidableEq α]

theorem rest_perm {u : List α} (hu : u.Nodup) {i : ℕ} {x : α} (hx : u[i]? = some x) : u.eraseIdx i = u.filter fun z => decide (z ≠ x) := by
  obtain ⟨hi, rfl⟩ := List.getElem?_eq_some_iff.1 hx
  rw [← hu.erase_getElem i hi, hu.erase_eq_filter]
  refine List.filter_congr fun z _ => ?_
  simp [bne, beq_eq_decide]

/-- The score of an example, in terms of the pool. -/
noncomputable def scoreOf (fit : List (α × Int) → μ) (predict : μ → α → List ℝ) (model : μ) (lab : List (α × Int)) (pool : List α) (c : ℕ) (x : α) : WithTop ℝ :=
  ((List.range c).map fun k : ℕ => scale ((predict model x).getD k 0) (logLoss ((pool.filter fun z => decide (z ≠ x)).map (predict (fit (lab ++ [(x, (k : Int))])))))).sum

/-- The selection is by these scores. -/
theorem select_eq {argsort : List (WithTop ℝ) → List Nat} {fit : List (α × Int) → μ} {predict : μ → α → List ℝ} {model : Option μ} {lab : List (α × Int)} {y : List Int} {u : Coll α} (hu : u.items.Nodup)
    {c : ℕ} (hc : ∀ v : Int, v ∈ y ↔ 0 ≤ v ∧ v < c) (h1 : c ≠ 1) (hp : ∀ x ∈ u.items, (predict (model.getD (fit lab)) x).length = c) (batch : Int) :
    select argsort fit predict model lab y u batch = bySmallest argsort u (u.items.map (scoreOf fit predict (model.getD (fit lab)) lab u.items c)) batch := by
  obtain ⟨s, e1, e2, e3⟩ := scores_eq (fit := fit) (predict := predict) (model := model.getD (fit lab)) (lab := lab) (u := u.items) (cl := classes y)
    (f := fun _ x => scoreOf fit predict (model.getD (fit lab)) lab u.items c x) (by
      intro i x hx
      rw [classes_eq hc, score_eq _ _ _ _ _ _ _ (by
        intro k hk
        rw [hp x (List.mem_of_getElem? hx)]
        simpa using hk), rest_perm hu hx]
      rfl) (List.range u.items.length) (by simp)
  have hs : s = u.items.map (scoreOf fit predict (model.getD (fit lab)) lab u.items c) := by
    refine List.ext_getElem? fun j => ?_
    by_cases hj : j < u.items.length
    · rw [e3 j j u.items[j] (by simp [hj]) (List.getElem?_eq_getElem hj)]
      simp [hj]
    · rw [List.getElem?_eq_none (by rw [e2]; simpa using hj), List.getElem?_eq_none (by simpa using hj)]
  unfold select bySmallest
  simp only
  rw [e1, hs, if_neg]
  rw [List.any_eq_true]
  rintro ⟨r, hr, h⟩
  obtain ⟨x, hx, rfl⟩ := List.mem_map.1 hr
  rw [hp x hx] at h
  exact h1 (by simpa using h)

theorem scoreOf_risk {fit : List (α × Int) → μ} {predict : μ → α → List ℝ} {model : μ} {lab : List (α × Int)} {pool : List α} {c : ℕ} {x : α}
    (h : ∀ k : ℕ, k < c → ∀ z ∈ pool, z ≠ x → ∀ p ∈ predict (fit (lab ++ [(x, (k : Int))])) z, 0 < p) :
    scoreOf fit predict model lab pool c x = ((Spec.risk fit predict model lab pool c x : ℝ) : WithTop ℝ) := by
  unfold scoreOf Spec.risk
  rw [← sum_coe, List.map_map]
  congr 1
  refine List.map_congr_left fun k hk => ?_
  rw [logLoss_ok (by
    intro r hr p hp
    obtain ⟨z, hz, rfl⟩ := List.mem_map.1 hr
    rw [List.mem_filter] at hz
    exact h k (by simpa using hk) z hz.1 (by simpa using hz.2) p hp)]
  simp only [Function.comp, scale, WithTop.map_coe, Spec.futureEntropy, List.map_map]
  rfl

/-- **C119** (selection): with the classes 0, ..., c-1 and a model that excludes no class, `select` returns a batch of distinct unlabelled examples, and no example that is left out has a smaller expected future
entropy than one of them. -/
theorem C119_select {argsort : List (WithTop ℝ) → List Nat} (ha : ∀ l, Spec.IsArgsort l (argsort l)) {fit : List (α × Int) → μ} {predict : μ → α → List ℝ} (model : Option μ) (lab : List (α × Int))
    {y : List Int} {u : Coll α} (hu : u.items.Nodup) {c : ℕ} (hc : ∀ v : Int, v ∈ y ↔ 0 ≤ v ∧ v < c) (h1 : c ≠ 1) (hp : ∀ m x, Spec.Positive c (predict m x)) {batch : Int} (hb : 0 < batch) :
    ∃ r, select argsort fit predict model lab y u batch = .ok r ∧ Spec.BatchOf u.items batch r ∧
      ∀ x ∈ r, ∀ z ∈ u.items, z ∉ r → Spec.risk fit predict (model.getD (fit lab)) lab u.items c x ≤ Spec.risk fit predict (model.getD (fit lab)) lab u.items c z := by
  rw [select_eq hu hc h1 (fun x _ => (hp _ x).1)]
  obtain ⟨r, hr, hB⟩ := bySmallest_batch ha hu (scores := u.items.map (scoreOf fit predict (model.getD (fit lab)) lab u.items c)) (by simp) hb
  refine ⟨r, hr, hB, fun x hx z hz hzr => ?_⟩
  obtain ⟨i, hi⟩ := List.mem_iff_getElem?.1 (hB.2.1 x hx)
  obtain ⟨j, hj⟩ := List.mem_iff_getElem?.1 hz
  have := bySmallest_best ha hu (by simp) hr hi hj hx hzr (a := scoreOf fit predict (model.getD (fit lab)) lab u.items c x) (b := scoreOf fit predict (model.getD (fit lab)) lab u.items c z) (by simp [hi])
    (by simp [hj])
  rw [scoreOf_risk fun k _ w _ _ => (hp _ w).2, scoreOf_risk fun k _ w _ _ => (hp _ w).2] at this
  exact WithTop.coe_le_coe.1 this

theorem risk_perm {fit : List (α × Int) → μ} {predict : μ → α → List ℝ} {model : μ} {lab : List (α × Int)} {u u' : List α} (h : u.Perm u') (c : ℕ) (x : α) :
    Spec.risk fit predict model lab u c x = Spec.risk fit predict model lab u' c x := by
  unfold Spec.risk Spec.futureEntropy
  congr 1
  refine List.map_congr_left fun k _ => ?_
  congr 1
  exact ((h.filter _).map _).sum_eq

/-- **C119** (order): listing the unlabelled examples in another order, or sorting in another way, changes the selection only if two examples have the same expected future entropy. -/
theorem C119_order {argsort argsort' : List (WithTop ℝ) → List Nat} (ha : ∀ l, Spec.IsArgsort l (argsort l)) (ha' : ∀ l, Spec.IsArgsort l (argsort' l)) {fit : List (α × Int) → μ} {predict : μ → α → List ℝ}
    (model : Option μ) (lab : List (α × Int)) {y : List Int} {u u' : Coll α} (hu : u.items.Nodup) (hp' : u.items.Perm u'.items) {c : ℕ} (hc : ∀ v : Int, v ∈ y ↔ 0 ≤ v ∧ v < c) (h1 : c ≠ 1)
    (hp : ∀ m x, Spec.Positive c (predict m x))
    (hinj : ∀ x ∈ u.items, ∀ z ∈ u.items, Spec.risk fit predict (model.getD (fit lab)) lab u.items c x = Spec.risk fit predict (model.getD (fit lab)) lab u.items c z → x = z) {batch : Int} (hb : 0 < batch) :
    ∃ r r', select argsort fit predict model lab y u batch = .ok r ∧ select argsort' fit predict model lab y u' batch = .ok r' ∧ r.Perm r' := by
  obtain ⟨r, e, hB, hr⟩ := C119_select ha model lab hu hc h1 hp hb (fit := fit)
  obtain ⟨r', e', hB', hr'⟩ := C119_select ha' model lab (hp'.nodup_iff.1 hu) hc h1 hp hb (fit := fit)
  refine ⟨r, r', e, e', (List.perm_ext_iff_of_nodup hB.1 hB'.1).2 ?_⟩
  have hlen : r.length = r'.length := by
    have h2 := hB.2.2
    have h3 := hB'.2.2
    rw [← hp'.length_eq] at h3
    omega
  have sub : ∀ x ∈ r, x ∈ r' := by
    by_contra hcon
    push Not at hcon
    obtain ⟨x, hx, hx'⟩ := hcon
    have : ∃ z ∈ r', z ∉ r := by
      by_contra hcon
      push Not at hcon
      have hsub : r' ⊆ r := fun z hz => hcon z hz
      have hperm : r'.Perm r := (hB'.1.subperm hsub).perm_of_length_le hlen.le
      exact hx' (hperm.mem_iff.2 hx)
    obtain ⟨z, hz, hzr⟩ := this
    have hxu := hB.2.1 x hx
    have hzu := hp'.mem_iff.2 (hB'.2.1 z hz)
    have g1 := hr x hx z hzu hzr
    have g2 := hr' z hz x (hp'.mem_iff.1 hxu) hx'
    rw [← risk_perm hp', ← risk_perm hp'] at g2
    exact hx' (hinj x hxu z hzu (le_antisymm g1 g2) ▸ hz)
  have hperm : r.Perm r' := (hB.1.subperm fun x hx => sub x hx).perm_of_length_le hlen.symm.le
  exact fun x => hperm.mem_iff

/-! ## Predictions with a zero -/

/-- An example after which the model excludes some class for some other example is not selected while there are enough others: its score is NaN. -/
theorem C119_zero_violation {argsort : List (WithTop ℝ) → List Nat} (ha : ∀ l, Spec.IsArgsort l (argsort l)) {fit : List (α × Int) → μ} {predict : μ → α → List ℝ} (model : Option μ) (lab : List (α × Int))
    {y : List Int} {u : Coll α} (hu : u.items.Nodup) {c : ℕ} (hc : ∀ v : Int, v ∈ y ↔ 0 ≤ v ∧ v < c) (h1 : c ≠ 1) (hp : ∀ m x, (predict m x).length = c) {batch : Int} (hb : 0 < batch)
    {x z : α} (hz : z ∈ u.items) (hzx : z ≠ x) {k : ℕ} (hk : k < c) (h0 : (0 : ℝ) ∈ predict (fit (lab ++ [(x, (k : Int))])) z)
    {others : List α} (ho : others.Nodup) (hou : ∀ w ∈ others, w ∈ u.items ∧ w ≠ x ∧ ∀ k : ℕ, k < c → ∀ v ∈ u.items, v ≠ w → ∀ p ∈ predict (fit (lab ++ [(w, (k : Int))])) v, 0 < p)
    (hlen : batch ≤ others.length) (hx : x ∈ u.items) :
    ∃ r, select argsort fit predict model lab y u batch = .ok r ∧ x ∉ r := by
  rw [select_eq hu hc h1 (fun x _ => hp _ x)]
  obtain ⟨r, hr, hB⟩ := bySmallest_batch ha hu (scores := u.items.map (scoreOf fit predict (model.getD (fit lab)) lab u.items c)) (by simp) hb
  refine ⟨r, hr, fun hxr => ?_⟩
  have htop : scoreOf fit predict (model.getD (fit lab)) lab u.items c x = ⊤ := by
    refine sum_top (List.mem_map.2 ⟨k, by simpa using hk, ?_⟩)
    rw [logLoss_zero (row := predict (fit (lab ++ [(x, (k : Int))])) z) (List.mem_map.2 ⟨z, List.mem_filter.2 ⟨hz, by simpa using hzx⟩, rfl⟩) h0]
    rfl
  have : ∃ w ∈ others, w ∉ r := by
    by_contra hcon
    push Not at hcon
    have hn : (x :: others).Nodup := List.nodup_cons.2 ⟨fun h => (hou x h).2.1 rfl, ho⟩
    have hs : (x :: others) ⊆ r := by
      intro w hw
      rcases List.mem_cons.1 hw with rfl | hw
      · exact hxr
      · exact hcon w hw
    have := (hn.subperm hs).length_le
    have := hB.2.2
    rw [List.length_cons] at *
    omega
  obtain ⟨w, hw, hwr⟩ := this
  obtain ⟨i, hi⟩ := List.mem_iff_getElem?.1 hx
  obtain ⟨j, hj⟩ := List.mem_iff_getElem?.1 (hou w hw).1
  have := bySmallest_best ha hu (by simp) hr hi hj hxr hwr (a := scoreOf fit predict (model.getD (fit lab)) lab u.items c x) (b := scoreOf fit predict (model.getD (fit lab)) lab u.items c w) (by simp [hi])
    (by simp [hj])
  rw [htop, scoreOf_risk (hou w hw).2.2, top_le_iff] at this
  exact WithTop.coe_ne_top this

/-- So the best query can be left out: a model that is sure of everything once it knows example 0, and of nothing before. -/
theorem C119_best_left_out_violation {argsort : List (WithTop ℝ) → List Nat} (ha : ∀ l, Spec.IsArgsort l (argsort l)) :
    let fit : List (ℕ × Int) → Bool := fun l => l.any fun e => e.1 == 0
    let predict : Bool → ℕ → List ℝ := fun m _ => if m then [1, 0] else [1 / 2, 1 / 2]
    (∃ r, select argsort fit predict none [(5, 0), (6, 1)] [0, 1] (.list [0, 1, 2]) 1 = .ok r ∧ 0 ∉ r) ∧
      Spec.risk fit predict false [(5, 0), (6, 1)] [0, 1, 2] 2 0 = 0 ∧ ∀ x ∈ [1, 2], 0 < Spec.risk fit predict false [(5, 0), (6, 1)] [0, 1, 2] 2 x := by
  intro fit predict
  have hlen : ∀ m x, (predict m x).length = 2 := fun m x => by simp only [predict]; split <;> rfl
  refine ⟨C119_zero_violation ha (fit := fit) (predict := predict) none _ (c := 2) (by decide) (by
      intro v
      simp only [List.mem_cons, List.not_mem_nil, or_false, Nat.cast_ofNat]
      omega) (by decide) hlen (by decide) (x := 0) (z := 1) (by decide) (by decide) (k := 0) (by decide)
      (by simp [predict, fit]) (others := [1, 2]) (by decide) ?_ (by decide) (by decide), ?_, ?_⟩
  · intro w hw
    refine ⟨?_, ?_, ?_⟩
    · simp only [List.mem_cons, List.not_mem_nil, or_false] at hw
      rcases hw with rfl | rfl <;> decide
    · simp only [List.mem_cons, List.not_mem_nil, or_false] at hw
      rcases hw with rfl | rfl <;> decide
    · intro k _ v _ _ p hp
      have hw0 : w ≠ 0 := by
        rintro rfl
        simp at hw
      have : fit ([(5, 0), (6, 1)] ++ [(w, (k : Int))]) = false := by simp [fit, hw0]
      rw [this] at hp
      simp [predict] at hp
      rw [hp]
      norm_num
  · simp [Spec.risk, Spec.futureEntropy, Spec.shannon, predict, fit]
  · intro x hx
    simp only [List.mem_cons, List.not_mem_nil, or_false] at hx
    have hl := Real.log_pos (show (1 : ℝ) < 2 by norm_num)
    rcases hx with rfl | rfl <;> simp [Spec.risk, Spec.futureEntropy, Spec.shannon, predict, fit, List.range_succ] <;> linarith

/-! ## A case -/

/-- A model that is surer after training with example 7. -/
example {argsort : List (WithTop ℝ) → List Nat} (ha : ∀ l, Spec.IsArgsort l (argsort l)) :
    let fit : List (ℕ × Int) → Bool := fun l => l.any fun e => e.1 == 7
    let predict : Bool → ℕ → List ℝ := fun m _ => if m then [9 / 10, 1 / 10] else [1 / 2, 1 / 2]
    ∃ r, select argsort fit predict none [(5, 0), (6, 1)] [0, 1, 1, 0] (.list [4, 7, 8]) 1 = .ok r ∧ r.length = 1 := by
  intro fit predict
  obtain ⟨r, h, hB, -⟩ := C119_select ha (fit := fit) (predict := predict) none [(5, 0), (6, 1)] (y := [0, 1, 1, 0]) (u := .list [4, 7, 8]) (by decide) (c := 2) (by
      intro v
      simp only [List.mem_cons, List.not_mem_nil, or_false, Nat.cast_ofNat]
      omega) (by decide) (by
      intro m x
      simp only [predict]
      split
      · exact ⟨rfl, by intro p hp; simp at hp; rcases hp with rfl | rfl <;> norm_num⟩
      · exact ⟨rfl, by intro p hp; simp at hp; rw [hp]; norm_num⟩) (batch := 1) (by decide)
  refine ⟨r, h, ?_⟩
  have := hB.2.2
  simp [Coll.items] at this
  omega

end Alipy.Eer
