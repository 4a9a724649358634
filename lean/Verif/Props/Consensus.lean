import Verif.Spec.Consensus
import Verif.Props.Committee
import Verif.Props.Agree
import Mathlib.Analysis.Convex.Jensen
/-!
# Examples on which the committee agrees come last (C102)
-/
set_option linter.unusedSectionVars false
set_option linter.unusedSimpArgs false
namespace Alipy.Consensus
open Alipy Select

variable {α : Type}

/-! ## Class outputs -/

theorem voteEntropy_eq (votes : List Int) : voteEntropy Real.log votes =
    ∑ c ∈ votes.toFinset, -((votes.count c : ℝ) / votes.length * Real.log (((votes.count c : ℝ) + 1 / 1000000000) / votes.length)) := by
  unfold voteEntropy
  rw [← List.sum_toFinset _ (eraseDups_nodup votes), Finset.sum_neg_distrib]
  congr 1
  refine Finset.sum_congr ?_ (fun _ _ => rfl)
  ext x
  simp [List.mem_eraseDups]

/-- A unanimous vote has a score below zero. -/
theorem score_unanimous {votes : List Int} (hne : votes ≠ []) (h : Spec.Unanimous votes) : voteEntropy Real.log votes < 0 := by
  obtain ⟨a, l, rfl⟩ := List.exists_cons_of_ne_nil hne
  have hall : ∀ b ∈ a :: l, b = a := fun b hb => h b hb a (by simp)
  have ht : (a :: l).toFinset = {a} := by
    ext b
    rw [List.mem_toFinset, Finset.mem_singleton]
    exact ⟨hall b, by rintro rfl; simp⟩
  have hc : (a :: l).count a = (a :: l).length := List.count_eq_length.2 (fun b hb => (hall b hb).symm)
  rw [voteEntropy_eq, ht, Finset.sum_singleton, hc]
  have hm : (0 : ℝ) < (a :: l).length := by exact_mod_cast List.length_pos_iff.2 hne
  generalize ((a :: l).length : ℝ) = m at hm
  rw [div_self hm.ne', one_mul, neg_lt_zero]
  apply Real.log_pos
  rw [lt_div_iff₀ hm]
  linarith

/-- A disputed one has a score above zero. -/
theorem score_disputed {votes : List Int} (h : ¬ Spec.Unanimous votes) : 0 < voteEntropy Real.log votes := by
  unfold Spec.Unanimous at h
  push Not at h
  obtain ⟨a, ha, b, hb, hab⟩ := h
  rw [voteEntropy_eq]
  have hlt : ∀ c, votes.count c < votes.length := by
    intro c
    refine lt_of_le_of_ne List.count_le_length (fun e => hab ?_)
    have := List.count_eq_length.1 e
    rw [← this a ha, ← this b hb]
  refine Finset.sum_pos (fun c hc => ?_) ⟨a, List.mem_toFinset.2 ha⟩
  have h1 : (0 : ℝ) < votes.count c := by exact_mod_cast List.count_pos_iff.2 (List.mem_toFinset.1 hc)
  have h2 : (votes.count c : ℝ) + 1 ≤ votes.length := by exact_mod_cast hlt c
  have hm : (0 : ℝ) < votes.length := by linarith
  rw [neg_pos]
  apply mul_neg_of_pos_of_neg (div_pos h1 hm)
  apply Real.log_neg
  · apply div_pos _ hm; linarith
  · rw [div_lt_one hm]; linarith

theorem qbc_best {argsort : List ℝ → List Nat} (ha : ∀ l, Spec.IsArgsort l (argsort l)) {u : Coll α} (hu : u.items.Nodup)
    {predict : List (List Int)} (h2 : 2 ≤ predict.length) (hp : ∀ r ∈ predict, r.length = u.items.length) {batch : Int} {r : List α}
    (hr : qbc Real.log argsort u predict batch = .ok r) :
    Spec.NoneBetter u.items r (fun j i =>
      voteEntropy Real.log (Spec.voicesAt 0 predict i) < voteEntropy Real.log (Spec.voicesAt 0 predict j)) := by
  have hh : (predict.headD []).length = u.items.length := by
    cases predict with
    | nil => simp at h2
    | cons r rs => exact hp r (by simp)
  rintro i j x y hi hj hx hy hlt
  unfold qbc at hr
  rw [if_neg (by omega), hh] at hr
  have hil : i < u.items.length := (List.getElem?_eq_some_iff.1 hi).1
  have hjl : j < u.items.length := (List.getElem?_eq_some_iff.1 hj).1
  have key := byLargest_best (batch := batch) ha hu (by rw [List.length_map, List.length_range]) hr hi hj hx hy
    (a := voteEntropy Real.log (predict.map (fun m => m.getD i 0))) (b := voteEntropy Real.log (predict.map (fun m => m.getD j 0)))
    (by rw [List.getElem?_map, List.getElem?_range hil]; rfl) (by rw [List.getElem?_map, List.getElem?_range hjl]; rfl)
  exact absurd key (not_le.2 hlt)

theorem voices_ne {β : Type} {d : β} {predict : List (List β)} (h2 : 2 ≤ predict.length) (k : Nat) : Spec.voicesAt d predict k ≠ [] := by
  intro h
  have := congrArg List.length h
  simp [Spec.voicesAt] at this
  subst this
  simp at h2

/-- **C102**, class outputs: an example on which the committee is unanimous is selected only if every example on which it is not has been. -/
theorem C102_votes {argsort : List ℝ → List Nat} (ha : ∀ l, Spec.IsArgsort l (argsort l)) {u : Coll α} (hu : u.items.Nodup)
    {predict : List (List Int)} (h2 : 2 ≤ predict.length) (hp : ∀ r ∈ predict, r.length = u.items.length) {batch : Int} {r : List α}
    (hr : qbc Real.log argsort u predict batch = .ok r) :
    Spec.NoneBetter u.items r (fun j i => Spec.Unanimous (Spec.voicesAt 0 predict i) ∧ ¬ Spec.Unanimous (Spec.voicesAt 0 predict j)) := by
  rintro i j x y hi hj hx hy ⟨h, h'⟩
  exact qbc_best ha hu h2 hp hr i j x y hi hj hx hy ((score_unanimous (voices_ne h2 i) h).trans (score_disputed h'))

/-! ## Two classes -/

/-- The score of a vote in which `k` of `n` are for the first of two classes. -/
noncomputable def evenScore (n k : ℝ) : ℝ := -(k / n * Real.log ((k + 1 / 1000000000) / n)) + -((n - k) / n * Real.log ((n - k + 1 / 1000000000) / n))

/-- With the logarithm of `n` taken out. -/
theorem evenScore_eq {n k : ℝ} (hn : 0 < n) (h0 : 0 ≤ k) (h1 : k ≤ n) : evenScore n k = Real.log n - (part k + part (n - k)) / n := by
  unfold evenScore part
  rw [Real.log_div (by linarith) hn.ne', Real.log_div (by linarith) hn.ne']
  field_simp
  ring

theorem part_sum {n p q : ℝ} (h0 : 0 ≤ p) (hpq : p < q) (hq : q ≤ n / 2) : part q + part (n - q) < part p + part (n - p) := by
  have hd : (0:ℝ) < n - 2 * p := by linarith
  have ht0 : 0 < (n - p - q) / (n - 2 * p) := div_pos (by linarith) hd
  have ht1 : (n - p - q) / (n - 2 * p) < 1 := by rw [div_lt_one hd]; linarith
  have k1 := part_convex h0 (y := n - p) (by linarith) (by intro h; linarith) ht0 ht1
  have k2 := part_convex (x := n - p) (by linarith) h0 (by intro h; linarith) ht0 ht1
  have e1 : (n - p - q) / (n - 2 * p) * p + (1 - (n - p - q) / (n - 2 * p)) * (n - p) = q := by
    have := hd.ne'
    rw [div_mul_eq_mul_div, one_sub_div this, div_mul_eq_mul_div, ← add_div, div_eq_iff this]; ring
  have e2 : (n - p - q) / (n - 2 * p) * (n - p) + (1 - (n - p - q) / (n - 2 * p)) * p = n - q := by
    have := hd.ne'
    rw [div_mul_eq_mul_div, one_sub_div this, div_mul_eq_mul_div, ← add_div, div_eq_iff this]; ring
  rw [e1] at k1
  rw [e2] at k2
  linarith

theorem evenScore_lt {n p q : ℝ} (h0 : 0 ≤ p) (hpq : p < q) (hq : q ≤ n / 2) : evenScore n p < evenScore n q := by
  have hn : 0 < n := by linarith
  rw [evenScore_eq hn h0 (by linarith), evenScore_eq hn (by linarith) (by linarith)]
  have := part_sum h0 hpq hq
  have := div_lt_div_of_pos_right this hn
  linarith

theorem evenScore_symm (n k : ℝ) : evenScore n (n - k) = evenScore n k := by
  unfold evenScore
  rw [sub_sub_cancel, add_comm]

theorem count_two {a b : Int} (hab : a ≠ b) {votes : List Int} (h : ∀ v ∈ votes, v = a ∨ v = b) :
    votes.count a + votes.count b = votes.length := by
  induction votes with
  | nil => rfl
  | cons v l ih =>
    have := ih (fun w hw => h w (by simp [hw]))
    rcases h v (by simp) with rfl | rfl
    · simp [List.count_cons, hab]; omega
    · simp [List.count_cons, hab.symm]; omega

theorem score_two {a b : Int} (hab : a ≠ b) {votes : List Int} (hne : votes ≠ []) (h : ∀ v ∈ votes, v = a ∨ v = b) :
    voteEntropy Real.log votes = evenScore votes.length (votes.count a) := by
  have hcnt := count_two hab h
  have hm : (0 : ℝ) < votes.length := by exact_mod_cast List.length_pos_iff.2 hne
  have hb : ((votes.length : ℝ) - votes.count a) = votes.count b := by
    rw [← hcnt]; push_cast; ring
  rw [voteEntropy_eq]
  have hs : votes.toFinset ⊆ {a, b} := by
    intro v hv
    rcases h v (List.mem_toFinset.1 hv) with rfl | rfl <;> simp
  rw [Finset.sum_subset hs (by
    intro v _ hv
    rw [List.count_eq_zero_of_not_mem (fun h => hv (List.mem_toFinset.2 h))]
    simp), Finset.sum_pair hab]
  unfold evenScore
  rw [hb]

theorem foldl_max_le {l : List Nat} {m k : Nat} : l.foldl max m ≤ k ↔ m ≤ k ∧ ∀ x ∈ l, x ≤ k := by
  induction l generalizing m with
  | nil => simp
  | cons a l ih =>
    rw [List.foldl_cons, ih]
    simp only [max_le_iff, List.mem_cons, forall_eq_or_imp, and_assoc]

theorem majority_two {a b : Int} (hab : a ≠ b) {votes : List Int} (h : ∀ v ∈ votes, v = a ∨ v = b) :
    Spec.majority votes = max (votes.count a) (votes.count b) := by
  apply le_antisymm
  · unfold Spec.majority
    rw [foldl_max_le]
    refine ⟨Nat.zero_le _, fun x hx => ?_⟩
    obtain ⟨v, hv, rfl⟩ := List.mem_map.1 hx
    rcases h v hv with rfl | rfl
    · exact le_max_left _ _
    · exact le_max_right _ _
  · have key : ∀ c, votes.count c ≤ Spec.majority votes := by
      intro c
      by_cases hc : c ∈ votes
      · exact (foldl_max_le.1 (le_refl (Spec.majority votes))).2 _ (List.mem_map.2 ⟨c, hc, rfl⟩)
      · rw [List.count_eq_zero_of_not_mem hc]; exact Nat.zero_le _
    exact max_le (key a) (key b)

/-- **C102**, two classes: the more even the votes, the sooner an example is selected. -/
theorem C102_two_classes {argsort : List ℝ → List Nat} (ha : ∀ l, Spec.IsArgsort l (argsort l)) {u : Coll α} (hu : u.items.Nodup)
    {predict : List (List Int)} (h2 : 2 ≤ predict.length) (hp : ∀ r ∈ predict, r.length = u.items.length) {a b : Int} (hab : a ≠ b)
    (hcl : ∀ m ∈ predict, ∀ v ∈ m, v = a ∨ v = b) {batch : Int} {r : List α} (hr : qbc Real.log argsort u predict batch = .ok r) :
    Spec.NoneBetter u.items r (fun j i => Spec.majority (Spec.voicesAt 0 predict j) < Spec.majority (Spec.voicesAt 0 predict i)) := by
  rintro i j x y hi hj hx hy hlt
  have hv : ∀ k < u.items.length, ∀ v ∈ Spec.voicesAt 0 predict k, v = a ∨ v = b := by
    intro k hk v hv
    obtain ⟨m, hm, rfl⟩ := List.mem_map.1 hv
    apply hcl m hm
    rw [List.getD_eq_getElem _ _ (by rw [hp m hm]; exact hk)]
    exact List.getElem_mem _
  have vi := hv i (List.getElem?_eq_some_iff.1 hi).1
  have vj := hv j (List.getElem?_eq_some_iff.1 hj).1
  refine qbc_best ha hu h2 hp hr i j x y hi hj hx hy ?_
  rw [majority_two hab vi, majority_two hab vj] at hlt
  rw [score_two hab (voices_ne h2 i) vi, score_two hab (voices_ne h2 j) vj]
  have li : (Spec.voicesAt 0 predict i).length = predict.length := List.length_map _
  have lj : (Spec.voicesAt 0 predict j).length = predict.length := List.length_map _
  have ci := count_two hab vi
  have cj := count_two hab vj
  rw [li] at ci ⊢
  rw [lj] at cj ⊢
  generalize (Spec.voicesAt 0 predict i).count a = p at *
  generalize (Spec.voicesAt 0 predict i).count b = p' at *
  generalize (Spec.voicesAt 0 predict j).count a = q at *
  generalize (Spec.voicesAt 0 predict j).count b = q' at *
  have fold : ∀ {k k' : Nat}, k + k' = predict.length → evenScore predict.length k = evenScore predict.length ((min k k' : Nat) : ℝ) := by
    intro k k' e
    rcases le_total k k' with h | h
    · rw [min_eq_left h]
    · rw [min_eq_right h, ← evenScore_symm]
      congr 1
      rw [← e]; push_cast; ring
  rw [fold ci, fold cj]
  apply evenScore_lt
  · positivity
  · exact_mod_cast (by omega : min p p' < min q q')
  · have : 2 * min q q' ≤ predict.length := by omega
    have : (2 : ℝ) * ((min q q' : Nat) : ℝ) ≤ predict.length := by exact_mod_cast this
    linarith

/-! ## Distributions -/

theorem part_strict : StrictConvexOn ℝ (Set.Ici (0 : ℝ)) part := by
  refine ⟨convex_Ici 0, fun x hx y hy hxy s t hs ht hst => ?_⟩
  have ht' : t = 1 - s := by linarith
  subst ht'
  exact part_convex hx hy hxy hs (by linarith)

/-- Jensen's inequality for the values in a list. -/
theorem jensen {l : List ℝ} (hne : l ≠ []) (h0 : ∀ x ∈ l, 0 ≤ x) :
    (Spec.Unanimous l → (l.map part).sum = l.length * part (l.sum / l.length)) ∧
    (¬ Spec.Unanimous l → l.length * part (l.sum / l.length) < (l.map part).sum) := by
  have hm : (0 : ℝ) < l.length := by exact_mod_cast List.length_pos_iff.2 hne
  constructor
  · intro h
    obtain ⟨a, t, rfl⟩ := List.exists_cons_of_ne_nil hne
    have e : a :: t = List.replicate (a :: t).length a := List.eq_replicate_iff.2 ⟨rfl, fun b hb => h b hb a (by simp)⟩
    rw [e, List.map_replicate, List.sum_replicate, List.sum_replicate, List.length_replicate, nsmul_eq_mul, nsmul_eq_mul,
      mul_div_cancel_left₀ _ hm.ne']
  · intro h
    unfold Spec.Unanimous at h
    push Not at h
    obtain ⟨a, ha, b, hb, hab⟩ := h
    obtain ⟨i, hi, rfl⟩ := List.getElem_of_mem ha
    obtain ⟨j, hj, rfl⟩ := List.getElem_of_mem hb
    have := part_strict.map_sum_lt (t := Finset.univ) (w := fun _ : Fin l.length => 1 / (l.length : ℝ)) (p := fun i => l[i])
      (fun _ _ => by positivity) (by rw [Finset.sum_const, Finset.card_univ, Fintype.card_fin, nsmul_eq_mul]; field_simp)
      (fun i _ => h0 _ (List.getElem_mem _)) ⟨⟨i, hi⟩, Finset.mem_univ _, ⟨j, hj⟩, Finset.mem_univ _, hab⟩
    simp only [smul_eq_mul, ← Finset.mul_sum] at this
    have e1 : ∑ i : Fin l.length, l[i] = l.sum := by
      have := Fin.sum_univ_fun_getElem l id
      simpa using this
    have e2 : ∑ i : Fin l.length, part l[i] = (l.map part).sum := Fin.sum_univ_fun_getElem l part
    have e1' : ∑ i : Fin l.length, l[(i : Nat)] = l.sum := e1
    have e2' : ∑ i : Fin l.length, part l[(i : Nat)] = (l.map part).sum := e2
    simp only [Fin.getElem_fin] at this
    rw [e1', e2', one_div_mul_eq_div, one_div_mul_eq_div, lt_div_iff₀ hm] at this
    linarith

theorem sum_sub (l : List ℝ) (f g : ℝ → ℝ) : (l.map (fun x => f x - g x)).sum = (l.map f).sum - (l.map g).sum := by
  induction l with
  | nil => simp
  | cons a l ih => simp only [List.map_cons, List.sum_cons, ih]; ring

/-- The contribution of one class. -/
theorem klClass {l : List ℝ} (hne : l ≠ []) (h0 : ∀ x ∈ l, 0 ≤ x) :
    (l.map (fun x => x * Real.log ((x + 1 / 1000000000) / (l.sum / l.length + 1 / 1000000000)))).sum =
      (l.map part).sum - l.length * part (l.sum / l.length) := by
  have hm : (0 : ℝ) < l.length := by exact_mod_cast List.length_pos_iff.2 hne
  have hs : 0 ≤ l.sum / l.length := div_nonneg (List.sum_nonneg h0) hm.le
  have e : l.map (fun x => x * Real.log ((x + 1 / 1000000000) / (l.sum / l.length + 1 / 1000000000))) =
      l.map (fun x => part x - x * Real.log (l.sum / l.length + 1 / 1000000000)) := by
    apply List.map_congr_left
    intro x hx
    have := h0 x hx
    unfold part
    rw [Real.log_div (by linarith) (by linarith)]
    ring
  rw [e, sum_sub, List.sum_map_mul_right, List.map_id']
  congr 1
  unfold part
  rw [← mul_assoc, mul_div_cancel₀ _ hm.ne']

theorem klScore_eq {labels : Nat} {inst : List (List ℝ)} (hne : inst ≠ []) (h0 : ∀ r ∈ inst, ∀ v ∈ r, 0 ≤ v) :
    klScore Real.log labels inst = ∑ l ∈ Finset.range labels, (((Spec.voicesAt 0 inst l).map part).sum -
      inst.length * part ((Spec.voicesAt 0 inst l).sum / inst.length)) := by
  unfold klScore
  rw [list_range_sum]
  refine Finset.sum_congr rfl (fun l _ => ?_)
  have hn : ∀ x ∈ Spec.voicesAt 0 inst l, 0 ≤ x := by
    intro x hx
    obtain ⟨r, hr, rfl⟩ := List.mem_map.1 hx
    rw [List.getD_eq_getElem?_getD]
    cases hg : r[l]? with
    | none => simp
    | some v => exact h0 r hr v (List.mem_of_getElem? hg)
  have hne' : Spec.voicesAt 0 inst l ≠ [] := fun h => hne (List.map_eq_nil_iff.1 h)
  have := klClass hne' hn
  rw [show (Spec.voicesAt 0 inst l).length = inst.length from List.length_map _] at this
  rw [← this]
  simp only [Spec.voicesAt, List.map_map]
  rfl

theorem kl_parts {inst : List (List ℝ)} (hne : inst ≠ []) (h0 : ∀ r ∈ inst, ∀ v ∈ r, 0 ≤ v) (l : Nat) :
    (Spec.Unanimous (Spec.voicesAt 0 inst l) → ((Spec.voicesAt 0 inst l).map part).sum - inst.length * part ((Spec.voicesAt 0 inst l).sum / inst.length) = 0) ∧
    (¬ Spec.Unanimous (Spec.voicesAt 0 inst l) → 0 < ((Spec.voicesAt 0 inst l).map part).sum - inst.length * part ((Spec.voicesAt 0 inst l).sum / inst.length)) := by
  have hn : ∀ x ∈ Spec.voicesAt 0 inst l, 0 ≤ x := by
    intro x hx
    obtain ⟨r, hr, rfl⟩ := List.mem_map.1 hx
    rw [List.getD_eq_getElem?_getD]
    cases hg : r[l]? with
    | none => simp
    | some v => exact h0 r hr v (List.mem_of_getElem? hg)
  have hne' : Spec.voicesAt 0 inst l ≠ [] := fun h => hne (List.map_eq_nil_iff.1 h)
  have hl : (Spec.voicesAt 0 inst l).length = inst.length := List.length_map _
  have := jensen hne' hn
  rw [hl] at this
  exact ⟨fun h => sub_eq_zero.2 (this.1 h), fun h => sub_pos.2 (this.2 h)⟩

/-- The members give the same rows iff they give the same numbers to every label. -/
theorem unanimous_columns {β : Type} {d : β} {labels : Nat} {inst : List (List β)} (hl : ∀ r ∈ inst, r.length = labels) :
    Spec.Unanimous inst ↔ ∀ l < labels, Spec.Unanimous (Spec.voicesAt d inst l) := by
  constructor
  · intro h l _ a ha b hb
    obtain ⟨r, hr, rfl⟩ := List.mem_map.1 ha
    obtain ⟨s, hs, rfl⟩ := List.mem_map.1 hb
    rw [h r hr s hs]
  · intro h r hr s hs
    apply List.ext_getElem (by rw [hl r hr, hl s hs])
    intro l h1 h2
    have := h l (by rw [← hl r hr]; exact h1) (r.getD l d) (List.mem_map.2 ⟨r, hr, rfl⟩) (s.getD l d) (List.mem_map.2 ⟨s, hs, rfl⟩)
    rwa [List.getD_eq_getElem _ _ h1, List.getD_eq_getElem _ _ h2] at this

theorem kl_unanimous {labels : Nat} {inst : List (List ℝ)} (hne : inst ≠ []) (h0 : ∀ r ∈ inst, ∀ v ∈ r, 0 ≤ v) (hl : ∀ r ∈ inst, r.length = labels) :
    (Spec.Unanimous inst → klScore Real.log labels inst = 0) ∧ (¬ Spec.Unanimous inst → 0 < klScore Real.log labels inst) := by
  rw [klScore_eq hne h0, unanimous_columns (d := (0 : ℝ)) hl]
  constructor
  · intro h
    exact Finset.sum_eq_zero (fun l hl => (kl_parts hne h0 l).1 (h l (Finset.mem_range.1 hl)))
  · intro h
    push Not at h
    obtain ⟨l, hl, h⟩ := h
    refine Finset.sum_pos' (fun k _ => ?_) ⟨l, Finset.mem_range.2 hl, (kl_parts hne h0 l).2 h⟩
    by_cases hk : Spec.Unanimous (Spec.voicesAt 0 inst k)
    · exact ((kl_parts hne h0 k).1 hk).ge
    · exact ((kl_parts hne h0 k).2 hk).le

theorem voices_rows {β : Type} {predict : List (List (List β))} {n labels : Nat} (hn : ∀ m ∈ predict, m.length = n)
    (hl : ∀ m ∈ predict, ∀ r ∈ m, r.length = labels) {k : Nat} (hk : k < n) : ∀ r ∈ Spec.voicesAt [] predict k, r.length = labels ∧ ∃ m ∈ predict, r ∈ m := by
  intro r hr
  obtain ⟨m, hm, rfl⟩ := List.mem_map.1 hr
  rw [List.getD_eq_getElem _ _ (by rw [hn m hm]; exact hk)]
  exact ⟨hl m hm _ (List.getElem_mem _), m, hm, List.getElem_mem _⟩

/-- **C102**, KL divergence: an example on which all members predict the same distribution is selected only if every other example has been. -/
theorem C102_kl {argsort : List ℝ → List Nat} (ha : ∀ l, Spec.IsArgsort l (argsort l)) {u : Coll α} (hu : u.items.Nodup)
    {labels : Nat} {predict : List (List (List ℝ))} (hn : ∀ m ∈ predict, m.length = u.items.length)
    (hl : ∀ m ∈ predict, ∀ r ∈ m, r.length = labels) (hpos : ∀ m ∈ predict, ∀ r ∈ m, ∀ v ∈ r, 0 ≤ v) {batch : Int} {r : List α}
    (hr : qbcKL Real.log argsort u u.items.length labels predict batch = .ok r) :
    Spec.NoneBetter u.items r (fun j i => Spec.Unanimous (Spec.voicesAt [] predict i) ∧ ¬ Spec.Unanimous (Spec.voicesAt [] predict j)) := by
  rintro i j x y hi hj hx hy ⟨h, h'⟩
  by_cases hall : batch ≤ 0 ∨ (u.items.length : Int) ≤ batch
  · unfold qbcKL frame at hr
    split_ifs at hr with h1 h2
    · simp at hr; subst hr; exact absurd (List.mem_of_getElem? hj) hy
    · omega
  unfold qbcKL at hr
  have h2 : 1 < predict.length := by
    by_contra hc
    rw [if_pos (by omega)] at hr
    unfold frame at hr
    rw [if_neg (by omega), if_neg (by omega)] at hr
    simp at hr
  rw [if_neg (by omega)] at hr
  have hil : i < u.items.length := (List.getElem?_eq_some_iff.1 hi).1
  have hjl : j < u.items.length := (List.getElem?_eq_some_iff.1 hj).1
  have key := byLargest_best (batch := batch) ha hu (by rw [List.length_map, List.length_range]) hr hi hj hx hy
    (a := klScore Real.log labels (predict.map (fun m => m.getD i []))) (b := klScore Real.log labels (predict.map (fun m => m.getD j [])))
    (by rw [List.getElem?_map, List.getElem?_range hil]; rfl) (by rw [List.getElem?_map, List.getElem?_range hjl]; rfl)
  have w : ∀ k < u.items.length, (Spec.Unanimous (Spec.voicesAt [] predict k) → klScore Real.log labels (predict.map (fun m => m.getD k [])) = 0) ∧
      (¬ Spec.Unanimous (Spec.voicesAt [] predict k) → 0 < klScore Real.log labels (predict.map (fun m => m.getD k []))) := by
    intro k hk
    have hrow := voices_rows hn hl hk
    exact kl_unanimous (inst := Spec.voicesAt [] predict k) (voices_ne h2 k)
      (fun r hr => by obtain ⟨_, m, hm, hrm⟩ := hrow r hr; exact hpos m hm r hrm) (fun r hr => (hrow r hr).1)
  rw [(w i hil).1 h] at key
  exact absurd key (not_le.2 ((w j hjl).2 h'))

/-! ## 0/1 outputs -/

theorem label_bounds {n v : Nat} (hv : v ≤ n) (hn : 2 ≤ n) :
    (v = 0 ∨ v = n → -(1 / 1000000000 : ℝ) ≤ -(if v ≠ 0 then (v : ℝ) / n * Real.log (((v : ℝ) + 1 / 1000000000) / n) else 0) * n ∧
      -(if v ≠ 0 then (v : ℝ) / n * Real.log (((v : ℝ) + 1 / 1000000000) / n) else 0) ≤ 0) ∧
    (0 < v → v < n → 0 < -(if v ≠ 0 then (v : ℝ) / n * Real.log (((v : ℝ) + 1 / 1000000000) / n) else 0) ∧
      (49 / 100 : ℝ) ≤ -(if v ≠ 0 then (v : ℝ) / n * Real.log (((v : ℝ) + 1 / 1000000000) / n) else 0) * n) := by
  have hn' : (2 : ℝ) ≤ n := by exact_mod_cast hn
  constructor
  · rintro (rfl | rfl)
    · simp
    · have hv0 : v ≠ 0 := by omega
      rw [if_pos hv0, div_self (by linarith), one_mul]
      have h1 : 0 ≤ Real.log (((v : ℝ) + 1 / 1000000000) / v) := Real.log_nonneg (by rw [le_div_iff₀ (by linarith)]; linarith)
      have h2 := Real.log_le_sub_one_of_pos (x := ((v : ℝ) + 1 / 1000000000) / v) (by positivity)
      have e : ((v : ℝ) + 1 / 1000000000) / v - 1 = 1 / 1000000000 / v := by
        have : (v : ℝ) ≠ 0 := by linarith
        field_simp
        ring
      rw [e, le_div_iff₀ (by linarith)] at h2
      constructor
      · linarith
      · linarith
  · intro h0 h1
    have hv1 : (1 : ℝ) ≤ v := by exact_mod_cast h0
    have hv2 : (v : ℝ) + 1 ≤ n := by exact_mod_cast h1
    rw [if_pos (by omega)]
    have hl := Real.log_le_sub_one_of_pos (x := ((v : ℝ) + 1 / 1000000000) / n) (by positivity)
    have hlt : Real.log (((v : ℝ) + 1 / 1000000000) / n) < 0 := by
      apply Real.log_neg (by positivity)
      rw [div_lt_one (by linarith)]; linarith
    refine ⟨neg_pos.2 (mul_neg_of_pos_of_neg (by positivity) hlt), ?_⟩
    have e : -((v : ℝ) / n * Real.log (((v : ℝ) + 1 / 1000000000) / n)) * n = v * -Real.log (((v : ℝ) + 1 / 1000000000) / n) := by
      field_simp
    rw [e]
    have h3 : (v : ℝ) * (1 - ((v : ℝ) + 1 / 1000000000) / n) ≤ v * -Real.log (((v : ℝ) + 1 / 1000000000) / n) :=
      mul_le_mul_of_nonneg_left (by linarith) (by linarith)
    refine le_trans ?_ h3
    have e2 : (v : ℝ) * (1 - ((v : ℝ) + 1 / 1000000000) / n) = v * (n - v - 1 / 1000000000) / n := by field_simp; ring
    rw [e2, le_div_iff₀ (by linarith)]
    nlinarith [mul_nonneg (sub_nonneg.2 hv1) (sub_nonneg.2 hv2)]

theorem sum_le_length {l : List Nat} (h : ∀ x ∈ l, x ≤ 1) : l.sum ≤ l.length := by
  induction l with
  | nil => simp
  | cons a l ih =>
    have := ih (fun x hx => h x (by simp [hx]))
    have := h a (by simp)
    simp only [List.sum_cons, List.length_cons]; omega

theorem sum_ends {l : List Nat} (h : ∀ x ∈ l, x ≤ 1) : Spec.Unanimous l ↔ l.sum = 0 ∨ l.sum = l.length := by
  constructor
  · intro hu
    cases l with
    | nil => simp
    | cons a t =>
      have e : a :: t = List.replicate (a :: t).length a := List.eq_replicate_iff.2 ⟨rfl, fun b hb => hu b hb a (by simp)⟩
      have ha := h a (by simp)
      rw [e, List.sum_replicate, List.length_replicate]
      have : a = 0 ∨ a = 1 := by omega
      rcases this with rfl | rfl <;> simp
  · have full : ∀ l : List Nat, (∀ x ∈ l, x ≤ 1) → l.sum = l.length → ∀ x ∈ l, x = 1 := by
      intro l
      induction l with
      | nil => simp
      | cons a t ih =>
        intro h e x hx
        have h1 := h a (by simp)
        have h2 := sum_le_length (l := t) (fun x hx => h x (by simp [hx]))
        simp only [List.sum_cons, List.length_cons] at e
        rcases List.mem_cons.1 hx with rfl | hx
        · omega
        · exact ih (fun x hx => h x (by simp [hx])) (by omega) x hx
    rintro (h0 | h0) a ha b hb
    · rw [List.sum_eq_zero_iff] at h0
      rw [h0 a ha, h0 b hb]
    · rw [full l h h0 a ha, full l h h0 b hb]

theorem mat_unanimous {labels : Nat} {inst : List (List Nat)} (h2 : 2 ≤ inst.length) (h1 : ∀ r ∈ inst, ∀ v ∈ r, v ≤ 1)
    (hl : ∀ r ∈ inst, r.length = labels) (hs : labels ≤ 400000000) :
    (Spec.Unanimous inst → voteEntropyMat Real.log labels inst ≤ 0) ∧ (¬ Spec.Unanimous inst → 0 < voteEntropyMat Real.log labels inst) := by
  have hm : (2 : ℝ) ≤ inst.length := by exact_mod_cast h2
  have e : voteEntropyMat Real.log labels inst = ∑ l ∈ Finset.range labels,
      -(if (Spec.voicesAt 0 inst l).sum ≠ 0 then (((Spec.voicesAt 0 inst l).sum : Nat) : ℝ) / inst.length *
        Real.log (((((Spec.voicesAt 0 inst l).sum : Nat) : ℝ) + 1 / 1000000000) / inst.length) else 0) := by
    unfold voteEntropyMat
    rw [list_range_sum, Finset.sum_neg_distrib]
    rfl
  have hb : ∀ l, ∀ x ∈ Spec.voicesAt 0 inst l, x ≤ 1 := by
    intro l x hx
    obtain ⟨r, hr, rfl⟩ := List.mem_map.1 hx
    rw [List.getD_eq_getElem?_getD]
    cases hg : r[l]? with
    | none => simp
    | some v => exact h1 r hr v (List.mem_of_getElem? hg)
  have hlen : ∀ l, (Spec.voicesAt 0 inst l).length = inst.length := fun l => List.length_map _
  have hle : ∀ l, (Spec.voicesAt 0 inst l).sum ≤ inst.length := fun l => (sum_le_length (hb l)).trans (hlen l).le
  have hun : ∀ l, Spec.Unanimous (Spec.voicesAt 0 inst l) ↔ (Spec.voicesAt 0 inst l).sum = 0 ∨ (Spec.voicesAt 0 inst l).sum = inst.length := by
    intro l; rw [sum_ends (hb l), hlen l]
  rw [e, unanimous_columns (d := 0) hl]
  constructor
  · intro h
    exact Finset.sum_nonpos (fun l hl => ((label_bounds (hle l) h2).1 ((hun l).1 (h l (Finset.mem_range.1 hl)))).2)
  · intro h
    push Not at h
    obtain ⟨l, hlt, h⟩ := h
    rw [hun l] at h
    push Not at h
    have hpos : 0 < (∑ l ∈ Finset.range labels,
        -(if (Spec.voicesAt 0 inst l).sum ≠ 0 then (((Spec.voicesAt 0 inst l).sum : Nat) : ℝ) / inst.length *
          Real.log (((((Spec.voicesAt 0 inst l).sum : Nat) : ℝ) + 1 / 1000000000) / inst.length) else 0)) * inst.length := by
      rw [Finset.sum_mul, ← Finset.add_sum_erase _ _ (Finset.mem_range.2 hlt)]
      have hA := ((label_bounds (hle l) h2).2 (Nat.pos_of_ne_zero h.1) (lt_of_le_of_ne (hle l) h.2)).2
      have hB : ∑ _l ∈ (Finset.range labels).erase l, -(1 / 1000000000 : ℝ) ≤ ∑ l ∈ (Finset.range labels).erase l,
          -(if (Spec.voicesAt 0 inst l).sum ≠ 0 then (((Spec.voicesAt 0 inst l).sum : Nat) : ℝ) / inst.length *
            Real.log (((((Spec.voicesAt 0 inst l).sum : Nat) : ℝ) + 1 / 1000000000) / inst.length) else 0) * inst.length := by
        refine Finset.sum_le_sum (fun k _ => ?_)
        by_cases hk : (Spec.voicesAt 0 inst k).sum = 0 ∨ (Spec.voicesAt 0 inst k).sum = inst.length
        · exact ((label_bounds (hle k) h2).1 hk).1
        · push Not at hk
          have := ((label_bounds (hle k) h2).2 (Nat.pos_of_ne_zero hk.1) (lt_of_le_of_ne (hle k) hk.2)).2
          linarith
      rw [Finset.sum_const, nsmul_eq_mul, Finset.card_erase_of_mem (Finset.mem_range.2 hlt), Finset.card_range] at hB
      have hc : ((labels - 1 : Nat) : ℝ) ≤ 400000000 := by exact_mod_cast (by omega : labels - 1 ≤ 400000000)
      linarith
    exact pos_of_mul_pos_left hpos (by linarith)

/-- **C102**, 0/1 outputs (not more than 400 million labels, because of the `1e-9` in the logarithm): an example on which the members predict the same
labels is selected only if every other example has been. -/
theorem C102_labels {argsort : List ℝ → List Nat} (ha : ∀ l, Spec.IsArgsort l (argsort l)) {u : Coll α} (hu : u.items.Nodup)
    {labels : Nat} (hs : labels ≤ 400000000) {predict : List (List (List Nat))} (hn : ∀ m ∈ predict, m.length = u.items.length)
    (hl : ∀ m ∈ predict, ∀ r ∈ m, r.length = labels) {batch : Int} {r : List α}
    (hr : qbcMat Real.log argsort u u.items.length labels predict batch = .ok r) :
    Spec.NoneBetter u.items r (fun j i => Spec.Unanimous (Spec.voicesAt [] predict i) ∧ ¬ Spec.Unanimous (Spec.voicesAt [] predict j)) := by
  rintro i j x y hi hj hx hy ⟨h, h'⟩
  by_cases hall : batch ≤ 0 ∨ (u.items.length : Int) ≤ batch
  · unfold qbcMat frame at hr
    split_ifs at hr with h1 h2
    · simp at hr; subst hr; exact absurd (List.mem_of_getElem? hj) hy
    · omega
  unfold qbcMat at hr
  have h2 : 1 < predict.length := by
    by_contra hc
    rw [if_pos (by omega)] at hr
    unfold frame at hr
    rw [if_neg (by omega), if_neg (by omega)] at hr
    simp at hr
  rw [if_neg (by omega)] at hr
  have h3 : (!zeroOne predict) = false := by
    by_contra hc
    rw [if_pos (by simpa using hc)] at hr
    unfold frame at hr
    rw [if_neg (by omega), if_neg (by omega)] at hr
    simp at hr
  rw [h3] at hr
  simp only [Bool.false_eq_true, if_false] at hr
  have h01 : ∀ m ∈ predict, ∀ r ∈ m, ∀ v ∈ r, v ≤ 1 := by
    have hz : zeroOne predict = true := by simpa using h3
    unfold zeroOne at hz
    simp only [Bool.and_eq_true, List.all_eq_true, List.mem_flatten, Bool.or_eq_true, beq_iff_eq] at hz
    intro m hm r hr v hv
    rcases hz.1.1 v ⟨r, ⟨m, hm, hr⟩, hv⟩ with h | h <;> omega
  have hil : i < u.items.length := (List.getElem?_eq_some_iff.1 hi).1
  have hjl : j < u.items.length := (List.getElem?_eq_some_iff.1 hj).1
  have key := byLargest_best (batch := batch) ha hu (by rw [List.length_map, List.length_range]) hr hi hj hx hy
    (a := voteEntropyMat Real.log labels (predict.map (fun m => m.getD i []))) (b := voteEntropyMat Real.log labels (predict.map (fun m => m.getD j [])))
    (by rw [List.getElem?_map, List.getElem?_range hil]; rfl) (by rw [List.getElem?_map, List.getElem?_range hjl]; rfl)
  have w : ∀ k < u.items.length, (Spec.Unanimous (Spec.voicesAt [] predict k) → voteEntropyMat Real.log labels (predict.map (fun m => m.getD k [])) ≤ 0) ∧
      (¬ Spec.Unanimous (Spec.voicesAt [] predict k) → 0 < voteEntropyMat Real.log labels (predict.map (fun m => m.getD k []))) := by
    intro k hk
    have hrow := voices_rows hn hl hk
    exact mat_unanimous (inst := Spec.voicesAt [] predict k) (by rw [show (Spec.voicesAt [] predict k).length = predict.length from List.length_map _]; exact h2)
      (fun r hr => by obtain ⟨_, m, hm, hrm⟩ := hrow r hr; exact h01 m hm r hrm) (fun r hr => (hrow r hr).1) hs
  exact absurd (key.trans ((w i hil).1 h)) (not_le.2 ((w j hjl).2 h'))

/-! ## A concrete case -/

/-- Three members, four examples; they agree on the first and the last. -/
example : Spec.Unanimous (Spec.voicesAt 0 [[0, 0, 1, 2], [0, 1, 0, 2], [0, 1, 2, 2]] 3) ∧
    ¬ Spec.Unanimous (Spec.voicesAt 0 [[0, 0, 1, 2], [0, 1, 0, 2], [0, 1, 2, 2]] 1) := by
  constructor
  · simp [Spec.Unanimous, Spec.voicesAt]
  · simp [Spec.Unanimous, Spec.voicesAt]

example : qbc (fun x : ℚ => x - 1) argsortBy (.list [10, 11, 12, 13]) [[0, 0, 1, 2], [0, 1, 0, 2], [0, 1, 2, 2]] 2 = .ok [11, 12] := by
  decide +kernel

example : [Spec.majority [0, 1, 0, 1], Spec.majority [0, 1, 1, 1]] = [2, 3] := by decide

end Alipy.Consensus
