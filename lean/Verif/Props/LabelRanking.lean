import Verif.Spec.LabelRanking
import Verif.Spec.Sampling
import Mathlib.Tactic

/-! # C84, C85, C86: the label ranking model -/
namespace Alipy.LR
set_option linter.unusedSectionVars false
variable {K : Type} [Field K] [LinearOrder K] [IsStrictOrderedRing K] {D d : Nat}

/-! ## C84: prediction -/

theorem foldl_max (f : Nat → K) : ∀ (n : Nat) (z : K), let m := (List.range n).foldl (fun m j => max m (f j)) z
    z ≤ m ∧ (∀ j < n, f j ≤ m) ∧ (m = z ∨ ∃ j < n, m = f j)
  | 0, z => by simp
  | n + 1, z => by
    obtain ⟨h1, h2, h3⟩ := foldl_max f n z
    simp only [List.range_succ, List.foldl_append, List.foldl_cons, List.foldl_nil]
    refine ⟨le_max_of_le_left h1, ?_, ?_⟩
    · intro j hj
      rcases Nat.lt_succ_iff_lt_or_eq.1 hj with h | rfl
      · exact le_max_of_le_left (h2 j h)
      · exact le_max_right _ _
    · rcases max_choice ((List.range n).foldl (fun m j => max m (f j)) z) (f n) with h | h
      · rw [h]
        rcases h3 with h3 | ⟨j, hj, h3⟩
        · exact Or.inl h3
        · exact Or.inr ⟨j, by omega, h3⟩
      · exact Or.inr ⟨n, by omega, h⟩

theorem predict_value (s : St D d K) (x : Fin d → K) (c : Nat) :
    ∑ k, x k * getBV s k c = value (fun a => s.AB c a / s.Anum) (fun a k => s.AV a k / s.Anum) x := by
  unfold getBV value
  simp only [Finset.mul_sum]
  rw [Finset.sum_comm]
  refine Finset.sum_congr rfl fun a _ => Finset.sum_congr rfl fun k _ => ?_
  ring

/-- C84: `predict` gives every label, and last the threshold label, its score in the averaged model; the predicted labels are `1` for the labels with a
score above that of the threshold label, and `-1` for the others. -/
theorem C84_predict (o : Obj D d K) (hsub : 0 < o.par.numSub) (hn : 0 < o.nClass) (x : Fin d → K) :
    (predict o x).1.length = o.nClass ∧ (predict o x).2.length = o.nClass - 1 ∧
    ∃ score : Nat → K, (∀ c < o.nClass, (predict o x).1[c]? = some (score c) ∧
        IsScore o.par.numSub (fun k a => o.cur.AB k a / o.cur.Anum) (fun a k => o.cur.AV a k / o.cur.Anum) x c (score c)) ∧
      ∀ l < o.nClass - 1, (predict o x).2[l]? = some (if score (o.nClass - 1) < score l then 1 else -1) := by
  set f : Nat → K := fun c => ∑ k, x k * getBV o.cur k c with hf
  set sc : Nat → K := fun c => (List.range (o.par.numSub - 1)).foldl (fun m j => max m (f ((j + 1) + c * o.par.numSub))) (f (0 + c * o.par.numSub)) with hsc
  have e1 : (predict o x).1 = (List.range o.nClass).map sc := rfl
  have e2 : (predict o x).2 = signs ((List.range o.nClass).map sc) := rfl
  refine ⟨by simp [e1], by simp [e2, signs], sc, ?_, ?_⟩
  · intro c hc
    refine ⟨by simp [e1, hc], ?_, ?_⟩
    · obtain ⟨_, _, h3⟩ := foldl_max (fun j => f ((j + 1) + c * o.par.numSub)) (o.par.numSub - 1) (f (0 + c * o.par.numSub))
      rcases h3 with h3 | ⟨j, hj, h3⟩
      · refine ⟨0, hsub, ?_⟩
        rw [← predict_value, Nat.add_comm]
        exact h3
      · refine ⟨j + 1, by omega, ?_⟩
        rw [← predict_value, Nat.add_comm]
        exact h3
    · intro j hj
      obtain ⟨h1, h2, _⟩ := foldl_max (fun j => f ((j + 1) + c * o.par.numSub)) (o.par.numSub - 1) (f (0 + c * o.par.numSub))
      rw [← predict_value, Nat.add_comm]
      cases j with
      | zero => exact h1
      | succ j => exact h2 j (by omega)
  · intro l hl
    rw [e2]
    have hl' : l < o.nClass := by omega
    have hl'' : o.nClass - 1 < o.nClass := by omega
    simp [signs, hl, hl', hl'']

/-- C84: if the labels given to the model do not contain the mark 2 of the threshold label, the model has one column group more than there are labels, so
that exactly the labels get a prediction. -/
theorem C84_all_labels {B0 : Nat → Fin D → K} {V0 : Fin D → Fin d → K} {X : Nat → Fin d → K} {y : List (List K)} {ρs : List Rand} {o : Obj D d K}
    (h : initTrain B0 V0 X y ρs = .ok o) {L : Nat} (hy : y ≠ []) (hL : ∀ r ∈ y, r.length = L) (h2 : ∀ r ∈ y, (2 : K) ∉ r) (x : Fin d → K) :
    o.nClass = L + 1 ∧ (predict o x).2.length = L := by
  have h1 : o.nClass = ((addDummy y).headD []).length := by
    unfold initTrain at h
    dsimp only at h
    split at h
    · cases h
    · cases h; rfl
  have h3 : addDummy y = y.map (fun r => r ++ [2]) := by
    unfold addDummy
    rw [if_neg]
    simp only [List.any_eq_true, decide_eq_true_eq, not_exists, not_and]
    rintro r hr v hv rfl
    exact h2 r hr hv
  have h4 : o.nClass = L + 1 := by
    rw [h1, h3]
    cases y with
    | nil => exact absurd rfl hy
    | cons r t => simp [hL r (by simp)]
  refine ⟨h4, ?_⟩
  simp [predict, signs, ranks, h4]

/-! ## C85: the training step -/

theorem argmaxUpTo_le (f : Nat → K) : ∀ n, argmaxUpTo f n ≤ n
  | 0 => le_refl _
  | n + 1 => by
    unfold argmaxUpTo
    split_ifs
    · exact le_refl _
    · exact (argmaxUpTo_le f n).trans (Nat.le_succ n)

theorem argmaxUpTo_max (f : Nat → K) : ∀ n, ∀ j ≤ n, f j ≤ f (argmaxUpTo f n)
  | 0, j, h => by obtain rfl : j = 0 := by omega
                  exact le_refl _
  | n + 1, j, h => by
    unfold argmaxUpTo
    rcases Nat.lt_or_eq_of_le h with h' | rfl
    · have := argmaxUpTo_max f n j (by omega)
      split_ifs with hc
      · exact this.trans hc.le
      · exact this
    · split_ifs with hc
      · exact le_refl _
      · exact not_lt.1 hc

theorem bestCol_isScore {numSub : Nat} (hn : 0 < numSub) (B : Nat → Fin D → K) (V : Fin D → Fin d → K) (x : Fin d → K) (c : Nat) :
    IsScore numSub B V x c (colScore B (embed V x) (bestCol numSub B (embed V x) c)) ∧ bestCol numSub B (embed V x) c / numSub = c := by
  have h0 := argmaxUpTo_le (fun j => colScore B (embed V x) (c * numSub + j)) (numSub - 1)
  refine ⟨⟨⟨_, by omega, rfl⟩, ?_⟩, ?_⟩
  · intro j hj
    exact argmaxUpTo_max (fun j => colScore B (embed V x) (c * numSub + j)) (numSub - 1) j (by omega)
  · rw [bestCol, Nat.add_comm, Nat.add_mul_div_right _ _ hn, Nat.div_eq_of_lt (by omega), Nat.zero_add]

theorem update_margin (s : St D d K) (η loss : K) (x : Fin d → K) (own other : Nat) (h : own ≠ other) :
    margin (update s η loss x own other (embed s.V x)) x own other =
      margin s x own other + η * loss * ∑ a, ((∑ k, x k ^ 2) * (s.B own a - s.B other a) ^ 2 + 2 * (embed s.V x a) ^ 2 +
        2 * (η * loss * ∑ k, x k ^ 2) * ((s.B own a - s.B other a) * embed s.V x a)) := by
  set q := ∑ k, x k ^ 2 with hq
  have e : ∀ a, ∑ k, (update s η loss x own other (embed s.V x)).V a k * x k =
      embed s.V x a + η * loss * q * (s.B own a - s.B other a) := by
    intro a
    simp only [update, embed, hq, Finset.mul_sum, Finset.sum_mul]
    rw [← Finset.sum_add_distrib]
    refine Finset.sum_congr rfl fun k _ => ?_
    ring
  clear_value q
  simp only [margin, value]
  simp only [e]
  simp only [update, if_neg h, if_true]
  rw [Finset.mul_sum, ← Finset.sum_sub_distrib, ← Finset.sum_sub_distrib, ← Finset.sum_add_distrib]
  refine Finset.sum_congr rfl fun a _ => ?_
  simp only [embed]
  ring

/-- C85: an update with step size `η * loss` for an example with `(η * loss * |x|) ^ 2 ≤ 2` does not make the ranking of the pair of labels worse. -/
theorem C85_update_helps (s : St D d K) (η loss : K) (h0 : 0 ≤ η * loss) (x : Fin d → K) (hx : (η * loss) ^ 2 * ∑ k, x k ^ 2 ≤ 2) (own other : Nat)
    (h : own ≠ other) : margin s x own other ≤ margin (update s η loss x own other (embed s.V x)) x own other := by
  rw [update_margin s η loss x own other h]
  have : 0 ≤ ∑ a, ((∑ k, x k ^ 2) * (s.B own a - s.B other a) ^ 2 + 2 * (embed s.V x a) ^ 2 +
        2 * (η * loss * ∑ k, x k ^ 2) * ((s.B own a - s.B other a) * embed s.V x a)) := by
    refine Finset.sum_nonneg fun a _ => ?_
    set q := ∑ k, x k ^ 2
    have hq : 0 ≤ q := Finset.sum_nonneg fun k _ => sq_nonneg _
    set t := η * loss
    set δ := s.B own a - s.B other a
    set w := embed s.V x a
    -- q δ² + 2 w² + 2 t q δ w = 2 (w + t q δ / 2)² + (q - t² q² / 2) δ²
    have h1 : q * δ ^ 2 + 2 * w ^ 2 + 2 * (t * q) * (δ * w) = 2 * (w + t * q * δ / 2) ^ 2 + q * (2 - t ^ 2 * q) / 2 * δ ^ 2 := by ring
    rw [h1]
    have h2 : 0 ≤ q * (2 - t ^ 2 * q) / 2 := by
      apply div_nonneg _ (by norm_num)
      exact mul_nonneg hq (by linarith)
    positivity
  linarith [mul_nonneg h0 this]

/-- C85, the condition on the size of the example cannot be dropped (the documentation warns that the model is sensitive to scaling): for every larger
example and step size there is a model for which the update makes the ranking worse. -/
theorem C85_size_matters (η loss : K) (h0 : 0 < η * loss) (x : Fin d → K) (hx : 2 < (η * loss) ^ 2 * ∑ k, x k ^ 2) (own other : Nat) (h : own ≠ other) :
    ∃ s : St 1 d K, margin (update s η loss x own other (embed s.V x)) x own other < margin s x own other := by
  refine ⟨⟨fun k _ => if k = own then 1 else 0, fun _ k => - (η * loss / 2) * x k, fun _ _ => 0, fun _ _ => 0, 0, 0⟩, ?_⟩
  rw [update_margin _ η loss x own other h]
  set q := ∑ k, x k ^ 2 with hq
  have hqpos : 0 < q := by
    by_contra hc
    have : (η * loss) ^ 2 * q ≤ 0 := mul_nonpos_of_nonneg_of_nonpos (sq_nonneg _) (not_lt.1 hc)
    linarith
  have he : ∀ a : Fin 1, embed (fun (_ : Fin 1) k => - (η * loss / 2) * x k) x a = - (η * loss / 2) * q := by
    intro a
    simp only [embed, hq, Finset.mul_sum]
    refine Finset.sum_congr rfl fun k _ => ?_
    ring
  simp only [he, Fin.sum_univ_one, if_true, if_neg (Ne.symm h)]
  have : q * (1 - 0) ^ 2 + 2 * (-(η * loss / 2) * q) ^ 2 + 2 * (η * loss * q) * ((1 - 0) * (-(η * loss / 2) * q)) = q * (2 - (η * loss) ^ 2 * q) / 2 := by ring
  rw [this]
  have h3 : q * (2 - (η * loss) ^ 2 * q) / 2 < 0 := by
    apply div_neg_of_neg_of_pos _ (by norm_num)
    exact mul_neg_of_pos_of_neg hqpos (by linarith)
  have := mul_neg_of_pos_of_neg h0 h3
  linarith

theorem negatives_mem {row : List K} {l : Nat} : l ∈ negatives row ↔ row[l]? = some (-1) := by
  unfold negatives
  rw [List.mem_filter, List.mem_range, decide_eq_true_eq]
  constructor
  · exact fun h => h.2
  · exact fun h => ⟨(List.getElem?_eq_some_iff.1 h).1, h⟩

theorem irrelevant_length (row : List K) (c : Nat) (hr : row ≠ []) (hlast : row[row.length - 1]? ≠ some (-1)) : (irrelevant row c).length ≤ row.length := by
  have h1 : (negatives row).length < row.length := by
    have h2 : (negatives row).length ≤ ((List.range row.length).filter (fun l => l ≠ row.length - 1)).length := by
      apply List.Sublist.length_le
      unfold negatives
      apply List.monotone_filter_right
      intro l hl
      simp only [decide_eq_true_eq, ne_eq] at hl ⊢
      rintro rfl
      exact hlast hl
    have h3 : ((List.range row.length).filter (fun l => l ≠ row.length - 1)).length < (List.range row.length).length := by
      apply List.length_filter_lt_length_iff_exists.2
      refine ⟨row.length - 1, ?_, by simp⟩
      have := List.length_pos_iff.2 hr
      simp; omega
    simp only [List.length_range] at h3
    omega
  unfold irrelevant
  split_ifs
  · omega
  · simp; omega

theorem search_some {numSub : Nat} {B : Nat → Fin D → K} {w : Fin D → K} {fy : K} {irr : List Nat} {pick : Nat → Nat → Nat} :
    ∀ {n j j' c : Nat}, search numSub B w fy irr pick n j = some (j', c) →
      j' < n + j ∧ c = irr.getD (pick j' irr.length) 0 ∧ fy - 1 < colScore B w (bestCol numSub B w c)
  | 0, j, j', c, h => by simp [search] at h
  | n + 1, j, j', c, h => by
    unfold search at h
    dsimp only at h
    split_ifs at h with hc
    · cases h
      exact ⟨by omega, rfl, hc⟩
    · obtain ⟨h1, h2, h3⟩ := search_some h
      exact ⟨by omega, h2, h3⟩

theorem search_none {numSub : Nat} {B : Nat → Fin D → K} {w : Fin D → K} {fy : K} {irr : List Nat} {pick : Nat → Nat → Nat} :
    ∀ {n j : Nat}, search numSub B w fy irr pick n j = none →
      ∀ i, j ≤ i → i < n + j → colScore B w (bestCol numSub B w (irr.getD (pick i irr.length) 0)) ≤ fy - 1
  | 0, j, _, i, h1, h2 => by omega
  | n + 1, j, h, i, h1, h2 => by
    unfold search at h
    dsimp only at h
    split_ifs at h with hc
    rcases Nat.lt_or_eq_of_le h1 with h3 | rfl
    · exact search_none h i h3 (by omega)
    · exact not_lt.1 hc

theorem harmonics_get : ∀ (n k j : Nat) (acc : K), j < n → (harmonics n acc k)[j]? = some (acc + ∑ i ∈ Finset.range (j + 1), 1 / (((k + i : Nat) : K) + 1))
  | 0, k, j, acc, h => by omega
  | n + 1, k, 0, acc, h => by simp [harmonics]
  | n + 1, k, j + 1, acc, h => by
    simp only [harmonics, List.getElem?_cons_succ]
    rw [harmonics_get n (k + 1) j _ (by omega), Finset.sum_range_succ' _ (j + 1)]
    congr 1
    have : ∀ i, ((k + 1 + i : Nat) : K) = ((k + (i + 1) : Nat) : K) := by intro i; congr 1; omega
    simp only [this, Nat.add_zero]
    ring

/-- C85: the weights are the harmonic numbers `1 + 1/2 + ... + 1/(j+1)`. -/
theorem C85_weights (n j : Nat) (h : j < n * 5) :
    (Par.std (K := K) n).costs[j]? = some (∑ i ∈ Finset.range (j + 1), 1 / ((i : K) + 1)) := by
  simp only [Par.std]
  rw [harmonics_get _ _ _ _ h]
  simp

/-- C85: the labels that a relevant label `l` is compared with are the irrelevant ones and the threshold label, each once; the threshold label is compared
with the irrelevant ones. -/
theorem C85_compared_with (row : List K) (l : Nat) (hlast : row[row.length - 1]? ≠ some (-1)) :
    (irrelevant row l).Nodup ∧ ∀ c, c ∈ irrelevant row l ↔ row[c]? = some (-1) ∨ (c = row.length - 1 ∧ l ≠ c) := by
  have hn : (negatives row).Nodup := List.Nodup.filter _ List.nodup_range
  unfold irrelevant
  split_ifs with h
  · refine ⟨hn, fun c => ?_⟩
    rw [negatives_mem]
    constructor
    · exact Or.inl
    · rintro (h1 | ⟨h1, h2⟩)
      · exact h1
      · exact absurd (h.trans h1.symm) h2
  · refine ⟨?_, fun c => ?_⟩
    · rw [List.nodup_append]
      refine ⟨hn, by simp, ?_⟩
      rintro a ha b hb rfl
      rw [List.mem_singleton] at hb
      subst hb
      exact hlast (negatives_mem.1 ha)
    · rw [List.mem_append, negatives_mem, List.mem_singleton]
      constructor
      · rintro (h1 | rfl)
        · exact Or.inl h1
        · exact Or.inr ⟨rfl, h⟩
      · rintro (h1 | ⟨h1, _⟩)
        · exact Or.inl h1
        · exact Or.inr h1

/-- The row has a threshold label: the last one, marked 2. -/
def HasThreshold (row : List K) : Prop := row[row.length - 1]? = some 2

/-- C85: one step with an example and one of its labels (one marked as relevant, or the threshold label). It never raises. Either nothing changes, and
then every label that was drawn (as many as there are irrelevant ones) is ranked below by at least 1; or one label `c` was found that should be ranked
below, but is not by 1. Then exactly the best columns of the two labels and `V` change; the weight is the harmonic number of the estimated rank; and if
the example is not too large, the difference of the two columns does not shrink. -/
theorem C85_step {nClass : Nat} {X : Nat → Fin d → K} {rows : List (List K)} {pick : Nat → Nat → Nat} (hpick : ∀ j n, 0 < n → pick j n < n)
    (s : St D d K) {i l : Nat} {row : List K} (hi : rows[i]? = some row) (hw : row.length = nClass) (ht : HasThreshold row)
    (hl : ∃ v, row[l]? = some v ∧ 1 ≤ v) :
    ∃ s', step (Par.std nClass) X rows pick s (i, l) = .ok s' ∧
      let own := bestCol 5 s.B (embed s.V (X i)) l
      let irr := irrelevant row l
      ((s' = s ∧ ∀ j < irr.length, ∃ c, c ∈ irr ∧ irr[pick j irr.length]? = some c ∧ 1 ≤ margin s (X i) own (bestCol 5 s.B (embed s.V (X i)) c)) ∨
      ∃ c j loss, c ∈ irr ∧ j < irr.length ∧ irr[pick j irr.length]? = some c ∧
        let other := bestCol 5 s.B (embed s.V (X i)) c
        own / 5 = l ∧ other / 5 = c ∧ (row[c]? = some (-1) ∨ (c = nClass - 1 ∧ l ≠ c)) ∧ own ≠ other ∧
        margin s (X i) own other < 1 ∧
        loss = ∑ k ∈ Finset.range (irr.length / (j + 1)), 1 / ((k : K) + 1) ∧
        (∀ k, k ≠ own → k ≠ other → s'.B k = s.B k) ∧ s'.AB = s.AB ∧ s'.AV = s.AV ∧ s'.Anum = s.Anum ∧ s'.trounds = s.trounds + 1 ∧
        ((1 / 20 * loss) ^ 2 * ∑ k, X i k ^ 2 ≤ 2 → margin s (X i) own other ≤ margin s' (X i) own other)) := by
  have hrne : row ≠ [] := by rintro rfl; obtain ⟨v, hv, _⟩ := hl; simp at hv
  have hlast : row[row.length - 1]? ≠ some (-1) := by
    rw [ht]
    intro h
    have : (2 : K) = -1 := by simpa using h
    linarith [show (2 : K) = 2 from rfl]
  have hlen := irrelevant_length row l hrne hlast
  have hmem : ∀ c ∈ irrelevant row l, row[c]? = some (-1) ∨ (c = nClass - 1 ∧ l ≠ c) := by
    intro c hc
    unfold irrelevant at hc
    split_ifs at hc with h
    · exact Or.inl (negatives_mem.1 hc)
    · rcases List.mem_append.1 hc with hc | hc
      · exact Or.inl (negatives_mem.1 hc)
      · right
        rw [List.mem_singleton] at hc
        subst hc
        exact ⟨by rw [hw], h⟩
  have hdraw : ∀ j, 0 < (irrelevant row l).length → ∃ c ∈ irrelevant row l, (irrelevant row l)[pick j (irrelevant row l).length]? = some c ∧
      (irrelevant row l).getD (pick j (irrelevant row l).length) 0 = c := by
    intro j h0
    have := hpick j _ h0
    refine ⟨(irrelevant row l)[pick j (irrelevant row l).length], List.getElem_mem _, by simp [this], by simp [List.getD, this]⟩
  have hrow : rows.getD i [] = row := by simp [List.getD, hi]
  unfold step
  simp only [hrow]
  cases hs : search (Par.std (K := K) nClass).numSub s.B (embed s.V (X i)) (colScore s.B (embed s.V (X i))
      (bestCol (Par.std (K := K) nClass).numSub s.B (embed s.V (X i)) l)) (irrelevant row l) pick (irrelevant row l).length 0 with
  | none =>
    refine ⟨s, rfl, Or.inl ⟨rfl, ?_⟩⟩
    intro j hj
    obtain ⟨c, hc, h1, h2⟩ := hdraw j (by omega)
    refine ⟨c, hc, h1, ?_⟩
    have := search_none hs j (Nat.zero_le _) (by omega)
    rw [h2] at this
    have e : ∀ k, colScore s.B (embed s.V (X i)) k = value (s.B k) s.V (X i) := fun _ => rfl
    rw [e, e] at this
    unfold margin
    simp only [Par.std] at this
    linarith
  | some r =>
    obtain ⟨j, c⟩ := r
    obtain ⟨h1, h2, h3⟩ := search_some hs
    have h1 : j < (irrelevant row l).length := by omega
    obtain ⟨c', hc', h4, h5⟩ := hdraw j (by omega)
    rw [h5] at h2
    subst h2
    have hq1 : 1 ≤ (irrelevant row l).length / (j + 1) := (Nat.one_le_div_iff (by omega)).2 (by omega)
    have hq2 : (irrelevant row l).length / (j + 1) ≤ (irrelevant row l).length := Nat.div_le_self _ _
    have hcost := C85_weights (K := K) nClass ((irrelevant row l).length / (j + 1) - 1) (by omega)
    rw [Nat.sub_add_cancel hq1] at hcost
    have hne : l ≠ c := by
      rcases hmem c hc' with h | h
      · rintro rfl
        obtain ⟨v, hv, hv1⟩ := hl
        rw [h] at hv
        cases hv
        linarith
      · exact h.2
    have hown := (bestCol_isScore (by norm_num : 0 < 5) s.B s.V (X i) l).2
    have hoth := (bestCol_isScore (by norm_num : 0 < 5) s.B s.V (X i) c).2
    have hcol : bestCol 5 s.B (embed s.V (X i)) l ≠ bestCol 5 s.B (embed s.V (X i)) c := by
      intro h
      rw [h, hoth] at hown
      exact hne hown.symm
    simp only [hcost]
    refine ⟨_, rfl, Or.inr ⟨c, j, _, hc', h1, h4, hown, hoth, hmem c hc', hcol, ?_, rfl, ?_, rfl, rfl, rfl, rfl, ?_⟩⟩
    · have e : ∀ k, colScore s.B (embed s.V (X i)) k = value (s.B k) s.V (X i) := fun _ => rfl
      rw [e, e] at h3
      unfold margin
      simp only [Par.std] at h3
      linarith
    · intro k hk1 hk2
      have hk1' : k ≠ bestCol (Par.std (K := K) nClass).numSub s.B (embed s.V (X i)) l := hk1
      have hk2' : k ≠ bestCol (Par.std (K := K) nClass).numSub s.B (embed s.V (X i)) c := hk2
      simp [update, hk1', hk2']
    · intro hx
      have e : (Par.std (K := K) nClass).step0 / (1 + (Par.std (K := K) nClass).lmbda * s.trounds * (Par.std (K := K) nClass).step0) = 1 / 20 := by
        simp [Par.std]
      rw [e]
      apply C85_update_helps
      · apply mul_nonneg (by norm_num)
        exact Finset.sum_nonneg fun k _ => by positivity
      · exact hx
      · exact hcol

theorem mem_trainPairs {rows : List (List K)} {i l : Nat} :
    (i, l) ∈ trainPairs rows ↔ ∃ row, rows[i]? = some row ∧ ∃ v, row[l]? = some v ∧ 1 ≤ v := by
  unfold trainPairs
  rw [List.mem_flatMap]
  constructor
  · rintro ⟨⟨row, k⟩, hk, hm⟩
    rw [List.mem_zipIdx_iff_getElem?] at hk
    obtain ⟨l', hl', he⟩ := List.mem_map.1 hm
    cases he
    refine ⟨row, hk, ?_⟩
    unfold positives at hl'
    rw [List.mem_filter] at hl'
    obtain ⟨_, h2⟩ := hl'
    cases hv : row[l]? with
    | none => simp [hv] at h2
    | some v => exact ⟨v, rfl, by simpa [hv] using h2⟩
  · rintro ⟨row, hr, v, hv, h1⟩
    refine ⟨(row, i), List.mem_zipIdx_iff_getElem?.2 hr, List.mem_map.2 ⟨l, ?_, rfl⟩⟩
    unfold positives
    rw [List.mem_filter, List.mem_range]
    exact ⟨(List.getElem?_eq_some_iff.1 hv).1, by simp [hv, h1]⟩

theorem addDummy_eq {y : List (List K)} (h2 : ∀ r ∈ y, (2 : K) ∉ r) : addDummy y = y.map (fun r => r ++ [2]) := by
  unfold addDummy
  rw [if_neg]
  simp only [List.any_eq_true, decide_eq_true_eq, not_exists, not_and]
  rintro r hr v hv rfl
  exact h2 r hr hv

/-- What is assumed of the random numbers: the pairs are visited in some order, and the draws are positions. -/
def Rand.Ok (ρ : Rand) : Prop := Spec.IsShuffle ρ.order ∧ ∀ i j n, 0 < n → ρ.pick i j n < n

theorem loop_ok {nClass : Nat} {X : Nat → Fin d → K} {rows : List (List K)} {pick : Nat → Nat → Nat → Nat} (hpick : ∀ i j n, 0 < n → pick i j n < n)
    (hrows : ∀ row ∈ rows, row.length = nClass ∧ HasThreshold row) : ∀ (ps : List (Nat × Nat)) (i : Nat) (s : St D d K), (∀ p ∈ ps, p ∈ trainPairs rows) →
      ∃ s', loop (Par.std nClass) X rows pick ps i s = .ok s'
  | [], i, s, _ => ⟨s, rfl⟩
  | (a, l) :: r, i, s, h => by
    obtain ⟨row, hr, hl⟩ := mem_trainPairs.1 (h (a, l) (by simp))
    obtain ⟨hw, ht⟩ := hrows row (List.mem_of_getElem? hr)
    obtain ⟨s', hs', _⟩ := C85_step (hpick i) s hr hw ht hl (X := X)
    obtain ⟨s'', h''⟩ := loop_ok hpick hrows r (i + 1) (snapshot (Par.std nClass) i s') (fun p hp => h p (List.mem_cons_of_mem _ hp))
    refine ⟨s'', ?_⟩
    rw [loop, hs']
    exact h''

/-- C85: training with labels of one width, none of them 2, never raises. -/
theorem C85_train_returns {L : Nat} {X : Nat → Fin d → K} {y : List (List K)} (hL : ∀ r ∈ y, r.length = L) (h2 : ∀ r ∈ y, (2 : K) ∉ r) {ρ : Rand} (hρ : ρ.Ok)
    (s : St D d K) : ∃ s', train (Par.std (L + 1)) X y ρ s = .ok s' := by
  unfold train
  apply loop_ok hρ.2
  · rw [addDummy_eq h2]
    intro row hr
    obtain ⟨r, hr', rfl⟩ := List.mem_map.1 hr
    refine ⟨by simp [hL r hr'], ?_⟩
    simp [HasThreshold]
  · intro p hp
    exact (hρ.1 _).mem_iff.1 hp

/-! ## C86: what a sequence of calls of `fit` learns -/

theorem step_frame {p : Par K} {X : Nat → Fin d → K} {rows : List (List K)} {pick : Nat → Nat → Nat} {s s' : St D d K} {pair : Nat × Nat}
    (h : step p X rows pick s pair = .ok s') : s'.AB = s.AB ∧ s'.AV = s.AV ∧ s'.Anum = s.Anum := by
  unfold step at h
  dsimp only at h
  split at h
  · cases h; exact ⟨rfl, rfl, rfl⟩
  · split at h
    · cases h
    · cases h; exact ⟨rfl, rfl, rfl⟩

theorem snapshot_mean {p : Par K} {i : Nat} {s : St D d K} {ms : List ((Nat → Fin D → K) × (Fin D → Fin d → K))} (h : MeanOf s ms) :
    ∃ ms', MeanOf (snapshot p i s) (ms ++ ms') ∧ (i = 0 → ms' ≠ []) := by
  unfold snapshot
  split_ifs with hc
  · refine ⟨[(s.B, s.V)], ⟨by simp [h.1], ?_, ?_⟩, by simp⟩
    · intro k a; simp [h.2.1 k a]
    · intro a k; simp [h.2.2 a k]
  · exact ⟨[], by simpa using h, by rintro rfl; exact absurd (Or.inl rfl) hc⟩

theorem loop_mean {p : Par K} {X : Nat → Fin d → K} {rows : List (List K)} {pick : Nat → Nat → Nat → Nat} :
    ∀ {ps : List (Nat × Nat)} {i : Nat} {s s' : St D d K} {ms : List ((Nat → Fin D → K) × (Fin D → Fin d → K))}, loop p X rows pick ps i s = .ok s' →
      MeanOf s ms → ∃ ms', MeanOf s' (ms ++ ms') ∧ (i = 0 → ps ≠ [] → ms' ≠ [])
  | [], i, s, s', ms, h, hm => by
    cases h
    exact ⟨[], by simpa using hm, fun _ h => absurd rfl h⟩
  | pair :: r, i, s, s', ms, h, hm => by
    unfold loop at h
    split at h
    · cases h
    · rename_i s1 h1
      obtain ⟨f1, f2, f3⟩ := step_frame h1
      have hm1 : MeanOf s1 ms := by unfold MeanOf; rw [f1, f2, f3]; exact hm
      obtain ⟨m1, g1, g2⟩ := snapshot_mean (p := p) (i := i) hm1
      obtain ⟨m2, k1, _⟩ := loop_mean h g1
      refine ⟨m1 ++ m2, by rw [← List.append_assoc]; exact k1, ?_⟩
      intro h0 _ hc
      exact g2 h0 (List.append_eq_nil_iff.1 hc).1

theorem trainAll_mean {p : Par K} {X : Nat → Fin d → K} {y : List (List K)} (hy : trainPairs (addDummy y) ≠ []) :
    ∀ {ρs : List Rand} {s s' : St D d K} {ms : List ((Nat → Fin D → K) × (Fin D → Fin d → K))}, (∀ ρ ∈ ρs, ρ.Ok) → trainAll p X y ρs s = .ok s' →
      MeanOf s ms → ∃ ms', MeanOf s' (ms ++ ms') ∧ (ρs ≠ [] → ms' ≠ [])
  | [], s, s', ms, _, h, hm => by
    cases h
    exact ⟨[], by simpa using hm, fun h => absurd rfl h⟩
  | ρ :: r, s, s', ms, hρ, h, hm => by
    unfold trainAll at h
    split at h
    · cases h
    · rename_i s1 h1
      obtain ⟨m1, g1, g2⟩ := loop_mean h1 hm
      obtain ⟨m2, k1, _⟩ := trainAll_mean hy (fun ρ hρ' => hρ ρ (List.mem_cons_of_mem _ hρ')) h g1
      refine ⟨m1 ++ m2, by rw [← List.append_assoc]; exact k1, ?_⟩
      intro _ hc
      refine g2 rfl ?_ (List.append_eq_nil_iff.1 hc).1
      intro hc
      have := ((hρ ρ (by simp)).1 (trainPairs (addDummy y))).length_eq
      rw [hc] at this
      exact hy (List.length_eq_zero_iff.1 this.symm)

/-- The models a user can get: an initial training with some data, then any calls of `fit`, with any data, incremental or not. The data have
examples, their labels have one width, none of them is 2, and there is at least one repetition of the initial training. -/
inductive Trained (L : Nat) : Obj D d K → Prop
  | init {B0 V0 X y ρs o} (hy : y ≠ []) (hL : ∀ r ∈ y, r.length = L) (h2 : ∀ r ∈ y, (2 : K) ∉ r) (hρ : ∀ ρ ∈ ρs, Rand.Ok ρ) (hne : ρs ≠ [])
      (h : initTrain B0 V0 X y ρs = .ok o) : Trained L o
  | fit {o X y inc ρs o'} (ho : Trained L o) (hy : y ≠ []) (hL : ∀ r ∈ y, r.length = L) (h2 : ∀ r ∈ y, (2 : K) ∉ r) (hρ : ∀ ρ ∈ ρs, Rand.Ok ρ)
      (h : refit o X y inc ρs = .ok o') : Trained L o'

theorem pairs_ne {y : List (List K)} (hy : y ≠ []) (h2 : ∀ r ∈ y, (2 : K) ∉ r) : trainPairs (addDummy y) ≠ [] := by
  rw [addDummy_eq h2]
  cases y with
  | nil => exact absurd rfl hy
  | cons r t =>
    intro hc
    have : (0, r.length) ∈ trainPairs (((r :: t)).map (fun r => r ++ [(2 : K)])) :=
      mem_trainPairs.2 ⟨r ++ [2], by simp, 2, by simp, by norm_num⟩
    rw [hc] at this
    cases this

/-- C86: in every trained model the matrices used for prediction are the means of a non-empty list of models; so `predict` never divides by 0. (And the
assumptions of C84 hold.) -/
theorem C86_averages_partial {L : Nat} {o : Obj D d K} (h : Trained L o) :
    (∃ models, models ≠ [] ∧ MeanOf o.cur models) ∧ o.nClass = L + 1 ∧ o.par = Par.std (L + 1) := by
  suffices hs : (∃ models, models ≠ [] ∧ MeanOf o.cur models) ∧
      (∃ models, models ≠ [] ∧ MeanOf { o.cur with AB := o.iniAB, AV := o.iniAV, Anum := o.iniAnum, trounds := o.iniTrounds } models) ∧
      o.nClass = L + 1 ∧ o.par = Par.std (L + 1) from ⟨hs.1, hs.2.2⟩
  induction h with
  | @init B0 V0 X y ρs o hy hL h2 hρ hne h =>
    have hn := (C84_all_labels h hy hL h2 (fun _ => 0)).1
    have hlen : ((addDummy y).headD []).length = L + 1 := by
      rw [addDummy_eq h2]
      cases y with
      | nil => exact absurd rfl hy
      | cons r t => simp [hL r (by simp)]
    unfold initTrain at h
    dsimp only at h
    split at h
    · cases h
    · rename_i s hs
      cases h
      obtain ⟨ms, g1, g2⟩ := trainAll_mean (pairs_ne hy h2) hρ hs (ms := []) ⟨rfl, by simp, by simp⟩
      exact ⟨⟨ms, g2 hne, by simpa using g1⟩, ⟨ms, g2 hne, by simpa using g1⟩, hn, by dsimp only; rw [hlen]⟩
  | @fit o X y inc ρs o' ho hy hL h2 hρ h ih =>
    obtain ⟨⟨m1, n1, e1⟩, ⟨m2, n2, e2⟩, h3, h4⟩ := ih
    unfold refit at h
    dsimp only at h
    split at h
    · cases h
    · rename_i s hs
      cases h
      refine ⟨?_, ⟨m2, n2, e2⟩, h3, h4⟩
      cases inc
      · obtain ⟨ms, g1, _⟩ := trainAll_mean (pairs_ne hy h2) hρ hs (ms := m2) (by simpa using e2)
        exact ⟨m2 ++ ms, by simp [n2], g1⟩
      · obtain ⟨ms, g1, _⟩ := trainAll_mean (pairs_ne hy h2) hρ hs (ms := m1) (by simpa using e1)
        exact ⟨m1 ++ ms, by simp [n1], g1⟩

/-- Two states with the same model and count of updates (the averages may differ). -/
def SameModel (s t : St D d K) : Prop := s.B = t.B ∧ s.V = t.V ∧ s.trounds = t.trounds

theorem snapshot_model (p : Par K) (i : Nat) (s : St D d K) : SameModel (snapshot p i s) s := by
  unfold snapshot
  split_ifs <;> exact ⟨rfl, rfl, rfl⟩

/-- The models after each pair and the ones which are added to the averages. -/
theorem loop_trace {p : Par K} {X : Nat → Fin d → K} {rows : List (List K)} {pick : Nat → Nat → Nat → Nat} :
    ∀ {ps : List (Nat × Nat)} {i0 : Nat} {s s' : St D d K}, loop p X rows pick ps i0 s = .ok s' → ∃ trace : Nat → St D d K,
      SameModel (trace 0) s ∧ SameModel (trace ps.length) s' ∧
      (∀ i pair, ps[i]? = some pair → ∃ t, step p X rows (pick (i0 + i)) (trace i) pair = .ok t ∧ SameModel (trace (i + 1)) t) ∧
      ∀ taken, taken = (List.range ps.length).filter (fun i => decide (i0 + i = 0 ∨ (p.avgBegin < (trace (i + 1)).trounds ∧ p.avgSize ∣ i0 + i))) →
        s'.Anum = s.Anum + taken.length ∧ (∀ k a, s'.AB k a = s.AB k a + (taken.map (fun i => (trace (i + 1)).B k a)).sum) ∧
        ∀ a k, s'.AV a k = s.AV a k + (taken.map (fun i => (trace (i + 1)).V a k)).sum
  | [], i0, s, s', h => by
    cases h
    refine ⟨fun _ => s, ⟨rfl, rfl, rfl⟩, ⟨rfl, rfl, rfl⟩, by simp, ?_⟩
    rintro taken rfl
    simp
  | pair :: r, i0, s, s', h => by
    unfold loop at h
    split at h
    · cases h
    · rename_i s1 h1
      obtain ⟨tr, t1, t2, t3, t4⟩ := loop_trace h
      have hm := snapshot_model p i0 s1
      obtain ⟨f1, f2, f3⟩ := step_frame h1
      refine ⟨fun n => match n with | 0 => s | n + 1 => tr n, ⟨rfl, rfl, rfl⟩, t2, ?_, ?_⟩
      · intro i pair' hi
        cases i with
        | zero =>
          simp only [List.getElem?_cons_zero, Option.some.injEq] at hi
          subst hi
          exact ⟨s1, h1, t1.1.trans hm.1, t1.2.1.trans hm.2.1, t1.2.2.trans hm.2.2⟩
        | succ i =>
          simp only [List.getElem?_cons_succ] at hi
          obtain ⟨t, g1, g2⟩ := t3 i pair' hi
          rw [show i0 + 1 + i = i0 + (i + 1) by omega] at g1
          exact ⟨t, g1, g2⟩
      · intro taken htaken
        obtain ⟨q1, q2, q3⟩ := t4 _ rfl
        have hrange : List.range (pair :: r).length = 0 :: (List.range r.length).map Nat.succ := by rw [List.length_cons, List.range_succ_eq_map]
        have hfil : taken = (if i0 = 0 ∨ (p.avgBegin < s1.trounds ∧ i0 % p.avgSize = 0) then [0] else []) ++
            ((List.range r.length).filter (fun i => decide (i0 + 1 + i = 0 ∨ (p.avgBegin < (tr (i + 1)).trounds ∧ p.avgSize ∣ i0 + 1 + i)))).map Nat.succ := by
          rw [htaken, hrange, List.filter_cons, List.filter_map]
          have e0 : (tr 0).trounds = s1.trounds := t1.2.2.trans hm.2.2
          have ef : ((fun i => decide (i0 + i = 0 ∨ (p.avgBegin < ((fun n => match n with | 0 => s | n + 1 => tr n) (i + 1) : St D d K).trounds ∧ p.avgSize ∣ i0 + i))) ∘ Nat.succ) =
              fun i => decide (i0 + 1 + i = 0 ∨ (p.avgBegin < (tr (i + 1)).trounds ∧ p.avgSize ∣ i0 + 1 + i)) := by
            funext i
            simp only [Function.comp, Nat.succ_eq_add_one, show i0 + (i + 1) = i0 + 1 + i by omega]
          rw [ef]
          simp only [Nat.add_zero, e0, Nat.dvd_iff_mod_eq_zero, decide_eq_true_eq]
          split_ifs <;> simp
        have hB : ∀ k a, (snapshot p i0 s1).AB k a = s.AB k a + ((if i0 = 0 ∨ (p.avgBegin < s1.trounds ∧ i0 % p.avgSize = 0) then [0] else []).map (fun _ : Nat => (tr 0).B k a)).sum := by
          intro k a
          rw [t1.1, hm.1]
          unfold snapshot
          split_ifs <;> simp [f1]
        have hV : ∀ a k, (snapshot p i0 s1).AV a k = s.AV a k + ((if i0 = 0 ∨ (p.avgBegin < s1.trounds ∧ i0 % p.avgSize = 0) then [0] else []).map (fun _ : Nat => (tr 0).V a k)).sum := by
          intro a k
          rw [t1.2.1, hm.2.1]
          unfold snapshot
          split_ifs <;> simp [f2]
        have hN : (snapshot p i0 s1).Anum = s.Anum + (if i0 = 0 ∨ (p.avgBegin < s1.trounds ∧ i0 % p.avgSize = 0) then [0] else [] : List Nat).length := by
          unfold snapshot
          split_ifs <;> simp [f3]
        rw [hfil]
        refine ⟨?_, ?_, ?_⟩
        · rw [q1, hN]; simp; omega
        · intro k a
          rw [q2, hB, List.map_append, List.sum_append, add_assoc, List.map_map]
          congr 2
          split_ifs <;> simp
        · intro a k
          rw [q3, hV, List.map_append, List.sum_append, add_assoc, List.map_map]
          congr 2
          split_ifs <;> simp

/-- C86: what one pass of training adds to the averages: the model after the first pair, and then the models after every fifth pair, once there were more than ten
updates. `trace i` is the model before pair `i`. -/
theorem C86_snapshots_partial {n : Nat} {X : Nat → Fin d → K} {y : List (List K)} {ρ : Rand} {s s' : St D d K} (h : train (Par.std n) X y ρ s = .ok s') :
    ∃ trace : Nat → St D d K, SameModel (trace 0) s ∧ SameModel (trace (ρ.order (trainPairs (addDummy y))).length) s' ∧
      (∀ i pair, (ρ.order (trainPairs (addDummy y)))[i]? = some pair → ∃ t, step (Par.std n) X (addDummy y) (ρ.pick i) (trace i) pair = .ok t ∧ SameModel (trace (i + 1)) t) ∧
      ∀ taken, taken = (List.range (ρ.order (trainPairs (addDummy y))).length).filter (fun i => decide (i = 0 ∨ (10 < (trace (i + 1)).trounds ∧ 5 ∣ i))) →
        s'.Anum = s.Anum + taken.length ∧ (∀ k a, s'.AB k a = s.AB k a + (taken.map (fun i => (trace (i + 1)).B k a)).sum) ∧
        ∀ a k, s'.AV a k = s.AV a k + (taken.map (fun i => (trace (i + 1)).V a k)).sum := by
  simpa [Par.std] using loop_trace h

theorem trainAll_append {p : Par K} {X : Nat → Fin d → K} {y : List (List K)} : ∀ (a b : List Rand) (s : St D d K),
    trainAll p X y (a ++ b) s = match trainAll p X y a s with | .error e => .error e | .ok s' => trainAll p X y b s'
  | [], b, s => rfl
  | ρ :: a, b, s => by
    simp only [List.cons_append, trainAll]
    cases train p X y ρ s with
    | error e => rfl
    | ok s' => exact trainAll_append a b s'

/-- C86: incremental training goes on where it stopped: two calls with the same data are one call with all the repetitions. -/
theorem C86_incremental_partial (o : Obj D d K) (X : Nat → Fin d → K) (y : List (List K)) (a b : List Rand) :
    refit o X y true (a ++ b) = match refit o X y true a with | .error e => .error e | .ok o' => refit o' X y true b := by
  unfold refit
  simp only [if_true, trainAll_append]
  cases trainAll o.par X y a o.cur <;> rfl

theorem step_same {p : Par K} (hp : p.lmbda = 0) {X : Nat → Fin d → K} {rows : List (List K)} {pick : Nat → Nat → Nat} {s t s' : St D d K} (hB : s.B = t.B)
    (hV : s.V = t.V) {pair : Nat × Nat} (h : step p X rows pick s pair = .ok s') : ∃ t', step p X rows pick t pair = .ok t' ∧ s'.B = t'.B ∧ s'.V = t'.V := by
  obtain ⟨B, V, AB, AV, An, tr⟩ := s
  obtain ⟨B', V', AB', AV', An', tr'⟩ := t
  dsimp only at hB hV
  subst hB hV
  unfold step at h ⊢
  simp only [hp, zero_mul] at h ⊢
  generalize search p.numSub B _ _ _ _ _ _ = q at h ⊢
  cases q with
  | none => cases h; exact ⟨_, rfl, rfl, rfl⟩
  | some q =>
    obtain ⟨j, c⟩ := q
    dsimp only at h ⊢
    split at h
    · cases h
    · rename_i loss hl
      cases h
      exact ⟨_, rfl, rfl, rfl⟩

theorem loop_same {p : Par K} (hp : p.lmbda = 0) {X : Nat → Fin d → K} {rows : List (List K)} {pick : Nat → Nat → Nat → Nat} :
    ∀ {ps : List (Nat × Nat)} {i : Nat} {s t s' : St D d K}, s.B = t.B → s.V = t.V → loop p X rows pick ps i s = .ok s' →
      ∃ t', loop p X rows pick ps i t = .ok t' ∧ s'.B = t'.B ∧ s'.V = t'.V
  | [], i, s, t, s', hB, hV, h => by cases h; exact ⟨t, rfl, hB, hV⟩
  | pair :: r, i, s, t, s', hB, hV, h => by
    unfold loop at h ⊢
    split at h
    · cases h
    · rename_i s1 h1
      obtain ⟨t1, h2, hB1, hV1⟩ := step_same hp hB hV h1
      rw [h2]
      have e : ∀ u : St D d K, (snapshot p i u).B = u.B ∧ (snapshot p i u).V = u.V := by
        intro u; unfold snapshot; split_ifs <;> exact ⟨rfl, rfl⟩
      exact loop_same hp (by rw [(e s1).1, (e t1).1, hB1]) (by rw [(e s1).2, (e t1).2, hV1]) h

theorem trainAll_same {p : Par K} (hp : p.lmbda = 0) {X : Nat → Fin d → K} {y : List (List K)} :
    ∀ {ρs : List Rand} {s t s' : St D d K}, s.B = t.B → s.V = t.V → trainAll p X y ρs s = .ok s' →
      ∃ t', trainAll p X y ρs t = .ok t' ∧ s'.B = t'.B ∧ s'.V = t'.V
  | [], s, t, s', hB, hV, h => by cases h; exact ⟨t, rfl, hB, hV⟩
  | ρ :: r, s, t, s', hB, hV, h => by
    unfold trainAll at h ⊢
    split at h
    · cases h
    · rename_i s1 h1
      obtain ⟨t1, h2, hB1, hV1⟩ := loop_same hp hB hV h1
      unfold train
      rw [h2]
      exact trainAll_same hp hB1 hV1 h

/-- C86, violation: `fit` with `is_incremental=False` is meant to start again from the initial model. It does not: it trains `B` and `V` exactly as an
incremental call does, from where the previous call left them. (Only the averages and the counter are set back.) -/
theorem C86_no_restart_violation {L : Nat} {o : Obj D d K} (h : Trained L o) {X : Nat → Fin d → K} {y : List (List K)} {ρs : List Rand} {o' : Obj D d K}
    (ho : refit o X y false ρs = .ok o') : ∃ o'', refit o X y true ρs = .ok o'' ∧ o'.cur.B = o''.cur.B ∧ o'.cur.V = o''.cur.V := by
  have hp : o.par.lmbda = 0 := by rw [(C86_averages_partial h).2.2]; rfl
  unfold refit at ho ⊢
  simp only [if_true, Bool.false_eq_true, if_false] at ho ⊢
  split at ho
  · cases ho
  · rename_i s hs
    cases ho
    obtain ⟨t, h1, h2, h3⟩ := trainAll_same hp
      (s := { o.cur with AB := o.iniAB, AV := o.iniAV, Anum := o.iniAnum, trounds := o.iniTrounds }) (t := o.cur) rfl rfl hs
    rw [h1]
    exact ⟨_, rfl, h2, h3⟩

/-- The rows with every "less relevant" label (0.5) replaced by "unknown" (0). -/
def forget (y : List (List K)) : List (List K) := y.map (fun r => r.map (fun v => if v = 1 / 2 then 0 else v))

theorem forget_row {row : List K} (l : Nat) (w : K) (h1 : w ≠ 1 / 2) (h0 : w ≠ 0) :
    (row.map (fun v => if v = 1 / 2 then 0 else v))[l]? = some w ↔ row[l]? = some w := by
  rw [List.getElem?_map]
  cases hv : row[l]? with
  | none => simp
  | some v =>
    simp only [Option.map_some, Option.some.injEq]
    split_ifs with hc
    · subst hc
      exact ⟨fun h => absurd h.symm h0, fun h => absurd h.symm h1⟩
    · rfl

theorem forget_addDummy (y : List (List K)) : addDummy (forget y) = forget (addDummy y) := by
  have h : ((forget y).any (fun r => r.any (fun v => v = 2))) = (y.any (fun r => r.any (fun v => v = 2))) := by
    rw [Bool.eq_iff_iff]
    simp only [forget, List.any_map, List.any_eq_true, Function.comp, decide_eq_true_eq]
    have : ∀ v : K, (if v = 1 / 2 then 0 else v) = 2 ↔ v = 2 := by
      intro v
      split_ifs with hc
      · subst hc; constructor <;> intro h <;> norm_num at h
      · rfl
    simp only [this]
  unfold addDummy
  rw [h]
  split_ifs
  · rfl
  · simp only [forget, List.map_map]
    apply List.map_congr_left
    intro r _
    simp
    intro h; norm_num at h

/-- C86, violation: labels 0.5 ("less relevant", documented as one of the three kinds of labels) have no influence at all: training with them gives the same
model as training with these labels unknown. -/
theorem C86_less_relevant_violation (p : Par K) (X : Nat → Fin d → K) (y : List (List K)) (ρ : Rand) (s : St D d K) :
    train p X y ρ s = train p X (forget y) ρ s := by
  have hneg : ∀ row : List K, negatives (row.map (fun v => if v = 1 / 2 then 0 else v)) = negatives row := by
    intro row
    unfold negatives
    rw [List.length_map]
    apply List.filter_congr
    intro l _
    rw [decide_eq_decide]
    apply forget_row <;> norm_num
  have hpos : ∀ row : List K, positives (row.map (fun v => if v = 1 / 2 then 0 else v)) = positives row := by
    intro row
    unfold positives
    rw [List.length_map]
    apply List.filter_congr
    intro l _
    rw [List.getElem?_map]
    cases row[l]? with
    | none => rfl
    | some v =>
      simp only [Option.map_some, Option.any_some]
      split_ifs with hc
      · subst hc
        rw [decide_eq_decide]
        constructor <;> intro h <;> norm_num at h
      · rfl
  have hirr : ∀ (rows : List (List K)) (i l : Nat), irrelevant ((forget rows).getD i []) l = irrelevant (rows.getD i []) l := by
    intro rows i l
    simp only [List.getD, forget, List.getElem?_map]
    cases rows[i]? with
    | none => rfl
    | some row =>
      simp only [Option.map_some, Option.getD_some, irrelevant, List.length_map, hneg]
  have hstep : ∀ (rows : List (List K)) (pick : Nat → Nat → Nat) (s : St D d K) (pair : Nat × Nat),
      step p X (forget rows) pick s pair = step p X rows pick s pair := by
    intro rows pick s pair
    unfold step
    simp only [hirr]
  have hloop : ∀ (rows : List (List K)) (pick : Nat → Nat → Nat → Nat) (ps : List (Nat × Nat)) (i : Nat) (s : St D d K),
      loop p X (forget rows) pick ps i s = loop p X rows pick ps i s := by
    intro rows pick ps
    induction ps with
    | nil => intro i s; rfl
    | cons pair r ih =>
      intro i s
      simp only [loop, hstep, ih]
  have hpairs : ∀ rows : List (List K), trainPairs (forget rows) = trainPairs rows := by
    intro rows
    unfold trainPairs forget
    rw [List.zipIdx_map, List.flatMap_map]
    simp only [Prod.map_fst, Prod.map_snd, hpos, id]
  unfold train
  rw [forget_addDummy, hloop, hpairs]

/-- C86, violation: labels may be any positive numbers according to the documentation, but if a 2 occurs among them no threshold label is added: the last of
the real labels is taken for it, and `predict` returns one column less than there are labels. -/
theorem C86_two_violation {B0 : Nat → Fin D → K} {V0 : Fin D → Fin d → K} {X : Nat → Fin d → K} {y : List (List K)} {ρs : List Rand} {o : Obj D d K}
    (h : initTrain B0 V0 X y ρs = .ok o) {L : Nat} (hL : ∀ r ∈ y, r.length = L) (h2 : ∃ r ∈ y, (2 : K) ∈ r) (x : Fin d → K) :
    (predict o x).2.length = L - 1 := by
  have h1 : o.nClass = ((addDummy y).headD []).length := by
    unfold initTrain at h
    dsimp only at h
    split at h
    · cases h
    · cases h; rfl
  have h3 : addDummy y = y := by
    unfold addDummy
    rw [if_pos]
    obtain ⟨r, hr, hv⟩ := h2
    simp only [List.any_eq_true, decide_eq_true_eq]
    exact ⟨r, hr, 2, hv, rfl⟩
  have h4 : o.nClass = L := by
    rw [h1, h3]
    obtain ⟨r, hr, _⟩ := h2
    cases y with
    | nil => cases hr
    | cons r' t => simp [hL r' (by simp)]
  simp [predict, signs, ranks, h4]

/-! ### Cases that meet the hypotheses -/

/-- Two examples with one feature, two labels: the first example has label 0 and not label 1, the second the other way round. -/
def X0 : Nat → Fin 1 → ℚ := fun i _ => if i = 0 then 1 else -1
def y0 : List (List ℚ) := [[1, -1], [-1, 1]]
def ρ0 : Rand := ⟨id, fun _ j n => j % n⟩
def B0 : Nat → Fin 1 → ℚ := fun k _ => if k = 0 then 1 / 2 else 0

theorem ρ0_ok : ρ0.Ok := ⟨fun _ => List.Perm.refl _, fun _ j _ h => Nat.mod_lt j h⟩

example : (∀ r ∈ y0, r.length = 2) ∧ (∀ r ∈ y0, (2 : ℚ) ∉ r) ∧ trainPairs (addDummy y0) = [(0, 0), (0, 2), (1, 1), (1, 2)] := by decide +kernel

-- after two repetitions the model predicts label 0 for the first example and label 1 for the second
example : (initTrain B0 (fun _ _ => 1) X0 y0 [ρ0, ρ0]).toOption.map (fun o => ((predict o (X0 0)).2, (predict o (X0 1)).2, o.cur.Anum, o.nClass)) =
    some ([1, -1], [-1, 1], 2, 3) := by decide +kernel

-- the first step changes the best columns of label 0 and of label 1 (the label that was drawn)
example : (step (Par.std 3) X0 (addDummy y0) (ρ0.pick 0) ⟨B0, fun _ _ => 1, fun _ _ => 0, fun _ _ => 0, 0, 0⟩ (0, 0)).toOption.map
    (fun s => (s.B 0 0, s.B 5 0, s.V 0 0, s.B 10 0, s.trounds)) = some (23 / 40, -3 / 40, 83 / 80, 0, 1) := by decide +kernel

-- the same data and random numbers, not incremental: the second call does not give the model of the first
example : (do
    let o ← (initTrain B0 (fun _ _ => 1) X0 y0 [ρ0]).toOption
    let a ← (refit o X0 y0 false [ρ0]).toOption
    let b ← (refit a X0 y0 false [ρ0]).toOption
    pure (decide ((predict a (X0 0)).1 = (predict b (X0 0)).1))) = some false := by decide +kernel

end Alipy.LR
