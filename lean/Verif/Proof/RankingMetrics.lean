import Verif.Model.RankingMetrics
import Verif.Spec.RankingMetrics
import Verif.Proof.Metrics
import Verif.Proof.Roc
import Mathlib.Tactic.Ring
import Mathlib.Tactic.Linarith
/-!
# Facts about the ranking metrics
-/
set_option linter.unusedSimpArgs false
namespace Alipy.RankMetrics

/-- A weighted average is the mean of the values. -/
theorem npAverage_mean {α β : Type} (a : List α) (b : List β) (f : α → β → ℚ) (F : Nat → ℚ) (hab : a.length = b.length)
    (hF : ∀ i (h1 : i < a.length) (h2 : i < b.length), F i = f a[i] b[i]) (w : Option (List ℚ)) (hw : weightsFit a.length w = true)
    (hs : ∑ i ∈ Finset.range a.length, Spec.weight w i ≠ 0) :
    npAverage (List.zipWith f a b) w = .ok (some (Spec.mean a.length (Spec.weight w) F)) := by
  have hlen : (List.zipWith f a b).length = a.length := by simp [hab]
  have hne : a ≠ [] := by rintro rfl; simp at hs
  cases w with
  | none =>
    simp only [npAverage]
    rw [if_neg (by intro hc; apply hne; rw [List.isEmpty_iff] at hc; rw [← List.length_eq_zero_iff, ← hlen, hc]; rfl)]
    congr 2
    unfold Spec.mean
    rw [sum_eq_range, hlen]
    congr 1
    · apply Finset.sum_congr rfl
      intro i hi
      have h1 : i < a.length := Finset.mem_range.1 hi
      have h2 : i < b.length := by omega
      rw [List.getD_eq_getElem _ _ (by simp; omega), List.getElem_zipWith, hF i h1 h2]
      simp [Spec.weight]
    · simp [Spec.weight]
  | some l =>
    simp only [weightsFit, decide_eq_true_eq] at hw
    have hl : l.sum = ∑ i ∈ Finset.range a.length, Spec.weight (some l) i := by
      rw [sum_eq_range, hw]; rfl
    simp only [npAverage]
    rw [if_neg (by rw [hl]; exact hs)]
    congr 2
    unfold Spec.mean
    rw [hl, sum_eq_range]
    congr 1
    have : (List.zipWith (fun x v => x * v) (List.zipWith f a b) l).length = a.length := by
      simp [hab, hw]
    rw [this]
    apply Finset.sum_congr rfl
    intro i hi
    have h1 : i < a.length := Finset.mem_range.1 hi
    have h2 : i < b.length := by omega
    have h3 : i < l.length := by omega
    rw [List.getD_eq_getElem _ _ (by simp; omega), List.getElem_zipWith, List.getElem_zipWith, hF i h1 h2]
    simp only [Spec.weight]
    rw [List.getD_eq_getElem _ _ h3]
    ring

/-! ## Selection sort -/

theorem scan_inv (temp : List (WithTop ℚ)) (i : Nat) (k : Nat) :
    let m := (List.range k).foldl (fun (m : WithTop ℚ × Nat) j => if temp.getD j ⊤ < m.1 then (temp.getD j ⊤, j) else m) (⊤, i)
    (∀ j < k, m.1 ≤ temp.getD j ⊤) ∧ ((m.1 = ⊤) ∨ (m.2 < k ∧ temp.getD m.2 ⊤ = m.1)) := by
  induction k with
  | zero => simp
  | succ k ih =>
    simp only [List.range_succ, List.foldl_append, List.foldl_cons, List.foldl_nil] at ih ⊢
    generalize (List.range k).foldl (fun (m : WithTop ℚ × Nat) j => if temp.getD j ⊤ < m.1 then (temp.getD j ⊤, j) else m) (⊤, i) = m at ih ⊢
    obtain ⟨h1, h2⟩ := ih
    by_cases hlt : temp.getD k ⊤ < m.1
    · rw [if_pos hlt]
      refine ⟨fun j hj => ?_, Or.inr ⟨by simp, rfl⟩⟩
      rcases Nat.lt_succ_iff_lt_or_eq.1 hj with h | rfl
      · exact le_trans hlt.le (h1 j h)
      · exact le_rfl
    · rw [if_neg hlt]
      refine ⟨fun j hj => ?_, ?_⟩
      · rcases Nat.lt_succ_iff_lt_or_eq.1 hj with h | rfl
        · exact h1 j h
        · exact not_lt.1 hlt
      · rcases h2 with h2 | ⟨h2, h3⟩
        · exact Or.inl h2
        · exact Or.inr ⟨by omega, h3⟩

theorem scanMin_spec {temp : List (WithTop ℚ)} {i : Nat} (h : ∃ j < temp.length, temp.getD j ⊤ ≠ ⊤) :
    (scanMin temp i).2 < temp.length ∧ temp.getD (scanMin temp i).2 ⊤ ≠ ⊤ ∧
      ∀ j < temp.length, temp.getD (scanMin temp i).2 ⊤ ≤ temp.getD j ⊤ := by
  obtain ⟨h1, h2⟩ := scan_inv temp i temp.length
  change (∀ j < temp.length, (scanMin temp i).1 ≤ _) at h1
  change ((scanMin temp i).1 = ⊤ ∨ ((scanMin temp i).2 < _ ∧ temp.getD (scanMin temp i).2 ⊤ = (scanMin temp i).1)) at h2
  obtain ⟨j, hj, hjt⟩ := h
  have hne : (scanMin temp i).1 ≠ ⊤ := by
    intro hc
    have := h1 j hj
    rw [hc, top_le_iff] at this
    exact hjt this
  rcases h2 with h2 | ⟨h2, h3⟩
  · exact absurd h2 hne
  · exact ⟨h2, by rw [h3]; exact hne, fun j hj => by rw [h3]; exact h1 j hj⟩

/-- The positions not yet taken. -/
def free (temp : List (WithTop ℚ)) : List Nat := (List.range temp.length).filter (fun j => decide (temp.getD j ⊤ ≠ ⊤))

theorem mem_free {temp : List (WithTop ℚ)} {j : Nat} : j ∈ free temp ↔ j < temp.length ∧ temp.getD j ⊤ ≠ ⊤ := by
  simp [free]

theorem free_nodup (temp : List (WithTop ℚ)) : (free temp).Nodup := List.nodup_range.filter _

theorem getD_set_top (temp : List (WithTop ℚ)) (m j : Nat) : (temp.set m ⊤).getD j ⊤ = if j = m then ⊤ else temp.getD j ⊤ := by
  rw [List.getD_eq_getElem?_getD, List.getD_eq_getElem?_getD, List.getElem?_set]
  by_cases h : m = j
  · subst h
    by_cases h2 : m < temp.length <;> simp [h2]
  · rw [if_neg h, if_neg (fun hc => h hc.symm)]

theorem sortLoop_spec : ∀ (is : List Nat) (temp : List (WithTop ℚ)), is.length = (free temp).length →
    (sortLoop is temp).Perm (free temp) ∧ (sortLoop is temp).Pairwise (fun a b => temp.getD a ⊤ ≤ temp.getD b ⊤)
  | [], temp, h => by
    have : free temp = [] := List.length_eq_zero_iff.1 (by simpa using h.symm)
    rw [this, sortLoop]
    exact ⟨List.Perm.refl _, List.Pairwise.nil⟩
  | i :: is, temp, h => by
    have hne : free temp ≠ [] := by intro hc; rw [hc] at h; simp at h
    obtain ⟨j, hj⟩ := List.exists_mem_of_ne_nil _ hne
    obtain ⟨hm, hmt, hmin⟩ := scanMin_spec (i := i) ⟨j, mem_free.1 hj⟩
    rw [sortLoop]
    generalize (scanMin temp i).2 = m at hm hmt hmin
    have hmf : m ∈ free temp := mem_free.2 ⟨hm, hmt⟩
    have hp : (free temp).Perm (m :: free (temp.set m ⊤)) := by
      rw [List.perm_ext_iff_of_nodup (free_nodup _)]
      · intro k
        rw [List.mem_cons, mem_free, mem_free, getD_set_top, List.length_set]
        by_cases hk : k = m
        · subst hk; simp only [hm, true_and, ne_eq, true_or, iff_true]; exact hmt
        · simp [hk]
      · rw [List.nodup_cons]
        refine ⟨?_, free_nodup _⟩
        rw [mem_free, getD_set_top]; simp
    have hl : is.length = (free (temp.set m ⊤)).length := by
      have := hp.length_eq; simp at this h; omega
    obtain ⟨ih1, ih2⟩ := sortLoop_spec is (temp.set m ⊤) hl
    refine ⟨(ih1.cons m).trans hp.symm, ?_⟩
    rw [List.pairwise_cons]
    refine ⟨fun b hb => ?_, ?_⟩
    · have := mem_free.1 (ih1.mem_iff.1 hb)
      exact hmin b (by simpa using this.1)
    · refine List.Pairwise.imp_of_mem ?_ ih2
      intro a b ha hb hab
      have ha' := mem_free.1 (ih1.mem_iff.1 ha)
      have hb' := mem_free.1 (ih1.mem_iff.1 hb)
      rw [getD_set_top, getD_set_top] at hab
      rw [getD_set_top] at ha' hb'
      rw [if_neg (by rintro rfl; simp at ha'), if_neg (by rintro rfl; simp at hb')] at hab
      exact hab

theorem selectionSort_spec (x : List ℚ) :
    (selectionSort x).Perm (List.range x.length) ∧ (selectionSort x).Pairwise (fun a b => x.getD a 0 ≤ x.getD b 0) := by
  have hg : ∀ j < x.length, (x.map (fun v : ℚ => (v : WithTop ℚ))).getD j ⊤ = ((x.getD j 0 : ℚ) : WithTop ℚ) := by
    intro j hj
    rw [List.getD_eq_getElem _ _ (by simpa using hj), List.getD_eq_getElem _ _ hj, List.getElem_map]
  have hf : free (x.map (fun v : ℚ => (v : WithTop ℚ))) = List.range x.length := by
    unfold free
    rw [List.length_map, List.filter_eq_self]
    intro j hj
    rw [hg j (List.mem_range.1 hj)]
    simp
  obtain ⟨h1, h2⟩ := sortLoop_spec (List.range x.length) (x.map (fun v : ℚ => (v : WithTop ℚ))) (by rw [hf])
  rw [hf] at h1
  refine ⟨h1, ?_⟩
  refine List.Pairwise.imp_of_mem ?_ h2
  intro a b ha hb hab
  rw [hg a (List.mem_range.1 (h1.mem_iff.1 ha)), hg b (List.mem_range.1 (h1.mem_iff.1 hb))] at hab
  exact WithTop.coe_le_coe.1 hab

theorem findIndex_spec (a : Nat) : ∀ (l : List Nat), a ∈ l → ∃ k, findIndex a l = some k ∧ l[k]? = some a
  | b :: l, h => by
    rw [findIndex]
    by_cases hab : a = b
    · rw [if_pos hab]; exact ⟨0, rfl, by simp [hab]⟩
    · rw [if_neg hab]
      obtain ⟨k, h1, h2⟩ := findIndex_spec a l (by simpa [hab] using h)
      exact ⟨k + 1, by rw [h1]; rfl, by simpa using h2⟩

/-! ## The indicator of `average_precision_score` -/

theorem sum_set_one : ∀ (l : List ℚ) (n : Nat), n < l.length → l.getD n 0 = 0 → (l.set n 1).sum = l.sum + 1
  | a :: l, 0, _, h => by
    have : a = 0 := by simpa using h
    simp [this, add_comm]
  | a :: l, n + 1, hn, h => by
    rw [List.set_cons_succ, List.sum_cons, List.sum_cons, sum_set_one l n (by simpa using hn) (by simpa using h)]
    ring

theorem indicator_sum : ∀ (locs : List Nat) (ind : List ℚ), locs.Nodup → (∀ p ∈ locs, p < ind.length ∧ ind.getD p 0 = 0) → ∀ k,
    ((locs.foldl (fun (ind : List ℚ) loc => ind.set loc 1) ind).drop k).sum =
      (ind.drop k).sum + (locs.countP (fun p => decide (k ≤ p)) : ℚ)
  | [], ind, _, _, k => by simp
  | p :: locs, ind, hn, h, k => by
    rw [List.nodup_cons] at hn
    obtain ⟨hp1, hp2⟩ := h p (by simp)
    rw [List.foldl_cons, indicator_sum locs (ind.set p 1) hn.2 (fun q hq => by
      obtain ⟨a, b⟩ := h q (by simp [hq])
      refine ⟨by simpa using a, ?_⟩
      rw [List.getD_eq_getElem?_getD, List.getElem?_set_ne (by rintro rfl; exact hn.1 hq), ← List.getD_eq_getElem?_getD]
      exact b) k]
    rw [List.drop_set, List.countP_cons]
    by_cases hk : p < k
    · rw [if_pos hk, if_neg (by simpa using hk)]; simp
    · rw [if_neg hk, if_pos (by simpa using hk), sum_set_one]
      · push_cast; ring
      · simp; omega
      · rw [List.getD_eq_getElem?_getD, List.getElem?_drop, show k + (p - k) = p by omega, ← List.getD_eq_getElem?_getD]
        exact hp2

/-- The scores of the labels with a property, by their positions. -/
theorem scoresWith_positions (P : Int → Bool) : ∀ (y : List Int) (s : List ℚ), y.length = s.length →
    Spec.scoresWith P y s = ((List.range y.length).filter (fun j => P (y.getD j 0))).map (fun j => s.getD j 0)
  | [], s, _ => by simp [Spec.scoresWith]
  | c :: y, [], h => by simp at h
  | c :: y, v :: s, h => by
    have ih := scoresWith_positions P y s (by simpa using h)
    unfold Spec.scoresWith at ih ⊢
    rw [List.zip_cons_cons, List.filter_cons, List.length_cons, List.range_succ_eq_map, List.filter_cons, List.filter_map]
    by_cases hc : P c
    · simp only [hc, if_true, List.map_cons, List.getD_cons_zero, List.map_map]
      rw [ih]
      congr 1
    · rw [if_neg hc, if_neg (by simpa using hc), ih, List.map_map]
      rfl

theorem countP_range_le (k : Nat) : ∀ n, k ≤ n → (List.range n).countP (fun p => decide (k ≤ p)) = n - k
  | 0, h => by simp
  | n + 1, h => by
    rw [List.range_succ, List.countP_append, List.countP_singleton]
    by_cases hk : k ≤ n
    · rw [countP_range_le k n hk, if_pos (by simpa using hk)]; omega
    · have : k = n + 1 := by omega
      subst this
      rw [if_neg (by simp), List.countP_eq_zero.2 (by intro a ha; have := List.mem_range.1 ha; simp; omega)]
      omega

theorem range_getD_map (s : List ℚ) : (List.range s.length).map (fun j => s.getD j 0) = s := by
  apply List.ext_getElem
  · simp
  · intro i h1 h2; rw [List.getElem_map, List.getElem_range, List.getD_eq_getElem _ _ h2]

/-- For distinct scores and labels 0/1 the loop computes the average precision of the sample. -/
theorem samplePrecision_eq {y : List Int} {s : List ℚ} (hl : y.length = s.length) (hd : s.Nodup)
    (hrel : Spec.scoresWith (fun c => decide (c = 1)) y s ≠ []) :
    samplePrecision s.length y s = Spec.avgPrecision (Spec.scoresWith (fun c => decide (c = 1)) y s) s := by
  obtain ⟨hperm, hsort⟩ := selectionSort_spec s
  have hpos := scoresWith_positions (fun c => decide (c = 1)) y s hl
  unfold samplePrecision
  generalize hσ : selectionSort s = σ at hperm hsort
  have hσlen : σ.length = s.length := by rw [hperm.length_eq]; simp
  have hσnd : σ.Nodup := hperm.nodup_iff.2 List.nodup_range
  simp only
  generalize hlab : (List.range y.length).filter (fun j => decide (y.getD j 0 = 1)) = labels at hpos
  have hlabnd : labels.Nodup := by rw [← hlab]; exact List.nodup_range.filter _
  have hlabσ : ∀ a ∈ labels, a ∈ σ := by
    intro a ha
    rw [hperm.mem_iff, List.mem_range, ← hl]
    rw [← hlab] at ha
    exact List.mem_range.1 (List.mem_filter.1 ha).1
  -- the position of a label in the order
  let loc : Nat → Nat := fun a => (findIndex a σ).getD 0
  have hloc : ∀ a ∈ σ, σ[loc a]? = some a := by
    intro a ha
    obtain ⟨k, h1, h2⟩ := findIndex_spec a σ ha
    simp only [loc, h1, Option.getD_some]
    exact h2
  have hloclt : ∀ a ∈ σ, loc a < s.length := by
    intro a ha
    have := hloc a ha
    rw [← hσlen]
    exact (List.getElem?_eq_some_iff.1 this).1
  have hstrict : ∀ p q (hp : p < σ.length) (hq : q < σ.length), p < q → s.getD σ[p] 0 < s.getD σ[q] 0 := by
    intro p q hp hq hpq
    refine lt_of_le_of_ne (List.pairwise_iff_getElem.1 hsort p q hp hq hpq) ?_
    intro hc
    have h1 : σ[p] < s.length := List.mem_range.1 (hperm.mem_iff.1 (List.getElem_mem hp))
    have h2 : σ[q] < s.length := List.mem_range.1 (hperm.mem_iff.1 (List.getElem_mem hq))
    rw [List.getD_eq_getElem _ _ h1, List.getD_eq_getElem _ _ h2] at hc
    have h3 := (List.Nodup.getElem_inj_iff hd).1 hc
    have h4 := (List.Nodup.getElem_inj_iff hσnd).1 h3
    omega
  have hmono : ∀ p q (hp : p < σ.length) (hq : q < σ.length), (p ≤ q ↔ s.getD σ[p] 0 ≤ s.getD σ[q] 0) := by
    intro p q hp hq
    constructor
    · intro h
      rcases Nat.lt_or_eq_of_le h with h | h
      · exact (hstrict p q hp hq h).le
      · subst h; exact le_rfl
    · intro h
      by_contra hc
      exact absurd (hstrict q p hq hp (by omega)) (not_lt.2 h)
  have hlocle : ∀ a ∈ σ, ∀ p (hp : p < σ.length), (loc a ≤ p ↔ s.getD a 0 ≤ s.getD σ[p] 0) := by
    intro a ha p hp
    obtain ⟨h1, h2⟩ := List.getElem?_eq_some_iff.1 (hloc a ha)
    rw [hmono (loc a) p h1 hp, h2]
  have hlocs : (labels.map loc).Nodup := by
    refine List.Nodup.map_on ?_ hlabnd
    intro a ha b hb hab
    have h1 := hloc a (hlabσ a ha)
    have h2 := hloc b (hlabσ b hb)
    rw [hab, h2] at h1
    exact (Option.some.inj h1).symm
  have hind := indicator_sum (labels.map loc) (List.replicate s.length 0) hlocs (fun p hp => by
    obtain ⟨a, ha, rfl⟩ := List.mem_map.1 hp
    refine ⟨by simpa using hloclt a (hlabσ a ha), ?_⟩
    rw [List.getD_eq_getElem _ _ (by simpa using hloclt a (hlabσ a ha))]
    simp)
  change ((labels.map loc).map _).sum / _ = _
  rw [List.map_map]
  have hterm : ∀ a ∈ labels, ((fun k => (((labels.map loc).foldl (fun (ind : List ℚ) loc => ind.set loc 1) (List.replicate s.length 0)).drop k).sum
      / ((s.length - k : Nat) : ℚ)) ∘ loc) a = Spec.precisionAt (Spec.scoresWith (fun c => decide (c = 1)) y s) s (s.getD a 0) := by
    intro a ha
    have haσ := hlabσ a ha
    simp only [Function.comp]
    rw [hind]
    unfold Spec.precisionAt Spec.reach
    congr 1
    · rw [hpos, List.countP_map, List.countP_map]
      have h0 : ((List.replicate s.length (0:ℚ)).drop (loc a)).sum = 0 := by simp
      rw [h0, zero_add]
      congr 1
      apply List.countP_congr
      intro b hb
      obtain ⟨h1, h2⟩ := List.getElem?_eq_some_iff.1 (hloc b (hlabσ b hb))
      have := hlocle a haσ (loc b) h1
      rw [h2] at this
      simpa using this
    · congr 1
      have hsr : s.countP (fun x => decide (s.getD a 0 ≤ x)) =
          ((List.range s.length).map (fun j => s.getD j 0)).countP (fun x => decide (s.getD a 0 ≤ x)) := by rw [range_getD_map]
      rw [hsr, List.countP_map, ← hperm.countP_eq, ← countP_range_le (loc a) s.length (hloclt a haσ).le]
      have hσr : σ = (List.range s.length).map (fun p => σ.getD p 0) := by
        apply List.ext_getElem
        · simp [hσlen]
        · intro i h1 h2; rw [List.getElem_map, List.getElem_range, List.getD_eq_getElem _ _ h1]
      conv_rhs => rw [hσr]
      rw [List.countP_map]
      apply List.countP_congr
      intro p hp
      have hp' : p < σ.length := by rw [hσlen]; exact List.mem_range.1 hp
      have := hlocle a haσ p hp'
      simp only [Function.comp, decide_eq_true_eq]
      rw [List.getD_eq_getElem _ _ hp']
      exact this
  rw [List.map_congr_left hterm]
  unfold Spec.avgPrecision
  rw [if_neg hrel]
  congr 1
  · rw [hpos, List.map_map]; rfl
  · rw [hpos]; simp

/-! ## The ranks of `label_ranking_average_precision_score` -/

theorem rankMax_neg (l : List ℚ) : rankMax (l.map (fun x => -x)) = l.map (Spec.reach l) := by
  unfold rankMax
  rw [List.map_map]
  apply List.map_congr_left
  intro x _
  simp only [Function.comp, List.countP_map, Spec.reach]
  apply List.countP_congr
  intro z _
  simp

theorem filter_zip_map {β : Type} (P : Int → Bool) (g : ℚ → β) : ∀ (y : List Int) (s : List ℚ),
    ((y.zip (s.map g)).filter (fun p => P p.1)).map Prod.snd = (Spec.scoresWith P y s).map g
  | [], s => by simp [Spec.scoresWith]
  | c :: y, [] => by simp [Spec.scoresWith]
  | c :: y, v :: s => by
    have ih := filter_zip_map P g y s
    unfold Spec.scoresWith at ih ⊢
    rw [List.map_cons, List.zip_cons_cons, List.zip_cons_cons, List.filter_cons, List.filter_cons]
    by_cases hc : P c <;> simp [hc, ih]

theorem rankedPrecision_eq (y : List Int) (s : List ℚ) (h : Spec.scoresWith (fun c => decide (c ≠ 0)) y s ≠ []) :
    rankedPrecision y s = Spec.avgPrecision (Spec.scoresWith (fun c => decide (c ≠ 0)) y s) s := by
  unfold rankedPrecision
  simp only
  rw [rankMax_neg, filter_zip_map (fun c => decide (c ≠ 0)) (fun x => -x), rankMax_neg,
    filter_zip_map (fun c => decide (c ≠ 0)) (Spec.reach s)]
  generalize Spec.scoresWith (fun c => decide (c ≠ 0)) y s = rel at h
  unfold Spec.avgPrecision
  rw [if_neg h, List.zipWith_map, List.length_map]
  congr 2
  rw [List.zipWith_self]
  rfl

theorem avgPrecision_all {l : List ℚ} : Spec.avgPrecision l l = 1 := by
  unfold Spec.avgPrecision
  split
  · rfl
  · rename_i h
    have : l.map (Spec.precisionAt l l) = l.map (fun _ => (1 : ℚ)) := by
      apply List.map_congr_left
      intro x hx
      unfold Spec.precisionAt
      rw [div_self]
      have : 0 < Spec.reach l x := List.countP_pos_iff.2 ⟨x, hx, by simp⟩
      exact_mod_cast this.ne'
    rw [this]
    have hl : (l.length : ℚ) ≠ 0 := by exact_mod_cast (List.length_pos_iff.2 h).ne'
    simp [hl]

theorem scoresWith_length (P : Int → Bool) : ∀ (y : List Int) (s : List ℚ), y.length = s.length →
    (Spec.scoresWith P y s).length = (y.filter P).length
  | [], s, _ => by simp [Spec.scoresWith]
  | c :: y, [], h => by simp at h
  | c :: y, v :: s, h => by
    have ih := scoresWith_length P y s (by simpa using h)
    unfold Spec.scoresWith at ih ⊢
    rw [List.zip_cons_cons, List.filter_cons, List.filter_cons]
    by_cases hc : P c <;> simp [hc] <;> simpa using ih

theorem scoresWith_all (P : Int → Bool) : ∀ (y : List Int) (s : List ℚ), y.length = s.length → (∀ c ∈ y, P c = true) →
    Spec.scoresWith P y s = s
  | [], [], _, _ => by simp [Spec.scoresWith]
  | [], _ :: _, h, _ => by simp at h
  | c :: y, [], h, _ => by simp at h
  | c :: y, v :: s, h, hP => by
    have ih := scoresWith_all P y s (by simpa using h) (fun c hc => hP c (by simp [hc]))
    unfold Spec.scoresWith at ih ⊢
    rw [List.zip_cons_cons, List.filter_cons]
    simp [hP c (by simp), ih]

theorem scoresWith_congr {P Q : Int → Bool} {y : List Int} (s : List ℚ) (h : ∀ c ∈ y, P c = Q c) :
    Spec.scoresWith P y s = Spec.scoresWith Q y s := by
  unfold Spec.scoresWith
  congr 1
  apply List.filter_congr
  intro p hp
  exact h p.1 (List.of_mem_zip hp).1

end Alipy.RankMetrics
