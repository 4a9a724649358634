import Verif.Model.Pool
import Verif.Props.Select
/-!
# Properties of graph density, expected error reduction, LAL and QUIRE selection (C42, C56, C57)
-/
namespace Alipy.Select
open Alipy

variable {α K : Type}

theorem positions_ok [DecidableEq α] {train : List α} : ∀ {l : List α}, (∀ x ∈ l, x ∈ train) →
    positions train l = .ok (l.map (fun x => train.idxOf x))
  | [], _ => rfl
  | x :: xs, h => by
    unfold positions
    rw [if_pos (h x (by simp)), positions_ok (fun y hy => h y (by simp [hy]))]
    rfl

theorem get_idxOf [DecidableEq α] {train : List α} {x : α} (h : x ∈ train) : train[train.idxOf x]? = some x := by
  have := List.idxOf_lt_length_iff.2 h
  rw [List.getElem?_eq_getElem this, List.getElem_idxOf]

theorem idxOf_get [DecidableEq α] {train : List α} (hn : train.Nodup) {p : Nat} {x : α} (h : train[p]? = some x) : train.idxOf x = p := by
  obtain ⟨h1, rfl⟩ := List.getElem?_eq_some_iff.1 h
  exact hn.idxOf_getElem p h1

section
variable [Field K] [LinearOrder K]

theorem exists_max {d : List K} (h : d ≠ []) : ∃ v ∈ d, ∀ w ∈ d, w ≤ v := by
  induction d with
  | nil => exact absurd rfl h
  | cons a d ih =>
    by_cases hd : d = []
    · subst hd; exact ⟨a, by simp, by simp⟩
    · obtain ⟨v, hv, hm⟩ := ih hd
      rcases le_total a v with h1 | h1
      · exact ⟨v, by simp [hv], by
          intro w hw
          rcases List.mem_cons.1 hw with rfl | hw
          · exact h1
          · exact hm w hw⟩
      · exact ⟨a, by simp, by
          intro w hw
          rcases List.mem_cons.1 hw with rfl | hw
          · exact le_refl _
          · exact le_trans (hm w hw) h1⟩

theorem argmaxPos_spec {d : List K} (h : d ≠ []) :
    ∃ h1 : argmaxPos d < d.length, ∀ (q : Nat) (hq : q < d.length), d[q] ≤ d[argmaxPos d] := by
  obtain ⟨v, hv, hm⟩ := exists_max h
  have h1 : argmaxPos d < d.length := by
    unfold argmaxPos
    rw [List.findIdx_lt_length]
    exact ⟨v, hv, by simpa using hm⟩
  refine ⟨h1, ?_⟩
  intro q hq
  have := List.findIdx_getElem (w := h1) (p := fun v => d.all (fun w => decide (w ≤ v))) (xs := d)
  simp only [List.all_eq_true, decide_eq_true_eq] at this
  exact this _ (List.getElem_mem hq)

theorem foldl_min_le (l : List K) (a : K) : l.foldl min a ≤ a ∧ ∀ x ∈ l, l.foldl min a ≤ x := by
  induction l generalizing a with
  | nil => simp
  | cons b l ih =>
    have := ih (min a b)
    simp only [List.foldl_cons]
    refine ⟨le_trans this.1 (min_le_left _ _), ?_⟩
    intro x hx
    rcases List.mem_cons.1 hx with rfl | hx
    · exact le_trans this.1 (min_le_right _ _)
    · exact this.2 x hx

theorem lowest_le {d : List K} {x : K} (h : x ∈ d) : lowest d ≤ x := by
  cases d with
  | nil => simp at h
  | cons a l =>
    rcases List.mem_cons.1 h with rfl | h
    · exact (foldl_min_le l x).1
    · exact (foldl_min_le l a).2 x h

end

section
variable [Field K] [LinearOrder K] [IsStrictOrderedRing K]

/-- What holds at the head of the loop: every blocked position has a density below those of the free ones. -/
structure DInv [DecidableEq α] (train : List α) (lab : List Nat) (d : List K) (arr : List Nat) (b : List α) : Prop where
  len : d.length = train.length
  low : ∀ (p q : Nat) (hp : p < d.length) (hq : q < d.length), (p ∈ lab ∨ p ∈ arr) → ¬ (q ∈ lab ∨ q ∈ arr) → d[p] < d[q]
  nodup : arr.Nodup
  free : ∀ p ∈ arr, p ∉ lab
  items : List.Forall₂ (fun (i : Nat) v => train[i]? = some v) arr b

theorem markLow_low (d : List K) (lab arr : List Nat) (p q : Nat) (hp : p < (markLow (markLow d lab) arr).length)
    (hq : q < (markLow (markLow d lab) arr).length) (h1 : p ∈ lab ∨ p ∈ arr) (h2 : ¬ (q ∈ lab ∨ q ∈ arr)) :
    (markLow (markLow d lab) arr)[p] < (markLow (markLow d lab) arr)[q] := by
  rw [not_or] at h2
  have hp' : p < d.length := by simpa [markLow, setAll] using hp
  have hq' : q < d.length := by simpa [markLow, setAll] using hq
  have hmem : d[q] ∈ markLow d lab := by
    have hq2 : q < (markLow d lab).length := by simpa [markLow, setAll] using hq'
    have : (markLow d lab)[q] = d[q] := by simp [markLow, setAll, h2.1]
    rw [← this]; exact List.getElem_mem _
  have e : (markLow (markLow d lab) arr)[q] = d[q] := by simp [markLow, setAll, h2.1, h2.2]
  rw [e]
  by_cases ha : p ∈ arr
  · have e2 : (markLow (markLow d lab) arr)[p] = lowest (markLow d lab) - 1 := by
      conv_lhs => unfold markLow setAll
      simp [ha, markLow, setAll]
    rw [e2]
    have := lowest_le hmem
    linarith
  · have hl : p ∈ lab := h1.resolve_right ha
    have e2 : (markLow (markLow d lab) arr)[p] = lowest d - 1 := by
      simp [ha, hl, markLow, setAll]
    rw [e2]
    have := lowest_le (List.getElem_mem hq')
    linarith

theorem densityLoop_ok [DecidableEq α] (nbrs : Nat → List Nat) {train l u : List α} (ht : train.Nodup) (hu : u.Nodup)
    (hl : ∀ x ∈ l, x ∈ train) (hut : ∀ x ∈ u, x ∈ train) (hcov : ∀ x ∈ train, x ∈ l ∨ x ∈ u) (hdisj : ∀ x ∈ l, x ∉ u) {batch : Nat}
    (hb : batch ≤ u.length) : ∀ (fuel : Nat) (d : List K) (arr : List Nat) (b : List α),
    DInv train (l.map (fun x => train.idxOf x)) d arr b → (∀ x ∈ b, x ∈ u) → b.Nodup → b.length ≤ batch → batch ≤ b.length + fuel →
    ∃ d' r, densityLoop nbrs train u (l.map (fun x => train.idxOf x)) batch fuel d arr b = some (.ok (d', r)) ∧
      d'.length = train.length ∧ r.Nodup ∧ (∀ x ∈ r, x ∈ u) ∧ r.length = batch
  | 0, d, arr, b, inv, hbu, hnb, hle, hf => by
    refine ⟨d, b, ?_, inv.len, hnb, hbu, by omega⟩
    unfold densityLoop
    rw [if_neg (by omega)]
  | fuel + 1, d, arr, b, inv, hbu, hnb, hle, hf => by
    unfold densityLoop
    by_cases hlt : b.length < batch
    · rw [if_pos hlt]
      -- a free position
      have hex : ∃ x ∈ u, x ∉ b := by
        by_contra hcon
        push Not at hcon
        have := (List.subperm_of_subset hu hcon).length_le
        omega
      obtain ⟨x, hxu, hxb⟩ := hex
      have hq := get_idxOf (hut x hxu)
      have hqfree : ¬ (train.idxOf x ∈ l.map (fun x => train.idxOf x) ∨ train.idxOf x ∈ arr) := by
        rintro (h | h)
        · obtain ⟨y, hy, hyx⟩ := List.mem_map.1 h
          have h1 := get_idxOf (hl y hy)
          rw [hyx, hq] at h1
          simp at h1
          subst h1
          exact hdisj x hy hxu
        · exact hxb (forall₂_mem_right inv.items _ h x hq)
      have hqlt : train.idxOf x < d.length := by rw [inv.len]; exact List.idxOf_lt_length_iff.2 (hut x hxu)
      obtain ⟨hs, hmax⟩ := argmaxPos_spec (d := d) (by intro h; rw [h] at hqlt; simp at hqlt)
      have hsfree : ¬ (argmaxPos d ∈ l.map (fun x => train.idxOf x) ∨ argmaxPos d ∈ arr) := by
        intro h
        have h1 := inv.low _ _ hs hqlt h hqfree
        exact absurd (hmax _ hqlt) (not_le.2 h1)
      rw [not_or] at hsfree
      have hst : argmaxPos d < train.length := by rw [← inv.len]; exact hs
      rw [List.getElem?_eq_getElem hst]
      simp only
      have hyu : train[argmaxPos d] ∈ u := by
        rcases hcov _ (List.getElem_mem hst) with h | h
        · exfalso
          apply hsfree.1
          refine List.mem_map.2 ⟨_, h, ?_⟩
          exact ht.idxOf_getElem _ hst
        · exact h
      have hyb : train[argmaxPos d] ∉ b := by
        intro h
        obtain ⟨i, hi, hi'⟩ := forall₂_mem_left inv.items _ h
        have : i = argmaxPos d := by
          have h1 := idxOf_get ht hi'
          rw [ht.idxOf_getElem _ hst] at h1
          exact h1.symm
        exact hsfree.2 (this ▸ hi)
      rw [if_pos hyu, if_neg hyb]
      apply densityLoop_ok nbrs ht hu hl hut hcov hdisj hb fuel
      · refine ⟨?_, ?_, ?_, ?_, ?_⟩
        · simp [markLow, setAll, subAll, inv.len]
        · intro p q hp hq h1 h2
          exact markLow_low _ _ _ p q hp hq h1 h2
        · rw [List.nodup_append]
          refine ⟨inv.nodup, by simp, ?_⟩
          intro a ha c hc
          simp at hc
          subst hc
          intro h
          exact hsfree.2 (h ▸ ha)
        · intro p hp
          rcases List.mem_append.1 hp with h | h
          · exact inv.free p h
          · simp at h; subst h; exact hsfree.1
        · exact List.rel_append inv.items (.cons (by rw [List.getElem?_eq_getElem hst]) .nil)
      · intro y hy
        rcases List.mem_append.1 hy with h | h
        · exact hbu y h
        · simp at h; subst h; exact hyu
      · rw [List.nodup_append]
        refine ⟨hnb, by simp, ?_⟩
        intro a ha c hc
        simp at hc
        subst hc
        intro h
        exact hyb (h ▸ ha)
      · simp; omega
      · simp; omega
    · rw [if_neg hlt]
      exact ⟨d, b, rfl, inv.len, hnb, hbu, by omega⟩

/-- **C42**, graph density, whatever happened to the densities in earlier calls: if the training set consists of the labelled and the
unlabelled indexes, the call ends, after at most `batch_size` iterations, with `min(batch_size, len(unlabelled))` distinct unlabelled indexes. -/
theorem C42_graph_density [DecidableEq α] (nbrs : Nat → List Nat) {train l : List α} {u : Coll α} (ht : train.Nodup) (hu : u.items.Nodup)
    (hl : ∀ x ∈ l, x ∈ train) (hut : ∀ x ∈ u.items, x ∈ train) (hcov : ∀ x ∈ train, x ∈ l ∨ x ∈ u.items) (hdisj : ∀ x ∈ l, x ∉ u.items)
    {d : List K} (hd : d.length = train.length) {batch : Int} (hb : 0 < batch) {fuel : Nat} (hf : batch.toNat ≤ fuel) :
    ∃ d' r, graphDensity nbrs train fuel d l u batch = some (.ok (d', r)) ∧ d'.length = train.length ∧ Spec.BatchOf u.items batch r := by
  unfold graphDensity
  rw [if_neg (by omega)]
  by_cases hc : (u.items.length : Int) ≤ batch
  · rw [if_pos hc]
    exact ⟨d, u.items, rfl, hd, hu, fun x hx => hx, by omega⟩
  · rw [if_neg hc, positions_ok hl]
    simp only
    obtain ⟨d', r, h1, h2, h3, h4, h5⟩ := densityLoop_ok nbrs ht hu hl hut hcov hdisj (batch := batch.toNat) (by omega) fuel
      (markLow d (l.map (fun x => train.idxOf x))) [] [] (by
        refine ⟨by simp [markLow, setAll, hd], ?_, by simp, by simp, .nil⟩
        intro p q hp hq h1 h2
        have hp' : p < d.length := by simpa [markLow, setAll] using hp
        have hq' : q < d.length := by simpa [markLow, setAll] using hq
        have h1' : p ∈ l.map (fun x => train.idxOf x) := by simpa using h1
        have h2' : q ∉ l.map (fun x => train.idxOf x) := by simpa using h2
        simp only [markLow, setAll, List.getElem_mapIdx, if_pos h1', if_neg h2']
        have := lowest_le (List.getElem_mem hq')
        linarith) (by simp) (by simp) (by simp) (by simpa using hf)
    exact ⟨d', r, h1, h2, h3, h4, by omega⟩

end

example : (graphDensity (K := ℚ) (fun _ => [0, 1, 2, 3]) [5, 6, 7, 8] 2 [1, 4, 3, 2] [6] (.array [5, 7, 8]) 2).map
    (fun r => r.map Prod.snd) = some (.ok [7, 8]) := by decide +kernel

/-! ## Expected error reduction -/

section
variable [Field K] [LinearOrder K] [IsStrictOrderedRing K]

/-- The expected loss: the class `k` has the probability in column `k`. -/
def _root_.Alipy.Spec.expectedLoss (row : List K) (loss : Int → K) : K := (row.mapIdx (fun (k : Nat) p => p * loss k)).sum

theorem eerScore_range (loss : Int → K) : ∀ (pre row : List K),
    eerScore (pre ++ row) loss ((List.range' pre.length row.length).map (fun k : Nat => (k : Int))) =
      .ok ((row.mapIdx (fun (k : Nat) p => p * loss ((pre.length + k : Nat) : Int))).sum)
  | pre, [] => by simp [eerScore]
  | pre, p :: row => by
    have ih := eerScore_range loss (pre ++ [p]) row
    rw [List.append_assoc] at ih
    simp only [List.singleton_append, List.length_append, List.length_singleton] at ih
    rw [List.length_cons, List.range'_succ, List.map_cons]
    unfold eerScore
    have hp : pyAt (pre ++ p :: row) (pre.length : Int) = some p := by
      simp [pyAt]
    rw [hp]
    simp only
    rw [ih]
    simp only [Except.map, List.mapIdx_cons, List.sum_cons, Nat.add_zero]
    congr 3
    refine List.ext_getElem (by simp) ?_
    intro i h1 h2
    simp only [List.getElem_mapIdx]
    congr 3
    omega

theorem eerScores_ok (classes : List Int) (loss : Nat → Int → K) (f : Nat → List K → K) : ∀ (rows : List (List K)) (i : Nat),
    (∀ (k : Nat) row, rows[k]? = some row → eerScore row (loss (i + k)) classes = .ok (f (i + k) row)) →
    eerScores classes loss i rows = .ok (rows.mapIdx (fun k row => f (i + k) row))
  | [], _, _ => rfl
  | row :: rows, i, h => by
    unfold eerScores
    rw [show eerScore row (loss i) classes = .ok (f (i + 0) row) from h 0 row (by simp)]
    simp only
    rw [eerScores_ok classes loss f rows (i + 1) (by
      intro k r hr
      have := h (k + 1) r (by simpa using hr)
      rw [show i + 1 + k = i + (k + 1) by omega]
      exact this)]
    simp only [Except.map, List.mapIdx_cons, Nat.add_zero]
    congr 2
    refine List.ext_getElem (by simp) ?_
    intro j h1 h2
    simp only [List.getElem_mapIdx]
    rw [show i + 1 + j = i + (j + 1) by omega]

/-- **C56** (partial: the classes are `0, ..., c-1`): selected are examples with the smallest expected loss, where the loss for every possible
label is weighted with the predicted probability of that label; and **C42** holds. -/
theorem C56_expected_loss_partial {argsort : List K → List Nat} (ha : ∀ l, Spec.IsArgsort l (argsort l)) {u : Coll α} (hu : u.items.Nodup)
    {c : Nat} {pv : List (List K)} (hlen : pv.length = u.items.length) (hrow : ∀ r ∈ pv, r.length = c) {loss : Nat → Int → K} {batch : Int}
    (hb : 0 < batch) :
    ∃ r, eer argsort u ((List.range c).map (fun k : Nat => (k : Int))) pv loss batch = .ok r ∧ Spec.BatchOf u.items batch r ∧
      Spec.NoneBetter u.items r (fun j i => ∃ rj ri, pv[j]? = some rj ∧ pv[i]? = some ri ∧
        Spec.expectedLoss rj (loss j) < Spec.expectedLoss ri (loss i)) := by
  have hs : eerScores ((List.range c).map (fun k : Nat => (k : Int))) loss 0 pv =
      .ok (pv.mapIdx (fun k row => Spec.expectedLoss row (loss k))) := by
    have := eerScores_ok ((List.range c).map (fun k : Nat => (k : Int))) loss (fun k row => Spec.expectedLoss row (loss k)) pv 0 (by
      intro k row hk
      have h1 := eerScore_range (loss (0 + k)) [] row
      rw [List.length_nil, hrow row (List.mem_of_getElem? hk), ← List.range_eq_range'] at h1
      simpa [Spec.expectedLoss] using h1)
    simpa using this
  have he : eer argsort u ((List.range c).map (fun k : Nat => (k : Int))) pv loss batch =
      bySmallest argsort u (pv.mapIdx (fun k row => Spec.expectedLoss row (loss k))) batch := by
    unfold eer bySmallest
    rw [hs]
  rw [he]
  obtain ⟨r, h1, h2⟩ := bySmallest_batch ha hu (scores := pv.mapIdx (fun k row => Spec.expectedLoss row (loss k))) (by simp [hlen]) hb
  refine ⟨r, h1, h2, ?_⟩
  rintro i j x y hi hj hx hy ⟨rj, ri, ej, ei, hlt⟩
  have := bySmallest_best ha hu (by simp [hlen]) h1 hi hj hx hy (a := Spec.expectedLoss ri (loss i)) (b := Spec.expectedLoss rj (loss j))
    (by simp [ei]) (by simp [ej])
  exact absurd this (not_le.2 hlt)

/-- With the classes `-1` and `1` the loss for both labels is weighted with the probability of the second one. -/
theorem C56_minus_one_violation (p q : K) (loss : Int → K) : eerScore [p, q] loss [-1, 1] = .ok (q * (loss (-1) + loss 1)) := by
  simp [eerScore, pyAt, Except.map, mul_add]

/-- So, whatever the pool, the examples with the smallest product of the probability of the second class and the sum of both losses are selected: the probability of the first class has no part in it,
and an example that certainly has the first class is preferred to all that may have the second one, however large the loss in that case. -/
theorem C56_minus_one_choice_violation {argsort : List K → List Nat} (ha : ∀ l, Spec.IsArgsort l (argsort l)) {u : Coll α} (hu : u.items.Nodup) {pv : List (K × K)}
    (hlen : pv.length = u.items.length) {loss : Nat → Int → K} {batch : Int} (hb : 0 < batch) :
    ∃ r, eer argsort u [-1, 1] (pv.map fun t => [t.1, t.2]) loss batch = .ok r ∧ Spec.BatchOf u.items batch r ∧
      Spec.NoneBetter u.items r (fun j i => ∃ tj ti, pv[j]? = some tj ∧ pv[i]? = some ti ∧ tj.2 * (loss j (-1) + loss j 1) < ti.2 * (loss i (-1) + loss i 1)) ∧
      ((∀ i c, 0 < loss i c) → ∀ (i j : Nat) (x y : α) (ti tj : K × K), u.items[i]? = some x → u.items[j]? = some y → pv[i]? = some ti → pv[j]? = some tj → ti.2 = 0 → 0 < tj.2 →
        y ∈ r → x ∈ r) := by
  have hs : eerScores [-1, 1] loss 0 (pv.map fun t => [t.1, t.2]) = .ok (pv.mapIdx fun k t => t.2 * (loss k (-1) + loss k 1)) := by
    have := eerScores_ok [-1, 1] loss (fun k row => row.getD 1 0 * (loss k (-1) + loss k 1)) (pv.map fun t => [t.1, t.2]) 0 (by
      intro k row hk
      obtain ⟨t, _, rfl⟩ := List.mem_map.1 (List.mem_of_getElem? hk)
      simpa using C56_minus_one_violation t.1 t.2 (loss (0 + k)))
    rw [this]
    congr 1
    apply List.ext_getElem
    · simp
    · intro k h1 h2
      simp
  have he : eer argsort u [-1, 1] (pv.map fun t => [t.1, t.2]) loss batch = bySmallest argsort u (pv.mapIdx fun k t => t.2 * (loss k (-1) + loss k 1)) batch := by
    unfold eer bySmallest
    rw [hs]
  rw [he]
  obtain ⟨r, h1, h2⟩ := bySmallest_batch ha hu (scores := pv.mapIdx fun k t => t.2 * (loss k (-1) + loss k 1)) (by simp [hlen]) hb
  have hbest : Spec.NoneBetter u.items r (fun j i => ∃ tj ti, pv[j]? = some tj ∧ pv[i]? = some ti ∧ tj.2 * (loss j (-1) + loss j 1) < ti.2 * (loss i (-1) + loss i 1)) := by
    rintro i j x y hi hj hx hy ⟨tj, ti, ej, ei, hlt⟩
    have := bySmallest_best ha hu (by simp [hlen]) h1 hi hj hx hy (a := ti.2 * (loss i (-1) + loss i 1)) (b := tj.2 * (loss j (-1) + loss j 1)) (by simp [ei]) (by simp [ej])
    exact absurd this (not_le.2 hlt)
  refine ⟨r, h1, h2, hbest, fun hpos i j x y ti tj hi hj ei ej h0 h5 hy => ?_⟩
  by_contra hx
  refine hbest j i y x hj hi hy hx ⟨ti, tj, ei, ej, ?_⟩
  rw [h0, zero_mul]
  exact mul_pos h5 (add_pos (hpos j _) (hpos j _))

theorem eerScore_outside {row : List K} {loss : Int → K} {y : Int} (hout : y < -(row.length : Int) ∨ (row.length : Int) ≤ y) : ∀ {classes : List Int}, y ∈ classes →
    eerScore row loss classes = .error .indexError
  | c :: cs, hy => by
    unfold eerScore
    by_cases hc : c = y
    · subst hc
      have : pyAt row c = none := by
        unfold pyAt
        split_ifs
        · rw [List.getElem?_eq_none]
          omega
        · omega
        · rfl
      rw [this]
    · have hm : y ∈ cs := by
        rcases List.mem_cons.1 hy with h | h
        · exact absurd h.symm hc
        · exact h
      cases pyAt row c with
      | none => rfl
      | some p => simp only [eerScore_outside hout hm, Except.map]

/-- A class label that is not the number of a column, as the last one of `1, ..., c`, makes the call raise `IndexError`, whatever the pool and the predictions. -/
theorem C56_label_violation {argsort : List K → List Nat} {u : Coll α} {classes : List Int} {y : Int} (hy : y ∈ classes) {row : List K} (hout : y < -(row.length : Int) ∨ (row.length : Int) ≤ y)
    {rows : List (List K)} {loss : Nat → Int → K} {batch : Int} (hb : 0 < batch) (hlt : batch < u.items.length) : eer argsort u classes (row :: rows) loss batch = .error .indexError := by
  have h : eerScores classes loss 0 (row :: rows) = .error .indexError := by
    simp only [eerScores, eerScore_outside hout hy]
  unfold eer frame
  rw [h, if_neg (by omega), if_neg (by omega)]

example : eer (α := Nat) argsortBy (.list [4, 5, 6]) [1, 2] [[1/2, 1/2], [9/10, 1/10], [1/4, 3/4]] (fun _ _ => 1) 1 = .error .indexError :=
  C56_label_violation (y := 2) (by simp) (.inr (by simp)) (by decide) (by decide)

example : eer (α := Nat) argsortBy (.list [4, 5]) [-1, 1] [[1, 0], [1/2, 1/2]] (fun i y => if i = 0 ∧ y = -1 then 1000 else 1) 1 = .ok [4] := by
  decide +kernel

example : eer (α := Nat) argsortBy (.list [4, 5, 6]) [0, 1] [[1/2, 1/2], [9/10, 1/10], [1/4, 3/4]] (fun i y => if y = 0 then 1 else 2 + i) 1 = .ok [5] := by
  decide +kernel

/-! ## LAL -/

/-- **C42**, LAL: the examples with the largest predictions of the trained selector. -/
theorem C42_lal {argsort : List K → List Nat} (ha : ∀ l, Spec.IsArgsort l (argsort l)) {u : Coll α} (hu : u.items.Nodup)
    {pred : List K} (hl : pred.length = u.items.length) {batch : Int} (hb : 0 < batch) :
    ∃ r, lal argsort u (some pred) batch = .ok r ∧ Spec.BatchOf u.items batch r ∧
      Spec.NoneBetter u.items r (fun j i => ∃ pj pi, pred[j]? = some pj ∧ pred[i]? = some pi ∧ pi < pj) := by
  obtain ⟨r, h1, h2⟩ := byLargest_batch ha hu hl hb
  refine ⟨r, h1, h2, ?_⟩
  rintro i j x y hi hj hx hy ⟨pj, pi, ej, ei, hlt⟩
  exact absurd (byLargest_best ha hu hl h1 hi hj hx hy ei ej) (not_le.2 hlt)

/-! ## QUIRE -/

/-- The search returns a position of the list with the least finite value. -/
theorem quireLoop_spec (eva : Nat → Ev K) : ∀ (ps : List Nat) (best : Option (Nat × K)),
    (∀ q m, best = some (q, m) → eva q = .fin m) →
    match quireLoop eva ps best with
    | none => best = none ∧ ∀ p ∈ ps, eva p = .notLess
    | some (p, e) => eva p = .fin e ∧ (p ∈ ps ∨ best = some (p, e)) ∧ (∀ q ∈ ps, ∀ x, eva q = .fin x → e ≤ x) ∧ (∀ q m, best = some (q, m) → e ≤ m)
  | [], best, hb => by
    unfold quireLoop
    cases best with
    | none => simp
    | some b =>
      obtain ⟨q, m⟩ := b
      refine ⟨hb q m rfl, Or.inr rfl, by simp, ?_⟩
      intro q' m' h
      simp at h
      exact h.2.le
  | p :: ps, best, hb => by
    unfold quireLoop
    cases hp : eva p with
    | notLess =>
      have ih := quireLoop_spec eva ps best hb
      simp only
      cases hr : quireLoop eva ps best with
      | none =>
        rw [hr] at ih
        refine ⟨ih.1, ?_⟩
        intro q hq
        rcases List.mem_cons.1 hq with rfl | hq
        · exact hp
        · exact ih.2 q hq
      | some r =>
        obtain ⟨r, e⟩ := r
        rw [hr] at ih
        refine ⟨ih.1, ?_, ?_, ih.2.2.2⟩
        · rcases ih.2.1 with h | h
          · exact Or.inl (by simp [h])
          · exact Or.inr h
        · intro q hq x hx
          rcases List.mem_cons.1 hq with rfl | hq
          · rw [hp] at hx; simp at hx
          · exact ih.2.2.1 q hq x hx
    | fin e =>
      have step : ∀ b' : Nat × K, (eva b'.1 = .fin b'.2) → (b' = (p, e) ∨ best = some b') → b'.2 ≤ e → (∀ q m, best = some (q, m) → b'.2 ≤ m) →
          match quireLoop eva ps (some b') with
          | none => best = none ∧ ∀ q ∈ p :: ps, eva q = .notLess
          | some (p', e') => eva p' = .fin e' ∧ (p' ∈ p :: ps ∨ best = some (p', e')) ∧ (∀ q ∈ p :: ps, ∀ x, eva q = .fin x → e' ≤ x) ∧
              (∀ q m, best = some (q, m) → e' ≤ m) := by
        intro b' h1 h2 h3 h4
        have ih := quireLoop_spec eva ps (some b') (by intro q m h; simp at h; subst h; exact h1)
        cases hr : quireLoop eva ps (some b') with
        | none => rw [hr] at ih; exact absurd ih.1 (by simp)
        | some r =>
          obtain ⟨r, e'⟩ := r
          rw [hr] at ih
          have hle := ih.2.2.2 b'.1 b'.2 rfl
          refine ⟨ih.1, ?_, ?_, ?_⟩
          · rcases ih.2.1 with h | h
            · exact Or.inl (by simp [h])
            · simp at h
              rcases h2 with h2 | h2
              · left; rw [h] at h2; simp at h2; simp [h2.1]
              · right; rw [h2, h]
          · intro q hq x hx
            rcases List.mem_cons.1 hq with rfl | hq
            · rw [hp] at hx; injection hx with hx; subst hx; exact le_trans hle h3
            · exact ih.2.2.1 q hq x hx
          · intro q m h
            exact le_trans hle (h4 q m h)
      cases best with
      | none => exact step (p, e) hp (Or.inl rfl) (le_refl _) (by intro q m h; simp at h)
      | some b =>
        obtain ⟨q, m⟩ := b
        by_cases hlt : e < m
        · simp only [if_pos hlt]
          exact step (p, e) hp (Or.inl rfl) (le_refl _) (by intro q' m' h; simp at h; rw [← h.2]; exact hlt.le)
        · simp only [if_neg hlt]
          exact step (q, m) (hb q m rfl) (Or.inr rfl) (not_lt.1 hlt) (by intro q' m' h; simp at h; exact h.2.le)

/-- **C42**, QUIRE (partial: at least one evaluation is a proper number below infinity): one unlabelled index, with the least evaluation. -/
theorem C42_quire_partial [DecidableEq α] {train l u : List α} (hl : ∀ x ∈ l, x ∈ train) (hu : ∀ x ∈ u, x ∈ train)
    {eva : Nat → Ev K} (h2 : 2 ≤ u.length) (hfin : ∃ x ∈ u, ∃ e, eva (train.idxOf x) = .fin e) :
    ∃ x ∈ u, quire train l u eva = .ok [x] ∧ ∃ e, eva (train.idxOf x) = .fin e ∧ ∀ y ∈ u, ∀ e', eva (train.idxOf y) = .fin e' → e ≤ e' := by
  unfold quire
  rw [if_neg (by omega), positions_ok hl, positions_ok hu]
  simp only
  have := quireLoop_spec eva (u.map (fun x => train.idxOf x)) none (by intro q m h; simp at h)
  cases hr : quireLoop eva (u.map (fun x => train.idxOf x)) none with
  | none =>
    rw [hr] at this
    obtain ⟨x, hx, e, he⟩ := hfin
    rw [this.2 _ (List.mem_map_of_mem hx)] at he
    simp at he
  | some r =>
    obtain ⟨p, e⟩ := r
    rw [hr] at this
    obtain ⟨h1, h3, h4, _⟩ := this
    rcases h3 with h3 | h3
    · obtain ⟨x, hx, rfl⟩ := List.mem_map.1 h3
      refine ⟨x, hx, ?_, e, h1, ?_⟩
      · simp only
        rw [get_idxOf (hu x hx)]
      · intro y hy e' he'
        exact h4 _ (List.mem_map_of_mem hy) e' he'
    · simp at h3

/-- If no evaluation is below infinity (NaN after an overflow or a division by zero), QUIRE returns the last index of the training set,
labelled or not. -/
theorem C42_quire_violation [DecidableEq α] {train l u : List α} (hl : ∀ x ∈ l, x ∈ train) (hu : ∀ x ∈ u, x ∈ train)
    {eva : Nat → Ev K} (h2 : 2 ≤ u.length) (hnone : ∀ x ∈ u, eva (train.idxOf x) = .notLess) :
    ∃ x, train.getLast? = some x ∧ quire train l u eva = .ok [x] := by
  unfold quire
  rw [if_neg (by omega), positions_ok hl, positions_ok hu]
  simp only
  have := quireLoop_spec eva (u.map (fun x => train.idxOf x)) none (by intro q m h; simp at h)
  cases hr : quireLoop eva (u.map (fun x => train.idxOf x)) none with
  | none =>
    cases ht : train.getLast? with
    | none =>
      rw [List.getLast?_eq_none_iff] at ht
      subst ht
      cases u with
      | nil => simp at h2
      | cons y u => exact absurd (hu y (by simp)) (by simp)
    | some x => exact ⟨x, rfl, rfl⟩
  | some r =>
    obtain ⟨p, e⟩ := r
    rw [hr] at this
    obtain ⟨h1, h3, _⟩ := this
    rcases h3 with h3 | h3
    · obtain ⟨x, hx, rfl⟩ := List.mem_map.1 h3
      rw [hnone x hx] at h1
      simp at h1
    · simp at h3

example : quire (K := ℚ) [5, 6, 7, 8] [8] [5, 6, 7] (fun p => if p = 0 then .notLess else .fin (3 - p)) = .ok [7] := by decide +kernel
example : quire (K := ℚ) [5, 6, 7, 8] [8] [5, 6, 7] (fun _ => .notLess) = .ok [8] := by decide +kernel

end
end Alipy.Select
