import Verif.Spec.LabelOrder
import Verif.Spec.Lists
import Verif.Model.Peek
import Verif.Model.Adaptive
import Verif.Props.MultiLabelSelect
import Verif.Props.MultiLabelBatch
import Verif.Props.Hierarchy
import Verif.Props.CostSelect
import Verif.Props.VoteRight
import Verif.Proof.Sort
/-!
# The order of the labels does not matter (C141)
-/
namespace Alipy.LabelOrder
open Alipy Alipy.Spec

/-! ## Lists -/

theorem mapM_ok {α β : Type} {f : α → Except PyErr β} {g : α → β} : ∀ {l : List α}, (∀ a ∈ l, f a = .ok (g a)) → l.mapM f = .ok (l.map g)
  | [], _ => rfl
  | a :: l, h => by
    rw [List.mapM_cons, h a (by simp), mapM_ok (l := l) fun b hb => h b (by simp [hb])]
    rfl

theorem mapM_of_ok {α β : Type} {f : α → Except PyErr β} : ∀ {l : List α} {r : List β}, l.mapM f = .ok r → ∀ a ∈ l, ∃ b, f a = .ok b
  | [], _, _ => by simp
  | a :: l, r, h => by
    rw [List.mapM_cons] at h
    cases h1 : f a with
    | error e => rw [h1] at h; cases h
    | ok b =>
      cases h2 : l.mapM f with
      | error e => rw [h1, h2] at h; cases h
      | ok r' =>
        intro x hx
        rcases List.mem_cons.1 hx with rfl | hx
        · exact ⟨b, h1⟩
        · exact mapM_of_ok h2 x hx

/-- Where a list of computations succeeds, they are given by a function. -/
theorem mapM_fun {α β : Type} (d : β) {f : α → Except PyErr β} {l : List α} {r : List β} (h : l.mapM f = .ok r) :
    ∃ g : α → β, (∀ a ∈ l, f a = .ok (g a)) ∧ r = l.map g := by
  refine ⟨fun a => (f a).toOption.getD d, ?_⟩
  have h1 : ∀ a ∈ l, f a = .ok ((f a).toOption.getD d) := fun a ha => by
    obtain ⟨b, hb⟩ := mapM_of_ok h a ha
    rw [hb]
    rfl
  refine ⟨h1, ?_⟩
  have := mapM_ok h1
  rw [h] at this
  exact Except.ok.inj this

section Order
variable {L : Nat} {perm : List Nat}

theorem perm_mem (h : LabelOrder L perm) {j : Nat} : j ∈ perm ↔ j < L := by rw [h.mem_iff, List.mem_range]

theorem perm_length (h : LabelOrder L perm) : perm.length = L := by rw [h.length_eq, List.length_range]

theorem old_lt (h : LabelOrder L perm) {k : Nat} (hk : k < L) : oldLabel perm k < L := by
  rw [← perm_length h] at hk
  unfold oldLabel
  rw [List.getD_eq_getElem _ _ hk]
  exact (perm_mem h).1 (List.getElem_mem hk)

theorem old_inj (h : LabelOrder L perm) {i k : Nat} (hi : i < L) (hk : k < L) (e : oldLabel perm i = oldLabel perm k) : i = k := by
  rw [← perm_length h] at hi hk
  unfold oldLabel at e
  rw [List.getD_eq_getElem _ _ hi, List.getD_eq_getElem _ _ hk] at e
  exact (List.Nodup.getElem_inj_iff (h.nodup_iff.2 List.nodup_range)).1 e

theorem old_surj (h : LabelOrder L perm) {j : Nat} (hj : j < L) : ∃ k < L, oldLabel perm k = j := by
  obtain ⟨k, hk, e⟩ := List.mem_iff_getElem.1 ((perm_mem h).2 hj)
  exact ⟨k, by rw [← perm_length h]; exact hk, by unfold oldLabel; rw [List.getD_eq_getElem _ _ hk]; exact e⟩

theorem range_old (h : LabelOrder L perm) : (List.range L).map (oldLabel perm) = perm := by
  apply List.ext_getElem
  · simp [perm_length h]
  · intro i h1 h2
    simp [oldLabel, h2]

theorem range_getD {α : Type} (d : α) (r : List α) (hr : r.length = L) : (List.range L).map (fun j => r.getD j d) = r := by
  apply List.ext_getElem
  · simp [hr]
  · intro i h1 h2
    simp [h2]

theorem reorder_perm {α : Type} {d : α} (h : LabelOrder L perm) {r : List α} (hr : r.length = L) : (reorderRow d perm r).Perm r := by
  have := h.map (fun j => r.getD j d)
  rw [range_getD d r hr] at this
  exact this

theorem reorder_map {α : Type} {d : α} (h : LabelOrder L perm) (g : Nat → α) : reorderRow d perm ((List.range L).map g) = perm.map g := by
  unfold reorderRow
  refine List.map_congr_left fun j hj => ?_
  have := (perm_mem h).1 hj
  rw [List.getD_eq_getElem _ _ (by simpa using this)]
  simp

theorem countBelow_old (h : LabelOrder L perm) (P : Nat → Prop) : countBelow L (fun k => P (oldLabel perm k)) = countBelow L P := by
  classical
  unfold countBelow
  rw [← List.countP_eq_length_filter, ← List.countP_eq_length_filter]
  have e := h.countP_eq (fun j => @decide (P j) (Classical.propDecidable _))
  rw [← e, ← range_old h, List.countP_map, range_old h]
  rfl

end Order

/-! ## MMC -/
section MMC
open MLBatch Peek
open Alipy.BR (Member Feat column member train Trained answers predictProba predictReal predict)
variable {K : Type} [Field K] [LinearOrder K]

instance : Inhabited (Member K) := ⟨.dummy 0⟩

theorem column_reorder {L : Nat} {perm : List Nat} (h : LabelOrder L perm) (Y : List (List Int)) {k : Nat} (hk : k < L) :
    column (reorderColumns perm Y) k = column Y (oldLabel perm k) := by
  unfold column reorderColumns
  rw [List.map_map]
  refine List.map_congr_left fun r _ => ?_
  have hk' : k < perm.length := by rw [perm_length h]; exact hk
  simp [reorderRow, oldLabel, hk']

/-- Training on reordered columns gives the reordered classifiers. -/
theorem train_reorder {b : BR.Base K} {X : Feat K} {L : Nat} {perm : List Nat} (h : LabelOrder L perm) {Y : List (List Int)} {t : Trained K} :
    train b X L Y = .ok t ↔ ∃ m : Nat → Member K, t = ⟨X.cols, (List.range L).map m⟩ ∧ (∀ j < L, member b X (column Y j) = .ok (m j)) := by
  unfold train
  constructor
  · intro ht
    cases h1 : (List.range L).mapM (fun i => member b X (column Y i)) with
    | error e => rw [h1] at ht; cases ht
    | ok ms =>
      rw [h1] at ht
      obtain ⟨g, hg, rfl⟩ := mapM_fun default h1
      cases ht
      exact ⟨g, rfl, fun j hj => hg j (List.mem_range.2 hj)⟩
  · rintro ⟨m, rfl, hm⟩
    rw [mapM_ok fun j hj => hm j (List.mem_range.1 hj)]

theorem train_perm {b : BR.Base K} {X : Feat K} {L : Nat} {perm : List Nat} (h : LabelOrder L perm) {Y : List (List Int)} {m : Nat → Member K}
    (hm : ∀ j < L, member b X (column Y j) = .ok (m j)) : train b X L (reorderColumns perm Y) = .ok ⟨X.cols, perm.map m⟩ := by
  rw [train_reorder h]
  refine ⟨fun k => m (oldLabel perm k), ?_, fun j hj => ?_⟩
  · rw [← range_old h, List.map_map, range_old h]
    rfl
  · rw [column_reorder h Y hj]
    exact hm _ (old_lt h hj)

/-- The answers of reordered classifiers are the reordered answers. -/
theorem answers_perm {β : Type} [Inhabited β] {c L : Nat} {perm : List Nat} (h : LabelOrder L perm) {m : Nat → Member K} {X : Feat K}
    {f : Member K → List K → Except PyErr β} {R : List (List β)} (hR : answers (some ⟨c, (List.range L).map m⟩) X f = .ok R) :
    ∃ g : List K → Nat → β, R = X.rows.map (fun x => (List.range L).map (g x)) ∧
      answers (some ⟨c, perm.map m⟩) X f = .ok (X.rows.map (fun x => perm.map (g x))) := by
  unfold answers at hR ⊢
  simp only at hR ⊢
  by_cases hc : X.cols ≠ c
  · rw [if_pos hc] at hR; cases hR
  · rw [if_neg hc] at hR ⊢
    have key : ∀ x ∈ X.rows, ∀ j < L, f (m j) x = .ok ((f (m j) x).toOption.getD default) := by
      intro x hx j hj
      obtain ⟨row, hrow⟩ := mapM_of_ok hR x hx
      obtain ⟨v, hv⟩ := mapM_of_ok hrow (m j) (List.mem_map.2 ⟨j, List.mem_range.2 hj, rfl⟩)
      rw [hv]
      rfl
    have hall : ∀ l : List Nat, (∀ j ∈ l, j < L) → X.rows.mapM (fun x => (l.map m).mapM (fun m => f m x)) =
        .ok (X.rows.map (fun x => l.map (fun j => (f (m j) x).toOption.getD default))) := by
      intro l hl
      refine mapM_ok fun x hx => ?_
      rw [mapM_ok (g := fun mm => (f mm x).toOption.getD default) fun mm hmm => ?_, List.map_map]
      · rfl
      · obtain ⟨j, hj, rfl⟩ := List.mem_map.1 hmm
        exact key x hx j (hl j hj)
    refine ⟨fun x j => (f (m j) x).toOption.getD default, ?_, hall perm fun j hj => (perm_mem h).1 hj⟩
    rw [hall _ fun j hj => List.mem_range.1 hj] at hR
    exact (Except.ok.inj hR).symm

theorem sort_eq {r r' : List K} (h : r.Perm r') :
    sortBy (fun a b => decide (a ≤ b)) r = sortBy (fun a b => decide (a ≤ b)) r' := by
  have hs : ∀ l : List K, (sortBy (fun a b => decide (a ≤ b)) l).Pairwise (· ≤ ·) := fun l => by
    have := sortBy_sorted (fun a b : K => decide (a ≤ b)) (fun a b => by simpa using le_total a b)
      (fun a b c => by simpa using fun h1 h2 => le_trans h1 h2) l
    simpa using this
  exact List.Perm.eq_of_pairwise (fun a b _ _ => le_antisymm) (hs r) (hs r') ((sortBy_perm _ r).trans (h.trans (sortBy_perm _ r').symm))

theorem normRow_perm {r r' : List K} (h : r.Perm r') : normRow r = normRow r' := by
  unfold normRow
  rw [sort_eq h]

/-- The length of `l[:p]`. -/
def sliceLen (n : Nat) (p : Int) : Nat := if 0 ≤ p then p.toNat else n - (-p).toNat

theorem slice_take {α : Type} (l : List α) (p : Int) : pySliceTo l p = l.take (sliceLen l.length p) := by
  unfold pySliceTo sliceLen
  split <;> rfl

/-- MMC's score as a function of the probabilities in descending order. -/
theorem mmcScore_sorted {r : List K} {idx : List Nat} (hidx : idx.Perm (List.range r.length)) (p : Int) :
    mmcScore r idx p = (((idx.map (fun j => r.getD j 0)).take (sliceLen r.length p)).map (fun q => (1 - 1 * (q * 2 - 1)) / 2)).sum +
      (((idx.map (fun j => r.getD j 0)).drop (sliceLen r.length p)).map (fun q => (1 - (-1) * (q * 2 - 1)) / 2)).sum := by
  have hlen : idx.length = r.length := by rw [hidx.length_eq, List.length_range]
  have hnd : idx.Nodup := hidx.nodup_iff.2 List.nodup_range
  unfold mmcScore signs
  rw [slice_take, hlen]
  generalize sliceLen r.length p = m
  have e : List.zipWith (fun yh q : K => (1 - yh * (q * 2 - 1)) / 2) ((List.range r.length).map (fun j => if j ∈ idx.take m then (1 : K) else -1)) r =
      (List.range r.length).map (fun j => (1 - (if j ∈ idx.take m then (1 : K) else -1) * (r.getD j 0 * 2 - 1)) / 2) := by
    apply List.ext_getElem
    · simp
    · intro i h1 h2
      have : i < r.length := by simpa using h2
      simp [this]
  rw [e, ← (hidx.map _).sum_eq, ← List.take_append_drop m idx, List.map_append, List.sum_append, List.take_append_drop m idx,
    ← List.map_take, ← List.map_drop, List.map_map, List.map_map]
  congr 2
  · refine List.map_congr_left fun j hj => ?_
    simp [hj]
  · refine List.map_congr_left fun j hj => ?_
    have : j ∉ idx.take m := fun hj' => by
      rw [← List.take_append_drop m idx] at hnd
      exact (List.nodup_append.1 hnd).2.2 j hj' j hj rfl
    simp [this]

theorem desc_perm {r : List K} {idx : List Nat} (hidx : _root_.Spec.IsArgsort r idx.reverse) :
    (idx.map (fun j => r.getD j 0)).Perm r ∧ (idx.map (fun j => r.getD j 0)).Pairwise (fun a b => b ≤ a) := by
  have h1 : idx.Perm (List.range r.length) := (List.reverse_perm idx).symm.trans hidx.1
  refine ⟨?_, ?_⟩
  · have := h1.map (fun j => r.getD j 0)
    rw [range_getD 0 r rfl] at this
    exact this
  · rw [List.pairwise_map]
    have h2 := List.pairwise_reverse.1 hidx.2
    refine List.Pairwise.imp_of_mem ?_ h2
    intro i j hi hj h
    have hi' := List.mem_range.1 (h1.mem_iff.1 hi)
    have hj' := List.mem_range.1 (h1.mem_iff.1 hj)
    rw [List.getD_eq_getElem _ _ hi', List.getD_eq_getElem _ _ hj']
    exact h _ _ (List.getElem?_eq_getElem hj') (List.getElem?_eq_getElem hi')

/-- The score does not depend on the order of the probabilities, nor on how equal ones are sorted. -/
theorem mmcScore_perm {argsort : List K → List Nat} (hs : ∀ l, _root_.Spec.IsArgsort l (argsort l)) {r r' : List K} (h : r.Perm r') (p : Int) :
    mmcScore r (argsort r).reverse p = mmcScore r' (argsort r').reverse p := by
  have d : ∀ l, _root_.Spec.IsArgsort l (argsort l).reverse.reverse := fun l => by rw [List.reverse_reverse]; exact hs l
  have i : ∀ l : List K, (argsort l).reverse.Perm (List.range l.length) := fun l => (List.reverse_perm _).trans (hs l).1
  rw [mmcScore_sorted (i r), mmcScore_sorted (i r'), h.length_eq]
  have e : (argsort r).reverse.map (fun j => r.getD j 0) = (argsort r').reverse.map (fun j => r'.getD j 0) :=
    List.Perm.eq_of_pairwise (fun a b _ _ h1 h2 => le_antisymm h2 h1) (desc_perm (d r)).2 (desc_perm (d r')).2
      ((desc_perm (d r)).1.trans (h.trans (desc_perm (d r')).1.symm))
  rw [e]

theorem sums_reorder {L : Nat} {perm : List Nat} (h : LabelOrder L perm) {Y : List (List Int)} (hY : ∀ r ∈ Y, r.length = L) :
    (reorderColumns perm Y).map List.sum = Y.map List.sum := by
  unfold reorderColumns
  rw [List.map_map]
  exact List.map_congr_left fun r hr => (reorder_perm h (hY r hr)).sum_eq

theorem pyAtAll_mem {α : Type} {l : List α} : ∀ {is : List Int} {r : List α}, pyAtAll l is = .ok r → ∀ v ∈ r, v ∈ l
  | [], r, h => by cases h; simp
  | i :: is, r, h => by
    unfold pyAtAll at h
    cases h1 : pyAt l i with
    | none => rw [h1] at h; cases h
    | some v =>
      rw [h1] at h
      cases h2 : pyAtAll l is with
      | error e => rw [h2] at h; cases h
      | ok t =>
        rw [h2] at h
        cases h
        intro w hw
        rcases List.mem_cons.1 hw with rfl | hw
        · unfold pyAt at h1
          split at h1
          · exact List.mem_of_getElem? h1
          · split at h1
            · exact List.mem_of_getElem? h1
            · cases h1
        · exact pyAtAll_mem h2 w hw

/-- **C141**, MMC: with the columns of the label matrix in another order, the same example is asked for. -/
theorem C141_mmc {b : BR.Base K} {lrFit : List (List K) → List Int → Except PyErr (List K → Int)} {argsort : List K → List Nat}
    (hs : ∀ l, _root_.Spec.IsArgsort l (argsort l)) {choose : List Nat → Nat} {X : Int → List K} {cols L : Nat} {lab unl : List Int}
    {Y : List (List Int)} (hY : ∀ r ∈ Y, r.length = L) {perm : List Nat} (h : LabelOrder L perm) {k : Nat}
    (hk : mmcSelect b lrFit argsort choose X cols L lab unl Y = .ok k) :
    mmcSelect b lrFit argsort choose X cols L lab unl (reorderColumns perm Y) = .ok k := by
  unfold mmcSelect at hk ⊢
  cases h1 : pyAtAll Y lab with
  | error e => rw [h1] at hk; cases hk
  | ok Yl =>
    have hYl : ∀ r ∈ Yl, r.length = L := fun r hr => hY r (pyAtAll_mem h1 r hr)
    have h1' : pyAtAll (reorderColumns perm Y) lab = .ok (reorderColumns perm Yl) := by
      unfold reorderColumns
      rw [Split.pyAtAll_map, h1]
      rfl
    rw [h1] at hk
    rw [h1']
    simp only at hk ⊢
    cases h2 : train b ⟨cols, lab.map X⟩ L Yl with
    | error e => rw [h2] at hk; cases hk
    | ok t =>
      rw [h2] at hk
      obtain ⟨m, rfl, hm⟩ := (train_reorder h).1 h2
      rw [train_perm h hm]
      simp only at hk ⊢
      cases h3 : predictProba (some ⟨cols, (List.range L).map m⟩) ⟨cols, lab.map X⟩ with
      | error e => rw [h3] at hk; cases hk
      | ok trnf =>
        rw [h3] at hk
        haveI : Inhabited K := ⟨0⟩
        obtain ⟨g, rfl, e3⟩ := answers_perm h h3
        simp only at hk ⊢
        cases h4 : predictProba (some ⟨cols, (List.range L).map m⟩) ⟨cols, unl.map X⟩ with
        | error e => rw [h4] at hk; cases hk
        | ok poolf =>
          rw [h4] at hk
          obtain ⟨g', rfl, e4⟩ := answers_perm h h4
          have e3' : predictProba (some ⟨cols, perm.map m⟩) ⟨cols, lab.map X⟩ = _ := e3
          have e4' : predictProba (some ⟨cols, perm.map m⟩) ⟨cols, unl.map X⟩ = _ := e4
          rw [e3', e4']
          simp only at hk ⊢
          have n1 : ((lab.map X).map (fun x => perm.map (g x))).map normRow = ((lab.map X).map (fun x => (List.range L).map (g x))).map normRow := by
            simp only [List.map_map]
            exact List.map_congr_left fun x _ => normRow_perm (h.map (g (X x)))
          have n2 : numModel lrFit (reorderColumns perm Y) = numModel lrFit Y := by
            unfold numModel
            rw [sums_reorder h hY]
          rw [n1, n2, sums_reorder h hYl]
          cases h5 : numModel lrFit Y (((lab.map X).map (fun x => (List.range L).map (g x))).map normRow) (Yl.map List.sum) with
          | error e => rw [h5] at hk; cases hk
          | ok num =>
            rw [h5] at hk
            simp only at hk ⊢
            rw [← hk]
            congr 1
            simp only [List.map_map]
            refine List.map_congr_left fun x _ => ?_
            simp only [Function.comp_apply]
            rw [normRow_perm (h.map (g' (X x))), mmcScore_perm hs (h.map (g' (X x)))]

end MMC

/-! ## Adaptive -/
section Adaptive
open MLBatch Adaptive
open Alipy.BR (Member Feat column member train Trained answers predictReal predict)

theorem foldr_perm {α : Type} (f : α → α → α) (hf : ∀ a b c, f a (f b c) = f b (f a c)) (z : α) {l l' : List α} (h : l.Perm l') :
    l.foldr f z = l'.foldr f z := by
  induction h with
  | nil => rfl
  | cons a _ ih => simp [ih]
  | swap a b l => simp [hf]
  | trans _ _ ih1 ih2 => exact ih1.trans ih2

theorem uncertainty_perm {r r' : List ℝ} (h : r.Perm r') : uncertainty r = uncertainty r' := by
  have h1 : posMin r = posMin r' := foldr_perm _ (fun a b c => min_left_comm a b c) _ (h.map _)
  have h2 : negMax r = negMax r' := foldr_perm _ (fun a b c => max_left_comm a b c) _ (h.map _)
  unfold uncertainty margin
  rw [h1, h2]

theorem foldl_max_le {l : List ℝ} : ∀ {a c : ℝ}, l.foldl max a ≤ c ↔ a ≤ c ∧ ∀ x ∈ l, x ≤ c := by
  induction l with
  | nil => simp
  | cons b l ih =>
    intro a c
    rw [List.foldl_cons, ih, max_le_iff]
    simp [and_assoc]

theorem clippedMax_perm {r r' : List ℝ} (h : r.Perm r') : clippedMax r = clippedMax r' := by
  have key : ∀ l : List ℝ, l ≠ [] → ∀ c, l.tail.foldl max (l.headD 0) ≤ c ↔ ∀ x ∈ l, x ≤ c := by
    intro l hl c
    cases l with
    | nil => exact absurd rfl hl
    | cons a l => rw [List.tail_cons, List.headD_cons, foldl_max_le]; simp
  unfold clippedMax
  by_cases hr : r = []
  · subst hr
    rw [h.nil_eq]
  · have hr' : r' ≠ [] := fun e => hr (by subst e; exact h.eq_nil)
    have e : r.tail.foldl max (r.headD 0) = r'.tail.foldl max (r'.headD 0) := by
      refine eq_of_forall_ge_iff fun c => ?_
      rw [key r hr, key r' hr']
      exact ⟨fun H x hx => H x (h.mem_iff.2 hx), fun H x hx => H x (h.mem_iff.1 hx)⟩
    rw [e]

theorem rowErr_perm {r r' : List ℝ} (h : r.Perm r') : rowErr r = rowErr r' := by
  unfold rowErr
  simp only
  rw [clippedMax_perm (h.map (fun v : ℝ => 1 - (if v < 0 then 1 else v))), clippedMax_perm (h.map (fun v : ℝ => 1 + (if 0 < v then -1 else v)))]

variable {L : Nat} {perm : List Nat}

theorem averagePos_reorder (h : LabelOrder L perm) (Yl : List (List Int)) : averagePos L (reorderColumns perm Yl) = averagePos L Yl := by
  unfold averagePos
  have hlen : (reorderColumns perm Yl).length = Yl.length := by simp [reorderColumns]
  rw [hlen]
  have e : (List.range L).map (fun i => ((column (reorderColumns perm Yl) i).map (fun v : Int => (v : ℝ))).sum / (Yl.length : ℝ)) =
      perm.map (fun j => ((column Yl j).map (fun v : Int => (v : ℝ))).sum / (Yl.length : ℝ)) := by
    conv_rhs => rw [← range_old h, List.map_map]
    refine List.map_congr_left fun k hk => ?_
    rw [column_reorder h Yl (List.mem_range.1 hk)]
    rfl
  rw [e]
  exact (h.map _).sum_eq

/-- The rows of the answers to the reordered problem. -/
theorem getD_rows {xs : List (List ℝ)} {g : List ℝ → Nat → Int} {k : Nat} (hk : k < xs.length) :
    ((xs.map (fun x => perm.map (g x))).getD k []) = perm.map (g xs[k]) := by
  rw [List.getD_eq_getElem _ _ (by simpa using hk)]
  simp

theorem approxErr_reorder {base : BR.Base ℝ} {X : Int → List ℝ} {cols : Nat} {lab unl : List Int} {Yl : List (List Int)}
    {g : List ℝ → Nat → Int} (h : LabelOrder L perm) {k : Nat} (hk : k < unl.length) {v : ℝ}
    (hv : approxErr base X cols L lab unl Yl ((unl.map X).map (fun x => (List.range L).map (g x))) k = .ok v) :
    approxErr base X cols L lab unl (reorderColumns perm Yl) ((unl.map X).map (fun x => perm.map (g x))) k = .ok v := by
  unfold approxErr at hv ⊢
  have hk' : k < (unl.map X).length := by simpa using hk
  rw [getD_rows hk'] at hv ⊢
  have e : reorderColumns perm Yl ++ [perm.map (g (unl.map X)[k])] = reorderColumns perm (Yl ++ [(List.range L).map (g (unl.map X)[k])]) := by
    unfold reorderColumns
    rw [List.map_append, List.map_singleton, reorder_map h]
  rw [e]
  cases h2 : train base ⟨cols, lab.map X ++ [X (unl.getD k 0)]⟩ L (Yl ++ [(List.range L).map (g (unl.map X)[k])]) with
  | error e => rw [h2] at hv; cases hv
  | ok t =>
    rw [h2] at hv
    obtain ⟨m, rfl, hm⟩ := (train_reorder h).1 h2
    rw [train_perm h hm]
    simp only at hv ⊢
    cases h3 : predictReal (some ⟨cols, (List.range L).map m⟩) ⟨cols, unl.map X⟩ with
    | error e => rw [h3] at hv; cases hv
    | ok real =>
      rw [h3] at hv
      obtain ⟨q, rfl, e3⟩ := answers_perm h h3
      have e3' : predictReal (some ⟨cols, perm.map m⟩) ⟨cols, unl.map X⟩ = _ := e3
      rw [e3']
      simp only at hv ⊢
      rw [← hv]
      simp only [List.map_map]
      congr 2
      exact List.map_congr_left fun x _ => rowErr_perm (h.map (q (X x)))

/-- **C141**, Adaptive: with the columns of the label matrix in another order, the same example is asked for. -/
theorem C141_adaptive {base : BR.Base ℝ} {betas : List ℝ} {order : List Nat → List Nat} (hord : ∀ l, (order l).Perm l) {choose : List Nat → Nat}
    {X : Int → List ℝ} {cols : Nat} {lab unl : List Int} {Y : List (List Int)} (h : LabelOrder L perm) {k : Nat}
    (hk : select base betas order choose X cols L lab unl Y = .ok k) :
    select base betas order choose X cols L lab unl (reorderColumns perm Y) = .ok k := by
  unfold Adaptive.select at hk ⊢
  cases h1 : pyAtAll Y lab with
  | error e => rw [h1] at hk; cases hk
  | ok Yl =>
    have h1' : pyAtAll (reorderColumns perm Y) lab = .ok (reorderColumns perm Yl) := by
      unfold reorderColumns
      rw [Split.pyAtAll_map, h1]
      rfl
    rw [h1] at hk
    rw [h1']
    simp only at hk ⊢
    cases h2 : train base ⟨cols, lab.map X⟩ L Yl with
    | error e => rw [h2] at hk; cases hk
    | ok t =>
      rw [h2] at hk
      obtain ⟨m, rfl, hm⟩ := (train_reorder h).1 h2
      rw [train_perm h hm]
      simp only at hk ⊢
      cases h3 : predictReal (some ⟨cols, (List.range L).map m⟩) ⟨cols, unl.map X⟩ with
      | error e => rw [h3] at hk; cases hk
      | ok real =>
        rw [h3] at hk
        obtain ⟨q, rfl, e3⟩ := answers_perm h h3
        have e3' : predictReal (some ⟨cols, perm.map m⟩) ⟨cols, unl.map X⟩ = _ := e3
        rw [e3']
        simp only at hk ⊢
        cases h4 : predict (some ⟨cols, (List.range L).map m⟩) ⟨cols, unl.map X⟩ with
        | error e => rw [h4] at hk; cases hk
        | ok pred =>
          rw [h4] at hk
          obtain ⟨g, rfl, e4⟩ := answers_perm h h4
          have e4' : predict (some ⟨cols, perm.map m⟩) ⟨cols, unl.map X⟩ = _ := e4
          rw [e4']
          simp only at hk ⊢
          by_cases h0 : L = 0
          · rw [if_pos h0] at hk; cases hk
          · rw [if_neg h0] at hk ⊢
            have hsc : scores betas L (reorderColumns perm Yl) ((unl.map X).map (fun x => perm.map (q x))) ((unl.map X).map (fun x => perm.map (g x))) =
                scores betas L Yl ((unl.map X).map (fun x => (List.range L).map (q x))) ((unl.map X).map (fun x => (List.range L).map (g x))) := by
              unfold scores
              refine List.map_congr_left fun b _ => ?_
              rw [averagePos_reorder h]
              simp only [List.zipWith_map, List.zipWith_self]
              refine List.map_congr_left fun x _ => ?_
              unfold cardinality
              rw [uncertainty_perm (h.map (q x)), (h.map (g x)).sum_eq]
            rw [hsc]
            generalize hsc' : scores betas L Yl ((unl.map X).map (fun x => (List.range L).map (q x))) ((unl.map X).map (fun x => (List.range L).map (g x))) = sc at hk ⊢
            have hcand : ∀ c ∈ candidates order sc, c < unl.length := by
              intro c hc
              unfold candidates at hc
              rw [(hord _).mem_iff, List.mem_eraseDups, List.mem_flatten] at hc
              obtain ⟨l, hl, hc⟩ := hc
              obtain ⟨s, hs, rfl⟩ := List.mem_map.1 hl
              have := (mem_argmaxes.1 hc).1
              rw [← hsc'] at hs
              unfold scores at hs
              obtain ⟨b, _, rfl⟩ := List.mem_map.1 hs
              simpa using this
            cases h5 : (candidates order sc).mapM (approxErr base X cols L lab unl Yl ((unl.map X).map (fun x => (List.range L).map (g x)))) with
            | error e => rw [h5] at hk; cases hk
            | ok vs =>
              rw [h5] at hk
              obtain ⟨w, hw, rfl⟩ := mapM_fun 0 h5
              have hw' : ∀ c ∈ candidates order sc, approxErr base X cols L lab unl (reorderColumns perm Yl) ((unl.map X).map (fun x => perm.map (g x))) c = .ok (w c) :=
                fun c hc => approxErr_reorder h (hcand c hc) (hw c hc)
              rw [mapM_ok hw']
              simp only at hk ⊢
              rw [← hk]
              unfold adaptiveAsk
              simp only
              have e : (candidates order sc).map (fun c => valueOf (approxErr base X cols L lab unl (reorderColumns perm Yl) ((unl.map X).map (fun x => perm.map (g x))) c)) =
                  (candidates order sc).map (fun c => valueOf (approxErr base X cols L lab unl Yl ((unl.map X).map (fun x => (List.range L).map (g x))) c)) :=
                List.map_congr_left fun c hc => by rw [hw c hc, hw' c hc]
              rw [e]

end Adaptive

/-! ## AUDI and AURO -/
section Pairs
open MLSelect MLIC
variable {K : Type} [Field K] [LinearOrder K] [IsStrictOrderedRing K] {L : Nat} {perm : List Nat}

theorem offered_range {n : Nat} (hL : 0 < L) {a : PairArg} (ha : LegalArg n L a) {e l : Int} (ho : Offered n L a (e, l)) :
    0 ≤ e ∧ e < n ∧ 0 ≤ l ∧ l < L := by
  obtain ⟨u, hu, hut, hul, hui, hum⟩ := checkInd_legal hL ha
  obtain ⟨ps, hps, -, hpr⟩ := (tame_inv hut).plain hul
  have hq := (hum (e, l)).2 ho
  have h1 := hui _ hq
  rw [hps] at hq
  obtain ⟨p, hp, he⟩ := List.mem_map.1 hq
  have : p = (e, l) := plain_inj he
  have := hpr p hp
  simp_all

theorem countBelow_congr {P Q : Nat → Prop} (h : ∀ j < L, P j ↔ Q j) : countBelow L P = countBelow L Q := by
  classical
  unfold countBelow
  congr 1
  refine List.filter_congr fun j hj => ?_
  rw [decide_eq_decide]
  exact h j (List.mem_range.1 hj)

/-- Two pools of pairs hold the same pairs, the labels being listed in another order in the second one. -/
def SamePool (n L : Nat) (perm : List Nat) (a a' : PairArg) : Prop :=
  ∀ (e : Int), ∀ k < L, Offered n L a' (e, (k : Int)) ↔ Offered n L a (e, (oldLabel perm k : Int))

theorem inconsistency_old (h : LabelOrder L perm) {f f' : Nat → K} (hf : ∀ k < L, f' k = f (oldLabel perm k)) (hd : f' L = f L) (avg eps : K)
    {P P' : Nat → Prop} (hP : ∀ k < L, P' k ↔ P (oldLabel perm k)) : inconsistency L f' avg eps P' = inconsistency L f avg eps P := by
  unfold inconsistency
  rw [countBelow_congr hP, countBelow_old h P,
    countBelow_congr (P := fun j => f' L < f' j) (Q := fun j => f L < f (oldLabel perm j)) (fun j hj => by rw [hf j hj, hd]),
    countBelow_old h (fun j => f L < f j)]

/-- **C141**, AUDI: with the labels listed in another order (in the label matrix, the collections and the scores of the model), the same pair is
asked for; no two examples being equally informative and no two labels of an example equally close to the threshold. -/
theorem C141_audi {argsort argsort' : List (EF K) → List Nat} (hs : ∀ l, _root_.Spec.IsArgsort l (argsort l))
    (hs' : ∀ l, _root_.Spec.IsArgsort l (argsort' l)) {fit fit' : MLIC → Except PyErr (Int → Nat → EF K)} {Y : List (List Int)} (hL : 0 < L) {eps : K}
    {lab unl lab' unl' : PairArg} (hlab : LegalArg Y.length L lab) (hunl : LegalArg Y.length L unl) (hlab' : LegalArg Y.length L lab')
    (hunl' : LegalArg Y.length L unl') (h2 : 2 ≤ unl.len) (h2' : 2 ≤ unl'.len) (hne : ∃ p, Offered Y.length L unl p)
    (h : LabelOrder L perm) (hY : ∀ r ∈ Y, r.length = L) (hu : SamePool Y.length L perm unl unl') (hl : SamePool Y.length L perm lab lab')
    {pres pres' : Int → Nat → EF K} (hfit : ∀ c, checkInd Y.length L lab = .ok c → fit c = .ok pres)
    (hfit' : ∀ c, checkInd Y.length L lab' = .ok c → fit' c = .ok pres')
    {f f' : Int → Nat → K} (hf : ∀ e, ∀ i ≤ L, pres e i = .num (f e i)) (hf' : ∀ e, ∀ i ≤ L, pres' e i = .num (f' e i))
    (hff : ∀ e, ∀ k < L, f' e k = f e (oldLabel perm k)) (hd : ∀ e, f' e L = f e L)
    {us : List Int} (hus : us.Nodup) (husm : ∀ e, e ∈ us ↔ ∀ l, 0 ≤ l → l < (L : Int) → Offered Y.length L lab (e, l)) (hune : us ≠ [])
    {avg : K} (havg : avg = ((us.map (fun e => ((Y.getD e.toNat []).filter (fun y => decide (y = 1))).length)).sum : K) / us.length)
    (htie : ∀ e e' l l', Offered Y.length L unl (e, l) → Offered Y.length L unl (e', l') →
      inconsistency L (f e) avg eps (fun j => Offered Y.length L unl (e, j)) = inconsistency L (f e') avg eps (fun j => Offered Y.length L unl (e', j)) → e = e')
    (htie' : ∀ (e : Int) (i j : Nat), Offered Y.length L unl (e, i) → Offered Y.length L unl (e, j) → |f e i - f e L| = |f e j - f e L| → i = j) :
    ∃ e k, k < L ∧ audi argsort fit Y L eps lab unl = .ok (.pairs [(e, (oldLabel perm k : Int))]) ∧
      audi argsort' fit' (reorderColumns perm Y) L eps lab' unl' = .ok (.pairs [(e, (k : Int))]) := by
  have hlen : (reorderColumns perm Y).length = Y.length := by simp [reorderColumns]
  obtain ⟨e, j, vs, h1, ho, hvn, hvm, hopt⟩ := C48_audi hs fit Y L hL eps hlab hunl h2 hne hfit
  have hr := offered_range hL hunl ho
  have hjL : j < L := by omega
  obtain ⟨kj, hkj, ekj⟩ := old_surj h hjL
  have hne' : ∃ p, Offered Y.length L unl' p := ⟨(e, kj), (hu e kj hkj).2 (by rw [ekj]; exact ho)⟩
  obtain ⟨e', k, vs', h1', ho', hvn', hvm', hopt'⟩ := C48_audi hs' fit' (reorderColumns perm Y) L hL eps (hlen ▸ hlab') (hlen ▸ hunl') h2' (hlen ▸ hne') (hlen ▸ hfit')
  rw [hlen] at ho' hvm' hopt'
  have hr' := offered_range hL hunl' ho'
  have hkL : k < L := by omega
  obtain ⟨g1, g2⟩ := hopt f hf
  obtain ⟨g1', g2'⟩ := hopt' f' hf'
  -- the fully labelled examples are the same
  have hm : ∀ e, e ∈ vs ↔ e ∈ us := fun e => by rw [hvm, husm]
  have hm' : ∀ e, e ∈ vs' ↔ e ∈ us := fun e => by
    rw [hvm', husm]
    constructor
    · intro H l h0 hl1
      obtain ⟨k, hk, ek⟩ := old_surj h (j := l.toNat) (by omega)
      have := (hl e k hk).1 (H k (by omega) (by omega))
      rw [ek] at this
      rwa [Int.toNat_of_nonneg h0] at this
    · intro H l h0 hl1
      have hk : l.toNat < L := by omega
      have := (hl e l.toNat hk).2 (H _ (by omega) (by have := old_lt h hk; omega))
      rwa [Int.toNat_of_nonneg h0] at this
  have p1 : vs.Perm us := (List.perm_ext_iff_of_nodup hvn hus).2 hm
  have p2 : vs'.Perm us := (List.perm_ext_iff_of_nodup hvn' hus).2 hm'
  have husr : ∀ e ∈ us, 0 ≤ e ∧ e < Y.length := by
    intro e he
    have := offered_range hL hlab ((husm e).1 he 0 (by omega) (by omega))
    exact ⟨this.1, this.2.1⟩
  have havg1 : avg = ((vs.map (fun e => ((Y.getD e.toNat []).filter (fun y => decide (y = 1))).length)).sum : K) / vs.length := by
    rw [havg, (p1.map _).sum_eq, p1.length_eq]
  have hones : ∀ e ∈ us, (((reorderColumns perm Y).getD e.toNat []).filter (fun y => decide (y = 1))).length =
      ((Y.getD e.toNat []).filter (fun y => decide (y = 1))).length := by
    intro e he
    have hb := husr e he
    have hlt : e.toNat < Y.length := by omega
    have hlt' : e.toNat < (reorderColumns perm Y).length := by omega
    rw [List.getD_eq_getElem _ _ hlt, List.getD_eq_getElem _ _ hlt']
    have : (reorderColumns perm Y)[e.toNat] = reorderRow 0 perm Y[e.toNat] := by simp [reorderColumns]
    rw [this]
    exact ((reorder_perm h (hY _ (List.getElem_mem hlt))).filter _).length_eq
  have havg2 : avg = ((vs'.map (fun e => (((reorderColumns perm Y).getD e.toNat []).filter (fun y => decide (y = 1))).length)).sum : K) / vs'.length := by
    rw [havg, (p2.map _).sum_eq, p2.length_eq, List.map_congr_left hones]
  have hI : ∀ e, inconsistency L (f' e) avg eps (fun j => Offered Y.length L unl' (e, j)) = inconsistency L (f e) avg eps (fun j => Offered Y.length L unl (e, j)) :=
    fun e => inconsistency_old h (hff e) (hd e) avg eps (hu e)
  have hok : Offered Y.length L unl (e', (oldLabel perm k : Int)) := (hu e' k hkL).1 ho'
  have e1 := g2 (by intro c; subst c; exact hune (List.perm_nil.1 p1.symm)) avg havg1 e' _ hok
  have e2 := g2' (by intro c; subst c; exact hune (List.perm_nil.1 p2.symm)) avg havg2 e kj ((hu e kj hkj).2 (by rw [ekj]; exact ho))
  rw [hI, hI] at e2
  have ee : e = e' := htie e e' _ _ ho hok (le_antisymm e2 e1)
  subst ee
  have l1 := g1 _ hok
  have l2 := g1' kj ((hu e kj hkj).2 (by rw [ekj]; exact ho))
  rw [hff e k hkL, hff e kj hkj, hd e, ekj] at l2
  have ej : j = oldLabel perm k := htie' e _ _ ho hok (le_antisymm l1 l2)
  exact ⟨e, k, hkL, by rw [h1, ej], h1'⟩

/-- The first of the examples with the greatest count, among those with a count greater than one. -/
def firstMost (n : Nat) (c : Nat → Nat) : Option Nat :=
  let cand := (List.range n).filter (fun i => decide (1 < c i))
  (argmaxNat (cand.map c)).bind (fun k => cand[k]?)

theorem firstMost_congr {n : Nat} {c c' : Nat → Nat} (h : ∀ i < n, c i = c' i) : firstMost n c = firstMost n c' := by
  unfold firstMost
  have e1 : (List.range n).filter (fun i => decide (1 < c i)) = (List.range n).filter (fun i => decide (1 < c' i)) :=
    List.filter_congr fun i hi => by rw [h i (List.mem_range.1 hi)]
  simp only
  rw [e1]
  have e2 : ((List.range n).filter (fun i => decide (1 < c' i))).map c = ((List.range n).filter (fun i => decide (1 < c' i))).map c' :=
    List.map_congr_left fun i hi => h i (List.mem_range.1 (List.mem_filter.1 hi).1)
  rw [e2]

/-- AURO's example depends on the numbers of unlabelled pairs only. -/
theorem auro_inst {n : Nat} {argsort : List (EF K) → List Nat} {fit : MLIC → Except PyErr (Int → Nat → EF K)} (hL : 0 < L)
    {lab unl : PairArg} (hunl : LegalArg n L unl) (h2 : 2 ≤ unl.len) {e : Int} {y1 y2 : Nat}
    (ha : auro argsort fit n L lab unl = .ok (.triple e y1 y2)) :
    ∃ i : Nat, e = i ∧ firstMost n (fun i => countBelow L (fun j => Offered n L unl ((i : Int), (j : Int)))) = some i := by
  obtain ⟨u, hu, hut, hul, hui, hum⟩ := checkInd_legal hL hunl
  obtain ⟨W, hW, hrow⟩ := mask_rows hut hul hui
  have hcount : ∀ i < n, ((maskRow W (i : Int)).filter (fun x => decide (x = 1))).length = countBelow L (fun j => Offered n L unl ((i : Int), (j : Int))) := by
    intro i hi
    obtain ⟨a, b⟩ := hrow i (by omega) (by omega)
    refine count_mask a fun j hj => ?_
    have := b j hj
    rw [hum ((i : Int), (j : Int))] at this
    exact this
  unfold auro at ha
  rw [if_neg (by omega), hu] at ha
  dsimp only at ha
  cases h1 : checkInd n L lab with
  | error er => rw [h1] at ha; cases ha
  | ok l =>
    rw [h1] at ha
    dsimp only at ha
    rw [hW] at ha
    dsimp only at ha
    cases h3 : fit l with
    | error er => rw [h3] at ha; cases ha
    | ok pres =>
      rw [h3] at ha
      dsimp only at ha
      rw [← firstMost_congr hcount]
      unfold firstMost
      simp only
      generalize hc : (List.range n).filter (fun i : Nat => decide (1 < ((maskRow W (i : Int)).filter (fun x => decide (x = 1))).length)) = cand at ha ⊢
      cases h4 : argmaxNat (cand.map (fun i : Nat => ((maskRow W (i : Int)).filter (fun x => decide (x = 1))).length)) with
      | none => rw [h4] at ha; cases ha
      | some k =>
        rw [h4] at ha
        dsimp only at ha
        cases h5 : cand[k]? with
        | none => rw [h5] at ha; cases ha
        | some i =>
          rw [h5] at ha
          dsimp only at ha
          cases h6 : auroLabels argsort L (fun j => decide (((maskRow W (i : Int))[j]?).getD 0 = 0)) (pres i) with
          | error er => rw [h6] at ha; cases ha
          | ok y =>
            rw [h6] at ha
            cases ha
            exact ⟨i, rfl, by rw [Option.bind_some, h5]⟩

/-- **C141**, AURO: with the labels listed in another order, the same example and the same two labels are asked for; no two labels of an example having
the same score or being equally close to the threshold. -/
theorem C141_auro {n : Nat} {argsort argsort' : List (EF K) → List Nat} (hs : ∀ l, _root_.Spec.IsArgsort l (argsort l))
    (hs' : ∀ l, _root_.Spec.IsArgsort l (argsort' l)) {fit fit' : MLIC → Except PyErr (Int → Nat → EF K)} (hL : 0 < L)
    {lab unl lab' unl' : PairArg} (hlab : LegalArg n L lab) (hunl : LegalArg n L unl) (hlab' : LegalArg n L lab')
    (hunl' : LegalArg n L unl') (h2 : 2 ≤ unl.len) (h2' : 2 ≤ unl'.len)
    (htwo : ∃ e l l', Offered n L unl (e, l) ∧ Offered n L unl (e, l') ∧ l ≠ l')
    (h : LabelOrder L perm) (hu : SamePool n L perm unl unl')
    {pres pres' : Int → Nat → EF K} (hfit : ∀ c, checkInd n L lab = .ok c → fit c = .ok pres)
    (hfit' : ∀ c, checkInd n L lab' = .ok c → fit' c = .ok pres')
    {f f' : Int → Nat → K} (hf : ∀ e, ∀ i ≤ L, pres e i = .num (f e i)) (hf' : ∀ e, ∀ i ≤ L, pres' e i = .num (f' e i))
    (hff : ∀ e, ∀ k < L, f' e k = f e (oldLabel perm k)) (hd : ∀ e, f' e L = f e L)
    (htie : ∀ (e : Int) (i j : Nat), Offered n L unl (e, i) → Offered n L unl (e, j) → f e i = f e j → i = j)
    (htie' : ∀ (e : Int) (i j : Nat), Offered n L unl (e, i) → Offered n L unl (e, j) → |f e i - f e L| = |f e j - f e L| → i = j) :
    ∃ e k1 k2, k1 < L ∧ k2 < L ∧ auro argsort fit n L lab unl = .ok (.triple e (oldLabel perm k1) (oldLabel perm k2)) ∧
      auro argsort' fit' n L lab' unl' = .ok (.triple e k1 k2) := by
  obtain ⟨e, y1, y2, h1, ho2, hne, -, hopt⟩ := C48_auro_partial hs fit n L hL hlab hunl h2 hfit htwo
  have up : ∀ {e : Int} {j : Nat}, Offered n L unl (e, (j : Int)) → ∃ k < L, oldLabel perm k = j ∧ Offered n L unl' (e, (k : Int)) := by
    intro e j ho
    have := offered_range hL hunl ho
    obtain ⟨k, hk, ek⟩ := old_surj h (j := j) (by omega)
    exact ⟨k, hk, ek, (hu e k hk).2 (by rw [ek]; exact ho)⟩
  have htwo' : ∃ e l l', Offered n L unl' (e, l) ∧ Offered n L unl' (e, l') ∧ l ≠ l' := by
    obtain ⟨e, l, l', o1, o2, hll⟩ := htwo
    have r1 := offered_range hL hunl o1
    have r2 := offered_range hL hunl o2
    obtain ⟨a, _, ea, oa⟩ := up (e := e) (j := l.toNat) (by rw [Int.toNat_of_nonneg r1.2.2.1]; exact o1)
    obtain ⟨b, _, eb, ob⟩ := up (e := e) (j := l'.toNat) (by rw [Int.toNat_of_nonneg r2.2.2.1]; exact o2)
    refine ⟨e, a, b, oa, ob, fun c => hll ?_⟩
    have : a = b := by omega
    subst this
    omega
  obtain ⟨e', k1, k2, h1', ho2', hne', -, hopt'⟩ := C48_auro_partial hs' fit' n L hL hlab' hunl' h2' hfit' htwo'
  obtain ⟨i, rfl, hi⟩ := auro_inst hL hunl h2 h1
  obtain ⟨i', rfl, hi'⟩ := auro_inst hL hunl' h2' h1'
  have hii : i = i' := by
    have : firstMost n (fun i => countBelow L (fun j => Offered n L unl' ((i : Int), (j : Int)))) =
        firstMost n (fun i => countBelow L (fun j => Offered n L unl ((i : Int), (j : Int)))) :=
      firstMost_congr fun i _ => by
        rw [countBelow_congr (hu (i : Int)), countBelow_old h (fun j => Offered n L unl ((i : Int), (j : Int)))]
    rw [hi, hi'] at this
    exact (Option.some.inj this).symm
  subst hii
  obtain ⟨ho1, g1, g2⟩ := hopt f hf
  obtain ⟨ho1', g1', g2'⟩ := hopt' f' hf'
  have hk1 : k1 < L := by have := offered_range hL hunl' ho1'; omega
  have hk2 : k2 < L := by have := offered_range hL hunl' ho2'; omega
  have o1 := (hu (i : Int) k1 hk1).1 ho1'
  have o2 := (hu (i : Int) k2 hk2).1 ho2'
  obtain ⟨a, ha, ea, oa⟩ := up ho1
  have q1 := g1 _ o1
  have q2 := g1' a oa
  rw [hff _ a ha, hff _ k1 hk1, ea] at q2
  have ey1 : y1 = oldLabel perm k1 := htie _ _ _ ho1 o1 (le_antisymm q2 q1)
  obtain ⟨b, hb, eb, ob⟩ := up ho2
  have r1 := g2 _ o2 (by rw [ey1]; exact fun c => hne' (old_inj h hk2 hk1 c).symm)
  have r2 := g2' b ob (by intro c; subst c; rw [← ey1] at eb; exact hne eb)
  rw [hff _ b hb, hff _ k2 hk2, eb, hd] at r2
  have ey2 : y2 = oldLabel perm k2 := htie' _ _ _ ho2 o2 (le_antisymm r1 r2)
  exact ⟨i, k1, k2, hk1, hk2, by rw [h1, ey1, ey2], h1'⟩

/-! ## Completing along the hierarchy -/

/-- **C141**, `hierarchical_multilabel_mark`: with the labels listed in another order in the collections, the tree and the label matrix, the same pairs are
added. -/
theorem C141_mark {q lab q' lab' : MLIC} (hl : q.lsz = some (L : Int)) (hs : q.isList = false) {ps : List (Int × Int)}
    (hq : q.inner = ps.map MLIC.plain) (hnd : q.inner.Nodup) (hps : ∀ p ∈ ps, 0 ≤ p.2 ∧ p.2 < L)
    (hl' : q'.lsz = some (L : Int)) (hs' : q'.isList = false) {ps' : List (Int × Int)}
    (hq' : q'.inner = ps'.map MLIC.plain) (hnd' : q'.inner.Nodup) (hps' : ∀ p ∈ ps', 0 ≤ p.2 ∧ p.2 < L)
    (h : LabelOrder L perm)
    (hqq : ∀ (x : Int), ∀ k < L, (x, Second.scal (k : Int)) ∈ q'.inner ↔ (x, Second.scal (oldLabel perm k : Int)) ∈ q.inner)
    (hll : ∀ (x : Int), ∀ k < L, (x, Second.scal (k : Int)) ∈ lab'.inner ↔ (x, Second.scal (oldLabel perm k : Int)) ∈ lab.inner)
    {tree tree' : Int → Int → Bool} (ht : ∀ a < L, ∀ b < L, tree' (a : Nat) (b : Nat) = tree (oldLabel perm a : Int) (oldLabel perm b : Int))
    {y y' : Int → Int → Int} (hy : ∀ (x : Int), ∀ k < L, y' x (k : Nat) = y x (oldLabel perm k : Int)) :
    ∃ r r', Hierarchy.mark q lab (L, L) tree y = (r, none) ∧ Hierarchy.mark q' lab' (L, L) tree' y' = (r', none) ∧
      ∀ (x : Int), ∀ k < L, (x, Second.scal (k : Int)) ∈ r'.inner ↔ (x, Second.scal (oldLabel perm k : Int)) ∈ r.inner := by
  obtain ⟨r, h1, _, _, h4⟩ := Hierarchy.C70_mark_partial (lab := lab) hl hs hq hnd tree y
  obtain ⟨r', h1', _, _, h4'⟩ := Hierarchy.C70_mark_partial (lab := lab') hl' hs' hq' hnd' tree' y'
  refine ⟨r, r', h1, h1', fun x k hk => ?_⟩
  have rng : ∀ {x j : Int}, (x, Second.scal j) ∈ q.inner → 0 ≤ j ∧ j < L := by
    intro x j hm
    rw [hq] at hm
    obtain ⟨p, hp, he⟩ := List.mem_map.1 hm
    have : p = (x, j) := plain_inj he
    subst this
    exact hps _ hp
  have rng' : ∀ {x j : Int}, (x, Second.scal j) ∈ q'.inner → 0 ≤ j ∧ j < L := by
    intro x j hm
    rw [hq'] at hm
    obtain ⟨p, hp, he⟩ := List.mem_map.1 hm
    have : p = (x, j) := plain_inj he
    subst this
    exact hps' _ hp
  rw [h4, h4', hqq x k hk, hll x k hk]
  refine or_congr Iff.rfl (and_congr Iff.rfl ?_)
  constructor
  · rintro ⟨x1, j, d, he, hm, h0, hdL, hv⟩
    simp only [Prod.mk.injEq, Second.scal.injEq] at he
    obtain ⟨rfl, rfl⟩ := he
    obtain ⟨a, b⟩ := rng' hm
    obtain ⟨j, rfl⟩ := Int.eq_ofNat_of_zero_le a
    have hj : j < L := by omega
    refine ⟨x, oldLabel perm j, oldLabel perm k, rfl, (hqq x j hj).1 hm, by omega, by have := old_lt h hk; omega, ?_⟩
    rw [← hy x j hj, ← ht j hj k hk, ← ht k hk j hj]
    exact hv
  · rintro ⟨x1, j, d, he, hm, h0, hdL, hv⟩
    simp only [Prod.mk.injEq, Second.scal.injEq] at he
    obtain ⟨rfl, rfl⟩ := he
    obtain ⟨a, b⟩ := rng hm
    obtain ⟨j, rfl⟩ := Int.eq_ofNat_of_zero_le a
    obtain ⟨i, hi, rfl⟩ := old_surj h (j := j) (by omega)
    refine ⟨x, i, k, rfl, (hqq x i hi).2 hm, by omega, by omega, ?_⟩
    rw [hy x i hi, ht i hi k hk, ht k hk i hi]
    exact hv

/-- The uncertainty of the descendants in HALC depends on the order of the labels: a leaf that is the only child of a label counts if it is label 1, and
does not count if labels 1 and `d` are exchanged. -/
theorem C141_halc_violation {c : Nat} {tree tree' : Nat → Nat → Bool} {u u' : Nat → WithBot K} {j d : Nat} (hd : 1 < d) (hdc : d < c)
    (hj : ∀ b < c, tree j b = true ↔ b = 1) (hleaf : ∀ b < c, tree 1 b = false) (hj' : ∀ b < c, tree' j b = true ↔ b = d) :
    (∀ fuel ≥ c + 2, CostSensitive.udes fuel c tree u j = some (u 1)) ∧ (∀ fuel ≥ 2, CostSensitive.udes fuel c tree' u' j = some 0) := by
  have h0 : tree j 0 = false := by
    rw [Bool.eq_false_iff]
    exact fun c => absurd ((hj 0 (by omega)).1 c) (by omega)
  have h1 : tree j 1 = true := (hj 1 (by omega)).2 rfl
  obtain ⟨-, -, a⟩ := CostSensitive.C72_udes_partial (c := c) tree u j
  obtain ⟨-, b, -⟩ := CostSensitive.C72_udes_partial (c := c) tree' u' j
  have hl : (List.range c).filter (tree j) = [1] := by
    have e : (List.range c).filter (tree j) = (List.range c).filter (fun b => b == 1) :=
      List.filter_congr fun b hb => by
        rw [Bool.eq_iff_iff, hj b (List.mem_range.1 hb)]
        simp
    rw [e, List.filter_beq, List.count_eq_one_of_mem List.nodup_range (List.mem_range.2 (by omega))]
    rfl
  refine ⟨fun fuel hf => ?_, ?_⟩
  · rw [a ⟨1, by omega, h1⟩ h0 h1 hleaf fuel hf, hl]
    simp
  · refine b ⟨d, hdc, (hj' d hdc).2 rfl⟩ ?_ ?_
    · rw [Bool.eq_false_iff]
      exact fun e => absurd ((hj' 0 (by omega)).1 e) (by omega)
    · rw [Bool.eq_false_iff]
      exact fun e => absurd ((hj' 1 (by omega)).1 e) (by omega)

end Pairs

/-! ## Examples -/
section Examples
open MLSelect MLIC

example : LabelOrder 3 [2, 0, 1] := by unfold LabelOrder; decide
example : reorderColumns [2, 0, 1] [[1, 0, -1], [0, 1, 1]] = [[-1, 1, 0], [1, 0, 1]] := by decide

/-- MMC on five examples with three labels, and with the labels listed in another order. -/
example : (Peek.mmcSelect (K := ℚ) ⟨.svc, fun _ col => .ok ⟨fun x => if 0 < x.headD 0 then 1 else 0, fun x => if col.headD 0 = 1 then [1 - x.headD 0 / 10, x.headD 0 / 10] else [x.headD 0 / 10, 1 - x.headD 0 / 10],
      fun x => .value (x.headD 0)⟩⟩ (fun _ _ => .ok (fun _ => 1)) (fun l => (List.range l.length).insertionSort (fun i j => l.getD i 0 ≤ l.getD j 0)) (fun l => l.headD 0)
      (fun i => [i]) 1 3 [0, 1] [2, 3, 4] [[1, 0, 1], [0, 1, 1], [0, 0, 1], [1, 1, 1], [1, 0, 1]]).toOption = some 0 ∧
    (Peek.mmcSelect (K := ℚ) ⟨.svc, fun _ col => .ok ⟨fun x => if 0 < x.headD 0 then 1 else 0, fun x => if col.headD 0 = 1 then [1 - x.headD 0 / 10, x.headD 0 / 10] else [x.headD 0 / 10, 1 - x.headD 0 / 10],
      fun x => .value (x.headD 0)⟩⟩ (fun _ _ => .ok (fun _ => 1)) (fun l => (List.range l.length).insertionSort (fun i j => l.getD i 0 ≤ l.getD j 0)) (fun l => l.headD 0)
      (fun i => [i]) 1 3 [0, 1] [2, 3, 4] (reorderColumns [2, 0, 1] [[1, 0, 1], [0, 1, 1], [0, 0, 1], [1, 1, 1], [1, 0, 1]])).toOption = some 0 := by
  decide +kernel

/-- The pools `(0, 1), (0, 2)` and, the labels listed in the order 2, 0, 1, `(0, 2), (0, 0)`. -/
example : SamePool 2 3 [2, 0, 1] (.flat [2, 4]) (.flat [4, 0]) := by
  intro e k hk
  have : k = 0 ∨ k = 1 ∨ k = 2 := by omega
  rcases this with rfl | rfl | rfl <;> simp [Offered, oldLabel] <;> omega

/-- AUDI asks for label 2 of example 0, which is label 0 in the other order. -/
example : audi (K := ℚ) (fun l => List.range l.length) (fun _ => .ok (fun _ j => .num ([5, 9, 7, 6].getD j 0))) [[1, 1, -1], [1, -1, 1]] 3 (1 / 2)
      (.tuples [.tup (.all 1), .tup (.pair 0 (.scal 0))]) (.flat [2, 4]) = .ok (.pairs [(0, (oldLabel [2, 0, 1] 0 : Int))]) ∧
    audi (K := ℚ) (fun l => List.range l.length) (fun _ => .ok (fun _ j => .num ([7, 5, 9, 6].getD j 0)))
      (reorderColumns [2, 0, 1] [[1, 1, -1], [1, -1, 1]]) 3 (1 / 2) (.tuples [.tup (.all 1), .tup (.pair 0 (.scal 1))]) (.flat [4, 0]) =
      .ok (.pairs [(0, 0)]) := by decide +kernel

/-- A tree in which label 1, a leaf, is the only child of label 2, and the one with labels 1 and 3 exchanged. -/
example : CostSensitive.udes (K := ℚ) 6 4 (fun a b => a == 2 && b == 1) (fun j => (([3, 5, 7, 9].getD j 0 : ℚ) : WithBot ℚ)) 2 = some ((5 : ℚ) : WithBot ℚ) ∧
    CostSensitive.udes (K := ℚ) 6 4 (fun a b => a == 2 && b == 3) (fun j => (([3, 9, 7, 5].getD j 0 : ℚ) : WithBot ℚ)) 2 = some 0 := by
  have h := C141_halc_violation (K := ℚ) (c := 4) (tree := fun a b => a == 2 && b == 1) (tree' := fun a b => a == 2 && b == 3)
    (u := fun j => (([3, 5, 7, 9].getD j 0 : ℚ) : WithBot ℚ)) (u' := fun j => (([3, 9, 7, 5].getD j 0 : ℚ) : WithBot ℚ)) (j := 2) (d := 3) (by decide) (by decide)
    (by decide) (by decide) (by decide)
  exact ⟨h.1 6 (by decide), h.2 6 (by decide)⟩

/-- Completing along the hierarchy in the two orders: label 1 is positive and 2 its child. -/
example : Hierarchy.mark ⟨[(7, .scal 1)], some 3, false⟩ ⟨[], some 3, false⟩ (3, 3) (fun a b => b == a + 1) (fun _ _ => 1) =
      (⟨[(7, .scal 1), (7, .scal 2)], some 3, false⟩, none) ∧
    Hierarchy.mark ⟨[(7, .scal 2)], some 3, false⟩ ⟨[], some 3, false⟩ (3, 3)
      (fun a b => ([2, 0, 1].getD b.toNat 0 : Int) == [2, 0, 1].getD a.toNat 0 + 1) (fun _ _ => 1) =
      (⟨[(7, .scal 2), (7, .scal 0)], some 3, false⟩, none) := by decide +kernel

end Examples
end Alipy.LabelOrder
