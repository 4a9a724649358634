import Mathlib.Analysis.Complex.ExponentialBounds
import Verif.Model.Select
import Verif.Spec.Select
import Verif.Props.Sampling
import Verif.Proof.Sort
import Mathlib.Data.List.GetD
import Mathlib.Analysis.SpecialFunctions.Log.Basic
import Mathlib.Analysis.SpecialFunctions.Log.NegMulLog
/-!
# Properties of instance selection (C42, C43, C54)
-/
namespace Alipy.Select
open Alipy

variable {α K : Type}

/-! ## C42 -/

theorem pick_nat {u : List α} {ps : List Nat} (h : ∀ i ∈ ps, i < u.length) :
    ∃ r, pickAll u (ps.map (fun i : Nat => (i : Int))) = .ok r ∧ List.Forall₂ (fun (i : Nat) v => u[i]? = some v) ps r := by
  obtain ⟨r, h1, h2, h3⟩ := pickAll_ok u (ps.map (fun i : Nat => (i : Int))) (by
    intro i hi
    obtain ⟨k, hk, rfl⟩ := List.mem_map.1 hi
    have := h k hk
    omega)
  refine ⟨r, h1, ?_⟩
  rw [List.forall₂_map_left_iff] at h3
  exact h3.imp (by intro a b hab; simpa using hab)

theorem forall₂_nodup {u : List α} (hu : u.Nodup) {ps : List Nat} {r : List α} (h : List.Forall₂ (fun (i : Nat) v => u[i]? = some v) ps r)
    (hn : ps.Nodup) : r.Nodup := by
  induction h with
  | nil => simp
  | @cons i v ps r hi hr ih =>
    rw [List.nodup_cons] at hn ⊢
    refine ⟨?_, ih hn.2⟩
    intro hv
    have : ∃ j ∈ ps, u[j]? = some v := by
      clear ih hn
      induction hr with
      | nil => simp at hv
      | @cons j w ps r hj hr ih2 =>
        rcases List.mem_cons.1 hv with rfl | hv'
        · exact ⟨j, by simp, hj⟩
        · obtain ⟨j', h1, h2⟩ := ih2 hv'
          exact ⟨j', by simp [h1], h2⟩
    obtain ⟨j, hj, hju⟩ := this
    have hlt : i < u.length := by
      rw [List.getElem?_eq_some_iff] at hi; exact hi.1
    have hij : i = j := (List.getElem?_inj hlt hu).1 (hi.trans hju.symm)
    subst hij
    exact hn.1 hj

theorem forall₂_mem_left {u : List α} {ps : List Nat} {r : List α} (h : List.Forall₂ (fun (i : Nat) v => u[i]? = some v) ps r) :
    ∀ x ∈ r, ∃ i ∈ ps, u[i]? = some x := by
  induction h with
  | nil => simp
  | @cons j w ps r hj _ ih =>
    intro x hx
    rcases List.mem_cons.1 hx with rfl | hx'
    · exact ⟨j, by simp, hj⟩
    · obtain ⟨i, h1, h2⟩ := ih x hx'
      exact ⟨i, by simp [h1], h2⟩

theorem forall₂_mem_right {u : List α} {ps : List Nat} {r : List α} (h : List.Forall₂ (fun (i : Nat) v => u[i]? = some v) ps r) :
    ∀ i ∈ ps, ∀ x, u[i]? = some x → x ∈ r := by
  induction h with
  | nil => simp
  | @cons j w ps r hj _ ih =>
    intro i hi x hx
    rcases List.mem_cons.1 hi with rfl | hi'
    · rw [hj] at hx; simp at hx; simp [hx]
    · exact List.mem_cons_of_mem _ (ih i hi' x hx)

/-- The shared frame returns a proper batch if the positions chosen are proper. -/
theorem frame_batch {u : Coll α} (hu : u.items.Nodup) {batch : Int} (hb : 0 < batch) {choose : Except PyErr (List Nat)}
    (hc : batch < u.items.length → ∃ ps, choose = .ok ps ∧ (ps.length : Int) = batch ∧ ps.Nodup ∧ ∀ i ∈ ps, i < u.items.length) :
    ∃ r, frame u batch choose = .ok r ∧ Spec.BatchOf u.items batch r := by
  unfold frame
  rw [if_neg (by omega)]
  by_cases hs : (u.items.length : Int) ≤ batch
  · rw [if_pos hs]
    exact ⟨_, rfl, hu, fun x hx => hx, by omega⟩
  · rw [if_neg hs]
    obtain ⟨ps, rfl, h1, h2, h3⟩ := hc (by omega)
    obtain ⟨r, hr, hf⟩ := pick_nat h3
    refine ⟨r, hr, forall₂_nodup hu hf h2, ?_, ?_⟩
    · intro x hx
      obtain ⟨i, _, hi⟩ := forall₂_mem_left hf x hx
      exact List.mem_of_getElem? hi
    · have := hf.length_eq
      omega

theorem byLargest_batch [LE K] {argsort : List K → List Nat} (ha : ∀ l, Spec.IsArgsort l (argsort l)) {u : Coll α} (hu : u.items.Nodup)
    {scores : List K} (hl : scores.length = u.items.length) {batch : Int} (hb : 0 < batch) :
    ∃ r, byLargest argsort u scores batch = .ok r ∧ Spec.BatchOf u.items batch r := by
  apply frame_batch hu hb
  intro hlt
  obtain ⟨n, rfl⟩ := Int.eq_ofNat_of_zero_le hb.le
  obtain ⟨r, h1, h2, h3, h4, _⟩ := C31_nlargestarg_partial scores _ (ha scores) n (by omega) (by omega)
  exact ⟨r, h1, by omega, h3, by rw [← hl]; exact h4⟩

theorem bySmallest_batch [LE K] {argsort : List K → List Nat} (ha : ∀ l, Spec.IsArgsort l (argsort l)) {u : Coll α} (hu : u.items.Nodup)
    {scores : List K} (hl : scores.length = u.items.length) {batch : Int} (hb : 0 < batch) :
    ∃ r, bySmallest argsort u scores batch = .ok r ∧ Spec.BatchOf u.items batch r := by
  apply frame_batch hu hb
  intro hlt
  obtain ⟨r, h1, h2, h3, h4, _⟩ := C31_nsmallestarg scores _ (ha scores) batch hb
  exact ⟨r, h1, by omega, h3, by rw [← hl]; exact h4⟩

/-- A prediction array that fits `n` examples and the measure. -/
def _root_.Alipy.Spec.Fits (n : Nat) : Measure → Pred K → Prop
  | .distance, .vec l => l.length = n
  | .distance, .mat c rows => c = 1 ∧ rows.length = n ∧ ∀ r ∈ rows, r.length = c
  | _, .vec _ => False
  | _, .mat c rows => c ≠ 1 ∧ rows.length = n ∧ ∀ r ∈ rows, r.length = c

theorem flatten_length_one {rows : List (List K)} (h : ∀ r ∈ rows, r.length = 1) : rows.flatten.length = rows.length := by
  induction rows with
  | nil => rfl
  | cons r rows ih =>
    rw [List.flatten_cons, List.length_append, h r (by simp), ih (fun r' h' => h r' (by simp [h']))]
    simp; omega

/-- **C42**, uncertainty sampling with every measure: `min(batch_size, len(unlabelled))` distinct unlabelled indexes. -/
theorem C42_uncertainty [Field K] [LinearOrder K] {log : K → K} {argsort : List K → List Nat} (ha : ∀ l, Spec.IsArgsort l (argsort l))
    {m : Measure} {u : Coll α} (hu : u.items.Nodup) {predict : Pred K} (hf : Spec.Fits u.items.length m predict) {batch : Int} (hb : 0 < batch) :
    ∃ r, uncertainty log argsort m u predict batch = .ok r ∧ Spec.BatchOf u.items batch r := by
  cases m <;> cases predict with
  | vec l =>
    first
      | exact bySmallest_batch ha hu (by rw [List.length_map]; exact hf) hb
      | exact hf.elim
  | mat c rows =>
    first
      | (obtain ⟨h1, h2, h3⟩ := hf
         subst h1
         simp only [uncertainty, if_true]
         exact bySmallest_batch ha hu (by rw [List.length_map, flatten_length_one h3, h2]) hb)
      | (obtain ⟨h1, h2, h3⟩ := hf
         simp only [uncertainty, if_neg h1]
         exact byLargest_batch ha hu (by simpa using h2) hb)

/-- **C42**, query by committee (two or more members voting on every unlabelled example). -/
theorem C42_qbc [Field K] [LinearOrder K] {log : K → K} {argsort : List K → List Nat} (ha : ∀ l, Spec.IsArgsort l (argsort l))
    {u : Coll α} (hu : u.items.Nodup) {predict : List (List Int)} (h2 : 2 ≤ predict.length) (hp : ∀ r ∈ predict, r.length = u.items.length)
    {batch : Int} (hb : 0 < batch) : ∃ r, qbc log argsort u predict batch = .ok r ∧ Spec.BatchOf u.items batch r := by
  have hh : (predict.headD []).length = u.items.length := by
    cases predict with
    | nil => simp at h2
    | cons r rs => exact hp r (by simp)
  unfold qbc
  rw [if_neg (by omega)]
  exact byLargest_batch ha hu (by rw [List.length_map, List.length_range]; exact hh) hb

/-- **C42**, random selection from an index collection. -/
theorem C42_random_partial {shuffle : List Int → List Int} (hs : Spec.IsShuffle shuffle) {l : List α} (hu : l.Nodup) {batch : Int} (hb : 0 ≤ batch) :
    ∃ r, random shuffle (.coll l) batch = .ok r ∧ Spec.BatchOf l batch r := by
  unfold random
  by_cases hc : (l.length : Int) ≤ batch
  · rw [if_pos (show ((Coll.coll l).items.length : Int) ≤ batch from hc)]
    exact ⟨l, rfl, hu, fun x hx => hx, by omega⟩
  · rw [if_neg (show ¬ ((Coll.coll l).items.length : Int) ≤ batch from hc)]
    obtain ⟨perm, h1, h2, h3, h4⟩ := randperm_pair shuffle hs 0 ((l.length : Int) - 1) batch hb (by omega)
    have h1' : randperm shuffle (.int (((Coll.coll l).items.length : Int) - 1)) (.int batch) = .ok perm := h1
    rw [h1']
    simp only [Coll.index]
    obtain ⟨r, hr, hl, hf⟩ := pickAll_ok l perm (by intro i hi; have := h4 i hi; omega)
    refine ⟨r, hr, ?_, forall₂_pick_mem hf, by omega⟩
    have := forall₂_pick_nodup id (by simpa using hu) hf h3 (fun i hi => (h4 i hi).1)
    simpa using this

/-- With a list (or an array) of more than `batch_size` indexes random selection raises. -/
theorem C42_random_list_violation {shuffle : List Int → List Int} (hs : Spec.IsShuffle shuffle) {l : List α} {batch : Int} (hb : 0 ≤ batch)
    (hlt : batch < l.length) :
    random shuffle (.list l) batch = .error .typeError ∧ random shuffle (.array l) batch = .error .attributeError := by
  obtain ⟨perm, h1, _⟩ := randperm_pair shuffle hs 0 ((l.length : Int) - 1) batch hb (by omega)
  constructor
  · have h1' : randperm shuffle (.int (((Coll.list l).items.length : Int) - 1)) (.int batch) = .ok perm := h1
    unfold random
    rw [if_neg (show ¬ ((Coll.list l).items.length : Int) ≤ batch from not_le.2 hlt), h1']
    rfl
  · have h1' : randperm shuffle (.int (((Coll.array l).items.length : Int) - 1)) (.int batch) = .ok perm := h1
    unfold random
    rw [if_neg (show ¬ ((Coll.array l).items.length : Int) ≤ batch from not_le.2 hlt), h1']
    rfl

/-- **C42**, density weighted selection, for at most as many as there are. -/
theorem C42_density_partial [Field K] [LinearOrder K] {argsort : List K → List Nat} (ha : ∀ l, Spec.IsArgsort l (argsort l)) {u : Coll α} (hu : u.items.Nodup)
    {pat div : List K} (h1 : pat.length = u.items.length) (h2 : div.length = u.items.length) {batch : Nat} (hb : 0 < batch)
    (hle : batch ≤ u.items.length) :
    ∃ r, densityWeighted argsort u pat div batch = .ok r ∧ Spec.BatchOf u.items batch r := by
  unfold densityWeighted
  rw [if_neg (by omega)]
  have hl : (List.zipWith (fun x y => x * y) pat div).length = u.items.length := by simp [h1, h2]
  obtain ⟨ps, e1, e2, e3, e4, _⟩ := C31_nlargestarg_partial _ _ (ha (List.zipWith (fun x y => x * y) pat div)) batch hb (by omega)
  rw [e1]
  obtain ⟨r, hr, hf⟩ := pick_nat (u := u.items) (ps := ps) (by rw [← hl]; exact e4)
  refine ⟨r, hr, forall₂_nodup hu hf e3, ?_, ?_⟩
  · intro x hx
    obtain ⟨i, _, hi⟩ := forall₂_mem_left hf x hx
    exact List.mem_of_getElem? hi
  · have := hf.length_eq
    omega

/-- Asked for more indexes than there are (but fewer than twice as many), it returns too few of them. -/
theorem C42_density_violation [Field K] [LinearOrder K] {argsort : List K → List Nat} (ha : ∀ l, Spec.IsArgsort l (argsort l)) {u : Coll α}
    {pat div : List K} (h1 : pat.length = u.items.length) (h2 : div.length = u.items.length) {batch : Nat}
    (hlt : u.items.length < batch) (hlt2 : batch < 2 * u.items.length) :
    ∃ r, densityWeighted argsort u pat div batch = .ok r ∧ r.length = batch - u.items.length ∧ r.length < u.items.length := by
  unfold densityWeighted
  rw [if_neg (by omega)]
  have hl : (List.zipWith (fun x y => x * y) pat div).length = u.items.length := by simp [h1, h2]
  have hperm := (ha (List.zipWith (fun x y => x * y) pat div)).1
  have hpl : (argsort (List.zipWith (fun x y => x * y) pat div)).length = u.items.length := by rw [hperm.length_eq]; simp [hl]
  have hn : nlargestarg (argsort (List.zipWith (fun x y => x * y) pat div)) batch =
      .ok ((argsort (List.zipWith (fun x y => x * y) pat div)).drop (u.items.length - (batch - u.items.length))) := by
    unfold nlargestarg pySliceFrom
    rw [if_pos (by omega), if_neg (by omega)]
    congr 2
    omega
  rw [hn]
  obtain ⟨r, hr, hf⟩ := pick_nat (u := u.items) (ps := (argsort (List.zipWith (fun x y => x * y) pat div)).drop (u.items.length - (batch - u.items.length))) (by
    intro i hi
    have := hperm.mem_iff.1 (List.mem_of_mem_drop hi)
    rw [← hl]; exact List.mem_range.1 this)
  refine ⟨r, hr, ?_⟩
  have := hf.length_eq
  rw [List.length_drop, hpl] at this
  omega

/-- `np.argsort`, for examples. -/
def argsortBy (l : List ℚ) : List Nat :=
  (sortBy (fun p q => decide (p.2 ≤ q.2)) ((List.range l.length).zip l)).map Prod.fst

example : (List.range 3).Nodup ∧ Spec.Fits (K := ℚ) 3 .margin (.mat 2 [[1/2, 1/2], [1, 0], [1/3, 2/3]]) := by
  refine ⟨by decide, by decide, rfl, ?_⟩
  simp

example : random List.reverse (.coll [7, 8, 9]) 2 = .ok [9, 8] := by decide

/-! ## C43 -/

/-- The result of `byLargest` in terms of positions. -/
theorem byLargest_best [LE K] {argsort : List K → List Nat} (ha : ∀ l, Spec.IsArgsort l (argsort l)) {u : Coll α} (hu : u.items.Nodup)
    {scores : List K} (hl : scores.length = u.items.length) {batch : Int} {r : List α} (hr : byLargest argsort u scores batch = .ok r)
    {i j : Nat} {x y : α} (hi : u.items[i]? = some x) (hj : u.items[j]? = some y) (hx : x ∈ r) (hy : y ∉ r) {a b : K}
    (ha' : scores[i]? = some a) (hb' : scores[j]? = some b) : b ≤ a := by
  unfold byLargest frame at hr
  split_ifs at hr with h1 h2
  · simp at hr; subst hr; exact absurd (List.mem_of_getElem? hj) hy
  · obtain ⟨n, rfl⟩ := Int.eq_ofNat_of_zero_le (a := batch) (by omega)
    obtain ⟨ps, e1, e2, e3, e4, e5, e6⟩ := C31_nlargestarg_partial scores _ (ha scores) n (by omega) (by omega)
    rw [e1] at hr
    simp only at hr
    obtain ⟨r', hr', hf⟩ := pick_nat (u := u.items) (ps := ps) (by rw [← hl]; exact e4)
    rw [hr'] at hr
    simp at hr
    subst hr
    obtain ⟨i', hi', hi''⟩ := forall₂_mem_left hf x hx
    have hlt : i < u.items.length := (List.getElem?_eq_some_iff.1 hi).1
    have : i = i' := (List.getElem?_inj hlt hu).1 (hi.trans hi''.symm)
    subst this
    refine e6 i hi' j ?_ ?_ a b ha' hb'
    · rw [hl]; exact (List.getElem?_eq_some_iff.1 hj).1
    · intro hc; exact hy (forall₂_mem_right hf j hc y hj)

theorem bySmallest_best [LE K] {argsort : List K → List Nat} (ha : ∀ l, Spec.IsArgsort l (argsort l)) {u : Coll α} (hu : u.items.Nodup)
    {scores : List K} (hl : scores.length = u.items.length) {batch : Int} {r : List α} (hr : bySmallest argsort u scores batch = .ok r)
    {i j : Nat} {x y : α} (hi : u.items[i]? = some x) (hj : u.items[j]? = some y) (hx : x ∈ r) (hy : y ∉ r) {a b : K}
    (ha' : scores[i]? = some a) (hb' : scores[j]? = some b) : a ≤ b := by
  unfold bySmallest frame at hr
  split_ifs at hr with h1 h2
  · simp at hr; subst hr; exact absurd (List.mem_of_getElem? hj) hy
  · obtain ⟨ps, e1, e2, e3, e4, e5, e6⟩ := C31_nsmallestarg scores _ (ha scores) batch (by omega)
    rw [e1] at hr
    simp only at hr
    obtain ⟨r', hr', hf⟩ := pick_nat (u := u.items) (ps := ps) (by rw [← hl]; exact e4)
    rw [hr'] at hr
    simp at hr
    subst hr
    obtain ⟨i', hi', hi''⟩ := forall₂_mem_left hf x hx
    have hlt : i < u.items.length := (List.getElem?_eq_some_iff.1 hi).1
    have : i = i' := (List.getElem?_inj hlt hu).1 (hi.trans hi''.symm)
    subst this
    refine e6 i hi' j ?_ ?_ a b ha' hb'
    · rw [hl]; exact (List.getElem?_eq_some_iff.1 hj).1
    · intro hc; exact hy (forall₂_mem_right hf j hc y hj)

section
variable [Field K] [LinearOrder K] [IsStrictOrderedRing K]

omit [Field K] [IsStrictOrderedRing K] in
theorem last_of_sorted {q : List K} {b : K} {rest : List K} (hs : q.Pairwise (fun x y => decide (x ≤ y) = true))
    (hp : q.Perm (b :: rest)) (hr : ∀ x ∈ rest, x ≤ b) {n : Nat} (hn : n < q.length) (hk : n + 1 = q.length) : q[n] = b := by
  obtain ⟨k, hk', hka⟩ := List.getElem_of_mem (hp.mem_iff.2 (List.mem_cons_self (a := b) (l := rest)))
  apply le_antisymm
  · rcases List.mem_cons.1 (hp.mem_iff.1 (List.getElem_mem hn)) with h | h
    · exact h.le
    · exact hr _ h
  · rcases Nat.lt_or_ge k n with h | h
    · have := List.pairwise_iff_getElem.1 hs k n hk' hn h
      rw [hka] at this
      simpa using this
    · have hkk : k = n := by omega
      subst hkk
      rw [hka]

/-- The sorted row ends with the largest entry. -/
theorem sorted_top {row : List K} {a : K} {rest : List K} (hp : row.Perm (a :: rest)) (ha : ∀ x ∈ rest, x ≤ a) :
    kth row (row.length - 1) = a := by
  have hperm := sortBy_perm (fun a b : K => decide (a ≤ b)) row
  have hsort := sortBy_sorted (fun a b : K => decide (a ≤ b)) (by intro a b; simp only [decide_eq_true_eq]; exact le_total _ _)
    (by intro a b c; simp only [decide_eq_true_eq]; exact le_trans) row
  unfold kth
  generalize sortBy (fun a b : K => decide (a ≤ b)) row = s at hperm hsort
  have hlen : s.length = row.length := hperm.length_eq
  have hpos : 0 < row.length := by rw [hp.length_eq]; simp
  have hmem : a ∈ s := hperm.mem_iff.2 (hp.mem_iff.2 (by simp))
  obtain ⟨k, hk, hka⟩ := List.getElem_of_mem hmem
  have hlast : s.getD (row.length - 1) 0 = s[row.length - 1]'(by omega) := by
    rw [List.getD_eq_getElem]
  rw [hlast]
  apply le_antisymm
  · have h1 : s[row.length - 1]'(by omega) ∈ a :: rest := hp.mem_iff.1 (hperm.mem_iff.1 (List.getElem_mem _))
    rcases List.mem_cons.1 h1 with h | h
    · exact h.le
    · exact ha _ h
  · rcases Nat.lt_or_ge k (row.length - 1) with h | h
    · have := List.pairwise_iff_getElem.1 hsort k (row.length - 1) hk (by omega) h
      rw [hka] at this
      simpa using this
    · have hkk : k = row.length - 1 := by omega
      subst hkk
      rw [hka]

theorem kth_margin {row : List K} {a b : K} {rest : List K} (hp : row.Perm (a :: b :: rest)) (hab : b ≤ a) (hr : ∀ x ∈ rest, x ≤ b) :
    marginScore row.length row = b - a := by
  have htop := sorted_top hp (by
    intro x hx
    rcases List.mem_cons.1 hx with rfl | h
    · exact hab
    · exact le_trans (hr x h) hab)
  unfold marginScore
  rw [htop]
  congr 1
  -- dropping the last element of the sorted row leaves the sorted rest
  have hperm := sortBy_perm (fun a b : K => decide (a ≤ b)) row
  have hsort := sortBy_sorted (fun a b : K => decide (a ≤ b)) (by intro a b; simp only [decide_eq_true_eq]; exact le_total _ _)
    (by intro a b c; simp only [decide_eq_true_eq]; exact le_trans) row
  unfold kth at htop ⊢
  generalize sortBy (fun a b : K => decide (a ≤ b)) row = s at hperm hsort htop
  have hlen : s.length = row.length := hperm.length_eq
  have hrl : row.length = rest.length + 2 := by rw [hp.length_eq]; simp
  have hlast : s.getD (row.length - 1) 0 = s[row.length - 1]'(by omega) := by rw [List.getD_eq_getElem]
  rw [hlast] at htop
  have hsplit : s = s.take (row.length - 1) ++ [a] := by
    conv_lhs => rw [← List.take_append_drop (row.length - 1) s]
    congr 1
    rw [List.drop_eq_getElem_cons (by omega), htop]
    congr 1
    apply List.drop_eq_nil_of_le
    omega
  have hperm2 : (s.take (row.length - 1)).Perm (b :: rest) := by
    have h1 : (s.take (row.length - 1) ++ [a]).Perm (a :: b :: rest) := by rw [← hsplit]; exact hperm.trans hp
    have h2 : (a :: s.take (row.length - 1)).Perm (a :: b :: rest) := (List.perm_append_comm (l₁ := [a])).trans h1
    exact (List.perm_cons a).1 h2
  have hgetD : s.getD (row.length - 2) 0 = (s.take (row.length - 1))[row.length - 2]'(by simp; omega) := by
    rw [List.getD_eq_getElem _ _ (by omega), List.getElem_take]
  rw [hgetD]
  have hsort2 : (s.take (row.length - 1)).Pairwise (fun x y => decide (x ≤ y) = true) := hsort.sublist (List.take_sublist _ _)
  have hl2 : (s.take (row.length - 1)).length = row.length - 1 := by simp; omega
  exact last_of_sorted hsort2 hperm2 hr _ (by omega)

omit [Field K] [IsStrictOrderedRing K] in
theorem top_perm {row : List K} {t : K} (h : Spec.IsTop row t) : ∃ rest, row.Perm (t :: rest) ∧ ∀ x ∈ rest, x ≤ t := by
  obtain ⟨s, e, hse⟩ := List.append_of_mem h.1
  refine ⟨s ++ e, ?_, ?_⟩
  · rw [hse]; exact List.perm_middle
  · intro x hx
    apply h.2
    rw [hse]
    rcases List.mem_append.1 hx with h | h <;> simp [h]

/-- **C43**, margin: no unselected example has a smaller margin than a selected one. -/
theorem C43_margin {log : K → K} {argsort : List K → List Nat} (ha : ∀ l, Spec.IsArgsort l (argsort l)) {u : Coll α} (hu : u.items.Nodup)
    {c : Nat} {rows : List (List K)} (hf : Spec.Fits u.items.length .margin (.mat c rows)) {batch : Int} {r : List α}
    (hr : uncertainty log argsort .margin u (.mat c rows) batch = .ok r) :
    Spec.NoneBetter u.items r (fun j i => ∃ rj ri mj mi, rows[j]? = some rj ∧ rows[i]? = some ri ∧ Spec.IsMargin rj mj ∧ Spec.IsMargin ri mi ∧ mj < mi) := by
  obtain ⟨h1, h2, h3⟩ := hf
  rintro i j x y hi hj hx hy ⟨rj, ri, mj, mi, ej, ei, hmj, hmi, hlt⟩
  simp only [uncertainty, if_neg h1] at hr
  have key := byLargest_best ha hu (by simpa using h2) hr hi hj hx hy (a := marginScore c ri) (b := marginScore c rj)
    (by simp [ei]) (by simp [ej])
  obtain ⟨a, b, rest, p1, p2, p3, rfl⟩ := hmj
  obtain ⟨a', b', rest', p1', p2', p3', rfl⟩ := hmi
  have e1 := kth_margin p1 p2 p3
  have e2 := kth_margin p1' p2' p3'
  rw [h3 rj (List.mem_of_getElem? ej)] at e1
  rw [h3 ri (List.mem_of_getElem? ei)] at e2
  rw [e1, e2] at key
  linarith

/-- **C43**, least confident: no unselected example has a smaller largest probability than a selected one. -/
theorem C43_least_confident {log : K → K} {argsort : List K → List Nat} (ha : ∀ l, Spec.IsArgsort l (argsort l)) {u : Coll α} (hu : u.items.Nodup)
    {c : Nat} {rows : List (List K)} (hf : Spec.Fits u.items.length .leastConfident (.mat c rows)) {batch : Int} {r : List α}
    (hr : uncertainty log argsort .leastConfident u (.mat c rows) batch = .ok r) :
    Spec.NoneBetter u.items r (fun j i => ∃ rj ri tj ti, rows[j]? = some rj ∧ rows[i]? = some ri ∧ Spec.IsTop rj tj ∧ Spec.IsTop ri ti ∧ tj < ti) := by
  obtain ⟨h1, h2, h3⟩ := hf
  rintro i j x y hi hj hx hy ⟨rj, ri, tj, ti, ej, ei, htj, hti, hlt⟩
  simp only [uncertainty, if_neg h1] at hr
  have key := byLargest_best ha hu (by simpa using h2) hr hi hj hx hy (a := leastScore c ri) (b := leastScore c rj)
    (by simp [ei]) (by simp [ej])
  obtain ⟨rest, p1, p2⟩ := top_perm htj
  obtain ⟨rest', p1', p2'⟩ := top_perm hti
  have e1 := sorted_top p1 p2
  have e2 := sorted_top p1' p2'
  rw [h3 rj (List.mem_of_getElem? ej)] at e1
  rw [h3 ri (List.mem_of_getElem? ei)] at e2
  unfold leastScore at key
  rw [e1, e2] at key
  linarith

/-- **C43**, distance to the boundary: no unselected example is nearer to the boundary than a selected one. -/
theorem C43_distance {log : K → K} {argsort : List K → List Nat} (ha : ∀ l, Spec.IsArgsort l (argsort l)) {u : Coll α} (hu : u.items.Nodup)
    {f : List K} (hf : Spec.Fits u.items.length .distance (.vec f)) {batch : Int} {r : List α}
    (hr : uncertainty log argsort .distance u (.vec f) batch = .ok r) :
    Spec.NoneBetter u.items r (fun j i => ∃ fj fi, f[j]? = some fj ∧ f[i]? = some fi ∧ |fj| < |fi|) := by
  rintro i j x y hi hj hx hy ⟨fj, fi, ej, ei, hlt⟩
  simp only [uncertainty] at hr
  have key := bySmallest_best ha hu (by rw [List.length_map]; exact hf) hr hi hj hx hy (a := |fi|) (b := |fj|) (by simp [ei]) (by simp [ej])
  exact absurd key (not_le.2 hlt)

end

/-- Shannon entropy of a row. -/
noncomputable def _root_.Alipy.Spec.entropy (row : List ℝ) : ℝ := (row.map Real.negMulLog).sum

/-- The computed score differs from the entropy by at most `1e-9` for every class. -/
theorem entropyScore_bounds {row : List ℝ} (hpos : ∀ v ∈ row, 0 < v) :
    Spec.entropy row - row.length / 1000000000 ≤ entropyScore Real.log (clip row) ∧ entropyScore Real.log (clip row) ≤ Spec.entropy row := by
  have hclip : clip row = row := by
    unfold clip
    conv_rhs => rw [← List.map_id row]
    apply List.map_congr_left
    intro v hv
    simp [not_le.2 (hpos v hv)]
  rw [hclip]
  unfold entropyScore Spec.entropy
  induction row with
  | nil => simp
  | cons v row ih =>
    have ih' := ih (fun w hw => hpos w (by simp [hw])) (by
      unfold clip
      conv_rhs => rw [← List.map_id row]
      apply List.map_congr_left
      intro w hw
      simp [not_le.2 (hpos w (by simp [hw]))])
    have hv := hpos v (by simp)
    simp only [List.map_cons, List.sum_cons, List.length_cons]
    push_cast
    have h1 : Real.log v ≤ Real.log (v + 1 / 1000000000) := Real.log_le_log hv (by norm_num)
    have h2 : Real.log (v + 1 / 1000000000) - Real.log v ≤ 1 / 1000000000 / v := by
      rw [← Real.log_div (by positivity) hv.ne']
      have := Real.log_le_sub_one_of_pos (x := (v + 1 / 1000000000) / v) (by positivity)
      have e : (v + 1 / 1000000000) / v - 1 = 1 / 1000000000 / v := by field_simp; ring
      linarith
    have h3 : v * (Real.log (v + 1 / 1000000000) - Real.log v) ≤ 1 / 1000000000 := by
      calc v * (Real.log (v + 1 / 1000000000) - Real.log v) ≤ v * (1 / 1000000000 / v) := mul_le_mul_of_nonneg_left h2 hv.le
        _ = 1 / 1000000000 := by field_simp
    have h4 : v * Real.log v ≤ v * Real.log (v + 1 / 1000000000) := mul_le_mul_of_nonneg_left h1 hv.le
    unfold Real.negMulLog at ih' ⊢
    constructor
    · have := ih'.1; linarith
    · have := ih'.2; linarith

/-- **C43**, entropy: for positive probabilities no unselected example has an entropy larger than that of a selected one by more than
`1e-9` times the number of classes (the code adds `1e-9` inside of the logarithm). -/
theorem C43_entropy {argsort : List ℝ → List Nat} (ha : ∀ l, Spec.IsArgsort l (argsort l)) {u : Coll α} (hu : u.items.Nodup)
    {c : Nat} {rows : List (List ℝ)} (hf : Spec.Fits u.items.length .entropy (.mat c rows)) (hpos : ∀ r ∈ rows, ∀ v ∈ r, 0 < v)
    {batch : Int} {r : List α} (hr : uncertainty Real.log argsort .entropy u (.mat c rows) batch = .ok r) :
    Spec.NoneBetter u.items r (fun j i => ∃ rj ri, rows[j]? = some rj ∧ rows[i]? = some ri ∧
      Spec.entropy ri + c / 1000000000 < Spec.entropy rj) := by
  obtain ⟨h1, h2, h3⟩ := hf
  rintro i j x y hi hj hx hy ⟨rj, ri, ej, ei, hlt⟩
  simp only [uncertainty, if_neg h1] at hr
  have key := byLargest_best ha hu (by simpa using h2) hr hi hj hx hy (a := entropyScore Real.log (clip ri)) (b := entropyScore Real.log (clip rj))
    (by simp [ei]) (by simp [ej])
  have b1 := entropyScore_bounds (hpos rj (List.mem_of_getElem? ej))
  have b2 := entropyScore_bounds (hpos ri (List.mem_of_getElem? ei))
  rw [h3 rj (List.mem_of_getElem? ej)] at b1
  linarith [b1.1, b2.2]

/-- What a zero, replaced by `1e-6`, contributes to the computed score. -/
theorem zero_contribution : 0 ≤ -((1 / 1000000 : ℝ) * Real.log (1 / 1000000 + 1 / 1000000000)) ∧
    -((1 / 1000000 : ℝ) * Real.log (1 / 1000000 + 1 / 1000000000)) ≤ 15 / 1000000 := by
  have h1 : Real.log (1 / 1000000 + 1 / 1000000000) ≤ 0 := Real.log_nonpos (by norm_num) (by norm_num)
  have h2 : -15 ≤ Real.log (1 / 1000000 + 1 / 1000000000) := by
    rw [Real.le_log_iff_exp_le (by norm_num)]
    have he : (2.7 : ℝ) ≤ Real.exp 1 := by have := Real.exp_one_gt_d9; linarith
    have h15 : (2.7 : ℝ) ^ 15 ≤ Real.exp 15 := by
      have : Real.exp 15 = Real.exp 1 ^ 15 := by rw [← Real.exp_nat_mul]; norm_num
      rw [this]
      exact pow_le_pow_left₀ (by norm_num) he 15
    rw [Real.exp_neg]
    have : (Real.exp 15)⁻¹ ≤ ((2.7 : ℝ) ^ 15)⁻¹ := inv_anti₀ (by positivity) h15
    refine this.trans ?_
    norm_num
  constructor <;> nlinarith

/-- With zeros, which the code replaces by `1e-6`, the computed score differs from the entropy by at most `16e-6` for every class. -/
theorem entropyScore_bounds_zeros {row : List ℝ} (hpos : ∀ v ∈ row, 0 ≤ v) :
    Spec.entropy row - row.length / 1000000000 ≤ entropyScore Real.log (clip row) ∧
      entropyScore Real.log (clip row) ≤ Spec.entropy row + row.length * (15 / 1000000) := by
  induction row with
  | nil => simp [Spec.entropy, entropyScore, clip]
  | cons v row ih =>
    have ih' := ih (fun w hw => hpos w (by simp [hw]))
    have e1 : entropyScore Real.log (clip (v :: row)) = entropyScore Real.log (clip [v]) + entropyScore Real.log (clip row) := by
      simp [entropyScore, clip]; ring
    have e2 : Spec.entropy (v :: row) = Spec.entropy [v] + Spec.entropy row := by simp [Spec.entropy]
    have key : Spec.entropy [v] - 1 / 1000000000 ≤ entropyScore Real.log (clip [v]) ∧
        entropyScore Real.log (clip [v]) ≤ Spec.entropy [v] + 15 / 1000000 := by
      rcases (hpos v (by simp)).eq_or_lt with h | h
      · subst h
        have := zero_contribution
        simp only [Spec.entropy, entropyScore, clip, List.map_cons, List.map_nil, List.sum_cons, List.sum_nil, le_refl, if_true,
          Real.negMulLog_zero, add_zero]
        constructor <;> linarith [this.1, this.2]
      · have := entropyScore_bounds (row := [v]) (by simpa using h)
        simp only [List.length_singleton, Nat.cast_one] at this
        exact ⟨this.1, by linarith [this.2]⟩
    rw [e1, e2]
    simp only [List.length_cons]
    push_cast
    constructor
    · linarith [key.1, ih'.1]
    · linarith [key.2, ih'.2]

/-- **C43**, entropy with zero probabilities: no unselected example has an entropy larger than that of a selected one by more than
`16e-6` times the number of classes (the code replaces zeros by `1e-6`). -/
theorem C43_entropy_zeros {argsort : List ℝ → List Nat} (ha : ∀ l, Spec.IsArgsort l (argsort l)) {u : Coll α} (hu : u.items.Nodup)
    {c : Nat} {rows : List (List ℝ)} (hf : Spec.Fits u.items.length .entropy (.mat c rows)) (hpos : ∀ r ∈ rows, ∀ v ∈ r, 0 ≤ v)
    {batch : Int} {r : List α} (hr : uncertainty Real.log argsort .entropy u (.mat c rows) batch = .ok r) :
    Spec.NoneBetter u.items r (fun j i => ∃ rj ri, rows[j]? = some rj ∧ rows[i]? = some ri ∧
      Spec.entropy ri + c * (16 / 1000000) < Spec.entropy rj) := by
  obtain ⟨h1, h2, h3⟩ := hf
  rintro i j x y hi hj hx hy ⟨rj, ri, ej, ei, hlt⟩
  simp only [uncertainty, if_neg h1] at hr
  have key := byLargest_best ha hu (by simpa using h2) hr hi hj hx hy (a := entropyScore Real.log (clip ri)) (b := entropyScore Real.log (clip rj))
    (by simp [ei]) (by simp [ej])
  have b1 := entropyScore_bounds_zeros (hpos rj (List.mem_of_getElem? ej))
  have b2 := entropyScore_bounds_zeros (hpos ri (List.mem_of_getElem? ei))
  rw [h3 rj (List.mem_of_getElem? ej)] at b1
  rw [h3 ri (List.mem_of_getElem? ei)] at b2
  have hc : (0 : ℝ) ≤ c := Nat.cast_nonneg c
  nlinarith [b1.1, b2.2]

example : Spec.IsMargin [1/5, 1/2, (3/10 : ℚ)] (1/5) :=
  ⟨1/2, 3/10, [1/5], (List.Perm.swap _ _ _).trans ((List.Perm.swap _ _ _).cons _), by norm_num, by norm_num, by norm_num⟩

example : uncertainty (fun x : ℚ => x) argsortBy .margin (.list [7, 8, 9]) (.mat 2 [[1/10, 9/10], [2/5, 3/5], [7/10, 3/10]]) 2 = .ok [9, 8] := by
  decide +kernel

/-! ## C54: the caller's arrays -/

/-- **C54** (partial: every measure but `entropy`, or only positive predictions): the prediction matrix passed in is not changed. -/
theorem C54_prediction_unchanged_partial [Field K] [LinearOrder K] {m : Measure} {u : Coll α} {predict : Pred K} {batch : Int}
    (h : m ≠ .entropy ∨ (∀ c rows, predict = .mat c rows → ∀ r ∈ rows, ∀ v ∈ r, 0 < v)) : predictAfter m u predict batch = predict := by
  unfold predictAfter
  split_ifs with h1
  · rfl
  · cases m <;> cases predict with
    | vec l => rfl
    | mat c rows =>
      first
        | rfl
        | (simp only
           split_ifs with h2
           · rfl
           · rcases h with h | h
             · exact absurd rfl h
             · congr 1
               conv_rhs => rw [← List.map_id rows]
               apply List.map_congr_left
               intro r hr
               unfold clip
               conv_rhs => rw [id, ← List.map_id r]
               apply List.map_congr_left
               intro v hv
               simp [not_le.2 (h c rows rfl r hr v hv)])

/-- Selecting by entropy overwrites every zero (or negative) entry of the caller's matrix. -/
theorem C54_entropy_overwrites_violation [Field K] [LinearOrder K] [IsStrictOrderedRing K] {u : Coll α} {c : Nat} (hc : c ≠ 1) {rows : List (List K)} {batch : Int} (hb : 0 < batch)
    (hlt : batch < u.items.length) (hz : ∃ r ∈ rows, ∃ v ∈ r, v ≤ 0) : predictAfter .entropy u (.mat c rows) batch ≠ .mat c rows := by
  unfold predictAfter
  rw [if_neg (by omega)]
  simp only [if_neg hc]
  intro he
  injection he with _ he
  obtain ⟨r, hr, v, hv, hle⟩ := hz
  obtain ⟨k, hk, rfl⟩ := List.getElem_of_mem hr
  obtain ⟨l, hl, rfl⟩ := List.getElem_of_mem hv
  have e1 : (rows.map clip)[k]'(by simpa using hk) = rows[k] := by simp only [he]
  rw [List.getElem_map] at e1
  have e2 : (clip rows[k])[l]'(by simpa [clip] using hl) = rows[k][l] := by simp only [e1]
  simp only [clip, List.getElem_map, if_pos hle] at e2
  rw [← e2] at hle
  have : (0:K) < 1 / 1000000 := by positivity
  exact absurd hle (not_le.2 this)

example : predictAfter .entropy (.list [7, 8]) (.mat 2 [[(1:ℚ), 0], [1/2, 1/2]]) 1 = .mat 2 [[1, 1/1000000], [1/2, 1/2]] := by
  simp [predictAfter, Coll.items, clip]

end Alipy.Select
