import Verif.Model.Select
import Verif.Model.Committee
import Verif.Model.NoisyOracles
import Verif.Spec.LeaveOut
import Verif.Props.Select
import Verif.Props.Batches
import Verif.Props.Committee
import Verif.Proof.Sort
/-!
# C137: examples that were not selected could have been left out of the pool
-/
set_option linter.unusedSectionVars false
set_option linter.unusedSimpArgs false
namespace Alipy.LeaveOut
open Alipy Alipy.Select

variable {α K : Type}

/-! ## The best examples of a pool -/

/-- `S` are `k` best examples of `u`; `R x y` says that `y` is at least as good as `x`. -/
def Best (R : α → α → Prop) (u : List α) (k : Nat) (S : List α) : Prop :=
  S.Nodup ∧ (∀ x ∈ S, x ∈ u) ∧ S.length = min k u.length ∧ ∀ x ∈ u, x ∉ S → ∀ y ∈ S, R x y

theorem perm_of_sub {S T : List α} (hS : S.Nodup) (h : ∀ x ∈ S, x ∈ T) (hl : T.length ≤ S.length) : S.Perm T :=
  (hS.subperm h).perm_of_length_le hl

theorem length_le_of_sub {S T : List α} (hS : S.Nodup) (h : ∀ x ∈ S, x ∈ T) : S.length ≤ T.length := (hS.subperm h).length_le

theorem exists_other {S T : List α} (hS : S.Nodup) (hT : T.Nodup) (hl : T.length ≤ S.length) {y : α} (hy : y ∈ T) (hyS : y ∉ S) :
    ∃ z ∈ S, z ∉ T := by
  by_contra h
  push Not at h
  exact hyS ((perm_of_sub hS h hl).mem_iff.2 hy)

theorem best_smaller {R : α → α → Prop} (htr : ∀ x y z, R x y → R y z → R x z) {u u' : List α} (hu : u.Nodup) (hu' : u'.Nodup) (hsub : ∀ x ∈ u', x ∈ u)
    {k : Nat} {S : List α} (hS : Best R u k S) (hin : ∀ x ∈ S, x ∈ u') (S' : List α) :
    Best R u' k S' ↔ Best R u k S' ∧ ∀ x ∈ S', x ∈ u' := by
  obtain ⟨a1, a2, a3, a4⟩ := hS
  have hlen : min k u'.length = min k u.length := by
    have h1 := length_le_of_sub a1 hin
    have h2 := length_le_of_sub hu' hsub
    omega
  constructor
  · rintro ⟨b1, b2, b3, b4⟩
    refine ⟨⟨b1, fun x hx => hsub x (b2 x hx), by omega, fun x hx hxS' y hy => ?_⟩, b2⟩
    by_cases hxu : x ∈ u'
    · exact b4 x hxu hxS' y hy
    · have hxS : x ∉ S := fun h => hxu (hin x h)
      by_cases hyS : y ∈ S
      · exact a4 x hx hxS y hyS
      · obtain ⟨z, hz, hz'⟩ := exists_other a1 b1 (by omega) hy hyS
        exact htr x z y (a4 x hx hxS z hz) (b4 z (hin z hz) hz' y hy)
  · rintro ⟨⟨b1, b2, b3, b4⟩, hin'⟩
    exact ⟨b1, hin', by omega, fun x hx => b4 x (hsub x hx)⟩

theorem best_pieces {R : α → α → Prop} (htr : ∀ x y z, R x y → R y z → R x z) {u w : List α} {pieces : List (List α)} {kept : List (List α)} (hu : u.Nodup)
    (hw : w.Nodup) (hp : ∀ p ∈ pieces, p.Nodup) (hcov : ∀ x, x ∈ u ↔ ∃ p ∈ pieces, x ∈ p) {k : Nat} (hk : List.Forall₂ (fun p s => Best R p k s) pieces kept)
    (hwk : ∀ x, x ∈ w ↔ ∃ s ∈ kept, x ∈ s) {S : List α} (hS : Best R w k S) : Best R u k S := by
  obtain ⟨a1, a2, a3, a4⟩ := hS
  have hl : ∀ p ∈ pieces, ∃ s ∈ kept, Best R p k s := by
    clear hcov hwk hp
    induction hk with
    | nil => intro p hp; cases hp
    | cons h _ ih =>
      intro p hp
      rcases List.mem_cons.1 hp with rfl | hp
      · exact ⟨_, by simp, h⟩
      · obtain ⟨s, h1, h2⟩ := ih p hp
        exact ⟨s, List.mem_cons_of_mem _ h1, h2⟩
  have hr : ∀ s ∈ kept, ∃ p ∈ pieces, Best R p k s := by
    clear hcov hwk hp hl
    induction hk with
    | nil => intro p hp; cases hp
    | cons h _ ih =>
      intro p hp
      rcases List.mem_cons.1 hp with rfl | hp
      · exact ⟨_, by simp, h⟩
      · obtain ⟨s, h1, h2⟩ := ih p hp
        exact ⟨s, List.mem_cons_of_mem _ h1, h2⟩
  have hwu : ∀ x ∈ w, x ∈ u := by
    intro x hx
    obtain ⟨s, hs, hxs⟩ := (hwk x).1 hx
    obtain ⟨p, hp', hb⟩ := hr s hs
    exact (hcov x).2 ⟨p, hp', hb.2.1 x hxs⟩
  have hlen : min k w.length = min k u.length := by
    have h1 := length_le_of_sub hw hwu
    by_cases h : ∃ p ∈ pieces, k ≤ p.length
    · obtain ⟨p, hp', hkp⟩ := h
      obtain ⟨s, hs, hb⟩ := hl p hp'
      have h2 := length_le_of_sub hb.1 (fun x hx => (hwk x).2 ⟨s, hs, hx⟩)
      have h3 := hb.2.2.1
      omega
    · push Not at h
      have : ∀ x ∈ u, x ∈ w := by
        intro x hx
        obtain ⟨p, hp', hxp⟩ := (hcov x).1 hx
        obtain ⟨s, hs, hb⟩ := hl p hp'
        have h3 := hb.2.2.1
        have h4 := h p hp'
        exact (hwk x).2 ⟨s, hs, (perm_of_sub hb.1 hb.2.1 (by omega)).mem_iff.2 hxp⟩
      have h2 := length_le_of_sub hu this
      omega
  refine ⟨a1, fun x hx => hwu x (a2 x hx), by omega, fun x hx hxS y hy => ?_⟩
  by_cases hxw : x ∈ w
  · exact a4 x hxw hxS y hy
  · obtain ⟨p, hp', hxp⟩ := (hcov x).1 hx
    obtain ⟨s, hs, b1, b2, b3, b4⟩ := hl p hp'
    have hxs : x ∉ s := fun h => hxw ((hwk x).2 ⟨s, hs, h⟩)
    by_cases hys : y ∈ s
    · exact b4 x hxp hxs y hys
    · have hlt : s.length < p.length := by
        by_contra h
        exact hxs ((perm_of_sub b1 b2 (by omega)).mem_iff.2 hxp)
      obtain ⟨z, hz, hz'⟩ := exists_other b1 a1 (by omega) hy hys
      exact htr x z y (b4 x hxp hxs z hz) (a4 z ((hwk z).2 ⟨s, hs, hz⟩) hz' y hy)

/-! ## Ways of sorting -/

section
variable [LinearOrder K]

/-- Positions in the order of the values there. -/
def byValue (a : List K) (l : List Nat) : List Nat :=
  sortBy (fun i j => match a[i]?, a[j]? with | some x, some y => decide (x ≤ y) | none, some _ => false | _, none => true) l

theorem byValue_perm (a : List K) (l : List Nat) : (byValue a l).Perm l := sortBy_perm _ _

theorem byValue_sorted (a : List K) (l : List Nat) : (byValue a l).Pairwise (fun i j => ∀ x y, a[i]? = some x → a[j]? = some y → x ≤ y) := by
  refine (sortBy_sorted _ ?_ ?_ l).imp ?_
  · intro i j
    cases a[i]? <;> cases a[j]? <;> simp [le_total]
  · intro i j k
    cases a[i]? <;> cases a[j]? <;> cases a[k]? <;> simp
    exact fun h1 h2 => h1.trans h2
  · intro i j h x y hx hy
    rw [hx, hy] at h
    simpa using h

theorem byValue_argsort (a : List K) : _root_.Spec.IsArgsort a (byValue a (List.range a.length)) := ⟨byValue_perm _ _, byValue_sorted _ _⟩

/-- A way of sorting that puts the chosen positions last. -/
theorem exists_argsort (a : List K) (q : Nat → Bool)
    (hd : ∀ i j x y, q i = false → q j = true → a[i]? = some x → a[j]? = some y → x ≤ y) :
    ∃ argsort : List K → List Nat, (∀ l, _root_.Spec.IsArgsort l (argsort l)) ∧ ∃ P Q, argsort a = P ++ Q ∧ (∀ i ∈ P, q i = false) ∧ (∀ i ∈ Q, q i = true) ∧
      Q.length = (List.range a.length).countP q ∧ P.length + Q.length = a.length := by
  classical
  refine ⟨fun l => if l = a then byValue a ((List.range a.length).filter (fun i => !q i)) ++ byValue a ((List.range a.length).filter q)
    else byValue l (List.range l.length), fun l => ?_, _, _, if_pos rfl, ?_, ?_, ?_, ?_⟩
  · by_cases h : l = a
    · subst h
      simp only [if_true]
      refine ⟨((byValue_perm _ _).append (byValue_perm _ _)).trans ?_, ?_⟩
      · exact (List.perm_append_comm).trans (List.filter_append_perm q _)
      · rw [List.pairwise_append]
        refine ⟨byValue_sorted _ _, byValue_sorted _ _, fun i hi j hj x y hx hy => ?_⟩
        have h1 := (List.mem_filter.1 ((byValue_perm _ _).mem_iff.1 hi)).2
        have h2 := (List.mem_filter.1 ((byValue_perm _ _).mem_iff.1 hj)).2
        exact hd i j x y (by simpa using h1) h2 hx hy
    · simp only [if_neg h]
      exact byValue_argsort l
  · intro i hi
    simpa using (List.mem_filter.1 ((byValue_perm _ _).mem_iff.1 hi)).2
  · intro i hi
    exact (List.mem_filter.1 ((byValue_perm _ _).mem_iff.1 hi)).2
  · rw [(byValue_perm _ _).length_eq, List.countP_eq_length_filter]
  · rw [(byValue_perm _ _).length_eq, (byValue_perm _ _).length_eq, ← List.countP_eq_length_filter, ← List.countP_eq_length_filter]
    have := List.length_eq_countP_add_countP q (l := List.range a.length)
    rw [List.length_range] at this
    have e : List.countP (fun i => !q i) (List.range a.length) = List.countP (fun i => decide ¬q i = true) (List.range a.length) := by
      congr 1
      funext i
      cases q i <;> rfl
    omega

/-- The number of positions of the members of a part of the pool. -/
theorem countP_positions (u : List α) (p : α → Bool) : (List.range u.length).countP (fun i => (u[i]?).any p) = u.countP p := by
  induction u with
  | nil => rfl
  | cons x u ih =>
    rw [List.length_cons, List.range_succ_eq_map, List.countP_cons, List.countP_map, List.countP_cons, ← ih]
    rfl

theorem count_positions [DecidableEq α] {u S : List α} (hu : u.Nodup) (hS : S.Nodup) (h : ∀ x ∈ S, x ∈ u) :
    (List.range u.length).countP (fun i => (u[i]?).any (fun x => decide (x ∈ S))) = S.length := by
  rw [countP_positions, List.countP_eq_length_filter]
  exact ((List.perm_ext_iff_of_nodup (hu.filter _) hS).2 (fun x => by simp; exact fun hx => h x hx)).length_eq

theorem frame_whole {u : Coll α} {k : Int} (hk : 0 < k) (h : (u.items.length : Int) ≤ k) (c : Except PyErr (List Nat)) : frame u k c = .ok u.items := by
  unfold frame
  rw [if_neg (by omega), if_pos h]

/-- What the largest scores can be. -/
theorem largest_iff {u : Coll α} (hu : u.items.Nodup) (score : α → K) {k : Int} (hk : 0 < k) (S : List α) :
    Spec.CanSelect (fun a => byLargest a u (u.items.map score) k) S ↔ Best (fun x y => score x ≤ score y) u.items k.toNat S := by
  classical
  constructor
  · rintro ⟨a, r, ha, hr, hp⟩
    obtain ⟨r', hr', b1, b2, b3⟩ := byLargest_batch ha hu (scores := u.items.map score) (by simp) hk
    replace hr : _ = _ := hr
    dsimp only at hr
    rw [hr] at hr'
    cases hr'
    refine ⟨hp.nodup_iff.1 b1, fun x hx => b2 x (hp.mem_iff.2 hx), by rw [← hp.length_eq]; omega, fun x hx hxS y hy => ?_⟩
    obtain ⟨i, hi⟩ := List.mem_iff_getElem?.1 hx
    obtain ⟨j, hj⟩ := List.mem_iff_getElem?.1 (b2 y (hp.mem_iff.2 hy))
    exact byLargest_best ha hu (by simp) hr hj hi (hp.mem_iff.2 hy) (fun h => hxS (hp.mem_iff.1 h)) (by simp [hj]) (by simp [hi])
  · rintro ⟨b1, b2, b3, b4⟩
    by_cases hs : (u.items.length : Int) ≤ k
    · refine ⟨fun l => byValue l (List.range l.length), u.items, byValue_argsort, frame_whole hk hs _, ?_⟩
      exact (perm_of_sub b1 b2 (by omega)).symm
    · obtain ⟨a, ha, P, Q, e, hP, hQ, hl, hl'⟩ := exists_argsort (u.items.map score) (fun i => (u.items[i]?).any (fun x => decide (x ∈ S))) (by
        intro i j x y hi hj hx hy
        rw [List.getElem?_map, Option.map_eq_some_iff] at hx hy
        obtain ⟨x', hx', rfl⟩ := hx
        obtain ⟨y', hy', rfl⟩ := hy
        rw [hx'] at hi
        rw [hy'] at hj
        exact b4 x' (List.mem_of_getElem? hx') (by simpa using hi) y' (by simpa using hj))
      obtain ⟨r, hr, c1, c2, c3⟩ := byLargest_batch ha hu (scores := u.items.map score) (by simp) hk
      refine ⟨a, r, ha, hr, perm_of_sub c1 (fun x hx => ?_) (by omega)⟩
      rw [List.length_map, count_positions hu b1 b2] at hl
      rw [List.length_map] at hl'
      unfold byLargest frame nlargestarg at hr
      rw [if_neg (by omega), if_neg hs, if_pos hk, e] at hr
      simp only at hr
      obtain ⟨i, hi, _, hix⟩ := (Batches.mem_pickAll hr x).1 hx
      obtain ⟨n, hn, rfl⟩ := List.mem_map.1 hi
      have hd : pySliceFrom (P ++ Q) (((P ++ Q).length : Int) - k) = Q := by
        unfold pySliceFrom
        rw [if_pos (by rw [List.length_append]; omega)]
        have : (((P ++ Q).length : Int) - k).toNat = P.length := by rw [List.length_append]; omega
        rw [this, List.drop_left]
      rw [hd] at hn
      have h1 := hQ n hn
      rw [Int.toNat_natCast] at hix
      rw [hix] at h1
      simpa using h1

/-- What the smallest scores can be. -/
theorem smallest_iff {u : Coll α} (hu : u.items.Nodup) (score : α → K) {k : Int} (hk : 0 < k) (S : List α) :
    Spec.CanSelect (fun a => bySmallest a u (u.items.map score) k) S ↔ Best (fun x y => score y ≤ score x) u.items k.toNat S := by
  classical
  constructor
  · rintro ⟨a, r, ha, hr, hp⟩
    obtain ⟨r', hr', b1, b2, b3⟩ := bySmallest_batch ha hu (scores := u.items.map score) (by simp) hk
    replace hr : _ = _ := hr
    dsimp only at hr
    rw [hr] at hr'
    cases hr'
    refine ⟨hp.nodup_iff.1 b1, fun x hx => b2 x (hp.mem_iff.2 hx), by rw [← hp.length_eq]; omega, fun x hx hxS y hy => ?_⟩
    obtain ⟨i, hi⟩ := List.mem_iff_getElem?.1 hx
    obtain ⟨j, hj⟩ := List.mem_iff_getElem?.1 (b2 y (hp.mem_iff.2 hy))
    exact bySmallest_best ha hu (by simp) hr hj hi (hp.mem_iff.2 hy) (fun h => hxS (hp.mem_iff.1 h)) (by simp [hj]) (by simp [hi])
  · rintro ⟨b1, b2, b3, b4⟩
    by_cases hs : (u.items.length : Int) ≤ k
    · refine ⟨fun l => byValue l (List.range l.length), u.items, byValue_argsort, frame_whole hk hs _, ?_⟩
      exact (perm_of_sub b1 b2 (by omega)).symm
    · obtain ⟨a, ha, P, Q, e, hP, hQ, hl, hl'⟩ := exists_argsort (u.items.map score) (fun i => !((u.items[i]?).any (fun x => decide (x ∈ S)))) (by
        intro i j x y hi hj hx hy
        rw [List.getElem?_map, Option.map_eq_some_iff] at hx hy
        obtain ⟨x', hx', rfl⟩ := hx
        obtain ⟨y', hy', rfl⟩ := hy
        rw [hx'] at hi
        rw [hy'] at hj
        exact b4 y' (List.mem_of_getElem? hy') (by simpa using hj) x' (by simpa using hi))
      obtain ⟨r, hr, c1, c2, c3⟩ := bySmallest_batch ha hu (scores := u.items.map score) (by simp) hk
      refine ⟨a, r, ha, hr, perm_of_sub c1 (fun x hx => ?_) (by omega)⟩
      have hcount := List.length_eq_countP_add_countP (fun i => (u.items[i]?).any (fun x => decide (x ∈ S))) (l := List.range u.items.length)
      rw [List.length_range, count_positions hu b1 b2] at hcount
      rw [List.length_map] at hl hl'
      have hl2 : P.length = S.length := by
        have e2 : List.countP (fun i => !((u.items[i]?).any (fun x => decide (x ∈ S)))) (List.range u.items.length) =
            List.countP (fun i => decide ¬((u.items[i]?).any (fun x => decide (x ∈ S))) = true) (List.range u.items.length) := by
          congr 1
          funext i
          cases (u.items[i]?).any (fun x => decide (x ∈ S)) <;> rfl
        omega
      unfold bySmallest frame nsmallestarg at hr
      rw [if_neg (by omega), if_neg hs, if_pos hk, e] at hr
      simp only at hr
      obtain ⟨i, hi, _, hix⟩ := (Batches.mem_pickAll hr x).1 hx
      obtain ⟨n, hn, rfl⟩ := List.mem_map.1 hi
      have hd : pySliceTo (P ++ Q) k = P := by
        unfold pySliceTo
        rw [if_pos hk.le]
        have : k.toNat = P.length := by omega
        rw [this, List.take_left]
      rw [hd] at hn
      have h1 := hP n hn
      rw [Int.toNat_natCast] at hix
      rw [hix] at h1
      simpa using h1

theorem consistent_of {sel : Coll α → (List K → List Nat) → Except PyErr (List α)} {R : α → α → Prop} (htr : ∀ x y z, R x y → R y z → R x z) {k : Nat}
    (h : ∀ u : Coll α, u.items.Nodup → ∀ S, Spec.CanSelect (sel u) S ↔ Best R u.items k S) : Spec.ConsistentOnPools Coll.items sel := by
  intro u u' hu hu' hsub S hS hin S'
  rw [h u hu] at hS ⊢
  rw [h u' hu']
  exact best_smaller htr hu hu' hsub hS hin S'

theorem piecewise_of {sel : Coll α → (List K → List Nat) → Except PyErr (List α)} {R : α → α → Prop} (htr : ∀ x y z, R x y → R y z → R x z) {k : Nat}
    (h : ∀ u : Coll α, u.items.Nodup → ∀ S, Spec.CanSelect (sel u) S ↔ Best R u.items k S) : Spec.Piecewise Coll.items sel := by
  intro u w pieces kept hu hw hp hcov hk hwk S hS
  rw [h u hu]
  rw [h w hw] at hS
  refine best_pieces htr (pieces := pieces.map Coll.items) (kept := kept) hu hw ?_ ?_ ?_ hwk hS
  · intro p hp'
    obtain ⟨c, hc, rfl⟩ := List.mem_map.1 hp'
    exact hp c hc
  · intro x
    rw [hcov]
    simp
  · rw [List.forall₂_map_left_iff]
    clear hcov hwk hS
    induction hk with
    | nil => exact .nil
    | cons h1 _ ih =>
      exact .cons ((h _ (hp _ (by simp)) _).1 h1) (ih (fun p hp' => hp p (List.mem_cons_of_mem _ hp')))

end

/-! ## Uncertainty sampling -/

section
variable [Field K] [LinearOrder K]

theorem uncertainty_iff (log : K → K) {m : Measure} (hm : m ≠ .distance) {c : Nat} (hc : c ≠ 1) (g : α → List K) {k : Int} (hk : 0 < k) :
    ∃ score : α → K, ∀ u : Coll α, u.items.Nodup → ∀ S,
      Spec.CanSelect (fun a => uncertainty log a m u (.mat c (u.items.map g)) k) S ↔ Best (fun x y => score x ≤ score y) u.items k.toNat S := by
  cases m with
  | leastConfident =>
    refine ⟨fun x => leastScore c (g x), fun u hu S => ?_⟩
    rw [← largest_iff hu _ hk]
    simp only [uncertainty, if_neg hc, List.map_map]
    rfl
  | margin =>
    refine ⟨fun x => marginScore c (g x), fun u hu S => ?_⟩
    rw [← largest_iff hu _ hk]
    simp only [uncertainty, if_neg hc, List.map_map]
    rfl
  | entropy =>
    refine ⟨fun x => entropyScore log (clip (g x)), fun u hu S => ?_⟩
    rw [← largest_iff hu _ hk]
    simp only [uncertainty, if_neg hc, List.map_map]
    rfl
  | distance => exact absurd rfl hm

/-- **C137**: uncertainty sampling with predicted probabilities `g`, all measures. -/
theorem C137_uncertainty (log : K → K) {m : Measure} (hm : m ≠ .distance) {c : Nat} (hc : c ≠ 1) (g : α → List K) {k : Int} (hk : 0 < k) :
    Spec.ConsistentOnPools Coll.items (fun u a => uncertainty log a m u (.mat c (u.items.map g)) k) ∧
    Spec.Piecewise Coll.items (fun u a => uncertainty log a m u (.mat c (u.items.map g)) k) := by
  obtain ⟨score, h⟩ := uncertainty_iff log hm hc g hk
  exact ⟨consistent_of (by intro x y z h1 h2; exact le_trans h1 h2) h, piecewise_of (by intro x y z h1 h2; exact le_trans h1 h2) h⟩

/-- **C137**: the distance to the boundary `g`. -/
theorem C137_distance (log : K → K) (g : α → K) {k : Int} (hk : 0 < k) :
    Spec.ConsistentOnPools Coll.items (fun u a => uncertainty log a .distance u (.vec (u.items.map g)) k) ∧
    Spec.Piecewise Coll.items (fun u a => uncertainty log a .distance u (.vec (u.items.map g)) k) := by
  have h : ∀ u : Coll α, u.items.Nodup → ∀ S,
      Spec.CanSelect (fun a => uncertainty log a .distance u (.vec (u.items.map g)) k) S ↔ Best (fun x y => |g y| ≤ |g x|) u.items k.toNat S := by
    intro u hu S
    rw [← smallest_iff hu (fun x => |g x|) hk]
    simp only [uncertainty, List.map_map]
    rfl
  exact ⟨consistent_of (by intro x y z h1 h2; exact le_trans h2 h1) h, piecewise_of (by intro x y z h1 h2; exact le_trans h2 h1) h⟩

/-! ## Query by committee -/

theorem range_map (l : List α) {γ : Type} (f : Nat → γ) (g : α → γ) (h : ∀ i x, l[i]? = some x → f i = g x) : (List.range l.length).map f = l.map g := by
  apply List.ext_getElem
  · simp
  · intro i h1 h2
    simp at h1 h2 ⊢
    exact h i _ (List.getElem?_eq_getElem h1)

theorem members_at {β : Type} (members : List (α → β)) (l : List α) (d : β) {i : Nat} {x : α} (h : l[i]? = some x) :
    (members.map (fun h => l.map h)).map (fun r => r.getD i d) = members.map (fun h => h x) := by
  rw [List.map_map]
  apply List.map_congr_left
  intro g _
  simp [h]

/-- **C137**: query by committee with vote entropy; every member of the committee predicts a class for an example. -/
theorem C137_committee (log : K → K) {members : List (α → Int)} (hm : 2 ≤ members.length) {k : Int} (hk : 0 < k) :
    Spec.ConsistentOnPools Coll.items (fun u a => qbc log a u (members.map (fun h => u.items.map h)) k) ∧
    Spec.Piecewise Coll.items (fun u a => qbc log a u (members.map (fun h => u.items.map h)) k) := by
  have h : ∀ u : Coll α, u.items.Nodup → ∀ S, Spec.CanSelect (fun a => qbc log a u (members.map (fun h => u.items.map h)) k) S ↔
      Best (fun x y => voteEntropy log (members.map (fun h => h x)) ≤ voteEntropy log (members.map (fun h => h y))) u.items k.toNat S := by
    intro u hu S
    rw [← largest_iff hu (fun x => voteEntropy log (members.map (fun h => h x))) hk]
    have e : ∀ a, qbc log a u (members.map (fun h => u.items.map h)) k = byLargest a u (u.items.map (fun x => voteEntropy log (members.map (fun h => h x)))) k := by
      intro a
      unfold qbc byLargest
      rw [List.length_map, if_neg (by omega)]
      have hl : ((members.map (fun h => u.items.map h)).headD []).length = u.items.length := by
        cases members with
        | nil => simp at hm
        | cons m ms => simp
      rw [hl, range_map u.items _ (fun x => voteEntropy log (members.map (fun h => h x))) (fun i x hx => by rw [members_at _ _ _ hx])]
    simp only [e]
  exact ⟨consistent_of (by intro x y z h1 h2; exact le_trans h1 h2) h, piecewise_of (by intro x y z h1 h2; exact le_trans h1 h2) h⟩

/-- **C137**: query by committee with the KL divergence; every member predicts probabilities. -/
theorem C137_committee_kl (log : K → K) (labels : Nat) {members : List (α → List K)} (hm : 2 ≤ members.length) {k : Int} (hk : 0 < k) :
    Spec.ConsistentOnPools Coll.items (fun u a => qbcKL log a u u.items.length labels (members.map (fun h => u.items.map h)) k) ∧
    Spec.Piecewise Coll.items (fun u a => qbcKL log a u u.items.length labels (members.map (fun h => u.items.map h)) k) := by
  have h : ∀ u : Coll α, u.items.Nodup → ∀ S, Spec.CanSelect (fun a => qbcKL log a u u.items.length labels (members.map (fun h => u.items.map h)) k) S ↔
      Best (fun x y => klScore log labels (members.map (fun h => h x)) ≤ klScore log labels (members.map (fun h => h y))) u.items k.toNat S := by
    intro u hu S
    rw [← largest_iff hu (fun x => klScore log labels (members.map (fun h => h x))) hk]
    have e : ∀ a, qbcKL log a u u.items.length labels (members.map (fun h => u.items.map h)) k =
        byLargest a u (u.items.map (fun x => klScore log labels (members.map (fun h => h x)))) k := by
      intro a
      unfold qbcKL byLargest
      rw [List.length_map, if_neg (by omega)]
      rw [range_map u.items _ (fun x => klScore log labels (members.map (fun h => h x))) (fun i x hx => by rw [members_at _ _ _ hx])]
    simp only [e]
  exact ⟨consistent_of (by intro x y z h1 h2; exact le_trans h1 h2) h, piecewise_of (by intro x y z h1 h2; exact le_trans h1 h2) h⟩

/-- Outputs that are matrices of zeros and ones are checked as a whole: if all the outputs for the smaller pool are the same number, the call raises
`ValueError`, whatever it returned for the whole pool. -/
theorem C137_committee_matrix_violation (log : K → K) (argsort : List K → List Nat) (labels : Nat) {members : List (α → List Nat)} (hm : 2 ≤ members.length)
    {k : Int} (hk : 0 < k) {u : Coll α} (hu : k < u.items.length) {v : Nat} (hv : ∀ h ∈ members, ∀ x ∈ u.items, ∀ b ∈ h x, b = v) :
    qbcMat log argsort u u.items.length labels (members.map (fun h => u.items.map h)) k = .error .valueError := by
  unfold qbcMat frame
  rw [if_neg (by omega), if_neg (by omega), List.length_map, if_neg (by omega)]
  have hall : ∀ b ∈ (members.map (fun h => u.items.map h)).flatten.flatten, b = v := by
    intro b hb
    obtain ⟨r, hr, hb⟩ := List.mem_flatten.1 hb
    obtain ⟨mt, hmt, hr⟩ := List.mem_flatten.1 hr
    obtain ⟨h, hh, rfl⟩ := List.mem_map.1 hmt
    obtain ⟨x, hx, rfl⟩ := List.mem_map.1 hr
    exact hv h hh x hx b hb
  have : zeroOne (members.map (fun h => u.items.map h)) = false := by
    unfold zeroOne
    by_contra hc
    rw [Bool.not_eq_false, Bool.and_eq_true, Bool.and_eq_true] at hc
    have h0 := hall 0 (by simpa using hc.1.2)
    have h1 := hall 1 (by simpa using hc.2)
    omega
  rw [this]
  rfl

end

/-! ## CEAL -/

section
variable [Field K] [LinearOrder K]

/-- CEAL on a pool: `d x k` are the distances of an example to its neighbours, `top x` its largest predicted probability; an oracle has the correctness of its
answers on the neighbours of an example, its cost and its accuracy. -/
def cealOn {ν : Type} (kw : List (String × Nat)) (ini : Nat) (names : List ν) (d : α → Nat → List K) (top : α → K)
    (oracles : List ((α → List Bool) × K × K)) (u : List α) : Except PyErr (α × ν) :=
  Noisy.ceal kw ini u names (fun i k => ((u[i]?).map (fun x => d x k)).getD []) (u.map top)
    (oracles.map (fun o => ⟨fun i => ((u[i]?).map o.1).getD [], o.2.1, o.2.2⟩))

/-- The entries of the table with the pairs they belong to. -/
def entries {ν ο : Type} (names : List ν) (os : List ο) (q : ο → α → K) (u : List α) : List ((α × ν) × K) :=
  (names.zip os).flatMap (fun p => u.map (fun x => ((x, p.1), q p.2 x)))

theorem entries_at {ν ο : Type} (q : ο → α → K) {u : List α} (hu : 0 < u.length) : ∀ {names : List ν} {os : List ο} (_ : names.length = os.length) (p : Nat),
    ((entries names os q u)[p]?).map Prod.fst = (match u[p % u.length]?, names[p / u.length]? with | some x, some n => some (x, n) | _, _ => none)
  | [], [], _, p => by
    simp only [entries, List.zip_nil_left, List.flatMap_nil, List.getElem?_nil, Option.map_none]
    split
    · simp at *
    · rfl
  | n :: names, o :: os, hl, p => by
    have ih := entries_at q hu (names := names) (os := os) (by simpa using hl)
    simp only [entries, List.zip_cons_cons, List.flatMap_cons] at ih ⊢
    by_cases hp : p < u.length
    · rw [List.getElem?_append_left (by simpa using hp), Nat.mod_eq_of_lt hp, Nat.div_eq_of_lt hp, List.getElem?_map, List.getElem?_eq_getElem hp]
      simp
    · rw [List.getElem?_append_right (by simpa using hp), List.length_map, ih (p - u.length)]
      have h1 : (p - u.length) % u.length = p % u.length := by
        rw [Nat.mod_eq_sub_mod (by omega : p ≥ u.length)]
      have h2 : p / u.length = (p - u.length) / u.length + 1 := by
        rw [Nat.div_eq_sub_div hu (by omega)]
      rw [h1, h2, List.getElem?_cons_succ]

theorem entries_values {ν ο : Type} (q : ο → α → K) (u : List α) : ∀ {names : List ν} {os : List ο} (_ : names.length = os.length),
    (entries names os q u).map Prod.snd = (os.map (fun o => u.map (q o))).flatten
  | [], [], _ => rfl
  | n :: names, o :: os, hl => by
    have ih := entries_values q u (names := names) (os := os) (by simpa using hl)
    simp only [entries, List.zip_cons_cons, List.flatMap_cons, List.map_append, List.map_cons, List.flatten_cons] at ih ⊢
    rw [ih, List.map_map]
    rfl

/-- The first entry that no other exceeds. -/
def firstBest {β : Type} (l : List (β × K)) : Option β := (l.find? (fun a => l.all (fun b => decide (b.2 ≤ a.2)))).map Prod.fst

theorem find?_findIdx {β : Type} (p : β → Bool) (l : List β) : l.find? p = l[l.findIdx p]? := by
  induction l with
  | nil => rfl
  | cons a l ih =>
    rw [List.find?_cons, List.findIdx_cons]
    cases p a with
    | true => rfl
    | false => simpa using ih

theorem bestPair_eq {ν ο : Type} (q : ο → α → K) {u : List α} (hu : 0 < u.length) {names : List ν} {os : List ο} (hl : names.length = os.length) {x : α} {n : ν} :
    Noisy.bestPair u names (os.map (fun o => u.map (q o))) = .ok (x, n) ↔ firstBest (entries names os q u) = some (x, n) := by
  have hv := entries_values q u hl
  unfold Noisy.bestPair firstBest
  rw [find?_findIdx]
  simp only
  rw [← hv]
  have hidx : ((entries names os q u).map Prod.snd).findIdx (fun v => ((entries names os q u).map Prod.snd).all (fun w => decide (w ≤ v))) =
      (entries names os q u).findIdx (fun a => (entries names os q u).all (fun b => decide (b.2 ≤ a.2))) := by
    rw [List.findIdx_map]
    congr 1
    funext a
    simp [List.all_map, Function.comp_def]
  rw [hidx, entries_at q hu hl]
  by_cases he : ((entries names os q u).map Prod.snd).isEmpty = true
  · rw [if_pos he]
    have hnil : entries names os q u = [] := by simpa using he
    have hn : names = [] := by
      cases names with
      | nil => rfl
      | cons n names =>
        cases os with
        | nil => simp at hl
        | cons o os =>
          cases u with
          | nil => simp at hu
          | cons a u => simp [entries] at hnil
    subst hn
    simp
  · rw [if_neg he]
    cases h1 : u[List.findIdx (fun a => (entries names os q u).all (fun b => decide (b.2 ≤ a.2))) (entries names os q u) % u.length]? with
    | none => simp
    | some x =>
      cases h2 : names[List.findIdx (fun a => (entries names os q u).all (fun b => decide (b.2 ≤ a.2))) (entries names os q u) / u.length]? with
      | none => simp
      | some n => simp

theorem firstBest_sublist {β : Type} {l l' : List (β × K)} (hs : l'.Sublist l) (hn : (l.map Prod.fst).Nodup) {b : β} (h : firstBest l = some b)
    (hb : b ∈ l'.map Prod.fst) : firstBest l' = some b := by
  unfold firstBest at h ⊢
  rw [Option.map_eq_some_iff] at h ⊢
  obtain ⟨a, ha, rfl⟩ := h
  obtain ⟨hmax, l1, l2, hl, hno⟩ := List.find?_eq_some_iff_append.1 ha
  have hal' : a ∈ l' := by
    obtain ⟨a', h1, h2⟩ := List.mem_map.1 hb
    have : a' = a := by
      have hnd := hn
      have := List.inj_on_of_nodup_map hnd (hs.subset h1) (List.mem_of_find?_eq_some ha) h2
      exact this
    rwa [← this]
  refine ⟨a, ?_, rfl⟩
  rw [List.find?_eq_some_iff_append]
  rw [List.all_eq_true] at hmax
  have hmax' : ∀ b ∈ l, b.2 ≤ a.2 := fun b hb => by simpa using hmax b hb
  refine ⟨by rw [List.all_eq_true]; exact fun b hb => by simpa using hmax' b (hs.subset hb), ?_⟩
  rw [hl] at hs
  obtain ⟨s1, s2, rfl, hs1, hs2⟩ := List.sublist_append_iff.1 hs
  have hnd : l.Nodup := hn.of_map
  have ha1 : a ∉ l1 := by
    rw [hl] at hnd
    intro hc
    exact (List.nodup_append.1 hnd).2.2 a hc a (by simp) rfl
  have ha2 : a ∉ l2 := by
    rw [hl] at hnd
    exact (List.nodup_cons.1 (List.nodup_append.1 hnd).2.1).1
  rcases List.sublist_cons_iff.1 hs2 with hc | ⟨r, rfl, hr⟩
  · rcases List.mem_append.1 hal' with h1 | h1
    · exact absurd (hs1.subset h1) ha1
    · exact absurd (hc.subset h1) ha2
  · refine ⟨s1, r, rfl, fun b hb => ?_⟩
    have h1 := hno b (hs1.subset hb)
    rw [Bool.not_eq_true', List.all_eq_false] at h1 ⊢
    obtain ⟨c, hc, hcb⟩ := h1
    refine ⟨a, by simp, ?_⟩
    have h2 := hmax' c hc
    simp only [decide_eq_true_eq, not_le] at hcb ⊢
    exact lt_of_lt_of_le hcb h2

/-- **C137**: CEAL. As long as the selected example is there (and another one), the pair of example and oracle is the same, whatever other examples are in the pool. -/
theorem C137_ceal {ν : Type} (kw : List (String × Nat)) (ini : Nat) {names : List ν} (hnn : names.Nodup) (d : α → Nat → List K) (top : α → K)
    {oracles : List ((α → List Bool) × K × K)} (hl : names.length = oracles.length) {u u' : List α} (hu : u.Nodup) (hs : u'.Sublist u) (h2 : 2 ≤ u'.length)
    {x : α} {n : ν} (h : cealOn kw ini names d top oracles u = .ok (x, n)) (hx : x ∈ u') : cealOn kw ini names d top oracles u' = .ok (x, n) := by
  let q : ((α → List Bool) × K × K) → α → K := fun o x => Noisy.qEntry (d x (min ((dictGet "n_neighbors" kw).getD 10) (ini - 1))) (o.1 x) (top x)
    (if (dictGet "n_neighbors" (dictErase "n_neighbors" kw)).getD 0 ≠ 0 then o.2.2 else o.2.1)
  have hk0 : min ((dictGet "n_neighbors" kw).getD 10) (ini - 1) ≠ 0 := by
    intro c
    unfold cealOn Noisy.ceal at h
    simp only [c, if_true] at h
    split at h <;> cases h
  have e : ∀ v : List α, 2 ≤ v.length → cealOn kw ini names d top oracles v = Noisy.bestPair v names (oracles.map (fun o => v.map (q o))) := by
    intro v hv
    unfold cealOn Noisy.ceal
    simp only
    rw [if_neg (by omega), if_neg hk0, List.map_map]
    congr 1
    apply List.map_congr_left
    intro o _
    apply List.ext_getElem
    · simp
    · intro i h1 h2
      simp at h1 h2
      simp [q, h1]
  have hul := hs.length_le
  rw [e u (by omega), bestPair_eq q (by omega) hl] at h
  rw [e u' h2, bestPair_eq q (by omega) hl]
  refine firstBest_sublist ?_ ?_ h ?_
  · unfold entries
    generalize names.zip oracles = z
    induction z with
    | nil => exact List.Sublist.refl _
    | cons p z ih =>
      simp only [List.flatMap_cons]
      exact (hs.map _).append ih
  · have hz : ((names.zip oracles).map Prod.fst).Nodup := by rwa [List.map_fst_zip (by omega)]
    unfold entries
    rw [List.map_flatMap]
    simp only [List.map_map, Function.comp_def]
    generalize names.zip oracles = z at hz
    induction z with
    | nil => simp
    | cons p z ih =>
      simp only [List.flatMap_cons, List.map_cons, List.nodup_cons] at hz ⊢
      rw [List.nodup_append]
      refine ⟨hu.map (fun a b h => (Prod.mk.injEq _ _ _ _ ▸ h).1), ih hz.2, fun a ha b hb hab => ?_⟩
      subst hab
      obtain ⟨y, _, rfl⟩ := List.mem_map.1 ha
      obtain ⟨p', hp', hb⟩ := List.mem_flatMap.1 hb
      obtain ⟨y', _, hb⟩ := List.mem_map.1 hb
      have : p'.1 = p.1 := (Prod.mk.inj hb).2
      exact hz.1 (List.mem_map.2 ⟨p', hp', this⟩)
  · unfold firstBest at h
    rw [Option.map_eq_some_iff] at h
    obtain ⟨a, ha, hax⟩ := h
    have hmem := List.mem_of_find?_eq_some ha
    unfold entries at hmem
    obtain ⟨p, hp, hm⟩ := List.mem_flatMap.1 hmem
    obtain ⟨y, _, rfl⟩ := List.mem_map.1 hm
    simp only [Prod.mk.injEq] at hax
    obtain ⟨rfl, rfl⟩ := hax
    exact List.mem_map.2 ⟨_, List.mem_flatMap.2 ⟨p, hp, List.mem_map.2 ⟨y, hx, rfl⟩⟩, rfl⟩

end

/-! ## Examples -/

/-- Margins 4/5, 1/5, 2/5, 0: two of four examples are selected. -/
def pool (x : Nat) : List ℚ := [[1/10, 9/10], [2/5, 3/5], [7/10, 3/10], [1/2, 1/2]].getD (x - 7) []

example : Spec.CanSelect (fun a => uncertainty (fun x : ℚ => x) a .margin (.list [7, 8, 9, 10]) (.mat 2 ((Coll.list [7, 8, 9, 10]).items.map pool)) 2) [8, 10] :=
  ⟨fun l => byValue l (List.range l.length), [8, 10], byValue_argsort, by decide +kernel, by decide⟩

/-- The first example is left out, and the selection is the same. -/
example : Spec.CanSelect (fun a => uncertainty (fun x : ℚ => x) a .margin (.list [10, 9, 8]) (.mat 2 ((Coll.list [10, 9, 8]).items.map pool)) 2) [8, 10] :=
  ((C137_uncertainty (fun x : ℚ => x) (m := .margin) (by decide) (c := 2) (by decide) pool (k := 2) (by decide)).1 (.list [7, 8, 9, 10]) (.list [10, 9, 8])
    (by decide) (by decide) (by decide) [8, 10] ⟨fun l => byValue l (List.range l.length), [8, 10], byValue_argsort, by decide +kernel, by decide⟩ (by decide) [8, 10]).2
    ⟨⟨fun l => byValue l (List.range l.length), [8, 10], byValue_argsort, by decide +kernel, by decide⟩, by decide⟩

/-- One of each half, and then one of the two: the example that the whole pool gives. -/
example : Spec.CanSelect (fun a => uncertainty (fun x : ℚ => x) a .margin (.list [7, 8, 9, 10]) (.mat 2 ((Coll.list [7, 8, 9, 10]).items.map pool)) 1) [10] :=
  (C137_uncertainty (fun x : ℚ => x) (m := .margin) (by decide) (c := 2) (by decide) pool (k := 1) (by decide)).2 (.list [7, 8, 9, 10]) (.list [8, 10])
    [.list [7, 8], .list [9, 10]] [[8], [10]] (by decide) (by decide) (by decide) (fun x => by simp [Coll.items]; omega)
    (.cons ⟨fun l => byValue l (List.range l.length), [8], byValue_argsort, by decide +kernel, by decide⟩ (.cons ⟨fun l => byValue l (List.range l.length), [10], byValue_argsort, by decide +kernel, by decide⟩ .nil))
    (fun x => by simp [Coll.items]) [10] ⟨fun l => byValue l (List.range l.length), [10], byValue_argsort, by decide +kernel, by decide⟩

/-- Two members that disagree on example 12 only. -/
def agree (x : Nat) : Int := if x = 12 then 1 else 0

example : Spec.CanSelect (fun a => qbc (fun x : ℚ => x - 1) a (.list [10, 11, 12]) ([fun _ => 0, agree].map (fun h => (Coll.list [10, 11, 12]).items.map h)) 1) [12] :=
  ⟨fun l => byValue l (List.range l.length), [12], byValue_argsort, by decide +kernel, by decide⟩

/-- Two members that name the single label for every example but one: without that example the call raises. -/
example : (qbcMat (fun x : ℚ => x - 1) argsortBy (.list [10, 11, 12]) 3 1 ([fun _ => [1], fun x => if x = 12 then [0] else [1]].map (fun h => [10, 11, 12].map h)) 1).toOption = some [12] ∧
    qbcMat (fun x : ℚ => x - 1) argsortBy (.list [10, 11]) 2 1 ([fun _ => [1], fun x => if x = 12 then [0] else [1]].map (fun h => (Coll.list [10, 11]).items.map h)) 1 = .error .valueError :=
  ⟨by decide +kernel, C137_committee_matrix_violation _ _ _ (by decide) (by decide) (by decide) (v := 1) (by simp [Coll.items])⟩

example : cealOn (K := ℚ) (α := Nat) [] 4 ["a", "b"] (fun _ _ => [1, 1]) (fun x => if x = 20 then 1/2 else 9/10)
    [(fun _ => [true, false], 1, 1), (fun _ => [true, true], 1, 1/2)] [10, 20, 30] = .ok (20, "b") := by decide +kernel

end Alipy.LeaveOut
