import Verif.Spec.GraphDensity
import Verif.Props.Pool
import Mathlib.Data.List.GetD
import Mathlib.Algebra.BigOperators.Group.List.Basic
import Mathlib.Algebra.Order.BigOperators.Group.List

/-! # C94: graph density -/
namespace Alipy.GraphDensity
open Spec Select

variable {α K : Type}

/-! ## The choice -/

section
variable [Field K] [LinearOrder K] [DecidableEq α]

/-- The density of an example of the training set. -/
def dens (train : List α) (d : List K) (x : α) : K := d.getD (train.idxOf x) 0

/-- The neighbours of an example. -/
def near (nbrs : Nat → List Nat) (train : List α) (x y : α) : Prop := train.idxOf y ∈ nbrs (train.idxOf x)

theorem dens_markLow (train : List α) (d : List K) (is : List Nat) {y : α} (h : train.idxOf y ∉ is) :
    dens train (markLow d is) y = dens train d y := by
  unfold dens markLow setAll
  by_cases hl : train.idxOf y < d.length
  · rw [List.getD_eq_getElem _ _ (by simpa using hl), List.getD_eq_getElem _ _ hl]
    simp [h]
  · rw [List.getD_eq_default _ _ (by simpa using Nat.le_of_not_lt hl), List.getD_eq_default _ _ (Nat.le_of_not_lt hl)]

/-- `argmaxPos` is the first position of the greatest entry. -/
theorem argmaxPos_first {d : List K} (hs : argmaxPos d < d.length) (hmax : ∀ (q : Nat) (hq : q < d.length), d[q] ≤ d[argmaxPos d]) {q : Nat}
    (hq : q < d.length) (he : d[q] = d[argmaxPos d]) : argmaxPos d ≤ q := by
  by_contra hlt
  have := List.not_of_lt_findIdx (Nat.lt_of_not_le hlt)
  rw [List.all_eq_false] at this
  obtain ⟨w, hw, hn⟩ := this
  apply hn
  obtain ⟨i, hi, rfl⟩ := List.getElem_of_mem hw
  simpa [he] using hmax i hi

theorem dens_subAll (train : List α) (d : List K) (is : List Nat) (v : K) {y : α} (hl : train.idxOf y < d.length) :
    dens train (subAll d is v) y = if train.idxOf y ∈ is then dens train d y - v else dens train d y := by
  unfold dens subAll
  rw [List.getD_eq_getElem _ _ (by simpa using hl), List.getD_eq_getElem _ _ hl]
  simp

theorem greedy_append {near : α → α → Prop} {pos : α → Nat} {f g h : α → K} {S : α → Prop} {xs ys : List α} (h1 : Greedy near pos f S xs g)
    (h2 : Greedy near pos g (fun y => S y ∧ y ∉ xs) ys h) : Greedy near pos f S (xs ++ ys) h := by
  induction h1 with
  | @done f g S hfg =>
    have hS : (fun y => S y ∧ y ∉ ([] : List α)) = S := by funext y; simp
    rw [hS] at h2
    cases h2 with
    | done hgh => exact .done (fun y hy => (hgh y hy).trans (hfg y hy))
    | pick a1 a2 a5 a3 a4 =>
      refine .pick a1 (fun y hy => ?_) (fun y hy => ?_) (fun y hy hne => ?_) a4
      · rw [← hfg y hy, ← hfg _ a1]; exact a2 y hy
      · rw [← hfg y hy, ← hfg _ a1]; exact a5 y hy
      · rw [← hfg y hy, ← hfg _ a1]; exact a3 y hy hne
  | @pick f f' g S x xs a1 a2 a5 a3 _ ih =>
    refine .pick a1 a2 a5 a3 (ih ?_)
    have hS : (fun y => S y ∧ y ∉ x :: xs) = (fun y => (S y ∧ y ≠ x) ∧ y ∉ xs) := by
      funext y; simp only [List.mem_cons, not_or, and_assoc]
    rwa [← hS]

variable [IsStrictOrderedRing K]

theorem loop_greedy (nbrs : Nat → List Nat) {train l u : List α} (ht : train.Nodup) (hu : u.Nodup)
    (hl : ∀ x ∈ l, x ∈ train) (hut : ∀ x ∈ u, x ∈ train) (hcov : ∀ x ∈ train, x ∈ l ∨ x ∈ u) (hdisj : ∀ x ∈ l, x ∉ u) {batch : Nat}
    (hb : batch ≤ u.length) : ∀ (fuel : Nat) (d : List K) (arr : List Nat) (b : List α),
    DInv train (l.map (fun x => train.idxOf x)) d arr b → (∀ x ∈ b, x ∈ u) → b.Nodup → b.length ≤ batch → batch ≤ b.length + fuel →
    ∃ d' r, densityLoop nbrs train u (l.map (fun x => train.idxOf x)) batch fuel d arr b = some (.ok (d', b ++ r)) ∧
      d'.length = train.length ∧ (b ++ r).length = batch ∧ Greedy (near nbrs train) train.idxOf (dens train d) (fun y => y ∈ u ∧ y ∉ b) r (dens train d')
  | 0, d, arr, b, inv, hbu, hnb, hle, hf => by
    refine ⟨d, [], ?_, inv.len, by rw [List.append_nil]; omega, .done (fun _ _ => rfl)⟩
    unfold densityLoop
    rw [if_neg (by omega), List.append_nil]
  | fuel + 1, d, arr, b, inv, hbu, hnb, hle, hf => by
    unfold densityLoop
    by_cases hlt : b.length < batch
    · rw [if_pos hlt]
      have hfree : ∀ x ∈ u, x ∉ b → ¬ (train.idxOf x ∈ l.map (fun x => train.idxOf x) ∨ train.idxOf x ∈ arr) := by
        intro x hxu hxb
        have hq := get_idxOf (hut x hxu)
        rintro (h | h)
        · obtain ⟨y, hy, hyx⟩ := List.mem_map.1 h
          have h1 := get_idxOf (hl y hy)
          rw [hyx, hq] at h1
          simp at h1
          subst h1
          exact hdisj x hy hxu
        · exact hxb (forall₂_mem_right inv.items _ h x hq)
      have hex : ∃ x ∈ u, x ∉ b := by
        by_contra hcon
        push Not at hcon
        have := (List.subperm_of_subset hu hcon).length_le
        omega
      obtain ⟨x, hxu, hxb⟩ := hex
      have hin : ∀ y ∈ u, train.idxOf y < d.length := fun y hy => by rw [inv.len]; exact List.idxOf_lt_length_iff.2 (hut y hy)
      have hqlt := hin x hxu
      obtain ⟨hs, hmax⟩ := argmaxPos_spec (d := d) (by intro h; rw [h] at hqlt; simp at hqlt)
      have hsfree : ¬ (argmaxPos d ∈ l.map (fun x => train.idxOf x) ∨ argmaxPos d ∈ arr) := by
        intro h
        have h1 := inv.low _ _ hs hqlt h (hfree x hxu hxb)
        exact absurd (hmax _ hqlt) (not_le.2 h1)
      rw [not_or] at hsfree
      have hst : argmaxPos d < train.length := by rw [← inv.len]; exact hs
      rw [List.getElem?_eq_getElem hst]
      simp only
      have hpos : train.idxOf train[argmaxPos d] = argmaxPos d := ht.idxOf_getElem _ hst
      have hyu : train[argmaxPos d] ∈ u := by
        rcases hcov _ (List.getElem_mem hst) with h | h
        · exfalso
          exact hsfree.1 (List.mem_map.2 ⟨_, h, hpos⟩)
        · exact h
      have hyb : train[argmaxPos d] ∉ b := by
        intro h
        obtain ⟨i, hi, hi'⟩ := forall₂_mem_left inv.items _ h
        have : i = argmaxPos d := by
          have h1 := idxOf_get ht hi'
          rw [hpos] at h1
          exact h1.symm
        exact hsfree.2 (this ▸ hi)
      rw [if_pos hyu, if_neg hyb]
      set y0 := train[argmaxPos d] with hy0
      have hd0 : dens train d y0 = d[argmaxPos d] := by
        unfold dens; rw [hpos, List.getD_eq_getElem _ _ hs]
      obtain ⟨d', r, e1, e2, e3, e4⟩ := loop_greedy nbrs ht hu hl hut hcov hdisj hb fuel
        (markLow (markLow (subAll d (nbrs (argmaxPos d)) (d.getD (argmaxPos d) 0)) (l.map (fun x => train.idxOf x))) (arr ++ [argmaxPos d]))
        (arr ++ [argmaxPos d]) (b ++ [y0]) (by
          refine ⟨?_, ?_, ?_, ?_, ?_⟩
          · simp [markLow, setAll, subAll, inv.len]
          · intro p q hp hq h1 h2
            exact markLow_low _ _ _ p q hp hq h1 h2
          · rw [List.nodup_append]
            refine ⟨inv.nodup, by simp, ?_⟩
            intro a ha c hc
            simp at hc
            subst hc
            intro h
            exact hsfree.2 (h ▸ ha)
          · intro p hp
            rcases List.mem_append.1 hp with h | h
            · exact inv.free p h
            · simp at h; subst h; exact hsfree.1
          · exact List.rel_append inv.items (.cons (by rw [List.getElem?_eq_getElem hst]) .nil))
        (by
          intro y hy
          rcases List.mem_append.1 hy with h | h
          · exact hbu y h
          · simp at h; subst h; exact hyu)
        (by
          rw [List.nodup_append]
          refine ⟨hnb, by simp, ?_⟩
          intro a ha c hc
          simp at hc
          subst hc
          intro h
          exact hyb (h ▸ ha)) (by simp; omega) (by simp; omega)
      refine ⟨d', y0 :: r, by rw [e1]; simp, e2, by simpa using e3, ?_⟩
      refine .pick ⟨hyu, hyb⟩ ?_ (f' := dens train
        (markLow (markLow (subAll d (nbrs (argmaxPos d)) (d.getD (argmaxPos d) 0)) (l.map (fun x => train.idxOf x))) (arr ++ [argmaxPos d]))) ?_ ?_ ?_
      · rintro y ⟨hy, -⟩
        rw [hd0]
        unfold dens
        rw [List.getD_eq_getElem _ _ (hin y hy)]
        exact hmax _ (hin y hy)
      · rintro y ⟨hy, -⟩ he
        rw [hpos]
        rw [hd0] at he
        unfold dens at he
        rw [List.getD_eq_getElem _ _ (hin y hy)] at he
        exact argmaxPos_first hs hmax (hin y hy) he
      · rintro y ⟨hy, hyb'⟩ hne
        have h1 := hfree y hy hyb'
        rw [not_or] at h1
        have hnp : train.idxOf y ≠ argmaxPos d := by
          intro h
          rw [← hpos] at h
          exact hne ((List.idxOf_inj (hut y hy)).1 h)
        have e : dens train (markLow (markLow (subAll d (nbrs (argmaxPos d)) (d.getD (argmaxPos d) 0)) (l.map (fun x => train.idxOf x)))
            (arr ++ [argmaxPos d])) y = if train.idxOf y ∈ nbrs (argmaxPos d) then dens train d y - dens train d y0 else dens train d y := by
          rw [dens_markLow _ _ _ (by simp [h1.2, hnp]), dens_markLow _ _ _ h1.1, dens_subAll _ _ _ _ (hin y hy)]
          have hv : dens train d y0 = d.getD (argmaxPos d) 0 := by unfold dens; rw [hpos]
          rw [hv]
        constructor
        · intro hn; unfold near at hn; rw [hpos] at hn; rw [e, if_pos hn]
        · intro hn; unfold near at hn; rw [hpos] at hn; rw [e, if_neg hn]
      · have hS : (fun y => (y ∈ u ∧ y ∉ b) ∧ y ≠ y0) = (fun y => y ∈ u ∧ y ∉ b ++ [y0]) := by
          funext y; simp only [List.mem_append, List.mem_singleton, not_or, and_assoc]
        rw [hS]; exact e4
    · rw [if_neg hlt]
      exact ⟨d, [], by rw [List.append_nil], inv.len, by rw [List.append_nil]; omega, .done (fun _ _ => rfl)⟩

/-- C94, one call, whatever happened to the densities before: if more than `batch_size` examples are unlabelled, the selected examples are a
greedy choice with respect to the densities of the object; afterwards the object has the densities that the greedy choice leaves. The densities
of labelled examples, and how they are kept out, have no influence. -/
theorem C94_call (nbrs : Nat → List Nat) {train l u : List α} (ht : train.Nodup) (hu : u.Nodup)
    (hl : ∀ x ∈ l, x ∈ train) (hut : ∀ x ∈ u, x ∈ train) (hcov : ∀ x ∈ train, x ∈ l ∨ x ∈ u) (hdisj : ∀ x ∈ l, x ∉ u)
    {d : List K} (hd : d.length = train.length) {batch : Int} (hb : 0 < batch) (hbu : batch < u.length) {fuel : Nat} (hf : batch.toNat ≤ fuel) :
    ∃ d' r, graphDensity nbrs train fuel d l (.array u) batch = some (.ok (d', r)) ∧ (r.length : Int) = batch ∧ d'.length = train.length ∧
      Greedy (fun x y => train.idxOf y ∈ nbrs (train.idxOf x)) train.idxOf (fun x => d.getD (train.idxOf x) 0) (· ∈ u) r (fun x => d'.getD (train.idxOf x) 0) := by
  unfold graphDensity
  rw [if_neg (by omega), if_neg (by simp only [Coll.items]; omega), positions_ok hl]
  simp only
  have hinv : DInv train (l.map (fun x => train.idxOf x)) (markLow d (l.map (fun x => train.idxOf x))) [] ([] : List α) := by
    refine ⟨by simp [markLow, setAll, hd], ?_, by simp, by simp, .nil⟩
    intro p q hp hq h1 h2
    have hp' : p < d.length := by simpa [markLow, setAll] using hp
    have hq' : q < d.length := by simpa [markLow, setAll] using hq
    have h1' : p ∈ l.map (fun x => train.idxOf x) := by simpa using h1
    have h2' : q ∉ l.map (fun x => train.idxOf x) := by simpa using h2
    simp only [markLow, setAll, List.getElem_mapIdx, if_pos h1', if_neg h2']
    have := lowest_le (List.getElem_mem hq')
    linarith
  obtain ⟨d', r, h1, h2, h3, h4⟩ := loop_greedy nbrs ht hu hl hut hcov hdisj (batch := batch.toNat) (by omega) fuel _ [] [] hinv
    (by simp) (by simp) (by simp) (by simpa using hf)
  refine ⟨d', r, h1, by simp at h3; omega, h2, ?_⟩
  have hS : (fun y => y ∈ u ∧ y ∉ ([] : List α)) = (· ∈ u) := by funext y; simp
  rw [hS] at h4
  refine greedy_append (xs := []) (g := dens train (markLow d (l.map (fun x => train.idxOf x)))) (.done (fun y hy => ?_)) ?_
  · refine dens_markLow train d _ (fun h => ?_)
    obtain ⟨z, hz, hzy⟩ := List.mem_map.1 h
    have : z = y := (List.idxOf_inj (hl z hz)).1 hzy
    exact hdisj z hz (this ▸ hy)
  · have hS' : (fun y => y ∈ u ∧ y ∉ ([] : List α)) = (· ∈ u) := by funext y; simp
    rw [hS']; exact h4

theorem greedy_mem {near : α → α → Prop} {pos : α → Nat} {f g : α → K} {S : α → Prop} {xs : List α} (h : Greedy near pos f S xs g) : ∀ x ∈ xs, S x := by
  induction h with
  | done _ => simp
  | pick a1 _ _ _ _ ih =>
    intro y hy
    rcases List.mem_cons.1 hy with rfl | hy
    · exact a1
    · exact (ih y hy).1

/-- C94, a whole experiment: over any series of calls (of any batch sizes) on one object, each followed by moving the selected examples to
the labelled ones, all the selected examples together are a greedy choice with respect to the densities at the start. -/
theorem C94_series (nbrs : Nat → List Nat) {train : List α} (ht : train.Nodup) {d d' : List K} {l u xs : List α}
    (h : Series nbrs train d l u xs d') (hu : u.Nodup) (hl : ∀ x ∈ l, x ∈ train) (hut : ∀ x ∈ u, x ∈ train)
    (hcov : ∀ x ∈ train, x ∈ l ∨ x ∈ u) (hdisj : ∀ x ∈ l, x ∉ u) (hd : d.length = train.length) :
    Greedy (fun x y => train.idxOf y ∈ nbrs (train.idxOf x)) train.idxOf (fun x => d.getD (train.idxOf x) 0) (· ∈ u) xs (fun x => d'.getD (train.idxOf x) 0) := by
  induction h with
  | done d l u => exact .done (fun _ _ => rfl)
  | @call d d1 d2 l u r xs batch fuel hbu hf hb hcall _ ih =>
    obtain ⟨d1', r', e1, e2, e3, e4⟩ := C94_call nbrs ht hu hl hut hcov hdisj hd hb hbu hf
    rw [hcall] at e1
    simp only [Option.some.injEq, Except.ok.injEq, Prod.mk.injEq] at e1
    obtain ⟨rfl, rfl⟩ := e1
    have hr := greedy_mem e4
    have := ih (hu.filter _) (by
        intro x hx
        rcases List.mem_append.1 hx with h | h
        · exact hl x h
        · exact hut x (hr x h)) (fun x hx => hut x (List.mem_of_mem_filter hx)) (by
        intro x hx
        by_cases hxr : x ∈ r
        · exact .inl (List.mem_append_right _ hxr)
        · rcases hcov x hx with h | h
          · exact .inl (List.mem_append_left _ h)
          · exact .inr (List.mem_filter.2 ⟨h, by simpa using hxr⟩)) (by
        intro x hx hx'
        obtain ⟨h1, h2⟩ := List.mem_filter.1 hx'
        rcases List.mem_append.1 hx with h | h
        · exact hdisj x h h1
        · simp [h] at h2) e3
    refine greedy_append e4 ?_
    have hS : (fun y => y ∈ u.filter (fun x => !decide (x ∈ r))) = (fun y => y ∈ u ∧ y ∉ r) := by
      funext y; simp
    rw [← hS]; exact this

/-- C94, negative: the first density that is negative turns the rule round. If the example of greatest density has a negative density, its
unlabelled neighbours are not lowered but raised by the choice. -/
theorem C94_raises_violation {near : α → α → Prop} {pos : α → Nat} {f g : α → K} {S : α → Prop} {x : α} (h : Greedy near pos f S [x] g) (hneg : f x < 0) {y : α}
    (hy : S y) (hne : y ≠ x) (hn : near x y) : f y < g y := by
  cases h with
  | pick a1 a2 _ a3 a4 =>
    cases a4 with
    | done a5 =>
      rw [a5 y ⟨hy, hne⟩, (a3 y hy hne).1 hn]
      linarith

/-- C94, and negative densities are the rule: if, as in every training set of 11 examples (each example has the 10 nearest as
neighbours), all examples are neighbours of each other, then after the first choice no density is positive, and after the second choice the
density of every example left is greater than before it, if the second has a smaller density than the first. -/
theorem C94_negative_violation {near : α → α → Prop} {pos : α → Nat} (hall : ∀ x y, x ≠ y → near x y) {f g : α → K} {S : α → Prop} {x1 x2 : α}
    (h : Greedy near pos f S [x1, x2] g) :
    ∃ f1 : α → K, (∀ y, S y → y ≠ x1 → f1 y = f y - f x1 ∧ f1 y ≤ 0) ∧
      (f x2 < f x1 → ∀ y, S y → y ≠ x1 → y ≠ x2 → f1 y < g y) := by
  cases h with
  | @pick _ f1 _ _ _ _ a1 a2 _ a3 a4 =>
    have h1 : ∀ y, S y → y ≠ x1 → f1 y = f y - f x1 := fun y hy hne => (a3 y hy hne).1 (hall _ _ hne.symm)
    refine ⟨f1, fun y hy hne => ⟨h1 y hy hne, ?_⟩, ?_⟩
    · rw [h1 y hy hne]; have := a2 y hy; linarith
    · intro hlt y hy hy1 hy2
      cases a4 with
      | pick b1 b2 b5 b3 b4 =>
        have hneg : f1 x2 < 0 := by rw [h1 x2 b1.1 b1.2]; linarith
        exact C94_raises_violation (S := fun y => S y ∧ y ≠ x1) (f := f1) (.pick b1 b2 b5 b3 b4) hneg (show S y ∧ y ≠ x1 from ⟨hy, hy1⟩) hy2
          (hall _ _ (Ne.symm hy2))

/-- C94, negative: the densities are kept in the object. A call that selects one example `x` lowers the density of its unlabelled neighbours for
good, so that a second experiment with the same object, starting again from the same labelled and unlabelled sets, is a greedy choice with
respect to other densities, if the density of `x` is not 0. -/
theorem C94_object_kept_violation (nbrs : Nat → List Nat) {train l u : List α} (ht : train.Nodup) (hu : u.Nodup)
    (hl : ∀ x ∈ l, x ∈ train) (hut : ∀ x ∈ u, x ∈ train) (hcov : ∀ x ∈ train, x ∈ l ∨ x ∈ u) (hdisj : ∀ x ∈ l, x ∉ u)
    {d : List K} (hd : d.length = train.length) (hbu : 1 < u.length) {fuel : Nat} (hf : 1 ≤ fuel) :
    ∃ d' x, graphDensity nbrs train fuel d l (.array u) 1 = some (.ok (d', [x])) ∧ x ∈ u ∧
      ∀ y ∈ u, y ≠ x → train.idxOf y ∈ nbrs (train.idxOf x) →
        d'.getD (train.idxOf y) 0 = d.getD (train.idxOf y) 0 - d.getD (train.idxOf x) 0 := by
  obtain ⟨d', r, e1, e2, e3, e4⟩ := C94_call nbrs ht hu hl hut hcov hdisj hd (batch := 1) (by omega) (by omega) (fuel := fuel) (by simpa using hf)
  obtain ⟨x, rfl⟩ : ∃ x, r = [x] := List.length_eq_one_iff.1 (by omega)
  refine ⟨d', x, e1, greedy_mem e4 x (by simp), fun y hy hne hn => ?_⟩
  cases e4 with
  | pick a1 a2 _ a3 a4 =>
    cases a4 with
    | done a5 => exact (a5 y ⟨hy, hne⟩).trans ((a3 y hy hne).1 hn)

end

/-! ## The graph -/

theorem weigh_at {dist : Nat → Nat → ℝ} (hs : ∀ i j, dist i j = dist j i) (gamma : ℝ) (a b : Nat) :
    ∀ (es : List (Nat × Nat)) (c : Nat → Nat → ℝ),
      ((a, b) ∈ es ∨ (b, a) ∈ es → weigh dist gamma es c a b = Real.exp (-dist a b * gamma)) ∧
      (¬ ((a, b) ∈ es ∨ (b, a) ∈ es) → weigh dist gamma es c a b = c a b)
  | [], c => by simp [weigh]
  | (i, j) :: es, c => by
    have ih := weigh_at hs gamma a b es
    unfold weigh
    simp only
    by_cases h : (a, b) ∈ es ∨ (b, a) ∈ es
    · refine ⟨fun _ => (ih _).1 h, fun hn => absurd ?_ hn⟩
      rcases h with h | h
      · exact .inl (List.mem_cons_of_mem _ h)
      · exact .inr (List.mem_cons_of_mem _ h)
    · rw [(ih _).2 h]
      rw [not_or] at h
      constructor
      · intro h'
        simp only [List.mem_cons, h.1, h.2, or_false, Prod.mk.injEq] at h'
        rcases h' with ⟨rfl, rfl⟩ | ⟨rfl, rfl⟩
        · by_cases hab : a = b
          · subst hab; simp
          · simp [hab]
        · simp [hs]
      · intro h'
        simp only [List.mem_cons, h.1, h.2, or_false, Prod.mk.injEq, not_or] at h'
        rw [if_neg (by rintro ⟨rfl, rfl⟩; exact h'.2 ⟨rfl, rfl⟩), if_neg h'.1]

/-- C94, the weights: for a symmetric distance, the weight of two examples is `exp (-γ · distance)` if one of them is among the nearest
neighbours of the other, and otherwise 0. -/
theorem C94_weights {dist : Nat → Nat → ℝ} (hs : ∀ i j, dist i j = dist j i) (gamma : ℝ) {n : Nat} {nn : Nat → List Nat} {i j : Nat}
    (hi : i < n) (hj : j < n) :
    (Linked nn i j → connect n nn dist gamma i j = Real.exp (-dist i j * gamma)) ∧
    (¬ Linked nn i j → connect n nn dist gamma i j = 0) := by
  have hmem : ∀ a b, a < n → b < n →
      ((a, b) ∈ (List.range n).flatMap (fun i => ((List.range n).filter (fun j => decide (j ∈ nn i))).map (fun j => (i, j))) ↔ b ∈ nn a) := by
    intro a b ha hb
    simp only [List.mem_flatMap, List.mem_range, List.mem_map, List.mem_filter, decide_eq_true_eq, Prod.mk.injEq]
    constructor
    · rintro ⟨c, _, e, ⟨_, h⟩, rfl, rfl⟩; exact h
    · intro h; exact ⟨a, ha, b, ⟨hb, h⟩, rfl, rfl⟩
  unfold connect Linked
  constructor
  · intro h
    exact (weigh_at hs gamma i j _ _).1 (by rwa [hmem i j hi hj, hmem j i hj hi])
  · intro h
    rw [(weigh_at hs gamma i j _ _).2 (by rwa [hmem i j hi hj, hmem j i hj hi]), if_neg (not_or.1 h).1]

/-- C94, the weights are symmetric, and positive exactly between neighbours. -/
theorem C94_symmetric {dist : Nat → Nat → ℝ} (hs : ∀ i j, dist i j = dist j i) (gamma : ℝ) {n : Nat} {nn : Nat → List Nat} {i j : Nat}
    (hi : i < n) (hj : j < n) :
    connect n nn dist gamma i j = connect n nn dist gamma j i ∧ (0 < connect n nn dist gamma i j ↔ Linked nn i j) := by
  have h1 := C94_weights hs gamma (nn := nn) hi hj
  have h2 := C94_weights hs gamma (nn := nn) hj hi
  by_cases h : Linked nn i j
  · rw [h1.1 h, h2.1 (Or.symm h), hs i j]
    exact ⟨rfl, fun _ => h, fun _ => Real.exp_pos _⟩
  · rw [h1.2 h, h2.2 (fun h' => h (Or.symm h'))]
    exact ⟨rfl, fun h' => absurd h' (lt_irrefl _), fun h' => absurd h' h⟩

theorem sum_zero_filter (f : Nat → ℝ) (P : Nat → Prop) [DecidablePred P] : ∀ l : List Nat, (∀ j ∈ l, ¬ P j → f j = 0) →
    (l.map f).sum = ((l.filter (fun j => decide (P j))).map f).sum
  | [], _ => by simp
  | x :: l, h => by
    have ih := sum_zero_filter f P l (fun j hj => h j (List.mem_cons_of_mem _ hj))
    by_cases hx : P x
    · simp [hx, ih]
    · simp [hx, ih, h x (by simp) hx]

/-- C94, the density: the density of an example is the mean weight of its edges. -/
theorem C94_density {dist : Nat → Nat → ℝ} (hs : ∀ i j, dist i j = dist j i) (gamma : ℝ) {n : Nat} {nn : Nat → List Nat} {i : Nat}
    (hi : i < n) {es : List Nat} (hes : es.Nodup) (hmem : ∀ j, j ∈ es ↔ j < n ∧ Linked nn i j) :
    density n (connect n nn dist gamma) i = (es.map (fun j => Real.exp (-dist i j * gamma))).sum / es.length := by
  classical
  have hp : ((List.range n).filter (fun j => decide (0 < connect n nn dist gamma i j))).Perm es := by
    rw [List.perm_ext_iff_of_nodup (List.nodup_range.filter _) hes]
    intro j
    rw [List.mem_filter, hmem, List.mem_range, decide_eq_true_eq]
    constructor
    · rintro ⟨h1, h2⟩; exact ⟨h1, (C94_symmetric hs gamma hi h1).2.1 h2⟩
    · rintro ⟨h1, h2⟩; exact ⟨h1, (C94_symmetric hs gamma hi h1).2.2 h2⟩
  unfold density
  rw [sum_zero_filter _ (fun j => 0 < connect n nn dist gamma i j), (hp.map _).sum_eq, hp.length_eq]
  · congr 2
    refine List.map_congr_left (fun j hj => ?_)
    obtain ⟨h1, h2⟩ := (hmem j).1 hj
    exact (C94_weights hs gamma hi h1).1 h2
  · intro j hj hn
    have hj' := List.mem_range.1 hj
    exact (C94_weights hs gamma hi hj').2 (fun h => hn ((C94_symmetric hs gamma hi hj').2.2 h))

/-- C94, so the densities that the choice starts from are positive and at most 1 (each example has at least one edge), and 1 only if all
neighbours are at distance 0. -/
theorem C94_density_range {dist : Nat → Nat → ℝ} (hs : ∀ i j, dist i j = dist j i) (h0 : ∀ i j, 0 ≤ dist i j) {gamma : ℝ} (hg : 0 < gamma)
    {n : Nat} {nn : Nat → List Nat} {i j : Nat} (hi : i < n) (hj : j < n) (hij : Linked nn i j) :
    0 < density n (connect n nn dist gamma) i ∧ density n (connect n nn dist gamma) i ≤ 1 ∧
      (0 < dist i j → density n (connect n nn dist gamma) i < 1) := by
  classical
  let es := (List.range n).filter (fun k => decide (Linked nn i k))
  have hmem : ∀ k, k ∈ es ↔ k < n ∧ Linked nn i k := by intro k; simp [es]
  rw [C94_density hs gamma hi (List.nodup_range.filter _ : es.Nodup) hmem]
  have hjes : j ∈ es := (hmem j).2 ⟨hj, hij⟩
  have hlen : (0 : ℝ) < es.length := by exact_mod_cast List.length_pos_of_mem hjes
  have hle : ∀ k, Real.exp (-dist i k * gamma) ≤ 1 := by
    intro k
    rw [Real.exp_le_one_iff]
    have := mul_nonneg (h0 i k) hg.le
    linarith
  have hsum : ∀ l : List Nat, 0 ≤ (l.map (fun k => Real.exp (-dist i k * gamma))).sum ∧
      (l.map (fun k => Real.exp (-dist i k * gamma))).sum ≤ l.length ∧
      (j ∈ l → 0 < (l.map (fun k => Real.exp (-dist i k * gamma))).sum) ∧
      (j ∈ l → 0 < dist i j → (l.map (fun k => Real.exp (-dist i k * gamma))).sum < l.length) := by
    intro l
    induction l with
    | nil => simp
    | cons x l ih =>
      obtain ⟨a1, a2, a3, a4⟩ := ih
      have hx := Real.exp_pos (-dist i x * gamma)
      have hx1 := hle x
      simp only [List.map_cons, List.sum_cons, List.length_cons, Nat.cast_add, Nat.cast_one]
      refine ⟨by linarith, by linarith, fun _ => by linarith, fun hm hd => ?_⟩
      rcases List.mem_cons.1 hm with rfl | hm
      · have : Real.exp (-dist i j * gamma) < 1 := by
          rw [Real.exp_lt_one_iff]
          have := mul_pos hd hg
          linarith
        linarith
      · have := a4 hm hd
        linarith
  obtain ⟨a1, a2, a3, a4⟩ := hsum es
  refine ⟨div_pos (a3 hjes) hlen, (div_le_one hlen).2 a2, fun hd => (div_lt_one hlen).2 (a4 hjes hd)⟩

/-! ## Concrete cases -/

/-- Three examples in a row, the middle one linked with both others. -/
private def nb : Nat → List Nat | 0 => [1] | 1 => [0, 2] | _ => [1]

/-- Hypotheses of `C94_call`: examples 7, 8, 9, 5 (5 labelled and without edges), batch of 2 of 3. -/
example : graphDensity nb [7, 8, 9, 5] 4 ([1/2, 3/4, 5/8, 9/10] : List ℚ) [5] (.array [7, 8, 9]) 2 =
    some (.ok ([-1/4, -35/8, -35/8, -27/8], [8, 9])) := by decide +kernel

/-- The second pick has density -1/8 (5/8 - 3/4) and raises nothing here, as its only neighbour is already taken; with all three linked the
last density goes up from -1/4 to -1/8 (`C94_negative_violation`). -/
example : graphDensity (fun i => [0, 1, 2].filter (· ≠ i)) [7, 8, 9] 4 ([1/2, 3/4, 5/8] : List ℚ) [] (.array [7, 8, 9]) 2 =
    some (.ok ([-1/8, -17/8, -17/8], [8, 9])) := by decide +kernel

/-- A second experiment with the same object: the first call takes 8, the same call on the object left takes 9. -/
example : graphDensity nb [7, 8, 9, 5] 4 ([1/2, 3/4, 5/8, 9/10] : List ℚ) [5] (.array [7, 8, 9]) 1 =
      some (.ok ([-1/4, -5/2, -1/8, -3/2], [8])) ∧
    (graphDensity nb [7, 8, 9, 5] 4 ([-1/4, -5/2, -1/8, -3/2] : List ℚ) [5] (.array [7, 8, 9]) 1).map (fun r => r.map Prod.snd) =
      some (.ok [9]) := by decide +kernel

/-- Hypotheses of the theorems about the graph: two examples at distance 1, the second among the neighbours of the first only. -/
example : connect 2 (fun i => if i = 0 then [1] else []) (fun i j => |(i : ℝ) - j|) 1 1 0 = Real.exp (-1) := by
  have := (C94_weights (dist := fun i j => |(i : ℝ) - j|) (fun i j => abs_sub_comm _ _) 1 (n := 2)
    (nn := fun i => if i = 0 then [1] else []) (i := 1) (j := 0) (by omega) (by omega)).1 (Or.inr (by simp))
  simpa using this

end Alipy.GraphDensity
