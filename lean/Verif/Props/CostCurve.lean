import Verif.Model.CostCurve
import Verif.Spec.CostCurve
import Mathlib.Tactic.Linarith
import Mathlib.Tactic.Ring
import Mathlib.Tactic.FieldSimp
import Mathlib.Algebra.Order.Floor.Extended
import Mathlib.Data.List.GetD
import Mathlib.Data.Rat.Floor
/-!
# Properties of the curves against cost (C75)
-/
set_option linter.unusedSectionVars false
namespace Alipy.CostCurve
open Alipy Alipy.Analyser

variable {K : Type} [Field K] [LinearOrder K]

/-- A fold as pairs (cost, performance). -/
def pairs (f : List (Query K)) : List (K × K) := f.map (fun q => (q.cost.sum, q.perf))

theorem zip_eq (c : K) : ∀ f : List (Query K), ((List.range f.length).map (fun i => c + ((sums f).take (i + 1)).sum)).zip (f.map Query.perf) = Spec.costPoints c (pairs f)
  | [] => rfl
  | q :: f => by
    have ih := zip_eq (c + q.cost.sum) f
    simp only [pairs, List.map_cons, Spec.costPoints] at ih ⊢
    rw [← ih]
    rw [List.length_cons, List.range_succ_eq_map]
    simp only [List.map_cons, List.zip_cons_cons, List.map_map]
    congr 1
    · simp [sums]
    · congr 1
      apply List.map_congr_left
      intro i _
      simp [sums, Function.comp, add_assoc]

theorem foldPoints_eq (fr : Option K) (f : List (Query K)) : foldPoints fr f = (fr.toList.map (fun p => (0, p))) ++ Spec.costPoints 0 (pairs f) := by
  unfold foldPoints xAxis
  rw [← zip_eq 0 f]
  simp only [zero_add]

variable [IsStrictOrderedRing K]

theorem minOf_spec : ∀ {l : List K} {c : K}, minOf l = some c → c ∈ l ∧ ∀ x ∈ l, c ≤ x
  | [], _, h => by simp [minOf] at h
  | a :: l, c, h => by
    unfold minOf at h
    cases hm : minOf l with
    | none =>
      rw [hm] at h
      simp only [Option.some.injEq] at h
      subst h
      cases l with
      | nil => simp
      | cons b l =>
        unfold minOf at hm
        cases h' : minOf l <;> rw [h'] at hm <;> simp at hm
    | some b =>
      rw [hm] at h
      simp only [Option.some.injEq] at h
      obtain ⟨h1, h2⟩ := minOf_spec hm
      subst h
      constructor
      · rcases min_choice a b with e | e <;> rw [e]
        · simp
        · simp [h1]
      · intro x hx
        rcases List.mem_cons.1 hx with rfl | hx
        · exact min_le_left _ _
        · exact (min_le_right _ _).trans (h2 x hx)

theorem maxOf_spec : ∀ {l : List K}, l ≠ [] → ∃ c, maxOf l = some c ∧ c ∈ l ∧ ∀ x ∈ l, x ≤ c
  | [], h => absurd rfl h
  | [a], _ => ⟨a, rfl, by simp, by simp⟩
  | a :: b :: l, _ => by
    obtain ⟨c, h1, h2, h3⟩ := maxOf_spec (l := b :: l) (by simp)
    refine ⟨max a c, by rw [maxOf, h1], ?_, ?_⟩
    · rcases max_choice a c with e | e <;> rw [e]
      · simp
      · exact List.mem_cons_of_mem _ h2
    · intro x hx
      rcases List.mem_cons.1 hx with rfl | hx
      · exact le_max_left _ _
      · exact (h3 x hx).trans (le_max_right _ _)

/-- Inside the range of the points, `lin` is the polygonal line. -/
theorem lin_spec : ∀ {pts : List (K × K)} {t : K} {p q : K × K}, (pts.map Prod.fst).Pairwise (· < ·) → pts.head? = some p → pts.getLast? = some q → p.1 ≤ t → t ≤ q.1 →
    Spec.OnPolyline pts t (lin pts t)
  | [], _, _, _, _, h, _, _, _ => by simp at h
  | [a], t, p, q, _, hp, hq, h1, h2 => by
    simp only [List.head?_cons, Option.some.injEq, List.getLast?_singleton] at hp hq
    subst hp hq
    exact Or.inl ⟨a, by simp, le_antisymm h2 h1, rfl⟩
  | a :: b :: l, t, p, q, hs, hp, hq, h1, h2 => by
    simp only [List.head?_cons, Option.some.injEq] at hp
    subst hp
    rw [lin]
    split_ifs with hb
    · right
      refine ⟨[], l, a, b, rfl, h1, hb, ?_⟩
      have hlt : a.1 < b.1 := by
        simp only [List.map_cons, List.pairwise_cons] at hs
        exact hs.1 b.1 (by simp)
      have : b.1 - a.1 ≠ 0 := by linarith
      field_simp
      ring
    · rcases lin_spec (pts := b :: l) (t := t) (p := b) (q := q) (by simp only [List.map_cons, List.pairwise_cons] at hs ⊢; exact hs.2) rfl
        (by rw [List.getLast?_cons_cons] at hq; exact hq) (not_le.1 hb).le h2 with ⟨x, hx, h⟩ | ⟨l', r, x, y, h, h'⟩
      · exact Or.inl ⟨x, List.mem_cons_of_mem _ hx, h⟩
      · exact Or.inr ⟨a :: l', r, x, y, by rw [h]; rfl, h'⟩

theorem costPoints_head {c : K} {k p : K} {l : List (K × K)} : (Spec.costPoints c ((k, p) :: l)).head? = some (c + k, p) := rfl

theorem costPoints_last : ∀ {l : List (K × K)} {c : K}, l ≠ [] → ∃ p, (Spec.costPoints c l).getLast? = some p ∧ p.1 = c + (l.map Prod.fst).sum
  | [], _, h => absurd rfl h
  | [(k, p)], c, _ => ⟨(c + k, p), rfl, by simp⟩
  | (k, p) :: x :: l, c, _ => by
    obtain ⟨q, h1, h2⟩ := costPoints_last (l := x :: l) (c := c + k) (by simp)
    refine ⟨q, ?_, ?_⟩
    · rw [Spec.costPoints, List.getLast?_cons, h1]
      rfl
    · rw [h2]
      simp [add_assoc]

theorem costPoints_gt : ∀ {l : List (K × K)} {c : K}, (∀ x ∈ l, 0 < x.1) → ∀ x ∈ (Spec.costPoints c l).map Prod.fst, c < x
  | [], _, _ => by simp [Spec.costPoints]
  | (k, p) :: l, c, h => by
    intro x hx
    have hk : 0 < k := h (k, p) (by simp)
    simp only [Spec.costPoints, List.map_cons, List.mem_cons] at hx
    rcases hx with rfl | hx
    · linarith
    · have := costPoints_gt (l := l) (c := c + k) (fun x hx => h x (by simp [hx])) x hx
      linarith

theorem costPoints_sorted : ∀ {l : List (K × K)} {c : K}, (∀ x ∈ l, 0 < x.1) → ((Spec.costPoints c l).map Prod.fst).Pairwise (· < ·)
  | [], _, _ => by simp [Spec.costPoints]
  | (k, p) :: l, c, h => by
    simp only [Spec.costPoints, List.map_cons, List.pairwise_cons]
    exact ⟨costPoints_gt (fun x hx => h x (by simp [hx])), costPoints_sorted (fun x hx => h x (by simp [hx]))⟩

/-- The points of a fold with positive costs. -/
theorem foldPoints_spec {fr : Option K} {f : List (Query K)} (hf : f ≠ []) (hpos : ∀ q ∈ f, 0 < q.cost.sum) :
    ((foldPoints fr f).map Prod.fst).Pairwise (· < ·) ∧ (∃ p, (foldPoints fr f).head? = some p) ∧
      ∃ q, (foldPoints fr f).getLast? = some q ∧ q.1 = (sums f).sum := by
  have hp : ∀ x ∈ pairs f, 0 < x.1 := by
    intro x hx
    obtain ⟨q, hq, rfl⟩ := List.mem_map.1 hx
    exact hpos q hq
  have hne : pairs f ≠ [] := by simpa [pairs] using hf
  obtain ⟨q, h1, h2⟩ := costPoints_last (c := 0) hne
  rw [foldPoints_eq]
  refine ⟨?_, ?_, q, ?_, ?_⟩
  · cases fr with
    | none => simpa using costPoints_sorted (c := 0) hp
    | some p =>
      simp only [Option.toList_some, List.map_cons, List.map_nil, List.cons_append, List.nil_append, List.pairwise_cons]
      exact ⟨costPoints_gt hp, costPoints_sorted hp⟩
  · cases fr with
    | none =>
      cases h : pairs f with
      | nil => exact absurd h hne
      | cons a l => exact ⟨_, rfl⟩
    | some p => exact ⟨_, rfl⟩
  · rw [List.getLast?_append, h1]
    rfl
  · rw [h2, zero_add]
    simp [pairs, sums, Function.comp_def]

variable [FloorRing K]

theorem mem_arange {a b s x : K} (hs : 0 < s) : x ∈ arange a b s ↔ ∃ j : Nat, x = a + j * s ∧ a + j * s < b := by
  unfold arange
  rw [List.mem_map]
  constructor
  · rintro ⟨i, hi, rfl⟩
    rw [List.mem_range, Nat.lt_ceil, lt_div_iff₀ hs] at hi
    exact ⟨i, rfl, by linarith⟩
  · rintro ⟨j, rfl, hj⟩
    refine ⟨j, ?_, rfl⟩
    rw [List.mem_range, Nat.lt_ceil, lt_div_iff₀ hs]
    linarith

theorem arange_sorted {a b s : K} (hs : 0 < s) : (arange a b s).Pairwise (· < ·) := by
  unfold arange
  rw [List.pairwise_map]
  refine List.pairwise_lt_range.imp ?_
  intro i j hij
  have : (i : K) < j := by exact_mod_cast hij
  have := mul_lt_mul_of_pos_right this hs
  linarith

/-- The curve of one method. -/
theorem drawMethod_spec {allState : Bool} {xShift effective step : K} {start : Option K} {m : Method K} (hs : 0 < step) (hne : m.folds ≠ [])
    (hf : ∀ f ∈ m.folds, f ≠ [] ∧ (∀ q ∈ f, 0 < q.cost.sum) ∧ effective ≤ (sums f).sum) :
    ∃ pts, drawMethod allState xShift start effective step m = .ok (m.name, pts) ∧
      Spec.MeanCurve (m.folds.map (fun f => ((front allState start m.ip).toList.map (fun p => (0, p))) ++ Spec.costPoints 0 (pairs f))) effective step xShift pts := by
  set fr := front allState start m.ip with hfr
  have hlines : m.folds.map (fun f => (fr.toList.map (fun p => (0, p))) ++ Spec.costPoints 0 (pairs f)) = m.folds.map (foldPoints fr) :=
    List.map_congr_left (fun f _ => (foldPoints_eq fr f).symm)
  rw [hlines]
  set lines := m.folds.map (foldPoints fr) with hl
  have hany : lines.any (fun p => p.isEmpty) = false := by
    rw [Bool.eq_false_iff]
    intro h
    obtain ⟨p, hp, he⟩ := List.any_eq_true.1 h
    obtain ⟨f, hfm, rfl⟩ := List.mem_map.1 hp
    obtain ⟨_, ⟨p, hp⟩, _⟩ := foldPoints_spec (fr := fr) (hf f hfm).1 (hf f hfm).2.1
    rw [List.isEmpty_iff] at he
    rw [he] at hp
    simp at hp
  obtain ⟨x0, h1, h2, h3⟩ := maxOf_spec (l := lines.map (fun p => (p.headD (0, 0)).1)) (by simpa [hl] using hne)
  refine ⟨_, by
    unfold drawMethod
    simp only
    rw [← hfr, ← hl, hany]
    simp only [Bool.false_eq_true, if_false]
    rw [h1], ?_⟩
  have hx : ((arange x0 effective step).map (fun t => (t + xShift, mean (lines.map (fun p => interp p t))))).map Prod.fst = (arange x0 effective step).map (fun t => t + xShift) := by
    rw [List.map_map]
    rfl
  refine ⟨x0, ?_, ?_, ?_, ?_, ?_⟩
  · obtain ⟨l, hl1, rfl⟩ := List.mem_map.1 h2
    obtain ⟨f, hfm, rfl⟩ := List.mem_map.1 hl1
    obtain ⟨_, ⟨p, hp⟩, _⟩ := foldPoints_spec (fr := fr) (hf f hfm).1 (hf f hfm).2.1
    refine ⟨_, hl1, p, hp, ?_⟩
    rw [List.headD_eq_head?_getD, hp]
    rfl
  · intro l hl1 p hp
    have := h3 _ (List.mem_map.2 ⟨l, hl1, rfl⟩)
    rw [List.headD_eq_head?_getD, hp] at this
    exact this
  · rw [hx, List.pairwise_map]
    refine (arange_sorted hs).imp ?_
    intro a b hab
    linarith
  · intro x
    rw [hx, List.mem_map]
    constructor
    · rintro ⟨t, ht, rfl⟩
      obtain ⟨j, rfl, hj⟩ := (mem_arange hs).1 ht
      exact ⟨j, rfl, hj⟩
    · rintro ⟨j, rfl, hj⟩
      exact ⟨_, (mem_arange hs).2 ⟨j, rfl, hj⟩, rfl⟩
  · intro x v hxv
    obtain ⟨t, ht, he⟩ := List.mem_map.1 hxv
    simp only [Prod.mk.injEq] at he
    obtain ⟨rfl, rfl⟩ := he
    rw [add_sub_cancel_right]
    obtain ⟨j, hj, hjs⟩ := (mem_arange hs).1 ht
    refine ⟨lines.map (fun p => interp p t), ?_, rfl⟩
    rw [List.forall₂_map_right_iff, List.forall₂_same]
    intro l hl1
    obtain ⟨f, hfm, rfl⟩ := List.mem_map.1 hl1
    obtain ⟨g1, ⟨p, g2⟩, q, g3, g4⟩ := foldPoints_spec (fr := fr) (hf f hfm).1 (hf f hfm).2.1
    have hpt : p.1 ≤ t := by
      have := h3 _ (List.mem_map.2 ⟨_, hl1, rfl⟩)
      rw [List.headD_eq_head?_getD, g2] at this
      have hj0 : 0 ≤ (j : K) * step := mul_nonneg (Nat.cast_nonneg j) hs.le
      simp only [Option.getD_some] at this
      linarith
    have htq : t ≤ q.1 := by
      have := (hf f hfm).2.2
      linarith
    have : interp (foldPoints fr f) t = lin (foldPoints fr f) t := by
      unfold interp
      rw [g2, g3]
      simp only
      rw [if_neg]
      rintro (h | h) <;> linarith
    rw [this]
    exact lin_spec g1 g2 g3 hpt htq

theorem mapM_ok {α β γ : Type} {f : α → Except γ β} {R : α → β → Prop} : ∀ {l : List α}, (∀ a ∈ l, ∃ b, f a = .ok b ∧ R a b) → ∃ bs, l.mapM f = .ok bs ∧ List.Forall₂ R l bs
  | [], _ => ⟨[], rfl, .nil⟩
  | a :: l, h => by
    obtain ⟨b, h1, h2⟩ := h a (by simp)
    obtain ⟨bs, g1, g2⟩ := mapM_ok (l := l) (fun x hx => h x (by simp [hx]))
    refine ⟨b :: bs, ?_, .cons h2 g2⟩
    rw [List.mapM_cons, h1]
    change (do let bs ← List.mapM f l; pure (b :: bs)) = _
    rw [g1]
    rfl

/-- `c` is the smallest total cost of a fold. -/
def LeastTotal (ms : List (Method K)) (c : K) : Prop :=
  (∃ m ∈ ms, ∃ f ∈ m.folds, c = ((pairs f).map Prod.fst).sum) ∧ ∀ m ∈ ms, ∀ f ∈ m.folds, c ≤ ((pairs f).map Prod.fst).sum

theorem mem_totals {ms : List (Method K)} {x : K} : x ∈ totals ms ↔ ∃ m ∈ ms, ∃ f ∈ m.folds, x = ((pairs f).map Prod.fst).sum := by
  unfold totals
  simp only [List.mem_flatten, List.mem_map]
  constructor
  · rintro ⟨l, ⟨m, hm, rfl⟩, hx⟩
    obtain ⟨f, hf, rfl⟩ := List.mem_map.1 hx
    exact ⟨m, hm, f, hf, by simp [pairs, sums, Function.comp_def]⟩
  · rintro ⟨m, hm, f, hf, rfl⟩
    exact ⟨_, ⟨m, hm, rfl⟩, List.mem_map.2 ⟨f, hf, by simp [pairs, sums, Function.comp_def]⟩⟩

/-- **C75** (total cost): the effective cost is the smallest total cost over all folds of all methods, and "the same" is reported exactly if all total costs are equal. -/
theorem C75_total_cost {ms : List (Method K)} {same : Bool} {c : K} (h : totalCost ms = .ok (same, c)) :
    LeastTotal ms c ∧ (same = true ↔ ∀ m ∈ ms, ∀ f ∈ m.folds, ((pairs f).map Prod.fst).sum = c) := by
  unfold totalCost at h
  cases hm : minOf (totals ms) with
  | none => rw [hm] at h; simp at h
  | some d =>
    rw [hm] at h
    simp only [Except.ok.injEq, Prod.mk.injEq] at h
    obtain ⟨h1, rfl⟩ := h
    obtain ⟨g1, g2⟩ := minOf_spec hm
    refine ⟨⟨mem_totals.1 g1, fun m hm f hf => g2 _ (mem_totals.2 ⟨m, hm, f, hf, rfl⟩)⟩, ?_⟩
    rw [← h1, beq_iff_eq]
    constructor
    · intro hl m hm f hf
      obtain ⟨a, ha⟩ := List.length_eq_one_iff.1 hl
      have e1 : d = a := by
        have := List.mem_dedup.2 g1
        rw [ha] at this
        simpa using this
      have e2 := List.mem_dedup.2 (mem_totals.2 ⟨m, hm, f, hf, rfl⟩)
      rw [ha] at e2
      rw [e1]
      simpa using e2
    · intro hall
      have hd : ∀ x ∈ (totals ms).dedup, x = d := by
        intro x hx
        obtain ⟨m, hm, f, hf, rfl⟩ := mem_totals.1 (List.mem_dedup.1 hx)
        exact hall m hm f hf
      have hnd := List.nodup_dedup (totals ms)
      have hmem := List.mem_dedup.2 g1
      revert hd hnd hmem
      generalize (totals ms).dedup = l
      intro hd hnd hmem
      match l, hd, hnd, hmem with
      | [], _, _, hmem => simp at hmem
      | [a], _, _, _ => rfl
      | a :: b :: l, hd, hnd, _ =>
        have e1 := hd a (by simp)
        have e2 := hd b (by simp)
        subst e1
        subst e2
        simp at hnd

/-- **C75** (partial: see the violation below): if all queries have positive costs, then every method is drawn as follows. For every fold take the polygonal line through the
points (cumulative cost, performance), which starts with (0, start point) if one is given, or else with (0, initial point in the summary) if the results last added
were StateIO objects with one. The curve is the mean of these lines over the folds, drawn every `step` from where the last of them begins to (excluding) the smallest total
cost of all folds of all methods. In particular the fill value 0.1 outside the data never enters. -/
theorem C75_curve_partial {allState : Bool} {ms : List (Method K)} {xShift : K} {start interval : Option K} (hms : ms ≠ []) (hi : ∀ s, interval = some s → 0 < s)
    (hf : ∀ m ∈ ms, m.folds ≠ [] ∧ ∀ f ∈ m.folds, f ≠ [] ∧ ∀ q ∈ f, 0 < q.cost.sum) :
    ∃ c, LeastTotal ms c ∧ ∃ cs, plotCurves allState ms xShift start interval = .ok cs ∧
      List.Forall₂ (fun m d => d.1 = m.name ∧
        Spec.MeanCurve (m.folds.map (fun f => ((if start.isSome then start else if allState then m.ip else none).toList.map (fun p => (0, p))) ++ Spec.costPoints 0 (pairs f)))
          c (interval.getD (c / 100)) xShift d.2) ms cs := by
  have hne : totals ms ≠ [] := by
    obtain ⟨m, hm⟩ := List.exists_mem_of_ne_nil _ hms
    obtain ⟨f, hfm⟩ := List.exists_mem_of_ne_nil _ (hf m hm).1
    exact List.ne_nil_of_mem (mem_totals.2 ⟨m, hm, f, hfm, rfl⟩)
  have hmin : ∃ c, minOf (totals ms) = some c := by
    cases h : totals ms with
    | nil => exact absurd h hne
    | cons a l =>
      unfold minOf
      cases minOf l <;> exact ⟨_, rfl⟩
  obtain ⟨c, hc⟩ := hmin
  obtain ⟨g1, g2⟩ := minOf_spec hc
  have hcpos : 0 < c := by
    obtain ⟨m, hm, f, hfm, rfl⟩ := mem_totals.1 g1
    obtain ⟨h1, h2⟩ := (hf m hm).2 f hfm
    obtain ⟨p, h3, h4⟩ := costPoints_last (l := pairs f) (c := 0) (by simpa [pairs] using h1)
    have := costPoints_gt (l := pairs f) (c := 0) (by
      intro x hx
      obtain ⟨q, hq, rfl⟩ := List.mem_map.1 hx
      exact h2 q hq) p.1 (List.mem_map.2 ⟨p, List.mem_of_getLast? h3, rfl⟩)
    rw [h4, zero_add] at this
    exact this
  have hstep : 0 < interval.getD (c / 100) := by
    cases h : interval with
    | none => simp only [Option.getD_none]; positivity
    | some s => exact hi s h
  refine ⟨c, ⟨mem_totals.1 g1, fun m hm f hf => g2 _ (mem_totals.2 ⟨m, hm, f, hf, rfl⟩)⟩, ?_⟩
  unfold plotCurves totalCost
  rw [hc]
  simp only
  apply mapM_ok
  intro m hm
  obtain ⟨pts, h1, h2⟩ := drawMethod_spec (allState := allState) (xShift := xShift) (start := start) (effective := c) (m := m) hstep (hf m hm).1 (fun f hfm =>
    ⟨((hf m hm).2 f hfm).1, ((hf m hm).2 f hfm).2, by
      have := g2 _ (mem_totals.2 ⟨m, hm, f, hfm, rfl⟩)
      simpa [pairs, sums, Function.comp_def] using this⟩)
  refine ⟨_, h1, rfl, ?_⟩
  have : front allState start m.ip = (if start.isSome then start else if allState then m.ip else none) := by
    unfold front
    cases start <;> cases allState <;> simp
    cases m.ip <;> simp
  rw [← this]
  exact h2

/-- **C75** fails: the initial point of the last fold is taken for all folds. Whatever the initial points of the others are, the curve begins with the point (0, initial point
of the last fold) instead of their mean. -/
theorem C75_initial_point_violation {name : String} {fs : List (Option K × List (Query K))} {g : List (Query K)} {p : K}
    (hf : ∀ f ∈ fs ++ [(some p, g)], f.2 ≠ [] ∧ ∀ q ∈ f.2, 0 < q.cost.sum) :
    ∃ rest, plotCurves true [ofStates name (fs ++ [(some p, g)])] 0 none none = .ok [(name, (0, p) :: rest)] := by
  have hms : ∀ m ∈ [ofStates name (fs ++ [(some p, g)])], m.folds ≠ [] ∧ ∀ f ∈ m.folds, f ≠ [] ∧ ∀ q ∈ f, 0 < q.cost.sum := by
    intro m hm
    rw [List.mem_singleton] at hm
    subst hm
    refine ⟨by simp [ofStates], ?_⟩
    intro f hfm
    obtain ⟨x, hx, rfl⟩ := List.mem_map.1 hfm
    exact hf x hx
  have hip : (ofStates name (fs ++ [(some p, g)])).ip = some p := by simp [ofStates]
  obtain ⟨c, hc, cs, h1, h2⟩ := C75_curve_partial (allState := true) (xShift := 0) (start := none) (interval := none) (by simp) (by simp) hms
  have hcpos : 0 < c := by
    obtain ⟨m, hm, f, hfm, rfl⟩ := hc.1
    obtain ⟨_, h⟩ := hms m hm
    obtain ⟨g1, g2⟩ := h f hfm
    obtain ⟨r, h3, h4⟩ := costPoints_last (l := pairs f) (c := 0) (by simpa [pairs] using g1)
    have := costPoints_gt (l := pairs f) (c := 0) (by
      intro x hx
      obtain ⟨q, hq, rfl⟩ := List.mem_map.1 hx
      exact g2 q hq) r.1 (List.mem_map.2 ⟨r, List.mem_of_getLast? h3, rfl⟩)
    rw [h4, zero_add] at this
    exact this
  obtain ⟨⟨nm, pts⟩, rfl⟩ : ∃ d, cs = [d] := by
    cases h2 with
    | cons _ h => cases h; exact ⟨_, rfl⟩
  simp only [List.forall₂_cons, hip, Option.isSome_none, Bool.false_eq_true, if_false, if_true, Option.toList_some, List.map_cons, List.map_nil, List.cons_append, List.nil_append,
    Option.getD_none] at h2
  obtain ⟨⟨hnm, x0, ⟨l0, hl0, p0, hp0, hx0⟩, _, hsorted, hgrid, hval⟩, _⟩ := h2
  have hx00 : x0 = 0 := by
    obtain ⟨f, _, rfl⟩ := List.mem_map.1 hl0
    simp only [List.head?_cons, Option.some.injEq] at hp0
    rw [← hx0, ← hp0]
  subst hx00
  have hmem : (0 : K) ∈ pts.map Prod.fst := (hgrid 0).2 ⟨0, by simp, by simpa using hcpos⟩
  cases pts with
  | nil => simp at hmem
  | cons d rest =>
    have hd0 : d.1 = 0 := by
      rw [List.map_cons, List.mem_cons] at hmem
      rcases hmem with h | h
      · exact h.symm
      · have hlt := (List.pairwise_cons.1 (List.map_cons ▸ hsorted)).1 0 h
        obtain ⟨j, hj, _⟩ := (hgrid d.1).1 (by simp)
        have hc' : 0 ≤ c / 100 := by positivity
        have := mul_nonneg (Nat.cast_nonneg (α := K) j) hc'
        linarith
    obtain ⟨x, v⟩ := d
    simp only at hd0
    subst hd0
    obtain ⟨vs, hvs, hv⟩ := hval 0 v (by simp)
    rw [sub_zero] at hvs
    have hall : ∀ w ∈ vs, w = p := by
      intro w hw
      obtain ⟨i, hi, rfl⟩ := List.mem_iff_getElem.1 hw
      have hlen := hvs.length_eq
      have hi' : i < (ofStates name (fs ++ [(some p, g)])).folds.length := by
        rw [List.length_map] at hlen
        omega
      have hon := hvs.get (i := i) (by omega) hi
      simp only [List.get_eq_getElem, List.getElem_map] at hon
      have hpos : ∀ q ∈ Spec.costPoints 0 (pairs (ofStates name (fs ++ [(some p, g)])).folds[i]), (0 : K) < q.1 := by
        intro q hq
        apply costPoints_gt _ _ (List.mem_map.2 ⟨q, hq, rfl⟩)
        intro y hy
        obtain ⟨z, hz, rfl⟩ := List.mem_map.1 hy
        exact ((hms _ (by simp)).2 _ (List.getElem_mem _)).2 z hz
      generalize Spec.costPoints 0 (pairs (ofStates name (fs ++ [(some p, g)])).folds[i]) = L at hon hpos
      rcases hon with ⟨q, hq, e1, e2⟩ | ⟨l, r, a, b, e, e1, e2, e3⟩
      · rcases List.mem_cons.1 hq with rfl | hq
        · exact e2
        · exact absurd e1 (hpos q hq).ne
      · cases l with
        | nil =>
          simp only [List.nil_append, List.cons.injEq] at e
          obtain ⟨rfl, rfl⟩ := e
          have hb := hpos b (by simp)
          simp only [sub_zero, mul_zero, mul_eq_zero] at e3
          rcases e3 with e3 | e3
          · linarith
          · exact absurd e3 hb.ne'
        | cons y l =>
          simp only [List.cons_append, List.cons.injEq] at e
          have := hpos a (by rw [e.2]; simp)
          exact absurd e1 (not_le.2 this)
    have hne : (vs.length : K) ≠ 0 := by
      have hlen := hvs.length_eq
      have : 0 < vs.length := by
        rw [← hlen, List.length_map]
        exact List.length_pos_iff.2 (hms _ (by simp)).1
      exact_mod_cast this.ne'
    have hvp : v = p := by
      rw [hv, List.eq_replicate_of_mem hall]
      simp only [List.sum_replicate, List.length_replicate, nsmul_eq_mul]
      field_simp
    refine ⟨rest, ?_⟩
    rw [h1, hvp]
    rw [hnm]
    rfl

/-! Concrete cases -/

/-- Two folds with different initial points. -/
example : plotCurves (K := ℚ) true [ofStates "a" [(some 1, [⟨[1], 2⟩, ⟨[1, 1], 4⟩]), (some 3, [⟨[2], 4⟩])]] 0 none (some 1) = .ok [("a", [(0, 3), (1, 11/4)])] := by
  decide +kernel

example : ∀ f ∈ [(some 1, [⟨[1], 2⟩, ⟨[1, 1], 4⟩])] ++ [((some 3 : Option ℚ), [(⟨[2], 4⟩ : Query ℚ)])], f.2 ≠ [] ∧ ∀ q ∈ f.2, 0 < q.cost.sum := by
  simp

end Alipy.CostCurve
