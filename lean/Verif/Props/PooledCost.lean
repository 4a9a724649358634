import Verif.Props.Pooled
import Verif.Props.CostCurve

/-! # C160, over costs: the results of several experiments can be pooled -/
set_option linter.unusedSectionVars false
namespace Alipy.PooledCost
open Alipy Alipy.CostCurve
variable {K : Type} [Field K] [LinearOrder K] [IsStrictOrderedRing K] [FloorRing K]

theorem on_ge {a : K × K} {l : List (K × K)} (hs : ((a :: l).map Prod.fst).Pairwise (· < ·)) {t v : K} (h : Spec.OnPolyline (a :: l) t v) : a.1 ≤ t := by
  have key : ∀ p ∈ a :: l, a.1 ≤ p.1 := by
    intro p hp
    rcases List.mem_cons.1 hp with rfl | hp
    · exact le_rfl
    · exact ((List.pairwise_cons.1 hs).1 p.1 (List.mem_map_of_mem hp)).le
  rcases h with ⟨p, hp, rfl, -⟩ | ⟨l', r, x, y, e, h1, -, -⟩
  · exact key p hp
  · exact (key x (by rw [e]; simp)).trans h1

theorem on_cons {a b : K × K} {l : List (K × K)} {t v : K} (h : Spec.OnPolyline (a :: b :: l) t v) :
    (t = a.1 ∧ v = a.2) ∨ (a.1 ≤ t ∧ t ≤ b.1 ∧ (v - a.2) * (b.1 - a.1) = (b.2 - a.2) * (t - a.1)) ∨ Spec.OnPolyline (b :: l) t v := by
  rcases h with ⟨p, hp, h1, h2⟩ | ⟨l', r, x, y, e, h⟩
  · rcases List.mem_cons.1 hp with rfl | hp
    · exact .inl ⟨h1, h2⟩
    · exact .inr (.inr (.inl ⟨p, hp, h1, h2⟩))
  · cases l' with
    | nil =>
      simp only [List.nil_append, List.cons.injEq] at e
      obtain ⟨rfl, rfl, -⟩ := e
      exact .inr (.inl h)
    | cons z l' =>
      simp only [List.cons_append, List.cons.injEq] at e
      exact .inr (.inr (.inr ⟨l', r, x, y, e.2, h⟩))

/-- A polygonal line that runs to the right has one height at every place. -/
theorem on_unique : ∀ {l : List (K × K)} {t v w : K}, (l.map Prod.fst).Pairwise (· < ·) → Spec.OnPolyline l t v → Spec.OnPolyline l t w → v = w
  | [], t, v, w, _, h, _ => by
    rcases h with ⟨p, hp, -⟩ | ⟨l, r, x, y, e, -⟩
    · cases hp
    · simp at e
  | [a], t, v, w, _, h, h' => by
    have key : ∀ {v : K}, Spec.OnPolyline [a] t v → v = a.2 := by
      rintro v (⟨p, hp, -, rfl⟩ | ⟨l, r, x, y, e, -⟩)
      · rw [List.mem_singleton.1 hp]
      · have := congrArg List.length e
        simp at this
        omega
    rw [key h, key h']
  | a :: b :: l, t, v, w, hs, h, h' => by
    have hs' : ((b :: l).map Prod.fst).Pairwise (· < ·) := (List.pairwise_cons.1 hs).2
    have hab : a.1 < b.1 := (List.pairwise_cons.1 hs).1 b.1 (by simp)
    have hne : b.1 - a.1 ≠ 0 := (sub_pos.2 hab).ne'
    have hb : Spec.OnPolyline (b :: l) b.1 b.2 := .inl ⟨b, by simp, rfl, rfl⟩
    have atA : ∀ {v : K}, (v - a.2) * (b.1 - a.1) = (b.2 - a.2) * (a.1 - a.1) → v = a.2 := by
      intro v e
      rw [sub_self, mul_zero] at e
      exact sub_eq_zero.1 ((mul_eq_zero.1 e).resolve_right hne)
    have atB : ∀ {v : K}, (v - a.2) * (b.1 - a.1) = (b.2 - a.2) * (b.1 - a.1) → v = b.2 := by
      intro v e
      exact sub_left_inj.1 (mul_right_cancel₀ hne e)
    rcases on_cons h with ⟨rfl, rfl⟩ | ⟨g1, g2, e⟩ | g
    · rcases on_cons h' with ⟨-, rfl⟩ | ⟨-, -, e'⟩ | g'
      · rfl
      · exact (atA e').symm
      · exact absurd (on_ge hs' g') (not_le.2 hab)
    · rcases on_cons h' with ⟨rfl, rfl⟩ | ⟨-, -, e'⟩ | g'
      · exact atA e
      · exact sub_left_inj.1 (mul_right_cancel₀ hne (e.trans e'.symm))
      · obtain rfl : t = b.1 := le_antisymm g2 (on_ge hs' g')
        rw [atB e]
        exact on_unique hs' hb g'
    · rcases on_cons h' with ⟨rfl, rfl⟩ | ⟨-, g2, e'⟩ | g'
      · exact absurd (on_ge hs' g) (not_le.2 hab)
      · obtain rfl : t = b.1 := le_antisymm g2 (on_ge hs' g)
        rw [atB e']
        exact on_unique hs' g hb
      · exact on_unique hs' g g'

theorem heights_unique {ls : List (List (K × K))} (hs : ∀ l ∈ ls, (l.map Prod.fst).Pairwise (· < ·)) {t : K} {vs ws : List K}
    (h : List.Forall₂ (fun p w => Spec.OnPolyline p t w) ls vs) (h' : List.Forall₂ (fun p w => Spec.OnPolyline p t w) ls ws) : vs = ws := by
  induction h generalizing ws with
  | nil => cases h'; rfl
  | cons e _ ih =>
    cases h' with
    | cons e' h' =>
      rw [on_unique (hs _ (by simp)) e e', ih (fun l hl => hs l (by simp [hl])) h']

theorem height_append {F G : List (List (K × K))} (hF : F ≠ []) (hG : G ≠ []) (hs : ∀ l ∈ F ++ G, (l.map Prod.fst).Pairwise (· < ·)) {t v v₁ v₂ : K}
    (h : Spec.MeanHeight (F ++ G) t v) (h₁ : Spec.MeanHeight F t v₁) (h₂ : Spec.MeanHeight G t v₂) : v = Spec.pooledMean F.length v₁ G.length v₂ := by
  obtain ⟨a, ha, rfl⟩ := h₁
  obtain ⟨b, hb, rfl⟩ := h₂
  obtain ⟨c, hc, rfl⟩ := h
  obtain rfl : c = a ++ b := heights_unique hs hc (List.rel_append ha hb)
  have la := ha.length_eq
  have lb := hb.length_eq
  have hane : a ≠ [] := by rintro rfl; exact hF (List.length_eq_zero_iff.1 la)
  have hbne : b ≠ [] := by rintro rfl; exact hG (List.length_eq_zero_iff.1 lb)
  have := Pooled.mean_append hane hbne
  rw [← la, ← lb] at this
  simpa only [Analyser.mean] using this

/-- **C160** over costs: wherever all three curves have a point, that of all folds is the mean of the other two, weighted with the numbers of folds; if the curves start with a given
point, or with initial points that agree, they have their points at the same places. -/
theorem C160_costs {allState : Bool} {m₁ m₂ m : Method K} {xShift : K} {start interval : Option K} (hi : ∀ s, interval = some s → 0 < s)
    (h₁ : m₁.folds ≠ [] ∧ ∀ f ∈ m₁.folds, f ≠ [] ∧ ∀ q ∈ f, 0 < q.cost.sum) (h₂ : m₂.folds ≠ [] ∧ ∀ f ∈ m₂.folds, f ≠ [] ∧ ∀ q ∈ f, 0 < q.cost.sum)
    (hm : m.folds = m₁.folds ++ m₂.folds) (hip : start = none → allState = true → m₁.ip = m.ip ∧ m₂.ip = m.ip) :
    ∃ c₁ c₂ c, plotCurves allState [m₁, m₂, m] xShift start interval = .ok [(m₁.name, c₁), (m₂.name, c₂), (m.name, c)] ∧
      (∀ x v v₁ v₂, (x, v) ∈ c → (x, v₁) ∈ c₁ → (x, v₂) ∈ c₂ → v = Spec.pooledMean m₁.folds.length v₁ m₂.folds.length v₂) ∧
      (start.isSome = true ∨ allState = true ∧ m.ip.isSome = true → Spec.PooledCurve m₁.folds.length m₂.folds.length c₁ c₂ c) := by
  have hpos : ∀ f ∈ m.folds, f ≠ [] ∧ ∀ q ∈ f, 0 < q.cost.sum := by
    intro f hf
    rw [hm] at hf
    exact (List.mem_append.1 hf).elim (h₁.2 f) (h₂.2 f)
  obtain ⟨d, -, cs, hcs, hF⟩ := C75_curve_partial (allState := allState) (ms := [m₁, m₂, m]) (xShift := xShift) (start := start) (by simp) hi (by
    intro n hn
    simp only [List.mem_cons, List.not_mem_nil, or_false] at hn
    rcases hn with rfl | rfl | rfl
    exacts [h₁, h₂, ⟨by rw [hm]; simp [h₁.1], hpos⟩])
  cases hF with
  | @cons _ d₁ _ _ p₁ hF =>
  cases hF with
  | @cons _ d₂ _ _ p₂ hF =>
  cases hF with
  | @cons _ d₃ _ _ p₃ hF =>
  cases hF
  obtain ⟨n₁, c₁⟩ := d₁
  obtain ⟨n₂, c₂⟩ := d₂
  obtain ⟨n₃, c⟩ := d₃
  obtain ⟨e₁, p₁⟩ := p₁
  obtain ⟨e₂, p₂⟩ := p₂
  obtain ⟨e₃, p₃⟩ := p₃
  simp only at e₁ e₂ e₃ p₁ p₂ p₃
  subst e₁ e₂ e₃
  have f₁ : (if start.isSome then start else if allState then m₁.ip else none) = (if start.isSome then start else if allState then m.ip else none) := by
    cases start with
    | some p => rfl
    | none => cases allState with
      | false => rfl
      | true => simp [(hip rfl rfl).1]
  have f₂ : (if start.isSome then start else if allState then m₂.ip else none) = (if start.isSome then start else if allState then m.ip else none) := by
    cases start with
    | some p => rfl
    | none => cases allState with
      | false => rfl
      | true => simp [(hip rfl rfl).2]
  rw [f₁] at p₁
  rw [f₂] at p₂
  have hfr : start.isSome = true ∨ allState = true ∧ m.ip.isSome = true → ∃ p, (if start.isSome then start else if allState then m.ip else none) = some p := by
    rintro (h | ⟨rfl, h⟩)
    · rw [if_pos h]; exact Option.isSome_iff_exists.1 h
    · cases start with
      | some p => exact ⟨p, rfl⟩
      | none => simpa using Option.isSome_iff_exists.1 h
  generalize (if start.isSome then start else if allState then m.ip else none) = fr at p₁ p₂ p₃ hfr
  rw [hm, List.map_append] at p₃
  set g : List (Query K) → List (K × K) := fun f => fr.toList.map (fun p => ((0 : K), p)) ++ Spec.costPoints 0 (pairs f) with hg
  have sorted : ∀ l ∈ m₁.folds.map g ++ m₂.folds.map g, (l.map Prod.fst).Pairwise (· < ·) := by
    intro l hl
    rw [← List.map_append, ← hm] at hl
    obtain ⟨f, hf, rfl⟩ := List.mem_map.1 hl
    have hq : ∀ x ∈ pairs f, 0 < x.1 := by
      intro x hx
      obtain ⟨q, hq, rfl⟩ := List.mem_map.1 hx
      exact (hpos f hf).2 q hq
    cases fr with
    | none => simpa [hg] using costPoints_sorted (c := 0) hq
    | some p =>
      simp only [hg, Option.toList_some, List.map_cons, List.map_nil, List.cons_append, List.nil_append]
      exact List.pairwise_cons.2 ⟨costPoints_gt (c := 0) hq, costPoints_sorted (c := 0) hq⟩
  have values : ∀ x v v₁ v₂, (x, v) ∈ c → (x, v₁) ∈ c₁ → (x, v₂) ∈ c₂ → v = Spec.pooledMean m₁.folds.length v₁ m₂.folds.length v₂ := by
    intro x v v₁ v₂ hv hv₁ hv₂
    obtain ⟨-, -, -, -, -, q₁⟩ := p₁
    obtain ⟨-, -, -, -, -, q₂⟩ := p₂
    obtain ⟨-, -, -, -, -, q₃⟩ := p₃
    have := height_append (F := m₁.folds.map g) (G := m₂.folds.map g) (by simpa using h₁.1) (by simpa using h₂.1) sorted (q₃ x v hv) (q₁ x v₁ hv₁) (q₂ x v₂ hv₂)
    simpa only [List.length_map] using this
  refine ⟨c₁, c₂, c, hcs, values, fun h => ⟨?_, values⟩⟩
  obtain ⟨p, rfl⟩ := hfr h
  have zero : ∀ {fs : List (List (Query K))} {x0 : K}, (∃ l ∈ fs.map g, ∃ p, l.head? = some p ∧ p.1 = x0) → x0 = 0 := by
    rintro fs x0 ⟨l, hl, p', e, rfl⟩
    obtain ⟨f, -, rfl⟩ := List.mem_map.1 hl
    simp only [hg, Option.toList_some, List.map_cons, List.map_nil, List.cons_append, List.nil_append, List.head?_cons, Option.some.injEq] at e
    rw [← e]
  obtain ⟨x₁, z₁, -, -, q₁, -⟩ := p₁
  obtain ⟨x₂, z₂, -, -, q₂, -⟩ := p₂
  obtain ⟨x₃, z₃, -, -, q₃, -⟩ := p₃
  rw [← List.map_append] at z₃
  obtain rfl := zero z₁
  obtain rfl := zero z₂
  obtain rfl := zero z₃
  intro x
  rw [q₁, q₂, q₃]
  exact ⟨Iff.rfl, Iff.rfl⟩

/-- Two folds of one experiment and one of another, with initial points. -/
example : ∃ c₁ c₂ c, plotCurves (K := ℚ) true
    [⟨"one", [[⟨[1], 3⟩, ⟨[2], 5⟩], [⟨[2], 4⟩]], some 1⟩, ⟨"two", [[⟨[3], 6⟩]], some 1⟩, ⟨"all", [[⟨[1], 3⟩, ⟨[2], 5⟩], [⟨[2], 4⟩], [⟨[3], 6⟩]], some 1⟩] 0 none none =
      .ok [("one", c₁), ("two", c₂), ("all", c)] ∧ Spec.PooledCurve 2 1 c₁ c₂ c := by
  obtain ⟨c₁, c₂, c, h, -, h'⟩ := C160_costs (K := ℚ) (allState := true) (m₁ := ⟨"one", [[⟨[1], 3⟩, ⟨[2], 5⟩], [⟨[2], 4⟩]], some 1⟩) (m₂ := ⟨"two", [[⟨[3], 6⟩]], some 1⟩)
    (m := ⟨"all", [[⟨[1], 3⟩, ⟨[2], 5⟩], [⟨[2], 4⟩], [⟨[3], 6⟩]], some 1⟩) (xShift := 0) (start := none) (interval := none) (by simp) (by simp) (by simp) rfl (fun _ _ => ⟨rfl, rfl⟩)
  exact ⟨c₁, c₂, c, h, h' (.inr ⟨rfl, rfl⟩)⟩

end Alipy.PooledCost
