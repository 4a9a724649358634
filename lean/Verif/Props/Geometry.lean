import Verif.Spec.Geometry
import Verif.Props.Batches
import Verif.Props.Kernels
import Mathlib.Analysis.SpecialFunctions.Pow.Real
/-!
# The coordinates of the features do not matter where only distances are used (C123)
-/
set_option linter.unusedSectionVars false
namespace Alipy.Geometry
open Alipy Alipy.Select Alipy.Spec Alipy.Distances Alipy.Batches Matrix

variable {α φ ψ : Type} [Fintype φ] [Fintype ψ] [DecidableEq φ]

/-! ## The distances -/

theorem inner_moved {Q : Matrix φ ψ ℝ} (hQ : Q * Qᵀ = 1) (x y : φ → ℝ) : ∑ f, (x ᵥ* Q) f * (y ᵥ* Q) f = ∑ f, x f * y f := by
  have : (x ᵥ* Q) ⬝ᵥ (y ᵥ* Q) = x ⬝ᵥ y := by
    rw [← Matrix.dotProduct_mulVec, ← Matrix.mulVec_transpose, Matrix.mulVec_mulVec, hQ, Matrix.one_mulVec]
  exact this

omit [DecidableEq φ] in
theorem sq_expand (x y : φ → ℝ) : -2 * (∑ f, x f * y f) + ∑ f, x f ^ 2 + ∑ f, y f ^ 2 = ∑ f, (x f - y f) ^ 2 := by
  rw [Finset.mul_sum, ← Finset.sum_add_distrib, ← Finset.sum_add_distrib]
  refine Finset.sum_congr rfl (fun f _ => ?_)
  ring

theorem sq_moved {Q : Matrix φ ψ ℝ} (hQ : Q * Qᵀ = 1) (k : ℝ) (t : ψ → ℝ) (x y : φ → ℝ) :
    ∑ f, ((k • (x ᵥ* Q) + t) f - (k • (y ᵥ* Q) + t) f) ^ 2 = k ^ 2 * ∑ f, (x f - y f) ^ 2 := by
  have e : ∀ f, ((k • (x ᵥ* Q) + t) f - (k • (y ᵥ* Q) + t) f) ^ 2 = k ^ 2 * (((x - y) ᵥ* Q) f * ((x - y) ᵥ* Q) f) := by
    intro f
    rw [Matrix.sub_vecMul]
    simp only [Pi.add_apply, Pi.smul_apply, Pi.sub_apply, smul_eq_mul]
    ring
  simp only [e]
  rw [← Finset.mul_sum, inner_moved hQ]
  congr 1
  refine Finset.sum_congr rfl (fun f _ => ?_)
  simp only [Pi.sub_apply]
  ring

omit [DecidableEq φ] in
theorem euclidean_eq (x y : φ → ℝ) : dist .euclidean x y = Real.sqrt (∑ f, (x f - y f) ^ 2) := by
  simp only [Distances.dist]
  rw [sq_expand, max_eq_left (Finset.sum_nonneg (fun f _ => sq_nonneg _))]

theorem normalize_moved {Q : Matrix φ ψ ℝ} (hQ : Q * Qᵀ = 1) {r : ℝ} (hr : 0 < r) (x : φ → ℝ) : normalize (r • (x ᵥ* Q)) = normalize x ᵥ* Q := by
  have e : ∑ f, (r • (x ᵥ* Q)) f ^ 2 = r ^ 2 * ∑ f, x f ^ 2 := by
    have h : ∀ f, (r • (x ᵥ* Q)) f ^ 2 = r ^ 2 * ((x ᵥ* Q) f * (x ᵥ* Q) f) := fun f => by
      simp only [Pi.smul_apply, smul_eq_mul]; ring
    simp only [h]
    rw [← Finset.mul_sum, inner_moved hQ]
    congr 1
    exact Finset.sum_congr rfl (fun f _ => (sq (x f)).symm)
  have e2 : Real.sqrt (∑ f, (r • (x ᵥ* Q)) f ^ 2) = r * Real.sqrt (∑ f, x f ^ 2) := by
    rw [e, Real.sqrt_mul (sq_nonneg r), Real.sqrt_sq hr.le]
  funext f
  simp only [Distances.normalize]
  rw [e2]
  by_cases h0 : Real.sqrt (∑ f, x f ^ 2) = 0
  · have hx : x = 0 := by
      rw [Real.sqrt_eq_zero (Finset.sum_nonneg (fun f _ => sq_nonneg _)), Finset.sum_eq_zero_iff_of_nonneg (fun f _ => sq_nonneg _)] at h0
      funext f
      exact pow_eq_zero_iff (two_ne_zero) |>.1 (h0 f (Finset.mem_univ f))
    subst hx
    simp [vecMul, dotProduct]
  · rw [if_neg (mul_ne_zero hr.ne' h0), if_neg h0]
    simp only [vecMul, dotProduct, Pi.smul_apply, smul_eq_mul]
    rw [mul_div_mul_left _ _ hr.ne', Finset.sum_div]
    exact Finset.sum_congr rfl (fun g _ => by ring)

/-- **C123.** In the other coordinates all distances are the old ones times one positive number. -/
theorem C123_distances {m : Metric} {X : α → φ → ℝ} {X' : α → ψ → ℝ} (h : SameShape m X X') : ∃ c, 0 < c ∧ ∀ a b, dist m (X' a) (X' b) = c * dist m (X a) (X b) := by
  cases m with
  | euclidean =>
    obtain ⟨k, hk, Q, t, hQ, hX⟩ := h
    refine ⟨|k|, abs_pos.2 hk, fun a b => ?_⟩
    rw [euclidean_eq, euclidean_eq, hX, hX, sq_moved hQ, Real.sqrt_mul (sq_nonneg k), Real.sqrt_sq_eq_abs]
  | cityblock =>
    obtain ⟨k, hk, σ, ε, t, hε, hX⟩ := h
    refine ⟨|k|, abs_pos.2 hk, fun a b => ?_⟩
    simp only [Distances.dist]
    rw [Finset.mul_sum, ← Equiv.sum_comp σ]
    refine Finset.sum_congr rfl (fun f _ => ?_)
    rw [hX, hX, show k * (ε f * X a (σ f)) + t f - (k * (ε f * X b (σ f)) + t f) = k * (ε f * (X a (σ f) - X b (σ f))) by ring, abs_mul, abs_mul, hε, one_mul]
  | cosine =>
    obtain ⟨Q, r, hQ, hr, hX⟩ := h
    refine ⟨1, one_pos, fun a b => ?_⟩
    simp only [Distances.dist]
    rw [one_mul, hX, hX, normalize_moved hQ (hr a), normalize_moved hQ (hr b), inner_moved hQ]

omit [DecidableEq φ] in
theorem dist_nonneg (m : Metric) (x y : φ → ℝ) : 0 ≤ dist m x y := by
  cases m with
  | euclidean => exact Real.sqrt_nonneg _
  | cityblock => exact Finset.sum_nonneg (fun f _ => abs_nonneg _)
  | cosine => exact le_min (le_max_right _ _) zero_le_two

/-! ## Coreset -/

section
variable {K K' : Type} [DecidableEq α] [Field K] [LinearOrder K] [IsStrictOrderedRing K] [Field K'] [LinearOrder K'] [IsStrictOrderedRing K']

/-- The first greatest entry depends on the order only. -/
theorem argmaxPos_congr {m : List K} {m' : List K'} (hl : m.length = m'.length)
    (h : ∀ i j (hi : i < m.length) (hj : j < m.length) (hi' : i < m'.length) (hj' : j < m'.length), m[i] ≤ m[j] ↔ m'[i] ≤ m'[j]) : argmaxPos m = argmaxPos m' := by
  by_cases hm : m = []
  · subst hm
    have : m' = [] := List.length_eq_zero_iff.1 hl.symm
    subst this
    rfl
  · have hm' : m' ≠ [] := by rintro rfl; exact hm (List.length_eq_zero_iff.1 hl)
    obtain ⟨a1, a2⟩ := argmaxPos_spec hm
    obtain ⟨b1, b2⟩ := argmaxPos_spec hm'
    have a1' : argmaxPos m < m'.length := hl ▸ a1
    have b1' : argmaxPos m' < m.length := hl ▸ b1
    apply le_antisymm
    · exact GraphDensity.argmaxPos_first a1 a2 b1' (le_antisymm (a2 _ b1') ((h _ _ a1 b1' a1' b1).2 (b2 _ a1')))
    · exact GraphDensity.argmaxPos_first b1 b2 a1' (le_antisymm (b2 _ a1') ((h _ _ b1' a1 b1 a1').1 (a2 _ b1')))

/-- The two ways to measure order all distances alike. -/
def SameOrder (D : α → α → K) (D' : α → α → K') : Prop := ∀ a b c d, D a b ≤ D c d ↔ D' a b ≤ D' c d

theorem nearest_le {D : α → α → K} {D' : α → α → K'} (h : SameOrder D D') {C C' : List α} (hC : ∀ c, c ∈ C ↔ c ∈ C') {x y : α} {v w : K} {v' w' : K'}
    (hv : IsNearest D C x v) (hw : IsNearest D C y w) (hv' : IsNearest D' C' x v') (hw' : IsNearest D' C' y w') : v ≤ w ↔ v' ≤ w' := by
  obtain ⟨⟨a, ha, rfl⟩, h1⟩ := hv
  obtain ⟨⟨b, hb, rfl⟩, h2⟩ := hw
  obtain ⟨⟨a', ha', rfl⟩, h1'⟩ := hv'
  obtain ⟨⟨b', hb', rfl⟩, h2'⟩ := hw'
  constructor
  · intro hle
    have e1 := h1' a ((hC a).1 ha)
    have e2 := (h x a y b).1 hle
    have e3 := (h y b y b').1 (h2 b' ((hC b').2 hb'))
    exact e1.trans (e2.trans e3)
  · intro hle
    have e1 := h1 a' ((hC a').2 ha')
    have e2 := (h x a' y b').2 hle
    have e3 := (h y b' y b).2 (h2' b ((hC b).1 hb))
    exact e1.trans (e2.trans e3)

theorem nearest_nonneg {D : α → α → K} (hD : ∀ x y, 0 ≤ D x y) {C : List α} {x : α} {v : K} (h : IsNearest D C x v) : 0 ≤ v := by
  obtain ⟨⟨a, _, rfl⟩, _⟩ := h
  exact hD _ _

theorem neg_hundred : (-100 : K) < 0 := by
  have : (0 : K) < 100 := by norm_num
  linarith

theorem tracks_argmax {D : α → α → K} {D' : α → α → K'} (hD : ∀ x y, 0 ≤ D x y) (hD' : ∀ x y, 0 ≤ D' x y) (h : SameOrder D D') {train C C' : List α} (hC : ∀ c, c ∈ C ↔ c ∈ C')
    {m : List K} {m' : List K'} (hm : Tracks D train C m) (hm' : Tracks D' train C' m') : argmaxPos m = argmaxPos m' := by
  apply argmaxPos_congr (by rw [hm.len, hm'.len])
  intro i j hi hj hi' hj'
  have ti : train[i]? = some (train[i]'(hm.len ▸ hi)) := List.getElem?_eq_getElem _
  have tj : train[j]? = some (train[j]'(hm.len ▸ hj)) := List.getElem?_eq_getElem _
  generalize train[i]'(hm.len ▸ hi) = x at ti
  generalize train[j]'(hm.len ▸ hj) = y at tj
  have e1 : m[i]? = some m[i] := List.getElem?_eq_getElem hi
  have e2 : m[j]? = some m[j] := List.getElem?_eq_getElem hj
  have e1' : m'[i]? = some m'[i] := List.getElem?_eq_getElem hi'
  have e2' : m'[j]? = some m'[j] := List.getElem?_eq_getElem hj'
  by_cases hx : x ∈ C
  · rw [hm.inC i _ _ ti e1 hx, hm'.inC i _ _ ti e1' ((hC x).1 hx)]
    by_cases hy : y ∈ C
    · rw [hm.inC j _ _ tj e2 hy, hm'.inC j _ _ tj e2' ((hC y).1 hy)]
      simp
    · have a := nearest_nonneg hD (hm.out j _ _ tj e2 hy)
      have b := nearest_nonneg hD' (hm'.out j _ _ tj e2' (fun c => hy ((hC y).2 c)))
      exact ⟨fun _ => neg_hundred.le.trans b, fun _ => neg_hundred.le.trans a⟩
  · have nx := hm.out i _ _ ti e1 hx
    have nx' := hm'.out i _ _ ti e1' (fun c => hx ((hC x).2 c))
    by_cases hy : y ∈ C
    · rw [hm.inC j _ _ tj e2 hy, hm'.inC j _ _ tj e2' ((hC y).1 hy)]
      have a := nearest_nonneg hD nx
      have b := nearest_nonneg hD' nx'
      exact ⟨fun c => absurd (a.trans c) (not_le.2 neg_hundred), fun c => absurd (b.trans c) (not_le.2 neg_hundred)⟩
    · exact nearest_le h hC nx (hm.out j _ _ tj e2 hy) nx' (hm'.out j _ _ tj e2' (fun c => hy ((hC y).2 c)))

theorem loops_agree {D : α → α → K} {D' : α → α → K'} (hD : ∀ x y, 0 ≤ D x y) (hD' : ∀ x y, 0 ≤ D' x y) (hO : SameOrder D D') {train l₁ u₁ l₂ u₂ : List α} :
    ∀ (n : Nat) {b₁ b₂ : List α} {o₁ : Core K} {o₂ : Core K'} {m₁ : List K} {m₂ : List K'},
    Sets D train l₁ u₁ b₁ o₁ m₁ → Sets D' train l₂ u₂ b₂ o₂ m₂ → (∀ x, x ∈ l₁ ++ b₁ ↔ x ∈ l₂ ++ b₂) → b₁.length + n ≤ u₁.length → b₂.length + n ≤ u₂.length →
    ∃ S o₁' o₂', Core.loop D train u₁ n o₁ b₁ = (o₁', .ok (b₁ ++ S)) ∧ Core.loop D' train u₂ n o₂ b₂ = (o₂', .ok (b₂ ++ S))
  | 0, b₁, b₂, o₁, o₂, m₁, m₂, _, _, _, _, _ => ⟨[], o₁, o₂, by simp [Core.loop], by simp [Core.loop]⟩
  | n + 1, b₁, b₂, o₁, o₂, m₁, m₂, s₁, s₂, hs, h₁, h₂ => by
    obtain ⟨o₁', m₁', S₁, e1, e2, e3, e4, e5, e6, e7, -⟩ := loop_ok hD s₁.tn s₁.un s₁.ut s₁.cov s₁.disj s₁.ne 1 o₁ m₁ b₁ s₁.mem s₁.tracks s₁.already s₁.bu s₁.bn (by omega)
    obtain ⟨o₂', m₂', S₂, f1, f2, f3, f4, f5, f6, f7, -⟩ := loop_ok hD' s₂.tn s₂.un s₂.ut s₂.cov s₂.disj s₂.ne 1 o₂ m₂ b₂ s₂.mem s₂.tracks s₂.already s₂.bu s₂.bn (by omega)
    obtain ⟨x, hx, rfl⟩ := loop_one D train u₁ s₁.mem e1
    obtain ⟨y, hy, rfl⟩ := loop_one D' train u₂ s₂.mem f1
    rw [tracks_argmax hD hD' hO hs s₁.tracks s₂.tracks] at hx
    obtain rfl : x = y := Option.some.inj (hx.symm.trans hy)
    have t₁ : Sets D train l₁ u₁ (b₁ ++ [x]) o₁' m₁' := ⟨s₁.tn, s₁.un, s₁.ut, s₁.cov, s₁.disj, s₁.ne, e2, e3, by rw [e4]; exact s₁.already, by
      intro z hz
      rcases List.mem_append.1 hz with h | h
      · exact s₁.bu z h
      · exact e6 z h, e5⟩
    have t₂ : Sets D' train l₂ u₂ (b₂ ++ [x]) o₂' m₂' := ⟨s₂.tn, s₂.un, s₂.ut, s₂.cov, s₂.disj, s₂.ne, f2, f3, by rw [f4]; exact s₂.already, by
      intro z hz
      rcases List.mem_append.1 hz with h | h
      · exact s₂.bu z h
      · exact f6 z h, f5⟩
    obtain ⟨S, o₁'', o₂'', g1, g2⟩ := loops_agree hD hD' hO n t₁ t₂ (by
      intro z
      have := hs z
      simp only [List.mem_append, List.mem_singleton] at this ⊢
      rw [← or_assoc, ← or_assoc, this]) (by simp; omega) (by simp; omega)
    refine ⟨x :: S, o₁'', o₂'', ?_, ?_⟩
    · rw [Nat.add_comm n 1, loop_add D train u₁ n 1 _ _ _ _ e1, g1]
      simp
    · rw [Nat.add_comm n 1, loop_add D' train u₂ n 1 _ _ _ _ f1, g2]
      simp

/-- **C123.** Coreset: what is selected depends only on which distances are greater than which — whatever the objects have been used for before. -/
theorem C123_coreset_order {D : α → α → K} {D' : α → α → K'} (hD : ∀ x y, 0 ≤ D x y) (hD' : ∀ x y, 0 ≤ D' x y) (hO : SameOrder D D') {train l u : List α} {o : Core K} {o' : Core K'}
    {C C' : List α} (h : CoreHist D train o C) (h' : CoreHist D' train o' C') (hC : ∀ c ∈ C, c ∈ l) (hC' : ∀ c ∈ C', c ∈ l) {n : Nat} (hs : Situation train l u n) {cmp : α → Bool}
    (hc : ∀ x ∈ l, cmp x = true) : ∃ r, (Core.select D cmp train o l u n).2 = .ok r ∧ (Core.select D' cmp train o' l u n).2 = .ok r := by
  obtain ⟨p₁, m₁, e₁, t₁⟩ := select_sets hD hs hc (hist_remembers hD h) hC
  obtain ⟨p₂, m₂, e₂, t₂⟩ := select_sets hD' hs hc (hist_remembers hD' h') hC'
  obtain ⟨S, o₁', o₂', g1, g2⟩ := loops_agree hD hD' hO n t₁ t₂ (fun _ => Iff.rfl) (by simpa using hs.enough) (by simpa using hs.enough)
  exact ⟨S, by rw [e₁, g1]; simp, by rw [e₂, g2]; simp⟩

end

/-- **C123.** Coreset: the same examples in other coordinates. -/
theorem C123_coreset [DecidableEq α] {m : Metric} {X : α → φ → ℝ} {X' : α → ψ → ℝ} (h : SameShape m X X') {train l u : List α} {o o' : Core ℝ} {C C' : List α}
    (ho : CoreHist (fun a b => dist m (X a) (X b)) train o C) (ho' : CoreHist (fun a b => dist m (X' a) (X' b)) train o' C') (hC : ∀ c ∈ C, c ∈ l) (hC' : ∀ c ∈ C', c ∈ l)
    {n : Nat} (hs : Situation train l u n) {cmp : α → Bool} (hc : ∀ x ∈ l, cmp x = true) :
    ∃ r, (Core.select (fun a b => dist m (X a) (X b)) cmp train o l u n).2 = .ok r ∧ (Core.select (fun a b => dist m (X' a) (X' b)) cmp train o' l u n).2 = .ok r := by
  obtain ⟨c, h0, hd⟩ := C123_distances h
  refine C123_coreset_order (fun _ _ => dist_nonneg m _ _) (fun _ _ => dist_nonneg m _ _) (fun a b c' d => ?_) ho ho' hC hC' hs hc
  simp only [hd]
  rw [mul_le_mul_iff_right₀ h0]

/-! ## Density weighting -/

theorem map_mapIdx {β γ δ : Type} (g : γ → δ) (f : Nat → β → γ) (l : List β) : (l.mapIdx f).map g = l.mapIdx (fun i b => g (f i b)) := by
  apply List.ext_getElem <;> simp

theorem densityDiv_scale {c : ℝ} (h0 : 0 < c) (beta : ℝ) {dis dis' : List (List ℝ)} (hl : dis'.length = dis.length)
    (h : ∀ j, (dis'.map (fun r => r.getD j 0)).sum = c * (dis.map (fun r => r.getD j 0)).sum) (hn : ∀ j, 0 ≤ (dis.map (fun r => r.getD j 0)).sum) :
    densityDiv (fun x => x ^ beta) dis' = (densityDiv (fun x => x ^ beta) dis).map (fun v => c ^ beta * v) := by
  unfold densityDiv
  rw [hl, List.map_map]
  refine List.map_congr_left (fun j _ => ?_)
  simp only [Function.comp_apply]
  rw [h j, mul_div_assoc, Real.mul_rpow h0.le (div_nonneg (hn j) (Nat.cast_nonneg _))]

/-- **C123.** Density weighting with `x ** beta`: the same examples in other coordinates. -/
theorem C123_density_weighted [DecidableEq α] {argsort : List ℝ → List Nat} (ha : OrderBased argsort) {m : Metric} {X : α → φ → ℝ} {X' : α → ψ → ℝ} (h : SameShape m X X') (log : ℝ → ℝ) (beta : ℝ)
    (measure : Measure) (u : Coll α) (c : Nat) (rows : List (List ℝ)) (batch : Int) :
    densitySelect log (fun x => x ^ beta) argsort measure u c rows (Distances.matrix m X' u.items) batch =
      densitySelect log (fun x => x ^ beta) argsort measure u c rows (Distances.matrix m X u.items) batch := by
  obtain ⟨k, h0, hd⟩ := C123_distances h
  have hent : ∀ (Y : α → φ → ℝ) (i j : Nat) a b, 0 ≤ (if i = j then 0 else dist m (Y a) (Y b)) := by
    intro Y i j a b
    split
    · exact le_refl _
    · exact dist_nonneg m _ _
  have hcol : ∀ {θ : Type} [Fintype θ] (Y : α → θ → ℝ) (j : Nat), (Distances.matrix m Y u.items).map (fun r => r.getD j 0) =
      u.items.mapIdx (fun i a => (u.items.mapIdx (fun j b => if i = j then 0 else dist m (Y a) (Y b))).getD j 0) := by
    intro θ _ Y j
    unfold Distances.matrix
    rw [map_mapIdx]
  have hscale : ∀ i j a, (u.items.mapIdx (fun j b => if i = j then 0 else dist m (X' a) (X' b))).getD j 0 =
      k * (u.items.mapIdx (fun j b => if i = j then 0 else dist m (X a) (X b))).getD j 0 := by
    intro i j a
    by_cases hj : j < u.items.length
    · rw [List.getD_eq_getElem _ _ (by simpa using hj), List.getD_eq_getElem _ _ (by simpa using hj), List.getElem_mapIdx, List.getElem_mapIdx, hd]
      split <;> simp
    · rw [List.getD_eq_default _ _ (by simpa using hj), List.getD_eq_default _ _ (by simpa using hj), mul_zero]
  have hsum : ∀ j, ((Distances.matrix m X' u.items).map (fun r => r.getD j 0)).sum = k * ((Distances.matrix m X u.items).map (fun r => r.getD j 0)).sum := by
    intro j
    rw [hcol X', hcol X]
    simp only [hscale]
    generalize u.items = l
    rw [show (fun (i : Nat) (a : α) => k * (l.mapIdx (fun j b => if i = j then 0 else dist m (X a) (X b))).getD j 0) =
      (fun i a => (fun v => k * v) ((fun i a => (l.mapIdx (fun j b => if i = j then 0 else dist m (X a) (X b))).getD j 0) i a)) from rfl, ← map_mapIdx]
    rw [List.sum_map_mul_left]
    simp
  have hnn : ∀ j, 0 ≤ ((Distances.matrix m X u.items).map (fun r => r.getD j 0)).sum := by
    intro j
    refine List.sum_nonneg (fun v hv => ?_)
    rw [hcol X] at hv
    obtain ⟨i, hi, rfl⟩ := List.mem_mapIdx.1 hv
    by_cases hj : j < u.items.length
    · rw [List.getD_eq_getElem _ _ (by simpa using hj), List.getElem_mapIdx]
      exact hent X _ _ _ _
    · rw [List.getD_eq_default _ _ (by simpa using hj)]
  unfold densitySelect
  rw [densityDiv_scale h0 beta (by simp [Distances.matrix]) hsum hnn]
  generalize densityDiv (fun x => x ^ beta) (Distances.matrix m X u.items) = div
  generalize rows.map (densityPat log measure c) = pat
  have hc : (0 : ℝ) < k ^ beta := Real.rpow_pos_of_pos h0 beta
  have hz : List.zipWith (fun x y => x * y) pat (div.map (fun v => k ^ beta * v)) = (List.zipWith (fun x y => x * y) pat div).map (fun v => k ^ beta * v) := by
    rw [List.zipWith_map_right, List.map_zipWith]
    congr 1
    funext x y
    ring
  unfold densityWeighted
  rw [hz, List.length_map, ha ((List.zipWith (fun x y => x * y) pat div).map (fun v => k ^ beta * v)) (List.zipWith (fun x y => x * y) pat div) (by simp) (by
    intro i j hi hj hi' hj'
    rw [List.getElem_map, List.getElem_map, mul_le_mul_iff_right₀ hc])]

/-! ## Kernels -/

section
variable {n : ℕ}

open Kernels in
/-- **C123.** Kernels: rotating, reflecting and shifting the examples leaves the matrix of the RBF kernel as it is; multiplying them by `k` is the same as multiplying gamma by `k²`. -/
theorem C123_rbf {X : Matrix (Fin n) φ ℝ} {X' : Matrix (Fin n) ψ ℝ} {k : ℝ} (h : Moved k X X') (p p' : Par) (hp : p.gamma.getD 1 = k ^ 2 * p'.gamma.getD 1) :
    kernel .rbf p' X' = kernel .rbf p X := by
  obtain ⟨Q, t, hQ, hX⟩ := h
  obtain ⟨⟨K, e1, e2⟩, -⟩ := C118_kernels p X
  obtain ⟨⟨K', e1', e2'⟩, -⟩ := C118_kernels p' X'
  rw [e1, e1']
  congr 1
  ext i j
  rw [e2, e2']
  unfold rbfKernel sqDist
  have := sq_moved hQ k t (X i) (X j)
  rw [← hX i, ← hX j] at this
  rw [this, hp]
  congr 2
  ring

open Kernels in
/-- **C123.** Kernels: rotating and reflecting leaves the matrices of all three kernels as they are. -/
theorem C123_kernels {X : Matrix (Fin n) φ ℝ} {X' : Matrix (Fin n) ψ ℝ} {Q : Matrix φ ψ ℝ} (hQ : Q * Qᵀ = 1) (hX : X' = X * Q) (k : Arg) (p : Par) :
    kernel k p X' = kernel k p X := by
  have hm : Moved 1 X X' := ⟨Q, 0, hQ, fun a => by
    rw [hX, one_smul, add_zero]
    rfl⟩
  have hg : ∀ i j, ∑ f, X' i f * X' j f = ∑ f, X i f * X j f := by
    intro i j
    rw [hX]
    exact inner_moved hQ (X i) (X j)
  obtain ⟨-, ⟨K, e1, e2⟩, ⟨L, f1, f2⟩⟩ := C118_kernels p X
  obtain ⟨-, ⟨K', e1', e2'⟩, ⟨L', f1', f2'⟩⟩ := C118_kernels p X'
  cases k with
  | rbf => exact C123_rbf hm p p (by ring)
  | poly =>
    rw [e1, e1']
    congr 1
    ext i j
    rw [e2, e2', polyKernel, polyKernel, hg]
  | linear =>
    rw [f1, f1']
    congr 1
    ext i j
    rw [f2, f2', linearKernel, linearKernel, hg]
  | callable r => rfl
  | other => rfl

open Kernels in
/-- **C123.** So QUIRE and multi-label QUIRE start with the same matrices, and BMDR and SPAL with the same model. -/
theorem C123_quire {X : Matrix (Fin n) φ ℝ} {X' : Matrix (Fin n) ψ ℝ} (k : Arg) (p : Par) (lam : Option ℝ) (pinv : Matrix (Fin n) (Fin n) ℝ → Matrix (Fin n) (Fin n) ℝ)
    (h : (∃ Q : Matrix φ ψ ℝ, Q * Qᵀ = 1 ∧ X' = X * Q) ∨ k = .rbf ∧ Moved 1 X X') :
    quireInit k p lam X' = quireInit k p lam X ∧ mlQuireInit pinv k p lam X' = mlQuireInit pinv k p lam X := by
  have e : kernel k p X' = kernel k p X := by
    rcases h with ⟨Q, hQ, hX⟩ | ⟨rfl, hm⟩
    · exact C123_kernels hQ hX k p
    · exact C123_rbf hm p p (by ring)
  unfold quireInit mlQuireInit
  rw [e]
  exact ⟨rfl, rfl⟩

end

/-! ## Concrete cases -/

/-- Three examples with two features, rotated by a right angle, doubled and shifted. -/
example : Moved 2 (![![0, 0], ![1, 0], ![3, 1]] : Fin 3 → Fin 2 → ℝ) ![![5, 6], ![5, 8], ![3, 12]] := by
  refine ⟨!![0, 1; -1, 0], ![5, 6], ?_, fun a => ?_⟩
  · ext i j
    fin_cases i <;> fin_cases j <;> simp [Matrix.mul_apply]
  · fin_cases a <;> (ext f; fin_cases f <;> simp [vecMul, dotProduct] <;> norm_num)

/-- The features in another order, in the opposite direction, tripled: the distance of 0 and 4 is 12. -/
example : Relisted 3 (![![0, 0], ![1, 3]] : Fin 2 → Fin 2 → ℝ) ![![0, 0], ![-9, 3]] := by
  refine ⟨Equiv.swap 0 1, ![-1, 1], 0, fun f => ?_, fun a f => ?_⟩
  · fin_cases f <;> simp
  · fin_cases a <;> fin_cases f <;> simp <;> norm_num
example : Distances.dist .cityblock (![0, 0] : Fin 2 → ℝ) ![-9, 3] = 12 := by
  simp [Distances.dist, Fin.sum_univ_two]; norm_num

theorem insert_congr {r r' : Nat → Nat → Prop} [DecidableRel r] [DecidableRel r'] {a : Nat} : ∀ {l : List Nat}, (∀ b ∈ l, r a b ↔ r' a b) → l.orderedInsert r a = l.orderedInsert r' a
  | [], _ => rfl
  | b :: l, h => by
    have hb := h b List.mem_cons_self
    have ih := insert_congr (l := l) (fun c hc => h c (List.mem_cons_of_mem _ hc))
    simp only [List.orderedInsert_cons, hb, ih]

/-- Sorting the positions by their entries depends on the order only. -/
theorem insertionSort_orderBased : OrderBased (fun l => (List.range l.length).insertionSort (fun i j => l.getD i 0 ≤ l.getD j 0)) := by
  intro l l' hl h
  simp only
  rw [← hl]
  have hr : ∀ i j, i < l.length → j < l.length → (l.getD i 0 ≤ l.getD j 0 ↔ l'.getD i 0 ≤ l'.getD j 0) := by
    intro i j hi hj
    have hi' : i < l'.length := hl ▸ hi
    have hj' : j < l'.length := hl ▸ hj
    rw [List.getD_eq_getElem _ _ hi, List.getD_eq_getElem _ _ hj, List.getD_eq_getElem _ _ hi', List.getD_eq_getElem _ _ hj']
    exact h i j hi hj hi' hj'
  have key : ∀ p : List Nat, (∀ i ∈ p, i < l.length) → p.insertionSort (fun i j => l.getD i 0 ≤ l.getD j 0) = p.insertionSort (fun i j => l'.getD i 0 ≤ l'.getD j 0) := by
    intro p
    induction p with
    | nil => intro _; rfl
    | cons a p ih =>
      intro hp
      have h1 := ih (fun i hi => hp i (List.mem_cons_of_mem _ hi))
      simp only [List.insertionSort_cons]
      rw [h1]
      refine insert_congr (fun b hb => ?_)
      have hb' : b ∈ p := (List.mem_insertionSort _).1 hb
      exact hr a b (hp a List.mem_cons_self) (hp b (List.mem_cons_of_mem _ hb'))
  exact key _ (fun i hi => List.mem_range.1 hi)

/-- Hypotheses of `C123_coreset`: two labelled examples, an object that is used for the first time. -/
example : Situation [0, 1, 2] [(0 : Fin 3)] [1, 2] 1 := ⟨by decide, by decide, by decide, by decide, by decide, by decide, by decide, by decide⟩

end Alipy.Geometry
