import Verif.Props.MLQuire

/-! # C141: multi-label QUIRE and the order of labels and examples

`τ` gives every example its new number and `σ` every label. -/
namespace Alipy.MLQuire
open Matrix

variable {n C a b : Nat}

/-! ## Listings -/

/-- Two listings without repetitions of the same things (under new names) differ by a permutation of the places. -/
theorem places {α : Type} {m : Nat} {f : α → α} (hf : Function.Injective f) {s s' : Fin m → α} (hs : Function.Injective s) (hs' : Function.Injective s')
    (h : ∀ p, (∃ i, s i = p) → ∃ i, s' i = f p) : ∃ π : Equiv.Perm (Fin m), ∀ i, s' i = f (s (π i)) := by
  choose g hg using fun i => h (s i) ⟨i, rfl⟩
  have hgi : Function.Injective g := fun i j e => hs (hf (by rw [← hg i, ← hg j, e]))
  refine ⟨(Equiv.ofBijective g (Finite.injective_iff_bijective.1 hgi)).symm, fun i => ?_⟩
  rw [← hg]
  exact congrArg s' (Equiv.ofBijective_apply_symm_apply g (Finite.injective_iff_bijective.1 hgi) i).symm

/-- A sum over all places but one. -/
theorem sum_others {m : Nat} (π : Equiv.Perm (Fin m)) (i : Fin m) (g : Fin m → ℝ) :
    ∑ t : {k : Fin m // k ≠ i}, g (π t) = ∑ t : {k : Fin m // k ≠ π i}, g t :=
  Fintype.sum_equiv (π.subtypeEquiv (p := fun k => k ≠ i) (q := fun k => k ≠ π i) fun _ => (π.injective.ne_iff).symm) _ _ fun _ => rfl

/-! ## The values -/

theorem quad_others {m : Nat} (π : Equiv.Perm (Fin m)) (i : Fin m) (v v' : Fin m → ℝ) (A A' : Fin m → Fin m → ℝ) (hv : ∀ k, v' k = v (π k))
    (hA : ∀ k l, A' k l = A (π k) (π l)) :
    Matrix.vecMul (fun k : {k : Fin m // k ≠ i} => v' k) (Matrix.of fun k l : {k : Fin m // k ≠ i} => A' k l) ⬝ᵥ (fun k : {k : Fin m // k ≠ i} => v' k) =
      Matrix.vecMul (fun k : {k : Fin m // k ≠ π i} => v k) (Matrix.of fun k l : {k : Fin m // k ≠ π i} => A k l) ⬝ᵥ (fun k : {k : Fin m // k ≠ π i} => v k) := by
  simp only [Matrix.vecMul, dotProduct, Matrix.of_apply, hv, hA]
  rw [← sum_others π i (fun l => (∑ k : {k : Fin m // k ≠ π i}, v k * A k l) * v l)]
  refine Finset.sum_congr rfl fun l _ => ?_
  rw [← sum_others π i (fun k => v k * A k (π l))]

theorem value_reorder {pinv : ∀ m : Nat, Matrix (Fin m) (Fin m) ℝ → Matrix (Fin m) (Fin m) ℝ} (hi : Inverts pinv) {L L' : Matrix (Fin n) (Fin n) ℝ} (hL : L.PosDef)
    (τ : Equiv.Perm (Fin n)) (σ : Equiv.Perm (Fin C)) (hLL : ∀ i j, L' (τ i) (τ j) = L i j) {S S' : Fin a → Fin n × Fin C} {U U' : Fin b → Fin n × Fin C}
    (hU : Function.Injective U) {πS : Equiv.Perm (Fin a)} {πU : Equiv.Perm (Fin b)} (hS' : ∀ j, S' j = ((τ (S (πS j)).1), σ (S (πS j)).2))
    (hU' : ∀ j, U' j = ((τ (U (πU j)).1), σ (U (πU j)).2)) {Y Y' : Fin a → ℝ} (hY : ∀ j, Y' j = Y (πS j)) (i : Fin b) :
    value pinv L' S' U' Y' i = value pinv L S U Y (πU i) := by
  have hk : ∀ p q : Fin n × Fin C, lkr L' (τ p.1, σ p.2) (τ q.1, σ q.2) = lkr L p q := by
    intro p q
    rw [lkr_apply, lkr_apply]
    simp only [hLL, σ.injective.eq_iff]
  have hLuu : (lkr L').submatrix U' U' = ((lkr L).submatrix U U).submatrix πU πU := by
    ext k l
    simp only [Matrix.submatrix_apply, hU', hk]
  have hpd : ((lkr L : Matrix (Fin n × Fin C) (Fin n × Fin C) ℝ).submatrix U U).PosDef := (lkr_posDef hL).submatrix hU
  have hinv : pinv b ((lkr L').submatrix U' U') = (pinv b ((lkr L).submatrix U U)).submatrix πU πU := by
    rw [hLuu, hi _ _ hpd.isUnit, hi _ _ (hpd.submatrix πU.injective).isUnit]
    exact Matrix.inv_submatrix_equiv _ _ _
  have hys : ∀ k, ysLsu L' S' U' Y' k = ysLsu L S U Y (πU k) := by
    intro k
    unfold ysLsu
    rw [← Equiv.sum_comp πS (fun j => Y j * lkr L (S j) (U (πU k)))]
    refine Finset.sum_congr rfl fun j _ => ?_
    rw [hS', hU', hk, hY]
  have hR : ∀ k l, (pinv b ((lkr L').submatrix U' U')) k l - (∑ t : {k : Fin b // k ≠ i}, -(pinv b ((lkr L').submatrix U' U')) i t * -(pinv b ((lkr L').submatrix U' U')) i t) /
        (pinv b ((lkr L').submatrix U' U')) i i =
      (pinv b ((lkr L).submatrix U U)) (πU k) (πU l) - (∑ t : {k : Fin b // k ≠ πU i}, -(pinv b ((lkr L).submatrix U U)) (πU i) t * -(pinv b ((lkr L).submatrix U U)) (πU i) t) /
        (pinv b ((lkr L).submatrix U U)) (πU i) (πU i) := by
    intro k l
    rw [hinv]
    simp only [Matrix.submatrix_apply]
    rw [sum_others πU i (fun t => -(pinv b ((lkr L).submatrix U U)) (πU i) t * -(pinv b ((lkr L).submatrix U U)) (πU i) t)]
  have hd : ∀ k l, (lkr L').submatrix U' U' k l = (lkr L).submatrix U U (πU k) (πU l) := fun k l => by rw [hLuu]; rfl
  unfold value invLrr
  have q1 := quad_others πU i (fun k => ysLsu L S U Y k + (lkr L).submatrix U U (πU i) k) (fun k => ysLsu L' S' U' Y' k + (lkr L').submatrix U' U' i k)
    (fun k l => (pinv b ((lkr L).submatrix U U)) k l - (∑ t : {k : Fin b // k ≠ πU i}, -(pinv b ((lkr L).submatrix U U)) (πU i) t * -(pinv b ((lkr L).submatrix U U)) (πU i) t) /
        (pinv b ((lkr L).submatrix U U)) (πU i) (πU i))
    (fun k l => (pinv b ((lkr L').submatrix U' U')) k l - (∑ t : {k : Fin b // k ≠ i}, -(pinv b ((lkr L').submatrix U' U')) i t * -(pinv b ((lkr L').submatrix U' U')) i t) /
        (pinv b ((lkr L').submatrix U' U')) i i)
    (fun k => by rw [hys, hd]) hR
  have q2 := quad_others πU i (fun k => ysLsu L S U Y k - (lkr L).submatrix U U (πU i) k) (fun k => ysLsu L' S' U' Y' k - (lkr L').submatrix U' U' i k)
    (fun k l => (pinv b ((lkr L).submatrix U U)) k l - (∑ t : {k : Fin b // k ≠ πU i}, -(pinv b ((lkr L).submatrix U U)) (πU i) t * -(pinv b ((lkr L).submatrix U U)) (πU i) t) /
        (pinv b ((lkr L).submatrix U U)) (πU i) (πU i))
    (fun k l => (pinv b ((lkr L').submatrix U' U')) k l - (∑ t : {k : Fin b // k ≠ i}, -(pinv b ((lkr L').submatrix U' U')) i t * -(pinv b ((lkr L').submatrix U' U')) i t) /
        (pinv b ((lkr L').submatrix U' U')) i i)
    (fun k => by rw [hys, hd]) hR
  have h1 : ∀ (f g : Fin b → ℝ) (j : Fin b), ((fun k : {k : Fin b // k ≠ j} => f k) + fun k : {k : Fin b // k ≠ j} => g k) = fun k : {k : Fin b // k ≠ j} => f k + g k := fun _ _ _ => rfl
  have h2 : ∀ (f g : Fin b → ℝ) (j : Fin b), ((fun k : {k : Fin b // k ≠ j} => f k) - fun k : {k : Fin b // k ≠ j} => g k) = fun k : {k : Fin b // k ≠ j} => f k - g k := fun _ _ _ => rfl
  simp only [h1, h2]
  rw [q1, q2, hys, hd]

/-- The new names, of the pair of an example and a label. -/
def renamed (τ : Equiv.Perm (Fin n)) (σ : Equiv.Perm (Fin C)) (p : Fin n × Fin C) : Fin n × Fin C := (τ p.1, σ p.2)

theorem lMat_reorder {pinv : ∀ m : Nat, Matrix (Fin m) (Fin m) ℝ → Matrix (Fin m) (Fin m) ℝ} (hi : Inverts pinv) {Km Km' : Matrix (Fin n) (Fin n) ℝ} (hK : Km.PosSemidef) {lam : ℝ}
    (hl : 0 < lam) (τ : Equiv.Perm (Fin n)) (hKK : ∀ i j, Km' (τ i) (τ j) = Km i j) (i j : Fin n) : lMat pinv Km' lam (τ i) (τ j) = lMat pinv Km lam i j := by
  have e : (Km' + lam • 1).submatrix τ τ = Km + lam • 1 := by
    ext k l
    simp [hKK, Matrix.one_apply, τ.injective.eq_iff]
  have hpd : (Km + lam • 1).PosDef := PosDef.posSemidef_add hK (PosDef.one.smul hl)
  have hu' : IsUnit (Km' + lam • 1) := by
    have e' : Km' + lam • 1 = (Km + lam • 1).submatrix τ.symm τ.symm := by
      rw [← e]; ext k l; simp
    rw [e']
    exact (hpd.submatrix τ.symm.injective).isUnit
  unfold lMat
  rw [hi _ _ hu', hi _ _ hpd.isUnit, ← e, Matrix.inv_submatrix_equiv]
  rfl

/-- **C141**, multi-label QUIRE, the values: give the examples and the labels other numbers, in the kernel matrix, the label matrix, the known pairs and the pool. The pairs are then sorted in another order, but every
pair keeps its value. (The set of known pairs is iterated in sorted order, before and after; see C89.) -/
theorem C141_quire_values {pinv : ∀ m : Nat, Matrix (Fin m) (Fin m) ℝ → Matrix (Fin m) (Fin m) ℝ} (hi : Inverts pinv) {Km Km' : Matrix (Fin n) (Fin n) ℝ} (hK : Km.PosSemidef) {lam : ℝ}
    (hl : 0 < lam) (τ : Equiv.Perm (Fin n)) (σ : Equiv.Perm (Fin C)) (hKK : ∀ i j, Km' (τ i) (τ j) = Km i j) {y y' : Fin n → Fin C → ℝ} (hy : ∀ i l, y' (τ i) (σ l) = y i l)
    {S S' : Fin a → Fin n × Fin C} {U U' : Fin b → Fin n × Fin C} (hp : Spec.Apart S U) (hp' : Spec.Apart S' U') (hS : ∀ j, ∃ k, S' k = renamed τ σ (S j))
    (hU : ∀ j, ∃ k, U' k = renamed τ σ (U j)) (i i' : Fin b) (hii : U' i' = renamed τ σ (U i)) :
    vals pinv (lMat pinv Km' lam) y' S' 1 U' i' = vals pinv (lMat pinv Km lam) y S 1 U i := by
  have inj : ∀ {S : Fin a → Fin n × Fin C} {U : Fin b → Fin n × Fin C}, Spec.Apart S U → Function.Injective S ∧ Function.Injective U := by
    intro S U h
    exact ⟨fun i j e => Sum.inl_injective (h (a₁ := .inl i) (a₂ := .inl j) e), fun i j e => Sum.inr_injective (h (a₁ := .inr i) (a₂ := .inr j) e)⟩
  have hr : Function.Injective (renamed τ σ : Fin n × Fin C → Fin n × Fin C) := by
    intro p q e
    exact Prod.ext (τ.injective (congrArg Prod.fst e)) (σ.injective (congrArg Prod.snd e))
  obtain ⟨πS, hπS⟩ := places hr (inj hp).1 (inj hp').1 (by rintro _ ⟨j, rfl⟩; exact hS j)
  obtain ⟨πU, hπU⟩ := places hr (inj hp).2 (inj hp').2 (by rintro _ ⟨j, rfl⟩; exact hU j)
  have hL : (lMat pinv Km lam).PosDef := by
    rw [lMat_eq hi hK hl]
    exact (PosDef.posSemidef_add hK (PosDef.one.smul hl)).inv
  unfold vals
  rw [value_reorder hi hL τ σ (lMat_reorder hi hK hl τ hKK) (inj hp).2 hπS hπU (Y := fun j => y (S ((1 : Equiv.Perm (Fin a)) j)).1 (S ((1 : Equiv.Perm (Fin a)) j)).2)
    (by intro j; simp only [Equiv.Perm.one_apply, hπS, renamed, hy])]
  congr 1
  apply (inj hp).2
  apply hr
  rw [← hπU, hii]

/-- **C141**, multi-label QUIRE: with the labels (and the examples) listed in another order the same pair is asked for, if no two pairs of the pool have the same value. -/
theorem C141_quire {pinv : ∀ m : Nat, Matrix (Fin m) (Fin m) ℝ → Matrix (Fin m) (Fin m) ℝ} (hi : Inverts pinv) {Km Km' : Matrix (Fin n) (Fin n) ℝ} (hK : Km.PosSemidef) {lam : ℝ}
    (hl : 0 < lam) (τ : Equiv.Perm (Fin n)) (σ : Equiv.Perm (Fin C)) (hKK : ∀ i j, Km' (τ i) (τ j) = Km i j) {y y' : Fin n → Fin C → ℝ} (hy : ∀ i l, y' (τ i) (σ l) = y i l)
    {S S' : Fin a → Fin n × Fin C} {U U' : Fin b → Fin n × Fin C} (hb : 0 < b) (hp : Spec.Apart S U) (hp' : Spec.Apart S' U') (hS : ∀ j, ∃ k, S' k = renamed τ σ (S j))
    (hU : ∀ j, ∃ k, U' k = renamed τ σ (U j)) (htie : Function.Injective (vals pinv (lMat pinv Km lam) y S 1 U)) :
    ∃ p, select pinv Km lam y S 1 U = some p ∧ select pinv Km' lam y' S' 1 U' = some (renamed τ σ p) := by
  obtain ⟨i, h1, h2, _⟩ := select_pair (pinv := pinv) (Km := Km) (lam := lam) (y := y) (S := S) (order := 1) (U := U) hb
  obtain ⟨i', h1', h2', _⟩ := select_pair (pinv := pinv) (Km := Km') (lam := lam) (y := y') (S := S') (order := 1) (U := U') hb
  refine ⟨U i, h1, ?_⟩
  have key := fun i i' hii => C141_quire_values hi hK hl τ σ hKK hy hp hp' hS hU i i' hii
  have hr : Function.Injective (renamed τ σ : Fin n × Fin C → Fin n × Fin C) := by
    intro p q e
    exact Prod.ext (τ.injective (congrArg Prod.fst e)) (σ.injective (congrArg Prod.snd e))
  obtain ⟨πU, hπU⟩ := places (s := U) (s' := U') hr (fun k l e => by simpa using @hp (.inr k) (.inr l) e)
    (fun k l e => by simpa using @hp' (.inr k) (.inr l) e) (by rintro _ ⟨j, rfl⟩; exact hU j)
  have e' := key (πU i') i' (hπU i')
  have e := key i (πU.symm i) (by rw [hπU, Equiv.apply_symm_apply])
  have : πU i' = i := htie (le_antisymm (by rw [← e', ← e]; exact h2' _) (h2 _))
  rw [h1', hπU, this]

/-- The hypotheses can be met: two examples, two labels, with the labels exchanged. One pair is known, two are in the pool. -/
example : Spec.Apart (![(0, 0)] : Fin 1 → Fin 2 × Fin 2) (![(1, 0), (0, 1)] : Fin 2 → Fin 2 × Fin 2) ∧
    Spec.Apart (![(0, 1)] : Fin 1 → Fin 2 × Fin 2) (![(0, 0), (1, 1)] : Fin 2 → Fin 2 × Fin 2) ∧
    (∀ j, ∃ k, (![(0, 1)] : Fin 1 → Fin 2 × Fin 2) k = renamed 1 (Equiv.swap 0 1) ((![(0, 0)] : Fin 1 → Fin 2 × Fin 2) j)) ∧
    ∀ j, ∃ k, (![(0, 0), (1, 1)] : Fin 2 → Fin 2 × Fin 2) k = renamed 1 (Equiv.swap 0 1) ((![(1, 0), (0, 1)] : Fin 2 → Fin 2 × Fin 2) j) := by
  refine ⟨?_, ?_, ?_, ?_⟩ <;> first | decide | (unfold Spec.Apart Function.Injective; decide)

end Alipy.MLQuire
