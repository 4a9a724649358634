import Verif.Model.Quire
import Verif.Spec.Quire
import Mathlib.LinearAlgebra.Matrix.PosDef
import Mathlib.Analysis.Matrix.Order
/-!
# Properties of QUIRE (C61)
-/
namespace Alipy.Quire
open Alipy Matrix

variable {α : Type} {n a b : Nat}

/-! ## The loop -/

theorem fold_spec {β : Type} (ev : β → Option ℝ) : ∀ (l : List β) (init : Option (β × ℝ)),
    (∀ p, init = some p → ev p.1 = some p.2) →
    match l.foldl (step ev) init with
    | none => init = none ∧ ∀ i ∈ l, ev i = none
    | some (i, m) => ev i = some m ∧ (i ∈ l ∨ init = some (i, m)) ∧ (∀ j ∈ l, ∀ e, ev j = some e → m ≤ e) ∧ ∀ p, init = some p → m ≤ p.2 := by
  intro l
  induction l with
  | nil =>
    intro init h
    cases init with
    | none => simp
    | some p => exact ⟨h p rfl, Or.inr rfl, by simp, by rintro q ⟨⟩; exact le_rfl⟩
  | cons x l ih =>
    intro init h
    have hs : ∀ p, step ev init x = some p → ev p.1 = some p.2 := by
      intro p hp
      unfold step at hp
      split at hp
      · exact h p hp
      · rename_i e he
        simp only [Option.some.injEq] at hp
        subst hp; exact he
      · rename_i e j m he
        split_ifs at hp
        · simp only [Option.some.injEq] at hp
          subst hp; exact he
        · exact h p hp
    have := ih (step ev init x) hs
    rw [List.foldl_cons]
    revert this
    cases List.foldl (step ev) (step ev init x) l with
    | none =>
      rintro ⟨h1, h2⟩
      unfold step at h1
      split at h1
      · rename_i he
        refine ⟨h1, ?_⟩
        intro i hi
        rcases List.mem_cons.1 hi with rfl | hi
        · exact he
        · exact h2 i hi
      · simp at h1
      · split_ifs at h1
    | some p =>
      obtain ⟨i, m⟩ := p
      rintro ⟨h1, h2, h3, h4⟩
      unfold step at h2 h4
      refine ⟨h1, ?_, ?_, ?_⟩
      · rcases h2 with h2 | h2
        · exact Or.inl (by simp [h2])
        · split at h2
          · exact Or.inr h2
          · simp only [Option.some.injEq, Prod.mk.injEq] at h2
            exact Or.inl (by simp [h2.1])
          · split_ifs at h2
            · simp only [Option.some.injEq, Prod.mk.injEq] at h2
              exact Or.inl (by simp [h2.1])
            · exact Or.inr h2
      · intro j hj e he
        rcases List.mem_cons.1 hj with rfl | hj
        · split at h4
          · rename_i hn; rw [hn] at he; simp at he
          · rename_i e' he'
            rw [he'] at he
            simp only [Option.some.injEq] at he
            subst he
            exact h4 _ rfl
          · rename_i e' j' m' he'
            rw [he'] at he
            simp only [Option.some.injEq] at he
            subst he
            split_ifs at h4 with hlt
            · exact h4 _ rfl
            · exact (h4 _ rfl).trans (not_lt.1 hlt)
        · exact h3 j hj e he
      · intro p hp
        subst hp
        split at h4
        · rename_i hn heq
          exact h4 _ rfl
        · rename_i heq; exact absurd heq (by simp)
        · rename_i e' j' m' he' heq
          simp only [Option.some.injEq] at heq
          subst heq
          split_ifs at h4 with hlt
          · exact (h4 _ rfl).trans hlt.le
          · exact h4 _ rfl

theorem select_cases (train : Fin (n + 1) → α) (Km : Matrix (Fin (n + 1)) (Fin (n + 1)) ℝ) (lam : ℝ) (lab : Fin a → Fin (n + 1))
    (unl : Fin b → Fin (n + 1)) (y : Fin (n + 1) → ℝ) (hb : 2 ≤ b) :
    ((∀ i, eva Km lam lab unl y i = none) ∧ select train Km lam lab unl y = [train (Fin.last n)]) ∨
      ∃ i m, eva Km lam lab unl y i = some m ∧ (∀ j e, eva Km lam lab unl y j = some e → m ≤ e) ∧
        select train Km lam lab unl y = [train (unl i)] := by
  have h := fold_spec (eva Km lam lab unl y) (List.finRange b) none (by simp)
  unfold select
  rw [if_neg (by omega)]
  revert h
  cases (List.finRange b).foldl (step (eva Km lam lab unl y)) none with
  | none => rintro ⟨_, h⟩; exact Or.inl ⟨fun i => h i (List.mem_finRange i), rfl⟩
  | some p =>
    obtain ⟨i, m⟩ := p
    rintro ⟨h1, _, h3, _⟩
    exact Or.inr ⟨i, m, h1, fun j e he => h3 j (List.mem_finRange j) e he, rfl⟩

/-! ## Inverses -/

theorem sum_split {lab : Fin a → Fin (n + 1)} {unl : Fin b → Fin (n + 1)} (hp : Spec.SplitOfTrain lab unl) (f : Fin (n + 1) → ℝ) :
    ∑ k, f k = ∑ j, f (lab j) + ∑ j, f (unl j) := by
  rw [← (Equiv.ofBijective _ hp).sum_comp, Fintype.sum_sum_type]
  rfl

theorem posDef_reg {ι : Type} [Fintype ι] [DecidableEq ι] {Km : Matrix ι ι ℝ} (hK : Km.PosSemidef) {lam : ℝ} (hl : 0 < lam) :
    (Km + lam • 1).PosDef := by
  have : (lam • (1 : Matrix ι ι ℝ)).PosDef := PosDef.one.smul hl
  exact this.posSemidef_add hK

/-- The block of `L` between labelled and unlabelled examples. -/
theorem cross_block {Km : Matrix (Fin (n + 1)) (Fin (n + 1)) ℝ} (hK : Km.PosSemidef) {lam : ℝ} (hl : 0 < lam) {lab : Fin a → Fin (n + 1)}
    {unl : Fin b → Fin (n + 1)} (hp : Spec.SplitOfTrain lab unl) :
    (lMat Km lam).submatrix lab unl =
      -((lam • 1 + Km.submatrix lab lab)⁻¹ * (Km.submatrix lab unl * (lMat Km lam).submatrix unl unl)) := by
  have hA := posDef_reg hK hl
  have hdet : IsUnit (Km + lam • 1).det := (Matrix.isUnit_iff_isUnit_det _).1 hA.isUnit
  have hAL : (Km + lam • 1) * lMat Km lam = 1 := Matrix.mul_nonsing_inv _ hdet
  have hlabi : Function.Injective lab := fun x y h => by simpa using hp.1 (a₁ := Sum.inl x) (a₂ := Sum.inl y) h
  have hne : ∀ x y, lab x ≠ unl y := fun x y h => by simpa using hp.1 (a₁ := Sum.inl x) (a₂ := Sum.inr y) h
  have hP : (lam • 1 + Km.submatrix lab lab).PosDef := by rw [add_comm]; exact posDef_reg (hK.submatrix lab) hl
  have hPdet : IsUnit (lam • 1 + Km.submatrix lab lab).det := (Matrix.isUnit_iff_isUnit_det _).1 hP.isUnit
  have e1 : (lam • 1 + Km.submatrix lab lab) * (lMat Km lam).submatrix lab unl + Km.submatrix lab unl * (lMat Km lam).submatrix unl unl = 0 := by
    ext x z
    have h := congrFun (congrFun hAL (lab x)) (unl z)
    rw [Matrix.mul_apply, sum_split hp, Matrix.one_apply_ne (hne x z)] at h
    simp only [Matrix.add_apply, Matrix.mul_apply, Matrix.zero_apply, Matrix.submatrix_apply, Matrix.smul_apply] at h ⊢
    rw [← h]
    congr 1
    · refine Finset.sum_congr rfl (fun k _ => ?_)
      rw [Matrix.one_apply, Matrix.one_apply]
      simp only [hlabi.eq_iff]
      ring
    · refine Finset.sum_congr rfl (fun k _ => ?_)
      rw [Matrix.one_apply_ne (hne x k)]
      simp
  have h := congrArg (fun M => (lam • 1 + Km.submatrix lab lab)⁻¹ * M) e1
  simp only [Matrix.mul_add, Matrix.mul_zero] at h
  rw [← Matrix.mul_assoc, Matrix.nonsing_inv_mul _ hPdet, Matrix.one_mul] at h
  exact eq_neg_of_add_eq_zero_left h

/-- The inverse of the block of `L` that belongs to the unlabelled examples (Schur complement). -/
theorem inverse_block {Km : Matrix (Fin (n + 1)) (Fin (n + 1)) ℝ} (hK : Km.PosSemidef) {lam : ℝ} (hl : 0 < lam) {lab : Fin a → Fin (n + 1)}
    {unl : Fin b → Fin (n + 1)} (hp : Spec.SplitOfTrain lab unl) :
    ((lMat Km lam).submatrix unl unl)⁻¹ =
      (lam • 1 + Km.submatrix unl unl) - Km.submatrix unl lab * (lam • 1 + Km.submatrix lab lab)⁻¹ * Km.submatrix lab unl := by
  have hA := posDef_reg hK hl
  have hdet : IsUnit (Km + lam • 1).det := (Matrix.isUnit_iff_isUnit_det _).1 hA.isUnit
  have hAL : (Km + lam • 1) * lMat Km lam = 1 := Matrix.mul_nonsing_inv _ hdet
  have hunli : Function.Injective unl := fun x y h => by simpa using hp.1 (a₁ := Sum.inr x) (a₂ := Sum.inr y) h
  have hne : ∀ x y, lab x ≠ unl y := fun x y h => by simpa using hp.1 (a₁ := Sum.inl x) (a₂ := Sum.inr y) h
  have e2 : Km.submatrix unl lab * (lMat Km lam).submatrix lab unl + (lam • 1 + Km.submatrix unl unl) * (lMat Km lam).submatrix unl unl = 1 := by
    ext x z
    have h := congrFun (congrFun hAL (unl x)) (unl z)
    rw [Matrix.mul_apply, sum_split hp] at h
    simp only [Matrix.add_apply, Matrix.mul_apply, Matrix.submatrix_apply, Matrix.smul_apply] at h ⊢
    have h1 : (1 : Matrix (Fin b) (Fin b) ℝ) x z = (1 : Matrix (Fin (n + 1)) (Fin (n + 1)) ℝ) (unl x) (unl z) := by
      simp [Matrix.one_apply, hunli.eq_iff]
    rw [h1, ← h]
    congr 1
    · refine Finset.sum_congr rfl (fun k _ => ?_)
      rw [Matrix.one_apply_ne (hne k x).symm]
      simp
    · refine Finset.sum_congr rfl (fun k _ => ?_)
      rw [Matrix.one_apply, Matrix.one_apply]
      simp only [hunli.eq_iff]
      ring
  have e3 := cross_block hK hl hp
  refine Matrix.inv_eq_left_inv ?_
  rw [Matrix.sub_mul]
  rw [e3, Matrix.mul_neg] at e2
  refine Eq.trans ?_ e2
  simp only [Matrix.mul_assoc]
  abel

theorem labelled_zero {Km : Matrix (Fin (n + 1)) (Fin (n + 1)) ℝ} (hK : Km.PosSemidef) {lam : ℝ} (hl : 0 < lam) {lab : Fin a → Fin (n + 1)}
    {z : Fin (n + 1)} {w : Fin a → ℝ} (hw : (lam • 1 + Km.submatrix lab lab) *ᵥ w = fun j => Km (lab j) z)
    (h0 : lam⁻¹ * ((fun j => Km (lab j) z) ⬝ᵥ (fun j => Km (lab j) z)) = (fun j => Km (lab j) z) ⬝ᵥ w) : ∀ j, Km (lab j) z = 0 := by
  set v : Fin a → ℝ := fun j => Km (lab j) z with hv
  set B := Km.submatrix lab lab with hB
  have hBs : B.PosSemidef := hK.submatrix lab
  have e1 : v = lam • w + B *ᵥ w := by rw [← hw, Matrix.add_mulVec, Matrix.smul_mulVec, Matrix.one_mulVec]
  have e2 : v ⬝ᵥ (B *ᵥ w) = 0 := by
    have h1 : v ⬝ᵥ v = lam * (v ⬝ᵥ w) := by
      rw [← h0]; field_simp
    have h2 : v ⬝ᵥ (lam • w + B *ᵥ w) = lam * (v ⬝ᵥ w) + v ⬝ᵥ (B *ᵥ w) := by
      rw [dotProduct_add, dotProduct_smul, smul_eq_mul]
    rw [← e1] at h2
    linarith
  have e3 : lam * (w ⬝ᵥ (B *ᵥ w)) + (B *ᵥ w) ⬝ᵥ (B *ᵥ w) = 0 := by
    rw [← e2]
    conv_rhs => rw [e1]
    rw [add_dotProduct, smul_dotProduct, smul_eq_mul]
  have q1 : 0 ≤ w ⬝ᵥ (B *ᵥ w) := by simpa using hBs.dotProduct_mulVec_nonneg w
  have q2 : 0 ≤ (B *ᵥ w) ⬝ᵥ (B *ᵥ w) := Finset.sum_nonneg (fun k _ => mul_self_nonneg _)
  have q3 : (B *ᵥ w) ⬝ᵥ (B *ᵥ w) = 0 := by
    have := mul_nonneg hl.le q1
    linarith
  have q4 : B *ᵥ w = 0 := dotProduct_self_eq_zero.1 q3
  have q5 : B *ᵥ v = 0 := by
    rw [e1, q4, add_zero, Matrix.mulVec_smul, q4, smul_zero]
  have hM := hK.submatrix (Sum.elim lab (fun _ : Unit => z))
  have hx := (hM.dotProduct_mulVec_zero_iff (Sum.elim v 0)).1 (by
    have : Km.submatrix (Sum.elim lab (fun _ : Unit => z)) (Sum.elim lab (fun _ : Unit => z)) *ᵥ Sum.elim v 0 =
        Sum.elim (B *ᵥ v) (fun _ => ∑ j, Km z (lab j) * v j) := by
      ext k
      cases k <;> simp [Matrix.mulVec, dotProduct, hB]
    rw [this, q5]
    simp [dotProduct])
  have hz := congrFun hx (Sum.inr ())
  simp only [Matrix.mulVec, dotProduct, Fintype.sum_sum_type, Matrix.submatrix_apply, Sum.elim_inl, Sum.elim_inr, Pi.zero_apply, mul_zero,
    Finset.sum_const_zero, add_zero] at hz
  have hsym : ∀ j, Km z (lab j) = v j := by
    intro j
    have := hK.isHermitian.apply z (lab j)
    simpa using this.symm
  have hvv : v ⬝ᵥ v = 0 := by
    rw [← hz]
    exact Finset.sum_congr rfl (fun j _ => by rw [hsym])
  have := dotProduct_self_eq_zero.1 hvv
  intro j
  exact congrFun this j

/-- **C61**: for a kernel matrix (positive semidefinite) and a positive `lambda`, what the code takes as the inverse of the block of `L` that
belongs to the unlabelled examples is that inverse only if the kernel is zero between all labelled and all unlabelled examples (which
it never is for the default kernel). -/
theorem C61_inverse_violation {Km : Matrix (Fin (n + 1)) (Fin (n + 1)) ℝ} (hK : Km.PosSemidef) {lam : ℝ} (hl : 0 < lam)
    {lab : Fin a → Fin (n + 1)} {unl : Fin b → Fin (n + 1)} (hp : Spec.SplitOfTrain lab unl) :
    invLaa Km lam lab unl = ((lMat Km lam).submatrix unl unl)⁻¹ ↔ ∀ i j, Km (lab j) (unl i) = 0 := by
  rw [inverse_block hK hl hp]
  unfold invLaa
  constructor
  · intro h i
    rw [sub_right_inj] at h
    have hP : (lam • 1 + Km.submatrix lab lab).PosDef := by rw [add_comm]; exact posDef_reg (hK.submatrix lab) hl
    have hPdet : IsUnit (lam • 1 + Km.submatrix lab lab).det := (Matrix.isUnit_iff_isUnit_det _).1 hP.isUnit
    set v : Fin a → ℝ := fun j => Km (lab j) (unl i) with hv
    have hsym : ∀ j, Km (unl i) (lab j) = v j := by
      intro j
      have := hK.isHermitian.apply (unl i) (lab j)
      simpa using this.symm
    have hinv : (lam • (1 : Matrix (Fin a) (Fin a) ℝ))⁻¹ = lam⁻¹ • 1 := by
      refine Matrix.inv_eq_left_inv ?_
      rw [smul_mul_smul_comm, inv_mul_cancel₀ hl.ne', Matrix.one_mul, one_smul]
    have entry : ∀ Q : Matrix (Fin a) (Fin a) ℝ, (Km.submatrix unl lab * Q * Km.submatrix lab unl) i i = v ⬝ᵥ (Q *ᵥ v) := by
      intro Q
      rw [Matrix.mul_assoc, Matrix.mul_apply]
      refine Finset.sum_congr rfl (fun j _ => ?_)
      rw [Matrix.submatrix_apply, hsym]
      rfl
    have h1 := congrFun (congrFun h i) i
    rw [entry, entry, hinv, Matrix.smul_mulVec, Matrix.one_mulVec, dotProduct_smul, smul_eq_mul] at h1
    refine labelled_zero hK hl (w := (lam • 1 + Km.submatrix lab lab)⁻¹ *ᵥ v) ?_ h1
    rw [Matrix.mulVec_mulVec, Matrix.mul_nonsing_inv _ hPdet, Matrix.one_mulVec]
  · intro h
    have : Km.submatrix lab unl = 0 := by
      ext j i; exact h i j
    rw [this, Matrix.mul_zero, Matrix.mul_zero]

/-- The inverse of a matrix without one row and column, from the inverse of the matrix. -/
theorem downdate (A : Matrix (Fin b) (Fin b) ℝ) (hA : IsUnit A.det) (i : Fin b) (hi : A⁻¹ i i ≠ 0) :
    (A.submatrix (Subtype.val : {k : Fin b // k ≠ i} → Fin b) (Subtype.val : {k : Fin b // k ≠ i} → Fin b))⁻¹ =
      Matrix.of fun (j k : {k : Fin b // k ≠ i}) => A⁻¹ j k - 1 / A⁻¹ i i * (A⁻¹ j i * A⁻¹ i k) := by
  refine Matrix.inv_eq_right_inv ?_
  ext j l
  have split : ∀ f : Fin b → ℝ, ∑ k : {k : Fin b // k ≠ i}, f k = ∑ k, f k - f i := by
    intro f
    rw [← Finset.sum_subtype (Finset.univ.erase i) (by simp) f, ← Finset.add_sum_erase _ f (Finset.mem_univ i)]
    ring
  have hAM : A * A⁻¹ = 1 := Matrix.mul_nonsing_inv _ hA
  have r1 := congrFun (congrFun hAM j.1) l.1
  have r2 := congrFun (congrFun hAM j.1) i
  rw [Matrix.mul_apply] at r1 r2
  rw [Matrix.one_apply_ne j.2] at r2
  rw [Matrix.mul_apply]
  simp only [Matrix.submatrix_apply, Matrix.of_apply]
  rw [split (fun k => A j k * (A⁻¹ k l - 1 / A⁻¹ i i * (A⁻¹ k i * A⁻¹ i l)))]
  have e : ∑ k, A j k * (A⁻¹ k l - 1 / A⁻¹ i i * (A⁻¹ k i * A⁻¹ i l)) = ∑ k, A j k * A⁻¹ k l - (∑ k, A j k * A⁻¹ k i) * (1 / A⁻¹ i i * A⁻¹ i l) := by
    rw [Finset.sum_mul, ← Finset.sum_sub_distrib]
    exact Finset.sum_congr rfl (fun k _ => by ring)
  have e0 : A⁻¹ i l - 1 / A⁻¹ i i * (A⁻¹ i i * A⁻¹ i l) = 0 := by
    field_simp
    ring
  rw [e, r1, r2, e0]
  simp [Matrix.one_apply, Subtype.ext_iff]

/-- **C61**: even given the right inverse, with at least three unlabelled examples the code's inverse without the example in question is
right only if that example is unrelated to all others in the inverse: `np.dot` of two vectors is their inner product. -/
theorem C61_downdate_violation (hb : 3 ≤ b) (A : Matrix (Fin b) (Fin b) ℝ) (hA : A.PosDef) (i : Fin b) :
    invLuu A⁻¹ i = (A.submatrix (Subtype.val : {k : Fin b // k ≠ i} → Fin b) (Subtype.val : {k : Fin b // k ≠ i} → Fin b))⁻¹ ↔ ∀ k, k ≠ i → A⁻¹ k i = 0 := by
  have hpos : 0 < A⁻¹ i i := hA.inv.diag_pos
  have hsym : ∀ k, A⁻¹ i k = A⁻¹ k i := fun k => by simpa using hA.inv.isHermitian.apply k i
  rw [downdate A ((Matrix.isUnit_iff_isUnit_det _).1 hA.isUnit) i hpos.ne']
  unfold invLuu
  constructor
  · intro h
    set S := ∑ t : {k : Fin b // k ≠ i}, A⁻¹ t i * A⁻¹ t i with hS
    have hk : ∀ k : {k : Fin b // k ≠ i}, A⁻¹ k i * A⁻¹ k i = S := by
      intro k
      have := congrFun (congrFun h k) k
      rw [Matrix.of_apply, Matrix.of_apply, sub_right_inj] at this
      have h2 := mul_left_cancel₀ (one_div_ne_zero hpos.ne') this
      rw [h2, hsym]
    have hcard : (Fintype.card {k : Fin b // k ≠ i} : ℝ) * S = S := by
      conv_rhs => rw [hS]
      rw [Finset.sum_congr rfl (fun k _ => hk k), Finset.sum_const, nsmul_eq_mul]
      simp
    have hc : Fintype.card {k : Fin b // k ≠ i} = b - 1 := by
      rw [Fintype.card_subtype_compl]
      simp
    have hS0 : S = 0 := by
      rw [hc] at hcard
      have : (2 : ℝ) ≤ (b - 1 : Nat) := by exact_mod_cast (by omega : 2 ≤ b - 1)
      have : (((b - 1 : Nat) : ℝ) - 1) * S = 0 := by linarith
      rcases mul_eq_zero.1 this with h | h
      · linarith
      · exact h
    intro k hki
    have := hk ⟨k, hki⟩
    rw [hS0] at this
    exact mul_self_eq_zero.1 this
  · intro h
    ext j k
    have : ∑ t : {k : Fin b // k ≠ i}, A⁻¹ t i * A⁻¹ t i = 0 := Finset.sum_eq_zero (fun t _ => by rw [h t.1 t.2]; ring)
    rw [Matrix.of_apply, Matrix.of_apply, this, h j.1 j.2]
    ring

/-! ## The choice -/

/-- **C61** (partial: nothing relates labelled and unlabelled examples): the example returned is unlabelled and minimises the evaluation
of the paper. -/
theorem C61_minimum_partial {Km : Matrix (Fin (n + 1)) (Fin (n + 1)) ℝ} (hK : Km.PosSemidef) {lam : ℝ} (hl : 0 < lam)
    {lab : Fin a → Fin (n + 1)} {unl : Fin b → Fin (n + 1)} (hp : Spec.SplitOfTrain lab unl) (hb : 2 ≤ b) (h0 : ∀ i j, Km (lab j) (unl i) = 0)
    (train : Fin (n + 1) → α) (y : Fin (n + 1) → ℝ) :
    ∃ i, select train Km lam lab unl y = [train (unl i)] ∧
      ∀ j, Spec.quireEval ((Km + lam • 1)⁻¹) lab unl y i ≤ Spec.quireEval ((Km + lam • 1)⁻¹) lab unl y j := by
  have hz : Km.submatrix lab unl = 0 := by
    ext j i; exact h0 i j
  have hL : ∀ i j, lMat Km lam (lab j) (unl i) = 0 := by
    intro i j
    have := congrFun (congrFun (cross_block hK hl hp) j) i
    rw [hz] at this
    simpa using this
  have hLsym : ∀ x z, lMat Km lam x z = lMat Km lam z x := by
    intro x z
    have := (posDef_reg hK hl).inv.isHermitian.apply z x
    rw [star_trivial] at this
    exact this
  have hM : ∀ i, invLaa Km lam lab unl i i ≠ 0 := by
    intro i
    unfold invLaa
    rw [hz, Matrix.mul_zero, sub_zero]
    have : 0 ≤ Km (unl i) (unl i) := hK.diag_nonneg
    simp
    linarith
  have he : ∀ i, eva Km lam lab unl y i = some (Spec.quireEval ((Km + lam • 1)⁻¹) lab unl y i) := by
    intro i
    unfold eva
    simp only
    rw [if_neg (fun h => hM i h.1)]
    congr 1
    unfold Spec.quireEval
    have c1 : ∀ (x : Fin b) (j : Fin a), lMat Km lam (unl x) (lab j) = 0 := fun x j => by rw [hLsym]; exact hL x j
    have c2 : ∀ (x : Fin b) (j : Fin a), (Km + lam • 1)⁻¹ (unl x) (lab j) = 0 := c1
    have c3 : ((Km + lam • 1)⁻¹).submatrix (fun k : {k : Fin b // k ≠ i} => unl k) lab = 0 := by
      ext x j; exact c2 x j
    simp only [c1, c2, c3, Matrix.vecMul_zero]
    simp only [mul_zero, Finset.sum_const_zero, sub_zero, zero_mul, abs_zero]
    rw [show ((fun _ => (0 : ℝ)) : Fin a → ℝ) = 0 from rfl, zero_dotProduct]
    rw [abs_zero, mul_zero]
    rfl
  rcases select_cases train Km lam lab unl y hb with ⟨h, _⟩ | ⟨i, m, h1, h2, h3⟩
  · have := h ⟨0, by omega⟩
    rw [he] at this
    simp at this
  · refine ⟨i, h3, fun j => ?_⟩
    have := h2 j _ (he j)
    rw [he i] at h1
    simp only [Option.some.injEq] at h1
    rw [h1]; exact this

/-- **C61**: with one unlabelled example that one is returned. -/
theorem C61_single (Km : Matrix (Fin (n + 1)) (Fin (n + 1)) ℝ) (lam : ℝ) (lab : Fin a → Fin (n + 1)) (unl : Fin 1 → Fin (n + 1))
    (train : Fin (n + 1) → α) (y : Fin (n + 1) → ℝ) : select train Km lam lab unl y = [train (unl 0)] := by
  simp [select, List.finRange]

/-- If the computed inverse has a zero diagonal, the last training example is returned, whether it is labelled or not. -/
theorem C61_last_violation {Km : Matrix (Fin (n + 1)) (Fin (n + 1)) ℝ} {lam : ℝ} (hl : lam ≠ 0) {lab : Fin a → Fin (n + 1)}
    {unl : Fin b → Fin (n + 1)} (hb : 2 ≤ b) (ha : a ≠ 0)
    (h : ∀ i, ∑ j, Km (unl i) (lab j) * Km (lab j) (unl i) = lam * (lam + Km (unl i) (unl i)))
    (train : Fin (n + 1) → α) (y : Fin (n + 1) → ℝ) : select train Km lam lab unl y = [train (Fin.last n)] := by
  have hn : ∀ i, eva Km lam lab unl y i = none := by
    intro i
    unfold eva
    simp only
    rw [if_pos]
    refine ⟨?_, ha⟩
    have hinv : (lam • (1 : Matrix (Fin a) (Fin a) ℝ))⁻¹ = lam⁻¹ • 1 := by
      refine Matrix.inv_eq_left_inv ?_
      rw [smul_mul_smul_comm, inv_mul_cancel₀ hl, Matrix.one_mul, one_smul]
    unfold invLaa
    rw [hinv, Matrix.mul_smul, Matrix.mul_one, Matrix.smul_mul]
    simp only [Matrix.sub_apply, Matrix.add_apply, Matrix.smul_apply, Matrix.one_apply_eq, Matrix.submatrix_apply, Matrix.mul_apply, smul_eq_mul]
    rw [h i]
    field_simp
    ring
  rcases select_cases train Km lam lab unl y hb with ⟨_, h⟩ | ⟨i, m, h1, _⟩
  · exact h
  · rw [hn] at h1; simp at h1

/-- Two labelled examples and any number of unlabelled ones, all with the same features (the default kernel is 1 everywhere, and `lambda`
is 1 by default): the last training example is returned even if it is labelled. -/
theorem C61_duplicates_violation {lab : Fin 2 → Fin (n + 1)} {unl : Fin b → Fin (n + 1)} (hb : 2 ≤ b)
    (hlast : lab 1 = Fin.last n) (train : Fin (n + 1) → α) (y : Fin (n + 1) → ℝ) :
    select train (fun _ _ => 1) 1 lab unl y = [train (lab 1)] := by
  rw [hlast]
  exact C61_last_violation one_ne_zero hb (by norm_num) (by intro i; norm_num) train y

/-- A linear kernel on three examples with the features (2, 2), (2, 2) and (1, 0), the first of them labelled. -/
def exX : Matrix (Fin 3) (Fin 2) ℝ := !![2, 2; 2, 2; 1, 0]

theorem ex_gram : exX * exX.transpose = !![8, 8, 2; 8, 8, 2; 2, 2, 1] := by
  ext i j
  rw [Matrix.mul_apply, Fin.sum_univ_two]
  fin_cases i <;> fin_cases j <;> norm_num [exX, Matrix.transpose_apply]

theorem ex_inv : (exX * exX.transpose + (1 : ℝ) • 1)⁻¹ = !![14/26, -12/26, -2/26; -12/26, 14/26, -2/26; -2/26, -2/26, 17/26] := by
  have h : !![8, 8, 2; 8, 8, 2; 2, 2, (1 : ℝ)] + 1 = !![9, 8, 2; 8, 9, 2; 2, 2, 2] := by
    rw [Matrix.one_fin_three]
    norm_num
  rw [ex_gram, one_smul, h]
  refine Matrix.inv_eq_left_inv ?_
  rw [Matrix.mul_fin_three, Matrix.one_fin_three]
  norm_num

/-- The entries of the kernel matrix, of `L` and of the computed inverse. -/
theorem ex_entries :
    ∃ (G L : Matrix (Fin 3) (Fin 3) ℝ) (M : Matrix (Fin 2) (Fin 2) ℝ), exX * exX.transpose = G ∧ (exX * exX.transpose + (1 : ℝ) • 1)⁻¹ = L ∧
      invLaa (n := 2) (a := 1) (b := 2) (exX * exX.transpose) 1 ![0] ![1, 2] = M ∧
      L 1 0 = -12/26 ∧ L 1 1 = 14/26 ∧ L 1 2 = -2/26 ∧ L 2 0 = -2/26 ∧ L 2 1 = -2/26 ∧ L 2 2 = 17/26 ∧
      M 0 0 = -55 ∧ M 0 1 = -14 ∧ M 1 0 = -14 ∧ M 1 1 = -2 := by
  refine ⟨_, _, _, rfl, rfl, rfl, ?_⟩
  rw [ex_inv]
  refine ⟨rfl, rfl, rfl, rfl, rfl, rfl, ?_⟩
  unfold invLaa
  rw [ex_gram, one_smul, one_smul, inv_one, Matrix.mul_one]
  obtain ⟨G, hG⟩ : ∃ G, G = !![8, 8, 2; 8, 8, 2; 2, 2, (1 : ℝ)] := ⟨_, rfl⟩
  have g01 : G 0 1 = 8 := by rw [hG]; rfl
  have g02 : G 0 2 = 2 := by rw [hG]; rfl
  have g10 : G 1 0 = 8 := by rw [hG]; rfl
  have g11 : G 1 1 = 8 := by rw [hG]; rfl
  have g12 : G 1 2 = 2 := by rw [hG]; rfl
  have g20 : G 2 0 = 2 := by rw [hG]; rfl
  have g21 : G 2 1 = 2 := by rw [hG]; rfl
  have g22 : G 2 2 = 1 := by rw [hG]; rfl
  rw [← hG]
  simp only [Matrix.sub_apply, Matrix.add_apply, Matrix.mul_apply, Fin.sum_univ_one, Matrix.submatrix_apply, Matrix.cons_val_zero,
    Matrix.cons_val_one]
  norm_num [g01, g02, g10, g11, g12, g20, g21, g22]

/-- **C61**: an example with the default `lambda` for which the returned example is not a minimiser of the evaluation. -/
theorem C61_choice_violation :
    select (n := 2) (a := 1) (b := 2) (id : Fin 3 → Fin 3) (exX * exX.transpose) 1 ![0] ![1, 2] (fun _ => 1) = [1] ∧
      Spec.quireEval ((exX * exX.transpose + (1 : ℝ) • 1)⁻¹) ![0] ![1, 2] (fun _ => 1) 1 <
        Spec.quireEval ((exX * exX.transpose + (1 : ℝ) • 1)⁻¹) ![0] ![1, 2] (fun _ => 1) 0 := by
  have s0 : Subsingleton {k : Fin 2 // k ≠ 0} := ⟨by decide⟩
  have s1 : Subsingleton {k : Fin 2 // k ≠ 1} := ⟨by decide⟩
  obtain ⟨G, L, M, hG, hL, hM, l10, l11, l12, l20, l21, l22, m00, m01, m10, m11⟩ := ex_entries
  have e0 : eva (n := 2) (a := 1) (b := 2) (exX * exX.transpose) 1 ![0] ![1, 2] (fun _ => 1) 0 = some (108943 / 130130) := by
    unfold eva lMat
    rw [hL, hM]
    simp only
    rw [if_neg (by rw [m00]; norm_num)]
    congr 1
    rw [Fin.sum_univ_one, Fintype.sum_subsingleton _ (⟨1, by decide⟩ : {k : Fin 2 // k ≠ 0}),
      Fintype.sum_subsingleton _ (⟨1, by decide⟩ : {k : Fin 2 // k ≠ 0}), Matrix.det_fin_two]
    unfold invLuu
    rw [Matrix.of_apply, Fintype.sum_subsingleton _ (⟨1, by decide⟩ : {k : Fin 2 // k ≠ 0})]
    simp only [Matrix.submatrix_apply, Matrix.cons_val_zero, Matrix.cons_val_one, l10, l11, l12, l20, l21, l22, m00, m01, m10, m11]
    rw [abs_of_neg (by norm_num)]
    norm_num
  have e1 : eva (n := 2) (a := 1) (b := 2) (exX * exX.transpose) 1 ![0] ![1, 2] (fun _ => 1) 1 = some (19143 / 5746) := by
    unfold eva lMat
    rw [hL, hM]
    simp only
    rw [if_neg (by rw [m11]; norm_num)]
    congr 1
    rw [Fin.sum_univ_one, Fintype.sum_subsingleton _ (⟨0, by decide⟩ : {k : Fin 2 // k ≠ 1}),
      Fintype.sum_subsingleton _ (⟨0, by decide⟩ : {k : Fin 2 // k ≠ 1}), Matrix.det_fin_two]
    unfold invLuu
    rw [Matrix.of_apply, Fintype.sum_subsingleton _ (⟨0, by decide⟩ : {k : Fin 2 // k ≠ 1})]
    simp only [Matrix.submatrix_apply, Matrix.cons_val_zero, Matrix.cons_val_one, l10, l11, l12, l20, l21, l22, m00, m01, m10, m11]
    rw [abs_of_neg (by norm_num)]
    norm_num
  constructor
  · rcases select_cases (n := 2) (a := 1) (b := 2) (id : Fin 3 → Fin 3) (exX * exX.transpose) 1 ![0] ![1, 2] (fun _ => 1) le_rfl with
      ⟨h, _⟩ | ⟨i, m, h1, h2, h3⟩
    · have := h 0
      rw [e0] at this
      simp at this
    · rw [h3]
      have hi : i = 0 := by
        by_contra hne
        have : i = 1 := by omega
        subst this
        rw [e1] at h1
        simp only [Option.some.injEq] at h1
        have := h2 0 _ e0
        rw [← h1] at this
        norm_num at this
      subst hi
      rfl
  · unfold Spec.quireEval
    rw [hL]
    simp only
    rw [Matrix.det_fin_two, Matrix.inv_subsingleton, Matrix.inv_subsingleton]
    simp only [dotProduct, Fin.sum_univ_one, Pi.sub_apply, Matrix.vecMul, Matrix.diagonal_apply]
    rw [Fintype.sum_subsingleton _ (⟨0, by decide⟩ : {k : Fin 2 // k ≠ 1}), Fintype.sum_subsingleton _ (⟨0, by decide⟩ : {k : Fin 2 // k ≠ 1}),
      Fintype.sum_subsingleton _ (⟨1, by decide⟩ : {k : Fin 2 // k ≠ 0}), Fintype.sum_subsingleton _ (⟨1, by decide⟩ : {k : Fin 2 // k ≠ 0})]
    simp only [Matrix.submatrix_apply, Matrix.cons_val_zero, Matrix.cons_val_one, l10, l11, l12, l20, l21, l22, Ring.inverse_eq_inv', if_true]
    norm_num [abs_of_nonneg, abs_of_neg]

theorem ex_split : Spec.SplitOfTrain (![2, 3] : Fin 2 → Fin 4) (![0, 1] : Fin 2 → Fin 4) := by
  unfold Spec.SplitOfTrain
  decide

/-- Four examples with orthogonal features, the last two labelled. -/
example (y : Fin 4 → ℝ) : ∃ i, select (n := 3) (id : Fin 4 → Fin 4) 1 1 ![2, 3] ![0, 1] y = [(![0, 1] : Fin 2 → Fin 4) i] ∧
    ∀ j, Spec.quireEval ((1 + (1 : ℝ) • 1)⁻¹) ![2, 3] ![0, 1] y i ≤ Spec.quireEval ((1 + (1 : ℝ) • 1)⁻¹) ![2, 3] ![0, 1] y j :=
  C61_minimum_partial PosSemidef.one one_pos ex_split le_rfl
    (by intro i j; fin_cases i <;> fin_cases j <;> exact Matrix.one_apply_ne (by decide)) id y

end Alipy.Quire
