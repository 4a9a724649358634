import Verif.Model.MLQuire
import Verif.Spec.MLQuire
import Verif.Props.Quire
import Mathlib.Analysis.Matrix.Order

/-! # C89: multi-label QUIRE -/
namespace Alipy.MLQuire
open Matrix

variable {n C a b : Nat}

/-! ## The matrix -/

theorem lkr_apply (L : Matrix (Fin n) (Fin n) ℝ) (p q : Fin n × Fin C) : lkr L p q = if p.2 = q.2 then L p.1 q.1 else 0 := by
  have d : ∀ p : Fin n × Fin C, pos p / n = p.2.val ∧ pos p % n = p.1.val := by
    intro p
    have h1 := p.1.isLt
    have hn : 0 < n := Nat.lt_of_le_of_lt (Nat.zero_le _) h1
    unfold pos
    rw [Nat.add_mul_div_right _ _ hn, Nat.div_eq_of_lt h1, Nat.add_mul_mod_self_right, Nat.mod_eq_of_lt h1]
    exact ⟨Nat.zero_add _, rfl⟩
  unfold lkr kron entry
  rw [Matrix.of_apply, (d p).1, (d p).2, (d q).1, (d q).2]
  by_cases h : p.2 = q.2
  · simp [h]
  · have h' : ¬ p.2.val = q.2.val := fun e => h (Fin.ext e)
    simp [h, h']

theorem lkr_posDef {L : Matrix (Fin n) (Fin n) ℝ} (hL : L.PosDef) : (lkr L : Matrix (Fin n × Fin C) (Fin n × Fin C) ℝ).PosDef := by
  have h := (hL.kronecker (PosDef.one : (1 : Matrix (Fin C) (Fin C) ℝ).PosDef))
  have e : lkr L = Matrix.kroneckerMap (· * ·) L (1 : Matrix (Fin C) (Fin C) ℝ) := by
    ext p q
    rw [lkr_apply]
    simp only [Matrix.kroneckerMap_apply, Matrix.one_apply]
    split <;> simp
  rw [e]
  exact h

theorem energy_eq (L : Matrix (Fin n) (Fin n) ℝ) (Y : Fin n → Fin C → ℝ) : Spec.energy L Y = ∑ p : Fin n × Fin C, ∑ q : Fin n × Fin C, Y p.1 p.2 * lkr L p q * Y q.1 q.2 := by
  unfold Spec.energy
  rw [Finset.sum_comm, Fintype.sum_prod_type]
  refine Finset.sum_congr rfl fun i _ => Finset.sum_congr rfl fun l _ => ?_
  rw [Fintype.sum_prod_type]
  refine Finset.sum_congr rfl fun j _ => ?_
  rw [Finset.sum_eq_single l]
  · rw [lkr_apply]; simp
  · intro l' _ h
    rw [lkr_apply]
    simp [Ne.symm h]
  · simp

/-! ## The least energy -/

/-- Completing the square. -/
theorem square {ι : Type} [Fintype ι] [DecidableEq ι] {A : Matrix ι ι ℝ} (hA : A.PosDef) (w r : ι → ℝ) :
    r ⬝ᵥ A *ᵥ r + 2 * (w ⬝ᵥ r) = (r + A⁻¹ *ᵥ w) ⬝ᵥ A *ᵥ (r + A⁻¹ *ᵥ w) - w ⬝ᵥ A⁻¹ *ᵥ w := by
  have hu : IsUnit A.det := (Matrix.isUnit_iff_isUnit_det _).1 hA.isUnit
  have hs : Aᵀ = A := by simpa [Matrix.IsHermitian, Matrix.conjTranspose_eq_transpose_of_trivial] using hA.isHermitian
  have e1 : A *ᵥ (A⁻¹ *ᵥ w) = w := by rw [mulVec_mulVec, Matrix.mul_nonsing_inv _ hu, one_mulVec]
  have e2 : (A⁻¹ *ᵥ w) ⬝ᵥ A *ᵥ r = w ⬝ᵥ r := by
    rw [dotProduct_mulVec, ← mulVec_transpose, hs, e1]
  rw [mulVec_add, dotProduct_add, add_dotProduct, add_dotProduct, e1, e2, dotProduct_comm r w, dotProduct_comm (A⁻¹ *ᵥ w) w]
  ring

theorem square_min {ι : Type} [Fintype ι] [DecidableEq ι] {A : Matrix ι ι ℝ} (hA : A.PosDef) (w r : ι → ℝ) : -(w ⬝ᵥ A⁻¹ *ᵥ w) ≤ r ⬝ᵥ A *ᵥ r + 2 * (w ⬝ᵥ r) := by
  rw [square hA]
  have := hA.posSemidef.dotProduct_mulVec_nonneg (r + A⁻¹ *ᵥ w)
  simp only [star_trivial] at this
  linarith

theorem square_attained {ι : Type} [Fintype ι] [DecidableEq ι] {A : Matrix ι ι ℝ} (hA : A.PosDef) (w : ι → ℝ) :
    (-(A⁻¹ *ᵥ w)) ⬝ᵥ A *ᵥ (-(A⁻¹ *ᵥ w)) + 2 * (w ⬝ᵥ (-(A⁻¹ *ᵥ w))) = -(w ⬝ᵥ A⁻¹ *ᵥ w) := by
  rw [square hA]
  simp

/-- The energy of the known pairs, which is the same for all candidates. -/
noncomputable def known (L : Matrix (Fin n) (Fin n) ℝ) (S : Fin a → Fin n × Fin C) (y : Fin n → Fin C → ℝ) : ℝ :=
  ∑ j, ∑ k, y (S j).1 (S j).2 * lkr L (S j) (S k) * y (S k).1 (S k).2

theorem lkr_symm {L : Matrix (Fin n) (Fin n) ℝ} (hL : L.PosDef) (p q : Fin n × Fin C) : lkr L p q = lkr L q p := by
  have := (lkr_posDef (C := C) hL).isHermitian.apply p q
  simpa using this.symm

/-- The energy of a completion. -/
theorem energy_split {L : Matrix (Fin n) (Fin n) ℝ} (hL : L.PosDef) {S : Fin a → Fin n × Fin C} {U : Fin b → Fin n × Fin C} (hp : Spec.Apart S U) {y : Fin n → Fin C → ℝ} {i : Fin b} {s : ℝ}
    {Y : Fin n → Fin C → ℝ} (hY : Spec.Completes S U y (U i) s Y) :
    Spec.energy L Y = known L S y + s ^ 2 * lkr L (U i) (U i) + 2 * s * ysLsu L S U (fun j => y (S j).1 (S j).2) i +
      ((fun k : {k : Fin b // k ≠ i} => Y (U k).1 (U k).2) ⬝ᵥ ((lkr L).submatrix (fun k : {k : Fin b // k ≠ i} => U k) (fun k : {k : Fin b // k ≠ i} => U k)) *ᵥ (fun k : {k : Fin b // k ≠ i} => Y (U k).1 (U k).2) +
        2 * ((fun k : {k : Fin b // k ≠ i} => ysLsu L S U (fun j => y (S j).1 (S j).2) k + s * lkr L (U i) (U k)) ⬝ᵥ (fun k : {k : Fin b // k ≠ i} => Y (U k).1 (U k).2))) := by
  obtain ⟨h1, h2, h3⟩ := hY
  have hout : ∀ p : Fin n × Fin C, p ∉ Set.range (Sum.elim S U) → Y p.1 p.2 = 0 := by
    intro p hp
    apply h3
    · intro j e; exact hp ⟨.inl j, e⟩
    · intro k e; exact hp ⟨.inr k, e⟩
  have red : ∀ g : Fin n × Fin C → ℝ, (∀ p, Y p.1 p.2 = 0 → g p = 0) → ∑ p, g p = ∑ j, g (S j) + (g (U i) + ∑ k : {k : Fin b // k ≠ i}, g (U k)) := by
    intro g hg
    rw [← Fintype.sum_of_injective (Sum.elim S U) hp (fun x => g (Sum.elim S U x)) g (fun p hp => hg p (hout p hp)) (fun _ => rfl), Fintype.sum_sum_type,
      Fintype.sum_eq_add_sum_subtype_ne (fun k => g (Sum.elim S U (Sum.inr k))) i]
    rfl
  rw [energy_eq, red _ (fun p hp => by simp [hp])]
  have inner : ∀ p, ∑ q : Fin n × Fin C, Y p.1 p.2 * lkr L p q * Y q.1 q.2 = ∑ j, Y p.1 p.2 * lkr L p (S j) * y (S j).1 (S j).2 + (Y p.1 p.2 * lkr L p (U i) * s +
      ∑ k : {k : Fin b // k ≠ i}, Y p.1 p.2 * lkr L p (U k) * Y (U k).1 (U k).2) := by
    intro p
    rw [red _ (fun q hq => by simp [hq])]
    simp only [h1, h2]
  simp only [inner]
  simp only [h1, h2]
  unfold known ysLsu
  simp only [dotProduct, mulVec, Matrix.submatrix_apply]
  simp only [Finset.sum_add_distrib, Finset.mul_sum, Finset.sum_mul, mul_add, add_mul]
  have c1 : ∑ k : {k : Fin b // k ≠ i}, ∑ j, Y (U k).1 (U k).2 * lkr L (U k) (S j) * y (S j).1 (S j).2 =
      ∑ k : {k : Fin b // k ≠ i}, ∑ j, y (S j).1 (S j).2 * lkr L (S j) (U k) * Y (U k).1 (U k).2 :=
    Finset.sum_congr rfl fun k _ => Finset.sum_congr rfl fun j _ => by rw [lkr_symm hL (U k) (S j)]; ring
  have c2 : ∑ j, ∑ k : {k : Fin b // k ≠ i}, y (S j).1 (S j).2 * lkr L (S j) (U k) * Y (U k).1 (U k).2 =
      ∑ k : {k : Fin b // k ≠ i}, ∑ j, y (S j).1 (S j).2 * lkr L (S j) (U k) * Y (U k).1 (U k).2 := Finset.sum_comm
  have c3 : ∑ j, s * lkr L (U i) (S j) * y (S j).1 (S j).2 = ∑ j, y (S j).1 (S j).2 * lkr L (S j) (U i) * s :=
    Finset.sum_congr rfl fun j _ => by rw [lkr_symm hL (U i) (S j)]; ring
  have c4 : ∑ k : {k : Fin b // k ≠ i}, Y (U k).1 (U k).2 * lkr L (U k) (U i) * s = ∑ k : {k : Fin b // k ≠ i}, s * lkr L (U i) (U k) * Y (U k).1 (U k).2 :=
    Finset.sum_congr rfl fun k _ => by rw [lkr_symm hL (U k) (U i)]; ring
  have c5 : ∑ j, 2 * s * (y (S j).1 (S j).2 * lkr L (S j) (U i)) = 2 * ∑ j, y (S j).1 (S j).2 * lkr L (S j) (U i) * s := by
    rw [Finset.mul_sum]
    exact Finset.sum_congr rfl fun j _ => by ring
  have c6 : ∑ k : {k : Fin b // k ≠ i}, ∑ j, 2 * (y (S j).1 (S j).2 * lkr L (S j) (U k) * Y (U k).1 (U k).2) =
      2 * ∑ k : {k : Fin b // k ≠ i}, ∑ j, y (S j).1 (S j).2 * lkr L (S j) (U k) * Y (U k).1 (U k).2 := by
    simp only [Finset.mul_sum]
  have c7 : ∑ k : {k : Fin b // k ≠ i}, 2 * (s * lkr L (U i) (U k) * Y (U k).1 (U k).2) = 2 * ∑ k : {k : Fin b // k ≠ i}, s * lkr L (U i) (U k) * Y (U k).1 (U k).2 := by
    rw [Finset.mul_sum]
  have c8 : ∑ k : {k : Fin b // k ≠ i}, ∑ l : {k : Fin b // k ≠ i}, Y (U k).1 (U k).2 * (lkr L (U k) (U l) * Y (U l).1 (U l).2) =
      ∑ k : {k : Fin b // k ≠ i}, ∑ l : {k : Fin b // k ≠ i}, Y (U k).1 (U k).2 * lkr L (U k) (U l) * Y (U l).1 (U l).2 :=
    Finset.sum_congr rfl fun k _ => Finset.sum_congr rfl fun j _ => by ring
  rw [c1, c2, c3, c4, c5, c6, c7, c8]
  ring

/-- The least energy. -/
theorem least_eq {L : Matrix (Fin n) (Fin n) ℝ} (hL : L.PosDef) {S : Fin a → Fin n × Fin C} {U : Fin b → Fin n × Fin C} (hp : Spec.Apart S U) (y : Fin n → Fin C → ℝ) (i : Fin b) (s : ℝ) :
    Spec.Least L S U y (U i) s (known L S y + s ^ 2 * lkr L (U i) (U i) + 2 * s * ysLsu L S U (fun j => y (S j).1 (S j).2) i -
      (fun k : {k : Fin b // k ≠ i} => ysLsu L S U (fun j => y (S j).1 (S j).2) k + s * lkr L (U i) (U k)) ⬝ᵥ
        ((lkr L).submatrix (fun k : {k : Fin b // k ≠ i} => U k) (fun k : {k : Fin b // k ≠ i} => U k))⁻¹ *ᵥ
          (fun k : {k : Fin b // k ≠ i} => ysLsu L S U (fun j => y (S j).1 (S j).2) k + s * lkr L (U i) (U k))) := by
  have hA : ((lkr L).submatrix (fun k : {k : Fin b // k ≠ i} => U k) (fun k : {k : Fin b // k ≠ i} => U k)).PosDef := by
    apply (lkr_posDef hL).submatrix
    intro k l h
    have := @hp (.inr k) (.inr l) h
    exact Subtype.ext (by simpa using this)
  constructor
  · set w : {k : Fin b // k ≠ i} → ℝ := fun k => ysLsu L S U (fun j => y (S j).1 (S j).2) k + s * lkr L (U i) (U k) with hw
    set A := (lkr L).submatrix (fun k : {k : Fin b // k ≠ i} => U k) (fun k : {k : Fin b // k ≠ i} => U k) with hAdef
    let r : {k : Fin b // k ≠ i} → ℝ := -(A⁻¹ *ᵥ w)
    let Y : Fin n → Fin C → ℝ := fun e l => Function.extend (Sum.elim S U) (Sum.elim (fun j => y (S j).1 (S j).2) (fun k => if h : k ≠ i then r ⟨k, h⟩ else s)) 0 (e, l)
    have hYS : ∀ j, Y (S j).1 (S j).2 = y (S j).1 (S j).2 := fun j => hp.extend_apply _ _ (Sum.inl j)
    have hYU : ∀ k, Y (U k).1 (U k).2 = if h : k ≠ i then r ⟨k, h⟩ else s := fun k => hp.extend_apply _ _ (Sum.inr k)
    have hY : Spec.Completes S U y (U i) s Y := by
      refine ⟨hYS, by rw [hYU]; simp, ?_⟩
      intro e l h1 h2
      refine Function.extend_apply' _ _ _ ?_
      rintro ⟨x | x, hx⟩
      · exact h1 x hx
      · exact h2 x hx
    refine ⟨Y, hY, ?_⟩
    rw [energy_split hL hp hY]
    have hr : (fun k : {k : Fin b // k ≠ i} => Y (U k).1 (U k).2) = r := by
      funext k
      rw [hYU, dif_pos k.2]
    rw [hr, ← hAdef, ← hw, square_attained hA w]
    ring
  · rintro e ⟨Y, hY, rfl⟩
    rw [energy_split hL hp hY]
    have := square_min hA (fun k : {k : Fin b // k ≠ i} => ysLsu L S U (fun j => y (S j).1 (S j).2) k + s * lkr L (U i) (U k)) (fun k : {k : Fin b // k ≠ i} => Y (U k).1 (U k).2)
    linarith

/-! ## The inverse -/

theorem inv_sub {A : Matrix (Fin b) (Fin b) ℝ} (hA : A.PosDef) (i : Fin b) (h : b ≤ 2 ∨ ∀ k, k ≠ i → A i k = 0) :
    invLrr A⁻¹ i = (A.submatrix (Subtype.val : {k : Fin b // k ≠ i} → Fin b) (Subtype.val : {k : Fin b // k ≠ i} → Fin b))⁻¹ := by
  have hu : IsUnit A.det := (Matrix.isUnit_iff_isUnit_det _).1 hA.isUnit
  have hpos : 0 < A⁻¹ i i := hA.inv.diag_pos
  have hsym : ∀ k, A⁻¹ i k = A⁻¹ k i := fun k => by simpa using hA.inv.isHermitian.apply k i
  rw [Quire.downdate A hu i hpos.ne']
  ext j k
  unfold invLrr
  rw [Matrix.of_apply, Matrix.of_apply]
  have key : ∑ t : {k : Fin b // k ≠ i}, -A⁻¹ i t * -A⁻¹ i t = A⁻¹ j i * A⁻¹ i k := by
    rcases h with h | h
    · have hj : ∀ t : {k : Fin b // k ≠ i}, t = j := by
        intro t
        have h1 := t.2
        have h2 := j.2
        have h3 := t.1.isLt
        have h4 := j.1.isLt
        have h5 := i.isLt
        rw [Ne, Fin.ext_iff] at h1 h2
        exact Subtype.ext (Fin.ext (by omega))
      rw [Fintype.sum_eq_single j (fun t ht => absurd (hj t) ht), hj k, hsym j]
      ring
    · have hz : ∀ k, k ≠ i → A⁻¹ i k = 0 := by
        intro k hk
        have := congrFun (congrFun (Matrix.mul_nonsing_inv _ hu) i) k
        rw [Matrix.mul_apply, Finset.sum_eq_single i, Matrix.one_apply_ne (Ne.symm hk)] at this
        · rcases mul_eq_zero.1 this with h' | h'
          · exact absurd h' hA.diag_pos.ne'
          · exact h'
        · intro t _ ht
          rw [h t ht, zero_mul]
        · simp
      rw [hz k.1 k.2, mul_zero]
      refine Finset.sum_eq_zero fun t _ => ?_
      rw [hz t.1 t.2]
      ring
  rw [key]
  ring

/-- `np.linalg.pinv` is the inverse, if there is one. -/
def Inverts (pinv : ∀ m : Nat, Matrix (Fin m) (Fin m) ℝ → Matrix (Fin m) (Fin m) ℝ) : Prop := ∀ m A, IsUnit A → pinv m A = A⁻¹

theorem lMat_eq {pinv : ∀ m : Nat, Matrix (Fin m) (Fin m) ℝ → Matrix (Fin m) (Fin m) ℝ} (hi : Inverts pinv) {Km : Matrix (Fin n) (Fin n) ℝ} (hK : Km.PosSemidef) {lam : ℝ} (hl : 0 < lam) :
    lMat pinv Km lam = (Km + lam • 1)⁻¹ := hi _ _ (Quire.posDef_reg hK hl).isUnit

theorem value_eq {pinv : ∀ m : Nat, Matrix (Fin m) (Fin m) ℝ → Matrix (Fin m) (Fin m) ℝ} (hi : Inverts pinv) {L : Matrix (Fin n) (Fin n) ℝ} (hL : L.PosDef) {S : Fin a → Fin n × Fin C}
    {U : Fin b → Fin n × Fin C} (hp : Spec.Apart S U) (y : Fin n → Fin C → ℝ) (i : Fin b) (h : b ≤ 2 ∨ ∀ k, k ≠ i → (U i).2 ≠ (U k).2) :
    Spec.Evaluation L S U y (U i) (value pinv L S U (fun j => y (S j).1 (S j).2) i + known L S y) := by
  have hU : Function.Injective U := fun k l hkl => by simpa using @hp (.inr k) (.inr l) hkl
  have hA : ((lkr L).submatrix U U).PosDef := (lkr_posDef hL).submatrix hU
  have hR := inv_sub hA i (by
    rcases h with h | h
    · exact Or.inl h
    · refine Or.inr fun k hk => ?_
      rw [Matrix.submatrix_apply, lkr_apply, if_neg (h k hk)])
  refine ⟨_, _, least_eq hL hp y i 1, least_eq hL hp y i (-1), ?_⟩
  unfold value
  dsimp only
  rw [hi _ _ hA.isUnit, hR, ← max_add_add_right]
  have sub : ((lkr L).submatrix U U).submatrix (Subtype.val : {k : Fin b // k ≠ i} → Fin b) (Subtype.val : {k : Fin b // k ≠ i} → Fin b) =
      (lkr L).submatrix (fun k : {k : Fin b // k ≠ i} => U k) (fun k : {k : Fin b // k ≠ i} => U k) := rfl
  rw [sub, ← dotProduct_mulVec, ← dotProduct_mulVec]
  congr 1
  · have e : (fun k : {k : Fin b // k ≠ i} => ysLsu L S U (fun j => y (S j).1 (S j).2) k + 1 * lkr L (U i) (U k)) =
        (fun k : {k : Fin b // k ≠ i} => ysLsu L S U (fun j => y (S j).1 (S j).2) k) + fun k : {k : Fin b // k ≠ i} => (lkr L).submatrix U U i k := by
      funext k; simp
    rw [e, Matrix.submatrix_apply]
    ring
  · have e : (fun k : {k : Fin b // k ≠ i} => ysLsu L S U (fun j => y (S j).1 (S j).2) k + (-1) * lkr L (U i) (U k)) =
        (fun k : {k : Fin b // k ≠ i} => ysLsu L S U (fun j => y (S j).1 (S j).2) k) - fun k : {k : Fin b // k ≠ i} => (lkr L).submatrix U U i k := by
      funext k; simp; ring
    rw [e, Matrix.submatrix_apply]
    ring

/-! ## The property -/

/-- **C89** (what is computed, for a pool of at most two pairs or of pairs of different labels): up to a constant, the value of a pair is its evaluation for a label matrix in which the
known labels are permuted as the iteration order of `label_index` differs from the sorted order. -/
theorem C89_value_partial {pinv : ∀ m : Nat, Matrix (Fin m) (Fin m) ℝ → Matrix (Fin m) (Fin m) ℝ} (hi : Inverts pinv) {Km : Matrix (Fin n) (Fin n) ℝ} (hK : Km.PosSemidef) {lam : ℝ}
    (hl : 0 < lam) {S : Fin a → Fin n × Fin C} {U : Fin b → Fin n × Fin C} (hp : Spec.Apart S U) (hU : b ≤ 2 ∨ ∀ j k, j ≠ k → (U j).2 ≠ (U k).2) {y y' : Fin n → Fin C → ℝ}
    {order : Equiv.Perm (Fin a)} (hy : ∀ j, y' (S j).1 (S j).2 = y (S (order j)).1 (S (order j)).2) :
    ∃ c, ∀ i, Spec.Evaluation (Km + lam • 1)⁻¹ S U y' (U i) (vals pinv (lMat pinv Km lam) y S order U i + c) := by
  refine ⟨known (Km + lam • 1)⁻¹ S y', fun i => ?_⟩
  have := value_eq hi (Quire.posDef_reg hK hl).inv hp y' i (by
    rcases hU with h | h
    · exact Or.inl h
    · exact Or.inr fun k hk => h i k (Ne.symm hk))
  rw [lMat_eq hi hK hl]
  unfold vals
  simpa only [hy] using this

theorem select_pair {pinv : ∀ m : Nat, Matrix (Fin m) (Fin m) ℝ → Matrix (Fin m) (Fin m) ℝ} {Km : Matrix (Fin n) (Fin n) ℝ} {lam : ℝ} {y : Fin n → Fin C → ℝ} {S : Fin a → Fin n × Fin C}
    {order : Equiv.Perm (Fin a)} {U : Fin b → Fin n × Fin C} (hb : 0 < b) : ∃ i, select pinv Km lam y S order U = some (U i) ∧
      (∀ j, vals pinv (lMat pinv Km lam) y S order U i ≤ vals pinv (lMat pinv Km lam) y S order U j) ∧
      ∀ j, j < i → vals pinv (lMat pinv Km lam) y S order U i < vals pinv (lMat pinv Km lam) y S order U j := by
  classical
  generalize hv : vals pinv (lMat pinv Km lam) y S order U = v
  haveI : Nonempty (Fin b) := ⟨⟨0, hb⟩⟩
  obtain ⟨m, hm⟩ := Finite.exists_min v
  unfold select
  dsimp only
  rw [hv]
  cases hf : (List.finRange b).find? (fun i => decide (∀ j, v i ≤ v j)) with
  | none =>
    rw [List.find?_eq_none] at hf
    have := hf m (List.mem_finRange m)
    simp at this
    obtain ⟨j, hj⟩ := this
    exact absurd (hm j) (not_le.2 hj)
  | some i =>
    have h1 := List.find?_some hf
    simp only [decide_eq_true_eq] at h1
    refine ⟨i, ?_, h1, ?_⟩
    · have h2 := (U i).1.isLt
      have hn : 0 < n := Nat.lt_of_le_of_lt (Nat.zero_le _) h2
      simp only [Option.map_some, Option.some.injEq]
      refine Prod.ext (Fin.ext ?_) (Fin.ext ?_)
      · simp [pos, Nat.add_mul_mod_self_right, Nat.mod_eq_of_lt h2]
      · simp [pos, Nat.add_mul_div_right _ _ hn, Nat.div_eq_of_lt h2]
    · intro j hj
      rw [List.find?_eq_some_iff_getElem] at hf
      obtain ⟨_, k, hk, hki, hlt⟩ := hf
      simp only [List.getElem_finRange] at hki
      have hji : (j : Nat) < k := by
        have : (i : Nat) = k := by rw [← hki]; rfl
        rw [← this]
        exact hj
      have := hlt j hji
      simp only [List.getElem_finRange] at this
      have hcast : (Fin.cast (by simp) (⟨(j : Nat), by have := j.isLt; simp⟩ : Fin (List.finRange b).length) : Fin b) = j := rfl
      simp at this
      obtain ⟨x, hx⟩ := this
      exact lt_of_le_of_lt (h1 x) hx

/-- **C89** (partial: the set of known pairs is iterated in sorted order, and the pool has at most two pairs or pairs of different labels): the pair returned is one of the pool with
the smallest evaluation. -/
theorem C89_select_partial {pinv : ∀ m : Nat, Matrix (Fin m) (Fin m) ℝ → Matrix (Fin m) (Fin m) ℝ} (hi : Inverts pinv) {Km : Matrix (Fin n) (Fin n) ℝ} (hK : Km.PosSemidef) {lam : ℝ}
    (hl : 0 < lam) {S : Fin a → Fin n × Fin C} {U : Fin b → Fin n × Fin C} (hb : 0 < b) (hp : Spec.Apart S U) (hU : b ≤ 2 ∨ ∀ j k, j ≠ k → (U j).2 ≠ (U k).2) (y : Fin n → Fin C → ℝ) :
    ∃ i m, select pinv Km lam y S 1 U = some (U i) ∧ Spec.Evaluation (Km + lam • 1)⁻¹ S U y (U i) m ∧
      ∀ j m', Spec.Evaluation (Km + lam • 1)⁻¹ S U y (U j) m' → m ≤ m' := by
  obtain ⟨i, h1, h2, _⟩ := select_pair (pinv := pinv) (Km := Km) (lam := lam) (y := y) (S := S) (order := 1) (U := U) hb
  obtain ⟨c, hc⟩ := C89_value_partial hi hK hl hp hU (y := y) (y' := y) (order := 1) (fun _ => rfl)
  refine ⟨i, _, h1, hc i, fun j m' hm' => ?_⟩
  obtain ⟨p, r, e1, e2, rfl⟩ := hm'
  obtain ⟨p', r', e1', e2', h⟩ := hc j
  rw [e1.unique e1', e2.unique e2', ← h]
  linarith [h2 j]

/-- **C89** (violation): with at least three pairs in the pool, what the code takes for the inverse without the pair in question is that inverse only if this pair is unrelated to all
others in the inverse of the whole. -/
theorem C89_downdate_violation (hb : 3 ≤ b) (A : Matrix (Fin b) (Fin b) ℝ) (hA : A.PosDef) (i : Fin b) :
    invLrr A⁻¹ i = (A.submatrix (Subtype.val : {k : Fin b // k ≠ i} → Fin b) (Subtype.val : {k : Fin b // k ≠ i} → Fin b))⁻¹ ↔ ∀ k, k ≠ i → A⁻¹ k i = 0 := by
  rw [← Quire.C61_downdate_violation hb A hA i]
  have : invLrr A⁻¹ i = Quire.invLuu A⁻¹ i := by
    have hsym : ∀ k, A⁻¹ i k = A⁻¹ k i := fun k => by simpa using hA.inv.isHermitian.apply k i
    unfold invLrr Quire.invLuu
    ext j k
    rw [Matrix.of_apply, Matrix.of_apply]
    simp only [hsym]
    have : ∑ t : {k : Fin b // k ≠ i}, -A⁻¹ t i * -A⁻¹ t i = ∑ t : {k : Fin b // k ≠ i}, A⁻¹ t i * A⁻¹ t i := Finset.sum_congr rfl fun t _ => by ring
    rw [this]
    ring
  rw [this]

/-! ### Two executions -/

theorem sum_ne (i : Fin b) (f : Fin b → ℝ) : ∑ k : {k : Fin b // k ≠ i}, f k = ∑ k, if k = i then 0 else f k := by
  rw [Fintype.sum_eq_add_sum_subtype_ne (fun k => if k = i then 0 else f k) i, if_pos rfl, zero_add]
  exact Finset.sum_congr rfl fun k _ => by rw [if_neg k.2]

theorem quad_ne (i : Fin b) (w : Fin b → ℝ) (M : Fin b → Fin b → ℝ) :
    Matrix.vecMul (fun k : {k : Fin b // k ≠ i} => w k) (Matrix.of fun j k : {k : Fin b // k ≠ i} => M j k) ⬝ᵥ (fun k : {k : Fin b // k ≠ i} => w k) =
      ∑ k, if k = i then 0 else (∑ t, if t = i then 0 else w t * M t k) * w k := by
  rw [← sum_ne i (fun k => (∑ t, if t = i then 0 else w t * M t k) * w k)]
  unfold dotProduct Matrix.vecMul dotProduct
  refine Finset.sum_congr rfl fun k _ => ?_
  simp only [Matrix.of_apply]
  rw [← sum_ne i (fun t => w t * M t k)]

theorem value_sums {pinv : ∀ m : Nat, Matrix (Fin m) (Fin m) ℝ → Matrix (Fin m) (Fin m) ℝ} {L : Matrix (Fin n) (Fin n) ℝ} {S : Fin a → Fin n × Fin C} {U : Fin b → Fin n × Fin C}
    {Ys : Fin a → ℝ} {LL : Matrix (Fin b) (Fin b) ℝ} (hLL : pinv b ((lkr L).submatrix U U) = LL) (i : Fin b) :
    value pinv L S U Ys i =
      max (lkr L (U i) (U i) + (2 * ysLsu L S U Ys i - ∑ k, if k = i then 0 else (∑ t, if t = i then 0 else (ysLsu L S U Ys t + lkr L (U i) (U t)) *
          (LL t k - (∑ t, if t = i then 0 else -LL i t * -LL i t) / LL i i)) * (ysLsu L S U Ys k + lkr L (U i) (U k))))
        (lkr L (U i) (U i) + (-(2 * ysLsu L S U Ys i) - ∑ k, if k = i then 0 else (∑ t, if t = i then 0 else (ysLsu L S U Ys t - lkr L (U i) (U t)) *
          (LL t k - (∑ t, if t = i then 0 else -LL i t * -LL i t) / LL i i)) * (ysLsu L S U Ys k - lkr L (U i) (U k)))) := by
  unfold value invLrr
  dsimp only
  rw [hLL, sum_ne i (fun t => -LL i t * -LL i t)]
  rw [← quad_ne i (fun t => ysLsu L S U Ys t + lkr L (U i) (U t)) (fun t k => LL t k - (∑ t, if t = i then 0 else -LL i t * -LL i t) / LL i i),
    ← quad_ne i (fun t => ysLsu L S U Ys t - lkr L (U i) (U t)) (fun t k => LL t k - (∑ t, if t = i then 0 else -LL i t * -LL i t) / LL i i)]
  rfl

/-- Two examples with the same feature 2. -/
theorem gram4 : (!![4, 4; 4, 4] : Matrix (Fin 2) (Fin 2) ℝ).PosSemidef := by
  have := posSemidef_self_mul_conjTranspose (!![2; 2] : Matrix (Fin 2) (Fin 1) ℝ)
  convert this using 1
  ext i j
  fin_cases i <;> fin_cases j <;> simp [Matrix.mul_apply] <;> norm_num

theorem inv4 : ((!![4, 4; 4, 4] : Matrix (Fin 2) (Fin 2) ℝ) + (1 : ℝ) • 1)⁻¹ = !![5 / 9, -4 / 9; -4 / 9, 5 / 9] := by
  refine Matrix.inv_eq_right_inv ?_
  ext i j
  fin_cases i <;> fin_cases j <;> simp [Matrix.mul_apply, Fin.sum_univ_two] <;> norm_num

/-- **C89** (violation): two examples with the one feature 2, the linear kernel and the default `lambda`, two labels; of the four pairs one is known. The pair returned has a larger
evaluation than another one. -/
theorem C89_choice_violation {pinv : ∀ m : Nat, Matrix (Fin m) (Fin m) ℝ → Matrix (Fin m) (Fin m) ℝ} (hi : Inverts pinv) :
    let S : Fin 1 → Fin 2 × Fin 2 := ![(1, 1)]
    let U : Fin 3 → Fin 2 × Fin 2 := ![(0, 0), (1, 0), (0, 1)]
    let K : Matrix (Fin 2) (Fin 2) ℝ := !![4, 4; 4, 4]
    select pinv K 1 (fun _ _ => 1) S 1 U = some (0, 1) ∧
      ∃ m m', Spec.Evaluation (K + (1 : ℝ) • 1)⁻¹ S U (fun _ _ => 1) (0, 0) m ∧ Spec.Evaluation (K + (1 : ℝ) • 1)⁻¹ S U (fun _ _ => 1) (0, 1) m' ∧ m < m' := by
  intro S U K
  have hL : (!![5 / 9, -4 / 9; -4 / 9, 5 / 9] : Matrix (Fin 2) (Fin 2) ℝ).PosDef := inv4 ▸ (Quire.posDef_reg gram4 one_pos).inv
  have hUinj : Function.Injective U := by decide
  have hp : Spec.Apart S U := by
    unfold Spec.Apart
    decide
  have hLL : pinv 3 ((lkr !![5 / 9, -4 / 9; -4 / 9, 5 / 9]).submatrix U U) = !![5, 4, 0; 4, 5, 0; 0, 0, 9 / 5] := by
    rw [hi _ _ ((lkr_posDef hL).submatrix hUinj).isUnit]
    refine Matrix.inv_eq_right_inv ?_
    ext i j
    rw [Matrix.mul_apply, Fin.sum_univ_three]
    simp only [Matrix.submatrix_apply, lkr_apply]
    fin_cases i <;> fin_cases j <;> simp [U] <;> norm_num
  have hv : ∀ i, vals pinv (lMat pinv K 1) (fun _ _ => 1) S 1 U i = (![47 / 27, 47 / 27, 13 / 9] : Fin 3 → ℝ) i := by
    intro i
    rw [lMat_eq hi gram4 one_pos, inv4]
    unfold vals
    rw [value_sums hLL]
    fin_cases i <;> simp [Fin.sum_univ_three, ysLsu, lkr_apply, U, S] <;> norm_num
  obtain ⟨i, h1, h2, _⟩ := select_pair (pinv := pinv) (Km := K) (lam := 1) (y := fun _ _ => 1) (S := S) (order := 1) (U := U) (by norm_num)
  have hi2 : i = 2 := by
    have := h2 2
    rw [hv, hv] at this
    fin_cases i
    · simp at this; norm_num at this
    · simp at this; norm_num at this
    · rfl
  refine ⟨by rw [h1, hi2]; rfl, ?_⟩
  rw [inv4]
  have l0 := fun s => least_eq hL hp (fun _ _ => 1) 0 s
  have l2 := fun s => least_eq hL hp (fun _ _ => 1) 2 s
  refine ⟨_, _, ⟨_, _, l0 1, l0 (-1), rfl⟩, ⟨_, _, l2 1, l2 (-1), rfl⟩, ?_⟩
  have up : ∀ s : ℝ, s = 1 ∨ s = -1 → ∀ m, Spec.Least !![5 / 9, -4 / 9; -4 / 9, 5 / 9] S U (fun _ _ => 1) (U 0) s m → m ≤ 10 / 9 := by
    intro s hs m hm
    refine le_trans (hm.2 ⟨!![s, 0; 0, 1], ⟨?_, ?_, ?_⟩, rfl⟩) (le_of_eq ?_)
    · intro j; fin_cases j; simp [S]
    · simp [U]
    · intro e l h1 h2
      have a1 := h1 0
      have b1 := h2 0
      have b2 := h2 1
      have b3 := h2 2
      fin_cases e <;> fin_cases l <;> simp [S, U] at a1 b1 b2 b3 ⊢
    · unfold Spec.energy
      rcases hs with rfl | rfl <;> simp [Fin.sum_univ_two] <;> norm_num
  have low : ∀ m, Spec.Least !![5 / 9, -4 / 9; -4 / 9, 5 / 9] S U (fun _ _ => 1) (U 2) (-1) m → 2 ≤ m := by
    intro m hm
    obtain ⟨Y, ⟨y1, y2, _⟩, rfl⟩ := hm.1
    have z1 := y1 0
    simp [S] at z1
    simp [U] at y2
    unfold Spec.energy
    simp [Fin.sum_univ_two, z1, y2]
    nlinarith [sq_nonneg (Y 0 0 - Y 1 0), sq_nonneg (Y 0 0), sq_nonneg (Y 1 0)]
  refine lt_of_le_of_lt (max_le (up 1 (Or.inl rfl) _ (l0 1)) (up (-1) (Or.inr rfl) _ (l0 (-1)))) (lt_of_lt_of_le ?_ (le_max_of_le_right (low _ (l2 (-1)))))
  norm_num

/-- Three examples with the same features. -/
theorem gram1 : (Matrix.of fun _ _ => 1 : Matrix (Fin 3) (Fin 3) ℝ).PosSemidef := by
  have := posSemidef_self_mul_conjTranspose (!![1; 1; 1] : Matrix (Fin 3) (Fin 1) ℝ)
  convert this using 1
  ext i j
  fin_cases i <;> fin_cases j <;> simp [Matrix.mul_apply]

theorem inv1 : ((Matrix.of fun _ _ => 1 : Matrix (Fin 3) (Fin 3) ℝ) + (1 : ℝ) • 1)⁻¹ = !![3 / 4, -1 / 4, -1 / 4; -1 / 4, 3 / 4, -1 / 4; -1 / 4, -1 / 4, 3 / 4] := by
  refine Matrix.inv_eq_right_inv ?_
  ext i j
  rw [Matrix.mul_apply, Fin.sum_univ_three]
  fin_cases i <;> fin_cases j <;> simp <;> norm_num

/-- **C89** (violation): three examples with the same features, the default kernel and `lambda`. Of label 0 two examples are known to have it, of label 1 one is known not to have it. If the set
of known pairs is iterated as (0, 0), (0, 1), (1, 0), then the pair returned has a larger evaluation than the other one. -/
theorem C89_order_violation {pinv : ∀ m : Nat, Matrix (Fin m) (Fin m) ℝ → Matrix (Fin m) (Fin m) ℝ} (hi : Inverts pinv) :
    let S : Fin 3 → Fin 3 × Fin 2 := ![(0, 0), (1, 0), (0, 1)]
    let U : Fin 2 → Fin 3 × Fin 2 := ![(2, 0), (2, 1)]
    let K : Matrix (Fin 3) (Fin 3) ℝ := Matrix.of fun _ _ => 1
    let y : Fin 3 → Fin 2 → ℝ := fun _ l => if l = 0 then 1 else -1
    select pinv K 1 y S (Equiv.swap 1 2) U = some (2, 0) ∧
      ∃ m m', Spec.Evaluation (K + (1 : ℝ) • 1)⁻¹ S U y (2, 1) m ∧ Spec.Evaluation (K + (1 : ℝ) • 1)⁻¹ S U y (2, 0) m' ∧ m < m' := by
  intro S U K y
  have hL : (!![3 / 4, -1 / 4, -1 / 4; -1 / 4, 3 / 4, -1 / 4; -1 / 4, -1 / 4, 3 / 4] : Matrix (Fin 3) (Fin 3) ℝ).PosDef := inv1 ▸ (Quire.posDef_reg gram1 one_pos).inv
  have hUinj : Function.Injective U := by decide
  have hp : Spec.Apart S U := by
    unfold Spec.Apart
    decide
  have hLL : pinv 2 ((lkr !![3 / 4, -1 / 4, -1 / 4; -1 / 4, 3 / 4, -1 / 4; -1 / 4, -1 / 4, 3 / 4]).submatrix U U) = !![4 / 3, 0; 0, 4 / 3] := by
    rw [hi _ _ ((lkr_posDef hL).submatrix hUinj).isUnit]
    refine Matrix.inv_eq_right_inv ?_
    ext i j
    rw [Matrix.mul_apply, Fin.sum_univ_two]
    simp only [Matrix.submatrix_apply, lkr_apply]
    fin_cases i <;> fin_cases j <;> simp [U]
  have hval : ∀ Ys i, value pinv !![3 / 4, -1 / 4, -1 / 4; -1 / 4, 3 / 4, -1 / 4; -1 / 4, -1 / 4, 3 / 4] S U Ys i =
      3 / 4 + 1 / 2 * |![Ys 0 + Ys 1, Ys 2] i| - 1 / 12 * (![Ys 2, Ys 0 + Ys 1] i) ^ 2 := by
    intro Ys i
    have hmax : ∀ x c : ℝ, max (3 / 4 + (2 * x - c)) (3 / 4 + (-(2 * x) - c)) = 3 / 4 + 2 * |x| - c := by
      intro x c
      rcases abs_cases x with ⟨e, _⟩ | ⟨e, _⟩ <;> rw [e]
      · rw [max_eq_left (by linarith)]; ring
      · rw [max_eq_right (by linarith)]; ring
    rw [value_sums hLL]
    fin_cases i
    · have := hmax (Ys 0 * (-1 / 4) + Ys 1 * (-1 / 4)) (Ys 2 * (-1 / 4) * (4 / 3) * (Ys 2 * (-1 / 4)))
      have e : |Ys 0 * (-1 / 4) + Ys 1 * (-1 / 4)| = 1 / 4 * |Ys 0 + Ys 1| := by
        rw [show Ys 0 * (-1 / 4) + Ys 1 * (-1 / 4) = (-(1 / 4)) * (Ys 0 + Ys 1) by ring, abs_mul]
        norm_num
      rw [e] at this
      simp [Fin.sum_univ_three, Fin.sum_univ_two, ysLsu, lkr_apply, U, S] at this ⊢
      rw [this]
      ring
    · have := hmax (Ys 2 * (-1 / 4)) ((Ys 0 * (-1 / 4) + Ys 1 * (-1 / 4)) * (4 / 3) * (Ys 0 * (-1 / 4) + Ys 1 * (-1 / 4)))
      have e : |Ys 2 * (-1 / 4)| = 1 / 4 * |Ys 2| := by
        rw [show Ys 2 * (-1 / 4) = (-(1 / 4)) * Ys 2 by ring, abs_mul]
        norm_num
      rw [e] at this
      simp [Fin.sum_univ_three, Fin.sum_univ_two, ysLsu, lkr_apply, U, S] at this ⊢
      rw [this]
      ring
  refine ⟨?_, ?_⟩
  · obtain ⟨i, h1, h2, _⟩ := select_pair (pinv := pinv) (Km := K) (lam := 1) (y := y) (S := S) (order := Equiv.swap 1 2) (U := U) (by norm_num)
    have hi2 : i = 0 := by
      have := h2 0
      rw [lMat_eq hi gram1 one_pos, inv1] at this
      unfold vals at this
      rw [hval, hval] at this
      fin_cases i
      · rfl
      · simp [y, S, Equiv.swap_apply_of_ne_of_ne] at this
        norm_num at this
    rw [h1, hi2]
    rfl
  · rw [inv1]
    refine ⟨_, _, value_eq hi hL hp y 1 (Or.inl le_rfl), value_eq hi hL hp y 0 (Or.inl le_rfl), ?_⟩
    rw [hval, hval]
    simp [y, S]
    norm_num

/-- A pool of two pairs. -/
example : Spec.Apart (![(0, 0), (1, 0), (0, 1)] : Fin 3 → Fin 3 × Fin 2) (![(2, 0), (2, 1)] : Fin 2 → Fin 3 × Fin 2) ∧ Inverts (fun _ A => A⁻¹) :=
  ⟨by unfold Spec.Apart; decide, fun _ _ _ => rfl⟩

end Alipy.MLQuire
