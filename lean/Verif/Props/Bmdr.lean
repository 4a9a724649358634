import Verif.Model.Bmdr
import Verif.Spec.Bmdr
import Verif.Props.Select
import Mathlib.Tactic.Linarith
import Mathlib.Tactic.Ring
import Mathlib.Tactic.FieldSimp
import Mathlib.Tactic.Positivity
/-!
# Properties of BMDR and SPAL (C76, C77, C78)
-/
set_option linter.unusedSectionVars false
namespace Alipy.Bmdr
open Alipy Alipy.Select Matrix

/-! ## C76 -/
section
variable {α K σ : Type} [DecidableEq α]

theorem rounds_batch [LE K] {argsort : List K → List Nat} (ha : ∀ l, Spec.IsArgsort l (argsort l)) {u : List α} (hu : u.Nodup) {batch : Nat} (hb : 0 < batch) (hlt : batch < u.length)
    {weights : σ → List K} (hw : ∀ s, (weights s).length = u.length) {next : σ → List α → σ} : ∀ (fuel iter : Nat) (last : List α) (s : σ), 16 ≤ fuel + iter → 0 < fuel →
    ∃ r, rounds argsort u batch weights next fuel iter last s = some (.ok r) ∧ Spec.BatchOf u batch r
  | 0, _, _, _, _, h => absurd h (by omega)
  | fuel + 1, iter, last, s, hf, _ => by
    obtain ⟨ps, h1, h2, h3, h4, _⟩ := C31_nlargestarg_partial (weights s) _ (ha (weights s)) batch hb (by rw [hw]; omega)
    obtain ⟨r, h5, h6⟩ := pick_nat (u := u) (ps := ps) (by intro i hi; rw [← hw s]; exact h4 i hi)
    unfold rounds
    rw [h1]
    simp only
    rw [h5]
    simp only
    split_ifs with hc
    · refine ⟨r, rfl, forall₂_nodup hu h6 h3, ?_, ?_⟩
      · intro x hx
        obtain ⟨i, _, hi⟩ := forall₂_mem_left h6 x hx
        exact List.mem_of_getElem? hi
      · have := h6.length_eq
        omega
    · simp only [Bool.or_eq_true, decide_eq_true_eq, not_or] at hc
      exact rounds_batch ha hu hb hlt hw fuel (iter + 1) r (next s r) (by omega) (by omega)

/-- **C76** (selection): whatever the QP solver returns (a weight for every unlabelled example) and whatever the ADMM loop computes, the loop ends after at most 16 rounds and
`select` returns `min(batch_size, len(unlabelled))` distinct unlabelled indexes. -/
theorem C76_select [LE K] {argsort : List K → List Nat} (ha : ∀ l, Spec.IsArgsort l (argsort l)) {u : Coll α} (hu : u.items.Nodup) {batch : Int} (hb : 0 < batch)
    {weights : σ → List K} (hw : ∀ s, (weights s).length = u.items.length) {next : σ → List α → σ} (s : σ) {fuel : Nat} (hf : 16 ≤ fuel) :
    ∃ r, select argsort u batch weights next s fuel = some (.ok r) ∧ Spec.BatchOf u.items batch r := by
  obtain ⟨n, rfl⟩ := Int.eq_ofNat_of_zero_le hb.le
  unfold select
  rw [if_neg (by omega)]
  split_ifs with h
  · exact ⟨_, rfl, hu, fun x hx => hx, by omega⟩
  · exact rounds_batch ha hu (by omega) (by omega) hw fuel 0 [] s (by omega) (by omega)

/-- **C76** (labels): two classes are coded as 1 and -1, and examples have the same code exactly if they have the same class; other numbers of classes are refused. -/
theorem C76_labels {ul y : List Int} (hul : ul.Nodup) (hy : ∀ v, v ∈ y ↔ v ∈ ul) :
    (ul.length = 2 → ∃ c, recode ul y = .ok c ∧ (∀ v ∈ c, v = 1 ∨ v = -1) ∧
      ∀ (i j : Nat) (a b x z : Int), y[i]? = some a → y[j]? = some b → c[i]? = some x → c[j]? = some z → (x = z ↔ a = b)) ∧
    (ul.length ≠ 2 → recode ul y = .error .valueError) := by
  constructor
  · intro h2
    match ul, h2 with
    | [p, q], _ =>
      have hpq : p ≠ q := by simpa using hul
      unfold recode
      simp only
      split_ifs with h
      · refine ⟨y, rfl, ?_, ?_⟩
        · intro v hv
          have := (hy v).1 hv
          simp only [List.mem_cons, List.not_mem_nil, or_false] at this
          omega
        · intro i j a b x z h1 h2 h3 h4
          rw [h1] at h3
          rw [h2] at h4
          simp only [Option.some.injEq] at h3 h4
          omega
      · refine ⟨_, rfl, ?_, ?_⟩
        · intro v hv
          obtain ⟨w, hw, rfl⟩ := List.mem_map.1 hv
          have := (hy w).1 hw
          simp only [List.mem_cons, List.not_mem_nil, or_false] at this
          split_ifs <;> omega
        · intro i j a b x z h1 h2 h3 h4
          rw [List.getElem?_map, h1] at h3
          rw [List.getElem?_map, h2] at h4
          simp only [Option.map_some, Option.some.injEq] at h3 h4
          have ha := (hy a).1 (List.mem_of_getElem? h1)
          have hb := (hy b).1 (List.mem_of_getElem? h2)
          simp only [List.mem_cons, List.not_mem_nil, or_false] at ha hb
          split_ifs at h3 h4 <;> omega
  · intro h2
    unfold recode
    split
    · simp at h2
    · rfl

example : select argsortBy (.list [5, 6, 7]) 2 (fun s : Nat => if s = 0 then [(1 : ℚ), 3, 2] else [3, 1, 2]) (fun s _ => s + 1) 0 16 = some (.ok [7, 5]) := by decide +kernel

example : recode [0, 1] [0, 1, 1] = .ok [1, -1, -1] := by decide

end

/-! ## C77 -/
section Steps
variable {ι υ κ : Type} [Fintype ι] [Fintype υ] [Fintype κ] [DecidableEq ι]

/-- Soft thresholding minimises `c z² + 2 w |z| - 2 b z` (up to the factor 2 in the threshold). -/
theorem soft_min {c w b z0 : ℝ} (hc : 0 < c) (hw : 0 ≤ w) (h1 : w < b → z0 = (b - w) / c) (h2 : b < -w → z0 = (b + w) / c) (h3 : -w ≤ b → b ≤ w → z0 = 0) (z : ℝ) :
    c * z0 ^ 2 + 2 * w * |z0| - 2 * b * z0 ≤ c * z ^ 2 + 2 * w * |z| - 2 * b * z := by
  have hz := abs_nonneg z
  have hz1 := le_abs_self z
  have hz2 := neg_abs_le z
  rcases lt_or_ge w b with h | h
  · have e := h1 h
    have hpos : 0 < z0 := by rw [e]; exact div_pos (by linarith) hc
    have hcz : c * z0 = b - w := by rw [e]; field_simp
    rw [abs_of_pos hpos]
    nlinarith [mul_nonneg hc.le (sq_nonneg (z - z0)), mul_nonneg hw (sub_nonneg.2 hz1)]
  · rcases lt_or_ge b (-w) with h' | h'
    · have e := h2 h'
      have hneg : z0 < 0 := by rw [e]; exact div_neg_of_neg_of_pos (by linarith) hc
      have hcz : c * z0 = b + w := by rw [e]; field_simp
      rw [abs_of_neg hneg]
      nlinarith [mul_nonneg hc.le (sq_nonneg (z - z0)), mul_nonneg hw (by linarith : 0 ≤ |z| + z)]
    · rw [h3 h' h]
      have : b * z ≤ w * |z| := by
        rcases le_or_gt 0 z with hz' | hz'
        · rw [abs_of_nonneg hz']; exact mul_le_mul_of_nonneg_right h hz'
        · rw [abs_of_neg hz']; nlinarith
      have := mul_nonneg hc.le (sq_nonneg z)
      simp
      linarith

theorem zStep_cases {rho t delta : ℝ} (hr : 0 ≤ rho) : let b := (rho * t - delta) / 2
    (1 < b → zStep rho t delta = (b - 1) / (1 + rho / 2)) ∧ (b < -1 → zStep rho t delta = (b + 1) / (1 + rho / 2)) ∧ (-1 ≤ b → b ≤ 1 → zStep rho t delta = 0) := by
  intro b
  have hd : 0 < rho + 2 := by linarith
  have hv : (rho * t - delta) / (rho + 2) = 2 * b / (rho + 2) := by simp only [b]; ring
  unfold zStep
  simp only [hv]
  refine ⟨fun h => ?_, fun h => ?_, fun h h' => ?_⟩
  · have hp : 0 < 2 * b / (rho + 2) := div_pos (by linarith) hd
    rw [if_neg (not_lt.2 hp.le), abs_of_pos hp, ← sub_div, max_eq_left (div_nonneg (by linarith) hd.le)]
    field_simp
    ring
  · have hp : 2 * b / (rho + 2) < 0 := div_neg_of_neg_of_pos (by linarith) hd
    rw [if_pos hp, abs_of_neg hp, ← neg_div, ← sub_div, max_eq_left (div_nonneg (by linarith) hd.le)]
    field_simp
    ring
  · have : |2 * b / (rho + 2)| - 2 / (rho + 2) ≤ 0 := by
      rw [abs_div, abs_of_pos hd, ← sub_div]
      apply div_nonpos_of_nonpos_of_nonneg _ hd.le
      have : |b| ≤ 1 := abs_le.2 ⟨h, h'⟩
      rw [abs_mul, abs_two]
      linarith
    rw [max_eq_right this, mul_zero]

theorem spalZStep_cases {rho w t delta : ℝ} (hr : 0 < rho) (hw : 0 ≤ w) : let b := (rho * t - delta) / 2
    (w < b → spalZStep rho w t delta = (b - w) / (w + rho / 2)) ∧ (b < -w → spalZStep rho w t delta = (b + w) / (w + rho / 2)) ∧
      (-w ≤ b → b ≤ w → spalZStep rho w t delta = 0) := by
  intro b
  have hc : 0 < w + rho / 2 := by linarith
  have hk : 0 < Real.sqrt (w + rho / 2) := Real.sqrt_pos.2 hc
  have hkk : Real.sqrt (w + rho / 2) * Real.sqrt (w + rho / 2) = w + rho / 2 := Real.mul_self_sqrt hc.le
  unfold spalZStep
  simp only
  generalize Real.sqrt (w + rho / 2) = k at hk hkk
  have hv : (rho * t - delta) / (2 * k) = b / k := by simp only [b]; field_simp
  rw [hv, ← hkk]
  refine ⟨fun h => ?_, fun h => ?_, fun h h' => ?_⟩
  · have hp : 0 < b / k := div_pos (by linarith) hk
    rw [if_neg (not_lt.2 hp.le), if_neg hp.ne', abs_of_pos hp, ← sub_div, max_eq_left (div_nonneg (by linarith) hk.le)]
    field_simp
  · have hp : b / k < 0 := div_neg_of_neg_of_pos (by linarith) hk
    rw [if_pos hp, abs_of_neg hp, ← neg_div, ← sub_div, max_eq_left (div_nonneg (by linarith) hk.le)]
    field_simp
    ring
  · have : |b / k| - w / k ≤ 0 := by
      rw [abs_div, abs_of_pos hk, ← sub_div]
      exact div_nonpos_of_nonpos_of_nonneg (by linarith [abs_le.2 ⟨h, h'⟩]) hk.le
    rw [max_eq_right this, mul_zero, zero_div]

/-- The part of the Lagrangian that depends on `z`, entry by entry. -/
theorem lagrangian_z_le {KLL : Matrix ι ι ℝ} {Q : Matrix ι κ ℝ} {gamma rho : ℝ} {w : κ → ℝ} {y tau : ι → ℝ} {z0 z delta : κ → ℝ}
    (h : ∀ j, (w j + rho / 2) * z0 j ^ 2 + 2 * w j * |z0 j| - 2 * ((rho * (tau ᵥ* Q) j - delta j) / 2) * z0 j ≤
      (w j + rho / 2) * z j ^ 2 + 2 * w j * |z j| - 2 * ((rho * (tau ᵥ* Q) j - delta j) / 2) * z j) :
    Spec.lagrangian KLL Q gamma rho w y tau z0 delta ≤ Spec.lagrangian KLL Q gamma rho w y tau z delta := by
  have key : ∀ z : κ → ℝ, Spec.lagrangian KLL Q gamma rho w y tau z delta = (Spec.ridgeLoss KLL gamma y tau + ∑ j, (rho / 2 * (tau ᵥ* Q) j ^ 2 - delta j * (tau ᵥ* Q) j)) +
      ∑ j, ((w j + rho / 2) * z j ^ 2 + 2 * w j * |z j| - 2 * ((rho * (tau ᵥ* Q) j - delta j) / 2) * z j) := by
    intro z
    unfold Spec.lagrangian
    rw [Finset.mul_sum, add_assoc, add_assoc, add_assoc, ← Finset.sum_add_distrib, ← Finset.sum_add_distrib, ← Finset.sum_add_distrib]
    congr 1
    apply Finset.sum_congr rfl
    intro j _
    ring
  rw [key, key]
  have := Finset.sum_le_sum (s := Finset.univ) (fun j _ => h j)
  linarith

/-- **C77** (auxiliary variable): BMDR's update of `z` minimises the augmented Lagrangian. -/
theorem C77_z_step {KLL : Matrix ι ι ℝ} {Q : Matrix ι κ ℝ} {gamma rho : ℝ} (hr : 0 ≤ rho) (y tau : ι → ℝ) (delta : κ → ℝ) (z : κ → ℝ) :
    Spec.lagrangian KLL Q gamma rho (fun _ => 1) y tau (fun j => zStep rho ((tau ᵥ* Q) j) (delta j)) delta ≤ Spec.lagrangian KLL Q gamma rho (fun _ => 1) y tau z delta := by
  apply lagrangian_z_le
  intro j
  obtain ⟨h1, h2, h3⟩ := zStep_cases (rho := rho) (t := (tau ᵥ* Q) j) (delta := delta j) hr
  exact soft_min (c := 1 + rho / 2) (w := 1) (by linarith) (by norm_num) h1 h2 h3 (z j)

/-- **C77** (auxiliary variable): SPAL's update of `z` minimises the augmented Lagrangian with the weights of the examples. -/
theorem C77_spal_z_step {KLL : Matrix ι ι ℝ} {Q : Matrix ι κ ℝ} {gamma rho : ℝ} (hr : 0 < rho) {w : κ → ℝ} (hw : ∀ j, 0 ≤ w j) (y tau : ι → ℝ) (delta : κ → ℝ) (z : κ → ℝ) :
    Spec.lagrangian KLL Q gamma rho w y tau (fun j => spalZStep rho (w j) ((tau ᵥ* Q) j) (delta j)) delta ≤ Spec.lagrangian KLL Q gamma rho w y tau z delta := by
  apply lagrangian_z_le
  intro j
  obtain ⟨h1, h2, h3⟩ := spalZStep_cases (rho := rho) (w := w j) (t := (tau ᵥ* Q) j) (delta := delta j) hr (hw j)
  exact soft_min (c := w j + rho / 2) (w := w j) (by linarith [hw j]) (hw j) h1 h2 h3 (z j)

/-- **C77** (easiness): the weight minimises `v * loss + lambda * (v² / 2 - v)` over `[0, 1]`. -/
theorem C77_easiness {lambda loss : ℝ} (hl : 0 < lambda) (h0 : 0 ≤ loss) :
    (0 ≤ easiness lambda loss ∧ easiness lambda loss ≤ 1) ∧
    ∀ v, 0 ≤ v → v ≤ 1 → easiness lambda loss * loss + lambda * (easiness lambda loss ^ 2 / 2 - easiness lambda loss) ≤ v * loss + lambda * (v ^ 2 / 2 - v) := by
  unfold easiness
  split_ifs with h
  · have h1 : loss / lambda < 1 := (div_lt_one hl).2 h
    have h2 : 0 ≤ loss / lambda := div_nonneg h0 hl.le
    refine ⟨⟨by linarith, by linarith⟩, fun v _ _ => ?_⟩
    have e : loss = lambda * (loss / lambda) := by field_simp
    generalize loss / lambda = q at e
    subst e
    nlinarith [mul_nonneg hl.le (sq_nonneg (v - (1 - q)))]
  · refine ⟨⟨le_refl _, zero_le_one⟩, fun v hv _ => ?_⟩
    nlinarith [mul_nonneg hv (sub_nonneg.2 (not_lt.1 h)), mul_nonneg hl.le (sq_nonneg v)]

/-! ### The model update -/

theorem sum_sq_sub {ξ : Type} [Fintype ξ] (y a b : ξ → ℝ) : ∑ i, (y i - (a i + b i)) ^ 2 = ∑ i, (y i - a i) ^ 2 - 2 * (b ⬝ᵥ y) + 2 * (b ⬝ᵥ a) + b ⬝ᵥ b := by
  simp only [dotProduct, Finset.mul_sum, ← Finset.sum_sub_distrib, ← Finset.sum_add_distrib]
  apply Finset.sum_congr rfl
  intro i _
  ring

theorem symm_dot {KLL : Matrix ι ι ℝ} (hs : KLLᵀ = KLL) (v w : ι → ℝ) : v ⬝ᵥ KLL *ᵥ w = (KLL *ᵥ v) ⬝ᵥ w := by
  rw [dotProduct_mulVec, ← mulVec_transpose, hs]

theorem dot_admmMat {KLL : Matrix ι ι ℝ} (hs : KLLᵀ = KLL) (Q : Matrix ι κ ℝ) (gamma rho : ℝ) (h v : ι → ℝ) :
    h ⬝ᵥ admmMat KLL Q gamma rho *ᵥ v = (KLL *ᵥ h) ⬝ᵥ (KLL *ᵥ v) + rho / 2 * ((h ᵥ* Q) ⬝ᵥ (v ᵥ* Q)) + gamma * (h ⬝ᵥ KLL *ᵥ v) := by
  unfold admmMat
  simp only [add_mulVec, smul_mulVec, dotProduct_add, dotProduct_smul, smul_eq_mul, ← mulVec_mulVec]
  rw [symm_dot hs h, dotProduct_mulVec h Q, mulVec_transpose]

theorem dot_admmRhs {KLL : Matrix ι ι ℝ} (hs : KLLᵀ = KLL) (Q : Matrix ι κ ℝ) (rho : ℝ) (y h : ι → ℝ) (z delta : κ → ℝ) :
    h ⬝ᵥ admmRhs KLL Q rho y z delta = (KLL *ᵥ h) ⬝ᵥ y + 1 / 2 * ((h ᵥ* Q) ⬝ᵥ delta) + rho / 2 * ((h ᵥ* Q) ⬝ᵥ z) := by
  unfold admmRhs
  simp only [dotProduct_add, dotProduct_smul, smul_eq_mul, vecMul_transpose]
  rw [← mulVec_transpose, hs, symm_dot hs, dotProduct_mulVec, dotProduct_mulVec]

/-- The Lagrangian as a function of the model: a quadratic function. -/
theorem lagrangian_tau {KLL : Matrix ι ι ℝ} (hs : KLLᵀ = KLL) {Q : Matrix ι κ ℝ} {gamma rho : ℝ} {w : κ → ℝ} {y : ι → ℝ} {z delta : κ → ℝ} (tau h : ι → ℝ) :
    Spec.lagrangian KLL Q gamma rho w y (tau + h) z delta = Spec.lagrangian KLL Q gamma rho w y tau z delta +
      2 * (h ⬝ᵥ (admmMat KLL Q gamma rho *ᵥ tau - admmRhs KLL Q rho y z delta)) + h ⬝ᵥ admmMat KLL Q gamma rho *ᵥ h := by
  rw [dotProduct_sub, dot_admmMat hs, dot_admmMat hs, dot_admmRhs hs]
  unfold Spec.lagrangian Spec.ridgeLoss
  simp only [mulVec_add, add_vecMul, Pi.add_apply]
  rw [sum_sq_sub y, sum_sq_sub z]
  have e1 : ∑ j, delta j * (z j - ((tau ᵥ* Q) j + (h ᵥ* Q) j)) = ∑ j, delta j * (z j - (tau ᵥ* Q) j) - (h ᵥ* Q) ⬝ᵥ delta := by
    simp only [dotProduct, ← Finset.sum_sub_distrib]
    apply Finset.sum_congr rfl
    intro j _
    ring
  have e2 : tau ⬝ᵥ KLL *ᵥ h = h ⬝ᵥ KLL *ᵥ tau := by rw [symm_dot hs, dotProduct_comm]
  rw [e1, dotProduct_add, add_dotProduct, add_dotProduct, e2]
  ring

theorem quad_nonneg {KLL : Matrix ι ι ℝ} (hs : KLLᵀ = KLL) (hp : ∀ v, 0 ≤ v ⬝ᵥ KLL *ᵥ v) (Q : Matrix ι κ ℝ) {gamma rho : ℝ} (hg : 0 ≤ gamma) (hr : 0 ≤ rho) (h : ι → ℝ) :
    0 ≤ h ⬝ᵥ admmMat KLL Q gamma rho *ᵥ h := by
  rw [dot_admmMat hs]
  have h1 : ∀ {ξ : Type} [Fintype ξ] (v : ξ → ℝ), 0 ≤ v ⬝ᵥ v := fun v => Finset.sum_nonneg (fun i _ => mul_self_nonneg (v i))
  have := h1 (KLL *ᵥ h)
  have := mul_nonneg (by linarith : 0 ≤ rho / 2) (h1 (h ᵥ* Q))
  have := mul_nonneg hg (hp h)
  linarith

/-- The normal equations have a solution, and any generalised inverse gives one. -/
theorem normal_equations {KLL : Matrix ι ι ℝ} (hs : KLLᵀ = KLL) (hp : ∀ v, 0 ≤ v ⬝ᵥ KLL *ᵥ v) (Q : Matrix ι κ ℝ) {gamma rho : ℝ} (hg : 0 ≤ gamma) (hr : 0 < rho)
    {G : Matrix ι ι ℝ} (hG : Spec.IsGeneralisedInverse (admmMat KLL Q gamma rho) G) (y : ι → ℝ) (z delta : κ → ℝ) :
    admmMat KLL Q gamma rho *ᵥ (G *ᵥ admmRhs KLL Q rho y z delta) = admmRhs KLL Q rho y z delta := by
  have hAs : (admmMat KLL Q gamma rho)ᵀ = admmMat KLL Q gamma rho := by
    unfold admmMat
    simp only [transpose_add, transpose_smul, transpose_mul, transpose_transpose, hs]
  have hker : ∀ h, admmMat KLL Q gamma rho *ᵥ h = 0 → h ⬝ᵥ admmRhs KLL Q rho y z delta = 0 := by
    intro h h0
    have e : h ⬝ᵥ admmMat KLL Q gamma rho *ᵥ h = 0 := by rw [h0, dotProduct_zero]
    rw [dot_admmMat hs] at e
    have h1 : ∀ {ξ : Type} [Fintype ξ] (v : ξ → ℝ), 0 ≤ v ⬝ᵥ v := fun v => Finset.sum_nonneg (fun i _ => mul_self_nonneg (v i))
    have a1 := h1 (KLL *ᵥ h)
    have a2 := mul_nonneg (by linarith : 0 ≤ rho / 2) (h1 (h ᵥ* Q))
    have a3 := mul_nonneg hg (hp h)
    have b1 : KLL *ᵥ h = 0 := dotProduct_self_eq_zero.1 (by linarith)
    have b2 : h ᵥ* Q = 0 := by
      have : rho / 2 * ((h ᵥ* Q) ⬝ᵥ (h ᵥ* Q)) = 0 := by linarith
      exact dotProduct_self_eq_zero.1 ((mul_eq_zero.1 this).resolve_left (by linarith))
    rw [dot_admmRhs hs, b1, b2]
    simp
  generalize hr' : admmRhs KLL Q rho y z delta = r at hker
  generalize hA' : admmMat KLL Q gamma rho = A at hker hAs hG
  unfold Spec.IsGeneralisedInverse at hG
  have hB : (A * G - 1) * A = 0 := by rw [sub_mul, one_mul, hG, sub_self]
  have hBt : A * (A * G - 1)ᵀ = 0 := by
    have := congrArg transpose hB
    rwa [transpose_mul, hAs, transpose_zero] at this
  have hz : (A * G - 1) *ᵥ r = 0 := by
    apply dotProduct_self_eq_zero.1
    have := hker ((A * G - 1)ᵀ *ᵥ ((A * G - 1) *ᵥ r)) (by rw [mulVec_mulVec, hBt, zero_mulVec])
    rwa [mulVec_transpose, ← dotProduct_mulVec] at this
  rw [sub_mulVec, one_mulVec, ← mulVec_mulVec] at hz
  exact sub_eq_zero.1 hz

/-- **C77** (model): BMDR's update of `tau` minimises the augmented Lagrangian, for every kernel matrix (symmetric, positive semidefinite) and every generalised inverse. -/
theorem C77_tau_step {KLL : Matrix ι ι ℝ} (hs : KLLᵀ = KLL) (hp : ∀ v, 0 ≤ v ⬝ᵥ KLL *ᵥ v) (Q : Matrix ι κ ℝ) {gamma rho : ℝ} (hg : 0 ≤ gamma) (hr : 0 < rho)
    {pinv : Matrix ι ι ℝ → Matrix ι ι ℝ} (hG : ∀ A, Spec.IsGeneralisedInverse A (pinv A)) (w : κ → ℝ) (y : ι → ℝ) (z delta : κ → ℝ) (tau : ι → ℝ) :
    Spec.lagrangian KLL Q gamma rho w y (tauStep pinv KLL Q gamma rho y z delta) z delta ≤ Spec.lagrangian KLL Q gamma rho w y tau z delta := by
  have e : tau = tauStep pinv KLL Q gamma rho y z delta + (tau - tauStep pinv KLL Q gamma rho y z delta) := by simp
  rw [e, lagrangian_tau hs]
  unfold tauStep
  rw [normal_equations hs hp Q hg hr (hG _), sub_self, dotProduct_zero]
  have := quad_nonneg hs hp Q hg hr.le (tau - pinv (admmMat KLL Q gamma rho) *ᵥ admmRhs KLL Q rho y z delta)
  linarith

theorem spal_normal {KLL : Matrix ι ι ℝ} (hs : KLLᵀ = KLL) (hp : ∀ v, 0 ≤ v ⬝ᵥ KLL *ᵥ v) (Q : Matrix ι κ ℝ) {gamma rho : ℝ} (hg : 0 ≤ gamma) (hr : 0 < rho)
    {pinv : Matrix ι ι ℝ → Matrix ι ι ℝ} (hG : ∀ A, Spec.IsGeneralisedInverse A (pinv A)) (y : ι → ℝ) (z delta : κ → ℝ) :
    admmMat KLL Q gamma rho *ᵥ thetaStep pinv KLL Q gamma rho y z delta = admmRhs KLL Q rho y z delta := by
  have eA : spalMat KLL Q gamma rho = (2 : ℝ) • admmMat KLL Q gamma rho := by
    unfold spalMat admmMat
    simp only [smul_add, smul_smul]
    congr 3
    ring
  have er : spalRhs KLL Q rho y z delta = (2 : ℝ) • admmRhs KLL Q rho y z delta := by
    unfold spalRhs admmRhs
    rw [vecMul_transpose, vecMul_transpose, ← mulVec_transpose, hs]
    simp only [smul_add, smul_smul, smul_mulVec]
    have : (2 : ℝ) * (rho / 2) = rho := by ring
    rw [this]
    norm_num
    abel
  have hG2 : Spec.IsGeneralisedInverse (admmMat KLL Q gamma rho) ((2 : ℝ) • pinv (spalMat KLL Q gamma rho)) := by
    have := hG (spalMat KLL Q gamma rho)
    unfold Spec.IsGeneralisedInverse at this ⊢
    generalize pinv (spalMat KLL Q gamma rho) = G at this ⊢
    rw [eA] at this
    simp only [Matrix.smul_mul, Matrix.mul_smul] at this ⊢
    exact smul_right_injective _ (two_ne_zero : (2 : ℝ) ≠ 0) this
  have et : thetaStep pinv KLL Q gamma rho y z delta = ((2 : ℝ) • pinv (spalMat KLL Q gamma rho)) *ᵥ admmRhs KLL Q rho y z delta := by
    unfold thetaStep
    rw [er, mulVec_smul, smul_mulVec]
  rw [et]
  exact normal_equations hs hp Q hg hr hG2 y z delta

/-- **C77** (model): SPAL's update of `theta` minimises the augmented Lagrangian. -/
theorem C77_spal_theta_step {KLL : Matrix ι ι ℝ} (hs : KLLᵀ = KLL) (hp : ∀ v, 0 ≤ v ⬝ᵥ KLL *ᵥ v) (Q : Matrix ι κ ℝ) {gamma rho : ℝ} (hg : 0 ≤ gamma) (hr : 0 < rho)
    {pinv : Matrix ι ι ℝ → Matrix ι ι ℝ} (hG : ∀ A, Spec.IsGeneralisedInverse A (pinv A)) (w : κ → ℝ) (y : ι → ℝ) (z delta : κ → ℝ) (theta : ι → ℝ) :
    Spec.lagrangian KLL Q gamma rho w y (thetaStep pinv KLL Q gamma rho y z delta) z delta ≤ Spec.lagrangian KLL Q gamma rho w y theta z delta := by
  have e : theta = thetaStep pinv KLL Q gamma rho y z delta + (theta - thetaStep pinv KLL Q gamma rho y z delta) := by simp
  rw [e, lagrangian_tau hs, spal_normal hs hp Q hg hr hG, sub_self, dotProduct_zero]
  have := quad_nonneg hs hp Q hg hr.le (theta - thetaStep pinv KLL Q gamma rho y z delta)
  linarith

/-- **C77** (start): the model the loop starts with minimises the regularised squared loss on the labelled examples. -/
theorem C77_initial {KLL : Matrix ι ι ℝ} (hs : KLLᵀ = KLL) (hp : ∀ v, 0 ≤ v ⬝ᵥ KLL *ᵥ v) {gamma : ℝ} (hg : 0 < gamma) (y tau : ι → ℝ) :
    Spec.ridgeLoss KLL gamma y (initial KLL gamma y) ≤ Spec.ridgeLoss KLL gamma y tau := by
  have hL : ∀ t, Spec.ridgeLoss KLL gamma y t = Spec.lagrangian KLL (0 : Matrix ι (Fin 0) ℝ) gamma 0 0 y t 0 0 := by
    intro t
    simp [Spec.lagrangian]
  have hunit : IsUnit (KLL + gamma • (1 : Matrix ι ι ℝ)) := by
    rw [← mulVec_injective_iff_isUnit]
    intro v w hvw
    have h0 : (KLL + gamma • (1 : Matrix ι ι ℝ)) *ᵥ (v - w) = 0 := by rw [mulVec_sub]; exact sub_eq_zero.2 hvw
    have h1 : (v - w) ⬝ᵥ (KLL + gamma • (1 : Matrix ι ι ℝ)) *ᵥ (v - w) = 0 := by rw [h0, dotProduct_zero]
    rw [add_mulVec, smul_mulVec, one_mulVec, dotProduct_add, dotProduct_smul, smul_eq_mul] at h1
    have h2 : 0 ≤ (v - w) ⬝ᵥ (v - w) := Finset.sum_nonneg (fun i _ => mul_self_nonneg ((v - w) i))
    have h3 := hp (v - w)
    have h4 : gamma * ((v - w) ⬝ᵥ (v - w)) = 0 := by linarith [mul_nonneg hg.le h2]
    exact sub_eq_zero.1 (dotProduct_self_eq_zero.1 ((mul_eq_zero.1 h4).resolve_left hg.ne'))
  have hy : (KLL + gamma • (1 : Matrix ι ι ℝ)) *ᵥ initial KLL gamma y = y := by
    unfold initial
    rw [mulVec_mulVec, mul_nonsing_inv _ ((isUnit_iff_isUnit_det _).1 hunit), one_mulVec]
  have e : tau = initial KLL gamma y + (tau - initial KLL gamma y) := by simp
  rw [e, hL, hL, lagrangian_tau hs]
  have hn : admmMat KLL (0 : Matrix ι (Fin 0) ℝ) gamma 0 *ᵥ initial KLL gamma y = admmRhs KLL (0 : Matrix ι (Fin 0) ℝ) 0 y 0 0 := by
    unfold admmMat admmRhs
    rw [← mulVec_transpose, hs]
    conv_rhs => rw [← hy]
    simp [mulVec_mulVec, mul_add]
  rw [hn, sub_self, dotProduct_zero]
  have := quad_nonneg hs hp (0 : Matrix ι (Fin 0) ℝ) hg.le (le_refl 0) (tau - initial KLL gamma y)
  linarith

/-! ### Fixed points of the loop -/

theorem worst_convex {w t g s : ℝ} (hw : 0 ≤ w) (h0 : 0 ≤ s) (h1 : s ≤ 1) :
    w * ((t + s * g) ^ 2 + 2 * |t + s * g|) ≤ (1 - s) * (w * (t ^ 2 + 2 * |t|)) + s * (w * ((t + g) ^ 2 + 2 * |t + g|)) := by
  have e : t + s * g = (1 - s) * t + s * (t + g) := by ring
  have ha : |t + s * g| ≤ (1 - s) * |t| + s * |t + g| := by
    rw [e]
    refine (abs_add_le _ _).trans ?_
    rw [abs_mul, abs_mul, abs_of_nonneg h0, abs_of_nonneg (by linarith : 0 ≤ 1 - s)]
  have hb : (t + s * g) ^ 2 ≤ (1 - s) * t ^ 2 + s * (t + g) ^ 2 := by nlinarith [mul_nonneg (mul_nonneg h0 (by linarith : 0 ≤ 1 - s)) (sq_nonneg g)]
  have := mul_le_mul_of_nonneg_left (by linarith : (t + s * g) ^ 2 + 2 * |t + s * g| ≤ (1 - s) * (t ^ 2 + 2 * |t|) + s * ((t + g) ^ 2 + 2 * |t + g|)) hw
  linarith

/-- A minimum with the quadratic penalty is one without, by convexity. -/
theorem subgradient {rho w t d : ℝ} (hr : 0 ≤ rho) (hw : 0 ≤ w)
    (h : ∀ z, w * (t ^ 2 + 2 * |t|) + d * t ≤ w * (z ^ 2 + 2 * |z|) + d * z + rho / 2 * (z - t) ^ 2) (g : ℝ) :
    w * (t ^ 2 + 2 * |t|) ≤ w * ((t + g) ^ 2 + 2 * |t + g|) + d * g := by
  by_contra hc
  push Not at hc
  obtain ⟨c, hc'⟩ : ∃ c, c = w * (t ^ 2 + 2 * |t|) - (w * ((t + g) ^ 2 + 2 * |t + g|) + d * g) := ⟨_, rfl⟩
  have hcpos : 0 < c := by linarith
  have hden : 0 < c + rho * g ^ 2 := by have := mul_nonneg hr (sq_nonneg g); linarith
  obtain ⟨s, hs⟩ : ∃ s, s = c / (c + rho * g ^ 2) := ⟨_, rfl⟩
  have hs0 : 0 < s := by rw [hs]; exact div_pos hcpos hden
  have hs1 : s ≤ 1 := by rw [hs, div_le_one hden]; have := mul_nonneg hr (sq_nonneg g); linarith
  have hsc : s * (rho * g ^ 2) < 2 * c := by
    have : s * (c + rho * g ^ 2) = c := by rw [hs]; field_simp
    have := mul_pos hs0 hcpos
    linarith
  have h1 := h (t + s * g)
  have h2 := worst_convex (t := t) (g := g) hw hs0.le hs1
  have h3 : (t + s * g - t) ^ 2 = s * (s * g ^ 2) := by ring
  rw [h3] at h1
  have h4 : s * (2 * c - s * (rho * g ^ 2)) ≤ 0 := by
    have e : s * (2 * c) = 2 * (s * (w * (t ^ 2 + 2 * |t|)) - s * (w * ((t + g) ^ 2 + 2 * |t + g|)) - s * (d * g)) := by rw [hc']; ring
    nlinarith
  have := mul_pos hs0 (by linarith : 0 < 2 * c - s * (rho * g ^ 2))
  linarith

theorem fixed_optimal {KLL : Matrix ι ι ℝ} (hs : KLLᵀ = KLL) (hp : ∀ v, 0 ≤ v ⬝ᵥ KLL *ᵥ v) (Q : Matrix ι κ ℝ) {gamma rho : ℝ} (hg : 0 ≤ gamma) (hr : 0 < rho)
    {w : κ → ℝ} (hw : ∀ j, 0 ≤ w j) {y tau : ι → ℝ} {z delta : κ → ℝ} (h1 : admmMat KLL Q gamma rho *ᵥ tau = admmRhs KLL Q rho y z delta)
    (h2 : ∀ j x, (w j + rho / 2) * z j ^ 2 + 2 * w j * |z j| - 2 * ((rho * (tau ᵥ* Q) j - delta j) / 2) * z j ≤
      (w j + rho / 2) * x ^ 2 + 2 * w j * |x| - 2 * ((rho * (tau ᵥ* Q) j - delta j) / 2) * x) (h3 : z = tau ᵥ* Q) (tau' : ι → ℝ) :
    Spec.ridgeLoss KLL gamma y tau + ∑ j, w j * ((tau ᵥ* Q) j ^ 2 + 2 * |(tau ᵥ* Q) j|) ≤
      Spec.ridgeLoss KLL gamma y tau' + ∑ j, w j * ((tau' ᵥ* Q) j ^ 2 + 2 * |(tau' ᵥ* Q) j|) := by
  obtain ⟨h, rfl⟩ : ∃ h, tau' = tau + h := ⟨tau' - tau, by simp⟩
  have hL := lagrangian_tau hs (Q := Q) (gamma := gamma) (rho := rho) (w := w) (y := y) (z := z) (delta := delta) tau h
  rw [h1, sub_self, dotProduct_zero, mul_zero, add_zero, dot_admmMat hs] at hL
  unfold Spec.lagrangian at hL
  simp only [add_vecMul, Pi.add_apply] at hL ⊢
  rw [sum_sq_sub z, h3] at hL
  have e1 : ∑ j, delta j * ((tau ᵥ* Q) j - ((tau ᵥ* Q) j + (h ᵥ* Q) j)) = - ∑ j, delta j * (h ᵥ* Q) j := by
    rw [← Finset.sum_neg_distrib]
    apply Finset.sum_congr rfl
    intro j _
    ring
  rw [e1] at hL
  simp only [sub_self, mul_zero, Finset.sum_const_zero, ne_eq, OfNat.ofNat_ne_zero, not_false_eq_true, zero_pow] at hL
  have hj : ∀ j ∈ (Finset.univ : Finset κ), w j * ((tau ᵥ* Q) j ^ 2 + 2 * |(tau ᵥ* Q) j|) - delta j * (h ᵥ* Q) j ≤
      w j * (((tau ᵥ* Q) j + (h ᵥ* Q) j) ^ 2 + 2 * |(tau ᵥ* Q) j + (h ᵥ* Q) j|) := by
    intro j _
    have := subgradient (rho := rho) (w := w j) (t := (tau ᵥ* Q) j) (d := delta j) hr.le (hw j) (by
      intro x
      have := h2 j x
      rw [h3] at this
      nlinarith) ((h ᵥ* Q) j)
    linarith
  have hsum := Finset.sum_le_sum hj
  rw [Finset.sum_sub_distrib] at hsum
  have hb : 0 ≤ (KLL *ᵥ h) ⬝ᵥ (KLL *ᵥ h) := Finset.sum_nonneg (fun i _ => mul_self_nonneg _)
  have hc := mul_nonneg hg (hp h)
  nlinarith

/-- **C77** (dual variable): the update of `delta` is a step of length `rho` along the gradient of the augmented Lagrangian, which it raises by `rho` times the squared residual. -/
theorem C77_delta_step (KLL : Matrix ι ι ℝ) (Q : Matrix ι κ ℝ) (gamma rho : ℝ) (w : κ → ℝ) (y tau : ι → ℝ) (z delta : κ → ℝ) :
    Spec.lagrangian KLL Q gamma rho w y tau z (fun j => deltaStep rho ((tau ᵥ* Q) j) (z j) (delta j)) =
      Spec.lagrangian KLL Q gamma rho w y tau z delta + rho * ∑ j, (z j - (tau ᵥ* Q) j) ^ 2 := by
  have : ∑ j, deltaStep rho ((tau ᵥ* Q) j) (z j) (delta j) * (z j - (tau ᵥ* Q) j) =
      ∑ j, delta j * (z j - (tau ᵥ* Q) j) + rho * ∑ j, (z j - (tau ᵥ* Q) j) ^ 2 := by
    rw [Finset.mul_sum, ← Finset.sum_add_distrib]
    refine Finset.sum_congr rfl fun j _ => ?_
    unfold deltaStep
    ring
  unfold Spec.lagrangian
  rw [this]
  ring

/-- **C77** (fixed points): if a round of BMDR's ADMM loop changes nothing, then the model minimises the regularised squared loss on the labelled examples plus the worst losses
`f² + 2|f|` on the selected ones. -/
theorem C77_fixed_point {KLL : Matrix ι ι ℝ} (hs : KLLᵀ = KLL) (hp : ∀ v, 0 ≤ v ⬝ᵥ KLL *ᵥ v) (Q : Matrix ι κ ℝ) {gamma rho : ℝ} (hg : 0 ≤ gamma) (hr : 0 < rho)
    {pinv : Matrix ι ι ℝ → Matrix ι ι ℝ} (hG : ∀ A, Spec.IsGeneralisedInverse A (pinv A)) {y tau : ι → ℝ} {z delta : κ → ℝ} (h1 : tauStep pinv KLL Q gamma rho y z delta = tau)
    (h2 : ∀ j, zStep rho ((tau ᵥ* Q) j) (delta j) = z j) (h3 : ∀ j, deltaStep rho ((tau ᵥ* Q) j) (z j) (delta j) = delta j) (tau' : ι → ℝ) :
    Spec.ridgeLoss KLL gamma y tau + ∑ j, ((tau ᵥ* Q) j ^ 2 + 2 * |(tau ᵥ* Q) j|) ≤ Spec.ridgeLoss KLL gamma y tau' + ∑ j, ((tau' ᵥ* Q) j ^ 2 + 2 * |(tau' ᵥ* Q) j|) := by
  have := fixed_optimal hs hp Q hg hr (w := fun _ => 1) (fun _ => zero_le_one) (tau := tau) (z := z) (delta := delta) (y := y)
    (by rw [← h1]; exact normal_equations hs hp Q hg hr (hG _) y z delta)
    (by
      intro j x
      obtain ⟨c1, c2, c3⟩ := zStep_cases (rho := rho) (t := (tau ᵥ* Q) j) (delta := delta j) hr.le
      rw [h2] at c1 c2 c3
      exact soft_min (c := 1 + rho / 2) (w := 1) (by linarith) (by norm_num) c1 c2 c3 x)
    (by
      funext j
      have := h3 j
      unfold deltaStep at this
      have h0 : rho * (z j - (tau ᵥ* Q) j) = 0 := by linarith
      linarith [(mul_eq_zero.1 h0).resolve_left hr.ne']) tau'
  simpa using this

/-- **C77** (fixed points): the same for SPAL, with the weights of the examples. -/
theorem C77_spal_fixed_point {KLL : Matrix ι ι ℝ} (hs : KLLᵀ = KLL) (hp : ∀ v, 0 ≤ v ⬝ᵥ KLL *ᵥ v) (Q : Matrix ι κ ℝ) {gamma rho : ℝ} (hg : 0 ≤ gamma) (hr : 0 < rho)
    {pinv : Matrix ι ι ℝ → Matrix ι ι ℝ} (hG : ∀ A, Spec.IsGeneralisedInverse A (pinv A)) {w : κ → ℝ} (hw : ∀ j, 0 ≤ w j) {y theta : ι → ℝ} {z delta : κ → ℝ}
    (h1 : thetaStep pinv KLL Q gamma rho y z delta = theta)
    (h2 : ∀ j, spalZStep rho (w j) ((theta ᵥ* Q) j) (delta j) = z j) (h3 : ∀ j, deltaStep rho ((theta ᵥ* Q) j) (z j) (delta j) = delta j) (theta' : ι → ℝ) :
    Spec.ridgeLoss KLL gamma y theta + ∑ j, w j * ((theta ᵥ* Q) j ^ 2 + 2 * |(theta ᵥ* Q) j|) ≤
      Spec.ridgeLoss KLL gamma y theta' + ∑ j, w j * ((theta' ᵥ* Q) j ^ 2 + 2 * |(theta' ᵥ* Q) j|) := by
  refine fixed_optimal hs hp Q hg hr hw (tau := theta) (z := z) (delta := delta) (y := y) ?_ ?_ ?_ theta'
  · rw [← h1]
    exact spal_normal hs hp Q hg hr hG y z delta
  · intro j x
    obtain ⟨c1, c2, c3⟩ := spalZStep_cases (rho := rho) (w := w j) (t := (theta ᵥ* Q) j) (delta := delta j) hr (hw j)
    rw [h2] at c1 c2 c3
    exact soft_min (c := w j + rho / 2) (w := w j) (by linarith [hw j]) (hw j) c1 c2 c3 x
  · funext j
    have := h3 j
    unfold deltaStep at this
    have h0 : rho * (z j - (theta ᵥ* Q) j) = 0 := by linarith
    linarith [(mul_eq_zero.1 h0).resolve_left hr.ne']

/-- A fixed point: one labelled example with label 4, one selected example with the same features; `gamma = 1`, `rho = 2`. -/
example : let pinv : Matrix (Fin 1) (Fin 1) ℝ → Matrix (Fin 1) (Fin 1) ℝ := fun A => Matrix.of fun _ _ => (A 0 0)⁻¹
    (∀ A, Spec.IsGeneralisedInverse A (pinv A)) ∧ tauStep pinv 1 (1 : Matrix (Fin 1) (Fin 1) ℝ) 1 2 (fun _ => 4) (fun _ => 1) (fun _ => -4) = (fun _ => 1) ∧
      zStep 2 1 (-4) = 1 ∧ deltaStep 2 1 1 (-4) = -4 := by
  refine ⟨?_, ?_, ?_, ?_⟩
  · intro A
    unfold Spec.IsGeneralisedInverse
    ext i j
    fin_cases i; fin_cases j
    simp [Matrix.mul_apply]
  · funext i
    fin_cases i
    simp only [tauStep, admmMat, admmRhs, mulVec, dotProduct, vecMul, Matrix.of_apply, Matrix.add_apply, Matrix.smul_apply, Matrix.mul_apply, Matrix.transpose_apply, Fin.sum_univ_one,
      Pi.add_apply, Pi.smul_apply, smul_eq_mul]
    norm_num
  · norm_num [zStep, abs_of_pos]
  · norm_num [deltaStep]

end Steps

/-! ## C78 -/
section Mmd
variable {ι υ φ : Type} [Fintype ι] [Fintype υ] [Fintype φ]

/-- The linear coefficients of the representativeness term. -/
noncomputable def lin (KLU : Matrix ι υ ℝ) (KUU : Matrix υ υ ℝ) (batch : ℝ) (j : υ) : ℝ :=
  (Fintype.card υ - batch) / (Fintype.card ι + Fintype.card υ) * ∑ i, KLU i j - (Fintype.card ι + batch) / (Fintype.card ι + Fintype.card υ) * ∑ i, KUU i j

theorem objective_eq (beta batch : ℝ) (KLU : Matrix ι υ ℝ) (KUU : Matrix υ υ ℝ) (tau : ι → ℝ) (es : υ → ℝ) (x : υ → ℝ) :
    objective beta batch KLU KUU tau es x = beta / 4 * (x ⬝ᵥ KUU *ᵥ x) + beta * ∑ j, lin KLU KUU batch j * x j + ∑ j, es j * ((tau ᵥ* KLU) j ^ 2 + 2 * |(tau ᵥ* KLU) j|) * x j := by
  have hw : ∀ p : ℝ, worst p = p ^ 2 + 2 * |p| := fun p => by unfold worst; ring
  simp only [← hw]
  unfold objective
  simp only [smul_mulVec, dotProduct_smul, smul_eq_mul]
  have : ∀ q : υ → ℝ, (fun j => beta * ((Fintype.card υ - batch) / (Fintype.card ι + Fintype.card υ) * ∑ i, KLU i j - (Fintype.card ι + batch) / (Fintype.card ι + Fintype.card υ) *
      ∑ i, KUU i j) + q j) ⬝ᵥ x = beta * ∑ j, lin KLU KUU batch j * x j + ∑ j, q j * x j := by
    intro q
    unfold dotProduct lin
    rw [Finset.mul_sum, ← Finset.sum_add_distrib]
    apply Finset.sum_congr rfl
    intro j _
    ring
  rw [this (fun j => es j * worst ((tau ᵥ* KLU) j))]
  ring

theorem sum_gram (p : φ → ℝ) (psi : υ → φ → ℝ) (x : υ → ℝ) : ∑ f, p f * ∑ j, x j * psi j f = ∑ j, (∑ f, p f * psi j f) * x j := by
  simp only [Finset.mul_sum, Finset.sum_mul]
  rw [Finset.sum_comm]
  refine Finset.sum_congr rfl fun j _ => Finset.sum_congr rfl fun f _ => ?_
  ring

theorem quad_gram (psi : υ → φ → ℝ) (x : υ → ℝ) : x ⬝ᵥ (Matrix.of fun i j => ∑ f, psi i f * psi j f) *ᵥ x = ∑ f, (∑ j, x j * psi j f) ^ 2 := by
  unfold dotProduct mulVec dotProduct
  simp only [Matrix.of_apply, sq, Finset.sum_mul, Finset.mul_sum]
  rw [Finset.sum_comm (s := (Finset.univ : Finset φ))]
  refine Finset.sum_congr rfl fun i _ => ?_
  rw [Finset.sum_comm]
  refine Finset.sum_congr rfl fun j _ => Finset.sum_congr rfl fun f _ => ?_
  ring

theorem lin_gram (phi : ι → φ → ℝ) (psi : υ → φ → ℝ) (batch : ℝ) (x : υ → ℝ) :
    ∑ j, lin (Matrix.of fun i j => ∑ f, phi i f * psi j f) (Matrix.of fun i j => ∑ f, psi i f * psi j f) batch j * x j =
      ∑ f, ((Fintype.card υ - batch) / (Fintype.card ι + Fintype.card υ) * ∑ i, phi i f - (Fintype.card ι + batch) / (Fintype.card ι + Fintype.card υ) * ∑ j, psi j f) *
        ∑ j, x j * psi j f := by
  rw [sum_gram]
  refine Finset.sum_congr rfl fun j _ => ?_
  congr 1
  unfold lin
  simp only [Matrix.of_apply]
  rw [Finset.sum_comm, Finset.sum_comm (f := fun i f => psi i f * psi j f), Finset.mul_sum, Finset.mul_sum, ← Finset.sum_sub_distrib]
  refine Finset.sum_congr rfl fun f _ => ?_
  rw [← Finset.sum_mul, ← Finset.sum_mul]
  ring

/-- The squared distance of the means as a quadratic function of the selection. -/
theorem mmd_eq (phi : ι → φ → ℝ) (psi : υ → φ → ℝ) {batch : ℝ} (h1 : 0 < Fintype.card ι + batch) (h2 : batch < Fintype.card υ) (x : υ → ℝ) :
    Spec.mmd phi psi batch x = ((Fintype.card ι + Fintype.card υ) / ((Fintype.card ι + batch) * (Fintype.card υ - batch))) ^ 2 *
      (x ⬝ᵥ (Matrix.of fun i j => ∑ f, psi i f * psi j f) *ᵥ x +
        2 * ∑ j, lin (Matrix.of fun i j => ∑ f, phi i f * psi j f) (Matrix.of fun i j => ∑ f, psi i f * psi j f) batch j * x j) + Spec.mmd phi psi batch 0 := by
  have hn : (0 : ℝ) < Fintype.card ι + Fintype.card υ := by linarith
  have h2' : (0 : ℝ) < Fintype.card υ - batch := by linarith
  obtain ⟨l, hl⟩ : ∃ l : ℝ, l = Fintype.card ι := ⟨_, rfl⟩
  obtain ⟨u, hu⟩ : ∃ u : ℝ, u = Fintype.card υ := ⟨_, rfl⟩
  rw [← hl] at h1 hn
  rw [← hu] at h2 h2' hn
  have hin : ∀ (x : υ → ℝ) (f : φ), (∑ i, phi i f + ∑ j, x j * psi j f) / (l + batch) - (∑ j, (1 - x j) * psi j f) / (u - batch) =
      (l + u) / ((l + batch) * (u - batch)) * (∑ j, x j * psi j f + ((u - batch) / (l + u) * ∑ i, phi i f - (l + batch) / (l + u) * ∑ j, psi j f)) := by
    intro x f
    have : ∑ j, (1 - x j) * psi j f = ∑ j, psi j f - ∑ j, x j * psi j f := by
      rw [← Finset.sum_sub_distrib]
      exact Finset.sum_congr rfl fun j _ => by ring
    rw [this]
    field_simp
    ring
  rw [quad_gram, lin_gram]
  unfold Spec.mmd
  rw [← hl, ← hu]
  simp only [hin]
  rw [Finset.mul_sum, ← Finset.sum_add_distrib, Finset.mul_sum, ← Finset.sum_add_distrib]
  refine Finset.sum_congr rfl fun f _ => ?_
  simp only [Pi.zero_apply, zero_mul, Finset.sum_const_zero]
  ring

/-- **C78** (what holds): up to a constant and a factor, the QP's objective is the distance of the means plus the informativeness, less a quarter of `beta` times the quadratic term. -/
theorem C78_objective_partial (phi : ι → φ → ℝ) (psi : υ → φ → ℝ) (beta : ℝ) {batch : ℝ} (h1 : 0 < Fintype.card ι + batch) (h2 : batch < Fintype.card υ) (tau : ι → ℝ) (es : υ → ℝ)
    (x : υ → ℝ) :
    objective beta batch (Matrix.of fun i j => ∑ f, phi i f * psi j f) (Matrix.of fun i j => ∑ f, psi i f * psi j f) tau es x +
        beta / 4 * (∑ f, (∑ j, x j * psi j f) ^ 2) =
      beta / 2 * (((Fintype.card ι + batch) * (Fintype.card υ - batch)) / (Fintype.card ι + Fintype.card υ)) ^ 2 * (Spec.mmd phi psi batch x - Spec.mmd phi psi batch 0) +
        ∑ j, es j * ((tau ᵥ* (Matrix.of fun i j => ∑ f, phi i f * psi j f)) j ^ 2 + 2 * |(tau ᵥ* (Matrix.of fun i j => ∑ f, phi i f * psi j f)) j|) * x j := by
  rw [objective_eq, mmd_eq phi psi h1 h2]
  have hn : (0 : ℝ) < Fintype.card ι + Fintype.card υ := by linarith
  have h2' : (0 : ℝ) < Fintype.card υ - batch := by linarith
  rw [← quad_gram psi x]
  have hc : beta / 2 * (((Fintype.card ι + batch) * (Fintype.card υ - batch)) / (Fintype.card ι + Fintype.card υ)) ^ 2 *
      ((Fintype.card ι + Fintype.card υ) / ((Fintype.card ι + batch) * (Fintype.card υ - batch))) ^ 2 = beta / 2 := by
    field_simp
  rw [add_sub_cancel_right, ← mul_assoc, hc]
  ring

/-- **C78** (violation): no multiple of the distance of the means is the representativeness part of the QP's objective, not even up to a constant and not even on the feasible
selections, as soon as the direction between two unlabelled examples is not orthogonal to the weighted difference of the sums of the two groups. -/
theorem C78_objective_violation (phi : ι → φ → ℝ) (psi : υ → φ → ℝ) {beta : ℝ} (hb : beta ≠ 0) {batch : ℝ} (h1 : 0 < batch) (h2 : batch < Fintype.card υ) (tau : ι → ℝ) (es : υ → ℝ)
    {a b : υ} (hk : ∑ f, ((Fintype.card υ - batch) * ∑ i, phi i f - (Fintype.card ι + batch) * ∑ j, psi j f) * (psi a f - psi b f) ≠ 0) :
    ¬ ∃ c d, ∀ x : υ → ℝ, (∀ j, 0 ≤ x j ∧ x j ≤ 1) → ∑ j, x j = batch →
      objective beta batch (Matrix.of fun i j => ∑ f, phi i f * psi j f) (Matrix.of fun i j => ∑ f, psi i f * psi j f) tau es x =
        c * Spec.mmd phi psi batch x + ∑ j, es j * ((tau ᵥ* (Matrix.of fun i j => ∑ f, phi i f * psi j f)) j ^ 2 + 2 * |(tau ᵥ* (Matrix.of fun i j => ∑ f, phi i f * psi j f)) j|) * x j + d := by
  classical
  rintro ⟨c, d, h⟩
  have hl : (0 : ℝ) ≤ Fintype.card ι := Nat.cast_nonneg _
  have hn : (0 : ℝ) < Fintype.card ι + Fintype.card υ := by linarith
  have hu : (0 : ℝ) < Fintype.card υ := by linarith
  have hab : a ≠ b := by
    rintro rfl
    simp at hk
  have hq1 : 0 < batch / Fintype.card υ := div_pos h1 hu
  have hq2 : batch / Fintype.card υ < 1 := (div_lt_one hu).2 h2
  obtain ⟨q, hq⟩ : ∃ q, q = batch / Fintype.card υ := ⟨_, rfl⟩
  rw [← hq] at hq1 hq2
  obtain ⟨e, he0, he1, he2⟩ : ∃ e : ℝ, 0 < e ∧ e ≤ q ∧ q + e ≤ 1 := by
    refine ⟨min q (1 - q), lt_min hq1 (by linarith), min_le_left _ _, ?_⟩
    have := min_le_right q (1 - q)
    linarith
  -- along the line
  have hfe : ∀ t : ℝ, |t| ≤ e → (∀ j, 0 ≤ q + t * ((if j = a then (1 : ℝ) else 0) - (if j = b then (1 : ℝ) else 0)) ∧
      q + t * ((if j = a then (1 : ℝ) else 0) - (if j = b then (1 : ℝ) else 0)) ≤ 1) ∧ ∑ j, (q + t * ((if j = a then (1 : ℝ) else 0) - (if j = b then (1 : ℝ) else 0))) = batch := by
    intro t ht
    have ht' := abs_le.1 ht
    constructor
    · intro j
      by_cases hja : j = a
      · subst hja
        simp only [if_true, if_neg hab]
        constructor <;> linarith
      · by_cases hjb : j = b
        · subst hjb
          simp only [if_true, if_neg hja]
          constructor <;> linarith
        · simp only [if_neg hja, if_neg hjb]
          constructor <;> linarith
    · rw [Finset.sum_add_distrib, ← Finset.mul_sum, Finset.sum_sub_distrib]
      simp only [Finset.sum_ite_eq', Finset.mem_univ, if_true, Finset.sum_const, Finset.card_univ, nsmul_eq_mul]
      rw [hq]
      field_simp
      ring
  have hx := fun t ht => h (fun j => q + t * ((if j = a then (1 : ℝ) else 0) - (if j = b then (1 : ℝ) else 0))) (hfe t ht).1 (hfe t ht).2
  have hS : ∀ (t : ℝ) (f : φ), ∑ j, (q + t * ((if j = a then 1 else 0) - (if j = b then 1 else 0))) * psi j f = q * ∑ j, psi j f + t * (psi a f - psi b f) := by
    intro t f
    simp only [add_mul, mul_assoc, sub_mul, ite_mul, one_mul, zero_mul]
    rw [Finset.sum_add_distrib, ← Finset.mul_sum, ← Finset.mul_sum, Finset.sum_sub_distrib]
    simp
  obtain ⟨m, hm⟩ : ∃ m : φ → ℝ, m = fun f => (Fintype.card υ - batch) / (Fintype.card ι + Fintype.card υ) * ∑ i, phi i f -
      (Fintype.card ι + batch) / (Fintype.card ι + Fintype.card υ) * ∑ j, psi j f := ⟨_, rfl⟩
  have hkm : ∑ f, m f * (psi a f - psi b f) ≠ 0 := by
    intro h0
    apply hk
    have : ∑ f, ((Fintype.card υ - batch) * ∑ i, phi i f - (Fintype.card ι + batch) * ∑ j, psi j f) * (psi a f - psi b f) =
        (Fintype.card ι + Fintype.card υ) * ∑ f, m f * (psi a f - psi b f) := by
      rw [Finset.mul_sum, hm]
      refine Finset.sum_congr rfl fun f _ => ?_
      field_simp
    rw [this, h0, mul_zero]
  have hD : 0 < ∑ f, (psi a f - psi b f) ^ 2 := by
    rcases (Finset.sum_nonneg (fun f (_ : f ∈ Finset.univ) => sq_nonneg (psi a f - psi b f))).lt_or_eq with h0 | h0
    · exact h0
    · exfalso
      apply hkm
      have := (Finset.sum_eq_zero_iff_of_nonneg (fun f _ => sq_nonneg (psi a f - psi b f))).1 h0.symm
      apply Finset.sum_eq_zero
      intro f hf
      have := pow_eq_zero_iff (two_ne_zero) |>.1 (this f hf)
      rw [this, mul_zero]
  have hlg : ∀ x : υ → ℝ, ∑ j, lin (Matrix.of fun i j => ∑ f, phi i f * psi j f) (Matrix.of fun i j => ∑ f, psi i f * psi j f) batch j * x j =
      ∑ f, m f * ∑ j, x j * psi j f := by
    intro x
    rw [lin_gram, hm]
  obtain ⟨M, hM0⟩ : ∃ M, M = Spec.mmd phi psi batch 0 := ⟨_, rfl⟩
  have hmm := mmd_eq phi psi (by linarith : (0 : ℝ) < Fintype.card ι + batch) h2
  rw [← hM0] at hmm
  simp only [objective_eq, hmm, quad_gram, hlg, hS] at hx
  have hQ : ∀ t : ℝ, ∑ f, (q * ∑ j, psi j f + t * (psi a f - psi b f)) ^ 2 = ∑ f, (q * ∑ j, psi j f) ^ 2 + t * (2 * ∑ f, (q * ∑ j, psi j f) * (psi a f - psi b f)) +
      t ^ 2 * ∑ f, (psi a f - psi b f) ^ 2 := by
    intro t
    simp only [Finset.mul_sum (s := (Finset.univ : Finset φ)), ← Finset.sum_add_distrib]
    refine Finset.sum_congr rfl fun f _ => ?_
    ring
  have hM : ∀ t : ℝ, ∑ f, m f * (q * ∑ j, psi j f + t * (psi a f - psi b f)) = ∑ f, m f * (q * ∑ j, psi j f) + t * ∑ f, m f * (psi a f - psi b f) := by
    intro t
    simp only [Finset.mul_sum (s := (Finset.univ : Finset φ)), ← Finset.sum_add_distrib]
    refine Finset.sum_congr rfl fun f _ => ?_
    ring
  simp only [hQ, hM] at hx
  generalize ((Fintype.card ι + Fintype.card υ : ℝ) / ((Fintype.card ι + batch) * (Fintype.card υ - batch))) ^ 2 = C at hx
  generalize ∑ f, (psi a f - psi b f) ^ 2 = D at hx hD
  generalize ∑ f, m f * (psi a f - psi b f) = k at hx hkm
  generalize ∑ f, (q * ∑ j, psi j f) * (psi a f - psi b f) = B at hx
  generalize ∑ f, (q * ∑ j, psi j f) ^ 2 = P at hx
  generalize ∑ f, m f * (q * ∑ j, psi j f) = R at hx
  have x0 := hx 0 (by simpa using he0.le)
  have x1 := hx e (by rw [abs_of_pos he0])
  have x2 := hx (-e) (by rw [abs_neg, abs_of_pos he0])
  have hcC : (beta / 4 - c * C) * (e ^ 2 * D) = 0 := by linarith
  have hcC' : c * C = beta / 4 := by
    have := (mul_eq_zero.1 hcC).resolve_right (mul_pos (pow_pos he0 2) hD).ne'
    linarith
  have : beta * (e * k) = 0 := by
    have e1 : c * (C * (P + e * (2 * B) + e ^ 2 * D + 2 * (R + e * k)) + M) = (c * C) * (P + e * (2 * B) + e ^ 2 * D + 2 * (R + e * k)) + c * M := by ring
    have e2 : c * (C * (P + -e * (2 * B) + (-e) ^ 2 * D + 2 * (R + -e * k)) + M) = (c * C) * (P + -e * (2 * B) + e ^ 2 * D + 2 * (R + -e * k)) + c * M := by ring
    rw [e1, hcC'] at x1
    rw [e2, hcC'] at x2
    linarith
  rcases mul_eq_zero.1 this with h' | h'
  · exact hb h'
  · rcases mul_eq_zero.1 h' with h'' | h''
    · exact he0.ne' h''
    · exact hkm h''

example : let phi : Fin 1 → Fin 1 → ℝ := fun _ _ => 3
    let psi : Fin 2 → Fin 1 → ℝ := fun j _ => j
    ∑ f, ((Fintype.card (Fin 2) - 1) * ∑ i, phi i f - (Fintype.card (Fin 1) + 1) * ∑ j, psi j f) * (psi 0 f - psi 1 f) ≠ 0 := by
  norm_num [Fin.sum_univ_two]

end Mmd

end Alipy.Bmdr
