import Verif.Proof.BmdrSym
import Verif.Model.Quire
import Mathlib.Data.Finset.Card
import Mathlib.Data.Fintype.Basic
import Mathlib.Data.List.GetD
import Mathlib.Data.List.NodupEquivFin
/-!
# C112: the names of the two classes and the order of the labelled examples make no difference
-/
set_option linter.unusedSectionVars false
set_option linter.unusedSimpArgs false
namespace Alipy.Bmdr
open Alipy Alipy.Select Matrix

section Names
variable {N : ℕ}

theorem mem_classes {y : Fin N → Int} {v : Int} : v ∈ classes y ↔ ∃ i, y i = v := by
  unfold classes
  rw [(List.perm_insertionSort _ _).mem_iff, List.mem_dedup, List.mem_ofFn]

theorem nodup_classes (y : Fin N → Int) : (classes y).Nodup := by
  unfold classes
  exact (List.perm_insertionSort _ _).nodup_iff.2 (List.nodup_dedup _)

theorem length_classes (y : Fin N → Int) : (classes y).length = (Finset.univ.image y).card := by
  rw [← List.toFinset_card_of_nodup (nodup_classes y)]
  congr 1
  ext v
  simp [mem_classes]

theorem length_classes_congr {y y' : Fin N → Int} (h : Spec.SameClasses y y') : (classes y).length = (classes y').length := by
  rw [length_classes, length_classes]
  classical
  let g : Int → Int := fun v => if hv : ∃ i, y i = v then y' hv.choose else 0
  have hg : ∀ i, g (y i) = y' i := by
    intro i
    have hv : ∃ k, y k = y i := ⟨i, rfl⟩
    simp only [g, dif_pos hv]
    exact (h _ _).1 hv.choose_spec
  have e : Finset.univ.image y' = (Finset.univ.image y).image g := by
    rw [Finset.image_image]
    congr 1
    funext i
    exact (hg i).symm
  rw [e]
  refine (Finset.card_image_of_injOn ?_).symm
  intro u hu v hv huv
  simp only [Finset.coe_image, Finset.coe_univ, Set.image_univ, Set.mem_range] at hu hv
  obtain ⟨i, rfl⟩ := hu
  obtain ⟨j, rfl⟩ := hv
  rw [hg, hg] at huv
  exact (h i j).2 huv

/-- What is stored: with the classes `p` and `q`, 1 for one and -1 for the other. -/
theorem stored_two {y : Fin N → Int} {p q : Int} (h : classes y = [p, q]) :
    ∃ s : ℝ, (s = 1 ∨ s = -1) ∧ stored y = .ok fun i => if y i = p then s else -s := by
  have hpq : p ≠ q := by
    have := nodup_classes y
    rw [h] at this
    simpa using this
  have hy : ∀ i, y i = p ∨ y i = q := by
    intro i
    have : y i ∈ classes y := mem_classes.2 ⟨i, rfl⟩
    rw [h] at this
    simpa using this
  unfold stored recode
  rw [h]
  simp only
  by_cases h1 : (p = 1 ∧ q = -1) ∨ (p = -1 ∧ q = 1)
  · rw [if_pos h1]
    refine ⟨(p : ℝ), by rcases h1 with ⟨rfl, -⟩ | ⟨rfl, -⟩ <;> simp, ?_⟩
    simp only
    congr 1
    funext i
    rw [List.getD_eq_getElem _ _ (by simp), List.getElem_ofFn]
    by_cases hi : y i = p
    · simp [hi]
    · rw [if_neg hi, (hy i).resolve_left hi]
      rcases h1 with ⟨rfl, rfl⟩ | ⟨rfl, rfl⟩ <;> simp
  · rw [if_neg h1]
    refine ⟨1, Or.inl rfl, ?_⟩
    simp only
    congr 1
    funext i
    rw [List.getD_eq_getElem _ _ (by simp), List.getElem_map, List.getElem_ofFn]
    rcases hy i with hi | hi
    · simp [hi, hpq]
    · simp [hi, hpq.symm]

theorem stored_error {y : Fin N → Int} (h : (classes y).length ≠ 2) : stored y = .error .valueError := by
  unfold stored recode
  match hc : classes y with
  | [] => rfl
  | [_] => rfl
  | [p, q] => rw [hc] at h; simp at h
  | _ :: _ :: _ :: _ => rfl

theorem stored_congr {y y' : Fin N → Int} (h : Spec.SameClasses y y') :
    (stored y = .error .valueError ∧ stored y' = .error .valueError) ∨
    ∃ v v' : Fin N → ℝ, ∃ c : ℝ, (c = 1 ∨ c = -1) ∧ stored y = .ok v ∧ stored y' = .ok v' ∧ ∀ i, v' i = c * v i := by
  have hl := length_classes_congr h
  by_cases h2 : (classes y).length = 2
  · right
    obtain ⟨p, q, hc⟩ := List.length_eq_two.1 h2
    obtain ⟨p', q', hc'⟩ := List.length_eq_two.1 (hl ▸ h2)
    obtain ⟨s, hs, e⟩ := stored_two hc
    obtain ⟨s', hs', e'⟩ := stored_two hc'
    obtain ⟨i0, hi0⟩ : ∃ i, y i = p := mem_classes.1 (by rw [hc]; simp)
    have hd : p' ≠ q' := by
      have := nodup_classes y'
      rw [hc'] at this
      simpa using this
    have hy : ∀ i, y i = p ∨ y i = q := by
      intro i
      have : y i ∈ classes y := mem_classes.2 ⟨i, rfl⟩
      rw [hc] at this
      simpa using this
    have hy' : ∀ i, y' i = p' ∨ y' i = q' := by
      intro i
      have : y' i ∈ classes y' := mem_classes.2 ⟨i, rfl⟩
      rw [hc'] at this
      simpa using this
    have hk : ∀ i, y i = p ↔ y' i = y' i0 := fun i => by rw [← hi0]; exact h i i0
    rcases hy' i0 with h0 | h0
    · refine ⟨_, _, s' * s, ?_, e, e', fun i => ?_⟩
      · rcases hs with rfl | rfl <;> rcases hs' with rfl | rfl <;> simp
      · have h1 := hk i
        rw [h0] at h1
        simp only [h1]
        by_cases hi : y' i = p'
        · rw [if_pos hi, if_pos hi]; rcases hs with rfl | rfl <;> simp
        · rw [if_neg hi, if_neg hi]; rcases hs with rfl | rfl <;> simp
    · refine ⟨_, _, -(s' * s), ?_, e, e', fun i => ?_⟩
      · rcases hs with rfl | rfl <;> rcases hs' with rfl | rfl <;> simp
      · have h1 := hk i
        rw [h0] at h1
        simp only [h1]
        by_cases hi : y' i = q'
        · rw [if_pos hi, if_neg (by rw [hi]; exact hd.symm)]; rcases hs with rfl | rfl <;> simp
        · rw [if_neg hi, if_pos ((hy' i).resolve_right hi)]; rcases hs with rfl | rfl <;> simp
  · exact Or.inl ⟨stored_error h2, stored_error (hl ▸ h2)⟩

end Names

section Main
variable {N a : ℕ}

/-- **C112** (BMDR): other names for the two classes, and another order of the labelled examples, change nothing in what is selected (or raised). `Spec.IsPseudoInverse` determines the
matrix that `np.linalg.pinv` returns. -/
theorem C112_bmdr (argsort : List ℝ → List Nat) {pinv : Matrix (Fin a) (Fin a) ℝ → Matrix (Fin a) (Fin a) ℝ} (hp : ∀ A, Spec.IsPseudoInverse A (pinv A))
    (qp : ∀ m, (Fin m → ℝ) → Fin m → ℝ) (K : Fin N → Fin N → ℝ) (beta gamma : ℝ) {rho : ℝ} (hr : 0 < rho) (n : ℕ) (lab : Fin a → Fin N) (e : Equiv.Perm (Fin a))
    {y y' : Fin N → Int} (hy : Spec.SameClasses y y') (u : Coll (Fin N)) (batch : Int) (fuel : ℕ) :
    bmdr argsort pinv qp K beta gamma rho n (fun i => lab (e i)) (stored y') u batch fuel = bmdr argsort pinv qp K beta gamma rho n lab (stored y) u batch fuel := by
  rcases stored_congr hy with ⟨h1, h2⟩ | ⟨v, v', c, hc, h1, h2, h3⟩
  · rw [h1, h2]; rfl
  · rw [h1, h2]
    exact bmdrSelect_move hc argsort e (fun A => pinv_submatrix hp A e) qp K beta gamma hr n lab (fun i => h3 (lab i)) u batch fuel

/-- **C112** (SPAL). -/
theorem C112_spal (argsort : List ℝ → List Nat) {pinv : Matrix (Fin a) (Fin a) ℝ → Matrix (Fin a) (Fin a) ℝ} (hp : ∀ A, Spec.IsPseudoInverse A (pinv A))
    (qp : ∀ m, (Fin m → ℝ) → (Fin m → ℝ) → Fin m → ℝ) (K : Fin N → Fin N → ℝ) (mu gamma rho lambda : ℝ) (n : ℕ) (lab : Fin a → Fin N) (e : Equiv.Perm (Fin a))
    {y y' : Fin N → Int} (hy : Spec.SameClasses y y') (u : Coll (Fin N)) (batch : Int) (fuel : ℕ) :
    spal argsort pinv qp K mu gamma rho lambda n (fun i => lab (e i)) (stored y') u batch fuel = spal argsort pinv qp K mu gamma rho lambda n lab (stored y) u batch fuel := by
  rcases stored_congr hy with ⟨h1, h2⟩ | ⟨v, v', c, hc, h1, h2, h3⟩
  · rw [h1, h2]; rfl
  · rw [h1, h2]
    exact spalSelect_move hc argsort e (fun A => pinv_submatrix hp A e) qp K mu gamma rho lambda n lab (fun i => h3 (lab i)) u batch fuel

/-- **C112** is violated for labels in an array of booleans: all examples get the label 1, so that the labels decide nothing, whatever the two labellings are. -/
theorem C112_bool_violation {y y' : Fin N → Bool} (h1 : ∃ i, y i = true) (h2 : ∃ i, y i = false) (h1' : ∃ i, y' i = true) (h2' : ∃ i, y' i = false)
    (argsort : List ℝ → List Nat) (pinv : Matrix (Fin a) (Fin a) ℝ → Matrix (Fin a) (Fin a) ℝ)
    (qp : ∀ m, (Fin m → ℝ) → Fin m → ℝ) (K : Fin N → Fin N → ℝ) (beta gamma rho : ℝ) (n : ℕ) (lab : Fin a → Fin N) (u : Coll (Fin N)) (batch : Int) (fuel : ℕ) :
    storedBool y = .ok (fun _ => 1) ∧
    bmdr argsort pinv qp K beta gamma rho n lab (storedBool y) u batch fuel = bmdr argsort pinv qp K beta gamma rho n lab (storedBool y') u batch fuel := by
  have h : ∀ {z : Fin N → Bool}, (∃ i, z i = true) → (∃ i, z i = false) → storedBool z = .ok fun _ => 1 := by
    intro z a b
    unfold storedBool
    rw [if_pos ⟨a, b⟩]
    congr 1
    funext i
    cases z i <;> simp
  rw [h h1 h2, h h1' h2']
  exact ⟨rfl, rfl⟩

/-- Labels 0 and 1, 7 and 3, 1 and -1. -/
example : stored ![0, 1, 1] = .ok ![1, -1, -1] ∧ stored ![7, 3, 3] = .ok ![-1, 1, 1] ∧ stored ![1, -1, -1] = .ok ![1, -1, -1] := by
  have h : ∀ {y : Fin 3 → Int} {v : Fin 3 → Int}, recode (classes y) (List.ofFn y) = .ok (List.ofFn v) → stored y = .ok fun i => (v i : ℝ) := by
    intro y v h
    unfold stored
    rw [h]
    simp only
    congr 1
    funext i
    rw [List.getD_eq_getElem _ _ (by simp), List.getElem_ofFn]
  refine ⟨?_, ?_, ?_⟩
  · rw [h (v := ![1, -1, -1]) (by decide +kernel)]
    congr 1; funext i; fin_cases i <;> simp
  · rw [h (v := ![-1, 1, 1]) (by decide +kernel)]
    congr 1; funext i; fin_cases i <;> simp
  · rw [h (v := ![1, -1, -1]) (by decide +kernel)]
    congr 1; funext i; fin_cases i <;> simp

example : Spec.SameClasses (![0, 1, 1] : Fin 3 → Int) ![7, 3, 3] := by
  intro i j
  fin_cases i <;> fin_cases j <;> simp

end Main

end Alipy.Bmdr

namespace Alipy.Quire
open Matrix

variable {α : Type} {n a b : ℕ}

theorem invLaa_comp (Km : Matrix (Fin (n + 1)) (Fin (n + 1)) ℝ) (lam : ℝ) (lab : Fin a → Fin (n + 1)) (unl : Fin b → Fin (n + 1)) (e : Equiv.Perm (Fin a)) :
    invLaa Km lam (fun j => lab (e j)) unl = invLaa Km lam lab unl := by
  unfold invLaa
  have h1 : Km.submatrix unl (fun j => lab (e j)) = (Km.submatrix unl lab).submatrix id e := rfl
  have h2 : Km.submatrix (fun j => lab (e j)) unl = (Km.submatrix lab unl).submatrix e id := rfl
  have h3 : (lam • (1 : Matrix (Fin a) (Fin a) ℝ)) = (lam • (1 : Matrix (Fin a) (Fin a) ℝ)).submatrix e e := by
    ext i j
    simp [Matrix.one_apply]
  conv_lhs => rw [h1, h2, h3, Matrix.inv_submatrix_equiv, Matrix.submatrix_mul_equiv, Matrix.submatrix_mul_equiv]
  rfl

theorem eva_move {c : ℝ} (hc : c = 1 ∨ c = -1) (Km : Matrix (Fin (n + 1)) (Fin (n + 1)) ℝ) (lam : ℝ) (lab : Fin a → Fin (n + 1)) (unl : Fin b → Fin (n + 1)) (e : Equiv.Perm (Fin a))
    {y y' : Fin (n + 1) → ℝ} (hy : ∀ j, y' (lab j) = c * y (lab j)) : eva Km lam (fun j => lab (e j)) unl y' = eva Km lam lab unl y := by
  funext i
  unfold eva
  simp only [invLaa_comp]
  set T : Fin a → ℝ := fun j => lMat Km lam (unl i) (lab j) - ∑ k : {k : Fin b // k ≠ i}, (∑ t : {k : Fin b // k ≠ i}, lMat Km lam (unl i) (unl t) *
    invLuu (invLaa Km lam lab unl) i t k) * lMat Km lam (unl k) (lab j) with hT
  have h : ∑ j, T (e j) * y' (lab (e j)) = c * ∑ j, T j * y (lab j) := by
    rw [Equiv.sum_comp e fun j => T j * y' (lab j), Finset.mul_sum]
    exact Finset.sum_congr rfl fun j _ => by rw [hy j]; ring
  have h' : |∑ j, T (e j) * y' (lab (e j))| = |∑ j, T j * y (lab j)| := by
    rw [h]
    rcases hc with rfl | rfl
    · rw [one_mul]
    · rw [neg_one_mul, abs_neg]
  simp only [hT] at h'
  rw [h']

/-- **C112** (QUIRE): with the labels 1 and -1 it makes no difference which class is which, and the order of the labelled examples never does. Missing: other names
(`C112_quire_violation`). -/
theorem C112_quire_partial (train : Fin (n + 1) → α) (Km : Matrix (Fin (n + 1)) (Fin (n + 1)) ℝ) (lam : ℝ) (lab : Fin a → Fin (n + 1)) (unl : Fin b → Fin (n + 1)) (e : Equiv.Perm (Fin a))
    {y y' : Fin (n + 1) → ℝ} (hy : (∀ j, y' (lab j) = y (lab j)) ∨ ∀ j, y' (lab j) = -y (lab j)) :
    select train Km lam (fun j => lab (e j)) unl y' = select train Km lam lab unl y := by
  unfold select
  rcases hy with hy | hy
  · rw [eva_move (Or.inl rfl) Km lam lab unl e (fun j => by rw [hy j, one_mul])]
  · rw [eva_move (Or.inr rfl) Km lam lab unl e (fun j => by rw [hy j, neg_one_mul])]

/-- The kernel matrix of four examples, the third similar to the first and the fourth similar to the second. -/
def twins (c : ℝ) : Matrix (Fin (3 + 1)) (Fin (3 + 1)) ℝ := !![1, 0, c, 0; 0, 1, 0, c; c, 0, 1, 0; 0, c, 0, 1]

theorem lMat_twins {c : ℝ} (hc : c ^ 2 < 2) : lMat (twins c) 1 =
    !![2 / (4 - c ^ 2), 0, -c / (4 - c ^ 2), 0; 0, 2 / (4 - c ^ 2), 0, -c / (4 - c ^ 2); -c / (4 - c ^ 2), 0, 2 / (4 - c ^ 2), 0; 0, -c / (4 - c ^ 2), 0, 2 / (4 - c ^ 2)] := by
  unfold lMat
  have hd : 4 - c ^ 2 ≠ 0 := by nlinarith
  refine Matrix.inv_eq_right_inv ?_
  ext i j
  fin_cases i <;> fin_cases j <;> simp [twins, Matrix.mul_apply, Fin.sum_univ_four, Matrix.one_apply] <;> field_simp <;> ring

theorem eva_twins {c : ℝ} (hc : c ^ 2 < 2) (y : Fin (3 + 1) → ℝ) : ∃ B : ℝ, eva (twins c) 1 ![0, 1] ![2, 3] y 0 = some (B + 2 * (|c| / (4 - c ^ 2) * |y 0|)) ∧
    eva (twins c) 1 ![0, 1] ![2, 3] y 1 = some (B + 2 * (|c| / (4 - c ^ 2) * |y 1|)) := by
  have hd : 0 < 4 - c ^ 2 := by nlinarith
  have hM : ∀ i : Fin 2, invLaa (twins c) 1 ![0, 1] ![2, 3] i i = 2 - c ^ 2 := by
    intro i
    unfold invLaa
    rw [one_smul, inv_one, Matrix.mul_one, Matrix.sub_apply, Matrix.add_apply, Matrix.mul_apply, Fin.sum_univ_two]
    simp only [Matrix.submatrix_apply, Matrix.one_apply_eq]
    fin_cases i <;> simp [twins] <;> ring
  have hM0 : ∀ i : Fin 2, ¬(invLaa (twins c) 1 ![0, 1] ![2, 3] i i = 0 ∧ (2 : ℕ) ≠ 0) := fun i h => by
    rw [hM i] at h
    linarith [h.1]
  have hz : ∀ i : Fin 2, ∀ t : {k : Fin 2 // k ≠ i}, lMat (twins c) 1 ((![2, 3] : Fin 2 → Fin 4) i) ((![2, 3] : Fin 2 → Fin 4) t) = 0 := by
    intro i t
    rw [lMat_twins hc]
    obtain ⟨t, ht⟩ := t
    fin_cases i <;> fin_cases t <;> first | exact absurd rfl ht | simp
  have habs : ∀ x : ℝ, |-c / (4 - c ^ 2) * x| = |c| / (4 - c ^ 2) * |x| := by
    intro x
    rw [abs_mul, abs_div, abs_neg, abs_of_pos hd]
  refine ⟨2 / (4 - c ^ 2) - ((lMat (twins c) 1).submatrix ![2, 3] ![2, 3]).det / (2 / (4 - c ^ 2)), ?_, ?_⟩
  · unfold eva
    simp only [hz, zero_mul, Finset.sum_const_zero, sub_zero]
    rw [if_neg (hM0 0), ← habs, Fin.sum_univ_two]
    congr 2
    · simp [lMat_twins hc]
    · simp [lMat_twins hc]
  · unfold eva
    simp only [hz, zero_mul, Finset.sum_const_zero, sub_zero]
    rw [if_neg (hM0 1), ← habs, Fin.sum_univ_two]
    congr 2
    · simp [lMat_twins hc]
    · simp [lMat_twins hc]

/-- **C112** is violated by QUIRE, which does not recode the labels: with the classes 0 and 1 it matters which is called 0. For all four examples as in `twins`, one of each pair
labelled, the example similar to that of class 0 is selected; exchanging the names exchanges the selected example. -/
theorem C112_quire_violation {c : ℝ} (h0 : c ≠ 0) (hc : c ^ 2 < 2) (train : Fin (3 + 1) → α) {y y' : Fin (3 + 1) → ℝ} (hy : y 0 = 0 ∧ y 1 = 1) (hy' : y' 0 = 1 ∧ y' 1 = 0) :
    select train (twins c) 1 ![0, 1] ![2, 3] y = [train 2] ∧ select train (twins c) 1 ![0, 1] ![2, 3] y' = [train 3] := by
  have hpos : 0 < |c| / (4 - c ^ 2) := div_pos (abs_pos.2 h0) (by nlinarith)
  obtain ⟨B, e0, e1⟩ := eva_twins hc y
  obtain ⟨B', e0', e1'⟩ := eva_twins hc y'
  rw [hy.1] at e0
  rw [hy.2] at e1
  rw [hy'.1] at e0'
  rw [hy'.2] at e1'
  have hf : List.finRange 2 = [0, 1] := rfl
  constructor
  · unfold select
    rw [if_neg (by norm_num), hf]
    simp only [List.foldl, step, e0, e1]
    rw [if_neg (by simp; linarith)]
    rfl
  · unfold select
    rw [if_neg (by norm_num), hf]
    simp only [List.foldl, step, e0', e1']
    rw [if_pos (by simp; linarith)]
    rfl

/-- Two pairs of equal examples (`c = 1`, a linear kernel): with class 0 for the first example its copy is asked for, with class 0 for the second the copy of that. -/
example : select (fun i => 10 * (i : ℕ)) (twins 1) 1 ![0, 1] ![2, 3] ![0, 1, 0, 1] = [20] ∧ select (fun i => 10 * (i : ℕ)) (twins 1) 1 ![0, 1] ![2, 3] ![1, 0, 1, 0] = [30] :=
  C112_quire_violation (by norm_num) (by norm_num) (fun i => 10 * (i : ℕ)) (by simp) (by simp)

end Alipy.Quire
