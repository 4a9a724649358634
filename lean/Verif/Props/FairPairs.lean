import Verif.Model.MultiLabelSelect
import Verif.Model.PairSession
import Verif.Props.Fair
/-!
# C101 for multi-label queries and features
-/
set_option linter.unusedSimpArgs false
namespace Alipy.Fair
open Alipy
open scoped Nat

/-- The first `k` numbers of a shuffled range. -/
theorem randperm_take {n k : Nat} (hk : k ≤ n) (σ : Equiv.Perm (Fin n)) :
    randperm (Spec.shuffleBy σ) (.int ((n : Int) - 1)) (.int k) = .ok (((List.ofFn (fun i => (σ i : Nat))).map (fun i : Nat => (i : Int))).take k) := by
  unfold randperm
  simp only [sub_add_cancel, sub_zero]
  rw [if_neg (by omega), shuffle_range]
  unfold pySliceTo
  rw [if_pos (by omega), Int.toNat_natCast]

/-- **C101**: `QueryMultiLabelRandom` for pairs: every batch of `k` of the unlabelled pairs is selected for equally many permutations. -/
theorem C101_pairs {n L : Nat} {unl : MLSelect.PairArg} {u : MLIC} (hu : MLSelect.checkInd n L unl = .ok u) {k : Nat} (hk : k < unl.len)
    {S : Int × Second → Bool} (hS : u.inner.countP S = k) :
    Spec.ways (fun σ : Equiv.Perm (Fin u.inner.length) =>
      ∃ r, MLSelect.random (Spec.shuffleBy σ) n L .insLab unl k = .ok (.pairs r) ∧ r.Perm (u.inner.filter S)) = k ! * (u.inner.length - k)! := by
  rw [← take_count hS]
  congr 1
  funext σ
  have hkl : k ≤ u.inner.length := by rw [← hS]; exact List.countP_le_length
  have hr : MLSelect.random (Spec.shuffleBy σ) n L .insLab unl k = .ok (.pairs ((shuffled u.inner σ).take k)) := by
    unfold MLSelect.random
    simp only
    rw [if_neg (by omega), hu]
    simp only
    rw [randperm_take hkl]
    simp only
    rw [pick_take]
  rw [hr]
  apply propext
  constructor
  · rintro ⟨r, h1, h2⟩
    cases h1
    exact h2
  · exact fun h => ⟨_, rfl, h⟩

/-- **C101**: `QueryMultiLabelRandom` for whole instances: every batch of `k` of the instances with an unlabelled pair is selected for
equally many permutations. -/
theorem C101_instances {n L : Nat} {unl : MLSelect.PairArg} {u : MLIC} (hu : MLSelect.checkInd n L unl = .ok u) {k : Nat} (hk : k < unl.len)
    {S : Int → Bool} (hS : u.instanceIndex.countP S = k) :
    Spec.ways (fun σ : Equiv.Perm (Fin u.instanceIndex.length) =>
      ∃ r, MLSelect.random (Spec.shuffleBy σ) n L .ins unl k = .ok (.insts r) ∧ r.Perm (u.instanceIndex.filter S)) =
        k ! * (u.instanceIndex.length - k)! := by
  rw [← take_count hS]
  congr 1
  funext σ
  have hkl : k ≤ u.instanceIndex.length := by rw [← hS]; exact List.countP_le_length
  have hr : MLSelect.random (Spec.shuffleBy σ) n L .ins unl k = .ok (.insts ((shuffled u.instanceIndex σ).take k)) := by
    unfold MLSelect.random
    simp only
    rw [if_neg (by omega), hu]
    simp only
    rw [randperm_take hkl]
    simp only
    rw [pick_take]
  rw [hr]
  apply propext
  constructor
  · rintro ⟨r, h1, h2⟩
    cases h1
    exact h2
  · exact fun h => ⟨_, rfl, h⟩

/-- **C101**: `QueryFeatureRandom`: every batch of `k` of the unknown entries is selected for equally many permutations. -/
theorem C101_features {unknown : MLIC} (h1 : 1 < unknown.inner.length) {k : Nat}
    {S : Int × Second → Bool} (hS : unknown.inner.countP S = k) :
    Spec.ways (fun σ : Equiv.Perm (Fin unknown.inner.length) =>
      ∃ r : List (Int × Second), PairSession.featureRandom (Spec.shuffleBy σ) k unknown = .ok (.fresh (r.map (fun q => .tup (MLIC.toIx q)))) ∧
        r.Perm (unknown.inner.filter S)) = k ! * (unknown.inner.length - k)! := by
  rw [← take_count hS]
  congr 1
  funext σ
  have hkl : k ≤ unknown.inner.length := by rw [← hS]; exact List.countP_le_length
  have hr : PairSession.featureRandom (Spec.shuffleBy σ) k unknown =
      .ok (.fresh (((shuffled unknown.inner σ).take k).map (fun q => .tup (MLIC.toIx q)))) := by
    unfold PairSession.featureRandom
    rw [if_neg (by omega), randperm_take hkl]
    simp only
    rw [pick_take]
  rw [hr]
  apply propext
  constructor
  · rintro ⟨r, e, h2⟩
    have e' : ((shuffled unknown.inner σ).take k).map (fun q => Item.tup (MLIC.toIx q)) = r.map (fun q => Item.tup (MLIC.toIx q)) := by
      simpa using e
    have hinj : Function.Injective (fun q : Int × Second => Item.tup (MLIC.toIx q)) := by
      rintro ⟨a, s⟩ ⟨b, t⟩ h
      cases s <;> cases t <;> simp_all [MLIC.toIx]
    rw [hinj.list_map e']
    exact h2
  · exact fun h => ⟨_, rfl, h⟩

/-- Column major numbers 0, 1 and 3 of a 2 x 2 matrix: each pair is selected for 2 of the 6 permutations. -/
example : ∃ u, MLSelect.checkInd 2 2 (.flat [0, 1, 3]) = .ok u ∧ u.inner = [(0, .scal 0), (1, .scal 0), (1, .scal 1)] ∧
    Spec.ways (fun σ : Equiv.Perm (Fin u.inner.length) =>
      ∃ r, MLSelect.random (Spec.shuffleBy σ) 2 2 .insLab (.flat [0, 1, 3]) 1 = .ok (.pairs r) ∧ r.Perm (u.inner.filter (fun q => decide (q = (1, .scal 0))))) = 2 := by
  obtain ⟨u, hu, hi⟩ : ∃ u, MLSelect.checkInd 2 2 (.flat [0, 1, 3]) = .ok u ∧ u.inner = [(0, .scal 0), (1, .scal 0), (1, .scal 1)] := by
    refine ⟨_, rfl, ?_⟩
    decide +kernel
  refine ⟨u, hu, hi, ?_⟩
  have h := C101_pairs hu (k := 1) (by decide) (S := fun q => decide (q = (1, .scal 0))) (by rw [hi]; decide)
  rw [show ((1 : ℕ) : ℤ) = 1 by rfl] at h
  rw [h, hi]
  decide

end Alipy.Fair
