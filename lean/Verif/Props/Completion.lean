import Verif.Model.Completion
import Mathlib.Tactic.Ring
import Mathlib.Tactic.Linarith
import Mathlib.Tactic.NormNum
import Mathlib.Data.Rat.Defs

/-! # Properties of matrix completion and feature selection -/
namespace Alipy.Features
set_option linter.unusedSectionVars false
set_option linter.unusedSimpArgs false
variable {K : Type} {r c : Nat}

theorem mem_cells (i : Fin r) (j : Fin c) : (i, j) ∈ cells r c := by
  simp [cells]

section
variable [Field K] [LinearOrder K] [IsStrictOrderedRing K]

theorem isMask_iff (m : Mat r c K) : isMask m = true ↔ (∀ i j, m i j = 0 ∨ m i j = 1) ∧ (∃ i j, m i j = 0) ∧ ∃ i j, m i j = 1 := by
  simp only [isMask, Bool.and_eq_true, List.all_eq_true, List.any_eq_true, Bool.or_eq_true, decide_eq_true_eq, and_assoc]
  constructor
  · rintro ⟨h1, ⟨p, _, h2⟩, ⟨q, _, h3⟩⟩
    exact ⟨fun i j => h1 (i, j) (mem_cells i j), ⟨p.1, p.2, h2⟩, ⟨q.1, q.2, h3⟩⟩
  · rintro ⟨h1, ⟨i, j, h2⟩, ⟨i', j', h3⟩⟩
    exact ⟨fun p _ => h1 p.1 p.2, ⟨(i, j), mem_cells i j, h2⟩, ⟨(i', j'), mem_cells i' j', h3⟩⟩

/-! ## C47: AFASMC -/

/-- Observed entries are kept, whatever the completion computes. -/
theorem C47_afasmc_keeps {check : Bool} {complete : Mat r c K → Except PyErr (Mat r c K)} {X mask R : Mat r c K}
    (h : afasmc check complete X mask = .ok R) {i : Fin r} {j : Fin c} (hm : mask i j = 1) : R i j = X i j := by
  unfold afasmc at h
  split at h
  · cases h
  · cases hc : complete (had mask X) with
    | error e => rw [hc] at h; cases h
    | ok Xmc =>
      rw [hc] at h
      cases h
      simp [plus, had, compl, hm]

/-- Unobserved entries of the input have no influence on the result (nor on whether the call raises). -/
theorem C47_afasmc_noninterference (check : Bool) (complete : Mat r c K → Except PyErr (Mat r c K)) {X X' mask : Mat r c K}
    (hmask : ∀ i j, mask i j = 0 ∨ mask i j = 1) (hX : ∀ i j, mask i j = 1 → X i j = X' i j) :
    afasmc check complete X mask = afasmc check complete X' mask := by
  have : had mask X = had mask X' := by
    funext i j
    rcases hmask i j with h | h
    · simp [had, h]
    · simp [had, hX i j h]
  simp [afasmc, this]

/-- The unobserved entries of the result are those of the completion. -/
theorem C47_afasmc_fills {check : Bool} {complete : Mat r c K → Except PyErr (Mat r c K)} {X mask R Xmc : Mat r c K}
    (h : afasmc check complete X mask = .ok R) (hc : complete (fun i j => mask i j * X i j) = .ok Xmc) {i : Fin r} {j : Fin c} (hm : mask i j = 0) :
    R i j = Xmc i j := by
  unfold afasmc at h
  split at h
  · cases h
  · have hc' : complete (had mask X) = .ok Xmc := hc
    rw [hc'] at h
    cases h
    simp [plus, had, compl, hm]

/-- A checked mask without unobserved (or without observed) entries is refused. -/
theorem C47_full_mask_raises (complete : Mat r c K → Except PyErr (Mat r c K)) (X : Mat r c K) {mask : Mat r c K}
    (h : (∀ i j, mask i j = 1) ∨ (∀ i j, mask i j = 0)) : afasmc true complete X mask = .error .assertionError := by
  have : isMask mask = false := by
    rw [Bool.eq_false_iff]
    intro hc
    obtain ⟨_, ⟨i, j, h0⟩, ⟨i', j', h1⟩⟩ := (isMask_iff mask).1 hc
    rcases h with h | h
    · rw [h] at h0; exact one_ne_zero h0
    · rw [h] at h1; exact zero_ne_one h1
  simp [afasmc, this]

end

/-- The documentation says that unobserved entries can be anything, but NaN as unobserved entry gives NaN in the result. -/
theorem C47_nan_violation [Field K] [DecidableEq K] {check : Bool} {complete : Mat r c (Flt K) → Except PyErr (Mat r c (Flt K))} {X mask R : Mat r c (Flt K)}
    (h : afasmc check complete X mask = .ok R) {i : Fin r} {j : Fin c} (_hm : mask i j = 0) (hx : X i j = .nan) : R i j = .nan := by
  unfold afasmc at h
  split at h
  · cases h
  · cases hc : complete (had mask X) with
    | error e => rw [hc] at h; cases h
    | ok Xmc =>
      rw [hc] at h
      cases h
      have h1 : ∀ a : Flt K, a * (.nan : Flt K) = .nan := by intro a; cases a <;> rfl
      have h2 : ∀ a : Flt K, a + (.nan : Flt K) = .nan := by intro a; cases a <;> rfl
      simp only [plus, had, hx, h1, h2]

section
variable [Field K] [LinearOrder K] [IsStrictOrderedRing K]

/-! ### The loops -/

theorem innerLoop_spec {μ : Type} (it : Nat → μ × K) : ∀ (n k : Nat) (prev : K) (best : K × μ), 1 ≤ k →
    ∃ k', innerLoop it n k prev best = ((innerLoop it n k prev best).1, k') ∧ k - 1 ≤ k' ∧ k' < k + n ∧
      (innerLoop it n k prev best).1.1 ≤ best.1 ∧ (∀ q, k ≤ q → q ≤ k' → (innerLoop it n k prev best).1.1 ≤ (it q).2) ∧
      ((innerLoop it n k prev best).1 = best ∨ ∃ q, k ≤ q ∧ q ≤ k' ∧ (innerLoop it n k prev best).1 = ((it q).2, (it q).1))
  | 0, k, prev, best, hk => by
    refine ⟨k - 1, rfl, le_refl _, by omega, le_refl _, ?_, .inl rfl⟩
    intro q h1 h2; omega
  | n + 1, k, prev, best, hk => by
    rw [innerLoop]
    generalize hb : (if (it k).2 < best.1 then ((it k).2, (it k).1) else best) = b
    have hb1 : b.1 ≤ best.1 ∧ b.1 ≤ (it k).2 ∧ (b = best ∨ b = ((it k).2, (it k).1)) := by
      rw [← hb]
      split
      · rename_i h; exact ⟨h.le, le_refl _, .inr rfl⟩
      · rename_i h; exact ⟨le_refl _, not_lt.1 h, .inl rfl⟩
    by_cases hc : |(it k).2 - prev| < 1 / 1000000 * prev
    · rw [if_pos hc]
      refine ⟨k, rfl, by omega, by omega, hb1.1, ?_, ?_⟩
      · intro q h1 h2
        have : q = k := by omega
        subst this; exact hb1.2.1
      · rcases hb1.2.2 with h | h
        · exact .inl h
        · exact .inr ⟨k, le_refl _, le_refl _, h⟩
    · rw [if_neg hc]
      obtain ⟨k', h1, h2, h3, h4, h5, h6⟩ := innerLoop_spec it n (k + 1) (it k).2 b (by omega)
      refine ⟨k', h1, by omega, by omega, le_trans h4 hb1.1, ?_, ?_⟩
      · intro q hq1 hq2
        rcases Nat.eq_or_lt_of_le hq1 with h | h
        · subst h; exact le_trans h4 hb1.2.1
        · exact h5 q h hq2
      · rcases h6 with h | ⟨q, hq1, hq2, hq⟩
        · rcases hb1.2.2 with h' | h'
          · left; rw [h, h']
          · right; exact ⟨k, le_refl _, by omega, by rw [h, h']⟩
        · right; exact ⟨q, by omega, hq2, hq⟩

/-- The inner loop returns the matrix with the smallest objective of all its steps. -/
theorem C59_inner_best {μ : Type} (it : Nat → μ × K) {maxIn : Nat} (h : 0 < maxIn) :
    ∃ k q, k < maxIn ∧ q ≤ k ∧ inner it maxIn = some (((it q).2, (it q).1), k) ∧ ∀ q' ≤ k, (it q).2 ≤ (it q').2 := by
  cases maxIn with
  | zero => omega
  | succ n =>
    simp only [inner]
    obtain ⟨k', h1, h2, h3, h4, h5, h6⟩ := innerLoop_spec it n 1 (it 0).2 ((it 0).2, (it 0).1) (le_refl _)
    have hall : ∀ q' ≤ k', (innerLoop it n 1 (it 0).2 ((it 0).2, (it 0).1)).1.1 ≤ (it q').2 := by
      intro q' hq'
      cases q' with
      | zero => exact h4
      | succ q' => exact h5 _ (by omega) hq'
    rcases h6 with h | ⟨q, _, hq2, hq⟩
    · refine ⟨k', 0, by omega, by omega, ?_, ?_⟩
      · rw [h1, h]
      · rw [h] at hall; exact hall
    · refine ⟨k', q, by omega, hq2, ?_, ?_⟩
      · rw [h1, hq]
      · rw [hq] at hall; exact hall

theorem outerLoop_ok {μ : Type} (it : Nat → Nat → μ × K) {maxIn : Nat} (h0 : 0 < maxIn) : ∀ (n i : Nat) (conv : List K) (best : Nat × μ),
    conv.length = maxIn → i + n ≤ maxIn → (∃ a b, best.2 = (it a b).1) → ∃ a b, outerLoop it maxIn n i conv best = .ok (it a b).1
  | 0, i, conv, best, _, _, ⟨a, b, h⟩ => ⟨a, b, by rw [outerLoop, h]⟩
  | n + 1, i, conv, best, hl, hn, ⟨a, b, h⟩ => by
    obtain ⟨k, q, _, _, hin, _⟩ := C59_inner_best (it i) h0
    rw [outerLoop, hin]
    simp only
    rw [if_neg (by omega)]
    generalize hb : (if (conv.set i (it i q).2).getD k 0 < (conv.set i (it i q).2).getD best.1 0 then (k, (it i q).1) else best) = bb
    have hbb : ∃ a b, bb.2 = (it a b).1 := by
      rw [← hb]
      split
      · exact ⟨i, q, rfl⟩
      · exact ⟨a, b, h⟩
    split
    · obtain ⟨a, b, hab⟩ := hbb
      exact ⟨a, b, by rw [hab]⟩
    · exact outerLoop_ok it h0 n (i + 1) _ bb (by simp [hl]) (by omega) hbb

/-- With at least as many inner as outer steps (and at least one) the iteration ends, with one of its iterates. -/
theorem C59_returns_iterate_partial {μ : Type} (it : Nat → Nat → μ × K) {maxIn maxOut : Nat} (h0 : 0 < maxOut) (hm : maxOut ≤ maxIn) :
    ∃ a b, outer it maxIn maxOut = .ok (it a b).1 := by
  cases maxOut with
  | zero => omega
  | succ n =>
    obtain ⟨k, q, _, _, hin, _⟩ := C59_inner_best (it 0) (by omega : 0 < maxIn)
    rw [outer, hin]
    exact outerLoop_ok it (by omega) n 1 _ _ (by simp) (by omega) ⟨0, q, rfl⟩

/-- A round whose objective is read where nothing has been stored yet, while the view of the best one shows 0, changes nothing but the array. -/
theorem outerLoop_skip {μ : Type} (it : Nat → Nat → μ × K) {maxIn n i k kb : Nat} {conv : List K} {x z : μ} {obj : K} (hl : i < conv.length)
    (hin : inner (it i) maxIn = some ((obj, z), k)) (hik : i < k) (hkb : i < kb) (hz : ∀ q, i ≤ q → conv.getD q 0 = 0) :
    outerLoop it maxIn (n + 1) i conv (kb, x) = outerLoop it maxIn n (i + 1) (conv.set i obj) (kb, x) ∧ ∀ q, i + 1 ≤ q → (conv.set i obj).getD q 0 = 0 := by
  have hset : ∀ p, i < p → (conv.set i obj).getD p 0 = 0 := by
    intro p hp
    rw [List.getD_eq_getElem?_getD, List.getElem?_set_ne (by omega), ← List.getD_eq_getElem?_getD]
    exact hz p (by omega)
  refine ⟨?_, fun q hq => hset q (by omega)⟩
  rw [outerLoop, hin]
  simp only
  rw [if_neg (by omega), hset k hik, hset kb hkb, if_neg (lt_irrefl _), if_neg]
  rw [zero_sub, abs_neg]
  generalize before (conv.set i obj) k = b
  have := le_abs_self b
  have := abs_nonneg b
  intro hc
  nlinarith

theorem outerLoop_first {μ : Type} (it : Nat → Nat → μ × K) {maxIn : Nat} (h0 : 0 < maxIn) : ∀ (n i : Nat) (conv : List K) (kb : Nat) (x : μ),
    conv.length = maxIn → i + n ≤ maxIn → i + n ≤ kb → (∀ q, i ≤ q → conv.getD q 0 = 0) →
    (∀ a, i ≤ a → a < i + n → ∀ best k, inner (it a) maxIn = some (best, k) → a < k) →
    outerLoop it maxIn n i conv (kb, x) = .ok x
  | 0, _, _, _, _, _, _, _, _, _ => rfl
  | n + 1, i, conv, kb, x, hl, hn, hkb, hz, hk => by
    obtain ⟨k, q, hkm, _, hin, _⟩ := C59_inner_best (it i) h0
    obtain ⟨e, hz'⟩ := outerLoop_skip (n := n) (kb := kb) (x := x) it (by omega) hin (hk i (le_refl _) (by omega) _ _ hin) (by omega) hz
    rw [e]
    exact outerLoop_first it h0 n (i + 1) _ kb x (by simp [hl]) (by omega) (by omega) hz' (fun a ha1 ha2 => hk a (by omega) (by omega))

theorem replicate_zero {maxIn : Nat} (obj : K) : ∀ q, 1 ≤ q → ((List.replicate maxIn (0 : K)).set 0 obj).getD q 0 = 0 := by
  intro q hq
  rw [List.getD_eq_getElem?_getD, List.getElem?_set_ne (by omega), List.getElem?_replicate]
  split <;> rfl

/-- If every round takes more inner steps than its number and the first one more than there are rounds (the usual case), the objectives are read
from where they have not been written: the result is always that of the first round, even if a later one has a smaller objective. -/
theorem C59_first_round_violation {μ : Type} (it : Nat → Nat → μ × K) {maxIn maxOut : Nat} (h0 : 0 < maxOut) (hm : maxOut ≤ maxIn)
    (hk : ∀ a < maxOut, ∀ best k, inner (it a) maxIn = some (best, k) → a < k) {best : K × μ} {k : Nat} (hin : inner (it 0) maxIn = some (best, k))
    (hk0 : maxOut ≤ k) : outer it maxIn maxOut = .ok best.2 := by
  cases maxOut with
  | zero => omega
  | succ n =>
    obtain ⟨obj, x⟩ := best
    rw [outer, hin]
    exact outerLoop_first it (by omega) n 1 _ k x (by simp) (by omega) (by omega) (replicate_zero obj) (fun a _ ha2 => hk a (by omega))

theorem outerLoop_late {μ : Type} (it : Nat → Nat → μ × K) {maxIn : Nat} (h0 : 0 < maxIn) : ∀ (n i : Nat) (conv : List K) (x : μ),
    conv.length = maxIn → i + n < maxIn → (∀ q, i ≤ q → conv.getD q 0 = 0) →
    (∀ a, i ≤ a → a ≤ i + n → ∀ best k, inner (it a) maxIn = some (best, k) → a < k) →
    ∀ {best : K × μ} {k : Nat}, inner (it (i + n)) maxIn = some (best, k) → 0 < best.1 →
    outerLoop it maxIn (n + 1) i conv (i + n, x) = .ok best.2
  | 0, i, conv, x, hl, hn, hz, hk, best, k, hin, hpos => by
    have hik := hk i (le_refl _) (by omega) _ _ hin
    rw [Nat.add_zero] at hin
    have hkk : (conv.set i best.1).getD k 0 = 0 := by
      rw [List.getD_eq_getElem?_getD, List.getElem?_set_ne (by omega), ← List.getD_eq_getElem?_getD]
      exact hz k (by omega)
    have hii : (conv.set i best.1).getD i 0 = best.1 := by
      rw [List.getD_eq_getElem?_getD, List.getElem?_set_self (by omega)]
      rfl
    obtain ⟨obj, z⟩ := best
    rw [outerLoop, hin]
    simp only [Nat.add_zero]
    rw [if_neg (by omega), hkk, hii, if_pos hpos]
    split <;> rfl
  | n + 1, i, conv, x, hl, hn, hz, hk, best, k, hin, hpos => by
    obtain ⟨k', q, hkm, _, hin', _⟩ := C59_inner_best (it i) h0
    obtain ⟨e, hz'⟩ := outerLoop_skip (n := n + 1) (kb := i + (n + 1)) (x := x) it (by omega) hin' (hk i (le_refl _) (by omega) _ _ hin') (by omega) hz
    rw [e]
    have := outerLoop_late it h0 n (i + 1) (conv.set i (it i q).2) x (by simp [hl]) (by omega) hz' (fun a ha1 ha2 => hk a (by omega) (by omega)) (best := best) (k := k)
      (by rw [show i + 1 + n = i + (n + 1) by omega]; exact hin) hpos
    rw [show i + 1 + n = i + (n + 1) by omega] at this
    exact this

/-- If the first round ends with step `k` and there are `k + 1` rounds, each with more steps than its number, the result is that of the last round, even
if all others have smaller objectives: in the last round the objective is stored where the best one so far is looked up, and 0 is read for its own. -/
theorem C59_last_round_violation {μ : Type} (it : Nat → Nat → μ × K) {maxIn : Nat} {best best0 : K × μ} {k k0 : Nat} (hm : k0 < maxIn) (h0 : 0 < k0)
    (hk : ∀ a ≤ k0, ∀ best k, inner (it a) maxIn = some (best, k) → a < k) (hin0 : inner (it 0) maxIn = some (best0, k0))
    (hin : inner (it k0) maxIn = some (best, k)) (hpos : 0 < best.1) : outer it maxIn (k0 + 1) = .ok best.2 := by
  obtain ⟨n, rfl⟩ : ∃ n, k0 = 1 + n := ⟨k0 - 1, by omega⟩
  rw [outer, hin0, show 1 + n = n + 1 by omega]
  have := outerLoop_late it (by omega : 0 < maxIn) n 1 ((List.replicate maxIn 0).set 0 best0.1) best0.2 (by simp) hm (replicate_zero _) (fun a _ ha => hk a ha) hin hpos
  rw [show 1 + n = n + 1 by omega] at this
  exact this

/-- A later round with a smaller objective is not returned. -/
example : outer (K := ℚ) (fun i k => (i, if i = 0 then 10 - k else 1 / (k + 1))) 3 2 = .ok 0 := by decide +kernel

/-- The first round ends after two steps, the second and last has greater objectives and is returned. -/
example : outer (K := ℚ) (fun i k => (i, if i = 0 then 10 else 100 - k)) 4 2 = .ok 1 := by decide +kernel

/-- One inner step and more than one round: IndexError. -/
theorem C59_index_violation {μ : Type} (it : Nat → Nat → μ × K) {maxOut : Nat} (h : 2 ≤ maxOut) : outer it 1 maxOut = .error .indexError := by
  obtain ⟨n, rfl⟩ : ∃ n, maxOut = n + 2 := ⟨maxOut - 2, by omega⟩
  simp [outer, inner, innerLoop, outerLoop]

/-! ## C47: iterative SVD -/

theorem imputeLoop_keeps (o : Svd K) (svd : Nat → Mat r c K → Mat r c K) (X mask : Mat r c K) {i : Fin r} {j : Fin c} (hm : mask i j = 1) :
    ∀ (n k : Nat) (filled : Mat r c K), (0 < n ∨ filled i j = X i j) → imputeLoop o svd X mask n k filled i j = X i j
  | 0, _, filled, h => by
    rcases h with h | h
    · omega
    · exact h
  | n + 1, k, filled, _ => by
    rw [imputeLoop]
    generalize (fun a b => clip o.lo o.hi (svd (if o.gradual = true then min (2 ^ k) o.rank else o.rank) filled a b)) = R
    have hx : plus (had R (compl mask)) (had X mask) i j = X i j := by
      simp [plus, had, compl, hm]
    split
    · exact hx
    · exact imputeLoop_keeps o svd X mask hm n (k + 1) _ (.inr hx)

/-- Observed entries are kept, for every behaviour of the decomposition, if at least one iteration is allowed. -/
theorem C47_svd_keeps_partial {o : Svd K} {svd : Nat → Mat r c K → Mat r c K} {maxIters : Nat} (hn : 0 < maxIters) {check : Bool} {X mask R : Mat r c K}
    (h : impute o svd maxIters check X mask = .ok R) {i : Fin r} {j : Fin c} (hm : mask i j = 1) : R i j = X i j := by
  unfold impute at h
  split at h
  · cases h
  · cases h
    exact imputeLoop_keeps o svd X mask hm maxIters 0 _ (.inl hn)

/-- Without iteration the observed entries are replaced by 0 and the unobserved entries of the input are returned. -/
theorem C47_svd_no_iteration_violation (o : Svd K) (svd : Nat → Mat r c K → Mat r c K) {X mask : Mat r c K} (hmask : isMask mask = true) :
    ∃ R, impute o svd 0 true X mask = .ok R ∧ (∀ i j, mask i j = 1 → R i j = 0) ∧ ∀ i j, mask i j = 0 → R i j = X i j := by
  refine ⟨had X (compl mask), by simp [impute, hmask, imputeLoop], ?_, ?_⟩
  · intro i j h; simp [had, compl, h]
  · intro i j h; simp [had, compl, h]

theorem imputeLoop_leak (o : Svd K) (hlo : o.lo = none) (hhi : o.hi = none) (svd : Nat → Mat r c K → Mat r c K) (hs : ∀ k M, svd k M = M)
    (X mask : Mat r c K) (hmask : ∀ i j, mask i j = 0 ∨ mask i j = 1) : ∀ (n k : Nat) (filled : Mat r c K),
    (0 < n ∨ filled = X) → (∀ i j, mask i j = 0 → filled i j = X i j) → imputeLoop o svd X mask n k filled = X
  | 0, _, _, h, _ => by
    rcases h with h | h
    · omega
    · exact h
  | n + 1, k, filled, _, hf => by
    rw [imputeLoop]
    simp only [hs, hlo, hhi, clip]
    have hx : plus (had (fun a b => filled a b) (compl mask)) (had X mask) = X := by
      funext i j
      rcases hmask i j with h | h
      · simp [plus, had, compl, h, hf i j h]
      · simp [plus, had, compl, h]
    rw [hx]
    split
    · rfl
    · exact imputeLoop_leak o hlo hhi svd hs X mask hmask n (k + 1) X (.inr rfl) (fun _ _ _ => rfl)

/-- The iteration starts from the unobserved entries of the input: if the rank suffices to reproduce the matrices exactly, `impute`
returns the input itself, that is, it reads every unobserved entry. -/
theorem C47_svd_leak_violation (o : Svd K) (hlo : o.lo = none) (hhi : o.hi = none) {svd : Nat → Mat r c K → Mat r c K} (hs : ∀ k M, svd k M = M)
    {maxIters : Nat} (hn : 0 < maxIters) (X : Mat r c K) {mask : Mat r c K} (hmask : isMask mask = true) :
    impute o svd maxIters true X mask = .ok X := by
  rw [impute, hmask]
  simp only [Bool.not_true, Bool.and_false, Bool.false_eq_true, if_false]
  rw [imputeLoop_leak o hlo hhi svd hs X mask ((isMask_iff mask).1 hmask).1 maxIters 0 _ (.inl hn)]
  intro i j h
  simp [had, compl, h]

/-- So two inputs with the same observed entries give different results. -/
theorem C47_svd_interference_violation (o : Svd K) (hlo : o.lo = none) (hhi : o.hi = none) {svd : Nat → Mat r c K → Mat r c K} (hs : ∀ k M, svd k M = M)
    {maxIters : Nat} (hn : 0 < maxIters) {mask : Mat r c K} (hmask : isMask mask = true) :
    ∃ X X' : Mat r c K, (∀ i j, mask i j = 1 → X i j = X' i j) ∧ impute o svd maxIters true X mask ≠ impute o svd maxIters true X' mask := by
  obtain ⟨_, ⟨i, j, h0⟩, _⟩ := (isMask_iff mask).1 hmask
  refine ⟨fun _ _ => 0, fun a b => if mask a b = 1 then 0 else 1, ?_, ?_⟩
  · intro a b h; simp [h]
  · rw [C47_svd_leak_violation o hlo hhi hs hn _ hmask, C47_svd_leak_violation o hlo hhi hs hn _ hmask]
    intro hc
    have := congrFun (congrFun (Except.ok.inj hc) i) j
    simp [h0] at this

/-- A case: a 2x2 matrix with one unobserved entry. -/
example : impute (K := ℚ) (r := 1) (c := 2) ⟨2, 1/100, true, none, none, 1/1000000⟩ (fun _ M => M) 3 true (fun _ j => if j = 0 then 5 else 7)
    (fun _ j => if j = 0 then 1 else 0) = .ok (fun _ j => if j = 0 then 5 else 7) :=
  C47_svd_leak_violation _ rfl rfl (fun _ _ => rfl) (by norm_num) _ (by decide +kernel)

/-! ## C60: feature selection -/

theorem argmaxCell_spec {A : Mat r c K} {p : Fin r × Fin c} (h : argmaxCell A = some p) : ∀ i j, A i j ≤ A p.1 p.2 := by
  intro i j
  have := List.find?_some h
  rw [List.all_eq_true] at this
  simpa using this (i, j) (mem_cells i j)

theorem exists_max_cell (A : Mat r c K) : ∀ (l : List (Fin r × Fin c)), l ≠ [] → ∃ p ∈ l, ∀ q ∈ l, A q.1 q.2 ≤ A p.1 p.2
  | [], h => absurd rfl h
  | [p], _ => ⟨p, by simp, by simp⟩
  | p :: p' :: l, _ => by
    obtain ⟨m, hm, h⟩ := exists_max_cell A (p' :: l) (by simp)
    rcases le_total (A p.1 p.2) (A m.1 m.2) with hle | hle
    · refine ⟨m, List.mem_cons_of_mem _ hm, ?_⟩
      intro q hq
      rcases List.mem_cons.1 hq with hq | hq
      · rw [hq]; exact hle
      · exact h q hq
    · refine ⟨p, by simp, ?_⟩
      intro q hq
      rcases List.mem_cons.1 hq with hq | hq
      · rw [hq]
      · exact le_trans (h q hq) hle

theorem argmaxCell_some (A : Mat r c K) (i : Fin r) (j : Fin c) : ∃ p, argmaxCell A = some p := by
  obtain ⟨p, hp, h⟩ := exists_max_cell A (cells r c) (List.ne_nil_of_mem (mem_cells i j))
  cases hf : argmaxCell A with
  | some q => exact ⟨q, rfl⟩
  | none =>
    have := List.find?_eq_none.1 hf p hp
    rw [List.all_eq_true] at this
    exact absurd (fun q hq => decide_eq_true (h q hq)) this

theorem sum_sq_nonneg (l : List K) (m : K) : 0 ≤ (l.map (fun x => (x - m) * (x - m))).sum := by
  induction l with
  | nil => simp
  | cons a l ih =>
    rw [List.map_cons, List.sum_cons]
    exact add_nonneg (mul_self_nonneg _) ih

theorem variance_nonneg (l : List K) : 0 ≤ variance l := div_nonneg (sum_sq_nonneg l _) (Nat.cast_nonneg _)

/-- In the first call of AFASMC (or with a committee of one), a missing entry is chosen if there is one. -/
theorem C60_first_missing {mats : List (Mat r c K)} (hl : mats.length < 2) {mask : Mat r c K} (hmask : ∀ i j, mask i j = 0 ∨ mask i j = 1)
    {i : Fin r} {j : Fin c} (hm : mask i j = 0) : ∃ p, chooseCell mats mask = .ok p ∧ mask p.1 p.2 = 0 := by
  obtain ⟨p, hp⟩ := argmaxCell_some (compl mask) i j
  refine ⟨p, by simp [chooseCell, show ¬ 2 ≤ mats.length by omega, hp], ?_⟩
  have h := argmaxCell_spec hp i j
  rcases hmask p.1 p.2 with h' | h'
  · exact h'
  · simp only [compl, hm, h'] at h
    norm_num at h

/-- Later a missing entry with the largest variance among the missing ones is chosen, if some missing entry has positive variance. -/
theorem C60_most_variance_partial {mats : List (Mat r c K)} (hl : 2 ≤ mats.length) {mask : Mat r c K} (hmask : ∀ i j, mask i j = 0 ∨ mask i j = 1)
    {i : Fin r} {j : Fin c} (hm : mask i j = 0) (hv : 0 < variance (mats.map (fun M => M i j))) :
    ∃ p, chooseCell mats mask = .ok p ∧ mask p.1 p.2 = 0 ∧
      ∀ a b, mask a b = 0 → variance (mats.map (fun M => M a b)) ≤ variance (mats.map (fun M => M p.1 p.2)) := by
  obtain ⟨p, hp⟩ := argmaxCell_some (had (fun i j => variance (mats.map (fun M => M i j))) (compl mask)) i j
  have h := argmaxCell_spec hp
  have hp0 : mask p.1 p.2 = 0 := by
    have h1 := h i j
    rcases hmask p.1 p.2 with h' | h'
    · exact h'
    · simp only [had, compl, hm, h'] at h1
      simp at h1
      exact absurd hv (not_lt.2 h1)
  refine ⟨p, by simp [chooseCell, hl, hp], hp0, ?_⟩
  intro a b hab
  have h1 := h a b
  simpa [had, compl, hab, hp0] using h1

/-- If all missing entries have variance 0 the first entry of the matrix is chosen, observed or not. -/
theorem C60_observed_violation {mats : List (Mat (r + 1) (c + 1) K)} (hl : 2 ≤ mats.length) {mask : Mat (r + 1) (c + 1) K}
    (hmask : ∀ i j, mask i j = 0 ∨ mask i j = 1) (hv : ∀ i j, mask i j = 0 → variance (mats.map (fun M => M i j)) = 0) :
    chooseCell mats mask = .ok (0, 0) := by
  have hz : had (fun i j => variance (mats.map (fun M => M i j))) (compl mask) = fun _ _ => 0 := by
    funext i j
    rcases hmask i j with h | h
    · simp [had, hv i j h]
    · simp [had, compl, h]
  have hfirst : argmaxCell (fun (_ : Fin (r + 1)) (_ : Fin (c + 1)) => (0 : K)) = some (0, 0) := by
    simp [argmaxCell, cells, List.finRange_succ]
  simp [chooseCell, hl, hz, hfirst]

/-- The case of two equal completions: the first entry is observed, the other one is missing, and the observed one is chosen. -/
example : chooseCell (K := ℚ) (r := 1) (c := 2) [fun _ _ => 3, fun _ _ => 3] (fun _ j => if j = 0 then 1 else 0) = .ok (0, 0) :=
  C60_observed_violation (by simp) (by decide +kernel) (by decide +kernel)

example : chooseCell (K := ℚ) (r := 1) (c := 3) [fun _ _ => 3, fun _ j => j] (fun _ j => if j = 0 then 1 else 0) = .ok (0, 1) := by decide +kernel

theorem mapEntries_ok {train : List Int} {cmp : Int × Nat → Bool} : ∀ {es : List (Int × Nat)}, (∀ e ∈ es, cmp e = true) → (∀ e ∈ es, e.1 ∈ train) →
    mapEntries cmp train es = .ok (es.map (fun e => (train.idxOf e.1, e.2)))
  | [], _, _ => rfl
  | (e, f) :: es, hc, h => by
    have he : e ∈ train := h (e, f) (by simp)
    have hc' := hc (e, f) (by simp)
    have ih := mapEntries_ok (train := train) (es := es) (fun x hx => hc x (by simp [hx])) (fun x hx => h x (by simp [hx]))
    simp [mapEntries, posInTrain, he, hc', ih]

/-- What `select` does: it makes the mask of the observed entries, completes, and takes the entry chosen by `chooseCell`. -/
theorem select_core {train : List Int} (ht : train.Nodup) {nFeat : Nat} {mats : Mat train.length nFeat K → Except PyErr (List (Mat train.length nFeat K))}
    {observed unknown : List (Int × Nat)} {cmp : Int × Nat → Bool} (hcmp : ∀ e ∈ observed, cmp e = true) (hu : 2 ≤ unknown.length) (ho : ∀ e ∈ observed, e.1 ∈ train)
    {i : Fin train.length} {j : Fin nFeat} (hm : (train.get i, (j : Nat)) ∉ observed)
    (hv : ∀ mask, (∀ (a : Fin train.length) (b : Fin nFeat), mask a b = if (train.get a, (b : Nat)) ∈ observed then 1 else 0) →
      ∃ ms, mats mask = .ok ms ∧ (ms.length < 2 ∨ 0 < variance (ms.map (fun M => M i j)))) :
    ∃ (mask : Mat train.length nFeat K) (ms : List (Mat train.length nFeat K)) (p : Fin train.length × Fin nFeat), (∀ (a : Fin train.length) (b : Fin nFeat), mask a b = if (train.get a, (b : Nat)) ∈ observed then 1 else 0) ∧ mats mask = .ok ms ∧
      featureSelect cmp train nFeat mats observed unknown = .ok [(train.get p.1, p.2)] ∧ (train.get p.1, (p.2 : Nat)) ∉ observed ∧
      (2 ≤ ms.length → ∀ (a : Fin train.length) (b : Fin nFeat), (train.get a, (b : Nat)) ∉ observed → variance (ms.map (fun M => M a b)) ≤ variance (ms.map (fun M => M p.1 p.2))) := by
  have key : ∀ (a : Fin train.length) (b : Fin nFeat),
      (((a : Nat), (b : Nat)) ∈ observed.map (fun e => (train.idxOf e.1, e.2)) ↔ (train.get a, (b : Nat)) ∈ observed) := by
    intro a b
    constructor
    · intro h
      obtain ⟨e, he, hee⟩ := List.mem_map.1 h
      have h1 : train.idxOf e.1 = a := congrArg Prod.fst hee
      have h2 : e.2 = b := congrArg Prod.snd hee
      have h3 : train.get a = e.1 := by
        have hlt : train.idxOf e.1 < train.length := List.idxOf_lt_length_of_mem (ho e he)
        have h4 := List.getElem_idxOf hlt
        simp only [List.get_eq_getElem]
        simpa [h1] using h4
      rw [h3, ← h2]; exact he
    · intro h
      refine List.mem_map.2 ⟨_, h, ?_⟩
      simp only [List.get_eq_getElem]
      rw [List.Nodup.idxOf_getElem ht]
  have hmask : ∀ a b, (maskOf train.length nFeat (observed.map (fun e => (train.idxOf e.1, e.2))) : Mat train.length nFeat K) a b = 0 ∨
      (maskOf train.length nFeat (observed.map (fun e => (train.idxOf e.1, e.2))) : Mat train.length nFeat K) a b = 1 := by
    intro a b; unfold maskOf; split
    · exact .inr rfl
    · exact .inl rfl
  have hij : (maskOf train.length nFeat (observed.map (fun e => (train.idxOf e.1, e.2))) : Mat train.length nFeat K) i j = 0 := by
    unfold maskOf
    rw [if_neg]
    rw [key]; exact hm
  have hind : ∀ a b, (maskOf train.length nFeat (observed.map (fun e => (train.idxOf e.1, e.2))) : Mat train.length nFeat K) a b =
      if (train.get a, (b : Nat)) ∈ observed then 1 else 0 := by
    intro a b
    unfold maskOf
    by_cases h : (train.get a, (b : Nat)) ∈ observed
    · rw [if_pos h, if_pos ((key a b).2 h)]
    · rw [if_neg h, if_neg (fun hc => h ((key a b).1 hc))]
  unfold featureSelect
  rw [if_neg (by omega), mapEntries_ok hcmp ho]
  simp only
  generalize hM : (maskOf train.length nFeat (observed.map (fun e => (train.idxOf e.1, e.2))) : Mat train.length nFeat K) = M at *
  obtain ⟨ms, hms, hv⟩ := hv M hind
  rw [hms]
  simp only
  have : ∃ p, chooseCell ms M = .ok p ∧ M p.1 p.2 = 0 ∧ (2 ≤ ms.length → ∀ a b, M a b = 0 → variance (ms.map (fun M => M a b)) ≤ variance (ms.map (fun M => M p.1 p.2))) := by
    by_cases hlen : 2 ≤ ms.length
    · rcases hv with h | h
      · omega
      · obtain ⟨p, h1, h2, h3⟩ := C60_most_variance_partial hlen hmask hij h
        exact ⟨p, h1, h2, fun _ => h3⟩
    · obtain ⟨p, h1, h2⟩ := C60_first_missing (mats := ms) (by omega) hmask hij
      exact ⟨p, h1, h2, fun h => absurd h hlen⟩
  obtain ⟨p, hp, hp0, hmax⟩ := this
  refine ⟨M, ms, p, hind, hms, by rw [hp], ?_, fun h a b hab => hmax h a b (by rw [hind, if_neg hab])⟩
  intro hc
  rw [hind, if_pos hc] at hp0
  exact one_ne_zero hp0

/-- `select` with at least two unknown entries returns one entry of the training set which is not observed, if a missing entry of
the training set has positive variance (or if it is the first call and there is a missing entry). The training indexes are an array, or the observed entries are numpy numbers. -/
theorem C60_select_partial {train : List Int} (ht : train.Nodup) {nFeat : Nat} {mats : Mat train.length nFeat K → Except PyErr (List (Mat train.length nFeat K))}
    {observed unknown : List (Int × Nat)} {cmp : Int × Nat → Bool} (hcmp : ∀ e ∈ observed, cmp e = true) (hu : 2 ≤ unknown.length) (ho : ∀ e ∈ observed, e.1 ∈ train)
    {i : Fin train.length} {j : Fin nFeat} (hm : (train.get i, (j : Nat)) ∉ observed)
    (hv : ∀ mask, (∀ (a : Fin train.length) (b : Fin nFeat), mask a b = if (train.get a, (b : Nat)) ∈ observed then 1 else 0) →
      ∃ ms, mats mask = .ok ms ∧ (ms.length < 2 ∨ 0 < variance (ms.map (fun M => M i j)))) :
    ∃ (e : Int) (f : Nat), featureSelect cmp train nFeat mats observed unknown = .ok [(e, f)] ∧ e ∈ train ∧ f < nFeat ∧ (e, f) ∉ observed := by
  obtain ⟨_, _, p, _, _, h1, h2, _⟩ := select_core ht hcmp hu ho hm hv
  exact ⟨_, _, h1, List.get_mem _ _, p.2.2, h2⟩

/-- Two training instances (7 and 9) of two features, the second instance unknown, two completions which differ there: the entry
(9, 0) is returned. -/
example : featureSelect (K := ℚ) (fun _ => true) [7, 9] 2 (fun _ => .ok [fun _ _ => 0, fun i _ => i.1]) [(7, 0), (7, 1)] [(9, 0), (9, 1)] = .ok [(9, 0)] := by
  decide +kernel

example : ∃ (e : Int) (f : Nat), featureSelect (K := ℚ) (fun _ => true) [7, 9] 2 (fun _ => .ok [fun _ _ => 0, fun i _ => i.1]) [(7, 0), (7, 1)]
    [(9, 0), (9, 1)] = .ok [(e, f)] ∧ e ∈ [(7 : Int), 9] ∧ f < 2 ∧ (e, f) ∉ [((7 : Int), 0), (7, 1)] :=
  C60_select_partial (i := 1) (j := 0) (by decide) (by decide) (by decide) (by decide) (by decide)
    (fun _ _ => ⟨_, rfl, .inr (by decide +kernel)⟩)

/-- The unknown entries given are not respected: any two lists of at least two entries give the same result, so entries outside of
the list are returned. -/
theorem C60_unknown_ignored_violation (b : Int × Nat → Bool) (train : List Int) (nFeat : Nat) (mats : Mat train.length nFeat K → Except PyErr (List (Mat train.length nFeat K)))
    (observed : List (Int × Nat)) {unknown unknown' : List (Int × Nat)} (h : 2 ≤ unknown.length) (h' : 2 ≤ unknown'.length) :
    featureSelect b train nFeat mats observed unknown = featureSelect b train nFeat mats observed unknown' := by
  unfold featureSelect
  rw [if_neg (by omega), if_neg (by omega)]

/-- Entries (0, 1) and (1, 1) are offered, (0, 0) is returned, which is not among them. -/
example : featureSelect (K := ℚ) (fun _ => true) [0, 1] 2 (fun _ => .ok []) [(1, 0)] [(0, 1), (1, 1)] = .ok [(0, 0)] := by decide +kernel

/-- Training indexes given as a list: IndexError, as soon as there is an observed entry with a plain Python number, as in a list of tuples. -/
theorem C60_list_violation (cmp : Int × Nat → Bool) (train : List Int) (nFeat : Nat) (mats : Mat train.length nFeat K → Except PyErr (List (Mat train.length nFeat K)))
    (observed : List (Int × Nat)) (hplain : ∃ e ∈ observed, cmp e = false) {unknown : List (Int × Nat)} (h : 2 ≤ unknown.length) :
    featureSelect cmp train nFeat mats observed unknown = .error .indexError := by
  have : mapEntries cmp train observed = .error .indexError := by
    induction observed with
    | nil => simp at hplain
    | cons y l ih =>
      obtain ⟨e, f⟩ := y
      unfold mapEntries posInTrain
      by_cases hy : cmp (e, f) = true
      · have : ∃ x ∈ l, cmp x = false := by
          obtain ⟨x, hx, hf⟩ := hplain
          rcases List.mem_cons.1 hx with rfl | hx
          · rw [hy] at hf; cases hf
          · exact ⟨x, hx, hf⟩
        by_cases he : train.contains e = true
        · simp only [hy, he, Bool.and_self, if_true, ih this]
        · simp only [hy, he, Bool.and_false, if_false, Bool.false_eq_true]
      · simp [hy]
  unfold featureSelect
  rw [if_neg (by omega), this]

/-! ### The two strategies -/

/-- The completed matrices of the committee: if something is observed and something is not, every member completes the matrix. -/
theorem committeeMats_ok (committee : List (Svd K)) (svd : Nat → Mat r c K → Mat r c K) (X : Mat r c K) {mask : Mat r c K} (h : isMask mask = true) :
    committeeMats committee svd X mask = .ok (committee.map (fun o => imputeLoop o svd X mask 200 0 (had X (compl mask)))) := by
  unfold committeeMats
  have : (fun o => impute o svd 200 true X mask) = fun o => (pure (imputeLoop o svd X mask 200 0 (had X (compl mask))) : Except PyErr (Mat r c K)) := by
    funext o
    simp [impute, h, pure, Except.pure]
  rw [this, List.mapM_pure]
  rfl

/-- `QueryFeatureStability.select`: if an entry of the training set is observed, and the members of the committee disagree about one that is not (or there is only
one member), an entry of the training set which is not observed is returned. -/
theorem C60_stability_partial {train : List Int} (ht : train.Nodup) {nFeat : Nat} (committee : List (Svd K))
    (svd : Nat → Mat train.length nFeat K → Mat train.length nFeat K) (X : Mat train.length nFeat K)
    {observed unknown : List (Int × Nat)} {cmp : Int × Nat → Bool} (hcmp : ∀ e ∈ observed, cmp e = true) (hu : 2 ≤ unknown.length) (ho : ∀ e ∈ observed, e.1 ∈ train)
    {i i' : Fin train.length} {j j' : Fin nFeat} (hm : (train.get i, (j : Nat)) ∉ observed) (hm' : (train.get i', (j' : Nat)) ∈ observed)
    (hv : committee.length < 2 ∨ ∀ mask : Mat train.length nFeat K, (∀ a b, mask a b = if (train.get a, (b : Nat)) ∈ observed then 1 else 0) →
      0 < variance (committee.map (fun o => imputeLoop o svd X mask 200 0 (had X (compl mask)) i j))) :
    ∃ (e : Int) (f : Nat), featureSelect cmp train nFeat (committeeMats committee svd X) observed unknown = .ok [(e, f)] ∧ e ∈ train ∧ f < nFeat ∧ (e, f) ∉ observed := by
  refine C60_select_partial ht hcmp hu ho (i := i) (j := j) hm fun mask hmask => ⟨_, committeeMats_ok committee svd X ?_, ?_⟩
  · rw [isMask_iff]
    refine ⟨fun a b => ?_, ⟨i, j, by rw [hmask, if_neg hm]⟩, ⟨i', j', by rw [hmask, if_pos hm']⟩⟩
    rw [hmask]
    split
    · exact .inr rfl
    · exact .inl rfl
  · rcases hv with h | h
    · left; simpa using h
    · right
      rw [List.map_map]
      exact h mask hmask

/-- With nothing observed `QueryFeatureStability.select` raises AssertionError. -/
theorem C60_nothing_observed_violation {train : List Int} {nFeat : Nat} {committee : List (Svd K)} (hc : committee ≠ [])
    (svd : Nat → Mat train.length nFeat K → Mat train.length nFeat K) (X : Mat train.length nFeat K) {unknown : List (Int × Nat)} (hu : 2 ≤ unknown.length)
    (cmp : Int × Nat → Bool) : featureSelect cmp train nFeat (committeeMats committee svd X) [] unknown = .error .assertionError := by
  have hm : isMask (maskOf train.length nFeat [] : Mat train.length nFeat K) = false := by
    rw [Bool.eq_false_iff]
    intro h
    obtain ⟨-, -, a, b, hab⟩ := (isMask_iff _).1 h
    simp [maskOf] at hab
  unfold featureSelect
  rw [if_neg (by omega)]
  simp only [mapEntries]
  obtain ⟨o, r, rfl⟩ := List.exists_cons_of_ne_nil hc
  unfold committeeMats
  rw [List.mapM_cons]
  simp [impute, hm, bind, Except.bind]

/-- `QueryFeatureAFASMC.select`, first call: whatever is computed, an entry of the training set that is not observed is returned. -/
theorem C60_afasmc_first {train : List Int} (ht : train.Nodup) {nFeat : Nat} {complete : Mat train.length nFeat K → Mat train.length nFeat K → Except PyErr (Mat train.length nFeat K)}
    (hcomp : ∀ mask M, ∃ R, complete mask M = .ok R) (X : Mat train.length nFeat K)
    {observed unknown : List (Int × Nat)} {cmp : Int × Nat → Bool} (hcmp : ∀ e ∈ observed, cmp e = true) (hu : 2 ≤ unknown.length) (ho : ∀ e ∈ observed, e.1 ∈ train)
    {i : Fin train.length} {j : Fin nFeat} (hm : (train.get i, (j : Nat)) ∉ observed) :
    ∃ (e : Int) (f : Nat), featureSelect cmp train nFeat (afasmcMats complete X []) observed unknown = .ok [(e, f)] ∧ e ∈ train ∧ f < nFeat ∧ (e, f) ∉ observed := by
  refine C60_select_partial ht hcmp hu ho (i := i) (j := j) hm fun mask _ => ?_
  obtain ⟨R, hR⟩ := hcomp mask (had mask X)
  exact ⟨[plus (had (compl mask) R) (had mask X)], by simp [afasmcMats, afasmc, hR], .inl (by simp)⟩

example : featureSelect (K := ℚ) (fun _ => true) [7, 9] 2 (committeeMats [⟨1, 1/100, true, none, none, 1/1000000⟩, ⟨2, 1/100, true, none, none, 1/1000000⟩]
    (fun k _ _ _ => k) (fun _ _ => 5)) [(7, 0)] [(7, 1), (9, 0), (9, 1)] = .ok [(7, 1)] := by decide +kernel

end
end Alipy.Features
