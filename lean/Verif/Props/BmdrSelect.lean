import Verif.Model.BmdrSelect
import Verif.Spec.BmdrSelect
import Verif.Props.Admm
/-!
# C76, C77, C78, C111 for the whole `select` of BMDR and SPAL
-/
set_option linter.unusedSectionVars false
set_option linter.unusedSimpArgs false
namespace Alipy.Bmdr
open Alipy Alipy.Select Matrix Filter Topology

/-! ## The rounds -/
section Run
variable {α K σ : Type} [DecidableEq α]

theorem sameSet_iff {a b : List α} : sameSet a b = true ↔ Spec.SameMembers a b := by
  unfold sameSet Spec.SameMembers
  simp only [Bool.and_eq_true, List.all_eq_true, decide_eq_true_eq]
  exact ⟨fun h x => ⟨h.1 x, h.2 x⟩, fun h => ⟨fun x hx => (h x).1 hx, fun x hx => (h x).2 hx⟩⟩

theorem heaviest_of_positions [LE K] {u : List α} (hu : u.Nodup) {w : List K} (hw : w.length = u.length) {b : Nat} (hlt : b < u.length) {ps : List Nat} (h2 : ps.length = b) (h3 : ps.Nodup)
    (h7 : ∀ i ∈ ps, ∀ j, j < w.length → j ∉ ps → ∀ x y, w[i]? = some x → w[j]? = some y → y ≤ x) {r : List α} (h6 : List.Forall₂ (fun (i : Nat) v => u[i]? = some v) ps r) :
    Spec.Heaviest u w b r := by
  have hl := h6.length_eq
  refine ⟨⟨forall₂_nodup hu h6 h3, ?_, by omega⟩, ?_⟩
  · intro x hx
    obtain ⟨i, _, hi⟩ := forall₂_mem_left h6 x hx
    exact List.mem_of_getElem? hi
  · intro i j x y p q hi hj hp hq hx hy
    obtain ⟨i', hi', e⟩ := forall₂_mem_left h6 x hx
    have hii : i = i' := by
      obtain ⟨l1, e1⟩ := List.getElem?_eq_some_iff.1 hi
      obtain ⟨l2, e2⟩ := List.getElem?_eq_some_iff.1 e
      exact (hu.getElem_inj_iff).1 (e1.trans e2.symm)
    subst hii
    obtain ⟨lj, _⟩ := List.getElem?_eq_some_iff.1 hq
    refine h7 i hi' j lj ?_ p q hp hq
    intro hjp
    exact hy (forall₂_mem_right h6 j hjp y hj)

theorem rounds_run [LE K] {argsort : List K → List Nat} (ha : ∀ l, Spec.IsArgsort l (argsort l)) {u : List α} (hu : u.Nodup) {batch : Nat} (hb : 0 < batch) (hlt : batch < u.length)
    {weights : σ → List K} (hw : ∀ s, (weights s).length = u.length) {next : σ → List α → σ} : ∀ (fuel iter : Nat) (last : List α) (s : σ) (r : List α), iter ≤ 15 →
    rounds argsort u batch weights next fuel iter last s = some (.ok r) →
    ∃ (k : Nat) (st : Nat → σ) (sel : Nat → List α), st 0 = s ∧ (∀ i ≤ k, Spec.Heaviest u (weights (st i)) batch (sel i)) ∧ (∀ i < k, st (i + 1) = next (st i) (sel i)) ∧ r = sel k ∧
      iter + k ≤ 15 ∧ (iter + k = 15 ∨ k = 0 ∧ Spec.SameMembers last (sel 0) ∨ ∃ j, k = j + 1 ∧ Spec.SameMembers (sel j) (sel k)) ∧
      (0 < k → ¬ Spec.SameMembers last (sel 0)) ∧ ∀ j, j + 1 < k → ¬ Spec.SameMembers (sel j) (sel (j + 1))
  | 0, _, _, _, _, _, h => by simp [rounds] at h
  | fuel + 1, iter, last, s, r, hi, h => by
    obtain ⟨ps, h1, h2, h3, h4, _, h7⟩ := C31_nlargestarg_partial (weights s) _ (ha (weights s)) batch hb (by rw [hw]; omega)
    obtain ⟨r', h5, h6⟩ := pick_nat (u := u) (ps := ps) (by intro i hi; rw [← hw s]; exact h4 i hi)
    have hH := heaviest_of_positions hu (hw s) hlt h2 h3 h7 h6
    unfold rounds at h
    rw [h1] at h
    simp only at h
    rw [h5] at h
    simp only at h
    split_ifs at h with hc
    · obtain rfl : r' = r := by simpa using h
      refine ⟨0, fun _ => s, fun _ => r', rfl, fun i _ => hH, fun i hi => absurd hi (by omega), rfl, by omega, ?_, fun h => absurd h (by omega), fun j hj => absurd hj (by omega)⟩
      simp only [Bool.or_eq_true, decide_eq_true_eq] at hc
      rcases hc with hc | hc
      · exact Or.inr (Or.inl ⟨rfl, sameSet_iff.1 hc⟩)
      · exact Or.inl (by omega)
    · simp only [Bool.or_eq_true, decide_eq_true_eq, not_or] at hc
      obtain ⟨k, st, sel, e0, e1, e2, e3, e4, e5, e6, e7⟩ := rounds_run ha hu hb hlt hw fuel (iter + 1) r' (next s r') r (by omega) h
      refine ⟨k + 1, fun i => Nat.casesOn i s st, fun i => Nat.casesOn i r' sel, rfl, ?_, ?_, e3, by omega, ?_, fun _ hs => hc.1 (sameSet_iff.2 hs), ?_⟩
      · rintro (_ | i) hik
        · exact hH
        · exact e1 i (by omega)
      · rintro (_ | i) hik
        · exact e0
        · exact e2 i (by omega)
      · rcases e5 with e5 | ⟨rfl, e5⟩ | ⟨j, rfl, e5⟩
        · exact Or.inl (by omega)
        · exact Or.inr (Or.inr ⟨0, rfl, e5⟩)
        · exact Or.inr (Or.inr ⟨j + 1, rfl, e5⟩)
      · rintro (_ | j) hj
        · exact e6 (by omega)
        · exact e7 j (by omega)

/-- **C76** (rounds): with fewer than all examples to be selected, what `select` returns is the selection of a run: each round selects the examples with the largest weights, computed from the model of
the round before it, until two rounds in succession select the same examples, and at most sixteen times. -/
theorem C76_run [LE K] {argsort : List K → List Nat} (ha : ∀ l, Spec.IsArgsort l (argsort l)) {u : Coll α} (hu : u.items.Nodup) {batch : Int} (hb : 0 < batch) (hlt : batch < u.items.length)
    {weights : σ → List K} (hw : ∀ s, (weights s).length = u.items.length) {next : σ → List α → σ} {s : σ} {fuel : Nat} (hf : 16 ≤ fuel) :
    ∃ (k : Nat) (st : Nat → σ) (sel : Nat → List α) (r : List α), select argsort u batch weights next s fuel = some (.ok r) ∧ st 0 = s ∧ Spec.Run u.items batch weights next st sel k r := by
  obtain ⟨n, rfl⟩ := Int.eq_ofNat_of_zero_le hb.le
  obtain ⟨r, hr, _⟩ := C76_select ha hu hb hw (next := next) s hf
  have h := hr
  unfold select at h
  rw [if_neg (by omega), if_neg (by omega)] at h
  obtain ⟨k, st, sel, e0, e1, e2, e3, e4, e5, e6, e7⟩ := rounds_run ha hu (by omega) (by omega) hw fuel 0 [] s r (by omega) h
  refine ⟨k, st, sel, r, hr, e0, e1, e2, e3, by omega, ?_, e7⟩
  rcases e5 with e5 | ⟨rfl, e5⟩ | e5
  · exact Or.inl (by omega)
  · exfalso
    have hl := (e1 0 le_rfl).1.2.2
    cases hs : sel 0 with
    | nil => rw [hs] at hl; simp at hl; omega
    | cons x l => exact absurd ((e5 x).2 (by rw [hs]; exact List.mem_cons_self)) (by simp)
  · exact Or.inr e5

end Run

/-! ## What is computed in a round -/
section Round
variable {α : Type} [DecidableEq α] {a : ℕ} {φ : Type} [Fintype φ]

/-- A kernel which is an inner product of features. -/
def InnerProducts (K : α → α → ℝ) (Φ : α → φ → ℝ) : Prop := ∀ x y, K x y = ∑ f, Φ x f * Φ y f

theorem gram_symm {K : α → α → ℝ} {Φ : α → φ → ℝ} (hK : InnerProducts K Φ) (lab : Fin a → α) : (gram K lab)ᵀ = gram K lab := by
  ext i j
  have hk : ∀ x y, K x y = ∑ f, Φ x f * Φ y f := hK
  simp only [gram, transpose_apply, of_apply]
  rw [hk, hk]
  exact Finset.sum_congr rfl fun f _ => mul_comm (Φ (lab j) f) (Φ (lab i) f)

theorem gram_nonneg {K : α → α → ℝ} {Φ : α → φ → ℝ} (hK : InnerProducts K Φ) (lab : Fin a → α) (v : Fin a → ℝ) : 0 ≤ v ⬝ᵥ gram K lab *ᵥ v := by
  have e : v ⬝ᵥ gram K lab *ᵥ v = ∑ f, (∑ i, v i * Φ (lab i) f) ^ 2 := by
    have hk : ∀ x y, K x y = ∑ f, Φ x f * Φ y f := hK
    have hr : ∀ f, (∑ i, v i * Φ (lab i) f) ^ 2 = ∑ i, ∑ j, v i * (Φ (lab i) f * Φ (lab j) f * v j) := by
      intro f
      rw [sq, Finset.sum_mul]
      refine Finset.sum_congr rfl fun i _ => ?_
      rw [Finset.mul_sum]
      exact Finset.sum_congr rfl fun j _ => by ring
    simp only [hr]
    rw [Finset.sum_comm]
    simp only [dotProduct, mulVec, gram, of_apply]
    refine Finset.sum_congr rfl fun i _ => ?_
    rw [Finset.sum_comm, Finset.mul_sum]
    refine Finset.sum_congr rfl fun j _ => ?_
    rw [hk, Finset.sum_mul, Finset.mul_sum]
  rw [e]
  exact Finset.sum_nonneg fun f _ => sq_nonneg _

/-- **C78** (what holds, with the vector passed to the solver): the quadratic form and the linear part given to the QP solver in a round are, up to a constant and a factor, the distance of the means plus
the informativeness of the examples for the model of the round, less a quarter of `beta` times the quadratic term. Missing: see `C78_objective_violation`. -/
theorem C78_round_partial {K : α → α → ℝ} {Φ : α → φ → ℝ} (hK : InnerProducts K Φ) (lab : Fin a → α) (u : List α) (beta : ℝ) {batch : ℝ} (h1 : 0 < a + batch) (h2 : batch < u.length)
    (tau : Fin a → ℝ) (es x : Fin u.length → ℝ) :
    beta / 4 * ∑ i, ∑ j, x i * x j * K (u.get i) (u.get j) + ∑ j, linearPart K lab u beta batch tau es j * x j + beta / 4 * ∑ f, (∑ j, x j * Φ (u.get j) f) ^ 2 =
      beta / 2 * (((a + batch) * (u.length - batch)) / (a + u.length)) ^ 2 *
        (Spec.mmd (fun i => Φ (lab i)) (fun j => Φ (u.get j)) batch x - Spec.mmd (fun i => Φ (lab i)) (fun j => Φ (u.get j)) batch 0) +
      ∑ j, es j * ((∑ i, tau i * K (lab i) (u.get j)) ^ 2 + 2 * |∑ i, tau i * K (lab i) (u.get j)|) * x j := by
  have h := C78_objective_partial (fun i => Φ (lab i)) (fun j : Fin u.length => Φ (u.get j)) beta (batch := batch) (by simpa using h1) (by simpa using h2) tau es x
  rw [Fintype.card_fin, Fintype.card_fin] at h
  have hQ : (Matrix.of fun (i : Fin a) (j : Fin u.length) => ∑ f, Φ (lab i) f * Φ (u.get j) f) = rowsOf K lab u := by
    ext i j
    exact (hK _ _).symm
  rw [hQ] at h
  have hp : ∀ j, (tau ᵥ* rowsOf K lab u) j = ∑ i, tau i * K (lab i) (u.get j) := fun j => rfl
  simp only [hp] at h
  rw [← h]
  congr 1
  unfold objective linearPart
  simp only [hp, Fintype.card_fin]
  have hU : ∀ i j : Fin u.length, ∑ f, Φ (u.get i) f * Φ (u.get j) f = K (u.get i) (u.get j) := fun i j => (hK _ _).symm
  simp only [of_apply, hU]
  congr 1
  rw [Finset.mul_sum]
  simp only [dotProduct, mulVec, Matrix.smul_apply, of_apply, smul_eq_mul]
  rw [Finset.mul_sum]
  refine Finset.sum_congr rfl fun i _ => ?_
  rw [Finset.mul_sum, Finset.mul_sum, Finset.mul_sum]
  exact Finset.sum_congr rfl fun j _ => by ring

/-- **C77** (easiness in `select`): with weights from the QP that are not negative, SPAL's easiness weights are between 0 and 1 and minimise the weighted loss plus the self-paced regulariser, each for
its own example. -/
theorem C77_round_easiness {lambda : ℝ} (hl : 0 < lambda) (K : α → α → ℝ) (lab : Fin a → α) (u : List α) (theta : Fin a → ℝ) {dr : Fin u.length → ℝ} (hdr : ∀ j, 0 ≤ dr j)
    (j : Fin u.length) :
    let loss := (∑ i, theta i * K (lab i) (u.get j)) ^ 2 + 2 * |∑ i, theta i * K (lab i) (u.get j)|
    let v := spalEs K lab u lambda theta dr j
    (0 ≤ v ∧ v ≤ 1) ∧ ∀ v', 0 ≤ v' → v' ≤ 1 → dr j * v * loss + lambda * (v ^ 2 / 2 - v) ≤ dr j * v' * loss + lambda * (v' ^ 2 / 2 - v') := by
  intro loss v
  have e : dr j * worst ((theta ᵥ* rowsOf K lab u) j) = dr j * loss := by
    have hp : (theta ᵥ* rowsOf K lab u) j = ∑ i, theta i * K (lab i) (u.get j) := rfl
    rw [hp]
    simp only [loss, worst, sq]
  have h0 : 0 ≤ dr j * loss := mul_nonneg (hdr j) (by simp only [loss]; positivity)
  obtain ⟨h1, h2⟩ := C77_easiness hl h0
  have hv : v = easiness lambda (dr j * loss) := by simp only [v, spalEs, e]
  rw [hv]
  refine ⟨h1, fun v' a b => ?_⟩
  have := h2 v' a b
  linarith [this]

/-- **C77** (examples the model is trained on): SPAL trains with the examples of which the weight is above 0.001, and if there are none, with one of the largest weight. -/
theorem C77_training_set {argsort : List ℝ → List Nat} (ha : ∀ l, _root_.Spec.IsArgsort l (argsort l)) {m : ℕ} (hm : 0 < m) (mix : Fin m → ℝ) :
    validInd argsort mix ≠ [] ∧ (validInd argsort mix).Nodup ∧ (∀ j, 1 / 1000 < mix j → j ∈ validInd argsort mix) ∧
    ((∃ j, 1 / 1000 < mix j) → ∀ j ∈ validInd argsort mix, 1 / 1000 < mix j) ∧
    ((∀ j, mix j ≤ 1 / 1000) → (validInd argsort mix).length = 1 ∧ ∀ j ∈ validInd argsort mix, ∀ i, mix i ≤ mix j) := by
  by_cases hex : ∃ j, 1 / 1000 < mix j
  · have hv : validInd argsort mix = (List.finRange m).filter fun j => decide (1 / 1000 < mix j) := by
      unfold validInd
      simp only
      rw [if_neg]
      obtain ⟨j, hj⟩ := hex
      simp only [List.isEmpty_iff, List.filter_eq_nil_iff, not_forall]
      exact ⟨j, List.mem_finRange j, by simpa using hj⟩
    have hmem : ∀ j, j ∈ validInd argsort mix ↔ 1 / 1000 < mix j := by
      intro j
      rw [hv, List.mem_filter]
      simp
    refine ⟨?_, ?_, fun j hj => (hmem j).2 hj, fun _ j hj => (hmem j).1 hj, fun h => ?_⟩
    · obtain ⟨j, hj⟩ := hex
      exact List.ne_nil_of_mem ((hmem j).2 hj)
    · rw [hv]
      exact (List.nodup_finRange m).filter _
    · obtain ⟨j, hj⟩ := hex
      exact absurd hj (not_lt.2 (h j))
  · simp only [not_exists, not_lt] at hex
    obtain ⟨hperm, hsort⟩ := ha (List.ofFn mix)
    rw [List.length_ofFn] at hperm
    have hlen : (argsort (List.ofFn mix)).length = m := by simpa using hperm.length_eq
    obtain ⟨l, i, hli⟩ : ∃ l i, argsort (List.ofFn mix) = l ++ [i] := by
      rcases List.eq_nil_or_concat (argsort (List.ofFn mix)) with h | ⟨l, i, h⟩
      · rw [h] at hlen
        simp at hlen
        omega
      · exact ⟨l, i, by simpa using h⟩
    have him : i < m := by
      have : i ∈ List.range m := hperm.mem_iff.1 (by rw [hli]; simp)
      simpa using this
    have hv : validInd argsort mix = [⟨i, him⟩] := by
      unfold validInd
      simp only
      rw [if_pos]
      · rw [hli]
        simp [him]
      · simp only [List.isEmpty_iff, List.filter_eq_nil_iff]
        intro j _
        simpa using hex j
    refine ⟨by rw [hv]; simp, by rw [hv]; simp, fun j hj => absurd hj (not_lt.2 (hex j)), fun ⟨j, hj⟩ => absurd hj (not_lt.2 (hex j)), fun _ => ⟨by rw [hv]; rfl, ?_⟩⟩
    intro j hj k
    rw [hv] at hj
    obtain rfl : j = ⟨i, him⟩ := by simpa using hj
    have hk : (k : ℕ) ∈ l ++ [i] := by
      rw [← hli]
      exact hperm.mem_iff.2 (by simp)
    rcases List.mem_append.1 hk with hk | hk
    · rw [hli] at hsort
      exact (List.pairwise_append.1 hsort).2.2 k hk i (by simp) (mix k) (mix ⟨i, him⟩) (by simp) (by simp [him])
    · obtain hk : (k : ℕ) = i := by simpa using hk
      have : k = ⟨i, him⟩ := Fin.ext hk
      rw [this]

theorem loop_iterate {ι κ : Type} [Fintype ι] [Fintype κ] [DecidableEq ι] (Q : Matrix ι κ ℝ) (rho : ℝ) (round : Admm ι κ → Admm ι κ) : ∀ (n : ℕ) (s : Admm ι κ),
    ∃ j ≤ n, admmLoop Q rho round n s = round^[j] s ∧ (j < n → ∃ i, j = i + 1 ∧ converged Q rho (round^[i] s) (round^[j] s))
  | 0, s => ⟨0, le_rfl, rfl, fun h => absurd h (by omega)⟩
  | n + 1, s => by
    unfold admmLoop
    split_ifs with hc
    · exact ⟨1, by omega, rfl, fun _ => ⟨0, rfl, hc⟩⟩
    · obtain ⟨j, hj, e, h⟩ := loop_iterate Q rho round n (round s)
      refine ⟨j + 1, by omega, by rw [e]; rfl, fun hlt => ?_⟩
      obtain ⟨i, rfl, hi⟩ := h (by omega)
      exact ⟨i + 1, rfl, hi⟩

/-- What a call of the ADMM loop does: `tau` is the model before, `tau'` the one after it; `l` are the examples other than the labelled ones with their weights, `n` the number of iterations allowed.
The models `t k` come from alternating directions and approach the best one; `tau'` is the first that passes the test for convergence, or the one after `n` iterations. -/
def Trained (K : α → α → ℝ) (lab : Fin a → α) (y : α → ℝ) (gamma rho : ℝ) (l : List α) (w : Fin l.length → ℝ) (n : ℕ) (tau tau' : Fin a → ℝ) : Prop :=
  ∃ (t : ℕ → Fin a → ℝ) (z d : ℕ → Fin l.length → ℝ), t 0 = tau ∧ (∀ j, z 0 j = ∑ i, tau i * K (lab i) (l.get j)) ∧ (∀ j, d 0 j = 0) ∧
    Spec.Alternates (gram K lab) (rowsOf K lab l) gamma rho w (fun i => y (lab i)) t z d ∧
    (∃ j ≤ n, tau' = t j ∧ (j < n → ∃ i, j = i + 1 ∧ converged (rowsOf K lab l) rho ⟨t i, z i, d i⟩ ⟨t j, z j, d j⟩)) ∧
    ∃ best, (∀ t', Spec.trainLoss K lab y gamma (List.ofFn fun j => (w j, l.get j)) best ≤ Spec.trainLoss K lab y gamma (List.ofFn fun j => (w j, l.get j)) t') ∧
      Tendsto (fun k => Spec.trainLoss K lab y gamma (List.ofFn fun j => (w j, l.get j)) (t k)) atTop (𝓝 (Spec.trainLoss K lab y gamma (List.ofFn fun j => (w j, l.get j)) best))

theorem trainLoss_eq (K : α → α → ℝ) (lab : Fin a → α) (y : α → ℝ) (gamma : ℝ) (l : List α) (w : Fin l.length → ℝ) (tau : Fin a → ℝ) :
    Spec.trainLoss K lab y gamma (List.ofFn fun j => (w j, l.get j)) tau = Spec.selectionLoss (gram K lab) (rowsOf K lab l) gamma w (fun i => y (lab i)) tau := by
  unfold Spec.trainLoss Spec.selectionLoss Spec.ridgeLoss
  rw [List.map_ofFn, List.sum_ofFn]
  congr 1
  congr 2
  simp only [dotProduct, mulVec, gram, of_apply]
  refine Finset.sum_congr rfl fun i _ => ?_
  rw [Finset.mul_sum]
  exact Finset.sum_congr rfl fun j _ => by ring

theorem trained_of {K : α → α → ℝ} {Φ : α → φ → ℝ} (hK : InnerProducts K Φ) (lab : Fin a → α) (y : α → ℝ) {gamma rho : ℝ} (hg : 0 ≤ gamma) (hr : 0 < rho)
    {pinv : Matrix (Fin a) (Fin a) ℝ → Matrix (Fin a) (Fin a) ℝ} (hG : ∀ A, Spec.IsGeneralisedInverse A (pinv A)) (l : List α) {w : Fin l.length → ℝ} (hw : ∀ j, 0 ≤ w j) (n : ℕ) (tau : Fin a → ℝ)
    {round : Admm (Fin a) (Fin l.length) → Admm (Fin a) (Fin l.length)}
    (hround : round = spalRound pinv (gram K lab) (rowsOf K lab l) gamma rho w (fun i => y (lab i)) ∨
      (w = fun _ => 1) ∧ round = bmdrRound pinv (gram K lab) (rowsOf K lab l) gamma rho (fun i => y (lab i))) :
    Trained K lab y gamma rho l w n tau (admmLoop (rowsOf K lab l) rho round n (admmStart (rowsOf K lab l) tau)).tau := by
  have hs := gram_symm hK lab
  have hp := gram_nonneg hK lab
  obtain ⟨best, hbest⟩ := C111_best_exists hs hp (rowsOf K lab l) hg hw fun i => y (lab i)
  obtain ⟨j, hj, e, hc⟩ := loop_iterate (rowsOf K lab l) rho round n (admmStart (rowsOf K lab l) tau)
  refine ⟨fun k => (round^[k] (admmStart (rowsOf K lab l) tau)).tau, fun k => (round^[k] (admmStart (rowsOf K lab l) tau)).z, fun k => (round^[k] (admmStart (rowsOf K lab l) tau)).delta,
    rfl, fun j => rfl, fun j => rfl, ?_, ⟨j, hj, by rw [e], hc⟩, best, ?_, ?_⟩
  · intro k
    simp only [Function.iterate_succ_apply']
    generalize round^[k] (admmStart (rowsOf K lab l) tau) = s
    rcases hround with rfl | ⟨rfl, rfl⟩
    · exact ⟨fun t' => C77_spal_theta_step hs hp _ hg hr hG w _ s.z s.delta t', fun z' => C77_spal_z_step hr hw _ _ s.delta z', fun j => rfl⟩
    · exact ⟨fun t' => C77_tau_step hs hp _ hg hr hG _ _ s.z s.delta t', fun z' => C77_z_step hr.le _ _ s.delta z', fun j => rfl⟩
  · intro t'
    rw [trainLoss_eq, trainLoss_eq]
    exact hbest t'
  · simp only [trainLoss_eq]
    rcases hround with rfl | ⟨rfl, rfl⟩
    · exact (C111_spal_converges hs hp hg hr hw hG _ hbest).1
    · exact (C111_bmdr_converges hs hp hg hr hG _ hbest).1

/-- **C111** (BMDR's `select`): the first model is the best one for the labelled examples. Every round selects the examples with the largest weights the QP solver gives for the model; then the model
is trained with the labelled examples and those selected. What the last round selects is returned. -/
theorem C111_bmdr_select {argsort : List ℝ → List Nat} (ha : ∀ l, _root_.Spec.IsArgsort l (argsort l)) {K : α → α → ℝ} {Φ : α → φ → ℝ} (hK : InnerProducts K Φ) (lab : Fin a → α) (y : α → ℝ)
    {gamma rho : ℝ} (hg : 0 < gamma) (hr : 0 < rho) {pinv : Matrix (Fin a) (Fin a) ℝ → Matrix (Fin a) (Fin a) ℝ} (hG : ∀ A, Spec.IsGeneralisedInverse A (pinv A))
    (qp : ∀ m, (Fin m → ℝ) → Fin m → ℝ) (beta : ℝ) (n : ℕ) {u : Coll α} (hu : u.items.Nodup) {batch : Int} (hb : 0 < batch) (hlt : batch < u.items.length) {fuel : ℕ} (hf : 16 ≤ fuel) :
    ∃ (k : ℕ) (tau : ℕ → Fin a → ℝ) (sel : ℕ → List α) (r : List α), bmdrSelect argsort pinv qp K beta gamma rho n lab y u batch fuel = some (.ok r) ∧
      (∀ t, Spec.trainLoss K lab y gamma [] (tau 0) ≤ Spec.trainLoss K lab y gamma [] t) ∧
      (∀ i ≤ k, Spec.Heaviest u.items (List.ofFn (qp u.items.length (linearPart K lab u.items beta batch (tau i) fun _ => 1))) batch (sel i)) ∧
      (∀ i < k, Trained K lab y gamma rho (sel i) (fun _ => 1) n (tau i) (tau (i + 1))) ∧ r = sel k ∧ k ≤ 15 ∧ (k = 15 ∨ ∃ j, k = j + 1 ∧ Spec.SameMembers (sel j) (sel k)) ∧
      ∀ j, j + 1 < k → ¬ Spec.SameMembers (sel j) (sel (j + 1)) := by
  obtain ⟨k, st, sel, r, h, e0, e1, e2, e3, e4, e5, e6⟩ := C76_run ha hu hb hlt
    (weights := fun tau => List.ofFn (qp u.items.length (linearPart K lab u.items beta batch tau fun _ => 1))) (fun s => List.length_ofFn)
    (next := fun tau sel => (admmLoop (rowsOf K lab sel) rho (bmdrRound pinv (gram K lab) (rowsOf K lab sel) gamma rho (fun i => y (lab i))) n (admmStart (rowsOf K lab sel) tau)).tau)
    (s := initial (gram K lab) gamma fun i => y (lab i)) hf
  refine ⟨k, st, sel, r, h, ?_, e1, ?_, e3, e4, e5, e6⟩
  · intro t
    have ht : ∀ t, Spec.trainLoss K lab y gamma [] t = Spec.ridgeLoss (gram K lab) gamma (fun i => y (lab i)) t := by
      intro t
      have := trainLoss_eq K lab y gamma [] (fun _ => 0) t
      simpa [Spec.selectionLoss] using this
    rw [ht, ht, e0]
    exact C77_initial (gram_symm hK lab) (gram_nonneg hK lab) hg _ t
  · intro i hi
    rw [e2 i hi]
    exact trained_of hK lab y hg.le hr hG (sel i) (fun _ => zero_le_one) n (st i) (Or.inr ⟨rfl, rfl⟩)

/-- **C111** (SPAL's `select`): the first model is the best one for the labelled examples, and the first easiness weights are 1. A round solves the QP with the model and the easiness weights of the round
before it and computes new easiness weights (`C77_round_easiness`). It selects the examples with the largest products of the two; then the model is trained with the labelled examples and those of
`C77_training_set`, with the products (if negative, 0) as weights. What the last round selects is returned. -/
theorem C111_spal_select {argsort : List ℝ → List Nat} (ha : ∀ l, _root_.Spec.IsArgsort l (argsort l)) {K : α → α → ℝ} {Φ : α → φ → ℝ} (hK : InnerProducts K Φ) (lab : Fin a → α) (y : α → ℝ)
    {gamma rho : ℝ} (hg : 0 < gamma) (hr : 0 < rho) {pinv : Matrix (Fin a) (Fin a) ℝ → Matrix (Fin a) (Fin a) ℝ} (hG : ∀ A, Spec.IsGeneralisedInverse A (pinv A))
    (qp : ∀ m, (Fin m → ℝ) → (Fin m → ℝ) → Fin m → ℝ) (mu lambda : ℝ) (n : ℕ) {u : Coll α} (hu : u.items.Nodup) {batch : Int} (hb : 0 < batch) (hlt : batch < u.items.length) {fuel : ℕ}
    (hf : 16 ≤ fuel) :
    ∃ (k : ℕ) (theta : ℕ → Fin a → ℝ) (es dr : ℕ → Fin u.items.length → ℝ) (sel : ℕ → List α) (r : List α),
      spalSelect argsort pinv qp K mu gamma rho lambda n lab y u batch fuel = some (.ok r) ∧
      (∀ t, Spec.trainLoss K lab y gamma [] (theta 0) ≤ Spec.trainLoss K lab y gamma [] t) ∧ (∀ j, es 0 j = 1) ∧
      (∀ i ≤ k, dr i = qp u.items.length (linearPart K lab u.items mu batch (theta i) (es i)) (es i) ∧
        (∀ j, es (i + 1) j = spalEs K lab u.items lambda (theta i) (dr i) j) ∧ Spec.Heaviest u.items (List.ofFn fun j => dr i j * es (i + 1) j) batch (sel i)) ∧
      (∀ i < k, ∃ w, (∀ j, w j = max (dr i ((validInd argsort fun j => max (dr i j * es (i + 1) j) 0).get (j.cast (List.length_map _))) *
          es (i + 1) ((validInd argsort fun j => max (dr i j * es (i + 1) j) 0).get (j.cast (List.length_map _)))) 0) ∧
        Trained K lab y gamma rho ((validInd argsort fun j => max (dr i j * es (i + 1) j) 0).map u.items.get) w n (theta i) (theta (i + 1))) ∧
      r = sel k ∧ k ≤ 15 ∧ (k = 15 ∨ ∃ j, k = j + 1 ∧ Spec.SameMembers (sel j) (sel k)) ∧ ∀ j, j + 1 < k → ¬ Spec.SameMembers (sel j) (sel (j + 1)) := by
  obtain ⟨k, st, sel, r, h, e0, e1, e2, e3, e4, e5, e6⟩ := C76_run ha hu hb hlt
    (weights := fun s : Spal a u.items.length =>
      let dr := qp u.items.length (linearPart K lab u.items mu batch s.theta s.es) s.es
      List.ofFn fun j => dr j * spalEs K lab u.items lambda s.theta dr j) (fun s => List.length_ofFn)
    (next := fun s _ => spalNext argsort pinv qp K mu gamma rho lambda n lab y u.items batch s)
    (s := ⟨initial (gram K lab) gamma fun i => y (lab i), fun _ => 1⟩) hf
  have hes : ∀ i < k, (st (i + 1)).es =
      spalEs K lab u.items lambda (st i).theta (qp u.items.length (linearPart K lab u.items mu batch (st i).theta (st i).es) (st i).es) := by
    intro i hi
    rw [e2 i hi]
    rfl
  refine ⟨k, fun i => (st i).theta,
    fun i => if i = k + 1 then spalEs K lab u.items lambda (st k).theta (qp u.items.length (linearPart K lab u.items mu batch (st k).theta (st k).es) (st k).es) else (st i).es,
    fun i => qp u.items.length (linearPart K lab u.items mu batch (st i).theta (st i).es) (st i).es, sel, r, h, ?_, ?_, ?_, ?_, e3, e4, e5, e6⟩
  · intro t
    have ht : ∀ t, Spec.trainLoss K lab y gamma [] t = Spec.ridgeLoss (gram K lab) gamma (fun i => y (lab i)) t := by
      intro t
      have := trainLoss_eq K lab y gamma [] (fun _ => 0) t
      simpa [Spec.selectionLoss] using this
    rw [ht, ht]
    simp only [e0]
    exact C77_initial (gram_symm hK lab) (gram_nonneg hK lab) hg _ t
  · intro j
    simp [e0]
  · intro i hi
    have hne : i ≠ k + 1 := by omega
    have hs : (if i + 1 = k + 1 then spalEs K lab u.items lambda (st k).theta (qp u.items.length (linearPart K lab u.items mu batch (st k).theta (st k).es) (st k).es) else (st (i + 1)).es) =
        spalEs K lab u.items lambda (st i).theta (qp u.items.length (linearPart K lab u.items mu batch (st i).theta (st i).es) (st i).es) := by
      split_ifs with hik
      · obtain rfl : i = k := by omega
        rfl
      · exact hes i (by omega)
    simp only [hne, if_false, hs]
    exact ⟨trivial, fun _ => trivial, e1 i hi⟩
  · intro i hi
    have hne : i + 1 ≠ k + 1 := by omega
    have key : ∀ E, E = spalEs K lab u.items lambda (st i).theta (qp u.items.length (linearPart K lab u.items mu batch (st i).theta (st i).es) (st i).es) →
        ∃ w, (∀ j, w j = max ((qp u.items.length (linearPart K lab u.items mu batch (st i).theta (st i).es) (st i).es)
            ((validInd argsort fun j => max ((qp u.items.length (linearPart K lab u.items mu batch (st i).theta (st i).es) (st i).es) j * E j) 0).get (j.cast (List.length_map _))) *
            E ((validInd argsort fun j => max ((qp u.items.length (linearPart K lab u.items mu batch (st i).theta (st i).es) (st i).es) j * E j) 0).get (j.cast (List.length_map _)))) 0) ∧
          Trained K lab y gamma rho ((validInd argsort fun j => max ((qp u.items.length (linearPart K lab u.items mu batch (st i).theta (st i).es) (st i).es) j * E j) 0).map u.items.get) w n
            (st i).theta (st (i + 1)).theta := by
      rintro E rfl
      refine ⟨_, fun _ => rfl, ?_⟩
      rw [e2 i hi]
      exact trained_of hK lab y hg.le hr hG _ (fun _ => le_max_right _ _) n _ (Or.inl rfl)
    refine key _ ?_
    simp only [hne, if_false, hes i hi]

end Round

/-- The numbers 2, 3, 5 with their product as kernel; 2 is labelled, one of 3 and 5 is selected, by BMDR and by SPAL, whatever the solver does. -/
example {argsort : List ℝ → List Nat} (ha : ∀ l, _root_.Spec.IsArgsort l (argsort l)) (qp : ∀ m, (Fin m → ℝ) → Fin m → ℝ) (qp' : ∀ m, (Fin m → ℝ) → (Fin m → ℝ) → Fin m → ℝ) :
    (∃ x, (x = 3 ∨ x = 5) ∧ bmdrSelect argsort (fun A : Matrix (Fin 1) (Fin 1) ℝ => Matrix.of fun _ _ => (A 0 0)⁻¹) qp (fun x y : ℕ => (x : ℝ) * y) 1000 (1 / 10) 1 100 (fun _ => 2)
      (fun _ => 1) (.list [3, 5]) 1 16 = some (.ok [x])) ∧
    ∃ x, (x = 3 ∨ x = 5) ∧ spalSelect argsort (fun A : Matrix (Fin 1) (Fin 1) ℝ => Matrix.of fun _ _ => (A 0 0)⁻¹) qp' (fun x y : ℕ => (x : ℝ) * y) (1 / 10) (1 / 10) 1 (1 / 10) 100 (fun _ => 2)
      (fun _ => 1) (.list [3, 5]) 1 16 = some (.ok [x]) := by
  have hK : InnerProducts (fun x y : ℕ => (x : ℝ) * y) fun x (_ : Unit) => (x : ℝ) := fun x y => by simp
  have hG : ∀ A : Matrix (Fin 1) (Fin 1) ℝ, Spec.IsGeneralisedInverse A (Matrix.of fun _ _ => (A 0 0)⁻¹) := by
    intro A
    unfold Spec.IsGeneralisedInverse
    ext i j
    fin_cases i
    fin_cases j
    by_cases h : A 0 0 = 0
    · simp [Matrix.mul_apply, h]
    · simp [Matrix.mul_apply, h]
  have one : ∀ r : List ℕ, Spec.BatchOf [3, 5] 1 r → ∃ x, (x = 3 ∨ x = 5) ∧ r = [x] := by
    rintro r ⟨_, h2, h3⟩
    match r, h2, h3 with
    | [x], h2, _ => exact ⟨x, by simpa using h2 x (by simp), rfl⟩
    | [], _, h3 => simp at h3
    | x :: y :: l, _, h3 => simp at h3; omega
  constructor
  · obtain ⟨k, tau, sel, r, h, _, h2, _, h4, _⟩ := C111_bmdr_select ha hK (fun _ : Fin 1 => 2) (fun _ => 1) (gamma := 1 / 10) (rho := 1) (by norm_num) (by norm_num) hG qp 1000 100 (u := .list [3, 5])
      (by decide) (batch := 1) (by decide) (by decide) (fuel := 16) le_rfl
    obtain ⟨x, hx, e⟩ := one _ (h2 k le_rfl).1
    exact ⟨x, hx, by rw [h, h4, e]⟩
  · obtain ⟨k, theta, es, dr, sel, r, h, _, _, h2, _, h4, _⟩ := C111_spal_select ha hK (fun _ : Fin 1 => 2) (fun _ => 1) (gamma := 1 / 10) (rho := 1) (by norm_num) (by norm_num) hG qp' (1 / 10) (1 / 10)
      100 (u := .list [3, 5]) (by decide) (batch := 1) (by decide) (by decide) (fuel := 16) le_rfl
    obtain ⟨x, hx, e⟩ := one _ (h2 k le_rfl).2.2.1
    exact ⟨x, hx, by rw [h, h4, e]⟩

end Alipy.Bmdr
