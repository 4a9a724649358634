import Verif.Props.FairPairs
import Verif.Props.Split
/-!
# C101 for multi-label and feature splits
-/
set_option linter.unusedSimpArgs false
namespace Alipy.Fair
open Alipy
open scoped Nat

/-- **C101**: a round of `split_multi_label` with `all_class=False` is a round of `split` of the instances: any two ways to give the instances their roles, with the same numbers, are equally likely. -/
theorem C101_multi_label {n L : Nat} {rows : Option (List (List Int))} {t rate : ℚ} {d d' : Int → Spec.Role}
    (hn : ∀ p, Spec.withRole (pyRange 0 n) d' p = Spec.withRole (pyRange 0 n) d p) :
    Spec.ways (fun σ : Equiv.Perm (Fin (pyRange 0 n).length) => ∃ r, rowSplitRound n L rows t rate false [Spec.shuffleBy σ] = some (.ok r) ∧ Spec.Assigns r d') =
    Spec.ways (fun σ : Equiv.Perm (Fin (pyRange 0 n).length) => ∃ r, rowSplitRound n L rows t rate false [Spec.shuffleBy σ] = some (.ok r) ∧ Spec.Assigns r d) := by
  have e : ∀ sh : Sh, rowSplitRound n L rows t rate false [sh] = some (randomRound sh (pyRange 0 n) t rate) := by
    intro sh
    unfold rowSplitRound randomRound
    simp only []
    cases cutTrain sh (pyRange 0 n) t with
    | error e => rfl
    | ok p => rfl
  simp only [e, Option.some.injEq]
  exact C101_split hn

/-- A shuffled range, as numbers. -/
abbrev order {n : Nat} (σ : Equiv.Perm (Fin n)) : List Int := (List.ofFn (fun i => (σ i : Nat))).map (fun i : Nat => (i : Int))

theorem range_count {n k : Nat} {S : Int → Bool} (hk : (pyRange 0 n).countP S = k) :
    Spec.ways (fun σ : Equiv.Perm (Fin n) => ((order σ).take k).Perm ((pyRange 0 n).filter S)) = k ! * (n - k)! := by
  have hl : (pyRange 0 n).length = n := by simp [pyRange]
  have h := take_count hk
  have key : ∀ (N : Nat) (hN : (pyRange 0 n).length = N), Spec.ways (fun σ : Equiv.Perm (Fin N) => ((List.ofFn (fun i => (pyRange 0 n).get (Fin.cast hN.symm (σ i)))).take k).Perm
      ((pyRange 0 n).filter S)) = k ! * (N - k)! := by
    intro N hN
    subst hN
    exact h
  rw [← key n hl]
  congr 1
  funext σ
  have : (List.ofFn (fun i => (pyRange 0 n).get (Fin.cast hl.symm (σ i)))) = order σ := by
    unfold order
    rw [List.map_ofFn]
    congr 1
    funext i
    simp [pyRange]
    rfl
  rw [this]

theorem order_perm {n : Nat} (σ : Equiv.Perm (Fin n)) : (order σ).Perm (pyRange 0 n) := by
  have h := shuffle_range σ
  unfold order
  rw [← h]
  have hl : (pyRange 0 n).length = n := by simp [pyRange]
  have key : ∀ (N : Nat) (hN : (pyRange 0 n).length = N) (σ : Equiv.Perm (Fin N)), (Spec.shuffleBy σ (pyRange 0 n)).Perm (pyRange 0 n) := by
    intro N hN
    subst hN
    intro σ
    unfold Spec.shuffleBy
    rw [dif_pos rfl]
    exact shuffled_perm _ σ
  exact key n hl σ

theorem randperm_pair {n k : Nat} (hk : k ≤ n) (σ : Equiv.Perm (Fin n)) :
    randperm (Spec.shuffleBy σ) (.pair (some 0) ((n : Int) - 1)) (.int k) = .ok ((order σ).take k) := randperm_take hk σ

/-- The number of pairs of draws that bring about an event. -/
theorem card_pairs {α β : Type} [Finite α] [Finite β] {P : α → Prop} {Q : α → β → Prop} {c : Nat} (h : ∀ a, P a → Nat.card {b // Q a b} = c) :
    Nat.card {q : α × β // P q.1 ∧ Q q.1 q.2} = Nat.card {a // P a} * c := by
  classical
  have := Fintype.ofFinite α
  have := Fintype.ofFinite β
  have e : {q : α × β // P q.1 ∧ Q q.1 q.2} ≃ Σ a : {a // P a}, {b // Q a.1 b} :=
    ⟨fun q => ⟨⟨q.1.1, q.2.1⟩, ⟨q.1.2, q.2.2⟩⟩, fun s => ⟨(s.1.1, s.2.1), s.1.2, s.2.2⟩, fun _ => rfl, fun _ => rfl⟩
  rw [Nat.card_congr e, Nat.card_sigma, Finset.sum_congr rfl (fun a _ => h a.1 a.2)]
  simp [Nat.card_eq_fintype_card]

theorem perm_of_map {α β : Type} {f : α → β} {a b : List α} (ha : a.Nodup) (hb : b.Nodup) {s : α → Prop} (hsa : ∀ x ∈ a, s x) (hsb : ∀ x ∈ b, s x)
    (hf : ∀ x y, s x → s y → f x = f y → x = y) (h : (a.map f).Perm (b.map f)) : a.Perm b := by
  rw [List.perm_ext_iff_of_nodup ha hb]
  intro x
  constructor
  · intro hx
    obtain ⟨y, hy, he⟩ := List.mem_map.1 (h.subset (List.mem_map_of_mem hx))
    rwa [hf y x (hsb y hy) (hsa x hx) he] at hy
  · intro hx
    obtain ⟨y, hy, he⟩ := List.mem_map.1 (h.symm.subset (List.mem_map_of_mem hx))
    rwa [hf y x (hsa y hy) (hsb x hx) he] at hy

/-- The pairs of the instances in a list and the features. -/
def allPairs (w : List Int) (L : Nat) : List (Int × Int) := w.product (pyRange 0 L)

theorem decoded {w : List Int} (hw : w.Nodup) (L : Nat) :
    (∀ i j : Int, (0 ≤ i ∧ i < (w.length * L : Nat)) → (0 ≤ j ∧ j < (w.length * L : Nat)) →
      (w.getD (i / (L : Int)).toNat default, i % (L : Int)) = (w.getD (j / (L : Int)).toNat default, j % (L : Int)) → i = j) ∧
    ((pyRange 0 (w.length * L : Nat)).map (fun i : Int => (w.getD (i / (L : Int)).toNat default, i % (L : Int)))).Perm (allPairs w L) := by
  have hpos : ∀ i : Int, 0 ≤ i → i < (w.length * L : Nat) → (0 : Int) < L ∧ 0 ≤ i / (L : Int) ∧ (i / (L : Int)).toNat < w.length := by
    intro i hi0 hi
    have hL : (0 : Int) < L := by
      rcases Nat.eq_zero_or_pos L with h' | h'
      · subst h'; simp at hi; omega
      · omega
    have a1 : i / L < w.length := Int.ediv_lt_of_lt_mul hL (by push_cast at hi; exact hi)
    have a3 : 0 ≤ i / (L : Int) := Int.ediv_nonneg hi0 (by omega)
    exact ⟨hL, a3, by omega⟩
  have key : ∀ i j : Int, (0 ≤ i ∧ i < (w.length * L : Nat)) → (0 ≤ j ∧ j < (w.length * L : Nat)) →
      (w.getD (i / (L : Int)).toNat default, i % (L : Int)) = (w.getD (j / (L : Int)).toNat default, j % (L : Int)) → i = j := by
    rintro i j ⟨hi0, hi⟩ ⟨hj0, hj⟩ he
    simp only [Prod.mk.injEq] at he
    obtain ⟨hL, a3, b1⟩ := hpos i hi0 hi
    obtain ⟨-, a4, b2⟩ := hpos j hj0 hj
    have : (i / (L : Int)).toNat = (j / (L : Int)).toNat := by
      have := he.1
      simp only [List.getD, List.getElem?_eq_getElem b1, List.getElem?_eq_getElem b2, Option.getD_some] at this
      exact (hw.getElem_inj_iff).1 this
    have e1 : i / (L : Int) = j / L := by omega
    rw [← Int.mul_ediv_add_emod i L, ← Int.mul_ediv_add_emod j L, e1, he.2]
  refine ⟨key, ?_⟩
  rw [List.perm_ext_iff_of_nodup]
  · rintro ⟨x, y⟩
    unfold allPairs
    rw [List.pair_mem_product, List.mem_map]
    constructor
    · rintro ⟨i, hi, he⟩
      obtain ⟨hi0, hi1⟩ := (mem_pyRange _ _ _).1 hi
      obtain ⟨hL, -, hb⟩ := hpos i hi0 hi1
      simp only [Prod.mk.injEq] at he
      refine ⟨?_, (mem_pyRange _ _ _).2 ⟨?_, ?_⟩⟩
      · rw [← he.1, List.getD_eq_getElem _ _ hb]; exact List.getElem_mem _
      · rw [← he.2]; exact Int.emod_nonneg _ (by omega)
      · rw [← he.2]; exact Int.emod_lt_of_pos _ hL
    · rintro ⟨hx, hy⟩
      obtain ⟨k, hk, rfl⟩ := List.getElem_of_mem hx
      obtain ⟨hy0, hy1⟩ := (mem_pyRange _ _ _).1 hy
      have hdiv : ((k : Int) * L + y) / (L : Int) = k := by
        rw [Int.add_comm, Int.add_mul_ediv_right _ _ (by omega), Int.ediv_eq_zero_of_lt hy0 hy1, zero_add]
      have hmod : ((k : Int) * L + y) % (L : Int) = y := by
        rw [Int.add_comm, Int.add_mul_emod_self_right, Int.emod_eq_of_lt hy0 hy1]
      refine ⟨(k : Int) * L + y, (mem_pyRange _ _ _).2 ⟨by positivity, ?_⟩, ?_⟩
      · have : ((k : Int) + 1) * L ≤ w.length * L := Int.mul_le_mul_of_nonneg_right (by omega) (by omega)
        push_cast
        linarith
      · rw [hdiv, hmod]
        simp only [Int.toNat_natCast, List.getD_eq_getElem _ _ hk]
  · apply List.Nodup.map_on _ (pyRange_nodup _ _)
    intro i hi j hj he
    exact key i j ((mem_pyRange _ _ _).1 hi) ((mem_pyRange _ _ _).1 hj) he
  · exact hw.product (pyRange_nodup _ _)

theorem entries_count {K L m : Nat} {w v : List Int} (htl : w.length = K) (hnd : w.Nodup) (hσ : w.Perm v) {S : Int × Int → Bool} (hS : (allPairs v L).countP S = m) :
    Nat.card {τ : Equiv.Perm (Fin (K * L)) // (((order τ).take m).map (fun i : Int => (w.getD (i / (L : Int)).toNat default, i % (L : Int)))).Perm ((allPairs v L).filter S)} =
      m ! * (K * L - m)! := by
  have hnv := hσ.nodup_iff.1 hnd
  obtain ⟨hinj, hperm⟩ := decoded hnd L
  rw [htl] at hinj hperm
  have hprod : (allPairs w L).Perm (allPairs v L) := by
    unfold allPairs
    refine (List.perm_ext_iff_of_nodup (hnd.product (pyRange_nodup _ _)) (hnv.product (pyRange_nodup _ _))).2 ?_
    rintro ⟨x, y⟩
    exact List.pair_mem_product.trans ((and_congr_left' hσ.mem_iff).trans List.pair_mem_product.symm)
  have hall := hperm.trans hprod
  generalize hf : (fun i : Int => (w.getD (i / (L : Int)).toNat default, i % (L : Int))) = f at *
  have hinj' : ∀ i j : Int, (0 ≤ i ∧ i < ((K * L : Nat) : Int)) → (0 ≤ j ∧ j < ((K * L : Nat) : Int)) → f i = f j → i = j := by
    subst hf; exact hinj
  have hcount : (pyRange 0 (K * L : Nat)).countP (fun i => S (f i)) = m := by
    rw [← hS, ← hall.countP_eq, List.countP_map]
    rfl
  have hfil : (((pyRange 0 (K * L : Nat)).filter (fun i => S (f i))).map f).Perm ((allPairs v L).filter S) := by
    have := hall.filter S
    rwa [List.filter_map] at this
  rw [← range_count hcount]
  apply Nat.card_congr
  apply Equiv.subtypeEquivRight
  intro τ
  constructor
  · intro h
    refine perm_of_map (f := f) (s := fun i => 0 ≤ i ∧ i < ((K * L : Nat) : Int)) (((order_perm τ).nodup_iff.2 (pyRange_nodup _ _)).sublist (List.take_sublist _ _))
      ((pyRange_nodup _ _).filter _) ?_ ?_ hinj' (h.trans hfil.symm)
    · exact fun x hx => (mem_pyRange _ _ _).1 ((order_perm τ).subset (List.take_subset _ _ hx))
    · exact fun x hx => (mem_pyRange _ _ _).1 (List.mem_filter.1 hx).1
  · exact fun h => (h.map f).trans hfil

theorem cutTrain_order {n K : Nat} {t : ℚ} (hK : Spec.IsRound ((1 - t) * n) K) (σ : Equiv.Perm (Fin n)) :
    cutTrain (Spec.shuffleBy σ) (pyRange 0 n) t = .ok ((order σ).take K, (order σ).drop K) := by
  have hlen : ∀ σ : Equiv.Perm (Fin n), (order σ).length = n := fun σ => by simp [order]
  have hpl : (pyRange 0 (n : Int)).length = n := by simp [pyRange]
  have hr : randperm (Spec.shuffleBy σ) (.int ((n : Int) - 1)) .default = .ok (order σ) := by
    unfold randperm
    simp only [sub_add_cancel, sub_zero]
    rw [shuffle_range]
    congr 1
    unfold pySliceTo
    rw [if_pos (by omega)]
    apply List.take_of_length_le
    simp
  have hpick : ∀ l : List Int, (∀ i ∈ l, 0 ≤ i ∧ i < (n : Int)) → pickAll (pyRange 0 n) l = .ok l := by
    intro l hl
    rw [pickAll_eq _ _ (by rw [hpl]; exact hl)]
    congr 1
    conv_rhs => rw [← List.map_id l]
    apply List.map_congr_left
    intro i hi
    obtain ⟨h0, h1⟩ := hl i hi
    rw [List.getD_eq_getElem _ _ (by rw [hpl]; omega)]
    simp [pyRange]
    omega
  have hmem : ∀ i ∈ order σ, 0 ≤ i ∧ i < (n : Int) := fun i hi => (mem_pyRange _ _ _).1 ((order_perm σ).subset hi)
  have hround : pyRound ((1 - t) * (order σ).length) = K := by rw [hlen]; exact pyRound_eq hK
  unfold cutTrain pick
  rw [hpl, hr]
  simp only [hround]
  rw [show pySliceTo (order σ) (K : Int) = (order σ).take K by simp [pySliceTo], show pySliceFrom (order σ) (K : Int) = (order σ).drop K by simp [pySliceFrom],
    hpick _ (fun i hi => hmem i (List.take_subset _ _ hi)), hpick _ (fun i hi => hmem i (List.drop_subset _ _ hi))]

theorem pairSplit_order {n L K m : Nat} {t rate : ℚ} (hK : Spec.IsRound ((1 - t) * n) K) (hm : Spec.IsRound (rate * (K * L : Nat)) m) (hKn : K ≤ n) (hmN : m ≤ K * L)
    (σ : Equiv.Perm (Fin n)) (τ : Equiv.Perm (Fin (K * L))) : pairSplitRound n L t rate false [(Spec.shuffleBy σ, Spec.shuffleBy τ)] =
      some (.ok ⟨(order σ).take K, (order σ).drop K, ((order τ).take m).map (fun i : Int => (((order σ).take K).getD (i / (L : Int)).toNat default, i % (L : Int))),
        ((pyRange 0 ((K * L : Nat) : Int)).filter (fun i => decide (i ∉ (order τ).take m))).map (fun i : Int => (((order σ).take K).getD (i / (L : Int)).toNat default, i % (L : Int)))⟩) := by
  have hlen : ∀ σ : Equiv.Perm (Fin n), (order σ).length = n := fun σ => by simp [order]
  have htl : ((order σ).take K).length = K := by rw [List.length_take, hlen]; omega
  have hround : pyRound (rate * ((K * L : Nat) : ℚ)) = m := pyRound_eq hm
  have htr : pairTry (Spec.shuffleBy σ, Spec.shuffleBy τ) n L t (fun t => pyRound (rate * (t * L : Nat))) = .ok ((order σ).take K, (order σ).drop K, (order τ).take m) := by
    unfold pairTry
    simp only [cutTrain_order hK, htl, hround]
    rw [randperm_pair hmN τ]
  unfold pairSplitRound
  simp only [htr, Bool.false_eq_true, if_false]
  unfold pairRound
  simp only
  rw [decodePairs_ok, decodePairs_ok, htl]
  · intro i hi; exact (mem_pyRange _ _ _).1 (List.mem_filter.1 hi).1
  · intro i hi
    rw [htl]
    exact (mem_pyRange _ _ _).1 ((order_perm τ).subset (List.take_subset _ _ hi))

/-- **C101**: a round of `split_features` (or of a partially labelled multi-label split) without `all_features`: of `n` instances `K` are for training, and `m` of the `K * L` entries of these are
known at the start. Every choice of the training instances and of the known entries comes out for the same number of pairs of permutations. -/
theorem C101_feature_split {n L K m : Nat} {t rate : ℚ} (hK : Spec.IsRound ((1 - t) * n) K) (hm : Spec.IsRound (rate * (K * L : Nat)) m)
    {T : Int → Bool} (hT : (pyRange 0 n).countP T = K) {S : Int × Int → Bool} (hS : (allPairs ((pyRange 0 n).filter T) L).countP S = m) :
    Nat.card {q : Equiv.Perm (Fin n) × Equiv.Perm (Fin (K * L)) // ∃ r, pairSplitRound n L t rate false [(Spec.shuffleBy q.1, Spec.shuffleBy q.2)] = some (.ok r) ∧
      r.train.Perm ((pyRange 0 n).filter T) ∧ r.label.Perm ((allPairs ((pyRange 0 n).filter T) L).filter S)} = (K ! * (n - K)!) * (m ! * (K * L - m)!) := by
  have hlen : ∀ σ : Equiv.Perm (Fin n), (order σ).length = n := fun σ => by simp [order]
  have hKn : K ≤ n := by
    have := List.countP_le_length (p := T) (l := pyRange 0 n)
    rw [hT] at this
    simpa [pyRange] using this
  have hTl : ((pyRange 0 n).filter T).length = K := by rw [← List.countP_eq_length_filter, hT]
  have hmN : m ≤ K * L := by
    have := List.countP_le_length (p := S) (l := allPairs ((pyRange 0 n).filter T) L)
    rw [hS, show (allPairs ((pyRange 0 (n : Int)).filter T) L).length = K * L by rw [← hTl]; unfold allPairs; exact (List.length_product _ _).trans (by simp [pyRange])] at this
    exact this
  have hev : ∀ (σ : Equiv.Perm (Fin n)) (τ : Equiv.Perm (Fin (K * L))),
      (∃ r, pairSplitRound n L t rate false [(Spec.shuffleBy σ, Spec.shuffleBy τ)] = some (.ok r) ∧ r.train.Perm ((pyRange 0 n).filter T) ∧
        r.label.Perm ((allPairs ((pyRange 0 n).filter T) L).filter S)) ↔
      (((order σ).take K).Perm ((pyRange 0 n).filter T) ∧
        (((order τ).take m).map (fun i : Int => (((order σ).take K).getD (i / (L : Int)).toNat default, i % (L : Int)))).Perm ((allPairs ((pyRange 0 n).filter T) L).filter S)) := by
    intro σ τ
    rw [pairSplit_order hK hm hKn hmN]
    constructor
    · rintro ⟨r, h1, h2⟩; cases h1; exact h2
    · exact fun h => ⟨_, rfl, h⟩
  have h1 := range_count hT
  unfold Spec.ways at h1
  have h2 := card_pairs (α := Equiv.Perm (Fin n)) (β := Equiv.Perm (Fin (K * L))) (P := fun σ => ((order σ).take K).Perm ((pyRange 0 n).filter T))
    (Q := fun σ τ => (((order τ).take m).map (fun i : Int => (((order σ).take K).getD (i / (L : Int)).toNat default, i % (L : Int)))).Perm ((allPairs ((pyRange 0 n).filter T) L).filter S))
    (c := m ! * (K * L - m)!) ?_
  · rw [h1] at h2
    rw [← h2]
    exact Nat.card_congr (Equiv.subtypeEquivRight (fun q => hev q.1 q.2))
  · intro σ hσ
    have htl : ((order σ).take K).length = K := by rw [List.length_take, hlen]; omega
    have hnd : ((order σ).take K).Nodup := ((order_perm σ).nodup_iff.2 (pyRange_nodup _ _)).sublist (List.take_sublist _ _)
    exact entries_count htl hnd hσ hS

/-- Four instances with two features, half of the instances for training, half of their entries known at the start: training instances 0 and 2, known entries (0, 1) and (2, 1). -/
example : Spec.IsRound ((1 - 1 / 2) * (4 : Nat)) (2 : Nat) ∧ Spec.IsRound (1 / 2 * (2 * 2 : Nat)) (2 : Nat) ∧ (pyRange 0 (4 : Nat)).countP (fun i => i % 2 == 0) = 2 ∧
    (allPairs ((pyRange 0 (4 : Nat)).filter (fun i => i % 2 == 0)) 2).countP (fun p => p.2 == 1) = 2 := by
  refine ⟨?_, ?_, by decide, by decide⟩ <;> norm_num [Spec.IsRound]

end Alipy.Fair
