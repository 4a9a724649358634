import Verif.Model.Split
import Verif.Spec.Split
import Verif.Proof.Misc
import Mathlib.Data.List.Nodup
import Mathlib.Data.List.Perm.Basic
import Mathlib.Tactic.Positivity

namespace Alipy

theorem pySlice_append {α : Type} (l : List α) (k : Int) : pySliceTo l k ++ pySliceFrom l k = l := by
  unfold pySliceTo pySliceFrom; split <;> simp

theorem pySliceTo_length {α : Type} (l : List α) (k : Int) (h : 0 ≤ k) : (pySliceTo l k).length = min k.toNat l.length := by
  simp [pySliceTo, h]

theorem partition_of_perm {α : Type} {a b w : List α} (hw : w.Nodup) (h : (a ++ b).Perm w) : Spec.Partition a b w := by
  have hn := h.nodup_iff.2 hw
  rw [List.nodup_append] at hn
  refine ⟨hn.1, hn.2.1, fun x hx hb => hn.2.2 x hx x hb rfl, fun x => ?_⟩
  rw [← h.mem_iff, List.mem_append]

theorem randperm_all (sh : Sh) (hs : Spec.IsShuffle sh) (n : Nat) :
    ∃ rp, randperm sh (.int ((n : Int) - 1)) .default = .ok rp ∧ rp.Perm (pyRange 0 n) := by
  have h1 : (n : Int) - 1 + 1 = n := by omega
  have h2 : (n : Int) - 1 - 0 + 1 = n := by omega
  refine ⟨sh (pyRange 0 n), ?_, hs _⟩
  simp only [randperm, h1, h2]
  have hl : (sh (pyRange 0 n)).length = n := by rw [(hs _).length_eq, pyRange_length]; omega
  rw [pySliceTo, if_pos (by omega), List.take_of_length_le (by omega)]

theorem pickAll_eq {α : Type} [Inhabited α] (l : List α) : ∀ (is : List Int), (∀ i ∈ is, 0 ≤ i ∧ i < l.length) →
    pickAll l is = .ok (is.map (fun i => l.getD i.toNat default))
  | [], _ => rfl
  | i :: is, h => by
    have ih := pickAll_eq l is (fun j hj => h j (List.mem_cons_of_mem _ hj))
    obtain ⟨h0, h1⟩ := h i (by simp)
    have hlt : i.toNat < l.length := by omega
    simp [pickAll, ih, h0, List.getElem?_eq_getElem hlt, List.getD]

theorem map_getD_pyRange {α : Type} [Inhabited α] (l : List α) :
    (pyRange 0 l.length).map (fun i => l.getD i.toNat default) = l := by
  apply List.ext_getElem
  · simp [pyRange]
  · intro i h1 h2
    simp [pyRange, h2]

/-- The train / test cut always succeeds and is a rearrangement of the indexes. -/
theorem cutTrain_ok (sh : Sh) (hs : Spec.IsShuffle sh) (names : List Int) (tr : ℚ) :
    ∃ train test, cutTrain sh names tr = .ok (train, test) ∧ (train ++ test).Perm names ∧
      (0 ≤ tr → tr ≤ 1 → (train.length : Int) = pyRound ((1 - tr) * names.length)) := by
  obtain ⟨rp, h1, h2⟩ := randperm_all sh hs names.length
  have hl : rp.length = names.length := by rw [h2.length_eq, pyRange_length]; omega
  have hin : ∀ i ∈ rp, 0 ≤ i ∧ i < (names.length : Int) := fun i hi => (mem_pyRange _ _ _).1 (h2.mem_iff.1 hi)
  have e1 := pickAll_eq names (pySliceTo rp (pyRound ((1 - tr) * rp.length)))
    (fun i hi => hin i ((pySliceTo_sublist _ _).subset hi))
  have e2 := pickAll_eq names (pySliceFrom rp (pyRound ((1 - tr) * rp.length)))
    (fun i hi => hin i ((pySliceFrom_sublist _ _).subset hi))
  refine ⟨_, _, by simp only [cutTrain, h1, pick, e1, e2]; rfl, ?_, ?_⟩
  · rw [← List.map_append, pySlice_append]
    exact (h2.map _).trans (by rw [map_getD_pyRange])
  · intro h0 h1'
    have a1 : 0 ≤ pyRound ((1 - tr) * rp.length) := pyRound_nonneg (by
      have : (0:ℚ) ≤ rp.length := by positivity
      nlinarith)
    have a2 : pyRound ((1 - tr) * rp.length) ≤ rp.length := pyRound_le_of_le (by
      have : (0:ℚ) ≤ rp.length := by positivity
      push_cast; nlinarith)
    rw [List.length_map, pySliceTo_length _ _ a1, hl]
    rw [hl] at a1 a2
    omega

theorem cutTrain_inv {sh : Sh} (hs : Spec.IsShuffle sh) {names : List Int} {tr : ℚ} {t : List Int × List Int}
    (h : cutTrain sh names tr = .ok t) : (t.1 ++ t.2).Perm names ∧
      (0 ≤ tr → tr ≤ 1 → (t.1.length : Int) = pyRound ((1 - tr) * names.length)) := by
  obtain ⟨a, b, h1, h2, h3⟩ := cutTrain_ok sh hs names tr
  rw [h1] at h
  cases h
  exact ⟨h2, h3⟩

theorem runRounds_inv {ρ β : Type} {f : List ρ → Option (Except PyErr β)} : ∀ {shs : List (List ρ)} {rs : List β},
    runRounds f shs = some (.ok rs) → List.Forall₂ (fun s r => f s = some (.ok r)) shs rs
  | [], rs, h => by
    simp only [runRounds, Option.some.injEq, Except.ok.injEq] at h
    subst h; exact .nil
  | s :: shs, rs, h => by
    simp only [runRounds] at h
    split at h
    · exact absurd h (by simp)
    · exact absurd h (by simp)
    · rename_i b hb
      split at h
      · exact absurd h (by simp)
      · exact absurd h (by simp)
      · rename_i bs hbs
        simp only [Option.some.injEq, Except.ok.injEq] at h
        subst h
        exact .cons hb (runRounds_inv hbs)

theorem runRounds_ok {ρ β : Type} {f : List ρ → Option (Except PyErr β)} : ∀ {shs : List (List ρ)},
    (∀ s ∈ shs, ∃ b, f s = some (.ok b)) → ∃ rs, runRounds f shs = some (.ok rs)
  | [], _ => ⟨[], rfl⟩
  | s :: shs, h => by
    obtain ⟨b, hb⟩ := h s (by simp)
    obtain ⟨bs, hbs⟩ := runRounds_ok (f := f) (shs := shs) (fun t ht => h t (List.mem_cons_of_mem _ ht))
    exact ⟨b :: bs, by simp [runRounds, hb, hbs]⟩

theorem forall₂_right {α β : Type} {R : α → β → Prop} {l : List α} {m : List β} (h : List.Forall₂ R l m) :
    ∀ b ∈ m, ∃ a ∈ l, R a b := by
  induction h with
  | nil => intro b hb; simp at hb
  | cons h _ ih =>
    intro b hb
    rcases List.mem_cons.1 hb with rfl | hb'
    · exact ⟨_, by simp, h⟩
    · obtain ⟨a, ha, hr⟩ := ih b hb'; exact ⟨a, List.mem_cons_of_mem _ ha, hr⟩

/-- What every round of `split` looks like: a random round for some shuffle in its list. -/
theorem coverLoop_inv {names : List Int} {y : YArr} {tr rate : ℚ} : ∀ {shs : List Sh} {r : Round Int},
    coverLoop names y tr rate shs = some (.ok r) →
      ∃ sh ∈ shs, randomRound sh names tr rate = .ok r ∧ y.covers r.label = .ok true
  | [], r, h => by simp [coverLoop] at h
  | sh :: shs, r, h => by
    simp only [coverLoop] at h
    split at h
    · exact absurd h (by simp)
    · rename_i r' hr
      split at h
      · exact absurd h (by simp)
      · rename_i hc
        simp only [Option.some.injEq, Except.ok.injEq] at h
        subst h
        exact ⟨sh, by simp, hr, hc⟩
      · obtain ⟨s, hs, h1, h2⟩ := coverLoop_inv h
        exact ⟨s, List.mem_cons_of_mem _ hs, h1, h2⟩

theorem splitRound_inv {names : List Int} {y : Option YArr} {tr rate : ℚ} {ac : Bool} {shs : List Sh} {r : Round Int}
    (h : splitRound names y tr rate ac shs = some (.ok r)) : ∃ sh ∈ shs, randomRound sh names tr rate = .ok r := by
  unfold splitRound at h
  split at h
  · split at h
    · exact absurd h (by simp)
    · obtain ⟨s, hs, h1, _⟩ := coverLoop_inv h
      exact ⟨s, hs, h1⟩
  · cases shs with
    | nil => simp at h
    | cons s shs => exact ⟨s, by simp, by simpa using h⟩

theorem randomRound_inv {sh : Sh} (hs : Spec.IsShuffle sh) {names : List Int} {tr rate : ℚ} {r : Round Int}
    (h : randomRound sh names tr rate = .ok r) : (r.train ++ r.test).Perm names ∧
      (0 ≤ tr → tr ≤ 1 → (r.train.length : Int) = pyRound ((1 - tr) * names.length)) ∧
      r.label = pySliceTo r.train (cutLabel rate r.train.length) ∧ r.unlabel = pySliceFrom r.train (cutLabel rate r.train.length) := by
  unfold randomRound at h
  split at h
  · exact absurd h (by simp)
  · rename_i train test ht
    obtain ⟨h1, h2⟩ := cutTrain_inv hs ht
    simp only [Except.ok.injEq] at h
    subst h
    exact ⟨h1, h2, rfl, rfl⟩

theorem one_le_cutLabel (rate : ℚ) (t : Nat) : 1 ≤ cutLabel rate t := by unfold cutLabel; split <;> omega

theorem cutLabel_eq (rate : ℚ) (t : Nat) : cutLabel rate t = max 1 (pyRound (rate * t)) := by
  unfold cutLabel; split <;> omega

theorem pyAtAll_inv {α : Type} {l : List α} : ∀ {is : List Int} {vs : List α}, pyAtAll l is = .ok vs →
    List.Forall₂ (fun i v => pyAt l i = some v) is vs
  | [], vs, h => by simp only [pyAtAll, Except.ok.injEq] at h; subst h; exact .nil
  | i :: is, vs, h => by
    simp only [pyAtAll] at h
    split at h
    · exact absurd h (by simp)
    · rename_i v hv
      cases h2 : pyAtAll l is with
      | error e => rw [h2] at h; simp [Except.map] at h
      | ok ws =>
        rw [h2] at h
        simp only [Except.map, Except.ok.injEq] at h
        subst h
        exact .cons hv (pyAtAll_inv h2)

theorem eraseDups_nodup [DecidableEq α] : ∀ (l : List α), l.eraseDups.Nodup
  | [] => by simp
  | a :: l => by
    rw [List.eraseDups_cons, List.nodup_cons]
    have : (l.filter (fun b => !b == a)).length < (a :: l).length :=
      Nat.lt_of_le_of_lt (List.length_filter_le _ _) (by simp)
    refine ⟨?_, eraseDups_nodup _⟩
    intro h
    have := List.mem_eraseDups.1 h
    simp at this
termination_by l => l.length

/-- If all values of `a` occur in `b` and both have the same number of different values, all values of `b` occur in `a`. -/
theorem numUnique_covers {a b : List Int} (hsub : ∀ x ∈ a, x ∈ b) (h : numUnique a = numUnique b) : ∀ x ∈ b, x ∈ a := by
  intro x hx
  have h1 : a.eraseDups ⊆ b.eraseDups := fun y hy => List.mem_eraseDups.2 (hsub y (List.mem_eraseDups.1 hy))
  have h2 : a.eraseDups.Subperm b.eraseDups := (eraseDups_nodup a).subperm h1
  have h3 := h2.perm_of_length_le (by unfold numUnique at h; omega)
  exact List.mem_eraseDups.1 (h3.mem_iff.2 (List.mem_eraseDups.2 hx))

theorem numUnique_le (l : List Int) : numUnique l ≤ l.length := by
  have : l.eraseDups.Subperm l := (eraseDups_nodup l).subperm (fun x hx => List.mem_eraseDups.1 hx)
  exact this.length_le

theorem sum_eq_zero_of_all {l : List Int} (h : ∀ x ∈ l, x = 0) : l.sum = 0 := by
  induction l with
  | nil => rfl
  | cons a l ih => simp [h a (by simp), ih (fun x hx => h x (List.mem_cons_of_mem _ hx))]

theorem colSum_pos_of_ne {rows : List (List Int)} {j : Nat} (h : colSum rows j ≠ 0) : ∃ r ∈ rows, r.getD j 0 ≠ 0 := by
  by_contra hc
  push Not at hc
  exact h (sum_eq_zero_of_all (by simpa using hc))

/-! ## Pairs -/

theorem pairTry_inv {sh : Sh × Sh} (h1 : Spec.IsShuffle sh.1) (h2 : Spec.IsShuffle sh.2) {n L : Nat} {tr : ℚ} {k : Nat → Int}
    {c : List Int × List Int × List Int} (h : pairTry sh n L tr k = .ok c) :
    (c.1 ++ c.2.1).Perm (pyRange 0 n) ∧ (0 ≤ tr → tr ≤ 1 → (c.1.length : Int) = pyRound ((1 - tr) * n)) ∧
      c.2.2.Nodup ∧ (∀ i ∈ c.2.2, 0 ≤ i ∧ i < (c.1.length * L : Nat)) ∧
      (0 ≤ k c.1.length → (c.2.2.length : Int) = k c.1.length) := by
  unfold pairTry at h
  split at h
  · exact absurd h (by simp)
  · rename_i train test ht
    obtain ⟨a1, a2⟩ := cutTrain_inv h1 ht
    split at h
    · exact absurd h (by simp)
    · rename_i lab hl
      simp only [Except.ok.injEq] at h
      subst h
      have hlen : (pyRange 0 (n : Int)).length = n := by rw [pyRange_length]; omega
      simp only [hlen] at a2
      simp only [randperm] at hl
      split at hl
      · exact absurd hl (by simp)
      · rename_i hk
        simp only [Except.ok.injEq] at hl
        have hp := h2 (pyRange 0 (((train.length * L : Nat) : Int) - 1 + 1))
        have hm : ∀ x, x ∈ sh.2 (pyRange 0 (((train.length * L : Nat) : Int) - 1 + 1)) ↔ 0 ≤ x ∧ x < ((train.length * L : Nat) : Int) := by
          intro x; rw [hp.mem_iff, mem_pyRange]; constructor <;> intro hx <;> omega
        have hlen2 : (sh.2 (pyRange 0 (((train.length * L : Nat) : Int) - 1 + 1))).length = train.length * L := by
          rw [hp.length_eq, pyRange_length]; omega
        refine ⟨a1, a2, ?_, ?_, ?_⟩
        · rw [← hl]
          exact (hp.nodup_iff.2 (pyRange_nodup _ _)).sublist (pySliceTo_sublist _ _)
        · intro i hi
          rw [← hl] at hi
          exact (hm i).1 ((pySliceTo_sublist _ _).subset hi)
        · intro h0
          simp only at h0 ⊢
          rw [← hl, pySliceTo_length _ _ h0, hlen2]
          omega

theorem decodePairs_ok (train : List Int) (L : Nat) {items : List Int}
    (h : ∀ i ∈ items, 0 ≤ i ∧ i < (train.length * L : Nat)) :
    decodePairs train L items = .ok (items.map (fun i : Int => (train.getD (i / (L : Int)).toNat default, i % (L : Int)))) := by
  have hin : ∀ j ∈ items.map (fun i => i / (L : Int)), 0 ≤ j ∧ j < train.length := by
    intro j hj
    obtain ⟨i, hi, rfl⟩ := List.mem_map.1 hj
    obtain ⟨h0, h1⟩ := h i hi
    have hL : (0 : Int) < L := by
      rcases Nat.eq_zero_or_pos L with h' | h'
      · subst h'; simp at h1; omega
      · omega
    refine ⟨Int.ediv_nonneg h0 (by omega), Int.ediv_lt_of_lt_mul hL (by push_cast at h1; exact h1)⟩
  unfold decodePairs pick
  rw [pickAll_eq _ _ hin]
  simp only [List.map_map, Except.ok.injEq]
  clear hin h
  induction items with
  | nil => rfl
  | cons a l ih => simpa using ih

/-- The pairs of the labelled and the other positions partition the pairs of the training instances. -/
theorem pairRound_ok {train test : List Int} (htr : train.Nodup) {L : Nat} {lab : List Int} (hn : lab.Nodup)
    (h : ∀ i ∈ lab, 0 ≤ i ∧ i < (train.length * L : Nat)) :
    ∃ r, pairRound train test L lab = .ok r ∧ r.train = train ∧ r.test = test ∧ r.label.length = lab.length ∧
      Spec.PartitionOf r.label r.unlabel (Spec.IsPairOf train L) ∧ r.label.map Prod.snd = lab.map (fun i => i % (L : Int)) := by
  have hU : ∀ i ∈ (pyRange 0 ((train.length * L : Nat) : Int)).filter (fun i => decide (i ∉ lab)),
      0 ≤ i ∧ i < (train.length * L : Nat) := fun i hi => (mem_pyRange _ _ _).1 (List.mem_filter.1 hi).1
  have key : ∀ i j : Int, 0 ≤ i → i < (train.length * L : Nat) → 0 ≤ j → j < (train.length * L : Nat) →
      (train.getD (i / L).toNat default, i % (L : Int)) = (train.getD (j / L).toNat default, j % (L : Int)) → i = j := by
    intro i j hi0 hi hj0 hj he
    simp only [Prod.mk.injEq] at he
    have hL : (0 : Int) < L := by
      rcases Nat.eq_zero_or_pos L with h' | h'
      · subst h'; simp at hi; omega
      · omega
    have a1 : i / L < train.length := Int.ediv_lt_of_lt_mul hL (by push_cast at hi; exact hi)
    have a2 : j / L < train.length := Int.ediv_lt_of_lt_mul hL (by push_cast at hj; exact hj)
    have a3 : 0 ≤ i / (L : Int) := Int.ediv_nonneg hi0 (by omega)
    have a4 : 0 ≤ j / (L : Int) := Int.ediv_nonneg hj0 (by omega)
    have b1 : (i / (L : Int)).toNat < train.length := by omega
    have b2 : (j / (L : Int)).toNat < train.length := by omega
    have : (i / (L : Int)).toNat = (j / (L : Int)).toNat := by
      have := he.1
      simp only [List.getD, List.getElem?_eq_getElem b1, List.getElem?_eq_getElem b2, Option.getD_some] at this
      exact (htr.getElem_inj_iff).1 this
    have e1 : i / (L : Int) = j / L := by omega
    rw [← Int.mul_ediv_add_emod i L, ← Int.mul_ediv_add_emod j L, e1, he.2]
  refine ⟨⟨train, test, lab.map (fun i : Int => (train.getD (i / (L : Int)).toNat default, i % (L : Int))),
    ((pyRange 0 ((train.length * L : Nat) : Int)).filter (fun i => decide (i ∉ lab))).map
      (fun i : Int => (train.getD (i / (L : Int)).toNat default, i % (L : Int)))⟩,
    by simp only [pairRound, decodePairs_ok train L h, decodePairs_ok train L hU], rfl, rfl, by simp, ⟨?_, ?_, ?_, ?_⟩, ?_⟩
  · apply List.Nodup.map_on _ hn
    intro i hi j hj he
    exact key i j (h i hi).1 (h i hi).2 (h j hj).1 (h j hj).2 he
  · apply List.Nodup.map_on _ ((pyRange_nodup _ _).filter _)
    intro i hi j hj he
    exact key i j (hU i hi).1 (hU i hi).2 (hU j hj).1 (hU j hj).2 he
  · intro x hx hx'
    obtain ⟨i, hi, rfl⟩ := List.mem_map.1 hx
    obtain ⟨j, hj, he⟩ := List.mem_map.1 hx'
    have := key i j (h i hi).1 (h i hi).2 (hU j hj).1 (hU j hj).2 he.symm
    subst this
    simp at hj
    exact hj.2 hi
  · rintro ⟨a, j⟩
    have hmem : ∀ i : Int, 0 ≤ i → i < (train.length * L : Nat) →
        Spec.IsPairOf train L (train.getD (i / L).toNat default, i % (L : Int)) := by
      intro i hi0 hi
      have hL : (0 : Int) < L := by
        rcases Nat.eq_zero_or_pos L with h' | h'
        · subst h'; simp at hi; omega
        · omega
      have a1 : i / L < train.length := Int.ediv_lt_of_lt_mul hL (by push_cast at hi; exact hi)
      have a3 : 0 ≤ i / (L : Int) := Int.ediv_nonneg hi0 (by omega)
      have b1 : (i / (L : Int)).toNat < train.length := by omega
      refine ⟨?_, Int.emod_nonneg _ (by omega), Int.emod_lt_of_pos _ hL⟩
      simp only [List.getD, List.getElem?_eq_getElem b1, Option.getD_some]
      exact List.getElem_mem _
    constructor
    · rintro ⟨ha, hj0, hj⟩
      simp only at ha hj0 hj
      obtain ⟨p, hp, rfl⟩ := List.getElem_of_mem ha
      have hi0 : 0 ≤ (p : Int) * L + j := by positivity
      have hi : (p : Int) * L + j < (train.length * L : Nat) := by
        have : ((p : Int) + 1) * L ≤ (train.length : Int) * L := by
          apply Int.mul_le_mul_of_nonneg_right <;> omega
        push_cast
        rw [Int.add_mul] at this
        omega
      have e1 : ((p : Int) * L + j) / L = p := by
        rw [Int.add_comm, Int.add_mul_ediv_right _ _ (by omega), Int.ediv_eq_zero_of_lt hj0 hj]; omega
      have e2 : ((p : Int) * L + j) % L = j := by
        rw [Int.add_comm, Int.add_mul_emod_self_right, Int.emod_eq_of_lt hj0 hj]
      have heq : (train.getD (((p : Int) * L + j) / L).toNat default, ((p : Int) * L + j) % L) = (train[p], j) := by
        rw [e1, e2]; simp [hp]
      by_cases hl : (p : Int) * L + j ∈ lab
      · exact Or.inl (List.mem_map.2 ⟨_, hl, heq⟩)
      · refine Or.inr (List.mem_map.2 ⟨_, ?_, heq⟩)
        exact List.mem_filter.2 ⟨(mem_pyRange _ _ _).2 ⟨hi0, hi⟩, by simpa using hl⟩
    · rintro (hx | hx)
      · obtain ⟨i, hi, he⟩ := List.mem_map.1 hx
        rw [← he]; exact hmem i (h i hi).1 (h i hi).2
      · obtain ⟨i, hi, he⟩ := List.mem_map.1 hx
        rw [← he]; exact hmem i (hU i hi).1 (hU i hi).2
  · simp [List.map_map, Function.comp_def]

end Alipy
