import Verif.Proof.Split
import Mathlib.Tactic.NormNum
import Mathlib.Data.List.GetD
import Verif.Proof.MultiLabelTools

/-!
# Properties of the splits (C32 - C35)
-/
namespace Alipy

/-! ## C32 -/

/-- **C32**: in each round of `split` train and test partition the index set, labelled and unlabelled partition the training set; for
every ratio, mode, number of rounds and retries. -/
theorem C32_split_partition {names : List Int} (hn : names.Nodup) (y : Option YArr) (tr rate : ℚ) (ac : Bool) (shs : List (List Sh))
    (hs : ∀ l ∈ shs, ∀ sh ∈ l, Spec.IsShuffle sh) {rs : List (Round Int)} (h : split names y tr rate ac shs = some (.ok rs)) :
    rs.length = shs.length ∧ ∀ r ∈ rs, Spec.Partition r.train r.test names ∧ Spec.Partition r.label r.unlabel r.train := by
  have hf := runRounds_inv h
  refine ⟨hf.length_eq.symm, fun r hr => ?_⟩
  obtain ⟨l, hl, h1⟩ := forall₂_right hf r hr
  obtain ⟨sh, hsh, h2⟩ := splitRound_inv h1
  obtain ⟨p, _, e1, e2⟩ := randomRound_inv (hs l hl sh hsh) h2
  have ht : r.train.Nodup := (List.nodup_append.1 (p.nodup_iff.2 hn)).1
  refine ⟨partition_of_perm hn p, partition_of_perm ht ?_⟩
  rw [e1, e2, pySlice_append]

/-- **C32**: the sizes are the rounded ratios, with at least one labelled instance if there is a training instance. -/
theorem C32_split_sizes {names : List Int} (y : Option YArr) (tr rate : ℚ) (ac : Bool) (shs : List (List Sh))
    (hs : ∀ l ∈ shs, ∀ sh ∈ l, Spec.IsShuffle sh) (h0 : 0 ≤ tr) (h1 : tr ≤ 1) {rs : List (Round Int)}
    (h : split names y tr rate ac shs = some (.ok rs)) {t k : Int} (ht : Spec.IsRound ((1 - tr) * names.length) t)
    (hk : Spec.IsRound (rate * t) k) :
    ∀ r ∈ rs, (r.train.length : Int) = t ∧ (r.test.length : Int) = names.length - t ∧
      (r.label.length : Int) = min t (max 1 k) ∧ (r.unlabel.length : Int) = t - min t (max 1 k) := by
  have hf := runRounds_inv h
  intro r hr
  obtain ⟨l, hl, h1'⟩ := forall₂_right hf r hr
  obtain ⟨sh, hsh, h2⟩ := splitRound_inv h1'
  obtain ⟨p, hlen, e1, e2⟩ := randomRound_inv (hs l hl sh hsh) h2
  have htt := (hlen h0 h1).trans (isRound_unique (pyRound_isRound _) ht)
  have hsum : r.train.length + r.test.length = names.length := by
    have := p.length_eq; simpa using this
  have hk' : cutLabel rate r.train.length = max 1 k := by
    rw [cutLabel_eq]
    have : ((r.train.length : ℕ) : ℚ) = (t : ℚ) := by exact_mod_cast congrArg (fun z : Int => (z : ℚ)) htt
    rw [this, isRound_unique (pyRound_isRound _) hk]
  have hsum2 : r.label.length + r.unlabel.length = r.train.length := by
    rw [e1, e2, ← List.length_append, pySlice_append]
  have hll : (r.label.length : Int) = min t (max 1 k) := by
    rw [e1, pySliceTo_length _ _ (by have := one_le_cutLabel rate r.train.length; omega), hk']
    omega
  refine ⟨htt, by omega, hll, by omega⟩

/-- **C32**, the non-empty part: the labelled set is non-empty exactly if the training set is. -/
theorem C32_split_labelled_nonempty_partial {names : List Int} (y : Option YArr) (tr rate : ℚ) (ac : Bool) (shs : List (List Sh))
    (hs : ∀ l ∈ shs, ∀ sh ∈ l, Spec.IsShuffle sh) {rs : List (Round Int)} (h : split names y tr rate ac shs = some (.ok rs)) :
    ∀ r ∈ rs, r.label ≠ [] ↔ r.train ≠ [] := by
  have hf := runRounds_inv h
  intro r hr
  obtain ⟨l, hl, h1'⟩ := forall₂_right hf r hr
  obtain ⟨sh, hsh, h2⟩ := splitRound_inv h1'
  obtain ⟨p, hlen, e1, e2⟩ := randomRound_inv (hs l hl sh hsh) h2
  have := one_le_cutLabel rate r.train.length
  have hl := pySliceTo_length r.train (cutLabel rate r.train.length) (by omega)
  rw [← e1] at hl
  rw [ne_eq, ne_eq, ← List.length_eq_zero_iff, ← List.length_eq_zero_iff, hl]
  omega

/-- The labelled set is empty in every round if the rounded size of the training set is 0 (e.g. test ratio 1, or two instances with
ratio 3/4): nothing rejects such ratios. -/
theorem C32_empty_violation {names : List Int} (y : Option YArr) (tr rate : ℚ) (ac : Bool) (shs : List (List Sh))
    (hs : ∀ l ∈ shs, ∀ sh ∈ l, Spec.IsShuffle sh) (h0 : 0 ≤ tr) (h1 : tr ≤ 1) (hz : Spec.IsRound ((1 - tr) * names.length) 0)
    {rs : List (Round Int)} (h : split names y tr rate ac shs = some (.ok rs)) : ∀ r ∈ rs, r.label = [] := by
  intro r hr
  have := (C32_split_sizes y tr rate ac shs hs h0 h1 h hz (pyRound_isRound (rate * (0 : Int))) r hr).2.2.1
  have : r.label.length = 0 := by omega
  exact List.length_eq_zero_iff.1 this

/-- **C32**: without `all_class` (or without labels) `split` always returns, whatever the ratios. -/
theorem C32_split_returns (names : List Int) (y : Option YArr) (tr rate : ℚ) (ac : Bool) (hy : y = none ∨ ac = false)
    (shs : List (List Sh)) (hs : ∀ l ∈ shs, l ≠ [] ∧ ∀ sh ∈ l, Spec.IsShuffle sh) :
    ∃ rs, split names y tr rate ac shs = some (.ok rs) := by
  apply runRounds_ok
  intro l hl
  obtain ⟨hne, hsh⟩ := hs l hl
  cases l with
  | nil => exact absurd rfl hne
  | cons sh l =>
    obtain ⟨a, b, h1, _⟩ := cutTrain_ok sh (hsh sh (by simp)) names tr
    have hr : randomRound sh names tr rate = .ok ⟨a, b, pySliceTo a (cutLabel rate a.length), pySliceFrom a (cutLabel rate a.length)⟩ := by
      simp [randomRound, h1]
    refine ⟨⟨a, b, pySliceTo a (cutLabel rate a.length), pySliceFrom a (cutLabel rate a.length)⟩, ?_⟩
    have : splitRound names y tr rate ac (sh :: l) = some (randomRound sh names tr rate) := by
      unfold splitRound
      rcases hy with rfl | rfl
      · rfl
      · cases y <;> rfl
    rw [this, hr]

/-- Rounding used in the examples. -/
theorem numUnique_eq_card (l : List Int) : numUnique l = l.toFinset.card := by
  unfold numUnique
  rw [← List.toFinset_card_of_nodup (eraseDups_nodup l)]
  congr 1
  ext x
  simp

theorem pyRound_eq {q : ℚ} {r : Int} (h : Spec.IsRound q r) : pyRound q = r := isRound_unique (pyRound_isRound q) h

theorem pyRound_int (z : Int) : pyRound (z : ℚ) = z := pyRound_eq (by simp [Spec.IsRound])

theorem pyRound_natCast (z : Nat) : pyRound (z : ℚ) = z := by exact_mod_cast pyRound_int z

theorem isShuffle_id : Spec.IsShuffle (id : List Int → List Int) := fun _ => List.Perm.refl _
theorem isShuffle_reverse : Spec.IsShuffle (List.reverse : List Int → List Int) := fun l => List.reverse_perm l

example : split [10, 20, 30, 40] none (1/4) (1/2) false [[List.reverse]] =
    some (.ok [⟨[40, 30, 20], [10], [40, 30], [20]⟩]) := by
  have h1 : pyRound ((1 - 1/4) * ((4 : Nat) : ℚ)) = 3 := pyRound_eq (by norm_num [Spec.IsRound])
  have h2 : pyRound (1/2 * ((3 : Nat) : ℚ)) = 2 := pyRound_eq (by norm_num [Spec.IsRound])
  simp only [split, runRounds, splitRound, List.head?, Option.map, randomRound, cutTrain, List.length_cons, List.length_nil]
  have e : randperm List.reverse (.int (((0 + 1 + 1 + 1 + 1 : Nat) : Int) - 1)) .default = .ok [3, 2, 1, 0] := by decide
  rw [e]
  simp only [List.length_cons, List.length_nil, Nat.zero_add, Nat.reduceAdd]
  rw [h1]
  have e1 : pick [10, 20, 30, 40] (pySliceTo [3, 2, 1, 0] 3) = .ok [40, 30, 20] := by decide
  have e2 : pick [10, 20, 30, 40] (pySliceFrom [3, 2, 1, 0] 3) = .ok [10] := by decide
  rw [e1, e2]
  simp only [List.length_cons, List.length_nil, Nat.zero_add, Nat.reduceAdd, cutLabel, h2]
  decide

/-! ## C33 -/

theorem splitRound_covers {names : List Int} {y : YArr} {tr rate : ℚ} {shs : List Sh} {r : Round Int}
    (h : splitRound names (some y) tr rate true shs = some (.ok r)) : y.covers r.label = .ok true := by
  simp only [splitRound] at h
  split at h
  · exact absurd h (by simp)
  · obtain ⟨_, _, _, h2⟩ := coverLoop_inv h
    exact h2

theorem pyAt_mem {α : Type} {l : List α} {i : Int} {v : α} (h : pyAt l i = some v) : v ∈ l := by
  unfold pyAt at h
  split at h
  · exact List.mem_of_getElem? h
  · split at h
    · exact List.mem_of_getElem? h
    · exact absurd h (by simp)

/-- **C33**, default instance indexes, one label per instance: every class that occurs occurs in the labelled set of every round,
however many retries were needed. (Missing for the full statement: other instance indexes, see `C33_names_violation`.) -/
theorem C33_all_class_partial (ys : List Int) (tr rate : ℚ) (shs : List (List Sh))
    (hs : ∀ l ∈ shs, ∀ sh ∈ l, Spec.IsShuffle sh)
    {rs : List (Round Int)} (h : split (pyRange 0 ys.length) (some (.vec ys)) tr rate true shs = some (.ok rs)) :
    ∀ r ∈ rs, ∀ c ∈ ys, ∃ i : Nat, (i : Int) ∈ r.label ∧ ys[i]? = some c := by
  intro r hr c hc
  obtain ⟨l, hl, h1⟩ := forall₂_right (runRounds_inv h) r hr
  have hcov := splitRound_covers h1
  have hpart := (C32_split_partition (pyRange_nodup _ _) _ tr rate true shs hs h).2 r hr
  simp only [YArr.covers] at hcov
  cases hv : pyAtAll ys r.label with
  | error e => rw [hv] at hcov; simp [Except.map] at hcov
  | ok vs =>
    rw [hv] at hcov
    simp only [Except.map, Except.ok.injEq, decide_eq_true_eq] at hcov
    have hf := pyAtAll_inv hv
    have hsub : ∀ x ∈ vs, x ∈ ys := by
      intro x hx
      obtain ⟨i, _, hi⟩ := forall₂_right hf x hx
      exact pyAt_mem hi
    obtain ⟨i, hi, hic⟩ := forall₂_right hf c (numUnique_covers hsub hcov c hc)
    have hi' : i ∈ r.train := (hpart.2.2.2.2 i).2 (Or.inl hi)
    have hin := (hpart.1.2.2.2 i).2 (Or.inl hi')
    rw [mem_pyRange] at hin
    refine ⟨i.toNat, ?_, ?_⟩
    · rwa [show ((i.toNat : Nat) : Int) = i by omega]
    · simpa [pyAt, hin.1] using hic

/-- **C33**, default instance indexes, a label matrix without negative entries: every label has a positive example in the labelled
set. -/
theorem C33_all_class_matrix_partial (cols : Nat) (rows : List (List Int)) (hpos : ∀ r ∈ rows, ∀ x ∈ r, 0 ≤ x) (tr rate : ℚ)
    (shs : List (List Sh)) (hs : ∀ l ∈ shs, ∀ sh ∈ l, Spec.IsShuffle sh)
    {rs : List (Round Int)} (h : split (pyRange 0 rows.length) (some (.mat cols rows)) tr rate true shs = some (.ok rs)) :
    ∀ r ∈ rs, ∀ j < cols, ∃ i : Nat, (i : Int) ∈ r.label ∧ ∃ row, rows[i]? = some row ∧ 0 < row.getD j 0 := by
  intro r hr j hj
  obtain ⟨l, hl, h1⟩ := forall₂_right (runRounds_inv h) r hr
  have hcov := splitRound_covers h1
  have hpart := (C32_split_partition (pyRange_nodup _ _) _ tr rate true shs hs h).2 r hr
  simp only [YArr.covers] at hcov
  cases hv : pyAtAll rows r.label with
  | error e => rw [hv] at hcov; simp [Except.map] at hcov
  | ok vs =>
    rw [hv] at hcov
    simp only [Except.map, Except.ok.injEq, List.all_eq_true, decide_eq_true_eq] at hcov
    obtain ⟨row, hrow, hne⟩ := colSum_pos_of_ne (hcov j (List.mem_range.2 hj))
    obtain ⟨i, hi, hic⟩ := forall₂_right (pyAtAll_inv hv) row hrow
    have hi' : i ∈ r.train := (hpart.2.2.2.2 i).2 (Or.inl hi)
    have hin := (hpart.1.2.2.2 i).2 (Or.inl hi')
    rw [mem_pyRange] at hin
    refine ⟨i.toNat, ?_, row, ?_, ?_⟩
    · rwa [show ((i.toNat : Nat) : Int) = i by omega]
    · simpa [pyAt, hin.1] using hic
    · have : 0 ≤ row.getD j 0 := by
        by_cases hjl : j < row.length
        · rw [List.getD_eq_getElem _ _ hjl]; exact hpos row (pyAt_mem hic) _ (List.getElem_mem hjl)
        · rw [List.getD_eq_default _ _ (by omega)]
      omega

/-- The loop uses the instance indexes as positions of `y`. With indexes that are not positions (all at least `n`, e.g. database keys)
`split(all_class=True)` raises `IndexError` as soon as there is a training instance. -/
theorem C33_names_violation {names : List Int} (hbig : ∀ i ∈ names, (names.length : Int) ≤ i) (ys : List Int)
    (hy : ys.length = names.length) (tr rate : ℚ) (h0 : 0 ≤ tr) (h1 : tr ≤ 1) {t : Int}
    (ht : Spec.IsRound ((1 - tr) * names.length) t) (htp : 0 < t)
    {m : Int} (hm : Spec.IsRound ((1 - tr) * rate * names.length) m) (hok : (ys.toFinset.card : Int) ≤ m) (sh : Sh)
    (hs : Spec.IsShuffle sh) (l : List Sh) (shs : List (List Sh)) :
    split names (some (.vec ys)) tr rate true ((sh :: l) :: shs) = some (.error .indexError) := by
  rw [← numUnique_eq_card, ← pyRound_eq hm] at hok
  obtain ⟨a, b, hc, hp, hlen⟩ := cutTrain_ok sh hs names tr
  have hr : randomRound sh names tr rate = .ok ⟨a, b, pySliceTo a (cutLabel rate a.length), pySliceFrom a (cutLabel rate a.length)⟩ := by
    simp [randomRound, hc]
  have hla : (a.length : Int) = t := (hlen h0 h1).trans (isRound_unique (pyRound_isRound _) ht)
  have hcov : (YArr.vec ys).covers (pySliceTo a (cutLabel rate a.length)) = .error .indexError := by
    have h1c := one_le_cutLabel rate a.length
    have hl := pySliceTo_length a (cutLabel rate a.length) (by omega)
    cases hcs : pySliceTo a (cutLabel rate a.length) with
    | nil => rw [hcs] at hl; simp at hl; omega
    | cons x xs =>
      have hx : x ∈ names := hp.mem_iff.1 (List.mem_append.2 (Or.inl ((pySliceTo_sublist a _).subset (by rw [hcs]; simp))))
      have := hbig x hx
      have hnone : pyAt ys x = none := by
        rw [pyAt, if_pos (by omega)]
        exact List.getElem?_eq_none (by omega)
      simp [YArr.covers, pyAtAll, hnone, Except.map]
  have hsr : splitRound names (some (.vec ys)) tr rate true (sh :: l) = some (.error .indexError) := by
    simp only [splitRound]
    rw [if_neg (by simp only [YArr.labelNum]; omega)]
    simp only [coverLoop, hr, hcov]
  simp only [split, runRounds, hsr]

example : split [7, 8] (some (.vec [0, 1])) 0 1 true [[id]] = some (.error .indexError) :=
  C33_names_violation (names := [7, 8]) (by decide) [0, 1] rfl 0 1 (le_refl _) (by norm_num) (t := 2) (by norm_num [Spec.IsRound]) (by decide)
    (m := 2) (by norm_num [Spec.IsRound]) (by decide) id isShuffle_id [] []

theorem pyAtAll_some {α : Type} {l : List α} : ∀ {is : List Int}, (∀ i ∈ is, 0 ≤ i ∧ i < (l.length : Int)) → ∃ vs, pyAtAll l is = .ok vs ∧ List.Forall₂ (fun i v => l[i.toNat]? = some v) is vs
  | [], _ => ⟨[], rfl, .nil⟩
  | i :: is, h => by
    obtain ⟨vs, h1, h2⟩ := pyAtAll_some (fun j hj => h j (List.mem_cons_of_mem _ hj))
    obtain ⟨h0, hl⟩ := h i (by simp)
    have hx : l[i.toNat]? = some l[i.toNat] := List.getElem?_eq_getElem (by omega)
    refine ⟨l[i.toNat] :: vs, ?_, .cons hx h2⟩
    simp [pyAtAll, pyAt, h0, hx, h1, Except.map]

theorem forall₂_left' {α β : Type} {R : α → β → Prop} {l : List α} {m : List β} (h : List.Forall₂ R l m) : ∀ a ∈ l, ∃ b ∈ m, R a b := by
  induction h with
  | nil => simp
  | cons h1 _ ih =>
    intro a ha
    rcases List.mem_cons.1 ha with rfl | ha
    · exact ⟨_, by simp, h1⟩
    · obtain ⟨b, hb, hr⟩ := ih a ha
      exact ⟨b, List.mem_cons_of_mem _ hb, hr⟩

theorem randomRound_label {sh : Sh} (hs : Spec.IsShuffle sh) {names : List Int} {tr rate : ℚ} {r : Round Int} (hr : randomRound sh names tr rate = .ok r) : ∀ i ∈ r.label, i ∈ names := by
  obtain ⟨a, b, hc, hp, -⟩ := cutTrain_ok sh hs names tr
  simp only [randomRound, hc, Except.ok.injEq] at hr
  subst hr
  intro i hi
  exact hp.mem_iff.1 (List.mem_append.2 (Or.inl ((pySliceTo_sublist a _).subset hi)))

/-- The first shuffle is accepted exactly if its labelled set passes the test. -/
theorem first_shuffle {names : List Int} {y : YArr} {tr rate : ℚ} {m : Int} (hm : Spec.IsRound ((1 - tr) * rate * names.length) m) (hok : (y.labelNum : Int) ≤ m) {sh : Sh} {r : Round Int}
    (hr : randomRound sh names tr rate = .ok r) : split names (some y) tr rate true [[sh]] = some (.ok [r]) ↔ y.covers r.label = .ok true := by
  rw [← pyRound_eq hm] at hok
  simp only [split, runRounds, splitRound]
  rw [if_neg (by omega)]
  simp only [coverLoop, hr]
  cases y.covers r.label with
  | error e => simp
  | ok b => cases b <;> simp

/-- The labels are looked up at the numbers the instances are called by. If these are any numbers below the number of labels (a rearrangement of the positions, for instance), a shuffle is
accepted exactly if the labels at the places `i` contain all classes, for the `i` that are names of labelled instances: the labels of the instances themselves, at the places of
`i` in `names`, play no part. -/
theorem C33_permuted_names_violation {names ys : List Int} (hin : ∀ i ∈ names, 0 ≤ i ∧ i < (ys.length : Int)) {tr rate : ℚ} {m : Int} (hm : Spec.IsRound ((1 - tr) * rate * names.length) m)
    (hok : (ys.toFinset.card : Int) ≤ m) {sh : Sh} (hs : Spec.IsShuffle sh) {r : Round Int} (hr : randomRound sh names tr rate = .ok r) :
    split names (some (.vec ys)) tr rate true [[sh]] = some (.ok [r]) ↔ ∀ c ∈ ys, ∃ i ∈ r.label, ys[i.toNat]? = some c := by
  rw [first_shuffle hm (by rw [YArr.labelNum, numUnique_eq_card]; exact hok) hr]
  obtain ⟨vs, h1, h2⟩ := pyAtAll_some (l := ys) (fun i hi => hin i (randomRound_label hs hr i hi))
  simp only [YArr.covers, h1, Except.map, Except.ok.injEq, decide_eq_true_eq]
  have hsub : ∀ x ∈ vs, x ∈ ys := by
    intro x hx
    obtain ⟨i, -, hi⟩ := forall₂_right h2 x hx
    exact List.mem_of_getElem? hi
  constructor
  · intro h c hc
    obtain ⟨i, hi, hic⟩ := forall₂_right h2 c (numUnique_covers hsub h c hc)
    exact ⟨i, hi, hic⟩
  · intro h
    rw [numUnique_eq_card, numUnique_eq_card]
    congr 1
    ext c
    simp only [List.mem_toFinset]
    refine ⟨hsub c, fun hc => ?_⟩
    obtain ⟨i, hi, hic⟩ := h c hc
    obtain ⟨v, hv, hiv⟩ := forall₂_left' h2 i hi
    rw [hic] at hiv
    exact (Option.some.inj hiv) ▸ hv

/-- Here the labelled instances `0` and `1` are the second and third instance, both of class 7, and the only instance of class 5 is not labelled. -/
example : ∃ r, split [2, 0, 1] (some (.vec [5, 7, 7])) 0 (2/3) true [[(List.rotate · 1)]] = some (.ok [r]) ∧
    r.label = [0, 1] ∧ r.unlabel = [2] := by
  have e : randperm (List.rotate · 1) (.int (((3 : Nat) : Int) - 1)) .default = .ok [1, 2, 0] := by decide
  have h0 : pyRound ((1 - 0) * (2/3) * ((3 : Nat) : ℚ)) = 2 := pyRound_eq (by norm_num [Spec.IsRound])
  have h1 : pyRound ((1 - 0) * ((3 : Nat) : ℚ)) = 3 := pyRound_eq (by norm_num [Spec.IsRound])
  have h2 : pyRound (2/3 * ((3 : Nat) : ℚ)) = 2 := pyRound_eq (by norm_num [Spec.IsRound])
  refine ⟨⟨[0, 1, 2], [], [0, 1], [2]⟩, ?_, rfl, rfl⟩
  have e1 : pick [2, 0, 1] (pySliceTo [1, 2, 0] 3) = .ok [0, 1, 2] := by decide
  have e2 : pick [2, 0, 1] (pySliceFrom [1, 2, 0] 3) = .ok [] := by decide
  have hc : cutTrain (List.rotate · 1) [2, 0, 1] 0 = .ok ([0, 1, 2], []) := by
    simp only [cutTrain, List.length_cons, List.length_nil, Nat.zero_add, Nat.reduceAdd]
    rw [e]
    simp only [List.length_cons, List.length_nil, Nat.zero_add, Nat.reduceAdd]
    rw [h1, e1, e2]
  have hr : randomRound (List.rotate · 1) [2, 0, 1] 0 (2/3) = .ok ⟨[0, 1, 2], [], [0, 1], [2]⟩ := by
    simp only [randomRound, hc, List.length_cons, List.length_nil, Nat.zero_add, Nat.reduceAdd, cutLabel, h2]
    decide
  have hcov : (YArr.vec [5, 7, 7]).covers [0, 1] = .ok true := by decide
  have hn : (YArr.vec [5, 7, 7]).labelNum = 2 := by decide
  simp only [split, runRounds, splitRound, List.length_cons, List.length_nil, Nat.zero_add, Nat.reduceAdd, h0, hn, coverLoop, hr, hcov]
  rfl

theorem sum_signs : ∀ {l : List Int}, (∀ x ∈ l, x = 1 ∨ x = -1) → l.sum = (l.countP (· = 1) : Int) - (l.countP (· = -1) : Int)
  | [], _ => rfl
  | x :: l, h => by
    have ih := sum_signs (l := l) (fun y hy => h y (by simp [hy]))
    rcases h x (by simp) with rfl | rfl <;> simp [ih] <;> ring

/-- Negative entries count: with a label matrix in the `-1 / +1` convention a shuffle is accepted exactly if no label has as many positive as negative instances in the labelled set. So it
is accepted if a label has no positive instance there at all, and refused if half of the labelled instances are positive. -/
theorem C33_negative_violation {n c : Nat} {rows : List (List Int)} (hn : rows.length = n) (hc : ∀ row ∈ rows, row.length = c ∧ ∀ x ∈ row, x = 1 ∨ x = -1) {tr rate : ℚ} {m : Int}
    (hm : Spec.IsRound ((1 - tr) * rate * n) m) (hok : (c : Int) ≤ m) {sh : Sh} (hs : Spec.IsShuffle sh) {r : Round Int} (hr : randomRound sh (pyRange 0 n) tr rate = .ok r) :
    split (pyRange 0 n) (some (.mat c rows)) tr rate true [[sh]] = some (.ok [r]) ↔
      ∀ j < c, r.label.countP (fun i => (rows.getD i.toNat []).getD j 0 = 1) ≠ r.label.countP (fun i => (rows.getD i.toNat []).getD j 0 = -1) := by
  have hlen : ((pyRange 0 (n : Int)).length : ℚ) = n := by simp [pyRange_length]
  rw [first_shuffle (y := .mat c rows) (m := m) (by rw [hlen]; exact hm) hok hr]
  obtain ⟨vs, h1, h2⟩ := pyAtAll_some (l := rows) (is := r.label) (fun i hi => by
    have := (mem_pyRange _ _ _).1 (randomRound_label hs hr i hi)
    omega)
  simp only [YArr.covers, h1, Except.map, Except.ok.injEq, List.all_eq_true, List.mem_range, decide_eq_true_eq]
  have hvs : vs = r.label.map (fun i => rows.getD i.toNat []) := by
    have key : ∀ {is : List Int} {ws : List (List Int)}, List.Forall₂ (fun i v => rows[i.toNat]? = some v) is ws → ws = is.map (fun i => rows.getD i.toNat []) := by
      intro is ws h
      induction h with
      | nil => rfl
      | cons h _ ih => simp [ih, h]
    exact key h2
  refine forall_congr' fun j => forall_congr' fun hj => not_congr ?_
  have hsum := sum_signs (l := vs.map (fun row => row.getD j 0)) (by
    intro x hx
    obtain ⟨row, hrow, rfl⟩ := List.mem_map.1 hx
    obtain ⟨i, -, hi⟩ := forall₂_right h2 row hrow
    obtain ⟨hl, hx⟩ := hc row (List.mem_of_getElem? hi)
    have hjl : j < row.length := by omega
    apply hx
    simp [List.getD, List.getElem?_eq_getElem hjl])
  rw [colSum, hsum, hvs, List.map_map, List.countP_map, List.countP_map]
  simp only [Function.comp_def]
  omega

example : ∃ r, split (pyRange 0 2) (some (.mat 1 [[-1], [1]])) 0 (1/2) true [[id]] = some (.ok [r]) ∧
    r.label = [0] := by
  have e : randperm id (.int (((2 : Nat) : Int) - 1)) .default = .ok [0, 1] := by decide
  have h0 : pyRound ((1 - 0) * (1/2) * ((2 : Nat) : ℚ)) = 1 := pyRound_eq (by norm_num [Spec.IsRound])
  have h1 : pyRound ((1 - 0) * ((2 : Nat) : ℚ)) = 2 := pyRound_eq (by norm_num [Spec.IsRound])
  have h2 : pyRound (1/2 * ((2 : Nat) : ℚ)) = 1 := pyRound_eq (by norm_num [Spec.IsRound])
  refine ⟨⟨[0, 1], [], [0], [1]⟩, ?_, rfl⟩
  have en : pyRange 0 2 = [0, 1] := by decide
  have e1 : pick [0, 1] (pySliceTo [0, 1] 2) = .ok [0, 1] := by decide
  have e2 : pick [0, 1] (pySliceFrom [0, 1] 2) = .ok [] := by decide
  rw [en]
  have hc : cutTrain id [0, 1] 0 = .ok ([0, 1], []) := by
    simp only [cutTrain, List.length_cons, List.length_nil, Nat.zero_add, Nat.reduceAdd]
    rw [e]
    simp only [List.length_cons, List.length_nil, Nat.zero_add, Nat.reduceAdd]
    rw [h1, e1, e2]
  have hr : randomRound id [0, 1] 0 (1/2) = .ok ⟨[0, 1], [], [0], [1]⟩ := by
    simp only [randomRound, hc, List.length_cons, List.length_nil, Nat.zero_add, Nat.reduceAdd, cutLabel, h2]
    decide
  have hcov : (YArr.mat 1 [[-1], [1]]).covers [0] = .ok true := by decide
  have hn : (YArr.mat 1 [[-1], [1]]).labelNum = 1 := rfl
  simp only [split, runRounds, splitRound, List.length_cons, List.length_nil, Nat.zero_add, Nat.reduceAdd, h0, hn, coverLoop, hr, hcov]
  rfl

/-- `all_class` never returns on a label matrix with a column of zeros: whatever the shuffles, no round is accepted. -/
theorem C33_zero_column_endless (names : List Int) (cols : Nat) (rows : List (List Int)) (j : Nat) (hj : j < cols)
    (hz : ∀ r ∈ rows, r.getD j 0 = 0) (tr rate : ℚ) (shs : List (List Sh)) (hne : shs ≠ []) (rs : List (Round Int)) :
    split names (some (.mat cols rows)) tr rate true shs ≠ some (.ok rs) := by
  intro h
  have hf := runRounds_inv h
  cases hf with
  | nil => exact hne rfl
  | cons h1 _ =>
    have hcov := splitRound_covers h1
    rename_i r _ _ _
    simp only [YArr.covers] at hcov
    cases hv : pyAtAll rows r.label with
    | error e => rw [hv] at hcov; simp [Except.map] at hcov
    | ok vs =>
      rw [hv] at hcov
      simp only [Except.map, Except.ok.injEq, List.all_eq_true, decide_eq_true_eq] at hcov
      obtain ⟨row, hrow, hne'⟩ := colSum_pos_of_ne (hcov j (List.mem_range.2 hj))
      obtain ⟨i, _, hic⟩ := forall₂_right (pyAtAll_inv hv) row hrow
      exact hne' (hz row (pyAt_mem hic))

/-- The size test rounds the product of both rates once, the split rounds twice: if the labelled set has room for fewer instances
than there are classes, no shuffle is ever accepted, even where the test passes (see the example). -/
theorem C33_double_rounding_endless (names : List Int) (ys : List Int) (tr rate : ℚ) (h0 : 0 ≤ tr) (h1 : tr ≤ 1) {t k : Int}
    (ht : Spec.IsRound ((1 - tr) * names.length) t) (hk : Spec.IsRound (rate * t) k) (hlt : max 1 k < ys.toFinset.card)
    (shs : List (List Sh)) (hs : ∀ l ∈ shs, ∀ sh ∈ l, Spec.IsShuffle sh) (hne : shs ≠ []) (rs : List (Round Int)) :
    split names (some (.vec ys)) tr rate true shs ≠ some (.ok rs) := by
  rw [← numUnique_eq_card] at hlt
  intro h
  have hf := runRounds_inv h
  cases hf with
  | nil => exact hne rfl
  | cons h1' _ =>
    have hcov := splitRound_covers h1'
    rename_i r _ rs _
    have hsz := (C32_split_sizes _ tr rate true _ hs h0 h1 h ht hk r (by simp)).2.2.1
    simp only [YArr.covers] at hcov
    cases hv : pyAtAll ys r.label with
    | error e => rw [hv] at hcov; simp [Except.map] at hcov
    | ok vs =>
      rw [hv] at hcov
      simp only [Except.map, Except.ok.injEq, decide_eq_true_eq] at hcov
      have hl := (pyAtAll_inv hv).length_eq
      have := numUnique_le vs
      omega

/-- The size test passes (`round(0.85 * 0.75 * 4) = 3`) but only `round(0.75 * round(0.85 * 4)) = 2` instances are labelled. -/
example : (3 : Int) ≤ pyRound ((1 - 3/20) * (3/4) * ((4 : Nat) : ℚ)) ∧ ∀ (shs : List (List Sh)),
    (∀ l ∈ shs, ∀ sh ∈ l, Spec.IsShuffle sh) → shs ≠ [] → ∀ rs,
      split [0, 1, 2, 3] (some (.vec [0, 0, 1, 2])) (3/20) (3/4) true shs ≠ some (.ok rs) := by
  refine ⟨?_, fun shs hs hne rs => ?_⟩
  · rw [pyRound_eq (r := 3) (by norm_num [Spec.IsRound, abs_le])]
  · exact C33_double_rounding_endless [0, 1, 2, 3] [0, 0, 1, 2] (3/20) (3/4) (by norm_num) (by norm_num) (t := 3) (k := 2)
      (by norm_num [Spec.IsRound, abs_le, abs_of_nonneg]) (by norm_num [Spec.IsRound, abs_le, abs_of_nonneg]) (by decide) shs hs hne rs

/-! ## C34 -/

/-- The state of the retry loop: what one attempt with `k` positions leaves. -/
theorem pairLoop_inv {n L : Nat} {tr rate : ℚ} : ∀ {shs : List (Sh × Sh)} {cur : List Int × List Int × List Int} {r : Round (Int × Int)},
    pairLoop n L tr rate cur shs = some (.ok r) → (numLabels L cur.2.2 = L ∧ pairRound cur.1 cur.2.1 L cur.2.2 = .ok r) ∨
      (numLabels L cur.2.2 ≠ L ∧ ∃ sh ∈ shs, ∃ c, pairTry sh n L tr (fun t : Nat => pyRound (rate * t)) = .ok c ∧
        numLabels L c.2.2 = L ∧ pairRound c.1 c.2.1 L c.2.2 = .ok r)
  | [], cur, r, h => by
    simp only [pairLoop] at h
    split at h
    · rename_i hc; exact Or.inl ⟨hc, by simpa using h⟩
    · exact absurd h (by simp)
  | sh :: shs, cur, r, h => by
    simp only [pairLoop] at h
    split at h
    · rename_i hc; exact Or.inl ⟨hc, by simpa using h⟩
    · rename_i hc
      refine Or.inr ⟨hc, ?_⟩
      split at h
      · exact absurd h (by simp)
      · rename_i c ht
        rcases pairLoop_inv h with ⟨h1, h2⟩ | ⟨_, s, hs, c', h1, h2⟩
        · exact ⟨sh, by simp, c, ht, h1, h2⟩
        · exact ⟨s, List.mem_cons_of_mem _ hs, c', h1, h2⟩

/-- Every accepted round comes from one attempt: the first one with `round(rate * t * L)` positions or a later one with
`round(rate * t)`. -/
theorem pairSplitRound_inv {n L : Nat} {tr rate : ℚ} {ac : Bool} {shs : List (Sh × Sh)} {r : Round (Int × Int)}
    (h : pairSplitRound n L tr rate ac shs = some (.ok r)) : ∃ sh ∈ shs, ∃ k, ∃ c, pairTry sh n L tr k = .ok c ∧
      pairRound c.1 c.2.1 L c.2.2 = .ok r ∧ (ac = true → numLabels L c.2.2 = L) ∧
      (k = (fun t : Nat => pyRound (rate * (t * L : Nat))) ∨ (ac = true ∧ k = (fun t : Nat => pyRound (rate * t)))) := by
  cases shs with
  | nil => simp [pairSplitRound] at h
  | cons sh shs =>
    simp only [pairSplitRound] at h
    split at h
    · exact absurd h (by simp)
    · rename_i cur hcur
      split at h
      · rename_i hac
        split at h
        · exact absurd h (by simp)
        · rcases pairLoop_inv h with ⟨h1, h2⟩ | ⟨_, s, hs, c, h1, h2, h3⟩
          · exact ⟨sh, by simp, _, cur, hcur, h2, fun _ => h1, Or.inl rfl⟩
          · exact ⟨s, List.mem_cons_of_mem _ hs, _, c, h1, h3, fun _ => h2, Or.inr ⟨hac, rfl⟩⟩
      · rename_i hac
        exact ⟨sh, by simp, _, cur, hcur, by simpa using h, fun hc => absurd hc hac, Or.inl rfl⟩

/-- **C34**, `split_features`: train and test partition the instances, and the known and missing entries partition the entries of the
training instances. -/
theorem C34_features_partition (n L : Nat) (tr missing : ℚ) (all : Bool) (shs : List (List (Sh × Sh)))
    (hs : ∀ l ∈ shs, ∀ sh ∈ l, Spec.IsShuffle sh.1 ∧ Spec.IsShuffle sh.2) {rs : List (Round (Int × Int))}
    (h : splitFeatures n L tr missing all shs = some (.ok rs)) :
    rs.length = shs.length ∧ ∀ r ∈ rs, Spec.PartitionOf r.train r.test (fun i => 0 ≤ i ∧ i < n) ∧
      Spec.PartitionOf r.label r.unlabel (Spec.IsPairOf r.train L) := by
  have hf := runRounds_inv h
  refine ⟨hf.length_eq.symm, fun r hr => ?_⟩
  obtain ⟨l, hl, h1⟩ := forall₂_right hf r hr
  obtain ⟨sh, hsh, k, c, h2, h3, _, _⟩ := pairSplitRound_inv h1
  obtain ⟨hs1, hs2⟩ := hs l hl sh hsh
  obtain ⟨p, _, hn, hb, _⟩ := pairTry_inv hs1 hs2 h2
  have hpart := partition_of_perm (pyRange_nodup _ _) p
  obtain ⟨r', e1, e2, e3, _, e5, _⟩ := pairRound_ok (test := c.2.1) hpart.1 hn hb
  rw [e1] at h3
  cases h3
  rw [e2, e3]
  refine ⟨⟨hpart.1, hpart.2.1, hpart.2.2.1, fun x => ?_⟩, e5⟩
  rw [← hpart.2.2.2 x, mem_pyRange]

/-- **C34**, sizes of `split_features`: the requested fraction of the entries without `all_features`; with it, that or the much smaller
`round(rate * t)` (after a retry). -/
theorem C34_features_sizes_partial (n L : Nat) (tr missing : ℚ) (h0 : 0 ≤ tr) (h1 : tr ≤ 1) (hm : missing ≤ 1)
    (all : Bool) (shs : List (List (Sh × Sh)))
    (hs : ∀ l ∈ shs, ∀ sh ∈ l, Spec.IsShuffle sh.1 ∧ Spec.IsShuffle sh.2) {rs : List (Round (Int × Int))}
    (h : splitFeatures n L tr missing all shs = some (.ok rs)) {t : Int} (ht : Spec.IsRound ((1 - tr) * n) t) :
    ∀ r ∈ rs, (r.train.length : Int) = t ∧ (Spec.IsRound ((1 - missing) * (t * L)) r.label.length ∨
      (all = true ∧ Spec.IsRound ((1 - missing) * t) r.label.length)) := by
  intro r hr
  obtain ⟨l, hl, h1'⟩ := forall₂_right (runRounds_inv h) r hr
  obtain ⟨sh, hsh, k, c, h2, h3, _, h5⟩ := pairSplitRound_inv h1'
  obtain ⟨hs1, hs2⟩ := hs l hl sh hsh
  obtain ⟨p, hlen, hn, hb, hk⟩ := pairTry_inv hs1 hs2 h2
  have hpart := partition_of_perm (pyRange_nodup _ _) p
  obtain ⟨r', e1, e2, e3, e4, _, _⟩ := pairRound_ok (test := c.2.1) hpart.1 hn hb
  rw [e1] at h3
  cases h3
  have htt := (hlen h0 h1).trans (isRound_unique (pyRound_isRound _) ht)
  have hq : ((c.1.length : Nat) : ℚ) = (t : ℚ) := by exact_mod_cast congrArg (fun z : Int => (z : ℚ)) htt
  have htq : (0 : ℚ) ≤ t := by rw [← hq]; positivity
  have hm' : 0 ≤ 1 - missing := by linarith
  rw [e2, e4]
  refine ⟨htt, ?_⟩
  rcases h5 with h5 | ⟨hac, h5⟩
  · refine Or.inl ?_
    have hr := pyRound_isRound ((1 - missing) * (c.1.length * L : Nat))
    have := hk (by rw [h5]; exact pyRound_nonneg (by positivity))
    rw [h5] at this
    simp only at this
    rw [← this] at hr
    push_cast at hr ⊢
    rw [hq] at hr
    exact hr
  · refine Or.inr ⟨hac, ?_⟩
    have hr := pyRound_isRound ((1 - missing) * (c.1.length : Nat))
    have := hk (by rw [h5]; exact pyRound_nonneg (by positivity))
    rw [h5] at this
    simp only at this
    rw [← this] at hr
    push_cast at hr ⊢
    rw [hq] at hr
    exact hr

/-- If the number of different labels is `L`, every label occurs. -/
theorem numLabels_covers {L : Nat} {items : List Int} (h : numLabels L items = L) {j : Int} (hj0 : 0 ≤ j) (hj : j < L) :
    j ∈ items.map (fun i => i % (L : Int)) := by
  have hu : numUnique (items.map (fun i => i % (L : Int))) = numUnique (pyRange 0 L) := by
    have : numUnique (pyRange 0 (L : Int)) = L := by
      have h1 := numUnique_le (pyRange 0 (L : Int))
      have h2 : (pyRange 0 (L : Int)).Subperm (pyRange 0 (L : Int)).eraseDups :=
        (pyRange_nodup 0 (L : Int)).subperm (fun x hx => List.mem_eraseDups.2 hx)
      have h3 := h2.length_le
      have h4 : (pyRange 0 (L : Int)).length = L := by rw [pyRange_length]; omega
      unfold numUnique at h1 ⊢
      omega
    rw [this]
    exact h
  have hsub : ∀ x ∈ items.map (fun i => i % (L : Int)), x ∈ pyRange 0 (L : Int) := by
    intro x hx
    obtain ⟨i, _, rfl⟩ := List.mem_map.1 hx
    rw [mem_pyRange]
    exact ⟨Int.emod_nonneg _ (by omega), Int.emod_lt_of_pos _ (by omega)⟩
  exact numUnique_covers hsub hu j ((mem_pyRange _ _ _).2 ⟨hj0, hj⟩)

theorem retry_size (n L : Nat) (tr missing : ℚ) (h0 : 0 ≤ tr) (h1 : tr ≤ 1) (hm : missing ≤ 1)
    (sh : Sh × Sh) (l : List (Sh × Sh)) (hs : ∀ s ∈ sh :: l, Spec.IsShuffle s.1 ∧ Spec.IsShuffle s.2)
    {c : List Int × List Int × List Int} (hc : pairTry sh n L tr (fun t : Nat => pyRound ((1 - missing) * (t * L : Nat))) = .ok c)
    (hmiss : numLabels L c.2.2 ≠ L) {r : Round (Int × Int)} (h : splitFeatures n L tr missing true [sh :: l] = some (.ok [r]))
    {t : Int} (ht : Spec.IsRound ((1 - tr) * n) t) : Spec.IsRound ((1 - missing) * t) r.label.length := by
  have h' := runRounds_inv h
  cases h' with
  | cons hr _ =>
    simp only [pairSplitRound, hc] at hr
    simp only [if_true] at hr
    split at hr
    · exact absurd hr (by simp)
    · rcases pairLoop_inv hr with ⟨h1', _⟩ | ⟨_, s, hs', c', e1, _, e3⟩
      · exact absurd h1' hmiss
      · obtain ⟨hs1, hs2⟩ := hs s (List.mem_cons_of_mem _ hs')
        obtain ⟨p, hlen, hn, hb, hk⟩ := pairTry_inv hs1 hs2 e1
        have hpart := partition_of_perm (pyRange_nodup _ _) p
        obtain ⟨r', f1, _, _, f4, _, _⟩ := pairRound_ok (test := c'.2.1) hpart.1 hn hb
        rw [f1] at e3
        cases e3
        have htt := (hlen h0 h1).trans (isRound_unique (pyRound_isRound _) ht)
        have hq : ((c'.1.length : Nat) : ℚ) = (t : ℚ) := by exact_mod_cast congrArg (fun z : Int => (z : ℚ)) htt
        have htq : (0 : ℚ) ≤ t := by rw [← hq]; positivity
        have hm' : 0 ≤ 1 - missing := by linarith
        have hr := pyRound_isRound ((1 - missing) * (c'.1.length : Nat))
        have := hk (pyRound_nonneg (by positivity))
        rw [f4]
        rw [← this, hq] at hr
        exact hr

/-- If the first draw, the one `split_features` would return without `all_features`, misses a feature, then every round that is returned
with `all_features` has only `round(rate * t)` known entries instead of `round(rate * t * L)`. -/
theorem C34_retry_size_violation (n L : Nat) (tr missing : ℚ) (h0 : 0 ≤ tr) (h1 : tr ≤ 1) (hm : missing ≤ 1)
    (sh : Sh × Sh) (l : List (Sh × Sh)) (hs : ∀ s ∈ sh :: l, Spec.IsShuffle s.1 ∧ Spec.IsShuffle s.2)
    {first : Round (Int × Int)} (hfirst : splitFeatures n L tr missing false [[sh]] = some (.ok [first]))
    (hmiss : ∃ j : Int, 0 ≤ j ∧ j < L ∧ ∀ a, (a, j) ∉ first.label)
    {r : Round (Int × Int)} (h : splitFeatures n L tr missing true [sh :: l] = some (.ok [r]))
    {t : Int} (ht : Spec.IsRound ((1 - tr) * n) t) : Spec.IsRound ((1 - missing) * t) r.label.length := by
  obtain ⟨j, hj0, hj, hmiss⟩ := hmiss
  have hf := runRounds_inv hfirst
  cases hf with
  | cons hr _ =>
    simp only [pairSplitRound] at hr
    split at hr
    · exact absurd hr (by simp)
    · rename_i c hc
      simp only [Bool.false_eq_true, if_false, Option.some.injEq] at hr
      obtain ⟨hs1, hs2⟩ := hs sh (by simp)
      obtain ⟨p, _, hn, hb, _⟩ := pairTry_inv hs1 hs2 hc
      have hpart := partition_of_perm (pyRange_nodup _ _) p
      obtain ⟨r', e1, _, _, _, _, e6⟩ := pairRound_ok (test := c.2.1) hpart.1 hn hb
      rw [e1] at hr
      cases hr
      refine retry_size n L tr missing h0 h1 hm sh l hs hc ?_ h ht
      intro hL
      have := numLabels_covers hL hj0 hj
      rw [← e6] at this
      obtain ⟨⟨a, j'⟩, hp, rfl⟩ := List.mem_map.1 this
      exact hmiss a hp

/-- A case: the first draw takes four of the eight entries, all of the first feature; the second draw, which is returned, has two. -/
example : ∃ first r, splitFeatures 4 2 0 (1/2) false [[(id, fun l => l.filter (· % 2 == 0) ++ l.filter (! · % 2 == 0))]] = some (.ok [first]) ∧
    (∀ a, (a, 1) ∉ first.label) ∧ first.label.length = 4 ∧
    splitFeatures 4 2 0 (1/2) true [[(id, fun l => l.filter (· % 2 == 0) ++ l.filter (! · % 2 == 0)), (id, id)]] = some (.ok [r]) ∧
    r.label.length = 2 :=
  ⟨⟨[0, 1, 2, 3], [], [(0, 0), (1, 0), (2, 0), (3, 0)], [(0, 1), (1, 1), (2, 1), (3, 1)]⟩,
    ⟨[0, 1, 2, 3], [], [(0, 0), (0, 1)], [(1, 0), (1, 1), (2, 0), (2, 1), (3, 0), (3, 1)]⟩,
    by decide +kernel, by simp, rfl, by decide +kernel, rfl⟩

/-- **C34**, `all_features`: every feature is known for some training instance. -/
theorem C34_features_all (n L : Nat) (tr missing : ℚ) (shs : List (List (Sh × Sh)))
    (hs : ∀ l ∈ shs, ∀ sh ∈ l, Spec.IsShuffle sh.1 ∧ Spec.IsShuffle sh.2) {rs : List (Round (Int × Int))}
    (h : splitFeatures n L tr missing true shs = some (.ok rs)) :
    ∀ r ∈ rs, ∀ j : Int, 0 ≤ j → j < L → ∃ a ∈ r.train, (a, j) ∈ r.label := by
  intro r hr j hj0 hj
  obtain ⟨l, hl, h1'⟩ := forall₂_right (runRounds_inv h) r hr
  obtain ⟨sh, hsh, k, c, h2, h3, h4, _⟩ := pairSplitRound_inv h1'
  obtain ⟨hs1, hs2⟩ := hs l hl sh hsh
  obtain ⟨p, hlen, hn, hb, hk⟩ := pairTry_inv hs1 hs2 h2
  have hpart := partition_of_perm (pyRange_nodup _ _) p
  obtain ⟨r', e1, e2, e3, e4, e5, e6⟩ := pairRound_ok (test := c.2.1) hpart.1 hn hb
  rw [e1] at h3
  cases h3
  have hmem := numLabels_covers (h4 rfl) hj0 hj
  rw [← e6] at hmem
  obtain ⟨⟨a, j'⟩, hp, rfl⟩ := List.mem_map.1 hmem
  have := (e5.2.2.2 (a, j')).2 (Or.inl hp)
  rw [e2]
  exact ⟨a, this.1, hp⟩

theorem rowLoop_inv {n L : Nat} {rows : Option (List (List Int))} {tr rate : ℚ} : ∀ {shs : List Sh} {train test : List Int} {cut : Int}
    {r : Round Int}, rowLoop n L rows tr rate train test cut shs = some (.ok r) →
      (rowCheck L rows r.label = .ok true) ∧ r.label = pySliceTo r.train (if r.train = train ∧ r.test = test ∧
        r.label = pySliceTo train cut ∧ r.unlabel = pySliceFrom train cut then cut else pyRound (rate * r.train.length)) ∧
      r.label ++ r.unlabel = r.train ∧ ((r.train = train ∧ r.test = test) ∨ ∃ sh ∈ shs, cutTrain sh (pyRange 0 n) tr = .ok (r.train, r.test))
  | [], train, test, cut, r, h => by
    simp only [rowLoop] at h
    split at h
    · exact absurd h (by simp)
    · rename_i hc
      simp only [Option.some.injEq, Except.ok.injEq] at h
      subst h
      exact ⟨hc, by simp, pySlice_append _ _, Or.inl ⟨rfl, rfl⟩⟩
    · exact absurd h (by simp)
  | sh :: shs, train, test, cut, r, h => by
    simp only [rowLoop] at h
    split at h
    · exact absurd h (by simp)
    · rename_i hc
      simp only [Option.some.injEq, Except.ok.injEq] at h
      subst h
      exact ⟨hc, by simp, pySlice_append _ _, Or.inl ⟨rfl, rfl⟩⟩
    · split at h
      · exact absurd h (by simp)
      · rename_i train' test' hct
        obtain ⟨h1, h2, h3, h4⟩ := rowLoop_inv h
        refine ⟨h1, ?_, h3, Or.inr ?_⟩
        · split
          · rename_i hh; rw [hh.2.2.1, hh.1]
          · split at h2
            · rename_i hh; rw [hh.1] at h2 ⊢; exact h2
            · exact h2
        · rcases h4 with ⟨e1, e2⟩ | ⟨s, hs, hc⟩
          · exact ⟨sh, by simp, by rw [e1, e2]; exact hct⟩
          · exact ⟨s, List.mem_cons_of_mem _ hs, hc⟩

/-- What every round of `split_multi_label` looks like. -/
theorem rowSplitRound_inv {n L : Nat} {rows : Option (List (List Int))} {tr rate : ℚ} {ac : Bool} {shs : List Sh} {r : Round Int}
    (h : rowSplitRound n L rows tr rate ac shs = some (.ok r)) :
    (∃ sh ∈ shs, cutTrain sh (pyRange 0 n) tr = .ok (r.train, r.test)) ∧ r.label ++ r.unlabel = r.train ∧
      (ac = true → rowCheck L rows r.label = .ok true) ∧
      (r.label = pySliceTo r.train (cutLabel rate r.train.length) ∨ (ac = true ∧ r.label = pySliceTo r.train (pyRound (rate * r.train.length)))) := by
  cases shs with
  | nil => simp [rowSplitRound] at h
  | cons sh shs =>
    simp only [rowSplitRound] at h
    split at h
    · exact absurd h (by simp)
    · rename_i train test hct
      split at h
      · rename_i hac
        split at h
        · exact absurd h (by simp)
        · obtain ⟨h1, h2, h3, h4⟩ := rowLoop_inv h
          refine ⟨?_, h3, fun _ => h1, ?_⟩
          · rcases h4 with ⟨e1, e2⟩ | ⟨s, hs, hc⟩
            · exact ⟨sh, by simp, by rw [e1, e2]; exact hct⟩
            · exact ⟨s, List.mem_cons_of_mem _ hs, hc⟩
          · split at h2
            · rename_i hh; rw [← hh.1] at h2; exact Or.inl h2
            · exact Or.inr ⟨hac, h2⟩
      · rename_i hac
        simp only [Option.some.injEq, Except.ok.injEq] at h
        subst h
        exact ⟨⟨sh, by simp, hct⟩, pySlice_append _ _, fun hc => absurd hc hac, Or.inl rfl⟩

/-- **C34**, `split_multi_label`: train and test partition the instances, the fully labelled and the unlabelled instances partition the
training set. -/
theorem C34_multi_label_partition (n L : Nat) (rows : Option (List (List Int))) (tr rate : ℚ) (ac : Bool) (shs : List (List Sh))
    (hs : ∀ l ∈ shs, ∀ sh ∈ l, Spec.IsShuffle sh) {rs : List (Round Int)}
    (h : splitMultiLabel n L rows tr rate ac shs = some (.ok rs)) :
    rs.length = shs.length ∧ ∀ r ∈ rs, Spec.PartitionOf r.train r.test (fun i => 0 ≤ i ∧ i < n) ∧
      Spec.Partition r.label r.unlabel r.train := by
  have hf := runRounds_inv h
  refine ⟨hf.length_eq.symm, fun r hr => ?_⟩
  obtain ⟨l, hl, h1⟩ := forall₂_right hf r hr
  obtain ⟨⟨sh, hsh, hct⟩, h2, _, _⟩ := rowSplitRound_inv h1
  obtain ⟨p, _⟩ := cutTrain_inv (hs l hl sh hsh) hct
  have hpart := partition_of_perm (pyRange_nodup _ _) p
  refine ⟨⟨hpart.1, hpart.2.1, hpart.2.2.1, fun x => ?_⟩, partition_of_perm hpart.1 (by rw [h2])⟩
  rw [← hpart.2.2.2 x, mem_pyRange]

/-- **C34**, sizes of `split_multi_label`. -/
theorem C34_multi_label_sizes (n L : Nat) (rows : Option (List (List Int))) (tr rate : ℚ) (ac : Bool) (shs : List (List Sh))
    (hs : ∀ l ∈ shs, ∀ sh ∈ l, Spec.IsShuffle sh) (h0 : 0 ≤ tr) (h1 : tr ≤ 1) (hr0 : 0 ≤ rate) {rs : List (Round Int)}
    (h : splitMultiLabel n L rows tr rate ac shs = some (.ok rs)) {t k : Int} (ht : Spec.IsRound ((1 - tr) * n) t)
    (hk : Spec.IsRound (rate * t) k) :
    ∀ r ∈ rs, (r.train.length : Int) = t ∧ ((r.label.length : Int) = min t (max 1 k) ∨ (ac = true ∧ (r.label.length : Int) = min t k)) := by
  intro r hr
  obtain ⟨l, hl, h1'⟩ := forall₂_right (runRounds_inv h) r hr
  obtain ⟨⟨sh, hsh, hct⟩, h2, _, h4⟩ := rowSplitRound_inv h1'
  obtain ⟨p, hlen⟩ := cutTrain_inv (hs l hl sh hsh) hct
  have hl' : (pyRange 0 (n : Int)).length = n := by rw [pyRange_length]; omega
  simp only [hl'] at hlen
  have htt := (hlen h0 h1).trans (isRound_unique (pyRound_isRound _) ht)
  have hq : ((r.train.length : Nat) : ℚ) = (t : ℚ) := by exact_mod_cast congrArg (fun z : Int => (z : ℚ)) htt
  have hkk : pyRound (rate * (r.train.length : Nat)) = k := by rw [hq]; exact isRound_unique (pyRound_isRound _) hk
  have hk0 : 0 ≤ k := by rw [← hkk]; exact pyRound_nonneg (by positivity)
  refine ⟨htt, ?_⟩
  rcases h4 with h4 | ⟨hac, h4⟩
  · refine Or.inl ?_
    rw [h4, pySliceTo_length _ _ (by have := one_le_cutLabel rate r.train.length; omega), cutLabel_eq, hkk]
    omega
  · refine Or.inr ⟨hac, ?_⟩
    rw [h4, hkk, pySliceTo_length _ _ hk0]
    omega

/-- **C34**, `all_class` of `split_multi_label`: with labels that are not negative every label has a positive example among the labelled
instances. -/
theorem C34_multi_label_all (L : Nat) (rows : List (List Int)) (hpos : ∀ r ∈ rows, ∀ x ∈ r, 0 ≤ x) (tr rate : ℚ)
    (shs : List (List Sh)) (hs : ∀ l ∈ shs, ∀ sh ∈ l, Spec.IsShuffle sh)
    {rs : List (Round Int)} (h : splitMultiLabel rows.length L (some rows) tr rate true shs = some (.ok rs)) :
    ∀ r ∈ rs, ∀ j < L, ∃ i : Nat, (i : Int) ∈ r.label ∧ ∃ row, rows[i]? = some row ∧ 0 < row.getD j 0 := by
  intro r hr j hj
  obtain ⟨l, hl, h1⟩ := forall₂_right (runRounds_inv h) r hr
  have hcov := (rowSplitRound_inv h1).2.2.1 rfl
  have hpart := (C34_multi_label_partition _ _ _ tr rate true shs hs h).2 r hr
  simp only [rowCheck] at hcov
  cases hv : pyAtAll rows r.label with
  | error e => rw [hv] at hcov; simp [Except.map] at hcov
  | ok vs =>
    rw [hv] at hcov
    simp only [Except.map, Except.ok.injEq, List.all_eq_true, decide_eq_true_eq] at hcov
    obtain ⟨row, hrow, hne⟩ := colSum_pos_of_ne (hcov j (List.mem_range.2 hj))
    obtain ⟨i, hi, hic⟩ := forall₂_right (pyAtAll_inv hv) row hrow
    have hi' : i ∈ r.train := (hpart.2.2.2.2 i).2 (Or.inl hi)
    have hin := (hpart.1.2.2.2 i).2 (Or.inl hi')
    refine ⟨i.toNat, ?_, row, ?_, ?_⟩
    · rwa [show ((i.toNat : Nat) : Int) = i by omega]
    · simpa [pyAt, hin.1] using hic
    · have : 0 ≤ row.getD j 0 := by
        by_cases hjl : j < row.length
        · rw [List.getD_eq_getElem _ _ hjl]; exact hpos row (pyAt_mem hic) _ (List.getElem_mem hjl)
        · rw [List.getD_eq_default _ _ (by omega)]
      omega

/-- With only `label_shape` given, `all_class=True` (the default) never works: the loop subscripts the missing matrix. -/
theorem C34_shape_only_violation (n L : Nat) (tr rate : ℚ) (shs : List (List Sh))
    (hne : shs ≠ []) (rs : List (Round Int)) : splitMultiLabel n L none tr rate true shs ≠ some (.ok rs) := by
  intro h
  have hf := runRounds_inv h
  cases hf with
  | nil => exact hne rfl
  | cons h1 _ =>
    have := (rowSplitRound_inv h1).2.2.1 rfl
    simp [rowCheck] at this

/-- A feature split: two instances, one test, two features, half of the entries known. -/
example : splitFeatures 2 2 (1/2) (1/2) false [[(List.reverse, id)]] = some (.ok [⟨[1], [0], [(1, 0)], [(1, 1)]⟩]) := by
  have h1 : pyRound ((1 - 1/2) * ((2 : Nat) : ℚ)) = 1 := pyRound_eq (by norm_num [Spec.IsRound])
  have h2 : pyRound ((1 - 1/2) * ((1 * 2 : Nat) : ℚ)) = 1 := pyRound_eq (by norm_num [Spec.IsRound])
  have e : randperm List.reverse (.int (((2 : Nat) : Int) - 1)) .default = .ok [1, 0] := by decide
  have en : pyRange 0 ((2 : Nat) : Int) = [0, 1] := by decide
  have hc : cutTrain List.reverse [0, 1] (1/2) = .ok ([1], [0]) := by
    simp only [cutTrain, List.length_cons, List.length_nil, Nat.zero_add, Nat.reduceAdd]
    rw [e]
    simp only [List.length_cons, List.length_nil, Nat.zero_add, Nat.reduceAdd]
    rw [h1]
    decide
  have hp : pairTry (List.reverse, id) 2 2 (1/2) (fun t : Nat => pyRound ((1 - 1/2) * (t * 2 : Nat))) = .ok ([1], [0], [0]) := by
    simp only [pairTry, en, hc, List.length_cons, List.length_nil, Nat.zero_add]
    rw [h2]
    decide
  simp only [splitFeatures, runRounds, pairSplitRound, hp]
  decide

/-- A multi-label split: three instances, all training, two of them labelled. -/
example : splitMultiLabel 3 2 (some [[1, 0], [0, 1], [1, 1]]) 0 (2/3) true [[id]] = some (.ok [⟨[0, 1, 2], [], [0, 1], [2]⟩]) := by
  have h1 : pyRound ((1 - 0) * ((3 : Nat) : ℚ)) = 3 := pyRound_eq (by norm_num [Spec.IsRound])
  have h2 : pyRound (2/3 * ((3 : Nat) : ℚ)) = 2 := pyRound_eq (by norm_num [Spec.IsRound])
  have e : randperm id (.int (((3 : Nat) : Int) - 1)) .default = .ok [0, 1, 2] := by decide
  have en : pyRange 0 ((3 : Nat) : Int) = [0, 1, 2] := by decide
  have hc : cutTrain id [0, 1, 2] 0 = .ok ([0, 1, 2], []) := by
    simp only [cutTrain, List.length_cons, List.length_nil, Nat.zero_add, Nat.reduceAdd]
    rw [e]
    simp only [List.length_cons, List.length_nil, Nat.zero_add, Nat.reduceAdd]
    rw [h1]
    decide
  have hl : cutLabel (2/3) 3 = 2 := by rw [cutLabel_eq, h2]; decide
  simp only [splitMultiLabel, runRounds, rowSplitRound, en, hc, List.length_cons, List.length_nil, Nat.zero_add, Nat.reduceAdd, hl]
  have hrc : rowCheck 2 (some [[1, 0], [0, 1], [1, 1]]) (pySliceTo [0, 1, 2] 2) = .ok true := by decide
  simp only [rowLoop, hrc]
  decide

/-! ## C35 -/

/-- An array of indexes with at least two rounds and at least two indexes in each. -/
def Spec.FullMatrix (rows : List (List Int)) : Prop := 2 ≤ rows.length ∧ ∀ r ∈ rows, 2 ≤ r.length

theorem loadtxt_full {rows : List (List Int)} (h : Spec.FullMatrix rows) : loadtxt rows = .mat rows := by
  obtain ⟨h1, h2⟩ := h
  have hf : rows.filter (fun r => decide (r ≠ [])) = rows := by
    rw [List.filter_eq_self]
    intro r hr
    have := h2 r hr
    have : r ≠ [] := by intro hc; subst hc; simp at this
    simpa using this
  unfold loadtxt
  rw [hf]
  match rows, h1, h2 with
  | a :: b :: l, _, h2 =>
    have := h2 a (by simp)
    have hne : ¬ a.length = 1 := by omega
    simp [hne]

/-- **C35**, matrices with at least two rounds and two indexes per set: `split_load` returns what `split_save` wrote. (Missing: smaller
splits and multi-label splits, for which it is false, see below.) -/
theorem C35_save_load_partial (d : IDir) {a b c e : List (List Int)} (ha : Spec.FullMatrix a) (hb : Spec.FullMatrix b)
    (hc : Spec.FullMatrix c) (he : Spec.FullMatrix e) :
    splitLoad (splitSave d (.mat a) (.mat b) (.mat c) (.mat e)) = (some (.mat a), some (.mat b), some (.mat c), some (.mat e)) := by
  simp [splitLoad, splitLoadOne, splitSave, dictGet_dictSet, IArr.rows, loadtxt_full, ha, hb, hc, he]

example : Spec.FullMatrix [[0, 1], [2, 0]] := by unfold Spec.FullMatrix; decide

/-- A split with a single round comes back one-dimensional: the rounds axis is lost. -/
theorem C35_one_round_violation (d : IDir) {a b c e : List Int} (ha : 2 ≤ a.length) (hb : 2 ≤ b.length)
    (hc : 2 ≤ c.length) (he : 2 ≤ e.length) :
    splitLoad (splitSave d (.mat [a]) (.mat [b]) (.mat [c]) (.mat [e])) = (some (.vec a), some (.vec b), some (.vec c), some (.vec e)) := by
  have key : ∀ l : List Int, 2 ≤ l.length → loadtxt [l] = .vec l := by
    intro l hl
    match l, hl with
    | x :: y :: l, _ => simp [loadtxt]
  simp [splitLoad, splitLoadOne, splitSave, dictGet_dictSet, IArr.rows, key, ha, hb, hc, he]

/-- With one labelled instance per round (a common start) the labelled sets come back as one vector. -/
theorem C35_single_label_violation (d : IDir) (a b e : List (List Int)) {xs : List Int} (hx : 2 ≤ xs.length) :
    (splitLoad (splitSave d (.mat a) (.mat b) (.mat (xs.map (fun x => [x]))) (.mat e))).2.2.1 = some (.vec xs) := by
  have key : loadtxt (xs.map (fun x => [x])) = .vec xs := by
    match xs, hx with
    | x :: y :: l, _ =>
      have hf : ((x :: y :: l).map (fun x => [x])).filter (fun r => decide (r ≠ [])) = (x :: y :: l).map (fun x => [x]) := by
        rw [List.filter_eq_self]; simp
      unfold loadtxt
      rw [hf]
      have : ∀ l : List Int, (l.map (fun x => [x])).flatten = l := by
        intro l; induction l with
        | nil => rfl
        | cons z l ih => simpa using ih
      simp [this]
  simp [splitLoad, splitLoadOne, splitSave, dictGet_dictSet, IArr.rows, key]

/-- A multi-label split is never found again: in a fresh directory the labelled and unlabelled sets come back as `None`. -/
theorem C35_multi_label_violation (a b : List (List Int)) (c e : List (List (List Int))) :
    (splitLoad (splitSave [] (.mat a) (.mat b) (.cube c) (.cube e))).2.2 = (none, none) := by
  simp [splitLoad, splitLoadOne, splitSave, IArr.rows, dictSet, dictGet]

/-- In a directory with an older single-label split the labelled sets of *that* split come back, next to the new training sets. -/
theorem C35_stale_violation (d : IDir) (a b a' b' c' e' : List (List Int)) (c e : List (List (List Int)))
    (hc' : Spec.FullMatrix c') (he' : Spec.FullMatrix e') (ha : Spec.FullMatrix a) :
    splitLoad (splitSave (splitSave d (.mat a') (.mat b') (.mat c') (.mat e')) (.mat a) (.mat b) (.cube c) (.cube e)) =
      (some (.mat a), some (loadtxt b), some (.mat c'), some (.mat e')) := by
  simp [splitLoad, splitLoadOne, splitSave, dictGet_dictSet, IArr.rows, loadtxt_full, hc', he', ha]

end Alipy
