import Verif.Model.Split
import Verif.Spec.Ends
import Verif.Spec.Fair
import Verif.Props.Fair
import Verif.Props.Split
/-!
# C136: splits that ask for all classes end
-/
set_option linter.unusedSectionVars false
set_option linter.unusedSimpArgs false
namespace Alipy.Ends
open Alipy

/-! ## Drawing until content -/

theorem card_left {α : Type} {P : List α → Prop} {bad : α → Prop} (h : ∀ l, ¬ P l ↔ ∀ a ∈ l, bad a) (m : Nat) :
    Nat.card {s : Fin m → α // ¬ P (List.ofFn s)} = Nat.card {a // bad a} ^ m := by
  have e : {s : Fin m → α // ¬ P (List.ofFn s)} ≃ (Fin m → {a // bad a}) :=
    (Equiv.subtypeEquivRight (fun s => by rw [h, List.forall_mem_ofFn_iff])).trans (Equiv.subtypePiEquivPi (p := fun _ a => bad a))
  rw [Nat.card_congr e, Nat.card_fun, Nat.card_fin]

theorem fraction_left {α : Type} {P : List α → Prop} {bad : α → Prop} (h : ∀ l, ¬ P l ↔ ∀ a ∈ l, bad a) (m : Nat) :
    Spec.fractionLeft P m = ((Nat.card {a // bad a} : ℝ) / (Nat.card α : ℝ)) ^ m := by
  unfold Spec.fractionLeft
  rw [card_left h, Nat.card_fun, Nat.card_fin, Nat.cast_pow, Nat.cast_pow, div_pow]

theorem bad_lt {α : Type} [Finite α] {bad : α → Prop} (hg : ∃ a, ¬ bad a) : (Nat.card {a // bad a} : ℝ) / (Nat.card α : ℝ) < 1 := by
  obtain ⟨a, ha⟩ := hg
  have hpos : 0 < Nat.card α := Nat.card_pos_iff.2 ⟨⟨a⟩, inferInstance⟩
  rw [div_lt_one (by exact_mod_cast hpos)]
  have : Nat.card {a // bad a} < Nat.card α := by
    apply Finite.card_subtype_lt ha
  exact_mod_cast this

theorem surely {α : Type} [Finite α] {P : List α → Prop} {bad : α → Prop} (h : ∀ l, ¬ P l ↔ ∀ a ∈ l, bad a) (hg : ∃ a, ¬ bad a) :
    Spec.SurelyReturns P := by
  have : Spec.fractionLeft P = fun m => ((Nat.card {a // bad a} : ℝ) / (Nat.card α : ℝ)) ^ m := funext (fraction_left h)
  unfold Spec.SurelyReturns
  rw [this]
  exact tendsto_pow_atTop_nhds_zero_of_lt_one (by positivity) (bad_lt hg)

/-- The same, with a first draw that is treated in another way. -/
theorem surely_first {α : Type} [Finite α] {P : List α → Prop} {bad : α → Prop} (h : ∀ a l, ¬ P (a :: l) → ∀ x ∈ l, bad x)
    (hg : ∃ a, ¬ bad a) : Spec.SurelyReturns P := by
  have hpos : 0 < Nat.card α := by
    obtain ⟨a, _⟩ := hg
    exact Nat.card_pos_iff.2 ⟨⟨a⟩, inferInstance⟩
  unfold Spec.SurelyReturns
  rw [← Filter.tendsto_add_atTop_iff_nat 1]
  refine squeeze_zero (g := fun m => ((Nat.card {a // bad a} : ℝ) / (Nat.card α : ℝ)) ^ m) (fun m => ?_) (fun m => ?_)
    (tendsto_pow_atTop_nhds_zero_of_lt_one (by positivity) (bad_lt hg))
  · unfold Spec.fractionLeft
    positivity
  · unfold Spec.fractionLeft
    have hc : Nat.card {s : Fin (m + 1) → α // ¬ P (List.ofFn s)} ≤ Nat.card α * Nat.card {a // bad a} ^ m := by
      have e : Nat.card (α × (Fin m → {a // bad a})) = Nat.card α * Nat.card {a // bad a} ^ m := by
        rw [Nat.card_prod, Nat.card_fun, Nat.card_fin]
      rw [← e]
      have hb : ∀ s : {s : Fin (m + 1) → α // ¬ P (List.ofFn s)}, ∀ i : Fin m, bad (s.1 i.succ) := by
        intro s i
        have h1 := s.2
        rw [List.ofFn_succ] at h1
        exact h _ _ h1 _ (List.mem_ofFn.2 ⟨i, rfl⟩)
      refine Nat.card_le_card_of_injective (fun s => (s.1 0, fun i => ⟨s.1 i.succ, hb s i⟩)) ?_
      intro s s' hs
      simp only [Prod.mk.injEq] at hs
      apply Subtype.ext
      funext i
      refine Fin.cases hs.1 (fun j => ?_) i
      have := congrFun hs.2 j
      simpa using this
    rw [Nat.card_fun, Nat.card_fin, Nat.cast_pow, div_pow, pow_succ']
    rw [div_le_div_iff₀ (by positivity) (by positivity)]
    have hc' : (Nat.card {s : Fin (m + 1) → α // ¬ P (List.ofFn s)} : ℝ) ≤ Nat.card α * (Nat.card {a // bad a} : ℝ) ^ m := by exact_mod_cast hc
    calc _ ≤ (Nat.card α * (Nat.card {a // bad a} : ℝ) ^ m) * (Nat.card α : ℝ) ^ m := by gcongr
      _ = _ := by ring

/-! ## `split` -/

/-- A split of one round that asks for all classes returned something with the given shuffles. -/
def Returned (names : List Int) (y : YArr) (t rate : ℚ) (l : List (Equiv.Perm (Fin names.length))) : Prop :=
  ∃ rs, split names (some y) t rate true [l.map Spec.shuffleBy] = some (.ok rs)

theorem returned_iff {names : List Int} {y : YArr} {t rate : ℚ} (hc : (y.labelNum : Int) ≤ pyRound ((1 - t) * rate * names.length))
    (l : List (Equiv.Perm (Fin names.length))) :
    Returned names y t rate l ↔ ∃ r, coverLoop names y t rate (l.map Spec.shuffleBy) = some (.ok r) := by
  unfold Returned Alipy.split
  simp only [runRounds, splitRound]
  rw [if_neg (by omega)]
  constructor
  · rintro ⟨rs, h⟩
    cases hl : coverLoop names y t rate (l.map Spec.shuffleBy) with
    | none => rw [hl] at h; cases h
    | some x =>
      cases x with
      | error e => rw [hl] at h; cases h
      | ok r => exact ⟨r, rfl⟩
  · rintro ⟨r, h⟩
    exact ⟨[r], by rw [h]⟩

/-- The labels of the instances can be looked up. -/
theorem covers_ok (y : YArr) (m : Nat) (hy : match y with | .vec ys => ys.length = m | .mat _ rows => rows.length = m) {L : List Int}
    (hL : ∀ x ∈ L, 0 ≤ x ∧ x < m) : ∃ b, y.covers L = .ok b := by
  have key : ∀ {β : Type} (l : List β), l.length = m → ∃ vs, pyAtAll l L = .ok vs := by
    intro β l hl
    induction L with
    | nil => exact ⟨[], rfl⟩
    | cons x L ih =>
      obtain ⟨vs, hv⟩ := ih (fun x hx => hL x (List.mem_cons_of_mem _ hx))
      obtain ⟨h0, h1⟩ := hL x (by simp)
      have hx : pyAt l x = some (l[x.toNat]'(by omega)) := by
        unfold pyAt
        rw [if_pos h0]
        exact List.getElem?_eq_getElem _
      exact ⟨_, by simp only [pyAtAll, hx, hv, Except.map]; rfl⟩
  cases y with
  | vec ys =>
    obtain ⟨vs, hv⟩ := key ys hy
    exact ⟨_, by simp only [YArr.covers, hv, Except.map]; rfl⟩
  | mat c rows =>
    obtain ⟨vs, hv⟩ := key rows hy
    exact ⟨_, by simp only [YArr.covers, hv, Except.map]; rfl⟩

/-- A draw that is not accepted. -/
def Bad (names : List Int) (y : YArr) (t rate : ℚ) (σ : Equiv.Perm (Fin names.length)) : Prop :=
  ¬ ∃ r, randomRound (Spec.shuffleBy σ) names t rate = .ok r ∧ y.covers r.label = .ok true

theorem coverLoop_left {names : List Int} {y : YArr} {t rate : ℚ}
    (hok : ∀ σ : Equiv.Perm (Fin names.length), ∃ r, randomRound (Spec.shuffleBy σ) names t rate = .ok r ∧ ∃ b, y.covers r.label = .ok b)
    (l : List (Equiv.Perm (Fin names.length))) :
    (¬ ∃ r, coverLoop names y t rate (l.map Spec.shuffleBy) = some (.ok r)) ↔ ∀ σ ∈ l, Bad names y t rate σ := by
  induction l with
  | nil => simp [coverLoop]
  | cons σ l ih =>
    obtain ⟨r, hr, b, hb⟩ := hok σ
    rw [List.forall_mem_cons, ← ih, List.map_cons]
    simp only [coverLoop, hr, hb]
    cases b with
    | true =>
      have : ¬ Bad names y t rate σ := fun h => h ⟨r, hr, hb⟩
      simp [this]
    | false =>
      have : Bad names y t rate σ := by
        rintro ⟨r', h1, h2⟩
        rw [hr] at h1
        cases h1
        rw [hb] at h2
        cases h2
      simp [this]

/-- Two arrangements of the same items. -/
theorem exists_shuffled {β : Type} [DecidableEq β] {l S : List β} (h : S.Perm l) : ∃ σ : Equiv.Perm (Fin l.length), Fair.shuffled l σ = S := by
  have hl : S.length = l.length := h.length_eq
  have hg : ∀ g : β, Nonempty ({i : Fin l.length // S.get (Fin.cast hl.symm i) = g} ≃ {i : Fin l.length // l.get i = g}) := by
    intro g
    refine ⟨Fintype.equivOfCardEq ?_⟩
    have h1 := Fair.countP_list (fun x => decide (x = g)) S
    have h2 := Fair.countP_list (fun x => decide (x = g)) l
    rw [h.countP_eq, h2] at h1
    have a : Fintype.card {i : Fin l.length // l.get i = g} = Fintype.card {i : Fin l.length // decide (l.get i = g) = true} :=
      Fintype.card_congr (Equiv.subtypeEquivRight (fun i => by simp))
    have b : Fintype.card {i : Fin l.length // S.get (Fin.cast hl.symm i) = g} = Fintype.card {i : Fin S.length // decide (S.get i = g) = true} :=
      Fintype.card_congr ((finCongr hl.symm).subtypeEquiv (fun i => by simp))
    rw [a, b, h1]
  let e := fun g => (hg g).some
  refine ⟨Equiv.ofFiberEquiv e, ?_⟩
  unfold Fair.shuffled
  have : (fun i => l.get (Equiv.ofFiberEquiv e i)) = fun i => S.get (Fin.cast hl.symm i) := funext (fun i => Equiv.ofFiberEquiv_map e i)
  rw [this]
  apply List.ext_get
  · simp [hl]
  · intro i h1 h2
    simp

/-- The number of instances that are labelled at first. -/
theorem label_length {names : List Int} {t rate : ℚ} (h0 : 0 ≤ t) (h1 : t ≤ 1) {T K : Int}
    (hT : Spec.IsRound ((1 - t) * names.length) T) (hK : Spec.IsRound (rate * T) K) {sh : Sh} (hs : Spec.IsShuffle sh) {r : Round Int}
    (h : randomRound sh names t rate = .ok r) : (r.label.length : Int) = min T (max 1 K) := by
  obtain ⟨_, h2, h3, _⟩ := randomRound_inv hs h
  have h4 := h2 h0 h1
  rw [pyRound_eq hT] at h4
  have h5 := one_le_cutLabel rate r.train.length
  rw [h3, pySliceTo_length _ _ (by omega)]
  rw [cutLabel_eq] at h5 ⊢
  have : pyRound (rate * (r.train.length : ℚ)) = K := by
    have e : ((r.train.length : Int) : ℚ) = (T : ℚ) := by rw [h4]
    rw [Int.cast_natCast] at e
    rw [e]
    exact pyRound_eq hK
  rw [this] at h5 ⊢
  omega

theorem isShuffle_by {n : Nat} (σ : Equiv.Perm (Fin n)) : Spec.IsShuffle (Spec.shuffleBy (β := Int) σ) := by
  intro l
  unfold Spec.shuffleBy
  split
  · rename_i h
    subst h
    exact Fair.shuffled_perm l σ
  · exact List.Perm.refl _

/-- Any set of instances of the right size can be the labelled one. -/
theorem label_any {names : List Int} {t rate : ℚ} (h0 : 0 ≤ t) (h1 : t ≤ 1) {T K : Int}
    (hT : Spec.IsRound ((1 - t) * names.length) T) (hK : Spec.IsRound (rate * T) K) {S : List Int} (hS : S.Subperm names)
    (hl : (S.length : Int) = min T (max 1 K)) :
    ∃ σ : Equiv.Perm (Fin names.length), ∃ r, randomRound (Spec.shuffleBy σ) names t rate = .ok r ∧ r.label = S := by
  obtain ⟨k, j, hs⟩ := Fair.round_shape names t rate
  obtain ⟨S', hS', hsub⟩ := hS
  obtain ⟨rest, hrest'⟩ := hsub.exists_perm_append
  have hrest : names.Perm (S ++ rest) := hrest'.trans (hS'.append_right rest)
  obtain ⟨σ, hσ⟩ := exists_shuffled (l := names) (S := S ++ rest) hrest.symm
  refine ⟨σ, _, hs σ, ?_⟩
  have h2 := label_length h0 h1 hT hK (isShuffle_by σ) (hs σ)
  simp only at h2 ⊢
  rw [hσ, List.take_take] at h2 ⊢
  rw [← hl] at h2
  have h3 : (List.take (min j k) (S ++ rest)).length = S.length := by exact_mod_cast h2
  have hp : List.take (min j k) (S ++ rest) <+: S ++ rest := List.take_prefix _ _
  exact List.IsPrefix.eq_of_length (List.prefix_of_prefix_length_le hp (List.prefix_append S rest) h3.le) h3

/-- **C136**: if some choice of instances of the right size has all classes, `split(all_class=True)` returns with probability one;
`names` may be any positions of the labels. -/
theorem C136_possible {names : List Int} {y : YArr} {m : Nat} (hy : match y with | .vec ys => ys.length = m | .mat _ rows => rows.length = m)
    (hn : ∀ x ∈ names, 0 ≤ x ∧ x < m) {t rate : ℚ} (h0 : 0 ≤ t) (h1 : t ≤ 1) {T K : Int} (hT : Spec.IsRound ((1 - t) * names.length) T)
    (hK : Spec.IsRound (rate * T) K) (hc : (y.labelNum : Int) ≤ pyRound ((1 - t) * rate * names.length)) {S : List Int} (hS : S.Subperm names)
    (hl : (S.length : Int) = min T (max 1 K)) (hcov : y.covers S = .ok true) : Spec.SurelyReturns (Returned names y t rate) := by
  have hok : ∀ σ : Equiv.Perm (Fin names.length), ∃ r, randomRound (Spec.shuffleBy σ) names t rate = .ok r ∧ ∃ b, y.covers r.label = .ok b := by
    intro σ
    obtain ⟨k, j, hs⟩ := Fair.round_shape names t rate
    refine ⟨_, hs σ, covers_ok y m hy (fun x hx => hn x ?_)⟩
    exact (Fair.shuffled_perm names σ).mem_iff.1 (List.take_subset _ _ (List.take_subset _ _ hx))
  refine surely (bad := Bad names y t rate) (fun l => ?_) ?_
  · rw [returned_iff hc, coverLoop_left hok]
  · obtain ⟨σ, r, hr, hrl⟩ := label_any h0 h1 hT hK hS hl
    exact ⟨σ, fun h => h ⟨r, hr, by rw [hrl]; exact hcov⟩⟩

/-! ### One label per instance -/

theorem pyAtAll_ok {β : Type} (l : List β) : ∀ {L : List Int}, (∀ x ∈ L, 0 ≤ x ∧ x < l.length) → ∃ vs, pyAtAll l L = .ok vs ∧
    (∀ v, v ∈ vs ↔ ∃ x ∈ L, l[x.toNat]? = some v)
  | [], _ => ⟨[], rfl, by simp⟩
  | x :: L, hL => by
    obtain ⟨vs, hv, hm⟩ := pyAtAll_ok l (L := L) (fun x hx => hL x (List.mem_cons_of_mem _ hx))
    obtain ⟨h0, h1⟩ := hL x (by simp)
    have hlt : x.toNat < l.length := by omega
    have hx : pyAt l x = some (l[x.toNat]'hlt) := by
      unfold pyAt
      rw [if_pos h0]
      exact List.getElem?_eq_getElem _
    refine ⟨_, by simp only [pyAtAll, hx, hv, Except.map]; rfl, fun v => ?_⟩
    rw [List.mem_cons, hm]
    constructor
    · rintro (rfl | ⟨x', h, h'⟩)
      · exact ⟨x, by simp, List.getElem?_eq_getElem hlt⟩
      · exact ⟨x', List.mem_cons_of_mem _ h, h'⟩
    · rintro ⟨x', h, h'⟩
      rcases List.mem_cons.1 h with rfl | h
      · rw [List.getElem?_eq_getElem hlt] at h'
        cases h'
        exact Or.inl rfl
      · exact Or.inr ⟨x', h, h'⟩

/-- Instances can be added until there are enough. -/
theorem extend {names S : List Int} (hS : S.Subperm names) {k : Nat} (h1 : S.length ≤ k) (h2 : k ≤ names.length) :
    ∃ S' : List Int, S'.Subperm names ∧ S'.length = k ∧ ∀ x ∈ S, x ∈ S' := by
  obtain ⟨S0, hS0, hsub⟩ := hS
  obtain ⟨rest, hrest'⟩ := hsub.exists_perm_append
  have hrest : names.Perm (S ++ rest) := hrest'.trans (hS0.append_right rest)
  refine ⟨(S ++ rest).take k, ((List.take_sublist _ _).subperm).trans hrest.symm.subperm, ?_, ?_⟩
  · rw [List.length_take, ← hrest.length_eq]
    omega
  · intro x hx
    rw [List.take_append]
    exact List.mem_append_left _ (by rwa [List.take_of_length_le h1])

theorem numUnique_of_covers {a b : List Int} (h : ∀ x, x ∈ a ↔ x ∈ b) : numUnique a = numUnique b := by
  rw [numUnique_eq_card, numUnique_eq_card]
  congr 1
  ext x
  simp [h]

theorem size_le {n : Nat} {t : ℚ} (h0 : 0 ≤ t) (h1 : t ≤ 1) {T : Int} (hT : Spec.IsRound ((1 - t) * n) T) : 0 ≤ T ∧ T ≤ n := by
  have hlen : (pyRange 0 (n : Int)).length = n := by rw [pyRange_length]; omega
  obtain ⟨r, hr⟩ : ∃ r, randomRound (Spec.shuffleBy (1 : Equiv.Perm (Fin (pyRange 0 (n : Int)).length))) (pyRange 0 (n : Int)) t 0 = .ok r := by
    obtain ⟨k, j, hs⟩ := Fair.round_shape (pyRange 0 (n : Int)) t 0
    exact ⟨_, hs 1⟩
  obtain ⟨h2, h3, _⟩ := randomRound_inv (isShuffle_by 1) hr
  have h4 := h3 h0 h1
  rw [hlen, pyRound_eq hT] at h4
  have h5 := h2.length_eq
  rw [List.length_append, hlen] at h5
  omega

/-- **C136**: one label per instance, default indexes. If the labelled set has room for all classes, `split(all_class=True)` returns with
probability one. -/
theorem C136_classes (ys : List Int) {t rate : ℚ} (h0 : 0 ≤ t) (h1 : t ≤ 1) {T K : Int} (hT : Spec.IsRound ((1 - t) * ys.length) T)
    (hK : Spec.IsRound (rate * T) K) {m : Int} (hm : Spec.IsRound ((1 - t) * rate * ys.length) m) (hc : (ys.toFinset.card : Int) ≤ m)
    (hroom : (ys.toFinset.card : Int) ≤ min T (max 1 K)) : Spec.SurelyReturns (Returned (pyRange 0 ys.length) (.vec ys) t rate) := by
  have hlen : (pyRange 0 (ys.length : Int)).length = ys.length := by rw [pyRange_length]; omega
  rw [← numUnique_eq_card] at hroom hc
  have hTl : T ≤ ys.length := (size_le h0 h1 hT).2
  have hidx : ∀ v ∈ ys.eraseDups, ys.idxOf v < ys.length := fun v hv => List.idxOf_lt_length_of_mem (List.mem_eraseDups.1 hv)
  have hS : (ys.eraseDups.map (fun v => (ys.idxOf v : Int))).Subperm (pyRange 0 ys.length) := by
    refine List.Nodup.subperm ?_ ?_
    · refine (List.nodup_map_iff_inj_on (eraseDups_nodup ys)).2 ?_
      intro a ha b hb hab
      have hab' : ys.idxOf a = ys.idxOf b := by exact_mod_cast hab
      exact (List.idxOf_inj (List.mem_eraseDups.1 ha)).1 hab'
    · intro x hx
      obtain ⟨v, hv, rfl⟩ := List.mem_map.1 hx
      rw [mem_pyRange]
      have := hidx v hv
      omega
  obtain ⟨S, hS1, hS2, hS3⟩ := extend hS (k := (min T (max 1 K)).toNat) (by
    rw [List.length_map]
    unfold numUnique at hroom
    omega) (by rw [hlen]; omega)
  have hin : ∀ x ∈ S, 0 ≤ x ∧ x < (ys.length : Int) := fun x hx => (mem_pyRange _ _ _).1 (hS1.subset hx)
  refine C136_possible (y := .vec ys) (m := ys.length) rfl (fun x hx => (mem_pyRange _ _ _).1 hx) h0 h1 (by rw [hlen]; exact hT) hK
    (by rw [hlen, pyRound_eq hm]; exact hc) hS1 (by rw [hS2]; have := numUnique_le ys; omega) ?_
  obtain ⟨vs, hv, hmem⟩ := pyAtAll_ok ys hin
  simp only [YArr.covers, hv, Except.map]
  congr 1
  rw [decide_eq_true_eq]
  apply numUnique_of_covers
  intro v
  rw [hmem]
  constructor
  · rintro ⟨x, _, hx⟩
    exact List.mem_of_getElem? hx
  · intro hv'
    refine ⟨(ys.idxOf v : Int), hS3 _ (List.mem_map.2 ⟨v, List.mem_eraseDups.2 hv', rfl⟩), ?_⟩
    rw [Int.toNat_natCast, List.getElem?_eq_getElem (List.idxOf_lt_length_of_mem hv')]
    simp

/-- **C136**: and only then. If there is less room it never returns, however long one waits. -/
theorem C136_no_room (names : List Int) (ys : List Int) {t rate : ℚ} (h0 : 0 ≤ t) (h1 : t ≤ 1) {T K : Int}
    (hT : Spec.IsRound ((1 - t) * names.length) T) (hK : Spec.IsRound (rate * T) K) (hroom : min T (max 1 K) < (ys.toFinset.card : Int))
    (l : List (Equiv.Perm (Fin names.length))) : ¬ Returned names (.vec ys) t rate l := by
  rintro ⟨rs, h⟩
  rw [← numUnique_eq_card] at hroom
  have hf := runRounds_inv h
  cases hf with
  | cons h1' _ =>
    rename_i r rs' _
    have hcov := splitRound_covers h1'
    obtain ⟨sh, hsh, hr⟩ := splitRound_inv h1'
    obtain ⟨σ, _, rfl⟩ := List.mem_map.1 hsh
    have hsz := label_length h0 h1 hT hK (isShuffle_by σ) hr
    simp only [YArr.covers] at hcov
    cases hv : pyAtAll ys r.label with
    | error e => rw [hv] at hcov; simp [Except.map] at hcov
    | ok vs =>
      rw [hv] at hcov
      simp only [Except.map, Except.ok.injEq, decide_eq_true_eq] at hcov
      have hl := (pyAtAll_inv hv).length_eq
      have := numUnique_le vs
      omega

/-! ### A matrix of labels -/

theorem colSum_ne_zero {rows : List (List Int)} (hpos : ∀ r ∈ rows, ∀ x ∈ r, 0 ≤ x) {j : Nat} {r : List Int} (hr : r ∈ rows) (h : r.getD j 0 ≠ 0) :
    colSum rows j ≠ 0 := by
  have hnn : ∀ r ∈ rows, 0 ≤ r.getD j 0 := by
    intro r hr
    rw [List.getD_eq_getElem?_getD]
    cases hx : r[j]? with
    | none => simp
    | some x => simpa using hpos r hr x (List.mem_of_getElem? hx)
  have : r.getD j 0 ≤ colSum rows j := by
    unfold colSum
    exact List.single_le_sum (by simpa using hnn) _ (List.mem_map.2 ⟨r, hr, rfl⟩)
  have := hnn r hr
  omega

theorem matrix_choice {cols : Nat} {rows : List (List Int)} (hpos : ∀ r ∈ rows, ∀ x ∈ r, 0 ≤ x) (hcol : ∀ j < cols, ∃ r ∈ rows, 0 < r.getD j 0)
    {k : Nat} (h1 : cols ≤ k) (h2 : k ≤ rows.length) : ∃ S : List Int, S.Subperm (pyRange 0 rows.length) ∧ S.length = k ∧
      (YArr.mat cols rows).covers S = .ok true := by
  have hlen : (pyRange 0 (rows.length : Int)).length = rows.length := by rw [pyRange_length]; omega
  have hw : ∀ j, ∃ i : Nat, j < cols → ∃ r, rows[i]? = some r ∧ 0 < r.getD j 0 := by
    intro j
    by_cases hj : j < cols
    · obtain ⟨r, hr, h⟩ := hcol j hj
      obtain ⟨i, hi⟩ := List.mem_iff_getElem?.1 hr
      exact ⟨i, fun _ => ⟨r, hi, h⟩⟩
    · exact ⟨0, fun h => absurd h hj⟩
  choose w hw using hw
  have hS : (((List.range cols).map w).dedup.map (fun i : Nat => (i : Int))).Subperm (pyRange 0 rows.length) := by
    refine List.Nodup.subperm ?_ ?_
    · exact (List.nodup_dedup _).map Nat.cast_injective
    · intro x hx
      obtain ⟨i, hi, rfl⟩ := List.mem_map.1 hx
      obtain ⟨j, hj, rfl⟩ := List.mem_map.1 (List.mem_dedup.1 hi)
      obtain ⟨r, hr, _⟩ := hw j (List.mem_range.1 hj)
      have := (List.getElem?_eq_some_iff.1 hr).1
      rw [mem_pyRange]
      omega
  obtain ⟨S, hS1, hS2, hS3⟩ := extend hS (k := k) (by
    rw [List.length_map]
    have := (List.dedup_sublist ((List.range cols).map w)).length_le
    simp at this
    omega) (by rw [hlen]; omega)
  have hin : ∀ x ∈ S, 0 ≤ x ∧ x < (rows.length : Int) := fun x hx => (mem_pyRange _ _ _).1 (hS1.subset hx)
  refine ⟨S, hS1, hS2, ?_⟩
  obtain ⟨vs, hv, hmem⟩ := pyAtAll_ok rows hin
  simp only [YArr.covers, hv, Except.map]
  congr 1
  rw [List.all_eq_true]
  intro j hj
  rw [decide_eq_true_eq]
  obtain ⟨r, hr, hp⟩ := hw j (List.mem_range.1 hj)
  refine colSum_ne_zero (fun r hr => ?_) ((hmem r).2 ⟨(w j : Int), hS3 _ (List.mem_map.2 ⟨w j, List.mem_dedup.2 (List.mem_map.2 ⟨j, hj, rfl⟩), rfl⟩), ?_⟩)
    (by omega)
  · obtain ⟨x, _, hx⟩ := (hmem r).1 hr
    exact hpos r (List.mem_of_getElem? hx)
  · rw [Int.toNat_natCast]
    exact hr

/-- **C136**: a matrix of labels without negative entries in which every label occurs. -/
theorem C136_matrix (cols : Nat) (rows : List (List Int)) (hpos : ∀ r ∈ rows, ∀ x ∈ r, 0 ≤ x) (hcol : ∀ j < cols, ∃ r ∈ rows, 0 < r.getD j 0)
    {t rate : ℚ} (h0 : 0 ≤ t) (h1 : t ≤ 1) {T K : Int} (hT : Spec.IsRound ((1 - t) * rows.length) T) (hK : Spec.IsRound (rate * T) K)
    {m : Int} (hm : Spec.IsRound ((1 - t) * rate * rows.length) m) (hc : (cols : Int) ≤ m) (hroom : (cols : Int) ≤ min T (max 1 K)) :
    Spec.SurelyReturns (Returned (pyRange 0 rows.length) (.mat cols rows) t rate) := by
  have hlen : (pyRange 0 (rows.length : Int)).length = rows.length := by rw [pyRange_length]; omega
  obtain ⟨_, hTl⟩ := size_le h0 h1 hT
  obtain ⟨S, hS1, hS2, hS3⟩ := matrix_choice hpos hcol (k := (min T (max 1 K)).toNat) (by omega) (by omega)
  exact C136_possible (y := .mat cols rows) (m := rows.length) rfl (fun x hx => (mem_pyRange _ _ _).1 hx) h0 h1 (by rw [hlen]; exact hT) hK
    (by rw [hlen, pyRound_eq hm]; exact hc) hS1 (by rw [hS2]; omega) hS3

/-! ## `split_multi_label` -/

/-- A multi-label split of one round that asks for all labels returned something with the given shuffles. -/
def RowsReturned (L : Nat) (rows : List (List Int)) (t rate : ℚ) (l : List (Equiv.Perm (Fin rows.length))) : Prop :=
  ∃ rs, splitMultiLabel rows.length L (some rows) t rate true [l.map Spec.shuffleBy] = some (.ok rs)

theorem rowsReturned_iff {L : Nat} {rows : List (List Int)} {t rate : ℚ} {l : List (Equiv.Perm (Fin rows.length))} :
    RowsReturned L rows t rate l ↔ ∃ r, rowSplitRound rows.length L (some rows) t rate true (l.map Spec.shuffleBy) = some (.ok r) := by
  unfold RowsReturned splitMultiLabel
  simp only [runRounds]
  constructor
  · rintro ⟨rs, h⟩
    cases hl : rowSplitRound rows.length L (some rows) t rate true (l.map Spec.shuffleBy) with
    | none => rw [hl] at h; cases h
    | some x =>
      cases x with
      | error e => rw [hl] at h; cases h
      | ok r => exact ⟨r, rfl⟩
  · rintro ⟨r, h⟩
    exact ⟨[r], by rw [h]⟩

/-- The loop is the loop of `split` where the number of labelled rows is not raised to one. -/
theorem rowLoop_eq {n L : Nat} {rows : List (List Int)} {t rate : ℚ} {T : Nat} (hcut : cutLabel rate T = pyRound (rate * T)) {shs : List Sh}
    (hs : ∀ sh ∈ shs, ∃ c, cutTrain sh (pyRange 0 n) t = .ok c ∧ c.1.length = T) : ∀ {sh : Sh} {train test : List Int},
      cutTrain sh (pyRange 0 n) t = .ok (train, test) → train.length = T →
        rowLoop n L (some rows) t rate train test (pyRound (rate * T)) shs = coverLoop (pyRange 0 n) (.mat L rows) t rate (sh :: shs) := by
  induction shs with
  | nil =>
    intro sh train test h hl
    simp only [rowLoop, coverLoop, randomRound, h, hl, hcut, rowCheck, YArr.covers]
  | cons s shs ih =>
    intro sh train test h hl
    obtain ⟨c, hc1, hc2⟩ := hs s (by simp)
    have ih' := ih (fun sh hsh => hs sh (List.mem_cons_of_mem _ hsh)) (sh := s) (train := c.1) (test := c.2) hc1 hc2
    rw [coverLoop]
    simp only [rowLoop, randomRound, h, hl, hcut, rowCheck, YArr.covers]
    cases hv : pyAtAll rows (pySliceTo train (pyRound (rate * T))) with
    | error e => simp [Except.map]
    | ok vs =>
      simp only [Except.map]
      cases hb : (List.range L).all (fun j => decide (colSum vs j ≠ 0)) with
      | true => simp
      | false =>
        simp only [hc1]
        rw [hc2]
        exact ih'

theorem cut_by {n : Nat} {t : ℚ} (h0 : 0 ≤ t) (h1 : t ≤ 1) {T : Nat} (hT : Spec.IsRound ((1 - t) * n) T) (sh : Sh) (hs : Spec.IsShuffle sh) :
    ∃ c, cutTrain sh (pyRange 0 n) t = .ok c ∧ c.1.length = T ∧ (c.1 ++ c.2).Perm (pyRange 0 n) := by
  have hlen : (pyRange 0 (n : Int)).length = n := by rw [pyRange_length]; omega
  cases hc : cutTrain sh (pyRange 0 n) t with
  | error e =>
    obtain ⟨c, d, h, _⟩ := cutTrain_ok sh hs (pyRange 0 n) t
    rw [h] at hc
    cases hc
  | ok c =>
    obtain ⟨h2, h3⟩ := cutTrain_inv hs hc
    have h4 := h3 h0 h1
    rw [hlen, pyRound_eq hT] at h4
    exact ⟨c, rfl, by exact_mod_cast h4, h2⟩

/-- **C136**: a multi-label split with all labels returns with probability one if every label occurs and the rounded share of the
training set has room for them. -/
theorem C136_multi_label (L : Nat) (rows : List (List Int)) (hpos : ∀ r ∈ rows, ∀ x ∈ r, 0 ≤ x) (hcol : ∀ j < L, ∃ r ∈ rows, 0 < r.getD j 0)
    {t rate : ℚ} (h0 : 0 ≤ t) (h1 : t ≤ 1) {T K : Nat} (hT : Spec.IsRound ((1 - t) * rows.length) T) (hK : Spec.IsRound (rate * T) K)
    (hK1 : 1 ≤ K) (hKT : K ≤ T) (hroom : L ≤ K) : Spec.SurelyReturns (RowsReturned L rows t rate) := by
  have hlen : (pyRange 0 (rows.length : Int)).length = rows.length := by rw [pyRange_length]; omega
  obtain ⟨_, hTl⟩ := size_le h0 h1 hT
  have hK' : pyRound (rate * (T : ℚ)) = K := pyRound_eq hK
  have hcut : cutLabel rate T = pyRound (rate * T) := by rw [cutLabel_eq, hK']; omega
  have hset : ∀ l : List (Equiv.Perm (Fin rows.length)), ¬ RowsReturned L rows t rate l ↔ ∀ σ ∈ l,
      ¬ ∃ r, randomRound (Spec.shuffleBy σ) (pyRange 0 rows.length) t rate = .ok r ∧ (YArr.mat L rows).covers r.label = .ok true := by
    intro l
    rw [rowsReturned_iff]
    cases l with
    | nil => simp [rowSplitRound]
    | cons σ l =>
      obtain ⟨c, hc1, hc2, _⟩ := cut_by h0 h1 hT (Spec.shuffleBy σ) (isShuffle_by σ)
      have e : rowSplitRound rows.length L (some rows) t rate true ((σ :: l).map Spec.shuffleBy) =
          coverLoop (pyRange 0 rows.length) (.mat L rows) t rate ((σ :: l).map Spec.shuffleBy) := by
        rw [List.map_cons]
        simp only [rowSplitRound, hc1, hc2]
        rw [hcut, hK', if_pos trivial, if_neg (by omega), ← hK']
        refine rowLoop_eq hcut (fun sh hsh => ?_) hc1 hc2
        obtain ⟨τ, _, rfl⟩ := List.mem_map.1 hsh
        obtain ⟨c, hc1, hc2, _⟩ := cut_by h0 h1 hT (Spec.shuffleBy τ) (isShuffle_by τ)
        exact ⟨c, hc1, hc2⟩
      rw [e]
      have hok : ∀ σ : Equiv.Perm (Fin rows.length), ∃ r, randomRound (Spec.shuffleBy σ) (pyRange 0 rows.length) t rate = .ok r ∧
          ∃ b, (YArr.mat L rows).covers r.label = .ok b := by
        intro σ
        obtain ⟨c, hc1, hc2, hc3⟩ := cut_by h0 h1 hT (Spec.shuffleBy σ) (isShuffle_by σ)
        refine ⟨_, by simp only [randomRound, hc1]; rfl, covers_ok _ rows.length rfl (fun x hx => ?_)⟩
        exact (mem_pyRange _ _ _).1 (hc3.mem_iff.1 (List.mem_append_left _ ((pySliceTo_sublist _ _).subset hx)))
      generalize σ :: l = l'
      clear e
      induction l' with
      | nil => simp [coverLoop]
      | cons σ l ih =>
        obtain ⟨r, hr, b, hb⟩ := hok σ
        have ih' := propext ih
        rw [List.forall_mem_cons, ← ih', List.map_cons]
        simp only [coverLoop, hr, hb]
        cases b with
        | true => simp [hb]
        | false => simp [hb]
  refine surely hset ?_
  obtain ⟨S, hS1, hS2, hS3⟩ := matrix_choice hpos hcol (k := K) hroom (by omega)
  obtain ⟨σ, r, hr, hrl⟩ := label_any (names := pyRange 0 rows.length) (rate := rate) (T := T) (K := K) h0 h1 (by rw [hlen]; exact hT) (by exact_mod_cast hK)
    hS1 (by rw [hS2]; omega)
  have hcast : ∀ (n : Nat) (hn : (pyRange 0 (rows.length : Int)).length = n), ∃ τ : Equiv.Perm (Fin n), ∀ l : List Int,
      Spec.shuffleBy τ l = Spec.shuffleBy σ l := by
    intro n hn
    subst hn
    exact ⟨σ, fun _ => rfl⟩
  obtain ⟨τ, hτ⟩ := hcast _ hlen
  refine ⟨τ, fun h => h ⟨r, ?_, by rw [hrl]; exact hS3⟩⟩
  rw [show (Spec.shuffleBy τ : Sh) = Spec.shuffleBy σ from funext hτ]
  exact hr

/-! ## Splits of pairs -/

/-- A split of features of one round that asks for all features returned something with the given shuffles. -/
def PairsReturned (n L T : Nat) (t missing : ℚ) (l : List (Equiv.Perm (Fin n) × Equiv.Perm (Fin (T * L)))) : Prop :=
  ∃ rs, splitFeatures n L t missing true [l.map (fun s => (Spec.shuffleBy s.1, Spec.shuffleBy s.2))] = some (.ok rs)

theorem pairsReturned_iff {n L T : Nat} {t missing : ℚ} {l : List (Equiv.Perm (Fin n) × Equiv.Perm (Fin (T * L)))} :
    PairsReturned n L T t missing l ↔
      ∃ r, pairSplitRound n L t (1 - missing) true (l.map (fun s => (Spec.shuffleBy s.1, Spec.shuffleBy s.2))) = some (.ok r) := by
  unfold PairsReturned splitFeatures
  simp only [runRounds]
  constructor
  · rintro ⟨rs, h⟩
    cases hl : pairSplitRound n L t (1 - missing) true (l.map (fun s => (Spec.shuffleBy s.1, Spec.shuffleBy s.2))) with
    | none => rw [hl] at h; cases h
    | some x =>
      cases x with
      | error e => rw [hl] at h; cases h
      | ok r => exact ⟨r, rfl⟩
  · rintro ⟨r, h⟩
    exact ⟨[r], by rw [h]⟩

theorem pairTry_ok {n L T : Nat} {t : ℚ} (h0 : 0 ≤ t) (h1 : t ≤ 1) (hT : Spec.IsRound ((1 - t) * n) T) {k : Nat → Int} (hk : k T ≤ (T * L : Nat))
    {sh : Sh × Sh} (hs1 : Spec.IsShuffle sh.1) : ∃ train test, train.length = T ∧ (train ++ test).Perm (pyRange 0 n) ∧
      pairTry sh n L t k = .ok (train, test, pySliceTo (sh.2 (pyRange 0 (T * L : Nat))) (k T)) := by
  obtain ⟨c, hc1, hc2, hc3⟩ := cut_by h0 h1 hT sh.1 hs1
  refine ⟨c.1, c.2, hc2, hc3, ?_⟩
  simp only [pairTry, hc1, hc2, randperm]
  rw [if_neg (by omega)]
  simp only [sub_add_cancel]

theorem pairRound_returns {n L T : Nat} {train test : List Int} (hl : train.length = T) (hp : (train ++ test).Perm (pyRange 0 n)) {sh : Sh}
    (hs : Spec.IsShuffle sh) (k : Int) : ∃ r, pairRound train test L (pySliceTo (sh (pyRange 0 (T * L : Nat))) k) = .ok r := by
  have hn : train.Nodup := (hp.nodup_iff.2 (pyRange_nodup _ _)).of_append_left
  obtain ⟨r, hr, _⟩ := pairRound_ok (test := test) hn (L := L) (lab := pySliceTo (sh (pyRange 0 (T * L : Nat))) k)
    (((hs _).nodup_iff.2 (pyRange_nodup _ _)).sublist (pySliceTo_sublist _ _)) (fun i hi => by
      have := (mem_pyRange _ _ _).1 ((hs _).mem_iff.1 ((pySliceTo_sublist _ _).subset hi))
      rw [hl]
      exact this)
  exact ⟨r, hr⟩

theorem numLabels_range {L K : Nat} (hL : 0 < L) (h : L ≤ K) : numLabels L (pyRange 0 K) = L := by
  unfold numLabels
  rw [numUnique_eq_card]
  have : ((pyRange 0 (K : Int)).map (fun i => i % (L : Int))).toFinset = (pyRange 0 (L : Int)).toFinset := by
    ext x
    simp only [List.mem_toFinset, List.mem_map, mem_pyRange]
    constructor
    · rintro ⟨a, ha, rfl⟩
      exact ⟨Int.emod_nonneg _ (by omega), Int.emod_lt_of_pos _ (by omega)⟩
    · rintro ⟨ha, hb⟩
      exact ⟨x, ⟨ha, by omega⟩, Int.emod_eq_of_lt ha hb⟩
  rw [this, List.toFinset_card_of_nodup (pyRange_nodup _ _), pyRange_length]
  omega

/-- **C136**: `split_features(all_features=True)` returns with probability one, whenever it does not refuse: the share of the training
instances is at least the number of features. (The first attempt draws more entries than the later ones.) -/
theorem C136_features {n L T K : Nat} (hL : 0 < L) {t missing : ℚ} (h0 : 0 ≤ t) (h1 : t ≤ 1) (hm : 0 ≤ missing) (hm1 : missing ≤ 1)
    (hT : Spec.IsRound ((1 - t) * n) T) (hK : Spec.IsRound ((1 - missing) * T) K) (hroom : L ≤ K) :
    Spec.SurelyReturns (PairsReturned n L T t missing) := by
  have hK' : pyRound ((1 - missing) * (T : ℚ)) = K := pyRound_eq hK
  have hmono : ∀ m : Nat, pyRound ((1 - missing) * (m : ℚ)) ≤ m := by
    intro m
    have hr := pyRound_isRound ((1 - missing) * (m : ℚ))
    exact (size_le hm hm1 hr).2
  have hfirst : pyRound ((1 - missing) * ((T * L : Nat) : ℚ)) ≤ (T * L : Nat) := hmono (T * L)
  have hK2 : K ≤ T := by have := hmono T; omega
  have hlater : pyRound ((1 - missing) * ((T : Nat) : ℚ)) ≤ (T * L : Nat) := by
    have := hmono T
    have h2 : T ≤ T * L := Nat.le_mul_of_pos_right T hL
    omega
  have hloop : ∀ (l : List (Equiv.Perm (Fin n) × Equiv.Perm (Fin (T * L)))) (train test : List Int) (sh : Sh) (k : Int), train.length = T →
      (train ++ test).Perm (pyRange 0 n) → Spec.IsShuffle sh →
      (¬ ∃ r, pairLoop n L t (1 - missing) (train, test, pySliceTo (sh (pyRange 0 (T * L : Nat))) k)
        (l.map (fun s => (Spec.shuffleBy s.1, Spec.shuffleBy s.2))) = some (.ok r)) →
      ∀ s ∈ l, numLabels L (pySliceTo (Spec.shuffleBy s.2 (pyRange 0 (T * L : Nat))) K) ≠ L := by
    intro l
    induction l with
    | nil => intro _ _ _ _ _ _ _ _ s hs; cases hs
    | cons s l ih =>
      intro train test sh k hl hp hsh h
      obtain ⟨tr, te, hl', hp', htry⟩ := pairTry_ok (L := L) h0 h1 hT (k := fun m : Nat => pyRound ((1 - missing) * m)) hlater
        (sh := (Spec.shuffleBy s.1, Spec.shuffleBy s.2)) (isShuffle_by s.1)
      rw [List.map_cons] at h
      simp only [pairLoop, htry] at h
      by_cases hc : numLabels L (pySliceTo (sh (pyRange 0 (T * L : Nat))) k) = L
      · rw [if_pos hc] at h
        obtain ⟨r, hr⟩ := pairRound_returns (L := L) hl hp hsh k
        exact absurd ⟨r, by rw [hr]⟩ h
      · rw [if_neg hc] at h
        rw [hK'] at h
        have hn : numLabels L (pySliceTo (Spec.shuffleBy s.2 (pyRange 0 (T * L : Nat))) K) ≠ L := by
          intro he
          obtain ⟨r, hr⟩ := pairRound_returns (L := L) hl' hp' (isShuffle_by s.2) K
          apply h
          refine ⟨r, ?_⟩
          cases l with
          | nil => simp only [List.map_nil, pairLoop]; rw [if_pos he, hr]
          | cons a l => simp only [List.map_cons, pairLoop]; rw [if_pos he, hr]
        intro s' hs'
        rcases List.mem_cons.1 hs' with rfl | hs'
        · exact hn
        · exact ih tr te (Spec.shuffleBy s.2) K hl' hp' (isShuffle_by s.2) h s' hs'
  refine surely_first (bad := fun s => numLabels L (pySliceTo (Spec.shuffleBy s.2 (pyRange 0 (T * L : Nat))) K) ≠ L) (fun s l h => ?_) ⟨(1, 1), ?_⟩
  · rw [pairsReturned_iff, List.map_cons] at h
    obtain ⟨tr, te, hl', hp', htry⟩ := pairTry_ok (L := L) h0 h1 hT (k := fun m : Nat => pyRound ((1 - missing) * (m * L : Nat))) hfirst
      (sh := (Spec.shuffleBy s.1, Spec.shuffleBy s.2)) (isShuffle_by s.1)
    simp only [pairSplitRound, htry, hl'] at h
    rw [hK', if_pos trivial, if_neg (by omega)] at h
    exact hloop l tr te _ _ hl' hp' (isShuffle_by s.2) h
  · have hlen : (pyRange 0 ((T * L : Nat) : Int)).length = T * L := by rw [pyRange_length]; omega
    have hid : Spec.shuffleBy (1 : Equiv.Perm (Fin (T * L))) (pyRange 0 ((T * L : Nat) : Int)) = pyRange 0 ((T * L : Nat) : Int) := by
      unfold Spec.shuffleBy
      rw [dif_pos hlen]
      apply List.ext_get
      · rw [List.length_ofFn, hlen]
      · intro i h1 h2
        simp
    rw [not_not, hid]
    have h2 : T ≤ T * L := Nat.le_mul_of_pos_right T hL
    have : pySliceTo (pyRange 0 ((T * L : Nat) : Int)) K = pyRange 0 K := by
      unfold pySliceTo pyRange
      rw [if_pos (by omega), ← List.map_take]
      congr 1
      rw [List.take_range]
      congr 1
      omega
    rw [this]
    exact numLabels_range hL hroom

/-! ## How long one waits -/

/-- **C136**: the probability that `m` draws are not enough is the `m`-th power of the probability that one draw is not enough. -/
theorem C136_geometric {names : List Int} {y : YArr} {n : Nat} (hy : match y with | .vec ys => ys.length = n | .mat _ rows => rows.length = n)
    (hn : ∀ x ∈ names, 0 ≤ x ∧ x < n) {t rate : ℚ} (hc : (y.labelNum : Int) ≤ pyRound ((1 - t) * rate * names.length)) (m : Nat) :
    Spec.fractionLeft (Returned names y t rate) m = Spec.fractionLeft (Returned names y t rate) 1 ^ m := by
  have hok : ∀ σ : Equiv.Perm (Fin names.length), ∃ r, randomRound (Spec.shuffleBy σ) names t rate = .ok r ∧ ∃ b, y.covers r.label = .ok b := by
    intro σ
    obtain ⟨k, j, hs⟩ := Fair.round_shape names t rate
    refine ⟨_, hs σ, covers_ok y n hy (fun x hx => hn x ?_)⟩
    exact (Fair.shuffled_perm names σ).mem_iff.1 (List.take_subset _ _ (List.take_subset _ _ hx))
  have h : ∀ l, ¬ Returned names y t rate l ↔ ∀ σ ∈ l, Bad names y t rate σ := fun l => by rw [returned_iff hc, coverLoop_left hok]
  rw [fraction_left h, fraction_left h, pow_one]

/-! ## A loop that cannot end any more -/

theorem rowLoop_zero {n : Nat} {rows : List (List Int)} {t rate : ℚ} (h0 : 0 ≤ t) (h1 : t ≤ 1) {T : Nat} (hT : Spec.IsRound ((1 - t) * n) T)
    (hK : Spec.IsRound (rate * T) 0) : ∀ (l : List Sh), (∀ sh ∈ l, Spec.IsShuffle sh) → ∀ train test,
      rowLoop n 1 (some rows) t rate train test 0 l = none
  | [], _, train, test => by simp [rowLoop, rowCheck, pySliceTo, pyAtAll, colSum, Except.map]
  | sh :: l, hl, train, test => by
    obtain ⟨c, hc1, hc2, _⟩ := cut_by h0 h1 hT sh (hl sh (by simp))
    have ih := rowLoop_zero (rows := rows) h0 h1 hT hK l (fun s hs => hl s (List.mem_cons_of_mem _ hs)) c.1 c.2
    have hck : rowCheck 1 (some rows) (pySliceTo train 0) = .ok false := by simp [rowCheck, pySliceTo, pyAtAll, colSum, Except.map]
    simp only [rowLoop, hck, hc1, hc2, pyRound_eq hK]
    exact ih

/-- The number of labelled rows is raised to one only before the loop. With a single label and a share that rounds to zero, one unlucky
first draw means that `split_multi_label` never returns. -/
theorem C136_unlucky_violation {rows : List (List Int)} {t rate : ℚ} (h0 : 0 ≤ t) (h1 : t ≤ 1) {T : Nat}
    (hT : Spec.IsRound ((1 - t) * rows.length) T) (hK : Spec.IsRound (rate * T) 0) {σ : Equiv.Perm (Fin rows.length)}
    (h : ¬ RowsReturned 1 rows t rate [σ]) (l : List (Equiv.Perm (Fin rows.length))) : ¬ RowsReturned 1 rows t rate (σ :: l) := by
  rw [rowsReturned_iff] at h ⊢
  obtain ⟨c, hc1, hc2, _⟩ := cut_by h0 h1 hT (Spec.shuffleBy σ) (isShuffle_by σ)
  rw [List.map_cons] at h ⊢
  simp only [rowSplitRound, hc1, hc2, cutLabel_eq, pyRound_eq hK, List.map_nil] at h ⊢
  norm_num at h ⊢
  cases l with
  | nil => exact h
  | cons τ l =>
    rw [List.map_cons]
    simp only [rowLoop] at h ⊢
    cases hc : rowCheck 1 (some rows) (pySliceTo c.1 1) with
    | error e => simp
    | ok b =>
      rw [hc] at h
      cases b with
      | true => exact absurd rfl (h _)
      | false =>
        obtain ⟨c', hc1', hc2', _⟩ := cut_by h0 h1 hT (Spec.shuffleBy τ) (isShuffle_by τ)
        simp only [hc1', hc2', pyRound_eq hK]
        rw [rowLoop_zero h0 h1 hT hK]
        · simp
        · intro sh hsh
          obtain ⟨ρ, _, rfl⟩ := List.mem_map.1 hsh
          exact isShuffle_by ρ

/-! ## Non-trivial cases -/

theorem isRound_of {q : ℚ} {r : Int} (h : pyRound q = r) : Spec.IsRound q r := h ▸ pyRound_isRound q

/-- Five instances of three classes, two of them rare, two thirds of four labelled. -/
example : Spec.SurelyReturns (Returned (pyRange 0 5) (.vec [0, 0, 0, 1, 2]) (1 / 5) (3 / 4)) :=
  C136_classes [0, 0, 0, 1, 2] (by norm_num) (by norm_num) (T := 4) (K := 3) (m := 3) (isRound_of (by decide +kernel)) (isRound_of (by decide +kernel))
    (isRound_of (by decide +kernel)) (by decide) (by decide)

/-- A single draw need not be enough. -/
example : ¬ Returned [0, 1, 2, 3, 4] (.vec [0, 0, 0, 1, 2]) (1 / 5) (3 / 4) [1] := by
  rintro ⟨rs, h⟩
  have : Alipy.split [0, 1, 2, 3, 4] (some (.vec [0, 0, 0, 1, 2])) (1 / 5) (3 / 4) true
      [([1] : List (Equiv.Perm (Fin ([0, 1, 2, 3, 4] : List Int).length))).map Spec.shuffleBy] = none := by decide +kernel
  rw [this] at h
  cases h

example : Spec.SurelyReturns (RowsReturned 2 [[1, 0], [0, 1], [0, 0], [0, 0]] 0 (1 / 2)) :=
  C136_multi_label 2 _ (by decide) (by decide) (by norm_num) (by norm_num) (T := 4) (K := 2) (isRound_of (by decide +kernel))
    (isRound_of (by decide +kernel)) (by norm_num) (by norm_num) (by norm_num)

example : Spec.SurelyReturns (PairsReturned 4 2 3 (1 / 4) (1 / 4)) :=
  C136_features (K := 2) (by norm_num) (by norm_num) (by norm_num) (by norm_num) (by norm_num) (isRound_of (by decide +kernel))
    (isRound_of (by decide +kernel)) (by norm_num)

/-- Three instances, one of which has the label, a tenth labelled: the identity is an unlucky draw. -/
example (l : List (Equiv.Perm (Fin 3))) : ¬ RowsReturned 1 [[0], [0], [1]] 0 (1 / 10) ((1 : Equiv.Perm (Fin 3)) :: l) :=
  C136_unlucky_violation (rows := [[0], [0], [1]]) (t := 0) (rate := 1 / 10) (T := 3) (σ := (1 : Equiv.Perm (Fin 3))) (by norm_num) (by norm_num) (isRound_of (by decide +kernel)) (isRound_of (by decide +kernel)) (by
    rintro ⟨rs, h⟩
    have : splitMultiLabel 3 1 (some [[0], [0], [1]]) 0 (1 / 10) true [([1] : List (Equiv.Perm (Fin 3))).map Spec.shuffleBy] = none := by
      decide +kernel
    exact absurd (h.symm.trans this) (by simp)) l

end Alipy.Ends
