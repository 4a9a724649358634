import Verif.Model.Split
import Verif.Model.Select
import Verif.Spec.Fair
import Verif.Props.Agree
import Verif.Props.Sampling
import Verif.Props.Split
import Verif.Props.IndexCollection
import Verif.Props.MetricSymmetry
import Mathlib.GroupTheory.Perm.DomMulAct
/-!
# C101: splits and random selections are fair
-/
set_option linter.unusedSectionVars false
set_option linter.unusedSimpArgs false
namespace Alipy.Fair
open Alipy
open scoped Nat

/-! ## Counting permutations -/

section
variable {n : Nat} {γ : Type} [DecidableEq γ] [Fintype γ]

theorem count_colour {f c : Fin n → γ} {σ₀ : Equiv.Perm (Fin n)} (h : f ∘ σ₀ = c) :
    Spec.ways (fun σ : Equiv.Perm (Fin n) => f ∘ σ = c) = ∏ g, (Fintype.card {i // f i = g})! := by
  rw [← DomMulAct.stabilizer_card, ← Nat.card_eq_fintype_card]
  unfold Spec.ways
  refine Nat.card_congr ⟨fun σ => ⟨σ.1 * σ₀⁻¹, ?_⟩, fun τ => ⟨τ.1 * σ₀, ?_⟩, ?_, ?_⟩
  · funext i
    have h1 := congrFun σ.2 (σ₀⁻¹ i)
    have h2 := congrFun h (σ₀⁻¹ i)
    have h3 : σ₀ (σ₀⁻¹ i) = i := by simp
    simp only [Function.comp_apply, Equiv.Perm.coe_mul] at h1 h2 ⊢
    rw [h3] at h2
    rw [h1, h2]
  · funext i
    have h1 := congrFun τ.2 (σ₀ i)
    have h2 := congrFun h i
    simp only [Function.comp_apply, Equiv.Perm.coe_mul] at h1 h2 ⊢
    rw [h1, h2]
  · intro σ
    ext i
    simp
  · intro τ
    ext i
    simp

theorem exists_colour {f c : Fin n → γ} (h : ∀ g, Fintype.card {i // f i = g} = Fintype.card {i // c i = g}) :
    ∃ σ₀ : Equiv.Perm (Fin n), f ∘ σ₀ = c := by
  have e : ∀ g, {i // c i = g} ≃ {i // f i = g} := fun g => Fintype.equivOfCardEq (h g).symm
  exact ⟨Equiv.ofFiberEquiv e, funext (fun i => Equiv.ofFiberEquiv_map e i)⟩

end

theorem countP_ofFn {n : Nat} {β : Type} (p : β → Bool) (f : Fin n → β) : (List.ofFn f).countP p = Fintype.card {i // p (f i) = true} := by
  rw [Fintype.card_subtype]
  induction n with
  | zero => simp
  | succ n ih =>
    rw [List.ofFn_succ, List.countP_cons, ih, Fin.univ_succ, Finset.filter_cons]
    by_cases h : p (f 0) = true
    · simp only [h, if_true, Finset.card_cons, Finset.filter_map, Finset.card_map]
      rfl
    · rw [if_neg h, if_neg h, Finset.filter_map, Finset.card_map]
      rfl

theorem countP_list {β : Type} (p : β → Bool) (l : List β) : l.countP p = Fintype.card {i : Fin l.length // p (l.get i) = true} := by
  conv_lhs => rw [← List.ofFn_get l]
  rw [countP_ofFn]

/-! ## Shuffling and picking -/

theorem pySlice_shape (k : Int) (n : Nat) : ∃ j : Nat, ∀ {β : Type} (l : List β), l.length = n → pySliceTo l k = l.take j ∧ pySliceFrom l k = l.drop j := by
  by_cases h : 0 ≤ k
  · exact ⟨k.toNat, fun l _ => by simp [pySliceTo, pySliceFrom, h]⟩
  · exact ⟨n - (-k).toNat, fun l hl => by simp [pySliceTo, pySliceFrom, h, hl]⟩

/-- `np.arange(n)` shuffled. -/
theorem shuffle_range {n : Nat} (σ : Equiv.Perm (Fin n)) :
    Spec.shuffleBy σ (pyRange 0 n) = (List.ofFn (fun i => (σ i : Nat))).map (fun i : Nat => (i : Int)) := by
  have hl : (pyRange 0 n).length = n := by simp [pyRange]
  unfold Spec.shuffleBy
  rw [dif_pos hl, List.map_ofFn]
  congr 1
  funext i
  simp [pyRange]
  rfl

/-- The items in their new order. -/
def shuffled {β : Type} (l : List β) (σ : Equiv.Perm (Fin l.length)) : List β := List.ofFn (fun i => l.get (σ i))

theorem pick_shuffled {β : Type} (l : List β) (σ : Equiv.Perm (Fin l.length)) (g : List Nat → List Nat) (g' : List β → List β)
    (hg : ∀ f : Nat → Option β, ∀ L : List Nat, ∀ L' : List β, L'.map some = L.map f → (g' L').map some = (g L).map f) (hsub : ∀ L, ∀ x ∈ g L, x ∈ L) :
    pickAll l ((g (List.ofFn (fun i => (σ i : Nat)))).map (fun i : Nat => (i : Int))) = .ok (g' (shuffled l σ)) := by
  obtain ⟨r, h1, h2⟩ := Select.pick_ok l (g (List.ofFn (fun i => (σ i : Nat)))) (by
    intro i hi
    obtain ⟨j, rfl⟩ := List.mem_ofFn.1 (hsub _ _ hi)
    exact (σ j).2)
  rw [h1]
  congr 1
  apply Select.map_some_inj
  rw [h2]
  symm
  apply hg
  unfold shuffled
  rw [List.map_ofFn, List.map_ofFn]
  congr 1
  funext i
  simp

theorem pick_take {β : Type} (l : List β) (σ : Equiv.Perm (Fin l.length)) (k : Nat) :
    pickAll l (((List.ofFn (fun i => (σ i : Nat))).map (fun i : Nat => (i : Int))).take k) = .ok ((shuffled l σ).take k) := by
  rw [← List.map_take]
  exact pick_shuffled l σ (List.take k) (List.take k) (fun f L L' h => by rw [List.map_take, List.map_take, h])
    (fun L x hx => List.take_subset _ _ hx)

theorem pick_drop {β : Type} (l : List β) (σ : Equiv.Perm (Fin l.length)) (k : Nat) :
    pickAll l (((List.ofFn (fun i => (σ i : Nat))).map (fun i : Nat => (i : Int))).drop k) = .ok ((shuffled l σ).drop k) := by
  rw [← List.map_drop]
  exact pick_shuffled l σ (List.drop k) (List.drop k) (fun f L L' h => by rw [List.map_drop, List.map_drop, h])
    (fun L x hx => List.drop_subset _ _ hx)

/-- The outcome of a round: the shuffled names, cut at places that do not depend on the shuffle. -/
theorem round_shape (names : List Int) (t rate : ℚ) : ∃ k j : Nat, ∀ σ : Equiv.Perm (Fin names.length),
    randomRound (Spec.shuffleBy σ) names t rate =
      .ok ⟨(shuffled names σ).take k, (shuffled names σ).drop k, ((shuffled names σ).take k).take j, ((shuffled names σ).take k).drop j⟩ := by
  obtain ⟨k, hk⟩ := pySlice_shape (pyRound ((1 - t) * names.length)) names.length
  obtain ⟨j, hj⟩ := pySlice_shape (cutLabel rate (min k names.length)) (min k names.length)
  refine ⟨k, j, fun σ => ?_⟩
  have hr : randperm (Spec.shuffleBy σ) (.int ((names.length : Int) - 1)) .default =
      .ok ((List.ofFn (fun i => (σ i : Nat))).map (fun i : Nat => (i : Int))) := by
    unfold randperm
    simp only [sub_add_cancel, sub_zero]
    rw [shuffle_range]
    congr 1
    unfold pySliceTo
    rw [if_pos (by omega)]
    apply List.take_of_length_le
    simp
  have hlen : ((List.ofFn (fun i => (σ i : Nat))).map (fun i : Nat => (i : Int))).length = names.length := by simp
  have hs : ((shuffled names σ).take k).length = min k names.length := by simp [shuffled]
  unfold randomRound cutTrain pick
  rw [hr]
  simp only
  rw [hlen, (hk _ hlen).1, (hk _ hlen).2, pick_take, pick_drop]
  simp only
  rw [hs, (hj _ hs).1, (hj _ hs).2]

/-- The role of a position. -/
def colour (k j : Nat) (i : Nat) : Spec.Role := if i < k then (if i < j then .labelled else .unlabelled) else .test

theorem assigns_iff {names : List Int} {k j : Nat} {d : Int → Spec.Role} {σ : Equiv.Perm (Fin names.length)} :
    Spec.Assigns ⟨(shuffled names σ).take k, (shuffled names σ).drop k, ((shuffled names σ).take k).take j, ((shuffled names σ).take k).drop j⟩ d ↔
      (fun i => d (names.get i)) ∘ σ = fun i : Fin names.length => colour k j i := by
  have hl : (shuffled names σ).length = names.length := by simp [shuffled]
  have hget : ∀ i (h : i < names.length), (shuffled names σ)[i]'(by rw [hl]; exact h) = names.get (σ ⟨i, h⟩) := by
    intro i h
    simp [shuffled]
  constructor
  · rintro ⟨h1, h2, h3⟩
    funext i
    have hi := hget i i.2
    simp only [Function.comp_apply, colour]
    rw [show names.get (σ i) = (shuffled names σ)[(i:Nat)]'(by rw [hl]; exact i.2) from hi.symm]
    by_cases hk : (i : Nat) < k
    · rw [if_pos hk]
      by_cases hj : (i : Nat) < j
      · rw [if_pos hj]
        apply h1
        rw [List.take_take, List.mem_take_iff_getElem]
        exact ⟨i, by rw [hl]; have := i.2; omega, rfl⟩
      · rw [if_neg hj]
        apply h2
        rw [List.mem_drop_iff_getElem]
        refine ⟨(i : Nat) - j, by rw [List.length_take, hl]; have := i.2; omega, ?_⟩
        rw [List.getElem_take]
        congr 1; omega
    · rw [if_neg hk]
      apply h3
      rw [List.mem_drop_iff_getElem]
      exact ⟨(i : Nat) - k, by rw [hl]; have := i.2; omega, by congr 1; omega⟩
  · intro h
    have key : ∀ i (hi : i < names.length), d ((shuffled names σ)[i]'(by rw [hl]; exact hi)) = colour k j i := by
      intro i hi
      rw [hget i hi]
      exact congrFun h ⟨i, hi⟩
    refine ⟨fun x hx => ?_, fun x hx => ?_, fun x hx => ?_⟩
    · rw [List.take_take, List.mem_take_iff_getElem] at hx
      obtain ⟨i, hi, rfl⟩ := hx
      rw [hl] at hi
      rw [key i (by omega), colour, if_pos (by omega), if_pos (by omega)]
    · rw [List.mem_drop_iff_getElem] at hx
      obtain ⟨i, hi, rfl⟩ := hx
      rw [List.length_take, hl] at hi
      rw [List.getElem_take, key (j + i) (by omega), colour, if_pos (by omega), if_neg (by omega)]
    · rw [List.mem_drop_iff_getElem] at hx
      obtain ⟨i, hi, rfl⟩ := hx
      rw [hl] at hi
      rw [key (k + i) (by omega), colour, if_neg (by omega)]

theorem prod_role (f : Spec.Role → Nat) : ∏ p, f p = f .labelled * f .unlabelled * f .test := by
  rw [show (Finset.univ : Finset Spec.Role) = {.labelled, .unlabelled, .test} from rfl]
  rw [Finset.prod_insert (by decide), Finset.prod_insert (by decide), Finset.prod_singleton, mul_assoc]

theorem role_card (names : List Int) (d : Int → Spec.Role) (p : Spec.Role) :
    Fintype.card {i : Fin names.length // d (names.get i) = p} = Spec.withRole names d p := by
  unfold Spec.withRole
  rw [countP_list]
  exact Fintype.card_congr (Equiv.subtypeEquivRight (fun i => by simp))

/-- **C101**: an assignment of roles to the instances that can come out of a split does so for as many permutations as there are ways
to arrange the instances within their roles. -/
theorem C101_split_count {names : List Int} {t rate : ℚ} {d : Int → Spec.Role} {σ₀ : Equiv.Perm (Fin names.length)} {r₀ : Round Int}
    (h₀ : randomRound (Spec.shuffleBy σ₀) names t rate = .ok r₀) (hd : Spec.Assigns r₀ d) :
    Spec.ways (fun σ : Equiv.Perm (Fin names.length) => ∃ r, randomRound (Spec.shuffleBy σ) names t rate = .ok r ∧ Spec.Assigns r d) =
      (Spec.withRole names d .labelled)! * (Spec.withRole names d .unlabelled)! * (Spec.withRole names d .test)! := by
  obtain ⟨k, j, hs⟩ := round_shape names t rate
  rw [hs σ₀] at h₀
  cases h₀
  have hev : (fun σ : Equiv.Perm (Fin names.length) => ∃ r, randomRound (Spec.shuffleBy σ) names t rate = .ok r ∧ Spec.Assigns r d) =
      (fun σ : Equiv.Perm (Fin names.length) => (fun i => d (names.get i)) ∘ σ = fun i : Fin names.length => colour k j i) := by
    funext σ
    rw [hs σ, eq_iff_iff, ← assigns_iff]
    constructor
    · rintro ⟨r, hr, h⟩
      cases hr
      exact h
    · exact fun h => ⟨_, rfl, h⟩
  rw [hev, count_colour (assigns_iff.1 hd), prod_role (fun p => (Fintype.card {i : Fin names.length // d (names.get i) = p})!)]
  simp only [role_card]

/-- **C101**: and every assignment with the same numbers can come out. -/
theorem C101_split_possible {names : List Int} {t rate : ℚ} {d d' : Int → Spec.Role} {σ₀ : Equiv.Perm (Fin names.length)} {r₀ : Round Int}
    (h₀ : randomRound (Spec.shuffleBy σ₀) names t rate = .ok r₀) (hd : Spec.Assigns r₀ d) (hn : ∀ p, Spec.withRole names d' p = Spec.withRole names d p) :
    ∃ σ : Equiv.Perm (Fin names.length), ∃ r, randomRound (Spec.shuffleBy σ) names t rate = .ok r ∧ Spec.Assigns r d' := by
  obtain ⟨k, j, hs⟩ := round_shape names t rate
  rw [hs σ₀] at h₀
  cases h₀
  have h := assigns_iff.1 hd
  obtain ⟨τ, hτ⟩ := exists_colour (f := fun i => d' (names.get i)) (c := fun i => d (names.get i)) (by
    intro g
    rw [role_card, role_card, hn])
  refine ⟨τ * σ₀, _, hs _, assigns_iff.2 ?_⟩
  rw [← h, ← hτ]
  rfl

/-- **C101**: in a split every two assignments of roles with the same numbers are equally likely. -/
theorem C101_split {names : List Int} {t rate : ℚ} {d d' : Int → Spec.Role} (hn : ∀ p, Spec.withRole names d' p = Spec.withRole names d p) :
    Spec.ways (fun σ : Equiv.Perm (Fin names.length) => ∃ r, randomRound (Spec.shuffleBy σ) names t rate = .ok r ∧ Spec.Assigns r d') =
    Spec.ways (fun σ : Equiv.Perm (Fin names.length) => ∃ r, randomRound (Spec.shuffleBy σ) names t rate = .ok r ∧ Spec.Assigns r d) := by
  by_cases h : ∃ σ : Equiv.Perm (Fin names.length), ∃ r, randomRound (Spec.shuffleBy σ) names t rate = .ok r ∧ Spec.Assigns r d
  · obtain ⟨σ₀, r₀, h₀, hd⟩ := h
    obtain ⟨σ₁, r₁, h₁, hd'⟩ := C101_split_possible h₀ hd hn
    rw [C101_split_count h₀ hd, C101_split_count h₁ hd', hn, hn, hn]
  · have h' : ¬ ∃ σ : Equiv.Perm (Fin names.length), ∃ r, randomRound (Spec.shuffleBy σ) names t rate = .ok r ∧ Spec.Assigns r d' := by
      rintro ⟨σ₁, r₁, h₁, hd'⟩
      exact h (C101_split_possible h₁ hd' (fun p => (hn p).symm))
    have z : ∀ {n} (E : Equiv.Perm (Fin n) → Prop), (¬ ∃ σ, E σ) → Spec.ways E = 0 := by
      intro n E hE
      unfold Spec.ways
      have : IsEmpty {σ // E σ} := ⟨fun s => hE ⟨s.1, s.2⟩⟩
      exact Nat.card_of_isEmpty
    rw [z _ h, z _ h']

/-! ## All classes labelled -/

theorem shuffled_perm {β : Type} (l : List β) (σ : Equiv.Perm (Fin l.length)) : (shuffled l σ).Perm l := by
  conv_rhs => rw [← List.ofFn_get l]
  unfold shuffled
  exact Equiv.Perm.ofFn_comp_perm σ l.get

/-- The labelled instances of two rounds with the same roles. -/
theorem label_perm {names : List Int} {k j : Nat} {d : Int → Spec.Role} {σ : Equiv.Perm (Fin names.length)}
    (h : Spec.Assigns ⟨(shuffled names σ).take k, (shuffled names σ).drop k, ((shuffled names σ).take k).take j, ((shuffled names σ).take k).drop j⟩ d) :
    (((shuffled names σ).take k).take j).Perm (names.filter (fun x => decide (d x = .labelled))) := by
  obtain ⟨h1, h2, h3⟩ := h
  simp only at h1 h2 h3
  have e : (shuffled names σ).filter (fun x => decide (d x = .labelled)) = ((shuffled names σ).take k).take j := by
    conv_lhs => rw [← List.take_append_drop k (shuffled names σ), ← List.take_append_drop j ((shuffled names σ).take k)]
    rw [List.filter_append, List.filter_append, List.filter_eq_self.2 (fun x hx => by simp [h1 x hx]),
      List.filter_eq_nil_iff.2 (fun x hx => by simp [h2 x hx]), List.filter_eq_nil_iff.2 (fun x hx => by simp [h3 x hx])]
    simp
  rw [← e]
  exact (shuffled_perm names σ).filter _

theorem pyAtAll_perm {β : Type} (l : List β) {L L' : List Int} (h : L.Perm L') :
    ∀ {vs}, pyAtAll l L = .ok vs → ∃ vs', pyAtAll l L' = .ok vs' ∧ vs.Perm vs' := by
  induction h with
  | nil => intro vs h; exact ⟨vs, h, List.Perm.refl _⟩
  | cons x _ ih =>
    intro vs h
    simp only [pyAtAll] at h ⊢
    cases hx : pyAt l x with
    | none => rw [hx] at h; cases h
    | some v =>
      rw [hx] at h
      simp only at h ⊢
      rename_i L1 L2 _
      cases h1 : pyAtAll l L1 with
      | error e => rw [h1] at h; cases h
      | ok us =>
        rw [h1] at h
        cases h
        obtain ⟨us', h2, h3⟩ := ih h1
        rw [h2]
        exact ⟨_, rfl, h3.cons v⟩
  | swap x y L =>
    intro vs h
    simp only [pyAtAll] at h ⊢
    cases hy : pyAt l y with
    | none => rw [hy] at h; cases h
    | some w =>
      cases hx : pyAt l x with
      | none => rw [hy, hx] at h; cases h
      | some v =>
        rw [hy, hx] at h
        cases h1 : pyAtAll l L with
        | error e => rw [h1] at h; cases h
        | ok us =>
          rw [h1] at h
          cases h
          exact ⟨_, rfl, List.Perm.swap _ _ _⟩
  | trans _ _ ih1 ih2 =>
    intro vs h
    obtain ⟨v1, h1, p1⟩ := ih1 h
    obtain ⟨v2, h2, p2⟩ := ih2 h1
    exact ⟨v2, h2, p1.trans p2⟩

theorem covers_perm (y : YArr) {L L' : List Int} (h : L.Perm L') {b : Bool} (hc : y.covers L = .ok b) : y.covers L' = .ok b := by
  cases y with
  | vec ys =>
    simp only [YArr.covers] at hc ⊢
    cases h1 : pyAtAll ys L with
    | error e => rw [h1] at hc; cases hc
    | ok vs =>
      obtain ⟨vs', h2, p⟩ := pyAtAll_perm ys h h1
      rw [h1] at hc
      rw [h2, ← hc]
      show Except.ok _ = Except.ok _
      simp only [MetricSymmetry.numUnique_perm p]
  | mat c rows =>
    simp only [YArr.covers] at hc ⊢
    cases h1 : pyAtAll rows L with
    | error e => rw [h1] at hc; cases hc
    | ok vs =>
      obtain ⟨vs', h2, p⟩ := pyAtAll_perm rows h h1
      rw [h1] at hc
      rw [h2, ← hc]
      show Except.ok _ = Except.ok _
      have hj : ∀ j, colSum vs' j = colSum vs j := fun j => by unfold colSum; rw [(p.map _).sum_eq]
      simp only [hj]

theorem coverLoop_append {names : List Int} {y : YArr} {t rate : ℚ} : ∀ {L : List Sh} (_ : coverLoop names y t rate L = none) (sh : Sh),
    coverLoop names y t rate (L ++ [sh]) = coverLoop names y t rate [sh]
  | [], _, _ => rfl
  | a :: L, h, sh => by
    rw [List.cons_append]
    simp only [coverLoop] at h ⊢
    cases hr : randomRound a names t rate with
    | error e => rw [hr] at h; cases h
    | ok r =>
      rw [hr] at h
      simp only at h ⊢
      cases hc : y.covers r.label with
      | error e => rw [hc] at h; cases h
      | ok b =>
        rw [hc] at h
        cases b with
        | true => cases h
        | false =>
          simp only at h ⊢
          have := coverLoop_append h sh
          simpa only [coverLoop] using this

/-- A result of the loop comes from one of its draws. -/
theorem coverLoop_result {names : List Int} {y : YArr} {t rate : ℚ} : ∀ {L : List Sh} {r : Round Int}, coverLoop names y t rate L = some (.ok r) →
    ∃ sh ∈ L, randomRound sh names t rate = .ok r ∧ y.covers r.label = .ok true
  | [], r, h => by cases h
  | a :: L, r, h => by
    simp only [coverLoop] at h
    cases hr : randomRound a names t rate with
    | error e => rw [hr] at h; cases h
    | ok r' =>
      rw [hr] at h
      simp only at h
      cases hc : y.covers r'.label with
      | error e => rw [hc] at h; cases h
      | ok b =>
        rw [hc] at h
        cases b with
        | true => cases h; exact ⟨a, by simp, hr, hc⟩
        | false =>
          obtain ⟨sh, h1, h2⟩ := coverLoop_result h
          exact ⟨sh, by simp [h1], h2⟩

theorem coverLoop_one {names : List Int} {y : YArr} {t rate : ℚ} {sh : Sh} {r : Round Int} :
    coverLoop names y t rate [sh] = some (.ok r) ↔ randomRound sh names t rate = .ok r ∧ y.covers r.label = .ok true := by
  constructor
  · intro h
    obtain ⟨sh', h1, h2⟩ := coverLoop_result h
    rw [List.mem_singleton] at h1
    rwa [h1] at h2
  · rintro ⟨h1, h2⟩
    simp only [coverLoop, h1, h2]

theorem role_of_colour {names : List Int} {k j : Nat} {d : Int → Spec.Role} {σ : Equiv.Perm (Fin names.length)}
    (h : (fun i => d (names.get i)) ∘ σ = fun i : Fin names.length => colour k j i) (p : Spec.Role) :
    Spec.withRole names d p = Fintype.card {i : Fin names.length // colour k j i = p} := by
  rw [← role_card]
  symm
  refine Fintype.card_congr (σ.subtypeEquiv (fun i => ?_))
  have := congrFun h i
  simp only [Function.comp_apply] at this
  rw [← this]

/-- **C101**, `all_class=True`: any two assignments of roles that can come out of the split at all do so at the `m + 1`-st draw in equally
many ways (for vectors and matrices of labels). -/
theorem C101_all_class {names : List Int} {y : YArr} {t rate : ℚ} {d d' : Int → Spec.Role} {L L' : List (Equiv.Perm (Fin names.length))}
    {r r' : Round Int} (h : coverLoop names y t rate (L.map Spec.shuffleBy) = some (.ok r)) (hd : Spec.Assigns r d)
    (h' : coverLoop names y t rate (L'.map Spec.shuffleBy) = some (.ok r')) (hd' : Spec.Assigns r' d') (m : Nat) :
    Spec.drawWays m (fun (s : Fin m → Equiv.Perm (Fin names.length)) (σ : Equiv.Perm (Fin names.length)) => coverLoop names y t rate ((List.ofFn s).map Spec.shuffleBy) = none ∧
        ∃ r, coverLoop names y t rate ((List.ofFn s).map Spec.shuffleBy ++ [Spec.shuffleBy σ]) = some (.ok r) ∧ Spec.Assigns r d) =
      Spec.drawWays m (fun (s : Fin m → Equiv.Perm (Fin names.length)) (σ : Equiv.Perm (Fin names.length)) => coverLoop names y t rate ((List.ofFn s).map Spec.shuffleBy) = none ∧
        ∃ r, coverLoop names y t rate ((List.ofFn s).map Spec.shuffleBy ++ [Spec.shuffleBy σ]) = some (.ok r) ∧ Spec.Assigns r d') := by
  obtain ⟨k, j, hs⟩ := round_shape names t rate
  -- the draws that lead to `d`
  have main : ∀ (d : Int → Spec.Role) (L : List (Equiv.Perm (Fin names.length))) (r : Round Int),
      coverLoop names y t rate (L.map Spec.shuffleBy) = some (.ok r) → Spec.Assigns r d →
      Spec.drawWays m (fun (s : Fin m → Equiv.Perm (Fin names.length)) (σ : Equiv.Perm (Fin names.length)) => coverLoop names y t rate ((List.ofFn s).map Spec.shuffleBy) = none ∧
        ∃ r, coverLoop names y t rate ((List.ofFn s).map Spec.shuffleBy ++ [Spec.shuffleBy σ]) = some (.ok r) ∧ Spec.Assigns r d) =
      Nat.card {s : Fin m → Equiv.Perm (Fin names.length) // coverLoop names y t rate ((List.ofFn s).map Spec.shuffleBy) = none} *
        ∏ p, (Fintype.card {i : Fin names.length // colour k j i = p})! := by
    intro d L r h hd
    obtain ⟨sh, hsh, hr, hc⟩ := coverLoop_result h
    obtain ⟨σ₀, _, rfl⟩ := List.mem_map.1 hsh
    have hr' := hr
    rw [hs σ₀] at hr'
    cases hr'
    have hcol := assigns_iff.1 hd
    have hw : Spec.ways (fun σ : Equiv.Perm (Fin names.length) => (fun i => d (names.get i)) ∘ σ = fun i : Fin names.length => colour k j i) =
        ∏ p, (Fintype.card {i : Fin names.length // colour k j i = p})! := by
      rw [count_colour hcol]
      refine Finset.prod_congr rfl (fun p _ => ?_)
      rw [role_card, role_of_colour hcol]
    rw [← hw]
    unfold Spec.ways Spec.drawWays
    rw [← Nat.card_prod]
    refine Nat.card_congr ((Equiv.subtypeEquivRight ?_).trans (Equiv.subtypeProdEquivProd
      (p := fun s : Fin m → Equiv.Perm (Fin names.length) => coverLoop names y t rate ((List.ofFn s).map Spec.shuffleBy) = none)
      (q := fun σ : Equiv.Perm (Fin names.length) => (fun i => d (names.get i)) ∘ σ = fun i : Fin names.length => colour k j i)))
    rintro ⟨s, σ⟩
    simp only
    refine and_congr_right (fun hn => ?_)
    rw [coverLoop_append hn]
    constructor
    · rintro ⟨r, h1, h2⟩
      have h3 := (coverLoop_one.1 h1).1
      rw [hs σ] at h3
      cases h3
      exact assigns_iff.1 h2
    · intro h1
      have h2 := assigns_iff.2 h1
      exact ⟨_, coverLoop_one.2 ⟨hs σ, covers_perm y ((label_perm hd).trans (label_perm h2).symm) hc⟩, h2⟩
  rw [main d L r h hd, main d' L' r' h' hd']

/-! ## Random selection -/

theorem take_event {β : Type} {l : List β} {k : Nat} {S : β → Bool} (hk : l.countP S = k) (σ : Equiv.Perm (Fin l.length)) :
    ((shuffled l σ).take k).Perm (l.filter S) ↔ (fun i => S (l.get i)) ∘ σ = fun i : Fin l.length => decide ((i : Nat) < k) := by
  have hl : (shuffled l σ).length = l.length := by simp [shuffled]
  have hkl : k ≤ l.length := by rw [← hk]; exact List.countP_le_length
  have hp := shuffled_perm l σ
  have hget : ∀ i (h : i < l.length), (shuffled l σ)[i]'(by rw [hl]; exact h) = l.get (σ ⟨i, h⟩) := by
    intro i h
    simp [shuffled]
  constructor
  · intro h
    have h1 : ∀ x ∈ (shuffled l σ).take k, S x = true := fun x hx => (List.mem_filter.1 (h.mem_iff.1 hx)).2
    have h2 : ((shuffled l σ).drop k).countP S = 0 := by
      have e := hp.countP_eq S
      rw [← List.take_append_drop k (shuffled l σ), List.countP_append, List.countP_eq_length.2 h1, hk, List.length_take, hl] at e
      omega
    rw [List.countP_eq_zero] at h2
    funext i
    simp only [Function.comp_apply]
    rw [show l.get (σ i) = (shuffled l σ)[(i:Nat)]'(by rw [hl]; exact i.2) from (hget i i.2).symm]
    by_cases hik : (i : Nat) < k
    · rw [decide_eq_true hik]
      apply h1
      rw [List.mem_take_iff_getElem]
      exact ⟨i, by rw [hl]; have := i.2; omega, rfl⟩
    · rw [decide_eq_false hik, Bool.eq_false_iff]
      apply h2
      rw [List.mem_drop_iff_getElem]
      exact ⟨(i : Nat) - k, by rw [hl]; have := i.2; omega, by congr 1; omega⟩
  · intro h
    have key : ∀ i (hi : i < l.length), S ((shuffled l σ)[i]'(by rw [hl]; exact hi)) = decide (i < k) := by
      intro i hi
      rw [hget i hi]
      exact congrFun h ⟨i, hi⟩
    have e : (shuffled l σ).filter S = (shuffled l σ).take k := by
      conv_lhs => rw [← List.take_append_drop k (shuffled l σ)]
      rw [List.filter_append, List.filter_eq_self.2, List.filter_eq_nil_iff.2, List.append_nil]
      · intro x hx
        rw [List.mem_drop_iff_getElem] at hx
        obtain ⟨i, hi, rfl⟩ := hx
        rw [hl] at hi
        rw [key (k + i) (by omega)]
        simp
      · intro x hx
        rw [List.mem_take_iff_getElem] at hx
        obtain ⟨i, hi, rfl⟩ := hx
        rw [hl] at hi
        rw [key i (by omega)]
        simp; omega
    rw [← e]
    exact hp.filter S

theorem take_count {β : Type} {l : List β} {k : Nat} {S : β → Bool} (hk : l.countP S = k) :
    Spec.ways (fun σ : Equiv.Perm (Fin l.length) => ((shuffled l σ).take k).Perm (l.filter S)) = k ! * (l.length - k)! := by
  have hkl : k ≤ l.length := by rw [← hk]; exact List.countP_le_length
  have hev : (fun σ : Equiv.Perm (Fin l.length) => ((shuffled l σ).take k).Perm (l.filter S)) =
      fun σ : Equiv.Perm (Fin l.length) => (fun i => S (l.get i)) ∘ σ = fun i : Fin l.length => decide ((i : Nat) < k) :=
    funext (fun σ => propext (take_event hk σ))
  have c1 : Fintype.card {i : Fin l.length // S (l.get i) = true} = k := by rw [← countP_list, hk]
  have c2 : Fintype.card {i : Fin l.length // S (l.get i) = false} = l.length - k := by
    have h1 := countP_list (fun x => !S x) l
    have h2 := List.length_eq_countP_add_countP S (l := l)
    have h3 : l.countP (fun x => !S x) = l.length - k := by
      have : l.countP (fun a => decide ¬S a = true) = l.countP (fun x => !S x) := List.countP_congr (fun x _ => by simp)
      omega
    rw [← h3, h1]
    exact Fintype.card_congr (Equiv.subtypeEquivRight (fun i => by simp))
  have d1 : Fintype.card {i : Fin l.length // decide ((i : Nat) < k) = true} = k := by
    rw [Fintype.card_subtype]
    have : (Finset.univ.filter (fun i : Fin l.length => decide ((i : Nat) < k) = true)) =
        Finset.univ.map (Fin.castLEEmb hkl) := by
      ext i
      simp only [Finset.mem_filter, Finset.mem_univ, true_and, Finset.mem_map, decide_eq_true_eq]
      constructor
      · intro h; exact ⟨⟨i, h⟩, rfl⟩
      · rintro ⟨j, rfl⟩; exact j.2
    rw [this, Finset.card_map, Finset.card_univ, Fintype.card_fin]
  have d2 : Fintype.card {i : Fin l.length // decide ((i : Nat) < k) = false} = l.length - k := by
    have h := Fintype.card_subtype_compl (fun i : Fin l.length => decide ((i : Nat) < k) = true)
    rw [d1, Fintype.card_fin] at h
    rw [← h]
    exact Fintype.card_congr (Equiv.subtypeEquivRight (fun i => by simp))
  obtain ⟨σ₀, h₀⟩ := exists_colour (f := fun i => S (l.get i)) (c := fun i : Fin l.length => decide ((i : Nat) < k)) (by
    intro g
    cases g with
    | true => rw [c1, d1]
    | false => rw [c2, d2])
  rw [hev, count_colour h₀, Fintype.prod_bool, c1, c2]

/-- **C101**: `QueryInstanceRandom` (and `QueryRandom`): every batch of `k` of the `n` unlabelled indexes is selected for `k! (n - k)!` of the
`n!` permutations. -/
theorem C101_random_select {α : Type} {l : List α} {k : Nat} (hk : k < l.length) {S : α → Bool} (hS : l.countP S = k) :
    Spec.ways (fun σ : Equiv.Perm (Fin l.length) => ∃ r, Select.random (Spec.shuffleBy σ) (.coll l) k = .ok r ∧ r.Perm (l.filter S)) =
      k ! * (l.length - k)! := by
  rw [← take_count hS]
  congr 1
  funext σ
  have hr : Select.random (Spec.shuffleBy σ) (.coll l) k = .ok ((shuffled l σ).take k) := by
    unfold Select.random
    rw [if_neg (by show ¬ ((l.length : Int) ≤ k); omega)]
    simp only [Select.Coll.items, Select.Coll.index]
    unfold randperm
    simp only [sub_add_cancel, sub_zero]
    rw [if_neg (by omega), shuffle_range]
    simp only
    unfold pySliceTo
    rw [if_pos (by omega), Int.toNat_natCast, pick_take]
  rw [hr]
  apply propext
  constructor
  · rintro ⟨r, h1, h2⟩
    cases h1
    exact h2
  · exact fun h => ⟨_, rfl, h⟩

/-- **C101**: `IndexCollection.random_sampling`: every part of the size asked for is taken for equally many permutations. -/
theorem C101_random_sampling {c : IC} (hc : IC.Reachable c) {rate : ℚ} (h0 : 0 < rate) (h1 : rate < 1) {k : Nat}
    (hk : Spec.IsRound (rate * c.inner.length) k) {S : Val → Bool} (hS : c.inner.countP S = k) :
    Spec.ways (fun σ : Equiv.Perm (Fin c.inner.length) =>
      ∃ r, IC.randomSampling (Spec.shuffleBy σ) c rate = .ok r ∧ ∀ v ∈ c.inner, pyMem v r.inner = true ↔ S v = true) = k ! * (c.inner.length - k)! := by
  have hkl : k ≤ c.inner.length := by rw [← hS]; exact List.countP_le_length
  have hkey := IC.reachable_nodup hc
  have hinj : ∀ v ∈ c.inner, ∀ w ∈ c.inner, v.key = w.key → v = w := fun v hv w hw h => List.inj_on_of_nodup_map hkey hv hw h
  have hnd : c.inner.Nodup := List.Nodup.of_map _ hkey
  have hkind : (∀ v ∈ c.inner, v.base.kind = .str) ∨ (∀ v ∈ c.inner, v.base.kind ≠ .str) := by
    have hwt := IC.reachable_wellTyped hc
    by_cases h : ∃ v ∈ c.inner, v.base.kind = .str
    · left
      obtain ⟨v, hv, hk⟩ := h
      intro w hw
      obtain ⟨t, ht, hi⟩ := hwt v hv
      obtain ⟨t', ht', hi'⟩ := hwt w hw
      rw [ht] at ht'; cases ht'
      rcases t with ⟨np, k⟩
      rcases v with ⟨_, vb⟩
      rcases w with ⟨_, wb⟩
      cases np <;> cases k <;> cases vb <;> cases wb <;> simp_all [isInstance, Val.item, Base.kind]
    · right
      intro v hv hk
      exact h ⟨v, hv, hk⟩
  rw [← take_count hS]
  congr 1
  funext σ
  have hsub : ∀ v ∈ (shuffled c.inner σ).take k, v ∈ c.inner := fun v hv => (shuffled_perm c.inner σ).mem_iff.1 (List.take_subset _ _ hv)
  have hr : IC.randomSampling (Spec.shuffleBy σ) c rate = .ok (IC.mk' ((shuffled c.inner σ).take k)) := by
    unfold IC.randomSampling
    rw [if_pos ⟨h0, h1⟩, pyRound_eq hk]
    unfold randperm
    simp only [sub_add_cancel, sub_zero]
    rw [if_neg (by omega), shuffle_range]
    simp only
    unfold pySliceTo
    rw [if_pos (by omega), Int.toNat_natCast, pick_take]
  have hmem := (C02_constructor_partial ((shuffled c.inner σ).take k)
    (hkind.imp (fun h v hv => h v (hsub v hv)) (fun h v hv => h v (hsub v hv)))).1
  have hmem' : ∀ v ∈ c.inner, pyMem v (IC.mk' ((shuffled c.inner σ).take k)).inner = true ↔ v ∈ (shuffled c.inner σ).take k := by
    intro v hv
    rw [hmem, IC.pyMem_iff, List.mem_map]
    constructor
    · rintro ⟨w, hw, e⟩
      rwa [hinj v hv w (hsub w hw) e.symm]
    · exact fun h => ⟨v, h, rfl⟩
  rw [hr]
  apply propext
  have hnt : ((shuffled c.inner σ).take k).Nodup := ((shuffled_perm c.inner σ).nodup_iff.2 hnd).sublist (List.take_sublist _ _)
  constructor
  · rintro ⟨r, e, h⟩
    cases e
    refine (List.perm_ext_iff_of_nodup hnt (hnd.filter _)).2 (fun v => ?_)
    rw [List.mem_filter]
    constructor
    · intro hv
      exact ⟨hsub v hv, (h v (hsub v hv)).1 ((hmem' v (hsub v hv)).2 hv)⟩
    · rintro ⟨h1, h2⟩
      exact (hmem' v h1).1 ((h v h1).2 h2)
  · intro h
    refine ⟨_, rfl, fun v hv => ?_⟩
    rw [hmem' v hv, h.mem_iff, List.mem_filter]
    exact ⟨fun h => h.2, fun h => ⟨hv, h⟩⟩

/-! ## Concrete cases -/

/-- The roles in a split of four instances. -/
def fourRoles : Int → Spec.Role := fun x => if x = 0 then .labelled else if x = 1 then .unlabelled else .test

/-- Two of 24 permutations lead to these roles. -/
example : Spec.ways (fun σ : Equiv.Perm (Fin ([0, 1, 2, 3] : List Int).length) =>
    ∃ r, randomRound (Spec.shuffleBy σ) [0, 1, 2, 3] (1 / 2) (1 / 2) = .ok r ∧ Spec.Assigns r fourRoles) = 2 := by
  have h : randomRound (Spec.shuffleBy (1 : Equiv.Perm (Fin ([0, 1, 2, 3] : List Int).length))) [0, 1, 2, 3] (1 / 2) (1 / 2) =
      .ok ⟨[0, 1], [2, 3], [0], [1]⟩ := by decide +kernel
  rw [C101_split_count h (by simp [Spec.Assigns, fourRoles])]
  decide +kernel

example : Spec.ways (fun σ : Equiv.Perm (Fin [10, 20, 30].length) =>
    ∃ r, Select.random (Spec.shuffleBy σ) (.coll [10, 20, 30]) 1 = .ok r ∧ r.Perm ([10, 20, 30].filter (fun x => decide (x = 20)))) = 2 :=
  C101_random_select (k := 1) (by decide) (by decide)

/-- Two splits of four instances of two classes, both with all classes labelled. -/
example : coverLoop [0, 1, 2, 3] (.vec [0, 1, 0, 1]) 0 (1 / 2)
      (([1] : List (Equiv.Perm (Fin ([0, 1, 2, 3] : List Int).length))).map Spec.shuffleBy) = some (.ok ⟨[0, 1, 2, 3], [], [0, 1], [2, 3]⟩) ∧
    coverLoop [0, 1, 2, 3] (.vec [0, 1, 0, 1]) 0 (1 / 2)
      (([Equiv.swap 1 2, Equiv.swap 0 2] : List (Equiv.Perm (Fin ([0, 1, 2, 3] : List Int).length))).map Spec.shuffleBy) =
        some (.ok ⟨[2, 1, 0, 3], [], [2, 1], [0, 3]⟩) := by
  decide +kernel

end Alipy.Fair
