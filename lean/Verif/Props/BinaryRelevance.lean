import Verif.Model.BinaryRelevance
import Mathlib.Data.List.GetD
import Mathlib.Tactic.Linarith
import Mathlib.Tactic.NormNum

/-! # C87: binary relevance -/
namespace Alipy.BR
variable {K : Type} [Field K] [LinearOrder K]

namespace Spec

/-- A matrix `M` has an entry for every example and label, and the entry is related by `R` to example and label. -/
def Entries {β : Type} (X : Feat K) (labels : Nat) (M : List (List β)) (R : List K → Nat → β → Prop) : Prop :=
  M.length = X.rows.length ∧ ∀ (k : Nat) (x : List K), X.rows[k]? = some x → ∃ row : List β, M[k]? = some row ∧ row.length = labels ∧
    ∀ (i : Nat) (v : β), row[i]? = some v → R x i v

/-- All training examples have the same value `v` for label `i`. -/
def Constant (Y : List (List Int)) (i : Nat) (v : Int) : Prop := Y ≠ [] ∧ ∀ r ∈ Y, r[i]? = some v

/-- Both values occur for label `i`. -/
def Mixed (Y : List (List Int)) (i : Nat) : Prop := ∃ r ∈ Y, ∃ s ∈ Y, ∃ v w : Int, r[i]? = some v ∧ s[i]? = some w ∧ v ≠ w

/-- A classifier for labels 0 and 1 whose answers agree with each other: two probabilities, the one for 1 is at least 1/2 exactly if the label is 1;
`decision_function` is a number, positive exactly if the label is 1. -/
def Coherent (c : Clf K) : Prop := ∀ x : List K, ∃ p v : K, c.proba x = [1 - p, p] ∧ c.decision x = .value v ∧ (c.label x = 0 ∨ c.label x = 1) ∧
    (c.label x = 1 ↔ 1 / 2 ≤ p) ∧ (c.label x = 1 ↔ 0 < v)

end Spec

/-! ## Auxiliary -/

theorem mapM_some {α β : Type} {f : α → Except PyErr β} : ∀ {l : List α} {r : List β}, l.mapM f = .ok r → r.length = l.length ∧
    ∀ (i : Nat) (a : α), l[i]? = some a → ∃ b : β, r[i]? = some b ∧ f a = .ok b := by
  intro l
  induction l with
  | nil => intro r h; simp [List.mapM_nil, pure, Except.pure] at h; subst h; simp
  | cons a l ih =>
    intro r h
    rw [List.mapM_cons] at h
    cases hf : f a with
    | error e => rw [hf] at h; simp [bind, Except.bind] at h
    | ok b =>
      rw [hf] at h
      cases hl : l.mapM f with
      | error e => rw [hl] at h; simp [bind, Except.bind] at h
      | ok bs =>
        rw [hl] at h
        simp [bind, Except.bind, pure, Except.pure] at h
        subst h
        obtain ⟨h1, h2⟩ := ih hl
        refine ⟨by simp [h1], ?_⟩
        intro i x hi
        cases i with
        | zero => simp at hi; subst hi; exact ⟨b, by simp, hf⟩
        | succ i => simp at hi; simpa using h2 i x hi

theorem mapM_ok_of {α β : Type} {f : α → Except PyErr β} : ∀ {l : List α}, (∀ a ∈ l, ∃ b, f a = .ok b) → ∃ r, l.mapM f = .ok r := by
  intro l
  induction l with
  | nil => intro _; exact ⟨[], rfl⟩
  | cons a l ih =>
    intro h
    obtain ⟨b, hb⟩ := h a (by simp)
    obtain ⟨r, hr⟩ := ih (fun x hx => h x (by simp [hx]))
    exact ⟨b :: r, by rw [List.mapM_cons, hb, hr]; rfl⟩

theorem mapM_congr' {α β : Type} {f g : α → Except PyErr β} : ∀ {l : List α}, (∀ a ∈ l, f a = g a) → l.mapM f = l.mapM g := by
  intro l
  induction l with
  | nil => intro _; rfl
  | cons a l ih => intro h; rw [List.mapM_cons, List.mapM_cons, h a (by simp), ih (fun x hx => h x (by simp [hx]))]

theorem single_column {Y : List (List Int)} {i : Nat} {v : Int} (h : Spec.Constant Y i v) : single (column Y i) = true ∧ (column Y i).headD 0 = v := by
  obtain ⟨h0, h⟩ := h
  have hr : ∀ r ∈ Y, r.getD i 0 = v := fun r hr => by rw [List.getD_eq_getElem?_getD, h r hr]; rfl
  cases Y with
  | nil => exact absurd rfl h0
  | cons r Y =>
    have h1 := hr r (by simp)
    refine ⟨?_, by simpa [column] using h1⟩
    simp only [column, List.map_cons, single, h1]
    simp only [List.all_eq_true, List.mem_map, decide_eq_true_eq]
    rintro _ ⟨s, hs, rfl⟩
    exact hr s (by simp [hs])

theorem not_single_column {Y : List (List Int)} {i : Nat} (h : Spec.Mixed Y i) : single (column Y i) = false := by
  obtain ⟨r, hr, s, hs, v, w, h1, h2, hne⟩ := h
  have e1 : v ∈ column Y i := List.mem_map.2 ⟨r, hr, by rw [List.getD_eq_getElem?_getD, h1]; rfl⟩
  have e2 : w ∈ column Y i := List.mem_map.2 ⟨s, hs, by rw [List.getD_eq_getElem?_getD, h2]; rfl⟩
  cases hc : column Y i with
  | nil => rfl
  | cons a l =>
    rw [hc] at e1 e2
    cases hb : single (a :: l) with
    | false => rfl
    | true =>
      simp only [single, List.all_eq_true, decide_eq_true_eq] at hb
      have hv : v = a := by rcases List.mem_cons.1 e1 with h | h; exacts [h, hb v h]
      have hw : w = a := by rcases List.mem_cons.1 e2 with h | h; exacts [h, hb w h]
      exact absurd (hv.trans hw.symm) hne

/-- The member for label `i` of a trained object. -/
theorem train_member {b : Base K} {X : Feat K} {labels : Nat} {Y : List (List Int)} {t : Trained K} (h : train b X labels Y = .ok t) :
    t.features = X.cols ∧ t.clfs.length = labels ∧ ∀ i < labels, ∃ m, t.clfs[i]? = some m ∧ member b X (column Y i) = .ok m := by
  unfold train at h
  split at h
  · exact absurd h (by simp)
  · rename_i ms hms
    injection h with h
    subst h
    obtain ⟨h1, h2⟩ := mapM_some hms
    refine ⟨rfl, by simpa using h1, ?_⟩
    intro i hi
    exact h2 i i (by simp [hi])

theorem answers_entries {β : Type} {t : Trained K} {X : Feat K} {f : Member K → List K → Except PyErr β} {M : List (List β)}
    (h : answers (some t) X f = .ok M) : Spec.Entries X t.clfs.length M (fun x i v => ∃ m, t.clfs[i]? = some m ∧ f m x = .ok v) := by
  unfold answers at h
  simp only at h
  split at h
  · exact absurd h (by simp)
  · obtain ⟨h1, h2⟩ := mapM_some h
    refine ⟨h1, ?_⟩
    intro k x hx
    obtain ⟨row, hr, hm⟩ := h2 k x hx
    obtain ⟨h3, h4⟩ := mapM_some hm
    refine ⟨row, hr, h3, ?_⟩
    intro i v hv
    have hi : i < t.clfs.length := by rw [← h3]; exact (List.getElem?_eq_some_iff.1 hv).1
    obtain ⟨b, hb, hf⟩ := h4 i t.clfs[i] (by simp [hi])
    rw [hv] at hb
    injection hb with hb
    exact ⟨t.clfs[i], by simp [hi], by rw [hb]; exact hf⟩

theorem answers_ok {β : Type} {t : Trained K} {X : Feat K} {f : Member K → List K → Except PyErr β} (hX : X.cols = t.features)
    (hf : ∀ m ∈ t.clfs, ∀ x ∈ X.rows, ∃ v, f m x = .ok v) : ∃ M, answers (some t) X f = .ok M := by
  unfold answers
  simp only [hX, ne_eq, not_true_eq_false, if_false]
  exact mapM_ok_of (fun x hx => mapM_ok_of (fun m hm => hf m hm x hx))

/-! ## The theorems -/

/-- **C87** (labels are independent): the classifier of a label, and so every answer for it, depends on the training labels of that label only: two trained
objects with the same labels in column `i` give the same answers for label `i`, whatever the other columns are. -/
theorem C87_independent {b : Base K} {X : Feat K} {n n' : Nat} {Y Y' : List (List Int)} {t t' : Trained K} (h : train b X n Y = .ok t)
    (h' : train b X n' Y' = .ok t') {i : Nat} (hi : i < n) (hi' : i < n') (hY : Y.map (fun r => r.getD i 0) = Y'.map (fun r => r.getD i 0)) {Z : Feat K} :
    (∀ P P', predict (some t) Z = .ok P → predict (some t') Z = .ok P' → ∀ k : Nat, P[k]?.bind (fun r => r[i]?) = P'[k]?.bind (fun r => r[i]?)) ∧
    (∀ P P', predictProba (some t) Z = .ok P → predictProba (some t') Z = .ok P' → ∀ k : Nat, P[k]?.bind (fun r => r[i]?) = P'[k]?.bind (fun r => r[i]?)) ∧
    ∀ P P', predictReal (some t) Z = .ok P → predictReal (some t') Z = .ok P' → ∀ k : Nat, P[k]?.bind (fun r => r[i]?) = P'[k]?.bind (fun r => r[i]?) := by
  obtain ⟨-, l1, a1⟩ := train_member h
  obtain ⟨-, l2, a2⟩ := train_member h'
  obtain ⟨m, hm, e1⟩ := a1 i hi
  obtain ⟨m', hm', e2⟩ := a2 i hi'
  have hc : column Y i = column Y' i := hY
  rw [hc, e2] at e1
  injection e1 with e1
  subst e1
  have key : ∀ {β : Type} (f : Member K → List K → Except PyErr β) (P P' : List (List β)), answers (some t) Z f = .ok P → answers (some t') Z f = .ok P' →
      ∀ k : Nat, P[k]?.bind (fun r => r[i]?) = P'[k]?.bind (fun r => r[i]?) := by
    intro β f P P' hP hP' k
    obtain ⟨p1, p2⟩ := answers_entries hP
    obtain ⟨q1, q2⟩ := answers_entries hP'
    cases hk : Z.rows[k]? with
    | none =>
      have hl := List.getElem?_eq_none_iff.1 hk
      rw [List.getElem?_eq_none (by omega), List.getElem?_eq_none (by omega)]
    | some x =>
      obtain ⟨r, r1, r2, r3⟩ := p2 k x hk
      obtain ⟨s, s1, s2, s3⟩ := q2 k x hk
      rw [r1, s1]
      have hir : i < r.length := by omega
      have his : i < s.length := by omega
      obtain ⟨w, w1, w2⟩ := r3 i r[i] (by simp [hir])
      obtain ⟨z, z1, z2⟩ := s3 i s[i] (by simp [his])
      rw [hm] at w1
      rw [hm'] at z1
      injection w1 with w1
      injection z1 with z1
      subst w1
      subst z1
      rw [w2] at z2
      injection z2 with z2
      simp [hir, his, z2]
  exact ⟨fun P P' => key _ P P', fun P P' => key _ P P', fun P P' => key _ P P'⟩

/-- **C87** (shape): every example gets an answer for every label, and a label that took both values in training gets the answer of a copy of the base
classifier trained with exactly the examples and this label. -/
theorem C87_trained_on_column {b : Base K} {X : Feat K} {labels : Nat} {Y : List (List Int)} {t : Trained K} (h : train b X labels Y = .ok t) {Z : Feat K}
    {P : List (List Int)} (hP : predict (some t) Z = .ok P) : Spec.Entries Z labels P (fun x i v => Spec.Mixed Y i →
      ∃ c, b.fit X (Y.map (fun r => r.getD i 0)) = .ok c ∧ v = c.label x) := by
  obtain ⟨-, l1, a1⟩ := train_member h
  obtain ⟨p1, p2⟩ := answers_entries hP
  refine ⟨p1, ?_⟩
  intro k x hx
  obtain ⟨row, r1, r2, r3⟩ := p2 k x hx
  refine ⟨row, r1, r2.trans l1, ?_⟩
  intro i v hv hmix
  obtain ⟨m, m1, m2⟩ := r3 i v hv
  have hi : i < labels := by rw [← l1]; exact (List.getElem?_eq_some_iff.1 m1).1
  obtain ⟨m', m3, m4⟩ := a1 i hi
  rw [m1] at m3
  injection m3 with m3
  subst m3
  unfold member at m4
  rw [not_single_column hmix] at m4
  simp only [Bool.false_eq_true, if_false] at m4
  split at m4
  · exact absurd m4 (by simp)
  · rename_i c hc
    injection m4 with m4
    subst m4
    injection m2 with m2
    exact ⟨c, hc, m2.symm⟩

/-- The answers for a label with one value in training. -/
theorem constant_answers {b : Base K} {X : Feat K} {labels : Nat} {Y : List (List Int)} {t : Trained K} (h : train b X labels Y = .ok t) {i : Nat} {v : Int}
    (hi : i < labels) (hc : Spec.Constant Y i v) : t.clfs[i]? = some (.dummy v) := by
  obtain ⟨-, -, a1⟩ := train_member h
  obtain ⟨m, m1, m2⟩ := a1 i hi
  obtain ⟨c1, c2⟩ := single_column hc
  unfold member at m2
  rw [c1, c2] at m2
  injection m2 with m2
  rw [m1, m2]

/-- **C87** (refused): an object that has not been trained, or examples with another number of features than in training, give ValueError. -/
theorem C87_refused (Z : Feat K) : (predict none Z = .error .valueError ∧ predictProba none Z = .error .valueError ∧ predictReal none Z = .error .valueError) ∧
    ∀ {b : Base K} {X : Feat K} {labels : Nat} {Y : List (List Int)} {t : Trained K}, train b X labels Y = .ok t → Z.cols ≠ X.cols →
      predict (some t) Z = .error .valueError ∧ predictProba (some t) Z = .error .valueError ∧ predictReal (some t) Z = .error .valueError := by
  refine ⟨⟨rfl, rfl, rfl⟩, ?_⟩
  intro b X labels Y t h hne
  rw [← (train_member h).1] at hne
  refine ⟨?_, ?_, ?_⟩ <;> simp [predict, predictProba, predictReal, answers, hne]

/-- **C87** (labels with one value, labels 0 and 1): a label which all training examples have is predicted for every example, with probability 1 and the real
value 1; a label which no training example has is predicted as 0, with probability 0 and the real value -1. -/
theorem C87_constant_partial {b : Base K} {X : Feat K} {labels : Nat} {Y : List (List Int)} {t : Trained K} (h : train b X labels Y = .ok t) {i : Nat} {v : Int}
    (hc : Spec.Constant Y i v) (hv : v = 0 ∨ v = 1) {Z : Feat K} :
    (∀ P, predict (some t) Z = .ok P → Spec.Entries Z labels P (fun _ j p => j = i → p = v)) ∧
    (∀ P, predictProba (some t) Z = .ok P → Spec.Entries Z labels P (fun _ j p => j = i → p = if v = 1 then 1 else 0)) ∧
    ∀ P, predictReal (some t) Z = .ok P → Spec.Entries Z labels P (fun _ j p => j = i → p = if v = 1 then 1 else -1) := by
  obtain ⟨-, l1, -⟩ := train_member h
  have key : ∀ {β : Type} (f : Member K → List K → Except PyErr β) (w : β), (∀ x, f (.dummy v) x = .ok w) → ∀ P, answers (some t) Z f = .ok P →
      Spec.Entries Z labels P (fun _ j p => j = i → p = w) := by
    intro β f w hf P hP
    obtain ⟨p1, p2⟩ := answers_entries hP
    refine ⟨p1, ?_⟩
    intro k x hx
    obtain ⟨row, r1, r2, r3⟩ := p2 k x hx
    refine ⟨row, r1, r2.trans l1, ?_⟩
    rintro j p hp rfl
    obtain ⟨m, m1, m2⟩ := r3 j p hp
    have hj : j < labels := by rw [← l1]; exact (List.getElem?_eq_some_iff.1 m1).1
    rw [constant_answers h hj hc] at m1
    injection m1 with m1
    subst m1
    rw [hf] at m2
    injection m2 with m2
    exact m2.symm
  refine ⟨fun P => key _ v (fun _ => rfl) P, fun P => key _ _ ?_ P, fun P => key _ _ ?_ P⟩
  · rcases hv with rfl | rfl <;> intro x <;> simp [Member.proba, dummyRow, second]
  · rcases hv with rfl | rfl <;> intro x <;> simp [Member.real, dummyRow, second]
    norm_num

/-- **C87** fails for labels 1 and -1, which the other multi-label strategies use: a label no training example has (always -1) is predicted as -1, but with
probability 1 and the real value 1, as if all of them had it. -/
theorem C87_minus_one_violation {b : Base K} {X : Feat K} {labels : Nat} {Y : List (List Int)} {t : Trained K} (h : train b X labels Y = .ok t) {i : Nat}
    (hi : i < labels) (hc : Spec.Constant Y i (-1)) :
    ∃ m, t.clfs[i]? = some m ∧ ∀ x, m.label x = -1 ∧ m.proba x = .ok 1 ∧ m.real x = .ok 1 := by
  refine ⟨_, constant_answers h hi hc, fun x => ⟨rfl, by simp [Member.proba, dummyRow, second], ?_⟩⟩
  simp [Member.real, dummyRow, second]
  norm_num

/-- **C87** (agreement, labels 0 and 1, SVC or LogisticRegression): if the answers of the trained copies of the base classifier agree with each other, so do
those of binary relevance: no method raises, the label is 1 exactly if the probability is at least 1/2, and exactly if the real value is positive. -/
theorem C87_agree_partial [IsStrictOrderedRing K] {b : Base K} (hb : b.kind = .svc ∨ b.kind = .logistic) {X : Feat K} {labels : Nat} {Y : List (List Int)}
    (hcl : ∀ col c, b.fit X col = .ok c → Spec.Coherent c) (hY0 : Y ≠ []) (hY : ∀ r ∈ Y, r.length = labels ∧ ∀ v ∈ r, v = 0 ∨ v = 1) {t : Trained K}
    (h : train b X labels Y = .ok t) {Z : Feat K} (hZ : Z.cols = X.cols) :
    ∃ L P R, predict (some t) Z = .ok L ∧ predictProba (some t) Z = .ok P ∧ predictReal (some t) Z = .ok R ∧
      ∀ (k i : Nat) (l : Int) (p r : K), L[k]?.bind (fun row => row[i]?) = some l → P[k]?.bind (fun row => row[i]?) = some p →
        R[k]?.bind (fun row => row[i]?) = some r → (l = 0 ∨ l = 1) ∧ (l = 1 ↔ 1 / 2 ≤ p) ∧ (l = 1 ↔ 0 < r) := by
  obtain ⟨f1, l1, a1⟩ := train_member h
  have half : ¬ (1 / 2 : K) ≤ 0 := by norm_num
  -- every member agrees with itself
  have hm : ∀ (i : Nat) (m : Member K), t.clfs[i]? = some m → ∀ x, ∃ p r, m.proba x = .ok p ∧ m.real x = .ok r ∧ (m.label x = 0 ∨ m.label x = 1) ∧
      (m.label x = 1 ↔ 1 / 2 ≤ p) ∧ (m.label x = 1 ↔ 0 < r) := by
    intro i m hmi x
    have hi : i < labels := by rw [← l1]; exact (List.getElem?_eq_some_iff.1 hmi).1
    obtain ⟨m', m1, m2⟩ := a1 i hi
    rw [hmi] at m1
    injection m1 with m1
    subst m1
    unfold member at m2
    split at m2
    · injection m2 with m2
      subst m2
      have hv : (column Y i).headD 0 = 0 ∨ (column Y i).headD 0 = 1 := by
        cases Y with
        | nil => exact absurd rfl hY0
        | cons r Y =>
          obtain ⟨h1, h2⟩ := hY r (by simp)
          have hir : i < r.length := by omega
          have : r.getD i 0 = r[i] := by simp [List.getD_eq_getElem?_getD, hir]
          simp only [column, List.map_cons, List.headD_cons, this]
          exact h2 _ (by simp)
      rcases hv with hv | hv <;> rw [hv]
      · exact ⟨0, 0 * 2 - 1, by simp [Member.proba, dummyRow, second], by simp [Member.real, dummyRow, second], Or.inl rfl, by
          simp [Member.label], by simp [Member.label]⟩
      · exact ⟨1, 1 * 2 - 1, by simp [Member.proba, dummyRow, second], by simp [Member.real, dummyRow, second], Or.inr rfl, by
          norm_num [Member.label], by norm_num [Member.label]⟩
    · split at m2
      · exact absurd m2 (by simp)
      · rename_i c hc
        injection m2 with m2
        subst m2
        obtain ⟨p, v, e1, e2, e3, e4, e5⟩ := hcl _ c hc x
        refine ⟨p, v, by simp [Member.proba, e1, second], ?_, e3, e4, e5⟩
        rcases hb with hb | hb <;> simp [Member.real, hb, e2, second]
  have hmem : ∀ m ∈ t.clfs, ∃ i : Nat, t.clfs[i]? = some m := fun m h => by
    obtain ⟨i, hi, rfl⟩ := List.getElem_of_mem h
    exact ⟨i, by simp [hi]⟩
  have hZ' : Z.cols = t.features := hZ.trans f1.symm
  obtain ⟨L, hL⟩ := answers_ok (f := fun m x => .ok (m.label x)) hZ' (fun m _ x _ => ⟨m.label x, rfl⟩)
  obtain ⟨P, hP⟩ := answers_ok (f := Member.proba) hZ' (fun m hm' x _ => by
    obtain ⟨i, hi⟩ := hmem m hm'
    obtain ⟨p, r, h1, h2, -⟩ := hm i m hi x
    exact ⟨p, h1⟩)
  obtain ⟨R, hR⟩ := answers_ok (f := Member.real) hZ' (fun m hm' x _ => by
    obtain ⟨i, hi⟩ := hmem m hm'
    obtain ⟨p, r, h1, h2, -⟩ := hm i m hi x
    exact ⟨r, h2⟩)
  refine ⟨L, P, R, hL, hP, hR, ?_⟩
  have get : ∀ {β : Type} (f : Member K → List K → Except PyErr β) (M : List (List β)), answers (some t) Z f = .ok M → ∀ (k i : Nat) (v : β),
      M[k]?.bind (fun row => row[i]?) = some v → ∃ x m, Z.rows[k]? = some x ∧ t.clfs[i]? = some m ∧ f m x = .ok v := by
    intro β f M hM k i v hv
    obtain ⟨p1, p2⟩ := answers_entries hM
    cases hk : Z.rows[k]? with
    | none =>
      have hl := List.getElem?_eq_none_iff.1 hk
      rw [List.getElem?_eq_none (by omega)] at hv
      exact absurd hv (by simp)
    | some x =>
      obtain ⟨row, r1, r2, r3⟩ := p2 k x hk
      rw [r1] at hv
      obtain ⟨m, m1, m2⟩ := r3 i v hv
      exact ⟨x, m, rfl, m1, m2⟩
  intro k i l p r h1 h2 h3
  obtain ⟨x, m, x1, m1, e1⟩ := get _ L hL k i l h1
  obtain ⟨x', m', x2, m2, e2⟩ := get _ P hP k i p h2
  obtain ⟨x'', m'', x3, m3, e3⟩ := get _ R hR k i r h3
  rw [x1] at x2 x3
  rw [m1] at m2 m3
  injection x2 with x2
  injection x3 with x3
  injection m2 with m2
  injection m3 with m3
  subst x2 x3 m2 m3
  obtain ⟨p', r', g1, g2, g3, g4, g5⟩ := hm i m m1 x
  rw [g1] at e2
  rw [g2] at e3
  injection e1 with e1
  injection e2 with e2
  injection e3 with e3
  subst e1 e2 e3
  exact ⟨g3, g4, g5⟩

/-- **C87** fails for other base classifiers: `predict_real` is 0 for every label with both values in training, whatever the classifier says. -/
theorem C87_other_classifier_violation {b : Base K} (hb : b.kind = .other) {X : Feat K} {labels : Nat} {Y : List (List Int)} {t : Trained K}
    (h : train b X labels Y = .ok t) {Z : Feat K} {R : List (List K)} (hR : predictReal (some t) Z = .ok R) :
    Spec.Entries Z labels R (fun _ i v => Spec.Mixed Y i → v = 0) := by
  obtain ⟨-, l1, a1⟩ := train_member h
  obtain ⟨p1, p2⟩ := answers_entries hR
  refine ⟨p1, ?_⟩
  intro k x hx
  obtain ⟨row, r1, r2, r3⟩ := p2 k x hx
  refine ⟨row, r1, r2.trans l1, ?_⟩
  intro i v hv hmix
  obtain ⟨m, m1, m2⟩ := r3 i v hv
  have hi : i < labels := by rw [← l1]; exact (List.getElem?_eq_some_iff.1 m1).1
  obtain ⟨m', m3, m4⟩ := a1 i hi
  rw [m1] at m3
  injection m3 with m3
  subst m3
  unfold member at m4
  rw [not_single_column hmix] at m4
  simp only [Bool.false_eq_true, if_false] at m4
  split at m4
  · exact absurd m4 (by simp)
  · injection m4 with m4
    subst m4
    rw [hb] at m2
    simp only [Member.real, Except.ok.injEq] at m2
    exact m2.symm

/-! ## Concrete cases -/

/-- A base classifier that says 1 for every example with a positive first feature, after training with two examples. -/
def exBase (k : Kind) : Base ℚ := ⟨k, fun _ _ => .ok ⟨fun x => if 0 < x.headD 0 then 1 else 0, fun x => if 0 < x.headD 0 then [0, 1] else [1, 0],
  fun x => .value (x.headD 0)⟩⟩

/-- Label 0 takes both values, label 1 is always there, label 2 never. -/
example : ((train (exBase .svc) ⟨1, [[1], [-1]]⟩ 3 [[1, 1, 0], [0, 1, 0]]).bind (fun t => predictProba (some t) ⟨1, [[5], [-5]]⟩)).toOption =
    some [[1, 1, 0], [0, 1, 0]] := by decide +kernel

example : ((train (exBase .svc) ⟨1, [[1], [-1]]⟩ 3 [[1, 1, 0], [0, 1, 0]]).bind (fun t => predictReal (some t) ⟨1, [[5], [-5]]⟩)).toOption =
    some [[5, 1, -1], [-5, 1, -1]] := by decide +kernel

/-- With -1 in the place of 0 the third label is certain. -/
example : ((train (exBase .svc) ⟨1, [[1], [-1]]⟩ 3 [[1, 1, -1], [-1, 1, -1]]).bind (fun t => predictProba (some t) ⟨1, [[5], [-5]]⟩)).toOption =
    some [[1, 1, 1], [0, 1, 1]] := by decide +kernel

/-- Another classifier has no real values. -/
example : ((train (exBase .other) ⟨1, [[1], [-1]]⟩ 3 [[1, 1, 0], [0, 1, 0]]).bind (fun t => predictReal (some t) ⟨1, [[5], [-5]]⟩)).toOption =
    some [[0, 1, -1], [0, 1, -1]] := by decide +kernel

example : Spec.Coherent (K := ℚ) ⟨fun x => if 0 < x.headD 0 then 1 else 0, fun x => if 0 < x.headD 0 then [0, 1] else [1, 0], fun x => .value (x.headD 0)⟩ := by
  intro x
  simp only
  generalize x.headD 0 = z
  by_cases h : 0 < z
  · exact ⟨1, z, by simp [h], rfl, by simp [h], by simp [h]; norm_num, by simp [h]⟩
  · exact ⟨0, z, by simp [h], rfl, by simp [h], by simp [h], by simp [h]⟩

end Alipy.BR
