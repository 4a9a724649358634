import Verif.Model.Peek
import Verif.Model.Quire
import Verif.Model.Bmdr
import Verif.Props.MultiLabel
import Verif.Props.BinaryRelevance
import Verif.Proof.Split

/-! # C88: selecting never depends on labels that are not known yet -/
set_option linter.unusedSectionVars false
set_option linter.unusedSimpArgs false
namespace Alipy.Peek
open Alipy Alipy.Select

namespace Spec

/-- Two label vectors (or matrices) with the same values at the known indexes. -/
def SameAt {β : Type} (y y' : List β) (lab : List Int) : Prop := y.length = y'.length ∧ ∀ i ∈ lab, ∃ v, pyAt y i = some v ∧ pyAt y' i = some v

/-- Two label matrices with `L` columns and the same number of rows which agree at the pairs of the collection. -/
def SamePairs (Y Y' : List (List Int)) (L : Nat) (c : MLIC) : Prop :=
  Y.length = Y'.length ∧ (∀ r ∈ Y, r.length = L) ∧ (∀ r ∈ Y', r.length = L) ∧
    ∀ (e : Int) (l : Nat), (e, Second.scal (l : Int)) ∈ c.inner → (pyRow Y e).bind (fun r => r[l]?) = (pyRow Y' e).bind (fun r => r[l]?)

end Spec

/-! ## Auxiliary -/

theorem pyAt_elem {α : Type} {l : List α} {i : Int} {v : α} (h : pyAt l i = some v) : v ∈ l := by
  unfold pyAt at h
  split at h
  · exact List.mem_of_getElem? h
  · split at h
    · exact List.mem_of_getElem? h
    · exact absurd h (by simp)

theorem pyAt_map {α β : Type} (f : α → β) (l : List α) (i : Int) : pyAt (l.map f) i = (pyAt l i).map f := by
  unfold pyAt
  simp only [List.length_map, List.getElem?_map]
  split
  · rfl
  · split <;> rfl

theorem pyAtAll_same {β : Type} {y y' : List β} : ∀ {lab : List Int}, (∀ i ∈ lab, ∃ v, pyAt y i = some v ∧ pyAt y' i = some v) → pyAtAll y lab = pyAtAll y' lab
  | [], _ => rfl
  | i :: is, h => by
    obtain ⟨v, h1, h2⟩ := h i (by simp)
    simp only [pyAtAll, h1, h2, pyAtAll_same (fun j hj => h j (List.mem_cons_of_mem _ hj))]

theorem pyRow_none {Y Y' : List (List Int)} (h : Y.length = Y'.length) (e : Int) : pyRow Y e = none ↔ pyRow Y' e = none := by
  unfold pyRow
  split
  · simp [h]
  · rw [h]
    split
    · simp [h]
    · simp

theorem pyRow_mem {Y : List (List Int)} {e : Int} {r : List Int} (h : pyRow Y e = some r) : r ∈ Y := by
  unfold pyRow at h
  split at h
  · exact List.mem_of_getElem? h
  · split at h
    · exact List.mem_of_getElem? h
    · exact absurd h (by simp)

theorem copyCells_same {src src' : List Int} {ls tgt : List Int} (h : ∀ j : Nat, (j : Int) ∈ ls → (src[j]?).getD 0 = (src'[j]?).getD 0) :
    copyCells src ls tgt = copyCells src' ls tgt := by
  unfold copyCells
  apply List.map_congr_left
  intro j _
  split
  · rename_i hj; exact h j hj
  · rfl

/-- The labelled part of the label matrix is the same. -/
theorem labelMatrixLoop_same {Y Y' : List (List Int)} {m : Nat} {u : Int} (hlen : Y.length = Y'.length) :
    ∀ (ps : List (Int × Second)) (acc : List (Int × List Int)), (∀ p ∈ ps, ∃ l : Nat, p.2 = .scal l ∧
      (pyRow Y p.1).bind (fun r => r[l]?) = (pyRow Y' p.1).bind (fun r => r[l]?)) →
      labelMatrixLoop Y m u acc (ps.map MLIC.toIx) = labelMatrixLoop Y' m u acc (ps.map MLIC.toIx)
  | [], _, _ => rfl
  | p :: ps, acc, h => by
    obtain ⟨l, h1, h2⟩ := h p (by simp)
    have hs : labelMatrixStep Y m u acc (MLIC.toIx p) = labelMatrixStep Y' m u acc (MLIC.toIx p) := by
      simp only [MLIC.toIx, labelMatrixStep, h1, hlen]
      split
      · rfl
      · rename_i e he
        have hep : e = p.1 := by
          split at he
          · injection he with he; exact he.symm
          · exact absurd he (by simp)
        subst hep
        simp only [labelInd]
        split
        · rfl
        · rename_i e' ls hls
          split at hls
          · injection hls with hls
            injection hls with h3 h4
            subst h4
            unfold storeRow
            cases hy : pyRow Y p.1 with
            | none =>
              rw [(pyRow_none hlen p.1).1 hy]
            | some src =>
              cases hy' : pyRow Y' p.1 with
              | none =>
                rw [(pyRow_none hlen p.1).2 hy'] at hy
                exact absurd hy (by simp)
              | some src' =>
                rw [hy, hy'] at h2
                simp only [Option.bind_some] at h2
                have hc : ∀ tgt, copyCells src [(l : Int)] tgt = copyCells src' [(l : Int)] tgt := by
                  intro tgt
                  apply copyCells_same
                  intro j hj
                  have : j = l := by simpa using hj
                  rw [this, h2]
                simp only [hc]
          · exact absurd hls (by simp)
    simp only [List.map_cons, labelMatrixLoop, hs]
    split
    · rfl
    · exact labelMatrixLoop_same hlen ps _ (fun q hq => h q (List.mem_cons_of_mem _ hq))

theorem dictGet_fst {acc acc' : List (Int × List Int)} (h : acc.map Prod.fst = acc'.map Prod.fst) (e : Int) : dictGet e acc = none ↔ dictGet e acc' = none := by
  induction acc generalizing acc' with
  | nil =>
    have : acc' = [] := by simpa using h.symm
    simp [this]
  | cons a acc ih =>
    cases acc' with
    | nil => simp at h
    | cons a' acc' =>
      simp only [List.map_cons, List.cons.injEq] at h
      obtain ⟨k, v⟩ := a
      obtain ⟨k', v'⟩ := a'
      simp only at h
      obtain ⟨rfl, h⟩ := h
      simp only [dictGet]
      split
      · simp
      · exact ih h

theorem setRow_fst (e : Int) (row : List Int) : ∀ acc : List (Int × List Int), (setRow e row acc).map Prod.fst = acc.map Prod.fst
  | [] => rfl
  | (e', r') :: rest => by
    simp only [setRow]
    split
    · rfl
    · simp [setRow_fst e row rest]

/-- Which instances there are does not depend on the labels at all. -/
theorem labelMatrixLoop_fst {Y Y' : List (List Int)} {m : Nat} {u : Int} (hlen : Y.length = Y'.length) :
    ∀ (ixs : List Ix) (acc acc' : List (Int × List Int)), acc.map Prod.fst = acc'.map Prod.fst →
      (∃ e, labelMatrixLoop Y m u acc ixs = .error e ∧ labelMatrixLoop Y' m u acc' ixs = .error e) ∨
      ∃ r r', labelMatrixLoop Y m u acc ixs = .ok r ∧ labelMatrixLoop Y' m u acc' ixs = .ok r' ∧ r.map Prod.fst = r'.map Prod.fst
  | [], acc, acc', h => Or.inr ⟨acc, acc', rfl, rfl, h⟩
  | ix :: ixs, acc, acc', h => by
    have hs : (∃ e, labelMatrixStep Y m u acc ix = .error e ∧ labelMatrixStep Y' m u acc' ix = .error e) ∨
        ∃ r r', labelMatrixStep Y m u acc ix = .ok r ∧ labelMatrixStep Y' m u acc' ix = .ok r' ∧ r.map Prod.fst = r'.map Prod.fst := by
      simp only [labelMatrixStep, hlen]
      split
      · rename_i err _; exact Or.inl ⟨err, rfl, rfl⟩
      · rename_i e _
        split
        · rename_i err _; exact Or.inl ⟨err, rfl, rfl⟩
        · rename_i ls _
          unfold storeRow
          cases hy : pyRow Y e with
          | none => rw [(pyRow_none hlen e).1 hy]; exact Or.inl ⟨_, rfl, rfl⟩
          | some src =>
            cases hy' : pyRow Y' e with
            | none => rw [(pyRow_none hlen e).2 hy'] at hy; exact absurd hy (by simp)
            | some src' =>
              right
              cases hd : dictGet e acc with
              | none => rw [(dictGet_fst h e).1 hd]; exact ⟨_, _, rfl, rfl, by simp [h]⟩
              | some old =>
                cases hd' : dictGet e acc' with
                | none => rw [(dictGet_fst h e).2 hd'] at hd; exact absurd hd (by simp)
                | some old' => exact ⟨_, _, rfl, rfl, by rw [setRow_fst, setRow_fst, h]⟩
    rcases hs with ⟨e, h1, h2⟩ | ⟨r, r', h1, h2, h3⟩
    · exact Or.inl ⟨e, by simp [labelMatrixLoop, h1], by simp [labelMatrixLoop, h2]⟩
    · simp only [labelMatrixLoop, h1, h2]
      exact labelMatrixLoop_fst hlen ixs r r' h3

theorem getLabelMatrix_fst {Y Y' : List (List Int)} {m : Nat} {u : Int} (hlen : Y.length = Y'.length) (items : List Item) :
    (∃ e, getLabelMatrix items Y m u = .error e ∧ getLabelMatrix items Y' m u = .error e) ∨
      ∃ r r', getLabelMatrix items Y m u = .ok r ∧ getLabelMatrix items Y' m u = .ok r' ∧ r.map Prod.fst = r'.map Prod.fst := by
  unfold getLabelMatrix
  split
  · rename_i e _; exact Or.inl ⟨e, rfl, rfl⟩
  · exact labelMatrixLoop_fst hlen _ [] [] rfl

theorem fitRanking_same {K : Type} {train : List (Int × List Int) → Except PyErr (Int → Nat → MLSelect.EF K)} {Y Y' : List (List Int)} {L : Nat} {c : MLIC}
    (hc : MLIC.TameReachable c) (h : Spec.SamePairs Y Y' L c) : fitRanking train Y L c = fitRanking train Y' L c := by
  have : getLabelMatrix ((c.inner.map MLIC.toIx).map .tup) Y L 0 = getLabelMatrix ((c.inner.map MLIC.toIx).map .tup) Y' L 0 := by
    unfold getLabelMatrix
    split
    · rfl
    · rename_i ixs hix
      have hixs : ixs = c.inner.map MLIC.toIx := by
        have key : ∀ l : List Ix, allTuples (l.map Item.tup) = some l := by
          intro l
          induction l with
          | nil => rfl
          | cons a l ih => simp [allTuples, ih]
        unfold checkIndexMultilabel at hix
        split at hix
        · exact absurd hix (by simp)
        · rw [key] at hix
          injection hix with hix
          exact hix.symm
      subst hixs
      apply labelMatrixLoop_same h.1
      intro p hp
      obtain ⟨l, M, h1, h2, h3, h4⟩ := (MLIC.tame_inv hc).legal p hp
      refine ⟨l.toNat, by rw [h1, Int.toNat_of_nonneg h3], ?_⟩
      apply h.2.2.2 p.1 l.toNat
      rw [Int.toNat_of_nonneg h3, ← h1]
      exact hp
  unfold fitRanking
  rw [this]

/-! ## The theorems -/
section Instances
variable {α β K : Type} [Field K] [LinearOrder K]

/-- **C88** (uncertainty sampling): two label vectors that agree on the labelled examples give the same selection. -/
theorem C88_uncertainty {log : K → K} {argsort : List K → List Nat} {m : Measure} {fit : List β → Except PyErr (Pred K)} {y y' : List β} {lab : List Int}
    (h : Spec.SameAt y y' lab) (u : Coll α) (batch : Int) :
    uncertaintySelect log argsort m fit y lab u batch = uncertaintySelect log argsort m fit y' lab u batch := by
  simp only [uncertaintySelect, viaModel, pyAtAll_same h.2]

/-- **C88** (query by committee). -/
theorem C88_qbc {log : K → K} {argsort : List K → List Nat} {fit : List β → Except PyErr (List (List Int))} {y y' : List β} {lab : List Int}
    (h : Spec.SameAt y y' lab) (u : Coll α) (batch : Int) :
    qbcSelect log argsort fit y lab u batch = qbcSelect log argsort fit y' lab u batch := by
  simp only [qbcSelect, viaModel, pyAtAll_same h.2]

/-- Two vectors that differ in the labels that are not known; the classes are the same. -/
example : Spec.SameAt [0, 1, 0, 1] [0, 1, 1, 0] [1, 0] ∧ ∀ v, v ∈ [0, 1, 0, 1] ↔ v ∈ [0, 1, 1, 0] :=
  ⟨⟨rfl, by simp [pyAt]⟩, by simp; omega⟩

theorem mem_classesOf {y : List Int} {v : Int} : v ∈ classesOf y ↔ v ∈ y := by
  rw [classesOf, (sortBy_perm _ _).mem_iff, List.mem_eraseDups]

theorem classesOf_eq {y y' : List Int} (h : ∀ v, v ∈ y ↔ v ∈ y') : classesOf y = classesOf y' := by
  have nd : ∀ l : List Int, (classesOf l).Nodup := fun l => (sortBy_perm _ _).nodup_iff.2 (eraseDups_nodup _)
  have so : ∀ l : List Int, (classesOf l).Pairwise (· ≤ ·) := fun l => by
    have := sortBy_sorted (fun a b : Int => decide (a ≤ b)) (fun a b => by simp; omega) (fun a b c => by simp; omega) l.eraseDups
    unfold classesOf
    simpa using this
  have hp : (classesOf y).Perm (classesOf y') := (List.perm_ext_iff_of_nodup (nd y) (nd y')).2 (fun v => by rw [mem_classesOf, mem_classesOf, h v])
  exact hp.eq_of_pairwise (le := (· ≤ ·)) (fun a b _ _ h1 h2 => by omega) (so y) (so y')

/-- **C88** (expected error reduction, partial: as long as the same classes occur in the whole label vector). -/
theorem C88_eer_partial {argsort : List K → List Nat} {fit : List Int → Except PyErr (List (List K) × (Nat → Int → K))} {y y' : List Int} {lab : List Int}
    (h : Spec.SameAt y y' lab) (hc : ∀ v, v ∈ y ↔ v ∈ y') (u : Coll α) (batch : Int) :
    eerSelect argsort fit y lab u batch = eerSelect argsort fit y' lab u batch := by
  simp only [eerSelect, viaModel, pyAtAll_same h.2, classesOf_eq hc]


theorem eerScore_error {row : List K} {loss : Int → K} : ∀ {classes : List Int}, (∃ v ∈ classes, pyAt row v = none) → eerScore row loss classes = .error .indexError
  | [], h => absurd h (by simp)
  | y :: ys, h => by
    obtain ⟨v, hv, hn⟩ := h
    unfold eerScore
    split
    · rfl
    · rename_i q hq
      rcases List.mem_cons.1 hv with rfl | hv
      · rw [hn] at hq; exact absurd hq (by simp)
      · rw [eerScore_error ⟨v, hv, hn⟩]; rfl

/-- **C88** (expected error reduction, violation): a class that occurs only in labels that are not known, and which the trained model does not know about, makes `select` raise an
IndexError, whatever the known labels are. -/
theorem C88_eer_violation {argsort : List K → List Nat} {fit : List Int → Except PyErr (List (List K) × (Nat → Int → K))} {y ys : List Int} {lab : List Int}
    (hl : pyAtAll y lab = .ok ys) {rows : List (List K)} {loss : Nat → Int → K} (hf : fit ys = .ok (rows, loss)) (hr : rows ≠ []) {v : Int} (hv : v ∈ y)
    (hc : ∀ r ∈ rows, (r.length : Int) ≤ v) {u : Coll α} {batch : Int} (hb : 0 < batch) (hu : batch < u.items.length) :
    eerSelect argsort fit y lab u batch = .error .indexError := by
  have h1 : ¬ batch ≤ 0 := by omega
  have h2 : ¬ (u.items.length : Int) ≤ batch := by omega
  simp only [eerSelect, viaModel, h1, h2, if_false, hl, hf, eer, frame]
  cases rows with
  | nil => exact absurd rfl hr
  | cons r rs =>
    have : eerScore r (loss 0) (classesOf y) = .error .indexError := by
      apply eerScore_error
      refine ⟨v, mem_classesOf.2 hv, ?_⟩
      have := hc r (by simp)
      unfold pyAt
      rw [if_pos (by omega), List.getElem?_eq_none (by omega)]
    simp [eerScores, this]

/-- Two classes are known, a third one occurs at an unknown place. -/
example : pyAtAll [0, 1, 2, 0] [0, 1] = .ok [0, 1] ∧ (2 : Int) ∈ [0, 1, 2, 0] ∧ ∀ r ∈ [[(1 : ℚ) / 3, 2 / 3], [1 / 2, 1 / 2]], (r.length : Int) ≤ 2 := by
  refine ⟨rfl, by simp, by simp⟩

end Instances

/-! ### QUIRE -/

/-- **C88** (QUIRE). -/
theorem C88_quire {α : Type} {n a b : Nat} (train : Fin (n + 1) → α) (Km : Matrix (Fin (n + 1)) (Fin (n + 1)) ℝ) (lam : ℝ) (lab : Fin a → Fin (n + 1)) (unl : Fin b → Fin (n + 1))
    {y y' : Fin (n + 1) → ℝ} (h : ∀ j, y (lab j) = y' (lab j)) : Quire.select train Km lam lab unl y = Quire.select train Km lam lab unl y' := by
  have : Quire.eva Km lam lab unl y = Quire.eva Km lam lab unl y' := by
    funext i
    unfold Quire.eva
    simp only [h]
  unfold Quire.select
  rw [this]

/-! ### AUDI and AURO -/
section Ranking
variable {K : Type} [Field K] [LinearOrder K]
open MLSelect

theorem ones_same {Y Y' : List (List Int)} (hlen : Y.length = Y'.length) : ∀ {es : List Int}, (∀ e ∈ es, ∀ r r', pyRow Y e = some r → pyRow Y' e = some r' → r = r') →
    ones Y es = ones Y' es
  | [], _ => rfl
  | e :: es, h => by
    have ih := ones_same hlen (es := es) (fun x hx => h x (List.mem_cons_of_mem _ hx))
    unfold ones
    rw [ih]
    cases h1 : pyRow Y e with
    | none => rw [(pyRow_none hlen e).1 h1]
    | some r =>
      cases h2 : pyRow Y' e with
      | none => rw [(pyRow_none hlen e).2 h2] at h1; exact absurd h1 (by simp)
      | some r' => rw [h e (by simp) r r' h1 h2]

/-- **C88** (AUDI): two label matrices that agree at the labelled pairs give the same selection. -/
theorem C88_audi {argsort : List (EF K) → List Nat} {train : List (Int × List Int) → Except PyErr (Int → Nat → EF K)} {Y Y' : List (List Int)} {L : Nat} (hL : 0 < L) {c : MLIC} {lab : PairArg}
    (hlab : checkInd Y.length L lab = .ok c) (hc : MLIC.TameReachable c) (hs : c.lsz = some (L : Int)) (h : Spec.SamePairs Y Y' L c) (eps : K) (unl : PairArg) :
    audiSelect argsort train Y L eps lab unl = audiSelect argsort train Y' L eps lab unl := by
  rw [h.1] at hlab
  obtain ⟨us, _, h1, _, _, _, h2, _⟩ := MLIC.C10_unbroken_and_broken_partition c hc L hs (by exact_mod_cast hL)
  have hones : ones Y us = ones Y' us := by
    apply ones_same h.1
    intro e he r r' hr hr'
    apply List.ext_getElem?
    intro j
    have e1 := h.2.1 r (pyRow_mem hr)
    have e2 := h.2.2.1 r' (pyRow_mem hr')
    by_cases hj : j < L
    · have := h.2.2.2 e j ((h2 e).1 he j (by omega) (by omega))
      rw [hr, hr'] at this
      simpa using this
    · rw [List.getElem?_eq_none (by omega), List.getElem?_eq_none (by omega)]
  unfold audiSelect audi
  simp only [h.1, hlab, fitRanking_same hc h, h1, hones]
  split
  · rfl
  split
  · rfl
  rename_i u _
  rcases getLabelMatrix_fst (m := L) (u := 0) h.1 ((u.inner.map MLIC.toIx).map .tup) with ⟨e, g1, g2⟩ | ⟨r, r', g1, g2, g3⟩
  · simp only [g1, g2]
  · simp only [g1, g2, g3]

/-- **C88** (AURO). -/
theorem C88_auro {argsort : List (EF K) → List Nat} {train : List (Int × List Int) → Except PyErr (Int → Nat → EF K)} {Y Y' : List (List Int)} {L : Nat} {c : MLIC} {lab : PairArg}
    (hlab : checkInd Y.length L lab = .ok c) (hc : MLIC.TameReachable c) (h : Spec.SamePairs Y Y' L c) (unl : PairArg) :
    auroSelect argsort train Y L lab unl = auroSelect argsort train Y' L lab unl := by
  rw [h.1] at hlab
  unfold auroSelect auro
  simp only [h.1, hlab, fitRanking_same hc h]

/-- Labels 0 and 1 of example 0 and label 0 of example 2 are known. -/
example : ∃ c : MLIC, checkInd 3 2 (.tuples [.tup (.all 0), .tup (.pair 2 (.scal 0))]) = .ok c ∧ MLIC.TameReachable c ∧ c.lsz = some 2 ∧
    Spec.SamePairs [[1, 0], [0, 1], [1, 1]] [[1, 0], [1, 0], [1, 0]] 2 c := by
  refine ⟨⟨[(0, .scal 0), (0, .scal 1), (2, .scal 0)], some 2, false⟩, by decide, .construct (items := [.tup (.all 0), .tup (.pair 2 (.scal 0))]) (lsz := some 2) (by decide), rfl, rfl,
    by simp, by simp, ?_⟩
  intro e l h
  simp at h
  rcases h with ⟨rfl, h⟩ | ⟨rfl, h⟩ | ⟨rfl, h⟩
  · subst h; rfl
  · have : l = 1 := by omega
    subst this; rfl
  · subst h; rfl

end Ranking

/-! ### The cost-sensitive strategies -/
section Cost
variable {K μ : Type} [Field K] [LinearOrder K]
open CostSensitive

theorem trainClasses_same {fit : Nat → List (Nat × Int) → Except PyErr μ} {n c : Nat} {lab : Nat → Nat → Bool} {y y' : Nat → Nat → Int}
    (h : ∀ i j, lab i j = true → y i j = y' i j) : trainClasses fit n c lab y = trainClasses fit n c lab y' := by
  unfold trainClasses
  congr 1
  funext j
  congr 1
  apply List.map_congr_left
  intro i hi
  rw [h i j (List.mem_filter.1 hi).2]

/-- **C88** (HALC): two label matrices that agree at the known pairs give the same selection. -/
theorem C88_halc {fit : Nat → List (Nat × Int) → Except PyErr μ} {dec : μ → Nat → K} {cls : μ → Nat → Int} {knn : Nat → List Nat} {n c fuel : Nat}
    {tree : Nat → Nat → Bool} {w : Nat → K} {order : (Nat → WithBot K) → List Nat} {cost : Option (List Int)} {budget : Nat} {lab unlab : Nat → Nat → Bool}
    {y y' : Nat → Nat → Int} (h : ∀ i j, lab i j = true → y i j = y' i j) :
    halcSelect fit dec cls knn n c fuel tree w order cost budget lab unlab y = halcSelect fit dec cls knn n c fuel tree w order cost budget lab unlab y' := by
  have hr : ∀ i j pred, relevance (knn i) (fun k => lab k j) (fun k => y k j) pred = relevance (knn i) (fun k => lab k j) (fun k => y' k j) pred := by
    intro i j pred
    unfold relevance
    congr 2
    apply List.map_congr_left
    intro k _
    cases hk : lab k j with
    | false => simp [hk]
    | true => simp [hk, h k j hk]
  unfold halcSelect
  simp only [trainClasses_same h, hr]

/-- **C88** (the cost-sensitive strategy by uncertainty). -/
theorem C88_performance {fit : Nat → List (Nat × Int) → Except PyErr μ} {dec : μ → Nat → K} {n c : Nat} {order : (Nat → WithBot K) → List Nat} {cost : Option (List Int)}
    {budget : Nat} {lab unlab : Nat → Nat → Bool} {y y' : Nat → Nat → Int} (h : ∀ i j, lab i j = true → y i j = y' i j) :
    perfSelect fit dec n c order cost budget lab unlab y = perfSelect fit dec n c order cost budget lab unlab y' := by
  unfold perfSelect
  simp only [trainClasses_same h]

/-- Only the labels `(i, i)` are known. -/
example : ∀ i j, decide (i = j) = true → (fun a b : Nat => (a : Int) - b) i j = (fun a b : Nat => if a = b then 0 else 7) i j := by
  intro i j h
  have : i = j := by simpa using h
  subst this
  simp

end Cost

/-! ### BMDR and SPAL -/

theorem classes_two {y : List Int} {a b : Int} (h : classesOf y = [a, b]) {v w : Int} (hv : v ∈ y) (hw : w ∈ y) (hvw : v < w) : a = v ∧ b = w := by
  have so : [a, b].Pairwise (· ≤ ·) := by
    have := sortBy_sorted (fun a b : Int => decide (a ≤ b)) (fun a b => by simp; omega) (fun a b c => by simp; omega) y.eraseDups
    rw [← h]
    unfold classesOf
    simpa using this
  have h1 : v ∈ [a, b] := h ▸ mem_classesOf.2 hv
  have h2 : w ∈ [a, b] := h ▸ mem_classesOf.2 hw
  simp at so h1 h2
  omega

/-- **C88** (BMDR and SPAL): with both classes among the known labels, and label vectors both of which the constructor accepts, the same selection. -/
theorem C88_bmdr {ρ : Type} {run : List Int → Except PyErr ρ} {y y' : List Int} {lab : List Int} (h : Spec.SameAt y y' lab)
    (h2 : ∃ i ∈ lab, ∃ j ∈ lab, pyAt y i ≠ pyAt y j) (hy : (classesOf y).length = 2) (hy' : (classesOf y').length = 2) :
    bmdrSelect run lab y = bmdrSelect run lab y' := by
  obtain ⟨i, hi, j, hj, hij⟩ := h2
  obtain ⟨v, v1, v2⟩ := h.2 i hi
  obtain ⟨w, w1, w2⟩ := h.2 j hj
  obtain ⟨a, b, e⟩ := List.length_eq_two.1 hy
  obtain ⟨a', b', e'⟩ := List.length_eq_two.1 hy'
  have hm := @pyAt_elem Int
  have hvw : v ≠ w := by
    rintro rfl
    exact hij (v1.trans w1.symm)
  have hab : a = a' ∧ b = b' := by
    rcases lt_or_gt_of_ne hvw with hlt | hlt
    · have q1 := classes_two e (hm v1) (hm w1) hlt
      have q2 := classes_two e' (hm v2) (hm w2) hlt
      omega
    · have q1 := classes_two e (hm w1) (hm v1) hlt
      have q2 := classes_two e' (hm w2) (hm v2) hlt
      omega
  obtain ⟨rfl, rfl⟩ := hab
  have key : ∀ f : Int → Int, pyAtAll (y.map f) lab = pyAtAll (y'.map f) lab := by
    intro f
    apply pyAtAll_same
    intro k hk
    obtain ⟨x, x1, x2⟩ := h.2 k hk
    exact ⟨f x, by rw [pyAt_map, x1]; rfl, by rw [pyAt_map, x2]; rfl⟩
  unfold bmdrSelect
  rw [e, e']
  unfold Bmdr.recode
  dsimp only
  by_cases hc : (a = 1 ∧ b = -1) ∨ (a = -1 ∧ b = 1)
  · simp only [hc, if_true, pyAtAll_same h.2]
  · simp only [hc, if_false, key]

/-- Labels 3 and 5. -/
example : Spec.SameAt [3, 5, 3, 5] [3, 5, 5, 5] [0, 1] ∧ (∃ i ∈ [(0 : Int), 1], ∃ j ∈ [(0 : Int), 1], pyAt [(3 : Int), 5, 3, 5] i ≠ pyAt [3, 5, 3, 5] j) ∧
    (classesOf [3, 5, 3, 5]).length = 2 ∧ (classesOf [3, 5, 5, 5]).length = 2 := by
  refine ⟨⟨rfl, by simp [pyAt]⟩, ⟨0, by simp, 1, by simp, by simp [pyAt]⟩, by simp [classesOf, List.eraseDups_cons, sortBy, insertBy], by simp [classesOf, List.eraseDups_cons, sortBy, insertBy]⟩

/-! ### MMC and Adaptive -/
section MMC
variable {K : Type} [Field K] [LinearOrder K]
open MLBatch

/-- **C88** (MMC, partial: if all rows of both matrices have the same number of labels, or in both some have different ones). -/
theorem C88_mmc_partial {b : BR.Base K} {lrFit : List (List K) → List Int → Except PyErr (List K → Int)} {argsort : List K → List Nat} {choose : List Nat → Nat}
    {X : Int → List K} {cols labels : Nat} {lab unl : List Int} {Y Y' : List (List Int)} (h : Spec.SameAt Y Y' lab)
    (hs : (∀ r ∈ Y, ∀ r' ∈ Y, r.sum = r'.sum) ↔ ∀ r ∈ Y', ∀ r' ∈ Y', r.sum = r'.sum) :
    mmcSelect b lrFit argsort choose X cols labels lab unl Y = mmcSelect b lrFit argsort choose X cols labels lab unl Y' := by
  have hsingle : BR.single (Y.map List.sum) = BR.single (Y'.map List.sum) := by
    have key : ∀ Z : List (List Int), Z ≠ [] → (BR.single (Z.map List.sum) = true ↔ ∀ r ∈ Z, ∀ r' ∈ Z, r.sum = r'.sum) := by
      intro Z hZ
      cases Z with
      | nil => exact absurd rfl hZ
      | cons z zs =>
        simp only [List.map_cons, BR.single, List.all_map, List.all_eq_true, Function.comp, decide_eq_true_eq]
        constructor
        · intro hz r hr r' hr'
          have : ∀ x ∈ z :: zs, x.sum = z.sum := by
            intro x hx
            rcases List.mem_cons.1 hx with rfl | hx
            · rfl
            · exact hz x hx
          rw [this r hr, this r' hr']
        · intro hz x hx
          exact hz x (List.mem_cons_of_mem _ hx) z (by simp)
    by_cases h0 : Y = []
    · have : Y' = [] := by
        have := h.1
        rw [h0] at this
        exact List.length_eq_zero_iff.1 this.symm
      rw [h0, this]
    · have h0' : Y' ≠ [] := by
        intro e
        have := h.1
        rw [e] at this
        exact h0 (List.length_eq_zero_iff.1 this)
      rw [Bool.eq_iff_iff, key Y h0, key Y' h0', hs]
  unfold mmcSelect numModel
  simp only [pyAtAll_same h.2, hsingle]

/-- **C88** (MMC, violation): if the labelled examples have equally many labels, then whether `select` returns or raises a ValueError depends on whether all the others have that many, too:
`LogisticRegression` is trained with a single class. -/
theorem C88_mmc_violation {b : BR.Base K} {lrFit : List (List K) → List Int → Except PyErr (List K → Int)}
    (hlr : ∀ Z m v, lrFit Z (List.replicate m v) = .error .valueError) {argsort : List K → List Nat} {choose : List Nat → Nat}
    {X : Int → List K} {cols labels : Nat} {lab unl : List Int} {Y Y' : List (List Int)} (h : Spec.SameAt Y Y' lab) (hn : lab ≠ [])
    {k : Int} (hall : ∀ r ∈ Y, r.sum = k) (hex : ∃ r ∈ Y', r.sum ≠ k)
    {p : Nat} (hok : mmcSelect b lrFit argsort choose X cols labels lab unl Y = .ok p) :
    mmcSelect b lrFit argsort choose X cols labels lab unl Y' = .error .valueError := by
  have pyall : ∀ {l : List Int}, (∀ i ∈ l, ∃ v, pyAt Y i = some v ∧ pyAt Y' i = some v) → ∀ {Yl}, pyAtAll Y l = .ok Yl → Yl.length = l.length ∧ ∀ r ∈ Yl, r ∈ Y := by
    intro l
    induction l with
    | nil => intro _ Yl hY; injection hY with hY; subst hY; simp
    | cons i is ih =>
      intro hi Yl hY
      obtain ⟨v, v1, _⟩ := hi i (by simp)
      simp only [pyAtAll, v1] at hY
      cases hr : pyAtAll Y is with
      | error e => rw [hr] at hY; exact absurd hY (by simp [Except.map])
      | ok t =>
        rw [hr] at hY
        simp only [Except.map, Except.ok.injEq] at hY
        subst hY
        obtain ⟨g1, g2⟩ := ih (fun j hj => hi j (List.mem_cons_of_mem _ hj)) hr
        refine ⟨by simp [g1], fun r hr => ?_⟩
        rcases List.mem_cons.1 hr with rfl | hr
        · exact pyAt_elem v1
        · exact g2 r hr
  unfold mmcSelect at hok ⊢
  rw [← pyAtAll_same h.2]
  cases hY : pyAtAll Y lab with
  | error e => rw [hY] at hok; exact absurd hok (by simp)
  | ok Yl =>
    obtain ⟨g1, g2⟩ := pyall h.2 hY
    rw [hY] at hok
    dsimp only at hok ⊢
    cases ht : BR.train b ⟨cols, lab.map X⟩ labels Yl with
    | error e => rw [ht] at hok; exact absurd hok (by simp)
    | ok t =>
      rw [ht] at hok
      dsimp only at hok ⊢
      cases h1 : BR.predictProba (some t) ⟨cols, lab.map X⟩ with
      | error e => rw [h1] at hok; exact absurd hok (by simp)
      | ok trnf =>
        rw [h1] at hok
        dsimp only at hok ⊢
        cases h2 : BR.predictProba (some t) ⟨cols, unl.map X⟩ with
        | error e => rw [h2] at hok; exact absurd hok (by simp)
        | ok poolf =>
          dsimp only
          have hns : BR.single (Y'.map List.sum) = false := by
            obtain ⟨r, hr, hrk⟩ := hex
            cases lab with
            | nil => exact absurd rfl hn
            | cons i is =>
              obtain ⟨v, v1, v2⟩ := h.2 i (by simp)
              have hv := hall v (pyAt_elem v1)
              have hv' : v ∈ Y' := pyAt_elem v2
              by_contra hc
              rw [Bool.not_eq_false] at hc
              cases Y' with
              | nil => simp at hr
              | cons z zs =>
                simp only [List.map_cons, BR.single, List.all_map, List.all_eq_true, Function.comp, decide_eq_true_eq] at hc
                have : ∀ x ∈ z :: zs, x.sum = z.sum := by
                  intro x hx
                  rcases List.mem_cons.1 hx with rfl | hx
                  · rfl
                  · exact hc x hx
                exact hrk (by rw [this r hr, ← this v hv', hv])
          have hsl : Yl.map List.sum = List.replicate Yl.length k := by
            rw [List.eq_replicate_iff]
            refine ⟨by simp, fun x hx => ?_⟩
            obtain ⟨r, hr, rfl⟩ := List.mem_map.1 hx
            exact hall r (g2 r hr)
          simp [numModel, hns, hsl, hlr]

/-- The first two examples have one label each and are known; in the first matrix all have one label, in the second one the third has two. -/
example : Spec.SameAt [[1, 0], [0, 1], [1, 0]] [[1, 0], [0, 1], [1, 1]] [0, 1] ∧ (∀ r ∈ [[(1 : Int), 0], [0, 1], [1, 0]], r.sum = 1) ∧
    ∃ r ∈ [[(1 : Int), 0], [0, 1], [1, 1]], r.sum ≠ 1 :=
  ⟨⟨rfl, by simp [pyAt]⟩, by simp, [1, 1], by simp, by simp⟩

/-- `select` returns for the first of them: both columns have a classifier, which always gives 1/2. -/
example : mmcSelect (K := ℚ) ⟨.logistic, fun _ _ => .ok ⟨fun _ => 1, fun _ => [1 / 2, 1 / 2], fun _ => .value 0⟩⟩ (fun _ _ => .error .valueError) (fun r => List.range r.length)
    (fun l => l.headD 0) (fun i => [i]) 1 2 [0, 1] [2] [[1, 0], [0, 1], [1, 0]] = .ok 0 := by decide +kernel

/-- **C88** (Adaptive). -/
theorem C88_adaptive {ask : List (List Int) → Except PyErr Nat} {lab : List Int} {Y Y' : List (List Int)} (h : Spec.SameAt Y Y' lab) :
    adaptiveSelect ask lab Y = adaptiveSelect ask lab Y' := by
  simp only [adaptiveSelect, pyAtAll_same h.2]

end MMC

end Alipy.Peek
