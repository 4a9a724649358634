import Verif.Props.RepositoryCost
/-! # C51: what `MatrixRepository` charges, for every call -/
set_option linter.unusedSectionVars false
namespace Alipy.MRepo
open Spec
variable {κ γ : Type} [DecidableEq κ] [DecidableEq γ]

theorem costSum_append (a b : List (Option ℚ)) : costSum (a ++ b) = costSum a + costSum b := by
  simp [costSum]

/-- **C51**, `MatrixRepository`, any call of `add` on a repository that is not cleared, whether it raises or not: either the index is new, it is appended to those of the repository, and the cost is charged and
recorded; or nothing is stored and nothing charged. -/
theorem C51_matrix_add {o o' : MRepo κ γ} {a : MArrays κ γ} (h0 : o.arr = some a) {b : Lab γ} {k : κ} {c : Option ℚ} {x : Option (List γ)} {res : Option PyErr} (h : o.add b k c x = (o', res)) :
    ∃ a' : MArrays κ γ, o'.arr = some a' ∧ o'.numQueries = o.numQueries ∧ o'.history = o.history ∧
      ((k ∉ a.indexes ∧ a'.indexes = a.indexes ++ [k] ∧ o'.cost = o.cost + c.getD 0 ∧ o'.costArr = o.costArr ++ [c]) ∨
       (a'.indexes = a.indexes ∧ o'.cost = o.cost ∧ o'.costArr = o.costArr ∧ (res = none → k ∈ a.indexes))) := by
  unfold MRepo.add at h
  simp only [h0] at h
  split_ifs at h with h1 h2
  · cases h
    exact ⟨a, h0, rfl, rfl, .inr ⟨rfl, rfl, rfl, fun _ => h1⟩⟩
  · cases hX : a.X with
    | none =>
      simp only [hX] at h
      cases h
      exact ⟨_, rfl, rfl, rfl, .inl ⟨h1, rfl, rfl, rfl⟩⟩
    | some xs =>
      simp only [hX] at h
      cases x with
      | none =>
        cases h
        exact ⟨_, rfl, rfl, rfl, .inl ⟨h1, rfl, rfl, rfl⟩⟩
      | some x =>
        simp only at h
        split_ifs at h
        · cases h
          exact ⟨_, rfl, rfl, rfl, .inl ⟨h1, rfl, rfl, rfl⟩⟩
        · cases h
          exact ⟨_, rfl, rfl, rfl, .inl ⟨h1, rfl, rfl, rfl⟩⟩
  all_goals
    cases h
    exact ⟨a, h0, rfl, rfl, .inr ⟨rfl, rfl, rfl, fun e => by cases e⟩⟩

theorem addMany_charges : ∀ (ts : List (κ × Lab γ × Option ℚ × Option (List γ))) {o o' : MRepo κ γ} {a : MArrays κ γ}, o.arr = some a → ∀ {res : Option PyErr}, o.addMany ts = (o', res) →
    ∃ (a' : MArrays κ γ) (ts' : List (κ × Lab γ × Option ℚ × Option (List γ))), o'.arr = some a' ∧ o'.numQueries = o.numQueries ∧ o'.history = o.history ∧ ts'.Sublist ts ∧ (ts'.map Prod.fst).Nodup ∧ (∀ t ∈ ts', t.1 ∉ a.indexes) ∧
      a'.indexes = a.indexes ++ ts'.map Prod.fst ∧ o'.cost = o.cost + costSum (ts'.map fun t => t.2.2.1) ∧ o'.costArr = o.costArr ++ ts'.map (fun t => t.2.2.1) ∧
      (res = none → ∀ t ∈ ts, t.1 ∈ a'.indexes)
  | [], o, o', a, h0, res, h => by
    simp only [MRepo.addMany] at h
    cases h
    exact ⟨a, [], h0, rfl, rfl, .slnil, by simp, by simp, by simp, by simp [costSum], by simp, by simp⟩
  | (k, b, c, x) :: r, o, o', a, h0, res, h => by
    simp only [MRepo.addMany] at h
    rcases hadd : o.add b k c x with ⟨o1, e1⟩
    obtain ⟨a1, g0, g1, g2, g3⟩ := C51_matrix_add h0 hadd
    rw [hadd] at h
    cases e1 with
    | some e =>
      simp only at h
      cases h
      rcases g3 with ⟨g3, g4, g5, g6⟩ | ⟨g4, g5, g6, _⟩
      · exact ⟨a1, [(k, b, c, x)], g0, g1, g2, List.Sublist.cons_cons _ (List.nil_sublist _), by simp, by simpa using g3, by simpa using g4, by simpa [costSum] using g5, by simpa using g6,
          fun e => by cases e⟩
      · exact ⟨a1, [], g0, g1, g2, List.nil_sublist _, by simp, by simp, by simpa using g4, by simpa [costSum] using g5, by simpa using g6, fun e => by cases e⟩
    | none =>
      simp only at h
      obtain ⟨a', ts', e0, e1, e2, e3, e4, e5, e6, e7, e8, e9⟩ := addMany_charges r g0 h
      rcases g3 with ⟨g3, g4, g5, g6⟩ | ⟨g4, g5, g6, g7⟩
      · refine ⟨a', (k, b, c, x) :: ts', e0, e1.trans g1, e2.trans g2, List.Sublist.cons_cons _ e3, ?_, ?_, ?_, ?_, ?_, ?_⟩
        · rw [List.map_cons, List.nodup_cons]
          refine ⟨fun hk => ?_, e4⟩
          obtain ⟨t, ht, ek⟩ := List.mem_map.1 hk
          refine e5 t ht ?_
          rw [g4, ek]
          simp
        · rintro t (_ | ⟨_, ht⟩)
          · exact g3
          · intro hi
            refine e5 t ht ?_
            rw [g4]
            exact List.mem_append_left _ hi
        · rw [e6, g4]
          simp
        · rw [e7, g5]
          simp [costSum, add_assoc]
        · rw [e8, g6]
          simp
        · rintro hres t (_ | ⟨_, ht⟩)
          · rw [e6, g4]
            simp
          · exact e9 hres t ht
      · refine ⟨a', ts', e0, e1.trans g1, e2.trans g2, List.Sublist.cons _ e3, e4, ?_, ?_, ?_, ?_, ?_⟩
        · rw [← g4]
          exact e5
        · rw [e6, g4]
        · rw [e7, g5]
        · rw [e8, g6]
        · rintro hres t (_ | ⟨_, ht⟩)
          · rw [e6, g4]
            exact List.mem_append_left _ (g7 rfl)
          · exact e9 hres t ht

/-- **C51**, `MatrixRepository`, any call of `update_query` on a repository that is not cleared, whether it raises or not: of the entries given some are new, each with another index; their indexes are appended to
those of the repository, their costs are charged and recorded, and nothing else is. The call counts as one query, and all indexes given are stored, if it does not raise. -/
theorem C51_matrix_update {o o' : MRepo κ γ} {a : MArrays κ γ} (h0 : o.arr = some a) {labels : Arg (Lab γ)} {indexes : Arg κ} {cost : Option (Arg ℚ)} {examples : Option (Arg (List γ))}
    {res : Option PyErr} (h : o.updateQuery labels indexes cost examples = (o', res)) :
    ∃ (a' : MArrays κ γ) (ts : List (κ × Lab γ × Option ℚ × Option (List γ))), o'.arr = some a' ∧ ts.Sublist (repoRows labels.toList indexes.toList (cost.map Arg.toList) (examples.map Arg.toList)) ∧ (ts.map Prod.fst).Nodup ∧ (∀ t ∈ ts, t.1 ∉ a.indexes) ∧
      a'.indexes = a.indexes ++ ts.map Prod.fst ∧ o'.cost = o.cost + costSum (ts.map fun t => t.2.2.1) ∧ o'.costArr = o.costArr ++ ts.map (fun t => t.2.2.1) ∧
      (res = none → o'.numQueries = o.numQueries + 1 ∧ o'.history.length = o.history.length + 1 ∧
        ∀ t ∈ repoRows labels.toList indexes.toList (cost.map Arg.toList) (examples.map Arg.toList), t.1 ∈ a'.indexes) ∧
      (res ≠ none → o'.numQueries = o.numQueries ∧ o'.history = o.history) := by
  unfold MRepo.updateQuery at h
  split_ifs at h with hlen
  · rcases hm : o.addMany (repoRows labels.toList indexes.toList (cost.map Arg.toList) (examples.map Arg.toList)) with ⟨o1, e1⟩
    obtain ⟨a', ts', e0, g1, g2, e3, e4, e5, e6, e7, e8, e9⟩ := addMany_charges _ h0 hm
    rw [hm] at h
    cases e1 with
    | some e =>
      simp only at h
      cases h
      exact ⟨a', ts', e0, e3, e4, e5, e6, e7, e8, by simp, fun _ => ⟨g1, g2⟩⟩
    | none =>
      simp only at h
      cases h
      exact ⟨a', ts', e0, e3, e4, e5, e6, e7, e8, fun _ => ⟨by simp [g1], by simp [g2], e9 rfl⟩, fun e => absurd rfl e⟩
  · cases h
    exact ⟨a, [], h0, List.nil_sublist _, by simp, by simp, by simp, by simp [costSum], by simp, by simp, fun _ => ⟨rfl, rfl⟩⟩

theorem discard_charges (o : MRepo κ γ) (k : Option κ) (x : Option (List γ)) :
    (o.discard k x).1.cost = o.cost ∧ (o.discard k x).1.costArr = o.costArr ∧ (o.discard k x).1.numQueries = o.numQueries ∧ (o.discard k x).1.history = o.history := by
  have hm : ∀ (a : MArrays κ γ) (m : List Bool), (o.applyMask a m).1.cost = o.cost ∧ (o.applyMask a m).1.costArr = o.costArr ∧ (o.applyMask a m).1.numQueries = o.numQueries ∧
      (o.applyMask a m).1.history = o.history := by
    intro a m
    unfold MRepo.applyMask
    simp only
    repeat' split
    all_goals exact ⟨rfl, rfl, rfl, rfl⟩
  unfold MRepo.discard
  repeat' split
  all_goals first | exact ⟨rfl, rfl, rfl, rfl⟩ | exact hm _ _

/-- Any call of a `MatrixRepository`, failing or not; 1 if it is an `update_query` that does not raise. -/
inductive Step : MRepo κ γ → MRepo κ γ → Nat → Prop
  | add {o o' : MRepo κ γ} (b : Lab γ) (k : κ) (c : Option ℚ) (x : Option (List γ)) (res : Option PyErr) : o.add b k c x = (o', res) → Step o o' 0
  | update {o o' : MRepo κ γ} (labels : Arg (Lab γ)) (indexes : Arg κ) (cost : Option (Arg ℚ)) (examples : Option (Arg (List γ))) (res : Option PyErr) :
      o.updateQuery labels indexes cost examples = (o', res) → Step o o' (if res = none then 1 else 0)
  | discard {o o' : MRepo κ γ} (k : Option κ) (x : Option (List γ)) (res : Option PyErr) : o.discard k x = (o', res) → Step o o' 0

/-- A sequence of calls with the number of successful `update_query` calls. -/
inductive Run : MRepo κ γ → MRepo κ γ → Nat → Prop
  | refl (o : MRepo κ γ) : Run o o 0
  | step {o o1 o2 : MRepo κ γ} {n n' : Nat} : Run o o1 n → Step o1 o2 n' → Run o o2 (n + n')

/-- **C51**, `MatrixRepository`, along any sequence of calls, failing ones among them: the total is the sum of the costs recorded one by one for the entries stored (`C51_matrix_add`, `C51_matrix_update`), and
the number of queries is that of the successful calls of `update_query`. -/
theorem C51_matrix_run {labels : List (Lab γ)} {indexes : List κ} {examples : Option (List (List γ))} {o o' : MRepo κ γ} {n : Nat} (hnew : MRepo.new labels indexes examples = .ok o)
    (h : Run o o' n) : o'.arr.isSome ∧ o'.cost = costSum o'.costArr ∧ o'.numQueries = n ∧ o'.history.length = n := by
  induction h with
  | refl =>
    unfold MRepo.new at hnew
    split_ifs at hnew with h1
    cases labels with
    | nil => cases hnew
    | cons b bs =>
      simp only at hnew
      split_ifs at hnew
      cases hnew
      simp [costSum]
  | @step o1 o2 n n' _ hs ih =>
    obtain ⟨h1, h2, h3, h4⟩ := ih
    obtain ⟨a, ha⟩ := Option.isSome_iff_exists.1 h1
    cases hs with
    | add b k c x res h =>
      obtain ⟨a', g0, g1, g2, g3⟩ := C51_matrix_add ha h
      refine ⟨by simp [g0], ?_, by simp [g1, h3], by simp [g2, h4]⟩
      rcases g3 with ⟨_, _, g5, g6⟩ | ⟨_, g5, g6, _⟩
      · rw [g5, g6, costSum_append, h2]
        simp [costSum]
      · rw [g5, g6, h2]
    | update labels indexes cost examples res h =>
      obtain ⟨a', ts, g0, _, _, _, _, g5, g6, g7, g8⟩ := C51_matrix_update ha h
      refine ⟨by simp [g0], by rw [g5, g6, costSum_append, h2], ?_, ?_⟩
      · split_ifs with hr
        · rw [(g7 hr).1, h3]
        · rw [(g8 hr).1, h3]; rfl
      · split_ifs with hr
        · rw [(g7 hr).2.1, h4]
        · rw [(g8 hr).2, h4]; rfl
    | discard k x res h =>
      obtain ⟨g1, g2, g3, g4⟩ := discard_charges o1 k x
      have gs : (o1.discard k x).1.arr.isSome := by
        unfold MRepo.discard MRepo.applyMask
        simp only [ha]
        repeat' split
        all_goals simp [ha]
      rw [h] at g1 g2 g3 g4 gs
      exact ⟨gs, by rw [g1, g2, h2], by rw [g3, h3]; rfl, by rw [g4, h4]; rfl⟩

/-- Labels for the indexes 1 and 0 with costs 3 and 5; 0 has been there from the start. Only 3 is charged. -/
example : ∃ o o' : MRepo Nat Nat, MRepo.new [.sc 7] [0] none = .ok o ∧ Run o o' 1 ∧ o'.cost = 3 := by
  refine ⟨_, _, rfl, .step (.refl _) (.update (.many [.sc 8, .sc 9]) (.many [1, 0]) (some (.many [3, 5])) none none rfl), ?_⟩
  norm_num [Arg.toList]

end Alipy.MRepo
