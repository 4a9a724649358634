import Verif.Props.Repository
/-! # C30: the matrix knowledge repository -/
set_option linter.unusedSectionVars false
namespace Alipy
open Spec
namespace MRepo
variable {κ γ : Type} [DecidableEq κ] [DecidableEq γ]

/-- The three arrays are the columns of a table of rows with distinct indexes. -/
structure Aligned (o : MRepo κ γ) (w : Bool) (rows : List (Row κ (Lab γ) (List γ))) : Prop where
  arr : ∃ a, o.arr = some a ∧ a.y = rows.map Row.label ∧ a.indexes = rows.map Row.index ∧ (w = false → a.X = none) ∧
    (w = true → ∃ xs, a.X = some xs ∧ rows.map Row.ex = xs.map some)
  nodup : (rows.map Row.index).Nodup

/-- The example argument fits: the repository has no examples, or one of the right width is given. -/
def Fits (o : MRepo κ γ) (x : Option (List γ)) : Prop := ∀ a xs, o.arr = some a → a.X = some xs → ∃ v, x = some v ∧ v.length = a.dim

theorem Aligned.new {labels : List (Lab γ)} {indexes : List κ} {examples : Option (List (List γ))} {o : MRepo κ γ}
    {rows : List (Row κ (Lab γ) (List γ))} (hr : RowsOf rows labels indexes examples) (hn : indexes.Nodup)
    (h : MRepo.new labels indexes examples = .ok o) : Aligned o examples.isSome rows := by
  unfold MRepo.new at h
  split at h
  · cases labels with
    | nil => simp at h
    | cons b bs =>
      simp only at h
      split at h
      · split at h
        · cases h
          refine ⟨⟨_, rfl, hr.1.symm, hr.2.1.symm, ?_, ?_⟩, by rw [hr.2.1]; exact hn⟩
          · intro hw; cases examples <;> simp_all
          · intro hw
            obtain ⟨xs, rfl⟩ := Option.isSome_iff_exists.1 hw
            exact ⟨xs, rfl, hr.2.2.1 xs rfl⟩
        · cases h
      · cases h
  · cases h

/-- What `add` does to an aligned repository when the example fits: it appends the row if the index is new and the label has the right
shape, and changes nothing otherwise (an error being raised only for the shape). -/
theorem Aligned.add {o : MRepo κ γ} {w : Bool} {rows : List (Row κ (Lab γ) (List γ))} (ha : Aligned o w rows)
    (r : Row κ (Lab γ) (List γ)) (c : Option ℚ) (hf : Fits o r.ex) :
    (r.index ∈ rows.map Row.index ∧ o.add r.label r.index c r.ex = (o, none)) ∨
    (r.index ∉ rows.map Row.index ∧ ∃ e, o.add r.label r.index c r.ex = (o, some e)) ∨
    (r.index ∉ rows.map Row.index ∧ ∃ o', o.add r.label r.index c r.ex = (o', none) ∧ Aligned o' w (rows ++ [keep w r]) ∧
      (∀ a, o.arr = some a → ∃ a', o'.arr = some a' ∧ a'.dim = a.dim ∧ a'.shape = a.shape ∧ (a'.X.isSome = a.X.isSome))) := by
  obtain ⟨⟨a, h0, h1, h2, h3, h4⟩, hn⟩ := ha
  unfold MRepo.add
  simp only [h0]
  by_cases hm : r.index ∈ rows.map Row.index
  · left; exact ⟨hm, by rw [if_pos (by rw [h2]; exact hm)]⟩
  · right
    rw [if_neg (by rw [h2]; exact hm)]
    by_cases hs : r.label.shape = a.shape
    · right
      refine ⟨hm, ?_⟩
      have hnd : ((rows ++ [keep w r]).map Row.index).Nodup := by
        have : (keep w r).index = r.index := by cases w <;> rfl
        rw [List.map_append, List.nodup_append]
        refine ⟨hn, by simp, ?_⟩
        intro i hi j hj
        simp only [List.map_cons, List.map_nil, List.mem_singleton, this] at hj
        rintro rfl
        exact hm (hj ▸ hi)
      have hl : (keep w r).label = r.label := by cases w <;> rfl
      have hi : (keep w r).index = r.index := by cases w <;> rfl
      rw [if_pos hs]
      cases w with
      | false =>
        simp only [h3 rfl]
        refine ⟨_, rfl, ⟨⟨_, rfl, by simp [h1, hl], by simp [h2, hi], fun _ => rfl, by simp⟩, hnd⟩, ?_⟩
        intro a' ha'
        cases ha'
        exact ⟨_, rfl, rfl, rfl, by simp [h3 rfl]⟩
      | true =>
        obtain ⟨xs, hx, hxr⟩ := h4 rfl
        obtain ⟨v, hv, hvl⟩ := hf a xs h0 hx
        simp only [hx, hv, hvl, if_true]
        refine ⟨_, rfl, ⟨⟨_, rfl, by simp [h1, hl], by simp [h2, hi], by simp, fun _ => ⟨_, rfl, ?_⟩⟩, hnd⟩, ?_⟩
        · simp [hxr, keep, hv]
        · intro a' ha'
          cases ha'
          exact ⟨_, rfl, rfl, rfl, by simp [hx]⟩
    · left
      exact ⟨hm, _, by rw [if_neg hs]⟩

theorem Fits.mono {o o' : MRepo κ γ} {x : Option (List γ)} (h : Fits o x)
    (h' : ∀ a, o.arr = some a → ∃ a', o'.arr = some a' ∧ a'.dim = a.dim ∧ a'.shape = a.shape ∧ (a'.X.isSome = a.X.isSome))
    (hs : ∃ a, o.arr = some a) : Fits o' x := by
  intro a xs ha hx
  obtain ⟨b, hb⟩ := hs
  obtain ⟨a', h1, h2, -, h4⟩ := h' b hb
  rw [ha] at h1
  cases h1
  have : b.X.isSome = true := by rw [← h4, hx]; rfl
  obtain ⟨ys, hy⟩ := Option.isSome_iff_exists.1 this
  rw [h2]
  exact h b ys hb hy

theorem Aligned.addMany {w : Bool} : ∀ (ts : List (κ × Lab γ × Option ℚ × Option (List γ))) {o : MRepo κ γ}
    {rows : List (Row κ (Lab γ) (List γ))}, Aligned o w rows → (∀ t ∈ ts, Fits o t.2.2.2) →
    ∃ rs, Aligned (o.addMany ts).1 w (rows ++ rs) ∧ List.Sublist rs (ts.map (fun t => keep w (rowOf t))) ∧
      ((o.addMany ts).2 = none → ∀ t ∈ ts, t.1 ∈ (rows ++ rs).map Row.index) := by
  intro ts
  induction ts with
  | nil => intro o rows ha _; exact ⟨[], by simpa [MRepo.addMany] using ha, by simp, by simp⟩
  | cons t r ih =>
    intro o rows ha hf
    obtain ⟨k, b, c, x⟩ := t
    simp only [MRepo.addMany]
    rcases ha.add ⟨k, b, x⟩ c (hf (k, b, c, x) (by simp)) with ⟨h1, h2⟩ | ⟨h1, e, h2⟩ | ⟨h1, o', h2, h3, h4⟩
    · simp only at h2
      rw [h2]
      obtain ⟨rs, i1, i2, i3⟩ := ih ha (fun t ht => hf t (by simp [ht]))
      refine ⟨rs, i1, i2.trans (List.sublist_cons_self _ _), ?_⟩
      intro hn t ht
      rcases List.mem_cons.1 ht with rfl | ht
      · rw [List.map_append, List.mem_append]; exact .inl h1
      · exact i3 hn t ht
    · simp only at h2
      rw [h2]
      exact ⟨[], by simpa using ha, by simp, by simp⟩
    · simp only at h2
      rw [h2]
      have hs : ∃ a, o.arr = some a := ⟨_, ha.arr.choose_spec.1⟩
      obtain ⟨rs, i1, i2, i3⟩ := ih h3 (fun t ht => (hf t (by simp [ht])).mono h4 hs)
      refine ⟨keep w (rowOf (k, b, c, x)) :: rs, ?_, i2.cons_cons _, ?_⟩
      · simpa [rowOf] using i1
      · intro hn t ht
        rcases List.mem_cons.1 ht with rfl | ht
        · have : (keep w (rowOf (k, b, c, x))).index = k := by cases w <;> rfl
          rw [List.map_append, List.mem_append]; right; simp [this]
        · have := i3 hn t ht
          simpa [rowOf] using this

theorem mask_map {α δ : Type} (f : α → δ) (p : α → Bool) (l : List α) : mask (l.map p) (l.map f) = (l.filter p).map f := by
  unfold mask
  induction l with
  | nil => rfl
  | cons a l ih =>
    simp only [List.map_cons, List.zip_cons_cons, List.filter_cons]
    cases p a <;> simp [ih]

theorem mask_pos {α : Type} (l : List α) (p : Nat) : mask ((List.range l.length).map (fun i => decide (i ≠ p))) l = l.eraseIdx p := by
  have key : ∀ (l : List α) (s : Nat), mask ((List.range' s l.length).map (fun i => decide (i ≠ p + s))) l = l.eraseIdx p := by
    intro l
    induction l generalizing p with
    | nil => intro s; simp [mask]
    | cons a l ih =>
      intro s
      have hall : ∀ (m : List α) (s t : Nat), t < s → mask ((List.range' s m.length).map (fun i => decide (i ≠ t))) m = m := by
        intro m
        induction m with
        | nil => intros; simp [mask]
        | cons b m ihm =>
          intro s t hst
          have := ihm (s + 1) t (by omega)
          simp only [mask] at this ⊢
          simp only [List.length_cons, List.range'_succ, List.map_cons, List.zip_cons_cons]
          rw [List.filter_cons_of_pos (by simp; omega), List.map_cons, this]
      cases p with
      | zero =>
        have h0 := hall l (s + 1) s (by omega)
        simp only [mask] at h0 ⊢
        simp only [List.length_cons, List.range'_succ, List.map_cons, List.zip_cons_cons, Nat.zero_add, List.eraseIdx_cons_zero]
        rw [List.filter_cons_of_neg (by simp), h0]
      | succ p =>
        have h0 := ih p (s + 1)
        have e : p + (s + 1) = p + 1 + s := by omega
        rw [e] at h0
        simp only [mask] at h0 ⊢
        simp only [List.length_cons, List.range'_succ, List.map_cons, List.zip_cons_cons, List.eraseIdx_cons_succ]
        rw [List.filter_cons_of_pos (by simp), List.map_cons, h0]
  have := key l 0
  rw [List.range_eq_range']
  simpa using this

theorem Aligned.discardIx {o : MRepo κ γ} {w : Bool} {rows : List (Row κ (Lab γ) (List γ))} (ha : Aligned o w rows) (k : κ) :
    (o.discard (some k) none).2 = none ∧ Aligned (o.discard (some k) none).1 w (rows.filter (fun r => decide (r.index ≠ k))) := by
  have hn' := ha.nodup
  obtain ⟨⟨a, h0, h1, h2, h3, h4⟩, hn⟩ := ha
  have hnd : ((rows.filter (fun r => decide (r.index ≠ k))).map Row.index).Nodup :=
    List.Nodup.sublist (List.filter_sublist.map _) hn
  unfold MRepo.discard
  simp only [h0, Option.map_some, Option.getD_some]
  by_cases hk : k ∈ a.indexes
  · simp only [hk, decide_true, if_true, MRepo.applyMask]
    have hm : a.indexes.map (fun i => decide (some i ≠ some k)) = rows.map (fun r => decide (r.index ≠ k)) := by
      rw [h2, List.map_map]
      apply List.map_congr_left
      intro r _; simp
    rw [hm]
    cases w with
    | false =>
      simp only [h3 rfl]
      exact ⟨trivial, ⟨⟨_, rfl, by simp [h1, mask_map], by simp [h2, mask_map], fun _ => rfl, by simp⟩, hnd⟩⟩
    | true =>
      obtain ⟨xs, hx, hxr⟩ := h4 rfl
      have hlen : xs.length = (rows.map (fun r => decide (r.index ≠ k))).length := by
        have := congrArg List.length hxr
        simpa using this.symm
      simp only [hx, hlen, if_true]
      refine ⟨trivial, ⟨⟨_, rfl, by simp [h1, mask_map], by simp [h2, mask_map], by simp, fun _ => ⟨_, rfl, ?_⟩⟩, hnd⟩⟩
      rw [← mask_map Row.ex, hxr]
      unfold mask
      rw [List.zip_map_left, List.filter_map, List.map_map, List.map_map]
      rfl
  · simp only [hk, decide_false, Bool.false_eq_true, if_false, true_and]
    have : rows.filter (fun r => decide (r.index ≠ k)) = rows := by
      rw [List.filter_eq_self]
      intro r hr
      simp only [decide_eq_true_eq]
      rintro rfl
      exact hk (by rw [h2]; exact List.mem_map_of_mem hr)
    rw [this]
    exact ⟨⟨a, h0, h1, h2, h3, h4⟩, hn⟩

/-- Discarding by example removes the first row with that example, if there is one. -/
theorem Aligned.discardEx {o : MRepo κ γ} {rows : List (Row κ (Lab γ) (List γ))} (ha : Aligned o true rows) (x : List γ) :
    (o.discard none (some x)).2 = none ∧
    ((∀ r ∈ rows, r.ex ≠ some x) ∧ Aligned (o.discard none (some x)).1 true rows ∨
      ∃ pre r post, rows = pre ++ r :: post ∧ r.ex = some x ∧ (∀ s ∈ pre, s.ex ≠ some x) ∧
        Aligned (o.discard none (some x)).1 true (pre ++ post)) := by
  have ha' := ha
  obtain ⟨⟨a, h0, h1, h2, h3, h4⟩, hn⟩ := ha
  obtain ⟨xs, hx, hxr⟩ := h4 rfl
  unfold MRepo.discard
  simp only [h0, Option.map_none, Option.getD_none, if_true, hx]
  cases hf : findOne xs x with
  | none =>
    refine ⟨rfl, .inl ⟨?_, ha'⟩⟩
    intro r hr he
    have hm : some x ∈ xs.map some := by rw [← hxr, ← he]; exact List.mem_map_of_mem hr
    obtain ⟨v, hv, hv'⟩ := List.mem_map.1 hm
    cases hv'
    unfold findOne at hf
    rw [List.findIdx?_eq_none_iff] at hf
    simpa using hf x hv
  | some p =>
    unfold findOne at hf
    rw [List.findIdx?_eq_some_iff_getElem] at hf
    obtain ⟨hp, hpx, hbefore⟩ := hf
    have hlen : xs.length = rows.length := by simpa using (congrArg List.length hxr).symm
    have hil : a.indexes.length = rows.length := by rw [h2]; simp
    have hyl : a.y.length = rows.length := by rw [h1]; simp
    have hp' : p < rows.length := by omega
    have hex : ∀ i (hi : i < rows.length), rows[i].ex = some (xs[i]'(by omega)) := by
      intro i hi
      have := congrArg (fun l => l[i]?) hxr
      simp only [List.getElem?_map, List.getElem?_eq_getElem hi, List.getElem?_eq_getElem (show i < xs.length by omega),
        Option.map_some, Option.some.injEq] at this
      exact this
    simp only [MRepo.applyMask, hx, List.length_map, List.length_range, hlen, hil, if_true]
    refine ⟨trivial, .inr ⟨rows.take p, rows[p], rows.drop (p + 1), ?_, ?_, ?_, ?_⟩⟩
    · rw [List.getElem_cons_drop, List.take_append_drop]
    · rw [hex p hp']; simpa using hpx
    · intro s hs he
      obtain ⟨i, hi, rfl⟩ := List.mem_iff_getElem.1 hs
      rw [List.length_take] at hi
      simp only [List.getElem_take] at he
      rw [hex i (by omega)] at he
      have := hbefore i (by omega)
      simp only [decide_eq_true_eq] at this
      exact this (Option.some.inj he)
    · have e : rows.take p ++ rows.drop (p + 1) = rows.eraseIdx p := (List.eraseIdx_eq_take_drop_succ rows p).symm
      rw [e]
      have m1 : mask ((List.range rows.length).map (fun i => decide (i ≠ p))) a.y = (rows.eraseIdx p).map Row.label := by
        rw [← hyl, mask_pos, h1, List.eraseIdx_map]
      have m2 : mask ((List.range rows.length).map (fun i => decide (i ≠ p))) a.indexes = (rows.eraseIdx p).map Row.index := by
        rw [← hil, mask_pos, h2, List.eraseIdx_map]
      have m3 : mask ((List.range rows.length).map (fun i => decide (i ≠ p))) xs = xs.eraseIdx p := by
        rw [← hlen, mask_pos]
      refine ⟨⟨_, rfl, m1, m2, by simp, fun _ => ⟨_, rfl, ?_⟩⟩, ?_⟩
      · rw [m3, ← List.eraseIdx_map, hxr, List.eraseIdx_map]
      · rw [← List.eraseIdx_map]
        exact hn.sublist (List.eraseIdx_sublist _ _)

/-- Histories of construction with distinct indexes, `add`, `update_query` and `discard` - calls failing because of the label's shape
included - in which a repository with examples is always given examples of the right width. `given` collects the
(index, label, example) triples the calls were made with. -/
inductive Hist (w : Bool) : MRepo κ γ → List (Row κ (Lab γ) (List γ)) → Prop
  | new {o : MRepo κ γ} {rows : List (Row κ (Lab γ) (List γ))} (labels : List (Lab γ)) (indexes : List κ)
      (examples : Option (List (List γ))) : examples.isSome = w → RowsOf rows labels indexes examples → indexes.Nodup →
      MRepo.new labels indexes examples = .ok o → Hist w o rows
  | add {o o' : MRepo κ γ} {given : List (Row κ (Lab γ) (List γ))} (r : Row κ (Lab γ) (List γ)) (c : Option ℚ) (res : Option PyErr) :
      Hist w o given → Fits o r.ex → o.add r.label r.index c r.ex = (o', res) → Hist w o' (given ++ [keep w r])
  | update {o o' : MRepo κ γ} {given rs : List (Row κ (Lab γ) (List γ))} (labels : Arg (Lab γ)) (indexes : Arg κ)
      (cost : Option (Arg ℚ)) (examples : Option (Arg (List γ))) (res : Option PyErr) : Hist w o given →
      RowsOf rs labels.toList indexes.toList (examples.map Arg.toList) → (∀ r ∈ rs, Fits o r.ex) →
      o.updateQuery labels indexes cost examples = (o', res) → Hist w o' (given ++ rs.map (keep w))
  | discard {o o' : MRepo κ γ} {given : List (Row κ (Lab γ) (List γ))} (k : Option κ) (x : Option (List γ)) (res : Option PyErr) :
      Hist w o given → ¬ (k.isSome = true ∧ x.isSome = true) → o.discard k x = (o', res) → Hist w o' given

theorem Hist.aligned {w : Bool} {o : MRepo κ γ} {given : List (Row κ (Lab γ) (List γ))} (h : Hist w o given) :
    ∃ rows, Aligned o w rows ∧ ∀ r ∈ rows, r ∈ given := by
  induction h with
  | new labels indexes examples hw hr hn h => subst hw; exact ⟨_, Aligned.new hr hn h, fun _ h => h⟩
  | @add o o' given r c res _ hf h ih =>
    obtain ⟨rows, ha, hg⟩ := ih
    rcases ha.add r c hf with ⟨-, h2⟩ | ⟨-, e, h2⟩ | ⟨-, o1, h2, h3, -⟩
    · rw [h] at h2; cases h2; exact ⟨rows, ha, fun s hs => by simp [hg s hs]⟩
    · rw [h] at h2; cases h2; exact ⟨rows, ha, fun s hs => by simp [hg s hs]⟩
    · rw [h] at h2; cases h2
      refine ⟨_, h3, fun s hs => ?_⟩
      rcases List.mem_append.1 hs with hs | hs
      · simp [hg s hs]
      · rw [List.mem_append]; exact .inr hs
  | @update o o' given rs labels indexes cost examples res _ hr hf h ih =>
    obtain ⟨rows, ha, hg⟩ := ih
    unfold MRepo.updateQuery at h
    split at h
    · have e := repoRows_rowOf (cost.map Arg.toList) rs _ _ _ hr
      have hfits : ∀ t ∈ repoRows labels.toList indexes.toList (cost.map Arg.toList) (examples.map Arg.toList), Fits o t.2.2.2 := by
        intro t ht
        have : rowOf t ∈ rs := by rw [← e]; exact List.mem_map_of_mem ht
        exact hf _ this
      obtain ⟨rs', i1, i2, -⟩ := Aligned.addMany _ ha hfits
      have hsub : ∀ s ∈ rs', s ∈ rs.map (keep w) := by
        intro s hs
        have := i2.subset hs
        rw [← e, List.map_map]; exact this
      have hfin : ∀ s ∈ rows ++ rs', s ∈ given ++ rs.map (keep w) := by
        intro s hs
        rcases List.mem_append.1 hs with hs | hs
        · exact List.mem_append.2 (.inl (hg s hs))
        · exact List.mem_append.2 (.inr (hsub s hs))
      split at h
      · rename_i o1 e1 h1
        cases h
        rw [h1] at i1
        exact ⟨_, i1, hfin⟩
      · rename_i o1 h1
        cases h
        rw [h1] at i1
        exact ⟨_, ⟨i1.arr, i1.nodup⟩, hfin⟩
    · cases h
      exact ⟨rows, ha, fun s hs => by simp [hg s hs]⟩
  | @discard o o' given k x res _ hkx h ih =>
    obtain ⟨rows, ha, hg⟩ := ih
    cases k with
    | none =>
      cases x with
      | none => simp only [MRepo.discard] at h; cases h; exact ⟨rows, ha, hg⟩
      | some x =>
        cases w with
        | true =>
          rcases (ha.discardEx x).2 with ⟨-, h1⟩ | ⟨pre, r, post, rfl, -, -, h1⟩
          · rw [h] at h1; exact ⟨rows, h1, hg⟩
          · rw [h] at h1
            refine ⟨_, h1, fun s hs => hg s ?_⟩
            rcases List.mem_append.1 hs with hs | hs <;> simp [hs]
        | false =>
          obtain ⟨⟨a, h0, h1, h2, h3, h4⟩, hn⟩ := ha
          simp only [MRepo.discard, h0, h3 rfl, Option.map_none, Option.getD_none, if_true] at h
          cases h
          exact ⟨rows, ⟨⟨a, h0, h1, h2, h3, h4⟩, hn⟩, hg⟩
    | some k =>
      cases x with
      | none =>
        have := (ha.discardIx k).2
        rw [h] at this
        exact ⟨_, this, fun s hs => hg s (List.mem_filter.1 hs).1⟩
      | some x => simp at hkx

/-- C30: in every such history the training data are the columns of rows that were given together in one call, no index occurs twice, and
`retrieve_by_indexes` of a stored index returns its row. Missing: calls without (fitting) examples, repeated indexes at
construction, and `clear`; see the violations. -/
theorem C30_aligned_partial {w : Bool} {o : MRepo κ γ} {given : List (Row κ (Lab γ) (List γ))} (h : Hist w o given) :
    ∃ (rows : List (Row κ (Lab γ) (List γ))) (X : Option (List (List γ))),
      o.getTrainingData = some (X, rows.map Row.label, rows.map Row.index) ∧
      (w = false → X = none) ∧ (w = true → ∃ xs, X = some xs ∧ xs.map some = rows.map Row.ex) ∧
      (∀ r ∈ rows, r ∈ given) ∧ (rows.map Row.index).Nodup := by
  obtain ⟨rows, ⟨⟨a, h0, h1, h2, h3, h4⟩, hn⟩, hg⟩ := h.aligned
  refine ⟨rows, a.X, by simp [MRepo.getTrainingData, h0, h1, h2], h3, ?_, hg, hn⟩
  intro hw
  obtain ⟨xs, hx, hxr⟩ := h4 hw
  exact ⟨xs, hx, hxr.symm⟩

/-- What a user sees: `get_training_data` returns the columns of `rows` (`w`: with examples). -/
def Shows (o : MRepo κ γ) (w : Bool) (rows : List (Row κ (Lab γ) (List γ))) : Prop :=
  ∃ X, o.getTrainingData = some (X, rows.map Row.label, rows.map Row.index) ∧ (w = false → X = none) ∧
    (w = true → ∃ xs, X = some xs ∧ xs.map some = rows.map Row.ex)

theorem Aligned.shows {o : MRepo κ γ} {w : Bool} {rows : List (Row κ (Lab γ) (List γ))} (ha : Aligned o w rows) : Shows o w rows := by
  obtain ⟨⟨a, h0, h1, h2, h3, h4⟩, -⟩ := ha
  refine ⟨a.X, by simp [MRepo.getTrainingData, h0, h1, h2], h3, fun hw => ?_⟩
  obtain ⟨xs, hx, hxr⟩ := h4 hw
  exact ⟨xs, hx, hxr.symm⟩

/-- C30: the constructor with distinct indexes stores exactly the given rows in their order. -/
theorem C30_constructor_stores {labels : List (Lab γ)} {indexes : List κ} {examples : Option (List (List γ))} {o : MRepo κ γ}
    {rows : List (Row κ (Lab γ) (List γ))} (hr : RowsOf rows labels indexes examples) (hn : indexes.Nodup)
    (h : MRepo.new labels indexes examples = .ok o) : Shows o examples.isSome rows := (Aligned.new hr hn h).shows

/-- C30: in every such history, an `add` of a stored index changes nothing; an `add` of a new index that does not raise appends its row
and keeps all others; one that raises changes nothing. -/
theorem C30_add_partial {w : Bool} {o : MRepo κ γ} {given : List (Row κ (Lab γ) (List γ))} (h : Hist w o given)
    (r : Row κ (Lab γ) (List γ)) (c : Option ℚ) (hf : Fits o r.ex) :
    ∃ rows, Shows o w rows ∧
      (r.index ∈ rows.map Row.index → o.add r.label r.index c r.ex = (o, none)) ∧
      (r.index ∉ rows.map Row.index → (o.add r.label r.index c r.ex).2 = none → Shows (o.add r.label r.index c r.ex).1 w (rows ++ [keep w r])) ∧
      ((o.add r.label r.index c r.ex).2 ≠ none → (o.add r.label r.index c r.ex).1 = o) := by
  obtain ⟨rows, ha, -⟩ := h.aligned
  refine ⟨rows, ha.shows, ?_⟩
  rcases ha.add r c hf with ⟨h1, h2⟩ | ⟨h1, e, h2⟩ | ⟨h1, o', h2, h3, -⟩
  · exact ⟨fun _ => h2, fun hn => absurd h1 hn, by simp [h2]⟩
  · exact ⟨fun hn => absurd hn h1, by simp [h2], by simp [h2]⟩
  · exact ⟨fun hn => absurd hn h1, fun _ _ => by rw [h2]; exact h3.shows, by simp [h2]⟩

/-- C30: in every such history, `discard(index=k)` never raises and removes exactly the row of `k`, if there is one. -/
theorem C30_discard_index_partial {w : Bool} {o : MRepo κ γ} {given : List (Row κ (Lab γ) (List γ))} (h : Hist w o given) (k : κ) :
    ∃ rows, Shows o w rows ∧ (o.discard (some k) none).2 = none ∧
      Shows (o.discard (some k) none).1 w (rows.filter (fun r => decide (r.index ≠ k))) := by
  obtain ⟨rows, ha, -⟩ := h.aligned
  exact ⟨rows, ha.shows, (ha.discardIx k).1, (ha.discardIx k).2.shows⟩

/-- C30: in every such history with examples, `discard(example=x)` never raises and removes exactly the first row with example `x`, if
there is one. -/
theorem C30_discard_example_partial {o : MRepo κ γ} {given : List (Row κ (Lab γ) (List γ))} (h : Hist true o given) (x : List γ) :
    ∃ rows, Shows o true rows ∧ (o.discard none (some x)).2 = none ∧
      ((∀ r ∈ rows, r.ex ≠ some x) → Shows (o.discard none (some x)).1 true rows) ∧
      ((∃ r ∈ rows, r.ex = some x) → ∃ pre r post, rows = pre ++ r :: post ∧ r.ex = some x ∧ (∀ s ∈ pre, s.ex ≠ some x) ∧
        Shows (o.discard none (some x)).1 true (pre ++ post)) := by
  obtain ⟨rows, ha, -⟩ := h.aligned
  refine ⟨rows, ha.shows, (ha.discardEx x).1, ?_⟩
  rcases (ha.discardEx x).2 with ⟨h1, h2⟩ | ⟨pre, r, post, rfl, h1, h2, h3⟩
  · exact ⟨fun _ => h2.shows, fun ⟨r, hr, he⟩ => absurd he (h1 r hr)⟩
  · exact ⟨fun hn => absurd h1 (hn r (by simp)), fun _ => ⟨pre, r, post, rfl, h1, h2, h3.shows⟩⟩

theorem rowsAt_ok {α δ : Type} (f : α → δ) (l : List α) : ∀ (ps : List Nat) (as : List α), ps.map (fun p => l[p]?) = as.map some →
    rowsAt (l.map f) ps = .ok (as.map f) := by
  intro ps
  induction ps with
  | nil => intro as h; cases as with
    | nil => rfl
    | cons a as => simp at h
  | cons p ps ih =>
    intro as h
    cases as with
    | nil => simp at h
    | cons a as =>
      simp only [List.map_cons, List.cons.injEq] at h
      simp [rowsAt, h.1, ih as h.2, Except.map]

theorem positions_ok {α : Type} (key : α → κ) (l : List α) : ∀ (as : List α), (∀ a ∈ as, a ∈ l) → (l.map key).Nodup →
    ∃ ps, positions (l.map key) (as.map key) = .ok ps ∧ ps.map (fun p => l[p]?) = as.map some := by
  intro as
  induction as with
  | nil => intros; exact ⟨[], rfl, rfl⟩
  | cons a as ih =>
    intro hm hn
    obtain ⟨ps, h1, h2⟩ := ih (fun b hb => hm b (by simp [hb])) hn
    cases hf : (l.map key).findIdx? (fun i => decide (i = key a)) with
    | none =>
      rw [List.findIdx?_eq_none_iff] at hf
      have := hf (key a) (List.mem_map_of_mem (hm a (by simp)))
      simp at this
    | some p =>
      refine ⟨p :: ps, by simp [positions, hf, h1, Except.map], ?_⟩
      rw [List.findIdx?_eq_some_iff_getElem] at hf
      obtain ⟨hp, hpx, -⟩ := hf
      simp only [List.length_map] at hp
      simp only [List.getElem_map, decide_eq_true_eq] at hpx
      have hl : l[p]? = some a := by
        rw [List.getElem?_eq_getElem hp]
        congr 1
        exact List.inj_on_of_nodup_map hn (List.getElem_mem hp) (hm a (by simp)) hpx
      simp [hl, h2]

/-- C30: `retrieve_by_indexes` on stored indexes returns their rows in the order requested. -/
theorem C30_retrieve_partial {w : Bool} {o : MRepo κ γ} {given : List (Row κ (Lab γ) (List γ))} (h : Hist w o given) :
    ∃ rows : List (Row κ (Lab γ) (List γ)), (∀ r ∈ rows, r ∈ given) ∧ (∃ X, o.getTrainingData = some (X, rows.map Row.label, rows.map Row.index)) ∧
      ∀ rs : List (Row κ (Lab γ) (List γ)), (∀ r ∈ rs, r ∈ rows) →
        ∃ X, o.retrieveByIndexes (.many (rs.map Row.index)) = .ok (X, rs.map Row.label) ∧ (w = false → X = none) ∧
          (w = true → ∃ xs, X = some xs ∧ xs.map some = rs.map Row.ex) := by
  obtain ⟨rows, ⟨⟨a, h0, h1, h2, h3, h4⟩, hn⟩, hg⟩ := h.aligned
  refine ⟨rows, hg, ⟨a.X, by simp [MRepo.getTrainingData, h0, h1, h2]⟩, fun rs hrs => ?_⟩
  obtain ⟨ps, hp, hps⟩ := positions_ok Row.index rows rs hrs hn
  have hy := rowsAt_ok Row.label rows ps rs hps
  simp only [MRepo.retrieveByIndexes, h0, h2, hp, fetch, h1]
  cases w with
  | false => exact ⟨none, by simp [h3 rfl, hy, Except.map], by simp, by simp⟩
  | true =>
    obtain ⟨xs, hx, hxr⟩ := h4 rfl
    have hX : ∀ (ps : List Nat) (rs : List (Row κ (Lab γ) (List γ))), ps.map (fun p => rows[p]?) = rs.map some →
        ∃ vs, rowsAt xs ps = .ok vs ∧ vs.map some = rs.map Row.ex := by
      intro ps
      induction ps with
      | nil => intro rs h; cases rs with
        | nil => exact ⟨[], rfl, rfl⟩
        | cons r rs => simp at h
      | cons p ps ih =>
        intro rs h
        cases rs with
        | nil => simp at h
        | cons r rs =>
          simp only [List.map_cons, List.cons.injEq] at h
          obtain ⟨vs, e1, e2⟩ := ih rs h.2
          have := congrArg (fun l => l[p]?) hxr
          simp only [List.getElem?_map, h.1, Option.map_some] at this
          cases hv : xs[p]? with
          | none => simp [hv] at this
          | some v =>
            simp only [hv, Option.map_some, Option.some.injEq] at this
            exact ⟨v :: vs, by simp [rowsAt, hv, e1, Except.map], by simp [e2, this]⟩
    obtain ⟨vs, e1, e2⟩ := hX ps rs hps
    exact ⟨some vs, by simp [hx, e1, hy, Except.map], by simp, fun _ => ⟨vs, rfl, e2⟩⟩

/-- C30: a successful `update_query` stores all its indexes; those already there keep their old rows. -/
theorem C30_update_stores_partial {w : Bool} {o o' : MRepo κ γ} {rows rs : List (Row κ (Lab γ) (List γ))} (ha : Aligned o w rows)
    (labels : Arg (Lab γ)) (indexes : Arg κ) (cost : Option (Arg ℚ)) (examples : Option (Arg (List γ)))
    (hr : RowsOf rs labels.toList indexes.toList (examples.map Arg.toList)) (hf : ∀ r ∈ rs, Fits o r.ex)
    (h : o.updateQuery labels indexes cost examples = (o', none)) :
    ∃ rows', Aligned o' w (rows ++ rows') ∧ List.Sublist rows' (rs.map (keep w)) ∧
      ∀ k ∈ indexes.toList, k ∈ (rows ++ rows').map Row.index := by
  unfold MRepo.updateQuery at h
  split at h
  · have e := repoRows_rowOf (cost.map Arg.toList) rs _ _ _ hr
    have hfits : ∀ t ∈ repoRows labels.toList indexes.toList (cost.map Arg.toList) (examples.map Arg.toList), Fits o t.2.2.2 := by
      intro t ht
      have : rowOf t ∈ rs := by rw [← e]; exact List.mem_map_of_mem ht
      exact hf _ this
    obtain ⟨rs', i1, i2, i3⟩ := Aligned.addMany _ ha hfits
    split at h
    · cases h
    · rename_i o1 h1
      cases h
      rw [h1] at i1 i3
      refine ⟨rs', ⟨i1.arr, i1.nodup⟩, ?_, ?_⟩
      · rw [← e, List.map_map]; exact i2
      · intro k hk
        rw [← hr.2.1, ← e, List.map_map, List.mem_map] at hk
        obtain ⟨t, ht, rfl⟩ := hk
        exact i3 rfl t ht
  · cases h

/-- C30, violation: an `add` without example (or one of the wrong width) to a repository with examples raises after having stored label
and index. The next good `add` then gives its example to the wrong index: `retrieve_by_indexes` of the first
index returns the example of the second one. -/
theorem C30_failed_add_violation {o : MRepo κ γ} {rows : List (Row κ (Lab γ) (List γ))} (ha : Aligned o true rows)
    (a : MArrays κ γ) (harr : o.arr = some a) (b c : Lab γ) (i j : κ) (hi : i ∉ rows.map Row.index) (hj : j ∉ rows.map Row.index)
    (hij : j ≠ i) (hb : b.shape = a.shape) (hc : c.shape = a.shape) (v : List γ) (hv : v.length = a.dim) :
    ∃ o1 o2, o.add b i none none = (o1, some .genericException) ∧ o1.add c j none (some v) = (o2, none) ∧
      o2.retrieveByIndexes (.many [i]) = .ok (some [v], [b]) := by
  obtain ⟨⟨a', h0, h1, h2, h3, h4⟩, hn⟩ := ha
  rw [harr] at h0
  cases h0
  obtain ⟨xs, hx, hxr⟩ := h4 rfl
  have hlen : xs.length = rows.length := by simpa using (congrArg List.length hxr).symm
  have hi' : i ∉ a.indexes := by rw [h2]; exact hi
  have hj' : j ∉ a.indexes := by rw [h2]; exact hj
  refine ⟨{ o with arr := some { a with y := a.y ++ [b], indexes := a.indexes ++ [i] }, cost := o.cost + 0, costArr := o.costArr ++ [none] },
    { o with
      arr := some { a with y := a.y ++ [b] ++ [c], indexes := a.indexes ++ [i] ++ [j], X := some (xs ++ [v]) }
      cost := o.cost + 0 + 0
      costArr := o.costArr ++ [none] ++ [none] }, ?_, ?_, ?_⟩
  · simp [MRepo.add, harr, hi', hb, hx]
  · simp [MRepo.add, hj', hij, hc, hx, hv]
  · have hfind : (a.indexes ++ [i] ++ [j]).findIdx? (fun k => decide (k = i)) = some rows.length := by
      rw [List.findIdx?_eq_some_iff_getElem]
      have hil : a.indexes.length = rows.length := by rw [h2]; simp
      refine ⟨by simp [hil], ?_, ?_⟩
      · simp [← hil]
      · intro p hp
        have hp' : p < a.indexes.length := by omega
        simp only [List.append_assoc, List.getElem_append_left hp']
        simp only [decide_eq_true_eq]
        intro he
        exact hi' (he ▸ List.getElem_mem hp')
    have hyl : a.y.length = rows.length := by rw [h1]; simp
    have hX : (xs ++ [v])[rows.length]? = some v := by rw [← hlen]; simp
    have hY : (a.y ++ [b] ++ [c])[rows.length]? = some b := by rw [← hyl]; simp
    simp only [MRepo.retrieveByIndexes, positions, hfind, fetch, rowsAt, hX, hY, Except.map]

/-- C30, violation: the constructor accepts any list of indexes, however often an index is repeated in it, and keeps it. -/
theorem C30_constructor_violation {b : Lab γ} {labels : List (Lab γ)} {indexes : List κ} (hn : indexes.length = labels.length + 1)
    (hs : ∀ b' ∈ labels, b'.shape = b.shape) :
    ∃ o : MRepo κ γ, MRepo.new (b :: labels) indexes none = .ok o ∧ o.getTrainingData = some (none, b :: labels, indexes) := by
  refine ⟨⟨some ⟨b :: labels, indexes, none, b.shape, 0⟩, 0, [], 0, []⟩, ?_, rfl⟩
  have h1 : oneToOne [some (b :: labels).length, some indexes.length, (none : Option (List (List γ))).map List.length] = true := by
    simp [oneToOne, hn]
  unfold MRepo.new
  rw [if_pos h1]
  simp only [List.all_cons, decide_true, Bool.true_and]
  rw [if_pos (by simpa using hs)]
  simp

example : ((MRepo.new [.sc 5, .sc 6] [7, 7] none : Except PyErr (MRepo Nat Nat)).toOption.bind MRepo.getTrainingData) = some (none, [.sc 5, .sc 6], [7, 7]) := rfl

/-- C30, violation: after `clear` every `add`, `discard` by index and `retrieve_by_indexes` raises. -/
theorem C30_clear_violation (o : MRepo κ γ) (b : Lab γ) (k : κ) (c : Option ℚ) (x : Option (List γ)) (ks : Arg κ) :
    (o.clear.add b k c x).2 = some .typeError ∧ (o.clear.discard (some k) none).2 = some .typeError ∧
    o.clear.retrieveByIndexes ks = .error .typeError ∧ o.clear.getTrainingData = none := ⟨rfl, rfl, rfl, rfl⟩

/-- A history with a repeated index and a label of the wrong shape. -/
def demoRepo : Except PyErr (MRepo Nat Nat) := MRepo.new [.sc 1, .sc 0] [5, 9] (some [[1, 2], [3, 4]])

example : ∃ o : MRepo Nat Nat, Hist true o ([⟨5, .sc 1, some [1, 2]⟩, ⟨9, .sc 0, some [3, 4]⟩] ++
    [keep true ⟨7, .sc 1, some [5, 6]⟩] ++ [keep true ⟨7, .sc 0, some [0, 0]⟩] ++ [keep true ⟨8, .vec [1], some [0, 0]⟩]) ∧
    o.getTrainingData = some (some [[3, 4], [5, 6]], [.sc 0, .sc 1], [9, 7]) := by
  refine ⟨_, .discard (some 5) none none (.add ⟨8, .vec [1], some [0, 0]⟩ none (some .typeError)
    (.add ⟨7, .sc 0, some [0, 0]⟩ none none (.add ⟨7, .sc 1, some [5, 6]⟩ none none
      (.new [.sc 1, .sc 0] [5, 9] (some [[1, 2], [3, 4]]) rfl ?_ ?_ rfl) ?_ rfl) ?_ rfl) ?_ rfl) (by simp) rfl, rfl⟩
  · simp [RowsOf]
  · decide
  all_goals
    intro a xs h1 h2
    simp only [Option.some.injEq] at h1
    subst h1
    exact ⟨_, rfl, rfl⟩

end MRepo
end Alipy
