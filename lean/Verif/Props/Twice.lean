import Verif.Props.AnyOrder
import Verif.Props.Undo
import Verif.Props.Scale
import Verif.Props.Stopping
/-!
# C149: doing it twice is doing it once
-/
namespace Alipy.Twice
open Alipy Alipy.Spec

/-! ## Collections -/

theorem add_known {c : IC} {t : Ty} (ht : c.ety = some t) {v : Val} (hi : isInstance v.item t = true) (hm : pyMem v.item c.inner = true) : c.add v = (c, none) := by
  unfold IC.add
  simp [ht, hi, hm]

theorem addAll_known {t : Ty} : ∀ (vs : List Val) (c : IC), c.ety = some t → (∀ v ∈ vs, isInstance v.item t = true ∧ pyMem v.item c.inner = true) → c.addAll vs = (c, none)
  | [], _, _, _ => rfl
  | v :: vs, c, ht, h => by
    rw [IC.addAll, add_known ht (h v (by simp)).1 (h v (by simp)).2]
    exact addAll_known vs c ht (fun w hw => h w (by simp [hw]))

theorem item_key (v : Val) : v.item.key = v.key := rfl

theorem addAll_ety {t : Ty} : ∀ (vs : List Val) (c : IC), c.ety = some t → (c.addAll vs).1.ety = some t
  | [], _, h => h
  | v :: vs, c, h => by
    have h1 := (AnyOrder.add_ety h v).1
    rw [IC.addAll]
    revert h1
    rcases c.add v with ⟨c', _ | e⟩
    · exact fun h1 => addAll_ety vs c' h1
    · exact id

/-- **C149**: adding the same indexes again changes nothing, and is accepted. -/
theorem C149_update {c : IC} (h : IC.Reachable c) {vs : List Val} (hok : (c.update (.many vs)).2 = none) :
    (c.update (.many vs)).1.update (.many vs) = ((c.update (.many vs)).1, none) := by
  cases vs with
  | nil => rfl
  | cons v vs =>
    have hk := (C03_update_appends_in_order c h _ hok).1
    change (c.addAll (v :: vs)).2 = none at hok
    change ((c.addAll (v :: vs)).1).addAll (v :: vs) = ((c.addAll (v :: vs)).1, none)
    -- the type of the indexes after the call, for which all of them are accepted
    have ht : ∃ t, (c.addAll (v :: vs)).1.ety = some t ∧ ∀ w ∈ v :: vs, isInstance w.item t = true := by
      cases he : c.ety with
      | some t => exact ⟨t, addAll_ety _ _ he, (AnyOrder.addAll_ok_iff _ _ he).1 hok⟩
      | none =>
        have e1 : c.addAll (v :: vs) = ({ c with ety := some v.ty } : IC).addAll (v :: vs) := by
          rw [IC.addAll, IC.addAll]
          have : c.add v = ({ c with ety := some v.ty } : IC).add v := by
            unfold IC.add
            simp only [he]
          rw [this]
        rw [e1] at hok ⊢
        exact ⟨v.ty, addAll_ety _ _ rfl, (AnyOrder.addAll_ok_iff _ _ rfl).1 hok⟩
    obtain ⟨t, ht, hi⟩ := ht
    refine addAll_known _ _ ht fun w hw => ⟨hi w hw, ?_⟩
    rw [IC.pyMem_iff, item_key]
    change w.key ∈ (c.update (.many (v :: vs))).1.keys
    rw [hk, List.mem_eraseDups, List.mem_append]
    exact .inr (List.mem_map_of_mem hw)

theorem discardAll_unknown : ∀ (vs : List Val) (c : IC), (∀ v ∈ vs, pyMem v c.inner = false) → c.discardAll vs = c
  | [], _, _ => rfl
  | v :: vs, c, h => by
    have h1 : c.discard v = c := by
      unfold IC.discard
      rw [h v (by simp)]
      rfl
    rw [IC.discardAll, h1]
    exact discardAll_unknown vs c (fun w hw => h w (by simp [hw]))

/-- **C149**: taking the same indexes away again changes nothing. -/
theorem C149_difference {c : IC} (h : IC.Reachable c) (vs : List Val) :
    (c.differenceUpdate (.many vs)).differenceUpdate (.many vs) = c.differenceUpdate (.many vs) := by
  refine discardAll_unknown vs _ fun v hv => ?_
  rw [← Bool.not_eq_true, IC.pyMem_iff]
  change v.key ∉ (c.differenceUpdate (.many vs)).keys
  rw [C03_difference_keeps_order c h vs]
  simp only [List.mem_filter, decide_eq_true_eq, not_and, not_not]
  exact fun _ => List.mem_map_of_mem hv

example : let c := IC.mk' [⟨false, .int 0⟩, ⟨false, .int 1⟩]
    let vs : List Val := [⟨false, .int 5⟩, ⟨true, .int 1⟩]
    IC.Reachable c ∧ (c.update (.many vs)).2 = none ∧ (c.update (.many vs)).1 ≠ c ∧ c.differenceUpdate (.many vs) ≠ c :=
  ⟨.construct _, by decide, by decide, by decide⟩

/-- **C149**: the same for pairs (example, label), also if they are given in another form the second time. -/
theorem C149_pairs (c : MLIC) (L : Int) (hl : c.lsz = some L) (h0 : 0 < L) (hs : c.isList = false) (a a' : MLIC.Arg) (ixs ixs' : List Ix) (ha : MLIC.Stands a ixs)
    (ha' : MLIC.Stands a' ixs') (hlegal : ∀ ix ∈ ixs, Legal L ix) (hlegal' : ∀ ix ∈ ixs', Legal L ix) (hnt : ∀ e h ls, a ≠ .tuple (.pair e (.iter h ls)))
    (hnt' : ∀ e h ls, a' ≠ .tuple (.pair e (.iter h ls))) (hsame : ∀ p, DenotesAny L ixs p ↔ DenotesAny L ixs' p) :
    (∃ c₁ c₂, c.update a = (c₁, none) ∧ c₁.update a' = (c₂, none) ∧ ∀ q, q ∈ c₂.inner ↔ q ∈ c₁.inner) ∧
    (∃ c₁ c₂, c.differenceUpdate a = (c₁, none) ∧ c₁.differenceUpdate a' = (c₂, none) ∧ ∀ q, q ∈ c₂.inner ↔ q ∈ c₁.inner) := by
  constructor
  · obtain ⟨c₁, e1, l1, s1, m1⟩ := MLIC.C08_update_is_union_partial c L hl h0 hs a ixs ha hlegal hnt
    obtain ⟨c₂, e2, l2, s2, m2⟩ := MLIC.C08_update_is_union_partial c₁ L (l1.trans hl) h0 s1 a' ixs' ha' hlegal' hnt'
    refine ⟨c₁, c₂, e1, e2, fun q => ?_⟩
    rw [m2]
    refine ⟨?_, .inl⟩
    rintro (hq | ⟨p, rfl, hp⟩)
    · exact hq
    · exact (m1 _).2 (.inr ⟨p, rfl, (hsame p).2 hp⟩)
  · obtain ⟨c₁, e1, l1, s1, m1⟩ := MLIC.C08_difference_is_set_difference_partial c L hl h0 hs a ixs ha hlegal hnt
    obtain ⟨c₂, e2, l2, s2, m2⟩ := MLIC.C08_difference_is_set_difference_partial c₁ L (l1.trans hl) h0 s1 a' ixs' ha' hlegal' hnt'
    refine ⟨c₁, c₂, e1, e2, fun q => ?_⟩
    rw [m2]
    refine ⟨And.left, fun hq => ⟨hq, ?_⟩⟩
    rintro ⟨p, rfl, hp⟩
    exact ((m1 _).1 hq).2 ⟨p, rfl, (hsame p).2 hp⟩

example : ∃ c₁ c₂, (MLIC.update ⟨[(0, .scal 2)], some 3, false⟩ (.list [.tup (.all 1)])) = (c₁, none) ∧
    c₁.update (.list [.tup (.pair 1 (.scal 0)), .tup (.pair 1 (.scal 2)), .tup (.pair 1 (.scal 1))]) = (c₂, none) ∧ c₁.inner.length = 4 ∧
    c₂.inner = c₁.inner := ⟨_, _, rfl, rfl, by decide, by decide⟩

/-! ## Oracles -/

section
variable {κ ν : Type} [DecidableEq κ]

/-- A dictionary after a number of assignments. -/
def setAll (es : List (κ × ν)) (d : List (κ × ν)) : List (κ × ν) := es.foldl (fun d p => dictSet p.1 p.2 d) d

theorem dictGet_set_ne {k k' : κ} (v : ν) (h : k' ≠ k) : ∀ d : List (κ × ν), dictGet k (dictSet k' v d) = dictGet k d
  | [] => by simp [dictSet, dictGet, h]
  | (j, w) :: d => by
    by_cases hj : j = k'
    · subst hj
      simp [dictSet, dictGet, h]
    · rw [dictSet, if_neg hj, dictGet, dictGet, dictGet_set_ne v h d]

theorem get_setAll (k : κ) : ∀ es : List (κ × ν), (∃ v, ∀ d, dictGet k (setAll es d) = some v) ∨ ∀ d, dictGet k (setAll es d) = dictGet k d
  | [] => .inr fun _ => rfl
  | p :: es => by
    rcases get_setAll k es with ⟨v, h⟩ | h
    · exact .inl ⟨v, fun d => h (dictSet p.1 p.2 d)⟩
    · by_cases hp : p.1 = k
      · refine .inl ⟨p.2, fun d => ?_⟩
        rw [setAll, List.foldl_cons]
        refine (h _).trans ?_
        rw [← hp]
        exact Undo.dictGet_set p.1 p.2 d
      · refine .inr fun d => ?_
        rw [setAll, List.foldl_cons]
        exact (h _).trans (dictGet_set_ne p.2 hp d)

theorem get_setAll_twice (es : List (κ × ν)) (d : List (κ × ν)) (k : κ) : dictGet k (setAll es (setAll es d)) = dictGet k (setAll es d) := by
  rcases get_setAll k es with ⟨v, h⟩ | h
  · rw [h, h]
  · rw [h]
end

section
variable {χ β : Type} [DecidableEq χ]

/-- An entry that an oracle accepts. -/
def fits (ty : β → Nat) (o : Oracle χ β) (e : Oracle.Entry χ β) : Prop :=
  ty e.label = o.labelTy ∧ (o.exa2ind.isSome = true → e.ex.isSome = true) ∧ (∀ t, o.table = .cost t → e.cost.isSome = true)

/-- An oracle after it was told a number of entries. -/
def told (o : Oracle χ β) (es : List (Oracle.Entry χ β)) : Oracle χ β :=
  { o with
    exa2ind := o.exa2ind.map (setAll (es.filterMap (fun e => e.ex.map (fun x => (x, e.index)))))
    table := match o.table with
      | .cost t => .cost (setAll (es.filterMap (fun e => e.cost.map (fun c => (e.index, (e.label, c))))) t)
      | .plain t => .plain (setAll (es.map (fun e => (e.index, e.label))) t) }

theorem addOne_told (ty : β → Nat) (o : Oracle χ β) (e : Oracle.Entry χ β) :
    (Oracle.addOne ty o e.label e.index e.ex e.cost).2 = none ↔ fits ty o e := by
  unfold Oracle.addOne fits
  by_cases h1 : ty e.label = o.labelTy
  · rcases o with ⟨_ | d, ⟨t⟩ | ⟨t⟩, l⟩ <;> rcases hx : e.ex with _ | x <;> rcases hc : e.cost with _ | c <;> simp_all
  · simp [h1]

theorem addOne_eq (ty : β → Nat) (o : Oracle χ β) (e : Oracle.Entry χ β) (h : fits ty o e) :
    Oracle.addOne ty o e.label e.index e.ex e.cost = (told o [e], none) := by
  obtain ⟨h1, h2, h3⟩ := h
  unfold Oracle.addOne told
  rcases o with ⟨_ | d, ⟨t⟩ | ⟨t⟩, l⟩ <;> rcases hx : e.ex with _ | x <;> rcases hc : e.cost with _ | c <;> simp_all [setAll]

theorem told_cons (o : Oracle χ β) (e : Oracle.Entry χ β) (es : List (Oracle.Entry χ β)) : told (told o [e]) es = told o (e :: es) := by
  unfold told
  rcases o with ⟨_ | d, ⟨t⟩ | ⟨t⟩, l⟩ <;> rcases hx : e.ex with _ | x <;> rcases hc : e.cost with _ | c <;> simp [setAll, hx, hc]

theorem fits_told (ty : β → Nat) (o : Oracle χ β) (es : List (Oracle.Entry χ β)) (e : Oracle.Entry χ β) : fits ty (told o es) e ↔ fits ty o e := by
  unfold fits told
  rcases o with ⟨_ | d, ⟨t⟩ | ⟨t⟩, l⟩ <;> simp

theorem addAll_told (ty : β → Nat) : ∀ (es : List (Oracle.Entry χ β)) (o : Oracle χ β),
    ((Oracle.addAll ty o es).2 = none ↔ ∀ e ∈ es, fits ty o e) ∧ ((∀ e ∈ es, fits ty o e) → Oracle.addAll ty o es = (told o es, none))
  | [], o => by
    refine ⟨by simp [Oracle.addAll], fun _ => ?_⟩
    rcases o with ⟨_ | d, ⟨t⟩ | ⟨t⟩, l⟩ <;> simp [Oracle.addAll, told, setAll]
  | e :: es, o => by
    by_cases h : fits ty o e
    · obtain ⟨h1, h2⟩ := addAll_told ty es (told o [e])
      rw [Oracle.addAll, addOne_eq ty o e h]
      simp only [fits_told] at h1 h2
      refine ⟨by rw [h1]; simp [h], fun ha => ?_⟩
      simp only
      rw [h2 (fun f hf => ha f (by simp [hf])), told_cons]
    · refine ⟨?_, fun ha => absurd (ha e (by simp)) h⟩
      have := mt (addOne_told ty o e).1 h
      rw [Oracle.addAll]
      revert this
      rcases Oracle.addOne ty o e.label e.index e.ex e.cost with ⟨o', _ | err⟩
      · intro h; exact absurd rfl h
      · intro _
        simp only [reduceCtorEq, false_iff]
        exact fun ha => h (ha e (by simp))

theorem lookup_congr {d d' : List (χ × Key)} (h : ∀ x, dictGet x d = dictGet x d') : ∀ xs, Oracle.lookupExamples d xs = Oracle.lookupExamples d' xs
  | [] => rfl
  | x :: xs => by rw [Oracle.lookupExamples, Oracle.lookupExamples, h, lookup_congr h xs]

omit [DecidableEq χ] in
theorem query_congr {o o' : Oracle χ β} (h : ∀ k, o.ask k = o'.ask k) : ∀ q, o.queryByIndex q = o'.queryByIndex q
  | [] => rfl
  | k :: q => by rw [Oracle.queryByIndex, Oracle.queryByIndex, h, query_congr h q]

/-- **C149**, oracles: telling an oracle the same again is accepted, and all questions by index or by example are answered as after the first time. -/
theorem C149_oracle (ty : β → Nat) (o o₁ : Oracle χ β) (labels : List β) (indexes : List Key) (examples : Option (List χ)) (cost : Option (List ℚ))
    (h : Oracle.addKnowledge ty o labels indexes examples cost = (o₁, none)) :
    ∃ o₂, Oracle.addKnowledge ty o₁ labels indexes examples cost = (o₂, none) ∧ (∀ q, o₂.queryByIndex q = o₁.queryByIndex q) ∧
      ∀ xs, o₂.queryByExample xs = o₁.queryByExample xs := by
  unfold Oracle.addKnowledge at h ⊢
  split at h
  · cases h
  · rename_i hlen
    rw [if_neg hlen]
    generalize Oracle.entries labels indexes examples cost = es at h
    have hall := (addAll_told ty es o).1.1 (by rw [h])
    rw [(addAll_told ty es o).2 hall] at h
    injection h with h _
    subst h
    refine ⟨_, (addAll_told ty es (told o es)).2 (fun e he => (fits_told ty o es e).2 (hall e he)), ?_⟩
    have hask : ∀ k, (told (told o es) es).ask k = (told o es).ask k := by
      intro k
      rcases o with ⟨d, ⟨t⟩ | ⟨t⟩, l⟩ <;> simp only [told, Oracle.ask, get_setAll_twice]
    refine ⟨query_congr hask, fun xs => ?_⟩
    rcases hd : o.exa2ind with _ | d
    · simp [told, Oracle.queryByExample, hd]
    · have e1 : (told o es).exa2ind = some (setAll (es.filterMap (fun e => e.ex.map (fun x => (x, e.index)))) d) := by simp [told, hd]
      have e2 : (told (told o es) es).exa2ind = some (setAll (es.filterMap (fun e => e.ex.map (fun x => (x, e.index))))
        (setAll (es.filterMap (fun e => e.ex.map (fun x => (x, e.index)))) d)) := by simp [told, hd]
      rw [Oracle.queryByExample, Oracle.queryByExample, e1, e2]
      simp only
      rw [lookup_congr (fun x => get_setAll_twice _ d x)]
      split
      · rfl
      · exact query_congr hask _

/-- An index is told twice in one call: the last label counts, also the second time. -/
example : ∃ o o₁ : Oracle Nat String, Oracle.new (fun _ => 0) ["a"] none (some [.num 0]) none = .ok o ∧
    Oracle.addKnowledge (fun _ => 0) o ["b", "c", "d"] [.num 3, .num 0, .num 3] none none = (o₁, none) ∧
    o₁.queryByIndex [.num 0, .num 3] = .ok (["c", "d"], [1, 1]) := ⟨_, _, rfl, rfl, by decide +kernel⟩

end

/-! ## Repositories -/

section
variable {κ γ : Type} [DecidableEq κ] [DecidableEq γ]

theorem mAddMany_known : ∀ (r : List (κ × Lab γ × Option ℚ × Option (List γ))) (o : MRepo κ γ) (a : MArrays κ γ), o.arr = some a → (∀ p ∈ r, p.1 ∈ a.indexes) →
    o.addMany r = (o, none)
  | [], _, _, _, _ => rfl
  | (k, b, c, x) :: r, o, a, ha, h => by
    have h1 : o.add b k c x = (o, none) := by
      unfold MRepo.add
      simp only [ha, h _ (List.mem_cons_self ..), if_true]
    rw [MRepo.addMany, h1]
    exact mAddMany_known r o a ha (fun p hp => h p (by simp [hp]))

theorem mAdd_indexes {o o' : MRepo κ γ} {a : MArrays κ γ} (ha : o.arr = some a) {b : Lab γ} {k : κ} {c : Option ℚ} {x : Option (List γ)} (h : o.add b k c x = (o', none)) :
    ∃ a', o'.arr = some a' ∧ k ∈ a'.indexes ∧ ∀ j ∈ a.indexes, j ∈ a'.indexes := by
  unfold MRepo.add at h
  simp only [ha] at h
  split_ifs at h with h1 h2
  · injection h with h _
    subst h
    exact ⟨a, ha, h1, fun _ => id⟩
  · split at h
    · injection h with h _
      subst h
      exact ⟨_, rfl, by simp, fun j hj => by simp [hj]⟩
    · split at h
      · cases h
      · split_ifs at h
        · injection h with h _
          subst h
          exact ⟨_, rfl, by simp, fun j hj => by simp [hj]⟩
        · cases h
  · cases h
  · cases h

theorem mAddMany_indexes : ∀ (r : List (κ × Lab γ × Option ℚ × Option (List γ))) (o o' : MRepo κ γ) (a : MArrays κ γ), o.arr = some a → o.addMany r = (o', none) →
    ∃ a', o'.arr = some a' ∧ (∀ p ∈ r, p.1 ∈ a'.indexes) ∧ ∀ j ∈ a.indexes, j ∈ a'.indexes
  | [], o, o', a, ha, h => by
    injection h with h _
    subst h
    exact ⟨a, ha, by simp, fun _ => id⟩
  | (k, b, c, x) :: r, o, o', a, ha, h => by
    rw [MRepo.addMany] at h
    revert h
    rcases h1 : o.add b k c x with ⟨o₁, _ | e⟩
    · intro h
      obtain ⟨a₁, e1, m1, s1⟩ := mAdd_indexes ha h1
      obtain ⟨a', e2, m2, s2⟩ := mAddMany_indexes r o₁ o' a₁ e1 h
      refine ⟨a', e2, ?_, fun j hj => s2 j (s1 j hj)⟩
      rintro p hp
      rcases List.mem_cons.1 hp with rfl | hp
      · exact s2 _ m1
      · exact m2 p hp
    · intro h
      cases h

/-- **C149**, `MatrixRepository`: a query stored again is not stored again: labels, examples, indexes and cost stay, only the number and the record of the calls
change. -/
theorem C149_matrix_repository (o o₁ : MRepo κ γ) (labels : Arg (Lab γ)) (indexes : Arg κ) (cost : Option (Arg ℚ)) (examples : Option (Arg (List γ)))
    (h : o.updateQuery labels indexes cost examples = (o₁, none)) :
    ∃ o₂, o₁.updateQuery labels indexes cost examples = (o₂, none) ∧ o₂ = { o₁ with numQueries := o₂.numQueries, history := o₂.history } := by
  unfold MRepo.updateQuery at h ⊢
  split at h
  swap
  · cases h
  rename_i hl
  rw [if_pos hl]
  revert h
  rcases hm : o.addMany (repoRows labels.toList indexes.toList (cost.map Arg.toList) (examples.map Arg.toList)) with ⟨o', _ | e⟩
  · intro h
    injection h with h _
    subst h
    cases ha : o.arr with
    | none =>
      -- a cleared repository stores nothing at all
      cases hr : repoRows labels.toList indexes.toList (cost.map Arg.toList) (examples.map Arg.toList) with
      | nil => exact ⟨_, rfl, rfl⟩
      | cons p r =>
        obtain ⟨k, b, c, x⟩ := p
        rw [hr, MRepo.addMany] at hm
        simp [MRepo.add, ha] at hm
    | some a =>
      obtain ⟨a', e1, m1, -⟩ := mAddMany_indexes _ _ _ a ha hm
      rw [mAddMany_known _ ({ o' with numQueries := o'.numQueries + 1, history := o'.history ++ [⟨labels.unpack, cost.map Arg.unpack, indexes.unpack⟩] } : MRepo κ γ) a' e1 m1]
      exact ⟨_, rfl, rfl⟩
  · intro h
    cases h

/-- A query of two indexes, the first of them known. -/
example : ∃ o o₁ : MRepo Int Int, MRepo.new [.sc 5] [4] none = .ok o ∧ o.updateQuery (.many [.sc 6, .sc 1]) (.many [4, 7]) (some (.many [2, 3])) none = (o₁, none) ∧
    o₁.arr.map MArrays.indexes = some [4, 7] ∧ o₁.cost = 3 := ⟨_, _, rfl, rfl, rfl, by decide +kernel⟩

omit [DecidableEq κ] [DecidableEq γ] in
theorem mask_filter {α : Type} (f : α → Bool) : ∀ l : List α, MRepo.mask (l.map f) l = l.filter f
  | [] => rfl
  | a :: l => by
    have := mask_filter f l
    unfold MRepo.mask at this ⊢
    rw [List.map_cons, List.zip_cons_cons, List.filter_cons, List.filter_cons]
    cases f a <;> simp [this]

/-- **C149**, `MatrixRepository`: an index discarded is not discarded again. -/
theorem C149_matrix_discard (o : MRepo κ γ) (a : MArrays κ γ) (ha : o.arr = some a) (k : κ) :
    (o.discard (some k) none).1.discard (some k) none = ((o.discard (some k) none).1, none) := by
  have hshape : ∃ a', (o.discard (some k) none).1.arr = some a' ∧ k ∉ a'.indexes := by
    unfold MRepo.discard
    simp only [ha]
    by_cases hk : k ∈ a.indexes
    · have hn : k ∉ MRepo.mask (a.indexes.map (fun i => decide (some i ≠ some k))) a.indexes := by
        rw [mask_filter]
        simp
      simp only [Option.map_some, hk, decide_true, Option.getD_some, if_true, MRepo.applyMask]
      split
      · exact ⟨_, rfl, hn⟩
      · split_ifs
        · exact ⟨_, rfl, hn⟩
        · exact ⟨_, rfl, hn⟩
    · exact ⟨a, by simp [hk, ha], hk⟩
  obtain ⟨a', h1, h2⟩ := hshape
  generalize (o.discard (some k) none).1 = o' at h1
  unfold MRepo.discard
  simp [h1, h2]
end

section
variable {κ β χ : Type} [DecidableEq κ] [DecidableEq χ]

/-- **C149**, `ElementRepository`: an index discarded is not discarded again, provided it was stored once. -/
theorem C149_discard (o : ERepo κ β χ) (hn : o.indexes.Nodup) (k : κ) : (o.discard (some k) none).1.discard (some k) none = ((o.discard (some k) none).1, none) := by
  have h1 : k ∉ (o.discard (some k) none).1.indexes := by
    simp only [ERepo.discard, ERepo.discardIx]
    have he : k ∉ o.indexes.erase k := fun h => absurd h (by rw [hn.mem_erase_iff]; simp)
    by_cases hk : k ∈ o.indexes
    · rw [if_pos hk]
      repeat' split
      all_goals exact he
    · rw [if_neg hk]
      exact hk
  generalize (o.discard (some k) none).1 = o' at h1
  simp [ERepo.discard, ERepo.discardIx, h1]

/-- Not so `ElementRepository.add`: an entry stored again is listed and paid for again. -/
theorem C149_repository_violation (o o₁ : ERepo κ β χ) (k : κ) (b : β) (cost : Option ℚ) (ex : Option χ) (h : o.add k b cost ex = (o₁, none)) :
    ∃ o₂, o₁.add k b cost ex = (o₂, none) ∧ o₂.indexes = o₁.indexes ++ [k] ∧ k ∈ o₁.indexes ∧ o₂.cost = o₁.cost + cost.getD 0 := by
  unfold ERepo.add at h ⊢
  by_cases he : o.hasEx = true
  · rw [if_pos he] at h
    cases ex with
    | none => cases h
    | some x =>
      injection h with h _
      subst h
      exact ⟨_, by rw [if_pos (by exact he)], rfl, by simp [ERepo.addRest], rfl⟩
  · rw [if_neg he] at h
    injection h with h _
    subst h
    exact ⟨_, by rw [if_neg (by exact he)], rfl, by simp [ERepo.addRest], rfl⟩

/-- Two rows; the first is discarded. -/
example : ∃ o : ERepo Int String Nat, ERepo.new ["a", "b"] [4, 7] (some [10, 20]) = .ok o ∧ o.indexes.Nodup ∧ (o.discard (some 4) none).1.indexes = [7] :=
  ⟨_, rfl, by decide, rfl⟩
end

/-! ## Saved states and stopping criteria -/

section
variable {κ ε σ : Type} (ops : CollOps κ ε σ)

/-- **C149**, `StateIO`: refreshing the totals again, recovering a workspace again. -/
theorem C149_states (s : StateIO κ σ) :
    ((s.refreshInfo ops).1.refreshInfo ops = s.refreshInfo ops) ∧
    ∀ i w, (s.recoverWorkspace ops (some i)).2 = .ok w → (s.recoverWorkspace ops (some i)).1.recoverWorkspace ops (some i) = s.recoverWorkspace ops (some i) ∧
      (s.recoverWorkspace ops (some i)).1.recoverWorkspace ops none = s.recoverWorkspace ops (some i) := by
  constructor
  · unfold StateIO.refreshInfo
    rcases h : StateIO.totals ops s.states with e | ⟨n, c⟩
    · simp [h]
    · simp [h]
  · intro i w h
    have hi : 0 ≤ i ∧ i ≤ s.states.length := by
      by_contra hn
      simp [StateIO.recoverWorkspace, hn] at h
    have hr : StateIO.replay ops (s.states.take i.toNat) s.initL s.initU = .ok w := by
      unfold StateIO.recoverWorkspace at h
      simp only [Option.getD_some] at h
      rw [if_pos hi] at h
      rcases hr : StateIO.replay ops (s.states.take i.toNat) s.initL s.initU with e | w'
      · rw [hr] at h; cases h
      · rw [hr] at h; exact h
    have e1 : s.recoverWorkspace ops (some i) = ({ s with states := s.states.take i.toNat }, .ok w) := by
      unfold StateIO.recoverWorkspace
      simp only [Option.getD_some]
      rw [if_pos hi, hr]
    have hlen : (s.states.take i.toNat).length = i.toNat := by rw [List.length_take]; omega
    rw [e1]
    constructor
    · unfold StateIO.recoverWorkspace
      simp only [Option.getD_some, hlen]
      rw [if_pos (by omega), List.take_take, Nat.min_self, hr]
    · unfold StateIO.recoverWorkspace
      simp only [Option.getD_none, hlen]
      rw [if_pos (by omega), Int.toNat_natCast, List.take_take, Nat.min_self, hr]

/-- **C149**, `StoppingCriteria`: telling it the same saver again, resetting it again at the same moment. -/
theorem C149_stopping (st st₁ : Stop) (s : StateIO κ σ) (h : Stop.update ops st s = .ok st₁) (now now' : ℚ) :
    Stop.update ops st₁ s = .ok st₁ ∧ (st.reset now').reset now = st.reset now := by
  refine ⟨?_, rfl⟩
  unfold Stop.update at h ⊢
  rcases h1 : StateIO.getWorkspace ops s none with e | ⟨L, U⟩
  · rw [h1] at h; cases h
  · rcases h2 : StateIO.getWorkspace ops s (some 0) with e | ⟨L0, U0⟩
    · rw [h1, h2] at h; cases h
    · rw [h1, h2] at h
      simp only at h ⊢
      rcases st with ⟨c, v, iv, t, it, ac, u, pc⟩
      cases c <;> simp only at h
      case percentOfUnlabel =>
        split_ifs at h with h0
        injection h with h
        subst h
        simp only [if_neg h0]
      all_goals
        injection h with h
        subst h
        rfl
end

/-! ## Scaling -/

theorem column_scaled {X : List (List (Option ℚ))} {a b : ℚ} (j : Nat) :
    column (X.map (fun r => r.mapIdx (fun j x => minmaxEntry a b (column X j) x))) j = (column X j).map (minmaxEntry a b (column X j)) := by
  unfold column
  rw [List.map_map, List.map_map]
  refine List.map_congr_left fun r _ => ?_
  simp only [Function.comp_apply, List.getD_eq_getElem?_getD, List.getElem?_mapIdx]
  rcases r[j]? with _ | x
  · simp [minmaxEntry]
  · simp

theorem entry_twice {a b : ℚ} (hab : a < b) (c : List (Option ℚ)) (x : Option ℚ) (hx : x ∈ c) :
    minmaxEntry a b (c.map (minmaxEntry a b c)) (minmaxEntry a b c x) = minmaxEntry a b c x := by
  cases x with
  | none =>
    have : minmaxEntry a b c none = none := by unfold minmaxEntry; split <;> simp_all
    rw [this]
    unfold minmaxEntry
    split <;> simp_all
  | some v =>
    rcases nanmin_spec c with ⟨_, h⟩ | ⟨lo, -, hlo⟩
    · exact absurd hx (h v)
    rcases nanmax_spec c with ⟨_, h⟩ | ⟨hi, -, hhi⟩
    · exact absurd hx (h v)
    have hle : lo ≤ hi := hhi.2 _ hlo.1
    have hmem : ∀ y, some y ∈ c.map (minmaxEntry a b c) → ∃ u, some u ∈ c ∧ y = (u - lo) / handleZero (hi - lo) * (b - a) + a := by
      intro y hy
      obtain ⟨o, ho, he⟩ := List.mem_map.1 hy
      cases o with
      | none =>
        exfalso
        have : minmaxEntry a b c none = none := by unfold minmaxEntry; split <;> simp_all
        rw [this] at he
        cases he
      | some u =>
        rw [minmaxEntry_eq hlo hhi] at he
        injection he with he
        exact ⟨u, ho, he.symm⟩
    have hin : ∀ u, some u ∈ c → some ((u - lo) / handleZero (hi - lo) * (b - a) + a) ∈ c.map (minmaxEntry a b c) := by
      intro u hu
      exact List.mem_map.2 ⟨some u, hu, minmaxEntry_eq hlo hhi u⟩
    by_cases heq : hi - lo = 0
    · -- a constant column
      have hv : v = lo := le_antisymm (by have := hhi.2 v hx; linarith) (hlo.2 v hx)
      have hz : handleZero (hi - lo) = 1 := by simp [handleZero, heq]
      have hl : Spec.IsLeast (c.map (minmaxEntry a b c)) a := by
        refine ⟨?_, fun y hy => ?_⟩
        · have := hin lo hlo.1; simpa using this
        · obtain ⟨u, hu, rfl⟩ := hmem y hy
          have h1 : u = lo := le_antisymm (by have := hhi.2 u hu; linarith) (hlo.2 u hu)
          simp [h1]
      have hg : Spec.IsGreatest (c.map (minmaxEntry a b c)) a := by
        refine ⟨hl.1, fun y hy => ?_⟩
        obtain ⟨u, hu, rfl⟩ := hmem y hy
        have h1 : u = lo := le_antisymm (by have := hhi.2 u hu; linarith) (hlo.2 u hu)
        simp [h1]
      rw [minmaxEntry_eq hlo hhi, minmaxEntry_eq hl hg, hv]
      simp
    · have hd : 0 < hi - lo := lt_of_le_of_ne (by linarith) (Ne.symm heq)
      have hz : handleZero (hi - lo) = hi - lo := by simp [handleZero, heq]
      have hba : 0 < b - a := by linarith
      have hl : Spec.IsLeast (c.map (minmaxEntry a b c)) a := by
        refine ⟨?_, fun y hy => ?_⟩
        · have := hin lo hlo.1; simpa using this
        · obtain ⟨u, hu, rfl⟩ := hmem y hy
          rw [hz]
          have := mul_nonneg (div_nonneg (sub_nonneg.2 (hlo.2 u hu)) hd.le) hba.le
          linarith
      have hg : Spec.IsGreatest (c.map (minmaxEntry a b c)) b := by
        refine ⟨?_, fun y hy => ?_⟩
        · have := hin hi hhi.1
          rw [hz, div_self hd.ne', one_mul, sub_add_cancel] at this
          exact this
        · obtain ⟨u, hu, rfl⟩ := hmem y hy
          rw [hz]
          have h1 : (u - lo) / (hi - lo) ≤ 1 := by
            rw [div_le_one hd]
            have := hhi.2 u hu
            linarith
          have := mul_le_mul_of_nonneg_right h1 hba.le
          linarith
      have hzb : handleZero (b - a) = b - a := by simp [handleZero, hba.ne']
      rw [minmaxEntry_eq hlo hhi, minmaxEntry_eq hl hg, hz, hzb]
      congr 1
      field_simp
      ring

/-- **C149**, `minmax_scale`: scaling what is already scaled to the same range changes nothing. -/
theorem C149_minmax {X Y : List (List (Option ℚ))} {a b : ℚ} (h : minmaxScale X a b = .ok Y) : minmaxScale Y a b = .ok Y := by
  unfold minmaxScale at h ⊢
  split_ifs at h with h1 h2
  injection h with h
  subst h
  rw [if_neg h1, if_neg (by simpa using h2)]
  congr 1
  rw [List.map_map]
  refine List.map_congr_left fun r hr => ?_
  simp only [Function.comp_apply]
  refine List.ext_getElem? fun j => ?_
  rw [List.getElem?_mapIdx, List.getElem?_mapIdx]
  cases hx : r[j]? with
  | none => rfl
  | some x =>
    simp only [Option.map_some]
    rw [column_scaled, entry_twice (not_le.1 h1)]
    exact List.mem_map.2 ⟨r, hr, by simp [List.getD_eq_getElem?_getD, hx]⟩

example : minmaxScale [[some 1, some 5], [some 3, none], [some 2, some 5]] 0 2 = .ok [[some 0, some 0], [some 2, none], [some 1, some 0]] ∧
    minmaxScale [[some 0, some 0], [some 2, none], [some 1, some 0]] 0 2 = .ok [[some 0, some 0], [some 2, none], [some 1, some 0]] := by
  constructor <;> norm_num [minmaxScale, minmaxEntry, column, nanmin, nanmax, handleZero]

/-- Not so `StandardScale`: it divides by the variance, so that scaling again multiplies by it. What is returned the second time is the column with its mean subtracted
and its variance as it was in the beginning. -/
theorem C149_standard_violation {c ys : List ℚ} (hv : variance c ≠ 0) (h : standardColumn c = ys.map some) :
    standardColumn ys = (c.map (fun x => x - mean c)).map some ∧ (variance c ≠ 1 → standardColumn ys ≠ ys.map some) := by
  have hm := C52_standard_mean hv h
  have hvar := C52_standard_variance_partial hv h
  have hvy : variance ys ≠ 0 := by rw [hvar]; exact one_div_ne_zero hv
  have hys : ys = c.map (fun x => (x - mean c) / variance c) := by
    rw [standardColumn_eq hv] at h
    exact (List.map_injective_iff.2 (Option.some_injective ℚ) h).symm
  have h1 : standardColumn ys = (c.map (fun x => x - mean c)).map some := by
    rw [standardColumn_eq hvy, hm, hvar]
    congr 1
    rw [hys, List.map_map]
    refine List.map_congr_left fun x _ => ?_
    simp only [Function.comp_apply, sub_zero]
    field_simp
  refine ⟨h1, fun hne he => ?_⟩
  have h2 : c.map (fun x => (x - mean c) / variance c) = c.map (fun x => x - mean c) :=
    hys.symm.trans (List.map_injective_iff.2 (Option.some_injective ℚ) (he.symm.trans h1))
  have h3 : ∀ x ∈ c, x - mean c = 0 := by
    intro x hx
    have h4 := List.map_inj_left.1 h2 x hx
    rw [div_eq_iff hv] at h4
    have : (x - mean c) * (1 - variance c) = 0 := by linarith
    rcases mul_eq_zero.1 this with h | h
    · exact h
    · exact absurd (by linarith) hne
  refine hv ?_
  have : c.map (fun x => (x - mean c) * (x - mean c)) = c.map (fun _ => (0 : ℚ)) := List.map_congr_left fun x hx => by rw [h3 x hx, mul_zero]
  rw [variance, this]
  simp [mean]

end Alipy.Twice
