import Verif.Props.Oracle

/-! # C27: multi-label oracles (and `OracleQueryFeatures`, which is the same class with features as labels) -/
namespace Alipy
open Spec
set_option linter.unusedSectionVars false
namespace MLOracle
variable {χ β : Type} [DecidableEq χ]

/-- `o` is a multi-label oracle with `w` labels per instance, created and then extended by any sequence of additions; `log` holds
the facts it accepted. `withCost`: costs were given, all of them as numpy arrays of the right shape; `lc`: the costs per label, if
given in that form. An addition that fails or that concerns a known instance adds no fact. -/
inductive Hist (w : Nat) : Bool → Option (List ℚ) → MLOracle χ β → List (Fact β) → Prop
  | plain {labels : List (List β)} {examples : Option (List χ)} {indexes : Option (List Int)} {o : MLOracle χ β}
      {log : List (Fact β)} : MLOracle.new labels examples indexes none = .ok o → (∀ r ∈ labels, r.length = w) →
      log.map Fact.row = labels → log.map Fact.index = indexes.getD ((List.range labels.length).map (fun i : Nat => (i : Int))) →
      (∀ f ∈ log, f.cost = none) → Hist w false none o log
  | perLabel {labels : List (List β)} {examples : Option (List χ)} {indexes : Option (List Int)} {cs : List ℚ}
      {o : MLOracle χ β} {log : List (Fact β)} : MLOracle.new labels examples indexes (some (.perLabel ⟨true, cs⟩)) = .ok o →
      (∀ r ∈ labels, r.length = w) → log.map Fact.row = labels →
      log.map Fact.index = indexes.getD ((List.range labels.length).map (fun i : Nat => (i : Int))) →
      (∀ f ∈ log, f.cost = some cs) → Hist w true (some cs) o log
  | matrix {labels : List (List β)} {examples : Option (List χ)} {indexes : Option (List Int)} {rows : List (List ℚ)}
      {o : MLOracle χ β} {log : List (Fact β)} :
      MLOracle.new labels examples indexes (some (.matrix (rows.map (fun r => ⟨true, r⟩)))) = .ok o →
      (∀ r ∈ labels, r.length = w) → (∀ r ∈ rows, r.length = w) → log.map Fact.row = labels →
      log.map Fact.index = indexes.getD ((List.range labels.length).map (fun i : Nat => (i : Int))) →
      log.map Fact.cost = rows.map some → Hist w true none o log
  | fail {withCost : Bool} {lc : Option (List ℚ)} {o o' : MLOracle χ β} {log : List (Fact β)} {label : List β} {index : Int}
      {ex : Option χ} {cost : Option CostRow} {err : PyErr} : Hist w withCost lc o log →
      addOne o label index ex cost = (o', some err) → Hist w withCost lc o' log
  | skip {withCost : Bool} {lc : Option (List ℚ)} {o o' : MLOracle χ β} {log : List (Fact β)} {label : List β} {index : Int}
      {ex : Option χ} {cost : Option CostRow} : Hist w withCost lc o log → (∃ f ∈ log, f.index = index) →
      addOne o label index ex cost = (o', none) → Hist w withCost lc o' log
  | add {withCost : Bool} {lc : Option (List ℚ)} {o o' : MLOracle χ β} {log : List (Fact β)} {label : List β} {index : Int}
      {ex : Option χ} {cost : Option (List ℚ)} : Hist w withCost lc o log → (∀ f ∈ log, f.index ≠ index) →
      addOne o label index ex (cost.map (fun c => ⟨true, c⟩)) = (o', none) →
      Hist w withCost lc o' (log ++ [⟨index, label, if withCost then cost.or lc else none⟩])

/-- Proof invariant. -/
structure Knows (w : Nat) (withCost : Bool) (lc : Option (List ℚ)) (o : MLOracle χ β) (log : List (Fact β)) : Prop where
  width : o.width = w
  rows : ∀ f ∈ log, f.row.length = w
  costs : withCost = true → ∃ t, o.table = .cost t ∧ o.labelCost = lc.map (fun c => ⟨true, c⟩) ∧
    (∀ f ∈ log, ∃ c, f.cost = some c ∧ c.length = w) ∧
    ∀ k, dictGet k t = (lastBy (fun f => decide (f.index = k)) log).map (fun f => (f.row, ⟨true, f.cost.getD []⟩))
  plain : withCost = false → ∃ t, o.table = .plain t ∧
    ∀ k, dictGet k t = (lastBy (fun f => decide (f.index = k)) log).map (fun f => f.row)

theorem knows_iff {w : Nat} {withCost : Bool} {lc : Option (List ℚ)} {o : MLOracle χ β} {log : List (Fact β)}
    (h : Knows w withCost lc o log) (i : Int) : o.knows i = true ↔ ∃ f ∈ log, f.index = i := by
  have key : (lastBy (fun f => decide (Fact.index f = i)) log).isSome = true ↔ ∃ f ∈ log, f.index = i := by
    rw [← not_iff_not, Bool.not_eq_true, Option.isSome_eq_false_iff, Option.isNone_iff_eq_none, lastBy_none]
    simp
  cases withCost with
  | true =>
    obtain ⟨t, t1, -, -, t2⟩ := h.costs rfl
    simp only [MLOracle.knows, t1, t2, Option.isSome_map]
    exact key
  | false =>
    obtain ⟨t, t1, t2⟩ := h.plain rfl
    simp only [MLOracle.knows, t1, t2, Option.isSome_map]
    exact key

theorem new_width {labels : List (List β)} {examples : Option (List χ)} {indexes : Option (List Int)} {cost : Option CostArg}
    {o : MLOracle χ β} {w : Nat} (h : MLOracle.new labels examples indexes cost = .ok o) (hw : ∀ r ∈ labels, r.length = w) :
    o.width = w := by
  unfold MLOracle.new at h
  split at h
  · cases h
  · rename_i row rest
    have := hw row (by simp)
    simp only at h
    split at h
    · cases h
    · split at h
      · cases h
      · split at h
        · cases h; exact this
        · split at h
          · cases h
          · cases h; exact this
        · split at h
          · cases h
          · cases h; exact this

theorem Hist.knows {w : Nat} {withCost : Bool} {lc : Option (List ℚ)} {o : MLOracle χ β} {log : List (Fact β)}
    (h : Hist w withCost lc o log) : Knows w withCost lc o log := by
  induction h with
  | @plain labels examples indexes o log h1 h2 h3 h4 h5 =>
    refine ⟨new_width h1 h2, fun f hf => h2 _ (h3 ▸ List.mem_map.2 ⟨f, hf, rfl⟩), by simp, fun _ => ?_⟩
    unfold MLOracle.new at h1
    split at h1
    · cases h1
    · simp only at h1
      split at h1
      · cases h1
      · split at h1
        · cases h1
        · cases h1
          refine ⟨_, rfl, fun k => ?_⟩
          rw [← h3, List.length_map] at h4
          rw [← h3]
          simp only [defaultIndexes, List.length_map, ← h4]
          rw [List.zip_map', dictGet_dictOfList]
  | @perLabel labels examples indexes cs o log h1 h2 h3 h4 h5 =>
    refine ⟨new_width h1 h2, fun f hf => h2 _ (h3 ▸ List.mem_map.2 ⟨f, hf, rfl⟩), fun _ => ?_, by simp⟩
    unfold MLOracle.new at h1
    split at h1
    · cases h1
    · rename_i row rest
      have hw := h2 row (by simp)
      simp only at h1
      split at h1
      · cases h1
      · split at h1
        · cases h1
        · split at h1
          · cases h1
          · rename_i hlen
            cases h1
            refine ⟨_, rfl, rfl, fun f hf => ⟨cs, h5 f hf, by simpa [hw] using hlen⟩, fun k => ?_⟩
            rw [← h3, List.length_map] at h4
            rw [← h3]
            simp only [defaultIndexes, List.length_map, ← h4]
            have hr : List.replicate log.length (⟨true, cs⟩ : CostRow) = log.map (fun f => ⟨true, f.cost.getD []⟩) := by
              symm
              rw [List.eq_replicate_iff]
              refine ⟨by simp, ?_⟩
              intro b hb
              obtain ⟨f, hf, rfl⟩ := List.mem_map.1 hb
              simp [h5 f hf]
            rw [hr, List.zip_map', List.zip_map', dictGet_dictOfList]
  | @matrix labels examples indexes rows o log h1 h2 h2' h3 h4 h5 =>
    have hmem : ∀ f ∈ log, ∃ c, f.cost = some c ∧ c.length = w := by
      intro f hf
      have : f.cost ∈ rows.map some := h5 ▸ List.mem_map.2 ⟨f, hf, rfl⟩
      obtain ⟨c, hc, e⟩ := List.mem_map.1 this
      exact ⟨c, e.symm, h2' c hc⟩
    refine ⟨new_width h1 h2, fun f hf => h2 _ (h3 ▸ List.mem_map.2 ⟨f, hf, rfl⟩), fun _ => ?_, by simp⟩
    unfold MLOracle.new at h1
    split at h1
    · cases h1
    · simp only at h1
      split at h1
      · cases h1
      · split at h1
        · cases h1
        · split at h1
          · cases h1
          · cases h1
            refine ⟨_, rfl, rfl, hmem, fun k => ?_⟩
            rw [← h3, List.length_map] at h4
            rw [← h3]
            simp only [defaultIndexes, List.length_map, ← h4]
            have hr : rows = log.map (fun f => f.cost.getD []) := by
              have := congrArg (List.map (fun c : Option (List ℚ) => c.getD [])) h5
              simpa [List.map_map, Function.comp_def] using this.symm
            rw [hr, List.map_map, List.zip_map', List.zip_map', dictGet_dictOfList]
            rfl
  | @fail withCost lc o o' log label index ex cost err _ h2 ih =>
    have : o'.width = o.width ∧ o'.table = o.table ∧ o'.labelCost = o.labelCost := by
      unfold addOne at h2
      split at h2
      · cases h2
      · split at h2
        · cases h2; simp
        · split at h2
          · cases h2; simp
          · simp only at h2
            split at h2
            · cases h2
            · split at h2
              · cases h2; simp
              · split at h2
                · cases h2; simp
                · cases h2
    obtain ⟨e1, e2, e3⟩ := this
    exact ⟨e1.trans ih.width, ih.rows, by rw [e2, e3]; exact ih.costs, by rw [e2]; exact ih.plain⟩
  | @skip withCost lc o o' log label index ex cost _ h1 h2 ih =>
    have hk := (knows_iff ih index).2 h1
    simp only [addOne, hk, if_true] at h2
    cases h2
    exact ih
  | @add withCost lc o o' log label index ex cost _ h1 h2 ih =>
    have hk : o.knows index = false := by
      rw [← Bool.not_eq_true, knows_iff ih index]
      rintro ⟨f, hf, e⟩
      exact h1 f hf e
    unfold addOne at h2
    rw [hk] at h2
    simp only [Bool.false_eq_true, if_false] at h2
    split at h2
    · cases h2
    · rename_i hlen
      have hlen' : label.length = w := by rw [← ih.width]; simpa using hlen
      split at h2
      · cases h2
      · have hrows : ∀ (c : Option (List ℚ)), ∀ f ∈ log ++ [(⟨index, label, c⟩ : Fact β)], f.row.length = w := by
          intro c f hf
          rcases List.mem_append.1 hf with hf | hf
          · exact ih.rows f hf
          · rw [List.mem_singleton] at hf; subst hf; exact hlen'
        cases withCost with
        | true =>
          obtain ⟨t, t1, t2, t3, t4⟩ := ih.costs rfl
          rw [t1] at h2
          simp only [t2] at h2
          split at h2
          · cases h2
          · rename_i c hc
            split at h2
            · cases h2
            · rename_i hcl
              cases h2
              obtain ⟨c', hc1, hc2⟩ : ∃ c', c = ⟨true, c'⟩ ∧ cost.or lc = some c' := by
                cases cost with
                | some c0 => simp only [Option.map_some, Option.some_or, Option.some.injEq] at hc; exact ⟨c0, hc.symm, rfl⟩
                | none =>
                  cases lc with
                  | some c0 => simp only [Option.map_none, Option.none_or, Option.map_some, Option.some.injEq] at hc; exact ⟨c0, hc.symm, rfl⟩
                  | none => simp at hc
              subst hc1
              have hcl' : c'.length = w := by rw [← ih.width]; simpa using hcl
              simp only [if_true]
              rw [hc2]
              refine ⟨ih.width, hrows _, fun _ => ⟨_, rfl, rfl, ?_, fun k => ?_⟩, by simp⟩
              · intro f hf
                rcases List.mem_append.1 hf with hf | hf
                · exact t3 f hf
                · rw [List.mem_singleton] at hf; subst hf; exact ⟨c', rfl, hcl'⟩
              · rw [dictGet_dictSet, t4, lastBy_snoc]
                by_cases hk : k = index
                · simp [hk]
                · have : ¬ index = k := fun e => hk e.symm
                  simp [hk, this]
        | false =>
          obtain ⟨t, t1, t4⟩ := ih.plain rfl
          rw [t1] at h2
          cases h2
          refine ⟨ih.width, hrows _, by simp, fun _ => ⟨_, rfl, fun k => ?_⟩⟩
          rw [dictGet_dictSet, t4, lastBy_snoc]
          by_cases hk : k = index
          · simp [hk]
          · have : ¬ index = k := fun e => hk e.symm
            simp [hk, this]

theorem fancy_ok {α : Type} (l : List α) (is : List Nat) (h : ∀ i ∈ is, i < l.length) :
    ∃ xs, fancy l is = .ok xs ∧ List.Forall₂ (fun i x => l[i]? = some x) is xs := by
  induction is with
  | nil => exact ⟨[], rfl, .nil⟩
  | cons i r ih =>
    obtain ⟨xs, h1, h2⟩ := ih (fun j hj => h j (by simp [hj]))
    have hi := h i (by simp)
    refine ⟨l[i] :: xs, ?_, .cons (List.getElem?_eq_getElem hi) h2⟩
    simp [fancy, List.getElem?_eq_getElem hi, h1]

theorem labelInd_legal {w : Nat} {ix : Ix} (h : Legal w ix) : labelInd w ix = .ok (positions w ix) ∧
    ∀ i ∈ positions w ix, i < w := by
  cases ix with
  | nil => exact absurd h (by simp [Legal])
  | longer e s => exact absurd h (by simp [Legal])
  | all e => exact ⟨rfl, by simp [positions]⟩
  | pair e s =>
    cases s with
    | scal l =>
      simp only [Legal] at h
      refine ⟨by simp [labelInd, h, positions], ?_⟩
      intro i hi
      simp only [positions, List.mem_singleton] at hi
      omega
    | iter b ls =>
      simp only [Legal] at h
      refine ⟨?_, ?_⟩
      · simp only [labelInd, positions]
        congr 2
        rw [List.filter_eq_self]
        simpa using h
      · intro i hi
        simp only [positions, List.mem_map] at hi
        obtain ⟨l, hl, rfl⟩ := hi
        have := h l hl
        omega

/-- What the answer to one index has to be: the labels the instance has, at the requested positions in the requested order, and
their costs (1 each if the oracle has no costs). -/
def Answers (w : Nat) (withCost : Bool) (log : List (Fact β)) (ix : Ix) (a : List β × List ℚ) : Prop :=
  ∃ f, MostRecent log Fact.index f.index f ∧ inst ix = some f.index ∧
    List.Forall₂ (fun i x => f.row[i]? = some x) (positions w ix) a.1 ∧
    if withCost then ∃ cs, f.cost = some cs ∧ List.Forall₂ (fun i c => cs[i]? = some c) (positions w ix) a.2
    else a.2 = (positions w ix).map (fun _ => 1)

theorem allTuples_map (ixs : List Ix) : allTuples (ixs.map Item.tup) = some ixs := by
  induction ixs with
  | nil => rfl
  | cons a r ih => simp [allTuples, ih]

theorem ixKey_inst (ix : Ix) : ixKey ix = inst ix := by cases ix <;> rfl

theorem fetch_ok {w : Nat} {withCost : Bool} {lc : Option (List ℚ)} {o : MLOracle χ β} {log : List (Fact β)}
    (h : Hist w withCost lc o log) {ix : Ix} (hl : Legal w ix) (hi : ∃ f ∈ log, inst ix = some f.index) :
    ∃ a, o.fetch (ixKey ix) (positions w ix) = .ok a ∧ Answers w withCost log ix a := by
  have hk := h.knows
  obtain ⟨f0, hf0, e0⟩ := hi
  cases hlast : lastBy (fun f => decide (Fact.index f = f0.index)) log with
  | none => have := lastBy_none.1 hlast f0 hf0; simp at this
  | some f =>
    have hm : MostRecent log Fact.index f0.index f := (mostRecent_iff _ _ _ _).2 hlast
    obtain ⟨hmem, hidx⟩ := mostRecent_mem hm
    have hpos := (labelInd_legal hl).2
    obtain ⟨xs, g1, g2⟩ := fancy_ok f.row (positions w ix) (by rw [hk.rows f hmem]; exact hpos)
    rw [ixKey_inst, e0]
    cases withCost with
    | true =>
      obtain ⟨t, t1, -, t3, t4⟩ := hk.costs rfl
      obtain ⟨cs, c1, c2⟩ := t3 f hmem
      obtain ⟨ys, k1, k2⟩ := fancy_ok cs (positions w ix) (by rw [c2]; exact hpos)
      refine ⟨(xs, ys), ?_, f, hidx ▸ hm, by rw [e0, hidx], g2, cs, c1, k2⟩
      have := t4 f0.index
      rw [hlast] at this
      simp [fetch, t1, this, g1, c1, CostRow.fancy, k1]
    | false =>
      obtain ⟨t, t1, t4⟩ := hk.plain rfl
      refine ⟨(xs, List.replicate (positions w ix).length 1), ?_, f, hidx ▸ hm, by rw [e0, hidx], g2, by simp⟩
      have := t4 f0.index
      rw [hlast] at this
      simp [fetch, t1, this, g1]

/-- C27: every non-empty list of legal indexes of known instances is answered, index by index in order, as `Answers` says.
Missing: costs given as Python lists (`C27_list_costs_violation`) and queries by example (`C27_query_by_example_violation`). -/
theorem C27_query_by_index_partial {w : Nat} {withCost : Bool} {lc : Option (List ℚ)} {o : MLOracle χ β} {log : List (Fact β)}
    (h : Hist w withCost lc o log) (ixs : List Ix) (hne : ixs ≠ []) (hlegal : ∀ ix ∈ ixs, Legal w ix)
    (hknown : ∀ ix ∈ ixs, ∃ f ∈ log, inst ix = some f.index) :
    ∃ ans : List (List β × List ℚ), queryByIndex o (ixs.map .tup) = .ok (ans.map Prod.fst, ans.map Prod.snd) ∧
      List.Forall₂ (Answers w withCost log) ixs ans := by
  have hq : ∃ ans : List (List β × List ℚ), queryLoop o ixs = .ok (ans.map Prod.fst, ans.map Prod.snd) ∧
      List.Forall₂ (Answers w withCost log) ixs ans := by
    clear hne
    induction ixs with
    | nil => exact ⟨[], rfl, .nil⟩
    | cons ix r ih =>
      obtain ⟨ans, h1, h2⟩ := ih (fun x hx => hlegal x (by simp [hx])) (fun x hx => hknown x (by simp [hx]))
      obtain ⟨a, g1, g2⟩ := fetch_ok h (hlegal ix (by simp)) (hknown ix (by simp))
      refine ⟨a :: ans, ?_, .cons g2 h2⟩
      simp [queryLoop, h.knows.width, (labelInd_legal (hlegal ix (by simp))).1, g1, h1]
  obtain ⟨ans, h1, h2⟩ := hq
  refine ⟨ans, ?_, h2⟩
  have : checkIndexMultilabel (ixs.map .tup) = .ok ixs := by
    cases ixs with
    | nil => exact absurd rfl hne
    | cons a r =>
      have := allTuples_map (a :: r)
      simp only [List.map_cons] at this
      simp [checkIndexMultilabel, this]
  simp [queryByIndex, this, h1]

/-- Positions of a list that lie outside of the label set are dropped without notice, a single one is refused. -/
theorem C27_out_of_range_labels (w : Nat) (o : MLOracle χ β) (ho : o.width = w) (e l : Int) (b : Bool) (ls : List Int) :
    queryByIndex o [.tup (.pair e (.iter b ls))] =
      queryByIndex o [.tup (.pair e (.iter b (ls.filter (fun l => decide (0 ≤ l ∧ l < (w : Int))))))] ∧
    (¬ (0 ≤ l ∧ l < (w : Int)) → queryByIndex o [.tup (.pair e (.scal l))] = .error .assertionError) := by
  constructor
  · simp [queryByIndex, checkIndexMultilabel, allTuples, queryLoop, labelInd, ho, ixKey]
  · intro hl
    simp [queryByIndex, checkIndexMultilabel, allTuples, queryLoop, labelInd, ho, hl]

/-- An unknown instance is refused wherever it occurs (with TypeError instead of KeyError, see C26). -/
theorem C27_unknown_instance {w : Nat} {withCost : Bool} {lc : Option (List ℚ)} {o : MLOracle χ β} {log : List (Fact β)}
    (h : Hist w withCost lc o log) (ixs : List Ix) (hlegal : ∀ ix ∈ ixs, Legal w ix)
    (hun : ∃ ix ∈ ixs, ∀ f ∈ log, inst ix ≠ some f.index) :
    queryByIndex o (ixs.map .tup) = .error .typeError := by
  have hq : queryLoop o ixs = .error .typeError := by
    induction ixs with
    | nil => obtain ⟨x, hx, -⟩ := hun; simp at hx
    | cons ix r ih =>
      simp only [queryLoop, h.knows.width, (labelInd_legal (hlegal ix (by simp))).1]
      by_cases hi : ∃ f ∈ log, inst ix = some f.index
      · obtain ⟨a, g1, -⟩ := fetch_ok h (hlegal ix (by simp)) hi
        rw [g1]
        have hun' : ∃ ix ∈ r, ∀ f ∈ log, inst ix ≠ some f.index := by
          obtain ⟨x, hx, hn⟩ := hun
          rcases List.mem_cons.1 hx with rfl | hx
          · obtain ⟨f, hf, e⟩ := hi; exact absurd e (hn f hf)
          · exact ⟨x, hx, hn⟩
        rw [ih (fun x hx => hlegal x (by simp [hx])) hun']
      · have hn : ∀ i, inst ix = some i → lastBy (fun f => decide (Fact.index f = i)) log = none := by
          intro i e
          rw [lastBy_none]
          intro f hf
          simp only [decide_eq_false_iff_not]
          intro e'
          exact hi ⟨f, hf, by rw [e, e']⟩
        have hf : o.fetch (ixKey ix) (positions w ix) = .error .typeError := by
          rw [ixKey_inst]
          cases hix : inst ix with
          | none => cases htab : o.table <;> simp [fetch, htab]
          | some i =>
            cases withCost with
            | true =>
              obtain ⟨t, t1, -, -, t4⟩ := h.knows.costs rfl
              have := t4 i
              rw [hn i hix] at this
              simp [fetch, t1, this]
            | false =>
              obtain ⟨t, t1, t4⟩ := h.knows.plain rfl
              have := t4 i
              rw [hn i hix] at this
              simp [fetch, t1, this]
        rw [hf]
  have hne : ixs ≠ [] := by rintro rfl; obtain ⟨x, hx, -⟩ := hun; simp at hx
  have : checkIndexMultilabel (ixs.map .tup) = .ok ixs := by
    cases ixs with
    | nil => exact absurd rfl hne
    | cons a r =>
      have := allTuples_map (a :: r)
      simp only [List.map_cons] at this
      simp [checkIndexMultilabel, this]
  simp [queryByIndex, this, hq]

/-- C27, violation: an instance whose costs were stored as a Python list (a nested list given to the constructor, or a list given
to `add_knowledge`) cannot be queried at all: every legal query for it raises TypeError. -/
theorem C27_list_costs_violation (o : MLOracle χ β) (t : List (Int × (List β × CostRow))) (row : List β) (c : CostRow) (ix : Ix)
    (e : Int) (ht : o.table = .cost t) (hi : inst ix = some e) (hg : dictGet e t = some (row, c)) (hnp : c.np = false)
    (hl : Legal o.width ix) (hw : row.length = o.width) : queryByIndex o [.tup ix] = .error .typeError := by
  obtain ⟨h1, h2⟩ := labelInd_legal hl
  obtain ⟨xs, g1, -⟩ := fancy_ok row (positions o.width ix) (by rw [hw]; exact h2)
  have : o.fetch (ixKey ix) (positions o.width ix) = .error .typeError := by
    rw [ixKey_inst, hi]
    simp [fetch, ht, hg, g1, CostRow.fancy, hnp]
  simp [queryByIndex, checkIndexMultilabel, allTuples, queryLoop, h1, this]

/-- A nested Python list of costs, as the documentation allows, gives such an oracle. -/
example : ∃ o : MLOracle Nat Int, MLOracle.new [[1, 0], [0, 1]] none none (some (.matrix [⟨false, [1, 2]⟩, ⟨false, [3, 4]⟩])) = .ok o ∧
    queryByIndex o [.tup (.pair 1 (.scal 0))] = .error .typeError := ⟨_, rfl, rfl⟩

/-- C27, violation: `query_by_example` never answers: even for known examples and legal label positions it raises TypeError,
because the features are passed on in the place of the index. -/
theorem C27_query_by_example_violation (o : MLOracle χ β) (d : List (χ × Int)) (hd : o.exa2ind = some d)
    (qs : List (χ × Option Second)) (hk : ∀ q ∈ qs, ∃ i, dictGet q.1 d = some i)
    (hl : ∀ q ∈ qs, Legal o.width (exIx q.2)) :
    queryByExample o qs = .error .typeError := by
  have h1 : qs.any (fun q => (dictGet q.1 d).isNone) = false := by
    rw [List.any_eq_false]
    intro q hq
    obtain ⟨i, hi⟩ := hk q hq
    simp [hi]
  cases qs with
  | nil => simp [queryByExample, hd]
  | cons q r =>
    have := (labelInd_legal (hl q (by simp))).1
    have hf : ∀ is, o.fetch none is = .error .typeError := by
      intro is
      cases htab : o.table <;> simp [fetch, htab]
    simp only [queryByExample, hd, h1]
    simp [queryLoopEx, hf, this]

def demo : MLOracle Nat Int :=
  ⟨some [(10, 0), (11, 1)], 3, some ⟨true, [1, 2, 3]⟩,
   .cost [(0, ([1, 0, 1], ⟨true, [1, 2, 3]⟩)), (1, ([0, 1, 1], ⟨true, [1, 2, 3]⟩)), (5, ([1, 1, 0], ⟨true, [7, 8, 9]⟩))]⟩

def demoLog : List (Fact Int) :=
  [⟨0, [1, 0, 1], some [1, 2, 3]⟩, ⟨1, [0, 1, 1], some [1, 2, 3]⟩] ++ [⟨5, [1, 1, 0], some [7, 8, 9]⟩]

theorem demo_hist : Hist 3 true (some [1, 2, 3]) { demo with exa2ind := some [(10, 0), (11, 1), (12, 5)] } demoLog := by
  refine Hist.add (withCost := true) (lc := some [1, 2, 3]) (cost := some [7, 8, 9]) (label := [1, 1, 0]) (index := 5) (ex := some 12)
    (o := ⟨some [(10, 0), (11, 1)], 3, some ⟨true, [1, 2, 3]⟩,
      .cost [(0, ([1, 0, 1], ⟨true, [1, 2, 3]⟩)), (1, ([0, 1, 1], ⟨true, [1, 2, 3]⟩))]⟩) ?_ (by decide) rfl
  exact Hist.perLabel (labels := [[1, 0, 1], [0, 1, 1]]) (examples := some [10, 11]) (indexes := none) rfl (by decide) rfl rfl
    (by decide)

example : (∀ ix ∈ ([.all 1, .pair 5 (.iter true [2, 0])] : List Ix), Legal 3 ix ∧ ∃ f ∈ demoLog, inst ix = some f.index) ∧
    queryByIndex demo ([.all 1, .pair 5 (.iter true [2, 0])].map .tup) = .ok ([[0, 1, 1], [0, 1]], [[1, 2, 3], [9, 7]]) := by
  refine ⟨?_, rfl⟩
  intro ix hix
  simp only [List.mem_cons, List.not_mem_nil, or_false] at hix
  rcases hix with rfl | rfl
  · exact ⟨trivial, ⟨1, [0, 1, 1], some [1, 2, 3]⟩, by decide, rfl⟩
  · exact ⟨by simp [Legal], ⟨5, [1, 1, 0], some [7, 8, 9]⟩, by decide, rfl⟩

end MLOracle
end Alipy
