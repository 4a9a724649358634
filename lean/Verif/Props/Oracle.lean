import Verif.Proof.Oracle
import Mathlib.Tactic.Ring
import Mathlib.Algebra.BigOperators.Group.List.Basic
import Mathlib.Algebra.Order.Ring.Rat

/-! # C25, C26: single-label oracles -/
namespace Alipy
open Spec
namespace Oracle
variable {χ β : Type} [DecidableEq χ]

/-- `o` is an oracle created and then extended by any number of `add_knowledge` calls, successful or not; `log` is what it was
told, in order. An `add_knowledge` call stores its entries up to the first one whose label has another class than the initial
labels or which lacks an example needed by the oracle. Costs are given in every call if they were given initially (the call
without them is treated in `C25_failed_call_violation`). -/
inductive Hist (ty : β → Nat) (withEx withCost : Bool) : Oracle χ β → List (Entry χ β) → Prop
  | new {labels : List β} {examples : Option (List χ)} {indexes : Option (List Key)} {cost : Option (List ℚ)} {o : Oracle χ β}
      {log : List (Entry χ β)} : examples.isSome = withEx → cost.isSome = withCost →
      Oracle.new ty labels examples indexes cost = .ok o →
      Reads log labels (indexes.getD ((List.range labels.length).map (fun i : Nat => .num i))) examples cost →
      Hist ty withEx withCost o log
  | add {o o' : Oracle χ β} {log more : List (Entry χ β)} {labels : List β} {indexes : List Key} {examples : Option (List χ)}
      {cost : Option (List ℚ)} {err : Option PyErr} : Hist ty withEx withCost o log →
      Reads more labels indexes examples cost → (withCost = true → cost.isSome = true) →
      addKnowledge ty o labels indexes examples cost = (o', err) →
      Hist ty withEx withCost o'
        (log ++ more.takeWhile (fun e => decide (ty e.label = o.labelTy) && (!withEx || e.ex.isSome)))

theorem Hist.knows {ty : β → Nat} {withEx withCost : Bool} {o : Oracle χ β} {log : List (Entry χ β)}
    (h : Hist ty withEx withCost o log) : Knows withEx withCost o log := by
  induction h with
  | new h1 h2 h3 h4 =>
    rw [← h1, ← h2]
    exact Knows.new h4 h3
  | @add o o' log more labels indexes examples cost err _ h2 h3 h4 ih =>
    obtain ⟨l1, l2, l3⟩ := reads_lengths h2
    have hcost : ∀ e ∈ more, withCost = true → e.cost.isSome = true := by
      intro e he hw
      obtain ⟨cs, hcs⟩ := Option.isSome_iff_exists.1 (h3 hw)
      obtain ⟨-, -, -, h⟩ := h2
      rw [hcs] at h
      have : e.cost ∈ cs.map some := h ▸ List.mem_map.2 ⟨e, he, rfl⟩
      obtain ⟨c, -, hc⟩ := List.mem_map.1 this
      rw [← hc]; rfl
    obtain ⟨o2, err2, k1, k2, -⟩ := ih.addAll (ty := ty) more hcost
    have : addKnowledge ty o labels indexes examples cost = (o2, err2) := by
      simp only [addKnowledge, l1, l2, l3, entries_reads h2]
      simpa using k1
    rw [this] at h4
    cases h4
    have hacc : acceptable ty o = fun e => decide (ty e.label = o.labelTy) && (!withEx || e.ex.isSome) := by
      funext e
      cases withEx with
      | true => obtain ⟨d, d1, -⟩ := ih.exs rfl; simp [acceptable, d1]
      | false => simp [acceptable, ih.noex rfl]
    rwa [hacc] at k2

/-- The cost an entry charges: its cost if the oracle has costs, otherwise 1. -/
def Charges (withCost : Bool) (e : Entry χ β) (c : ℚ) : Prop :=
  if withCost then e.cost = some c else c = 1

theorem ask_known {ty : β → Nat} {withEx withCost : Bool} {o : Oracle χ β} {log : List (Entry χ β)}
    (h : Hist ty withEx withCost o log) {k : Key} {e : Entry χ β} (hm : MostRecent log Entry.index k e) :
    ∃ c, o.ask k = .ok (e.label, c) ∧ Charges withCost e c := by
  have hk := h.knows
  have hl := (mostRecent_iff _ _ _ _).1 hm
  cases withCost with
  | true =>
    obtain ⟨t, t1, t2, t3⟩ := hk.costs rfl
    have hsome := t2 e (mostRecent_mem hm).1
    obtain ⟨c, hc⟩ := Option.isSome_iff_exists.1 hsome
    refine ⟨c, ?_, by simpa [Charges] using hc⟩
    have := t3 k
    rw [hl] at this
    simp [ask, t1, this, hc]
  | false =>
    obtain ⟨t, t1, t3⟩ := hk.plain rfl
    refine ⟨1, ?_, by simp [Charges]⟩
    have := t3 k
    rw [hl] at this
    simp [ask, t1, this]

theorem ask_unknown {ty : β → Nat} {withEx withCost : Bool} {o : Oracle χ β} {log : List (Entry χ β)}
    (h : Hist ty withEx withCost o log) {k : Key} (hm : ∀ e ∈ log, e.index ≠ k) : o.ask k = .error .typeError := by
  have hk := h.knows
  have hl : lastBy (fun e => decide (Entry.index e = k)) log = none := lastBy_none.2 (by simpa using hm)
  cases withCost with
  | true =>
    obtain ⟨t, t1, t2, t3⟩ := hk.costs rfl
    have := t3 k
    rw [hl] at this
    simp [ask, t1, this]
  | false =>
    obtain ⟨t, t1, t3⟩ := hk.plain rfl
    have := t3 k
    rw [hl] at this
    simp [ask, t1, this]

theorem exists_mostRecent {log : List (Entry χ β)} {k : Key} (h : ∃ e ∈ log, e.index = k) :
    ∃ e, MostRecent log Entry.index k e := by
  cases hl : lastBy (fun e => decide (Entry.index e = k)) log with
  | none =>
    obtain ⟨e, he, rfl⟩ := h
    have := lastBy_none.1 hl e he
    simp at this
  | some e => exact ⟨e, (mostRecent_iff _ _ _ _).2 hl⟩

/-- C25 (by index): if the oracle was told about all queried indexes, the answer holds one label and one cost per index, in the
order of the query, from the most recent entry for that index. -/
theorem C25_query_by_index {ty : β → Nat} {withEx withCost : Bool} {o : Oracle χ β} {log : List (Entry χ β)}
    (h : Hist ty withEx withCost o log) (q : List Key) (hq : ∀ k ∈ q, ∃ e ∈ log, e.index = k) :
    ∃ es cs, queryByIndex o q = .ok (es.map Entry.label, cs) ∧ List.Forall₂ (MostRecent log Entry.index) q es ∧
      List.Forall₂ (Charges withCost) es cs := by
  induction q with
  | nil => exact ⟨[], [], rfl, .nil, .nil⟩
  | cons k q ih =>
    obtain ⟨es, cs, h1, h2, h3⟩ := ih (fun k hk => hq k (by simp [hk]))
    obtain ⟨e, he⟩ := exists_mostRecent (hq k (by simp))
    obtain ⟨c, g1, g2⟩ := ask_known h he
    exact ⟨e :: es, c :: cs, by simp [queryByIndex, g1, h1], .cons he h2, .cons g2 h3⟩

/-- C26, what holds (by index): a query list with an unknown index, at any position, is answered by an exception and nothing
else (no partial answer); the oracle cannot be changed by a query (`queryByIndex` does not return a new object).
Missing: the exception is not the documented KeyError, see `C26_wrong_exception_violation`. -/
theorem C26_unknown_index_partial {ty : β → Nat} {withEx withCost : Bool} {o : Oracle χ β} {log : List (Entry χ β)}
    (h : Hist ty withEx withCost o log) (q : List Key) :
    (∃ err, queryByIndex o q = .error err) ↔ ∃ k ∈ q, ∀ e ∈ log, e.index ≠ k := by
  constructor
  · rintro ⟨err, he⟩
    by_contra hc
    push Not at hc
    obtain ⟨es, cs, h1, -⟩ := C25_query_by_index h q hc
    rw [h1] at he
    cases he
  · rintro ⟨k, hk, hn⟩
    induction q with
    | nil => simp at hk
    | cons a q ih =>
      simp only [queryByIndex]
      rcases List.mem_cons.1 hk with rfl | hk
      · exact ⟨.typeError, by rw [ask_unknown h hn]⟩
      · obtain ⟨err, he⟩ := ih hk
        cases o.ask a with
        | error e => exact ⟨e, rfl⟩
        | ok v => exact ⟨err, by rw [he]⟩

/-- C26, violation: whenever a query by index fails, it is with TypeError, never with KeyError (the message is formatted with the
wrong operator precedence). -/
theorem C26_wrong_exception_violation (o : Oracle χ β) (q : List Key) (err : PyErr) (h : queryByIndex o q = .error err) :
    err = .typeError := by
  induction q generalizing err with
  | nil => simp [queryByIndex] at h
  | cons k q ih =>
    simp only [queryByIndex] at h
    cases ha : o.ask k with
    | error e =>
      rw [ha] at h
      cases h
      simp only [ask] at ha
      split at ha <;> split at ha <;> cases ha <;> rfl
    | ok v =>
      rw [ha] at h
      cases hb : queryByIndex o q with
      | error e => rw [hb] at h; cases h; exact ih _ hb
      | ok w => rw [hb] at h; cases h

/-! ## by example -/

/-- C25 (by example), partial: if the oracle has examples, each index was always told with the same example, and the queried
examples are known, then the answer is that of the most recent entry for each example. Missing: if an index is told again with
another example, the old example is answered with the new label (`C25_by_example_violation`). -/
theorem C25_query_by_example_partial {ty : β → Nat} {withCost : Bool} {o : Oracle χ β} {log : List (Entry χ β)}
    (h : Hist ty true withCost o log) (hone : ∀ e ∈ log, ∀ e' ∈ log, e.index = e'.index → e.ex = e'.ex)
    (q : List χ) (hq : ∀ x ∈ q, ∃ e ∈ log, e.ex = some x) :
    ∃ es cs, queryByExample o q = .ok (es.map Entry.label, cs) ∧
      List.Forall₂ (fun x e => MostRecent log Entry.ex (some x) e) q es ∧ List.Forall₂ (Charges withCost) es cs := by
  obtain ⟨d, d1, d2, d3⟩ := h.knows.exs rfl
  suffices hs : ∃ es cs ks, lookupExamples d q = .ok ks ∧ queryByIndex o ks = .ok (es.map Entry.label, cs) ∧
      List.Forall₂ (fun x e => MostRecent log Entry.ex (some x) e) q es ∧ List.Forall₂ (Charges withCost) es cs by
    obtain ⟨es, cs, ks, h1, h2, h3, h4⟩ := hs
    exact ⟨es, cs, by simp [queryByExample, d1, h1, h2], h3, h4⟩
  induction q with
  | nil => exact ⟨[], [], [], rfl, rfl, .nil, .nil⟩
  | cons x q ih =>
    obtain ⟨es, cs, ks, h1, h2, h3, h4⟩ := ih (fun x hx => hq x (by simp [hx]))
    obtain ⟨e0, he0, hx0⟩ := hq x (by simp)
    have hd := d3 x
    cases hl : lastBy (fun e => decide (Entry.ex e = some x)) log with
    | none =>
      have := lastBy_none.1 hl e0 he0
      simp [hx0] at this
    | some e =>
      rw [hl] at hd
      have hm : MostRecent log Entry.ex (some x) e := (mostRecent_iff _ _ _ _).2 hl
      obtain ⟨hmem, hex⟩ := mostRecent_mem hm
      have hl' : lastBy (fun a => decide (Entry.index a = e.index)) log = some e := by
        refine lastBy_imp hl (by simp) fun b hb hbe => ?_
        simp only [decide_eq_true_eq] at hbe ⊢
        rw [hone b hb e hmem hbe, hex]
      obtain ⟨c, g1, g2⟩ := ask_known h ((mostRecent_iff _ _ _ _).2 hl')
      refine ⟨e :: es, c :: cs, e.index :: ks, ?_, by simp [queryByIndex, g1, h2], .cons hm h3, .cons g2 h4⟩
      simp only [Option.map_some] at hd
      simp [lookupExamples, hd, h1]

/-- C25, violation: let `x` be known under the index `i`, and let the oracle be told a new label for `i` together with another
example `y`. Then the old example `x` is answered with the label of `y`. -/
theorem C25_by_example_violation (ty : β → Nat) (o o' : Oracle χ β) (d : List (χ × Key)) (x y : χ) (i : Key) (l : β) (c : ℚ)
    (hd : o.exa2ind = some d) (hx : dictGet x d = some i) (hxy : x ≠ y)
    (hadd : addKnowledge ty o [l] [i] (some [y]) (some [c]) = (o', none)) :
    ∃ c', queryByExample o' [x] = .ok ([l], [c']) := by
  by_cases ht : ty l = o.labelTy
  · cases htab : o.table with
    | cost t =>
      simp [addKnowledge, sameLength, entries, addAll, addOne, ht, hd, htab] at hadd
      subst hadd
      refine ⟨c, ?_⟩
      simp [queryByExample, lookupExamples, dictGet_dictSet, hxy, hx, queryByIndex, ask]
    | plain t =>
      simp [addKnowledge, sameLength, entries, addAll, addOne, ht, hd, htab] at hadd
      subst hadd
      refine ⟨1, ?_⟩
      simp [queryByExample, lookupExamples, dictGet_dictSet, hxy, hx, queryByIndex, ask]
  · simp [addKnowledge, sameLength, entries, addAll, addOne, ht] at hadd

/-- C25, violation: an `add_knowledge` call that is refused because the cost is missing has already redirected the example: if the
new index is unknown, the example `x`, which could be queried before, cannot be queried any more. -/
theorem C25_failed_call_violation (ty : β → Nat) (o : Oracle χ β) (d : List (χ × Key)) (t : List (Key × (β × ℚ))) (x : χ)
    (i : Key) (l : β) (hd : o.exa2ind = some d) (ht : o.table = .cost t) (hi : dictGet i t = none) (hl : ty l = o.labelTy) :
    ∃ o', addKnowledge ty o [l] [i] (some [x]) none = (o', some .genericException) ∧
      queryByExample o' [x] = .error .typeError := by
  refine ⟨{ o with exa2ind := some (dictSet x i d) }, ?_, ?_⟩
  · simp [addKnowledge, sameLength, entries, addAll, addOne, hl, hd, ht]
  · simp [queryByExample, lookupExamples, dictGet_dictSet, queryByIndex, ask, ht, hi]

/-- C26 for examples: an example the oracle has never been told leads to an exception whatever its position (again TypeError). -/
theorem C26_unknown_example_partial {ty : β → Nat} {withCost : Bool} {o : Oracle χ β} {log : List (Entry χ β)}
    (h : Hist ty true withCost o log) (q : List χ) (hq : ∃ x ∈ q, ∀ e ∈ log, e.ex ≠ some x) :
    queryByExample o q = .error .typeError := by
  obtain ⟨d, d1, d2, d3⟩ := h.knows.exs rfl
  have : lookupExamples d q = .error .typeError := by
    obtain ⟨x, hx, hn⟩ := hq
    induction q with
    | nil => simp at hx
    | cons a q ih =>
      simp only [lookupExamples]
      cases ha : dictGet a d with
      | none => rfl
      | some k =>
        rcases List.mem_cons.1 hx with rfl | hx
        · have := d3 x
          rw [lastBy_none.2 (by simpa using hn), ha] at this
          simp at this
        · rw [ih hx]
  simp [queryByExample, d1, this]

/-- Lists of different lengths are refused and nothing is stored. -/
theorem C25_refused_call_changes_nothing (ty : β → Nat) (o : Oracle χ β) (labels : List β) (indexes : List Key)
    (examples : Option (List χ)) (cost : Option (List ℚ)) (h : labels.length ≠ indexes.length) :
    addKnowledge ty o labels indexes examples cost = (o, some .valueError) := by
  have : ¬ indexes.length = labels.length := fun e => h e.symm
  simp [addKnowledge, sameLength, this]

/-- A concrete history: three labels with examples and costs, then index 1 is told again (with the same example) and a new index
is added. -/
def demo : Oracle Nat String :=
  ⟨some [(10, .num 0), (11, .num 1), (12, .num 2), (13, .num 7)],
   .cost [(.num 0, ("a", 1)), (.num 1, ("z", 5)), (.num 2, ("c", 3)), (.num 7, ("d", 4))], 0⟩

def demoLog : List (Entry Nat String) :=
  [⟨.num 0, "a", some 10, some 1⟩, ⟨.num 1, "b", some 11, some 2⟩, ⟨.num 2, "c", some 12, some 3⟩] ++
  [⟨.num 1, "z", some 11, some 5⟩, ⟨.num 7, "d", some 13, some 4⟩]

theorem demo_hist : Hist (fun _ => 0) true true demo demoLog := by
  refine Hist.add (o := ⟨some [(10, .num 0), (11, .num 1), (12, .num 2)],
    .cost [(.num 0, ("a", 1)), (.num 1, ("b", 2)), (.num 2, ("c", 3))], 0⟩)
    (more := [⟨.num 1, "z", some 11, some 5⟩, ⟨.num 7, "d", some 13, some 4⟩])
    (labels := ["z", "d"]) (indexes := [.num 1, .num 7]) (examples := some [11, 13]) (cost := some [5, 4]) (err := none)
    ?_ ⟨rfl, rfl, rfl, rfl⟩ (fun _ => rfl) rfl
  exact Hist.new (labels := ["a", "b", "c"]) (examples := some [10, 11, 12]) (indexes := none) (cost := some [1, 2, 3])
    rfl rfl rfl ⟨rfl, rfl, rfl, rfl⟩

example : (∀ k ∈ ([.num 1, .num 7, .num 1] : List Key), ∃ e ∈ demoLog, e.index = k) ∧
    queryByIndex demo [.num 1, .num 7, .num 1] = .ok (["z", "d", "z"], [5, 4, 5]) := ⟨by decide, rfl⟩

example : (∀ e ∈ demoLog, ∀ e' ∈ demoLog, e.index = e'.index → e.ex = e'.ex) ∧
    (∀ x ∈ [13, 11], ∃ e ∈ demoLog, e.ex = some x) ∧
    queryByExample demo [13, 11] = .ok (["d", "z"], [4, 5]) := ⟨by decide, by decide, rfl⟩

example : (∃ k ∈ ([.num 1, .num 99] : List Key), ∀ e ∈ demoLog, e.index ≠ k) ∧
    queryByIndex demo [.num 1, .num 99] = .error .typeError := ⟨by decide, rfl⟩

example : ∃ c', queryByExample (addKnowledge (fun _ => 0) demo ["new"] [.num 0] (some [99]) (some [1])).1 [10] = .ok (["new"], [c']) :=
  C25_by_example_violation (fun _ => 0) demo _ _ 10 99 (.num 0) "new" 1 rfl rfl (by decide) rfl

end Oracle
end Alipy
