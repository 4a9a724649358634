import Verif.Props.MultiLabel
import Verif.Model.State
import Verif.Model.Oracle
import Verif.Props.Repository
import Verif.Model.Setup
import Verif.Model.AnalyserForms
import Verif.Model.Files
/-!
# What a call that raises leaves behind

C156. A call that concerns one thing and raises leaves the object as it was; a call that concerns several stops at the one that is refused, with what came before
it done. (For `IndexCollection` see C04.) The exceptions to this are the theorems whose names end in `_violation`.
-/
namespace Alipy

/-! ## Multi-label collections -/

namespace MLIC

private theorem addPair_list {c : MLIC} (hl : c.isList = true) (e : Int) (s : Second) : (c.addPair e s).1 = c := by
  unfold addPair insert
  cases checkBound c.lsz s with
  | some _ => rfl
  | none =>
    simp only [hl]
    split_ifs <;> rfl

private theorem addPairs_list {c : MLIC} (hl : c.isList = true) : ∀ ps : List (Int × Int), (c.addPairs ps).1 = c
  | [] => rfl
  | p :: ps => by
    have h := addPair_list hl p.1 (.scal p.2)
    unfold addPairs
    rcases hr : c.addPair p.1 (.scal p.2) with ⟨c', _ | e⟩
    · rw [hr] at h
      simp only at h ⊢
      subst h
      exact addPairs_list hl ps
    · rw [hr] at h
      exact h

private theorem addPairs_refused (c : MLIC) (ps : List (Int × Int)) (hr : ∀ L, c.lsz = some L → ∀ p ∈ ps, p.2 < L) {e : PyErr} (h : (c.addPairs ps).2 = some e) :
    (c.addPairs ps).1 = c := by
  cases hl : c.isList with
  | true => exact addPairs_list hl ps
  | false =>
    cases hz : c.lsz with
    | none =>
      cases ps with
      | nil => simp [addPairs] at h
      | cons p ps => simp [addPairs, addPair, checkBound, hz]
    | some L =>
      exfalso
      have key : ∀ (ps : List (Int × Int)) (c : MLIC), c.isList = false → c.lsz = some L → (∀ p ∈ ps, p.2 < L) → (c.addPairs ps).2 = none := by
        intro ps
        induction ps with
        | nil => intros; rfl
        | cons p ps ih =>
          intro c hl hz hp
          have hb : checkBound c.lsz (.scal p.2) = none := by
            rw [hz]
            simp [checkBound, hp p (by simp)]
          have : ∃ c', c.addPair p.1 (.scal p.2) = (c', none) ∧ c'.isList = false ∧ c'.lsz = some L := by
            unfold addPair insert
            rw [hb]
            simp only [hl, hashable]
            by_cases hm : (p.1, Second.scal p.2) ∈ c.inner
            · exact ⟨c, by simp [hm], hl, hz⟩
            · exact ⟨{ c with inner := c.inner ++ [(p.1, .scal p.2)] }, by simp [hm, hl], hl, hz⟩
          obtain ⟨c', h1, h2, h3⟩ := this
          unfold addPairs
          rw [h1]
          exact ih c' h2 h3 (fun q hq => hp q (by simp [hq]))
      rw [key ps c hl hz (hr L hz)] at h
      cases h

private theorem erase_list {c : MLIC} (hl : c.isList = true) (p : Int × Second) : (c.erase p).1 = c := by
  unfold erase
  simp only [hl]
  split_ifs <;> rfl

private theorem erasePairs_refused (c : MLIC) (ps : List (Int × Int)) {e : PyErr} (h : (c.erasePairs ps).2 = some e) : (c.erasePairs ps).1 = c := by
  cases hl : c.isList with
  | true =>
    clear h
    induction ps with
    | nil => rfl
    | cons p ps ih =>
      have h := erase_list hl (plain p)
      unfold erasePairs
      rcases hr : c.erase (plain p) with ⟨c', _ | e⟩
      · rw [hr] at h
        simp only at h ⊢
        subst h
        exact ih
      · rw [hr] at h
        exact h
  | false =>
    exfalso
    have key : ∀ (ps : List (Int × Int)) (c : MLIC), c.isList = false → (c.erasePairs ps).2 = none := by
      intro ps
      induction ps with
      | nil => intros; rfl
      | cons p ps ih =>
        intro c hl
        have : ∃ c', c.erase (plain p) = (c', none) ∧ c'.isList = false := by
          unfold erase
          simp only [hl, plain, hashable]
          by_cases hm : (p.1, Second.scal p.2) ∈ c.inner
          · exact ⟨{ c with inner := c.inner.filter (fun q => !decide (q = (p.1, Second.scal p.2))) }, by simp only [hm, Bool.not_false, Bool.not_true, Bool.and_false, Bool.false_eq_true, if_false, if_true, hl]; congr!, hl⟩
          · exact ⟨c, by simp [hm], hl⟩
        obtain ⟨c', h1, h2⟩ := this
        unfold erasePairs
        rw [h1]
        exact ih c' h2
    rw [key ps c hl] at h
    cases h

private theorem updateMany_refused (c : MLIC) (a : Arg) {e : PyErr} (h : (c.updateMany a).2 = some e) : (c.updateMany a).1 = c := by
  unfold updateMany at h ⊢
  cases hf : c.flattenArg a with
  | error e => rfl
  | ok ps =>
    rw [hf] at h
    exact addPairs_refused c ps (fun L hL p hp => ((flattenArg_range hL hf).2 p hp).2) h

private theorem differenceMany_refused (c : MLIC) (a : Arg) {e : PyErr} (h : (c.differenceMany a).2 = some e) : (c.differenceMany a).1 = c := by
  unfold differenceMany at h ⊢
  cases hf : c.flattenArg a with
  | error e => rfl
  | ok ps =>
    rw [hf] at h
    exact erasePairs_refused c ps h

private theorem insert_refused (c : MLIC) (p : Int × Second) {e : PyErr} (h : (c.insert p).2 = some e) : (c.insert p).1 = c := by
  unfold insert at h ⊢
  split_ifs at h ⊢ <;> simp_all

private theorem add_refused (c : MLIC) (ix : Ix) {e : PyErr} (h : (c.add ix).2 = some e) : (c.add ix).1 = c := by
  cases ix with
  | nil => rfl
  | longer _ _ => rfl
  | all i =>
    unfold add at h ⊢
    cases hz : c.lsz with
    | none => rfl
    | some L =>
      rw [hz] at h
      exact updateMany_refused c _ h
  | pair i s =>
    simp only [add, addPair] at h ⊢
    cases hb : checkBound c.lsz s with
    | some _ => rfl
    | none =>
      rw [hb] at h
      exact insert_refused c _ h

private theorem discard_refused (c : MLIC) (ix : Ix) {e : PyErr} (h : (c.discard ix).2 = some e) : (c.discard ix).1 = c := by
  cases ix with
  | nil => rfl
  | longer _ s =>
    unfold discard
    simp only
    split_ifs <;> rfl
  | all i =>
    unfold discard at h ⊢
    cases hz : c.lsz with
    | none => rfl
    | some L =>
      rw [hz] at h
      exact differenceMany_refused c _ h
  | pair i s =>
    simp only [discard, erase] at h ⊢
    split_ifs at h ⊢ <;> simp_all

/-- **C156**: every call on a `MultiLabelIndexCollection` that raises leaves the collection exactly as it was, also the bulk calls: all indexes are checked before the
first one is stored. -/
theorem C156_multilabel (c : MLIC) (op : Op) {e : PyErr} (h : (c.step op).2 = some e) : (c.step op).1 = c := by
  cases op with
  | add ix => exact add_refused c ix h
  | discard ix => exact discard_refused c ix h
  | update a =>
    cases a with
    | list items => exact updateMany_refused c _ h
    | coll d => exact updateMany_refused c _ h
    | tuple ix => exact add_refused c ix h
    | other => rfl
  | differenceUpdate a =>
    cases a with
    | list items => exact differenceMany_refused c _ h
    | coll d => exact differenceMany_refused c _ h
    | tuple ix => exact discard_refused c ix h
    | other => rfl
  | pop k =>
    simp only [step, pop] at h ⊢
    cases hi : c.inner with
    | nil => rfl
    | cons _ _ =>
      rw [hi] at h
      cases h
  | clear => cases h

/-- The second of the pairs has a label that does not exist: the first one is not stored either. -/
example : (MLIC.mk [(0, .scal 1)] (some 3) false).update (.list [.tup (.pair 1 (.scal 2)), .tup (.pair 1 (.scal 5))]) = (⟨[(0, .scal 1)], some 3, false⟩, some .assertionError) := by
  decide +kernel

end MLIC

/-! ## States and savers -/

namespace StateIO
variable {κ ε σ : Type}

/-- **C156**: a call on a `State` that raises leaves it as it was. -/
theorem C156_state (s : State σ) (op : State.Op σ) {e : PyErr} (h : (s.step op).2 = some e) : (s.step op).1 = s := by
  cases op with
  | add k v => cases h
  | del k => cases h
  | set k v =>
    simp only [State.step, State.setValue] at h ⊢
    split_ifs at h ⊢
    rfl

/-- **C156**: the calls on a saver that raise leave the saver as it was: recover_workspace, refresh_info, check_batch_size, pop, and a change of a state held by it. -/
theorem C156_saver (ops : CollOps κ ε σ) (s : StateIO κ σ) {e : PyErr} :
    (∀ k, (s.recoverWorkspace ops k).2 = .error e → (s.recoverWorkspace ops k).1 = s) ∧
    ((s.refreshInfo ops).2 = some e → (s.refreshInfo ops).1 = s) ∧
    (s.checkBatchSize.2 = .error e → s.checkBatchSize.1 = s) ∧
    (∀ i, (s.pop i).2 = .error e → (s.pop i).1 = s) ∧
    (∀ i op, (s.mutate i op).2 = some e → (s.mutate i op).1 = s) := by
  refine ⟨fun k h => ?_, fun h => ?_, fun h => ?_, fun i h => ?_, fun i op h => ?_⟩
  · unfold recoverWorkspace at h ⊢
    simp only at h ⊢
    split_ifs at h ⊢ with hk
    · cases hr : replay ops (s.states.take (k.getD s.states.length).toNat) s.initL s.initU with
      | error e => rfl
      | ok w =>
        rw [hr] at h
        cases h
    · rfl
  · unfold refreshInfo at h ⊢
    cases hr : totals ops s.states with
    | error e => rfl
    | ok w =>
      rw [hr] at h
      cases h
  · unfold checkBatchSize at h ⊢
    cases hr : batches (s.states.take (s.states.length - 1)) with
    | error e => rfl
    | ok w =>
      rw [hr] at h
      simp only at h
      split at h <;> cases h
  · unfold pop at h ⊢
    cases i with
    | none => rfl
    | some i =>
      simp only at h ⊢
      generalize (if i < 0 then i + (s.states.length : Int) else i) = j at h ⊢
      split_ifs at h ⊢
      · cases hr : s.states[j.toNat]? with
        | none => rfl
        | some w =>
          rw [hr] at h
          cases h
      · rfl
  · unfold mutate at h ⊢
    cases hr : s.states[i]? with
    | none => rfl
    | some w =>
      rw [hr] at h
      cases w with
      | dict d => rfl
      | st st =>
        simp only at h ⊢
        rw [C156_state st op h]
        have : s.states.set i (.st st) = s.states := by
          apply List.ext_getElem?
          intro j
          rw [List.getElem?_set]
          split_ifs with h1 h2
          · rw [← h1, hr]
          · rw [← h1, List.getElem?_eq_none (by omega)]
          · rfl
        rw [this]

/-- **C156**: a dict without one of the three keys is refused by add_state, and the saver stays as it was. -/
theorem C156_refused_dict (ops : CollOps κ ε σ) (s : StateIO κ σ) {d : List (String × Obj σ)} {k : String} (hk : k ∈ ["select_index", "queried_info", "performance"])
    (hd : k ∉ d.map Prod.fst) : s.addState ops (.dict d) = (s, some .assertionError) := by
  have : (["select_index", "queried_info", "performance"].all (fun k => decide (k ∈ d.map Prod.fst))) = false := by
    rw [List.all_eq_false]
    exact ⟨k, hk, by simpa using hd⟩
  unfold addState
  simp only [this]
  rfl

/-- A dict which has the three keys, as documented, is stored; then the call raises AttributeError. The dict stays in the saver, whose cost and number of queries do not count it. -/
theorem C156_dict_violation (ops : CollOps κ ε σ) (s : StateIO κ σ) {d : List (String × Obj σ)} (hd : ∀ k ∈ ["select_index", "queried_info", "performance"], k ∈ d.map Prod.fst) :
    s.addState ops (.dict d) = ({ s with states := s.states ++ [.dict d] }, some .attributeError) := by
  have : (["select_index", "queried_info", "performance"].all (fun k => decide (k ∈ d.map Prod.fst))) = true := by
    rw [List.all_eq_true]
    intro k hk
    simpa using hd k hk
  unfold addState
  simp only [this]
  by_cases hc : "cost" ∈ d.map Prod.fst
  · have : entryCost (Entry.dict d) = .error .attributeError := by
      simp only [entryCost, entryHas, hc, decide_true, if_true, entryGet]
    simp only [this]
    rfl
  · have : entryCost (Entry.dict d) = .ok 0 := by
      simp only [entryCost, entryHas, hc, decide_false]
      rfl
    simp only [this, entryLen, entryGet, add_zero]
    rfl

/-- A saver with two states: `pop(5)` raises and both are still there. -/
example (s t : State Nat) : (StateIO.mk (κ := Nat) 0 0 [.st s, .st t] 2 2 1).pop (some 5) = (⟨0, 0, [.st s, .st t], 2, 2, 1⟩, .error .indexError) := rfl

/-- A dict with the three keys. -/
example (ops : CollOps Nat Nat Nat) (s : StateIO Nat Nat) : (s.addState ops (.dict [("select_index", .sel 0), ("queried_info", .arr [1]), ("performance", .arr [1])])).2 = some .attributeError := by
  rw [C156_dict_violation ops s (by simp)]

end StateIO

/-! ## Oracles -/

namespace Oracle
variable {χ β : Type} [DecidableEq χ]

/-- **C156**: an entry that an oracle refuses does not change what it answers; without examples it changes nothing at all. -/
theorem C156_oracle (ty : β → Nat) (o : Oracle χ β) (l : β) (i : Key) (x : Option χ) (c : Option ℚ) {e : PyErr} (h : (addOne ty o l i x c).2 = some e) :
    (∀ ks, (addOne ty o l i x c).1.queryByIndex ks = o.queryByIndex ks) ∧ (o.exa2ind = none → (addOne ty o l i x c).1 = o) := by
  have key : (addOne ty o l i x c).1.table = o.table ∧ (o.exa2ind = none → (addOne ty o l i x c).1 = o) := by
    obtain ⟨d, t, lt⟩ := o
    unfold addOne at h ⊢
    split_ifs at h ⊢
    · exact ⟨rfl, fun _ => rfl⟩
    · cases d <;> cases x <;> cases t <;> cases c <;> simp_all
  refine ⟨fun ks => ?_, key.2⟩
  have ha : ∀ k, (addOne ty o l i x c).1.ask k = o.ask k := fun k => by unfold ask; rw [key.1]
  induction ks with
  | nil => rfl
  | cons k ks ih => simp only [queryByIndex, ha, ih]

/-- But without the cost that the oracle needs the example is stored before the call raises: from then on it leads to an index for which there is no answer. -/
theorem C156_oracle_violation (ty : β → Nat) {o : Oracle χ β} {d : List (χ × Key)} {t : List (Key × β × ℚ)} (hd : o.exa2ind = some d) (ht : o.table = .cost t) {l : β} (hl : ty l = o.labelTy)
    {i : Key} (hi : dictGet i t = none) (x : χ) :
    ∃ o', addOne ty o l i (some x) none = (o', some .genericException) ∧ (∃ d', o'.exa2ind = some d' ∧ dictGet x d' = some i) ∧ o'.ask i = .error .typeError := by
  refine ⟨{ o with exa2ind := some (dictSet x i d) }, ?_, ⟨_, rfl, ?_⟩, ?_⟩
  · simp [addOne, hl, hd, ht]
  · rw [dictGet_dictSet, if_pos rfl]
  · simp [ask, ht, hi]

/-- **C156**: add_knowledge with lists refuses lists of different lengths at once; otherwise it stores the entries before the first one that is refused. -/
theorem C156_oracle_lists (ty : β → Nat) (o : Oracle χ β) (es : List (Entry χ β)) {e : PyErr} (h : (addAll ty o es).2 = some e) :
    ∃ done bad rest, es = done ++ bad :: rest ∧ (addAll ty o done).2 = none ∧ (addOne ty (addAll ty o done).1 bad.label bad.index bad.ex bad.cost).2 = some e ∧
      (addAll ty o es).1 = (addOne ty (addAll ty o done).1 bad.label bad.index bad.ex bad.cost).1 := by
  induction es generalizing o with
  | nil => cases h
  | cons b es ih =>
    unfold addAll at h
    rcases hb : addOne ty o b.label b.index b.ex b.cost with ⟨o', _ | e'⟩
    · rw [hb] at h
      obtain ⟨done, bad, rest, h1, h2, h3, h4⟩ := ih o' h
      have hd : addAll ty o (b :: done) = addAll ty o' done := by
        conv_lhs => unfold addAll
        rw [hb]
      refine ⟨b :: done, bad, rest, by rw [h1]; rfl, by rw [hd]; exact h2, by rw [hd]; exact h3, ?_⟩
      rw [hd, ← h4]
      conv_lhs => unfold addAll
      rw [hb]
    · rw [hb] at h
      refine ⟨[], b, es, rfl, rfl, ?_, ?_⟩
      · show (addOne ty o b.label b.index b.ex b.cost).2 = _
        rw [hb]
        exact h
      · show (addAll ty o (b :: es)).1 = (addOne ty o b.label b.index b.ex b.cost).1
        conv_lhs => unfold addAll
        rw [hb]

/-- **C156**: an entry that a multi-label oracle refuses does not change what it answers; without examples it changes nothing at all. -/
theorem C156_multi_oracle (o : MLOracle χ β) (l : List β) (i : Int) (x : Option χ) (c : Option CostRow) {e : PyErr} (h : (o.addOne l i x c).2 = some e) :
    (o.addOne l i x c).1.table = o.table ∧ (o.addOne l i x c).1.width = o.width ∧ (o.exa2ind = none → (o.addOne l i x c).1 = o) := by
  unfold MLOracle.addOne at h ⊢
  split_ifs at h ⊢ with h1 h2
  · exact ⟨rfl, rfl, fun _ => rfl⟩
  · obtain ⟨d, w, lc, t⟩ := o
    cases d <;> cases x <;> cases t <;> simp only [] at h ⊢
    all_goals try cases hc : c.or lc
    all_goals try rw [hc] at h
    all_goals try rw [hc]
    all_goals try simp only [] at h ⊢
    all_goals try split_ifs at h ⊢
    all_goals first
      | exact ⟨rfl, rfl, fun _ => rfl⟩
      | exact ⟨trivial, trivial, fun _ => trivial⟩
      | exact ⟨rfl, rfl, fun hh => nomatch hh⟩
      | simp_all
      | cases h

/-- An oracle with examples and costs: an entry of another class changes nothing; one without cost leaves the example behind. -/
example : (addOne (χ := String) (β := Int) (fun v => if v = 7 then 1 else 0) ⟨some [("a", .num 0)], .cost [(.num 0, 1, 2)], 0⟩ 7 (.num 1) (some "b") (some 1)).1.exa2ind = some [("a", .num 0)] ∧
    (addOne (χ := String) (β := Int) (fun v => if v = 7 then 1 else 0) ⟨some [("a", .num 0)], .cost [(.num 0, 1, 2)], 0⟩ 3 (.num 1) (some "b") none).1.exa2ind = some [("a", .num 0), ("b", .num 1)] := by
  decide +kernel

/-- The second entry is refused: the first one has been stored. -/
example : (addAll (χ := String) (β := Int) (fun v => if v = 7 then 1 else 0) ⟨none, .plain [(.num 0, 1)], 0⟩ [⟨.num 1, 2, none, none⟩, ⟨.num 2, 7, none, none⟩, ⟨.num 3, 4, none, none⟩]).1.table =
    .plain [(.num 0, 1), (.num 1, 2)] := by rfl

end Oracle

namespace Oracles
variable {β ι : Type}

/-- **C156**: a query that raises — an unknown name, an index the oracle does not know — is neither in the history nor charged; the answers have to have costs that can be added up. -/
theorem C156_oracles (o : Oracles β ι) (pick : List String → String) (q : ι) {e : PyErr} (hreg : ∀ n r, o.askOne q n = .ok r → r.costs.regular = true) :
    (∀ name, (o.queryFrom pick q name).2 = .error e → (o.queryFrom pick q name).1 = o) ∧
    (∀ names, (∀ rs, o.askAll q (names.getD (o.dict.map Prod.fst)) = .ok rs → ∀ r ∈ rs, ∀ r' ∈ rs, r.costs.shape = r'.costs.shape) →
      (o.queryFromS q names).2 = .error e → (o.queryFromS q names).1 = o) := by
  constructor
  · intro name h
    by_cases hno : name = none ∧ o.dict = []
    · simp [queryFrom, hno.1, hno.2]
    · have hq : o.queryFrom pick q name = (match o.askOne q (name.getD (pick (o.dict.map Prod.fst))) with
          | .error e => (o, .error e)
          | .ok r =>
            let o := { o with history := o.history ++ [⟨[name.getD (pick (o.dict.map Prod.fst))], [r], q⟩] }
            match r.costs.npSum with
            | .error e => (o, .error e)
            | .ok c => ({ o with cost := o.cost + c }, .ok r)) := by
        unfold queryFrom
        split
        · next h1 => exact absurd ⟨rfl, h1⟩ hno
        · rfl
      rw [hq] at h ⊢
      cases ha : o.askOne q (name.getD (pick (o.dict.map Prod.fst))) with
      | error e => rfl
      | ok r =>
        rw [ha] at h
        simp [Costs.npSum, hreg _ _ ha] at h
  · intro names hsh h
    have hall : ∀ (ns : List String) rs, o.askAll q ns = .ok rs → ∀ r ∈ rs, r.costs.regular = true := by
      intro ns
      induction ns with
      | nil =>
        intro rs hrs r hr
        simp only [askAll, Except.ok.injEq] at hrs
        subst hrs
        cases hr
      | cons n ns ih =>
        intro rs hrs r hr
        unfold askAll at hrs
        cases ha : o.askOne q n with
        | error e => rw [ha] at hrs; cases hrs
        | ok a =>
          rw [ha] at hrs
          simp only at hrs
          cases hb : o.askAll q ns with
          | error e => rw [hb] at hrs; cases hrs
          | ok as =>
            rw [hb] at hrs
            simp only [Except.ok.injEq] at hrs
            subst hrs
            rcases List.mem_cons.1 hr with rfl | hr
            · exact hreg _ _ ha
            · exact ih as hb r hr
    unfold queryFromS at h ⊢
    simp only at h ⊢
    cases ha : o.askAll q (names.getD (o.dict.map Prod.fst)) with
    | error e => rfl
    | ok rs =>
      exfalso
      rw [ha] at h
      have : ∃ c, npSumAll (rs.map Answer.costs) = .ok c := by
        cases rs with
        | nil => exact ⟨0, rfl⟩
        | cons r rs =>
          have h1 : (r.costs.regular && (rs.map Answer.costs).all (fun d => d.regular && d.shape = r.costs.shape)) = true := by
            rw [Bool.and_eq_true, List.all_eq_true]
            refine ⟨hall _ _ ha r (by simp), ?_⟩
            intro d hd
            obtain ⟨r', hr', rfl⟩ := List.mem_map.1 hd
            rw [Bool.and_eq_true]
            exact ⟨hall _ _ ha r' (by simp [hr']), by simpa using hsh _ ha r' (by simp [hr']) r (by simp)⟩
          exact ⟨_, by simp only [List.map_cons, npSumAll]; rw [if_pos h1]⟩
      obtain ⟨c, hc⟩ := this
      simp [hc] at h

/-- Costs that cannot be added up are noticed too late: the call raises, but the query is in the history without being charged. -/
theorem C156_oracles_violation (o : Oracles β ι) (pick : List String → String) (q : ι) {n : String} {r : Answer β} (h : o.askOne q n = .ok r) (hreg : r.costs.regular = false) :
    o.queryFrom pick q (some n) = ({ o with history := o.history ++ [⟨[n], [r], q⟩] }, .error .valueError) := by
  simp [queryFrom, h, Costs.npSum, hreg]

/-- An unknown name. -/
example (f : Int → Except PyErr (Answer Int)) (h : List (Record Int Int)) (q : Int) (pick : List String → String) : Oracles.queryFrom ⟨[("a", f)], 3, h⟩ pick q (some "b") = (⟨[("a", f)], 3, h⟩, .error .keyError) := rfl

end Oracles

/-! ## Repositories -/

namespace ERepo
variable {κ β χ : Type} [DecidableEq κ] [DecidableEq χ]

/-- **C156**: `ElementRepository.add` that raises changes nothing. -/
theorem C156_element (o : ERepo κ β χ) (k : κ) (b : β) (c : Option ℚ) (x : Option χ) {e : PyErr} (h : (o.add k b c x).2 = some e) : (o.add k b c x).1 = o := by
  unfold add at h ⊢
  split_ifs at h ⊢
  cases x with
  | none => rfl
  | some x => cases h

/-- **C156**: `ElementRepository.update_query` that raises — arguments of different lengths, or no examples though the repository has some — changes nothing at all: not only are the
number of queries and the history the same, but no entry is stored. -/
theorem C156_element_query (o : ERepo κ β χ) (ks : Arg κ) (bs : Arg β) (c : Option (Arg ℚ)) (x : Option (Arg χ)) {e : PyErr} (h : (o.updateQuery ks bs c x).2 = some e) :
    (o.updateQuery ks bs c x).1 = o := by
  unfold updateQuery at h ⊢
  split_ifs at h ⊢ with hl
  swap
  · rfl
  have key : ∀ (rows : List (κ × β × Option ℚ × Option χ)) (o : ERepo κ β χ), ((∀ r ∈ rows, r.2.2.2.isSome) ∨ ∀ r ∈ rows, r.2.2.2 = none) → (o.addMany rows).2 = some e → (o.addMany rows).1 = o := by
    intro rows
    induction rows with
    | nil => intro o _ h; cases h
    | cons r rows ih =>
      intro o hr h
      obtain ⟨k, b, c, x⟩ := r
      by_cases hx : o.hasEx = true
      · rcases hr with hr | hr
        · exfalso
          have : ∀ (rows : List (κ × β × Option ℚ × Option χ)) (o : ERepo κ β χ), (∀ r ∈ rows, r.2.2.2.isSome) → (o.addMany rows).2 = none := by
            intro rows
            induction rows with
            | nil => intros; rfl
            | cons r rows ih =>
              intro o hr
              obtain ⟨k, b, c, x⟩ := r
              obtain ⟨x, rfl⟩ := Option.isSome_iff_exists.1 (hr (k, b, c, x) (by simp))
              have : ∃ o', o.add k b c (some x) = (o', none) := by
                unfold add
                split_ifs <;> exact ⟨_, rfl⟩
              obtain ⟨o', ho⟩ := this
              unfold addMany
              rw [ho]
              exact ih o' (fun r h => hr r (by simp [h]))
          rw [this _ o hr] at h
          cases h
        · have hx0 : x = none := hr (k, b, c, x) (by simp)
          subst hx0
          simp [addMany, add, hx]
      · exfalso
        have : ∀ (rows : List (κ × β × Option ℚ × Option χ)) (o : ERepo κ β χ), o.hasEx = false → (o.addMany rows).2 = none := by
          intro rows
          induction rows with
          | nil => intros; rfl
          | cons r rows ih =>
            intro o ho
            obtain ⟨k, b, c, x⟩ := r
            have e : o.add k b c x = (o.addRest k b c, none) := by simp [add, ho]
            unfold addMany
            rw [e]
            exact ih _ ho
        rw [this _ o (by simpa using hx)] at h
        cases h
  have hrows : ∀ (bl : List β) (kl : List κ) (cl : Option (List ℚ)) (xl : Option (List χ)), (∀ l, xl = some l → kl.length ≤ l.length) →
      (∀ r ∈ repoRows bl kl cl xl, r.2.2.2.isSome) ∨ ∀ r ∈ repoRows bl kl cl xl, r.2.2.2 = none := by
    intro bl kl cl xl hx
    cases xl with
    | none =>
      right
      induction kl generalizing bl cl with
      | nil => cases bl <;> simp [repoRows]
      | cons k kl ih =>
        cases bl with
        | nil => simp [repoRows]
        | cons b bl =>
          intro r hr
          simp only [repoRows, List.mem_cons] at hr
          rcases hr with rfl | hr
          · rfl
          · exact ih bl _ (by simp) r hr
    | some l =>
      left
      have hl := hx l rfl
      clear hx
      induction kl generalizing bl cl l with
      | nil => cases bl <;> simp [repoRows]
      | cons k kl ih =>
        cases bl with
        | nil => simp [repoRows]
        | cons b bl =>
          cases l with
          | nil => simp at hl
          | cons x l =>
            intro r hr
            simp only [repoRows, List.mem_cons] at hr
            rcases hr with rfl | hr
            · rfl
            · exact ih bl _ l (by simpa using hl) r hr
  rcases hr : o.addMany (repoRows bs.toList ks.toList (c.map Arg.toList) (x.map Arg.toList)) with ⟨o', _ | e'⟩
  · rw [hr] at h
    cases h
  · rw [hr] at h
    have := key (repoRows bs.toList ks.toList (c.map Arg.toList) (x.map Arg.toList)) o (hrows _ _ _ _ ?_) (by rw [hr]; exact h)
    · rw [hr] at this
      exact this
    · intro l hxl
      cases x with
      | none => cases hxl
      | some a =>
        simp only [Option.map_some, Option.some.injEq] at hxl
        subst hxl
        have : a.len = bs.len ∧ ks.len = bs.len := by
          simp only [oneToOne, List.all_cons, Option.map_some, List.all_nil, Bool.and_true, Bool.and_eq_true, decide_eq_true_eq] at hl
          exact ⟨hl.2.2, hl.1⟩
        rw [Arg.length_toList, Arg.length_toList]
        omega

/-- A repository with examples: two labels without examples are refused together. -/
example : (ERepo.updateQuery (κ := Nat) (β := Int) (χ := Nat) ⟨[0], true, true, [(5, 0)], [(0, 5)], [(0, 1)], 0, [], 0, []⟩ (.many [1, 2]) (.many [1, -1]) none none) =
    (⟨[0], true, true, [(5, 0)], [(0, 5)], [(0, 1)], 0, [], 0, []⟩, some .genericException) := rfl

end ERepo

/-! ## Settings of an experiment -/

namespace Setup
variable {ι ρ : Type}

/-- **C156**: index lists of different lengths, an unknown metric and an unknown strategy are refused, and the settings stay as they were. -/
theorem C156_settings (e : Exp ι ρ) {x : PyErr} :
    (∀ s, (setSplit e s).2 = some x → (setSplit e s).1 = e) ∧ (∀ m, (setMetric e m).2 = some x → (setMetric e m).1 = e) ∧
    (∀ n a f, n ∉ known → setStrategy e (.named n a) f = (e, some .notImplementedError)) := by
  refine ⟨fun s h => ?_, fun m h => ?_, fun n a f hn => ?_⟩
  · unfold setSplit at h ⊢
    split_ifs at h ⊢
    rfl
  · unfold setMetric at h ⊢
    split_ifs at h ⊢
    rfl
  · simp [setStrategy, hn]

/-- A strategy whose constructor raises leaves its name behind: the experiment then shows the new name and uses the old strategy. -/
theorem C156_strategy_violation (e : Exp ι ρ) {n : String} (hn : n ∈ known) (hp : perRound n = false) (a : Nat) (x : PyErr) :
    setStrategy e (.named n a) (some x) = ({ e with name := some n }, some x) := by
  simp [setStrategy, hn, hp]

/-- A split that raises leaves the experiment marked as split, with the number of rounds asked for and the old indexes (or none). -/
theorem C156_split_violation (e : Exp ι ρ) (count : Int) (x : PyErr) : splitAL e count (.error x) = ({ e with count := count, split := true }, some x) := rfl

/-- An unknown metric. -/
example (e : Exp Nat Nat) : setMetric e "accuracy" = (e, some .notImplementedError) := by
  simp [setMetric, metrics]

end Setup

/-! ## The analyser -/

namespace ResultForms
variable {K σ : Type}

/-- **C156**: results which cannot be read are not added: the data and the summaries of the methods are as before. -/
theorem C156_analyser (disk : String → Except PyErr (Sio K)) (summ : List (FoldArg K) → Except PyErr σ) (hs : ∀ l, ∃ s, summ l = .ok s) (x : Axis) (a : An K σ) (name : String) (r : Arg K)
    {e : PyErr} (h : (addMethod disk summ x a name r).2 = some e) :
    (addMethod disk summ x a name r).1.extracted = a.extracted ∧ (addMethod disk summ x a name r).1.summary = a.summary := by
  have hst : ∀ (a : An K σ) k l, (store a name k (summ l)).2 = none := by
    intro a k l
    obtain ⟨s, hs⟩ := hs l
    simp [store, hs]
  cases r with
  | other => exact ⟨rfl, rfl⟩
  | container c =>
    simp only [addMethod] at h ⊢
    cases hk : keep x c with
    | error e => exact ⟨rfl, rfl⟩
    | ok k =>
      rw [hk] at h
      simp only [hst] at h
      cases h
  | folds fs =>
    simp only [addMethod] at h ⊢
    rcases ht : typeOfData fs with e' | n
    · exact ⟨rfl, rfl⟩
    · rw [ht] at h
      rcases n with _ | n
      · simp only at h ⊢
        cases hc : container disk fs with
        | error e => exact ⟨rfl, rfl⟩
        | ok c =>
          rw [hc] at h
          simp only at h ⊢
          cases hk : keep x c with
          | error e => exact ⟨rfl, rfl⟩
          | ok k =>
            rw [hk] at h
            simp only [hst] at h
            cases h
      · simp only at h ⊢
        split_ifs at h ⊢ with hn
        · rw [hst] at h
          cases h
        · exact ⟨rfl, rfl⟩

/-- But whether all results are savers is changed: a container that cannot be read turns an analyser of lists into one that claims to have savers only. -/
theorem C156_analyser_violation (disk : String → Except PyErr (Sio K)) (summ : List (FoldArg K) → Except PyErr σ) (x : Axis) (a : An K σ) (name : String) {c : List (Sio K)} {e : PyErr}
    (hk : keep x c = .error e) : addMethod disk summ x a name (.container c) = ({ a with allState := some true }, some e) := by
  simp [addMethod, hk]

end ResultForms

/-! ## Files -/

namespace Files
variable {V : Type}

private theorem write_refused (d : Disk V) (p : Path) (o : Obj V) {e : PyErr} (h : (write d p o).2 = some e) : (write d p o).1 = d := by
  unfold write at h ⊢
  split_ifs at h ⊢ <;> rfl

/-- **C156**: saving that raises changes no file: of a saver, a toolbox, an oracle, a multi-thread experiment. -/
theorem C156_files (d : Disk V) (v : V) {e : PyErr} :
    (∀ s : Saver, (s.save d v).2 = some e → (s.save d v).1 = d) ∧ (∀ p, (saveBox d p v).2 = some e → (saveBox d p v).1 = d) ∧
    (∀ p, (saveOracle d p v).2 = some e → (saveOracle d p v).1 = d) ∧ (∀ p, (saveThreads d p v).2 = some e → (saveThreads d p v).1 = d) := by
  refine ⟨fun s h => ?_, fun p h => ?_, fun p h => ?_, fun p h => ?_⟩
  · unfold Saver.save at h ⊢
    cases hd : s.dir with
    | none => rfl
    | some p =>
      rw [hd] at h
      exact write_refused d _ _ h
  · unfold saveBox at h ⊢
    cases p with
    | none => rfl
    | some p =>
      simp only at h ⊢
      split_ifs at h ⊢ <;> exact write_refused d _ _ h
  · unfold saveOracle at h ⊢
    cases p with
    | none => rfl
    | some p =>
      simp only at h ⊢
      split_ifs at h ⊢ <;> exact write_refused d _ _ h
  · unfold saveThreads at h ⊢
    split_ifs at h ⊢ <;> exact write_refused d _ _ h

/-- A directory that does not exist. -/
example (d : Disk Nat) (h : d ["x"] = none) : saveOracle d (some ["x", "o.pkl"]) 1 = (d, some .fileNotFoundError) ∨ isdir d ["x", "o.pkl"] = true := by
  by_cases hd : isdir d ["x", "o.pkl"] = true
  · exact .inr hd
  · left
    have : isdir d ["x"] = false := by simp [isdir, h]
    simp [saveOracle, hd, write, this]

end Files
end Alipy
