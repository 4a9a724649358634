import Verif.Props.OracleMultiLabel

/-! # C28: sets of oracles -/
namespace Alipy
namespace Oracles
variable {β ι : Type}

/-- The total of the costs in an answer. -/
def total (a : Answer β) : ℚ := a.costs.nums.sum

/-- The total of the costs in a history. -/
def charged (h : List (Record β ι)) : ℚ := (h.map (fun r => (r.results.map total).sum)).sum

/-- Histories of an `Oracles` object: any sequence of `add_oracle`, `query_from` and `query_from_s` calls, successful or not, as
long as the answers of one call can be added up by numpy (`okCosts`). `back` collects the answers handed back to the callers. -/
inductive Reachable : Oracles β ι → List (Answer β) → Prop
  | empty : Reachable empty []
  | addOracle {o : Oracles β ι} {back : List (Answer β)} (name : String) (f : ι → Except PyErr (Answer β)) :
      Reachable o back → Reachable (o.addOracle name f) back
  | queryFrom {o o' : Oracles β ι} {back : List (Answer β)} (pick : List String → String) (q : ι) (name : Option String)
      (res : Except PyErr (Answer β)) : Reachable o back → o.queryFrom pick q name = (o', res) →
      (∀ n r, o.askOne q n = .ok r → r.costs.regular = true) →
      Reachable o' (back ++ match res with | .ok a => [a] | .error _ => [])
  | queryFromS {o o' : Oracles β ι} {back : List (Answer β)} (q : ι) (names : Option (List String))
      (res : Except PyErr (List (Answer β))) : Reachable o back → o.queryFromS q names = (o', res) →
      (∀ n r, o.askOne q n = .ok r → r.costs.regular = true) →
      (∀ n m r s, o.askOne q n = .ok r → o.askOne q m = .ok s → r.costs.shape = s.costs.shape) →
      Reachable o' (back ++ match res with | .ok as => as | .error _ => [])

theorem askAll_mem (o : Oracles β ι) (q : ι) : ∀ (ns : List String) (rs : List (Answer β)), o.askAll q ns = .ok rs →
    List.Forall₂ (fun n r => o.askOne q n = .ok r) ns rs := by
  intro ns
  induction ns with
  | nil => intro rs h; simp only [askAll] at h; cases h; exact .nil
  | cons n r ih =>
    intro rs h
    simp only [askAll] at h
    split at h
    · cases h
    · rename_i a ha
      split at h
      · cases h
      · rename_i as has
        cases h
        exact .cons ha (ih _ has)

theorem npSumAll_ok (cs : List Costs) (h1 : ∀ c ∈ cs, c.regular = true) (h2 : ∀ c ∈ cs, ∀ d ∈ cs, c.shape = d.shape) :
    npSumAll cs = .ok (cs.map (fun c => c.nums.sum)).sum := by
  cases cs with
  | nil => simp [npSumAll]
  | cons c r =>
    have : (c.regular && r.all (fun d => d.regular && d.shape = c.shape)) = true := by
      simp only [Bool.and_eq_true, List.all_eq_true, decide_eq_true_eq]
      exact ⟨h1 c (by simp), fun d hd => ⟨h1 d (by simp [hd]), h2 d (by simp [hd]) c (by simp)⟩⟩
    simp only [npSumAll, this, if_true]

theorem charged_append (h : List (Record β ι)) (r : Record β ι) : charged (h ++ [r]) = charged h + (r.results.map total).sum := by
  simp [charged]

/-- What a successful or failing `query_from` does. -/
theorem queryFrom_effect (o o' : Oracles β ι) (pick : List String → String) (q : ι) (name : Option String)
    (res : Except PyErr (Answer β)) (h : o.queryFrom pick q name = (o', res))
    (hreg : ∀ n r, o.askOne q n = .ok r → r.costs.regular = true) :
    (∃ e, res = .error e ∧ o' = o) ∨
    (∃ n a, res = .ok a ∧ o.askOne q n = .ok a ∧ (∀ m, name = some m → n = m) ∧ o'.dict = o.dict ∧
      o'.cost = o.cost + total a ∧ o'.history = o.history ++ [⟨[n], [a], q⟩]) := by
  unfold queryFrom at h
  split at h
  · cases h; exact .inl ⟨_, rfl, rfl⟩
  · simp only at h
    split at h
    · cases h; exact .inl ⟨_, rfl, rfl⟩
    · rename_i r hr
      have hok : r.costs.npSum = .ok r.costs.nums.sum := by simp [Costs.npSum, hreg _ _ hr]
      rw [hok] at h
      cases h
      refine .inr ⟨_, r, rfl, hr, ?_, rfl, rfl, rfl⟩
      rintro m rfl
      rfl

/-- What a successful or failing `query_from_s` does. -/
theorem queryFromS_effect (o o' : Oracles β ι) (q : ι) (names : Option (List String))
    (res : Except PyErr (List (Answer β))) (h : o.queryFromS q names = (o', res))
    (hreg : ∀ n r, o.askOne q n = .ok r → r.costs.regular = true)
    (hsh : ∀ n m r s, o.askOne q n = .ok r → o.askOne q m = .ok s → r.costs.shape = s.costs.shape) :
    (∃ e, res = .error e ∧ o' = o) ∨
    (∃ ns as, res = .ok as ∧ List.Forall₂ (fun n a => o.askOne q n = .ok a) ns as ∧ (∀ ms, names = some ms → ns = ms) ∧
      (names = none → ns = o.dict.map Prod.fst) ∧ o'.dict = o.dict ∧
      o'.cost = o.cost + (as.map total).sum ∧ o'.history = o.history ++ [⟨ns, as, q⟩]) := by
  unfold queryFromS at h
  simp only at h
  split at h
  · cases h; exact .inl ⟨_, rfl, rfl⟩
  · rename_i rs hrs
    have hf := askAll_mem o q _ _ hrs
    have hmem : ∀ r ∈ rs, ∃ n, o.askOne q n = .ok r := by
      intro r hr
      obtain ⟨n, -, hn⟩ := forall₂_exists_right' hf r hr
      exact ⟨n, hn⟩
    have hsum := npSumAll_ok (rs.map Answer.costs)
      (by
        intro c hc
        obtain ⟨r, hr, rfl⟩ := List.mem_map.1 hc
        obtain ⟨n, hn⟩ := hmem r hr
        exact hreg n r hn)
      (by
        intro c hc d hd
        obtain ⟨r, hr, rfl⟩ := List.mem_map.1 hc
        obtain ⟨s, hs, rfl⟩ := List.mem_map.1 hd
        obtain ⟨n, hn⟩ := hmem r hr
        obtain ⟨m, hm⟩ := hmem s hs
        exact hsh n m r s hn hm)
    rw [hsum] at h
    cases h
    refine .inr ⟨_, rs, rfl, hf, ?_, ?_, rfl, ?_, rfl⟩
    · rintro ms rfl; rfl
    · rintro rfl; rfl
    · simp only [List.map_map]; rfl
where
  forall₂_exists_right' {α γ : Type} {R : α → γ → Prop} {l : List α} {m : List γ} (h : List.Forall₂ R l m) :
      ∀ b ∈ m, ∃ a ∈ l, R a b := by
    induction h with
    | nil => simp
    | cons hab _ ih =>
      intro b hb
      rcases List.mem_cons.1 hb with rfl | hb
      · exact ⟨_, by simp, hab⟩
      · obtain ⟨a, ha, hr⟩ := ih b hb
        exact ⟨a, by simp [ha], hr⟩

/-- C28: at any time the charged cost is the sum of the costs in the history and the sum of the costs handed back to the callers.
Missing: answers numpy cannot add up (`C28_ragged_costs_violation`). -/
theorem C28_cost_is_the_sum_partial (o : Oracles β ι) (back : List (Answer β)) (h : Reachable o back) :
    o.cost = charged o.history ∧ o.cost = (back.map total).sum := by
  induction h with
  | empty => simp [Oracles.empty, charged]
  | addOracle name f _ ih => exact ih
  | @queryFrom o o' back pick q name res _ h hreg ih =>
    rcases queryFrom_effect o o' pick q name res h hreg with ⟨e, rfl, rfl⟩ | ⟨n, a, rfl, -, -, -, h1, h2⟩
    · simpa using ih
    · rw [h1, h2, charged_append]
      simp [ih.1.symm, ← ih.2]
  | @queryFromS o o' back q names res _ h hreg hsh ih =>
    rcases queryFromS_effect o o' q names res h hreg hsh with ⟨e, rfl, rfl⟩ | ⟨ns, as, rfl, -, -, -, -, h1, h2⟩
    · simpa using ih
    · rw [h1, h2, charged_append]
      simp [ih.1.symm, ← ih.2]

/-- C28: a `query_from` call that raises changes nothing (nothing recorded, nothing charged); a successful one returns the answer of
the oracle asked, records it under that oracle's name, and charges its cost. -/
theorem C28_query_from_partial (o o' : Oracles β ι) (pick : List String → String) (q : ι) (n : String)
    (res : Except PyErr (Answer β)) (h : o.queryFrom pick q (some n) = (o', res))
    (hreg : ∀ r, o.askOne q n = .ok r → r.costs.regular = true) :
    res = o.askOne q n ∧
    (∀ e, res = .error e → o' = o) ∧
    (∀ a, res = .ok a → o'.cost = o.cost + total a ∧ o'.history = o.history ++ [⟨[n], [a], q⟩] ∧ o'.dict = o.dict) := by
  simp only [queryFrom, Option.getD_some] at h
  cases hr : o.askOne q n with
  | error e => rw [hr] at h; cases h; simp
  | ok r =>
    have hok : r.costs.npSum = .ok r.costs.nums.sum := by simp [Costs.npSum, hreg _ hr]
    rw [hr] at h
    simp only [hok] at h
    cases h
    refine ⟨rfl, by simp, ?_⟩
    rintro a ⟨⟩
    exact ⟨rfl, rfl, rfl⟩

/-- A call to several oracles that raises, whichever of them fails, changes nothing. -/
theorem C28_query_from_s_partial (o o' : Oracles β ι) (q : ι) (names : Option (List String))
    (res : Except PyErr (List (Answer β))) (h : o.queryFromS q names = (o', res))
    (hreg : ∀ n r, o.askOne q n = .ok r → r.costs.regular = true)
    (hsh : ∀ n m r s, o.askOne q n = .ok r → o.askOne q m = .ok s → r.costs.shape = s.costs.shape) :
    (∃ e, res = .error e ∧ o' = o) ∨
    ∃ ns as, res = .ok as ∧ List.Forall₂ (fun n a => o.askOne q n = .ok a) ns as ∧
      ns = names.getD (o.dict.map Prod.fst) ∧ o'.cost = o.cost + (as.map total).sum ∧
      o'.history = o.history ++ [⟨ns, as, q⟩] := by
  rcases queryFromS_effect o o' q names res h hreg hsh with h | ⟨ns, as, h1, h2, h3, h4, -, h5, h6⟩
  · exact .inl h
  · refine .inr ⟨ns, as, h1, h2, ?_, h5, h6⟩
    cases names with
    | none => exact h4 rfl
    | some ms => exact h3 ms rfl

/-- C28, violation: if the costs of an answer are arrays of different lengths (a multi-label oracle asked for different numbers of
labels of two instances), `query_from` raises, but the query has been recorded in the history, without being charged: the charged
cost falls behind the history. -/
theorem C28_ragged_costs_violation (o : Oracles β ι) (pick : List String → String) (q : ι) (n : String) (r : Answer β)
    (hask : o.askOne q n = .ok r) (hrag : r.costs.regular = false) (hpos : 0 < total r) (hsync : o.cost = charged o.history) :
    ∃ o', o.queryFrom pick q (some n) = (o', .error .valueError) ∧ o'.history = o.history ++ [⟨[n], [r], q⟩] ∧
      o'.cost < charged o'.history := by
  have : r.costs.npSum = .error .valueError := by simp [Costs.npSum, hrag]
  refine ⟨{ o with history := o.history ++ [⟨[n], [r], q⟩] }, ?_, rfl, ?_⟩
  · simp [queryFrom, hask, this]
  · show o.cost < charged (o.history ++ _)
    rw [charged_append, hsync]
    simpa using hpos

/-- The multi-label query `[(0,), (1, [2])]` gives such costs. -/
example : (Costs.rows [[1, 1, 1], [1]]).regular = false := by decide

theorem sum_by_name {γ : Type} (f : γ → ℚ) (names : List String) (hn : names.Nodup) (l : List (String × γ))
    (h : ∀ p ∈ l, p.1 ∈ names) :
    (names.map (fun n => ((l.filter (fun p => p.1 == n)).map (fun p => f p.2)).sum)).sum = (l.map (fun p => f p.2)).sum := by
  induction l with
  | nil => simp
  | cons p r ih =>
    have ih' := ih (fun x hx => h x (by simp [hx]))
    have hp := h p (by simp)
    simp only [List.map_cons, List.sum_cons, ← ih']
    have key : ∀ (g : String → ℚ) (ns : List String), ns.Nodup → p.1 ∈ ns →
        (ns.map (fun n => (if p.1 = n then f p.2 else 0) + g n)).sum = f p.2 + (ns.map g).sum := by
      intro g ns
      induction ns with
      | nil => intro _ h; simp at h
      | cons n ns ihn =>
        intro hnd hmem
        rw [List.nodup_cons] at hnd
        simp only [List.map_cons, List.sum_cons]
        by_cases he : p.1 = n
        · have hz : (ns.map (fun n => (if p.1 = n then f p.2 else 0) + g n)) = ns.map g := by
            apply List.map_congr_left
            intro m hm
            have : p.1 ≠ m := by rintro rfl; exact hnd.1 (he ▸ hm)
            simp [this]
          rw [hz, if_pos he]; ring
        · rcases List.mem_cons.1 hmem with h' | h'
          · exact absurd h' he
          · rw [ihn hnd.2 h', if_neg he]; ring
    rw [← key _ names hn hp]
    congr 1
    apply List.map_congr_left
    intro n _
    by_cases he : p.1 = n
    · simp [he]
    · simp [he]

theorem dict_names_nodup {o : Oracles β ι} {back : List (Answer β)} (h : Reachable o back) :
    (o.dict.map Prod.fst).Nodup ∧ (∀ r ∈ o.history, r.names.length = r.results.length ∧ ∀ n ∈ r.names, n ∈ o.dict.map Prod.fst) := by
  have hask : ∀ (o : Oracles β ι) (q : ι) (n : String) (a : Answer β), o.askOne q n = .ok a → n ∈ o.dict.map Prod.fst := by
    intro o q n a h
    by_contra hc
    have := (dictGet_eq_none n o.dict).2 hc
    simp [askOne, this] at h
  induction h with
  | empty => simp [Oracles.empty]
  | addOracle name f _ ih =>
    refine ⟨dictSet_nodup _ _ _ ih.1, fun r hr => ⟨(ih.2 r hr).1, fun n hn => ?_⟩⟩
    simp only [Oracles.addOracle]
    rw [dictSet_keys]
    have := (ih.2 r hr).2 n hn
    split
    · exact this
    · simp only [List.mem_append]; exact .inl this
  | @queryFrom o o' back pick q name res _ h hreg ih =>
    rcases queryFrom_effect o o' pick q name res h hreg with ⟨e, rfl, rfl⟩ | ⟨n, a, rfl, ha, -, hd, h1, h2⟩
    · exact ih
    · rw [hd, h2]
      refine ⟨ih.1, fun r hr => ?_⟩
      rcases List.mem_append.1 hr with hr | hr
      · exact ih.2 r hr
      · rw [List.mem_singleton] at hr; subst hr
        refine ⟨rfl, fun m hm => ?_⟩
        simp only [List.mem_singleton] at hm
        subst hm
        exact hask o q _ a ha
  | @queryFromS o o' back q names res _ h hreg hsh ih =>
    rcases queryFromS_effect o o' q names res h hreg hsh with ⟨e, rfl, rfl⟩ | ⟨ns, as, rfl, hf, -, -, hd, h1, h2⟩
    · exact ih
    · rw [hd, h2]
      refine ⟨ih.1, fun r hr => ?_⟩
      rcases List.mem_append.1 hr with hr | hr
      · exact ih.2 r hr
      · rw [List.mem_singleton] at hr; subst hr
        refine ⟨hf.length_eq, fun m hm => ?_⟩
        clear h1 h2 h hsh hd ih hr
        induction hf with
        | nil => simp at hm
        | cons hab _ ihf =>
          rcases List.mem_cons.1 hm with rfl | hm
          · exact hask o q _ _ hab
          · exact ihf hm

/-- C28: the per-oracle costs printed for the object add up to the charged cost. -/
theorem C28_summary_adds_up (o : Oracles β ι) (back : List (Answer β)) (h : Reachable o back) :
    ((o.dict.map Prod.fst).map (fun n => (o.summaryOf n).2)).sum = o.cost := by
  obtain ⟨hn, hh⟩ := dict_names_nodup h
  rw [(C28_cost_is_the_sum_partial o back h).1]
  simp only [summaryOf]
  rw [sum_by_name (fun a : Answer β => a.costs.nums.sum) _ hn]
  · rw [charged, List.map_flatMap]
    generalize o.history = hist at hh
    induction hist with
    | nil => simp
    | cons r rs ih =>
      simp only [List.flatMap_cons, List.sum_append, List.map_cons, List.sum_cons]
      rw [ih (fun x hx => hh x (by simp [hx]))]
      congr 2
      have hl := (hh r (by simp)).1
      have : (r.names.zip r.results).map (fun p => p.2.costs.nums.sum) = ((r.names.zip r.results).map Prod.snd).map total := by
        rw [List.map_map]; rfl
      rw [this, List.map_snd_zip (by omega)]
  · intro p hp
    obtain ⟨r, hr, hp⟩ := List.mem_flatMap.1 hp
    exact (hh r hr).2 _ (List.of_mem_zip hp).1

/-- A concrete history: two oracles, one query to one of them, a failing query, one query to both. -/
def orA : Nat → Except PyErr (Answer String) := fun i => if i < 3 then .ok ⟨"a", .flat [2]⟩ else .error .typeError
def orB : Nat → Except PyErr (Answer String) := fun _ => .ok ⟨"b", .flat [3]⟩
def demo : Oracles String Nat := (empty.addOracle "A" orA).addOracle "B" orB

theorem demo_regular (q : Nat) (n : String) (r : Answer String) (h : demo.askOne q n = .ok r) :
    r.costs.regular = true ∧ r.costs.shape = [1] := by
  have hd : demo.dict = [("A", orA), ("B", orB)] := rfl
  simp only [askOne, hd] at h
  split at h
  · cases h
  · rename_i f hf
    have := mem_of_dictGet hf
    simp only [List.mem_cons, Prod.mk.injEq, List.not_mem_nil, or_false] at this
    rcases this with ⟨-, rfl⟩ | ⟨-, rfl⟩
    · simp only [orA] at h
      split at h <;> cases h
      exact ⟨rfl, rfl⟩
    · simp only [orB] at h
      cases h
      exact ⟨rfl, rfl⟩

example : ∃ (o : Oracles String Nat) (back : List (Answer String)), Reachable o back ∧ o.history.length = 1 ∧ o.cost = 5 ∧ back.length = 2 := by
  refine ⟨_, _, .queryFromS 1 none _ (.addOracle "B" orB (.addOracle "A" orA .empty)) rfl
    (fun n r h => (demo_regular 1 n r h).1) (fun n m r s h1 h2 => (demo_regular 1 n r h1).2.trans (demo_regular 1 m s h2).2.symm),
    rfl, ?_, rfl⟩
  simp [demo, empty, addOracle, total, Costs.nums]; norm_num

example : (demo.queryFrom (fun _ => "B") 7 (some "A")).2 = .error .typeError := by rfl

end Oracles
end Alipy
