import Verif.Spec.Oracle
import Verif.Spec.MultiLabel
import Verif.Proof.MultiLabelTools
import Mathlib.Data.List.Induction

namespace Alipy
open Spec

/-- The last element satisfying `p`. -/
def lastBy {α : Type} (p : α → Bool) (l : List α) : Option α := l.reverse.find? p

theorem lastBy_snoc {α : Type} (p : α → Bool) (l : List α) (a : α) :
    lastBy p (l ++ [a]) = if p a then some a else lastBy p l := by
  unfold lastBy
  rw [List.reverse_append]
  simp only [List.reverse_singleton, List.singleton_append, List.find?_cons]
  cases p a <;> simp

theorem lastBy_some {α : Type} {p : α → Bool} {l : List α} {a : α} :
    lastBy p l = some a ↔ ∃ pre post, l = pre ++ a :: post ∧ p a = true ∧ ∀ b ∈ post, p b = false := by
  induction l using List.reverseRecOn with
  | nil => simp [lastBy]
  | append_singleton l b ih =>
    rw [lastBy_snoc]
    constructor
    · intro h
      split at h
      · rename_i hb
        cases h
        exact ⟨l, [], rfl, hb, by simp⟩
      · rename_i hb
        obtain ⟨pre, post, rfl, h1, h2⟩ := ih.1 h
        refine ⟨pre, post ++ [b], by simp, h1, ?_⟩
        intro x hx
        rcases List.mem_append.1 hx with hx | hx
        · exact h2 x hx
        · rw [List.mem_singleton] at hx; subst hx; simpa using hb
    · rintro ⟨pre, post, he, h1, h2⟩
      rcases List.eq_nil_or_concat post with rfl | ⟨post', c, rfl⟩
      · have := List.append_inj' he rfl
        obtain ⟨rfl, hb⟩ := this
        simp only [List.cons.injEq, and_true] at hb
        subst hb
        simp [h1]
      · have he' : l ++ [b] = (pre ++ a :: post') ++ [c] := by simpa using he
        obtain ⟨rfl, hb⟩ := List.append_inj' he' rfl
        simp only [List.cons.injEq, and_true] at hb
        subst hb
        have hpb : p b = false := h2 b (by simp)
        rw [hpb]
        simp only [Bool.false_eq_true, if_false]
        exact ih.2 ⟨pre, post', rfl, h1, fun x hx => h2 x (by simp [hx])⟩

theorem lastBy_none {α : Type} {p : α → Bool} {l : List α} : lastBy p l = none ↔ ∀ a ∈ l, p a = false := by
  simp [lastBy, List.find?_eq_none]

theorem mostRecent_iff {α κ : Type} [DecidableEq κ] (log : List α) (key : α → κ) (k : κ) (a : α) :
    MostRecent log key k a ↔ lastBy (fun e => decide (key e = k)) log = some a := by
  rw [lastBy_some]
  simp [MostRecent]

theorem mostRecent_unique {α κ : Type} [DecidableEq κ] {log : List α} {key : α → κ} {k : κ} {a b : α}
    (ha : MostRecent log key k a) (hb : MostRecent log key k b) : a = b := by
  rw [mostRecent_iff] at ha hb
  rw [ha] at hb
  exact Option.some.inj hb

theorem mostRecent_mem {α κ : Type} {log : List α} {key : α → κ} {k : κ} {a : α} (h : MostRecent log key k a) :
    a ∈ log ∧ key a = k := by
  obtain ⟨pre, post, rfl, h1, -⟩ := h
  exact ⟨by simp, h1⟩

theorem lastBy_imp {α : Type} {p q : α → Bool} {l : List α} {a : α} (h : lastBy p l = some a) (hq : q a = true)
    (hpq : ∀ b ∈ l, q b = true → p b = true) : lastBy q l = some a := by
  obtain ⟨pre, post, rfl, h1, h2⟩ := lastBy_some.1 h
  refine lastBy_some.2 ⟨pre, post, rfl, hq, fun b hb => ?_⟩
  by_contra hne
  have := hpq b (by simp [hb]) (by simpa using hne)
  rw [h2 b hb] at this
  cases this

theorem dictGet_foldl {α κ ν : Type} [DecidableEq κ] (f : α → κ × ν) (log : List α) (k : κ) :
    dictGet k ((log.map f).foldl (fun d p => dictSet p.1 p.2 d) []) =
      (lastBy (fun e => decide ((f e).1 = k)) log).map (fun e => (f e).2) := by
  induction log using List.reverseRecOn with
  | nil => simp [dictGet, lastBy]
  | append_singleton l a ih =>
    rw [List.map_append, List.foldl_append, lastBy_snoc]
    simp only [List.map_cons, List.map_nil, List.foldl_cons, List.foldl_nil]
    rw [dictGet_dictSet, ih]
    by_cases h : (f a).1 = k
    · simp [h]
    · have : ¬ k = (f a).1 := fun e => h e.symm
      simp [h, this]

theorem dictGet_dictOfList {α κ ν : Type} [DecidableEq κ] (f : α → κ × ν) (log : List α) (k : κ) :
    dictGet k (dictOfList (log.map f)) = (lastBy (fun e => decide ((f e).1 = k)) log).map (fun e => (f e).2) :=
  dictGet_foldl f log k

namespace Oracle
variable {χ β : Type} [DecidableEq χ]

/-- What an oracle knows after the entries `log`. -/
structure Knows (withEx withCost : Bool) (o : Oracle χ β) (log : List (Entry χ β)) : Prop where
  costs : withCost = true → ∃ t, o.table = .cost t ∧ (∀ e ∈ log, e.cost.isSome = true) ∧
    ∀ k, dictGet k t = (lastBy (fun e => decide (e.index = k)) log).map (fun e => (e.label, e.cost.getD 0))
  plain : withCost = false → ∃ t, o.table = .plain t ∧
    ∀ k, dictGet k t = (lastBy (fun e => decide (e.index = k)) log).map (fun e => e.label)
  exs : withEx = true → ∃ d, o.exa2ind = some d ∧ (∀ e ∈ log, e.ex.isSome = true) ∧
    ∀ x, dictGet x d = (lastBy (fun e => decide (e.ex = some x)) log).map (fun e => e.index)
  noex : withEx = false → o.exa2ind = none

theorem zip_reads {log : List (Entry χ β)} {labels : List β} {indexes : List Key} {examples : Option (List χ)}
    {cost : Option (List ℚ)} (h : Reads log labels indexes examples cost) :
    indexes.zip labels = log.map (fun e => (e.index, e.label)) := by
  obtain ⟨rfl, rfl, -, -⟩ := h
  rw [List.zip_map']

theorem Knows.new {ty : β → Nat} {labels : List β} {examples : Option (List χ)} {indexes : Option (List Key)}
    {cost : Option (List ℚ)} {o : Oracle χ β} {log : List (Entry χ β)}
    (hr : Reads log labels (indexes.getD (defaultIndexes labels.length)) examples cost)
    (h : Oracle.new ty labels examples indexes cost = .ok o) :
    Knows examples.isSome cost.isSome o log := by
  unfold Oracle.new at h
  split at h
  · cases h
  · split at h
    · cases h
    · rename_i l ls _
      simp only [Except.ok.injEq] at h
      subst h
      generalize hix : indexes.getD (defaultIndexes (l :: ls).length) = ix at hr
      have hz := zip_reads hr
      obtain ⟨h1, h2, h3, h4⟩ := hr
      refine ⟨fun hc => ?_, fun hc => ?_, fun hx => ?_, fun hx => ?_⟩
      · cases cost with
        | none => simp at hc
        | some cs =>
          simp only at h4
          have hcs : cs = log.map (fun e => e.cost.getD 0) := by
            have := congrArg (List.map (fun c : Option ℚ => c.getD 0)) h4
            simpa [List.map_map, Function.comp_def] using this.symm
          refine ⟨_, rfl, ?_, fun k => ?_⟩
          · intro e he
            have : e.cost ∈ cs.map some := h4 ▸ List.mem_map.2 ⟨e, he, rfl⟩
            obtain ⟨c, -, hc⟩ := List.mem_map.1 this
            rw [← hc]; rfl
          · have : ix.zip ((l :: ls).zip cs) = log.map (fun e => (e.index, (e.label, e.cost.getD 0))) := by
              rw [← h1, ← h2, hcs, List.zip_map', List.zip_map']
            rw [this, dictGet_dictOfList]
      · cases cost with
        | some cs => simp at hc
        | none =>
          refine ⟨_, rfl, fun k => ?_⟩
          rw [hz, dictGet_dictOfList]
      · cases examples with
        | none => simp at hx
        | some xs =>
          simp only at h3
          have hsome : ∀ e ∈ log, e.ex.isSome = true := by
            intro e he
            have : e.ex ∈ xs.map some := h3 ▸ List.mem_map.2 ⟨e, he, rfl⟩
            obtain ⟨c, -, hc⟩ := List.mem_map.1 this
            rw [← hc]; rfl
          refine ⟨_, rfl, hsome, fun x => ?_⟩
          -- pair up over `log.attach`-free: compare the two dictionaries through the list of pairs
          have key : ∀ (log : List (Entry χ β)) (xs : List χ), log.map Entry.ex = xs.map some →
              dictGet x ((xs.zip (log.map Entry.index)).foldl (fun d p => dictSet p.1 p.2 d) []) =
              (lastBy (fun e => decide (e.ex = some x)) log).map (fun e => e.index) := by
            intro log
            induction log using List.reverseRecOn with
            | nil =>
              intro xs h
              have : xs = [] := by simpa using h.symm
              subst this; simp [dictGet, lastBy]
            | append_singleton l a ih =>
              intro xs h
              rcases List.eq_nil_or_concat xs with rfl | ⟨xs', y, rfl⟩
              · simp at h
              · simp only [List.concat_eq_append, List.map_append, List.map_cons, List.map_nil] at h ⊢
                obtain ⟨ha, hb⟩ := List.append_inj' h rfl
                simp only [List.cons.injEq, and_true] at hb
                have hlen : xs'.length = (l.map Entry.index).length := by
                  have := congrArg List.length ha; simpa using this.symm
                rw [List.zip_append hlen, List.foldl_append, lastBy_snoc]
                simp only [List.map_cons, List.map_nil, List.zip_cons_cons, List.zip_nil_right, List.foldl_cons, List.foldl_nil]
                rw [dictGet_dictSet, ih _ ha, hb]
                by_cases hxy : x = y
                · simp [hxy]
                · have : ¬ y = x := fun e => hxy e.symm
                  simp [hxy, this]
          have := key log xs h3
          rw [h2] at this
          exact this
      · cases examples with
        | some xs => simp at hx
        | none => rfl

/-- The entries an `add_knowledge` call can store: label of the right class, and an example if the oracle has examples. -/
def acceptable (ty : β → Nat) (o : Oracle χ β) (e : Entry χ β) : Bool :=
  decide (ty e.label = o.labelTy) && (o.exa2ind.isNone || e.ex.isSome)

theorem Knows.addOne {ty : β → Nat} {withEx withCost : Bool} {o : Oracle χ β} {log : List (Entry χ β)}
    (h : Knows withEx withCost o log) (e : Entry χ β) (hc : withCost = true → e.cost.isSome = true) :
    (acceptable ty o e = true → ∃ o', Oracle.addOne ty o e.label e.index e.ex e.cost = (o', none) ∧ o'.labelTy = o.labelTy ∧
      o'.exa2ind.isNone = o.exa2ind.isNone ∧ Knows withEx withCost o' (log ++ [e])) ∧
    (acceptable ty o e = false → ∃ err, Oracle.addOne ty o e.label e.index e.ex e.cost = (o, some err)) := by
  unfold acceptable
  constructor
  · intro ha
    simp only [Bool.and_eq_true, decide_eq_true_eq, Bool.or_eq_true] at ha
    obtain ⟨h1, h2⟩ := ha
    cases withEx with
    | true =>
      obtain ⟨d, d1, d2, d3⟩ := h.exs rfl
      rw [d1] at h2
      simp only [Option.isNone_some, Bool.false_eq_true, false_or] at h2
      obtain ⟨x, hx⟩ := Option.isSome_iff_exists.1 h2
      have hex : ∀ y, dictGet y (dictSet x e.index d) =
          (lastBy (fun e => decide (e.ex = some y)) (log ++ [e])).map (fun e => e.index) := by
        intro y
        rw [dictGet_dictSet, d3, lastBy_snoc, hx]
        by_cases hxy : y = x
        · subst hxy; simp
        · have : ¬ x = y := fun e => hxy e.symm
          simp [hxy, this]
      have hexm : ∀ a ∈ log ++ [e], a.ex.isSome = true := by
        intro a ha
        rcases List.mem_append.1 ha with ha | ha
        · exact d2 a ha
        · rw [List.mem_singleton] at ha; rw [ha, hx]; rfl
      cases withCost with
      | true =>
        obtain ⟨t, t1, t2, t3⟩ := h.costs rfl
        obtain ⟨c, hcc⟩ := Option.isSome_iff_exists.1 (hc rfl)
        refine ⟨⟨some (dictSet x e.index d), .cost (dictSet e.index (e.label, c) t), o.labelTy⟩,
          by simp only [Oracle.addOne, h1, ne_eq, not_true, if_false, d1, hx, t1, hcc], rfl, by simp [d1],
          fun _ => ⟨_, rfl, ?_, fun k => ?_⟩, by simp, fun _ => ⟨_, rfl, hexm, hex⟩, by simp⟩
        · intro a ha
          rcases List.mem_append.1 ha with ha | ha
          · exact t2 a ha
          · rw [List.mem_singleton] at ha; rw [ha, hcc]; rfl
        · rw [dictGet_dictSet, t3, lastBy_snoc]
          by_cases hk : k = e.index
          · simp [hk, hcc]
          · have : ¬ e.index = k := fun e => hk e.symm
            simp [hk, this]
      | false =>
        obtain ⟨t, t1, t3⟩ := h.plain rfl
        refine ⟨⟨some (dictSet x e.index d), .plain (dictSet e.index e.label t), o.labelTy⟩,
          by simp only [Oracle.addOne, h1, ne_eq, not_true, if_false, d1, hx, t1], rfl, by simp [d1],
          by simp, fun _ => ⟨_, rfl, fun k => ?_⟩, fun _ => ⟨_, rfl, hexm, hex⟩, by simp⟩
        rw [dictGet_dictSet, t3, lastBy_snoc]
        by_cases hk : k = e.index
        · simp [hk]
        · have : ¬ e.index = k := fun e => hk e.symm
          simp [hk, this]
    | false =>
      have d1 := h.noex rfl
      cases withCost with
      | true =>
        obtain ⟨t, t1, t2, t3⟩ := h.costs rfl
        obtain ⟨c, hcc⟩ := Option.isSome_iff_exists.1 (hc rfl)
        refine ⟨⟨none, .cost (dictSet e.index (e.label, c) t), o.labelTy⟩,
          by simp only [Oracle.addOne, h1, ne_eq, not_true, if_false, d1, t1, hcc], rfl, by simp [d1],
          fun _ => ⟨_, rfl, ?_, fun k => ?_⟩, by simp, by simp, fun _ => rfl⟩
        · intro a ha
          rcases List.mem_append.1 ha with ha | ha
          · exact t2 a ha
          · rw [List.mem_singleton] at ha; rw [ha, hcc]; rfl
        · rw [dictGet_dictSet, t3, lastBy_snoc]
          by_cases hk : k = e.index
          · simp [hk, hcc]
          · have : ¬ e.index = k := fun e => hk e.symm
            simp [hk, this]
      | false =>
        obtain ⟨t, t1, t3⟩ := h.plain rfl
        refine ⟨⟨none, .plain (dictSet e.index e.label t), o.labelTy⟩,
          by simp only [Oracle.addOne, h1, ne_eq, not_true, if_false, d1, t1], rfl, by simp [d1],
          by simp, fun _ => ⟨_, rfl, fun k => ?_⟩, by simp, fun _ => rfl⟩
        rw [dictGet_dictSet, t3, lastBy_snoc]
        by_cases hk : k = e.index
        · simp [hk]
        · have : ¬ e.index = k := fun e => hk e.symm
          simp [hk, this]
  · intro ha
    by_cases h1 : ty e.label = o.labelTy
    · simp only [h1, decide_true, Bool.true_and, Bool.or_eq_false_iff] at ha
      obtain ⟨ha1, ha2⟩ := ha
      obtain ⟨d, hd⟩ := Option.isSome_iff_exists.1 (by simpa using ha1)
      have hx : e.ex = none := by simpa using ha2
      exact ⟨.genericException, by simp [Oracle.addOne, h1, hd, hx]⟩
    · exact ⟨.typeError, by simp [Oracle.addOne, h1]⟩

theorem Knows.addAll {ty : β → Nat} {withEx withCost : Bool} : ∀ (es : List (Entry χ β)) {o : Oracle χ β} {log : List (Entry χ β)},
    Knows withEx withCost o log → (∀ e ∈ es, withCost = true → e.cost.isSome = true) →
    ∃ o' err, Oracle.addAll ty o es = (o', err) ∧ Knows withEx withCost o' (log ++ es.takeWhile (acceptable ty o)) ∧
      (err = none ↔ es.all (acceptable ty o) = true) := by
  intro es
  induction es with
  | nil => intro o log h _; exact ⟨o, none, rfl, by simpa using h, by simp⟩
  | cons e r ih =>
    intro o log h hc
    obtain ⟨h1, h2⟩ := h.addOne (ty := ty) e (hc e (by simp))
    cases ha : acceptable ty o e with
    | true =>
      obtain ⟨o', g1, g2, g3, g4⟩ := h1 ha
      have hacc : acceptable ty o' = acceptable ty o := by
        funext x; simp [acceptable, g2, g3]
      obtain ⟨o2, err, k1, k2, k3⟩ := ih g4 (fun x hx => hc x (by simp [hx]))
      rw [hacc] at k2 k3
      refine ⟨o2, err, by simp [Oracle.addAll, g1, k1], ?_, by simpa [ha] using k3⟩
      simpa [List.takeWhile_cons, ha] using k2
    | false =>
      obtain ⟨err, g1⟩ := h2 ha
      exact ⟨o, some err, by simp [Oracle.addAll, g1], by simpa [List.takeWhile_cons, ha] using h, by simp [ha]⟩

theorem entries_reads : ∀ {log : List (Entry χ β)} {labels : List β} {indexes : List Key} {examples : Option (List χ)}
    {cost : Option (List ℚ)}, Reads log labels indexes examples cost → entries labels indexes examples cost = log := by
  intro log
  induction log with
  | nil =>
    rintro labels indexes examples cost ⟨rfl, rfl, -, -⟩
    simp [entries]
  | cons e r ih =>
    rintro labels indexes examples cost ⟨rfl, rfl, h3, h4⟩
    simp only [List.map_cons, entries]
    have h5 : examples.bind List.head? = e.ex ∧
        (match examples.map List.tail with | none => ∀ e ∈ r, e.ex = none | some xs => r.map Entry.ex = xs.map some) := by
      cases examples with
      | none => exact ⟨(h3 e (by simp)).symm, fun a ha => h3 a (by simp [ha])⟩
      | some xs =>
        cases xs with
        | nil => simp at h3
        | cons x xs =>
          simp only [List.map_cons, List.cons.injEq] at h3
          exact ⟨by simp [h3.1], by simpa using h3.2⟩
    have h6 : cost.bind List.head? = e.cost ∧
        (match cost.map List.tail with | none => ∀ e ∈ r, e.cost = none | some xs => r.map Entry.cost = xs.map some) := by
      cases cost with
      | none => exact ⟨(h4 e (by simp)).symm, fun a ha => h4 a (by simp [ha])⟩
      | some xs =>
        cases xs with
        | nil => simp at h4
        | cons x xs =>
          simp only [List.map_cons, List.cons.injEq] at h4
          exact ⟨by simp [h4.1], by simpa using h4.2⟩
    rw [h5.1, h6.1, ih ⟨rfl, rfl, h5.2, h6.2⟩]

theorem reads_lengths {log : List (Entry χ β)} {labels : List β} {indexes : List Key} {examples : Option (List χ)}
    {cost : Option (List ℚ)} (h : Reads log labels indexes examples cost) :
    sameLength labels.length (some indexes) = true ∧ sameLength labels.length examples = true ∧
    sameLength labels.length cost = true := by
  obtain ⟨rfl, rfl, h3, h4⟩ := h
  refine ⟨by simp [sameLength], ?_, ?_⟩
  · cases examples with
    | none => rfl
    | some xs => have := congrArg List.length h3; simpa [sameLength] using this.symm
  · cases cost with
    | none => rfl
    | some xs => have := congrArg List.length h4; simpa [sameLength] using this.symm

end Oracle
end Alipy
