import Verif.Props.IndexCollection
import Verif.Props.Oracle
import Verif.Props.Repository
import Verif.Props.RepositoryMatrix
import Verif.Props.StateIO
import Mathlib.Data.List.Perm.Basic
/-!
# C146: the order in which things are given does not matter
-/
namespace Alipy.AnyOrder
open Alipy.Spec

/-! ## Collections -/

theorem add_ety {c : IC} {t : Ty} (h : c.ety = some t) (v : Val) : (c.add v).1.ety = some t ∧ ((c.add v).2 = none ↔ isInstance v.item t = true) := by
  unfold IC.add
  simp only [h]
  by_cases h1 : isInstance v.item t = true
  · simp only [h1, Bool.not_true, Bool.false_eq_true, if_false]
    split_ifs <;> simp [h]
  · simp [h1, h]

theorem addAll_ok_iff {t : Ty} : ∀ (vs : List Val) (c : IC), c.ety = some t → ((c.addAll vs).2 = none ↔ ∀ v ∈ vs, isInstance v.item t = true)
  | [], c, _ => by simp [IC.addAll]
  | v :: vs, c, h => by
    obtain ⟨h1, h2⟩ := add_ety h v
    rw [IC.addAll]
    revert h1 h2
    rcases c.add v with ⟨c', _ | e⟩
    · intro h1 h2
      simp only [true_iff] at h2
      simp only
      rw [addAll_ok_iff vs c' h1]
      simp [h2]
    · intro h1 h2
      simp only [reduceCtorEq, false_iff] at h2
      simp [h2]

/-- **C146**: indexes may be added and taken away in any order. The same lists of indexes are refused once the type of the indexes is fixed; in an empty collection the first
index given fixes it. -/
theorem C146_collections {c : IC} (h : IC.Reachable c) {vs ws : List Val} (hp : vs.Perm ws) :
    ((c.update (.many vs)).2 = none → (c.update (.many ws)).2 = none → ((c.update (.many vs)).1.keys).Perm (c.update (.many ws)).1.keys) ∧
    (∀ t, c.ety = some t → ((c.update (.many vs)).2 = none ↔ (c.update (.many ws)).2 = none)) ∧
    (c.differenceUpdate (.many vs)).keys = (c.differenceUpdate (.many ws)).keys := by
  refine ⟨fun h1 h2 => ?_, fun t ht => ?_, ?_⟩
  · refine (List.perm_ext_iff_of_nodup (IC.reachable_nodup (IC.Reachable.step (.update (.many vs)) h)) (IC.reachable_nodup (IC.Reachable.step (.update (.many ws)) h))).2 ?_
    intro k
    change k ∈ (c.update (.many vs)).1.keys ↔ k ∈ (c.update (.many ws)).1.keys
    rw [(C03_update_appends_in_order c h vs h1).1, (C03_update_appends_in_order c h ws h2).1]
    simp [hp.mem_iff]
  · change (c.addAll vs).2 = none ↔ (c.addAll ws).2 = none
    rw [addAll_ok_iff vs c ht, addAll_ok_iff ws c ht]
    simp [hp.mem_iff]
  · rw [C03_difference_keeps_order c h vs, C03_difference_keeps_order c h ws]
    have : ∀ k, k ∈ vs.map Val.key ↔ k ∈ ws.map Val.key := fun k => (hp.map _).mem_iff
    simp only [this]

/-- Three indexes in two orders, into a collection of two. -/
example : IC.Reachable (IC.mk' [⟨false, .int 0⟩, ⟨false, .int 1⟩]) ∧
    ((IC.mk' [⟨false, .int 0⟩, ⟨false, .int 1⟩]).update (.many [⟨false, .int 5⟩, ⟨true, .int 1⟩, ⟨false, .int 4⟩])).1.keys = [.num 0, .num 1, .num 5, .num 4] ∧
    ((IC.mk' [⟨false, .int 0⟩, ⟨false, .int 1⟩]).update (.many [⟨false, .int 4⟩, ⟨false, .int 5⟩, ⟨true, .int 1⟩])).1.keys = [.num 0, .num 1, .num 4, .num 5] :=
  ⟨IC.Reachable.construct _, by decide, by decide⟩

/-- In an empty collection the order can matter: `[1, True]` is accepted, `[True, 1]` is refused. -/
example : (IC.empty.update (.many [⟨false, .int 1⟩, ⟨false, .bool true⟩])).2 = none ∧ (IC.empty.update (.many [⟨false, .bool true⟩, ⟨false, .int 1⟩])).2 = some .typeError := by
  constructor <;> decide

/-! ## Saved states -/

section
variable {κ ε σ α : Type} {ops : CollOps κ ε σ} {elems : κ → List α} {means : σ → α → Prop} {goodL goodU : κ → Prop} {legal : σ → Prop}

/-- **C146**: the workspace of an experiment holds the same entries in whatever order its states are kept. -/
theorem C146_workspace (law : SetLaw ops elems means goodL goodU legal) {s s' : StateIO κ σ} {sel : List σ} (hrec : Recorded s.states sel)
    (hlegal : ∀ x ∈ sel, legal x) (hL : goodL s.initL) (hU : goodU s.initU) (eL : s'.initL = s.initL) (eU : s'.initU = s.initU) (hp : s'.states.Perm s.states) :
    ∃ w w', s.getWorkspace ops none = .ok w ∧ s'.getWorkspace ops none = .ok w' ∧ (elems w.1).Perm (elems w'.1) ∧ (elems w.2).Perm (elems w'.2) := by
  obtain ⟨sel', hrec', hsel⟩ := List.perm_comp_forall₂ hp hrec
  obtain ⟨w, hw, n1, n2, m1, m2⟩ := (StateIO.C16_workspace_is_replay law s sel hrec hlegal hL hU).2.1
  obtain ⟨w', hw', n1', n2', m1', m2'⟩ := (StateIO.C16_workspace_is_replay law s' sel' hrec' (fun x hx => hlegal x (hsel.mem_iff.1 hx)) (eL ▸ hL) (eU ▸ hU)).2.1
  refine ⟨w, w', hw, hw', (List.perm_ext_iff_of_nodup n1 n1').2 fun a => ?_, (List.perm_ext_iff_of_nodup n2 n2').2 fun a => ?_⟩
  · rw [m1, m1', eL]
    simp [hsel.mem_iff]
  · rw [m2, m2', eU]
    simp [hsel.mem_iff]

theorem totals_iff (ops : CollOps κ ε σ) (l : List (Entry σ)) (r : Nat × ℚ) : StateIO.totals ops l = .ok r ↔
    ∃ ns : List (Nat × ℚ), List.Forall₂ (fun e p => StateIO.entryLen ops e = .ok p.1 ∧ StateIO.entryCost e = .ok p.2) l ns ∧ r = ((ns.map Prod.fst).sum, (ns.map Prod.snd).sum) := by
  induction l generalizing r with
  | nil => simp [StateIO.totals, eq_comm]
  | cons e es ih =>
    rw [StateIO.totals]
    cases h1 : StateIO.entryLen ops e with
    | error err => simp [List.forall₂_cons_left_iff, h1]
    | ok n =>
      cases h2 : StateIO.entryCost e with
      | error err => simp [List.forall₂_cons_left_iff, h2]
      | ok c =>
        simp only [List.forall₂_cons_left_iff, h1, h2]
        cases h3 : StateIO.totals ops es with
        | error err =>
          simp only [reduceCtorEq, false_iff, not_exists, not_and]
          rintro ns ⟨b, u, -, hu, -⟩ -
          have := (ih _).2 ⟨u, hu, rfl⟩
          rw [h3] at this
          cases this
        | ok md =>
          obtain ⟨ns, hns, hmd⟩ := (ih md).1 h3
          constructor
          · intro h
            cases h
            refine ⟨(n, c) :: ns, ⟨(n, c), ns, ⟨rfl, rfl⟩, hns, rfl⟩, ?_⟩
            simp [hmd]
          · rintro ⟨l, ⟨b, u, ⟨hb1, hb2⟩, hu, rfl⟩, hr⟩
            have := (ih _).2 ⟨u, hu, rfl⟩
            rw [h3] at this
            cases this
            cases hb1
            cases hb2
            simp [hr]

/-- **C146**: so are the total cost and the number of labels. -/
theorem C146_totals (ops : CollOps κ ε σ) {s s' : StateIO κ σ} (hp : s'.states.Perm s.states) (hok : (s.refreshInfo ops).2 = none) :
    (s'.refreshInfo ops).2 = none ∧ (s'.refreshInfo ops).1.cost = (s.refreshInfo ops).1.cost ∧ (s'.refreshInfo ops).1.numq = (s.refreshInfo ops).1.numq := by
  unfold StateIO.refreshInfo at hok ⊢
  cases h : StateIO.totals ops s.states with
  | error e => simp [h] at hok
  | ok r =>
    obtain ⟨ns, hns, rfl⟩ := (totals_iff ops _ _).1 h
    obtain ⟨ns', hns', hperm⟩ := List.perm_comp_forall₂ hp hns
    have : StateIO.totals ops s'.states = .ok ((ns.map Prod.fst).sum, (ns.map Prod.snd).sum) := by
      refine (totals_iff ops _ _).2 ⟨ns', hns', ?_⟩
      rw [(hperm.map Prod.fst).sum_eq, (hperm.map Prod.snd).sum_eq]
    rw [this]
    simp

end

/-- The two states of `StateIO.demo` in the other order. -/
example : ∃ w w', StateIO.demo.getWorkspace icOps none = .ok w ∧ ({ StateIO.demo with states := StateIO.demo.states.reverse } : StateIO IC (List Val)).getWorkspace icOps none = .ok w' ∧
    w.1.keys.Perm w'.1.keys ∧ w.2.keys.Perm w'.2.keys :=
  C146_workspace (icLaw ⟨false, .int⟩) (s' := { StateIO.demo with states := StateIO.demo.states.reverse }) StateIO.demo_recorded (by decide)
    ⟨IC.Reachable.construct [⟨false, .int 0⟩, ⟨false, .int 1⟩], rfl⟩ (IC.Reachable.construct [⟨false, .int 2⟩, ⟨false, .int 3⟩, ⟨false, .int 4⟩]) rfl rfl
    (List.reverse_perm _)

example : (StateIO.demo.refreshInfo icOps).2 = none ∧ StateIO.demo.states.length = 2 := ⟨rfl, rfl⟩

/-! ## Oracles -/

section
variable {χ β : Type}

theorem mostRecent_nodup {α κ : Type} {log : List α} {key : α → κ} (h : (log.map key).Nodup) {k : κ} {a : α} (ha : a ∈ log) (hk : key a = k) : MostRecent log key k a := by
  obtain ⟨pre, post, rfl⟩ := List.append_of_mem ha
  refine ⟨pre, post, rfl, hk, fun b hb e => ?_⟩
  rw [List.map_append, List.map_cons, List.nodup_append] at h
  exact (List.nodup_cons.1 h.2.1).1 (List.mem_map.2 ⟨b, hb, e.trans hk.symm⟩)

/-- **C146**: two oracles that were told the same about different indexes, in whatever order and with however many calls, give the same answers to everything. -/
theorem C146_oracles [DecidableEq χ] {ty ty' : β → Nat} {withEx withEx' withCost : Bool} {o o' : Oracle χ β} {log log' : List (Oracle.Entry χ β)}
    (h : Oracle.Hist ty withEx withCost o log) (h' : Oracle.Hist ty' withEx' withCost o' log') (hp : log.Perm log') (hn : (log.map Oracle.Entry.index).Nodup)
    (q : List Key) : o'.queryByIndex q = o.queryByIndex q := by
  have hask : ∀ k, o'.ask k = o.ask k := by
    intro k
    by_cases hk : ∃ e ∈ log, e.index = k
    · obtain ⟨e, he, hek⟩ := hk
      obtain ⟨c, h1, h2⟩ := Oracle.ask_known h (mostRecent_nodup hn he hek)
      obtain ⟨c', h1', h2'⟩ := Oracle.ask_known h' (mostRecent_nodup ((hp.map _).nodup_iff.1 hn) (hp.mem_iff.1 he) hek)
      have : c' = c := by
        cases withCost with
        | true =>
          simp only [Oracle.Charges, if_true] at h2 h2'
          rw [h2] at h2'
          exact (Option.some.inj h2').symm
        | false =>
          simp only [Oracle.Charges, Bool.false_eq_true, if_false] at h2 h2'
          rw [h2, h2']
      rw [h1, h1', this]
    · push Not at hk
      rw [Oracle.ask_unknown h hk, Oracle.ask_unknown h' (fun e he => hk e (hp.mem_iff.2 he))]
  induction q with
  | nil => rfl
  | cons k q ih => rw [Oracle.queryByIndex, Oracle.queryByIndex, hask, ih]

/-- Three labels given at once, and the same given one by one in another order. -/
example : ∃ (o o' : Oracle Nat String) (log log' : List (Oracle.Entry Nat String)), Oracle.Hist (fun _ => 0) false true o log ∧ Oracle.Hist (fun _ => 0) false true o' log' ∧
    log.Perm log' ∧ (log.map Oracle.Entry.index).Nodup ∧ o ≠ o' := by
  refine ⟨_, _, [⟨.num 4, "a", none, some 1⟩, ⟨.num 5, "b", none, some 2⟩], _,
    Oracle.Hist.new (labels := ["a", "b"]) (examples := none) (indexes := some [.num 4, .num 5]) (cost := some [1, 2]) rfl rfl rfl ⟨rfl, rfl, by simp, rfl⟩,
    Oracle.Hist.add (more := [⟨.num 4, "a", none, some 1⟩]) (labels := ["a"]) (indexes := [.num 4]) (examples := none) (cost := some [1]) (err := none)
      (Oracle.Hist.new (labels := ["b"]) (examples := none) (indexes := some [.num 5]) (cost := some [2]) (log := [⟨.num 5, "b", none, some 2⟩]) rfl rfl rfl ⟨rfl, rfl, by simp, rfl⟩)
      ⟨rfl, rfl, by simp, rfl⟩ (fun _ => rfl) rfl, ?_, by decide, by decide⟩
  exact List.Perm.swap _ _ _

theorem query_iff (o : Oracle χ β) : ∀ (q : List Key) (as : List (β × ℚ)),
    o.queryByIndex q = .ok (as.map Prod.fst, as.map Prod.snd) ↔ List.Forall₂ (fun k a => o.ask k = .ok a) q as
  | [], as => by
    cases as <;> simp [Oracle.queryByIndex]
  | k :: q, as => by
    rw [Oracle.queryByIndex, List.forall₂_cons_left_iff]
    cases ha : o.ask k with
    | error e => simp
    | ok a =>
      have key : ∀ r, o.queryByIndex q = .ok r → ∃ bs : List (β × ℚ), r = (bs.map Prod.fst, bs.map Prod.snd) := by
        clear ha as
        induction q with
        | nil => intro r h; simp [Oracle.queryByIndex] at h; exact ⟨[], by simp [← h]⟩
        | cons k q ih =>
          intro r h
          rw [Oracle.queryByIndex] at h
          cases h1 : o.ask k with
          | error e => simp [h1] at h
          | ok a =>
            cases h2 : o.queryByIndex q with
            | error e => simp [h1, h2] at h
            | ok p =>
              obtain ⟨bs, rfl⟩ := ih p h2
              simp only [h1, h2, Except.ok.injEq] at h
              exact ⟨a :: bs, by simp [← h]⟩
      cases hq : o.queryByIndex q with
      | error e =>
        simp only [reduceCtorEq, false_iff, not_exists, not_and]
        rintro b u - hu -
        have := (query_iff o q u).2 hu
        rw [hq] at this
        cases this
      | ok r =>
        obtain ⟨bs, rfl⟩ := key r hq
        have hbs := (query_iff o q bs).1 hq
        constructor
        · intro h
          cases as with
          | nil => simp at h
          | cons b as =>
            simp only [List.map_cons, Except.ok.injEq, Prod.mk.injEq, List.cons.injEq] at h
            obtain ⟨⟨e1, e2⟩, e3, e4⟩ := h
            have hb : b = a := Prod.ext e1.symm e3.symm
            subst hb
            refine ⟨b, as, rfl, (query_iff o q as).1 (by rw [hq, e2, e4]), rfl⟩
        · rintro ⟨b, u, hb, hu, rfl⟩
          cases hb
          have := (query_iff o q u).2 hu
          rw [hq] at this
          simp only [Except.ok.injEq, Prod.mk.injEq] at this
          simp [this]

/-- **C146**: what is asked in another order is answered in that order: each index gets the label and the cost it would have got. -/
theorem C146_questions (o : Oracle χ β) {q r : List Key} (hp : r.Perm q) {as : List (β × ℚ)} (h : o.queryByIndex q = .ok (as.map Prod.fst, as.map Prod.snd)) :
    ∃ bs : List (β × ℚ), o.queryByIndex r = .ok (bs.map Prod.fst, bs.map Prod.snd) ∧ bs.length = r.length ∧ as.length = q.length ∧ (r.zip bs).Perm (q.zip as) := by
  have hf := (query_iff o q as).1 h
  have hz : List.Forall₂ (fun k (p : Key × β × ℚ) => p.1 = k ∧ o.ask k = .ok p.2) q (q.zip as) := by
    clear hp h
    induction hf with
    | nil => exact .nil
    | cons h1 _ ih => exact .cons ⟨rfl, h1⟩ ih
  obtain ⟨zs, hzs, hperm⟩ := List.perm_comp_forall₂ hp hz
  have hr : zs.map Prod.fst = r ∧ List.Forall₂ (fun k a => o.ask k = .ok a) r (zs.map Prod.snd) := by
    clear hperm hp
    induction hzs with
    | nil => exact ⟨rfl, .nil⟩
    | cons h1 _ ih => exact ⟨by simp [ih.1, h1.1], .cons h1.2 ih.2⟩
  refine ⟨zs.map Prod.snd, (query_iff o r _).2 hr.2, hr.2.length_eq.symm, hf.length_eq.symm, ?_⟩
  have : r.zip (zs.map Prod.snd) = zs := by
    rw [← hr.1, List.zip_map']
    simp
  rw [this]
  exact hperm

end

example : Oracle.demo.queryByIndex [.num 1, .num 7] = .ok (["z", "d"], [5, 4]) ∧ Oracle.demo.queryByIndex [.num 7, .num 1] = .ok (["d", "z"], [4, 5]) := ⟨rfl, rfl⟩

/-! ## Repositories -/

section
variable {κ β χ : Type} [DecidableEq κ] [DecidableEq χ]

theorem rows_same {κ β χ : Type} {rows : List (Row κ β χ)} (hn : (rows.map Row.index).Nodup) : ∀ {rs rs' : List (Row κ β χ)}, (∀ r ∈ rs, r ∈ rows) → (∀ r ∈ rs', r ∈ rows) →
    rs.map Row.index = rs'.map Row.index → rs = rs'
  | [], [], _, _, _ => rfl
  | [], _ :: _, _, _, h => by simp at h
  | _ :: _, [], _, _, h => by simp at h
  | a :: rs, b :: rs', h1, h2, h => by
    simp only [List.map_cons, List.cons.injEq] at h
    have hab : a = b := List.inj_on_of_nodup_map hn (h1 a (by simp)) (h2 b (by simp)) h.1
    rw [hab, rows_same hn (fun r hr => h1 r (by simp [hr])) (fun r hr => h2 r (by simp [hr])) h.2]

/-- **C146**: two repositories holding the same rows, in whatever order these were stored and others were discarded, know the same indexes, return the same labels and
examples, and their training data are the same up to the order of the rows. -/
theorem C146_repositories {w : Bool} {o o' : ERepo κ β χ} {rows rows' : List (Row κ β χ)} (h : ERepo.Hist w o rows) (h' : ERepo.Hist w o' rows') (hp : rows'.Perm rows) :
    (∀ k, o'.contains k = o.contains k) ∧ (∀ ks, o'.retrieveByIndexes ks = o.retrieveByIndexes ks) ∧
    (∃ l l' : List (Row κ β χ), l'.Perm l ∧ o.getTrainingData = .ok (l.filterMap Row.ex, l.map Row.label, l.map Row.index) ∧
      o'.getTrainingData = .ok (l'.filterMap Row.ex, l'.map Row.label, l'.map Row.index)) := by
  refine ⟨fun k => ?_, fun ks => ?_, rows, rows', hp, (ERepo.C29_training_data_partial h).1, (ERepo.C29_training_data_partial h').1⟩
  · rw [Bool.eq_iff_iff, (ERepo.C29_contains_and_discard h').1, (ERepo.C29_contains_and_discard h).1]
    exact (hp.map _).mem_iff
  · obtain ⟨rs, a1, a2, a3⟩ := ERepo.C29_retrieve_by_indexes_partial h ks
    obtain ⟨rs', b1, b2, b3⟩ := ERepo.C29_retrieve_by_indexes_partial h' ks
    have hm : ∀ k, k ∈ rows'.map Row.index ↔ k ∈ rows.map Row.index := fun k => (hp.map _).mem_iff
    have : rs' = rs := by
      refine rows_same (ERepo.C29_training_data_partial h).2.1 (fun r hr => hp.mem_iff.1 (b1 r hr)) a1 ?_
      rw [a2, b2]
      simp only [hm]
    rw [a3, b3, this]

/-- **C146**: the same for retrieving by examples. -/
theorem C146_repositories_examples {o o' : ERepo κ β χ} {rows rows' : List (Row κ β χ)} (h : ERepo.Hist true o rows) (h' : ERepo.Hist true o' rows') (hp : rows'.Perm rows)
    (xs : List χ) : o'.retrieveByExamples xs = o.retrieveByExamples xs := by
  have hne : ∀ r ∈ rows, ∀ s ∈ rows, r.ex = s.ex → r = s := by
    intro r hr s hs e
    have hh := h.holds
    obtain ⟨x, hx⟩ := hh.ex rfl r hr
    have h1 := (hh.e2i rfl r.index x).2 ⟨r, hr, rfl, hx⟩
    have h2 := (hh.e2i rfl s.index x).2 ⟨s, hs, rfl, e ▸ hx⟩
    rw [h1] at h2
    exact List.inj_on_of_nodup_map (ERepo.C29_training_data_partial h).2.1 hr hs (Option.some.inj h2)
  obtain ⟨rs, a1, a2, a3⟩ := ERepo.C29_retrieve_by_examples_partial h xs
  obtain ⟨rs', b1, b2, b3⟩ := ERepo.C29_retrieve_by_examples_partial h' xs
  have hm : ∀ x, x ∈ rows'.map Row.ex ↔ x ∈ rows.map Row.ex := fun x => (hp.map _).mem_iff
  have : rs' = rs := by
    have e : rs'.map Row.ex = rs.map Row.ex := by rw [a2, b2]; simp only [hm]
    have b1' : ∀ r ∈ rs', r ∈ rows := fun r hr => hp.mem_iff.1 (b1 r hr)
    clear a2 a3 b1 b2 b3
    induction rs' generalizing rs with
    | nil => cases rs with
      | nil => rfl
      | cons _ _ => simp at e
    | cons b rs' ih =>
      cases rs with
      | nil => simp at e
      | cons a rs =>
        simp only [List.map_cons, List.cons.injEq] at e
        rw [hne b (b1' b (by simp)) a (a1 a (by simp)) e.1, ih rs (fun r hr => a1 r (by simp [hr])) e.2 (fun r hr => b1' r (by simp [hr]))]
  rw [a3, b3, this]

end

section
variable {κ γ : Type} [DecidableEq κ] [DecidableEq γ]

/-- Two rows given to the constructor, and the same added in the other order. -/
example : ∃ o o' : ERepo Nat String (List Nat), ERepo.Hist true o [⟨11, "a", some [1, 1]⟩, ⟨32, "b", some [2, 2]⟩] ∧
    ERepo.Hist true o' [⟨32, "b", some [2, 2]⟩, ⟨11, "a", some [1, 1]⟩] ∧ o.indexes ≠ o'.indexes := by
  refine ⟨_, _, .new ["a", "b"] [11, 32] (some [[1, 1], [2, 2]]) rfl ?_ ?_ rfl,
    .add (rows := [⟨32, "b", some [2, 2]⟩]) ⟨11, "a", some [1, 1]⟩ (some 3) (.new ["b"] [32] (some [[2, 2]]) rfl ?_ ?_ rfl) ?_ rfl, by decide⟩
  · simp [RowsOf]
  · simp [NoClash]
  · simp [RowsOf]
  · simp [NoClash]
  · simp [NoClash, keep]

/-- **C146**: two matrix repositories made of the same rows in another order return the same labels and examples for the same indexes. -/
theorem C146_matrix_repositories {rows rows' : List (Row κ (Lab γ) (List γ))} (hp : rows'.Perm rows) (hn : (rows.map Row.index).Nodup)
    {labels labels' : List (Lab γ)} {indexes indexes' : List κ} {examples examples' : Option (List (List γ))}
    (hr : RowsOf rows labels indexes examples) (hr' : RowsOf rows' labels' indexes' examples') (hs : examples'.isSome = examples.isSome)
    {o o' : MRepo κ γ} (h : MRepo.new labels indexes examples = .ok o) (h' : MRepo.new labels' indexes' examples' = .ok o')
    {ks : List κ} (hk : ∀ k ∈ ks, k ∈ indexes) : o'.retrieveByIndexes (.many ks) = o.retrieveByIndexes (.many ks) := by
  have e1 := hr.2.1
  have e1' := hr'.2.1
  obtain ⟨l, l1, ⟨X, l2⟩, l3⟩ := MRepo.C30_retrieve_partial (MRepo.Hist.new labels indexes examples rfl hr (e1 ▸ hn) h)
  obtain ⟨l', l1', ⟨X', l2'⟩, l3'⟩ := MRepo.C30_retrieve_partial (MRepo.Hist.new labels' indexes' examples' hs hr' (e1' ▸ ((hp.map _).nodup_iff.2 hn)) h')
  obtain ⟨Y, y1, -⟩ := MRepo.C30_constructor_stores hr (e1 ▸ hn) h
  obtain ⟨Y', y1', -⟩ := MRepo.C30_constructor_stores hr' (e1' ▸ ((hp.map _).nodup_iff.2 hn)) h'
  rw [l2] at y1
  rw [l2'] at y1'
  simp only [Option.some.injEq, Prod.mk.injEq] at y1 y1'
  have hl : l = rows := rows_same hn l1 (fun _ h => h) y1.2.2
  have hl' : l' = rows' := rows_same ((hp.map _).nodup_iff.2 hn) l1' (fun _ h => h) y1'.2.2
  subst hl hl'
  have hrs : ∃ rs : List (Row κ (Lab γ) (List γ)), (∀ r ∈ rs, r ∈ l) ∧ rs.map Row.index = ks := by
    clear l3 l3'
    induction ks with
    | nil => exact ⟨[], by simp, rfl⟩
    | cons k ks ih =>
      obtain ⟨rs, i1, i2⟩ := ih (fun k hk' => hk k (by simp [hk']))
      have := hk k (by simp)
      rw [← e1] at this
      obtain ⟨r, hrl, rfl⟩ := List.mem_map.1 this
      exact ⟨r :: rs, by simpa [hrl] using i1, by simp [i2]⟩
  obtain ⟨rs, i1, rfl⟩ := hrs
  obtain ⟨Z, z1, z2, z3⟩ := l3 rs i1
  obtain ⟨Z', z1', z2', z3'⟩ := l3' rs (fun r hr => hp.mem_iff.2 (i1 r hr))
  have hZ : Z' = Z := by
    cases hw : examples.isSome with
    | false => rw [z2 hw, z2' hw]
    | true =>
      obtain ⟨xs, rfl, hx⟩ := z3 hw
      obtain ⟨xs', rfl, hx'⟩ := z3' hw
      rw [← hx] at hx'
      rw [List.map_injective_iff.2 (Option.some_injective _) hx']
  rw [z1, z1', hZ]

example : ∃ o o' : MRepo Nat Nat, MRepo.new [.sc 1, .sc 2] [11, 32] (some [[1, 1], [2, 2]]) = .ok o ∧ MRepo.new [.sc 2, .sc 1] [32, 11] (some [[2, 2], [1, 1]]) = .ok o' ∧
    o.retrieveByIndexes (.many [32, 11]) = .ok (some [[2, 2], [1, 1]], [.sc 2, .sc 1]) ∧ o'.retrieveByIndexes (.many [32, 11]) = .ok (some [[2, 2], [1, 1]], [.sc 2, .sc 1]) :=
  ⟨_, _, rfl, rfl, rfl, rfl⟩

end

end Alipy.AnyOrder
