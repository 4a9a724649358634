import Verif.Model.History
import Verif.Spec.History
import Verif.Props.Oracles
import Verif.Props.RepositoryCost
/-!
# C116: the tables of past queries
-/
set_option linter.unusedSimpArgs false
namespace Alipy
namespace Oracles
variable {β ι : Type}
open Spec

theorem dictSet_mem {κ ν : Type} [DecidableEq κ] (k : κ) (v : ν) (p : κ × ν) : ∀ (d : List (κ × ν)), p ∈ dictSet k v d → p = (k, v) ∨ p ∈ d := by
  intro d
  induction d with
  | nil => intro h; simp [dictSet] at h; exact .inl h
  | cons q r ih =>
    obtain ⟨a, b⟩ := q
    intro h
    by_cases e : a = k
    · subst e
      simp only [dictSet, if_true, List.mem_cons] at h ⊢
      rcases h with h | h
      · exact .inl h
      · exact .inr (.inr h)
    · simp only [dictSet, e, if_false, List.mem_cons] at h ⊢
      rcases h with h | h
      · exact .inr (.inl h)
      · rcases ih h with h | h
        · exact .inl h
        · exact .inr (.inr h)

theorem dictOfList_fold {κ ν : Type} [DecidableEq κ] (l : List (κ × ν)) : ∀ d : List (κ × ν),
    (∀ p ∈ l.foldl (fun d p => dictSet p.1 p.2 d) d, p ∈ l ∨ p ∈ d) ∧
    (∀ k, k ∈ (l.foldl (fun d p => dictSet p.1 p.2 d) d).map Prod.fst ↔ k ∈ l.map Prod.fst ∨ k ∈ d.map Prod.fst) := by
  induction l with
  | nil => intro d; simp
  | cons q r ih =>
    intro d
    obtain ⟨i1, i2⟩ := ih (dictSet q.1 q.2 d)
    constructor
    · intro p hp
      rw [List.foldl_cons] at hp
      rcases i1 p hp with h | h
      · exact .inl (List.mem_cons_of_mem _ h)
      · rcases dictSet_mem _ _ _ _ h with h | h
        · exact .inl (by rw [h]; exact List.mem_cons_self ..)
        · exact .inr h
    · intro k
      rw [List.foldl_cons, i2 k, dictSet_keys, List.map_cons, List.mem_cons]
      split
      · rename_i hq
        constructor
        · rintro (h | h)
          · exact .inl (.inr h)
          · exact .inr h
        · rintro ((h | h) | h)
          · exact .inr (h ▸ hq)
          · exact .inl h
          · exact .inr h
      · simp only [List.mem_append, List.mem_singleton]
        tauto

theorem nameDict_spec (ns : List String) (n : String) :
    (n ∉ ns ∧ dictGet n (nameDict ns) = none) ∨ ∃ i, dictGet n (nameDict ns) = some i ∧ ns[i]? = some n := by
  obtain ⟨h1, h2⟩ := dictOfList_fold ns.zipIdx []
  cases h : dictGet n (nameDict ns) with
  | none =>
    left
    refine ⟨?_, rfl⟩
    rw [dictGet_eq_none] at h
    intro hn
    apply h
    unfold nameDict dictOfList
    rw [h2]
    left
    simpa using hn
  | some i =>
    right
    refine ⟨i, rfl, ?_⟩
    have := mem_of_dictGet h
    rcases h1 _ this with h | h
    · rw [List.mem_zipIdx_iff_getElem?] at h
      exact h
    · simp at h

theorem modify_map {names : List String} (hn : names.Nodup) {n : String} (f : String → Nat) :
    (names.map f).modify (names.idxOf n) (· + 1) = names.map (fun m => f m + if m = n then 1 else 0) := by
  apply List.ext_getElem
  · simp
  · intro i h1 h2
    rw [List.getElem_modify]
    simp only [List.length_map] at h2
    simp only [List.getElem_map]
    by_cases e : names.idxOf n = i
    · subst e
      rw [if_pos rfl, List.getElem_idxOf, if_pos rfl]
    · rw [if_neg e]
      have : names[i] ≠ n := by
        intro he
        apply e
        rw [← he]
        exact hn.idxOf_getElem i h2
      rw [if_neg this, Nat.add_zero]

theorem countNames_ok {names : List String} (hn : names.Nodup) : ∀ (ns : List String) (f : String → Nat), (∀ n ∈ ns, n ∈ names) →
    countNames names (names.map f) ns = .ok (names.map (fun m => f m + ns.count m)) := by
  intro ns
  induction ns with
  | nil => intro f _; simp [countNames]
  | cons n r ih =>
    intro f h
    rw [countNames, if_pos (h n (by simp)), modify_map hn, ih _ (fun m hm => h m (by simp [hm]))]
    congr 1
    apply List.map_congr_left
    intro m _
    rw [List.count_cons]
    by_cases e : m = n
    · subst e; simp; omega
    · have e' : ¬ n = m := fun h => e h.symm
      simp [e, e']

/-- What a cell should show. -/
noncomputable def cellOf (e : Asked β ι) (n : String) : HistCell β ι :=
  match dictGet n e.answers with
  | none => .blank
  | some a => .asked e.query a.labels a.costs

def recordOf (e : Asked β ι) : Record β ι := ⟨e.answers.map Prod.fst, e.answers.map Prod.snd, e.query⟩

theorem histCell_ok {e : Asked β ι} (he : ∀ n a b, (n, a) ∈ e.answers → (n, b) ∈ e.answers → a = b) (n : String) : histCell (recordOf e) n = .ok (cellOf e n) := by
  unfold histCell cellOf
  rcases nameDict_spec (recordOf e).names n with ⟨h1, h2⟩ | ⟨i, h1, h2⟩
  · rw [h2, (dictGet_eq_none n e.answers).2 h1]
  · rw [h1]
    simp only [recordOf] at h2 ⊢
    rw [List.getElem?_map, Option.map_eq_some_iff] at h2
    obtain ⟨p, hp, rfl⟩ := h2
    rw [List.getElem?_map, hp]
    simp only [Option.map_some]
    have hmem : (p.1, p.2) ∈ e.answers := List.mem_of_getElem? hp
    cases hd : dictGet p.1 e.answers with
    | none => rw [dictGet_eq_none] at hd; exact absurd (List.mem_map_of_mem (f := Prod.fst) hmem) hd
    | some a => rw [he _ _ _ hmem (mem_of_dictGet hd)]

theorem histColumn_ok {e : Asked β ι} (he : ∀ n a b, (n, a) ∈ e.answers → (n, b) ∈ e.answers → a = b) : ∀ ns : List String,
    histColumn (recordOf e) ns = .ok (ns.map (cellOf e)) := by
  intro ns
  induction ns with
  | nil => rfl
  | cons n r ih => simp only [histColumn, histCell_ok he, ih, List.map_cons]

/-- How often an oracle was asked. -/
def times (log : List (Asked β ι)) (n : String) : Nat := (log.map (fun e => (e.answers.map Prod.fst).count n)).sum

theorem times_eq (log : List (Asked β ι)) (n : String) : times log n = (answersOf log n).length := by
  unfold times answersOf
  induction log with
  | nil => simp
  | cons e r ih =>
    simp only [List.map_cons, List.sum_cons, List.flatMap_cons, List.filter_append, List.map_append, List.length_append, ih, List.length_map]
    congr 1
    rw [← List.countP_eq_length_filter, List.count, List.countP_map]
    rfl

theorem histLoop_ok {names : List String} (hn : names.Nodup) : ∀ (log : List (Asked β ι)) (f : String → Nat), (∀ e ∈ log, ∀ p ∈ e.answers, p.1 ∈ names) →
    (∀ e ∈ log, ∀ n a b, (n, a) ∈ e.answers → (n, b) ∈ e.answers → a = b) →
    histLoop names (names.map f) (log.map recordOf) = .ok (log.map (fun e => names.map (cellOf e)), names.map (fun n => f n + times log n)) := by
  intro log
  induction log with
  | nil => intro f _ _; simp [histLoop, times]
  | cons e r ih =>
    intro f h1 h2
    rw [List.map_cons, histLoop, countNames_ok hn _ f]
    · simp only [histColumn_ok (h2 e (by simp))]
      rw [ih _ (fun e he => h1 e (by simp [he])) (fun e he => h2 e (by simp [he]))]
      simp only [List.map_cons, Except.ok.injEq, Prod.mk.injEq, true_and]
      apply List.map_congr_left
      intro m _
      simp only [times, List.map_cons, List.sum_cons, recordOf]
      omega
    · intro n hn'
      simp only [recordOf, List.mem_map] at hn'
      obtain ⟨p, hp, rfl⟩ := hn'
      exact h1 e (by simp) p hp

/-! ## What is recorded -/

structure Tracked (o : Oracles β ι) (log : List (Asked β ι)) : Prop where
  nodup : (o.dict.map Prod.fst).Nodup
  hist : o.history = log.map recordOf
  known : ∀ e ∈ log, ∀ p ∈ e.answers, p.1 ∈ o.dict.map Prod.fst
  single : ∀ e ∈ log, ∀ n a b, (n, a) ∈ e.answers → (n, b) ∈ e.answers → a = b

theorem askOne_of {o : Oracles β ι} (hn : (o.dict.map Prod.fst).Nodup) {q : ι} {n : String} {a : Answer β} : o.askOne q n = .ok a ↔ Answers o q n a := by
  unfold askOne Answers
  constructor
  · intro h
    cases hd : dictGet n o.dict with
    | none => rw [hd] at h; cases h
    | some f => rw [hd] at h; exact ⟨f, mem_of_dictGet hd, h⟩
  · rintro ⟨f, hf, ha⟩
    rw [dictGet_of_mem hn hf]
    exact ha

theorem askAll_of {o : Oracles β ι} {q : ι} : ∀ {ns : List String} {as : List (Answer β)}, List.Forall₂ (fun n a => o.askOne q n = .ok a) ns as → o.askAll q ns = .ok as := by
  intro ns as h
  induction h with
  | nil => rfl
  | cons h1 _ ih => simp only [askAll, h1, ih]

theorem Tracked.push {o o' : Oracles β ι} {log : List (Asked β ι)} (t : Tracked o log) {q : ι} {ns : List String} {as : List (Answer β)}
    (h : List.Forall₂ (Answers o q) ns as) (hd : o'.dict = o.dict) (hh : o'.history = o.history ++ [⟨ns, as, q⟩]) : Tracked o' (log ++ [⟨q, ns.zip as⟩]) := by
  have hlen := h.length_eq
  have hz : ∀ p ∈ ns.zip as, Answers o q p.1 p.2 := by
    rintro ⟨n, a⟩ hp
    exact (List.forall₂_iff_zip.1 h).2 hp
  refine ⟨by rw [hd]; exact t.nodup, ?_, ?_, ?_⟩
  · rw [hh, t.hist, List.map_append]
    simp [recordOf, List.map_fst_zip hlen.le, List.map_snd_zip hlen.ge]
  · intro e he p hp
    rw [hd]
    rcases List.mem_append.1 he with he | he
    · exact t.known e he p hp
    · simp only [List.mem_singleton] at he
      subst he
      obtain ⟨f, hf, -⟩ := hz p hp
      exact List.mem_map_of_mem (f := Prod.fst) hf
  · intro e he n a b ha hb
    rcases List.mem_append.1 he with he | he
    · exact t.single e he n a b ha hb
    · simp only [List.mem_singleton] at he
      subst he
      have h1 := (askOne_of t.nodup).2 (hz _ ha)
      have h2 := (askOne_of t.nodup).2 (hz _ hb)
      simp only at h1 h2
      rw [h1] at h2
      injection h2

theorem queryFrom_ok {o : Oracles β ι} (hn : (o.dict.map Prod.fst).Nodup) {pick : List String → String} {q : ι} {name : Option String} {a : Answer β}
    (h : Answers o q (name.getD (pick (o.dict.map Prod.fst))) a) :
    (o.queryFrom pick q name).1.dict = o.dict ∧ (o.queryFrom pick q name).1.history = o.history ++ [⟨[name.getD (pick (o.dict.map Prod.fst))], [a], q⟩] := by
  have h1 := (askOne_of hn).2 h
  obtain ⟨f, hf, -⟩ := h
  unfold queryFrom
  cases name with
  | none =>
    cases hd : o.dict with
    | nil => rw [hd] at hf; simp at hf
    | cons p r =>
      rw [hd] at h1
      simp only [h1]
      split <;> simp [hd]
  | some n =>
    simp only [h1]
    split <;> simp

theorem queryFrom_no {o : Oracles β ι} (hn : (o.dict.map Prod.fst).Nodup) {pick : List String → String} {q : ι} {name : Option String}
    (h : ∀ a, ¬ Answers o q (name.getD (pick (o.dict.map Prod.fst))) a) : (o.queryFrom pick q name).1 = o := by
  have h1 : ∀ a, o.askOne q (name.getD (pick (o.dict.map Prod.fst))) ≠ .ok a := fun a e => h a ((askOne_of hn).1 e)
  unfold queryFrom
  cases name with
  | none =>
    cases hd : o.dict with
    | nil => rfl
    | cons p r =>
      rw [hd] at h1
      simp only
      split
      · rfl
      · rename_i a ha; exact absurd ha (h1 a)
  | some n =>
    simp only
    split
    · rfl
    · rename_i a ha; exact absurd ha (h1 a)

theorem queryFromS_ok {o : Oracles β ι} (hn : (o.dict.map Prod.fst).Nodup) {q : ι} {names : Option (List String)} {as : List (Answer β)}
    (h : List.Forall₂ (Answers o q) (names.getD (o.dict.map Prod.fst)) as) :
    (o.queryFromS q names).1.dict = o.dict ∧ (o.queryFromS q names).1.history = o.history ++ [⟨names.getD (o.dict.map Prod.fst), as, q⟩] := by
  have h1 := askAll_of (h.imp (fun _ _ h => (askOne_of hn).2 h))
  unfold queryFromS
  simp only [h1]
  split <;> simp

theorem queryFromS_no {o : Oracles β ι} (hn : (o.dict.map Prod.fst).Nodup) {q : ι} {names : Option (List String)} {n : String} (hm : n ∈ names.getD (o.dict.map Prod.fst))
    (h : ∀ a, ¬ Answers o q n a) : (o.queryFromS q names).1 = o := by
  unfold queryFromS
  simp only
  split
  · rfl
  · rename_i rs hrs
    exfalso
    have := askAll_mem o q _ _ hrs
    obtain ⟨i, hi, he⟩ := List.getElem_of_mem hm
    have hl := this.length_eq
    have h2 := List.forall₂_iff_get.1 this
    have := h2.2 i hi (by omega)
    simp only [List.get_eq_getElem, he] at this
    exact h _ ((askOne_of hn).1 this)

theorem tracked {o : Oracles β ι} {log : List (Asked β ι)} (h : Asking o log) : Tracked o log := by
  induction h with
  | new => exact ⟨List.nodup_nil, rfl, by simp, by simp⟩
  | add name f _ t =>
    refine ⟨dictSet_nodup _ _ _ t.nodup, t.hist, ?_, t.single⟩
    intro e he p hp
    have := t.known e he p hp
    simp only [addOracle]
    rw [dictSet_keys]
    split
    · exact this
    · exact List.mem_append_left _ this
  | one pick q n a _ ha t =>
    obtain ⟨h1, h2⟩ := queryFrom_ok t.nodup (pick := pick) (name := some n) ha
    exact t.push (ns := [n]) (as := [a]) (.cons ha .nil) h1 h2
  | oneFails pick q n _ ha t => rw [queryFrom_no t.nodup (name := some n) ha]; exact t
  | any pick q a _ ha t =>
    obtain ⟨h1, h2⟩ := queryFrom_ok t.nodup (pick := pick) (name := none) ha
    exact t.push (ns := [_]) (as := [a]) (.cons ha .nil) h1 h2
  | anyFails pick q _ ha t => rw [queryFrom_no t.nodup (name := none) ha]; exact t
  | some q ns as _ ha t =>
    obtain ⟨h1, h2⟩ := queryFromS_ok t.nodup (names := some ns) ha
    exact t.push ha h1 h2
  | someFails q ns n _ hm ha t => rw [queryFromS_no t.nodup (names := some ns) hm ha]; exact t
  | all q as _ ha t =>
    obtain ⟨h1, h2⟩ := queryFromS_ok t.nodup (names := none) ha
    exact t.push ha h1 h2
  | allFails q n _ hm ha t => rw [queryFromS_no t.nodup (names := none) hm ha]; exact t

/-- **C116**: `Oracles.full_history`, at any time: a row for every oracle, a column for every query that was answered; the cell shows query, response and cost if the oracle was asked
and is blank if it was not, and the last column counts the answers. -/
theorem C116_oracles {o : Oracles β ι} {log : List (Asked β ι)} (h : Asking o log) :
    ∃ t, o.fullHistory = .ok t ∧ t.names = o.dict.map Prod.fst ∧ t.names.Nodup ∧ t.columns.length = log.length ∧
      (∀ (k : Nat) (e : Asked β ι), log[k]? = some e → ∃ col, t.columns[k]? = some col ∧ col.length = t.names.length ∧
        (∀ n a, (n, a) ∈ e.answers → ∃ j : Nat, t.names[j]? = some n ∧ col[j]? = some (HistCell.asked e.query a.labels a.costs)) ∧
        (∀ (j : Nat) (n : String), t.names[j]? = some n → n ∉ e.answers.map Prod.fst → col[j]? = some .blank)) ∧
      t.inAll = t.names.map (fun n => (answersOf log n).length) := by
  have t := tracked h
  have key := histLoop_ok t.nodup log (fun _ => 0) t.known t.single
  refine ⟨⟨o.dict.map Prod.fst, log.map (fun e => (o.dict.map Prod.fst).map (cellOf e)), (o.dict.map Prod.fst).map (fun n => (answersOf log n).length)⟩, ?_, rfl, t.nodup, by simp, ?_, rfl⟩
  · unfold fullHistory
    have hrep : List.replicate (o.dict.map Prod.fst).length 0 = (o.dict.map Prod.fst).map (fun _ => 0) := by
      rw [List.map_const']
    simp only [hrep, t.hist, key, Nat.zero_add, times_eq]
  · intro k e he
    refine ⟨(o.dict.map Prod.fst).map (cellOf e), by simp [he], by simp, ?_, ?_⟩
    · intro n a ha
      have hmem : n ∈ o.dict.map Prod.fst := t.known e (List.mem_of_getElem? he) _ ha
      obtain ⟨j, hj, hje⟩ := List.getElem_of_mem hmem
      have hjn : (o.dict.map Prod.fst)[j]? = some n := by rw [List.getElem?_eq_getElem hj, hje]
      refine ⟨j, hjn, ?_⟩
      rw [List.getElem?_map, hjn]
      simp only [Option.map_some, cellOf]
      cases hd : dictGet n e.answers with
      | none => rw [dictGet_eq_none] at hd; exact absurd (List.mem_map_of_mem (f := Prod.fst) ha) hd
      | some b => rw [t.single e (List.mem_of_getElem? he) _ _ _ ha (mem_of_dictGet hd)]
    · intro j n hj hn
      simp only at hj
      rw [List.getElem?_map, hj]
      simp only [Option.map_some, cellOf, (dictGet_eq_none n e.answers).2 hn]

/-! ## The summary -/

theorem dictGet_map {names : List String} (f : String → Nat × ℚ) (n : String) : n ∈ names → dictGet n (names.map (fun m => (m, f m))) = some (f n) := by
  induction names with
  | nil => intro h; simp at h
  | cons m r ih =>
    intro h
    simp only [List.map_cons, dictGet]
    by_cases e : m = n
    · subst e; simp
    · rw [if_neg e]
      apply ih
      rcases List.mem_cons.1 h with h | h
      · exact absurd h.symm e
      · exact h

theorem dictSet_map {names : List String} (hn : names.Nodup) (f : String → Nat × ℚ) (n : String) (v : Nat × ℚ) : n ∈ names →
    dictSet n v (names.map (fun m => (m, f m))) = names.map (fun m => (m, if m = n then v else f m)) := by
  induction names with
  | nil => intro h; simp at h
  | cons m r ih =>
    intro h
    rw [List.nodup_cons] at hn
    simp only [List.map_cons, dictSet]
    by_cases e : m = n
    · subst e
      simp only [if_true, List.cons.injEq, true_and]
      apply List.map_congr_left
      intro k hk
      have : ¬ k = m := fun e => hn.1 (e ▸ hk)
      rw [if_neg this]
    · simp only [if_neg e]
      rw [ih hn.2]
      rcases List.mem_cons.1 h with h | h
      · exact absurd h.symm e
      · exact h

/-- Number and cost of the answers of an oracle. -/
def tally (l : List (String × Answer β)) (n : String) : Nat × ℚ :=
  ((l.filter (fun p => p.1 == n)).length, ((l.filter (fun p => p.1 == n)).map (fun p => p.2.costs.nums.sum)).sum)

theorem reprNames_ok {names : List String} (hn : names.Nodup) (all : List (String × Answer β)) : ∀ (done rest : List (String × Answer β)) (f : String → Nat × ℚ), all = done ++ rest →
    (∀ p ∈ rest, p.1 ∈ names) → reprNames (all.map Prod.snd) (names.map (fun m => (m, f m))) ((rest.map Prod.fst).zipIdx done.length) =
      .ok (names.map (fun m => (m, f m + tally rest m))) := by
  intro done rest
  induction rest generalizing done with
  | nil =>
    intro f _ _
    simp only [List.map_nil, List.zipIdx_nil, reprNames, tally, List.filter_nil, List.length_nil, List.sum_nil]
    congr 1
    apply List.map_congr_left
    intro m _
    ext <;> simp
  | cons p r ih =>
    intro f ha hm
    obtain ⟨n, a⟩ := p
    simp only [List.map_cons, List.zipIdx_cons, reprNames]
    rw [dictGet_map f n (hm (n, a) (by simp))]
    have : (all.map Prod.snd)[done.length]? = some a := by rw [ha]; simp
    simp only [this]
    rw [dictSet_map hn f n _ (hm (n, a) (by simp))]
    have := ih (done ++ [(n, a)]) (fun m => if m = n then ((f n).1 + 1, (f n).2 + a.costs.nums.sum) else f m) (by rw [ha]; simp) (fun q hq => hm q (by simp [hq]))
    rw [List.length_append, List.length_singleton] at this
    rw [this]
    congr 1
    apply List.map_congr_left
    intro m _
    by_cases e : m = n
    · subst e
      simp only [if_true, tally, List.filter_cons, beq_self_eq_true, if_true, List.length_cons, List.map_cons, List.sum_cons]
      refine Prod.ext rfl (Prod.ext ?_ ?_)
      · simp only [Prod.fst_add]; omega
      · simp only [Prod.snd_add]; ring
    · have e' : (n == m) = false := by simpa using fun h => e h.symm
      simp [e, tally, List.filter_cons, e']

theorem reprLoop_ok {names : List String} (hn : names.Nodup) : ∀ (log : List (Asked β ι)) (f : String → Nat × ℚ), (∀ e ∈ log, ∀ p ∈ e.answers, p.1 ∈ names) →
    reprLoop (names.map (fun m => (m, f m))) (log.map recordOf) = .ok (names.map (fun m => (m, f m + tally (log.flatMap Asked.answers) m))) := by
  intro log
  induction log with
  | nil =>
    intro f _
    simp only [List.map_nil, reprLoop, List.flatMap_nil, tally, List.filter_nil, List.length_nil, List.sum_nil]
    congr 1
    apply List.map_congr_left
    intro m _
    ext <;> simp
  | cons e r ih =>
    intro f hm
    simp only [List.map_cons, reprLoop, recordOf]
    have := reprNames_ok hn e.answers [] e.answers f rfl (hm e (by simp))
    simp only [List.length_nil] at this
    rw [this]
    simp only
    rw [ih _ (fun e he => hm e (by simp [he]))]
    congr 1
    apply List.map_congr_left
    intro m _
    simp only [List.flatMap_cons, tally, List.filter_append, List.length_append, List.map_append, List.sum_append]
    refine Prod.ext rfl (Prod.ext ?_ ?_)
    · simp only [Prod.fst_add]; omega
    · simp only [Prod.snd_add]; ring

/-- **C116**: the summary `Oracles.__repr__`, at any time: for every oracle the number of its answers, which is the one `full_history` counts, and the cost of all of them. -/
theorem C116_summary {o : Oracles β ι} {log : List (Asked β ι)} (h : Asking o log) :
    o.reprTable = .ok ((o.dict.map Prod.fst).map (fun n => (n, (answersOf log n).length, ((answersOf log n).map (fun a => a.costs.nums.sum)).sum))) := by
  have t := tracked h
  have key := reprLoop_ok t.nodup log (fun _ => (0, 0)) t.known
  unfold reprTable
  rw [List.map_map] at key
  rw [t.hist]
  refine Eq.trans key ?_
  congr 1
  apply List.map_congr_left
  intro m _
  unfold tally answersOf
  ext
  · rfl
  · simp
  · simp [Function.comp_def]

/-- Two oracles; both are asked about 3, then one of them about 5, then an unknown one in vain. -/
def twoOracles : Oracles Nat Nat := (empty.addOracle "a" (fun q => .ok ⟨q, .flat [1]⟩)).addOracle "b" (fun q => .ok ⟨q + 1, .flat [2]⟩)

example : Asking ((((twoOracles.queryFromS 3 none).1.queryFrom (fun _ => "a") 5 (some "b")).1.queryFrom (fun _ => "a") 7 (some "c")).1)
    [⟨3, [("a", ⟨3, .flat [1]⟩), ("b", ⟨4, .flat [2]⟩)]⟩, ⟨5, [("b", ⟨6, .flat [2]⟩)]⟩] := by
  refine .oneFails _ _ _ (.one (log := [⟨3, [("a", ⟨3, .flat [1]⟩), ("b", ⟨4, .flat [2]⟩)]⟩]) _ _ _ _
    (.all (log := []) 3 [⟨3, .flat [1]⟩, ⟨4, .flat [2]⟩] (.add _ _ (.add _ _ .new)) ?_) ?_) ?_
  · exact .cons ⟨_, by simp [twoOracles, addOracle, dictSet, empty]; rfl, rfl⟩ (.cons ⟨_, by simp [twoOracles, addOracle, dictSet, empty]; rfl, rfl⟩ .nil)
  · exact ⟨fun q => .ok ⟨q + 1, .flat [2]⟩, by simp [twoOracles, addOracle, dictSet, empty, queryFromS, askAll, askOne, dictGet, npSumAll, Costs.regular, Costs.shape], rfl⟩
  · rintro a ⟨f, hf, -⟩
    simp [twoOracles, addOracle, dictSet, empty, queryFromS, queryFrom, askAll, askOne, dictGet, npSumAll, Costs.regular, Costs.shape, Costs.npSum] at hf

end Oracles

/-! ## The repositories -/

theorem Arg.toList_unpack {α : Type} (x : Arg α) : x.unpack.toList = x.toList := by
  unfold Arg.unpack
  split <;> rfl

namespace ERepo
variable {κ β χ : Type} [DecidableEq κ] [DecidableEq χ]
open Spec

theorem add_hist (o : ERepo κ β χ) (k : κ) (b : β) (c : Option ℚ) (x : Option χ) : (o.add k b c x).1.numQueries = o.numQueries ∧ (o.add k b c x).1.history = o.history := by
  unfold add addRest
  repeat' split
  all_goals exact ⟨rfl, rfl⟩

theorem addMany_hist : ∀ (ts : List (κ × β × Option ℚ × Option χ)) (o : ERepo κ β χ), (o.addMany ts).1.numQueries = o.numQueries ∧ (o.addMany ts).1.history = o.history := by
  intro ts
  induction ts with
  | nil => intro o; exact ⟨rfl, rfl⟩
  | cons t r ih =>
    intro o
    obtain ⟨k, b, c, x⟩ := t
    have h := add_hist o k b c x
    simp only [addMany]
    split
    · rename_i o1 e
      rw [e] at h
      exact ⟨(ih o1).1.trans h.1, (ih o1).2.trans h.2⟩
    · rename_i o1 e' e
      rw [e] at h
      exact h

theorem update_hist (o : ERepo κ β χ) (is : Arg κ) (ls : Arg β) (c : Option (Arg ℚ)) (x : Option (Arg χ)) :
    ((o.updateQuery is ls c x).2 = none → (o.updateQuery is ls c x).1.numQueries = o.numQueries + 1 ∧
      (o.updateQuery is ls c x).1.history = o.history ++ [⟨ls.unpack, c.map Arg.unpack, is.unpack⟩]) ∧
    ((o.updateQuery is ls c x).2 ≠ none → (o.updateQuery is ls c x).1.numQueries = o.numQueries ∧ (o.updateQuery is ls c x).1.history = o.history) := by
  unfold updateQuery
  split
  · have h := addMany_hist (repoRows ls.toList is.toList (c.map Arg.toList) (x.map Arg.toList)) o
    split
    · rename_i o1 e he
      rw [he] at h
      exact ⟨by simp, fun _ => h⟩
    · rename_i o1 he
      rw [he] at h
      simp only at h ⊢
      exact ⟨fun _ => ⟨by rw [h.1], by rw [h.2]⟩, by simp⟩
  · simp

/-- **C116**: `full_history` of an `ElementRepository`, at any time: a column for each successful `update_query` since the repository was made or cleared, in order and with the indexes,
labels and costs that were given, and in the last column their number, which is `num_of_queries`, and the cost of the repository. -/
theorem C116_element_repository {o : ERepo κ β χ} {log : List (Update κ β)} (h : ELog o log) :
    o.fullHistory.columns.map shown = log ∧ o.fullHistory.queries = log.length ∧ o.numQueries = log.length ∧ o.fullHistory.cost = o.cost := by
  have key : o.history.map shown = log ∧ o.numQueries = log.length := by
    induction h with
    | new labels indexes examples h =>
      unfold ERepo.new at h
      split at h
      · cases h; simp
      · cases h
    | add k b c x _ ih => rw [(add_hist _ k b c x).1, (add_hist _ k b c x).2]; exact ih
    | discard k x _ ih => rw [(discard_cost _ k x).2.2.1, (discard_cost _ k x).2.2.2]; exact ih
    | update is ls c x _ hs ih =>
      obtain ⟨h1, h2⟩ := (update_hist _ is ls c x).1 hs
      rw [h1, h2, List.map_append, ih.1, ih.2]
      refine ⟨?_, by simp⟩
      cases c <;> simp [shown, Arg.toList_unpack]
    | updateFails is ls c x _ hs ih =>
      obtain ⟨h1, h2⟩ := (update_hist _ is ls c x).2 hs
      rw [h1, h2]; exact ih
    | @clear o _ _ hs _ =>
      unfold ERepo.clear at hs ⊢
      split at hs
      · rename_i hd; rw [if_pos hd]; simp
      · cases hs
    | @clearFails o _ _ hs ih =>
      unfold ERepo.clear at hs ⊢
      split at hs
      · exact absurd rfl hs
      · rename_i hd; rw [if_neg hd]; exact ih
  refine ⟨key.1, ?_, key.2, rfl⟩
  show o.history.length = _
  rw [← key.1, List.length_map]

example : ∃ o : ERepo Nat String Unit, ELog o [⟨[1, 2], ["b", "c"], some [1, 2]⟩] ∧ o.numQueries = 1 := by
  have h0 : ELog (κ := Nat) (β := String) (χ := Unit) _ [] := .new ["a"] [0] none rfl
  exact ⟨_, .updateFails (.many [5]) (.many ["x", "y"]) none none (.update (.many [1, 2]) (.many ["b", "c"]) (some (.many [1, 2])) none h0 rfl) (by decide), rfl⟩

end ERepo

namespace MRepo
variable {κ γ : Type} [DecidableEq κ] [DecidableEq γ]
open Spec

omit [DecidableEq γ] in
theorem add_hist (o : MRepo κ γ) (b : Lab γ) (k : κ) (c : Option ℚ) (x : Option (List γ)) : (o.add b k c x).1.numQueries = o.numQueries ∧ (o.add b k c x).1.history = o.history := by
  unfold add
  simp only
  repeat' split
  all_goals exact ⟨rfl, rfl⟩

omit [DecidableEq γ] in
theorem addMany_hist : ∀ (ts : List (κ × Lab γ × Option ℚ × Option (List γ))) (o : MRepo κ γ), (o.addMany ts).1.numQueries = o.numQueries ∧ (o.addMany ts).1.history = o.history := by
  intro ts
  induction ts with
  | nil => intro o; exact ⟨rfl, rfl⟩
  | cons t r ih =>
    intro o
    obtain ⟨k, b, c, x⟩ := t
    have h := add_hist o b k c x
    simp only [addMany]
    split
    · rename_i o1 e
      rw [e] at h
      exact ⟨(ih o1).1.trans h.1, (ih o1).2.trans h.2⟩
    · rename_i o1 e' e
      rw [e] at h
      exact h

omit [DecidableEq γ] in
theorem update_hist (o : MRepo κ γ) (ls : Arg (Lab γ)) (is : Arg κ) (c : Option (Arg ℚ)) (x : Option (Arg (List γ))) :
    ((o.updateQuery ls is c x).2 = none → (o.updateQuery ls is c x).1.numQueries = o.numQueries + 1 ∧
      (o.updateQuery ls is c x).1.history = o.history ++ [⟨ls.unpack, c.map Arg.unpack, is.unpack⟩]) ∧
    ((o.updateQuery ls is c x).2 ≠ none → (o.updateQuery ls is c x).1.numQueries = o.numQueries ∧ (o.updateQuery ls is c x).1.history = o.history) := by
  unfold updateQuery
  split
  · have h := addMany_hist (repoRows ls.toList is.toList (c.map Arg.toList) (x.map Arg.toList)) o
    split
    · rename_i o1 e he
      rw [he] at h
      exact ⟨by simp, fun _ => h⟩
    · rename_i o1 he
      rw [he] at h
      simp only at h ⊢
      exact ⟨fun _ => ⟨by rw [h.1], by rw [h.2]⟩, by simp⟩
  · simp

theorem discard_hist (o : MRepo κ γ) (k : Option κ) (x : Option (List γ)) : (o.discard k x).1.numQueries = o.numQueries ∧ (o.discard k x).1.history = o.history := by
  have hm : ∀ a m, (o.applyMask a m).1.numQueries = o.numQueries ∧ (o.applyMask a m).1.history = o.history := by
    intro a m
    unfold applyMask
    simp only
    repeat' split
    all_goals exact ⟨rfl, rfl⟩
  unfold discard
  repeat' split
  all_goals first | exact ⟨rfl, rfl⟩ | exact hm _ _

/-- **C116**: `full_history` of a `MatrixRepository`, at any time: as for an `ElementRepository`. -/
theorem C116_matrix_repository {o : MRepo κ γ} {log : List (Update κ (Lab γ))} (h : MLog o log) :
    o.fullHistory.columns.map shown = log ∧ o.fullHistory.queries = log.length ∧ o.numQueries = log.length ∧ o.fullHistory.cost = o.cost := by
  have key : o.history.map shown = log ∧ o.numQueries = log.length := by
    induction h with
    | new labels indexes examples h =>
      unfold MRepo.new at h
      simp only at h
      repeat' split at h
      all_goals first | (injection h with h; subst h; exact ⟨rfl, rfl⟩) | cases h
    | add b k c x _ ih => rw [(add_hist _ b k c x).1, (add_hist _ b k c x).2]; exact ih
    | discard k x _ ih => rw [(discard_hist _ k x).1, (discard_hist _ k x).2]; exact ih
    | update ls is c x _ hs ih =>
      obtain ⟨h1, h2⟩ := (update_hist _ ls is c x).1 hs
      rw [h1, h2, List.map_append, ih.1, ih.2]
      refine ⟨?_, by simp⟩
      cases c <;> simp [shown, Arg.toList_unpack]
    | updateFails ls is c x _ hs ih =>
      obtain ⟨h1, h2⟩ := (update_hist _ ls is c x).2 hs
      rw [h1, h2]; exact ih
    | clear _ _ => exact ⟨rfl, rfl⟩
  refine ⟨key.1, ?_, key.2, rfl⟩
  show o.history.length = _
  rw [← key.1, List.length_map]

example : ∃ o : MRepo Nat Int, MLog o [⟨[1], [.sc 5], none⟩] ∧ o.numQueries = 1 := by
  have h0 : MLog (κ := Nat) (γ := Int) _ [] := .new [.sc 4] [0] none rfl
  exact ⟨_, .add (.sc 6) 2 none none (.update (.one (.sc 5)) (.one 1) none none h0 rfl), rfl⟩

end MRepo
end Alipy
