import Verif.Spec.AnalyserForms
import Mathlib.Data.List.Forall2
/-! # C117: the forms in which results can be handed to the analyser -/
namespace Alipy.ResultForms
variable {K σ : Type}

theorem get_set_same {κ ν : Type} [DecidableEq κ] (k : κ) (v : ν) (d : List (κ × ν)) : dictGet k (dictSet k v d) = some v := by
  induction d with
  | nil => simp [dictSet, dictGet]
  | cons x r ih => obtain ⟨a, b⟩ := x; by_cases h : a = k <;> simp [dictSet, dictGet, h, ih]

theorem get_set_other {κ ν : Type} [DecidableEq κ] {k k' : κ} (v : ν) (h : k' ≠ k) (d : List (κ × ν)) : dictGet k' (dictSet k v d) = dictGet k' d := by
  induction d with
  | nil => simp [dictSet, dictGet, Ne.symm h]
  | cons x r ih =>
    obtain ⟨a, b⟩ := x
    by_cases e : a = k
    · subst e; simp [dictSet, dictGet, Ne.symm h]
    · by_cases e' : a = k'
      · subst e'; simp [dictSet, dictGet, e]
      · simp [dictSet, dictGet, e, e', ih]

theorem line_ok {β : Type} {key : St K → Option β} : ∀ {l : List (St K)} {ps : List β}, l.map key = ps.map some → line key l = .ok ps
  | [], [], _ => rfl
  | s :: r, p :: ps, h => by
    simp only [List.map_cons, List.cons.injEq] at h
    simp [line, h.1, line_ok h.2, Except.map]

theorem line_error {β : Type} {key : St K → Option β} : ∀ {l : List (St K)}, (∃ s ∈ l, key s = none) → line key l = .error .valueError
  | [], h => by obtain ⟨_, h, _⟩ := h; cases h
  | s :: r, h => by
    unfold line
    cases e : key s with
    | none => rfl
    | some x =>
      obtain ⟨t, ht, hn⟩ := h
      rcases List.mem_cons.1 ht with rfl | ht
      · rw [hn] at e; cases e
      · rw [line_error ⟨t, ht, hn⟩]; rfl

theorem line_total {β : Type} {key : St K → Option β} : ∀ l : List (St K), (∃ ps, line key l = .ok ps) ∨ line key l = .error .valueError
  | [] => .inl ⟨[], rfl⟩
  | s :: r => by
    unfold line
    cases key s with
    | none => exact .inr rfl
    | some x => rcases line_total r with ⟨ps, h⟩ | h <;> rw [h]
                · exact .inl ⟨_, rfl⟩
                · exact .inr rfl

theorem extractOne_ok {ss : List (Sio K)} {m : List (List K)} (h : List.Forall₂ IsCurve ss m) : extractOne ss = .ok m := by
  induction h with
  | nil => rfl
  | cons h _ ih =>
    obtain ⟨ps, h, rfl⟩ := h
    simp [extractOne, line_ok h, ih, Except.map]

theorem both_map : ∀ {l : List (St K)} {ps : List (List K × K)}, l.map St.cost = ps.map (fun p => some p.1) → l.map St.perf = ps.map (fun p => some p.2) →
    l.map both = ps.map some
  | [], [], _, _ => rfl
  | s :: r, p :: ps, h, h' => by
    simp only [List.map_cons, List.cons.injEq] at h h' ⊢
    exact ⟨by simp [both, h.1, h'.1], both_map h.2 h'.2⟩

theorem extractTwo_ok {ss : List (Sio K)} {m : List (List (List K × K))} (h : List.Forall₂ IsPairs ss m) : extractTwo ss = .ok m := by
  induction h with
  | nil => rfl
  | cons h _ ih => simp [extractTwo, line_ok (both_map h.1 h.2), ih, Except.map]

theorem extractOne_error : ∀ {ss : List (Sio K)}, (∃ s ∈ ss, ∃ t ∈ s.states, t.perf = none) → extractOne ss = .error .valueError
  | [], h => by obtain ⟨_, h, _⟩ := h; cases h
  | s :: r, h => by
    unfold extractOne
    rcases line_total (key := St.perf) s.states with ⟨ps, e⟩ | e
    · rw [e]
      obtain ⟨u, hu, t, ht, hn⟩ := h
      rcases List.mem_cons.1 hu with rfl | hu
      · rw [line_error ⟨t, ht, hn⟩] at e; cases e
      · rw [extractOne_error ⟨u, hu, t, ht, hn⟩]; rfl
    · rw [e]

theorem both_none {t : St K} : both t = none ↔ t.cost = none ∨ t.perf = none := by
  obtain ⟨c, p⟩ := t
  cases c <;> cases p <;> simp [both]

theorem extractTwo_error : ∀ {ss : List (Sio K)}, (∃ s ∈ ss, ∃ t ∈ s.states, t.cost = none ∨ t.perf = none) → extractTwo ss = .error .valueError
  | [], h => by obtain ⟨_, h, _⟩ := h; cases h
  | s :: r, h => by
    unfold extractTwo
    rcases line_total (key := both) s.states with ⟨ps, e⟩ | e
    · rw [e]
      obtain ⟨u, hu, t, ht, hn⟩ := h
      rcases List.mem_cons.1 hu with rfl | hu
      · rw [line_error ⟨t, ht, both_none.2 hn⟩] at e; cases e
      · rw [extractTwo_error ⟨u, hu, t, ht, hn⟩]; rfl
    · rw [e]

theorem container_ok {disk : String → Except PyErr (Sio K)} {fs : List (FoldArg K)} {ss : List (Sio K)} (h : List.Forall₂ (Denotes disk) fs ss) :
    container disk fs = .ok ss := by
  induction h with
  | nil => rfl
  | @cons f s fs ss h _ ih =>
    cases f <;> simp only [Denotes] at h
    · subst h; simp [container, ih, Except.map]
    · simp [container, h, ih, Except.map]

theorem container_objs (disk : String → Except PyErr (Sio K)) (ss : List (Sio K)) : container disk (ss.map .obj) = .ok ss := by
  induction ss with
  | nil => rfl
  | cons s r ih => simp [container, ih, Except.map]

/-- The same objects as a list and as a container make the same analyser, with or without an error. -/
theorem list_eq_container (disk : String → Except PyErr (Sio K)) (summ : List (FoldArg K) → Except PyErr σ) (x : Axis) (a : An K σ) (name : String) {ss : List (Sio K)}
    (hn : ss ≠ []) : addMethod disk summ x a name (.folds (ss.map .obj)) = addMethod disk summ x a name (.container ss) := by
  obtain ⟨s, r, rfl⟩ := List.exists_cons_of_ne_nil hn
  have h : typeOfData ((s :: r).map FoldArg.obj) = .ok 0 := rfl
  simp only [addMethod, h, container_objs]

/-- **C117, `StateIO` objects and the number of queries.** A list of `StateIO` objects, the same objects in a container, and a container filled from files at which the objects were saved:
all are accepted with the same outcome. `get_extracted_data` then has for each fold the initial point and the performances in order, and the data and summaries of other methods are as before. -/
theorem C117_performances (disk : String → Except PyErr (Sio K)) (summ : List (FoldArg K) → Except PyErr σ) (a : An K σ) (name : String) (ss : List (Sio K)) (m : List (List K)) (v : σ)
    (hn : ss ≠ []) (hm : List.Forall₂ IsCurve ss m) (hv : summ (ss.map .obj) = .ok v) :
    (∀ fs, List.Forall₂ (Denotes disk) fs ss → container disk fs = .ok ss)
      ∧ addMethod disk summ .queries a name (.folds (ss.map .obj)) = addMethod disk summ .queries a name (.container ss)
      ∧ ∃ b, addMethod disk summ .queries a name (.container ss) = (b, none)
        ∧ getExtracted b name = .ok (.perfs m) ∧ dictGet name b.summary = some v
        ∧ ∀ n, n ≠ name → getExtracted b n = getExtracted a n ∧ dictGet n b.summary = dictGet n a.summary := by
  refine ⟨fun fs h => container_ok h, list_eq_container disk summ _ a name hn, ?_⟩
  simp only [addMethod, keep, extractOne_ok hm, Except.map, hv, store]
  refine ⟨_, rfl, ?_, ?_, fun n h => ⟨?_, ?_⟩⟩ <;> simp_all [getExtracted, get_set_same, get_set_other]

/-- **C117, `StateIO` objects and costs.** The same, with the pairs of cost and performance of each state in order. -/
theorem C117_costs (disk : String → Except PyErr (Sio K)) (summ : List (FoldArg K) → Except PyErr σ) (a : An K σ) (name : String) (ss : List (Sio K)) (m : List (List (List K × K))) (v : σ)
    (hn : ss ≠ []) (hm : List.Forall₂ IsPairs ss m) (hv : summ (ss.map .obj) = .ok v) :
    addMethod disk summ .cost a name (.folds (ss.map .obj)) = addMethod disk summ .cost a name (.container ss)
      ∧ ∃ b, addMethod disk summ .cost a name (.container ss) = (b, none)
        ∧ getExtracted b name = .ok (.pairs m) ∧ dictGet name b.summary = some v
        ∧ ∀ n, n ≠ name → getExtracted b n = getExtracted a n ∧ dictGet n b.summary = dictGet n a.summary := by
  refine ⟨list_eq_container disk summ _ a name hn, ?_⟩
  simp only [addMethod, keep, extractTwo_ok hm, Except.map, hv, store]
  refine ⟨_, rfl, ?_, ?_, fun n h => ⟨?_, ?_⟩⟩ <;> simp_all [getExtracted, get_set_same, get_set_other]

/-- **C117, lists of numbers or pairs.** Lists of performances go to the analyser of queries and lists of tuples to the analyser of costs; they are kept as given. -/
theorem C117_lists (disk : String → Except PyErr (Sio K)) (summ : List (FoldArg K) → Except PyErr σ) (a : An K σ) (name : String) (v : σ) (fs : List (FoldArg K)) (hv : summ fs = .ok v)
    (x : Axis) (first : Item K) (others : List (Item K)) (hf : fs.head? = some (.list (first :: others)))
    (hx : match x with
      | .queries => ∃ y, first = .num y
      | .cost => ∃ c p, first = .tup [c, p]) :
    ∃ b, addMethod disk summ x a name (.folds fs) = (b, none) ∧ getExtracted b name = .ok (.given fs) ∧ dictGet name b.summary = some v
      ∧ ∀ n, n ≠ name → getExtracted b n = getExtracted a n ∧ dictGet n b.summary = dictGet n a.summary := by
  obtain ⟨r, rfl⟩ : ∃ r, fs = .list (first :: others) :: r := by
    cases fs with
    | nil => cases hf
    | cons f r => simp only [List.head?_cons, Option.some.injEq] at hf; exact ⟨r, by rw [hf]⟩
  cases x with
  | queries =>
    obtain ⟨y, rfl⟩ := hx
    simp only [addMethod, typeOfData, hv, store, if_true]
    refine ⟨_, rfl, ?_, ?_, fun n h => ⟨?_, ?_⟩⟩ <;> simp_all [getExtracted, get_set_same, get_set_other]
  | cost =>
    obtain ⟨c, p, rfl⟩ := hx
    simp only [addMethod, typeOfData, List.length_cons, List.length_nil, hv, store]
    refine ⟨_, rfl, ?_, ?_, fun n h => ⟨?_, ?_⟩⟩ <;> simp_all [getExtracted, get_set_same, get_set_other]

/-- **C117, `x_axis`.** `ExperimentAnalyser` with "num_of_queries" gives an analyser that takes lists of numbers and no pairs, with "cost" one that takes pairs and no numbers; every other name
is refused. -/
theorem C117_axis (disk : String → Except PyErr (Sio K)) (summ : List (FoldArg K) → Except PyErr σ) (a : An K σ) (name : String) (x : String) :
    match axisOf x with
    | .error e => e = .valueError ∧ x ≠ "num_of_queries" ∧ x ≠ "cost"
    | .ok ax => (x = "num_of_queries" ∨ x = "cost") ∧ ∀ (first : Item K) (others : List (Item K)) (r : List (FoldArg K)) (v : σ), summ (.list (first :: others) :: r) = .ok v →
        ((∃ y, first = .num y) → ((addMethod disk summ ax a name (.folds (.list (first :: others) :: r))).2 = none ↔ x = "num_of_queries")) ∧
        ((∃ c p, first = .tup [c, p]) → ((addMethod disk summ ax a name (.folds (.list (first :: others) :: r))).2 = none ↔ x = "cost")) := by
  unfold axisOf
  by_cases h1 : x = "num_of_queries"
  · subst h1
    simp only [if_true]
    refine ⟨.inl trivial, fun first others r v hv => ⟨?_, ?_⟩⟩
    · rintro ⟨y, rfl⟩
      simp [addMethod, typeOfData, store, hv]
    · rintro ⟨c, p, rfl⟩
      simp [addMethod, typeOfData, store, hv]
  · by_cases h2 : x = "cost"
    · subst h2
      simp only [if_true, if_neg h1]
      refine ⟨.inr trivial, fun first others r v hv => ⟨?_, ?_⟩⟩
      · rintro ⟨y, rfl⟩
        simp [addMethod, typeOfData, store, hv]
      · rintro ⟨c, p, rfl⟩
        simp [addMethod, typeOfData, store, hv]
    · simp [h1, h2]

/-- **C117, refusals.** A fold with a state that lacks what the curve needs is refused, and so are results that are neither a list nor a container; the data and summaries are as before. -/
theorem C117_refused (disk : String → Except PyErr (Sio K)) (summ : List (FoldArg K) → Except PyErr σ) (a : An K σ) (name : String) (x : Axis) :
    (∀ ss : List (Sio K), (∃ s ∈ ss, ∃ t ∈ s.states, t.perf = none ∨ (x = .cost ∧ t.cost = none)) →
      ∃ b, SameData b a ∧ addMethod disk summ x a name (.folds (ss.map .obj)) = (b, some .valueError) ∧ addMethod disk summ x a name (.container ss) = (b, some .valueError))
      ∧ ∃ b, SameData b a ∧ addMethod disk summ x a name .other = (b, some .typeError) := by
  refine ⟨fun ss h => ?_, a, ⟨rfl, rfl⟩, rfl⟩
  have hn : ss ≠ [] := by obtain ⟨s, hs, _⟩ := h; exact List.ne_nil_of_mem hs
  rw [list_eq_container disk summ x a name hn]
  have hk : keep x ss = .error .valueError := by
    cases x with
    | queries =>
      obtain ⟨s, hs, t, ht, h | h⟩ := h
      · simp only [keep, extractOne_error ⟨s, hs, t, ht, h⟩, Except.map]
      · cases h.1
    | cost =>
      obtain ⟨s, hs, t, ht, h⟩ := h
      simp only [keep, extractTwo_error ⟨s, hs, t, ht, h.symm.imp (fun h => h.2) id⟩, Except.map]
  refine ⟨{ a with allState := some true }, ⟨rfl, rfl⟩, ?_, ?_⟩ <;> simp only [addMethod, hk]

/-- **C117, violation (names).** `get_methods_names` raises AttributeError whatever has been added. -/
theorem C117_names_violation (a : An K σ) : methodsNames a = .error .attributeError := rfl

/-- **C117, violation (tuples).** `add_method` of the analyser of queries documents lists of `(x, y)` tuples, and refuses every such result. -/
theorem C117_tuples_violation (disk : String → Except PyErr (Sio K)) (summ : List (FoldArg K) → Except PyErr σ) (a : An K σ) (name : String) (xv yv : List K) (l : List (Item K)) (r : List (FoldArg K)) :
    (addMethod disk summ .queries a name (.folds (.list (.tup [xv, yv] :: l) :: r))).2 = some .valueError := by
  simp [addMethod, typeOfData]

/-- **C117, violation (paths).** A container may be filled from paths; a list that begins with a path is refused, whatever the file. -/
theorem C117_paths_violation (disk : String → Except PyErr (Sio K)) (summ : List (FoldArg K) → Except PyErr σ) (x : Axis) (a : An K σ) (name p : String) (r : List (FoldArg K)) :
    (addMethod disk summ x a name (.folds (.path p :: r))).2 = some .valueError := by
  simp [addMethod, typeOfData]

/-- **C117, violation (empty).** An analyser to which nothing was added cannot be printed. -/
theorem C117_empty_violation : repr (⟨[], [], none⟩ : An K σ) = .error .attributeError := rfl

theorem mapM_none {α β : Type} {f : α → Option β} {l : List α} {x : α} (hx : x ∈ l) (h : f x = none) : l.mapM f = none := by
  induction l with
  | nil => cases hx
  | cons y r ih =>
    rw [List.mapM_cons]
    rcases List.mem_cons.1 hx with rfl | hx
    · rw [h]; rfl
    · rw [ih hx]; cases f y <;> rfl

theorem mem_keys_set {κ ν : Type} [DecidableEq κ] (k : κ) (v : ν) (d : List (κ × ν)) : k ∈ (dictSet k v d).map Prod.fst := by
  induction d with
  | nil => simp [dictSet]
  | cons x r ih => obtain ⟨a, b⟩ := x; by_cases h : a = k <;> simp [dictSet, h, ih]

/-- **C117, violation (half added).** When the summary of a new method raises, for example because some folds have an initial point and others do not, `add_method` raises but has kept the data:
from then on printing the analyser raises KeyError. -/
theorem C117_half_added_violation (disk : String → Except PyErr (Sio K)) (summ : List (FoldArg K) → Except PyErr σ) (a : An K σ) (name : String) (ss : List (Sio K)) (m : List (List K)) (e : PyErr)
    (hm : List.Forall₂ IsCurve ss m) (hv : summ (ss.map .obj) = .error e) (hnew : dictGet name a.summary = none) :
    ∃ b, addMethod disk summ .queries a name (.container ss) = (b, some e) ∧ getExtracted b name = .ok (.perfs m) ∧ repr b = .error .keyError := by
  simp only [addMethod, keep, extractOne_ok hm, Except.map, hv, store]
  refine ⟨_, rfl, by simp [getExtracted, get_set_same], ?_⟩
  simp only [repr]
  rw [mapM_none (mem_keys_set name (Kept.perfs m) a.extracted) (by simp [hnew])]

/-- Not vacuous: two folds with an initial point; the analyser already has a method. -/
example :
    let ss : List (Sio Int) := [⟨some 5, [⟨some [1], some 6⟩, ⟨some [2], some 7⟩]⟩, ⟨some 4, [⟨some [1], some 8⟩]⟩]
    let a : An Int Nat := ⟨[("old", .perfs [[1]])], [("old", 3)], some true⟩
    List.Forall₂ IsCurve ss [[5, 6, 7], [4, 8]] ∧ List.Forall₂ IsPairs ss [[([1], 6), ([2], 7)], [([1], 8)]]
      ∧ (addMethod (fun _ => .error .fileNotFoundError) (fun fs => .ok fs.length) .queries a "new" (.folds (ss.map .obj))).1.extracted = [("old", .perfs [[1]]), ("new", .perfs [[5, 6, 7], [4, 8]])]
      ∧ (addMethod (fun _ => .error .fileNotFoundError) (fun fs => .ok fs.length) .cost a "new" (.container ss)).1.extracted = [("old", .perfs [[1]]), ("new", .pairs [[([1], 6), ([2], 7)], [([1], 8)]])]
      ∧ (addMethod (fun _ => .error .fileNotFoundError) (fun fs => .ok fs.length) .queries a "new" (.folds [.list [.num 1, .num 2]])).1.extracted = [("old", .perfs [[1]]), ("new", .given [.list [.num 1, .num 2]])] := by
  refine ⟨.cons ⟨[6, 7], rfl, rfl⟩ (.cons ⟨[8], rfl, rfl⟩ .nil), .cons ⟨rfl, rfl⟩ (.cons ⟨rfl, rfl⟩ .nil), by decide, by decide, by decide⟩

end Alipy.ResultForms
