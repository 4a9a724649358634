import Verif.Spec.Files
import Std.Data.String.ToInt
/-!
# Everything an experiment saves in a directory has its own file
-/
namespace Alipy.Files
open Alipy Alipy.Spec

variable {V : Type}

private theorem name_ne {a b : List Char} (s t : String) (hs : s.toList = a) (ht : t.toList = b) (h : a ≠ b) : s ≠ t := by
  rintro rfl
  exact h (hs.symm.trans ht)

private theorem round_list (k : Int) : ("AL_round_" ++ k.repr ++ ".pkl").toList = 'A' :: 'L' :: '_' :: 'r' :: 'o' :: ("und_".toList ++ k.repr.toList ++ ".pkl".toList) := by
  simp [String.toList_append]

/-- The names of the files of different rounds are different. -/
private theorem round_inj {k j : Int} (h : "AL_round_" ++ k.repr ++ ".pkl" = "AL_round_" ++ j.repr ++ ".pkl") : k = j := by
  have h' := congrArg String.toList h
  simp only [String.toList_append] at h'
  have h1 := List.append_cancel_right h'
  have h2 := List.append_cancel_left h1
  exact Int.repr_inj.1 (String.toList_inj.1 h2)

private theorem round_ne (k : Int) (s : String) (h : ∀ l, s.toList ≠ 'A' :: 'L' :: '_' :: 'r' :: 'o' :: l) : "AL_round_" ++ k.repr ++ ".pkl" ≠ s :=
  name_ne _ _ (round_list k) rfl (fun e => h _ e.symm)

/-- Different things have different files. -/
theorem file_inj {r s : FileRole} (h : r.file = s.file) : r = s := by
  cases r <;> cases s <;> simp only [FileRole.file, List.cons.injEq, and_true, reduceCtorEq, and_false] at h <;>
    first
    | rfl
    | (exact congrArg _ (round_inj h))
    | (exact congrArg _ (round_inj h.2))
    | (exact absurd h (round_ne _ _ (by first | (simp; done) | (intro l; split <;> simp))))
    | (exact absurd h.symm (round_ne _ _ (by first | (simp; done) | (intro l; split <;> simp))))
    | (exfalso; revert h; decide)
    | (rename_i a b; cases a <;> cases b <;> simp_all; done)
    | (rename_i a; cases a <;> simp_all; done)

/-- None of the files is the directory of the threads. -/
private theorem file_ne_result (r : FileRole) : r.file ≠ ["AL_result"] := by
  cases r <;> simp [FileRole.file]
  · split <;> simp
  · split <;> simp
  · exact round_ne _ _ (by simp)

private theorem file_ne_nil (r : FileRole) : r.file ≠ [] := by
  cases r <;> simp [FileRole.file]

private theorem dropLast_file (p : Path) (r : FileRole) : (p ++ r.file).dropLast = p ∨ (p ++ r.file).dropLast = p ++ ["AL_result"] := by
  cases r <;> simp [FileRole.file, List.dropLast_append]

private theorem put_same (d : Disk V) (p : Path) (n : Node V) : put d p n p = some n := by simp [put]
private theorem put_other (d : Disk V) {p q : Path} (n : Node V) (h : q ≠ p) : put d p n q = d q := by simp [put, h]

/-- A role can be written. -/
private theorem write_role {d : Disk V} {p : Path} (h : Ready d p) (r : FileRole) (o : Obj V) :
    write d (p ++ r.file) o = (put d (p ++ r.file) (.file o), none) := by
  have h1 : isdir d (p ++ r.file) = false := by
    have := h.free r
    unfold isdir
    split
    · contradiction
    · rfl
  have h2 : isdir d (p ++ r.file).dropLast = true := by
    rcases dropLast_file p r with e | e <;> rw [e]
    · simp [isdir, h.dir]
    · simp [isdir, h.result]
  simp [write, h1, h2]

private theorem ready_put {d : Disk V} {p : Path} (h : Ready d p) (r : FileRole) (o : Obj V) : Ready (put d (p ++ r.file) (.file o)) p where
  dir := by rw [put_other, h.dir]; intro e; exact file_ne_nil r (by simpa using e.symm)
  result := by rw [put_other, h.result]; intro e; exact file_ne_result r (List.append_cancel_left e).symm
  free s := by
    by_cases e : p ++ s.file = p ++ r.file
    · rw [e, put_same]; simp
    · rw [put_other _ _ e]; exact h.free s

/-- The state after the roles `l` have been written. -/
private theorem writeAll_roles {p : Path} : ∀ (l : List (FileRole × Obj V)) {d : Disk V}, Ready d p → (l.map Prod.fst).Nodup →
    (writeAll d (l.map fun x => (p ++ x.1.file, x.2))).2 = none ∧ Ready (writeAll d (l.map fun x => (p ++ x.1.file, x.2))).1 p ∧
    (∀ r, (writeAll d (l.map fun x => (p ++ x.1.file, x.2))).1 (p ++ r.file) =
      match l.lookup r with | some o => some (.file o) | none => d (p ++ r.file)) ∧
    ∀ q, (∀ r : FileRole, q ≠ p ++ r.file) → (writeAll d (l.map fun x => (p ++ x.1.file, x.2))).1 q = d q
  | [], d, h, _ => ⟨rfl, h, fun _ => rfl, fun _ _ => rfl⟩
  | (r, o) :: l, d, h, hn => by
    simp only [List.map_cons, List.nodup_cons] at hn
    have ih := writeAll_roles l (ready_put h r o) hn.2
    simp only [List.map_cons, writeAll, write_role h r o]
    refine ⟨ih.1, ih.2.1, fun s => ?_, fun q hq => ?_⟩
    · rw [ih.2.2.1 s, List.lookup_cons]
      by_cases e : s = r
      · subst e
        have : l.lookup s = none := by
          rw [List.lookup_eq_none_iff]
          intro x hx
          cases hc : s == x.1 with
          | false => simpa using hc
          | true => exact absurd (List.mem_map.2 ⟨x, hx, (beq_iff_eq.1 hc).symm⟩) hn.1
        simp [this, put_same]
      · have e' : (s == r) = false := by simpa using e
        simp only [e']
        rw [put_other _ _ (fun c => e (file_inj (List.append_cancel_left c)))]
    · rw [ih.2.2.2 q hq, put_other _ _ (hq r)]

/-- What one action writes. -/
private def pairs : Act V → List (FileRole × Obj V)
  | .box v => [(.settings, .box v)]
  | .oracle v => [(.oracle, .oracle v)]
  | .split r a b c e => [(.train, .table a), (.test, .table b), (.labelled r, .table c), (.unlabelled r, .table e)]
  | .round k v => [(.round k, .saver v)]
  | .threads v => [(.threads, .threads v)]
  | .thread k v => [(.thread k, .saver v)]

private theorem pairs_nodup (a : Act V) : ((pairs a).map Prod.fst).Nodup := by
  cases a <;> simp [pairs]

private theorem pairs_kept (a : Act V) (r : FileRole) : (pairs a).lookup r = kept a r := by
  have hb : ∀ a b : FileRole, (a == b) = decide (a = b) := fun a b => by
    by_cases h : a = b <;> simp [h]
  cases a <;> cases r <;> simp [pairs, kept, List.lookup_cons, hb] <;> (split <;> simp_all) <;> (intro e; simp_all)

private theorem act_eq {d : Disk V} {p : Path} (h : Ready d p) (a : Act V) :
    act p d a = writeAll d ((pairs a).map fun x => (p ++ x.1.file, x.2)) := by
  have hd : isdir d p = true := by simp [isdir, h.dir]
  have hr : isdir d (p ++ ["AL_result"]) = true := by simp [isdir, h.result]
  have one : ∀ (q : Path) (o : Obj V), write d q o = writeAll d [(q, o)] := by
    intro q o
    simp only [writeAll]
    split <;> simp_all
  cases a with
  | box v => simp only [act, saveBox, hd, if_true, pairs, List.map_cons, List.map_nil, FileRole.file]; exact one _ _
  | oracle v => simp only [act, saveOracle, hd, if_true, pairs, List.map_cons, List.map_nil, FileRole.file]; exact one _ _
  | split r a b c e => cases r <;> simp [act, saveSplit, hd, pairs, FileRole.file]
  | round k v => simp only [act, newSaver, hd, if_true, Saver.save, pairs, List.map_cons, List.map_nil, FileRole.file]; exact one _ _
  | threads v => simp only [act, saveThreads, hd, if_true, pairs, List.map_cons, List.map_nil, FileRole.file]; exact one _ _
  | thread k v =>
    simp only [act, newSaver, hr, if_true, Saver.save, pairs, List.map_cons, List.map_nil, FileRole.file, List.append_assoc]; exact one _ _

private theorem act_spec {d : Disk V} {p : Path} (h : Ready d p) (a : Act V) :
    (act p d a).2 = none ∧ Ready (act p d a).1 p ∧
    (∀ r : FileRole, (act p d a).1 (p ++ r.file) = match kept a r with | some o => some (.file o) | none => d (p ++ r.file)) ∧
    ∀ q, (∀ r : FileRole, q ≠ p ++ r.file) → (act p d a).1 q = d q := by
  have := writeAll_roles (pairs a) h (pairs_nodup a)
  rw [← act_eq h a] at this
  simpa only [pairs_kept] using this

/-- **C120.** Whatever is saved in a directory, how often and in what order — toolbox, oracle, splits, savers of rounds, `aceThreading`
objects and the savers of their rounds: no save fails, every one of these has its own file, the file holds what was saved last under it
(and what it held before if nothing was), and no other file is touched. -/
theorem C120_files {d : Disk V} {p : Path} (h : Ready d p) (l : List (Act V)) :
    (acts p d l).2 = [] ∧ (∀ r s : FileRole, r ≠ s → p ++ r.file ≠ p ++ s.file) ∧
    (∀ (r : FileRole) (o : Obj V), lastKept l r = some o → load (acts p d l).1 (p ++ r.file) = .ok o) ∧
    (∀ r : FileRole, lastKept l r = none → (acts p d l).1 (p ++ r.file) = d (p ++ r.file)) ∧
    ∀ q, (∀ r : FileRole, q ≠ p ++ r.file) → (acts p d l).1 q = d q := by
  have main : ∀ (l : List (Act V)) (d : Disk V), Ready d p → (acts p d l).2 = [] ∧
      (∀ r : FileRole, (acts p d l).1 (p ++ r.file) = match lastKept l r with | some o => some (.file o) | none => d (p ++ r.file)) ∧
      ∀ q, (∀ r : FileRole, q ≠ p ++ r.file) → (acts p d l).1 q = d q := by
    intro l
    induction l with
    | nil => intro d _; exact ⟨rfl, fun _ => rfl, fun _ _ => rfl⟩
    | cons a l ih =>
      intro d h
      obtain ⟨h1, h2, h3, h4⟩ := act_spec h a
      obtain ⟨i1, i2, i3⟩ := ih _ h2
      refine ⟨by simp [acts, h1, i1], fun r => ?_, fun q hq => ?_⟩
      · simp only [acts]
        rw [i2 r, h3 r]
        simp only [lastKept, List.reverse_cons, List.findSome?_append]
        cases hl : l.reverse.findSome? (fun a => kept a r) with
        | some o => simp
        | none => cases hk : kept a r <;> simp [hk]
      · simp only [acts]
        rw [i3 q hq, h4 q hq]
  obtain ⟨m1, m2, m3⟩ := main l d h
  refine ⟨m1, fun r s hrs e => hrs (file_inj (List.append_cancel_left e)), fun r o ho => ?_, fun r hr => ?_, m3⟩
  · simp [load, m2 r, ho]
  · rw [m2 r, hr]

/-- **C120.** The object made by `aceThreading(..., saving_path=p)` finds the directories it needs: if nothing called `AL_result` was in
the way and no part of the path is a file, they are there afterwards, no file has changed, and the saver of round `i` writes
`AL_result/AL_round_i.pkl`. So `save` always writes `multi_thread_state.pkl`. -/
theorem C120_threads (d : Disk V) (p : Path) (n : Nat) (hfree : d (p ++ ["AL_result"]) = none ∨ d (p ++ ["AL_result"]) = some .dir)
    (hup : d (p ++ ["AL_result"]) = some .dir → d p = some .dir) (hway : ∀ q, q <+: p → ∀ o, d q ≠ some (.file o)) :
    ∃ ss, (newThreads d p n).2 = .ok ss ∧ ss.length = n ∧
      (∀ i (hi : i < ss.length), ss[i] = ⟨some (p ++ ["AL_result"]), "AL_round_" ++ (i : Int).repr ++ ".pkl"⟩) ∧
      (newThreads d p n).1 p = some .dir ∧ (newThreads d p n).1 (p ++ ["AL_result"]) = some .dir ∧
      ∀ q o, (newThreads d p n).1 q = some (.file o) ↔ d q = some (.file o) := by
  rcases hfree with hf | hf
  · have hall : (List.range ((p ++ ["AL_result"]).length + 1)).all (fun n => !isfile d ((p ++ ["AL_result"]).take n)) = true := by
      rw [List.all_eq_true]
      intro k hk
      by_cases hle : k ≤ p.length
      · rw [List.take_append_of_le_length hle]
        have := hway (p.take k) (List.take_prefix _ _)
        unfold isfile
        split
        · rename_i o e; exact absurd e (this o)
        · rfl
      · have : (p ++ ["AL_result"]).take k = p ++ ["AL_result"] := List.take_of_length_le (by simp; omega)
        rw [this, isfile, hf]
        rfl
    have hm : makedirs d (p ++ ["AL_result"]) = (fun q => if q <+: p ++ ["AL_result"] then some .dir else d q, none) := by
      unfold makedirs; rw [if_pos hall]
    have hn : newThreads d p n = (fun q => if q <+: p ++ ["AL_result"] then some .dir else d q,
        .ok ((List.range n).map (fun (i : Nat) => ⟨some (p ++ ["AL_result"]), "AL_round_" ++ (i : Int).repr ++ ".pkl"⟩))) := by
      simp [newThreads, hf, hm, newSaver, isdir]
    rw [hn]
    refine ⟨_, rfl, by simp, ?_, ?_, ?_, ?_⟩
    · intro i hi
      simp
    · simp
    · simp
    · intro q o
      by_cases hq : q <+: p ++ ["AL_result"]
      · simp only [hq, if_true]
        constructor
        · intro c; simp at c
        · intro c
          rcases List.prefix_concat_iff.1 (by simpa using hq) with e | e
          · rw [e] at c; simp [hf] at c
          · exact absurd c (hway q e o)
      · simp [hq]
  · have hn : newThreads d p n = (d,
        .ok ((List.range n).map (fun (i : Nat) => ⟨some (p ++ ["AL_result"]), "AL_round_" ++ (i : Int).repr ++ ".pkl"⟩))) := by
      simp [newThreads, hf, newSaver, isdir]
    rw [hn]
    exact ⟨_, rfl, by simp, fun i hi => by simp, hup hf, hf, fun q o => Iff.rfl⟩

/-- **C120.** A saver knows its file from the moment it is made: made at two moments at which the directory is there, it is the same. With
no path nothing is ever written. -/
theorem C120_saver (d d' : Disk V) (p : Path) (k : Int) (h : d p = some .dir) (h' : d' p = some .dir) (v : V) :
    newSaver d k (some p) = newSaver d' k (some p) ∧ newSaver d k (some p) = ⟨some p, "AL_round_" ++ k.repr ++ ".pkl"⟩ ∧
    (newSaver d k none).save d v = (d, none) ∧ saveBox d none v = (d, none) ∧ saveOracle d none v = (d, none) ∧
    ∀ r a b c, saveSplit d none r v a b c = (d, none) := by
  simp [newSaver, isdir, h, h', Saver.save, saveBox, saveOracle, saveSplit]

/-- **C120.** The saver of `get_stateio(round, saving_path)` writes where it is told: into the directory passed, or to the file passed;
without a path beside the settings of the toolbox, whether the toolbox was given a directory or a file. A toolbox without a path makes
savers without one. -/
theorem C120_stateio (d : Disk V) (box : Option Path) (k : Int) :
    (∀ p, d p = some .dir → getStateio d (boxDir d box) k (some p) = ⟨some p, "AL_round_" ++ k.repr ++ ".pkl"⟩) ∧
    (∀ p name, d (p ++ [name]) ≠ some .dir → getStateio d (boxDir d box) k (some (p ++ [name])) = ⟨some p, name⟩) ∧
    (∀ p, d p = some .dir → box = some p → getStateio d (boxDir d box) k none = ⟨some p, "AL_round_" ++ k.repr ++ ".pkl"⟩) ∧
    (∀ p name, d p = some .dir → d (p ++ [name]) ≠ some .dir → box = some (p ++ [name]) →
      getStateio d (boxDir d box) k none = ⟨some p, "AL_round_" ++ k.repr ++ ".pkl"⟩) ∧
    (box = none → (getStateio d (boxDir d box) k none).dir = none) := by
  have hn : ∀ q, d q ≠ some .dir → isdir d q = false := by
    intro q hq
    unfold isdir
    split
    · next h => exact absurd h hq
    · rfl
  refine ⟨?_, ?_, ?_, ?_, ?_⟩
  · intro p hp
    simp [getStateio, newSaver, isdir, hp]
  · intro p name hp
    simp [getStateio, newSaver, hn _ hp]
  · rintro p hp rfl
    simp [getStateio, boxDir, newSaver, isdir, hp]
  · rintro p name hp hq rfl
    have hi : isdir d p = true := by simp [isdir, hp]
    simp [getStateio, boxDir, newSaver, hn _ hq, hi]
  · rintro rfl
    rfl

/-- **C120.** What can be written can be read back, and nothing else has changed; reading what is not there raises `FileNotFoundError`, and
neither a directory can be read nor a file below a missing directory be written. -/
theorem C120_write (d : Disk V) (p : Path) (o : Obj V) :
    ((write d p o).2 = none ↔ d p ≠ some .dir ∧ d p.dropLast = some .dir) ∧
    ((write d p o).2 = none → load (write d p o).1 p = .ok o) ∧
    ((write d p o).2 ≠ none → (write d p o).1 = d) ∧
    (∀ q, q ≠ p → load (write d p o).1 q = load d q) ∧
    (load d p = .error .fileNotFoundError ↔ d p = none) ∧
    (d p = some .dir → load d p = .error .genericException ∧ (write d p o).2 = some .genericException) ∧
    (d p ≠ some .dir → d p.dropLast ≠ some .dir → (write d p o).2 = some .fileNotFoundError) := by
  have hi : ∀ q, isdir d q = true ↔ d q = some .dir := by
    intro q
    unfold isdir
    split
    · next h => simp [h]
    · next h => simp only [Bool.false_eq_true, false_iff]; exact h
  have hl : (load d p = .error .fileNotFoundError ↔ d p = none) := by
    unfold load
    rcases h : d p with _ | _ | _ <;> simp
  by_cases h1 : d p = some .dir
  · have e : write d p o = (d, some .genericException) := by
      unfold write
      rw [if_pos ((hi p).2 h1)]
    simp [e, h1, load]
  · have h1' : isdir d p ≠ true := fun e => h1 ((hi p).1 e)
    by_cases h2 : d p.dropLast = some .dir
    · have e : write d p o = (put d p (.file o), none) := by
        unfold write
        rw [if_neg h1', if_pos ((hi _).2 h2)]
      refine ⟨by simp [e, h1, h2], by simp [e, load, put], by simp [e], ?_, hl, by simp [h1], by simp [h2]⟩
      intro q hq
      simp [e, load, put, hq]
    · have e : write d p o = (d, some .fileNotFoundError) := by
        unfold write
        rw [if_neg h1', if_neg (fun e => h2 ((hi _).1 e))]
      exact ⟨by simp [e, h2], by simp [e], by simp [e], by simp [e], hl, by simp [h1], by simp [e]⟩

/-- The code breaks this when the path is not a directory that is there — a file, or a directory yet to be made: all rounds are written
to that one file, and after the second it is as if the first had never been saved. -/
theorem C120_one_file_violation (d : Disk V) (p : Path) (hp : p ≠ []) (h : d p ≠ some .dir) (hup : d p.dropLast = some .dir) (j k : Int) (v w : V) :
    (acts p d [.round j v, .round k w]).1 = (acts p d [.round k w]).1 ∧
    load (acts p d [.round j v, .round k w]).1 p = .ok (.saver w) := by
  have hi : isdir d p = false := by
    unfold isdir
    split
    · contradiction
    · rfl
  have hu : isdir d p.dropLast = true := by simp [isdir, hup]
  have hne : p.dropLast ≠ p := by
    intro e
    have := congrArg List.length e
    have := List.length_pos_iff.2 hp
    simp at *
    omega
  have hj : p.dropLast ++ [p.getLastD ""] = p := by
    rw [List.getLastD_eq_getLast?, List.getLast?_eq_some_getLast hp]
    simpa using List.dropLast_concat_getLast hp
  have one : ∀ (d : Disk V), isdir d p = false → isdir d p.dropLast = true → ∀ k v, act p d (.round k v) = (put d p (.file (.saver v)), none) := by
    intro d hi hu k v
    simp only [act, newSaver, hi, Bool.false_eq_true, if_false, Saver.save, hj, write, hu, if_true]
  have hi' : isdir (put d p (.file (.saver v))) p = false := by simp [isdir, put_same]
  have hu' : isdir (put d p (.file (.saver v))) p.dropLast = true := by simp [isdir, put_other _ _ hne, hup]
  constructor
  · simp only [acts, one d hi hu, one _ hi' hu']
    funext q
    simp only [put]
    split <;> simp_all
  · simp [acts, one d hi hu, one _ hi' hu', load, put_same]

/-- The code breaks this also when two methods are compared with one toolbox, as in the examples: `get_stateio(k)` gives both methods
savers with the same file, so the results of the first are lost when the second saves. And although `saving_path=None` is documented not
to save the intermediate results, they are saved. -/
theorem C120_methods_violation {d : Disk V} {p : Path} (h : Ready d p) (k : Int) (v w : V) :
    let s := getStateio d (boxDir d (some p)) k none
    let s' := getStateio (s.save d v).1 (boxDir d (some p)) k none
    s' = s ∧ (s'.save (s.save d v).1 w).1 = (s.save d w).1 ∧ load (s.save d v).1 (p ++ ["AL_round_" ++ k.repr ++ ".pkl"]) = .ok (.saver v) := by
  have hd : isdir d p = true := by simp [isdir, h.dir]
  have hb : boxDir d (some p) = some p := by simp [boxDir, hd]
  have hs : getStateio d (boxDir d (some p)) k none = ⟨some p, "AL_round_" ++ k.repr ++ ".pkl"⟩ := by simp [hb, getStateio, newSaver, hd]
  have hw : ∀ {d : Disk V}, Ready d p → ∀ v, Saver.save d ⟨some p, "AL_round_" ++ k.repr ++ ".pkl"⟩ v = (put d (p ++ (FileRole.round k).file) (.file (.saver v)), none) := by
    intro d h v
    exact write_role h (.round k) (.saver v)
  have h' := ready_put h (.round k) (.saver v)
  have hd' : isdir (put d (p ++ (FileRole.round k).file) (.file (.saver v))) p = true := by simp [isdir, h'.dir]
  intro s s'
  have e1 : s = ⟨some p, "AL_round_" ++ k.repr ++ ".pkl"⟩ := hs
  have e2 : s' = ⟨some p, "AL_round_" ++ k.repr ++ ".pkl"⟩ := by
    simp only [s', e1, hw h, hb, getStateio, newSaver, hd', if_true]
  refine ⟨e2.trans e1.symm, ?_, ?_⟩
  · rw [e2, e1, hw h, hw h', hw h]
    funext q
    simp only [put]
    split <;> simp_all
  · rw [e1, hw h]
    simp [load, put, FileRole.file]

/-- The code also mixes splits: after a split whose label sets form a table, and then one whose label sets do not, `split_load` gives the
training and test sets of the second with the label sets of the first. -/
theorem C120_mixed_split_violation {d : Disk V} {p : Path} (h : Ready d p) (a b c e a' b' c' e' : V) :
    let d' := (acts p d [.split false a b c e, .split true a' b' c' e']).1
    loadTable d' p "train_idx.txt" = .ok (some (.table a')) ∧ loadTable d' p "test_idx.txt" = .ok (some (.table b')) ∧
    loadTable d' p "label_idx.txt" = .ok (some (.table c)) ∧ loadTable d' p "unlabel_idx.txt" = .ok (some (.table e)) := by
  have hf := (C120_files h [.split false a b c e, .split true a' b' c' e']).2.2.1
  have key : ∀ (d : Disk V) (n : String) (o : Obj V), load d (p ++ [n]) = .ok o → loadTable d p n = .ok (some o) := by
    intro d n o ho
    have : (d (p ++ [n])).isSome := by
      unfold load at ho
      split at ho <;> simp_all
    simp [loadTable, this, ho, Except.map]
  exact ⟨key _ _ _ (hf .train _ rfl), key _ _ _ (hf .test _ rfl), key _ _ _ (hf (.labelled false) _ rfl), key _ _ _ (hf (.unlabelled false) _ rfl)⟩

/-- A directory with only `AL_result` in it. -/
def fresh : Disk Nat := fun q => if q = [] ∨ q = ["work"] ∨ q = ["work", "AL_result"] then some .dir else none

example : Ready fresh ["work"] where
  dir := by simp [fresh]
  result := by simp [fresh]
  free r := by
    have := file_ne_result r
    have := file_ne_nil r
    simp_all [fresh]

example : lastKept [.box 1, .round 0 2, .round 1 3, .round 0 4, .thread 0 5, .box (6 : Nat)] (.round 0) = some (.saver 4) ∧
    lastKept [.box 1, .round 0 2, .round 1 3, .round 0 4, .thread 0 5, .box (6 : Nat)] .settings = some (.box 6) := by decide

example : (load (acts ["work"] fresh [.box 1, .round 0 2, .round (-1) 3, .round 0 4, .thread 0 5, .box 6]).1 ["work", "AL_round_-1.pkl"]).toOption = some (.saver 3) :=
  by decide +kernel

example : fresh ["work", "out"] ≠ some .dir ∧ fresh (["work", "out"] : Path).dropLast = some .dir := by decide

example : (newThreads fresh ["work"] 3).2.toOption = some [⟨some ["work", "AL_result"], "AL_round_0.pkl"⟩, ⟨some ["work", "AL_result"], "AL_round_1.pkl"⟩,
    ⟨some ["work", "AL_result"], "AL_round_2.pkl"⟩] := by decide +kernel

/-- The settings are in a file, the rounds beside it. -/
example : getStateio fresh (boxDir fresh (some ["work", "box.pkl"])) 2 none = ⟨some ["work"], "AL_round_2.pkl"⟩ ∧
    getStateio fresh (boxDir fresh (some ["work", "box.pkl"])) 2 (some ["work", "AL_result"]) = ⟨some ["work", "AL_result"], "AL_round_2.pkl"⟩ := by
  decide +kernel

end Alipy.Files
