import Verif.Spec.ToolBox
import Verif.Props.Split
import Verif.Props.Session
import Verif.Props.IndexCollection
import Verif.Proof.Roc

/-! # C82, C83: what a `ToolBox` keeps, and the objects it hands out -/
namespace Alipy.TB
variable {χ : Type}

/-! ## C82: saving and restoring -/

theorem make_path {y : YArr} {X : Option (List χ)} {w : Int} {ns : Option (List Int)} {q : String} {g : Given} {p : Option String} {b : Box χ}
    (h : make y X w ns q g p = .ok b) : b.path = p := by
  have hr' : ∀ y' ns', make.rest' X w q g p y' ns' = .ok b → b.path = p := by
    intro y' ns' h
    unfold make.rest' at h
    split_ifs at h
    split at h
    · cases h
    · cases h; rfl
  have hr : ∀ y', make.rest X w ns q g p y' = .ok b → b.path = p := by
    intro y' h
    unfold make.rest at h
    split at h
    · split_ifs at h
      exact hr' _ _ h
    · exact hr' _ _ h
  unfold make at h
  dsimp only at h
  split at h
  · split_ifs at h
    exact hr _ h
  · exact hr _ h

theorem save_get {d : Disk χ} {b : Box χ} {p : String} (h : b.path = some p) : (save d b).boxes p = some b := by
  simp [save, h]

theorem save_isDir (d : Disk χ) (b : Box χ) : (save d b).isDir = d.isDir := by
  unfold save; split <;> rfl

/-- The toolbox on the disk under `p` was made for `p`. -/
def Own (p : String) (d : Disk χ) : Prop := ∀ b, d.boxes p = some b → b.path = some p

theorem new_own {p : String} {d : Disk χ} (ho : Own p d) (y : YArr) (X : Option (List χ)) (w : Int) (ns : Option (List Int)) (q : String) (g : Given) :
    Own p (new d y X w ns q g (some p)).1 ∧ (new d y X w ns q g (some p)).1.isDir = d.isDir ∧
    (∀ b, (new d y X w ns q g (some p)).2 = .ok b → (new d y X w ns q g (some p)).1.boxes p = some b ∧ b.path = some p) := by
  unfold new
  split
  · exact ⟨ho, rfl, by simp⟩
  · rename_i b hb
    have hp := make_path hb
    dsimp only
    split
    · rename_i old hold
      refine ⟨ho, rfl, ?_⟩
      intro b' hb'
      cases hb'
      exact ⟨hold, ho _ hold⟩
    · refine ⟨?_, save_isDir _ _, ?_⟩
      · intro b' hb'
        rw [save_get hp] at hb'
        cases hb'
        exact hp
      · intro b' hb'
        cases hb'
        exact ⟨save_get hp, hp⟩

theorem new_old {p : String} {d : Disk χ} {old : Box χ} (h : d.boxes p = some old) (y : YArr) (X : Option (List χ)) (w : Int) (ns : Option (List Int))
    (q : String) (g : Given) :
    (new d y X w ns q g (some p)).1 = d ∧ ∀ b, (new d y X w ns q g (some p)).2 = .ok b → b = old := by
  unfold new
  split
  · exact ⟨rfl, by simp⟩
  · simp only [h]
    exact ⟨trivial, by rintro b hb; cases hb; rfl⟩

/-- C82: a toolbox constructed with a saving path at which there was none is on the disk with all its data and splits: `load` and another
construction at that path, with any (valid) arguments, give that toolbox. -/
theorem C82_constructed_is_saved {d : Disk χ} {p : String} (hnone : d.boxes p = none) {y : YArr} {X : Option (List χ)} {w : Int}
    {ns : Option (List Int)} {q : String} {g : Given} {b : Box χ} (h : (new d y X w ns q g (some p)).2 = .ok b) :
    load (new d y X w ns q g (some p)).1 p = .ok b ∧
    ∀ y' X' w' ns' q' g' b', (new (new d y X w ns q g (some p)).1 y' X' w' ns' q' g' (some p)).2 = .ok b' → b' = b := by
  have hp := (new_own (d := d) (p := p) (by intro b hb; rw [hnone] at hb; cases hb) y X w ns q g).2.2 b h
  refine ⟨by simp [load, hp.1], ?_⟩
  intro y' X' w' ns' q' g' b' hb'
  exact (new_old hp.1 y' X' w' ns' q' g').2 b' hb'

/-- C82: the four given splits are used only if they have the same number of rounds: then a new toolbox has exactly these splits, and that number of rounds;
otherwise there is no toolbox. -/
theorem C82_given_splits {d : Disk χ} {path : Option String} (hfresh : ∀ p, path = some p → d.boxes p = none) {y : YArr} {X : Option (List χ)} {w : Int}
    {ns : Option (List Int)} {q : String} {tr te : List (List Int)} {l u : List (List Elem)} {b : Box χ}
    (h : (new d y X w ns q ⟨some tr, some te, some l, some u⟩ path).2 = .ok b) :
    te.length = tr.length ∧ l.length = tr.length ∧ u.length = tr.length ∧ b.splits = some ⟨tr, te, l, u⟩ ∧ b.count = some tr.length := by
  have hmk : make y X w ns q ⟨some tr, some te, some l, some u⟩ path = .ok b := by
    unfold new at h
    split at h
    · cases h
    · rename_i b0 hb0
      split at h
      · cases h; exact hb0
      · rename_i p
        rw [hfresh p rfl] at h
        cases h; exact hb0
  have hrest : ∀ y ns, make.rest' X w q ⟨some tr, some te, some l, some u⟩ path y ns = .ok b →
      te.length = tr.length ∧ l.length = tr.length ∧ u.length = tr.length ∧ b.splits = some ⟨tr, te, l, u⟩ ∧ b.count = some tr.length := by
    intro y ns h
    unfold make.rest' takeGiven at h
    split_ifs at h
    rename_i hl
    dsimp only at h
    split_ifs at h with hc
    · cases h
      exact ⟨hc.1.symm, (hc.1.trans hc.2.1).symm, (hc.1.trans (hc.2.1.trans hc.2.2)).symm, rfl, rfl⟩
  unfold make at hmk
  dsimp only at hmk
  have hrest1 : ∀ y, make.rest X w ns q ⟨some tr, some te, some l, some u⟩ path y = .ok b →
      te.length = tr.length ∧ l.length = tr.length ∧ u.length = tr.length ∧ b.splits = some ⟨tr, te, l, u⟩ ∧ b.count = some tr.length := by
    intro y h
    unfold make.rest at h
    split at h
    · split_ifs at h
      exact hrest _ _ h
    · exact hrest _ _ h
  split at hmk
  · split_ifs at hmk
    exact hrest1 _ hmk
  · exact hrest1 _ hmk

/-- C82: after a first `split_AL` of a toolbox which is saved in a directory, the split is on the disk; another `split_AL` returns the same
split and changes nothing. -/
theorem C82_split_is_saved_partial {d d' : Disk χ} {b b' : Box χ} {p : String} (hp : b.path = some p) (hs : b.splits = none) {tr rate : ℚ} {ac : Bool}
    {shs : List (List Sh)} {s : Splits} (h : splitAL d b tr rate ac shs = some (d', b', .ok s)) :
    load d' p = .ok b' ∧ b'.splits = some s ∧ b'.y = b.y ∧ b'.X = b.X ∧ b'.names = b.names ∧ b'.qtype = b.qtype ∧
    ∀ tr' rate' ac' shs', splitAL d' b' tr' rate' ac' shs' = some (d', b', .ok s) := by
  unfold splitAL at h
  rw [hs] at h
  dsimp only at h
  split at h
  · cases h
  · cases h
  · split_ifs at h
    · cases h
      refine ⟨?_, rfl, rfl, rfl, rfl, rfl, ?_⟩
      · simp only [load]
        rw [save_get (b := { b with splits := some s, count := some shs.length }) hp]
      · intro tr' rate' ac' shs'
        simp [splitAL]
    · simp at h

theorem run_keeps {p : String} {d d' : Disk χ} (ho : Own p d) {c : Script χ} {res : Except PyErr (Box χ × Splits)} (h : c.run p d = some (d', res)) :
    Own p d' ∧ ∀ b s, res = .ok (b, s) → d'.boxes p = some b ∧ b.splits = some s := by
  unfold Script.run at h
  obtain ⟨h1, h2, h3⟩ := new_own ho c.y c.X c.width c.names c.qtype c.given
  split at h
  · rename_i d1 e he
    rw [he] at h1
    cases h
    exact ⟨h1, by simp⟩
  · rename_i d1 b1 he
    rw [he] at h1 h2 h3
    obtain ⟨h4, h5⟩ := h3 b1 rfl
    dsimp only at h1 h2 h4
    cases hs : b1.splits with
    | some s0 =>
      simp only [splitAL, hs] at h
      cases h
      refine ⟨h1, ?_⟩
      rintro b s hbs
      cases hbs
      exact ⟨h4, hs⟩
    | none =>
      simp only [splitAL, hs] at h
      split at h
      · cases h
      · rename_i hq
        split at hq
        · cases hq
        · cases hq; cases h
          exact ⟨h1, by simp⟩
        · split_ifs at hq
          · cases hq
          · cases hq; cases h
            exact ⟨h1, by simp⟩
      · rename_i hq
        split at hq
        · cases hq
        · cases hq
        · split_ifs at hq
          · cases hq
            cases h
            refine ⟨?_, ?_⟩
            · intro b hb
              rw [save_get (by exact h5)] at hb
              cases hb
              exact h5
            · rintro b s hbs
              cases hbs
              exact ⟨save_get (by exact h5), rfl⟩
          · simp at hq

theorem run_old {p : String} {d : Disk χ} {old : Box χ} {s : Splits} (h : d.boxes p = some old) (hs : old.splits = some s) (c : Script χ) :
    ∃ res, c.run p d = some (d, res) ∧ ∀ b t, res = .ok (b, t) → b = old ∧ t = s := by
  obtain ⟨h1, h2⟩ := new_old h c.y c.X c.width c.names c.qtype c.given
  unfold Script.run
  cases hn : new d c.y c.X c.width c.names c.qtype c.given (some p) with
  | mk d1 r =>
    rw [hn] at h1 h2
    dsimp only at h1 h2
    subst h1
    cases r with
    | error e => exact ⟨_, rfl, by simp⟩
    | ok b =>
      have := h2 b rfl
      subst this
      refine ⟨.ok (b, s), by simp [splitAL, hs], ?_⟩
      rintro b' t hbt
      cases hbt
      exact ⟨rfl, rfl⟩

theorem runs_old {p : String} {d : Disk χ} {old : Box χ} {s : Splits} (h : d.boxes p = some old) (hs : old.splits = some s) :
    ∀ cs : List (Script χ), ∀ b t, (Except.ok (b, t)) ∈ runs p d cs → b = old ∧ t = s
  | [], b, t, hm => by simp [runs] at hm
  | c :: r, b, t, hm => by
    obtain ⟨res, h1, h2⟩ := run_old h hs c
    simp only [runs, h1, List.mem_cons] at hm
    rcases hm with hm | hm
    · exact h2 b t hm.symm
    · exact runs_old h hs r b t hm

/-- C82: a script that constructs its toolbox at the path `p` and splits gets the same toolbox and the same split in every run, no matter what
data, ratios and random numbers the later runs are given, and whichever runs fail in between. -/
theorem C82_reruns_agree_partial {p : String} : ∀ {d : Disk χ}, Own p d → ∀ (cs : List (Script χ)) (b b' : Box χ) (s s' : Splits),
    (Except.ok (b, s)) ∈ runs p d cs → (Except.ok (b', s')) ∈ runs p d cs → b = b' ∧ s = s'
  | d, _, [], b, b', s, s', h, _ => by simp [runs] at h
  | d, ho, c :: r, b, b', s, s', h, h' => by
    cases hr : c.run p d with
    | none =>
      simp only [runs, hr] at h h'
      exact C82_reruns_agree_partial (new_own ho c.y c.X c.width c.names c.qtype c.given).1 r b b' s s' h h'
    | some q =>
      obtain ⟨d1, res⟩ := q
      obtain ⟨k1, k2⟩ := run_keeps ho hr
      simp only [runs, hr, List.mem_cons] at h h'
      cases hres : res with
      | error e =>
        subst hres
        have h1 := h.resolve_left (by simp)
        have h2 := h'.resolve_left (by simp)
        exact C82_reruns_agree_partial k1 r b b' s s' h1 h2
      | ok bs =>
        obtain ⟨b0, s0⟩ := bs
        subst hres
        obtain ⟨g1, g2⟩ := k2 b0 s0 rfl
        have e1 : b = b0 ∧ s = s0 := by
          rcases h with h | h
          · cases h; exact ⟨rfl, rfl⟩
          · exact runs_old g1 g2 r b s h
        have e2 : b' = b0 ∧ s' = s0 := by
          rcases h' with h' | h'
          · cases h'; exact ⟨rfl, rfl⟩
          · exact runs_old g1 g2 r b' s' h'
        exact ⟨e1.1.trans e2.1.symm, e1.2.trans e2.2.symm⟩

/-- C82, violation: with a file (not a directory) as saving path `split_AL` never succeeds, whatever the data and the random numbers: the split is
computed, then `split_save` refuses the path; the toolbox stays unsplit. -/
theorem C82_file_path_violation {d : Disk χ} {b : Box χ} {p : String} (hp : b.path = some p) (hf : d.isDir p = false) (hs : b.splits = none)
    {tr rate : ℚ} {ac : Bool} {shs : List (List Sh)} {d' : Disk χ} {b' : Box χ} {res : Except PyErr Splits}
    (h : splitAL d b tr rate ac shs = some (d', b', res)) : (∃ e, res = .error e) ∧ d' = d ∧ b'.splits = none := by
  unfold splitAL at h
  rw [hs] at h
  dsimp only at h
  split at h
  · cases h
  · cases h; exact ⟨⟨_, rfl⟩, rfl, rfl⟩
  · split_ifs at h with hpk
    · simp [pathOk, hp, hf] at hpk
    · cases h
      exact ⟨⟨_, rfl⟩, rfl, rfl⟩

/-- C82, violation: two toolbox objects constructed at the same path before either is split do not agree: each keeps its own split, and the disk has
the later one. -/
theorem C82_two_objects_violation {d : Disk χ} {b : Box χ} {p : String} (hp : b.path = some p) (hd : d.isDir p = true) (hs : b.splits = none)
    {tr rate : ℚ} {ac : Bool} {shs shs' : List (List Sh)} {s s' : Splits}
    (h : callSplit b tr rate ac shs = some (.ok s)) (h' : callSplit b tr rate ac shs' = some (.ok s')) (hne : s ≠ s') :
    ∃ d1 b1 d2 b2, splitAL d b tr rate ac shs = some (d1, b1, .ok s) ∧ splitAL d1 b tr rate ac shs' = some (d2, b2, .ok s') ∧
      b1.splits = some s ∧ load d2 p = .ok b2 ∧ b2.splits = some s' ∧ b1.splits ≠ b2.splits := by
  have hpk : ∀ (d : Disk χ), d.isDir p = true → ∀ n, pathOk d { b with splits := none, count := some n } = true := by
    intro d hd n; simp [pathOk, hp, hd]
  have hc : ∀ n, callSplit { b with splits := none, count := some n } tr rate ac shs = some (.ok s) := fun _ => h
  have hc' : ∀ n, callSplit { b with splits := none, count := some n } tr rate ac shs' = some (.ok s') := fun _ => h'
  refine ⟨save d { b with splits := some s, count := some shs.length }, { b with splits := some s, count := some shs.length },
    save (save d { b with splits := some s, count := some shs.length }) { b with splits := some s', count := some shs'.length },
    { b with splits := some s', count := some shs'.length }, ?_, ?_, rfl, ?_, rfl, ?_⟩
  · simp only [splitAL, hs, hc, hpk d hd, if_true]
  · simp only [splitAL, hs, hc']
    rw [if_pos (hpk _ (by rw [save_isDir]; exact hd) _)]
  · simp only [load]
    rw [save_get (b := { b with splits := some s', count := some shs'.length }) hp]
  · simpa using hne

/-- C82, violation: the saving path is pickled. A toolbox which was moved on the disk from `q` to `p` before it was split is found under `p` but saved
under `q`: the toolbox under `p` stays unsplit, and the next run splits anew. -/
theorem C82_moved_violation {d : Disk χ} {b : Box χ} {p q : String} (hb : d.boxes p = some b) (hp : b.path = some q) (hpq : p ≠ q) (hs : b.splits = none)
    {tr rate : ℚ} {ac : Bool} {shs : List (List Sh)} {d' : Disk χ} {b' : Box χ} {s : Splits}
    (h : splitAL d b tr rate ac shs = some (d', b', .ok s)) : load d' p = .ok b ∧ b.splits = none ∧ load d' q = .ok b' := by
  unfold splitAL at h
  rw [hs] at h
  dsimp only at h
  split at h
  · cases h
  · cases h
  · split_ifs at h
    · cases h
      refine ⟨?_, hs, ?_⟩
      · simp [load, save, hp, hpq, hb]
      · simp only [load]
        rw [save_get (b := { b with splits := some s, count := some shs.length }) hp]
    · simp at h

/-! ## C83: the objects of one round fit together -/

theorem coerce_ints (np : Bool) (l : List Int) : IC.coerce (l.map (fun n => (⟨np, .int n⟩ : Val))) = l.map (fun n => Base.int n) := by
  unfold IC.coerce
  have h1 : (l.map (fun n => (⟨np, .int n⟩ : Val))).any (fun v => v.base.kind == .str) = false := by
    simp [List.any_eq_false, Base.kind]
  rw [h1]
  cases l with
  | nil => simp
  | cons a t => simp [Base.kind, Base.key]

theorem uniq_ints : ∀ l : List Int, l.Nodup → IC.uniq (l.map (fun n => Base.int n)) = l.map (fun n => Base.int n)
  | [], _ => rfl
  | a :: t, h => by
    rw [List.nodup_cons] at h
    simp only [List.map_cons, IC.uniq, uniq_ints t h.2, List.cons.injEq, true_and]
    rw [List.filter_eq_self]
    intro c hc
    obtain ⟨n, hn, rfl⟩ := List.mem_map.1 hc
    have : n ≠ a := fun e => h.1 (e ▸ hn)
    simp [Base.key, this]

/-- The collection of distinct integers holds them in ascending order. -/
theorem mk_ints (np : Bool) {l : List Int} (hd : l.Nodup) : ∃ m : List Int, m.Perm l ∧ m.Pairwise (· ≤ ·) ∧
    ∀ (np' : Bool), IC.mk' (l.map (fun n => (⟨np, .int n⟩ : Val))) = IC.mk' (m.map (fun n => (⟨np', .int n⟩ : Val))) ∧
    (IC.mk' (l.map (fun n => (⟨np, .int n⟩ : Val)))).inner = m.map (fun n => ⟨true, .int n⟩) := by
  set g : Base → Int := fun b => match b with | .int n => n | _ => 0 with hg
  have hp := sortBy_perm Base.le (l.map (fun n => Base.int n))
  set m := (sortBy Base.le (l.map (fun n => Base.int n))).map g with hm
  have e1 : m.Perm l := by
    have := hp.map g
    rw [List.map_map] at this
    simpa [Function.comp_def, hg] using this
  have e2 : sortBy Base.le (l.map (fun n => Base.int n)) = m.map (fun n => Base.int n) := by
    rw [hm, List.map_map]
    symm
    conv_rhs => rw [← List.map_id (sortBy Base.le (l.map (fun n => Base.int n)))]
    apply List.map_congr_left
    intro b hb
    obtain ⟨n, _, rfl⟩ := List.mem_map.1 (hp.mem_iff.1 hb)
    rfl
  have hle : ∀ a b : Int, Base.le (.int a) (.int b) = decide (a ≤ b) := by intro a b; simp [Base.le, Base.key]
  have e3 : m.Pairwise (· ≤ ·) := by
    have h2 := (C02_constructor_partial (l.map (fun n => (⟨np, .int n⟩ : Val))) (Or.inr (by
      intro v hv; obtain ⟨n, _, rfl⟩ := List.mem_map.1 hv; simp [Base.kind]))).2
    rw [IC.mk'_inner, IC.npUnique, coerce_ints, uniq_ints l hd, e2] at h2
    simpa [List.pairwise_map, hle] using h2
  have e4 : ∀ np', IC.npUnique (m.map (fun n => (⟨np', .int n⟩ : Val))) = m.map (fun n => ⟨true, .int n⟩) := by
    intro np'
    rw [IC.npUnique, coerce_ints, uniq_ints m (e1.nodup_iff.2 hd), sortBy_of_sorted, List.map_map]
    · rfl
    · simpa [List.pairwise_map, hle] using e3
  have e5 : IC.npUnique (l.map (fun n => (⟨np, .int n⟩ : Val))) = m.map (fun n => ⟨true, .int n⟩) := by
    rw [IC.npUnique, coerce_ints, uniq_ints l hd, e2, List.map_map]
    rfl
  refine ⟨m, e1, e3, fun np' => ⟨?_, ?_⟩⟩
  · unfold IC.mk'
    rw [e4, e5]
  · rw [IC.mk'_inner, e5]

theorem toVals_inst (l : List Int) : toVals (l.map Elem.inst) = l.map (fun n => (⟨true, .int n⟩ : Val)) := by
  unfold toVals
  rw [List.filterMap_map]
  induction l with
  | nil => rfl
  | cons a t ih => simp only [List.filterMap_cons, Function.comp, List.map_cons] at ih ⊢; rw [ih]

theorem nats_of {n : Nat} {m : List Int} (h : ∀ x ∈ m, 0 ≤ x ∧ x < (n : Int)) :
    ∃ ms : List Nat, m = ms.map (fun k : Nat => (k : Int)) ∧ ∀ k ∈ ms, k < n := by
  refine ⟨m.map Int.toNat, ?_, ?_⟩
  · rw [List.map_map]
    conv_lhs => rw [← List.map_id m]
    apply List.map_congr_left
    intro x hx
    have := (h x hx).1
    simp [this]
  · intro k hk
    obtain ⟨x, hx, rfl⟩ := List.mem_map.1 hk
    have := h x hx
    omega

theorem pyAtAll_nats (ys : List Int) : ∀ ms : List Nat, (∀ k ∈ ms, k < ys.length) →
    ∃ bs, pyAtAll ys (ms.map (fun k : Nat => (k : Int))) = .ok bs ∧ ms.map (fun k => ys[k]?) = bs.map some
  | [], _ => ⟨[], rfl, rfl⟩
  | k :: t, h => by
    obtain ⟨bs, h1, h2⟩ := pyAtAll_nats ys t (fun j hj => h j (List.mem_cons_of_mem _ hj))
    have hk : k < ys.length := h k (by simp)
    refine ⟨ys[k] :: bs, ?_, ?_⟩
    · simp only [List.map_cons, pyAtAll]
      have : pyAt ys (k : Int) = some ys[k] := by simp [pyAt, hk]
      rw [this, h1]
      rfl
    · simp [h2, hk]

/-- The objects for one round of an experiment. -/
structure Kit (χ : Type) where
  train : List Int
  test : List Int
  L : IC
  U : IC
  repo : MRepo Key Int
  oracle : Oracle χ (Lab Int)

/-- What a script gets from its toolbox for round `k`: `get_split(k)`, `get_repository(k)` and `get_clean_oracle(byExample, cost)`. -/
def Gets [DecidableEq χ] (b : Box χ) (k : Nat) (byExample : Bool) (cost : Option (List ℚ)) (q : Kit χ) : Prop :=
  getSplit b k = .ok (q.train, q.test, .single q.L q.U) ∧ getRepository b k = .ok (.inl q.repo) ∧
  ∃ labels ex c, getCleanOracle b byExample cost = some (.single labels ex c) ∧
    Oracle.new (fun _ => 0) (labels.map Lab.sc) ex none c = .ok q.oracle

theorem make_fields {y : YArr} {X : Option (List χ)} {w : Int} {q : String} {g : Given} {p : Option String} {b : Box χ}
    (h : make y X w none q g p = .ok b) : b.y = squeeze y ∧ b.X = X ∧ b.qtype = q ∧ b.names = pyRange 0 (ylen (squeeze y)) ∧
    (∀ xs, X = some xs → xs.length = ylen (squeeze y)) ∧ (g.train = none → b.splits = none) := by
  have hr' : ∀ y' ns', make.rest' X w q g p y' ns' = .ok b → b.y = y' ∧ b.X = X ∧ b.qtype = q ∧ b.names = ns' ∧ (g.train = none → b.splits = none) := by
    intro y' ns' h
    unfold make.rest' at h
    split_ifs at h
    split at h
    · cases h
    · rename_i s hs
      cases h
      refine ⟨rfl, rfl, rfl, rfl, ?_⟩
      intro hg
      rw [takeGiven, hg] at hs
      simpa using hs.symm
  have hr : ∀ y', make.rest X w none q g p y' = .ok b → make.rest' X w q g p y' (pyRange 0 (ylen y')) = .ok b := by
    intro y' h
    unfold make.rest at h
    exact h
  unfold make at h
  dsimp only at h
  split at h
  · rename_i xs
    split_ifs at h with hx
    obtain ⟨h1, h2, h3, h4, h5⟩ := hr' _ _ (hr _ h)
    exact ⟨h1, h2, h3, h4, by rintro xs' he; cases he; simpa using hx, h5⟩
  · obtain ⟨h1, h2, h3, h4, h5⟩ := hr' _ _ (hr _ h)
    exact ⟨h1, h2, h3, h4, by simp, h5⟩

/-- Labels which are one number per example: a vector, a column, or a single row. -/
def IsVector (y : YArr) (ys : List Int) : Prop :=
  y = .vec ys ∨ (∃ rows, y = .mat 1 rows ∧ ys = rows.flatten) ∨ ∃ c, y = .mat c [ys]

theorem squeeze_vector {y : YArr} {ys : List Int} (h : IsVector y ys) : squeeze y = .vec ys := by
  rcases h with rfl | ⟨rows, rfl, rfl⟩ | ⟨c, rfl⟩
  · rfl
  · simp [squeeze]
  · simp [squeeze]

/-- C83: a script constructs a toolbox with a vector of labels and default indexes, splits, and takes from it the index sets, the repository
and the oracle for a round whose labelled and unlabelled sets are not empty. All of this succeeds, the sets are those of the split, train and
test partition all examples, the labelled and unlabelled examples partition the training examples; and the loop run with these objects (with any
strategy that chooses from the unlabelled set, any stopping criterion) has the expected outcome: at the end the repository has exactly the true
labels of the labelled examples, and so on. What is missing: see the violations below. -/
theorem C83_round_partial [DecidableEq χ] {d d1 d' : Disk χ} {y : YArr} {ys : List Int} (hvec : IsVector y ys) {X : Option (List χ)} {w : Int}
    {path : Option String} (hfresh : ∀ p, path = some p → d.boxes p = none) {b b' : Box χ}
    (hnew : new d y X w none "AllLabels" {} path = (d1, .ok b)) {tr rate : ℚ} {ac : Bool} {shs : List (List Sh)}
    (hsh : ∀ l ∈ shs, ∀ sh ∈ l, Spec.IsShuffle sh) {s : Splits} (h : splitAL d1 b tr rate ac shs = some (d', b', .ok s))
    {k : Nat} {l u : List Elem} (hl : s.label[k]? = some l) (hu : s.unlabel[k]? = some u) (hlne : l ≠ []) (hune : u ≠ [])
    (byExample : Bool) (cost : Option (List ℚ)) (hcost : ∀ cs, cost = some cs → cs.length = ys.length) :
    ∃ q ls us, Gets b' k byExample cost q ∧ l.Perm (ls.map (fun n : Nat => Elem.inst n)) ∧ u.Perm (us.map (fun n : Nat => Elem.inst n)) ∧
      Spec.Partition q.train q.test (pyRange 0 ys.length) ∧
      Spec.Partition (ls.map (fun n : Nat => (n : Int))) (us.map (fun n : Nat => (n : Int))) q.train ∧
      q.L.inner = ls.map (Spec.item true) ∧ q.U.inner = us.map (Spec.item true) ∧
      ∀ (env : SessionEnv (MRepo Key Int)), Spec.GoodChoice env.strat → ∀ (name : Option String) (value : Option PyNum) (now : ℚ) (stop : Stop),
        Stop.new name value now = .ok stop → ∀ v : ℚ, (stop.crit ≠ .none → stop.value = some v) → (stop.crit = .percentOfUnlabel → 0 ≤ v ∧ v ≤ 1) →
        ∃ r qs, (∀ fuel, us.length < fuel →
            session matrixOps q.oracle env fuel 0 ⟨q.L, q.U, q.repo, StateIO.new q.L q.U, stop⟩ = some (.ok r)) ∧
          Spec.SessionOutcome (ys.map Lab.sc) (if byExample then cost else none) ls us env.clock stop v r (matrixOps.training r.repo) r.repo.cost qs := by
  have hy : squeeze y = .vec ys := squeeze_vector hvec
  -- the toolbox
  have hmk : make y X w none "AllLabels" {} path = .ok b := by
    unfold new at hnew
    split at hnew
    · cases hnew
    · rename_i b0 hb0
      split at hnew
      · cases hnew; exact hb0
      · rename_i p
        rw [hfresh p rfl] at hnew
        cases hnew; exact hb0
  obtain ⟨by1, bX, bq, bn, hX, bs⟩ := make_fields hmk
  rw [hy] at by1 bn hX
  simp only [ylen] at bn hX
  have bs := bs rfl
  -- the split
  unfold splitAL at h
  rw [bs] at h
  dsimp only at h
  split at h
  · cases h
  · cases h
  rename_i s1 hcs
  split_ifs at h
  swap
  · simp at h
  cases h
  simp only [callSplit, by1, bn] at hcs
  cases hsp : split (pyRange 0 (ys.length : Int)) (some (.vec ys)) tr rate ac shs with
  | none => rw [hsp] at hcs; simp at hcs
  | some res =>
  rw [hsp] at hcs
  cases res with
  | error e => simp [Except.map] at hcs
  | ok rs =>
  simp only [Option.map_some, Except.map, Option.some.injEq, Except.ok.injEq] at hcs
  subst hcs
  obtain ⟨hlen, hpart⟩ := C32_split_partition (pyRange_nodup _ _) _ tr rate ac shs hsh hsp
  simp only [ofRounds, List.getElem?_map, Option.map_eq_some_iff] at hl hu
  obtain ⟨r, hrk, rfl⟩ := hl
  obtain ⟨r', hrk', rfl⟩ := hu
  rw [hrk] at hrk'
  cases hrk'
  have hk : k < shs.length := by
    rw [← hlen]
    exact (List.getElem?_eq_some_iff.1 hrk).1
  obtain ⟨hp1, hp2⟩ := hpart r (List.mem_of_getElem? hrk)
  obtain ⟨ml, ml1, ml2, ml3⟩ := mk_ints true hp2.1
  obtain ⟨mu, mu1, mu2, mu3⟩ := mk_ints true hp2.2.1
  have hin : ∀ x, x ∈ r.label ∨ x ∈ r.unlabel → 0 ≤ x ∧ x < (ys.length : Int) := by
    intro x hx
    have := (hp1.2.2.2 x).2 (Or.inl ((hp2.2.2.2 x).2 hx))
    rwa [mem_pyRange] at this
  obtain ⟨ls, els, hls⟩ := nats_of (n := ys.length) (m := ml) (fun x hx => hin x (Or.inl (ml1.mem_iff.1 hx)))
  obtain ⟨us, eus, hus⟩ := nats_of (n := ys.length) (m := mu) (fun x hx => hin x (Or.inr (mu1.mem_iff.1 hx)))
  have eL : (IC.mk' (toVals (r.label.map Elem.inst))) = IC.mk' (ls.map (Spec.item true)) := by
    rw [toVals_inst, (ml3 true).1, els, List.map_map]; rfl
  have eU : (IC.mk' (toVals (r.unlabel.map Elem.inst))) = IC.mk' (us.map (Spec.item true)) := by
    rw [toVals_inst, (mu3 true).1, eus, List.map_map]; rfl
  have iL : (IC.mk' (toVals (r.label.map Elem.inst))).inner = ls.map (Spec.item true) := by
    rw [toVals_inst, (ml3 true).2, els, List.map_map]; rfl
  have iU : (IC.mk' (toVals (r.unlabel.map Elem.inst))).inner = us.map (Spec.item true) := by
    rw [toVals_inst, (mu3 true).2, eus, List.map_map]; rfl
  have hlsne : ls ≠ [] := by
    rintro rfl
    rw [els] at ml1
    apply hlne
    rw [List.nil_perm.1 ml1]; rfl
  have husne : us ≠ [] := by
    rintro rfl
    rw [eus] at mu1
    apply hune
    rw [List.nil_perm.1 mu1]; rfl
  have hlsnd : ls.Nodup := by
    have := ml1.nodup_iff.2 hp2.1
    rw [els] at this
    exact List.Nodup.of_map _ this
  have hdis : ∀ n ∈ ls, n ∉ us := by
    intro n h1 h2
    have a1 : (n : Int) ∈ r.label := ml1.mem_iff.1 (by rw [els]; exact List.mem_map_of_mem h1)
    have a2 : (n : Int) ∈ r.unlabel := mu1.mem_iff.1 (by rw [eus]; exact List.mem_map_of_mem h2)
    exact hp2.2.2.1 _ a1 a2
  obtain ⟨bsv, hb1, hb2⟩ := pyAtAll_nats ys ls hls
  have hbslen : bsv.length = ls.length := by
    have := congrArg List.length hb2
    simpa using this.symm
  -- the repository
  have hrepo : ∃ repo, MRepo.new (bsv.map Lab.sc) (ls.map (fun n : Nat => Key.num n)) (none : Option (List (List Int))) = .ok repo := by
    cases hbc : bsv with
    | nil => rw [hbc] at hbslen; exact absurd (List.length_eq_zero_iff.1 hbslen.symm) hlsne
    | cons b0 t =>
      rw [hbc] at hbslen
      have h1 : oneToOne [some ((b0 :: t).map Lab.sc).length, some (ls.map (fun n : Nat => Key.num n)).length,
          (none : Option (List (List Int))).map List.length] = true := by
        simp only [List.length_map, hbslen]
        simp [oneToOne]
      unfold MRepo.new
      rw [if_pos h1]
      simp [Lab.shape]
  obtain ⟨repo, hrepo⟩ := hrepo
  -- the oracle
  have hor : ∃ o : Oracle χ (Lab Int), Oracle.new (fun _ => 0) (ys.map Lab.sc) (if byExample then X else none) none (if byExample then cost else none) = .ok o := by
    cases hyc : ys with
    | nil =>
      cases hlc : ls with
      | nil => exact absurd hlc hlsne
      | cons n t => have := hls n (by simp [hlc]); simp [hyc] at this
    | cons y0 t =>
      unfold Oracle.new
      rw [if_neg]
      · exact ⟨_, rfl⟩
      · have h1 : sameLength (List.map Lab.sc (y0 :: t)).length (if byExample then X else none) = true := by
          cases byExample
          · rfl
          · cases hXc : X with
            | none => rfl
            | some xs => have := hX xs hXc; simp [sameLength, this, hyc]
        have h2 : sameLength (List.map Lab.sc (y0 :: t)).length (if byExample then cost else none) = true := by
          cases byExample
          · rfl
          · cases hXc : cost with
            | none => rfl
            | some xs => have := hcost xs hXc; simp [sameLength, this, hyc]
        rw [h1, h2]
        simp [sameLength]
  obtain ⟨o, ho⟩ := hor
  have hget : getSplit { b with splits := some (ofRounds Elem.inst rs), count := some shs.length } k =
      .ok (r.train, r.test, .single (IC.mk' (toVals (r.label.map Elem.inst))) (IC.mk' (toVals (r.unlabel.map Elem.inst)))) := by
    have : ¬ shs.length ≤ k := by omega
    simp [getSplit, this, ofRounds, hrk, bq, by1]
  refine ⟨⟨r.train, r.test, _, _, repo, o⟩, ls, us, ⟨hget, ?_, ?_⟩, ?_, ?_, hp1, ?_, iL, iU, ?_⟩
  · unfold getRepository
    rw [hget]
    simp only [by1, bq, if_true]
    rw [iL]
    have e1 : (ls.map (Spec.item true)).map Val.key = ls.map (fun n : Nat => Key.num n) := by
      rw [List.map_map]; rfl
    have e2 : (ls.map (fun n : Nat => Key.num n)).map position = ls.map (fun n : Nat => (n : Int)) := by
      rw [List.map_map]; rfl
    rw [e1, e2, hb1]
    simp [hrepo, Except.map]
  · refine ⟨ys, if byExample then X else none, if byExample then cost else none, ?_, ho⟩
    simp only [getCleanOracle, bq, by1, bX]
    cases byExample <;> simp
  · rw [show ls.map (fun n : Nat => Elem.inst n) = (ls.map (fun n : Nat => (n : Int))).map Elem.inst by rw [List.map_map]; rfl, ← els]
    exact (ml1.map _).symm
  · rw [show us.map (fun n : Nat => Elem.inst n) = (us.map (fun n : Nat => (n : Int))).map Elem.inst by rw [List.map_map]; rfl, ← eus]
    exact (mu1.map _).symm
  · rw [← els, ← eus]
    refine ⟨ml1.nodup_iff.2 hp2.1, mu1.nodup_iff.2 hp2.2.1, ?_, ?_⟩
    · intro x hx hx'
      exact hp2.2.2.1 x (ml1.mem_iff.1 hx) (mu1.mem_iff.1 hx')
    · intro x
      rw [ml1.mem_iff, mu1.mem_iff]
      exact hp2.2.2.2 x
  · intro env hst name value now stop hstop v hv hpv
    have := C80_matrix_repository (ty := fun _ => 0) ho none (by
        intro l hl; obtain ⟨a, _, rfl⟩ := List.mem_map.1 hl; rfl) env hst true true ls us hlsne husne hlsnd
      (by simpa using hus) hdis (bsv.map Lab.sc) (by
        have := congrArg (List.map (Option.map Lab.sc)) hb2
        simpa [List.map_map, Function.comp_def] using this) repo hrepo name value now stop hstop v hv hpv
    rw [startSession, ← eL, ← eU] at this
    exact this

/-- C83, violation: the costs given to `get_clean_oracle` are ignored unless `query_by_example` is set: the oracle is the one made without costs, so
every query costs 1. -/
theorem C83_cost_ignored_violation {b : Box χ} {ys : List Int} (hy : b.y = .vec ys) (hq : b.qtype = "AllLabels") (cost : Option (List ℚ)) :
    getCleanOracle b false cost = some (.single ys none none) := by
  simp [getCleanOracle, hq, hy]

/-- C83, violation: with `query_type='PartLabels'` (a valid type), `get_clean_oracle` returns `None`, whatever the data and the arguments. -/
theorem C83_no_oracle_violation {κ : Type} {b : Box χ} (hq : b.qtype = "PartLabels") (byExample : Bool) (cost : Option κ) :
    getCleanOracle b byExample cost = none := by
  simp [getCleanOracle, hq]

/-- C83, violation: a toolbox with `query_type='Features'` and a vector of labels is split by instances, and then `get_split` raises for every round whose
labelled set is not empty. -/
theorem C83_features_violation {d d' : Disk χ} {b b' : Box χ} {ys : List Int} (hy : b.y = .vec ys) (hq : b.qtype = "Features") (hs : b.splits = none)
    {tr rate : ℚ} {ac : Bool} {shs : List (List Sh)} {s : Splits} (h : splitAL d b tr rate ac shs = some (d', b', .ok s)) {k : Nat}
    {l : List Elem} (hl : s.label[k]? = some l) (hne : l ≠ []) : ∃ e, getSplit b' k = .error e := by
  unfold splitAL at h
  rw [hs] at h
  dsimp only at h
  split at h
  · cases h
  · cases h
  rename_i s1 hcs
  split_ifs at h
  swap
  · simp at h
  cases h
  simp only [callSplit, hy] at hcs
  cases hsp : split b.names (some (.vec ys)) tr rate ac shs with
  | none => rw [hsp] at hcs; simp at hcs
  | some res =>
  rw [hsp] at hcs
  cases res with
  | error e => simp [Except.map] at hcs
  | ok rs =>
  simp only [Option.map_some, Except.map, Option.some.injEq, Except.ok.injEq] at hcs
  subst hcs
  simp only [ofRounds, List.getElem?_map, Option.map_eq_some_iff] at hl
  obtain ⟨r, hrk, rfl⟩ := hl
  by_cases hk : shs.length ≤ k
  · exact ⟨.assertionError, by simp [getSplit, hk]⟩
  · cases hrl : r.label with
    | nil => exact absurd (by rw [hrl]; rfl) hne
    | cons a t =>
      refine ⟨.genericException, ?_⟩
      have hm : ∃ e, MLIC.mk' ((r.label.map Elem.inst).map Elem.toItem) (some b.width) = .error e := by
        rw [hrl]
        simp [MLIC.mk', Elem.toItem, checkIndexMultilabel, allTuples]
      obtain ⟨e, he⟩ := hm
      rw [List.map_map] at he
      simp [getSplit, hk, ofRounds, hrk, hq, he]

theorem pyAtAll_out (ys : List Int) : ∀ ns : List Int, (∃ n ∈ ns, (ys.length : Int) ≤ n) → pyAtAll ys ns = .error .indexError
  | [], h => by simp at h
  | n :: t, h => by
    simp only [pyAtAll]
    cases hn : pyAt ys n with
    | none => rfl
    | some v =>
      dsimp only
      have : ∃ m ∈ t, (ys.length : Int) ≤ m := by
        obtain ⟨m, hm, hle⟩ := h
        rcases List.mem_cons.1 hm with rfl | hm
        · exfalso
          have h0 : 0 ≤ m := by omega
          rw [pyAt, if_pos h0, List.getElem?_eq_none (by omega)] at hn
          cases hn
        · exact ⟨m, hm, hle⟩
      rw [pyAtAll_out ys t this]
      rfl

/-- C83, violation: `get_repository` takes the given names of the examples as positions: if one of the labelled examples has a number which is not a
position, it raises IndexError - although `ToolBox(instance_indexes=...)` accepted the names and the split was made with them. -/
theorem C83_names_violation {b : Box χ} {ys : List Int} (hy : b.y = .vec ys) (hq : b.qtype = "AllLabels") {s : Splits} (hs : b.splits = some s)
    {n : Nat} (hc : b.count = some n) {k : Nat} (hk : k < n) {tr te : List Int} {u : List Elem} {l : List Int} (htr : s.train[k]? = some tr)
    (hte : s.test[k]? = some te) (hl : s.label[k]? = some (l.map Elem.inst)) (hu : s.unlabel[k]? = some u) (hnd : l.Nodup)
    (hout : ∃ m ∈ l, (ys.length : Int) ≤ m) : getRepository b k = .error .indexError := by
  have hk' : ¬ n ≤ k := by omega
  have hget : getSplit b k = .ok (tr, te, .single (IC.mk' (toVals (l.map Elem.inst))) (IC.mk' (toVals u))) := by
    simp [getSplit, hs, hc, hk', htr, hte, hl, hu, hq, hy]
  obtain ⟨m, m1, _, m3⟩ := mk_ints true hnd
  unfold getRepository
  rw [hget]
  simp only [hy]
  rw [toVals_inst, (m3 true).2, List.map_map, List.map_map]
  have : pyAtAll ys (m.map (position ∘ Val.key ∘ fun n => (⟨true, .int n⟩ : Val))) = .error .indexError := by
    apply pyAtAll_out
    obtain ⟨x, hx, hle⟩ := hout
    exact ⟨x, List.mem_map.2 ⟨x, m1.mem_iff.2 hx, rfl⟩, hle⟩
  simp only [Function.comp_def] at this ⊢
  rw [this]

/-! ### Cases that meet the hypotheses -/

/-- An empty disk on which `exp` is a directory and `box.pkl` is not. -/
def disk0 : Disk Nat := ⟨fun p => p == "exp", fun _ => none⟩

def script0 : Script Nat := ⟨.vec [0, 1, 0, 1, 1], some [10, 11, 12, 13, 14], 1, none, "AllLabels", {}, 2 / 5, 1 / 3, false, [[id], [List.reverse]]⟩

/-- Another script: other data and ratios. -/
def script1 : Script Nat := ⟨.vec [5, 5, 7], none, 1, some [4, 5, 6], "PartLabels", {}, 0, 1, false, [[List.reverse]]⟩

-- two runs at the same path: the second gets the toolbox of the first
example : (runs "exp" disk0 [script0, script1]).map (fun r => r.toOption.map (fun p => (p.2.train, p.2.label))) =
    [some ([[0, 1, 2], [4, 3, 2]], [[.inst 0], [.inst 4]]), some ([[0, 1, 2], [4, 3, 2]], [[.inst 0], [.inst 4]])] := by decide +kernel

-- alone, the second script makes another split
example : (runs "exp" disk0 [script1]).map (fun r => r.toOption.map (fun p => (p.2.train, p.2.label))) =
    [some ([[6, 5, 4]], [[.inst 6, .inst 5, .inst 4]])] := by decide +kernel

-- round 1 of the first script: the labelled example is 4, of class 1; the unlabelled ones are 3 and 2
example : (runs "exp" disk0 [script0]).map (fun r => r.toOption.map (fun p => (getSplit p.1 1).toOption)) =
    [some (some ([4, 3, 2], [1, 0], .single (IC.mk' [⟨true, .int 4⟩]) (IC.mk' [⟨true, .int 2⟩, ⟨true, .int 3⟩])))] := by decide +kernel

def training0 (q : MRepo Key Int ⊕ ERepo Key Int Unit) : Option (List (Lab Int) × List Key) :=
  match q with
  | .inl m => (matrixOps.training m).toOption
  | .inr _ => none

example : (runs "exp" disk0 [script0]).map (fun r => r.toOption.bind (fun p => (getRepository p.1 1).toOption.bind training0)) =
    [some ([.sc 1], [.num 4])] := by decide +kernel

example : Own "exp" disk0 := by intro b h; cases h

end Alipy.TB
