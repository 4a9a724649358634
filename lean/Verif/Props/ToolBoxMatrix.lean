import Verif.Props.ToolBox
import Verif.Props.PairSession
import Verif.Props.OracleMultiLabel
/-!
# C83 for label matrices
-/
namespace Alipy.TB
open Alipy.Spec Alipy.PairSession
variable {χ : Type}

/-- All pairs of the instances and the `c` labels. -/
def pairsOf (is : List Int) (c : Nat) : List (Int × Int) := is.flatMap (fun i => (List.range c).map (fun j : Nat => (i, (j : Int))))

theorem mem_pairsOf {is : List Int} {c : Nat} {p : Int × Int} : p ∈ pairsOf is c ↔ p.1 ∈ is ∧ 0 ≤ p.2 ∧ p.2 < c := by
  simp only [pairsOf, List.mem_flatMap, List.mem_map, List.mem_range]
  constructor
  · rintro ⟨i, hi, j, hj, rfl⟩
    exact ⟨hi, by simp, by simpa using hj⟩
  · rintro ⟨h1, h2, h3⟩
    exact ⟨p.1, h1, p.2.toNat, by omega, Prod.ext rfl (by simpa using h2)⟩

theorem nodup_pairsOf {is : List Int} (h : is.Nodup) (c : Nat) : (pairsOf is c).Nodup := by
  rw [pairsOf, List.nodup_flatMap]
  refine ⟨fun i _ => ?_, ?_⟩
  · refine List.Nodup.map ?_ List.nodup_range
    intro a b hab
    simpa using hab
  · refine h.imp ?_
    intro a b hab
    rw [Function.onFun, List.disjoint_left]
    intro p hp hq
    obtain ⟨_, _, rfl⟩ := List.mem_map.1 hp
    obtain ⟨_, _, e⟩ := List.mem_map.1 hq
    exact hab (by simpa using (congrArg Prod.fst e).symm)

theorem length_pairsOf (is : List Int) (c : Nat) : (pairsOf is c).length = is.length * c := by
  induction is with
  | nil => simp [pairsOf]
  | cons i is ih =>
    have : pairsOf (i :: is) c = (List.range c).map (fun j : Nat => (i, (j : Int))) ++ pairsOf is c := rfl
    rw [this, List.length_append, ih]
    simp
    ring

theorem denotes_all {c : Nat} {is : List Int} (p : Int × Int) : DenotesAny (c : Int) (is.map Ix.all) p ↔ p ∈ pairsOf is c := by
  rw [mem_pairsOf]
  constructor
  · rintro ⟨ix, hix, h⟩
    obtain ⟨i, hi, rfl⟩ := List.mem_map.1 hix
    obtain ⟨h1, h2, h3⟩ := h
    exact ⟨h1 ▸ hi, h2, h3⟩
  · rintro ⟨h1, h2, h3⟩
    exact ⟨.all p.1, List.mem_map_of_mem h1, rfl, h2, h3⟩

/-- C83 for a label matrix (at least two examples and two labels): a script constructs a toolbox with default indexes, splits, and takes from it the index sets and the oracle for a round whose labelled
and unlabelled sets are not empty. All of this succeeds; train and test partition all examples, the labelled and the unlabelled examples partition the training examples; the
collections hold all pairs of these examples; the oracle answers every legal question about the examples by the labels of the matrix, each at cost 1; and a session run with these
collections (C93) ends, properly, for every strategy that asks by lists of its own. Missing: the repository, see `C83_matrix_repository_violation`. -/
theorem C83_label_matrix_partial [DecidableEq χ] {d d1 d' : Disk χ} {c : Nat} (hc : 1 < c) {rows : List (List Int)} (hn : 1 < rows.length) (hrow : ∀ r ∈ rows, r.length = c)
    {X : Option (List χ)} {w : Int} {path : Option String} (hfresh : ∀ p, path = some p → d.boxes p = none) {b b' : Box χ}
    (hnew : new d (.mat c rows) X w none "AllLabels" {} path = (d1, .ok b)) {tr rate : ℚ} {ac : Bool} {shs : List (List Sh)}
    (hsh : ∀ l ∈ shs, ∀ sh ∈ l, Spec.IsShuffle sh) {s : Splits} (h : splitAL d1 b tr rate ac shs = some (d', b', .ok s))
    {k : Nat} {l u : List Elem} (hl : s.label[k]? = some l) (hu : s.unlabel[k]? = some u) (hlne : l ≠ []) (hune : u ≠ []) (byExample : Bool) :
    ∃ train test L U ex o ls us, getSplit b' k = .ok (train, test, .multi L U) ∧ getCleanOracle b' byExample (none : Option CostArg) = some (.multi rows ex none) ∧
      MLOracle.new rows ex none none = .ok o ∧ l = ls.map (fun i => .tup (.all i)) ∧ u = us.map (fun i => .tup (.all i)) ∧
      Spec.Partition train test (pyRange 0 rows.length) ∧ Spec.Partition ls us train ∧
      (∀ p, Holds L p ↔ p.1 ∈ ls ∧ 0 ≤ p.2 ∧ p.2 < c) ∧ (∀ p, Holds U p ↔ p.1 ∈ us ∧ 0 ≤ p.2 ∧ p.2 < c) ∧ L.inner.length = ls.length * c ∧ U.inner.length = us.length * c ∧
      (∀ ixs : List Ix, ixs ≠ [] → (∀ ix ∈ ixs, Legal c ix) → (∀ ix ∈ ixs, ∃ i : Nat, i < rows.length ∧ inst ix = some (i : Int)) →
        ∃ ans : List (List Int × List ℚ), o.queryByIndex (ixs.map .tup) = .ok (ans.map Prod.fst, ans.map Prod.snd) ∧
          List.Forall₂ (fun ix a => ∃ (i : Nat) (row : List Int), inst ix = some (i : Int) ∧ rows[i]? = some row ∧
            List.Forall₂ (fun j x => row[j]? = some x) (Spec.positions c ix) a.1 ∧ a.2 = (Spec.positions c ix).map (fun _ => 1)) ixs ans) ∧
      ∀ env : Env, AlwaysLists c env.strat → ∀ (name : Option String) (value : Option PyNum) (now : ℚ) (stop : Stop), Stop.new name value now = .ok stop →
        ∀ v : ℚ, (stop.crit ≠ .none → stop.value = some v) → (stop.crit = .percentOfUnlabel → 0 ≤ v ∧ v ≤ 1) →
        ∃ r, (∀ fuel, us.length * c < fuel → PairSession.loop env fuel 0 ⟨L, U, StateIO.new L U, stop⟩ = some (.ok r)) ∧ Done c env.clock stop v (Holds L) (Holds U) (us.length * c) r ∧
          ((∀ p, ¬ Holds r.unknown p) ∨ BoundReached stop.crit v r.saver.states.length 0 (us.length * c) r.unknown.inner.length
            (env.clock r.saver.states.length - stop.startTime)) := by
  have hy : squeeze (.mat c rows) = .mat c rows := by rw [squeeze, if_neg (by omega)]
  have hmk : make (.mat c rows) X w none "AllLabels" {} path = .ok b := by
    unfold new at hnew
    split at hnew
    · cases hnew
    · rename_i b0 hb0
      split at hnew
      · cases hnew; exact hb0
      · rename_i p
        rw [hfresh p rfl] at hnew
        cases hnew; exact hb0
  obtain ⟨by1, bX, bq, bn, hX, bs⟩ := make_fields hmk
  rw [hy] at by1 bn hX
  simp only [ylen] at bn hX
  have bs := bs rfl
  unfold splitAL at h
  rw [bs] at h
  dsimp only at h
  split at h
  · cases h
  · cases h
  rename_i s1 hcs
  split_ifs at h
  swap
  · simp at h
  cases h
  simp only [callSplit, by1] at hcs
  cases hsp : splitMultiLabel rows.length c (some rows) tr rate ac shs with
  | none => rw [hsp] at hcs; simp at hcs
  | some res =>
  rw [hsp] at hcs
  cases res with
  | error e => simp [Except.map] at hcs
  | ok rs =>
  simp only [Option.map_some, Except.map, Option.some.injEq, Except.ok.injEq] at hcs
  subst hcs
  obtain ⟨hlen, hpart⟩ := C34_multi_label_partition rows.length c (some rows) tr rate ac shs hsh hsp
  simp only [ofRounds, List.getElem?_map, Option.map_eq_some_iff] at hl hu
  obtain ⟨r, hrk, rfl⟩ := hl
  obtain ⟨r', hrk', rfl⟩ := hu
  rw [hrk] at hrk'
  cases hrk'
  have hk : k < shs.length := by
    rw [← hlen]
    exact (List.getElem?_eq_some_iff.1 hrk).1
  obtain ⟨hp1, hp2⟩ := hpart r (List.mem_of_getElem? hrk)
  have h0 : (0 : Int) < c := by omega
  have hlab : ∀ is : List Int, (is.map (fun i => Elem.tup (.all i))).map Elem.toItem = (is.map Ix.all).map Item.tup := by
    intro is
    simp [Elem.toItem]
  have hleg : ∀ is : List Int, ∀ ix ∈ is.map Ix.all, Legal (c : Int) ix := by
    intro is ix hix
    obtain ⟨i, _, rfl⟩ := List.mem_map.1 hix
    trivial
  have hlne' : r.label.map Ix.all ≠ [] := by simpa using hlne
  have hune' : r.unlabel.map Ix.all ≠ [] := by simpa using hune
  have hcoll : ∀ is : List Int, is.Nodup → is ≠ [] → ∃ C, MLIC.mk' ((is.map Ix.all).map Item.tup) (some (c : Int)) = .ok C ∧ (∀ p, Holds C p ↔ p ∈ pairsOf is c) ∧ C.inner.length = is.length * c := by
    intro is hnd hne
    obtain ⟨C, c1, c2, c3, c4, c5⟩ := MLIC.C08_constructor (is.map Ix.all) (by simpa using hne) c h0 (hleg is)
    have hH : ∀ p, Holds C p ↔ p ∈ pairsOf is c := by
      intro p
      rw [Holds, c5, ← denotes_all]
      constructor
      · rintro ⟨p', e, h⟩
        simp only [Prod.mk.injEq, Second.scal.injEq] at e
        rwa [Prod.ext e.1 e.2]
      · exact fun h => ⟨p, rfl, h⟩
    refine ⟨C, c1, hH, ?_⟩
    have : C.inner.Perm ((pairsOf is c).map (fun p => (p.1, Second.scal p.2))) := by
      refine (List.perm_ext_iff_of_nodup c4 ((nodup_pairsOf hnd c).map ?_)).2 ?_
      · intro a b h
        simp only [Prod.mk.injEq, Second.scal.injEq] at h
        exact Prod.ext h.1 h.2
      · intro q
        rw [c5, List.mem_map]
        constructor
        · rintro ⟨p, e, h⟩; exact ⟨p, (denotes_all p).1 h, e.symm⟩
        · rintro ⟨p, h, e⟩; exact ⟨p, e.symm, (denotes_all p).2 h⟩
    rw [this.length_eq, List.length_map, length_pairsOf]
  obtain ⟨L, l1, l2, l3⟩ := hcoll r.label hp2.1 (by simpa using hlne)
  obtain ⟨U, u1, u2, u3⟩ := hcoll r.unlabel hp2.2.1 (by simpa using hune)
  have hor : ∃ o : MLOracle χ Int, MLOracle.new rows (if byExample then X else none) none none = .ok o := by
    cases hr : rows with
    | nil => simp [hr] at hn
    | cons r0 t =>
      have hw : r0.length = c := hrow _ (by simp [hr])
      have h1 : ((r0 :: t).all (fun r => r.length = r0.length)) = true := by
        rw [List.all_eq_true]
        intro x hx
        simp [hw, hrow x (hr ▸ hx)]
      have h2 : sameLength (r0 :: t).length (if byExample then X else none) = true := by
        cases byExample
        · rfl
        · cases hXc : X with
          | none => rfl
          | some xs => have := hX xs hXc; simp [sameLength, this, hr]
      unfold MLOracle.new
      simp only [h1, h2]
      rw [if_neg (by simp [hw]; omega), if_neg (by simp [sameLength])]
      exact ⟨_, rfl⟩
  obtain ⟨o, ho⟩ := hor
  refine ⟨r.train, r.test, L, U, if byExample then X else none, o, r.label, r.unlabel, ?_, ?_, ho, rfl, rfl, ?_, hp2, ?_, ?_, l3, u3, ?_, ?_⟩
  · have : ¬ shs.length ≤ k := by omega
    simp only [getSplit, this, ofRounds, List.getElem?_map, hrk, bq, by1, Option.map_some, hlab, l1, u1]
    simp
  · simp only [getCleanOracle, bq, by1, bX]
    cases byExample <;> simp
  · refine ⟨hp1.1, hp1.2.1, hp1.2.2.1, fun x => ?_⟩
    rw [mem_pyRange]
    exact hp1.2.2.2 x
  · intro p; rw [l2, mem_pairsOf]
  · intro p; rw [u2, mem_pairsOf]
  · intro ixs hne hlegal hin
    have hlog : (rows.zipIdx.map (fun q => (⟨(q.2 : Int), q.1, none⟩ : Fact Int))).map Fact.row = rows := by
      rw [List.map_map]
      exact List.zipIdx_map_fst 0 rows
    have hidx : (rows.zipIdx.map (fun q => (⟨(q.2 : Int), q.1, none⟩ : Fact Int))).map Fact.index = (List.range rows.length).map (fun i : Nat => (i : Int)) := by
      refine List.ext_getElem (by simp) fun i h1 h2 => ?_
      simp
    have hist : MLOracle.Hist c false none o (rows.zipIdx.map (fun q => (⟨(q.2 : Int), q.1, none⟩ : Fact Int))) :=
      .plain ho hrow hlog (by simpa using hidx) (by
        intro f hf
        obtain ⟨q, _, rfl⟩ := List.mem_map.1 hf
        rfl)
    obtain ⟨ans, a1, a2⟩ := MLOracle.C27_query_by_index_partial hist ixs hne hlegal (by
      intro ix hix
      obtain ⟨i, hi, e⟩ := hin ix hix
      refine ⟨⟨(i : Int), rows[i], none⟩, List.mem_map.2 ⟨(rows[i], i), ?_, rfl⟩, e⟩
      rw [List.mem_zipIdx_iff_getElem?]
      simp [hi])
    refine ⟨ans, a1, a2.imp ?_⟩
    rintro ix a ⟨f, ⟨pre, post, hf, -, -⟩, f2, f3, f4⟩
    have hm : f ∈ rows.zipIdx.map (fun q => (⟨(q.2 : Int), q.1, none⟩ : Fact Int)) := by rw [hf]; simp
    obtain ⟨⟨row, i⟩, hq, rfl⟩ := List.mem_map.1 hm
    rw [List.mem_zipIdx_iff_getElem?] at hq
    exact ⟨i, row, f2, by simpa using hq, f3, by simpa using f4⟩
  · intro env hst name value now stop hstop v hv hpv
    have := C93_lists env h0 hst hlne' hune' (hleg _) (hleg _) (fun p h1 h2 => ?_) (nodup_pairsOf hp2.2.1 c) (fun p => (denotes_all p).symm) ?_ name value now stop hstop v hv hpv
    · obtain ⟨R, r1, r2, r3⟩ := this
      rw [length_pairsOf] at r1 r2 r3
      refine ⟨R, fun fuel hf => ?_, ?_, r3⟩
      · have := r1 fuel hf
        simp only [PairSession.session, l1, u1] at this
        exact this
      · have e1 : DenotesAny (c : Int) (r.label.map Ix.all) = Holds L := by funext p; rw [eq_iff_iff, denotes_all, l2]
        have e2 : DenotesAny (c : Int) (r.unlabel.map Ix.all) = Holds U := by funext p; rw [eq_iff_iff, denotes_all, u2]
        rw [← e1, ← e2]
        exact r2
    · rw [denotes_all, mem_pairsOf] at h1 h2
      exact hp2.2.2.1 _ h1.1 h2.1
    · intro he
      have := length_pairsOf r.unlabel c
      rw [he] at this
      simp only [List.length_nil, zero_eq_mul, List.length_eq_zero_iff] at this
      rcases this with h | h
      · exact hune (by rw [h]; rfl)
      · omega

/-- C83, violation: with a label matrix and `query_type='AllLabels'`, `get_repository` raises for every round in which three or more pairs are labelled - so in every round but those
with one labelled example of two labels. -/
theorem C83_matrix_repository_violation {b : Box χ} {c : Nat} {rows : List (List Int)} (hy : b.y = .mat c rows) {k : Nat} {tr te : List Int} {L U : MLIC}
    (hs : getSplit b k = .ok (tr, te, .multi L U)) (h3 : 3 ≤ L.inner.length) : getRepository b k = .error .indexError ∨ getRepository b k = .error .valueError := by
  unfold getRepository
  rw [hs, hy]
  simp only [pairRepository]
  split_ifs with h1 h2
  · match hL : L.inner, h3 with
    | _ :: _ :: _ :: _, _ => exact .inl rfl
  · exact .inr rfl
  · exact .inl rfl

def matrixScript : Script Nat := ⟨.mat 3 [[1, 0, 0], [0, 1, 1], [1, 1, 0], [0, 0, 1]], some [10, 11, 12, 13], 1, none, "AllLabels", {}, 1 / 4, 1 / 3, false, [[id]]⟩

/-- The labelled pairs of a round and the number of the unlabelled ones. -/
def pairsIn (b : Box Nat) (k : Nat) : List (Int × Second) × Nat :=
  match getSplit b k with
  | .ok (_, _, .multi L U) => (L.inner, U.inner.length)
  | _ => ([], 0)

-- four examples with three labels: three are for training, one of these is labelled; the labelled pairs are its three pairs
example : (runs "exp" disk0 [matrixScript]).map (fun r => r.toOption.map (fun p => (p.2.label, p.2.unlabel))) =
    [some ([[.tup (.all 0)]], [[.tup (.all 1), .tup (.all 2)]])] := by decide +kernel

example : (runs "exp" disk0 [matrixScript]).map (fun r => r.toOption.map (fun p => pairsIn p.1 0)) =
    [some ([(0, .scal 0), (0, .scal 1), (0, .scal 2)], 6)] := by decide +kernel

-- and there is no repository for it
example : (runs "exp" disk0 [matrixScript]).map (fun r => r.toOption.map (fun p => (getRepository p.1 0).isOk)) = [some false] := by decide +kernel

end Alipy.TB
