import Verif.Spec.Grouped
import Verif.Props.OracleMultiLabel
import Verif.Props.MultiLabelTools
import Mathlib.Data.List.Forall2
import Mathlib.Data.List.Perm.Basic
import Mathlib.Data.List.Perm.Subperm
import Mathlib.Data.List.Flatten
import Mathlib.Algebra.Order.BigOperators.Group.List
import Mathlib.Algebra.BigOperators.Group.List.Basic
import Mathlib.Tactic.Linarith

/-! # C159: how the questions to a multi-label oracle are grouped does not matter -/
namespace Alipy
open Spec
set_option linter.unusedSectionVars false
namespace MLOracle
variable {χ β : Type} [DecidableEq χ]

/-- The oracle says about a pair: the label and the cost. -/
def Says (o : MLOracle χ β) (p : Int × Int) (a : β × ℚ) : Prop := o.fetch (some p.1) [p.2.toNat] = .ok ([a.1], [a.2])

theorem Says.unique {o : MLOracle χ β} {p : Int × Int} {a b : β × ℚ} (h : Says o p a) (h' : Says o p b) : a = b := by
  unfold Says at h h'
  rw [h] at h'
  simp only [Except.ok.injEq, Prod.mk.injEq, List.cons.injEq, and_true] at h'
  exact Prod.ext h'.1 h'.2

theorem fancy_cons {α : Type} (l : List α) (i : Nat) (is : List Nat) (x : α) (xs : List α) :
    fancy l (i :: is) = .ok (x :: xs) ↔ fancy l [i] = .ok [x] ∧ fancy l is = .ok xs := by
  simp only [fancy]
  cases l[i]? with
  | none => simp
  | some y => cases fancy l is <;> simp

theorem fancy_shape {α : Type} (l : List α) (i : Nat) (is : List Nat) (r : List α) (h : fancy l (i :: is) = .ok r) : ∃ x xs, r = x :: xs := by
  simp only [fancy] at h
  cases hi : l[i]? with
  | none => rw [hi] at h; exact nomatch h
  | some y =>
    rw [hi] at h
    cases hf : fancy l is with
    | error e => rw [hf] at h; exact nomatch h
    | ok ys => rw [hf] at h; cases h; exact ⟨y, ys, rfl⟩

/-- Several labels of an example are answered as they are one by one. -/
theorem fetch_cons (o : MLOracle χ β) (k : Option Int) (i : Nat) (is : List Nat) (r : List β × List ℚ) :
    o.fetch k (i :: is) = .ok r ↔ ∃ x c xs cs, r = (x :: xs, c :: cs) ∧ o.fetch k [i] = .ok ([x], [c]) ∧ o.fetch k is = .ok (xs, cs) := by
  unfold fetch
  cases o.table with
  | plain t =>
    simp only
    cases k.bind fun i => dictGet i t with
    | none => simp
    | some row =>
      simp only
      constructor
      · intro h
        cases hf : fancy row (i :: is) with
        | error e => rw [hf] at h; exact nomatch h
        | ok l =>
          obtain ⟨x, xs, rfl⟩ := fancy_shape row i is l hf
          rw [hf] at h
          cases h
          obtain ⟨h1, h2⟩ := (fancy_cons row i is x xs).1 hf
          exact ⟨x, 1, xs, List.replicate is.length 1, rfl, by rw [h1]; rfl, by rw [h2]⟩
      · rintro ⟨x, c, xs, cs, rfl, h1, h2⟩
        cases f1 : fancy row [i] with
        | error e => rw [f1] at h1; exact nomatch h1
        | ok l1 =>
          cases f2 : fancy row is with
          | error e => rw [f2] at h2; exact nomatch h2
          | ok l2 =>
            rw [f1] at h1; rw [f2] at h2
            cases h1; cases h2
            rw [(fancy_cons row i is x xs).2 ⟨f1, f2⟩]
            rfl
  | cost t =>
    simp only
    cases k.bind fun i => dictGet i t with
    | none => simp
    | some rc =>
      obtain ⟨row, c⟩ := rc
      simp only [CostRow.fancy]
      cases hnp : c.np with
      | false =>
        simp only [Bool.false_eq_true, if_false]
        constructor
        · intro h
          cases hf : fancy row (i :: is) with
          | error e => rw [hf] at h; exact nomatch h
          | ok l => rw [hf] at h; exact nomatch h
        · rintro ⟨x, c, xs, cs, rfl, h1, h2⟩
          cases f1 : fancy row [i] with
          | error e => rw [f1] at h1; exact nomatch h1
          | ok l1 => rw [f1] at h1; exact nomatch h1
      | true =>
        simp only [if_true]
        constructor
        · intro h
          cases hf : fancy row (i :: is) with
          | error e => rw [hf] at h; exact nomatch h
          | ok l =>
            obtain ⟨x, xs, rfl⟩ := fancy_shape row i is l hf
            rw [hf] at h
            simp only at h
            cases hg : fancy c.vals (i :: is) with
            | error e => rw [hg] at h; exact nomatch h
            | ok m =>
              obtain ⟨d, ds, rfl⟩ := fancy_shape c.vals i is m hg
              rw [hg] at h
              cases h
              obtain ⟨h1, h2⟩ := (fancy_cons row i is x xs).1 hf
              obtain ⟨g1, g2⟩ := (fancy_cons c.vals i is d ds).1 hg
              exact ⟨x, d, xs, ds, rfl, by simp only [h1, g1], by simp only [h2, g2]⟩
        · rintro ⟨x, d, xs, ds, rfl, h1, h2⟩
          cases f1 : fancy row [i] with
          | error e => rw [f1] at h1; exact nomatch h1
          | ok l1 =>
            cases f2 : fancy row is with
            | error e => rw [f2] at h2; exact nomatch h2
            | ok l2 =>
              rw [f1] at h1; rw [f2] at h2
              simp only at h1 h2
              cases g1 : fancy c.vals [i] with
              | error e => rw [g1] at h1; exact nomatch h1
              | ok m1 =>
                cases g2 : fancy c.vals is with
                | error e => rw [g2] at h2; exact nomatch h2
                | ok m2 =>
                  rw [g1] at h1; rw [g2] at h2
                  cases h1; cases h2
                  rw [(fancy_cons row i is x xs).2 ⟨f1, f2⟩]
                  simp only
                  rw [(fancy_cons c.vals i is d ds).2 ⟨g1, g2⟩]

/-- An example of which something is answered is known, and asking for nothing gives nothing. -/
theorem fetch_nil {o : MLOracle χ β} {k : Option Int} : ∀ {is : List Nat} {r : List β × List ℚ}, o.fetch k is = .ok r → o.fetch k [] = .ok ([], [])
  | [], r, h => by
    rw [h]
    unfold fetch at h
    cases ht : o.table with
    | plain t =>
      rw [ht] at h
      simp only at h
      cases hk : k.bind fun i => dictGet i t with
      | none => rw [hk] at h; exact nomatch h
      | some row => rw [hk] at h; cases h; rfl
    | cost t =>
      rw [ht] at h
      simp only at h
      cases hk : k.bind fun i => dictGet i t with
      | none => rw [hk] at h; exact nomatch h
      | some rc =>
        rw [hk] at h
        simp only [CostRow.fancy, fancy] at h
        cases hnp : rc.2.np with
        | false => rw [hnp] at h; exact nomatch h
        | true => rw [hnp] at h; cases h; rfl
  | i :: is, r, h => by
    obtain ⟨x, c, xs, cs, -, -, h2⟩ := (fetch_cons o k i is r).1 h
    exact fetch_nil h2

/-- The pairs of one legal index. -/
def pairsOf (w : Nat) (ix : Ix) : List (Int × Int) := (positions w ix).map fun i : Nat => ((inst ix).getD 0, (i : Int))

theorem flatten1_pairs {w : Nat} {ix : Ix} (h : Legal w ix) : flatten1 w ix = .ok (pairsOf w ix) := by
  cases ix with
  | nil => exact absurd h (by simp [Legal])
  | longer e s => exact absurd h (by simp [Legal])
  | all e =>
    simp only [flatten1, pairsOf, positions, inst, Option.getD_some, intRange]
    congr 1
    rw [List.map_map]
    rfl
  | pair e s =>
    cases s with
    | scal l =>
      simp only [Legal] at h
      have : ((l.toNat : Nat) : Int) = l := by omega
      simp [flatten1, h, pairsOf, positions, inst, this]
    | iter b ls =>
      simp only [Legal] at h
      simp only [flatten1, pairsOf, positions, inst, Option.getD_some, List.map_map]
      congr 1
      rw [List.filter_eq_self.2 (by simpa using h)]
      refine List.map_congr_left fun l hl => ?_
      have := h l hl
      simp only [Function.comp, Prod.mk.injEq, true_and]
      omega

theorem flattenLoop_pairs {w : Nat} : ∀ {ixs : List Ix}, (∀ ix ∈ ixs, Legal w ix) → flattenLoop w ixs = .ok (ixs.flatMap (pairsOf w))
  | [], _ => rfl
  | ix :: r, h => by
    simp only [flattenLoop, flatten1_pairs (h ix (by simp)), flattenLoop_pairs (ixs := r) fun i hi => h i (by simp [hi]), List.flatMap_cons]

theorem inst_of_legal {w : Int} {ix : Ix} (h : Legal w ix) : ∃ e, inst ix = some e := by
  cases ix with
  | nil => exact absurd h (by simp [Legal])
  | longer e s => exact absurd h (by simp [Legal])
  | all e => exact ⟨e, rfl⟩
  | pair e s => exact ⟨e, rfl⟩

/-- The answer to the labels of one example. -/
theorem fetch_says {o : MLOracle χ β} {e : Int} : ∀ {is : List Nat} {r : List β × List ℚ}, o.fetch (some e) is = .ok r →
    ∃ as : List (β × ℚ), r = (as.map Prod.fst, as.map Prod.snd) ∧ List.Forall₂ (Says o) (is.map fun i : Nat => (e, (i : Int))) as
  | [], r, h => ⟨[], by rw [fetch_nil h] at h; cases h; rfl, .nil⟩
  | i :: is, r, h => by
    obtain ⟨x, c, xs, cs, rfl, h1, h2⟩ := (fetch_cons o _ i is r).1 h
    obtain ⟨as, e, hs⟩ := fetch_says h2
    cases e
    exact ⟨(x, c) :: as, rfl, .cons (by simpa [Says] using h1) hs⟩

theorem says_fetch {o : MLOracle χ β} {e : Int} (hk : o.fetch (some e) [] = .ok ([], [])) : ∀ {is : List Nat},
    (∀ i ∈ is, ∃ a, Says o (e, ((i : Nat) : Int)) a) → ∃ r, o.fetch (some e) is = .ok r
  | [], _ => ⟨_, hk⟩
  | i :: is, h => by
    obtain ⟨a, ha⟩ := h i (by simp)
    obtain ⟨r, hr⟩ := says_fetch hk (is := is) fun j hj => h j (by simp [hj])
    exact ⟨_, (fetch_cons o _ i is _).2 ⟨a.1, a.2, r.1, r.2, rfl, by simpa [Says] using ha, hr⟩⟩

/-- The answer to a list of legal indexes, pair by pair. -/
theorem loop_says {o : MLOracle χ β} : ∀ {ixs : List Ix} {r : List (List β) × List (List ℚ)}, (∀ ix ∈ ixs, Legal o.width ix) → o.queryLoop ixs = .ok r →
    (∃ as : List (β × ℚ), r.1.flatten = as.map Prod.fst ∧ r.2.flatten = as.map Prod.snd ∧ List.Forall₂ (Says o) (ixs.flatMap (pairsOf o.width)) as) ∧
      ∀ ix ∈ ixs, o.fetch (inst ix) [] = .ok ([], [])
  | [], r, _, h => by cases h; exact ⟨⟨[], rfl, rfl, .nil⟩, by simp⟩
  | ix :: ixs, r, hl, h => by
    have hix := hl ix (by simp)
    obtain ⟨e, he⟩ := inst_of_legal hix
    simp only [queryLoop, (labelInd_legal hix).1, ixKey_inst, he] at h
    cases hf : o.fetch (some e) (positions o.width ix) with
    | error err => rw [hf] at h; exact nomatch h
    | ok a =>
      rw [hf] at h
      simp only at h
      cases hq : o.queryLoop ixs with
      | error err => rw [hq] at h; exact nomatch h
      | ok b =>
        rw [hq] at h
        cases h
        obtain ⟨as, ea, ha⟩ := fetch_says hf
        obtain ⟨⟨bs, e1, e2, hb⟩, hn⟩ := loop_says (fun i hi => hl i (by simp [hi])) hq
        refine ⟨⟨as ++ bs, ?_, ?_, ?_⟩, fun i hi => ?_⟩
        · rw [List.flatten_cons, e1, ea, List.map_append]
        · rw [List.flatten_cons, e2, ea, List.map_append]
        · rw [List.flatMap_cons]
          refine List.rel_append ?_ hb
          simpa only [pairsOf, he, Option.getD_some] using ha
        · rcases List.mem_cons.1 hi with rfl | hi
          · rw [he]; exact fetch_nil hf
          · exact hn i hi

theorem says_loop {o : MLOracle χ β} : ∀ {ixs : List Ix}, (∀ ix ∈ ixs, Legal o.width ix) → (∀ ix ∈ ixs, o.fetch (inst ix) [] = .ok ([], [])) →
    (∀ p ∈ ixs.flatMap (pairsOf o.width), ∃ a, Says o p a) → ∃ r, o.queryLoop ixs = .ok r
  | [], _, _, _ => ⟨_, rfl⟩
  | ix :: ixs, hl, hn, hs => by
    have hix := hl ix (by simp)
    obtain ⟨e, he⟩ := inst_of_legal hix
    have hk := hn ix (by simp)
    rw [he] at hk
    obtain ⟨a, ha⟩ := says_fetch hk (is := positions o.width ix) fun i hi => hs _ (by
      rw [List.flatMap_cons]
      exact List.mem_append_left _ (by simp only [pairsOf, he, Option.getD_some]; exact List.mem_map_of_mem hi))
    obtain ⟨b, hb⟩ := says_loop (ixs := ixs) (fun i hi => hl i (by simp [hi])) (fun i hi => hn i (by simp [hi])) (fun p hp => hs p (by
      rw [List.flatMap_cons]; exact List.mem_append_right _ hp))
    exact ⟨(a.1 :: b.1, a.2 :: b.2), by simp only [queryLoop, (labelInd_legal hix).1, ixKey_inst, he, ha, hb]⟩

theorem query_iff {o : MLOracle χ β} {ixs : List Ix} {r : List (List β) × List (List ℚ)} : queryByIndex o (ixs.map .tup) = .ok r ↔ ixs ≠ [] ∧ o.queryLoop ixs = .ok r := by
  cases ixs with
  | nil => simp [queryByIndex, checkIndexMultilabel]
  | cons ix ixs =>
    have := allTuples_map (ix :: ixs)
    simp only [List.map_cons] at this ⊢
    simp only [queryByIndex, checkIndexMultilabel, this]
    simp

theorem zip_fst_snd {α γ : Type} : ∀ as : List (α × γ), (as.map Prod.fst).zip (as.map Prod.snd) = as
  | [] => rfl
  | a :: as => by simp [zip_fst_snd as]

theorem pairwise_says {ps : List (Int × Int)} {r : List (List β) × List (List ℚ)} {as : List (β × ℚ)} (h1 : r.1.flatten = as.map Prod.fst) (h2 : r.2.flatten = as.map Prod.snd) :
    pairwise ps r = ps.zip as := by rw [pairwise, h1, h2, zip_fst_snd]

theorem totalCost_says {r : List (List β) × List (List ℚ)} {as : List (β × ℚ)} (h2 : r.2.flatten = as.map Prod.snd) : totalCost r = (as.map Prod.snd).sum := by
  rw [totalCost, ← h2, List.sum_flatten]

theorem zip_says {o : MLOracle χ β} : ∀ {ps : List (Int × Int)} {as : List (β × ℚ)}, List.Forall₂ (Says o) ps as →
    List.Forall₂ (fun p q => q.1 = p ∧ Says o p q.2) ps (ps.zip as)
  | _, _, .nil => .nil
  | _, _, .cons h t => .cons ⟨rfl, h⟩ (zip_says t)

theorem says_zip {o : MLOracle χ β} : ∀ {ps : List (Int × Int)} {v : List ((Int × Int) × β × ℚ)} {as : List (β × ℚ)},
    List.Forall₂ (fun p q => q.1 = p ∧ Says o p q.2) ps v → List.Forall₂ (Says o) ps as → v = ps.zip as
  | _, _, _, .nil, .nil => rfl
  | p :: ps, q :: v, a :: as, .cons h t, .cons h' t' => by
    rw [says_zip t t', List.zip_cons_cons]
    congr 1
    exact Prod.ext h.1 (h.2.unique h')

theorem zip_perm {o : MLOracle χ β} {ps ps' : List (Int × Int)} {as as' : List (β × ℚ)} (h : List.Forall₂ (Says o) ps as) (h' : List.Forall₂ (Says o) ps' as') (hp : ps'.Perm ps) :
    (ps'.zip as').Perm (ps.zip as) := by
  obtain ⟨v, hv, hvp⟩ := List.perm_comp_forall₂ hp (zip_says h)
  rw [← says_zip hv h']
  exact hvp

theorem zip_snd {o : MLOracle χ β} {ps : List (Int × Int)} {as : List (β × ℚ)} (h : List.Forall₂ (Says o) ps as) : (ps.zip as).map Prod.snd = as := by
  rw [List.map_snd_zip]
  exact h.length_eq.ge

/-- **C159** (pair by pair): what is answered to any list of indexes, `(e,)`, `(e, l)` and `(e, [l1, l2, ..])` in any mixture, is answered to the flattened list, each label with its cost by itself. -/
theorem C159_flattened {o : MLOracle χ β} {ixs : List Ix} (hl : ∀ ix ∈ ixs, Legal o.width ix) {r : List (List β) × List (List ℚ)} (hr : queryByIndex o (ixs.map .tup) = .ok r)
    {ps : List (Int × Int)} (hf : flatten ixs (some (o.width : Int)) = .ok ps) (hne : ps ≠ []) :
    queryByIndex o (ps.map fun p => .tup (.pair p.1 (.scal p.2))) = .ok (r.1.flatten.map fun x => [x], r.2.flatten.map fun c => [c]) := by
  have hfl : ps = ixs.flatMap (pairsOf o.width) := by
    unfold flatten at hf
    simp only at hf
    split at hf
    · rw [flattenLoop_pairs hl] at hf; cases hf; rfl
    · exact nomatch hf
  obtain ⟨-, hq⟩ := query_iff.1 hr
  obtain ⟨⟨as, e1, e2, hs⟩, -⟩ := loop_says hl hq
  rw [← hfl] at hs
  have hrange : ∀ p ∈ ps, 0 ≤ p.2 ∧ p.2 < o.width := by
    intro p hp
    rw [hfl] at hp
    obtain ⟨ix, hix, hp⟩ := List.mem_flatMap.1 hp
    simp only [pairsOf, List.mem_map] at hp
    obtain ⟨i, hi, rfl⟩ := hp
    have := (labelInd_legal (hl ix hix)).2 i hi
    simp only
    omega
  have key : ∀ {ps : List (Int × Int)} {as : List (β × ℚ)}, List.Forall₂ (Says o) ps as → (∀ p ∈ ps, 0 ≤ p.2 ∧ p.2 < o.width) →
      o.queryLoop (ps.map fun p => .pair p.1 (.scal p.2)) = .ok (as.map fun a => [a.1], as.map fun a => [a.2]) := by
    intro ps as h
    induction h with
    | nil => intro _; rfl
    | cons h t ih =>
      intro hr
      have hp := hr _ (List.mem_cons_self ..)
      have := ih fun p hp => hr p (by simp [hp])
      simp only [List.map_cons, queryLoop, MLOracle.labelInd, if_pos hp, ixKey]
      unfold Says at h
      rw [h, this]
  have : (ps.map fun p => Item.tup (.pair p.1 (.scal p.2))) = (ps.map fun p => Ix.pair p.1 (.scal p.2)).map .tup := by rw [List.map_map]; rfl
  rw [this, query_iff]
  refine ⟨by simpa using hne, ?_⟩
  rw [key hs hrange, e1, e2, List.map_map, List.map_map]
  rfl

/-- **C159** (any grouping): two lists of indexes for the same pairs and examples, grouped and ordered in whatever way, are answered alike: every pair gets the same label at the same cost, and both
calls cost the same. -/
theorem C159_any_grouping {o : MLOracle χ β} {ixs ixs' : List Ix} (hl : ∀ ix ∈ ixs, Legal o.width ix) (hl' : ∀ ix ∈ ixs', Legal o.width ix) {ps ps' : List (Int × Int)}
    (hf : flatten ixs (some (o.width : Int)) = .ok ps) (hf' : flatten ixs' (some (o.width : Int)) = .ok ps') (hp : ps'.Perm ps) (hne : ixs' ≠ [])
    (hi : ∀ e, some e ∈ ixs'.map inst → some e ∈ ixs.map inst) {r : List (List β) × List (List ℚ)} (hr : queryByIndex o (ixs.map .tup) = .ok r) :
    ∃ r', queryByIndex o (ixs'.map .tup) = .ok r' ∧ (pairwise ps' r').Perm (pairwise ps r) ∧ totalCost r' = totalCost r := by
  have hfl : ∀ {ixs : List Ix} {ps : List (Int × Int)}, (∀ ix ∈ ixs, Legal o.width ix) → flatten ixs (some (o.width : Int)) = .ok ps → ps = ixs.flatMap (pairsOf o.width) := by
    intro ixs ps hl hf
    unfold flatten at hf
    simp only at hf
    split at hf
    · rw [flattenLoop_pairs hl] at hf; cases hf; rfl
    · exact nomatch hf
  obtain ⟨-, hq⟩ := query_iff.1 hr
  obtain ⟨⟨as, e1, e2, hs⟩, hn⟩ := loop_says hl hq
  rw [← hfl hl hf] at hs
  obtain ⟨r', hr'⟩ := says_loop hl' (fun ix hix => by
      obtain ⟨e, he⟩ := inst_of_legal (hl' ix hix)
      obtain ⟨jx, hjx, hj⟩ := List.mem_map.1 (hi e (List.mem_map.2 ⟨ix, hix, he⟩))
      rw [he, ← hj]
      exact hn jx hjx) (fun p hpp => by
      rw [← hfl hl' hf'] at hpp
      obtain ⟨i, hlt, rfl⟩ := List.getElem_of_mem (hp.mem_iff.1 hpp)
      have := List.forall₂_iff_get.1 hs
      exact ⟨_, this.2 i hlt (by rw [← this.1]; exact hlt)⟩)
  obtain ⟨⟨as', e1', e2', hs'⟩, -⟩ := loop_says hl' hr'
  rw [← hfl hl' hf'] at hs'
  have hz := zip_perm hs hs' hp
  refine ⟨r', query_iff.2 ⟨hne, hr'⟩, ?_, ?_⟩
  · rw [pairwise_says e1 e2, pairwise_says e1' e2']; exact hz
  · rw [totalCost_says e2, totalCost_says e2']
    have := (hz.map Prod.snd).map Prod.snd
    rw [zip_snd hs, zip_snd hs'] at this
    exact this.sum_eq

/-- The pairs of an integrated list, each once. -/
theorem integrated {w : Nat} (hw : 0 < w) {ixs : List Ix} (hl : ∀ ix ∈ ixs, Legal w ix) :
    ∃ out, integrate ixs (some (w : Int)) = .ok out ∧ (∀ ix ∈ out, Legal w ix) ∧ (out.flatMap (pairsOf w)).Nodup ∧ (∀ p, p ∈ out.flatMap (pairsOf w) ↔ p ∈ ixs.flatMap (pairsOf w)) ∧
      ∀ e, some e ∈ out.map inst ↔ some e ∈ ixs.map inst := by
  have hw' : (0 : Int) < w := by omega
  obtain ⟨out, qs, qs', h1, h2, h3, h4, h5⟩ := C09_flatten_of_integrate (w : Int) hw' ixs hl
  obtain ⟨out', h1', -, -, hinst, -⟩ := C09_integrate_keeps_the_pairs (w : Int) hw' ixs hl
  rw [h1] at h1'
  cases h1'
  obtain ⟨d, hd, hi, -, -⟩ := integrateLoop_legal (L := (w : Int)) ixs [] ⟨by simp, by simp [dictGet], by simp [dictGet]⟩ hl
  have hout : out = integrateOut w d := by
    have : integrate ixs (some (w : Int)) = .ok (integrateOut w d) := by simp only [integrate, if_pos hw', hd]
    rw [h1] at this
    exact Except.ok.inj this
  have hlo : ∀ ix ∈ out, Legal w ix := by rw [hout]; exact integrateOut_legal hi
  have f1 : qs = ixs.flatMap (pairsOf w) := by
    simp only [flatten, if_pos hw', flattenLoop_pairs hl] at h2
    cases h2; rfl
  have f2 : qs' = out.flatMap (pairsOf w) := by
    simp only [flatten, if_pos hw', flattenLoop_pairs hlo] at h3
    cases h3; rfl
  refine ⟨out, h1, hlo, ?_, fun p => ?_, hinst⟩
  · rw [hout, List.nodup_flatMap]
    constructor
    · intro ix hix
      simp only [integrateOut, List.mem_map] at hix
      obtain ⟨⟨e, ls⟩, hm, rfl⟩ := hix
      have hg := dictGet_of_mem hi.keys hm
      simp only
      split
      · simp only [pairsOf, positions]
        exact List.nodup_range.map fun a b h => by simpa using h
      · simp only [pairsOf, positions, List.map_map]
        refine List.Nodup.map_on (fun a ha b hb h => ?_) (hi.nodup _ _ hg)
        have := hi.range _ _ hg a ha
        have := hi.range _ _ hg b hb
        simp only [Function.comp, Prod.mk.injEq, true_and] at h
        omega
    · have hk : (integrateOut (w : Int) d).Pairwise fun a b => inst a ≠ inst b := by
        have : ((integrateOut (w : Int) d).map inst).Nodup := by
          rw [integrateOut_inst]
          exact hi.keys.map fun a b h => by simpa using h
        exact List.pairwise_map.1 this
      refine hk.imp_of_mem fun {a b} ha hb hab => ?_
      obtain ⟨e, he⟩ := inst_of_legal (integrateOut_legal hi a ha)
      obtain ⟨e', he'⟩ := inst_of_legal (integrateOut_legal hi b hb)
      rw [Function.onFun, List.disjoint_left]
      intro p hp hp'
      simp only [pairsOf, he, he', Option.getD_some, List.mem_map] at hp hp'
      obtain ⟨i, -, rfl⟩ := hp
      obtain ⟨j, -, hj⟩ := hp'
      rw [he, he'] at hab
      simp only [Prod.mk.injEq] at hj
      exact hab (by rw [hj.1])
  · rw [← f1, ← f2]
    exact h5 p

/-- **C159** (integrated): if no pair is named twice, the list may be integrated before it is asked: every pair gets the same label at the same cost. -/
theorem C159_integrated {o : MLOracle χ β} (hw : 0 < o.width) {ixs : List Ix} (hl : ∀ ix ∈ ixs, Legal o.width ix) {ps : List (Int × Int)}
    (hf : flatten ixs (some (o.width : Int)) = .ok ps) (hn : ps.Nodup) {r : List (List β) × List (List ℚ)} (hr : queryByIndex o (ixs.map .tup) = .ok r) :
    ∃ out ps' r', integrate ixs (some (o.width : Int)) = .ok out ∧ flatten out (some (o.width : Int)) = .ok ps' ∧ queryByIndex o (out.map .tup) = .ok r' ∧
      (pairwise ps' r').Perm (pairwise ps r) ∧ totalCost r' = totalCost r := by
  obtain ⟨out, h1, hlo, hnd, hm, hi⟩ := integrated hw hl
  have hw' : (0 : Int) < o.width := by omega
  have f1 : ps = ixs.flatMap (pairsOf o.width) := by
    simp only [flatten, if_pos hw', flattenLoop_pairs hl] at hf
    cases hf; rfl
  have f2 : flatten out (some (o.width : Int)) = .ok (out.flatMap (pairsOf o.width)) := by simp only [flatten, if_pos hw', flattenLoop_pairs hlo]
  have hp : (out.flatMap (pairsOf o.width)).Perm ps := (List.perm_ext_iff_of_nodup hnd hn).2 fun p => by rw [hm, f1]
  have hne : out ≠ [] := by
    rintro rfl
    obtain ⟨hne, -⟩ := query_iff.1 hr
    obtain ⟨ix, hix⟩ := List.exists_mem_of_ne_nil _ hne
    obtain ⟨e, he⟩ := inst_of_legal (hl ix hix)
    have := (hi e).2 (List.mem_map.2 ⟨ix, hix, he⟩)
    simp at this
  obtain ⟨r', hr', hz, hb⟩ := C159_any_grouping hl hlo hf f2 hp hne (fun e he => (hi e).1 he) hr
  exact ⟨out, _, r', h1, f2, hr', hz, hb⟩

/-- **C159** (pairs named twice): they are answered, and charged, as often as they are named. Integrating the list first never costs more (costs that are not negative), and leaves out nothing. -/
theorem C159_repeated {o : MLOracle χ β} (hw : 0 < o.width) {ixs : List Ix} (hl : ∀ ix ∈ ixs, Legal o.width ix) {ps : List (Int × Int)}
    (hf : flatten ixs (some (o.width : Int)) = .ok ps) {r : List (List β) × List (List ℚ)} (hr : queryByIndex o (ixs.map .tup) = .ok r) (hc : ∀ c ∈ r.2.flatten, 0 ≤ c) :
    ∃ out ps' r', integrate ixs (some (o.width : Int)) = .ok out ∧ flatten out (some (o.width : Int)) = .ok ps' ∧ queryByIndex o (out.map .tup) = .ok r' ∧
      (∀ q, q ∈ pairwise ps' r' ↔ q ∈ pairwise ps r) ∧ (ps'.Nodup ∧ ∀ p, p ∈ ps' ↔ p ∈ ps) ∧ totalCost r' ≤ totalCost r := by
  obtain ⟨out, h1, hlo, hnd, hm, hi⟩ := integrated hw hl
  have hw' : (0 : Int) < o.width := by omega
  have f1 : ps = ixs.flatMap (pairsOf o.width) := by
    simp only [flatten, if_pos hw', flattenLoop_pairs hl] at hf
    cases hf; rfl
  have f2 : flatten out (some (o.width : Int)) = .ok (out.flatMap (pairsOf o.width)) := by simp only [flatten, if_pos hw', flattenLoop_pairs hlo]
  obtain ⟨hne0, hq⟩ := query_iff.1 hr
  obtain ⟨⟨as, e1, e2, hs⟩, hn⟩ := loop_says hl hq
  have hne : out ≠ [] := by
    rintro rfl
    obtain ⟨ix, hix⟩ := List.exists_mem_of_ne_nil _ hne0
    obtain ⟨e, he⟩ := inst_of_legal (hl ix hix)
    have := (hi e).2 (List.mem_map.2 ⟨ix, hix, he⟩)
    simp at this
  obtain ⟨r', hr'⟩ := says_loop hlo (fun ix hix => by
      obtain ⟨e, he⟩ := inst_of_legal (hlo ix hix)
      obtain ⟨jx, hjx, hj⟩ := List.mem_map.1 ((hi e).1 (List.mem_map.2 ⟨ix, hix, he⟩))
      rw [he, ← hj]
      exact hn jx hjx) (fun p hpp => by
      obtain ⟨i, hlt, rfl⟩ := List.getElem_of_mem ((hm p).1 hpp)
      have := List.forall₂_iff_get.1 hs
      exact ⟨_, this.2 i hlt (by rw [← this.1]; exact hlt)⟩)
  obtain ⟨⟨as', e1', e2', hs'⟩, -⟩ := loop_says hlo hr'
  -- the questions of the integrated list are among those of the list
  have hsp : (out.flatMap (pairsOf o.width)).Subperm (ixs.flatMap (pairsOf o.width)) := List.subperm_of_subset hnd fun p hp => (hm p).1 hp
  have hmemz : ∀ {ps : List (Int × Int)} {as : List (β × ℚ)}, List.Forall₂ (Says o) ps as → ∀ q, q ∈ ps.zip as ↔ q.1 ∈ ps ∧ Says o q.1 q.2 := by
    intro ps as h
    induction h with
    | nil => simp
    | @cons p a ps as h t ih =>
      intro q
      rw [List.zip_cons_cons, List.mem_cons, ih, List.mem_cons]
      constructor
      · rintro (rfl | ⟨h1, h2⟩)
        · exact ⟨.inl rfl, h⟩
        · exact ⟨.inr h1, h2⟩
      · rintro ⟨h1 | h1, h2⟩
        · left
          obtain ⟨q1, q2⟩ := q
          simp only at h1 h2
          subst h1
          rw [h2.unique h]
        · exact .inr ⟨h1, h2⟩
  refine ⟨out, _, r', h1, f2, query_iff.2 ⟨hne, hr'⟩, fun q => ?_, ⟨hnd, fun p => by rw [hm, f1]⟩, ?_⟩
  · rw [pairwise_says e1 e2, pairwise_says e1' e2', f1, hmemz hs, hmemz hs', hm]
  · obtain ⟨l, hlp, hls⟩ := hsp
    -- the answers to the sublist
    have hsub : ∀ {l ps : List (Int × Int)} {as : List (β × ℚ)}, l.Sublist ps → List.Forall₂ (Says o) ps as → ∃ bs, bs.Sublist as ∧ List.Forall₂ (Says o) l bs := by
      intro l ps as hl
      induction hl generalizing as with
      | slnil => intro h; cases h; exact ⟨[], .slnil, .nil⟩
      | cons a _ ih =>
        intro h
        cases h with
        | cons h t => obtain ⟨bs, hb, hf⟩ := ih t; exact ⟨bs, .cons _ hb, hf⟩
      | cons_cons a _ ih =>
        intro h
        cases h with
        | cons h t => obtain ⟨bs, hb, hf⟩ := ih t; exact ⟨_ :: bs, .cons_cons _ hb, .cons h hf⟩
    obtain ⟨bs, hbs, hfb⟩ := hsub hls hs
    have hz := zip_perm hs' hfb hlp
    have hz2 := (hz.map Prod.snd).map Prod.snd
    rw [zip_snd hs', zip_snd hfb] at hz2
    rw [totalCost_says e2, totalCost_says e2', ← hz2.sum_eq]
    exact (hbs.map Prod.snd).sum_le_sum fun c hc' => hc c (by rw [e2]; exact hc')

/-- Asking for a whole row and one label of it in between two others. -/
example : queryByIndex demo ([.pair 1 (.scal 0), .pair 5 (.iter true [2, 0]), .pair 1 (.iter true [2, 1])].map .tup) = .ok ([[0], [0, 1], [1, 1]], [[1], [9, 7], [3, 2]]) ∧
    integrate [.pair 1 (.scal 0), .pair 5 (.iter true [2, 0]), .pair 1 (.iter true [2, 1])] (some 3) = .ok [.all 1, .pair 5 (.iter true [2, 0])] ∧
    queryByIndex demo ([.all 1, .pair 5 (.iter true [2, 0])].map .tup) = .ok ([[0, 1, 1], [0, 1]], [[1, 2, 3], [9, 7]]) ∧
    flatten [.pair 1 (.scal 0), .pair 5 (.iter true [2, 0]), .pair 1 (.iter true [2, 1])] (some 3) = .ok [(1, 0), (5, 2), (5, 0), (1, 2), (1, 1)] :=
  ⟨rfl, rfl, rfl, rfl⟩

/-- A pair named twice is charged twice. -/
example : queryByIndex demo ([.pair 5 (.scal 2), .pair 5 (.iter true [2, 0])].map .tup) = .ok ([[0], [0, 1]], [[9], [9, 7]]) := rfl

end MLOracle
end Alipy
