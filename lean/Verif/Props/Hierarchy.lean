import Verif.Model.Hierarchy
import Verif.Spec.Hierarchy
import Verif.Proof.MultiLabel
/-!
# Properties of completing queried pairs along the label hierarchy (C70)
-/
namespace Alipy.Hierarchy
open Alipy

theorem update_pair {c : MLIC} {L : Int} (hl : c.lsz = some L) (hs : c.isList = false) {x d : Int} (hd : d < L) :
    ∃ c', c.update (.tuple (.pair x (.scal d))) = (c', none) ∧ c'.lsz = some L ∧ c'.isList = false ∧
      (∀ p, p ∈ c'.inner ↔ p ∈ c.inner ∨ p = (x, Second.scal d)) ∧ (c.inner.Nodup → c'.inner.Nodup) := by
  unfold MLIC.update MLIC.add MLIC.addPair MLIC.checkBound
  rw [hl]
  simp only
  rw [if_neg (by omega)]
  simp only
  unfold MLIC.insert
  rw [hs]
  simp only [MLIC.hashable, Bool.not_true, Bool.and_false, Bool.false_eq_true, if_false]
  by_cases hm : (x, Second.scal d) ∈ c.inner
  · rw [if_pos hm]
    exact ⟨c, rfl, hl, hs, fun p => ⟨Or.inl, fun h => h.elim id (fun h => h ▸ hm)⟩, id⟩
  · rw [if_neg hm]
    refine ⟨_, rfl, hl, rfl, fun p => by simp, fun h => ?_⟩
    simp only
    rw [List.nodup_append]
    refine ⟨h, by simp, ?_⟩
    intro a ha b hb
    rw [List.mem_singleton] at hb
    subst hb
    exact fun e => hm (e ▸ ha)

theorem addTargets_spec (lab : MLIC) (x L : Int) : ∀ (ds : List Int) (acc : MLIC), acc.lsz = some L → acc.isList = false → (∀ d ∈ ds, d < L) →
    ∃ acc', addTargets lab x acc ds = (acc', none) ∧ acc'.lsz = some L ∧ acc'.isList = false ∧
      (∀ p, p ∈ acc'.inner ↔ p ∈ acc.inner ∨ ∃ d ∈ ds, p = (x, Second.scal d) ∧ p ∉ lab.inner) ∧ (acc.inner.Nodup → acc'.inner.Nodup)
  | [], acc, hl, hs, _ => ⟨acc, rfl, hl, hs, by simp, id⟩
  | d :: ds, acc, hl, hs, hd => by
    unfold addTargets
    by_cases hm : (x, Second.scal d) ∈ lab.inner
    · rw [if_pos hm]
      obtain ⟨acc', h1, h2, h3, h4, h5⟩ := addTargets_spec lab x L ds acc hl hs (fun e he => hd e (by simp [he]))
      refine ⟨acc', h1, h2, h3, fun p => ?_, h5⟩
      rw [h4]
      constructor
      · rintro (h | ⟨e, he, h⟩)
        · exact .inl h
        · exact .inr ⟨e, by simp [he], h⟩
      · rintro (h | ⟨e, he, h, hn⟩)
        · exact .inl h
        · rcases List.mem_cons.1 he with rfl | he
          · exact absurd (h ▸ hm) hn
          · exact .inr ⟨e, he, h, hn⟩
    · rw [if_neg hm]
      obtain ⟨c, g1, g2, g3, g4, g5⟩ := update_pair hl hs (x := x) (hd d (by simp))
      obtain ⟨acc', h1, h2, h3, h4, h5⟩ := addTargets_spec lab x L ds c g2 g3 (fun e he => hd e (by simp [he]))
      rw [g1]
      refine ⟨acc', h1, h2, h3, fun p => ?_, fun h => h5 (g5 h)⟩
      rw [h4, g4]
      constructor
      · rintro ((h | h) | ⟨e, he, h⟩)
        · exact .inl h
        · exact .inr ⟨d, by simp, h, h ▸ hm⟩
        · exact .inr ⟨e, by simp [he], h⟩
      · rintro (h | ⟨e, he, h, hn⟩)
        · exact .inl (.inl h)
        · rcases List.mem_cons.1 he with rfl | he
          · exact .inl (.inr h)
          · exact .inr ⟨e, he, h, hn⟩

theorem targets_mem {tree : Int → Int → Bool} {L : Nat} {v j d : Int} :
    d ∈ targets tree L v j ↔ 0 ≤ d ∧ d < L ∧ ((v = 1 ∧ tree j d = true) ∨ (v = -1 ∧ tree d j = true)) := by
  have hr : ∀ d : Int, d ∈ ((List.range L).map (fun d : Nat => (d : Int))) ↔ 0 ≤ d ∧ d < L := by
    intro d
    simp only [List.mem_map, List.mem_range]
    constructor
    · rintro ⟨a, ha, rfl⟩; omega
    · rintro ⟨h0, h1⟩; exact ⟨d.toNat, by omega, by omega⟩
  unfold targets
  split_ifs with h1 h2
  · subst h1
    rw [List.mem_filter, hr]
    simp [and_assoc]
  · subst h2
    rw [List.mem_filter, hr]
    simp [and_assoc]
  · simp [h1, h2]

theorem collect_spec (tree : Int → Int → Bool) (L : Nat) (y : Int → Int → Int) (lab : MLIC) : ∀ (ps : List (Int × Int)) (acc : MLIC),
    acc.lsz = some (L : Int) → acc.isList = false →
    ∃ acc', collect tree L y lab acc (ps.map MLIC.plain) = (acc', none) ∧ acc'.lsz = some (L : Int) ∧ acc'.isList = false ∧
      (∀ p, p ∈ acc'.inner ↔ p ∈ acc.inner ∨ ∃ x j, (x, j) ∈ ps ∧ ∃ d ∈ targets tree L (y x j) j, p = (x, Second.scal d) ∧ p ∉ lab.inner) ∧
      (acc.inner.Nodup → acc'.inner.Nodup)
  | [], acc, hl, hs => ⟨acc, rfl, hl, hs, by simp, id⟩
  | (x, j) :: ps, acc, hl, hs => by
    obtain ⟨c, g1, g2, g3, g4, g5⟩ := addTargets_spec lab x L (targets tree L (y x j) j) acc hl hs (fun d hd => (targets_mem.1 hd).2.1)
    obtain ⟨acc', h1, h2, h3, h4, h5⟩ := collect_spec tree L y lab ps c g2 g3
    refine ⟨acc', ?_, h2, h3, fun p => ?_, fun h => h5 (g5 h)⟩
    · simp only [List.map_cons, MLIC.plain, collect]
      rw [g1]
      exact h1
    · rw [h4, g4]
      constructor
      · rintro ((h | ⟨d, hd, h⟩) | ⟨x', j', hm, h⟩)
        · exact .inl h
        · exact .inr ⟨x, j, by simp, d, hd, h⟩
        · exact .inr ⟨x', j', by simp [hm], h⟩
      · rintro (h | ⟨x', j', hm, d, hd, h⟩)
        · exact .inl (.inl h)
        · rcases List.mem_cons.1 hm with he | hm
          · cases he
            exact .inl (.inr ⟨d, hd, h⟩)
          · exact .inr ⟨x', j', hm, d, hd, h⟩

theorem merge_spec {L : Int} : ∀ (ps : List (Int × Second)) (q : MLIC), q.lsz = some L → q.isList = false →
    (∀ p ∈ ps, ∃ x d, p = (x, Second.scal d) ∧ d < L) →
    ∃ q', merge q ps = (q', none) ∧ q'.lsz = some L ∧ q'.isList = false ∧ (∀ p, p ∈ q'.inner ↔ p ∈ q.inner ∨ p ∈ ps) ∧ (q.inner.Nodup → q'.inner.Nodup)
  | [], q, hl, hs, _ => ⟨q, rfl, hl, hs, by simp, id⟩
  | p :: ps, q, hl, hs, hp => by
    unfold merge
    by_cases hm : p ∈ q.inner
    · rw [if_pos hm]
      obtain ⟨q', h1, h2, h3, h4, h5⟩ := merge_spec ps q hl hs (fun r hr => hp r (by simp [hr]))
      refine ⟨q', h1, h2, h3, fun r => ?_, h5⟩
      rw [h4]
      constructor
      · rintro (h | h)
        · exact .inl h
        · exact .inr (by simp [h])
      · rintro (h | h)
        · exact .inl h
        · rcases List.mem_cons.1 h with rfl | h
          · exact .inl hm
          · exact .inr h
    · rw [if_neg hm]
      obtain ⟨x, d, rfl, hd⟩ := hp p (by simp)
      obtain ⟨c, g1, g2, g3, g4, g5⟩ := update_pair hl hs (x := x) hd
      obtain ⟨q', h1, h2, h3, h4, h5⟩ := merge_spec ps c g2 g3 (fun r hr => hp r (by simp [hr]))
      rw [g1]
      refine ⟨q', h1, h2, h3, fun r => ?_, fun h => h5 (g5 h)⟩
      rw [h4, g4]
      simp only [List.mem_cons, or_assoc]

/-- **C70**: what the call does: the queried pairs are kept, and for every queried pair with label 1 (-1) the pairs of the same instance are added that
are not yet labelled and that belong to a label `d` with `label_tree[j][d] == 1` (`label_tree[d][j] == 1`). Nothing occurs twice. -/
theorem C70_mark_partial {q lab : MLIC} {L : Nat} (hl : q.lsz = some (L : Int)) (hs : q.isList = false) {ps : List (Int × Int)}
    (hq : q.inner = ps.map MLIC.plain) (hnd : q.inner.Nodup) (tree : Int → Int → Bool) (y : Int → Int → Int) :
    ∃ q', mark q lab (L, L) tree y = (q', none) ∧ q'.lsz = some (L : Int) ∧ q'.inner.Nodup ∧
      ∀ p, p ∈ q'.inner ↔ p ∈ q.inner ∨ (p ∉ lab.inner ∧ ∃ x j d : Int, p = (x, Second.scal d) ∧ (x, Second.scal j) ∈ q.inner ∧ 0 ≤ d ∧ d < L ∧
        ((y x j = 1 ∧ tree j d = true) ∨ (y x j = -1 ∧ tree d j = true))) := by
  obtain ⟨acc, g1, g2, g3, g4, g5⟩ := collect_spec tree L y lab ps (MLIC.empty (some (L : Int))) rfl rfl
  have g4' : ∀ p, p ∈ acc.inner ↔ ∃ x j, (x, j) ∈ ps ∧ ∃ d ∈ targets tree L (y x j) j, p = (x, Second.scal d) ∧ p ∉ lab.inner := by
    intro p
    rw [g4]
    simp [MLIC.empty]
  obtain ⟨q', h1, h2, h3, h4, h5⟩ := merge_spec (L := L) acc.inner q hl hs (by
    intro p hp
    obtain ⟨x, j, _, d, hd, h, _⟩ := (g4' p).1 hp
    exact ⟨x, d, h, (targets_mem.1 hd).2.1⟩)
  refine ⟨q', ?_, h2, h5 hnd, fun p => ?_⟩
  · unfold mark
    rw [hl]
    simp only [and_self, if_true, Int.toNat_natCast]
    rw [hq, g1]
    exact h1
  · rw [h4, g4']
    constructor
    · rintro (h | ⟨x, j, hm, d, hd, h, hn⟩)
      · exact .inl h
      · obtain ⟨a, b, c⟩ := targets_mem.1 hd
        exact .inr ⟨hn, x, j, d, h, by rw [hq]; exact List.mem_map.2 ⟨_, hm, rfl⟩, a, b, c⟩
    · rintro (h | ⟨hn, x, j, d, h, hm, a, b, c⟩)
      · exact .inl h
      · rw [hq] at hm
        obtain ⟨⟨x', j'⟩, hm', e⟩ := List.mem_map.1 hm
        simp only [MLIC.plain, Prod.mk.injEq, Second.scal.injEq] at e
        obtain ⟨rfl, rfl⟩ := e
        exact .inr ⟨x', j', hm', d, targets_mem.2 ⟨a, b, c⟩, h, hn⟩

/-- The value of the parent of a positive label, and of the children of a negative one, follows. -/
theorem follows_up {parent : Int → Int → Prop} {j l : Int} (h : Relation.ReflTransGen parent l j) : Spec.FollowsFrom parent j true l := by
  have key : ∀ z : Int → Prop, Spec.Consistent parent z → z j → z l := by
    intro z hz
    induction h using Relation.ReflTransGen.head_induction_on with
    | refl => exact id
    | head hab _ ih => exact fun hj => hz _ _ hab (ih hj)
  intro z z' hz hz' h1 h2
  exact ⟨fun _ => key z' hz' (h2.2 rfl), fun _ => key z hz (h1.2 rfl)⟩

theorem follows_down {parent : Int → Int → Prop} {j l : Int} (h : Relation.ReflTransGen parent j l) : Spec.FollowsFrom parent j false l := by
  have key : ∀ z : Int → Prop, Spec.Consistent parent z → z l → z j := by
    intro z hz
    induction h with
    | refl => exact id
    | tail _ hbc ih => exact fun hl => ih (hz _ _ hbc hl)
  intro z z' hz hz' h1 h2
  constructor
  · intro hl; exact absurd (h1.1 (key z hz hl)) (by simp)
  · intro hl; exact absurd (h2.1 (key z' hz' hl)) (by simp)

/-- What follows from a positive label: its ancestors, nothing else. -/
theorem follows_pos_iff {parent : Int → Int → Prop} {j l : Int} : Spec.FollowsFrom parent j true l ↔ Relation.ReflTransGen parent l j := by
  constructor
  · intro h
    have := h (fun a => Relation.ReflTransGen parent a j) (fun _ => True) (fun a b hab hb => .head hab hb) (fun _ _ _ _ => trivial)
      (by simp [Relation.ReflTransGen.refl]) (by simp)
    simpa using this
  · exact follows_up

/-- What follows from a negative label: its descendants, nothing else. -/
theorem follows_neg_iff {parent : Int → Int → Prop} {j l : Int} : Spec.FollowsFrom parent j false l ↔ Relation.ReflTransGen parent j l := by
  constructor
  · intro h
    have := h (fun a => ¬ Relation.ReflTransGen parent j a) (fun _ => False) (fun a b hab hb ha => hb (ha.tail hab)) (fun _ _ _ h => h)
      (by simp [Relation.ReflTransGen.refl]) (by simp)
    simp at this
    exact this
  · exact follows_down

/-- **C70**: with the tree given the other way round than documented (`label_tree[i][j] == 1` if `j` is the parent of `i`) only pairs are added whose
label follows from the label of a queried pair of the same instance. -/
theorem C70_transposed_partial {q lab : MLIC} {L : Nat} (hl : q.lsz = some (L : Int)) (hs : q.isList = false) {ps : List (Int × Int)}
    (hq : q.inner = ps.map MLIC.plain) (hnd : q.inner.Nodup) (parent : Int → Int → Bool) (y : Int → Int → Int) :
    ∃ q', mark q lab (L, L) (fun a b => parent b a) y = (q', none) ∧ ∀ p ∈ q'.inner, p ∉ q.inner →
      p ∉ lab.inner ∧ ∃ x j d : Int, p = (x, Second.scal d) ∧ (x, Second.scal j) ∈ q.inner ∧ (y x j = 1 ∨ y x j = -1) ∧
        Spec.FollowsFrom (fun a b => parent a b = true) j (decide (y x j = 1)) d := by
  obtain ⟨q', h1, _, _, h4⟩ := C70_mark_partial (lab := lab) hl hs hq hnd (fun a b => parent b a) y
  refine ⟨q', h1, ?_⟩
  intro p hp hn
  rcases (h4 p).1 hp with h | ⟨hlab, x, j, d, he, hm, _, _, h⟩
  · exact absurd h hn
  · refine ⟨hlab, x, j, d, he, hm, ?_⟩
    rcases h with ⟨hv, ht⟩ | ⟨hv, ht⟩
    · refine ⟨.inl hv, ?_⟩
      rw [hv]
      simp only [decide_true]
      exact follows_up (.single ht)
    · refine ⟨.inr hv, ?_⟩
      rw [hv]
      simp only [show decide ((-1 : Int) = 1) = false from rfl]
      exact follows_down (.single ht)

/-- With the tree as documented (`label_tree[i][j] == 1` if `i` is the parent of `j`) exactly the wrong pairs are added: for a positive label its children,
for a negative one its parent - their labels do not follow. -/
theorem C70_direction_violation {q lab : MLIC} {L : Nat} (hl : q.lsz = some (L : Int)) (hs : q.isList = false) {ps : List (Int × Int)}
    (hq : q.inner = ps.map MLIC.plain) (hnd : q.inner.Nodup) {parent : Int → Int → Bool} (hac : Spec.Acyclic (fun a b => parent a b = true))
    {y : Int → Int → Int} {x j d : Int} (hj : (x, Second.scal j) ∈ q.inner) (hd0 : 0 ≤ d) (hdL : d < L) (hdlab : (x, Second.scal d) ∉ lab.inner)
    (hd : (y x j = 1 ∧ parent j d = true) ∨ (y x j = -1 ∧ parent d j = true)) :
    ∃ q', mark q lab (L, L) parent y = (q', none) ∧ (x, Second.scal d) ∈ q'.inner ∧
      ¬ Spec.FollowsFrom (fun a b => parent a b = true) j (decide (y x j = 1)) d := by
  obtain ⟨q', h1, _, _, h4⟩ := C70_mark_partial (lab := lab) hl hs hq hnd parent y
  refine ⟨q', h1, (h4 _).2 (.inr ⟨hdlab, x, j, d, rfl, hj, hd0, hdL, hd⟩), ?_⟩
  rcases hd with ⟨hv, ht⟩ | ⟨hv, ht⟩
  · rw [hv]
    simp only [decide_true]
    rw [follows_pos_iff]
    exact fun h => hac d (Relation.TransGen.tail' h ht)
  · rw [hv]
    simp only [show decide ((-1 : Int) = 1) = false from rfl]
    rw [follows_neg_iff]
    exact fun h => hac d (Relation.TransGen.head' ht h)

/-- And the pairs whose label does follow from the queried one are not added. -/
theorem C70_missing_violation {L : Nat} {parent : Int → Int → Bool} (hac : Spec.Acyclic (fun a b => parent a b = true)) {y : Int → Int → Int}
    {x j d : Int} (hv : y x j = 1 ∨ y x j = -1) (hdj : d ≠ j) (hd : Spec.FollowsFrom (fun a b => parent a b = true) j (decide (y x j = 1)) d)
    (lab : MLIC) :
    ∃ q', mark ⟨[(x, .scal j)], some (L : Int), false⟩ lab (L, L) parent y = (q', none) ∧ (x, Second.scal d) ∉ q'.inner := by
  obtain ⟨q', h1, _, _, h4⟩ := C70_mark_partial (q := ⟨[(x, .scal j)], some (L : Int), false⟩) (lab := lab) rfl rfl (ps := [(x, j)]) rfl (by simp) parent y
  refine ⟨q', h1, fun hm => ?_⟩
  rcases (h4 _).1 hm with h | ⟨_, x', j', d', he, hj', _, _, h⟩
  · simp only [List.mem_singleton, Prod.mk.injEq, Second.scal.injEq, true_and] at h
    exact hdj h
  · simp only [Prod.mk.injEq, Second.scal.injEq] at he
    obtain ⟨rfl, rfl⟩ := he
    simp only [List.mem_singleton, Prod.mk.injEq, Second.scal.injEq, true_and] at hj'
    subst hj'
    rcases h with ⟨h, ht⟩ | ⟨h, ht⟩
    · rw [h] at hd
      simp only [decide_true] at hd
      rw [follows_pos_iff] at hd
      exact hac d (Relation.TransGen.tail' hd ht)
    · rw [h] at hd
      simp only [show decide ((-1 : Int) = 1) = false from rfl] at hd
      rw [follows_neg_iff] at hd
      exact hac d (Relation.TransGen.head' ht hd)

/-- Even with the transposed tree only one step is made: the label of the grandparent of a positive label follows, but is not added. -/
theorem C70_one_step_violation {L : Nat} {parent : Int → Int → Bool} (hac : Spec.Acyclic (fun a b => parent a b = true))
    (htree : ∀ a b c, parent a c = true → parent b c = true → a = b) {y : Int → Int → Int} {x j m d : Int} (hv : y x j = 1)
    (hm : parent m j = true) (hd : parent d m = true) (lab : MLIC) :
    Spec.FollowsFrom (fun a b => parent a b = true) j true d ∧
    ∃ q', mark ⟨[(x, .scal j)], some (L : Int), false⟩ lab (L, L) (fun a b => parent b a) y = (q', none) ∧ (x, Second.scal d) ∉ q'.inner := by
  obtain ⟨q', h1, _, _, h4⟩ := C70_mark_partial (q := ⟨[(x, .scal j)], some (L : Int), false⟩) (lab := lab) rfl rfl (ps := [(x, j)]) rfl (by simp)
    (fun a b => parent b a) y
  refine ⟨follows_up (.head hd (.single hm)), q', h1, fun hmem => ?_⟩
  rcases (h4 _).1 hmem with h | ⟨_, x', j', d', he, hj', _, _, h⟩
  · simp only [List.mem_singleton, Prod.mk.injEq, Second.scal.injEq, true_and] at h
    subst h
    exact hac d (.head hd (.single hm))
  · simp only [Prod.mk.injEq, Second.scal.injEq] at he
    obtain ⟨rfl, rfl⟩ := he
    simp only [List.mem_singleton, Prod.mk.injEq, Second.scal.injEq, true_and] at hj'
    subst hj'
    rcases h with ⟨_, ht⟩ | ⟨h, _⟩
    · have := htree _ _ _ ht hm
      subst this
      exact hac _ (.single hd)
    · rw [hv] at h; exact absurd h (by decide)

/-- **C70** (shape): a tree which does not have as many rows and columns as there are labels is refused and nothing changes. -/
theorem C70_shape {q lab : MLIC} {L : Nat} (hl : q.lsz = some (L : Int)) {r c : Nat} (h : r ≠ L ∨ c ≠ L) (tree : Int → Int → Bool) (y : Int → Int → Int) :
    mark q lab (r, c) tree y = (q, some .assertionError) := by
  unfold mark
  rw [hl]
  simp only
  rw [if_neg (by omega)]

/-- A chain 0 - 1 - 2: label 1 of instance 7 is positive; the child 2 is marked, the parent 0 is not. -/
example : mark ⟨[(7, .scal 1)], some 3, false⟩ ⟨[], some 3, false⟩ (3, 3) (fun a b => b == a + 1) (fun _ _ => 1) =
    (⟨[(7, .scal 1), (7, .scal 2)], some 3, false⟩, none) := by decide +kernel

/-- The same with the transposed tree, label 2 positive: the parent 1 is marked, its parent 0 is not although it follows. -/
example : mark ⟨[(7, .scal 2)], some 3, false⟩ ⟨[], some 3, false⟩ (3, 3) (fun a b => a == b + 1) (fun _ _ => 1) =
    (⟨[(7, .scal 2), (7, .scal 1)], some 3, false⟩, none) := by decide +kernel

/-- The chain has no cycles. -/
example : Spec.Acyclic (fun a b : Int => (b == a + 1) = true) := by
  have h : ∀ a b : Int, Relation.TransGen (fun a b : Int => (b == a + 1) = true) a b → a < b := by
    intro a b h
    induction h with
    | single h => simp at h; omega
    | tail _ h ih => simp at h; omega
  exact fun a ha => Int.lt_irrefl _ (h a a ha)

end Alipy.Hierarchy
