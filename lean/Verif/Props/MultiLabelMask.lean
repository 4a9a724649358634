import Verif.Props.MultiLabel
import Verif.Proof.IndexCollection

/-! # C12, C14: masks, and translation to training positions -/
namespace Alipy
open Spec
namespace MLIC

/-! ## C12 -/

/-- The entry in row `i`, column `j` of a matrix given by its rows. -/
def entry (m : List (List Int)) (i j : Nat) : Option Int := m[i]?.bind (fun r => r[j]?)

def Shape (m : List (List Int)) (rows cols : Nat) : Prop := m.length = rows ∧ ∀ r ∈ m, r.length = cols

theorem entry_some {m : List (List Int)} {rows cols : Nat} (h : Shape m rows cols) {i j : Nat} (hi : i < rows) (hj : j < cols) :
    ∃ x, entry m i j = some x := by
  have h1 : i < m.length := by rw [h.1]; exact hi
  have h2 : j < m[i].length := by rw [h.2 _ (List.getElem_mem h1)]; exact hj
  exact ⟨m[i][j], by simp [entry, List.getElem?_eq_getElem h1, List.getElem?_eq_getElem h2]⟩

theorem entry_none {m : List (List Int)} {rows cols : Nat} (h : Shape m rows cols) {i j : Nat} {x : Int}
    (he : entry m i j = some x) : i < rows ∧ j < cols := by
  simp only [entry, Option.bind_eq_some_iff] at he
  obtain ⟨r, hr, hx⟩ := he
  rw [List.getElem?_eq_some_iff] at hr hx
  obtain ⟨h1, rfl⟩ := hr
  obtain ⟨h2, -⟩ := hx
  rw [h.2 _ (List.getElem_mem h1)] at h2
  exact ⟨by rw [← h.1]; exact h1, h2⟩

theorem setCell_spec {m : List (List Int)} {rows cols : Nat} (h : Shape m rows cols) {i j : Nat} (hi : i < rows) (hj : j < cols)
    (v : Int) : Shape (setCell m i j v) rows cols ∧
      ∀ a b, entry (setCell m i j v) a b = if a = i ∧ b = j then some v else entry m a b := by
  have h1 : i < m.length := by rw [h.1]; exact hi
  have h2 : (m[i]).length = cols := h.2 _ (List.getElem_mem h1)
  refine ⟨⟨by simp [setCell, h.1], ?_⟩, ?_⟩
  · intro r hr
    unfold setCell at hr
    rcases List.mem_or_eq_of_mem_set hr with hr | hr
    · exact h.2 r hr
    · rw [hr]; simp [List.getElem?_eq_getElem h1, h2]
  · intro a b
    simp only [entry, setCell, List.getElem?_set]
    by_cases ha : i = a
    · subst ha
      simp only [h1, if_true, true_and, List.getElem?_eq_getElem h1, Option.getD_some, Option.bind_some, List.getElem?_set]
      by_cases hb : j = b
      · subst hb; simp [h2, hj]
      · have : ¬ b = j := fun e => hb e.symm
        simp [hb, this]
    · have : ¬ a = i := fun e => ha e.symm
      simp [ha, this]

theorem maskLoop_spec {rows cols : Nat} (v : Int) : ∀ (ps : List (Int × Int)) (m : List (List Int)), Shape m rows cols →
    (∀ p ∈ ps, (0 ≤ p.1 ∧ p.1 < rows) ∧ 0 ≤ p.2 ∧ p.2 < cols) →
    ∃ m', maskLoop rows cols v m ps = .ok m' ∧ Shape m' rows cols ∧
      ∀ a b : Nat, entry m' a b = if ((a : Int), (b : Int)) ∈ ps then some v else entry m a b
  | [], m, h, _ => ⟨m, rfl, h, by simp⟩
  | p :: ps, m, h, hr => by
    obtain ⟨h1, h2⟩ := hr p (by simp)
    obtain ⟨i, hi⟩ : ∃ i : Nat, p.1 = i := ⟨p.1.toNat, by omega⟩
    obtain ⟨j, hj⟩ : ∃ j : Nat, p.2 = j := ⟨p.2.toNat, by omega⟩
    obtain ⟨s1, s2⟩ := setCell_spec h (i := i) (j := j) (by omega) (by omega) v
    obtain ⟨m', e, s, hm⟩ := maskLoop_spec v ps _ s1 (fun q hq => hr q (by simp [hq]))
    have ha : maskAssign rows cols m v p = .ok (setCell m i j v) := by
      simp only [maskAssign]
      rw [if_pos h1, if_pos h2]
      simp [hi, hj]
    refine ⟨m', by simp [maskLoop, ha, e], s, fun a b => ?_⟩
    rw [hm, s2]
    have hp : p = ((i : Int), (j : Int)) := Prod.ext hi hj
    rw [hp]
    simp only [List.mem_cons, Prod.mk.injEq, Nat.cast_inj]
    by_cases hmem : ((a : Int), (b : Int)) ∈ ps
    · simp [hmem]
    · simp [hmem]

theorem zero_shape (rows cols : Nat) : Shape (List.replicate rows (List.replicate cols (0 : Int))) rows cols := by
  refine ⟨by simp, ?_⟩
  intro r hr
  rw [List.mem_replicate] at hr
  rw [hr.2]; simp

theorem zero_entry {rows cols a b : Nat} (ha : a < rows) (hb : b < cols) :
    entry (List.replicate rows (List.replicate cols (0 : Int))) a b = some 0 := by
  simp [entry, ha, hb]

theorem mem_nonzero {m : List (List Int)} {p : Int × Int} :
    p ∈ nonzero m ↔ ∃ i j : Nat, p = ((i : Int), (j : Int)) ∧ ∃ x, entry m i j = some x ∧ x ≠ 0 := by
  simp only [nonzero, List.mem_flatMap, List.mem_range, nonzeroRow, List.mem_filterMap]
  constructor
  · rintro ⟨i, hi, j, hj, he⟩
    split at he
    · rename_i hne
      simp only [Option.some.injEq] at he
      refine ⟨i, j, he.symm, ?_⟩
      simp only [List.getElem?_eq_getElem hi, Option.getD_some] at hj hne
      exact ⟨m[i][j], by simp [entry, List.getElem?_eq_getElem hi, List.getElem?_eq_getElem hj],
        by simpa [List.getElem?_eq_getElem hj] using hne⟩
    · cases he
  · rintro ⟨i, j, rfl, x, he, hx⟩
    simp only [entry, Option.bind_eq_some_iff] at he
    obtain ⟨r, hr, hrx⟩ := he
    have hr' := hr
    rw [List.getElem?_eq_some_iff] at hr
    obtain ⟨h1, -⟩ := hr
    have hrx' := hrx
    rw [List.getElem?_eq_some_iff] at hrx
    obtain ⟨h2, -⟩ := hrx
    refine ⟨i, h1, j, by simpa [hr'] using h2, ?_⟩
    simp [hr', hrx', hx]

theorem mem_flatten_entry {m : List (List Int)} {x : Int} : x ∈ m.flatten ↔ ∃ i j : Nat, entry m i j = some x := by
  simp only [List.mem_flatten, entry, Option.bind_eq_some_iff]
  constructor
  · rintro ⟨r, hr, hx⟩
    obtain ⟨i, hi⟩ := List.mem_iff_getElem?.1 hr
    obtain ⟨j, hj⟩ := List.mem_iff_getElem?.1 hx
    exact ⟨i, j, r, hi, hj⟩
  · rintro ⟨i, j, r, hi, hj⟩
    exact ⟨r, List.mem_of_getElem? hi, List.mem_of_getElem? hj⟩

/-- C12 (dense): the mask of a collection has the requested shape, carries `fill` exactly at the pairs of the collection and
0 elsewhere. Missing from the full property: the sparse form (`C12_sparse_mask_violation`). -/
theorem C12_dense_mask_partial (c : MLIC) (hc : TameReachable c) (rows cols : Nat) (hL : c.lsz = some (cols : Int))
    (hi : ∀ q ∈ c.inner, 0 ≤ q.1 ∧ q.1 < rows) (fill : Int) :
    ∃ m, c.matrixMask rows cols fill false = .ok m ∧ Shape m rows cols ∧
      ∀ i j : Nat, i < rows → j < cols →
        (((i : Int), Second.scal j) ∈ c.inner → entry m i j = some fill) ∧
        (((i : Int), Second.scal j) ∉ c.inner → entry m i j = some 0) := by
  obtain ⟨ps, hps, hnd, hr⟩ := (tame_inv hc).plain hL
  obtain ⟨m, e, s, hm⟩ := maskLoop_spec (rows := rows) (cols := cols) fill ps _ (zero_shape rows cols) (fun p hp =>
    ⟨hi (plain p) (by rw [hps]; exact List.mem_map.2 ⟨p, hp, rfl⟩), hr p hp⟩)
  refine ⟨m, by simp [matrixMask, hps, plainPairs_map, e], s, fun i j h1 h2 => ?_⟩
  have hmem : ((i : Int), Second.scal (j : Int)) ∈ c.inner ↔ ((i : Int), (j : Int)) ∈ ps := by
    rw [hps]
    constructor
    · intro h
      obtain ⟨p, hp, he⟩ := List.mem_map.1 h
      have : p = ((i : Int), (j : Int)) := plain_inj he
      rw [← this]; exact hp
    · intro h; exact List.mem_map.2 ⟨_, h, rfl⟩
  rw [hmem, hm]
  constructor
  · intro h; simp [h]
  · intro h; simp [h, zero_entry h1 h2]

/-- C12 (round trip): if the collection is neither empty nor complete, building a collection from its dense mask gives a
collection with the same elements. Missing: the two excluded cases are refused (`C12_full_or_empty_mask_violation`). -/
theorem C12_mask_round_trip_partial (c : MLIC) (hc : TameReachable c) (rows cols : Nat) (hL : c.lsz = some (cols : Int))
    (hi : ∀ q ∈ c.inner, 0 ≤ q.1 ∧ q.1 < rows) (hne : c.inner ≠ [])
    (hnf : ∃ i j : Nat, i < rows ∧ j < cols ∧ ((i : Int), Second.scal j) ∉ c.inner) :
    ∃ m d, c.matrixMask rows cols 1 false = .ok m ∧ byMask m cols = .ok d ∧ d.lsz = some (cols : Int) ∧
      ∀ q, q ∈ d.inner ↔ q ∈ c.inner := by
  obtain ⟨m, hm, hs, hent⟩ := C12_dense_mask_partial c hc rows cols hL hi 1
  obtain ⟨ps, hps, hnd, hr⟩ := (tame_inv hc).plain hL
  have h01 : ∀ i j x, entry m i j = some x → (x = 1 ∧ ((i : Int), Second.scal j) ∈ c.inner) ∨
      (x = 0 ∧ ((i : Int), Second.scal j) ∉ c.inner) := by
    intro i j x he
    obtain ⟨h1, h2⟩ := entry_none hs he
    obtain ⟨g1, g2⟩ := hent i j h1 h2
    by_cases hin : ((i : Int), Second.scal (j : Int)) ∈ c.inner
    · rw [g1 hin] at he; cases he; exact .inl ⟨rfl, hin⟩
    · rw [g2 hin] at he; cases he; exact .inr ⟨rfl, hin⟩
  have hpair : ∀ q, q ∈ c.inner ↔ ∃ p ∈ nonzero m, q = plain p := by
    intro q
    constructor
    · intro hq
      have hq' := hq
      rw [hps] at hq
      obtain ⟨p, hp, rfl⟩ := List.mem_map.1 hq
      have b1 := hi _ hq'
      have b2 := hr p hp
      obtain ⟨i, hi'⟩ : ∃ i : Nat, p.1 = i := ⟨p.1.toNat, by simp only [plain] at b1; omega⟩
      obtain ⟨j, hj'⟩ : ∃ j : Nat, p.2 = j := ⟨p.2.toNat, by omega⟩
      have hpe : p = ((i : Int), (j : Int)) := Prod.ext hi' hj'
      refine ⟨p, mem_nonzero.2 ⟨i, j, hpe, 1, ?_, by decide⟩, rfl⟩
      subst hpe
      exact (hent i j (by simp only [plain] at b1; omega) (by simp only at b2; omega)).1 hq'
    · rintro ⟨p, hp, rfl⟩
      obtain ⟨i, j, rfl, x, hx, hx0⟩ := mem_nonzero.1 hp
      rcases h01 i j x hx with ⟨-, h⟩ | ⟨h, -⟩
      · exact h
      · exact absurd h hx0
  have hcols : 0 < (cols : Int) := by
    obtain ⟨i, j, h1, h2, -⟩ := hnf; omega
  obtain ⟨d, hd, hdl, -, -, hdm⟩ := mk'_plain (ps := nonzero m) hcols (by
    intro p hp
    obtain ⟨i, j, rfl, x, hx, -⟩ := mem_nonzero.1 hp
    have := entry_none hs hx
    simp only; omega)
  refine ⟨m, d, hm, ?_, hdl, fun q => by rw [hdm, hpair]⟩
  unfold byMask
  rw [if_pos]
  · exact hd
  · simp only [Bool.and_eq_true, List.all_eq_true, List.any_eq_true, Bool.or_eq_true, beq_iff_eq]
    refine ⟨⟨?_, ?_⟩, ?_⟩
    · intro x hx
      obtain ⟨i, j, he⟩ := mem_flatten_entry.1 hx
      rcases h01 i j x he with ⟨h, -⟩ | ⟨h, -⟩
      · exact .inr h
      · exact .inl h
    · obtain ⟨i, j, h1, h2, h3⟩ := hnf
      exact ⟨0, mem_flatten_entry.2 ⟨i, j, (hent i j h1 h2).2 h3⟩, rfl⟩
    · obtain ⟨q, hq⟩ := List.exists_mem_of_ne_nil _ hne
      obtain ⟨p, hp, -⟩ := (hpair q).1 hq
      obtain ⟨i, j, -, x, hx, hx0⟩ := mem_nonzero.1 hp
      rcases h01 i j x hx with ⟨h, -⟩ | ⟨h, -⟩
      · exact ⟨1, mem_flatten_entry.2 ⟨i, j, by rw [← h]; exact hx⟩, rfl⟩
      · exact absurd h hx0

/-- C12, negative: the sparse mask (the default) is all zero for every collection. -/
theorem C12_sparse_mask_violation (c : MLIC) (rows cols : Nat) (fill : Int) :
    ∃ m, c.matrixMask rows cols fill true = .ok m ∧ ∀ i j : Nat, i < rows → j < cols → entry m i j = some 0 :=
  ⟨_, rfl, fun _ _ h1 h2 => zero_entry h1 h2⟩

/-- C12, negative: a mask without a 0 or without a 1 (that of a complete or of an empty collection) is refused. -/
theorem C12_full_or_empty_mask_violation (m : List (List Int)) (cols : Nat)
    (h : (∀ i j x, entry m i j = some x → x ≠ 0) ∨ ∀ i j x, entry m i j = some x → x ≠ 1) :
    byMask m cols = .error .valueError := by
  unfold byMask
  rw [if_neg]
  simp only [Bool.and_eq_true, List.all_eq_true, List.any_eq_true, Bool.or_eq_true, beq_iff_eq]
  rintro ⟨⟨-, x, hx, h0⟩, y, hy, h1⟩
  obtain ⟨i, j, he⟩ := mem_flatten_entry.1 hx
  obtain ⟨i', j', he'⟩ := mem_flatten_entry.1 hy
  rcases h with h | h
  · exact h i j x he h0
  · exact h i' j' y he' h1

/-- C12: conversely every 0/1 mask with both values is decoded to exactly the cells marked 1. -/
theorem C12_mask_is_decoded_exactly (m : List (List Int)) (rows cols : Nat) (hs : Shape m rows cols)
    (h01 : ∀ i j x, entry m i j = some x → x = 0 ∨ x = 1) (h0 : ∃ i j, entry m i j = some 0) (h1 : ∃ i j, entry m i j = some 1) :
    ∃ d, byMask m cols = .ok d ∧ d.lsz = some (cols : Int) ∧
      ∀ q, q ∈ d.inner ↔ ∃ i j : Nat, q = ((i : Int), Second.scal j) ∧ entry m i j = some 1 := by
  have hcols : 0 < (cols : Int) := by
    obtain ⟨i, j, h⟩ := h0; have := (entry_none hs h).2; omega
  obtain ⟨d, hd, hdl, -, -, hdm⟩ := mk'_plain (ps := nonzero m) hcols (by
    intro p hp
    obtain ⟨i, j, rfl, x, hx, -⟩ := mem_nonzero.1 hp
    have := entry_none hs hx
    simp only; omega)
  refine ⟨d, ?_, hdl, fun q => ?_⟩
  · unfold byMask
    rw [if_pos]
    · exact hd
    · simp only [Bool.and_eq_true, List.all_eq_true, List.any_eq_true, Bool.or_eq_true, beq_iff_eq]
      refine ⟨⟨?_, ?_⟩, ?_⟩
      · intro x hx
        obtain ⟨i, j, he⟩ := mem_flatten_entry.1 hx
        exact h01 i j x he
      · exact ⟨0, mem_flatten_entry.2 h0, rfl⟩
      · exact ⟨1, mem_flatten_entry.2 h1, rfl⟩
  · rw [hdm]
    constructor
    · rintro ⟨p, hp, rfl⟩
      obtain ⟨i, j, rfl, x, hx, hx0⟩ := mem_nonzero.1 hp
      rcases h01 i j x hx with h | h
      · exact absurd h hx0
      · exact ⟨i, j, rfl, h ▸ hx⟩
    · rintro ⟨i, j, rfl, h⟩
      exact ⟨_, mem_nonzero.2 ⟨i, j, rfl, 1, h, by decide⟩, rfl⟩

/-- The hypotheses of the C10-C12 theorems hold for a real collection. -/
example : ∃ c : MLIC, mk' [.tup (.all 1), .tup (.pair 0 (.iter false [0, 2]))] (some 3) = .ok c ∧ TameReachable c ∧
    c.lsz = some ((3 : Nat) : Int) ∧ (∀ q ∈ c.inner, 0 ≤ q.1 ∧ q.1 < (2 : Nat)) ∧ c.inner ≠ [] ∧
    c.matrixMask 2 3 1 false = .ok [[1, 0, 1], [1, 1, 1]] ∧ ((0 : Int), Second.scal 1) ∉ c.inner := by
  refine ⟨⟨[(1, .scal 0), (1, .scal 1), (1, .scal 2), (0, .scal 0), (0, .scal 2)], some 3, false⟩, by decide, .construct (lsz := some 3) (items := [.tup (.all 1), .tup (.pair 0 (.iter false [0, 2]))]) (by decide), rfl, by decide, by decide, by decide, by decide⟩

end MLIC

/-! ## C14 -/

theorem trainPos_ok {b : Bool} {train : List Val} {v : Val} {i : Int} (h : trainPos b train v = .ok i) :
    0 ≤ i ∧ ∃ w, train[i.toNat]? = some w ∧ pyEq v w = true := by
  unfold trainPos at h
  split at h
  · cases h
  · rename_i k hk
    split at h <;> simp only [Except.ok.injEq, reduceCtorEq] at h
    subst h
    rw [List.findIdx?_eq_some_iff_getElem] at hk
    obtain ⟨hlt, hp, -⟩ := hk
    exact ⟨by omega, train[k], by simp [hlt], hp⟩

theorem trainPosAll_ok {b : Bool} {train : List Val} : ∀ {vs : List Val} {is : List Int}, trainPosAll b train vs = .ok is →
    List.Forall₂ (fun v i => 0 ≤ i ∧ ∃ w, train[i.toNat]? = some w ∧ pyEq v w = true) vs is
  | [], is, h => by simp [trainPosAll] at h; subst h; exact .nil
  | v :: vs, is, h => by
    simp only [trainPosAll] at h
    split at h
    · cases h
    · rename_i i hi
      split at h
      · cases h
      · rename_i js hj
        simp only [Except.ok.injEq] at h; subst h
        exact .cons (trainPos_ok hi) (trainPosAll_ok hj)

theorem trainPosAll_mem {b : Bool} {train : List Val} : ∀ {vs : List Val}, (b = true ∨ ∀ v ∈ vs, listCompares train v = true) → (∀ v ∈ vs, pyMem v train = true) →
    ∃ is, trainPosAll b train vs = .ok is
  | [], _, _ => ⟨[], rfl⟩
  | v :: vs, hb, h => by
    obtain ⟨is, hi⟩ := trainPosAll_mem (b := b) (vs := vs) (hb.imp id (fun g w hw => g w (by simp [hw]))) (fun w hw => h w (by simp [hw]))
    have hc : (b || listCompares train v) = true := by
      rcases hb with rfl | g
      · rfl
      · simp [g v (by simp)]
    have hv : ∃ k, train.findIdx? (pyEq v) = some k := by
      rw [← Option.isSome_iff_exists, List.findIdx?_isSome]
      exact h v (by simp)
    obtain ⟨k, hk⟩ := hv
    exact ⟨(k : Int) :: is, by rw [trainPosAll, trainPos, hk]; simp only [hc, if_true, hi]⟩

theorem trainPosAll_not_mem {b : Bool} {train : List Val} : ∀ {vs : List Val}, (b = true ∨ ∀ v ∈ vs, listCompares train v = true) → (∃ v ∈ vs, pyMem v train = false) →
    trainPosAll b train vs = .error .assertionError
  | [], _, h => by simp at h
  | v :: vs, hb, h => by
    have hc : (b || listCompares train v) = true := by
      rcases hb with rfl | g
      · rfl
      · simp [g v (by simp)]
    by_cases hv : pyMem v train = true
    · have hr : ∃ w ∈ vs, pyMem w train = false := by
        obtain ⟨w, hw, hf⟩ := h
        rcases List.mem_cons.1 hw with rfl | hw
        · rw [hv] at hf; cases hf
        · exact ⟨w, hw, hf⟩
      obtain ⟨k, hk⟩ : ∃ k, train.findIdx? (pyEq v) = some k := by
        rw [← Option.isSome_iff_exists, List.findIdx?_isSome]; exact hv
      rw [trainPosAll, trainPos, hk]
      simp only [hc, if_true, trainPosAll_not_mem (hb.imp id (fun g w hw => g w (by simp [hw]))) hr]
    · have : train.findIdx? (pyEq v) = none := by
        rw [List.findIdx?_eq_none_iff]
        simp only [pyMem, List.any_eq_true, not_exists, not_and, Bool.not_eq_true] at hv
        intro x hx; simpa using hv x hx
      simp [trainPosAll, trainPos, this]

theorem forall₂_exists_left {α β : Type} {R : α → β → Prop} {l : List α} {m : List β} (h : List.Forall₂ R l m) :
    ∀ a ∈ l, ∃ b ∈ m, R a b := by
  induction h with
  | nil => simp
  | @cons a b l m hr _ ih =>
    intro x hx
    rcases List.mem_cons.1 hx with rfl | hx
    · exact ⟨b, by simp, hr⟩
    · obtain ⟨y, hy, hxy⟩ := ih x hx
      exact ⟨y, by simp [hy], hxy⟩

theorem forall₂_exists_right {α β : Type} {R : α → β → Prop} {l : List α} {m : List β} (h : List.Forall₂ R l m) :
    ∀ b ∈ m, ∃ a ∈ l, R a b := by
  induction h with
  | nil => simp
  | @cons a b l m hr _ ih =>
    intro x hx
    rcases List.mem_cons.1 hx with rfl | hx
    · exact ⟨a, by simp, hr⟩
    · obtain ⟨y, hy, hxy⟩ := ih x hx
      exact ⟨y, by simp [hy], hxy⟩

theorem mk'_ints (is : List Int) (i : Int) :
    (∃ v ∈ (IC.mk' (is.map (fun i => ⟨true, .int i⟩))).inner, v.key = .num i) ↔ i ∈ is := by
  have h := IC.mem_uniq_key (IC.coerce (is.map (fun i => (⟨true, .int i⟩ : Val)))) (.num i)
  have hk : (IC.coerce (is.map (fun i => (⟨true, .int i⟩ : Val)))).map Base.key = is.map Key.num := by
    unfold IC.coerce
    split
    · rename_i hs
      simp [Base.kind] at hs
    · split
      · simp [List.map_map, Function.comp_def, Base.key]
      · simp [List.map_map, Function.comp_def, Base.key]
  rw [hk] at h
  rw [IC.mk'_inner, IC.npUnique]
  constructor
  · rintro ⟨v, hv, hkey⟩
    obtain ⟨b, hb, rfl⟩ := List.mem_map.1 hv
    have : Key.num i ∈ (IC.uniq (IC.coerce (is.map (fun i => (⟨true, .int i⟩ : Val))))).map Base.key :=
      List.mem_map.2 ⟨b, (sortBy_perm _ _).mem_iff.1 hb, hkey⟩
    obtain ⟨j, hj, he⟩ := List.mem_map.1 (h.1 this)
    cases he; exact hj
  · intro hi
    obtain ⟨b, hb, he⟩ := List.mem_map.1 (h.2 (List.mem_map.2 ⟨i, hi, rfl⟩))
    exact ⟨⟨true, b⟩, List.mem_map.2 ⟨b, (sortBy_perm _ _).mem_iff.2 hb, rfl⟩, he⟩

/-- C14 (training indexes given as an array, or as a list of numbers if the collection has only numpy numbers, as one just constructed has): if every index of the
collection is in the training set, the result holds a position `i` iff some index of the collection stands at position `i` of the training array, so every index of the
collection is addressed; if one is not, the call is refused. Hypothesis: the training array has no repetition. Missing:
training indexes given as a Python *list* and a collection to which an index has been added (`C14_list_argument_violation`). -/
theorem C14_map_whole_index_to_train_partial (asArray : Bool) (train : List Val) (hn : (train.map Val.key).Nodup) (c : IC)
    (hform : asArray = true ∨ (∀ w ∈ train, w.base.kind ≠ .str) ∧ ∀ v ∈ c.inner, v.np = true ∧ v.base.kind ≠ .str) :
    ((∀ v ∈ c.inner, pyMem v train = true) → ∃ d, mapWholeToTrain asArray train c = .ok d ∧
      ∀ i : Nat, (∃ v ∈ d.inner, v.key = .num i) ↔ ∃ v ∈ c.inner, ∃ w, train[i]? = some w ∧ pyEq v w = true) ∧
    ((∃ v ∈ c.inner, pyMem v train = false) → mapWholeToTrain asArray train c = .error .assertionError) := by
  have hb : asArray = true ∨ ∀ v ∈ c.inner, listCompares train v = true := by
    refine hform.imp id fun h v hv => ?_
    simp only [listCompares, Bool.and_eq_true, bne_iff_ne, List.all_eq_true]
    exact ⟨h.2 v hv, fun w hw => h.1 w hw⟩
  constructor
  · intro h
    obtain ⟨is, hi⟩ := trainPosAll_mem hb h
    have hf := trainPosAll_ok hi
    refine ⟨IC.mk' (is.map (fun i => ⟨true, .int i⟩)), by simp [mapWholeToTrain, hi], fun i => ?_⟩
    rw [mk'_ints]
    constructor
    · intro hmem
      obtain ⟨v, hv, h0, w, hw, he⟩ := forall₂_exists_right hf _ hmem
      exact ⟨v, hv, w, by simpa using hw, he⟩
    · rintro ⟨v, hv, w, hw, he⟩
      obtain ⟨j, hj, h0, w', hw', he'⟩ := forall₂_exists_left hf v hv
      have hkk : w.key = w'.key := by
        simp only [pyEq, beq_iff_eq] at he he'
        rw [← he, he']
      have e1 : (train.map Val.key)[i]? = some w.key := by simp [hw]
      have e2 : (train.map Val.key)[j.toNat]? = some w.key := by simp [hw', hkk]
      have hlt : i < (train.map Val.key).length := by
        rw [List.getElem?_eq_some_iff] at e1; exact e1.1
      have := (List.getElem?_inj hlt hn).1 (e1.trans e2.symm)
      have : (i : Int) = j := by omega
      rw [this]; exact hj
  · intro h
    simp [mapWholeToTrain, trainPosAll_not_mem hb h]

theorem trainPosAll_list {train : List Val} : ∀ {vs : List Val}, (∀ v ∈ vs, pyMem v train = true) → (∃ v ∈ vs, listCompares train v = false) →
    trainPosAll false train vs = .error .indexError
  | [], _, h => by simp at h
  | v :: vs, hm, h => by
    obtain ⟨k, hk⟩ : ∃ k, train.findIdx? (pyEq v) = some k := by
      rw [← Option.isSome_iff_exists, List.findIdx?_isSome]; exact hm v (by simp)
    rw [trainPosAll, trainPos, hk]
    by_cases hv : listCompares train v = true
    · have hr : ∃ w ∈ vs, listCompares train w = false := by
        obtain ⟨w, hw, hf⟩ := h
        rcases List.mem_cons.1 hw with rfl | hw
        · rw [hv] at hf; cases hf
        · exact ⟨w, hw, hf⟩
      simp only [hv, Bool.or_true, if_true, trainPosAll_list (fun w hw => hm w (by simp [hw])) hr]
    · simp [hv]

/-- C14, negative: with a Python list as `train_idx` (as in the documentation) the call fails with IndexError as soon as the collection has an index that was added to
it (`add` and `update` store plain Python objects, see the case below), though all indexes are training indexes. -/
theorem C14_list_argument_violation (train : List Val) (c : IC) (hadd : ∃ v ∈ c.inner, v.np = false) (h : ∀ v ∈ c.inner, pyMem v train = true) :
    mapWholeToTrain false train c = .error .indexError := by
  obtain ⟨v, hv, hnp⟩ := hadd
  rw [mapWholeToTrain, trainPosAll_list h ⟨v, hv, by simp [listCompares, hnp]⟩]

example : let train : List Val := [⟨false, .int 231⟩, ⟨false, .int 333⟩, ⟨false, .int 423⟩]
    let c := IC.mk' [⟨false, .int 423⟩]
    let c' := (c.add ⟨false, .int 333⟩).1
    mapWholeToTrain false train c = .ok ⟨[⟨true, .int 2⟩], some ⟨false, .int⟩⟩ ∧ mapWholeToTrain false train c' = .error .indexError ∧
      mapWholeToTrain true train c' = .ok ⟨[⟨true, .int 1⟩, ⟨true, .int 2⟩], some ⟨false, .int⟩⟩ := by decide

/-- C14 (multi-label collections): if every instance of the collection is in the training set, the result holds the pair of position
`i` and label `l` iff the collection holds the pair of the `i`-th training instance and `l`; otherwise the call is refused. Missing:
the label size is not carried over, the result has the largest label present plus one. -/
theorem C14_multi_label_partial (train : List Int) (hn : train.Nodup) (c : MLIC) (hc : MLIC.TameReachable c) (hne : c.inner ≠ []) :
    ((∀ q ∈ c.inner, q.1 ∈ train) → ∃ d L, mapWholeToTrainML train c = .ok d ∧ d.lsz = some L ∧ d.inner.Nodup ∧
      (∀ (q : Int × Second), q ∈ d.inner ↔ ∃ i : Nat, q.1 = i ∧ ∃ e, train[i]? = some e ∧ (e, q.2) ∈ c.inner) ∧
      (∃ e, (e, Second.scal (L - 1)) ∈ c.inner) ∧ ∀ e l, (e, Second.scal l) ∈ c.inner → l < L) ∧
    ((∃ q ∈ c.inner, q.1 ∉ train) → mapWholeToTrainML train c = .error .assertionError) := by
  have hinv := MLIC.tame_inv hc
  obtain ⟨L0, hL0⟩ : ∃ L0, c.lsz = some L0 := by
    obtain ⟨q, hq⟩ := List.exists_mem_of_ne_nil _ hne
    obtain ⟨l, L, -, h, -⟩ := hinv.2 q hq
    exact ⟨L, h⟩
  obtain ⟨ps, hps, -, hr⟩ := hinv.plain hL0
  have hpp : MLIC.plainPairs c.inner = some ps := by rw [hps]; exact MLIC.plainPairs_map ps
  have hmem : ∀ e l, (e, Second.scal l) ∈ c.inner ↔ (e, l) ∈ ps := by
    intro e l
    rw [hps, List.mem_map]
    constructor
    · rintro ⟨p, hp, he⟩
      simp only [MLIC.plain, Prod.mk.injEq, Second.scal.injEq] at he
      obtain ⟨rfl, rfl⟩ := he
      exact hp
    · intro h; exact ⟨_, h, rfl⟩
  have hpy : ∀ e : Int, pyMem ⟨true, .int e⟩ (train.map (fun i => (⟨true, .int i⟩ : Val))) = true ↔ e ∈ train := by
    intro e
    rw [IC.pyMem_iff, List.map_map, List.mem_map]
    constructor
    · rintro ⟨x, hx, h⟩
      simp only [Function.comp, Val.key, Base.key, Key.num.injEq] at h
      rw [← h]; exact hx
    · intro h; exact ⟨e, h, rfl⟩
  constructor
  · intro hin
    obtain ⟨is, hi⟩ := trainPosAll_mem (b := true) (train := train.map (fun i => (⟨true, .int i⟩ : Val)))
      (vs := ps.map (fun p => (⟨true, .int p.1⟩ : Val))) (Or.inl rfl) (by
        intro v hv
        obtain ⟨p, hp, rfl⟩ := List.mem_map.1 hv
        exact (hpy _).2 (hin (p.1, .scal p.2) ((hmem _ _).2 hp)))
    have hf := trainPosAll_ok hi
    rw [List.forall₂_map_left_iff] at hf
    have hf' : List.Forall₂ (fun (p : Int × Int) (i : Int) => ∃ k : Nat, i = k ∧ train[k]? = some p.1) ps is := by
      refine hf.imp ?_
      rintro p i ⟨h0, w, hw, he⟩
      refine ⟨i.toNat, by omega, ?_⟩
      rw [List.getElem?_map] at hw
      cases ht : train[i.toNat]? with
      | none => rw [ht] at hw; simp at hw
      | some x =>
        rw [ht] at hw
        simp only [Option.map_some, Option.some.injEq] at hw
        subst hw
        simp only [pyEq, Val.key, Base.key, beq_iff_eq, Key.num.injEq] at he
        rw [he]
    have hzip : ∀ a l, (a, l) ∈ is.zip (ps.map Prod.snd) ↔ ∃ k : Nat, a = k ∧ ∃ e, train[k]? = some e ∧ (e, l) ∈ ps := by
      clear hi hf hpp hps hr hmem
      induction hf' with
      | nil => simp
      | @cons p i ps is h _ ih =>
        obtain ⟨k, rfl, hk⟩ := h
        intro a l
        simp only [List.map_cons, List.zip_cons_cons, List.mem_cons, ih]
        constructor
        · rintro (h | ⟨k', rfl, e, he, hm⟩)
          · simp only [Prod.mk.injEq] at h
            obtain ⟨rfl, rfl⟩ := h
            exact ⟨k, rfl, p.1, hk, .inl rfl⟩
          · exact ⟨k', rfl, e, he, .inr hm⟩
        · rintro ⟨k', rfl, e, he, h | hm⟩
          · left
            subst h
            have hlt : k' < train.length := (List.getElem?_eq_some_iff.1 he).1
            have := (List.getElem?_inj hlt hn).1 (he.trans hk.symm)
            rw [this]
          · exact .inr ⟨k', rfl, e, he, hm⟩
    set zs := is.zip (ps.map Prod.snd) with hzs
    have hne' : ps ≠ [] := by rintro rfl; exact hne hps
    obtain ⟨⟨e0, l0⟩, hp0⟩ := List.exists_mem_of_ne_nil _ hne'
    have hposn : ∀ e l, (e, l) ∈ ps → ∃ k : Nat, train[k]? = some e := by
      intro e l h
      have := hin (e, .scal l) ((hmem _ _).2 h)
      exact List.getElem?_of_mem this
    obtain ⟨d, L, h1, h2, h3, h4, h5, h6⟩ := (MLIC.C08_constructor_infers (zs.map (fun p => Ix.pair p.1 (.scal p.2))) (by
      intro ix hix
      obtain ⟨⟨a, l⟩, hz, rfl⟩ := List.mem_map.1 hix
      obtain ⟨k, -, e, -, hm⟩ := (hzip a l).1 hz
      exact .inr ⟨_, _, rfl, (hr _ hm).1⟩)).1 (by
        obtain ⟨k, hk⟩ := hposn e0 l0 hp0
        exact ⟨k, l0, List.mem_map.2 ⟨((k : Int), l0), (hzip _ _).2 ⟨k, rfl, e0, hk, hp0⟩, rfl⟩⟩)
    have hixs : ∀ a l, Ix.pair a (.scal l) ∈ zs.map (fun p => Ix.pair p.1 (.scal p.2)) ↔ (a, l) ∈ zs := by
      intro a l
      rw [List.mem_map]
      constructor
      · rintro ⟨⟨a', l'⟩, h, he⟩
        simp only [Ix.pair.injEq, Second.scal.injEq] at he
        obtain ⟨rfl, rfl⟩ := he
        exact h
      · intro h; exact ⟨_, h, rfl⟩
    refine ⟨d, L, ?_, h2, h3, ?_, ?_, ?_⟩
    · rw [List.map_map] at h1
      simp only [mapWholeToTrainML, hpp, hi]
      exact h1
    · rintro ⟨a, s⟩
      rw [h6]
      constructor
      · rintro ⟨⟨a', l⟩, he, ix, hix, hd⟩
        simp only [Prod.mk.injEq] at he
        obtain ⟨rfl, rfl⟩ := he
        obtain ⟨⟨a'', l''⟩, hz, rfl⟩ := List.mem_map.1 hix
        simp only [Spec.Denotes, Prod.mk.injEq] at hd
        obtain ⟨rfl, rfl⟩ := hd
        obtain ⟨k, rfl, e, he, hm⟩ := (hzip _ _).1 hz
        exact ⟨k, rfl, e, he, (hmem _ _).2 hm⟩
      · rintro ⟨i, rfl, e, he, hm⟩
        obtain ⟨l, L, hl, -⟩ := hinv.2 _ hm
        simp only at hl
        subst hl
        exact ⟨((i : Int), l), rfl, _, (hixs _ _).2 ((hzip _ _).2 ⟨i, rfl, e, he, (hmem _ _).1 hm⟩), rfl⟩
    · obtain ⟨a, ha⟩ := h4
      obtain ⟨k, -, e, -, hm⟩ := (hzip _ _).1 ((hixs _ _).1 ha)
      exact ⟨e, (hmem _ _).2 hm⟩
    · intro e l h
      obtain ⟨k, hk⟩ := hposn e l ((hmem _ _).1 h)
      exact h5 k l ((hixs _ _).2 ((hzip _ _).2 ⟨k, rfl, e, hk, (hmem _ _).1 h⟩))
  · rintro ⟨q, hq, hnot⟩
    have : trainPosAll true (train.map (fun i => (⟨true, .int i⟩ : Val))) (ps.map (fun p => (⟨true, .int p.1⟩ : Val))) =
        .error .assertionError := by
      apply trainPosAll_not_mem (Or.inl rfl)
      rw [hps, List.mem_map] at hq
      obtain ⟨p, hp, rfl⟩ := hq
      refine ⟨⟨true, .int p.1⟩, List.mem_map.2 ⟨p, hp, rfl⟩, ?_⟩
      rw [← Bool.not_eq_true, hpy]
      exact hnot
    simp [mapWholeToTrainML, hpp, this]

/-- C14, negative for multi-label collections: whenever no pair with the last label is in the collection, the mapped collection has a
smaller label size than the collection (so it refuses labels of the data set). -/
theorem C14_label_size_shrinks_violation (train : List Int) (hn : train.Nodup) (c : MLIC) (hc : MLIC.TameReachable c) (hne : c.inner ≠ [])
    (hin : ∀ q ∈ c.inner, q.1 ∈ train) {L : Int} (hL : c.lsz = some L) (hlast : ∀ e, (e, Second.scal (L - 1)) ∉ c.inner) :
    ∃ d L', mapWholeToTrainML train c = .ok d ∧ d.lsz = some L' ∧ L' < L := by
  obtain ⟨d, L', h1, h2, -, -, ⟨e, he⟩, -⟩ := (C14_multi_label_partial train hn c hc hne).1 hin
  refine ⟨d, L', h1, h2, ?_⟩
  obtain ⟨l, L'', hl, hL'', -, hlt⟩ := (MLIC.tame_inv hc).2 _ he
  rw [hL] at hL''
  simp only [Option.some.injEq] at hL''
  simp only [Second.scal.injEq] at hl
  rcases lt_trichotomy L' L with h | h | h
  · exact h
  · subst h; exact absurd he (hlast e)
  · omega

example : MLIC.TameReachable ⟨[(7, .scal 0), (5, .scal 1)], some 3, false⟩ ∧
    (∀ q ∈ ([(7, .scal 0), (5, .scal 1)] : List (Int × Second)), q.1 ∈ ([5, 6, 7] : List Int)) ∧
    ∀ e, (e, Second.scal (3 - 1)) ∉ ([(7, .scal 0), (5, .scal 1)] : List (Int × Second)) :=
  ⟨.construct (items := [.tup (.pair 7 (.scal 0)), .tup (.pair 5 (.scal 1))]) (lsz := some 3) (by decide), by decide, by simp⟩

/-- The label size is not carried over; it becomes the largest label present plus one (here 3 labels become 2), so the mapped collection refuses label 2 of the data set. -/
example :
    ∃ c d : MLIC, MLIC.mk' [.tup (.pair 7 (.scal 0)), .tup (.pair 5 (.scal 1))] (some 3) = .ok c ∧
      mapWholeToTrainML [5, 6, 7] c = .ok d ∧ c.lsz = some 3 ∧ d.lsz = some 2 ∧
      (d.step (.add (.pair 0 (.scal 2)))).2 = some .valueError ∧ (c.step (.add (.pair 7 (.scal 2)))).2 = none := by
  refine ⟨⟨[(7, .scal 0), (5, .scal 1)], some 3, false⟩, ⟨[(2, .scal 0), (0, .scal 1)], some 2, false⟩, ?_⟩
  decide

example : ([⟨true, .int 231⟩, ⟨true, .int 333⟩, ⟨true, .int 423⟩] : List Val).map Val.key |>.Nodup := by decide
example : mapWholeToTrain true [⟨true, .int 231⟩, ⟨true, .int 333⟩, ⟨true, .int 423⟩]
    (IC.mk' [⟨false, .int 423⟩, ⟨false, .int 333⟩]) = .ok ⟨[⟨true, .int 1⟩, ⟨true, .int 2⟩], some ⟨false, .int⟩⟩ := by decide

end Alipy
