import Verif.Model.Forms
import Verif.Spec.Forms
import Verif.Props.MultiLabel

/-! # C105: the documented forms of passing pairs mean the same pairs -/
namespace Alipy.Forms
open Spec MLIC MLSelect

/-- A pair written as a tuple of two integers. -/
def tupleOf (p : Int × Int) : Item := .tup (.pair p.1 (.scal p.2))

theorem by1d_column {n m : Nat} {ps : List (Int × Int)} (h : ∀ p ∈ ps, WithinShape n m p) :
    by1d (ps.map (columnMajor n)) n m .F = mk' (ps.map tupleOf) (some (m : Int)) := by
  have hb : ∀ p ∈ ps, (0 ≤ columnMajor n p ∧ columnMajor n p < (n : Int) * m) ∧ decode .F n m (columnMajor n p) = p := by
    intro p hp
    obtain ⟨a, b, c, d⟩ := h p hp
    obtain ⟨h1, h2⟩ := encode_decode .F n m (by omega) (by omega) p ⟨a, b⟩ ⟨c, d⟩
    exact ⟨h2, h1⟩
  unfold by1d
  rw [if_pos]
  · congr 1
    rw [List.map_map, List.map_map]
    apply List.map_congr_left
    intro p hp
    simp only [Function.comp, (hb p hp).2, tupleOf]
  · simp only [List.all_eq_true, decide_eq_true_eq, List.mem_map]
    rintro k ⟨p, hp, rfl⟩
    exact (hb p hp).1

theorem denotes_pairs (m : Int) (ps : List (Int × Int)) (p : Int × Int) :
    DenotesAny m (ps.map fun p => Ix.pair p.1 (.scal p.2)) p ↔ p ∈ ps := by
  simp only [DenotesAny, List.mem_map]
  constructor
  · rintro ⟨ix, ⟨q, hq, rfl⟩, hd⟩
    have : p = q := hd
    exact this ▸ hq
  · intro hp
    exact ⟨_, ⟨p, hp, rfl⟩, rfl⟩

theorem mk_tuples {m : Nat} {ps : List (Int × Int)} (hne : ps ≠ []) (h : ∀ p ∈ ps, 0 ≤ p.2 ∧ p.2 < m) :
    ∃ c, mk' (ps.map tupleOf) (some (m : Int)) = .ok c ∧ c.inner.Nodup ∧ c.lsz = some (m : Int) ∧
      ∀ q, q ∈ c.inner ↔ ∃ p ∈ ps, q = (p.1, .scal p.2) := by
  have h0 : (0 : Int) < m := by
    obtain ⟨p, hp⟩ := List.exists_mem_of_ne_nil ps hne
    have := h p hp
    omega
  obtain ⟨c, hc, hl, -, hn, hm⟩ := C08_constructor (ps.map fun p => Ix.pair p.1 (.scal p.2)) (by simpa using hne) m h0 (by
    intro ix hix
    obtain ⟨p, hp, rfl⟩ := List.mem_map.1 hix
    exact h p hp)
  refine ⟨c, ?_, hn, hl, fun q => ?_⟩
  · rw [← hc, List.map_map]; rfl
  · rw [hm]
    constructor
    · rintro ⟨p, rfl, hd⟩
      exact ⟨p, (denotes_pairs _ _ _).1 hd, rfl⟩
    · rintro ⟨p, hp, rfl⟩
      exact ⟨p, rfl, (denotes_pairs _ _ _).2 hp⟩

/-- C105: pairs of a matrix of `n` rows and `m` columns, given as column major numbers or as tuples, in any order and with any
repetitions, are read as the same collection, which holds exactly these pairs, each once. This holds for label queries and for feature queries. -/
theorem C105_numbers_or_tuples (n m : Nat) (ps : List (Int × Int)) (hne : ps ≠ []) (h : ∀ p ∈ ps, WithinShape n m p) :
    ∃ c, checkInd n m (.flat (ps.map (columnMajor n))) = .ok c ∧ checkInd n m (.tuples (ps.map tupleOf)) = .ok c ∧
      checkFeature n m (.flat (ps.map (columnMajor n))) = .ok c ∧ checkFeature n m (.tuples (ps.map tupleOf)) = .ok c ∧
      c.inner.Nodup ∧ c.lsz = some (m : Int) ∧ ∀ q, q ∈ c.inner ↔ ∃ p ∈ ps, q = (p.1, .scal p.2) := by
  obtain ⟨c, hc, hn, hl, hm⟩ := mk_tuples hne (fun p hp => (h p hp).2.2)
  have hb := by1d_column h
  obtain ⟨a, r, rfl⟩ := List.exists_cons_of_ne_nil hne
  refine ⟨c, ?_, ?_, ?_, ?_, hn, hl, hm⟩ <;>
    simp only [List.map_cons, checkInd, checkFeature] at hb hc ⊢ <;> simp only [hb, hc]

example : (∀ p ∈ [((2 : Int), (0 : Int)), (0, 1), (2, 0)], WithinShape 3 2 p) ∧
    [((2 : Int), (0 : Int)), (0, 1), (2, 0)].map (columnMajor 3) = [2, 3, 2] := by
  constructor
  · intro p hp; simp at hp; rcases hp with rfl | rfl | rfl <;> simp [WithinShape]
  · decide

/-- C105: the column major numbers given by `get_onedim_index(order='F', ins_num=n)` of a collection stand for the same pairs as the collection. -/
theorem C105_collection_or_numbers (n m : Nat) (c : MLIC) (hc : TameReachable c) (hne : c.inner ≠ []) (hm : c.lsz = some (m : Int))
    (hi : ∀ q ∈ c.inner, 0 ≤ q.1 ∧ q.1 < n) :
    ∃ ks d, c.onedim .F (some n) = .ok ks ∧ checkInd n m (.coll c) = .ok c ∧ checkInd n m (.flat ks) = .ok d ∧
      checkFeature n m (.coll c) = .ok c ∧ checkFeature n m (.flat ks) = .ok d ∧ ∀ q, q ∈ d.inner ↔ q ∈ c.inner := by
  obtain ⟨q, hq⟩ := List.exists_mem_of_ne_nil _ hne
  obtain ⟨l, L, -, hL, h1, h2⟩ := (C07_only_legal_pairs_partial c hc).2 q hq
  have : L = m := by rw [hm] at hL; exact (Option.some.inj hL).symm
  have hq' := hi q hq
  obtain ⟨ks, d, hk, hlen, -, -, hd, -, hdm⟩ := C11_encode_then_decode .F n m (by omega) (by omega) c hc hm hi
  refine ⟨ks, d, hk, rfl, ?_, rfl, ?_, hdm⟩
  all_goals
    cases ks with
    | nil => exact absurd (List.eq_nil_of_length_eq_zero hlen.symm) hne
    | cons k r => simp only [checkInd, checkFeature, hd]

example : ∃ c : MLIC, TameReachable c ∧ c.inner = [(2, .scal 0), (0, .scal 1)] ∧ c.lsz = some ((2 : Nat) : Int) ∧
    c.onedim .F (some 3) = .ok [2, 3] :=
  ⟨⟨[(2, .scal 0), (0, .scal 1)], some 2, false⟩, .construct (items := [tupleOf (2, 0), tupleOf (0, 1)]) (lsz := some 2) (by decide),
    rfl, rfl, by decide⟩

/-- C105, negative: nothing labelled yet can only be said with a collection. An empty list or array is refused with the error for a wrong form. -/
theorem C105_empty_violation (n m : Nat) (lsz : Option Int) :
    checkInd n m (.tuples []) = .error .valueError ∧ checkInd n m (.flat []) = .error .valueError ∧
      checkFeature n m (.tuples []) = .error .valueError ∧ checkFeature n m (.flat []) = .error .valueError ∧
      checkInd n m (.coll (MLIC.empty lsz)) = .ok (MLIC.empty lsz) ∧ checkFeature n m (.coll (MLIC.empty lsz)) = .ok (MLIC.empty lsz) :=
  ⟨rfl, rfl, rfl, rfl, rfl, rfl⟩

/-- C105, negative: tuples that name rows outside the matrix are accepted, while no number of a list can name such a row:
whatever numbers are accepted, the pairs they give lie in the matrix. -/
theorem C105_rows_violation (n m : Nat) {ps : List (Int × Int)} (hne : ps ≠ []) (hl : ∀ p ∈ ps, 0 ≤ p.2 ∧ p.2 < m) :
    (∃ c, checkInd n m (.tuples (ps.map tupleOf)) = .ok c ∧ ∀ q, q ∈ c.inner ↔ ∃ p ∈ ps, q = (p.1, .scal p.2)) ∧
    ∀ ks c, checkInd n m (.flat ks) = .ok c → ∀ q ∈ c.inner, ∃ p, q = (p.1, .scal p.2) ∧ WithinShape n m p := by
  constructor
  · obtain ⟨c, hc, -, -, hm⟩ := mk_tuples (m := m) hne hl
    refine ⟨c, ?_, hm⟩
    obtain ⟨p, r, rfl⟩ := List.exists_cons_of_ne_nil hne
    simp only [List.map_cons] at hc ⊢
    simp only [checkInd, hc]
  · intro ks c h q hq
    cases ks with
    | nil => cases h
    | cons k r =>
      simp only [checkInd] at h
      split at h
      · rename_i d hd
        cases h
        have hall : ∀ x ∈ k :: r, 0 ≤ x ∧ x < (n : Int) * m := by
          by_contra hcon
          unfold by1d at hd
          rw [if_neg (by simpa only [List.all_eq_true, decide_eq_true_eq] using hcon)] at hd
          cases hd
        have hpos : 0 < (n : Int) * m := by have := hall k (by simp); omega
        have hn : 0 < (n : Int) := by
          rcases Nat.eq_zero_or_pos n with h0 | h0
          · subst h0; simp at hpos
          · exact_mod_cast h0
        have hm : 0 < (m : Int) := by
          obtain ⟨p, hp⟩ := List.exists_mem_of_ne_nil _ hne
          have := hl p hp
          omega
        have hdec : ∀ p ∈ (k :: r).map (decode .F n m), WithinShape n m p := by
          intro p hp
          obtain ⟨x, hx, rfl⟩ := List.mem_map.1 hp
          obtain ⟨-, ⟨a, b⟩, c1, c2⟩ := decode_encode .F n m hn hm x (hall x hx).1 (hall x hx).2
          exact ⟨a, b, c1, c2⟩
        obtain ⟨c', hc', -, -, hm'⟩ := mk_tuples (ps := (k :: r).map (decode .F n m)) (by simp) (fun p hp => (hdec p hp).2.2)
        unfold by1d at hd
        rw [if_pos (by simpa only [List.all_eq_true, decide_eq_true_eq] using hall)] at hd
        have heq : c' = c := by
          have := hc'.symm.trans hd
          exact Except.ok.inj this
        subst heq
        obtain ⟨p, hp, rfl⟩ := (hm' q).1 hq
        exact ⟨p, rfl, hdec p hp⟩
      · cases h

example : ∃ c, checkInd 2 3 (.tuples ([(7, 1), (0, 2)].map tupleOf)) = .ok c ∧ (7, .scal 1) ∈ c.inner := by
  obtain ⟨⟨c, hc, hm⟩, -⟩ := C105_rows_violation 2 3 (ps := [(7, 1), (0, 2)]) (by simp) (by simp)
  exact ⟨c, hc, (hm _).2 ⟨(7, 1), by simp, rfl⟩⟩

/-- C105, negative: `get_onedim_index` numbers the cells row by row unless told otherwise, while the strategies read numbers column by
column. In any matrix with two rows and two columns, the default numbers of the pair `(0, 1)` are read as the pair `(1, 0)`. -/
theorem C105_default_order_violation (n m : Nat) (hn : 2 ≤ n) (hm : 2 ≤ m) (c : MLIC) (hc : c.inner = [(0, .scal 1)]) (hl : c.lsz = some (m : Int)) :
    ∃ ks d, c.onedim .C none = .ok ks ∧ checkInd n m (.flat ks) = .ok d ∧ ∀ q, q ∈ d.inner ↔ q = (1, .scal 0) := by
  obtain ⟨d, hd, -, -, -, -, -, hdm⟩ := C105_numbers_or_tuples n m [(1, 0)] (by simp) (by
    intro p hp
    simp only [List.mem_singleton] at hp
    subst hp
    refine ⟨by norm_num, ?_, le_refl _, ?_⟩ <;> simp only <;> omega)
  refine ⟨[1], d, ?_, ?_, fun q => by simpa using hdm q⟩
  · simp [onedim, plainPairs, hc, hl, encode]
  · simpa [columnMajor] using hd

example : ∃ c : MLIC, c.inner = [(0, .scal 1)] ∧ c.lsz = some ((2 : Nat) : Int) ∧ mk' [tupleOf (0, 1)] (some 2) = .ok c :=
  ⟨⟨[(0, .scal 1)], some 2, false⟩, rfl, rfl, by decide⟩

/-- C105: a feature collection accepts the same lists as a label collection and holds the same pairs. -/
theorem C105_feature_collection (items : List Item) (size : Option Int) (c : MLIC) :
    featureMk items size = .ok c ↔ mk' items size = .ok c := by
  unfold featureMk
  split
  · rename_i h; rw [h]
  · rename_i h; rw [h]; simp

/-- C105, negative: every refusal of a feature collection is the same exception, which says that the number of features could not be
inferred, also when the number was given and a feature index is out of range. A label collection fails its assertion there. -/
theorem C105_feature_message_violation (d : Nat) (hd : 0 < d) (e l : Int) (hl : (d : Int) ≤ l) :
    mk' [tupleOf (e, l)] (some (d : Int)) = .error .assertionError ∧ featureMk [tupleOf (e, l)] (some (d : Int)) = .error .genericException := by
  have h : mk' [tupleOf (e, l)] (some (d : Int)) = .error .assertionError := by
    have h1 : ¬ (0 ≤ l ∧ l < (d : Int)) := by omega
    have h2 : checkIndexMultilabel [tupleOf (e, l)] = .ok [.pair e (.scal l)] := rfl
    unfold mk'
    simp only [h2, flatten, flattenLoop, flatten1, if_neg h1]
    simp [hd]
  exact ⟨h, by simp only [featureMk, h]⟩

end Alipy.Forms
