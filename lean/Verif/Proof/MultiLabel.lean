import Verif.Model.MultiLabel
import Verif.Proof.MultiLabelTools
import Verif.Proof.Lists

namespace Alipy
open Spec
namespace MLIC

theorem plain_inj {p q : Int × Int} (h : plain p = plain q) : p = q := by
  obtain ⟨a, b⟩ := p; obtain ⟨c, d⟩ := q
  simp only [plain, Prod.mk.injEq, Second.scal.injEq] at h
  exact Prod.ext h.1 h.2

/-- `c'` has the label size and container kind of `c`. -/
def Same (c c' : MLIC) : Prop := c'.lsz = c.lsz ∧ c'.isList = c.isList

theorem Same.refl (c : MLIC) : Same c c := ⟨rfl, rfl⟩
theorem Same.trans {a b c : MLIC} (h : Same a b) (h' : Same b c) : Same a c := ⟨h'.1.trans h.1, h'.2.trans h.2⟩

theorem insert_general (c : MLIC) (p : Int × Second) : Same c (c.insert p).1 ∧
    (c.inner.Nodup → (c.insert p).1.inner.Nodup) ∧ (∀ q ∈ (c.insert p).1.inner, q ∈ c.inner ∨ q = p) := by
  unfold insert
  split
  · exact ⟨Same.refl _, id, fun q h => .inl h⟩
  · split
    · exact ⟨Same.refl _, id, fun q h => .inl h⟩
    · rename_i hp
      split
      · exact ⟨Same.refl _, id, fun q h => .inl h⟩
      · refine ⟨⟨rfl, rfl⟩, fun h => ?_, fun q h => ?_⟩
        · show (c.inner ++ [p]).Nodup
          rw [List.nodup_append]
          refine ⟨h, by simp, ?_⟩
          intro a ha b hb
          rw [List.mem_singleton] at hb; subst hb; rintro rfl; exact hp ha
        · have h : q ∈ c.inner ++ [p] := h
          simpa using h

theorem addPair_general (c : MLIC) (e : Int) (s : Second) : Same c (c.addPair e s).1 ∧
    (c.inner.Nodup → (c.addPair e s).1.inner.Nodup) ∧
    (∀ q ∈ (c.addPair e s).1.inner, q ∈ c.inner ∨ (q = (e, s) ∧ checkBound c.lsz s = none)) := by
  unfold addPair
  split
  · exact ⟨Same.refl _, id, fun q h => .inl h⟩
  · rename_i hb
    obtain ⟨h1, h2, h3⟩ := insert_general c (e, s)
    exact ⟨h1, h2, fun q hq => (h3 q hq).imp id (fun h => ⟨h, hb⟩)⟩

theorem addPairs_general (ps : List (Int × Int)) : ∀ c : MLIC, Same c (c.addPairs ps).1 ∧
    (c.inner.Nodup → (c.addPairs ps).1.inner.Nodup) ∧
    (∀ q ∈ (c.addPairs ps).1.inner, q ∈ c.inner ∨ ∃ p ∈ ps, q = plain p ∧ checkBound c.lsz (.scal p.2) = none) := by
  induction ps with
  | nil => intro c; exact ⟨Same.refl _, id, fun q h => .inl h⟩
  | cons p ps ih =>
    intro c
    obtain ⟨h1, h2, h3⟩ := addPair_general c p.1 (.scal p.2)
    unfold addPairs
    split
    · rename_i c' hc
      rw [hc] at h1 h2 h3
      obtain ⟨i1, i2, i3⟩ := ih c'
      refine ⟨h1.trans i1, fun h => i2 (h2 h), fun q hq => ?_⟩
      rcases i3 q hq with h | ⟨r, hr, rfl, hb⟩
      · rcases h3 q h with h | ⟨rfl, hb⟩
        · exact .inl h
        · exact .inr ⟨p, by simp, rfl, hb⟩
      · exact .inr ⟨r, by simp [hr], rfl, by rw [← h1.1]; exact hb⟩
    · rename_i c' e hc
      rw [hc] at h1 h2 h3
      refine ⟨h1, h2, fun q hq => ?_⟩
      rcases h3 q hq with h | ⟨rfl, hb⟩
      · exact .inl h
      · exact .inr ⟨p, by simp, rfl, hb⟩

theorem erase_general (c : MLIC) (p : Int × Second) : Same c (c.erase p).1 ∧
    (c.erase p).1.inner.Sublist c.inner := by
  unfold erase
  split
  · exact ⟨Same.refl _, List.Sublist.refl _⟩
  · split
    · split
      · exact ⟨Same.refl _, List.Sublist.refl _⟩
      · exact ⟨⟨rfl, rfl⟩, List.filter_sublist⟩
    · exact ⟨Same.refl _, List.Sublist.refl _⟩

theorem erasePairs_general (ps : List (Int × Int)) : ∀ c : MLIC, Same c (c.erasePairs ps).1 ∧
    (c.erasePairs ps).1.inner.Sublist c.inner := by
  induction ps with
  | nil => intro c; exact ⟨Same.refl _, List.Sublist.refl _⟩
  | cons p ps ih =>
    intro c
    obtain ⟨h1, h2⟩ := erase_general c (plain p)
    unfold erasePairs
    split
    · rename_i c' hc
      rw [hc] at h1 h2
      obtain ⟨i1, i2⟩ := ih c'
      exact ⟨h1.trans i1, i2.trans h2⟩
    · rename_i c' e hc
      rw [hc] at h1 h2
      exact ⟨h1, h2⟩

/-- Everything `flattenArg` returns is below the label size of the collection, if that is known. -/
theorem flatten_range {ixs : List Ix} {L : Int} {ps : List (Int × Int)} (h : flatten ixs (some L) = .ok ps) :
    0 < L ∧ ∀ p ∈ ps, 0 ≤ p.2 ∧ p.2 < L := by
  simp only [flatten] at h
  split at h
  · exact ⟨by assumption, flattenLoop_range h⟩
  · cases h

theorem flattenArg_range {c : MLIC} {L : Int} (hl : c.lsz = some L) {a : Arg} {ps : List (Int × Int)}
    (h : c.flattenArg a = .ok ps) : 0 < L ∧ ∀ p ∈ ps, 0 ≤ p.2 ∧ p.2 < L := by
  unfold flattenArg at h
  rw [hl] at h
  split at h
  · split at h
    · cases h
    · exact flatten_range h
  · exact flatten_range h
  · cases h

/-- The invariant of legal histories. -/
structure Inv (c : MLIC) : Prop where
  nodup : c.inner.Nodup
  legal : ∀ q ∈ c.inner, ∃ l L, q.2 = .scal l ∧ c.lsz = some L ∧ 0 ≤ l ∧ l < L

theorem Inv.of_sub {c c' : MLIC} (h : Inv c) (hs : Same c c') (hsub : c'.inner.Sublist c.inner) : Inv c' :=
  ⟨h.nodup.sublist hsub, fun q hq => by rw [hs.1]; exact h.legal q (hsub.subset hq)⟩

theorem updateMany_inv {c : MLIC} (h : Inv c) (a : Arg) : Inv (c.updateMany a).1 := by
  unfold updateMany
  split
  · exact h
  · rename_i ps hps
    obtain ⟨g1, g2, g3⟩ := addPairs_general ps c
    refine ⟨g2 h.nodup, fun q hq => ?_⟩
    rw [g1.1]
    rcases g3 q hq with hq | ⟨p, hp, rfl, hb⟩
    · exact h.legal q hq
    · cases hl : c.lsz with
      | none => rw [hl] at hb; simp [checkBound] at hb
      | some L =>
        have := (flattenArg_range hl hps).2 p hp
        exact ⟨p.2, L, rfl, rfl, this.1, this.2⟩

theorem differenceMany_inv {c : MLIC} (h : Inv c) (a : Arg) : Inv (c.differenceMany a).1 := by
  unfold differenceMany
  split
  · exact h
  · rename_i ps hps
    obtain ⟨g1, g2⟩ := erasePairs_general ps c
    exact h.of_sub g1 g2

theorem discard_inv {c : MLIC} (h : Inv c) (ix : Ix) : Inv (c.discard ix).1 := by
  unfold discard
  split
  · split
    · exact h
    · exact differenceMany_inv h _
  · obtain ⟨g1, g2⟩ := erase_general c _
    exact h.of_sub g1 g2
  · exact h
  · split <;> exact h

/-- `add` keeps the invariant if its argument is not a pair with an iterable or a negative label. -/
theorem add_inv {c : MLIC} (h : Inv c) (ix : Ix) (hix : ∀ e s, ix = .pair e s → ∃ l, s = .scal l ∧ 0 ≤ l) :
    Inv (c.add ix).1 := by
  unfold add
  split
  · split
    · exact h
    · exact updateMany_inv h _
  · rename_i e s
    obtain ⟨l, rfl, hl⟩ := hix e s rfl
    obtain ⟨g1, g2, g3⟩ := addPair_general c e (.scal l)
    refine ⟨g2 h.nodup, fun q hq => ?_⟩
    rw [g1.1]
    rcases g3 q hq with hq | ⟨rfl, hb⟩
    · exact h.legal q hq
    · cases hls : c.lsz with
      | none => rw [hls] at hb; simp [checkBound] at hb
      | some L =>
        rw [hls] at hb
        simp only [checkBound] at hb
        split at hb
        · cases hb
        · exact ⟨l, L, rfl, rfl, hl, by omega⟩
  · exact h
  · exact h

theorem mk'_ok {items : List Item} {lsz : Option Int} {c : MLIC} (h : mk' items lsz = .ok c) :
    (items = [] ∧ c = empty lsz) ∨ ∃ ixs L ps, items = ixs.map .tup ∧ flatten ixs (some L) = .ok ps ∧
      (∀ L', lsz = some L' → L = L') ∧ c = ⟨setUnion [] (ps.map plain), some L, false⟩ := by
  unfold mk' at h
  split at h
  · simp at h; exact .inl ⟨rfl, h.symm⟩
  · split at h
    · cases h
    · rename_i ixs hix
      simp only at h
      split at h
      · cases h
      · rename_i L hL
        split at h
        · cases h
        · rename_i ps hps
          simp only [Except.ok.injEq] at h
          refine .inr ⟨ixs, L, ps, ((checkIndex_ok_iff _ _).1 hix).2, hps, ?_, h.symm⟩
          intro L' hL'
          rw [hL'] at hL
          simpa using hL.symm

theorem mk'_inv {items : List Item} {lsz : Option Int} {c : MLIC} (h : mk' items lsz = .ok c) : Inv c := by
  rcases mk'_ok h with ⟨-, rfl⟩ | ⟨ixs, L, ps, -, hf, -, rfl⟩
  · exact ⟨by simp [empty], by simp [empty]⟩
  · refine ⟨setUnion_nodup _ _ (by simp), fun q hq => ?_⟩
    simp only [mem_setUnion, List.not_mem_nil, false_or] at hq
    obtain ⟨p, hp, rfl⟩ := List.mem_map.1 hq
    have := (flatten_range hf).2 p hp
    exact ⟨p.2, L, rfl, rfl, this.1, this.2⟩

/-- Constructor on a non-empty list of plain pairs in range. -/
theorem mk'_plain {ps : List (Int × Int)} {L : Int} (hL : 0 < L) (hr : ∀ p ∈ ps, 0 ≤ p.2 ∧ p.2 < L) :
    ∃ c, mk' (ps.map (fun p => .tup (.pair p.1 (.scal p.2)))) (some L) = .ok c ∧ c.lsz = some L ∧ c.isList = false ∧
      c.inner.Nodup ∧ ∀ q, q ∈ c.inner ↔ ∃ p ∈ ps, q = plain p := by
  have hfl : ∀ qs : List (Int × Int), (∀ p ∈ qs, 0 ≤ p.2 ∧ p.2 < L) →
      flattenLoop L (qs.map (fun p => .pair p.1 (.scal p.2))) = .ok qs := by
    intro qs
    induction qs with
    | nil => intro _; rfl
    | cons q qs ih =>
      intro h
      have h1 := h q (by simp)
      simp [flattenLoop, flatten1, h1, ih (fun p hp => h p (by simp [hp]))]
  cases ps with
  | nil => exact ⟨empty (some L), rfl, rfl, rfl, by simp [empty], by simp [empty]⟩
  | cons p ps =>
    have hc : checkIndexMultilabel ((p :: ps).map (fun p => Item.tup (.pair p.1 (.scal p.2)))) =
        .ok ((p :: ps).map (fun p => .pair p.1 (.scal p.2))) := by
      rw [checkIndex_ok_iff]
      refine ⟨by simp, ?_⟩
      rw [List.map_map]; rfl
    refine ⟨⟨setUnion [] ((p :: ps).map plain), some L, false⟩, ?_, rfl, rfl, setUnion_nodup _ _ (by simp), ?_⟩
    · unfold mk'
      split
      · rename_i he; simp at he
      · rw [hc]
        simp only [flatten, hL, if_true, hfl _ hr]
    · intro q
      simp only [mem_setUnion, List.not_mem_nil, false_or, List.mem_map]
      constructor
      · rintro ⟨p, hp, rfl⟩; exact ⟨p, hp, rfl⟩
      · rintro ⟨p, hp, rfl⟩; exact ⟨p, hp, rfl⟩

/-- `addPairs` of pairs below the label size never fails on a set. -/
theorem addPairs_ok (ps : List (Int × Int)) : ∀ (c : MLIC) (L : Int), c.lsz = some L → c.isList = false →
    (∀ p ∈ ps, p.2 < L) → ∃ c', c.addPairs ps = (c', none) ∧ Same c c' ∧
      ∀ q, q ∈ c'.inner ↔ q ∈ c.inner ∨ ∃ p ∈ ps, q = plain p := by
  induction ps with
  | nil => intro c L _ _ _; exact ⟨c, rfl, Same.refl _, by simp⟩
  | cons p ps ih =>
    intro c L hl hs hr
    have hp := hr p (by simp)
    have h1 : ∃ c', c.addPair p.1 (.scal p.2) = (c', none) ∧ Same c c' ∧ ∀ q, q ∈ c'.inner ↔ q ∈ c.inner ∨ q = plain p := by
      have hb : checkBound c.lsz (.scal p.2) = none := by rw [hl]; simp [checkBound, hp]
      unfold addPair
      rw [hb]
      simp only [insert, hs, hashable]
      by_cases hm : (p.1, Second.scal p.2) ∈ c.inner
      · refine ⟨c, by simp [hm], Same.refl _, fun q => ⟨.inl, ?_⟩⟩
        rintro (h | rfl)
        · exact h
        · exact hm
      · exact ⟨{ c with inner := c.inner ++ [(p.1, .scal p.2)] }, by simp [hm, hs], ⟨rfl, rfl⟩, by simp [plain]⟩
    obtain ⟨c1, e1, s1, m1⟩ := h1
    obtain ⟨c2, e2, s2, m2⟩ := ih c1 L (s1.1.trans hl) (s1.2.trans hs) (fun q hq => hr q (by simp [hq]))
    refine ⟨c2, by simp [addPairs, e1, e2], s1.trans s2, fun q => ?_⟩
    rw [m2, m1]
    simp only [List.mem_cons, exists_eq_or_imp]
    tauto

theorem erasePairs_ok (ps : List (Int × Int)) : ∀ (c : MLIC), c.isList = false →
    ∃ c', c.erasePairs ps = (c', none) ∧ Same c c' ∧
      ∀ q, q ∈ c'.inner ↔ q ∈ c.inner ∧ ¬ ∃ p ∈ ps, q = plain p := by
  induction ps with
  | nil => intro c _; exact ⟨c, rfl, Same.refl _, by simp⟩
  | cons p ps ih =>
    intro c hs
    have h1 : ∃ c', c.erase (plain p) = (c', none) ∧ Same c c' ∧ ∀ q, q ∈ c'.inner ↔ q ∈ c.inner ∧ q ≠ plain p := by
      simp only [erase, hs, plain, hashable]
      by_cases hm : (p.1, Second.scal p.2) ∈ c.inner
      · exact ⟨{ c with inner := c.inner.filter (fun q => !decide (q = (p.1, .scal p.2))) }, by simp [hm, hs]; congr, ⟨rfl, rfl⟩, by simp⟩
      · refine ⟨c, by simp [hm], Same.refl _, fun q => ⟨fun h => ⟨h, ?_⟩, And.left⟩⟩
        rintro rfl; exact hm h
    obtain ⟨c1, e1, s1, m1⟩ := h1
    obtain ⟨c2, e2, s2, m2⟩ := ih c1 (s1.2.trans hs)
    refine ⟨c2, by simp [erasePairs, e1, e2], s1.trans s2, fun q => ?_⟩
    rw [m2, m1]
    simp only [List.mem_cons, exists_eq_or_imp, not_or]
    tauto

theorem plainPairs_map (ps : List (Int × Int)) : plainPairs (ps.map plain) = some ps := by
  induction ps with
  | nil => rfl
  | cons p ps ih => simp [plainPairs, plain, ih]

/-- A legal collection is a list of plain pairs. -/
theorem Inv.plain {c : MLIC} (h : Inv c) {L : Int} (hL : c.lsz = some L) :
    ∃ ps : List (Int × Int), c.inner = ps.map MLIC.plain ∧ ps.Nodup ∧ ∀ p ∈ ps, 0 ≤ p.2 ∧ p.2 < L := by
  have key : ∀ l : List (Int × Second), (∀ q ∈ l, ∃ x, q.2 = .scal x ∧ 0 ≤ x ∧ x < L) →
      ∃ ps : List (Int × Int), l = ps.map MLIC.plain ∧ ∀ p ∈ ps, 0 ≤ p.2 ∧ p.2 < L := by
    intro l
    induction l with
    | nil => intro _; exact ⟨[], rfl, by simp⟩
    | cons q l ih =>
      intro hq
      obtain ⟨x, hx, h0, h1⟩ := hq q (by simp)
      obtain ⟨ps, rfl, hr⟩ := ih (fun q hq' => hq q (by simp [hq']))
      obtain ⟨a, b⟩ := q
      simp only at hx; subst hx
      refine ⟨(a, x) :: ps, rfl, ?_⟩
      intro p hp
      rcases List.mem_cons.1 hp with rfl | hp
      · exact ⟨h0, h1⟩
      · exact hr p hp
  obtain ⟨ps, he, hr⟩ := key c.inner (fun q hq => by
    obtain ⟨l, L', h1, h2, h3, h4⟩ := h.legal q hq
    rw [hL] at h2; cases h2
    exact ⟨l, h1, h3, h4⟩)
  refine ⟨ps, he, ?_, hr⟩
  have := h.nodup
  rw [he] at this
  exact List.Nodup.of_map _ this

end MLIC
end Alipy
