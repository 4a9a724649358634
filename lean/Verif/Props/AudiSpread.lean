import Verif.Props.MultiLabelSelect
import Verif.Props.LabelOrder

/-! # C142: which examples AUDI spreads its questions over, and what `epsilon` does

`QueryMultiLabelAUDI.select` (multi_label.py lines 534-606). In the paper the deviation of an example is divided by the number of its labels that
*have been* asked for (with `epsilon` in place of 0), so that examples which little is known about come first. Line 582 divides by the number of
labels *not* asked for, which is never 0. -/

namespace Alipy.AudiSpread
open Alipy Alipy.Spec Alipy.MLSelect Alipy.MLIC
variable {K : Type} [Field K] [LinearOrder K] [IsStrictOrderedRing K]

/-- **C142**: whatever the label matrix, the collections and the model, all values of `epsilon` up to 1 give the same result. -/
theorem C142_epsilon {argsort : List (EF K) → List Nat} {fit : MLIC → Except PyErr (Int → Nat → EF K)} {Y : List (List Int)} {L : Nat} (hL : 0 < L)
    {lab unl : PairArg} (hunl : LegalArg Y.length L unl) (hne : ∃ p, Offered Y.length L unl p) {eps eps' : K} (h1 : eps ≤ 1) (h1' : eps' ≤ 1) :
    audi argsort fit Y L eps lab unl = audi argsort fit Y L eps' lab unl := by
  obtain ⟨u, hu, hut, hul, hui, hum⟩ := checkInd_legal hL hunl
  obtain ⟨ps, hps, -, hpr⟩ := (tame_inv hut).plain hul
  obtain ⟨W, hW, hrow⟩ := mask_rows hut hul hui
  have huin : u.inner ≠ [] := by
    obtain ⟨p, hp⟩ := hne
    exact List.ne_nil_of_mem ((hum p).2 hp)
  obtain ⟨rows, hr1, hr2, -⟩ := C13_label_matrix Y L 0 (u.inner.map toIx) (by simpa using huin) (by
      intro ix hix
      obtain ⟨q, hq, rfl⟩ := List.mem_map.1 hix
      rw [hps] at hq
      obtain ⟨p, hp, rfl⟩ := List.mem_map.1 hq
      exact hpr p hp) (by
      intro ix hix e he
      obtain ⟨q, hq, rfl⟩ := List.mem_map.1 hix
      rw [MLSelect.inst_toIx] at he
      cases he
      exact hui q hq)
  have hpos : ∀ e ∈ rows.map Prod.fst, 1 ≤ ((maskRow W e).filter (fun x => decide (x = 1))).length := by
    intro e he
    rw [hr2, List.mem_eraseDups, List.mem_filterMap] at he
    obtain ⟨ix, hix, he⟩ := he
    obtain ⟨q, hq, rfl⟩ := List.mem_map.1 hix
    rw [MLSelect.inst_toIx] at he
    cases he
    have hq' := hq
    rw [hps] at hq
    obtain ⟨p, hp, rfl⟩ := List.mem_map.1 hq
    have h2 := hpr p hp
    have h3 := hui _ hq'
    obtain ⟨a, b⟩ := hrow p.1 h3.1 h3.2
    have h4 : ((p.2.toNat : Nat) : Int) = p.2 := by have := h2.1; omega
    have h5 := (b p.2.toNat (by have := h2.1; have := h2.2; omega)).1 (by rw [h4]; exact hq')
    exact List.length_pos_of_mem (List.mem_filter.2 ⟨List.mem_of_getElem? h5, by simp⟩)
  unfold audi
  by_cases h0 : unl.len ≤ 1
  · rw [if_pos h0, if_pos h0]
  rw [if_neg h0, if_neg h0, hu]; dsimp only
  cases checkInd Y.length L lab with
  | error e => rfl
  | ok l =>
    dsimp only
    rw [hr1]; dsimp only
    rw [hW]; dsimp only
    cases fit l with
    | error e => rfl
    | ok pres =>
      dsimp only
      cases l.unbroken with
      | error e => rfl
      | ok us =>
        dsimp only
        cases ones Y us with
        | error e => rfl
        | ok cs =>
          dsimp only
          have : (rows.map Prod.fst).map (fun e => insval L (pres e) (meanNat cs) ((maskRow W e).filter (fun x => decide (x = 1))).length eps) =
              (rows.map Prod.fst).map (fun e => insval L (pres e) (meanNat cs) ((maskRow W e).filter (fun x => decide (x = 1))).length eps') := by
            refine List.map_congr_left fun e he => ?_
            have hc : (1 : K) ≤ (((maskRow W e).filter (fun x => decide (x = 1))).length : K) := by exact_mod_cast hpos e he
            unfold insval
            rw [max_eq_left (h1.trans hc), max_eq_left (h1'.trans hc)]
          rw [this]

/-- How far the number of labels predicted for an example (those scored above the dummy label) is from the average number of relevant labels. -/
noncomputable def deviation (L : Nat) (score : Nat → K) (avg : K) : K := |(countBelow L (fun j => score L < score j) : K) - avg|

section Select
variable {argsort : List (EF K) → List Nat} (hs : ∀ l, _root_.Spec.IsArgsort l (argsort l)) {fit : MLIC → Except PyErr (Int → Nat → EF K)}
  {Y : List (List Int)} {L : Nat} (hL : 0 < L) {eps : K} (heps : eps ≤ 1) {lab unl : PairArg} (hlab : LegalArg Y.length L lab)
  (hunl : LegalArg Y.length L unl) (h2 : 2 ≤ unl.len) {pres : Int → Nat → EF K} (hfit : ∀ c, checkInd Y.length L lab = .ok c → fit c = .ok pres)
  {f : Int → Nat → K} (hf : ∀ e, ∀ i ≤ L, pres e i = .num (f e i))
  {us : List Int} (hus : us.Nodup) (husm : ∀ e, e ∈ us ↔ ∀ l, 0 ≤ l → l < (L : Int) → Offered Y.length L lab (e, l)) (hune : us ≠ [])
  {avg : K} (havg : avg = ((us.map (fun e => ((Y.getD e.toNat []).filter (fun y => decide (y = 1))).length)).sum : K) / us.length)
include hs hL heps hlab hunl h2 hfit hf hus husm hune havg

/-- The example asked for has the greatest deviation per label not yet asked for. -/
theorem asked {e : Int} {j : Nat} (ha : audi argsort fit Y L eps lab unl = .ok (.pairs [(e, (j : Int))])) {e' l' : Int}
    (ho : Offered Y.length L unl (e', l')) :
    deviation L (f e') avg * countBelow L (fun j => Offered Y.length L unl (e, j)) ≤
      deviation L (f e) avg * countBelow L (fun j => Offered Y.length L unl (e', j)) := by
  obtain ⟨e0, j0, vs, g1, g2, g3, g4, g5⟩ := C48_audi hs fit Y L hL eps hlab hunl h2 ⟨_, ho⟩ hfit
  rw [g1] at ha
  simp only [Except.ok.injEq, Sel.pairs.injEq, List.cons.injEq, Prod.mk.injEq, and_true] at ha
  obtain ⟨rfl, -⟩ := ha
  have hp : vs.Perm us := (List.perm_ext_iff_of_nodup g3 hus).2 fun e => by rw [g4, husm]
  have hv : vs ≠ [] := by
    intro c
    subst c
    exact hune (List.perm_nil.1 hp.symm)
  have := (g5 f hf).2 hv avg (by rw [havg, (hp.map _).sum_eq, hp.length_eq]) e' l' ho
  have hc : ∀ {e l : Int}, Offered Y.length L unl (e, l) → (1 : K) ≤ countBelow L (fun j => Offered Y.length L unl (e, j)) := by
    intro e l ho
    have hr := LabelOrder.offered_range hL hunl ho
    have : 1 ≤ countBelow L (fun j => Offered Y.length L unl (e, (j : Int))) := by
      classical
      unfold countBelow
      refine List.length_pos_of_mem (a := l.toNat) (List.mem_filter.2 ⟨List.mem_range.2 (by omega), decide_eq_true ?_⟩)
      show Offered Y.length L unl (e, ((l.toNat : Nat) : Int))
      rw [Int.toNat_of_nonneg hr.2.2.1]
      exact ho
    exact_mod_cast this
  have c1 := hc g2
  have c2 := hc ho
  unfold inconsistency at this
  rw [max_eq_left (heps.trans c1), max_eq_left (heps.trans c2), abs_div, abs_div, abs_of_nonneg (zero_le_one.trans c1), abs_of_nonneg (zero_le_one.trans c2),
    div_le_div_iff₀ (by linarith) (by linarith)] at this
  exact this

/-- **C142** (what holds): if equally many labels are left to be asked for of all examples, the number of labels predicted for the selected one is furthest
from the average. -/
theorem C142_same_partial {e : Int} {j : Nat} (ha : audi argsort fit Y L eps lab unl = .ok (.pairs [(e, (j : Int))])) {c : Nat} (hc : 0 < c)
    (hcc : ∀ e l, Offered Y.length L unl (e, l) → countBelow L (fun j => Offered Y.length L unl (e, j)) = c) (ho : Offered Y.length L unl (e, j))
    {e' l' : Int} (ho' : Offered Y.length L unl (e', l')) : deviation L (f e') avg ≤ deviation L (f e) avg := by
  have := asked hs hL heps hlab hunl h2 hfit hf hus husm hune havg ha ho'
  rw [hcc _ _ ho, hcc _ _ ho'] at this
  exact le_of_mul_le_mul_right this (by exact_mod_cast hc)

/-- **C142** (what holds): an example is asked about before one with a greater deviation only if fewer of its labels are left. -/
theorem C142_deviation_partial {e : Int} {j : Nat} (ha : audi argsort fit Y L eps lab unl = .ok (.pairs [(e, (j : Int))])) {e' l' : Int}
    (ho' : Offered Y.length L unl (e', l')) (hless : deviation L (f e) avg < deviation L (f e') avg) :
    countBelow L (fun j => Offered Y.length L unl (e, j)) < countBelow L (fun j => Offered Y.length L unl (e', j)) := by
  have := asked hs hL heps hlab hunl h2 hfit hf hus husm hune havg ha ho'
  by_contra hcon
  push Not at hcon
  have hcon' : (countBelow L (fun j => Offered Y.length L unl (e', (j : Int))) : K) ≤ countBelow L (fun j => Offered Y.length L unl (e, (j : Int))) := by
    exact_mod_cast hcon
  have hd : (0 : K) ≤ deviation L (f e) avg := abs_nonneg _
  have hr := LabelOrder.offered_range hL hunl ho'
  have hpos : (0 : K) < countBelow L (fun j => Offered Y.length L unl (e', (j : Int))) := by
    have : 1 ≤ countBelow L (fun j => Offered Y.length L unl (e', (j : Int))) := by
      classical
      unfold countBelow
      refine List.length_pos_of_mem (a := l'.toNat) (List.mem_filter.2 ⟨List.mem_range.2 (by omega), decide_eq_true ?_⟩)
      show Offered Y.length L unl (e', ((l'.toNat : Nat) : Int))
      rw [Int.toNat_of_nonneg hr.2.2.1]
      exact ho'
    exact_mod_cast this
  have h3 : deviation L (f e') avg * countBelow L (fun j => Offered Y.length L unl (e', j)) ≤
      deviation L (f e') avg * countBelow L (fun j => Offered Y.length L unl (e, j)) := mul_le_mul_of_nonneg_left hcon' (hd.trans hless.le)
  have h4 := mul_lt_mul_of_pos_right hless hpos
  linarith

/-- **C142** (violation): of two examples with the same deviation the one with *more* known labels is asked for: AUDI goes on asking for labels of an
example which most is already known about. -/
theorem C142_spread_violation {e : Int} {j : Nat} (ha : audi argsort fit Y L eps lab unl = .ok (.pairs [(e, (j : Int))])) {e' l' : Int}
    (ho' : Offered Y.length L unl (e', l')) (hsame : deviation L (f e) avg = deviation L (f e') avg) (h0 : deviation L (f e) avg ≠ 0) :
    countBelow L (fun j => Offered Y.length L unl (e, j)) ≤ countBelow L (fun j => Offered Y.length L unl (e', j)) := by
  have := asked hs hL heps hlab hunl h2 hfit hf hus husm hune havg ha ho'
  rw [← hsame] at this
  have hd : (0 : K) < deviation L (f e) avg := lt_of_le_of_ne (abs_nonneg _) (Ne.symm h0)
  have := le_of_mul_le_mul_left this hd
  exact_mod_cast this

end Select

/-! ## Examples -/

/-- Two examples with the same scores: 0 has one label left, 1 has three. Label matrix of four examples, two of them fully labelled with one relevant
label each; two labels are predicted for both. AUDI asks for the last label of the former, whatever `epsilon`. -/
example : audi (K := ℚ) (fun l => List.range l.length) (fun _ => .ok (fun _ j => .num ([9, 7, 5, 6].getD j 0)))
    [[1, 1, -1], [1, -1, 1], [1, -1, -1], [-1, -1, 1]] 3 (1 / 2)
    (.tuples [.tup (.all 2), .tup (.all 3), .tup (.pair 0 (.scal 0)), .tup (.pair 0 (.scal 1))])
    (.tuples [.tup (.all 1), .tup (.pair 0 (.scal 2))]) = .ok (.pairs [(0, 2)]) := by decide +kernel

example : audi (K := ℚ) (fun l => List.range l.length) (fun _ => .ok (fun _ j => .num ([9, 7, 5, 6].getD j 0)))
    [[1, 1, -1], [1, -1, 1], [1, -1, -1], [-1, -1, 1]] 3 (1 / 1000)
    (.tuples [.tup (.all 2), .tup (.all 3), .tup (.pair 0 (.scal 0)), .tup (.pair 0 (.scal 1))])
    (.tuples [.tup (.all 1), .tup (.pair 0 (.scal 2))]) = .ok (.pairs [(0, 2)]) := by decide +kernel

end Alipy.AudiSpread
