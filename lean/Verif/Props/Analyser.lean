import Verif.Model.Analyser
import Verif.Spec.Analyser
import Mathlib.Tactic.Linarith
import Mathlib.Tactic.Ring
import Mathlib.Tactic.FieldSimp
import Mathlib.Data.List.GetD
import Mathlib.Algebra.Order.BigOperators.Group.List
/-!
# Properties of the analyser (C73, C74)
-/
set_option linter.unusedSectionVars false
namespace Alipy.Analyser
open Alipy

variable {K : Type} [Field K] [LinearOrder K] [IsStrictOrderedRing K]

/-! ## C73 -/

/-- The results as folds in the sense of the specification. -/
def Results.toFolds : Results K → List (Option K × List K)
  | .states fs => fs.map (fun f => (f.ip, f.perf))
  | .lists fs => fs.map (fun l => (none, l))

/-- The matrix stored for a method. -/
def matrix : Results K → List (List K)
  | .states fs => extract fs
  | .lists fs => fs

/-- All folds have the same length, and all of them have an initial point (`b`) or none of them has. -/
def Uniform (b : Bool) (n : Nat) (folds : List (Option K × List K)) : Prop := folds ≠ [] ∧ ∀ f ∈ folds, f.1.isSome = b ∧ f.2.length = n

theorem matrix_eq (r : Results K) : matrix r = r.toFolds.map (fun f => f.1.toList ++ f.2) := by
  cases r with
  | states fs => simp [matrix, extract, Results.toFolds, Function.comp_def]
  | lists fs => simp [matrix, Results.toFolds, Function.comp_def]

theorem matrix_length {b : Bool} {n : Nat} {r : Results K} (h : Uniform b n r.toFolds) : ∀ row ∈ matrix r, row.length = n + b.toNat := by
  intro row hr
  rw [matrix_eq] at hr
  obtain ⟨f, hf, rfl⟩ := List.mem_map.1 hr
  obtain ⟨h1, h2⟩ := h.2 f hf
  rw [List.length_append, h2]
  obtain ⟨ip, perf⟩ := f
  cases ip <;> simp at h1 <;> subst h1 <;> simp
  omega

theorem matrix_ne {b : Bool} {n : Nat} {r : Results K} (h : Uniform b n r.toFolds) : matrix r ≠ [] := by
  rw [matrix_eq]
  simpa using h.1

theorem rect_of {α : Type} {m : List (List α)} {n : Nat} (h : ∀ r ∈ m, r.length = n) : rect m = true := by
  unfold rect
  rw [List.all_eq_true]
  intro r hr
  cases m with
  | nil => simp at hr
  | cons a m =>
    simp only [List.headD_cons, beq_iff_eq]
    rw [h r hr, h a (by simp)]

theorem head_length {α : Type} {m : List (List α)} {n : Nat} (hm : m ≠ []) (h : ∀ r ∈ m, r.length = n) : (m.headD []).length = n := by
  cases m with
  | nil => exact absurd rfl hm
  | cons a m => simpa using h a (by simp)

/-- The positions of the points kept. -/
def idx (n k : Nat) : List Nat := (List.range n).filter (fun i => i % k == 0)

theorem every_eq (k : Nat) (l : List K) : every k l = (idx l.length k).map (fun i => l.getD i 0) := by
  unfold every idx
  split_ifs with h
  · subst h
    have : (List.range l.length).filter (fun i => i % 1 == 0) = List.range l.length := by
      rw [List.filter_eq_self]
      intro i _
      simp [Nat.mod_one]
    rw [this]
    apply List.ext_getElem
    · simp
    · intro i h1 h2
      simp [h1]
  · rfl

theorem mem_idx {n k i : Nat} : i ∈ idx n k ↔ i < n ∧ k ∣ i := by
  unfold idx
  simp [List.mem_filter, Nat.dvd_iff_mod_eq_zero]

theorem idx_sorted (n k : Nat) : (idx n k).Pairwise (· < ·) := List.Pairwise.filter _ List.pairwise_lt_range

/-- The points of one method without a start point. -/
theorem plot_method {b : Bool} {n : Nat} {r : Results K} (h : Uniform b n r.toFolds) (k : Nat) (sh : K) :
    rect (matrix r) = true ∧ ∃ pts, plot (xs (colMeans (matrix r)).length k sh) (every k (colMeans (matrix r))) = .ok pts ∧
      Spec.ShiftedCurve (sh - (if b then 0 else 1)) r.toFolds (if b then 0 else 1) k pts := by
  have hlen := matrix_length h
  have hne := matrix_ne h
  have hN : (colMeans (matrix r)).length = n + b.toNat := by
    unfold colMeans
    rw [List.length_map, List.length_range, head_length hne hlen]
  refine ⟨rect_of hlen, ?_⟩
  have hcol : ∀ i < n + b.toNat, (colMeans (matrix r)).getD i 0 = mean ((matrix r).map (fun row => row.getD i 0)) := by
    intro i hi
    rw [List.getD_eq_getElem _ _ (by rw [hN]; exact hi)]
    unfold colMeans
    rw [List.getElem_map, List.getElem_range]
  refine ⟨(idx (n + b.toNat) k).map (fun i : Nat => ((i : K) + sh, (colMeans (matrix r)).getD i 0)), ?_, ?_, ?_⟩
  · unfold plot
    rw [every_eq, hN]
    unfold xs
    rw [if_pos (by simp [idx])]
    congr 1
    change (List.map (fun i : Nat => (i : K) + sh) (idx (n + b.toNat) k)).zip _ = _
    rw [List.zip_map']
  · rw [List.map_map, List.pairwise_map]
    refine (idx_sorted _ k).imp ?_
    intro a c hac
    have : (a : K) < c := by exact_mod_cast hac
    simp only [Function.comp]
    linarith
  · -- the values are the means
    have hval : ∀ i < n + b.toNat, ∀ v, v = (colMeans (matrix r)).getD i 0 ↔ Spec.MeanAfter r.toFolds (i + (if b then 0 else 1)) v := by
      intro i hi v
      have hrow : r.toFolds.map (fun f => Spec.after f (i + (if b then 0 else 1))) = ((matrix r).map (fun row => row.getD i 0)).map some := by
        rw [matrix_eq, List.map_map, List.map_map]
        apply List.map_congr_left
        intro f hf
        obtain ⟨h1, h2⟩ := h.2 f hf
        obtain ⟨ip, perf⟩ := f
        simp only [Function.comp]
        cases b with
        | true =>
          cases ip with
          | none => simp at h1
          | some p =>
            simp only [Bool.toNat_true] at hi
            cases i with
            | zero => simp [Spec.after]
            | succ i =>
              have hi' : i < perf.length := by simp at h2; omega
              simp [Spec.after, hi']
        | false =>
          cases ip with
          | some p => simp at h1
          | none =>
            simp only [Bool.toNat_false, Nat.add_zero] at hi
            have hi' : i < perf.length := by simp at h2; omega
            simp [Spec.after, hi']
      constructor
      · rintro rfl
        exact ⟨_, hrow, by rw [hcol i hi]; rfl⟩
      · rintro ⟨vs, h1, h2⟩
        rw [hrow] at h1
        have := List.map_injective_iff.2 (Option.some_injective K) h1
        rw [h2, ← this, hcol i hi]
        rfl
    have hbound : ∀ q v, Spec.MeanAfter r.toFolds q v → (if b then 0 else 1) ≤ q → q - (if b then 0 else 1) < n + b.toNat := by
      rintro q v ⟨vs, h1, _⟩ hq
      obtain ⟨f, hf⟩ := List.exists_mem_of_ne_nil _ h.1
      have hsome : (Spec.after f q).isSome = true := by
        have : Spec.after f q ∈ vs.map some := h1 ▸ List.mem_map_of_mem hf
        obtain ⟨w, _, hw⟩ := List.mem_map.1 this
        rw [← hw]; rfl
      obtain ⟨g1, g2⟩ := h.2 f hf
      cases b with
      | true =>
        simp only [if_true, Nat.sub_zero, Bool.toNat_true]
        cases q with
        | zero => omega
        | succ q =>
          rw [Spec.after, Option.isSome_iff_exists] at hsome
          obtain ⟨w, hw⟩ := hsome
          have hlt := (List.getElem?_eq_some_iff.1 hw).1
          omega
      | false =>
        simp only [Bool.false_eq_true, if_false, Bool.toNat_false, Nat.add_zero] at hq ⊢
        cases q with
        | zero => omega
        | succ q =>
          rw [Spec.after, Option.isSome_iff_exists] at hsome
          obtain ⟨w, hw⟩ := hsome
          have hlt := (List.getElem?_eq_some_iff.1 hw).1
          omega
    intro x v
    rw [List.mem_map]
    constructor
    · rintro ⟨i, hi, he⟩
      simp only [Prod.mk.injEq] at he
      obtain ⟨hi1, hi2⟩ := mem_idx.1 hi
      refine ⟨i + (if b then 0 else 1), by omega, by simpa using hi2, ?_, (hval i hi1 v).1 he.2.symm⟩
      rw [← he.1]
      cases b <;> simp
    · rintro ⟨q, hq, hk, hx, hv⟩
      have hb := hbound q v hv hq
      refine ⟨q - (if b then 0 else 1), mem_idx.2 ⟨hb, hk⟩, ?_⟩
      have := (hval (q - (if b then 0 else 1)) hb v).2 (by rw [Nat.sub_add_cancel hq]; exact hv)
      rw [Prod.mk.injEq]
      refine ⟨?_, this.symm⟩
      rw [hx]
      cases b with
      | true => simp
      | false =>
        simp only [Bool.false_eq_true, if_false] at hq ⊢
        push_cast [Nat.cast_sub hq]
        ring

/-! ### Adding methods -/

theorem put_new {β : Type} {l : List (String × β)} {k : String} {v : β} (h : k ∉ l.map Prod.fst) : put l k v = l ++ [(k, v)] := by
  unfold put
  rw [if_neg]
  simp only [List.any_eq_true, beq_iff_eq, not_exists, not_and]
  intro p hp e
  exact h (List.mem_map.2 ⟨p, hp, e⟩)

/-- Is the result given as StateIO objects? -/
def Results.isStates : Results K → Bool
  | .states _ => true
  | .lists _ => false

theorem take_min {n : Nat} {fs : List (Fold K)} (h : ∀ f ∈ fs, f.perf.length = n) : minLen (fs.map (fun f => f.perf.length)) = (if fs = [] then 0 else n) := by
  induction fs with
  | nil => rfl
  | cons a l ih =>
    cases l with
    | nil => simp [minLen, h a (by simp)]
    | cons c l =>
      have := ih (fun f hf => h f (by simp [hf]))
      simp only [List.map_cons, reduceCtorEq, if_false] at this ⊢
      rw [minLen, this, h a (by simp), Nat.min_self]
      simp

theorem addMethod_uniform {a : Analyser K} {name : String} {r : Results K} {b : Bool} {n : Nat} (h : Uniform b n r.toFolds) (hn : name ∉ a.data.map Prod.fst) :
    ∃ s : Summary K, addMethod a name r = .ok ⟨a.data ++ [(name, matrix r, s)], r.isStates⟩ ∧ s.ip.isSome = b := by
  cases r with
  | states fs =>
    have hne : fs ≠ [] := by
      have := h.1
      simpa [Results.toFolds] using this
    have hall : ∀ f ∈ fs, f.ip.isSome = b ∧ f.perf.length = n := by
      intro f hf
      exact h.2 (f.ip, f.perf) (List.mem_map.2 ⟨f, hf, rfl⟩)
    have hmin : minLen (fs.map (fun f => f.perf.length)) = n := by rw [take_min (fun f hf => (hall f hf).2), if_neg hne]
    have hrect : rect (fs.map (fun f => f.ip.toList ++ f.perf.take n)) = true := by
      apply rect_of (n := n + b.toNat)
      intro row hrow
      obtain ⟨f, hf, rfl⟩ := List.mem_map.1 hrow
      obtain ⟨h1, h2⟩ := hall f hf
      obtain ⟨ip, perf⟩ := f
      cases ip <;> simp at h1 h2 <;> subst h1 <;> simp [h2]
    obtain ⟨f, fs', rfl⟩ := List.exists_cons_of_ne_nil hne
    unfold addMethod
    simp only
    unfold stateSummary
    simp only [hmin, hrect, if_true]
    refine ⟨_, by rw [put_new hn]; rfl, ?_⟩
    simp only
    have hlast := List.getLast?_eq_some_getLast (l := f :: fs') (by simp)
    rw [hlast]
    simp only [Option.bind_some]
    exact (hall _ (List.getLast_mem _)).1
  | lists fs =>
    have hne : fs ≠ [] := by
      have := h.1
      simpa [Results.toFolds] using this
    have hall : ∀ l ∈ fs, b = false ∧ l.length = n := by
      intro l hl
      have := h.2 (none, l) (List.mem_map.2 ⟨l, hl, rfl⟩)
      exact ⟨by simpa using this.1.symm, this.2⟩
    have hb : b = false := (hall _ (List.getLast_mem hne)).1
    have hrect : rect fs = true := rect_of (fun l hl => (hall l hl).2)
    obtain ⟨f, fs', rfl⟩ := List.exists_cons_of_ne_nil hne
    unfold addMethod
    simp only
    unfold listSummary
    simp only [hrect, if_true]
    exact ⟨_, by rw [put_new hn]; rfl, by simp [hb]⟩

theorem addMethods_uniform {b : Bool} : ∀ (ms : List (String × Results K)) (a : Analyser K), (∀ m ∈ ms, ∃ n, Uniform b n m.2.toFolds) →
    (a.data.map Prod.fst ++ ms.map Prod.fst).Nodup →
    ∃ ss : List (Summary K), ss.length = ms.length ∧ (∀ s ∈ ss, s.ip.isSome = b) ∧
      addMethods a ms = .ok ⟨a.data ++ List.zipWith (fun m s => (m.1, matrix m.2, s)) ms ss, (ms.getLast?.map (fun m => m.2.isStates)).getD a.allState⟩
  | [], a, _, _ => ⟨[], rfl, by simp, by simp [addMethods]⟩
  | (name, r) :: ms, a, h, hnd => by
    obtain ⟨n, hu⟩ := h (name, r) (by simp)
    obtain ⟨s, h1, h2⟩ := addMethod_uniform (a := a) (name := name) hu (by
      intro hm
      rw [List.nodup_append] at hnd
      exact hnd.2.2 _ hm name (by simp) rfl)
    obtain ⟨ss, g1, g2, g3⟩ := addMethods_uniform ms ⟨a.data ++ [(name, matrix r, s)], r.isStates⟩ (fun m hm => h m (by simp [hm])) (by simpa using hnd)
    refine ⟨s :: ss, by simp [g1], ?_, ?_⟩
    · intro t ht
      rcases List.mem_cons.1 ht with rfl | ht
      · exact h2
      · exact g2 t ht
    · unfold addMethods
      rw [h1]
      simp only
      rw [g3]
      cases ms with
      | nil => cases ss with
        | nil => simp
        | cons t ss => simp at g1
      | cons m ms =>
        rw [List.getLast?_eq_some_getLast (l := m :: ms) (by simp)]
        simp [List.getLast?_eq_some_getLast (l := m :: ms)]

theorem curves_ok {allState : Bool} {k : Nat} {d : K} {b : Bool} : ∀ (ms : List (String × Results K)) (ss : List (Summary K)), ss.length = ms.length →
    (∀ m ∈ ms, ∃ n, Uniform b n m.2.toFolds) → ∀ shift : Option K, (∀ s ∈ ss, shiftOf allState shift s = d) →
    ∃ cs, curves allState none k shift (List.zipWith (fun m s => (m.1, matrix m.2, s)) ms ss) = .ok cs ∧
      List.Forall₂ (fun (m : String × Results K) c => c.1 = m.1 ∧ Spec.ShiftedCurve (d - (if b then 0 else 1)) m.2.toFolds (if b then 0 else 1) k c.2) ms cs
  | [], [], _, _, _, _ => ⟨[], by simp [curves], .nil⟩
  | [], _ :: _, h, _, _, _ => by simp at h
  | _ :: _, [], h, _, _, _ => by simp at h
  | (name, r) :: ms, s :: ss, hl, h, shift, hd => by
    obtain ⟨n, hu⟩ := h (name, r) (by simp)
    have hsh := hd s (by simp)
    obtain ⟨h1, pts, h2, h3⟩ := plot_method hu k d
    obtain ⟨cs, g1, g2⟩ := curves_ok (allState := allState) (k := k) (d := d) ms ss (by simpa using hl) (fun m hm => h m (by simp [hm])) (some d) (fun _ _ => rfl)
    refine ⟨(name, pts) :: cs, ?_, .cons ⟨rfl, h3⟩ g2⟩
    simp only [List.zipWith_cons_cons, curves]
    rw [h1]
    simp only [if_true]
    rw [hsh]
    simp only [h2, g1]

/-- **C73** (partial: see the violations below): if the folds of every method have the same number of queries, and either all folds of all methods have an initial
point or none has, then `plot_learning_curves()` draws for every method the points (number of queries, mean performance after that many queries), one for every
`plot_interval` queries, from 0 queries on if there are initial points and from 1 on otherwise. -/
theorem C73_curve_partial {b : Bool} {k : Nat} (_hk : 0 < k) {ms : List (String × Results K)} (hms : ms ≠ []) (hnames : (ms.map Prod.fst).Nodup)
    (hu : ∀ m ∈ ms, ∃ n, Uniform b n m.2.toFolds) :
    ∃ a, addMethods ⟨[], true⟩ ms = .ok a ∧ ∃ cs, plotCurves a none none k = .ok cs ∧
      List.Forall₂ (fun (m : String × Results K) c => c.1 = m.1 ∧ Spec.LearningCurve m.2.toFolds (if b then 0 else 1) k c.2) ms cs := by
  obtain ⟨ss, h1, h2, h3⟩ := addMethods_uniform ms ⟨[], true⟩ hu (by simpa using hnames)
  refine ⟨_, h3, ?_⟩
  obtain ⟨m, ms', rfl⟩ := List.exists_cons_of_ne_nil hms
  have hall : b = true → ((m :: ms').getLast?.map (fun m => m.2.isStates)).getD true = true := by
    rintro rfl
    rw [List.getLast?_eq_some_getLast (by simp)]
    simp only [Option.map_some, Option.getD_some]
    obtain ⟨n, hn⟩ := hu _ (List.getLast_mem (l := m :: ms') (by simp))
    revert hn
    generalize ((m :: ms').getLast (by simp)).2 = r
    intro hn
    cases r with
    | states _ => rfl
    | lists fs =>
      obtain ⟨f, hf⟩ := List.exists_mem_of_ne_nil _ hn.1
      have := (hn.2 f hf).1
      obtain ⟨l, _, rfl⟩ := List.mem_map.1 hf
      simp at this
  obtain ⟨cs, g1, g2⟩ := curves_ok (allState := ((m :: ms').getLast?.map (fun m => m.2.isStates)).getD true) (k := k) (d := if b then 0 else 1) (b := b) _ ss h1 hu none (by
    intro s hs0
    have hip := h2 s hs0
    cases b with
    | true =>
      rw [hall rfl]
      cases hs : s.ip with
      | none => rw [hs] at hip; simp at hip
      | some p => simp [shiftOf, hs]
    | false =>
      cases hs : s.ip with
      | none => simp [shiftOf, hs]
      | some p => rw [hs] at hip; simp at hip)
  refine ⟨cs, ?_, ?_⟩
  · unfold plotCurves
    rw [List.nil_append, if_neg (by
      cases ss with
      | nil => simp at h1
      | cons s ss => simp)]
    exact g1
  · refine g2.imp ?_
    intro m c hc
    rw [sub_self] at hc
    exact hc

/-! ### One method at a time -/

theorem curves_cons {allState : Bool} {k : Nat} {b : Bool} {n : Nat} {r : Results K} (h : Uniform b n r.toFolds) (name : String) (s : Summary K) (shift : Option K) (d : K)
    (hd : shiftOf allState shift s = d) (rest : List (String × List (List K) × Summary K))
    {cs : List (String × List (K × K))} (hr : curves allState none k (some d) rest = .ok cs) :
    ∃ pts, curves allState none k shift ((name, matrix r, s) :: rest) = .ok ((name, pts) :: cs) ∧
      Spec.ShiftedCurve (d - (if b then 0 else 1)) r.toFolds (if b then 0 else 1) k pts := by
  obtain ⟨h1, pts, h2, h3⟩ := plot_method h k d
  refine ⟨pts, ?_, h3⟩
  simp only [curves]
  rw [h1]
  simp only [if_true]
  rw [hd]
  simp only [h2, hr]

theorem meanAfter_first {b : Bool} {n : Nat} {folds : List (Option K × List K)} (h : Uniform b n folds) (hn : b = true ∨ 0 < n) :
    ∃ v, Spec.MeanAfter folds (if b then 0 else 1) v := by
  refine ⟨_, folds.map (fun f => (Spec.after f (if b then 0 else 1)).getD 0), ?_, rfl⟩
  rw [List.map_map]
  apply List.map_congr_left
  intro f hf
  obtain ⟨h1, h2⟩ := h.2 f hf
  simp only [Function.comp]
  cases b with
  | true =>
    obtain ⟨ip, perf⟩ := f
    cases ip with
    | none => simp at h1
    | some p => simp [Spec.after]
  | false =>
    have : 0 < f.2.length := by
      rcases hn with hn | hn
      · exact absurd hn (by simp)
      · omega
    simp [Spec.after, this]

/-- A curve shifted to the left is not the learning curve. -/
theorem not_learning_left {folds : List (Option K × List K)} {q0 k : Nat} {pts : List (K × K)} (h : Spec.ShiftedCurve (-1) folds q0 k pts)
    (hv : ∃ v, Spec.MeanAfter folds q0 v) : ¬ Spec.LearningCurve folds q0 k pts := by
  rintro ⟨_, h'⟩
  obtain ⟨v, hv⟩ := hv
  obtain ⟨q, hq, _, hx, _⟩ := (h' _ _).1 ((h.2 ((q0 : K) + -1) v).2 ⟨q0, le_refl _, by simp, rfl, hv⟩)
  have : (q0 : K) ≤ q := by exact_mod_cast hq
  linarith

/-- A curve shifted to the right is not the learning curve. -/
theorem not_learning_right {folds : List (Option K × List K)} {q0 k : Nat} {pts : List (K × K)} (h : Spec.ShiftedCurve 1 folds q0 k pts)
    (hv : ∃ v, Spec.MeanAfter folds q0 v) : ¬ Spec.LearningCurve folds q0 k pts := by
  rintro ⟨_, h'⟩
  obtain ⟨v, hv⟩ := hv
  obtain ⟨q, hq, _, hx, _⟩ := (h.2 _ _).1 ((h' ((q0 : K) + 0) v).2 ⟨q0, le_refl _, by simp, rfl, hv⟩)
  have : (q0 : K) ≤ q := by exact_mod_cast hq
  linarith

theorem states_uniform_ip {n : Nat} {r : Results K} (h : Uniform true n r.toFolds) : r.isStates = true := by
  cases r with
  | states _ => rfl
  | lists fs =>
    obtain ⟨f, hf⟩ := List.exists_mem_of_ne_nil _ h.1
    have := (h.2 f hf).1
    obtain ⟨l, _, rfl⟩ := List.mem_map.1 hf
    simp at this

/-- The analyser after two methods. -/
theorem two_methods {b1 b2 : Bool} {n1 n2 : Nat} {r1 r2 : Results K} (h1 : Uniform b1 n1 r1.toFolds) (h2 : Uniform b2 n2 r2.toFolds) {x y : String} (hxy : x ≠ y) :
    ∃ s1 s2 : Summary K, s1.ip.isSome = b1 ∧ s2.ip.isSome = b2 ∧
      addMethods ⟨[], true⟩ [(x, r1), (y, r2)] = .ok ⟨[(x, matrix r1, s1), (y, matrix r2, s2)], r2.isStates⟩ := by
  obtain ⟨s1, e1, g1⟩ := addMethod_uniform (a := ⟨[], true⟩) (name := x) h1 (by simp)
  obtain ⟨s2, e2, g2⟩ := addMethod_uniform (a := ⟨[(x, matrix r1, s1)], r1.isStates⟩) (name := y) h2 (by simp; exact fun e => hxy e.symm)
  refine ⟨s1, s2, g1, g2, ?_⟩
  simp only [addMethods]
  rw [e1]
  simp only [List.nil_append]
  rw [e2]
  rfl

/-- **C73** fails (a): the shift found for the first method is used for all others. Results with an initial point followed by StateIO objects without one: the
second curve is drawn one query too far to the left. -/
theorem C73_kept_shift_violation {k : Nat} {n1 n2 : Nat} {fs gs : List (Fold K)} (h1 : Uniform true n1 (Results.states fs).toFolds)
    (h2 : Uniform false n2 (Results.states gs).toFolds) (hn : 0 < n2) {x y : String} (hxy : x ≠ y) :
    ∃ a, addMethods ⟨[], true⟩ [(x, .states fs), (y, .states gs)] = .ok a ∧ ∃ c1 c2, plotCurves a none none k = .ok [(x, c1), (y, c2)] ∧
      Spec.LearningCurve (Results.states fs).toFolds 0 k c1 ∧ Spec.ShiftedCurve (-1) (Results.states gs).toFolds 1 k c2 ∧
      ¬ Spec.LearningCurve (Results.states gs).toFolds 1 k c2 := by
  obtain ⟨s1, s2, g1, g2, e⟩ := two_methods h1 h2 hxy
  refine ⟨_, e, ?_⟩
  obtain ⟨c2, f2, k2⟩ := curves_cons (allState := (Results.states gs).isStates) (k := k) h2 y s2 (some 0) 0 rfl [] (cs := []) rfl
  obtain ⟨c1, f1, k1⟩ := curves_cons (allState := (Results.states gs).isStates) (k := k) h1 x s1 none 0 (by
    cases hs : s1.ip with
    | none => rw [hs] at g1; simp at g1
    | some p => simp [shiftOf, hs, Results.isStates]) _ f2
  simp only [Bool.false_eq_true, if_false, if_true, sub_zero, zero_sub] at k1 k2
  exact ⟨c1, c2, f1, k1, k2, not_learning_left k2 (meanAfter_first h2 (Or.inr hn))⟩

/-- **C73** fails (b): the other order. The curve of the results with an initial point is drawn one query too far to the right. -/
theorem C73_kept_shift_right_violation {k : Nat} {n1 n2 : Nat} {r : Results K} {fs : List (Fold K)} (h1 : Uniform false n1 r.toFolds)
    (h2 : Uniform true n2 (Results.states fs).toFolds) {x y : String} (hxy : x ≠ y) :
    ∃ a, addMethods ⟨[], true⟩ [(x, r), (y, .states fs)] = .ok a ∧ ∃ c1 c2, plotCurves a none none k = .ok [(x, c1), (y, c2)] ∧
      Spec.LearningCurve r.toFolds 1 k c1 ∧ Spec.ShiftedCurve 1 (Results.states fs).toFolds 0 k c2 ∧ ¬ Spec.LearningCurve (Results.states fs).toFolds 0 k c2 := by
  obtain ⟨s1, s2, g1, g2, e⟩ := two_methods h1 h2 hxy
  refine ⟨_, e, ?_⟩
  obtain ⟨c2, f2, k2⟩ := curves_cons (allState := (Results.states fs).isStates) (k := k) h2 y s2 (some 1) 1 rfl [] (cs := []) rfl
  obtain ⟨c1, f1, k1⟩ := curves_cons (allState := (Results.states fs).isStates) (k := k) h1 x s1 none 1 (by
    cases hs : s1.ip with
    | none => simp [shiftOf, hs]
    | some p => rw [hs] at g1; simp at g1) _ f2
  simp only [Bool.false_eq_true, if_false, if_true, sub_zero, sub_self] at k1 k2
  exact ⟨c1, c2, f1, k1, k2, not_learning_right k2 (meanAfter_first h2 (Or.inl rfl))⟩

/-- **C73** fails (c): whether the first curve starts at 0 depends on the type of the results added last. With a list of performances added after results with an
initial point, the first curve is drawn one query too far to the right. -/
theorem C73_list_last_violation {k : Nat} {n1 n2 : Nat} {fs : List (Fold K)} {ls : List (List K)} (h1 : Uniform true n1 (Results.states fs).toFolds)
    (h2 : Uniform false n2 (Results.lists ls).toFolds) {x y : String} (hxy : x ≠ y) :
    ∃ a, addMethods ⟨[], true⟩ [(x, .states fs), (y, .lists ls)] = .ok a ∧ ∃ c1 c2, plotCurves a none none k = .ok [(x, c1), (y, c2)] ∧
      Spec.ShiftedCurve 1 (Results.states fs).toFolds 0 k c1 ∧ ¬ Spec.LearningCurve (Results.states fs).toFolds 0 k c1 ∧
      Spec.LearningCurve (Results.lists ls).toFolds 1 k c2 := by
  obtain ⟨s1, s2, g1, g2, e⟩ := two_methods h1 h2 hxy
  refine ⟨_, e, ?_⟩
  obtain ⟨c2, f2, k2⟩ := curves_cons (allState := (Results.lists ls).isStates) (k := k) h2 y s2 (some 1) 1 rfl [] (cs := []) rfl
  obtain ⟨c1, f1, k1⟩ := curves_cons (allState := (Results.lists ls).isStates) (k := k) h1 x s1 none 1 (by simp [shiftOf, Results.isStates]) _ f2
  simp only [Bool.false_eq_true, if_false, if_true, sub_zero, sub_self] at k1 k2
  exact ⟨c1, c2, f1, k1, not_learning_right k1 (meanAfter_first h1 (Or.inl rfl)), k2⟩

/-! ### A given start point -/

theorem xs_succ_one (n : Nat) : xs (K := K) (n + 1) 1 0 = 0 :: xs n 1 1 := by
  unfold xs
  have h : ∀ m : Nat, (List.range m).filter (fun i => i % 1 == 0) = List.range m := by
    intro m
    rw [List.filter_eq_self]
    intro i _
    simp [Nat.mod_one]
  rw [h, h, List.range_succ_eq_map]
  simp [Function.comp_def]

/-- **C73** (partial): with a start point `p`, interval 1 and no initial points, every method is drawn as (0, p) followed by its learning curve. -/
theorem C73_start_partial {p : K} {name : String} {n : Nat} {r : Results K} (h : Uniform false n r.toFolds) :
    ∃ a, addMethods ⟨[], true⟩ [(name, r)] = .ok a ∧ ∃ pts, plotCurves a none (some p) 1 = .ok [(name, (0, p) :: pts)] ∧
      Spec.LearningCurve r.toFolds 1 1 pts := by
  obtain ⟨s, e, _⟩ := addMethod_uniform (a := ⟨[], true⟩) (name := name) h (by simp)
  refine ⟨_, by simp only [addMethods]; rw [e], ?_⟩
  obtain ⟨h1, pts, h2, h3⟩ := plot_method h 1 1
  refine ⟨pts, ?_, by simpa [Spec.LearningCurve] using h3⟩
  unfold plotCurves
  simp only [List.nil_append, List.isEmpty_cons, Bool.false_eq_true, if_false, curves, h1, if_true]
  have : plot (xs ((colMeans (matrix r)).length + 1) 1 0) (p :: every 1 (colMeans (matrix r))) = .ok ((0, p) :: pts) := by
    rw [xs_succ_one]
    unfold plot at h2 ⊢
    split_ifs at h2 with hl
    rw [if_pos (by simpa using hl)]
    simp only [Except.ok.injEq] at h2
    rw [List.zip_cons_cons, h2]
  rw [this]

/-- **C73** fails (d): the start point is drawn at 0 even if there are initial points, which are then drawn at 1 and everything else one query too far to the right. -/
theorem C73_start_initial_violation {p : K} {name : String} {n : Nat} {r : Results K} (h : Uniform true n r.toFolds) :
    ∃ a, addMethods ⟨[], true⟩ [(name, r)] = .ok a ∧ ∃ pts, plotCurves a none (some p) 1 = .ok [(name, (0, p) :: pts)] ∧
      Spec.ShiftedCurve 1 r.toFolds 0 1 pts ∧ ¬ Spec.LearningCurve r.toFolds 0 1 pts := by
  obtain ⟨s, e, _⟩ := addMethod_uniform (a := ⟨[], true⟩) (name := name) h (by simp)
  refine ⟨_, by simp only [addMethods]; rw [e], ?_⟩
  obtain ⟨h1, pts, h2, h3⟩ := plot_method h 1 1
  simp only [if_true, sub_zero] at h3
  refine ⟨pts, ?_, h3, not_learning_right h3 (meanAfter_first h (Or.inl rfl))⟩
  unfold plotCurves
  simp only [List.nil_append, List.isEmpty_cons, Bool.false_eq_true, if_false, curves, h1, if_true]
  have : plot (xs ((colMeans (matrix r)).length + 1) 1 0) (p :: every 1 (colMeans (matrix r))) = .ok ((0, p) :: pts) := by
    rw [xs_succ_one]
    unfold plot at h2 ⊢
    split_ifs at h2 with hl
    rw [if_pos (by simpa using hl)]
    simp only [Except.ok.injEq] at h2
    rw [List.zip_cons_cons, h2]
  rw [this]

theorem idx_length_succ (n k : Nat) : (idx (n + 1) k).length = (idx n k).length + (if k ∣ n then 1 else 0) := by
  unfold idx
  rw [List.range_succ, List.filter_append, List.length_append]
  congr 1
  by_cases h : k ∣ n
  · simp [h, Nat.dvd_iff_mod_eq_zero.1 h]
  · rw [if_neg h, Nat.dvd_iff_mod_eq_zero] at *
    simp [h]

/-- **C73** fails (e): with a start point and an interval `k`, plotting fails unless `k` divides the number of queries (here of a method without initial points). -/
theorem C73_start_interval_violation {p : K} {k : Nat} {name : String} {n : Nat} {r : Results K} (h : Uniform false n r.toFolds) (hk : ¬ k ∣ n) :
    ∃ a, addMethods ⟨[], true⟩ [(name, r)] = .ok a ∧ plotCurves a none (some p) k = .error .valueError := by
  obtain ⟨s, e, _⟩ := addMethod_uniform (a := ⟨[], true⟩) (name := name) h (by simp)
  refine ⟨_, by simp only [addMethods]; rw [e], ?_⟩
  have hN : (colMeans (matrix r)).length = n := by
    unfold colMeans
    rw [List.length_map, List.length_range, head_length (matrix_ne h) (matrix_length h)]
    rfl
  unfold plotCurves
  simp only [List.nil_append, List.isEmpty_cons, Bool.false_eq_true, if_false, curves, rect_of (matrix_length h), if_true]
  have : plot (xs ((colMeans (matrix r)).length + 1) k 0) (p :: every k (colMeans (matrix r))) = .error .valueError := by
    unfold plot
    rw [if_neg]
    rw [every_eq, hN]
    unfold xs
    rw [List.length_map, List.length_cons, List.length_map]
    have := idx_length_succ n k
    rw [if_neg hk] at this
    change (idx (n + 1) k).length ≠ _
    omega
  rw [this]

theorem idx_cons {n k : Nat} (hn : 0 < n) : ∃ t, idx n k = 0 :: t := by
  obtain ⟨m, rfl⟩ := Nat.exists_eq_succ_of_ne_zero (by omega : n ≠ 0)
  unfold idx
  rw [Nat.succ_eq_add_one, List.range_succ_eq_map, List.filter_cons]
  simp

/-- **C73** fails (f): and if `k > 1` divides it, then the mean performance after the first query is drawn at `k`. -/
theorem C73_start_interval_wrong_violation {p : K} {k : Nat} (hk : 1 < k) {name : String} {n : Nat} {r : Results K} (h : Uniform false n r.toFolds) (hd : k ∣ n) (hn : 0 < n) :
    ∃ a, addMethods ⟨[], true⟩ [(name, r)] = .ok a ∧ ∃ v pts, plotCurves a none (some p) k = .ok [(name, (0, p) :: ((k : K), v) :: pts)] ∧
      Spec.MeanAfter r.toFolds 1 v := by
  obtain ⟨s, e, _⟩ := addMethod_uniform (a := ⟨[], true⟩) (name := name) h (by simp)
  refine ⟨_, by simp only [addMethods]; rw [e], ?_⟩
  have hN : (colMeans (matrix r)).length = n := by
    unfold colMeans
    rw [List.length_map, List.length_range, head_length (matrix_ne h) (matrix_length h)]
    rfl
  -- the first mean
  obtain ⟨_, pts, h2, h3⟩ := plot_method h k 1
  have hlen : (idx (n + 1) k).length = (idx n k).length + 1 := by rw [idx_length_succ, if_pos hd]
  obtain ⟨t, ht⟩ := idx_cons (k := k) hn
  obtain ⟨u, hu⟩ := idx_cons (k := k) (n := n + 1) (by omega)
  have hku : ∃ u', u = k :: u' := by
    have hkm : k ∈ idx (n + 1) k := mem_idx.2 ⟨Nat.lt_succ_of_le (Nat.le_of_dvd hn hd), dvd_refl _⟩
    have hs := idx_sorted (n + 1) k
    rw [hu] at hkm hs
    rcases List.mem_cons.1 hkm with h0 | hkm
    · omega
    · cases u with
      | nil => simp at hkm
      | cons c u' =>
        refine ⟨u', ?_⟩
        have hc : c ∈ idx (n + 1) k := by rw [hu]; simp
        have hpos : 0 < c := by
          have := (List.pairwise_cons.1 hs).1 c (by simp)
          exact this
        have hle := Nat.le_of_dvd hpos (mem_idx.1 hc).2
        rcases List.mem_cons.1 hkm with rfl | hkm
        · rfl
        · have := (List.pairwise_cons.1 (List.pairwise_cons.1 hs).2).1 k hkm
          omega
  obtain ⟨u', rfl⟩ := hku
  refine ⟨(colMeans (matrix r)).getD 0 0, (u'.map (fun i : Nat => (i : K) + 0)).zip (t.map (fun i => (colMeans (matrix r)).getD i 0)), ?_, ?_⟩
  · unfold plotCurves
    simp only [List.nil_append, List.isEmpty_cons, Bool.false_eq_true, if_false, curves, rect_of (matrix_length h), if_true]
    have : plot (xs ((colMeans (matrix r)).length + 1) k 0) (p :: every k (colMeans (matrix r))) = .ok ((0, p) :: ((k : K), (colMeans (matrix r)).getD 0 0) ::
        (u'.map (fun i : Nat => (i : K) + 0)).zip (t.map (fun i => (colMeans (matrix r)).getD i 0))) := by
      have hx : xs (K := K) (n + 1) k 0 = (idx (n + 1) k).map (fun i : Nat => (i : K) + 0) := rfl
      unfold plot
      rw [every_eq, hN, hx, if_pos (by simp [hlen]), hu, ht]
      simp
    rw [this]
  · unfold plot at h2
    split_ifs at h2 with hl
    simp only [Except.ok.injEq] at h2
    have hx : xs (K := K) n k 1 = (idx n k).map (fun i : Nat => (i : K) + 1) := rfl
    have : ((1 : K), (colMeans (matrix r)).getD 0 0) ∈ pts := by
      rw [← h2, every_eq, hN, hx, ht]
      simp
    obtain ⟨q, hq, _, hx, hv⟩ := (h3.2 _ _).1 this
    simp only [Bool.false_eq_true, if_false, sub_self, add_zero] at hx hv
    have hq1 : q = 1 := by exact_mod_cast hx.symm
    rw [hq1] at hv
    exact hv

/-! ### Folds of different lengths -/

/-- **C73** fails (g): folds with different numbers of queries are accepted, and summarised over the queries which all of them have, but they cannot be drawn. -/
theorem C73_ragged_violation {k : Nat} {name : String} {b : Bool} {fs : List (Fold K)} {f g : Fold K} (hip : ∀ f ∈ fs, f.ip.isSome = b) (hf : f ∈ fs) (hg : g ∈ fs)
    (hne : f.perf.length ≠ g.perf.length) :
    ∃ a, addMethods ⟨[], true⟩ [(name, .states fs)] = .ok a ∧ plotCurves a none none k = .error .valueError := by
  have hrow : ∀ n, (∀ f ∈ fs, n ≤ f.perf.length) → rect (fs.map (fun f => f.ip.toList ++ f.perf.take n)) = true := by
    intro n hn
    apply rect_of (n := n + b.toNat)
    intro row hr
    obtain ⟨c, hc, rfl⟩ := List.mem_map.1 hr
    have h1 := hip c hc
    have h2 := hn c hc
    obtain ⟨ip, perf⟩ := c
    cases ip <;> simp at h1 h2 <;> subst h1 <;> simp [h2]
  have hmin : ∀ l : List Nat, ∀ x ∈ l, minLen l ≤ x := by
    intro l
    induction l with
    | nil => simp
    | cons a l ih =>
      intro x hx
      cases l with
      | nil => simp at hx; simp [minLen, hx]
      | cons c l =>
        rw [minLen]
        · rcases List.mem_cons.1 hx with rfl | hx
          · exact Nat.min_le_left _ _
          · exact (Nat.min_le_right _ _).trans (ih x hx)
        · simp
  have hnot : rect (extract fs) = false := by
    rw [Bool.eq_false_iff]
    intro hr
    unfold rect at hr
    rw [List.all_eq_true] at hr
    have hl : ∀ c ∈ fs, (c.ip.toList ++ c.perf).length = c.perf.length + b.toNat := by
      intro c hc
      have h1 := hip c hc
      obtain ⟨ip, perf⟩ := c
      cases ip <;> simp at h1 <;> subst h1 <;> simp
    have e1 := hr _ (List.mem_map.2 ⟨f, hf, rfl⟩)
    have e2 := hr _ (List.mem_map.2 ⟨g, hg, rfl⟩)
    rw [beq_iff_eq, hl _ hf] at e1
    rw [beq_iff_eq, hl _ hg] at e2
    omega
  have hs := hrow (minLen (fs.map (fun f => f.perf.length))) (fun c hc => hmin _ _ (List.mem_map.2 ⟨c, hc, rfl⟩))
  obtain ⟨c, cs, rfl⟩ := List.exists_cons_of_ne_nil (List.ne_nil_of_mem hf)
  refine ⟨_, by
    simp only [addMethods, addMethod, stateSummary]
    rw [hs]
    simp only [if_true]
    rw [put_new (by simp)], ?_⟩
  unfold plotCurves
  simp only [List.nil_append, List.isEmpty_cons, Bool.false_eq_true, if_false, curves, hnot]

/-! Concrete cases -/

example : ∃ a, addMethods (K := ℚ) ⟨[], true⟩ [("a", .states [⟨some 0, [1, 2]⟩, ⟨some 1, [2, 2]⟩])] = .ok a ∧
    plotCurves a none none 1 = .ok [("a", [(0, 1/2), (1, 3/2), (2, 2)])] := by
  refine ⟨_, rfl, ?_⟩
  decide +kernel

example : Uniform (K := ℚ) true 2 (Results.states [⟨some 0, [1, 2]⟩, ⟨some 1, [2, 2]⟩]).toFolds ∧ Uniform (K := ℚ) false 2 (Results.lists [[1, 2], [3, 4]]).toFolds := by
  constructor <;> refine ⟨by simp [Results.toFolds], by simp [Results.toFolds]⟩

/-! ## C74 -/

theorem mean_eq (l : List K) : mean l = Spec.average l := rfl

theorem var_eq (l : List K) : var l = Spec.variance l := by
  unfold var Spec.variance
  rw [mean_eq]
  simp only [mean_eq, pow_two]

theorem sum_flatten_rows {n : Nat} (hn : 0 < n) : ∀ {ls : List (List K)}, (∀ l ∈ ls, l.length = n) → ls.flatten.sum = (n : K) * (ls.map Spec.average).sum
  | [], _ => by simp
  | l :: ls, h => by
    have ih := sum_flatten_rows hn (ls := ls) (fun l hl => h l (by simp [hl]))
    have hn' : (n : K) ≠ 0 := by exact_mod_cast hn.ne'
    rw [List.flatten_cons, List.sum_append, ih, List.map_cons, List.sum_cons, mul_add]
    congr 1
    unfold Spec.average
    rw [h l (by simp)]
    field_simp

theorem length_flatten_rows {n : Nat} : ∀ {ls : List (List K)}, (∀ l ∈ ls, l.length = n) → ls.flatten.length = n * ls.length
  | [], _ => by simp
  | l :: ls, h => by
    rw [List.flatten_cons, List.length_append, length_flatten_rows (ls := ls) (fun l hl => h l (by simp [hl])), h l (by simp), List.length_cons]
    ring

/-- The mean of all entries is the mean of the means of the rows. -/
theorem average_flatten {n : Nat} (hn : 0 < n) {ls : List (List K)} (h : ∀ l ∈ ls, l.length = n) : Spec.average ls.flatten = Spec.average (ls.map Spec.average) := by
  have hn' : (n : K) ≠ 0 := by exact_mod_cast hn.ne'
  unfold Spec.average
  rw [length_flatten_rows h, sum_flatten_rows hn h, List.length_map]
  push_cast
  exact mul_div_mul_left _ _ hn'

theorem sum_sq (c m : K) : ∀ l : List K, (l.map (fun x => (x - c) ^ 2)).sum = (l.map (fun x => (x - m) ^ 2)).sum + 2 * (m - c) * (l.sum - l.length * m) + l.length * (m - c) ^ 2
  | [] => by simp
  | a :: l => by
    rw [List.map_cons, List.sum_cons, sum_sq c m l, List.map_cons, List.sum_cons, List.sum_cons, List.length_cons]
    push_cast
    ring

theorem row_sq {l : List K} (hl : 0 < l.length) (c : K) : (l.map (fun x => (x - c) ^ 2)).sum = l.length * (Spec.variance l + (Spec.average l - c) ^ 2) := by
  have hn : (l.length : K) ≠ 0 := by exact_mod_cast hl.ne'
  rw [sum_sq c (Spec.average l) l]
  have h1 : l.sum - l.length * Spec.average l = 0 := by
    unfold Spec.average
    field_simp
    simp
  have h2 : (l.map (fun x => (x - Spec.average l) ^ 2)).sum = l.length * Spec.variance l := by
    unfold Spec.variance
    rw [Spec.average.eq_def (List.map _ l), List.length_map]
    field_simp
  rw [h1, h2]
  ring

theorem flatten_sq {n : Nat} (hn : 0 < n) (c : K) : ∀ {ls : List (List K)}, (∀ l ∈ ls, l.length = n) →
    (ls.flatten.map (fun x => (x - c) ^ 2)).sum = n * ((ls.map Spec.variance).sum + ((ls.map Spec.average).map (fun x => (x - c) ^ 2)).sum)
  | [], _ => by simp
  | l :: ls, h => by
    have hl := h l (by simp)
    rw [List.flatten_cons, List.map_append, List.sum_append, row_sq (by omega), flatten_sq hn c (ls := ls) (fun l hl => h l (by simp [hl])), hl]
    simp only [List.map_cons, List.sum_cons]
    ring

/-- The variance of all entries is the variance of the means of the rows and the mean of their variances. -/
theorem variance_flatten {n : Nat} (hn : 0 < n) {ls : List (List K)} (h : ∀ l ∈ ls, l.length = n) :
    Spec.variance ls.flatten = Spec.variance (ls.map Spec.average) + Spec.average (ls.map Spec.variance) := by
  have hn' : (n : K) ≠ 0 := by exact_mod_cast hn.ne'
  have h1 := flatten_sq hn (Spec.average ls.flatten) h
  rw [Spec.variance.eq_def ls.flatten, Spec.average.eq_def (List.map _ ls.flatten), h1, List.length_map, length_flatten_rows h, average_flatten hn h]
  unfold Spec.variance
  rw [Spec.average.eq_def (List.map _ (List.map Spec.average ls)), Spec.average.eq_def (List.map (fun l => _) ls)]
  simp only [List.length_map]
  push_cast
  rw [mul_div_mul_left _ _ hn', add_div, add_comm]
  congr 1
  unfold Spec.average
  rw [List.length_map]

theorem minLen_const {n : Nat} : ∀ {l : List Nat}, l ≠ [] → (∀ x ∈ l, x = n) → minLen l = n
  | [], h, _ => absurd rfl h
  | [a], _, h => by simpa [minLen] using h a (by simp)
  | a :: b :: l, _, h => by
    rw [minLen, minLen_const (by simp) (fun x hx => h x (by simp at hx ⊢; tauto)), h a (by simp), Nat.min_self]
    simp

/-- What the two kinds of summaries contain. -/
theorem summaries {n : Nat} {ls : List (List K)} (hne : ls ≠ []) (hl : ∀ l ∈ ls, l.length = n) :
    stateSummary (ls.map (fun l => ⟨none, l⟩)) = .ok ⟨n, ls.length, none, Spec.average (ls.map Spec.average), Spec.variance (ls.map Spec.average)⟩ ∧
    listSummary ls = .ok ⟨n, ls.length, none, Spec.average ls.flatten, Spec.variance ls.flatten⟩ := by
  have hrect := rect_of hl
  have hmin : minLen (ls.map List.length) = n := by
    apply minLen_const (by simpa using hne)
    intro x hx
    obtain ⟨l, hl', rfl⟩ := List.mem_map.1 hx
    exact hl l hl'
  constructor
  · unfold stateSummary
    rw [List.map_map]
    have e1 : ((fun f : Fold K => f.perf.length) ∘ fun l => ⟨none, l⟩) = List.length := rfl
    rw [e1, hmin]
    have e2 : List.map (fun f : Fold K => f.ip.toList ++ f.perf.take n) (ls.map (fun l => ⟨none, l⟩)) = ls := by
      rw [List.map_map]
      conv_rhs => rw [← List.map_id ls]
      apply List.map_congr_left
      intro l hl'
      simp [← hl l hl']
    simp only [e2, hrect, if_true, List.length_map, var_eq]
    congr 2
    rw [List.getLast?_map]
    cases ls.getLast? <;> rfl
  · unfold listSummary
    rw [if_pos hrect, hmin, var_eq]
    rfl

/-- **C74** (partial): for folds with equally many queries and no initial points, adding the StateIO objects gives the same mean, number of queries and number of folds as
adding the lists of their performances, the mean being that of all performances. -/
theorem C74_mean_partial {n : Nat} (hn : 0 < n) {ls : List (List K)} (hne : ls ≠ []) (hl : ∀ l ∈ ls, l.length = n) :
    ∃ s t, stateSummary (ls.map (fun l => ⟨none, l⟩)) = .ok s ∧ listSummary ls = .ok t ∧
      s.mean = Spec.average ls.flatten ∧ t.mean = Spec.average ls.flatten ∧ s.effective = n ∧ t.effective = n ∧ s.folds = ls.length ∧ t.folds = ls.length := by
  obtain ⟨h1, h2⟩ := summaries hne hl
  exact ⟨_, _, h1, h2, (average_flatten hn hl).symm, rfl, rfl, rfl, rfl, rfl⟩

theorem sum_nonneg_zero : ∀ {l : List K}, (∀ x ∈ l, 0 ≤ x) → (0 ≤ l.sum ∧ (l.sum = 0 ↔ ∀ x ∈ l, x = 0))
  | [], _ => by simp
  | a :: l, h => by
    obtain ⟨h1, h2⟩ := sum_nonneg_zero (l := l) (fun x hx => h x (by simp [hx]))
    have ha := h a (by simp)
    rw [List.sum_cons]
    refine ⟨by linarith, ?_⟩
    rw [List.forall_mem_cons, ← h2]
    constructor
    · intro e
      constructor <;> linarith
    · rintro ⟨e1, e2⟩
      linarith

theorem variance_zero {l : List K} (hl : 0 < l.length) : 0 ≤ Spec.variance l ∧ (Spec.variance l = 0 ↔ ∀ x ∈ l, ∀ y ∈ l, x = y) := by
  have hn : (0 : K) < l.length := by exact_mod_cast hl
  have hsq : ∀ x ∈ l.map (fun x => (x - Spec.average l) ^ 2), 0 ≤ x := by
    intro x hx
    obtain ⟨y, _, rfl⟩ := List.mem_map.1 hx
    exact sq_nonneg _
  obtain ⟨h1, h2⟩ := sum_nonneg_zero hsq
  have hv : Spec.variance l = (l.map (fun x => (x - Spec.average l) ^ 2)).sum / l.length := by
    unfold Spec.variance
    rw [Spec.average.eq_def (List.map _ l), List.length_map]
  rw [hv]
  refine ⟨div_nonneg h1 hn.le, ?_⟩
  rw [div_eq_zero_iff, or_iff_left hn.ne', h2]
  constructor
  · intro h x hx y hy
    have ex := h _ (List.mem_map.2 ⟨x, hx, rfl⟩)
    have ey := h _ (List.mem_map.2 ⟨y, hy, rfl⟩)
    have ex' : x - Spec.average l = 0 := by simpa using ex
    have ey' : y - Spec.average l = 0 := by simpa using ey
    linarith
  · intro h z hz
    obtain ⟨x, hx, rfl⟩ := List.mem_map.1 hz
    have hs : l.sum = l.length * x := by
      have := List.eq_replicate_of_mem (a := x) (l := l) (fun y hy => h y hy x hx)
      conv_lhs => rw [this]
      simp
    have : Spec.average l = x := by
      unfold Spec.average
      rw [hs]
      field_simp
    rw [this]
    simp

/-- **C74** fails: the standard deviation shown after the mean is that between the folds for StateIO objects, but that of all single performances for lists. For the same
results the second is never smaller, and the two agree only if the performance of every fold never changes. -/
theorem C74_deviation_violation {n : Nat} (hn : 0 < n) {ls : List (List K)} (hne : ls ≠ []) (hl : ∀ l ∈ ls, l.length = n) :
    ∃ s t, stateSummary (ls.map (fun l => ⟨none, l⟩)) = .ok s ∧ listSummary ls = .ok t ∧
      s.var = Spec.variance (ls.map Spec.average) ∧ t.var = Spec.variance ls.flatten ∧
      s.var ≤ t.var ∧ (s.var = t.var ↔ ∀ l ∈ ls, ∀ x ∈ l, ∀ y ∈ l, x = y) := by
  obtain ⟨h1, h2⟩ := summaries hne hl
  refine ⟨_, _, h1, h2, rfl, rfl, ?_⟩
  have hL : (0 : K) < ls.length := by exact_mod_cast List.length_pos_iff.2 hne
  have hv : ∀ x ∈ ls.map Spec.variance, 0 ≤ x := by
    intro x hx
    obtain ⟨l, hl', rfl⟩ := List.mem_map.1 hx
    exact (variance_zero (by rw [hl l hl']; exact hn)).1
  obtain ⟨g1, g2⟩ := sum_nonneg_zero hv
  simp only [variance_flatten hn hl]
  have ha : Spec.average (ls.map Spec.variance) = (ls.map Spec.variance).sum / ls.length := by
    unfold Spec.average
    rw [List.length_map]
  have ha0 : 0 ≤ Spec.average (ls.map Spec.variance) := by rw [ha]; exact div_nonneg g1 hL.le
  refine ⟨by linarith, ?_⟩
  constructor
  · intro e l hl'
    have : Spec.average (ls.map Spec.variance) = 0 := by linarith
    rw [ha, div_eq_zero_iff, or_iff_left hL.ne', g2] at this
    exact (variance_zero (by rw [hl l hl']; exact hn)).2.1 (this _ (List.mem_map.2 ⟨l, hl', rfl⟩))
  · intro h
    have : (ls.map Spec.variance).sum = 0 := g2.2 (by
      intro x hx
      obtain ⟨l, hl', rfl⟩ := List.mem_map.1 hx
      exact (variance_zero (by rw [hl l hl']; exact hn)).2.2 (h l hl'))
    rw [ha, this]
    simp

example : (listSummary (K := ℚ) [[1, 3], [2, 2]]).toOption.map (fun s => (s.mean, s.var)) = some (2, 1/2) ∧
    (stateSummary (K := ℚ) [⟨none, [1, 3]⟩, ⟨none, [2, 2]⟩]).toOption.map (fun s => (s.mean, s.var)) = some (2, 0) := by
  decide +kernel

end Alipy.Analyser
