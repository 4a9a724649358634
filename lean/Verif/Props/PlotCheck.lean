import Verif.Model.PlotCheck
import Verif.Spec.PlotCheck
import Mathlib.Tactic.Common

/-! # C106: the analyser tells which results cannot be compared or drawn -/
namespace Alipy.PlotCheck
open Spec

theorem dedup_single {l : List Nat} {b : Nat} : l.dedup = [b] ↔ l ≠ [] ∧ ∀ x ∈ l, x = b := by
  constructor
  · intro h
    have hm : ∀ x, x ∈ l ↔ x = b := fun x => by rw [← List.mem_dedup, h]; simp
    refine ⟨?_, fun x hx => (hm x).1 hx⟩
    rintro rfl
    simpa using (hm b).2 rfl
  · rintro ⟨hne, h⟩
    have hn := List.nodup_dedup l
    obtain ⟨a, ha⟩ := List.exists_mem_of_ne_nil l hne
    have hab : b ∈ l.dedup := List.mem_dedup.2 (h a ha ▸ ha)
    match hd : l.dedup with
    | [] => rw [hd] at hab; simp at hab
    | [x] =>
      have : x = b := h x (List.mem_dedup.1 (by rw [hd]; simp))
      rw [this]
    | x :: y :: r =>
      have hx : x = b := h x (List.mem_dedup.1 (by rw [hd]; simp))
      have hy : y = b := h y (List.mem_dedup.1 (by rw [hd]; simp))
      rw [hd, hx, hy] at hn
      simp at hn

theorem checkBatch_some {l : List Nat} {b : Nat} : checkBatch l = some b ↔ 2 ≤ l.length ∧ ∀ x ∈ l.dropLast, x = b := by
  have hlen : l.take (l.length - 1) ≠ [] ↔ 2 ≤ l.length := by
    rw [ne_eq, ← List.length_eq_zero_iff, List.length_take]
    omega
  have key : checkBatch l = some b ↔ (l.take (l.length - 1)).dedup = [b] := by
    unfold checkBatch
    split
    · rename_i c hc; rw [hc]; simp
    · rename_i hno
      constructor
      · simp
      · intro h; exact absurd h (hno b)
  rw [key, dedup_single, hlen, List.dropLast_eq_take]

/-- C106 (partial, see the violation): the summary shows a batch size exactly if every fold has two queries or more and all queries of all folds, except the
last one of every fold, have that batch size. Then it shows this size. -/
theorem C106_batch_partial (folds : List (List Nat)) (hne : folds ≠ []) (b : Nat) :
    batchSummary folds = (true, b) ↔ ∀ f ∈ folds, 2 ≤ f.length ∧ ∀ x ∈ f.dropLast, x = b := by
  have hall : (∀ f ∈ folds, checkBatch f = some b) ↔ batchSummary folds = (true, b) := by
    unfold batchSummary
    constructor
    · intro h
      rw [if_pos (by simp only [List.all_eq_true]; intro f hf; rw [h f hf]; rfl)]
      have : (folds.filterMap checkBatch).dedup = [b] := by
        rw [dedup_single]
        constructor
        · obtain ⟨f, hf⟩ := List.exists_mem_of_ne_nil _ hne
          intro h0
          have : b ∈ folds.filterMap checkBatch := List.mem_filterMap.2 ⟨f, hf, h f hf⟩
          rw [h0] at this; simp at this
        · intro x hx
          obtain ⟨f, hf, hfx⟩ := List.mem_filterMap.1 hx
          rw [h f hf] at hfx
          exact (Option.some.inj hfx).symm
      rw [this]
    · intro h f hf
      split at h
      · rename_i hs
        simp only [List.all_eq_true] at hs
        split at h
        · rename_i c hc
          have hcb : c = b := by simpa using h
          obtain ⟨x, hx⟩ := Option.isSome_iff_exists.1 (hs f hf)
          have := (dedup_single.1 hc).2 x (List.mem_filterMap.2 ⟨f, hf, hx⟩)
          rw [hx, this, hcb]
        · simp at h
      · simp at h
  rw [← hall]
  exact ⟨fun h f hf => checkBatch_some.1 (h f hf), fun h f hf => checkBatch_some.2 (h f hf)⟩

/-- C106: if all queries of all folds have one batch size and every fold has two queries or more, this size is shown. -/
theorem C106_batch_shown (folds : List (List Nat)) (hne : folds ≠ []) (b : Nat) (h2 : ∀ f ∈ folds, 2 ≤ f.length) (h : ∀ f ∈ folds, ∀ x ∈ f, x = b) :
    batchSummary folds = (true, b) :=
  (C106_batch_partial folds hne b).2 fun f hf => ⟨h2 f hf, fun x hx => h f hf x (List.dropLast_subset f hx)⟩

example : batchSummary [[2, 2, 2], [2, 2]] = (true, 2) ∧ batchSummary [[2, 2, 2], [3, 3]] = (false, 0) := by decide

/-- C106, negative: a last query of another size goes unnoticed, and folds with one query never have "the same batch size". -/
theorem C106_batch_violation (b c : Nat) (n : Nat) (rest : List (List Nat)) (hrest : ∀ f ∈ rest, 2 ≤ f.length ∧ ∀ x ∈ f.dropLast, x = b) :
    batchSummary ((List.replicate (n + 1) b ++ [c]) :: rest) = (true, b) ∧ ∀ fs : List (List Nat), [c] ∈ fs → (batchSummary fs).1 = false := by
  constructor
  · rw [C106_batch_partial _ (by simp)]
    intro f hf
    rcases List.mem_cons.1 hf with rfl | hf
    · refine ⟨by simp, ?_⟩
      rw [List.dropLast_concat]
      intro x hx
      exact List.eq_of_mem_replicate hx
    · exact hrest f hf
  · intro fs hc
    cases hb : batchSummary fs with
    | mk t v =>
      cases t with
      | false => rfl
      | true =>
        have := ((C106_batch_partial fs (List.ne_nil_of_mem hc) v).1 hb [c] hc).1
        simp at this

/-- C106 (partial): if the initial points are of one type, `_check_methods_continuity` answers True exactly if all methods show one batch size, have equally
many queries and equally many folds. -/
theorem C106_continuity_partial (l : List Info) (hip : AllAgree Info.ip l) :
    continuity l = true ↔ AllAgree Info.batch l ∧ AllAgree Info.effective l ∧ AllAgree Info.folds l := by
  cases l with
  | nil => simp [continuity, AllAgree]
  | cons a r =>
    have hi : ∀ s ∈ r, isInstance a.ip s.ip = true := by
      intro s hs
      simp [isInstance, hip a (by simp) s (by simp [hs])]
    have step : continuity (a :: r) = true ↔ ∀ s ∈ r, a.batch = s.batch ∧ a.effective = s.effective ∧ a.folds = s.folds := by
      simp only [continuity, List.all_eq_true]
      refine forall₂_congr fun s hs => ?_
      simp [hi s hs, and_assoc]
    rw [step]
    constructor
    · intro h
      have h' : ∀ s ∈ a :: r, a.batch = s.batch ∧ a.effective = s.effective ∧ a.folds = s.folds := by
        intro s hs
        rcases List.mem_cons.1 hs with rfl | hs
        · exact ⟨rfl, rfl, rfl⟩
        · exact h s hs
      exact ⟨fun x hx y hy => (h' x hx).1.symm.trans (h' y hy).1, fun x hx y hy => (h' x hx).2.1.symm.trans (h' y hy).2.1,
        fun x hx y hy => (h' x hx).2.2.symm.trans (h' y hy).2.2⟩
    · rintro ⟨h1, h2, h3⟩ s hs
      exact ⟨h1 a (by simp) s (by simp [hs]), h2 a (by simp) s (by simp [hs]), h3 a (by simp) s (by simp [hs])⟩

example : AllAgree Info.ip [⟨1, 10, 5, .float⟩, ⟨2, 10, 5, .float⟩] ∧ continuity [⟨1, 10, 5, .float⟩, ⟨2, 10, 5, .float⟩] = false := by
  constructor
  · intro a ha b hb
    simp only [List.mem_cons, List.not_mem_nil, or_false] at ha hb
    rcases ha with rfl | rfl <;> rcases hb with rfl | rfl <;> rfl
  · decide

/-- C106, negative: the answer depends on the order of the methods if one has a Python number and another a numpy number as initial point. -/
theorem C106_continuity_order_violation (b n k : Nat) :
    continuity [⟨b, n, k, .float⟩, ⟨b, n, k, .npFloat⟩] = false ∧ continuity [⟨b, n, k, .npFloat⟩, ⟨b, n, k, .float⟩] = true := by
  simp [continuity, isInstance]

/-- C106, negative: methods without one batch size are taken to have the same batch size, 0. -/
theorem C106_continuity_mixed_violation (fs gs : List (List Nat)) (hf : (batchSummary fs).1 = false) (hg : (batchSummary gs).1 = false) (n k : Nat) (t : IpType) :
    continuity [⟨(batchSummary fs).2, n, k, t⟩, ⟨(batchSummary gs).2, n, k, t⟩] = true := by
  have zero : ∀ l, (batchSummary l).1 = false → (batchSummary l).2 = 0 := by
    intro l hl
    unfold batchSummary at hl ⊢
    split
    · rename_i h
      rw [if_pos h] at hl
      split
      · rename_i c hc; rw [hc] at hl; simp at hl
      · rfl
    · rfl
  simp [continuity, zero fs hf, zero gs hg, isInstance]

example : (batchSummary [[1, 2, 3], [1, 1]]).1 = false ∧ (batchSummary [[5, 4, 4]]).1 = false := by decide

/-- C106, negative: the warning about settings that differ is never given, whatever was added: line 387 tests the method and not its answer. -/
theorem C106_warning_violation {K : Type} (ms : List (Kind × Info × List (List (Perf K)))) : (plotStart ms).warned = false := by
  unfold plotStart
  split <;> rfl

theorem scan_none {K : Type} (data : List (List (List (Perf K)))) :
    scan data = none ↔ ∀ m ∈ data, ∀ r ∈ m, ∀ v ∈ r, ∃ x, v = .num x := by
  induction data with
  | nil => simp [scan]
  | cons m l ih =>
    have flat : ∀ p : Perf K → Bool, m.flatten.any p = false ↔ ∀ r ∈ m, ∀ v ∈ r, p v = false := by
      intro p
      simp only [List.any_eq_false, List.mem_flatten, Bool.not_eq_true]
      exact ⟨fun h r hr v hv => h v ⟨r, hr, hv⟩, fun h v ⟨r, hr, hv⟩ => h r hr v hv⟩
    simp only [scan, List.mem_cons, forall_eq_or_imp]
    rw [← ih]
    split
    · rename_i h
      simp only [reduceCtorEq, false_iff, not_and]
      intro hm
      exfalso
      rw [← Bool.not_eq_false, flat] at h
      apply h
      intro r hr v hv
      obtain ⟨x, rfl⟩ := hm r hr v hv
      rfl
    · rename_i h1
      split
      · rename_i h
        simp only [reduceCtorEq, false_iff, not_and]
        intro hm
        exfalso
        rw [← Bool.not_eq_false, flat] at h
        apply h
        intro r hr v hv
        obtain ⟨x, rfl⟩ := hm r hr v hv
        rfl
      · rename_i h2
        rw [Bool.not_eq_true, flat] at h1 h2
        constructor
        · intro hs
          refine ⟨fun r hr v hv => ?_, hs⟩
          have a := h1 r hr v hv
          have b := h2 r hr v hv
          cases v with
          | num x => exact ⟨x, rfl⟩
          | nan => simp at a
          | inf p => simp at b
        · exact fun h => h.2

theorem scan_error {K : Type} (data : List (List (List (Perf K)))) {e : PyErr} (h : scan data = some e) : e = .valueError := by
  induction data with
  | nil => simp [scan] at h
  | cons m l ih =>
    simp only [scan] at h
    split at h
    · exact (Option.some.inj h).symm
    · split at h
      · exact (Option.some.inj h).symm
      · exact ih h

/-- C106 (partial): if the results added last are StateIO objects, plotting goes on exactly if all performances of all methods are finite numbers, and raises
ValueError otherwise. -/
theorem C106_finite_partial {K : Type} (ms : List (Kind × Info × List (List (Perf K)))) (i : Info) (m : List (List (Perf K)))
    (h : ms.getLast? = some (.states, i, m)) :
    ((plotStart ms).error = none ↔ ∀ x ∈ ms, ∀ r ∈ x.2.2, ∀ v ∈ r, ∃ y, v = .num y) ∧
      ((plotStart ms).error = none ∨ (plotStart ms).error = some .valueError) := by
  have hp : (plotStart ms).error = scan (ms.map fun m => m.2.2) := by
    unfold plotStart; rw [h]; rfl
  rw [hp]
  constructor
  · rw [scan_none]
    simp only [List.mem_map]
    exact ⟨fun H x hx => H _ ⟨x, hx, rfl⟩, fun H _ ⟨x, hx, e⟩ => e ▸ H x hx⟩
  · cases he : scan (ms.map fun m => m.2.2) with
    | none => exact .inl rfl
    | some e => exact .inr (congrArg some (scan_error _ he))

example : plotStart [(.lists, ⟨0, 2, 1, .none⟩, [[Perf.num (1 : Nat), .nan]]), (.states, ⟨1, 2, 1, .none⟩, [[.num 1, .num 2]])] = ⟨false, some .valueError⟩ := by
  decide

/-- C106, negative: if the results added last are lists, nothing is checked, the StateIO objects added before included: NaN and infinities are drawn. -/
theorem C106_unchecked_violation {K : Type} (ms : List (Kind × Info × List (List (Perf K)))) (i : Info) (m : List (List (Perf K))) :
    (plotStart (ms ++ [(.lists, i, m)])).error = none := by
  simp [plotStart]

end Alipy.PlotCheck
