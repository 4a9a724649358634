import Verif.Model.Progress
import Verif.Spec.Progress
import Mathlib.Data.List.Induction
import Mathlib.Data.List.GetD
import Mathlib.Tactic.Ring
import Mathlib.Tactic.FieldSimp
import Mathlib.Tactic.NormNum
import Mathlib.Tactic.Linarith

/-! # C107: the progress shown while querying -/
namespace Alipy.Progress
open Spec

/-- A query with performance `q.1`, and a cost if there is one. -/
def rec (q : ℚ × Option ℚ) : Rec := ⟨.num q.1, q.2⟩

theorem nums_rec (qs : List (ℚ × Option ℚ)) : nums ((qs.map rec).map Rec.perf) = some (qs.map Prod.fst) := by
  induction qs with
  | nil => rfl
  | cons a r ih => simp only [List.map_cons, rec, nums] at ih ⊢; rw [ih]; rfl

/-- The row shown for the given queries. -/
def rowOf (nL nU : Nat) (qs : List (ℚ × Option ℚ)) : Row :=
  ⟨nL, 100 * nL / (nL + nU : ℕ), qs.length, (qs.map fun q => q.2.getD 0).sum, .val (mean (qs.map Prod.fst)) (var (qs.map Prod.fst))⟩

theorem row_eq {s : Saver} {qs : List (ℚ × Option ℚ)} (hp : s.nL + s.nU ≠ 0) (hr : s.recs = qs.map rec) (hne : qs ≠ [])
    (hc : s.cost = (qs.map fun q => q.2.getD 0).sum) : row s = .ok (rowOf s.nL s.nU qs) := by
  have hcur : currentPerformance s.recs = .ok (.val (mean (qs.map Prod.fst)) (var (qs.map Prod.fst))) := by
    rw [hr]
    obtain ⟨a, r, rfl⟩ := List.exists_cons_of_ne_nil hne
    have h := nums_rec (a :: r)
    simp only [List.map_cons] at h
    simp only [currentPerformance, List.map_cons, rec] at h ⊢
    rw [h]
  simp only [row, if_neg hp, hcur, hc, rowOf]
  simp [hr]

/-- The text printed at the `i`-th printing. -/
def printOf (nL nU k : Nat) (qs : List (ℚ × Option ℚ)) (i : Nat) : Print :=
  if i = 0 then .table (rowOf nL nU (qs.take ((i + 1) * k))) else .line (rowOf nL nU (qs.take ((i + 1) * k)))

theorem addAll_append (s : Saver) (a b : List Rec) (h : (addAll s a).2.2 = none) :
    addAll s (a ++ b) = ((addAll (addAll s a).1 b).1, (addAll s a).2.1 ++ (addAll (addAll s a).1 b).2.1, (addAll (addAll s a).1 b).2.2) := by
  induction a generalizing s with
  | nil => rfl
  | cons r l ih =>
    simp only [List.cons_append, addAll] at h ⊢
    rcases hs : add s r with ⟨s', p, _ | e⟩
    · rw [hs] at h
      simp only at h ⊢
      rw [ih s' h]
      simp
    · rw [hs] at h; simp at h

theorem addAll_one (s : Saver) (r : Rec) : addAll s [r] = ((add s r).1, (add s r).2.1.toList, (add s r).2.2) := by
  simp only [addAll]
  rcases add s r with ⟨s', p, _ | e⟩ <;> simp

theorem addAll_fresh {nL nU k : Nat} (hp : nL + nU ≠ 0) (hk : k ≠ 0) (qs : List (ℚ × Option ℚ)) :
    addAll (fresh nL nU true k) (qs.map rec) = (⟨nL, nU, true, k, qs.map rec, (qs.map fun q => q.2.getD 0).sum, decide (qs.length / k = 0)⟩,
      (List.range (qs.length / k)).map (printOf nL nU k qs), none) := by
  induction qs using List.reverseRecOn with
  | nil => simp [addAll, fresh]
  | append_singleton l q ih =>
    rw [List.map_append, addAll_append _ _ _ (by rw [ih]), ih]
    simp only [List.map_cons, List.map_nil, addAll_one]
    have hsame : (List.range (l.length / k)).map (printOf nL nU k l) = (List.range (l.length / k)).map (printOf nL nU k (l ++ [q])) := by
      apply List.map_congr_left
      intro i hi
      have hle : (i + 1) * k ≤ l.length := by
        have := List.mem_range.1 hi
        calc (i + 1) * k ≤ l.length / k * k := Nat.mul_le_mul_right _ this
          _ ≤ l.length := Nat.div_mul_le_self _ _
      simp only [printOf, List.take_append_of_le_length hle]
    rw [hsame]
    have hrow := row_eq (s := ⟨nL, nU, true, k, l.map rec ++ [rec q], (l.map fun q => q.2.getD 0).sum + (rec q).cost.getD 0, decide (l.length / k = 0)⟩)
      (qs := l ++ [q]) hp (by simp) (by simp) (by simp [rec])
    simp only [add, if_true, if_neg hk, List.length_append, List.length_map, List.length_cons, List.length_nil, Nat.zero_add, hrow]
    have hcost : (l.map fun q => q.2.getD 0).sum + (rec q).cost.getD 0 = ((l ++ [q]).map fun q => q.2.getD 0).sum := by simp [rec]
    rw [Nat.succ_div]
    by_cases hd : k ∣ l.length + 1
    · have hm : (l.length + 1) % k = 0 := Nat.mod_eq_zero_of_dvd hd
      have hfull : (l ++ [q]).take ((l.length / k + 1) * k) = l ++ [q] := by
        apply List.take_of_length_le
        have : (l.length + 1) / k * k = l.length + 1 := Nat.div_mul_cancel hd
        rw [Nat.succ_div, if_pos hd] at this
        rw [this]; simp
      simp only [hm, if_true, hd, decide_eq_true_eq, List.range_succ, List.map_append, List.map_cons, List.map_nil, hcost]
      by_cases h0 : l.length / k = 0
      · simp only [h0, if_true, printOf] at hfull ⊢
        rw [hfull]
        simp [rec]
      · simp only [h0, if_false, printOf] at hfull ⊢
        rw [hfull]
        simp [rec, h0]
    · have hm : (l.length + 1) % k ≠ 0 := fun h => hd (Nat.dvd_of_mod_eq_zero h)
      simp only [hm, if_false, hd, Nat.add_zero, hcost]
      simp [rec]

theorem mean_spec {l : List ℚ} (h : l ≠ []) : mean l * l.length = l.sum := by
  have : (l.length : ℚ) ≠ 0 := by exact_mod_cast (List.length_pos_iff.2 h).ne'
  unfold mean
  field_simp

/-- The row shown describes the queries. -/
def Row.Shows (r : Row) (nL nU : Nat) (qs : List (ℚ × Option ℚ)) : Prop :=
  r.labelled = nL ∧ ∃ m v, r.perf = .val m v ∧ Describes nL nU (qs.map Prod.fst) (qs.map fun q => q.2.getD 0) r.percent r.queries r.cost m v

theorem rowOf_shows {nL nU : Nat} (hp : nL + nU ≠ 0) {qs : List (ℚ × Option ℚ)} (hne : qs ≠ []) : (rowOf nL nU qs).Shows nL nU qs := by
  refine ⟨rfl, _, _, rfl, ⟨?_, by simp [rowOf], rfl, ?_, ?_⟩⟩
  · have : ((nL + nU : ℕ) : ℚ) ≠ 0 := by exact_mod_cast hp
    simp only [rowOf]
    push_cast at this ⊢
    field_simp
  · exact mean_spec (by simpa using hne)
  · have h := mean_spec (l := (qs.map Prod.fst).map fun x => (x - mean (qs.map Prod.fst)) * (x - mean (qs.map Prod.fst))) (by simpa using hne)
    unfold var
    rw [List.length_map] at h
    rw [h]
    simp only [pow_two]

/-- C107: a saver that prints every `k` queries, told of queries with performances that are numbers and at least one initial index: adding never fails and the
record is what was added; after `n` queries there have been `n / k` printings; the first one is the table, the others are lines; the `i`-th one describes
exactly the first `i * k` queries. -/
theorem C107_progress {nL nU k : Nat} (hp : nL + nU ≠ 0) (hk : k ≠ 0) (qs : List (ℚ × Option ℚ)) :
    ∃ s ps, addAll (fresh nL nU true k) (qs.map rec) = (s, ps, none) ∧ s.recs = qs.map rec ∧ ps.length = qs.length / k ∧
      ∀ i (h : i < ps.length), ∃ r : Row, ps[i] = (if i = 0 then .table r else .line r) ∧ r.Shows nL nU (qs.take ((i + 1) * k)) := by
  refine ⟨_, _, addAll_fresh hp hk qs, rfl, by simp, fun i h => ⟨rowOf nL nU (qs.take ((i + 1) * k)), ?_, ?_⟩⟩
  · simp only [List.getElem_map, List.getElem_range, printOf]
  · apply rowOf_shows hp
    simp only [List.length_map, List.length_range] at h
    have h0 : 0 < qs.length := by
      by_contra hcon
      have : qs.length = 0 := by omega
      simp [this] at h
    have : qs ≠ [] := List.length_pos_iff.1 h0
    simp [hk, this]

example : (addAll (fresh 1 3 true 2) ([(1/2, none), (1, some 3), (0, none), (1, some 1), (1, none)].map rec)).2.1 =
    [.table ⟨1, 25, 2, 3, .val (3/4) (1/16)⟩, .line ⟨1, 25, 4, 4, .val (5/8) (11/64)⟩] := by
  decide +kernel

/-- C107: `get_current_performance()` gives the mean and the deviation of all recorded performances, and two zeros before the first query. -/
theorem C107_current (qs : List (ℚ × Option ℚ)) : ∃ m v, currentPerformance (qs.map rec) = .ok (.val m v) ∧ m * qs.length = (qs.map Prod.fst).sum ∧
    v * qs.length = ((qs.map Prod.fst).map fun x => (x - m) ^ 2).sum ∧ (qs = [] → m = 0 ∧ v = 0) := by
  by_cases hne : qs = []
  · subst hne
    exact ⟨0, 0, rfl, by simp, by simp, fun _ => ⟨rfl, rfl⟩⟩
  · have hr := row_eq (s := ⟨1, 0, true, 1, qs.map rec, (qs.map fun q => q.2.getD 0).sum, true⟩) (qs := qs) (by simp) rfl hne rfl
    obtain ⟨-, m, v, hp, hd⟩ := rowOf_shows (nL := 1) (nU := 0) (by simp) hne
    refine ⟨m, v, ?_, by simpa using hd.mean, by simpa using hd.var, fun h => absurd h hne⟩
    simp only [row] at hr
    rw [if_neg (by simp)] at hr
    split at hr
    · cases hr
    · rename_i p hc
      rw [hc]
      have : p = (rowOf 1 0 qs).perf := by rw [← Except.ok.inj hr]
      rw [this, hp]

/-- C107: what is recorded does not depend on whether and how often progress is printed, whatever the performances are, as long as no call fails. -/
theorem C107_record (s t : Saver) (h : s.recs = t.recs) (hc : s.cost = t.cost) (rs : List Rec) (hs : (addAll s rs).2.2 = none) (ht : (addAll t rs).2.2 = none) :
    (addAll s rs).1.recs = (addAll t rs).1.recs ∧ (addAll s rs).1.cost = (addAll t rs).1.cost ∧ (addAll s rs).1.recs = s.recs ++ rs := by
  have one : ∀ (s : Saver) (r : Rec), (add s r).1.recs = s.recs ++ [r] ∧ (add s r).1.cost = s.cost + r.cost.getD 0 := by
    intro s r
    simp only [add]
    split
    · split
      · exact ⟨rfl, rfl⟩
      · split
        · split
          · exact ⟨rfl, rfl⟩
          · split <;> exact ⟨rfl, rfl⟩
        · exact ⟨rfl, rfl⟩
    · exact ⟨rfl, rfl⟩
  induction rs generalizing s t with
  | nil => simp [addAll, h, hc]
  | cons r l ih =>
    have e1 := one s r
    have e2 := one t r
    simp only [addAll] at hs ht ⊢
    rcases hs1 : add s r with ⟨s', p, _ | e⟩
    · rcases ht1 : add t r with ⟨t', p', _ | e'⟩
      · rw [hs1] at hs e1
        rw [ht1] at ht e2
        simp only at hs ht e1 e2 ⊢
        have := ih s' t' (by rw [e1.1, e2.1, h]) (by rw [e1.2, e2.2, hc]) hs ht
        refine ⟨this.1, this.2.1, ?_⟩
        rw [this.2.2, e1.1]; simp
      · rw [ht1] at ht; simp at ht
    · rw [hs1] at hs; simp at hs

example : (addAll (fresh 1 3 true 2) [⟨.iter, none⟩, ⟨.num 1, none⟩]).2.2 = none ∧ (addAll (fresh 1 3 false 0) [⟨.iter, none⟩, ⟨.num 1, none⟩]).2.2 = none := by
  decide +kernel

/-- C107, negative: if both initial sets are empty, or the interval is 0, `add_state` fails at printing, but the query has been recorded: a program that tries
again records it twice. -/
theorem C107_failed_print_violation (s : Saver) (r : Rec) (hv : s.verbose = true)
    (h : s.interval = 0 ∨ (s.nL = 0 ∧ s.nU = 0 ∧ (s.recs.length + 1) % s.interval = 0)) :
    (add s r).2.2 = some .zeroDivisionError ∧ (add s r).1.recs = s.recs ++ [r] ∧ (add s r).1.cost = s.cost + r.cost.getD 0 := by
  by_cases h0 : s.interval = 0
  · simp [add, hv, h0]
  · obtain ⟨h1, h2, h3⟩ := h.resolve_left h0
    simp [add, hv, h0, row, h1, h2, h3]

/-- C107, negative: the performance shown depends on the type of the first performance alone. If the first one is iterable, NaN is shown for ever; if it is a
number and a later one is not, showing fails. -/
theorem C107_mixed_violation (q : ℚ) (c d : Option ℚ) (l : List Rec) :
    currentPerformance (⟨.iter, c⟩ :: l) = .ok .nan ∧ currentPerformance (⟨.num q, c⟩ :: (l ++ [⟨.iter, d⟩])) = .error .valueError := by
  refine ⟨rfl, ?_⟩
  have : nums (l.map Rec.perf ++ [.iter]) = none := by
    induction l with
    | nil => rfl
    | cons a r ih =>
      simp only [List.map_cons, List.cons_append]
      cases a.perf with
      | num x => simp [nums, ih]
      | iter => rfl
  simp [currentPerformance, nums, this]

end Alipy.Progress
