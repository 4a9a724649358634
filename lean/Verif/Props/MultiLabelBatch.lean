import Verif.Model.MultiLabelBatch
import Verif.Spec.MultiLabelBatch
import Verif.Proof.IndexCollection
import Verif.Proof.Misc
import Verif.Spec.Sampling
import Mathlib.Data.List.GetD
import Mathlib.Tactic.Ring
import Mathlib.Tactic.Linarith
/-!
# Properties of MMC and Adaptive: C68 (the batch) and C69 (the choice)
-/
set_option linter.unusedSimpArgs false
set_option linter.unusedSectionVars false
namespace Alipy.MLBatch
open IC

/-- An argument a program can pass. -/
def PoolArg.Valid : PoolArg → Prop
  | .coll c => Reachable c
  | _ => True

theorem toIC_nodup {a : PoolArg} (ha : a.Valid) {c : IC} (h : a.toIC = .ok c) : c.keys.Nodup := by
  cases a with
  | seq vs => simp only [PoolArg.toIC, Except.ok.injEq] at h; subst h; exact mk'_keys_nodup _
  | coll d => simp only [PoolArg.toIC, Except.ok.injEq] at h; subst h; exact reachable_nodup ha
  | multi m =>
    simp only [PoolArg.toIC] at h
    split at h
    · simp at h
    · simp only [Except.ok.injEq] at h; subst h; exact mk'_keys_nodup _

/-! ## C68 -/

theorem add_ok {l : IC} {t : Ty} (ht : l.ety = some t) {v : Val} (hv : isInstance v.item t = true) : (l.add v).2 = none := by
  unfold add
  simp only [ht, hv, Bool.not_true, Bool.false_eq_true, if_false]
  split <;> rfl

theorem discard_inner_sub (u : IC) (v : Val) : ∀ w ∈ (u.discard v).inner, w ∈ u.inner := by
  intro w hw
  unfold IC.discard at hw
  split at hw
  · exact mem_eraseFirst hw
  · exact hw

theorem discard_length {u : IC} {v : Val} (h : v ∈ u.inner) : (u.discard v).inner.length + 1 = u.inner.length := by
  have h1 := discard_keys u v
  have h2 : (u.discard v).keys.length = (u.keys.erase v.key).length := by rw [h1]
  have hm : v.key ∈ u.keys := List.mem_map_of_mem h
  rw [List.length_erase_of_mem hm] at h2
  have := List.length_pos_of_mem hm
  simp only [keys, List.length_map] at h2 this
  omega

/-- The loop selects different elements of the pool, as long as there are more of them than rounds. -/
theorem loop_spec (ask : IC → IC → Except PyErr Nat) (hask : ∀ l u : IC, ∃ k, ask l u = .ok k ∧ (2 ≤ u.inner.length → k < u.inner.length)) (t : Ty) :
    ∀ (n : Nat) (l u : IC) (acc : List Out), l.ety = some t → l.keys.Nodup → u.keys.Nodup → (∀ v ∈ u.inner, isInstance v.item t = true) →
      n < u.inner.length →
      ∃ (vs : List Val) (l' u' : IC), loop ask n l u acc = (l', u', .ok (acc ++ vs.map (fun v => .tuple (.one v)))) ∧
        vs.length = n ∧ (vs.map Val.key).Nodup ∧ (∀ v ∈ vs, v ∈ u.inner) ∧
        (∀ k, k ∈ l'.keys ↔ k ∈ l.keys ∨ k ∈ vs.map Val.key) ∧ (∀ k, k ∈ u'.keys ↔ k ∈ u.keys ∧ k ∉ vs.map Val.key) ∧
        u'.inner.length + n = u.inner.length
  | 0, l, u, acc, _, _, _, _, _ => ⟨[], l, u, by simp [loop], rfl, by simp, by simp, by simp, by simp, by simp⟩
  | n + 1, l, u, acc, ht, hln, hun, hty, hlt => by
    obtain ⟨k, hk, hklt⟩ := hask l u
    have hklt := hklt (by omega)
    have hseq : sequentialSelect ask l u = .ok (.one u.inner[k]) := by
      unfold sequentialSelect
      rw [if_neg (by omega), hk]
      simp only [List.getElem?_eq_getElem hklt]
    have hv : u.inner[k] ∈ u.inner := List.getElem_mem hklt
    generalize u.inner[k] = v at hseq hv
    have hadd := add_ok ht (hty v hv)
    have hupd : l.update (.one v) = ((l.add v).1, none) := by
      simp only [update, addAll]
      split
      · rename_i c' hc; rw [hc]
      · rename_i c' e hc; rw [hc] at hadd; simp at hadd
    have hdis : u.differenceUpdate (.one v) = u.discard v := rfl
    have hdl := discard_length hv
    have hdk := discard_keys u v
    have hdm : ∀ k, k ∈ (u.discard v).keys ↔ k ∈ u.keys ∧ k ≠ v.key := by
      intro k
      rw [hdk, hun.mem_erase_iff]
      exact and_comm
    obtain ⟨vs, l', u', h1, h2, h3, h4, h5, h6, h7⟩ := loop_spec ask hask t n (l.add v).1 (u.discard v) (acc ++ [.tuple (.one v)])
      (by rw [add_ety, ht]) (add_keys_nodup l v hln) (discard_keys_nodup u v hun) (fun w hw => hty w (discard_inner_sub u v w hw)) (by omega)
    refine ⟨v :: vs, l', u', ?_, by simp [h2], ?_, ?_, ?_, ?_, by omega⟩
    · rw [loop, hseq]
      simp only [Chosen.arg]
      rw [hupd]
      simp only
      rw [hdis, h1]
      simp
    · rw [List.map_cons, List.nodup_cons]
      refine ⟨?_, h3⟩
      intro hc
      obtain ⟨w, hw, hwk⟩ := List.mem_map.1 hc
      have : w.key ∈ (u.discard v).keys := List.mem_map_of_mem (h4 w hw)
      exact ((hdm _).1 this).2 hwk
    · intro w hw
      rcases List.mem_cons.1 hw with rfl | hw
      · exact hv
      · exact discard_inner_sub u v w (h4 w hw)
    · intro k
      rw [h5, add_keys_ok l v hadd, List.map_cons, List.mem_cons]
      split
      · rename_i hm
        constructor
        · rintro (h | h)
          · exact Or.inl h
          · exact Or.inr (Or.inr h)
        · rintro (h | rfl | h)
          · exact Or.inl h
          · exact Or.inl hm
          · exact Or.inr h
      · simp only [List.mem_append, List.mem_singleton]; tauto
    · intro k
      rw [h6, hdm, List.map_cons, List.mem_cons]
      tauto

/-- **C68**: with more instances than the batch size, `select` returns `batch_size` different unlabelled instances, each in a tuple — whatever
the base classifiers say. The labelled collection must accept the unlabelled instances (same element type). -/
theorem C68_batch_partial (ask : IC → IC → Except PyErr Nat) (hask : ∀ l u : IC, ∃ k, ask l u = .ok k ∧ (2 ≤ u.inner.length → k < u.inner.length))
    {la ua : PoolArg} (hla : la.Valid) (hua : ua.Valid) {l u : IC} (hl : la.toIC = .ok l) (hu : ua.toIC = .ok u) {t : Ty} (ht : l.ety = some t)
    (hty : ∀ v ∈ u.inner, isInstance v.item t = true) {batch : Nat} (hb : batch < u.inner.length) :
    ∃ vs : List Val, (select ask la ua batch).2.2 = .ok (vs.map (fun v => .tuple (.one v))) ∧ vs.length = batch ∧
      (vs.map Val.key).Nodup ∧ ∀ v ∈ vs, v ∈ u.inner := by
  obtain ⟨vs, l', u', h1, h2, h3, h4, -⟩ := loop_spec ask hask t batch l u [] ht (toIC_nodup hla hl) (toIC_nodup hua hu) hty hb
  refine ⟨vs, ?_, h2, h3, h4⟩
  unfold select
  rw [hl, hu]
  simp only
  rw [if_neg (by omega), h1]
  simp

/-- **C68**: otherwise all of them are returned — but as plain indexes and not in tuples. -/
theorem C68_rest_violation (ask : IC → IC → Except PyErr Nat) {la ua : PoolArg} {l u : IC} (hl : la.toIC = .ok l) (hu : ua.toIC = .ok u)
    {batch : Nat} (hb : u.inner.length ≤ batch) : select ask la ua batch = (la, ua, .ok (u.inner.map .plain)) := by
  unfold select
  rw [hl, hu]
  simp only
  rw [if_pos hb]

/-- Collections passed to `select` are changed by it: the selected instances are moved from the unlabelled to the labelled one, before any
oracle was asked. -/
theorem C68_moved_violation (ask : IC → IC → Except PyErr Nat) (hask : ∀ l u : IC, ∃ k, ask l u = .ok k ∧ (2 ≤ u.inner.length → k < u.inner.length))
    {l u : IC} (hl : Reachable l) (hu : Reachable u) {t : Ty} (ht : l.ety = some t)
    (hty : ∀ v ∈ u.inner, isInstance v.item t = true) {batch : Nat} (hb : batch < u.inner.length) :
    ∃ (vs : List Val) (l' u' : IC), select ask (.coll l) (.coll u) batch = (.coll l', .coll u', .ok (vs.map (fun v => .tuple (.one v)))) ∧
      (∀ k, k ∈ l'.keys ↔ k ∈ l.keys ∨ k ∈ vs.map Val.key) ∧ (∀ k, k ∈ u'.keys ↔ k ∈ u.keys ∧ k ∉ vs.map Val.key) ∧
      u'.inner.length + batch = u.inner.length := by
  obtain ⟨vs, l', u', h1, h2, h3, h4, h5, h6, h7⟩ := loop_spec ask hask t batch l u [] ht (reachable_nodup hl) (reachable_nodup hu) hty hb
  refine ⟨vs, l', u', ?_, h5, h6, h7⟩
  unfold select
  simp only [PoolArg.toIC]
  rw [if_neg (by omega), h1]
  simp [PoolArg.after]

/-- If training raises in the second round, the instance selected in the first one stays moved, and the caller gets no result. -/
theorem C68_half_done_violation {e : PyErr} {l u : IC} (hl : Reachable l) (hu : Reachable u) {t : Ty} (ht : l.ety = some t)
    {v : Val} {rest : List Val} (hv : u.inner = v :: rest) (hm : v.key ∉ l.keys) (hty : isInstance v.item t = true) {batch : Nat}
    (hb : batch + 2 < u.inner.length) :
    ∃ l' u', select (fun a _ => if a = l then .ok 0 else .error e) (.coll l) (.coll u) (batch + 2) = (.coll l', .coll u', .error e) ∧
      v.key ∈ l'.keys ∧ v.key ∉ u'.keys := by
  · refine ⟨(l.add v).1, u.discard v, ?_, by rw [add_keys_ok l v (add_ok ht hty), if_neg hm]; simp, by
      rw [discard_keys, (reachable_nodup hu).mem_erase_iff]; simp⟩
    have hadd := add_ok ht hty
    have hne : (l.add v).1 ≠ l := by
      intro hc
      have := add_keys_ok l v hadd
      rw [if_neg hm, hc] at this
      have := congrArg List.length this
      simp at this
    have hd := discard_length (u := u) (v := v) (by rw [hv]; simp)
    have h1 : sequentialSelect (fun a _ => if a = l then .ok 0 else .error e) l u = .ok (.one v) := by
      unfold sequentialSelect
      rw [if_neg (by omega)]
      beta_reduce
      rw [if_pos rfl]
      simp [hv]
    have h2 : sequentialSelect (fun a _ => if a = l then .ok 0 else .error e) (l.add v).1 (u.discard v) = .error e := by
      unfold sequentialSelect
      rw [if_neg (by omega)]
      beta_reduce
      rw [if_neg hne]
    have hupd : l.update (.one v) = ((l.add v).1, none) := by
      simp only [update, addAll]
      split
      · rename_i c' hc; rw [hc]
      · rename_i c' e hc; rw [hc] at hadd; simp at hadd
    unfold select
    simp only [PoolArg.toIC]
    rw [if_neg (by omega), loop, h1]
    simp only [Chosen.arg]
    rw [hupd]
    simp only
    rw [show u.differenceUpdate (.one v) = u.discard v from rfl, loop, h2]
    rfl

/-! ## C69 -/
section
variable {K : Type} [Field K] [LinearOrder K] [IsStrictOrderedRing K]

theorem mem_argmaxes {score : List K} {i : Nat} : i ∈ argmaxes score ↔ ∃ h : i < score.length, ∀ w ∈ score, w ≤ score[i] := by
  unfold argmaxes
  rw [List.mem_filter, List.mem_range]
  constructor
  · rintro ⟨h1, h2⟩
    refine ⟨h1, ?_⟩
    rw [List.getD_eq_getElem _ _ h1] at h2
    simpa using h2
  · rintro ⟨h1, h2⟩
    refine ⟨h1, ?_⟩
    rw [List.getD_eq_getElem _ _ h1]
    simpa using h2

theorem exists_argmax : ∀ {l : List K}, l ≠ [] → ∃ v ∈ l, ∀ w ∈ l, w ≤ v
  | [a], _ => ⟨a, by simp, by simp⟩
  | a :: b :: l, _ => by
    obtain ⟨v, hv, hm⟩ := exists_argmax (l := b :: l) (by simp)
    rcases le_total a v with h | h
    · exact ⟨v, by simp [List.mem_cons.1 hv], by intro w hw; rcases List.mem_cons.1 hw with rfl | hw; exacts [h, hm w hw]⟩
    · exact ⟨a, by simp, by intro w hw; rcases List.mem_cons.1 hw with rfl | hw; exacts [le_rfl, le_trans (hm w hw) h]⟩

theorem argmaxes_ne_nil {score : List K} (h : score ≠ []) : argmaxes score ≠ [] := by
  obtain ⟨v, hv, hm⟩ := exists_argmax h
  obtain ⟨i, hi, rfl⟩ := List.getElem_of_mem hv
  exact List.ne_nil_of_mem (mem_argmaxes.2 ⟨hi, hm⟩)

theorem sum_zip_range (a b : List K) (f : K → K → K) (h : a.length = b.length) :
    (List.zipWith f a b).sum = ∑ j ∈ Finset.range b.length, f (a.getD j 0) (b.getD j 0) := by
  induction a generalizing b with
  | nil => cases b with
    | nil => simp
    | cons x b => simp at h
  | cons x a ih =>
    cases b with
    | nil => simp at h
    | cons y b =>
      rw [List.zipWith_cons_cons, List.sum_cons, List.length_cons, Finset.sum_range_succ', ih b (by simpa using h)]
      simp [add_comm]

/-- **C69**: MMC's score is the expected number of wrong labels when the `p` most probable labels are predicted, `p` being the predicted number of
labels and `idx` the labels in descending order of probability (ties in any order). -/
theorem C69_mmc_score (proba : List K) (idx : List Nat) (hidx : Spec.IsArgsort proba idx.reverse) (p : Nat) (hp : p ≤ proba.length) :
    ∃ S, Spec.MostProbable proba.length (fun j => proba.getD j 0) p S ∧
      mmcScore proba idx p = Spec.expectedErrors proba.length (fun j => proba.getD j 0) S := by
  obtain ⟨hperm, hs⟩ := hidx
  have hperm' : idx.Perm (List.range proba.length) := (List.reverse_perm idx).symm.trans hperm
  have hnd : idx.Nodup := hperm'.nodup_iff.2 List.nodup_range
  have hlen : idx.length = proba.length := by rw [hperm'.length_eq]; simp
  have hsl : pySliceTo idx (p : Int) = idx.take p := by simp [pySliceTo]
  rw [List.pairwise_reverse] at hs
  refine ⟨idx.take p, ⟨hnd.sublist (List.take_sublist _ _), by simp [hlen, hp], ?_, ?_⟩, ?_⟩
  · intro j hj
    exact List.mem_range.1 (hperm'.mem_iff.1 (List.mem_of_mem_take hj))
  · intro j hj i hi hni
    have hmi : i ∈ idx := hperm'.mem_iff.2 (List.mem_range.2 hi)
    have hjn : j < proba.length := List.mem_range.1 (hperm'.mem_iff.1 (List.mem_of_mem_take hj))
    rw [← List.take_append_drop p idx, List.pairwise_append] at hs
    have hid : i ∈ idx.drop p := by
      rw [← List.take_append_drop p idx, List.mem_append] at hmi
      exact hmi.resolve_left hni
    have := hs.2.2 j hj i hid proba[i] proba[j] (by simp [hi]) (by simp [hjn])
    beta_reduce
    rw [List.getD_eq_getElem _ _ hi, List.getD_eq_getElem _ _ hjn]
    exact this
  · unfold mmcScore Spec.expectedErrors
    rw [sum_zip_range _ _ _ (by simp [signs])]
    apply Finset.sum_congr rfl
    intro j hj
    have hj' := Finset.mem_range.1 hj
    unfold signs
    rw [List.getD_eq_getElem _ _ (by simpa using hj'), List.getElem_map, List.getElem_range, hsl]
    split <;> ring

/-- **C69**: MMC selects an instance with the largest score, whatever the random choice among ties. -/
theorem C69_mmc_best (choose : List Nat → Nat) (hch : ∀ l : List Nat, l ≠ [] → choose l ∈ l) {score : List K} (h : score ≠ []) :
    ∃ k, mmcAsk choose score = .ok k ∧ ∃ hk : k < score.length, ∀ w ∈ score, w ≤ score[k] := by
  unfold mmcAsk
  rw [if_neg (by simpa using h)]
  exact ⟨_, rfl, mem_argmaxes.1 (hch _ (argmaxes_ne_nil h))⟩

theorem perm_length_take (idx : List Nat) (m : Nat) (h : m ≤ idx.length) : (idx.take m).length = m := by simp [h]

/-- With labels `-1 / 1` the label counts that the number of labels is learned from are sums of labels, `2k - n` for `k` of `n` labels. Then the
number of labels predicted for an instance with `k` labels is not `k`, even if the sum is predicted correctly — except for `k = 0` and `k = n`. -/
theorem C69_minus_one_violation {n k : Nat} (hk : k ≤ n) {idx : List Nat} (hidx : idx.Perm (List.range n)) :
    (pySliceTo idx (2 * (k : Int) - n)).length = k ↔ k = 0 ∨ k = n := by
  have hl : idx.length = n := by rw [hidx.length_eq]; simp
  unfold pySliceTo
  split
  · rw [List.length_take, hl]; omega
  · rw [List.length_take, hl]; omega

/-- **C69**: Adaptive selects an instance that has the largest score for one of the trade-offs, and among all of those one with the smallest
estimated error. -/
theorem C69_adaptive (order : List Nat → List Nat) (hord : ∀ l, (order l).Perm l) (choose : List Nat → Nat)
    (hch : ∀ l : List Nat, l ≠ [] → choose l ∈ l) {scores : List (List K)} (hs : scores ≠ []) (hne : ∀ s ∈ scores, s ≠ []) (err : Nat → K) :
    ∃ k, adaptiveAsk order choose scores err = .ok k ∧
      (∃ s ∈ scores, ∃ hk : k < s.length, ∀ w ∈ s, w ≤ s[k]) ∧
      ∀ s ∈ scores, ∀ j, (hj : j < s.length) → (∀ w ∈ s, w ≤ s[j]) → err k ≤ err j := by
  have hmem : ∀ k, k ∈ candidates order scores ↔ ∃ s ∈ scores, ∃ hk : k < s.length, ∀ w ∈ s, w ≤ s[k] := by
    intro k
    unfold candidates
    rw [(hord _).mem_iff, List.mem_eraseDups, List.mem_flatten]
    constructor
    · rintro ⟨l, hl, hk⟩
      obtain ⟨s, hs, rfl⟩ := List.mem_map.1 hl
      exact ⟨s, hs, mem_argmaxes.1 hk⟩
    · rintro ⟨s, hs, hk⟩
      exact ⟨argmaxes s, List.mem_map_of_mem hs, mem_argmaxes.2 hk⟩
  have hcne : candidates order scores ≠ [] := by
    obtain ⟨s, hs'⟩ := List.exists_mem_of_ne_nil _ hs
    obtain ⟨i, hi⟩ := List.exists_mem_of_ne_nil _ (argmaxes_ne_nil (hne s hs'))
    exact List.ne_nil_of_mem ((hmem i).2 ⟨s, hs', mem_argmaxes.1 hi⟩)
  unfold adaptiveAsk
  simp only
  rw [if_neg (by simpa using hcne)]
  generalize candidates order scores = cs at hmem hcne
  generalize hchs : (List.range (cs.map err).length).filter (fun i => (cs.map err).all (fun w => decide ((cs.map err).getD i 0 ≤ w))) = choices
  have hchm : ∀ i, i ∈ choices ↔ ∃ hi : i < cs.length, ∀ j ∈ cs, err cs[i] ≤ err j := by
    intro i
    rw [← hchs, List.mem_filter, List.mem_range, List.length_map]
    constructor
    · rintro ⟨h1, h2⟩
      refine ⟨h1, ?_⟩
      rw [List.getD_eq_getElem _ _ (by simpa using h1), List.getElem_map] at h2
      intro j hj
      have := List.all_eq_true.1 h2 (err j) (List.mem_map_of_mem hj)
      simpa using this
    · rintro ⟨h1, h2⟩
      refine ⟨h1, ?_⟩
      rw [List.getD_eq_getElem _ _ (by simpa using h1), List.getElem_map, List.all_eq_true]
      intro w hw
      obtain ⟨j, hj, rfl⟩ := List.mem_map.1 hw
      simpa using h2 j hj
  have hchne : choices ≠ [] := by
    obtain ⟨v, hv, hm⟩ := exists_argmax (l := cs.map (fun j => - err j)) (by simpa using hcne)
    obtain ⟨j, hj, rfl⟩ := List.mem_map.1 hv
    obtain ⟨i, hi, rfl⟩ := List.getElem_of_mem hj
    refine List.ne_nil_of_mem ((hchm i).2 ⟨hi, fun j hj => ?_⟩)
    have := hm _ (List.mem_map_of_mem (f := fun j => - err j) hj)
    simpa using this
  obtain ⟨hi, hmin⟩ := (hchm _).1 (hch _ hchne)
  rw [List.getElem?_eq_getElem hi]
  refine ⟨_, rfl, (hmem _).1 (List.getElem_mem hi), ?_⟩
  intro s hs j hj hjm
  exact hmin j ((hmem j).2 ⟨s, hs, hj, hjm⟩)

end

/-- Three unlabelled instances, a batch of two: the first and then the second of the rest are selected. -/
example : ∃ l u, select (fun _ u => .ok (u.inner.length - 2)) (.seq [⟨false, .int 7⟩]) (.coll (mk' [⟨false, .int 1⟩, ⟨false, .int 2⟩, ⟨false, .int 3⟩])) 2
    = (l, u, .ok [.tuple (.one ⟨true, .int 2⟩), .tuple (.one ⟨true, .int 1⟩)]) := ⟨_, _, rfl⟩
/-- A score: probabilities 0.9, 0.2 and one label predicted. -/
example : mmcScore (K := ℚ) [9/10, 2/10] [0, 1] 1 = 3/10 := by decide +kernel

end Alipy.MLBatch
