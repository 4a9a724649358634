import Verif.Model.FeatureCalls
import Verif.Props.Completion
/-!
# C60: successive calls of `QueryFeatureAFASMC.select`
-/
namespace Alipy.Features
section
variable {K : Type} [Field K] [LinearOrder K] [IsStrictOrderedRing K]

/-- The mask of the entries observed. -/
def observedMask (train : List Int) (nFeat : Nat) (observed : List (Int × Nat)) : Mat train.length nFeat K := fun a b => if (train.get a, (b : Nat)) ∈ observed then 1 else 0

/-- A call that can be made: the observed entries are entries of the training set, the comparisons work, and two entries are unknown. -/
structure Proper (train : List Int) (cmp : Int × Nat → Bool) (call : List (Int × Nat) × List (Int × Nat)) : Prop where
  cmp : ∀ e ∈ call.1, cmp e = true
  train : ∀ e ∈ call.1, e.1 ∈ train
  two : 2 ≤ call.2.length

/-- The result of a call is that of `select` with the matrices kept so far. -/
theorem call_select {train : List Int} {nFeat : Nat} (complete : Mat train.length nFeat K → Mat train.length nFeat K → Except PyErr (Mat train.length nFeat K)) (X : Mat train.length nFeat K)
    (cmp : Int × Nat → Bool) (hist : List (Mat train.length nFeat K)) (observed unknown : List (Int × Nat)) :
    (afasmcCall complete X cmp train rfl hist observed unknown).2 = featureSelect cmp train nFeat (afasmcMats complete X hist) observed unknown := by
  unfold afasmcCall featureSelect
  split_ifs
  · rfl
  · cases mapEntries cmp train observed with
    | error e => rfl
    | ok es =>
      simp only
      cases afasmcMats complete X hist (maskOf train.length nFeat es) with
      | error e => rfl
      | ok ms =>
        simp only
        cases chooseCell ms (maskOf train.length nFeat es) with
        | error e => rfl
        | ok p => rfl

/-- The mask of the mapped entries is that of the observed ones. -/
theorem mask_observed {train : List Int} (ht : train.Nodup) {nFeat : Nat} {observed : List (Int × Nat)} (ho : ∀ e ∈ observed, e.1 ∈ train) :
    (maskOf train.length nFeat (observed.map (fun e => (train.idxOf e.1, e.2))) : Mat train.length nFeat K) = observedMask train nFeat observed := by
  funext a b
  unfold maskOf observedMask
  have key : (((a : Nat), (b : Nat)) ∈ observed.map (fun e => (train.idxOf e.1, e.2)) ↔ (train.get a, (b : Nat)) ∈ observed) := by
    constructor
    · intro h
      obtain ⟨e, he, hee⟩ := List.mem_map.1 h
      have h1 : train.idxOf e.1 = a := congrArg Prod.fst hee
      have h2 : e.2 = b := congrArg Prod.snd hee
      have h3 : train.get a = e.1 := by
        have hlt : train.idxOf e.1 < train.length := List.idxOf_lt_length_of_mem (ho e he)
        have h4 := List.getElem_idxOf hlt
        simp only [List.get_eq_getElem]
        simpa [h1] using h4
      rw [h3, ← h2]; exact he
    · intro h
      refine List.mem_map.2 ⟨_, h, ?_⟩
      simp only [List.get_eq_getElem]
      rw [List.Nodup.idxOf_getElem ht]
  simp only [key]

/-- A proper call keeps one matrix more, the completion for what was observed. -/
theorem call_keeps {train : List Int} (ht : train.Nodup) {nFeat : Nat} {complete : Mat train.length nFeat K → Mat train.length nFeat K → Except PyErr (Mat train.length nFeat K)}
    {X : Mat train.length nFeat K} {cmp : Int × Nat → Bool} (hist : List (Mat train.length nFeat K)) {call : List (Int × Nat) × List (Int × Nat)} (h : Proper train cmp call)
    {M : Mat train.length nFeat K} (hM : afasmc false (complete (observedMask train nFeat call.1)) X (observedMask train nFeat call.1) = .ok M) :
    (afasmcCall complete X cmp train rfl hist call.1 call.2).1 = hist ++ [M] := by
  unfold afasmcCall
  rw [if_neg (by have := h.two; omega), mapEntries_ok h.cmp h.train]
  simp only
  rw [mask_observed ht h.train]
  simp only [afasmcMats, hM]
  split <;> rfl

/-- **C60**: after any number of calls the object keeps one completion for every call, in this order, each of them that of the entries observed then. -/
theorem C60_calls {train : List Int} (ht : train.Nodup) {nFeat : Nat} {complete : Mat train.length nFeat K → Mat train.length nFeat K → Except PyErr (Mat train.length nFeat K)}
    {X : Mat train.length nFeat K} {cmp : Int × Nat → Bool} {comp : List (Int × Nat) → Mat train.length nFeat K} :
    ∀ {calls : List (List (Int × Nat) × List (Int × Nat))}, (∀ k ∈ calls, Proper train cmp k ∧
      afasmc false (complete (observedMask train nFeat k.1)) X (observedMask train nFeat k.1) = .ok (comp k.1)) → ∀ hist,
    calls.foldl (fun h k => (afasmcCall complete X cmp train rfl h k.1 k.2).1) hist = hist ++ calls.map (fun k => comp k.1)
  | [], _, hist => by simp
  | k :: calls, h, hist => by
    obtain ⟨h1, h2⟩ := h k (by simp)
    rw [List.foldl_cons, call_keeps ht hist h1 h2, C60_calls ht (fun k' hk' => h k' (by simp [hk']))]
    simp

/-- **C60** (partial: some missing entry has changed; otherwise `C60_observed_violation` applies): the next call returns a missing entry, and no missing entry has varied more over the
completions of all calls made so far, the last one included. -/
theorem C60_most_changing_partial {train : List Int} (ht : train.Nodup) {nFeat : Nat} {complete : Mat train.length nFeat K → Mat train.length nFeat K → Except PyErr (Mat train.length nFeat K)}
    {X : Mat train.length nFeat K} {cmp : Int × Nat → Bool} {comp : List (Int × Nat) → Mat train.length nFeat K} {calls : List (List (Int × Nat) × List (Int × Nat))}
    {observed unknown : List (Int × Nat)} (h : ∀ k ∈ calls ++ [(observed, unknown)], Proper train cmp k ∧
      afasmc false (complete (observedMask train nFeat k.1)) X (observedMask train nFeat k.1) = .ok (comp k.1)) (hne : calls ≠ [])
    {i : Fin train.length} {j : Fin nFeat} (hm : (train.get i, (j : Nat)) ∉ observed)
    (hv : 0 < variance ((calls.map (fun k => comp k.1) ++ [comp observed]).map (fun M => M i j))) :
    ∃ (p : Fin train.length × Fin nFeat),
      (afasmcCall complete X cmp train rfl (calls.foldl (fun h k => (afasmcCall complete X cmp train rfl h k.1 k.2).1) []) observed unknown).2 = .ok [(train.get p.1, p.2)] ∧
      (train.get p.1, (p.2 : Nat)) ∉ observed ∧ ∀ (a : Fin train.length) (b : Fin nFeat), (train.get a, (b : Nat)) ∉ observed →
        variance ((calls.map (fun k => comp k.1) ++ [comp observed]).map (fun M => M a b)) ≤ variance ((calls.map (fun k => comp k.1) ++ [comp observed]).map (fun M => M p.1 p.2)) := by
  obtain ⟨hp, hc⟩ := h (observed, unknown) (by simp)
  rw [C60_calls ht (fun k hk => h k (by simp [hk])), call_select, List.nil_append]
  have hmask : ∀ mask : Mat train.length nFeat K, (∀ (a : Fin train.length) (b : Fin nFeat), mask a b = if (train.get a, (b : Nat)) ∈ observed then 1 else 0) →
      mask = observedMask train nFeat observed := fun mask hk => by funext a b; exact hk a b
  have hms : afasmcMats complete X (calls.map (fun k => comp k.1)) (observedMask train nFeat observed) = .ok (calls.map (fun k => comp k.1) ++ [comp observed]) := by
    simp only at hc
    simp only [afasmcMats, hc]
  obtain ⟨mask, ms, p, h1, h2, h3, h4, h5⟩ := select_core (mats := afasmcMats complete X (calls.map (fun k => comp k.1))) ht hp.cmp hp.two hp.train (i := i) (j := j) hm
    (fun mask hk => by rw [hmask mask hk]; exact ⟨_, hms, .inr hv⟩)
  rw [hmask mask h1, hms] at h2
  injection h2 with h2
  subst h2
  exact ⟨p, h3, h4, h5 (by have := List.length_pos_iff.2 hne; simp; omega)⟩

/-- The mean of the observed entries as completion: after the first call entry (7, 0) has been looked up, and the second call takes another missing one. -/
example : let calls : List (List (Int × Nat) × List (Int × Nat)) := [([(7, 1)], [(7, 0), (9, 0), (9, 1)])]
    let complete : Mat 2 2 ℚ → Mat 2 2 ℚ → Except PyErr (Mat 2 2 ℚ) := fun m M => .ok (fun _ j => (M 0 j + M 1 j) / (m 0 j + m 1 j + 1))
    (afasmcCall complete (fun i j => 4 * (i.1 : ℚ) + 2 * j.1 + 1) (fun _ => true) [7, 9] rfl
      (calls.foldl (fun h k => (afasmcCall complete (fun i j => 4 * (i.1 : ℚ) + 2 * j.1 + 1) (fun _ => true) [7, 9] rfl h k.1 k.2).1) []) [(7, 1), (7, 0)] [(9, 0), (9, 1)]).2.toOption =
      some [(9, 0)] := by decide +kernel

end
end Alipy.Features
