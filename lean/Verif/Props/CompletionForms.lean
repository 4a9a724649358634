import Verif.Model.CompletionForms
import Verif.Spec.CompletionForms
import Verif.Props.Forms
import Verif.Props.MultiLabelMask
import Verif.Props.Completion

/-! # C134: matrix completion with the observed entries given by their indexes -/
namespace Alipy.CompletionForms
open Alipy.MLIC Alipy.MLSelect Alipy.Features Alipy.Forms Alipy.Spec

variable {K : Type} [Field K] [LinearOrder K] [IsStrictOrderedRing K] {n d : Nat}

theorem readOmega_eq (a : PairArg) : readOmega n d a = checkFeature n d a := by
  cases a with
  | coll c => rfl
  | tuples l => cases l <;> rfl
  | flat l => cases l <;> rfl

omit [LinearOrder K] [IsStrictOrderedRing K] in
theorem asMat_entry {m : List (List Int)} {ps : List (Int × Int)} (h : ∀ i j : Nat, i < n → j < d → entry m i j = if ((i : Int), (j : Int)) ∈ ps then some 1 else some 0) :
    asMat n d m = (marked n d ps : Mat n d K) := by
  funext i j
  have hij := h i j i.2 j.2
  have e : (m.getD i []).getD j 0 = (entry m i j).getD 0 := by
    unfold entry
    rw [List.getD_eq_getElem?_getD, List.getD_eq_getElem?_getD]
    cases m[(i : Nat)]? <;> simp
  unfold asMat marked
  rw [e, hij]
  by_cases hp : ((i : Int), (j : Int)) ∈ ps
  · simp [hp]
  · simp [hp]

/-- The pairs of a collection that holds exactly the pairs `ps`. -/
theorem plain_of {c : MLIC} {ps : List (Int × Int)} (hm : ∀ q, q ∈ c.inner ↔ ∃ p ∈ ps, q = (p.1, .scal p.2)) :
    ∃ qs, plainPairs c.inner = some qs ∧ ∀ p, p ∈ qs ↔ p ∈ ps := by
  have : ∃ qs : List (Int × Int), c.inner = qs.map (fun p => (p.1, Second.scal p.2)) := by
    have hall : ∀ q ∈ c.inner, ∃ p : Int × Int, q = (p.1, Second.scal p.2) := fun q hq => by
      obtain ⟨p, -, e⟩ := (hm q).1 hq; exact ⟨p, e⟩
    clear hm
    revert hall
    generalize c.inner = l
    intro hall
    induction l with
    | nil => exact ⟨[], rfl⟩
    | cons q l ih =>
      obtain ⟨p, hp⟩ := hall q (by simp)
      obtain ⟨qs, hqs⟩ := ih (fun q hq => hall q (by simp [hq]))
      exact ⟨p :: qs, by rw [hqs, hp]; rfl⟩
  obtain ⟨qs, hqs⟩ := this
  refine ⟨qs, by rw [hqs]; exact plainPairs_map qs, fun p => ?_⟩
  have := hm (p.1, .scal p.2)
  rw [hqs, List.mem_map] at this
  constructor
  · intro hp
    obtain ⟨q, hq, e⟩ := this.1 ⟨p, hp, rfl⟩
    simp only [Prod.mk.injEq, Second.scal.injEq] at e
    rwa [Prod.ext e.1 e.2]
  · intro hp
    obtain ⟨q, hq, e⟩ := this.2 ⟨p, hp, rfl⟩
    simp only [Prod.mk.injEq, Second.scal.injEq] at e
    rwa [← Prod.ext e.1 e.2]

omit [LinearOrder K] [IsStrictOrderedRing K] in
/-- The mask of a collection that holds exactly the pairs `ps` of the matrix. -/
theorem mask_of {c : MLIC} {ps : List (Int × Int)} (hnd : c.inner.Nodup) (h : ∀ p ∈ ps, WithinShape n d p) (hm : ∀ q, q ∈ c.inner ↔ ∃ p ∈ ps, q = (p.1, .scal p.2)) :
    ∃ m, c.matrixMask n d 1 false = .ok m ∧ asMat n d m = (marked n d ps : Mat n d K) := by
  obtain ⟨qs, hq, hqm⟩ := plain_of hm
  obtain ⟨m, e, s, hent⟩ := maskLoop_spec (rows := n) (cols := d) 1 qs _ (zero_shape n d) (fun p hp => by
    obtain ⟨h1, h2, h3, h4⟩ := h p ((hqm p).1 hp)
    exact ⟨⟨h1, h2⟩, h3, h4⟩)
  refine ⟨m, by simp only [matrixMask, hq]; exact e, asMat_entry fun i j hi hj => ?_⟩
  rw [hent]
  by_cases hp : ((i : Int), (j : Int)) ∈ ps
  · rw [if_pos ((hqm _).2 hp), if_pos hp]
  · rw [if_neg (fun h => hp ((hqm _).1 h)), if_neg hp, zero_entry hi hj]

/-- C134: the observed entries may be given as tuples, as column major numbers or as a collection that holds them. In every form the completion is that of `AFASMC_mask_mc` for the mask
which is one exactly at the observed entries. -/
theorem C134_forms (complete : Mat n d K → Mat n d K → Except PyErr (Mat n d K)) (X : Mat n d K) (ps : List (Int × Int)) (hne : ps ≠ []) (h : ∀ p ∈ ps, WithinShape n d p) :
    afasmcMc complete X (.tuples (ps.map tupleOf)) = afasmc false (complete (marked n d ps)) X (marked n d ps) ∧
    afasmcMc complete X (.flat (ps.map (columnMajor n))) = afasmc false (complete (marked n d ps)) X (marked n d ps) ∧
    ∀ c, TameReachable c → (∀ q, q ∈ c.inner ↔ ∃ p ∈ ps, q = (p.1, .scal p.2)) → afasmcMc complete X (.coll c) = afasmc false (complete (marked n d ps)) X (marked n d ps) := by
  obtain ⟨c, -, -, hf, ht, hn, -, hm⟩ := C105_numbers_or_tuples n d ps hne h
  obtain ⟨m, hmask, hmat⟩ := mask_of (K := K) hn h hm
  refine ⟨?_, ?_, fun c hc hm => ?_⟩
  · simp only [afasmcMc, readOmega_eq, ht, hmask, hmat]
  · simp only [afasmcMc, readOmega_eq, hf, hmask, hmat]
  · obtain ⟨m, hmask, hmat⟩ := mask_of (K := K) (C07_only_legal_pairs_partial c hc).1 h hm
    simp only [afasmcMc, readOmega, hmask, hmat]

omit [LinearOrder K] [IsStrictOrderedRing K] in
theorem marked_congr {ps qs : List (Int × Int)} (h : ∀ p, p ∈ ps ↔ p ∈ qs) : (marked n d ps : Mat n d K) = marked n d qs := by
  funext i j
  unfold marked
  simp only [h]

/-- C134: the order in which the observed entries are given, and how often each of them is given, do not matter, also across the forms. -/
theorem C134_order (complete : Mat n d K → Mat n d K → Except PyErr (Mat n d K)) (X : Mat n d K) (ps qs : List (Int × Int)) (hne : ps ≠ []) (h : ∀ p ∈ ps, WithinShape n d p)
    (hpq : ∀ p, p ∈ ps ↔ p ∈ qs) :
    afasmcMc complete X (.tuples (ps.map tupleOf)) = afasmcMc complete X (.tuples (qs.map tupleOf)) ∧
    afasmcMc complete X (.flat (ps.map (columnMajor n))) = afasmcMc complete X (.flat (qs.map (columnMajor n))) ∧
    afasmcMc complete X (.tuples (ps.map tupleOf)) = afasmcMc complete X (.flat (qs.map (columnMajor n))) := by
  have hne' : qs ≠ [] := by
    obtain ⟨p, hp⟩ := List.exists_mem_of_ne_nil _ hne
    exact List.ne_nil_of_mem ((hpq p).1 hp)
  have h' : ∀ p ∈ qs, WithinShape n d p := fun p hp => h p ((hpq p).2 hp)
  obtain ⟨a, b, -⟩ := C134_forms complete X ps hne h
  obtain ⟨a', b', -⟩ := C134_forms complete X qs hne' h'
  rw [a, b, a', b', marked_congr hpq]
  exact ⟨rfl, rfl, rfl⟩

/-- C134: the completed matrix has the values of `X` at the entries given as observed, in whatever form. -/
theorem C134_keeps (complete : Mat n d K → Mat n d K → Except PyErr (Mat n d K)) (X R : Mat n d K) (ps : List (Int × Int)) (hne : ps ≠ []) (h : ∀ p ∈ ps, WithinShape n d p)
    (hR : afasmcMc complete X (.tuples (ps.map tupleOf)) = .ok R) (i : Fin n) (j : Fin d) (hij : ((i : Int), (j : Int)) ∈ ps) : R i j = X i j := by
  rw [(C134_forms complete X ps hne h).1] at hR
  exact C47_afasmc_keeps hR (by simp [marked, hij])

/-- C134: what `X` has at the entries that are not observed does not matter: "the unobserved entries can be anything". -/
theorem C134_unobserved (complete : Mat n d K → Mat n d K → Except PyErr (Mat n d K)) (X X' : Mat n d K) (ps : List (Int × Int)) (hne : ps ≠ []) (h : ∀ p ∈ ps, WithinShape n d p)
    (hX : ∀ (i : Fin n) (j : Fin d), ((i : Int), (j : Int)) ∈ ps → X i j = X' i j) :
    afasmcMc complete X (.tuples (ps.map tupleOf)) = afasmcMc complete X' (.tuples (ps.map tupleOf)) := by
  rw [(C134_forms complete X ps hne h).1, (C134_forms complete X' ps hne h).1]
  refine C47_afasmc_noninterference false _ (fun i j => ?_) (fun i j hm => ?_)
  · by_cases hp : ((i : Int), (j : Int)) ∈ ps
    · right; simp [marked, hp]
    · left; simp [marked, hp]
  · by_cases hp : ((i : Int), (j : Int)) ∈ ps
    · exact hX i j hp
    · simp [marked, hp] at hm

/-- C134: if some entry is observed and some entry is not, `AFASMC_mask_mc` accepts the mask and gives the same. -/
theorem C134_mask (complete : Mat n d K → Mat n d K → Except PyErr (Mat n d K)) (X : Mat n d K) (ps : List (Int × Int)) (hne : ps ≠ []) (h : ∀ p ∈ ps, WithinShape n d p)
    (hout : ∃ (i : Fin n) (j : Fin d), ((i : Int), (j : Int)) ∉ ps) :
    afasmcMc complete X (.tuples (ps.map tupleOf)) = afasmc true (complete (marked n d ps)) X (marked n d ps) := by
  rw [(C134_forms complete X ps hne h).1]
  have hmask : isMask (marked n d ps : Mat n d K) = true := by
    have hc : ∀ p : Fin n × Fin d, p ∈ cells n d := fun p => by
      unfold cells
      exact List.mem_flatMap.2 ⟨p.1, List.mem_finRange _, List.mem_map.2 ⟨p.2, List.mem_finRange _, rfl⟩⟩
    obtain ⟨i, j, hij⟩ := hout
    obtain ⟨p, hp⟩ := List.exists_mem_of_ne_nil _ hne
    obtain ⟨h1, h2, h3, h4⟩ := h p hp
    simp only [isMask, Bool.and_eq_true, List.all_eq_true, List.any_eq_true, Bool.or_eq_true, decide_eq_true_eq]
    refine ⟨⟨fun q _ => ?_, (i, j), hc _, by simp [marked, hij]⟩, (⟨p.1.toNat, by omega⟩, ⟨p.2.toNat, by omega⟩), hc _, ?_⟩
    · unfold marked
      by_cases hq : ((q.1 : Int), (q.2 : Int)) ∈ ps
      · right; simp [hq]
      · left; simp [hq]
    · have e : ((p.1.toNat : Nat) : Int) = p.1 := Int.toNat_of_nonneg h1
      have e' : ((p.2.toNat : Nat) : Int) = p.2 := Int.toNat_of_nonneg h3
      unfold marked
      simp [e, e', hp]
  simp [afasmc, hmask]

/-- Six entries of which four are observed, completed with zeros. -/
example : ∃ R, afasmcMc (n := 2) (d := 3) (K := ℚ) (fun _ _ => .ok (fun _ _ => 0)) (fun i j => i + 2 * j + 1) (.flat [0, 3, 4, 3]) = .ok R ∧ R 1 1 = 4 ∧ R 0 1 = 0 ∧ R 0 2 = 5 ∧ R 1 2 = 0 :=
  ⟨_, rfl, by decide +kernel, by decide +kernel, by decide +kernel, by decide +kernel⟩

example : (∀ p ∈ ([(0, 0), (1, 1), (0, 2)] : List (Int × Int)), WithinShape 2 3 p) ∧ ([(0, 0), (1, 1), (0, 2)] : List (Int × Int)).map (columnMajor 2) = [0, 3, 4] ∧
    ∃ (i : Fin 2) (j : Fin 3), ((i : Int), (j : Int)) ∉ ([(0, 0), (1, 1), (0, 2)] : List (Int × Int)) := by
  refine ⟨?_, by decide, 0, 1, by decide⟩
  intro p hp
  simp at hp
  rcases hp with rfl | rfl | rfl <;> simp [WithinShape]

/-- C134: numbers outside the matrix are refused with the documented error. -/
theorem C134_out_of_range (complete : Mat n d K → Mat n d K → Except PyErr (Mat n d K)) (X : Mat n d K) (ks : List Int) (hk : ∃ k ∈ ks, k < 0 ∨ (n : Int) * d ≤ k) :
    afasmcMc complete X (.flat ks) = .error .valueError := by
  obtain ⟨k, hk, hb⟩ := hk
  have : by1d ks n d .F = .error .valueError := by
    unfold by1d
    rw [if_neg]
    simp only [List.all_eq_true, decide_eq_true_eq, not_forall]
    exact ⟨k, hk, by omega⟩
  cases ks with
  | nil => simp at hk
  | cons a r => simp only [afasmcMc, readOmega, this]

example : afasmcMc (n := 2) (d := 3) (K := ℚ) (fun _ _ => .ok (fun _ _ => 0)) (fun _ _ => 1) (.flat [0, 6]) = .error .valueError := C134_out_of_range _ _ _ ⟨6, by simp, by norm_num⟩

/-- The loop over the tuples raises if one of them has a feature outside the matrix. -/
theorem flattenLoop_outside (d : Int) : ∀ (ps : List (Int × Int)), (∃ p ∈ ps, p.2 < 0 ∨ d ≤ p.2) → ∃ e, flattenLoop d (ps.map fun p => Ix.pair p.1 (.scal p.2)) = .error e
  | [], h => by simp at h
  | p :: r, h => by
    by_cases h1 : 0 ≤ p.2 ∧ p.2 < d
    · obtain ⟨q, hq, hb⟩ := h
      rcases List.mem_cons.1 hq with rfl | hq
      · omega
      · obtain ⟨e, he⟩ := flattenLoop_outside d r ⟨q, hq, hb⟩
        exact ⟨e, by simp only [List.map_cons, flattenLoop, flatten1, if_pos h1, he]⟩
    · exact ⟨_, by simp only [List.map_cons, flattenLoop, flatten1, if_neg h1]; rfl⟩

/-- The tuples are accepted as such. -/
theorem allTuples_pairs : ∀ ps : List (Int × Int), allTuples (ps.map tupleOf) = some (ps.map fun p => Ix.pair p.1 (.scal p.2))
  | [] => rfl
  | p :: r => by
    have := allTuples_pairs r
    simp only [List.map_cons, tupleOf, allTuples] at this ⊢
    simp [this]

/-- C134: a feature outside the matrix is refused with the documented error in a tuple as well, wherever it is in the list and whatever the other tuples are. -/
theorem C134_feature_out_of_range (complete : Mat n d K → Mat n d K → Except PyErr (Mat n d K)) (X : Mat n d K) (ps : List (Int × Int))
    (h : ∃ p ∈ ps, p.2 < 0 ∨ (d : Int) ≤ p.2) : afasmcMc complete X (.tuples (ps.map tupleOf)) = .error .valueError := by
  obtain ⟨e, he⟩ := flattenLoop_outside d ps h
  have hm : ∃ e, mk' (ps.map tupleOf) (some (d : Int)) = .error e := by
    have ht := allTuples_pairs ps
    cases ps with
    | nil => simp at h
    | cons p r =>
      simp only [List.map_cons] at ht he ⊢
      unfold mk'
      simp only [checkIndexMultilabel, ht, flatten]
      by_cases hd : (0 : Int) < d
      · simp only [if_pos hd, he]; exact ⟨_, rfl⟩
      · simp only [if_neg hd]; exact ⟨_, rfl⟩
  obtain ⟨e', hm⟩ := hm
  cases ps with
  | nil => simp at h
  | cons p r =>
    simp only [List.map_cons] at hm ⊢
    simp only [afasmcMc, readOmega, hm]

example : afasmcMc (n := 2) (d := 3) (K := ℚ) (fun _ _ => .ok (fun _ _ => 0)) (fun _ _ => 1) (.tuples [tupleOf (1, 2), tupleOf (0, 3), tupleOf (7, 0)]) = .error .valueError :=
  C134_feature_out_of_range _ _ [(1, 2), (0, 3), (7, 0)] ⟨(0, 3), by simp, by norm_num⟩

/-- The entry of the example counted from the end, if the number of the example is negative. -/
def fromEnd (n : Nat) (p : Int × Int) : Int × Int := (if p.1 < 0 then n + p.1 else p.1, p.2)

theorem maskLoop_fromEnd {n d : Nat} (v : Int) : ∀ (qs : List (Int × Int)) (m : List (List Int)), (∀ q ∈ qs, -(n : Int) ≤ q.1) →
    maskLoop n d v m qs = maskLoop n d v m (qs.map (fromEnd n))
  | [], _, _ => rfl
  | q :: qs, m, h => by
    have ha : maskAssign n d m v q = maskAssign n d m v (fromEnd n q) := by
      have h1 := h q (by simp)
      unfold fromEnd
      by_cases h0 : q.1 < 0
      · have g : ¬ (0 ≤ q.1 ∧ q.1 < (n : Int)) := by omega
        have g1 : q.1 < 0 ∧ -(n : Int) ≤ q.1 := by omega
        have g2 : 0 ≤ (n : Int) + q.1 ∧ (n : Int) + q.1 < n := by omega
        have g3 : q.1 + (n : Int) = n + q.1 := by omega
        simp only [maskAssign, if_pos h0, if_neg g, if_pos g1, if_pos g2, g3]
      · simp only [if_neg h0]
    simp only [List.map_cons, maskLoop, ha]
    cases maskAssign n d m v (fromEnd n q) with
    | error e => rfl
    | ok m' => exact maskLoop_fromEnd v qs m' fun q hq => h q (by simp [hq])

theorem maskLoop_beyond {n d : Nat} (v : Int) : ∀ (qs : List (Int × Int)) (m : List (List Int)), (∃ q ∈ qs, q.1 < -(n : Int) ∨ (n : Int) ≤ q.1) → maskLoop n d v m qs = .error .indexError
  | [], _, h => by simp at h
  | q :: qs, m, h => by
    simp only [maskLoop]
    cases ha : maskAssign n d m v q with
    | error e =>
      unfold maskAssign at ha
      simp only at ha
      split at ha
      · exact nomatch ha
      · cases ha; rfl
    | ok m' =>
      obtain ⟨q', hq', hb⟩ := h
      rcases List.mem_cons.1 hq' with rfl | hq'
      · have g : ¬ (0 ≤ q'.1 ∧ q'.1 < (n : Int)) := by omega
        have g1 : ¬ (q'.1 < 0 ∧ -(n : Int) ≤ q'.1) := by omega
        simp only [maskAssign, if_neg g, if_neg g1] at ha
        exact nomatch ha
      · exact maskLoop_beyond v qs m' ⟨q', hq', hb⟩

/-- C134, negative: an example outside the matrix is not noticed when the tuples are read, wherever it is in the list. If one is beyond the last example (or so far below 0 that it cannot be
counted from the end), the mask raises IndexError; negative ones are counted from the end, and the entries of other examples are taken for observed. -/
theorem C134_row_violation (complete : Mat n d K → Mat n d K → Except PyErr (Mat n d K)) (X : Mat n d K) (ps : List (Int × Int)) (hf : ∀ p ∈ ps, 0 ≤ p.2 ∧ p.2 < d) :
    ((∃ p ∈ ps, p.1 < -(n : Int) ∨ (n : Int) ≤ p.1) → afasmcMc complete X (.tuples (ps.map tupleOf)) = .error .indexError) ∧
    ((∀ p ∈ ps, -(n : Int) ≤ p.1 ∧ p.1 < n) → afasmcMc complete X (.tuples (ps.map tupleOf)) = afasmcMc complete X (.tuples ((ps.map (fromEnd n)).map tupleOf))) := by
  by_cases hne : ps = []
  · subst hne; exact ⟨fun h => by simp at h, fun _ => rfl⟩
  obtain ⟨c, hc, -, -, hm⟩ := mk_tuples (m := d) hne hf
  obtain ⟨qs, hq, hqm⟩ := plain_of hm
  have ho : readOmega n d (.tuples (ps.map tupleOf)) = .ok c := by
    cases ps with
    | nil => exact absurd rfl hne
    | cons p r => simp only [List.map_cons] at hc ⊢; simp only [readOmega, hc]
  refine ⟨fun ⟨p, hp, hb⟩ => ?_, fun hr => ?_⟩
  · have := maskLoop_beyond (n := n) (d := d) 1 qs (List.replicate n (List.replicate d (0 : Int))) ⟨p, (hqm p).2 hp, hb⟩
    simp only [afasmcMc, ho, matrixMask, hq, this, Bool.false_eq_true, if_false]
  · have hin : ∀ p ∈ ps.map (fromEnd n), WithinShape n d p := fun p hp => by
      obtain ⟨q, hq, rfl⟩ := List.mem_map.1 hp
      have h1 := hr q hq
      have h2 := hf q hq
      unfold fromEnd
      refine ⟨?_, ?_, h2.1, h2.2⟩ <;> dsimp only <;> split <;> omega
    rw [(C134_forms complete X (ps.map (fromEnd n)) (by simpa using hne) hin).1]
    have h1 := maskLoop_fromEnd (n := n) (d := d) 1 qs (List.replicate n (List.replicate d (0 : Int))) fun q hq => (hr q ((hqm q).1 hq)).1
    have hmem : ∀ p, p ∈ qs.map (fromEnd n) ↔ p ∈ ps.map (fromEnd n) := fun p => by
      simp only [List.mem_map, hqm]
    obtain ⟨m, e, s, hent⟩ := maskLoop_spec (rows := n) (cols := d) 1 (qs.map (fromEnd n)) _ (zero_shape n d) (fun p hp => by
      obtain ⟨h1, h2, h3, h4⟩ := hin p ((hmem p).1 hp)
      exact ⟨⟨h1, h2⟩, h3, h4⟩)
    have hmat : asMat n d m = (marked n d (ps.map (fromEnd n)) : Mat n d K) := asMat_entry fun i j hi hj => by
      rw [hent, zero_entry hi hj]
      by_cases hp : ((i : Int), (j : Int)) ∈ ps.map (fromEnd n)
      · rw [if_pos ((hmem _).2 hp), if_pos hp]
      · rw [if_neg (fun h => hp ((hmem _).1 h)), if_neg hp]
    have he : c.matrixMask n d 1 false = .ok m := by
      simp only [matrixMask, hq, h1, Bool.false_eq_true, if_false]
      exact e
    simp only [afasmcMc, ho, he, hmat]

example : afasmcMc (n := 2) (d := 3) (K := ℚ) (fun _ _ => .ok (fun _ _ => 0)) (fun _ _ => 1) (.tuples [tupleOf (0, 1), tupleOf (2, 1)]) = .error .indexError :=
  (C134_row_violation _ _ [(0, 1), (2, 1)] (by simp)).1 ⟨(2, 1), by simp, by norm_num⟩

/-- C134, negative: nothing observed can only be said with a collection, and a complete matrix is accepted as indexes though it is refused as a mask. -/
theorem C134_bounds_violation (complete : Mat n d K → Mat n d K → Except PyErr (Mat n d K)) (X : Mat n d K) (lsz : Option Int) :
    afasmcMc complete X (.tuples []) = .error .valueError ∧ afasmcMc complete X (.flat []) = .error .valueError ∧
    afasmcMc complete X (.coll (MLIC.empty lsz)) = afasmc false (complete (marked n d [])) X (marked n d []) ∧
    afasmc true (complete (marked n d [])) X (marked n d []) = .error .assertionError ∧
    ∀ ps : List (Int × Int), (∀ p, p ∈ ps ↔ WithinShape n d p) → afasmc true (complete (marked n d ps)) X (marked n d ps) = .error .assertionError := by
  refine ⟨rfl, rfl, ?_, ?_, fun ps hps => ?_⟩
  · have : asMat n d (List.replicate n (List.replicate d (0 : Int))) = (marked n d [] : Mat n d K) := asMat_entry fun i j hi hj => by simpa using zero_entry hi hj
    simp only [afasmcMc, readOmega, MLIC.empty, matrixMask, plainPairs, maskLoop, Bool.false_eq_true, if_false, this]
  · refine C47_full_mask_raises _ _ ?_
    right; intro i j; simp [marked]
  · refine C47_full_mask_raises _ _ ?_
    left; intro i j
    have : ((i : Int), (j : Int)) ∈ ps := (hps _).2 ⟨by simp, by simp, by simp, by simp⟩
    simp [marked, this]

end Alipy.CompletionForms
