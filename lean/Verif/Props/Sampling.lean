import Verif.Proof.Misc

/-! # C05, C06, C31: random permutations, sub-sampling, n largest / smallest -/
namespace Alipy
open IC

/-! ## C05 -/

/-- C05: for `k ≥ 0`, `randperm((start,stop), k)` raises ValueError exactly if `k` exceeds the number of
integers in `[start, stop]` (as computed `stop - start + 1`), and otherwise returns `k` distinct integers of the
range, for every effect of the shuffle. -/
theorem C05_randperm_k (shuffle : List Int → List Int) (hs : Spec.IsShuffle shuffle) (start stop k : Int)
    (hk : 0 ≤ k) :
    (stop - start + 1 < k → randperm shuffle (.pair (some start) stop) (.int k) = .error .valueError) ∧
    (k ≤ stop - start + 1 → ∃ l, randperm shuffle (.pair (some start) stop) (.int k) = .ok l ∧
      (l.length : Int) = k ∧ l.Nodup ∧ ∀ x ∈ l, start ≤ x ∧ x ≤ stop) := by
  constructor
  · intro h; simp [randperm, h]
  · intro h; exact randperm_pair shuffle hs start stop k hk h

/-- C05: without `k` the result lists every integer of the range exactly once. -/
theorem C05_randperm_all (shuffle : List Int → List Int) (hs : Spec.IsShuffle shuffle) (start stop : Int) :
    ∃ l, randperm shuffle (.pair (some start) stop) .default = .ok l ∧ l.Nodup ∧
      ∀ x, x ∈ l ↔ (start ≤ x ∧ x ≤ stop) := by
  have hp := hs (pyRange start (stop + 1))
  have hl : (shuffle (pyRange start (stop + 1))).length = (stop + 1 - start).toNat := by
    rw [hp.length_eq, pyRange_length]
  have hall : pySliceTo (shuffle (pyRange start (stop + 1))) (stop - start + 1) =
      shuffle (pyRange start (stop + 1)) := by
    unfold pySliceTo
    split
    · exact List.take_of_length_le (by omega)
    · have : shuffle (pyRange start (stop + 1)) = [] := List.eq_nil_of_length_eq_zero (by omega)
      simp [this]
  refine ⟨_, rfl, ?_, ?_⟩
  · simp only [hall]; exact hp.nodup_iff.2 (pyRange_nodup _ _)
  · intro x; simp only [hall]; rw [hp.mem_iff, mem_pyRange]; omega

/-- C05: an integer argument (or a missing start) means a range starting at 0. -/
theorem C05_randperm_default_start (shuffle : List Int → List Int) (stop : Int) (k : RandK) :
    randperm shuffle (.int stop) k = randperm shuffle (.pair (some 0) stop) k ∧
    randperm shuffle (.pair none stop) k = randperm shuffle (.pair (some 0) stop) k := ⟨rfl, rfl⟩

/-- C05, caution (outside of the property): a negative `k` is not refused. The slice `[0:k]` then drops the last `-k` of the
shuffled numbers, so for `-(stop - start + 1) ≤ k < 0` the caller gets `stop - start + 1 + k` numbers. -/
theorem C05_negative_k_is_not_refused (shuffle : List Int → List Int) (hs : Spec.IsShuffle shuffle) (start stop k : Int)
    (hk : k < 0) (hl : -k ≤ stop - start + 1) :
    ∃ l, randperm shuffle (.pair (some start) stop) (.int k) = .ok l ∧ (l.length : Int) = stop - start + 1 + k := by
  have hp := (hs (pyRange start (stop + 1))).length_eq
  rw [pyRange_length] at hp
  have h1 : ¬ (stop - start + 1 < k) := by omega
  refine ⟨pySliceTo (shuffle (pyRange start (stop + 1))) k, by simp [randperm, h1], ?_⟩
  unfold pySliceTo
  rw [if_neg (by omega), List.length_take, hp]
  omega

example : Spec.IsShuffle (fun l : List Int => l.reverse) := fun l => List.reverse_perm l
example : randperm List.reverse (.pair (some 2) 6) (.int 3) = .ok [6, 5, 4] := by decide

/-! ## C06 -/

/-- C06: `random_sampling(rate)` never fails for `0 < rate < 1`, and gives a collection of
`round(rate * len)` distinct indexes all held by `c` (for every effect of the shuffle); other rates are refused.
(`c` itself is unchanged: the function returns only the new collection.) -/
theorem C06_random_sampling (shuffle : List Int → List Int) (hs : Spec.IsShuffle shuffle) (c : IC)
    (hc : Reachable c) (rate : ℚ) :
    (¬ (0 < rate ∧ rate < 1) → c.randomSampling shuffle rate = .error .assertionError) ∧
    (0 < rate → rate < 1 → ∃ d, c.randomSampling shuffle rate = .ok d ∧
      Spec.IsRound (rate * c.inner.length) d.inner.length ∧
      d.inner.Pairwise (fun v w => pyEq v w = false) ∧
      ∀ v ∈ d.inner, pyMem v c.inner = true) := by
  constructor
  · intro h; simp [randomSampling, h]
  · intro h0 h1
    have hlen0 : (0 : ℚ) ≤ c.inner.length := by positivity
    have hk0 : 0 ≤ pyRound (rate * c.inner.length) := pyRound_nonneg (mul_nonneg h0.le hlen0)
    have hk1 : pyRound (rate * c.inner.length) ≤ c.inner.length := by
      apply pyRound_le_of_le
      push_cast
      nlinarith
    obtain ⟨l, hl, hlen, hnd, hmem⟩ := randperm_pair shuffle hs 0 ((c.inner.length : Int) - 1)
      (pyRound (rate * c.inner.length)) hk0 (by omega)
    obtain ⟨vs, hp, hvl, hf⟩ := pickAll_ok c.inner l (fun i hi => by have := hmem i hi; omega)
    have hkeys := forall₂_pick_nodup Val.key (reachable_nodup hc) hf hnd (fun i hi => (hmem i hi).1)
    have hvmem := forall₂_pick_mem hf
    have hwt := reachable_wellTyped hc
    -- the elements picked have one kind, so the array conversion does not change what they compare equal to
    have hco : (coerce vs).map Base.key = vs.map Val.key := by
      have hstr : (∃ v ∈ vs, v.base.kind = .str) → ∀ v ∈ vs, v.base.kind = .str := by
        rintro ⟨v, hv, hk⟩ w hw
        obtain ⟨t, ht, hi⟩ := hwt v (hvmem v hv)
        obtain ⟨t', ht', hi'⟩ := hwt w (hvmem w hw)
        rw [ht] at ht'; cases ht'
        rcases t with ⟨np, k⟩
        rcases v with ⟨_, vb⟩
        rcases w with ⟨_, wb⟩
        cases np <;> cases k <;> cases vb <;> cases wb <;> simp_all [isInstance, Val.item, Base.kind]
      unfold coerce
      split
      · rename_i h
        simp only [List.any_eq_true, beq_iff_eq] at h
        have := hstr h
        rw [List.map_map]
        apply List.map_congr_left
        intro v hv
        have := this v hv
        rcases v with ⟨_, vb⟩
        cases vb <;> simp_all [Base.kind, Base.key, Base.toStr, Val.key]
      · rename_i h
        split
        · rw [List.map_map]
          apply List.map_congr_left
          intro v hv
          rcases v with ⟨_, vb⟩
          cases vb <;> simp [Base.key, Val.key]
        · rw [List.map_map]; rfl
    have hu : (uniq (coerce vs)).length = vs.length := by
      have hn1 := uniq_nodup (coerce vs)
      have hn2 : ((coerce vs).map Base.key).Nodup := by rw [hco]; exact hkeys
      have hperm : ((uniq (coerce vs)).map Base.key).Perm ((coerce vs).map Base.key) :=
        (List.perm_ext_iff_of_nodup hn1 hn2).2 (fun k => mem_uniq_key _ k)
      have := hperm.length_eq
      rw [hco] at this
      simpa using this
    refine ⟨mk' vs, ?_, ?_, ?_, ?_⟩
    · simp only [randomSampling, h0, h1, and_self, if_true]
      have : randperm shuffle (.int ((c.inner.length : Int) - 1)) (.int (pyRound (rate * c.inner.length))) = .ok l := hl
      rw [this]; simp only []; rw [hp]
    · rw [mk'_inner]
      have : (npUnique vs).length = vs.length := by
        simp [npUnique, (sortBy_perm _ _).length_eq, hu]
      rw [this, hvl]
      have e : ((l.length : ℕ) : ℤ) = pyRound (rate * c.inner.length) := hlen
      rw [e]; exact pyRound_isRound _
    · have := mk'_keys_nodup vs
      rw [keys, List.Nodup, List.pairwise_map] at this
      exact this.imp (fun {a b} hab => by simpa [pyEq] using hab)
    · intro v hv
      rw [pyMem_iff]
      rw [mk'_inner] at hv
      have hk : v.key ∈ (npUnique vs).map Val.key := List.mem_map.2 ⟨v, hv, rfl⟩
      have : v.key ∈ vs.map Val.key := by
        rw [← hco, ← mem_uniq_key]
        simp only [npUnique, List.map_map, List.mem_map] at hk ⊢
        obtain ⟨b, hb, hbk⟩ := hk
        exact ⟨b, (sortBy_perm _ _).mem_iff.1 hb, hbk⟩
      obtain ⟨w, hw, hwk⟩ := List.mem_map.1 this
      exact List.mem_map.2 ⟨w, hvmem w hw, hwk⟩

example : Reachable (mk' [⟨false, .int 5⟩, ⟨false, .int 2⟩, ⟨false, .int 9⟩]) ∧ (0 : ℚ) < 1/2 ∧ (1/2 : ℚ) < 1 :=
  ⟨.construct _, by norm_num, by norm_num⟩

/-! ## C31 -/

/-- C31 (smallest): for every array, every result of argsort and every `n > 0`: `min n len` distinct positions, in
ascending order of value, none left out having a smaller value than one returned. -/
theorem C31_nsmallestarg {α : Type} [LE α] (a : List α) (p : List Nat) (hp : Spec.IsArgsort a p) (n : Int) (hn : 0 < n) :
    ∃ r, nsmallestarg p n = .ok r ∧ r.length = min n.toNat a.length ∧ r.Nodup ∧ (∀ i ∈ r, i < a.length) ∧
      r.Pairwise (fun i j => ∀ x y, a[i]? = some x → a[j]? = some y → x ≤ y) ∧
      ∀ i ∈ r, ∀ j, j < a.length → j ∉ r → ∀ x y, a[i]? = some x → a[j]? = some y → x ≤ y := by
  obtain ⟨hperm, hsort⟩ := hp
  have hlen : p.length = a.length := by rw [hperm.length_eq]; simp
  have hnd : p.Nodup := hperm.nodup_iff.2 List.nodup_range
  refine ⟨pySliceTo p n, by simp [nsmallestarg, hn], ?_, hnd.sublist (pySliceTo_sublist _ _), ?_, ?_, ?_⟩
  · simp [pySliceTo, hn.le, hlen]
  · intro i hi
    have := hperm.mem_iff.1 ((pySliceTo_sublist _ _).subset hi)
    simpa using this
  · exact hsort.sublist (pySliceTo_sublist _ _)
  · intro i hi j hj hjn x y hx hy
    simp only [pySliceTo, hn.le, if_true] at hi hjn
    have hjp : j ∈ p := hperm.mem_iff.2 (by simpa using hj)
    rw [← List.take_append_drop n.toNat p] at hjp hsort
    have hjd : j ∈ p.drop n.toNat := (List.mem_append.1 hjp).resolve_left hjn
    exact (List.pairwise_append.1 hsort).2.2 i hi j hjd x y hx hy

/-- C31 (largest), for `n ≤ len`: `n` distinct positions, in ascending order of value, none left out having a
larger value than one returned. Missing: `n > len`, where the claim is false (`C31_nlargestarg_violation`). -/
theorem C31_nlargestarg_partial {α : Type} [LE α] (a : List α) (p : List Nat) (hp : Spec.IsArgsort a p) (n : Nat)
    (hn : 0 < n) (hle : n ≤ a.length) :
    ∃ r, nlargestarg p n = .ok r ∧ r.length = n ∧ r.Nodup ∧ (∀ i ∈ r, i < a.length) ∧
      r.Pairwise (fun i j => ∀ x y, a[i]? = some x → a[j]? = some y → x ≤ y) ∧
      ∀ i ∈ r, ∀ j, j < a.length → j ∉ r → ∀ x y, a[i]? = some x → a[j]? = some y → y ≤ x := by
  obtain ⟨hperm, hsort⟩ := hp
  have hlen : p.length = a.length := by rw [hperm.length_eq]; simp
  have hnd : p.Nodup := hperm.nodup_iff.2 List.nodup_range
  have hs : pySliceFrom p ((p.length : Int) - n) = p.drop (p.length - n) := by
    unfold pySliceFrom; rw [if_pos (by omega)]; congr 1; omega
  have hn' : (0 : Int) < n := by omega
  refine ⟨p.drop (p.length - n), by simp [nlargestarg, hn, hs], ?_, hnd.sublist (List.drop_sublist _ _), ?_, ?_, ?_⟩
  · simp; omega
  · intro i hi
    have := hperm.mem_iff.1 ((List.drop_sublist _ _).subset hi)
    simpa using this
  · exact hsort.sublist (List.drop_sublist _ _)
  · intro i hi j hj hjn x y hx hy
    have hjp : j ∈ p := hperm.mem_iff.2 (by simpa using hj)
    rw [← List.take_append_drop (p.length - n) p] at hjp hsort
    have hjd : j ∈ p.take (p.length - n) := (List.mem_append.1 hjp).resolve_right hjn
    exact (List.pairwise_append.1 hsort).2.2 j hjd i hi y x hy hx

/-- C31, negative: for `len < n < 2 len` fewer than `len` positions are returned (the slice start is negative). -/
theorem C31_nlargestarg_violation {α : Type} [LE α] (a : List α) (p : List Nat) (hp : Spec.IsArgsort a p) (n : Nat)
    (h1 : a.length < n) (h2 : n < 2 * a.length) :
    ∃ r, nlargestarg p n = .ok r ∧ r.length = n - a.length ∧ r.length < a.length := by
  have hlen : p.length = a.length := by rw [hp.1.length_eq]; simp
  refine ⟨p.drop (p.length - (n - p.length)), ?_, by simp; omega, by simp; omega⟩
  unfold nlargestarg pySliceFrom
  rw [if_pos (by omega), if_neg (by omega)]
  congr 2
  omega

/-- C31: a number of positions that is not positive is refused. -/
theorem C31_not_positive (p : List Nat) (n : Int) (hn : n ≤ 0) :
    nlargestarg p n = .error .assertionError ∧ nsmallestarg p n = .error .assertionError := by
  simp [nlargestarg, nsmallestarg, not_lt.2 hn]

/-- C31 (largest): asked for at least twice the length, all positions are returned, in ascending order of value. -/
theorem C31_nlargestarg_all {α : Type} [LE α] (a : List α) (p : List Nat) (hp : Spec.IsArgsort a p) (n : Nat)
    (hn : 0 < n) (h2 : 2 * a.length ≤ n) : nlargestarg p n = .ok p := by
  have hlen : p.length = a.length := by rw [hp.1.length_eq]; simp
  unfold nlargestarg pySliceFrom
  rw [if_pos (by omega)]
  split
  · have : p = [] := by apply List.eq_nil_of_length_eq_zero; omega
    simp [this]
  · have : p.length - (-((p.length : Int) - n)).toNat = 0 := by omega
    rw [this, List.drop_zero]

example : Spec.IsArgsort [(3 : Int), 1, 2, 1] [1, 3, 2, 0] := by
  refine ⟨by decide, ?_⟩
  simp

end Alipy
