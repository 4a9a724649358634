import Verif.Spec.Batches
import Verif.Props.Coreset
import Verif.Props.GraphDensity
import Verif.Model.Committee
import Verif.Model.Eer
import Verif.Model.Lal
import Verif.Model.MultiLabelBatch
/-!
# Larger batches extend smaller ones (C121)
-/
set_option linter.unusedSectionVars false
namespace Alipy.Batches
open Alipy Alipy.Select Alipy.Spec

variable {α K : Type}

/-! ## Strategies that score every example -/

/-- The elements picked, by their positions. -/
theorem mem_pickAll {l : List α} : ∀ {is : List Int} {vs : List α}, pickAll l is = .ok vs → ∀ x, x ∈ vs ↔ ∃ i ∈ is, 0 ≤ i ∧ l[i.toNat]? = some x
  | [], vs, h, x => by
    simp [pickAll] at h
    subst h
    simp
  | i :: is, vs, h, x => by
    unfold pickAll at h
    split at h
    · simp at h
    · rename_i v hv
      split at h
      · simp at h
      · rename_i ws hws
        simp at h
        subst h
        have hi : 0 ≤ i ∧ l[i.toNat]? = some v := by
          split_ifs at hv with h0
          exact ⟨h0, hv⟩
        have ih := mem_pickAll hws x
        constructor
        · intro hx
          rcases List.mem_cons.1 hx with rfl | hx
          · exact ⟨i, by simp, hi⟩
          · obtain ⟨j, hj, h2⟩ := ih.1 hx
            exact ⟨j, by simp [hj], h2⟩
        · rintro ⟨j, hj, h1, h2⟩
          rcases List.mem_cons.1 hj with rfl | hj
          · rw [hi.2] at h2
            simp at h2
            simp [h2]
          · exact List.mem_cons_of_mem _ (ih.2 ⟨j, hj, h1, h2⟩)

/-- The frame keeps the order of positions chosen by inclusion. -/
theorem frame_nested (u : Coll α) (choose : Int → Except PyErr (List Nat))
    (h : ∀ (k k' : Int) ps ps', 0 < k → k ≤ k' → k' < u.items.length → choose k = .ok ps → choose k' = .ok ps' → ∀ i ∈ ps, i ∈ ps') :
    Nested none (fun k => frame u k (choose k)) := by
  intro k k' r r' hk _ hr hr' x hx
  simp only [frame] at hr hr'
  split_ifs at hr hr' with h1 h2 h3 h4 h5 h6
  all_goals first | omega | skip
  · cases hr; cases hr'; exact hx
  · cases hr'
    cases hc : choose k with
    | error e => rw [hc] at hr; simp at hr
    | ok ps =>
      rw [hc] at hr
      obtain ⟨i, _, _, h2⟩ := (mem_pickAll hr x).1 hx
      exact List.mem_of_getElem? h2
  · cases hc : choose k with
    | error e => rw [hc] at hr; simp at hr
    | ok ps =>
      cases hc' : choose k' with
      | error e => rw [hc'] at hr'; simp at hr'
      | ok ps' =>
        rw [hc] at hr
        rw [hc'] at hr'
        obtain ⟨i, hi, h3, h4⟩ := (mem_pickAll hr x).1 hx
        refine (mem_pickAll hr' x).2 ⟨i, ?_, h3, h4⟩
        obtain ⟨j, hj, rfl⟩ := List.mem_map.1 hi
        exact List.mem_map.2 ⟨j, h k k' ps ps' (by omega) hk (by omega) hc hc' j hj, rfl⟩

theorem nlargest_sub (s : List Nat) {k k' : Int} (h0 : 0 < k) (hk : k ≤ k') (hn : k' ≤ s.length) {ps ps' : List Nat} (h : nlargestarg s k = .ok ps)
    (h' : nlargestarg s k' = .ok ps') : ∀ i ∈ ps, i ∈ ps' := by
  simp only [nlargestarg, h0, if_true, (by omega : 0 < k'), pySliceFrom] at h h'
  rw [if_pos (by omega)] at h h'
  simp at h h'
  subst h h'
  intro i hi
  have e : ((s.length : Int) - k).toNat = ((s.length : Int) - k').toNat + (((s.length : Int) - k).toNat - ((s.length : Int) - k').toNat) := by omega
  rw [e, ← List.drop_drop] at hi
  exact List.mem_of_mem_drop hi

theorem nsmallest_sub (s : List Nat) {k k' : Int} (h0 : 0 < k) (hk : k ≤ k') {ps ps' : List Nat} (h : nsmallestarg s k = .ok ps)
    (h' : nsmallestarg s k' = .ok ps') : ∀ i ∈ ps, i ∈ ps' := by
  simp only [nsmallestarg, h0, if_true, (by omega : 0 < k'), pySliceTo] at h h'
  rw [if_pos (by omega)] at h h'
  simp at h h'
  subst h h'
  intro i hi
  exact (List.take_sublist_take_left (by omega)).subset hi

theorem nested_congr {lim : Option Int} {f g : Int → Except PyErr (List α)} (h : Nested lim f) (e : ∀ k, g k = f k) : Nested lim g := by
  have : g = f := funext e
  rwa [this]

theorem frame_error (u : Coll α) (e : PyErr) : Nested none (fun k => frame u k (.error e)) :=
  frame_nested u _ (fun k k' ps ps' _ _ _ h => by simp at h)

theorem largest_nested (argsort : List K → List Nat) (ha : ∀ l, (argsort l).length = l.length) (u : Coll α) (s : List K) (hs : s.length = u.items.length) :
    Nested none (fun k => byLargest argsort u s k) :=
  frame_nested u _ (fun _ _ _ _ h0 hk hn h h' => nlargest_sub _ h0 hk (by rw [ha, hs]; omega) h h')

theorem smallest_nested (argsort : List K → List Nat) (u : Coll α) (s : List K) : Nested none (fun k => bySmallest argsort u s k) :=
  frame_nested u _ (fun _ _ _ _ h0 hk _ h h' => nsmallest_sub _ h0 hk h h')

section
variable [Field K] [LinearOrder K]

/-- **C121.** Uncertainty sampling, all measures: what is selected for a batch is selected for every larger batch. -/
theorem C121_uncertainty (log : K → K) (argsort : List K → List Nat) (ha : ∀ l, (argsort l).length = l.length) (m : Measure) (u : Coll α) (predict : Pred K)
    (hp : ∀ c rows, predict = .mat c rows → rows.length = u.items.length) : Nested none (uncertainty log argsort m u predict) := by
  cases predict with
  | vec l =>
    cases m with
    | distance => exact nested_congr (smallest_nested argsort u (l.map abs)) (fun k => by simp [uncertainty])
    | _ => exact nested_congr (frame_error u .genericException) (fun k => by simp [uncertainty])
  | mat c rows =>
    have hr := hp c rows rfl
    by_cases hc : c = 1
    · cases m with
      | distance => exact nested_congr (smallest_nested argsort u (rows.flatten.map abs)) (fun k => by simp [uncertainty, hc])
      | _ => exact nested_congr (frame_error u .genericException) (fun k => by simp [uncertainty, hc])
    · cases m with
      | distance => exact nested_congr (frame_error u .genericException) (fun k => by simp [uncertainty, hc])
      | entropy =>
        exact nested_congr (largest_nested argsort ha u (rows.map (fun r => entropyScore log (clip r))) (by simpa using hr)) (fun k => by simp [uncertainty, hc])
      | margin => exact nested_congr (largest_nested argsort ha u (rows.map (marginScore c)) (by simpa using hr)) (fun k => by simp [uncertainty, hc])
      | leastConfident => exact nested_congr (largest_nested argsort ha u (rows.map (leastScore c)) (by simpa using hr)) (fun k => by simp [uncertainty, hc])

/-- **C121.** Query by committee, with vote entropy (both forms of the output) and with the KL divergence. -/
theorem C121_committee (log : K → K) (argsort : List K → List Nat) (ha : ∀ l, (argsort l).length = l.length) (u : Coll α) (labels : Nat)
    (votes : List (List Int)) (hv : (votes.headD []).length = u.items.length) (mat : List (List (List Nat))) (proba : List (List (List K))) :
    Nested none (qbc log argsort u votes) ∧ Nested none (qbcMat log argsort u u.items.length labels mat) ∧
    Nested none (qbcKL log argsort u u.items.length labels proba) := by
  refine ⟨?_, ?_, ?_⟩
  · unfold qbc
    split
    · exact frame_error u _
    · exact frame_nested u _ (fun _ _ _ _ h0 hk hn h h' => nlargest_sub _ h0 hk (by rw [ha, List.length_map, List.length_range]; omega) h h')
  · unfold qbcMat
    split
    · exact frame_error u _
    · split
      · exact frame_error u _
      · exact frame_nested u _ (fun _ _ _ _ h0 hk hn h h' => nlargest_sub _ h0 hk (by rw [ha, List.length_map, List.length_range]; omega) h h')
  · unfold qbcKL
    split
    · exact frame_error u _
    · exact frame_nested u _ (fun _ _ _ _ h0 hk hn h h' => nlargest_sub _ h0 hk (by rw [ha, List.length_map, List.length_range]; omega) h h')

/-- **C121.** Learning active learning. -/
theorem C121_lal (sqrt : K → K) (argsort : List K → List Nat) (ha : ∀ l, (argsort l).length = l.length) (selector : Option (List K → K)) (f : Lal.Forest K)
    (known : List Int) (dim : Nat) (u : Coll α) : Nested none (Lal.select sqrt argsort selector f known dim u) := by
  unfold Lal.select
  cases selector with
  | none => intro k k' r r' _ _ h; simp at h
  | some s =>
    simp only
    split
    · exact frame_error u _
    · simp only [lal]
      exact largest_nested argsort ha u _ (by simp)

/-- **C121.** Density weighting, for batches that are not larger than the pool. -/
theorem C121_density_weighted (log pow : K → K) (argsort : List K → List Nat) (ha : ∀ l, (argsort l).length = l.length) (m : Measure) (u : Coll α) (c : Nat)
    (rows dis : List (List K)) : Nested (some u.items.length) (densitySelect log pow argsort m u c rows dis) := by
  intro k k' r r' hk hlim hr hr' x hx
  have hk' : k' ≤ u.items.length := hlim _ rfl
  simp only [densitySelect, densityWeighted] at hr hr'
  split_ifs at hr hr' with h1
  rw [not_or, not_not, not_not] at h1
  cases hc : nlargestarg (argsort (List.zipWith (fun x y => x * y) (rows.map (densityPat log m c)) (densityDiv pow dis))) k with
  | error e => rw [hc] at hr; simp at hr
  | ok ps =>
    cases hc' : nlargestarg (argsort (List.zipWith (fun x y => x * y) (rows.map (densityPat log m c)) (densityDiv pow dis))) k' with
    | error e => rw [hc'] at hr'; simp at hr'
    | ok ps' =>
      rw [hc] at hr
      rw [hc'] at hr'
      have h0 : 0 < k := by
        unfold nlargestarg at hc
        by_contra hn
        simp [hn] at hc
      obtain ⟨i, hi, h3, h4⟩ := (mem_pickAll hr x).1 hx
      refine (mem_pickAll hr' x).2 ⟨i, ?_, h3, h4⟩
      obtain ⟨j, hj, rfl⟩ := List.mem_map.1 hi
      refine List.mem_map.2 ⟨j, nlargest_sub _ h0 hk ?_ hc hc' j hj, rfl⟩
      rw [ha, List.length_zipWith]
      omega

end

/-- **C121.** Expected error reduction. -/
theorem C121_eer {μ : Type} (argsort : List (WithTop ℝ) → List Nat) (fit : List (α × Int) → μ) (predict : μ → α → List ℝ) (model : Option μ)
    (lab : List (α × Int)) (y : List Int) (u : Coll α) : Nested none (Eer.select argsort fit predict model lab y u) := by
  unfold Eer.select
  simp only
  split
  · exact frame_error u _
  · split
    · exact frame_error u _
    · exact frame_nested u _ (fun _ _ _ _ h0 hk _ h h' => nsmallest_sub _ h0 hk h h')

/-! ## MMC and Adaptive -/

theorem acc_prefix (ask : IC → IC → Except PyErr Nat) : ∀ (n : Nat) (l u : IC) (acc r : List MLBatch.Out),
    (MLBatch.loop ask n l u acc).2.2 = .ok r → acc <+: r
  | 0, l, u, acc, r, h => by simp [MLBatch.loop] at h; exact h ▸ List.prefix_refl _
  | n + 1, l, u, acc, r, h => by
    unfold MLBatch.loop at h
    split at h
    · simp at h
    · split at h
      · simp at h
      · exact (List.prefix_append _ _).trans (acc_prefix ask n _ _ _ _ h)

theorem loop_prefix (ask : IC → IC → Except PyErr Nat) (b : Nat) : ∀ (a : Nat) (l u : IC) (acc r : List MLBatch.Out),
    (MLBatch.loop ask (a + b) l u acc).2.2 = .ok r → ∃ r1, (MLBatch.loop ask a l u acc).2.2 = .ok r1 ∧ r1 <+: r
  | 0, l, u, acc, r, h => ⟨acc, rfl, acc_prefix ask _ l u acc r h⟩
  | a + 1, l, u, acc, r, h => by
    rw [Nat.succ_add] at h
    unfold MLBatch.loop at h ⊢
    cases hs : MLBatch.sequentialSelect ask l u with
    | error e => rw [hs] at h; simp at h
    | ok ch =>
      rw [hs] at h
      simp only at h ⊢
      rcases hu : l.update ch.arg with ⟨l', _ | e⟩
      · rw [hu] at h
        exact loop_prefix ask b a _ _ _ _ h
      · rw [hu] at h
        simp at h

/-- **C121.** MMC and Adaptive: the list for a larger batch begins with the list for the smaller one. -/
theorem C121_sequential (ask : IC → IC → Except PyErr Nat) (la ua : MLBatch.PoolArg) (a b : Nat) {u : IC} (hu : ua.toIC = .ok u) (hlt : a + b < u.inner.length)
    {r : List MLBatch.Out} (hr : (MLBatch.select ask la ua (a + b)).2.2 = .ok r) : ∃ r1, (MLBatch.select ask la ua a).2.2 = .ok r1 ∧ r1 <+: r := by
  unfold MLBatch.select at hr ⊢
  cases hl : la.toIC with
  | error e => rw [hl] at hr; simp at hr
  | ok l =>
    rw [hl, hu] at hr
    rw [hu]
    simp only at hr ⊢
    rw [if_neg (by omega)] at hr ⊢
    obtain ⟨r1, h1, h2⟩ := loop_prefix ask b a l u [] r (by
      rcases hx : MLBatch.loop ask (a + b) l u [] with ⟨x, y, z⟩
      rw [hx] at hr
      exact hr)
    refine ⟨r1, ?_, h2⟩
    rcases hx : MLBatch.loop ask a l u [] with ⟨x, y, z⟩
    rw [hx] at h1
    exact h1

/-! ## Farthest-first -/

section
variable [DecidableEq α] [Field K] [LinearOrder K] [IsStrictOrderedRing K]

theorem nearest_unique {D : α → α → K} {C C' : List α} (h : ∀ c, c ∈ C ↔ c ∈ C') {x : α} {v w : K} (hv : IsNearest D C x v) (hw : IsNearest D C' x w) : v = w := by
  obtain ⟨⟨a, ha, rfl⟩, h1⟩ := hv
  obtain ⟨⟨b, hb, rfl⟩, h2⟩ := hw
  exact le_antisymm (h1 b ((h b).2 hb)) (h2 a ((h a).1 ha))

/-- What the object remembers is determined by the set of centres. -/
theorem tracks_unique {D : α → α → K} {train C C' : List α} (h : ∀ c, c ∈ C ↔ c ∈ C') {m m' : List K} (hm : Tracks D train C m) (hm' : Tracks D train C' m') :
    m = m' := by
  apply List.ext_getElem (by rw [hm.len, hm'.len])
  intro i h1 h2
  have hi : i < train.length := by rw [← hm.len]; exact h1
  have ht : train[i]? = some train[i] := List.getElem?_eq_getElem hi
  have e1 : m[i]? = some m[i] := List.getElem?_eq_getElem h1
  have e2 : m'[i]? = some m'[i] := List.getElem?_eq_getElem h2
  by_cases hx : train[i] ∈ C
  · rw [hm.inC i _ _ ht e1 hx, hm'.inC i _ _ ht e2 ((h _).1 hx)]
  · exact nearest_unique h (hm.out i _ _ ht e1 hx) (hm'.out i _ _ ht e2 (fun c => hx ((h _).2 c)))

theorem loop_add (D : α → α → K) (train u : List α) (b : Nat) : ∀ (a : Nat) (o o' : Core K) (acc r : List α),
    Core.loop D train u a o acc = (o', .ok r) → Core.loop D train u (a + b) o acc = Core.loop D train u b o' r
  | 0, o, o', acc, r, h => by
    simp [Core.loop] at h
    rw [h.1, h.2, Nat.zero_add]
  | a + 1, o, o', acc, r, h => by
    rw [Nat.succ_add]
    unfold Core.loop at h
    conv_lhs => unfold Core.loop
    split at h
    · simp at h
    · split_ifs at h with h1
      · simp at h
      · rw [if_neg h1]
        split at h
        · simp at h
        · split_ifs at h with h2
          · rw [if_pos h2]
            exact loop_add D train u b a _ _ _ _ h
          · simp at h

/-- The choice of one step depends on the vector of distances only. -/
theorem loop_one (D : α → α → K) (train u : List α) {o o' : Core K} {m : List K} (hm : o.minD = some m) {acc S : List α}
    (h : Core.loop D train u 1 o acc = (o', .ok (acc ++ S))) : ∃ x, train[argmaxPos m]? = some x ∧ S = [x] := by
  unfold Core.loop at h
  rw [hm] at h
  simp only at h
  split_ifs at h with h1
  · simp at h
  · split at h
    · simp at h
    · rename_i x hx
      split_ifs at h with h2
      · simp [Core.loop] at h
        exact ⟨x, hx, h.2.symm⟩
      · simp at h

/-- The sets a loop works with: `l` the labelled examples it was called with, `u` the others, `b` those already taken. -/
structure Sets (D : α → α → K) (train l u b : List α) (o : Core K) (m : List K) : Prop where
  tn : train.Nodup
  un : u.Nodup
  ut : ∀ x ∈ u, x ∈ train
  cov : ∀ x ∈ train, x ∈ l ∨ x ∈ u
  disj : ∀ x ∈ l, x ∉ u
  ne : l ≠ []
  mem : o.minD = some m
  tracks : Tracks D train (l ++ b) m
  already : ∀ p x, p ∈ o.already → train[p]? = some x → x ∈ l
  bu : ∀ x ∈ b, x ∈ u
  bn : b.Nodup

/-- Two loops with the same centres make the same choices. -/
theorem loop_det {D : α → α → K} (hD : ∀ x y, 0 ≤ D x y) {train l₁ u₁ l₂ u₂ : List α} : ∀ (n : Nat) {b₁ b₂ : List α} {o₁ o₂ : Core K} {m₁ m₂ : List K},
    Sets D train l₁ u₁ b₁ o₁ m₁ → Sets D train l₂ u₂ b₂ o₂ m₂ → (∀ x, x ∈ l₁ ++ b₁ ↔ x ∈ l₂ ++ b₂) → b₁.length + n ≤ u₁.length → b₂.length + n ≤ u₂.length →
    ∃ S o₁' o₂', Core.loop D train u₁ n o₁ b₁ = (o₁', .ok (b₁ ++ S)) ∧ Core.loop D train u₂ n o₂ b₂ = (o₂', .ok (b₂ ++ S))
  | 0, b₁, b₂, o₁, o₂, m₁, m₂, _, _, _, _, _ => ⟨[], o₁, o₂, by simp [Core.loop], by simp [Core.loop]⟩
  | n + 1, b₁, b₂, o₁, o₂, m₁, m₂, s₁, s₂, hs, h₁, h₂ => by
    obtain ⟨o₁', m₁', S₁, e1, e2, e3, e4, e5, e6, e7, -⟩ := loop_ok hD s₁.tn s₁.un s₁.ut s₁.cov s₁.disj s₁.ne 1 o₁ m₁ b₁ s₁.mem s₁.tracks s₁.already s₁.bu s₁.bn (by omega)
    obtain ⟨o₂', m₂', S₂, f1, f2, f3, f4, f5, f6, f7, -⟩ := loop_ok hD s₂.tn s₂.un s₂.ut s₂.cov s₂.disj s₂.ne 1 o₂ m₂ b₂ s₂.mem s₂.tracks s₂.already s₂.bu s₂.bn (by omega)
    obtain ⟨x, hx, rfl⟩ := loop_one D train u₁ s₁.mem e1
    obtain ⟨y, hy, rfl⟩ := loop_one D train u₂ s₂.mem f1
    have hm := tracks_unique hs s₁.tracks s₂.tracks
    rw [hm] at hx
    obtain rfl : x = y := Option.some.inj (hx.symm.trans hy)
    have t₁ : Sets D train l₁ u₁ (b₁ ++ [x]) o₁' m₁' := ⟨s₁.tn, s₁.un, s₁.ut, s₁.cov, s₁.disj, s₁.ne, e2, e3, by rw [e4]; exact s₁.already, by
      intro z hz
      rcases List.mem_append.1 hz with h | h
      · exact s₁.bu z h
      · exact e6 z h, e5⟩
    have t₂ : Sets D train l₂ u₂ (b₂ ++ [x]) o₂' m₂' := ⟨s₂.tn, s₂.un, s₂.ut, s₂.cov, s₂.disj, s₂.ne, f2, f3, by rw [f4]; exact s₂.already, by
      intro z hz
      rcases List.mem_append.1 hz with h | h
      · exact s₂.bu z h
      · exact f6 z h, f5⟩
    obtain ⟨S, o₁'', o₂'', g1, g2⟩ := loop_det hD n t₁ t₂ (by
      intro z
      have := hs z
      simp only [List.mem_append, List.mem_singleton] at this ⊢
      rw [← or_assoc, ← or_assoc, this]) (by simp; omega) (by simp; omega)
    refine ⟨x :: S, o₁'', o₂'', ?_, ?_⟩
    · rw [Nat.add_comm n 1, loop_add D train u₁ n 1 _ _ _ _ e1, g1]
      simp
    · rw [Nat.add_comm n 1, loop_add D train u₂ n 1 _ _ _ _ f1, g2]
      simp

/-- A call is a loop over the vector that belongs to the labelled set. -/
theorem select_sets {D : α → α → K} (hD : ∀ x y, 0 ≤ D x y) {train l u : List α} {batch : Nat} (hs : Situation train l u batch) {cmp : α → Bool} (hcmp : ∀ x ∈ l, cmp x = true)
    {o : Core K} {C : List α} (hr : Remembers D train o C) (hC : ∀ c ∈ C, c ∈ l) :
    ∃ o₁ m, (∀ n, Core.select D cmp train o l u n = Core.loop D train u n o₁ []) ∧ Sets D train l u [] o₁ m := by
  have h0 : Situation train l u 0 := { hs with enough := Nat.zero_le _ }
  obtain ⟨o', r, e1, e2, -, -, e3, -⟩ := select_ok hD h0 hcmp hr hC
  have hpos := itemPositions_ok hs.tn (cmp := cmp) hcmp hs.lt
  have hn : r = [] := List.length_eq_zero_iff.1 e3
  subst hn
  unfold Core.select at e1 ⊢
  rw [hpos] at e1 ⊢
  simp only at e1 ⊢
  cases hm : (o.update D train (l.map (fun x => train.idxOf x))).minD with
  | none => rw [hm] at e1; simp at e1
  | some m =>
    rw [hm] at e1
    simp only [Core.loop, Prod.mk.injEq, and_true] at e1
    refine ⟨_, _, fun _ => rfl, hs.tn, hs.un, hs.ut, hs.cov, hs.disj, hs.ne, rfl, ?_, ?_, by simp, by simp⟩
    · rcases e2 with ⟨e, h⟩ | ⟨m', h1, h2, h3⟩
      · rw [← e1] at e
        simp [Core.fresh] at e
      · rw [← e1] at h1
        simp at h1
        rw [h1]
        exact h2
    · rcases e2 with ⟨e, h⟩ | ⟨m', h1, h2, h3⟩
      · rw [← e1] at e
        simp [Core.fresh] at e
      · rw [← e1] at h3
        simpa using h3

/-- **C121.** Coreset: what is selected depends only on the labelled set — not on its order, nor that of the unlabelled set, nor on earlier calls. -/
theorem C121_coreset_history {D : α → α → K} (hD : Spec.PseudoMetric D) {train l₁ u₁ l₂ u₂ : List α} {o₁ o₂ : Core K} {C₁ C₂ : List α} (h₁ : CoreHist D train o₁ C₁)
    (h₂ : CoreHist D train o₂ C₂) (hC₁ : ∀ c ∈ C₁, c ∈ l₁) (hC₂ : ∀ c ∈ C₂, c ∈ l₂) {n : Nat} (s₁ : Situation train l₁ u₁ n) (s₂ : Situation train l₂ u₂ n)
    (hl : ∀ x, x ∈ l₁ ↔ x ∈ l₂) {cmp₁ cmp₂ : α → Bool} (hc₁ : ∀ x ∈ l₁, cmp₁ x = true) (hc₂ : ∀ x ∈ l₂, cmp₂ x = true) :
    ∃ r, (Core.select D cmp₁ train o₁ l₁ u₁ n).2 = .ok r ∧ (Core.select D cmp₂ train o₂ l₂ u₂ n).2 = .ok r := by
  obtain ⟨p₁, m₁, e₁, t₁⟩ := select_sets hD.nonneg s₁ hc₁ (hist_remembers hD.nonneg h₁) hC₁
  obtain ⟨p₂, m₂, e₂, t₂⟩ := select_sets hD.nonneg s₂ hc₂ (hist_remembers hD.nonneg h₂) hC₂
  obtain ⟨S, o₁', o₂', g1, g2⟩ := loop_det hD.nonneg n t₁ t₂ (by simpa using hl) (by simpa using s₁.enough) (by simpa using s₂.enough)
  exact ⟨S, by rw [e₁, g1]; simp, by rw [e₂, g2]; simp⟩

/-- **C121.** Coreset: a batch is the same as two smaller batches one after the other — and so as any number of them — if what is selected becomes
labelled in between. -/
theorem C121_coreset {D : α → α → K} (hD : Spec.PseudoMetric D) {train l u : List α} {o : Core K} {C : List α} (h : CoreHist D train o C) (hC : ∀ c ∈ C, c ∈ l)
    {a b : Nat} (hs : Situation train l u (a + b)) {cmp : α → Bool} (hcmp : ∀ x ∈ train, cmp x = true) :
    ∃ o' r₁ r₂, Core.select D cmp train o l u a = (o', .ok r₁) ∧ r₁.length = a ∧ (Core.select D cmp train o l u (a + b)).2 = .ok (r₁ ++ r₂) ∧
      ∀ l' u', Situation train l' u' b → (∀ x, x ∈ l' ↔ x ∈ l ∨ x ∈ r₁) → (Core.select D cmp train o' l' u' b).2 = .ok r₂ := by
  have hsa : Situation train l u a := { hs with enough := by have := hs.enough; omega }
  have hcl : ∀ x ∈ l, cmp x = true := fun x hx => hcmp x (hs.lt x hx)
  obtain ⟨p, m, e, t⟩ := select_sets hD.nonneg hs hcl (hist_remembers hD.nonneg h) hC
  obtain ⟨o', m', S, e1, e2, e3, e4, e5, e6, e7, -⟩ := loop_ok hD.nonneg t.tn t.un t.ut t.cov t.disj t.ne a p m [] t.mem t.tracks t.already t.bu t.bn (by simpa using hsa.enough)
  rw [List.nil_append] at e1 e3 e5
  have t' : Sets D train l u S o' m' := ⟨t.tn, t.un, t.ut, t.cov, t.disj, t.ne, e2, e3, by rw [e4]; exact t.already, e6, e5⟩
  have hrem : Remembers D train o' (l ++ S) := by
    refine Or.inr ⟨m', e2, e3, ?_⟩
    intro q x hq hx
    rw [e4] at hq
    simp [t.already q x hq hx]
  obtain ⟨o'', m'', S₂, f1, -, -, -, -, -, f7, -⟩ := loop_ok hD.nonneg t.tn t.un t.ut t.cov t.disj t.ne b o' m' S e2 e3 t'.already e6 e5 (by have := hs.enough; omega)
  refine ⟨o', S, S₂, by rw [e, e1], e7, ?_, ?_⟩
  · rw [e, loop_add D train u b a _ _ _ _ e1, f1]
  · intro l' u' hs' hl'
    obtain ⟨p', n', g, t''⟩ := select_sets hD.nonneg hs' (cmp := cmp) (fun x hx => hcmp x (hs'.lt x hx)) hrem (by
      intro c hc
      rw [hl']
      simpa using hc)
    obtain ⟨S₃, q₁, q₂, k1, k2⟩ := loop_det hD.nonneg b t' t'' (by intro x; simp [hl' x]) (by have := hs.enough; omega) (by simpa using hs'.enough)
    rw [f1] at k1
    have : S₂ = S₃ := by
      have := (Prod.mk.inj k1).2
      simpa using this
    rw [g, k2, this]
    simp

end

/-! ## Graph density -/

section
variable [DecidableEq α] [Field K] [LinearOrder K] [IsStrictOrderedRing K]

/-- There is only one greedy choice of every length. -/
theorem greedy_unique {near : α → α → Prop} {pos : α → Nat} {f g : α → K} {S : α → Prop} {xs : List α} (h : Greedy near pos f S xs g) :
    ∀ {f' g' : α → K} {S' : α → Prop} {ys : List α}, Greedy near pos f' S' ys g' → (∀ y, S y ↔ S' y) → (∀ y, S y → f y = f' y) →
      (∀ x y, S x → S y → pos x = pos y → x = y) → xs <+: ys ∨ ys <+: xs := by
  induction h with
  | done _ => intros; exact .inl List.nil_prefix
  | @pick f f₁ g S x xs a1 a2 a3 a4 _ ih =>
    intro f' g' S' ys h' hS hf hp
    cases h' with
    | done _ => exact .inr List.nil_prefix
    | @pick _ f₁' _ _ x' ys b1 b2 b3 b4 b5 =>
      have hx' : S x' := (hS x').2 b1
      have hx : S' x := (hS x).1 a1
      have e : f x = f x' := le_antisymm (by rw [hf x a1, hf x' hx']; exact b2 x hx) (a2 x' hx')
      obtain rfl : x = x' := hp x x' a1 hx' (le_antisymm (a3 x' hx' e.symm) (b3 x hx (by rw [← hf x a1, ← hf x' hx', e])))
      have := ih b5 (fun y => and_congr (hS y) Iff.rfl) (by
        rintro y ⟨h1, h2⟩
        by_cases hn : near x y
        · rw [(a4 y h1 h2).1 hn, (b4 y ((hS y).1 h1) h2).1 hn, hf y h1, hf x a1]
        · rw [(a4 y h1 h2).2 hn, (b4 y ((hS y).1 h1) h2).2 hn, hf y h1]) (fun y z hy hz => hp y z hy.1 hz.1)
      simpa using this

/-- **C121.** Graph density: how the queries are divided into batches makes no difference. Two experiments from the same start, the objects with
the same densities, ask for the same examples in the same order, as far as both go. -/
theorem C121_graph_density (nbrs : Nat → List Nat) {train : List α} (ht : train.Nodup) {d d₁ d₂ : List K} {l u l' u' xs ys : List α} (h₁ : Series nbrs train d l u xs d₁)
    (h₂ : Series nbrs train d l' u' ys d₂) (hu : u.Nodup) (hu' : u'.Nodup) (hl : ∀ x ∈ l, x ∈ train) (hut : ∀ x ∈ u, x ∈ train)
    (hcov : ∀ x ∈ train, x ∈ l ∨ x ∈ u) (hdisj : ∀ x ∈ l, x ∉ u) (hd : d.length = train.length) (hll : ∀ x, x ∈ l ↔ x ∈ l') (huu : ∀ x, x ∈ u ↔ x ∈ u') :
    (xs.length ≤ ys.length → xs <+: ys) ∧ (xs.length = ys.length → xs = ys) := by
  have g₁ := GraphDensity.C94_series nbrs ht h₁ hu hl hut hcov hdisj hd
  have g₂ := GraphDensity.C94_series nbrs ht h₂ hu' (fun x hx => hl x ((hll x).2 hx)) (fun x hx => hut x ((huu x).2 hx))
    (fun x hx => (hcov x hx).imp (hll x).1 (huu x).1) (fun x hx hx' => hdisj x ((hll x).2 hx) ((huu x).2 hx')) hd
  have hpre := greedy_unique g₁ g₂ huu (fun _ _ => rfl) (fun x y hx hy h => (List.idxOf_inj (hut x hx)).1 h)
  have key : xs.length ≤ ys.length → xs <+: ys := by
    intro hle
    rcases hpre with h | h
    · exact h
    · rw [h.eq_of_length (le_antisymm h.length_le hle)]
  exact ⟨key, fun he => (key he.le).eq_of_length he⟩

end

/-! ## Concrete cases -/

/-- Uncertainty sampling of one and of two out of three examples. -/
example : (uncertainty (K := ℚ) id (fun l => (List.range l.length).insertionSort (fun i j => l.getD i 0 ≤ l.getD j 0)) .leastConfident (.array [7, 8, 9])
      (.mat 2 [[1/2, 1/2], [9/10, 1/10], [7/10, 3/10]]) 1).toOption = some [7] ∧
    (uncertainty (K := ℚ) id (fun l => (List.range l.length).insertionSort (fun i j => l.getD i 0 ≤ l.getD j 0)) .leastConfident (.array [7, 8, 9])
      (.mat 2 [[1/2, 1/2], [9/10, 1/10], [7/10, 3/10]]) 2).toOption = some [9, 7] := by decide +kernel

/-- Density weighting with a batch larger than the pool: `argret[argret.size - n:]` counts from the end, and a batch of four out of three examples is one example,
while a batch of two is two. So the bound in `C121_density_weighted` cannot be left out (in general: `C31_nlargestarg_violation`). -/
example :
    let argsort := fun l : List ℚ => (List.range l.length).insertionSort (fun i j => l.getD i 0 ≤ l.getD j 0)
    (densityWeighted argsort (.array [7, 8, 9]) [1, 2, 3] [1, 1, 1] 2).toOption = some [8, 9] ∧
    (densityWeighted argsort (.array [7, 8, 9]) [1, 2, 3] [1, 1, 1] 4).toOption = some [9] := by decide +kernel

/-- Coreset: two at once, or one and then one. -/
example : (Core.select lineD (fun _ => true) [0, 10, 4, 7] Core.fresh [0] [10, 4, 7] 2).2 = .ok [10, 4] ∧
    (Core.select lineD (fun _ => true) [0, 10, 4, 7] Core.fresh [0] [10, 4, 7] 1).2 = .ok [10] ∧
    (Core.select lineD (fun _ => true) [0, 10, 4, 7] (Core.select lineD (fun _ => true) [0, 10, 4, 7] Core.fresh [0] [10, 4, 7] 1).1 [10, 0] [7, 4] 1).2 =
      .ok [4] := by decide +kernel

/-- Graph density: a series of one call of a batch of two, to be compared with the example of two calls of `C94`. -/
example : Series (fun i => [0, 1, 2].filter (· ≠ i)) [7, 8, 9, 5] ([1/2, 3/4, 5/8, 9/10] : List ℚ) [5] [7, 8, 9] ([8, 9] ++ []) [-1/8, -35/8, -35/8, -27/8] :=
  .call (batch := 2) (fuel := 2) (by decide) (by decide) (by decide) (by decide +kernel) (.done _ _ _)

end Alipy.Batches
