import Verif.Spec.StaySelected
import Verif.Spec.NoisySelect
import Verif.Props.LeaveOut
import Verif.Props.Even
import Verif.Props.Consensus
import Verif.Props.IEthresh
import Verif.Props.Knapsack
import Mathlib.Algebra.BigOperators.Field
/-!
# C143: what was selected stays selected when it becomes better
-/
set_option linter.unusedSectionVars false
set_option linter.unusedSimpArgs false
namespace Alipy.StaySelected
open Alipy Alipy.Select Alipy.LeaveOut

variable {α K : Type}

theorem best_stays {R R' : α → α → Prop} {u : List α} {k : Nat} {S S' : List α} (hS : Best R u k S) (hS' : Best R' u k S') {x : α}
    (h : ∀ z ∈ u, z ≠ x → R z x → ¬ R' x z) (hx : x ∈ S) : x ∈ S' := by
  obtain ⟨a1, a2, a3, a4⟩ := hS
  obtain ⟨b1, b2, b3, b4⟩ := hS'
  by_contra hc
  obtain ⟨z, hz, hz'⟩ := exists_other b1 a1 (by omega) hx hc
  exact h z (b2 z hz) (fun e => hz' (e ▸ hx)) (a4 z (b2 z hz) hz' x hx) (b4 x (a2 x hx) hc z hz)

section
variable [LinearOrder K]

theorem largest_stays {u : Coll α} (hu : u.items.Nodup) {score score' : α → K} {k : Int} (hk : 0 < k) {x : α} (ho : Spec.OnlyAt x score score')
    (hx : score x < score' x) : Spec.StaysSelected x (fun a => byLargest a u (u.items.map score) k) (fun a => byLargest a u (u.items.map score') k) := by
  intro S S' hS hS' h
  rw [largest_iff hu _ hk] at hS hS'
  refine best_stays hS hS' (fun z _ hz h1 h2 => ?_) h
  rw [ho z hz] at h2
  exact absurd (lt_of_le_of_lt h1 hx) (not_lt.2 h2)

theorem smallest_stays {u : Coll α} (hu : u.items.Nodup) {score score' : α → K} {k : Int} (hk : 0 < k) {x : α} (ho : Spec.OnlyAt x score score')
    (hx : score' x < score x) : Spec.StaysSelected x (fun a => bySmallest a u (u.items.map score) k) (fun a => bySmallest a u (u.items.map score') k) := by
  intro S S' hS hS' h
  rw [smallest_iff hu _ hk] at hS hS'
  refine best_stays hS hS' (fun z _ hz h1 h2 => ?_) h
  rw [ho z hz] at h2
  exact absurd (lt_of_lt_of_le hx h1) (not_lt.2 h2)

end

theorem OnlyAt.comp {β γ : Type} {x : α} {g g' : α → β} (h : Spec.OnlyAt x g g') (f : β → γ) : Spec.OnlyAt x (fun y => f (g y)) (fun y => f (g' y)) :=
  fun y hy => congrArg f (h y hy)

/-! ## Uncertainty sampling -/

section
variable [Field K] [LinearOrder K] [IsStrictOrderedRing K]

/-- **C143**: least confident. An example selected stays selected when its largest probability becomes smaller. -/
theorem C143_least_confident (log : K → K) {u : Coll α} (hu : u.items.Nodup) {c : Nat} (hc : c ≠ 1) {g g' : α → List K} {k : Int} (hk : 0 < k) {x : α}
    (ho : Spec.OnlyAt x g g') (hl : (g x).length = c) (hl' : (g' x).length = c) {t t' : K} (ht : Spec.IsTop (g x) t) (ht' : Spec.IsTop (g' x) t') (hlt : t' < t) :
    Spec.StaysSelected x (fun a => uncertainty log a .leastConfident u (.mat c (u.items.map g)) k)
      (fun a => uncertainty log a .leastConfident u (.mat c (u.items.map g')) k) := by
  have e : ∀ {r : List K} {t : K}, r.length = c → Spec.IsTop r t → leastScore c r = 1 - t := by
    intro r t hr h
    obtain ⟨rest, hp, hr'⟩ := top_perm h
    subst hr
    unfold leastScore
    rw [(sorted_top hp hr')]
  have := largest_stays hu (score := fun y => leastScore c (g y)) (score' := fun y => leastScore c (g' y)) hk (OnlyAt.comp ho _)
    (by simp only [e hl ht, e hl' ht']; linarith)
  simp only [uncertainty, if_neg hc, List.map_map]
  exact this

/-- **C143**: margin. An example selected stays selected when the difference of its two largest probabilities becomes smaller. -/
theorem C143_margin (log : K → K) {u : Coll α} (hu : u.items.Nodup) {c : Nat} (hc : c ≠ 1) {g g' : α → List K} {k : Int} (hk : 0 < k) {x : α}
    (ho : Spec.OnlyAt x g g') (hl : (g x).length = c) (hl' : (g' x).length = c) {t t' : K} (ht : Spec.IsMargin (g x) t) (ht' : Spec.IsMargin (g' x) t')
    (hlt : t' < t) :
    Spec.StaysSelected x (fun a => uncertainty log a .margin u (.mat c (u.items.map g)) k)
      (fun a => uncertainty log a .margin u (.mat c (u.items.map g')) k) := by
  have e : ∀ {r : List K} {t : K}, r.length = c → Spec.IsMargin r t → marginScore c r = -t := by
    rintro r t hr ⟨a, b, rest, hp, hab, hrest, rfl⟩
    subst hr
    rw [kth_margin hp hab hrest]
    ring
  have := largest_stays hu (score := fun y => marginScore c (g y)) (score' := fun y => marginScore c (g' y)) hk (OnlyAt.comp ho _)
    (by simp only [e hl ht, e hl' ht']; linarith)
  simp only [uncertainty, if_neg hc, List.map_map]
  exact this

/-- **C143**: distance to the boundary. An example selected stays selected when it comes closer to the boundary. -/
theorem C143_distance (log : K → K) {u : Coll α} (hu : u.items.Nodup) {g g' : α → K} {k : Int} (hk : 0 < k) {x : α}
    (ho : Spec.OnlyAt x g g') (hlt : |g' x| < |g x|) :
    Spec.StaysSelected x (fun a => uncertainty log a .distance u (.vec (u.items.map g)) k) (fun a => uncertainty log a .distance u (.vec (u.items.map g')) k) := by
  have := smallest_stays hu (score := fun y => |g y|) (score' := fun y => |g' y|) hk (OnlyAt.comp ho _) hlt
  simp only [uncertainty, List.map_map]
  exact this

end

/-- **C143**: entropy. An example selected stays selected when its probabilities become evener. -/
theorem C143_entropy {u : Coll α} (hu : u.items.Nodup) {c : Nat} (hc : c ≠ 1) {g g' : α → List ℝ} {k : Int} (hk : 0 < k) {x : α}
    (ho : Spec.OnlyAt x g g') (hp : ∀ v ∈ g x, 0 < v) (he : Spec.Evener (g x) (g' x)) :
    Spec.StaysSelected x (fun a => uncertainty Real.log a .entropy u (.mat c (u.items.map g)) k)
      (fun a => uncertainty Real.log a .entropy u (.mat c (u.items.map g')) k) := by
  have := largest_stays hu (score := fun y => entropyScore Real.log (clip (g y))) (score' := fun y => entropyScore Real.log (clip (g' y))) hk
    (OnlyAt.comp ho (fun r => entropyScore Real.log (clip r))) (C133_entropy_score he hp)
  simp only [uncertainty, if_neg hc, List.map_map]
  exact this

/-! ## Query by committee -/

/-- What a class contributes to the vote entropy is strictly convex in its votes. -/
theorem vote_convex (n : ℝ) : StrictConvexOn ℝ (Set.Ici 0) (fun v : ℝ => v * Real.log (v + 1 / 1000000000) - v * Real.log n) := by
  have h1 : StrictConvexOn ℝ (Set.Ici 0) (fun u : ℝ => u * Real.log u) := Real.strictConvexOn_mul_log
  have h2 : StrictConcaveOn ℝ (Set.Ioi 0) Real.log := strictConcaveOn_log_Ioi
  refine ⟨convex_Ici 0, ?_⟩
  intro x hx y hy hxy a b ha hb hab
  have hx0 : 0 ≤ x := hx
  have hy0 : 0 ≤ y := hy
  have hx' : x + 1 / 1000000000 ∈ Set.Ioi (0 : ℝ) := by show 0 < x + 1 / 1000000000; linarith
  have hy' : y + 1 / 1000000000 ∈ Set.Ioi (0 : ℝ) := by show 0 < y + 1 / 1000000000; linarith
  have hne : x + 1 / 1000000000 ≠ y + 1 / 1000000000 := fun h => hxy (by linarith)
  have g1 := h1.2 (Set.Ioi_subset_Ici_self hx') (Set.Ioi_subset_Ici_self hy') hne ha hb hab
  have g2 := h2.2 hx' hy' hne ha hb hab
  simp only [smul_eq_mul] at g1 g2 ⊢
  have e : a * (x + 1 / 1000000000) + b * (y + 1 / 1000000000) = a * x + b * y + 1 / 1000000000 := by
    have : b = 1 - a := by linarith
    subst this
    ring
  rw [e] at g1 g2
  nlinarith

theorem two_votes {f : ℝ → ℝ} (hf : StrictConvexOn ℝ (Set.Ici 0) f) {a b : ℝ} (hb : 0 ≤ b) (hab : b < a) : f a + f (b + 1) < f (a + 1) + f b := by
  have hd : 0 < a + 1 - b := by linarith
  have hD : (a + 1 - b) ≠ 0 := ne_of_gt hd
  have h1 : 0 < 1 / (a + 1 - b) := by positivity
  have h2 : 0 < (a - b) / (a + 1 - b) := div_pos (by linarith) hd
  have hs : (a - b) / (a + 1 - b) + 1 / (a + 1 - b) = 1 := by field_simp; ring
  have m1 : (a + 1) ∈ Set.Ici (0 : ℝ) := by show 0 ≤ a + 1; linarith
  have m2 : b ∈ Set.Ici (0 : ℝ) := hb
  have g1 := hf.2 m1 m2 (by linarith) h2 h1 hs
  have g2 := hf.2 m1 m2 (by linarith) h1 h2 (by linarith)
  simp only [smul_eq_mul] at g1 g2
  have e1 : (a - b) / (a + 1 - b) * (a + 1) + 1 / (a + 1 - b) * b = a := by field_simp; ring
  have e2 : 1 / (a + 1 - b) * (a + 1) + (a - b) / (a + 1 - b) * b = b + 1 := by field_simp; ring
  rw [e1] at g1
  rw [e2] at g2
  have e3 : ((a - b) / (a + 1 - b) * f (a + 1) + 1 / (a + 1 - b) * f b) + (1 / (a + 1 - b) * f (a + 1) + (a - b) / (a + 1 - b) * f b) = f (a + 1) + f b := by
    have : (a - b) / (a + 1 - b) = 1 - 1 / (a + 1 - b) := by linarith
    rw [this]
    ring
  linarith

theorem voteEntropy_over {votes : List Int} (hne : votes ≠ []) {F : Finset Int} (hF : votes.toFinset ⊆ F) : voteEntropy Real.log votes =
    -(∑ c ∈ F, ((votes.count c : ℝ) * Real.log ((votes.count c : ℝ) + 1 / 1000000000) - (votes.count c : ℝ) * Real.log votes.length)) / votes.length := by
  have hn : (0 : ℝ) < votes.length := by exact_mod_cast List.length_pos_of_ne_nil hne
  rw [Consensus.voteEntropy_eq, Finset.sum_subset hF, neg_div, Finset.sum_div, ← Finset.sum_neg_distrib]
  · refine Finset.sum_congr rfl (fun c _ => ?_)
    have h0 : (0 : ℝ) ≤ votes.count c := by positivity
    rw [Real.log_div (by positivity) (ne_of_gt hn)]
    ring
  · intro c _ hc
    have : votes.count c = 0 := List.count_eq_zero.2 (fun h => hc (by simpa using h))
    simp [this]

theorem voteEntropy_perm {v w : List Int} (h : v.Perm w) : voteEntropy Real.log v = voteEntropy Real.log w := by
  have ht : v.toFinset = w.toFinset := by ext c; simp [h.mem_iff]
  rw [Consensus.voteEntropy_eq, Consensus.voteEntropy_eq, ht, h.length_eq]
  exact Finset.sum_congr rfl (fun c _ => by rw [h.count_eq])

theorem vote_moved {v v' : List Int} (h : Spec.VoteMoved v v') : voteEntropy Real.log v < voteEntropy Real.log v' := by
  obtain ⟨p, q, l, h1, h2, hpq⟩ := h
  have hne : p ≠ q := by rintro rfl; omega
  rw [voteEntropy_perm h1, voteEntropy_perm h2]
  have hF : ∀ c : Int, c = p ∨ c = q → (c :: l).toFinset ⊆ insert p (insert q l.toFinset) := by
    intro c hc d hd
    simp at hd ⊢
    rcases hd with rfl | hd
    · rcases hc with rfl | rfl <;> simp
    · simp [hd]
  rw [voteEntropy_over (by simp) (hF p (.inl rfl)), voteEntropy_over (by simp) (hF q (.inr rfl))]
  have hn : (0 : ℝ) < (p :: l).length := by exact_mod_cast List.length_pos_of_ne_nil (by simp)
  have hln : (((q :: l).length : Nat) : ℝ) = ((p :: l).length : Nat) := by simp
  rw [hln]
  refine div_lt_div_of_pos_right (neg_lt_neg ?_) hn
  generalize (((p :: l).length : Nat) : ℝ) = n
  have hsplit : ∀ f : Int → ℝ, ∑ c ∈ insert p (insert q l.toFinset), f c = f p + (f q + ∑ c ∈ (l.toFinset.erase p).erase q, f c) := by
    intro f
    have e : insert p (insert q l.toFinset) = insert p (insert q ((l.toFinset.erase p).erase q)) := by
      ext c
      simp
      tauto
    rw [e, Finset.sum_insert (by simp [hne]), Finset.sum_insert (by simp)]
  rw [hsplit, hsplit]
  have hrest : ∀ c ∈ (l.toFinset.erase p).erase q, (q :: l).count c = (p :: l).count c := by
    intro c hc
    simp at hc
    rw [List.count_cons_of_ne (fun e => hc.1 e.symm), List.count_cons_of_ne (fun e => hc.2.1 e.symm)]
  rw [Finset.sum_congr rfl (fun c hc => by rw [hrest c hc])]
  rw [List.count_cons_self, List.count_cons_of_ne hne.symm, List.count_cons_of_ne hne, List.count_cons_self]
  have := two_votes (vote_convex n) (a := l.count p) (b := l.count q) (by positivity) (by exact_mod_cast hpq)
  push_cast at this ⊢
  linarith

theorem vote_evener {v v' : List Int} (h : Spec.EvenerVotes v v') : voteEntropy Real.log v < voteEntropy Real.log v' := by
  induction h with
  | single h => exact vote_moved h
  | tail _ h ih => exact ih.trans (vote_moved h)

/-- **C143**: query by committee with vote entropy. An example selected stays selected when the votes for it become evener. -/
theorem C143_committee {members members' : List (α → Int)} (hm : 2 ≤ members.length) (hm' : 2 ≤ members'.length) {u : Coll α} (hu : u.items.Nodup) {k : Int} (hk : 0 < k)
    {x : α} (ho : Spec.OnlyAt x (fun y => members.map (fun h => h y)) (fun y => members'.map (fun h => h y)))
    (he : Spec.EvenerVotes (members.map (fun h => h x)) (members'.map (fun h => h x))) :
    Spec.StaysSelected x (fun a => qbc Real.log a u (members.map (fun h => u.items.map h)) k) (fun a => qbc Real.log a u (members'.map (fun h => u.items.map h)) k) := by
  have e : ∀ ms : List (α → Int), 2 ≤ ms.length → ∀ a, qbc Real.log a u (ms.map (fun h => u.items.map h)) k =
      byLargest a u (u.items.map (fun x => voteEntropy Real.log (ms.map (fun h => h x)))) k := by
    intro ms hms a
    unfold qbc byLargest
    rw [List.length_map, if_neg (by omega)]
    have hl : ((ms.map (fun h => u.items.map h)).headD []).length = u.items.length := by
      cases ms with
      | nil => simp at hms
      | cons m ms => simp
    rw [hl, range_map u.items _ (fun x => voteEntropy Real.log (ms.map (fun h => h x))) (fun i x hx => by rw [members_at _ _ _ hx])]
  simp only [e _ hm, e _ hm']
  exact largest_stays hu hk (OnlyAt.comp ho (voteEntropy Real.log)) (vote_evener he)

/-! ## CEAL -/

section
variable [Field K] [LinearOrder K] [IsStrictOrderedRing K] {ν : Type}

/-- CEAL with oracles given by their names: an oracle has the correctness of its answers on the neighbours of an example, its cost and its accuracy. -/
def cealBy (kw : List (String × Nat)) (ini : Nat) (names : List ν) (d : α → Nat → List K) (top : α → K) (O : ν → (α → List Bool) × K × K) (u : List α) :
    Except PyErr (α × ν) :=
  cealOn kw ini names d top (names.map O) u

/-- The pairs of an example and an oracle in the order of the table. -/
def pairs (names : List ν) (u : List α) : List (α × ν) := names.flatMap (fun n => u.map (fun x => (x, n)))

theorem entries_pairs {ο : Type} (q : ο → α → K) (O : ν → ο) (names : List ν) (u : List α) :
    entries names (names.map O) q u = (pairs names u).map (fun p => (p, q (O p.2) p.1)) := by
  unfold entries pairs
  induction names with
  | nil => rfl
  | cons n names ih =>
    simp only [List.map_cons, List.zip_cons_cons, List.flatMap_cons, List.map_append, List.map_map]
    rw [ih]
    rfl

theorem ceal_iff {kw : List (String × Nat)} {ini : Nat} {names : List ν} {d : α → Nat → List K} {top : α → K} {O : ν → (α → List Bool) × K × K} {u : List α}
    {x : α} {n : ν} : cealBy kw ini names d top O u = .ok (x, n) ↔ 2 ≤ u.length ∧ min ((dictGet "n_neighbors" kw).getD 10) (ini - 1) ≠ 0 ∧
      firstBest ((pairs names u).map (fun p => (p, Spec.quality (d p.1 (min ((dictGet "n_neighbors" kw).getD 10) (ini - 1))) ((O p.2).1 p.1) (1 - top p.1)
        (O p.2).2.1))) = some (x, n) := by
  have hev : dictGet "n_neighbors" (dictErase "n_neighbors" kw) = none := by
    rw [dictGet_dictErase]; simp
  by_cases hu : u.length ≤ 1
  · unfold cealBy cealOn Noisy.ceal
    simp only [if_pos hu]
    constructor
    · intro h; cases h
    · intro h; omega
  by_cases hk : min ((dictGet "n_neighbors" kw).getD 10) (ini - 1) = 0
  · unfold cealBy cealOn Noisy.ceal
    simp only [if_neg hu, if_pos hk]
    constructor
    · intro h; cases h
    · intro h; exact absurd hk h.2.1
  have e : cealBy kw ini names d top O u = Noisy.bestPair u names ((names.map O).map (fun o => u.map (fun x =>
      Spec.quality (d x (min ((dictGet "n_neighbors" kw).getD 10) (ini - 1))) (o.1 x) (1 - top x) o.2.1))) := by
    unfold cealBy cealOn Noisy.ceal
    simp only [hev, Option.getD_none]
    rw [if_neg hu, if_neg hk, List.map_map]
    congr 1
    apply List.map_congr_left
    intro o _
    apply List.ext_getElem
    · simp
    · intro i h1 h2
      simp at h1 h2
      simp [h1, Noisy.qEntry_quality]
  rw [e, bestPair_eq _ (by omega) (by simp), entries_pairs]
  exact ⟨fun h => ⟨by omega, hk, h⟩, fun h => h.2.2⟩

/-- If no pair gains on the best one then it stays the best one. -/
theorem firstBest_mono {β : Type} {l : List β} {v v' : β → K} {a : β} (h : firstBest (l.map (fun b => (b, v b))) = some a)
    (h1 : ∀ b ∈ l, v b ≤ v a → v' b ≤ v' a) (h2 : ∀ b ∈ l, v b < v a → v' b < v' a) : firstBest (l.map (fun b => (b, v' b))) = some a := by
  unfold firstBest at h ⊢
  rw [Option.map_eq_some_iff] at h ⊢
  obtain ⟨⟨a', w⟩, ha, rfl⟩ := h
  obtain ⟨hmax, l1, l2, hl, hno⟩ := List.find?_eq_some_iff_append.1 ha
  obtain ⟨m1, m2', hl', e1, e2⟩ := List.map_eq_append_iff.1 hl
  obtain ⟨a'', m2, rfl, e3, e4⟩ := List.map_eq_cons_iff.1 e2
  cases e3
  subst hl'
  rw [List.all_eq_true] at hmax
  have hmax' : ∀ b ∈ m1 ++ a' :: m2, v b ≤ v a' := fun b hb => by simpa using hmax (b, v b) (List.mem_map.2 ⟨b, hb, rfl⟩)
  refine ⟨(a', v' a'), ?_, rfl⟩
  rw [List.find?_eq_some_iff_append]
  refine ⟨?_, m1.map (fun b => (b, v' b)), m2.map (fun b => (b, v' b)), by simp, ?_⟩
  · rw [List.all_eq_true]
    intro b hb
    obtain ⟨b, hb', rfl⟩ := List.mem_map.1 hb
    simpa using h1 b hb' (hmax' b hb')
  · intro b hb
    obtain ⟨b, hb', rfl⟩ := List.mem_map.1 hb
    have hn := hno (b, v b) (by rw [← e1]; exact List.mem_map.2 ⟨b, hb', rfl⟩)
    rw [Bool.not_eq_true', List.all_eq_false] at hn ⊢
    obtain ⟨c, hc, hcb⟩ := hn
    obtain ⟨c, hc', rfl⟩ := List.mem_map.1 hc
    simp only [decide_eq_true_eq, not_le] at hcb
    refine ⟨(a', v' a'), by simp, ?_⟩
    simp only [decide_eq_true_eq, not_le]
    exact h2 b (by simp [hb']) (lt_of_lt_of_le hcb (hmax' c hc'))

theorem quality_nonneg {d : List K} (hd : ∀ v ∈ d, 0 ≤ v) (r : List Bool) {w c : K} (hw : 0 ≤ w) : 0 ≤ Spec.quality d r w c := by
  unfold Spec.quality
  have h1 : 0 ≤ (((d.zip r).filter Prod.snd).map Prod.fst).sum := by
    apply List.sum_nonneg
    intro v hv
    obtain ⟨p, hp, rfl⟩ := List.mem_map.1 hv
    exact hd _ (List.of_mem_zip (List.mem_filter.1 hp).1).1
  have h2 : (0 : K) < max c (1 / 10000) := lt_of_lt_of_le (by norm_num) (le_max_right _ _)
  positivity

/-- **C143**: CEAL. The pair chosen stays chosen when its oracle becomes cheaper. -/
theorem C143_ceal_cheaper {kw : List (String × Nat)} {ini : Nat} {names : List ν} {d : α → Nat → List K} {top : α → K} {O O' : ν → (α → List Bool) × K × K}
    {u : List α} {x : α} {n : ν} (hd : ∀ y k, ∀ v ∈ d y k, 0 ≤ v) (ht : ∀ y, top y ≤ 1) (ho : Spec.OnlyAt n O O') (hr : (O' n).1 = (O n).1)
    (hc : (O' n).2.1 ≤ (O n).2.1) (h : cealBy kw ini names d top O u = .ok (x, n)) : cealBy kw ini names d top O' u = .ok (x, n) := by
  rw [ceal_iff] at h ⊢
  refine ⟨h.1, h.2.1, ?_⟩
  generalize min ((dictGet "n_neighbors" kw).getD 10) (ini - 1) = k at h ⊢
  have hpos : ∀ c : K, (0 : K) < max c (1 / 10000) := fun c => lt_of_lt_of_le (by norm_num) (le_max_right _ _)
  have hm : max (O' n).2.1 (1 / 10000) ≤ max (O n).2.1 (1 / 10000) := max_le_max_right _ hc
  have hq : ∀ (r : List Bool) (y : α), Spec.quality (d y k) r (1 - top y) (O' n).2.1 =
      Spec.quality (d y k) r (1 - top y) (O n).2.1 * (max (O n).2.1 (1 / 10000) / max (O' n).2.1 (1 / 10000)) := by
    intro r y
    unfold Spec.quality
    have h1 := ne_of_gt (hpos (O n).2.1)
    have h2 := ne_of_gt (hpos (O' n).2.1)
    field_simp
  have h1 : (1 : K) ≤ max (O n).2.1 (1 / 10000) / max (O' n).2.1 (1 / 10000) := (one_le_div (hpos _)).2 hm
  have hx : Spec.quality (d x k) ((O n).1 x) (1 - top x) (O n).2.1 ≤ Spec.quality (d x k) ((O' n).1 x) (1 - top x) (O' n).2.1 := by
    rw [hr, hq]
    exact le_mul_of_one_le_right (quality_nonneg (hd x k) _ (by linarith [ht x])) h1
  refine firstBest_mono h.2.2 ?_ ?_
  · rintro ⟨y, m⟩ _ hle
    by_cases hmn : m = n
    · subst hmn
      simp only [hr, hq] at hle ⊢
      exact mul_le_mul_of_nonneg_right hle (by linarith)
    · simp only [ho m hmn] at hle ⊢
      exact hle.trans hx
  · rintro ⟨y, m⟩ _ hlt
    by_cases hmn : m = n
    · subst hmn
      simp only [hr, hq] at hlt ⊢
      exact mul_lt_mul_of_pos_right hlt (by linarith)
    · simp only [ho m hmn] at hlt ⊢
      exact lt_of_lt_of_le hlt hx

/-- **C143**: CEAL. The pair chosen stays chosen when the model becomes less certain about its example. -/
theorem C143_ceal_uncertain {kw : List (String × Nat)} {ini : Nat} {names : List ν} {d : α → Nat → List K} {top top' : α → K} {O : ν → (α → List Bool) × K × K}
    {u : List α} {x : α} {n : ν} (hd : ∀ y k, ∀ v ∈ d y k, 0 ≤ v) (ho : Spec.OnlyAt x top top') (ht : top x < 1) (hle : top' x ≤ top x)
    (h : cealBy kw ini names d top O u = .ok (x, n)) : cealBy kw ini names d top' O u = .ok (x, n) := by
  rw [ceal_iff] at h ⊢
  refine ⟨h.1, h.2.1, ?_⟩
  generalize min ((dictGet "n_neighbors" kw).getD 10) (ini - 1) = k at h ⊢
  have h0 : 0 < 1 - top x := by linarith
  have hq : ∀ (m : ν), Spec.quality (d x k) ((O m).1 x) (1 - top' x) (O m).2.1 =
      Spec.quality (d x k) ((O m).1 x) (1 - top x) (O m).2.1 * ((1 - top' x) / (1 - top x)) := by
    intro m
    unfold Spec.quality
    have h2 := ne_of_gt h0
    generalize (List.map Prod.fst (List.filter Prod.snd ((d x k).zip ((O m).1 x)))).sum / ((d x k).length : K) = s
    generalize max (O m).2.1 (1 / 10000) = c
    field_simp
  have h1 : (1 : K) ≤ (1 - top' x) / (1 - top x) := (one_le_div h0).2 (by linarith)
  have hx : Spec.quality (d x k) ((O n).1 x) (1 - top x) (O n).2.1 ≤ Spec.quality (d x k) ((O n).1 x) (1 - top' x) (O n).2.1 := by
    rw [hq]
    exact le_mul_of_one_le_right (quality_nonneg (hd x k) _ h0.le) h1
  refine firstBest_mono h.2.2 ?_ ?_
  · rintro ⟨y, m⟩ _ hl
    by_cases hy : y = x
    · subst hy
      simp only [hq] at hl ⊢
      exact mul_le_mul_of_nonneg_right hl (by linarith)
    · simp only [ho y hy] at hl ⊢
      exact hl.trans hx
  · rintro ⟨y, m⟩ _ hl
    by_cases hy : y = x
    · subst hy
      simp only [hq] at hl ⊢
      exact mul_lt_mul_of_pos_right hl (by linarith)
    · simp only [ho y hy] at hl ⊢
      exact lt_of_lt_of_le hl hx

theorem right_sum_le : ∀ {d : List K}, (∀ v ∈ d, 0 ≤ v) → ∀ {r r' : List Bool}, List.Forall₂ (fun a b => a = true → b = true) r r' →
    (((d.zip r).filter Prod.snd).map Prod.fst).sum ≤ (((d.zip r').filter Prod.snd).map Prod.fst).sum
  | [], _, _, _, _ => by simp
  | _ :: _, _, _, _, .nil => by simp
  | v :: d, hd, _, _, .cons (a := a) (b := b) hab hrr => by
    have ih := right_sum_le (d := d) (fun w hw => hd w (List.mem_cons_of_mem _ hw)) hrr
    have hv := hd v (by simp)
    cases a <;> cases b <;> simp at hab ⊢ <;> linarith

/-- **C143**: CEAL. The pair chosen stays chosen when its oracle is right about more of the neighbours of the example. -/
theorem C143_ceal_right {kw : List (String × Nat)} {ini : Nat} {names : List ν} {d : α → Nat → List K} {top : α → K} {O O' : ν → (α → List Bool) × K × K}
    {u : List α} {x : α} {n : ν} (hd : ∀ y k, ∀ v ∈ d y k, 0 ≤ v) (ht : ∀ y, top y ≤ 1) (ho : Spec.OnlyAt n O O') (hr : Spec.OnlyAt x (O n).1 (O' n).1)
    (hx : List.Forall₂ (fun a b => a = true → b = true) ((O n).1 x) ((O' n).1 x)) (hc : (O' n).2.1 = (O n).2.1)
    (h : cealBy kw ini names d top O u = .ok (x, n)) : cealBy kw ini names d top O' u = .ok (x, n) := by
  rw [ceal_iff] at h ⊢
  refine ⟨h.1, h.2.1, ?_⟩
  generalize min ((dictGet "n_neighbors" kw).getD 10) (ini - 1) = k at h ⊢
  have hle : Spec.quality (d x k) ((O n).1 x) (1 - top x) (O n).2.1 ≤ Spec.quality (d x k) ((O' n).1 x) (1 - top x) (O' n).2.1 := by
    rw [hc]
    unfold Spec.quality
    have h1 := right_sum_le (hd x k) hx
    have h2 : (0 : K) < max (O n).2.1 (1 / 10000) := lt_of_lt_of_le (by norm_num) (le_max_right _ _)
    have h3 : 0 ≤ 1 - top x := by linarith [ht x]
    gcongr
  have hsame : ∀ (y : α) (m : ν), ¬ (y = x ∧ m = n) → Spec.quality (d y k) ((O' m).1 y) (1 - top y) (O' m).2.1 = Spec.quality (d y k) ((O m).1 y) (1 - top y) (O m).2.1 := by
    intro y m hne
    by_cases hm : m = n
    · subst hm
      rw [hc, hr y (fun e => hne ⟨e, rfl⟩)]
    · rw [ho m hm]
  refine firstBest_mono h.2.2 ?_ ?_
  · rintro ⟨y, m⟩ _ hl
    by_cases hy : y = x ∧ m = n
    · obtain ⟨rfl, rfl⟩ := hy
      exact le_refl _
    · simp only [hsame y m hy] at hl ⊢
      exact hl.trans hle
  · rintro ⟨y, m⟩ _ hl
    by_cases hy : y = x ∧ m = n
    · obtain ⟨rfl, rfl⟩ := hy
      exact absurd hl (lt_irrefl _)
    · simp only [hsame y m hy] at hl ⊢
      exact lt_of_lt_of_le hl hle

/-! ## IEthresh -/

/-- **C143**: IEthresh. An oracle asked is still asked when its score rises, and then no other oracle is asked that was not asked before. -/
theorem C143_threshold {us : List K} (h0 : ∀ a ∈ us, 0 ≤ a) {eps : K} (he0 : 0 ≤ eps) (he : eps ≤ 1) {i : Nat} {a b : K} (hi : us[i]? = some a) (hab : a ≤ b)
    (h : i ∈ Noisy.chosen eps (us.map some)) :
    i ∈ Noisy.chosen eps ((us.set i b).map some) ∧ ∀ j ∈ Noisy.chosen eps ((us.set i b).map some), j ∈ Noisy.chosen eps (us.map some) := by
  have hil := (List.getElem?_eq_some_iff.1 hi).1
  have hne : us ≠ [] := by rintro rfl; simp at hil
  have h0' : ∀ c ∈ us.set i b, 0 ≤ c := by
    intro c hc
    rcases List.mem_or_eq_of_mem_set hc with hc | rfl
    · exact h0 c hc
    · exact (h0 a (List.mem_of_getElem? hi)).trans hab
  obtain ⟨_, m, hm1, hm2, hm3, _⟩ := Noisy.chosen_threshold hne h0 he
  obtain ⟨_, m', hm1', hm2', hm3', _⟩ := Noisy.chosen_threshold (us := us.set i b) (by simpa using hne) h0' he
  obtain ⟨a', ha', hle⟩ := (hm3 i).1 h
  rw [hi] at ha'
  cases ha'
  constructor
  · refine (hm3' i).2 ⟨b, by simp [hil], ?_⟩
    rcases List.mem_or_eq_of_mem_set hm1' with hc | hc
    · exact (mul_le_mul_of_nonneg_left (hm2 m' hc) he0).trans (hle.trans hab)
    · rw [hc]
      have hb0 : 0 ≤ b := (h0 a (List.mem_of_getElem? hi)).trans hab
      nlinarith
  · intro j hj
    by_cases hji : j = i
    · rw [hji]; exact h
    · obtain ⟨c, hc, hcl⟩ := (hm3' j).1 hj
      rw [List.getElem?_set_ne (fun e => hji e.symm)] at hc
      refine (hm3 j).2 ⟨c, hc, le_trans (mul_le_mul_of_nonneg_left ?_ he0) hcl⟩
      obtain ⟨p, hp⟩ := List.mem_iff_getElem?.1 hm1
      by_cases hpi : p = i
      · subst hpi
        rw [hi] at hp
        cases hp
        exact hab.trans (hm2' b (List.mem_of_getElem? (i := p) (by simp [hil])))
      · exact hm2' m (List.mem_of_getElem? (i := p) (by rw [List.getElem?_set_ne (fun e => hpi e.symm)]; exact hp))

end

/-! ## Selecting under a budget -/

section
open CostSensitive
variable [AddCommGroup K] [LinearOrder K] [IsOrderedAddMonoid K]

/-- Items are taken from the end: no other selection of the same value has an item that the one found has not, with the later ones the same. -/
theorem traceback_later {cap : Nat} : ∀ {its : List (CostSensitive.Item K)} {rs : List (List K)}, Stack cap its rs → ∀ (j : Nat), j ≤ cap → ∀ x, (rs.headD [])[j]? = some x →
    ∀ f, traceback its rs j = .ok f → ∀ s, s.length = its.length → cst s its ≤ j → val s its = x →
      s = f ∨ ∃ pre t t', f = pre ++ true :: t ∧ s = pre ++ false :: t' := by
  intro its rs h
  induction h with
  | base =>
    intro j hj x hx f hf s hs _ _
    simp only [traceback, Except.ok.injEq] at hf
    subst hf
    left
    simpa using hs
  | @push its it r r' rs hs hc hr hg hg' hcell ih =>
    intro j hj x hx f hf s hsl hsc hsv
    obtain _ | ⟨c, t⟩ := s
    · simp at hsl
    have htl : t.length = its.length := by simpa using hsl
    simp only [List.headD_cons] at hx ih
    have hn := stack_nonneg hs
    have h0 : 0 ≤ cst t its := sumOf_nonneg t _ (by intro y hy; obtain ⟨i, hi, rfl⟩ := List.mem_map.1 hy; exact hn i hi)
    have step : ∀ {b : Bool} {f0 : List Bool}, (t = f0 ∨ ∃ pre q q', f0 = pre ++ true :: q ∧ t = pre ++ false :: q') →
        b :: t = b :: f0 ∨ ∃ pre q q', b :: f0 = pre ++ true :: q ∧ b :: t = pre ++ false :: q' := by
      rintro b f0 (rfl | ⟨pre, q, q', rfl, rfl⟩)
      · exact .inl rfl
      · exact .inr ⟨b :: pre, q, q', rfl, rfl⟩
    obtain ⟨a, ha, ⟨hlt, hr'⟩ | ⟨hge, b, hb, hr'⟩⟩ := hcell j hj
    · rw [hr'] at hx
      simp at hx
      subst hx
      obtain ⟨f0, h1, _⟩ := traceback_ok hs j hj a ha
      unfold traceback at hf
      rw [if_neg (by omega), h1] at hf
      cases hf
      cases c with
      | true =>
        exfalso
        simp only [cst, List.map_cons, Spec.sumOf] at hsc h0
        omega
      | false =>
        exact step (ih j hj a ha f0 h1 t htl (by simpa [cst, Spec.sumOf] using hsc) (by simpa [val, Spec.sumOf] using hsv))
    · rw [hr'] at hx
      have e1 : pyAt r' (j : Int) = some x := by rw [pyAt_nat, hr', hx]
      have e2 : pyAt r ((j : Int) - it.2) = some b := by unfold pyAt; rw [if_pos hge, hb]
      simp at hx
      unfold traceback at hf
      rw [if_pos (by omega), e1, e2] at hf
      simp only at hf
      have htb : c = true → val t its ≤ b ∧ cst t its ≤ (j : Int) - it.2 := by
        rintro rfl
        have hct : cst t its ≤ (j : Int) - it.2 := by
          simp only [cst, List.map_cons, Spec.sumOf] at hsc ⊢
          omega
        have := (hg.2 _ b hb).2 t htl (by rw [Int.toNat_of_nonneg hge]; exact hct)
        exact ⟨this, hct⟩
      by_cases hxb : x = b + it.1
      · rw [if_pos hxb] at hf
        obtain ⟨f0, h1, _⟩ := traceback_ok hs ((j : Int) - it.2).toNat (by omega) b hb
        have h1' := h1
        rw [Int.toNat_of_nonneg hge] at h1'
        rw [h1'] at hf
        cases hf
        cases c with
        | false => exact .inr ⟨[], f0, t, rfl, rfl⟩
        | true =>
          refine step (ih _ (by omega) b hb f0 h1 t htl (by rw [Int.toNat_of_nonneg hge]; exact (htb rfl).2) ?_)
          have : it.1 + val t its = b + it.1 := by
            rw [← hxb, ← hsv]
            simp [val, Spec.sumOf]
          rw [add_comm b] at this
          exact add_left_cancel this
      · rw [if_neg hxb] at hf
        have hxa : x = a := by
          rcases max_choice a (b + it.1) with h | h
          · rw [← hx, h]
          · rw [h] at hx; exact absurd hx.symm hxb
        subst hxa
        obtain ⟨f0, h1, _⟩ := traceback_ok hs j hj x ha
        rw [h1] at hf
        cases hf
        cases c with
        | false => exact step (ih j hj x ha f0 h1 t htl (by simpa [cst, Spec.sumOf] using hsc) (by simpa [val, Spec.sumOf] using hsv))
        | true =>
          exfalso
          have h2 : it.1 + val t its = x := by
            rw [← hsv]
            simp [val, Spec.sumOf]
          have h3 : x ≤ b + it.1 := by
            rw [← h2, add_comm b]
            exact add_le_add_right (htb rfl).1 _
          exact hxb (le_antisymm h3 (by rw [← hx]; exact le_max_right _ _))

/-- **C143**: among the selections of the largest value the last items are preferred. -/
theorem C143_budget_ties {vals : List K} {costs : List Int} {cap : Int} (hl : vals.length = costs.length) (hc : ∀ c ∈ costs, 0 ≤ c) (hcap : 0 ≤ cap)
    {best : K} {f : List Bool} (h : knapsack vals costs cap = .ok (best, f)) {s : List Bool} (hs : s.length = vals.length) (hsc : Spec.sumOf s costs ≤ cap)
    (hsv : Spec.sumOf s vals = best) : s = f ∨ Spec.PrefersLater f s := by
  obtain ⟨n, rfl⟩ := Int.eq_ofNat_of_zero_le hcap
  have hz1 : (vals.zip costs).map Prod.fst = vals := List.map_fst_zip (by omega)
  have hz2 : (vals.zip costs).map Prod.snd = costs := List.map_snd_zip (by omega)
  have hzl : (vals.zip costs).length = vals.length := by simp [hl]
  obtain ⟨rs, h1, h2⟩ := rows_stack (cap := n) (vals.zip costs) [] _ .base (by
    intro x hx
    exact hc _ (List.of_mem_zip hx).2)
  rw [List.append_nil] at h2
  obtain ⟨r, rest, rfl, hlen, hbest⟩ := stack_good h2
  have hlt : n < r.length := by omega
  obtain ⟨f0, h3, h4, _⟩ := traceback_ok h2 n (le_refl _) r[n] (List.getElem?_eq_getElem hlt)
  have e : knapsack vals costs (n : Int) = .ok (r[n], f0.reverse) := by
    unfold knapsack
    rw [if_neg (by simp [hl]), if_neg (by omega)]
    have : ((n : Int) + 1).toNat = n + 1 := by omega
    rw [this, h1]
    simp only
    rw [h3]
    simp only [List.headD_cons]
    rw [pyAt_nat, List.getElem?_eq_getElem hlt]
  rw [e] at h
  simp only [Except.ok.injEq, Prod.mk.injEq] at h
  obtain ⟨rfl, rfl⟩ := h
  have := traceback_later h2 n (le_refl _) r[n] (List.getElem?_eq_getElem hlt) f0 h3 s.reverse (by simp [hs, hl])
    (by unfold cst; rw [List.map_reverse, hz2, sumOf_reverse s costs (by omega)]; exact hsc)
    (by unfold val; rw [List.map_reverse, hz1, sumOf_reverse s vals hs]; exact hsv)
  rcases this with h | ⟨pre, t, t', hf, hr⟩
  · left
    rw [← h, List.reverse_reverse]
  · right
    refine ⟨t.reverse, t'.reverse, pre.reverse, by rw [hf]; simp, ?_⟩
    have := congrArg List.reverse hr
    rw [List.reverse_reverse] at this
    rw [this]
    simp

theorem later_asymm {f s : List Bool} (h1 : Spec.PrefersLater f s) (h2 : Spec.PrefersLater s f) : False := by
  obtain ⟨t, t', p, rfl, rfl⟩ := h1
  obtain ⟨w, w', q, e1, e2⟩ := h2
  have key : ∀ (t t' p w w' q : List Bool), t ++ true :: p = w' ++ false :: q → t' ++ false :: p = w ++ true :: q → p.length ≤ q.length → False := by
    intro t t' p w w' q e1 e2 hl
    have a1 := congrArg (fun l => l.reverse[p.length]?) e1
    have a2 := congrArg (fun l => l.reverse[p.length]?) e2
    have c1 := congrArg List.length e1
    have c2 := congrArg List.length e2
    simp only [List.reverse_append, List.reverse_cons, List.append_assoc] at a1 a2
    rw [List.getElem?_append_right (by simp)] at a1 a2
    simp only [List.length_reverse, Nat.sub_self, List.singleton_append, List.getElem?_cons_zero] at a1 a2
    rcases Nat.lt_or_ge p.length q.length with h | h
    · rw [List.getElem?_append_left (by simpa using h)] at a1 a2
      rw [← a1] at a2
      simp at a2
    · have : p.length = q.length := by omega
      rw [this, List.getElem?_append_right (by simp)] at a1
      simp at a1
  rcases Nat.le_total p.length q.length with h | h
  · exact key t t' p w w' q e2 e1 h
  · exact key w w' q t t' p e1.symm e2.symm h

theorem sumOf_set {M : Type} [AddCommGroup M] : ∀ {s : List Bool} {l : List M} {i : Nat} {a b : M}, l[i]? = some a →
    Spec.sumOf s (l.set i b) = Spec.sumOf s l + (if s[i]? = some true then b - a else 0)
  | [], l, i, a, b, _ => by simp [Spec.sumOf]
  | _ :: _, [], _, _, _, h => by simp at h
  | c :: s, x :: l, 0, a, b, h => by
    simp at h
    subst h
    cases c <;> simp [Spec.sumOf]
    abel
  | c :: s, x :: l, i + 1, a, b, h => by
    have ih := sumOf_set (s := s) (l := l) (i := i) (a := a) (b := b) (by simpa using h)
    cases c <;> simp only [List.set_cons_succ, Spec.sumOf, List.getElem?_cons_succ, ih]
    rw [add_assoc]

/-- What is best both times and both times the preferred one among equals is the same. -/
theorem same_best {vals vals' : List K} {costs costs' : List Int} {cap : Int} (hl : vals.length = costs.length) (hc : ∀ c ∈ costs, 0 ≤ c)
    (hl' : vals'.length = costs'.length) (hc' : ∀ c ∈ costs', 0 ≤ c) (hcap : 0 ≤ cap) {best best' : K} {f f' : List Bool}
    (h : knapsack vals costs cap = .ok (best, f)) (h' : knapsack vals' costs' cap = .ok (best', f'))
    (h1 : f'.length = vals.length ∧ Spec.sumOf f' costs ≤ cap ∧ Spec.sumOf f' vals = best)
    (h2 : f.length = vals'.length ∧ Spec.sumOf f costs' ≤ cap ∧ Spec.sumOf f vals' = best') : f' = f := by
  rcases C143_budget_ties hl hc hcap h h1.1 h1.2.1 h1.2.2 with e | e
  · exact e
  · rcases C143_budget_ties hl' hc' hcap h' h2.1 h2.2.1 h2.2.2 with e' | e'
    · exact e'.symm
    · exact (later_asymm e e').elim

theorem knapsack_spec {vals : List K} {costs : List Int} {cap : Int} (hl : vals.length = costs.length) (hc : ∀ c ∈ costs, 0 ≤ c) (hcap : 0 ≤ cap)
    {best : K} {f : List Bool} (h : knapsack vals costs cap = .ok (best, f)) : f.length = vals.length ∧ Spec.sumOf f costs ≤ cap ∧ Spec.sumOf f vals = best ∧
      ∀ s : List Bool, s.length = vals.length → Spec.sumOf s costs ≤ cap → Spec.sumOf s vals ≤ best := by
  obtain ⟨b, g, e, h'⟩ := C44_optimal (vals := vals) hl hc hcap
  rw [h] at e
  cases e
  exact h'

/-- **C143**: an item taken that becomes more valuable: the same items are taken. -/
theorem C143_budget_more_valuable {vals : List K} {costs : List Int} {cap : Int} (hl : vals.length = costs.length) (hc : ∀ c ∈ costs, 0 ≤ c) (hcap : 0 ≤ cap)
    {best : K} {f : List Bool} (h : knapsack vals costs cap = .ok (best, f)) {i : Nat} {a b : K} (hi : vals[i]? = some a) (hab : a ≤ b) (hf : f[i]? = some true) :
    knapsack (vals.set i b) costs cap = .ok (best + (b - a), f) := by
  obtain ⟨g1, g2, g3, g4⟩ := knapsack_spec hl hc hcap h
  obtain ⟨best', f', h', g1', g2', g3', g4'⟩ := C44_optimal (vals := vals.set i b) (costs := costs) (by simpa using hl) hc hcap
  rw [List.length_set] at g1' g4'
  have hd : 0 ≤ b - a := sub_nonneg.2 hab
  have e1 : Spec.sumOf f (vals.set i b) = best + (b - a) := by rw [sumOf_set hi, if_pos hf, g3]
  have l1 : best + (b - a) ≤ best' := by rw [← e1]; exact g4' f g1 g2
  have l2 : Spec.sumOf f' vals ≤ best := g4 f' g1' g2'
  rw [sumOf_set hi] at g3'
  have e2 : best' = best + (b - a) ∧ Spec.sumOf f' vals = best := by
    by_cases hf' : f'[i]? = some true
    · rw [if_pos hf'] at g3'
      have : best' ≤ best + (b - a) := by rw [← g3']; exact add_le_add_left l2 _
      have e := le_antisymm this l1
      refine ⟨e, ?_⟩
      rw [e] at g3'
      exact add_right_cancel g3'
    · rw [if_neg hf', add_zero] at g3'
      have l3 : best ≤ best + (b - a) := le_add_of_nonneg_right hd
      have : best' ≤ best := g3' ▸ l2
      have l4 := le_antisymm (this.trans l3) l1
      exact ⟨l4, le_antisymm l2 (by rw [g3', l4]; exact l3)⟩
  have := same_best hl hc (by simpa using hl) hc hcap h h' ⟨g1', g2', e2.2⟩ ⟨by simpa using g1, g2, by rw [e1, e2.1]⟩
  rw [h', this, e2.1]

/-- **C143**: an item left out that becomes less valuable: the same items are taken. -/
theorem C143_budget_less_valuable {vals : List K} {costs : List Int} {cap : Int} (hl : vals.length = costs.length) (hc : ∀ c ∈ costs, 0 ≤ c) (hcap : 0 ≤ cap)
    {best : K} {f : List Bool} (h : knapsack vals costs cap = .ok (best, f)) {i : Nat} {a b : K} (hi : vals[i]? = some a) (hab : b ≤ a) (hf : f[i]? = some false) :
    knapsack (vals.set i b) costs cap = .ok (best, f) := by
  obtain ⟨g1, g2, g3, g4⟩ := knapsack_spec hl hc hcap h
  obtain ⟨best', f', h', g1', g2', g3', g4'⟩ := C44_optimal (vals := vals.set i b) (costs := costs) (by simpa using hl) hc hcap
  rw [List.length_set] at g1' g4'
  have hd : b - a ≤ 0 := sub_nonpos.2 hab
  have e1 : Spec.sumOf f (vals.set i b) = best := by rw [sumOf_set hi, if_neg (by simp [hf]), g3, add_zero]
  have l1 : best ≤ best' := by rw [← e1]; exact g4' f g1 g2
  have l2 : Spec.sumOf f' vals ≤ best := g4 f' g1' g2'
  rw [sumOf_set hi] at g3'
  have l3 : best' ≤ Spec.sumOf f' vals := by
    rw [← g3']
    split
    · exact add_le_of_nonpos_right hd
    · rw [add_zero]
  have e2 : best' = best := le_antisymm (l3.trans l2) l1
  have := same_best hl hc (by simpa using hl) hc hcap h h' ⟨g1', g2', le_antisymm l2 (l1.trans l3)⟩ ⟨by simpa using g1, g2, by rw [e1, e2]⟩
  rw [h', this, e2]

/-- **C143**: an item taken that becomes cheaper is still taken, and the value does not become smaller. -/
theorem C143_budget_cheaper {vals : List K} {costs : List Int} {cap : Int} (hl : vals.length = costs.length) (hc : ∀ c ∈ costs, 0 ≤ c) (hcap : 0 ≤ cap)
    {best : K} {f : List Bool} (h : knapsack vals costs cap = .ok (best, f)) {i : Nat} {a b : Int} (hi : costs[i]? = some a) (hb : 0 ≤ b) (hab : b ≤ a)
    (hf : f[i]? = some true) : ∃ best' f', knapsack vals (costs.set i b) cap = .ok (best', f') ∧ f'[i]? = some true ∧ best ≤ best' := by
  have hc' : ∀ c ∈ costs.set i b, 0 ≤ c := by
    intro c h
    rcases List.mem_or_eq_of_mem_set h with h | rfl
    · exact hc c h
    · exact hb
  obtain ⟨g1, g2, g3, g4⟩ := knapsack_spec hl hc hcap h
  obtain ⟨best', f', h', g1', g2', g3', g4'⟩ := C44_optimal (vals := vals) (costs := costs.set i b) (by simpa using hl) hc' hcap
  have c1 : Spec.sumOf f (costs.set i b) ≤ cap := by
    rw [sumOf_set hi, if_pos hf]
    omega
  have l1 : best ≤ best' := by rw [← g3]; exact g4' f g1 c1
  refine ⟨best', f', h', ?_, l1⟩
  by_contra hf'
  have c2 : Spec.sumOf f' costs ≤ cap := by
    rw [sumOf_set hi, if_neg hf', add_zero] at g2'
    exact g2'
  have e := le_antisymm l1 (g3' ▸ g4 f' g1' c2)
  have := same_best hl hc (by simpa using hl) hc' hcap h h' ⟨g1', c2, by rw [g3', e]⟩ ⟨g1, c1, by rw [g3, e]⟩
  exact hf' (this ▸ hf)

/-- **C143**: an item left out that becomes dearer: the same items are taken. -/
theorem C143_budget_dearer {vals : List K} {costs : List Int} {cap : Int} (hl : vals.length = costs.length) (hc : ∀ c ∈ costs, 0 ≤ c) (hcap : 0 ≤ cap)
    {best : K} {f : List Bool} (h : knapsack vals costs cap = .ok (best, f)) {i : Nat} {a b : Int} (hi : costs[i]? = some a) (hab : a ≤ b)
    (hf : f[i]? = some false) : knapsack vals (costs.set i b) cap = .ok (best, f) := by
  have hc' : ∀ c ∈ costs.set i b, 0 ≤ c := by
    intro c h
    rcases List.mem_or_eq_of_mem_set h with h | rfl
    · exact hc c h
    · exact (hc a (List.mem_of_getElem? hi)).trans hab
  obtain ⟨g1, g2, g3, g4⟩ := knapsack_spec hl hc hcap h
  obtain ⟨best', f', h', g1', g2', g3', g4'⟩ := C44_optimal (vals := vals) (costs := costs.set i b) (by simpa using hl) hc' hcap
  have c1 : Spec.sumOf f (costs.set i b) ≤ cap := by
    rw [sumOf_set hi, if_neg (by simp [hf]), add_zero]
    exact g2
  have l1 : best ≤ best' := by rw [← g3]; exact g4' f g1 c1
  have c2 : Spec.sumOf f' costs ≤ cap := by
    rw [sumOf_set hi] at g2'
    split at g2' <;> omega
  have e := le_antisymm l1 (g3' ▸ g4 f' g1' c2)
  have := same_best hl hc (by simpa using hl) hc' hcap h h' ⟨g1', c2, by rw [g3', e]⟩ ⟨g1, c1, by rw [g3, e]⟩
  rw [h', this, e]

end

/-! ## Examples -/

/-- The margins of three examples before and after the second one became less certain. -/
def before (x : Nat) : List ℚ := [[1/10, 9/10], [2/5, 3/5], [2/5, 3/5]].getD (x - 7) []
def after (x : Nat) : List ℚ := if x = 8 then [11/20, 9/20] else before x

/-- Examples 8 and 9 are equally uncertain, either can be selected; afterwards it is 8. -/
example : Spec.CanSelect (fun a => uncertainty (fun x : ℚ => x) a .margin (.list [7, 8, 9]) (.mat 2 ((Coll.list [7, 8, 9]).items.map before)) 1) [8] :=
  (largest_iff (u := .list [7, 8, 9]) (by decide) (fun x => marginScore 2 (before x)) (k := 1) (by decide) [8]).2
    ⟨by decide, by decide, by decide, by
      intro x hx hx' y hy
      simp [Coll.items] at hx hx' hy
      subst hy
      rcases hx with rfl | rfl | rfl
      · decide +kernel
      · exact absurd rfl hx'
      · decide +kernel⟩

example : Spec.StaysSelected 8 (fun a => uncertainty (fun x : ℚ => x) a .margin (.list [7, 8, 9]) (.mat 2 ((Coll.list [7, 8, 9]).items.map before)) 1)
    (fun a => uncertainty (fun x : ℚ => x) a .margin (.list [7, 8, 9]) (.mat 2 ((Coll.list [7, 8, 9]).items.map after)) 1) :=
  C143_margin _ (by decide) (by decide) (by decide) (fun y hy => by simp [after, hy]) rfl rfl (t := 1/5) (t' := 1/10)
    ⟨3/5, 2/5, [], by decide +kernel, by norm_num, by simp, by norm_num⟩ ⟨11/20, 9/20, [], by decide +kernel, by norm_num, by simp, by norm_num⟩ (by norm_num)

/-- Three to one has become two to two. -/
example : Spec.EvenerVotes [1, 1, 1, 0] [1, 0, 1, 0] := .single ⟨1, 0, [1, 1, 0], by decide, by decide, by decide⟩

/-- The oracle "b" costs half as much as before. -/
example : cealBy (K := ℚ) (α := Nat) [] 4 ["a", "b"] (fun _ _ => [1, 1]) (fun x => if x = 20 then 1/2 else 9/10)
      (fun n => if n = "a" then (fun _ => [true, false], 1, 1) else (fun _ => [true, true], 1, 1/2)) [10, 20, 30] = .ok (20, "b") ∧
    cealBy (K := ℚ) (α := Nat) [] 4 ["a", "b"] (fun _ _ => [1, 1]) (fun x => if x = 20 then 1/2 else 9/10)
      (fun n => if n = "a" then (fun _ => [true, false], 1, 1) else (fun _ => [true, true], 1/2, 1/2)) [10, 20, 30] = .ok (20, "b") := by decide +kernel

/-- A cheaper oracle may be chosen for the first time, of course. -/
example : cealBy (K := ℚ) (α := Nat) [] 4 ["a", "b"] (fun _ _ => [1, 1]) (fun x => if x = 20 then 1/2 else 9/10)
      (fun n => if n = "a" then (fun _ => [true, false], 1/4, 1) else (fun _ => [true, true], 1, 1/2)) [10, 20, 30] = .ok (20, "a") := by decide +kernel

example : Noisy.chosen (1/2 : ℚ) ([1, 2/5, 3/5].map some) = [0, 2] ∧ Noisy.chosen (1/2 : ℚ) (([1, 2/5, 3/5].set 2 (3/2)).map some) = [0, 2] := by decide +kernel

/-- Two selections have the value 7, and the one with the later items is returned; a cheaper item makes room for another one. -/
example : CostSensitive.knapsack [3, 4, 7, (2 : ℚ)] [2, 3, 5, 3] 5 = .ok (7, [false, false, true, false]) ∧
    CostSensitive.knapsack [3, 4, 7, (2 : ℚ)] [2, 3, 2, 3] 5 = .ok (11, [false, true, true, false]) := by decide +kernel

end Alipy.StaySelected
