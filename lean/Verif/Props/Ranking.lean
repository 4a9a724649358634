import Verif.Proof.Metrics
import Mathlib.Tactic.NormNum
/-!
# Properties of the ROC area (C38) and the ranking loss (C40)
-/
namespace Alipy

/-! ## C38 -/

/-- The scores of the pairs with flag `b`. -/
def flagged (b : Bool) (ds : List (Bool × ℚ)) : List ℚ := (ds.filter (fun p => p.1 == b)).map Prod.snd

theorem countP_flagged (b : Bool) (t : ℚ) : ∀ ds : List (Bool × ℚ),
    ((ds.countP (fun p => (p.1 == b) && decide (t ≤ p.2)) : Nat) : ℚ) = geCount (flagged b ds) t
  | [] => by simp [flagged, geCount]
  | (c, x) :: ds => by
    have ih := countP_flagged b t ds
    rw [List.countP_cons]
    push_cast
    rw [ih]
    unfold flagged geCount
    by_cases h : c = b
    · by_cases h2 : t ≤ x <;> simp [h, h2] <;> ring
    · simp [h]

theorem flagged_zip (P : Int → Bool) (b : Bool) : ∀ (y : List Int) (s : List ℚ),
    flagged b ((y.map P).zip s) = Spec.scoresWith (fun c => P c == b) y s
  | [], _ => by simp [flagged, Spec.scoresWith]
  | _ :: _, [] => by simp [flagged, Spec.scoresWith]
  | c :: y, x :: s => by
    have ih := flagged_zip P b y s
    unfold flagged Spec.scoresWith at ih ⊢
    by_cases h : P c = b
    · simp [h, ih]
    · simp [h, ih]

theorem flagged_perm (b : Bool) {l l' : List (Bool × ℚ)} (h : l.Perm l') : (flagged b l).Perm (flagged b l') :=
  (h.filter _).map _

theorem mem_flagged {b : Bool} {ds : List (Bool × ℚ)} {x : ℚ} (h : x ∈ flagged b ds) : x ∈ ds.map Prod.snd := by
  unfold flagged at h
  obtain ⟨p, hp, rfl⟩ := List.mem_map.1 h
  exact List.mem_map.2 ⟨p, (List.mem_filter.1 hp).1, rfl⟩

theorem getLastD_map {α β : Type} (f : α → β) (l : List α) (d : α) : (l.map f).getLastD (f d) = f (l.getLastD d) := by
  induction l generalizing d with
  | nil => rfl
  | cons a l ih => rw [List.map_cons, List.getLastD_cons, List.getLastD_cons, ih]

/-- The whole curve computation for a descending list of flagged scores. -/
theorem roc_core (ds : List (Bool × ℚ)) (hs : ds.Pairwise (fun a b => b.2 ≤ a.2)) (hp : flagged true ds ≠ []) (hn : flagged false ds ≠ []) :
    ∃ t ts, ds = t :: ts ∧
      let P := flagged true ds
      let N := flagged false ds
      let cs := ds.map Prod.snd
      2 * trapz (((t.2 + 1) :: cs).map (pt P N)) = 2 * (P.map (fun p => (N.map (fun q => Spec.credit p q)).sum)).sum ∧
      pt P N (t.2 + 1) = (0, 0) ∧ pt P N (cs.getLastD 0) = ((N.length : ℚ), (P.length : ℚ)) ∧
      (((t.2 + 1) :: cs).map (pt P N)).Pairwise (fun p q => decide (p.1 < q.1 ∨ (p.1 = q.1 ∧ p.2 ≤ q.2)) = true) := by
  cases ds with
  | nil => simp [flagged] at hp
  | cons t ts =>
    refine ⟨t, ts, rfl, ?_⟩
    intro P N cs
    have hcs : cs.Pairwise (fun a b => b ≤ a) := by
      change ((t :: ts).map Prod.snd).Pairwise _
      rw [List.pairwise_map]; exact hs
    have htop : ∀ x ∈ cs, x ≤ t.2 := by
      intro x hx
      change x ∈ t.2 :: ts.map Prod.snd at hx
      have hcs' : (t.2 :: ts.map Prod.snd).Pairwise (fun a b => b ≤ a) := hcs
      rw [List.pairwise_cons] at hcs'
      rcases List.mem_cons.1 hx with rfl | hx'
      · exact le_refl _
      · exact hcs'.1 x hx'
    have hall : ((t.2 + 1) :: cs).Pairwise (fun a b => b ≤ a) := by
      rw [List.pairwise_cons]
      exact ⟨fun x hx => by have := htop x hx; linarith, hcs⟩
    have hP : ∀ p ∈ P, p ∈ cs := fun p hp => mem_flagged hp
    have hN : ∀ p ∈ N, p ∈ cs := fun p hp => mem_flagged hp
    have hlow : ∀ x ∈ cs, cs.getLastD (t.2 + 1) ≤ x := by
      have : ∀ (l : List ℚ) (d : ℚ), l.Pairwise (fun a b => b ≤ a) → ∀ x ∈ l, l.getLastD d ≤ x := by
        intro l
        induction l with
        | nil => intro d _ x hx; simp at hx
        | cons a l ih =>
          intro d hl x hx
          rw [List.getLastD_cons]
          rw [List.pairwise_cons] at hl
          rcases List.mem_cons.1 hx with rfl | hx'
          · cases l with
            | nil => simp
            | cons b l => exact le_trans (ih x hl.2 b (by simp)) (hl.1 b (by simp))
          · exact ih a hl.2 x hx'
      exact this cs _ hcs
    have hlt : ∀ {l : List ℚ}, (∀ p ∈ l, p ∈ cs) → ∀ p ∈ l, p < t.2 + 1 := by
      intro l hl p hp
      have := htop p (hl p hp); linarith
    have hge : ∀ {l : List ℚ}, (∀ p ∈ l, p ∈ cs) → ∀ p ∈ l, cs.getLastD (t.2 + 1) ≤ p := fun hl p hp => hlow p (hl p hp)
    have hlast : cs.getLastD 0 = cs.getLastD (t.2 + 1) := by
      change (t.2 :: ts.map Prod.snd).getLastD 0 = (t.2 :: ts.map Prod.snd).getLastD (t.2 + 1)
      rw [List.getLastD_cons, List.getLastD_cons]
    refine ⟨?_, ?_, ?_, ?_⟩
    · rw [trapz_credit P N cs (t.2 + 1) hall (fun p hp => Or.inr (hP p hp)) (fun p hp => Or.inr (hN p hp)),
        creditSum_all (hge hP) (hge hN), creditSum_none (hlt hP), sub_zero]
    · rw [pt, geCount_none (hlt hN), geCount_none (hlt hP)]
    · rw [hlast, pt, geCount_all (hge hN), geCount_all (hge hP)]
    · rw [List.pairwise_map]
      refine hall.imp ?_
      intro a b hab
      have h1 := geCount_mono (l := N) hab
      have h2 := geCount_mono (l := P) hab
      refine decide_eq_true ?_
      simp only [pt]
      rcases eq_or_lt_of_le h1 with h | h
      · exact Or.inr ⟨h, h2⟩
      · exact Or.inl h

/-- The descending list used by the curve functions. -/
def descending (pos : Option Int) (y : List Int) (s : List ℚ) : List (Bool × ℚ) :=
  (sortBy (fun p q => decide (p.2 ≤ q.2)) ((y.map (fun c => decide (c = pos.getD 1))).zip s)).reverse

theorem descending_perm (pos : Option Int) (y : List Int) (s : List ℚ) :
    (descending pos y s).Perm ((y.map (fun c => decide (c = pos.getD 1))).zip s) :=
  (List.reverse_perm _).trans (sortBy_perm _ _)

theorem descending_sorted (pos : Option Int) (y : List Int) (s : List ℚ) :
    (descending pos y s).Pairwise (fun a b => b.2 ≤ a.2) := by
  unfold descending
  rw [List.pairwise_reverse]
  have := sortBy_sorted (fun (p q : Bool × ℚ) => decide (p.2 ≤ q.2)) (by
      intro a b; simp only [decide_eq_true_eq]; exact le_total _ _) (by
      intro a b c; simp only [decide_eq_true_eq]; exact le_trans) ((y.map (fun c => decide (c = pos.getD 1))).zip s)
  exact this.imp (by intro a b h; simpa using h)

theorem flagged_descending (pos : Option Int) (y : List Int) (s : List ℚ) :
    (flagged true (descending pos y s)).Perm (Spec.positives pos y s) ∧ (flagged false (descending pos y s)).Perm (Spec.negatives pos y s) := by
  constructor
  · refine (flagged_perm true (descending_perm pos y s)).trans ?_
    rw [flagged_zip]
    have : (fun c : Int => (decide (c = pos.getD 1)) == true) = fun c => decide (c = pos.getD 1) := by funext c; simp
    rw [this]
    exact List.Perm.refl _
  · refine (flagged_perm false (descending_perm pos y s)).trans ?_
    rw [flagged_zip]
    have : (fun c : Int => (decide (c = pos.getD 1)) == false) = fun c => decide (c ≠ pos.getD 1) := by funext c; simp
    rw [this]
    exact List.Perm.refl _

/-- The points of the curve as `fpsTps` counts them. -/
theorem fpsTps_eq {y : List Int} {s : List ℚ} {pos : Option Int} (h : y.length = s.length) (hok : pos ≠ none ∨ binaryClasses y = true) :
    fpsTps y s pos = .ok ((descending pos y s).map (fun t => ((descending pos y s).countP (fun p => !p.1 && decide (t.2 ≤ p.2)),
      (descending pos y s).countP (fun p => p.1 && decide (t.2 ≤ p.2))))) := by
  unfold fpsTps
  rw [if_neg (by simpa using h), if_neg (by rintro ⟨h1, h2⟩; rcases hok with h3 | h3 <;> simp_all)]
  rfl

/-- **C38**: `roc_auc_score` is the probability that a positive is scored above a negative, ties counting one half — for all scores, with
or without ties, and every labelling with both classes. -/
theorem C38_auc {y : List Int} {s : List ℚ} {pos : Option Int} (h : y.length = s.length) (hok : pos ≠ none ∨ Spec.BinaryLabels y)
    (hP : Spec.positives pos y s ≠ []) (hN : Spec.negatives pos y s ≠ []) :
    rocAucScore y s pos = .ok (Spec.pairStatistic (Spec.positives pos y s) (Spec.negatives pos y s)) := by
  replace hok := hok.imp_right binaryClasses_iff.2
  obtain ⟨pp, pn⟩ := flagged_descending pos y s
  have hP' : flagged true (descending pos y s) ≠ [] := by
    intro hc; apply hP; rw [hc] at pp; exact List.Perm.nil_eq pp |>.symm
  have hN' : flagged false (descending pos y s) ≠ [] := by
    intro hc; apply hN; rw [hc] at pn; exact List.Perm.nil_eq pn |>.symm
  rw [← pairStatistic_perm pp pn]
  have hf := fpsTps_eq (pos := pos) h hok
  obtain ⟨t, ts, hds, harea, hzero, hlast, hsorted⟩ := roc_core _ (descending_sorted pos y s) hP' hN'
  generalize descending pos y s = ds at *
  clear pp pn
  set P := flagged true ds with hPdef
  set N := flagged false ds with hNdef
  set F : Bool × ℚ → Nat × Nat := fun t => (ds.countP (fun p => !p.1 && decide (t.2 ≤ p.2)), ds.countP (fun p => p.1 && decide (t.2 ≤ p.2)))
    with hF
  have hFpt : ∀ u : Bool × ℚ, (((F u).1 : ℚ), ((F u).2 : ℚ)) = pt P N u.2 := by
    intro u
    have e1 := countP_flagged false u.2 ds
    have e2 := countP_flagged true u.2 ds
    have f1 : (fun p : Bool × ℚ => (p.1 == false) && decide (u.2 ≤ p.2)) = fun p => !p.1 && decide (u.2 ≤ p.2) := by
      funext p; cases p.1 <;> rfl
    have f2 : (fun p : Bool × ℚ => (p.1 == true) && decide (u.2 ≤ p.2)) = fun p => p.1 && decide (u.2 ≤ p.2) := by
      funext p; cases p.1 <;> rfl
    rw [f1] at e1
    rw [f2] at e2
    simp only [hF, pt]
    rw [e1, e2]
  have hmap : (ds.map F).map (fun q => ((q.1 : ℚ), (q.2 : ℚ))) = (ds.map Prod.snd).map (pt P N) := by
    rw [List.map_map, List.map_map]
    apply List.map_congr_left
    intro u _
    exact hFpt u
  have hne : (F t).1 ≠ 0 ∨ (F t).2 ≠ 0 := by
    -- the first element itself is counted
    have htm : t ∈ ds := by rw [hds]; simp
    by_cases hb : t.1
    · right
      have : 0 < ds.countP (fun p => p.1 && decide (t.2 ≤ p.2)) := List.countP_pos_iff.2 ⟨t, htm, by simp [hb]⟩
      simp only [hF]; omega
    · left
      have : 0 < ds.countP (fun p => !p.1 && decide (t.2 ≤ p.2)) := List.countP_pos_iff.2 ⟨t, htm, by simp [hb]⟩
      simp only [hF]; omega
  have hpts : ds.map F = F t :: ts.map F := by rw [hds]; rfl
  have hlastF : (((F t :: ts.map F).getLastD (0, 0)).1 : ℚ) = N.length ∧ (((F t :: ts.map F).getLastD (0, 0)).2 : ℚ) = P.length := by
    have e : (F t :: ts.map F).getLastD (0, 0) = F (ts.getLastD t) := by
      rw [List.getLastD_cons, getLastD_map]
    have e2 : (ds.map Prod.snd).getLastD 0 = (ts.getLastD t).2 := by
      rw [hds, List.map_cons, List.getLastD_cons, getLastD_map]
    rw [e]
    have := hFpt (ts.getLastD t)
    rw [← e2, hlast] at this
    exact ⟨congrArg Prod.fst this, congrArg Prod.snd this⟩
  have hNl : (N.length : ℚ) ≠ 0 := by
    have : N.length ≠ 0 := by simpa using hN'
    exact_mod_cast this
  have hPl : (P.length : ℚ) ≠ 0 := by
    have : P.length ≠ 0 := by simpa using hP'
    exact_mod_cast this
  have hcurve : rocCurve y s pos = .ok ((((t.2 + 1) :: ds.map Prod.snd).map (pt P N)).map (fun q => (q.1 / N.length, q.2 / P.length))) := by
    unfold rocCurve
    rw [hf, hpts]
    simp only [if_pos hne]
    have hgl : ((0, 0) :: F t :: ts.map F).getLastD (0, 0) = (F t :: ts.map F).getLastD (0, 0) := by rw [List.getLastD_cons]
    rw [hgl]
    have z1 : ((F t :: ts.map F).getLastD (0, 0)).1 ≠ 0 := by
      intro hc; apply hNl; rw [← hlastF.1, hc]; simp
    have z2 : ((F t :: ts.map F).getLastD (0, 0)).2 ≠ 0 := by
      intro hc; apply hPl; rw [← hlastF.2, hc]; simp
    rw [if_neg z1, if_neg z2, hlastF.1, hlastF.2]
    congr 1
    rw [← hpts, List.map_cons, List.map_cons, List.map_cons, hzero, ← hmap, List.map_map]
    simp
  have hsorted' : ((((t.2 + 1) :: ds.map Prod.snd).map (pt P N)).map (fun q => (q.1 / (N.length : ℚ), q.2 / (P.length : ℚ)))).Pairwise
      (fun p q => decide (p.1 < q.1 ∨ (p.1 = q.1 ∧ p.2 ≤ q.2)) = true) := by
    rw [List.pairwise_map]
    refine hsorted.imp ?_
    intro a b hab
    simp only [decide_eq_true_eq] at hab ⊢
    have n0 : (0:ℚ) < N.length := lt_of_le_of_ne (by positivity) (Ne.symm hNl)
    have p0 : (0:ℚ) < P.length := lt_of_le_of_ne (by positivity) (Ne.symm hPl)
    rcases hab with h | ⟨h1, h2⟩
    · exact Or.inl (div_lt_div_of_pos_right h n0)
    · exact Or.inr ⟨by rw [h1], div_le_div_of_nonneg_right h2 p0.le⟩
  unfold rocAucScore
  rw [hcurve]
  simp only [auc]
  rw [if_neg (by rw [hds]; simp), sortBy_of_sorted _ hsorted', trapz_scale]
  congr 1
  unfold Spec.pairStatistic
  rw [mul_comm (N.length : ℚ)]
  congr 1
  linarith

/-- **C38**: without positives or without negatives there is no area: `ValueError`. -/
theorem C38_one_class {y : List Int} {s : List ℚ} {pos : Option Int} (h : y.length = s.length) (hok : pos ≠ none ∨ Spec.BinaryLabels y)
    (hne : y ≠ []) (hPN : Spec.positives pos y s = [] ∨ Spec.negatives pos y s = []) : rocAucScore y s pos = .error .valueError := by
  replace hok := hok.imp_right binaryClasses_iff.2
  obtain ⟨pp, pn⟩ := flagged_descending pos y s
  have hf := fpsTps_eq (pos := pos) h hok
  have hdl : (descending pos y s).length = y.length := by
    rw [(descending_perm pos y s).length_eq]; simp [h]
  have hPN' : flagged true (descending pos y s) = [] ∨ flagged false (descending pos y s) = [] := by
    rcases hPN with hc | hc
    · left; rw [hc] at pp; exact pp.eq_nil
    · right; rw [hc] at pn; exact pn.eq_nil
  generalize descending pos y s = ds at *
  cases ds with
  | nil => simp at hdl; exact absurd (List.length_eq_zero_iff.1 hdl.symm) hne
  | cons t ts =>
    set F : Bool × ℚ → Nat × Nat := fun u => ((t :: ts).countP (fun p => !p.1 && decide (u.2 ≤ p.2)),
      (t :: ts).countP (fun p => p.1 && decide (u.2 ≤ p.2))) with hF
    have hz : (∀ u, (F u).1 = 0) ∨ (∀ u, (F u).2 = 0) := by
      have aux : ∀ b, flagged b (t :: ts) = [] → ∀ p ∈ t :: ts, p.1 ≠ b := by
        intro b hb p hp he
        have : p.2 ∈ flagged b (t :: ts) := List.mem_map.2 ⟨p, List.mem_filter.2 ⟨hp, by simp [he]⟩, rfl⟩
        rw [hb] at this; simp at this
      rcases hPN' with hc | hc
      · right; intro u
        apply List.countP_eq_zero.2
        intro p hp
        have := aux true hc p hp
        simp at this
        simp [this]
      · left; intro u
        apply List.countP_eq_zero.2
        intro p hp
        have := aux false hc p hp
        simp at this
        simp [this]
    have hcurve : rocCurve y s pos = .error .valueError := by
      unfold rocCurve
      rw [hf, List.map_cons]
      have hgl : ∀ d, ((if (F t).1 ≠ 0 ∨ (F t).2 ≠ 0 then (0, 0) :: F t :: ts.map F else F t :: ts.map F)).getLastD d = F (ts.getLastD t) := by
        intro d
        split
        · rw [List.getLastD_cons, List.getLastD_cons, getLastD_map]
        · rw [List.getLastD_cons, getLastD_map]
      simp only []
      rw [hgl]
      rcases hz with hz | hz
      · rw [if_pos (hz _)]
      · rw [if_pos (hz _)]; split <;> rfl
    unfold rocAucScore
    rw [hcurve]

/-- **C38**: the area lies between 0 and 1. -/
theorem C38_range (P N : List ℚ) : 0 ≤ Spec.pairStatistic P N ∧ Spec.pairStatistic P N ≤ 1 := by
  unfold Spec.pairStatistic
  have hc : ∀ p q, 0 ≤ Spec.credit p q ∧ Spec.credit p q ≤ 1 := by
    intro p q; unfold Spec.credit; split_ifs <;> norm_num
  have h1 : ∀ (p : ℚ) (l : List ℚ), 0 ≤ (l.map (fun q => Spec.credit p q)).sum ∧ (l.map (fun q => Spec.credit p q)).sum ≤ l.length := by
    intro p l
    induction l with
    | nil => simp
    | cons q l ih =>
      simp only [List.map_cons, List.sum_cons, List.length_cons]
      push_cast
      exact ⟨by linarith [(hc p q).1, ih.1], by linarith [(hc p q).2, ih.2]⟩
  have h2 : ∀ l : List ℚ, 0 ≤ (l.map (fun p => (N.map (fun q => Spec.credit p q)).sum)).sum ∧
      (l.map (fun p => (N.map (fun q => Spec.credit p q)).sum)).sum ≤ l.length * N.length := by
    intro l
    induction l with
    | nil => simp
    | cons p l ih =>
      simp only [List.map_cons, List.sum_cons, List.length_cons]
      push_cast
      exact ⟨by linarith [(h1 p N).1, ih.1], by nlinarith [(h1 p N).2, ih.2]⟩
  exact ⟨div_nonneg (h2 P).1 (by positivity), div_le_one_of_le₀ (h2 P).2 (by positivity)⟩

/-- **C38**: only the order of the scores matters: any strictly increasing transformation leaves the area unchanged. -/
theorem C38_order_invariant {f : ℚ → ℚ} (hf : StrictMono f) (P N : List ℚ) :
    Spec.pairStatistic (P.map f) (N.map f) = Spec.pairStatistic P N := by
  unfold Spec.pairStatistic
  have hc : ∀ p q, Spec.credit (f p) (f q) = Spec.credit p q := by
    intro p q; unfold Spec.credit; simp [hf.lt_iff_lt, hf.injective.eq_iff]
  simp [List.map_map, Function.comp_def, hc]

/-- Three samples, one tie: the positive with score 2 beats one negative and ties with the other. -/
example : rocAucScore [1, 0, 0] [2, 1, 2] none = .ok (3/4) := by
  rw [C38_auc rfl (Or.inr (by decide)) (by simp [Spec.positives, Spec.scoresWith]) (by simp [Spec.negatives, Spec.scoresWith])]
  norm_num [Spec.positives, Spec.negatives, Spec.scoresWith, Spec.pairStatistic, Spec.credit]

/-! ## C40 -/

theorem uniqueSorted_nodup (s : List ℚ) : (uniqueSorted s).Nodup := eraseDups_nodup _

theorem mem_uniqueSorted {s : List ℚ} {x : ℚ} : x ∈ uniqueSorted s ↔ x ∈ s := by
  rw [uniqueSorted, List.mem_eraseDups, (sortBy_perm _ _).mem_iff]

theorem eraseDups_sublist [DecidableEq α] : ∀ (l : List α), l.eraseDups.Sublist l
  | [] => by simp
  | a :: l => by
    rw [List.eraseDups_cons]
    have : (l.filter (fun b => !b == a)).length < (a :: l).length :=
      Nat.lt_of_le_of_lt (List.length_filter_le _ _) (by simp)
    exact ((eraseDups_sublist _).trans List.filter_sublist).cons_cons a
termination_by l => l.length
decreasing_by simp only [List.length_cons]; exact Nat.lt_succ_of_le (List.length_filter_le _ _)

/-- `np.unique` is strictly ascending. -/
theorem uniqueSorted_sorted (s : List ℚ) : (uniqueSorted s).Pairwise (· < ·) := by
  have h1 : (uniqueSorted s).Pairwise (· ≤ ·) := by
    have := sortBy_sorted (fun (p q : ℚ) => decide (p ≤ q)) (by
        intro a b; simp only [decide_eq_true_eq]; exact le_total _ _) (by
        intro a b c; simp only [decide_eq_true_eq]; exact le_trans) s
    exact (this.imp (by intro a b h; simpa using h)).sublist (eraseDups_sublist _)
  have h2 := uniqueSorted_nodup s
  exact (h1.and h2).imp (fun h => lt_of_le_of_ne h.1 h.2)

/-- `dot(cumsum(true), false)` over ascending values counts the pairs in the wrong order. -/
theorem dot_cumsum (R I : List ℚ) : ∀ (u : List ℚ) (acc : Nat), u.Pairwise (· < ·) →
    (∀ v ∈ u, acc + (R.countP (fun r => decide (r ∈ u ∧ r ≤ v))) = R.countP (fun r => decide (r ≤ v))) →
    (List.zipWith (fun x z => x * z) (cumsum acc (binCount u R)) (binCount u I)).sum =
      (u.map (fun v => R.countP (fun r => decide (r ≤ v)) * I.countP (fun s => decide (s = v)))).sum
  | [], _, _, _ => by simp [binCount, cumsum]
  | v :: u, acc, hu, hacc => by
    rw [List.pairwise_cons] at hu
    have h0 := hacc v (by simp)
    have hv : R.countP (fun r => decide (r ∈ v :: u ∧ r ≤ v)) = R.countP (fun r => decide (r = v)) := by
      apply List.countP_congr
      intro r _
      simp only [decide_eq_true_eq, List.mem_cons]
      constructor
      · rintro ⟨h | h, h2⟩
        · exact h
        · exact absurd (hu.1 r h) (not_lt.2 h2)
      · rintro rfl; exact ⟨Or.inl rfl, le_refl _⟩
    rw [hv] at h0
    have ih := dot_cumsum R I u (acc + R.countP (fun r => decide (r = v))) hu.2 (by
      intro w hw
      have h1 := hacc w (by simp [hw])
      rw [← h1, Nat.add_assoc]
      congr 1
      have hlt := hu.1 w hw
      have hnv : v ∉ u := fun hc => lt_irrefl _ (hu.1 v hc)
      -- split the count
      have : ∀ l : List ℚ, l.countP (fun r => decide (r = v)) + l.countP (fun r => decide (r ∈ u ∧ r ≤ w)) =
          l.countP (fun r => decide (r ∈ v :: u ∧ r ≤ w)) := by
        intro l
        induction l with
        | nil => simp
        | cons a l ihl =>
          simp only [List.countP_cons]
          by_cases ha : a = v
          · subst ha
            simp [hnv, hlt.le] at ihl ⊢
            omega
          · simp [ha] at ihl ⊢
            omega
      exact this R)
    simp only [binCount, List.map_cons, cumsum, List.zipWith_cons_cons, List.sum_cons] at ih ⊢
    rw [ih, h0]

theorem sum_count_fibres (R I u : List ℚ) (hu : u.Nodup) (hI : ∀ s ∈ I, s ∈ u) :
    (u.map (fun v => R.countP (fun r => decide (r ≤ v)) * I.countP (fun s => decide (s = v)))).sum =
      (I.map (fun s => R.countP (fun r => decide (r ≤ s)))).sum := by
  induction I with
  | nil => simp
  | cons a I ih =>
    have ih' := ih (fun s hs => hI s (List.mem_cons_of_mem _ hs))
    rw [List.map_cons, List.sum_cons, ← ih']
    have ha := hI a (by simp)
    clear ih ih' hI
    induction u with
    | nil => simp at ha
    | cons v u ihu =>
      rw [List.nodup_cons] at hu
      simp only [List.map_cons, List.sum_cons, List.countP_cons]
      by_cases hv : a = v
      · subst hv
        have : (u.map (fun v => R.countP (fun r => decide (r ≤ v)) * (I.countP (fun s => decide (s = v)) + if decide (a = v) = true then 1 else 0))).sum =
            (u.map (fun v => R.countP (fun r => decide (r ≤ v)) * I.countP (fun s => decide (s = v)))).sum := by
          congr 1
          apply List.map_congr_left
          intro v hvu
          have : a ≠ v := by rintro rfl; exact hu.1 hvu
          simp [this]
        rw [this]
        simp [Nat.mul_add]
        ring
      · have hau : a ∈ u := by
          rcases List.mem_cons.1 ha with h | h
          · exact absurd h hv
          · exact h
        have := ihu hu.2 hau
        simp only [List.countP_cons] at this
        rw [this]
        simp [hv]
        ring

/-- Double counting of the wrongly ordered pairs. -/
theorem sum_countP_comm (R I : List ℚ) :
    (I.map (fun s => R.countP (fun r => decide (r ≤ s)))).sum = (R.map (fun r => I.countP (fun s => decide (r ≤ s)))).sum := by
  induction R with
  | nil => simp
  | cons r R ih =>
    simp only [List.countP_cons, List.map_cons, List.sum_cons]
    rw [← ih]
    clear ih
    induction I with
    | nil => simp
    | cons s I ih2 =>
      simp only [List.map_cons, List.sum_cons, List.countP_cons]
      rw [ih2]
      ring

theorem relevant_irrelevant_count (y : List Int) (s : List ℚ) (h : y.length = s.length) (v : ℚ) :
    s.countP (fun x => decide (x = v)) = (relevantScores y s).countP (fun x => decide (x = v)) +
      (Spec.scoresWith (fun c => decide (c = 0)) y s).countP (fun x => decide (x = v)) := by
  induction y generalizing s with
  | nil =>
    cases s with
    | nil => simp [relevantScores, Spec.scoresWith]
    | cons x s => simp at h
  | cons c y ih =>
    cases s with
    | nil => simp at h
    | cons x s =>
      have := ih s (by simpa using h)
      unfold relevantScores Spec.scoresWith at this ⊢
      by_cases hc : c = 0
      · simp [hc, List.countP_cons] at this ⊢; omega
      · simp [hc, List.countP_cons] at this ⊢; omega

theorem relevant_irrelevant_length (y : List Int) (s : List ℚ) (h : y.length = s.length) :
    s.length = (relevantScores y s).length + (Spec.scoresWith (fun c => decide (c = 0)) y s).length := by
  induction y generalizing s with
  | nil =>
    cases s with
    | nil => simp [relevantScores, Spec.scoresWith]
    | cons x s => simp at h
  | cons c y ih =>
    cases s with
    | nil => simp at h
    | cons x s =>
      have := ih s (by simpa using h)
      unfold relevantScores Spec.scoresWith at this ⊢
      by_cases hc : c = 0
      · simp [hc] at this ⊢; omega
      · simp [hc] at this ⊢; omega

theorem scoresWith_subset (P : Int → Bool) (y : List Int) (s : List ℚ) : ∀ x ∈ Spec.scoresWith P y s, x ∈ s := by
  intro x hx
  obtain ⟨p, hp, rfl⟩ := List.mem_map.1 hx
  exact (List.of_mem_zip (List.mem_filter.1 hp).1).2

/-- **C40**, one sample: the loss is the fraction of (relevant, irrelevant) pairs in the wrong order; 0 if there is no such pair. -/
theorem C40_row (y : List Int) (s : List ℚ) (h : y.length = s.length) :
    rankingLossRow y s = Spec.wrongPairs (Spec.scoresWith (fun c => decide (c ≠ 0)) y s) (Spec.scoresWith (fun c => decide (c = 0)) y s) := by
  have hR : Spec.scoresWith (fun c => decide (c ≠ 0)) y s = relevantScores y s := rfl
  rw [hR]
  set R := relevantScores y s with hRd
  set I := Spec.scoresWith (fun c => decide (c = 0)) y s with hId
  have hlen := relevant_irrelevant_length y s h
  rw [← hRd, ← hId] at hlen
  have hcnt : rankingCount y s = (R.map (fun r => I.countP (fun x => decide (r ≤ x)))).sum := by
    unfold rankingCount
    simp only
    rw [← hRd]
    have hfalse : List.zipWith (fun x z => x - z) (binCount (uniqueSorted s) s) (binCount (uniqueSorted s) R) = binCount (uniqueSorted s) I := by
      unfold binCount
      generalize uniqueSorted s = u
      induction u with
      | nil => simp
      | cons v u ih =>
        simp only [List.map_cons, List.zipWith_cons_cons]
        rw [ih, relevant_irrelevant_count y s h v, ← hRd, ← hId]
        congr 1
        omega
    rw [hfalse, dot_cumsum R I (uniqueSorted s) 0 (uniqueSorted_sorted s) (by
      intro v _
      rw [Nat.zero_add]
      apply List.countP_congr
      intro r hr
      have : r ∈ s := scoresWith_subset (fun c => decide (c ≠ 0)) y s r hr
      simp [mem_uniqueSorted, this])]
    rw [sum_count_fibres R I (uniqueSorted s) (uniqueSorted_nodup s) (fun x hx => mem_uniqueSorted.2 (scoresWith_subset _ y s x hx))]
    exact sum_countP_comm R I
  unfold rankingLossRow Spec.wrongPairs
  simp only
  rw [← hRd]
  split
  · rename_i hz
    rcases hz with hz | hz
    · simp [hz]
    · have : I.length = 0 := by omega
      simp [this]
  · have e1 : s.length - R.length = I.length := by omega
    rw [e1, hcnt]
    congr 1
    · generalize R = Q
      induction Q with
      | nil => simp
      | cons r Q ih => simp only [List.map_cons, List.sum_cons]; push_cast; rw [ih]
    · push_cast; ring

/-- **C40**: the label ranking loss is the (weighted) average of the row losses. -/
theorem C40_ranking_loss {c : Nat} (hc : 1 < c) {y : List (List Int)} {s : List (List ℚ)} (hne : y ≠ []) (hl : y.length = s.length)
    (hyc : ∀ r ∈ y, r.length = c) (hsc : ∀ t ∈ s, t.length = c) (hy2 : Spec.AtMostTwoValues y.flatten) (w : Option (List ℚ)) (hw : Spec.FitWeights y.length w) :
    labelRankingLoss c y s w = npAverage (List.zipWith (fun r t => Spec.wrongPairs (Spec.scoresWith (fun c => decide (c ≠ 0)) r t)
      (Spec.scoresWith (fun c => decide (c = 0)) r t)) y s) w := by
  replace hw := weightsFit_iff.2 hw
  replace hy2 := numUnique_le_two.2 hy2
  have e1 : typeOfTarget (.mat c y) = .ok .multilabel := by simp [typeOfTarget, Tgt.ravel, hy2, hc, hne]
  have hrows : ∀ p ∈ y.zip s, p.1.length = p.2.length := fun p hp => by
    rw [hyc _ (List.of_mem_zip hp).1, hsc _ (List.of_mem_zip hp).2]
  unfold labelRankingLoss
  rw [if_neg (by rw [hw]; simpa using hl), e1]
  simp only
  rw [if_neg (by simpa using hsc)]
  congr 1
  clear hne hw hy2 e1 hyc hsc
  induction y generalizing s with
  | nil => simp
  | cons r y ih =>
    cases s with
    | nil => simp at hl
    | cons t s =>
      simp only [List.zipWith_cons_cons]
      rw [C40_row r t (hrows (r, t) (by simp)), ih (by simpa using hl) (fun p hp => hrows p (by simp [hp]))]

/-- **C40**: scores of another width than the labels are refused. -/
theorem C40_shape {c : Nat} {y : List (List Int)} {s : List (List ℚ)} (w : Option (List ℚ)) (hs : ∃ t ∈ s, t.length ≠ c) :
    ∃ e, labelRankingLoss c y s w = .error e := by
  unfold labelRankingLoss
  split
  · exact ⟨_, rfl⟩
  · rcases typeOfTarget (.mat c y) with e | (_ | _ | _)
    · exact ⟨e, rfl⟩
    · exact ⟨_, rfl⟩
    · exact ⟨.valueError, if_pos (by simpa using hs)⟩
    · exact ⟨_, rfl⟩

/-- **C40**: each row loss is between 0 and 1. -/
theorem C40_range (rel irr : List ℚ) : 0 ≤ Spec.wrongPairs rel irr ∧ Spec.wrongPairs rel irr ≤ 1 := by
  unfold Spec.wrongPairs
  have h1 : ∀ l : List ℚ, 0 ≤ (l.map (fun r => (irr.countP (fun s => decide (r ≤ s)) : ℚ))).sum ∧
      (l.map (fun r => (irr.countP (fun s => decide (r ≤ s)) : ℚ))).sum ≤ l.length * irr.length := by
    intro l
    induction l with
    | nil => simp
    | cons r l ih =>
      simp only [List.map_cons, List.sum_cons, List.length_cons]
      have h0 : (0:ℚ) ≤ (irr.countP (fun s => decide (r ≤ s)) : ℚ) := by positivity
      have h2 : (irr.countP (fun s => decide (r ≤ s)) : ℚ) ≤ irr.length := by exact_mod_cast List.countP_le_length
      push_cast
      constructor
      · linarith [ih.1]
      · nlinarith [ih.2]
  obtain ⟨a, b⟩ := h1 rel
  refine ⟨div_nonneg a (by positivity), div_le_one_of_le₀ b (by positivity)⟩

/-- With labels `-1 / +1` every label counts as relevant and the loss is 0 for every ranking. -/
theorem C40_minus_one_violation {c : Nat} (hc : 1 < c) {y : List (List Int)} {s : List (List ℚ)} (hne : y ≠ []) (hl : y.length = s.length)
    (hyc : ∀ r ∈ y, r.length = c) (hsc : ∀ t ∈ s, t.length = c) (hy : ∀ r ∈ y, ∀ x ∈ r, x = -1 ∨ x = 1) (hy2 : Spec.AtMostTwoValues y.flatten) :
    labelRankingLoss c y s none = .ok (some 0) := by
  replace hy2 := numUnique_le_two.2 hy2
  have e1 : typeOfTarget (.mat c y) = .ok .multilabel := by simp [typeOfTarget, Tgt.ravel, hy2, hc, hne]
  have hrows : ∀ p ∈ y.zip s, p.1.length = p.2.length := fun p hp => by
    rw [hyc _ (List.of_mem_zip hp).1, hsc _ (List.of_mem_zip hp).2]
  have hz : List.zipWith rankingLossRow y s = List.replicate y.length 0 := by
    clear hne hy2 e1 hyc hsc
    induction y generalizing s with
    | nil => simp
    | cons r y ih =>
      cases s with
      | nil => simp at hl
      | cons t s =>
        simp only [List.zipWith_cons_cons, List.length_cons, List.replicate_succ]
        rw [ih (by simpa using hl) (fun r' hr' => hy r' (by simp [hr'])) (fun p hp => hrows p (by simp [hp]))]
        congr 1
        have hlr := hrows (r, t) (by simp)
        have hirr : Spec.scoresWith (fun c => decide (c = 0)) r t = [] := by
          unfold Spec.scoresWith
          rw [List.map_eq_nil_iff, List.filter_eq_nil_iff]
          intro p hp
          have := hy r (by simp) p.1 (List.of_mem_zip hp).1
          rcases this with h | h <;> simp [h]
        rw [C40_row r t hlr, hirr]
        simp [Spec.wrongPairs]
  unfold labelRankingLoss
  rw [if_neg (by simp [weightsFit, hl]), e1]
  simp only
  rw [if_neg (by simpa using hsc)]
  simp only [hz, npAverage]
  rw [if_neg (by simp [hne])]
  simp

example : rankingLossRow [1, 0, 0] [2, 1, 2] = 1/2 := by
  rw [C40_row _ _ rfl]
  norm_num [Spec.scoresWith, Spec.wrongPairs, List.countP_cons]

end Alipy
