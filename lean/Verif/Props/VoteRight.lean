import Verif.Props.IEthresh
import Verif.Props.MetricSymmetry
import Verif.Model.Split
import Mathlib.Data.List.Count
/-!
# When a vote is right (C131), and names of classes (C132)
-/
namespace Alipy.Noisy
set_option linter.unusedSectionVars false
variable {χ β γ K : Type} [DecidableEq β] [DecidableEq γ] [DecidableEq χ]

theorem vote_of_winner {labels : List β} {l : β} (h : Spec.Winner labels l) (w : Option (List K)) (hw : ∀ ws, w = some ws → ws.length = labels.length) :
    majorityVote labels w = .ok (labels.count l, l) := by
  obtain ⟨m, h1, h2⟩ := C46_majority_partial (labels := labels) (List.ne_nil_of_mem h.1) w hw
  rw [C46_winner_unique h h2]
  exact h1

/-- **C131**: a label given more often than every other label wins, whatever the order of the answers. -/
theorem C131_plurality {labels : List β} {t : β} (ht : t ∈ labels) (h : ∀ x ∈ labels, x ≠ t → labels.count x < labels.count t) (w : Option (List K))
    (hw : ∀ ws, w = some ws → ws.length = labels.length) : majorityVote labels w = .ok (labels.count t, t) := by
  refine vote_of_winner ⟨ht, fun x hx => ?_⟩ w hw
  by_cases e : x = t
  · subst e; exact ⟨le_refl _, fun h => absurd rfl h⟩
  · have := h x hx e
    exact ⟨this.le, fun _ h' => by omega⟩

theorem count_two {x t : β} (h : x ≠ t) : ∀ l : List β, l.count x + l.count t ≤ l.length
  | [] => by simp
  | a :: l => by
    have := count_two h l
    simp only [List.count_cons, List.length_cons]
    by_cases h1 : a = x
    · have h2 : a ≠ t := by rw [h1]; exact h
      simp [h1, h]; omega
    · by_cases h2 : a = t
      · simp [h2, h.symm]; omega
      · simp [h1, h2]; omega

/-- **C131**: if more than half of the answers are the right label `t`, then the vote is `t`. -/
theorem C131_most {labels : List β} {t : β} (h : labels.length < 2 * labels.count t) (w : Option (List K)) (hw : ∀ ws, w = some ws → ws.length = labels.length) :
    majorityVote labels w = .ok (labels.count t, t) := by
  refine C131_plurality (List.count_pos_iff.1 (by omega)) (fun x _ hx => ?_) w hw
  have := count_two hx labels
  omega

/-- **C131**: the vote of a list of oracles that all know the instance is the right label, if more than half of them give it. -/
theorem C131_oracles {k : Key} {os : List (Oracle χ β)} {as : List (β × ℚ)} {t : β} (h : List.Forall₂ (fun o a => o.ask k = .ok a) os as)
    (hm : os.length < 2 * (as.map Prod.fst).count t) : voteOfList k os = .ok ((as.map Prod.fst).count t, t, (as.map Prod.snd).sum) := by
  have hv := C131_most (K := ℚ) (labels := as.map Prod.fst) (t := t) (by rw [List.length_map, ← h.length_eq]; exact hm) none (by simp)
  simp [voteOfList, askEach_ok k os as h, hv]

/-- **C131**: the same for an `Oracles` object, whenever the query gets an answer with a label from each oracle. -/
theorem C131_oracles_object {k : Key} {o o' : Oracles (List β) Key} {names : Option (List String)} {rs : List (Answer (List β))} {ls : List β} {t : β}
    (hq : o.queryFromS k names = (o', .ok rs)) (h : List.Forall₂ (fun r l => ∃ t, r.labels = l :: t) rs ls) (hm : ls.length < 2 * ls.count t) :
    voteOfOracles k o names = (o', .ok (ls.count t, t, (rs.map (fun a => a.costs.nums.sum)).sum)) := by
  have hv := C131_most (K := ℚ) hm none (by simp)
  simp [voteOfOracles, hq, firsts_ok rs ls h, hv]

theorem better_count {t : β} : ∀ {l l' : List β}, List.Forall₂ (fun x y => y = x ∨ y = t) l l' →
    l.count t ≤ l'.count t ∧ (∀ x, x ≠ t → l'.count x ≤ l.count x) ∧ (l'.count t = l.count t → l' = l)
  | [], [], _ => by simp
  | a :: l, b :: l', h => by
    cases h with
    | cons h1 h2 =>
      obtain ⟨g1, g2, g3⟩ := better_count h2
      by_cases ha : a = t
      · have hb : b = t := by rcases h1 with h | h <;> simp [h, ha]
        subst ha
        subst hb
        refine ⟨by simpa using g1, fun x hx => by simpa [List.count_cons, hx.symm] using g2 x hx, fun e => ?_⟩
        rw [g3 (by simpa using e)]
      · by_cases hb : b = t
        · subst hb
          refine ⟨by simp [List.count_cons, ha]; omega, fun x hx => ?_, fun e => ?_⟩
          · have := g2 x hx
            simp only [List.count_cons, hx.symm, beq_iff_eq, if_false]
            split <;> omega
          · simp [List.count_cons, ha] at e
            omega
        · have hab : b = a := by rcases h1 with h | h; exact h; exact absurd h hb
          subst hab
          refine ⟨by simpa [List.count_cons, hb] using g1, fun x hx => ?_, fun e => ?_⟩
          · have := g2 x hx
            simp only [List.count_cons]
            omega
          · rw [g3 (by simpa [List.count_cons, hb] using e)]

/-- **C131**: if the vote is right, it stays right when some of the oracles change their answer to the right one. -/
theorem C131_better {labels labels' : List β} {n : Nat} {t : β} (h : majorityVote (K := K) labels none = .ok (n, t))
    (hb : List.Forall₂ (fun x y => y = x ∨ y = t) labels labels') : ∃ n', n ≤ n' ∧ majorityVote (K := K) labels' none = .ok (n', t) := by
  have hne : labels ≠ [] := by
    rintro rfl
    rw [C46_empty_raises] at h
    cases h
  obtain ⟨m, h1, h2⟩ := C46_majority_partial (K := K) hne none (by simp)
  rw [h1] at h
  simp only [Except.ok.injEq, Prod.mk.injEq] at h
  obtain ⟨rfl, rfl⟩ := h
  obtain ⟨g1, g2, g3⟩ := better_count hb
  refine ⟨labels'.count m, g1, ?_⟩
  by_cases e : labels'.count m = labels.count m
  · rw [g3 e]; exact h1
  · have hpos := List.count_pos_iff.2 h2.1
    refine C131_plurality (List.count_pos_iff.1 (by omega)) (fun x _ hx => ?_) none (by simp)
    have hle := g2 x hx
    by_cases hxl : x ∈ labels
    · have := (h2.2 x hxl).1
      omega
    · have : labels.count x = 0 := List.count_eq_zero.2 hxl
      omega

/-- Three of five oracles are right: so is the vote. With four right ones as well. -/
example : majorityVote (K := ℚ) [2, 1, 1, 3, 1] none = .ok (3, 1) ∧ ∃ n, 3 ≤ n ∧ majorityVote (K := ℚ) [2, 1, 1, 1, 1] none = .ok (n, 1) := by
  have h : majorityVote (K := ℚ) [2, 1, 1, 3, 1] none = .ok (3, 1) := C131_most (labels := [2, 1, 1, 3, 1]) (t := 1) (by decide) none (by simp)
  exact ⟨h, C131_better h (by simp)⟩

/-- Half is not enough. -/
example : majorityVote (K := ℚ) [2, 1, 2, 1] none = .ok (2, 2) := by decide +kernel

/-! ## Names of the classes (C132) -/

theorem idxOf_map {f : β → γ} (hf : Function.Injective f) (x : β) : ∀ l : List β, (l.map f).idxOf (f x) = l.idxOf x
  | [] => rfl
  | a :: l => by
    rw [List.map_cons, List.idxOf_cons, List.idxOf_cons, idxOf_map hf x l]
    have : (f a == f x) = (a == x) := by
      rw [Bool.eq_iff_iff]
      simp [hf.eq_iff]
    rw [this]

theorem winner_map {f : β → γ} (hf : Function.Injective f) {labels : List β} {l : β} (h : Spec.Winner labels l) : Spec.Winner (labels.map f) (f l) := by
  refine ⟨List.mem_map.2 ⟨l, h.1, rfl⟩, ?_⟩
  intro y hy
  obtain ⟨x, hx, rfl⟩ := List.mem_map.1 hy
  rw [List.count_map_of_injective _ _ hf, List.count_map_of_injective _ _ hf, idxOf_map hf, idxOf_map hf]
  exact ⟨(h.2 x hx).1, fun h1 => (h.2 x hx).2 (fun e => h1 (by rw [e]))⟩

/-- **C132**: other names for the classes: the vote is the other name of the same class, with the same number of votes. -/
theorem C132_vote {f : β → γ} (hf : Function.Injective f) (labels : List β) (w : Option (List K)) :
    majorityVote (labels.map f) w = (majorityVote labels w).map (fun p => (p.1, f p.2)) := by
  by_cases hs : sameLength labels.length w = true
  · by_cases hne : labels = []
    · subst hne
      have hs' : sameLength 0 w = true := hs
      simp [majorityVote, counter, mostCommon, hs', Except.map]
    · have hw : ∀ ws, w = some ws → ws.length = labels.length := by
        intro ws e
        subst e
        simpa [sameLength] using hs
      obtain ⟨l, h1, h2⟩ := C46_majority_partial (labels := labels) hne w hw
      rw [h1, vote_of_winner (winner_map hf h2) w (by simpa using hw), List.count_map_of_injective _ _ hf]
      rfl
  · have hs : sameLength labels.length w = false := by simpa using hs
    simp [majorityVote, hs]
    rfl

/-- The dictionary with other names. -/
def renamed (f : β → γ) (d : List (Key × β)) : List (Key × γ) := d.map (fun p => (p.1, f p.2))

/-- The IEthresh object with other names of the classes. -/
def IE.rename (f : β → γ) (o : IE β K) : IE γ K := ⟨o.hist.map (renamed f), renamed f o.vote, o.ui⟩

theorem renamed_set (f : β → γ) (k : Key) (v : β) : ∀ d : List (Key × β), renamed f (dictSet k v d) = dictSet k (f v) (renamed f d)
  | [] => rfl
  | (a, b) :: d => by
    have ih := renamed_set f k v d
    unfold renamed at ih ⊢
    simp only [dictSet, List.map_cons]
    split
    · rfl
    · rw [List.map_cons, ih]

theorem renamed_get (f : β → γ) (k : Key) : ∀ d : List (Key × β), dictGet k (renamed f d) = (dictGet k d).map f
  | [] => rfl
  | (a, b) :: d => by
    have ih := renamed_get f k d
    unfold renamed at ih ⊢
    simp only [dictGet, List.map_cons]
    split
    · rfl
    · exact ih

theorem rewards_renamed [Field K] {f : β → γ} (hf : Function.Injective f) (vote : List (Key × β)) :
    ∀ hist : List (Key × β), rewards (K := K) (renamed f vote) (renamed f hist) = rewards vote hist
  | [] => rfl
  | (k, l) :: r => by
    have ih := rewards_renamed hf vote r
    change rewards (renamed f vote) ((k, f l) :: renamed f r) = _
    unfold rewards
    rw [renamed_get, ih]
    cases dictGet k vote with
    | none => rfl
    | some m => simp only [Option.map_some, hf.eq_iff]

theorem scoreLoop_renamed [Field K] (st : Stats K) (n : Nat) {f : β → γ} (hf : Function.Injective f) (vote : List (Key × β)) (hist : List (List (Key × β))) :
    ∀ (sel : List Nat) (ui : List (Option K)), scoreLoop st n (renamed f vote) (hist.map (renamed f)) ui sel = scoreLoop st n vote hist ui sel
  | [], _ => rfl
  | i :: r, ui => by
    have hg : (hist.map (renamed f)).getD i [] = renamed f (hist.getD i []) := by
      rw [List.getD_eq_getElem?_getD, List.getD_eq_getElem?_getD, List.getElem?_map]
      cases hist[i]? <;> rfl
    unfold scoreLoop calcUia
    rw [hg, rewards_renamed hf]
    cases rewards (K := K) vote (hist.getD i []) with
    | error e => rfl
    | ok rs => exact scoreLoop_renamed st n hf vote hist r _

theorem labelLoop_renamed (ask : Nat → Key → Except PyErr β) (f : β → γ) (k : Key) : ∀ (sel : List Nat) (h : List (List (Key × β))),
    labelLoop (fun i k => (ask i k).map f) k (h.map (renamed f)) sel = ((labelLoop ask k h sel).1.map (renamed f), (labelLoop ask k h sel).2.map (List.map f))
  | [], _ => rfl
  | i :: r, h => by
    unfold labelLoop
    cases ask i k with
    | error e => rfl
    | ok l =>
      have hm : (h.map (renamed f)).modify i (dictSet k (f l)) = (h.modify i (dictSet k l)).map (renamed f) := by
        apply List.ext_getElem?
        intro j
        simp only [List.getElem?_modify, List.getElem?_map]
        cases h[j]? with
        | none => rfl
        | some d =>
          simp only [Option.map_some]
          by_cases e : i = j
          · simp [e, renamed_set]
          · simp [e]
      change (match labelLoop (fun i k => (ask i k).map f) k ((h.map (renamed f)).modify i (dictSet k (f l))) r with
        | (h', Except.error e) => (h', Except.error e)
        | (h', Except.ok ls) => (h', Except.ok (f l :: ls))) = _
      rw [hm, labelLoop_renamed ask f k r (h.modify i (dictSet k l))]
      dsimp only
      generalize labelLoop ask k (h.modify i (dictSet k l)) r = q
      obtain ⟨h', e | ls⟩ := q <;> rfl

/-- **C132**: IEthresh asks the same oracles and gives them the same scores when the classes get other names, in every state. -/
theorem C132_iethresh [Field K] [LinearOrder K] {f : β → γ} (hf : Function.Injective f) (st : Stats K) (eps : K) (ask : Nat → Key → Except PyErr β) (o : IE β K) (k : Key) :
    (o.rename f).select st eps (fun i k => (ask i k).map f) k = ((o.select st eps ask k).1.rename f, (o.select st eps ask k).2) := by
  unfold IE.select
  have hu : (o.rename f).ui = o.ui := rfl
  have hh : (o.rename f).hist = o.hist.map (renamed f) := rfl
  have hv : (o.rename f).vote = renamed f o.vote := rfl
  simp only [hu, hh, hv]
  split
  · rfl
  · rw [labelLoop_renamed]
    generalize labelLoop ask k o.hist (chosen eps o.ui) = q
    obtain ⟨h', e | ls⟩ := q
    · rfl
    · simp only [Except.map, C132_vote (K := K) hf]
      cases majorityVote (K := K) ls none with
      | error e => rfl
      | ok p =>
        obtain ⟨n, m⟩ := p
        simp only
        rw [← renamed_set, scoreLoop_renamed st _ hf]
        generalize scoreLoop st o.ui.length (dictSet k m o.vote) h' o.ui (chosen eps o.ui) = q
        obtain ⟨ui, _ | e⟩ := q <;> rfl

/-- **C132**: so the same oracles are asked in every run: for a new object and any list of instances. -/
theorem C132_iethresh_run [Field K] [LinearOrder K] {f : β → γ} (hf : Function.Injective f) (st : Stats K) (eps : K) (ask : Nat → Key → Except PyErr β) (n : Nat) (ks : List Key) :
    ((ks.foldl (fun (s : IE γ K × List (Except PyErr (List Nat))) k => ((s.1.select st eps (fun i k => (ask i k).map f) k).1, s.2 ++ [(s.1.select st eps (fun i k => (ask i k).map f) k).2])) (IE.new n, [])).2) =
      (ks.foldl (fun (s : IE β K × List (Except PyErr (List Nat))) k => ((s.1.select st eps ask k).1, s.2 ++ [(s.1.select st eps ask k).2])) (IE.new n, [])).2 := by
  have key : ∀ (ks : List Key) (o : IE β K) (out : List (Except PyErr (List Nat))),
      ks.foldl (fun (s : IE γ K × List (Except PyErr (List Nat))) k => ((s.1.select st eps (fun i k => (ask i k).map f) k).1, s.2 ++ [(s.1.select st eps (fun i k => (ask i k).map f) k).2])) (o.rename f, out) =
        (((ks.foldl (fun (s : IE β K × List (Except PyErr (List Nat))) k => ((s.1.select st eps ask k).1, s.2 ++ [(s.1.select st eps ask k).2])) (o, out)).1).rename f,
          (ks.foldl (fun (s : IE β K × List (Except PyErr (List Nat))) k => ((s.1.select st eps ask k).1, s.2 ++ [(s.1.select st eps ask k).2])) (o, out)).2) := by
    intro ks
    induction ks with
    | nil => intro o out; rfl
    | cons k ks ih =>
      intro o out
      simp only [List.foldl_cons]
      rw [C132_iethresh hf]
      exact ih _ _
  have h0 : (IE.new n : IE β K).rename f = IE.new n := by simp [IE.rename, IE.new, renamed]
  rw [← h0, key ks]

end Alipy.Noisy

namespace Alipy.Split

theorem pyAtAll_map {α β : Type} (g : α → β) (l : List α) : ∀ is : List Int, pyAtAll (l.map g) is = (pyAtAll l is).map (List.map g)
  | [] => rfl
  | i :: is => by
    unfold pyAtAll
    have h : pyAt (l.map g) i = (pyAt l i).map g := by
      unfold pyAt
      simp only [List.length_map, List.getElem?_map]
      split
      · rfl
      · split <;> rfl
    rw [h, pyAtAll_map g l is]
    cases pyAt l i with
    | none => rfl
    | some v => cases pyAtAll l is <;> rfl

/-- **C132**: splitting gives the same sets when the classes get other names. -/
theorem C132_split {g : Int → Int} (hg : Function.Injective g) (names ys : List Int) (testRatio rate : ℚ) (allClass : Bool) (shs : List (List Sh)) :
    split names (some (.vec (ys.map g))) testRatio rate allClass shs = split names (some (.vec ys)) testRatio rate allClass shs := by
  have hc : ∀ l, (YArr.vec (ys.map g)).covers l = (YArr.vec ys).covers l := by
    intro l
    simp only [YArr.covers, pyAtAll_map]
    cases pyAtAll ys l with
    | error e => rfl
    | ok vs => simp only [Except.map, MetricSymmetry.numUnique_inj hg]
  have hl : ∀ shs, coverLoop names (.vec (ys.map g)) testRatio rate shs = coverLoop names (.vec ys) testRatio rate shs := by
    intro shs
    induction shs with
    | nil => rfl
    | cons sh shs ih =>
      unfold coverLoop
      simp only [hc, ih]
  unfold split
  congr 1
  funext s
  cases allClass with
  | false => rfl
  | true =>
    simp only [splitRound, YArr.labelNum, MetricSymmetry.numUnique_inj hg, hl]
    rfl

end Alipy.Split

namespace Alipy.Select
set_option linter.unusedSectionVars false
variable {α K : Type} [Field K] [LinearOrder K]

theorem eraseDups_map_inj {g : Int → Int} (hg : Function.Injective g) : ∀ l : List Int, (l.map g).eraseDups = l.eraseDups.map g
  | [] => rfl
  | a :: l => by
    rw [List.map_cons, List.eraseDups_cons, List.eraseDups_cons, List.map_cons, List.filter_map]
    rw [← eraseDups_map_inj hg]
    congr 3
    apply List.filter_congr
    intro b _
    simp [hg.eq_iff]
termination_by l => l.length
decreasing_by exact Nat.lt_succ_of_le (List.length_filter_le _ _)

theorem voteEntropy_names {g : Int → Int} (hg : Function.Injective g) (log : K → K) (votes : List Int) : voteEntropy log (votes.map g) = voteEntropy log votes := by
  unfold voteEntropy
  rw [eraseDups_map_inj hg, List.map_map, List.length_map]
  congr 2
  apply List.map_congr_left
  intro x _
  simp only [Function.comp, List.count_map_of_injective _ _ hg]

/-- **C132**: query by committee selects the same examples when the classes get other names. -/
theorem C132_committee {g : Int → Int} (hg : Function.Injective g) (log : K → K) (argsort : List K → List Nat) (u : Coll α) {predict : List (List Int)} {n : Nat}
    (hp : ∀ r ∈ predict, r.length = n) (batch : Int) : qbc log argsort u (predict.map (List.map g)) batch = qbc log argsort u predict batch := by
  unfold qbc
  congr 1
  rw [List.length_map]
  split
  · rfl
  · congr 2
    have hh : ((predict.map (List.map g)).headD []).length = (predict.headD []).length := by cases predict <;> simp
    rw [hh]
    apply List.map_congr_left
    intro i hi
    rw [List.mem_range] at hi
    rw [← voteEntropy_names hg log (predict.map (fun r => r.getD i 0)), List.map_map, List.map_map]
    congr 1
    apply List.map_congr_left
    intro r hr
    have hin : i < r.length := by
      rw [hp r hr]
      cases predict with
      | nil => simp at hr
      | cons a l =>
        rw [← hp a (by simp)]
        exact hi
    simp [hin]

end Alipy.Select

namespace Alipy

/-- Classes 0, 1, 2 renamed to 7, 8, 9: the same vote, the same split and the same committee scores. -/
example : Noisy.majorityVote (K := ℚ) ([0, 2, 2, 1].map (fun x : Int => x + 7)) none = .ok (2, 9) := by
  rw [Noisy.C132_vote (fun a b h => by simpa using h)]
  decide +kernel

/-- Two oracles with answers named otherwise: on three instances both, both and then only the first are asked, as in the example for C57. -/
example : ((([5, 6, 7].map Key.num).foldl (fun (s : Noisy.IE Nat ℚ × List (Except PyErr (List Nat))) k =>
      ((s.1.select Noisy.exStats 1 (fun i k => (Noisy.exAsk i k).map (fun x => x + 3)) k).1, s.2 ++ [(s.1.select Noisy.exStats 1 (fun i k => (Noisy.exAsk i k).map (fun x => x + 3)) k).2]))
      (Noisy.IE.new 2, [])).2) = [.ok [0, 1], .ok [0, 1], .ok [0]] := by
  rw [Noisy.C132_iethresh_run (f := fun x : Nat => x + 3) (fun a b h => by simpa using h)]
  decide +kernel

/-- A split that has to contain both classes, called 5 and 7 or 10 and 14. -/
example : (split [0, 1, 2] (some (.vec [10, 14, 14])) 0 (2/3) true [[(List.rotate · 2)]]).bind Except.toOption =
    (split [0, 1, 2] (some (.vec [5, 7, 7])) 0 (2/3) true [[(List.rotate · 2)]]).bind Except.toOption ∧
    ((split [0, 1, 2] (some (.vec [5, 7, 7])) 0 (2/3) true [[(List.rotate · 2)]]).bind Except.toOption).isSome = true := by
  refine ⟨?_, by decide +kernel⟩
  rw [show ([10, 14, 14] : List Int) = [5, 7, 7].map (fun x => 2 * x) from rfl, Split.C132_split (fun a b h => by simpa using h)]

end Alipy
