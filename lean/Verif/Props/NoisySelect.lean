import Verif.Model.NoisySelect
import Verif.Spec.NoisySelect
import Verif.Props.NoisyOracles
import Verif.Props.Oracles
import Verif.Props.Select

/-! # C81: selecting an instance and the oracles to label it -/
namespace Alipy.Noisy
open Alipy.Select
variable {α ν β K : Type}

/-! ## The dictionary of oracles -/

theorem dictGet_mapIdx (names : List ν) (i : Nat) : ∀ k, dictGet (k + i) (names.mapIdx (fun j n => (k + j, n))) = names[i]? := by
  induction names generalizing i with
  | nil => intro k; simp [dictGet]
  | cons n r ih =>
    intro k
    rw [List.mapIdx_cons]
    cases i with
    | zero => simp [dictGet]
    | succ i =>
      have := ih i (k + 1)
      simp only [dictGet] at this ⊢
      rw [if_neg (by omega)]
      have e : k + 1 + i = k + (i + 1) := by omega
      rw [e] at this
      rw [List.getElem?_cons_succ, ← this]
      congr 2
      funext j n
      congr 1
      omega

theorem new_get (names : List ν) (i : Nat) : dictGet i (Picker.new names).table = names[i]? := by
  have := dictGet_mapIdx names i 0
  simpa [Picker.new] using this

theorem new_all (names : List ν) : (Picker.new names).all = .ok names := by
  simp only [Picker.all, Picker.new]
  congr 1
  apply List.ext_getElem?
  intro i
  simp only [List.getElem?_map, List.getElem?_mapIdx, Option.map_map]
  cases names[i]? <;> rfl

/-- C81: `QueryNoisyOraclesAll` names all oracles it was constructed with, in their order, each once. -/
theorem C81_all_oracles_partial (names : List ν) : (Picker.new names).all = .ok names := new_all names

/-- C81: `QueryNoisyOraclesRandom` names one of the oracles it was constructed with; every one of them can be drawn. -/
theorem C81_random_oracle_partial (names : List ν) :
    (∀ draw < names.length, ∃ n ∈ names, (Picker.new names).random names.length draw = .ok [n]) ∧
    (∀ n ∈ names, ∃ draw < names.length, (Picker.new names).random names.length draw = .ok [n]) := by
  have key : ∀ draw, (h : draw < names.length) → (Picker.new names).random names.length draw = .ok [names[draw]] := by
    intro draw h
    have h0 : names.length ≠ 0 := by omega
    simp only [Picker.random, if_neg h0, new_get, List.getElem?_eq_getElem h]
  refine ⟨fun draw h => ⟨names[draw], List.getElem_mem h, key draw h⟩, fun n hn => ?_⟩
  obtain ⟨i, hi, rfl⟩ := List.getElem_of_mem hn
  exact ⟨i, hi, key i hi⟩

/-- C81, violation: the names are read off when the strategy is constructed. An oracle added to the `Oracles` object later is never named by
`QueryNoisyOraclesAll`, -/
theorem C81_later_oracle_not_asked_violation (o : Oracles (List β) Key) (name : String) (f : Key → Except PyErr (Answer (List β)))
    (hnew : name ∉ o.dict.map Prod.fst) :
    ∃ ns, (Picker.new (o.dict.map Prod.fst)).all = .ok ns ∧ name ∉ ns ∧ name ∈ (o.addOracle name f).dict.map Prod.fst := by
  refine ⟨_, new_all _, hnew, ?_⟩
  have : ∀ (d : List (String × (Key → Except PyErr (Answer (List β))))), name ∈ (dictSet name f d).map Prod.fst := by
    intro d
    induction d with
    | nil => simp [dictSet]
    | cons p r ih =>
      obtain ⟨a, b⟩ := p
      simp only [dictSet]
      split_ifs with h
      · simp [h]
      · simp only [List.map_cons, List.mem_cons]; exact Or.inr ih
  exact this o.dict

/-- and `QueryNoisyOraclesRandom`, which draws among the present number of oracles, raises KeyError when its draw falls on the new ones. -/
theorem C81_later_oracle_random_violation (names : List ν) {now draw : Nat} (h1 : names.length ≤ draw) (h2 : draw < now) :
    (Picker.new names).random now draw = .error .keyError := by
  have h0 : now ≠ 0 := by omega
  simp [Picker.random, h0, new_get, List.getElem?_eq_none h1]

/-! ## The instance -/

section
variable [Field K] [LinearOrder K] [IsStrictOrderedRing K]

/-- C81: with at least two unlabelled examples the result is a pair of the least confidently predicted unlabelled example and the oracles
named for it. Missing: a single unlabelled example (`C81_last_example_violation`). -/
theorem C81_instance_partial {log : K → K} {argsort : List K → List Nat} (ha : ∀ l, Spec.IsArgsort l (argsort l)) {u : Coll α}
    (hu : u.items.Nodup) {c : Nat} {rows : List (List K)} (hf : Spec.Fits u.items.length .leastConfident (.mat c rows))
    (h2 : 2 ≤ u.items.length) {pick : α → Except PyErr (List ν)} {who : α → List ν} (hp : ∀ x ∈ u.items, pick x = .ok (who x)) :
    ∃ x, selectNoisy log argsort u (.mat c rows) pick = .ok (.pair [x] (who x)) ∧ x ∈ u.items ∧ Spec.LeastSure u.items rows x := by
  have hi : (Coll.array u.items).items = u.items := rfl
  obtain ⟨r, hr, hn, hmem, hlen⟩ := C42_uncertainty (log := log) ha (m := .leastConfident) (u := .array u.items) hu (predict := .mat c rows) hf
    (batch := 1) (by decide)
  rw [hi] at hmem hlen
  have hl1 : r.length = 1 := by omega
  obtain ⟨x, rfl⟩ := List.length_eq_one_iff.1 hl1
  have hx := hmem x (by simp)
  refine ⟨x, ?_, hx, ?_⟩
  · have h1 : ¬ u.items.length ≤ 1 := by omega
    simp only [selectNoisy, if_neg h1, hr, hp x hx]
  · have hb := C43_least_confident ha (u := .array u.items) hu hf hr
    rw [hi] at hb
    obtain ⟨i, hil, rfl⟩ := List.getElem_of_mem hx
    obtain ⟨g1, g2, g3⟩ := hf
    have hir : i < rows.length := by rw [g2]; exact hil
    refine ⟨i, rows[i], List.getElem?_eq_getElem hil, List.getElem?_eq_getElem hir, ?_⟩
    intro j r' hj t t' ht ht'
    by_contra hlt
    rw [not_le] at hlt
    obtain ⟨hjl, -⟩ := List.getElem?_eq_some_iff.1 hj
    have hju : j < u.items.length := by rw [← g2]; exact hjl
    by_cases hij : u.items[j] = u.items[i]
    · have hji : j = i := (List.Nodup.getElem_inj_iff hu).1 hij
      subst hji
      rw [List.getElem?_eq_getElem hjl] at hj
      cases hj
      exact absurd (le_antisymm (ht.2 _ ht'.1) (ht'.2 _ ht.1)) (ne_of_lt hlt)
    · exact hb i j u.items[i] u.items[j] (List.getElem?_eq_getElem hil) (List.getElem?_eq_getElem hju) (by simp) (by simpa using hij)
        ⟨r', rows[i], t', t, hj, List.getElem?_eq_getElem hir, ht', ht, hlt⟩

/-- C81, violation: with a single unlabelled example (or none) the strategies return the array of the indexes instead of a pair, whatever is
predicted; unpacking it into the instance and the oracles raises ValueError. -/
theorem C81_last_example_violation {log : K → K} {argsort : List K → List Nat} {u : Coll α} (h : u.items.length ≤ 1) (predict : Pred K)
    (pick : α → Except PyErr (List ν)) :
    selectNoisy log argsort u predict pick = .ok (.indexes u.items) ∧
      (Chosen.indexes u.items : Chosen α ν).unpack = .error .valueError := by
  simp [selectNoisy, h, Chosen.unpack]

/-! ## Rounds -/

/-- What is assumed of an `Oracles` object: each oracle knows the label of every example of `u`. -/
def Knows (o : Oracles (List β) Key) (ans : String → Key → β × ℚ) (u : List Key) : Prop :=
  ∀ n ∈ o.dict.map Prod.fst, ∀ k ∈ u, o.askOne k n = .ok ⟨[(ans n k).1], .flat [(ans n k).2]⟩

theorem askAll_ok {o : Oracles (List β) Key} {ans : String → Key → β × ℚ} {k : Key} : ∀ {ns : List String},
    (∀ n ∈ ns, o.askOne k n = .ok ⟨[(ans n k).1], .flat [(ans n k).2]⟩) →
    o.askAll k ns = .ok (ns.map (fun n => ⟨[(ans n k).1], .flat [(ans n k).2]⟩))
  | [], _ => rfl
  | n :: r, h => by
    simp only [Oracles.askAll, h n (by simp), askAll_ok (ns := r) (fun m hm => h m (by simp [hm])), List.map_cons]

theorem npSumAll_flat (f : String → ℚ) : ∀ ns : List String, npSumAll (ns.map (fun n => Costs.flat [f n])) = .ok (ns.map f).sum
  | [] => rfl
  | n :: r => by
    simp [npSumAll, Costs.regular, Costs.shape, Costs.nums, Function.comp_def]

/-- One round: the least confidently predicted example gets the label which wins the vote of the oracles named for it, the object keeps the
record of it and is charged. -/
theorem round_law [DecidableEq β] {log : K → K} {argsort : List K → List Nat} (ha : ∀ l, Spec.IsArgsort l (argsort l))
    {predict : List Key → Pred K} (hfit : ∀ v, Spec.Fits v.length .leastConfident (predict v))
    {pick : Key → Except PyErr (List String)} {who : Key → List String} {ans : String → Key → β × ℚ} {s : NoisyState β}
    (hu : s.u.Nodup) (h2 : 2 ≤ s.u.length) (hp : ∀ x ∈ s.u, pick x = .ok (who x)) (hw : ∀ x ∈ s.u, who x ≠ [] ∧ ∀ n ∈ who x, n ∈ s.orc.dict.map Prod.fst)
    (hk : Knows s.orc ans s.u) :
    ∃ x l, x ∈ s.u ∧ Spec.Winner (Spec.ballot ans x (who x)) l ∧
      (∃ c rows, predict s.u = .mat c rows ∧ Spec.LeastSure s.u rows x) ∧
      noisyRound log argsort predict pick s =
        (⟨s.u.erase x, s.bought ++ [(x, l)],
          ⟨s.orc.dict, s.orc.cost + Spec.bill ans x (who x),
            s.orc.history ++ [⟨who x, (who x).map (fun n => ⟨[(ans n x).1], .flat [(ans n x).2]⟩), x⟩]⟩⟩, none) := by
  cases hpr : predict s.u with
  | vec l =>
    have := hfit s.u
    rw [hpr] at this
    exact this.elim
  | mat c rows =>
    have hf := hfit s.u
    rw [hpr] at hf
    obtain ⟨x, h1, hx, hls⟩ := C81_instance_partial (log := log) ha (u := .coll s.u) hu hf h2 hp
    have hx' : x ∈ s.u := hx
    obtain ⟨hne, hreg⟩ := hw x hx'
    have hask := askAll_ok (ns := who x) (fun n hn => hk n (hreg n hn) x hx')
    have hq : s.orc.queryFromS x (some (who x)) =
        (⟨s.orc.dict, s.orc.cost + Spec.bill ans x (who x),
            s.orc.history ++ [⟨who x, (who x).map (fun n => ⟨[(ans n x).1], .flat [(ans n x).2]⟩), x⟩]⟩,
         .ok ((who x).map (fun n => ⟨[(ans n x).1], .flat [(ans n x).2]⟩))) := by
      have hs := npSumAll_flat (fun n => (ans n x).2) (who x)
      simp only [Oracles.queryFromS, Option.getD_some, hask, List.map_map]
      simp only [Function.comp_def, hs, Spec.bill]
    obtain ⟨l, hv, hwin⟩ := C46_vote_of_oracles (ls := Spec.ballot ans x (who x)) hq (by simpa [Spec.ballot] using hne) (by
      unfold Spec.ballot
      generalize who x = ns
      induction ns with
      | nil => exact .nil
      | cons n r ih => exact .cons ⟨[], rfl⟩ ih)
    refine ⟨x, l, hx', hwin, ⟨c, rows, rfl, hls⟩, ?_⟩
    simp only [noisyRound, hpr, h1, Chosen.unpack, hv]

/-- C81: any number of rounds that leave at least one example unlabelled. Every bought label is the winner of the votes of the oracles named
for its example, and the `Oracles` object has been charged exactly their costs. -/
theorem rounds_law [DecidableEq β] {log : K → K} {argsort : List K → List Nat} (ha : ∀ l, Spec.IsArgsort l (argsort l))
    {predict : List Key → Pred K} (hfit : ∀ v, Spec.Fits v.length .leastConfident (predict v))
    {pick : Key → Except PyErr (List String)} {who : Key → List String} {ans : String → Key → β × ℚ} :
    ∀ (n : Nat) (s : NoisyState β), s.u.Nodup → n < s.u.length → (∀ x ∈ s.u, pick x = .ok (who x)) →
      (∀ x ∈ s.u, who x ≠ [] ∧ ∀ m ∈ who x, m ∈ s.orc.dict.map Prod.fst) → Knows s.orc ans s.u →
      ∃ new s', noisyRounds log argsort predict pick n s = (s', none) ∧ s'.bought = s.bought ++ new ∧ s'.orc.dict = s.orc.dict ∧
        Spec.BoughtByVote ans who n s.u s'.u new (s'.orc.cost - s.orc.cost) ∧
        s'.orc.history.map (fun h => (h.query, h.names)) =
          s.orc.history.map (fun h => (h.query, h.names)) ++ new.map (fun p => (p.1, who p.1)) := by
  intro n
  induction n with
  | zero =>
    intro s _ _ _ _ _
    exact ⟨[], s, rfl, by simp, rfl, ⟨rfl, by simp, by simp, by simp⟩, by simp⟩
  | succ n ih =>
    intro s hu hlt hp hw hk
    obtain ⟨x, l, hx, hwin, -, hround⟩ := round_law (log := log) ha hfit hu (by omega) hp hw hk
    have hsub : ∀ k ∈ s.u.erase x, k ∈ s.u := fun k h => List.mem_of_mem_erase h
    obtain ⟨new, s', h1, h2, h3, h4, h5⟩ := ih ⟨s.u.erase x, s.bought ++ [(x, l)],
        ⟨s.orc.dict, s.orc.cost + Spec.bill ans x (who x),
          s.orc.history ++ [⟨who x, (who x).map (fun n => ⟨[(ans n x).1], .flat [(ans n x).2]⟩), x⟩]⟩⟩
      (hu.erase x) (by show n < (s.u.erase x).length; rw [List.length_erase_of_mem hx]; omega) (fun k h => hp k (hsub k h))
      (fun k h => hw k (hsub k h)) (fun m hm k h => hk m hm k (hsub k h))
    refine ⟨(x, l) :: new, s', ?_, by simp [h2], h3, ⟨by simp [h4.count], ?_, ?_, ?_⟩, ?_⟩
    · simp only [noisyRounds, hround, h1]
    · have := h4.split
      exact (this.cons x).trans (List.perm_cons_erase hx).symm
    · intro p hp'
      rcases List.mem_cons.1 hp' with rfl | hp'
      · exact hwin
      · exact h4.winner p hp'
    · have := h4.paid
      simp only [List.map_cons, List.sum_cons]
      rw [← this]
      ring
    · rw [h5]; simp

/-- C81, a script with `QueryNoisyOraclesAll`: as long as an example remains, every round labels one example with the winner of the votes
of *all* registered oracles, and pays all of them. -/
theorem C81_all_rounds_partial [DecidableEq β] {log : K → K} {argsort : List K → List Nat} (ha : ∀ l, Spec.IsArgsort l (argsort l))
    {predict : List Key → Pred K} (hfit : ∀ v, Spec.Fits v.length .leastConfident (predict v)) {ans : String → Key → β × ℚ}
    {s : NoisyState β} (hu : s.u.Nodup) (hne : s.orc.dict ≠ []) (hk : Knows s.orc ans s.u) {n : Nat} (hn : n < s.u.length) :
    ∃ new s', noisyRounds log argsort predict (fun _ => (Picker.new (s.orc.dict.map Prod.fst)).all) n s = (s', none) ∧
      s'.bought = s.bought ++ new ∧
      Spec.BoughtByVote ans (fun _ => s.orc.dict.map Prod.fst) n s.u s'.u new (s'.orc.cost - s.orc.cost) := by
  obtain ⟨new, s', h1, h2, -, h4, -⟩ := rounds_law (log := log) ha hfit (pick := fun _ => (Picker.new (s.orc.dict.map Prod.fst)).all)
    (who := fun _ => s.orc.dict.map Prod.fst) n s hu hn (fun _ _ => new_all _) (fun _ _ => ⟨by simpa using hne, fun _ h => h⟩) hk
  exact ⟨new, s', h1, h2, h4⟩

/-- C81, a script with `QueryNoisyOraclesRandom`: every round labels one example with the answer of the oracle drawn for it and pays that
oracle only. -/
theorem C81_random_rounds_partial [DecidableEq β] {log : K → K} {argsort : List K → List Nat} (ha : ∀ l, Spec.IsArgsort l (argsort l))
    {predict : List Key → Pred K} (hfit : ∀ v, Spec.Fits v.length .leastConfident (predict v)) {ans : String → Key → β × ℚ}
    {s : NoisyState β} (hu : s.u.Nodup) {draw : Key → Nat} (hd : ∀ k, draw k < s.orc.dict.length) (hk : Knows s.orc ans s.u) {n : Nat}
    (hn : n < s.u.length) :
    ∃ (who : Key → String) (new : List (Key × β)) (s' : NoisyState β), (∀ k, who k ∈ s.orc.dict.map Prod.fst) ∧
      noisyRounds log argsort predict (fun k => (Picker.new (s.orc.dict.map Prod.fst)).random s.orc.dict.length (draw k)) n s = (s', none) ∧
      s'.bought = s.bought ++ new ∧ (∀ p ∈ new, p.2 = (ans (who p.1) p.1).1) ∧
      s'.orc.cost = s.orc.cost + (new.map (fun p => (ans (who p.1) p.1).2)).sum ∧
      new.length = n ∧ (new.map Prod.fst ++ s'.u).Perm s.u := by
  have hex : ∀ k, ∃ m ∈ s.orc.dict.map Prod.fst,
      (Picker.new (s.orc.dict.map Prod.fst)).random s.orc.dict.length (draw k) = .ok [m] := by
    intro k
    have := (C81_random_oracle_partial (s.orc.dict.map Prod.fst)).1 (draw k) (by simpa using hd k)
    simpa using this
  choose who hwho hrand using hex
  obtain ⟨new, s', h1, h2, -, h4, -⟩ := rounds_law (log := log) ha hfit
    (pick := fun k => (Picker.new (s.orc.dict.map Prod.fst)).random s.orc.dict.length (draw k)) (who := fun k => [who k]) n s hu hn
    (fun k _ => hrand k) (fun k _ => ⟨by simp, by simpa using hwho k⟩) hk
  refine ⟨who, new, s', hwho, h1, h2, ?_, ?_, h4.count, h4.split⟩
  · intro p hp
    have := (h4.winner p hp).1
    simpa [Spec.ballot] using this
  · have := h4.paid
    simp only [Spec.bill, List.map_cons, List.map_nil, List.sum_cons, List.sum_nil, add_zero] at this
    rw [← this]; ring

theorem rounds_append [DecidableEq β] {log : K → K} {argsort : List K → List Nat} {predict : List Key → Pred K}
    {pick : Key → Except PyErr (List String)} : ∀ (n : Nat) {s s' : NoisyState β}, noisyRounds log argsort predict pick n s = (s', none) →
    noisyRounds log argsort predict pick (n + 1) s = noisyRounds log argsort predict pick 1 s'
  | 0, s, s', h => by simp only [noisyRounds] at h; cases h; rfl
  | n + 1, s, s', h => by
    rw [noisyRounds] at h
    rw [noisyRounds]
    split at h
    · cases h
    · rename_i s1 hr
      exact rounds_append n h

/-- C81, violation: the last example cannot be labelled. A script which runs until nothing is left labels all examples but one and then raises
ValueError. -/
theorem C81_whole_pool_violation [DecidableEq β] {log : K → K} {argsort : List K → List Nat} (ha : ∀ l, Spec.IsArgsort l (argsort l))
    {predict : List Key → Pred K} (hfit : ∀ v, Spec.Fits v.length .leastConfident (predict v)) {ans : String → Key → β × ℚ}
    {s : NoisyState β} (hu : s.u.Nodup) (hne : s.orc.dict ≠ []) (hk : Knows s.orc ans s.u) (h0 : s.u ≠ []) :
    ∃ new s' x, noisyRounds log argsort predict (fun _ => (Picker.new (s.orc.dict.map Prod.fst)).all) s.u.length s = (s', some .valueError) ∧
      s'.bought = s.bought ++ new ∧ s'.u = [x] ∧ x ∉ new.map Prod.fst := by
  have hpos : 0 < s.u.length := List.length_pos_iff.2 h0
  obtain ⟨new, s', h1, h2, h4⟩ := C81_all_rounds_partial (log := log) ha hfit hu hne hk (n := s.u.length - 1) (by omega)
  have hlen := h4.split.length_eq
  rw [List.length_append, List.length_map, h4.count] at hlen
  obtain ⟨x, hx⟩ := List.length_eq_one_iff.1 (show s'.u.length = 1 by omega)
  refine ⟨new, s', x, ?_, h2, hx, ?_⟩
  · have e := rounds_append _ h1
    have e2 : s.u.length - 1 + 1 = s.u.length := by omega
    rw [e2] at e
    rw [e]
    have := C81_last_example_violation (log := log) (argsort := argsort) (u := .coll s'.u) (by show s'.u.length ≤ 1; simp [hx]) (predict s'.u)
      (fun _ => (Picker.new (s.orc.dict.map Prod.fst)).all)
    simp only [noisyRounds, noisyRound, this.1, this.2]
  · have hnd : (new.map Prod.fst ++ s'.u).Nodup := h4.split.nodup_iff.2 hu
    rw [hx] at hnd
    intro hmem
    exact (List.nodup_append.1 hnd).2.2 x hmem x (by simp) rfl

/-- C81, violation: with a list of oracles `get_majority_vote` ignores the named oracles. If a random oracle was drawn, still all of them are asked
and paid: as soon as another oracle has a positive cost the bill is larger than that of the drawn one. -/
theorem C81_list_asks_all_violation [DecidableEq β] {χ : Type} [DecidableEq χ] {k : Key} {os : List (Oracle χ β)} {as : List (β × ℚ)}
    (h : List.Forall₂ (fun o a => o.ask k = .ok a) os as) {draw : Nat} (hd : draw < as.length) (hpos : ∀ a ∈ as, 0 ≤ a.2)
    (hother : ∃ (j : Nat) (a : β × ℚ), j ≠ draw ∧ as[j]? = some a ∧ 0 < a.2) :
    ∃ n l c, voteOfList k os = .ok (n, l, c) ∧ (as[draw]).2 < c := by
  have hne : os ≠ [] := by
    rintro rfl
    cases h
    simp at hd
  obtain ⟨l, h1, -⟩ := C46_vote_of_list hne h
  refine ⟨_, l, _, h1, ?_⟩
  obtain ⟨j, a, hj, ha, hp⟩ := hother
  obtain ⟨hjl, rfl⟩ := List.getElem?_eq_some_iff.1 ha
  clear h1 h hne
  induction as generalizing draw j with
  | nil => simp at hd
  | cons b r ih =>
    have hr0 : 0 ≤ (r.map Prod.snd).sum := List.sum_nonneg (by
      intro q hq
      obtain ⟨a, ha, rfl⟩ := List.mem_map.1 hq
      exact hpos a (by simp [ha]))
    have hmem : ∀ i, (hi : i < r.length) → (r[i]).2 ≤ (r.map Prod.snd).sum := by
      intro i hi
      apply List.single_le_sum
      · intro q hq
        obtain ⟨a, ha, rfl⟩ := List.mem_map.1 hq
        exact hpos a (by simp [ha])
      · exact List.mem_map_of_mem (List.getElem_mem hi)
    cases draw with
    | zero =>
      cases j with
      | zero => exact absurd rfl hj
      | succ j =>
        simp only [List.getElem_cons_succ] at hp
        have := hmem j (by simpa using hjl)
        simp only [List.getElem_cons_zero, List.map_cons, List.sum_cons]
        linarith
    | succ d =>
      cases j with
      | zero =>
        simp only [List.getElem_cons_zero] at hp
        have := hmem d (by simpa using hd)
        simp only [List.getElem_cons_succ, List.map_cons, List.sum_cons]
        linarith
      | succ j =>
        have hb := hpos b (by simp)
        have := ih (draw := d) (by simpa using hd) (fun a ha => hpos a (by simp [ha])) j (by omega) (by simpa using hjl)
          (by simp) (by simpa using hp)
        simp only [List.getElem_cons_succ, List.map_cons, List.sum_cons]
        linarith

end

/-! ## Concrete cases -/

/-- Three oracles; two of them say 1. -/
def exOracles : Oracles (List Int) Key :=
  ((Oracles.empty.addOracle "a" (fun _ => .ok ⟨[1], .flat [2]⟩)).addOracle "b" (fun _ => .ok ⟨[0], .flat [1]⟩)).addOracle "c"
    (fun _ => .ok ⟨[1], .flat [1 / 2]⟩)

/-- A prediction matrix for any set of examples: example 8 is the least sure one. -/
def exPredict (v : List Key) : Pred ℚ := .mat 2 (v.map (fun k => if k = .num 8 then [1 / 2, 1 / 2] else [1 / 4, 3 / 4]))

/-- The hypotheses of the theorems hold for these oracles and predictions. -/
example : (∀ v, Spec.Fits v.length .leastConfident (exPredict v)) ∧
    Knows exOracles (fun n _ => if n = "a" then (1, 2) else if n = "b" then (0, 1) else (1, 1 / 2)) [.num 7, .num 8, .num 9] ∧
    exOracles.dict ≠ [] := by
  refine ⟨fun v => ⟨by decide, by simp, ?_⟩, ?_, by simp [exOracles, Oracles.addOracle, Oracles.empty, dictSet]⟩
  · intro r hr
    obtain ⟨k, -, rfl⟩ := List.mem_map.1 hr
    split_ifs <;> rfl
  · intro n hn k _
    have : n = "a" ∨ n = "b" ∨ n = "c" := by simpa [exOracles, Oracles.addOracle, Oracles.empty, dictSet] using hn
    rcases this with rfl | rfl | rfl <;> rfl

/-- Two rounds with all oracles: the least sure example first; every label is 1 (two votes against one), 7 in all has been paid. -/
example : let r : NoisyState Int × Option PyErr := (noisyRounds (fun x => x) argsortBy exPredict (fun _ => (Picker.new (exOracles.dict.map Prod.fst)).all) 2
      (⟨[.num 7, .num 8, .num 9], [], exOracles⟩ : NoisyState Int))
    r.1.u.length = 1 ∧ r.1.bought.map Prod.snd = [1, 1] ∧ (r.1.bought.map Prod.fst).head? = some (.num 8) ∧ r.1.orc.cost = 7 ∧ r.2 = none := by
  decide +kernel

/-- A third round fails. -/
example : (noisyRounds (fun x => x) argsortBy exPredict (fun _ => (Picker.new (exOracles.dict.map Prod.fst)).all) 3
      (⟨[.num 7, .num 8, .num 9], [], exOracles⟩ : NoisyState Int)).2 = some .valueError := by
  decide +kernel

example : (Picker.new ["a", "b"]).random 2 1 = .ok ["b"] ∧ (Picker.new ["a", "b"]).random 3 2 = .error .keyError := by decide

end Alipy.Noisy
