import Verif.Spec.Calls
import Verif.Props.Oracles
import Verif.Props.StateIO
/-!
# C145: in one call or in several
-/
namespace Alipy.Calls
open Alipy.Spec

/-! ## Collections -/

theorem addAll_append (ws : List Val) : ∀ (vs : List Val) (c : IC), c.addAll (vs ++ ws) = andThen (c.addAll vs) (fun c => c.addAll ws)
  | [], c => rfl
  | v :: vs, c => by
    rw [List.cons_append, IC.addAll, IC.addAll]
    rcases c.add v with ⟨c', _ | e⟩
    · exact addAll_append ws vs c'
    · rfl

/-- **C145**: updating a collection with a list is updating it with the parts of the list, also when an index is refused. -/
theorem C145_update (c : IC) (vs ws : List Val) :
    c.update (.many (vs ++ ws)) = andThen (c.update (.many vs)) (fun c => c.update (.many ws)) := addAll_append ws vs c

/-- **C145**: the same for taking away. -/
theorem C145_difference (c : IC) (vs ws : List Val) :
    c.differenceUpdate (.many (vs ++ ws)) = (c.differenceUpdate (.many vs)).differenceUpdate (.many ws) := by
  unfold IC.differenceUpdate
  induction vs generalizing c with
  | nil => rfl
  | cons v vs ih => exact ih (c.discard v)

/-- The third index is refused: as a whole and in parts the first two have been added. -/
example : IC.empty.update (.many [⟨false, .int 3⟩, ⟨false, .int 1⟩, ⟨false, .str "a"⟩, ⟨false, .int 7⟩]) = (⟨[⟨false, .int 3⟩, ⟨false, .int 1⟩], some ⟨false, .int⟩⟩, some .typeError) ∧
    andThen (IC.empty.update (.many [⟨false, .int 3⟩])) (fun c => c.update (.many [⟨false, .int 1⟩, ⟨false, .str "a"⟩, ⟨false, .int 7⟩])) =
      (⟨[⟨false, .int 3⟩, ⟨false, .int 1⟩], some ⟨false, .int⟩⟩, some .typeError) := by constructor <;> decide

theorem allTuples_append (b : List Item) : ∀ a : List Item, allTuples (a ++ b) = (allTuples a).bind (fun x => (allTuples b).map (fun y => x ++ y))
  | [] => by cases h : allTuples b <;> simp [allTuples, h]
  | .other :: a => by simp [allTuples]
  | .tup ix :: a => by
    rw [List.cons_append, allTuples, allTuples, allTuples_append b a]
    cases allTuples a <;> cases allTuples b <;> simp

theorem flattenLoop_append (L : Int) (y : List Ix) : ∀ x : List Ix, flattenLoop L (x ++ y) =
    match flattenLoop L x with
    | .error e => .error e
    | .ok p => match flattenLoop L y with
      | .error e => .error e
      | .ok q => .ok (p ++ q)
  | [] => by cases h : flattenLoop L y <;> simp [flattenLoop, h]
  | ix :: x => by
    rw [List.cons_append, flattenLoop, flattenLoop, flattenLoop_append L y x]
    cases flatten1 L ix <;> cases flattenLoop L x <;> cases flattenLoop L y <;> simp

theorem addPairs_append (q : List (Int × Int)) : ∀ (p : List (Int × Int)) (c : MLIC), c.addPairs (p ++ q) = andThen (c.addPairs p) (fun c => c.addPairs q)
  | [], c => rfl
  | v :: vs, c => by
    rw [List.cons_append, MLIC.addPairs, MLIC.addPairs]
    rcases c.addPair v.1 (.scal v.2) with ⟨c', _ | e⟩
    · exact addPairs_append q vs c'
    · rfl

theorem erasePairs_append (q : List (Int × Int)) : ∀ (p : List (Int × Int)) (c : MLIC), c.erasePairs (p ++ q) = andThen (c.erasePairs p) (fun c => c.erasePairs q)
  | [], c => rfl
  | v :: vs, c => by
    rw [List.cons_append, MLIC.erasePairs, MLIC.erasePairs]
    rcases c.erase (MLIC.plain v) with ⟨c', _ | e⟩
    · exact erasePairs_append q vs c'
    · rfl

theorem addPairs_lsz : ∀ (p : List (Int × Int)) (c : MLIC), (c.addPairs p).1.lsz = c.lsz
  | [], c => rfl
  | v :: vs, c => by
    have h : (c.addPair v.1 (.scal v.2)).1.lsz = c.lsz := by
      unfold MLIC.addPair MLIC.insert
      split
      · rfl
      · split_ifs <;> rfl
    rw [MLIC.addPairs]
    revert h
    rcases c.addPair v.1 (.scal v.2) with ⟨c', _ | e⟩
    · intro h; exact (addPairs_lsz vs c').trans h
    · intro h; exact h

theorem erasePairs_lsz : ∀ (p : List (Int × Int)) (c : MLIC), (c.erasePairs p).1.lsz = c.lsz
  | [], c => rfl
  | v :: vs, c => by
    have h : (c.erase (MLIC.plain v)).1.lsz = c.lsz := by
      unfold MLIC.erase
      split_ifs <;> rfl
    rw [MLIC.erasePairs]
    revert h
    rcases c.erase (MLIC.plain v) with ⟨c', _ | e⟩
    · intro h; exact (erasePairs_lsz vs c').trans h
    · intro h; exact h

/-- The pairs of a list of indexes. -/
theorem flattenArg_append {c : MLIC} {L : Int} (hL : c.lsz = some L) {a b : List Item} (ha : a ≠ []) (hb : b ≠ []) :
    (∀ r, c.flattenArg (.list (a ++ b)) = .ok r → ∃ p q, c.flattenArg (.list a) = .ok p ∧ c.flattenArg (.list b) = .ok q ∧ r = p ++ q) ∧
    (∀ p q, c.flattenArg (.list a) = .ok p → c.flattenArg (.list b) = .ok q → c.flattenArg (.list (a ++ b)) = .ok (p ++ q)) := by
  have e : ∀ l : List Item, l ≠ [] → checkIndexMultilabel l = match allTuples l with | none => .error .typeError | some x => .ok x := by
    intro l hl
    cases l with
    | nil => exact absurd rfl hl
    | cons _ _ => rfl
  simp only [MLIC.flattenArg]
  rw [e _ (by simp [ha]), e a ha, e b hb, allTuples_append, hL]
  unfold flatten
  cases allTuples a <;> cases allTuples b <;> simp only [Option.bind_none, Option.bind_some, Option.map_none, Option.map_some]
  · simp
  · simp
  · simp
  · rename_i x y
    by_cases h0 : 0 < L
    · simp only [if_pos h0]
      rw [flattenLoop_append]
      cases flattenLoop L x <;> cases flattenLoop L y <;> simp
    · simp [h0]

/-- **C145**: the same for collections of pairs, as long as nothing is refused (a list with an illegal pair is refused as a whole, and in parts only
from the part with this pair on). -/
theorem C145_pairs {c : MLIC} {L : Int} (hL : c.lsz = some L) {a b : List Item} (ha : a ≠ []) (hb : b ≠ []) :
    ((c.update (.list (a ++ b))).2 = none ∨ (andThen (c.update (.list a)) (fun c => c.update (.list b))).2 = none →
      c.update (.list (a ++ b)) = andThen (c.update (.list a)) (fun c => c.update (.list b))) ∧
    ((c.differenceUpdate (.list (a ++ b))).2 = none ∨ (andThen (c.differenceUpdate (.list a)) (fun c => c.differenceUpdate (.list b))).2 = none →
      c.differenceUpdate (.list (a ++ b)) = andThen (c.differenceUpdate (.list a)) (fun c => c.differenceUpdate (.list b))) := by
  have hfl : ∀ {d : MLIC}, d.lsz = c.lsz → d.flattenArg (.list b) = c.flattenArg (.list b) := by
    intro d hd
    unfold MLIC.flattenArg
    rw [hd]
  obtain ⟨f1, f2⟩ := flattenArg_append hL ha hb
  constructor
  · intro h
    unfold MLIC.update MLIC.updateMany at h ⊢
    have key : ∀ p q, c.flattenArg (.list a) = .ok p → c.flattenArg (.list b) = .ok q →
        c.addPairs (p ++ q) = andThen (c.addPairs p) (fun c => match c.flattenArg (.list b) with | .error e => (c, some e) | .ok ps => c.addPairs ps) := by
      intro p q hp hq
      rw [addPairs_append]
      have hl := addPairs_lsz p c
      revert hl
      rcases c.addPairs p with ⟨d, _ | e⟩
      · intro hl
        simp only [andThen]
        rw [hfl hl, hq]
      · intro _; rfl
    cases hw : c.flattenArg (.list (a ++ b)) with
    | ok r =>
      obtain ⟨p, q, hp, hq, rfl⟩ := f1 r hw
      simp only [hw, hp]
      exact key p q hp hq
    | error e =>
      simp only [hw] at h
      rcases h with h | h
      · simp at h
      · cases hp : c.flattenArg (.list a) with
        | error e => simp [hp, andThen] at h
        | ok p =>
          simp only [hp] at h
          cases hq : c.flattenArg (.list b) with
          | ok q => rw [f2 p q hp hq] at hw; cases hw
          | error e =>
            exfalso
            have hl := addPairs_lsz p c
            revert hl h
            rcases c.addPairs p with ⟨d, _ | e⟩
            · intro h hl
              simp only [andThen, hfl hl, hq] at h
              cases h
            · intro h; simp [andThen] at h
  · intro h
    unfold MLIC.differenceUpdate MLIC.differenceMany at h ⊢
    have key : ∀ p q, c.flattenArg (.list a) = .ok p → c.flattenArg (.list b) = .ok q →
        c.erasePairs (p ++ q) = andThen (c.erasePairs p) (fun c => match c.flattenArg (.list b) with | .error e => (c, some e) | .ok ps => c.erasePairs ps) := by
      intro p q hp hq
      rw [erasePairs_append]
      have hl := erasePairs_lsz p c
      revert hl
      rcases c.erasePairs p with ⟨d, _ | e⟩
      · intro hl
        simp only [andThen]
        rw [hfl hl, hq]
      · intro _; rfl
    cases hw : c.flattenArg (.list (a ++ b)) with
    | ok r =>
      obtain ⟨p, q, hp, hq, rfl⟩ := f1 r hw
      simp only [hw, hp]
      exact key p q hp hq
    | error e =>
      simp only [hw] at h
      rcases h with h | h
      · simp at h
      · cases hp : c.flattenArg (.list a) with
        | error e => simp [hp, andThen] at h
        | ok p =>
          simp only [hp] at h
          cases hq : c.flattenArg (.list b) with
          | ok q => rw [f2 p q hp hq] at hw; cases hw
          | error e =>
            exfalso
            have hl := erasePairs_lsz p c
            revert hl h
            rcases c.erasePairs p with ⟨d, _ | e⟩
            · intro h hl
              simp only [andThen, hfl hl, hq] at h
              cases h
            · intro h; simp [andThen] at h

example : ((⟨[], some 3, false⟩ : MLIC).update (.list ([.tup (.pair 0 (.scal 1))] ++ [.tup (.all 2)]))) =
    (⟨[(0, .scal 1), (2, .scal 0), (2, .scal 1), (2, .scal 2)], some 3, false⟩, none) := by decide

/-! ## Oracles -/

section
variable {χ β : Type}

/-- **C145**: asking for a list is asking for its parts. -/
theorem C145_ask (o : Oracle χ β) (q r : List Key) : o.queryByIndex (q ++ r) = inTurn (o.queryByIndex q) (o.queryByIndex r) := by
  induction q with
  | nil => cases h : o.queryByIndex r <;> simp [Oracle.queryByIndex, inTurn, h]
  | cons k q ih =>
    rw [List.cons_append, Oracle.queryByIndex, Oracle.queryByIndex, ih]
    cases o.ask k <;> cases o.queryByIndex q <;> cases o.queryByIndex r <;> simp [inTurn]

example : Oracle.demo.queryByIndex [.num 1, .num 7, .num 1] = .ok (["z", "d", "z"], [5, 4, 5]) ∧ Oracle.demo.queryByIndex [.num 1] = .ok (["z"], [5]) ∧
    Oracle.demo.queryByIndex [.num 7, .num 1] = .ok (["d", "z"], [4, 5]) := ⟨rfl, rfl, rfl⟩

theorem queryLoop_append (o : MLOracle χ β) (r : List Ix) : ∀ q : List Ix, o.queryLoop (q ++ r) = inTurn (o.queryLoop q) (o.queryLoop r)
  | [] => by cases h : o.queryLoop r <;> simp [MLOracle.queryLoop, inTurn, h]
  | k :: q => by
    rw [List.cons_append, MLOracle.queryLoop, MLOracle.queryLoop, queryLoop_append o r q]
    cases MLOracle.labelInd o.width k with
    | error e => simp [inTurn]
    | ok is =>
      simp only
      cases o.fetch (MLOracle.ixKey k) is <;> cases o.queryLoop q <;> cases o.queryLoop r <;> simp [inTurn]

/-- **C145**: the same for the labels of examples. -/
theorem C145_ask_labels (o : MLOracle χ β) {q r : List Ix} (hq : q ≠ []) (hr : r ≠ []) :
    o.queryByIndex ((q ++ r).map .tup) = inTurn (o.queryByIndex (q.map .tup)) (o.queryByIndex (r.map .tup)) := by
  have e : ∀ l : List Ix, allTuples (l.map Item.tup) = some l := by
    intro l
    induction l with
    | nil => rfl
    | cons x l ih => simp [allTuples, ih]
  have e' : ∀ l : List Ix, l ≠ [] → checkIndexMultilabel (l.map Item.tup) = .ok l := by
    intro l hl
    unfold checkIndexMultilabel
    cases l with
    | nil => exact absurd rfl hl
    | cons x l => simp only [List.map_cons]; rw [← List.map_cons, e]
  unfold MLOracle.queryByIndex
  rw [e' _ (by simp [hq]), e' _ hq, e' _ hr]
  exact queryLoop_append o r q

theorem entries_append : ∀ {ls : List β} {is : List Key} {ls' : List β} {is' : List Key} {xs xs' : Option (List χ)} {cs cs' : Option (List ℚ)},
    is.length = ls.length → FitsCall ls.length xs → FitsCall ls.length cs → xs.isSome = xs'.isSome → cs.isSome = cs'.isSome →
    Oracle.entries (ls ++ ls') (is ++ is') (both xs xs') (both cs cs') = Oracle.entries ls is xs cs ++ Oracle.entries ls' is' xs' cs'
  | [], [], ls', is', xs, xs', cs, cs', _, hx, hc, hx', hc' => by
    have ex : both xs xs' = xs' := by
      cases xs <;> cases xs' <;> simp_all [both, FitsCall]
    have ec : both cs cs' = cs' := by
      cases cs <;> cases cs' <;> simp_all [both, FitsCall]
    rw [ex, ec]
    simp [Oracle.entries]
  | l :: ls, i :: is, ls', is', xs, xs', cs, cs', h, hx, hc, hx', hc' => by
    have key : ∀ {γ : Type} {n : Nat} {xs xs' : Option (List γ)}, FitsCall (n + 1) xs → xs.isSome = xs'.isSome →
        (both xs xs').bind List.head? = xs.bind List.head? ∧ (both xs xs').map List.tail = both (xs.map List.tail) xs' ∧ FitsCall n (xs.map List.tail) ∧
          (xs.map List.tail).isSome = xs'.isSome := by
      intro γ n xs xs' hx hs
      cases xs with
      | none => cases xs' <;> simp_all [both, FitsCall]
      | some x =>
        have := hx x rfl
        cases x with
        | nil => simp at this
        | cons a x =>
          cases xs' with
          | none => simp at hs
          | some y =>
            simp only [List.length_cons, Nat.add_right_cancel_iff] at this
            simp [both, FitsCall, this]
    obtain ⟨a1, a2, a3, a4⟩ := key hx hx'
    obtain ⟨b1, b2, b3, b4⟩ := key hc hc'
    rw [List.cons_append, List.cons_append, Oracle.entries, a1, b1, a2, b2, entries_append (by simpa using h) a3 b3 a4 b4]
    rfl
  | [], _ :: _, _, _, _, _, _, _, h, _, _, _, _ => by simp at h
  | _ :: _, [], _, _, _, _, _, _, h, _, _, _, _ => by simp at h

theorem addAllKnow_append [DecidableEq χ] (ty : β → Nat) (r : List (Oracle.Entry χ β)) : ∀ (q : List (Oracle.Entry χ β)) (o : Oracle χ β),
    o.addAll ty (q ++ r) = andThen (o.addAll ty q) (fun o => o.addAll ty r)
  | [], o => rfl
  | e :: q, o => by
    rw [List.cons_append, Oracle.addAll, Oracle.addAll]
    rcases Oracle.addOne ty o e.label e.index e.ex e.cost with ⟨o', _ | err⟩
    · exact addAllKnow_append ty r q o'
    · rfl

theorem sameLength_iff {α : Type} {n : Nat} {l : Option (List α)} : sameLength n l = true ↔ FitsCall n l := by
  cases l <;> simp [sameLength, FitsCall]

theorem fits_both {α : Type} {n m : Nat} {a b : Option (List α)} (ha : FitsCall n a) (hb : FitsCall m b) : FitsCall (n + m) (both a b) := by
  cases a <;> cases b <;> simp_all [FitsCall, both]

/-- **C145**: telling an oracle a list of entries is telling it the parts, also when an entry is refused. -/
theorem C145_add_knowledge [DecidableEq χ] (ty : β → Nat) (o : Oracle χ β) {ls ls' : List β} {is is' : List Key} {xs xs' : Option (List χ)} {cs cs' : Option (List ℚ)}
    (hi : is.length = ls.length) (hi' : is'.length = ls'.length) (hx : FitsCall ls.length xs) (hx' : FitsCall ls'.length xs')
    (hc : FitsCall ls.length cs) (hc' : FitsCall ls'.length cs') (sx : xs.isSome = xs'.isSome) (sc : cs.isSome = cs'.isSome) :
    o.addKnowledge ty (ls ++ ls') (is ++ is') (both xs xs') (both cs cs') =
      andThen (o.addKnowledge ty ls is xs cs) (fun o => o.addKnowledge ty ls' is' xs' cs') := by
  have h1 : FitsCall ls.length (some is) := by simp [FitsCall, hi]
  have h2 : FitsCall ls'.length (some is') := by simp [FitsCall, hi']
  have h3 : FitsCall (ls.length + ls'.length) (some (is ++ is')) := by simp [FitsCall, hi, hi']
  unfold Oracle.addKnowledge
  rw [List.length_append, sameLength_iff.2 h1, sameLength_iff.2 h2, sameLength_iff.2 h3, sameLength_iff.2 hx, sameLength_iff.2 hx', sameLength_iff.2 (fits_both hx hx'),
    sameLength_iff.2 hc, sameLength_iff.2 hc', sameLength_iff.2 (fits_both hc hc')]
  simp only [Bool.and_self, Bool.not_true, Bool.false_eq_true, if_false]
  rw [entries_append hi hx hc sx sc]
  exact addAllKnow_append ty _ _ o

end

/-- Two entries at once, the second of which tells more about a known index. -/
example : FitsCall 1 (some [11]) ∧ FitsCall 1 (some [(5 : ℚ)]) ∧ both (some [11]) (some [13]) = some [11, 13] ∧ (Oracle.demo.addKnowledge (fun _ => 0) ["y", "e"] [.num 1, .num 8] (some [11, 14]) (some [5, 4])).2 = none := by
  refine ⟨by simp [FitsCall], by simp [FitsCall], rfl, rfl⟩

/-! ## Several oracles -/

section
variable {β ι : Type}
open Oracles

theorem askAll_dict {o o' : Oracles β ι} (h : o'.dict = o.dict) (q : ι) (ns : List String) : o'.askAll q ns = o.askAll q ns := by
  induction ns with
  | nil => rfl
  | cons n ns ih => simp only [askAll, askOne, h, ih]

theorem oneByOne_spec (pick : List String → String) (q : ι) : ∀ (ns : List String) (o : Oracles β ι) (rs : List (Answer β)),
    o.askAll q ns = .ok rs → (∀ r ∈ rs, r.costs.regular = true) →
    (oneByOne pick q ns o).2 = .ok rs ∧ (oneByOne pick q ns o).1.dict = o.dict ∧
      (oneByOne pick q ns o).1.cost = o.cost + (rs.map (fun r => r.costs.nums.sum)).sum ∧
      ∃ hs, (oneByOne pick q ns o).1.history = o.history ++ hs ∧ hs.flatMap (fun h => h.names.zip h.results) = ns.zip rs
  | [], o, rs, h, _ => by
    simp only [askAll, Except.ok.injEq] at h
    subst h
    exact ⟨rfl, rfl, by simp [oneByOne], [], by simp [oneByOne]⟩
  | n :: ns, o, rs, h, hreg => by
    rw [askAll] at h
    cases ha : o.askOne q n with
    | error e => simp [ha] at h
    | ok a =>
      simp only [ha] at h
      cases hr : o.askAll q ns with
      | error e => simp [hr] at h
      | ok as =>
        simp only [hr, Except.ok.injEq] at h
        subst h
        have hq : o.queryFrom pick q (some n) = ({ o with history := o.history ++ [⟨[n], [a], q⟩], cost := o.cost + a.costs.nums.sum }, .ok a) := by
          simp [queryFrom, ha, Costs.npSum, hreg a (by simp)]
        obtain ⟨e1, e2, e3, hs, e4, e5⟩ := oneByOne_spec pick q ns { o with history := o.history ++ [⟨[n], [a], q⟩], cost := o.cost + a.costs.nums.sum } as
          (by rw [askAll_dict (o := o) (by rfl)]; exact hr) (fun r hr => hreg r (by simp [hr]))
        rw [oneByOne, hq]
        simp only
        revert e1 e2 e3 e4
        rcases oneByOne pick q ns { o with history := o.history ++ [⟨[n], [a], q⟩], cost := o.cost + a.costs.nums.sum } with ⟨o', _ | r⟩
        · intro e1; cases e1
        · intro e1 e2 e3 e4
          simp only at e1 e2 e3 e4 ⊢
          cases e1
          refine ⟨rfl, e2, by rw [e3]; simp [add_assoc], ⟨[n], [a], q⟩ :: hs, by rw [e4]; simp, ?_⟩
          simp [e5]

/-- **C145**: asking several oracles at once is asking them one by one: the same answers, the same total cost, the same table of what each oracle has answered
and earned. -/
theorem C145_several_oracles {o o₁ : Oracles β ι} {q : ι} {ns : List String} {rs : List (Answer β)} (pick : List String → String)
    (h : o.queryFromS q (some ns) = (o₁, .ok rs)) :
    (oneByOne pick q ns o).2 = .ok rs ∧ (oneByOne pick q ns o).1.cost = o₁.cost ∧ (oneByOne pick q ns o).1.dict = o₁.dict ∧
      ∀ n, (oneByOne pick q ns o).1.summaryOf n = o₁.summaryOf n := by
  unfold queryFromS at h
  simp only [Option.getD_some] at h
  cases ha : o.askAll q ns with
  | error e => simp [ha] at h
  | ok as =>
    simp only [ha] at h
    cases hc : npSumAll (as.map Answer.costs) with
    | error e => simp [hc] at h
    | ok c =>
      simp only [hc, Prod.mk.injEq, Except.ok.injEq] at h
      obtain ⟨rfl, rfl⟩ := h
      have hreg : (∀ r ∈ as, r.costs.regular = true) ∧ c = (as.map (fun r => r.costs.nums.sum)).sum := by
        cases as with
        | nil => simp [npSumAll] at hc; simp [hc]
        | cons a as =>
          simp only [List.map_cons, npSumAll] at hc
          split_ifs at hc with hg
          simp only [Bool.and_eq_true, List.all_eq_true, List.mem_map, forall_exists_index, and_imp, forall_apply_eq_imp_iff₂] at hg
          refine ⟨?_, ?_⟩
          · intro r hr
            rcases List.mem_cons.1 hr with rfl | hr
            · exact hg.1
            · exact (hg.2 r hr).1
          · simp only [Except.ok.injEq] at hc
            rw [← hc]
            simp [Function.comp_def]
      obtain ⟨e1, e2, e3, hs, e4, e5⟩ := oneByOne_spec pick q ns o as ha hreg.1
      refine ⟨e1, by rw [e3, hreg.2], e2, fun n => ?_⟩
      unfold summaryOf
      rw [e4]
      simp [List.flatMap_append, e5]

end

example : ∃ o₁, Oracles.demo.queryFromS 1 (some ["A", "B"]) = (o₁, .ok [⟨"a", .flat [2]⟩, ⟨"b", .flat [3]⟩]) ∧ o₁.cost = 0 + (2 + (3 + 0)) := by
  refine ⟨_, rfl, ?_⟩
  simp [Oracles.demo, Oracles.addOracle, Oracles.empty, Costs.nums]

/-! ## Repositories -/

section
variable {κ β χ : Type}

theorem repoRows_append : ∀ {ls : List β} {is : List κ} {ls' : List β} {is' : List κ} {xs xs' : Option (List χ)} {cs cs' : Option (List ℚ)},
    is.length = ls.length → FitsCall ls.length xs → FitsCall ls.length cs → xs.isSome = xs'.isSome → cs.isSome = cs'.isSome →
    repoRows (ls ++ ls') (is ++ is') (both cs cs') (both xs xs') = repoRows ls is cs xs ++ repoRows ls' is' cs' xs'
  | [], [], ls', is', xs, xs', cs, cs', _, hx, hc, hx', hc' => by
    have ex : both xs xs' = xs' := by
      cases xs <;> cases xs' <;> simp_all [both, FitsCall]
    have ec : both cs cs' = cs' := by
      cases cs <;> cases cs' <;> simp_all [both, FitsCall]
    rw [ex, ec]
    simp [repoRows]
  | l :: ls, i :: is, ls', is', xs, xs', cs, cs', h, hx, hc, hx', hc' => by
    have key : ∀ {γ : Type} {n : Nat} {xs xs' : Option (List γ)}, FitsCall (n + 1) xs → xs.isSome = xs'.isSome →
        (both xs xs').bind List.head? = xs.bind List.head? ∧ (both xs xs').map List.tail = both (xs.map List.tail) xs' ∧ FitsCall n (xs.map List.tail) ∧
          (xs.map List.tail).isSome = xs'.isSome := by
      intro γ n xs xs' hx hs
      cases xs with
      | none => cases xs' <;> simp_all [both, FitsCall]
      | some x =>
        have := hx x rfl
        cases x with
        | nil => simp at this
        | cons a x =>
          cases xs' with
          | none => simp at hs
          | some y =>
            simp only [List.length_cons, Nat.add_right_cancel_iff] at this
            simp [both, FitsCall, this]
    obtain ⟨a1, a2, a3, a4⟩ := key hx hx'
    obtain ⟨b1, b2, b3, b4⟩ := key hc hc'
    rw [List.cons_append, List.cons_append, repoRows, a1, b1, a2, b2, repoRows_append (by simpa using h) a3 b3 a4 b4]
    rfl
  | [], _ :: _, _, _, _, _, _, _, h, _, _, _, _ => by simp at h
  | _ :: _, [], _, _, _, _, _, _, h, _, _, _, _ => by simp at h

theorem oneToOne_fits {α γ : Type} {n m : Nat} {a : Option (List α)} {b : Option (List γ)} (h : m = n) (ha : FitsCall n a) (hb : FitsCall n b) :
    oneToOne [some n, some m, (a.map Arg.many).map Arg.len, (b.map Arg.many).map Arg.len] = true := by
  cases a <;> cases b <;> simp_all [oneToOne, FitsCall, Arg.len]

theorem map_toList {α : Type} (a : Option (List α)) : (a.map Arg.many).map Arg.toList = a := by cases a <;> rfl

section
variable [DecidableEq κ] [DecidableEq χ]

theorem eAdd_content (o : ERepo κ β χ) (k : κ) (b : β) (c : Option ℚ) (x : Option χ) :
    (eContent o).add k b c x = (eContent (o.add k b c x).1, (o.add k b c x).2) := by
  unfold ERepo.add
  cases h : o.hasEx <;> cases x <;> simp [eContent, ERepo.addRest, h]

theorem eAddMany_content : ∀ (r : List (κ × β × Option ℚ × Option χ)) (o : ERepo κ β χ),
    (eContent o).addMany r = (eContent (o.addMany r).1, (o.addMany r).2)
  | [], o => rfl
  | (k, b, c, x) :: r, o => by
    rw [ERepo.addMany, ERepo.addMany, eAdd_content]
    rcases o.add k b c x with ⟨o', _ | e⟩
    · exact eAddMany_content r o'
    · rfl

theorem eAddMany_append (r' : List (κ × β × Option ℚ × Option χ)) : ∀ (r : List (κ × β × Option ℚ × Option χ)) (o : ERepo κ β χ),
    o.addMany (r ++ r') = andThen (o.addMany r) (fun o => o.addMany r')
  | [], o => rfl
  | (k, b, c, x) :: r, o => by
    rw [List.cons_append, ERepo.addMany, ERepo.addMany]
    rcases o.add k b c x with ⟨o', _ | e⟩
    · exact eAddMany_append r' r o'
    · rfl

theorem eUpdate_content (o : ERepo κ β χ) {ls : List β} {is : List κ} {xs : Option (List χ)} {cs : Option (List ℚ)}
    (hi : is.length = ls.length) (hx : FitsCall ls.length xs) (hc : FitsCall ls.length cs) :
    (eContent (o.updateQuery (.many is) (.many ls) (cs.map .many) (xs.map .many)).1, (o.updateQuery (.many is) (.many ls) (cs.map .many) (xs.map .many)).2) =
      (eContent o).addMany (repoRows ls is cs xs) := by
  have h1 : oneToOne [some (Arg.many ls).len, some (Arg.many is).len, (cs.map Arg.many).map Arg.len, (xs.map Arg.many).map Arg.len] = true :=
    oneToOne_fits hi hc hx
  unfold ERepo.updateQuery
  rw [if_pos h1, map_toList, map_toList, eAddMany_content]
  simp only [Arg.toList]
  rcases o.addMany (repoRows ls is cs xs) with ⟨o', _ | e⟩ <;> rfl

/-- **C145**: an update of a repository is the updates with its parts, apart from the number of calls and the list of calls; also when an entry is refused. -/
theorem C145_repository (o : ERepo κ β χ) {ls ls' : List β} {is is' : List κ} {xs xs' : Option (List χ)} {cs cs' : Option (List ℚ)}
    (hi : is.length = ls.length) (hi' : is'.length = ls'.length) (hx : FitsCall ls.length xs) (hx' : FitsCall ls'.length xs')
    (hc : FitsCall ls.length cs) (hc' : FitsCall ls'.length cs') (sx : xs.isSome = xs'.isSome) (sc : cs.isSome = cs'.isSome) :
    let whole := o.updateQuery (.many (is ++ is')) (.many (ls ++ ls')) ((both cs cs').map .many) ((both xs xs').map .many)
    let parts := andThen (o.updateQuery (.many is) (.many ls) (cs.map .many) (xs.map .many))
      (fun o => o.updateQuery (.many is') (.many ls') (cs'.map .many) (xs'.map .many))
    eContent whole.1 = eContent parts.1 ∧ whole.2 = parts.2 := by
  intro whole parts
  have hw : (eContent whole.1, whole.2) = (eContent o).addMany (repoRows (ls ++ ls') (is ++ is') (both cs cs') (both xs xs')) :=
    eUpdate_content o (by simp [hi, hi']) (by rw [List.length_append]; exact fits_both hx hx') (by rw [List.length_append]; exact fits_both hc hc')
  rw [repoRows_append hi hx hc sx sc, eAddMany_append, ← eUpdate_content o hi hx hc] at hw
  have hp : (eContent parts.1, parts.2) = (eContent whole.1, whole.2) := by
    rw [hw]
    simp only [parts]
    rcases o.updateQuery (.many is) (.many ls) (cs.map .many) (xs.map .many) with ⟨o', _ | e⟩
    · exact eUpdate_content o' hi' hx' hc'
    · rfl
  simp only [Prod.mk.injEq] at hp
  exact ⟨hp.1.symm, hp.2.symm⟩

end

section
variable {γ : Type} [DecidableEq κ]

theorem mAdd_content [DecidableEq γ] (o : MRepo κ γ) (k : κ) (b : Lab γ) (c : Option ℚ) (x : Option (List γ)) :
    (mContent o).add b k c x = (mContent (o.add b k c x).1, (o.add b k c x).2) := by
  unfold MRepo.add
  have e : (mContent o).arr = o.arr := rfl
  rw [e]
  cases o.arr with
  | none => rfl
  | some a =>
    simp only
    split_ifs
    · rfl
    · cases a.X with
      | none => rfl
      | some xs =>
        cases x with
        | none => rfl
        | some x => simp only; split_ifs <;> rfl
    · rfl
    · rfl

theorem mAddMany_content [DecidableEq γ] : ∀ (r : List (κ × Lab γ × Option ℚ × Option (List γ))) (o : MRepo κ γ),
    (mContent o).addMany r = (mContent (o.addMany r).1, (o.addMany r).2)
  | [], o => rfl
  | (k, b, c, x) :: r, o => by
    rw [MRepo.addMany, MRepo.addMany, mAdd_content]
    rcases o.add b k c x with ⟨o', _ | e⟩
    · exact mAddMany_content r o'
    · rfl

theorem mAddMany_append [DecidableEq γ] (r' : List (κ × Lab γ × Option ℚ × Option (List γ))) : ∀ (r : List (κ × Lab γ × Option ℚ × Option (List γ))) (o : MRepo κ γ),
    o.addMany (r ++ r') = andThen (o.addMany r) (fun o => o.addMany r')
  | [], o => rfl
  | (k, b, c, x) :: r, o => by
    rw [List.cons_append, MRepo.addMany, MRepo.addMany]
    rcases o.add b k c x with ⟨o', _ | e⟩
    · exact mAddMany_append r' r o'
    · rfl

theorem mUpdate_content [DecidableEq γ] (o : MRepo κ γ) {ls : List (Lab γ)} {is : List κ} {xs : Option (List (List γ))} {cs : Option (List ℚ)}
    (hi : is.length = ls.length) (hx : FitsCall ls.length xs) (hc : FitsCall ls.length cs) :
    (mContent (o.updateQuery (.many ls) (.many is) (cs.map .many) (xs.map .many)).1, (o.updateQuery (.many ls) (.many is) (cs.map .many) (xs.map .many)).2) =
      (mContent o).addMany (repoRows ls is cs xs) := by
  have h1 : oneToOne [some (Arg.many ls).len, some (Arg.many is).len, (cs.map Arg.many).map Arg.len, (xs.map Arg.many).map Arg.len] = true :=
    oneToOne_fits hi hc hx
  unfold MRepo.updateQuery
  rw [if_pos h1, map_toList, map_toList, mAddMany_content]
  simp only [Arg.toList]
  rcases o.addMany (repoRows ls is cs xs) with ⟨o', _ | e⟩ <;> rfl

/-- **C145**: the same for the matrix repository. -/
theorem C145_matrix_repository [DecidableEq γ] (o : MRepo κ γ) {ls ls' : List (Lab γ)} {is is' : List κ} {xs xs' : Option (List (List γ))} {cs cs' : Option (List ℚ)}
    (hi : is.length = ls.length) (hi' : is'.length = ls'.length) (hx : FitsCall ls.length xs) (hx' : FitsCall ls'.length xs')
    (hc : FitsCall ls.length cs) (hc' : FitsCall ls'.length cs') (sx : xs.isSome = xs'.isSome) (sc : cs.isSome = cs'.isSome) :
    let whole := o.updateQuery (.many (ls ++ ls')) (.many (is ++ is')) ((both cs cs').map .many) ((both xs xs').map .many)
    let parts := andThen (o.updateQuery (.many ls) (.many is) (cs.map .many) (xs.map .many))
      (fun o => o.updateQuery (.many ls') (.many is') (cs'.map .many) (xs'.map .many))
    mContent whole.1 = mContent parts.1 ∧ whole.2 = parts.2 := by
  intro whole parts
  have hw : (mContent whole.1, whole.2) = (mContent o).addMany (repoRows (ls ++ ls') (is ++ is') (both cs cs') (both xs xs')) :=
    mUpdate_content o (by simp [hi, hi']) (by rw [List.length_append]; exact fits_both hx hx') (by rw [List.length_append]; exact fits_both hc hc')
  rw [repoRows_append hi hx hc sx sc, mAddMany_append, ← mUpdate_content o hi hx hc] at hw
  have hp : (mContent parts.1, parts.2) = (mContent whole.1, whole.2) := by
    rw [hw]
    simp only [parts]
    rcases o.updateQuery (.many ls) (.many is) (cs.map .many) (xs.map .many) with ⟨o', _ | e⟩
    · exact mUpdate_content o' hi' hx' hc'
    · rfl
  simp only [Prod.mk.injEq] at hp
  exact ⟨hp.1.symm, hp.2.symm⟩

/-- Three rows: one and then two. -/
example (o : MRepo Nat Nat) (h : MRepo.new [.sc 1] [11] (some [[1, 1]]) = .ok o) :
    (o.updateQuery (.many [.sc 2, .sc 3]) (.many [12, 13]) (some (.many [1, 2])) (some (.many [[2, 2], [3, 3]]))).2 = none := by
  cases h
  rfl

end
end

/-! ## Saved states -/

theorem record_select (s : List Val) (perf : Obj (List Val)) (c : Option (List ℚ)) : StateIO.entryGet (record s perf c) "select_index" = .ok (.sel s) := by
  cases c <;> simp [record, StateIO.entryGet, State.getValue, State.new, dictSet, dictGet]

theorem record_len (s : List Val) (perf : Obj (List Val)) (c : Option (List ℚ)) : StateIO.entryLen icOps (record s perf c) = .ok s.length := by
  simp [StateIO.entryLen, record_select, icOps]

theorem record_cost (s : List Val) (perf : Obj (List Val)) (c : Option (List ℚ)) : StateIO.entryCost (record s perf c) = .ok ((c.getD []).sum) := by
  cases c <;> simp [record, StateIO.entryCost, StateIO.entryHas, StateIO.entryGet, State.getValue, State.keys, State.new, dictSet, dictGet]

theorem replay_parts (s t : List Val) (perf perf' perf'' : Obj (List Val)) (c d e : Option (List ℚ)) (post : List (Entry (List Val))) (L U : IC) :
    StateIO.replay icOps (record (s ++ t) perf e :: post) L U = StateIO.replay icOps (record s perf' c :: record t perf'' d :: post) L U := by
  simp only [StateIO.replay, record_select]
  simp only [icOps, C145_difference, C145_update]
  rcases L.update (.many s) with ⟨L', _ | e⟩ <;> rfl

theorem replay_append (l l' : List (Entry (List Val))) (h : ∀ L U, StateIO.replay icOps l L U = StateIO.replay icOps l' L U) :
    ∀ (pre : List (Entry (List Val))) (L U : IC), StateIO.replay icOps (pre ++ l) L U = StateIO.replay icOps (pre ++ l') L U
  | [], L, U => h L U
  | a :: pre, L, U => by
    have ih := replay_append l l' h pre
    simp only [List.cons_append, StateIO.replay, ih]

theorem totals_append (l l' : List (Entry (List Val))) (h : StateIO.totals icOps l = StateIO.totals icOps l') :
    ∀ pre : List (Entry (List Val)), StateIO.totals icOps (pre ++ l) = StateIO.totals icOps (pre ++ l')
  | [] => h
  | a :: pre => by
    have ih := totals_append l l' h pre
    simp only [List.cons_append, StateIO.totals, ih]

/-- **C145**: a state with what was selected in two rounds, and the costs of both, instead of two states, anywhere in the record of an experiment: the same workspace,
and the same total cost and number of labels, both when states are added and when the totals are computed again. -/
theorem C145_states (o : StateIO IC (List Val)) (pre post : List (Entry (List Val))) (s t : List Val) (perf perf' perf'' : Obj (List Val))
    {c d : Option (List ℚ)} (hcd : c.isSome = d.isSome) :
    let one : StateIO IC (List Val) := { o with states := pre ++ record (s ++ t) perf (both c d) :: post }
    let two : StateIO IC (List Val) := { o with states := pre ++ record s perf' c :: record t perf'' d :: post }
    one.getWorkspace icOps none = two.getWorkspace icOps none ∧
    ((one.refreshInfo icOps).2 = (two.refreshInfo icOps).2 ∧ (one.refreshInfo icOps).1.cost = (two.refreshInfo icOps).1.cost ∧
      (one.refreshInfo icOps).1.numq = (two.refreshInfo icOps).1.numq) ∧
    ((o.addState icOps (record (s ++ t) perf (both c d))).2 = none ∧
      (andThen (o.addState icOps (record s perf' c)) (fun o => o.addState icOps (record t perf'' d))).2 = none ∧
      (o.addState icOps (record (s ++ t) perf (both c d))).1.cost =
        (andThen (o.addState icOps (record s perf' c)) (fun o => o.addState icOps (record t perf'' d))).1.cost ∧
      (o.addState icOps (record (s ++ t) perf (both c d))).1.numq =
        (andThen (o.addState icOps (record s perf' c)) (fun o => o.addState icOps (record t perf'' d))).1.numq) := by
  have hsum : ((both c d).getD []).sum = (c.getD []).sum + (d.getD []).sum := by
    cases c <;> cases d <;> simp_all [both]
  have hadd : ∀ (o : StateIO IC (List Val)) (s : List Val) (perf : Obj (List Val)) (c : Option (List ℚ)),
      o.addState icOps (record s perf c) = ({ o with states := o.states ++ [record s perf c], cost := o.cost + (c.getD []).sum, numq := o.numq + s.length }, none) := by
    intro o s perf c
    unfold StateIO.addState
    rw [record_cost, record_len]
    rfl
  refine ⟨?_, ?_, ?_⟩
  · simp only [StateIO.getWorkspace, Option.getD_none, Int.natCast_nonneg, le_refl, and_self, if_true, Int.toNat_natCast, List.take_length]
    exact replay_append _ _ (replay_parts s t perf perf' perf'' c d (both c d) post) pre _ _
  · have ht : StateIO.totals icOps (record (s ++ t) perf (both c d) :: post) = StateIO.totals icOps (record s perf' c :: record t perf'' d :: post) := by
      simp only [StateIO.totals, record_len, record_cost]
      cases StateIO.totals icOps post with
      | error e => rfl
      | ok r => simp [hsum, add_assoc]
    simp only [StateIO.refreshInfo, totals_append _ _ ht pre]
    cases StateIO.totals icOps (pre ++ record s perf' c :: record t perf'' d :: post) <;> simp
  · simp only [hadd, andThen, hsum, List.length_append, true_and]
    exact ⟨by ring, by ring⟩

/-- Two rounds of one and two labels. -/
example : ({ StateIO.demo with states := [record [⟨true, .int 3⟩, ⟨true, .int 2⟩, ⟨true, .int 4⟩] (.arr [1 / 2]) (some [2, 1, 1])] } : StateIO IC (List Val)).getWorkspace icOps none =
    StateIO.demo.getWorkspace icOps none := by decide

end Alipy.Calls
