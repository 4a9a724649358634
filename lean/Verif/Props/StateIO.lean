import Verif.Proof.StateIO
import Mathlib.Data.List.Perm.Subperm
import Mathlib.Tactic.NormNum

/-! # C16 - C20: `StateIO` -/
namespace Alipy
open Spec
namespace StateIO
variable {κ ε σ α : Type} {ops : CollOps κ ε σ} {elems : κ → List α} {means : σ → α → Prop} {goodL goodU : κ → Prop}
  {legal : σ → Prop}

/-! ## C16 -/

/-- The workspace after the queries `sel`: labelled = initial plus selected, unlabelled = initial minus selected. -/
def IsWorkspace (elems : κ → List α) (means : σ → α → Prop) (L0 U0 : κ) (sel : List σ) (w : κ × κ) : Prop :=
  (elems w.1).Nodup ∧ (elems w.2).Nodup ∧
  (∀ a, a ∈ elems w.1 ↔ a ∈ elems L0 ∨ ∃ x ∈ sel, means x a) ∧
  ∀ a, a ∈ elems w.2 ↔ a ∈ elems U0 ∧ ¬ ∃ x ∈ sel, means x a

/-- C16 for any container obeying the set law: `get_workspace(k)` is the workspace after the first `k` recorded selections,
`get_workspace()` after all, and a `k` outside of `[0, number of states]` is refused. -/
theorem C16_workspace_is_replay (law : SetLaw ops elems means goodL goodU legal) (s : StateIO κ σ) (sel : List σ)
    (hrec : Recorded s.states sel) (hlegal : ∀ x ∈ sel, legal x) (hL : goodL s.initL) (hU : goodU s.initU) :
    (∀ k : Nat, k ≤ s.states.length →
      ∃ w, getWorkspace ops s (some k) = .ok w ∧ IsWorkspace elems means s.initL s.initU (sel.take k) w) ∧
    (∃ w, getWorkspace ops s none = .ok w ∧ IsWorkspace elems means s.initL s.initU sel w) ∧
    ∀ k : Int, k < 0 ∨ (s.states.length : Int) < k → getWorkspace ops s (some k) = .error .assertionError := by
  have hk : ∀ k : Nat, k ≤ s.states.length →
      ∃ w, getWorkspace ops s (some k) = .ok w ∧ IsWorkspace elems means s.initL s.initU (sel.take k) w := by
    intro k hk
    obtain ⟨L, U, e, g1, g2, m1, m2⟩ := replay_ok law (recorded_take hrec k) s.initL s.initU
      (fun x hx => hlegal x (List.mem_of_mem_take hx)) hL hU
    refine ⟨(L, U), ?_, law.nodupL _ g1, law.nodupU _ g2, m1, m2⟩
    simp [getWorkspace, hk, e]
  refine ⟨hk, ?_, ?_⟩
  · obtain ⟨w, e, h⟩ := hk s.states.length (Nat.le_refl _)
    refine ⟨w, by simpa [getWorkspace] using e, ?_⟩
    rwa [recorded_length hrec, List.take_length] at h
  · intro k hk
    have : ¬ (0 ≤ k ∧ k ≤ (s.states.length : Int)) := by omega
    simp [getWorkspace, this]

/-- C16 for `IndexCollection`s, spelled out: `v in labelled` and `v in unlabelled` after the first `k` queries. -/
theorem C16_workspace_single_label (t : Ty) (s : StateIO IC (List Val)) (sel : List (List Val))
    (hrec : Recorded s.states sel) (htype : ∀ x ∈ sel, ∀ v ∈ x, isInstance v.item t = true)
    (hL : IC.Reachable s.initL) (ht : s.initL.ety = some t) (hU : IC.Reachable s.initU) (k : Nat) (hk : k ≤ s.states.length) :
    ∃ L U, getWorkspace icOps s (some k) = .ok (L, U) ∧
      (∀ v, pyMem v L.inner = true ↔ pyMem v s.initL.inner = true ∨ pyMem v (sel.take k).flatten = true) ∧
      ∀ v, pyMem v U.inner = true ↔ pyMem v s.initU.inner = true ∧ pyMem v (sel.take k).flatten = false := by
  obtain ⟨⟨L, U⟩, e, -, -, h1, h2⟩ := (C16_workspace_is_replay (icLaw t) s sel hrec htype ⟨hL, ht⟩ hU).1 k hk
  refine ⟨L, U, e, fun v => ?_, fun v => ?_⟩
  · rw [IC.pyMem_iff, IC.pyMem_iff, IC.pyMem_iff]
    refine (h1 v.key).trans (or_congr Iff.rfl ?_)
    simp only [List.mem_map, List.mem_flatten]
    constructor
    · rintro ⟨x, hx, w, hw, he⟩; exact ⟨w, ⟨x, hx, hw⟩, he⟩
    · rintro ⟨w, ⟨x, hx, hw⟩, he⟩; exact ⟨x, hx, w, hw, he⟩
  · rw [← Bool.not_eq_true, IC.pyMem_iff, IC.pyMem_iff, IC.pyMem_iff]
    refine (h2 v.key).trans (and_congr Iff.rfl (not_congr ?_))
    simp only [List.mem_map, List.mem_flatten]
    constructor
    · rintro ⟨x, hx, w, hw, he⟩; exact ⟨w, ⟨x, hx, hw⟩, he⟩
    · rintro ⟨w, ⟨x, hx, hw⟩, he⟩; exact ⟨x, hx, w, hw, he⟩

/-- C16 for multi-label collections with `n` labels: the workspace in terms of the denoted instance-label pairs. -/
theorem C16_workspace_multi_label (n : Int) (h0 : 0 < n) (s : StateIO MLIC (List Item ⊕ MLIC)) (sel : List (List Ix))
    (hrec : Recorded s.states (sel.map (fun ixs => .inl (ixs.map .tup)))) (hne : ∀ x ∈ sel, x ≠ [])
    (hlegal : ∀ x ∈ sel, ∀ ix ∈ x, Legal n ix)
    (hL : mlGood n s.initL) (hU : mlGood n s.initU) (k : Nat) (hk : k ≤ s.states.length) :
    ∃ L U, getWorkspace mlOps s (some k) = .ok (L, U) ∧
      (∀ p : Int × Int, (p.1, Second.scal p.2) ∈ L.inner ↔
        (p.1, Second.scal p.2) ∈ s.initL.inner ∨ DenotesAny n (sel.take k).flatten p) ∧
      ∀ p : Int × Int, (p.1, Second.scal p.2) ∈ U.inner ↔
        (p.1, Second.scal p.2) ∈ s.initU.inner ∧ ¬ DenotesAny n (sel.take k).flatten p := by
  obtain ⟨⟨L, U⟩, e, -, -, h1, h2⟩ := (C16_workspace_is_replay (mlLaw n h0) s _ hrec (by
    intro x hx
    obtain ⟨ixs, hi, rfl⟩ := List.mem_map.1 hx
    exact ⟨ixs, ⟨rfl, hne _ hi⟩, hlegal _ hi⟩) hL hU).1 k hk
  have key : ∀ p : Int × Int, (∃ x ∈ (sel.map (fun ixs => (Sum.inl (ixs.map Item.tup) : List Item ⊕ MLIC))).take k,
      mlMeans n x (p.1, Second.scal p.2)) ↔ DenotesAny n (sel.take k).flatten p := by
    intro p
    rw [← List.map_take]
    constructor
    · rintro ⟨x, hx, ixs, hi, q, hq, ix, hix, hd⟩
      obtain ⟨y, hy, rfl⟩ := List.mem_map.1 hx
      have : y = ixs := mlTuples_unique (s := .inl (y.map Item.tup)) ⟨rfl, hne _ (List.mem_of_mem_take hy)⟩ hi
      subst this
      simp only [Prod.mk.injEq, Second.scal.injEq] at hq
      have : p = q := Prod.ext hq.1 hq.2
      rw [this]
      exact ⟨ix, List.mem_flatten.2 ⟨y, hy, hix⟩, hd⟩
    · rintro ⟨ix, hix, hd⟩
      obtain ⟨y, hy, hiy⟩ := List.mem_flatten.1 hix
      exact ⟨.inl (y.map Item.tup), List.mem_map.2 ⟨y, hy, rfl⟩, y, ⟨rfl, hne _ (List.mem_of_mem_take hy)⟩, p, rfl, ix, hiy, hd⟩
  refine ⟨L, U, e, fun p => ?_, fun p => ?_⟩
  · rw [← key]; exact h1 _
  · rw [← key]; exact h2 _

/-- A short real history: two states added to a StateIO with `IndexCollection`s. -/
def demo : StateIO IC (List Val) :=
  let s := StateIO.new (IC.mk' [⟨false, .int 0⟩, ⟨false, .int 1⟩]) (IC.mk' [⟨false, .int 2⟩, ⟨false, .int 3⟩, ⟨false, .int 4⟩])
  let s := (addState icOps s (.st (State.new icOps (.inl ⟨true, .int 3⟩) (.arr [1 / 2]) none (some (.arr [2]))))).1
  (addState icOps s (.st (State.new icOps (.inr [⟨true, .int 2⟩, ⟨true, .int 4⟩]) (.arr [3 / 4]) none (some (.arr [1, 1]))))).1

theorem demo_recorded : Recorded demo.states [[⟨true, .int 3⟩], [⟨true, .int 2⟩, ⟨true, .int 4⟩]] :=
  .cons ⟨_, rfl, rfl⟩ (.cons ⟨_, rfl, rfl⟩ .nil)

example : (∀ x ∈ ([[⟨true, .int 3⟩], [⟨true, .int 2⟩, ⟨true, .int 4⟩]] : List (List Val)), ∀ v ∈ x,
    isInstance v.item ⟨false, .int⟩ = true) ∧ IC.Reachable demo.initL ∧ demo.initL.ety = some ⟨false, .int⟩ ∧
    IC.Reachable demo.initU := 
  ⟨by decide, IC.Reachable.construct [⟨false, .int 0⟩, ⟨false, .int 1⟩], rfl,
    IC.Reachable.construct [⟨false, .int 2⟩, ⟨false, .int 3⟩, ⟨false, .int 4⟩]⟩

example : getWorkspace icOps demo (some 1) = .ok
    (⟨[⟨true, .int 0⟩, ⟨true, .int 1⟩, ⟨false, .int 3⟩], some ⟨false, .int⟩⟩,
     ⟨[⟨true, .int 2⟩, ⟨true, .int 4⟩], some ⟨false, .int⟩⟩) := by decide

/-! ## C17 -/

/-- C17 (disjointness): initially disjoint sets are disjoint at every iteration, whatever was selected. -/
theorem C17_always_disjoint (law : SetLaw ops elems means goodL goodU legal) (s : StateIO κ σ) (sel : List σ)
    (hrec : Recorded s.states sel) (hlegal : ∀ x ∈ sel, legal x) (hL : goodL s.initL) (hU : goodU s.initU)
    (hdis : ∀ a, a ∈ elems s.initL → a ∉ elems s.initU) (k : Nat) (hk : k ≤ s.states.length) :
    ∃ L U, getWorkspace ops s (some k) = .ok (L, U) ∧ ∀ a, a ∈ elems L → a ∉ elems U := by
  obtain ⟨⟨L, U⟩, e, -, -, h1, h2⟩ := (C16_workspace_is_replay law s sel hrec hlegal hL hU).1 k hk
  refine ⟨L, U, e, fun a ha hu => ?_⟩
  rcases (h1 a).1 ha with h | h
  · exact hdis a h ((h2 a).1 hu).1
  · exact ((h2 a).1 hu).2 h

/-- C17 (conservation): if moreover each query was made from the set unlabelled at that time, then at every iteration the
union of the two sets is the initial union, the two sizes add up to the initial total, and no example is ever selected again
(nor was it labelled initially). -/
theorem C17_nothing_lost_nothing_twice (law : SetLaw ops elems means goodL goodU legal) (s : StateIO κ σ) (sel : List σ)
    (hrec : Recorded s.states sel) (hlegal : ∀ x ∈ sel, legal x) (hL : goodL s.initL) (hU : goodU s.initU)
    (hdis : ∀ a, a ∈ elems s.initL → a ∉ elems s.initU)
    (hq : ∀ (k : Nat) x, sel[k]? = some x → ∀ a, means x a → ∃ L U, getWorkspace ops s (some k) = .ok (L, U) ∧ a ∈ elems U)
    (k : Nat) (hk : k ≤ s.states.length) :
    ∃ L U, getWorkspace ops s (some k) = .ok (L, U) ∧
      (∀ a, a ∈ elems L ∨ a ∈ elems U ↔ a ∈ elems s.initL ∨ a ∈ elems s.initU) ∧
      ops.len L + ops.len U = ops.len s.initL + ops.len s.initU ∧
      ∀ x, sel[k]? = some x → ∀ a, means x a → a ∉ elems s.initL ∧ ∀ (j : Nat) y, j < k → sel[j]? = some y → ¬ means y a := by
  have hws := (C16_workspace_is_replay law s sel hrec hlegal hL hU).1
  obtain ⟨⟨L, U⟩, e, n1, n2, h1, h2⟩ := hws k hk
  have hsub : ∀ (j : Nat) x, sel[j]? = some x → ∀ a, means x a → a ∈ elems s.initU ∧ ¬ ∃ y ∈ sel.take j, means y a := by
    intro j x hx a ha
    have hj : j ≤ s.states.length := by
      rw [recorded_length hrec]
      have := (List.getElem?_eq_some_iff.1 hx).1
      omega
    obtain ⟨L', U', e', hm⟩ := hq j x hx a ha
    obtain ⟨⟨L2, U2⟩, e2, -, -, -, h4⟩ := hws j hj
    rw [e'] at e2
    cases e2
    exact (h4 a).1 hm
  have hunion : ∀ a, a ∈ elems L ∨ a ∈ elems U ↔ a ∈ elems s.initL ∨ a ∈ elems s.initU := by
    intro a
    rw [h1, h2]
    by_cases hs : ∃ x ∈ sel.take k, means x a
    · obtain ⟨x, hx, hm⟩ := hs
      obtain ⟨j, hj⟩ := List.mem_iff_getElem?.1 (List.mem_of_mem_take hx)
      have := (hsub j x hj a hm).1
      constructor
      · intro _; exact .inr this
      · intro _; exact .inl (.inr ⟨x, hx, hm⟩)
    · simp [hs]
  refine ⟨L, U, e, hunion, ?_, ?_⟩
  · rw [law.len, law.len, law.len, law.len, ← List.length_append, ← List.length_append]
    apply List.Perm.length_eq
    have hd' : ∀ a, a ∈ elems L → a ∉ elems U := by
      intro a ha hu
      rcases (h1 a).1 ha with h | h
      · exact hdis a h ((h2 a).1 hu).1
      · exact ((h2 a).1 hu).2 h
    apply (List.perm_ext_iff_of_nodup _ _).2
    · intro a; simpa using hunion a
    · rw [List.nodup_append]
      refine ⟨n1, n2, ?_⟩
      rintro a ha b hb rfl
      exact hd' a ha hb
    · rw [List.nodup_append]
      refine ⟨law.nodupL _ hL, law.nodupU _ hU, ?_⟩
      rintro a ha b hb rfl
      exact hdis a ha hb
  · intro x hx a ha
    obtain ⟨h3, h4⟩ := hsub k x hx a ha
    refine ⟨fun h => hdis a h h3, fun j y hj hy hm => h4 ⟨y, ?_, hm⟩⟩
    rw [List.mem_iff_getElem?]
    exact ⟨j, by rw [List.getElem?_take]; simp [hj, hy]⟩

/-- C17 for `IndexCollection`s (`keys` are the indexes up to `==`). -/
theorem C17_single_label (t : Ty) (s : StateIO IC (List Val)) (sel : List (List Val))
    (hrec : Recorded s.states sel) (htype : ∀ x ∈ sel, ∀ v ∈ x, isInstance v.item t = true)
    (hL : IC.Reachable s.initL) (ht : s.initL.ety = some t) (hU : IC.Reachable s.initU)
    (hdis : ∀ a, a ∈ s.initL.keys → a ∉ s.initU.keys)
    (hq : ∀ (k : Nat) x, sel[k]? = some x → ∀ v ∈ x, ∃ L U, getWorkspace icOps s (some k) = .ok (L, U) ∧ pyMem v U.inner = true)
    (k : Nat) (hk : k ≤ s.states.length) :
    ∃ L U, getWorkspace icOps s (some k) = .ok (L, U) ∧ (∀ a, a ∈ L.keys → a ∉ U.keys) ∧
      (L.keys ++ U.keys).Perm (s.initL.keys ++ s.initU.keys) := by
  have law := icLaw t
  obtain ⟨L, U, e, h1, -, -⟩ := C17_nothing_lost_nothing_twice law s sel hrec htype ⟨hL, ht⟩ hU hdis (by
    intro k x hx a ha
    obtain ⟨v, hv, rfl⟩ := List.mem_map.1 ha
    obtain ⟨L, U, e, hm⟩ := hq k x hx v hv
    exact ⟨L, U, e, (IC.pyMem_iff _ _).1 hm⟩) k hk
  obtain ⟨L', U', e', h2⟩ := C17_always_disjoint law s sel hrec htype ⟨hL, ht⟩ hU hdis k hk
  obtain ⟨⟨L2, U2⟩, e2, n1, n2, -⟩ := (C16_workspace_is_replay law s sel hrec htype ⟨hL, ht⟩ hU).1 k hk
  rw [e] at e' e2
  cases e'; cases e2
  refine ⟨L, U, e, h2, ?_⟩
  apply (List.perm_ext_iff_of_nodup _ _).2
  · intro a; simpa using h1 a
  · rw [List.nodup_append]
    refine ⟨n1, n2, ?_⟩
    rintro a ha b hb rfl
    exact h2 a ha hb
  · rw [List.nodup_append]
    refine ⟨IC.reachable_nodup hL, IC.reachable_nodup hU, ?_⟩
    rintro a ha b hb rfl
    exact hdis a ha hb

example : (∀ a, a ∈ demo.initL.keys → a ∉ demo.initU.keys) ∧
    ∀ v ∈ ([⟨true, .int 2⟩, ⟨true, .int 4⟩] : List Val), ∃ L U, getWorkspace icOps demo (some 1) = .ok (L, U) ∧
      pyMem v U.inner = true :=
  ⟨by decide, fun v hv => ⟨_, _, rfl, by revert v; decide⟩⟩

/-! ## C18 -/

/-- Add several states one after the other. -/
def addStates (ops : CollOps κ ε σ) (s : StateIO κ σ) (es : List (Entry σ)) : StateIO κ σ :=
  es.foldl (fun s e => (addState ops s e).1) s

theorem addStates_of {es : List (Entry σ)} {cs : List ℚ} {ns : List Nat} (hc : List.Forall₂ HasCost es cs)
    (hn : List.Forall₂ (HasSize ops) es ns) : ∀ s : StateIO κ σ,
    addStates ops s es = { s with states := s.states ++ es, cost := s.cost + cs.sum, numq := s.numq + ns.sum } := by
  induction hc generalizing ns with
  | nil => intro s; cases hn; simp [addStates]
  | @cons e c es cs he _ ih =>
    intro s
    cases hn with
    | @cons _ n _ ns hn1 hn2 =>
      have := ih hn2 (addState ops s e).1
      rw [addState_of he hn1] at this
      simp only [addStates, List.foldl_cons, addState_of he hn1] at this ⊢
      rw [this]
      simp [add_assoc]

/-- C18, what holds: `recover_workspace(k)` returns the workspace after `k` queries and leaves exactly the first `k` states, so
all later workspaces are those of an object to which only these were added. Missing: the reported cost and number of queried
data keep their old values (`C18_stale_totals_violation`), until `refresh_info()` is called (`C18_recover_then_refresh`). -/
theorem C18_recover_workspace_partial (s : StateIO κ σ) (k : Nat) (hk : k ≤ s.states.length) (w : κ × κ)
    (hw : getWorkspace ops s (some k) = .ok w) :
    ∃ s', recoverWorkspace ops s (some k) = (s', .ok w) ∧ s'.states = s.states.take k ∧ s'.initL = s.initL ∧
      s'.initU = s.initU ∧ getWorkspace ops s' none = .ok w ∧
      ∀ j : Nat, j ≤ k → getWorkspace ops s' (some j) = getWorkspace ops s (some j) := by
  have hr : replay ops (s.states.take k) s.initL s.initU = .ok w := by simpa [getWorkspace, hk] using hw
  refine ⟨{ s with states := s.states.take k }, ?_, rfl, rfl, rfl, ?_, ?_⟩
  · simp [recoverWorkspace, hk, hr]
  · have hmin : min k s.states.length = k := Nat.min_eq_left hk
    simp only [getWorkspace, List.length_take, Option.getD_none, hmin, Int.toNat_natCast, List.take_take, Nat.min_self, hr]
    simp
  · intro j hj
    have h1 : j ≤ s.states.length := by omega
    simp [getWorkspace, h1, List.take_take, hj]

/-- C18: a recovery followed by `refresh_info()` gives exactly the object (states, totals) to which only the first `k` states
were ever added; so continuing from it is the same. -/
theorem C18_recover_then_refresh (s : StateIO κ σ) (k : Nat) (hk : k ≤ s.states.length) (w : κ × κ)
    (hw : getWorkspace ops s (some k) = .ok w) (cs : List ℚ) (ns : List Nat)
    (hc : List.Forall₂ HasCost (s.states.take k) cs) (hn : List.Forall₂ (HasSize ops) (s.states.take k) ns) :
    (refreshInfo ops (recoverWorkspace ops s (some k)).1) =
      ({ addStates ops (StateIO.new s.initL s.initU) (s.states.take k) with batch := s.batch }, none) := by
  have hr : replay ops (s.states.take k) s.initL s.initU = .ok w := by simpa [getWorkspace, hk] using hw
  rw [addStates_of hc hn]
  simp [recoverWorkspace, hk, hr, refreshInfo, totals_of hc hn, StateIO.new]

/-- C18, negative: after `recover_workspace(k)` the reported totals are those before the call, hence wrong whenever the dropped
states had a cost or selected something. -/
theorem C18_stale_totals_violation (L U : κ) (es : List (Entry σ)) (cs : List ℚ) (ns : List Nat)
    (hc : List.Forall₂ HasCost es cs) (hn : List.Forall₂ (HasSize ops) es ns) (k : Nat)
    (w : κ × κ) (hw : getWorkspace ops (addStates ops (StateIO.new L U) es) (some k) = .ok w)
    (hk : k ≤ es.length) (hdrop : (cs.drop k).sum ≠ 0 ∨ (ns.drop k).sum ≠ 0) :
    let s' := (recoverWorkspace ops (addStates ops (StateIO.new L U) es) (some k)).1
    let fresh := addStates ops (StateIO.new L U) (es.take k)
    s'.states = fresh.states ∧ (s'.cost ≠ fresh.cost ∨ s'.numq ≠ fresh.numq) := by
  have hc' := List.forall₂_take k hc
  have hn' := List.forall₂_take k hn
  intro s' fresh
  have hs' : s' = { addStates ops (StateIO.new L U) es with states := es.take k } := by
    have hlen : (addStates ops (StateIO.new L U) es).states = es := by rw [addStates_of hc hn]; simp [StateIO.new]
    have hk' : k ≤ (addStates ops (StateIO.new L U) es).states.length := by rw [hlen]; exact hk
    have hr : replay ops ((addStates ops (StateIO.new L U) es).states.take k) (addStates ops (StateIO.new L U) es).initL
        (addStates ops (StateIO.new L U) es).initU = .ok w := by
      simpa [getWorkspace, hk'] using hw
    simp only [s', recoverWorkspace, Option.getD_some]
    rw [if_pos ⟨by omega, by omega⟩]
    simp only [Int.toNat_natCast, hr]
    rw [hlen]
  have hf : fresh = addStates ops (StateIO.new L U) (es.take k) := rfl
  rw [hs', hf, addStates_of hc hn, addStates_of hc' hn']
  refine ⟨by simp [StateIO.new], ?_⟩
  simp only [StateIO.new]
  rcases hdrop with h | h
  · left
    have := List.sum_append (l₁ := cs.take k) (l₂ := cs.drop k)
    rw [List.take_append_drop] at this
    rw [this]
    intro heq
    apply h
    linarith
  · right
    have := List.sum_append (l₁ := ns.take k) (l₂ := ns.drop k)
    rw [List.take_append_drop] at this
    rw [this]
    omega

theorem demo_costs : List.Forall₂ HasCost demo.states [2, 2] :=
  .cons ⟨_, rfl, .inl ⟨[2], rfl, by norm_num⟩⟩ (.cons ⟨_, rfl, .inl ⟨[1, 1], rfl, by norm_num⟩⟩ .nil)

theorem demo_sizes : List.Forall₂ (HasSize icOps) demo.states [1, 2] :=
  .cons ⟨_, _, rfl, rfl, rfl⟩ (.cons ⟨_, _, rfl, rfl, rfl⟩ .nil)

example : demo = addStates icOps (StateIO.new demo.initL demo.initU) demo.states := rfl

example : (∃ w, getWorkspace icOps demo (some 1) = .ok w) ∧ (([2, 2] : List ℚ).drop 1).sum ≠ 0 := ⟨⟨_, rfl⟩, by norm_num⟩

/-! ## C19 -/

/-- The reported totals are the sums over the held states. -/
def InSync (ops : CollOps κ ε σ) (s : StateIO κ σ) : Prop :=
  ∃ cs ns, List.Forall₂ HasCost s.states cs ∧ List.Forall₂ (HasSize ops) s.states ns ∧ s.cost = cs.sum ∧ s.numq = ns.sum

/-- All histories of `add_state`, `refresh_info`, `check_batch_size` (and the reading methods) on a new object. -/
inductive GrowReachable (ops : CollOps κ ε σ) : StateIO κ σ → Prop where
  | new (L U : κ) : GrowReachable ops (StateIO.new L U)
  | add {s : StateIO κ σ} (e : Entry σ) : (∃ c, HasCost e c) → (∃ n, HasSize ops e n) → GrowReachable ops s →
      GrowReachable ops (addState ops s e).1
  | refresh {s : StateIO κ σ} : GrowReachable ops s → GrowReachable ops (refreshInfo ops s).1
  | check {s : StateIO κ σ} : GrowReachable ops s → GrowReachable ops (checkBatchSize s).1

/-- C19, for all histories that only add states: the totals are in sync. Missing: `pop`, `recover_workspace`, changes of a held
state, and adding a dict leave stale totals (the violation theorems below). -/
theorem C19_totals_in_sync_partial (s : StateIO κ σ) (h : GrowReachable ops s) : InSync ops s := by
  induction h with
  | new L U => exact ⟨[], [], .nil, .nil, rfl, rfl⟩
  | @add s e hc hn _ ih =>
    obtain ⟨c, hc⟩ := hc
    obtain ⟨n, hn⟩ := hn
    obtain ⟨cs, ns, h1, h2, h3, h4⟩ := ih
    rw [addState_of hc hn]
    refine ⟨cs ++ [c], ns ++ [n], ?_, ?_, by simp [h3], by simp [h4]⟩
    · exact List.rel_append h1 (.cons hc .nil)
    · exact List.rel_append h2 (.cons hn .nil)
  | @refresh s _ ih =>
    obtain ⟨cs, ns, h1, h2, h3, h4⟩ := ih
    rw [refreshInfo, totals_of h1 h2]
    exact ⟨cs, ns, h1, h2, rfl, rfl⟩
  | @check s _ ih =>
    simp only [checkBatchSize]
    split
    · exact ih
    · split
      · exact ih
      · exact ih

/-- C19: after `refresh_info()` the totals are in sync whatever happened before. -/
theorem C19_refresh_restores (s : StateIO κ σ) (cs : List ℚ) (ns : List Nat) (hc : List.Forall₂ HasCost s.states cs)
    (hn : List.Forall₂ (HasSize ops) s.states ns) :
    (refreshInfo ops s).2 = none ∧ (refreshInfo ops s).1.states = s.states ∧ InSync ops (refreshInfo ops s).1 := by
  rw [refreshInfo, totals_of hc hn]
  exact ⟨rfl, rfl, cs, ns, hc, hn, rfl, rfl⟩

theorem hasCost_unique {e : Entry σ} {c d : ℚ} (h1 : HasCost e c) (h2 : HasCost e d) : c = d := by
  have := (entryCost_of h1).symm.trans (entryCost_of h2)
  cases this; rfl

theorem hasCosts_unique {es : List (Entry σ)} {cs ds : List ℚ} (h1 : List.Forall₂ HasCost es cs)
    (h2 : List.Forall₂ HasCost es ds) : cs = ds := by
  induction h1 generalizing ds with
  | nil => cases h2; rfl
  | cons h _ ih =>
    cases h2 with
    | cons h' h2 => rw [hasCost_unique h h', ih h2]

theorem forall₂_eraseIdx {β γ : Type} {R : β → γ → Prop} {l : List β} {m : List γ} (h : List.Forall₂ R l m) :
    ∀ i, List.Forall₂ R (l.eraseIdx i) (m.eraseIdx i) := by
  induction h with
  | nil => intro i; simp
  | cons hr ht ih =>
    intro i
    cases i with
    | zero => simpa using ht
    | succ i => simpa using ⟨hr, ih i⟩

theorem sum_eraseIdx (l : List ℚ) : ∀ (i : Nat) (h : i < l.length), l.sum = l[i] + (l.eraseIdx i).sum := by
  induction l with
  | nil => intro i h; simp at h
  | cons a r ih =>
    intro i h
    cases i with
    | zero => simp
    | succ i =>
      have := ih i (by simpa using h)
      rw [List.sum_cons, this, List.getElem_cons_succ, List.eraseIdx_cons_succ, List.sum_cons]
      ring

/-- C19, negative: removing a state with a non-zero cost by `pop(i)` always leaves the totals out of sync. -/
theorem C19_pop_violation (s : StateIO κ σ) (hs : InSync ops s) (i : Int) (e : Entry σ) (c : ℚ)
    (hpop : (s.pop (some i)).2 = .ok e) (hc : HasCost e c) (h0 : c ≠ 0) : ¬ InSync ops (s.pop (some i)).1 := by
  obtain ⟨cs, ns, h1, h2, h3, h4⟩ := hs
  simp only [pop] at hpop ⊢
  generalize (if i < 0 then i + (s.states.length : Int) else i) = j at hpop ⊢
  split at hpop
  · rename_i hj
    rw [if_pos hj]
    cases hg : s.states[j.toNat]? with
    | none => simp [hg] at hpop
    | some e' =>
      simp only [hg, Except.ok.injEq] at hpop ⊢
      subst hpop
      rintro ⟨cs', ns', g1, -, g3, -⟩
      simp only at g1 g3
      have := hasCosts_unique g1 (forall₂_eraseIdx h1 j.toNat)
      subst this
      have hlt : j.toNat < s.states.length := (List.getElem?_eq_some_iff.1 hg).1
      have hlt' : j.toNat < cs.length := by rw [← List.Forall₂.length_eq h1]; exact hlt
      have hcj : HasCost s.states[j.toNat] cs[j.toNat] := by
        have := List.Forall₂.get h1 hlt hlt'
        simpa using this
      have he : s.states[j.toNat] = e' := by
        have := (List.getElem?_eq_some_iff.1 hg).2; exact this
      rw [he] at hcj
      have hcc := hasCost_unique hc hcj
      have hsum : cs.sum = cs[j.toNat] + (cs.eraseIdx j.toNat).sum := sum_eraseIdx cs _ hlt'
      rw [h3, hsum] at g3
      apply h0
      rw [hcc]
      linarith
  · simp at hpop

/-- C19, negative: a cost attached to (or changed in) a held state, `saver[i].add_element('cost', c)`, is not counted. -/
theorem C19_late_cost_violation (s : StateIO κ σ) (hs : InSync ops s) (i : Nat) (st : State σ) (hi : s.states[i]? = some (.st st))
    (xs : List ℚ) (hne : ¬ HasCost (.st st) xs.sum) :
    ¬ InSync ops (s.mutate i (.add "cost" (.arr xs))).1 := by
  obtain ⟨cs, ns, h1, h2, h3, h4⟩ := hs
  rintro ⟨cs', ns', g1, -, g3, -⟩
  simp only [mutate, hi, State.step] at g1 g3
  have hlt : i < s.states.length := (List.getElem?_eq_some_iff.1 hi).1
  have hlt' : i < cs.length := by rw [← List.Forall₂.length_eq h1]; exact hlt
  have hcost : HasCost (.st (st.addElement "cost" (.arr xs)) : Entry σ) xs.sum :=
    ⟨_, rfl, .inl ⟨xs, by simp [State.addElement, State.getValue, dictGet_dictSet], rfl⟩⟩
  have hset : List.Forall₂ HasCost (s.states.set i (.st (st.addElement "cost" (.arr xs)))) (cs.set i xs.sum) := by
    clear g1 g3 h3 hi hlt hlt' h2
    generalize s.states = es at h1
    induction h1 generalizing i with
    | nil => simp
    | cons hr ht ih =>
      cases i with
      | zero => exact .cons hcost ht
      | succ i => exact .cons hr (ih i)
  have := hasCosts_unique g1 hset
  subst this
  have hold : HasCost (.st st : Entry σ) cs[i] := by
    have := List.Forall₂.get h1 hlt hlt'
    have he : s.states[i] = .st st := (List.getElem?_eq_some_iff.1 hi).2
    simpa [he] using this
  have e1 := sum_eraseIdx cs i hlt'
  have e2 := sum_eraseIdx (cs.set i xs.sum) i (by simpa using hlt')
  rw [List.eraseIdx_set_eq, List.getElem_set_self] at e2
  have : xs.sum = cs[i] := by rw [h3, e1, e2] at g3; linarith
  rw [this] at hne
  exact hne hold

/-- C19, negative: a dict with the documented keys passed to `add_state` is appended, but the call fails, and from then on the
workspace cannot be computed any more. -/
theorem C19_dict_state_violation (s : StateIO κ σ) (d : List (String × Obj σ))
    (hd : ∀ k ∈ ["select_index", "queried_info", "performance"], k ∈ d.map Prod.fst) :
    (addState ops s (.dict d)).2 = some .attributeError ∧ (addState ops s (.dict d)).1.states = s.states ++ [.dict d] ∧
      ∀ w, getWorkspace ops (addState ops s (.dict d)).1 none ≠ .ok w := by
  have hall : (["select_index", "queried_info", "performance"].all (fun k => decide (k ∈ d.map Prod.fst))) = true := by
    rw [List.all_eq_true]; intro k hk; simpa only [decide_eq_true_eq] using hd k hk
  have hst : (addState ops s (.dict d)).1.states = s.states ++ [.dict d] ∧
      (addState ops s (.dict d)).2 = some .attributeError ∧ (addState ops s (.dict d)).1.initL = s.initL ∧
      (addState ops s (.dict d)).1.initU = s.initU := by
    simp only [addState, hall, entryCost, entryLen, entryGet]
    by_cases hc : entryHas (.dict d : Entry σ) "cost" = true
    · simp [hc]
    · simp [hc]
  refine ⟨hst.2.1, hst.1, fun w hw => ?_⟩
  simp only [getWorkspace, Option.getD_none, hst.1] at hw
  rw [if_pos ⟨by omega, by omega⟩] at hw
  simp only [Int.toNat_natCast, List.take_length] at hw
  have hfail : ∀ (es : List (Entry σ)) (L U : κ), ∀ w, replay ops (es ++ [.dict d]) L U ≠ .ok w := by
    intro es
    induction es with
    | nil => intro L U w h; simp [replay, entryGet] at h
    | cons e es ih =>
      intro L U w h
      simp only [List.cons_append, replay] at h
      split at h
      · cases h
      · split at h
        · cases h
        · split at h
          · cases h
          · exact ih _ _ w h
      · cases h
  exact hfail _ _ _ w hw

example : GrowReachable icOps demo :=
  .add _ ⟨_, ⟨_, rfl, .inl ⟨_, rfl, rfl⟩⟩⟩ ⟨_, ⟨_, _, rfl, rfl, rfl⟩⟩
    (.add _ ⟨_, ⟨_, rfl, .inl ⟨_, rfl, rfl⟩⟩⟩ ⟨_, ⟨_, _, rfl, rfl, rfl⟩⟩ (.new _ _))

example : ∃ e, (demo.pop (some (-1))).2 = .ok e ∧ HasCost e 2 := ⟨_, rfl, ⟨_, rfl, .inl ⟨[1, 1], rfl, by norm_num⟩⟩⟩

/-! ## C20 -/

theorem batches_of (ss : List (State σ)) : batches (ss.map Entry.st) = .ok (ss.map State.batch) := by
  induction ss with
  | nil => rfl
  | cons a r ih => simp [batches, ih]

theorem eraseDups_singleton_iff (l : List Nat) : (∃ b, l.eraseDups = [b]) ↔ l ≠ [] ∧ ∀ x ∈ l, ∀ y ∈ l, x = y := by
  constructor
  · rintro ⟨b, h⟩
    constructor
    · rintro rfl; simp at h
    · have : ∀ x ∈ l, x = b := by
        intro x hx
        have : x ∈ l.eraseDups := List.mem_eraseDups.2 hx
        rw [h] at this; simpa using this
      intro x hx y hy; rw [this x hx, this y hy]
  · rintro ⟨hne, hall⟩
    cases l with
    | nil => exact absurd rfl hne
    | cons a r =>
      refine ⟨a, ?_⟩
      rw [List.eraseDups_cons]
      have : r.filter (fun b => !b == a) = [] := by
        rw [List.filter_eq_nil_iff]
        intro x hx
        have := hall x (by simp [hx]) a (by simp)
        simp [this]
      rw [this]; simp

/-- C20, what holds: the answer is True exactly if there are at least two states and all *but the last* have one batch size; so
for two or more states of one batch size the answer is right. Missing: the last state is ignored and a single state gives
False (the two violation theorems). -/
theorem C20_check_batch_size_partial (s : StateIO κ σ) (ss : List (State σ)) (hs : s.states = ss.map Entry.st) :
    (∃ b, (checkBatchSize s).2 = .ok b ∧
      (b = true ↔ 2 ≤ ss.length ∧ ∀ x ∈ ss.dropLast, ∀ y ∈ ss.dropLast, x.batch = y.batch)) ∧
    (2 ≤ ss.length → (∀ x ∈ ss, ∀ y ∈ ss, x.batch = y.batch) → (checkBatchSize s).2 = .ok true) := by
  have hb : batches (s.states.take (s.states.length - 1)) = .ok (ss.dropLast.map State.batch) := by
    rw [hs, List.length_map, ← List.map_take, ← List.dropLast_eq_take, batches_of]
  have hiff : (checkBatchSize s).2 = .ok true ∨ (checkBatchSize s).2 = .ok false := by
    simp only [checkBatchSize, hb]; split <;> simp
  have hmain : (checkBatchSize s).2 = .ok true ↔ 2 ≤ ss.length ∧ ∀ x ∈ ss.dropLast, ∀ y ∈ ss.dropLast, x.batch = y.batch := by
    have h1 := eraseDups_singleton_iff (ss.dropLast.map State.batch)
    have h2 : (checkBatchSize s).2 = .ok true ↔ ∃ b, (ss.dropLast.map State.batch).eraseDups = [b] := by
      simp only [checkBatchSize, hb]
      constructor
      · intro h
        split at h
        · rename_i b hb'; exact ⟨b, hb'⟩
        · simp at h
      · rintro ⟨b, hb'⟩
        rw [hb']
    rw [h2, h1]
    have hlen : ss.dropLast.map State.batch ≠ [] ↔ 2 ≤ ss.length := by
      rw [← List.length_pos_iff, List.length_map, List.length_dropLast]; omega
    rw [hlen]
    simp only [List.forall_mem_map]
  refine ⟨?_, fun h2 hall => hmain.2 ⟨h2, fun x hx y hy => hall x ((List.dropLast_sublist _).subset hx) y ((List.dropLast_sublist _).subset hy)⟩⟩
  rcases hiff with h | h
  · exact ⟨true, h, by rw [← hmain]; simp [h]⟩
  · exact ⟨false, h, by rw [← hmain]; simp [h]⟩

/-- C20, negative: with a single state the answer is False although all (one) batch sizes agree. -/
theorem C20_single_state_violation (s : StateIO κ σ) (st : State σ) (hs : s.states = [.st st]) :
    (checkBatchSize s).2 = .ok false := by
  simp [checkBatchSize, hs, batches]

/-- C20, negative: a last state with another batch size goes unnoticed. -/
theorem C20_last_state_ignored_violation (s : StateIO κ σ) (ss : List (State σ)) (last : State σ) (b : Nat)
    (hs : s.states = (ss ++ [last]).map Entry.st) (hne : ss ≠ []) (hb : ∀ x ∈ ss, x.batch = b) (hl : last.batch ≠ b) :
    (checkBatchSize s).2 = .ok true ∧ ∃ x ∈ ss ++ [last], ∃ y ∈ ss ++ [last], x.batch ≠ y.batch := by
  obtain ⟨⟨c, hc, hiff⟩, -⟩ := C20_check_batch_size_partial s _ hs
  have : c = true := by
    rw [hiff]
    have := List.length_pos_iff.2 hne
    refine ⟨by simp; omega, ?_⟩
    rw [List.dropLast_concat]
    intro x hx y hy; rw [hb x hx, hb y hy]
  refine ⟨by rw [hc, this], ?_⟩
  obtain ⟨x, hx⟩ := List.exists_mem_of_ne_nil _ hne
  exact ⟨x, by simp [hx], last, by simp, by rw [hb x hx]; exact hl.symm⟩

example : (checkBatchSize demo).2 = .ok true ∧ demo.states = ([] ++ demo.states) := ⟨rfl, rfl⟩

end StateIO
end Alipy
