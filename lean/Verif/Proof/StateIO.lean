import Verif.Spec.Workspace
import Verif.Props.MultiLabel
import Verif.Props.IndexCollection
import Verif.Props.State

namespace Alipy
open Spec

/-! ## The two containers satisfy the set law -/

theorem ic_addAll_ok {t : Ty} : ∀ (vs : List Val) (c : IC), c.ety = some t → (∀ v ∈ vs, isInstance v.item t = true) →
    (c.addAll vs).2 = none ∧ (c.addAll vs).1.ety = some t
  | [], c, h, _ => ⟨rfl, h⟩
  | v :: vs, c, h, hv => by
    have h1 : isInstance v.item t = true := hv v (by simp)
    have hadd : (c.add v).2 = none ∧ (c.add v).1.ety = some t := by
      unfold IC.add
      simp only [h, h1]
      by_cases hm : pyMem v.item c.inner = true
      · simp [hm, h]
      · simp [hm, h]
    unfold IC.addAll
    generalize hc : c.add v = r at hadd
    obtain ⟨c', o⟩ := r
    obtain ⟨rfl, h2⟩ := hadd
    exact ic_addAll_ok vs c' h2 (fun w hw => hv w (by simp [hw]))

/-- `IndexCollection` with element type `t`: `update` is union and `difference_update` difference, for selections whose
members have that type. -/
theorem icLaw (t : Ty) : SetLaw icOps IC.keys (fun vs k => k ∈ vs.map Val.key) (fun c => IC.Reachable c ∧ c.ety = some t)
    IC.Reachable (fun vs => ∀ v ∈ vs, isInstance v.item t = true) where
  nodupL c h := IC.reachable_nodup h.1
  nodupU c h := IC.reachable_nodup h
  len c := by simp [icOps, IC.keys]
  update c x h hx := by
    obtain ⟨h1, h2⟩ := ic_addAll_ok x c h.2 hx
    refine ⟨(c.addAll x).1, ?_, ⟨IC.Reachable.step (.update (.many x)) h.1, h2⟩, fun a => ?_⟩
    · exact Prod.ext rfl h1
    · rw [IC.addAll_keys_ok x c (IC.reachable_nodup h.1) h1]
      simp
  diff c x h hx := by
    refine ⟨_, rfl, IC.Reachable.step (.differenceUpdate (.many x)) h, fun a => ?_⟩
    change a ∈ (c.discardAll x).keys ↔ _
    rw [IC.discardAll_keys x c (IC.reachable_nodup h)]
    simp

/-- The index tuples a multi-label selection stands for. -/
def mlTuples : List Item ⊕ MLIC → List Ix → Prop
  | .inl items, ixs => items = ixs.map .tup ∧ ixs ≠ []
  | .inr d, ixs => ixs = d.inner.map (fun q => .pair q.1 q.2)

/-- The pairs a multi-label selection means, with `L` labels. -/
def mlMeans (L : Int) (s : List Item ⊕ MLIC) (q : Int × Second) : Prop :=
  ∃ ixs, mlTuples s ixs ∧ ∃ p, q = (p.1, .scal p.2) ∧ DenotesAny L ixs p

theorem mlTuples_unique {s : List Item ⊕ MLIC} {a b : List Ix} (ha : mlTuples s a) (hb : mlTuples s b) : a = b := by
  cases s with
  | inl items =>
    have := ha.1.symm.trans hb.1
    exact List.map_injective_iff.2 (fun x y h => by cases h; rfl) this
  | inr d => exact (show a = _ from ha).trans (show b = _ from hb).symm

def mlGood (L : Int) (c : MLIC) : Prop := MLIC.TameReachable c ∧ c.lsz = some L ∧ c.isList = false

/-- `MultiLabelIndexCollection` with `L` labels: the same law, for selections of legal indexes. -/
theorem mlLaw (L : Int) (h0 : 0 < L) : SetLaw mlOps MLIC.inner (mlMeans L) (mlGood L) (mlGood L)
    (fun s => ∃ ixs, mlTuples s ixs ∧ ∀ ix ∈ ixs, Legal L ix) where
  nodupL c h := (MLIC.tame_inv h.1).nodup
  nodupU c h := (MLIC.tame_inv h.1).nodup
  len c := rfl
  update c x h hx := by
    obtain ⟨ht, hl, hs⟩ := h
    obtain ⟨ixs, hixs, hlegal⟩ := hx
    have key : ∀ a, MLIC.Stands a ixs → (∀ e h ls, a ≠ .tuple (.pair e (.iter h ls))) →
        MLIC.TameOp (.update a) → ∃ c', c.update a = (c', none) ∧ mlGood L c' ∧
          ∀ q, q ∈ c'.inner ↔ q ∈ c.inner ∨ mlMeans L x q := by
      intro a h1 h2 h3
      obtain ⟨c', e, e1, e2, m⟩ := MLIC.C08_update_is_union_partial c L hl h0 hs a ixs h1 hlegal h2
      refine ⟨c', e, ⟨?_, e1.trans hl, e2⟩, fun q => ?_⟩
      · have := MLIC.TameReachable.step (.update a) h3 ht
        simp only [MLIC.step, e] at this
        exact this
      · rw [m]
        constructor
        · rintro (h | ⟨p, hp, hd⟩)
          · exact .inl h
          · exact .inr ⟨ixs, hixs, p, hp, hd⟩
        · rintro (h | ⟨ixs', hi', p, hp, hd⟩)
          · exact .inl h
          · rw [mlTuples_unique hi' hixs] at hd
            exact .inr ⟨p, hp, hd⟩
    cases x with
    | inl items =>
      exact key (.list items) (.inl ⟨by rw [hixs.1], hixs.2⟩) (by simp) trivial
    | inr d => exact key (.coll d) (.inr (.inl ⟨d, rfl, hixs⟩)) (by simp) trivial
  diff c x h hx := by
    obtain ⟨ht, hl, hs⟩ := h
    obtain ⟨ixs, hixs, hlegal⟩ := hx
    have key : ∀ a, MLIC.Stands a ixs → (∀ e h ls, a ≠ .tuple (.pair e (.iter h ls))) →
        ∃ c', c.differenceUpdate a = (c', none) ∧ mlGood L c' ∧
          ∀ q, q ∈ c'.inner ↔ q ∈ c.inner ∧ ¬ mlMeans L x q := by
      intro a h1 h2
      obtain ⟨c', e, e1, e2, m⟩ := MLIC.C08_difference_is_set_difference_partial c L hl h0 hs a ixs h1 hlegal h2
      refine ⟨c', e, ⟨?_, e1.trans hl, e2⟩, fun q => ?_⟩
      · have := MLIC.TameReachable.step (.differenceUpdate a) (by cases a <;> trivial) ht
        simp only [MLIC.step, e] at this
        exact this
      · rw [m]
        have : mlMeans L x q ↔ ∃ p : Int × Int, q = (p.1, .scal p.2) ∧ DenotesAny L ixs p := by
          constructor
          · rintro ⟨ixs', hi', p, hp, hd⟩
            rw [mlTuples_unique hi' hixs] at hd
            exact ⟨p, hp, hd⟩
          · rintro ⟨p, hp, hd⟩
            exact ⟨ixs, hixs, p, hp, hd⟩
        rw [this]
    cases x with
    | inl items =>
      exact key (.list items) (.inl ⟨by rw [hixs.1], hixs.2⟩) (by simp)
    | inr d => exact key (.coll d) (.inr (.inl ⟨d, rfl, hixs⟩)) (by simp)

/-! ## Replay -/
namespace StateIO
variable {κ ε σ α : Type} {ops : CollOps κ ε σ} {elems : κ → List α} {means : σ → α → Prop} {goodL goodU : κ → Prop}
  {legal : σ → Prop}

theorem entryGet_recorded {e : Entry σ} {x : σ} (h : ∃ st, e = .st st ∧ st.getValue "select_index" = .ok (.sel x)) :
    entryGet e "select_index" = .ok (.sel x) := by
  obtain ⟨st, rfl, h⟩ := h; exact h

theorem replay_ok (law : SetLaw ops elems means goodL goodU legal) {es : List (Entry σ)} {sel : List σ}
    (h : Recorded es sel) : ∀ (L U : κ), (∀ x ∈ sel, legal x) → goodL L → goodU U →
    ∃ L' U', replay ops es L U = .ok (L', U') ∧ goodL L' ∧ goodU U' ∧
      (∀ a, a ∈ elems L' ↔ a ∈ elems L ∨ ∃ x ∈ sel, means x a) ∧
      ∀ a, a ∈ elems U' ↔ a ∈ elems U ∧ ¬ ∃ x ∈ sel, means x a := by
  induction h with
  | nil => intro L U _ hL hU; exact ⟨L, U, rfl, hL, hU, by simp, by simp⟩
  | @cons e x es sel he _ ih =>
    intro L U hx hL hU
    obtain ⟨U1, e1, g1, m1⟩ := law.diff U x hU (hx x (by simp))
    obtain ⟨L1, e2, g2, m2⟩ := law.update L x hL (hx x (by simp))
    obtain ⟨L', U', e3, g3, g4, m3, m4⟩ := ih L1 U1 (fun y hy => hx y (by simp [hy])) g2 g1
    refine ⟨L', U', ?_, g3, g4, fun a => ?_, fun a => ?_⟩
    · simp [replay, entryGet_recorded he, e1, e2, e3]
    · rw [m3, m2]; simp [or_assoc]
    · rw [m4, m1]; simp [and_assoc]

theorem recorded_take {es : List (Entry σ)} {sel : List σ} (h : Recorded es sel) (k : Nat) :
    Recorded (es.take k) (sel.take k) := List.forall₂_take k h

theorem recorded_length {es : List (Entry σ)} {sel : List σ} (h : Recorded es sel) : es.length = sel.length :=
  List.Forall₂.length_eq h

theorem entryCost_of {e : Entry σ} {c : ℚ} (h : HasCost e c) : entryCost e = .ok c := by
  obtain ⟨st, rfl, ⟨xs, h, rfl⟩ | ⟨h, rfl⟩⟩ := h
  · have : "cost" ∈ st.keys := by
      by_contra hn
      rw [State.getValue, (State.dictGet_none_iff _ _).2 hn] at h
      cases h
    simp [entryCost, entryHas, entryGet, this, h]
  · have : "cost" ∉ st.keys := by
      intro hn
      simp only [State.getValue] at h
      split at h
      · rename_i hg; exact absurd hn ((State.dictGet_none_iff _ _).1 hg)
      · cases h
    simp [entryCost, entryHas, this]

theorem entryLen_of {e : Entry σ} {n : Nat} (h : HasSize ops e n) : entryLen ops e = .ok n := by
  obtain ⟨st, x, rfl, h, rfl⟩ := h
  simp [entryLen, entryGet, h]

theorem totals_of {es : List (Entry σ)} {cs : List ℚ} {ns : List Nat} (hc : List.Forall₂ HasCost es cs)
    (hn : List.Forall₂ (HasSize ops) es ns) : totals ops es = .ok (ns.sum, cs.sum) := by
  induction hc generalizing ns with
  | nil => cases hn; rfl
  | @cons e c es cs he _ ih =>
    cases hn with
    | @cons _ n _ ns hn1 hn2 =>
      simp [totals, entryLen_of hn1, entryCost_of he, ih hn2]

theorem addState_of {s : StateIO κ σ} {e : Entry σ} {c : ℚ} {n : Nat} (hc : HasCost e c) (hn : HasSize ops e n) :
    addState ops s e = ({ s with states := s.states ++ [e], cost := s.cost + c, numq := s.numq + n }, none) := by
  obtain ⟨st, rfl, -⟩ := id hc
  simp [addState, entryCost_of hc, entryLen_of hn]

end StateIO
end Alipy
