import Verif.Props.Stopping
import Verif.Props.MultiLabelMask

namespace Alipy
open Spec
open StateIO (getWorkspace replay addState)

/-- Integer indexes as the elements of a Python list (`np = false`) or of a numpy array (`np = true`). -/
def idx (np : Bool) (l : List Int) : List Val := l.map (fun i => ⟨np, .int i⟩)

theorem coerce_idx (np : Bool) (l : List Int) : IC.coerce (idx np l) = l.map Base.int := by
  unfold IC.coerce idx
  cases l with
  | nil => simp
  | cons a r => simp [Base.kind, Base.key, Function.comp_def]

theorem mem_mk'_idx (np : Bool) (l : List Int) (k : Key) : k ∈ (IC.mk' (idx np l)).keys ↔ ∃ i ∈ l, k = .num i := by
  have h := IC.mem_uniq_key (IC.coerce (idx np l)) k
  rw [coerce_idx] at h
  rw [IC.keys, IC.mk'_inner, IC.npUnique, coerce_idx, List.map_map]
  have : (Val.key ∘ fun b => (⟨true, b⟩ : Val)) = Base.key := rfl
  rw [this, ((sortBy_perm _ _).map _).mem_iff, h]
  simp only [List.map_map, List.mem_map, Function.comp_apply, Base.key]
  constructor
  · rintro ⟨i, hi, rfl⟩; exact ⟨i, hi, rfl⟩
  · rintro ⟨i, hi, rfl⟩; exact ⟨i, hi, rfl⟩

theorem ety_mk'_idx (np : Bool) (l : List Int) (h : l ≠ []) : (IC.mk' (idx np l)).ety = some ⟨false, .int⟩ := by
  obtain ⟨i, hi⟩ := List.exists_mem_of_ne_nil _ h
  have hm := (mem_mk'_idx np l (.num i)).2 ⟨i, hi, rfl⟩
  have hinner := IC.mk'_inner (idx np l)
  have hint : ∀ v ∈ IC.npUnique (idx np l), v.base.kind = .int := by
    intro v hv
    simp only [IC.npUnique, List.mem_map] at hv
    obtain ⟨b, hb, rfl⟩ := hv
    have := IC.mem_uniq ((sortBy_perm _ _).mem_iff.1 hb)
    rw [coerce_idx] at this
    obtain ⟨j, -, rfl⟩ := List.mem_map.1 this
    rfl
  rw [IC.keys, hinner] at hm
  unfold IC.mk'
  split
  · rename_i he; rw [he] at hm; simp at hm
  · rename_i v vs he
    have := hint v (by rw [he]; simp)
    simp [Val.item, Val.ty, this]

theorem isInstance_int_of_key {v : Val} {i : Int} (h : v.key = .num i) : isInstance v.item ⟨false, .int⟩ = true := by
  obtain ⟨np, b⟩ := v
  cases b <;> simp [Val.key, Base.key, isInstance, Val.item, Base.kind] at h ⊢

namespace StateIO
variable {κ ε σ : Type} {ops : CollOps κ ε σ}

theorem replay_snoc (es : List (Entry σ)) (e : Entry σ) (x : σ) (he : entryGet e "select_index" = .ok (.sel x)) :
    ∀ (L U L' U' L2 U2 : κ), replay ops es L U = .ok (L', U') → ops.diff U' x = (U2, none) → ops.update L' x = (L2, none) →
    replay ops (es ++ [e]) L U = .ok (L2, U2) := by
  induction es with
  | nil =>
    intro L U L' U' L2 U2 h1 h2 h3
    simp only [replay, Except.ok.injEq, Prod.mk.injEq] at h1
    obtain ⟨rfl, rfl⟩ := h1
    simp [replay, he, h2, h3]
  | cons a es ih =>
    intro L U L' U' L2 U2 h1 h2 h3
    simp only [List.cons_append, replay] at h1 ⊢
    split at h1
    · cases h1
    · split at h1
      · cases h1
      · split at h1
        · cases h1
        · exact ih _ _ _ _ _ _ h1 h2 h3
    · cases h1

theorem getWorkspace_append (s : StateIO κ σ) (e : Entry σ) (s' : StateIO κ σ) (hs : s'.states = s.states ++ [e])
    (h1 : s'.initL = s.initL) (h2 : s'.initU = s.initU) (k : Nat) (hk : k ≤ s.states.length) :
    getWorkspace ops s' (some k) = getWorkspace ops s (some k) := by
  have hk' : k ≤ s.states.length + 1 := by omega
  simp only [getWorkspace, Option.getD_some, hs, h1, h2, List.length_append, List.length_singleton]
  rw [if_pos ⟨by omega, by push_cast; omega⟩, if_pos ⟨by omega, by omega⟩]
  simp only [Int.toNat_natCast]
  rw [List.take_append_of_le_length hk]

end StateIO

/-- The invariant of the main loop. -/
structure LoopInv (clock : Nat → ℚ) (stop0 : Stop) (v : ℚ) (L0 U0 : IC) (i : Nat) (s : LoopState) : Prop where
  initL : s.saver.initL = L0
  initU : s.saver.initU = U0
  ws : getWorkspace icOps s.saver none = .ok (s.L, s.U)
  iter : s.saver.states.length = i
  cost : s.saver.cost = 0
  recd : ∃ sel, Recorded s.saver.states sel ∧ (∀ x ∈ sel, x ≠ [] ∧ ∀ w ∈ x, isInstance w.item ⟨false, .int⟩ = true) ∧
    ∀ (k : Nat) x, sel[k]? = some x → ∀ w ∈ x, ∃ L U, getWorkspace icOps s.saver (some k) = .ok (L, U) ∧ pyMem w U.inner = true
  reachL : IC.Reachable s.L
  reachU : IC.Reachable s.U
  ety : s.L.ety = some ⟨false, .int⟩
  sub : ∀ k ∈ s.U.keys, k ∈ U0.keys
  crit : s.stop.crit = stop0.crit
  value : s.stop.value = stop0.value
  startTime : s.stop.startTime = stop0.startTime
  unlabel : s.stop.unlabel = 0 ↔ s.U.inner = []
  sIter : stop0.crit = .numOfQueries → s.stop.iter = s.saver.states.length
  sAccum : stop0.crit = .costLimit → s.stop.accum = 0
  sPercent : stop0.crit = .percentOfUnlabel →
    s.stop.percent = ((U0.inner.length : ℚ) - (s.U.inner.length : ℚ)) / (U0.inner.length : ℚ)
  early : ∀ k : Nat, k < s.saver.states.length → ∃ L U, getWorkspace icOps s.saver (some k) = .ok (L, U) ∧ U.inner ≠ [] ∧
    ¬ BoundReached stop0.crit v k 0 U0.inner.length U.inner.length (clock k - stop0.startTime)

theorem loop_decision {clock : Nat → ℚ} {stop0 : Stop} {v : ℚ} {L0 U0 : IC} {i : Nat} {s : LoopState} (h : LoopInv clock stop0 v L0 U0 i s)
    (hv : stop0.crit ≠ .none → stop0.value = some v) (hp : stop0.crit = .percentOfUnlabel → 0 ≤ v ∧ v ≤ 1) (now : ℚ) :
    ∃ b, s.stop.isStop now = .ok b ∧ (b = true ↔ s.U.inner = [] ∨
      BoundReached stop0.crit v s.saver.states.length 0 U0.inner.length s.U.inner.length (now - stop0.startTime)) := by
  by_cases h0 : s.U.inner = []
  · exact ⟨true, by simp [Stop.isStop, h.unlabel.2 h0], by simp [h0]⟩
  · have h0' : s.stop.unlabel ≠ 0 := fun e => h0 (h.unlabel.1 e)
    cases hc : stop0.crit with
    | none => exact ⟨false, by simp [Stop.isStop, h0', h.crit, hc], by simp [BoundReached, h0]⟩
    | numOfQueries =>
      have := hv (by simp [hc])
      exact ⟨_, by simp only [Stop.isStop, h0', h.crit, hc, h.value, this, h.sIter hc, if_false]; rfl, by simp [BoundReached, h0]⟩
    | costLimit =>
      have := hv (by simp [hc])
      exact ⟨_, by simp only [Stop.isStop, h0', h.crit, hc, h.value, this, h.sAccum hc, if_false]; rfl, by simp [BoundReached, h0]⟩
    | percentOfUnlabel =>
      have := hv (by simp [hc])
      obtain ⟨hp1, hp2⟩ := hp hc
      have hp3 : ¬ (1 < v ∨ v < 0) := by rw [not_or]; exact ⟨not_lt.2 hp2, not_lt.2 hp1⟩
      exact ⟨_, by simp only [Stop.isStop, h0', h.crit, hc, h.value, this, h.sPercent hc, hp3, if_false]; rfl, by simp [BoundReached, h0]⟩
    | timeLimit =>
      have := hv (by simp [hc])
      exact ⟨_, by simp only [Stop.isStop, h0', h.crit, hc, h.value, this, h.startTime, if_false]; rfl, by simp [BoundReached, h0]⟩

theorem key_of_pyMem {v : Val} {l : List Val} (h : pyMem v l = true) : v.key ∈ l.map Val.key := (IC.pyMem_iff v l).1 h

/-- What the theorems assume of a query strategy: asked with a non-empty unlabelled set it returns a non-empty list of its
members. -/
def GoodStrategy (strat : Nat → IC → IC → Except PyErr (List Val)) : Prop :=
  ∀ i L U, U.inner ≠ [] → ∃ sel, strat i L U = .ok sel ∧ sel ≠ [] ∧ ∀ v ∈ sel, pyMem v U.inner = true

theorem loop_body_step {env : LoopEnv} (hst : GoodStrategy env.strat) {stop0 : Stop} {v : ℚ} {L0 U0 : IC} {i : Nat} {s : LoopState}
    (h : LoopInv env.clock stop0 v L0 U0 i s) (hnum : ∀ k ∈ U0.keys, ∃ j, k = .num j) (hU0 : U0.inner ≠ [])
    (hne : s.U.inner ≠ [])
    (hnot : ¬ BoundReached stop0.crit v s.saver.states.length 0 U0.inner.length s.U.inner.length (env.clock i - stop0.startTime)) :
    ∃ s', loopBody env i s = .ok s' ∧ LoopInv env.clock stop0 v L0 U0 (i + 1) s' ∧ s'.U.inner.length < s.U.inner.length := by
  obtain ⟨sel, e1, e2, e3⟩ := hst i s.L s.U hne
  have law := icLaw ⟨false, .int⟩
  have htype : ∀ w ∈ sel, isInstance w.item ⟨false, .int⟩ = true := by
    intro w hw
    obtain ⟨j, hj⟩ := hnum _ (h.sub _ (key_of_pyMem (e3 w hw)))
    exact isInstance_int_of_key hj
  obtain ⟨L', u1, u2, u3⟩ := law.update s.L sel ⟨h.reachL, h.ety⟩ htype
  obtain ⟨U', d1, d2, d3⟩ := law.diff s.U sel h.reachU htype
  have hU' : U' = s.U.differenceUpdate (.many sel) := by
    have := congrArg Prod.fst d1; exact this.symm
  set st : State (List Val) := State.new icOps (.inr sel) (env.perf i) none none with hst'
  have hgetsel : st.getValue "select_index" = .ok (.sel sel) := by
    simp [st, State.new, State.getValue, dictSet, dictGet]
  have hcost : HasCost (.st st : Entry (List Val)) 0 := by
    refine ⟨st, rfl, .inr ⟨?_, rfl⟩⟩
    simp [st, State.new, State.getValue, dictSet, dictGet]
  have hsize : HasSize icOps (.st st : Entry (List Val)) sel.length := ⟨st, sel, rfl, hgetsel, rfl⟩
  have hadd := StateIO.addState_of (s := s.saver) hcost hsize
  set saver' : StateIO IC (List Val) :=
    { s.saver with states := s.saver.states ++ [.st st], cost := s.saver.cost + 0, numq := s.saver.numq + sel.length } with hsv
  have hrep : replay icOps s.saver.states s.saver.initL s.saver.initU = .ok (s.L, s.U) := by
    have := h.ws
    simpa [getWorkspace] using this
  have hws' : getWorkspace icOps saver' none = .ok (L', U') := by
    have := StateIO.replay_snoc (ops := icOps) s.saver.states (.st st) sel hgetsel _ _ _ _ _ _ hrep d1 u1
    simp only [getWorkspace, hsv, Option.getD_none]
    rw [if_pos ⟨by omega, by omega⟩, Int.toNat_natCast, List.take_length]
    exact this
  obtain ⟨stop', p1, p2, p3, p4, -, p5, p6, p7, p8⟩ := Stop.update_ok (ops := icOps) s.stop saver' L' U' hws' (by
    intro _
    have : saver'.initU = U0 := h.initU
    rw [this]
    simpa [icOps] using hU0)
  have hlt : U'.inner.length < s.U.inner.length := by
    obtain ⟨w, hw⟩ := List.exists_mem_of_ne_nil _ e2
    have hwU : w.key ∈ s.U.keys := key_of_pyMem (e3 w hw)
    have hsub : U'.keys ⊆ s.U.keys.erase w.key := by
      intro k hk
      obtain ⟨k1, k2⟩ := (d3 k).1 hk
      have hkw : k ≠ w.key := by
        rintro rfl
        exact k2 (List.mem_map.2 ⟨w, hw, rfl⟩)
      exact (List.mem_erase_of_ne hkw).2 k1
    have := (List.subperm_of_subset (IC.reachable_nodup d2) hsub).length_le
    rw [List.length_erase_of_mem hwU] at this
    have hpos := List.length_pos_of_mem hwU
    simp only [IC.keys, List.length_map] at this hpos
    omega
  refine ⟨⟨L', U', saver', stop'⟩, ?_, ?_, hlt⟩
  · have hu : s.L.update (.many sel) = (L', none) := u1
    simp only [loopBody, e1, hu]
    rw [← hst', hadd]
    simp only [p1, ← hU']
  · obtain ⟨sels, r1, r2, r3⟩ := h.recd
    have hlen := StateIO.recorded_length r1
    refine ⟨h.initL, h.initU, hws', by simp [hsv, h.iter], by simp [hsv, h.cost], ?_, u2.1, d2, u2.2, ?_, p2.trans h.crit,
      p3.trans h.value, p4.trans h.startTime, ?_, fun hc => p6 (h.crit.trans hc), fun hc => ?_, fun hc => ?_, ?_⟩
    · refine ⟨sels ++ [sel], ?_, ?_, ?_⟩
      · exact List.rel_append r1 (.cons ⟨st, rfl, hgetsel⟩ .nil)
      · intro x hx
        rcases List.mem_append.1 hx with hx | hx
        · exact r2 x hx
        · rw [List.mem_singleton] at hx; rw [hx]; exact ⟨e2, htype⟩
      · intro k x hx w hw
        by_cases hk : k < sels.length
        · rw [List.getElem?_append_left hk] at hx
          obtain ⟨L, U, g1, g2⟩ := r3 k x hx w hw
          refine ⟨L, U, ?_, g2⟩
          rw [StateIO.getWorkspace_append s.saver (.st st) saver' rfl rfl rfl k (by omega)]
          exact g1
        · rw [List.getElem?_append_right (by omega)] at hx
          have hk0 : k - sels.length = 0 := by
            have := (List.getElem?_eq_some_iff.1 hx).1
            simp only [List.length_singleton] at this
            omega
          rw [hk0] at hx
          simp only [List.getElem?_cons_zero, Option.some.injEq] at hx
          subst hx
          have hk' : k = s.saver.states.length := by omega
          refine ⟨s.L, s.U, ?_, e3 w hw⟩
          rw [StateIO.getWorkspace_append s.saver (.st st) saver' rfl rfl rfl k (by omega), hk']
          have := h.ws
          simpa [getWorkspace] using this
    · intro k hk
      exact h.sub k ((d3 k).1 hk).1
    · rw [p5]; simp [icOps]
    · have := p7 (h.crit.trans hc)
      rw [this]; simp [hsv, h.cost]
    · have := p8 (h.crit.trans hc)
      rw [this]
      have hiu : saver'.initU = U0 := h.initU
      rw [hiu]; rfl
    · intro k hk
      have hk1 : k ≤ s.saver.states.length := by simp [hsv] at hk; omega
      rw [StateIO.getWorkspace_append s.saver (.st st) saver' rfl rfl rfl k hk1]
      by_cases hkl : k < s.saver.states.length
      · exact h.early k hkl
      · have hke : k = s.saver.states.length := by omega
        have hki : k = i := hke.trans h.iter
        refine ⟨s.L, s.U, ?_, hne, ?_⟩
        · have := h.ws
          rw [hke]
          simpa [getWorkspace] using this
        · have hck : env.clock k = env.clock i := by rw [hki]
          rw [hck, hke]
          exact hnot

theorem loop_ends {env : LoopEnv} (hst : GoodStrategy env.strat) {stop0 : Stop} {v : ℚ} {L0 U0 : IC}
    (hv : stop0.crit ≠ .none → stop0.value = some v) (hp : stop0.crit = .percentOfUnlabel → 0 ≤ v ∧ v ≤ 1)
    (hnum : ∀ k ∈ U0.keys, ∃ j, k = .num j) (hU0 : U0.inner ≠ []) : ∀ (fuel i : Nat) (s : LoopState),
    LoopInv env.clock stop0 v L0 U0 i s → s.U.inner.length < fuel →
    ∃ r j, loop env fuel i s = some (.ok r) ∧ LoopInv env.clock stop0 v L0 U0 j r ∧ (r.U.inner = [] ∨
      BoundReached stop0.crit v r.saver.states.length 0 U0.inner.length r.U.inner.length (env.clock j - stop0.startTime)) := by
  intro fuel
  induction fuel with
  | zero => intro i s _ hf; omega
  | succ fuel ih =>
    intro i s h hf
    obtain ⟨b, hb, hiff⟩ := loop_decision h hv hp (env.clock i)
    cases b with
    | true => exact ⟨s, i, by simp [loop, hb], h, hiff.1 rfl⟩
    | false =>
      have hn : ¬ (s.U.inner = [] ∨ _) := fun hh => by have := hiff.2 hh; cases this
      rw [not_or] at hn
      obtain ⟨s', h1, h2, h3⟩ := loop_body_step hst h hnum hU0 hn.1 hn.2
      obtain ⟨r, j, g1, g2, g3⟩ := ih (i + 1) s' h2 (by omega)
      exact ⟨r, j, by simp [loop, hb, h1, g1], g2, g3⟩

theorem loop_mono {env : LoopEnv} : ∀ (fuel i : Nat) (s : LoopState) (x : Except PyErr LoopState) (k : Nat),
    loop env fuel i s = some x → loop env (fuel + k) i s = some x := by
  intro fuel
  induction fuel with
  | zero => intro i s x k h; simp [loop] at h
  | succ fuel ih =>
    intro i s x k h
    rw [show fuel + 1 + k = (fuel + k) + 1 by omega]
    simp only [loop] at h ⊢
    split at h
    · exact h
    · exact h
    · split at h
      · exact h
      · exact ih _ _ _ _ h

end Alipy
