import Verif.Spec.PairSession
import Verif.Props.MainLoop
import Verif.Props.MultiLabelSelect

/-! # C93: sessions that ask for pairs -/
namespace Alipy.PairSession
open Spec
open StateIO (getWorkspace replay addState)

theorem proper_of_good {size : Int} {c : MLIC} (h : mlGood size c) : Proper size c := by
  have hi := MLIC.tame_inv h.1
  refine ⟨hi.nodup, fun q hq => ?_⟩
  obtain ⟨l, L, h1, h2, h3, h4⟩ := hi.legal q hq
  rw [h.2.1] at h2
  cases h2
  exact ⟨l, h1, h3, h4⟩

theorem mk'_good {items : List Item} {size : Int} {c : MLIC} (h : MLIC.mk' items (some size) = .ok c) : mlGood size c := by
  refine ⟨.construct h, ?_⟩
  unfold MLIC.mk' at h
  split at h
  · cases h; exact ⟨rfl, rfl⟩
  · split at h
    · cases h
    · dsimp only at h
      split at h
      · cases h
      · cases h; exact ⟨rfl, rfl⟩

/-- A list that asks properly is a legal selection with these pairs. -/
theorem asks_means {size : Int} {most : Nat} {u : MLIC} {items : List Item} (h : Asks size most u items) :
    (∃ ixs, mlTuples (.inl items) ixs ∧ ∀ ix ∈ ixs, Legal size ix) ∧ (∃ q, mlMeans size (.inl items) q) ∧
      (∀ q, mlMeans size (.inl items) q → q ∈ u.inner) ∧
      ∀ qs : List (Int × Second), qs.Nodup → (∀ q ∈ qs, mlMeans size (.inl items) q) → qs.length ≤ most := by
  obtain ⟨ixs, rfl, h1, ⟨p, h2⟩, h3, h4⟩ := h
  have hne : ixs ≠ [] := by
    obtain ⟨ix, hix, -⟩ := h2
    exact List.ne_nil_of_mem hix
  have ht : mlTuples (.inl (ixs.map .tup)) ixs := ⟨rfl, hne⟩
  refine ⟨⟨ixs, ht, h1⟩, ⟨_, ixs, ht, p, rfl, h2⟩, ?_, ?_⟩
  · rintro q ⟨ixs', hi, p, rfl, hd⟩
    rw [mlTuples_unique hi ht] at hd
    exact h3 p hd
  · intro qs hnd hq
    have hex : ∀ q ∈ qs, ∃ p : Int × Int, q = (p.1, .scal p.2) ∧ DenotesAny size ixs p := by
      intro q hqm
      obtain ⟨ixs', hi, p, e, hd⟩ := hq q hqm
      rw [mlTuples_unique hi ht] at hd
      exact ⟨p, e, hd⟩
    let f : Int × Second → Int × Int := fun q => (q.1, match q.2 with | .scal l => l | .iter _ _ => 0)
    have hf : ∀ q ∈ qs, q = ((f q).1, .scal (f q).2) ∧ DenotesAny size ixs (f q) := by
      intro q hqm
      obtain ⟨p, rfl, hd⟩ := hex q hqm
      exact ⟨rfl, hd⟩
    have := h4 (qs.map f) (List.Nodup.map_on (fun a ha b hb hab => by
      rw [(hf a ha).1, (hf b hb).1, hab]) hnd) (by
        intro p hp
        obtain ⟨q, hq', rfl⟩ := List.mem_map.1 hp
        exact (hf q hq').2)
    simpa using this

/-- The container as a selection: it means what it holds. -/
theorem coll_means {size : Int} {u : MLIC} (h : Proper size u) :
    (∃ ixs, mlTuples (.inr u) ixs ∧ ∀ ix ∈ ixs, Legal size ix) ∧ ∀ q, mlMeans size (.inr u) q ↔ q ∈ u.inner := by
  refine ⟨⟨_, rfl, ?_⟩, fun q => ?_⟩
  · intro ix hix
    obtain ⟨q, hq, rfl⟩ := List.mem_map.1 hix
    obtain ⟨l, e, hl⟩ := h.2 q hq
    rw [e]
    exact hl
  · constructor
    · rintro ⟨ixs, hi, p, rfl, ix, hix, hd⟩
      rw [show ixs = _ from hi] at hix
      obtain ⟨q, hq, rfl⟩ := List.mem_map.1 hix
      obtain ⟨l, e, -⟩ := h.2 q hq
      rw [e] at hd
      obtain rfl : p = (q.1, l) := hd
      rwa [← e]
    · intro hq
      obtain ⟨l, e, -⟩ := h.2 q hq
      refine ⟨_, rfl, (q.1, l), Prod.ext rfl e, .pair q.1 q.2, List.mem_map.2 ⟨q, hq, rfl⟩, ?_⟩
      rw [e]
      exact rfl

/-- The criterion knows what the saver says: `u` entries unknown. -/
structure StopInv (stop0 : Stop) (u0 : Nat) (u : Nat) (s : PState) : Prop where
  crit : s.stop.crit = stop0.crit
  value : s.stop.value = stop0.value
  startTime : s.stop.startTime = stop0.startTime
  unlabel : s.stop.unlabel = 0 ↔ u = 0
  iter : stop0.crit = .numOfQueries → s.stop.iter = s.saver.states.length
  accum : stop0.crit = .costLimit → s.stop.accum = 0
  percent : stop0.crit = .percentOfUnlabel → s.stop.percent = ((u0 : ℚ) - (u : ℚ)) / (u0 : ℚ)

theorem decision {stop0 : Stop} {u0 u : Nat} {s : PState} (h : StopInv stop0 u0 u s) {v : ℚ}
    (hv : stop0.crit ≠ .none → stop0.value = some v) (hp : stop0.crit = .percentOfUnlabel → 0 ≤ v ∧ v ≤ 1) (now : ℚ) :
    ∃ b, s.stop.isStop now = .ok b ∧ (b = true ↔ u = 0 ∨
      BoundReached stop0.crit v s.saver.states.length 0 u0 u (now - stop0.startTime)) := by
  by_cases h0 : u = 0
  · exact ⟨true, by simp [Stop.isStop, h.unlabel.2 h0], by simp [h0]⟩
  · have h0' : s.stop.unlabel ≠ 0 := fun e => h0 (h.unlabel.1 e)
    cases hc : stop0.crit with
    | none => exact ⟨false, by simp [Stop.isStop, h0', h.crit, hc], by simp [BoundReached, h0]⟩
    | numOfQueries =>
      have := hv (by simp [hc])
      exact ⟨_, by simp only [Stop.isStop, h0', h.crit, hc, h.value, this, h.iter hc, if_false]; rfl, by simp [BoundReached, h0]⟩
    | costLimit =>
      have := hv (by simp [hc])
      exact ⟨_, by simp only [Stop.isStop, h0', h.crit, hc, h.value, this, h.accum hc, if_false]; rfl, by simp [BoundReached, h0]⟩
    | percentOfUnlabel =>
      have := hv (by simp [hc])
      obtain ⟨hp1, hp2⟩ := hp hc
      have hp3 : ¬ (1 < v ∨ v < 0) := by rw [not_or]; exact ⟨not_lt.2 hp2, not_lt.2 hp1⟩
      exact ⟨_, by simp only [Stop.isStop, h0', h.crit, hc, h.value, this, h.percent hc, hp3, if_false]; rfl, by simp [BoundReached, h0]⟩
    | timeLimit =>
      have := hv (by simp [hc])
      exact ⟨_, by simp only [Stop.isStop, h0', h.crit, hc, h.value, this, h.startTime, if_false]; rfl, by simp [BoundReached, h0]⟩

/-- One iteration in terms of the containers: what the strategy answers is applied to the containers with its value before, and recorded
with its value after the change. -/
theorem body_step {env : Env} {size : Int} (h0 : 0 < size) {i : Nat} {s : PState} {a : Answer} (ha : env.strat i s.known s.unknown = .ok a)
    (gk : mlGood size s.known) (gu : mlGood size s.unknown)
    (hla : ∃ ixs, mlTuples (a.value s.unknown) ixs ∧ ∀ ix ∈ ixs, Legal size ix)
    (hlr : ∀ u', mlGood size u' → (∀ q, q ∈ u'.inner ↔ q ∈ s.unknown.inner ∧ ¬ mlMeans size (a.value s.unknown) q) →
      ∃ ixs, mlTuples (a.value u') ixs ∧ ∀ ix ∈ ixs, Legal size ix)
    {k u : MLIC} (hws : getWorkspace mlOps s.saver none = .ok (k, u)) (gk' : mlGood size k) (gu' : mlGood size u) (hcost : s.saver.cost = 0)
    (hinit : s.saver.initU.inner ≠ []) :
    ∃ s' k' u' st, body env i s = .ok s' ∧ mlGood size s'.known ∧ mlGood size s'.unknown ∧
      (∀ q, q ∈ s'.known.inner ↔ q ∈ s.known.inner ∨ mlMeans size (a.value s.unknown) q) ∧
      (∀ q, q ∈ s'.unknown.inner ↔ q ∈ s.unknown.inner ∧ ¬ mlMeans size (a.value s.unknown) q) ∧
      getWorkspace mlOps s'.saver none = .ok (k', u') ∧ mlGood size k' ∧ mlGood size u' ∧
      (∀ q, q ∈ k'.inner ↔ q ∈ k.inner ∨ mlMeans size (a.value s'.unknown) q) ∧
      (∀ q, q ∈ u'.inner ↔ q ∈ u.inner ∧ ¬ mlMeans size (a.value s'.unknown) q) ∧
      (k = s.known → u = s.unknown → a.value s'.unknown = a.value s.unknown → k' = s'.known ∧ u' = s'.unknown) ∧
      s'.saver.cost = 0 ∧ s'.saver.initL = s.saver.initL ∧ s'.saver.initU = s.saver.initU ∧
      s'.saver.states = s.saver.states ++ [.st st] ∧ st.getValue "select_index" = .ok (.sel (a.value s'.unknown)) ∧
      ∀ stop0 u1, StopInv stop0 s.saver.initU.inner.length u1 s → StopInv stop0 s.saver.initU.inner.length u'.inner.length s' := by
  have law := mlLaw size h0
  obtain ⟨K, e1, e2, e3⟩ := law.update s.known _ gk hla
  obtain ⟨U, d1, d2, d3⟩ := law.diff s.unknown _ gu hla
  have hlr := hlr U d2 d3
  obtain ⟨k', f1, f2, f3⟩ := law.update k _ gk' hlr
  obtain ⟨u', g1, g2, g3⟩ := law.diff u _ gu' hlr
  set st : State (List Item ⊕ MLIC) := State.new mlOps (.inr (a.value U)) (env.perf i) none none with hst
  have hgetsel : st.getValue "select_index" = .ok (.sel (a.value U)) := by
    simp [st, State.new, State.getValue, dictSet, dictGet]
  have hc : HasCost (.st st : Entry (List Item ⊕ MLIC)) 0 := by
    refine ⟨st, rfl, .inr ⟨?_, rfl⟩⟩
    simp [st, State.new, State.getValue, dictSet, dictGet]
  have hsize : HasSize mlOps (.st st : Entry (List Item ⊕ MLIC)) (mlOps.selLen (a.value U)) := ⟨st, _, rfl, hgetsel, rfl⟩
  have hadd := StateIO.addState_of (s := s.saver) hc hsize
  set saver' : StateIO MLIC (List Item ⊕ MLIC) :=
    { s.saver with states := s.saver.states ++ [.st st], cost := s.saver.cost + 0, numq := s.saver.numq + mlOps.selLen (a.value U) } with hsv
  have hrep : replay mlOps s.saver.states s.saver.initL s.saver.initU = .ok (k, u) := by simpa [getWorkspace] using hws
  have hws' : getWorkspace mlOps saver' none = .ok (k', u') := by
    have := StateIO.replay_snoc (ops := mlOps) s.saver.states (.st st) (a.value U) hgetsel _ _ _ _ _ _ hrep g1 f1
    simp only [getWorkspace, hsv, Option.getD_none]
    rw [if_pos ⟨by omega, by omega⟩, Int.toNat_natCast, List.take_length]
    exact this
  obtain ⟨stop', p1, p2, p3, p4, -, p5, p6, p7, p8⟩ := Stop.update_ok (ops := mlOps) s.stop saver' k' u' hws' (by
    intro _
    show s.saver.initU.inner.length ≠ 0
    exact fun h => hinit (List.length_eq_zero_iff.1 h))
  refine ⟨⟨K, U, saver', stop'⟩, k', u', st, ?_, e2, d2, e3, d3, hws', f2, g2, f3, g3, ?_, ?_, rfl, rfl, rfl, hgetsel, ?_⟩
  · simp only [body, ha, e1, d1]
    rw [← hst, hadd]
    simp only [p1]
  · rintro rfl rfl hv
    dsimp only at hv
    rw [hv] at f1 g1
    rw [f1] at e1
    rw [g1] at d1
    exact ⟨congrArg Prod.fst e1, congrArg Prod.fst d1⟩
  · simp [hsv, hcost]
  · intro stop0 u1 hstop
    refine ⟨p2.trans hstop.crit, p3.trans hstop.value, p4.trans hstop.startTime, ?_, fun hh => p6 (hstop.crit.trans hh), fun hh => ?_, fun hh => ?_⟩
    · rw [p5]; rfl
    · have := p7 (hstop.crit.trans hh)
      rw [this]; simp [hsv, hcost]
    · exact p8 (hstop.crit.trans hh)

/-- The invariant of a session as long as only lists were answered. -/
structure Inv (size : Int) (clock : Nat → ℚ) (stop0 : Stop) (v : ℚ) (K0 U0 : MLIC) (i : Nat) (s : PState) : Prop where
  initL : s.saver.initL = K0
  initU : s.saver.initU = U0
  ws : getWorkspace mlOps s.saver none = .ok (s.known, s.unknown)
  iter : s.saver.states.length = i
  cost : s.saver.cost = 0
  goodK : mlGood size s.known
  goodU : mlGood size s.unknown
  part : ∀ q, q ∈ s.known.inner ∨ q ∈ s.unknown.inner ↔ q ∈ K0.inner ∨ q ∈ U0.inner
  disj : ∀ q ∈ s.known.inner, q ∉ s.unknown.inner
  recd : ∃ sel, Recorded s.saver.states sel ∧ ∀ (k : Nat) x, sel[k]? = some x → ∃ K U, getWorkspace mlOps s.saver (some k) = .ok (K, U) ∧
    (∃ p, Selected size x p) ∧ ∀ p, Selected size x p → Holds U p ∧ ¬ Holds K p
  stop : StopInv stop0 U0.inner.length s.unknown.inner.length s
  early : ∀ k : Nat, k < s.saver.states.length → ∃ K U, getWorkspace mlOps s.saver (some k) = .ok (K, U) ∧ U.inner ≠ [] ∧
    ¬ BoundReached stop0.crit v k 0 U0.inner.length U.inner.length (clock k - stop0.startTime)

theorem inv_init {size : Int} {clock : Nat → ℚ} {K0 U0 : MLIC} (hK : mlGood size K0) (hU : mlGood size U0) (hdis : ∀ q ∈ K0.inner, q ∉ U0.inner)
    (hne : U0.inner ≠ []) {name : Option String} {value : Option PyNum} {now : ℚ} {stop : Stop} (hnew : Stop.new name value now = .ok stop) (v : ℚ) :
    Inv size clock stop v K0 U0 0 ⟨K0, U0, StateIO.new K0 U0, stop⟩ := by
  have hs : stop.unlabel = 100 ∧ stop.iter = 0 ∧ stop.accum = 0 ∧ stop.percent = 0 := by
    unfold Stop.new at hnew
    split at hnew
    · cases hnew
    · split at hnew <;> cases hnew <;> simp
    · cases hnew; simp
  obtain ⟨s1, s2, s3, s4⟩ := hs
  refine ⟨rfl, rfl, ?_, rfl, rfl, hK, hU, fun q => Iff.rfl, hdis, ⟨[], .nil, by simp⟩,
    ⟨rfl, rfl, rfl, by simp [s1, hne], fun _ => s2, fun _ => s3, fun _ => by simp [s4]⟩, ?_⟩
  · simp [getWorkspace, StateIO.new, StateIO.replay]
  · intro k hk; simp [StateIO.new] at hk

/-- A list answer keeps the invariant. -/
theorem inv_fresh {env : Env} {size : Int} (h0 : 0 < size) {stop0 : Stop} {v : ℚ} {K0 U0 : MLIC} (hU0 : U0.inner ≠ []) {i : Nat} {s : PState}
    (h : Inv size env.clock stop0 v K0 U0 i s) {items : List Item} {most : Nat} (ha : env.strat i s.known s.unknown = .ok (.fresh items))
    (has : Asks size most s.unknown items)
    (hnot : ¬ BoundReached stop0.crit v s.saver.states.length 0 U0.inner.length s.unknown.inner.length (env.clock i - stop0.startTime)) :
    ∃ s', body env i s = .ok s' ∧ Inv size env.clock stop0 v K0 U0 (i + 1) s' ∧ s'.unknown.inner.length < s.unknown.inner.length ∧
      s.unknown.inner.length ≤ s'.unknown.inner.length + most := by
  obtain ⟨m1, ⟨q0, m2⟩, m3, m4⟩ := asks_means has
  obtain ⟨s', k', u', st, b1, b2, b3, b4, b5, b6, b7, b8, b9, b10, b11, b12, b13, b14, b15, b16, b17⟩ :=
    body_step (env := env) h0 ha h.goodK h.goodU m1 (fun _ _ _ => m1) h.ws h.goodK h.goodU h.cost (by rw [h.initU]; exact hU0)
  obtain ⟨rfl, rfl⟩ := b11 rfl rfl rfl
  have hne : s.unknown.inner ≠ [] := List.ne_nil_of_mem (m3 q0 m2)
  have nd := (proper_of_good h.goodU).1
  have nd' := (proper_of_good b3).1
  refine ⟨s', b1, ⟨b13.trans h.initL, b14.trans h.initU, b6, ?_, b12, b2, b3, ?_, ?_, ?_, ?_, ?_⟩, ?_, ?_⟩
  · rw [b15]; simp [h.iter]
  · intro q
    rw [b4, b5, ← h.part q]
    constructor
    · rintro ((hq | hq) | hq)
      · exact .inl hq
      · exact .inr (m3 q hq)
      · exact .inr hq.1
    · rintro (hq | hq)
      · exact .inl (.inl hq)
      · by_cases hm : mlMeans size (.inl items) q
        · exact .inl (.inr hm)
        · exact .inr ⟨hq, hm⟩
  · intro q hq hq'
    rw [b4] at hq
    rw [b5] at hq'
    exact hq.elim (fun hk => h.disj q hk hq'.1) hq'.2
  · obtain ⟨sels, r1, r2⟩ := h.recd
    have hlen := StateIO.recorded_length r1
    refine ⟨sels ++ [.inl items], ?_, ?_⟩
    · rw [b15]; exact List.rel_append r1 (.cons ⟨st, rfl, b16⟩ .nil)
    · intro k x hx
      by_cases hk : k < sels.length
      · rw [List.getElem?_append_left hk] at hx
        obtain ⟨L, U, w1, w2⟩ := r2 k x hx
        refine ⟨L, U, ?_, w2⟩
        rw [StateIO.getWorkspace_append s.saver (.st st) s'.saver b15 b13 b14 k (by omega)]
        exact w1
      · rw [List.getElem?_append_right (by omega)] at hx
        have hk0 : k - sels.length = 0 := by
          have := (List.getElem?_eq_some_iff.1 hx).1
          simp only [List.length_singleton] at this
          omega
        rw [hk0] at hx
        simp only [List.getElem?_cons_zero, Option.some.injEq] at hx
        subst hx
        have hk' : k = s.saver.states.length := by omega
        refine ⟨s.known, s.unknown, ?_, ?_, ?_⟩
        · rw [StateIO.getWorkspace_append s.saver (.st st) s'.saver b15 b13 b14 k (by omega), hk']
          have := h.ws
          simpa [getWorkspace] using this
        · obtain ⟨ixs, rfl, -, ⟨p, ix, hix, hd⟩, -⟩ := has
          exact ⟨p, ix, List.mem_map.2 ⟨ix, hix, rfl⟩, hd⟩
        · rintro p ⟨ix, hix, hd⟩
          obtain ⟨ixs, rfl, -, -, hm, -⟩ := has
          obtain ⟨ix', hix', e⟩ := List.mem_map.1 hix
          cases e
          have hu := hm p ⟨ix, hix', hd⟩
          exact ⟨hu, fun hk => h.disj _ hk hu⟩
  · rw [← h.initU]; exact b17 _ _ (by rw [h.initU]; exact h.stop)
  · intro k hk
    have hk1 : k ≤ s.saver.states.length := by rw [b15] at hk; simp at hk; omega
    rw [StateIO.getWorkspace_append s.saver (.st st) s'.saver b15 b13 b14 k hk1]
    by_cases hkl : k < s.saver.states.length
    · exact h.early k hkl
    · have hke : k = s.saver.states.length := by omega
      refine ⟨s.known, s.unknown, ?_, hne, ?_⟩
      · have := h.ws
        rw [hke]
        simpa [getWorkspace] using this
      · have hck : env.clock k = env.clock i := by rw [hke, h.iter]
        rw [hck, hke]
        exact hnot
  · have hsub : s'.unknown.inner ⊆ s.unknown.inner.erase q0 := by
      intro q hq
      obtain ⟨k1, k2⟩ := (b5 q).1 hq
      have hkw : q ≠ q0 := by rintro rfl; exact k2 m2
      exact (List.mem_erase_of_ne hkw).2 k1
    have := (List.subperm_of_subset nd' hsub).length_le
    rw [List.length_erase_of_mem (m3 q0 m2)] at this
    have hpos := List.length_pos_of_ne_nil hne
    omega
  · classical
    have hsub : s.unknown.inner ⊆ s'.unknown.inner ++ s.unknown.inner.filter (fun q => decide (mlMeans size (.inl items) q)) := by
      intro q hq
      by_cases hm : mlMeans size (.inl items) q
      · exact List.mem_append_right _ (List.mem_filter.2 ⟨hq, by simpa using hm⟩)
      · exact List.mem_append_left _ ((b5 q).2 ⟨hq, hm⟩)
    have hle := (List.subperm_of_subset nd hsub).length_le
    rw [List.length_append] at hle
    have := m4 _ (nd.filter (fun q => decide (mlMeans size (.inl items) q))) (fun q hq => by simpa using (List.mem_filter.1 hq).2)
    omega

/-! ## Strategies that ask by lists -/

theorem ends {env : Env} {size : Int} (h0 : 0 < size) (hst : AlwaysLists size env.strat) {stop0 : Stop} {v : ℚ} {K0 U0 : MLIC}
    (hv : stop0.crit ≠ .none → stop0.value = some v) (hp : stop0.crit = .percentOfUnlabel → 0 ≤ v ∧ v ≤ 1) (hU0 : U0.inner ≠ []) :
    ∀ (fuel i : Nat) (s : PState), Inv size env.clock stop0 v K0 U0 i s → s.unknown.inner.length < fuel →
    ∃ r j, loop env fuel i s = some (.ok r) ∧ Inv size env.clock stop0 v K0 U0 j r ∧ (r.unknown.inner.length = 0 ∨
      BoundReached stop0.crit v r.saver.states.length 0 U0.inner.length r.unknown.inner.length (env.clock j - stop0.startTime)) := by
  intro fuel
  induction fuel with
  | zero => intro i s _ hf; omega
  | succ fuel ih =>
    intro i s h hf
    obtain ⟨b, hb, hiff⟩ := decision h.stop hv hp (env.clock i)
    cases b with
    | true => exact ⟨s, i, by simp [loop, hb], h, hiff.1 rfl⟩
    | false =>
      have hn : ¬ (s.unknown.inner.length = 0 ∨ _) := fun hh => by have := hiff.2 hh; cases this
      rw [not_or] at hn
      obtain ⟨items, most, a1, a2⟩ := hst i s.known s.unknown (proper_of_good h.goodU) (fun hh => hn.1 (by rw [hh]; rfl))
      obtain ⟨s', h1, h2, h3, -⟩ := inv_fresh h0 hU0 h a1 a2 hn.2
      obtain ⟨r, j, g1, g2, g3⟩ := ih (i + 1) s' h2 (by omega)
      exact ⟨r, j, by simp [loop, hb, h1, g1], g2, g3⟩

theorem loop_mono {env : Env} : ∀ (fuel i : Nat) (s : PState) (x : Except PyErr PState) (k : Nat),
    loop env fuel i s = some x → loop env (fuel + k) i s = some x := by
  intro fuel
  induction fuel with
  | zero => intro i s x k h; simp [loop] at h
  | succ fuel ih =>
    intro i s x k h
    rw [show fuel + 1 + k = (fuel + k) + 1 by omega]
    simp only [loop] at h ⊢
    split at h
    · exact h
    · exact h
    · split at h
      · exact h
      · exact ih _ _ _ _ h

/-- How a session starts: with proper containers of the listed pairs. -/
theorem start {size : Int} (h0 : 0 < size) {ls us : List Ix} (hls : ls ≠ []) (hus : us ≠ []) (hll : ∀ ix ∈ ls, Legal size ix)
    (hul : ∀ ix ∈ us, Legal size ix) (hdis : ∀ p, DenotesAny size ls p → ¬ DenotesAny size us p) {ps : List (Int × Int)} (hnd : ps.Nodup)
    (hps : ∀ p, p ∈ ps ↔ DenotesAny size us p) (env : Env) (stop : Stop) :
    ∃ K0 U0, (∀ fuel, session env (ls.map .tup) (us.map .tup) size stop fuel = loop env fuel 0 ⟨K0, U0, StateIO.new K0 U0, stop⟩) ∧
      mlGood size K0 ∧ mlGood size U0 ∧ (∀ q ∈ K0.inner, q ∉ U0.inner) ∧ U0.inner.length = ps.length ∧
      (∀ p, Holds K0 p ↔ DenotesAny size ls p) ∧ ∀ p, Holds U0 p ↔ DenotesAny size us p := by
  obtain ⟨K0, k1, k2, k3, -, k4⟩ := MLIC.C08_constructor ls hls size h0 hll
  obtain ⟨U0, u1, u2, u3, u5, u4⟩ := MLIC.C08_constructor us hus size h0 hul
  have hK : ∀ p : Int × Int, Holds K0 p ↔ DenotesAny size ls p := by
    intro p
    rw [Holds, k4]
    constructor
    · rintro ⟨p', e, h⟩
      simp only [Prod.mk.injEq, Second.scal.injEq] at e
      rwa [Prod.ext e.1 e.2]
    · exact fun h => ⟨p, rfl, h⟩
  have hU : ∀ p : Int × Int, Holds U0 p ↔ DenotesAny size us p := by
    intro p
    rw [Holds, u4]
    constructor
    · rintro ⟨p', e, h⟩
      simp only [Prod.mk.injEq, Second.scal.injEq] at e
      rwa [Prod.ext e.1 e.2]
    · exact fun h => ⟨p, rfl, h⟩
  refine ⟨K0, U0, fun fuel => by simp only [session, k1, u1], mk'_good k1, mk'_good u1, ?_, ?_, hK, hU⟩
  · intro q hq hq'
    obtain ⟨p, rfl, hp⟩ := (k4 q).1 hq
    exact hdis p hp ((hU p).1 hq')
  · have : U0.inner.Perm (ps.map (fun p => (p.1, Second.scal p.2))) := by
      refine (List.perm_ext_iff_of_nodup u5 (hnd.map ?_)).2 ?_
      · intro a b h
        simp only [Prod.mk.injEq, Second.scal.injEq] at h
        exact Prod.ext h.1 h.2
      · intro q
        rw [u4, List.mem_map]
        constructor
        · rintro ⟨p, e, h⟩; exact ⟨p, (hps p).2 h, e.symm⟩
        · rintro ⟨p, h, e⟩; exact ⟨p, e.symm, (hps p).1 h⟩
    simpa using this.length_eq

theorem done_of_inv {size : Int} {clock : Nat → ℚ} {stop0 : Stop} {v : ℚ} {K0 U0 : MLIC} {i : Nat} {r : PState}
    (h : Inv size clock stop0 v K0 U0 i r) {ls us : List Ix} (hK : ∀ p, Holds K0 p ↔ DenotesAny size ls p)
    (hU : ∀ p, Holds U0 p ↔ DenotesAny size us p) :
    Done size clock stop0 v (DenotesAny size ls) (DenotesAny size us) U0.inner.length r := by
  refine ⟨fun p => ?_, fun p => h.disj _, proper_of_good h.goodK, proper_of_good h.goodU, h.ws, h.recd, h.early⟩
  rw [← hK, ← hU]
  exact h.part _

/-- C93 for a strategy that always returns a list of its own (of legal index tuples that denote at least one pair, and unknown pairs only;
arbitrary otherwise): the session ends after at most as many queries as there are unknown pairs, without error, having done everything
properly (`Spec.Done`); and at the end no pair is unknown or the bound of the criterion is reached. -/
theorem C93_lists (env : Env) {size : Int} (h0 : 0 < size) (hst : AlwaysLists size env.strat) {ls us : List Ix} (hls : ls ≠ []) (hus : us ≠ [])
    (hll : ∀ ix ∈ ls, Legal size ix) (hul : ∀ ix ∈ us, Legal size ix) (hdis : ∀ p, DenotesAny size ls p → ¬ DenotesAny size us p)
    {ps : List (Int × Int)} (hnd : ps.Nodup) (hps : ∀ p, p ∈ ps ↔ DenotesAny size us p) (hne : ps ≠ [])
    (name : Option String) (value : Option PyNum) (now : ℚ) (stop : Stop) (hnew : Stop.new name value now = .ok stop) (v : ℚ)
    (hv : stop.crit ≠ .none → stop.value = some v) (hp : stop.crit = .percentOfUnlabel → 0 ≤ v ∧ v ≤ 1) :
    ∃ r, (∀ fuel, ps.length < fuel → session env (ls.map .tup) (us.map .tup) size stop fuel = some (.ok r)) ∧
      Done size env.clock stop v (DenotesAny size ls) (DenotesAny size us) ps.length r ∧
      ((∀ p, ¬ Holds r.unknown p) ∨ BoundReached stop.crit v r.saver.states.length 0 ps.length r.unknown.inner.length
        (env.clock r.saver.states.length - stop.startTime)) := by
  obtain ⟨K0, U0, s1, s2, s3, s4, s5, s6, s7⟩ := start h0 hls hus hll hul hdis hnd hps env stop
  have hU0 : U0.inner ≠ [] := by
    intro h; rw [h] at s5; exact hne (List.length_eq_zero_iff.1 s5.symm)
  obtain ⟨r, j, r1, r2, r3⟩ := ends h0 hst hv hp hU0 (ps.length + 1) 0 _ (inv_init (clock := env.clock) s2 s3 s4 hU0 hnew v) (by
    show U0.inner.length < _; omega)
  refine ⟨r, fun fuel hf => ?_, ?_, ?_⟩
  · obtain ⟨d, rfl⟩ := Nat.exists_eq_add_of_lt hf
    rw [s1, show ps.length + d + 1 = (ps.length + 1) + d by omega]
    exact loop_mono _ _ _ _ d r1
  · rw [← s5]; exact done_of_inv r2 s6 s7
  · rw [← s5]
    rcases r3 with h | h
    · left
      intro p hp
      rw [Holds, List.length_eq_zero_iff.1 h] at hp
      simp at hp
    · right; rw [r2.iter] at h ⊢; exact h

/-! ## Strategies that hand the container back -/

/-- C93 for the strategies as they are (a list of at most `most` pairs while more than `small` are unknown, the container itself otherwise), as
long as the budget of `n` queries keeps away from the end of the pool: the session makes exactly `n` queries, properly. Missing from the full
property: `C93_never_ends_violation`, `C93_lost_query_violation`, `C93_empty_queries_violation`. -/
theorem C93_within_budget_partial (env : Env) {size : Int} (h0 : 0 < size) {most small : Nat} (hst : HandsBack size most small env.strat)
    {ls us : List Ix} (hls : ls ≠ []) (hus : us ≠ [])
    (hll : ∀ ix ∈ ls, Legal size ix) (hul : ∀ ix ∈ us, Legal size ix) (hdis : ∀ p, DenotesAny size ls p → ¬ DenotesAny size us p)
    {ps : List (Int × Int)} (hnd : ps.Nodup) (hps : ∀ p, p ∈ ps ↔ DenotesAny size us p) (n : Nat) (hn : 0 < n)
    (hroom : (n - 1) * most + small < ps.length) (now : ℚ) (stop : Stop)
    (hnew : Stop.new (some "num_of_queries") (some (.int n)) now = .ok stop) :
    ∃ r, (∀ fuel, n < fuel → session env (ls.map .tup) (us.map .tup) size stop fuel = some (.ok r)) ∧
      Done size env.clock stop n (DenotesAny size ls) (DenotesAny size us) ps.length r ∧ r.saver.states.length = n := by
  obtain ⟨K0, U0, s1, s2, s3, s4, s5, s6, s7⟩ := start h0 hls hus hll hul hdis hnd hps env stop
  have hs : stop.crit = .numOfQueries ∧ stop.value = some (n : ℚ) := by
    simp only [Stop.new, Stop.parse] at hnew
    cases hnew
    simp
  have hU0 : U0.inner ≠ [] := by
    intro h; rw [h] at s5; simp at s5; omega
  have hv : stop.crit ≠ .none → stop.value = some (n : ℚ) := fun _ => hs.2
  have hp : stop.crit = .percentOfUnlabel → (0 : ℚ) ≤ n ∧ (n : ℚ) ≤ 1 := by simp [hs.1]
  have key : ∀ (m i : Nat) (s : PState), i + m = n → Inv size env.clock stop n K0 U0 i s → U0.inner.length ≤ s.unknown.inner.length + i * most →
      ∃ r, loop env (m + 1) i s = some (.ok r) ∧ Inv size env.clock stop n K0 U0 n r := by
    intro m
    induction m with
    | zero =>
      intro i s hi h hl
      obtain ⟨b, hb, hiff⟩ := decision h.stop hv hp (env.clock i)
      have : b = true := hiff.2 (.inr (by simp only [hs.1, BoundReached, h.iter]; exact_mod_cast (by omega : n ≤ i)))
      subst this
      obtain rfl : i = n := by omega
      exact ⟨s, by simp [loop, hb], h⟩
    | succ m ih =>
      intro i s hi h hl
      have hle : i * most ≤ (n - 1) * most := Nat.mul_le_mul_right _ (by omega)
      have hbig : small < s.unknown.inner.length := by omega
      have hnot : ¬ BoundReached stop.crit n s.saver.states.length 0 U0.inner.length s.unknown.inner.length (env.clock i - stop.startTime) := by
        simp only [hs.1, BoundReached, h.iter, not_le]
        exact_mod_cast (by omega : i < n)
      obtain ⟨b, hb, hiff⟩ := decision h.stop hv hp (env.clock i)
      have hbf : b = false := by
        cases b with
        | false => rfl
        | true => exact absurd (hiff.1 rfl) (by rw [not_or]; exact ⟨by omega, hnot⟩)
      subst hbf
      obtain ⟨items, a1, a2⟩ := (hst i s.known s.unknown).2 (proper_of_good h.goodU) hbig
      obtain ⟨s', h1, h2, h3, h4⟩ := inv_fresh h0 hU0 h a1 a2 hnot
      obtain ⟨r, g1, g2⟩ := ih (i + 1) s' (by omega) h2 (by rw [Nat.succ_mul]; omega)
      exact ⟨r, by rw [loop]; simp [hb, h1, g1], g2⟩
  obtain ⟨r, r1, r2⟩ := key n 0 _ (by omega) (inv_init (clock := env.clock) s2 s3 s4 hU0 hnew n) (by simp)
  refine ⟨r, fun fuel hf => ?_, ?_, r2.iter⟩
  · obtain ⟨d, rfl⟩ := Nat.exists_eq_add_of_lt hf
    rw [s1, show n + d + 1 = (n + 1) + d by omega]
    exact loop_mono _ _ _ _ d r1
  · rw [← s5]; exact done_of_inv r2 s6 s7

/-- The session after the last entries have been asked for: nothing is unknown any more, but the record says otherwise. -/
structure Stuck (size : Int) (stop0 : Stop) (U0 : MLIC) (i : Nat) (s : PState) : Prop where
  initU : s.saver.initU = U0
  iter : s.saver.states.length = i
  cost : s.saver.cost = 0
  goodK : mlGood size s.known
  goodU : mlGood size s.unknown
  nothing : s.unknown.inner = []
  last : ∃ es st c, s.saver.states = es ++ [.st st] ∧ st.getValue "select_index" = .ok (.sel (.inr c)) ∧ c.inner = []
  ws : ∃ k u, getWorkspace mlOps s.saver none = .ok (k, u) ∧ mlGood size k ∧ mlGood size u ∧ u.inner ≠ [] ∧ u.inner.length ≤ U0.inner.length ∧
    StopInv stop0 U0.inner.length u.inner.length s

/-- Handing the container back: everything is known afterwards and nothing unknown, and the record has not changed. -/
theorem body_same {env : Env} {size : Int} (h0 : 0 < size) {i : Nat} {s : PState} (ha : env.strat i s.known s.unknown = .ok .same)
    (gk : mlGood size s.known) (gu : mlGood size s.unknown) {k u : MLIC} (hws : getWorkspace mlOps s.saver none = .ok (k, u))
    (gk' : mlGood size k) (gu' : mlGood size u) (hcost : s.saver.cost = 0)
    (hinit : s.saver.initU.inner ≠ []) :
    ∃ s' k' u' st c, body env i s = .ok s' ∧ mlGood size s'.known ∧ mlGood size s'.unknown ∧
      (∀ q, q ∈ s'.known.inner ↔ q ∈ s.known.inner ∨ q ∈ s.unknown.inner) ∧ s'.unknown.inner = [] ∧
      getWorkspace mlOps s'.saver none = .ok (k', u') ∧ mlGood size k' ∧ mlGood size u' ∧
      (∀ q, q ∈ k'.inner ↔ q ∈ k.inner) ∧ (∀ q, q ∈ u'.inner ↔ q ∈ u.inner) ∧ u'.inner.length = u.inner.length ∧
      s'.saver.cost = 0 ∧ s'.saver.initL = s.saver.initL ∧ s'.saver.initU = s.saver.initU ∧
      s'.saver.states = s.saver.states ++ [.st st] ∧ st.getValue "select_index" = .ok (.sel (.inr c)) ∧ c.inner = [] ∧
      ∀ stop0 u1, StopInv stop0 s.saver.initU.inner.length u1 s → StopInv stop0 s.saver.initU.inner.length u'.inner.length s' := by
  obtain ⟨c1, c2⟩ := coll_means (proper_of_good gu)
  obtain ⟨s', k', u', st, b1, b2, b3, b4, b5, b6, b7, b8, b9, b10, -, b12, b13, b14, b15, b16, b17⟩ :=
    body_step (env := env) h0 ha gk gu c1 (fun u' g _ => (coll_means (proper_of_good g)).1) hws gk' gu' hcost hinit
  have hnil : s'.unknown.inner = [] := by
    refine List.eq_nil_iff_forall_not_mem.2 (fun q hq => ?_)
    obtain ⟨h1, h2⟩ := (b5 q).1 hq
    exact h2 ((c2 q).2 h1)
  have hm : ∀ q, ¬ mlMeans size (Answer.value .same s'.unknown) q := by
    intro q hq
    have := ((coll_means (proper_of_good b3)).2 q).1 hq
    rw [hnil] at this
    simp at this
  have hk : ∀ q, q ∈ k'.inner ↔ q ∈ k.inner := fun q => by rw [b9]; simp [hm q]
  have hu : ∀ q, q ∈ u'.inner ↔ q ∈ u.inner := fun q => by rw [b10]; simp [hm q]
  refine ⟨s', k', u', st, s'.unknown, b1, b2, b3, ?_, hnil, b6, b7, b8, hk, hu, ?_, b12, b13, b14, b15, b16, hnil, b17⟩
  · intro q
    rw [b4]
    exact or_congr_right (c2 q)
  · exact ((List.perm_ext_iff_of_nodup (proper_of_good b8).1 (proper_of_good gu').1).2 hu).length_eq

/-- One more iteration does not change the situation. -/
theorem stuck_step {env : Env} {size : Int} (h0 : 0 < size) {most small : Nat} (hst : HandsBack size most small env.strat) {stop0 : Stop}
    {U0 : MLIC} (hU0 : U0.inner ≠ []) {i : Nat} {s : PState} (h : Stuck size stop0 U0 i s) :
    ∃ s', body env i s = .ok s' ∧ Stuck size stop0 U0 (i + 1) s' := by
  obtain ⟨k, u, w1, w2, w3, w4, w5, w6⟩ := h.ws
  have ha := (hst i s.known s.unknown).1 (by rw [h.nothing]; simp)
  obtain ⟨s', k', u', st, c, b1, b2, b3, -, b5, b6, b7, b8, -, b10, b11, b12, -, b14, b15, b16, b18, b17⟩ :=
    body_same h0 ha h.goodK h.goodU w1 w2 w3 h.cost (by rw [h.initU]; exact hU0)
  refine ⟨s', b1, ⟨b14.trans h.initU, by rw [b15]; simp [h.iter], b12, b2, b3, b5, ⟨_, st, c, b15, b16, b18⟩, k', u', b6, b7, b8, ?_, by omega, ?_⟩⟩
  · intro e
    rw [e] at b11
    exact w4 (List.length_eq_zero_iff.1 b11.symm)
  · rw [← h.initU]; exact b17 _ _ (by rw [h.initU]; exact w6)

/-- Handing back a container that is not empty leads to this situation. -/
theorem stuck_first {env : Env} {size : Int} (h0 : 0 < size) {most small : Nat} (hst : HandsBack size most small env.strat) {stop0 : Stop} {v : ℚ}
    {K0 U0 : MLIC} (hU0 : U0.inner ≠ []) {i : Nat} {s : PState} (h : Inv size env.clock stop0 v K0 U0 i s) (hs : s.unknown.inner.length ≤ small)
    (hne : s.unknown.inner ≠ []) (hle : s.unknown.inner.length ≤ U0.inner.length) :
    ∃ s', body env i s = .ok s' ∧ Stuck size stop0 U0 (i + 1) s' := by
  have ha := (hst i s.known s.unknown).1 hs
  obtain ⟨s', k', u', st, c, b1, b2, b3, -, b5, b6, b7, b8, -, b10, b11, b12, -, b14, b15, b16, b18, b17⟩ :=
    body_same h0 ha h.goodK h.goodU h.ws h.goodK h.goodU h.cost (by rw [h.initU]; exact hU0)
  refine ⟨s', b1, ⟨b14.trans h.initU, by rw [b15]; simp [h.iter], b12, b2, b3, b5, ⟨_, st, c, b15, b16, b18⟩, k', u', b6, b7, b8, ?_, by omega, ?_⟩⟩
  · intro e
    rw [e] at b11
    exact hne (List.length_eq_zero_iff.1 b11.symm)
  · rw [← h.initU]; exact b17 _ _ (by rw [h.initU]; exact h.stop)

/-- The two phases of a session with the strategies as they are. -/
def Phase (size : Int) (clock : Nat → ℚ) (stop0 : Stop) (v : ℚ) (K0 U0 : MLIC) (i : Nat) (s : PState) : Prop :=
  (Inv size clock stop0 v K0 U0 i s ∧ s.unknown.inner ≠ [] ∧ s.unknown.inner.length + i ≤ U0.inner.length) ∨ Stuck size stop0 U0 i s

theorem phase_step {env : Env} {size : Int} (h0 : 0 < size) {most small : Nat} (hms : most ≤ small) (hst : HandsBack size most small env.strat)
    {stop0 : Stop} {v : ℚ} {K0 U0 : MLIC} (hU0 : U0.inner ≠ []) {i : Nat} {s : PState} (h : Phase size env.clock stop0 v K0 U0 i s)
    (hnot : ∀ u, 0 < u → u ≤ U0.inner.length → ¬ BoundReached stop0.crit v i 0 U0.inner.length u (env.clock i - stop0.startTime)) :
    ∃ s', body env i s = .ok s' ∧ Phase size env.clock stop0 v K0 U0 (i + 1) s' := by
  rcases h with ⟨h, hne, hle⟩ | h
  · have hpos := List.length_pos_of_ne_nil hne
    by_cases hs : s.unknown.inner.length ≤ small
    · obtain ⟨s', h1, h2⟩ := stuck_first h0 hst hU0 h hs hne (by omega)
      exact ⟨s', h1, .inr h2⟩
    · obtain ⟨items, a1, a2⟩ := (hst i s.known s.unknown).2 (proper_of_good h.goodU) (by omega)
      obtain ⟨s', h1, h2, h3, h4⟩ := inv_fresh h0 hU0 h a1 a2 (by rw [h.iter]; exact hnot _ hpos (by omega))
      exact ⟨s', h1, .inl ⟨h2, fun e => by rw [e] at h4; simp at h4; omega, by omega⟩⟩
  · obtain ⟨s', h1, h2⟩ := stuck_step h0 hst hU0 h
    exact ⟨s', h1, .inr h2⟩

theorem phase_decision {size : Int} {clock : Nat → ℚ} {stop0 : Stop} {v : ℚ} {K0 U0 : MLIC} {i : Nat} {s : PState}
    (h : Phase size clock stop0 v K0 U0 i s) (hv : stop0.crit ≠ .none → stop0.value = some v) (hp : stop0.crit = .percentOfUnlabel → 0 ≤ v ∧ v ≤ 1) :
    ∃ (b : Bool) (u : Nat), s.stop.isStop (clock i) = .ok b ∧ 0 < u ∧ u ≤ U0.inner.length ∧
      (b = true ↔ BoundReached stop0.crit v i 0 U0.inner.length u (clock i - stop0.startTime)) := by
  rcases h with ⟨h, hne, hle⟩ | h
  · have hpos := List.length_pos_of_ne_nil hne
    obtain ⟨b, b1, b2⟩ := decision h.stop hv hp (clock i)
    rw [h.iter] at b2
    exact ⟨b, _, b1, hpos, by omega, by rw [b2]; simp [hne]⟩
  · obtain ⟨k, u, w1, w2, w3, w4, w5, w6⟩ := h.ws
    have hpos := List.length_pos_of_ne_nil w4
    obtain ⟨b, b1, b2⟩ := decision w6 hv hp (clock i)
    rw [h.iter] at b2
    exact ⟨b, _, b1, hpos, w5, by rw [b2]; simp [w4]⟩

/-- C93, negative: with the strategies as they are, a session whose bound cannot be reached while a pair is unknown never ends; so the
sessions without a criterion, with a positive cost limit (no cost is recorded), or with the bound of 100 per cent. -/
theorem C93_never_ends_violation (env : Env) {size : Int} (h0 : 0 < size) {most small : Nat} (hms : most ≤ small)
    (hst : HandsBack size most small env.strat) {ls us : List Ix} (hls : ls ≠ []) (hus : us ≠ [])
    (hll : ∀ ix ∈ ls, Legal size ix) (hul : ∀ ix ∈ us, Legal size ix) (hdis : ∀ p, DenotesAny size ls p → ¬ DenotesAny size us p)
    {ps : List (Int × Int)} (hnd : ps.Nodup) (hps : ∀ p, p ∈ ps ↔ DenotesAny size us p) (hne : ps ≠ [])
    (name : Option String) (value : Option PyNum) (now : ℚ) (stop : Stop) (hnew : Stop.new name value now = .ok stop)
    (hcrit : stop.crit = .none ∨ (∃ c : ℚ, 0 < c ∧ stop.crit = .costLimit ∧ stop.value = some c) ∨
      (stop.crit = .percentOfUnlabel ∧ stop.value = some 1)) (fuel : Nat) :
    session env (ls.map .tup) (us.map .tup) size stop fuel = none := by
  obtain ⟨K0, U0, s1, s2, s3, s4, s5, s6, s7⟩ := start h0 hls hus hll hul hdis hnd hps env stop
  have hU0 : U0.inner ≠ [] := by
    intro h; rw [h] at s5; exact hne (List.length_eq_zero_iff.1 s5.symm)
  obtain ⟨v, hv, hp, hb⟩ : ∃ v : ℚ, (stop.crit ≠ .none → stop.value = some v) ∧ (stop.crit = .percentOfUnlabel → 0 ≤ v ∧ v ≤ 1) ∧
      ∀ (n u : Nat) (t : ℚ), 0 < u → u ≤ U0.inner.length → ¬ BoundReached stop.crit v n 0 U0.inner.length u t := by
    rcases hcrit with h | ⟨c, hc, h, h'⟩ | ⟨h, h'⟩
    · exact ⟨0, by simp [h], by simp [h], by simp [h, BoundReached]⟩
    · exact ⟨c, fun _ => h', by simp [h], by simp [h, BoundReached, hc]⟩
    · refine ⟨1, fun _ => h', by simp, fun n u t hu hle => ?_⟩
      simp only [h, BoundReached, not_le]
      have hpos : (0 : ℚ) < U0.inner.length := by exact_mod_cast (by omega : 0 < U0.inner.length)
      rw [div_lt_one hpos]
      have : (0 : ℚ) < u := by exact_mod_cast hu
      linarith
  rw [s1]
  have key : ∀ (fuel i : Nat) (s : PState), Phase size env.clock stop v K0 U0 i s → loop env fuel i s = none := by
    intro fuel
    induction fuel with
    | zero => intro i s _; rfl
    | succ fuel ih =>
      intro i s h
      obtain ⟨b, u, d1, d2, d3, d4⟩ := phase_decision h hv hp
      have hbf : b = false := by
        cases b with
        | false => rfl
        | true => exact absurd (d4.1 rfl) (hb _ _ _ d2 d3)
      subst hbf
      obtain ⟨s', h1, h2⟩ := phase_step h0 hms hst hU0 h (fun u hu hle => hb _ _ _ hu hle)
      simp only [loop, d1, h1]
      exact ih _ _ h2
  exact key fuel 0 _ (.inl ⟨inv_init (clock := env.clock) s2 s3 s4 hU0 hnew v, hU0, by simp⟩)

/-- C93, negative: with a budget of at least as many queries as there are unknown pairs, the session makes all the `n` queries; at the end no
pair is unknown, but its record says that some pairs are unknown, and its last query is recorded as empty. -/
theorem C93_empty_queries_violation (env : Env) {size : Int} (h0 : 0 < size) {most small : Nat} (hms : most ≤ small)
    (hst : HandsBack size most small env.strat) {ls us : List Ix} (hls : ls ≠ []) (hus : us ≠ [])
    (hll : ∀ ix ∈ ls, Legal size ix) (hul : ∀ ix ∈ us, Legal size ix) (hdis : ∀ p, DenotesAny size ls p → ¬ DenotesAny size us p)
    {ps : List (Int × Int)} (hnd : ps.Nodup) (hps : ∀ p, p ∈ ps ↔ DenotesAny size us p) (hne : ps ≠ []) (n : Nat) (hn : ps.length ≤ n)
    (now : ℚ) (stop : Stop) (hnew : Stop.new (some "num_of_queries") (some (.int n)) now = .ok stop) :
    ∃ r, (∀ fuel, n < fuel → session env (ls.map .tup) (us.map .tup) size stop fuel = some (.ok r)) ∧ r.saver.states.length = n ∧
      (∀ p, ¬ Holds r.unknown p) ∧ (∃ K U p, getWorkspace mlOps r.saver none = .ok (K, U) ∧ Holds U p) ∧
      ∃ es st c, r.saver.states = es ++ [.st st] ∧ st.getValue "select_index" = .ok (.sel (.inr c)) ∧ c.inner = [] := by
  obtain ⟨K0, U0, s1, s2, s3, s4, s5, s6, s7⟩ := start h0 hls hus hll hul hdis hnd hps env stop
  have hs : stop.crit = .numOfQueries ∧ stop.value = some (n : ℚ) := by
    simp only [Stop.new, Stop.parse] at hnew
    cases hnew
    simp
  have hU0 : U0.inner ≠ [] := by
    intro h; rw [h] at s5; exact hne (List.length_eq_zero_iff.1 s5.symm)
  have hv : stop.crit ≠ .none → stop.value = some (n : ℚ) := fun _ => hs.2
  have hp : stop.crit = .percentOfUnlabel → (0 : ℚ) ≤ n ∧ (n : ℚ) ≤ 1 := by simp [hs.1]
  have key : ∀ (m i : Nat) (s : PState), i + m = n → Phase size env.clock stop n K0 U0 i s →
      ∃ r, loop env (m + 1) i s = some (.ok r) ∧ Phase size env.clock stop n K0 U0 n r := by
    intro m
    induction m with
    | zero =>
      intro i s hi h
      obtain ⟨b, u, hb, -, -, hiff⟩ := phase_decision h hv hp
      have : b = true := hiff.2 (by simp only [hs.1, BoundReached]; exact_mod_cast (by omega : n ≤ i))
      subst this
      obtain rfl : i = n := by omega
      exact ⟨s, by simp [loop, hb], h⟩
    | succ m ih =>
      intro i s hi h
      have hnot : ∀ u, ¬ BoundReached stop.crit n i 0 U0.inner.length u (env.clock i - stop.startTime) := by
        intro u
        simp only [hs.1, BoundReached, not_le]
        exact_mod_cast (by omega : i < n)
      obtain ⟨b, u, hb, -, -, hiff⟩ := phase_decision h hv hp
      have hbf : b = false := by
        cases b with
        | false => rfl
        | true => exact absurd (hiff.1 rfl) (hnot u)
      subst hbf
      obtain ⟨s', h1, h2⟩ := phase_step h0 hms hst hU0 h (fun u _ _ => hnot u)
      obtain ⟨r, g1, g2⟩ := ih (i + 1) s' (by omega) h2
      exact ⟨r, by rw [loop]; simp [hb, h1, g1], g2⟩
  obtain ⟨r, r1, r2⟩ := key n 0 _ (by omega) (.inl ⟨inv_init (clock := env.clock) s2 s3 s4 hU0 hnew n, hU0, by simp⟩)
  rcases r2 with ⟨h, hne', hle⟩ | h
  · have := List.length_pos_of_ne_nil hne'
    omega
  · refine ⟨r, fun fuel hf => ?_, h.iter, ?_, ?_, h.last⟩
    · obtain ⟨d, rfl⟩ := Nat.exists_eq_add_of_lt hf
      rw [s1, show n + d + 1 = (n + 1) + d by omega]
      exact loop_mono _ _ _ _ d r1
    · intro p hp
      rw [Holds, h.nothing] at hp
      simp at hp
    · obtain ⟨K, U, w1, w2, w3, w4, -⟩ := h.ws
      obtain ⟨q, hq⟩ := List.exists_mem_of_ne_nil _ w4
      obtain ⟨l, e, -⟩ := (proper_of_good w3).2 q hq
      exact ⟨K, U, (q.1, l), w1, by rw [Holds, ← e]; exact hq⟩

/-- C93, negative, the query that goes wrong: when the container is handed back, all its pairs are taken over as known and none stays
unknown, but the query is recorded with an empty selection, and the record goes on to say what it said before. -/
theorem C93_lost_query_violation (env : Env) {size : Int} (h0 : 0 < size) (i : Nat) (s : PState) (ha : env.strat i s.known s.unknown = .ok .same)
    (hk : MLIC.TameReachable s.known ∧ s.known.lsz = some size ∧ s.known.isList = false)
    (hu : MLIC.TameReachable s.unknown ∧ s.unknown.lsz = some size ∧ s.unknown.isList = false)
    (hws : getWorkspace mlOps s.saver none = .ok (s.known, s.unknown)) (hcost : s.saver.cost = 0) (hinit : s.saver.initU.inner ≠ []) :
    ∃ s' K U c st, body env i s = .ok s' ∧ (∀ p, Holds s'.known p ↔ Holds s.known p ∨ Holds s.unknown p) ∧ (∀ p, ¬ Holds s'.unknown p) ∧
      getWorkspace mlOps s'.saver none = .ok (K, U) ∧ (∀ p, Holds K p ↔ Holds s.known p) ∧ (∀ p, Holds U p ↔ Holds s.unknown p) ∧
      s'.saver.states = s.saver.states ++ [.st st] ∧ st.getValue "select_index" = .ok (.sel (.inr c)) ∧ c.inner = [] := by
  obtain ⟨s', k', u', st, c, b1, -, -, b4, b5, b6, -, -, b9, b10, -, -, -, -, b15, b16, b18, -⟩ :=
    body_same h0 ha hk hu hws hk hu hcost hinit
  exact ⟨s', k', u', c, st, b1, fun p => b4 _, fun p hp => by rw [Holds, b5] at hp; simp at hp, b6, fun p => b9 _, fun p => b10 _, b15, b16, b18⟩

/-! ## The strategies -/

/-- Picking `b` entries at random is a proper question. -/
theorem picked {size : Int} {sh : List Int → List Int} (hs : Spec.IsShuffle sh) {u : MLIC} (hu : Proper size u) {b : Nat} (hb : 0 < b)
    (hle : b ≤ u.inner.length) :
    ∃ perm l, randperm sh (.int ((u.inner.length : Int) - 1)) (.int b) = .ok perm ∧ pickAll u.inner perm = .ok l ∧
      Asks size b u (l.map (fun q => .tup (MLIC.toIx q))) := by
  obtain ⟨perm, hp1, hp2, hp3, hp4⟩ := MLSelect.randperm_int sh hs u.inner.length b (by omega) (by omega)
  obtain ⟨vs, hv1, hv2, hv3⟩ := pickAll_ok u.inner perm hp4
  have hvm := forall₂_pick_mem hv3
  have hlen : vs.length = b := by omega
  have hden : ∀ p, DenotesAny size (vs.map MLIC.toIx) p ↔ (p.1, Second.scal p.2) ∈ vs := by
    intro p
    constructor
    · rintro ⟨ix, hix, hd⟩
      obtain ⟨q, hq, rfl⟩ := List.mem_map.1 hix
      obtain ⟨l, e, -⟩ := hu.2 q (hvm q hq)
      rw [MLIC.toIx, e] at hd
      obtain rfl : p = (q.1, l) := hd
      rwa [← e]
    · intro h
      exact ⟨_, List.mem_map.2 ⟨_, h, rfl⟩, rfl⟩
  refine ⟨perm, vs, hp1, hv1, vs.map MLIC.toIx, by simp [Function.comp_def], ?_, ?_, ?_, ?_⟩
  · intro ix hix
    obtain ⟨q, hq, rfl⟩ := List.mem_map.1 hix
    obtain ⟨l, e, hl⟩ := hu.2 q (hvm q hq)
    rw [MLIC.toIx, e]
    exact hl
  · obtain ⟨q, hq⟩ := List.exists_mem_of_length_pos (by omega : 0 < vs.length)
    obtain ⟨l, e, -⟩ := hu.2 q (hvm q hq)
    exact ⟨(q.1, l), (hden _).2 (by rwa [← e])⟩
  · intro p hp
    exact hvm _ ((hden p).1 hp)
  · intro ps hnd hps
    have hsub : ps.map (fun p => (p.1, Second.scal p.2)) ⊆ vs := by
      intro q hq
      obtain ⟨p, hp, rfl⟩ := List.mem_map.1 hq
      exact (hden p).1 (hps p hp)
    have hnd' : (ps.map (fun p => (p.1, Second.scal p.2))).Nodup := by
      refine hnd.map ?_
      intro a b h
      simp only [Prod.mk.injEq, Second.scal.injEq] at h
      exact Prod.ext h.1 h.2
    have := (List.subperm_of_subset hnd' hsub).length_le
    rw [List.length_map] at this
    omega

/-- C93, the assumption of the theorems above holds for `QueryFeatureRandom` with the default batch size, for all shuffles. -/
theorem C93_feature_random (size : Int) (sh : Nat → List Int → List Int) (hs : ∀ i, Spec.IsShuffle (sh i)) :
    HandsBack size 1 1 (fun i _ unknown => featureRandom (sh i) 1 unknown) := by
  intro i known unknown
  constructor
  · intro h; simp [featureRandom, h]
  · intro hu h
    obtain ⟨perm, l, p1, p2, p3⟩ := picked (hs i) hu (b := 1) (by omega) (by omega)
    refine ⟨_, ?_, p3⟩
    dsimp only [featureRandom]
    rw [if_neg (by omega)]
    rw [show ((1 : Nat) : Int) = 1 from rfl] at p1
    rw [p1]
    dsimp only
    rw [p2]

/-- C93, and for `QueryMultiLabelRandom` asking for pairs (`select_type='ins-lab'`) with a batch size of `b`. -/
theorem C93_random_pairs (n L : Nat) (b : Nat) (hb : 0 < b) (sh : Nat → List Int → List Int) (hs : ∀ i, Spec.IsShuffle (sh i))
    (strat : Nat → MLIC → MLIC → Except PyErr Answer)
    (hstrat : ∀ i known unknown,
      (MLSelect.random (sh i) n L .insLab (.coll unknown) b = .ok .whole → strat i known unknown = .ok .same) ∧
      ∀ l, MLSelect.random (sh i) n L .insLab (.coll unknown) b = .ok (.pairs l) →
        strat i known unknown = .ok (.fresh (l.map (fun q => .tup (.pair q.1 q.2))))) :
    HandsBack L b b strat := by
  intro i known unknown
  constructor
  · intro h
    refine (hstrat i known unknown).1 ?_
    have hc : (unknown.inner.length : Int) ≤ b := by omega
    simp [MLSelect.random, MLSelect.PairArg.len, hc]
  · intro hu h
    obtain ⟨perm, l, p1, p2, p3⟩ := picked (hs i) hu (b := b) hb (by omega)
    refine ⟨_, (hstrat i known unknown).2 l ?_, p3⟩
    have hc : ¬ (unknown.inner.length : Int) ≤ b := by omega
    simp only [MLSelect.random, MLSelect.PairArg.len, MLSelect.checkInd, hc, if_false, p1, p2]

/-- C93, negative: `QueryFeatureRandom` does not compare the batch size with the number of unknown entries: with at least two, but fewer
than the batch size, every call raises ValueError. -/
theorem C93_feature_batch_violation (sh : List Int → List Int) (batch : Int) (unknown : MLIC) (h2 : 2 ≤ unknown.inner.length)
    (hb : (unknown.inner.length : Int) < batch) : featureRandom sh batch unknown = .error .valueError := by
  dsimp only [featureRandom]
  rw [if_neg (by omega)]
  have : randperm sh (.int ((unknown.inner.length : Int) - 1)) (.int batch) = .error .valueError := by
    simp only [randperm]; rw [if_pos (by omega)]
  rw [this]

/-! Concrete cases. -/

/-- A strategy that asks for the first unknown entry. -/
example : AlwaysLists 3 (fun _ _ u => match u.inner with
    | [] => .error .valueError
    | q :: _ => .ok (.fresh [.tup (MLIC.toIx q)])) := by
  intro i known u hu hne
  obtain ⟨q, r, e⟩ := List.exists_cons_of_ne_nil hne
  obtain ⟨l, hl, h1⟩ := hu.2 q (by rw [e]; simp)
  have hd : ∀ p, DenotesAny 3 [MLIC.toIx q] p ↔ p = (q.1, l) := by
    intro p; simp [DenotesAny, MLIC.toIx, hl, Denotes]
  refine ⟨[.tup (MLIC.toIx q)], 1, by dsimp only; rw [e], [MLIC.toIx q], rfl, ?_, ⟨(q.1, l), (hd _).2 rfl⟩, ?_, ?_⟩
  · simp [MLIC.toIx, hl, Legal, h1]
  · intro p hp
    rw [(hd p).1 hp, Holds]
    dsimp only
    rw [← hl, e]; simp
  · intro ps hnd hps
    have : ps ⊆ [(q.1, l)] := fun p hp => by simpa using (hd p).1 (hps p hp)
    exact (List.subperm_of_subset hnd this).length_le

/-- A session of `QueryFeatureRandom` on two instances with two features, without a criterion: it never ends. -/
example (perf : Nat → Obj (List Item ⊕ MLIC)) (clock : Nat → ℚ) (fuel : Nat) :
    session ⟨fun _ _ u => featureRandom id 1 u, perf, clock⟩ [.tup (.pair 0 (.scal 0))] [.tup (.pair 0 (.scal 1)), .tup (.all 1)] 2
      ⟨.none, none, none, 0, 0, 0, 100, 0⟩ fuel = none := by
  refine C93_never_ends_violation _ (by decide) (le_refl 1) (C93_feature_random 2 (fun _ => id) (fun _ l => List.Perm.refl l))
    (ls := [.pair 0 (.scal 0)]) (us := [.pair 0 (.scal 1), .all 1]) (by simp) (by simp) ?_ ?_ ?_ (ps := [(0, 1), (1, 0), (1, 1)]) (by decide) ?_ (by simp)
    none none 0 _ rfl (.inl rfl) fuel
  · simp [Legal]
  · simp [Legal]
  · simp [DenotesAny, Denotes]
  · rintro ⟨a, b⟩
    simp only [DenotesAny, Denotes, List.mem_cons, List.not_mem_nil, or_false, exists_eq_or_imp, exists_eq_left, Prod.mk.injEq]
    omega

/-- The entries known and unknown at the end, and those known and unknown according to the record. -/
def ending (x : Option (Except PyErr PState)) : List (List (Int × Second)) :=
  match x with
  | some (.ok r) =>
    match getWorkspace mlOps r.saver none with
    | .ok (k, u) => [r.known.inner, r.unknown.inner, k.inner, u.inner]
    | .error _ => []
  | _ => []

/-- The same session with a budget of three queries. -/
example : ending (session ⟨fun _ _ u => featureRandom id 1 u, fun _ => .other 0, fun _ => 0⟩ [.tup (.pair 0 (.scal 0))]
      [.tup (.pair 0 (.scal 1)), .tup (.all 1)] 2 ⟨.numOfQueries, some 3, some 3, 0, 0, 0, 100, 0⟩ 4) =
    [[(0, .scal 0), (0, .scal 1), (1, .scal 0), (1, .scal 1)], [], [(0, .scal 0), (0, .scal 1), (1, .scal 0)], [(1, .scal 1)]] := by
  decide +kernel

end Alipy.PairSession
