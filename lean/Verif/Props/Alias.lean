import Verif.Spec.Alias
import Mathlib.Data.List.Forall2
import Mathlib.Tactic.Linarith

/-! # C95: the record is not changed from outside -/
namespace Alipy.Alias
open Spec

/-! ## Regions -/

theorem shows_congr {h h' : Heap} {P : Nat → Prop} (hc : ∀ r, P r → h'.cell r = h.cell r) (hin : ∀ q, P q → ∀ r, .ref r ∈ h.cell q → P r) :
    ∀ (n : Nat) (v : PV), (∀ r, v = .ref r → P r) → shows h' n v = shows h n v
  | _, .atom a, _ => by cases ‹Nat› <;> rfl
  | 0, .ref r, _ => rfl
  | n + 1, .ref r, hv => by
    have hr := hv r rfl
    simp only [shows, hc r hr, Shown.node.injEq]
    refine List.map_congr_left (fun w hw => shows_congr hc hin n w ?_)
    rintro q rfl
    exact hin r hr q hw

theorem shows_copy (h : Heap) (hs : ∀ q < h.next, ∀ r, .ref r ∈ h.cell q → r < h.next) (w : PV) :
    ∀ (n : Nat) (v : PV), (∀ r, v = .ref r → r < h.next) → shows (h.deepcopy w).1 n (shift h.next v) = shows h n v
  | _, .atom a, _ => by cases ‹Nat› <;> rfl
  | 0, .ref r, _ => rfl
  | n + 1, .ref r, hv => by
    have hr := hv r rfl
    have e : (h.deepcopy w).1.cell (r + h.next) = (h.cell r).map (shift h.next) := by
      simp [Heap.deepcopy, show ¬ (r + h.next < h.next) by omega]
    simp only [shift, shows, Shown.node.injEq]
    rw [e, List.map_map]
    refine List.map_congr_left (fun x hx => shows_copy h hs w n x ?_)
    rintro q rfl
    exact hs r hr q hx

/-- The colour of the objects of the record: not 0. -/
abbrev Priv (col : Nat → Nat) (r : Nat) : Prop := col r ≠ 0

/-- The invariant: the objects are coloured so that objects refer to objects of their own colour only. Those the program can get hold of have the
colour 0, those of the collections of the saver the colour 1, and every recorded state has its own colour `cs`. -/
structure Reg (s : Sys) (col : Nat → Nat) (cs : List Nat) : Prop where
  below : ∀ r, Priv col r → r < s.heap.next
  cells : ∀ q < s.heap.next, ∀ r, .ref r ∈ s.heap.cell q → r < s.heap.next
  inner : ∀ q, Priv col q → ∀ r, .ref r ∈ s.heap.cell q → col r = col q
  outer : ∀ q < s.heap.next, ¬ Priv col q → ∀ r, .ref r ∈ s.heap.cell q → ¬ Priv col r
  vars : ∀ r, .ref r ∈ s.vars → r < s.heap.next ∧ ¬ Priv col r
  train : ∀ r, s.train = .ref r → r < s.heap.next ∧ (¬ Priv col r ∨ (col r = 1 ∧ ∀ w ∈ s.heap.cell r, ∃ a, w = .atom a))
  initial : ∀ r, s.initial = .ref r → r < s.heap.next ∧ ¬ Priv col r
  inits : ∀ r, (s.initU = .ref r ∨ s.initL = .ref r) → col r = 1
  own : List.Forall₂ (fun v c => ∀ r, v = PV.ref r → col r = c) s.states cs
  two : ∀ c ∈ cs, 2 ≤ c
  nodup : cs.Nodup

theorem forall₂_left {α β : Type} {R : α → β → Prop} : ∀ {l : List α} {m : List β}, List.Forall₂ R l m → ∀ a ∈ l, ∃ b ∈ m, R a b
  | _, _, .cons h t, a, ha => by
    rcases List.mem_cons.1 ha with rfl | ha
    · exact ⟨_, by simp, h⟩
    · obtain ⟨b, hb, hR⟩ := forall₂_left t a ha
      exact ⟨b, List.mem_cons_of_mem _ hb, hR⟩

theorem Reg.priv {s : Sys} {col : Nat → Nat} {cs : List Nat} (h : Reg s col cs) :
    ∀ r, (.ref r ∈ s.states ∨ s.initU = .ref r ∨ s.initL = .ref r) → Priv col r := by
  rintro r (hr | hr)
  · obtain ⟨c, hc, hR⟩ := forall₂_left h.own _ hr
    have := h.two c hc
    have := hR r rfl
    unfold Priv
    omega
  · have := h.inits r hr
    unfold Priv
    omega

theorem Reg.within {s : Sys} {col : Nat → Nat} {cs : List Nat} (h : Reg s col cs) {v : PV} (hw : Within s.heap s.vars v) :
    ∀ r, v = .ref r → r < s.heap.next ∧ ¬ Priv col r := by
  induction hw with
  | const a => intro r e; cases e
  | var hv => rintro r rfl; exact h.vars r hv
  | slot _ hv ih =>
    rintro r rfl
    obtain ⟨h1, h2⟩ := ih _ rfl
    exact ⟨h.cells _ h1 _ hv, h.outer _ h1 h2 _ hv⟩

/-- A heap `h'` that extends `h` by new objects that refer to values outside of the region (old or new), as far as the program sees it. -/
structure Ext (h h' : Heap) (P : Nat → Prop) : Prop where
  le : h.next ≤ h'.next
  old : ∀ r < h.next, h'.cell r = h.cell r
  new : ∀ q, h.next ≤ q → q < h'.next → ∀ r, .ref r ∈ h'.cell q → r < h'.next ∧ ¬ P r

theorem Ext.refl (h : Heap) (P : Nat → Prop) : Ext h h P := ⟨le_refl _, fun _ _ => rfl, fun q h1 h2 => by omega⟩

theorem Ext.trans {h h' h'' : Heap} {P : Nat → Prop} (a : Ext h h' P) (b : Ext h' h'' P) : Ext h h'' P :=
  ⟨a.le.trans b.le, fun r hr => (b.old r (lt_of_lt_of_le hr a.le)).trans (a.old r hr), fun q h1 h2 r hr => by
    by_cases hq : q < h'.next
    · rw [b.old q hq] at hr
      obtain ⟨x, y⟩ := a.new q h1 hq r hr
      exact ⟨lt_of_lt_of_le x b.le, y⟩
    · exact b.new q (by omega) h2 r hr⟩

theorem ext_alloc {h : Heap} {P : Nat → Prop} {slots : List PV} (hs : ∀ r, .ref r ∈ slots → r < h.next ∧ ¬ P r) :
    Ext h (h.alloc slots).1 P := by
  refine ⟨by simp [Heap.alloc], fun r hr => ?_, fun q h1 h2 r hr => ?_⟩
  · simp only [Heap.alloc]; rw [if_neg (by omega)]
  · simp only [Heap.alloc] at h2 hr ⊢
    rw [if_pos (by omega)] at hr
    obtain ⟨x, y⟩ := hs r hr
    exact ⟨by omega, y⟩

theorem shift_mem {k r : Nat} {l : List PV} (h : PV.ref r ∈ l.map (shift k)) : ∃ q, PV.ref q ∈ l ∧ r = q + k := by
  obtain ⟨v, hv, e⟩ := List.mem_map.1 h
  cases v with
  | atom a => cases e
  | ref q => simp only [shift, PV.ref.injEq] at e; exact ⟨q, hv, e.symm⟩

theorem ext_deepcopy {h : Heap} {P : Nat → Prop} (hb : ∀ r, P r → r < h.next) (hc : ∀ q < h.next, ∀ r, .ref r ∈ h.cell q → r < h.next) (v : PV) :
    Ext h (h.deepcopy v).1 P := by
  refine ⟨by simp [Heap.deepcopy], fun r hr => by simp [Heap.deepcopy, hr], fun q h1 h2 r hr => ?_⟩
  simp only [Heap.deepcopy] at h2 hr ⊢
  rw [if_neg (by omega)] at hr
  obtain ⟨q', hq', rfl⟩ := shift_mem hr
  have := hc (q - h.next) (by omega) q' hq'
  exact ⟨by omega, fun hp => by have := hb _ hp; omega⟩

theorem ext_cells {h h' : Heap} {P : Nat → Prop} (e : Ext h h' P) (hc : ∀ q < h.next, ∀ r, .ref r ∈ h.cell q → r < h.next) :
    ∀ q < h'.next, ∀ r, .ref r ∈ h'.cell q → r < h'.next := by
  intro q hq r hr
  by_cases h1 : q < h.next
  · rw [e.old q h1] at hr; exact lt_of_lt_of_le (hc q h1 r hr) e.le
  · exact (e.new q (by omega) hq r hr).1

theorem ext_copy {h : Heap} {P : Nat → Prop} {v : PV} (hc : ∀ q < h.next, ∀ r, .ref r ∈ h.cell q → r < h.next)
    (ho : ∀ q < h.next, ¬ P q → ∀ r, .ref r ∈ h.cell q → ¬ P r)
    (hv : ∀ r, v = .ref r → r < h.next ∧ (¬ P r ∨ ∀ w ∈ h.cell r, ∃ a, w = .atom a)) :
    Ext h (h.copy v).1 P := by
  cases v with
  | atom a => exact Ext.refl h P
  | ref r =>
    obtain ⟨h1, h2⟩ := hv r rfl
    refine ext_alloc (fun q hq => ⟨hc r h1 q hq, ?_⟩)
    rcases h2 with h2 | h2
    · exact ho r h1 h2 q hq
    · obtain ⟨a, e⟩ := h2 _ hq
      cases e

/-- A value outside of the region. -/
def Out (h : Heap) (P : Nat → Prop) (v : PV) : Prop := ∀ r, v = .ref r → r < h.next ∧ ¬ P r

theorem Out.mono {h h' : Heap} {P : Nat → Prop} {v : PV} (a : Out h P v) (e : Ext h h' P) : Out h' P v :=
  fun r hr => ⟨lt_of_lt_of_le (a r hr).1 e.le, (a r hr).2⟩

theorem out_deepcopy {h : Heap} {P : Nat → Prop} (hb : ∀ r, P r → r < h.next) {v : PV} (hv : ∀ r, v = .ref r → r < h.next) :
    Out (h.deepcopy v).1 P (h.deepcopy v).2 := by
  intro r e
  cases v with
  | atom a => simp [Heap.deepcopy, shift] at e
  | ref q =>
    simp only [Heap.deepcopy, shift, PV.ref.injEq] at e
    have := hv q rfl
    subst e
    simp only [Heap.deepcopy]
    exact ⟨by omega, fun hp => by have := hb _ hp; omega⟩

theorem out_alloc {h : Heap} {P : Nat → Prop} (hb : ∀ r, P r → r < h.next) (slots : List PV) : Out (h.alloc slots).1 P (h.alloc slots).2 := by
  intro r e
  simp only [Heap.alloc, PV.ref.injEq] at e
  subst e
  exact ⟨by simp [Heap.alloc], fun hp => by have := hb _ hp; omega⟩

theorem out_copy {h : Heap} {P : Nat → Prop} (hb : ∀ r, P r → r < h.next) (v : PV) : Out (h.copy v).1 P (h.copy v).2 := by
  cases v with
  | atom a => intro r e; simp [Heap.copy] at e
  | ref r => exact out_alloc hb _

/-- What is needed of the heap alone. -/
structure HReg (h : Heap) (P : Nat → Prop) : Prop where
  below : ∀ r, P r → r < h.next
  cells : ∀ q < h.next, ∀ r, .ref r ∈ h.cell q → r < h.next
  inner : ∀ q, P q → ∀ r, .ref r ∈ h.cell q → P r
  outer : ∀ q < h.next, ¬ P q → ∀ r, .ref r ∈ h.cell q → ¬ P r

theorem Reg.heapReg {s : Sys} {col : Nat → Nat} {cs : List Nat} (h : Reg s col cs) : HReg s.heap (Priv col) :=
  ⟨h.below, h.cells, fun q hq r hr => by unfold Priv; rw [h.inner q hq r hr]; exact hq, h.outer⟩

theorem HReg.ext {h h' : Heap} {P : Nat → Prop} (a : HReg h P) (e : Ext h h' P) : HReg h' P where
  below r hr := lt_of_lt_of_le (a.below r hr) e.le
  cells := ext_cells e a.cells
  inner q hq r hr := by rw [e.old q (a.below q hq)] at hr; exact a.inner q hq r hr
  outer q hq hn r hr := by
    by_cases h1 : q < h.next
    · rw [e.old q h1] at hr; exact a.outer q h1 hn r hr
    · exact (e.new q (by omega) hq r hr).2

theorem newState_out {h : Heap} {P : Nat → Prop} (a : HReg h P) {sel perf lab cost : PV} (h1 : Out h P sel) (h2 : Out h P perf) (h3 : Out h P lab)
    (h4 : Out h P cost) : Ext h (newState h sel perf lab cost).1 P ∧ Out (newState h sel perf lab cost).1 P (newState h sel perf lab cost).2 := by
  have e1 := ext_deepcopy a.below a.cells sel
  have a1 := a.ext e1
  have o1 := out_deepcopy a.below (fun r hr => (h1 r hr).1)
  have e2 := ext_copy a1.cells a1.outer (fun r hr => ⟨((h2.mono e1) r hr).1, .inl ((h2.mono e1) r hr).2⟩)
  have a2 := a1.ext e2
  have o2 := out_copy a1.below perf
  have h3' := (h3.mono e1).mono e2
  have e3 := ext_deepcopy a2.below a2.cells lab
  have a3 := a2.ext e3
  have o3 := out_deepcopy a2.below (fun r hr => (h3' r hr).1)
  have h4' := ((h4.mono e1).mono e2).mono e3
  have e4 := ext_copy a3.cells a3.outer (fun r hr => ⟨(h4' r hr).1, .inl (h4' r hr).2⟩)
  have a4 := a3.ext e4
  have o4 := out_copy a3.below cost
  have e5 := ext_alloc (h := ((((h.deepcopy sel).1.copy perf).1.deepcopy lab).1.copy cost).1) (P := P)
    (slots := [(h.deepcopy sel).2, ((h.deepcopy sel).1.copy perf).2, (((h.deepcopy sel).1.copy perf).1.deepcopy lab).2,
      ((((h.deepcopy sel).1.copy perf).1.deepcopy lab).1.copy cost).2]) (by
    intro r hr
    simp only [List.mem_cons, List.not_mem_nil, or_false] at hr
    rcases hr with hr | hr | hr | hr
    · exact (((o1.mono e2).mono e3).mono e4) r hr.symm
    · exact ((o2.mono e3).mono e4) r hr.symm
    · exact (o3.mono e4) r hr.symm
    · exact o4 r hr.symm)
  exact ⟨(((e1.trans e2).trans e3).trans e4).trans e5, out_alloc a4.below _⟩

/-- A step in which the heap is extended, and the variables get new values from outside of the record. -/
theorem Reg.step {s : Sys} {col : Nat → Nat} {cs : List Nat} (a : Reg s col cs) {h' : Heap} (e : Ext s.heap h' (Priv col)) {vars' : List PV}
    (hv : ∀ r, .ref r ∈ vars' → .ref r ∈ s.vars ∨ (r < h'.next ∧ ¬ Priv col r)) {states' : List PV} {cs' : List Nat}
    (hst : List.Forall₂ (fun v c => ∀ r, v = PV.ref r → col r = c) states' cs') (hcs : List.Sublist cs' cs) {init' : PV}
    (hi : ∀ r, init' = .ref r → r < h'.next ∧ ¬ Priv col r) :
    Reg { s with heap := h', vars := vars', states := states', initial := init' } col cs' := by
  have b := a.heapReg.ext e
  refine ⟨b.below, b.cells, fun q hq r hr => ?_, b.outer, fun r hr => ?_, fun r hr => ?_, hi, a.inits, hst, fun c hc => a.two c (hcs.subset hc),
    a.nodup.sublist hcs⟩
  · rw [e.old q (a.below q hq)] at hr; exact a.inner q hq r hr
  · rcases hv r hr with h | h
    · obtain ⟨x, y⟩ := a.vars r h
      exact ⟨lt_of_lt_of_le x e.le, y⟩
    · exact h
  · obtain ⟨x, y⟩ := a.train r hr
    refine ⟨lt_of_lt_of_le x e.le, ?_⟩
    rcases y with y | y
    · exact .inl y
    · exact .inr ⟨y.1, by rw [e.old r x]; exact y.2⟩

/-- Overwriting an object outside of the record. -/
theorem Reg.write {s : Sys} {col : Nat → Nat} {cs : List Nat} (a : Reg s col cs) {r : Nat} (hr2 : ¬ Priv col r) {slots : List PV}
    (hw : ∀ q, .ref q ∈ slots → q < s.heap.next ∧ ¬ Priv col q) :
    Reg (s.write r slots) col cs ∧ ∀ q, Priv col q → (s.write r slots).heap.cell q = s.heap.cell q := by
  have hc : ∀ q, Priv col q → (s.write r slots).heap.cell q = s.heap.cell q := by
    intro q hq
    simp only [Sys.write, Heap.write]
    rw [if_neg (by rintro rfl; exact hr2 hq)]
  refine ⟨⟨a.below, ?_, ?_, ?_, a.vars, ?_, a.initial, a.inits, a.own, a.two, a.nodup⟩, hc⟩
  · intro q hq x hx
    simp only [Sys.write, Heap.write] at hx ⊢
    by_cases hqr : q = r
    · rw [if_pos hqr] at hx; exact (hw x hx).1
    · rw [if_neg hqr] at hx; exact a.cells q hq x hx
  · intro q hq x hx
    rw [hc q hq] at hx
    exact a.inner q hq x hx
  · intro q hq hn x hx
    simp only [Sys.write, Heap.write] at hx
    by_cases hqr : q = r
    · rw [if_pos hqr] at hx; exact (hw x hx).2
    · rw [if_neg hqr] at hx; exact a.outer q hq hn x hx
  · intro q hq
    obtain ⟨x, y⟩ := a.train q hq
    refine ⟨x, y.imp id (fun y => ⟨y.1, ?_⟩)⟩
    rw [hc q (by unfold Priv; omega)]
    exact y.2

theorem same_shows {h h' : Heap} {P : Nat → Prop} (a : HReg h P) (e : ∀ r, P r → h'.cell r = h.cell r) (n : Nat) {vs : List PV}
    (hv : ∀ r, .ref r ∈ vs → P r) : vs.map (shows h' n) = vs.map (shows h n) :=
  List.map_congr_left (fun v hv' => shows_congr e a.inner n v (fun r hr => hv r (hr ▸ hv')))

/-- The record, and the collections the saver started from. -/
def record (n : Nat) (s : Sys) : List Shown := s.states.map (shows s.heap n)

theorem forall₂_take {α β : Type} {R : α → β → Prop} : ∀ {l : List α} {m : List β} (k : Nat), List.Forall₂ R l m →
    List.Forall₂ R (l.take k) (m.take k)
  | _, _, 0, _ => by simp
  | _, _, _ + 1, .nil => by simp
  | _, _, k + 1, .cons h t => .cons h (forall₂_take k t)

theorem forall₂_erase {α β : Type} {R : α → β → Prop} : ∀ {l : List α} {m : List β} (k : Nat), List.Forall₂ R l m →
    List.Forall₂ R (l.eraseIdx k) (m.eraseIdx k)
  | _, _, _, .nil => by simp
  | _, _, 0, .cons _ t => t
  | _, _, k + 1, .cons h t => .cons h (forall₂_erase k t)

theorem forall₂_getElem? {α β : Type} {R : α → β → Prop} : ∀ {l : List α} {m : List β} {k : Nat} {a : α}, List.Forall₂ R l m → l[k]? = some a →
    ∃ b, m[k]? = some b ∧ R a b
  | _, _, _, _, .nil, h => by simp at h
  | _, _, 0, _, .cons h t, e => by simp at e; subst e; exact ⟨_, by simp, h⟩
  | _, _, k + 1, _, .cons h t, e => by simpa using forall₂_getElem? t (by simpa using e)

theorem map_eraseIdx {α β : Type} (f : α → β) : ∀ (l : List α) (i : Nat), (l.eraseIdx i).map f = (l.map f).eraseIdx i
  | [], _ => rfl
  | _ :: _, 0 => rfl
  | a :: l, i + 1 => by simp [map_eraseIdx f l i]

theorem not_mem_erase {c : Nat} : ∀ {cs : List Nat} {i : Nat}, cs.Nodup → cs[i]? = some c → c ∉ cs.eraseIdx i
  | [], _, _, h => by simp at h
  | a :: cs, 0, hn, h => by simp at h; subst h; exact (List.nodup_cons.1 hn).1
  | a :: cs, i + 1, hn, h => by
    obtain ⟨h1, h2⟩ := List.nodup_cons.1 hn
    simp only [List.getElem?_cons_succ] at h
    simp only [List.eraseIdx_cons_succ, List.mem_cons, not_or]
    refine ⟨?_, not_mem_erase h2 h⟩
    rintro rfl
    exact h1 (List.mem_of_getElem? h)

theorem bound_of (cs : List Nat) : ∃ c, 2 ≤ c ∧ ∀ x ∈ cs, x < c := by
  induction cs with
  | nil => exact ⟨2, le_refl _, by simp⟩
  | cons a cs ih =>
    obtain ⟨c, h1, h2⟩ := ih
    refine ⟨max c (a + 1), by omega, fun x hx => ?_⟩
    rcases List.mem_cons.1 hx with rfl | hx
    · omega
    · have := h2 x hx; omega

theorem forall₂_imp_mem {α β : Type} {R S : α → β → Prop} : ∀ {l : List α} {m : List β}, List.Forall₂ R l m →
    (∀ a b, b ∈ m → R a b → S a b) → List.Forall₂ S l m
  | _, _, .nil, _ => .nil
  | _, _, .cons h t, f => .cons (f _ _ (by simp) h) (forall₂_imp_mem t (fun a b hb => f a b (List.mem_cons_of_mem _ hb)))

theorem invariant {n : Nat} {s0 : Sys} {col0 : Nat → Nat} {cs0 : List Nat} (h0 : Reg s0 col0 cs0) (hs0 : s0.states = []) {s : Sys} {rec : List Shown} (h : Uses n s0 s rec) :
    (∃ col cs, Reg s col cs ∧ ((∀ r, s0.train = .ref r → col0 r = 1) →
      (∀ r, s.train = .ref r → col r = 1) ∧ shows s.heap n s.train = shows s0.heap n s0.train)) ∧ record n s = rec ∧ shows s.heap n s.initU = shows s0.heap n s0.initU ∧ shows s.heap n s.initL = shows s0.heap n s0.initL ∧ s.train = s0.train := by
  have keep : ∀ {s s' : Sys} {col : Nat → Nat} {cs : List Nat}, Reg s col cs → (∀ r, Priv col r → s'.heap.cell r = s.heap.cell r) → s'.initU = s.initU → s'.initL = s.initL →
      s'.train = s.train → ((∀ r, s.train = .ref r → col r = 1) → shows s'.heap n s'.train = shows s.heap n s.train) ∧
      (∀ vs : List PV, (∀ v ∈ vs, v ∈ s.states) → vs.map (shows s'.heap n) = vs.map (shows s.heap n)) ∧
      shows s'.heap n s'.initU = shows s.heap n s.initU ∧ shows s'.heap n s'.initL = shows s.heap n s.initL := by
    intro s s' col cs a e h1 h2 h3
    refine ⟨fun ht => ?_, fun vs hvs => same_shows a.heapReg e n (fun r hr => a.priv r (.inl (hvs _ hr))), ?_, ?_⟩
    · rw [h3]
      refine shows_congr e a.heapReg.inner n _ (fun r hr => ?_)
      have := ht r hr
      unfold Priv
      omega
    · rw [h1]; exact shows_congr e a.heapReg.inner n _ (fun r hr => a.priv r (.inr (.inl hr)))
    · rw [h2]; exact shows_congr e a.heapReg.inner n _ (fun r hr => a.priv r (.inr (.inr hr)))
  have wsp : ∀ {s : Sys} {col : Nat → Nat} {cs : List Nat} {states' : List PV} {cs' : List Nat} (idx : List Int), Reg s col cs →
      List.Forall₂ (fun v c => ∀ r, v = PV.ref r → col r = c) states' cs' → List.Sublist cs' cs →
      Reg ({ s with states := states' }.workspace idx) col cs' ∧
      (∀ r, Priv col r → ({ s with states := states' }.workspace idx).heap.cell r = s.heap.cell r) := by
    intro s col cs states' cs' idx a hst hcs
    have e1 := ext_copy a.cells a.outer (fun r hr => ⟨(a.train r hr).1, (a.train r hr).2.imp id And.right⟩)
    have a1 := a.heapReg.ext e1
    have o1 := out_copy a.below s.train
    have e2 := ext_alloc (h := (s.heap.copy s.train).1) (P := Priv col) (slots := idx.map .atom) (by
      intro r hr
      obtain ⟨x, _, hx⟩ := List.mem_map.1 hr
      cases hx)
    have o2 := out_alloc a1.below (idx.map PV.atom)
    refine ⟨?_, fun r hr => (e1.trans e2).old r (a.below r hr)⟩
    refine a.step (e1.trans e2) (fun r hr => ?_) hst hcs (fun r hr => ?_)
    · simp only [List.mem_cons] at hr
      rcases hr with hr | hr | hr
      · exact .inr ((o1.mono e2) r hr.symm)
      · exact .inr (o2 r hr.symm)
      · exact .inl hr
    · obtain ⟨x, y⟩ := a.initial r hr
      exact ⟨lt_of_lt_of_le x (e1.trans e2).le, y⟩
  induction h with
  | start => exact ⟨⟨col0, cs0, h0, fun h => ⟨h, rfl⟩⟩, by simp [record, hs0], rfl, rfl, rfl⟩
  | @make s rec slots _ hw ih =>
    obtain ⟨⟨col, cs, a, i0⟩, i1, i2, i3, i4⟩ := ih
    have hs : ∀ r, PV.ref r ∈ slots → r < s.heap.next ∧ ¬ Priv col r := fun r hr => a.within (hw _ hr) r rfl
    have e := ext_alloc hs
    obtain ⟨k0, k1, k2, k3⟩ := keep (s' := s.make slots) a (fun r hr => e.old r (a.below r hr)) rfl rfl rfl
    refine ⟨⟨col, cs, a.step e (fun r hr => ?_) a.own (List.Sublist.refl _) (fun r hr => ?_), fun h => ⟨(i0 h).1, (k0 (i0 h).1).trans (i0 h).2⟩⟩, (k1 s.states (fun v hv => hv)).trans i1, k2.trans i2, k3.trans i3, i4⟩
    · rcases List.mem_cons.1 hr with hr | hr
      · exact .inr (out_alloc a.below slots r hr.symm)
      · exact .inl hr
    · obtain ⟨x, y⟩ := a.initial r hr
      exact ⟨lt_of_lt_of_le x e.le, y⟩
  | @write s rec r slots _ hr hw ih =>
    obtain ⟨⟨col, cs, a, i0⟩, i1, i2, i3, i4⟩ := ih
    obtain ⟨hr1, hr2⟩ := a.within hr r rfl
    obtain ⟨b, hc⟩ := a.write hr2 (slots := slots) (fun q hq => a.within (hw _ hq) q rfl)
    obtain ⟨k0, k1, k2, k3⟩ := keep (s' := s.write r slots) a hc rfl rfl rfl
    exact ⟨⟨col, cs, b, fun h => ⟨(i0 h).1, (k0 (i0 h).1).trans (i0 h).2⟩⟩, (k1 s.states (fun v hv => hv)).trans i1, k2.trans i2, k3.trans i3, i4⟩
  | @setValue s rec r i v _ hr hv ih =>
    obtain ⟨⟨col, cs, a, i0⟩, i1, i2, i3, i4⟩ := ih
    obtain ⟨hr1, hr2⟩ := a.within hr r rfl
    have e := ext_deepcopy a.below a.cells v
    have o := out_deepcopy a.below (fun q hq => (a.within hv q hq).1)
    have a1 : Reg { s with heap := (s.heap.deepcopy v).1 } col cs := a.step e (fun q hq => .inl hq) a.own (List.Sublist.refl _) (fun q hq => by
      obtain ⟨x, y⟩ := a.initial q hq
      exact ⟨lt_of_lt_of_le x e.le, y⟩)
    obtain ⟨b, hc⟩ := a1.write hr2 (slots := ((s.heap.deepcopy v).1.cell r).set i (s.heap.deepcopy v).2) (fun q hq => by
      rcases List.mem_or_eq_of_mem_set hq with h | h
      · have hr' : r < (s.heap.deepcopy v).1.next := lt_of_lt_of_le hr1 e.le
        exact ⟨a1.cells r hr' q h, a1.outer r hr' hr2 q h⟩
      · exact o q h.symm)
    obtain ⟨k0, k1, k2, k3⟩ := keep (s' := s.setValue r i v) a (fun q hq => (hc q hq).trans (e.old q (a.below q hq))) rfl rfl rfl
    exact ⟨⟨col, cs, b, fun h => ⟨(i0 h).1, (k0 (i0 h).1).trans (i0 h).2⟩⟩, (k1 s.states (fun v hv => hv)).trans i1, k2.trans i2, k3.trans i3, i4⟩
  | @newState s rec sel perf lab cost _ hw ih =>
    obtain ⟨⟨col, cs, a, i0⟩, i1, i2, i3, i4⟩ := ih
    obtain ⟨e, o⟩ := newState_out a.heapReg (a.within (hw sel (by simp))) (a.within (hw perf (by simp))) (a.within (hw lab (by simp)))
      (a.within (hw cost (by simp)))
    obtain ⟨k0, k1, k2, k3⟩ := keep (s' := s.newState sel perf lab cost) a (fun r hr => e.old r (a.below r hr)) rfl rfl rfl
    refine ⟨⟨col, cs, a.step e (fun r hr => ?_) a.own (List.Sublist.refl _) (fun r hr => ?_), fun h => ⟨(i0 h).1, (k0 (i0 h).1).trans (i0 h).2⟩⟩, (k1 s.states (fun v hv => hv)).trans i1, k2.trans i2, k3.trans i3, i4⟩
    · rcases List.mem_cons.1 hr with hr | hr
      · exact .inr (o r hr.symm)
      · exact .inl hr
    · obtain ⟨x, y⟩ := a.initial r hr
      exact ⟨lt_of_lt_of_le x e.le, y⟩
  | @addState s rec v _ hw ih =>
    obtain ⟨⟨col, cs, a, i0⟩, i1, i2, i3, i4⟩ := ih
    have hv : ∀ r, v = .ref r → r < s.heap.next := fun r hr => (a.within hw r hr).1
    have hold : ∀ r < s.heap.next, (s.heap.deepcopy v).1.cell r = s.heap.cell r := fun r hr => by simp [Heap.deepcopy, hr]
    obtain ⟨k0, k1, k2, k3⟩ := keep (s' := s.addState v) a (fun r hr => hold r (a.below r hr)) rfl rfl rfl
    obtain ⟨c, hc2, hcs⟩ := bound_of cs
    refine ⟨⟨fun r => if r < s.heap.next then col r else if r < s.heap.next + s.heap.next then c else 0, cs ++ [c], ?_, fun h => ⟨fun r hr => ?_, (k0 (i0 h).1).trans (i0 h).2⟩⟩, ?_, k2.trans i2, k3.trans i3, i4⟩
    · have hlt : ∀ r, r < s.heap.next → (if r < s.heap.next then col r else if r < s.heap.next + s.heap.next then c else 0) = col r :=
        fun r hr => if_pos hr
      have hge : ∀ r, s.heap.next ≤ r → r < s.heap.next + s.heap.next →
          (if r < s.heap.next then col r else if r < s.heap.next + s.heap.next then c else 0) = c :=
        fun r h1 h2 => by rw [if_neg (by omega), if_pos h2]
      have hnx : (s.addState v).heap.next = s.heap.next + s.heap.next := rfl
      have hst : (s.addState v).states = s.states ++ [shift s.heap.next v] := rfl
      refine ⟨?_, ?_, ?_, ?_, ?_, ?_, ?_, ?_, ?_, ?_, ?_⟩
      · intro r hr
        rw [hnx]
        by_contra hcon
        exact hr (by dsimp only; rw [if_neg (by omega), if_neg hcon])
      · exact ext_cells (ext_deepcopy a.below a.cells v) a.cells
      · intro q hq r hr
        by_cases h1 : q < s.heap.next
        · simp only [Priv, hlt q h1] at hq
          rw [show (s.addState v).heap.cell q = s.heap.cell q from hold q h1] at hr
          rw [hlt q h1, hlt r (a.cells q h1 r hr)]
          exact a.inner q hq r hr
        · have h2 : q < s.heap.next + s.heap.next := by
            by_contra hcon
            exact hq (by dsimp only; rw [if_neg h1, if_neg hcon])
          simp only [Sys.addState, Heap.deepcopy] at hr
          rw [if_neg h1] at hr
          obtain ⟨q', hq', rfl⟩ := shift_mem hr
          have := a.cells (q - s.heap.next) (by omega) q' hq'
          rw [hge q (by omega) h2, hge _ (by omega) (by omega)]
      · intro q hq hn r hr
        rw [hnx] at hq
        by_cases h1 : q < s.heap.next
        · simp only [Priv, hlt q h1] at hn
          rw [show (s.addState v).heap.cell q = s.heap.cell q from hold q h1] at hr
          simp only [Priv, hlt r (a.cells q h1 r hr)]
          exact a.outer q h1 hn r hr
        · exfalso
          apply hn
          simp only [Priv, hge q (by omega) hq]
          omega
      · intro r hr
        obtain ⟨x, y⟩ := a.vars r hr
        exact ⟨by rw [hnx]; omega, by simp only [Priv, hlt r x]; exact y⟩
      · intro r hr
        obtain ⟨x, y⟩ := a.train r hr
        refine ⟨by rw [hnx]; omega, ?_⟩
        rw [show (s.addState v).heap.cell r = s.heap.cell r from hold r x]
        simp only [Priv, hlt r x]
        exact y
      · intro r hr
        obtain ⟨x, y⟩ := a.initial r hr
        exact ⟨by rw [hnx]; omega, by simp only [Priv, hlt r x]; exact y⟩
      · intro r hr
        have h1 := a.inits r hr
        rw [hlt r (a.below r (by unfold Priv; omega))]
        exact h1
      · rw [hst]
        refine List.rel_append (forall₂_imp_mem a.own ?_) (.cons ?_ .nil)
        · intro w d hd hw' r hr
          have h1 := hw' r hr
          have h2 := a.two d hd
          rw [hlt r (a.below r (by unfold Priv; omega))]
          exact h1
        · intro r hr
          cases v with
          | atom b => cases hr
          | ref q =>
            simp only [shift, PV.ref.injEq] at hr
            have := hv q rfl
            exact hge r (by omega) (by omega)
      · intro d hd
        rcases List.mem_append.1 hd with hd | hd
        · exact a.two d hd
        · simp at hd; omega
      · rw [List.nodup_append]
        refine ⟨a.nodup, by simp, fun x hx y hy => ?_⟩
        simp at hy
        have := hcs x hx
        omega
    · have h1 := (i0 h).1 r hr
      dsimp only
      rw [if_pos (a.train r hr).1, h1]
    · have h1 : record n (s.addState v) = s.states.map (shows (s.heap.deepcopy v).1 n) ++ [shows (s.heap.deepcopy v).1 n (shift s.heap.next v)] := by
        simp [record, Sys.addState, Heap.deepcopy]
      rw [h1, shows_copy s.heap a.cells v n v hv, ← i1]
      exact congrArg (· ++ _) (k1 s.states (fun v hv => hv))
  | @getState s s' rec i v _ hg ih =>
    obtain ⟨⟨col, cs, a, i0⟩, i1, i2, i3, i4⟩ := ih
    unfold Sys.getState at hg
    split at hg
    · exact absurd hg (by simp)
    · rename_i w hw
      simp only [Option.some.injEq, Prod.mk.injEq] at hg
      obtain ⟨rfl, rfl⟩ := hg
      have hwP : ∀ r, w = .ref r → r < s.heap.next := by
        rintro r rfl
        exact a.below r (a.priv r (.inl (List.mem_of_getElem? hw)))
      have e := ext_deepcopy a.below a.cells w
      obtain ⟨k0, k1, k2, k3⟩ := keep (s' := { s with heap := (s.heap.deepcopy w).1, vars := (s.heap.deepcopy w).2 :: s.vars }) a
        (fun r hr => e.old r (a.below r hr)) rfl rfl rfl
      refine ⟨⟨col, cs, a.step e (fun r hr => ?_) a.own (List.Sublist.refl _) (fun r hr => ?_), fun h => ⟨(i0 h).1, (k0 (i0 h).1).trans (i0 h).2⟩⟩, (k1 s.states (fun v hv => hv)).trans i1, k2.trans i2, k3.trans i3, i4⟩
      · rcases List.mem_cons.1 hr with hr | hr
        · exact .inr (out_deepcopy a.below hwP r hr.symm)
        · exact .inl hr
      · obtain ⟨x, y⟩ := a.initial r hr
        exact ⟨lt_of_lt_of_le x e.le, y⟩
  | @pop s s' rec i v _ hg ih =>
    obtain ⟨⟨col, cs, a, i0⟩, i1, i2, i3, i4⟩ := ih
    unfold Sys.pop at hg
    split at hg
    · exact absurd hg (by simp)
    · rename_i w hw
      simp only [Option.some.injEq, Prod.mk.injEq] at hg
      obtain ⟨rfl, rfl⟩ := hg
      obtain ⟨c, hc, hwc⟩ := forall₂_getElem? a.own hw
      have hc2 := a.two c (List.mem_of_getElem? hc)
      have hno := not_mem_erase a.nodup hc
      refine ⟨⟨fun r => if col r = c then 0 else col r, cs.eraseIdx i, ?_, fun h => ⟨fun r hr => ?_, (i0 h).2⟩⟩, ?_, i2, i3, i4⟩
      · have hpr : ∀ r, Priv (fun r => if col r = c then 0 else col r) r ↔ Priv col r ∧ col r ≠ c := by
          intro r
          unfold Priv
          by_cases h : col r = c
          · simp [h]
          · simp [h]
        refine ⟨fun r hr => a.below r ((hpr r).1 hr).1, a.cells, ?_, ?_, ?_, ?_, ?_, ?_, ?_, fun d hd => a.two d (List.mem_of_mem_eraseIdx hd),
          a.nodup.sublist (List.eraseIdx_sublist ..)⟩
        · intro q hq r hr
          obtain ⟨h1, h2⟩ := (hpr q).1 hq
          have h3 := a.inner q h1 r hr
          simp only [h3]
        · intro q hq hn r hr
          rw [hpr] at hn ⊢
          by_cases hp : Priv col q
          · have h3 := a.inner q hp r hr
            have h4 : col q = c := by
              by_contra hcon
              exact hn ⟨hp, hcon⟩
            rintro ⟨_, h6⟩
            exact h6 (h3.trans h4)
          · exact fun h => a.outer q hq hp r hr h.1
        · intro r hr
          rw [hpr]
          rcases List.mem_cons.1 hr with hr | hr
          · have h1 := hwc r hr.symm
            exact ⟨a.below r (by unfold Priv; omega), fun h => h.2 h1⟩
          · obtain ⟨x, y⟩ := a.vars r hr
            exact ⟨x, fun h => y h.1⟩
        · intro r hr
          rw [hpr]
          obtain ⟨x, y⟩ := a.train r hr
          refine ⟨x, y.imp (fun y h => y h.1) (fun y => ⟨?_, y.2⟩)⟩
          rw [y.1, if_neg (by omega)]
        · intro r hr
          rw [hpr]
          obtain ⟨x, y⟩ := a.initial r hr
          exact ⟨x, fun h => y h.1⟩
        · intro r hr
          have := a.inits r hr
          simp only [this]
          rw [if_neg (by omega)]
        · refine forall₂_imp_mem (forall₂_erase i a.own) (fun x d hd hx r hr => ?_)
          have h1 := hx r hr
          simp only [h1]
          rw [if_neg (by rintro rfl; exact hno hd)]
      · have h1 := (i0 h).1 r hr
        dsimp only
        rw [h1, if_neg (by omega)]
      · rw [← i1]
        exact map_eraseIdx _ _ _
  | @workspace s rec idx _ ih =>
    obtain ⟨⟨col, cs, a, i0⟩, i1, i2, i3, i4⟩ := ih
    obtain ⟨b, hc⟩ := wsp idx a a.own (List.Sublist.refl _)
    obtain ⟨k0, k1, k2, k3⟩ := keep (s' := s.workspace idx) a hc rfl rfl rfl
    exact ⟨⟨col, _, b, fun h => ⟨(i0 h).1, (k0 (i0 h).1).trans (i0 h).2⟩⟩, (k1 s.states (fun v hv => hv)).trans i1, k2.trans i2, k3.trans i3, i4⟩
  | @recover s rec k idx _ ih =>
    obtain ⟨⟨col, cs, a, i0⟩, i1, i2, i3, i4⟩ := ih
    have hst : ∀ v ∈ s.states.take k, v ∈ s.states := fun v hv => List.mem_of_mem_take hv
    obtain ⟨b, hc⟩ := wsp idx a (forall₂_take k a.own) (List.take_sublist k cs)
    obtain ⟨k0, k1, k2, k3⟩ := keep (s' := s.recover k idx) a hc rfl rfl rfl
    refine ⟨⟨col, _, b, fun h => ⟨(i0 h).1, (k0 (i0 h).1).trans (i0 h).2⟩⟩, ?_, k2.trans i2, k3.trans i3, i4⟩
    rw [← i1]
    unfold record
    rw [← List.map_take]
    exact k1 _ hst
  | @setInitial s rec v _ hw ih =>
    obtain ⟨⟨col, cs, a, i0⟩, i1, i2, i3, i4⟩ := ih
    refine ⟨⟨col, cs, a.step (Ext.refl _ _) (fun r hr => .inl hr) a.own (List.Sublist.refl _) (a.within hw), i0⟩, i1, i2, i3, i4⟩

/-! ## The start -/

theorem start_reg {h : Heap} {vars : List PV} {train initU initL initial : PV} (hs : Sound h (train :: initU :: initL :: initial :: vars)) :
    ∃ col, Reg (start h vars train initU initL initial) col [] ∧ (Flat h train → ∀ r, (start h vars train initU initL initial).train = .ref r → col r = 1) := by
  obtain ⟨hv, hc⟩ := hs
  have hall : ∀ v ∈ train :: initU :: initL :: initial :: vars, Out h (fun _ => False) v := by
    rintro v hv' r rfl
    exact ⟨hv r hv', id⟩
  have a : HReg h (fun _ => False) := ⟨by simp, hc, by simp, by simp⟩
  have e1 := ext_copy (P := fun _ => False) (v := train) hc (by simp) (fun r hr => ⟨(hall train (by simp) r hr).1, .inl id⟩)
  have a1 := a.ext e1
  have o1 := out_copy a.below train
  obtain ⟨h1, t, hh1⟩ : ∃ h1 t, h.copy train = (h1, t) := ⟨_, _, rfl⟩
  rw [hh1] at e1 a1 o1
  dsimp only at e1 a1 o1
  have hu : Out h1 (fun _ => False) initU := (hall initU (by simp)).mono e1
  have e2 := ext_deepcopy a1.below a1.cells initU
  have a2 := a1.ext e2
  have hl : Out (h1.deepcopy initU).1 (fun _ => False) initL := ((hall initL (by simp)).mono e1).mono e2
  have e3 := ext_deepcopy a2.below a2.cells initL
  have a3 := a2.ext e3
  have hst : start h vars train initU initL initial =
      ⟨((h1.deepcopy initU).1.deepcopy initL).1, vars, t, (h1.deepcopy initU).2, ((h1.deepcopy initU).1.deepcopy initL).2, initial, []⟩ := by
    unfold start; rw [hh1]
  have n2 : (h1.deepcopy initU).1.next = h1.next + h1.next := rfl
  have n3 : ((h1.deepcopy initU).1.deepcopy initL).1.next = (h1.next + h1.next) + (h1.next + h1.next) := rfl
  have ht : ∀ r, t = .ref r → r = h.next ∧ h1.next = h.next + 1 ∧ ∃ q, train = .ref q ∧ h1.cell r = h.cell q := by
    intro r hr
    cases htr : train with
    | atom b => rw [htr] at hh1; simp only [Heap.copy, Prod.mk.injEq] at hh1; rw [← hh1.2] at hr; cases hr
    | ref q =>
      rw [htr] at hh1
      simp only [Heap.copy, Heap.alloc, Prod.mk.injEq] at hh1
      obtain ⟨hA, hB⟩ := hh1
      rw [← hB] at hr
      simp only [PV.ref.injEq] at hr
      subst hr
      rw [← hA]
      exact ⟨rfl, rfl, q, rfl, by simp⟩
  -- cells of the final heap
  have cOld : ∀ q < h1.next, ((h1.deepcopy initU).1.deepcopy initL).1.cell q = h1.cell q :=
    fun q hq => (e3.old q (by rw [n2]; omega)).trans (e2.old q hq)
  have cNew : ∀ q, h1.next ≤ q → q < ((h1.deepcopy initU).1.deepcopy initL).1.next → ∀ r, .ref r ∈ ((h1.deepcopy initU).1.deepcopy initL).1.cell q →
      h1.next ≤ r ∧ r < ((h1.deepcopy initU).1.deepcopy initL).1.next := by
    intro q h1' h2' r hr
    refine ⟨?_, a3.cells q h2' r hr⟩
    by_cases hq : q < h1.next + h1.next
    · rw [e3.old q (by rw [n2]; exact hq)] at hr
      simp only [Heap.deepcopy] at hr
      rw [if_neg (by omega)] at hr
      obtain ⟨q', _, rfl⟩ := shift_mem hr
      omega
    · have hr' : PV.ref r ∈ ((h1.deepcopy initU).1.cell (q - (h1.next + h1.next))).map (shift (h1.next + h1.next)) := by
        have : ((h1.deepcopy initU).1.deepcopy initL).1.cell q =
            ((h1.deepcopy initU).1.cell (q - (h1.next + h1.next))).map (shift (h1.next + h1.next)) := if_neg hq
        rwa [this] at hr
      obtain ⟨q', _, rfl⟩ := shift_mem hr'
      omega
  have hflat : Flat h train → ∀ r, t = .ref r → ∀ w ∈ h1.cell r, ∃ b, w = .atom b := by
    intro hf r hr
    obtain ⟨_, _, q, hq, hcell⟩ := ht r hr
    rw [hcell]
    exact hf q hq
  have hold1 : h.next ≤ h1.next := e1.le
  classical
  refine ⟨fun r => if r < h1.next then (if Flat h train ∧ t = .ref r then 1 else 0) else if r < ((h1.deepcopy initU).1.deepcopy initL).1.next then 1 else 0, ?_, ?_⟩
  · rw [hst]
    refine ⟨?_, a3.cells, ?_, ?_, ?_, ?_, ?_, ?_, .nil, by simp, by simp⟩
    · intro r hr
      by_contra hcon
      exact hr (by dsimp only at hcon ⊢; rw [if_neg (by rw [n3] at hcon; omega), if_neg hcon])
    · intro q hq r hr
      dsimp only at hr ⊢
      by_cases h1' : q < h1.next
      · have hp : Flat h train ∧ t = .ref q := by
          by_contra hcon
          exact hq (by dsimp only; rw [if_pos h1', if_neg hcon])
        rw [cOld q h1'] at hr
        obtain ⟨b, hb⟩ := hflat hp.1 q hp.2 _ hr
        cases hb
      · have h2' : q < ((h1.deepcopy initU).1.deepcopy initL).1.next := by
          by_contra hcon
          exact hq (by dsimp only; rw [if_neg h1', if_neg hcon])
        obtain ⟨x, y⟩ := cNew q (by omega) h2' r hr
        rw [if_neg h1', if_pos h2', if_neg (by omega), if_pos y]
    · intro q hq hn r hr
      dsimp only at hq hr
      have h1' : q < h1.next := by
        by_contra hcon
        exact hn (by unfold Priv; dsimp only; rw [if_neg hcon, if_pos hq]; omega)
      rw [cOld q h1'] at hr
      have hr1 := a1.cells q h1' r hr
      intro hp
      apply hp
      dsimp only
      rw [if_pos hr1, if_neg]
      rintro ⟨hf, htr⟩
      -- the copy of `train` is new, nothing refers to it
      obtain ⟨rfl, hn1, p, hp', hcell⟩ := ht r htr
      by_cases hq' : q < h.next
      · rw [e1.old q hq'] at hr
        have := hc q hq' _ hr
        omega
      · have hqe : q = h.next := by omega
        subst hqe
        obtain ⟨b, hb⟩ := hflat hf _ htr _ hr
        cases hb
    · intro r hr
      have h1' : r < h.next := hv r (by simp only [List.mem_cons]; exact .inr (.inr (.inr (.inr hr))))
      refine ⟨by dsimp only; rw [n3]; omega, fun hp => hp ?_⟩
      dsimp only
      rw [if_pos (by omega), if_neg]
      rintro ⟨_, htr⟩
      have := (ht r htr).1
      omega
    · intro r hr
      dsimp only at hr ⊢
      have h1' : r < h1.next := (o1 r hr).1
      refine ⟨by rw [n3]; omega, ?_⟩
      by_cases hf : Flat h train
      · right
        refine ⟨by rw [if_pos h1', if_pos ⟨hf, hr⟩], ?_⟩
        rw [cOld r h1']
        exact hflat hf r hr
      · left
        intro hp
        apply hp
        dsimp only
        rw [if_pos h1', if_neg (fun h => hf h.1)]
    · intro r hr
      dsimp only at hr ⊢
      have h1' : r < h.next := (hall initial (by simp) r hr).1
      refine ⟨by rw [n3]; omega, fun hp => hp ?_⟩
      dsimp only
      rw [if_pos (by omega), if_neg]
      rintro ⟨_, htr⟩
      have := (ht r htr).1
      omega
    · rintro r (hr | hr)
      · dsimp only at hr ⊢
        have hr2 : h1.next ≤ r ∧ r < h1.next + h1.next := by
          cases hU : initU with
          | atom b => rw [hU] at hr; cases hr
          | ref q =>
            have hq := (hu q hU).1
            rw [hU] at hr
            simp only [Heap.deepcopy, shift, PV.ref.injEq] at hr
            omega
        rw [if_neg (by omega), if_pos (by rw [n3]; omega)]
      · dsimp only at hr ⊢
        have hr2 : h1.next + h1.next ≤ r ∧ r < (h1.next + h1.next) + (h1.next + h1.next) := by
          cases hL : initL with
          | atom b => rw [hL] at hr; cases hr
          | ref q =>
            have hq := (hl q hL).1
            rw [n2] at hq
            rw [hL] at hr
            have hr' : q + (h1.next + h1.next) = r := by simpa [Heap.deepcopy, shift] using hr
            omega
        rw [if_neg (by omega), if_pos (by rw [n3]; omega)]
  · intro hf r hr
    rw [hst] at hr
    dsimp only at hr ⊢
    rw [if_pos (o1 r hr).1, if_pos ⟨hf, hr⟩]

theorem shows_ext {h h' : Heap} (hc : ∀ q < h.next, ∀ r, .ref r ∈ h.cell q → r < h.next) (ho : ∀ r < h.next, h'.cell r = h.cell r) (n : Nat) {v : PV}
    (hv : ∀ r, v = .ref r → r < h.next) : shows h' n v = shows h n v :=
  shows_congr (P := fun r => r < h.next) ho hc n v hv

theorem start_shows {h : Heap} {vars : List PV} {train initU initL initial : PV} (hs : Sound h (train :: initU :: initL :: initial :: vars)) (n : Nat) :
    let s := start h vars train initU initL initial
    shows s.heap n s.initU = shows h n initU ∧ shows s.heap n s.initL = shows h n initL ∧ shows s.heap n s.train = shows h n train := by
  obtain ⟨hv, hc⟩ := hs
  have a : HReg h (fun _ => False) := ⟨by simp, hc, by simp, by simp⟩
  have e1 := ext_copy (P := fun _ => False) (v := train) hc (by simp) (fun r hr => ⟨hv r (by simp [hr]), .inl id⟩)
  have a1 := a.ext e1
  have e2 := ext_deepcopy a1.below a1.cells initU
  have a2 := a1.ext e2
  have e3 := ext_deepcopy a2.below a2.cells initL
  have hu : ∀ r, initU = .ref r → r < (h.copy train).1.next := fun r hr => lt_of_lt_of_le (hv r (by simp [hr])) e1.le
  have hl : ∀ r, initL = .ref r → r < ((h.copy train).1.deepcopy initU).1.next :=
    fun r hr => lt_of_lt_of_le (hv r (by simp [hr])) (e1.trans e2).le
  have hu' : ∀ r, ((h.copy train).1.deepcopy initU).2 = .ref r → r < ((h.copy train).1.deepcopy initU).1.next :=
    fun r hr => (out_deepcopy a1.below hu r hr).1
  have ht' : ∀ r, (h.copy train).2 = .ref r → r < (h.copy train).1.next := fun r hr => (out_copy a.below train r hr).1
  refine ⟨?_, ?_, ?_⟩
  · refine (shows_ext a2.cells (fun r hr => e3.old r hr) n hu').trans ?_
    refine (shows_copy _ a1.cells initU n initU hu).trans ?_
    exact shows_ext hc (fun r hr => e1.old r hr) n (fun r hr => hv r (by simp [hr]))
  · refine (shows_copy _ a2.cells initL n initL hl).trans ?_
    exact shows_ext hc (fun r hr => (e1.trans e2).old r hr) n (fun r hr => hv r (by simp [hr]))
  · refine (shows_ext a1.cells (fun r hr => (e2.trans e3).old r hr) n ht').trans ?_
    cases train with
    | atom b => cases n <;> rfl
    | ref q =>
      cases n with
      | zero => rfl
      | succ n =>
        have hcell : (h.copy (.ref q)).1.cell h.next = h.cell q := by simp [Heap.copy, Heap.alloc]
        simp only [Heap.copy, Heap.alloc, shows, Shown.node.injEq, if_true]
        refine List.map_congr_left (fun w hw => ?_)
        refine shows_ext hc (fun r hr => e1.old r hr) n ?_
        rintro r rfl
        exact hc q (hv q (by simp)) r hw

/-! ## The theorems -/

/-- C95 for a program that does not index the saver or iterate over it: the record is what was added, as it looked when it was added, whatever
the program has done since to the objects that it passed in or got back; and the two collections that the saver started from are as they were. -/
theorem C95_record_partial {h : Heap} {vars : List PV} {train initU initL initial : PV}
    (hs : Sound h (train :: initU :: initL :: initial :: vars)) (n : Nat) {s : Sys} {rec : List Shown}
    (hu : Uses n (start h vars train initU initL initial) s rec) :
    s.states.map (shows s.heap n) = rec ∧ shows s.heap n s.initU = shows h n initU ∧ shows s.heap n s.initL = shows h n initL := by
  obtain ⟨col, h0, _⟩ := start_reg hs
  obtain ⟨_, h1, h2, h3, _⟩ := invariant h0 rfl hu
  obtain ⟨k1, k2, _⟩ := start_shows hs n
  exact ⟨h1, h2.trans k1, h3.trans k2⟩

/-- C95: and so is `train_idx` (and `test_idx`), if it is a list or an array of numbers. -/
theorem C95_train {h : Heap} {vars : List PV} {train initU initL initial : PV}
    (hs : Sound h (train :: initU :: initL :: initial :: vars)) (hf : Flat h train) (n : Nat) {s : Sys} {rec : List Shown}
    (hu : Uses n (start h vars train initU initL initial) s rec) : shows s.heap n s.train = shows h n train := by
  obtain ⟨col, h0, h0'⟩ := start_reg hs
  obtain ⟨⟨_, _, _, h1⟩, _⟩ := invariant h0 rfl hu
  exact (h1 (h0' hf)).2.trans (start_shows hs n).2.2

/-- C95: `get_state(i)` and `pop(i)` return a state that looks as it did when it was added. -/
theorem C95_handed_out {h : Heap} {vars : List PV} {train initU initL initial : PV}
    (hs : Sound h (train :: initU :: initL :: initial :: vars)) (n : Nat) {s s' : Sys} {rec : List Shown}
    (hu : Uses n (start h vars train initU initL initial) s rec) {i : Nat} {v : PV} (hg : s.getState i = some (s', v) ∨ s.pop i = some (s', v)) :
    rec[i]? = some (shows s'.heap n v) := by
  obtain ⟨col, h0, _⟩ := start_reg hs
  obtain ⟨⟨col', cs, a, _⟩, h1, _⟩ := invariant h0 rfl hu
  rw [← h1]
  rcases hg with hg | hg
  · unfold Sys.getState at hg
    split at hg
    · exact absurd hg (by simp)
    · rename_i w hw
      simp only [Option.some.injEq, Prod.mk.injEq] at hg
      obtain ⟨rfl, rfl⟩ := hg
      simp only [record, List.getElem?_map, hw, Option.map_some, Option.some.injEq]
      refine (shows_copy s.heap a.cells w n w ?_).symm
      rintro r rfl
      exact a.below r (a.priv r (.inl (List.mem_of_getElem? hw)))
  · unfold Sys.pop at hg
    split at hg
    · exact absurd hg (by simp)
    · rename_i w hw
      simp only [Option.some.injEq, Prod.mk.injEq] at hg
      obtain ⟨rfl, rfl⟩ := hg
      simp [record, hw]

/-- C95, negative: `saver[i]` (and iterating over the saver) hands out the recorded state itself; the program can change it in place, and then
the record says what the program has written. -/
theorem C95_getitem_violation (n : Nat) {s s' : Sys} {i r : Nat} (hg : s.getItem i = some (s', .ref r)) (slots : List PV) :
    Within s'.heap s'.vars (.ref r) ∧
    (((s'.write r slots).states.map (shows (s'.write r slots).heap (n + 1)))[i]? =
      some (.node (slots.map (shows (s'.write r slots).heap n)))) := by
  unfold Sys.getItem at hg
  split at hg
  · exact absurd hg (by simp)
  · rename_i w hw
    simp only [Option.some.injEq, Prod.mk.injEq] at hg
    obtain ⟨rfl, rfl⟩ := hg
    refine ⟨.var (by simp), ?_⟩
    simp [Sys.write, Heap.write, hw, shows]

theorem copied_shows {h h'' : Heap} (hc : ∀ q < h.next, ∀ r, .ref r ∈ h.cell q → r < h.next) {v : PV} (hv : ∀ r, v = .ref r → r < h.next)
    (hag : ∀ q, h.next ≤ q → q < h.next + h.next → h''.cell q = (h.deepcopy v).1.cell q) (n : Nat) :
    shows h'' n (h.deepcopy v).2 = shows h n v := by
  rw [← shows_copy h hc v n v hv]
  refine shows_congr (P := fun r => h.next ≤ r ∧ r < h.next + h.next) (fun r hr => hag r hr.1 hr.2) (fun q hq r hr => ?_) n _ ?_
  · simp only [Heap.deepcopy] at hr
    rw [if_neg (by omega)] at hr
    obtain ⟨q', hq', rfl⟩ := shift_mem hr
    have := hc (q - h.next) (by omega) q' hq'
    omega
  · intro r hr
    cases v with
    | atom b => cases hr
    | ref q =>
      simp only [Heap.deepcopy, shift, PV.ref.injEq] at hr
      have := hv q rfl
      omega

theorem flat_shows {h0 h h'' : Heap} {v : PV} (hf : Flat h0 v) (hcell : ∀ r, v = .ref r → h.cell r = h0.cell r)
    (hag : ∀ r, v = .ref r → h''.cell h.next = (h.copy v).1.cell h.next) (n : Nat) :
    shows h'' n (h.copy v).2 = shows h0 n v := by
  cases v with
  | atom b => cases n <;> rfl
  | ref q =>
    cases n with
    | zero => rfl
    | succ n =>
      have h1 := hag q rfl
      simp only [Heap.copy, Heap.alloc, if_true] at h1
      simp only [Heap.copy, Heap.alloc, shows, h1, hcell q rfl, Shown.node.injEq]
      refine List.map_congr_left (fun w hw => ?_)
      obtain ⟨b, rfl⟩ := hf q rfl w hw
      cases n <;> rfl

/-- C95 for a `State` on its own: whatever happens afterwards to objects that existed before, `select_index` and `queried_label` look as they
did when the state was made; and so do `performance` and `cost`, if they are numbers or flat lists of numbers. -/
theorem C95_state_partial {h h' : Heap} {sel perf lab cost : PV} (hs : Sound h [sel, perf, lab, cost]) {st : PV}
    (he : newState h sel perf lab cost = (h', st)) :
    ∃ r v1 v2 v3 v4, st = .ref r ∧ h'.cell r = [v1, v2, v3, v4] ∧
      ∀ h'' : Heap, (∀ q, h.next ≤ q → h''.cell q = h'.cell q) → ∀ n,
        shows h'' n v1 = shows h n sel ∧ shows h'' n v3 = shows h n lab ∧
        (Flat h perf → shows h'' n v2 = shows h n perf) ∧ (Flat h cost → shows h'' n v4 = shows h n cost) := by
  obtain ⟨hv, hc⟩ := hs
  have a : HReg h (fun _ => False) := ⟨by simp, hc, by simp, by simp⟩
  have e1 := ext_deepcopy a.below a.cells sel
  have a1 := a.ext e1
  have hp : ∀ r, perf = .ref r → r < h.next := fun r hr => hv r (by simp [hr])
  have hl : ∀ r, lab = .ref r → r < h.next := fun r hr => hv r (by simp [hr])
  have hk : ∀ r, cost = .ref r → r < h.next := fun r hr => hv r (by simp [hr])
  have e2 := ext_copy (v := perf) a1.cells a1.outer (fun r hr => ⟨lt_of_lt_of_le (hp r hr) e1.le, .inl id⟩)
  have a2 := a1.ext e2
  have e12 := e1.trans e2
  have e3 := ext_deepcopy a2.below a2.cells lab
  have a3 := a2.ext e3
  have e13 := e12.trans e3
  have e4 := ext_copy (v := cost) a3.cells a3.outer (fun r hr => ⟨lt_of_lt_of_le (hk r hr) e13.le, .inl id⟩)
  have a4 := a3.ext e4
  have e5 : Ext ((((h.deepcopy sel).1.copy perf).1.deepcopy lab).1.copy cost).1
      (((((h.deepcopy sel).1.copy perf).1.deepcopy lab).1.copy cost).1.alloc [(h.deepcopy sel).2, ((h.deepcopy sel).1.copy perf).2,
        (((h.deepcopy sel).1.copy perf).1.deepcopy lab).2, ((((h.deepcopy sel).1.copy perf).1.deepcopy lab).1.copy cost).2]).1 (fun _ => False) := by
    have o1 := out_deepcopy a.below (fun r hr => hv r (by simp [hr])) (v := sel)
    have o2 := out_copy a1.below perf
    have o3 := out_deepcopy a2.below (fun r hr => lt_of_lt_of_le (hl r hr) e12.le) (v := lab)
    have o4 := out_copy a3.below cost
    refine ext_alloc ?_
    intro r hr
    simp only [List.mem_cons, List.not_mem_nil, or_false] at hr
    rcases hr with hr | hr | hr | hr
    · exact (((o1.mono e2).mono e3).mono e4) r hr.symm
    · exact ((o2.mono e3).mono e4) r hr.symm
    · exact (o3.mono e4) r hr.symm
    · exact o4 r hr.symm
  have hh : h' = (((((h.deepcopy sel).1.copy perf).1.deepcopy lab).1.copy cost).1.alloc [(h.deepcopy sel).2, ((h.deepcopy sel).1.copy perf).2,
      (((h.deepcopy sel).1.copy perf).1.deepcopy lab).2, ((((h.deepcopy sel).1.copy perf).1.deepcopy lab).1.copy cost).2]).1 ∧
      st = .ref ((((h.deepcopy sel).1.copy perf).1.deepcopy lab).1.copy cost).1.next := by
    have := he
    unfold newState at this
    exact ⟨(congrArg Prod.fst this).symm, (congrArg Prod.snd this).symm⟩
  rw [← hh.1] at e5
  refine ⟨_, (h.deepcopy sel).2, ((h.deepcopy sel).1.copy perf).2, (((h.deepcopy sel).1.copy perf).1.deepcopy lab).2,
    ((((h.deepcopy sel).1.copy perf).1.deepcopy lab).1.copy cost).2, hh.2, ?_, fun h'' hag n => ⟨?_, ?_, fun hf => ?_, fun hf => ?_⟩⟩
  · rw [hh.1]; simp only [Heap.alloc, if_true]
  · refine copied_shows hc (fun r hr => hv r (by simp [hr])) (fun q h1 h2 => ?_) n
    rw [hag q h1]
    exact ((e2.trans e3).trans (e4.trans e5)).old q h2
  · rw [← shows_ext hc (fun r hr => e12.old r hr) n hl]
    refine copied_shows a2.cells (fun r hr => lt_of_lt_of_le (hl r hr) e12.le) (fun q h1 h2 => ?_) n
    rw [hag q (le_trans e12.le h1)]
    exact (e4.trans e5).old q h2
  · refine flat_shows hf (fun r hr => e1.old r (hp r hr)) (fun r hr => ?_) n
    rw [hag _ e1.le]
    refine ((e3.trans e4).trans e5).old _ ?_
    subst hr
    simp [Heap.copy, Heap.alloc]
  · refine flat_shows hf (fun r hr => e13.old r (hk r hr)) (fun r hr => ?_) n
    rw [hag _ e13.le]
    refine e5.old _ ?_
    subst hr
    simp [Heap.copy, Heap.alloc]

/-- C95, negative: `performance` is copied at the top only. The state made with a performance that contains a mutable object (a list of lists,
a dictionary of arrays) has a new object of the same slots; what is written to an inner object later appears in the state. -/
theorem C95_performance_violation {h h' : Heap} {sel lab cost : PV} {p q : Nat} (hs : Sound h [sel, .ref p, lab, cost]) {st : PV}
    (he : newState h sel (.ref p) lab cost = (h', st)) (hq : PV.ref q ∈ h.cell p) (slots : List PV) :
    ∃ r p', st = .ref r ∧ getValue h' r 1 = some (.ref p') ∧ p' ≠ p ∧
      ∀ n, ∃ l, shows (h'.write q slots) (n + 2) (.ref p') = .node l ∧ .node (slots.map (shows (h'.write q slots) n)) ∈ l := by
  obtain ⟨hv, hc⟩ := hs
  have hp : p < h.next := hv p (by simp)
  have hql : q < h.next := hc p hp q hq
  have a : HReg h (fun _ => False) := ⟨by simp, hc, by simp, by simp⟩
  have e1 := ext_deepcopy a.below a.cells sel
  have a1 := a.ext e1
  have hl : ∀ r, lab = .ref r → r < h.next := fun r hr => hv r (by simp [hr])
  have hk : ∀ r, cost = .ref r → r < h.next := fun r hr => hv r (by simp [hr])
  have e2 := ext_copy (v := .ref p) a1.cells a1.outer (fun r hr => ⟨by cases hr; exact lt_of_lt_of_le hp e1.le, .inl id⟩)
  have a2 := a1.ext e2
  have e3 := ext_deepcopy a2.below a2.cells lab
  have a3 := a2.ext e3
  have e4 := ext_copy (v := cost) a3.cells a3.outer (fun r hr => ⟨lt_of_lt_of_le (hk r hr) ((e1.trans e2).trans e3).le, .inl id⟩)
  set p' := (h.deepcopy sel).1.next with hp'
  have hlt : p' < ((h.deepcopy sel).1.copy (.ref p)).1.next := by simp [Heap.copy, Heap.alloc, hp']
  have hcell : ((h.deepcopy sel).1.copy (.ref p)).1.cell p' = h.cell p := by
    simp only [Heap.copy, Heap.alloc, hp', if_true]
    exact e1.old p hp
  have h1 := congrArg Prod.fst he
  have h2 := congrArg Prod.snd he
  simp only [newState, Heap.alloc] at h1 h2
  refine ⟨_, p', h2.symm, ?_, ?_, fun n => ⟨(h'.cell p').map (shows (h'.write q slots) (n + 1)), ?_, ?_⟩⟩
  · rw [← h1]
    simp [getValue, Heap.copy, Heap.alloc, hp']
  · have := e1.le; omega
  · have hne : p' ≠ q := by have := e1.le; omega
    simp [shows, Heap.write, hne]
  · have hfin : h'.cell p' = h.cell p := by
      rw [← h1]
      dsimp only
      rw [if_neg (by have := (e3.trans e4).le; omega), (e3.trans e4).old p' hlt, hcell]
    rw [hfin]
    refine List.mem_map.2 ⟨.ref q, hq, ?_⟩
    simp [shows, Heap.write]

/-- C95, negative: `set_initial_point` (as the constructor) keeps the object it gets; what the program writes to it later is the initial point
from then on. -/
theorem C95_initial_point_violation (n : Nat) (s : Sys) (r : Nat) (slots : List PV) :
    shows ((s.setInitial (.ref r)).write r slots).heap (n + 1) ((s.setInitial (.ref r)).write r slots).initial =
      .node (slots.map (shows ((s.setInitial (.ref r)).write r slots).heap n)) := by
  simp [Sys.setInitial, Sys.write, Heap.write, shows]

/-! ## Concrete cases -/

/-- A heap with a list `[3, 5]` (object 0), two collections (1 and 2) and a list of lists (4, containing 3). -/
private def ex : Heap := ⟨5, fun r => if r = 0 then [.atom 3, .atom 5] else if r = 1 then [.atom 7] else if r = 2 then [.atom 8] else
  if r = 3 then [.atom 1] else if r = 4 then [.ref 3] else []⟩

private theorem ex_sound : Sound ex [.ref 0, .ref 1, .ref 2, .atom 0, .ref 0, .ref 4] := by
  refine ⟨fun r hr => ?_, fun q hq r hr => ?_⟩
  · simp at hr
    simp only [ex]
    omega
  · simp only [ex] at hq hr ⊢
    split at hr <;> [simp at hr; split at hr <;> [simp at hr; split at hr <;> [simp at hr; split at hr <;> [simp at hr; split at hr <;> simp at hr]]]]
    omega

/-- A program makes a saver, makes a state of the list `[3, 5]`, adds it, writes to the list, and makes and adds another state of the same list. -/
private def exRun : Sys :=
  let s1 := (start ex [.ref 0, .ref 4] (.ref 0) (.ref 1) (.ref 2) (.atom 0)).newState (.ref 0) (.atom 1) (.atom 2) (.atom 3)
  let s2 := (s1.addState (s1.vars.headD (.atom 0))).write 0 [.atom 9]
  let s3 := s2.newState (.ref 0) (.atom 4) (.atom 5) (.atom 6)
  s3.addState (s3.vars.headD (.atom 0))

example : Uses 3 (start ex [.ref 0, .ref 4] (.ref 0) (.ref 1) (.ref 2) (.atom 0)) exRun
    [.node [.node [.atom 3, .atom 5], .atom 1, .atom 2, .atom 3], .node [.node [.atom 9], .atom 4, .atom 5, .atom 6]] := by
  have h1 : Uses 3 (start ex [.ref 0, .ref 4] (.ref 0) (.ref 1) (.ref 2) (.atom 0)) _ [] :=
    .newState (sel := .ref 0) (perf := .atom 1) (lab := .atom 2) (cost := .atom 3) .start (by
      intro v hv
      simp only [List.mem_cons, List.not_mem_nil, or_false] at hv
      rcases hv with rfl | rfl | rfl | rfl
      · exact .var (List.mem_cons_self ..)
      all_goals exact .const _)
  have h2 := h1.addState (v := _) (.var (List.mem_cons_self ..))
  have h3 := h2.write (r := 0) (slots := [.atom 9]) (.var (List.mem_cons_of_mem _ (List.mem_cons_self ..))) (by
    intro v hv; simp only [List.mem_singleton] at hv; subst hv; exact .const _)
  have h4 := h3.newState (sel := .ref 0) (perf := .atom 4) (lab := .atom 5) (cost := .atom 6) (by
      intro v hv
      simp only [List.mem_cons, List.not_mem_nil, or_false] at hv
      rcases hv with rfl | rfl | rfl | rfl
      · exact .var (List.mem_cons_of_mem _ (List.mem_cons_self ..))
      all_goals exact .const _)
  exact h4.addState (v := _) (.var (List.mem_cons_self ..))

end Alipy.Alias
