import Verif.Spec.Workers
import Verif.Props.MultiLabel
import Verif.Props.StateIO
import Verif.Proof.MainLoop
import Mathlib.Data.List.Nodup

/-!
# C126: every worker of `aceThreading` gets the sets of its round, and has them to itself
-/
namespace Alipy.Workers
open Alipy.Spec

variable {κ ε σ τ ρ : Type}

/-! ## Memory -/

@[simp] theorem alloc_next (h : Heap κ) (x : κ) : (h.alloc x).1.next = h.next + 1 := rfl
@[simp] theorem alloc_ref (h : Heap κ) (x : κ) : (h.alloc x).2 = h.next := rfl
theorem alloc_cell_self (h : Heap κ) (x : κ) : (h.alloc x).1.cell h.next = x := by simp [Heap.alloc, Threads.set]
theorem alloc_cell (h : Heap κ) (x : κ) {r : Nat} (hr : r < h.next) : (h.alloc x).1.cell r = h.cell r := by
  simp only [Heap.alloc, Threads.set]; rw [if_neg (by omega)]

/-- The addresses of the sets inside savers. -/
def refs (ss : List (StateIO Nat σ)) : List Nat := ss.flatMap (fun s => [s.initL, s.initU])

theorem refs_cons (s : StateIO Nat σ) (ss : List (StateIO Nat σ)) : refs (s :: ss) = s.initL :: s.initU :: refs ss := rfl

theorem mem_refs {ss : List (StateIO Nat σ)} {s : StateIO Nat σ} (hs : s ∈ ss) : s.initL ∈ refs ss ∧ s.initU ∈ refs ss := by
  simp only [refs, List.mem_flatMap]
  exact ⟨⟨s, hs, by simp⟩, ⟨s, hs, by simp⟩⟩

/-- The savers are apart from each other and from everything below `base`. -/
structure Apart (base : Nat) (h : Heap κ) (ss : List (StateIO Nat σ)) : Prop where
  nodup : (refs ss).Nodup
  range : ∀ r ∈ refs ss, base ≤ r ∧ r < h.next

theorem look_congr {h h' : Heap κ} {s : StateIO Nat σ} (hl : h'.cell s.initL = h.cell s.initL) (hu : h'.cell s.initU = h.cell s.initU) :
    (look h' s : StateIO κ σ) = look h s := by simp only [look, hl, hu]

theorem newSaver_spec (h : Heap κ) {l u : Nat} (hl : l < h.next) (hu : u < h.next) :
    (newSaver (σ := σ) h l u).1.next = h.next + 4 ∧ (∀ r < h.next, (newSaver (σ := σ) h l u).1.cell r = h.cell r) ∧
      (newSaver (σ := σ) h l u).2 = StateIO.new (h.next + 3) (h.next + 2) ∧
      look (newSaver (σ := σ) h l u).1 (newSaver (σ := σ) h l u).2 = StateIO.new (h.cell l) (h.cell u) := by
  refine ⟨rfl, fun r hr => ?_, rfl, ?_⟩
  · simp only [newSaver]
    rw [alloc_cell _ _ (by simp; omega), alloc_cell _ _ (by simp; omega), alloc_cell _ _ (by simp; omega), alloc_cell _ _ hr]
  · have e1 : (newSaver (σ := σ) h l u).1.cell (h.next + 3) = h.cell l := by
      have : l ≠ h.next := by omega
      simp [newSaver, Heap.alloc, Threads.set, this]
    have e2 : (newSaver (σ := σ) h l u).1.cell (h.next + 2) = h.cell u := by
      simp [newSaver, Heap.alloc, Threads.set]
    show (⟨_, _, [], 0, 0, 0⟩ : StateIO κ σ) = ⟨_, _, [], 0, 0, 0⟩
    congr 1

theorem forall2_congr {α β : Type} {R S : α → β → Prop} {l : List α} {r : List β} (h : List.Forall₂ R l r) (hRS : ∀ a ∈ l, ∀ b, R a b → S a b) : List.Forall₂ S l r := by
  induction h with
  | nil => exact .nil
  | cons h _ ih => exact .cons (hRS _ (by simp) _ h) (ih fun a ha => hRS a (by simp [ha]))

theorem newSavers_spec : ∀ (idx : List (Nat × Nat)) (h : Heap κ), (∀ p ∈ idx, p.1 < h.next ∧ p.2 < h.next) →
    h.next ≤ (newSavers (σ := σ) h idx).1.next ∧ (∀ r < h.next, (newSavers (σ := σ) h idx).1.cell r = h.cell r) ∧
      Apart h.next (newSavers (σ := σ) h idx).1 (newSavers (σ := σ) h idx).2 ∧
      List.Forall₂ (fun p s => look (newSavers (σ := σ) h idx).1 s = StateIO.new (h.cell p.1) (h.cell p.2)) idx (newSavers (σ := σ) h idx).2 := by
  intro idx
  induction idx with
  | nil => intro h _; exact ⟨le_refl _, fun _ _ => rfl, ⟨List.nodup_nil, by simp [newSavers, refs]⟩, .nil⟩
  | cons p r ih =>
    intro h hp
    obtain ⟨l, u⟩ := p
    have hl : l < h.next := (hp (l, u) (by simp)).1
    have hu : u < h.next := (hp (l, u) (by simp)).2
    obtain ⟨n1, c1, s1, k1⟩ := newSaver_spec (σ := σ) h hl hu
    obtain ⟨n2, c2, a2, f2⟩ := ih (newSaver (σ := σ) h l u).1 (fun q hq => by
      have := hp q (by simp [hq]); omega)
    have hns : newSavers (σ := σ) h ((l, u) :: r) = ((newSavers (newSaver (σ := σ) h l u).1 r).1, (newSaver h l u).2 :: (newSavers (newSaver (σ := σ) h l u).1 r).2) := rfl
    simp only [hns]
    refine ⟨by omega, fun q hq => by rw [c2 q (by omega), c1 q hq], ⟨?_, ?_⟩, .cons ?_ ?_⟩
    · rw [refs_cons, s1]
      simp only [StateIO.new, List.nodup_cons, List.mem_cons, not_or]
      refine ⟨⟨by omega, fun hm => ?_⟩, fun hm => ?_, a2.nodup⟩
      · have := (a2.range _ hm).1; omega
      · have := (a2.range _ hm).1; omega
    · rw [refs_cons, s1]
      intro q hq
      simp only [StateIO.new, List.mem_cons] at hq
      rcases hq with rfl | rfl | hq
      · omega
      · omega
      · have := a2.range q hq; omega
    · rw [← k1]
      exact look_congr (c2 _ (by rw [s1]; simp only [StateIO.new]; omega)) (c2 _ (by rw [s1]; simp only [StateIO.new]; omega))
    · exact forall2_congr f2 fun q hq s e => by
        have := hp q (by simp [hq])
        rw [e, c1 _ this.1, c1 _ this.2]


theorem loaded_spec (h : Heap κ) (v : StateIO κ σ) :
    (loaded h v).1.next = h.next + 2 ∧ (∀ r < h.next, (loaded h v).1.cell r = h.cell r) ∧ (loaded h v).2.initL = h.next ∧ (loaded h v).2.initU = h.next + 1 ∧
      look (loaded h v).1 (loaded h v).2 = v := by
  refine ⟨rfl, fun r hr => ?_, rfl, rfl, ?_⟩
  · simp only [loaded]
    rw [alloc_cell _ _ (by simp; omega), alloc_cell _ _ hr]
  · have e1 : (loaded h v).1.cell h.next = v.initL := by
      simp [loaded, Heap.alloc, Threads.set]
    have e2 : (loaded h v).1.cell (h.next + 1) = v.initU := by
      simp [loaded, Heap.alloc, Threads.set]
    show (⟨(loaded h v).1.cell h.next, (loaded h v).1.cell (h.next + 1), v.states, v.cost, v.numq, v.batch⟩ : StateIO κ σ) = v
    rw [e1, e2]

theorem recoverSavers_spec {base : Nat} : ∀ (ss : List (StateIO Nat σ)) (fs : List (Option (StateIO κ σ))) (h : Heap κ), base ≤ h.next → fs.length = ss.length → Apart base h ss →
    h.next ≤ (recoverSavers h ss fs).1.next ∧ (∀ r < h.next, (recoverSavers h ss fs).1.cell r = h.cell r) ∧ Apart base (recoverSavers h ss fs).1 (recoverSavers h ss fs).2 ∧
      (∀ r ∈ refs (recoverSavers h ss fs).2, r ∈ refs ss ∨ h.next ≤ r) ∧ (recoverSavers h ss fs).2.length = ss.length ∧
      ∀ (i : Nat) (s r : StateIO Nat σ) (f : Option (StateIO κ σ)), ss[i]? = some s → fs[i]? = some f → (recoverSavers h ss fs).2[i]? = some r →
        look (recoverSavers h ss fs).1 r = f.getD (look h s) := by
  intro ss
  induction ss with
  | nil =>
    intro fs h hb hl ha
    obtain rfl : fs = [] := List.length_eq_zero_iff.1 (by simpa using hl)
    exact ⟨le_refl _, fun _ _ => rfl, ha, by simp [recoverSavers, refs], rfl, by simp⟩
  | cons s ss ih =>
    intro fs h hb hl ha
    cases fs with
    | nil => simp at hl
    | cons f fs =>
      have hl' : fs.length = ss.length := by simpa using hl
      have hnd := ha.nodup
      rw [refs_cons, List.nodup_cons, List.nodup_cons] at hnd
      have hrange := ha.range
      rw [refs_cons] at hrange
      have hsL := hrange s.initL (by simp)
      have hsU := hrange s.initU (by simp)
      have ha' : Apart base h ss := ⟨hnd.2.2, fun r hr => hrange r (by simp [hr])⟩
      cases f with
      | none =>
        obtain ⟨n1, c1, a1, m1, l1, v1⟩ := ih fs h hb hl' ha'
        simp only [recoverSavers]
        refine ⟨n1, c1, ⟨?_, ?_⟩, ?_, by simp [l1], ?_⟩
        · rw [refs_cons, List.nodup_cons, List.nodup_cons]
          refine ⟨fun hm => ?_, fun hm => ?_, a1.nodup⟩
          · rcases List.mem_cons.1 hm with hm | hm
            · exact hnd.1 (by rw [hm]; simp)
            · rcases m1 _ hm with hm | hm
              · exact hnd.1 (by simp [hm])
              · omega
          · rcases m1 _ hm with hm | hm
            · exact hnd.2.1 hm
            · omega
        · intro r hr
          rw [refs_cons, List.mem_cons, List.mem_cons] at hr
          rcases hr with rfl | rfl | hr
          · omega
          · omega
          · exact a1.range r hr
        · intro r hr
          rw [refs_cons, List.mem_cons, List.mem_cons] at hr
          rw [refs_cons]
          rcases hr with rfl | rfl | hr
          · simp
          · simp
          · rcases m1 r hr with h1 | h1
            · left; simp [h1]
            · exact .inr h1
        · intro i s' r f h1 h2 h3
          cases i with
          | zero =>
            simp only [List.getElem?_cons_zero, Option.some.injEq] at h1 h2 h3
            subst h1; subst h2; subst h3
            exact look_congr (c1 _ hsL.2) (c1 _ hsU.2)
          | succ i => exact v1 i s' r f (by simpa using h1) (by simpa using h2) (by simpa using h3)
      | some v =>
        obtain ⟨n0, c0, hl0, hu0, k0⟩ := loaded_spec h v
        have ha0 : Apart base (loaded h v).1 ss := ⟨ha'.nodup, fun r hr => by have := ha'.range r hr; omega⟩
        obtain ⟨n1, c1, a1, m1, l1, v1⟩ := ih fs (loaded h v).1 (by omega) hl' ha0
        simp only [recoverSavers]
        refine ⟨by omega, fun r hr => by rw [c1 r (by omega), c0 r hr], ⟨?_, ?_⟩, ?_, by simp [l1], ?_⟩
        · rw [refs_cons, List.nodup_cons, List.nodup_cons, hl0, hu0]
          refine ⟨fun hm => ?_, fun hm => ?_, a1.nodup⟩
          · rcases List.mem_cons.1 hm with hm | hm
            · omega
            · rcases m1 _ hm with hm | hm
              · have := ha'.range _ hm; omega
              · omega
          · rcases m1 _ hm with hm | hm
            · have := ha'.range _ hm; omega
            · omega
        · intro r hr
          rw [refs_cons, List.mem_cons, List.mem_cons, hl0, hu0] at hr
          rcases hr with rfl | rfl | hr
          · omega
          · omega
          · exact a1.range r hr
        · intro r hr
          rw [refs_cons, List.mem_cons, List.mem_cons, hl0, hu0] at hr
          rw [refs_cons]
          rcases hr with rfl | rfl | hr
          · right; omega
          · right; omega
          · rcases m1 r hr with h1 | h1
            · left; simp [h1]
            · right; omega
        · intro i s' r f h1 h2 h3
          cases i with
          | zero =>
            simp only [List.getElem?_cons_zero, Option.some.injEq] at h1 h2 h3
            subst h1; subst h2; subst h3
            rw [look_congr (c1 _ (by omega)) (c1 _ (by omega)), k0]
            rfl
          | succ i =>
            have h1' : ss[i]? = some s' := by simpa using h1
            rw [v1 i s' r f h1' (by simpa using h2) (by simpa using h3)]
            have hm := mem_refs (List.mem_of_getElem? h1')
            rw [look_congr (h := h) (c0 _ (ha'.range _ hm.1).2) (c0 _ (ha'.range _ hm.2).2)]

/-! ## The threads -/

/-- The addresses a worker can reach. -/
def trefs (t : Task σ τ) : List Nat := [t.U, t.L, t.saver.initL, t.saver.initU]

theorem task_spec (ops : CollOps κ ε σ) {h h' : Heap κ} {i : Nat} {tr te : τ} {s : StateIO Nat σ} {t : Task σ τ} (hL : s.initL < h.next) (hU : s.initU < h.next)
    (ht : task ops h i tr te s = .ok (h', t)) :
    h'.next = h.next + 2 ∧ (∀ r < h.next, h'.cell r = h.cell r) ∧ t = ⟨i, tr, te, h.next, h.next + 1, s⟩ ∧
      StateIO.getWorkspace ops (look h s) none = .ok (h'.cell t.L, h'.cell t.U) := by
  unfold task at ht
  split at ht
  · cases ht
  · rename_i w hw
    have hlook : look (h.alloc w.2).1 s = look h s := look_congr (alloc_cell _ _ hL) (alloc_cell _ _ hU)
    simp only [hlook, hw] at ht
    injection ht with ht
    injection ht with e1 e2
    subst e1; subst e2
    refine ⟨rfl, fun r hr => ?_, rfl, ?_⟩
    · rw [alloc_cell _ _ (by simp; omega), alloc_cell _ _ hr]
    · rw [hw]
      simp only [alloc_ref, alloc_next]
      have e1 : ((h.alloc w.2).1.alloc w.1).1.cell (h.next + 1) = w.1 := alloc_cell_self (h.alloc w.2).1 w.1
      have e2 : ((h.alloc w.2).1.alloc w.1).1.cell h.next = w.2 := by
        rw [alloc_cell _ _ (by simp), alloc_cell_self]
      rw [e1, e2]

/-- What the threads are given. -/
structure Tasks (ops : CollOps κ ε σ) (base : Nat) (h h' : Heap κ) (i : Nat) (trs tes : List τ) (ss : List (StateIO Nat σ)) (ts : List (Task σ τ)) : Prop where
  length : ts.length = ss.length
  next : h.next ≤ h'.next
  old : ∀ r < h.next, h'.cell r = h.cell r
  nodup : (ts.flatMap trefs).Nodup
  range : ∀ r ∈ ts.flatMap trefs, base ≤ r ∧ r < h'.next
  fresh : ∀ r ∈ ts.flatMap trefs, r ∈ refs ss ∨ h.next ≤ r
  args : ∀ (k : Nat) (t : Task σ τ), ts[k]? = some t → t.round = i + k ∧ trs[k]? = some t.train ∧ tes[k]? = some t.test ∧ ss[k]? = some t.saver ∧
    StateIO.getWorkspace ops (look h t.saver) none = .ok (h'.cell t.L, h'.cell t.U)

theorem tasks_spec (ops : CollOps κ ε σ) {base : Nat} : ∀ (ss : List (StateIO Nat σ)) (trs tes : List τ) (i : Nat) {h h' : Heap κ} {ts : List (Task σ τ)}, base ≤ h.next → Apart base h ss →
    trs.length = ss.length → tes.length = ss.length → tasks ops h i trs tes ss = .ok (h', ts) → Tasks ops base h h' i trs tes ss ts := by
  intro ss
  induction ss with
  | nil =>
    intro trs tes i h h' ts hb ha h1 h2 ht
    obtain rfl : trs = [] := List.length_eq_zero_iff.1 (by simpa using h1)
    simp only [tasks] at ht
    injection ht with ht
    injection ht with e1 e2
    subst e1; subst e2
    exact ⟨rfl, le_refl _, fun _ _ => rfl, List.nodup_nil, by simp, by simp, by simp⟩
  | cons s ss ih =>
    intro trs tes i h h' ts hb ha h1 h2 ht
    cases trs with
    | nil => simp at h1
    | cons tr trs =>
    cases tes with
    | nil => simp at h2
    | cons te tes =>
      have hnd := ha.nodup
      rw [refs_cons, List.nodup_cons, List.nodup_cons, List.mem_cons, not_or] at hnd
      have hrange := ha.range
      rw [refs_cons] at hrange
      have hsL := hrange s.initL (by simp)
      have hsU := hrange s.initU (by simp)
      simp only [tasks] at ht
      split at ht
      · cases ht
      · rename_i h0 t htask
        obtain ⟨n0, c0, rfl, w0⟩ := task_spec ops hsL.2 hsU.2 htask
        split at ht
        · cases ht
        · rename_i h1' ts' htasks
          injection ht with ht
          injection ht with e1 e2
          subst e1; subst e2
          have ha0 : Apart base h0 ss := ⟨hnd.2.2, fun r hr => by have := hrange r (by simp [hr]); omega⟩
          have H := ih trs tes (i + 1) (by omega) ha0 (by simpa using h1) (by simpa using h2) htasks
          have hin : ∀ r ∈ refs ss, base ≤ r ∧ r < h.next := fun r hr => hrange r (by simp [hr])
          have hnext := H.next
          refine ⟨by simp [H.length], by omega, fun r hr => by rw [H.old r (by omega), c0 r hr], ?_, ?_, ?_, ?_⟩
          · rw [List.flatMap_cons, List.nodup_append]
            refine ⟨?_, H.nodup, ?_⟩
            · simp only [trefs, List.nodup_cons, List.mem_cons, not_or, List.not_mem_nil, not_false_eq_true, List.nodup_nil, and_true]
              exact ⟨⟨by omega, by omega, by omega⟩, ⟨by omega, by omega⟩, hnd.1.1⟩
            · intro a ha b hb' hab
              subst hab
              simp only [trefs, List.mem_cons, List.not_mem_nil, or_false] at ha
              rcases H.fresh a hb' with hf | hf
              · have := hin a hf
                rcases ha with rfl | rfl | rfl | rfl
                · omega
                · omega
                · exact hnd.1.2 hf
                · exact hnd.2.1 hf
              · rcases ha with rfl | rfl | rfl | rfl <;> omega
          · intro r hr
            rw [List.flatMap_cons, List.mem_append] at hr
            rcases hr with hr | hr
            · simp only [trefs, List.mem_cons, List.not_mem_nil, or_false] at hr
              rcases hr with rfl | rfl | rfl | rfl <;> omega
            · exact H.range r hr
          · intro r hr
            rw [List.flatMap_cons, List.mem_append] at hr
            rw [refs_cons]
            rcases hr with hr | hr
            · simp only [trefs, List.mem_cons, List.not_mem_nil, or_false] at hr
              rcases hr with rfl | rfl | rfl | rfl
              · right; omega
              · right; omega
              · left; simp
              · left; simp
            · rcases H.fresh r hr with hf | hf
              · left; simp [hf]
              · right; omega
          · intro k t hk
            cases k with
            | zero =>
              simp only [List.getElem?_cons_zero, Option.some.injEq] at hk
              subst hk
              refine ⟨rfl, rfl, rfl, rfl, ?_⟩
              rw [w0, H.old _ (by simp only; omega), H.old _ (by simp only; omega)]
            | succ k =>
              rw [List.getElem?_cons_succ] at hk
              obtain ⟨a1, a2, a3, a4, a5⟩ := H.args k t hk
              refine ⟨by omega, by simpa using a2, by simpa using a3, by simpa using a4, ?_⟩
              have hm := mem_refs (List.mem_of_getElem? a4)
              rw [← a5, look_congr (h := h) (c0 _ (hin _ hm.1).2) (c0 _ (hin _ hm.2).2)]

theorem tasks_ok (ops : CollOps κ ε σ) : ∀ (ss : List (StateIO Nat σ)) (trs tes : List τ) (i : Nat) (h : Heap κ), (∀ r ∈ refs ss, r < h.next) →
    (∀ s ∈ ss, ∃ w, StateIO.getWorkspace ops (look h s) none = .ok w) → ∃ h' ts, tasks ops h i trs tes ss = .ok (h', ts) := by
  intro ss
  induction ss with
  | nil => intro trs tes i h _ _; cases trs <;> cases tes <;> exact ⟨_, _, rfl⟩
  | cons s ss ih =>
    intro trs tes i h hr hw
    cases trs with
    | nil => exact ⟨_, _, rfl⟩
    | cons tr trs =>
    cases tes with
    | nil => exact ⟨_, _, rfl⟩
    | cons te tes =>
      rw [refs_cons] at hr
      have hL := hr s.initL (by simp)
      have hU := hr s.initU (by simp)
      obtain ⟨w, hw0⟩ := hw s (by simp)
      have ht : ∃ h1 t, task ops h i tr te s = .ok (h1, t) := by
        have hlook : look (h.alloc w.2).1 s = look h s := look_congr (alloc_cell _ _ hL) (alloc_cell _ _ hU)
        refine ⟨((h.alloc w.2).1.alloc w.1).1, ⟨i, tr, te, h.next, h.next + 1, s⟩, ?_⟩
        unfold task
        simp only [hw0, hlook]
        rfl
      obtain ⟨h1, t, ht⟩ := ht
      obtain ⟨n0, c0, -, -⟩ := task_spec ops hL hU ht
      have hin : ∀ r ∈ refs ss, r < h.next := fun r hm => hr r (by simp [hm])
      obtain ⟨h2, ts, hts⟩ := ih trs tes (i + 1) h1 (fun r hm => by have := hin r hm; omega) (fun s' hs' => by
        have hm := mem_refs hs'
        rw [look_congr (h := h) (c0 _ (hin _ hm.1)) (c0 _ (hin _ hm.2))]
        exact hw s' (by simp [hs']))
      exact ⟨h2, t :: ts, by simp only [tasks, ht, hts]⟩

/-! ## Running -/

theorem write_self (h : Heap κ) (r : Nat) (x : κ) : (h.write r x).cell r = x := by simp [Heap.write, Threads.set]
theorem write_other (h : Heap κ) {r q : Nat} (x : κ) (hq : q ≠ r) : (h.write r x).cell q = h.cell q := by simp [Heap.write, Threads.set, hq]

/-- The savers still refer to the same objects. -/
def Kept (ts : List (Task σ τ)) (s : Sys ρ κ σ) : Prop := ∀ t ∈ ts, (s.saver t.round).initL = t.saver.initL ∧ (s.saver t.round).initU = t.saver.initU

theorem view_store_self {s : Sys ρ κ σ} {t : Task σ τ} (hk : (s.saver t.round).initL = t.saver.initL ∧ (s.saver t.round).initU = t.saver.initU) (hn : (trefs t).Nodup) (v : View ρ κ σ) :
    (s.store t v).view t = v := by
  simp only [trefs, List.nodup_cons, List.mem_cons, not_or, List.not_mem_nil, not_false_eq_true, List.nodup_nil, and_true] at hn
  obtain ⟨⟨d1, d2, d3⟩, ⟨d4, d5⟩, d6⟩ := hn
  have e1 : (s.store t v).heap.cell t.U = v.U := by
    simp only [Sys.store, hk.1, hk.2]
    rw [write_other _ _ d2, write_other _ _ d3, write_other _ _ d1, write_self]
  have e2 : (s.store t v).heap.cell t.L = v.L := by
    simp only [Sys.store, hk.1, hk.2]
    rw [write_other _ _ d4, write_other _ _ d5, write_self]
  have e3 : (s.store t v).heap.cell t.saver.initL = v.saver.initL := by
    simp only [Sys.store, hk.1, hk.2]
    rw [write_self]
  have e4 : (s.store t v).heap.cell t.saver.initU = v.saver.initU := by
    simp only [Sys.store, hk.1, hk.2]
    rw [write_other _ _ (Ne.symm d6), write_self]
  have e5 : (s.store t v).saver t.round = ⟨t.saver.initL, t.saver.initU, v.saver.states, v.saver.cost, v.saver.numq, v.saver.batch⟩ := by
    simp only [Sys.store, Threads.set, if_true, hk.1, hk.2]
  have e6 : (s.store t v).own t.round = v.own := by simp [Sys.store, Threads.set]
  simp only [Sys.view, e1, e2, e5, e6, look, e3, e4]

theorem view_store_other {s : Sys ρ κ σ} {t t' : Task σ τ} (hk : (s.saver t.round).initL = t.saver.initL ∧ (s.saver t.round).initU = t.saver.initU)
    (hk' : (s.saver t'.round).initL = t'.saver.initL ∧ (s.saver t'.round).initU = t'.saver.initU) (hr : t'.round ≠ t.round) (hd : ∀ r ∈ trefs t', r ∉ trefs t) (v : View ρ κ σ) :
    (s.store t v).view t' = s.view t' := by
  have key : ∀ r ∈ trefs t', (s.store t v).heap.cell r = s.heap.cell r := by
    intro r hr
    have := hd r hr
    simp only [trefs, List.mem_cons, List.not_mem_nil, or_false, not_or] at this
    simp only [Sys.store, hk.1, hk.2]
    rw [write_other _ _ this.2.2.1, write_other _ _ this.2.2.2, write_other _ _ this.2.1, write_other _ _ this.1]
  have e5 : (s.store t v).saver t'.round = s.saver t'.round := by simp [Sys.store, Threads.set, hr]
  have e6 : (s.store t v).own t'.round = s.own t'.round := by simp [Sys.store, Threads.set, hr]
  simp only [Sys.view, e5, e6, look, hk'.1, hk'.2]
  rw [key t'.U (by simp [trefs]), key t'.L (by simp [trefs]), key _ (by simp [trefs]), key _ (by simp [trefs])]

theorem kept_store {ts : List (Task σ τ)} {s : Sys ρ κ σ} (hk : Kept ts s) (t : Task σ τ) (v : View ρ κ σ) : Kept ts (s.store t v) := by
  intro t' ht'
  obtain ⟨h1, h2⟩ := hk t' ht'
  by_cases h : t'.round = t.round
  · rw [h] at h1 h2
    simp only [Sys.store, Threads.set, h, if_true]
    exact ⟨h1, h2⟩
  · simp only [Sys.store, Threads.set, h, if_false]
    exact ⟨h1, h2⟩

theorem store_low {base : Nat} {s : Sys ρ κ σ} {t : Task σ τ} (hk : (s.saver t.round).initL = t.saver.initL ∧ (s.saver t.round).initU = t.saver.initU)
    (hb : ∀ r ∈ trefs t, base ≤ r) (v : View ρ κ σ) {r : Nat} (hr : r < base) : (s.store t v).heap.cell r = s.heap.cell r := by
  have h1 := hb t.U (by simp [trefs]); have h2 := hb t.L (by simp [trefs]); have h3 := hb t.saver.initL (by simp [trefs]); have h4 := hb t.saver.initU (by simp [trefs])
  simp only [Sys.store, hk.1, hk.2]
  rw [write_other _ _ (by omega), write_other _ _ (by omega), write_other _ _ (by omega), write_other _ _ (by omega)]

theorem run_spec (step : Nat → View ρ κ σ → View ρ κ σ) {base : Nat} {ts : List (Task σ τ)} (hnd : (ts.flatMap trefs).Nodup) (hb : ∀ r ∈ ts.flatMap trefs, base ≤ r)
    (hround : ∀ (k : Nat) (t : Task σ τ), ts[k]? = some t → t.round = k) : ∀ (evs : List (Ev κ)) (s : Sys ρ κ σ), Kept ts s → OwnObjects base evs →
    (∀ (i : Nat) (t : Task σ τ), ts[i]? = some t → (s.run step ts evs).view t = alone (step i) (stepsOf i evs) (s.view t)) ∧
      ∀ r < base, (∀ x, Ev.user r x ∉ evs) → (s.run step ts evs).heap.cell r = s.heap.cell r := by
  intro evs
  induction evs with
  | nil => intro s hk ho; exact ⟨fun i t ht => rfl, fun r _ _ => rfl⟩
  | cons e evs ih =>
    intro s hk ho
    have ho' : OwnObjects base evs := fun r x hr => ho r x (by simp [hr])
    have hmem : ∀ {t : Task σ τ}, t ∈ ts → ∀ r ∈ trefs t, r ∈ ts.flatMap trefs := fun ht r hr => List.mem_flatMap.2 ⟨_, ht, hr⟩
    have hrun : s.run step ts (e :: evs) = (Sys.exec step ts s e).run step ts evs := rfl
    rw [hrun]
    cases e with
    | user r x =>
      have hr := ho r x (by simp)
      have hview : ∀ (t : Task σ τ), t ∈ ts → (Sys.exec step ts s (.user r x)).view t = s.view t := by
        intro t ht
        have hne : ∀ q ∈ trefs t, q ≠ r := fun q hq => by have := hb q (hmem ht q hq); omega
        obtain ⟨k1, k2⟩ := hk t ht
        simp only [Sys.exec, Sys.view, look, k1, k2]
        rw [write_other _ _ (hne t.U (by simp [trefs])), write_other _ _ (hne t.L (by simp [trefs])), write_other _ _ (hne _ (by simp [trefs])), write_other _ _ (hne _ (by simp [trefs]))]
      obtain ⟨h1, h2⟩ := ih (Sys.exec step ts s (.user r x)) hk ho'
      refine ⟨fun i t ht => ?_, fun q hq hn => ?_⟩
      · rw [h1 i t ht, hview t (List.mem_of_getElem? ht)]
        rfl
      · rw [h2 q hq (fun y hy => hn y (by simp [hy]))]
        simp only [Sys.exec]
        exact write_other _ _ (fun hqr => hn x (by subst hqr; simp))
    | work j =>
      cases hj : ts[j]? with
      | none =>
        have hex : Sys.exec step ts s (.work j) = s := by simp only [Sys.exec, hj]
        rw [hex]
        obtain ⟨h1, h2⟩ := ih s hk ho'
        refine ⟨fun i t ht => ?_, fun q hq hn => h2 q hq (fun y hy => hn y (by simp [hy]))⟩
        rw [h1 i t ht]
        have hji : j ≠ i := by rintro rfl; rw [hj] at ht; cases ht
        simp only [stepsOf, if_neg hji, Nat.zero_add]
      | some t₀ =>
        have hex : Sys.exec step ts s (.work j) = s.store t₀ (step j (s.view t₀)) := by simp only [Sys.exec, hj]
        rw [hex]
        have ht₀ := List.mem_of_getElem? hj
        obtain ⟨h1, h2⟩ := ih _ (kept_store hk t₀ (step j (s.view t₀))) ho'
        refine ⟨fun i t ht => ?_, fun q hq hn => ?_⟩
        · rw [h1 i t ht]
          by_cases hij : j = i
          · subst hij
            rw [hj] at ht
            cases ht
            have hn : (trefs t₀).Nodup := (List.nodup_flatMap.1 hnd).1 _ ht₀
            rw [view_store_self (hk _ ht₀) hn]
            simp only [stepsOf, if_true, Nat.add_comm 1, alone]
          · have hd : ∀ r ∈ trefs t, r ∉ trefs t₀ := by
              have hp := (List.nodup_flatMap.1 hnd).2
              rw [List.pairwise_iff_getElem] at hp
              obtain ⟨hi', hie⟩ := List.getElem?_eq_some_iff.1 ht
              obtain ⟨hj', hje⟩ := List.getElem?_eq_some_iff.1 hj
              intro r hr hr'
              rcases lt_or_gt_of_ne hij with hlt | hlt
              · exact hp j i hj' hi' hlt (by rw [hje]; exact hr') (by rw [hie]; exact hr)
              · exact hp i j hi' hj' hlt (by rw [hie]; exact hr) (by rw [hje]; exact hr')
            rw [view_store_other (hk _ ht₀) (hk t (List.mem_of_getElem? ht)) (by rw [hround i t ht, hround j t₀ hj]; exact Ne.symm hij) hd]
            simp only [stepsOf, if_neg hij, Nat.zero_add]
        · rw [h2 q hq (fun y hy => hn y (by simp [hy]))]
          exact store_low (hk _ ht₀) (fun r hr => hb r (hmem ht₀ r hr)) _ hq

theorem fresh_workspace (ops : CollOps κ ε σ) (L U : κ) : StateIO.getWorkspace ops (StateIO.new L U : StateIO κ σ) none = .ok (L, U) := rfl

/-- Savers that are apart give threads that are apart. -/
theorem isolated (ops : CollOps κ ε σ) {base : Nat} {h : Heap κ} {ss : List (StateIO Nat σ)} (hb : base ≤ h.next) (ha : Apart base h ss) {train test : List τ}
    (htr : train.length = ss.length) (hte : test.length = ss.length) (hw : ∀ s ∈ ss, ∃ w, StateIO.getWorkspace ops (look h s) none = .ok w)
    (step : Nat → View ρ κ σ → View ρ κ σ) (own : Nat → ρ) (dflt : StateIO Nat σ) :
    ∃ h' ts, tasks ops h 0 train test ss = .ok (h', ts) ∧ ts.length = ss.length ∧ (∀ r < h.next, h'.cell r = h.cell r) ∧ ∀ evs, OwnObjects base evs →
      (∀ i s, ss[i]? = some s → ∃ t L U, ts[i]? = some t ∧ t.round = i ∧ train[i]? = some t.train ∧ test[i]? = some t.test ∧ StateIO.getWorkspace ops (look h s) none = .ok (L, U) ∧
        ((Sys.init h' ss dflt own).run step ts evs).view t = alone (step i) (stepsOf i evs) ⟨own i, U, L, look h s⟩) ∧
      ∀ r < base, (∀ x, Ev.user r x ∉ evs) → ((Sys.init h' ss dflt own).run step ts evs).heap.cell r = h.cell r := by
  obtain ⟨h', ts, hts⟩ := tasks_ok ops ss train test 0 h (fun r hr => (ha.range r hr).2) hw
  have H := tasks_spec ops ss train test 0 hb ha htr hte hts
  refine ⟨h', ts, hts, H.length, H.old, fun evs ho => ?_⟩
  have hround : ∀ (k : Nat) (t : Task σ τ), ts[k]? = some t → t.round = k := fun k t hk => by have := (H.args k t hk).1; omega
  have hsaver : ∀ (k : Nat) (t : Task σ τ), ts[k]? = some t → (Sys.init h' ss dflt own : Sys ρ κ σ).saver t.round = t.saver := fun k t hk => by
    obtain ⟨-, -, -, a4, -⟩ := H.args k t hk
    simp only [Sys.init, hround k t hk, List.getD_eq_getElem?_getD, a4, Option.getD_some]
  have hkept : Kept ts (Sys.init h' ss dflt own : Sys ρ κ σ) := by
    intro t ht
    obtain ⟨k, hk, rfl⟩ := List.getElem_of_mem ht
    rw [hsaver k _ (List.getElem?_eq_getElem hk)]
    exact ⟨rfl, rfl⟩
  obtain ⟨r1, r2⟩ := run_spec step H.nodup (fun r hr => (H.range r hr).1) hround evs _ hkept ho
  refine ⟨fun i s hs => ?_, fun r hr hn => by rw [r2 r hr hn]; exact H.old r (by omega)⟩
  obtain ⟨hi, hie⟩ := List.getElem?_eq_some_iff.1 hs
  have ht : ts[i]? = some (ts[i]'(by rw [H.length]; exact hi)) := List.getElem?_eq_getElem _
  obtain ⟨a1, a2, a3, a4, a5⟩ := H.args i _ ht
  rw [hs] at a4
  injection a4 with a4
  refine ⟨_, _, _, ht, by omega, a2, a3, by rw [a4]; exact a5, ?_⟩
  rw [r1 i _ ht]
  congr 1
  have hm := mem_refs (List.mem_of_getElem? hs)
  have hown : (Sys.init h' ss dflt own : Sys ρ κ σ).own (ts[i]'(by rw [H.length]; exact hi)).round = own i := by rw [hround i _ ht]; rfl
  simp only [Sys.view, hsaver i _ ht, hown, ← a4]
  have hh : (Sys.init h' ss dflt own : Sys ρ κ σ).heap = h' := rfl
  rw [hh, look_congr (h := h) (H.old _ (ha.range _ hm.1).2) (H.old _ (ha.range _ hm.2).2)]

/-- **C126**: the threads of a new `aceThreading` object. `h` is the memory of the program, with the collections passed for the rounds at the addresses `idx` (labelled, unlabelled; rounds may
share them). The worker of round `i` gets round `i`, the training and test indexes of round `i`, collections with the contents that were passed, and a saver that starts from them; in whatever order the
threads take their steps, and whatever the program meanwhile does to its own objects, every worker sees and records what it would alone. The objects of the program are not touched. -/
theorem C126_any_schedule (ops : CollOps κ ε σ) (h : Heap κ) (idx : List (Nat × Nat)) (hidx : ∀ p ∈ idx, p.1 < h.next ∧ p.2 < h.next) {train test : List τ} (htr : train.length = idx.length)
    (hte : test.length = idx.length) (step : Nat → View ρ κ σ → View ρ κ σ) (own : Nat → ρ) (dflt : StateIO Nat σ) :
    ∃ h' ts, tasks ops (newSavers (σ := σ) h idx).1 0 train test (newSavers (σ := σ) h idx).2 = .ok (h', ts) ∧ ts.length = idx.length ∧ ∀ evs, OwnObjects h.next evs →
      (∀ i p, idx[i]? = some p → ∃ t, ts[i]? = some t ∧ t.round = i ∧ train[i]? = some t.train ∧ test[i]? = some t.test ∧
        ((Sys.init h' (newSavers (σ := σ) h idx).2 dflt own).run step ts evs).view t = alone (step i) (stepsOf i evs) ⟨own i, h.cell p.2, h.cell p.1, StateIO.new (h.cell p.1) (h.cell p.2)⟩) ∧
      ∀ r < h.next, (∀ x, Ev.user r x ∉ evs) → ((Sys.init h' (newSavers (σ := σ) h idx).2 dflt own).run step ts evs).heap.cell r = h.cell r := by
  obtain ⟨n1, c1, a1, f1⟩ := newSavers_spec (σ := σ) idx h hidx
  have hlen := f1.length_eq
  rw [List.forall₂_iff_get] at f1
  have hlook : ∀ (i : Nat) (p : Nat × Nat) (s : StateIO Nat σ), idx[i]? = some p → (newSavers (σ := σ) h idx).2[i]? = some s → look (newSavers (σ := σ) h idx).1 s = StateIO.new (h.cell p.1) (h.cell p.2) := by
    intro i p s hp hs
    obtain ⟨h1, e1⟩ := List.getElem?_eq_some_iff.1 hp
    obtain ⟨h2, e2⟩ := List.getElem?_eq_some_iff.1 hs
    have := f1.2 i h1 h2
    simp only [List.get_eq_getElem] at this
    rwa [e1, e2] at this
  obtain ⟨h', ts, hts, hl, hold, H⟩ := isolated ops n1 a1 (htr.trans hlen) (hte.trans hlen) (fun s hs => by
    obtain ⟨i, hi, rfl⟩ := List.getElem_of_mem hs
    rw [hlook i _ _ (List.getElem?_eq_getElem (by rw [hlen]; exact hi)) (List.getElem?_eq_getElem hi)]
    exact ⟨_, fresh_workspace ops _ _⟩) step own dflt
  refine ⟨h', ts, hts, hl.trans hlen.symm, fun evs ho => ?_⟩
  obtain ⟨H1, H2⟩ := H evs ho
  refine ⟨fun i p hp => ?_, fun r hr hn => by rw [H2 r hr hn, c1 r hr]⟩
  obtain ⟨h1, e1⟩ := List.getElem?_eq_some_iff.1 hp
  have hs : (newSavers (σ := σ) h idx).2[i]? = some ((newSavers (σ := σ) h idx).2[i]'(by rw [← hlen]; exact h1)) := List.getElem?_eq_getElem _
  obtain ⟨t, L, U, b1, b2, b3, b4, b5, b6⟩ := H1 i _ hs
  rw [hlook i p _ hp hs] at b5 b6
  rw [fresh_workspace] at b5
  injection b5 with b5
  injection b5 with e2 e3
  subst e2; subst e3
  exact ⟨t, b1, b2, b3, b4, b6⟩

/-- Two collections in memory. -/
private def m0 : Heap IC := ⟨2, fun r => if r = 0 then IC.mk' (idx false [0]) else IC.mk' (idx false [1, 2])⟩

/-- Two rounds that share the collections passed, the second worker a step ahead: each takes one element from its own unlabelled set. -/
example : ∃ h' ts, tasks (icOps) (newSavers (σ := List Val) m0 [(0, 1), (0, 1)]).1 0 ["a", "b"] ["c", "d"]
      (newSavers (σ := List Val) m0 [(0, 1), (0, 1)]).2 = .ok (h', ts) ∧
    ∃ t, ts[0]? = some t ∧ (((Sys.init h' (newSavers (σ := List Val) m0 [(0, 1), (0, 1)]).2 (StateIO.new 0 0) (fun _ => ())).run
      (fun _ v => { v with U := IC.empty }) ts [.work 1]).view t).U = IC.mk' (idx false [1, 2]) := by
  obtain ⟨h', ts, h1, -, H⟩ := C126_any_schedule (ρ := Unit) (σ := List Val) icOps m0 [(0, 1), (0, 1)] (by simp [m0]) (train := ["a", "b"])
    (test := ["c", "d"]) rfl rfl (fun _ v => { v with U := IC.empty }) (fun _ => ()) (StateIO.new 0 0)
  obtain ⟨t, a1, -, -, -, a2⟩ := (H [.work 1] (by intro r x h; simp at h)).1 0 (0, 1) rfl
  refine ⟨h', ts, h1, t, a1, ?_⟩
  rw [a2]
  rfl

/-- **C126**, after `recover`: the savers of some rounds are those of the files. The worker of such a round goes on from the sets after the recorded queries, with the recorded saver; the others
start anew; and all work as if alone. -/
theorem C126_recovered (ops : CollOps κ ε σ) (h : Heap κ) (idx : List (Nat × Nat)) (hidx : ∀ p ∈ idx, p.1 < h.next ∧ p.2 < h.next) {train test : List τ} (htr : train.length = idx.length)
    (hte : test.length = idx.length) {files : List (Option (StateIO κ σ))} (hf : files.length = idx.length) (hok : ∀ v, some v ∈ files → ∃ w, StateIO.getWorkspace ops v none = .ok w)
    (step : Nat → View ρ κ σ → View ρ κ σ) (own : Nat → ρ) (dflt : StateIO Nat σ) :
    ∃ h' ts, tasks ops (recoverSavers (newSavers (σ := σ) h idx).1 (newSavers (σ := σ) h idx).2 files).1 0 train test (recoverSavers (newSavers (σ := σ) h idx).1 (newSavers (σ := σ) h idx).2 files).2 = .ok (h', ts) ∧
      ts.length = idx.length ∧ ∀ evs, OwnObjects h.next evs → ∀ i p f, idx[i]? = some p → files[i]? = some f → ∃ t L U, ts[i]? = some t ∧ t.round = i ∧
        train[i]? = some t.train ∧ test[i]? = some t.test ∧ StateIO.getWorkspace ops (f.getD (StateIO.new (h.cell p.1) (h.cell p.2))) none = .ok (L, U) ∧
        ((Sys.init h' (recoverSavers (newSavers (σ := σ) h idx).1 (newSavers (σ := σ) h idx).2 files).2 dflt own).run step ts evs).view t =
          alone (step i) (stepsOf i evs) ⟨own i, U, L, f.getD (StateIO.new (h.cell p.1) (h.cell p.2))⟩ := by
  obtain ⟨n1, c1, a1, f1⟩ := newSavers_spec (σ := σ) idx h hidx
  have hlen := f1.length_eq
  rw [List.forall₂_iff_get] at f1
  obtain ⟨n2, c2, a2, m2, l2, v2⟩ := recoverSavers_spec (newSavers (σ := σ) h idx).2 files (newSavers (σ := σ) h idx).1 n1 (hf.trans hlen) a1
  have hlook : ∀ (i : Nat) (p : Nat × Nat) (f : Option (StateIO κ σ)) (r : StateIO Nat σ), idx[i]? = some p → files[i]? = some f →
      (recoverSavers (newSavers (σ := σ) h idx).1 (newSavers (σ := σ) h idx).2 files).2[i]? = some r →
      look (recoverSavers (newSavers (σ := σ) h idx).1 (newSavers (σ := σ) h idx).2 files).1 r = f.getD (StateIO.new (h.cell p.1) (h.cell p.2)) := by
    intro i p f r hp hf hr
    obtain ⟨h1, e1⟩ := List.getElem?_eq_some_iff.1 hp
    have h2 : i < (newSavers (σ := σ) h idx).2.length := by rw [← hlen]; exact h1
    rw [v2 i _ r f (List.getElem?_eq_getElem h2) hf hr]
    have := f1.2 i h1 h2
    simp only [List.get_eq_getElem] at this
    rw [e1] at this
    rw [this]
  have hlr : (recoverSavers (newSavers (σ := σ) h idx).1 (newSavers (σ := σ) h idx).2 files).2.length = idx.length := l2.trans hlen.symm
  obtain ⟨h', ts, hts, hl, hold, H⟩ := isolated ops (base := h.next) (n1.trans n2) a2 (htr.trans hlr.symm) (hte.trans hlr.symm) (fun s hs => by
    obtain ⟨i, hi, rfl⟩ := List.getElem_of_mem hs
    have hi' : i < idx.length := by rw [← hlr]; exact hi
    have hi'' : i < files.length := by rw [hf]; exact hi'
    rw [hlook i _ _ _ (List.getElem?_eq_getElem hi') (List.getElem?_eq_getElem hi'') (List.getElem?_eq_getElem hi)]
    cases hfi : files[i] with
    | none => exact ⟨_, fresh_workspace ops _ _⟩
    | some v => exact hok v (by rw [← hfi]; exact List.getElem_mem hi'')) step own dflt
  refine ⟨h', ts, hts, hl.trans hlr, fun evs ho i p f hp hfi => ?_⟩
  obtain ⟨H1, -⟩ := H evs ho
  obtain ⟨h1, e1⟩ := List.getElem?_eq_some_iff.1 hp
  have hs := List.getElem?_eq_getElem (l := (recoverSavers (newSavers (σ := σ) h idx).1 (newSavers (σ := σ) h idx).2 files).2) (i := i) (by rw [hlr]; exact h1)
  obtain ⟨t, L, U, b1, b2, b3, b4, b5, b6⟩ := H1 i _ hs
  rw [hlook i p f _ hp hfi hs] at b5 b6
  exact ⟨t, L, U, b1, b2, b3, b4, b5, b6⟩

/-! ## The function to be run -/

/-- **C126**: `set_target_function` accepts a function exactly if the nine documented names are among its parameters; a function accepted can be called by the threads exactly if no other parameter
is required. -/
theorem C126_target (f : Sig) :
    (accepts f = true ↔ ∀ n ∈ Spec.targetParameters, n ∈ f.args) ∧ (accepts f = true → (callable f = true ↔ ∀ n ∈ f.required, n ∈ Spec.targetParameters)) := by
  have h1 : accepts f = true ↔ ∀ n ∈ Spec.targetParameters, n ∈ f.args := by simp [accepts, names, Spec.targetParameters]
  refine ⟨h1, fun h => ?_⟩
  have h2 := h1.1 h
  have hnames : names = Spec.targetParameters := rfl
  simp only [callable, hnames, Bool.and_eq_true, Bool.or_eq_true, List.all_eq_true, decide_eq_true_eq, List.mem_append]
  exact ⟨fun ⟨_, h4⟩ => h4, fun h4 => ⟨.inr fun n hn => .inl (h2 n hn), h4⟩⟩

/-- The documented signature. -/
example : accepts ⟨Spec.targetParameters, [], Spec.targetParameters, false⟩ = true ∧ callable ⟨Spec.targetParameters, [], Spec.targetParameters, false⟩ = true := by decide

/-- **C126**, violation: the names are looked for among the parameters before `*` only, so a function that takes them in another way, which the threads could call, is refused; and a function with a
further parameter without default is accepted, though every thread fails when it calls it. -/
theorem C126_target_violation (args kwonly : List String) {n : String} (hn : n ∈ Spec.targetParameters) (hargs : n ∉ args) {x : String} (hx : x ∉ Spec.targetParameters) :
    (accepts ⟨args, kwonly, [], true⟩ = false ∧ callable ⟨args, kwonly, [], true⟩ = true) ∧
      accepts ⟨Spec.targetParameters ++ [x], [], Spec.targetParameters ++ [x], false⟩ = true ∧ callable ⟨Spec.targetParameters ++ [x], [], Spec.targetParameters ++ [x], false⟩ = false := by
  refine ⟨⟨?_, by simp [callable]⟩, ?_, ?_⟩
  · rw [Bool.eq_false_iff]
    intro h
    exact hargs (((C126_target _).1.1 h) n hn)
  · exact (C126_target _).1.2 fun n hn => by simp [hn]
  · rw [Bool.eq_false_iff]
    intro h
    have := ((C126_target ⟨Spec.targetParameters ++ [x], [], Spec.targetParameters ++ [x], false⟩).2 ((C126_target _).1.2 fun n hn => by simp [hn])).1 h
    exact hx (this x (by simp))

/-! ## Starting again -/

theorem startLoop_keeps {todo : Nat → Bool} : ∀ {is : List Nat} {ts ts' : Thr}, startLoop todo is ts = some ts' → ts'.length = ts.length ∧ (∀ i : Nat, ts.getD i false = true → ts'.getD i false = true) ∧
    (∀ i ∈ is, todo i = true → ts'.getD i false = true) := by
  intro is
  induction is with
  | nil => intro ts ts' h; simp only [startLoop, Option.some.injEq] at h; subst h; exact ⟨rfl, fun _ h => h, by simp⟩
  | cons j is ih =>
    intro ts ts' h
    simp only [startLoop] at h
    split_ifs at h with h1 h2
    · obtain ⟨a, b, c⟩ := ih h
      refine ⟨a, b, fun i hi ht => ?_⟩
      rcases List.mem_cons.1 hi with rfl | hi
      · simp [ht] at h1
      · exact c i hi ht
    · obtain ⟨a, b, c⟩ := ih h
      have hj : j < ts.length := by
        by_contra hc
        exact h2 (by rw [List.getD_eq_getElem?_getD, List.getElem?_eq_none (by omega)]; rfl)
      have hset : ∀ i : Nat, ts.getD i false = true ∨ i = j → (ts.set j true).getD i false = true := by
        intro i hi
        rw [List.getD_eq_getElem?_getD, List.getElem?_set]
        by_cases hij : j = i
        · subst hij; simp [hj]
        · rw [if_neg hij, ← List.getD_eq_getElem?_getD]
          rcases hi with hi | hi
          · exact hi
          · exact absurd hi.symm hij
      refine ⟨by rw [a, List.length_set], fun i hi => b i (hset i (.inl hi)), fun i hi ht => ?_⟩
      rcases List.mem_cons.1 hi with rfl | hi
      · exact b _ (hset _ (.inr rfl))
      · exact c i hi ht

theorem startLoop_fails {todo : Nat → Bool} : ∀ {is : List Nat} {ts : Thr}, (∃ i ∈ is, todo i = true ∧ ts.getD i true = true) → startLoop todo is ts = none := by
  intro is
  induction is with
  | nil => rintro ts ⟨i, hi, -⟩; simp at hi
  | cons j is ih =>
    rintro ts ⟨i, hi, ht, hg⟩
    simp only [startLoop]
    split_ifs with h1 h2
    · refine ih ⟨i, ?_, ht, hg⟩
      rcases List.mem_cons.1 hi with rfl | hi
      · simp [ht] at h1
      · exact hi
    · rfl
    · refine ih ⟨i, ?_, ht, ?_⟩
      · rcases List.mem_cons.1 hi with rfl | hi
        · exact absurd hg h2
        · exact hi
      · rw [List.getD_eq_getElem?_getD, List.getElem?_set]
        by_cases hij : j = i
        · subst hij
          exact absurd hg h2
        · rw [if_neg hij, ← List.getD_eq_getElem?_getD]; exact hg

/-- **C126**, violation: an object runs its threads once only. A second `start_all_threads` appends new threads but starts the old ones again, which raises `RuntimeError`. -/
theorem C126_second_start_violation {n : Nat} {todo todo' : Nat → Bool} {ts ts' : Thr} (h : startAll n todo ts = some ts') {i : Nat} (hi : i < n) (ht : todo i = true) (ht' : todo' i = true) :
    startAll n todo' ts' = none := by
  obtain ⟨h1, -, h3⟩ := startLoop_keeps h
  have hg := h3 i (List.mem_range.2 hi) ht
  have hlt : i < ts'.length := by
    by_contra hc
    rw [List.getD_eq_getElem?_getD, List.getElem?_eq_none (by omega)] at hg
    cases hg
  refine startLoop_fails ⟨i, List.mem_range.2 hi, ht', ?_⟩
  rw [List.getD_eq_getElem?_getD, List.getElem?_append_left hlt, List.getElem?_eq_getElem hlt]
  rw [List.getD_eq_getElem?_getD, List.getElem?_eq_getElem hlt] at hg
  exact hg

/-- The first start works. -/
example : (startAll 3 (fun i => i != 1) []).isSome = true := by decide

/-! ## The forms of the sets -/

theorem items_tup (ixs : List Ix) : (ixs.map Elem.tup).map Elem.item = ixs.map Item.tup := by rw [List.map_map]; rfl

theorem check_tup {ixs : List Ix} (hne : ixs ≠ []) : checkIndexMultilabel (ixs.map Item.tup) = .ok ixs := by
  exact (checkIndex_ok_iff _ _).2 ⟨by simpa using hne, rfl⟩

theorem check_val (vs : List Val) : checkIndexMultilabel ((vs.map Elem.val).map Elem.item) = .error .typeError := by
  cases vs with
  | nil => rfl
  | cons v vs => rfl

theorem vals_val (vs : List Val) : vals (vs.map Elem.val) = some vs := by
  induction vs with
  | nil => rfl
  | cons v vs ih => simp only [List.map_cons, vals, ih, Option.map_some]

/-- The indexes `is`, each once. -/
def HoldsIndexes (is : List Int) : Sets → Prop
  | .ic c => c.keys.Nodup ∧ ∀ k, k ∈ c.keys ↔ ∃ i ∈ is, k = .num i
  | _ => False

/-- The pairs that the tuples `ixs` stand for among `m` labels, each once. -/
def HoldsPairs (m : Int) (ixs : List Ix) : Sets → Prop
  | .ml c => c.lsz = some m ∧ c.inner.Nodup ∧ ∀ q, q ∈ c.inner ↔ ∃ p, q = (p.1, .scal p.2) ∧ DenotesAny m ixs p
  | _ => False

/-- **C126**, forms: whether the sets of a round are passed to `aceThreading` as collections, as lists of indexes (also empty ones), or, with a label matrix of `m` columns, as non-empty lists of tuples
in the documented forms: the saver starts from these sets. `StateIO` does the same with collections and lists of indexes. -/
theorem C126_forms (cols : Option Nat) :
    (∀ c d : IC, threadSets cols (.ic c) (.ic d) = .ok (.ic c, .ic d) ∧ stateIOSets (.ic c) (.ic d) = .ok (.ic c, .ic d)) ∧
    (∀ c d : MLIC, threadSets cols (.ml c) (.ml d) = .ok (.ml c, .ml d) ∧ stateIOSets (.ml c) (.ml d) = .ok (.ml c, .ml d)) ∧
    (∀ (np np' : Bool) (l u : List Int), ∃ L U, threadSets cols (.list ((idx np l).map .val)) (.list ((idx np' u).map .val)) = .ok (L, U) ∧
      stateIOSets (.list ((idx np l).map .val)) (.list ((idx np' u).map .val)) = .ok (L, U) ∧ HoldsIndexes l L ∧ HoldsIndexes u U) ∧
    ∀ (m : Nat) (l u : List Ix), cols = some m → 0 < m → l ≠ [] → u ≠ [] → (∀ ix ∈ l, Legal m ix) → (∀ ix ∈ u, Legal m ix) →
      ∃ L U, threadSets cols (.list (l.map .tup)) (.list (u.map .tup)) = .ok (L, U) ∧ HoldsPairs m l L ∧ HoldsPairs m u U := by
  refine ⟨fun _ _ => ⟨rfl, rfl⟩, fun _ _ => ⟨rfl, rfl⟩, fun np np' l u => ?_, fun m l u hc hm hl hu h1 h2 => ?_⟩
  · have hb : bothPairs ((idx np l).map .val) ((idx np' u).map .val) = .error .typeError := by simp only [bothPairs, check_val]
    have hp : plain ((idx np l).map .val) ((idx np' u).map .val) = .ok (.ic (IC.mk' (idx np l)), .ic (IC.mk' (idx np' u))) := by simp only [plain, indexCollection, vals_val]
    exact ⟨.ic (IC.mk' (idx np l)), .ic (IC.mk' (idx np' u)), by simp only [threadSets, hb, hp], by simp only [stateIOSets, hb, hp], ⟨IC.mk'_keys_nodup _, mem_mk'_idx np l⟩, ⟨IC.mk'_keys_nodup _, mem_mk'_idx np' u⟩⟩
  · obtain ⟨cU, a1, a2, -, a4, a5⟩ := MLIC.C08_constructor u hu m (by omega) h2
    obtain ⟨cL, b1, b2, -, b4, b5⟩ := MLIC.C08_constructor l hl m (by omega) h1
    refine ⟨.ml cL, .ml cU, ?_, ⟨b2, b4, b5⟩, ⟨a2, a4, a5⟩⟩
    subst hc
    simp only [threadSets, bothPairs, items_tup, check_tup hl, check_tup hu, pairs, a1, b1]

/-- **C126**, violation: with lists of tuples and nothing labelled yet, the empty list is no list of tuples, so both sets become index collections, the unlabelled one with rows of an array as elements
instead of pairs. The same in `StateIO`. -/
theorem C126_cold_start_violation (cols : Option Nat) {u : List (Int × Int)} (hu : u ≠ []) :
    ∃ rows : List (List Int), (∀ r, r ∈ rows ↔ ∃ p ∈ u, r = [p.1, p.2]) ∧
      threadSets cols (.list []) (.list (u.map (fun p => .tup (.pair p.1 (.scal p.2))))) = .ok (.ic IC.empty, .rows rows) ∧
      stateIOSets (.list []) (.list (u.map (fun p => .tup (.pair p.1 (.scal p.2))))) = .ok (.ic IC.empty, .rows rows) := by
  have hrow : (u.map (fun p => Elem.tup (.pair p.1 (.scal p.2)))).mapM row = some (u.map (fun p => [p.1, p.2])) := by
    clear hu
    induction u with
    | nil => rfl
    | cons p u ih => rw [List.map_cons, List.mapM_cons, ih]; rfl
  have hvals : vals (u.map (fun p => Elem.tup (.pair p.1 (.scal p.2)))) = none := by
    cases u with
    | nil => exact absurd rfl hu
    | cons p u => rfl
  have hall : (u.map (fun p => [p.1, p.2])).all (fun r => decide (r.length = ((u.map (fun p => [p.1, p.2])).headD []).length)) = true := by
    cases u with
    | nil => exact absurd rfl hu
    | cons p u => simp
  have hp : plain [] (u.map (fun p => .tup (.pair p.1 (.scal p.2)))) = .ok (.ic IC.empty, .rows (u.map (fun p => [p.1, p.2])).dedup) := by
    have e1 : indexCollection (u.map (fun p => .tup (.pair p.1 (.scal p.2)))) = .ok (.rows (u.map (fun p => [p.1, p.2])).dedup) := by
      simp only [indexCollection, hvals, hrow, hall, if_true]
    have e2 : indexCollection [] = .ok (.ic IC.empty) := rfl
    simp only [plain, e1, e2]
  have hb : bothPairs [] (u.map (fun p => Elem.tup (.pair p.1 (.scal p.2)))) = .error .typeError := rfl
  refine ⟨(u.map (fun p : Int × Int => [p.1, p.2])).dedup, fun r => ?_, by simp only [threadSets, hb, hp], by simp only [stateIOSets, hb, hp]⟩
  rw [List.mem_dedup, List.mem_map]
  exact ⟨fun ⟨p, h1, h2⟩ => ⟨p, h1, h2.symm⟩, fun ⟨p, h1, h2⟩ => ⟨p, h1, h2.symm⟩⟩

theorem mk'_not_list {items : List Item} {lsz : Option Int} {c : MLIC} (h : MLIC.mk' items lsz = .ok c) : c.isList = false := by
  unfold MLIC.mk' at h
  split at h
  · cases h; rfl
  · split at h
    · cases h
    · simp only at h
      split at h
      · cases h
      · split at h
        · cases h
        · cases h; rfl

/-- **C126**, violation: `StateIO` infers the number of labels from each list by itself, so the labelled set may not know a label that the unlabelled set has. Once a pair with such a label is queried and
recorded, the workspace cannot be had any more. -/
theorem C126_inferred_violation {l u : List (Int × Int)} (hl : l ≠ []) (hl0 : ∀ p ∈ l, 0 ≤ p.2) (hu0 : ∀ p ∈ u, 0 ≤ p.2) {e k : Int} (hk : (e, k) ∈ u) (hlk : ∀ p ∈ l, p.2 < k) :
    ∃ L U, stateIOSets (.list (l.map (fun p => .tup (.pair p.1 (.scal p.2))))) (.list (u.map (fun p => .tup (.pair p.1 (.scal p.2))))) = .ok (.ml L, .ml U) ∧
      (e, .scal k) ∈ U.inner ∧ ∀ perf : Obj (List Item ⊕ MLIC),
        StateIO.getWorkspace mlOps (StateIO.addState mlOps (StateIO.new L U) (.st (State.new mlOps (.inl (.tup (.pair e (.scal k)))) perf none none))).1 none = .error .assertionError := by
  have hu : u ≠ [] := fun h => by subst h; cases hk
  have key : ∀ w : List (Int × Int), w ≠ [] → (∀ p ∈ w, 0 ≤ p.2) → ∃ c L, MLIC.mk' ((w.map (fun p => Ix.pair p.1 (.scal p.2))).map .tup) none = .ok c ∧ c.lsz = some L ∧
      (∃ p ∈ w, p.2 = L - 1) ∧ (∀ q ∈ w, q.2 < L) ∧ ∀ q ∈ w, (q.1, .scal q.2) ∈ c.inner := by
    intro w hw h0
    obtain ⟨⟨a, b⟩, hab⟩ := List.exists_mem_of_ne_nil w hw
    obtain ⟨c, L, h1, h2, -, ⟨e', h4⟩, h6, h5⟩ := (MLIC.C08_constructor_infers (w.map (fun p => Ix.pair p.1 (.scal p.2))) (by
      intro ix hix
      obtain ⟨p, hp, rfl⟩ := List.mem_map.1 hix
      exact .inr ⟨_, _, rfl, h0 p hp⟩)).1 ⟨a, b, List.mem_map.2 ⟨(a, b), hab, rfl⟩⟩
    obtain ⟨p, hp, hpe⟩ := List.mem_map.1 h4
    refine ⟨c, L, h1, h2, ⟨p, hp, by simp only [Ix.pair.injEq, Second.scal.injEq] at hpe; exact hpe.2⟩, fun q hq => h6 _ _ (List.mem_map.2 ⟨q, hq, rfl⟩), fun q hq => (h5 _).2 ⟨q, rfl, _, List.mem_map.2 ⟨q, hq, rfl⟩, rfl⟩⟩
  obtain ⟨cL, L, a1, a2, ⟨p, hp, a3⟩, -, -⟩ := key l hl hl0
  obtain ⟨cU, U, b1, b2, ⟨p', hp', b3⟩, b5, b4⟩ := key u hu hu0
  have hmap : ∀ w : List (Int × Int), w.map (fun p => Elem.tup (.pair p.1 (.scal p.2))) = (w.map (fun p => Ix.pair p.1 (.scal p.2))).map Elem.tup := fun w => by rw [List.map_map]; rfl
  refine ⟨cL, cU, ?_, b4 _ hk, fun perf => ?_⟩
  · rw [hmap, hmap]
    have hl' : l.map (fun p => Ix.pair p.1 (.scal p.2)) ≠ [] := by simpa using hl
    have hu' : u.map (fun p => Ix.pair p.1 (.scal p.2)) ≠ [] := by simpa using hu
    simp only [stateIOSets, bothPairs, items_tup, check_tup hl', check_tup hu', pairs, a1, b1]
  · have hk0 := hu0 _ hk
    have hkU : k < U := b5 _ hk
    have hpk := hlk p hp
    have hc : checkIndexMultilabel [.tup (.pair e (.scal k))] = .ok [.pair e (.scal k)] := rfl
    have hU0 : 0 < U := by omega
    have hL0 : 0 < L := by have := hl0 p hp; omega
    have hfU : cU.flattenArg (.list [.tup (.pair e (.scal k))]) = .ok [(e, k)] := by
      simp [MLIC.flattenArg, hc, b2, flatten, flattenLoop, flatten1, hU0, hk0, hkU]
    have hfL : cL.flattenArg (.list [.tup (.pair e (.scal k))]) = .error .assertionError := by
      have : ¬ k < L := by omega
      simp [MLIC.flattenArg, hc, a2, flatten, flattenLoop, flatten1, hL0, this]
    have hd : ∃ U', mlOps.diff cU (.inl [.tup (.pair e (.scal k))]) = (U', none) := by
      refine ⟨_, Prod.ext rfl ?_⟩
      simp [mlOps, MLIC.differenceUpdate, MLIC.differenceMany, hfU, MLIC.erasePairs, MLIC.erase, MLIC.plain, MLIC.hashable, b4 _ hk, mk'_not_list b1]
    obtain ⟨U', hd⟩ := hd
    have hup : (mlOps.update cL (.inl [.tup (.pair e (.scal k))])).2 = some .assertionError := by
      simp [mlOps, MLIC.update, MLIC.updateMany, hfL]
    obtain ⟨L', hup⟩ : ∃ L', mlOps.update cL (.inl [.tup (.pair e (.scal k))]) = (L', some .assertionError) := ⟨_, Prod.ext rfl hup⟩
    have hget : StateIO.entryGet (.st (State.new mlOps (.inl (.tup (.pair e (.scal k)))) perf none none)) "select_index" = .ok (.sel (.inl [.tup (.pair e (.scal k))])) := rfl
    have hst : ∀ s : StateIO MLIC (List Item ⊕ MLIC), s = (StateIO.addState mlOps (StateIO.new cL cU) (.st (State.new mlOps (.inl (.tup (.pair e (.scal k)))) perf none none))).1 →
        s.states = [.st (State.new mlOps (.inl (.tup (.pair e (.scal k)))) perf none none)] ∧ s.initL = cL ∧ s.initU = cU := by
      intro s hs
      subst hs
      exact ⟨rfl, rfl, rfl⟩
    obtain ⟨h1, h2, h3⟩ := hst _ rfl
    simp only [StateIO.getWorkspace, h1, h2, h3]
    simp [StateIO.replay, hget, hd, hup]

example : (stateIOSets (.list [.tup (.pair 0 (.scal 0))]) (.list [.tup (.pair 0 (.scal 1)), .tup (.pair 1 (.scal 0))])).toOption.isSome = true := by decide
example : ∃ L U, threadSets (some 3) (.list [.tup (.all 0)]) (.list [.tup (.pair 1 (.scal 2)), .tup (.pair 1 (.iter false [0, 1]))]) = .ok (L, U) ∧
    HoldsPairs 3 [.all 0] L ∧ HoldsPairs 3 [.pair 1 (.scal 2), .pair 1 (.iter false [0, 1])] U :=
  (C126_forms (some 3)).2.2.2 3 [.all 0] [.pair 1 (.scal 2), .pair 1 (.iter false [0, 1])] rfl (by decide) (by simp) (by simp) (by simp [Legal]) (by simp [Legal])

end Alipy.Workers
