import Verif.Model.Threads
import Mathlib.Data.List.Basic
import Mathlib.Order.Basic
import Mathlib.Tactic.Linarith
import Mathlib.Tactic.Ring
/-!
# Properties of `aceThreading` (C41, C53)
-/
namespace Alipy.Threads
open Alipy

/-- The position of the main thread in the start loop: all rounds before it have been dealt with. -/
def PC.pos (n : Nat) : PC → Nat
  | .loop i | .wait i | .upd false i | .opn false i | .dump false i => i
  | _ => n

/-- The position in the join loop. -/
def PC.joined : PC → Nat → Prop
  | .join i, k | .upd true i, k | .opn true i, k | .dump true i, k => k < i
  | .done, _ => True
  | _, _ => False

@[simp] theorem set_same {α : Type} (f : Nat → α) (i : Nat) (x : α) : set f i x i = x := by simp [set]
theorem set_other {α : Type} (f : Nat → α) {i j : Nat} (x : α) (h : j ≠ i) : set f i x j = f j := by simp [set, h]

theorem countP_set_le (n : Nat) (w : Nat → W) (i : Nat) :
    (List.range n).countP (fun k => decide (set w i .ended k = .running)) ≤ (List.range n).countP (fun k => decide (w k = .running)) := by
  apply List.countP_mono_left
  intro k _ h
  by_cases hk : k = i
  · subst hk; simp [set] at h
  · simpa [set_other w _ hk] using h

theorem countP_set_running (n : Nat) (w : Nat → W) (i : Nat) :
    (List.range n).countP (fun k => decide (set w i .running k = .running)) ≤ (List.range n).countP (fun k => decide (w k = .running)) + 1 := by
  induction n with
  | zero => simp
  | succ n ih =>
    rw [List.range_succ, List.countP_append, List.countP_append]
    by_cases hk : n = i
    · subst hk
      have e : (List.range n).countP (fun k => decide (set w n .running k = .running)) = (List.range n).countP (fun k => decide (w k = .running)) := by
        apply List.countP_congr
        intro k hk
        have : k ≠ n := by have := List.mem_range.1 hk; omega
        simp [set_other w _ this]
      rw [e]
      simp [List.countP_cons]
    · have e : [n].countP (fun k => decide (set w i .running k = .running)) = [n].countP (fun k => decide (w k = .running)) := by
        simp [List.countP_cons, set_other w _ hk]
      rw [e]
      omega

/-- What holds in every state of a run that began with a new object. -/
structure Inv (p : Par) (s : Sys) : Prop where
  bound : (s.alive p : Int) + s.avail ≤ p.max
  avail : 0 ≤ s.avail
  waiting : ∀ i, s.pc = .wait i → i < p.n ∧ p.todo i = true ∧ s.avail = 0
  started : ∀ k, s.w k ≠ .idle ↔ k < s.pc.pos p.n ∧ p.todo k = true
  posle : s.pc.pos p.n ≤ p.n
  joined : ∀ k < p.n, p.todo k = true → s.pc.joined k → s.w k = .ended
  ok : s.pc ≠ .raised

theorem Inv.init (p : Par) (files : Nat → File) (disk : Disk) : Inv p (init p files disk) := by
  have h0 : (Threads.init p files disk).alive p = 0 := by
    unfold Sys.alive; apply List.countP_eq_zero.2; intro k _; simp [Threads.init]
  refine ⟨by rw [h0]; simp [Threads.init], by simp [Threads.init], by simp [Threads.init], by simp [Threads.init, PC.pos],
    by simp [Threads.init, PC.pos], ?_, by simp [Threads.init]⟩
  intro k _ _ hj
  exact absurd hj (by simp [Threads.init, PC.joined])

/-- Starting round `i` keeps the invariant. -/
theorem Inv.start {p : Par} {s : Sys} (h : Inv p s) {i : Nat} {a : Int} (hi : i < p.n) (hr : p.todo i = true) (hp : s.pc.pos p.n = i)
    (ha : 0 < a) (hb : (s.alive p : Int) + a ≤ p.max) : Inv p (start s i a) := by
  have hw : s.w i = .idle := by
    by_contra hc
    have := (h.started i).1 hc
    omega
  have hs : Threads.start s i a = { s with w := set s.w i .running, flags := set s.flags i true, avail := a - 1, pc := .upd false (i + 1) } := by
    unfold Threads.start; rw [hw]
  rw [hs]
  have hc := countP_set_running p.n s.w i
  refine ⟨?_, ?_, ?_, ?_, ?_, ?_, ?_⟩
  · unfold Sys.alive at hb ⊢
    simp only
    omega
  · simp only; omega
  · simp
  · intro k
    simp only [PC.pos]
    by_cases hk : k = i
    · subst hk; simp [hr]
    · rw [set_other _ _ hk, h.started k, hp]
      constructor
      · rintro ⟨h1, h2⟩; exact ⟨by omega, h2⟩
      · rintro ⟨h1, h2⟩; exact ⟨by omega, h2⟩
  · simp [PC.pos]; omega
  · intro k _ _ hj; exact absurd hj (by simp [PC.joined])
  · simp

theorem Inv.main {p : Par} {s : Sys} (h : Inv p s) (o : Nat) : Inv p (mainStep p o s) := by
  have hst := h.started
  have hpl := h.posle
  have hjn := h.joined
  unfold mainStep
  cases hpc : s.pc with
  | loop i =>
    simp only
    have hp : s.pc.pos p.n = i := by rw [hpc]; rfl
    split_ifs with h1 h2 h3
    · exact h.start h1 h2 hp h3 h.bound
    · refine ⟨h.bound, h.avail, ?_, ?_, ?_, ?_, ?_⟩
      · intro j hj
        simp only [PC.wait.injEq] at hj
        subst hj
        exact ⟨h1, h2, by have := h.avail; show s.avail = 0; omega⟩
      · intro k; rw [hst k, hp]; simp [PC.pos]
      · simp [PC.pos]; omega
      · intro k _ _ hj; exact absurd hj (by simp [PC.joined])
      · simp
    · refine ⟨h.bound, h.avail, ?_, ?_, ?_, ?_, ?_⟩
      · simp
      · intro k; rw [hst k, hp]
        simp only [PC.pos]
        constructor
        · rintro ⟨a, b⟩; exact ⟨by omega, b⟩
        · rintro ⟨a, b⟩
          refine ⟨?_, b⟩
          have : k ≠ i := by rintro rfl; exact h2 b
          omega
      · simp [PC.pos]; omega
      · intro k _ _ hj; exact absurd hj (by simp [PC.joined])
      · simp
    · have : i = p.n := by rw [hp] at hpl; omega
      refine ⟨h.bound, h.avail, ?_, ?_, ?_, ?_, ?_⟩
      · simp
      · intro k; rw [hst k, hp, this]; simp [PC.pos]
      · simp [PC.pos]
      · intro k _ _ hj; exact absurd hj (by simp [PC.joined])
      · simp
  | wait i =>
    simp only
    obtain ⟨h1, h2, h3⟩ := h.waiting i hpc
    split_ifs with h4
    · refine h.start h1 h2 (by rw [hpc]; rfl) ?_ ?_
      · push_cast at h4 ⊢; rw [h3]; omega
      · push_cast at h4 ⊢; rw [h3]; omega
    · exact h
  | upd j i =>
    simp only
    rw [hpc] at hst hpl hjn
    refine ⟨h.bound, h.avail, by simp, ?_, ?_, ?_, by simp⟩
    · intro k; rw [hst k]; cases j <;> simp [PC.pos]
    · cases j <;> simpa [PC.pos] using hpl
    · intro k a b hj; apply hjn k a b; cases j <;> simpa [PC.joined] using hj
  | opn j i =>
    simp only
    rw [hpc] at hst hpl hjn
    refine ⟨h.bound, h.avail, by simp, ?_, ?_, ?_, by simp⟩
    · intro k; rw [hst k]; cases j <;> simp [PC.pos]
    · cases j <;> simpa [PC.pos] using hpl
    · intro k a b hj; apply hjn k a b; cases j <;> simpa [PC.joined] using hj
  | dump j i =>
    simp only
    rw [hpc] at hst hpl hjn
    refine ⟨h.bound, h.avail, by cases j <;> simp [next], ?_, ?_, ?_, by cases j <;> simp [next]⟩
    · intro k; rw [hst k]; cases j <;> simp [PC.pos, next]
    · cases j <;> simpa [PC.pos, next] using hpl
    · intro k a b hj; apply hjn k a b; cases j <;> simpa [PC.joined, next] using hj
  | join i =>
    simp only
    rw [hpc] at hst hpl hjn
    split_ifs with h1 h2 h3
    · exact h
    · refine ⟨h.bound, h.avail, by simp, ?_, by simp [PC.pos], ?_, by simp⟩
      · intro k; rw [hst k]; simp [PC.pos]
      · intro k a b hj
        simp only [PC.joined] at hj
        by_cases hk : k = i
        · subst hk
          have : s.w k ≠ .idle := (hst k).2 ⟨by simpa [PC.pos] using a, b⟩
          cases hw : s.w k with
          | idle => exact absurd hw this
          | running => exact absurd hw h3
          | ended => rfl
        · exact hjn k a b (by simp only [PC.joined]; omega)
    · refine ⟨h.bound, h.avail, by simp, ?_, by simp [PC.pos], ?_, by simp⟩
      · intro k; rw [hst k]; simp [PC.pos]
      · intro k a b hj
        simp only [PC.joined] at hj
        by_cases hk : k = i
        · subst hk; exact absurd b h2
        · exact hjn k a b (by simp only [PC.joined]; omega)
    · refine ⟨h.bound, h.avail, by simp, ?_, by simp [PC.pos], ?_, by simp⟩
      · intro k; rw [hst k]; simp [PC.pos]
      · intro k a b hj
        exact hjn k a b (by simp only [PC.joined]; omega)
  | done => simpa using h
  | raised => simpa using h

theorem Inv.work {p : Par} {d : Bool} {s t : Sys} (h : Inv p s) (hw : Work d s t) : Inv p t := by
  have fin : ∀ i, s.w i = .running → Inv p { s with w := set s.w i .ended } := by
    intro i hi
    have hc := countP_set_le p.n s.w i
    refine ⟨?_, h.avail, h.waiting, ?_, h.posle, ?_, h.ok⟩
    · have := h.bound; unfold Sys.alive at this ⊢; simp only; omega
    · intro k
      rw [← h.started k]
      by_cases hk : k = i
      · subst hk; simp [hi]
      · simp only [set_other _ _ hk]
    · intro k a b hj
      by_cases hk : k = i
      · subst hk; simp
      · simp only [set_other _ _ hk]; exact h.joined k a b hj
  cases hw with
  | add _ => exact ⟨h.bound, h.avail, h.waiting, h.started, h.posle, h.joined, h.ok⟩
  | opn _ => exact ⟨h.bound, h.avail, h.waiting, h.started, h.posle, h.joined, h.ok⟩
  | part _ _ => exact ⟨h.bound, h.avail, h.waiting, h.started, h.posle, h.joined, h.ok⟩
  | flush _ _ => exact ⟨h.bound, h.avail, h.waiting, h.started, h.posle, h.joined, h.ok⟩
  | finish hi _ => exact fin _ hi
  | die _ hi => exact fin _ hi

theorem Inv.step {p : Par} {d : Bool} {s t : Sys} (h : Inv p s) (hs : Step p d s t) : Inv p t := by
  cases hs with
  | main o => exact h.main o
  | work hw => exact h.work hw

theorem Inv.reach {p : Par} {d : Bool} {s₀ s : Sys} (h : Inv p s₀) (hr : Reach p d s₀ s) : Inv p s := by
  induction hr with
  | start => exact h
  | step _ hs ih => exact ih.step hs

/-! ## C41 -/

/-- **C41**: in every state that can occur, whatever the workers and the scheduler do (and whatever other threads the process has), at most
`max_thread` workers are running. -/
theorem C41_at_most_max_thread {p : Par} {d : Bool} {files : Nat → File} {disk : Disk} {s : Sys} (h : Reach p d (init p files disk) s) :
    s.alive p ≤ p.max := by
  have := (Inv.init p files disk).reach h
  have h1 := this.bound
  have h2 := this.avail
  omega

/-- **C41**: no thread is started twice (`Thread.start` would raise), and only requested rounds are started. -/
theorem C41_never_started_twice {p : Par} {d : Bool} {files : Nat → File} {disk : Disk} {s : Sys} (h : Reach p d (init p files disk) s) :
    s.pc ≠ .raised ∧ ∀ k, s.w k ≠ .idle → k < p.n ∧ p.todo k = true := by
  have := (Inv.init p files disk).reach h
  refine ⟨this.ok, ?_⟩
  intro k hk
  have h1 := (this.started k).1 hk
  exact ⟨lt_of_lt_of_le h1.1 this.posle, h1.2⟩

/-- **C41**: when `start_all_threads` returns, every requested round has been started and has ended. -/
theorem C41_all_ended_when_done {p : Par} {d : Bool} {files : Nat → File} {disk : Disk} {s : Sys} (h : Reach p d (init p files disk) s)
    (hd : s.pc = .done) : ∀ k, s.w k = if k < p.n ∧ p.todo k = true then .ended else .idle := by
  have hi := (Inv.init p files disk).reach h
  intro k
  split
  · rename_i hk; exact hi.joined k hk.1 hk.2 (by rw [hd]; trivial)
  · rename_i hk
    by_contra hc
    have := (hi.started k).1 hc
    rw [hd] at this
    exact hk this

/-- Started rounds stay started: a round is started exactly once. -/
theorem C41_started_once {p : Par} {d : Bool} {s t : Sys} (hi : Inv p s) (hs : Step p d s t) (k : Nat) :
    s.w k ≠ .idle → t.w k ≠ .idle := by
  intro hk
  cases hs with
  | work hw =>
    have fin : ∀ i, (set s.w i W.ended) k ≠ .idle := by
      intro i
      by_cases hki : k = i
      · subst hki; simp
      · rw [set_other _ _ hki]; exact hk
    cases hw with
    | add _ => exact hk
    | opn _ => exact hk
    | part _ _ => exact hk
    | flush _ _ => exact hk
    | finish _ _ => exact fin _
    | die _ _ => exact fin _
  | main o =>
    have st : ∀ i a, (start s i a).w k ≠ .idle := by
      intro i a
      unfold start
      split
      · by_cases hki : k = i
        · subst hki; simp
        · simp only [set_other _ _ hki]; exact hk
      · exact hk
    unfold mainStep
    split <;> (try simp only) <;> (try split_ifs) <;> first | exact hk | exact st _ _

/-- How many steps of the main thread remain, not counting busy waiting. -/
def PC.rank (n : Nat) : PC → Nat
  | .loop i => 5 * (n - i) + 1 + (5 * n + 2)
  | .wait i => 5 * (n - i) + (5 * n + 2)
  | .upd false i => 5 * (n - i) + 4 + (5 * n + 2)
  | .opn false i => 5 * (n - i) + 3 + (5 * n + 2)
  | .dump false i => 5 * (n - i) + 2 + (5 * n + 2)
  | .join i => 5 * (n - i) + 1
  | .upd true i => 5 * (n - i) + 4
  | .opn true i => 5 * (n - i) + 3
  | .dump true i => 5 * (n - i) + 2
  | .done => 0
  | .raised => 0

/-- A step of the main thread goes forward or is busy waiting for a running worker. -/
theorem main_progress {p : Par} {s : Sys} (h : Inv p s) (o : Nat) :
    (mainStep p o s).pc.rank p.n < s.pc.rank p.n ∨
      (mainStep p o s = s ∧ (s.pc = .done ∨ (∃ i, s.pc = .wait i ∧ p.max ≤ s.alive p + o) ∨ (∃ i < p.n, s.pc = .join i ∧ s.w i = .running))) := by
  have hstart : ∀ i a, i < p.n → p.todo i = true → s.pc.pos p.n = i → (start s i a).pc = .upd false (i + 1) := by
    intro i a hi hr hp
    have hw : s.w i = .idle := by
      by_contra hc
      have := (h.started i).1 hc
      omega
    unfold start; rw [hw]
  unfold mainStep
  cases hpc : s.pc with
  | loop i =>
    left
    simp only
    have hp : s.pc.pos p.n = i := by rw [hpc]; rfl
    split_ifs with h1 h2 h3
    · rw [hstart i _ h1 h2 hp]; simp only [PC.rank]; omega
    · simp only [PC.rank]; omega
    · simp only [PC.rank]; omega
    · simp only [PC.rank]; omega
  | wait i =>
    simp only
    obtain ⟨h1, h2, h3⟩ := h.waiting i hpc
    split_ifs with h4
    · left; rw [hstart i _ h1 h2 (by rw [hpc]; rfl)]; simp only [PC.rank]; omega
    · right
      refine ⟨rfl, Or.inr (Or.inl ⟨i, rfl, ?_⟩)⟩
      push_cast at h4
      omega
  | upd j i => left; cases j <;> simp only [PC.rank] <;> omega
  | opn j i => left; cases j <;> simp only [PC.rank] <;> omega
  | dump j i => left; cases j <;> simp [PC.rank, next]
  | join i =>
    simp only
    split_ifs with h1 h2 h3
    · right; exact ⟨rfl, Or.inr (Or.inr ⟨i, h1, rfl, h3⟩)⟩
    · left; simp only [PC.rank]; omega
    · left; simp only [PC.rank]; omega
    · left; simp only [PC.rank]; omega
  | done => right; exact ⟨rfl, Or.inl rfl⟩
  | raised => exact absurd hpc h.ok

theorem Work.pc_eq {d : Bool} {s t : Sys} (h : Work d s t) : t.pc = s.pc := by cases h <;> rfl

/-- An endless execution: in every step the main thread (observing no foreign threads) or a worker moves; the main thread is scheduled again
and again and every running worker ends some time. -/
structure FairRun (p : Par) (d : Bool) (σ : Nat → Sys) : Prop where
  steps : ∀ t, σ (t + 1) = mainStep p 0 (σ t) ∨ Work d (σ t) (σ (t + 1))
  main : ∀ t, ∃ t' ≥ t, σ (t' + 1) = mainStep p 0 (σ t')
  ends : ∀ t k, (σ t).w k = .running → ∃ t' ≥ t, (σ t').w k = .ended

theorem FairRun.inv {p : Par} {d : Bool} {σ : Nat → Sys} (h : FairRun p d σ) (h0 : Inv p (σ 0)) : ∀ t, Inv p (σ t)
  | 0 => h0
  | t + 1 => by
    rcases h.steps t with hs | hs
    · rw [hs]; exact (h.inv h0 t).main 0
    · exact (h.inv h0 t).work hs

theorem ended_stays {p : Par} {d : Bool} {s t : Sys} (o : Nat) (hs : t = mainStep p o s ∨ Work d s t) (k : Nat) (hk : s.w k = .ended) :
    t.w k = .ended := by
  rcases hs with rfl | hw
  · have st : ∀ i a, (start s i a).w k = .ended := by
      intro i a
      unfold start
      split
      · rename_i hi
        have hki : k ≠ i := by rintro rfl; rw [hk] at hi; simp at hi
        simp only [set_other _ _ hki]; exact hk
      · exact hk
    unfold mainStep
    split <;> (try simp only) <;> (try split_ifs) <;> first | exact hk | exact st _ _
  · have fin : ∀ i, (set s.w i W.ended) k = .ended := by
      intro i
      by_cases hki : k = i
      · subst hki; simp
      · rw [set_other _ _ hki]; exact hk
    cases hw with
    | add _ => exact hk
    | opn _ => exact hk
    | part _ _ => exact hk
    | flush _ _ => exact hk
    | finish _ _ => exact fin _
    | die _ _ => exact fin _

theorem FairRun.ended_later {p : Par} {d : Bool} {σ : Nat → Sys} (h : FairRun p d σ) {t : Nat} {k : Nat} (hk : (σ t).w k = .ended) :
    ∀ m, (σ (t + m)).w k = .ended
  | 0 => hk
  | m + 1 => ended_stays 0 (h.steps (t + m)) k (h.ended_later hk m)

/-- **C41**: if `max_thread` is positive (the constructor asserts it), every worker ends some time and there are no other threads, then
`start_all_threads` returns, under every fair schedule. -/
theorem C41_returns {p : Par} {d : Bool} {files : Nat → File} {disk : Disk} {σ : Nat → Sys} (hmax : 0 < p.max) (h0 : σ 0 = init p files disk)
    (h : FairRun p d σ) : ∃ t, (σ t).pc = .done := by
  have hinv := h.inv (by rw [h0]; exact Inv.init p files disk)
  suffices H : ∀ r t, (σ t).pc.rank p.n = r → ∃ t', (σ t').pc = .done from H _ 0 rfl
  intro r
  induction r using Nat.strong_induction_on with
  | _ r ih =>
    intro t hr
    by_cases hlow : ∃ t' ≥ t, (σ t').pc.rank p.n < r
    · obtain ⟨t', _, ht'⟩ := hlow
      exact ih _ ht' t' rfl
    · have hge : ∀ t' ≥ t, r ≤ (σ t').pc.rank p.n := by
        intro t' ht'
        by_contra hc
        exact hlow ⟨t', ht', by omega⟩
      have hconst : ∀ m, (σ (t + m)).pc = (σ t).pc := by
        intro m
        induction m with
        | zero => rfl
        | succ m ihm =>
          have h1 := h.steps (t + m)
          rw [← Nat.add_assoc]
          rcases h1 with h1 | h1
          · rcases main_progress (hinv (t + m)) 0 with h2 | h2
            · rw [← h1, ihm, hr] at h2
              have := hge (t + m + 1) (by omega)
              omega
            · rw [h1, h2.1, ihm]
          · rw [h1.pc_eq, ihm]
      -- from some time on nobody that has been started is running
      have hall : ∀ n, ∃ T, ∀ m ≥ T, ∀ k < n, (σ (t + m)).w k ≠ .running := by
        intro n
        induction n with
        | zero => exact ⟨0, fun m _ k hk => absurd hk (by omega)⟩
        | succ n ihn =>
          obtain ⟨T, hT⟩ := ihn
          have hn : ∃ T', ∀ m ≥ T', (σ (t + m)).w n ≠ .running := by
            by_cases hidle : (σ t).w n = .idle
            · refine ⟨0, fun m _ hc => ?_⟩
              have e1 := (hinv (t + m)).started n
              rw [hconst m] at e1
              have e2 := (hinv t).started n
              exact (e2.2 (e1.1 (by rw [hc]; simp))) hidle
            · have hend : ∃ t1 ≥ t, (σ t1).w n = .ended := by
                cases hw : (σ t).w n with
                | idle => exact absurd hw hidle
                | running => exact h.ends t n hw
                | ended => exact ⟨t, le_refl _, hw⟩
              obtain ⟨t1, ht1, he⟩ := hend
              refine ⟨t1 - t, fun m hm hc => ?_⟩
              have := h.ended_later he (t + m - t1)
              rw [show t1 + (t + m - t1) = t + m by omega, hc] at this
              simp at this
          obtain ⟨T', hT'⟩ := hn
          refine ⟨max T T', fun m hm k hk => ?_⟩
          rcases Nat.lt_succ_iff_lt_or_eq.1 hk with h1 | rfl
          · exact hT m (le_trans (le_max_left _ _) hm) k h1
          · exact hT' m (le_trans (le_max_right _ _) hm)
      obtain ⟨T, hT⟩ := hall p.n
      obtain ⟨t', ht', hm⟩ := h.main (t + T)
      obtain ⟨m, rfl⟩ : ∃ m, t' = t + m := ⟨t' - t, by omega⟩
      have hTm := hT m (by omega)
      rcases main_progress (hinv (t + m)) 0 with h2 | ⟨_, h2 | ⟨i, _, h2⟩ | ⟨i, hi, _, h2⟩⟩
      · rw [← hm, hconst m, hr] at h2
        have := hge (t + m + 1) (by omega)
        omega
      · exact ⟨_, h2⟩
      · have : (σ (t + m)).alive p = 0 := by
          unfold Sys.alive
          apply List.countP_eq_zero.2
          intro k hk
          simpa using hTm k (List.mem_range.1 hk)
        omega
      · exact absurd h2 (hTm i hi)

/-- With `max_thread` or more foreign threads in the process (say, of a plotting library), the main thread waits for ever, even when all
workers have ended. -/
theorem C41_foreign_threads_endless {p : Par} {s : Sys} {i : Nat} (hpc : s.pc = .wait i) {os : List Nat} (ho : ∀ o ∈ os, p.max ≤ o) :
    os.foldl (fun s o => mainStep p o s) s = s := by
  induction os with
  | nil => rfl
  | cons o os ih =>
    have h1 : mainStep p o s = s := by
      unfold mainStep
      rw [hpc]
      simp only
      rw [if_neg (by have := ho o (by simp); push_cast; omega)]
    rw [List.foldl_cons, h1]
    exact ih (fun o' h' => ho o' (by simp [h']))

/-- Two rounds, one at a time: the second waits until the first has ended. -/
def demo : Par := { n := 2, max := 1, todo := fun _ => true }

/-- The main thread is waiting to start round 1 while round 0 runs … -/
example : ∃ s, Reach demo false (init demo (fun _ => .missing) .missing) s ∧ s.pc = .wait 1 ∧ s.w 0 = .running ∧ s.alive demo = 1 := by
  refine ⟨_, .step (.step (.step (.step (.step .start (.main 0)) (.main 0)) (.main 0)) (.main 0)) (.main 0), ?_⟩
  decide

/-- … and can start it after round 0 has saved its result and ended. -/
example : ∃ s, Reach demo false (init demo (fun _ => .missing) .missing) s ∧ s.w 1 = .running ∧ s.w 0 = .ended ∧ s.alive demo = 1 := by
  refine ⟨_, .step (.step (.step (.step (.step (.step (.step (.step (.step .start (.main 0)) (.main 0)) (.main 0)) (.main 0)) (.main 0))
    (.work (.opn (i := 0) ?_))) (.work (.flush (i := 0) ?_ ?_))) (.work (.finish (i := 0) ?_ ?_))) (.main 0), ?_⟩
  all_goals decide

/-- One round. -/
def demo1 : Par := { n := 1, max := 1, todo := fun _ => true }

/-- A fair run: the worker saves and ends, then only the main thread moves. -/
def demoRun : Nat → Sys
  | 0 => init demo1 (fun _ => .missing) .missing
  | 1 => mainStep demo1 0 (init demo1 (fun _ => .missing) .missing)
  | 2 => { demoRun 1 with files := set (demoRun 1).files 0 .empty }
  | 3 => { demoRun 2 with files := set (demoRun 2).files 0 (.data ((demoRun 2).prog 0)) }
  | 4 => { demoRun 3 with w := set (demoRun 3).w 0 .ended }
  | t + 5 => mainStep demo1 0 (demoRun (t + 4))

/-- The hypotheses of `C41_returns` can be met. -/
example : FairRun demo1 false demoRun := by
  have hsteps : ∀ t, demoRun (t + 1) = mainStep demo1 0 (demoRun t) ∨ Work false (demoRun t) (demoRun (t + 1)) := by
    intro t
    match t with
    | 0 => exact Or.inl rfl
    | 1 => exact Or.inr (.opn (i := 0) (by decide))
    | 2 => exact Or.inr (.flush (i := 0) (by decide) (by decide))
    | 3 => exact Or.inr (.finish (i := 0) (by decide) (by decide))
    | t + 4 => exact Or.inl rfl
  have hinv : ∀ t, Inv demo1 (demoRun t) := by
    intro t
    induction t with
    | zero => exact Inv.init _ _ _
    | succ t ih =>
      rcases hsteps t with hs | hs
      · rw [hs]; exact ih.main 0
      · exact ih.work hs
  have hend : ∀ t, (demoRun (t + 4)).w 0 = .ended := by
    intro t
    induction t with
    | zero => decide
    | succ t ih => exact ended_stays (d := false) 0 (hsteps (t + 4)) 0 ih
  refine ⟨hsteps, ?_, ?_⟩
  · intro t; exact ⟨t + 4, by omega, rfl⟩
  · intro t k hk
    have h1 := ((hinv t).started k).1 (by rw [hk]; simp)
    have h2 : k < 1 := lt_of_lt_of_le h1.1 (hinv t).posle
    obtain rfl : k = 0 := by omega
    exact ⟨t + 4, by omega, hend t⟩

/-! ## C53: recovery after a crash -/

/-- The round whose thread has been started after the flags on disk were taken. -/
def PC.fresh : PC → Nat → Prop
  | .upd false i, k | .opn false i, k => i = k + 1
  | _, _ => False

/-- What holds when no worker dies and the directory was empty at the beginning. -/
structure FInv (p : Par) (s : Sys) : Prop where
  base : Inv p s
  idle : ∀ k, s.w k = .idle → s.files k = .missing
  ended : ∀ k, s.w k = .ended → s.files k = .data (s.prog k)
  flags : ∀ j i, (s.pc = .opn j i ∨ s.pc = .dump j i) → ∀ k, s.flags k = false → s.w k ≠ .running
  disk : ∀ f, s.disk = .snap f → ∀ k, f k = false → s.w k ≠ .running ∨ s.pc.fresh k
  data : ∀ k m, s.files k = .data m → m ≤ s.prog k

theorem FInv.init (p : Par) : FInv p (init p (fun _ => .missing) .missing) := by
  refine ⟨Inv.init p _ _, ?_, ?_, ?_, ?_, ?_⟩ <;> simp [Threads.init]

theorem FInv.start {p : Par} {s : Sys} (h : FInv p s) {i : Nat} {a : Int} (hi : i < p.n) (hr : p.todo i = true) (hp : s.pc.pos p.n = i)
    (ha : 0 < a) (hb : (s.alive p : Int) + a ≤ p.max) (hf : ∀ k, ¬ s.pc.fresh k) : FInv p (start s i a) := by
  have hb' := h.base.start hi hr hp ha hb
  have hw : s.w i = .idle := by
    by_contra hc
    have := (h.base.started i).1 hc
    omega
  have hs : Threads.start s i a = { s with w := set s.w i .running, flags := set s.flags i true, avail := a - 1, pc := .upd false (i + 1) } := by
    unfold Threads.start; rw [hw]
  rw [hs] at hb' ⊢
  refine ⟨hb', ?_, ?_, ?_, ?_, h.data⟩
  · intro k hk
    have hki : k ≠ i := by rintro rfl; simp at hk
    simp only [set_other _ _ hki] at hk
    exact h.idle k hk
  · intro k hk
    have hki : k ≠ i := by rintro rfl; simp at hk
    simp only [set_other _ _ hki] at hk
    exact h.ended k hk
  · simp
  · intro f hd k hk
    by_cases hki : k = i
    · subst hki; right; simp [PC.fresh]
    · left
      simp only [set_other _ _ hki]
      exact (h.disk f hd k hk).resolve_right (hf k)

/-- Moving the main thread without touching workers or files. -/
theorem FInv.move {p : Par} {s : Sys} (h : FInv p s) {pc : PC} (hb : Inv p { s with pc := pc }) (hf : ∀ k, ¬ s.pc.fresh k)
    (hpc : ∀ j i, pc ≠ .opn j i ∧ pc ≠ .dump j i) : FInv p { s with pc := pc } := by
  refine ⟨hb, h.idle, h.ended, ?_, ?_, h.data⟩
  · intro j i hj
    rcases hj with hj | hj
    · exact absurd hj (hpc j i).1
    · exact absurd hj (hpc j i).2
  · intro f hd k hk
    exact Or.inl ((h.disk f hd k hk).resolve_right (hf k))

theorem FInv.main {p : Par} {s : Sys} (h : FInv p s) (o : Nat) : FInv p (mainStep p o s) := by
  have hb := h.base.main o
  unfold mainStep at hb ⊢
  cases hpc : s.pc with
  | loop i =>
    rw [hpc] at hb
    simp only at hb ⊢
    have hp : s.pc.pos p.n = i := by rw [hpc]; rfl
    have hf : ∀ k, ¬ s.pc.fresh k := by intro k; rw [hpc]; simp [PC.fresh]
    split_ifs with h1 h2 h3
    · exact h.start h1 h2 hp h3 h.base.bound hf
    · rw [if_pos h1, if_pos h2, if_neg h3] at hb; exact h.move hb hf (by simp)
    · rw [if_pos h1, if_neg h2] at hb; exact h.move hb hf (by simp)
    · rw [if_neg h1] at hb; exact h.move hb hf (by simp)
  | wait i =>
    rw [hpc] at hb
    simp only at hb ⊢
    have hf : ∀ k, ¬ s.pc.fresh k := by intro k; rw [hpc]; simp [PC.fresh]
    obtain ⟨h1, h2, h3⟩ := h.base.waiting i hpc
    split_ifs with h4
    · refine h.start h1 h2 (by rw [hpc]; rfl) ?_ ?_ hf
      · push_cast at h4 ⊢; rw [h3]; omega
      · push_cast at h4 ⊢; rw [h3]; omega
    · exact h
  | upd j i =>
    rw [hpc] at hb
    simp only at hb ⊢
    refine ⟨hb, h.idle, h.ended, ?_, ?_, h.data⟩
    · intro j' i' _ k hk; simpa using hk
    · intro f hd k hk
      have := h.disk f hd k hk
      rw [hpc] at this
      cases j <;> simpa [PC.fresh] using this
  | opn j i =>
    rw [hpc] at hb
    simp only at hb ⊢
    refine ⟨hb, h.idle, h.ended, ?_, ?_, h.data⟩
    · intro j' i' _ k hk; exact h.flags j i (Or.inl hpc) k hk
    · intro f hd; simp at hd
  | dump j i =>
    rw [hpc] at hb
    simp only at hb ⊢
    refine ⟨hb, h.idle, h.ended, ?_, ?_, h.data⟩
    · intro j' i' hj; cases j <;> simp [next] at hj
    · intro f hd k hk
      simp only [Disk.snap.injEq] at hd
      subst hd
      exact Or.inl (h.flags j i (Or.inr hpc) k hk)
  | join i =>
    rw [hpc] at hb
    simp only at hb ⊢
    have hf : ∀ k, ¬ s.pc.fresh k := by intro k; rw [hpc]; simp [PC.fresh]
    split_ifs with h1 h2 h3
    · exact h
    · rw [if_pos h1, if_pos h2, if_neg h3] at hb; exact h.move hb hf (by simp)
    · rw [if_pos h1, if_neg h2] at hb; exact h.move hb hf (by simp)
    · rw [if_neg h1] at hb; exact h.move hb hf (by simp)
  | done => exact h
  | raised => exact h

theorem FInv.work {p : Par} {s t : Sys} (h : FInv p s) (hw : Work false s t) : FInv p t := by
  have hb := h.base.work hw
  have files : ∀ i x, s.w i = .running → (∀ m, x = .data m → m ≤ s.prog i) → Inv p { s with files := set s.files i x } →
      FInv p { s with files := set s.files i x } := by
    intro i x hi hx hb
    refine ⟨hb, ?_, ?_, h.flags, h.disk, ?_⟩
    · intro k hk
      have hki : k ≠ i := by rintro rfl; simp only at hk; rw [hi] at hk; simp at hk
      simp only [set_other _ _ hki]; exact h.idle k hk
    · intro k hk
      have hki : k ≠ i := by rintro rfl; simp only at hk; rw [hi] at hk; simp at hk
      simp only [set_other _ _ hki]; exact h.ended k hk
    · intro k m hk
      by_cases hki : k = i
      · subst hki; simp at hk; exact hx m hk
      · simp only [set_other _ _ hki] at hk; exact h.data k m hk
  cases hw with
  | @add i hi =>
    refine ⟨hb, h.idle, ?_, h.flags, h.disk, ?_⟩
    · intro k hk
      have hki : k ≠ i := by rintro rfl; simp only at hk; rw [hi] at hk; simp at hk
      simp only [set_other _ _ hki]; exact h.ended k hk
    · intro k m hk
      have := h.data k m hk
      by_cases hki : k = i
      · subst hki; simp; omega
      · simp only [set_other _ _ hki]; exact this
  | opn hi => exact files _ _ hi (by simp) hb
  | part hi _ => exact files _ _ hi (by simp) hb
  | flush hi _ => exact files _ _ hi (by simp) hb
  | @finish i hi hd =>
    refine ⟨hb, ?_, ?_, ?_, ?_, h.data⟩
    · intro k hk
      have hki : k ≠ i := by rintro rfl; simp at hk
      simp only [set_other _ _ hki] at hk; exact h.idle k hk
    · intro k hk
      by_cases hki : k = i
      · subst hki; exact hd
      · simp only [set_other _ _ hki] at hk; exact h.ended k hk
    · intro j i' hj k hk
      by_cases hki : k = i
      · subst hki; simp
      · simp only [set_other _ _ hki]; exact h.flags j i' hj k hk
    · intro f hd' k hk
      by_cases hki : k = i
      · subst hki; left; simp
      · simp only [set_other _ _ hki]; exact h.disk f hd' k hk
  | die hd _ => simp at hd

theorem FInv.reach {p : Par} {s : Sys} (hr : Reach p false (Threads.init p (fun _ => .missing) .missing) s) : FInv p s := by
  induction hr with
  | start => exact FInv.init p
  | step _ hs ih =>
    cases hs with
    | main o => exact ih.main o
    | work hw => exact ih.work hw

theorem mapM_ok_get {α β : Type} {f : α → Except PyErr β} : ∀ {l : List α} {r : List β}, l.mapM f = .ok r →
    r.length = l.length ∧ ∀ (i : Nat) (a : α), l[i]? = some a → ∃ b, r[i]? = some b ∧ f a = .ok b
  | [], r, h => by
    simp only [List.mapM_nil] at h
    cases h
    simp
  | a :: l, r, h => by
    rw [List.mapM_cons] at h
    cases hf : f a with
    | error e => rw [hf] at h; cases h
    | ok b =>
      rw [hf] at h
      cases hl : l.mapM f with
      | error e => rw [hl] at h; cases h
      | ok bs =>
        rw [hl] at h
        cases h
        obtain ⟨h1, h2⟩ := mapM_ok_get hl
        refine ⟨by simp [h1], ?_⟩
        intro i x hx
        cases i with
        | zero => simp at hx; subst hx; exact ⟨b, by simp, hf⟩
        | succ i => simpa using h2 i x (by simpa using hx)

/-- **C53** (partial: workers save before they end and do not raise, the directory was empty at first, and the crash does not fall between
starting a thread and writing the breakpoint file; and `recover` has to succeed): after a crash at any other moment, `recover` runs again
every round that has not ended, keeps the complete result of every round it does not run again, and continues every round that is run
again with the last saved state of that round, or from the beginning if nothing is in the file. -/
theorem C53_recover_partial {p : Par} {s : Sys} (h : Reach p false (init p (fun _ => .missing) .missing) s) (hwin : ∀ k, ¬ s.pc.fresh k)
    {r : List (Bool × Option Nat)} (hr : recover p.n s.disk s.files = .ok r) :
    r.length = p.n ∧ ∀ k < p.n, ∃ again kept, r[k]? = some (again, kept) ∧
      (s.w k ≠ .ended → again = true) ∧
      (again = false → kept = some (s.prog k)) ∧
      (again = true → kept = match s.files k with | .data m => some m | _ => none) := by
  have hi := FInv.reach h
  cases hd : s.disk with
  | missing => rw [hd] at hr; simp [recover] at hr
  | torn => rw [hd] at hr; simp [recover] at hr
  | snap f =>
    rw [hd] at hr
    simp only [recover] at hr
    obtain ⟨h1, h2⟩ := mapM_ok_get hr
    refine ⟨by simpa using h1, ?_⟩
    intro k hk
    obtain ⟨⟨again, kept⟩, hb, hf⟩ := h2 k k (by simp [hk])
    refine ⟨again, kept, hb, ?_⟩
    have hdisk := fun hfk => (hi.disk f hd k hfk).resolve_right (hwin k)
    unfold recoverRound at hf
    split_ifs at hf with hfk
    · cases hfile : s.files k with
      | missing => rw [hfile] at hf; simp at hf
      | torn => rw [hfile] at hf; simp at hf
      | empty => rw [hfile] at hf; simp only [Except.ok.injEq, Prod.mk.injEq] at hf; obtain ⟨rfl, rfl⟩ := hf; simp
      | data m => rw [hfile] at hf; simp only [Except.ok.injEq, Prod.mk.injEq] at hf; obtain ⟨rfl, rfl⟩ := hf; simp
    · have hnr := hdisk (by simpa using hfk)
      cases hfile : s.files k with
      | missing => rw [hfile] at hf; simp only [Except.ok.injEq, Prod.mk.injEq] at hf; obtain ⟨rfl, rfl⟩ := hf; simp
      | torn => rw [hfile] at hf; simp at hf
      | empty => rw [hfile] at hf; simp only [Except.ok.injEq, Prod.mk.injEq] at hf; obtain ⟨rfl, rfl⟩ := hf; simp
      | data m =>
        rw [hfile] at hf
        simp only [Except.ok.injEq, Prod.mk.injEq] at hf
        obtain ⟨rfl, rfl⟩ := hf
        have hend : s.w k = .ended := by
          cases hw : s.w k with
          | idle => have := hi.idle k hw; rw [hfile] at this; simp at this
          | running => exact absurd hw hnr
          | ended => rfl
        have := hi.ended k hend
        rw [hfile] at this
        simp only [File.data.injEq] at this
        simp [hend, this]

/-- **C53**: under the same conditions, `recover` fails only if the breakpoint file is incomplete, a result file is being written, or a
started worker has not saved yet. -/
theorem C53_recover_succeeds {p : Par} {s : Sys} {f : Nat → Bool} (hd : s.disk = .snap f) (hfile : ∀ k < p.n, s.files k ≠ .torn)
    (hsaved : ∀ k < p.n, f k = true → s.files k ≠ .missing) : ∃ r, recover p.n s.disk s.files = .ok r := by
  rw [hd]
  simp only [recover]
  have : ∀ l : List Nat, (∀ k ∈ l, k < p.n) → ∃ r, l.mapM (fun i => recoverRound (f i) (s.files i)) = .ok r := by
    intro l
    induction l with
    | nil => intro _; exact ⟨[], rfl⟩
    | cons k l ih =>
      intro hl
      obtain ⟨r, hr⟩ := ih (fun k' h' => hl k' (by simp [h']))
      have hk : ∃ b, recoverRound (f k) (s.files k) = .ok b := by
        have h1 := hfile k (hl k (by simp))
        have h2 := hsaved k (hl k (by simp))
        unfold recoverRound
        cases hf : f k <;> cases hx : s.files k <;> simp_all
      obtain ⟨b, hb⟩ := hk
      refine ⟨b :: r, ?_⟩
      rw [List.mapM_cons, hb, hr]
      rfl
  exact this _ (fun k hk => List.mem_range.1 hk)

/-- Two rounds at the same time. -/
def demo2 : Par := { n := 2, max := 2, todo := fun _ => true }

/-- Round 0 has been started and the breakpoint written; round 0 has added and saved one state. -/
example : ∃ s, Reach demo2 false (init demo2 (fun _ => .missing) .missing) s ∧ (∀ k, ¬ s.pc.fresh k) ∧
    recover demo2.n s.disk s.files = .ok [(true, some 1), (true, none)] := by
  refine ⟨_, .step (.step (.step (.step (.step (.step (.step .start (.main 0)) (.main 0)) (.main 0)) (.main 0))
    (.work (.add (i := 0) ?_))) (.work (.opn (i := 0) ?_))) (.work (.flush (i := 0) ?_ ?_)), ?_, ?_⟩
  · decide
  · decide
  · decide
  · decide
  · intro k h; exact h
  · rfl

/-- A worker that saves between its start and the writing of the breakpoint file is taken as finished by `recover`: the round is running,
has added a second state, and will not be run again. -/
example : ∃ s, Reach demo2 false (init demo2 (fun _ => .missing) .missing) s ∧ s.w 1 = .running ∧
    s.files 0 = .data 0 ∧ s.files 1 = .data 0 ∧ s.prog 1 = 1 ∧
    recover demo2.n s.disk s.files = .ok [(true, some 0), (false, some 0)] := by
  refine ⟨_, .step (.step (.step (.step (.step (.step (.step (.step (.step (.step .start (.main 0)) (.main 0)) (.main 0)) (.main 0))
    (.work (.opn (i := 0) ?_))) (.work (.flush (i := 0) ?_ ?_))) (.main 0)) (.work (.opn (i := 1) ?_))) (.work (.flush (i := 1) ?_ ?_)))
    (.work (.add (i := 1) ?_)), ?_, ?_, ?_, ?_, ?_⟩
  all_goals decide

/-- A worker that has raised after its first save is taken as finished. -/
example : ∃ s, Reach demo true (init demo (fun _ => .missing) .missing) s ∧ (∀ k, ¬ s.pc.fresh k) ∧
    s.w 0 = .ended ∧ s.prog 0 = 1 ∧ s.files 0 = .data 0 ∧ recover demo.n s.disk s.files = .ok [(false, some 0), (true, none)] := by
  refine ⟨_, .step (.step (.step (.step (.step (.step (.step (.step .start (.main 0)) (.work (.opn (i := 0) ?_)))
    (.work (.flush (i := 0) ?_ ?_))) (.work (.add (i := 0) ?_))) (.work (.die (i := 0) rfl ?_))) (.main 0)) (.main 0)) (.main 0), ?_, ?_, ?_, ?_, ?_⟩
  · decide
  · decide
  · decide
  · decide
  · decide
  · intro k h; exact h
  · decide
  · decide
  · decide
  · rfl

/-- While a started worker has not saved anything, `recover` raises `FileNotFoundError` and nothing can be recovered. -/
theorem C53_unsaved_violation {p : Par} {s : Sys} {f : Nat → Bool} (hd : s.disk = .snap f) {k : Nat} (hk : k < p.n) (hf : f k = true)
    (hfile : s.files k = .missing) : ∃ e, recover p.n s.disk s.files = .error e := by
  rw [hd]
  simp only [recover]
  cases hr : (List.range p.n).mapM (fun i => recoverRound (f i) (s.files i)) with
  | error e => exact ⟨e, rfl⟩
  | ok r =>
    obtain ⟨_, h2⟩ := mapM_ok_get hr
    obtain ⟨b, _, hb⟩ := h2 k k (by simp [hk])
    simp [recoverRound, hf, hfile] at hb

/-- Such a state occurs right after the first breakpoint is written. -/
example : ∃ s f, Reach demo false (init demo (fun _ => .missing) .missing) s ∧ s.disk = .snap f ∧ f 0 = true ∧ s.files 0 = .missing := by
  refine ⟨_, _, .step (.step (.step (.step .start (.main 0)) (.main 0)) (.main 0)) (.main 0), rfl, ?_, ?_⟩ <;> decide

end Alipy.Threads
