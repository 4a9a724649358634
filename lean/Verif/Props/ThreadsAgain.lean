import Verif.Model.ThreadsAgain
import Verif.Props.Threads
import Mathlib.Tactic.IntervalCases

/-!
# Crashes of a recovered experiment (C53)

`Props/Threads.lean` has the first crash. Here the recovered object runs and crashes again, any number of times.
-/
namespace Alipy.Threads
open Alipy

/-- No round that is to be continued, and for which there is a result file, has lost its flag in the breakpoint file before it was started, and
no thread has been started since the breakpoint file was written. -/
structure Safe (p : Par) (s : Sys) : Prop where
  started : ∀ k, ¬ s.pc.fresh k
  waiting : ∀ k < p.n, p.todo k = true → s.w k = .idle → ∀ m, s.files k = .data m → ∀ f, s.disk = .snap f → f k = true

/-- Runs of an experiment: a new object started in an empty directory; or the object which `recover` made after a crash of such a run. `fin` are the
rounds whose worker has returned in one of the runs before. -/
inductive Life : Par → Sys → (Nat → Prop) → Prop
  | fresh {p : Par} {s : Sys} : (∀ k, p.todo k = true) → Reach p false (init p (fun _ => .missing) .missing) s → Life p s (fun _ => False)
  | again {p : Par} {s t : Sys} {fin : Nat → Prop} {r : List (Bool × Option Nat)} : Life p s fin → Safe p s →
      recover p.n s.disk s.files = .ok r → Reach (p.again r) false (reinit p r s.files s.disk) t →
      Life (p.again r) t (fun k => fin k ∨ s.w k = .ended)

/-- What holds in every run. -/
structure GInv (p : Par) (fin : Nat → Prop) (s : Sys) : Prop where
  base : Inv p s
  idle : ∀ k < p.n, s.w k = .idle → p.todo k = true →
    ((s.files k = .missing ∨ s.files k = .empty) ∧ s.prog k = 0) ∨ s.files k = .data (s.prog k)
  skip : ∀ k < p.n, p.todo k = false → s.files k = .data (s.prog k) ∧ fin k
  ended : ∀ k, s.w k = .ended → s.files k = .data (s.prog k)
  flags : ∀ j i, (s.pc = .opn j i ∨ s.pc = .dump j i) → ∀ k, s.flags k = false → s.w k ≠ .running
  disk : ∀ f, s.disk = .snap f → ∀ k, f k = false → s.w k ≠ .running ∨ s.pc.fresh k

theorem GInv.start {p : Par} {fin : Nat → Prop} {s : Sys} (h : GInv p fin s) {i : Nat} {a : Int} (hi : i < p.n) (hr : p.todo i = true)
    (hp : s.pc.pos p.n = i) (ha : 0 < a) (hb : (s.alive p : Int) + a ≤ p.max) (hf : ∀ k, ¬ s.pc.fresh k) : GInv p fin (start s i a) := by
  have hb' := h.base.start hi hr hp ha hb
  have hw : s.w i = .idle := by
    by_contra hc
    have := (h.base.started i).1 hc
    omega
  have hs : Threads.start s i a = { s with w := set s.w i .running, flags := set s.flags i true, avail := a - 1, pc := .upd false (i + 1) } := by
    unfold Threads.start; rw [hw]
  rw [hs] at hb' ⊢
  refine ⟨hb', ?_, h.skip, ?_, ?_, ?_⟩
  · intro k hkn hk ht
    have hki : k ≠ i := by rintro rfl; simp at hk
    simp only [set_other _ _ hki] at hk
    exact h.idle k hkn hk ht
  · intro k hk
    have hki : k ≠ i := by rintro rfl; simp at hk
    simp only [set_other _ _ hki] at hk
    exact h.ended k hk
  · simp
  · intro f hd k hk
    by_cases hki : k = i
    · subst hki; right; simp [PC.fresh]
    · left
      simp only [set_other _ _ hki]
      exact (h.disk f hd k hk).resolve_right (hf k)

/-- Moving the main thread without touching workers or files. -/
theorem GInv.move {p : Par} {fin : Nat → Prop} {s : Sys} (h : GInv p fin s) {pc : PC} (hb : Inv p { s with pc := pc })
    (hf : ∀ k, ¬ s.pc.fresh k) (hpc : ∀ j i, pc ≠ .opn j i ∧ pc ≠ .dump j i) : GInv p fin { s with pc := pc } := by
  refine ⟨hb, h.idle, h.skip, h.ended, ?_, ?_⟩
  · intro j i hj
    rcases hj with hj | hj
    · exact absurd hj (hpc j i).1
    · exact absurd hj (hpc j i).2
  · intro f hd k hk
    exact Or.inl ((h.disk f hd k hk).resolve_right (hf k))

theorem GInv.main {p : Par} {fin : Nat → Prop} {s : Sys} (h : GInv p fin s) (o : Nat) : GInv p fin (mainStep p o s) := by
  have hb := h.base.main o
  unfold mainStep at hb ⊢
  cases hpc : s.pc with
  | loop i =>
    rw [hpc] at hb
    simp only at hb ⊢
    have hp : s.pc.pos p.n = i := by rw [hpc]; rfl
    have hf : ∀ k, ¬ s.pc.fresh k := by intro k; rw [hpc]; simp [PC.fresh]
    split_ifs with h1 h2 h3
    · exact h.start h1 h2 hp h3 h.base.bound hf
    · rw [if_pos h1, if_pos h2, if_neg h3] at hb; exact h.move hb hf (by simp)
    · rw [if_pos h1, if_neg h2] at hb; exact h.move hb hf (by simp)
    · rw [if_neg h1] at hb; exact h.move hb hf (by simp)
  | wait i =>
    rw [hpc] at hb
    simp only at hb ⊢
    have hf : ∀ k, ¬ s.pc.fresh k := by intro k; rw [hpc]; simp [PC.fresh]
    obtain ⟨h1, h2, h3⟩ := h.base.waiting i hpc
    split_ifs with h4
    · refine h.start h1 h2 (by rw [hpc]; rfl) ?_ ?_ hf
      · push_cast at h4 ⊢; rw [h3]; omega
      · push_cast at h4 ⊢; rw [h3]; omega
    · exact h
  | upd j i =>
    rw [hpc] at hb
    simp only at hb ⊢
    refine ⟨hb, h.idle, h.skip, h.ended, ?_, ?_⟩
    · intro j' i' _ k hk; simpa using hk
    · intro f hd k hk
      have := h.disk f hd k hk
      rw [hpc] at this
      cases j <;> simpa [PC.fresh] using this
  | opn j i =>
    rw [hpc] at hb
    simp only at hb ⊢
    refine ⟨hb, h.idle, h.skip, h.ended, ?_, ?_⟩
    · intro j' i' _ k hk; exact h.flags j i (Or.inl hpc) k hk
    · intro f hd; simp at hd
  | dump j i =>
    rw [hpc] at hb
    simp only at hb ⊢
    refine ⟨hb, h.idle, h.skip, h.ended, ?_, ?_⟩
    · intro j' i' hj; cases j <;> simp [next] at hj
    · intro f hd k hk
      simp only [Disk.snap.injEq] at hd
      subst hd
      exact Or.inl (h.flags j i (Or.inr hpc) k hk)
  | join i =>
    rw [hpc] at hb
    simp only at hb ⊢
    have hf : ∀ k, ¬ s.pc.fresh k := by intro k; rw [hpc]; simp [PC.fresh]
    split_ifs with h1 h2 h3
    · exact h
    · rw [if_pos h1, if_pos h2, if_neg h3] at hb; exact h.move hb hf (by simp)
    · rw [if_pos h1, if_neg h2] at hb; exact h.move hb hf (by simp)
    · rw [if_neg h1] at hb; exact h.move hb hf (by simp)
  | done => exact h
  | raised => exact h

/-- A running worker belongs to a round that is to be run. -/
theorem Inv.todo_of_running {p : Par} {s : Sys} (h : Inv p s) {i : Nat} (hi : s.w i = .running) : p.todo i = true :=
  ((h.started i).1 (by rw [hi]; simp)).2

theorem GInv.work {p : Par} {fin : Nat → Prop} {s t : Sys} (h : GInv p fin s) (hw : Work false s t) : GInv p fin t := by
  have hb := h.base.work hw
  have files : ∀ i x, s.w i = .running → Inv p { s with files := set s.files i x } → GInv p fin { s with files := set s.files i x } := by
    intro i x hi hb
    have hne : ∀ k, s.w k ≠ .running → k ≠ i := by rintro k hk rfl; exact hk hi
    refine ⟨hb, ?_, ?_, ?_, h.flags, h.disk⟩
    · intro k hkn hk ht
      have hki := hne k (by intro h'; simp only at hk; rw [hk] at h'; simp at h')
      simp only [set_other _ _ hki]; exact h.idle k hkn hk ht
    · intro k hkn ht
      have hki : k ≠ i := by rintro rfl; rw [h.base.todo_of_running hi] at ht; simp at ht
      simp only [set_other _ _ hki]; exact h.skip k hkn ht
    · intro k hk
      have hki := hne k (by intro h'; simp only at hk; rw [hk] at h'; simp at h')
      simp only [set_other _ _ hki]; exact h.ended k hk
  cases hw with
  | @add i hi =>
    have hne : ∀ k, s.w k ≠ .running → k ≠ i := by rintro k hk rfl; exact hk hi
    refine ⟨hb, ?_, ?_, ?_, h.flags, h.disk⟩
    · intro k hkn hk ht
      have hki := hne k (by intro h'; simp only at hk; rw [hk] at h'; simp at h')
      simp only [set_other _ _ hki]; exact h.idle k hkn hk ht
    · intro k hkn ht
      have hki : k ≠ i := by rintro rfl; rw [h.base.todo_of_running hi] at ht; simp at ht
      simp only [set_other _ _ hki]; exact h.skip k hkn ht
    · intro k hk
      have hki := hne k (by intro h'; simp only at hk; rw [hk] at h'; simp at h')
      simp only [set_other _ _ hki]; exact h.ended k hk
  | opn hi => exact files _ _ hi hb
  | part hi _ => exact files _ _ hi hb
  | flush hi _ => exact files _ _ hi hb
  | @finish i hi hd =>
    refine ⟨hb, ?_, h.skip, ?_, ?_, ?_⟩
    · intro k hkn hk ht
      have hki : k ≠ i := by rintro rfl; simp at hk
      simp only [set_other _ _ hki] at hk; exact h.idle k hkn hk ht
    · intro k hk
      by_cases hki : k = i
      · subst hki; exact hd
      · simp only [set_other _ _ hki] at hk; exact h.ended k hk
    · intro j i' hj k hk
      by_cases hki : k = i
      · subst hki; simp
      · simp only [set_other _ _ hki]; exact h.flags j i' hj k hk
    · intro f hd' k hk
      by_cases hki : k = i
      · subst hki; left; simp
      · simp only [set_other _ _ hki]; exact h.disk f hd' k hk
  | die hd _ => simp at hd

theorem GInv.reach {p : Par} {fin : Nat → Prop} {s₀ s : Sys} (h : GInv p fin s₀) (hr : Reach p false s₀ s) : GInv p fin s := by
  induction hr with
  | start => exact h
  | step _ hs ih =>
    cases hs with
    | main o => exact ih.main o
    | work hw => exact ih.work hw

/-- What `recover` finds for a round in a safe state. -/
theorem GInv.recover_round {p : Par} {fin : Nat → Prop} {s : Sys} (hi : GInv p fin s) (hsafe : Safe p s) {r : List (Bool × Option Nat)}
    (hr : recover p.n s.disk s.files = .ok r) :
    r.length = p.n ∧ ∀ k < p.n, ∃ again kept, r[k]? = some (again, kept) ∧
      (¬ fin k → s.w k ≠ .ended → again = true) ∧
      (again = false → s.files k = .data (s.prog k) ∧ kept = some (s.prog k)) ∧
      (again = true → (∃ m, s.files k = .data m ∧ kept = some m) ∨ ((s.files k = .missing ∨ s.files k = .empty) ∧ kept = none)) := by
  cases hd : s.disk with
  | missing => rw [hd] at hr; simp [recover] at hr
  | torn => rw [hd] at hr; simp [recover] at hr
  | snap f =>
    rw [hd] at hr
    simp only [recover] at hr
    obtain ⟨h1, h2⟩ := mapM_ok_get hr
    refine ⟨by simpa using h1, ?_⟩
    intro k hk
    obtain ⟨⟨again, kept⟩, hb, hf⟩ := h2 k k (by simp [hk])
    refine ⟨again, kept, hb, ?_⟩
    have hdisk := fun hfk => (hi.disk f hd k hfk).resolve_right (hsafe.started k)
    unfold recoverRound at hf
    split_ifs at hf with hfk
    · cases hfile : s.files k with
      | missing => rw [hfile] at hf; simp at hf
      | torn => rw [hfile] at hf; simp at hf
      | empty => rw [hfile] at hf; simp only [Except.ok.injEq, Prod.mk.injEq] at hf; obtain ⟨rfl, rfl⟩ := hf; simp
      | data m => rw [hfile] at hf; simp only [Except.ok.injEq, Prod.mk.injEq] at hf; obtain ⟨rfl, rfl⟩ := hf; simp
    · have hnr := hdisk (by simpa using hfk)
      cases hfile : s.files k with
      | missing => rw [hfile] at hf; simp only [Except.ok.injEq, Prod.mk.injEq] at hf; obtain ⟨rfl, rfl⟩ := hf; simp
      | torn => rw [hfile] at hf; simp at hf
      | empty => rw [hfile] at hf; simp only [Except.ok.injEq, Prod.mk.injEq] at hf; obtain ⟨rfl, rfl⟩ := hf; simp
      | data m =>
        rw [hfile] at hf
        simp only [Except.ok.injEq, Prod.mk.injEq] at hf
        obtain ⟨rfl, rfl⟩ := hf
        have key : File.data m = .data (s.prog k) ∧ (fin k ∨ s.w k = .ended) := by
          cases ht : p.todo k with
          | false =>
            obtain ⟨h3, h4⟩ := hi.skip k hk ht
            exact ⟨by rw [← hfile, h3], Or.inl h4⟩
          | true =>
            cases hw : s.w k with
            | idle => exact absurd (hsafe.waiting k hk ht hw m hfile f hd) hfk
            | running => exact absurd hw hnr
            | ended => exact ⟨by rw [← hfile, hi.ended k hw], Or.inr rfl⟩
        obtain ⟨h3, h4⟩ := key
        refine ⟨fun h5 h6 => ?_, fun _ => ⟨h3, ?_⟩, by simp⟩
        · exact absurd h4 (by push Not; exact ⟨h5, h6⟩)
        · simp only [File.data.injEq] at h3; rw [h3]

theorem Life.inv {p : Par} {s : Sys} {fin : Nat → Prop} (h : Life p s fin) : GInv p fin s := by
  induction h with
  | @fresh p s htodo hr =>
    refine GInv.reach ⟨Inv.init p _ _, ?_, ?_, ?_, ?_, ?_⟩ hr
    · intro k _ _ _; left; simp [Threads.init]
    · intro k _ hk; rw [htodo k] at hk; simp at hk
    · simp [Threads.init]
    · simp [Threads.init]
    · simp [Threads.init]
  | @again p s t fin r hl hsafe hrec hreach ih =>
    obtain ⟨hlen, hround⟩ := ih.recover_round hsafe hrec
    have hb : Inv (p.again r) (reinit p r s.files s.disk) := by
      have h0 := Inv.init (p.again r) s.files s.disk
      exact ⟨h0.bound, h0.avail, h0.waiting, h0.started, h0.posle, h0.joined, h0.ok⟩
    refine GInv.reach ⟨hb, ?_, ?_, ?_, ?_, ?_⟩ hreach
    · intro k hk _ ht
      obtain ⟨again, kept, he, -, -, h3⟩ := hround k hk
      simp only [Par.again, he] at ht
      simp only [Option.map_some, Option.getD_some] at ht
      simp only [reinit, Threads.init, he]
      rcases h3 ht with ⟨m, h4, rfl⟩ | ⟨h4, rfl⟩
      · right; simpa using h4
      · left; exact ⟨h4, by simp⟩
    · intro k hk ht
      obtain ⟨again, kept, he, h1, h2, -⟩ := hround k hk
      simp only [Par.again, he] at ht
      simp only [Option.map_some, Option.getD_some] at ht
      obtain ⟨h3, rfl⟩ := h2 ht
      simp only [reinit, Threads.init, he]
      refine ⟨by simpa using h3, ?_⟩
      by_contra hc
      push Not at hc
      exact absurd (h1 hc.1 hc.2) (by rw [ht]; simp)
    · simp [reinit, Threads.init]
    · simp [reinit, Threads.init]
    · intro f _ k _; left; simp [reinit, Threads.init]

/-- **C53**, any number of crashes (partial: workers save before they end and do not raise, the directory was empty at first, no crash falls between
starting a thread and writing the breakpoint file, `recover` has to succeed, and no crash falls in a moment in which a round that is to be
continued has been entered in the breakpoint file as not running): `recover` runs again every round that has ended in none of the runs, keeps the
complete result of every round it does not run again, and continues every other with its last saved state. -/
theorem C53_recover_again_partial {p : Par} {s : Sys} {fin : Nat → Prop} (h : Life p s fin) (hsafe : Safe p s) {r : List (Bool × Option Nat)}
    (hr : recover p.n s.disk s.files = .ok r) :
    r.length = p.n ∧ ∀ k < p.n, ∃ again kept, r[k]? = some (again, kept) ∧
      (¬ fin k → s.w k ≠ .ended → again = true) ∧
      (again = false → kept = some (s.prog k)) ∧
      (again = true → kept = match s.files k with | .data m => some m | _ => none) := by
  obtain ⟨h1, h2⟩ := h.inv.recover_round hsafe hr
  refine ⟨h1, fun k hk => ?_⟩
  obtain ⟨again, kept, he, h3, h4, h5⟩ := h2 k hk
  refine ⟨again, kept, he, h3, fun h => (h4 h).2, fun h => ?_⟩
  rcases h5 h with ⟨m, h6, rfl⟩ | ⟨h6 | h6, rfl⟩ <;> rw [h6]

/-- **C53**: what a finished round has recorded is the same in all later runs: a round that `recover` does not run again is not started, and its file
and its saver stay as they were. -/
theorem C53_finished_kept {p : Par} {s t : Sys} {fin : Nat → Prop} (h : Life p s fin) (hsafe : Safe p s) {r : List (Bool × Option Nat)}
    (hr : recover p.n s.disk s.files = .ok r) (ht : Reach (p.again r) false (reinit p r s.files s.disk) t) {k : Nat} (hk : k < p.n)
    {kept : Option Nat} (hkr : r[k]? = some (false, kept)) :
    t.w k = .idle ∧ t.files k = s.files k ∧ t.prog k = s.prog k := by
  obtain ⟨-, h2⟩ := h.inv.recover_round hsafe hr
  obtain ⟨again, kept', he, -, h4, -⟩ := h2 k hk
  rw [hkr] at he
  simp only [Option.some.injEq, Prod.mk.injEq] at he
  obtain ⟨rfl, rfl⟩ := he
  obtain ⟨hfile, rfl⟩ := h4 rfl
  have hi := (Life.again h hsafe hr ht).inv
  have htodo : (p.again r).todo k = false := by simp [Par.again, hkr]
  have hnot : ∀ u, Inv (p.again r) u → u.w k = .idle := by
    intro u hu
    by_contra hc
    have := ((hu.started k).1 hc).2
    rw [htodo] at this
    simp at this
  have hbase : ∀ u, Reach (p.again r) false (reinit p r s.files s.disk) u → Inv (p.again r) u := fun u hu => (Life.again h hsafe hr hu).inv.base
  refine ⟨hnot t hi.base, ?_, ?_⟩
  · rw [(hi.skip k hk htodo).1, hfile]
    congr 1
    clear hi
    induction ht with
    | start => simp [reinit, hkr]
    | @step u v hu hs ih =>
      rw [← ih]
      cases hs with
      | main o =>
        unfold mainStep
        split <;> (try simp only) <;> (try split_ifs) <;> (try rfl) <;> (unfold start; split <;> rfl)
      | work hw =>
        have hidle := hnot u (hbase u hu)
        cases hw with
        | @add i hi' =>
          have : k ≠ i := by rintro rfl; rw [hidle] at hi'; simp at hi'
          simp only [set_other _ _ this]
        | _ => rfl
  · clear hi
    induction ht with
    | start => simp [reinit, hkr]
    | @step u v hu hs ih =>
      rw [← ih]
      cases hs with
      | main o =>
        unfold mainStep
        split <;> (try simp only) <;> (try split_ifs) <;> (try rfl) <;> (unfold start; split <;> rfl)
      | work hw =>
        have hidle := hnot u (hbase u hu)
        cases hw with
        | @add i hi' =>
          have : k ≠ i := by rintro rfl; rw [hidle] at hi'; simp at hi'
          simp only [set_other _ _ this]
        | _ => rfl

/-- The main thread alone passes the rounds that are not to be run. -/
theorem skip_rounds {p : Par} {d : Bool} {s₀ : Sys} (h0 : s₀.pc = .loop 0) {i : Nat} (hi : i < p.n) (hskip : ∀ k < i, p.todo k = false) :
    ∀ j ≤ i, Reach p d s₀ { s₀ with pc := .loop j }
  | 0, _ => by
    have : ({ s₀ with pc := .loop 0 } : Sys) = s₀ := by rw [← h0]
    rw [this]; exact .start
  | j + 1, hj => by
    have h1 := skip_rounds (d := d) h0 hi hskip j (by omega)
    have h2 : mainStep p 0 { s₀ with pc := .loop j } = { s₀ with pc := .loop (j + 1) } := by
      simp only [mainStep]
      rw [if_pos (by omega), if_neg (by rw [hskip j (by omega)]; simp)]
    rw [← h2]
    exact .step h1 (.main 0)

/-- **C53**, violation: a recovered object that crashes again forgets the rounds which it was to continue. Let `i` be the first round to be run and
`j` a later one that is to be continued from its file. As soon as round `i` has been started, the breakpoint file says that round `j` is not
running, and the next `recover` takes the part of its result in the file for the complete one and does not run it again. -/
theorem C53_second_crash_violation {p : Par} (hmax : 0 < p.max) {r : List (Bool × Option Nat)} {files : Nat → File} {disk : Disk} {i j : Nat}
    (hij : i < j) (hj : j < p.n) (hskip : ∀ k < i, (p.again r).todo k = false) (hi : (p.again r).todo i = true) {m : Nat}
    (hfile : files j = .data m) :
    ∃ s, Reach (p.again r) false (reinit p r files disk) s ∧ (∀ k, ¬ s.pc.fresh k) ∧ s.w j = .idle ∧
      ∀ r', recover p.n s.disk s.files = .ok r' → r'[j]? = some (false, some m) := by
  have h1 := skip_rounds (p := p.again r) (d := false) (s₀ := reinit p r files disk) rfl (i := i) (by show i < p.n; omega) hskip i le_rfl
  have h2 := Reach.step h1 (.main 0)
  have e2 : mainStep (p.again r) 0 { reinit p r files disk with pc := .loop i } =
      { reinit p r files disk with
        w := set (fun _ => .idle) i .running
        flags := set (fun _ => false) i true
        avail := (p.max : Int) - 1
        pc := .upd false (i + 1) } := by
    have : i < (p.again r).n := by show i < p.n; omega
    simp only [mainStep, if_pos this, hi, if_true]
    rw [if_pos (by simp [reinit, Threads.init, Par.again]; omega)]
    simp [start, reinit, Threads.init, Par.again]
  rw [e2] at h2
  have h5 := Reach.step (Reach.step (Reach.step h2 (.main 0)) (.main 0)) (.main 0)
  refine ⟨_, h5, ?_, ?_, ?_⟩
  · intro k; simp [mainStep, next, PC.fresh]
  · simp only [mainStep]
    exact set_other _ _ (by omega)
  · intro r' hr'
    simp only [mainStep, recover] at hr'
    obtain ⟨-, h6⟩ := mapM_ok_get hr'
    obtain ⟨b, hb, hrr⟩ := h6 j j (by simp [hj])
    rw [hb]
    have hne : j ≠ i := by omega
    simp only [set_other _ _ hne, reinit, Threads.init, hfile, recoverRound] at hrr
    simp at hrr
    rw [← hrr]

/-- The main thread starts round `k` and writes the breakpoint file. -/
theorem start_and_save {p : Par} {d : Bool} {s₀ s : Sys} (h : Reach p d s₀ s) {k : Nat} (hpc : s.pc = .loop k) (hk : k < p.n)
    (ht : p.todo k = true) (ha : 0 < s.avail) (hw : s.w k = .idle) :
    Reach p d s₀ { s with
      w := set s.w k .running
      flags := fun i => decide (set s.w k .running i = .running)
      avail := s.avail - 1
      disk := .snap (fun i => decide (set s.w k .running i = .running))
      pc := .loop (k + 1) } := by
  have h4 := Reach.step (Reach.step (Reach.step (Reach.step h (.main 0)) (.main 0)) (.main 0)) (.main 0)
  have e : mainStep p 0 s = { s with w := (set s.w k .running), flags := (set s.flags k true), avail := s.avail - 1, pc := .upd false (k + 1) } := by
    unfold mainStep
    rw [hpc]
    simp only [if_pos hk, ht, if_true, if_pos ha]
    unfold start
    rw [hw]
  rw [e] at h4
  exact h4

theorem set_set {α : Type} (f : Nat → α) (i : Nat) (x y : α) : set (set f i x) i y = set f i y := by
  funext j
  by_cases h : j = i
  · subst h; simp
  · simp [set_other _ _ h]

/-- A worker adds `m` states. -/
theorem add_states {p : Par} {d : Bool} {s₀ s : Sys} (h : Reach p d s₀ s) {k : Nat} (hk : s.w k = .running) :
    ∀ m, Reach p d s₀ { s with prog := set s.prog k (s.prog k + m) }
  | 0 => by
    have : set s.prog k (s.prog k + 0) = s.prog := by
      funext j
      by_cases hj : j = k
      · subst hj; simp
      · simp [set_other _ _ hj]
    rw [this]; exact h
  | m + 1 => by
    have h1 := add_states h hk m
    have h2 := Reach.step h1 (.work (.add (i := k) hk))
    simpa [set_set, Nat.add_assoc] using h2

/-- A worker saves. -/
theorem save_states {p : Par} {d : Bool} {s₀ s : Sys} (h : Reach p d s₀ s) {k : Nat} (hk : s.w k = .running) :
    Reach p d s₀ { s with files := set s.files k (.data (s.prog k)) } := by
  have h1 := Reach.step (Reach.step h (.work (.opn (i := k) hk))) (.work (.flush (i := k) hk (Or.inl (by simp))))
  simpa [set_set] using h1

/-- What `recover` returns, round by round. -/
theorem recover_get {n : Nat} {f : Nat → Bool} {files : Nat → File} (hfile : ∀ k < n, files k ≠ .torn)
    (hsaved : ∀ k < n, f k = true → files k ≠ .missing) :
    ∃ r, recover n (.snap f) files = .ok r ∧ ∀ k < n, ∃ b, r[k]? = some b ∧ recoverRound (f k) (files k) = .ok b := by
  obtain ⟨r, hr⟩ := C53_recover_succeeds (p := ⟨n, 1, fun _ => true⟩) (s := ⟨.done, fun _ => .idle, 0, f, files, fun _ => 0, .snap f⟩) rfl hfile hsaved
  refine ⟨r, hr, fun k hk => ?_⟩
  simp only [recover] at hr
  exact (mapM_ok_get hr).2 k k (by simp [hk])

/-- **C53**, violation: a worker that saves between its start and the writing of the breakpoint file is taken as finished by `recover`, in every
experiment of two or more rounds and threads: round 1 is running, has recorded more than is in its file, and will not be run again. -/
theorem C53_race_violation {p : Par} (hn : 2 ≤ p.n) (hmax : 2 ≤ p.max) (htodo : ∀ k, p.todo k = true) (m : Nat) :
    ∃ s, Reach p false (init p (fun _ => .missing) .missing) s ∧ s.w 1 = .running ∧ s.prog 1 = m + 1 ∧
      ∃ r, recover p.n s.disk s.files = .ok r ∧ r[1]? = some (false, some m) := by
  have h1 := start_and_save (p := p) (d := false) (s₀ := init p (fun _ => .missing) .missing) .start (k := 0) rfl (by omega) (htodo 0)
    (by show (0 : Int) < p.max; omega) rfl
  have h2 := save_states h1 (k := 0) (by simp)
  have h3 := Reach.step h2 (.main 0)
  simp only [Threads.init] at h3
  simp only [mainStep] at h3
  rw [if_pos (by omega), if_pos (htodo 1), if_pos (by omega)] at h3
  have hw : set (fun _ => W.idle) 0 W.running 1 = .idle := by simp [set]
  simp only [start, hw] at h3
  have h4 := add_states (save_states (add_states h3 (k := 1) (by simp) m) (k := 1) (by simp)) (k := 1) (by simp) 1
  refine ⟨_, h4, by simp, by simp, ?_⟩
  obtain ⟨r, hr, h5⟩ := recover_get (n := p.n) (f := fun i => decide (set (fun _ => W.idle) 0 W.running i = .running))
    (files := set (set (fun _ => File.missing) 0 (.data 0)) 1 (.data m))
    (by intro k _; unfold set; split_ifs <;> simp)
    (by intro k _ h; unfold set at h ⊢; split_ifs at h ⊢ <;> simp at h ⊢)
  refine ⟨r, ?_, ?_⟩
  · clear h1 h2 h3 h4
    simp only [set_same, Nat.zero_add]
    convert hr using 3
    funext i
    congr
  obtain ⟨b, hb, h6⟩ := h5 1 (by omega)
  rw [hb]
  simp [set, recoverRound] at h6
  rw [← h6]

/-- **C53**, violation: a worker that has raised after a save is taken as finished, in every experiment. -/
theorem C53_exception_violation {p : Par} (hn : 0 < p.n) (hmax : 0 < p.max) (htodo : ∀ k, p.todo k = true) (m : Nat) :
    ∃ s, Reach p true (init p (fun _ => .missing) .missing) s ∧ (∀ k, ¬ s.pc.fresh k) ∧ s.w 0 = .ended ∧ s.prog 0 = m + 1 ∧
      ∃ r, recover p.n s.disk s.files = .ok r ∧ r[0]? = some (false, some m) := by
  have h1 := Reach.step (Reach.start (p := p) (die := true) (s₀ := init p (fun _ => .missing) .missing)) (.main 0)
  simp only [Threads.init] at h1
  simp only [mainStep] at h1
  rw [if_pos hn, if_pos (htodo 0), if_pos (by omega)] at h1
  simp only [start] at h1
  have h2 := add_states (save_states (add_states h1 (k := 0) (by simp) m) (k := 0) (by simp)) (k := 0) (by simp) 1
  have h3 := Reach.step (Reach.step (Reach.step (Reach.step h2 (.work (.die (i := 0) rfl (by simp)))) (.main 0)) (.main 0)) (.main 0)
  refine ⟨_, h3, by intro k; simp [mainStep, next, PC.fresh], by simp [mainStep], by simp [mainStep], ?_⟩
  obtain ⟨r, hr, h5⟩ := recover_get (n := p.n) (f := fun i => decide (set (set (fun _ => W.idle) 0 W.running) 0 W.ended i = .running))
    (files := set (fun _ => File.missing) 0 (.data m))
    (by intro k _; unfold set; split_ifs <;> simp)
    (by intro k _ h; unfold set at h ⊢; split_ifs at h ⊢ <;> simp at h ⊢)
  refine ⟨r, by simp only [mainStep, set_set, set_same, Nat.zero_add]; convert hr using 3; rw [set_set], ?_⟩
  obtain ⟨b, hb, h6⟩ := h5 0 hn
  rw [hb]
  simp [set, recoverRound] at h6
  rw [← h6]

/-! ## An experiment that crashes twice -/

/-- Two rounds, one at a time: round 0 has been started and waited for. -/
def life1 : Sys := (mainStep demo 0)^[5] (init demo (fun _ => .missing) .missing)

/-- Round 0 has saved and ended. -/
def life2 : Sys := { life1 with files := set life1.files 0 (.data 0), w := set life1.w 0 .ended }

/-- Round 1 has been started, has recorded a state and saved; then comes the crash. -/
def life3 : Sys := { (mainStep demo 0)^[4] life2 with files := set life2.files 1 (.data 1), prog := set life2.prog 1 1 }

/-- The recovered object has started round 1, which records a second state and saves; then comes the second crash. -/
def life4 : Sys :=
  { (mainStep (demo.again [(false, some 0), (true, some 1)]) 0)^[5] (reinit demo [(false, some 0), (true, some 1)] life3.files life3.disk) with
    files := set life3.files 1 (.data 2)
    prog := set (reinit demo [(false, some 0), (true, some 1)] life3.files life3.disk).prog 1 2 }

theorem reach_main {p : Par} {d : Bool} {s₀ : Sys} : ∀ (m : Nat) {s : Sys}, Reach p d s₀ s → Reach p d s₀ ((mainStep p 0)^[m] s)
  | 0, _, h => h
  | m + 1, _, h => by rw [Function.iterate_succ_apply]; exact reach_main m (.step h (.main 0))

theorem life3_reach : Reach demo false (init demo (fun _ => .missing) .missing) life3 := by
  have h1 : Reach demo false (init demo (fun _ => .missing) .missing) life1 := reach_main 5 .start
  have h2 : Reach demo false (init demo (fun _ => .missing) .missing) life2 :=
    .step (save_states h1 (k := 0) (by decide)) (.work (.finish (i := 0) (by decide) (by decide)))
  exact save_states (add_states (reach_main 4 h2) (k := 1) (by decide) 1) (k := 1) (by decide)

theorem life3_safe : Safe demo life3 := by
  refine ⟨fun k h => h, fun k hk _ hidle => ?_⟩
  have : k < 2 := hk
  interval_cases k <;> exact absurd hidle (by decide)

example : recover 2 life3.disk life3.files = .ok [(false, some 0), (true, some 1)] := rfl

theorem life4_life : Life (demo.again [(false, some 0), (true, some 1)]) life4 (fun k => False ∨ life3.w k = .ended) := by
  refine .again (.fresh (fun _ => rfl) life3_reach) life3_safe rfl ?_
  exact save_states (add_states (reach_main 5 (s := reinit demo [(false, some 0), (true, some 1)] life3.files life3.disk) .start) (k := 1)
    (by decide) 1) (k := 1) (by decide)

/-- After the second crash round 0, which has ended in the first run, is kept, and round 1 goes on with two states. -/
example : Safe (demo.again [(false, some 0), (true, some 1)]) life4 ∧ recover 2 life4.disk life4.files = .ok [(false, some 0), (true, some 2)] := by
  refine ⟨⟨fun k h => h, fun k hk ht hidle => ?_⟩, rfl⟩
  have : k < 2 := hk
  interval_cases k
  · exact absurd ht (by decide)
  · exact absurd hidle (by decide)

end Alipy.Threads
