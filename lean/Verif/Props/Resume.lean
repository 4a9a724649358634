import Verif.Model.Resume
import Verif.Spec.Resume
import Verif.Proof.MainLoop
/-!
# C98: sessions that are broken off and resumed
-/
set_option linter.unusedSectionVars false
set_option linter.unusedSimpArgs false
namespace Alipy.Resume
open Alipy

variable {κ ε σ : Type}

/-- Without the time of start, which is only read for `time_limit`. -/
def bare (s : Stop) : Stop := { s with startTime := 0 }

def Mem.bare (m : Mem κ σ) : Mem κ σ := { m with stop := Resume.bare m.stop }

theorem isStop_bare {s : Stop} (h : s.crit ≠ .timeLimit) (now now' : ℚ) : (bare s).isStop now = s.isStop now' := by
  unfold Stop.isStop bare
  simp only
  split
  · rfl
  · cases hc : s.crit <;> cases s.value <;> simp_all

theorem new_bare {name : Option String} {value : Option PyNum} {now now' : ℚ} {s s' : Stop} (h : Stop.new name value now = .ok s)
    (h' : Stop.new name value now' = .ok s') : bare s = bare s' := by
  unfold Stop.new at h h'
  cases hp : Stop.parse name with
  | error e => simp [hp] at h
  | ok c =>
    rw [hp] at h h'
    cases c <;> simp only at h h' <;>
      first
      | (cases h; cases h'; rfl)
      | (cases value with
         | none => cases h
         | some v => cases v <;> (cases h; cases h'; rfl))

theorem new_crit {name : Option String} {value : Option PyNum} {now : ℚ} {s : Stop} (h : Stop.new name value now = .ok s)
    (hn : name ≠ some "time_limit") : s.crit ≠ .timeLimit := by
  unfold Stop.new at h
  cases hp : Stop.parse name with
  | error e => simp [hp] at h
  | ok c =>
    have hc : c ≠ .timeLimit := by
      rintro rfl
      unfold Stop.parse at hp
      split at hp <;> simp_all
    rw [hp] at h
    cases c <;> simp only at h
    · cases h; simp
    · cases value with
      | none => cases h
      | some v => cases v <;> (cases h; simp)
    · cases h; simp
    · cases h; simp
    · exact absurd rfl hc

theorem update_bare (ops : CollOps κ ε σ) (s : Stop) (sv : StateIO κ σ) :
    (bare s).update ops sv = (s.update ops sv).map bare := by
  unfold Stop.update
  cases StateIO.getWorkspace ops sv none with
  | error e => rfl
  | ok w =>
    cases StateIO.getWorkspace ops sv (some 0) with
    | error e => rfl
    | ok w0 =>
      obtain ⟨_, U⟩ := w
      obtain ⟨_, U0⟩ := w0
      cases hc : s.crit <;> simp [bare, hc, Except.map]
      split <;> rfl

theorem update_crit {ops : CollOps κ ε σ} {s s' : Stop} {sv : StateIO κ σ} (h : s.update ops sv = .ok s') :
    s'.crit = s.crit ∧ s'.startTime = s.startTime ∧ s'.value = s.value := by
  unfold Stop.update at h
  cases hw : StateIO.getWorkspace ops sv none with
  | error e => simp [hw] at h
  | ok w =>
    cases hw0 : StateIO.getWorkspace ops sv (some 0) with
    | error e => simp [hw, hw0] at h
    | ok w0 =>
      obtain ⟨_, U⟩ := w
      obtain ⟨_, U0⟩ := w0
      rw [hw, hw0] at h
      cases hc : s.crit <;> simp only [hc] at h
      · cases h; simp [hc]
      · cases h; simp [hc]
      · cases h; simp [hc]
      · split at h
        · cases h
        · cases h; simp [hc]
      · cases h; simp [hc]

/-- What was noted before does not matter. -/
theorem update_update {ops : CollOps κ ε σ} {s s' : Stop} {sv : StateIO κ σ} (h : s.update ops sv = .ok s') (sv' : StateIO κ σ) :
    s'.update ops sv' = s.update ops sv' := by
  unfold Stop.update at h
  cases hw : StateIO.getWorkspace ops sv none with
  | error e => simp [hw] at h
  | ok w =>
    cases hw0 : StateIO.getWorkspace ops sv (some 0) with
    | error e => simp [hw, hw0] at h
    | ok w0 =>
      obtain ⟨_, U⟩ := w
      obtain ⟨_, U0⟩ := w0
      rw [hw, hw0] at h
      unfold Stop.update
      cases StateIO.getWorkspace ops sv' none with
      | error e => rfl
      | ok w' =>
        cases StateIO.getWorkspace ops sv' (some 0) with
        | error e => rfl
        | ok w0' =>
          obtain ⟨_, U'⟩ := w'
          obtain ⟨_, U0'⟩ := w0'
          cases hc : s.crit <;> simp only [hc] at h
          · cases h; simp [hc]
          · cases h; simp [hc]
          · cases h; simp [hc]
          · split at h
            · cases h
            · cases h; simp [hc]
          · cases h; simp [hc]

/-! ## The course of a session -/

/-- `Course env k m`: `m` is what is in memory after `k` iterations without interruption. -/
inductive Course (env : Env κ ε σ) : Nat → Mem κ σ → Prop where
  | start {now : ℚ} {stop : Stop} (h : Stop.new env.name env.value now = .ok stop) :
      Course env 0 ⟨env.initL, env.initU, StateIO.new env.initL env.initU, bare stop⟩
  | next {k : Nat} {m m' : Mem κ σ} {sel : σ} {stop : Stop} (h : Course env k m) (hs : m.stop.isStop 0 = .ok false)
      (hq : query env m = .ok (m', sel)) (hu : m'.stop.update env.ops m'.saver = .ok stop) : Course env (k + 1) { m' with stop := stop }

theorem query_eq {env : Env κ ε σ} {m m' : Mem κ σ} {sel : σ} (h : query env m = .ok (m', sel)) :
    env.strat m.L m.U = .ok sel ∧ env.ops.update m.L sel = (m'.L, none) ∧ env.ops.diff m.U sel = (m'.U, none) ∧
      m.saver.addState env.ops (.st (State.new env.ops (.inr sel) (env.perf m'.L m'.U) none ((env.cost sel).map Obj.arr))) = (m'.saver, none) ∧
      m'.stop = m.stop := by
  unfold query at h
  cases h1 : env.strat m.L m.U with
  | error e => simp [h1] at h
  | ok s =>
    simp only [h1] at h
    rcases h2 : env.ops.update m.L s with ⟨L', _ | e⟩
    · simp only [h2] at h
      rcases h3 : env.ops.diff m.U s with ⟨U', _ | e⟩
      · simp only [h3] at h
        rcases h4 : m.saver.addState env.ops (.st (State.new env.ops (.inr s) (env.perf L' U') none ((env.cost s).map Obj.arr))) with ⟨sv, _ | e⟩
        · simp only [h4, Except.ok.injEq, Prod.mk.injEq] at h
          obtain ⟨rfl, rfl⟩ := h
          exact ⟨rfl, h2, h3, h4, rfl⟩
        · simp [h4] at h
      · simp [h3] at h
    · simp [h2] at h

theorem query_bare (env : Env κ ε σ) (m : Mem κ σ) : query env m.bare = (query env m).map (fun p => (p.1.bare, p.2)) := by
  unfold query Mem.bare
  simp only
  cases env.strat m.L m.U with
  | error e => rfl
  | ok s =>
    simp only
    rcases env.ops.update m.L s with ⟨L', _ | e⟩
    · simp only
      rcases env.ops.diff m.U s with ⟨U', _ | e⟩
      · simp only
        rcases m.saver.addState env.ops (.st (State.new env.ops (.inr s) (env.perf L' U') none ((env.cost s).map Obj.arr))) with ⟨sv, _ | e⟩ <;> rfl
      · rfl
    · rfl

theorem new_select (ops : CollOps κ ε σ) (sel : σ) (p : Obj σ) (c : Option (Obj σ)) :
    StateIO.entryGet (.st (State.new ops (.inr sel) p none c)) "select_index" = .ok (.sel sel) := by
  cases c <;> simp [StateIO.entryGet, State.new, State.getValue, dictSet, dictGet]

theorem addState_st {ops : CollOps κ ε σ} {s s' : StateIO κ σ} {st : State σ} {e : Option PyErr} (h : s.addState ops (.st st) = (s', e)) :
    s'.states = s.states ++ [.st st] ∧ s'.initL = s.initL ∧ s'.initU = s.initU := by
  unfold StateIO.addState at h
  simp only [Bool.not_true, Bool.false_eq_true, if_false] at h
  split at h
  · cases h; simp
  · split at h <;> (cases h; simp)

/-- What holds on the way. -/
structure OnCourse (env : Env κ ε σ) (k : Nat) (m : Mem κ σ) : Prop where
  len : m.saver.states.length = k
  initL : m.saver.initL = env.initL
  initU : m.saver.initU = env.initU
  replay : StateIO.replay env.ops m.saver.states env.initL env.initU = .ok (m.L, m.U)

theorem OnCourse.query {env : Env κ ε σ} {k : Nat} {m m' : Mem κ σ} {sel : σ} (h : OnCourse env k m) (hq : query env m = .ok (m', sel)) :
    OnCourse env (k + 1) m' ∧ ∃ e, m'.saver.states = m.saver.states ++ [e] ∧ StateIO.entryGet e "select_index" = .ok (.sel sel) := by
  obtain ⟨-, h2, h3, h4, -⟩ := query_eq hq
  obtain ⟨a1, a2, a3⟩ := addState_st h4
  refine ⟨⟨by rw [a1, List.length_append, h.len]; rfl, by rw [a2, h.initL], by rw [a3, h.initU], ?_⟩, _, a1, new_select _ _ _ _⟩
  rw [a1]
  exact StateIO.replay_snoc (ops := env.ops) m.saver.states _ sel (new_select _ _ _ _) _ _ _ _ _ _ h.replay h3 h2

theorem Course.on {env : Env κ ε σ} {k : Nat} {m : Mem κ σ} (h : Course env k m) : OnCourse env k m := by
  induction h with
  | start _ => exact ⟨rfl, rfl, rfl, rfl⟩
  | next _ _ hq _ ih =>
    have := (ih.query hq).1
    exact ⟨this.len, this.initL, this.initU, this.replay⟩

theorem OnCourse.workspace {env : Env κ ε σ} {k : Nat} {m : Mem κ σ} (h : OnCourse env k m) :
    StateIO.getWorkspace env.ops m.saver none = .ok (m.L, m.U) := by
  unfold StateIO.getWorkspace
  simp [h.initL, h.initU, h.replay]

theorem Course.det {env : Env κ ε σ} {k : Nat} {m : Mem κ σ} (h : Course env k m) : ∀ {m' : Mem κ σ}, Course env k m' → m = m' := by
  induction h with
  | start h =>
    intro m' h'
    cases h' with
    | start h'' => rw [new_bare h h'']
  | next _ hs hq hu ih =>
    intro m' h'
    cases h' with
    | next h1 hs' hq' hu' =>
      have := ih h1
      subst this
      rw [hq] at hq'
      cases hq'
      rw [hu] at hu'
      cases hu'
      rfl

/-- A session has one end. -/
theorem Course.end {env : Env κ ε σ} {k k' : Nat} {m m' : Mem κ σ} (h : Course env k m) (h' : Course env k' m')
    (hm : m.stop.isStop 0 ≠ .ok false) : k' ≤ k := by
  induction h' with
  | start _ => omega
  | @next j a b sel stop h1 hs _ _ ih =>
    have : j ≠ k := by
      rintro rfl
      rw [h.det h1] at hm
      exact hm hs
    omega

/-- The criterion on the way has been told of the record, or is new. -/
theorem Course.stop_eq {env : Env κ ε σ} {k : Nat} {m : Mem κ σ} (h : Course env k m) {now : ℚ} {stop : Stop}
    (hn : Stop.new env.name env.value now = .ok stop) (sv : StateIO κ σ) :
    m.stop.update env.ops sv = (stop.update env.ops sv).map bare := by
  rw [← update_bare]
  induction h with
  | start h => rw [new_bare h hn]
  | next _ _ hq hu ih =>
    rw [← ih, update_update hu]
    rw [(query_eq hq).2.2.2.2]

theorem Course.new {env : Env κ ε σ} {k : Nat} {m : Mem κ σ} (h : Course env k m) :
    ∃ now stop, Stop.new env.name env.value now = .ok stop := by
  induction h with
  | start h => exact ⟨_, _, h⟩
  | next _ _ _ _ ih => exact ih

/-! ## The invariant -/

/-- What is on the disk: nothing after 0 iterations, or the record after `k` iterations, the last of which `update_information` may still
refuse. -/
def Saved (env : Env κ ε σ) (k : Nat) : File κ σ → Prop
  | .missing => k = 0
  | .broken => False
  | .full sv => ∃ j m m' sel, k = j + 1 ∧ Course env j m ∧ m.stop.isStop 0 = .ok false ∧ query env m = .ok (m', sel) ∧ m'.saver = sv

/-- The selection of iteration `i + 1`. -/
def Asks (env : Env κ ε σ) (sel : σ) (i : Nat) : Prop :=
  ∃ m m', Course env i m ∧ m.stop.isStop 0 = .ok false ∧ query env m = .ok (m', sel)

/-- A reason for an exception. -/
inductive Fails (env : Env κ ε σ) (e : PyErr) : Prop where
  | new {now : ℚ} (h : Stop.new env.name env.value now = .error e)
  | isStop {k : Nat} {m : Mem κ σ} (h : Course env k m) (hs : m.stop.isStop 0 = .error e)
  | query {k : Nat} {m : Mem κ σ} (h : Course env k m) (hs : m.stop.isStop 0 = .ok false) (hq : query env m = .error e)
  | update {k : Nat} {m m' : Mem κ σ} {sel : σ} (h : Course env k m) (hs : m.stop.isStop 0 = .ok false)
      (hq : query env m = .ok (m', sel)) (hu : m'.stop.update env.ops m'.saver = .error e)

/-- Among the queries asked, in this order, are the first `k` of the course. -/
def Covers (env : Env κ ε σ) (asked : List σ) (k : Nat) : Prop :=
  ∃ l : List σ, l.Sublist asked ∧ l.length = k ∧ ∀ i x, l[i]? = some x → Asks env x i

theorem Covers.less {env : Env κ ε σ} {asked : List σ} {k j : Nat} (h : Covers env asked k) (hj : j ≤ k) : Covers env asked j := by
  obtain ⟨l, h1, h2, h3⟩ := h
  refine ⟨l.take j, (List.take_sublist j l).trans h1, by rw [List.length_take]; omega, fun i x hx => h3 i x ?_⟩
  rw [List.getElem?_take] at hx
  split at hx
  · exact hx
  · cases hx

theorem Covers.more {env : Env κ ε σ} {asked : List σ} {k : Nat} (h : Covers env asked k) {x : σ} (hx : Asks env x k) :
    Covers env (asked ++ [x]) (k + 1) := by
  obtain ⟨l, h1, h2, h3⟩ := h
  refine ⟨l ++ [x], h1.append (List.Sublist.refl _), by rw [List.length_append, h2]; rfl, fun i y hy => ?_⟩
  rcases Nat.lt_trichotomy i k with hi | rfl | hi
  · rw [List.getElem?_append_left (by omega)] at hy
    exact h3 i y hy
  · rw [List.getElem?_append_right (by omega), h2] at hy
    simp only [Nat.sub_self, List.getElem?_cons_zero, Option.some.injEq] at hy
    subst hy; exact hx
  · rw [List.getElem?_eq_none (by simp only [List.length_append, List.length_singleton]; omega)] at hy
    cases hy

structure Inv (env : Env κ ε σ) (s : Sys κ σ) : Prop where
  down : s.proc = .down → ∃ k, Saved env k s.disk ∧ s.asked.length ≤ k + s.crashes ∧ (∀ x ∈ s.asked, ∃ i, i ≤ k ∧ Asks env x i) ∧
    Covers env s.asked k
  head : ∀ m, s.proc = .head m ∨ s.proc = .done m → ∃ k, Course env k m.bare ∧ m.stop.crit ≠ .timeLimit ∧ Saved env k s.disk ∧
    s.asked.length ≤ k + s.crashes ∧ (∀ x ∈ s.asked, ∃ i, i ≤ k ∧ Asks env x i) ∧ Covers env s.asked k
  done : ∀ m, s.proc = .done m → m.bare.stop.isStop 0 = .ok true
  busy : ∀ m, s.proc = .queried m ∨ s.proc = .writing m → ∃ k m₀ sel, Course env k m₀ ∧ m₀.stop.isStop 0 = .ok false ∧
    query env m₀ = .ok (m.bare, sel) ∧ m.stop.crit ≠ .timeLimit ∧ s.asked.length ≤ k + 1 + s.crashes ∧
    (∀ x ∈ s.asked, ∃ i, i ≤ k ∧ Asks env x i) ∧ Covers env s.asked (k + 1) ∧
    (s.proc = .queried m → Saved env k s.disk)
  failed : ∀ e, s.proc = .failed e → Fails env e ∧ ∃ k, Saved env k s.disk ∧ s.asked.length ≤ k + s.crashes ∧ (∀ x ∈ s.asked, ∃ i, i ≤ k ∧ Asks env x i) ∧
    Covers env s.asked k

theorem inv_start (env : Env κ ε σ) : Inv env (⟨.down, .missing, [], 0⟩ : Sys κ σ) where
  down _ := ⟨0, rfl, by simp, by simp, [], List.Sublist.refl _, rfl, by simp⟩
  head _ h := by rcases h with h | h <;> cases h
  done _ h := by cases h
  busy _ h := by rcases h with h | h <;> cases h
  failed _ h := by cases h

theorem inv_crash {env : Env κ ε σ} {s : Sys κ σ} (h : Inv env s) (hw : ∀ m, s.proc ≠ .writing m) : Inv env (step env s .crash) where
  down _ := by
    rcases hp : s.proc with _ | m | m | m | m | e
    · obtain ⟨k, h1, h2, h3, h4⟩ := h.down hp
      exact ⟨k, h1, by simp only [step]; omega, h3, h4⟩
    · obtain ⟨k, -, -, h1, h2, h3, h4⟩ := h.head m (Or.inl hp)
      exact ⟨k, h1, by simp only [step]; omega, h3, h4⟩
    · obtain ⟨k, m₀, sel, -, -, -, -, h2, h3, h4, h1⟩ := h.busy m (Or.inl hp)
      exact ⟨k, h1 hp, by simp only [step]; omega, h3, h4.less (by omega)⟩
    · exact absurd hp (hw m)
    · obtain ⟨k, -, -, h1, h2, h3, h4⟩ := h.head m (Or.inr hp)
      exact ⟨k, h1, by simp only [step]; omega, h3, h4⟩
    · obtain ⟨-, k, h1, h2, h3, h4⟩ := h.failed e hp
      exact ⟨k, h1, by simp only [step]; omega, h3, h4⟩
  head _ h := by rcases h with h | h <;> cases h
  done _ h := by cases h
  busy _ h := by rcases h with h | h <;> cases h
  failed _ h := by cases h

theorem launch_course {env : Env κ ε σ} (hn : env.name ≠ some "time_limit") {k : Nat} {disk : File κ σ} (hd : Saved env k disk) {now : ℚ}
    {m : Mem κ σ} (h : launch env disk now = .ok m) : Course env k m.bare ∧ m.stop.crit ≠ .timeLimit := by
  unfold launch at h
  cases hs : Stop.new env.name env.value now with
  | error e => simp [hs] at h
  | ok stop =>
    simp only [hs] at h
    cases disk with
    | missing =>
      simp only [Except.ok.injEq] at h
      subst h
      cases hd
      exact ⟨.start hs, new_crit hs hn⟩
    | broken => cases hd
    | full sv =>
      obtain ⟨j, m₀, m', sel, rfl, hc, hst, hq, rfl⟩ := hd
      have on := (hc.on.query hq).1
      simp only [on.workspace] at h
      cases hu : stop.update env.ops m'.saver with
      | error e => simp [hu] at h
      | ok stop' =>
        simp only [hu, Except.ok.injEq] at h
        subst h
        have hu' : m'.stop.update env.ops m'.saver = .ok (bare stop') := by
          rw [(query_eq hq).2.2.2.2, hc.stop_eq hs, hu]; rfl
        have hnext := Course.next hc hst hq hu'
        exact ⟨hnext, by simpa only [(update_crit hu).1] using new_crit hs hn⟩

theorem launch_fails {env : Env κ ε σ} {k : Nat} {disk : File κ σ} (hd : Saved env k disk) {now : ℚ} {e : PyErr}
    (h : launch env disk now = .error e) : Fails env e := by
  unfold launch at h
  cases hs : Stop.new env.name env.value now with
  | error e' =>
    simp only [hs, Except.error.injEq] at h
    subst h
    exact .new hs
  | ok stop =>
    simp only [hs] at h
    cases disk with
    | missing => simp at h
    | broken => cases hd
    | full sv =>
      obtain ⟨j, m₀, m', sel, rfl, hc, hst, hq, rfl⟩ := hd
      have on := (hc.on.query hq).1
      simp only [on.workspace] at h
      cases hu : stop.update env.ops m'.saver with
      | ok stop' => simp [hu] at h
      | error e' =>
        simp only [hu, Except.error.injEq] at h
        subst h
        exact .update hc hst hq (by rw [(query_eq hq).2.2.2.2, hc.stop_eq hs, hu]; rfl)

theorem inv_tick {env : Env κ ε σ} (hn : env.name ≠ some "time_limit") {s : Sys κ σ} (h : Inv env s) (now : ℚ) : Inv env (tick env s now) := by
  rcases hp : s.proc with _ | m | m | m | m | e
  · -- start
    obtain ⟨k, h1, h2, h3, h4⟩ := h.down hp
    simp only [tick, hp]
    cases hl : launch env s.disk now with
    | error e =>
      exact ⟨fun h => (nomatch h), fun _ h => (nomatch h), fun _ h => (nomatch h), fun _ h => (nomatch h), fun _ h => by cases h; exact ⟨launch_fails h1 hl, k, h1, h2, h3, h4⟩⟩
    | ok m =>
      obtain ⟨c1, c2⟩ := launch_course hn h1 hl
      refine ⟨fun h => (nomatch h), fun m' h => ?_, fun _ h => (nomatch h), fun _ h => ?_, fun _ h => (nomatch h)⟩
      · rcases h with h | h
        · cases h; exact ⟨k, c1, c2, h1, h2, h3, h4⟩
        · cases h
      · rcases h with h | h <;> cases h
  · -- head
    obtain ⟨k, c, hc, h1, h2, h3, h4⟩ := h.head m (Or.inl hp)
    have hst : m.bare.stop.isStop 0 = m.stop.isStop now := isStop_bare hc 0 now
    simp only [tick, hp]
    rcases hs : m.stop.isStop now with e | b
    · exact ⟨fun h => (nomatch h), fun _ h => (nomatch h), fun _ h => (nomatch h), fun _ h => (nomatch h), fun _ h => by cases h; exact ⟨Fails.isStop c (hst.trans hs), k, h1, h2, h3, h4⟩⟩
    · rw [hs] at hst
      cases b with
      | true =>
        refine ⟨fun h => (nomatch h), fun m' h => ?_, fun m' h => ?_, fun _ h => ?_, fun _ h => (nomatch h)⟩
        · rcases h with h | h
          · cases h
          · cases h; exact ⟨k, c, hc, h1, h2, h3, h4⟩
        · cases h; exact hst
        · rcases h with h | h <;> cases h
      | false =>
        simp only
        cases hq : query env m with
        | error e =>
          exact ⟨fun h => (nomatch h), fun _ h => (nomatch h), fun _ h => (nomatch h), fun _ h => (nomatch h), fun _ h => by cases h; exact ⟨Fails.query c hst (by rw [query_bare, hq]; rfl), k, h1, h2, h3, h4⟩⟩
        | ok p =>
          obtain ⟨m', sel⟩ := p
          have hq' : query env m.bare = .ok (m'.bare, sel) := by rw [query_bare, hq]; rfl
          have ask : Asks env sel k := ⟨_, _, c, hst, hq'⟩
          refine ⟨fun h => (nomatch h), fun m'' h => ?_, fun m'' h => (nomatch h), fun m'' h => ?_, fun _ h => (nomatch h)⟩
          · rcases h with h | h <;> cases h
          · rcases h with h | h
            · cases h
              refine ⟨k, m.bare, sel, c, hst, hq', ?_, by simp only [List.length_append, List.length_singleton]; omega, ?_, ?_, fun _ => h1⟩
              · rw [(query_eq hq).2.2.2.2]; exact hc
              · intro x hx
                rcases List.mem_append.1 hx with hx | hx
                · exact h3 x hx
                · rw [List.mem_singleton.1 hx]; exact ⟨k, le_refl _, ask⟩
              · exact h4.more ask
            · cases h
  · -- queried
    obtain ⟨k, m₀, sel, c, hst, hq, hc, h2, h3, h4, h1⟩ := h.busy m (Or.inl hp)
    simp only [tick, hp]
    refine ⟨fun h => (nomatch h), fun m'' h => ?_, fun m'' h => (nomatch h), fun m'' h => ?_, fun _ h => (nomatch h)⟩
    · rcases h with h | h <;> cases h
    · rcases h with h | h
      · cases h
      · cases h; exact ⟨k, m₀, sel, c, hst, hq, hc, h2, h3, h4, fun h => (nomatch h)⟩
  · -- writing
    obtain ⟨k, m₀, sel, c, hst, hq, hc, h2, h3, h4, -⟩ := h.busy m (Or.inr hp)
    have sv : Saved env (k + 1) (.full m.saver) := ⟨k, m₀, m.bare, sel, rfl, c, hst, hq, rfl⟩
    have h3' : ∀ x ∈ s.asked, ∃ i, i ≤ k + 1 ∧ Asks env x i := fun x hx => by
      obtain ⟨i, hi, ha⟩ := h3 x hx
      exact ⟨i, by omega, ha⟩
    simp only [tick, hp]
    cases hu : m.stop.update env.ops m.saver with
    | error e =>
      exact ⟨fun h => (nomatch h), fun _ h => (nomatch h), fun _ h => (nomatch h), fun _ h => (nomatch h), fun _ h => by
        cases h
        exact ⟨Fails.update c hst hq (by show (bare m.stop).update env.ops m.saver = _; rw [update_bare, hu]; rfl), k + 1, sv, h2, h3', h4⟩⟩
    | ok stop' =>
      have hu' : m.bare.stop.update env.ops m.bare.saver = .ok (bare stop') := by
        show (bare m.stop).update env.ops m.saver = _
        rw [update_bare, hu]; rfl
      refine ⟨fun h => (nomatch h), fun m'' h => ?_, fun m'' h => (nomatch h), fun m'' h => ?_, fun _ h => (nomatch h)⟩
      · rcases h with h | h
        · cases h
          have hnext := Course.next c hst hq hu'
          exact ⟨k + 1, hnext, by simpa only [(update_crit hu).1] using hc, sv, h2, h3', h4⟩
        · cases h
      · rcases h with h | h <;> cases h
  · -- done
    have e1 : tick env s now = s := by
      unfold tick; rw [hp]; cases s; simp_all
    rw [e1]; exact h
  · have e1 : tick env s now = s := by
      unfold tick; rw [hp]; cases s; simp_all
    rw [e1]; exact h

theorem run_snoc (env : Env κ ε σ) (events : List Event) (e : Event) : run env (events ++ [e]) = step env (run env events) e := by
  simp [run, List.foldl_append]

theorem inv_run {env : Env κ ε σ} (hn : env.name ≠ some "time_limit") {events : List Event} (hsafe : Spec.SafeCrashes env events) :
    Inv env (run env events) := by
  induction events using List.reverseRecOn with
  | nil => exact inv_start env
  | append_singleton es e ih =>
    have := ih (fun pre post h m => hsafe pre (post ++ [e]) (by rw [h]; simp) m)
    rw [run_snoc]
    cases e with
    | tick now => exact inv_tick hn this now
    | crash => exact inv_crash this (fun m => hsafe es [] rfl m)

theorem never_safe {env : Env κ ε σ} {events : List Event} (h : Spec.NeverKilled events) : Spec.SafeCrashes env events := by
  intro pre post he
  exact absurd (by rw [he]; simp) h

/-! ## The claims -/

/-- **C98**: two sessions that come to an end end with the same sets and the same record, however often each of them was killed (not while
writing the file) and resumed. -/
theorem C98_same_end_partial {env : Env κ ε σ} (hn : env.name ≠ some "time_limit") {events events' : List Event}
    (h : Spec.SafeCrashes env events) (h' : Spec.SafeCrashes env events') {m m' : Mem κ σ} (hd : (run env events).proc = .done m)
    (hd' : (run env events').proc = .done m') : m.L = m'.L ∧ m.U = m'.U ∧ m.saver = m'.saver := by
  have i1 := inv_run hn h
  have i2 := inv_run hn h'
  obtain ⟨k, c, -⟩ := i1.head m (Or.inr hd)
  obtain ⟨k', c', -⟩ := i2.head m' (Or.inr hd')
  have e1 := c.end c' (by rw [i1.done m hd]; simp)
  have e2 := c'.end c (by rw [i2.done m' hd']; simp)
  have : k = k' := by omega
  subst this
  have := c.det c'
  have hL := congrArg Mem.L this
  have hU := congrArg Mem.U this
  have hS := congrArg Mem.saver this
  exact ⟨hL, hU, hS⟩

/-! ### Failures and the end -/

theorem run_append (env : Env κ ε σ) (a b : List Event) : run env (a ++ b) = b.foldl (step env) (run env a) := by
  simp [run, List.foldl_append]

/-- The course of a session is what happens without interruption. -/
theorem Course.reached {env : Env κ ε σ} (hn : env.name ≠ some "time_limit") {k : Nat} {m : Mem κ σ} (h : Course env k m) :
    ∃ events m', Spec.NeverKilled events ∧ (run env events).proc = .head m' ∧ m'.bare = m ∧ m'.stop.crit ≠ .timeLimit := by
  induction h with
  | @start now stop h =>
    refine ⟨[.tick now], ⟨env.initL, env.initU, StateIO.new env.initL env.initU, stop⟩, by simp [Spec.NeverKilled], ?_, rfl, new_crit h hn⟩
    simp [run, step, tick, launch, h]
  | @next k m m₁ sel stop _ hs hq hu ih =>
    obtain ⟨es, m', hk, hp, rfl, hc⟩ := ih
    have hs' : m'.stop.isStop 0 = .ok false := by rw [← isStop_bare hc 0 0]; exact hs
    rw [query_bare] at hq
    cases hq' : query env m' with
    | error e => rw [hq'] at hq; cases hq
    | ok p =>
      obtain ⟨m₂, sel'⟩ := p
      rw [hq'] at hq
      cases hq
      have hu' : (bare m₂.stop).update env.ops m₂.saver = .ok stop := hu
      rw [update_bare] at hu'
      cases hu'' : m₂.stop.update env.ops m₂.saver with
      | error e => rw [hu''] at hu'; cases hu'
      | ok stop' =>
        rw [hu''] at hu'
        cases hu'
        refine ⟨es ++ [.tick 0, .tick 0, .tick 0], { m₂ with stop := stop' }, ?_, ?_, rfl, ?_⟩
        · intro hmem
          rcases List.mem_append.1 hmem with h | h
          · exact hk h
          · simp at h
        · rw [run_append]
          simp [step, tick, hp, hs', hq', hu'']
        · show stop'.crit ≠ _
          rw [(update_crit hu'').1, (query_eq hq').2.2.2.2]; exact hc

/-- **C98**: an exception in a resumed session is one that the session without interruption raises, too. -/
theorem C98_same_failure_partial {env : Env κ ε σ} (hn : env.name ≠ some "time_limit") {events : List Event}
    (h : Spec.SafeCrashes env events) {e : PyErr} (hf : (run env events).proc = .failed e) :
    ∃ events', Spec.NeverKilled events' ∧ (run env events').proc = .failed e := by
  obtain ⟨hf, -⟩ := (inv_run hn h).failed e hf
  have reach : ∀ {k : Nat} {m : Mem κ σ}, Course env k m → ∃ events m', Spec.NeverKilled events ∧ (run env events).proc = .head m' ∧
      m'.bare = m ∧ m'.stop.isStop 0 = m.stop.isStop 0 := by
    intro k m hc
    obtain ⟨es, m', hk, hp, rfl, hc'⟩ := hc.reached hn
    exact ⟨es, m', hk, hp, rfl, (isStop_bare hc' 0 0).symm⟩
  have more : ∀ {es : List Event} (l : List ℚ), Spec.NeverKilled es → Spec.NeverKilled (es ++ l.map Event.tick) := by
    intro es l hk hmem
    rcases List.mem_append.1 hmem with h | h
    · exact hk h
    · simp at h
  cases hf with
  | @new now h => exact ⟨[.tick now], by simp [Spec.NeverKilled], by simp [run, step, tick, launch, h]⟩
  | isStop hc hs =>
    obtain ⟨es, m', hk, hp, rfl, hst⟩ := reach hc
    refine ⟨es ++ [0].map Event.tick, more _ hk, ?_⟩
    rw [run_append]
    simp [step, tick, hp, hst.trans hs]
  | query hc hs hq =>
    obtain ⟨es, m', hk, hp, rfl, hst⟩ := reach hc
    refine ⟨es ++ [0].map Event.tick, more _ hk, ?_⟩
    rw [query_bare] at hq
    cases hq' : query env m' with
    | ok p => rw [hq'] at hq; cases hq
    | error e' =>
      rw [hq'] at hq
      cases hq
      rw [run_append]
      simp [step, tick, hp, hst.trans hs, hq']
  | update hc hs hq hu =>
    obtain ⟨es, m', hk, hp, rfl, hst⟩ := reach hc
    refine ⟨es ++ [0, 0, 0].map Event.tick, more _ hk, ?_⟩
    rw [query_bare] at hq
    cases hq' : query env m' with
    | error e' => rw [hq'] at hq; cases hq
    | ok p =>
      obtain ⟨m₂, sel⟩ := p
      rw [hq'] at hq
      cases hq
      have hu' : (bare m₂.stop).update env.ops m₂.saver = .error e := hu
      rw [update_bare] at hu'
      cases hu'' : m₂.stop.update env.ops m₂.saver with
      | ok stop' => rw [hu''] at hu'; cases hu'
      | error e' =>
        rw [hu''] at hu'
        cases hu'
        rw [run_append]
        simp [step, tick, hp, hst.trans hs, hq', hu'']

theorem Course.before {env : Env κ ε σ} {k : Nat} {m : Mem κ σ} (h : Course env k m) : ∀ j < k, ∃ a b sel stop, Course env j a ∧
    a.stop.isStop 0 = .ok false ∧ query env a = .ok (b, sel) ∧ b.stop.update env.ops b.saver = .ok stop := by
  induction h with
  | start _ => intro j hj; omega
  | @next k m m' sel stop h hs hq hu ih =>
    intro j hj
    rcases Nat.lt_succ_iff_lt_or_eq.1 hj with hj | rfl
    · exact ih j hj
    · exact ⟨m, m', sel, stop, h, hs, hq, hu⟩

/-- A session that ends has no reason to fail. -/
theorem Course.no_failure {env : Env κ ε σ} {k : Nat} {m : Mem κ σ} (h : Course env k m) (hm : m.stop.isStop 0 = .ok true) {e : PyErr}
    (hf : Fails env e) : False := by
  have key : ∀ {j : Nat} {a : Mem κ σ}, Course env j a → a.stop.isStop 0 ≠ .ok true → ∃ b sel stop, a.stop.isStop 0 = .ok false ∧
      Resume.query env a = .ok (b, sel) ∧ b.stop.update env.ops b.saver = .ok stop := by
    intro j a ha hne
    have hj : j ≤ k := h.end ha (by rw [hm]; simp)
    rcases Nat.lt_or_eq_of_le hj with hj | rfl
    · obtain ⟨a', b, sel, stop, h1, h2, h3, h4⟩ := h.before j hj
      rw [← ha.det h1] at h2 h3
      exact ⟨b, sel, stop, h2, h3, h4⟩
    · rw [← h.det ha] at hne
      exact absurd hm hne
  cases hf with
  | new hn =>
    obtain ⟨now, stop, hs⟩ := h.new
    unfold Stop.new at hn hs
    cases hp : Stop.parse env.name with
    | error e' => rw [hp] at hs; cases hs
    | ok c =>
      rw [hp] at hn hs
      cases c <;> simp only at hn hs
      · cases hn
      · cases hv : env.value with
        | none => rw [hv] at hs; cases hs
        | some v => cases v <;> (rw [hv] at hn; cases hn)
      all_goals cases hn
  | isStop hc hs =>
    obtain ⟨_, _, _, h1, -⟩ := key hc (by rw [hs]; simp)
    rw [hs] at h1; cases h1
  | query hc hs hq =>
    obtain ⟨_, _, _, -, h1, -⟩ := key hc (by rw [hs]; simp)
    rw [hq] at h1; cases h1
  | update hc hs hq hu =>
    obtain ⟨_, _, _, -, h1, h2⟩ := key hc (by rw [hs]; simp)
    rw [hq] at h1; cases h1
    rw [hu] at h2; cases h2

/-- How many steps are left at most, in a session of `K` iterations. -/
def left (K : Nat) (s : Sys κ σ) : Nat :=
  match s.proc with
  | .down => match s.disk with
    | .full sv => 3 * (K - sv.states.length) + 2
    | _ => 3 * K + 2
  | .head m => 3 * (K - m.saver.states.length) + 1
  | .queried m => 3 * (K + 1 - m.saver.states.length)
  | .writing m => 3 * (K + 1 - m.saver.states.length) - 1
  | .done _ => 0
  | .failed _ => 0

theorem Saved.length {env : Env κ ε σ} {k : Nat} {sv : StateIO κ σ} (h : Saved env k (.full sv)) : sv.states.length = k := by
  obtain ⟨j, m, m', sel, rfl, hc, -, hq, rfl⟩ := h
  exact (hc.on.query hq).1.len

theorem tick_left {env : Env κ ε σ} (hn : env.name ≠ some "time_limit") {K : Nat} {mK : Mem κ σ} (hK : Course env K mK)
    (hend : mK.stop.isStop 0 = .ok true) {s : Sys κ σ} (h : Inv env s) (now : ℚ) :
    (∃ m, s.proc = .done m) ∨ left K (tick env s now) < left K s := by
  have hi := inv_tick hn h now
  rcases hp : s.proc with _ | m | m | m | m | e
  · right
    obtain ⟨k, h1, -⟩ := h.down hp
    cases hl : launch env s.disk now with
    | error e => exact (hK.no_failure hend (launch_fails h1 hl)).elim
    | ok m =>
      have hlen := (launch_course hn h1 hl).1.on.len
      have hlen' : m.saver.states.length = k := hlen
      simp only [tick, hp, hl, left]
      cases hdisk : s.disk with
      | missing => simp only; omega
      | broken => rw [hdisk] at h1; cases h1
      | full sv =>
        rw [hdisk] at h1
        simp only [h1.length, hlen']
        omega
  · right
    obtain ⟨k, c, hc, -⟩ := h.head m (Or.inl hp)
    have hst : m.bare.stop.isStop 0 = m.stop.isStop now := isStop_bare hc 0 now
    have hlen : m.saver.states.length = k := c.on.len
    have hk : k ≤ K := hK.end c (by rw [hend]; simp)
    rcases hs : m.stop.isStop now with e | b
    · exact (hK.no_failure hend (Fails.isStop c (hst.trans hs))).elim
    · cases b with
      | true => simp only [tick, hp, hs, left]; omega
      | false =>
        cases hq : query env m with
        | error e => exact (hK.no_failure hend (Fails.query c (hst.trans hs) (by rw [query_bare, hq]; rfl))).elim
        | ok p =>
          obtain ⟨m', sel⟩ := p
          have hk' : k < K := by
            rcases Nat.lt_or_eq_of_le hk with h | rfl
            · exact h
            · have := hK.det c
              rw [this, hst, hs] at hend
              cases hend
          have hl : m'.saver.states.length = k + 1 := by
            have hq' : query env m.bare = .ok (m'.bare, sel) := by rw [query_bare, hq]; rfl
            exact (c.on.query hq').1.len
          simp only [tick, hp, hs, hq, left]
          omega
  · right
    obtain ⟨k, m₀, sel, c, hst, hq, -⟩ := h.busy m (Or.inl hp)
    have hl : m.saver.states.length = k + 1 := (c.on.query hq).1.len
    have hk : k ≤ K := hK.end c (by rw [hend]; simp)
    have hk' : k < K := by
      rcases Nat.lt_or_eq_of_le hk with h | rfl
      · exact h
      · rw [hK.det c, hst] at hend; cases hend
    simp only [tick, hp, left]
    omega
  · right
    obtain ⟨k, m₀, sel, c, hst, hq, -⟩ := h.busy m (Or.inr hp)
    have hl : m.saver.states.length = k + 1 := (c.on.query hq).1.len
    have hk : k ≤ K := hK.end c (by rw [hend]; simp)
    have hk' : k < K := by
      rcases Nat.lt_or_eq_of_le hk with h | rfl
      · exact h
      · rw [hK.det c, hst] at hend; cases hend
    cases hu : m.stop.update env.ops m.saver with
    | error e =>
      exact (hK.no_failure hend (Fails.update c hst hq (by show (bare m.stop).update env.ops m.saver = _; rw [update_bare, hu]; rfl))).elim
    | ok stop' =>
      simp only [tick, hp, hu, left, hl]
      omega
  · exact Or.inl ⟨m, rfl⟩
  · exact (hK.no_failure hend (h.failed e hp).1).elim

theorem ticks_done {env : Env κ ε σ} (hn : env.name ≠ some "time_limit") {K : Nat} {mK : Mem κ σ} (hK : Course env K mK)
    (hend : mK.stop.isStop 0 = .ok true) : ∀ (times : List ℚ) (s : Sys κ σ), Inv env s → left K s ≤ times.length →
      ∃ m, ((times.map Event.tick).foldl (step env) s).proc = .done m
  | [], s, h, hl => by
    rcases tick_left hn hK hend h 0 with ⟨m, hd⟩ | hlt
    · exact ⟨m, hd⟩
    · simp only [List.length_nil] at hl; omega
  | t :: ts, s, h, hl => by
    rcases tick_left hn hK hend h t with ⟨m, hd⟩ | hlt
    · have hstay : ∀ l : List ℚ, ((l.map Event.tick).foldl (step env) s) = s := by
        intro l
        induction l with
        | nil => rfl
        | cons a l ih =>
          have : step env s (.tick a) = s := by
            show tick env s a = s
            unfold tick; rw [hd]; cases s; simp_all
          rw [List.map_cons, List.foldl_cons, this, ih]
      exact ⟨m, by rw [hstay]; exact hd⟩
    · rw [List.map_cons, List.foldl_cons]
      exact ticks_done hn hK hend ts _ (inv_tick hn h t) (by
        simp only [List.length_cons] at hl
        show left K (tick env s t) ≤ _
        omega)

/-- **C98**: if the session ends without interruption, so does the one that was killed (not while writing the file) and resumed, and with the
same sets and the same record: it only has to be left alone for long enough. -/
theorem C98_resumed_ends_partial {env : Env κ ε σ} (hn : env.name ≠ some "time_limit") {plain : List Event} (hplain : Spec.NeverKilled plain)
    {m : Mem κ σ} (hd : (run env plain).proc = .done m) :
    ∃ N, ∀ events, Spec.SafeCrashes env events → ∀ times : List ℚ, N ≤ times.length →
      ∃ m', (run env (events ++ times.map Event.tick)).proc = .done m' ∧ m'.L = m.L ∧ m'.U = m.U ∧ m'.saver = m.saver := by
  have hi := inv_run hn (never_safe hplain)
  obtain ⟨K, c, -⟩ := hi.head m (Or.inr hd)
  have hend := hi.done m hd
  refine ⟨3 * K + 3, fun events hs times ht => ?_⟩
  have hinv := inv_run hn hs
  have hl : left K (run env events) ≤ times.length := by
    refine le_trans ?_ ht
    unfold left
    split
    · split <;> omega
    all_goals omega
  obtain ⟨m', hm'⟩ := ticks_done hn c hend times _ hinv hl
  rw [← run_append] at hm'
  have hs' : Spec.SafeCrashes env (events ++ times.map Event.tick) := by
    intro pre post he m''
    rcases List.append_eq_append_iff.1 he with ⟨a, h1, h2⟩ | ⟨a, h1, h2⟩
    · have : Event.crash ∈ times.map Event.tick := by rw [h2]; simp
      simp at this
    · cases a with
      | nil =>
        have : Event.crash ∈ times.map Event.tick := by
          simp only [List.nil_append] at h2
          rw [← h2]; simp
        simp at this
      | cons x a =>
        simp only [List.cons_append, List.cons.injEq] at h2
        obtain ⟨rfl, -⟩ := h2
        exact hs pre a h1 m''
  exact ⟨m', hm', C98_same_end_partial hn hs' (never_safe hplain) hm' hd⟩

/-! ### The queries -/

theorem selections_snoc {s s' : StateIO κ σ} {e : Entry σ} {x : σ} (h : s'.states = s.states ++ [e])
    (he : StateIO.entryGet e "select_index" = .ok (.sel x)) : Spec.selections s' = Spec.selections s ++ [.sel x] := by
  unfold Spec.selections
  rw [h, List.filterMap_append]
  congr 1
  rw [List.filterMap_cons, he]
  rfl

theorem Course.selections {env : Env κ ε σ} {k : Nat} {m : Mem κ σ} (h : Course env k m) :
    (Spec.selections m.saver).length = k ∧ ∀ i v, (Spec.selections m.saver)[i]? = some v → ∃ x, v = .sel x ∧ Asks env x i := by
  induction h with
  | start _ => exact ⟨rfl, fun i v h => by simp [Spec.selections, StateIO.new] at h⟩
  | @next k m m' sel stop h hs hq hu ih =>
    obtain ⟨e, h1, h2⟩ := (h.on.query hq).2
    have hsel : Spec.selections ({ m' with stop := stop } : Mem κ σ).saver = Spec.selections m.saver ++ [.sel sel] := selections_snoc h1 h2
    rw [hsel]
    refine ⟨by rw [List.length_append, ih.1]; rfl, fun i v hv => ?_⟩
    rcases Nat.lt_trichotomy i k with hi | rfl | hi
    · rw [List.getElem?_append_left (by omega)] at hv
      exact ih.2 i v hv
    · rw [List.getElem?_append_right (by omega), ih.1] at hv
      simp only [Nat.sub_self, List.getElem?_cons_zero, Option.some.injEq] at hv
      exact ⟨sel, hv.symm, m, m', h, hs, hq⟩
    · rw [List.getElem?_eq_none (by simp only [List.length_append, List.length_singleton]; omega)] at hv
      cases hv

theorem Asks.det {env : Env κ ε σ} {x y : σ} {i : Nat} (h : Asks env x i) (h' : Asks env y i) : x = y := by
  obtain ⟨m, m', h1, -, h2⟩ := h
  obtain ⟨n, n', h3, -, h4⟩ := h'
  rw [h1.det h3, h4] at h2
  cases h2
  rfl

/-- **C98**: an interruption costs one query at most: at the end the oracle has been asked the recorded queries, in this order, and besides them
only some of them again, at most one for every time the session was killed. -/
theorem C98_queries_partial {env : Env κ ε σ} (hn : env.name ≠ some "time_limit") {events : List Event}
    (h : Spec.SafeCrashes env events) {m : Mem κ σ} (hd : (run env events).proc = .done m) :
    (Spec.selections m.saver).Sublist ((run env events).asked.map Obj.sel) ∧
      (∀ x ∈ (run env events).asked, Obj.sel x ∈ Spec.selections m.saver) ∧
      (run env events).asked.length ≤ m.saver.states.length + (run env events).crashes := by
  have hi := inv_run hn h
  obtain ⟨k, c, -, -, h1, h2, l, h3, h4, h5⟩ := hi.head m (Or.inr hd)
  have hend := hi.done m hd
  obtain ⟨s1, s2⟩ := c.selections
  have s1' : (Spec.selections m.saver).length = k := s1
  have hl : m.saver.states.length = k := c.on.len
  refine ⟨?_, fun x hx => ?_, by rw [hl]; exact h1⟩
  · have : Spec.selections m.saver = l.map Obj.sel := by
      apply List.ext_getElem?
      intro i
      rcases Nat.lt_or_ge i k with hik | hik
      · have e1 : (Spec.selections m.saver)[i]? = some ((Spec.selections m.saver)[i]'(by omega)) := List.getElem?_eq_getElem _
        obtain ⟨x, hx, ha⟩ := s2 i _ e1
        have e2 : l[i]? = some (l[i]'(by omega)) := List.getElem?_eq_getElem _
        rw [e1, List.getElem?_map, e2, hx, (h5 i _ e2).det ha]
        rfl
      · rw [List.getElem?_eq_none (by omega), List.getElem?_eq_none (by rw [List.length_map]; omega)]
    rw [this]
    exact h3.map _
  · obtain ⟨i, hik, ha⟩ := h2 x hx
    have hik' : i < k := by
      rcases Nat.lt_or_eq_of_le hik with h | rfl
      · exact h
      · obtain ⟨a, b, ca, hs, -⟩ := ha
        rw [c.det ca, hs] at hend; cases hend
    have e1 : (Spec.selections m.saver)[i]? = some ((Spec.selections m.saver)[i]'(by omega)) := List.getElem?_eq_getElem _
    obtain ⟨y, hy, hb⟩ := s2 i _ e1
    rw [ha.det hb, ← hy]
    exact List.mem_of_getElem? e1

theorem writing_broken (env : Env κ ε σ) (events : List Event) {m : Mem κ σ} (h : (run env events).proc = .writing m) :
    (run env events).disk = .broken := by
  induction events using List.reverseRecOn with
  | nil => cases h
  | append_singleton es e _ =>
    rw [run_snoc] at h ⊢
    cases e with
    | crash => cases h
    | tick now =>
      simp only [step] at h ⊢
      generalize run env es = s at h ⊢
      rcases hp : s.proc with _ | a | a | a | a | e
      · simp only [tick, hp] at h
        split at h <;> cases h
      · simp only [tick, hp] at h
        split at h
        · cases h
        · cases h
        · split at h <;> cases h
      · simp only [tick, hp]
      · simp only [tick, hp] at h
        split at h <;> cases h
      · simp only [tick, hp] at h; cases h
      · simp only [tick, hp] at h; cases h

/-- **C98**, fails in general: if the process is killed while the file is being written, the record is lost: nothing that happens later
brings the session back. -/
theorem C98_killed_while_saving_violation {env : Env κ ε σ} {events : List Event} {m : Mem κ σ} (h : (run env events).proc = .writing m)
    (later : List Event) :
    (run env (events ++ .crash :: later)).disk = .broken ∧
      ((run env (events ++ .crash :: later)).proc = .down ∨ ∃ e, (run env (events ++ .crash :: later)).proc = .failed e) := by
  rw [run_append, List.foldl_cons]
  have : ∀ (later : List Event) (s : Sys κ σ), s.disk = .broken → (s.proc = .down ∨ ∃ e, s.proc = .failed e) →
      (later.foldl (step env) s).disk = .broken ∧
        ((later.foldl (step env) s).proc = .down ∨ ∃ e, (later.foldl (step env) s).proc = .failed e) := by
    intro later
    induction later with
    | nil => intro s h1 h2; exact ⟨h1, h2⟩
    | cons e later ih =>
      intro s h1 h2
      rw [List.foldl_cons]
      cases e with
      | crash => exact ih _ h1 (Or.inl rfl)
      | tick now =>
        have hf : (step env s (.tick now)).disk = .broken ∧ ∃ e, (step env s (.tick now)).proc = .failed e := by
          rcases h2 with h2 | ⟨e, h2⟩
          · simp only [step, tick, h2, h1]
            cases hs : Stop.new env.name env.value now with
            | error e => exact ⟨by simp [launch, hs, h1], e, by simp [launch, hs]⟩
            | ok stop => exact ⟨by simp [launch, hs, h1], .unpicklingError, by simp [launch, hs]⟩
          · simp only [step, tick, h2, h1]
            exact ⟨trivial, e, rfl⟩
        exact ih _ hf.1 (Or.inr hf.2)
  exact this later _ (writing_broken env events h) (Or.inl rfl)

/-- **C98**, fails for `time_limit`: a resumed session has its whole time again, however much time had passed before. -/
theorem C98_time_limit_violation {env : Env κ ε σ} (hn : env.name = some "time_limit") {v : ℚ} (hv : env.value = some (.float v))
    {disk : File κ σ} {now : ℚ} {m : Mem κ σ} (h : launch env disk now = .ok m) (hu : m.stop.unlabel ≠ 0) (later : ℚ) (hl : later - now < v) :
    m.stop.isStop later = .ok false := by
  have key : m.stop.crit = .timeLimit ∧ m.stop.startTime = now ∧ m.stop.value = some v := by
    unfold launch at h
    have hs : Stop.new env.name env.value now = .ok ⟨.timeLimit, some v, some v, now, 0, 0, 100, 0⟩ := by
      rw [hn, hv]; rfl
    simp only [hs] at h
    cases disk with
    | missing => simp only [Except.ok.injEq] at h; subst h; exact ⟨rfl, rfl, rfl⟩
    | broken => cases h
    | full sv =>
      simp only at h
      split at h
      · cases h
      · split at h
        · cases h
        · rename_i hu'
          simp only [Except.ok.injEq] at h
          subst h
          obtain ⟨a, b, c⟩ := update_crit hu'
          exact ⟨a, b, c⟩
  unfold Stop.isStop
  rw [if_neg hu, key.1, key.2.2, key.2.1]
  simp only [Except.ok.injEq, decide_eq_false_iff_not, not_le]
  exact hl

/-! ### Example: always ask for the first unlabelled example, three queries -/

def demo : Env IC Val (List Val) where
  ops := icOps
  strat _ U := .ok (U.inner.take 1)
  cost _ := some [2]
  perf L _ := .arr [L.inner.length]
  initL := IC.mk' [⟨false, .int 0⟩]
  initU := IC.mk' [⟨false, .int 1⟩, ⟨false, .int 2⟩, ⟨false, .int 3⟩, ⟨false, .int 4⟩]
  name := some "num_of_queries"
  value := some (.int 3)

/-- The file after a process that ended. -/
def doneWith (s : Sys κ σ) : Option (StateIO κ σ × Nat × Nat) :=
  match s.proc with
  | .done m => some (m.saver, s.asked.length, s.crashes)
  | _ => none

/-- Without interruption, and killed twice: once after an unsaved query, once at the head of the loop. -/
example : (doneWith (run demo (List.replicate 11 (.tick 0)))).map (fun r => r.1.states.length) = some 3 ∧
    (doneWith (run demo (List.replicate 5 (.tick 0) ++ [.crash] ++ List.replicate 4 (.tick 1) ++ [.crash] ++ List.replicate 5 (.tick 5)))).map
      (fun r => (r.1.states.length, r.2)) = some (3, 4, 2) ∧
    (doneWith (run demo (List.replicate 11 (.tick 0)))).map (fun r => r.1) =
      (doneWith (run demo (List.replicate 5 (.tick 0) ++ [.crash] ++ List.replicate 4 (.tick 1) ++ [.crash] ++ List.replicate 5 (.tick 5)))).map
        (fun r => r.1) := by decide +kernel

/-- These interruptions are safe, and there are others. -/
def isWriting (s : Sys κ σ) : Bool :=
  match s.proc with
  | .writing _ => true
  | _ => false

example : isWriting (run demo (List.replicate 3 (.tick 0))) = true ∧ isWriting (run demo (List.replicate 6 (.tick 0))) = true := by decide +kernel

end Alipy.Resume
