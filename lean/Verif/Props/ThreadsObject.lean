import Verif.Model.ThreadsObject
import Mathlib.Tactic.Linarith

/-!
# C153: a recovered experiment is set up as the one that crashed
-/
namespace Alipy.ThreadsObject

variable {χ τ ι φ γ ρ σ : Type}

/-- What the workers of a run may have changed when the breakpoint is written: the flags and the savers. -/
def Ran (a b : Ace χ τ ι φ γ ρ σ) : Prop := ∃ alive saver, b = { a with alive := alive, saver := saver }

theorem takeLoaded_get : ∀ (ss : List σ) (ls : List (Option σ)), ls.length = ss.length → ∀ i : Nat, ∀ s l, ss[i]? = some s → ls[i]? = some l →
    (takeLoaded ss ls)[i]? = some (l.getD s)
  | s :: ss, l :: ls, h, 0, s', l', h1, h2 => by simp at h1 h2; subst h1 h2; simp [takeLoaded]
  | s :: ss, l :: ls, h, i + 1, s', l', h1, h2 => by
    simp only [takeLoaded, List.getElem?_cons_succ] at h1 h2 ⊢
    exact takeLoaded_get ss ls (by simpa using h) i s' l' h1 h2
  | [], _, _, _, _, _, h1, _ => by simp at h1
  | _ :: _, [], h, _, _, _, _, _ => by simp at h

theorem takeLoaded_length : ∀ (ss : List σ) (ls : List (Option σ)), (takeLoaded ss ls).length = ss.length
  | s :: ss, l :: ls => by simp [takeLoaded, takeLoaded_length ss ls]
  | [], [] => rfl
  | _ :: _, [] => rfl
  | [], _ :: _ => rfl

theorem mkSavers_get {env : Env τ ι φ σ} {path : String} : ∀ {i : Nat} {as bs : List τ} {cs ds : List ι} {ss : List σ},
    mkSavers env path i as bs cs ds = .ok ss → as.length = bs.length → bs.length = cs.length → cs.length = ds.length →
    ss.length = as.length ∧ ∀ (k : Nat) a b c d, as[k]? = some a → bs[k]? = some b → cs[k]? = some c → ds[k]? = some d →
      ∃ s, ss[k]? = some s ∧ env.mkSaver (i + k) a b c d path = .ok s
  | i, [], bs, cs, ds, ss, h, _, _, _ => by
    simp only [mkSavers, Except.ok.injEq] at h
    subst h
    simp
  | i, a :: as, [], _, _, _, _, h1, _, _ => by simp at h1
  | i, a :: as, b :: bs, [], _, _, _, _, h2, _ => by simp at h2
  | i, a :: as, b :: bs, c :: cs, [], _, _, _, _, h3 => by simp at h3
  | i, a :: as, b :: bs, c :: cs, d :: ds, ss, h, h1, h2, h3 => by
    simp only [mkSavers] at h
    cases hs : env.mkSaver i a b c d path with
    | error e => rw [hs] at h; cases h
    | ok s =>
      rw [hs] at h
      simp only at h
      cases hr : mkSavers env path (i + 1) as bs cs ds with
      | error e => rw [hr] at h; cases h
      | ok r =>
        rw [hr] at h
        simp only [Except.ok.injEq] at h
        subst h
        obtain ⟨h4, h5⟩ := mkSavers_get hr (by simpa using h1) (by simpa using h2) (by simpa using h3)
        refine ⟨by simp [h4], ?_⟩
        intro k a' b' c' d' ha hb hc hd
        cases k with
        | zero => simp at ha hb hc hd; subst ha hb hc hd; exact ⟨s, by simp, by simpa using hs⟩
        | succ k =>
          obtain ⟨s', h6, h7⟩ := h5 k a' b' c' d' (by simpa using ha) (by simpa using hb) (by simpa using hc) (by simpa using hd)
          exact ⟨s', by simpa using h6, by rw [show i + (k + 1) = i + 1 + k by omega]; exact h7⟩

/-- What a successful constructor has found and made. -/
theorem new_ok {env : Env τ ι φ σ} {args : Args χ τ ι φ ρ} {a : Ace χ τ ι φ γ ρ σ} (h : new env args = .ok a) :
    (args.train.length = args.test.length ∧ args.test.length = args.labelIdx.length ∧ args.labelIdx.length = args.unlabelIdx.length) ∧
    ∃ savers m f, mkSavers env (env.abspath args.path) 0 args.train args.test args.labelIdx args.unlabelIdx = .ok savers ∧
      maxThread args.labelIdx.length args.max = .ok m ∧ checkFunc env args.func = .ok f ∧
      a = { examples := args.examples, labels := args.labels, train := args.train, test := args.test, labelIdx := args.labelIdx
            unlabelIdx := args.unlabelIdx, refresh := args.refresh, path := env.abspath args.path, rounds := args.labelIdx.length, max := m
            func := f, glob := none, alive := List.replicate args.labelIdx.length false, saver := savers, recoverArr := none } := by
  unfold new at h
  split_ifs at h with hlen
  refine ⟨hlen, ?_⟩
  cases hs : mkSavers env (env.abspath args.path) 0 args.train args.test args.labelIdx args.unlabelIdx with
  | error e => rw [hs] at h; cases h
  | ok savers =>
    rw [hs] at h
    simp only at h
    cases hm : maxThread args.labelIdx.length args.max with
    | error e => rw [hm] at h; cases h
    | ok m =>
      rw [hm] at h
      simp only at h
      cases hf : checkFunc env args.func with
      | error e => rw [hf] at h; cases h
      | ok f =>
        rw [hf] at h
        simp only [Except.ok.injEq] at h
        exact ⟨savers, m, f, rfl, rfl, rfl, h.symm⟩

/-- Recovering from a file which has the settings of a constructed object. -/
theorem recover_static {env : Env τ ι φ σ} (habs : ∀ q, env.abspath (env.abspath q) = env.abspath q) {args : Args χ τ ι φ ρ}
    {a : Ace χ τ ι φ γ ρ σ} (hnew : new env args = .ok a) (hn : 0 < a.rounds) {al : List Bool} {sv : List σ} {g : Option γ}
    (loaded : List (Bool × Option σ)) :
    recover env ⟨a.examples, a.labels, a.train, a.test, a.labelIdx, a.unlabelIdx, a.refresh, a.path, a.rounds, a.max, a.func, g, al, sv⟩ loaded =
      .ok { a with saver := takeLoaded a.saver (loaded.map Prod.snd), recoverArr := some (loaded.map Prod.fst) } := by
  obtain ⟨hlen, savers, m, f, hs, hm, hf, rfl⟩ := new_ok hnew
  simp only at hn
  have hm' : maxThread args.labelIdx.length (some m) = .ok m := by
    cases hmax : args.max with
    | none =>
      rw [hmax] at hm
      simp only [maxThread, Except.ok.injEq] at hm
      subst hm
      simp only [maxThread]
      rw [if_pos (by exact_mod_cast hn)]
    | some k =>
      rw [hmax] at hm
      simp only [maxThread] at hm ⊢
      split_ifs at hm with hk
      simp only [Except.ok.injEq] at hm
      subst hm
      rw [if_pos hk]
  have hf' : checkFunc env f = .ok f := by
    cases hfunc : args.func with
    | none => rw [hfunc] at hf; simp only [checkFunc, Except.ok.injEq] at hf; subst hf; rfl
    | some k =>
      rw [hfunc] at hf
      simp only [checkFunc] at hf
      split_ifs at hf with hk
      simp only [Except.ok.injEq] at hf
      subst hf
      simp [checkFunc, hk]
  simp only [recover, new, if_pos hlen, habs, hs, hm', hf']

/-- **C153**: let `a` be the object which the constructor made of `args`, started with global parameters `g` (`enter`), run for any time (`Ran`) and
saved. What `recover` returns is `a` as it was constructed, except for the savers of the files that were found and the list of rounds to be run:
the same examples, labels, training, test and initial indexes, function, directory, refresh interval and number of threads. -/
theorem C153_recovered (env : Env τ ι φ σ) (habs : ∀ q, env.abspath (env.abspath q) = env.abspath q) {args : Args χ τ ι φ ρ}
    {a a' b : Ace χ τ ι φ γ ρ σ} {g g' : Option γ} {pk : Pickled χ τ ι φ γ ρ σ} (hnew : new env args = .ok a) (hstart : enter a g = .ok (a', g'))
    (hran : Ran a' b) (hsave : getstate b = .ok pk) (hn : 0 < a.rounds) (loaded : List (Bool × Option σ)) (hl : loaded.length = a.rounds) :
    recover env pk loaded = .ok { a with saver := takeLoaded a.saver (loaded.map Prod.snd), recoverArr := some (loaded.map Prod.fst) } ∧
      g' = g ∧ pk.glob = g := by
  have key : a'.glob = some g ∧ g' = g ∧ ∃ arr, a' = { a with glob := some g, recoverArr := arr } := by
    unfold enter at hstart
    cases hf : a.func with
    | none => rw [hf] at hstart; cases hstart
    | some f =>
      rw [hf] at hstart
      cases hr : a.recoverArr with
      | none =>
        rw [hr] at hstart
        simp only [Except.ok.injEq, Prod.mk.injEq] at hstart
        obtain ⟨rfl, rfl⟩ := hstart
        exact ⟨rfl, rfl, _, rfl⟩
      | some l =>
        rw [hr] at hstart
        simp only at hstart
        split_ifs at hstart
        simp only [Except.ok.injEq, Prod.mk.injEq] at hstart
        obtain ⟨rfl, rfl⟩ := hstart
        exact ⟨rfl, rfl, _, rfl⟩
  obtain ⟨-, rfl, arr, rfl⟩ := key
  obtain ⟨al, sv, rfl⟩ := hran
  simp only [getstate, Except.ok.injEq] at hsave
  subst hsave
  exact ⟨recover_static habs hnew hn loaded, rfl, rfl⟩

/-- **C153**: the saver of a round is the one of its file if there was one, else a new one. -/
theorem C153_savers (env : Env τ ι φ σ) {pk : Pickled χ τ ι φ γ ρ σ} {loaded : List (Bool × Option σ)} {c : Ace χ τ ι φ γ ρ σ}
    (h : recover env pk loaded = .ok c) (hl : loaded.length = pk.labelIdx.length) : 
    ∀ (i : Nat) b l, loaded[i]? = some (b, l) → ∃ a t x y s, pk.train[i]? = some a ∧ pk.test[i]? = some t ∧ pk.labelIdx[i]? = some x ∧
      pk.unlabelIdx[i]? = some y ∧ env.mkSaver i a t x y (env.abspath pk.path) = .ok s ∧ c.saver[i]? = some (l.getD s) := by
  unfold recover at h
  cases hnew : new (γ := γ) env ⟨pk.examples, pk.labels, pk.train, pk.test, pk.labelIdx, pk.unlabelIdx, pk.func, some pk.max, pk.refresh, pk.path⟩ with
  | error e => rw [hnew] at h; cases h
  | ok a =>
    rw [hnew] at h
    simp only [Except.ok.injEq] at h
    subst h
    obtain ⟨⟨h1, h2, h3⟩, savers, m, f, hs, -, -, rfl⟩ := new_ok hnew
    simp only at h1 h2 h3 hs ⊢
    intro i b l hi
    obtain ⟨hsl, hget⟩ := mkSavers_get hs h1 h2 h3
    obtain ⟨hi', -⟩ := List.getElem?_eq_some_iff.1 hi
    have hin : i < pk.labelIdx.length := by omega
    obtain ⟨s, hsi, hmk⟩ := hget i _ _ _ _ (List.getElem?_eq_getElem (by omega)) (List.getElem?_eq_getElem (by omega))
      (List.getElem?_eq_getElem hin) (List.getElem?_eq_getElem (by omega))
    refine ⟨_, _, _, _, s, List.getElem?_eq_getElem (by omega), List.getElem?_eq_getElem (by omega), List.getElem?_eq_getElem hin,
      List.getElem?_eq_getElem (by omega), by simpa using hmk, ?_⟩
    exact takeLoaded_get _ _ (by simp [hl, hsl, h1, h2]) i s l hsi (by simp [hi])

/-- **C153**: the recovered object can be started with the same global parameters, saved and recovered, as often as one likes: it is always the object
that was constructed, with the savers of the files found the last time. -/
theorem C153_again (env : Env τ ι φ σ) (habs : ∀ q, env.abspath (env.abspath q) = env.abspath q) {args : Args χ τ ι φ ρ}
    {a : Ace χ τ ι φ γ ρ σ} (hnew : new env args = .ok a) (hn : 0 < a.rounds) {sv : List σ} {arr : List Bool}
    {c' d : Ace χ τ ι φ γ ρ σ} {g g' : Option γ} {pk : Pickled χ τ ι φ γ ρ σ}
    (hstart : enter { a with saver := sv, recoverArr := some arr } g = .ok (c', g')) (hran : Ran c' d) (hsave : getstate d = .ok pk)
    (loaded : List (Bool × Option σ)) (hl : loaded.length = a.rounds) :
    recover env pk loaded = .ok { a with saver := takeLoaded a.saver (loaded.map Prod.snd), recoverArr := some (loaded.map Prod.fst) } := by
  have key : ∃ arr', c' = { a with saver := sv, glob := some g, recoverArr := arr' } := by
    unfold enter at hstart
    simp only at hstart
    cases hf : a.func with
    | none => rw [hf] at hstart; cases hstart
    | some f =>
      rw [hf] at hstart
      simp only at hstart
      split_ifs at hstart
      simp only [Except.ok.injEq, Prod.mk.injEq] at hstart
      exact ⟨_, hstart.1.symm⟩
  obtain ⟨arr', rfl⟩ := key
  obtain ⟨al, sv', rfl⟩ := hran
  simp only [getstate, Except.ok.injEq] at hsave
  subst hsave
  exact recover_static habs hnew hn loaded

/-- **C153**, violation: the global parameters are in the breakpoint file but are not given to the recovered object. If it is started without passing
them again, every worker gets `None` instead of them. Nor can it be saved before it is started. -/
theorem C153_globals_violation (env : Env τ ι φ σ) {pk : Pickled χ τ ι φ γ ρ σ} {g : γ} (hg : pk.glob = some g) {f : φ} (hf : pk.func = some f)
    {loaded : List (Bool × Option σ)} (hl : loaded.length = pk.labelIdx.length) {c : Ace χ τ ι φ γ ρ σ} (h : recover env pk loaded = .ok c) :
    (∃ c', enter c none = .ok (c', none)) ∧ (∃ c', enter c (some g) = .ok (c', some g)) ∧ getstate c = .error .attributeError := by
  unfold recover at h
  cases hnew : new (γ := γ) env ⟨pk.examples, pk.labels, pk.train, pk.test, pk.labelIdx, pk.unlabelIdx, pk.func, some pk.max, pk.refresh, pk.path⟩ with
  | error e => rw [hnew] at h; cases h
  | ok a =>
    rw [hnew] at h
    simp only [Except.ok.injEq] at h
    subst h
    obtain ⟨-, savers, m, f', -, -, hfc, rfl⟩ := new_ok hnew
    simp only [hf, checkFunc] at hfc
    split_ifs at hfc
    simp only [Except.ok.injEq] at hfc
    subst hfc
    simp [enter, getstate, hl]

/-- **C153**, violation: an experiment of no rounds for which `max_thread` is not given can be constructed and saved, but not recovered: the constructor
asserts that a given `max_thread` is positive, and gets the number of rounds. -/
theorem C153_no_rounds_violation (env : Env τ ι φ σ) {args : Args χ τ ι φ ρ} {a : Ace χ τ ι φ γ ρ σ} (hnew : new env args = .ok a)
    (hmax : args.max = none) (hn : a.rounds = 0) {pk : Pickled χ τ ι φ γ ρ σ} (hpk : pk.max = a.max) (loaded : List (Bool × Option σ)) :
    ∃ e, recover env pk loaded = .error e := by
  obtain ⟨-, savers, m, f, -, hm, -, rfl⟩ := new_ok hnew
  simp only at hn hpk
  rw [hmax] at hm
  simp only [maxThread, hn, Except.ok.injEq] at hm
  subst hm
  unfold recover
  cases hnew' : new (γ := γ) env ⟨pk.examples, pk.labels, pk.train, pk.test, pk.labelIdx, pk.unlabelIdx, pk.func, some pk.max, pk.refresh, pk.path⟩ with
  | error e => exact ⟨e, rfl⟩
  | ok a =>
    obtain ⟨-, savers, m, f', -, hm', -, -⟩ := new_ok hnew'
    simp only [maxThread] at hm'
    rw [if_neg (by rw [hpk]; simp)] at hm'
    cases hm'

/-- Two rounds with an unspecified number of threads: constructed, started with global parameters 7, saved, and recovered when round 0 has a file. -/
example :
    let env : Env Nat Nat Nat (List Nat) := ⟨id, fun _ _ _ _ _ _ => .ok [], fun _ => true⟩
    ∃ a a' pk, new env (⟨0, 1, [2, 3], [4, 5], [6, 7], [8, 9], some 11, none, 1, "."⟩ : Args Nat Nat Nat Nat Nat) = .ok a ∧ enter a (some 7) = .ok (a', some 7) ∧
      getstate a' = .ok pk ∧ pk.glob = some 7 ∧ a.max = 2 ∧
      (recover (γ := Nat) env pk [(false, some [1, 2]), (true, none)]).toOption =
        some { a with saver := [[1, 2], []], recoverArr := some [false, true] } :=
  ⟨_, _, _, rfl, rfl, rfl, rfl, rfl, rfl⟩

end Alipy.ThreadsObject
