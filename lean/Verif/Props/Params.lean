import Verif.Spec.Params
import Mathlib.Tactic.Common

/-! # C113: strategies get the parameters that the user has passed -/
namespace Alipy.Params
open Alipy

theorem lookup_cons (n m : String) (v : PVal) (kw : Kw) : List.lookup n ((m, v) :: kw) = if n = m then some v else List.lookup n kw := by
  by_cases h : n = m
  · subst h
    simp
  · have : (n == m) = false := by simpa using h
    rw [if_neg h, List.lookup_cons, this]

theorem lookup_cons_ne {n : String} {p : String × PVal} (h : ¬ n = p.1) (kw : Kw) : List.lookup n (p :: kw) = List.lookup n kw := by
  rw [show p = (p.1, p.2) from rfl, lookup_cons, if_neg h]

theorem lookup_congr {n : String} {p : String × PVal} {kw kw' : Kw} (h : List.lookup n kw = List.lookup n kw') : List.lookup n (p :: kw) = List.lookup n (p :: kw') := by
  rw [show p = (p.1, p.2) from rfl, lookup_cons, lookup_cons, h]

theorem lookup_del {kw : Kw} {n m : String} (h : n ≠ m) : (del kw m).lookup n = kw.lookup n := by
  induction kw with
  | nil => rfl
  | cons p kw ih =>
    unfold del at ih ⊢
    by_cases hp : p.1 = m
    · have : ¬ n = p.1 := fun e => h (e.trans hp)
      rw [List.filter_cons_of_neg (by simp [hp]), ih, lookup_cons_ne this]
    · rw [List.filter_cons_of_pos (by simp [hp]), lookup_congr ih]

theorem get_del {kw : Kw} {n m : String} (h : n ≠ m) (d : PVal) : get (del kw m) n d = get kw n d := by
  rw [get, get, lookup_del h]

theorem lookup_filter {kw : Kw} {n : String} {l : List String} (h : n ∉ l) : (kw.filter (fun p => !l.contains p.1)).lookup n = kw.lookup n := by
  induction kw with
  | nil => rfl
  | cons p kw ih =>
    by_cases hp : p.1 ∈ l
    · have : ¬ n = p.1 := fun e => h (e ▸ hp)
      rw [List.filter_cons_of_neg (by simp [hp]), ih, lookup_cons_ne this]
    · rw [List.filter_cons_of_pos (by simp [hp]), lookup_congr ih]

theorem mem_del {kw : Kw} {m : String} {p : String × PVal} : p ∈ del kw m ↔ p ∈ kw ∧ p.1 ≠ m := by simp [del]

/-- Calls that bind. -/
theorem call_ok {s : Sig} {pos : List PVal} {kw : Kw} (h1 : pos.length ≤ s.params.length) (h2 : ∀ p ∈ kw, p.1 ∉ (s.params.map Prod.fst).take pos.length)
    (h3 : s.star = true ∨ ∀ p ∈ kw, p.1 ∈ s.params.map Prod.fst) (h4 : ∀ p ∈ s.params.drop pos.length, p.2.isNone = true → (kw.lookup p.1).isSome = true) :
    call s pos kw = .ok (((s.params.map Prod.fst).take pos.length).zip pos ++ (s.params.drop pos.length).map (fun p => (p.1, get kw p.1 (p.2.getD .none))),
      kw.filter (fun p => !(s.params.map Prod.fst).contains p.1)) := by
  unfold call
  simp only
  rw [if_neg (by simpa using h1), if_neg, if_neg, if_neg]
  · rw [List.any_eq_true]
    rintro ⟨p, hp, hh⟩
    rw [Bool.and_eq_true] at hh
    have := h4 p hp hh.1
    rw [Option.isSome_iff_ne_none] at this
    exact this (by simpa using hh.2)
  · rw [Bool.and_eq_true, List.any_eq_true]
    rintro ⟨hs, p, hp, hh⟩
    rcases h3 with h3 | h3
    · simp [h3] at hs
    · have := h3 p hp
      simp [this] at hh
  · rw [List.any_eq_true]
    rintro ⟨p, hp, hh⟩
    exact h2 p hp (by simpa using hh)

theorem kernel_ok {g : String} (h1 : g ≠ "kernel") (h2 : g ≠ "coef0") (h3 : g ≠ "degree") {kw : Kw} (h : Spec.IsKernel (Spec.meant kw "kernel" (.str "rbf"))) :
    ∃ k, kernel g kw = .ok k ∧ (∀ n, n ≠ "kernel" → n ≠ "coef0" → n ≠ "degree" → n ≠ g → k.lookup n = none) ∧
      ∀ p ∈ Spec.kernelParams g kw, k.lookup p.1 = some (Spec.meant kw p.1 p.2) := by
  unfold kernel Spec.kernelParams
  change Spec.IsKernel (get kw "kernel" (.str "rbf")) at h
  simp only [show ∀ n d, Spec.meant kw n d = get kw n d from fun _ _ => rfl]
  generalize hk : get kw "kernel" (.str "rbf") = k at h ⊢
  rcases h with rfl | rfl | rfl | ⟨n, rfl⟩
  · refine ⟨_, if_pos rfl, ?_, ?_⟩
    · intro n a b c d
      simp [lookup_cons, a, d]
    · simp [lookup_cons, h1, hk]
  · refine ⟨_, by rw [if_neg (by simp), if_pos rfl], ?_, ?_⟩
    · intro n a b c d
      simp [lookup_cons, a, b, c, d]
    · simp [lookup_cons, h1, h2, h3, hk]
  · refine ⟨_, by rw [if_neg (by simp), if_neg (by simp), if_pos rfl], ?_, ?_⟩
    · intro n a b c d
      simp [lookup_cons, a]
    · simp [lookup_cons, hk]
  · refine ⟨_, by rw [if_neg (by simp), if_neg (by simp), if_neg (by simp)], ?_, ?_⟩
    · intro n a b c d
      simp [lookup_cons, a]
    · simp [lookup_cons, hk]

/-- Which kernel parameters matter depends on the kernel only. -/
theorem kernelParams_congr {g : String} {kw kw' : Kw} (h : kw.lookup "kernel" = kw'.lookup "kernel") : Spec.kernelParams g kw = Spec.kernelParams g kw' := by
  have : Spec.meant kw "kernel" (.str "rbf") = Spec.meant kw' "kernel" (.str "rbf") := by rw [Spec.meant, Spec.meant, h]
  unfold Spec.kernelParams
  rw [this]

theorem lookup_append {a b : Kw} {n : String} : (a ++ b).lookup n = (a.lookup n).or (b.lookup n) := by
  induction a with
  | nil => simp
  | cons p a ih =>
    rw [List.cons_append, show p = (p.1, p.2) from rfl, lookup_cons, lookup_cons, ih]
    split <;> simp

theorem kernel_congr {g : String} {kw kw' : Kw} (h : ∀ n, n = "kernel" ∨ n = "coef0" ∨ n = "degree" ∨ n = g → kw'.lookup n = kw.lookup n) : kernel g kw' = kernel g kw := by
  have hg : ∀ n d, n = "kernel" ∨ n = "coef0" ∨ n = "degree" ∨ n = g → get kw' n d = get kw n d := fun n d hn => by rw [get, get, h n hn]
  unfold kernel
  rw [hg "kernel" _ (by simp), hg "coef0" _ (by simp), hg "degree" _ (by simp), hg g _ (by simp)]

theorem names_kernel {g : String} {kw : Kw} {p : String × PVal} (h : p ∈ Spec.kernelParams g kw) : p.1 = "kernel" ∨ p.1 = "coef0" ∨ p.1 = "degree" ∨ p.1 = g := by
  unfold Spec.kernelParams at h
  split at h
  · simp only [List.mem_cons, List.not_mem_nil, or_false] at h
    rcases h with rfl | rfl <;> simp
  · split at h
    · simp only [List.mem_cons, List.not_mem_nil, or_false] at h
      rcases h with rfl | rfl | rfl | rfl <;> simp
    · simp only [List.mem_cons, List.not_mem_nil, or_false] at h
      rcases h with rfl <;> simp

theorem mem_strs {l : List String} {v : PVal} (h : ∃ s ∈ l, v = .str s) : (l.map PVal.str).contains v = true := by
  obtain ⟨s, hs, rfl⟩ := h
  simpa using hs

theorem done {c : Cls} {o kw ps : Kw} {e : Except PyErr Kw} {X y train : PVal} (h : e = .ok ps)
    (hp : Spec.Kept c kw ps ∧ ps.lookup "X" = some X ∧ ps.lookup "y" = some y ∧ (Spec.needsTrain c = true → ps.lookup "train_idx" = some train)) :
    ∃ r, ran c o e = .ok r ∧ r.cls = c ∧ Spec.Kept c kw r.params ∧ r.params.lookup "X" = some X ∧ r.params.lookup "y" = some y ∧
      (Spec.needsTrain c = true → r.params.lookup "train_idx" = some train) := by
  subst h
  exact ⟨⟨c, ps, o⟩, rfl, rfl, hp⟩

/-- **C113** (partial: without `qp_solver`, see the violation below): an experiment queries with an object of the class named, which has every documented parameter as passed to `set_query_strategy`, and
the default for those not passed; it has the data of the experiment and, if it needs them, the training indexes of the round. -/
theorem C113_experiment_partial {name : String} {c : Cls} (hn : (name, c) ∈ Spec.experimentStrategies) (X y train : PVal) {kw : Kw} (hres : ∀ p ∈ kw, p.1 ∉ Spec.reserved)
    (hv : Spec.Valid c kw) :
    ∃ r, experiment X y train name kw = .ok r ∧ r.cls = c ∧ Spec.Kept c kw r.params ∧ r.params.lookup "X" = some X ∧ r.params.lookup "y" = some y ∧
      (Spec.needsTrain c = true → r.params.lookup "train_idx" = some train) := by
  simp only [Spec.experimentStrategies, List.mem_cons, Prod.mk.injEq, List.not_mem_nil, or_false] at hn
  rcases hn with ⟨rfl, rfl⟩ | ⟨rfl, rfl⟩ | ⟨rfl, rfl⟩ | ⟨rfl, rfl⟩ | ⟨rfl, rfl⟩ | ⟨rfl, rfl⟩ | ⟨rfl, rfl⟩ | ⟨rfl, rfl⟩ | ⟨rfl, rfl⟩ | ⟨rfl, rfl⟩
  · refine done (ps := [("X", X), ("y", y), ("measure", get kw "measure" (.str "entropy"))]) ?_ ?_
    · have h := mem_strs hv
      rw [construct, call_ok (by simp [sig]) (by simp) (by simp) (by simp [sig])]
      exact if_pos h
    · simp [Spec.Kept, Spec.params, lookup_cons, get, Spec.meant, Spec.needsTrain]
  · exact done (ps := [("X", X), ("y", y)]) rfl (by simp [Spec.Kept, Spec.params, lookup_cons, Spec.needsTrain])
  · exact done (ps := [("X", X), ("y", y)]) rfl (by simp [Spec.Kept, Spec.params, lookup_cons, Spec.needsTrain])
  · refine done (ps := [("X", X), ("y", y), ("method", get kw "method" (.str "query_by_bagging")), ("disagreement", get kw "disagreement" (.str "vote_entropy"))]) ?_ ?_
    · have h := mem_strs hv
      rw [get_del (by decide), construct, call_ok (by simp [sig]) (by simp) (by simp) (by simp [sig])]
      exact if_pos h
    · simp [Spec.Kept, Spec.params, lookup_cons, get, Spec.meant, Spec.needsTrain]
  · exact done (ps := [("X", X), ("y", y)]) rfl (by simp [Spec.Kept, Spec.params, lookup_cons, Spec.needsTrain])
  · obtain ⟨k, hk, hno, hyes⟩ := kernel_ok (g := "gamma") (by decide) (by decide) (by decide) hv
    refine done (ps := [("X", X), ("y", y), ("train_idx", train), ("lambda", get kw "lambda" (.num 1))] ++ k) ?_ ⟨?_, ?_⟩
    · rw [construct, call_ok (by simp [sig]) ?_ (by simp [sig]) (by simp [sig])]
      · simp only [init]
        rw [kernel_congr (kw := kw), hk]
        · simp only [sig, get]
          rw [lookup_filter (by simp), lookup_del (by decide)]
          rfl
        · rintro n (rfl | rfl | rfl | rfl) <;> rw [lookup_del (by decide), lookup_filter (by simp [sig]), lookup_del (by decide)]
      · intro p hp
        have := hres p (mem_del.1 hp).1
        simp [Spec.reserved] at this
        simp [sig]
        tauto
    · intro p hp
      rw [Spec.params, List.mem_cons] at hp
      rcases hp with rfl | hp
      · simp [lookup_cons, get, Spec.meant]
      · rw [← hyes p hp, lookup_append]
        rcases names_kernel hp with h | h | h | h <;> simp [h, lookup_cons]
    · simp [lookup_cons]
  · change ∃ r, (if get kw "metric" (.str "manhattan") = .none then _ else _) = _ ∧ _
    rw [if_neg (show ¬ get kw "metric" (.str "manhattan") = .none from hv), if_neg]
    · refine done (ps := [("X", X), ("y", y), ("train_idx", train), ("metric", get kw "metric" (.str "manhattan"))]) rfl ?_
      simp [Spec.Kept, Spec.params, lookup_cons, get, Spec.meant]
    · rw [List.any_eq_true]
      rintro ⟨p, hp, h⟩
      have := hres p (mem_del.1 hp).1
      simp [selectNames] at h
      simp [Spec.reserved] at this
      grind
  · obtain ⟨k, hk, hno, hyes⟩ := kernel_ok (g := "gamma_ker") (by decide) (by decide) (by decide) hv
    refine done (ps := [("X", X), ("y", y), ("beta", get kw "beta" (.num 1000)), ("gamma", get kw "gamma" (.num (1 / 10))), ("rho", get kw "rho" (.num 1))] ++ k) ?_ ⟨?_, ?_⟩
    · rw [construct, call_ok (by simp [sig]) ?_ (by simp [sig]) (by simp [sig])]
      · simp only [init]
        rw [kernel_congr (kw := kw), hk]
        · rfl
        · rintro n (rfl | rfl | rfl | rfl) <;> rw [lookup_filter (by simp [sig]), lookup_del (by decide), lookup_del (by decide), lookup_del (by decide)]
      · intro p hp
        simp only [mem_del] at hp
        have := hres p hp.1.1.1
        simp [Spec.reserved] at this
        simp [sig]
        tauto
    · intro p hp
      rw [Spec.params, List.mem_append] at hp
      rcases hp with hp | hp
      · simp only [List.mem_cons, List.not_mem_nil, or_false] at hp
        rcases hp with rfl | rfl | rfl <;> simp [lookup_cons, get, Spec.meant]
      · rw [← hyes p hp, lookup_append]
        rcases names_kernel hp with h | h | h | h <;> simp [h, lookup_cons]
    · simp [lookup_cons, Spec.needsTrain]
  · obtain ⟨k, hk, hno, hyes⟩ := kernel_ok (g := "gamma_ker") (by decide) (by decide) (by decide) hv
    refine done (ps := [("X", X), ("y", y), ("mu", get kw "mu" (.num (1 / 10))), ("gamma", get kw "gamma" (.num (1 / 10))), ("rho", get kw "rho" (.num 1)), ("lambda_init", get kw "lambda_init" (.num (1 / 10))), ("lambda_pace", get kw "lambda_pace" (.num (1 / 100)))] ++ k) ?_ ⟨?_, ?_⟩
    · rw [construct, call_ok (by simp [sig]) ?_ (by simp [sig]) (by simp [sig])]
      · simp only [init]
        rw [kernel_congr (kw := kw), hk]
        · rfl
        · rintro n (rfl | rfl | rfl | rfl) <;> rw [lookup_filter (by simp [sig]), lookup_del (by decide), lookup_del (by decide), lookup_del (by decide), lookup_del (by decide), lookup_del (by decide)]
      · intro p hp
        simp only [mem_del] at hp
        have := hres p hp.1.1.1.1.1
        simp [Spec.reserved] at this
        simp [sig]
        tauto
    · intro p hp
      rw [Spec.params, List.mem_append] at hp
      rcases hp with hp | hp
      · simp only [List.mem_cons, List.not_mem_nil, or_false] at hp
        rcases hp with rfl | rfl | rfl | rfl | rfl <;> simp [lookup_cons, get, Spec.meant]
      · rw [← hyes p hp, lookup_append]
        rcases names_kernel hp with h | h | h | h <;> simp [h, lookup_cons]
    · simp [lookup_cons, Spec.needsTrain]
  · refine done (ps := [("X", X), ("y", y), ("mode", get kw "mode" (.str "LAL_iterative")), ("data_path", get kw "data_path" (.str ".")), ("cls_est", get kw "cls_est" (.num 50)),
      ("train_slt", get kw "train_slt" (.bool true))]) ?_ ?_
    · have h := mem_strs hv
      rw [construct, call_ok (by simp [sig]) ?_ (by simp [sig]) (by simp [sig])]
      · exact if_pos h
      · intro p hp
        simp only [mem_del] at hp
        have := hres p hp.1.1.1.1
        simp [Spec.reserved] at this
        simp [sig]
        tauto
    · simp [Spec.Kept, Spec.params, lookup_cons, get, Spec.meant, Spec.needsTrain]

example : ∃ r, experiment (.obj 1 false) (.obj 2 false) (.obj 3 false) "QueryInstanceBMDR" [("gamma", .num 5), ("kernel", .str "poly"), ("degree", .num 2)] = .ok r ∧
    r.params = [("X", .obj 1 false), ("y", .obj 2 false), ("beta", .num 1000), ("gamma", .num 5), ("rho", .num 1), ("kernel", .str "poly"), ("coef0", .num 1), ("degree", .num 2),
      ("gamma_ker", .num 1)] := ⟨_, rfl, rfl⟩

theorem get_cons_ne {n m : String} (h : m ≠ n) (v : PVal) (kw : Kw) (d : PVal) : get ((n, v) :: kw) m d = get kw m d := by
  rw [get, get, lookup_cons, if_neg h]

theorem del_cons_ne {n m : String} (h : n ≠ m) (v : PVal) (kw : Kw) : del ((n, v) :: kw) m = (n, v) :: del kw m := by
  unfold del
  rw [List.filter_cons_of_pos (by simpa using h)]

theorem del_cons_self (n : String) (v : PVal) (kw : Kw) : del ((n, v) :: kw) n = del kw n := by
  unfold del
  rw [List.filter_cons_of_neg (by simp)]

theorem call_cons {s : Sig} (hs : s.star = true) {n : String} (hn : n ∉ s.params.map Prod.fst) (v : PVal) (pos : List PVal) (kw : Kw) :
    call s pos ((n, v) :: kw) = match call s pos kw with
      | .error e => .error e
      | .ok (b, extra) => .ok (b, (n, v) :: extra) := by
  have h1 : ((s.params.map Prod.fst).take pos.length).contains n = false := by
    rw [Bool.eq_false_iff]
    intro h
    exact hn (List.mem_of_mem_take (by simpa using h))
  have h2 : ∀ q ∈ s.params.drop pos.length, q.1 ≠ n := fun q hq e => hn (List.mem_map.2 ⟨q, List.mem_of_mem_drop hq, e⟩)
  have h3 : (s.params.drop pos.length).any (fun p => p.2.isNone && (List.lookup p.1 ((n, v) :: kw)).isNone) =
      (s.params.drop pos.length).any (fun p => p.2.isNone && (List.lookup p.1 kw).isNone) := by
    rw [Bool.eq_iff_iff, List.any_eq_true, List.any_eq_true]
    constructor <;> rintro ⟨q, hq, hh⟩ <;> refine ⟨q, hq, ?_⟩ <;> rw [lookup_cons, if_neg (h2 q hq)] at * <;> exact hh
  have h4 : (s.params.drop pos.length).map (fun p => (p.1, get ((n, v) :: kw) p.1 (p.2.getD .none))) =
      (s.params.drop pos.length).map (fun p => (p.1, get kw p.1 (p.2.getD .none))) := by
    apply List.map_congr_left
    intro q hq
    rw [get_cons_ne (h2 q hq)]
  unfold call
  simp only [List.any_cons, h1, Bool.false_or, hs, Bool.not_true, Bool.false_and, h3, h4]
  rw [List.filter_cons_of_pos (by simpa using hn)]
  split
  · rfl
  · split
    · rfl
    · split
      · contradiction
      · split <;> rfl

theorem init_cons {c : Cls} {n : String} (hn : n ∉ Spec.names c) (v : PVal) (b extra : Kw) : init c b ((n, v) :: extra) = init c b extra := by
  have hk : ∀ g kw, (n ≠ "kernel" ∧ n ≠ "coef0" ∧ n ≠ "degree" ∧ n ≠ g) → kernel g ((n, v) :: kw) = kernel g kw := by
    intro g kw ⟨h1, h2, h3, h4⟩
    apply kernel_congr
    rintro m (rfl | rfl | rfl | rfl) <;> rw [lookup_cons, if_neg (by tauto)]
  cases c <;> simp only [init]
  all_goals simp only [Spec.names, List.mem_cons, List.not_mem_nil, or_false, not_or] at hn
  · rw [del_cons_ne hn.1, hk _ _ (by tauto), get_cons_ne (by tauto)]
  · rw [hk _ _ (by tauto)]
  · rw [hk _ _ (by tauto)]

theorem construct_cons {c : Cls} (hs : (sig c).star = true) {n : String} (hn : n ∉ (sig c).params.map Prod.fst) (hn' : n ∉ Spec.names c) (v : PVal) (pos : List PVal) (kw : Kw) :
    construct c pos ((n, v) :: kw) = construct c pos kw := by
  unfold construct
  rw [call_cons hs hn]
  cases call (sig c) pos kw with
  | error e => rfl
  | ok p => exact init_cons hn' v p.1 p.2

/-- **C113**, violation: a parameter that the strategy does not have, a misspelled one for instance, is silently ignored: the experiment runs with the default. (`qp_sover` is the one exception.) -/
theorem C113_unknown_violation {name : String} {c : Cls} (hname : (name, c) ∈ Spec.experimentStrategies) (X y train : PVal) (kw : Kw) {n : String} (hn : n ∉ Spec.names c)
    (hr : n ∉ Spec.reserved) (hq : n ≠ "qp_sover") (v : PVal) :
    experiment X y train name ((n, v) :: kw) = experiment X y train name kw := by
  simp only [Spec.experimentStrategies, List.mem_cons, Prod.mk.injEq, List.not_mem_nil, or_false] at hname
  simp only [Spec.reserved, List.mem_cons, List.not_mem_nil, or_false, not_or] at hr
  rcases hname with ⟨rfl, rfl⟩ | ⟨rfl, rfl⟩ | ⟨rfl, rfl⟩ | ⟨rfl, rfl⟩ | ⟨rfl, rfl⟩ | ⟨rfl, rfl⟩ | ⟨rfl, rfl⟩ | ⟨rfl, rfl⟩ | ⟨rfl, rfl⟩ | ⟨rfl, rfl⟩
  all_goals have hn' := hn
  all_goals simp only [Spec.names, List.mem_cons, List.not_mem_nil, or_false, not_or] at hn'
  all_goals unfold experiment
  all_goals simp only [reduceIte, String.reduceEq, or_true, true_or, or_false, false_or]
  · rw [get_cons_ne (by tauto)]
  · rw [get_cons_ne (by tauto), get_del (by decide), get_del (by decide), get_cons_ne (by tauto)]
  · by_cases hm : n = "metric"
    · subst hm
      rw [del_cons_self]
    · rw [del_cons_ne hm, construct_cons rfl (by simp [sig]; tauto) hn]
  · rw [get_cons_ne (by tauto), del_cons_ne (by tauto), List.any_cons]
    have : selectNames.contains n = false := by
      rw [Bool.eq_false_iff]
      intro h
      simp [selectNames] at h
      tauto
    simp only [this, Bool.false_or]
  · simp only [del_cons_ne hn'.1, del_cons_ne hn'.2.1, del_cons_ne hn'.2.2.1]
    rw [get_cons_ne (Ne.symm hq), get_cons_ne (by tauto), get_cons_ne (by tauto), get_cons_ne (by tauto), construct_cons rfl (by simp [sig]; tauto) hn]
  · simp only [del_cons_ne hn'.1, del_cons_ne hn'.2.1, del_cons_ne hn'.2.2.1, del_cons_ne hn'.2.2.2.1, del_cons_ne hn'.2.2.2.2.1]
    rw [get_cons_ne (Ne.symm hq), get_cons_ne (by tauto), get_cons_ne (by tauto), get_cons_ne (by tauto), get_cons_ne (by tauto), get_cons_ne (by tauto),
      construct_cons rfl (by simp [sig]; tauto) hn]
  · simp only [del_cons_ne hn'.1, del_cons_ne hn'.2.1, del_cons_ne hn'.2.2.1, del_cons_ne hn'.2.2.2]
    rw [get_cons_ne (by tauto), get_cons_ne (by tauto), get_cons_ne (by tauto), get_cons_ne (by tauto), construct_cons rfl (by simp [sig]; tauto) hn]

/-- A misspelled measure: entropy is used. -/
example : experiment (.obj 1 false) (.obj 2 false) (.obj 3 false) "QueryInstanceUncertainty" [("measures", .str "margin")] =
    experiment (.obj 1 false) (.obj 2 false) (.obj 3 false) "QueryInstanceUncertainty" [] :=
  C113_unknown_violation (c := .uncertainty) (by decide) _ _ _ _ (by decide) (by decide) (by decide) _

/-- **C113**, violation: `qp_solver`, the documented option of `select` of BMDR and SPAL, cannot be set in an experiment: ECOS is used, unless the parameter is spelled `qp_sover`. -/
theorem C113_qp_solver_violation {name : String} (hname : name = "QueryInstanceBMDR" ∨ name = "QueryInstanceSPAL") (X y train : PVal) (kw : Kw) {r : Ran}
    (h : experiment X y train name kw = .ok r) :
    r.options.lookup "qp_solver" = some (Spec.meant kw "qp_sover" (.str "ECOS")) ∧
      ∀ v, experiment X y train name (("qp_solver", v) :: kw) = .ok r := by
  refine ⟨?_, ?_⟩
  · have hr : ∀ {c o e}, ran c o e = .ok r → r.options = o := by
      intro c o e he
      cases e with
      | error x => exact absurd he (by simp [ran])
      | ok ps =>
        simp only [ran, Except.ok.injEq] at he
        rw [← he]
    rcases hname with rfl | rfl
    all_goals unfold experiment at h
    all_goals simp only [reduceIte, String.reduceEq, or_true, true_or, or_false, false_or] at h
    all_goals rw [hr h]
    · simp only [lookup_cons, if_true]
      rw [get_del (by decide), get_del (by decide), get_del (by decide)]
      rfl
    · simp only [lookup_cons, if_true]
      rw [get_del (by decide), get_del (by decide), get_del (by decide), get_del (by decide), get_del (by decide)]
      rfl
  · intro v
    rcases hname with rfl | rfl
    · rw [C113_unknown_violation (c := .bmdr) (by decide) _ _ _ _ (by decide) (by decide) (by decide), h]
    · rw [C113_unknown_violation (c := .spal) (by decide) _ _ _ _ (by decide) (by decide) (by decide), h]

/-- OSQP is asked for, ECOS is used. -/
example : ∃ r, experiment (.obj 1 false) (.obj 2 false) (.obj 3 false) "QueryInstanceSPAL" [("qp_solver", .str "OSQP")] = .ok r ∧ r.options.lookup "qp_solver" = some (.str "ECOS") :=
  ⟨_, rfl, rfl⟩

/-- **C113**, violation: the parameters of a metric passed to `set_performance_metric` never get to the metric. -/
theorem C113_metric_violation {known : List String} {name : String} (hk : name ∈ known) (kw : Kw) :
    ∃ used, metric known name kw = .ok (name, used) ∧ ∀ p ∈ kw, p ∉ used := by
  refine ⟨[], ?_, fun _ _ => List.not_mem_nil⟩
  unfold metric
  rw [if_pos (by simpa using hk)]

example : ∃ used, metric ["accuracy_score"] "accuracy_score" [("normalize", .bool false)] = .ok ("accuracy_score", used) ∧ ("normalize", PVal.bool false) ∉ used := by
  obtain ⟨u, h1, h2⟩ := C113_metric_violation (known := ["accuracy_score"]) (name := "accuracy_score") (by decide) [("normalize", .bool false)]
  exact ⟨u, h1, h2 _ (by simp)⟩

theorem clsOf_of_mem {name : String} {c : Cls} (h : (name, c) ∈ Spec.toolboxStrategies) : clsOf name = some c := by
  simp only [Spec.toolboxStrategies, List.mem_cons, Prod.mk.injEq, List.not_mem_nil, or_false] at h
  rcases h with ⟨rfl, rfl⟩ | ⟨rfl, rfl⟩ | ⟨rfl, rfl⟩ | ⟨rfl, rfl⟩ | ⟨rfl, rfl⟩ | ⟨rfl, rfl⟩ | ⟨rfl, rfl⟩ | ⟨rfl, rfl⟩ | ⟨rfl, rfl⟩ | ⟨rfl, rfl⟩ | ⟨rfl, rfl⟩ | ⟨rfl, rfl⟩ <;> rfl

theorem toolbox_eq {name : String} {c : Cls} (h : (name, c) ∈ Spec.toolboxStrategies) {kw : Kw} (hXy : ∀ p ∈ kw, p.1 ≠ "X" ∧ p.1 ≠ "y") (X y : PVal) :
    toolbox X y name kw = match construct c [] (("X", X) :: ("y", y) :: kw) with
      | .error e => .error e
      | .ok ps => .ok (c, ps) := by
  unfold toolbox
  rw [clsOf_of_mem h]
  simp only
  rw [if_neg]
  · rfl
  · rw [List.any_eq_true]
    rintro ⟨p, hp, hh⟩
    have := hXy p hp
    simp [this.1, this.2] at hh

/-- **C113** (toolbox): `get_query_strategy(name, **kw)` makes an object of the class named, which has every documented parameter as passed, and the default for those not passed; it has the data of the
toolbox and the training indexes passed. -/
theorem C113_toolbox {name : String} {c : Cls} (hn : (name, c) ∈ Spec.toolboxStrategies) (X y : PVal) {kw : Kw}
    (hkw : ∀ p ∈ kw, p.1 ∈ Spec.names c ∨ Spec.needsTrain c = true ∧ p.1 = "train_idx") {train : PVal} (ht : Spec.needsTrain c = true → kw.lookup "train_idx" = some train)
    (hv : Spec.Valid c kw) :
    ∃ ps, toolbox X y name kw = .ok (c, ps) ∧ Spec.Kept c kw ps ∧ ps.lookup "X" = some X ∧ ps.lookup "y" = some y ∧
      (Spec.needsTrain c = true → ps.lookup "train_idx" = some train) := by
  have hXy : ∀ p ∈ kw, p.1 ≠ "X" ∧ p.1 ≠ "y" := by
    intro p hp
    have := hkw p hp
    cases c <;> simp [Spec.names, Spec.needsTrain] at this <;> (constructor <;> intro e <;> simp [e] at this)
  rw [toolbox_eq hn hXy]
  suffices h : ∃ ps, construct c [] (("X", X) :: ("y", y) :: kw) = .ok ps ∧ Spec.Kept c kw ps ∧ ps.lookup "X" = some X ∧ ps.lookup "y" = some y ∧
      (Spec.needsTrain c = true → ps.lookup "train_idx" = some train) by
    obtain ⟨ps, h1, h2⟩ := h
    exact ⟨ps, by rw [h1], h2⟩
  have hcall : call (sig c) [] (("X", X) :: ("y", y) :: kw) = _ := call_ok (Nat.zero_le _) (by simp) (by
      cases c <;> first
        | exact Or.inl rfl
        | (refine Or.inr fun p hp => ?_
           simp only [List.mem_cons] at hp
           rcases hp with rfl | rfl | hp
           · simp [sig]
           · simp [sig]
           · have := hkw p hp
             revert this
             simp [Spec.names, Spec.needsTrain, sig]
             try tauto)) (by
      intro q hq hno
      simp only [List.length_nil, List.drop_zero] at hq
      rw [lookup_cons, lookup_cons]
      split
      · rfl
      · split
        · rfl
        · cases c <;> simp [sig] at hq <;> grind [Spec.needsTrain])
  have hg : ∀ n d, n ≠ "X" → n ≠ "y" → get (("X", X) :: ("y", y) :: kw) n d = get kw n d := fun n d h1 h2 => by rw [get_cons_ne h1, get_cons_ne h2]
  have hX : ∀ d, get (("X", X) :: ("y", y) :: kw) "X" d = X := fun d => by simp [get, lookup_cons]
  have hy : ∀ d, get (("X", X) :: ("y", y) :: kw) "y" d = y := fun d => by simp [get, lookup_cons]
  have hk : ∀ (g : String) (l : List String) {f : Kw → Kw}, g ≠ "X" ∧ g ≠ "y" ∧ g ≠ "kernel" ∧ g ≠ "coef0" ∧ g ≠ "degree" → Spec.IsKernel (Spec.meant kw "kernel" (.str "rbf")) →
      (∀ n, n = "kernel" ∨ n = "coef0" ∨ n = "degree" ∨ n = g → n ∉ l ∧ ∀ kw', (f kw').lookup n = kw'.lookup n) →
      ∃ k, kernel g (f ((("X", X) :: ("y", y) :: kw).filter (fun p => !l.contains p.1))) = .ok k ∧ ∀ p ∈ Spec.kernelParams g kw, k.lookup p.1 = some (Spec.meant kw p.1 p.2) := by
    intro g l f ⟨g1, g2, g3, g4, g5⟩ hker hl
    obtain ⟨k, hk, -, hyes⟩ := kernel_ok (g := g) g3 g4 g5 hker
    refine ⟨k, ?_, hyes⟩
    rw [kernel_congr (kw := kw), hk]
    intro n hn
    rw [(hl n hn).2, lookup_filter (hl n hn).1, lookup_cons, lookup_cons]
    have : n ≠ "X" ∧ n ≠ "y" := by rcases hn with rfl | rfl | rfl | rfl <;> first | decide | exact ⟨g1, g2⟩
    rw [if_neg this.1, if_neg this.2]
  unfold construct
  rw [hcall]
  simp only [List.length_nil, List.take_zero, List.zip_nil_left, List.nil_append, List.drop_zero]
  clear hcall
  cases c
  · have h := mem_strs hv
    refine ⟨[("X", X), ("y", y), ("measure", get kw "measure" (.str "entropy"))], ?_, ?_⟩
    · simp only [sig, List.map_cons, List.map_nil, hX, hy, hg "measure" _ (by decide) (by decide), Option.getD_some, init]
      exact if_pos h
    · simp [Spec.Kept, Spec.params, lookup_cons, get, Spec.meant, Spec.needsTrain]
  · refine ⟨[("X", X), ("y", y)], ?_, ?_⟩
    · simp only [sig, List.map_cons, List.map_nil, hX, hy, init]
    · simp [Spec.Kept, Spec.params, lookup_cons, Spec.needsTrain]
  · have h := mem_strs hv
    refine ⟨[("X", X), ("y", y), ("method", get kw "method" (.str "query_by_bagging")), ("disagreement", get kw "disagreement" (.str "vote_entropy"))], ?_, ?_⟩
    · simp only [sig, List.map_cons, List.map_nil, hX, hy, hg "method" _ (by decide) (by decide), hg "disagreement" _ (by decide) (by decide), Option.getD_some, init]
      exact if_pos h
    · simp [Spec.Kept, Spec.params, lookup_cons, get, Spec.meant, Spec.needsTrain]
  · refine ⟨[("X", X), ("y", y)], ?_, ?_⟩
    · simp only [sig, List.map_cons, List.map_nil, hX, hy, init]
    · simp [Spec.Kept, Spec.params, lookup_cons, Spec.needsTrain]
  · obtain ⟨k, h1, h2⟩ := hk "gamma" ((sig .quire).params.map Prod.fst) (f := fun l => del l "lambda") (by decide) hv (by
      rintro n (rfl | rfl | rfl | rfl) <;> exact ⟨by decide, fun kw' => lookup_del (by decide)⟩)
    refine ⟨[("X", X), ("y", y), ("train_idx", train), ("lambda", get kw "lambda" (.num 1))] ++ k, ?_, ?_, ?_⟩
    · have hl : get (List.filter (fun p => !((sig .quire).params.map Prod.fst).contains p.1) (("X", X) :: ("y", y) :: kw)) "lambda" (.num 1) = get kw "lambda" (.num 1) := by
        rw [get, lookup_filter (by decide), lookup_cons, lookup_cons, if_neg (by decide), if_neg (by decide), get]
      simp only [init, h1, hl]
      simp only [sig, List.map_cons, List.map_nil, hX, hy, hg "train_idx" _ (by decide) (by decide)]
      simp [get, ht rfl]
    · intro p hp
      rw [Spec.params, List.mem_cons] at hp
      rcases hp with rfl | hp
      · simp [lookup_cons, get, Spec.meant]
      · rw [← h2 p hp, lookup_append]
        rcases names_kernel hp with h | h | h | h <;> simp [h, lookup_cons]
    · simp [lookup_cons]
  · refine ⟨[("X", X), ("y", y), ("train_idx", train), ("metric", get kw "metric" (.str "manhattan"))], ?_, ?_⟩
    · simp only [sig, List.map_cons, List.map_nil, hX, hy, hg "metric" _ (by decide) (by decide), hg "train_idx" _ (by decide) (by decide), Option.getD_some, init]
      simp [get, ht rfl]
    · simp [Spec.Kept, Spec.params, lookup_cons, get, Spec.meant]
  · obtain ⟨k, h1, h2⟩ := hk "gamma_ker" ((sig .bmdr).params.map Prod.fst) (f := id) (by decide) hv (by
      rintro n (rfl | rfl | rfl | rfl) <;> exact ⟨by decide, fun kw' => rfl⟩)
    refine ⟨[("X", X), ("y", y), ("beta", get kw "beta" (.num 1000)), ("gamma", get kw "gamma" (.num (1 / 10))), ("rho", get kw "rho" (.num 1))] ++ k, ?_, ?_, ?_⟩
    · simp only [id] at h1
      simp only [init, h1]
      simp only [sig, List.map_cons, List.map_nil, hX, hy, hg "beta" _ (by decide) (by decide), hg "gamma" _ (by decide) (by decide), hg "rho" _ (by decide) (by decide), Option.getD_some]
    · intro p hp
      rw [Spec.params, List.mem_append] at hp
      rcases hp with hp | hp
      · simp only [List.mem_cons, List.not_mem_nil, or_false] at hp
        rcases hp with rfl | rfl | rfl <;> simp [lookup_cons, get, Spec.meant]
      · rw [← h2 p hp, lookup_append]
        rcases names_kernel hp with h | h | h | h <;> simp [h, lookup_cons]
    · simp [lookup_cons, Spec.needsTrain]
  · obtain ⟨k, h1, h2⟩ := hk "gamma_ker" ((sig .spal).params.map Prod.fst) (f := id) (by decide) hv (by
      rintro n (rfl | rfl | rfl | rfl) <;> exact ⟨by decide, fun kw' => rfl⟩)
    refine ⟨[("X", X), ("y", y), ("mu", get kw "mu" (.num (1 / 10))), ("gamma", get kw "gamma" (.num (1 / 10))), ("rho", get kw "rho" (.num 1)),
      ("lambda_init", get kw "lambda_init" (.num (1 / 10))), ("lambda_pace", get kw "lambda_pace" (.num (1 / 100)))] ++ k, ?_, ?_, ?_⟩
    · simp only [id] at h1
      simp only [init, h1]
      simp only [sig, List.map_cons, List.map_nil, hX, hy, hg "mu" _ (by decide) (by decide), hg "gamma" _ (by decide) (by decide), hg "rho" _ (by decide) (by decide),
        hg "lambda_init" _ (by decide) (by decide), hg "lambda_pace" _ (by decide) (by decide), Option.getD_some]
    · intro p hp
      rw [Spec.params, List.mem_append] at hp
      rcases hp with hp | hp
      · simp only [List.mem_cons, List.not_mem_nil, or_false] at hp
        rcases hp with rfl | rfl | rfl | rfl | rfl <;> simp [lookup_cons, get, Spec.meant]
      · rw [← h2 p hp, lookup_append]
        rcases names_kernel hp with h | h | h | h <;> simp [h, lookup_cons]
    · simp [lookup_cons, Spec.needsTrain]
  · have h := mem_strs hv
    refine ⟨[("X", X), ("y", y), ("mode", get kw "mode" (.str "LAL_iterative")), ("data_path", get kw "data_path" (.str ".")), ("cls_est", get kw "cls_est" (.num 50)),
      ("train_slt", get kw "train_slt" (.bool true))], ?_, ?_⟩
    · simp only [sig, List.map_cons, List.map_nil, hX, hy, hg "mode" _ (by decide) (by decide), hg "data_path" _ (by decide) (by decide), hg "cls_est" _ (by decide) (by decide),
        hg "train_slt" _ (by decide) (by decide), Option.getD_some, init]
      exact if_pos h
    · simp [Spec.Kept, Spec.params, lookup_cons, get, Spec.meant, Spec.needsTrain]
  · refine ⟨[("X", X), ("y", y), ("train_idx", train), ("distance", get kw "distance" (.str "euclidean"))], ?_, ?_⟩
    · simp only [sig, List.map_cons, List.map_nil, hX, hy, hg "distance" _ (by decide) (by decide), hg "train_idx" _ (by decide) (by decide), Option.getD_some, init]
      simp [get, ht rfl]
    · simp [Spec.Kept, Spec.params, lookup_cons, get, Spec.meant]
  · have h := mem_strs hv.1
    have h' := mem_strs hv.2
    refine ⟨[("X", X), ("y", y), ("uncertainty_meansure", get kw "uncertainty_meansure" (.str "entropy")), ("distance", get kw "distance" (.str "euclidean")),
      ("beta", get kw "beta" (.num 1))], ?_, ?_⟩
    · simp only [sig, List.map_cons, List.map_nil, hX, hy, hg "uncertainty_meansure" _ (by decide) (by decide), hg "distance" _ (by decide) (by decide),
        hg "beta" _ (by decide) (by decide), Option.getD_some, init]
      rw [if_pos]
      rw [Bool.and_eq_true]
      exact ⟨h, h'⟩
    · simp [Spec.Kept, Spec.params, lookup_cons, get, Spec.meant, Spec.needsTrain]
  · refine ⟨[("X", X), ("y", y)], ?_, ?_⟩
    · simp only [sig, List.map_cons, List.map_nil, hX, hy, init]
    · simp [Spec.Kept, Spec.params, lookup_cons, Spec.needsTrain]

example : ∃ ps, toolbox (.obj 1 false) (.obj 2 false) "QueryInstanceQUIRE" [("train_idx", .obj 3 false), ("lambda", .num 2)] = .ok (.quire, ps) ∧ ps.lookup "lambda" = some (.num 2) ∧
    ps.lookup "gamma" = some (.num 1) ∧ ps.lookup "train_idx" = some (.obj 3 false) := ⟨_, rfl, rfl, rfl, rfl⟩

/-- **C113** (toolbox): a parameter which the strategy does not have is refused with TypeError by the constructors that take no further keyword arguments, -/
theorem C113_toolbox_refused {name : String} {c : Cls} (hn : (name, c) ∈ Spec.toolboxStrategies) (hc : c ∈ [Cls.uncertainty, .qbc, .eer, .density, .coreset, .weighted, .oldRandom]) (X y : PVal)
    {kw : Kw} {p : String × PVal} (hp : p ∈ kw) (h1 : p.1 ∉ Spec.names c) (h2 : p.1 ≠ "train_idx") : toolbox X y name kw = .error .typeError := by
  unfold toolbox
  rw [clsOf_of_mem hn]
  simp only
  split
  · rfl
  · rename_i hXy
    rw [List.any_eq_true] at hXy
    have hx : p.1 ≠ "X" ∧ p.1 ≠ "y" := by
      constructor <;> intro e <;> exact hXy ⟨p, hp, by simp [e]⟩
    have : call (sig c) [] (("X", X) :: ("y", y) :: kw) = .error .typeError := by
      unfold call
      simp only
      rw [if_neg (by simp), if_neg (by simp), if_pos]
      rw [Bool.and_eq_true, List.any_eq_true]
      simp only [List.mem_cons, List.not_mem_nil, or_false] at hc
      rcases hc with rfl | rfl | rfl | rfl | rfl | rfl | rfl <;>
        refine ⟨rfl, p, List.mem_cons_of_mem _ (List.mem_cons_of_mem _ hp), ?_⟩ <;> simp [Spec.names] at h1 <;> simp [sig] <;> tauto
    rw [construct, this]

theorem call_insert {s : Sig} (hs : s.star = true) {n : String} (hn : n ∉ s.params.map Prod.fst) {a b : String × PVal} (ha : a.1 ∈ s.params.map Prod.fst) (hb : b.1 ∈ s.params.map Prod.fst) (v : PVal)
    (kw : Kw) : call s [] (a :: b :: (n, v) :: kw) = match call s [] (a :: b :: kw) with
      | .error e => .error e
      | .ok (b, extra) => .ok (b, (n, v) :: extra) := by
  have hl : ∀ q ∈ s.params, List.lookup q.1 (a :: b :: (n, v) :: kw) = List.lookup q.1 (a :: b :: kw) := by
    intro q hq
    have : q.1 ≠ n := fun e => hn (List.mem_map.2 ⟨q, hq, e⟩)
    obtain ⟨a1, a2⟩ := a
    obtain ⟨b1, b2⟩ := b
    rw [lookup_cons, lookup_cons, lookup_cons, lookup_cons, lookup_cons, if_neg this]
  have h3 : s.params.any (fun p => p.2.isNone && (List.lookup p.1 (a :: b :: (n, v) :: kw)).isNone) =
      s.params.any (fun p => p.2.isNone && (List.lookup p.1 (a :: b :: kw)).isNone) := by
    rw [Bool.eq_iff_iff, List.any_eq_true, List.any_eq_true]
    constructor <;> rintro ⟨q, hq, hh⟩ <;> refine ⟨q, hq, ?_⟩ <;> rw [hl q hq] at * <;> exact hh
  have h4 : s.params.map (fun p => (p.1, get (a :: b :: (n, v) :: kw) p.1 (p.2.getD .none))) = s.params.map (fun p => (p.1, get (a :: b :: kw) p.1 (p.2.getD .none))) := by
    apply List.map_congr_left
    intro q hq
    rw [get, get, hl q hq]
  unfold call
  simp only [List.length_nil, List.take_zero, List.drop_zero, hs, Bool.not_true, Bool.false_and, h3, h4]
  have ha' : (!(s.params.map Prod.fst).contains a.1) = false := by simpa using ha
  have hb' : (!(s.params.map Prod.fst).contains b.1) = false := by simpa using hb
  have hn' : (!(s.params.map Prod.fst).contains n) = true := by simpa using hn
  simp only [List.filter_cons, ha', hb', hn', if_true]
  have e1 : ¬ ((s.params.map Prod.fst).length < 0) := Nat.not_lt_zero _
  have e2 : ∀ l : Kw, (l.any fun p => ([] : List String).contains p.1) = false := fun l => by simp
  simp only [if_neg e1, e2, if_false, Bool.false_eq_true]
  by_cases h : (s.params.any fun p => p.2.isNone && (List.lookup p.1 (a :: b :: kw)).isNone) = true
  · simp only [if_pos h]
  · simp only [if_neg h]

/-- **C113**, violation: the other constructors ignore it. -/
theorem C113_toolbox_violation {name : String} {c : Cls} (hn : (name, c) ∈ Spec.toolboxStrategies) (hc : c ∈ [Cls.random, .quire, .bmdr, .spal, .lal]) (X y : PVal) (kw : Kw)
    (hXy : ∀ p ∈ kw, p.1 ≠ "X" ∧ p.1 ≠ "y") {n : String} (h1 : n ∉ Spec.names c) (h2 : n ∉ Spec.reserved) (v : PVal) :
    toolbox X y name ((n, v) :: kw) = toolbox X y name kw := by
  simp only [Spec.reserved, List.mem_cons, List.not_mem_nil, or_false, not_or] at h2
  rw [toolbox_eq hn hXy, toolbox_eq hn]
  · have hperm : construct c [] (("X", X) :: ("y", y) :: (n, v) :: kw) = construct c [] (("X", X) :: ("y", y) :: kw) := by
      have hX : "X" ∈ (sig c).params.map Prod.fst ∧ "y" ∈ (sig c).params.map Prod.fst := by cases c <;> simp [sig]
      simp only [List.mem_cons, List.not_mem_nil, or_false] at hc
      unfold construct
      rw [call_insert (by rcases hc with rfl | rfl | rfl | rfl | rfl <;> rfl) ?_ hX.1 hX.2]
      · cases call (sig c) [] (("X", X) :: ("y", y) :: kw) with
        | error e => rfl
        | ok p => exact init_cons h1 v p.1 p.2
      · rcases hc with rfl | rfl | rfl | rfl | rfl <;> simp [Spec.names] at h1 <;> simp [sig] <;> tauto
    rw [hperm]
  · intro p hp
    rcases List.mem_cons.1 hp with rfl | hp
    · exact ⟨h2.1, h2.2.1⟩
    · exact hXy p hp

example : toolbox (.obj 1 false) (.obj 2 false) "QueryInstanceUncertainty" [("meassure", .str "margin")] = .error .typeError :=
  C113_toolbox_refused (c := .uncertainty) (by decide) (by decide) _ _ (List.mem_singleton.2 rfl) (by decide) (by decide)

example : toolbox (.obj 1 false) (.obj 2 false) "QueryInstanceBMDR" [("betta", .num 5)] = .ok (.bmdr, [("X", .obj 1 false), ("y", .obj 2 false), ("beta", .num 1000), ("gamma", .num (1 / 10)),
    ("rho", .num 1), ("kernel", .str "rbf"), ("gamma_ker", .num 1)]) :=
  C113_toolbox_violation (c := .bmdr) (by decide) (by decide) _ _ [] (by simp) (by decide) (by decide) (.num 5)

end Alipy.Params
