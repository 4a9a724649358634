import Verif.Spec.Pooled
import Verif.Props.Analyser
import Mathlib.Tactic.FieldSimp
import Mathlib.Tactic.Ring
import Mathlib.Tactic.Linarith

/-! # C160: the results of several experiments can be pooled -/
namespace Alipy.Pooled
open Alipy Alipy.Analyser
set_option linter.unusedSectionVars false
variable {K : Type} [Field K] [LinearOrder K] [IsStrictOrderedRing K]

theorem cast_ne {α : Type} {l : List α} (h : l ≠ []) : (l.length : K) ≠ 0 := by
  have := List.length_pos_iff.2 h
  exact_mod_cast this.ne'

theorem cast_add_ne {α : Type} {a b : List α} (h : a ≠ []) : (a.length : K) + b.length ≠ 0 := by
  have := List.length_pos_iff.2 h
  exact_mod_cast (by omega : a.length + b.length ≠ 0)

theorem mean_append {a b : List K} (ha : a ≠ []) (hb : b ≠ []) : mean (a ++ b) = Spec.pooledMean a.length (mean a) b.length (mean b) := by
  have h1 := cast_ne (K := K) ha
  have h2 := cast_ne (K := K) hb
  unfold mean Spec.pooledMean
  rw [List.sum_append, List.length_append, Nat.cast_add, mul_div_cancel₀ _ h1, mul_div_cancel₀ _ h2]

theorem squares (c : K) : ∀ l : List K, (l.map fun x => (x - c) * (x - c)).sum = (l.map fun x => x * x).sum - 2 * c * l.sum + l.length * (c * c)
  | [] => by simp
  | x :: l => by
    simp only [List.map_cons, List.sum_cons, squares c l, List.length_cons, Nat.cast_add, Nat.cast_one]
    ring

theorem var_append {a b : List K} (ha : a ≠ []) (hb : b ≠ []) : var (a ++ b) = Spec.pooledVariance a.length (mean a) (var a) b.length (mean b) (var b) := by
  have h1 := cast_ne (K := K) ha
  have h2 := cast_ne (K := K) hb
  have h3 := cast_add_ne (K := K) (b := b) ha
  have key : ∀ l : List K, var l = ((l.map fun x => x * x).sum - 2 * mean l * l.sum + l.length * (mean l * mean l)) / l.length := by
    intro l
    rw [← squares]
    unfold var
    conv_lhs => unfold mean
    rw [List.length_map]
    rfl
  rw [key, key a, key b, mean_append ha hb, List.map_append, List.sum_append, List.sum_append, List.length_append, Nat.cast_add]
  unfold Spec.pooledVariance Spec.pooledMean mean
  field_simp
  ring

theorem meanAfter_append {F G : List (Option K × List K)} (hF : F ≠ []) (hG : G ≠ []) (q : Nat) (v : K) :
    Spec.MeanAfter (F ++ G) q v ↔ ∃ v₁ v₂, Spec.MeanAfter F q v₁ ∧ Spec.MeanAfter G q v₂ ∧ v = Spec.pooledMean F.length v₁ G.length v₂ := by
  constructor
  · rintro ⟨vs, h, rfl⟩
    rw [List.map_append] at h
    obtain ⟨a, b, rfl, ha, hb⟩ := List.map_eq_append_iff.1 h.symm
    have la : a.length = F.length := by simpa using congrArg List.length ha
    have lb : b.length = G.length := by simpa using congrArg List.length hb
    have hane : a ≠ [] := by rintro rfl; exact hF (List.length_eq_zero_iff.1 la.symm)
    have hbne : b ≠ [] := by rintro rfl; exact hG (List.length_eq_zero_iff.1 lb.symm)
    refine ⟨_, _, ⟨a, ha.symm, rfl⟩, ⟨b, hb.symm, rfl⟩, ?_⟩
    have := mean_append hane hbne
    rw [la, lb] at this
    simpa only [mean] using this
  · rintro ⟨v₁, v₂, ⟨a, ha, rfl⟩, ⟨b, hb, rfl⟩, rfl⟩
    have la : a.length = F.length := by simpa using congrArg List.length ha.symm
    have lb : b.length = G.length := by simpa using congrArg List.length hb.symm
    have hane : a ≠ [] := by rintro rfl; exact hF (List.length_eq_zero_iff.1 la.symm)
    have hbne : b ≠ [] := by rintro rfl; exact hG (List.length_eq_zero_iff.1 lb.symm)
    refine ⟨a ++ b, by rw [List.map_append, List.map_append, ha, hb], ?_⟩
    have := mean_append hane hbne
    rw [la, lb] at this
    simpa only [mean] using this.symm

theorem meanAfter_unique {F : List (Option K × List K)} {q : Nat} {v w : K} (h : Spec.MeanAfter F q v) (h' : Spec.MeanAfter F q w) : v = w := by
  obtain ⟨a, ha, rfl⟩ := h
  obtain ⟨b, hb, rfl⟩ := h'
  rw [ha] at hb
  rw [List.map_injective_iff.2 (Option.some_injective _) hb]

/-- Folds of the same shape have means after the same numbers of queries. -/
theorem meanAfter_other {b : Bool} {n : Nat} {F G : List (Option K × List K)} (hF : Uniform b n F) (hG : Uniform b n G) {q : Nat} {v : K} (h : Spec.MeanAfter F q v) :
    ∃ w, Spec.MeanAfter G q w := by
  obtain ⟨f, hf⟩ := List.exists_mem_of_ne_nil _ hF.1
  obtain ⟨vs, hv, -⟩ := h
  have hs : ∃ y, Spec.after f q = some y := by
    have : Spec.after f q ∈ vs.map some := by rw [← hv]; exact List.mem_map_of_mem hf
    obtain ⟨y, -, e⟩ := List.mem_map.1 this
    exact ⟨y, e.symm⟩
  have hall : ∀ g ∈ G, ∃ y, Spec.after g q = some y := by
    intro g hg
    obtain ⟨f1, f2⟩ := hF.2 f hf
    obtain ⟨g1, g2⟩ := hG.2 g hg
    cases q with
    | zero =>
      obtain ⟨y, hy⟩ := hs
      simp only [Spec.after] at hy ⊢
      rw [hy] at f1
      exact Option.isSome_iff_exists.1 (by rw [g1, ← f1]; rfl)
    | succ q =>
      obtain ⟨y, hy⟩ := hs
      simp only [Spec.after] at hy ⊢
      have := (List.getElem?_eq_some_iff.1 hy).1
      exact ⟨_, List.getElem?_eq_getElem (by omega)⟩
  choose! y hy using hall
  refine ⟨_, G.map y, ?_, rfl⟩
  rw [List.map_map]
  exact List.map_congr_left fun g hg => hy g hg

/-- **C160**: add the results of one experiment, those of another of the same length, and both together to an analyser. The learning curve of all folds has its points where the
others have theirs, and is at each of them the mean of the other two, weighted with the numbers of folds. -/
theorem C160_curve {b : Bool} {n k : Nat} (hk : 0 < k) {x y z : String} (hn : [x, y, z].Nodup) {r s t : Results K} (hr : Uniform b n r.toFolds) (hs : Uniform b n s.toFolds)
    (ht : t.toFolds = r.toFolds ++ s.toFolds) :
    ∃ a c₁ c₂ c, addMethods ⟨[], true⟩ [(x, r), (y, s), (z, t)] = .ok a ∧ plotCurves a none none k = .ok [(x, c₁), (y, c₂), (z, c)] ∧
      Spec.PooledCurve r.toFolds.length s.toFolds.length c₁ c₂ c := by
  have htu : Uniform b n t.toFolds := by
    refine ⟨by rw [ht]; simp [hr.1], fun f hf => ?_⟩
    rw [ht] at hf
    rcases List.mem_append.1 hf with h | h
    · exact hr.2 f h
    · exact hs.2 f h
  obtain ⟨a, ha, cs, hcs, hf⟩ := C73_curve_partial (b := b) hk (ms := [(x, r), (y, s), (z, t)]) (by simp) (by simpa using hn) (by
    intro m hm
    simp only [List.mem_cons, List.not_mem_nil, or_false] at hm
    rcases hm with rfl | rfl | rfl
    exacts [⟨n, hr⟩, ⟨n, hs⟩, ⟨n, htu⟩])
  cases hf with
  | @cons _ d₁ _ _ h₁ hf =>
  cases hf with
  | @cons _ d₂ _ _ h₂ hf =>
  cases hf with
  | @cons _ d₃ _ _ h₃ hf =>
  cases hf
  obtain ⟨x', c₁⟩ := d₁
  obtain ⟨y', c₂⟩ := d₂
  obtain ⟨z', c⟩ := d₃
  obtain ⟨rfl, -, p₁⟩ := h₁
  obtain ⟨rfl, -, p₂⟩ := h₂
  obtain ⟨rfl, -, p₃⟩ := h₃
  refine ⟨a, c₁, c₂, c, ha, hcs, ?_, ?_⟩
  · intro w
    simp only at p₁ p₂ p₃
    have mem : ∀ {c : List (K × K)}, w ∈ c.map Prod.fst ↔ ∃ v, (w, v) ∈ c := by intro c; simp
    rw [mem, mem, mem]
    constructor
    · constructor
      · rintro ⟨v, hv⟩
        obtain ⟨q, h0, hd, e, hm⟩ := (p₃ w v).1 hv
        rw [ht, meanAfter_append hr.1 hs.1] at hm
        obtain ⟨v₁, v₂, m₁, m₂, -⟩ := hm
        exact ⟨v₁, (p₁ w v₁).2 ⟨q, h0, hd, e, m₁⟩⟩
      · rintro ⟨v, hv⟩
        obtain ⟨q, h0, hd, e, hm⟩ := (p₁ w v).1 hv
        obtain ⟨v', hm'⟩ := meanAfter_other hr htu hm
        exact ⟨v', (p₃ w v').2 ⟨q, h0, hd, e, hm'⟩⟩
    · constructor
      · rintro ⟨v, hv⟩
        obtain ⟨q, h0, hd, e, hm⟩ := (p₃ w v).1 hv
        rw [ht, meanAfter_append hr.1 hs.1] at hm
        obtain ⟨v₁, v₂, m₁, m₂, -⟩ := hm
        exact ⟨v₂, (p₂ w v₂).2 ⟨q, h0, hd, e, m₂⟩⟩
      · rintro ⟨v, hv⟩
        obtain ⟨q, h0, hd, e, hm⟩ := (p₂ w v).1 hv
        obtain ⟨v', hm'⟩ := meanAfter_other hs htu hm
        exact ⟨v', (p₃ w v').2 ⟨q, h0, hd, e, hm'⟩⟩
  · intro w v v₁ v₂ hv hv₁ hv₂
    obtain ⟨q, h0, hd, e, hm⟩ := (p₃ w v).1 hv
    obtain ⟨q₁, -, -, e₁, hm₁⟩ := (p₁ w v₁).1 hv₁
    obtain ⟨q₂, -, -, e₂, hm₂⟩ := (p₂ w v₂).1 hv₂
    have eq₁ : q₁ = q := by have := e₁.symm.trans e; simpa using this
    have eq₂ : q₂ = q := by have := e₂.symm.trans e; simpa using this
    subst eq₁
    subst eq₂
    rw [ht, meanAfter_append hr.1 hs.1] at hm
    obtain ⟨u₁, u₂, m₁, m₂, rfl⟩ := hm
    rw [meanAfter_unique hm₁ m₁, meanAfter_unique hm₂ m₂]

/-- **C160**: so it lies between them. -/
theorem C160_between {n₁ n₂ : Nat} (h₁ : 0 < n₁) {c₁ c₂ c : List (K × K)} (h : Spec.PooledCurve n₁ n₂ c₁ c₂ c) {x v v₁ v₂ : K} (hv : (x, v) ∈ c) (hv₁ : (x, v₁) ∈ c₁)
    (hv₂ : (x, v₂) ∈ c₂) : min v₁ v₂ ≤ v ∧ v ≤ max v₁ v₂ := by
  rw [h.2 x v v₁ v₂ hv hv₁ hv₂]
  unfold Spec.pooledMean
  have p₁ : (0 : K) < n₁ := by exact_mod_cast h₁
  have p₂ : (0 : K) ≤ n₂ := n₂.cast_nonneg
  have a₁ := mul_le_mul_of_nonneg_left (min_le_left v₁ v₂) p₁.le
  have a₂ := mul_le_mul_of_nonneg_left (min_le_right v₁ v₂) p₂
  have b₁ := mul_le_mul_of_nonneg_left (le_max_left v₁ v₂) p₁.le
  have b₂ := mul_le_mul_of_nonneg_left (le_max_right v₁ v₂) p₂
  constructor
  · rw [le_div_iff₀ (by linarith)]; linarith
  · rw [div_le_iff₀ (by linarith)]; linarith

theorem minLen_const {n : Nat} : ∀ {l : List Nat}, l ≠ [] → (∀ a ∈ l, a = n) → minLen l = n
  | [], h, _ => absurd rfl h
  | [a], _, h => h a (by simp)
  | a :: b :: l, _, h => by
    rw [minLen, minLen_const (by simp) fun c hc => h c (by simp [hc]), h a (by simp), Nat.min_self]
    simp

/-- **C160**, the table: for `StateIO`s of the same length the mean of all is the mean of the parts weighted with the numbers of folds, and the squared deviation is that of
the parts together with the distance of their means. -/
theorem C160_states {b : Bool} {n : Nat} {fs gs : List (Fold K)} (hf : Uniform b n (Results.states fs).toFolds) (hg : Uniform b n (Results.states gs).toFolds) :
    ∃ s t r, stateSummary fs = .ok s ∧ stateSummary gs = .ok t ∧ stateSummary (fs ++ gs) = .ok r ∧ r.folds = s.folds + t.folds ∧ r.effective = s.effective ∧
      r.effective = t.effective ∧ r.mean = Spec.pooledMean s.folds s.mean t.folds t.mean ∧ r.var = Spec.pooledVariance s.folds s.mean s.var t.folds t.mean t.var := by
  have key : ∀ {fs : List (Fold K)}, Uniform b n (Results.states fs).toFolds → stateSummary fs = .ok ⟨n, fs.length, (fs.getLast?).bind Fold.ip,
      mean (fs.map fun f => mean (f.ip.toList ++ f.perf)), var (fs.map fun f => mean (f.ip.toList ++ f.perf))⟩ := by
    intro fs h
    have hne : fs ≠ [] := by rintro rfl; exact h.1 rfl
    have hall : ∀ f ∈ fs, f.ip.isSome = b ∧ f.perf.length = n := by
      intro f hf
      have := h.2 (f.ip, f.perf) (by simp only [Results.toFolds]; exact List.mem_map.2 ⟨f, hf, rfl⟩)
      exact this
    have hm : minLen (fs.map fun f => f.perf.length) = n := minLen_const (by simpa using hne) fun a ha => by
      obtain ⟨f, hf, rfl⟩ := List.mem_map.1 ha
      exact (hall f hf).2
    have hex : (fs.map fun f => f.ip.toList ++ f.perf.take n) = fs.map fun f => f.ip.toList ++ f.perf :=
      List.map_congr_left fun f hf => by rw [List.take_of_length_le (hall f hf).2.le]
    have hlen : ∀ f ∈ fs, (f.ip.toList ++ f.perf).length = b.toNat + n := by
      intro f hf
      obtain ⟨h1, h2⟩ := hall f hf
      rw [List.length_append, h2, ← h1]
      cases f.ip <;> rfl
    have hrect : rect (fs.map fun f => f.ip.toList ++ f.perf) = true := by
      obtain ⟨f, l, rfl⟩ := List.exists_cons_of_ne_nil hne
      simp only [rect, List.all_eq_true, List.mem_map, beq_iff_eq]
      rintro _ ⟨g, hg, rfl⟩
      rw [hlen g hg, List.map_cons, List.headD_cons, hlen f (by simp)]
    simp only [stateSummary, hm, hex, hrect, if_true, List.map_map, Function.comp_def]
  have hfg : Uniform b n (Results.states (fs ++ gs)).toFolds := by
    have e : (Results.states (fs ++ gs)).toFolds = (Results.states fs).toFolds ++ (Results.states gs).toFolds := by simp [Results.toFolds]
    rw [e]
    refine ⟨by simp [hf.1], fun f h => ?_⟩
    rcases List.mem_append.1 h with h | h
    · exact hf.2 f h
    · exact hg.2 f h
  have h1 : (fs.map fun f => mean (f.ip.toList ++ f.perf)) ≠ [] := by
    have : fs ≠ [] := by rintro rfl; exact hf.1 rfl
    simpa using this
  have h2 : (gs.map fun f => mean (f.ip.toList ++ f.perf)) ≠ [] := by
    have : gs ≠ [] := by rintro rfl; exact hg.1 rfl
    simpa using this
  refine ⟨_, _, _, key hf, key hg, key hfg, List.length_append, rfl, rfl, ?_, ?_⟩
  · simp only [List.map_append, mean_append h1 h2, List.length_map]
  · simp only [List.map_append, var_append h1 h2, List.length_map]

/-- **C160**, the table for lists of performances. -/
theorem C160_lists {n : Nat} (hn : 0 < n) {ls ks : List (List K)} (hl : ls ≠ [] ∧ ∀ l ∈ ls, l.length = n) (hk : ks ≠ [] ∧ ∀ l ∈ ks, l.length = n) :
    ∃ s t r, listSummary ls = .ok s ∧ listSummary ks = .ok t ∧ listSummary (ls ++ ks) = .ok r ∧ r.folds = s.folds + t.folds ∧ r.effective = s.effective ∧
      r.effective = t.effective ∧ r.mean = Spec.pooledMean s.folds s.mean t.folds t.mean ∧ r.var = Spec.pooledVariance s.folds s.mean s.var t.folds t.mean t.var := by
  have key : ∀ {ls : List (List K)}, ls ≠ [] → (∀ l ∈ ls, l.length = n) → listSummary ls = .ok ⟨n, ls.length, none, mean ls.flatten, var ls.flatten⟩ := by
    intro ls hne hall
    have hm : minLen (ls.map List.length) = n := minLen_const (by simpa using hne) fun a ha => by
      obtain ⟨f, hf, rfl⟩ := List.mem_map.1 ha
      exact hall f hf
    have hrect : rect ls = true := by
      obtain ⟨f, l, rfl⟩ := List.exists_cons_of_ne_nil hne
      simp only [rect, List.all_eq_true, beq_iff_eq]
      intro g hg
      rw [hall g hg, List.headD_cons, hall f (by simp)]
    simp only [listSummary, hm, hrect, if_true]
  have flen : ∀ {ls : List (List K)}, (∀ l ∈ ls, l.length = n) → ls.flatten.length = ls.length * n := by
    intro ls hall
    rw [List.length_flatten, List.map_congr_left (g := fun _ => n) hall]
    simp
  have fne : ∀ {ls : List (List K)}, ls ≠ [] → (∀ l ∈ ls, l.length = n) → ls.flatten ≠ [] := by
    intro ls hne hall h
    have h1 := flen hall
    rw [h, List.length_nil] at h1
    exact (Nat.mul_pos (List.length_pos_iff.2 hne) hn).ne h1
  have hn' : (n : K) ≠ 0 := by exact_mod_cast hn.ne'
  have hL := cast_add_ne (K := K) (b := ks) hl.1
  refine ⟨_, _, _, key hl.1 hl.2, key hk.1 hk.2, key (by simp [hl.1]) (fun l h => (List.mem_append.1 h).elim (hl.2 l) (hk.2 l)), List.length_append, rfl, rfl, ?_, ?_⟩
  · simp only [List.flatten_append, mean_append (fne hl.1 hl.2) (fne hk.1 hk.2), flen hl.2, flen hk.2, Spec.pooledMean, Nat.cast_mul]
    rw [div_eq_div_iff (by rw [← add_mul]; exact mul_ne_zero hL hn') hL]
    ring
  · simp only [List.flatten_append, var_append (fne hl.1 hl.2) (fne hk.1 hk.2), flen hl.2, flen hk.2, Spec.pooledMean, Spec.pooledVariance, Nat.cast_mul]
    have : (ls.length : K) * n + ks.length * n ≠ 0 := by rw [← add_mul]; exact mul_ne_zero hL hn'
    have e : (ls.length : K) * n + ks.length * n = (ls.length + ks.length) * n := by ring
    rw [e]
    field_simp

/-- One fold of one experiment and two of another. -/
example : ∃ a c₁ c₂ c, addMethods (K := ℚ) ⟨[], true⟩ [("one", .lists [[1, 4]]), ("two", .lists [[4, 7], [4, 1]]), ("all", .lists [[1, 4], [4, 7], [4, 1]])] = .ok a ∧
    plotCurves a none none 1 = .ok [("one", c₁), ("two", c₂), ("all", c)] ∧ Spec.PooledCurve 1 2 c₁ c₂ c :=
  C160_curve (b := false) (n := 2) one_pos (by decide) (r := .lists [[1, 4]]) (s := .lists [[4, 7], [4, 1]]) (t := .lists [[1, 4], [4, 7], [4, 1]]) (by simp [Uniform, Results.toFolds])
    (by simp [Uniform, Results.toFolds]) rfl

example : Spec.pooledMean 1 (1 : ℚ) 2 4 = 3 := by decide +kernel

end Alipy.Pooled
