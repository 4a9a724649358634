import Verif.Model.Scale
import Mathlib.Tactic.Linarith
import Mathlib.Tactic.FieldSimp
import Mathlib.Tactic.Ring
import Mathlib.Tactic.Positivity
import Mathlib.Data.List.GetD
/-!
# Properties of the scalers (C36, C52)
-/
namespace Alipy

/-- `m` is the least number of a column. -/
def Spec.IsLeast (c : List (Option ℚ)) (m : ℚ) : Prop := some m ∈ c ∧ ∀ x, some x ∈ c → m ≤ x
/-- `m` is the greatest number of a column. -/
def Spec.IsGreatest (c : List (Option ℚ)) (m : ℚ) : Prop := some m ∈ c ∧ ∀ x, some x ∈ c → x ≤ m

theorem nanmin_spec : ∀ (c : List (Option ℚ)), (nanmin c = none ∧ ∀ x, some x ∉ c) ∨ ∃ m, nanmin c = some m ∧ Spec.IsLeast c m
  | [] => Or.inl ⟨rfl, by simp⟩
  | none :: l => by
    rcases nanmin_spec l with ⟨h1, h2⟩ | ⟨m, h1, h2, h3⟩
    · exact Or.inl ⟨h1, by simpa using h2⟩
    · exact Or.inr ⟨m, h1, by simp [h2], by simpa using h3⟩
  | some y :: l => by
    rcases nanmin_spec l with ⟨h1, h2⟩ | ⟨m, h1, h2, h3⟩
    · refine Or.inr ⟨y, by simp [nanmin, h1], by simp, ?_⟩
      intro x hx
      rcases List.mem_cons.1 hx with h | h
      · cases h; exact le_refl _
      · exact absurd h (h2 x)
    · refine Or.inr ⟨min y m, by simp [nanmin, h1], ?_, ?_⟩
      · rcases min_choice y m with h | h <;> rw [h] <;> simp [h2]
      · intro x hx
        rcases List.mem_cons.1 hx with h | h
        · cases h; exact min_le_left _ _
        · exact le_trans (min_le_right _ _) (h3 x h)

theorem nanmax_spec : ∀ (c : List (Option ℚ)), (nanmax c = none ∧ ∀ x, some x ∉ c) ∨ ∃ m, nanmax c = some m ∧ Spec.IsGreatest c m
  | [] => Or.inl ⟨rfl, by simp⟩
  | none :: l => by
    rcases nanmax_spec l with ⟨h1, h2⟩ | ⟨m, h1, h2, h3⟩
    · exact Or.inl ⟨h1, by simpa using h2⟩
    · exact Or.inr ⟨m, h1, by simp [h2], by simpa using h3⟩
  | some y :: l => by
    rcases nanmax_spec l with ⟨h1, h2⟩ | ⟨m, h1, h2, h3⟩
    · refine Or.inr ⟨y, by simp [nanmax, h1], by simp, ?_⟩
      intro x hx
      rcases List.mem_cons.1 hx with h | h
      · cases h; exact le_refl _
      · exact absurd h (h2 x)
    · refine Or.inr ⟨max y m, by simp [nanmax, h1], ?_, ?_⟩
      · rcases max_choice y m with h | h <;> rw [h] <;> simp [h2]
      · intro x hx
        rcases List.mem_cons.1 hx with h | h
        · cases h; exact le_max_left _ _
        · exact le_trans (h3 x h) (le_max_right _ _)

theorem minmaxEntry_eq {a b : ℚ} {c : List (Option ℚ)} {lo hi : ℚ} (hlo : Spec.IsLeast c lo) (hhi : Spec.IsGreatest c hi) (x : ℚ) :
    minmaxEntry a b c (some x) = some ((x - lo) / handleZero (hi - lo) * (b - a) + a) := by
  rcases nanmin_spec c with ⟨_, h⟩ | ⟨m, h1, h2⟩
  · exact absurd hlo.1 (h lo)
  · rcases nanmax_spec c with ⟨_, h⟩ | ⟨M, g1, g2⟩
    · exact absurd hlo.1 (h lo)
    · have e1 : m = lo := le_antisymm (h2.2 _ hlo.1) (hlo.2 _ h2.1)
      have e2 : M = hi := le_antisymm (hhi.2 _ g2.1) (g2.2 _ hhi.1)
      simp [minmaxEntry, h1, g1, e1, e2]

/-- What `minmax_scale` returns, entry by entry: the same shape, each entry scaled with its own column. -/
theorem minmaxScale_entry {X : List (List (Option ℚ))} {a b : ℚ} {Y : List (List (Option ℚ))} (h : minmaxScale X a b = .ok Y) :
    a < b ∧ Y.length = X.length ∧ ∀ (i j : Nat) (r : List (Option ℚ)), X[i]? = some r → ∃ s : List (Option ℚ), Y[i]? = some s ∧ s.length = r.length ∧
      s[j]? = (r[j]?).map (minmaxEntry a b (column X j)) := by
  unfold minmaxScale at h
  split at h
  · exact absurd h (by simp)
  · split at h
    · exact absurd h (by simp)
    · rename_i hab _
      simp only [Except.ok.injEq] at h
      subst h
      refine ⟨not_le.1 hab, by simp, ?_⟩
      intro i j r hr
      refine ⟨r.mapIdx (fun j x => minmaxEntry a b (column X j) x), by simp [hr], by simp, by simp⟩

/-- **C36**: the values of a scaled matrix. For each column with least number `lo` and greatest number `hi`: every number is mapped into
`[a, b]`; the order is kept, strictly; if the column is not constant `lo` goes to `a` and `hi` to `b`; a constant column goes to `a`. -/
theorem C36_minmax {X : List (List (Option ℚ))} {a b : ℚ} {Y : List (List (Option ℚ))} (h : minmaxScale X a b = .ok Y) (j : Nat)
    {lo hi : ℚ} (hlo : Spec.IsLeast (column X j) lo) (hhi : Spec.IsGreatest (column X j) hi) :
    ∃ f : ℚ → ℚ, (∀ (i : Nat) (r : List (Option ℚ)) (x : ℚ), X[i]? = some r → r[j]? = some (some x) →
        (∃ s, Y[i]? = some s ∧ s.length = r.length ∧ s[j]? = some (some (f x))) ∧ a ≤ f x ∧ f x ≤ b) ∧
      (∀ x y, lo < hi → x < y → f x < f y) ∧ (lo < hi → f lo = a ∧ f hi = b) ∧ (lo = hi → f lo = a) := by
  obtain ⟨hab, _, hent⟩ := minmaxScale_entry h
  have hmem : ∀ (i : Nat) (r : List (Option ℚ)) (x : ℚ), X[i]? = some r → r[j]? = some (some x) → some x ∈ column X j := by
    intro i r x hr hx
    refine List.mem_map.2 ⟨r, List.mem_of_getElem? hr, ?_⟩
    simp [List.getD, hx]
  have hle : lo ≤ hi := hhi.2 _ hlo.1
  have hs : 0 < handleZero (hi - lo) := by
    unfold handleZero; split
    · norm_num
    · rename_i hne
      have : 0 ≤ hi - lo := by linarith
      exact lt_of_le_of_ne this (Ne.symm hne)
  have hba : 0 < b - a := by linarith
  refine ⟨fun x => (x - lo) / handleZero (hi - lo) * (b - a) + a, ?_, ?_, ?_, ?_⟩
  · intro i r x hr hx
    have hm := hmem i r x hr hx
    have h1 := hlo.2 x hm
    have h2 := hhi.2 x hm
    obtain ⟨s, hs1, hs2, hs3⟩ := hent i j r hr
    refine ⟨⟨s, hs1, hs2, ?_⟩, ?_, ?_⟩
    · rw [hs3, hx, Option.map_some, minmaxEntry_eq hlo hhi]
    · have : 0 ≤ (x - lo) / handleZero (hi - lo) * (b - a) := by
        apply mul_nonneg (div_nonneg (by linarith) hs.le) hba.le
      simp only; linarith
    · have hd : (x - lo) / handleZero (hi - lo) ≤ 1 := by
        rw [div_le_one hs]
        unfold handleZero
        split
        · linarith
        · linarith
      have : (x - lo) / handleZero (hi - lo) * (b - a) ≤ 1 * (b - a) := mul_le_mul_of_nonneg_right hd hba.le
      simp only; linarith
  · intro x y _ hxy
    have : (x - lo) / handleZero (hi - lo) < (y - lo) / handleZero (hi - lo) := by
      apply div_lt_div_of_pos_right _ hs; linarith
    have := mul_lt_mul_of_pos_right this hba
    simp only; linarith
  · intro hlt
    have hne : hi - lo ≠ 0 := by linarith
    have : handleZero (hi - lo) = hi - lo := by simp [handleZero, hne]
    simp only [this, sub_self, zero_div, zero_mul, zero_add, true_and]
    rw [div_self hne]; ring
  · intro he
    simp [he]

/-- **C36**: NaN stays NaN. -/
theorem C36_minmax_nan {X : List (List (Option ℚ))} {a b : ℚ} {Y : List (List (Option ℚ))} (h : minmaxScale X a b = .ok Y)
    {i j : Nat} {r : List (Option ℚ)} (hr : X[i]? = some r) (hx : r[j]? = some none) :
    ∃ s, Y[i]? = some s ∧ s[j]? = some none := by
  obtain ⟨_, _, hent⟩ := minmaxScale_entry h
  obtain ⟨s, hs1, _, hs3⟩ := hent i j r hr
  refine ⟨s, hs1, ?_⟩
  rw [hs3, hx]
  simp only [Option.map_some, minmaxEntry]
  split <;> simp_all

/-- **C36**: `minmax_scale` succeeds on every matrix with a row for every proper range, and refuses an improper one. -/
theorem C36_minmax_returns (X : List (List (Option ℚ))) (hX : X ≠ []) (a b : ℚ) :
    (a < b → ∃ Y, minmaxScale X a b = .ok Y) ∧ (b ≤ a → minmaxScale X a b = .error .valueError) := by
  constructor
  · intro h
    exact ⟨_, by rw [minmaxScale, if_neg (not_le.2 h), if_neg (by simpa using hX)]⟩
  · intro h
    rw [minmaxScale, if_pos h]

example : minmaxScale [[some 1, some 5], [some 3, none], [some 2, some 5]] 0 1 =
    .ok [[some 0, some 0], [some 1, none], [some (1/2), some 0]] := by
  norm_num [minmaxScale, minmaxEntry, column, nanmin, nanmax, handleZero]

/-! ## C52 StandardScale -/

theorem sum_map_sub (c : List ℚ) (m : ℚ) : (c.map (fun x => x - m)).sum = c.sum - c.length * m := by
  induction c with
  | nil => simp
  | cons a l ih => simp only [List.map_cons, List.sum_cons, ih, List.length_cons]; push_cast; ring

theorem sum_map_mul (c : List ℚ) (f : ℚ → ℚ) (m : ℚ) : (c.map (fun x => f x * m)).sum = (c.map f).sum * m := by
  induction c with
  | nil => simp
  | cons a l ih => simp only [List.map_cons, List.sum_cons, ih]; ring

/-- The numbers of a column scaled by `StandardScale` if it is not constant. -/
theorem standardColumn_eq {c : List ℚ} (hv : variance c ≠ 0) :
    standardColumn c = (c.map (fun x => (x - mean c) / variance c)).map some := by
  simp [standardColumn, hv, List.map_map, Function.comp_def]

/-- **C52**: the scaled column has mean 0. -/
theorem C52_standard_mean {c ys : List ℚ} (hv : variance c ≠ 0) (h : standardColumn c = ys.map some) : mean ys = 0 := by
  rw [standardColumn_eq hv] at h
  have hinj := List.map_injective_iff.2 (Option.some_injective ℚ) h
  subst hinj
  have hne : c ≠ [] := by intro hc; subst hc; simp [variance, mean] at hv
  have hl : (c.length : ℚ) ≠ 0 := by
    have : c.length ≠ 0 := by simpa using hne
    exact_mod_cast this
  simp only [mean, List.length_map, div_eq_mul_inv]
  rw [sum_map_mul c (fun x => x - c.sum * (c.length : ℚ)⁻¹)]
  rw [sum_map_sub]
  field_simp
  simp

/-- **C52**, what is true of the variance: dividing by the variance instead of its root leaves the variance `1 / var`. -/
theorem C52_standard_variance_partial {c ys : List ℚ} (hv : variance c ≠ 0) (h : standardColumn c = ys.map some) :
    variance ys = 1 / variance c := by
  have hm := C52_standard_mean hv h
  rw [standardColumn_eq hv] at h
  have hinj := List.map_injective_iff.2 (Option.some_injective ℚ) h
  subst hinj
  unfold variance at hm ⊢
  rw [hm]
  simp only [List.map_map, Function.comp_def, sub_zero]
  have e : (c.map (fun x => (x - mean c) / variance c * ((x - mean c) / variance c))).sum =
      (c.map (fun x => (x - mean c) * (x - mean c))).sum * (1 / (variance c * variance c)) := by
    rw [← sum_map_mul]
    congr 1
    apply List.map_congr_left
    intro x _
    field_simp
  have hv' : variance c = (c.map (fun x => (x - mean c) * (x - mean c))).sum / c.length := by
    simp [variance, mean]
  change mean (c.map (fun x => (x - mean c) / variance c * ((x - mean c) / variance c))) = 1 / variance c
  unfold mean at e ⊢
  simp only [List.length_map]
  rw [e]
  rw [hv']
  rw [hv'] at hv
  unfold mean at hv ⊢
  generalize (c.map (fun x => (x - c.sum / c.length) * (x - c.sum / c.length))).sum = s at hv ⊢
  generalize (c.length : ℚ) = n at hv ⊢
  have hs : s ≠ 0 := by rintro rfl; simp at hv
  have hn : n ≠ 0 := by rintro rfl; simp at hv
  field_simp

/-- "Scaling to unit variance" fails for every column whose variance is neither 0 nor 1. -/
theorem C52_unit_variance_violation {c ys : List ℚ} (hv : variance c ≠ 0) (hv1 : variance c ≠ 1) (h : standardColumn c = ys.map some) :
    variance ys ≠ 1 := by
  rw [C52_standard_variance_partial hv h]
  intro he
  rw [div_eq_one_iff_eq hv] at he
  exact hv1 he.symm

/-- A constant column divides by zero. -/
theorem C52_constant_violation {c : List ℚ} {m : ℚ} (hne : c ≠ []) (hc : ∀ x ∈ c, x = m) :
    ∀ y ∈ standardColumn c, y = none := by
  have hl : (c.length : ℚ) ≠ 0 := by
    have : c.length ≠ 0 := by simpa using hne
    exact_mod_cast this
  have hrep : c = List.replicate c.length m := List.eq_replicate_of_mem hc
  have hmean : mean c = m := by
    rw [mean, hrep]; simp; field_simp
  have hv : variance c = 0 := by
    unfold variance
    rw [hmean]
    have : c.map (fun x => (x - m) * (x - m)) = c.map (fun _ => (0:ℚ)) := by
      apply List.map_congr_left; intro x hx; simp [hc x hx]
    rw [this]; simp [mean]
  intro y hy
  simp [standardColumn, hv] at hy
  exact hy.2

example : variance [0, 2, 4, 6] = 5 ∧ standardColumn [0, 2, 4, 6] = [some (-3/5), some (-1/5), some (1/5), some (3/5)] := by
  norm_num [variance, mean, standardColumn]

end Alipy
