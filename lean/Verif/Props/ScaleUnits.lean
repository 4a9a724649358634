import Verif.Props.Scale
import Mathlib.Tactic.LinearCombination
/-!
# Scaling forgets the units (C128)
-/
namespace Alipy

/-- A column in another unit: `u` is the factor, `o` the offset; NaN stays NaN. -/
def Spec.inUnit (u o : ℚ) (x : Option ℚ) : Option ℚ := x.map (fun v => u * v + o)
/-- A matrix with column `j` in the unit `u j` with offset `o j`. -/
def Spec.inUnits (u o : Nat → ℚ) (X : List (List (Option ℚ))) : List (List (Option ℚ)) :=
  X.map (fun r => r.mapIdx (fun j x => Spec.inUnit (u j) (o j) x))

namespace ScaleUnits

theorem nanmin_affine {u o : ℚ} (hu : 0 < u) : ∀ c : List (Option ℚ), nanmin (c.map (Spec.inUnit u o)) = Spec.inUnit u o (nanmin c)
  | [] => rfl
  | none :: l => by simpa [nanmin, Spec.inUnit] using nanmin_affine hu l
  | some x :: l => by
    have ih := nanmin_affine (o := o) hu l
    simp only [List.map_cons, Spec.inUnit, Option.map_some, nanmin] at ih ⊢
    rw [ih]
    cases nanmin l with
    | none => rfl
    | some m =>
      simp only [Option.map_some, Option.some.injEq]
      rcases le_total x m with h | h
      · rw [min_eq_left h, min_eq_left (by nlinarith)]
      · rw [min_eq_right h, min_eq_right (by nlinarith)]

theorem nanmax_affine {u o : ℚ} (hu : 0 < u) : ∀ c : List (Option ℚ), nanmax (c.map (Spec.inUnit u o)) = Spec.inUnit u o (nanmax c)
  | [] => rfl
  | none :: l => by simpa [nanmax, Spec.inUnit] using nanmax_affine hu l
  | some x :: l => by
    have ih := nanmax_affine (o := o) hu l
    simp only [List.map_cons, Spec.inUnit, Option.map_some, nanmax] at ih ⊢
    rw [ih]
    cases nanmax l with
    | none => rfl
    | some m =>
      simp only [Option.map_some, Option.some.injEq]
      rcases le_total x m with h | h
      · rw [max_eq_right h, max_eq_right (by nlinarith)]
      · rw [max_eq_left h, max_eq_left (by nlinarith)]

theorem nanmin_mirror {u o : ℚ} (hu : u < 0) : ∀ c : List (Option ℚ), nanmin (c.map (Spec.inUnit u o)) = Spec.inUnit u o (nanmax c)
  | [] => rfl
  | none :: l => by simpa [nanmin, nanmax, Spec.inUnit] using nanmin_mirror hu l
  | some x :: l => by
    have ih := nanmin_mirror (o := o) hu l
    simp only [List.map_cons, Spec.inUnit, Option.map_some, nanmin, nanmax] at ih ⊢
    rw [ih]
    cases nanmax l with
    | none => rfl
    | some m =>
      simp only [Option.map_some, Option.some.injEq]
      rcases le_total x m with h | h
      · rw [max_eq_right h, min_eq_right (by nlinarith)]
      · rw [max_eq_left h, min_eq_left (by nlinarith)]

theorem nanmax_mirror {u o : ℚ} (hu : u < 0) : ∀ c : List (Option ℚ), nanmax (c.map (Spec.inUnit u o)) = Spec.inUnit u o (nanmin c)
  | [] => rfl
  | none :: l => by simpa [nanmin, nanmax, Spec.inUnit] using nanmax_mirror hu l
  | some x :: l => by
    have ih := nanmax_mirror (o := o) hu l
    simp only [List.map_cons, Spec.inUnit, Option.map_some, nanmin, nanmax] at ih ⊢
    rw [ih]
    cases nanmin l with
    | none => rfl
    | some m =>
      simp only [Option.map_some, Option.some.injEq]
      rcases le_total x m with h | h
      · rw [min_eq_left h, max_eq_left (by nlinarith)]
      · rw [min_eq_right h, max_eq_right (by nlinarith)]

/-- The number of a constant column is its least one. -/
theorem const_eq {c : List (Option ℚ)} {lo hi v : ℚ} (h1 : nanmin c = some lo) (h2 : nanmax c = some hi) (h : hi - lo = 0) (hv : some v ∈ c) : v = lo := by
  rcases nanmin_spec c with ⟨e, _⟩ | ⟨m, e, hm⟩
  · rw [e] at h1; cases h1
  · rcases nanmax_spec c with ⟨e', _⟩ | ⟨M, e', hM⟩
    · rw [e'] at h2; cases h2
    · rw [e] at h1; rw [e'] at h2; cases h1; cases h2
      exact le_antisymm (by linarith [hM.2 v hv]) (hm.2 v hv)

theorem entry_affine {u o : ℚ} (hu : 0 < u) (a b : ℚ) {c : List (Option ℚ)} {x : Option ℚ} (hx : x ∈ c) :
    minmaxEntry a b (c.map (Spec.inUnit u o)) (Spec.inUnit u o x) = minmaxEntry a b c x := by
  unfold minmaxEntry
  rw [nanmin_affine hu, nanmax_affine hu]
  cases h1 : nanmin c with
  | none => rfl
  | some lo =>
    cases h2 : nanmax c with
    | none => rfl
    | some hi =>
      cases x with
      | none => rfl
      | some v =>
        simp only [Spec.inUnit, Option.map_some, Option.some.injEq]
        by_cases h : hi - lo = 0
        · rw [const_eq h1 h2 h hx]; simp
        · have h' : u * hi + o - (u * lo + o) ≠ 0 := fun e => h (by
            have : u * (hi - lo) = 0 := by linear_combination e
            exact (mul_eq_zero.1 this).resolve_left hu.ne')
          rw [handleZero, handleZero, if_neg h, if_neg h']
          have : (u * v + o - (u * lo + o)) / (u * hi + o - (u * lo + o)) = (v - lo) / (hi - lo) := by
            rw [div_eq_div_iff h' h]; ring
          rw [this]

theorem column_inUnits (u o : Nat → ℚ) (X : List (List (Option ℚ))) (j : Nat) :
    column (Spec.inUnits u o X) j = (column X j).map (Spec.inUnit (u j) (o j)) := by
  simp only [column, Spec.inUnits, List.map_map]
  refine List.map_congr_left fun r _ => ?_
  simp only [Function.comp, List.getD, List.getElem?_mapIdx]
  cases r[j]? <;> rfl

theorem mem_column {X : List (List (Option ℚ))} {r : List (Option ℚ)} (hr : r ∈ X) {j : Nat} (hj : j < r.length) : r[j] ∈ column X j :=
  List.mem_map.2 ⟨r, hr, by simp [List.getD, hj]⟩

/-- **C128**: the units of the features do not matter. Whatever unit (factor) and zero (offset) each column is measured in, `minmax_scale`
returns the same matrix, or raises the same error. -/
theorem C128_units (u o : Nat → ℚ) (hu : ∀ j, 0 < u j) (X : List (List (Option ℚ))) (a b : ℚ) :
    minmaxScale (Spec.inUnits u o X) a b = minmaxScale X a b := by
  unfold minmaxScale
  have he : (Spec.inUnits u o X).isEmpty = X.isEmpty := by cases X <;> rfl
  rw [he]
  split
  · rfl
  · split
    · rfl
    · congr 1
      simp only [column_inUnits]
      simp only [Spec.inUnits, List.map_map]
      refine List.map_congr_left fun r hr => ?_
      refine List.ext_getElem (by simp) fun j h1 h2 => ?_
      simp only [Function.comp, List.getElem_mapIdx]
      exact entry_affine (hu j) a b (mem_column hr _)

/-- **C128**: a column that grows the other way (a distance instead of a closeness) is mirrored in the range: its entry and the entry of the
original column add up to `a + b`, unless the column is constant. -/
theorem C128_mirrored {u o : Nat → ℚ} {X Y Z : List (List (Option ℚ))} {a b : ℚ} {j : Nat} (hu : u j < 0)
    (hY : minmaxScale X a b = .ok Y) (hZ : minmaxScale (Spec.inUnits u o X) a b = .ok Z)
    {p q : ℚ} (hp : some p ∈ column X j) (hq : some q ∈ column X j) (hpq : p ≠ q)
    {i : Nat} {r : List (Option ℚ)} (hr : X[i]? = some r) {x : ℚ} (hx : r[j]? = some (some x)) :
    ∃ s t y z, Y[i]? = some s ∧ s[j]? = some (some y) ∧ Z[i]? = some t ∧ t[j]? = some (some z) ∧ y + z = a + b := by
  obtain ⟨_, _, h1⟩ := minmaxScale_entry hY
  obtain ⟨_, _, h2⟩ := minmaxScale_entry hZ
  obtain ⟨s, hs, _, hsj⟩ := h1 i j r hr
  obtain ⟨t, ht, _, htj⟩ := h2 i j (r.mapIdx (fun j x => Spec.inUnit (u j) (o j) x)) (by simp [Spec.inUnits, hr])
  rw [hx, Option.map_some] at hsj
  rw [List.getElem?_mapIdx, hx, column_inUnits, Option.map_some, Option.map_some] at htj
  unfold minmaxEntry at hsj htj
  rw [nanmin_mirror hu, nanmax_mirror hu] at htj
  rcases nanmin_spec (column X j) with ⟨_, e⟩ | ⟨lo, e, hlo⟩
  · exact absurd hp (e p)
  rcases nanmax_spec (column X j) with ⟨_, e'⟩ | ⟨hi, e', hhi⟩
  · exact absurd hp (e' p)
  rw [e, e'] at hsj htj
  refine ⟨s, t, _, _, hs, hsj, ht, htj, ?_⟩
  have hne : hi - lo ≠ 0 := fun h0 => hpq (by
    have := hlo.2 p hp; have := hlo.2 q hq; have := hhi.2 p hp; have := hhi.2 q hq; linarith)
  have hne' : u j * lo + o j - (u j * hi + o j) ≠ 0 := fun h0 => hne (by
    have : u j * (hi - lo) = 0 := by linear_combination -h0
    exact (mul_eq_zero.1 this).resolve_left hu.ne)
  rw [handleZero, handleZero, if_neg hne, if_neg hne']
  have : (u j * x + o j - (u j * hi + o j)) / (u j * lo + o j - (u j * hi + o j)) = 1 - (x - lo) / (hi - lo) := by
    rw [div_eq_iff hne']; field_simp; ring
  rw [this]; ring

theorem column_scaled (X : List (List (Option ℚ))) (a b : ℚ) (j : Nat) :
    column (X.map (fun r => r.mapIdx (fun j x => minmaxEntry a b (column X j) x))) j = (column X j).map (minmaxEntry a b (column X j)) := by
  simp only [column, List.map_map]
  refine List.map_congr_left fun r _ => ?_
  simp only [Function.comp, List.getD, List.getElem?_mapIdx]
  cases r[j]? with
  | none => simp only [Option.map_none, Option.getD_none]; unfold minmaxEntry; split <;> first | rfl | simp_all
  | some v => rfl

/-- A scaled column is the column in another unit, unless it is constant or has no number at all. -/
theorem scaled_unit {a b : ℚ} (hab : a < b) (c : List (Option ℚ)) : ∃ u o, 0 < u ∧ ∀ x ∈ c, minmaxEntry a b c x = Spec.inUnit u o x := by
  rcases nanmin_spec c with ⟨_, e⟩ | ⟨lo, e, hlo⟩
  · refine ⟨1, 0, one_pos, fun x hx => ?_⟩
    cases x with
    | none => unfold minmaxEntry; split <;> first | rfl | simp_all
    | some v => exact absurd hx (e v)
  · rcases nanmax_spec c with ⟨_, e'⟩ | ⟨hi, e', hhi⟩
    · exact absurd hlo.1 (e' lo)
    · have hle : lo ≤ hi := hhi.2 _ hlo.1
      have hs : 0 < handleZero (hi - lo) := by
        unfold handleZero; split
        · norm_num
        · rename_i hne; exact lt_of_le_of_ne (by linarith) (Ne.symm hne)
      refine ⟨(b - a) / handleZero (hi - lo), a - lo * ((b - a) / handleZero (hi - lo)), div_pos (by linarith) hs, fun x _ => ?_⟩
      unfold minmaxEntry
      rw [e, e']
      cases x with
      | none => rfl
      | some v => simp only [Spec.inUnit, Option.map_some, Option.some.injEq]; ring

/-- **C128**: scaling a scaled matrix to another range is scaling the original matrix to that range; in particular scaling twice is scaling
once. -/
theorem C128_again {X Y : List (List (Option ℚ))} {a b : ℚ} (h : minmaxScale X a b = .ok Y) (c d : ℚ) :
    minmaxScale Y c d = minmaxScale X c d := by
  obtain ⟨hab, _, _⟩ := minmaxScale_entry h
  have hY : Y = Spec.inUnits (fun j => (scaled_unit hab (column X j)).choose) (fun j => (scaled_unit hab (column X j)).choose_spec.choose) X := by
    unfold minmaxScale at h
    split at h
    · cases h
    split at h
    · cases h
    cases h
    refine List.map_congr_left fun r hr => List.ext_getElem (by simp) fun j h1 h2 => ?_
    simp only [List.getElem_mapIdx]
    exact (scaled_unit hab (column X j)).choose_spec.choose_spec.2 _ (mem_column hr _)
  rw [hY]
  exact C128_units _ _ (fun j => (scaled_unit hab (column X j)).choose_spec.choose_spec.1) X c d

theorem nanmin_perm {c d : List (Option ℚ)} (h : c.Perm d) : nanmin c = nanmin d := by
  rcases nanmin_spec c with ⟨e, e2⟩ | ⟨m, e, hm⟩ <;> rcases nanmin_spec d with ⟨f, f2⟩ | ⟨n, f, hn⟩
  · rw [e, f]
  · exact absurd (h.mem_iff.2 hn.1) (e2 n)
  · exact absurd (h.mem_iff.1 hm.1) (f2 m)
  · rw [e, f, le_antisymm (hm.2 _ (h.mem_iff.2 hn.1)) (hn.2 _ (h.mem_iff.1 hm.1))]

theorem nanmax_perm {c d : List (Option ℚ)} (h : c.Perm d) : nanmax c = nanmax d := by
  rcases nanmax_spec c with ⟨e, e2⟩ | ⟨m, e, hm⟩ <;> rcases nanmax_spec d with ⟨f, f2⟩ | ⟨n, f, hn⟩
  · rw [e, f]
  · exact absurd (h.mem_iff.2 hn.1) (e2 n)
  · exact absurd (h.mem_iff.1 hm.1) (f2 m)
  · rw [e, f, le_antisymm (hn.2 _ (h.mem_iff.1 hm.1)) (hm.2 _ (h.mem_iff.2 hn.1))]

/-- **C128**: the order of the examples does not matter: there is one function of an example's own features, the same whatever the order of
the rows is, that gives its scaled features. -/
theorem C128_order {X : List (List (Option ℚ))} {a b : ℚ} {Y : List (List (Option ℚ))} (h : minmaxScale X a b = .ok Y) :
    ∃ f : List (Option ℚ) → List (Option ℚ), ∀ X', X'.Perm X → minmaxScale X' a b = .ok (X'.map f) := by
  refine ⟨fun r => r.mapIdx (fun j x => minmaxEntry a b (column X j) x), fun X' hp => ?_⟩
  unfold minmaxScale at h ⊢
  split at h
  · cases h
  rename_i hab
  split at h
  · cases h
  rename_i hX
  have hX' : ¬ X'.isEmpty = true := by
    rw [List.isEmpty_iff] at hX ⊢
    exact fun e => hX (by subst e; exact hp.symm.eq_nil)
  rw [if_neg hab, if_neg hX']
  congr 1
  refine List.map_congr_left fun r _ => ?_
  have : ∀ j x, minmaxEntry a b (column X' j) x = minmaxEntry a b (column X j) x := by
    intro j x
    have := hp.map (fun r => r.getD j none)
    unfold minmaxEntry column
    rw [nanmin_perm this, nanmax_perm this]
  simp only [this]

/-! ## `StandardScale` -/

theorem sum_affine (u o : ℚ) (f : ℚ → ℚ) : ∀ c : List ℚ, (c.map (fun x => u * f x + o)).sum = u * (c.map f).sum + c.length * o
  | [] => by simp
  | x :: l => by
    simp only [List.map_cons, List.sum_cons, sum_affine u o f l, List.length_cons, Nat.cast_add, Nat.cast_one]
    ring

theorem mean_affine (u o : ℚ) {c : List ℚ} (hc : c ≠ []) : mean (c.map (fun x => u * x + o)) = u * mean c + o := by
  have hl : (c.length : ℚ) ≠ 0 := by simpa using hc
  have := sum_affine u o id c
  rw [List.map_id] at this
  simp only [id] at this
  unfold mean
  rw [this, List.length_map]
  field_simp

theorem variance_affine (u o : ℚ) (c : List ℚ) : variance (c.map (fun x => u * x + o)) = u * u * variance c := by
  rcases eq_or_ne c [] with rfl | hc
  · simp [variance, mean]
  · unfold variance
    rw [mean_affine u o hc, List.map_map]
    have : ((fun x => (x - (u * mean c + o)) * (x - (u * mean c + o))) ∘ fun x => u * x + o) = fun x => (u * u) * ((x - mean c) * (x - mean c)) + 0 := by
      funext x; simp only [Function.comp]; ring
    rw [this]
    have h := sum_affine (u * u) 0 (fun x => (x - mean c) * (x - mean c)) c
    unfold mean
    unfold mean at h
    rw [h]
    simp only [List.length_map]
    ring

/-- **C128**: with `StandardScale` the zero of a feature does not matter, but its unit does: measured in a unit that makes the numbers `u`
times as large, the scaled numbers are `u` times as small (they are divided by the variance, not by the standard deviation). -/
theorem C128_standard_unit_violation {u : ℚ} (hu : u ≠ 0) (o : ℚ) (c : List ℚ) :
    standardColumn (c.map (fun x => u * x + o)) = (standardColumn c).map (fun y => y.map (fun v => v / u)) := by
  rcases eq_or_ne c [] with rfl | hc
  · rfl
  · unfold standardColumn
    rw [variance_affine, mean_affine u o hc, List.map_map, List.map_map]
    refine List.map_congr_left fun x _ => ?_
    simp only [Function.comp]
    by_cases hv : variance c = 0
    · simp [hv]
    · rw [if_neg hv, if_neg (mul_ne_zero (mul_ne_zero hu hu) hv)]
      simp only [Option.map_some, Option.some.injEq]
      field_simp
      ring

/-- **C128**: the zero of a feature does not matter for `StandardScale`. -/
theorem C128_standard_offset (o : ℚ) (c : List ℚ) : standardColumn (c.map (fun x => x + o)) = standardColumn c := by
  have := C128_standard_unit_violation one_ne_zero o c
  simpa using this

/-- **C128**: `StandardScale` applied twice undoes its scaling: what comes out are the differences to the mean in the original unit. -/
theorem C128_standard_twice_violation {c ys : List ℚ} (hv : variance c ≠ 0) (h : standardColumn c = ys.map some) :
    standardColumn ys = c.map (fun x => some (x - mean c)) := by
  have hys : ys = c.map (fun x => (1 / variance c) * x + (- mean c / variance c)) := by
    apply List.map_injective_iff.2 (Option.some_injective ℚ)
    rw [← h, List.map_map]
    unfold standardColumn
    refine List.map_congr_left fun x _ => ?_
    simp only [Function.comp, if_neg hv, Option.some.injEq]
    field_simp
    try ring
  rw [hys, C128_standard_unit_violation (one_div_ne_zero hv)]
  unfold standardColumn
  rw [List.map_map]
  refine List.map_congr_left fun x _ => ?_
  simp only [Function.comp, if_neg hv, Option.map_some, Option.some.injEq]
  field_simp

/-- A matrix with a missing value, its columns in other units, mirrored, and scaled twice. -/
example : (minmaxScale [[some 1, some 5], [some 3, none], [some 2, some 5]] 0 1).toOption = some [[some 0, some 0], [some 1, none], [some (1/2), some 0]] ∧
    Spec.inUnits (fun j => j + 2) (fun _ => 7) [[some 1, some 5], [some 3, none]] = [[some 9, some 22], [some 13, none]] ∧
    (minmaxScale (Spec.inUnits (fun j => j + 2) (fun _ => 7) [[some 1, some 5], [some 3, none], [some 2, some 5]]) 0 1).toOption =
      some [[some 0, some 0], [some 1, none], [some (1/2), some 0]] ∧
    (minmaxScale (Spec.inUnits (fun _ => -1) (fun _ => 0) [[some 1], [some 3], [some (3/2)]]) 0 1).toOption = some [[some 1], [some 0], [some (3/4)]] := by
  decide +kernel
/-- Kilometres and metres give different standardised numbers. -/
example : standardColumn [1, 3] = [some (-1), some 1] ∧ standardColumn [1000, 3000] = [some (-1/1000), some (1/1000)] ∧ variance [1, 3] = 1 ∧
    standardColumn [0, 4] = [some (-1/2), some (1/2)] ∧ standardColumn [-1/2, 1/2] = [some (-2), some 2] := by decide +kernel

end ScaleUnits
end Alipy
