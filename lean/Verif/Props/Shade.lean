import Verif.Model.Shade
import Verif.Spec.Shade
import Verif.Props.Analyser
import Verif.Props.CostCurve
/-!
# The shaded areas (C130)
-/
namespace Alipy.Shade
open Alipy Alipy.Analyser

theorem var_eq (l : List ℝ) : var l = Spec.variance l := by
  have h : ∀ l : List ℝ, mean l = Spec.average l := fun _ => rfl
  unfold var Spec.variance
  simp only [h, pow_two]

theorem rect_rows {α : Type} {m : List (List α)} (h : rect m = true) {r : List α} (hr : r ∈ m) : r.length = (m.headD []).length := by
  have := List.all_eq_true.1 h r hr
  simpa using this

theorem every_colMeans (k : Nat) (m : List (List ℝ)) : every k (colMeans m) = (idx (m.headD []).length k).map (fun j => mean (m.map (fun r => r.getD j 0))) := by
  rw [every_eq]
  have : (colMeans m).length = (m.headD []).length := by simp [colMeans]
  rw [this]
  refine List.map_congr_left fun j hj => ?_
  have hj := (mem_idx.1 hj).1
  rw [List.getD_eq_getElem _ _ (by rw [this]; exact hj)]
  simp [colMeans]

theorem every_colStds (k : Nat) (m : List (List ℝ)) : every k (colStds m) = (idx (m.headD []).length k).map (fun j => std (m.map (fun r => r.getD j 0))) := by
  rw [every_eq]
  have : (colStds m).length = (m.headD []).length := by simp [colStds]
  rw [this]
  refine List.map_congr_left fun j hj => ?_
  have hj := (mem_idx.1 hj).1
  rw [List.getD_eq_getElem _ _ (by rw [this]; exact hj)]
  simp [colStds]

theorem column_of {m : List (List ℝ)} (h : rect m = true) {j : Nat} (hj : j < (m.headD []).length) : Spec.Column m j (m.map (fun r => r.getD j 0)) := by
  unfold Spec.Column
  rw [List.map_map]
  refine List.map_congr_left fun r hr => ?_
  have : j < r.length := by rw [rect_rows h hr]; exact hj
  simp [this]

/-- What `fill_between` gets for one method. -/
theorem fill_eq (k : Nat) (m : List (List ℝ)) (sh : ℝ) : fill (xs (colMeans m).length k sh) (every k (colMeans m)) (every k (colStds m)) =
    .ok ((idx (m.headD []).length k).map (fun j : Nat => ((j : ℝ) + sh, Spec.band (m.map (fun r => r.getD j 0))))) := by
  have hl : (colMeans m).length = (m.headD []).length := by simp [colMeans]
  rw [every_colMeans, every_colStds, hl]
  unfold fill xs
  rw [if_pos (by simp [idx])]
  congr 1
  change (List.map (fun i : Nat => (i : ℝ) + sh) (idx (m.headD []).length k)).zip _ = _
  rw [List.zip_map', List.map_map, List.zip_map']
  refine List.map_congr_left fun j _ => ?_
  simp only [Function.comp, Spec.band, std, var_eq]
  rfl

theorem drawings_lines (allState : Bool) (start : Option ℝ) (k : Nat) : ∀ (l : List (String × List (List ℝ) × Summary ℝ)) (shift : Option ℝ),
    (drawings allState start k shift l).map (fun ds => ds.map (fun d => (d.name, d.line))) = curves allState start k shift l
  | [], _ => rfl
  | (name, m, s) :: rest, shift => by
    unfold drawings curves
    split
    · cases start with
      | none =>
        simp only [fill_eq]
        cases plot (xs (colMeans m).length k (shiftOf allState shift s)) (every k (colMeans m)) with
        | error e => rfl
        | ok l =>
          simp only [← drawings_lines allState none k rest (some (shiftOf allState shift s))]
          cases drawings allState none k (some (shiftOf allState shift s)) rest <;> rfl
      | some p =>
        simp only [fill_eq]
        cases plot (xs ((colMeans m).length + 1) k 0) (p :: every k (colMeans m)) with
        | error e => rfl
        | ok l =>
          simp only [← drawings_lines allState (some p) k rest (some 0)]
          cases drawings allState (some p) k (some 0) rest <;> rfl
    · rfl

/-- **C130**: the areas change nothing else: with `std_area` the same lines are drawn, or the same exception is raised, as without. -/
theorem C130_lines (a : Analyser ℝ) (xShift start : Option ℝ) (k : Nat) :
    (plotShaded a xShift start k).map (fun ds => ds.map (fun d => (d.name, d.line))) = plotCurves a xShift start k := by
  unfold plotShaded plotCurves
  split
  · rfl
  · exact drawings_lines _ _ _ _ _

/-- The area `b` surrounds the line `l`, whose points are taken from positions that are multiples of `k` of the folds in `rows`: at every point the
line shows the mean of the folds and the area one standard deviation of the folds to both sides; `d` is how far the area is moved to the left. -/
def Surrounds (d : ℝ) (rows : List (List ℝ)) (k : Nat) (l : List (ℝ × ℝ)) (b : List (ℝ × ℝ × ℝ)) : Prop :=
  List.Forall₂ (fun p q => q.1 = p.1 - d ∧ ∃ j vs, k ∣ j ∧ Spec.Column rows j vs ∧ p.2 = Spec.average vs ∧ q.2 = Spec.band vs) l b

theorem surrounds_idx {m : List (List ℝ)} (h : rect m = true) (k : Nat) (sh sh' : ℝ) :
    Surrounds (sh - sh') m k ((xs (colMeans m).length k sh).zip (every k (colMeans m)))
      ((idx (m.headD []).length k).map (fun j : Nat => ((j : ℝ) + sh', Spec.band (m.map (fun r => r.getD j 0))))) := by
  have hl : (colMeans m).length = (m.headD []).length := by simp [colMeans]
  rw [every_colMeans, hl]
  unfold xs Surrounds
  change List.Forall₂ _ ((List.map (fun i : Nat => (i : ℝ) + sh) (idx (m.headD []).length k)).zip _) _
  rw [List.zip_map', List.forall₂_map_left_iff, List.forall₂_map_right_iff, List.forall₂_same]
  intro j hj
  obtain ⟨h1, h2⟩ := mem_idx.1 hj
  exact ⟨by simp only; ring, j, _, h2, column_of h h1, rfl, rfl⟩

/-- **C130**: the area of every method surrounds its line, one standard deviation of the folds to both sides of their mean. -/
theorem C130_area {a : Analyser ℝ} {xShift : Option ℝ} {k : Nat} {ds : List Drawing} (h : plotShaded a xShift none k = .ok ds) :
    List.Forall₂ (fun e d => d.name = e.1 ∧ Surrounds 0 e.2.1 k d.line d.area) a.data ds := by
  unfold plotShaded at h
  split at h
  · cases h
  · have key : ∀ (l : List (String × List (List ℝ) × Summary ℝ)) (shift : Option ℝ) (ds : List Drawing), drawings a.allState none k shift l = .ok ds →
        List.Forall₂ (fun e d => d.name = e.1 ∧ Surrounds 0 e.2.1 k d.line d.area) l ds := by
      intro l
      induction l with
      | nil => intro shift ds h; cases h; exact .nil
      | cons e rest ih =>
        obtain ⟨name, m, s⟩ := e
        intro shift ds h
        unfold drawings at h
        split at h
        · rename_i hr
          simp only [fill_eq] at h
          split at h
          · cases h
          · rename_i l hl
            split at h
            · cases h
            · rename_i ds' hd
              cases h
              refine .cons ⟨rfl, ?_⟩ (ih _ _ hd)
              unfold plot at hl
              split at hl
              · cases hl
                have := surrounds_idx hr k (shiftOf a.allState shift s) (shiftOf a.allState shift s)
                rw [sub_self] at this
                exact this
              · cases hl
        · cases h
    exact key _ _ _ h

theorem xs_one (n : Nat) : xs (n + 1) 1 (0 : ℝ) = 0 :: xs n 1 1 := by
  have : ∀ n, (List.range n).filter (fun i => i % 1 == 0) = List.range n := fun n => List.filter_eq_self.2 (fun i _ => by simp [Nat.mod_one])
  unfold xs
  rw [this, this, List.range_succ_eq_map]
  simp [Function.comp_def]

/-- **C130**: also behind a start point, if every query is drawn. -/
theorem C130_start {a : Analyser ℝ} {xShift : Option ℝ} {p : ℝ} {ds : List Drawing} (h : plotShaded a xShift (some p) 1 = .ok ds) :
    List.Forall₂ (fun e d => d.name = e.1 ∧ ∃ l, d.line = (0, p) :: l ∧ Surrounds 0 e.2.1 1 l d.area) a.data ds := by
  unfold plotShaded at h
  split at h
  · cases h
  · have key : ∀ (l : List (String × List (List ℝ) × Summary ℝ)) (shift : Option ℝ) (ds : List Drawing), drawings a.allState (some p) 1 shift l = .ok ds →
        List.Forall₂ (fun e d => d.name = e.1 ∧ ∃ l, d.line = (0, p) :: l ∧ Surrounds 0 e.2.1 1 l d.area) l ds := by
      intro l
      induction l with
      | nil => intro shift ds h; cases h; exact .nil
      | cons e rest ih =>
        obtain ⟨name, m, s⟩ := e
        intro shift ds h
        unfold drawings at h
        split at h
        · rename_i hr
          simp only [fill_eq] at h
          split at h
          · cases h
          · rename_i l hl
            split at h
            · cases h
            · rename_i ds' hd
              cases h
              refine .cons ⟨rfl, ?_⟩ (ih _ _ hd)
              unfold plot at hl
              split at hl
              · cases hl
                rw [xs_one, List.zip_cons_cons]
                refine ⟨_, rfl, ?_⟩
                have := surrounds_idx hr 1 (1 : ℝ) (0 + 1)
                rw [zero_add, sub_self] at this
                rw [zero_add]
                exact this
              · cases hl
        · cases h
    exact key _ _ _ h

/-! ## What the area says about the folds -/

theorem sum_le_of {l : List ℝ} {f g : ℝ → ℝ} (h : ∀ x ∈ l, f x ≤ g x) : (l.map f).sum ≤ (l.map g).sum := by
  induction l with
  | nil => simp
  | cons a l ih =>
    have := ih (fun x hx => h x (by simp [hx]))
    have := h a (by simp)
    simp only [List.map_cons, List.sum_cons]; linarith

theorem sum_lt_of : ∀ {l : List ℝ} {f g : ℝ → ℝ}, l ≠ [] → (∀ x ∈ l, f x < g x) → (l.map f).sum < (l.map g).sum
  | [], _, _, h, _ => absurd rfl h
  | a :: l, f, g, _, h => by
    have h1 := sum_le_of (l := l) (f := f) (g := g) (fun x hx => (h x (by simp [hx])).le)
    have h2 := h a (by simp)
    simp only [List.map_cons, List.sum_cons]; linarith

theorem average_const {l : List ℝ} (hl : l ≠ []) (c : ℝ) : Spec.average (l.map fun _ => c) = c := by
  have : (l.length : ℝ) ≠ 0 := by simpa using hl
  unfold Spec.average
  simp only [List.map_const', List.sum_replicate, List.length_replicate, nsmul_eq_mul]
  field_simp

theorem average_mono {l : List ℝ} {f g : ℝ → ℝ} (h : ∀ x ∈ l, f x ≤ g x) : Spec.average (l.map f) ≤ Spec.average (l.map g) := by
  unfold Spec.average
  rw [List.length_map, List.length_map]
  exact div_le_div_of_nonneg_right (sum_le_of h) (Nat.cast_nonneg _)

theorem average_strict {l : List ℝ} (hl : l ≠ []) {f g : ℝ → ℝ} (h : ∀ x ∈ l, f x < g x) : Spec.average (l.map f) < Spec.average (l.map g) := by
  unfold Spec.average
  rw [List.length_map, List.length_map]
  exact div_lt_div_of_pos_right (sum_lt_of hl h) (by have := List.length_pos_iff.2 hl; exact_mod_cast this)

theorem variance_nonneg (l : List ℝ) : 0 ≤ Spec.variance l := by
  unfold Spec.variance Spec.average
  refine div_nonneg ?_ (Nat.cast_nonneg _)
  refine List.sum_nonneg ?_
  intro x hx
  obtain ⟨y, _, rfl⟩ := List.mem_map.1 hx
  exact sq_nonneg _

/-- **C130**: the line runs between the lowest and the highest fold. -/
theorem C130_between {vs : List ℝ} (hv : vs ≠ []) {lo hi : ℝ} (hlo : ∀ x ∈ vs, lo ≤ x) (hhi : ∀ x ∈ vs, x ≤ hi) : lo ≤ Spec.average vs ∧ Spec.average vs ≤ hi := by
  have e : vs.map (fun x => x) = vs := List.map_id' vs
  constructor
  · have := average_mono (l := vs) (f := fun _ => lo) (g := fun x => x) hlo
    rwa [average_const hv, e] at this
  · have := average_mono (l := vs) (f := fun x => x) (g := fun _ => hi) hhi
    rwa [average_const hv, e] at this

/-- **C130**: the area has no width exactly where all folds agree; some fold always lies in it, and some fold on its border or outside. -/
theorem C130_folds {vs : List ℝ} (hv : vs ≠ []) :
    ((Spec.band vs).1 = (Spec.band vs).2 ↔ ∀ x ∈ vs, ∀ y ∈ vs, x = y) ∧
    (∃ x ∈ vs, (Spec.band vs).1 ≤ x ∧ x ≤ (Spec.band vs).2) ∧ (∃ x ∈ vs, x ≤ (Spec.band vs).1 ∨ (Spec.band vs).2 ≤ x) := by
  have hn := variance_nonneg vs
  have hs : √(Spec.variance vs) ^ 2 = Spec.variance vs := Real.sq_sqrt hn
  have h0 := Real.sqrt_nonneg (Spec.variance vs)
  have hin : ∃ x ∈ vs, (x - Spec.average vs) ^ 2 ≤ Spec.variance vs := by
    by_contra hc
    push Not at hc
    have := average_strict hv (f := fun _ => Spec.variance vs) (g := fun x => (x - Spec.average vs) ^ 2) hc
    rw [average_const hv] at this
    exact lt_irrefl _ this
  have hout : ∃ x ∈ vs, Spec.variance vs ≤ (x - Spec.average vs) ^ 2 := by
    by_contra hc
    push Not at hc
    have := average_strict hv (f := fun x => (x - Spec.average vs) ^ 2) (g := fun _ => Spec.variance vs) hc
    rw [average_const hv] at this
    exact lt_irrefl _ this
  refine ⟨⟨fun h => ?_, fun h => ?_⟩, ?_, ?_⟩
  · have hz : √(Spec.variance vs) = 0 := by simp only [Spec.band] at h; linarith
    have hz' : Spec.variance vs = 0 := by rw [← hs, hz]; ring
    have : ∀ x ∈ vs, x = Spec.average vs := by
      intro x hx
      by_contra hne
      have hpos : 0 < (x - Spec.average vs) ^ 2 := by
        have : x - Spec.average vs ≠ 0 := sub_ne_zero.2 hne
        positivity
      have hle : (x - Spec.average vs) ^ 2 ≤ (vs.map (fun y => (y - Spec.average vs) ^ 2)).sum :=
        List.single_le_sum (fun y hy => by obtain ⟨z, _, rfl⟩ := List.mem_map.1 hy; exact sq_nonneg _) _ (List.mem_map.2 ⟨x, hx, rfl⟩)
      have hl : (0 : ℝ) < vs.length := by have := List.length_pos_iff.2 hv; exact_mod_cast this
      have : 0 < Spec.variance vs := by
        unfold Spec.variance
        rw [Spec.average, List.length_map]
        exact div_pos (by linarith) hl
      linarith
    intro x hx y hy
    rw [this x hx, this y hy]
  · obtain ⟨x, hx, hxv⟩ := hin
    have havg : Spec.average vs = x := by
      obtain ⟨h1, h2⟩ := C130_between hv (lo := x) (hi := x) (fun y hy => (h x hx y hy).le) (fun y hy => (h y hy x hx).le)
      exact le_antisymm h2 h1
    have hv0 : Spec.variance vs = 0 := by
      obtain ⟨y, hy, hyv⟩ := hout
      have : y = Spec.average vs := by rw [havg]; exact h y hy x hx
      rw [this, sub_self] at hyv
      have : (0 : ℝ) ^ 2 = 0 := by ring
      rw [this] at hyv
      exact le_antisymm hyv hn
    simp [Spec.band, hv0]
  · obtain ⟨x, hx, hxv⟩ := hin
    have := abs_le.1 (abs_le_of_sq_le_sq (a := x - Spec.average vs) (b := √(Spec.variance vs)) (by rw [hs]; exact hxv) h0)
    refine ⟨x, hx, ?_, ?_⟩ <;> simp only [Spec.band] <;> linarith [this.1, this.2]
  · obtain ⟨x, hx, hxv⟩ := hout
    refine ⟨x, hx, ?_⟩
    have := sq_le_sq.1 (show √(Spec.variance vs) ^ 2 ≤ (x - Spec.average vs) ^ 2 by rw [hs]; exact hxv)
    rw [abs_of_nonneg h0] at this
    simp only [Spec.band]
    rcases le_abs.1 this with h | h
    · right; linarith
    · left; linarith

/-- **C130**: in which order the folds are given does not matter. -/
theorem C130_order {vs ws : List ℝ} (h : vs.Perm ws) : Spec.average vs = Spec.average ws ∧ Spec.band vs = Spec.band ws := by
  have e : Spec.average vs = Spec.average ws := by unfold Spec.average; rw [h.sum_eq, h.length_eq]
  have e' : Spec.variance vs = Spec.variance ws := by
    unfold Spec.variance
    rw [e]
    have hp : ∀ {a b : List ℝ}, a.Perm b → Spec.average a = Spec.average b := fun h => by unfold Spec.average; rw [h.sum_eq, h.length_eq]
    exact hp (h.map (fun x => (x - Spec.average ws) ^ 2))
  exact ⟨e, by unfold Spec.band; rw [e, e']⟩

theorem idx_second {n k : Nat} (hk : 0 < k) (hn : 0 < n) (hl : (idx (n + 1) k).length = (idx n k).length + 1) : ∃ t, idx (n + 1) k = 0 :: k :: t := by
  have hd : k ∣ n := by
    by_contra hc
    rw [idx_length_succ, if_neg hc] at hl
    omega
  obtain ⟨u, hu⟩ := idx_cons (k := k) (n := n + 1) (by omega)
  have hkm : k ∈ idx (n + 1) k := mem_idx.2 ⟨Nat.lt_succ_of_le (Nat.le_of_dvd hn hd), dvd_refl _⟩
  have hs := idx_sorted (n + 1) k
  rw [hu] at hkm hs
  rcases List.mem_cons.1 hkm with h0 | hkm
  · omega
  · cases u with
    | nil => simp at hkm
    | cons c u' =>
      refine ⟨u', ?_⟩
      have hc : c ∈ idx (n + 1) k := by rw [hu]; simp
      have hpos : 0 < c := (List.pairwise_cons.1 hs).1 c (by simp)
      have hle := Nat.le_of_dvd hpos (mem_idx.1 hc).2
      rcases List.mem_cons.1 hkm with rfl | hkm
      · exact hu
      · have := (List.pairwise_cons.1 (List.pairwise_cons.1 hs).2).1 k hkm
        omega

/-- With a start point and an interval the area is not around the line: the mean of the first queries is drawn at `k`, its area at 1. -/
theorem C130_interval_violation {a : Analyser ℝ} {xShift : Option ℝ} {p : ℝ} {k : Nat} (hk : 1 < k) {ds : List Drawing}
    (h : plotShaded a xShift (some p) k = .ok ds) (hd : ∀ e ∈ a.data, ∃ r ∈ e.2.1, r ≠ []) :
    ∀ d ∈ ds, ∃ y l w b, d.line = (0, p) :: ((k : ℝ), y) :: l ∧ d.area = (1, w) :: b := by
  unfold plotShaded at h
  split at h
  · cases h
  · have key : ∀ (l : List (String × List (List ℝ) × Summary ℝ)) (shift : Option ℝ) (ds : List Drawing), (∀ e ∈ l, ∃ r ∈ e.2.1, r ≠ []) →
        drawings a.allState (some p) k shift l = .ok ds → ∀ d ∈ ds, ∃ y l w b, d.line = (0, p) :: ((k : ℝ), y) :: l ∧ d.area = (1, w) :: b := by
      intro l
      induction l with
      | nil => intro shift ds _ h; cases h; simp
      | cons e rest ih =>
        obtain ⟨name, m, s⟩ := e
        intro shift ds hne h
        unfold drawings at h
        split at h
        · rename_i hr
          simp only [fill_eq] at h
          split at h
          · cases h
          · rename_i l hl
            split at h
            · cases h
            · rename_i ds' hd
              cases h
              intro d hd'
              rcases List.mem_cons.1 hd' with rfl | hd'
              · obtain ⟨r, hrm, hrne⟩ := hne (name, m, s) (by simp)
                have hn : 0 < (m.headD []).length := by
                  rw [← rect_rows hr hrm]
                  exact List.length_pos_iff.2 hrne
                have hN : (colMeans m).length = (m.headD []).length := by simp [colMeans]
                unfold plot at hl
                split at hl
                · rename_i hlen
                  have hx : xs (K := ℝ) ((m.headD []).length + 1) k 0 = (idx ((m.headD []).length + 1) k).map (fun i : Nat => (i : ℝ) + 0) := rfl
                  rw [every_colMeans, hN, hx] at hlen
                  simp only [List.length_map, List.length_cons] at hlen
                  obtain ⟨t, ht⟩ := idx_second (by omega) hn hlen
                  obtain ⟨u, hu⟩ := idx_cons (k := k) hn
                  cases hl
                  rw [every_colMeans, hN, hx, ht, hu]
                  simp
                · cases hl
              · exact ih _ _ (fun e he => hne e (by simp [he])) hd d hd'
        · cases h
    exact key _ _ _ hd h

/-! ## Curves over costs -/

open CostCurve in
theorem drawShaded_eq (allState : Bool) (xShift : ℝ) (start : Option ℝ) (effective step : ℝ) (m : Method ℝ) :
    (drawShaded allState xShift start effective step m).map (fun d => (d.name, d.line)) = drawMethod allState xShift start effective step m := by
  unfold drawShaded drawMethod
  simp only
  split
  · rfl
  · cases maxOf (List.map (fun p => (p.headD (0, 0)).1) (List.map (foldPoints (front allState start m.ip)) m.folds)) with
    | none => rfl
    | some x0 =>
      simp only [fill, List.length_map, and_self, if_true]
      rw [List.zip_map']
      rfl

theorem mapM_map {α β γ ε : Type} {f : α → Except ε β} {g : α → Except ε γ} {u : β → γ} (h : ∀ a, (f a).map u = g a) :
    ∀ l : List α, (l.mapM f).map (List.map u) = l.mapM g
  | [] => rfl
  | a :: l => by
    rw [List.mapM_cons, List.mapM_cons, ← h a, ← mapM_map h l]
    cases f a with
    | error e => rfl
    | ok b => cases l.mapM f <;> rfl

/-- **C130**: also for the curves over costs nothing else changes. -/
theorem C130_cost_lines (allState : Bool) (ms : List (CostCurve.Method ℝ)) (xShift : ℝ) (start interval : Option ℝ) :
    (plotShadedCost allState ms xShift start interval).map (fun ds => ds.map (fun d => (d.name, d.line))) = CostCurve.plotCurves allState ms xShift start interval := by
  unfold plotShadedCost CostCurve.plotCurves
  cases CostCurve.totalCost ms with
  | error e => rfl
  | ok c => exact mapM_map (drawShaded_eq allState xShift start c.2 (interval.getD (c.2 / 100))) ms

theorem mapM_forall {α β ε : Type} {f : α → Except ε β} {R : α → β → Prop} : ∀ {l : List α} {bs : List β}, l.mapM f = .ok bs → (∀ a ∈ l, ∀ b, f a = .ok b → R a b) → List.Forall₂ R l bs
  | [], _, h, _ => by cases h; exact .nil
  | a :: l, bs, h, hr => by
    rw [List.mapM_cons] at h
    cases hb : f a with
    | error e => rw [hb] at h; cases h
    | ok b =>
      rw [hb] at h
      cases hl : l.mapM f with
      | error e => change (l.mapM f >>= fun bs => pure (b :: bs)) = _ at h; rw [hl] at h; cases h
      | ok cs =>
        change (l.mapM f >>= fun bs => pure (b :: bs)) = _ at h
        rw [hl] at h
        cases h
        exact .cons (hr a (by simp) b hb) (mapM_forall hl (fun a ha => hr a (by simp [ha])))

open CostCurve in
/-- The area of one method. -/
theorem drawShaded_spec {allState : Bool} {xShift effective step : ℝ} {start : Option ℝ} {m : Method ℝ} {d : Drawing} (hs : 0 < step)
    (hf : ∀ f ∈ m.folds, f ≠ [] ∧ (∀ q ∈ f, 0 < q.cost.sum) ∧ effective ≤ (sums f).sum) (h : drawShaded allState xShift start effective step m = .ok d) :
    d.name = m.name ∧ List.Forall₂ (fun p q => q.1 = p.1 - xShift ∧
      ∃ vs, List.Forall₂ (fun f v => Spec.OnPolyline (((front allState start m.ip).toList.map (fun p => (0, p))) ++ Spec.costPoints 0 (pairs f)) q.1 v) m.folds vs ∧
        p.2 = Spec.average vs ∧ q.2 = Spec.band vs) d.line d.area := by
  unfold drawShaded at h
  simp only at h
  set fr := front allState start m.ip with hfr
  split at h
  · cases h
  · cases hx : maxOf (List.map (fun p => (p.headD (0, 0)).1) (List.map (foldPoints fr) m.folds)) with
    | none => rw [hx] at h; cases h
    | some x0 =>
      rw [hx] at h
      simp only [fill, List.length_map, and_self, if_true] at h
      cases h
      refine ⟨rfl, ?_⟩
      simp only
      have hmx : ∀ f ∈ m.folds, ((foldPoints fr f).headD (0, 0)).1 ≤ x0 := by
        intro f hfm
        have hne : List.map (fun p : List (ℝ × ℝ) => (p.headD (0, 0)).1) (List.map (foldPoints fr) m.folds) ≠ [] := by
          have := List.ne_nil_of_mem hfm
          simpa using this
        obtain ⟨y, e, _, hall⟩ := maxOf_spec hne
        rw [hx] at e
        cases e
        exact hall _ (List.mem_map.2 ⟨_, List.mem_map.2 ⟨f, hfm, rfl⟩, rfl⟩)
      conv =>
        arg 3
        rw [List.zip_map', List.map_map]
        rw [← List.map_id (arange x0 effective step)]
        rw [List.map_map, List.zip_map']
      rw [List.zip_map', List.forall₂_map_left_iff, List.forall₂_map_right_iff, List.forall₂_same]
      intro t ht
      refine ⟨by simp, (List.map (foldPoints fr) m.folds).map (fun l => interp l t), ?_, rfl, ?_⟩
      · obtain ⟨j, hj, hjs⟩ := (mem_arange hs).1 ht
        rw [List.map_map, List.forall₂_map_right_iff, List.forall₂_same]
        intro f hfm
        obtain ⟨g1, ⟨p, g2⟩, q, g3, g4⟩ := foldPoints_spec (fr := fr) (hf f hfm).1 (hf f hfm).2.1
        have hpt : p.1 ≤ t := by
          have := hmx f hfm
          rw [List.headD_eq_head?_getD, g2] at this
          have hj0 : 0 ≤ (j : ℝ) * step := mul_nonneg (Nat.cast_nonneg j) hs.le
          simp only [Option.getD_some] at this
          linarith
        have htq : t ≤ q.1 := by
          have := (hf f hfm).2.2
          linarith
        have : interp (foldPoints fr f) t = lin (foldPoints fr f) t := by
          unfold interp
          rw [g2, g3]
          simp only
          rw [if_neg]
          rintro (h | h) <;> linarith
        simp only [Function.comp, id]
        rw [this, ← foldPoints_eq]
        exact lin_spec g1 g2 g3 hpt htq
      · simp only [Function.comp, id, Spec.band, std, var_eq]
        rfl

theorem mem_forall₂ {α β : Type} {R : α → β → Prop} : ∀ {l : List α} {bs : List β}, List.Forall₂ R l bs → ∀ {b}, b ∈ bs → ∃ a ∈ l, R a b
  | _, _, .cons (a := a) h t, b, hb => by
    rcases List.mem_cons.1 hb with rfl | hb
    · exact ⟨a, by simp, h⟩
    · obtain ⟨c, hc, hr⟩ := mem_forall₂ t hb
      exact ⟨c, by simp [hc], hr⟩

open CostCurve in
/-- **C130**: if all queries have positive costs, then the area of every method shows one standard deviation of the folds' lines to both sides of their mean,
which is what the line of the method shows; the line is moved by `x_shift`, the area is not. -/
theorem C130_cost_area {allState : Bool} {ms : List (Method ℝ)} {xShift : ℝ} {start interval : Option ℝ} {ds : List Drawing} (hi : ∀ s, interval = some s → 0 < s)
    (hf : ∀ m ∈ ms, ∀ f ∈ m.folds, f ≠ [] ∧ ∀ q ∈ f, 0 < q.cost.sum) (h : plotShadedCost allState ms xShift start interval = .ok ds) :
    List.Forall₂ (fun m d => d.name = m.name ∧ List.Forall₂ (fun p q => q.1 = p.1 - xShift ∧
      ∃ vs, List.Forall₂ (fun f v => Spec.OnPolyline (((if start.isSome then start else if allState then m.ip else none).toList.map (fun p => (0, p))) ++
          Spec.costPoints 0 (pairs f)) q.1 v) m.folds vs ∧
        p.2 = Spec.average vs ∧ q.2 = Spec.band vs) d.line d.area) ms ds := by
  unfold plotShadedCost totalCost at h
  cases hc : minOf (totals ms) with
  | none => rw [hc] at h; cases h
  | some c =>
    rw [hc] at h
    simp only at h
    obtain ⟨g1, g2⟩ := minOf_spec hc
    have hcpos : 0 < c := by
      obtain ⟨m, hm, f, hfm, rfl⟩ := mem_totals.1 g1
      obtain ⟨h1, h2⟩ := hf m hm f hfm
      obtain ⟨p, h3, h4⟩ := costPoints_last (l := pairs f) (c := 0) (by simpa [pairs] using h1)
      have := costPoints_gt (l := pairs f) (c := 0) (by
        intro x hx
        obtain ⟨q, hq, rfl⟩ := List.mem_map.1 hx
        exact h2 q hq) p.1 (List.mem_map.2 ⟨p, List.mem_of_getLast? h3, rfl⟩)
      rw [h4, zero_add] at this
      exact this
    have hstep : 0 < interval.getD (c / 100) := by
      cases h : interval with
      | none => simp only [Option.getD_none]; positivity
      | some s => exact hi s h
    refine mapM_forall h ?_
    intro m hm d hd
    have hfr : front allState start m.ip = (if start.isSome then start else if allState then m.ip else none) := by
      unfold front
      cases start <;> cases allState <;> simp
      cases m.ip <;> simp
    rw [← hfr]
    refine drawShaded_spec hstep (fun f hfm => ⟨(hf m hm f hfm).1, (hf m hm f hfm).2, ?_⟩) hd
    have := g2 _ (mem_totals.2 ⟨m, hm, f, hfm, rfl⟩)
    simpa [pairs, sums, Function.comp_def] using this

/-- So with any `x_shift` other than 0 no part of the area belongs to the point of the line above which it is drawn: for positive costs, every point of the line
has its area elsewhere. -/
theorem C130_shift_violation {allState : Bool} {ms : List (CostCurve.Method ℝ)} {xShift : ℝ} {start interval : Option ℝ} {ds : List Drawing}
    (hi : ∀ s, interval = some s → 0 < s) (hf : ∀ m ∈ ms, ∀ f ∈ m.folds, f ≠ [] ∧ ∀ q ∈ f, 0 < q.cost.sum)
    (h : plotShadedCost allState ms xShift start interval = .ok ds) (hx : xShift ≠ 0) :
    ∀ d ∈ ds, List.Forall₂ (fun p q => q.1 ≠ p.1) d.line d.area := by
  intro d hd
  obtain ⟨m, _, _, hm⟩ := mem_forall₂ (C130_cost_area hi hf h) hd
  refine hm.imp ?_
  rintro p q ⟨e, _⟩ he
  rw [he] at e
  exact hx (by linarith)

/-! ## Concrete cases -/

theorem band_two (x y : ℝ) (h : x ≤ y) : Spec.band [x, y] = (x, y) := by
  have e : Spec.variance [x, y] = ((y - x) / 2) ^ 2 := by
    simp only [Spec.variance, Spec.average, List.map_cons, List.map_nil, List.sum_cons, List.sum_nil, List.length_cons, List.length_nil]
    push_cast
    ring
  unfold Spec.band
  rw [e, Real.sqrt_sq (by linarith)]
  simp only [Spec.average, List.sum_cons, List.sum_nil, List.length_cons, List.length_nil]
  push_cast
  ext <;> ring

/-- Two folds with performances 1, 3 and 3, 3: the area reaches from 1 to 3 after the first query and has no width after the second. -/
example (s : Summary ℝ) : plotShaded ⟨[("a", [[1, 3], [3, 3]], s)], false⟩ none none 1 = .ok [⟨"a", [(1, 2), (2, 3)], [(1, 1, 3), (2, 3, 3)]⟩] := by
  have hr : rect [[(1 : ℝ), 3], [3, 3]] = true := by simp [rect]
  have hi : idx 2 1 = [0, 1] := by decide
  have hf := fill_eq 1 [[(1 : ℝ), 3], [3, 3]] (shiftOf false none s)
  rw [show (([[(1 : ℝ), 3], [3, 3]] : List (List ℝ)).headD []).length = 2 from rfl, hi] at hf
  simp only [plotShaded, List.isEmpty_cons, Bool.false_eq_true, if_false, drawings, hr, if_true, hf]
  have hp : plot (xs (K := ℝ) (colMeans [[(1 : ℝ), 3], [3, 3]]).length 1 (shiftOf false none s)) (every 1 (colMeans [[(1 : ℝ), 3], [3, 3]])) = .ok [(1, 2), (2, 3)] := by
    simp [plot, xs, every, colMeans, List.range_succ, shiftOf, mean]
    norm_num
  rw [hp]
  simp only [List.map_cons, List.map_nil, List.getD_cons_zero, List.getD_cons_succ]
  rw [band_two 1 3 (by norm_num), band_two 3 3 (le_refl _)]
  simp [shiftOf]
  norm_num

/-- Four queries drawn every second one behind a start point: the line has points at 0, 2 and 4, the area at 1 and 3. -/
example (s : Summary ℝ) : ∃ ds, plotShaded ⟨[("a", [[1, 2, 3, 4]], s)], false⟩ none (some 0) 2 = .ok ds ∧ ∀ d ∈ ds, ∃ y l w b, d.line = (0, 0) :: (((2 : ℕ) : ℝ), y) :: l ∧ d.area = (1, w) :: b := by
  have : ∃ ds, plotShaded ⟨[("a", [[1, 2, 3, 4]], s)], false⟩ none (some 0) 2 = .ok ds := by
    have hr : rect [[(1 : ℝ), 2, 3, 4]] = true := by simp [rect]
    simp only [plotShaded, List.isEmpty_cons, Bool.false_eq_true, if_false, drawings, hr, if_true, fill_eq]
    have hx : xs (K := ℝ) ((colMeans [[(1 : ℝ), 2, 3, 4]]).length + 1) 2 0 = (idx 5 2).map (fun i : Nat => (i : ℝ) + 0) := by simp [colMeans, xs, idx]
    rw [hx, every_colMeans]
    have h5 : (idx 5 2).length = 3 := by decide
    have h4 : (idx 4 2).length = 2 := by decide
    simp only [plot, List.length_map, List.length_cons, List.headD_cons, List.length_nil, h5]
    rw [if_pos (by simpa using h4)]
    exact ⟨_, rfl⟩
  obtain ⟨ds, h⟩ := this
  exact ⟨ds, h, C130_interval_violation (by omega) h (by simp)⟩

/-- Two folds with different costs: curves are drawn, moved to the right by 5, with areas that are not. -/
example : ∃ ds, plotShadedCost false [⟨"a", [[⟨[1], 2⟩, ⟨[1], 4⟩], [⟨[2], 2⟩]], none⟩] 5 none none = .ok ds ∧ ds.length = 1 ∧ ∀ d ∈ ds, List.Forall₂ (fun p q => q.1 ≠ p.1) d.line d.area := by
  have hf : ∀ m ∈ ([⟨"a", [[⟨[1], 2⟩, ⟨[1], 4⟩], [⟨[2], 2⟩]], none⟩] : List (CostCurve.Method ℝ)), m.folds ≠ [] ∧ ∀ f ∈ m.folds, f ≠ [] ∧ ∀ q ∈ f, 0 < q.cost.sum := by
    simp
  obtain ⟨c, _, cs, h1, h2⟩ := CostCurve.C75_curve_partial (allState := false) (xShift := (5 : ℝ)) (start := none) (interval := none) (by simp) (by simp) hf
  rw [← C130_cost_lines] at h1
  generalize hd : plotShadedCost false _ (5 : ℝ) none none = r at h1
  cases r with
  | error e => cases h1
  | ok ds =>
    refine ⟨ds, rfl, ?_, C130_shift_violation (by simp) (fun m hm => (hf m hm).2) hd (by norm_num)⟩
    exact (C130_cost_area (by simp) (fun m hm => (hf m hm).2) hd).length_eq.symm

/-- Folds with performances 1, 2 and 3: the second lies in the area, the others outside. -/
example : ∃ x ∈ [(1 : ℝ), 2, 3], x ≤ (Spec.band [1, 2, 3]).1 ∨ (Spec.band [1, 2, 3]).2 ≤ x := (C130_folds (by simp)).2.2

end Alipy.Shade
