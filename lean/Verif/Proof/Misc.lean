import Verif.Model.Misc
import Verif.Spec.Sampling
import Verif.Proof.IndexCollection
import Mathlib.Tactic.Linarith
import Mathlib.Data.List.Range
import Mathlib.Tactic.Ring
import Mathlib.Algebra.Order.Floor.Ring

namespace Alipy

theorem mem_pyRange (a b x : Int) : x ∈ pyRange a b ↔ a ≤ x ∧ x < b := by
  simp only [pyRange, List.mem_map, List.mem_range]
  constructor
  · rintro ⟨i, hi, rfl⟩; omega
  · intro h; exact ⟨(x - a).toNat, by omega, by omega⟩

theorem pyRange_nodup (a b : Int) : (pyRange a b).Nodup := by
  unfold pyRange
  apply List.Nodup.map _ List.nodup_range
  intro i j h; simpa using h

theorem pyRange_length (a b : Int) : (pyRange a b).length = (b - a).toNat := by simp [pyRange]

theorem pySliceTo_sublist {α : Type} (l : List α) (k : Int) : (pySliceTo l k).Sublist l := by
  unfold pySliceTo; split <;> exact List.take_sublist _ _

theorem pySliceFrom_sublist {α : Type} (l : List α) (k : Int) : (pySliceFrom l k).Sublist l := by
  unfold pySliceFrom; split <;> exact List.drop_sublist _ _

theorem pyRound_isRound (q : ℚ) : Spec.IsRound q (pyRound q) := by
  have h1 := Int.floor_le q
  have h2 := Int.lt_floor_add_one q
  have hx : q = (⌊q⌋ : ℚ) + (q - ⌊q⌋) := by ring
  unfold pyRound Spec.IsRound
  simp only
  split
  · rename_i h
    rw [abs_of_nonneg (by linarith)]
    exact ⟨by linarith, by intro e; linarith⟩
  · rename_i h
    split
    · rename_i h'
      push_cast
      rw [abs_of_nonpos (by linarith)]
      exact ⟨by linarith, by intro e; linarith⟩
    · rename_i h'
      have hd : q - ⌊q⌋ = 1 / 2 := by linarith
      split
      · rename_i he
        rw [hd, abs_of_nonneg (by norm_num)]
        exact ⟨le_refl _, fun _ => he⟩
      · rename_i he
        push_cast
        rw [abs_of_nonpos (by linarith)]
        exact ⟨by linarith, fun _ => by omega⟩

theorem isRound_unique {q : ℚ} {r s : Int} (hr : Spec.IsRound q r) (hs : Spec.IsRound q s) : r = s := by
  obtain ⟨r1, r2⟩ := hr
  obtain ⟨s1, s2⟩ := hs
  have hrs : |(r : ℚ) - s| ≤ 1 := by
    have : (r : ℚ) - s = (q - s) - (q - r) := by ring
    rw [this]
    calc |(q - s) - (q - r)| ≤ |q - s| + |q - r| := abs_sub _ _
      _ ≤ 1 := by linarith
  rcases lt_trichotomy r s with h | h | h
  · have hs1 : s = r + 1 := by
      have : (s : ℚ) - r ≤ 1 := by rw [abs_sub_comm] at hrs; exact le_trans (le_abs_self _) hrs
      have : s - r ≤ 1 := by exact_mod_cast this
      omega
    subst hs1
    push_cast at s1 s2
    have a1 := abs_le.1 r1
    have a2 := abs_le.1 s1
    have e1 : q - r = 1/2 := by linarith
    have e2 : q - (r + 1) = -(1/2) := by linarith
    have := r2 (by rw [e1]; norm_num)
    have := s2 (by rw [e2]; norm_num)
    omega
  · exact h
  · have hs1 : r = s + 1 := by
      have : (r : ℚ) - s ≤ 1 := le_trans (le_abs_self _) hrs
      have : r - s ≤ 1 := by exact_mod_cast this
      omega
    subst hs1
    push_cast at r1 r2
    have a1 := abs_le.1 r1
    have a2 := abs_le.1 s1
    have e1 : q - s = 1/2 := by linarith
    have e2 : q - (s + 1) = -(1/2) := by linarith
    have := s2 (by rw [e1]; norm_num)
    have := r2 (by rw [e2]; norm_num)
    omega

theorem pyRound_nonneg {q : ℚ} (h : 0 ≤ q) : 0 ≤ pyRound q := by
  have h1 := (pyRound_isRound q).1
  have h2 := abs_le.1 h1
  by_contra hc
  have h3 : pyRound q ≤ -1 := by omega
  have : ((pyRound q : Int) : ℚ) ≤ -1 := by exact_mod_cast h3
  linarith

theorem pyRound_le_of_le {q : ℚ} {n : Int} (h : q ≤ n) : pyRound q ≤ n := by
  have h1 := (pyRound_isRound q).1
  have h2 := abs_le.1 h1
  by_contra hc
  have h3 : n + 1 ≤ pyRound q := by omega
  have : ((n + 1 : Int) : ℚ) ≤ (pyRound q : ℚ) := by exact_mod_cast h3
  push_cast at this
  linarith

theorem le_pyRound_of_le {q : ℚ} {n : Int} (h : n ≤ q) : n ≤ pyRound q := by
  have h1 := (pyRound_isRound q).1
  have h2 := abs_le.1 h1
  by_contra hc
  have h3 : pyRound q ≤ n - 1 := by omega
  have : ((pyRound q : Int) : ℚ) ≤ ((n - 1 : Int) : ℚ) := by exact_mod_cast h3
  push_cast at this
  linarith

theorem pickAll_ok {α : Type} (l : List α) : ∀ (is : List Int), (∀ i ∈ is, 0 ≤ i ∧ i < l.length) →
    ∃ vs, pickAll l is = .ok vs ∧ vs.length = is.length ∧
      List.Forall₂ (fun (i : Int) v => l[i.toNat]? = some v) is vs := by
  intro is
  induction is with
  | nil => intro _; exact ⟨[], rfl, rfl, .nil⟩
  | cons i is ih =>
    intro h
    obtain ⟨vs, h1, h2, h3⟩ := ih (fun j hj => h j (List.mem_cons_of_mem _ hj))
    obtain ⟨hi0, hi1⟩ := h i (by simp)
    have hlt : i.toNat < l.length := by omega
    refine ⟨l[i.toNat] :: vs, ?_, by simp [h2], ?_⟩
    · simp [pickAll, hi0, h1, List.getElem?_eq_getElem hlt]
    · exact .cons (List.getElem?_eq_getElem hlt) h3

theorem forall₂_pick_mem {α : Type} {l : List α} {is : List Int} {vs : List α}
    (h : List.Forall₂ (fun (i : Int) v => l[i.toNat]? = some v) is vs) : ∀ v ∈ vs, v ∈ l := by
  induction h with
  | nil => intro v hv; simp at hv
  | cons hi _ ih =>
    intro v hv
    rcases List.mem_cons.1 hv with rfl | hv
    · exact List.mem_of_getElem? hi
    · exact ih v hv

/-- Picking distinct positions of a list whose `f`-images are distinct gives distinct `f`-images. -/
theorem forall₂_pick_nodup {α β : Type} (f : α → β) {l : List α} (hl : (l.map f).Nodup) {is : List Int} {vs : List α}
    (h : List.Forall₂ (fun (i : Int) v => l[i.toNat]? = some v) is vs) (hn : is.Nodup)
    (hpos : ∀ i ∈ is, 0 ≤ i) : (vs.map f).Nodup := by
  induction h with
  | nil => simp
  | @cons i v is vs hi hrest ih =>
    rw [List.nodup_cons] at hn
    simp only [List.map_cons, List.nodup_cons]
    refine ⟨?_, ih hn.2 (fun j hj => hpos j (List.mem_cons_of_mem _ hj))⟩
    intro hmem
    obtain ⟨w, hw, hfw⟩ := List.mem_map.1 hmem
    have : ∃ j ∈ is, l[j.toNat]? = some w := by
      clear ih hn hpos hmem
      induction hrest with
      | nil => simp at hw
      | @cons j u js us hj _ ih2 =>
        rcases List.mem_cons.1 hw with rfl | hw
        · exact ⟨j, by simp, hj⟩
        · obtain ⟨k, hk, hk2⟩ := ih2 hw; exact ⟨k, List.mem_cons_of_mem _ hk, hk2⟩
    obtain ⟨j, hj, hjw⟩ := this
    have e1 : (l.map f)[i.toNat]? = some (f v) := by simp [hi]
    have e2 : (l.map f)[j.toNat]? = some (f v) := by simp [hjw, hfw]
    have hlt : i.toNat < (l.map f).length := by
      rw [List.getElem?_eq_some_iff] at e1; exact e1.1
    have := (List.getElem?_inj hlt hl).1 (e1.trans e2.symm)
    have h0i := hpos i (by simp)
    have h0j := hpos j (List.mem_cons_of_mem _ hj)
    have : i = j := by omega
    subst this
    exact hn.1 hj

theorem randperm_pair (sh : List Int → List Int) (hs : Spec.IsShuffle sh) (s e k : Int) (hk0 : 0 ≤ k)
    (hk : k ≤ e - s + 1) : ∃ l, randperm sh (.pair (some s) e) (.int k) = .ok l ∧ (l.length : Int) = k ∧ l.Nodup ∧
      ∀ x ∈ l, s ≤ x ∧ x ≤ e := by
  have hp := hs (pyRange s (e + 1))
  refine ⟨pySliceTo (sh (pyRange s (e + 1))) k, ?_, ?_, ?_, ?_⟩
  · simp only [randperm]
    rw [if_neg (by omega)]
  · have hl : (sh (pyRange s (e+1))).length = (e + 1 - s).toNat := by
      rw [hp.length_eq, pyRange_length]
    simp [pySliceTo, hk0, hl]; omega
  · exact (hp.nodup_iff.2 (pyRange_nodup _ _)).sublist (pySliceTo_sublist _ _)
  · intro x hx
    have := hp.mem_iff.1 ((pySliceTo_sublist _ _).subset hx)
    rw [mem_pyRange] at this; omega

end Alipy
