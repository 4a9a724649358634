import Verif.Model.Coreset
import Verif.Spec.Coreset
import Verif.Props.Pool
import Mathlib.Data.Fintype.Pigeonhole
/-!
# Properties of farthest-first selection (C45)
-/
set_option linter.unusedSectionVars false
namespace Alipy.Select
open Alipy

variable {α K : Type} [DecidableEq α] [Field K] [LinearOrder K] [IsStrictOrderedRing K]

/-- `v` is the distance of `x` to the nearest of `C`. -/
def IsNearest (D : α → α → K) (C : List α) (x : α) (v : K) : Prop := (∃ c ∈ C, v = D x c) ∧ ∀ c ∈ C, v ≤ D x c

/-- The vector `m` holds `-100` for the members of `C` and the distance to the nearest of `C` for all others. -/
structure Tracks (D : α → α → K) (train C : List α) (m : List K) : Prop where
  len : m.length = train.length
  inC : ∀ (p : Nat) x v, train[p]? = some x → m[p]? = some v → x ∈ C → v = -100
  out : ∀ (p : Nat) x v, train[p]? = some x → m[p]? = some v → x ∉ C → IsNearest D C x v

theorem lowest_mem {l : List K} (h : l ≠ []) : lowest l ∈ l := by
  have aux : ∀ (l : List K) (a : K), l.foldl min a = a ∨ l.foldl min a ∈ l := by
    intro l
    induction l with
    | nil => intro a; simp
    | cons b l ih =>
      intro a
      rw [List.foldl_cons]
      rcases ih (min a b) with h | h
      · rw [h]
        rcases min_choice a b with h' | h' <;> rw [h'] <;> simp
      · right; simp [h]
  cases l with
  | nil => exact absurd rfl h
  | cons a l =>
    rcases aux l a with h | h
    · show l.foldl min a ∈ a :: l
      rw [h]; simp
    · show l.foldl min a ∈ a :: l
      simp [h]

/-- The examples at some positions. -/
def at' (train : List α) (cs : List Nat) : List α := cs.filterMap (fun c => train[c]?)

theorem minTo_nearest {D : α → α → K} {train : List α} {cs : List Nat} (h : at' train cs ≠ []) (x : α) :
    IsNearest D (at' train cs) x (minTo D train cs x) := by
  have hne : (at' train cs).map (D x) ≠ [] := by simpa using h
  constructor
  · obtain ⟨c, hc, he⟩ := List.mem_map.1 (lowest_mem hne)
    exact ⟨c, hc, he.symm⟩
  · intro c hc
    exact lowest_le (List.mem_map_of_mem hc)

theorem nearest_min {D : α → α → K} {A B : List α} {x : α} {v w : K} (h1 : IsNearest D A x v) (h2 : IsNearest D B x w) :
    IsNearest D (A ++ B) x (min v w) := by
  obtain ⟨⟨a, ha, hva⟩, hA⟩ := h1
  obtain ⟨⟨b, hb, hwb⟩, hB⟩ := h2
  constructor
  · rcases min_choice v w with h | h
    · exact ⟨a, by simp [ha], by rw [h, hva]⟩
    · exact ⟨b, by simp [hb], by rw [h, hwb]⟩
  · intro c hc
    rcases List.mem_append.1 hc with h | h
    · exact le_trans (min_le_left _ _) (hA c h)
    · exact le_trans (min_le_right _ _) (hB c h)

theorem nearest_congr {D : α → α → K} {A B : List α} (h : ∀ c, c ∈ A ↔ c ∈ B) {x : α} {v : K} (hv : IsNearest D A x v) : IsNearest D B x v := by
  obtain ⟨⟨a, ha, hva⟩, hA⟩ := hv
  exact ⟨⟨a, (h a).1 ha, hva⟩, fun c hc => hA c ((h c).2 hc)⟩

omit [IsStrictOrderedRing K] in
theorem setAll_get (m : List K) (is : List Nat) (w : K) (p : Nat) (v : K) (h : (setAll m is w)[p]? = some v) :
    ∃ v', m[p]? = some v' ∧ v = (if p ∈ is then w else v') := by
  unfold setAll at h
  rw [List.getElem?_mapIdx] at h
  cases hm : m[p]? with
  | none => rw [hm] at h; simp at h
  | some v' => rw [hm] at h; simp at h; exact ⟨v', rfl, h.symm⟩

omit [IsStrictOrderedRing K] in
theorem zip_get {train : List α} {m : List K} {f : α → K} {p : Nat} {x : α} {v : K} (hx : train[p]? = some x)
    (h : (List.zipWith min m (train.map f))[p]? = some v) : ∃ v', m[p]? = some v' ∧ v = min v' (f x) := by
  rw [List.getElem?_zipWith] at h
  cases hm : m[p]? with
  | none => rw [hm] at h; simp at h
  | some v' => rw [hm] at h; simp [hx] at h; exact ⟨v', rfl, h.symm⟩

/-- After `update` and marking the new centres the vector tracks the larger set of centres. -/
theorem tracks_update {D : α → α → K} (hD : ∀ x y, 0 ≤ D x y) {train C : List α} {m : List K} (ht : Tracks D train C m) (cs ps : List Nat)
    (hne : at' train cs ≠ []) {C' : List α} (hC : ∀ c, c ∈ C' ↔ (c ∈ C ∨ c ∈ at' train cs)) (hps : ∀ p x, train[p]? = some x → (p ∈ ps ↔ x ∈ at' train ps))
    (hsub : ∀ c, c ∈ at' train cs → c ∈ C ∨ c ∈ at' train ps) (hsub2 : ∀ c ∈ at' train ps, c ∈ C') :
    Tracks D train C' (setAll (List.zipWith min m (train.map (minTo D train cs))) ps (-100)) := by
  refine ⟨by simp [setAll, ht.len], ?_, ?_⟩
  · intro p x v hx hv hxC
    obtain ⟨v', hv', rfl⟩ := setAll_get _ _ _ _ _ hv
    split_ifs with hp
    · rfl
    · obtain ⟨w, hw, rfl⟩ := zip_get hx hv'
      have hxC2 : x ∈ C := by
        rcases (hC x).1 hxC with h | h
        · exact h
        · rcases hsub x h with h' | h'
          · exact h'
          · exact absurd ((hps p x hx).2 h') hp
      rw [ht.inC p x w hx hw hxC2]
      apply min_eq_left
      have h0 : (0 : K) ≤ minTo D train cs x := by
        obtain ⟨⟨c, _, he⟩, _⟩ := minTo_nearest (D := D) hne x
        rw [he]; exact hD x c
      linarith
  · intro p x v hx hv hxC
    obtain ⟨v', hv', rfl⟩ := setAll_get _ _ _ _ _ hv
    have hp : p ∉ ps := by
      intro hp
      exact hxC (hsub2 x ((hps p x hx).1 hp))
    rw [if_neg hp]
    obtain ⟨w, hw, rfl⟩ := zip_get hx hv'
    have hxC2 : x ∉ C := fun h => hxC ((hC x).2 (Or.inl h))
    refine nearest_congr ?_ (nearest_min (ht.out p x w hx hw hxC2) (minTo_nearest hne x))
    intro c
    rw [List.mem_append, hC]

/-- Farthest-first order: every point of the list is outside of the centres before it, and no pool point is farther from them. -/
def FarthestFirst (D : α → α → K) (pool : List α) : List α → List α → Prop
  | _, [] => True
  | C, s :: rest => s ∉ C ∧ (∀ x ∈ pool, x ∉ C → ∀ v w, IsNearest D C x v → IsNearest D C s w → v ≤ w) ∧ FarthestFirst D pool (C ++ [s]) rest

theorem nearest_exists {D : α → α → K} {C : List α} (h : C ≠ []) (x : α) : ∃ v, IsNearest D C x v := by
  have hne : C.map (D x) ≠ [] := by simpa using h
  obtain ⟨c, hc, he⟩ := List.mem_map.1 (lowest_mem hne)
  exact ⟨_, ⟨c, hc, he.symm⟩, fun c' hc' => lowest_le (List.mem_map_of_mem hc')⟩

/-- If a pool point is farther than `t` from all centres, then so are the chosen points from the centres and from each other. -/
theorem farthest_separated {D : α → α → K} (hsymm : ∀ x y, D x y = D y x) (hself : ∀ x, D x x = 0) {pool : List α} {t : K} (ht : 0 ≤ t) {x : α} (hx : x ∈ pool) :
    ∀ (S C : List α), C ≠ [] → FarthestFirst D pool C S → (∀ c ∈ C ++ S, t < D x c) →
      (∀ s ∈ S, ∀ c ∈ C, t < D s c) ∧ S.Pairwise (fun a b => t < D a b)
  | [], C, _, _, _ => by simp
  | s :: rest, C, hC, hff, hfar => by
    obtain ⟨h1, h2, h3⟩ := hff
    obtain ⟨i1, i2⟩ := farthest_separated hsymm hself ht hx rest (C ++ [s]) (by simp) h3 (by simpa using hfar)
    have hxC : x ∉ C := by
      intro h
      have := hfar x (by simp [h])
      rw [hself] at this
      exact absurd this (not_lt.2 ht)
    obtain ⟨v, hv⟩ := nearest_exists (D := D) hC x
    obtain ⟨w, hw⟩ := nearest_exists (D := D) hC s
    have hvw := h2 x hx hxC v w hv hw
    have htv : t < v := by
      obtain ⟨⟨c, hc, rfl⟩, _⟩ := hv
      exact hfar c (by simp [hc])
    have hs : ∀ c ∈ C, t < D s c := fun c hc => lt_of_lt_of_le (lt_of_lt_of_le htv hvw) (hw.2 c hc)
    refine ⟨?_, ?_⟩
    · intro s' hs' c hc
      rcases List.mem_cons.1 hs' with rfl | h
      · exact hs c hc
      · exact i1 s' h c (by simp [hc])
    · rw [List.pairwise_cons]
      refine ⟨?_, i2⟩
      intro s' hs'
      rw [hsymm]
      exact i1 s' hs' s (by simp)

/-- The greedy bound: whatever radius the centres together with as many points as chosen could achieve, twice that radius is enough for the chosen ones. -/
theorem farthest_two_approx {D : α → α → K} (hD : Spec.PseudoMetric D) {pool C S T : List α} (hC : C ≠ []) (hff : FarthestFirst D pool C S)
    (hS : ∀ s ∈ S, s ∈ pool) (hT : T.length ≤ S.length) {r : K} (hcov : Spec.Covers D pool (C ++ T) r) : Spec.Covers D pool (C ++ S) (2 * r) := by
  intro x hx
  by_contra hcon
  push Not at hcon
  have hr : 0 ≤ r := by
    obtain ⟨c, _, hc⟩ := hcov x hx
    exact le_trans (hD.nonneg _ _) hc
  have h2r : 0 ≤ 2 * r := by linarith
  obtain ⟨h1, h2⟩ := farthest_separated hD.symm hD.self h2r hx S C hC hff hcon
  have hpw : (S ++ [x]).Pairwise (fun a b => 2 * r < D a b) := by
    rw [List.pairwise_append]
    refine ⟨h2, by simp, ?_⟩
    intro a ha b hb
    simp at hb
    subst hb
    rw [hD.symm]
    exact hcon a (by simp [ha])
  have hall : ∀ y ∈ S ++ [x], ∃ t ∈ T, D y t ≤ r := by
    intro y hy
    have hyp : y ∈ pool := by
      rcases List.mem_append.1 hy with h | h
      · exact hS y h
      · simp at h; exact h ▸ hx
    obtain ⟨c, hc, hle⟩ := hcov y hyp
    rcases List.mem_append.1 hc with h | h
    · exfalso
      have : 2 * r < D y c := by
        rcases List.mem_append.1 hy with h' | h'
        · exact h1 y h' c h
        · simp at h'; subst h'; exact hcon c (by simp [h])
      linarith
    · exact ⟨c, h, hle⟩
  have hidx : ∀ i : Fin (S ++ [x]).length, ∃ j : Fin T.length, D (S ++ [x])[i] T[j] ≤ r := by
    intro i
    obtain ⟨t, ht, hle⟩ := hall _ (List.getElem_mem i.2)
    obtain ⟨j, hj, rfl⟩ := List.getElem_of_mem ht
    exact ⟨⟨j, hj⟩, hle⟩
  choose f hf using hidx
  obtain ⟨i, j, hij, he⟩ := Fintype.exists_ne_map_eq_of_card_lt f (by simp; omega)
  have key : ∀ i j : Fin (S ++ [x]).length, i < j → f i = f j → False := by
    intro i j hlt he
    have h3 := List.pairwise_iff_getElem.1 hpw i j i.2 j.2 hlt
    have h4 := hf i
    have h5 := hf j
    rw [← he, hD.symm] at h5
    have h6 := hD.triangle (S ++ [x])[i] T[f i] (S ++ [x])[j]
    simp only [Fin.getElem_fin] at h3 h4 h5 h6
    linarith
  rcases lt_or_gt_of_ne hij with h | h
  · exact key i j h he
  · exact key j i h he.symm

/-! ## The loop is farthest-first -/

theorem at'_single {train : List α} {p : Nat} {x : α} (h : train[p]? = some x) : at' train [p] = [x] := by simp [at', h]

theorem loop_ok {D : α → α → K} (hD : ∀ x y, 0 ≤ D x y) {train l u : List α} (htn : train.Nodup) (hu : u.Nodup) (hut : ∀ x ∈ u, x ∈ train)
    (hcov : ∀ x ∈ train, x ∈ l ∨ x ∈ u) (hdisj : ∀ x ∈ l, x ∉ u) (hne : l ≠ []) :
    ∀ (n : Nat) (o : Core K) (m : List K) (b : List α), o.minD = some m → Tracks D train (l ++ b) m →
      (∀ p x, p ∈ o.already → train[p]? = some x → x ∈ l) → (∀ x ∈ b, x ∈ u) → b.Nodup → b.length + n ≤ u.length →
      ∃ o' m' S, Core.loop D train u n o b = (o', .ok (b ++ S)) ∧ o'.minD = some m' ∧ Tracks D train (l ++ (b ++ S)) m' ∧ o'.already = o.already ∧
        (b ++ S).Nodup ∧ (∀ x ∈ S, x ∈ u) ∧ S.length = n ∧ FarthestFirst D train (l ++ b) S
  | 0, o, m, b, hm, ht, ha, hb, hn, hle => ⟨o, m, [], by simp [Core.loop], hm, by simpa using ht, rfl, by simpa using hn, by simp, rfl, trivial⟩
  | n + 1, o, m, b, hm, ht, ha, hb, hn, hle => by
    have hex : ∃ x ∈ u, x ∉ b := by
      by_contra hcon
      push Not at hcon
      have := (List.subperm_of_subset hu hcon).length_le
      omega
    obtain ⟨x, hxu, hxb⟩ := hex
    have hxlb : x ∉ l ++ b := by
      rw [List.mem_append, not_or]
      exact ⟨fun h => hdisj x h hxu, hxb⟩
    obtain ⟨q, hq⟩ := List.getElem?_of_mem (hut x hxu)
    have hqlt : q < m.length := by rw [ht.len]; exact (List.getElem?_eq_some_iff.1 hq).1
    obtain ⟨hs, hmax⟩ := argmaxPos_spec (d := m) (by intro h; rw [h] at hqlt; simp at hqlt)
    have hst : argmaxPos m < train.length := by rw [← ht.len]; exact hs
    have hgs : train[argmaxPos m]? = some train[argmaxPos m] := List.getElem?_eq_getElem hst
    have hms : m[argmaxPos m]? = some m[argmaxPos m] := List.getElem?_eq_getElem hs
    have hnx := ht.out q x m[q] hq (List.getElem?_eq_getElem hqlt) hxlb
    have hmq : 0 ≤ m[q] := by
      obtain ⟨⟨c, _, he⟩, _⟩ := hnx
      rw [he]; exact hD _ _
    have hslb : train[argmaxPos m] ∉ l ++ b := by
      intro h
      have h1 := ht.inC _ _ _ hgs hms h
      have h2 := hmax q hqlt
      rw [h1] at h2
      linarith
    have hsl : train[argmaxPos m] ∉ l := fun h => hslb (by simp [h])
    have hsb : train[argmaxPos m] ∉ b := fun h => hslb (by simp [h])
    have hsu : train[argmaxPos m] ∈ u := (hcov _ (List.getElem_mem hst)).resolve_left hsl
    have hsa : argmaxPos m ∉ o.already := fun h => hsl (ha _ _ h hgs)
    have hupd : o.update D train [argmaxPos m] =
        { minD := some (List.zipWith min m (train.map (minTo D train [argmaxPos m]))), already := o.already } := by
      have hfil : [argmaxPos m].filter (fun c => decide (c ∉ o.already)) = [argmaxPos m] := by simp [hsa]
      unfold Core.update
      rw [hfil, hm]
      rfl
    have hat := at'_single hgs
    have ht2 : Tracks D train (l ++ (b ++ [train[argmaxPos m]])) (setAll (List.zipWith min m (train.map (minTo D train [argmaxPos m]))) [argmaxPos m] (-100)) := by
      refine tracks_update hD ht [argmaxPos m] [argmaxPos m] (by rw [hat]; simp) ?_ ?_ ?_ ?_
      · intro c
        rw [hat]
        simp [or_assoc]
      · intro p y hy
        rw [hat]
        simp only [List.mem_singleton]
        constructor
        · rintro rfl
          rw [hgs] at hy
          simpa using hy.symm
        · rintro rfl
          exact (List.getElem?_inj (List.getElem?_eq_some_iff.1 hy).1 htn).1 (hy.trans hgs.symm)
      · intro c hc
        exact Or.inr hc
      · intro c hc
        rw [hat] at hc
        simp at hc
        subst hc
        simp
    obtain ⟨o', m', S, h1, h2, h3, h4, h5, h6, h7, h8⟩ := loop_ok hD htn hu hut hcov hdisj hne n
      { minD := some (setAll (List.zipWith min m (train.map (minTo D train [argmaxPos m]))) [argmaxPos m] (-100)), already := o.already }
      _ (b ++ [train[argmaxPos m]]) rfl ht2 ha (by
        intro y hy
        rcases List.mem_append.1 hy with h | h
        · exact hb y h
        · simp at h; exact h ▸ hsu) (by
        rw [List.nodup_append]
        refine ⟨hn, by simp, ?_⟩
        intro a ha c hc
        simp at hc
        subst hc
        intro h
        exact hsb (h ▸ ha)) (by simp; omega)
    refine ⟨o', m', train[argmaxPos m] :: S, ?_, h2, by simpa using h3, h4, by simpa using h5, ?_, by simp [h7], ?_⟩
    · unfold Core.loop
      simp only [hm]
      rw [if_neg hsa, hgs]
      simp only
      rw [if_pos hsu, hupd]
      simp only [Option.map_some]
      rw [h1]
      simp
    · intro y hy
      rcases List.mem_cons.1 hy with rfl | h
      · exact hsu
      · exact h6 y h
    · refine ⟨hslb, ?_, by simpa using h8⟩
      intro y hy hylb v w hv hw
      obtain ⟨q', hq'⟩ := List.getElem?_of_mem hy
      have hq'lt : q' < m.length := by rw [ht.len]; exact (List.getElem?_eq_some_iff.1 hq').1
      have e1 := ht.out q' y m[q'] hq' (List.getElem?_eq_getElem hq'lt) hylb
      have e2 := ht.out _ _ _ hgs hms hslb
      have huniq : ∀ {z : α} {a c : K}, IsNearest D (l ++ b) z a → IsNearest D (l ++ b) z c → a = c := by
        intro z a c ⟨⟨d1, hd1, hd1'⟩, hd2⟩ ⟨⟨d3, hd3, hd3'⟩, hd4⟩
        apply le_antisymm
        · rw [hd3']; exact hd2 d3 hd3
        · rw [hd1']; exact hd4 d1 hd1
      rw [huniq hv e1, huniq hw e2]
      exact hmax q' hq'lt

theorem itemPositions_ok {train : List α} (hn : train.Nodup) {cmp : α → Bool} : ∀ {l : List α}, (∀ x ∈ l, cmp x = true) → (∀ x ∈ l, x ∈ train) →
    itemPositions cmp train l = .ok (l.map (fun x => train.idxOf x))
  | [], _, _ => rfl
  | x :: xs, hc', h => by
    unfold itemPositions
    have hc : train.count x = 1 := List.count_eq_one_of_mem hn (h x (by simp))
    rw [hc, hc' x (by simp)]
    simp only [decide_true, Bool.and_self, if_true]
    rw [itemPositions_ok hn (fun y hy => hc' y (by simp [hy])) (fun y hy => h y (by simp [hy]))]
    rfl

theorem at'_positions {train l : List α} (h : ∀ x ∈ l, x ∈ train) : at' train (l.map (fun x => train.idxOf x)) = l := by
  unfold at'
  rw [List.filterMap_map]
  conv_rhs => rw [← List.filterMap_some (l := l)]
  apply List.filterMap_congr
  intro x hx
  simp only [Function.comp]
  exact get_idxOf (h x hx)

/-- A situation in which `select` is meant to be called: `train` is a set and consists of the labelled and the unlabelled examples, there are labelled ones. -/
structure Situation (train l u : List α) (batch : Nat) : Prop where
  tn : train.Nodup
  un : u.Nodup
  lt : ∀ x ∈ l, x ∈ train
  ut : ∀ x ∈ u, x ∈ train
  cov : ∀ x ∈ train, x ∈ l ∨ x ∈ u
  disj : ∀ x ∈ l, x ∉ u
  ne : l ≠ []
  enough : batch ≤ u.length

/-- The objects that arise by calls of `select` in such situations, where every set of labelled examples contains those of the call before and
the batch selected by it. The list holds the latter. -/
inductive CoreHist (D : α → α → K) (train : List α) : Core K → List α → Prop
  | fresh : CoreHist D train Core.fresh []
  | call {cmp : α → Bool} {o o' : Core K} {C l u r : List α} {batch : Nat} : CoreHist D train o C → Situation train l u batch → (∀ x ∈ l, cmp x = true) → (∀ c ∈ C, c ∈ l) →
      Core.select D cmp train o l u batch = (o', .ok r) → CoreHist D train o' (l ++ r)

/-- What the object remembers. -/
def Remembers (D : α → α → K) (train : List α) (o : Core K) (C : List α) : Prop :=
  (o = Core.fresh ∧ C = []) ∨ ∃ m, o.minD = some m ∧ Tracks D train C m ∧ ∀ p x, p ∈ o.already → train[p]? = some x → x ∈ C

theorem select_ok {D : α → α → K} (hD : ∀ x y, 0 ≤ D x y) {train l u : List α} {batch : Nat} (hs : Situation train l u batch) {cmp : α → Bool} (hcmp : ∀ x ∈ l, cmp x = true)
    {o : Core K} {C : List α} (hr : Remembers D train o C) (hC : ∀ c ∈ C, c ∈ l) :
    ∃ o' r, Core.select D cmp train o l u batch = (o', .ok r) ∧ Remembers D train o' (l ++ r) ∧ r.Nodup ∧ (∀ x ∈ r, x ∈ u) ∧ r.length = batch ∧
      FarthestFirst D train l r := by
  have hpos := itemPositions_ok hs.tn (cmp := cmp) hcmp hs.lt
  have hat := at'_positions hs.lt
  have hmem : ∀ (p : Nat) x, train[p]? = some x → (p ∈ l.map (fun x => train.idxOf x) ↔ x ∈ l) := by
    intro p x hx
    constructor
    · intro h
      obtain ⟨y, hy, rfl⟩ := List.mem_map.1 h
      rw [get_idxOf (hs.lt y hy)] at hx
      simp at hx
      exact hx ▸ hy
    · intro h
      exact List.mem_map.2 ⟨x, h, idxOf_get hs.tn hx⟩
  have hal : ∀ p x, p ∈ l.map (fun x => train.idxOf x) → train[p]? = some x → x ∈ l := fun p x hp hx => (hmem p x hx).1 hp
  suffices hmain : ∃ m, (o.update D train (l.map (fun x => train.idxOf x))).minD = some m ∧ Tracks D train l (setAll m (l.map (fun x => train.idxOf x)) (-100)) by
    obtain ⟨m, h1, h2⟩ := hmain
    obtain ⟨o', m', S, e1, e2, e3, e4, e5, e6, e7, e8⟩ := loop_ok hD hs.tn hs.un hs.ut hs.cov hs.disj hs.ne batch
      { minD := some (setAll m (l.map (fun x => train.idxOf x)) (-100)), already := l.map (fun x => train.idxOf x) } _ [] rfl (by simpa using h2) hal
      (by simp) (by simp) (by simpa using hs.enough)
    refine ⟨o', S, ?_, Or.inr ⟨m', e2, by simpa using e3, ?_⟩, by simpa using e5, e6, e7, by simpa using e8⟩
    · unfold Core.select
      rw [hpos]
      simp only [h1]
      simpa using e1
    · intro p x hp hx
      rw [e4] at hp
      simp [hal p x hp hx]
  rcases hr with ⟨rfl, rfl⟩ | ⟨m, hm, ht, ha⟩
  · refine ⟨train.map (minTo D train (l.map (fun x => train.idxOf x))), ?_, ?_⟩
    · unfold Core.update
      have hf : (l.map (fun x => train.idxOf x)).filter (fun c => decide (c ∉ (Core.fresh (K := K)).already)) = l.map (fun x => train.idxOf x) := by
        simp [Core.fresh]
      rw [hf, if_neg (by simpa using hs.ne)]
      rfl
    · refine ⟨by simp [setAll], ?_, ?_⟩
      · intro p x v hx hv hxl
        obtain ⟨v', _, rfl⟩ := setAll_get _ _ _ _ _ hv
        rw [if_pos ((hmem p x hx).2 hxl)]
      · intro p x v hx hv hxl
        obtain ⟨v', hv', rfl⟩ := setAll_get _ _ _ _ _ hv
        rw [if_neg (fun h => hxl ((hmem p x hx).1 h))]
        rw [List.getElem?_map, hx] at hv'
        simp at hv'
        subst hv'
        have := minTo_nearest (D := D) (train := train) (cs := l.map (fun x => train.idxOf x)) (by rw [hat]; exact hs.ne) x
        rwa [hat] at this
  · have hCl : ∀ c, c ∈ l ↔ (c ∈ C ∨ c ∈ at' train ((l.map (fun x => train.idxOf x)).filter (fun c => decide (c ∉ o.already)))) := by
      intro c
      constructor
      · intro hc
        by_cases hp : train.idxOf c ∈ o.already
        · exact Or.inl (ha _ _ hp (get_idxOf (hs.lt c hc)))
        · right
          unfold at'
          rw [List.mem_filterMap]
          exact ⟨train.idxOf c, List.mem_filter.2 ⟨List.mem_map_of_mem hc, by simpa using hp⟩, get_idxOf (hs.lt c hc)⟩
      · rintro (h | h)
        · exact hC c h
        · unfold at' at h
          rw [List.mem_filterMap] at h
          obtain ⟨p, hp, hpc⟩ := h
          exact hal p c (List.mem_filter.1 hp).1 hpc
    by_cases hemp : (l.map (fun x => train.idxOf x)).filter (fun c => decide (c ∉ o.already)) = []
    · refine ⟨m, ?_, ?_⟩
      · unfold Core.update
        rw [hemp]
        exact hm
      · have hCl' : ∀ c, c ∈ C ↔ c ∈ l := by
          intro c
          rw [hCl c, hemp]
          simp [at']
        refine ⟨by simp [setAll, ht.len], ?_, ?_⟩
        · intro p x v hx hv hxl
          obtain ⟨v', _, rfl⟩ := setAll_get _ _ _ _ _ hv
          rw [if_pos ((hmem p x hx).2 hxl)]
        · intro p x v hx hv hxl
          obtain ⟨v', hv', rfl⟩ := setAll_get _ _ _ _ _ hv
          rw [if_neg (fun h => hxl ((hmem p x hx).1 h))]
          exact nearest_congr hCl' (ht.out p x v' hx hv' (fun h => hxl ((hCl' x).1 h)))
    · refine ⟨List.zipWith min m (train.map (minTo D train ((l.map (fun x => train.idxOf x)).filter (fun c => decide (c ∉ o.already))))), ?_, ?_⟩
      · unfold Core.update
        rw [if_neg (by simpa using hemp), hm]
      · refine tracks_update hD ht _ _ ?_ hCl ?_ ?_ ?_
        · intro hnil
          apply hemp
          rw [List.eq_nil_iff_forall_not_mem]
          intro p hp
          obtain ⟨y, hy, rfl⟩ := List.mem_map.1 (List.mem_filter.1 hp).1
          have : y ∈ at' train ((l.map (fun x => train.idxOf x)).filter (fun c => decide (c ∉ o.already))) :=
            List.mem_filterMap.2 ⟨_, hp, get_idxOf (hs.lt y hy)⟩
          rw [hnil] at this
          simp at this
        · intro p x hx
          rw [hat]
          exact hmem p x hx
        · intro c hc
          rw [hat]
          exact Or.inr ((hCl c).2 (Or.inr hc))
        · intro c hc
          rwa [hat] at hc

theorem hist_remembers {D : α → α → K} (hD : ∀ x y, 0 ≤ D x y) {train : List α} {o : Core K} {C : List α} (h : CoreHist D train o C) :
    Remembers D train o C := by
  induction h with
  | fresh => exact Or.inl ⟨rfl, rfl⟩
  | call _ hs hcmp hC he ih =>
    obtain ⟨o'', r', h1, h2, _⟩ := select_ok hD hs hcmp ih hC
    rw [he] at h1
    simp only [Prod.mk.injEq, Except.ok.injEq] at h1
    obtain ⟨rfl, rfl⟩ := h1
    exact h2

/-- **C45** (partial: at most as many as there are unlabelled examples, labelled examples exist, `train_idx` is an array or the labelled examples are numpy numbers, and every batch selected before has been labelled): the call
succeeds with `batch_size` distinct unlabelled indexes, and the largest distance of a pool point to the nearest labelled or chosen one is at most twice
the one achieved by any other batch of that size. -/
theorem C45_two_approximation_partial {D : α → α → K} (hD : Spec.PseudoMetric D) {train : List α} {o : Core K} {C : List α} (h : CoreHist D train o C)
    {l u : List α} {batch : Nat} (hs : Situation train l u batch) {cmp : α → Bool} (hcmp : ∀ x ∈ l, cmp x = true) (hC : ∀ c ∈ C, c ∈ l) :
    ∃ o' r, Core.select D cmp train o l u batch = (o', .ok r) ∧ Spec.BatchOf u batch r ∧
      ∀ (T : List α) (ρ : K), T.length ≤ batch → Spec.Covers D train (l ++ T) ρ → Spec.Covers D train (l ++ r) (2 * ρ) := by
  obtain ⟨o', r, h1, _, h3, h4, h5, h6⟩ := select_ok hD.nonneg hs hcmp (hist_remembers hD.nonneg h) hC
  refine ⟨o', r, h1, ⟨h3, h4, ?_⟩, ?_⟩
  · have := hs.enough
    rw [h5]; omega
  · intro T ρ hT hcov
    exact farthest_two_approx hD hs.ne h6 (fun s hs' => hs.ut s (h4 s hs')) (by omega) hcov

/-- The calls can go on until nothing is left: after labelling the batch the object is again in a history. -/
theorem C45_continues {D : α → α → K} (hD : Spec.PseudoMetric D) {train : List α} {o : Core K} {C : List α} (h : CoreHist D train o C)
    {l u : List α} {batch : Nat} (hs : Situation train l u batch) {cmp : α → Bool} (hcmp : ∀ x ∈ l, cmp x = true) (hC : ∀ c ∈ C, c ∈ l) :
    ∃ o' r, Core.select D cmp train o l u batch = (o', .ok r) ∧ CoreHist D train o' (l ++ r) ∧
      ∀ n, n ≤ u.length - batch → Situation train (l ++ r) (u.filter (fun x => decide (x ∉ r))) n := by
  obtain ⟨o', r, h1, _, h3, h4, h5, _⟩ := select_ok hD.nonneg hs hcmp (hist_remembers hD.nonneg h) hC
  refine ⟨o', r, h1, .call h hs hcmp hC h1, ?_⟩
  intro n hn
  refine ⟨hs.tn, hs.un.filter _, ?_, ?_, ?_, ?_, ?_, ?_⟩
  · intro x hx
    rcases List.mem_append.1 hx with h | h
    · exact hs.lt x h
    · exact hs.ut x (h4 x h)
  · intro x hx; exact hs.ut x (List.mem_filter.1 hx).1
  · intro x hx
    rcases hs.cov x hx with h | h
    · exact Or.inl (by simp [h])
    · by_cases hr : x ∈ r
      · exact Or.inl (by simp [hr])
      · exact Or.inr (List.mem_filter.2 ⟨h, by simpa using hr⟩)
  · intro x hx hxf
    obtain ⟨hu, hr⟩ := List.mem_filter.1 hxf
    simp only [decide_eq_true_eq] at hr
    rcases List.mem_append.1 hx with h | h
    · exact hs.disj x h hu
    · exact hr h
  · simp [hs.ne]
  · have hsplit : (u.filter (fun x => decide (x ∈ r))).length ≤ r.length :=
      (List.subperm_of_subset (hs.un.filter _) (by intro x hx; simpa using (List.mem_filter.1 hx).2)).length_le
    have := List.length_eq_length_filter_add (l := u) (fun x => decide (x ∈ r))
    have he : u.filter (fun x => decide (x ∉ r)) = u.filter (fun x => !decide (x ∈ r)) := by
      apply List.filter_congr; intro x _; simp
    rw [he]
    omega

/-- Without any labelled example the first call raises. -/
theorem C45_empty_violation (D : α → α → K) (cmp : α → Bool) (train u : List α) (batch : Nat) :
    Core.select D cmp train Core.fresh [] u batch = (Core.fresh, .error .typeError) := by
  simp [Core.select, itemPositions, Core.update, Core.fresh]

/-- If `train_idx` is a list, every call with a labelled example given as a plain Python number raises. (A collection just constructed, or an array, has numpy numbers; an index
added to a collection, or an entry of a list, is a plain number.) -/
theorem C45_list_violation (D : α → α → K) (cmp : α → Bool) (train u : List α) (o : Core K) (l : List α) (hplain : ∃ x ∈ l, cmp x = false) (batch : Nat) :
    Core.select D cmp train o l u batch = (o, .error .valueError) := by
  have : itemPositions cmp train l = .error .valueError := by
    induction l with
    | nil => simp at hplain
    | cons y l ih =>
      unfold itemPositions
      by_cases hy : cmp y = true
      · have : ∃ x ∈ l, cmp x = false := by
          obtain ⟨x, hx, hf⟩ := hplain
          rcases List.mem_cons.1 hx with rfl | hx
          · rw [hy] at hf; cases hf
          · exact ⟨x, hx, hf⟩
        rw [ih this]
        split <;> rfl
      · simp [hy]
  simp [Core.select, this]

example : (Core.select (fun x y : Int => |(x : ℚ) - y|) (fun x => decide (x = 0)) [0, 10, 4, 7] Core.fresh [0, 10] [4, 7] 1).2 = .error .valueError := by decide +kernel

/-- The distance of two integers, for examples. -/
def lineD (x y : Int) : ℚ := |(x : ℚ) - y|

theorem lineD_metric : Spec.PseudoMetric lineD where
  self x := by simp [lineD]
  nonneg x y := abs_nonneg _
  symm x y := abs_sub_comm _ _
  triangle x y z := abs_sub_le _ _ _

example : (Core.select lineD (fun _ => true) [0, 10, 4, 7] Core.fresh [0] [10, 4, 7] 2).2 = .ok [10, 4] := by decide +kernel

example : Situation [0, 10, 4, 7] [(0 : Int)] [10, 4, 7] 2 where
  tn := by decide
  un := by decide
  lt := by decide
  ut := by decide
  cov := by decide
  disj := by decide
  ne := by decide
  enough := by decide

theorem loop_length (D : α → α → K) (train u : List α) : ∀ (n : Nat) (o o' : Core K) (b r : List α), Core.loop D train u n o b = (o', .ok r) →
    (∀ x ∈ b, x ∈ u) → r.length = b.length + n ∧ ∀ x ∈ r, x ∈ u
  | 0, o, o', b, r, h, hb => by
    simp only [Core.loop, Prod.mk.injEq, Except.ok.injEq] at h
    obtain ⟨_, rfl⟩ := h
    exact ⟨rfl, hb⟩
  | n + 1, o, o', b, r, h, hb => by
    unfold Core.loop at h
    cases hm : o.minD with
    | none => rw [hm] at h; simp at h
    | some m =>
      rw [hm] at h
      simp only at h
      split_ifs at h with h1
      · simp at h
      · cases hx : train[argmaxPos m]? with
        | none => rw [hx] at h; simp at h
        | some x =>
          rw [hx] at h
          simp only at h
          split_ifs at h with h2
          · obtain ⟨e1, e2⟩ := loop_length D train u n _ _ _ _ h (by
              intro y hy
              rcases List.mem_append.1 hy with h' | h'
              · exact hb y h'
              · simp at h'; exact h' ▸ h2)
            refine ⟨?_, e2⟩
            rw [e1]; simp; omega
          · simp at h

/-- Asked for more examples than there are, the call never returns distinct ones: it raises or returns some of them several times. -/
theorem C45_too_many_violation (D : α → α → K) (cmp : α → Bool) (train : List α) (o o' : Core K) (l u r : List α) (batch : Nat) (hlt : u.length < batch)
    (h : Core.select D cmp train o l u batch = (o', .ok r)) : ¬ r.Nodup := by
  intro hn
  unfold Core.select at h
  split at h
  · simp at h
  · split at h
    · simp at h
    · obtain ⟨e1, e2⟩ := loop_length D train u _ _ _ _ _ h (by simp)
      have := (List.subperm_of_subset hn e2).length_le
      simp at e1
      omega

/-- Here it raises. -/
example : (Core.select lineD (fun _ => true) [0, 10, 4] Core.fresh [0] [10, 4] 3).2 = .error .assertionError := by decide +kernel

/-- Here, as the first training example is unlabelled, it returns that one twice. -/
example : (Core.select lineD (fun _ => true) [10, 0, 4] Core.fresh [0] [10, 4] 3).2 = .ok [10, 4, 10] := by decide +kernel

theorem loop_acc (D : α → α → K) (train u acc : List α) : ∀ (n : Nat) (o : Core K) (b : List α),
    Core.loop D train u n o (acc ++ b) = ((Core.loop D train u n o b).1, (Core.loop D train u n o b).2.map (fun r => acc ++ r))
  | 0, o, b => rfl
  | n + 1, o, b => by
    unfold Core.loop
    cases hm : o.minD with
    | none => rfl
    | some m =>
      simp only
      split_ifs with h1
      · rfl
      · cases hx : train[argmaxPos m]? with
        | none => rfl
        | some x =>
          simp only
          split_ifs with h2
          · rw [List.append_assoc, loop_acc D train u acc n]
          · rfl

theorem loop_append (D : α → α → K) (train u : List α) (b : Nat) : ∀ (a : Nat) (o o' : Core K) (acc r : List α),
    Core.loop D train u a o acc = (o', .ok r) → Core.loop D train u (a + b) o acc = Core.loop D train u b o' r
  | 0, o, o', acc, r, h => by
    simp [Core.loop] at h
    rw [h.1, h.2, Nat.zero_add]
  | a + 1, o, o', acc, r, h => by
    rw [Nat.succ_add]
    unfold Core.loop at h
    conv_lhs => unfold Core.loop
    split at h
    · simp at h
    · split_ifs at h with h1
      · simp at h
      · rw [if_neg h1]
        split at h
        · simp at h
        · split_ifs at h with h2
          · rw [if_pos h2]
            exact loop_append D train u b a _ _ _ _ h
          · simp at h

/-- If a batch has been selected and not been labelled, the next call with the same labelled and unlabelled examples never selects any of it again, although they are unlabelled: it goes on
where the last call ended, so that the two batches are those of one larger call. -/
theorem C45_stale_violation {D : α → α → K} (hD : Spec.PseudoMetric D) {train : List α} {o : Core K} {C : List α} (h : CoreHist D train o C) {l u : List α} {b₁ b₂ : Nat}
    (hs : Situation train l u (b₁ + b₂)) {cmp : α → Bool} (hcmp : ∀ x ∈ l, cmp x = true) (hC : ∀ c ∈ C, c ∈ l) :
    ∃ o₁ o₂ r₁ r₂, Core.select D cmp train o l u b₁ = (o₁, .ok r₁) ∧ Core.select D cmp train o₁ l u b₂ = (o₂, .ok r₂) ∧ r₁.length = b₁ ∧ r₂.length = b₂ ∧
      (∀ x ∈ r₁, x ∈ u ∧ x ∉ r₂) ∧ Core.select D cmp train o l u (b₁ + b₂) = (o₂, .ok (r₁ ++ r₂)) := by
  have h0 : Situation train l u 0 := { hs with enough := Nat.zero_le _ }
  obtain ⟨o', r, e1, e2, -, -, e3, -⟩ := select_ok hD.nonneg h0 hcmp (hist_remembers hD.nonneg h) hC
  obtain rfl : r = [] := List.length_eq_zero_iff.1 e3
  have hpos := itemPositions_ok hs.tn (cmp := cmp) hcmp hs.lt
  have hmem : ∀ (p : Nat) x, train[p]? = some x → p ∈ l.map (fun x => train.idxOf x) → x ∈ l := by
    intro p x hx hp
    obtain ⟨y, hy, rfl⟩ := List.mem_map.1 hp
    rw [get_idxOf (hs.lt y hy)] at hx
    simp at hx
    exact hx ▸ hy
  generalize hps : l.map (fun x => train.idxOf x) = ps at hpos hmem
  have hsel : ∃ m, (o.update D train ps).minD = some m ∧ o' = { minD := some (setAll m ps (-100)), already := ps } := by
    unfold Core.select at e1
    rw [hpos] at e1
    simp only at e1
    split at e1
    · simp at e1
    · rename_i m hm
      exact ⟨m, hm, by simpa [Core.loop] using e1.symm⟩
  obtain ⟨m, hm, ho'⟩ := hsel
  have hall : ∀ n, Core.select D cmp train o l u n = Core.loop D train u n o' [] := by
    intro n
    unfold Core.select
    rw [hpos]
    simp only [hm, ho']
  rcases e2 with ⟨-, hl⟩ | ⟨m', hm', ht, -⟩
  · exact absurd (by simpa using hl) hs.ne
  have ha : ∀ p x, p ∈ o'.already → train[p]? = some x → x ∈ l := by
    intro p x hp hx
    rw [ho'] at hp
    exact hmem p x hx hp
  have hen := hs.enough
  obtain ⟨o₁, m₁, S₁, f1, f2, f3, f4, f5, f6, f7, -⟩ := loop_ok hD.nonneg hs.tn hs.un hs.ut hs.cov hs.disj hs.ne b₁ o' m' [] hm' ht ha (by simp) (by simp) (by simp; omega)
  obtain ⟨o₂, m₂, S, g1, -, -, -, g5, -, g7, -⟩ := loop_ok hD.nonneg hs.tn hs.un hs.ut hs.cov hs.disj hs.ne (b₁ + b₂) o' m' [] hm' ht ha (by simp) (by simp) (by simpa using hen)
  simp only [List.nil_append] at f1 f3 f5 g1 g5
  have hset : setAll m₁ ps (-100) = m₁ := by
    apply List.ext_getElem?
    intro p
    cases hv : (setAll m₁ ps (-100))[p]? with
    | none =>
      have hlen : (setAll m₁ ps (-100)).length = m₁.length := by simp [setAll]
      rw [List.getElem?_eq_none_iff] at hv
      exact (List.getElem?_eq_none_iff.2 (by omega)).symm
    | some v =>
      obtain ⟨v', hv', rfl⟩ := setAll_get _ _ _ _ _ hv
      split_ifs with hp
      · have hlt : p < train.length := by
          rw [← f3.len]
          exact (List.getElem?_eq_some_iff.1 hv').1
        have hx := List.getElem?_eq_getElem hlt
        rw [hv', f3.inC p _ v' hx hv' (by simp [hmem p _ hx hp])]
      · exact hv'.symm
  have hal : o₁.already = ps := by rw [f4, ho']
  have hup : o₁.update D train ps = o₁ := by
    unfold Core.update
    rw [if_pos]
    simp [hal]
  have hnext : Core.select D cmp train o₁ l u b₂ = Core.loop D train u b₂ o₁ [] := by
    unfold Core.select
    rw [hpos]
    simp only [hup, f2, hset]
    rw [← f2, ← hal]
  have hsum := loop_append D train u b₂ b₁ o' o₁ [] S₁ f1
  have hacc := loop_acc D train u S₁ b₂ o₁ []
  rw [List.append_nil] at hacc
  rw [hacc, g1] at hsum
  cases hr : (Core.loop D train u b₂ o₁ []) with
  | mk oo res =>
    rw [hr] at hsum
    cases res with
    | error e => simp [Except.map] at hsum
    | ok r₂ =>
      simp only [Except.map, Prod.mk.injEq, Except.ok.injEq] at hsum
      obtain ⟨rfl, rfl⟩ := hsum
      have hlen : r₂.length = b₂ := by
        rw [List.length_append, f7] at g7
        omega
      refine ⟨o₁, o₂, S₁, r₂, by rw [hall]; exact f1, by rw [hnext]; exact hr, f7, hlen, ?_, by rw [hall]; exact g1⟩
      intro x hx
      exact ⟨f6 x hx, fun h2 => (List.nodup_append.1 g5).2.2 x hx x h2 rfl⟩

/-- With every example but `0` unlabelled, the second call returns `4` although `10` is farther away from all labelled examples. -/
example : (Core.select lineD (fun _ => true) [0, 10, 4, 7] Core.fresh [0] [10, 4, 7] 1).2 = .ok [10] ∧
    (Core.select lineD (fun _ => true) [0, 10, 4, 7] (Core.select lineD (fun _ => true) [0, 10, 4, 7] Core.fresh [0] [10, 4, 7] 1).1 [0] [10, 4, 7] 1).2 = .ok [4] := by
  constructor <;> decide +kernel

example : Situation [0, 10, 4, 7] [0] [10, 4, 7] (1 + 2) := by
  constructor <;> simp

end Alipy.Select
