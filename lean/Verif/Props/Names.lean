import Verif.Spec.Names
import Verif.Model.Select
import Verif.Model.Oracle
import Verif.Props.IndexCollection
import Verif.Proof.Sort

/-! # C135: the names of the examples do not matter -/
namespace Alipy.Names
open Alipy.IC Alipy.Spec

variable {D : Base → Prop} {g : Base → Base} {k k' : Kind}

theorem key_inj {a b : Base} (hk : a.kind = b.kind) (h : a.key = b.key) : a = b := by
  cases a <;> cases b <;> simp_all [Base.kind, Base.key]
  rename_i x y
  cases x <;> cases y <;> simp_all

theorem pyEq_new (r : Renaming D g k k') {v w : Val} (hv : D v.base) (hw : D w.base) : pyEq (newName g v) (newName g w) = pyEq v w := by
  rw [Bool.eq_iff_iff]
  simp only [pyEq, beq_iff_eq, Val.key, newName]
  constructor
  · intro h
    rw [r.inj _ _ hv hw (key_inj (by rw [r.new _ hv, r.new _ hw]) h)]
  · intro h
    rw [key_inj (by rw [r.old _ hv, r.old _ hw]) h]

theorem pyMem_new (r : Renaming D g k k') {v : Val} (hv : D v.base) : ∀ {l : List Val}, (∀ w ∈ l, D w.base) → pyMem (newName g v) (l.map (newName g)) = pyMem v l
  | [], _ => rfl
  | w :: l, h => by
    have ih := pyMem_new r hv (l := l) (fun w hw => h w (by simp [hw]))
    unfold pyMem at ih ⊢
    simp only [List.map_cons, List.any_cons, ih, pyEq_new r hv (h w (by simp))]

theorem isInstance_new (r : Renaming D g k k') {v : Val} (hv : D v.base) {t : Ty} (ht : t.kind = k) :
    isInstance (newName g v).item ⟨t.np, k'⟩ = isInstance v.item t := by
  have h1 := r.old _ hv
  have h2 := r.new _ hv
  unfold isInstance Val.item newName
  cases t.np <;> simp [h1, h2, ht]

theorem add_new (r : Renaming D g k k') {c : IC} (hc : Over D k c) {v : Val} (hv : D v.base) :
    (renamed g k' c).add (newName g v) = (renamed g k' (c.add v).1, (c.add v).2) ∧ Over D k (c.add v).1 := by
  have hm := pyMem_new r hv hc.1
  have e1 : (newName g v).item = newName g v.item := rfl
  have hm' : pyMem (newName g v.item) (c.inner.map (newName g)) = pyMem v.item c.inner := pyMem_new r (v := v.item) hv hc.1
  have hD : ∀ w ∈ c.inner ++ [v.item], D w.base := by
    intro w hw
    rcases List.mem_append.1 hw with h | h
    · exact hc.1 w h
    · rw [List.mem_singleton.1 h]; exact hv
  cases he : c.ety with
  | none =>
    have hi := isInstance_new r hv (t := v.ty) (r.old _ hv)
    have hty : (newName g v).ty = ⟨v.np, k'⟩ := by simp only [Val.ty, newName, r.new _ hv]
    have hk : ∀ t, some v.ty = some t → t.kind = k := fun t ht => by cases ht; exact r.old _ hv
    simp only [IC.add, renamed, he, Option.map_none, hty, e1] at hi ⊢
    have hvn : v.ty.np = v.np := rfl
    rw [hvn] at hi
    rw [hi]
    by_cases h1 : isInstance v.item v.ty = true
    · by_cases h2 : pyMem v.item c.inner = true
      · simp [h1, h2, hm', hvn]
        exact ⟨hc.1, hk⟩
      · simp only [Bool.not_eq_true] at h2
        simp [h1, h2, hm', hvn]
        exact ⟨hD, hk⟩
    · simp only [Bool.not_eq_true] at h1
      simp [h1, hvn]
      exact ⟨hc.1, hk⟩
  | some t =>
    have hi := isInstance_new r hv (t := t) (hc.2 t he)
    have hk : ∀ t', some t = some t' → t'.kind = k := fun t' ht => by cases ht; exact hc.2 t he
    simp only [IC.add, renamed, he, Option.map_some, e1] at hi ⊢
    rw [hi]
    by_cases h1 : isInstance v.item t = true
    · by_cases h2 : pyMem v.item c.inner = true
      · simp [h1, h2, hm', he]
        exact hc
      · simp only [Bool.not_eq_true] at h2
        simp [h1, h2, hm', he]
        exact ⟨hD, hk⟩
    · simp only [Bool.not_eq_true] at h1
      simp [h1, he]
      exact hc

theorem eraseFirst_new (r : Renaming D g k k') {v : Val} (hv : D v.base) : ∀ {l : List Val}, (∀ w ∈ l, D w.base) →
    eraseFirst (newName g v) (l.map (newName g)) = (eraseFirst v l).map (newName g)
  | [], _ => rfl
  | w :: l, h => by
    have ih := eraseFirst_new r hv (l := l) (fun w hw => h w (by simp [hw]))
    simp only [List.map_cons, eraseFirst, pyEq_new r hv (h w (by simp)), ih]
    split <;> rfl

theorem discard_new (r : Renaming D g k k') {c : IC} (hc : Over D k c) {v : Val} (hv : D v.base) :
    (renamed g k' c).discard (newName g v) = renamed g k' (c.discard v) ∧ Over D k (c.discard v) := by
  have hm := pyMem_new r hv hc.1
  unfold IC.discard
  simp only [renamed, hm, eraseFirst_new r hv hc.1]
  split
  · exact ⟨rfl, fun w hw => hc.1 w (mem_eraseFirst hw), hc.2⟩
  · exact ⟨rfl, hc⟩

theorem addAll_new (r : Renaming D g k k') : ∀ (vs : List Val) {c : IC}, Over D k c → (∀ v ∈ vs, D v.base) →
    (renamed g k' c).addAll (vs.map (newName g)) = (renamed g k' (c.addAll vs).1, (c.addAll vs).2) ∧ Over D k (c.addAll vs).1
  | [], c, hc, _ => ⟨rfl, hc⟩
  | v :: vs, c, hc, h => by
    obtain ⟨h1, h2⟩ := add_new r hc (h v (by simp))
    have ih := fun {c} hc => addAll_new r vs (c := c) hc (fun w hw => h w (by simp [hw]))
    simp only [List.map_cons, addAll, h1]
    cases he : c.add v with
    | mk c' e =>
      rw [he] at h2
      cases e with
      | none => exact ih h2
      | some e => exact ⟨rfl, h2⟩

theorem discardAll_new (r : Renaming D g k k') : ∀ (vs : List Val) {c : IC}, Over D k c → (∀ v ∈ vs, D v.base) →
    (renamed g k' c).discardAll (vs.map (newName g)) = renamed g k' (c.discardAll vs) ∧ Over D k (c.discardAll vs)
  | [], c, hc, _ => ⟨rfl, hc⟩
  | v :: vs, c, hc, h => by
    obtain ⟨h1, h2⟩ := discard_new r hc (h v (by simp))
    simp only [List.map_cons, discardAll, h1]
    exact discardAll_new r vs h2 (fun w hw => h w (by simp [hw]))

theorem addSelf_new (r : Renaming D g k k') : ∀ (fuel i : Nat) {c : IC}, Over D k c →
    addSelf fuel i (renamed g k' c) = (renamed g k' (addSelf fuel i c).1, (addSelf fuel i c).2) ∧ Over D k (addSelf fuel i c).1
  | 0, i, c, hc => ⟨rfl, hc⟩
  | fuel + 1, i, c, hc => by
    have e : (renamed g k' c).inner[i]? = c.inner[i]?.map (newName g) := by simp [renamed]
    unfold addSelf
    rw [e]
    cases hv : c.inner[i]? with
    | none => exact ⟨rfl, hc⟩
    | some v =>
      obtain ⟨h1, h2⟩ := add_new r hc (hc.1 v (List.mem_of_getElem? hv))
      simp only [Option.map_some, h1]
      cases he : c.add v with
      | mk c' e =>
        rw [he] at h2
        cases e with
        | none => exact addSelf_new r fuel (i + 1) h2
        | some e => exact ⟨rfl, h2⟩

theorem discardSelf_new (r : Renaming D g k k') : ∀ (fuel i : Nat) {c : IC}, Over D k c →
    discardSelf fuel i (renamed g k' c) = renamed g k' (discardSelf fuel i c) ∧ Over D k (discardSelf fuel i c)
  | 0, i, c, hc => ⟨rfl, hc⟩
  | fuel + 1, i, c, hc => by
    have e : (renamed g k' c).inner[i]? = c.inner[i]?.map (newName g) := by simp [renamed]
    unfold discardSelf
    rw [e]
    cases hv : c.inner[i]? with
    | none => exact ⟨rfl, hc⟩
    | some v =>
      obtain ⟨h1, h2⟩ := discard_new r hc (hc.1 v (List.mem_of_getElem? hv))
      simp only [Option.map_some, h1]
      exact discardSelf_new r fuel (i + 1) h2

/-- C135: a call of an IndexCollection with new names has the same effect and raises the same exception as the call with the old names. -/
theorem C135_call (r : Renaming D g k k') {c : IC} (hc : Over D k c) (op : Op) (hop : ∀ v ∈ opNames op, D v.base) :
    (renamed g k' c).step (renamedOp g op) = (renamed g k' (c.step op).1, (c.step op).2) ∧ Over D k (c.step op).1 := by
  have hlen : (renamed g k' c).inner.length = c.inner.length := by simp [renamed]
  cases op with
  | add v => exact add_new r hc (hop v (by simp [opNames]))
  | discard v =>
    obtain ⟨h1, h2⟩ := discard_new r hc (hop v (by simp [opNames]))
    exact ⟨by simp only [renamedOp, step, h1], h2⟩
  | remove v =>
    obtain ⟨h1, h2⟩ := discard_new r hc (hop v (by simp [opNames]))
    exact ⟨by simp only [renamedOp, step, h1], h2⟩
  | update a =>
    cases a with
    | many vs => exact addAll_new r vs hc hop
    | one v => exact addAll_new r [v] hc hop
    | self =>
      have := addSelf_new r (c.inner.length + 1) 0 hc
      simpa only [renamedOp, renamedArg, step, update, hlen] using this
  | differenceUpdate a =>
    cases a with
    | many vs =>
      obtain ⟨h1, h2⟩ := discardAll_new r vs hc hop
      exact ⟨by simp only [renamedOp, renamedArg, step, differenceUpdate, h1], h2⟩
    | one v =>
      obtain ⟨h1, h2⟩ := discardAll_new r [v] hc hop
      simp only [List.map_cons, List.map_nil] at h1
      exact ⟨by simp only [renamedOp, renamedArg, step, differenceUpdate, h1], h2⟩
    | self =>
      obtain ⟨h1, h2⟩ := discardSelf_new r (c.inner.length + 1) 0 hc
      exact ⟨by simp only [renamedOp, renamedArg, step, differenceUpdate, hlen, h1], h2⟩
  | pop =>
    have e : (renamed g k' c).inner.getLast? = c.inner.getLast?.map (newName g) := by simp [renamed]
    simp only [renamedOp, step, pop, e]
    cases hv : c.inner.getLast? with
    | none => exact ⟨rfl, hc⟩
    | some v =>
      refine ⟨?_, fun w hw => hc.1 w (List.mem_of_mem_dropLast hw), hc.2⟩
      simp [renamed, List.map_dropLast]
  | clear => exact ⟨rfl, by simp [step, clear], hc.2⟩

/-- C135: so a whole program, with calls that raise in between, ends with the new names of what it would have ended with. -/
theorem C135_program (r : Renaming D g k k') : ∀ (ops : List Op) {c : IC}, Over D k c → (∀ op ∈ ops, ∀ v ∈ opNames op, D v.base) →
    (renamed g k' c).run (ops.map (renamedOp g)) = renamed g k' (c.run ops)
  | [], c, _, _ => rfl
  | op :: ops, c, hc, h => by
    obtain ⟨h1, h2⟩ := C135_call r hc op (h op (by simp))
    have := C135_program r ops h2 (fun o ho => h o (by simp [ho]))
    simp only [run, List.map_cons, List.foldl_cons, h1] at this ⊢
    exact this

/-- The integers 0, 1 and 2 get strings as names, in another order. -/
def someNames : Base → Base
  | .int n => .str (if n = 0 then "c" else if n = 1 then "b" else "a")
  | b => b

example : Renaming (fun b => b ∈ [.int 0, .int 1, .int 2]) someNames .int .str := by
  refine ⟨by decide, by decide, ?_⟩
  intro a b ha hb h
  simp only [List.mem_cons, List.not_mem_nil, or_false] at ha hb
  rcases ha with rfl | rfl | rfl <;> rcases hb with rfl | rfl | rfl <;> first | rfl | (exact absurd h (by decide))

/-- A program that adds, is refused, and removes: with the old names and with the new ones. -/
example : (IC.empty.run [.add ⟨false, .int 0⟩, .update (.many [⟨true, .int 2⟩, ⟨false, .int 1⟩]), .add ⟨false, .int 2⟩, .differenceUpdate (.one ⟨false, .int 0⟩)]).inner = [⟨false, .int 2⟩, ⟨false, .int 1⟩] ∧
    (IC.empty.run ([.add ⟨false, .int 0⟩, .update (.many [⟨true, .int 2⟩, ⟨false, .int 1⟩]), .add ⟨false, .int 2⟩, .differenceUpdate (.one ⟨false, .int 0⟩)].map (renamedOp someNames))).inner =
      [⟨false, .str "a"⟩, ⟨false, .str "b"⟩] := by decide

/-! ## The constructor sorts, so that the order of the new collection may be another one -/

theorem coerce_uniform {l : List Val} {k : Kind} (h : ∀ v ∈ l, v.base.kind = k) : coerce l = l.map (·.base) := by
  cases hl : l with
  | nil => rfl
  | cons a l' =>
    rw [← hl]
    have ha : a ∈ l := by rw [hl]; simp
    unfold coerce
    cases k with
    | str =>
      rw [if_pos (List.any_eq_true.2 ⟨a, ha, by simp [h a ha]⟩)]
      refine List.map_congr_left fun v hv => ?_
      have := h v hv
      cases hb : v.base <;> simp_all [Base.kind, Base.toStr]
    | int =>
      rw [if_neg, if_pos (List.any_eq_true.2 ⟨a, ha, by simp [h a ha]⟩)]
      · refine List.map_congr_left fun v hv => ?_
        have := h v hv
        cases hb : v.base <;> simp_all [Base.kind, Base.key]
      · simp only [List.any_eq_true, not_exists]
        rintro v ⟨hv, e⟩
        rw [h v hv] at e
        cases e
    | bool =>
      rw [if_neg, if_neg]
      · simp only [List.any_eq_true, not_exists]
        rintro v ⟨hv, e⟩
        rw [h v hv] at e
        cases e
      · simp only [List.any_eq_true, not_exists]
        rintro v ⟨hv, e⟩
        rw [h v hv] at e
        cases e

theorem uniq_new (r : Renaming D g k k') : ∀ {l : List Base}, (∀ b ∈ l, D b) → uniq (l.map g) = (uniq l).map g
  | [], _ => rfl
  | b :: l, h => by
    have ih := uniq_new r (l := l) (fun w hw => h w (by simp [hw]))
    simp only [List.map_cons, uniq, ih, List.filter_map, List.cons.injEq, true_and]
    congr 1
    refine List.filter_congr fun c hc => ?_
    have hcD : D c := h c (by simp [mem_uniq hc])
    have := pyEq_new r (v := ⟨false, c⟩) (w := ⟨false, b⟩) hcD (h b (by simp))
    simp only [pyEq, Val.key, newName] at this
    simp only [Function.comp, this]

theorem npUnique_new (r : Renaming D g k k') {data : List Val} (h : ∀ v ∈ data, D v.base) :
    (npUnique (data.map (newName g))).Perm ((npUnique data).map (newName g)) ∧ ∀ v ∈ npUnique data, D v.base := by
  have e : (data.map (newName g)).map (·.base) = (data.map (·.base)).map g := by
    rw [List.map_map, List.map_map]; rfl
  have hu := uniq_new r (l := data.map (·.base)) (by
    intro b hb
    obtain ⟨v, hv, rfl⟩ := List.mem_map.1 hb
    exact h v hv)
  unfold npUnique
  rw [coerce_uniform (k := k') (l := data.map (newName g)) (by
    intro v hv
    obtain ⟨w, hw, rfl⟩ := List.mem_map.1 hv
    exact r.new _ (h w hw)), coerce_uniform (k := k) (fun v hv => r.old _ (h v hv)), e, hu]
  constructor
  · rw [List.map_map]
    refine ((sortBy_perm _ _).map _).trans ?_
    rw [List.map_map]
    exact ((sortBy_perm _ _).map _).symm
  · intro v hv
    obtain ⟨b, hb, rfl⟩ := List.mem_map.1 hv
    obtain ⟨w, hw, e⟩ := List.mem_map.1 (mem_uniq ((sortBy_perm _ _).mem_iff.1 hb))
    rw [← e]; exact h w hw

/-- C135: a collection made from new names holds the new names of the collection made from the old ones, in the order of the new names. -/
theorem C135_construct (r : Renaming D g k k') (data : List Val) (h : ∀ v ∈ data, D v.base) :
    Twin g k' (mk' data) (mk' (data.map (newName g))) ∧ Over D k (mk' data) := by
  obtain ⟨hp, hD⟩ := npUnique_new r h
  have hO : Over D k (mk' data) := by
    refine ⟨by rw [mk'_inner]; exact hD, fun t ht => ?_⟩
    unfold mk' at ht
    cases hn : npUnique data with
    | nil => rw [hn] at ht; cases ht
    | cons v vs =>
      rw [hn] at ht
      cases ht
      exact r.old _ (hD v (by rw [hn]; simp))
  refine ⟨⟨by rw [mk'_inner, mk'_inner]; exact hp, ?_⟩, hO⟩
  unfold mk'
  cases hn : npUnique data with
  | nil =>
    rw [hn] at hp
    have : npUnique (data.map (newName g)) = [] := List.Perm.eq_nil hp
    rw [this]; rfl
  | cons v vs =>
    cases hn' : npUnique (data.map (newName g)) with
    | nil => rw [hn, hn'] at hp; exact absurd hp.symm.eq_nil (by simp)
    | cons w ws =>
      rw [hn, hn'] at hp
      obtain ⟨x, hx, hxe⟩ := List.mem_map.1 (hp.subset (List.mem_cons_self))
      have hxk := r.new _ (hD x (by rw [hn]; exact hx))
      simp only [Option.map_some, Val.item, Val.ty, ← hxe, newName, hxk]

/-- The order is that of the names: the constructor of the new collection lists the examples in another order, so that `pop` takes another one. -/
example : (mk' [⟨false, .int 0⟩, ⟨false, .int 1⟩, ⟨false, .int 2⟩]).inner.map (newName someNames) = [⟨true, .str "c"⟩, ⟨true, .str "b"⟩, ⟨true, .str "a"⟩] ∧
    (mk' ([⟨false, .int 0⟩, ⟨false, .int 1⟩, ⟨false, .int 2⟩].map (newName someNames))).inner = [⟨true, .str "a"⟩, ⟨true, .str "b"⟩, ⟨true, .str "c"⟩] := by decide +kernel

/-! ## Calls that do not depend on the order -/

theorem pyMem_perm {v : Val} {l l' : List Val} (h : l.Perm l') : pyMem v l = pyMem v l' := by
  rw [Bool.eq_iff_iff, pyMem_iff, pyMem_iff]
  exact (h.map _).mem_iff

theorem eraseFirst_filter {v : Val} : ∀ {l : List Val}, (l.map Val.key).Nodup → eraseFirst v l = l.filter (fun w => !pyEq v w)
  | [], _ => rfl
  | w :: l, h => by
    simp only [List.map_cons, List.nodup_cons] at h
    by_cases hw : pyEq v w = true
    · simp only [eraseFirst, hw, if_true, List.filter_cons, Bool.not_true, Bool.false_eq_true, if_false]
      symm
      rw [List.filter_eq_self]
      intro a ha
      simp only [pyEq, beq_iff_eq, Bool.not_eq_true', beq_eq_false_iff_ne] at hw ⊢
      rw [hw]
      intro e
      exact h.1 (e ▸ List.mem_map_of_mem ha)
    · simp only [Bool.not_eq_true] at hw
      simp only [eraseFirst, hw, Bool.false_eq_true, if_false, List.filter_cons, Bool.not_false, if_true, eraseFirst_filter h.2]

theorem eraseFirst_perm {v : Val} {l l' : List Val} (h : l.Perm l') (hn : (l.map Val.key).Nodup) : (eraseFirst v l).Perm (eraseFirst v l') := by
  rw [eraseFirst_filter hn, eraseFirst_filter ((h.map _).nodup_iff.1 hn)]
  exact h.filter _

/-- Same elements in any order, same element type. -/
def Alike (c c' : IC) : Prop := c.inner.Perm c'.inner ∧ c.ety = c'.ety

theorem add_alike {c c' : IC} (h : Alike c c') (v : Val) : Alike (c.add v).1 (c'.add v).1 ∧ (c.add v).2 = (c'.add v).2 := by
  obtain ⟨l, e⟩ := c
  obtain ⟨l', e'⟩ := c'
  obtain ⟨hp, he⟩ := h
  simp only at hp he
  subst he
  unfold IC.add
  cases e with
  | none =>
    simp only [← pyMem_perm hp]
    split
    · exact ⟨⟨hp, rfl⟩, rfl⟩
    · split
      · exact ⟨⟨hp, rfl⟩, rfl⟩
      · exact ⟨⟨hp.append_right _, rfl⟩, rfl⟩
  | some t =>
    simp only [← pyMem_perm hp]
    split
    · exact ⟨⟨hp, rfl⟩, rfl⟩
    · split
      · exact ⟨⟨hp, rfl⟩, rfl⟩
      · exact ⟨⟨hp.append_right _, rfl⟩, rfl⟩

theorem discard_alike {c c' : IC} (h : Alike c c') (hn : c.keys.Nodup) (v : Val) : Alike (c.discard v) (c'.discard v) := by
  obtain ⟨hp, he⟩ := h
  unfold IC.discard
  rw [← pyMem_perm hp]
  split
  · exact ⟨eraseFirst_perm hp hn, he⟩
  · exact ⟨hp, he⟩

theorem addAll_alike : ∀ (vs : List Val) {c c' : IC}, Alike c c' → Alike (c.addAll vs).1 (c'.addAll vs).1 ∧ (c.addAll vs).2 = (c'.addAll vs).2
  | [], _, _, h => ⟨h, rfl⟩
  | v :: vs, c, c', h => by
    obtain ⟨h1, h2⟩ := add_alike h v
    unfold addAll
    rcases hc : c.add v with ⟨d, _ | e⟩ <;> rcases hc' : c'.add v with ⟨d', _ | e'⟩ <;> rw [hc, hc'] at h1 h2
    · exact addAll_alike vs h1
    · cases h2
    · cases h2
    · exact ⟨h1, h2⟩

theorem discardAll_alike : ∀ (vs : List Val) {c c' : IC}, Alike c c' → c.keys.Nodup → Alike (c.discardAll vs) (c'.discardAll vs)
  | [], _, _, h, _ => h
  | v :: vs, c, c', h, hn => discardAll_alike vs (discard_alike h hn v) (discard_keys_nodup c v hn)

theorem step_alike {c c' : IC} (h : Alike c c') (hn : c.keys.Nodup) (op : Op) (ho : orderFree op) :
    Alike (c.step op).1 (c'.step op).1 ∧ (c.step op).2 = (c'.step op).2 := by
  cases op with
  | add v => exact add_alike h v
  | discard v => exact ⟨discard_alike h hn v, rfl⟩
  | remove v => exact ⟨discard_alike h hn v, rfl⟩
  | update a =>
    cases a with
    | many vs => exact addAll_alike vs h
    | one v => exact addAll_alike [v] h
    | self => exact absurd ho (by simp [orderFree])
  | differenceUpdate a =>
    cases a with
    | many vs => exact ⟨discardAll_alike vs h hn, rfl⟩
    | one v => exact ⟨discardAll_alike [v] h hn, rfl⟩
    | self => exact absurd ho (by simp [orderFree])
  | pop => exact absurd ho (by simp [orderFree])
  | clear => exact ⟨⟨List.Perm.refl _, h.2⟩, rfl⟩

theorem renamed_nodup (r : Renaming D g k k') {c : IC} (hc : Over D k c) (hn : c.keys.Nodup) : (renamed g k' c).keys.Nodup := by
  unfold keys renamed at *
  simp only [List.map_map]
  rw [List.Nodup, List.pairwise_map] at hn ⊢
  refine hn.imp_of_mem ?_
  intro v w hv hw hne e
  have := pyEq_new r (hc.1 v hv) (hc.1 w hw)
  simp only [pyEq, Function.comp] at this e
  rw [e] at this
  simp only [beq_self_eq_true] at this
  exact hne (beq_iff_eq.1 this.symm)

/-- C135: the same for collections whose orders differ, as they do after the constructor, for every call whose effect does not depend on the order: it raises the same exception, and
afterwards the one collection still holds the new names of the other. -/
theorem C135_any_order (r : Renaming D g k k') {c c' : IC} (hr : Reachable c) (hc : Over D k c) (ht : Twin g k' c c') (op : Op) (hop : ∀ v ∈ opNames op, D v.base) (ho : orderFree op) :
    Twin g k' (c.step op).1 (c'.step (renamedOp g op)).1 ∧ (c'.step (renamedOp g op)).2 = (c.step op).2 ∧ Over D k (c.step op).1 := by
  obtain ⟨h1, h2⟩ := C135_call r hc op hop
  have ha : Alike (renamed g k' c) c' := ⟨ht.1.symm, ht.2.symm⟩
  have ho' : orderFree (renamedOp g op) := by
    cases op with
    | update a => cases a <;> simp_all [orderFree, renamedOp, renamedArg]
    | differenceUpdate a => cases a <;> simp_all [orderFree, renamedOp, renamedArg]
    | _ => simp_all [orderFree, renamedOp]
  obtain ⟨h3, h4⟩ := step_alike ha (renamed_nodup r hc (reachable_nodup hr)) (renamedOp g op) ho'
  rw [h1] at h3 h4
  exact ⟨⟨h3.1.symm, h3.2.symm⟩, h4.symm, h2⟩

/-! ## Records -/

theorem dictGet_ren (f : Obj (List Val) → Obj (List Val)) (key : String) : ∀ d : List (String × Obj (List Val)), dictGet key (d.map (fun p => (p.1, f p.2))) = (dictGet key d).map f
  | [] => rfl
  | (a, b) :: d => by
    simp only [List.map_cons, dictGet]
    split
    · rfl
    · exact dictGet_ren f key d

theorem entryGet_ren (e : Entry (List Val)) (key : String) : StateIO.entryGet (renamedEntry g e) key = (match StateIO.entryGet e key with
    | .ok v => .ok (renamedObj g v)
    | .error err => .error err) := by
  cases e with
  | dict d => rfl
  | st s =>
    simp only [renamedEntry, StateIO.entryGet, State.getValue, dictGet_ren]
    cases dictGet key s.entries <;> rfl

theorem replay_new (r : Renaming D g k k') : ∀ (es : List (Entry (List Val))) {L U L' U' : IC}, Reachable L → Reachable U → Over D k L → Over D k U → Twin g k' L L' → Twin g k' U U' →
    (∀ e ∈ es, queriedIn D e) →
    (∃ err, StateIO.replay icOps es L U = .error err ∧ StateIO.replay icOps (es.map (renamedEntry g)) L' U' = .error err) ∨
    ∃ A B A' B', StateIO.replay icOps es L U = .ok (A, B) ∧ StateIO.replay icOps (es.map (renamedEntry g)) L' U' = .ok (A', B') ∧ Twin g k' A A' ∧ Twin g k' B B'
  | [], L, U, L', U', _, _, _, _, hl, hu, _ => .inr ⟨L, U, L', U', rfl, rfl, hl, hu⟩
  | e :: es, L, U, L', U', rl, ru, ol, ou, hl, hu, hq => by
    have he := entryGet_ren (g := g) e "select_index"
    simp only [List.map_cons, StateIO.replay, he]
    cases hg : StateIO.entryGet e "select_index" with
    | error err => exact .inl ⟨err, rfl, rfl⟩
    | ok o =>
      cases o with
      | arr xs => exact .inl ⟨_, rfl, rfl⟩
      | other n => exact .inl ⟨_, rfl, rfl⟩
      | sel s =>
        have hs : ∀ v ∈ s, D v.base := by
          have := hq e (by simp)
          cases e with
          | dict d => cases hg
          | st st =>
            refine this s ?_
            simp only [StateIO.entryGet, State.getValue] at hg
            cases hd : dictGet "select_index" st.entries with
            | none => rw [hd] at hg; cases hg
            | some o => rw [hd] at hg; cases hg; rfl
        obtain ⟨tu, -, ou'⟩ := C135_any_order r ru ou hu (.differenceUpdate (.many s)) hs trivial
        obtain ⟨tl, el, ol'⟩ := C135_any_order r rl ol hl (.update (.many s)) hs trivial
        have ru' : Reachable (U.differenceUpdate (.many s)) := Reachable.step (.differenceUpdate (.many s)) ru
        have rl' : Reachable (L.update (.many s)).1 := Reachable.step (.update (.many s)) rl
        simp only [renamedObj, icOps]
        simp only [step, renamedOp, renamedArg] at tu tl el ou' ol'
        rcases hL : L.update (.many s) with ⟨A, _ | err⟩ <;> rcases hL' : L'.update (.many (s.map (newName g))) with ⟨A', _ | err'⟩ <;> rw [hL, hL'] at tl el <;> rw [hL] at rl' ol'
        · exact replay_new r es rl' ru' ol' ou' tl tu (fun e he => hq e (by simp [he]))
        · cases el
        · cases el
        · simp only [Option.some.injEq] at el
          exact .inl ⟨err, rfl, by rw [← el]⟩

/-- C135: the index sets restored from a record in which all examples have new names are the new names of the sets restored from the record, for every number of queries, and the same
exception is raised if there is one. -/
theorem C135_workspace (r : Renaming D g k k') {L U L' U' : IC} (rl : Reachable L) (ru : Reachable U) (ol : Over D k L) (ou : Over D k U) (hl : Twin g k' L L') (hu : Twin g k' U U')
    (es : List (Entry (List Val))) (hq : ∀ e ∈ es, queriedIn D e) (cost : ℚ) (numq batch : Nat) (it : Option Int) :
    let s : StateIO IC (List Val) := ⟨L, U, es, cost, numq, batch⟩
    let s' : StateIO IC (List Val) := ⟨L', U', es.map (renamedEntry g), cost, numq, batch⟩
    (∃ err, s.getWorkspace icOps it = .error err ∧ s'.getWorkspace icOps it = .error err) ∨
    ∃ A B A' B', s.getWorkspace icOps it = .ok (A, B) ∧ s'.getWorkspace icOps it = .ok (A', B') ∧ Twin g k' A A' ∧ Twin g k' B B' := by
  intro s s'
  have hlen : (es.map (renamedEntry g)).length = es.length := by simp
  unfold StateIO.getWorkspace
  simp only [s, s', hlen]
  split
  · rw [← List.map_take]
    exact replay_new r _ rl ru ol ou hl hu (fun e he => hq e (List.mem_of_mem_take he))
  · exact .inl ⟨_, rfl, rfl⟩

theorem entryHas_ren (e : Entry (List Val)) (key : String) : StateIO.entryHas (renamedEntry g e) key = StateIO.entryHas e key := by
  cases e with
  | dict d => simp [renamedEntry, StateIO.entryHas, List.map_map, Function.comp_def]
  | st s =>
    simp only [renamedEntry, StateIO.entryHas, State.keys, List.map_map]
    rfl

theorem entryCost_ren (e : Entry (List Val)) : StateIO.entryCost (renamedEntry g e) = StateIO.entryCost e := by
  unfold StateIO.entryCost
  rw [entryHas_ren, entryGet_ren]
  split
  · cases StateIO.entryGet e "cost" with
    | error err => rfl
    | ok o => cases o <;> rfl
  · rfl

theorem entryLen_ren (e : Entry (List Val)) : StateIO.entryLen icOps (renamedEntry g e) = StateIO.entryLen icOps e := by
  unfold StateIO.entryLen
  rw [entryGet_ren]
  cases StateIO.entryGet e "select_index" with
  | error err => rfl
  | ok o =>
    cases o with
    | sel s => simp [renamedObj, icOps]
    | arr xs => rfl
    | other n => rfl

/-- C135: the numbers a record reports, queries and costs, do not change with the names. They are what the stopping criteria look at. -/
theorem C135_totals (g : Base → Base) : ∀ es : List (Entry (List Val)), StateIO.totals icOps (es.map (renamedEntry g)) = StateIO.totals icOps es
  | [] => rfl
  | e :: es => by simp only [List.map_cons, StateIO.totals, entryLen_ren, entryCost_ren, C135_totals g es]

/-! ## Oracles -/

theorem dictSet_key {β : Type} {h : Key → Key} (a : Key) (b : β) : ∀ (d : List (Key × β)), (∀ p ∈ d, h p.1 = h a → p.1 = a) →
    dictSet (h a) b (d.map (fun p => (h p.1, p.2))) = (dictSet a b d).map (fun p => (h p.1, p.2))
  | [], _ => rfl
  | (c, x) :: d, hd => by
    have h1 := hd (c, x) (by simp)
    have ih := dictSet_key a b d (fun p hp => hd p (by simp [hp]))
    simp only [List.map_cons, dictSet]
    by_cases hc : c = a
    · simp [hc]
    · have : ¬ h c = h a := fun e => hc (h1 e)
      simp [hc, this, ih]

theorem dictGet_key {β : Type} {h : Key → Key} (a : Key) : ∀ (d : List (Key × β)), (∀ p ∈ d, h p.1 = h a → p.1 = a) → dictGet (h a) (d.map (fun p => (h p.1, p.2))) = dictGet a d
  | [], _ => rfl
  | (c, x) :: d, hd => by
    have h1 := hd (c, x) (by simp)
    have ih := dictGet_key a d (fun p hp => hd p (by simp [hp]))
    simp only [List.map_cons, dictGet]
    by_cases hc : c = a
    · simp [hc]
    · have : ¬ h c = h a := fun e => hc (h1 e)
      simp [hc, this, ih]

theorem dictSet_keys {β : Type} (a : Key) (b : β) : ∀ (d : List (Key × β)) (p : Key × β), p ∈ dictSet a b d → p.1 = a ∨ ∃ q ∈ d, q.1 = p.1
  | [], p, hp => by simp [dictSet] at hp; left; rw [hp]
  | (c, x) :: d, p, hp => by
    simp only [dictSet] at hp
    split at hp
    · rcases List.mem_cons.1 hp with e | e
      · left; rw [e]; assumption
      · right; exact ⟨p, by simp [e], rfl⟩
    · rcases List.mem_cons.1 hp with e | e
      · right; exact ⟨(c, x), by simp, by rw [e]⟩
      · rcases dictSet_keys a b d p e with h | ⟨q, hq, e⟩
        · exact .inl h
        · exact .inr ⟨q, by simp [hq], e⟩

theorem dictOfList_key {β : Type} {h : Key → Key} (S : List Key) (hS : ∀ a ∈ S, ∀ b ∈ S, h a = h b → a = b) (l : List (Key × β)) (hl : ∀ p ∈ l, p.1 ∈ S) :
    dictOfList (l.map (fun p => (h p.1, p.2))) = (dictOfList l).map (fun p => (h p.1, p.2)) ∧ ∀ p ∈ dictOfList l, p.1 ∈ S := by
  unfold dictOfList
  have key : ∀ (l : List (Key × β)) (d : List (Key × β)), (∀ p ∈ l, p.1 ∈ S) → (∀ p ∈ d, p.1 ∈ S) →
      (l.map (fun p => (h p.1, p.2))).foldl (fun d p => dictSet p.1 p.2 d) (d.map (fun p => (h p.1, p.2))) = (l.foldl (fun d p => dictSet p.1 p.2 d) d).map (fun p => (h p.1, p.2)) ∧
      ∀ p ∈ l.foldl (fun d p => dictSet p.1 p.2 d) d, p.1 ∈ S := by
    intro l
    induction l with
    | nil => exact fun d _ hd => ⟨rfl, hd⟩
    | cons a l ih =>
      intro d hl hd
      simp only [List.map_cons, List.foldl_cons]
      rw [dictSet_key a.1 a.2 d (fun p hp e => hS _ (hd p hp) _ (hl a (by simp)) e)]
      refine ih _ (fun p hp => hl p (by simp [hp])) (fun p hp => ?_)
      rcases dictSet_keys _ _ _ _ hp with e | ⟨q, hq, e⟩
      · rw [e]; exact hl a (by simp)
      · rw [← e]; exact hd q hq
  exact key l [] hl (by simp)

theorem query_of_ask {χ β : Type} [DecidableEq χ] {h : Key → Key} {o o' : Oracle χ β} : ∀ ks : List Key, (∀ a ∈ ks, o'.ask (h a) = o.ask a) → o'.queryByIndex (ks.map h) = o.queryByIndex ks
  | [], _ => rfl
  | a :: ks, H => by
    simp only [List.map_cons, Oracle.queryByIndex, H a (by simp), query_of_ask ks (fun b hb => H b (by simp [hb]))]

/-- C135: an oracle made with new names answers queries by these names as the oracle made with the old names does, with labels, costs and refusals. The new names of the examples need only
differ among the examples stored and asked for. -/
theorem C135_oracle {χ β : Type} [DecidableEq χ] (ty : β → Nat) (labels : List β) (ix : List Key) (cost : Option (List ℚ)) (h : Key → Key) (ks : List Key)
    (hinj : ∀ a ∈ ix ++ ks, ∀ b ∈ ix ++ ks, h a = h b → a = b) :
    (∃ e, (Oracle.new ty labels (none : Option (List χ)) (some ix) cost) = .error e ∧ Oracle.new ty labels (none : Option (List χ)) (some (ix.map h)) cost = .error e) ∨
    ∃ o o' : Oracle χ β, Oracle.new ty labels none (some ix) cost = .ok o ∧ Oracle.new ty labels none (some (ix.map h)) cost = .ok o' ∧ o'.queryByIndex (ks.map h) = o.queryByIndex ks := by
  unfold Oracle.new
  have hs : sameLength labels.length (some (ix.map h)) = sameLength labels.length (some ix) := by simp [sameLength]
  rw [hs]
  split
  · exact .inl ⟨_, rfl, rfl⟩
  · cases labels with
    | nil => exact .inl ⟨_, rfl, rfl⟩
    | cons l ls =>
      right
      refine ⟨_, _, rfl, rfl, ?_⟩
      have zipm : ∀ {γ : Type} (xs : List γ), (ix.map h).zip xs = (ix.zip xs).map (fun p => (h p.1, p.2)) := fun xs => by
        rw [List.zip_map_left]; rfl
      refine query_of_ask ks fun a ha => ?_
      cases cost with
      | none =>
        obtain ⟨e, hk⟩ := dictOfList_key (ix ++ ks) hinj (ix.zip (l :: ls)) (fun p hp => by simp [(List.of_mem_zip hp).1])
        simp only [Oracle.ask, Option.getD_some, zipm, e]
        rw [dictGet_key a _ (fun p hp e => hinj _ (hk p hp) _ (by simp [ha]) e)]
      | some cs =>
        obtain ⟨e, hk⟩ := dictOfList_key (ix ++ ks) hinj (ix.zip ((l :: ls).zip cs)) (fun p hp => by simp [(List.of_mem_zip hp).1])
        simp only [Oracle.ask, Option.getD_some, zipm, e]
        rw [dictGet_key a _ (fun p hp e => hinj _ (hk p hp) _ (by simp [ha]) e)]

example : (∀ a ∈ ([.num 0, .num 1] : List Key) ++ [.num 1, .num 5], ∀ b ∈ ([.num 0, .num 1] : List Key) ++ [.num 1, .num 5],
      (fun k => match k with | .num n => Key.num (10 - n) | k => k) a = (fun k => match k with | .num n => Key.num (10 - n) | k => k) b → a = b) ∧
    ((Oracle.new (χ := Nat) (fun _ => 0) ["x", "y"] none (some [.num 10, .num 9]) none).toOption.bind (fun o => (o.queryByIndex [.num 9, .num 10]).toOption)) = some (["y", "x"], [1, 1]) := by
  refine ⟨by decide +kernel, by decide +kernel⟩

/-! ## Selection and splits -/

theorem pickAll_map {α β : Type} (f : α → β) (l : List α) : ∀ ps : List Int, pickAll (l.map f) ps = (match pickAll l ps with
    | .ok xs => .ok (xs.map f)
    | .error e => .error e)
  | [] => rfl
  | p :: ps => by
    simp only [pickAll, pickAll_map f l ps]
    by_cases hp : 0 ≤ p
    · simp only [if_pos hp, List.getElem?_map]
      cases l[p.toNat]? with
      | none => rfl
      | some x =>
        simp only [Option.map_some]
        cases pickAll l ps <;> rfl
    · simp only [if_neg hp]

/-- Lists, arrays and collections of other names. -/
def Coll.ren {α β : Type} (f : α → β) : Select.Coll α → Select.Coll β
  | .list l => .list (l.map f)
  | .array l => .array (l.map f)
  | .coll l => .coll (l.map f)

theorem frame_map {α β : Type} (f : α → β) (u : Select.Coll α) (batch : Int) (ch : Except PyErr (List Nat)) :
    Select.frame (Coll.ren f u) batch ch = (match Select.frame u batch ch with
      | .ok xs => .ok (xs.map f)
      | .error e => .error e) := by
  have hi : (Coll.ren f u).items = u.items.map f := by cases u <;> rfl
  unfold Select.frame
  rw [hi, List.length_map]
  split
  · rfl
  · split
    · rfl
    · cases ch with
      | error e => rfl
      | ok ps => simp only [pickAll_map]

/-- C135: uncertainty sampling, query by committee, density weighting and random selection, given the same predictions, select the same examples under whatever names. -/
theorem C135_select {α β K : Type} [Field K] [LinearOrder K] (f : α → β) (u : Select.Coll α) (batch : Int) (log : K → K) (argsort : List K → List Nat) (m : Select.Measure) (p : Select.Pred K)
    (votes : List (List Int)) (pat div : List K) (shuffle : List Int → List Int) :
    let new : Except PyErr (List α) → Except PyErr (List β) := fun r => match r with
      | .ok xs => .ok (xs.map f)
      | .error e => .error e
    Select.uncertainty log argsort m (Coll.ren f u) p batch = new (Select.uncertainty log argsort m u p batch) ∧
    Select.qbc log argsort (Coll.ren f u) votes batch = new (Select.qbc log argsort u votes batch) ∧
    Select.densityWeighted argsort (Coll.ren f u) pat div batch = new (Select.densityWeighted argsort u pat div batch) ∧
    Select.random shuffle (Coll.ren f u) batch = new (Select.random shuffle u batch) := by
  intro new
  have hi : (Coll.ren f u).items = u.items.map f := by cases u <;> rfl
  refine ⟨?_, frame_map f u batch _, ?_, ?_⟩
  · unfold Select.uncertainty
    cases m <;> cases p <;> simp only [Select.bySmallest, Select.byLargest, frame_map, new] <;> (try split) <;> simp only [frame_map]
  · unfold Select.densityWeighted
    rw [hi, List.length_map]
    split
    · rfl
    · cases nlargestarg (argsort (List.zipWith (fun x y => x * y) pat div)) batch with
      | error e => rfl
      | ok ps => simp only [pickAll_map, new]
  · unfold Select.random
    rw [hi, List.length_map]
    split
    · rfl
    · cases randperm shuffle (.int ((u.items.length : Int) - 1)) (.int batch) with
      | error e => rfl
      | ok ps =>
        cases u with
        | list l => rfl
        | array l => rfl
        | coll l => simp only [Coll.ren, Select.Coll.index, pickAll_map, new]

example : Select.bySmallest (K := ℚ) (fun _ => [2, 0, 1]) (Coll.ren (fun n : Nat => 10 * n) (.list [4, 5, 6])) [3, 5, 1] 2 = .ok [60, 40] := by rfl

theorem slice_map {α β : Type} (f : α → β) (l : List α) (n : Int) : pySliceTo (l.map f) n = (pySliceTo l n).map f ∧ pySliceFrom (l.map f) n = (pySliceFrom l n).map f := by
  unfold pySliceTo pySliceFrom
  simp only [List.length_map]
  constructor <;> split <;> simp [List.map_take, List.map_drop]

/-- C135: a random split of examples with other names is the same split under the other names. -/
theorem C135_split (f : Int → Int) (sh : Sh) (names : List Int) (testRatio rate : ℚ) :
    randomRound sh (names.map f) testRatio rate = (match randomRound sh names testRatio rate with
      | .ok r => .ok (renamedRound f r)
      | .error e => .error e) := by
  unfold randomRound cutTrain pick
  rw [List.length_map]
  cases randperm sh (.int ((names.length : Int) - 1)) .default with
  | error e => rfl
  | ok rp =>
    simp only [pickAll_map]
    cases pickAll names (pySliceTo rp (pyRound ((1 - testRatio) * rp.length))) with
    | error e => rfl
    | ok train =>
      simp only
      cases pickAll names (pySliceFrom rp (pyRound ((1 - testRatio) * rp.length))) with
      | error e => rfl
      | ok test => simp only [renamedRound, List.length_map, (slice_map f train _).1, (slice_map f train _).2]

example : renamedRound (fun n => n + 100) ⟨[2, 0, 1], [3], [2], [0, 1]⟩ = ⟨[102, 100, 101], [103], [102], [100, 101]⟩ := by decide

end Alipy.Names
