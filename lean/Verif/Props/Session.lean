import Verif.Spec.Session
import Verif.Proof.MainLoop
import Verif.Props.Oracle
import Verif.Props.Repository
import Verif.Props.RepositoryCost
import Verif.Props.RepositoryMatrix
import Verif.Props.Select

/-! # C80: a whole active-learning session -/
set_option linter.unusedSectionVars false
namespace Alipy
open Spec
open StateIO (getWorkspace replay addState)

/-- A repository keeps what it is told, for distinct indexes: `holds r rows` says that `r` has stored `rows`. -/
structure RepoLaw {ρ β : Type} (ops : RepoOps ρ β) (holds : ρ → List (Key × β) → Prop) (legal : β → Prop) : Prop where
  update : ∀ r rows ks bs cs, holds r rows → (∀ b ∈ bs, legal b) → ks.length = bs.length → ks.length = cs.length →
    (rows.map Prod.fst ++ ks).Nodup →
    ∃ r', ops.update r ks bs cs = (r', none) ∧ holds r' (rows ++ ks.zip bs) ∧ ops.cost r' = ops.cost r + cs.sum
  training : ∀ r rows, holds r rows → ops.training r = .ok (rows.map Prod.snd, rows.map Prod.fst)

/-! ## The two repositories -/

def eRow {β : Type} (p : Key × β) : Row Key β Unit := ⟨p.1, p.2, none⟩

theorem eRow_index {β : Type} (rows : List (Key × β)) : (rows.map eRow).map Row.index = rows.map Prod.fst := by
  rw [List.map_map]; rfl

theorem eRow_label {β : Type} (rows : List (Key × β)) : (rows.map eRow).map Row.label = rows.map Prod.snd := by
  rw [List.map_map]; rfl

theorem eRow_noClash {β : Type} (rows : List (Key × β)) (h : (rows.map Prod.fst).Nodup) : NoClash (rows.map eRow) := by
  unfold NoClash
  rw [List.pairwise_map]
  rw [List.Nodup, List.pairwise_map] at h
  exact h.imp (fun hne => ⟨hne, fun x hx => by cases hx⟩)

theorem elementLaw {β : Type} : RepoLaw (elementOps (β := β)) (fun r rows => ERepo.Hist false r (rows.map eRow)) (fun _ => True) where
  update r rows ks bs cs h _ h1 h2 hn := by
    have hl : oneToOne [some (Arg.many bs).len, some (Arg.many ks).len, (some (Arg.many cs)).map Arg.len,
        (none : Option (Arg Unit)).map Arg.len] = true := by simp [oneToOne, Arg.len, h1, ← h2]
    have hno := repoRows_none (χ := Unit) bs ks (some cs)
    have hok := ERepo.addMany_ok (repoRows bs ks (some cs) (none : Option (List Unit))) r
      (fun hx => by rw [h.holds.flag] at hx; cases hx)
    obtain ⟨o', ho'⟩ : ∃ o', r.updateQuery (.many ks) (.many bs) (some (.many cs)) none = (o', none) := by
      unfold ERepo.updateQuery
      rw [if_pos hl]
      simp only [Arg.toList, Option.map_some, Option.map_none]
      generalize r.addMany (repoRows bs ks (some cs) none) = q at hok
      obtain ⟨q1, q2⟩ := q
      simp only at hok
      subst hok
      exact ⟨_, rfl⟩
    refine ⟨o', ho', ?_, ?_⟩
    · have hk : ((ks.zip bs).map eRow).map (keep false) = (ks.zip bs).map eRow := by
        rw [List.map_map]; rfl
      rw [List.map_append, ← hk]
      refine ERepo.Hist.update (rs := (ks.zip bs).map eRow) (.many ks) (.many bs) (some (.many cs)) none h ⟨?_, ?_, ?_, ?_⟩ ?_ ho'
      · rw [eRow_label, List.map_snd_zip (by omega)]; rfl
      · rw [eRow_index, List.map_fst_zip (by omega)]; rfl
      · intro xs hx; cases hx
      · intro _ x hx
        obtain ⟨p, -, rfl⟩ := List.mem_map.1 hx
        rfl
      · rw [hk, ← List.map_append]
        apply eRow_noClash
        rw [List.map_append, List.map_fst_zip (by omega)]
        exact hn
    · exact (ERepo.update_cost ho').1
  training r rows h := by
    have := (ERepo.C29_training_data_partial h).1
    simp only [elementOps, this, Except.map, eRow_index, eRow_label]

/-- Stored in a matrix repository without examples, all labels of one shape. -/
def MHolds {γ : Type} (sh : Option Nat) (r : MRepo Key γ) (rows : List (Key × Lab γ)) : Prop :=
  ∃ a, r.arr = some a ∧ a.y = rows.map Prod.snd ∧ a.indexes = rows.map Prod.fst ∧ a.X = none ∧ a.shape = sh

theorem matrix_addMany {γ : Type} [DecidableEq γ] {sh : Option Nat} : ∀ (ks : List Key) (bs : List (Lab γ)) (cs : List ℚ)
    (r : MRepo Key γ) (rows : List (Key × Lab γ)), MHolds sh r rows → (∀ b ∈ bs, b.shape = sh) → ks.length = bs.length →
    ks.length = cs.length → (rows.map Prod.fst ++ ks).Nodup →
    ∃ r', r.addMany (repoRows bs ks (some cs) none) = (r', none) ∧ MHolds sh r' (rows ++ ks.zip bs) ∧ r'.cost = r.cost + cs.sum := by
  intro ks
  induction ks with
  | nil =>
    intro bs cs r rows h _ h1 h2 _
    have : bs = [] := List.length_eq_zero_iff.1 h1.symm
    have h3 : cs = [] := List.length_eq_zero_iff.1 h2.symm
    subst this h3
    exact ⟨r, by simp [repoRows, MRepo.addMany], by simpa using h, by simp⟩
  | cons k ks ih =>
    intro bs cs r rows h hb h1 h2 hn
    cases bs with
    | nil => simp at h1
    | cons b bs =>
      cases cs with
      | nil => simp at h2
      | cons c cs =>
        obtain ⟨a, a1, a2, a3, a4, a5⟩ := h
        have hk : k ∉ a.indexes := by
          rw [a3]
          intro hk
          exact (List.nodup_append.1 hn).2.2 k hk k (by simp) rfl
        have hb' : b.shape = a.shape := by rw [a5]; exact hb b (by simp)
        have hadd : ∃ r1, r.add b k (some c) none = (r1, none) ∧ MHolds sh r1 (rows ++ [(k, b)]) ∧ r1.cost = r.cost + c := by
          unfold MRepo.add
          simp only [a1, if_neg hk, if_pos hb', a4]
          exact ⟨_, rfl, ⟨_, rfl, by simp [a2], by simp [a3], rfl, a5⟩, by simp⟩
        obtain ⟨r1, e1, e2, e3⟩ := hadd
        obtain ⟨r', g1, g2, g3⟩ := ih bs cs r1 (rows ++ [(k, b)]) e2 (fun x hx => hb x (by simp [hx])) (by simpa using h1)
          (by simpa using h2) (by simpa using hn)
        refine ⟨r', ?_, by simpa using g2, by rw [g3, e3, List.sum_cons]; ring⟩
        simp only [repoRows, Option.bind_some, List.head?_cons, Option.bind_none, Option.map_some, List.tail_cons, Option.map_none,
          MRepo.addMany, e1]
        exact g1

theorem matrixLaw {γ : Type} [DecidableEq γ] (sh : Option Nat) :
    RepoLaw (matrixOps (γ := γ)) (MHolds sh) (fun b => b.shape = sh) where
  update r rows ks bs cs h hb h1 h2 hn := by
    obtain ⟨r', g1, g2, g3⟩ := matrix_addMany ks bs cs r rows h hb h1 h2 hn
    refine ⟨{ r' with
        numQueries := r'.numQueries + 1
        history := r'.history ++ [⟨(Arg.many bs).unpack, (some (Arg.many cs)).map Arg.unpack, (Arg.many ks).unpack⟩] }, ?_, ?_, g3⟩
    · simp only [matrixOps, MRepo.updateQuery]
      rw [if_pos (by simp [oneToOne, Arg.len, h1, ← h2])]
      simp only [Arg.toList, Option.map_some, Option.map_none, g1]
    · obtain ⟨a, h⟩ := g2; exact ⟨a, h⟩
  training r rows h := by
    obtain ⟨a, a1, a2, a3, -, -⟩ := h
    simp [matrixOps, MRepo.getTrainingData, a1, a2, a3]

/-! ## The oracle -/

theorem oracle_answers' {χ β : Type} [DecidableEq χ] {ty : β → Nat} {y : List β} {cost : Option (List ℚ)} {o : Oracle χ β}
    (hnew : Oracle.new ty y none none cost = .ok o) (ns : List Nat) (hns : ∀ n ∈ ns, n < y.length) :
    ∃ bs, o.queryByIndex (ns.map (fun n : Nat => Key.num n)) = .ok (bs, ns.map (price cost)) ∧
      List.Forall₂ (fun (n : Nat) b => y[n]? = some b) ns bs := by
  have hlen : ∀ cs, cost = some cs → cs.length = y.length := by
    intro cs hcs
    subst hcs
    by_contra hne
    simp [Oracle.new, sameLength, hne] at hnew
  let mk : Fin y.length → Oracle.Entry χ β := fun i => ⟨.num (i : Nat), y[i], none, cost.map (fun cs => cs.getD i 0)⟩
  have hlog : Oracle.Hist ty false cost.isSome o (List.ofFn mk) := by
    refine Oracle.Hist.new (examples := none) (indexes := none) rfl rfl hnew ⟨?_, ?_, ?_, ?_⟩
    · apply List.ext_getElem (by simp)
      intro i h1 h2
      simp [mk]
    · apply List.ext_getElem (by simp)
      intro i h1 h2
      simp [mk]
    · intro e he
      obtain ⟨i, rfl⟩ := List.mem_ofFn.1 he
      rfl
    · cases cost with
      | none =>
        intro e he
        obtain ⟨i, rfl⟩ := List.mem_ofFn.1 he
        rfl
      | some cs =>
        apply List.ext_getElem (by simp [hlen cs rfl])
        intro i h1 h2
        have hi : i < cs.length := by simpa using h2
        simp [mk, List.getElem?_eq_getElem hi]
  obtain ⟨es, cs, h1, h2, h3⟩ := Oracle.C25_query_by_index hlog (ns.map (fun n : Nat => Key.num n)) (by
    intro k hk
    obtain ⟨n, hn, rfl⟩ := List.mem_map.1 hk
    exact ⟨mk ⟨n, hns n hn⟩, List.mem_ofFn.2 ⟨_, rfl⟩, rfl⟩)
  have key : ∀ (n : Nat) e, MostRecent (List.ofFn mk) Oracle.Entry.index (.num n) e →
      y[n]? = some e.label ∧ ∀ c, Oracle.Charges cost.isSome e c → c = price cost n := by
    rintro n e ⟨pre, post, hp, hk, -⟩
    have he : e ∈ List.ofFn mk := by rw [hp]; simp
    obtain ⟨i, rfl⟩ := List.mem_ofFn.1 he
    simp only [mk, Key.num.injEq, Nat.cast_inj] at hk
    subst hk
    refine ⟨by simp [mk], fun c hc => ?_⟩
    cases cost with
    | none => simpa [Oracle.Charges, price] using hc
    | some cs =>
      simp only [Oracle.Charges, Option.isSome_some, if_true, mk, Option.map_some, Option.some.injEq] at hc
      rw [← hc]; rfl
  clear hns
  refine ⟨es.map Oracle.Entry.label, ?_, ?_⟩
  · rw [h1]
    congr 2
    clear h1
    induction ns generalizing es cs with
    | nil => cases h2; cases h3; rfl
    | cons n ns ih =>
      cases h2 with
      | cons a b =>
        cases h3 with
        | cons c d => rw [List.map_cons, ← ih _ _ b d, (key n _ a).2 _ c]
  · clear h1 h3
    induction ns generalizing es with
    | nil => cases h2; exact .nil
    | cons n ns ih =>
      cases h2 with
      | cons a b => exact .cons (key n _ a).1 (ih _ b)

theorem queryByIndex_congr {χ β : Type} [DecidableEq χ] {o o' : Oracle χ β} (h : o'.table = o.table) :
    ∀ ks, o'.queryByIndex ks = o.queryByIndex ks
  | [] => rfl
  | k :: r => by
    have e : o'.ask k = o.ask k := by simp [Oracle.ask, h]
    simp only [Oracle.queryByIndex, e, queryByIndex_congr h r]

/-- `Oracle(labels=y, examples=ex, cost=cost)` answers every query for examples of the data set with their labels and prices. -/
theorem oracle_answers {χ β : Type} [DecidableEq χ] {ty : β → Nat} {y : List β} {ex : Option (List χ)} {cost : Option (List ℚ)} {o : Oracle χ β}
    (hnew : Oracle.new ty y ex none cost = .ok o) (ns : List Nat) (hns : ∀ n ∈ ns, n < y.length) :
    ∃ bs, o.queryByIndex (ns.map (fun n : Nat => Key.num n)) = .ok (bs, ns.map (price cost)) ∧
      List.Forall₂ (fun (n : Nat) b => y[n]? = some b) ns bs := by
  obtain ⟨o', h1, h2⟩ : ∃ o' : Oracle χ β, Oracle.new ty y none none cost = .ok o' ∧ o'.table = o.table := by
    unfold Oracle.new at hnew ⊢
    split_ifs at hnew with hc
    have hc' : (!(sameLength y.length (none : Option (List χ)) && sameLength y.length (none : Option (List Key)) &&
        sameLength y.length cost)) = false := by
      simp only [Bool.not_eq_true, Bool.not_eq_false', Bool.and_eq_true] at hc ⊢
      exact ⟨⟨rfl, rfl⟩, hc.2⟩
    rw [if_neg (by rw [hc']; decide)]
    cases y with
    | nil => cases hnew
    | cons l r =>
      cases hnew
      exact ⟨_, rfl, rfl⟩
  have := oracle_answers' h1 ns hns
  rwa [queryByIndex_congr h2] at this

/-! ## The loop -/

section loop
variable {ρ χ β : Type} [DecidableEq χ]

/-- The invariant of the loop; `qs` are the batches asked for so far, in order. -/
structure SessInv (ops : RepoOps ρ β) (holds : ρ → List (Key × β) → Prop) (clock : Nat → ℚ) (stop0 : Stop) (v : ℚ) (y : List β)
    (cost : Option (List ℚ)) (ls us : List Nat) (L0 U0 : IC) (i : Nat) (s : Session ρ) (qs : List (List Nat)) : Prop where
  initL : s.saver.initL = L0
  initU : s.saver.initU = U0
  ws : getWorkspace icOps s.saver none = .ok (s.L, s.U)
  iter : qs.length = i
  nodup : (ls ++ qs.flatten).Nodup
  keysL : ∀ k, k ∈ s.L.keys ↔ ∃ n ∈ ls ++ qs.flatten, k = .num (n : Nat)
  keysU : ∀ k, k ∈ s.U.keys ↔ ∃ n ∈ us, n ∉ qs.flatten ∧ k = .num (n : Nat)
  subq : ∀ n ∈ qs.flatten, n ∈ us
  batches : ∀ ns ∈ qs, ns ≠ []
  repo : ∃ bs, holds s.repo (((ls ++ qs.flatten).map (fun n : Nat => Key.num n)).zip bs) ∧
    List.Forall₂ (fun (n : Nat) b => y[n]? = some b) (ls ++ qs.flatten) bs
  rcost : ops.cost s.repo = spentOn cost qs
  scost : s.saver.cost = spentOn cost qs
  numq : s.saver.numq = qs.flatten.length
  recs : List.Forall₂ (RecordsBatch cost) s.saver.states qs
  reachL : IC.Reachable s.L
  reachU : IC.Reachable s.U
  ety : s.L.ety = some ⟨false, .int⟩
  crit : s.stop.crit = stop0.crit
  value : s.stop.value = stop0.value
  startTime : s.stop.startTime = stop0.startTime
  unlabel : s.stop.unlabel = 0 ↔ s.U.inner = []
  sIter : stop0.crit = .numOfQueries → s.stop.iter = s.saver.states.length
  sAccum : stop0.crit = .costLimit → s.stop.accum = s.saver.cost
  sPercent : stop0.crit = .percentOfUnlabel →
    s.stop.percent = ((U0.inner.length : ℚ) - (s.U.inner.length : ℚ)) / (U0.inner.length : ℚ)
  early : ∀ k : Nat, k < qs.length → remaining us (qs.take k) ≠ [] ∧
    ¬ BoundReached stop0.crit v k (spentOn cost (qs.take k)) U0.inner.length (remaining us (qs.take k)).length (clock k - stop0.startTime)

variable {ops : RepoOps ρ β} {holds : ρ → List (Key × β) → Prop} {clock : Nat → ℚ} {stop0 : Stop} {v : ℚ} {y : List β}
  {ex : Option (List χ)} {cost : Option (List ℚ)} {ls us : List Nat} {L0 U0 : IC} {i : Nat} {s : Session ρ} {qs : List (List Nat)}

theorem SessInv.decision (h : SessInv ops holds clock stop0 v y cost ls us L0 U0 i s qs)
    (hv : stop0.crit ≠ .none → stop0.value = some v) (hp : stop0.crit = .percentOfUnlabel → 0 ≤ v ∧ v ≤ 1) (now : ℚ) :
    ∃ b, s.stop.isStop now = .ok b ∧ (b = true ↔ s.U.inner = [] ∨
      BoundReached stop0.crit v s.saver.states.length s.saver.cost U0.inner.length s.U.inner.length (now - stop0.startTime)) := by
  by_cases h0 : s.U.inner = []
  · exact ⟨true, by simp [Stop.isStop, h.unlabel.2 h0], by simp [h0]⟩
  · have h0' : s.stop.unlabel ≠ 0 := fun e => h0 (h.unlabel.1 e)
    cases hc : stop0.crit with
    | none => exact ⟨false, by simp [Stop.isStop, h0', h.crit, hc], by simp [BoundReached, h0]⟩
    | numOfQueries =>
      have := hv (by simp [hc])
      exact ⟨_, by simp only [Stop.isStop, h0', h.crit, hc, h.value, this, h.sIter hc, if_false]; rfl, by simp [BoundReached, h0]⟩
    | costLimit =>
      have := hv (by simp [hc])
      exact ⟨_, by simp only [Stop.isStop, h0', h.crit, hc, h.value, this, h.sAccum hc, if_false]; rfl, by simp [BoundReached, h0]⟩
    | percentOfUnlabel =>
      have := hv (by simp [hc])
      obtain ⟨hp1, hp2⟩ := hp hc
      have hp3 : ¬ (1 < v ∨ v < 0) := by rw [not_or]; exact ⟨not_lt.2 hp2, not_lt.2 hp1⟩
      exact ⟨_, by simp only [Stop.isStop, h0', h.crit, hc, h.value, this, h.sPercent hc, hp3, if_false]; rfl, by simp [BoundReached, h0]⟩
    | timeLimit =>
      have := hv (by simp [hc])
      exact ⟨_, by simp only [Stop.isStop, h0', h.crit, hc, h.value, this, h.startTime, if_false]; rfl, by simp [BoundReached, h0]⟩

theorem num_inj : Function.Injective (fun n : Nat => Key.num n) := by
  intro a b h
  simpa using h

theorem SessInv.permU (h : SessInv ops holds clock stop0 v y cost ls us L0 U0 i s qs) :
    (s.U.inner.map Val.key).Perm ((remaining us qs).map (fun n : Nat => Key.num n)) := by
  change s.U.keys.Perm _
  unfold remaining
  rw [List.perm_ext_iff_of_nodup (IC.reachable_nodup h.reachU) (((List.nodup_dedup us).filter _).map num_inj)]
  intro k
  rw [h.keysU k]
  simp only [List.mem_map, List.mem_filter, List.mem_dedup, decide_eq_true_eq]
  exact ⟨fun ⟨n, h1, h2, h3⟩ => ⟨n, ⟨h1, h2⟩, h3.symm⟩, fun ⟨n, ⟨h1, h2⟩, h3⟩ => ⟨n, h1, h2, h3.symm⟩⟩

theorem SessInv.permL (h : SessInv ops holds clock stop0 v y cost ls us L0 U0 i s qs) :
    (s.L.inner.map Val.key).Perm ((ls ++ qs.flatten).map (fun n : Nat => Key.num n)) := by
  change s.L.keys.Perm _
  rw [List.perm_ext_iff_of_nodup (IC.reachable_nodup h.reachL) (h.nodup.map num_inj)]
  intro k
  rw [h.keysL k]
  simp only [List.mem_map]
  exact ⟨fun ⟨n, h1, h3⟩ => ⟨n, h1, h3.symm⟩, fun ⟨n, h1, h3⟩ => ⟨n, h1, h3.symm⟩⟩

theorem SessInv.lenU (h : SessInv ops holds clock stop0 v y cost ls us L0 U0 i s qs) : s.U.inner.length = (remaining us qs).length := by
  simpa using h.permU.length_eq

theorem exists_preimage (P : Nat → Prop) (l : List Key) (h : ∀ k ∈ l, ∃ n : Nat, P n ∧ k = .num n) :
    ∃ ns : List Nat, l = ns.map (fun n : Nat => Key.num n) ∧ ∀ n ∈ ns, P n := by
  induction l with
  | nil => exact ⟨[], rfl, by simp⟩
  | cons k l ih =>
    obtain ⟨n, hn, rfl⟩ := h k (by simp)
    obtain ⟨ns, rfl, hns⟩ := ih (fun k hk => h k (by simp [hk]))
    exact ⟨n :: ns, rfl, by simp only [List.mem_cons, forall_eq_or_imp]; exact ⟨hn, hns⟩⟩

theorem spentOn_snoc (qs : List (List Nat)) (ns : List Nat) : spentOn cost (qs ++ [ns]) = spentOn cost qs + (ns.map (price cost)).sum := by
  simp [spentOn]

theorem SessInv.step {legal : β → Prop} (law : RepoLaw ops holds legal) (hlegal : ∀ b ∈ y, legal b) {ty : β → Nat} {o : Oracle χ β}
    (hnew : Oracle.new ty y ex none cost = .ok o) {env : SessionEnv ρ} (hst : GoodChoice env.strat)
    (h : SessInv ops holds env.clock stop0 v y cost ls us L0 U0 i s qs) (hU0 : U0.inner ≠ []) (hus : ∀ n ∈ us, n < y.length)
    (hdis : ∀ n ∈ ls, n ∉ us) (hne : s.U.inner ≠ [])
    (hnot : ¬ BoundReached stop0.crit v s.saver.states.length s.saver.cost U0.inner.length s.U.inner.length
      (env.clock i - stop0.startTime)) :
    ∃ s' qs', sessionBody ops o env i s = .ok s' ∧ SessInv ops holds env.clock stop0 v y cost ls us L0 U0 (i + 1) s' qs' ∧
      s'.U.inner.length < s.U.inner.length := by
  obtain ⟨sel, e1, e2, e3, e4⟩ := hst i s hne (IC.reachable_nodup h.reachU)
  obtain ⟨ns, hns, hP⟩ := exists_preimage (fun n => n ∈ us ∧ n ∉ qs.flatten) (sel.map Val.key) (by
    intro k hk
    obtain ⟨w, hw, rfl⟩ := List.mem_map.1 hk
    obtain ⟨n, h1, h2, h3⟩ := (h.keysU _).1 (e3 w hw)
    exact ⟨n, ⟨h1, h2⟩, h3⟩)
  have hnsnd : ns.Nodup := by rw [hns] at e4; exact List.Nodup.of_map _ e4
  obtain ⟨bs, o1, o2⟩ := oracle_answers hnew ns (fun n hn => hus n (hP n hn).1)
  have hlen : ns.length = bs.length := o2.length_eq
  have hnd' : (ls ++ (qs.flatten ++ ns)).Nodup := by
    rw [← List.append_assoc, List.nodup_append]
    refine ⟨h.nodup, hnsnd, ?_⟩
    rintro a ha b hb rfl
    rcases List.mem_append.1 ha with ha | ha
    · exact hdis a ha (hP a hb).1
    · exact (hP a hb).2 ha
  obtain ⟨obs, r1, r2⟩ := h.repo
  have hlen0 := r2.length_eq
  obtain ⟨repo', u1, u2, u3⟩ := law.update s.repo _ (ns.map (fun n : Nat => Key.num n)) bs (ns.map (price cost)) r1 (by
    intro b hb
    obtain ⟨j, hj, rfl⟩ := List.getElem_of_mem hb
    exact hlegal _ (List.mem_of_getElem? ((List.forall₂_iff_get.1 o2).2 j (by omega) hj))) (by simpa using hlen) (by simp) (by
      rw [List.map_fst_zip (by rw [List.length_map]; omega), ← List.map_append]
      rw [List.append_assoc]
      exact hnd'.map num_inj)
  have law' := icLaw ⟨false, .int⟩
  have htype : ∀ w ∈ sel, isInstance w.item ⟨false, .int⟩ = true := by
    intro w hw
    have : w.key ∈ ns.map (fun n : Nat => Key.num n) := by rw [← hns]; exact List.mem_map_of_mem hw
    obtain ⟨n, -, hn⟩ := List.mem_map.1 this
    exact isInstance_int_of_key hn.symm
  obtain ⟨L', l1, l2, l3⟩ := law'.update s.L sel ⟨h.reachL, h.ety⟩ htype
  obtain ⟨U', d1, d2, d3⟩ := law'.diff s.U sel h.reachU htype
  have hU' : U' = s.U.differenceUpdate (.many sel) := by
    have := congrArg Prod.fst d1; exact this.symm
  set st : State (List Val) := State.new icOps (.inr sel) (env.perf i) none (some (.arr (ns.map (price cost)))) with hst'
  have hgetsel : st.getValue "select_index" = .ok (.sel sel) := by
    simp [st, State.new, State.getValue, dictSet, dictGet]
  have hgetcost : st.getValue "cost" = .ok (.arr (ns.map (price cost))) := by
    simp [st, State.new, State.getValue, dictSet, dictGet]
  have hcost : HasCost (.st st : Entry (List Val)) (ns.map (price cost)).sum := by
    exact ⟨st, rfl, .inl ⟨_, hgetcost, rfl⟩⟩
  have hsize : HasSize icOps (.st st : Entry (List Val)) sel.length := ⟨st, sel, rfl, hgetsel, rfl⟩
  have hadd := StateIO.addState_of (s := s.saver) hcost hsize
  set saver' : StateIO IC (List Val) :=
    { s.saver with
      states := s.saver.states ++ [.st st]
      cost := s.saver.cost + (ns.map (price cost)).sum
      numq := s.saver.numq + sel.length } with hsv
  have hrep : replay icOps s.saver.states s.saver.initL s.saver.initU = .ok (s.L, s.U) := by
    have := h.ws
    simpa [getWorkspace] using this
  have hws' : getWorkspace icOps saver' none = .ok (L', U') := by
    have := StateIO.replay_snoc (ops := icOps) s.saver.states (.st st) sel hgetsel _ _ _ _ _ _ hrep d1 l1
    simp only [getWorkspace, hsv, Option.getD_none]
    rw [if_pos ⟨by omega, by omega⟩, Int.toNat_natCast, List.take_length]
    exact this
  obtain ⟨stop', p1, p2, p3, p4, -, p5, p6, p7, p8⟩ := Stop.update_ok (ops := icOps) s.stop saver' L' U' hws' (by
    intro _
    have : saver'.initU = U0 := h.initU
    rw [this]
    simpa [icOps] using hU0)
  have hlt : U'.inner.length < s.U.inner.length := by
    obtain ⟨w, hw⟩ := List.exists_mem_of_ne_nil _ e2
    have hwU : w.key ∈ s.U.keys := e3 w hw
    have hsub : U'.keys ⊆ s.U.keys.erase w.key := by
      intro k hk
      obtain ⟨k1, k2⟩ := (d3 k).1 hk
      have hkw : k ≠ w.key := by
        rintro rfl
        exact k2 (List.mem_map.2 ⟨w, hw, rfl⟩)
      exact (List.mem_erase_of_ne hkw).2 k1
    have := (List.subperm_of_subset (IC.reachable_nodup d2) hsub).length_le
    rw [List.length_erase_of_mem hwU] at this
    have hpos := List.length_pos_of_mem hwU
    simp only [IC.keys, List.length_map] at this hpos
    omega
  have hsellen : sel.length = ns.length := by simpa using congrArg List.length hns
  have hfl : (qs ++ [ns]).flatten = qs.flatten ++ ns := by simp
  have hlenst : s.saver.states.length = qs.length := h.recs.length_eq
  refine ⟨⟨L', U', repo', saver', stop'⟩, qs ++ [ns], ?_, ?_, hlt⟩
  · have hu : s.L.update (.many sel) = (L', none) := l1
    simp only [sessionBody, e1, hns, o1, u1, hu]
    rw [← hst', hadd]
    simp only [p1, ← hU']
  · refine ⟨h.initL, h.initU, hws', by simp [h.iter], by rw [hfl]; exact hnd', fun k => ?_, fun k => ?_, ?_, ?_, ⟨obs ++ bs, ?_, ?_⟩,
      ?_, ?_, ?_, ?_, l2.1, d2, l2.2, p2.trans h.crit,
      p3.trans h.value, p4.trans h.startTime, ?_, fun hc => p6 (h.crit.trans hc), fun hc => p7 (h.crit.trans hc), fun hc => ?_, ?_⟩
    · rw [l3, h.keysL, hns, hfl]
      simp only [List.mem_map, List.mem_append]
      constructor
      · rintro (⟨n, hn, rfl⟩ | ⟨n, hn, rfl⟩)
        · exact ⟨n, by tauto, rfl⟩
        · exact ⟨n, by tauto, rfl⟩
      · rintro ⟨n, hn | hn | hn, rfl⟩
        · exact .inl ⟨n, .inl hn, rfl⟩
        · exact .inl ⟨n, .inr hn, rfl⟩
        · exact .inr ⟨n, hn, rfl⟩
    · rw [d3, h.keysU, hns, hfl]
      simp only [List.mem_map, List.mem_append]
      constructor
      · rintro ⟨⟨n, h1, h2, rfl⟩, h3⟩
        exact ⟨n, h1, fun hh => hh.elim h2 (fun hh => h3 ⟨n, hh, rfl⟩), rfl⟩
      · rintro ⟨n, h1, h2, rfl⟩
        refine ⟨⟨n, h1, fun hh => h2 (.inl hh), rfl⟩, ?_⟩
        rintro ⟨m, hm, he⟩
        rw [num_inj he] at hm
        exact h2 (.inr hm)
    · intro n hn
      rw [hfl] at hn
      rcases List.mem_append.1 hn with hn | hn
      · exact h.subq n hn
      · exact (hP n hn).1
    · intro x hx
      rcases List.mem_append.1 hx with hx | hx
      · exact h.batches x hx
      · rw [List.mem_singleton] at hx
        subst hx
        intro e
        rw [e] at hsellen
        exact e2 (List.length_eq_zero_iff.1 hsellen)
    · rw [hfl, ← List.append_assoc, List.map_append, List.zip_append (by rw [List.length_map]; exact hlen0)]
      exact u2
    · rw [hfl, ← List.append_assoc]
      exact List.rel_append r2 o2
    · show ops.cost repo' = _
      rw [u3, h.rcost, spentOn_snoc]
    · show s.saver.cost + _ = _
      rw [h.scost, spentOn_snoc]
    · show s.saver.numq + _ = _
      rw [h.numq, hsellen, hfl, List.length_append]
    · exact List.rel_append h.recs (.cons ⟨st, sel, rfl, hgetsel, hns, hgetcost⟩ .nil)
    · rw [p5]; simp [icOps]
    · have := p8 (h.crit.trans hc)
      rw [this]
      have hiu : saver'.initU = U0 := h.initU
      rw [hiu]; rfl
    · intro k hk
      have hk1 : k ≤ qs.length := by simp at hk; omega
      rw [List.take_append_of_le_length hk1]
      by_cases hkl : k < qs.length
      · exact h.early k hkl
      · have hke : k = qs.length := by omega
        have hki : k = i := hke.trans h.iter
        have hck : env.clock k = env.clock i := by rw [hki]
        rw [hck, hke, List.take_length, ← h.lenU, ← h.scost, ← hlenst]
        refine ⟨?_, hnot⟩
        intro e
        have := h.lenU
        rw [e] at this
        exact hne (List.length_eq_zero_iff.1 this)

theorem session_ends {legal : β → Prop} (law : RepoLaw ops holds legal) (hlegal : ∀ b ∈ y, legal b) {ty : β → Nat} {o : Oracle χ β}
    (hnew : Oracle.new ty y ex none cost = .ok o) {env : SessionEnv ρ} (hst : GoodChoice env.strat) (hU0 : U0.inner ≠ [])
    (hus : ∀ n ∈ us, n < y.length) (hdis : ∀ n ∈ ls, n ∉ us) (hv : stop0.crit ≠ .none → stop0.value = some v)
    (hp : stop0.crit = .percentOfUnlabel → 0 ≤ v ∧ v ≤ 1) : ∀ (fuel i : Nat) (s : Session ρ) (qs : List (List Nat)),
    SessInv ops holds env.clock stop0 v y cost ls us L0 U0 i s qs → s.U.inner.length < fuel →
    ∃ r qs' j, session ops o env fuel i s = some (.ok r) ∧ SessInv ops holds env.clock stop0 v y cost ls us L0 U0 j r qs' ∧
      (r.U.inner = [] ∨ BoundReached stop0.crit v r.saver.states.length r.saver.cost U0.inner.length r.U.inner.length
        (env.clock j - stop0.startTime)) := by
  intro fuel
  induction fuel with
  | zero => intro i s qs _ hf; omega
  | succ fuel ih =>
    intro i s qs h hf
    obtain ⟨b, hb, hiff⟩ := h.decision hv hp (env.clock i)
    cases b with
    | true => exact ⟨s, qs, i, by simp [session, hb], h, hiff.1 rfl⟩
    | false =>
      have hn : ¬ (s.U.inner = [] ∨ _) := fun hh => by have := hiff.2 hh; cases this
      rw [not_or] at hn
      obtain ⟨s', qs', h1, h2, h3⟩ := h.step law hlegal hnew hst hU0 hus hdis hn.1 hn.2
      obtain ⟨r, q2, j, g1, g2, g3⟩ := ih (i + 1) s' qs' h2 (by omega)
      exact ⟨r, q2, j, by simp [session, hb, h1, g1], g2, g3⟩

theorem session_mono {o : Oracle χ β} {env : SessionEnv ρ} : ∀ (fuel i : Nat) (s : Session ρ) (x : Except PyErr (Session ρ)) (k : Nat),
    session ops o env fuel i s = some x → session ops o env (fuel + k) i s = some x := by
  intro fuel
  induction fuel with
  | zero => intro i s x k h; simp [session] at h
  | succ fuel ih =>
    intro i s x k h
    rw [show fuel + 1 + k = (fuel + k) + 1 by omega]
    simp only [session] at h ⊢
    split at h
    · exact h
    · exact h
    · split at h
      · exact h
      · exact ih _ _ _ _ h

/-- C80, for any repository that keeps what it is told. -/
theorem session_law {legal : β → Prop} (law : RepoLaw ops holds legal) (hlegal : ∀ b ∈ y, legal b) {ty : β → Nat} {o : Oracle χ β}
    (hnew : Oracle.new ty y ex none cost = .ok o) {env : SessionEnv ρ} (hst : GoodChoice env.strat) (a b : Bool)
    (hls : ls ≠ []) (hus : us ≠ []) (hnd : ls.Nodup) (hr : ∀ n ∈ us, n < y.length) (hdis : ∀ n ∈ ls, n ∉ us)
    {repo : ρ} {bs : List β} (hrepo : holds repo ((ls.map (fun n : Nat => Key.num n)).zip bs))
    (hbs : List.Forall₂ (fun (n : Nat) b => y[n]? = some b) ls bs) (hcost : ops.cost repo = 0)
    {name : Option String} {value : Option PyNum} {now : ℚ} {stop : Stop} (hstop : Stop.new name value now = .ok stop) (v : ℚ)
    (hv : stop.crit ≠ .none → stop.value = some v) (hp : stop.crit = .percentOfUnlabel → 0 ≤ v ∧ v ≤ 1) :
    ∃ r qs, (∀ fuel, us.length < fuel →
        session ops o env fuel 0 (startSession (ls.map (item a)) (us.map (item b)) repo stop) = some (.ok r)) ∧
      SessionOutcome y cost ls us env.clock stop v r (ops.training r.repo) (ops.cost r.repo) qs := by
  have hidx : ∀ c (l : List Nat), l.map (item c) = idx c (l.map (fun n : Nat => (n : Int))) := by
    intro c l; unfold idx item; rw [List.map_map]; rfl
  have hkeys : ∀ c (l : List Nat) k, k ∈ (IC.mk' (l.map (item c))).keys ↔ ∃ n ∈ l, k = .num (n : Nat) := by
    intro c l k
    rw [hidx, mem_mk'_idx]
    simp only [List.mem_map]
    constructor
    · rintro ⟨j, ⟨n, hn, rfl⟩, rfl⟩; exact ⟨n, hn, rfl⟩
    · rintro ⟨n, hn, rfl⟩; exact ⟨n, ⟨n, hn, rfl⟩, rfl⟩
  have hUlen : (IC.mk' (us.map (item b))).inner.length = us.dedup.length := by
    have h1 : (IC.mk' (us.map (item b))).keys.Perm (us.dedup.map (fun n : Nat => Key.num n)) := by
      rw [List.perm_ext_iff_of_nodup (IC.reachable_nodup (.construct _)) ((List.nodup_dedup _).map num_inj)]
      intro k
      rw [hkeys]
      simp only [List.mem_map, List.mem_dedup]
      exact ⟨fun ⟨n, h1, h2⟩ => ⟨n, h1, h2.symm⟩, fun ⟨n, h1, h2⟩ => ⟨n, h1, h2.symm⟩⟩
    have := h1.length_eq
    simpa [IC.keys] using this
  have hne : (IC.mk' (us.map (item b))).inner ≠ [] := by
    obtain ⟨n, hn⟩ := List.exists_mem_of_ne_nil _ hus
    intro e
    have := (hkeys b us (.num n)).2 ⟨n, hn, rfl⟩
    simp [IC.keys, e] at this
  have hs : stop.unlabel = 100 ∧ stop.iter = 0 ∧ stop.accum = 0 ∧ stop.percent = 0 := by
    unfold Stop.new at hstop
    split at hstop
    · cases hstop
    · split at hstop <;> cases hstop <;> simp
    · cases hstop; simp
  obtain ⟨s1, s2, s3, s4⟩ := hs
  have hinit : SessInv ops holds env.clock stop v y cost ls us (IC.mk' (ls.map (item a))) (IC.mk' (us.map (item b))) 0
      (startSession (ls.map (item a)) (us.map (item b)) repo stop) [] := by
    refine ⟨rfl, rfl, ?_, rfl, by simpa using hnd, ?_, ?_, by simp, by simp,
      ⟨bs, by simpa [startSession] using hrepo, by simpa using hbs⟩, by simpa [startSession, spentOn] using hcost, rfl, rfl,
      .nil, .construct _, .construct _, ?_, rfl, rfl, rfl, by simp [startSession, s1, hne], fun _ => s2,
      fun _ => s3, fun _ => by simp [startSession, s4], ?_⟩
    · simp [getWorkspace, startSession, StateIO.new, StateIO.replay]
    · intro k; simpa [startSession] using hkeys a ls k
    · intro k; simpa [startSession] using hkeys b us k
    · show (IC.mk' (ls.map (item a))).ety = _
      rw [hidx]; exact ety_mk'_idx a _ (by simpa using hls)
    · intro k hk; simp at hk
  have hle : us.dedup.length ≤ us.length := (List.dedup_sublist us).length_le
  obtain ⟨r, qs, j, h1, h2, h3⟩ := session_ends law hlegal hnew hst hne hr hdis hv hp (us.length + 1) 0 _ [] hinit
    (by show (IC.mk' (us.map (item b))).inner.length < _; omega)
  obtain ⟨obs, g1, g2⟩ := h2.repo
  have htr := law.training _ _ g1
  have hl := g2.length_eq
  rw [List.map_snd_zip (by rw [List.length_map]; omega), List.map_fst_zip (by rw [List.length_map]; omega)] at htr
  refine ⟨r, qs, fun fuel hf => ?_, ⟨h2.nodup, h2.subq, h2.batches, h2.permL, h2.permU, ⟨_, _, htr, rfl, g2⟩, h2.rcost, h2.scost, h2.numq,
    h2.recs, h2.ws, ?_, ?_⟩⟩
  · obtain ⟨k, rfl⟩ := Nat.exists_eq_add_of_le (Nat.succ_le_of_lt hf)
    exact session_mono _ _ _ _ k h1
  · rw [h2.recs.length_eq, hUlen, h2.scost, h2.lenU, ← h2.iter] at h3
    exact h3.imp_left (fun e => List.length_eq_zero_iff.1 (by rw [← h2.lenU, e]; rfl))
  · rw [← hUlen]; exact h2.early

end loop

/-- The labels of the examples `ls`. -/
theorem forall₂_labels {β : Type} {y bs : List β} {ls : List Nat} (h : ls.map (fun n => y[n]?) = bs.map some) :
    List.Forall₂ (fun (n : Nat) b => y[n]? = some b) ls bs := by
  induction ls generalizing bs with
  | nil => cases bs with
    | nil => exact .nil
    | cons b bs => simp at h
  | cons n ls ih => cases bs with
    | nil => simp at h
    | cons b bs =>
      simp only [List.map_cons, List.cons.injEq] at h
      exact .cons h.1 (ih h.2)

/-- C80 with an `ElementRepository`: a session run with an oracle that knows the labels `y` (and prices `cost`, and possibly examples `ex`), a repository built from
the labels of the initially labelled examples `ls`, any stopping criterion, and any strategy that chooses from the unlabelled set
without repetition, ends after at most `|us|` iterations without error, and has the expected outcome. -/
theorem C80_element_repository {χ β : Type} [DecidableEq χ] {y : List β} {ex : Option (List χ)} {cost : Option (List ℚ)} {ty : β → Nat} {o : Oracle χ β}
    (hnew : Oracle.new ty y ex none cost = .ok o) (env : SessionEnv (ERepo Key β Unit)) (hst : GoodChoice env.strat) (a b : Bool)
    (ls us : List Nat) (hls : ls ≠ []) (hus : us ≠ []) (hnd : ls.Nodup) (hr : ∀ n ∈ us, n < y.length) (hdis : ∀ n ∈ ls, n ∉ us)
    (bs : List β) (hbs : ls.map (fun n => y[n]?) = bs.map some) (repo : ERepo Key β Unit)
    (hrepo : ERepo.new bs (ls.map (fun n : Nat => Key.num n)) none = .ok repo)
    (name : Option String) (value : Option PyNum) (now : ℚ) (stop : Stop) (hstop : Stop.new name value now = .ok stop) (v : ℚ)
    (hv : stop.crit ≠ .none → stop.value = some v) (hp : stop.crit = .percentOfUnlabel → 0 ≤ v ∧ v ≤ 1) :
    ∃ r qs, (∀ fuel, us.length < fuel →
        session elementOps o env fuel 0 (startSession (ls.map (item a)) (us.map (item b)) repo stop) = some (.ok r)) ∧
      SessionOutcome y cost ls us env.clock stop v r (r.repo.getTrainingData.map (fun p => p.2)) r.repo.cost qs := by
  have hl := (forall₂_labels hbs).length_eq
  refine session_law elementLaw (fun _ _ => trivial) hnew hst a b hls hus hnd hr hdis (bs := bs) ?_ (forall₂_labels hbs) ?_ hstop v hv hp
  · refine ERepo.Hist.new bs (ls.map (fun n : Nat => Key.num n)) none rfl ⟨?_, ?_, ?_, ?_⟩ ?_ hrepo
    · rw [eRow_label, List.map_snd_zip (by rw [List.length_map]; omega)]
    · rw [eRow_index, List.map_fst_zip (by rw [List.length_map]; omega)]
    · intro xs hx; cases hx
    · intro _ x hx
      obtain ⟨p, -, rfl⟩ := List.mem_map.1 hx
      rfl
    · apply eRow_noClash
      rw [List.map_fst_zip (by rw [List.length_map]; omega)]
      exact hnd.map num_inj
  · unfold ERepo.new at hrepo
    split at hrepo
    · cases hrepo; rfl
    · cases hrepo

/-- C80 with a `MatrixRepository` (what the toolbox returns for `query_type='AllLabels'`); all labels have one shape. -/
theorem C80_matrix_repository {χ γ : Type} [DecidableEq χ] [DecidableEq γ] {y : List (Lab γ)} {ex : Option (List χ)} {cost : Option (List ℚ)}
    {ty : Lab γ → Nat} {o : Oracle χ (Lab γ)} (hnew : Oracle.new ty y ex none cost = .ok o) (sh : Option Nat)
    (hsh : ∀ l ∈ y, l.shape = sh) (env : SessionEnv (MRepo Key γ)) (hst : GoodChoice env.strat) (a b : Bool)
    (ls us : List Nat) (hls : ls ≠ []) (hus : us ≠ []) (hnd : ls.Nodup) (hr : ∀ n ∈ us, n < y.length) (hdis : ∀ n ∈ ls, n ∉ us)
    (bs : List (Lab γ)) (hbs : ls.map (fun n => y[n]?) = bs.map some) (repo : MRepo Key γ)
    (hrepo : MRepo.new bs (ls.map (fun n : Nat => Key.num n)) none = .ok repo)
    (name : Option String) (value : Option PyNum) (now : ℚ) (stop : Stop) (hstop : Stop.new name value now = .ok stop) (v : ℚ)
    (hv : stop.crit ≠ .none → stop.value = some v) (hp : stop.crit = .percentOfUnlabel → 0 ≤ v ∧ v ≤ 1) :
    ∃ r qs, (∀ fuel, us.length < fuel →
        session matrixOps o env fuel 0 (startSession (ls.map (item a)) (us.map (item b)) repo stop) = some (.ok r)) ∧
      SessionOutcome y cost ls us env.clock stop v r (matrixOps.training r.repo) r.repo.cost qs := by
  have hf := forall₂_labels hbs
  have hl := hf.length_eq
  refine session_law (matrixLaw sh) hsh hnew hst a b hls hus hnd hr hdis (bs := bs) ?_ hf ?_ hstop v hv hp
  · unfold MRepo.new at hrepo
    split at hrepo
    · cases bs with
      | nil => simp at hrepo
      | cons b0 bs0 =>
        simp only at hrepo
        split at hrepo
        · split at hrepo
          · cases hrepo
            refine ⟨_, rfl, ?_, ?_, rfl, ?_⟩
            · rw [List.map_snd_zip (by rw [List.length_map]; omega)]
            · rw [List.map_fst_zip (by rw [List.length_map]; omega)]
            · cases hf with
              | cons h1 _ => exact hsh _ (List.mem_of_getElem? h1)
          · cases hrepo
        · cases hrepo
    · cases hrepo
  · unfold MRepo.new at hrepo
    split at hrepo
    · cases bs with
      | nil => simp at hrepo
      | cons b0 bs0 =>
        simp only at hrepo
        split at hrepo
        · split at hrepo
          · cases hrepo; rfl
          · cases hrepo
        · cases hrepo
    · cases hrepo

/-- C80, the budget: in a session with `cost_limit = v`, either every example got labelled or at least `v` was spent; and before the
last query less than `v` was spent, so no more is overspent than the price of the last batch. -/
theorem C80_budget {ρ β : Type} {y : List β} {cost : Option (List ℚ)} {ls us : List Nat} {clock : Nat → ℚ} {stop : Stop} {v : ℚ}
    {r : Session ρ} {training : Except PyErr (List β × List Key)} {spent : ℚ} {qs : List (List Nat)} (hc : stop.crit = .costLimit)
    (h : SessionOutcome y cost ls us clock stop v r training spent qs) :
    ((∀ n ∈ us, n ∈ qs.flatten) ∨ v ≤ spent) ∧
    ∀ init last, qs = init ++ [last] → spent - (last.map (price cost)).sum < v := by
  refine ⟨h.stopped.imp (fun e n hn => ?_) (fun e => ?_), ?_⟩
  · by_contra hq
    have : n ∈ remaining us qs := List.mem_filter.2 ⟨List.mem_dedup.2 hn, decide_eq_true hq⟩
    rw [e] at this
    simp at this
  · rw [h.repoCost]
    simpa [BoundReached, hc] using e
  · rintro init last rfl
    have := (h.inTime init.length (by simp)).2
    rw [List.take_left' rfl] at this
    simp only [BoundReached, hc, not_le] at this
    rw [h.repoCost, spentOn_snoc]
    linarith

/-- C80, the number of queries: with `num_of_queries = v` at most `v` queries are made (rounded up), and fewer only if every example
got labelled. -/
theorem C80_queries {ρ β : Type} {y : List β} {cost : Option (List ℚ)} {ls us : List Nat} {clock : Nat → ℚ} {stop : Stop} {n : Nat}
    {r : Session ρ} {training : Except PyErr (List β × List Key)} {spent : ℚ} {qs : List (List Nat)} (hc : stop.crit = .numOfQueries)
    (h : SessionOutcome y cost ls us clock stop n r training spent qs) :
    qs.length ≤ n ∧ ((∀ n ∈ us, n ∈ qs.flatten) ∨ qs.length = n) := by
  have hle : qs.length ≤ n := by
    by_contra hlt
    have := (h.inTime n (by omega)).2
    simp [BoundReached, hc] at this
  refine ⟨hle, h.stopped.imp (fun e m hm => ?_) (fun e => ?_)⟩
  · by_contra hq
    have : m ∈ remaining us qs := List.mem_filter.2 ⟨List.mem_dedup.2 hm, decide_eq_true hq⟩
    rw [e] at this
    simp at this
  · have : n ≤ qs.length := by simpa [BoundReached, hc] using e
    omega

theorem good_of_batch {U r : List Val} {batch : Int} (hb : 0 < batch) (hne : U ≠ []) (hnd : (U.map Val.key).Nodup)
    (h : Spec.BatchOf U batch r) : r ≠ [] ∧ (∀ v ∈ r, v.key ∈ U.map Val.key) ∧ (r.map Val.key).Nodup := by
  obtain ⟨h1, h2, h3⟩ := h
  have hpos : 0 < U.length := List.length_pos_of_ne_nil hne
  refine ⟨?_, fun w hw => List.mem_map_of_mem (h2 w hw), ?_⟩
  · rintro rfl
    simp at h3
    omega
  · exact h1.map_on (fun x hx y hy e => List.inj_on_of_nodup_map hnd (h2 x hx) (h2 y hy) e)

/-- C80, the assumption about the strategy holds for uncertainty sampling (with every measure, any model whose predictions have the
shape the measure needs, any batch size), for query by committee and for random selection. -/
theorem C80_strategies {ρ K : Type} [Field K] [LinearOrder K] {log : K → K} {argsort : List K → List Nat}
    (ha : ∀ l, Spec.IsArgsort l (argsort l)) {shuffle : Nat → List Int → List Int} (hs : ∀ i, Spec.IsShuffle (shuffle i)) {batch : Int}
    (hb : 0 < batch) :
    (∀ (m : Select.Measure) (predict : Nat → Session ρ → Select.Pred K), (∀ i s, Spec.Fits s.U.inner.length m (predict i s)) →
      GoodChoice (fun i s => Select.uncertainty log argsort m (.coll s.U.inner) (predict i s) batch)) ∧
    (∀ votes : Nat → Session ρ → List (List Int), (∀ i s, 2 ≤ (votes i s).length ∧ ∀ r ∈ votes i s, r.length = s.U.inner.length) →
      GoodChoice (fun i s => Select.qbc log argsort (.coll s.U.inner) (votes i s) batch)) ∧
    GoodChoice (fun i (s : Session ρ) => Select.random (shuffle i) (.coll s.U.inner) batch) := by
  refine ⟨fun m predict hf i s hne hnd => ?_, fun votes hv i s hne hnd => ?_, fun i s hne hnd => ?_⟩
  · obtain ⟨r, h1, h2⟩ := Select.C42_uncertainty (log := log) ha (u := .coll s.U.inner) (List.Nodup.of_map _ hnd) (hf i s) hb
    exact ⟨r, h1, good_of_batch hb hne hnd h2⟩
  · obtain ⟨r, h1, h2⟩ := Select.C42_qbc (log := log) ha (u := .coll s.U.inner) (List.Nodup.of_map _ hnd) (hv i s).1 (hv i s).2 hb
    exact ⟨r, h1, good_of_batch hb hne hnd h2⟩
  · obtain ⟨r, h1, h2⟩ := Select.C42_random_partial (hs i) (l := s.U.inner) (List.Nodup.of_map _ hnd) hb.le
    exact ⟨r, h1, good_of_batch hb hne hnd h2⟩

/-- A strategy meeting the hypothesis, and a session: five examples, the first one labelled, two examples per query, prices 1 to 5, a
budget of 4. The session asks for examples 1 and 2 (price 5) and stops. -/
def takeTwo (ρ : Type) : SessionEnv ρ := ⟨fun _ s => .ok (s.U.inner.take 2), fun _ => .other 0, fun i => i⟩

example (ρ : Type) : GoodChoice (takeTwo ρ).strat := by
  intro i s hne hnd
  refine ⟨s.U.inner.take 2, rfl, ?_, ?_, ?_⟩
  · cases hu : s.U.inner with
    | nil => exact absurd hu hne
    | cons x l => simp
  · intro w hw; exact List.mem_map_of_mem (List.mem_of_mem_take hw)
  · exact hnd.sublist ((List.take_sublist 2 _).map _)

/-- The oracle, the repository and the criterion of that session exist, and this is its outcome. -/
example : ∃ (o : Oracle Unit String) (repo : ERepo Key String Unit) (stop : Stop),
    Oracle.new (fun _ => 0) ["a", "b", "c", "d", "e"] none none (some [1, 2, 3, 4, 5]) = .ok o ∧
    ERepo.new ["a"] ([0].map (fun n : Nat => Key.num n)) none = .ok repo ∧
    Stop.new (some "cost_limit") (some (.int 4)) 0 = .ok stop ∧
    ((session elementOps o (takeTwo _) 6 0 (startSession ([0].map (item true)) ([1, 2, 3, 4].map (item true)) repo stop)).bind
      (fun r => r.toOption.map (fun r => (r.saver.cost, r.repo.cost, (r.repo.getTrainingData.map (fun p => p.2)).toOption)))) =
      some (5, 5, some (["a", "b", "c"], [.num 0, .num 1, .num 2])) :=
  ⟨_, _, _, rfl, rfl, rfl, by decide +kernel⟩

end Alipy
