import Verif.Model.Display
import Verif.Spec.Display
import Verif.Props.Progress
import Mathlib.Tactic.Linarith
import Mathlib.Tactic.IntervalCases
import Mathlib.Data.Nat.Digits.Lemmas
/-!
# The progress table of aceThreading (C129)
-/
namespace Alipy.Display
open Alipy Alipy.Progress

/-! ## When it is printed -/

/-- Each time is later than the one before by more than `interval`. -/
def Apart (interval : ℚ) : ℚ → List ℚ → Prop
  | _, [] => True
  | last, t :: r => last + interval < t ∧ Apart interval t r

/-- **C129**: two printings are further apart than the refresh interval, however often the waiting loop polls. -/
theorem C129_apart (interval : ℚ) : ∀ (polls : List (ℚ × ℚ)) (last : ℚ), Spec.ClockRuns last polls → Apart interval last (refreshes interval last polls) := by
  intro polls
  suffices H : ∀ last seen : ℚ, Spec.ClockRuns seen polls → Apart interval last (refreshes interval last polls) from fun last h => H last last h
  induction polls with
  | nil => intro _ _ _; trivial
  | cons p r ih =>
    obtain ⟨a, b⟩ := p
    intro last seen h
    obtain ⟨h1, h2, h3⟩ := h
    unfold refreshes ifRefresh
    by_cases hc : a - last > interval
    · simp only [hc, if_true]
      exact ⟨by linarith, ih b b h3⟩
    · simp only [hc, if_false]
      exact ih last b h3

/-- **C129**: there are at most as many printings as intervals in the time waited. -/
theorem C129_number {interval : ℚ} (hi : 0 < interval) : ∀ (polls : List (ℚ × ℚ)) (last stop : ℚ), last ≤ stop → Spec.ClockRuns last polls →
    (∀ p ∈ polls, p.2 ≤ stop) → ((refreshes interval last polls).length : ℚ) * interval ≤ stop - last := by
  intro polls
  suffices H : ∀ last stop seen : ℚ, last ≤ stop → Spec.ClockRuns seen polls → (∀ p ∈ polls, p.2 ≤ stop) →
      ((refreshes interval last polls).length : ℚ) * interval ≤ stop - last from fun last stop h1 h2 h3 => H last stop last h1 h2 h3
  induction polls with
  | nil => intro last stop _ h _ _; simp only [refreshes, List.length_nil, Nat.cast_zero, zero_mul]; linarith
  | cons p r ih =>
    obtain ⟨a, b⟩ := p
    intro last stop seen hl h hs
    obtain ⟨h1, h2, h3⟩ := h
    have hb : b ≤ stop := hs (a, b) (by simp)
    have hr : ∀ p ∈ r, p.2 ≤ stop := fun p hp => hs p (by simp [hp])
    unfold refreshes ifRefresh
    by_cases hc : a - last > interval
    · simp only [hc, if_true]
      have := ih b stop b hb h3 hr
      simp only [List.length_cons, Nat.cast_add, Nat.cast_one]
      nlinarith
    · simp only [hc, if_false]
      exact ih last stop b hl h3 hr

/-- **C129**: a poll prints the table exactly if more than the interval has passed since the last printing. -/
theorem C129_due (interval last now again : ℚ) : (ifRefresh interval last now again).1 = true ↔ last + interval < now := by
  unfold ifRefresh
  split
  · rename_i h; simp only [true_iff]; linarith
  · rename_i h; simp only [Bool.false_eq_true, false_iff]; intro h'; exact h (by linarith)

/-! ## The elapsed time -/

theorem digit_read : ∀ d < 10, ('0' ≤ Nat.digitChar d ∧ Nat.digitChar d ≤ '9') ∧ (Nat.digitChar d).toNat - '0'.toNat = d := by decide

theorem readNat_append (acc : Nat) (l : List Char) (d : Nat) (hd : d < 10) :
    Spec.readNat acc (l ++ [Nat.digitChar d]) = (Spec.readNat acc l).map (fun n => 10 * n + d) := by
  induction l generalizing acc with
  | nil =>
    obtain ⟨h1, h2⟩ := digit_read d hd
    simp only [List.nil_append, Spec.readNat, if_pos h1, h2, Option.map_some]
  | cons c r ih =>
    simp only [List.cons_append, Spec.readNat]
    split
    · exact ih _
    · rfl

theorem readNat_digits : ∀ L : List Nat, (∀ d ∈ L, d < 10) → Spec.readNat 0 ((L.map Nat.digitChar).reverse) = some (Nat.ofDigits 10 L)
  | [], _ => rfl
  | d :: r, h => by
    rw [List.map_cons, List.reverse_cons, readNat_append _ _ _ (h d (by simp)), readNat_digits r (fun x hx => h x (by simp [hx]))]
    simp [Nat.ofDigits_cons, Nat.add_comm]

theorem readNat_dec (n : Nat) : Spec.readNat 0 (dec n) = some n := by
  unfold dec
  split
  · rename_i h; subst h; decide
  · rw [readNat_digits _ (fun d hd => Nat.digits_lt_base (by norm_num) hd), Nat.ofDigits_digits]

theorem readNat_zeros (k : Nat) (l : List Char) : Spec.readNat 0 (List.replicate k '0' ++ l) = Spec.readNat 0 l := by
  induction k with
  | zero => rfl
  | succ k ih =>
    rw [List.replicate_succ, List.cons_append, Spec.readNat, if_pos (by decide)]
    exact ih

theorem readNat_dec2 (n : Nat) : Spec.readNat 0 (dec2 n) = some n := by rw [dec2, readNat_zeros, readNat_dec]

/-- A number below 60 takes two characters. -/
theorem dec2_two {n : Nat} (h : n < 60) : ∃ a b, dec2 n = [a, b] := by
  have hd : (dec n).length ≤ 2 ∧ 0 < (dec n).length := by
    unfold dec
    split
    · exact ⟨by simp, by simp⟩
    · rename_i h0
      simp only [List.length_reverse, List.length_map]
      constructor
      · rw [Nat.digits_length_le_iff (by norm_num)]; omega
      · exact List.length_pos_iff.2 (Nat.digits_ne_nil_iff_ne_zero.2 h0)
  have hl : (dec2 n).length = 2 := by simp only [dec2, List.length_append, List.length_replicate]; omega
  match e : dec2 n, hl with
  | [a, b], _ => exact ⟨a, b, rfl⟩

theorem floor_hms {t : ℚ} (ht : 0 ≤ t) : ∃ h m s : Nat, ⌊(hms t).1⌋.toNat = h ∧ ⌊(hms t).2.1⌋.toNat = m ∧ ⌊(hms t).2.2⌋.toNat = s ∧ m < 60 ∧ s < 60 ∧
    3600 * h + 60 * m + s = ⌊t⌋.toNat := by
  have a0 : 0 ≤ ⌊t / 60⌋ := Int.floor_nonneg.2 (by positivity)
  have b0 : 0 ≤ ⌊((⌊t / 60⌋ : ℤ) : ℚ) / 60⌋ := Int.floor_nonneg.2 (by positivity)
  have e1 : ⌊t - 60 * (⌊t / 60⌋ : ℤ)⌋ = ⌊t⌋ - 60 * ⌊t / 60⌋ := by
    have : t - 60 * (⌊t / 60⌋ : ℤ) = t - ((60 * ⌊t / 60⌋ : ℤ) : ℚ) := by push_cast; ring
    rw [this, Int.floor_sub_intCast]
  have e2 : ⌊((⌊t / 60⌋ : ℤ) : ℚ) - 60 * (⌊((⌊t / 60⌋ : ℤ) : ℚ) / 60⌋ : ℤ)⌋ = ⌊t / 60⌋ - 60 * ⌊((⌊t / 60⌋ : ℤ) : ℚ) / 60⌋ := by
    have : ((⌊t / 60⌋ : ℤ) : ℚ) - 60 * (⌊((⌊t / 60⌋ : ℤ) : ℚ) / 60⌋ : ℤ) = ((⌊t / 60⌋ - 60 * ⌊((⌊t / 60⌋ : ℤ) : ℚ) / 60⌋ : ℤ) : ℚ) := by push_cast; ring
    rw [this, Int.floor_intCast]
  have l1 : (⌊t / 60⌋ : ℚ) ≤ t / 60 := Int.floor_le _
  have l2 : t / 60 < (⌊t / 60⌋ : ℚ) + 1 := Int.lt_floor_add_one _
  have r1 : 0 ≤ ⌊t⌋ - 60 * ⌊t / 60⌋ := by rw [← e1]; exact Int.floor_nonneg.2 (by linarith)
  have r2 : ⌊t⌋ - 60 * ⌊t / 60⌋ < 60 := by rw [← e1]; exact Int.floor_lt.2 (by push_cast; linarith)
  generalize hA : ⌊t / 60⌋ = A at *
  have l3 : (⌊(A : ℚ) / 60⌋ : ℚ) ≤ A / 60 := Int.floor_le _
  have l4 : (A : ℚ) / 60 < (⌊(A : ℚ) / 60⌋ : ℚ) + 1 := Int.lt_floor_add_one _
  have q1 : 0 ≤ A - 60 * ⌊(A : ℚ) / 60⌋ := by rw [← e2]; exact Int.floor_nonneg.2 (by linarith)
  have q2 : A - 60 * ⌊(A : ℚ) / 60⌋ < 60 := by rw [← e2]; exact Int.floor_lt.2 (by push_cast; linarith)
  generalize hB : ⌊(A : ℚ) / 60⌋ = B at *
  have f1 : ⌊(hms t).1⌋ = B := by simp only [hms, divmod60, hA, hB, Int.floor_intCast]
  have f2 : ⌊(hms t).2.1⌋ = A - 60 * B := by simp only [hms, divmod60, hA, hB]; exact e2
  have f3 : ⌊(hms t).2.2⌋ = ⌊t⌋ - 60 * A := by simp only [hms, divmod60, hA]; exact e1
  refine ⟨_, _, _, rfl, rfl, rfl, ?_⟩
  rw [f1, f2, f3]
  omega

/-- **C129**: the clock of a round that has been started can be read back: it shows the whole seconds since the start, in hours (of two or
more digits), minutes and seconds. -/
theorem C129_clock {start now : ℚ} (h : start ≤ now) : Spec.readClock (clock (some start) now) = some ⌊now - start⌋.toNat := by
  obtain ⟨hh, m, s, e1, e2, e3, hm, hs, e⟩ := floor_hms (sub_nonneg.2 h)
  obtain ⟨m1, m0, em⟩ := dec2_two hm
  obtain ⟨s1, s0, es⟩ := dec2_two hs
  have hc : clock (some start) now = dec2 hh ++ ':' :: [m1, m0] ++ ':' :: [s1, s0] := by
    simp only [clock, e1, e2, e3, em, es]
  have rm := readNat_dec2 m
  have rs := readNat_dec2 s
  rw [em] at rm; rw [es] at rs
  have hrev : (clock (some start) now).reverse = s0 :: s1 :: ':' :: m0 :: m1 :: ':' :: (dec2 hh).reverse := by
    rw [hc]; simp
  unfold Spec.readClock
  rw [hrev]
  simp only [rm, rs, List.reverse_reverse, readNat_dec2, hm, hs, and_self, if_true, e]

/-- **C129**: a round that this object has not started shows 0. -/
theorem C129_not_started (now : ℚ) : clock none now = ['0'] := rfl

/-- **C129**: the clock of a round goes on after the end of its thread: it is not the time the round took but the time since its start, and a second
later the table shows another time. -/
theorem C129_ended_violation {start now later : ℚ} (h1 : start ≤ now) (h2 : now + 1 ≤ later) : clock (some start) later ≠ clock (some start) now := by
  intro e
  have a := C129_clock h1
  have b := C129_clock (start := start) (now := later) (by linarith)
  rw [e, a] at b
  simp only [Option.some.injEq] at b
  have c0 : 0 ≤ ⌊now - start⌋ := Int.floor_nonneg.2 (by linarith)
  have c1 : ⌊now - start⌋ + 1 ≤ ⌊later - start⌋ := by
    rw [← Int.floor_add_one]; exact Int.floor_le_floor (by linarith)
  omega

/-! ## The performance -/

theorem adds_le {h : Nat → List Rec} (ha : Spec.OnlyAdds h) (i d : Nat) : h i <+: h (i + d) := by
  induction d with
  | zero => exact List.prefix_refl _
  | succ d ih => exact ih.trans (ha (i + d))

theorem readAll_adds {h : Nat → List Rec} (ha : Spec.OnlyAdds h) (n : Nat) : ∀ (f k i : Nat), 2 ≤ k → i + f = (h 2).length →
    readAll h n k i f = .ok ((h 2).drop i)
  | 0, k, i, _, e => by
    have : (h 2).length ≤ i := by omega
    rw [readAll, List.drop_eq_nil_of_le this]
  | f + 1, k, i, hk, e => by
    have hi : i < (h 2).length := by omega
    obtain ⟨d, rfl⟩ := Nat.exists_eq_add_of_le hk
    obtain ⟨t, ht⟩ := adds_le ha 2 d
    have hget : (h (2 + d))[i]? = some (h 2)[i] := by
      rw [← ht, List.getElem?_append_left hi, List.getElem?_eq_getElem hi]
    rw [readAll, hget, readAll_adds ha n f _ (i + 1) (by omega) (by omega)]
    simp only
    rw [List.drop_eq_getElem_cons hi]

/-- **C129**: while the worker of a round only adds states, its line can be made at any time, and shows the performance of the states that
were there at one moment while it was made; the number of queries shown is that of a moment before, so it may be smaller. -/
theorem C129_moment {h : Nat → List Rec} (ha : Spec.OnlyAdds h) :
    ∃ k, k ≤ 2 ∧ rowPerformance h = (currentPerformance (h k)).map (fun p => ((h 0).length, p)) ∧ (h 0).length ≤ (h k).length := by
  unfold rowPerformance
  by_cases h1 : (h 1).length = 0
  · refine ⟨1, by omega, ?_, (ha 0).length_le⟩
    rw [if_pos h1, List.length_eq_zero_iff.1 h1]
    rfl
  · refine ⟨2, le_refl 2, ?_, (adds_le ha 0 2).length_le⟩
    rw [if_neg h1, readAll_adds ha _ _ 3 0 (by omega) (by omega), List.drop_zero]
    have hne : h 2 ≠ [] := by
      intro e
      have := (ha 1).length_le
      rw [e] at this
      simp at this
      simp [this] at h1
    match e : h 2, hne with
    | r :: l, _ =>
      simp only
      cases currentPerformance (r :: l) <;> rfl

/-- **C129**: the whole table, while the workers only add states (performances that are numbers): a line for every saver in order, with its round,
a number of queries and a time, and the performance of the states at one moment. -/
theorem C129_table : ∀ (ss : List (Nat × Option ℚ × ℚ × (Nat → List Rec))), (∀ s ∈ ss, Spec.OnlyAdds s.2.2.2) →
    (∀ s ∈ ss, ∀ k, ∃ p, currentPerformance (s.2.2.2 k) = .ok p) →
    ∃ ls, lines ss = .ok ls ∧ List.Forall₂ (fun s l => l.round = s.1 ∧ l.time = clock s.2.1 s.2.2.1 ∧ l.queries = (s.2.2.2 0).length ∧
      ∃ k, k ≤ 2 ∧ currentPerformance (s.2.2.2 k) = .ok l.perf) ss ls
  | [], _, _ => ⟨[], rfl, .nil⟩
  | (rd, st, now, h) :: rest, ha, hp => by
    obtain ⟨ls, e, hf⟩ := C129_table rest (fun s hs => ha s (by simp [hs])) (fun s hs => hp s (by simp [hs]))
    obtain ⟨k, hk, er, _⟩ := C129_moment (ha (rd, st, now, h) (by simp))
    obtain ⟨p, ep⟩ := hp (rd, st, now, h) (by simp) k
    simp only at er ep
    rw [ep] at er
    refine ⟨⟨rd, (h 0).length, clock st now, p⟩ :: ls, ?_, .cons ⟨rfl, rfl, rfl, k, hk, ep⟩ hf⟩
    simp only [lines, er, Except.map, e]

/-- **C129**: a worker that takes back states (`recover_workspace`, `pop`) while its line is made can end the program that prints the table:
whenever a state that the loop counts on is gone when it is read, the main thread raises `IndexError`. -/
theorem C129_pop_violation {h : Nat → List Rec} (h1 : h 1 ≠ []) {i : Nat} (hi : i < (h 2).length) (hgone : (h (3 + i)).length ≤ i)
    (hbefore : ∀ j < i, j < (h (3 + j)).length) : rowPerformance h = .error .indexError := by
  have key : ∀ (f k j : Nat), k = 3 + j → j ≤ i → i < j + f → readAll h (h 2).length k j f = .error .indexError := by
    intro f
    induction f with
    | zero => intro k j _ h1 h2; omega
    | succ f ih =>
      intro k j hk hj hf
      subst hk
      rw [readAll]
      rcases Nat.lt_or_eq_of_le hj with hlt | rfl
      · rw [List.getElem?_eq_getElem (hbefore j hlt)]
        simp only
        rw [ih (3 + j + 1) (j + 1) (by omega) hlt (by omega)]
      · rw [List.getElem?_eq_none hgone]
  unfold rowPerformance
  rw [if_neg (by simpa using h1), key (h 2).length 3 0 rfl (Nat.zero_le i) (by omega)]

/-- 3 hours, 25 minutes and 45.9 seconds; 100 hours. -/
example : clock (some (1/2)) (12346 + 4/10) = "03:25:45".toList ∧ clock (some 0) 360000 = "100:00:00".toList ∧
    Spec.readClock "03:25:45".toList = some 12345 := by decide +kernel
/-- Polls at 1/2, 3/2, 2 and 3 seconds with an interval of one second: two printings. -/
example : refreshes 1 0 [(1/2, 1/2), (3/2, 3/2), (2, 2), (3, 3)] = [3/2, 3] ∧ Spec.ClockRuns 0 [(1/2, 1/2), (3/2, 3/2)] := by
  refine ⟨by decide +kernel, ?_⟩
  norm_num [Spec.ClockRuns]
/-- A worker adds its second state while its line is made: one query, mean performance of both. -/
example : (rowPerformance (fun k => if k < 2 then [⟨.num 1, none⟩] else [⟨.num 1, none⟩, ⟨.num 0, none⟩])).toOption = some (1, .val (1/2) (1/4)) := by decide +kernel
/-- A worker takes its states back while its line is made. -/
example : (rowPerformance (fun k => if k < 3 then [⟨.num 1, none⟩] else [])).toOption = none := by decide +kernel

end Alipy.Display
