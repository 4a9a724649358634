import Verif.Model.Rounding
import Verif.Spec.Rounding
import Verif.Props.Select
import Verif.Props.Metrics
import Verif.Proof.Misc
/-!
# C97: what rounding can do to selections, metrics, sizes and stopping
-/
set_option linter.unusedSectionVars false
set_option linter.unusedSimpArgs false
namespace Alipy.Rounding
open Alipy Alipy.Select

variable {α : Type}

/-! ## Sums -/

section
variable {K : Type} [Field K] [LinearOrder K] [IsStrictOrderedRing K]

theorem abs_sum_le {T : K} : ∀ l : List K, (∀ x ∈ l, |x| ≤ T) → |l.sum| ≤ l.length * T
  | [], _ => by simp
  | x :: l, h => by
    have h1 := h x (by simp)
    have h2 := abs_sum_le l (fun y hy => h y (by simp [hy]))
    rw [List.sum_cons, List.length_cons]
    push_cast
    have := abs_add_le x l.sum
    linarith

theorem leaves_pos (t : Tree K) : 0 < t.leaves.length := by
  induction t with
  | leaf x => simp [Tree.leaves]
  | node l r ih _ => rw [Tree.leaves, List.length_append]; omega

/-- Every addition adds an error of at most `e`. -/
theorem tree_error {rnd : K → K} {B e T : K} (he : 0 ≤ e) (h : Spec.Rounds rnd B e) (hT : 0 ≤ T) :
    ∀ t : Tree K, (∀ x ∈ t.leaves, |x| ≤ T) → (t.leaves.length : K) * (T + e) ≤ B →
      |t.sum rnd - t.leaves.sum| ≤ ((t.leaves.length : K) - 1) * e
  | .leaf x, _, _ => by simp [Tree.sum, Tree.leaves]
  | .node l r, hx, hB => by
    have hl : ∀ x ∈ l.leaves, |x| ≤ T := fun x hx' => hx x (by simp [Tree.leaves, hx'])
    have hr : ∀ x ∈ r.leaves, |x| ≤ T := fun x hx' => hx x (by simp [Tree.leaves, hx'])
    have pl : (1 : K) ≤ l.leaves.length := by exact_mod_cast leaves_pos l
    have pr : (1 : K) ≤ r.leaves.length := by exact_mod_cast leaves_pos r
    have hTe : 0 ≤ T + e := add_nonneg hT he
    rw [Tree.leaves, List.length_append] at hB
    push_cast at hB
    have il := tree_error he h hT l hl (by nlinarith)
    have ir := tree_error he h hT r hr (by nlinarith)
    have sl := abs_sum_le _ hl
    have sr := abs_sum_le _ hr
    have hs : |l.sum rnd + r.sum rnd| ≤ B := by
      have e1 : l.sum rnd + r.sum rnd = (l.sum rnd - l.leaves.sum) + (r.sum rnd - r.leaves.sum) + (l.leaves.sum + r.leaves.sum) := by ring
      rw [e1]
      have a1 := abs_add_le ((l.sum rnd - l.leaves.sum) + (r.sum rnd - r.leaves.sum)) (l.leaves.sum + r.leaves.sum)
      have a2 := abs_add_le (l.sum rnd - l.leaves.sum) (r.sum rnd - r.leaves.sum)
      have a3 := abs_add_le l.leaves.sum r.leaves.sum
      nlinarith
    have hh := h _ hs
    rw [Tree.sum, Tree.leaves, List.sum_append, List.length_append]
    push_cast
    have e2 : rnd (l.sum rnd + r.sum rnd) - (l.leaves.sum + r.leaves.sum) =
        (rnd (l.sum rnd + r.sum rnd) - (l.sum rnd + r.sum rnd)) + ((l.sum rnd - l.leaves.sum) + (r.sum rnd - r.leaves.sum)) := by ring
    rw [e2]
    have a1 := abs_add_le (rnd (l.sum rnd + r.sum rnd) - (l.sum rnd + r.sum rnd)) ((l.sum rnd - l.leaves.sum) + (r.sum rnd - r.leaves.sum))
    have a2 := abs_add_le (l.sum rnd - l.leaves.sum) (r.sum rnd - r.leaves.sum)
    linarith

/-- A sum of truth values is exact. -/
theorem tree_exact {rnd : K → K} {N : Nat} (h : Spec.ExactTo rnd N) :
    ∀ t : Tree K, (∀ x ∈ t.leaves, x = 0 ∨ x = 1) → t.leaves.length ≤ N → t.sum rnd = t.leaves.sum ∧ ∃ k : Nat, k ≤ t.leaves.length ∧ t.leaves.sum = k
  | .leaf x, hx, _ => by
    refine ⟨by simp [Tree.sum, Tree.leaves], ?_⟩
    rcases hx x (by simp [Tree.leaves]) with rfl | rfl
    · exact ⟨0, by simp [Tree.leaves]⟩
    · exact ⟨1, by simp [Tree.leaves]⟩
  | .node l r, hx, hN => by
    rw [Tree.leaves, List.length_append] at hN
    obtain ⟨h1, k1, b1, e1⟩ := tree_exact h l (fun x hx' => hx x (by simp [Tree.leaves, hx'])) (by omega)
    obtain ⟨h2, k2, b2, e2⟩ := tree_exact h r (fun x hx' => hx x (by simp [Tree.leaves, hx'])) (by omega)
    have hs : l.leaves.sum + r.leaves.sum = ((k1 + k2 : Nat) : K) := by rw [e1, e2]; push_cast; ring
    rw [Tree.sum, Tree.leaves, List.sum_append, List.length_append, h1, h2, hs, h _ (by omega)]
    exact ⟨rfl, k1 + k2, by omega, rfl⟩

/-! ## Uncertainty sampling -/

/-- **C97**, least confident: an unselected example with a smaller largest probability than that of a selected one has the same computed
score, if rounding is monotone. -/
theorem C97_least_confident {rnd log : K → K} (hm : Monotone rnd) {tiny : K} {tree : List K → Tree K} {argsort : List K → List Nat}
    (ha : ∀ l, Spec.IsArgsort l (argsort l)) {u : Coll α} (hu : u.items.Nodup) {c : Nat} {rows : List (List K)}
    (hn : rows.length = u.items.length) (hc : ∀ r ∈ rows, r.length = c) {batch : Int} {r : List α}
    (hr : uncertainty rnd log tiny tree argsort .leastConfident u c rows batch = .ok r) :
    Spec.NoneBetter u.items r (fun j i => ∃ rj ri tj ti, rows[j]? = some rj ∧ rows[i]? = some ri ∧ Spec.IsTop rj tj ∧ Spec.IsTop ri ti ∧
      tj < ti ∧ rnd (1 - tj) ≠ rnd (1 - ti)) := by
  rintro i j x y hi hj hx hy ⟨rj, ri, tj, ti, ej, ei, htj, hti, hlt, hne⟩
  have key := byLargest_best ha hu (by simpa using hn) hr hi hj hx hy (a := least rnd c ri) (b := least rnd c rj) (by simp [ei]) (by simp [ej])
  obtain ⟨rest, p1, p2⟩ := top_perm htj
  obtain ⟨rest', p1', p2'⟩ := top_perm hti
  have e1 := sorted_top p1 p2
  have e2 := sorted_top p1' p2'
  rw [hc rj (List.mem_of_getElem? ej)] at e1
  rw [hc ri (List.mem_of_getElem? ei)] at e2
  unfold least at key
  rw [e1, e2] at key
  exact hne (le_antisymm key (hm (by linarith)))

/-- **C97**, least confident: no unselected example is less confident than a selected one by more than twice the rounding error. -/
theorem C97_least_confident_error {rnd log : K → K} {e : K} (hrnd : Spec.Rounds rnd 1 e) {tiny : K} {tree : List K → Tree K}
    {argsort : List K → List Nat} (ha : ∀ l, Spec.IsArgsort l (argsort l)) {u : Coll α} (hu : u.items.Nodup) {c : Nat} {rows : List (List K)}
    (hn : rows.length = u.items.length) (hc : ∀ r ∈ rows, r.length = c) (h01 : ∀ r ∈ rows, ∀ v ∈ r, 0 ≤ v ∧ v ≤ 1) {batch : Int} {r : List α}
    (hr : uncertainty rnd log tiny tree argsort .leastConfident u c rows batch = .ok r) :
    Spec.NoneBetter u.items r (fun j i => ∃ rj ri tj ti, rows[j]? = some rj ∧ rows[i]? = some ri ∧ Spec.IsTop rj tj ∧ Spec.IsTop ri ti ∧
      tj + 2 * e < ti) := by
  rintro i j x y hi hj hx hy ⟨rj, ri, tj, ti, ej, ei, htj, hti, hlt⟩
  have key := byLargest_best ha hu (by simpa using hn) hr hi hj hx hy (a := least rnd c ri) (b := least rnd c rj) (by simp [ei]) (by simp [ej])
  obtain ⟨rest, p1, p2⟩ := top_perm htj
  obtain ⟨rest', p1', p2'⟩ := top_perm hti
  have e1 := sorted_top p1 p2
  have e2 := sorted_top p1' p2'
  rw [hc rj (List.mem_of_getElem? ej)] at e1
  rw [hc ri (List.mem_of_getElem? ei)] at e2
  unfold least at key
  rw [e1, e2] at key
  have bj := h01 rj (List.mem_of_getElem? ej) tj htj.1
  have bi := h01 ri (List.mem_of_getElem? ei) ti hti.1
  have r1 := abs_le.1 (hrnd (1 - tj) (by rw [abs_le]; constructor <;> linarith))
  have r2 := abs_le.1 (hrnd (1 - ti) (by rw [abs_le]; constructor <;> linarith))
  linarith

/-- **C97**, margin: an unselected example with a smaller margin than that of a selected one has the same computed score. -/
theorem C97_margin {rnd log : K → K} (hm : Monotone rnd) {tiny : K} {tree : List K → Tree K} {argsort : List K → List Nat}
    (ha : ∀ l, Spec.IsArgsort l (argsort l)) {u : Coll α} (hu : u.items.Nodup) {c : Nat} {rows : List (List K)}
    (hn : rows.length = u.items.length) (hc : ∀ r ∈ rows, r.length = c) {batch : Int} {r : List α}
    (hr : uncertainty rnd log tiny tree argsort .margin u c rows batch = .ok r) :
    Spec.NoneBetter u.items r (fun j i => ∃ rj ri mj mi, rows[j]? = some rj ∧ rows[i]? = some ri ∧ Spec.IsMargin rj mj ∧ Spec.IsMargin ri mi ∧
      mj < mi ∧ rnd (-mj) ≠ rnd (-mi)) := by
  rintro i j x y hi hj hx hy ⟨rj, ri, mj, mi, ej, ei, hmj, hmi, hlt, hne⟩
  have key := byLargest_best ha hu (by simpa using hn) hr hi hj hx hy (a := margin rnd c ri) (b := margin rnd c rj) (by simp [ei]) (by simp [ej])
  obtain ⟨a, b, rest, p1, p2, p3, rfl⟩ := hmj
  obtain ⟨a', b', rest', p1', p2', p3', rfl⟩ := hmi
  have e1 := kth_margin p1 p2 p3
  have e2 := kth_margin p1' p2' p3'
  rw [hc rj (List.mem_of_getElem? ej)] at e1
  rw [hc ri (List.mem_of_getElem? ei)] at e2
  unfold marginScore at e1 e2
  unfold margin at key
  rw [e1, e2] at key
  exact hne (le_antisymm (by convert key using 2 <;> ring) (hm (by linarith)))

/-- **C97**, margin: no unselected example has a margin smaller than that of a selected one by more than twice the rounding error. -/
theorem C97_margin_error {rnd log : K → K} {e : K} (hrnd : Spec.Rounds rnd 1 e) {tiny : K} {tree : List K → Tree K}
    {argsort : List K → List Nat} (ha : ∀ l, Spec.IsArgsort l (argsort l)) {u : Coll α} (hu : u.items.Nodup) {c : Nat} {rows : List (List K)}
    (hn : rows.length = u.items.length) (hc : ∀ r ∈ rows, r.length = c) (h01 : ∀ r ∈ rows, ∀ v ∈ r, 0 ≤ v ∧ v ≤ 1) {batch : Int} {r : List α}
    (hr : uncertainty rnd log tiny tree argsort .margin u c rows batch = .ok r) :
    Spec.NoneBetter u.items r (fun j i => ∃ rj ri mj mi, rows[j]? = some rj ∧ rows[i]? = some ri ∧ Spec.IsMargin rj mj ∧ Spec.IsMargin ri mi ∧
      mj + 2 * e < mi) := by
  rintro i j x y hi hj hx hy ⟨rj, ri, mj, mi, ej, ei, hmj, hmi, hlt⟩
  have key := byLargest_best ha hu (by simpa using hn) hr hi hj hx hy (a := margin rnd c ri) (b := margin rnd c rj) (by simp [ei]) (by simp [ej])
  obtain ⟨a, b, rest, p1, p2, p3, rfl⟩ := hmj
  obtain ⟨a', b', rest', p1', p2', p3', rfl⟩ := hmi
  have e1 := kth_margin p1 p2 p3
  have e2 := kth_margin p1' p2' p3'
  rw [hc rj (List.mem_of_getElem? ej)] at e1
  rw [hc ri (List.mem_of_getElem? ei)] at e2
  unfold marginScore at e1 e2
  unfold margin at key
  rw [e1, e2] at key
  have ba := h01 rj (List.mem_of_getElem? ej) a (p1.mem_iff.2 (by simp))
  have bb := h01 rj (List.mem_of_getElem? ej) b (p1.mem_iff.2 (by simp))
  have ba' := h01 ri (List.mem_of_getElem? ei) a' (p1'.mem_iff.2 (by simp))
  have bb' := h01 ri (List.mem_of_getElem? ei) b' (p1'.mem_iff.2 (by simp))
  have r1 := abs_le.1 (hrnd (b - a) (by rw [abs_le]; constructor <;> linarith))
  have r2 := abs_le.1 (hrnd (b' - a') (by rw [abs_le]; constructor <;> linarith))
  linarith

/-! ## Stopping -/

/-- **C97**, `percent_of_unlabel`: if the value given is the rounding of the fraction `p` meant, the criterion is met as soon as that fraction
has been queried, never later. -/
theorem C97_percent_not_late {rnd : K → K} (hm : Monotone rnd) {p : K} {n k : Nat} (h : p ≤ (k : K) / n) :
    percentReached rnd (rnd p) n k = true := by
  unfold percentReached
  exact decide_eq_true (hm h)

/-- **C97**, `percent_of_unlabel`: and it is not met before the fraction is reached up to twice the rounding error. -/
theorem C97_percent_not_early {rnd : K → K} {e : K} (hrnd : Spec.Rounds rnd 1 e) {p : K} (hp : 0 ≤ p) (hp1 : p ≤ 1) {n k : Nat} (hk : k ≤ n)
    (h : (k : K) / n + 2 * e < p) : percentReached rnd (rnd p) n k = false := by
  unfold percentReached
  have hk0 : (0 : K) ≤ (k : K) / n := by positivity
  have hk1 : (k : K) / n ≤ 1 := div_le_one_of_le₀ (by exact_mod_cast hk) (by positivity)
  have r1 := abs_le.1 (hrnd p (by rw [abs_le]; constructor <;> linarith))
  have r2 := abs_le.1 (hrnd ((k : K) / n) (by rw [abs_le]; constructor <;> linarith))
  exact decide_eq_false (not_le.2 (by linarith))

theorem cost_error {rnd : K → K} {B e : K} (he : 0 ≤ e) (h : Spec.Rounds rnd B e) : ∀ (costs : List K) (acc exact : K) (d : K), 0 ≤ d →
    |acc - exact| ≤ d → (∀ c ∈ costs, 0 ≤ c) → 0 ≤ exact → exact + costs.sum + (d + costs.length * e) ≤ B →
    |costs.foldl (fun acc c => rnd (acc + c)) acc - (exact + costs.sum)| ≤ d + costs.length * e
  | [], acc, exact, d, _, hd, _, _, _ => by simpa using hd
  | c :: costs, acc, exact, d, hd0, hd, hc, hx, hB => by
    have hc0 := hc c (by simp)
    have hcs : 0 ≤ costs.sum := List.sum_nonneg (fun x hx => hc x (by simp [hx]))
    rw [List.sum_cons, List.length_cons] at hB
    push_cast at hB
    have hL : 0 ≤ (costs.length : K) * e := by positivity
    obtain ⟨d1, d2⟩ := abs_le.1 hd
    have hr := abs_le.1 (h (acc + c) (by rw [abs_le]; constructor <;> linarith))
    have := cost_error he h costs (rnd (acc + c)) (exact + c) (d + e) (by linarith)
      (by rw [abs_le]; constructor <;> linarith) (fun x hx => hc x (by simp [hx])) (by linarith) (by linarith)
    rw [List.foldl_cons, List.sum_cons, List.length_cons]
    push_cast
    rw [show exact + (c + costs.sum) = exact + c + costs.sum by ring, show d + ((costs.length : K) + 1) * e = d + e + costs.length * e by ring]
    exact this

/-- **C97**, `cost_limit`: the costs recorded are compared with the limit up to the rounding error times the number of queries. -/
theorem C97_cost_limit {rnd : K → K} {B e : K} (he : 0 ≤ e) (hrnd : Spec.Rounds rnd B e) {costs : List K} (hc : ∀ c ∈ costs, 0 ≤ c)
    (hB : costs.sum + costs.length * e ≤ B) (value : K) :
    (value + costs.length * e ≤ costs.sum → costReached rnd value costs = true) ∧
      (costReached rnd value costs = true → value ≤ costs.sum + costs.length * e) := by
  have h := cost_error he hrnd costs 0 0 0 le_rfl (by simp) hc le_rfl (by linarith)
  rw [zero_add, zero_add] at h
  have h' := abs_le.1 h
  unfold costReached costInAll
  rw [decide_eq_true_iff]
  exact ⟨fun hv => by linarith, fun hv => by linarith⟩

end

/-! ## Entropy -/

theorem log_near {v a b d : ℝ} (hv : 0 ≤ v) (ha : 0 < a) (hb : 0 < b) (hva : v ≤ a) (hvb : v ≤ b) (hd : |a - b| ≤ d) :
    |v * Real.log a - v * Real.log b| ≤ d := by
  obtain ⟨d1, d2⟩ := abs_le.1 hd
  have hd0 : 0 ≤ d := le_trans (abs_nonneg _) hd
  have half : ∀ {x y : ℝ}, 0 < x → 0 < y → v ≤ y → x - y ≤ d → v * (Real.log x - Real.log y) ≤ d := by
    intro x y hx hy hvy hxy
    rw [← Real.log_div hx.ne' hy.ne']
    have h1 := Real.log_le_sub_one_of_pos (div_pos hx hy)
    have h2 : x / y - 1 = (x - y) / y := by field_simp
    calc v * Real.log (x / y) ≤ v * ((x - y) / y) := mul_le_mul_of_nonneg_left (by linarith) hv
      _ ≤ v * (d / y) := mul_le_mul_of_nonneg_left (div_le_div_of_nonneg_right hxy hy.le) hv
      _ = d * (v / y) := by ring
      _ ≤ d * 1 := mul_le_mul_of_nonneg_left (div_le_one_of_le₀ hvy hy.le) hd0
      _ = d := mul_one d
  have h1 := half ha hb hvb d2
  have h2 := half hb ha hva (by linarith)
  rw [abs_le]
  constructor <;> nlinarith

theorem mul_log_abs {v w : ℝ} (hv : 0 ≤ v) (hv1 : v ≤ 1) (hw : 0 < w) (hvw : v ≤ w) (hw2 : w ≤ 2) : |v * Real.log w| ≤ 1 := by
  have h1 := Real.one_sub_inv_le_log_of_pos hw
  have h2 := Real.log_le_sub_one_of_pos hw
  have h3 : v * w⁻¹ ≤ 1 := by rw [← div_eq_mul_inv]; exact div_le_one_of_le₀ hvw hw.le
  rw [abs_le]
  constructor
  · have := mul_le_mul_of_nonneg_left h1 hv
    nlinarith
  · have := mul_le_mul_of_nonneg_left h2 hv
    nlinarith

/-- The terms of the sum: the argument of the logarithm, the logarithm and the product are rounded. -/
theorem term_error {rnd log : ℝ → ℝ} {B e l tiny v : ℝ} (he : 0 ≤ e) (hl : 0 ≤ l) (hrnd : Spec.Rounds rnd B e) (hB : 4 ≤ B)
    (he1 : e ≤ 1 / 4000000000) (hl1 : l ≤ 1) (hlog : ∀ w, 0 < w → w ≤ 2 → |log w - Real.log w| ≤ l)
    (ht : |tiny - 1 / 1000000000| ≤ e) (hv : 0 < v) (hv1 : v ≤ 1) :
    |rnd (v * log (rnd (v + tiny))) - v * Real.log (v + 1 / 1000000000)| ≤ 3 * e + l ∧
      |rnd (v * log (rnd (v + tiny)))| ≤ 3 := by
  obtain ⟨t1, t2⟩ := abs_le.1 ht
  obtain ⟨w1, w2⟩ := abs_le.1 (hrnd (v + tiny) (by rw [abs_le]; constructor <;> linarith))
  generalize hw : rnd (v + tiny) = w at *
  have hw0 : 0 < w := by linarith
  have hw2 : w ≤ 2 := by linarith
  have hvw : v ≤ w := by linarith
  obtain ⟨g1, g2⟩ := abs_le.1 (hlog w hw0 hw2)
  obtain ⟨n1, n2⟩ := abs_le.1 (log_near (d := 2 * e) hv.le hw0 (by linarith : (0 : ℝ) < v + 1 / 1000000000) hvw (by linarith)
    (by rw [abs_le]; constructor <;> linarith))
  obtain ⟨m1, m2⟩ := abs_le.1 (mul_log_abs hv.le hv1 hw0 hvw hw2)
  have p1 : v * log w - v * Real.log w ≤ l := by
    have := mul_le_mul_of_nonneg_left g2 hv.le
    nlinarith
  have p2 : -l ≤ v * log w - v * Real.log w := by
    have := mul_le_mul_of_nonneg_left g1 hv.le
    nlinarith
  obtain ⟨r1, r2⟩ := abs_le.1 (hrnd (v * log w) (by rw [abs_le]; constructor <;> linarith))
  exact ⟨by rw [abs_le]; constructor <;> linarith, by rw [abs_le]; constructor <;> linarith⟩

theorem sum_near {f g : ℝ → ℝ} {d : ℝ} : ∀ row : List ℝ, (∀ v ∈ row, |f v - g v| ≤ d) → |(row.map f).sum - (row.map g).sum| ≤ row.length * d
  | [], _ => by simp
  | v :: row, h => by
    obtain ⟨a1, a2⟩ := abs_le.1 (h v (by simp))
    obtain ⟨b1, b2⟩ := abs_le.1 (sum_near row (fun x hx => h x (by simp [hx])))
    simp only [List.map_cons, List.sum_cons, List.length_cons]
    push_cast
    rw [abs_le]
    constructor <;> linarith

/-- The computed entropy is near the score without rounding. -/
theorem entropy_near {rnd log : ℝ → ℝ} {B e l tiny : ℝ} {tree : List ℝ → Tree ℝ} {row : List ℝ} (he : 0 ≤ e) (hl : 0 ≤ l)
    (hrnd : Spec.Rounds rnd B e) (hB : row.length * 4 ≤ B) (he1 : e ≤ 1 / 4000000000) (hl1 : l ≤ 1)
    (hlog : ∀ w, 0 < w → w ≤ 2 → |log w - Real.log w| ≤ l) (ht : |tiny - 1 / 1000000000| ≤ e) (htree : Spec.AddsAll tree)
    (hrow : row ≠ []) (h01 : ∀ v ∈ row, 0 < v ∧ v ≤ 1) :
    |entropy rnd log tiny tree row - entropyScore Real.log row| ≤ row.length * (4 * e + l) := by
  have hlen : (1 : ℝ) ≤ row.length := by exact_mod_cast List.length_pos_of_ne_nil hrow
  have hterm := fun v hv => term_error he hl hrnd (by linarith) he1 hl1 hlog ht (h01 v hv).1 (h01 v hv).2
  have hp := htree (row.map (fun v => rnd (v * log (rnd (v + tiny))))) (by simpa using hrow)
  have hplen : (tree (row.map (fun v => rnd (v * log (rnd (v + tiny)))))).leaves.length = row.length := by
    rw [hp.length_eq, List.length_map]
  have ht1 := tree_error he hrnd (T := 3) (by norm_num) (tree (row.map (fun v => rnd (v * log (rnd (v + tiny)))))) (by
      intro x hx
      obtain ⟨v, hv, rfl⟩ := List.mem_map.1 (hp.mem_iff.1 hx)
      exact (hterm v hv).2) (by rw [hplen]; nlinarith)
  rw [hp.sum_eq, hplen] at ht1
  have hs := sum_near (f := fun v => rnd (v * log (rnd (v + tiny)))) (g := fun v => v * Real.log (v + 1 / 1000000000)) row
    (fun v hv => (hterm v hv).1)
  obtain ⟨a1, a2⟩ := abs_le.1 ht1
  obtain ⟨b1, b2⟩ := abs_le.1 hs
  unfold entropy entropyScore
  rw [abs_le]
  constructor <;> nlinarith

/-- **C97**, entropy: no unselected example has an entropy larger than that of a selected one by more than `1e-9` plus eight rounding errors and
two errors of the logarithm for each class. -/
theorem C97_entropy {rnd log : ℝ → ℝ} {B e l tiny : ℝ} {tree : List ℝ → Tree ℝ} (he : 0 ≤ e) (hl : 0 ≤ l) (hrnd : Spec.Rounds rnd B e)
    (he1 : e ≤ 1 / 4000000000) (hl1 : l ≤ 1) (hlog : ∀ w, 0 < w → w ≤ 2 → |log w - Real.log w| ≤ l) (ht : |tiny - 1 / 1000000000| ≤ e)
    (htree : Spec.AddsAll tree) {argsort : List ℝ → List Nat} (ha : ∀ l, Spec.IsArgsort l (argsort l)) {u : Coll α} (hu : u.items.Nodup)
    {c : Nat} (hc0 : 0 < c) (hB : (c : ℝ) * 4 ≤ B) {rows : List (List ℝ)} (hn : rows.length = u.items.length) (hc : ∀ r ∈ rows, r.length = c)
    (h01 : ∀ r ∈ rows, ∀ v ∈ r, 0 < v ∧ v ≤ 1) {batch : Int} {r : List α}
    (hr : uncertainty rnd log tiny tree argsort .entropy u c rows batch = .ok r) :
    Spec.NoneBetter u.items r (fun j i => ∃ rj ri, rows[j]? = some rj ∧ rows[i]? = some ri ∧
      Spec.entropy ri + c * (1 / 1000000000 + 8 * e + 2 * l) < Spec.entropy rj) := by
  rintro i j x y hi hj hx hy ⟨rj, ri, ej, ei, hlt⟩
  have key := byLargest_best ha hu (by simpa using hn) hr hi hj hx hy (a := entropy rnd log tiny tree (clip ri))
    (b := entropy rnd log tiny tree (clip rj)) (by simp [ei]) (by simp [ej])
  have near : ∀ row ∈ rows, |entropy rnd log tiny tree (clip row) - entropyScore Real.log (clip row)| ≤ c * (4 * e + l) := by
    intro row hrow
    have hclip : clip row = row := by
      unfold clip
      conv_rhs => rw [← List.map_id row]
      apply List.map_congr_left
      intro v hv
      simp [not_le.2 (h01 row hrow v hv).1]
    have := entropy_near (tree := tree) (row := row) he hl hrnd (by rw [hc row hrow]; exact hB) he1 hl1 hlog ht htree
      (by rintro rfl; have := hc [] hrow; simp at this; omega) (h01 row hrow)
    rwa [hclip, ← hc row hrow]
  have hrj := List.mem_of_getElem? ej
  have hri := List.mem_of_getElem? ei
  obtain ⟨n1, n2⟩ := abs_le.1 (near rj hrj)
  obtain ⟨n3, n4⟩ := abs_le.1 (near ri hri)
  have b1 := entropyScore_bounds (fun v hv => (h01 rj hrj v hv).1)
  have b2 := entropyScore_bounds (fun v hv => (h01 ri hri v hv).1)
  rw [hc rj hrj] at b1
  have b3 := b1.1
  have b4 := b2.2
  nlinarith

/-! ## Accuracy -/

theorem fraction_count (n : Nat) (P : Nat → Prop) [DecidablePred P] :
    Spec.fraction n (fun _ => 1) P = (((Finset.range n).filter P).card : ℚ) / n := by
  unfold Spec.fraction
  rw [← Finset.sum_filter]
  simp

/-- **C97**, accuracy: without weights the computed accuracy is the exact one, rounded once, in whatever order the matches are counted. -/
theorem C97_accuracy {rnd : ℚ → ℚ} {N : Nat} (hN : Spec.ExactTo rnd N) {tree : List ℚ → Tree ℚ} (htree : Spec.AddsAll tree) {a b : List Int}
    (h : a.length = b.length) (ha : a ≠ []) (hlen : a.length ≤ N) :
    accuracy rnd tree a b = rnd (Spec.fraction a.length (fun _ => 1) (fun i => a[i]? = b[i]?)) := by
  have hne : List.zipWith (fun x y => ofBool (decide (x = y))) a b ≠ [] := by
    cases a with
    | nil => exact absurd rfl ha
    | cons x a => cases b with
      | nil => simp at h
      | cons y b => simp
  have hp := htree _ hne
  have hl : (List.zipWith (fun x y => ofBool (decide (x = y))) a b).length = a.length := by simp [h]
  have hex := (tree_exact hN (tree (List.zipWith (fun x y => ofBool (decide (x = y))) a b)) (by
    intro x hx
    have hx' := hp.mem_iff.1 hx
    obtain ⟨i, hi⟩ := List.mem_iff_getElem?.1 hx'
    rw [List.getElem?_zipWith] at hi
    cases hai : a[i]? with
    | none => simp [hai] at hi
    | some p =>
      cases hbi : b[i]? with
      | none => simp [hai, hbi] at hi
      | some q =>
        simp only [hai, hbi, Option.some.injEq] at hi
        subst hi
        unfold ofBool
        split
        · exact Or.inr rfl
        · exact Or.inl rfl) (by rw [hp.length_eq, hl]; exact hlen)).1
  have key := npAverage_fraction a b (fun x y => decide (x = y)) (fun i => a[i]? = b[i]?) h (by
    intro i h1 h2; simp [h1, h2]) none rfl (by simpa [Spec.weight] using ha)
  simp only [npAverage] at key
  rw [if_neg (by simpa using hne)] at key
  unfold accuracy
  rw [hex, hp.sum_eq]
  congr 1
  have : (List.zipWith (fun x y => ofBool (decide (x = y))) a b).sum / ((List.zipWith (fun x y => ofBool (decide (x = y))) a b).length : ℚ) =
      Spec.fraction a.length (Spec.weight none) (fun i => a[i]? = b[i]?) := by simpa using key
  rw [hl] at this
  exact this

/-- **C97**, accuracy: a model that is right on more of the examples has the larger computed accuracy, as long as the rounding error is less
than half of `1 / n`. -/
theorem C97_accuracy_order {rnd : ℚ → ℚ} {N : Nat} (hN : Spec.ExactTo rnd N) {e : ℚ} (hrnd : Spec.Rounds rnd 1 e) {tree : List ℚ → Tree ℚ}
    (htree : Spec.AddsAll tree) {a b c : List Int} (hb : a.length = b.length) (hc : a.length = c.length) (hlen : a.length ≤ N)
    (he : 2 * e * a.length < 1)
    (hlt : Spec.fraction a.length (fun _ => 1) (fun i => a[i]? = b[i]?) < Spec.fraction a.length (fun _ => 1) (fun i => a[i]? = c[i]?)) :
    accuracy rnd tree a b < accuracy rnd tree a c := by
  have ha : a ≠ [] := by rintro rfl; simp [Spec.fraction] at hlt
  rw [C97_accuracy hN htree hb ha hlen, C97_accuracy hN htree hc ha hlen]
  rw [fraction_count, fraction_count] at hlt ⊢
  have hpos : (0 : ℚ) < a.length := by exact_mod_cast List.length_pos_of_ne_nil ha
  have bound : ∀ P : Nat → Prop, ∀ _ : DecidablePred P, |(((Finset.range a.length).filter P).card : ℚ) / a.length| ≤ 1 := by
    intro P _
    rw [abs_of_nonneg (by positivity)]
    refine div_le_one_of_le₀ ?_ hpos.le
    exact_mod_cast (Finset.card_filter_le _ _).trans (by simp)
  have r1 := abs_le.1 (hrnd _ (bound (fun i => a[i]? = b[i]?) inferInstance))
  have r2 := abs_le.1 (hrnd _ (bound (fun i => a[i]? = c[i]?) inferInstance))
  have hlt' := (div_lt_div_iff_of_pos_right hpos).1 hlt
  have hstep : (((Finset.range a.length).filter (fun i => a[i]? = b[i]?)).card : ℚ) + 1 ≤
      ((Finset.range a.length).filter (fun i => a[i]? = c[i]?)).card := by
    have : ((Finset.range a.length).filter (fun i => a[i]? = b[i]?)).card < ((Finset.range a.length).filter (fun i => a[i]? = c[i]?)).card := by
      exact_mod_cast hlt'
    exact_mod_cast this
  have hd := div_le_div_of_nonneg_right hstep hpos.le
  rw [add_div] at hd
  have h1 : 2 * e < 1 / a.length := by rw [lt_div_iff₀ hpos]; exact he
  linarith [r1.2, r2.1]

/-! ## Sizes -/

theorem round_near {x y d : ℚ} (h : |x - y| ≤ d) (ha : Spec.AwayFromHalves y d) : Spec.IsRound y (pyRound x) := by
  obtain ⟨h1, _⟩ := pyRound_isRound x
  obtain ⟨x1, x2⟩ := abs_le.1 h1
  obtain ⟨d1, d2⟩ := abs_le.1 h
  have up : y - pyRound x < 1 / 2 := by
    by_contra hc
    have := ha (pyRound x)
    rw [abs_of_nonneg (by linarith)] at this
    linarith
  have lo : -(1 / 2) < y - pyRound x := by
    by_contra hc
    have := ha (pyRound x - 1)
    push_cast at this
    rw [abs_of_nonpos (by linarith)] at this
    linarith
  have : |y - pyRound x| < 1 / 2 := abs_lt.2 ⟨lo, up⟩
  exact ⟨this.le, fun hh => absurd hh this.ne⟩

/-- **C97**, sizes: the size of the training set is the rounded one, unless `(1 - t) * n` is within the rounding errors of a half. -/
theorem C97_train_size {rnd : ℚ → ℚ} {B e t : ℚ} {n : Nat} (he : 0 ≤ e) (hrnd : Spec.Rounds rnd B e) (hB1 : 1 ≤ B) (hB : n * (1 + e) ≤ B)
    (ht : 0 ≤ t) (ht1 : t ≤ 1) (ha : Spec.AwayFromHalves ((1 - t) * n) ((n + 1) * e)) : Spec.IsRound ((1 - t) * n) (trainSize rnd t n) := by
  apply round_near _ ha
  obtain ⟨a1, a2⟩ := abs_le.1 (hrnd (1 - t) (by rw [abs_le]; constructor <;> linarith))
  have hn : (0 : ℚ) ≤ n := by positivity
  have m1 := mul_le_mul_of_nonneg_right a1 hn
  have m2 := mul_le_mul_of_nonneg_right a2 hn
  have hs : (1 - t) * n ≤ n := by nlinarith
  have hs0 : 0 ≤ (1 - t) * n := mul_nonneg (by linarith) hn
  obtain ⟨b1, b2⟩ := abs_le.1 (hrnd (rnd (1 - t) * n) (by rw [abs_le]; constructor <;> nlinarith))
  rw [abs_le]
  constructor <;> nlinarith

/-- **C97**, sizes: the size of a fraction of a set is the rounded one, unless `rate * n` is within the rounding error of a half. -/
theorem C97_fraction_size {rnd : ℚ → ℚ} {B e rate : ℚ} {n : Nat} (hrnd : Spec.Rounds rnd B e) (hB : n ≤ B)
    (hr : 0 ≤ rate) (hr1 : rate ≤ 1) (ha : Spec.AwayFromHalves (rate * n) e) : Spec.IsRound (rate * n) (fractionSize rnd rate n) := by
  apply round_near _ ha
  have hn : (0 : ℚ) ≤ n := by positivity
  refine hrnd _ ?_
  rw [abs_of_nonneg (mul_nonneg hr hn)]
  nlinarith

/-! ## A rounding, and a limit that is reached too late -/

section
variable {K : Type} [Field K] [LinearOrder K] [IsStrictOrderedRing K] [FloorRing K]

/-- Fixed point numbers meet the assumptions. -/
theorem grid_rounds {g : Nat} (hg : 0 < g) (B : K) : Spec.Rounds (Spec.grid g) B (1 / (2 * g)) := by
  intro x _
  have hg' : (0 : K) < g := by exact_mod_cast hg
  have h1 := Int.floor_le (x * g + 1 / 2 : K)
  have h2 := Int.lt_floor_add_one (x * g + 1 / 2 : K)
  unfold Spec.grid
  have e1 : ((⌊x * g + 1 / 2⌋ : Int) : K) / g - x = (⌊x * g + 1 / 2⌋ - x * g) / g := by field_simp
  rw [e1, abs_div, abs_of_pos hg', div_le_div_iff₀ hg' (by positivity)]
  have : |((⌊x * g + 1 / 2⌋ : Int) : K) - x * g| ≤ 1 / 2 := by rw [abs_le]; constructor <;> linarith
  nlinarith

theorem grid_monotone (g : Nat) : Monotone (Spec.grid g : K → K) := by
  intro x y h
  unfold Spec.grid
  have hg : (0 : K) ≤ g := by positivity
  refine div_le_div_of_nonneg_right ?_ hg
  exact_mod_cast Int.floor_mono (by nlinarith)

theorem grid_fixed {g : Nat} (hg : 0 < g) (k : Int) : Spec.grid g ((k : K) / g) = k / g := by
  have hg' : (g : K) ≠ 0 := by exact_mod_cast hg.ne'
  unfold Spec.grid
  rw [div_mul_cancel₀ _ hg']
  congr 2
  rw [Int.floor_eq_iff]
  constructor <;> linarith

theorem grid_exact {g : Nat} (hg : 0 < g) (N : Nat) : Spec.ExactTo (Spec.grid g : K → K) N := by
  intro n _
  have hg' : (g : K) ≠ 0 := by exact_mod_cast hg.ne'
  have := grid_fixed (K := K) hg (n * g)
  push_cast at this
  rwa [mul_div_assoc, div_self hg', mul_one] at this

theorem grid_costs {g : Nat} (hg : 0 < g) (q : Int) : ∀ (m : Nat) (k : Int),
    (List.replicate m ((q : K) / g)).foldl (fun acc c => Spec.grid g (acc + c)) ((k : K) / g) = ((k + m * q : Int) : K) / g
  | 0, k => by simp
  | m + 1, k => by
    rw [List.replicate_succ, List.foldl_cons]
    have : (k : K) / g + q / g = ((k + q : Int) : K) / g := by push_cast; ring
    rw [this, grid_fixed hg, grid_costs hg q m]
    push_cast
    ring

/-- **C97**, fails in general for `cost_limit`: `m` queries, each of cost `1 / m` (rounded, as every number written in a program is), need not
reach the limit 1, so that a further query is made. -/
theorem C97_cost_limit_violation {g m r q : Nat} (hgm : g = q * m + r) (hr : 0 < r) (hrm : 2 * r < m) :
    costReached (Spec.grid g : K → K) 1 (List.replicate m (Spec.grid g (1 / (m : K)))) = false := by
  have hg : 0 < g := by omega
  have hg' : (0 : K) < g := by exact_mod_cast hg
  have hm' : (0 : K) < m := by exact_mod_cast (by omega : 0 < m)
  have hc : Spec.grid g (1 / (m : K)) = ((q : Int) : K) / g := by
    unfold Spec.grid
    congr 2
    rw [Int.floor_eq_iff]
    have e1 : 1 / (m : K) * g = q + r / m := by rw [hgm]; push_cast; field_simp
    rw [e1]
    have h2 : (r : K) / m < 1 / 2 := by
      rw [div_lt_div_iff₀ hm' (by norm_num)]
      exact_mod_cast (by omega : r * 2 < 1 * m)
    have h3 : (0 : K) ≤ (r : K) / m := by positivity
    push_cast
    constructor <;> linarith
  have := grid_costs (K := K) hg q m 0
  unfold costReached costInAll
  rw [hc]
  rw [Int.cast_zero, zero_div] at this
  rw [this]
  refine decide_eq_false (not_le.2 ?_)
  rw [div_lt_one hg']
  push_cast
  rw [hgm]
  push_cast
  have : (0 : K) < r := by exact_mod_cast hr
  nlinarith

end

example : costReached (Spec.grid 1000 : ℚ → ℚ) 1 (List.replicate 3 (Spec.grid 1000 (1 / 3))) = false := by decide +kernel

example : uncertainty (Spec.grid 10 : ℚ → ℚ) (fun x => x) 0 (fun l => .leaf (l.getD 0 0)) argsortBy .leastConfident (.list [7, 8, 9]) 2
    [[11 / 100, 89 / 100], [42 / 100, 58 / 100], [43 / 100, 57 / 100]] 1 = .ok [8] ∨
  uncertainty (Spec.grid 10 : ℚ → ℚ) (fun x => x) 0 (fun l => .leaf (l.getD 0 0)) argsortBy .leastConfident (.list [7, 8, 9]) 2
    [[11 / 100, 89 / 100], [42 / 100, 58 / 100], [43 / 100, 57 / 100]] 1 = .ok [9] := by decide +kernel

/-- The hypotheses can be met: an order of adding. -/
def leftTree {K : Type} [Field K] : List K → Tree K
  | [] => .leaf 0
  | [x] => .leaf x
  | x :: y :: l => .node (.leaf x) (leftTree (y :: l))

theorem leftTree_all {K : Type} [Field K] : Spec.AddsAll (leftTree (K := K)) := by
  intro l hl
  have : ∀ l : List K, l ≠ [] → (leftTree l).leaves = l := by
    intro l
    induction l with
    | nil => intro h; exact absurd rfl h
    | cons x l ih =>
      intro _
      cases l with
      | nil => rfl
      | cons y l => simp [leftTree, Tree.leaves, ih]
  rw [this l hl]

/-- The assumptions for the entropy hold for numbers with ten decimal places and an exact logarithm. -/
example : (0 : ℝ) ≤ 1 / (2 * (10000000000 : Nat)) ∧ Spec.Rounds (Spec.grid 10000000000 : ℝ → ℝ) 40 (1 / (2 * (10000000000 : Nat))) ∧
    (1 / (2 * (10000000000 : Nat)) : ℝ) ≤ 1 / 4000000000 ∧ (∀ w : ℝ, 0 < w → w ≤ 2 → |Real.log w - Real.log w| ≤ 0) ∧
    |(1 / 1000000000 : ℝ) - 1 / 1000000000| ≤ 1 / (2 * (10000000000 : Nat)) ∧ Spec.AddsAll (leftTree (K := ℝ)) ∧ ((10 : Nat) : ℝ) * 4 ≤ 40 :=
  ⟨by positivity, grid_rounds (by norm_num) 40, by norm_num, by simp, by simp, leftTree_all, by norm_num⟩

example : accuracy (Spec.grid 100) leftTree [1, 0, 1] [1, 1, 1] = 67 / 100 := by decide +kernel

example : accuracy (Spec.grid 100) leftTree [1, 0, 1] [1, 1, 1] = Spec.grid 100 (Spec.fraction 3 (fun _ => 1) (fun i => [1, 0, (1 : Int)][i]? = [1, 1, (1 : Int)][i]?)) :=
  C97_accuracy (grid_exact (by norm_num) 3) leftTree_all rfl (by simp) (by simp)

example : Spec.AwayFromHalves ((1 - 3 / 10) * (9 : Nat)) ((9 + 1) * (1 / (2 * (1000 : Nat)))) := by
  intro m
  push_cast
  rcases le_or_gt m 5 with h | h
  · have : (m : ℚ) ≤ 5 := by exact_mod_cast h
    rw [abs_of_nonneg (by linarith)]
    linarith
  · have : (6 : ℚ) ≤ m := by exact_mod_cast h
    rw [abs_of_nonpos (by linarith)]
    linarith

example : trainSize (Spec.grid 1000) (3 / 10) 9 = 6 := by decide +kernel

example : percentReached (Spec.grid 1000 : ℚ → ℚ) (Spec.grid 1000 (1 / 3)) 9 3 = true := by decide +kernel

end Alipy.Rounding
