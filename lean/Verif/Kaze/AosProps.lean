import Mathlib.Data.Finset.Max
import Verif.Kaze.Aos
import Verif.Kaze.DiffusionProps

/-!
# Property C92: the implicit diffusion step
-/

namespace Verif.Kaze.Diffusion

open Verif (Outcome)
open Finset (range sum_congr)

/-! ## The linear system -/

/-- The product of the tridiagonal matrix with diagonal `a` and side diagonals `b` with `x`, in row `i` of `n`. -/
noncomputable def triMul (a b x : Nat → ℝ) (n i : Nat) : ℝ :=
  (if i = 0 then 0 else b (i - 1) * x (i - 1)) + a i * x i + (if i + 1 < n then b i * x (i + 1) else 0)

theorem thomas_last (a b d : Nat → ℝ) {n : Nat} (h : pivot a b (n - 1) ≠ 0) :
    pivot a b (n - 1) * thomas a b d n (n - 1) = forward a b d (n - 1) := by
  unfold thomas
  rw [Nat.sub_self, backward]
  field_simp

theorem thomas_next (a b d : Nat → ℝ) {n i : Nat} (hi : i + 1 < n) (h : pivot a b i ≠ 0) :
    pivot a b i * thomas a b d n i + b i * thomas a b d n (i + 1) = forward a b d i := by
  unfold thomas
  have e : n - 1 - i = (n - 1 - (i + 1)) + 1 := by omega
  have e2 : n - 2 - (n - 1 - (i + 1)) = i := by omega
  rw [e, backward, e2]
  field_simp
  ring

/-- C92: the algorithm of Thomas solves the system, if no pivot is zero. -/
theorem thomas_solves (a b d : Nat → ℝ) {n : Nat} (h : ∀ k, k < n → pivot a b k ≠ 0) {i : Nat} (hi : i < n) :
    triMul a b (thomas a b d n) n i = d i := by
  -- the upper triangular system
  have up : ∀ k, k < n → pivot a b k * thomas a b d n k + (if k + 1 < n then b k * thomas a b d n (k + 1) else 0) =
      forward a b d k := by
    intro k hk
    split
    · rename_i h1
      exact thomas_next a b d h1 (h k hk)
    · have : k = n - 1 := by omega
      subst this
      rw [add_zero]
      exact thomas_last a b d (h _ hk)
  unfold triMul
  rcases i with _ | i
  · have := up 0 hi
    simp only [if_true, zero_add]
    simpa [pivot, forward] using this
  · have h1 := up (i + 1) hi
    have h2 := up i (by omega)
    rw [if_pos hi] at h2
    have hp := h i (by omega)
    simp only [Nat.add_one_ne_zero, if_false, Nat.add_sub_cancel]
    rw [pivot, forward] at h1
    have h3 : b i / pivot a b i * (pivot a b i * thomas a b d n i) = b i * thomas a b d n i := by field_simp
    have h4 : b i / pivot a b i * (pivot a b i * thomas a b d n i + b i * thomas a b d n (i + 1)) =
        b i / pivot a b i * forward a b d i := by rw [h2]
    rw [mul_add, h3] at h4
    linarith

/-- C92: the pivots of a diffusion are at least one. -/
theorem pivot_ge {q : Nat → ℝ} {s : ℝ} {n : Nat} (hn : 2 ≤ n) (hs : 0 ≤ s) (hq : ∀ k, k + 1 < n → 0 ≤ q k) :
    ∀ k, k < n → 1 + (if k + 1 < n then s * q k else 0) ≤ pivot (diag q s n) (fun k => -s * q k) k
  | 0, h => by
    rw [if_pos (by omega)]
    simp [pivot, diag]
  | k + 1, h => by
    have ih := pivot_ge hn hs hq k (by omega)
    rw [if_pos h] at ih
    have hk := mul_nonneg hs (hq k h)
    set p := pivot (diag q s n) (fun k => -s * q k) k with hp
    have hp0 : 0 < p := by linarith
    rw [pivot, ← hp]
    have hd : -s * q k / p * (-s * q k) ≤ s * q k := by
      rw [div_mul_eq_mul_div, div_le_iff₀ hp0]
      nlinarith
    have hdiag : diag q s n (k + 1) = 1 + s * q k + (if k + 1 + 1 < n then s * q (k + 1) else 0) := by
      unfold diag
      rw [if_neg (by omega)]
      split
      · rw [if_neg (by omega), show n - 2 = k by omega]
        ring
      · rw [if_pos (by omega), Nat.add_sub_cancel]
        ring
    rw [hdiag]
    linarith

/-- One line of the image after an implicit step, seen from the side: what is left and what has flown out add up to what
there was. -/
theorem aos_line {q d : Nat → ℝ} {s : ℝ} {n : Nat} (hn : 2 ≤ n) (hs : 0 ≤ s) (hq : ∀ k, k + 1 < n → 0 ≤ q k) {i : Nat}
    (hi : i < n) :
    thomas (diag q s n) (fun k => -s * q k) d n i +
      s * ((if i = 0 then 0 else q (i - 1) * (thomas (diag q s n) (fun k => -s * q k) d n i -
          thomas (diag q s n) (fun k => -s * q k) d n (i - 1))) +
        (if i + 1 < n then q i * (thomas (diag q s n) (fun k => -s * q k) d n i -
          thomas (diag q s n) (fun k => -s * q k) d n (i + 1)) else 0)) = d i := by
  have hp : ∀ k, k < n → pivot (diag q s n) (fun k => -s * q k) k ≠ 0 := by
    intro k hk
    have := pivot_ge hn hs hq k hk
    have h0 : 0 ≤ (if k + 1 < n then s * q k else 0) := by
      split
      · rename_i h1
        exact mul_nonneg hs (hq k h1)
      · exact le_rfl
    intro e
    rw [e] at this
    linarith
  have h := thomas_solves _ _ d hp hi
  set x := thomas (diag q s n) (fun k => -s * q k) d n
  rw [← h]
  unfold triMul diag
  by_cases h0 : i = 0
  · subst h0
    rw [if_pos rfl, if_pos rfl, if_pos rfl, if_pos (by omega), if_pos (by omega)]
    ring
  · rw [if_neg h0, if_neg h0, if_neg h0]
    by_cases h1 : i = n - 1
    · rw [if_pos h1, if_neg (by omega), if_neg (by omega), show n - 2 = i - 1 by omega]
      ring
    · rw [if_neg h1, if_pos (by omega), if_pos (by omega)]
      ring

/-- A line stays in its range. -/
theorem line_range {q d : Nat → ℝ} {s : ℝ} {n : Nat} (hn : 2 ≤ n) (hs : 0 ≤ s) (hq : ∀ k, k + 1 < n → 0 ≤ q k)
    {lo hi : ℝ} (hd : ∀ k, k < n → lo ≤ d k ∧ d k ≤ hi) {i : Nat} (hin : i < n) :
    lo ≤ thomas (diag q s n) (fun k => -s * q k) d n i ∧ thomas (diag q s n) (fun k => -s * q k) d n i ≤ hi := by
  have line := fun (i : Nat) (hi : i < n) => aos_line (d := d) hn hs hq hi
  set x := thomas (diag q s n) (fun k => -s * q k) d n
  have hne : (range n).Nonempty := ⟨0, by simp; omega⟩
  constructor
  · obtain ⟨j, hj, hmin⟩ := Finset.exists_min_image (range n) x hne
    rw [Finset.mem_range] at hj
    have hl := line j hj
    have : (if j = 0 then 0 else q (j - 1) * (x j - x (j - 1))) ≤ 0 := by
      split
      · exact le_rfl
      · refine mul_nonpos_of_nonneg_of_nonpos (hq _ (by omega)) ?_
        linarith [hmin (j - 1) (by simp; omega)]
    have : (if j + 1 < n then q j * (x j - x (j + 1)) else 0) ≤ 0 := by
      split
      · rename_i h1
        refine mul_nonpos_of_nonneg_of_nonpos (hq _ h1) ?_
        linarith [hmin (j + 1) (by simp; omega)]
      · exact le_rfl
    have := mul_nonpos_of_nonneg_of_nonpos hs (show (if j = 0 then 0 else q (j - 1) * (x j - x (j - 1))) +
      (if j + 1 < n then q j * (x j - x (j + 1)) else 0) ≤ 0 by linarith)
    have := hmin i (by simpa using hin)
    linarith [(hd j hj).1]
  · obtain ⟨j, hj, hmax⟩ := Finset.exists_max_image (range n) x hne
    rw [Finset.mem_range] at hj
    have hl := line j hj
    have : 0 ≤ (if j = 0 then 0 else q (j - 1) * (x j - x (j - 1))) := by
      split
      · exact le_rfl
      · refine mul_nonneg (hq _ (by omega)) ?_
        linarith [hmax (j - 1) (by simp; omega)]
    have : 0 ≤ (if j + 1 < n then q j * (x j - x (j + 1)) else 0) := by
      split
      · rename_i h1
        refine mul_nonneg (hq _ h1) ?_
        linarith [hmax (j + 1) (by simp; omega)]
      · exact le_rfl
    have := mul_nonneg hs (show 0 ≤ (if j = 0 then 0 else q (j - 1) * (x j - x (j - 1))) +
      (if j + 1 < n then q j * (x j - x (j + 1)) else 0) by linarith)
    have := hmax i (by simpa using hin)
    linarith [(hd j hj).2]

/-- Summation by parts for a line. -/
theorem line_parts {q d : Nat → ℝ} {s : ℝ} {n : Nat} (hn : 2 ≤ n) (hs : 0 ≤ s) (hq : ∀ k, k + 1 < n → 0 ≤ q k)
    (K : Nat → ℝ) :
    ∑ i ∈ range n, thomas (diag q s n) (fun k => -s * q k) d n i * K i +
      s * ∑ i ∈ range (n - 1), q i * (thomas (diag q s n) (fun k => -s * q k) d n (i + 1) -
        thomas (diag q s n) (fun k => -s * q k) d n i) * (K (i + 1) - K i) = ∑ i ∈ range n, d i * K i := by
  have line := fun (i : Nat) (hi : i < n) => aos_line (d := d) hn hs hq hi
  set x := thomas (diag q s n) (fun k => -s * q k) d n
  let F : Nat → ℝ := fun i => if i + 1 < n then q i * (x (i + 1) - x i) else 0
  have e : ∀ i ∈ range n, d i * K i = x i * K i - s * ((F i - back F i) * K i) := by
    intro i hi
    rw [Finset.mem_range] at hi
    rw [← line i hi]
    simp only [F, back]
    by_cases h0 : i = 0
    · subst h0
      rw [if_pos rfl, if_pos rfl]
      split <;> ring
    · have h1 : i - 1 + 1 < n := by omega
      rw [if_neg h0, if_neg h0, if_pos h1, Nat.sub_add_cancel (by omega)]
      split <;> ring
  rw [sum_congr rfl e, Finset.sum_sub_distrib, ← Finset.mul_sum]
  obtain ⟨m, rfl⟩ : ∃ m, n = m + 1 := ⟨n - 1, by omega⟩
  rw [sum_back F K m]
  have : F m = 0 := by simp [F]
  rw [this, Nat.add_sub_cancel]
  have e2 : ∑ i ∈ range m, F i * (K (i + 1) - K i) = ∑ i ∈ range m, q i * (x (i + 1) - x i) * (K (i + 1) - K i) := by
    refine sum_congr rfl fun i hi => ?_
    rw [Finset.mem_range] at hi
    simp only [F]
    rw [if_pos (by omega)]
  rw [e2]
  ring

theorem line_total {q d : Nat → ℝ} {s : ℝ} {n : Nat} (hn : 2 ≤ n) (hs : 0 ≤ s) (hq : ∀ k, k + 1 < n → 0 ≤ q k) :
    ∑ i ∈ range n, thomas (diag q s n) (fun k => -s * q k) d n i = ∑ i ∈ range n, d i := by
  have := line_parts (d := d) hn hs hq fun _ => 1
  simpa using this

theorem line_energy {q d : Nat → ℝ} {s : ℝ} {n : Nat} (hn : 2 ≤ n) (hs : 0 ≤ s) (hq : ∀ k, k + 1 < n → 0 ≤ q k) :
    ∑ i ∈ range n, thomas (diag q s n) (fun k => -s * q k) d n i ^ 2 ≤ ∑ i ∈ range n, d i ^ 2 := by
  have h := line_parts (d := d) hn hs hq (thomas (diag q s n) (fun k => -s * q k) d n)
  set x := thomas (diag q s n) (fun k => -s * q k) d n
  have h1 : 0 ≤ s * ∑ i ∈ range (n - 1), q i * (x (i + 1) - x i) * (x (i + 1) - x i) := by
    refine mul_nonneg hs (Finset.sum_nonneg fun i hi => ?_)
    rw [Finset.mem_range] at hi
    rw [mul_assoc]
    exact mul_nonneg (hq i (by omega)) (mul_self_nonneg _)
  have h2 : ∑ i ∈ range n, d i * x i ≤ ∑ i ∈ range n, (1 / 2 * d i ^ 2 + 1 / 2 * x i ^ 2) :=
    Finset.sum_le_sum fun i _ => by nlinarith [sq_nonneg (d i - x i)]
  rw [Finset.sum_add_distrib, ← Finset.mul_sum, ← Finset.mul_sum] at h2
  have h3 : ∑ i ∈ range n, x i * x i = ∑ i ∈ range n, x i ^ 2 := sum_congr rfl fun i _ => by ring
  linarith

/-! ## The step -/

theorem aosStep_px {c : Nat → Nat → ℝ} {s : ℝ} {L L' : Img} (h : aosStep c s L = .ok L') :
    2 ≤ L.rows ∧ L.cols = L.rows ∧ L' = { L with px := fun i j =>
      1 / 2 * (aosRows L.rows c s L.px i j + aosCols L.cols c s L.px i j) } := by
  unfold aosStep at h
  split at h
  · exact absurd h (by simp)
  split at h
  · exact absurd h (by simp)
  split at h
  · exact absurd h (by simp)
  · injection h with h
    exact ⟨by omega, by omega, h.symm⟩

/-- C92: on square images the implicit step works, for every step length. -/
theorem aosStep_ok_partial (c : Nat → Nat → ℝ) (s : ℝ) (L : Img) (h2 : 2 ≤ L.rows) (hsq : L.cols = L.rows) :
    ∃ L', aosStep c s L = .ok L' := by
  unfold aosStep
  rw [if_neg (by omega), if_neg (by omega), if_neg (by omega)]
  exact ⟨_, rfl⟩

/-- C92: each of the two halves of the result solves its system: along rows (or columns), what is left in a pixel and
what has flown to its neighbours is what there was. -/
theorem aosStep_solves {c : Nat → Nat → ℝ} {s : ℝ} {L L' : Img} (h : aosStep c s L = .ok L') (hs : 0 ≤ s)
    (hc : ∀ y x, y < L.rows → x < L.cols → 0 ≤ c y x) :
    ∃ U V : Nat → Nat → ℝ,
      (∀ y x, y < L.rows → x < L.cols → L'.px y x = (U y x + V y x) / 2) ∧
      (∀ y x, y < L.rows → x < L.cols → U y x - L.px y x =
        s * ((if y + 1 < L.rows then (c y x + c (y + 1) x) * (U (y + 1) x - U y x) else 0) +
          (if y = 0 then 0 else (c (y - 1) x + c y x) * (U (y - 1) x - U y x)))) ∧
      (∀ y x, y < L.rows → x < L.cols → V y x - L.px y x =
        s * ((if x + 1 < L.cols then (c y x + c y (x + 1)) * (V y (x + 1) - V y x) else 0) +
          (if x = 0 then 0 else (c y (x - 1) + c y x) * (V y (x - 1) - V y x)))) := by
  obtain ⟨h2, hsq, rfl⟩ := aosStep_px h
  refine ⟨aosRows L.rows c s L.px, aosCols L.cols c s L.px, fun y x _ _ => by simp only; ring, fun y x hy hx => ?_,
    fun y x hy hx => ?_⟩
  · have := aos_line (d := fun k => L.px k x) (q := fun k => c k x + c (k + 1) x) h2 hs
      (fun k hk => add_nonneg (hc k x (by omega) hx) (hc (k + 1) x (by omega) hx)) hy
    change aosRows L.rows c s L.px y x + s * ((if y = 0 then 0 else (c (y - 1) x + c (y - 1 + 1) x) *
      (aosRows L.rows c s L.px y x - aosRows L.rows c s L.px (y - 1) x)) + (if y + 1 < L.rows then (c y x + c (y + 1) x) *
      (aosRows L.rows c s L.px y x - aosRows L.rows c s L.px (y + 1) x) else 0)) = L.px y x at this
    rw [← this]
    by_cases h0 : y = 0
    · rw [if_pos h0, if_pos h0]
      split <;> ring
    · rw [if_neg h0, if_neg h0, Nat.sub_add_cancel (by omega)]
      split <;> ring
  · have := aos_line (d := fun k => L.px y k) (q := fun k => c y k + c y (k + 1)) (by omega) hs
      (fun k hk => add_nonneg (hc y k hy (by omega)) (hc y (k + 1) hy (by omega))) hx
    change aosCols L.cols c s L.px y x + s * ((if x = 0 then 0 else (c y (x - 1) + c y (x - 1 + 1)) *
      (aosCols L.cols c s L.px y x - aosCols L.cols c s L.px y (x - 1))) + (if x + 1 < L.cols then (c y x + c y (x + 1)) *
      (aosCols L.cols c s L.px y x - aosCols L.cols c s L.px y (x + 1)) else 0)) = L.px y x at this
    rw [← this]
    by_cases h0 : x = 0
    · rw [if_pos h0, if_pos h0]
      split <;> ring
    · rw [if_neg h0, if_neg h0, Nat.sub_add_cancel (by omega)]
      split <;> ring

/-- C92: the implicit step keeps the sum of the grey values. -/
theorem aosStep_total {c : Nat → Nat → ℝ} {s : ℝ} {L L' : Img} (h : aosStep c s L = .ok L') (hs : 0 ≤ s)
    (hc : ∀ y x, y < L.rows → x < L.cols → 0 ≤ c y x) : total L' = total L := by
  obtain ⟨h2, hsq, rfl⟩ := aosStep_px h
  unfold total
  simp only [← Finset.mul_sum, Finset.sum_add_distrib]
  have e1 : ∑ y ∈ range L.rows, ∑ x ∈ range L.cols, aosCols L.cols c s L.px y x =
      ∑ y ∈ range L.rows, ∑ x ∈ range L.cols, L.px y x := by
    refine sum_congr rfl fun y hy => ?_
    rw [Finset.mem_range] at hy
    exact line_total (d := fun k => L.px y k) (q := fun k => c y k + c y (k + 1)) (by omega) hs
      (fun k hk => add_nonneg (hc y k hy (by omega)) (hc y (k + 1) hy (by omega)))
  have e2 : ∑ y ∈ range L.rows, ∑ x ∈ range L.cols, aosRows L.rows c s L.px y x =
      ∑ y ∈ range L.rows, ∑ x ∈ range L.cols, L.px y x := by
    rw [Finset.sum_comm, Finset.sum_comm (s := range L.rows)]
    refine sum_congr rfl fun x hx => ?_
    rw [Finset.mem_range] at hx
    exact line_total (d := fun k => L.px k x) (q := fun k => c k x + c (k + 1) x) (by omega) hs
      (fun k hk => add_nonneg (hc k x (by omega) hx) (hc (k + 1) x (by omega) hx))
  rw [e1, e2]
  ring

/-- C92: the implicit step stays in the range of the image, for every step length. -/
theorem aosStep_range {c : Nat → Nat → ℝ} {s : ℝ} {L L' : Img} (h : aosStep c s L = .ok L') (hs : 0 ≤ s)
    (hc : ∀ y x, y < L.rows → x < L.cols → 0 ≤ c y x) {lo hi : ℝ}
    (hL : ∀ y x, y < L.rows → x < L.cols → lo ≤ L.px y x ∧ L.px y x ≤ hi) :
    L'.rows = L.rows ∧ L'.cols = L.cols ∧ ∀ y x, y < L'.rows → x < L'.cols → lo ≤ L'.px y x ∧ L'.px y x ≤ hi := by
  obtain ⟨h2, hsq, rfl⟩ := aosStep_px h
  refine ⟨rfl, rfl, fun y x hy hx => ?_⟩
  simp only at hy hx ⊢
  have a := line_range (d := fun k => L.px y k) (q := fun k => c y k + c y (k + 1)) (by omega) hs
      (fun k hk => add_nonneg (hc y k hy (by omega)) (hc y (k + 1) hy (by omega))) (fun k hk => hL y k hy hk) hx
  have b := line_range (d := fun k => L.px k x) (q := fun k => c k x + c (k + 1) x) (by omega) hs
      (fun k hk => add_nonneg (hc k x (by omega) hx) (hc (k + 1) x (by omega) hx)) (fun k hk => hL k x hk hx) hy
  change lo ≤ aosCols L.cols c s L.px y x ∧ aosCols L.cols c s L.px y x ≤ hi at a
  change lo ≤ aosRows L.rows c s L.px y x ∧ aosRows L.rows c s L.px y x ≤ hi at b
  constructor <;> linarith [a.1, a.2, b.1, b.2]

/-- C92: the implicit step does not enlarge the variance. -/
theorem aosStep_spread {c : Nat → Nat → ℝ} {s : ℝ} {L L' : Img} (h : aosStep c s L = .ok L') (hs : 0 ≤ s)
    (hc : ∀ y x, y < L.rows → x < L.cols → 0 ≤ c y x) : spread L' ≤ spread L := by
  have ht := aosStep_total h hs hc
  obtain ⟨h2, hsq, rfl⟩ := aosStep_px h
  rw [spread_eq (by simp; omega) (by simp; omega), spread_eq (by omega) (by omega), ht]
  simp only
  have e1 : ∑ y ∈ range L.rows, ∑ x ∈ range L.cols, aosCols L.cols c s L.px y x ^ 2 ≤ energy L := by
    refine Finset.sum_le_sum fun y hy => ?_
    rw [Finset.mem_range] at hy
    exact line_energy (d := fun k => L.px y k) (q := fun k => c y k + c y (k + 1)) (by omega) hs
      (fun k hk => add_nonneg (hc y k hy (by omega)) (hc y (k + 1) hy (by omega)))
  have e2 : ∑ y ∈ range L.rows, ∑ x ∈ range L.cols, aosRows L.rows c s L.px y x ^ 2 ≤ energy L := by
    unfold energy
    rw [Finset.sum_comm, Finset.sum_comm (s := range L.rows) (f := fun y x => L.px y x ^ 2)]
    refine Finset.sum_le_sum fun x hx => ?_
    rw [Finset.mem_range] at hx
    exact line_energy (d := fun k => L.px k x) (q := fun k => c k x + c (k + 1) x) (by omega) hs
      (fun k hk => add_nonneg (hc k x (by omega) hx) (hc (k + 1) x (by omega) hx))
  have e3 : energy { L with px := fun i j => 1 / 2 * (aosRows L.rows c s L.px i j + aosCols L.cols c s L.px i j) } ≤
      1 / 2 * ∑ y ∈ range L.rows, ∑ x ∈ range L.cols, aosRows L.rows c s L.px y x ^ 2 +
      1 / 2 * ∑ y ∈ range L.rows, ∑ x ∈ range L.cols, aosCols L.cols c s L.px y x ^ 2 := by
    unfold energy
    simp only [Finset.mul_sum]
    rw [← Finset.sum_add_distrib]
    refine Finset.sum_le_sum fun y _ => ?_
    rw [← Finset.sum_add_distrib]
    refine Finset.sum_le_sum fun x _ => ?_
    nlinarith [sq_nonneg (aosRows L.rows c s L.px y x - aosCols L.cols c s L.px y x)]
  linarith

/-- C92: on images that are not square the implicit step never works. -/
theorem aosStep_wide (c : Nat → Nat → ℝ) (s : ℝ) (L : Img) (h : L.cols ≠ L.rows) :
    aosStep c s L = .ub ∨ aosStep c s L = .exc := by
  unfold aosStep
  split
  · exact .inl rfl
  split
  · exact .inl rfl
  · rw [if_pos (by omega)]
    exact .inr rfl

/-- C92, refuted: for an image of 480 rows and 640 columns the step writes outside its buffers. -/
theorem aosStep_refuted : aosStep (fun _ _ => 1) 1 ⟨480, 640, fun _ _ => 1 / 2⟩ = .ub := by
  unfold aosStep
  rw [if_neg (by norm_num), if_pos (by norm_num)]

/-- C92, refuted: for an image of 640 rows and 480 columns the step ends with an exception. -/
theorem aosStep_refuted_tall : aosStep (fun _ _ => 1) 1 ⟨640, 480, fun _ _ => 1 / 2⟩ = .exc := by
  unfold aosStep
  rw [if_neg (by norm_num), if_neg (by norm_num), if_pos (by norm_num)]

example : ∃ L', aosStep (fun _ _ => 1 / 2) 1 ⟨2, 2, fun y _ => if y = 0 then 0 else 3⟩ = .ok L' ∧ L'.px 0 0 = 1 / 2 ∧
    total L' = 6 := by
  obtain ⟨L', h⟩ := aosStep_ok_partial (fun _ _ => 1 / 2) 1 ⟨2, 2, fun y _ => if y = 0 then 0 else 3⟩ (by norm_num) rfl
  refine ⟨L', h, ?_, ?_⟩
  · obtain ⟨-, -, rfl⟩ := aosStep_px h
    simp [aosRows, aosCols, thomas, backward, forward, pivot, diag]
    norm_num
  · rw [aosStep_total h (by norm_num) (by intros; norm_num)]
    simp [total, Finset.sum_range_succ]
    norm_num

end Verif.Kaze.Diffusion
