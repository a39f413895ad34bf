import Mathlib.Analysis.InnerProductSpace.Spectrum
import Mathlib.Analysis.InnerProductSpace.PiL2
import Mathlib.Algebra.BigOperators.Group.Finset.Basic
import Mathlib.Algebra.Order.BigOperators.Group.Finset
import Mathlib.Tactic.FieldSimp
import Mathlib.Tactic.LinearCombination
import Verif.Kaze.Diffusion
import Verif.Kaze.FedProps

/-!
# Property C91: nonlinear diffusion keeps the mean, the range and the energy of an image
-/

namespace Verif.Kaze.Diffusion

open Verif (Outcome)
open Finset (range sum_congr)

/-! ## Conductivities -/

/-- C91: with a contrast factor that is not zero, all conductivities are numbers from 0 to 1. -/
theorem conductivity_range_partial (kind : Kind) {k g : ℝ} (hk : k ≠ 0) (hg : 0 ≤ g) :
    ∃ v, conductivity kind k g = some v ∧ 0 ≤ v ∧ v ≤ 1 := by
  have hp : 0 < 1 / (k * k) := one_div_pos.2 (mul_self_pos.2 hk)
  have hpg : 0 ≤ 1 / (k * k) * g := by positivity
  unfold conductivity
  rw [if_neg hk]
  cases kind with
  | pmG1 =>
    refine ⟨_, rfl, (Real.exp_pos _).le, ?_⟩
    rw [Real.exp_le_one_iff]
    linarith
  | pmG2 =>
    refine ⟨_, rfl, by positivity, ?_⟩
    rw [div_le_one (by positivity)]
    linarith
  | weickert =>
    simp only
    split
    · exact ⟨1, rfl, by norm_num, le_rfl⟩
    · rename_i h
      have hd : 0 < 1 / (k * k) * g := lt_of_le_of_ne hpg (Ne.symm h)
      refine ⟨_, rfl, ?_, ?_⟩
      · have : Real.exp (-(3315 / 1000) / (1 / (k * k) * g * (1 / (k * k) * g) * (1 / (k * k) * g) * (1 / (k * k) * g))) ≤ 1 := by
          rw [Real.exp_le_one_iff]
          exact div_nonpos_of_nonpos_of_nonneg (by norm_num) (by positivity)
        linarith
      · linarith [Real.exp_pos (-(3315 / 1000) / (1 / (k * k) * g * (1 / (k * k) * g) * (1 / (k * k) * g) * (1 / (k * k) * g)))]
  | charbonnier =>
    refine ⟨_, rfl, by positivity, ?_⟩
    rw [div_le_one (Real.sqrt_pos.2 (by linarith)), Real.one_le_sqrt]
    linarith

/-- C91: no place is insulated altogether: every conductivity is positive. -/
theorem conductivity_pos (kind : Kind) {k g v : ℝ} (hk : k ≠ 0) (hg : 0 ≤ g) (h : conductivity kind k g = some v) :
    0 < v := by
  have hp : 0 < 1 / (k * k) := one_div_pos.2 (mul_self_pos.2 hk)
  have hpg : 0 ≤ 1 / (k * k) * g := by positivity
  unfold conductivity at h
  rw [if_neg hk] at h
  cases kind with
  | pmG1 =>
    injection h with h
    rw [← h]
    exact Real.exp_pos _
  | pmG2 =>
    injection h with h
    rw [← h]
    positivity
  | weickert =>
    simp only at h
    split at h
    · injection h with h
      rw [← h]
      norm_num
    · rename_i hn
      have hd : 0 < 1 / (k * k) * g := lt_of_le_of_ne hpg (Ne.symm hn)
      injection h with h
      rw [← h]
      rw [sub_pos, Real.exp_lt_one_iff]
      exact div_neg_of_neg_of_pos (by norm_num) (by positivity)
  | charbonnier =>
    injection h with h
    rw [← h]
    have : 0 < Real.sqrt (1 + 1 / (k * k) * g) := Real.sqrt_pos.2 (by linarith)
    positivity

example : ∃ v, conductivity .pmG2 1 3 = some v ∧ 0 < v := by
  obtain ⟨v, h, -⟩ := conductivity_range_partial .pmG2 (k := 1) (g := 3) one_ne_zero (by norm_num)
  exact ⟨v, h, conductivity_pos .pmG2 one_ne_zero (by norm_num) h⟩

/-- C91: flat places conduct best. -/
theorem conductivity_flat (kind : Kind) {k : ℝ} (hk : k ≠ 0) : conductivity kind k 0 = some 1 := by
  unfold conductivity
  rw [if_neg hk]
  cases kind <;> simp

/-- C91: a stronger gradient conducts no better. -/
theorem conductivity_antitone (kind : Kind) {k g g' v v' : ℝ} (hk : k ≠ 0) (hg : 0 ≤ g) (hgg : g ≤ g')
    (h : conductivity kind k g = some v) (h' : conductivity kind k g' = some v') : v' ≤ v := by
  have hp : 0 < 1 / (k * k) := one_div_pos.2 (mul_self_pos.2 hk)
  have hm : 1 / (k * k) * g ≤ 1 / (k * k) * g' := mul_le_mul_of_nonneg_left hgg hp.le
  have hpg : 0 ≤ 1 / (k * k) * g := by positivity
  obtain ⟨w, hw, -, hw1⟩ := conductivity_range_partial kind hk (hg.trans hgg)
  rw [h'] at hw
  obtain rfl : v' = w := by simpa using hw
  unfold conductivity at h h'
  rw [if_neg hk] at h h'
  cases kind with
  | pmG1 =>
    simp only [Option.some.injEq] at h h'
    rw [← h, ← h']
    exact Real.exp_le_exp.2 (by linarith)
  | pmG2 =>
    simp only [Option.some.injEq] at h h'
    rw [← h, ← h']
    exact one_div_le_one_div_of_le (by linarith) (by linarith)
  | weickert =>
    simp only at h h'
    set a := 1 / (k * k) * g
    set b := 1 / (k * k) * g'
    by_cases ha : a = 0
    · rw [if_pos ha] at h
      simp only [Option.some.injEq] at h
      rw [← h]
      exact hw1
    · have ha0 : 0 < a := lt_of_le_of_ne hpg (Ne.symm ha)
      have hb0 : 0 < b := lt_of_lt_of_le ha0 hm
      rw [if_neg ha] at h
      rw [if_neg hb0.ne'] at h'
      simp only [Option.some.injEq] at h h'
      rw [← h, ← h']
      have : -(3315 / 1000) / (a * a * a * a) ≤ -(3315 / 1000) / (b * b * b * b) := by
        rw [neg_div, neg_div, neg_le_neg_iff]
        exact div_le_div_of_nonneg_left (by norm_num) (by positivity) (by gcongr)
      linarith [Real.exp_le_exp.2 this]
  | charbonnier =>
    simp only [Option.some.injEq] at h h'
    rw [← h, ← h']
    exact one_div_le_one_div_of_le (Real.sqrt_pos.2 (by linarith)) (Real.sqrt_le_sqrt (by linarith))

/-- C91: with a contrast factor of zero (see C93), flat places have no conductivity at all. -/
theorem conductivity_refuted (kind : Kind) : conductivity kind 0 0 = none := by simp [conductivity]

/-! ## Flows -/

/-- The flow from a pixel to the next one in its row. -/
noncomputable def flowR (cols : Nat) (c L : Nat → Nat → ℝ) (y x : Nat) : ℝ :=
  if x + 1 < cols then (c y x + c y (x + 1)) * (L y (x + 1) - L y x) else 0

/-- The flow from a pixel to the next one in its column. -/
noncomputable def flowD (rows : Nat) (c L : Nat → Nat → ℝ) (y x : Nat) : ℝ :=
  if y + 1 < rows then (c y x + c (y + 1) x) * (L (y + 1) x - L y x) else 0

/-- What comes in from the pixel before. -/
noncomputable def back (F : Nat → ℝ) (x : Nat) : ℝ := if x = 0 then 0 else F (x - 1)

theorem lstep_flows {rows cols : Nat} (hr : 2 ≤ rows) (hc : 2 ≤ cols) (c L : Nat → Nat → ℝ) (s : ℝ) {y x : Nat}
    (hy : y < rows) (hx : x < cols) :
    lstep rows cols c L s y x = s / 2 * ((flowR cols c L y x - back (flowR cols c L y) x) +
      (flowD rows c L y x - back (fun j => flowD rows c L j x) y)) := by
  unfold lstep borderRow firstCol lastCol interior
  by_cases y0 : y = 0
  · subst y0
    have e1 : flowD rows c L 0 x = (c 0 x + c 1 x) * (L 1 x - L 0 x) := by
      unfold flowD; rw [if_pos (by omega)]
    have e2 : back (fun j => flowD rows c L j x) 0 = 0 := by simp [back]
    rw [if_pos rfl, e1, e2]
    by_cases x0 : x = 0
    · subst x0
      have e3 : flowR cols c L 0 0 = (c 0 0 + c 0 1) * (L 0 1 - L 0 0) := by
        unfold flowR; rw [if_pos (by omega)]
      have e4 : back (flowR cols c L 0) 0 = 0 := by simp [back]
      rw [if_pos rfl, e3, e4]
      ring
    · have e4 : back (flowR cols c L 0) x = (c 0 (x - 1) + c 0 x) * (L 0 x - L 0 (x - 1)) := by
        unfold back flowR; rw [if_neg x0, if_pos (by omega), Nat.sub_add_cancel (by omega)]
      rw [if_neg x0, e4]
      by_cases xl : x = cols - 1
      · have e3 : flowR cols c L 0 x = 0 := by unfold flowR; rw [if_neg (by omega)]
        rw [if_pos xl, e3]
        ring
      · have e3 : flowR cols c L 0 x = (c 0 x + c 0 (x + 1)) * (L 0 (x + 1) - L 0 x) := by
          unfold flowR; rw [if_pos (by omega)]
        rw [if_neg xl, e3]
        ring
  rw [if_neg y0]
  have e2 : back (fun j => flowD rows c L j x) y = (c (y - 1) x + c y x) * (L y x - L (y - 1) x) := by
    unfold back flowD; simp only; rw [if_neg y0, if_pos (by omega), Nat.sub_add_cancel (by omega)]
  rw [e2]
  by_cases yl : y = rows - 1
  · have e1 : flowD rows c L y x = 0 := by unfold flowD; rw [if_neg (by omega)]
    rw [if_pos yl, e1]
    have er : rows - 2 = y - 1 := by omega
    rw [← yl, er]
    by_cases x0 : x = 0
    · subst x0
      have e3 : flowR cols c L y 0 = (c y 0 + c y 1) * (L y 1 - L y 0) := by
        unfold flowR; rw [if_pos (by omega)]
      have e4 : back (flowR cols c L y) 0 = 0 := by simp [back]
      rw [if_pos rfl, e3, e4]
      ring
    · have e4 : back (flowR cols c L y) x = (c y (x - 1) + c y x) * (L y x - L y (x - 1)) := by
        unfold back flowR; rw [if_neg x0, if_pos (by omega), Nat.sub_add_cancel (by omega)]
      rw [if_neg x0, e4]
      by_cases xl : x = cols - 1
      · have e3 : flowR cols c L y x = 0 := by unfold flowR; rw [if_neg (by omega)]
        rw [if_pos xl, e3]
        ring
      · have e3 : flowR cols c L y x = (c y x + c y (x + 1)) * (L y (x + 1) - L y x) := by
          unfold flowR; rw [if_pos (by omega)]
        rw [if_neg xl, e3]
        ring
  rw [if_neg yl]
  have e1 : flowD rows c L y x = (c y x + c (y + 1) x) * (L (y + 1) x - L y x) := by
    unfold flowD; rw [if_pos (by omega)]
  rw [e1]
  by_cases x0 : x = 0
  · subst x0
    have e3 : flowR cols c L y 0 = (c y 0 + c y 1) * (L y 1 - L y 0) := by
      unfold flowR; rw [if_pos (by omega)]
    have e4 : back (flowR cols c L y) 0 = 0 := by simp [back]
    rw [if_pos rfl, e3, e4]
    ring
  rw [if_neg x0]
  have e4 : back (flowR cols c L y) x = (c y (x - 1) + c y x) * (L y x - L y (x - 1)) := by
    unfold back flowR; rw [if_neg x0, if_pos (by omega), Nat.sub_add_cancel (by omega)]
  rw [e4]
  by_cases xl : x = cols - 1
  · have e3 : flowR cols c L y x = 0 := by unfold flowR; rw [if_neg (by omega)]
    rw [if_pos xl, e3]
    have er : cols - 2 = x - 1 := by omega
    rw [← xl, er]
    ring
  · have e3 : flowR cols c L y x = (c y x + c y (x + 1)) * (L y (x + 1) - L y x) := by
      unfold flowR; rw [if_pos (by omega)]
    rw [if_neg xl, e3]
    ring

/-- Summation by parts. -/
theorem sum_back (F K : Nat → ℝ) : ∀ n, ∑ x ∈ range (n + 1), (F x - back F x) * K x =
    F n * K n - ∑ x ∈ range n, F x * (K (x + 1) - K x)
  | 0 => by simp [back]
  | n + 1 => by
    rw [Finset.sum_range_succ, sum_back F K n, Finset.sum_range_succ (n := n)]
    simp only [back, Nat.add_one_ne_zero, if_false, Nat.add_sub_cancel]
    ring

theorem sum_flowR {cols : Nat} (hc : 2 ≤ cols) (c L K : Nat → Nat → ℝ) (y : Nat) :
    ∑ x ∈ range cols, (flowR cols c L y x - back (flowR cols c L y) x) * K y x =
      -∑ x ∈ range (cols - 1), (c y x + c y (x + 1)) * (L y (x + 1) - L y x) * (K y (x + 1) - K y x) := by
  obtain ⟨n, rfl⟩ : ∃ n, cols = n + 1 := ⟨cols - 1, by omega⟩
  have h := sum_back (flowR (n + 1) c L y) (K y) n
  rw [h]
  have : flowR (n + 1) c L y n = 0 := by simp [flowR]
  rw [this, zero_mul, zero_sub, Nat.add_sub_cancel]
  congr 1
  refine sum_congr rfl fun x hx => ?_
  rw [Finset.mem_range] at hx
  unfold flowR
  rw [if_pos (by omega)]

theorem sum_flowD {rows : Nat} (hr : 2 ≤ rows) (c L K : Nat → Nat → ℝ) (x : Nat) :
    ∑ y ∈ range rows, (flowD rows c L y x - back (fun j => flowD rows c L j x) y) * K y x =
      -∑ y ∈ range (rows - 1), (c y x + c (y + 1) x) * (L (y + 1) x - L y x) * (K (y + 1) x - K y x) := by
  obtain ⟨n, rfl⟩ : ∃ n, rows = n + 1 := ⟨rows - 1, by omega⟩
  have h := sum_back (fun y => flowD (n + 1) c L y x) (fun y => K y x) n
  rw [h]
  have : flowD (n + 1) c L n x = 0 := by simp [flowD]
  rw [this, zero_mul, zero_sub, Nat.add_sub_cancel]
  congr 1
  refine sum_congr rfl fun y hy => ?_
  rw [Finset.mem_range] at hy
  unfold flowD
  rw [if_pos (by omega)]

/-- The energy of the differences between neighbours. -/
noncomputable def form (rows cols : Nat) (c L K : Nat → Nat → ℝ) : ℝ :=
  (∑ y ∈ range rows, ∑ x ∈ range (cols - 1), (c y x + c y (x + 1)) * (L y (x + 1) - L y x) * (K y (x + 1) - K y x)) +
  ∑ x ∈ range cols, ∑ y ∈ range (rows - 1), (c y x + c (y + 1) x) * (L (y + 1) x - L y x) * (K (y + 1) x - K y x)

theorem sum_lstep {rows cols : Nat} (hr : 2 ≤ rows) (hc : 2 ≤ cols) (c L K : Nat → Nat → ℝ) (s : ℝ) :
    ∑ y ∈ range rows, ∑ x ∈ range cols, lstep rows cols c L s y x * K y x = -(s / 2 * form rows cols c L K) := by
  have e : ∀ y ∈ range rows, ∀ x ∈ range cols, lstep rows cols c L s y x * K y x =
      s / 2 * ((flowR cols c L y x - back (flowR cols c L y) x) * K y x) +
      s / 2 * ((flowD rows c L y x - back (fun j => flowD rows c L j x) y) * K y x) := by
    intro y hy x hx
    rw [Finset.mem_range] at hy hx
    rw [lstep_flows hr hc c L s hy hx]
    ring
  rw [sum_congr rfl fun y hy => sum_congr rfl fun x hx => e y hy x hx]
  simp only [Finset.sum_add_distrib]
  rw [Finset.sum_comm (s := range rows) (t := range cols) (f := fun y x =>
    s / 2 * ((flowD rows c L y x - back (fun j => flowD rows c L j x) y) * K y x))]
  simp only [← Finset.mul_sum]
  rw [sum_congr rfl fun y _ => sum_flowR hc c L K y, sum_congr rfl fun x _ => sum_flowD hr c L K x]
  unfold form
  simp only [Finset.sum_neg_distrib]
  ring

/-! ## Mean and range -/

/-- The sum of the pixels. -/
noncomputable def total (L : Img) : ℝ := ∑ y ∈ range L.rows, ∑ x ∈ range L.cols, L.px y x

/-- The sum of the squared pixels. -/
noncomputable def energy (L : Img) : ℝ := ∑ y ∈ range L.rows, ∑ x ∈ range L.cols, L.px y x ^ 2

/-- C91: a step keeps the sum of the grey values. -/
theorem nldStep_total {c : Nat → Nat → ℝ} {s : ℝ} {L L' : Img} (h : nldStep c s L = .ok L') : total L' = total L := by
  unfold nldStep at h
  split at h
  · exact absurd h (by simp)
  rename_i hs
  injection h with h
  subst h
  unfold total
  simp only [Finset.sum_add_distrib]
  have := sum_lstep (rows := L.rows) (cols := L.cols) (by omega) (by omega) c L.px (fun _ _ => 1) s
  simp only [mul_one, form, sub_self, mul_zero, Finset.sum_const_zero, add_zero, neg_zero] at this
  rw [this, add_zero]

/-- C91: images without second row or column are out of bounds. -/
theorem nldStep_small (c : Nat → Nat → ℝ) (s : ℝ) (L : Img) : nldStep c s L = .ub ↔ L.rows < 2 ∨ L.cols < 2 := by
  unfold nldStep
  split <;> simp_all

/-- C91: the smoothing stays in the range of the image, for steps up to a quarter. -/
theorem nldStep_range {c : Nat → Nat → ℝ} {s : ℝ} {L L' : Img} (h : nldStep c s L = .ok L')
    (hc : ∀ y x, y < L.rows → x < L.cols → 0 ≤ c y x ∧ c y x ≤ 1) (hs0 : 0 ≤ s) (hs : s ≤ 1 / 4) {lo hi : ℝ}
    (hL : ∀ y x, y < L.rows → x < L.cols → lo ≤ L.px y x ∧ L.px y x ≤ hi) :
    L'.rows = L.rows ∧ L'.cols = L.cols ∧
      ∀ y x, y < L'.rows → x < L'.cols → lo ≤ L'.px y x ∧ L'.px y x ≤ hi := by
  unfold nldStep at h
  split at h
  · exact absurd h (by simp)
  rename_i hsz
  injection h with h
  subst h
  refine ⟨rfl, rfl, fun y x hy hx => ?_⟩
  simp only at hy hx ⊢
  rw [lstep_flows (by omega) (by omega) c L.px s hy hx]
  obtain ⟨l0, l1⟩ := hL y x hy hx
  obtain ⟨c0, c1⟩ := hc y x hy hx
  set p := L.px y x with hp
  -- each of the four flows is bounded by twice the distance to the bounds
  have bound : ∀ c' q : ℝ, 0 ≤ c' → c' ≤ 1 → lo ≤ q → q ≤ hi →
      2 * (lo - p) ≤ (c y x + c') * (q - p) ∧ (c y x + c') * (q - p) ≤ 2 * (hi - p) := by
    intro c' q a b d e
    constructor <;> nlinarith [mul_nonneg (add_nonneg c0 a) (sub_nonneg.2 d), mul_nonneg (add_nonneg c0 a) (sub_nonneg.2 e)]
  have fR : 2 * (lo - p) ≤ flowR L.cols c L.px y x ∧ flowR L.cols c L.px y x ≤ 2 * (hi - p) := by
    unfold flowR
    split
    · rename_i hx1
      exact bound _ _ (hc y _ hy hx1).1 (hc y _ hy hx1).2 (hL y _ hy hx1).1 (hL y _ hy hx1).2
    · constructor <;> linarith
  have fD : 2 * (lo - p) ≤ flowD L.rows c L.px y x ∧ flowD L.rows c L.px y x ≤ 2 * (hi - p) := by
    unfold flowD
    split
    · rename_i hy1
      exact bound _ _ (hc _ x hy1 hx).1 (hc _ x hy1 hx).2 (hL _ x hy1 hx).1 (hL _ x hy1 hx).2
    · constructor <;> linarith
  have bR : 2 * (lo - p) ≤ -back (flowR L.cols c L.px y) x ∧ -back (flowR L.cols c L.px y) x ≤ 2 * (hi - p) := by
    unfold back
    split
    · constructor <;> linarith
    · rename_i x0
      unfold flowR
      rw [if_pos (by omega), Nat.sub_add_cancel (by omega)]
      have hx1 : x - 1 < L.cols := by omega
      have := bound _ _ (hc y _ hy hx1).1 (hc y _ hy hx1).2 (hL y _ hy hx1).1 (hL y _ hy hx1).2
      constructor <;> linarith [this.1, this.2]
  have bD : 2 * (lo - p) ≤ -back (fun j => flowD L.rows c L.px j x) y ∧
      -back (fun j => flowD L.rows c L.px j x) y ≤ 2 * (hi - p) := by
    unfold back
    split
    · constructor <;> linarith
    · rename_i y0
      unfold flowD
      simp only
      rw [if_pos (by omega), Nat.sub_add_cancel (by omega)]
      have hy1 : y - 1 < L.rows := by omega
      have := bound _ _ (hc _ x hy1 hx).1 (hc _ x hy1 hx).2 (hL _ x hy1 hx).1 (hL _ x hy1 hx).2
      constructor <;> linarith [this.1, this.2]
  obtain ⟨a1, a2⟩ := fR
  obtain ⟨b1, b2⟩ := fD
  obtain ⟨d1, d2⟩ := bR
  obtain ⟨e1, e2⟩ := bD
  constructor
  · have : 8 * (lo - p) ≤ (flowR L.cols c L.px y x - back (flowR L.cols c L.px y) x) +
        (flowD L.rows c L.px y x - back (fun j => flowD L.rows c L.px j x) y) := by linarith
    have := mul_le_mul_of_nonneg_left this (show 0 ≤ s / 2 by linarith)
    nlinarith
  · have : (flowR L.cols c L.px y x - back (flowR L.cols c L.px y) x) +
        (flowD L.rows c L.px y x - back (fun j => flowD L.rows c L.px j x) y) ≤ 8 * (hi - p) := by linarith
    have := mul_le_mul_of_nonneg_left this (show 0 ≤ s / 2 by linarith)
    nlinarith

/-! ## Energy -/

theorem lstep_add (rows cols : Nat) (c L K : Nat → Nat → ℝ) (s : ℝ) (y x : Nat) :
    lstep rows cols c (fun j i => L j i + K j i) s y x = lstep rows cols c L s y x + lstep rows cols c K s y x := by
  unfold lstep borderRow firstCol lastCol interior
  split_ifs <;> ring

theorem lstep_smul (rows cols : Nat) (c L : Nat → Nat → ℝ) (a s : ℝ) (y x : Nat) :
    lstep rows cols c (fun j i => a * L j i) s y x = a * lstep rows cols c L s y x := by
  unfold lstep borderRow firstCol lastCol interior
  split_ifs <;> ring

theorem lstep_one (rows cols : Nat) (c L : Nat → Nat → ℝ) (s : ℝ) (y x : Nat) :
    lstep rows cols c L s y x = s * lstep rows cols c L 1 y x := by
  unfold lstep borderRow firstCol lastCol interior
  split_ifs <;> ring

/-- Only pixels of the image count. -/
theorem lstep_congr {rows cols : Nat} (hr : 2 ≤ rows) (hc : 2 ≤ cols) {c L K : Nat → Nat → ℝ} {s : ℝ}
    (h : ∀ y x, y < rows → x < cols → L y x = K y x) {y x : Nat} (hy : y < rows) (hx : x < cols) :
    lstep rows cols c L s y x = lstep rows cols c K s y x := by
  rw [lstep_flows hr hc c L s hy hx, lstep_flows hr hc c K s hy hx]
  have e1 : flowR cols c L y x = flowR cols c K y x := by
    unfold flowR
    split
    · rename_i h1
      rw [h y x hy hx, h y (x + 1) hy h1]
    · rfl
  have e2 : flowD rows c L y x = flowD rows c K y x := by
    unfold flowD
    split
    · rename_i h1
      rw [h y x hy hx, h (y + 1) x h1 hx]
    · rfl
  have e3 : back (flowR cols c L y) x = back (flowR cols c K y) x := by
    unfold back
    split
    · rfl
    · rename_i h0
      unfold flowR
      rw [if_pos (by omega), if_pos (by omega), Nat.sub_add_cancel (by omega), h y x hy hx, h y (x - 1) hy (by omega)]
  have e4 : back (fun j => flowD rows c L j x) y = back (fun j => flowD rows c K j x) y := by
    unfold back
    split
    · rfl
    · rename_i h0
      unfold flowD
      simp only
      rw [if_pos (by omega), if_pos (by omega), Nat.sub_add_cancel (by omega), h y x hy hx, h (y - 1) x (by omega) hx]
  rw [e1, e2, e3, e4]

/-- Images of a size as a Euclidean space. -/
abbrev Space (r n : Nat) := EuclideanSpace ℝ (Fin r × Fin n)

/-- The pixels of a vector. -/
noncomputable def ext {r n : Nat} (v : Space r n) (y x : Nat) : ℝ :=
  if h : y < r ∧ x < n then v (⟨y, h.1⟩, ⟨x, h.2⟩) else 0

/-- The vector of the pixels. -/
noncomputable def vec (r n : Nat) (L : Nat → Nat → ℝ) : Space r n := WithLp.toLp 2 fun p => L p.1 p.2

theorem ext_vec {r n : Nat} (L : Nat → Nat → ℝ) {y x : Nat} (hy : y < r) (hx : x < n) : ext (vec r n L) y x = L y x := by
  unfold ext vec
  rw [dif_pos ⟨hy, hx⟩]

theorem ext_apply {r n : Nat} (v : Space r n) (p : Fin r × Fin n) : ext v p.1 p.2 = v p := by
  unfold ext
  rw [dif_pos ⟨p.1.2, p.2.2⟩]

theorem ext_add {r n : Nat} (v w : Space r n) : ext (v + w) = fun y x => ext v y x + ext w y x := by
  funext y x
  unfold ext
  split <;> simp

theorem ext_smul {r n : Nat} (a : ℝ) (v : Space r n) : ext (a • v) = fun y x => a * ext v y x := by
  funext y x
  unfold ext
  split <;> simp

/-- The operator of the diffusion: a step of length `s` subtracts `s` times it. -/
noncomputable def op (r n : Nat) (c : Nat → Nat → ℝ) : Space r n →ₗ[ℝ] Space r n where
  toFun v := WithLp.toLp 2 fun p => -lstep r n c (ext v) 1 p.1 p.2
  map_add' v w := by
    ext p
    simp only [ext_add, PiLp.add_apply, lstep_add]
    ring
  map_smul' a v := by
    ext p
    simp only [ext_smul, PiLp.smul_apply, lstep_smul, RingHom.id_apply, smul_eq_mul]
    ring

theorem inner_eq {r n : Nat} (v w : Space r n) : inner ℝ v w = ∑ y ∈ range r, ∑ x ∈ range n, ext v y x * ext w y x := by
  rw [PiLp.inner_apply, Fintype.sum_prod_type, Finset.sum_range]
  refine sum_congr rfl fun y _ => ?_
  rw [Finset.sum_range]
  refine sum_congr rfl fun x _ => ?_
  rw [← ext_apply v (y, x), ← ext_apply w (y, x)]
  simp [mul_comm]

theorem inner_op {r n : Nat} (hr : 2 ≤ r) (hn : 2 ≤ n) (c : Nat → Nat → ℝ) (v w : Space r n) :
    inner ℝ (op r n c v) w = 1 / 2 * form r n c (ext v) (ext w) := by
  rw [inner_eq]
  have h := sum_lstep hr hn c (ext v) (ext w) 1
  have e : ∀ y ∈ range r, ∀ x ∈ range n, ext (op r n c v) y x * ext w y x =
      -(lstep r n c (ext v) 1 y x * ext w y x) := by
    intro y hy x hx
    rw [Finset.mem_range] at hy hx
    have : ext (op r n c v) y x = -lstep r n c (ext v) 1 y x := by
      unfold ext
      rw [dif_pos ⟨hy, hx⟩]
      rfl
    rw [this]
    ring
  rw [sum_congr rfl fun y hy => sum_congr rfl fun x hx => e y hy x hx]
  simp only [Finset.sum_neg_distrib]
  rw [h]
  ring

theorem form_symm (r n : Nat) (c L K : Nat → Nat → ℝ) : form r n c L K = form r n c K L := by
  unfold form
  congr 1 <;> exact sum_congr rfl fun _ _ => sum_congr rfl fun _ _ => by ring

theorem op_symm {r n : Nat} (hr : 2 ≤ r) (hn : 2 ≤ n) (c : Nat → Nat → ℝ) : (op r n c).IsSymmetric := by
  intro v w
  rw [inner_op hr hn, real_inner_comm, inner_op hr hn, form_symm]

theorem sum_diff_le (n : Nat) (f : Nat → ℝ) :
    ∑ x ∈ range (n - 1), (f (x + 1) - f x) ^ 2 ≤ 4 * ∑ x ∈ range n, f x ^ 2 := by
  rcases n with _ | n
  · simp
  have h : ∑ x ∈ range n, (f (x + 1) - f x) ^ 2 ≤ ∑ x ∈ range n, (2 * f (x + 1) ^ 2 + 2 * f x ^ 2) :=
    Finset.sum_le_sum fun x _ => by nlinarith [sq_nonneg (f (x + 1) + f x)]
  rw [Finset.sum_add_distrib, ← Finset.mul_sum, ← Finset.mul_sum] at h
  have h1 := Finset.sum_range_succ (fun x => f x ^ 2) n
  have h2 := Finset.sum_range_succ' (fun x => f x ^ 2) n
  rw [Nat.add_sub_cancel]
  nlinarith [sq_nonneg (f n), sq_nonneg (f 0)]

theorem form_bounds {r n : Nat} {c : Nat → Nat → ℝ} (hc : ∀ y x, y < r → x < n → 0 ≤ c y x ∧ c y x ≤ 1)
    (L : Nat → Nat → ℝ) : 0 ≤ form r n c L L ∧ form r n c L L ≤ 16 * ∑ y ∈ range r, ∑ x ∈ range n, L y x ^ 2 := by
  unfold form
  constructor
  · refine add_nonneg (Finset.sum_nonneg fun y hy => Finset.sum_nonneg fun x hx => ?_)
      (Finset.sum_nonneg fun x hx => Finset.sum_nonneg fun y hy => ?_)
    · rw [Finset.mem_range] at hy hx
      rw [mul_assoc]
      exact mul_nonneg (add_nonneg (hc y x hy (by omega)).1 (hc y (x + 1) hy (by omega)).1) (mul_self_nonneg _)
    · rw [Finset.mem_range] at hy hx
      rw [mul_assoc]
      exact mul_nonneg (add_nonneg (hc y x (by omega) hx).1 (hc (y + 1) x (by omega) hx).1) (mul_self_nonneg _)
  · have h1 : ∑ y ∈ range r, ∑ x ∈ range (n - 1), (c y x + c y (x + 1)) * (L y (x + 1) - L y x) * (L y (x + 1) - L y x) ≤
        ∑ y ∈ range r, 2 * (4 * ∑ x ∈ range n, L y x ^ 2) := by
      refine Finset.sum_le_sum fun y hy => ?_
      rw [Finset.mem_range] at hy
      refine le_trans (Finset.sum_le_sum (g := fun x => 2 * (L y (x + 1) - L y x) ^ 2) fun x hx => ?_) ?_
      · rw [Finset.mem_range] at hx
        have := (hc y x hy (by omega)).2
        have := (hc y (x + 1) hy (by omega)).2
        nlinarith [mul_nonneg (show 0 ≤ 2 - (c y x + c y (x + 1)) by linarith) (sq_nonneg (L y (x + 1) - L y x))]
      · rw [← Finset.mul_sum]
        exact mul_le_mul_of_nonneg_left (sum_diff_le n (L y)) (by norm_num)
    have h2 : ∑ x ∈ range n, ∑ y ∈ range (r - 1), (c y x + c (y + 1) x) * (L (y + 1) x - L y x) * (L (y + 1) x - L y x) ≤
        ∑ x ∈ range n, 2 * (4 * ∑ y ∈ range r, L y x ^ 2) := by
      refine Finset.sum_le_sum fun x hx => ?_
      rw [Finset.mem_range] at hx
      refine le_trans (Finset.sum_le_sum (g := fun y => 2 * (L (y + 1) x - L y x) ^ 2) fun y hy => ?_) ?_
      · rw [Finset.mem_range] at hy
        have := (hc y x (by omega) hx).2
        have := (hc (y + 1) x (by omega) hx).2
        nlinarith [mul_nonneg (show 0 ≤ 2 - (c y x + c (y + 1) x) by linarith) (sq_nonneg (L (y + 1) x - L y x))]
      · rw [← Finset.mul_sum]
        exact mul_le_mul_of_nonneg_left (sum_diff_le r fun y => L y x) (by norm_num)
    simp only [← Finset.mul_sum] at h1 h2
    have h3 := Finset.sum_comm (s := range n) (t := range r) (f := fun x y => L y x ^ 2)
    linarith

theorem eigen_bounds {r n : Nat} (hr : 2 ≤ r) (hn : 2 ≤ n) {c : Nat → Nat → ℝ}
    (hc : ∀ y x, y < r → x < n → 0 ≤ c y x ∧ c y x ≤ 1) (i : Fin (Module.finrank ℝ (Space r n))) :
    0 ≤ (op_symm hr hn c).eigenvalues rfl i ∧ (op_symm hr hn c).eigenvalues rfl i ≤ 8 := by
  set b := (op_symm hr hn c).eigenvectorBasis rfl
  have h1 : op r n c (b i) = (op_symm hr hn c).eigenvalues rfl i • b i := (op_symm hr hn c).apply_eigenvectorBasis rfl i
  have h2 := inner_op hr hn c (b i) (b i)
  have h3 : inner ℝ (b i) (b i) = 1 := by rw [real_inner_self_eq_norm_sq, b.orthonormal.1 i]; norm_num
  rw [h1, real_inner_smul_left, h3, mul_one] at h2
  have h4 := form_bounds hc (ext (b i))
  have h5 := inner_eq (b i) (b i)
  rw [h3] at h5
  simp only [← sq] at h5
  rw [← h5] at h4
  rw [h2]
  constructor <;> linarith [h4.1, h4.2]

/-- Steps in the coordinates of the eigenvectors. -/
theorem nldSteps_repr {r n : Nat} (hr : 2 ≤ r) (hn : 2 ≤ n) (c : Nat → Nat → ℝ) : ∀ (tau : List ℝ) (L : Img),
    L.rows = r → L.cols = n → ∃ L', nldSteps c tau L = .ok L' ∧ L'.rows = r ∧ L'.cols = n ∧
      ∀ i, ((op_symm hr hn c).eigenvectorBasis rfl).repr (vec r n L'.px) i =
        (tau.map fun s => 1 - s * (op_symm hr hn c).eigenvalues rfl i).prod *
          ((op_symm hr hn c).eigenvectorBasis rfl).repr (vec r n L.px) i
  | [], L, e1, e2 => ⟨L, rfl, e1, e2, fun i => by simp⟩
  | s :: tau, L, e1, e2 => by
    have hstep : nldStep c s L = .ok { L with px := fun y x => L.px y x + lstep L.rows L.cols c L.px s y x } := by
      unfold nldStep
      rw [if_neg (by omega)]
    obtain ⟨L', h1, h2, h3, h4⟩ := nldSteps_repr hr hn c tau
      { L with px := fun y x => L.px y x + lstep L.rows L.cols c L.px s y x } e1 e2
    refine ⟨L', ?_, h2, h3, fun i => ?_⟩
    · rw [nldSteps, hstep]
      exact h1
    · rw [h4 i]
      have e : vec r n (fun y x => L.px y x + lstep L.rows L.cols c L.px s y x) =
          vec r n L.px - s • op r n c (vec r n L.px) := by
        ext p
        rw [PiLp.sub_apply, PiLp.smul_apply]
        show L.px p.1 p.2 + lstep L.rows L.cols c L.px s p.1 p.2 =
          L.px p.1 p.2 - s • -lstep r n c (ext (vec r n L.px)) 1 p.1 p.2
        rw [lstep_congr hr hn (L := ext (vec r n L.px)) (K := L.px) (fun y x hy hx => ext_vec L.px hy hx) p.1.2 p.2.2,
          e1, e2, lstep_one r n c L.px s, smul_eq_mul]
        ring
      simp only
      rw [e, map_sub, map_smul, PiLp.sub_apply, PiLp.smul_apply,
        (op_symm hr hn c).eigenvectorBasis_apply_self_apply rfl]
      simp only [List.map_cons, List.prod_cons, smul_eq_mul, RCLike.ofReal_real_eq_id, id_eq]
      ring

theorem energy_eq {r n : Nat} (hr : 2 ≤ r) (hn : 2 ≤ n) (c : Nat → Nat → ℝ) (L : Img) (e1 : L.rows = r) (e2 : L.cols = n) :
    energy L = ∑ i, (((op_symm hr hn c).eigenvectorBasis rfl).repr (vec r n L.px) i) ^ 2 := by
  have h1 : energy L = ‖vec r n L.px‖ ^ 2 := by
    rw [← real_inner_self_eq_norm_sq, inner_eq]
    unfold energy
    rw [e1, e2]
    refine sum_congr rfl fun y hy => sum_congr rfl fun x hx => ?_
    rw [Finset.mem_range] at hy hx
    rw [ext_vec L.px hy hx]
    ring
  rw [h1, ← ((op_symm hr hn c).eigenvectorBasis rfl).repr.norm_map, EuclideanSpace.norm_sq_eq]
  simp

/-- C91: steps that damp all modes up to 8 do not enlarge the sum of the squares. -/
theorem nldSteps_energy {c : Nat → Nat → ℝ} {tau : List ℝ} {L : Img} (hr : 2 ≤ L.rows) (hn : 2 ≤ L.cols)
    (hc : ∀ y x, y < L.rows → x < L.cols → 0 ≤ c y x ∧ c y x ≤ 1)
    (ht : ∀ lam : ℝ, 0 ≤ lam → lam ≤ 8 → |(tau.map fun s => 1 - s * lam).prod| ≤ 1) :
    ∃ L', nldSteps c tau L = .ok L' ∧ L'.rows = L.rows ∧ L'.cols = L.cols ∧ energy L' ≤ energy L := by
  obtain ⟨L', h1, h2, h3, h4⟩ := nldSteps_repr hr hn c tau L rfl rfl
  refine ⟨L', h1, h2, h3, ?_⟩
  rw [energy_eq hr hn c L' h2 h3, energy_eq hr hn c L rfl rfl]
  refine Finset.sum_le_sum fun i _ => ?_
  rw [h4 i, mul_pow]
  obtain ⟨b0, b1⟩ := eigen_bounds hr hn hc i
  have := ht _ b0 b1
  have h5 := (sq_le_one_iff_abs_le_one _).2 this
  nlinarith [sq_nonneg (((op_symm hr hn c).eigenvectorBasis rfl).repr (vec L.rows L.cols L.px) i)]

/-- C91: a series of steps keeps the sum of the grey values. -/
theorem nldSteps_total {c : Nat → Nat → ℝ} : ∀ {tau : List ℝ} {L L' : Img}, nldSteps c tau L = .ok L' → total L' = total L
  | [], L, L', h => by
    rw [nldSteps] at h
    injection h with h
    rw [h]
  | s :: tau, L, L', h => by
    rw [nldSteps] at h
    obtain ⟨M, h1, h2⟩ := Outcome.bind_eq_ok.1 h
    rw [nldSteps_total h2, nldStep_total h1]

/-- The sum of the squared differences to the mean. -/
noncomputable def spread (L : Img) : ℝ :=
  ∑ y ∈ range L.rows, ∑ x ∈ range L.cols, (L.px y x - total L / (L.rows * L.cols)) ^ 2

theorem spread_eq {L : Img} (hr : L.rows ≠ 0) (hc : L.cols ≠ 0) :
    spread L = energy L - total L ^ 2 / (L.rows * L.cols) := by
  have h : ∀ m : ℝ, ∑ y ∈ range L.rows, ∑ x ∈ range L.cols, (L.px y x - m) ^ 2 =
      energy L - 2 * m * total L + L.rows * L.cols * m ^ 2 := by
    intro m
    unfold energy total
    rw [Finset.mul_sum, ← Finset.sum_sub_distrib]
    have : ∀ y ∈ range L.rows, ∑ x ∈ range L.cols, (L.px y x - m) ^ 2 =
        (∑ x ∈ range L.cols, L.px y x ^ 2 - 2 * m * ∑ x ∈ range L.cols, L.px y x) + L.cols * m ^ 2 := by
      intro y _
      rw [Finset.mul_sum, ← Finset.sum_sub_distrib]
      have e : (L.cols : ℝ) * m ^ 2 = ∑ _x ∈ range L.cols, m ^ 2 := by simp
      rw [e, ← Finset.sum_add_distrib]
      exact sum_congr rfl fun x _ => by ring
    rw [sum_congr rfl this, Finset.sum_add_distrib]
    simp
    ring
  unfold spread
  rw [h]
  have h1 : (L.rows : ℝ) ≠ 0 := by exact_mod_cast hr
  have h2 : (L.cols : ℝ) ≠ 0 := by exact_mod_cast hc
  field_simp
  ring

/-- C91: a level of the scale space (a cycle of the steps of C90 with the largest stable step of KAZE, 0.25) keeps the
mean and does not enlarge the variance, whatever the conductivities are in `[0, 1]`. -/
theorem level_spread {c : Nat → Nat → ℝ} {L : Img} (hr : 2 ≤ L.rows) (hn : 2 ≤ L.cols)
    (hc : ∀ y x, y < L.rows → x < L.cols → 0 ≤ c y x ∧ c y x ≤ 1) {t : ℝ} (h0 : 7 / 40 ≤ t) (h1 : t ≤ 10 ^ 12) :
    ∃ n tau L', Fed.byProcessTime t 1 (1 / 4) true [] = .ok (n, tau) ∧ nldSteps c tau L = .ok L' ∧
      L'.rows = L.rows ∧ L'.cols = L.cols ∧ total L' = total L ∧ spread L' ≤ spread L := by
  obtain ⟨n, tau, -, e, -, hg, -⟩ := Fed.byProcessTime_reordered_partial t 1 (1 / 4) [] (by norm_num) (by norm_num)
    (by norm_num; linarith) (by norm_num at h1 ⊢; linarith)
  obtain ⟨L', h2, h3, h4, h5⟩ := nldSteps_energy (tau := tau) hr hn hc fun lam a b => hg.2.2.2 lam a (by norm_num; linarith)
  have h6 := nldSteps_total h2
  refine ⟨n, tau, L', e, h2, h3, h4, h6, ?_⟩
  rw [spread_eq (by omega) (by omega), spread_eq (by omega) (by omega), h3, h4, h6]
  linarith

/-- C91: the bound on the length of a step is needed: a step of length one leaves the range of an image. -/
theorem nldStep_range_sharp : ∃ (L L' : Img), nldStep (fun _ _ => 1) 1 L = .ok L' ∧
    (∀ y x, 0 ≤ L.px y x ∧ L.px y x ≤ 1) ∧ L'.px 0 0 < 0 := by
  refine ⟨⟨2, 2, fun y x => if y = 0 ∧ x = 0 then 1 else 0⟩, ⟨2, 2, fun y x => (if y = 0 ∧ x = 0 then 1 else 0) +
    lstep 2 2 (fun _ _ => 1) (fun y x => if y = 0 ∧ x = 0 then 1 else 0) 1 y x⟩, ?_, ?_, ?_⟩
  · unfold nldStep
    rw [if_neg (by norm_num)]
  · intro y x
    simp only
    split <;> norm_num
  · simp [lstep, borderRow]
    norm_num

example : ∃ L', nldStep (fun _ _ => 1 / 2) (1 / 4) ⟨3, 4, fun y x => y + 10 * x⟩ = .ok L' ∧ L'.px 1 1 = 11 ∧
    L'.px 0 0 = 11 / 8 := by
  refine ⟨⟨3, 4, fun y x => (y + 10 * x) + lstep 3 4 (fun _ _ => 1 / 2) (fun y x => y + 10 * x) (1 / 4) y x⟩, ?_, ?_, ?_⟩
  · unfold nldStep
    rw [if_neg (by norm_num)]
  · simp [lstep, interior]
    norm_num
  · simp [lstep, borderRow]
    norm_num

end Verif.Kaze.Diffusion
