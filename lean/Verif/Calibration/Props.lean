import Mathlib.LinearAlgebra.Matrix.NonsingularInverse
import Mathlib.LinearAlgebra.Matrix.Determinant.Basic
import Mathlib.Tactic.Linarith
import Mathlib.Tactic.LinearCombination
import Mathlib.Tactic.FieldSimp
import Mathlib.Tactic.Ring
import Mathlib.Tactic.Positivity
import Mathlib.Tactic.NormNum
import Mathlib.Tactic.FinCases
import Verif.Calibration.Model

/-!
# Circles and focal lengths (C59, C72)
-/

namespace Verif.Calibration

/-! ## Specification -/

/-- A point is on a circle. -/
def OnCircle (cx cy r : ℝ) (p : ℝ × ℝ) : Prop := (p.1 - cx) ^ 2 + (p.2 - cy) ^ 2 = r ^ 2

/-- The distance of a point from a centre. -/
noncomputable def distance (cx cy : ℝ) (p : ℝ × ℝ) : ℝ := Real.sqrt ((p.1 - cx) ^ 2 + (p.2 - cy) ^ 2)

/-- All points are on one line. -/
def OnLine (points : List (ℝ × ℝ)) : Prop := ∃ u v w : ℝ, (u ≠ 0 ∨ v ≠ 0) ∧ ∀ p ∈ points, u * p.1 + v * p.2 = w

/-! ## Intersection -/

theorem hypot_sq (a b : ℝ) : hypot a b * hypot a b = a * a + b * b :=
  Real.mul_self_sqrt (add_nonneg (mul_self_nonneg _) (mul_self_nonneg _))

theorem hypot_nonneg (a b : ℝ) : 0 ≤ hypot a b := Real.sqrt_nonneg _

theorem hypot_eq_zero {a b : ℝ} (h : hypot a b = 0) : a = 0 ∧ b = 0 := by
  have := hypot_sq a b
  rw [h] at this
  constructor <;> nlinarith [mul_self_nonneg a, mul_self_nonneg b]

/-- The chord of two circles: with `e` the direction from the first centre to the second, a common point is `a` along `e`
and `h` across. -/
theorem common_iff {x1 y1 r1 x2 y2 r2 d a : ℝ} (hd : d ≠ 0) (hdd : d * d = (x2 - x1) * (x2 - x1) + (y2 - y1) * (y2 - y1))
    (ha : 2 * d * a = r1 * r1 - r2 * r2 + d * d) (p : ℝ × ℝ) :
    (OnCircle x1 y1 r1 p ∧ OnCircle x2 y2 r2 p) ↔
      ∃ s, s * s = r1 * r1 - a * a ∧ p = (x1 + a * (x2 - x1) / d + s * (y2 - y1) / d, y1 + a * (y2 - y1) / d - s * (x2 - x1) / d) := by
  obtain ⟨px, py⟩ := p
  unfold OnCircle
  simp only [Prod.mk.injEq]
  constructor
  · rintro ⟨h1, h2⟩
    have hpar : (px - x1) * (x2 - x1) + (py - y1) * (y2 - y1) = d * a := by linarith
    refine ⟨((px - x1) * (y2 - y1) - (py - y1) * (x2 - x1)) / d, ?_, ?_, ?_⟩
    · field_simp
      have e : ((px - x1) * (y2 - y1) - (py - y1) * (x2 - x1)) ^ 2 =
          ((px - x1) ^ 2 + (py - y1) ^ 2) * (d * d) - (d * a) ^ 2 := by
        rw [← hpar, hdd]
        ring
      rw [e, h1]
      ring
    · field_simp
      have e : d ^ 2 = (x2 - x1) * (x2 - x1) + (y2 - y1) * (y2 - y1) := by rw [sq]; exact hdd
      linear_combination (px - x1) * e + (x2 - x1) * hpar
    · field_simp
      have e : d ^ 2 = (x2 - x1) * (x2 - x1) + (y2 - y1) * (y2 - y1) := by rw [sq]; exact hdd
      linear_combination (py - y1) * e + (y2 - y1) * hpar
  · rintro ⟨s, hs, rfl, rfl⟩
    have key : (a * (x2 - x1) / d + s * (y2 - y1) / d) ^ 2 + (a * (y2 - y1) / d - s * (x2 - x1) / d) ^ 2 = r1 ^ 2 := by
      field_simp
      linear_combination (-(a ^ 2 + s ^ 2)) * hdd + d ^ 2 * hs
    have par : (a * (x2 - x1) / d + s * (y2 - y1) / d) * (x2 - x1) + (a * (y2 - y1) / d - s * (x2 - x1) / d) * (y2 - y1) =
        a * d := by
      field_simp
      linear_combination (-a) * hdd
    constructor
    · linear_combination key
    · linear_combination key - 2 * par - ha - hdd

theorem exists_common {r1 r2 d a : ℝ} (h1 : 0 ≤ r1) (h2 : 0 ≤ r2) (hd : 0 < d)
    (ha : 2 * d * a = r1 * r1 - r2 * r2 + d * d) : 0 ≤ r1 * r1 - a * a ↔ |r1 - r2| ≤ d ∧ d ≤ r1 + r2 := by
  have e : 4 * (d * d) * (r1 * r1 - a * a) = ((r1 + r2) ^ 2 - d ^ 2) * (d ^ 2 - (r1 - r2) ^ 2) := by
    have : 4 * (d * d) * (a * a) = (2 * d * a) ^ 2 := by ring
    rw [mul_sub, this, ha]
    ring
  have hp : 0 < 4 * (d * d) := by positivity
  constructor
  · intro h
    have hprod : 0 ≤ ((r1 + r2) ^ 2 - d ^ 2) * (d ^ 2 - (r1 - r2) ^ 2) := by
      rw [← e]
      exact mul_nonneg hp.le h
    have hle : (r1 - r2) ^ 2 ≤ (r1 + r2) ^ 2 := by nlinarith
    rcases mul_nonneg_iff.1 hprod with ⟨a1, a2⟩ | ⟨a1, a2⟩
    · exact ⟨abs_le_of_sq_le_sq (by linarith) hd.le, le_of_sq_le_sq (by linarith) (by linarith)⟩
    · have q1 : (r1 - r2) ^ 2 = (r1 + r2) ^ 2 := by linarith
      have q2 : d ^ 2 = (r1 + r2) ^ 2 := by linarith
      exact ⟨abs_le_of_sq_le_sq (by linarith) hd.le, le_of_sq_le_sq (by linarith) (by linarith)⟩
  · rintro ⟨a1, a2⟩
    have b1 : (r1 - r2) ^ 2 ≤ d ^ 2 := by
      rw [← sq_abs (r1 - r2)]
      exact pow_le_pow_left₀ (abs_nonneg _) a1 2
    have b2 : d ^ 2 ≤ (r1 + r2) ^ 2 := pow_le_pow_left₀ hd.le a2 2
    have := mul_nonneg (sub_nonneg.2 b2) (sub_nonneg.2 b1)
    rw [← e] at this
    exact nonneg_of_mul_nonneg_right this hp

theorem near_of_sq {a h r : ℝ} (hr : 0 ≤ r) (hh : 0 ≤ h) (e : a ^ 2 + h ^ 2 = r ^ 2) : |Real.sqrt (a ^ 2) - r| ≤ h := by
  rw [Real.sqrt_sq_eq_abs]
  have h1 : |a| ≤ r := by
    rw [← abs_of_nonneg hr, ← sq_le_sq]
    nlinarith [sq_nonneg h]
  have h2 : r ≤ |a| + h := by
    rw [← abs_of_nonneg hr, ← abs_of_nonneg (by positivity : 0 ≤ |a| + h), ← sq_le_sq]
    nlinarith [mul_nonneg (abs_nonneg a) hh, sq_abs a]
  rw [abs_le]
  constructor <;> linarith

/-- C59: for circles with different centres.  Points are returned iff the circles meet.  Two points are returned as
exactly the common points.  A single point stands for all common points, which are at most 1e-10 away, and it is at most
1e-10 from either circle.  Missing: that a single point is on both circles, see `intersect_touching_refuted`. -/
theorem intersect_partial {x1 y1 r1 x2 y2 r2 : ℝ} (h1 : 0 ≤ r1) (h2 : 0 ≤ r2) (hc : (x1, y1) ≠ (x2, y2)) :
    ∃ l, intersectCircles x1 y1 r1 x2 y2 r2 = some l ∧
      (l = [] ↔ ¬ ∃ p, OnCircle x1 y1 r1 p ∧ OnCircle x2 y2 r2 p) ∧
      (l = [] ∨
        (∃ p q, l = [p, q] ∧ p ≠ q ∧ ∀ x, (OnCircle x1 y1 r1 x ∧ OnCircle x2 y2 r2 x) ↔ x = p ∨ x = q) ∨
        ∃ p, l = [p] ∧ |distance x1 y1 p - r1| ≤ 1e-10 ∧ |distance x2 y2 p - r2| ≤ 1e-10 ∧
          ∀ x, OnCircle x1 y1 r1 x ∧ OnCircle x2 y2 r2 x → distance p.1 p.2 x ≤ 1e-10) := by
  set d := hypot (x1 - x2) (y1 - y2) with hdef
  have hd0 : d ≠ 0 := by
    intro e
    have := hypot_eq_zero e
    exact hc (by rw [show x1 = x2 by linarith [this.1], show y1 = y2 by linarith [this.2]])
  have hdpos : 0 < d := lt_of_le_of_ne (hypot_nonneg _ _) (Ne.symm hd0)
  have hdd : d * d = (x2 - x1) * (x2 - x1) + (y2 - y1) * (y2 - y1) := by
    rw [hdef, hypot_sq]
    ring
  set a := (r1 * r1 - r2 * r2 + d * d) / (2 * d) with hadef
  have ha : 2 * d * a = r1 * r1 - r2 * r2 + d * d := by
    rw [hadef]
    field_simp
  have hcom := common_iff hd0 hdd ha
  have hex := exists_common h1 h2 hdpos ha
  have hmeet : (∃ p, OnCircle x1 y1 r1 p ∧ OnCircle x2 y2 r2 p) ↔ |r1 - r2| ≤ d ∧ d ≤ r1 + r2 := by
    rw [← hex]
    constructor
    · rintro ⟨p, hp⟩
      obtain ⟨s, hs, -⟩ := (hcom p).1 hp
      rw [← hs]
      exact mul_self_nonneg s
    · intro h
      exact ⟨_, (hcom _).2 ⟨Real.sqrt (r1 * r1 - a * a), Real.mul_self_sqrt h, rfl⟩⟩
  unfold intersectCircles
  simp only
  rw [← hdef]
  by_cases c1 : r1 + r2 < d
  · rw [if_pos c1]
    refine ⟨[], rfl, ?_, Or.inl rfl⟩
    rw [hmeet]
    exact ⟨fun _ h => absurd c1 (not_lt.2 h.2), fun _ => rfl⟩
  rw [if_neg c1]
  by_cases c2 : d < |r1 - r2|
  · rw [if_pos c2]
    refine ⟨[], rfl, ?_, Or.inl rfl⟩
    rw [hmeet]
    exact ⟨fun _ h => absurd c2 (not_lt.2 h.1), fun _ => rfl⟩
  rw [if_neg c2, if_neg hd0, ← hadef]
  have hm := hmeet.2 ⟨not_lt.1 c2, not_lt.1 c1⟩
  have hn : 0 ≤ r1 * r1 - a * a := hex.2 ⟨not_lt.1 c2, not_lt.1 c1⟩
  set h := Real.sqrt (r1 * r1 - a * a) with hh
  have hhh : h * h = r1 * r1 - a * a := Real.mul_self_sqrt hn
  have h0 : 0 ≤ h := Real.sqrt_nonneg _
  have hunit : ((x2 - x1) / d) ^ 2 + ((y2 - y1) / d) ^ 2 = 1 := by
    field_simp
    linear_combination (-1 : ℝ) * hdd
  split
  · rename_i c3
    refine ⟨_, rfl, by simp [hm], Or.inr (Or.inr ⟨_, rfl, ?_, ?_, ?_⟩)⟩
    · refine le_trans ?_ c3.le
      unfold distance
      simp only
      have e : (x1 + a * (x2 - x1) / d - x1) ^ 2 + (y1 + a * (y2 - y1) / d - y1) ^ 2 = a ^ 2 := by
        linear_combination a ^ 2 * hunit
      rw [e]
      exact near_of_sq h1 h0 (by linear_combination hhh)
    · refine le_trans ?_ c3.le
      unfold distance
      simp only
      have e : (x1 + a * (x2 - x1) / d - x2) ^ 2 + (y1 + a * (y2 - y1) / d - y2) ^ 2 = (d - a) ^ 2 := by
        field_simp
        linear_combination (-(d - a) ^ 2) * hdd
      rw [e]
      exact near_of_sq h2 h0 (by linear_combination hhh - ha)
    · intro x hx
      obtain ⟨s, hs, rfl⟩ := (hcom x).1 hx
      unfold distance
      simp only
      have e : (x1 + a * (x2 - x1) / d + s * (y2 - y1) / d - (x1 + a * (x2 - x1) / d)) ^ 2 +
          (y1 + a * (y2 - y1) / d - s * (x2 - x1) / d - (y1 + a * (y2 - y1) / d)) ^ 2 = h * h := by
        linear_combination s ^ 2 * hunit + hs - hhh
      rw [e, Real.sqrt_mul_self h0]
      exact c3.le
  · rename_i c3
    have hpos : 0 < h := lt_of_lt_of_le (by norm_num) (not_lt.1 c3)
    refine ⟨_, rfl, by simp [hm], Or.inr (Or.inl ⟨_, _, rfl, ?_, ?_⟩)⟩
    · intro e
      obtain ⟨e1, e2⟩ := Prod.mk.inj e
      have k1 : h * ((y2 - y1) / d) = 0 := by linear_combination (1 / 2) * e1
      have k2 : h * ((x2 - x1) / d) = 0 := by linear_combination (-1 / 2) * e2
      rcases mul_eq_zero.1 k1 with k | k
      · exact hpos.ne' k
      · rcases mul_eq_zero.1 k2 with k' | k'
        · exact hpos.ne' k'
        · rw [k, k'] at hunit
          norm_num at hunit
    · intro x
      rw [hcom x]
      constructor
      · rintro ⟨s, hs, rfl⟩
        have : (s - h) * (s + h) = 0 := by linear_combination hs - hhh
        rcases mul_eq_zero.1 this with k | k
        · left
          rw [show s = h by linarith]
        · right
          rw [show s = -h by linarith]
          refine Prod.ext ?_ ?_ <;> simp only <;> ring
      · rintro (rfl | rfl)
        · exact ⟨h, hhh, rfl⟩
        · refine ⟨-h, by linarith, ?_⟩
          refine Prod.ext ?_ ?_ <;> simp only <;> ring

/-- Two circles of radius 1 that meet in two points with half a chord of 5e-11: the point returned is on neither. -/
theorem intersect_touching_refuted : ∃ x : ℝ, ∃ p,
    intersectCircles 0 0 1 x 0 1 = some [p] ∧ ¬ OnCircle 0 0 1 p ∧ ¬ OnCircle x 0 1 p ∧
      ∃ q, OnCircle 0 0 1 q ∧ OnCircle x 0 1 q := by
  set a := Real.sqrt (1 - 25e-22) with ha
  have haa : a * a = 1 - 25e-22 := Real.mul_self_sqrt (by norm_num)
  have h0 : 0 < a := Real.sqrt_pos.2 (by norm_num)
  have hd : hypot (0 - 2 * a) (0 - 0) = 2 * a := by
    unfold hypot
    rw [show (0 - 2 * a) * (0 - 2 * a) + (0 - 0) * (0 - 0) = 2 * a * (2 * a) by ring]
    exact Real.sqrt_mul_self (by linarith)
  have h1 : a < 1 := by nlinarith
  refine ⟨2 * a, (a, 0), ?_, ?_, ?_, (a, 5e-11), ?_, ?_⟩
  · unfold intersectCircles
    simp only
    rw [hd, if_neg (by linarith), if_neg (by rw [sub_self, abs_zero]; linarith), if_neg (by linarith)]
    have e : (1 * 1 - 1 * 1 + 2 * a * (2 * a)) / (2 * (2 * a)) = a := by
      field_simp
      ring
    rw [e, if_pos]
    · congr 3
      · field_simp
        ring
      · ring
    · rw [show 1 * 1 - a * a = 25e-22 by rw [haa]; norm_num, Real.sqrt_lt' (by norm_num)]
      norm_num
  · unfold OnCircle
    simp only
    intro e
    nlinarith
  · unfold OnCircle
    simp only
    intro e
    nlinarith
  · unfold OnCircle
    simp only
    nlinarith
  · unfold OnCircle
    simp only
    nlinarith

/-- Equal circles: the code divides by zero (and returns two points that are not numbers). -/
theorem intersect_equal_refuted (x y r : ℝ) (hr : 0 ≤ r) : intersectCircles x y r x y r = none := by
  have hd : hypot (x - x) (y - y) = 0 := by
    unfold hypot
    simp
  unfold intersectCircles
  simp only
  rw [hd, if_neg (by linarith), if_neg (by simp), if_pos rfl]

/-- Concentric circles of different size do not meet, and nothing is returned. -/
theorem intersect_concentric (x y : ℝ) {r1 r2 : ℝ} (h1 : 0 ≤ r1) (h2 : 0 ≤ r2) (h : r1 ≠ r2) :
    intersectCircles x y r1 x y r2 = some [] ∧ ¬ ∃ p, OnCircle x y r1 p ∧ OnCircle x y r2 p := by
  have hd : hypot (x - x) (y - y) = 0 := by
    unfold hypot
    simp
  constructor
  · unfold intersectCircles
    simp only
    rw [hd, if_neg (by linarith), if_pos (abs_pos.2 (sub_ne_zero.2 h))]
  · rintro ⟨p, a, b⟩
    unfold OnCircle at a b
    exact h (by nlinarith [show (r1 - r2) * (r1 + r2) = 0 by nlinarith] : r1 = r2)

/-! ## Fitting -/

/-- The sum of a function over the points. -/
noncomputable def total (f : ℝ × ℝ → ℝ) (ps : List (ℝ × ℝ)) : ℝ := (ps.map f).sum

theorem total_cons (f : ℝ × ℝ → ℝ) (p : ℝ × ℝ) (ps : List (ℝ × ℝ)) : total f (p :: ps) = f p + total f ps := by
  simp [total]

theorem total_nil (f : ℝ × ℝ → ℝ) : total f [] = 0 := rfl

theorem total_add (f g : ℝ × ℝ → ℝ) : ∀ ps, total (fun p => f p + g p) ps = total f ps + total g ps
  | [] => by simp [total_nil]
  | p :: ps => by
    rw [total_cons, total_cons, total_cons, total_add f g ps]
    ring

theorem total_mul (c : ℝ) (f : ℝ × ℝ → ℝ) : ∀ ps, total (fun p => c * f p) ps = c * total f ps
  | [] => by simp [total_nil]
  | p :: ps => by
    rw [total_cons, total_cons, total_mul c f ps]
    ring

theorem total_const (c : ℝ) : ∀ ps : List (ℝ × ℝ), total (fun _ => c) ps = ps.length * c
  | [] => by simp [total_nil]
  | p :: ps => by
    rw [total_cons, total_const c ps, List.length_cons]
    push_cast
    ring

theorem total_congr {f g : ℝ × ℝ → ℝ} {ps : List (ℝ × ℝ)} (h : ∀ p ∈ ps, f p = g p) : total f ps = total g ps := by
  unfold total
  rw [List.map_congr_left h]

theorem total_sq_eq_zero {f : ℝ × ℝ → ℝ} : ∀ {ps : List (ℝ × ℝ)}, total (fun p => f p * f p) ps = 0 → ∀ p ∈ ps, f p = 0
  | [], _ => by simp
  | p :: ps, h => by
    have hn : ∀ qs : List (ℝ × ℝ), 0 ≤ total (fun p => f p * f p) qs := by
      intro qs
      unfold total
      apply List.sum_nonneg
      intro x hx
      obtain ⟨q, -, rfl⟩ := List.mem_map.1 hx
      exact mul_self_nonneg _
    rw [total_cons] at h
    have h1 := hn ps
    have h2 := mul_self_nonneg (f p)
    intro q hq
    rcases List.mem_cons.1 hq with rfl | hq
    · exact mul_self_eq_zero.1 (by linarith)
    · exact total_sq_eq_zero (by linarith) q hq

theorem sums_eq : ∀ (ps : List (ℝ × ℝ)) (s : Sums),
    sums ps s = ⟨s.x + total (fun p => p.1) ps, s.y + total (fun p => p.2) ps, s.xx + total (fun p => p.1 * p.1) ps,
      s.xy + total (fun p => p.1 * p.2) ps, s.yy + total (fun p => p.2 * p.2) ps,
      s.xxx + total (fun p => p.1 * p.1 * p.1) ps, s.xxy + total (fun p => p.1 * p.1 * p.2) ps,
      s.xyy + total (fun p => p.1 * p.2 * p.2) ps, s.yyy + total (fun p => p.2 * p.2 * p.2) ps⟩
  | [], s => by simp [sums, total_nil]
  | p :: ps, s => by
    unfold sums
    simp only
    rw [sums_eq ps]
    simp only [total_cons, add_assoc]

theorem sumRadius_eq (cx cy : ℝ) : ∀ (ps : List (ℝ × ℝ)) (s : ℝ),
    sumRadius cx cy ps s = s + total (fun p => hypot (p.1 - cx) (p.2 - cy)) ps
  | [], s => by simp [sumRadius, total_nil]
  | p :: ps, s => by
    unfold sumRadius
    rw [sumRadius_eq cx cy ps, total_cons, add_assoc]

/-- The determinant of the normal equations. -/
noncomputable def det (ps : List (ℝ × ℝ)) : ℝ :=
  (ps.length * total (fun p => p.1 * p.1) ps - total (fun p => p.1) ps * total (fun p => p.1) ps) *
    (ps.length * total (fun p => p.2 * p.2) ps - total (fun p => p.2) ps * total (fun p => p.2) ps) -
  (ps.length * total (fun p => p.1 * p.2) ps - total (fun p => p.1) ps * total (fun p => p.2) ps) *
    (ps.length * total (fun p => p.1 * p.2) ps - total (fun p => p.1) ps * total (fun p => p.2) ps)

/-- A function whose square has the mean of its mean's square is constant. -/
theorem constant_of_variance {f : ℝ × ℝ → ℝ} {ps : List (ℝ × ℝ)}
    (h : ps.length * total (fun p => f p * f p) ps - total f ps * total f ps = 0) :
    ∀ p ∈ ps, f p = total f ps / ps.length := by
  rcases ps with _ | ⟨p0, ps⟩
  · simp
  set l := p0 :: ps with hl
  have hn : (l.length : ℝ) ≠ 0 := by
    rw [hl, List.length_cons]
    positivity
  set m := total f l / l.length with hm
  have hmm : m * l.length = total f l := by
    rw [hm]
    field_simp
  have e : total (fun p => (f p - m) * (f p - m)) l = 0 := by
    have e1 : total (fun p => (f p - m) * (f p - m)) l = total (fun p => f p * f p + ((-2 * m) * f p + m * m)) l :=
      total_congr fun p _ => by ring
    rw [e1, total_add, total_add, total_mul, total_const]
    have : (l.length : ℝ) * (total (fun p => f p * f p) l + (-2 * m * total f l + l.length * (m * m))) = 0 := by
      rw [← hmm] at h ⊢
      linear_combination h
    exact (mul_eq_zero.1 this).resolve_left hn
  intro p hp
  have := total_sq_eq_zero (f := fun p => f p - m) e p hp
  linarith

/-- The normal equations are regular iff the points are not on one line. -/
theorem det_eq_zero_iff (ps : List (ℝ × ℝ)) : det ps = 0 ↔ OnLine ps := by
  unfold det
  set n : ℝ := (ps.length : ℝ) with hn
  set sx := total (fun p => p.1) ps
  set sy := total (fun p => p.2) ps
  set sxx := total (fun p => p.1 * p.1) ps
  set sxy := total (fun p => p.1 * p.2) ps
  set syy := total (fun p => p.2 * p.2) ps
  constructor
  · intro h
    have key : ∃ u v : ℝ, (u ≠ 0 ∨ v ≠ 0) ∧
        u * u * (n * sxx - sx * sx) + 2 * u * v * (n * sxy - sx * sy) + v * v * (n * syy - sy * sy) = 0 := by
      by_cases hA : n * sxx - sx * sx = 0
      · exact ⟨1, 0, Or.inl one_ne_zero, by rw [hA]; ring⟩
      · refine ⟨-(n * sxy - sx * sy), n * sxx - sx * sx, Or.inr hA, ?_⟩
        linear_combination (n * sxx - sx * sx) * h
    obtain ⟨u, v, huv, hz⟩ := key
    refine ⟨u, v, total (fun p => u * p.1 + v * p.2) ps / ps.length, huv, ?_⟩
    apply constant_of_variance (f := fun p => u * p.1 + v * p.2)
    have e1 : total (fun p => (u * p.1 + v * p.2) * (u * p.1 + v * p.2)) ps =
        u * u * sxx + (2 * u * v * sxy + v * v * syy) := by
      rw [← total_mul, ← total_mul, ← total_mul, ← total_add, ← total_add]
      exact total_congr fun p _ => by ring
    have e2 : total (fun p => u * p.1 + v * p.2) ps = u * sx + v * sy := by
      rw [← total_mul, ← total_mul, ← total_add]
    rw [e1, e2]
    linear_combination hz
  · rintro ⟨u, v, w, huv, hw⟩
    have e0 : u * sx + v * sy = n * w := by
      rw [← total_mul, ← total_mul, ← total_add, hn, ← total_const]
      exact total_congr hw
    have e1 : u * sxx + v * sxy = w * sx := by
      rw [← total_mul, ← total_mul, ← total_mul, ← total_add]
      exact total_congr fun p hp => by linear_combination p.1 * hw p hp
    have e2 : u * sxy + v * syy = w * sy := by
      rw [← total_mul, ← total_mul, ← total_mul, ← total_add]
      exact total_congr fun p hp => by linear_combination p.2 * hw p hp
    have f1 : u * (n * sxx - sx * sx) + v * (n * sxy - sx * sy) = 0 := by linear_combination n * e1 - sx * e0
    have f2 : u * (n * sxy - sx * sy) + v * (n * syy - sy * sy) = 0 := by linear_combination n * e2 - sy * e0
    rcases huv with hu | hv
    · refine (mul_eq_zero.1 (?_ : u * _ = 0)).resolve_left hu
      linear_combination (n * syy - sy * sy) * f1 - (n * sxy - sx * sy) * f2
    · refine (mul_eq_zero.1 (?_ : v * _ = 0)).resolve_left hv
      linear_combination (n * sxx - sx * sx) * f2 - (n * sxy - sx * sy) * f1

/-- C59: a circle is returned iff the points are not on one line (otherwise the code divides by zero). -/
theorem fit_defined_iff (points : List (ℝ × ℝ)) : fitCircle points = none ↔ OnLine points := by
  rw [← det_eq_zero_iff]
  unfold fitCircle det
  simp only [sums_eq, zero_add]
  constructor
  · intro h
    split at h
    · assumption
    · cases h
  · intro h
    rw [if_pos h]

/-- C59: points of a circle that are not on one line give that circle. -/
theorem fit_exact {cx cy r : ℝ} (hr : 0 ≤ r) {points : List (ℝ × ℝ)} (hp : ∀ p ∈ points, OnCircle cx cy r p)
    (hl : ¬ OnLine points) : fitCircle points = some (cx, cy, r) := by
  have hdet : det points ≠ 0 := fun h => hl ((det_eq_zero_iff points).1 h)
  have hn : (points.length : ℝ) ≠ 0 := by
    intro h
    apply hl
    have : points = [] := List.length_eq_zero_iff.1 (by exact_mod_cast h)
    subst this
    exact ⟨1, 0, 0, Or.inl one_ne_zero, by simp⟩
  unfold fitCircle
  simp only [sums_eq, zero_add]
  unfold det at hdet
  rw [if_neg hdet]
  set n : ℝ := (points.length : ℝ) with hnd
  set sx := total (fun p => p.1) points with hsx
  set sy := total (fun p => p.2) points with hsy
  set sxx := total (fun p => p.1 * p.1) points with hsxx
  set sxy := total (fun p => p.1 * p.2) points with hsxy
  set syy := total (fun p => p.2 * p.2) points with hsyy
  set k := r * r - cx * cx - cy * cy with hk
  have hq : ∀ p ∈ points, p.1 * p.1 + p.2 * p.2 = 2 * cx * p.1 + (2 * cy * p.2 + k) := by
    intro p h
    have := hp p h
    unfold OnCircle at this
    rw [hk]
    linear_combination this
  have e0 : sxx + syy = 2 * cx * sx + (2 * cy * sy + n * k) := by
    rw [hsxx, hsyy, ← total_add, total_congr hq, total_add, total_add, total_mul, total_mul, total_const]
  have e1 : total (fun p => p.1 * p.1 * p.1) points + total (fun p => p.1 * p.2 * p.2) points =
      2 * cx * sxx + (2 * cy * sxy + k * sx) := by
    rw [← total_add, hsxx, hsxy, hsx, ← total_mul, ← total_mul, ← total_mul, ← total_add, ← total_add]
    exact total_congr fun p h => by linear_combination p.1 * hq p h
  have e2 : total (fun p => p.1 * p.1 * p.2) points + total (fun p => p.2 * p.2 * p.2) points =
      2 * cx * sxy + (2 * cy * syy + k * sy) := by
    rw [← total_add, hsyy, hsxy, hsy, ← total_mul, ← total_mul, ← total_mul, ← total_add, ← total_add]
    exact total_congr fun p h => by linear_combination p.2 * hq p h
  set sxxx := total (fun p => p.1 * p.1 * p.1) points
  set sxyy := total (fun p => p.1 * p.2 * p.2) points
  set sxxy := total (fun p => p.1 * p.1 * p.2) points
  set syyy := total (fun p => p.2 * p.2 * p.2) points
  have hD : 1 / 2 * (n * sxyy - sx * syy + n * sxxx - sx * sxx) = cx * (n * sxx - sx * sx) + cy * (n * sxy - sx * sy) := by
    linear_combination (n / 2) * e1 - (sx / 2) * e0
  have hE : 1 / 2 * (n * sxxy - sy * sxx + n * syyy - sy * syy) = cx * (n * sxy - sx * sy) + cy * (n * syy - sy * sy) := by
    linear_combination (n / 2) * e2 - (sy / 2) * e0
  rw [hD, hE]
  have hX : ((cx * (n * sxx - sx * sx) + cy * (n * sxy - sx * sy)) * (n * syy - sy * sy) -
      (n * sxy - sx * sy) * (cx * (n * sxy - sx * sy) + cy * (n * syy - sy * sy))) /
        ((n * sxx - sx * sx) * (n * syy - sy * sy) - (n * sxy - sx * sy) * (n * sxy - sx * sy)) = cx := by
    rw [div_eq_iff hdet]
    ring
  have hY : ((n * sxx - sx * sx) * (cx * (n * sxy - sx * sy) + cy * (n * syy - sy * sy)) -
      (n * sxy - sx * sy) * (cx * (n * sxx - sx * sx) + cy * (n * sxy - sx * sy))) /
        ((n * sxx - sx * sx) * (n * syy - sy * sy) - (n * sxy - sx * sy) * (n * sxy - sx * sy)) = cy := by
    rw [div_eq_iff hdet]
    ring
  rw [hX, hY, sumRadius_eq, zero_add]
  have hR : total (fun p => hypot (p.1 - cx) (p.2 - cy)) points = n * r := by
    rw [hnd, ← total_const]
    refine total_congr fun p h => ?_
    have := hp p h
    unfold OnCircle at this
    unfold hypot
    rw [show (p.1 - cx) * (p.1 - cx) + (p.2 - cy) * (p.2 - cy) = r * r by linear_combination this]
    exact Real.sqrt_mul_self hr
  rw [hR, mul_div_cancel_left₀ _ hn]

/-! ## Absolute conic (C72) -/

/-- The homography of a view of a plane by a camera with focal lengths `fu`, `fv` and image centre `(cu, cv)` (no
distortion): the columns are the images of the two axes and the origin of the plane, which has the pose
`(r1, r2, t)` in the frame of the camera; `s` is the arbitrary scale of a homography. -/
def homography (fu fv cu cv s : ℝ) (r1 r2 t : Fin 3 → ℝ) : H3 := fun i j =>
  let c := if j = 0 then r1 else if j = 1 then r2 else t
  s * (if i = 0 then fu * c 0 + cu * c 2 else if i = 1 then fv * c 1 + cv * c 2 else c 2)

/-- The axes of the plane are orthogonal and have length one. -/
def Orthonormal (r1 r2 : Fin 3 → ℝ) : Prop :=
  normSq r1 = 1 ∧ normSq r2 = 1 ∧ r1 0 * r2 0 + r1 1 * r2 1 + r1 2 * r2 2 = 0

/-- What is expected of `cv::solve`: regular systems are solved. -/
def Solves (solve : Matrix (Fin 2) (Fin 2) ℝ → (Fin 2 → ℝ) → Fin 2 → ℝ) : Prop :=
  ∀ (A : Matrix (Fin 2) (Fin 2) ℝ) (b : Fin 2 → ℝ), A.det ≠ 0 → A.mulVec (solve A b) = b

/-- The two rows of an exact view hold for the focal lengths. -/
theorem conicRows_exact {fu fv cu cv s : ℝ} (hu : fu ≠ 0) (hv : fv ≠ 0) {r1 r2 : Fin 3 → ℝ} (t : Fin 3 → ℝ)
    (ho : Orthonormal r1 r2) :
    let rows := conicRows cu cv (homography fu fv cu cv s r1 r2 t)
    rows.1.1 * (1 / fu ^ 2) + rows.1.2.1 * (1 / fv ^ 2) = rows.1.2.2 ∧
      rows.2.1 * (1 / fu ^ 2) + rows.2.2.1 * (1 / fv ^ 2) = rows.2.2.2 := by
  obtain ⟨h1, h2, h3⟩ := ho
  unfold normSq at h1 h2
  unfold conicRows scaled centred homography
  simp only [if_true, Fin.isValue, one_ne_zero, if_false, show ((2 : Fin 3) = 0) = False by decide,
    show ((2 : Fin 3) = 1) = False by decide, show ((1 : Fin 3) = 0) = False by decide]
  generalize 1 / Real.sqrt (normSq _) = n0
  generalize 1 / Real.sqrt (normSq _) = n1
  generalize 1 / Real.sqrt (normSq _) = n2
  generalize 1 / Real.sqrt (normSq _) = n3
  constructor
  · field_simp
    linear_combination s ^ 2 * n0 * n1 * fu ^ 2 * fv ^ 2 * h3
  · field_simp
    linear_combination s ^ 2 * n2 * n3 * fu ^ 2 * fv ^ 2 * (h1 - h2)

/-- C72: if all corners were observed in every view, the camera has no distortion and its optical axis goes through the
centre of the image, the focal lengths are exact, provided that the views determine them.  Missing: views with unobserved
corners, see `conic_garbage_refuted`. -/
theorem conic_exact_partial {solve : Matrix (Fin 2) (Fin 2) ℝ → (Fin 2 → ℝ) → Fin 2 → ℝ} (hsolve : Solves solve)
    {fu fv width height : ℝ} (hu : 0 < fu) (hv : 0 < fv)
    (views : List (ℝ × (Fin 3 → ℝ) × (Fin 3 → ℝ) × (Fin 3 → ℝ))) (ho : ∀ w ∈ views, Orthonormal w.2.1 w.2.2.1)
    (garbage : List ((ℝ × ℝ × ℝ) × (ℝ × ℝ × ℝ)))
    (hreg : (normalMatrix (conicSystem ((width - 1) / 2) ((height - 1) / 2)
      (views.map fun w => some (homography fu fv ((width - 1) / 2) ((height - 1) / 2) w.1 w.2.1 w.2.2.1 w.2.2.2))
      garbage)).det ≠ 0) :
    absoluteConic solve width height
      (views.map fun w => some (homography fu fv ((width - 1) / 2) ((height - 1) / 2) w.1 w.2.1 w.2.2.1 w.2.2.2))
      garbage = (fu, fv, (width - 1) / 2, (height - 1) / 2) := by
  set cu := (width - 1) / 2
  set cv := (height - 1) / 2
  set obs := views.map fun w => some (homography fu fv cu cv w.1 w.2.1 w.2.2.1 w.2.2.2) with hobs
  set rows := conicSystem cu cv obs garbage with hrows
  have hall : ∀ r ∈ rows, r.1 * (1 / fu ^ 2) + r.2.1 * (1 / fv ^ 2) = r.2.2 := by
    rw [hrows, hobs]
    clear_value cu cv
    clear hreg hrows hobs rows obs
    induction views generalizing garbage with
    | nil => simp [conicSystem]
    | cons w ws ih =>
      intro r hr
      simp only [List.map_cons, conicSystem, List.mem_cons] at hr
      have hx := conicRows_exact (cu := cu) (cv := cv) (s := w.1) hu.ne' hv.ne' w.2.2.2 (ho w (by simp))
      rcases hr with rfl | rfl | hr
      · exact hx.1
      · exact hx.2
      · exact ih (fun w hw => ho w (by simp [hw])) garbage.tail r hr
  have hnormal : (normalMatrix rows).mulVec ![1 / fu ^ 2, 1 / fv ^ 2] = normalVector rows := by
    have key : ∀ (g : ℝ × ℝ × ℝ → ℝ) (l : List (ℝ × ℝ × ℝ)),
        (∀ r ∈ l, r.1 * (1 / fu ^ 2) + r.2.1 * (1 / fv ^ 2) = r.2.2) →
          (l.map fun r => g r * r.1).sum * (1 / fu ^ 2) + (l.map fun r => g r * r.2.1).sum * (1 / fv ^ 2) =
            (l.map fun r => g r * r.2.2).sum := by
      intro g l hl
      induction l with
      | nil => simp
      | cons r l ih =>
        simp only [List.map_cons, List.sum_cons]
        linear_combination ih (fun r hr => hl r (by simp [hr])) + g r * hl r (by simp)
    have k1 := key (fun r => r.1) rows hall
    have k2 := key (fun r => r.2.1) rows hall
    have hc : (rows.map fun r => r.2.1 * r.1) = rows.map fun r => r.1 * r.2.1 :=
      List.map_congr_left fun r _ => mul_comm _ _
    rw [hc] at k2
    unfold normalMatrix normalVector
    funext i
    fin_cases i
    · simpa [Matrix.mulVec, dotProduct, Fin.sum_univ_two] using k1
    · simpa [Matrix.mulVec, dotProduct, Fin.sum_univ_two] using k2
  have hf : solve (normalMatrix rows) (normalVector rows) = ![1 / fu ^ 2, 1 / fv ^ 2] := by
    have hx := hsolve (normalMatrix rows) (normalVector rows) hreg
    have hunit : IsUnit (normalMatrix rows) := (Matrix.isUnit_iff_isUnit_det _).2 (isUnit_iff_ne_zero.2 hreg)
    apply Matrix.mulVec_injective_iff_isUnit.2 hunit
    show Matrix.mulVec _ _ = Matrix.mulVec _ _
    rw [hx, hnormal]
  unfold absoluteConic
  simp only
  rw [← hrows, hf]
  have q : ∀ f : ℝ, 0 < f → Real.sqrt |1 / (1 / f ^ 2)| = f := by
    intro f h
    rw [one_div_one_div, abs_of_nonneg (by positivity), Real.sqrt_sq h.le]
  refine Prod.ext ?_ (Prod.ext ?_ rfl)
  · simpa using q fu hu
  · simpa using q fv hv

/-- Views with unobserved corners leave rows of the system as they were in memory: whatever focal lengths are wanted,
there are contents of the memory for which they are returned, and success is reported. -/
theorem conic_garbage_refuted {solve : Matrix (Fin 2) (Fin 2) ℝ → (Fin 2 → ℝ) → Fin 2 → ℝ} (hsolve : Solves solve)
    (width height : ℝ) {fu fv : ℝ} (hu : 0 < fu) (hv : 0 < fv) :
    ∃ garbage, absoluteConic solve width height [none] garbage = (fu, fv, (width - 1) / 2, (height - 1) / 2) := by
  refine ⟨[((1, 0, 1 / fu ^ 2), (0, 1, 1 / fv ^ 2))], ?_⟩
  have hf : solve (normalMatrix [(1, 0, 1 / fu ^ 2), (0, 1, 1 / fv ^ 2)])
      (normalVector [(1, 0, 1 / fu ^ 2), (0, 1, 1 / fv ^ 2)]) = ![1 / fu ^ 2, 1 / fv ^ 2] := by
    have h1 : normalMatrix [(1, 0, 1 / fu ^ 2), (0, 1, 1 / fv ^ 2)] = 1 := by
      unfold normalMatrix
      ext i j
      fin_cases i <;> fin_cases j <;> simp
    have h2 : normalVector [(1, 0, 1 / fu ^ 2), (0, 1, 1 / fv ^ 2)] = ![1 / fu ^ 2, 1 / fv ^ 2] := by
      unfold normalVector
      simp
    have := hsolve 1 ![1 / fu ^ 2, 1 / fv ^ 2] (by simp)
    rw [Matrix.one_mulVec] at this
    rw [h1, h2, this]
  unfold absoluteConic
  simp only [conicSystem, List.headD_cons]
  rw [hf]
  have q : ∀ f : ℝ, 0 < f → Real.sqrt |1 / (1 / f ^ 2)| = f := by
    intro f h
    rw [one_div_one_div, abs_of_nonneg (by positivity), Real.sqrt_sq h.le]
  refine Prod.ext ?_ (Prod.ext ?_ rfl)
  · simpa using q fu hu
  · simpa using q fv hv

/-! ## Concrete cases -/

/-- Two circles of radius 5, 6 apart, meet above and below the middle. -/
example : ∃ l, intersectCircles 0 0 5 6 0 5 = some l ∧ l.length = 2 := by
  obtain ⟨l, h, -, h2⟩ := intersect_partial (x1 := 0) (y1 := 0) (r1 := 5) (x2 := 6) (y2 := 0) (r2 := 5) (by norm_num)
    (by norm_num) (by simp)
  refine ⟨l, h, ?_⟩
  have hd : hypot (0 - 6) (0 - 0) = 6 := by
    unfold hypot
    rw [show ((0 : ℝ) - 6) * (0 - 6) + (0 - 0) * (0 - 0) = 6 * 6 by norm_num]
    exact Real.sqrt_mul_self (by norm_num)
  have h4 : Real.sqrt 16 = 4 := by
    rw [show (16 : ℝ) = 4 * 4 by norm_num]
    exact Real.sqrt_mul_self (by norm_num)
  unfold intersectCircles at h
  simp only at h
  rw [hd] at h
  norm_num [h4] at h
  rw [← h]
  rfl

/-- Three points of the circle around (1, 2) with radius 5. -/
example : fitCircle [(6, 2), (1, 7), (-4, 2)] = some (1, 2, 5) := by
  refine fit_exact (by norm_num) ?_ ?_
  · intro p hp
    simp only [List.mem_cons, List.not_mem_nil, or_false] at hp
    rcases hp with rfl | rfl | rfl <;> unfold OnCircle <;> norm_num
  · rintro ⟨u, v, w, huv, h⟩
    have a := h (6, 2) (by simp)
    have b := h (1, 7) (by simp)
    have c := h (-4, 2) (by simp)
    simp only at a b c
    rcases huv with hu | hv
    · exact hu (by linarith)
    · exact hv (by linarith)

/-- Inverting regular matrices solves regular systems. -/
noncomputable def bySolving (A : Matrix (Fin 2) (Fin 2) ℝ) (b : Fin 2 → ℝ) : Fin 2 → ℝ := A⁻¹.mulVec b

theorem bySolving_solves : Solves bySolving := by
  intro A b h
  unfold bySolving
  rw [Matrix.mulVec_mulVec, Matrix.mul_nonsing_inv _ (isUnit_iff_ne_zero.2 h), Matrix.one_mulVec]

/-- One view of a tilted plane determines both focal lengths. -/
example : absoluteConic bySolving 641 481
    ([(1, ![2 / 3, 1 / 3, 2 / 3], ![-2 / 3, 2 / 3, 1 / 3], ![0, 0, 1])].map fun w =>
      some (homography 400 500 ((641 - 1) / 2) ((481 - 1) / 2) w.1 w.2.1 w.2.2.1 w.2.2.2)) [] =
    (400, 500, (641 - 1) / 2, (481 - 1) / 2) := by
  refine conic_exact_partial bySolving_solves (by norm_num) (by norm_num) _ ?_ [] ?_
  · intro w hw
    simp only [List.mem_singleton] at hw
    subst hw
    refine ⟨?_, ?_, ?_⟩ <;> simp [normSq] <;> norm_num
  · have hpos : ∀ x : ℝ, 0 < x → 1 / Real.sqrt x ≠ 0 := fun x hx => (one_div_pos.2 (Real.sqrt_pos.2 hx)).ne'
    simp only [List.map_cons, List.map_nil, conicSystem, normalMatrix, Matrix.det_fin_two_of, List.sum_cons, List.sum_nil]
    unfold conicRows
    simp only [scaled]
    have e : ∀ (n0 n1 n2 n3 : ℝ), n0 ≠ 0 → n1 ≠ 0 → n2 ≠ 0 → n3 ≠ 0 →
        (-(4 / 9) * 160000 * n0 * n1) * (-(1 / 12) * 250000 * n2 * n3) ≠ 0 := by
      intro n0 n1 n2 n3 h0 h1 h2 h3
      positivity
    set H := centred ((641 - 1) / 2) ((481 - 1) / 2) (homography 400 500 ((641 - 1) / 2) ((481 - 1) / 2) 1
      ![2 / 3, 1 / 3, 2 / 3] ![-2 / 3, 2 / 3, 1 / 3] ![0, 0, 1]) with hH
    have c00 : H 0 0 = 800 / 3 := by simp [hH, centred, homography]; norm_num
    have c10 : H 1 0 = 500 / 3 := by simp [hH, centred, homography]; norm_num
    have c20 : H 2 0 = 2 / 3 := by simp [hH, centred, homography]
    have c01 : H 0 1 = -800 / 3 := by simp [hH, centred, homography]; norm_num
    have c11 : H 1 1 = 1000 / 3 := by simp [hH, centred, homography]; norm_num
    have c21 : H 2 1 = 1 / 3 := by simp [hH, centred, homography]
    have p0 := hpos (normSq fun j => H j 0) (by simp only [normSq, c00, c10, c20]; norm_num)
    have p1 := hpos (normSq fun j => H j 1) (by simp only [normSq, c01, c11, c21]; norm_num)
    have p2 := hpos (normSq fun j => (H j 0 + H j 1) * (1 / 2))
      (by simp only [normSq, c00, c10, c20, c01, c11, c21]; norm_num)
    have p3 := hpos (normSq fun j => (H j 0 - H j 1) * (1 / 2))
      (by simp only [normSq, c00, c10, c20, c01, c11, c21]; norm_num)
    generalize 1 / Real.sqrt (normSq fun j => H j 0) = n0 at *
    generalize 1 / Real.sqrt (normSq fun j => H j 1) = n1 at *
    generalize 1 / Real.sqrt (normSq fun j => (H j 0 + H j 1) * (1 / 2)) = n2 at *
    generalize 1 / Real.sqrt (normSq fun j => (H j 0 - H j 1) * (1 / 2)) = n3 at *
    rw [c00, c10, c01, c11]
    have := pow_ne_zero 2 (e n0 n1 n2 n3 p0 p1 p2 p3)
    intro h
    apply this
    nlinarith [h]

end Verif.Calibration
