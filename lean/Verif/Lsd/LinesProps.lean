import Mathlib.Tactic.FieldSimp
import Mathlib.Tactic.Linarith
import Mathlib.Tactic.LinearCombination
import Mathlib.Tactic.NormNum
import Mathlib.Algebra.Order.Floor.Ring
import Mathlib.Data.Rat.Floor
import Verif.Lsd.Lines

/-!
# Properties of the operations on line segments (C97, C98)
-/

open scoped Classical

namespace Verif.Lsd.Lines

/-! ## C97: filters -/

/-- C97: a filter keeps the segments that satisfy its condition, in their order, and counts the others. -/
theorem filterLoop_spec (keep : Seg → Prop) (l : List Seg) :
    (filterLoop keep l).1 = l.filter (fun v => decide (keep v)) ∧
      (filterLoop keep l).1.length + (filterLoop keep l).2 = l.length := by
  induction l with
  | nil => simp [filterLoop]
  | cons v vs ih =>
    by_cases h : keep v
    · simp only [filterLoop, if_pos h, List.filter_cons, decide_true, h, if_true, ih.1,
        List.length_cons, true_and]
      have := ih.2
      rw [ih.1] at this
      omega
    · simp only [filterLoop, if_neg h, List.filter_cons, h, decide_false, ih.1, List.length_cons]
      have := ih.2
      rw [ih.1] at this
      simp only [Bool.false_eq_true, if_false, true_and]
      omega

theorem visited_vector (l : List Seg) : (Mat.ofVector l).visited = l := by
  simp [Mat.ofVector, Mat.visited]

theorem visited_copy (l : List Seg) : (Mat.ofCopy l).visited = l.take 1 := rfl

/-- The distance of the ends of a segment, as anybody would write it. -/
noncomputable def distance (v : Seg) : ℝ :=
  Real.sqrt (((v.x2 : ℝ) - v.x1) ^ 2 + ((v.y2 : ℝ) - v.y1) ^ 2)

theorem len_eq (v : Seg) : len v = distance v := by
  unfold len distance
  congr 1
  push_cast
  ring

theorem distance_nonneg (v : Seg) : 0 ≤ distance v := Real.sqrt_nonneg _

/-- C97: filtering a vector of segments by size, with both limits, keeps exactly the segments that
are at least as long as the lower one and shorter than the upper one, in their order, and returns
how many it left out. -/
theorem filterSize_spec (l : List Seg) {lo hi : ℝ} (hlo : 0 ≤ lo) (hhi : 0 ≤ hi) :
    (filterSize (Mat.ofVector l) lo hi).1 =
        l.filter (fun v => decide (lo ≤ distance v ∧ distance v < hi)) ∧
      (filterSize (Mat.ofVector l) lo hi).1.length + (filterSize (Mat.ofVector l) lo hi).2 =
        l.length := by
  have h := filterLoop_spec (sizeIn lo hi) l
  unfold filterSize
  rw [visited_vector]
  refine ⟨?_, h.2⟩
  rw [h.1]
  congr 1
  funext v
  have h1 : ¬ lo = -1 := by linarith
  have h2 : ¬ hi = -1 := by linarith
  simp only [sizeIn, h1, h2, false_or, len_eq]

/-- C97: without an upper limit, every segment that is long enough is kept. -/
theorem filterSize_unlimited (l : List Seg) {lo : ℝ} (hlo : 0 ≤ lo) :
    (filterSize (Mat.ofVector l) lo (-1)).1 = l.filter (fun v => decide (lo ≤ distance v)) := by
  have h := filterLoop_spec (sizeIn lo (-1)) l
  unfold filterSize
  rw [visited_vector, h.1]
  congr 1
  funext v
  have h1 : ¬ lo = -1 := by linarith
  simp only [sizeIn, h1, false_or, len_eq, true_or, and_true]

/-- C97: without limits nothing is left out. -/
theorem filterSize_nolimits (l : List Seg) : filterSize (Mat.ofVector l) (-1) (-1) = (l, 0) := by
  have h := filterLoop_spec (sizeIn (-1) (-1)) l
  have h1 : (filterSize (Mat.ofVector l) (-1) (-1)).1 = l := by
    unfold filterSize
    rw [visited_vector, h.1]
    simp [sizeIn]
  have h2 := h.2
  have h3 : (filterLoop (sizeIn (-1) (-1)) l).1 = l := by
    simpa [filterSize, visited_vector] using h1
  rw [h3] at h2
  refine Prod.ext h1 ?_
  simp only [filterSize, visited_vector]
  omega

/-- C97: the two filters by angle share the segments out: each segment of a vector goes to exactly
one of them, in its order. This holds whatever `fastAtan2` computes. -/
theorem angle_partition (atan2 : ℝ → ℝ → ℝ) (l : List Seg) (lo hi : ℝ) :
    ∃ p : Seg → Bool,
      (retainAngle atan2 (Mat.ofVector l) lo hi).1 = l.filter p ∧
      (filterOutAngle atan2 (Mat.ofVector l) lo hi).1 = l.filter (fun v => !p v) ∧
      (retainAngle atan2 (Mat.ofVector l) lo hi).2 =
        (filterOutAngle atan2 (Mat.ofVector l) lo hi).1.length ∧
      (filterOutAngle atan2 (Mat.ofVector l) lo hi).2 =
        (retainAngle atan2 (Mat.ofVector l) lo hi).1.length := by
  have h := filterLoop_spec (angleIn atan2 lo hi) l
  have h' := filterLoop_spec (fun v => ¬ angleIn atan2 lo hi v) l
  have hlen := List.length_eq_length_filter_add (l := l)
    (fun v => decide (angleIn atan2 lo hi v))
  simp only [decide_not] at h'
  refine ⟨fun v => decide (angleIn atan2 lo hi v), ?_, ?_, ?_, ?_⟩
  · simp only [retainAngle, visited_vector, h.1]
  · simp only [filterOutAngle, visited_vector, h'.1]
  · simp only [retainAngle, filterOutAngle, visited_vector]
    rw [h'.1]
    have := h.2
    rw [h.1] at this
    omega
  · simp only [retainAngle, filterOutAngle, visited_vector]
    rw [h.1]
    have := h'.2
    rw [h'.1] at this
    omega

/-- An arc tangent without rounding, with the range of `fastAtan2`. -/
noncomputable def exactAtan2 (y x : ℝ) : ℝ :=
  if 0 ≤ Complex.arg ⟨x, y⟩ then Complex.arg ⟨x, y⟩ * 180 / Real.pi
  else Complex.arg ⟨x, y⟩ * 180 / Real.pi + 360

/-- The exact arc tangent is from 0 to less than 360 degrees. -/
theorem exactAtan2_range (y x : ℝ) : 0 ≤ exactAtan2 y x ∧ exactAtan2 y x < 360 := by
  have hp := Real.pi_pos
  have h1 := Complex.neg_pi_lt_arg (⟨x, y⟩ : ℂ)
  have h2 := Complex.arg_le_pi (⟨x, y⟩ : ℂ)
  unfold exactAtan2
  split_ifs with h
  · constructor
    · positivity
    · rw [div_lt_iff₀ hp]; nlinarith
  · push Not at h
    constructor
    · have : -(180 : ℝ) ≤ Complex.arg ⟨x, y⟩ * 180 / Real.pi := by
        rw [le_div_iff₀ hp]; nlinarith
      linarith
    · have : Complex.arg ⟨x, y⟩ * 180 / Real.pi < 0 := by
        rw [div_lt_iff₀ hp]; nlinarith
      linarith

/-- C97: with an exact arc tangent the angle by which segments are filtered is from 0 to less than
180 degrees and is the angle of the line through its ends: walking along it, one way or the other,
leads from one end to the other. -/
theorem angle_direction (v : Seg) :
    (0 ≤ angle exactAtan2 v ∧ angle exactAtan2 v < 180) ∧
      ∃ s : ℝ, |s| = distance v ∧
        (v.x2 : ℝ) = v.x1 + s * Real.cos (angle exactAtan2 v * Real.pi / 180) ∧
        (v.y2 : ℝ) = v.y1 + s * Real.sin (angle exactAtan2 v * Real.pi / 180) := by
  have hp := Real.pi_pos
  set z : ℂ := ⟨((v.x2 - v.x1 : Int) : ℝ), ((v.y2 - v.y1 : Int) : ℝ)⟩ with hz
  have hre : ‖z‖ * Real.cos (Complex.arg z) = ((v.x2 - v.x1 : Int) : ℝ) := by
    rw [Complex.norm_mul_cos_arg]
  have him : ‖z‖ * Real.sin (Complex.arg z) = ((v.y2 - v.y1 : Int) : ℝ) := by
    rw [Complex.norm_mul_sin_arg]
  have hn : ‖z‖ = distance v := by
    rw [Complex.norm_eq_sqrt_sq_add_sq]
    unfold distance
    congr 1
    rw [hz]
    push_cast
    ring
  have hr := exactAtan2_range ((v.y2 - v.y1 : Int) : ℝ) ((v.x2 - v.x1 : Int) : ℝ)
  -- the exact arc tangent, back in radians
  have hc : Real.cos (exactAtan2 ((v.y2 - v.y1 : Int) : ℝ) ((v.x2 - v.x1 : Int) : ℝ) * Real.pi / 180)
        = Real.cos (Complex.arg z) ∧
      Real.sin (exactAtan2 ((v.y2 - v.y1 : Int) : ℝ) ((v.x2 - v.x1 : Int) : ℝ) * Real.pi / 180)
        = Real.sin (Complex.arg z) := by
    unfold exactAtan2
    rw [← hz]
    split_ifs with h
    · have : Complex.arg z * 180 / Real.pi * Real.pi / 180 = Complex.arg z := by field_simp
      rw [this]; exact ⟨rfl, rfl⟩
    · have : (Complex.arg z * 180 / Real.pi + 360) * Real.pi / 180 =
          Complex.arg z + 2 * Real.pi := by field_simp; ring
      rw [this, Real.cos_add_two_pi, Real.sin_add_two_pi]; exact ⟨rfl, rfl⟩
  unfold angle
  simp only
  set a := exactAtan2 ((v.y2 - v.y1 : Int) : ℝ) ((v.x2 - v.x1 : Int) : ℝ) with ha
  split_ifs with h
  · refine ⟨⟨by linarith, by linarith [hr.2]⟩, -‖z‖, ?_, ?_, ?_⟩
    · rw [abs_neg, abs_norm, hn]
    · have : (a - 180) * Real.pi / 180 = a * Real.pi / 180 - Real.pi := by ring
      rw [this, Real.cos_sub_pi, hc.1]
      push_cast at hre
      linear_combination -hre
    · have : (a - 180) * Real.pi / 180 = a * Real.pi / 180 - Real.pi := by ring
      rw [this, Real.sin_sub_pi, hc.2]
      push_cast at him
      linear_combination -him
  · push Not at h
    refine ⟨⟨hr.1, h⟩, ‖z‖, ?_, ?_, ?_⟩
    · rw [abs_norm, hn]
    · rw [hc.1]; push_cast at hre; linear_combination -hre
    · rw [hc.2]; push_cast at him; linear_combination -him

/-- The same segment from its end to its start. -/
def Seg.reverse (v : Seg) : Seg := ⟨v.x2, v.y2, v.x1, v.y1⟩

/-- C97: with an exact arc tangent a segment and its reverse pass the same filters. -/
theorem angle_reverse (v : Seg) (hv : distance v ≠ 0) :
    angle exactAtan2 v.reverse = angle exactAtan2 v := by
  have hp := Real.pi_pos
  obtain ⟨⟨h1, h2⟩, s, hs, hx, hy⟩ := angle_direction v
  obtain ⟨⟨k1, k2⟩, t, ht, kx, ky⟩ := angle_direction v.reverse
  set a := angle exactAtan2 v
  set b := angle exactAtan2 v.reverse
  simp only [Seg.reverse] at kx ky
  have hd : distance v.reverse = distance v := by
    unfold distance Seg.reverse
    congr 1
    ring
  have hs0 : s ≠ 0 := by intro h; apply hv; rw [← hs, h, abs_zero]
  have ht0 : t ≠ 0 := by intro h; apply hv; rw [← hd, ← ht, h, abs_zero]
  -- the two directions are parallel
  have hpar : Real.sin (b * Real.pi / 180 - a * Real.pi / 180) = 0 := by
    rw [Real.sin_sub]
    have e1 : t * Real.cos (b * Real.pi / 180) = -(s * Real.cos (a * Real.pi / 180)) := by linarith
    have e2 : t * Real.sin (b * Real.pi / 180) = -(s * Real.sin (a * Real.pi / 180)) := by linarith
    have : t * (Real.sin (b * Real.pi / 180) * Real.cos (a * Real.pi / 180) -
        Real.cos (b * Real.pi / 180) * Real.sin (a * Real.pi / 180)) = 0 := by
      linear_combination Real.cos (a * Real.pi / 180) * e2 - Real.sin (a * Real.pi / 180) * e1
    exact (mul_eq_zero.1 this).resolve_left ht0
  have hlo : -Real.pi < b * Real.pi / 180 - a * Real.pi / 180 := by nlinarith
  have hhi : b * Real.pi / 180 - a * Real.pi / 180 < Real.pi := by nlinarith
  have := (Real.sin_eq_zero_iff_of_lt_of_lt hlo hhi).1 hpar
  have h3 : (b - a) * (Real.pi / 180) = 0 := by linear_combination this
  have h4 : Real.pi / 180 ≠ 0 := by positivity
  linarith [(mul_eq_zero.1 h3).resolve_right h4]

/-- A direction from 0 to less than 180 degrees of the line through two different points is unique. -/
theorem direction_unique {a b s t x y : ℝ} (ha : 0 ≤ a ∧ a < 180) (hb : 0 ≤ b ∧ b < 180) (hs : s ≠ 0)
    (hax : x = s * Real.cos (a * Real.pi / 180)) (hay : y = s * Real.sin (a * Real.pi / 180))
    (hbx : x = t * Real.cos (b * Real.pi / 180)) (hby : y = t * Real.sin (b * Real.pi / 180)) :
    a = b := by
  have hp := Real.pi_pos
  have hpar : Real.sin (a * Real.pi / 180 - b * Real.pi / 180) = 0 := by
    rw [Real.sin_sub]
    have : s * (Real.sin (a * Real.pi / 180) * Real.cos (b * Real.pi / 180) -
        Real.cos (a * Real.pi / 180) * Real.sin (b * Real.pi / 180)) = 0 := by
      have e1 := hax.symm.trans hbx
      have e2 := hay.symm.trans hby
      linear_combination Real.cos (b * Real.pi / 180) * e2 - Real.sin (b * Real.pi / 180) * e1
    exact (mul_eq_zero.1 this).resolve_left hs
  have hlo : -Real.pi < a * Real.pi / 180 - b * Real.pi / 180 := by nlinarith
  have hhi : a * Real.pi / 180 - b * Real.pi / 180 < Real.pi := by nlinarith
  have := (Real.sin_eq_zero_iff_of_lt_of_lt hlo hhi).1 hpar
  have h3 : (a - b) * (Real.pi / 180) = 0 := by linear_combination this
  have h4 : Real.pi / 180 ≠ 0 := by positivity
  linarith [(mul_eq_zero.1 h3).resolve_right h4]

/-- C97: with an exact arc tangent a segment of a vector is retained exactly if the direction of its line,
from 0 to less than 180 degrees, is between the two limits. -/
theorem retained_iff (l : List Seg) (lo hi : ℝ) (v : Seg) (hv : distance v ≠ 0) :
    v ∈ (retainAngle exactAtan2 (Mat.ofVector l) lo hi).1 ↔ v ∈ l ∧
      ∃ a s : ℝ, (0 ≤ a ∧ a < 180) ∧ (lo ≤ a ∧ a ≤ hi) ∧
        (v.x2 : ℝ) = v.x1 + s * Real.cos (a * Real.pi / 180) ∧
        (v.y2 : ℝ) = v.y1 + s * Real.sin (a * Real.pi / 180) := by
  have h := (filterLoop_spec (angleIn exactAtan2 lo hi) l).1
  have e : (retainAngle exactAtan2 (Mat.ofVector l) lo hi).1 =
      l.filter fun v => decide (angleIn exactAtan2 lo hi v) := by
    simp only [retainAngle, visited_vector, h]
  rw [e, List.mem_filter, decide_eq_true_eq]
  obtain ⟨hr, s, hs, hx, hy⟩ := angle_direction v
  have hs0 : s ≠ 0 := by intro h; apply hv; rw [← hs, h, abs_zero]
  refine and_congr_right fun _ => ⟨fun hin => ⟨_, s, hr, hin, hx, hy⟩, ?_⟩
  rintro ⟨a, t, ha, hlim, kx, ky⟩
  have := direction_unique (x := (v.x2 : ℝ) - v.x1) (y := (v.y2 : ℝ) - v.y1) (t := t) hr ha hs0
    (by linarith) (by linarith) (by linarith) (by linarith)
  unfold angleIn
  rw [this]
  exact hlim

/-- The segment from `(0, 0)` to `(3, 0)` has the direction 0. -/
example (l : List Seg) : (⟨0, 0, 3, 0⟩ : Seg) ∈
    (retainAngle exactAtan2 (Mat.ofVector (⟨0, 0, 3, 0⟩ :: l)) 0 10).1 := by
  rw [retained_iff _ _ _ _ (by unfold distance; norm_num)]
  exact ⟨by simp, 0, 3, by norm_num, by norm_num, by norm_num, by norm_num⟩

/-- C97 refuted for matrices: the segments that `detect` copies into a `cv::Mat` are one below the
other, and the filters go along the width of their input. From three segments of which the last two
are longer than 20, the filter for 20 returns none, and says that it left out one. -/
theorem filter_matrix_refuted :
    ∃ l : List Seg, l.length = 3 ∧
      (l.filter fun v => decide (20 ≤ distance v)).length = 2 ∧
      filterSize (Mat.ofCopy l) 20 (-1) = ([], 1) := by
  have h0 : distance ⟨0, 0, 3, 4⟩ = 5 := by
    rw [distance, show (((3 : Int) : ℝ) - ((0 : Int) : ℝ)) ^ 2 + (((4 : Int) : ℝ) - ((0 : Int) : ℝ)) ^ 2
      = 5 ^ 2 by norm_num]
    exact Real.sqrt_sq (by norm_num)
  have h1 : distance ⟨0, 0, 30, 40⟩ = 50 := by
    rw [distance, show (((30 : Int) : ℝ) - ((0 : Int) : ℝ)) ^ 2 +
      (((40 : Int) : ℝ) - ((0 : Int) : ℝ)) ^ 2 = 50 ^ 2 by norm_num]
    exact Real.sqrt_sq (by norm_num)
  refine ⟨[⟨0, 0, 3, 4⟩, ⟨0, 0, 30, 40⟩, ⟨0, 0, 30, 40⟩], rfl, ?_, ?_⟩
  · simp only [List.filter_cons, h0, h1]
    norm_num
  · unfold filterSize
    rw [visited_copy]
    have : ¬ sizeIn 20 (-1) ⟨0, 0, 3, 4⟩ := by
      rw [sizeIn, len_eq, h0]
      norm_num
    simp [filterLoop, this]

/-- C97: `LineSegmentDetector::detect` returns, in order, exactly the segments of the inner detector
that are at least as long as the option says. -/
theorem detect_spec (minLength : Nat) (raw : List Seg) :
    detect minLength raw = raw.filter (fun v => decide ((minLength : ℝ) ≤ distance v)) :=
  filterSize_unlimited raw (Nat.cast_nonneg _)

/-- A segment of exactly the least length is kept, although the documentation asks for longer ones. -/
example : detect 5 [⟨0, 0, 3, 4⟩, ⟨0, 0, 3, 3⟩] = [⟨0, 0, 3, 4⟩] := by
  have h0 : distance ⟨0, 0, 3, 4⟩ = 5 := by
    rw [distance, show (((3 : Int) : ℝ) - ((0 : Int) : ℝ)) ^ 2 + (((4 : Int) : ℝ) - ((0 : Int) : ℝ)) ^ 2
      = 5 ^ 2 by norm_num]
    exact Real.sqrt_sq (by norm_num)
  have h1 : distance ⟨0, 0, 3, 3⟩ < 5 := by
    rw [distance, Real.sqrt_lt' (by norm_num)]
    norm_num
  rw [detect_spec]
  have h2 : ¬ ((5 : ℕ) : ℝ) ≤ distance ⟨0, 0, 3, 3⟩ := by push_cast; linarith
  simp only [List.filter_cons, h0, h2]
  norm_num

/-! ## C98: intersection -/

/-- The point `(x, y)` is on the line through the ends of the segment. -/
def OnLine (v : Seg) (x y : Rat) : Prop :=
  (x - v.x1) * (v.y2 - v.y1) = (y - v.y1) * (v.x2 - v.x1)

/-- The two directions are parallel (or one of them is zero). -/
def Parallel (v w : Seg) : Prop :=
  (v.x2 - v.x1) * (w.y2 - w.y1) = (w.x2 - w.x1) * (v.y2 - v.y1)

theorem toInt_near (q : Rat) : |(toInt q : Rat) - q| < 1 ∧ |(toInt q : Rat)| ≤ |q| := by
  unfold toInt
  split_ifs with h
  · have h1 := Int.floor_le q
    have h2 := Int.lt_floor_add_one q
    have h3 : (0 : Int) ≤ ⌊q⌋ := Int.floor_nonneg.2 h
    have h4 : (0 : Rat) ≤ (⌊q⌋ : Int) := by exact_mod_cast h3
    constructor
    · rw [abs_lt]; constructor <;> linarith
    · rw [abs_of_nonneg h4, abs_of_nonneg h]; exact h1
  · push Not at h
    have h1 := Int.le_ceil q
    have h2 := Int.ceil_lt_add_one q
    have h3 : ⌈q⌉ ≤ 0 := Int.ceil_le.2 (by simpa using h.le)
    have h4 : ((⌈q⌉ : Int) : Rat) ≤ 0 := by exact_mod_cast h3
    constructor
    · rw [abs_lt]; constructor <;> linarith
    · rw [abs_of_nonpos h4, abs_of_neg h]; linarith

theorem det_zero_iff (v w : Seg) :
    (eqParams v).1 * (eqParams w).2.1 - (eqParams w).1 * (eqParams v).2.1 = 0 ↔ Parallel v w := by
  have : (eqParams v).1 * (eqParams w).2.1 - (eqParams w).1 * (eqParams v).2.1 =
      (((v.x2 - v.x1) * (w.y2 - w.y1) - (w.x2 - w.x1) * (v.y2 - v.y1) : Int) : Rat) := by
    simp only [eqParams]
    push_cast
    ring
  rw [this, Parallel]
  constructor
  · intro h
    have : (v.x2 - v.x1) * (w.y2 - w.y1) - (w.x2 - w.x1) * (v.y2 - v.y1) = 0 := by exact_mod_cast h
    omega
  · intro h
    rw [h]
    simp

theorem onLine_iff (v : Seg) (x y : Rat) :
    OnLine v x y ↔ (eqParams v).1 * x + (eqParams v).2.1 * y = (eqParams v).2.2 := by
  simp only [OnLine, eqParams]
  push_cast
  constructor <;> intro h <;> linear_combination h

/-- C98: `intersection` returns false exactly for parallel lines. -/
theorem intersection_false_iff (v w : Seg) (r s : List Seg) :
    intersection (v :: r) (w :: s) = .ok none ↔ Parallel v w := by
  rw [← det_zero_iff]
  unfold intersection
  simp only
  split_ifs with h h'
  · simp [h]
  · simp [h]
  · simp [h]

/-- C98: if it returns a point, the two lines have exactly one common point, and the returned one
differs from it by less than one pixel in each coordinate, towards zero. -/
theorem intersection_point {v w : Seg} {r s : List Seg} {p : Int × Int}
    (h : intersection (v :: r) (w :: s) = .ok (some p)) :
    ∃ x y : Rat, (OnLine v x y ∧ OnLine w x y) ∧
      (∀ x' y', OnLine v x' y' → OnLine w x' y' → x' = x ∧ y' = y) ∧
      (|(p.1 : Rat) - x| < 1 ∧ |(p.2 : Rat) - y| < 1) ∧
      |(p.1 : Rat)| ≤ |x| ∧ |(p.2 : Rat)| ≤ |y| := by
  have hnp : ¬ Parallel v w := by
    intro hp
    rw [(intersection_false_iff v w r s).2 hp] at h
    cases h
  have hdet := fun hd => hnp ((det_zero_iff v w).1 hd)
  unfold intersection at h
  simp only at h
  rw [if_neg hdet] at h
  split_ifs at h with hf
  have hp : p = (toInt (((eqParams w).2.1 * (eqParams v).2.2 - (eqParams v).2.1 * (eqParams w).2.2) /
      ((eqParams v).1 * (eqParams w).2.1 - (eqParams w).1 * (eqParams v).2.1)),
      toInt (((eqParams v).1 * (eqParams w).2.2 - (eqParams w).1 * (eqParams v).2.2) /
      ((eqParams v).1 * (eqParams w).2.1 - (eqParams w).1 * (eqParams v).2.1))) := by
    cases h; rfl
  generalize hA1 : (eqParams v).1 = a1 at *
  generalize hB1 : (eqParams v).2.1 = b1 at *
  generalize hC1 : (eqParams v).2.2 = c1 at *
  generalize hA2 : (eqParams w).1 = a2 at *
  generalize hB2 : (eqParams w).2.1 = b2 at *
  generalize hC2 : (eqParams w).2.2 = c2 at *
  have hd : a1 * b2 - a2 * b1 ≠ 0 := hdet
  refine ⟨(b2 * c1 - b1 * c2) / (a1 * b2 - a2 * b1), (a1 * c2 - a2 * c1) / (a1 * b2 - a2 * b1),
    ⟨?_, ?_⟩, ?_, ⟨?_, ?_⟩, ?_, ?_⟩
  · rw [onLine_iff, hA1, hB1, hC1, mul_div_assoc', mul_div_assoc', ← add_div, div_eq_iff hd]; ring
  · rw [onLine_iff, hA2, hB2, hC2, mul_div_assoc', mul_div_assoc', ← add_div, div_eq_iff hd]; ring
  · intro x' y' h1 h2
    rw [onLine_iff, hA1, hB1, hC1] at h1
    rw [onLine_iff, hA2, hB2, hC2] at h2
    constructor
    · rw [eq_div_iff hd]; linear_combination b2 * h1 - b1 * h2
    · rw [eq_div_iff hd]; linear_combination a1 * h2 - a2 * h1
  · rw [hp]; exact (toInt_near _).1
  · rw [hp]; exact (toInt_near _).1
  · rw [hp]; exact (toInt_near _).2
  · rw [hp]; exact (toInt_near _).2

/-- C98: a returned point has coordinates of the type `int`; without such coordinates the conversion is
undefined. -/
theorem intersection_fits {v w : Seg} {r s : List Seg} {p : Int × Int}
    (h : intersection (v :: r) (w :: s) = .ok (some p)) :
    (-2147483648 ≤ p.1 ∧ p.1 ≤ 2147483647) ∧ (-2147483648 ≤ p.2 ∧ p.2 ≤ 2147483647) := by
  unfold intersection at h
  simp only at h
  split_ifs at h with h1 hf
  · cases h
  injection h with h
  injection h with h
  rw [← h]
  simp only [fits, Bool.and_eq_true, decide_eq_true_eq] at hf
  exact hf

/-- Two lines that are nearly parallel and upright meet beyond the rows that can be counted. -/
example : intersection [⟨0, 0, 0, 10⟩] [⟨1000000, 0, 999999, 10000⟩] = .ub := by decide +kernel

/-- C98: no segment given: an exception. -/
theorem intersection_empty (l : List Seg) :
    intersection [] l = .exc ∧ intersection l [] = .exc := by
  constructor
  · rfl
  · cases l <;> rfl

/-- C98: the order of the arguments and the direction of the segments do not matter. -/
theorem intersection_symm (v w : Seg) : intersection [v] [w] = intersection [w] [v] := by
  unfold intersection
  simp only
  set a1 := (eqParams v).1
  set b1 := (eqParams v).2.1
  set c1 := (eqParams v).2.2
  set a2 := (eqParams w).1
  set b2 := (eqParams w).2.1
  set c2 := (eqParams w).2.2
  have hx : (b1 * c2 - b2 * c1) / (a2 * b1 - a1 * b2) = (b2 * c1 - b1 * c2) / (a1 * b2 - a2 * b1) := by
    rw [← neg_div_neg_eq]; congr 1 <;> ring
  have hy : (a2 * c1 - a1 * c2) / (a2 * b1 - a1 * b2) = (a1 * c2 - a2 * c1) / (a1 * b2 - a2 * b1) := by
    rw [← neg_div_neg_eq]; congr 1 <;> ring
  rw [hx, hy]
  by_cases h : a1 * b2 - a2 * b1 = 0
  · rw [if_pos h, if_pos (by linarith)]
  · have h' : ¬ a2 * b1 - a1 * b2 = 0 := fun h' => h (by linarith)
    rw [if_neg h, if_neg h']

/-- C98 refuted: the returned point need not be on the lines: the diagonals of a square of side one
meet at its middle, the returned point is a corner; here it is a point of one of the lines only. And
the segments themselves need not meet. -/
theorem intersection_on_both_refuted :
    ∃ v w : Seg, ∃ p : Int × Int, intersection [v] [w] = .ok (some p) ∧
      ¬ OnLine w p.1 p.2 := by
  refine ⟨⟨0, 0, 1, 1⟩, ⟨1, 0, 0, 1⟩, (0, 0), by decide +kernel, ?_⟩
  simp [OnLine]

/-- C98, refuted: the point need not be on the segments, only near the lines through them. -/
theorem intersection_segments_refuted :
    ∃ v w : Seg, intersection [v] [w] = .ok (some (10, 0)) ∧
      (v.x1 ≤ 1 ∧ v.x2 ≤ 1 ∧ w.x1 = 10 ∧ w.x2 = 10) :=
  ⟨⟨0, 0, 1, 0⟩, ⟨10, 5, 10, 7⟩, by decide +kernel, by decide⟩

example : intersection [⟨0, 0, 4, 4⟩] [⟨0, 4, 4, 0⟩] = .ok (some (2, 2)) := by decide +kernel
example : intersection [⟨0, 0, 4, 4⟩] [⟨1, 0, 3, 2⟩] = .ok none := by decide +kernel

end Verif.Lsd.Lines
