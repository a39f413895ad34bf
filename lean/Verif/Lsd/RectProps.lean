import Mathlib.Algebra.BigOperators.Group.List.Lemmas
import Mathlib.Algebra.Order.BigOperators.Group.List
import Mathlib.Tactic.LinearCombination
import Verif.Lsd.GrowProps
import Verif.Lsd.Rect

/-!
# Properties of the rectangle of a region (C101)
-/

open scoped Classical

namespace Verif.Lsd

/-! ### Sums over a region -/

theorem over_cons (q : Px) (reg : List Px) (f : Px → ℝ) : over (q :: reg) f = f q + over reg f := by
  simp [over]

theorem over_add (reg : List Px) (f g : Px → ℝ) :
    over reg (fun q => f q + g q) = over reg f + over reg g := by
  induction reg with
  | nil => simp [over]
  | cons q t ih => rw [over_cons, over_cons, over_cons, ih]; ring

theorem over_mul (reg : List Px) (c : ℝ) (f : Px → ℝ) :
    over reg (fun q => c * f q) = c * over reg f := by
  induction reg with
  | nil => simp [over]
  | cons q t ih => rw [over_cons, over_cons, ih]; ring

theorem over_congr {reg : List Px} {f g : Px → ℝ} (h : ∀ q ∈ reg, f q = g q) :
    over reg f = over reg g := by
  unfold over
  rw [List.map_congr_left h]

theorem over_nonneg {reg : List Px} {f : Px → ℝ} (h : ∀ q ∈ reg, 0 ≤ f q) : 0 ≤ over reg f := by
  induction reg with
  | nil => simp [over]
  | cons q t ih =>
    rw [over_cons]
    have h1 := h q (List.mem_cons_self ..)
    have h2 := ih (fun r hr => h r (List.mem_cons_of_mem _ hr))
    linarith

theorem over_ge {reg : List Px} {f : Px → ℝ} (h : ∀ q ∈ reg, 0 ≤ f q) {q : Px} (hq : q ∈ reg) :
    f q ≤ over reg f := by
  induction reg with
  | nil => cases hq
  | cons r t ih =>
    rw [over_cons]
    have h2 := over_nonneg (reg := t) (fun s hs => h s (List.mem_cons_of_mem _ hs))
    rcases List.mem_cons.1 hq with rfl | hq
    · linarith
    · have := ih (fun s hs => h s (List.mem_cons_of_mem _ hs)) hq
      have := h r (List.mem_cons_self ..)
      linarith

theorem over_pos {reg : List Px} {f : Px → ℝ} (h : ∀ q ∈ reg, 0 < f q) (hne : reg ≠ []) :
    0 < over reg f := by
  obtain ⟨q, hq⟩ := List.exists_mem_of_ne_nil reg hne
  exact lt_of_lt_of_le (h q hq) (over_ge (fun r hr => (h r hr).le) hq)

/-! ### Ranges -/

theorem span_spec (f : Px → ℝ) (reg : List Px) :
    ((span f reg).1 ≤ 0 ∧ 0 ≤ (span f reg).2) ∧
      (∀ q ∈ reg, (span f reg).1 ≤ f q ∧ f q ≤ (span f reg).2) ∧
      ((span f reg).1 = 0 ∨ ∃ q ∈ reg, f q = (span f reg).1) ∧
      ((span f reg).2 = 0 ∨ ∃ q ∈ reg, f q = (span f reg).2) := by
  unfold span
  induction reg using List.reverseRecOn with
  | nil => simp
  | append_singleton l a ih =>
    rw [List.foldl_append]
    simp only [List.foldl_cons, List.foldl_nil]
    set r := l.foldl (fun r q =>
      if r.2 < f q then (r.1, f q) else if f q < r.1 then (f q, r.2) else r) (0, 0)
    obtain ⟨⟨h1, h2⟩, h3, h4, h5⟩ := ih
    have lift : ∀ v : ℝ, (∃ q ∈ l, f q = v) → ∃ q ∈ l ++ [a], f q = v := by
      rintro v ⟨q, hq, he⟩
      exact ⟨q, List.mem_append_left _ hq, he⟩
    have last : ∃ q ∈ l ++ [a], f q = f a := ⟨a, by simp, rfl⟩
    split_ifs with ha hb
    · refine ⟨⟨h1, by simp only; linarith⟩, ?_, h4.imp_right (lift _), Or.inr last⟩
      intro q hq
      rcases List.mem_append.1 hq with hq | hq
      · have := h3 q hq
        exact ⟨this.1, by simp only; linarith⟩
      · simp only [List.mem_singleton] at hq
        subst hq
        exact ⟨by simp only; linarith, le_rfl⟩
    · refine ⟨⟨by simp only; linarith, h2⟩, ?_, Or.inr last, h5.imp_right (lift _)⟩
      intro q hq
      rcases List.mem_append.1 hq with hq | hq
      · have := h3 q hq
        exact ⟨by simp only; linarith, this.2⟩
      · simp only [List.mem_singleton] at hq
        subst hq
        exact ⟨le_rfl, by simp only; linarith⟩
    · refine ⟨⟨h1, h2⟩, ?_, h4.imp_right (lift _), h5.imp_right (lift _)⟩
      intro q hq
      rcases List.mem_append.1 hq with hq | hq
      · exact h3 q hq
      · simp only [List.mem_singleton] at hq
        subst hq
        exact ⟨not_lt.1 hb, not_lt.1 ha⟩

/-! ### C101: the rectangle -/

/-- The centre of gravity of a region, weighted by the norms of the gradients. -/
def IsCentroid (m : Img) (reg : List Px) (x y : ℝ) : Prop :=
  over reg (fun q => m.mod q.1 q.2 * ((q.1 : ℝ) - x)) = 0 ∧
    over reg (fun q => m.mod q.1 q.2 * ((q.2 : ℝ) - y)) = 0

/-- The spread of a region across the line through `(x, y)` with angle `phi`. -/
noncomputable def spread (m : Img) (reg : List Px) (x y phi : ℝ) : ℝ :=
  over reg fun q =>
    m.mod q.1 q.2 * (-((q.1 : ℝ) - x) * Real.sin phi + ((q.2 : ℝ) - y) * Real.cos phi) ^ 2

/-- C101: centre, axis and orientation of the rectangle of a region. -/
theorem region2rect_form {m : Img} {reg : List Px} {regAngle prec p : ℝ} {r : Rect}
    (h : region2rect m reg regAngle prec p = .ok r) :
    r = rectOf reg r.x r.y r.theta prec p ∧ IsCentroid m reg r.x r.y ∧
      r.theta = orient (axis m.atan2 (inertia m reg r.x r.y).1 (inertia m reg r.x r.y).2.1
        (inertia m reg r.x r.y).2.2) regAngle prec := by
  unfold region2rect at h
  simp only at h
  split_ifs at h with hs
  obtain ⟨theta, ht, hr⟩ := Outcome.bind_eq_ok.1 h
  unfold getTheta at ht
  simp only at ht
  split_ifs at ht with hd
  cases ht
  cases hr
  have hne := hs.ne'
  refine ⟨rfl, ⟨?_, ?_⟩, rfl⟩
  · have : ∀ q ∈ reg, m.mod q.1 q.2 * ((q.1 : ℝ) - (over reg fun q => (q.1 : ℝ) * m.mod q.1 q.2) /
        over reg fun q => m.mod q.1 q.2) = (q.1 : ℝ) * m.mod q.1 q.2 +
        (-((over reg fun q => (q.1 : ℝ) * m.mod q.1 q.2) / over reg fun q => m.mod q.1 q.2)) *
          m.mod q.1 q.2 := by intros; ring
    simp only [rectOf]
    rw [over_congr this, over_add, over_mul]
    field_simp
    ring
  · have : ∀ q ∈ reg, m.mod q.1 q.2 * ((q.2 : ℝ) - (over reg fun q => (q.2 : ℝ) * m.mod q.1 q.2) /
        over reg fun q => m.mod q.1 q.2) = (q.2 : ℝ) * m.mod q.1 q.2 +
        (-((over reg fun q => (q.2 : ℝ) * m.mod q.1 q.2) / over reg fun q => m.mod q.1 q.2)) *
          m.mod q.1 q.2 := by intros; ring
    simp only [rectOf]
    rw [over_congr this, over_add, over_mul]
    field_simp
    ring

/-- C101: the line of the rectangle goes through the weighted centre of the region, in the direction
of `theta`, from its first to its second end. -/
theorem rect_line {m : Img} {reg : List Px} {regAngle prec p : ℝ} {r : Rect}
    (h : region2rect m reg regAngle prec p = .ok r) :
    IsCentroid m reg r.x r.y ∧
      ∃ a b : ℝ, a ≤ 0 ∧ 0 ≤ b ∧
        (r.x1 = r.x + a * Real.cos r.theta ∧ r.y1 = r.y + a * Real.sin r.theta) ∧
        (r.x2 = r.x + b * Real.cos r.theta ∧ r.y2 = r.y + b * Real.sin r.theta) := by
  obtain ⟨hr, hc, -⟩ := region2rect_form h
  obtain ⟨⟨h1, h2⟩, -⟩ := span_spec (along r.x r.y r.theta) reg
  refine ⟨hc, _, _, h1, h2, ⟨?_, ?_⟩, ?_, ?_⟩ <;> (conv_lhs => rw [hr]) <;> rfl

/-- C101: the region lies between the two ends: no pixel is before the first or behind the second. -/
theorem rect_ends {m : Img} {reg : List Px} {regAngle prec p : ℝ} {r : Rect}
    (h : region2rect m reg regAngle prec p = .ok r) :
    ∀ q ∈ reg,
      0 ≤ ((q.1 : ℝ) - r.x1) * Real.cos r.theta + ((q.2 : ℝ) - r.y1) * Real.sin r.theta ∧
      ((q.1 : ℝ) - r.x2) * Real.cos r.theta + ((q.2 : ℝ) - r.y2) * Real.sin r.theta ≤ 0 := by
  obtain ⟨hr, -, -⟩ := region2rect_form h
  intro q hq
  obtain ⟨-, h3, -⟩ := span_spec (along r.x r.y r.theta) reg
  obtain ⟨h4, h5⟩ := h3 q hq
  have hsc := Real.sin_sq_add_cos_sq r.theta
  have e1 : r.x1 = r.x + (span (along r.x r.y r.theta) reg).1 * Real.cos r.theta := by
    conv_lhs => rw [hr]
    rfl
  have e2 : r.y1 = r.y + (span (along r.x r.y r.theta) reg).1 * Real.sin r.theta := by
    conv_lhs => rw [hr]
    rfl
  have e3 : r.x2 = r.x + (span (along r.x r.y r.theta) reg).2 * Real.cos r.theta := by
    conv_lhs => rw [hr]
    rfl
  have e4 : r.y2 = r.y + (span (along r.x r.y r.theta) reg).2 * Real.sin r.theta := by
    conv_lhs => rw [hr]
    rfl
  rw [e1, e2, e3, e4]
  generalize (span (along r.x r.y r.theta) reg).1 = a at *
  generalize (span (along r.x r.y r.theta) reg).2 = b at *
  unfold along at h4 h5
  constructor
  · have : ((q.1 : ℝ) - (r.x + a * Real.cos r.theta)) * Real.cos r.theta +
        ((q.2 : ℝ) - (r.y + a * Real.sin r.theta)) * Real.sin r.theta =
        ((q.1 : ℝ) - r.x) * Real.cos r.theta + ((q.2 : ℝ) - r.y) * Real.sin r.theta - a := by
      linear_combination -a * hsc
    linarith
  · have : ((q.1 : ℝ) - (r.x + b * Real.cos r.theta)) * Real.cos r.theta +
        ((q.2 : ℝ) - (r.y + b * Real.sin r.theta)) * Real.sin r.theta =
        ((q.1 : ℝ) - r.x) * Real.cos r.theta + ((q.2 : ℝ) - r.y) * Real.sin r.theta - b := by
      linear_combination -b * hsc
    linarith

/-- A weighted sum of numbers that is zero has a number that is not positive; so the extremes are
reached. -/
theorem span_reached {m : Img} {reg : List Px} (hpos : ∀ q ∈ reg, 0 < m.mod q.1 q.2)
    (hne : reg ≠ []) {f : Px → ℝ} (h0 : over reg (fun q => m.mod q.1 q.2 * f q) = 0) :
    (∃ q ∈ reg, f q = (span f reg).1) ∧ ∃ q ∈ reg, f q = (span f reg).2 := by
  obtain ⟨-, h3, h4, h5⟩ := span_spec f reg
  obtain ⟨q0, hq0⟩ := List.exists_mem_of_ne_nil reg hne
  constructor
  · rcases h4 with h4 | h4
    · refine ⟨q0, hq0, ?_⟩
      have hnn : ∀ q ∈ reg, 0 ≤ m.mod q.1 q.2 * f q := by
        intro q hq
        have := (h3 q hq).1
        rw [h4] at this
        exact mul_nonneg (hpos q hq).le this
      have hle := over_ge hnn hq0
      rw [h0] at hle
      have := hnn q0 hq0
      have h6 : m.mod q0.1 q0.2 * f q0 = 0 := le_antisymm hle this
      rw [h4]
      exact (mul_eq_zero.1 h6).resolve_left (hpos q0 hq0).ne'
    · exact h4
  · rcases h5 with h5 | h5
    · refine ⟨q0, hq0, ?_⟩
      have hnn : ∀ q ∈ reg, 0 ≤ m.mod q.1 q.2 * -f q := by
        intro q hq
        have := (h3 q hq).2
        rw [h5] at this
        exact mul_nonneg (hpos q hq).le (by linarith)
      have hle := over_ge hnn hq0
      have hz : over reg (fun q => m.mod q.1 q.2 * -f q) = 0 := by
        have : over reg (fun q => m.mod q.1 q.2 * -f q) =
            over reg (fun q => (-1) * (m.mod q.1 q.2 * f q)) := over_congr (by intros; ring)
        rw [this, over_mul, h0, mul_zero]
      rw [hz] at hle
      have := hnn q0 hq0
      have h6 : m.mod q0.1 q0.2 * -f q0 = 0 := le_antisymm hle this
      rw [h5]
      have := (mul_eq_zero.1 h6).resolve_left (hpos q0 hq0).ne'
      linarith
    · exact h5

theorem centroid_along {m : Img} {reg : List Px} {x y : ℝ} (hc : IsCentroid m reg x y) (c s : ℝ) :
    over reg (fun q => m.mod q.1 q.2 * (((q.1 : ℝ) - x) * c + ((q.2 : ℝ) - y) * s)) = 0 := by
  have : over reg (fun q => m.mod q.1 q.2 * (((q.1 : ℝ) - x) * c + ((q.2 : ℝ) - y) * s)) =
      over reg (fun q => c * (m.mod q.1 q.2 * ((q.1 : ℝ) - x)) +
        s * (m.mod q.1 q.2 * ((q.2 : ℝ) - y))) := over_congr (by intros; ring)
  rw [this, over_add, over_mul, over_mul, hc.1, hc.2]
  ring

/-- C101: the ends are not further out than the region: at each of them is a pixel of the region. -/
theorem rect_ends_reached {m : Img} {reg : List Px} {regAngle prec p : ℝ} {r : Rect}
    (h : region2rect m reg regAngle prec p = .ok r) (hpos : ∀ q ∈ reg, 0 < m.mod q.1 q.2)
    (hne : reg ≠ []) :
    (∃ q ∈ reg,
      ((q.1 : ℝ) - r.x1) * Real.cos r.theta + ((q.2 : ℝ) - r.y1) * Real.sin r.theta = 0) ∧
    ∃ q ∈ reg,
      ((q.1 : ℝ) - r.x2) * Real.cos r.theta + ((q.2 : ℝ) - r.y2) * Real.sin r.theta = 0 := by
  obtain ⟨hr, hc, -⟩ := region2rect_form h
  have hsc := Real.sin_sq_add_cos_sq r.theta
  obtain ⟨⟨q1, hq1, f1⟩, q2, hq2, f2⟩ := span_reached (f := along r.x r.y r.theta) hpos hne
    (centroid_along hc _ _)
  have e1 : r.x1 = r.x + (span (along r.x r.y r.theta) reg).1 * Real.cos r.theta := by
    conv_lhs => rw [hr]
    rfl
  have e2 : r.y1 = r.y + (span (along r.x r.y r.theta) reg).1 * Real.sin r.theta := by
    conv_lhs => rw [hr]
    rfl
  have e3 : r.x2 = r.x + (span (along r.x r.y r.theta) reg).2 * Real.cos r.theta := by
    conv_lhs => rw [hr]
    rfl
  have e4 : r.y2 = r.y + (span (along r.x r.y r.theta) reg).2 * Real.sin r.theta := by
    conv_lhs => rw [hr]
    rfl
  refine ⟨⟨q1, hq1, ?_⟩, q2, hq2, ?_⟩
  · rw [e1, e2, ← f1]
    unfold along
    linear_combination -(((q1.1 : ℝ) - r.x) * Real.cos r.theta +
      ((q1.2 : ℝ) - r.y) * Real.sin r.theta) * hsc
  · rw [e3, e4, ← f2]
    unfold along
    linear_combination -(((q2.1 : ℝ) - r.x) * Real.cos r.theta +
      ((q2.2 : ℝ) - r.y) * Real.sin r.theta) * hsc

/-- C101: the width is at least one pixel, and at least the distance, across the line, of any two
pixels of the region; it is this distance for some two pixels if it is more than one. -/
theorem rect_width {m : Img} {reg : List Px} {regAngle prec p : ℝ} {r : Rect}
    (h : region2rect m reg regAngle prec p = .ok r) :
    1 ≤ r.width ∧
      (∀ q ∈ reg, ∀ q' ∈ reg,
        -((q.1 : ℝ) - q'.1) * Real.sin r.theta + ((q.2 : ℝ) - q'.2) * Real.cos r.theta ≤ r.width) ∧
      ((∀ q ∈ reg, 0 < m.mod q.1 q.2) → reg ≠ [] → 1 < r.width → ∃ q ∈ reg, ∃ q' ∈ reg,
        -((q.1 : ℝ) - q'.1) * Real.sin r.theta + ((q.2 : ℝ) - q'.2) * Real.cos r.theta =
          r.width) := by
  obtain ⟨hr, hc, -⟩ := region2rect_form h
  have hw : r.width = if (span (across r.x r.y r.theta) reg).2 -
      (span (across r.x r.y r.theta) reg).1 < 1 then 1 else
      (span (across r.x r.y r.theta) reg).2 - (span (across r.x r.y r.theta) reg).1 := by
    conv_lhs => rw [hr]
    rfl
  obtain ⟨-, h3, -⟩ := span_spec (across r.x r.y r.theta) reg
  refine ⟨?_, ?_, ?_⟩
  · rw [hw]; split_ifs with hc'
    · exact le_rfl
    · linarith
  · intro q hq q' hq'
    have a1 := (h3 q hq).2
    have a2 := (h3 q' hq').1
    have : -((q.1 : ℝ) - q'.1) * Real.sin r.theta + ((q.2 : ℝ) - q'.2) * Real.cos r.theta =
        across r.x r.y r.theta q - across r.x r.y r.theta q' := by unfold across; ring
    rw [this, hw]
    split_ifs with hc' <;> linarith
  · intro hpos hne h1
    have hz : over reg (fun q => m.mod q.1 q.2 * across r.x r.y r.theta q) = 0 := by
      have := centroid_along hc (-Real.sin r.theta) (Real.cos r.theta)
      rw [← this]
      exact over_congr (by intros; unfold across; ring)
    obtain ⟨⟨q1, hq1, f1⟩, q2, hq2, f2⟩ := span_reached hpos hne hz
    refine ⟨q2, hq2, q1, hq1, ?_⟩
    have : -((q2.1 : ℝ) - q1.1) * Real.sin r.theta + ((q2.2 : ℝ) - q1.2) * Real.cos r.theta =
        across r.x r.y r.theta q2 - across r.x r.y r.theta q1 := by unfold across; ring
    rw [this, f1, f2]
    rw [hw] at h1 ⊢
    split_ifs at h1 ⊢ with hc'
    · linarith
    · rfl

/-! ### The axis -/

theorem spread_eq (m : Img) (reg : List Px) (x y phi : ℝ) :
    spread m reg x y phi = (inertia m reg x y).1 * Real.cos phi ^ 2 +
      (inertia m reg x y).2.1 * Real.sin phi ^ 2 +
      2 * (inertia m reg x y).2.2 * Real.sin phi * Real.cos phi := by
  unfold spread inertia
  simp only
  have : over reg (fun q => m.mod q.1 q.2 *
      (-((q.1 : ℝ) - x) * Real.sin phi + ((q.2 : ℝ) - y) * Real.cos phi) ^ 2) =
      over reg (fun q => Real.cos phi ^ 2 * (((q.2 : ℝ) - y) * ((q.2 : ℝ) - y) * m.mod q.1 q.2) +
        (Real.sin phi ^ 2 * (((q.1 : ℝ) - x) * ((q.1 : ℝ) - x) * m.mod q.1 q.2) +
        2 * Real.sin phi * Real.cos phi *
          -(((q.1 : ℝ) - x) * ((q.2 : ℝ) - y) * m.mod q.1 q.2))) := over_congr (by intros; ring)
  rw [this, over_add, over_add, over_mul, over_mul, over_mul]
  ring

/-- The form on the unit circle is at least the smaller eigenvalue. -/
theorem form_ge (a b c phi : ℝ) :
    1 / 2 * (a + b - √((a - b) * (a - b) + 4 * c * c)) ≤
      a * Real.cos phi ^ 2 + b * Real.sin phi ^ 2 + 2 * c * Real.sin phi * Real.cos phi := by
  have hsc := Real.sin_sq_add_cos_sq phi
  have hR := Real.sqrt_nonneg ((a - b) * (a - b) + 4 * c * c)
  have hR2 : √((a - b) * (a - b) + 4 * c * c) ^ 2 = (a - b) * (a - b) + 4 * c * c :=
    Real.sq_sqrt (by nlinarith [sq_nonneg (a - b), sq_nonneg c])
  set R := √((a - b) * (a - b) + 4 * c * c)
  set u := Real.cos phi ^ 2 - Real.sin phi ^ 2 with hu
  set v := 2 * Real.sin phi * Real.cos phi with hv
  have huv : u ^ 2 + v ^ 2 = 1 := by
    rw [hu, hv]
    have : (Real.sin phi ^ 2 + Real.cos phi ^ 2) ^ 2 = 1 := by rw [hsc]; norm_num
    linear_combination this
  -- (a - b) u + 2 c v ≥ -R
  have hcs : ((a - b) * u + 2 * c * v) ^ 2 ≤ R ^ 2 := by
    rw [hR2]
    nlinarith [sq_nonneg ((a - b) * v - 2 * c * u)]
  have := abs_le_of_sq_le_sq' hcs hR
  have he : a * Real.cos phi ^ 2 + b * Real.sin phi ^ 2 + 2 * c * Real.sin phi * Real.cos phi =
      1 / 2 * (a + b + ((a - b) * u + 2 * c * v)) := by
    rw [hu, hv]
    linear_combination (1 / 2 * (a + b)) * hsc
  rw [he]
  linarith [this.1]

theorem exactAngle_polar (y x : ℝ) :
    √(x ^ 2 + y ^ 2) * Real.cos (exactAngle y x) = x ∧
      √(x ^ 2 + y ^ 2) * Real.sin (exactAngle y x) = y := by
  have hn : ‖(⟨x, y⟩ : ℂ)‖ = √(x ^ 2 + y ^ 2) := Complex.norm_eq_sqrt_sq_add_sq _
  have hc : Real.cos (exactAngle y x) = Real.cos (Complex.arg ⟨x, y⟩) ∧
      Real.sin (exactAngle y x) = Real.sin (Complex.arg ⟨x, y⟩) := by
    unfold exactAngle
    split_ifs
    · exact ⟨rfl, rfl⟩
    · exact ⟨Real.cos_add_two_pi _, Real.sin_add_two_pi _⟩
  rw [hc.1, hc.2, ← hn]
  exact ⟨Complex.norm_mul_cos_arg _, Complex.norm_mul_sin_arg _⟩

/-- If the vector `(x, y)` is an eigenvector, its angle has the eigenvalue as value. -/
theorem form_eigen {a b c l x y : ℝ} (h1 : a * x + c * y = l * x) (h2 : c * x + b * y = l * y)
    (hne : x ^ 2 + y ^ 2 ≠ 0) :
    a * Real.cos (exactAngle y x) ^ 2 + b * Real.sin (exactAngle y x) ^ 2 +
      2 * c * Real.sin (exactAngle y x) * Real.cos (exactAngle y x) = l := by
  obtain ⟨e1, e2⟩ := exactAngle_polar y x
  have hsc := Real.sin_sq_add_cos_sq (exactAngle y x)
  have hpos : 0 < x ^ 2 + y ^ 2 := lt_of_le_of_ne (by positivity) (Ne.symm hne)
  have hn : √(x ^ 2 + y ^ 2) ^ 2 = x ^ 2 + y ^ 2 := Real.sq_sqrt hpos.le
  set n := √(x ^ 2 + y ^ 2)
  set C := Real.cos (exactAngle y x)
  set S := Real.sin (exactAngle y x)
  have key : n ^ 2 * (a * C ^ 2 + b * S ^ 2 + 2 * c * S * C) = n ^ 2 * l := by
    have : n ^ 2 * (a * C ^ 2 + b * S ^ 2 + 2 * c * S * C) =
        a * (n * C) ^ 2 + b * (n * S) ^ 2 + 2 * c * (n * S) * (n * C) := by ring
    rw [this, e1, e2, hn]
    linear_combination x * h1 + y * h2
  exact mul_left_cancel₀ (by rw [hn]; exact hpos.ne') key

/-- The value of the form at the angle of the axis is the smaller eigenvalue. -/
theorem form_axis {a b c : ℝ} (ha : 0 ≤ a) (hb : 0 ≤ b) :
    a * Real.cos (axis exactAngle a b c) ^ 2 + b * Real.sin (axis exactAngle a b c) ^ 2 +
      2 * c * Real.sin (axis exactAngle a b c) * Real.cos (axis exactAngle a b c) =
      1 / 2 * (a + b - √((a - b) * (a - b) + 4 * c * c)) := by
  have hR := Real.sqrt_nonneg ((a - b) * (a - b) + 4 * c * c)
  have hR2 : √((a - b) * (a - b) + 4 * c * c) ^ 2 = (a - b) * (a - b) + 4 * c * c :=
    Real.sq_sqrt (by nlinarith [sq_nonneg (a - b), sq_nonneg c])
  unfold axis
  simp only
  rw [abs_of_nonneg ha, abs_of_nonneg hb]
  set R := √((a - b) * (a - b) + 4 * c * c)
  set l := 1 / 2 * (a + b - R) with hl
  -- the characteristic polynomial
  have hchar : (a - l) * (b - l) = c * c := by
    rw [hl]; linear_combination (1 / 4) * hR2
  split_ifs with hab
  · apply form_eigen
    · ring
    · linear_combination -hchar
    · intro h0
      have hc0 : c = 0 := by nlinarith [sq_nonneg c, sq_nonneg (l - a)]
      have hl0 : l - a = 0 := by nlinarith [sq_nonneg c, sq_nonneg (l - a)]
      -- then l = a > b, but l ≤ (a + b) / 2
      have : R = b - a := by rw [hl] at hl0; linarith
      linarith
  · by_cases h0 : (l - b) ^ 2 + c ^ 2 = 0
    · have hc0 : c = 0 := by nlinarith [sq_nonneg c, sq_nonneg (l - b)]
      have hl0 : l - b = 0 := by nlinarith [sq_nonneg c, sq_nonneg (l - b)]
      have hRe : R = a - b := by rw [hl] at hl0; linarith
      have hab' : a = b := by push Not at hab; linarith
      have hsc := Real.sin_sq_add_cos_sq (exactAngle c (l - b))
      have hlb : l = b := by linarith
      rw [hlb, hab', hc0]
      rw [hlb, hc0] at hsc
      linear_combination b * hsc
    · apply form_eigen _ _ h0
      · linear_combination -hchar
      · ring

/-- C101: with an exact arc tangent, the direction of the rectangle is the principal axis of the
region: no other line through the centre has a smaller sum of squared distances to the pixels,
weighted by the norms of the gradients. -/
theorem rect_axis {m : Img} {reg : List Px} {regAngle prec p : ℝ} {r : Rect}
    (h : region2rect m reg regAngle prec p = .ok r) (hat : m.atan2 = exactAngle)
    (hpos : ∀ q ∈ reg, 0 ≤ m.mod q.1 q.2) (phi : ℝ) :
    spread m reg r.x r.y r.theta ≤ spread m reg r.x r.y phi := by
  obtain ⟨-, -, ht⟩ := region2rect_form h
  have ha : 0 ≤ (inertia m reg r.x r.y).1 := by
    unfold inertia
    exact over_nonneg (fun q hq => mul_nonneg (mul_self_nonneg _) (hpos q hq))
  have hb : 0 ≤ (inertia m reg r.x r.y).2.1 := by
    unfold inertia
    exact over_nonneg (fun q hq => mul_nonneg (mul_self_nonneg _) (hpos q hq))
  have hturn : spread m reg r.x r.y r.theta = spread m reg r.x r.y
      (axis m.atan2 (inertia m reg r.x r.y).1 (inertia m reg r.x r.y).2.1
        (inertia m reg r.x r.y).2.2) := by
    rw [ht]
    unfold orient
    split_ifs
    · unfold spread
      apply over_congr
      intro q hq
      rw [Real.sin_add_pi, Real.cos_add_pi]
      ring
    · rfl
  rw [hturn, spread_eq, spread_eq, hat, form_axis ha hb]
  exact form_ge _ _ _ _

/-! ### Orientation -/

/-- C101: if the axis, in one of its two directions, is within the tolerance of the angle of the
region, the direction of the rectangle is. -/
theorem orient_within {theta regAngle prec : ℝ}
    (h : Within regAngle theta prec ∨ Within regAngle (theta + Real.pi) prec) :
    Within regAngle (orient theta regAngle prec) prec := by
  unfold orient
  split_ifs with hp
  · rcases h with h | h
    · rw [within_iff] at h
      linarith
    · exact h
  · rw [within_iff]
    exact not_lt.1 hp

/-- C101: the direction is the axis or its reverse. -/
theorem orient_axis (theta regAngle prec : ℝ) :
    orient theta regAngle prec = theta ∨ orient theta regAngle prec = theta + Real.pi := by
  unfold orient
  split_ifs
  · exact Or.inr rfl
  · exact Or.inl rfl

/-! ### When there is a rectangle -/

theorem tiny_lt : ((1 : ℝ) / 2) ^ 1022 * (100 * (1 / 2) ^ 52) < 1 / 100 := by
  have h1 : ((1 : ℝ) / 2) ^ 1022 ≤ 1 := pow_le_one₀ (by norm_num) (by norm_num)
  have h3 : (100 : ℝ) * (1 / 2) ^ 52 < 1 / 100 := by norm_num
  exact lt_of_le_of_lt (mul_le_of_le_one_left (by norm_num) h1) h3

/-- C101: a region of one pixel has no rectangle; the program ends with an exception. -/
theorem region2rect_single {m : Img} {q : Px} (hq : 0 < m.mod q.1 q.2) (regAngle prec p : ℝ) :
    region2rect m [q] regAngle prec p = .exc := by
  have hne := hq.ne'
  unfold region2rect
  simp only [over, List.map_cons, List.map_nil, List.sum_cons, List.sum_nil, add_zero, hq, if_true]
  have hx : (q.1 : ℝ) * m.mod q.1 q.2 / m.mod q.1 q.2 = q.1 := by field_simp
  have hy : (q.2 : ℝ) * m.mod q.1 q.2 / m.mod q.1 q.2 = q.2 := by field_simp
  rw [hx, hy]
  have : getTheta m [q] q.1 q.2 regAngle prec = .exc := by
    unfold getTheta inertia
    simp only [over, List.map_cons, List.map_nil, List.sum_cons, List.sum_nil, add_zero, sub_self,
      mul_zero, zero_mul, neg_zero]
    rw [if_pos ⟨doubleEqual_refl 0, doubleEqual_refl 0, doubleEqual_refl 0⟩]
  rw [this]
  rfl

/-- C101: a region with two different pixels, with gradients of at least one, has a rectangle. -/
theorem region2rect_ok {m : Img} {reg : List Px} (hpos : ∀ q ∈ reg, 1 ≤ m.mod q.1 q.2) {q q' : Px}
    (hq : q ∈ reg) (hq' : q' ∈ reg) (hne : q ≠ q') (regAngle prec p : ℝ) :
    ∃ r, region2rect m reg regAngle prec p = .ok r := by
  have hs : 0 < over reg fun q => m.mod q.1 q.2 :=
    over_pos (fun r hr => by linarith [hpos r hr]) (List.ne_nil_of_mem hq)
  unfold region2rect
  simp only
  rw [if_pos hs]
  set x := (over reg fun q => (q.1 : ℝ) * m.mod q.1 q.2) / over reg fun q => m.mod q.1 q.2
  set y := (over reg fun q => (q.2 : ℝ) * m.mod q.1 q.2) / over reg fun q => m.mod q.1 q.2
  have hnn1 : ∀ r ∈ reg, 0 ≤ ((r.2 : ℝ) - y) * ((r.2 : ℝ) - y) * m.mod r.1 r.2 := fun r hr =>
    mul_nonneg (mul_self_nonneg _) (by linarith [hpos r hr])
  have hnn2 : ∀ r ∈ reg, 0 ≤ ((r.1 : ℝ) - x) * ((r.1 : ℝ) - x) * m.mod r.1 r.2 := fun r hr =>
    mul_nonneg (mul_self_nonneg _) (by linarith [hpos r hr])
  have hnot : ¬ (doubleEqual (inertia m reg x y).1 0 ∧ doubleEqual (inertia m reg x y).2.1 0 ∧
      doubleEqual (inertia m reg x y).2.2 0) := by
    rintro ⟨d1, d2, -⟩
    rw [doubleEqual_zero_iff] at d1 d2
    have hsmall := tiny_lt
    have d1' := lt_of_le_of_lt (le_trans (le_abs_self _) d1) hsmall
    have d2' := lt_of_le_of_lt (le_trans (le_abs_self _) d2) hsmall
    simp only [inertia] at d1' d2'
    have b1 : ∀ r ∈ reg, ((r.2 : ℝ) - y) * ((r.2 : ℝ) - y) < 1 / 100 := by
      intro r hr
      have := over_ge hnn1 hr
      have h1 := hpos r hr
      nlinarith [mul_self_nonneg ((r.2 : ℝ) - y)]
    have b2 : ∀ r ∈ reg, ((r.1 : ℝ) - x) * ((r.1 : ℝ) - x) < 1 / 100 := by
      intro r hr
      have := over_ge hnn2 hr
      have h1 := hpos r hr
      nlinarith [mul_self_nonneg ((r.1 : ℝ) - x)]
    have near : ∀ (a b : ℕ) (z : ℝ), ((a : ℝ) - z) * ((a : ℝ) - z) < 1 / 100 →
        ((b : ℝ) - z) * ((b : ℝ) - z) < 1 / 100 → a = b := by
      intro a b z ha hb
      have ha' : |(a : ℝ) - z| < 1 / 10 := by
        apply abs_lt_of_sq_lt_sq _ (by norm_num); nlinarith
      have hb' : |(b : ℝ) - z| < 1 / 10 := by
        apply abs_lt_of_sq_lt_sq _ (by norm_num); nlinarith
      obtain ⟨a1, a2⟩ := abs_lt.1 ha'
      obtain ⟨b1, b2⟩ := abs_lt.1 hb'
      have c1 : (a : ℝ) < b + 1 := by linarith
      have c2 : (b : ℝ) < a + 1 := by linarith
      have c1' : a < b + 1 := by exact_mod_cast c1
      have c2' : b < a + 1 := by exact_mod_cast c2
      omega
    exact hne (Prod.ext (near _ _ x (b2 q hq) (b2 q' hq')) (near _ _ y (b1 q hq) (b1 q' hq')))
  have : getTheta m reg x y regAngle prec = .ok (orient (axis m.atan2 (inertia m reg x y).1
      (inertia m reg x y).2.1 (inertia m reg x y).2.2) regAngle prec) := by
    unfold getTheta
    simp only
    rw [if_neg hnot]
  rw [this]
  exact ⟨_, rfl⟩

/-! ### The rectangle does not cover the region -/

/-- Three pixels in a row and one beside the middle one, all with the same gradient. -/
noncomputable def bump : Img where
  w := 3
  h := 2
  ang := fun _ _ => some 0
  mod := fun _ _ => 1
  atan2 := exactAngle

/-- The pixels of `bump`. -/
def bumpReg : List Px := [(0, 0), (1, 0), (2, 0), (1, 1)]

theorem exactAngle_neg {x : ℝ} (hx : x < 0) : exactAngle 0 x = Real.pi := by
  have : (⟨x, 0⟩ : ℂ) = (x : ℂ) := rfl
  rw [exactAngle, this, Complex.arg_ofReal_of_neg hx, if_pos Real.pi_pos.le]

theorem bump_axis : axis exactAngle (3 / 4) 2 0 = Real.pi := by
  have hs : √((3 / 4 - 2) * (3 / 4 - 2) + 4 * 0 * 0 : ℝ) = 5 / 4 := by
    rw [show ((3 / 4 - 2) * (3 / 4 - 2) + 4 * 0 * 0 : ℝ) = (5 / 4) ^ 2 by norm_num]
    exact Real.sqrt_sq (by norm_num)
  unfold axis
  simp only [hs]
  rw [if_neg (by norm_num)]
  exact exactAngle_neg (by norm_num)

/-- The rectangle of the example with a pixel beside the row. -/
theorem bump_rect : ∃ r, region2rect bump bumpReg 0 (Real.pi / 8) (1 / 8) = .ok r ∧
    r.width = 1 ∧ r.y1 = 1 / 4 ∧ r.y2 = 1 / 4 ∧ Real.sin r.theta = 0 := by
  have hp := Real.pi_pos
  have hin : inertia bump bumpReg 1 (1 / 4) = (3 / 4, 2, 0) := by
    simp only [inertia, over, bumpReg, bump, List.map_cons, List.map_nil, List.sum_cons,
      List.sum_nil, Prod.mk.injEq]
    norm_num
  have hsum : (over bumpReg fun q => bump.mod q.1 q.2) = 4 := by
    simp only [over, bumpReg, bump, List.map_cons, List.map_nil, List.sum_cons, List.sum_nil]
    norm_num
  have hx : (over bumpReg fun q => (q.1 : ℝ) * bump.mod q.1 q.2) = 4 := by
    simp only [over, bumpReg, bump, List.map_cons, List.map_nil, List.sum_cons, List.sum_nil]
    norm_num
  have hy : (over bumpReg fun q => (q.2 : ℝ) * bump.mod q.1 q.2) = 1 := by
    simp only [over, bumpReg, bump, List.map_cons, List.map_nil, List.sum_cons, List.sum_nil]
    norm_num
  -- the direction is 0 or π or 2π
  obtain ⟨theta, hth, hsin, hcos⟩ : ∃ theta, orient (axis bump.atan2 (3 / 4) 2 0) 0 (Real.pi / 8) =
      theta ∧ Real.sin theta = 0 ∧ (Real.cos theta = 1 ∨ Real.cos theta = -1) := by
    refine ⟨_, rfl, ?_⟩
    have : axis bump.atan2 (3 / 4) 2 0 = Real.pi := bump_axis
    rw [this]
    rcases orient_axis Real.pi 0 (Real.pi / 8) with h | h
    · rw [h]; exact ⟨Real.sin_pi, Or.inr Real.cos_pi⟩
    · rw [h]
      have : Real.pi + Real.pi = 2 * Real.pi := by ring
      rw [this]; exact ⟨Real.sin_two_pi, Or.inl Real.cos_two_pi⟩
  refine ⟨rectOf bumpReg 1 (1 / 4) theta (Real.pi / 8) (1 / 8), ?_, ?_, ?_, ?_, hsin⟩
  · unfold region2rect
    simp only [hsum, hx, hy]
    rw [if_pos (by norm_num), show (4 : ℝ) / 4 = 1 by norm_num]
    have : getTheta bump bumpReg 1 (1 / 4) 0 (Real.pi / 8) = .ok theta := by
      unfold getTheta
      simp only [hin]
      rw [hth, if_neg]
      rintro ⟨-, h2, -⟩
      rw [doubleEqual_zero_iff] at h2
      have h3 := lt_of_le_of_lt (le_trans (le_abs_self _) h2) tiny_lt
      norm_num at h3
    rw [this]
    rfl
  · have hw : (span (across 1 (1 / 4) theta) bumpReg).2 -
        (span (across 1 (1 / 4) theta) bumpReg).1 = 1 := by
      rcases hcos with hc | hc <;>
      · simp only [span, bumpReg, List.foldl_cons, List.foldl_nil, across, hsin, hc]
        norm_num
    simp only [rectOf, hw]
    norm_num
  · simp [rectOf, hsin]
  · simp [rectOf, hsin]

/-- C101 refuted: the documentation calls it the bounding rectangle of the region. Its length and its
width are those of the region, but its line goes through the centre of gravity, which need not be in
the middle: the pixel beside the row is 3/4 from the line of a rectangle of width 1. -/
theorem rect_bounding_refuted :
    ∃ m : Img, ∃ reg : List Px, ∃ regAngle prec p : ℝ, ∃ r : Rect,
      region2rect m reg regAngle prec p = .ok r ∧
      ∃ q ∈ reg, r.width / 2 <
        |-((q.1 : ℝ) - r.x1) * Real.sin r.theta + ((q.2 : ℝ) - r.y1) * Real.cos r.theta| := by
  obtain ⟨r, h, hw, h1, -, hs⟩ := bump_rect
  refine ⟨bump, bumpReg, _, _, _, r, h, (1, 1), by simp [bumpReg], ?_⟩
  have hc : |Real.cos r.theta| = 1 := by
    have := Real.sin_sq_add_cos_sq r.theta
    rw [hs] at this
    have h2 : |Real.cos r.theta| ^ 2 = 1 := by rw [sq_abs]; linarith
    nlinarith [abs_nonneg (Real.cos r.theta)]
  rw [hw, h1, hs, mul_zero, zero_add, abs_mul, hc]
  norm_num

/-- C101 refuted: the direction need not be within the tolerance of the angle of the region, in either
direction: for two pixels one above the other whose level lines are horizontal, it is vertical. -/
theorem rect_oriented_refuted :
    ∃ theta : ℝ, theta = axis exactAngle (1 / 2) 0 0 ∧
      ¬ Within 0 (orient theta 0 (Real.pi / 8)) (Real.pi / 8) := by
  have hp := Real.pi_pos
  refine ⟨_, rfl, ?_⟩
  have hs : √((1 / 2 - 0) * (1 / 2 - 0) + 4 * 0 * 0 : ℝ) = 1 / 2 := by
    rw [show ((1 / 2 - 0) * (1 / 2 - 0) + 4 * 0 * 0 : ℝ) = (1 / 2) ^ 2 by norm_num]
    exact Real.sqrt_sq (by norm_num)
  have ha : ∃ k : ℤ, axis exactAngle (1 / 2) 0 0 = Real.pi / 2 + Real.pi * k := by
    unfold axis
    simp only [hs]
    rw [if_pos (by norm_num)]
    refine ⟨1, ?_⟩
    have he : (⟨0, 1 / 2 * (1 / 2 + 0 - 1 / 2) - 1 / 2⟩ : ℂ) = (((1 / 2 : ℝ)) : ℂ) * -Complex.I := by
      apply Complex.ext <;> simp
    have harg : Complex.arg (⟨0, 1 / 2 * (1 / 2 + 0 - 1 / 2) - 1 / 2⟩ : ℂ) = -(Real.pi / 2) := by
      rw [he, Complex.arg_real_mul _ (by norm_num), Complex.arg_neg_I]
    rw [exactAngle, harg, if_neg (by linarith)]
    push_cast
    ring
  obtain ⟨k, hk⟩ := ha
  have ho : ∃ k : ℤ, orient (axis exactAngle (1 / 2) 0 0) 0 (Real.pi / 8) =
      Real.pi / 2 + Real.pi * k := by
    rcases orient_axis (axis exactAngle (1 / 2) 0 0) 0 (Real.pi / 8) with h | h
    · exact ⟨k, h.trans hk⟩
    · refine ⟨k + 1, ?_⟩
      rw [h, hk]
      push_cast
      ring
  obtain ⟨j, hj⟩ := ho
  rintro ⟨i, hi⟩
  rw [hj] at hi
  obtain ⟨h1, h2⟩ := abs_le.1 hi
  have e : Real.pi / 2 + Real.pi * j - 0 + 2 * Real.pi * i =
      Real.pi * ((j + 2 * i : ℤ) : ℝ) + Real.pi / 2 := by push_cast; ring
  rw [e] at h1 h2
  rcases lt_or_ge (j + 2 * i) 0 with hn | hn
  · have : ((j + 2 * i : ℤ) : ℝ) ≤ -1 := by
      have : j + 2 * i ≤ -1 := by omega
      exact_mod_cast this
    nlinarith
  · have : (0 : ℝ) ≤ ((j + 2 * i : ℤ) : ℝ) := by exact_mod_cast hn
    nlinarith

/-- The inertia of two pixels one above the other is as in `rect_oriented_refuted`. -/
example : inertia bump [(0, 0), (0, 1)] 0 (1 / 2) = (1 / 2, 0, 0) := by
  simp only [inertia, over, bump, List.map_cons, List.map_nil, List.sum_cons, List.sum_nil,
    Prod.mk.injEq]
  norm_num

/-- The theorems about rectangles apply to the region `bumpReg`. -/
example : ∃ r, region2rect bump bumpReg 0 (Real.pi / 8) (1 / 8) = .ok r ∧
    spread bump bumpReg r.x r.y r.theta ≤ spread bump bumpReg r.x r.y 1 := by
  obtain ⟨r, h, -⟩ := bump_rect
  exact ⟨r, h, rect_axis h rfl (fun _ _ => by simp [bump]) 1⟩

end Verif.Lsd
