import Mathlib.Tactic.LinearCombination
import Mathlib.Tactic.Positivity
import Mathlib.Analysis.Real.Pi.Bounds
import Mathlib.Analysis.SpecialFunctions.Complex.Arg
import Verif.Kaze.Orientation
import Verif.Kaze.DescriptorProps

/-!
# The main orientation

Specification of property C115.
-/

namespace Verif.Kaze.Orientation

open Verif.Kaze.Descriptor (Kpt)

/-- An arc tangent without rounding, with the range of `cv::fastAtan2` and its value for the zero vector. -/
structure Exact (atan2 : ℝ → ℝ → ℝ) : Prop where
  range : ∀ y x, 0 ≤ atan2 y x ∧ atan2 y x < 2 * Real.pi
  zero : atan2 0 0 = 0
  polar : ∀ r t, 0 < r → 0 ≤ t → t < 2 * Real.pi → atan2 (r * Real.sin t) (r * Real.cos t) = t

/-- The exact arc tangent. -/
noncomputable def exactAtan2 (y x : ℝ) : ℝ :=
  if 0 ≤ Complex.arg ⟨x, y⟩ then Complex.arg ⟨x, y⟩ else Complex.arg ⟨x, y⟩ + 2 * Real.pi

/-- There is an exact arc tangent. -/
theorem exactAtan2_exact : Exact exactAtan2 where
  range y x := by
    have hp := Real.pi_pos
    have h1 := Complex.neg_pi_lt_arg (⟨x, y⟩ : ℂ)
    have h2 := Complex.arg_le_pi (⟨x, y⟩ : ℂ)
    unfold exactAtan2
    by_cases h : 0 ≤ Complex.arg ⟨x, y⟩
    · rw [if_pos h]; exact ⟨h, by linarith⟩
    · rw [if_neg h]; exact ⟨by linarith, by linarith⟩
  zero := by
    unfold exactAtan2
    have : (⟨0, 0⟩ : ℂ) = 0 := rfl
    rw [this, Complex.arg_zero, if_pos le_rfl]
  polar r t hr h0 h1 := by
    have hp := Real.pi_pos
    have key : ∀ u : ℝ, -Real.pi < u → u ≤ Real.pi → Complex.arg ⟨r * Real.cos u, r * Real.sin u⟩ = u := by
      intro u a b
      have e : (⟨r * Real.cos u, r * Real.sin u⟩ : ℂ) = (r : ℂ) * (Complex.cos u + Complex.sin u * Complex.I) := by
        rw [← Complex.ofReal_cos, ← Complex.ofReal_sin]
        apply Complex.ext
        · rw [Complex.re_ofReal_mul, Complex.add_re, Complex.re_ofReal_mul, Complex.I_re, Complex.ofReal_re, mul_zero, add_zero]
        · rw [Complex.im_ofReal_mul, Complex.add_im, Complex.im_ofReal_mul, Complex.I_im, Complex.ofReal_im, mul_one, zero_add]
      rw [e, Complex.arg_mul_cos_add_sin_mul_I hr ⟨a, b⟩]
    unfold exactAtan2
    by_cases h : t ≤ Real.pi
    · rw [key t (by linarith) h, if_pos h0]
    · have := key (t - 2 * Real.pi) (by linarith) (by linarith)
      rw [Real.cos_sub_two_pi, Real.sin_sub_two_pi] at this
      rw [this, if_neg (by linarith)]
      ring

/-! ## Windows -/

theorem begins_eq (n : Nat) : ∀ fuel : Nat, (∀ k : Nat, k < n → (k : ℝ) * (15 / 100) < 2 * Real.pi) →
    2 * Real.pi ≤ (n : ℝ) * (15 / 100) → n < fuel →
    begins fuel 0 = (List.range n).map fun (k : Nat) => (k : ℝ) * (15 / 100) := by
  have key : ∀ (m fuel j : Nat), (∀ k : Nat, k < j + m → (k : ℝ) * (15 / 100) < 2 * Real.pi) →
      2 * Real.pi ≤ ((j + m : Nat) : ℝ) * (15 / 100) → m < fuel →
      begins fuel ((j : ℝ) * (15 / 100)) = (List.range m).map fun (k : Nat) => ((j + k : Nat) : ℝ) * (15 / 100) := by
    intro m
    induction m with
    | zero =>
      intro fuel j h1 h2 h3
      obtain ⟨f, rfl⟩ : ∃ f, fuel = f + 1 := ⟨fuel - 1, by omega⟩
      rw [begins, if_neg (by push_cast at h2 ⊢; linarith)]
      rfl
    | succ m ih =>
      intro fuel j h1 h2 h3
      obtain ⟨f, rfl⟩ : ∃ f, fuel = f + 1 := ⟨fuel - 1, by omega⟩
      rw [begins, if_pos (h1 j (by omega)), List.range_succ_eq_map, List.map_cons, List.map_map]
      congr 1
      have := ih f (j + 1) (fun k hk => h1 k (by omega)) (by rw [show j + 1 + m = j + (m + 1) by omega]; exact h2) (by omega)
      rw [show ((j : ℝ) * (15 / 100) + 15 / 100) = ((j + 1 : Nat) : ℝ) * (15 / 100) by push_cast; ring, this]
      refine List.map_congr_left fun k _ => ?_
      simp only [Function.comp]
      rw [show j + 1 + k = j + k.succ by omega]
  intro fuel h1 h2 h3
  have := key n fuel 0 (by simpa using h1) (by simpa using h2) h3
  simpa using this

/-- C115: there are 42 windows, one for every multiple of 0.15 below a full turn. -/
theorem begins_all : begins 100 0 = (List.range 42).map fun (k : Nat) => (k : ℝ) * (15 / 100) := by
  have p1 := Real.pi_gt_d2
  have p2 := Real.pi_lt_d2
  refine begins_eq 42 100 (fun k hk => ?_) ?_ (by norm_num)
  · have : (k : ℝ) ≤ 41 := by exact_mod_cast (by omega : k ≤ 41)
    linarith
  · push_cast
    linarith

theorem mem_begins {a : ℝ} : a ∈ begins 100 0 ↔ ∃ k : Nat, k < 42 ∧ a = (k : ℝ) * (15 / 100) := by
  rw [begins_all, List.mem_map]
  constructor
  · rintro ⟨k, hk, rfl⟩
    exact ⟨k, List.mem_range.1 hk, rfl⟩
  · rintro ⟨k, hk, rfl⟩
    exact ⟨k, List.mem_range.2 hk, rfl⟩

theorem begins_range {a : ℝ} (h : a ∈ begins 100 0) : 0 ≤ a ∧ a < 2 * Real.pi := by
  obtain ⟨k, hk, rfl⟩ := mem_begins.1 h
  have : (k : ℝ) ≤ 41 := by exact_mod_cast (by omega : k ≤ 41)
  have p1 := Real.pi_gt_d2
  exact ⟨by positivity, by linarith⟩

/-- Strictly within the sixth of a turn that begins at an angle, full turns not counting. -/
def InSixth (begin ang : ℝ) : Prop :=
  (begin < ang ∧ ang < begin + Real.pi / 3) ∨ (begin < ang + 2 * Real.pi ∧ ang + 2 * Real.pi < begin + Real.pi / 3)

/-- C115: a window has the angles of a sixth of a turn, except that the angle zero is in none. -/
theorem inWindow_iff {a ang : ℝ} (h0 : 0 ≤ a) (h1 : a < 2 * Real.pi) (g0 : 0 ≤ ang) (g1 : ang < 2 * Real.pi) :
    InWindow a (windowEnd a) ang ↔ ang ≠ 0 ∧ InSixth a ang := by
  have hp := Real.pi_pos
  unfold InWindow windowEnd InSixth
  by_cases h : 2 * Real.pi < a + Real.pi / 3
  · rw [if_pos h]
    constructor
    · rintro (⟨b, c, d⟩ | ⟨b, ⟨c, d⟩ | ⟨c, d⟩⟩)
      · linarith
      · exact ⟨c.ne', Or.inr ⟨by linarith, by linarith⟩⟩
      · exact ⟨by linarith, Or.inl ⟨c, by linarith⟩⟩
    · rintro ⟨b, ⟨c, d⟩ | ⟨c, d⟩⟩
      · exact Or.inr ⟨by linarith, Or.inr ⟨c, g1⟩⟩
      · exact Or.inr ⟨by linarith, Or.inl ⟨lt_of_le_of_ne g0 (Ne.symm b), by linarith⟩⟩
  · rw [if_neg h]
    constructor
    · rintro (⟨b, c, d⟩ | ⟨b, c⟩)
      · exact ⟨by linarith, Or.inl ⟨c, d⟩⟩
      · linarith
    · rintro ⟨b, ⟨c, d⟩ | ⟨c, d⟩⟩
      · exact Or.inl ⟨by linarith, c, d⟩
      · linarith

/-- C115: every other angle is in one of the windows. -/
theorem window_covers {ang : ℝ} (g0 : 0 < ang) (g1 : ang < 2 * Real.pi) :
    ∃ a ∈ begins 100 0, InWindow a (windowEnd a) ang := by
  have p1 := Real.pi_gt_d2
  have p2 := Real.pi_lt_d2
  set k := ⌈ang / (15 / 100)⌉₊ - 1 with hk
  have hc : 0 < ⌈ang / (15 / 100)⌉₊ := Nat.ceil_pos.2 (by positivity)
  have e : ((k + 1 : Nat) : ℝ) = (⌈ang / (15 / 100)⌉₊ : ℝ) := by rw [hk]; congr 1; omega
  have h1 : ang / (15 / 100) ≤ (⌈ang / (15 / 100)⌉₊ : ℝ) := Nat.le_ceil _
  have h2 : (⌈ang / (15 / 100)⌉₊ : ℝ) < ang / (15 / 100) + 1 := Nat.ceil_lt_add_one (by positivity)
  rw [← e] at h1 h2
  push_cast at h1 h2
  have l1 : (k : ℝ) * (15 / 100) < ang := by
    have : (k : ℝ) < ang / (15 / 100) := by linarith
    rwa [lt_div_iff₀ (by norm_num)] at this
  have l2 : ang ≤ ((k : ℝ) + 1) * (15 / 100) := by rwa [div_le_iff₀ (by norm_num)] at h1
  have hk42 : k < 42 := by
    have : (k : ℝ) < 42 := by linarith
    exact_mod_cast this
  have hmem := mem_begins.2 ⟨k, hk42, rfl⟩
  refine ⟨_, hmem, ?_⟩
  rw [inWindow_iff (begins_range hmem).1 (begins_range hmem).2 g0.le g1]
  exact ⟨g0.ne', Or.inl ⟨l1, by linarith⟩⟩

/-! ## Samples -/

/-- C115: the samples are the points of a grid closer than six steps to the keypoint. -/
theorem samples_disc (p : Int × Int) : p ∈ Descriptor.orientationSamples ↔ p.1 ^ 2 + p.2 ^ 2 < 6 ^ 2 := by
  obtain ⟨i, j⟩ := p
  unfold Descriptor.orientationSamples
  simp only [List.mem_filter, List.mem_flatMap, List.mem_map, List.mem_range, decide_eq_true_eq]
  constructor
  · rintro ⟨-, h⟩
    nlinarith
  · intro h
    have a1 : -6 ≤ i := by nlinarith
    have a2 : i ≤ 6 := by nlinarith
    have b1 : -6 ≤ j := by nlinarith
    have b2 : j ≤ 6 := by nlinarith
    exact ⟨⟨(i + 6).toNat, by omega, (j + 6).toNat, by omega, by rw [Prod.mk.injEq]; omega⟩, by nlinarith⟩

/-- Rounded to the nearest integer, halves upwards, where the number is more than minus one half. -/
theorem fRound_floor {x : ℝ} (h0 : -(1 / 2) ≤ x) : Descriptor.fRound x = ⌊x + 1 / 2⌋ := by
  unfold Descriptor.fRound Descriptor.trunc
  rw [if_pos (by linarith)]

/-- C115: a sample whose pixel is in the image counts with the gradient there, the less the further the pixel is from the
keypoint; one outside does not count. -/
theorem res_value (wd ht : Int) (Lx Ly : Int → Int → ℝ) (kp : Kpt) (i j : Int) :
    let s := Descriptor.fRound (kp.size / 2)
    let iy := Descriptor.fRound (kp.y + j * s)
    let ix := Descriptor.fRound (kp.x + i * s)
    (0 ≤ iy → iy < ht → 0 ≤ ix → ix < wd → res wd ht Lx Ly kp (i, j) =
      (Real.exp (-((ix - kp.x) ^ 2 + (iy - kp.y) ^ 2) / (2 * (5 / 2 * s) ^ 2)) * Lx iy ix,
        Real.exp (-((ix - kp.x) ^ 2 + (iy - kp.y) ^ 2) / (2 * (5 / 2 * s) ^ 2)) * Ly iy ix)) ∧
    (iy < 0 ∨ ht ≤ iy ∨ ix < 0 ∨ wd ≤ ix → res wd ht Lx Ly kp (i, j) = (0, 0)) := by
  simp only []
  constructor
  · intro a b c d
    unfold res
    simp only []
    rw [if_pos ⟨a, b, c, d⟩]
    unfold Descriptor.gaussian Descriptor.scale
    rw [show ∀ u v : ℝ, u * u + v * v = v ^ 2 + u ^ 2 from fun u v => by ring,
      show ∀ u : ℝ, 2 * u * u = 2 * u ^ 2 from fun u => by ring]
  · intro h
    unfold res
    simp only []
    rw [if_neg]
    unfold Descriptor.scale
    omega

/-! ## Sums -/

open Classical in
/-- The sum of the vectors of a list whose angle is in a window. -/
noncomputable def sumOver (P : ℝ → Prop) (l : List ((ℝ × ℝ) × ℝ)) : ℝ × ℝ :=
  ((l.map fun e => if P e.2 then e.1.1 else 0).sum, (l.map fun e => if P e.2 then e.1.2 else 0).sum)

open Classical in
theorem windowSum_eq (a : ℝ) (l : List ((ℝ × ℝ) × ℝ)) :
    windowSum a l = sumOver (InWindow a (windowEnd a)) l := by
  have key : ∀ (l : List ((ℝ × ℝ) × ℝ)) (acc : ℝ × ℝ),
      l.foldl (fun acc e => if InWindow a (windowEnd a) e.2 then (acc.1 + e.1.1, acc.2 + e.1.2) else acc) acc =
        (acc.1 + (sumOver (InWindow a (windowEnd a)) l).1, acc.2 + (sumOver (InWindow a (windowEnd a)) l).2) := by
    intro l
    induction l with
    | nil => intro acc; simp [sumOver]
    | cons e l ih =>
      intro acc
      rw [List.foldl_cons, ih]
      unfold sumOver
      simp only [List.map_cons, List.sum_cons]
      by_cases h : InWindow a (windowEnd a) e.2
      · simp only [if_pos h]
        exact Prod.ext (by simp; ring) (by simp; ring)
      · simp only [if_neg h]
        exact Prod.ext (by simp) (by simp)
  unfold windowSum
  rw [key]
  simp

/-- The squared length of a vector. -/
def lenSq (v : ℝ × ℝ) : ℝ := v.1 ^ 2 + v.2 ^ 2

theorem slide_spec (atan2 : ℝ → ℝ → ℝ) (l : List ((ℝ × ℝ) × ℝ)) : ∀ (ws : List ℝ) (st : ℝ × ℝ),
    (slide atan2 l ws st = st ∧ ∀ a ∈ ws, lenSq (windowSum a l) ≤ st.1) ∨
      ∃ pre a post, ws = pre ++ a :: post ∧ st.1 < lenSq (windowSum a l) ∧
        (∀ b ∈ pre, lenSq (windowSum b l) < lenSq (windowSum a l)) ∧
        (∀ b ∈ post, lenSq (windowSum b l) ≤ lenSq (windowSum a l)) ∧
        slide atan2 l ws st = (lenSq (windowSum a l), atan2 (windowSum a l).2 (windowSum a l).1) := by
  intro ws
  induction ws with
  | nil => intro st; exact Or.inl ⟨rfl, by simp⟩
  | cons a r ih =>
    intro st
    have e : (windowSum a l).1 * (windowSum a l).1 + (windowSum a l).2 * (windowSum a l).2 = lenSq (windowSum a l) := by
      unfold lenSq; ring
    rw [slide]
    simp only [e]
    by_cases h : st.1 < lenSq (windowSum a l)
    · rw [if_pos h]
      rcases ih (lenSq (windowSum a l), atan2 (windowSum a l).2 (windowSum a l).1) with ⟨h1, h2⟩ | ⟨pre, b, post, h1, h2, h3, h4, h5⟩
      · exact Or.inr ⟨[], a, r, rfl, h, by simp, h2, h1⟩
      · refine Or.inr ⟨a :: pre, b, post, by rw [h1]; rfl, lt_trans h h2, ?_, h4, h5⟩
        intro c hc
        rcases List.mem_cons.1 hc with rfl | hc
        · exact h2
        · exact h3 c hc
    · rw [if_neg h]
      rcases ih st with ⟨h1, h2⟩ | ⟨pre, b, post, h1, h2, h3, h4, h5⟩
      · refine Or.inl ⟨h1, ?_⟩
        intro c hc
        rcases List.mem_cons.1 hc with rfl | hc
        · exact not_lt.1 h
        · exact h2 c hc
      · refine Or.inr ⟨a :: pre, b, post, by rw [h1]; rfl, h2, ?_, h4, h5⟩
        intro c hc
        rcases List.mem_cons.1 hc with rfl | hc
        · exact lt_of_le_of_lt (not_lt.1 h) h2
        · exact h3 c hc

/-- C115: the orientation is the direction of the longest of the sums over the windows, of the first one if there are
several; if all sums are zero, the angle of the keypoint stays. -/
theorem orientation_longest (atan2 : ℝ → ℝ → ℝ) (wd ht : Int) (Lx Ly : Int → Int → ℝ) (kp : Kpt) :
    let sum := fun a : ℝ => sumOver (InWindow a (windowEnd a)) (samples atan2 wd ht Lx Ly kp)
    (orientation atan2 wd ht Lx Ly kp = kp.angle ∧ ∀ a ∈ begins 100 0, sum a = (0, 0)) ∨
      ∃ k : Nat, k < 42 ∧ sum (k * (15 / 100)) ≠ (0, 0) ∧
        (∀ j : Nat, j < k → lenSq (sum (j * (15 / 100))) < lenSq (sum (k * (15 / 100)))) ∧
        (∀ j : Nat, j < 42 → lenSq (sum (j * (15 / 100))) ≤ lenSq (sum (k * (15 / 100)))) ∧
        orientation atan2 wd ht Lx Ly kp = atan2 (sum (k * (15 / 100))).2 (sum (k * (15 / 100))).1 := by
  simp only []
  unfold orientation
  simp only [← windowSum_eq]
  rcases slide_spec atan2 (samples atan2 wd ht Lx Ly kp) (begins 100 0) (0, kp.angle) with ⟨h1, h2⟩ | ⟨pre, a, post, h1, h2, h3, h4, h5⟩
  · refine Or.inl ⟨by rw [h1], fun a ha => ?_⟩
    have := h2 a ha
    simp only at this
    unfold lenSq at this
    have z1 : (windowSum a (samples atan2 wd ht Lx Ly kp)).1 = 0 := by nlinarith [sq_nonneg (windowSum a (samples atan2 wd ht Lx Ly kp)).1, sq_nonneg (windowSum a (samples atan2 wd ht Lx Ly kp)).2]
    have z2 : (windowSum a (samples atan2 wd ht Lx Ly kp)).2 = 0 := by nlinarith [sq_nonneg (windowSum a (samples atan2 wd ht Lx Ly kp)).1, sq_nonneg (windowSum a (samples atan2 wd ht Lx Ly kp)).2]
    exact Prod.ext z1 z2
  · have hlen : pre.length < 42 := by
      have := congrArg List.length h1
      rw [begins_all] at this
      simp at this
      omega
    have hget : ∀ j : Nat, j < 42 → (begins 100 0)[j]? = some ((j : ℝ) * (15 / 100)) := by
      intro j hj
      rw [begins_all]
      simp [hj]
    have ha : a = (pre.length : ℝ) * (15 / 100) := by
      have := hget _ hlen
      rw [h1] at this
      simpa using this
    refine Or.inr ⟨pre.length, hlen, ?_, ?_, ?_, ?_⟩
    · rw [← ha]
      intro h
      rw [h] at h2
      simp [lenSq] at h2
    · intro j hj
      rw [← ha]
      refine h3 _ ?_
      have := hget j (by omega)
      rw [h1, List.getElem?_append_left hj] at this
      exact List.mem_of_getElem? this
    · intro j hj
      rw [← ha]
      have := List.mem_of_getElem? (hget j hj)
      rw [h1] at this
      rcases List.mem_append.1 this with h | h
      · exact (h3 _ h).le
      · rcases List.mem_cons.1 h with h | h
        · rw [h]
        · exact h4 _ h
    · rw [← ha, h5]

/-- C115: the orientation is the angle of the keypoint, or an angle from zero to less than a full turn. -/
theorem orientation_range {atan2 : ℝ → ℝ → ℝ} (h : Exact atan2) (wd ht : Int) (Lx Ly : Int → Int → ℝ) (kp : Kpt) :
    orientation atan2 wd ht Lx Ly kp = kp.angle ∨
      0 ≤ orientation atan2 wd ht Lx Ly kp ∧ orientation atan2 wd ht Lx Ly kp < 2 * Real.pi := by
  rcases orientation_longest atan2 wd ht Lx Ly kp with ⟨h1, -⟩ | ⟨k, -, -, -, -, h1⟩
  · exact Or.inl h1
  · rw [h1]
    exact Or.inr (h.range _ _)

/-! ## Gradients in one direction -/

/-- Vectors of the direction zero, and vectors of the direction `t`: the windows that have `t` have the sum of the latter. -/
theorem sumOver_directions (t : ℝ) (l : List ((ℝ × ℝ) × ℝ))
    (h : ∀ e ∈ l, e.2 = 0 ∨ ∃ q, 0 < q ∧ e.1 = (q * Real.cos t, q * Real.sin t) ∧ e.2 = t) (ht : t ≠ 0) :
    ∃ Q, 0 ≤ Q ∧ ((∃ e ∈ l, e.2 = t) → 0 < Q) ∧ ∀ P : ℝ → Prop, ¬P 0 →
      (P t → sumOver P l = (Q * Real.cos t, Q * Real.sin t)) ∧ (¬P t → sumOver P l = (0, 0)) := by
  induction l with
  | nil => exact ⟨0, le_rfl, by simp, fun P _ => ⟨fun _ => by simp [sumOver], fun _ => by simp [sumOver]⟩⟩
  | cons e l ih =>
    obtain ⟨Q, hQ, hpos, hsum⟩ := ih fun x hx => h x (List.mem_cons_of_mem _ hx)
    rcases h e (List.mem_cons_self ..) with h0 | ⟨q, hq, he, hang⟩
    · refine ⟨Q, hQ, ?_, fun P hP => ?_⟩
      · rintro ⟨x, hx, hxt⟩
        rcases List.mem_cons.1 hx with rfl | hx
        · exact absurd (hxt.symm.trans h0) ht
        · exact hpos ⟨x, hx, hxt⟩
      · have e1 : sumOver P (e :: l) = sumOver P l := by
          have hPe : ¬P e.2 := by rw [h0]; exact hP
          unfold sumOver
          simp only [List.map_cons, List.sum_cons, if_neg hPe, zero_add]
        rw [e1]
        exact hsum P hP
    · refine ⟨q + Q, by linarith, fun _ => by linarith, fun P hP => ⟨fun hPt => ?_, fun hPt => ?_⟩⟩
      · have e2 := (hsum P hP).1 hPt
        have e1 : sumOver P (e :: l) = (e.1.1 + (sumOver P l).1, e.1.2 + (sumOver P l).2) := by
          have hPe : P e.2 := by rw [hang]; exact hPt
          unfold sumOver
          simp only [List.map_cons, List.sum_cons, if_pos hPe]
        rw [e1, e2, he]
        exact Prod.ext (by simp only []; ring) (by simp only []; ring)
      · have e1 : sumOver P (e :: l) = sumOver P l := by
          have hPe : ¬P e.2 := by rw [hang]; exact hPt
          unfold sumOver
          simp only [List.map_cons, List.sum_cons, if_neg hPe, zero_add]
        rw [e1]
        exact (hsum P hP).2 hPt

theorem gaussian_pos (x y s : ℝ) : 0 < Descriptor.gaussian x y s := Real.exp_pos _

/-- The pixel of a keypoint. -/
noncomputable def pixel (kp : Kpt) : Int × Int := (⌊kp.y + 1 / 2⌋, ⌊kp.x + 1 / 2⌋)

/-- Keypoints whose pixel is in the image. -/
def InImage (wd ht : Int) (kp : Kpt) : Prop := 0 ≤ kp.x ∧ 0 ≤ kp.y ∧ (pixel kp).2 < wd ∧ (pixel kp).1 < ht

theorem not_inWindow_zero {a : ℝ} (h0 : 0 ≤ a) (h1 : a < 2 * Real.pi) : ¬InWindow a (windowEnd a) 0 := by
  have hp := Real.pi_pos
  rw [inWindow_iff h0 h1 le_rfl (by linarith)]
  simp

/-- The gradients of the image are zero, along the axis of x, or in direction `t`. -/
def TwoDirections (wd ht : Int) (Lx Ly : Int → Int → ℝ) (t : ℝ) : Prop :=
  ∀ y x, 0 ≤ y → y < ht → 0 ≤ x → x < wd →
    (0 ≤ Lx y x ∧ Ly y x = 0) ∨ ∃ r, 0 < r ∧ Lx y x = r * Real.cos t ∧ Ly y x = r * Real.sin t

theorem samples_directions {atan2 : ℝ → ℝ → ℝ} (hA : Exact atan2) {wd ht : Int} {Lx Ly : Int → Int → ℝ} {t : ℝ}
    (h0 : 0 < t) (h1 : t < 2 * Real.pi) (hD : TwoDirections wd ht Lx Ly t) (kp : Kpt) :
    ∀ e ∈ samples atan2 wd ht Lx Ly kp, e.2 = 0 ∨ ∃ q, 0 < q ∧ e.1 = (q * Real.cos t, q * Real.sin t) ∧ e.2 = t := by
  have hp := Real.pi_pos
  intro e he
  unfold samples at he
  rw [List.mem_map] at he
  obtain ⟨p, -, rfl⟩ := he
  simp only []
  unfold res
  simp only []
  set iy := Descriptor.fRound (kp.y + p.2 * Descriptor.scale kp)
  set ix := Descriptor.fRound (kp.x + p.1 * Descriptor.scale kp)
  by_cases h : 0 ≤ iy ∧ iy < ht ∧ 0 ≤ ix ∧ ix < wd
  · rw [if_pos h]
    set g := Descriptor.gaussian ((iy : ℝ) - kp.y) ((ix : ℝ) - kp.x) (5 / 2 * Descriptor.scale kp) with hg
    have hgp : 0 < g := gaussian_pos _ _ _
    rcases hD iy ix h.1 h.2.1 h.2.2.1 h.2.2.2 with ⟨a, b⟩ | ⟨r, hr, a, b⟩
    · left
      rw [b]
      rcases a.eq_or_lt with a | a
      · rw [← a, mul_zero]; exact hA.zero
      · have := hA.polar (g * Lx iy ix) 0 (by positivity) le_rfl (by linarith)
        rw [Real.sin_zero, Real.cos_zero, mul_one, mul_zero] at this
        simpa using this
    · right
      refine ⟨g * r, by positivity, ?_, ?_⟩
      · rw [a, b]; exact Prod.ext (by simp only []; ring) (by simp only []; ring)
      · rw [a, b, ← mul_assoc, ← mul_assoc]
        exact hA.polar (g * r) t (by positivity) h0.le h1
  · rw [if_neg h]
    exact Or.inl hA.zero

theorem orientation_two {atan2 : ℝ → ℝ → ℝ} (hA : Exact atan2) {wd ht : Int} {Lx Ly : Int → Int → ℝ} {t : ℝ}
    (h0 : 0 < t) (h1 : t < 2 * Real.pi) (hD : TwoDirections wd ht Lx Ly t) {kp : Kpt} (hi : InImage wd ht kp)
    (hc : ∃ r, 0 < r ∧ Lx (pixel kp).1 (pixel kp).2 = r * Real.cos t ∧ Ly (pixel kp).1 (pixel kp).2 = r * Real.sin t) :
    orientation atan2 wd ht Lx Ly kp = t := by
  obtain ⟨Q, hQ, hpos, hsum⟩ := sumOver_directions t _ (samples_directions hA h0 h1 hD kp) h0.ne'
  have hex : ∃ e ∈ samples atan2 wd ht Lx Ly kp, e.2 = t := by
    refine ⟨_, List.mem_map.2 ⟨(0, 0), by decide, rfl⟩, ?_⟩
    obtain ⟨i1, i2, i3, i4⟩ := hi
    obtain ⟨r, hr, c1, c2⟩ := hc
    simp only []
    unfold res
    simp only [Int.cast_zero, zero_mul, add_zero]
    rw [fRound_floor (by linarith), fRound_floor (by linarith)]
    have f1 : 0 ≤ ⌊kp.y + 1 / 2⌋ := Int.floor_nonneg.2 (by linarith)
    have f2 : 0 ≤ ⌊kp.x + 1 / 2⌋ := Int.floor_nonneg.2 (by linarith)
    rw [if_pos ⟨f1, i4, f2, i3⟩]
    simp only []
    have hg := gaussian_pos (((⌊kp.y + 1 / 2⌋ : Int) : ℝ) - kp.y) (((⌊kp.x + 1 / 2⌋ : Int) : ℝ) - kp.x) (5 / 2 * Descriptor.scale kp)
    unfold pixel at c1 c2
    simp only [] at c1 c2
    rw [c1, c2, ← mul_assoc, ← mul_assoc]
    exact hA.polar _ t (by positivity) h0.le h1
  have hQ' := hpos hex
  have hne : (Q * Real.cos t, Q * Real.sin t) ≠ ((0, 0) : ℝ × ℝ) := by
    intro h
    have e1 := congrArg Prod.fst h
    have e2 := congrArg Prod.snd h
    simp only [] at e1 e2
    have := Real.sin_sq_add_cos_sq t
    rcases mul_eq_zero.1 e1 with e1 | e1
    · linarith
    rcases mul_eq_zero.1 e2 with e2 | e2
    · linarith
    rw [e1, e2] at this
    norm_num at this
  have hl := orientation_longest atan2 wd ht Lx Ly kp
  simp only [] at hl
  rcases hl with ⟨-, h2⟩ | ⟨k, hk, h2, -, -, h3⟩
  · obtain ⟨a, ha, hin⟩ := window_covers h0 h1
    have := (hsum _ (not_inWindow_zero (begins_range ha).1 (begins_range ha).2)).1 hin
    rw [h2 a ha] at this
    exact absurd this.symm hne
  · have hb := begins_range (mem_begins.2 ⟨k, hk, rfl⟩)
    have hz := not_inWindow_zero hb.1 hb.2
    by_cases hin : InWindow ((k : ℝ) * (15 / 100)) (windowEnd ((k : ℝ) * (15 / 100))) t
    · rw [h3, (hsum _ hz).1 hin]
      exact hA.polar Q t hQ' h0.le h1
    · exact absurd ((hsum _ hz).2 hin) h2

/-- C115 (in part): if the gradients around a keypoint have one direction, this is its orientation, unless it is the
direction of the axis of x. -/
theorem orientation_uniform_partial {atan2 : ℝ → ℝ → ℝ} (hA : Exact atan2) {wd ht : Int} {Lx Ly : Int → Int → ℝ} {t : ℝ}
    (h0 : 0 < t) (h1 : t < 2 * Real.pi) {r : Int → Int → ℝ}
    (hD : ∀ y x, 0 ≤ y → y < ht → 0 ≤ x → x < wd →
      0 ≤ r y x ∧ Lx y x = r y x * Real.cos t ∧ Ly y x = r y x * Real.sin t)
    {kp : Kpt} (hi : InImage wd ht kp) (hc : 0 < r (pixel kp).1 (pixel kp).2) :
    orientation atan2 wd ht Lx Ly kp = t := by
  have f1 : 0 ≤ (pixel kp).1 := Int.floor_nonneg.2 (by linarith [hi.2.1])
  have f2 : 0 ≤ (pixel kp).2 := Int.floor_nonneg.2 (by linarith [hi.1])
  refine orientation_two hA h0 h1 ?_ hi ⟨_, hc, (hD _ _ f1 hi.2.2.2 f2 hi.2.2.1).2⟩
  intro y x a b c d
  obtain ⟨e1, e2, e3⟩ := hD y x a b c d
  rcases e1.eq_or_lt with e | e
  · left
    rw [e2, e3, ← e]
    simp
  · exact Or.inr ⟨_, e, e2, e3⟩

/-- A keypoint, for the examples. -/
noncomputable def someKp : Kpt := ⟨20, 10, 4, 1⟩

theorem someKp_in : InImage 40 30 someKp := by
  have e1 : ⌊(20 : ℝ) + 1 / 2⌋ = 20 := Int.floor_eq_iff.2 ⟨by norm_num, by norm_num⟩
  have e2 : ⌊(10 : ℝ) + 1 / 2⌋ = 10 := Int.floor_eq_iff.2 ⟨by norm_num, by norm_num⟩
  unfold InImage pixel someKp
  simp only [e1, e2]
  norm_num

example : orientation exactAtan2 40 30 (fun _ _ => 0) (fun _ _ => -3) someKp = 3 * Real.pi / 2 := by
  have hp := Real.pi_pos
  have e : 3 * Real.pi / 2 = Real.pi + Real.pi / 2 := by ring
  refine orientation_uniform_partial exactAtan2_exact (by positivity) (by linarith) (r := fun _ _ => 3) ?_ someKp_in (by norm_num)
  intro y x _ _ _ _
  rw [e, Real.cos_add, Real.sin_add, Real.cos_pi, Real.sin_pi, Real.cos_pi_div_two, Real.sin_pi_div_two]
  norm_num

/-- C115, refuted: if all gradients point along the axis of x, the angle of the keypoint is not set at all. -/
theorem orientation_zero_refuted {atan2 : ℝ → ℝ → ℝ} (hA : Exact atan2) (wd ht : Int) {Lx : Int → Int → ℝ}
    (hL : ∀ y x, 0 ≤ Lx y x) (kp : Kpt) : orientation atan2 wd ht Lx (fun _ _ => 0) kp = kp.angle := by
  have hp := Real.pi_pos
  rcases orientation_longest atan2 wd ht Lx (fun _ _ => 0) kp with ⟨h1, -⟩ | ⟨k, hk, h2, -⟩
  · exact h1
  · exfalso
    refine h2 ?_
    have hb := begins_range (mem_begins.2 ⟨k, hk, rfl⟩)
    have hz := not_inWindow_zero hb.1 hb.2
    have hs : ∀ e ∈ samples atan2 wd ht Lx (fun _ _ => 0) kp, e.2 = 0 := by
      intro e he
      unfold samples at he
      rw [List.mem_map] at he
      obtain ⟨p, -, rfl⟩ := he
      simp only []
      unfold res
      simp only []
      set iy := Descriptor.fRound (kp.y + p.2 * Descriptor.scale kp)
      set ix := Descriptor.fRound (kp.x + p.1 * Descriptor.scale kp)
      by_cases h : 0 ≤ iy ∧ iy < ht ∧ 0 ≤ ix ∧ ix < wd
      · rw [if_pos h]
        simp only [mul_zero]
        set g := Descriptor.gaussian ((iy : ℝ) - kp.y) ((ix : ℝ) - kp.x) (5 / 2 * Descriptor.scale kp)
        have hgp : 0 < g := gaussian_pos _ _ _
        rcases (hL iy ix).eq_or_lt with a | a
        · rw [← a, mul_zero]; exact hA.zero
        · have := hA.polar (g * Lx iy ix) 0 (by positivity) le_rfl (by linarith)
          rw [Real.sin_zero, Real.cos_zero, mul_one, mul_zero] at this
          simpa using this
      · rw [if_neg h]
        exact hA.zero
    generalize samples atan2 wd ht Lx (fun _ _ => 0) kp = l at hs
    induction l with
    | nil => simp [sumOver]
    | cons e l ih =>
      have h0 := hs e (List.mem_cons_self ..)
      have := ih fun x hx => hs x (List.mem_cons_of_mem _ hx)
      have hPe : ¬InWindow ((k : ℝ) * (15 / 100)) (windowEnd ((k : ℝ) * (15 / 100))) e.2 := by rw [h0]; exact hz
      unfold sumOver at this ⊢
      simp only [List.map_cons, List.sum_cons, if_neg hPe, zero_add]
      exact this

example : orientation exactAtan2 40 30 (fun _ _ => 5) (fun _ _ => 0) someKp = 1 :=
  orientation_zero_refuted exactAtan2_exact 40 30 (fun _ _ => by norm_num) someKp

/-- C115, refuted: gradients along the axis of x do not count. However strong they are, a single gradient of another
direction, however weak, makes this direction the orientation. -/
theorem orientation_dominant_refuted {atan2 : ℝ → ℝ → ℝ} (hA : Exact atan2) {eps strong : ℝ} (he : 0 < eps) (hs : 0 ≤ strong) :
    orientation atan2 40 30 (fun y x => if (y, x) = (10, 20) then 0 else strong)
      (fun y x => if (y, x) = (10, 20) then eps else 0) someKp = Real.pi / 2 := by
  have hp := Real.pi_pos
  have e1 : ⌊(20 : ℝ) + 1 / 2⌋ = 20 := Int.floor_eq_iff.2 ⟨by norm_num, by norm_num⟩
  have e2 : ⌊(10 : ℝ) + 1 / 2⌋ = 10 := Int.floor_eq_iff.2 ⟨by norm_num, by norm_num⟩
  have ep : pixel someKp = (10, 20) := by unfold pixel someKp; simp only [e1, e2]
  refine orientation_two hA (by positivity) (by linarith) ?_ someKp_in ?_
  · intro y x _ _ _ _
    simp only []
    by_cases h : (y, x) = ((10, 20) : Int × Int)
    · right
      refine ⟨eps, he, ?_, ?_⟩
      · rw [if_pos h]; simp
      · rw [if_pos h]; simp
    · left
      rw [if_neg h, if_neg h]
      exact ⟨hs, rfl⟩
  · rw [ep]
    exact ⟨eps, he, by simp, by simp⟩

/-! ## Brightness -/

theorem polar_exists (y x : ℝ) : ∃ r t, 0 ≤ r ∧ 0 ≤ t ∧ t < 2 * Real.pi ∧ x = r * Real.cos t ∧ y = r * Real.sin t := by
  have hp := Real.pi_pos
  have h1 := Complex.neg_pi_lt_arg (⟨x, y⟩ : ℂ)
  have h2 := Complex.arg_le_pi (⟨x, y⟩ : ℂ)
  have c := Complex.norm_mul_cos_arg (⟨x, y⟩ : ℂ)
  have d := Complex.norm_mul_sin_arg (⟨x, y⟩ : ℂ)
  by_cases h : 0 ≤ Complex.arg ⟨x, y⟩
  · exact ⟨_, _, norm_nonneg _, h, by linarith, c.symm, d.symm⟩
  · refine ⟨_, Complex.arg ⟨x, y⟩ + 2 * Real.pi, norm_nonneg (⟨x, y⟩ : ℂ), by linarith, by linarith, ?_, ?_⟩
    · rw [Real.cos_add_two_pi]; exact c.symm
    · rw [Real.sin_add_two_pi]; exact d.symm

theorem atan2_gain {atan2 : ℝ → ℝ → ℝ} (hA : Exact atan2) {a : ℝ} (ha : 0 < a) (y x : ℝ) :
    atan2 (a * y) (a * x) = atan2 y x := by
  obtain ⟨r, t, hr, h0, h1, rfl, rfl⟩ := polar_exists y x
  rcases hr.eq_or_lt with h | h
  · rw [← h]; simp
  · rw [hA.polar r t h h0 h1, ← mul_assoc, ← mul_assoc, hA.polar (a * r) t (by positivity) h0 h1]

theorem samples_gain {atan2 : ℝ → ℝ → ℝ} (hA : Exact atan2) {a : ℝ} (ha : 0 < a) (wd ht : Int) (Lx Ly : Int → Int → ℝ)
    (kp : Kpt) : samples atan2 wd ht (fun y x => a * Lx y x) (fun y x => a * Ly y x) kp =
      (samples atan2 wd ht Lx Ly kp).map fun e => ((a * e.1.1, a * e.1.2), e.2) := by
  unfold samples
  rw [List.map_map]
  refine List.map_congr_left fun p _ => ?_
  have hr : res wd ht (fun y x => a * Lx y x) (fun y x => a * Ly y x) kp p =
      (a * (res wd ht Lx Ly kp p).1, a * (res wd ht Lx Ly kp p).2) := by
    unfold res
    simp only []
    by_cases h : 0 ≤ Descriptor.fRound (kp.y + p.2 * Descriptor.scale kp) ∧
        Descriptor.fRound (kp.y + p.2 * Descriptor.scale kp) < ht ∧
        0 ≤ Descriptor.fRound (kp.x + p.1 * Descriptor.scale kp) ∧
        Descriptor.fRound (kp.x + p.1 * Descriptor.scale kp) < wd
    · rw [if_pos h, if_pos h]
      exact Prod.ext (by simp only []; ring) (by simp only []; ring)
    · rw [if_neg h, if_neg h]
      simp
  simp only [Function.comp]
  rw [hr]
  simp only [atan2_gain hA ha]

theorem sumOver_gain (a : ℝ) (P : ℝ → Prop) (l : List ((ℝ × ℝ) × ℝ)) :
    sumOver P (l.map fun e => ((a * e.1.1, a * e.1.2), e.2)) = (a * (sumOver P l).1, a * (sumOver P l).2) := by
  induction l with
  | nil => simp [sumOver]
  | cons e l ih =>
    unfold sumOver at ih ⊢
    simp only [List.map_cons, List.sum_cons]
    have i1 := congrArg Prod.fst ih
    have i2 := congrArg Prod.snd ih
    simp only [] at i1 i2
    rw [i1, i2]
    by_cases h : P e.2
    · simp only [if_pos h]
      exact Prod.ext (by simp only []; ring) (by simp only []; ring)
    · simp only [if_neg h]
      exact Prod.ext (by simp only []; ring) (by simp only []; ring)

theorem slide_gain {atan2 : ℝ → ℝ → ℝ} (hA : Exact atan2) {a : ℝ} (ha : 0 < a) (l : List ((ℝ × ℝ) × ℝ)) :
    ∀ (ws : List ℝ) (st : ℝ × ℝ),
      slide atan2 (l.map fun e => ((a * e.1.1, a * e.1.2), e.2)) ws (a ^ 2 * st.1, st.2) =
        (a ^ 2 * (slide atan2 l ws st).1, (slide atan2 l ws st).2) := by
  intro ws
  induction ws with
  | nil => intro st; rfl
  | cons w r ih =>
    intro st
    rw [slide, slide]
    simp only [windowSum_eq, sumOver_gain]
    set v := sumOver (InWindow w (windowEnd w)) l
    have e : a * v.1 * (a * v.1) + a * v.2 * (a * v.2) = a ^ 2 * (v.1 * v.1 + v.2 * v.2) := by ring
    rw [e, atan2_gain hA ha]
    by_cases h : st.1 < v.1 * v.1 + v.2 * v.2
    · rw [if_pos h, if_pos (mul_lt_mul_of_pos_left h (by positivity))]
      exact ih (v.1 * v.1 + v.2 * v.2, atan2 v.2 v.1)
    · rw [if_neg h, if_neg (by rw [not_lt] at h ⊢; exact mul_le_mul_of_nonneg_left h (by positivity))]
      exact ih st

/-- C115: the contrast of the image does not change the orientation. -/
theorem orientation_gain {atan2 : ℝ → ℝ → ℝ} (hA : Exact atan2) {a : ℝ} (ha : 0 < a) (wd ht : Int)
    (Lx Ly : Int → Int → ℝ) (kp : Kpt) :
    orientation atan2 wd ht (fun y x => a * Lx y x) (fun y x => a * Ly y x) kp = orientation atan2 wd ht Lx Ly kp := by
  unfold orientation
  rw [samples_gain hA ha]
  have := slide_gain hA ha (samples atan2 wd ht Lx Ly kp) (begins 100 0) (0, kp.angle)
  simp only [mul_zero] at this
  rw [this]

end Verif.Kaze.Orientation
