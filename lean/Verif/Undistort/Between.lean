import Verif.Undistort.Props
import Mathlib.Topology.Order.IntermediateValue
import Mathlib.Topology.Algebra.Polynomial
import Mathlib.Tactic.FieldSimp

/-!
# The image between the samples

The outer rectangle is the one of the 81 samples.  With radial distortion the undistorted border bulges between them, so that
parts of the image are cut off although `alpha = 1`.
-/

namespace Verif.Undistort

open Verif (Outcome)
open Verif.Camera (V2 V3)
open Verif.Distortion (radtanDistort)

/-- A camera with one radial coefficient. -/
theorem radtan_radial (k : ℝ) (p : V2) : radtanDistort ![k, 0, 0, 0] p =
    (p.1 * (1 + k * (p.1 ^ 2 + p.2 ^ 2)), p.2 * (1 + k * (p.1 ^ 2 + p.2 ^ 2))) := by
  simp only [radtanDistort, Matrix.cons_val_zero, Matrix.cons_val_one, Matrix.cons_val]
  ext <;> simp only <;> ring

/-- What is undistorted lies to the right of the point of the border that is level with the principal point. -/
theorem right_of_bulge {k a : ℝ} (hk : 0 < k) (ha : 0 < a) {u : V2}
    (hx : -(a * (1 + k * a ^ 2)) ≤ (radtanDistort ![k, 0, 0, 0] u).1) (hy : (radtanDistort ![k, 0, 0, 0] u).2 ≠ 0) :
    -a < u.1 := by
  rw [radtan_radial] at hx hy
  simp only at hx hy
  by_contra h
  push Not at h
  have hu : u.2 ≠ 0 := fun e => hy (by rw [e]; ring)
  have h2 : 0 < u.2 ^ 2 := by positivity
  have h3 : a ≤ -u.1 := by linarith
  have h4 : a ^ 2 ≤ u.1 ^ 2 := by nlinarith
  have h5 : 1 + k * a ^ 2 < 1 + k * (u.1 ^ 2 + u.2 ^ 2) := by
    have := mul_lt_mul_of_pos_left (show a ^ 2 < u.1 ^ 2 + u.2 ^ 2 by linarith) hk
    linarith
  have h6 : 0 < 1 + k * a ^ 2 := by positivity
  have h7 : a * (1 + k * a ^ 2) < -u.1 * (1 + k * (u.1 ^ 2 + u.2 ^ 2)) := by
    calc a * (1 + k * a ^ 2) < a * (1 + k * (u.1 ^ 2 + u.2 ^ 2)) := mul_lt_mul_of_pos_left h5 ha
      _ ≤ -u.1 * (1 + k * (u.1 ^ 2 + u.2 ^ 2)) := mul_le_mul_of_nonneg_right h3 (by linarith)
  linarith

/-- There is a way to undo a positive radial distortion exactly. -/
theorem exists_radial_undistort {k : ℝ} (hk : 0 < k) :
    ∃ undistort : V2 → V2, ∀ p, radtanDistort ![k, 0, 0, 0] (undistort p) = p := by
  have one : ∀ p : V2, ∃ u : V2, radtanDistort ![k, 0, 0, 0] u = p := by
    intro p
    let R := p.1 ^ 2 + p.2 ^ 2
    have hR : 0 ≤ R := by positivity
    let f : ℝ → ℝ := fun s => s * (1 + k * (s ^ 2 * R))
    have hf : Continuous f := by
      simp only [f]
      fun_prop
    have h0 : f 0 = 0 := by simp [f]
    have h1 : 1 ≤ f 1 := by
      have : 0 ≤ k * R := by positivity
      simp only [f]
      linarith
    obtain ⟨s, -, hs⟩ := intermediate_value_Icc (by norm_num : (0 : ℝ) ≤ 1) hf.continuousOn (show (1 : ℝ) ∈ Set.Icc (f 0) (f 1) from
      ⟨by rw [h0]; norm_num, h1⟩)
    refine ⟨(s * p.1, s * p.2), ?_⟩
    rw [radtan_radial]
    simp only [f, R] at hs
    ext
    · show s * p.1 * (1 + k * ((s * p.1) ^ 2 + (s * p.2) ^ 2)) = p.1
      calc _ = p.1 * (s * (1 + k * (s ^ 2 * (p.1 ^ 2 + p.2 ^ 2)))) := by ring
        _ = p.1 := by rw [hs, mul_one]
    · show s * p.2 * (1 + k * ((s * p.1) ^ 2 + (s * p.2) ^ 2)) = p.2
      calc _ = p.2 * (s * (1 + k * (s ^ 2 * (p.1 ^ 2 + p.2 ^ 2)))) := by ring
        _ = p.2 := by rw [hs, mul_one]
  exact ⟨fun p => (one p).choose, fun p => (one p).choose_spec⟩

/-- Undoing a positive radial distortion moves towards the principal point. -/
theorem undistort_le {k : ℝ} (hk : 0 < k) {undistort : V2 → V2}
    (hu : ∀ p, radtanDistort ![k, 0, 0, 0] (undistort p) = p) (p : V2) :
    |(undistort p).1| ≤ |p.1| ∧ |(undistort p).2| ≤ |p.2| := by
  have h := hu p
  rw [radtan_radial] at h
  have h1 : 1 ≤ 1 + k * ((undistort p).1 ^ 2 + (undistort p).2 ^ 2) := by
    have : 0 ≤ k * ((undistort p).1 ^ 2 + (undistort p).2 ^ 2) := by positivity
    linarith
  constructor
  · rw [← congrArg Prod.fst h, abs_mul, abs_of_pos (by linarith : 0 < 1 + k * ((undistort p).1 ^ 2 + (undistort p).2 ^ 2))]
    exact le_mul_of_one_le_right (abs_nonneg _) h1
  · rw [← congrArg Prod.snd h, abs_mul, abs_of_pos (by linarith : 0 < 1 + k * ((undistort p).1 ^ 2 + (undistort p).2 ^ 2))]
    exact le_mul_of_one_le_right (abs_nonneg _) h1

/-- **C78**: for a camera with positive radial distortion whose principal point is level with none of the samples, the pixel of
the left border level with the principal point falls out of the output image although `alpha = 1`. -/
theorem matrix_outer_cuts {w h : Nat} {fx fy cx cy k scale : ℝ} {undistort : V2 → V2} {K : CameraMatrix}
    (hfx : 0 < fx) (hfy : 0 < fy) (hcx : 0 < cx) (hk : 0 < k)
    (hu : ∀ p, radtanDistort ![k, 0, 0, 0] (undistort p) = p)
    (hcy : ∀ y : Nat, y ≤ 8 → cy ≠ ((y * h / 8 : Nat) : ℝ))
    (hf : Finite (samples w h (normalizePlain fx fy cx cy undistort)))
    (hK : newCameraMatrix w h (rectangles (samples w h (normalizePlain fx fy cx cy undistort))).1
      (rectangles (samples w h (normalizePlain fx fy cx cy undistort))).2 1 scale = .ok K)
    (hw : cx < w) (hW : 2 ≤ outputSize scale w) :
    (K.pixel (normalizePlain fx fy cx cy undistort (0, cy))).1 < 0 := by
  set N := normalizePlain fx fy cx cy undistort with hN
  set O := (rectangles (samples w h N)).2 with hO
  -- the point that is cut off
  have hq := hu (1 / fx * (0 - cx), 1 / fy * (cy - cy))
  rw [radtan_radial] at hq
  set q := undistort (1 / fx * (0 - cx), 1 / fy * (cy - cy)) with hqd
  have hNq : N (0, cy) = q := rfl
  have q1 : q.1 * (1 + k * (q.1 ^ 2 + q.2 ^ 2)) = -(cx / fx) := by
    have := congrArg Prod.fst hq
    simp only at this
    rw [this]; ring
  have q2 : q.2 * (1 + k * (q.1 ^ 2 + q.2 ^ 2)) = 0 := by
    have := congrArg Prod.snd hq
    simp only at this
    rw [this]; ring
  have hpos : 0 < 1 + k * (q.1 ^ 2 + q.2 ^ 2) := by positivity
  have q20 : q.2 = 0 := by
    rcases mul_eq_zero.1 q2 with h | h
    · exact h
    · exact absurd h hpos.ne'
  rw [q20] at q1 hpos
  have hc : 0 < cx / fx := div_pos hcx hfx
  have q1n : q.1 < 0 := by
    by_contra h
    push Not at h
    have := mul_nonneg h hpos.le
    linarith
  -- the samples lie to the right of it
  have hs : ∀ s ∈ samples w h N, q.1 < s.pt.1 := by
    intro s hs
    obtain ⟨x, y, hx, hy, rfl⟩ := mem_samples.1 hs
    simp only
    have e := hu (1 / fx * (((x * w / 8 : Nat) : ℝ) - cx), 1 / fy * (((y * h / 8 : Nat) : ℝ) - cy))
    have hx0 : (0 : ℝ) ≤ ((x * w / 8 : Nat) : ℝ) := Nat.cast_nonneg _
    have := right_of_bulge (k := k) (a := -q.1) hk (by linarith)
      (u := undistort (1 / fx * (((x * w / 8 : Nat) : ℝ) - cx), 1 / fy * (((y * h / 8 : Nat) : ℝ) - cy)))
      (by
        rw [e]
        simp only
        have e2 : -(-q.1 * (1 + k * (-q.1) ^ 2)) = -(cx / fx) := by rw [← q1]; ring
        rw [e2]
        have : 1 / fx * (((x * w / 8 : Nat) : ℝ) - cx) = ((x * w / 8 : Nat) : ℝ) / fx - cx / fx := by ring
        rw [this]
        have := div_nonneg hx0 hfx.le
        linarith)
      (by
        rw [e]
        simp only
        have := sub_ne_zero.2 (hcy y (by omega)).symm
        positivity)
    rw [neg_neg] at this
    exact this
  -- so the rectangle starts to the right of it
  obtain ⟨o1, o2⟩ := outer_spec w h N hf
  have hOx : q.1 < O.x := by
    by_contra hle
    push Not at hle
    -- the least of the samples would be a better start
    classical
    obtain ⟨s0, hs0, hmin⟩ := (samples w h N).toFinset.exists_min_image (fun s => s.pt.1)
      ⟨_, List.mem_toFinset.2 (mem_samples.2 ⟨0, 0, by omega, by omega, rfl⟩)⟩
    have hs0' := hs _ (List.mem_toFinset.1 hs0)
    have := (o2 ⟨s0.pt.1, O.y, O.x + O.width - s0.pt.1, O.height⟩ (fun s hs' =>
      ⟨hmin s (List.mem_toFinset.2 hs'), by simpa using (o1 s hs').2.1, (o1 s hs').2.2.1, (o1 s hs').2.2.2⟩)).1
    simp only at this
    linarith
  -- and it is not empty: the right border is right of the principal point
  have hOw : 0 < O.width := by
    have hm : (⟨8, 0, N (((8 * w / 8 : Nat) : ℝ), ((0 * h / 8 : Nat) : ℝ))⟩ : Sample) ∈ samples w h N :=
      mem_samples.2 ⟨8, 0, by omega, by omega, rfl⟩
    have hm0 : (⟨0, 0, N (((0 * w / 8 : Nat) : ℝ), ((0 * h / 8 : Nat) : ℝ))⟩ : Sample) ∈ samples w h N :=
      mem_samples.2 ⟨0, 0, by omega, by omega, rfl⟩
    have a := (o1 _ hm).2.1
    have b := (o1 _ hm0).1
    simp only at a b
    have sign : ∀ p : V2, (0 < p.1 → 0 < (undistort p).1) ∧ (p.1 < 0 → (undistort p).1 < 0) := by
      intro p
      have e := hu p
      rw [radtan_radial] at e
      have e1 := congrArg Prod.fst e
      simp only at e1
      have hp : 0 < 1 + k * ((undistort p).1 ^ 2 + (undistort p).2 ^ 2) := by positivity
      constructor
      · intro h
        rw [← e1] at h
        exact (mul_pos_iff_of_pos_right hp).1 h
      · intro h
        rw [← e1] at h
        by_contra hn
        push Not at hn
        have := mul_nonneg hn hp.le
        linarith
    have c : 0 < (N (((8 * w / 8 : Nat) : ℝ), ((0 * h / 8 : Nat) : ℝ))).1 := by
      apply (sign _).1
      simp only
      have : 8 * w / 8 = w := by omega
      rw [this]
      exact mul_pos (by positivity) (by linarith)
    have d : (N (((0 * w / 8 : Nat) : ℝ), ((0 * h / 8 : Nat) : ℝ))).1 < 0 := by
      apply (sign _).2
      simp only
      have : 0 * w / 8 = 0 := by simp
      rw [this]
      have : 0 < 1 / fx * cx := by positivity
      push_cast
      linarith
    linarith
  obtain ⟨-, -, -, a1, -, a3, -⟩ := newCameraMatrix_eq hK
  rw [hNq]
  have w2 : (2 : ℝ) ≤ (outputSize scale w : ℝ) := by exact_mod_cast hW
  show K.fx * q.1 + K.cx < 0
  rw [a1, a3]
  simp only [fit, sub_self, mul_zero, zero_add, mul_one]
  have : 0 < ((outputSize scale w : ℝ) - 1) / O.width := div_pos (by linarith) hOw
  have := mul_pos this (sub_pos.2 hOx)
  linarith

/-- Samples are finite if the image is not huge. -/
theorem radial_finite {w h : Nat} {cx cy k : ℝ} {undistort : V2 → V2} (hk : 0 < k)
    (hu : ∀ p, radtanDistort ![k, 0, 0, 0] (undistort p) = p) (hcx : |cx| ≤ 10000) (hcy : |cy| ≤ 10000)
    (hw : w ≤ 10000) (hh : h ≤ 10000) {fx fy : ℝ} (hfx : 1 ≤ fx) (hfy : 1 ≤ fy) :
    Finite (samples w h (normalizePlain fx fy cx cy undistort)) := by
  have big : (20000 : ℝ) ≤ fltMax := by unfold fltMax; norm_num
  have axis : ∀ {f c : ℝ} {n x : Nat}, 1 ≤ f → |c| ≤ 10000 → n ≤ 10000 → x < 9 →
      |1 / f * (((x * n / 8 : Nat) : ℝ) - c)| ≤ 20000 := by
    intro f c n x hf hc hn hx
    have h1 : ((x * n / 8 : Nat) : ℝ) ≤ 10000 := by
      have : x * n / 8 ≤ 10000 := by
        have : x * n ≤ 8 * 10000 := Nat.mul_le_mul (by omega) hn
        omega
      exact_mod_cast this
    have h0 : (0 : ℝ) ≤ ((x * n / 8 : Nat) : ℝ) := Nat.cast_nonneg _
    rw [abs_mul]
    have h2 : |1 / f| ≤ 1 := by
      rw [abs_of_pos (by positivity)]
      exact (div_le_one (by linarith)).2 hf
    have h3 : |((x * n / 8 : Nat) : ℝ) - c| ≤ 20000 := by
      have := abs_le.1 hc
      exact abs_le.2 ⟨by linarith, by linarith⟩
    calc _ ≤ 1 * |((x * n / 8 : Nat) : ℝ) - c| := mul_le_mul_of_nonneg_right h2 (abs_nonneg _)
      _ ≤ 20000 := by linarith
  intro s hs
  obtain ⟨x, y, hx, hy, rfl⟩ := mem_samples.1 hs
  obtain ⟨a, b⟩ := undistort_le hk hu (1 / fx * (((x * w / 8 : Nat) : ℝ) - cx), 1 / fy * (((y * h / 8 : Nat) : ℝ) - cy))
  exact ⟨(a.trans (axis hfx hcx hw hx)).trans big, (b.trans (axis hfy hcy hh hy)).trans big⟩

/-- **C78** (refuted): with `alpha = 1` the output image does not show all of the image: of a camera with 640 by 480 pixels,
focal length 400, principal point (320, 250) and radial coefficient 1/10, undistorted exactly, the pixel (0, 250) is left out. -/
theorem matrix_outer_between_refuted :
    ¬ ∀ (w h : Nat) (fx fy cx cy : ℝ) (k : Fin 4 → ℝ) (undistort : V2 → V2) (K : CameraMatrix),
      0 < fx → 0 < fy → 0 < cx ∧ cx < w → 0 < cy ∧ cy < h → (∀ p, radtanDistort k (undistort p) = p) →
      newCameraMatrix w h (rectangles (samples w h (normalizePlain fx fy cx cy undistort))).1
        (rectangles (samples w h (normalizePlain fx fy cx cy undistort))).2 1 1 = .ok K →
      ∀ x y : Nat, x < w → y < h →
        0 ≤ (K.pixel (normalizePlain fx fy cx cy undistort (x, y))).1 := by
  intro hall
  obtain ⟨undistort, hu⟩ := exists_radial_undistort (k := 1 / 10) (by norm_num)
  have hex : ∃ K, newCameraMatrix 640 480 (rectangles (samples 640 480 (normalizePlain 400 400 320 250 undistort))).1
      (rectangles (samples 640 480 (normalizePlain 400 400 320 250 undistort))).2 1 1 = .ok K := by
    unfold newCameraMatrix
    rw [if_neg (by norm_num), if_neg (by norm_num), if_neg (by norm_num)]
    exact ⟨_, rfl⟩
  obtain ⟨K, hK⟩ := hex
  have h1 := hall 640 480 400 400 320 250 _ undistort K (by norm_num) (by norm_num) (by norm_num) (by norm_num) hu hK
    0 250 (by norm_num) (by norm_num)
  have h2 := matrix_outer_cuts (w := 640) (h := 480) (cy := 250) (scale := 1) (by norm_num) (by norm_num) (by norm_num) (by norm_num) hu
    (by
      intro y hy
      have : y * 480 / 8 ≠ 250 := by omega
      exact_mod_cast this.symm)
    (radial_finite (by norm_num) hu (by rw [abs_le]; norm_num) (by rw [abs_le]; norm_num) (by norm_num) (by norm_num)
      (by norm_num) (by norm_num)) hK (by norm_num) (by simp [outputSize])
  push_cast at h1
  linarith

end Verif.Undistort
