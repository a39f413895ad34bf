import Verif.Camera.RandomProps

/-!
# Projectable homogeneous points (C68) and border rays of a lidar (C113)
-/

namespace Verif.Camera

open Verif (Outcome)
open Verif.Distortion (Model)
open Classical

/-- C68: a homogeneous point is projectable iff the keypoint of the point it represents is in the image and that point is
deep enough, *measured in units of the homogeneous coordinate*. -/
theorem isProjectable4_iff {n : Nat} (D : Model n) (b : Box) (I : Fin 4 → ℝ) (c : Fin n → ℝ) (h : V4)
    (hw : h.2.2.2 ≠ 0) :
    isProjectable4 (pinholeProject D b I c) h = true ↔
      1e-10 < |h.2.2.2| * (represented h).2.2 ∧
        ∃ k, (pinholeProject D b I c (represented h)).keypoint = some k ∧ InImage b k := by
  unfold isProjectable4 project4
  simp only
  rw [decide_eq_true_eq, euclidean_eq hw, (pinhole_status D b I c _).1,
    pinhole_scale D b I c _ (abs_ne_zero.2 hw)]
  rfl

/-- C68: a point at infinity is projectable iff its direction is. -/
theorem isProjectable4_infinity {n : Nat} (D : Model n) (b : Box) (I : Fin 4 → ℝ) (c : Fin n → ℝ) (p : V3) :
    isProjectable4 (pinholeProject D b I c) (p.1, p.2.1, p.2.2, 0) = isProjectable3 (pinholeProject D b I c) p := by
  unfold isProjectable4 project4 isProjectable3 euclidean
  simp

/-- C68, refuted: a point and the homogeneous point that represents it are not projectable alike. -/
theorem isProjectable4_refuted : ∃ (b : Box) (I : Fin 4 → ℝ) (h : V4), PinholeValid I ∧ h.2.2.2 ≠ 0 ∧
    isProjectable3 (pinholeProject Verif.Distortion.null b I Fin.elim0) (represented h) = true ∧
    isProjectable4 (pinholeProject Verif.Distortion.null b I Fin.elim0) h = false := by
  have hr : represented ((0, 0, 1e-11, 1e-11) : V4) = (0, 0, 1) := by
    unfold represented
    norm_num
  refine ⟨⟨10, 10⟩, fun _ => 5, (0, 0, 1e-11, 1e-11), ?_, ?_, ?_, ?_⟩
  · unfold PinholeValid
    norm_num
  · norm_num
  · rw [isProjectable_iff, hr]
    refine ⟨by norm_num, (5, 5), ?_, ?_⟩
    · rw [pinhole_keypoint _ _ _ _ (by norm_num)]
      simp [Verif.Distortion.null]
    · unfold InImage
      norm_num
  · rw [Bool.eq_false_iff]
    intro h
    rw [isProjectable4_iff _ _ _ _ _ (by norm_num), hr] at h
    have := h.1
    norm_num at this

/-- C113: the border rays of a lidar whose image covers less than a full turn and does not reach the poles are at infinity,
and each is seen at its keypoint on the border of the image. -/
theorem lidarBorderRays_seen {L : LidarParams} {b : Box} (hL : LidarValid L) (hw : 2 ≤ b.width) (hh : 2 ≤ b.height)
    (hθ1 : L.horizontalCenter < Real.pi) (hθ2 : (b.width - 1) * L.horizontalResolution - L.horizontalCenter ≤ Real.pi)
    (hφ1 : L.verticalCenter < Real.pi / 2)
    (hφ2 : (b.height - 1) * L.verticalResolution - L.verticalCenter < Real.pi / 2) :
    (lidarBorderRays b L).map (fun r => (r.2.2.2, lidarProject L b (r.1, r.2.1, r.2.2.1))) =
      (borderKeypoints b).map fun k => (0, .visible, k) := by
  unfold lidarBorderRays
  rw [List.map_map]
  refine List.map_congr_left fun k hk => ?_
  have w2 : (2 : ℝ) ≤ b.width := by exact_mod_cast hw
  have h2 : (2 : ℝ) ≤ b.height := by exact_mod_cast hh
  have hin : 0 ≤ k.1 ∧ k.1 ≤ b.width - 1 ∧ 0 ≤ k.2 ∧ k.2 ≤ b.height - 1 := by
    rw [borderKeypoints_all] at hk
    rcases hk with ⟨e | e, f | f | f⟩ | ⟨e, f | f⟩ <;> rw [e, f] <;> refine ⟨?_, ?_, ?_, ?_⟩ <;> linarith
  obtain ⟨a1, a2, a3, a4⟩ := hin
  have hI : InImage b k := ⟨a1, by linarith, a3, by linarith⟩
  obtain ⟨l1, l2⟩ := hL
  have hn := (lidar_backProject L k).2
  have hs : scale 1 (lidarBackProject L k) = lidarBackProject L k := by
    unfold scale
    simp
  have hproj := lidar_project_backProject_sector L b ⟨l1, l2⟩ k a1 (by nlinarith) (by nlinarith) (by nlinarith)
    (by nlinarith) 1 (by norm_num)
  rw [hs] at hproj
  show ((0 : ℝ), lidarProject L b (lidarBackProject L k)) = _
  refine Prod.ext rfl (Prod.ext ?_ hproj)
  show (lidarProject L b (lidarBackProject L k)).1 = .visible
  rw [(lidar_status L b _).1, hn, hproj]
  exact ⟨by norm_num, hI⟩

/-- A lidar of 3 by 3 pixels, half a radian apart. -/
example : LidarValid ⟨1 / 2, 1 / 2, 1 / 2, 1 / 2⟩ ∧ (1 / 2 : ℝ) < Real.pi ∧ (3 - 1) * (1 / 2 : ℝ) - 1 / 2 ≤ Real.pi ∧
    (1 / 2 : ℝ) < Real.pi / 2 ∧ (3 - 1) * (1 / 2 : ℝ) - 1 / 2 < Real.pi / 2 := by
  have := Real.pi_gt_three
  refine ⟨⟨by norm_num, by norm_num⟩, ?_, ?_, ?_, ?_⟩ <;> linarith

end Verif.Camera
