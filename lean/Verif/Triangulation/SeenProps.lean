import Verif.Triangulation.Seen
import Verif.Triangulation.Props
import Verif.Camera.Props

/-!
# C149: a landmark that is tracked is triangulated where it is
-/

namespace Verif.Triangulation

open Matrix
open Verif (Outcome)
open Verif.Camera (V2 V3 scale)

/-! ## Specification -/

/-- The pose of the camera of a sighting in the world. -/
def cameraPose (T_W_B : Pose) (s : Sighting) : Pose := T_W_B.mul s.T_C_B.inverse

/-- The camera of the sighting sees the landmark `X`, which has the coordinates `p` in the camera, at its keypoint. -/
structure Shows (T_W_B : Pose) (s : Sighting) (project : V3 → Option V2) (X : V) (p : V3) : Prop where
  coordinates : X = (cameraPose T_W_B s).act (toV p)
  keypoint : project p = some s.keypoint

/-- Back-projection gives the direction of the point. -/
def Inverts (back : V2 → Option V3) (project : V3 → Option V2) (p : V3) : Prop :=
  ∀ k, project p = some k → ∃ t : ℝ, t ≠ 0 ∧ back k = some (scale t p)

/-! ## Proofs -/

theorem Rigid.inv {T : Pose} (h : Rigid T) : Rigid T.inverse := by
  unfold Rigid Pose.inverse
  simp only
  rw [transpose_transpose]
  exact h.mul_transpose

theorem Parallel.scaled {n : Nat} {d e : Fin n → V} {c : Fin n → ℝ} (h : ∀ i, d i = c i • e i) (hc : ∀ i, c i ≠ 0) :
    Parallel d ↔ Parallel e := by
  unfold Parallel
  refine exists_congr fun u => forall_congr' fun i => ?_
  rw [h i]
  constructor
  · rintro ⟨s, hs⟩
    refine ⟨(c i)⁻¹ * s, ?_⟩
    rw [mul_smul, ← hs, smul_smul, inv_mul_cancel₀ (hc i), one_smul]
  · rintro ⟨s, hs⟩
    exact ⟨c i * s, by rw [hs, smul_smul]⟩

/-- The normalised measurement of a sighting. -/
theorem Shows.normalized {T_W_B : Pose} {s : Sighting} {project : V3 → Option V2} {X : V} {p : V3}
    (h : Shows T_W_B s project X p) (hi : Inverts s.backProject3 project p) :
    (p.2.2 ≠ 0 → normalized s = some (p.1 / p.2.2, p.2.1 / p.2.2)) ∧ (p.2.2 = 0 → normalized s = none) := by
  obtain ⟨t, ht, e⟩ := hi _ h.keypoint
  unfold Triangulation.normalized
  rw [e]
  unfold scale
  simp only
  constructor
  · intro hz
    rw [if_neg (mul_ne_zero ht hz), mul_div_mul_left _ _ ht, mul_div_mul_left _ _ ht]
  · intro hz
    rw [if_pos (by rw [hz, mul_zero])]

/-- The line of sight as direction of the measurement. -/
theorem Shows.heading {T_W_B : Pose} {s : Sighting} {project : V3 → Option V2} {X : V} {p : V3}
    (h : Shows T_W_B s project X p) (hz : p.2.2 ≠ 0) :
    X - (cameraPose T_W_B s).p = p.2.2 • heading (cameraPose T_W_B s) (p.1 / p.2.2, p.2.1 / p.2.2) := by
  rw [h.coordinates]
  unfold Pose.act Triangulation.heading
  rw [add_sub_cancel_right, ← mulVec_smul]
  congr 1
  funext k
  unfold toV
  fin_cases k <;> simp <;> field_simp

theorem Shows.sees {T_W_B : Pose} {s : Sighting} {project : V3 → Option V2} {X : V} {p : V3}
    (h : Shows T_W_B s project X p) (hz : p.2.2 ≠ 0) :
    Sees (cameraPose T_W_B s) (p.1 / p.2.2, p.2.1 / p.2.2) X := by
  rw [sees_line]
  refine ⟨p.2.2, ?_⟩
  rw [← h.heading hz]
  unfold center
  abel

theorem triangulateTrack_eq {n : Nat} (hn : 2 ≤ n) (q : QR (Fin n × Fin 3) (Fin 3 ⊕ Fin n)) (track : Fin n → Sighting)
    (T_W_B : Fin n → Pose) {m : Fin n → ℝ × ℝ} (hm : ∀ i, normalized (track i) = some (m i)) :
    triangulateTrack q track T_W_B = .ok (some (nViews q m T_W_B (track ⟨0, by omega⟩).T_C_B.inverse)) := by
  unfold triangulateTrack
  rw [dif_pos (by omega), dif_pos rfl]
  simp only
  rw [dif_pos (fun i => by rw [hm i]; rfl)]
  congr 3
  funext i
  simp [hm i]

/-- **C149.** A track of one camera whose keypoints all show one landmark, in front of the camera or behind, is
triangulated: if the lines of sight are not all parallel the status is "successful" and the landmark is where it is, and
otherwise the status is "unobservable".  Rank and solution of the decomposition are exact. -/
theorem track_exact_partial {n : Nat} (hn : 2 ≤ n) {q : QR (Fin n × Fin 3) (Fin 3 ⊕ Fin n)} (hq : Valid q)
    (hr : ∀ A, q.rank A = A.rank) (track : Fin n → Sighting) (T_W_B : Fin n → Pose) (mount : Pose)
    (hmount : ∀ i, (track i).T_C_B = mount) (hT : ∀ i, Rigid (T_W_B i)) (hC : Rigid mount) (project : V3 → Option V2)
    (X : V) (p : Fin n → V3) (hs : ∀ i, Shows (T_W_B i) (track i) project X (p i))
    (hi : ∀ i, Inverts (track i).backProject3 project (p i)) (hz : ∀ i, (p i).2.2 ≠ 0) :
    (¬ Parallel (fun i => X - (cameraPose (T_W_B i) (track i)).p) →
      triangulateTrack q track T_W_B = .ok (some (.successful, some X))) ∧
    (Parallel (fun i => X - (cameraPose (T_W_B i) (track i)).p) →
      triangulateTrack q track T_W_B = .ok (some (.unobservable, none))) := by
  obtain ⟨m, hm⟩ : ∃ m : Fin n → ℝ × ℝ, m = fun i => ((p i).1 / (p i).2.2, (p i).2.1 / (p i).2.2) := ⟨_, rfl⟩
  have hmi : ∀ i, m i = ((p i).1 / (p i).2.2, (p i).2.1 / (p i).2.2) := fun i => by rw [hm]
  have e := triangulateTrack_eq hn q track T_W_B (m := m) (fun i => by rw [hmi]; exact ((hs i).normalized (hi i)).1 (hz i))
  have hpose : ∀ i, cameraPose (T_W_B i) (track i) = (T_W_B i).mul mount.inverse := fun i => by
    unfold cameraPose
    rw [hmount]
  have hpar : Parallel (fun i => X - (cameraPose (T_W_B i) (track i)).p) ↔
      Parallel (fun i => heading ((T_W_B i).mul mount.inverse) (m i)) := by
    refine Parallel.scaled (c := fun i => (p i).2.2) (fun i => ?_) hz
    rw [hmi, ← hpose]
    exact (hs i).heading (hz i)
  rw [e, hmount, hpar]
  obtain ⟨o1, o2⟩ := nViews_observable hn hq m T_W_B mount.inverse hT hC.inv (hr _)
  refine ⟨fun h => ?_, fun h => by rw [o1 h]⟩
  obtain ⟨P, hP, -⟩ := o2 h
  have hX := nViews_exact_partial hn hq m T_W_B mount.inverse hT hC.inv X
    (fun i => by rw [hmi, ← hpose]; exact (hs i).sees (hz i))
    (by rw [hr]; exact systemA_rank_ge fun i => heading_ne_zero ((hT i).mulP hC.inv) (m i)) (by rw [hP])
  rw [hP] at hX ⊢
  simp only at hX
  rw [hX]

/-- C149, deviation: if a camera sees the landmark at a right angle to its axis, as cameras with a mirror can, the
solver is given infinities. -/
theorem sideways_refuted {n : Nat} (hn : 2 ≤ n) (q : QR (Fin n × Fin 3) (Fin 3 ⊕ Fin n)) (track : Fin n → Sighting)
    (T_W_B : Fin n → Pose) (project : V3 → Option V2) (X : V) (i : Fin n) (p : V3)
    (hs : Shows (T_W_B i) (track i) project X p) (hi : Inverts (track i).backProject3 project p) (hz : p.2.2 = 0) :
    triangulateTrack q track T_W_B = .ok none := by
  unfold triangulateTrack
  rw [dif_pos (by omega), dif_pos rfl]
  simp only
  rw [dif_neg]
  intro h
  have := h i
  rw [(hs.normalized hi).2 hz] at this
  cases this

/-- C149, deviation: a landmark seen at one time by the cameras of a rig that look in one direction from different
places is put into the center of the first camera, with the status "successful". -/
theorem stereo_refuted {n : Nat} (hn : 2 ≤ n) {q : QR (Fin n × Fin 3) (Fin 3 ⊕ Fin n)} (hq : Valid q)
    (hr : ∀ A, q.rank A = A.rank) (track : Fin n → Sighting) (T : Pose) (R : M3)
    (hmount : ∀ i, (track i).T_C_B.R = R) (hT : Rigid T) (hC : ∀ i, Rigid (track i).T_C_B) (project : Fin n → V3 → Option V2)
    (X : V) (p : Fin n → V3) (hs : ∀ i, Shows T (track i) (project i) X (p i))
    (hi : ∀ i, Inverts (track i).backProject3 (project i) (p i)) (hz : ∀ i, (p i).2.2 ≠ 0)
    (hnp : ¬ Parallel (fun i => X - (cameraPose T (track i)).p)) :
    triangulateTrack q track (fun _ : Fin n => T) =
      .ok (some (.successful, some (cameraPose T (track ⟨0, by omega⟩)).p)) := by
  obtain ⟨m, hm⟩ : ∃ m : Fin n → ℝ × ℝ, m = fun i => ((p i).1 / (p i).2.2, (p i).2.1 / (p i).2.2) := ⟨_, rfl⟩
  have hmi : ∀ i, m i = ((p i).1 / (p i).2.2, (p i).2.1 / (p i).2.2) := fun i => by rw [hm]
  have e := triangulateTrack_eq hn q track (fun _ : Fin n => T) (m := m)
    (fun i => by rw [hmi]; exact ((hs i).normalized (hi i)).1 (hz i))
  obtain ⟨first, hfirst⟩ : ∃ f : Fin n, f = ⟨0, by omega⟩ := ⟨_, rfl⟩
  rw [← hfirst] at e ⊢
  have hpar : Parallel (fun i => X - (cameraPose T (track i)).p) ↔
      Parallel (fun i => heading (T.mul (track first).T_C_B.inverse) (m i)) := by
    refine Parallel.scaled (c := fun i => (p i).2.2) (fun i => ?_) hz
    rw [hmi]
    refine ((hs i).heading (hz i)).trans ?_
    unfold heading cameraPose Pose.mul Pose.inverse
    simp only [hmount]
  rw [hpar] at hnp
  rw [e]
  obtain ⟨-, o2⟩ := nViews_observable hn hq m (fun _ => T) (track first).T_C_B.inverse (fun _ => hT) (hC first).inv (hr _)
  obtain ⟨P, hP, -⟩ := o2 hnp
  have hX := nViews_exact_partial hn hq m (fun _ => T) (track first).T_C_B.inverse (fun _ => hT) (hC first).inv
    (cameraPose T (track first)).p
    (fun i => sees_line.2 ⟨0, by rw [zero_smul, add_zero]; rfl⟩)
    (by rw [hr]; exact systemA_rank_ge fun i => heading_ne_zero (hT.mulP (hC first).inv) (m i)) (by rw [hP])
  rw [hP] at hX ⊢
  simp only at hX
  rw [hX]

/-- **C149.** Tracks of one keypoint and other numbers of poses than of keypoints end the program. -/
theorem track_checked {n k : Nat} (q : QR (Fin n × Fin 3) (Fin 3 ⊕ Fin n)) (track : Fin n → Sighting)
    (T_W_B : Fin k → Pose) : triangulateTrack q track T_W_B = .abort ↔ n < 2 ∨ n ≠ k := by
  unfold triangulateTrack
  by_cases h1 : 1 < n
  · rw [dif_pos h1]
    by_cases h2 : n = k
    · rw [dif_pos h2]
      simp only
      split
      · simp; omega
      · simp; omega
    · rw [dif_neg h2]
      simp [h2]
  · rw [dif_neg h1]
    simp; omega

/-! ## The cameras -/

/-- Pinhole cameras without distortion invert all points that are not in the plane of the camera. -/
theorem pinhole_null_inverts (b : Verif.Camera.Box) (I : Fin 4 → ℝ) (c : Fin 0 → ℝ) (hI : Verif.Camera.PinholeValid I) (p : V3)
    (hz : p.2.2 ≠ 0) : Inverts (fun k => (Verif.Camera.pinholeBackProject Verif.Distortion.null I c k).1)
      (fun p => (Verif.Camera.pinholeProject Verif.Distortion.null b I c p).keypoint) p := by
  intro k hk
  refine ⟨1 / p.2.2, one_div_ne_zero hz, ?_⟩
  simp only
  rw [(Verif.Camera.pinhole_null_inverse b I c hI).2 p k hz hk]

/-- Pinhole cameras with fisheye distortion invert the points of C54. -/
theorem pinhole_fisheye_inverts (b : Verif.Camera.Box) (I : Fin 4 → ℝ) (c : Fin 1 → ℝ) (hI : Verif.Camera.PinholeValid I)
    (h1 : 0.5 ≤ c 0) (h2 : c 0 ≤ 1.5) (p : V3) (hz : 0 < p.2.2) (hr : 1e-5 ≤ (p.1 / p.2.2) ^ 2 + (p.2.1 / p.2.2) ^ 2)
    (ha : Real.arctan (2 * Real.tan (c 0 / 2) * Real.sqrt ((p.1 / p.2.2) ^ 2 + (p.2.1 / p.2.2) ^ 2)) ≤ 89 * Real.pi / 180) :
    Inverts (fun k => (Verif.Camera.pinholeBackProject Verif.Distortion.fisheye I c k).1)
      (fun p => (Verif.Camera.pinholeProject Verif.Distortion.fisheye b I c p).keypoint) p := by
  intro k hk
  refine ⟨1 / p.2.2, one_div_ne_zero hz.ne', ?_⟩
  simp only
  rw [Verif.Camera.pinhole_fisheye_inverse b I c hI h1 h2 p hz k hk hr ha]

/-- Cameras with a mirror and without distortion invert all points in their field of view, also behind them. -/
theorem unified_null_inverts (b : Verif.Camera.Box) (I : Fin 5 → ℝ) (c : Fin 0 → ℝ) (hI : Verif.Camera.UnifiedValid I) (p : V3)
    (hv : p.2.2 > -(Verif.Camera.fovParameter (I 0) * Verif.Camera.norm3 p)) :
    Inverts (fun k => (Verif.Camera.unifiedBackProject Verif.Distortion.null I c k).map Prod.fst)
      (fun p => (Verif.Camera.unifiedProject Verif.Distortion.null b I c p).keypoint) p := by
  intro k hk
  obtain ⟨s, h0, e⟩ := Verif.Camera.unified_backProject_project Verif.Distortion.null b I c hI p hv k hk (fun _ => rfl)
  refine ⟨s, h0.ne', ?_⟩
  simp only
  rw [e]
  rfl

/-! ## Concrete cases -/

/-- A pinhole camera with a focal length of 400 pixels. -/
noncomputable def lens : Fin 4 → ℝ := ![400, 400, 320, 240]

theorem lens_valid : Verif.Camera.PinholeValid lens := by
  unfold Verif.Camera.PinholeValid lens
  refine ⟨?_, ?_, ?_, ?_⟩ <;> simp

/-- Its back-projection and its projection. -/
noncomputable def lensBack (k : V2) : Option V3 := (Verif.Camera.pinholeBackProject Verif.Distortion.null lens ![] k).1
noncomputable def lensProject (p : V3) : Option V2 :=
  (Verif.Camera.pinholeProject Verif.Distortion.null ⟨640, 480⟩ lens ![] p).keypoint

/-- The landmark `(0, 0, 2)` in the camera at the origin and in the one at `(1, 0, 0)`. -/
noncomputable def inView : Fin 2 → V3 := ![(0, 0, 2), (-1, 0, 2)]

theorem inView_z (i : Fin 2) : (inView i).2.2 ≠ 0 := by fin_cases i <;> simp [inView]

/-- The keypoints. -/
noncomputable def atKeypoint : Fin 2 → V2 := ![(320, 240), (120, 240)]

theorem inView_project (i : Fin 2) : lensProject (inView i) = some (atKeypoint i) := by
  unfold lensProject
  rw [Verif.Camera.pinhole_keypoint _ _ _ _ (inView_z i)]
  fin_cases i <;> simp [inView, atKeypoint, lens, Verif.Distortion.null] <;> norm_num

theorem views_apart : ¬ Parallel (fun i => ![0, 0, 2] - (![(![0, 0, 0] : V), ![1, 0, 0]] : Fin 2 → V) i) := by
  rintro ⟨u, h⟩
  obtain ⟨s, hs⟩ := h 0
  obtain ⟨t, ht⟩ := h 1
  have a0 := congrFun hs 0
  have a2 := congrFun hs 2
  have b0 := congrFun ht 0
  have b2 := congrFun ht 2
  simp at a0 a2 b0 b2
  rcases a0 with a0 | a0
  · rw [a0] at a2; norm_num at a2
  · rw [a0] at b0; norm_num at b0

/-- The camera is the body and moves. -/
example : triangulateTrack (exactQR _ _) (fun i => ⟨atKeypoint i, lensBack, ⟨1, 0⟩⟩) stereo =
    .ok (some (.successful, some ![0, 0, 2])) := by
  have hp : ∀ i, (cameraPose (stereo i) ⟨atKeypoint i, lensBack, ⟨1, 0⟩⟩).p =
      (![(![0, 0, 0] : V), ![1, 0, 0]] : Fin 2 → V) i := by
    intro i
    funext k
    fin_cases i <;> fin_cases k <;> simp [cameraPose, Pose.mul, Pose.inverse, stereo]
  refine (track_exact_partial le_rfl (exactQR_valid _ _) (fun _ => rfl) _ stereo ⟨1, 0⟩ (fun _ => rfl) stereo_rigid
    (by unfold Rigid; simp) lensProject _ inView (fun i => ⟨?_, inView_project i⟩)
    (fun i => pinhole_null_inverts _ _ _ lens_valid _ (inView_z i)) inView_z).1 ?_
  · funext k
    fin_cases i <;> fin_cases k <;>
      simp [cameraPose, Pose.mul, Pose.inverse, Pose.act, stereo, toV, inView]
  · simp only [hp]
    exact views_apart

/-- The two cameras are on one body: the landmark at a distance of two is put at the origin. -/
example : triangulateTrack (exactQR _ _) (fun i => ⟨atKeypoint i, lensBack, ⟨1, ![![0, 0, 0], ![-1, 0, 0]] i⟩⟩)
    (fun _ : Fin 2 => ⟨1, 0⟩) = .ok (some (.successful, some ![0, 0, 0])) := by
  have hp : ∀ i, (cameraPose ⟨1, 0⟩ ⟨atKeypoint i, lensBack, ⟨1, ![![0, 0, 0], ![-1, 0, 0]] i⟩⟩).p =
      (![(![0, 0, 0] : V), ![1, 0, 0]] : Fin 2 → V) i := by
    intro i
    funext k
    fin_cases i <;> fin_cases k <;> simp [cameraPose, Pose.mul, Pose.inverse]
  have h := stereo_refuted le_rfl (exactQR_valid _ _) (fun _ => rfl)
    (fun i => ⟨atKeypoint i, lensBack, ⟨1, ![![0, 0, 0], ![-1, 0, 0]] i⟩⟩) ⟨1, 0⟩ 1 (fun _ => rfl) (by unfold Rigid; simp)
    (fun i => by unfold Rigid; simp) (fun _ => lensProject) ![0, 0, 2] inView (fun i => ⟨?_, inView_project i⟩)
    (fun i => pinhole_null_inverts _ _ _ lens_valid _ (inView_z i)) inView_z ?_
  · rw [h, hp]
    rfl
  · funext k
    fin_cases i <;> fin_cases k <;>
      simp [cameraPose, Pose.mul, Pose.inverse, Pose.act, toV, inView]
  · simp only [hp]
    exact views_apart

/-- A camera with a mirror sees the point `(1, 0, 0)` at its side. -/
example : Verif.Camera.UnifiedValid ![1, 200, 200, 320, 240] ∧
    ((1, 0, 0) : V3).2.2 > -(Verif.Camera.fovParameter 1 * Verif.Camera.norm3 (1, 0, 0)) ∧
    (Verif.Camera.unifiedProject Verif.Distortion.null ⟨640, 480⟩ ![1, 200, 200, 320, 240] ![] (1, 0, 0)).keypoint =
      some (520, 240) := by
  have hn : Verif.Camera.norm3 (1, 0, 0) = 1 := by unfold Verif.Camera.norm3; simp
  have hv : ((1, 0, 0) : V3).2.2 > -(Verif.Camera.fovParameter 1 * Verif.Camera.norm3 (1, 0, 0)) := by
    rw [hn]
    unfold Verif.Camera.fovParameter
    norm_num
  refine ⟨by unfold Verif.Camera.UnifiedValid; simp, hv, ?_⟩
  rw [Verif.Camera.unified_keypoint _ _ _ _ (by simp) (by simpa using hv)]
  simp [hn, Verif.Distortion.null]
  norm_num

end Verif.Triangulation
