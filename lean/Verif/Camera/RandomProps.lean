import Verif.Camera.Random

/-!
# Properties of random keypoints and points and of border rays (C113)
-/

namespace Verif.Camera

open Verif (Outcome)
open Verif.Distortion (Model)
open Classical

/-! ### Random keypoints -/

/-- What `setRandom` gives. -/
def Drawn (r : V2) : Prop := |r.1| ≤ 1 ∧ |r.2| ≤ 1

/-- The distance the keypoints keep from the border of the image: a tenth of its shorter side. -/
noncomputable def border (b : Box) : ℝ := min (b.width : ℝ) b.height / 10

theorem randomKeypoint_eq (b : Box) (r : V2) : randomKeypoint b r =
    (border b + |r.1| * (b.width - border b * 2), border b + |r.2| * (b.height - border b * 2)) := by
  unfold randomKeypoint border
  push_cast
  norm_num [div_eq_mul_inv]

/-- C113: a random keypoint keeps the distance from all borders. -/
theorem randomKeypoint_inside (b : Box) {r : V2} (hr : Drawn r) :
    border b ≤ (randomKeypoint b r).1 ∧ (randomKeypoint b r).1 ≤ b.width - border b ∧
      border b ≤ (randomKeypoint b r).2 ∧ (randomKeypoint b r).2 ≤ b.height - border b := by
  rw [randomKeypoint_eq]
  have hw : border b ≤ b.width / 10 := div_le_div_of_nonneg_right (min_le_left _ _) (by norm_num)
  have hh : border b ≤ b.height / 10 := div_le_div_of_nonneg_right (min_le_right _ _) (by norm_num)
  have w0 : (0 : ℝ) ≤ b.width := Nat.cast_nonneg _
  have h0 : (0 : ℝ) ≤ b.height := Nat.cast_nonneg _
  obtain ⟨h1, h2⟩ := hr
  have a1 := abs_nonneg r.1
  have a2 := abs_nonneg r.2
  refine ⟨?_, ?_, ?_, ?_⟩ <;> simp only <;> nlinarith

/-- C113: a random keypoint is in the image, if there is one. -/
theorem randomKeypoint_visible {b : Box} (hw : 1 ≤ b.width) (hh : 1 ≤ b.height) {r : V2} (hr : Drawn r) :
    InImage b (randomKeypoint b r) := by
  obtain ⟨h1, h2, h3, h4⟩ := randomKeypoint_inside b hr
  have w1 : (1 : ℝ) ≤ b.width := by exact_mod_cast hw
  have h1' : (1 : ℝ) ≤ b.height := by exact_mod_cast hh
  have hb : 0 < border b := by
    unfold border
    have : (0 : ℝ) < min (b.width : ℝ) b.height := lt_min (by linarith) (by linarith)
    positivity
  exact ⟨by linarith, by linarith, by linarith, by linarith⟩

/-- C113: every keypoint with that distance from the borders may occur. -/
theorem randomKeypoint_onto {b : Box} (hw : 1 ≤ b.width) (hh : 1 ≤ b.height) {k : V2} (h1 : border b ≤ k.1)
    (h2 : k.1 ≤ b.width - border b) (h3 : border b ≤ k.2) (h4 : k.2 ≤ b.height - border b) :
    ∃ r, Drawn r ∧ randomKeypoint b r = k := by
  have w1 : (1 : ℝ) ≤ b.width := by exact_mod_cast hw
  have h1' : (1 : ℝ) ≤ b.height := by exact_mod_cast hh
  have hbw : border b ≤ b.width / 10 := div_le_div_of_nonneg_right (min_le_left _ _) (by norm_num)
  have hbh : border b ≤ b.height / 10 := div_le_div_of_nonneg_right (min_le_right _ _) (by norm_num)
  have p1 : 0 < (b.width : ℝ) - border b * 2 := by linarith
  have p2 : 0 < (b.height : ℝ) - border b * 2 := by linarith
  have n1 : 0 ≤ (k.1 - border b) / (b.width - border b * 2) := div_nonneg (by linarith) p1.le
  have n2 : 0 ≤ (k.2 - border b) / (b.height - border b * 2) := div_nonneg (by linarith) p2.le
  refine ⟨((k.1 - border b) / (b.width - border b * 2), (k.2 - border b) / (b.height - border b * 2)), ⟨?_, ?_⟩, ?_⟩
  · simp only
    rw [abs_of_nonneg n1, div_le_one p1]
    linarith
  · simp only
    rw [abs_of_nonneg n2, div_le_one p2]
    linarith
  · rw [randomKeypoint_eq]
    simp only
    rw [abs_of_nonneg n1, abs_of_nonneg n2, div_mul_cancel₀ _ p1.ne', div_mul_cancel₀ _ p2.ne', add_sub_cancel,
      add_sub_cancel]

/-! ### Random points -/

theorem toDepth_eq {p : V3} (h : 0 < norm3 p) (d : ℝ) : toDepth p d = some (scale (d / norm3 p) p) := by
  unfold toDepth scale
  rw [if_neg h.ne']
  simp only [Option.some.injEq, Prod.mk.injEq]
  refine ⟨?_, ?_, ?_⟩ <;> ring

theorem toDepth_norm {p : V3} (h : 0 < norm3 p) {d : ℝ} (hd : 0 < d) : norm3 (scale (d / norm3 p) p) = d := by
  rw [norm3_scale (by positivity), div_mul_cancel₀ _ h.ne']

/-- C113: without distortion, or where undistorting is right, the random point of a pinhole camera is at the depth that was
asked for (measured along the ray), its keypoint is the random keypoint, and it is visible if it is farther than
the minimal depth. -/
theorem pinholeRandomPoint_spec {n : Nat} (D : Model n) {b : Box} {I : Fin 4 → ℝ} (c : Fin n → ℝ) (hI : PinholeValid I)
    (hw : 1 ≤ b.width) (hh : 1 ≤ b.height) {r : V2} (hr : Drawn r) {q : V2}
    (hq : D.undistort c (((randomKeypoint b r).1 - I 2) / I 0, ((randomKeypoint b r).2 - I 3) / I 1) = some q)
    (hD : D.distort c q = (((randomKeypoint b r).1 - I 2) / I 0, ((randomKeypoint b r).2 - I 3) / I 1)) {depth : ℝ}
    (hd : 0 < depth) :
    ∃ p, pinholeRandomPoint D b I c r depth = .ok (some p) ∧ norm3 p = depth ∧
      (pinholeProject D b I c p).keypoint = some (randomKeypoint b r) ∧
      p.2.2 = depth / norm3 (q.1, q.2, 1) ∧
      ((pinholeProject D b I c p).status = .visible ↔ 1e-10 < p.2.2) := by
  have hb : (pinholeBackProject D I c (randomKeypoint b r)).1 = some (q.1, q.2, 1) := by
    unfold pinholeBackProject
    simp only
    rw [hq]
    rfl
  have hpos : 0 < norm3 (q.1, q.2, 1) := by
    unfold norm3
    refine Real.sqrt_pos.2 ?_
    simp only
    nlinarith [mul_self_nonneg q.1, mul_self_nonneg q.2]
  have hs : 0 < depth / norm3 (q.1, q.2, 1) := by positivity
  have hk := ((pinhole_project_backProject D b I c hI (randomKeypoint b r) (q.1, q.2, 1) hb
    (by intro q' h'; rw [hq] at h'; injection h' with h'; rw [← h', hD])).2.2) _ hs
  refine ⟨scale (depth / norm3 (q.1, q.2, 1)) (q.1, q.2, 1), ?_, toDepth_norm hpos hd, hk, ?_, ?_⟩
  · unfold pinholeRandomPoint
    rw [if_neg (by simpa using hd)]
    simp only
    rw [hb, Option.bind_some, toDepth_eq hpos]
  · unfold scale
    simp
  · rw [(pinhole_status D b I c _).1, hk]
    constructor
    · exact fun h => h.1
    · exact fun h => ⟨h, _, rfl, randomKeypoint_visible hw hh hr⟩

/-- C113: the case without distortion, for which nothing needs to be assumed. -/
theorem pinholeRandomPoint_null {b : Box} {I : Fin 4 → ℝ} (hI : PinholeValid I) (hw : 1 ≤ b.width) (hh : 1 ≤ b.height)
    {r : V2} (hr : Drawn r) {depth : ℝ} (hd : 0 < depth) :
    ∃ p, pinholeRandomPoint Verif.Distortion.null b I Fin.elim0 r depth = .ok (some p) ∧ norm3 p = depth ∧
      (pinholeProject Verif.Distortion.null b I Fin.elim0 p).keypoint = some (randomKeypoint b r) ∧
      ((pinholeProject Verif.Distortion.null b I Fin.elim0 p).status = .visible ↔ 1e-10 < p.2.2) := by
  obtain ⟨p, h1, h2, h3, -, h4⟩ := pinholeRandomPoint_spec Verif.Distortion.null (n := 0) (b := b) Fin.elim0 hI hw hh hr
    (q := (((randomKeypoint b r).1 - I 2) / I 0, ((randomKeypoint b r).2 - I 3) / I 1)) rfl rfl hd
  exact ⟨p, h1, h2, h3, h4⟩

/-- C113, refuted: "creates a random visible point" for all depths that are accepted: up to `1e-10` it is never visible. -/
theorem pinholeRandomPoint_tiny_refuted {b : Box} {I : Fin 4 → ℝ} (hI : PinholeValid I) (hw : 1 ≤ b.width)
    (hh : 1 ≤ b.height) {r : V2} (hr : Drawn r) {depth : ℝ} (hd : 0 < depth) (hs : depth ≤ 1e-10) :
    ∃ p, pinholeRandomPoint Verif.Distortion.null b I Fin.elim0 r depth = .ok (some p) ∧
      (pinholeProject Verif.Distortion.null b I Fin.elim0 p).status ≠ .visible := by
  obtain ⟨p, h1, h2, -, h4⟩ := pinholeRandomPoint_null hI hw hh hr hd
  refine ⟨p, h1, fun hv => ?_⟩
  have hz := h4.1 hv
  have hn := norm3_sq p
  rw [h2] at hn
  nlinarith [mul_self_nonneg p.1, mul_self_nonneg p.2.1]

/-- C113, refuted: "Negative depth means random between 0 and 100 meters".  The process ends, for all cameras. -/
theorem negative_depth_refuted {n : Nat} (D : Model n) (b : Box) (I : Fin 4 → ℝ) (I5 : Fin 5 → ℝ) (L : LidarParams)
    (c : Fin n → ℝ) (r : V2) (draws : Nat → V2 × ℝ) {depth : ℝ} (hd : depth < 0) :
    pinholeRandomPoint D b I c r depth = .abort ∧ unifiedRandomPoint D b I5 c draws depth = .abort ∧
      lidarRandomPoint L b r depth = .abort := by
  have h : ¬ depth > 0 := by linarith
  unfold pinholeRandomPoint unifiedRandomPoint lidarRandomPoint
  rw [if_pos h, if_pos h, if_pos h]
  exact ⟨rfl, rfl, rfl⟩

/-- C113: the random point of a lidar whose image covers less than a full turn and does not reach the poles: its keypoint is
the random keypoint, and it is visible if it is farther than a centimetre. -/
theorem lidarRandomPoint_spec {L : LidarParams} {b : Box} (hL : LidarValid L) (hw : 1 ≤ b.width) (hh : 1 ≤ b.height)
    {r : V2} (hr : Drawn r) (hθ1 : -Real.pi < (randomKeypoint b r).1 * L.horizontalResolution - L.horizontalCenter)
    (hθ2 : (randomKeypoint b r).1 * L.horizontalResolution - L.horizontalCenter ≤ Real.pi)
    (hφ1 : -(Real.pi / 2) < (randomKeypoint b r).2 * L.verticalResolution - L.verticalCenter)
    (hφ2 : (randomKeypoint b r).2 * L.verticalResolution - L.verticalCenter < Real.pi / 2) {depth : ℝ}
    (hd : 0.01 < depth) :
    ∃ p, lidarRandomPoint L b r depth = .ok (some p) ∧ norm3 p = depth ∧
      lidarProject L b p = (.visible, randomKeypoint b r) := by
  have h0 : (0 : ℝ) < depth := lt_trans (by norm_num) hd
  have hn := (lidar_backProject L (randomKeypoint b r)).2
  have hpos : 0 < norm3 (lidarBackProject L (randomKeypoint b r)) := by rw [hn]; exact one_pos
  have hk := lidar_project_backProject_sector L b hL (randomKeypoint b r) (randomKeypoint_visible hw hh hr).1 hθ1 hθ2 hφ1
    hφ2 depth (le_trans (by norm_num) hd.le)
  have hs : norm3 (scale depth (lidarBackProject L (randomKeypoint b r))) = depth := by
    rw [norm3_scale h0.le, hn, mul_one]
  refine ⟨scale depth (lidarBackProject L (randomKeypoint b r)), ?_, hs, Prod.ext ?_ hk⟩
  · unfold lidarRandomPoint
    rw [if_neg (by simpa using h0)]
    simp only
    rw [toDepth_eq hpos, hn, div_one]
  · rw [(lidar_status L b _).1, hs, hk]
    exact ⟨hd, randomKeypoint_visible hw hh hr⟩

/-! ### Unified projection -/

theorem drawLoop_spec {n : Nat} (D : Model n) (b : Box) (I : Fin 5 → ℝ) (c : Fin n → ℝ) (draws : Nat → V2 × ℝ) :
    ∀ (tries i : Nat) (u : Option V2), ∃ k, drawLoop D b I c draws tries i u = some k ∧
      (k = (I 3, I 4) ∨ (isLiftable D I c k ∧ InImage b k))
  | 0, _, _ => ⟨_, rfl, Or.inl rfl⟩
  | tries + 1, i, u => by
    unfold drawLoop
    by_cases h : ∃ k, u = some k ∧ isLiftable D I c k ∧ isKeypointVisible b k
    · rw [if_pos h]
      obtain ⟨k, hk, h1, h2⟩ := h
      exact ⟨k, hk, Or.inr ⟨h1, (visible_iff b k).1 h2⟩⟩
    · rw [if_neg h]
      simp only
      by_cases ht : tries < 1
      · rw [if_pos ht]
        exact ⟨_, rfl, Or.inl rfl⟩
      · rw [if_neg ht]
        exact drawLoop_spec D b I c draws tries (i + 1) _

/-- C113: whatever is drawn, the random keypoint is the principal point or a keypoint of the image that has a ray. -/
theorem unifiedRandomKeypoint_spec {n : Nat} (D : Model n) (b : Box) (I : Fin 5 → ℝ) (c : Fin n → ℝ)
    (draws : Nat → V2 × ℝ) : ∃ k, unifiedRandomKeypoint D b I c draws = some k ∧
      (k = (I 3, I 4) ∨ (isLiftable D I c k ∧ InImage b k)) :=
  drawLoop_spec D b I c draws 20 0 _

/-- C113: so it is in the image and has a ray, if the principal point is in the image and undistorting keeps it. -/
theorem unifiedRandomKeypoint_visible {n : Nat} (D : Model n) {b : Box} {I : Fin 5 → ℝ} (c : Fin n → ℝ)
    (draws : Nat → V2 × ℝ) (hI : UnifiedValid I) (hu : I 3 < b.width) (hv : I 4 < b.height)
    (h0 : D.undistort c (0, 0) = some (0, 0)) :
    ∃ k, unifiedRandomKeypoint D b I c draws = some k ∧ isLiftable D I c k ∧ InImage b k := by
  obtain ⟨k, hk, h | h⟩ := unifiedRandomKeypoint_spec D b I c draws
  · refine ⟨k, hk, ?_, ?_⟩
    · rw [h]
      unfold isLiftable
      simp only [sub_self, mul_zero]
      rw [h0]
      simp only [mul_zero, add_zero]
      unfold isUndistortedKeypointValid
      rcases le_or_gt (I 0) 1 with hx | hx
      · exact Or.inl hx
      · right
        have : 0 < I 0 * I 0 - 1 := by nlinarith
        positivity
    · rw [h]
      exact ⟨hI.2.2.2.1.le, hu, hI.2.2.2.2.le, hv⟩
  · exact ⟨k, hk, h⟩

theorem drawLoop_one {n : Nat} (D : Model n) (b : Box) {I : Fin 5 → ℝ} (c : Fin n → ℝ) (draws : Nat → V2 × ℝ)
    (hI : I 0 = 1) : ∀ (tries i : Nat), drawLoop D b I c draws tries i none = some (I 3, I 4)
  | 0, _ => rfl
  | tries + 1, i => by
    unfold drawLoop
    rw [if_neg (by rintro ⟨k, h, -⟩; cases h)]
    simp only
    by_cases ht : tries < 1
    · rw [if_pos ht]
    · rw [if_neg ht]
      have : drawn D I c (draws i) = none := by
        unfold drawn
        rw [if_pos (by rw [hI]; norm_num)]
      rw [this]
      exact drawLoop_one D b c draws hI tries (i + 1)

/-- C113, refuted: "creates a random valid keypoint": for `xi = 1`, which is valid, it is always the principal point, because
the range is divided by zero. -/
theorem unifiedRandomKeypoint_one_refuted {n : Nat} (D : Model n) (b : Box) {I : Fin 5 → ℝ} (c : Fin n → ℝ)
    (draws : Nat → V2 × ℝ) (hI : I 0 = 1) : unifiedRandomKeypoint D b I c draws = some (I 3, I 4) := by
  unfold unifiedRandomKeypoint drawLoop
  rw [if_neg]
  · simp only
    rw [if_neg (by norm_num)]
    have : drawn D I c (draws 0) = none := by
      unfold drawn
      rw [if_pos (by rw [hI]; norm_num)]
    rw [this]
    exact drawLoop_one D b c draws hI 19 1
  · rintro ⟨k, h, -, h2⟩
    injection h with h
    rw [← h] at h2
    have := h2.2.2.1
    simp only at this
    linarith

/-- C113: if a random point is returned, it is visible and at the depth that was asked for. -/
theorem unifiedRandomPoint_ok {n : Nat} (D : Model n) {b : Box} {I : Fin 5 → ℝ} (c : Fin n → ℝ) (draws : Nat → V2 × ℝ)
    {depth : ℝ} {p : V3} (h : unifiedRandomPoint D b I c draws depth = .ok p) :
    norm3 p = depth ∧ (unifiedProject D b I c p).status = .visible := by
  unfold unifiedRandomPoint at h
  by_cases hd : ¬ depth > 0
  · rw [if_pos hd] at h
    cases h
  · rw [if_neg hd] at h
    rw [not_not] at hd
    cases hb : (unifiedRandomKeypoint D b I c draws).bind (unifiedBackProject D I c) with
    | none => rw [hb] at h; cases h
    | some x =>
      obtain ⟨r, s⟩ := x
      rw [hb] at h
      simp only at h
      by_cases hs : ¬ s = true
      · rw [if_pos hs] at h
        cases h
      · rw [if_neg hs] at h
        by_cases hn : norm3 r = 0
        · unfold toDepth at h
          rw [if_pos hn] at h
          cases h
        · have hpos : 0 < norm3 r := lt_of_le_of_ne (norm3_nonneg r) (Ne.symm hn)
          rw [toDepth_eq hpos] at h
          simp only at h
          by_cases hv : (unifiedProject D b I c (scale (depth / norm3 r) r)).status = .visible
          · rw [if_pos hv] at h
            injection h with h
            rw [← h]
            exact ⟨toDepth_norm hpos hd, hv⟩
          · rw [if_neg hv] at h
            cases h

/-- C113: without distortion, with the principal point in the image and for depths above the minimal one, a random point is
returned, unless the random keypoint is on the very edge of the keypoints that have a ray. -/
theorem unifiedRandomPoint_returns {b : Box} {I : Fin 5 → ℝ} (draws : Nat → V2 × ℝ) (hI : UnifiedValid I)
    (hu : I 3 < b.width) (hv : I 4 < b.height) {depth : ℝ} (hd : 1e-10 < depth)
    (hb : 1 < I 0 → ∀ k, unifiedRandomKeypoint Verif.Distortion.null b I Fin.elim0 draws = some k →
      ((k.1 - I 3) / I 1) * ((k.1 - I 3) / I 1) + ((k.2 - I 4) / I 2) * ((k.2 - I 4) / I 2) ≠ 1 / (I 0 * I 0 - 1)) :
    ∃ p, unifiedRandomPoint Verif.Distortion.null b I Fin.elim0 draws depth = .ok p ∧
      (unifiedProject Verif.Distortion.null b I Fin.elim0 p).keypoint =
        unifiedRandomKeypoint Verif.Distortion.null b I Fin.elim0 draws := by
  have h0 : (0 : ℝ) < depth := lt_trans (by norm_num) hd
  obtain ⟨k, hk, hl, hin⟩ := unifiedRandomKeypoint_visible Verif.Distortion.null Fin.elim0 draws hI hu hv rfl
  have hl' : isUndistortedKeypointValid (((k.1 - I 3) / I 1) * ((k.1 - I 3) / I 1) +
      ((k.2 - I 4) / I 2) * ((k.2 - I 4) / I 2)) (I 0) := by
    unfold isLiftable Verif.Distortion.null at hl
    simp only [one_div, inv_mul_eq_div] at hl
    exact hl
  obtain ⟨r, hr, hr1, hr2⟩ : ∃ r : V3, unifiedBackProject Verif.Distortion.null I Fin.elim0 k = some (r, true) ∧
      r.1 = (k.1 - I 3) / I 1 ∧ r.2.1 = (k.2 - I 4) / I 2 := by
    unfold unifiedBackProject Verif.Distortion.null
    simp only [Option.map_some]
    rw [decide_eq_true hl']
    exact ⟨_, rfl, rfl, rfl⟩
  have hinv := unified_inverse_partial Verif.Distortion.null b I Fin.elim0 hI k r hr
    (by intro q hq; injection hq with hq; rw [← hq]; rfl)
    (by intro h1; rw [hr1, hr2]; exact hb h1 k hk)
  have hpos : 0 < norm3 r := by
    have := (hinv 1 one_pos).2
    have h2 := valid_facts hI.1 this
    rw [norm3_scale zero_le_one, one_mul] at h2
    exact h2.1
  have hs : 0 < depth / norm3 r := by positivity
  obtain ⟨e1, e2⟩ := hinv _ hs
  have hvis : (unifiedProject Verif.Distortion.null b I Fin.elim0 (scale (depth / norm3 r) r)).status = .visible := by
    rw [(unified_status Verif.Distortion.null b I Fin.elim0 hI.1 _).1]
    exact ⟨e2, by rw [toDepth_norm hpos h0]; exact hd, k, e1, hin⟩
  refine ⟨scale (depth / norm3 r) r, ?_, by rw [e1, hk]⟩
  unfold unifiedRandomPoint
  rw [if_neg (by simpa using h0), hk, Option.bind_some, hr]
  simp only [not_true_eq_false, if_false]
  rw [toDepth_eq hpos]
  simp only
  rw [if_pos hvis]

/-- C113, refuted: a valid camera whose principal point is not in the image: no draws help, the random keypoint is outside the
image and the random point ends the process. -/
theorem unified_centre_refuted {n : Nat} (D : Model n) {b : Box} {I : Fin 5 → ℝ} (c : Fin n → ℝ) (draws : Nat → V2 × ℝ)
    (h0 : D.undistort c (0, 0) = some (0, 0)) (h1 : D.distort c (0, 0) = (0, 0))
    (hI : I 0 = 1) (hu : (b.width : ℝ) ≤ I 3) (depth : ℝ) :
    (∃ k, unifiedRandomKeypoint D b I c draws = some k ∧ ¬ InImage b k) ∧
      unifiedRandomPoint D b I c draws depth = .abort := by
  have hout : ¬ InImage b (I 3, I 4) := by
    intro h
    have := h.2.1
    simp only at this
    linarith
  have hk := unifiedRandomKeypoint_one_refuted D b c draws hI
  refine ⟨⟨_, hk, hout⟩, ?_⟩
  unfold unifiedRandomPoint
  by_cases hd : depth > 0
  · rw [if_neg (not_not.2 hd), hk, Option.bind_some]
    have hb : unifiedBackProject D I c (I 3, I 4) = some ((0, 0, 1 / 2), true) := by
      unfold unifiedBackProject isUndistortedKeypointValid
      simp only [sub_self, zero_div]
      rw [h0, hI]
      norm_num
    rw [hb]
    simp only [not_true_eq_false, if_false]
    have hn : norm3 (0, 0, 1 / 2) = 1 / 2 := norm3_eq (by norm_num) (by norm_num)
    rw [toDepth_eq (by rw [hn]; norm_num), hn]
    simp only
    rw [if_neg]
    intro hv
    obtain ⟨e1, -, k, e2, e3⟩ := (unified_status D b I c (by rw [hI]; exact zero_le_one) _).1.1 hv
    rw [unified_keypoint D b I c (by rw [hI]; exact zero_le_one) e1] at e2
    unfold scale at e2
    simp only [mul_zero, zero_div, h1, zero_add, Option.some.injEq] at e2
    rw [← e2] at e3
    exact hout e3
  · rw [if_pos hd]

/-! ### Border rays -/

/-- The ray through a keypoint of a camera without distortion. -/
noncomputable def rayOf (I : Fin 4 → ℝ) (k : V2) : V3 := ((k.1 - I 2) / I 0, (k.2 - I 3) / I 1, 1)

/-- C113: the keypoints of the border rays are the corners of the image and the centres of its sides. -/
theorem borderKeypoints_all (b : Box) (k : V2) : k ∈ borderKeypoints b ↔
    (k.1 = 0 ∨ k.1 = b.width - 1) ∧ (k.2 = 0 ∨ k.2 = b.height - 1 ∨ k.2 = b.height / 2) ∨
      k.1 = b.width / 2 ∧ (k.2 = 0 ∨ k.2 = b.height - 1) := by
  obtain ⟨x, y⟩ := k
  unfold borderKeypoints
  simp only [List.mem_cons, List.not_mem_nil, or_false, Prod.mk.injEq]
  have e1 : (b.height : ℝ) * 0.5 = b.height / 2 := by norm_num; ring
  have e2 : (b.width : ℝ) * 0.5 = b.width / 2 := by norm_num; ring
  rw [e1, e2]
  tauto

/-- C113: the border rays are at infinity, and each is seen at its keypoint on the border of the image. -/
theorem borderRays_seen {b : Box} {I : Fin 4 → ℝ} (hI : PinholeValid I) (hw : 2 ≤ b.width) (hh : 2 ≤ b.height) :
    pinholeBorderRays Verif.Distortion.null b I Fin.elim0 =
      (borderKeypoints b).map (fun k => some ((rayOf I k).1, (rayOf I k).2.1, (rayOf I k).2.2, 0)) ∧
    ∀ k ∈ borderKeypoints b, InImage b k ∧ (k.1 = 0 ∨ k.1 = b.width - 1 ∨ k.2 = 0 ∨ k.2 = b.height - 1) ∧
      project4 (pinholeProject Verif.Distortion.null b I Fin.elim0) ((rayOf I k).1, (rayOf I k).2.1, (rayOf I k).2.2, 0) =
        (.visible, some k, (pinholeProject Verif.Distortion.null b I Fin.elim0 (rayOf I k)).jacPoint.map
          fun J => ⟨J.a, J.b, J.c, 0, J.d, J.e, J.f, 0⟩) := by
  have w2 : (2 : ℝ) ≤ b.width := by exact_mod_cast hw
  have h2 : (2 : ℝ) ≤ b.height := by exact_mod_cast hh
  refine ⟨rfl, fun k hk => ?_⟩
  have hin : InImage b k := by
    unfold borderKeypoints at hk
    simp only [List.mem_cons, List.not_mem_nil, or_false] at hk
    unfold InImage
    rcases hk with h | h | h | h | h | h | h | h <;> rw [h] <;> simp only <;>
      refine ⟨?_, ?_, ?_, ?_⟩ <;> norm_num <;> linarith
  refine ⟨hin, ?_, ?_⟩
  · unfold borderKeypoints at hk
    simp only [List.mem_cons, List.not_mem_nil, or_false] at hk
    rcases hk with h | h | h | h | h | h | h | h <;> rw [h] <;> simp
  · have hkey : (pinholeProject Verif.Distortion.null b I Fin.elim0 (rayOf I k)).keypoint = some k := by
      obtain ⟨h0, h1, -, -⟩ := hI
      rw [pinhole_keypoint _ _ _ _ (by unfold rayOf; norm_num)]
      unfold rayOf Verif.Distortion.null
      simp only [div_one, Option.some.injEq]
      rw [mul_div_cancel₀ _ h0.ne', mul_div_cancel₀ _ h1.ne']
      exact Prod.ext (by simp) (by simp)
    have hst : (pinholeProject Verif.Distortion.null b I Fin.elim0 (rayOf I k)).status = .visible := by
      rw [(pinhole_status _ b I _ _).1, hkey]
      exact ⟨by unfold rayOf; norm_num, k, rfl, hin⟩
    unfold project4
    have he : euclidean ((rayOf I k).1, (rayOf I k).2.1, (rayOf I k).2.2, 0) = rayOf I k := by
      unfold euclidean
      rw [if_neg (by simp)]
    simp only
    rw [he, hst, hkey]

/-- C113: the border rays enclose the rays of all pixels: the ray through a keypoint between the first and the last pixel of
the image is a mean of the rays of the corners. -/
theorem borderRays_enclose {b : Box} (I : Fin 4 → ℝ) (hw : 2 ≤ b.width) (hh : 2 ≤ b.height) {k : V2} (h1 : 0 ≤ k.1)
    (h2 : k.1 ≤ b.width - 1) (h3 : 0 ≤ k.2) (h4 : k.2 ≤ b.height - 1) :
    ∃ t0 t2 t3 t5 : ℝ, 0 ≤ t0 ∧ 0 ≤ t2 ∧ 0 ≤ t3 ∧ 0 ≤ t5 ∧ t0 + t2 + t3 + t5 = 1 ∧
      rayOf I k = scale t0 (rayOf I (0, 0)) + scale t2 (rayOf I (0, b.height - 1)) +
        scale t3 (rayOf I (b.width - 1, 0)) + scale t5 (rayOf I (b.width - 1, b.height - 1)) := by
  have w2 : (2 : ℝ) ≤ b.width := by exact_mod_cast hw
  have h2' : (2 : ℝ) ≤ b.height := by exact_mod_cast hh
  have p1 : (0 : ℝ) < b.width - 1 := by linarith
  have p2 : (0 : ℝ) < b.height - 1 := by linarith
  have a0 : 0 ≤ k.1 / (b.width - 1) := div_nonneg h1 p1.le
  have a1 : k.1 / (b.width - 1) ≤ 1 := (div_le_one p1).2 h2
  have c0 : 0 ≤ k.2 / (b.height - 1) := div_nonneg h3 p2.le
  have c1 : k.2 / (b.height - 1) ≤ 1 := (div_le_one p2).2 h4
  have ea : k.1 = k.1 / (b.width - 1) * (b.width - 1) := (div_mul_cancel₀ _ p1.ne').symm
  have ec : k.2 = k.2 / (b.height - 1) * (b.height - 1) := (div_mul_cancel₀ _ p2.ne').symm
  generalize hα : k.1 / ((b.width : ℝ) - 1) = α at *
  generalize hγ : k.2 / ((b.height : ℝ) - 1) = γ at *
  refine ⟨(1 - α) * (1 - γ), (1 - α) * γ, α * (1 - γ), α * γ, mul_nonneg (by linarith) (by linarith),
    mul_nonneg (by linarith) c0, mul_nonneg a0 (by linarith), mul_nonneg a0 c0, by ring, ?_⟩
  unfold rayOf scale
  simp only [Prod.mk_add_mk, Prod.mk.injEq]
  rw [ea, ec]
  refine ⟨?_, ?_, ?_⟩ <;> ring

/-- C113, refuted: they enclose the rays of all visible keypoints.  Keypoints in the outer half of the last column are in the
image, but their rays are not combinations of the border rays. -/
theorem borderRays_enclose_refuted {b : Box} {I : Fin 4 → ℝ} (hI : PinholeValid I) (hw : 2 ≤ b.width) (hh : 2 ≤ b.height) :
    ∃ k, InImage b k ∧ ∀ t : V2 → ℝ, (∀ q, 0 ≤ t q) →
      rayOf I k ≠ ((borderKeypoints b).map fun q => scale (t q) (rayOf I q)).sum := by
  have w2 : (2 : ℝ) ≤ b.width := by exact_mod_cast hw
  have h2' : (2 : ℝ) ≤ b.height := by exact_mod_cast hh
  refine ⟨(b.width - 1 / 2, 0), ⟨by simp only; linarith, by simp only; linarith, le_refl _, by simp only; linarith⟩, ?_⟩
  intro t ht he
  have key : ∀ l : List V2, (∀ q ∈ l, q.1 ≤ b.width - 1) →
      (l.map fun q => scale (t q) (rayOf I q)).sum.1 ≤
        (b.width - 1 - I 2) / I 0 * (l.map fun q => scale (t q) (rayOf I q)).sum.2.2 := by
    intro l
    induction l with
    | nil => intro _; simp
    | cons q l ih =>
      intro h
      have hq := h q (by simp)
      have hl := ih fun q' h' => h q' (by simp [h'])
      rw [List.map_cons, List.sum_cons, Prod.fst_add, Prod.snd_add, Prod.snd_add, mul_add]
      refine add_le_add ?_ hl
      unfold scale rayOf
      simp only
      rw [mul_one, mul_comm]
      exact mul_le_mul_of_nonneg_right (div_le_div_of_nonneg_right (by linarith) hI.1.le) (ht q)
  have hb := key (borderKeypoints b) (by
    intro q hq
    unfold borderKeypoints at hq
    simp only [List.mem_cons, List.not_mem_nil, or_false] at hq
    rcases hq with h | h | h | h | h | h | h | h <;> rw [h] <;> norm_num <;> linarith)
  rw [← he] at hb
  unfold rayOf at hb
  simp only [mul_one] at hb
  rw [div_le_div_iff_of_pos_right hI.1] at hb
  linarith

/-! ### Cases -/

/-- The test camera of the pinhole model (camera-pinhole.cc:275), and a draw. -/
example : PinholeValid ![400, 300, 320, 240] ∧ Drawn (-1 / 2, 1) ∧ randomKeypoint ⟨640, 480⟩ (-1 / 2, 1) = (320, 432) := by
  refine ⟨by unfold PinholeValid; simp, ⟨by norm_num [abs_le], by norm_num⟩, ?_⟩
  unfold randomKeypoint
  norm_num [abs_of_neg]

/-- A valid camera with its principal point outside of the image. -/
example : UnifiedValid ![1, 400, 300, 320, 240] ∧ ((⟨300, 200⟩ : Box).width : ℝ) ≤ (![1, 400, 300, 320, 240] : Fin 5 → ℝ) 3 := by
  refine ⟨by unfold UnifiedValid; simp, by simp; norm_num⟩

/-- The test camera of the unified projection (camera-unified-projection.cc:362). -/
example : UnifiedValid ![0.9, 400, 300, 320, 240] ∧ ((![0.9, 400, 300, 320, 240] : Fin 5 → ℝ) 3) < (⟨640, 480⟩ : Box).width ∧
    ¬ 1 < (![0.9, 400, 300, 320, 240] : Fin 5 → ℝ) 0 := by
  refine ⟨by unfold UnifiedValid; simp; norm_num, by simp; norm_num, by simp; norm_num⟩

end Verif.Camera
