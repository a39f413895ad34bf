import Verif.Camera.Props
import Verif.Distortion.EquidistantProps

/-!
# Projection and back-projection with the iterative distortion models (C139)
-/

namespace Verif.Camera

open Verif.Distortion Verif.Distortion.Converge

theorem coordinate_le (p q : ℝ × ℝ) : |p.1 - q.1| ≤ distance p q ∧ |p.2 - q.2| ≤ distance p q := by
  unfold distance
  exact ⟨Real.abs_le_sqrt (by nlinarith [sq_nonneg (p.2 - q.2)]), Real.abs_le_sqrt (by nlinarith [sq_nonneg (p.1 - q.1)])⟩

/-- C139 for a pinhole camera with radial-tangential distortion: the ray of a keypoint projects to the keypoint, up to the
error of undistorting, in pixels. -/
theorem pinhole_radtan_project_backProject (tol : ℝ) (b : Box) (I c : Fin 4 → ℝ) (hI : PinholeValid I) {R : ℝ} (hR : 0 < R)
    (hb : bend c R ≤ 1 / 3) (k : V2) (hk : distance ((k.1 - I 2) / I 0, (k.2 - I 3) / I 1) (0, 0) ≤ 7 / 10 * R) :
    ∃ r, pinholeBackProject (radtan tol) I c k = (some r, true) ∧ r.2.2 = 1 ∧ ∀ s : ℝ, 0 < s → ∃ k',
      (pinholeProject (radtan tol) b I c (scale s r)).keypoint = some k' ∧
        |k'.1 - k.1| ≤ I 0 * (3 / 2 * max tol 0 / R + R / 5 ^ 30) ∧
        |k'.2 - k.2| ≤ I 1 * (3 / 2 * max tol 0 / R + R / 5 ^ 30) := by
  obtain ⟨q, h1, -, h3⟩ := radtan_undistort_converges hR hb tol hk
  obtain ⟨i0, i1, -, -⟩ := hI
  have e : pinholeBackProject (radtan tol) I c k = (some (q.1, q.2, 1), true) := by
    unfold pinholeBackProject radtan
    simp only [h1, Option.map_some]
  refine ⟨(q.1, q.2, 1), e, rfl, fun s hs => ?_⟩
  rw [pinhole_scale _ _ _ _ s hs.ne', pinhole_keypoint _ _ _ _ (by norm_num)]
  simp only [div_one]
  refine ⟨_, rfl, ?_, ?_⟩
  · have h := (coordinate_le (radtanDistort c q) ((k.1 - I 2) / I 0, (k.2 - I 3) / I 1)).1.trans h3
    have e : I 0 * (radtanDistort c q).1 + I 2 - k.1 = I 0 * ((radtanDistort c q).1 - (k.1 - I 2) / I 0) := by
      field_simp; ring
    change |I 0 * (radtanDistort c q).1 + I 2 - k.1| ≤ _
    rw [e, abs_mul, abs_of_pos i0]
    exact mul_le_mul_of_nonneg_left h i0.le
  · have h := (coordinate_le (radtanDistort c q) ((k.1 - I 2) / I 0, (k.2 - I 3) / I 1)).2.trans h3
    have e : I 1 * (radtanDistort c q).2 + I 3 - k.2 = I 1 * ((radtanDistort c q).2 - (k.2 - I 3) / I 1) := by
      field_simp; ring
    change |I 1 * (radtanDistort c q).2 + I 3 - k.2| ≤ _
    rw [e, abs_mul, abs_of_pos i1]
    exact mul_le_mul_of_nonneg_left h i1.le

theorem pinhole_normalised {n : Nat} (D : Model n) (b : Box) (I : Fin 4 → ℝ) (c : Fin n → ℝ) (hI : PinholeValid I) {p : V3}
    (hz : p.2.2 ≠ 0) {k : V2} (hk : (pinholeProject D b I c p).keypoint = some k) :
    ((k.1 - I 2) / I 0, (k.2 - I 3) / I 1) = D.distort c (p.1 / p.2.2, p.2.1 / p.2.2) := by
  rw [pinhole_keypoint D b I c hz] at hk
  injection hk with hk
  obtain ⟨i0, i1, -, -⟩ := hI
  rw [← hk]
  refine Prod.ext ?_ ?_ <;> simp only <;> field_simp <;> ring

/-- C139 for a pinhole camera with radial-tangential distortion: the ray of the keypoint of a point passes the point, up to
the error of undistorting, at depth one. -/
theorem pinhole_radtan_backProject_project (tol : ℝ) (b : Box) (I c : Fin 4 → ℝ) (hI : PinholeValid I) {R : ℝ} (hR : 0 < R)
    (hb : bend c R ≤ 1 / 3) (p : V3) (hz : p.2.2 ≠ 0) (hp : distance (p.1 / p.2.2, p.2.1 / p.2.2) (0, 0) ≤ 3 / 5 * R)
    (k : V2) (hk : (pinholeProject (radtan tol) b I c p).keypoint = some k) :
    ∃ r, pinholeBackProject (radtan tol) I c k = (some r, true) ∧ r.2.2 = 1 ∧
      distance (r.1, r.2.1) (p.1 / p.2.2, p.2.1 / p.2.2) ≤ 3 / 2 * (3 / 2 * max tol 0 / R + R / 5 ^ 30) := by
  have hn := pinhole_normalised _ b I c hI hz hk
  obtain ⟨q, h1, h2⟩ := radtan_undistort_distort hR hb tol hp
  refine ⟨(q.1, q.2, 1), ?_, rfl, h2⟩
  unfold pinholeBackProject
  simp only
  rw [hn]
  change (Option.map _ (radtanUndistort tol c (radtanDistort c (p.1 / p.2.2, p.2.1 / p.2.2))), true) = _
  rw [h1]
  rfl

/-- C139 for a pinhole camera with equidistant distortion. -/
theorem pinhole_equidistant_backProject_project (tol : ℝ) (b : Box) (I c : Fin 4 → ℝ) (hI : PinholeValid I) {L : ℝ} (p : V3)
    (hz : p.2.2 ≠ 0) (hL : SlowsDown c (distance (p.1 / p.2.2, p.2.1 / p.2.2) (0, 0)) L)
    (k : V2) (hk : (pinholeProject (equidistant tol) b I c p).keypoint = some k)
    (hc : 1e-6 ≤ ((k.1 - I 2) / I 0) ^ 2 + ((k.2 - I 3) / I 1) ^ 2) :
    ∃ r, pinholeBackProject (equidistant tol) I c k = (some r, true) ∧ r.2.2 = 1 ∧
      distance (r.1, r.2.1) (p.1 / p.2.2, p.2.1 / p.2.2) ≤
        L * max tol 0 / growth c (distance (p.1 / p.2.2, p.2.1 / p.2.2) (0, 0)) ^ 3 +
          distance (p.1 / p.2.2, p.2.1 / p.2.2) (0, 0) *
            (1 - growth c (distance (p.1 / p.2.2, p.2.1 / p.2.2) (0, 0))) ^ 30 := by
  have hn := pinhole_normalised _ b I c hI hz hk
  have h1 := congrArg Prod.fst hn
  have h2 := congrArg Prod.snd hn
  simp only at h1 h2
  rw [h1, h2] at hc
  obtain ⟨q, e1, -, e3⟩ := equidistant_undistort_distort tol hL hc
  refine ⟨(q.1, q.2, 1), ?_, rfl, e3⟩
  unfold pinholeBackProject
  simp only
  rw [hn]
  change (Option.map _ (equidistantUndistort tol c (equidistantDistort c (p.1 / p.2.2, p.2.1 / p.2.2))), true) = _
  rw [e1]
  rfl

/-- A camera with the usual lens and the default tolerance: the ray of the keypoint (390, 300) projects to it with an error of less than
a ten thousandth of a pixel. -/
example (b : Box) : ∃ r, pinholeBackProject (radtan 1e-8) ![458, 457, 367, 248] usualLens (390, 300) = (some r, true) ∧
    ∃ k', (pinholeProject (radtan 1e-8) b ![458, 457, 367, 248] usualLens r).keypoint = some k' ∧ |k'.1 - 390| ≤ 1e-4 ∧
      |k'.2 - 300| ≤ 1e-4 := by
  have hI : PinholeValid ![458, 457, 367, 248] := by
    refine ⟨?_, ?_, ?_, ?_⟩ <;> simp
  have h2 : (![458, 457, 367, 248] : Fin 4 → ℝ) 2 = 367 := rfl
  have h3 : (![458, 457, 367, 248] : Fin 4 → ℝ) 3 = 248 := rfl
  obtain ⟨r, e1, -, e3⟩ := pinhole_radtan_project_backProject 1e-8 b ![458, 457, 367, 248] usualLens hI (R := 58 / 100)
    (by norm_num) usualLens_bend (390, 300) (by
      rw [h2, h3]
      unfold distance
      rw [Real.sqrt_le_left (by norm_num)]
      norm_num)
  obtain ⟨k', a1, a2, a3⟩ := e3 1 one_pos
  refine ⟨r, e1, k', ?_, a2.trans ?_, a3.trans ?_⟩
  · have : scale 1 r = r := by unfold scale; simp
    rw [← this]; exact a1
  · rw [max_eq_left (by norm_num)]
    change (458 : ℝ) * _ ≤ _
    norm_num
  · rw [max_eq_left (by norm_num)]
    change (457 : ℝ) * _ ≤ _
    norm_num

/-! ## Cameras with a mirror -/

/-- The depth at which `unifiedBackProject` puts a point at the squared distance `ρ` from the centre. -/
theorem lift_diff {xi a b ta tb : ℝ} (hxi : 0 ≤ xi) (ha : ta ^ 2 = 1 + (1 - xi * xi) * a) (hb : tb ^ 2 = 1 + (1 - xi * xi) * b)
    (hta : 0 < ta) (htb : 0 < tb) :
    (1 - xi * (a + 1) / (xi + ta)) - (1 - xi * (b + 1) / (xi + tb)) = -(xi * (a - b) / (ta + tb)) := by
  have h1 : xi + ta ≠ 0 := by positivity
  have h2 : xi + tb ≠ 0 := by positivity
  have h3 : ta + tb ≠ 0 := by positivity
  rcases eq_or_ne xi 1 with rfl | hx
  · have ea : ta = 1 := by nlinarith
    have eb : tb = 1 := by nlinarith
    rw [ea, eb]
    ring
  · have hx2 : 1 - xi * xi ≠ 0 := by
      intro h
      exact hx (by nlinarith)
    have ea : (1 - xi * xi) * (a + 1) = (ta - xi) * (xi + ta) := by linarith
    have eb : (1 - xi * xi) * (b + 1) = (tb - xi) * (xi + tb) := by linarith
    have ea' : (a + 1) / (xi + ta) = (ta - xi) / (1 - xi * xi) := by
      rw [div_eq_div_iff h1 hx2]; linarith
    have eb' : (b + 1) / (xi + tb) = (tb - xi) / (1 - xi * xi) := by
      rw [div_eq_div_iff h2 hx2]; linarith
    have ed : (a - b) / (ta + tb) = (ta - tb) / (1 - xi * xi) := by
      rw [div_eq_div_iff h3 hx2]; linarith
    rw [mul_div_assoc, mul_div_assoc, mul_div_assoc, ea', eb', ed]
    ring

theorem root_bound {xi R τ ρ : ℝ} (hτ1 : τ ≤ 1) (hτ : 0 < τ) (hτR : τ ^ 2 ≤ 1 + (1 - xi * xi) * R ^ 2)
    (h0 : 0 ≤ ρ) (hρ : ρ ≤ R ^ 2) : τ ^ 2 ≤ 1 + (1 - xi * xi) * ρ := by
  rcases le_total 0 (1 - xi * xi) with h | h
  · nlinarith [mul_nonneg h h0]
  · nlinarith

theorem flag_true {xi ρ : ℝ} (hxi : 0 ≤ xi) (h : 0 < 1 + (1 - xi * xi) * ρ) : isUndistortedKeypointValid ρ xi ∧
    (1 < xi → ρ ≠ 1 / (xi * xi - 1)) := by
  rcases le_or_gt xi 1 with h1 | h1
  · exact ⟨Or.inl h1, fun h => absurd h (not_lt.2 h1)⟩
  · have hx : 0 < xi * xi - 1 := by nlinarith
    have : ρ < 1 / (xi * xi - 1) := by
      rw [lt_div_iff₀ hx]
      nlinarith
    exact ⟨Or.inr this.le, fun _ => this.ne⟩

theorem distance_sq (q : ℝ × ℝ) : q.1 * q.1 + q.2 * q.2 = distance q (0, 0) ^ 2 := by
  unfold distance
  rw [Real.sq_sqrt (by positivity)]
  ring

/-- The ray of a keypoint projects to the place to which the undistorted point is distorted. -/
theorem unified_project_undistorted {n : Nat} (D : Model n) (b : Box) (I : Fin 5 → ℝ) (c : Fin n → ℝ) (hI : UnifiedValid I)
    (k q : V2) (hq : D.undistort c ((k.1 - I 3) / I 1, (k.2 - I 4) / I 2) = some q)
    (hv : 0 < 1 + (1 - I 0 * I 0) * (q.1 * q.1 + q.2 * q.2)) :
    ∃ r, unifiedBackProject D I c k = some (r, true) ∧ ∀ s : ℝ, 0 < s →
      (unifiedProject D b I c (scale s r)).keypoint = some (I 1 * (D.distort c q).1 + I 3, I 2 * (D.distort c q).2 + I 4) := by
  obtain ⟨hf, hf'⟩ := flag_true hI.1 hv
  have h1 : I 1 ≠ 0 := hI.2.1.ne'
  have h2 : I 2 ≠ 0 := hI.2.2.1.ne'
  let D' : Model n := { D with undistort := fun _ _ => some q }
  let r : V3 := (q.1, q.2, 1 - I 0 * (q.1 * q.1 + q.2 * q.2 + 1) /
    (I 0 + Real.sqrt (max (1 + (1 - I 0 * I 0) * (q.1 * q.1 + q.2 * q.2)) 0)))
  refine ⟨r, ?_, fun s hs => ?_⟩
  · unfold unifiedBackProject
    simp only [hq, Option.map_some, hf, decide_true]
    rfl
  · have hr : unifiedBackProject D' I c (I 1 * (D.distort c q).1 + I 3, I 2 * (D.distort c q).2 + I 4) = some (r, true) := by
      unfold unifiedBackProject
      simp only [D', Option.map_some, hf, decide_true]
      rfl
    exact (unified_inverse_partial D' b I c hI _ r hr (fun q' e => by
      injection e with e
      rw [← e]
      change D.distort c q = _
      refine Prod.ext ?_ ?_ <;> simp only <;> field_simp <;> ring) hf' s hs).1

/-- C139 for a camera with a mirror and radial-tangential distortion: the ray of a keypoint is reported as valid and projects
to the keypoint, up to the error of undistorting, in pixels. With `xi` above one the disc has to be inside of the circle
that the mirror shows. -/
theorem unified_radtan_project_backProject (tol : ℝ) (b : Box) (I : Fin 5 → ℝ) (c : Fin 4 → ℝ) (hI : UnifiedValid I) {R : ℝ}
    (hR : 0 < R) (hb : bend c R ≤ 1 / 3) (hx : 1 < I 0 → R ^ 2 < 1 / (I 0 * I 0 - 1)) (k : V2)
    (hk : distance ((k.1 - I 3) / I 1, (k.2 - I 4) / I 2) (0, 0) ≤ 7 / 10 * R) :
    ∃ r, unifiedBackProject (radtan tol) I c k = some (r, true) ∧ ∀ s : ℝ, 0 < s → ∃ k',
      (unifiedProject (radtan tol) b I c (scale s r)).keypoint = some k' ∧
        |k'.1 - k.1| ≤ I 1 * (3 / 2 * max tol 0 / R + R / 5 ^ 30) ∧
        |k'.2 - k.2| ≤ I 2 * (3 / 2 * max tol 0 / R + R / 5 ^ 30) := by
  obtain ⟨q, h1, h2, h3⟩ := radtan_undistort_converges hR hb tol hk
  have i1 : 0 < I 1 := hI.2.1
  have i2 : 0 < I 2 := hI.2.2.1
  have hv : 0 < 1 + (1 - I 0 * I 0) * (q.1 * q.1 + q.2 * q.2) := by
    rw [distance_sq]
    have hd : 0 ≤ distance q (0, 0) := Real.sqrt_nonneg _
    have hd2 : distance q (0, 0) ^ 2 ≤ R ^ 2 := by nlinarith
    have hI0 : 0 ≤ I 0 := hI.1
    rcases le_or_gt (I 0) 1 with h | h
    · nlinarith [mul_nonneg (show 0 ≤ 1 - I 0 * I 0 by nlinarith) (sq_nonneg (distance q (0, 0)))]
    · have hx' := hx h
      rw [lt_div_iff₀ (by nlinarith)] at hx'
      nlinarith
  obtain ⟨r, e1, e2⟩ := unified_project_undistorted (radtan tol) b I c hI k q h1 hv
  refine ⟨r, e1, fun s hs => ⟨_, e2 s hs, ?_, ?_⟩⟩
  · have h := (coordinate_le (radtanDistort c q) ((k.1 - I 3) / I 1, (k.2 - I 4) / I 2)).1.trans h3
    have e : I 1 * (radtanDistort c q).1 + I 3 - k.1 = I 1 * ((radtanDistort c q).1 - (k.1 - I 3) / I 1) := by
      field_simp; ring
    change |I 1 * (radtanDistort c q).1 + I 3 - k.1| ≤ _
    rw [e, abs_mul, abs_of_pos i1]
    exact mul_le_mul_of_nonneg_left h i1.le
  · have h := (coordinate_le (radtanDistort c q) ((k.1 - I 3) / I 1, (k.2 - I 4) / I 2)).2.trans h3
    have e : I 2 * (radtanDistort c q).2 + I 4 - k.2 = I 2 * ((radtanDistort c q).2 - (k.2 - I 4) / I 2) := by
      field_simp; ring
    change |I 2 * (radtanDistort c q).2 + I 4 - k.2| ≤ _
    rw [e, abs_mul, abs_of_pos i2]
    exact mul_le_mul_of_nonneg_left h i2.le

/-- Where a camera with a mirror sees a point, before the distortion: on the plane at the distance one from the second centre. -/
noncomputable def mirrorPoint (xi : ℝ) (p : V3) : V2 := (p.1 / (p.2.2 + xi * norm3 p), p.2.1 / (p.2.2 + xi * norm3 p))

/-- If undistorting gives the point up to an error, the ray passes the point up to this error. -/
theorem unified_ray_close {n : Nat} (D : Model n) (b : Box) (I : Fin 5 → ℝ) (c : Fin n → ℝ) (hI : UnifiedValid I) (p : V3)
    (hv : p.2.2 > -(fovParameter (I 0) * norm3 p)) (k q : V2) (hk : (unifiedProject D b I c p).keypoint = some k)
    (hq : D.undistort c (D.distort c (mirrorPoint (I 0) p)) = some q) {R τ E : ℝ} (hR : 0 ≤ R)
    (hmR : distance (mirrorPoint (I 0) p) (0, 0) ≤ R) (hqR : distance q (0, 0) ≤ R) (hτ : 0 < τ) (hτ1 : τ ≤ 1)
    (hτR : τ ^ 2 ≤ 1 + (1 - I 0 * I 0) * R ^ 2) (hE : distance q (mirrorPoint (I 0) p) ≤ E) :
    ∃ (r : V3) (s : ℝ), 0 < s ∧ unifiedBackProject D I c k = some (r, true) ∧
      distance (r.1, r.2.1) (s * p.1, s * p.2.1) ≤ E ∧ |r.2.2 - s * p.2.2| ≤ I 0 * R / τ * E := by
  have hxi : 0 ≤ I 0 := hI.1
  have h1 : I 1 ≠ 0 := hI.2.1.ne'
  have h2 : I 2 ≠ 0 := hI.2.2.1.ne'
  obtain ⟨m, hm⟩ : ∃ m, m = mirrorPoint (I 0) p := ⟨_, rfl⟩
  rw [← hm] at hq hmR hE
  -- without distortion
  have hk0 : (unifiedProject null b I Fin.elim0 p).keypoint = some (I 1 * m.1 + I 3, I 2 * m.2 + I 4) := by
    rw [unified_keypoint null b I Fin.elim0 hxi hv, hm]
    rfl
  obtain ⟨s, hs, e0⟩ := unified_backProject_project null b I Fin.elim0 hI p hv _ hk0 (fun q => rfl)
  have em : ((I 1 * m.1 + I 3 - I 3) / I 1, (I 2 * m.2 + I 4 - I 4) / I 2) = m := by
    refine Prod.ext ?_ ?_ <;> simp only <;> field_simp <;> ring
  have hk1 : ((k.1 - I 3) / I 1, (k.2 - I 4) / I 2) = D.distort c m := by
    rw [unified_keypoint D b I c hxi hv] at hk
    injection hk with hk
    rw [← hk, hm]
    unfold mirrorPoint
    refine Prod.ext ?_ ?_ <;> simp only <;> field_simp <;> ring
  have hmd : 0 ≤ distance m (0, 0) := Real.sqrt_nonneg _
  have hqd : 0 ≤ distance q (0, 0) := Real.sqrt_nonneg _
  have hma := root_bound hτ1 hτ hτR (sq_nonneg (distance m (0, 0))) (by nlinarith)
  have hqa := root_bound hτ1 hτ hτR (sq_nonneg (distance q (0, 0))) (by nlinarith)
  have hτ2 : 0 < τ ^ 2 := by positivity
  have e0' : (m.1, m.2, 1 - I 0 * (distance m (0, 0) ^ 2 + 1) / (I 0 + Real.sqrt (1 + (1 - I 0 * I 0) * distance m (0, 0) ^ 2))) =
      scale s p := by
    unfold unifiedBackProject at e0
    simp only [em] at e0
    change Option.map _ (some m) = _ at e0
    rw [Option.map_some] at e0
    injection e0 with e0
    have e0 := congrArg Prod.fst e0
    simp only [distance_sq, max_eq_left (hτ2.le.trans hma)] at e0
    exact e0
  obtain ⟨ta, hta⟩ : ∃ t, t = Real.sqrt (1 + (1 - I 0 * I 0) * distance q (0, 0) ^ 2) := ⟨_, rfl⟩
  obtain ⟨tb, htb⟩ : ∃ t, t = Real.sqrt (1 + (1 - I 0 * I 0) * distance m (0, 0) ^ 2) := ⟨_, rfl⟩
  have htaτ : τ ≤ ta := hta ▸ Real.le_sqrt_of_sq_le hqa
  have htbτ : τ ≤ tb := htb ▸ Real.le_sqrt_of_sq_le hma
  have hta2 : ta ^ 2 = 1 + (1 - I 0 * I 0) * distance q (0, 0) ^ 2 := by rw [hta, Real.sq_sqrt (hτ2.le.trans hqa)]
  have htb2 : tb ^ 2 = 1 + (1 - I 0 * I 0) * distance m (0, 0) ^ 2 := by rw [htb, Real.sq_sqrt (hτ2.le.trans hma)]
  rw [← htb] at e0'
  have ex : m.1 = s * p.1 := congrArg Prod.fst e0'
  have ey : m.2 = s * p.2.1 := congrArg (fun v => v.2.1) e0'
  have ez : 1 - I 0 * (distance m (0, 0) ^ 2 + 1) / (I 0 + tb) = s * p.2.2 := congrArg (fun v => v.2.2) e0'
  have hf := (flag_true hxi (lt_of_lt_of_le hτ2 hqa)).1
  have hE0 : 0 ≤ E := le_trans (Real.sqrt_nonneg _) hE
  refine ⟨(q.1, q.2, 1 - I 0 * (distance q (0, 0) ^ 2 + 1) / (I 0 + ta)), s, hs, ?_, ?_, ?_⟩
  · unfold unifiedBackProject
    simp only [hk1, hq, Option.map_some, distance_sq, max_eq_left (hτ2.le.trans hqa), hf, decide_true, ← hta]
  · rw [← ex, ← ey]
    exact hE
  · simp only
    rw [← ez, lift_diff hxi hta2 htb2 (lt_of_lt_of_le hτ htaτ) (lt_of_lt_of_le hτ htbτ), abs_neg]
    have hdq : |distance q (0, 0) ^ 2 - distance m (0, 0) ^ 2| ≤ 2 * R * E := by
      have ht : |distance q (0, 0) - distance m (0, 0)| ≤ distance q m := by
        simp only [distance_eq]
        rw [show pt (0, 0) = 0 from rfl, sub_zero, sub_zero]
        exact abs_norm_sub_norm_le _ _
      rw [show distance q (0, 0) ^ 2 - distance m (0, 0) ^ 2 =
        (distance q (0, 0) + distance m (0, 0)) * (distance q (0, 0) - distance m (0, 0)) by ring, abs_mul,
        abs_of_nonneg (by linarith)]
      exact mul_le_mul (by linarith) (ht.trans hE) (abs_nonneg _) (by linarith)
    rw [abs_div, abs_mul, abs_of_nonneg hxi, abs_of_pos (show 0 < ta + tb by linarith), div_le_iff₀ (by linarith)]
    calc I 0 * |distance q (0, 0) ^ 2 - distance m (0, 0) ^ 2| ≤ I 0 * (2 * R * E) := mul_le_mul_of_nonneg_left hdq hxi
      _ = I 0 * R / τ * E * (2 * τ) := by field_simp
      _ ≤ I 0 * R / τ * E * (ta + tb) := mul_le_mul_of_nonneg_left (by linarith) (by positivity)

/-- C139 for a camera with a mirror and radial-tangential distortion: the keypoint of a point in the field of view is
reported as valid and its ray passes the point, up to the error of undistorting and, for the depth, this error times a
factor that depends on how far inside of the circle that the mirror shows the disc is (`τ` is one if `xi` is at most
one). -/
theorem unified_radtan_backProject_project (tol : ℝ) (b : Box) (I : Fin 5 → ℝ) (c : Fin 4 → ℝ) (hI : UnifiedValid I) {R τ : ℝ}
    (hR : 0 < R) (hb : bend c R ≤ 1 / 3) (hτ : 0 < τ) (hτ1 : τ ≤ 1) (hτR : τ ^ 2 ≤ 1 + (1 - I 0 * I 0) * R ^ 2) (p : V3)
    (hv : p.2.2 > -(fovParameter (I 0) * norm3 p)) (hp : distance (mirrorPoint (I 0) p) (0, 0) ≤ 3 / 5 * R)
    (k : V2) (hk : (unifiedProject (radtan tol) b I c p).keypoint = some k) :
    ∃ (r : V3) (s : ℝ), 0 < s ∧ unifiedBackProject (radtan tol) I c k = some (r, true) ∧
      distance (r.1, r.2.1) (s * p.1, s * p.2.1) ≤ 3 / 2 * (3 / 2 * max tol 0 / R + R / 5 ^ 30) ∧
      |r.2.2 - s * p.2.2| ≤ I 0 * R / τ * (3 / 2 * (3 / 2 * max tol 0 / R + R / 5 ^ 30)) := by
  obtain ⟨q, h1, h2⟩ := radtan_undistort_distort hR hb tol hp
  have hy : distance (radtanDistort c (mirrorPoint (I 0) p)) (0, 0) ≤ 7 / 10 * R := by
    simp only [distance_eq, show pt (0, 0) = 0 from rfl, sub_zero] at hp ⊢
    have := norm_distort (mirrorPoint (I 0) p) hb (by linarith)
    linarith
  obtain ⟨q', h1', h2', -⟩ := radtan_undistort_converges hR hb tol hy
  rw [h1] at h1'
  injection h1' with h1'
  rw [← h1'] at h2'
  exact unified_ray_close (radtan tol) b I c hI p hv k q hk h1 hR.le (by linarith) h2' hτ hτ1 hτR h2

/-- A camera with a mirror (`xi` is 1.25), the usual lens and the default tolerance. -/
noncomputable def mirrorCamera : Fin 5 → ℝ := ![5 / 4, 458, 457, 367, 248]

theorem mirrorCamera_valid : UnifiedValid mirrorCamera := by
  unfold UnifiedValid mirrorCamera
  refine ⟨?_, ?_, ?_, ?_, ?_⟩ <;> simp
  norm_num

/-- The ray of the keypoint (390, 300) projects to it with an error of less than a ten thousandth of a pixel. -/
example (b : Box) : ∃ r, unifiedBackProject (radtan 1e-8) mirrorCamera usualLens (390, 300) = some (r, true) ∧
    ∃ k', (unifiedProject (radtan 1e-8) b mirrorCamera usualLens r).keypoint = some k' ∧ |k'.1 - 390| ≤ 1e-4 ∧
      |k'.2 - 300| ≤ 1e-4 := by
  have h0 : mirrorCamera 0 = 5 / 4 := rfl
  have h1 : mirrorCamera 1 = 458 := rfl
  have h2 : mirrorCamera 2 = 457 := rfl
  have h3 : mirrorCamera 3 = 367 := rfl
  have h4 : mirrorCamera 4 = 248 := rfl
  obtain ⟨r, e1, e3⟩ := unified_radtan_project_backProject 1e-8 b mirrorCamera usualLens mirrorCamera_valid (R := 58 / 100)
    (by norm_num) usualLens_bend (by rw [h0]; norm_num) (390, 300) (by
      rw [h1, h2, h3, h4]
      unfold distance
      rw [Real.sqrt_le_left (by norm_num)]
      norm_num)
  obtain ⟨k', a1, a2, a3⟩ := e3 1 one_pos
  refine ⟨r, e1, k', ?_, a2.trans ?_, a3.trans ?_⟩
  · have : scale 1 r = r := by unfold scale; simp
    rw [← this]; exact a1
  · rw [max_eq_left (by norm_num), h1]
    norm_num
  · rw [max_eq_left (by norm_num), h2]
    norm_num

theorem norm3_345 : norm3 (3, 0, 4) = 5 := by
  unfold norm3
  rw [show (3 * 3 + 0 * 0 + 4 * 4 : ℝ) = 5 ^ 2 by norm_num]
  exact Real.sqrt_sq (by norm_num)

/-- The ray of the keypoint of the point (3, 0, 4) passes that point. -/
example (b : Box) : ∃ k r s, (unifiedProject (radtan 1e-8) b mirrorCamera usualLens (3, 0, 4)).keypoint = some k ∧ 0 < s ∧
    unifiedBackProject (radtan 1e-8) mirrorCamera usualLens k = some (r, true) ∧
    distance (r.1, r.2.1) (s * 3, s * 0) ≤ 1e-7 ∧ |r.2.2 - s * 4| ≤ 1e-7 := by
  have h0 : mirrorCamera 0 = 5 / 4 := rfl
  have hv : (3, 0, 4).2.2 > -(fovParameter (mirrorCamera 0) * norm3 (3, 0, 4)) := by
    rw [norm3_345, h0]
    unfold fovParameter
    norm_num
  have hk := unified_keypoint (radtan 1e-8) b mirrorCamera usualLens mirrorCamera_valid.1 hv
  obtain ⟨r, s, a1, a2, a3, a4⟩ := unified_radtan_backProject_project 1e-8 b mirrorCamera usualLens mirrorCamera_valid
    (R := 58 / 100) (τ := 4 / 5) (by norm_num) usualLens_bend (by norm_num) (by norm_num) (by rw [h0]; norm_num) (3, 0, 4) hv
    (by
      unfold mirrorPoint distance
      rw [norm3_345, h0, Real.sqrt_le_left (by norm_num)]
      norm_num) _ hk
  refine ⟨_, r, s, hk, a1, a2, a3.trans ?_, a4.trans ?_⟩
  · rw [max_eq_left (by norm_num)]
    norm_num
  · rw [max_eq_left (by norm_num), h0]
    norm_num

/-- C139 for a camera with a mirror and equidistant distortion. -/
theorem unified_equidistant_backProject_project (tol : ℝ) (b : Box) (I : Fin 5 → ℝ) (c : Fin 4 → ℝ) (hI : UnifiedValid I)
    {L τ : ℝ} (p : V3) (hv : p.2.2 > -(fovParameter (I 0) * norm3 p))
    (hL : SlowsDown c (distance (mirrorPoint (I 0) p) (0, 0)) L) (hτ : 0 < τ) (hτ1 : τ ≤ 1)
    (hτR : τ ^ 2 ≤ 1 + (1 - I 0 * I 0) * distance (mirrorPoint (I 0) p) (0, 0) ^ 2)
    (k : V2) (hk : (unifiedProject (equidistant tol) b I c p).keypoint = some k)
    (hc : 1e-6 ≤ ((k.1 - I 3) / I 1) ^ 2 + ((k.2 - I 4) / I 2) ^ 2) :
    ∃ (r : V3) (s E : ℝ), 0 < s ∧ unifiedBackProject (equidistant tol) I c k = some (r, true) ∧
      E = L * max tol 0 / growth c (distance (mirrorPoint (I 0) p) (0, 0)) ^ 3 +
        distance (mirrorPoint (I 0) p) (0, 0) * (1 - growth c (distance (mirrorPoint (I 0) p) (0, 0))) ^ 30 ∧
      distance (r.1, r.2.1) (s * p.1, s * p.2.1) ≤ E ∧
      |r.2.2 - s * p.2.2| ≤ I 0 * distance (mirrorPoint (I 0) p) (0, 0) / τ * E := by
  have h1 : I 1 ≠ 0 := hI.2.1.ne'
  have h2 : I 2 ≠ 0 := hI.2.2.1.ne'
  have hk1 : ((k.1 - I 3) / I 1, (k.2 - I 4) / I 2) = equidistantDistort c (mirrorPoint (I 0) p) := by
    have hk := hk
    rw [unified_keypoint _ b I c hI.1 hv] at hk
    injection hk with hk
    rw [← hk]
    unfold mirrorPoint
    refine Prod.ext ?_ ?_ <;> simp only <;> field_simp <;> first | rfl | (ring_nf; rfl)
  have a1 := congrArg Prod.fst hk1
  have a2 := congrArg Prod.snd hk1
  simp only at a1 a2
  rw [a1, a2] at hc
  obtain ⟨q, e1, ⟨t, t0, t1, et⟩, e3⟩ := equidistant_undistort_distort tol hL hc
  have hm : 0 ≤ distance (mirrorPoint (I 0) p) (0, 0) := Real.sqrt_nonneg _
  have hq : distance q (0, 0) ≤ distance (mirrorPoint (I 0) p) (0, 0) := by
    refine abs_le_of_sq_le_sq' ?_ hm |>.2
    rw [← distance_sq, ← distance_sq, et]
    have : t * t ≤ 1 := by nlinarith
    nlinarith [mul_self_nonneg (mirrorPoint (I 0) p).1, mul_self_nonneg (mirrorPoint (I 0) p).2]
  obtain ⟨r, s, b1, b2, b3, b4⟩ := unified_ray_close (equidistant tol) b I c hI p hv k q hk e1 hm le_rfl hq hτ hτ1 hτR e3
  exact ⟨r, s, _, b1, b2, rfl, b3, b4⟩

/-- Such a camera without coefficients: the ray of the keypoint of the point (3, 0, 4) passes that point. -/
example (b : Box) : ∃ k r s, (unifiedProject (equidistant 1e-8) b ![1, 458, 457, 367, 248] 0 (3, 0, 4)).keypoint = some k ∧
    0 < s ∧ unifiedBackProject (equidistant 1e-8) ![1, 458, 457, 367, 248] 0 k = some (r, true) ∧
    distance (r.1, r.2.1) (s * 3, s * 0) ≤ 1e-7 ∧ |r.2.2 - s * 4| ≤ 1e-7 := by
  obtain ⟨I, hIe⟩ : ∃ I : Fin 5 → ℝ, I = ![1, 458, 457, 367, 248] := ⟨_, rfl⟩
  rw [← hIe]
  have h0 : I 0 = 1 := by rw [hIe]; rfl
  have h1 : I 1 = 458 := by rw [hIe]; rfl
  have h2 : I 2 = 457 := by rw [hIe]; rfl
  have h3 : I 3 = 367 := by rw [hIe]; rfl
  have h4 : I 4 = 248 := by rw [hIe]; rfl
  have hI : UnifiedValid I := by
    unfold UnifiedValid
    rw [h0, h1, h2, h3, h4]
    norm_num
  have hv : (3, 0, 4).2.2 > -(fovParameter (I 0) * norm3 (3, 0, 4)) := by
    rw [norm3_345, h0]
    unfold fovParameter
    norm_num
  have hm : mirrorPoint (I 0) (3, 0, 4) = (1 / 3, 0) := by
    unfold mirrorPoint
    rw [norm3_345, h0]
    norm_num
  have hd : distance (1 / 3, 0) (0, 0) = 1 / 3 := by
    unfold distance
    simp only [sub_zero]
    rw [show ((1 / 3 : ℝ) ^ 2 + 0 ^ 2) = (1 / 3) ^ 2 by norm_num]
    exact Real.sqrt_sq (by norm_num)
  have hk := unified_keypoint (equidistant 1e-8) b I 0 hI.1 hv
  have hat : (1 / 6 : ℝ) ≤ Real.arctan (1 / 3) := by
    have a1 := Real.two_mul_arctan_inv_3_add_arctan_inv_7
    have a2 : Real.arctan 7⁻¹ ≤ Real.arctan 3⁻¹ := Real.arctan_le_arctan_iff.2 (by norm_num)
    have a3 := Real.pi_gt_three
    rw [one_div 3]
    linarith
  obtain ⟨r, s, E, a1, a2, aE, a3, a4⟩ := unified_equidistant_backProject_project 1e-8 b I 0 hI (L := 1) (τ := 1) (3, 0, 4) hv
    slowsDown_zero one_pos le_rfl (by rw [h0]; norm_num) _ hk (by
      have e : (3 / (4 + I 0 * norm3 (3, 0, 4)), 0 / (4 + I 0 * norm3 (3, 0, 4))) = ((1 / 3 : ℝ), (0 : ℝ)) := by
        rw [norm3_345, h0]; norm_num
      simp only [e]
      have e : equidistantDistort 0 (1 / 3, 0) = (Real.arctan (1 / 3), 0) := by
        have hn : norm2 ((1 / 3 : ℝ), 0) = 1 / 3 := by
          unfold norm2
          simp only
          rw [show ((1 / 3 : ℝ) * (1 / 3) + 0 * 0) = (1 / 3) ^ 2 by norm_num]
          exact Real.sqrt_sq (by norm_num)
        unfold equidistantDistort thetad
        simp only [hn]
        norm_num
        ring
      change _ ≤ ((I 1 * (equidistantDistort 0 (1 / 3, 0)).1 + I 3 - I 3) / I 1) ^ 2 +
        ((I 2 * (equidistantDistort 0 (1 / 3, 0)).2 + I 4 - I 4) / I 2) ^ 2
      rw [e, h1, h2, h3, h4]
      norm_num
      nlinarith)
  rw [hm, hd] at aE a4
  have hg : growth 0 (1 / 3) = 9 / 10 := by simp [growth]; norm_num
  rw [hg, max_eq_left (by norm_num)] at aE
  refine ⟨_, r, s, hk, a1, a2, a3.trans ?_, a4.trans ?_⟩
  · rw [aE]; norm_num
  · rw [aE, h0]; norm_num

end Verif.Camera
