import Verif.Distortion.Props
import Mathlib.Analysis.Complex.Norm
import Mathlib.Analysis.Complex.Basic
import Mathlib.Topology.MetricSpace.Contracting

/-!
# Undistorting converges for moderate lenses (C139)

The Newton iteration of the radial-tangential model (C66) within a disc in which the lens bends lengths by a third at
most. Points of the plane are complex numbers in the proofs; the results are about pairs.
-/

namespace Verif.Distortion

/-- The distance of two points. -/
noncomputable def distance (p q : ℝ × ℝ) : ℝ := Real.sqrt ((p.1 - q.1) ^ 2 + (p.2 - q.2) ^ 2)

/-- How much a lens with these coefficients can stretch or shrink lengths within the disc of radius `R`. -/
noncomputable def bend (k : Fin 4 → ℝ) (R : ℝ) : ℝ :=
  3 * |k 0| * R ^ 2 + 5 * |k 1| * R ^ 4 + 6 * (|k 2| + |k 3|) * R

namespace Converge

/-- A point as a complex number. -/
def pt (p : ℝ × ℝ) : ℂ := ⟨p.1, p.2⟩

/-- The scalar product. -/
def dot (u v : ℂ) : ℝ := u.re * v.re + u.im * v.im

theorem norm_pt (p : ℝ × ℝ) : ‖pt p‖ = Real.sqrt (p.1 ^ 2 + p.2 ^ 2) := by
  rw [Complex.norm_eq_sqrt_sq_add_sq]; rfl

theorem distance_eq (p q : ℝ × ℝ) : distance p q = ‖pt p - pt q‖ := by
  rw [Complex.norm_eq_sqrt_sq_add_sq]; rfl

theorem dot_self (u : ℂ) : dot u u = ‖u‖ ^ 2 := by
  rw [Complex.sq_norm, Complex.normSq_apply]; rfl

theorem abs_dot (u v : ℂ) : |dot u v| ≤ ‖u‖ * ‖v‖ := by
  refine abs_le_of_sq_le_sq ?_ (by positivity) |> fun h => h
  rw [mul_pow, ← dot_self, ← dot_self]
  unfold dot
  nlinarith [sq_nonneg (u.re * v.im - u.im * v.re)]

/-- What the lens adds. -/
noncomputable def add (k : Fin 4 → ℝ) (z : ℂ) : ℂ :=
  k 0 • (dot z z • z) + k 1 • ((dot z z * dot z z) • z) + k 2 • (Complex.I * (2 * (dot z z : ℂ) - z * z)) +
    k 3 • (2 * (dot z z : ℂ) + z * z)

/-- The derivative of that. -/
noncomputable def dadd (k : Fin 4 → ℝ) (z v : ℂ) : ℂ :=
  k 0 • (dot z z • v + (2 * dot z v) • z) + k 1 • ((dot z z * dot z z) • v + (4 * dot z z * dot z v) • z) +
    k 2 • (Complex.I * (4 * (dot z v : ℂ) - 2 * (z * v))) + k 3 • (4 * (dot z v : ℂ) + 2 * (z * v))

theorem pt_distort (k : Fin 4 → ℝ) (p : ℝ × ℝ) : pt (radtanDistort k p) = pt p + add k (pt p) := by
  apply Complex.ext <;> simp [pt, radtanDistort, add, dot] <;> ring

theorem pt_jacobian (k : Fin 4 → ℝ) (p v : ℝ × ℝ) :
    pt ((radtanJacobian k p).a * v.1 + (radtanJacobian k p).b * v.2,
      (radtanJacobian k p).c * v.1 + (radtanJacobian k p).d * v.2) = pt v + dadd k (pt p) (pt v) := by
  apply Complex.ext <;> simp [pt, radtanJacobian, dadd, dot] <;> ring

theorem norm_comb (k : Fin 4 → ℝ) {a b c d : ℂ} {A B P s : ℝ} (ha : ‖a‖ ≤ A * s) (hb : ‖b‖ ≤ B * s)
    (hc : ‖c‖ ≤ P * s) (hd : ‖d‖ ≤ P * s) :
    ‖k 0 • a + k 1 • b + k 2 • c + k 3 • d‖ ≤ (A * |k 0| + B * |k 1| + P * (|k 2| + |k 3|)) * s := by
  have e : ∀ (r : ℝ) (z : ℂ), ‖r • z‖ = |r| * ‖z‖ := fun r z => by rw [norm_smul, Real.norm_eq_abs]
  have h := norm_add_le (k 0 • a + k 1 • b + k 2 • c) (k 3 • d)
  have h' := norm_add_le (k 0 • a + k 1 • b) (k 2 • c)
  have h'' := norm_add_le (k 0 • a) (k 1 • b)
  rw [e] at h h' 
  rw [e, e] at h''
  nlinarith [mul_le_mul_of_nonneg_left ha (abs_nonneg (k 0)), mul_le_mul_of_nonneg_left hb (abs_nonneg (k 1)),
    mul_le_mul_of_nonneg_left hc (abs_nonneg (k 2)), mul_le_mul_of_nonneg_left hd (abs_nonneg (k 3))]

theorem norm_real_smul (r : ℝ) (z : ℂ) : ‖r • z‖ = |r| * ‖z‖ := by rw [norm_smul, Real.norm_eq_abs]

/-- A pair of terms. -/
theorem norm_two {r t R s : ℝ} {u v : ℂ} {a b : ℝ} (hr : |r| ≤ a) (hu : ‖u‖ ≤ s) (ht : |t| ≤ b * s) (hv : ‖v‖ ≤ R)
    (hs : 0 ≤ s) : ‖r • u + t • v‖ ≤ (a + b * R) * s := by
  have h := norm_add_le (r • u) (t • v)
  rw [norm_real_smul, norm_real_smul] at h
  have h1 : |r| * ‖u‖ ≤ a * s := mul_le_mul hr hu (norm_nonneg _) ((abs_nonneg r).trans hr)
  have h2 : |t| * ‖v‖ ≤ b * s * R := mul_le_mul ht hv (norm_nonneg _) ((abs_nonneg t).trans ht)
  nlinarith

theorem norm_bil (r : ℝ) (w : ℂ) : ‖2 * (r : ℂ) + w‖ ≤ 2 * |r| + ‖w‖ := by
  refine (norm_add_le _ _).trans (le_of_eq ?_)
  rw [norm_mul, Complex.norm_real, Real.norm_eq_abs]
  norm_num

theorem norm_bil' (r : ℝ) (w : ℂ) : ‖Complex.I * (2 * (r : ℂ) - w)‖ ≤ 2 * |r| + ‖w‖ := by
  rw [norm_mul, Complex.norm_I, one_mul, sub_eq_add_neg]
  refine (norm_bil r (-w)).trans (le_of_eq ?_)
  rw [norm_neg]

theorem norm_twice (w : ℂ) : ‖2 * w‖ = 2 * ‖w‖ := by rw [norm_mul]; norm_num

variable {k : Fin 4 → ℝ} {R : ℝ}

theorem dot_le {z : ℂ} (h : ‖z‖ ≤ R) : |dot z z| ≤ R ^ 2 := by
  rw [dot_self, abs_of_nonneg (sq_nonneg _)]
  exact pow_le_pow_left₀ (norm_nonneg _) h 2

theorem dot_sq_le {z : ℂ} (h : ‖z‖ ≤ R) : |dot z z * dot z z| ≤ R ^ 4 := by
  rw [← pow_two, abs_pow]
  calc |dot z z| ^ 2 ≤ (R ^ 2) ^ 2 := pow_le_pow_left₀ (abs_nonneg _) (dot_le h) 2
    _ = R ^ 4 := by ring

/-- Within the disc the derivative changes lengths by at most `bend`. -/
theorem norm_dadd (z v : ℂ) (h : ‖z‖ ≤ R) : ‖dadd k z v‖ ≤ bend k R * ‖v‖ := by
  have hR : 0 ≤ R := (norm_nonneg z).trans h
  have hv := norm_nonneg v
  have hd : |dot z v| ≤ R * ‖v‖ := (abs_dot z v).trans (mul_le_mul_of_nonneg_right h hv)
  have hzv : ‖z * v‖ ≤ R * ‖v‖ := by rw [norm_mul]; exact mul_le_mul_of_nonneg_right h hv
  have e : bend k R = 3 * R ^ 2 * |k 0| + 5 * R ^ 4 * |k 1| + 6 * R * (|k 2| + |k 3|) := by unfold bend; ring
  rw [e]
  unfold dadd
  apply norm_comb
  · refine (norm_two (a := R ^ 2) (b := 2 * R) (R := R) (dot_le h) le_rfl ?_ h hv).trans (le_of_eq (by ring))
    rw [abs_mul, abs_two]; linarith
  · refine (norm_two (a := R ^ 4) (b := 4 * R ^ 3) (R := R) (dot_sq_le h) le_rfl ?_ h hv).trans (le_of_eq (by ring))
    rw [abs_mul, abs_mul, show |(4 : ℝ)| = 4 by norm_num]
    have := mul_le_mul (dot_le h) hd (abs_nonneg _) (by positivity)
    calc 4 * |dot z z| * |dot z v| = 4 * (|dot z z| * |dot z v|) := by ring
      _ ≤ 4 * (R ^ 2 * (R * ‖v‖)) := by linarith
      _ = _ := by ring
  · have h1 := norm_bil' (2 * dot z v) (2 * (z * v))
    rw [abs_mul, abs_two, norm_twice] at h1
    have e2 : Complex.I * (4 * (dot z v : ℂ) - 2 * (z * v)) =
        Complex.I * (2 * ((2 * dot z v : ℝ) : ℂ) - 2 * (z * v)) := by push_cast; ring
    rw [e2]
    linarith
  · have h1 := norm_bil (2 * dot z v) (2 * (z * v))
    rw [abs_mul, abs_two, norm_twice] at h1
    have e2 : 4 * (dot z v : ℂ) + 2 * (z * v) = 2 * ((2 * dot z v : ℝ) : ℂ) + 2 * (z * v) := by push_cast; ring
    rw [e2]
    linarith

/-- What is added differs by at most `bend` times the distance. -/
theorem norm_add_sub (z w : ℂ) (hz : ‖z‖ ≤ R) (hw : ‖w‖ ≤ R) : ‖add k z - add k w‖ ≤ bend k R * ‖z - w‖ := by
  have hR : 0 ≤ R := (norm_nonneg z).trans hz
  have hs : ‖z + w‖ ≤ 2 * R := (norm_add_le z w).trans (by linarith)
  have hv := norm_nonneg (z - w)
  have hd : |dot (z - w) (z + w)| ≤ 2 * R * ‖z - w‖ :=
    (abs_dot _ _).trans (by nlinarith [mul_le_mul_of_nonneg_left hs hv])
  have hm : ‖(z - w) * (z + w)‖ ≤ 2 * R * ‖z - w‖ := by
    rw [norm_mul]; nlinarith [mul_le_mul_of_nonneg_left hs hv]
  have hdd : dot z z - dot w w = dot (z - w) (z + w) := by
    simp only [dot, Complex.sub_re, Complex.sub_im, Complex.add_re, Complex.add_im]; ring
  have e : bend k R = 3 * R ^ 2 * |k 0| + 5 * R ^ 4 * |k 1| + 6 * R * (|k 2| + |k 3|) := by unfold bend; ring
  have split : add k z - add k w =
      k 0 • (dot z z • (z - w) + dot (z - w) (z + w) • w) +
      k 1 • ((dot z z * dot z z) • (z - w) + ((dot z z + dot w w) * dot (z - w) (z + w)) • w) +
      k 2 • (Complex.I * (2 * (dot (z - w) (z + w) : ℂ) - (z - w) * (z + w))) +
      k 3 • (2 * (dot (z - w) (z + w) : ℂ) + (z - w) * (z + w)) := by
    rw [← hdd]
    unfold add
    simp only [Complex.real_smul]
    push_cast
    ring
  rw [e, split]
  apply norm_comb
  · exact (norm_two (a := R ^ 2) (b := 2 * R) (R := R) (dot_le hz) le_rfl hd hw hv).trans (le_of_eq (by ring))
  · refine (norm_two (a := R ^ 4) (b := 4 * R ^ 3) (R := R) (dot_sq_le hz) le_rfl ?_ hw hv).trans (le_of_eq (by ring))
    rw [abs_mul]
    have h1 : |dot z z + dot w w| ≤ 2 * R ^ 2 := (abs_add_le _ _).trans (by linarith [dot_le hz, dot_le hw])
    calc |dot z z + dot w w| * |dot (z - w) (z + w)| ≤ 2 * R ^ 2 * (2 * R * ‖z - w‖) :=
          mul_le_mul h1 hd (abs_nonneg _) (by positivity)
      _ = _ := by ring
  · refine (norm_bil' _ _).trans ?_; linarith
  · refine (norm_bil _ _).trans ?_; linarith

/-- What is left of the linear approximation. -/
theorem norm_rest (z v : ℂ) (hz : ‖z‖ ≤ R) (hzv : ‖z + v‖ ≤ R) :
    ‖add k (z + v) - add k z - dadd k z v‖ * R ≤ 2 * bend k R * ‖v‖ ^ 2 := by
  have hR : 0 ≤ R := (norm_nonneg z).trans hz
  have hv := norm_nonneg v
  have hd : |dot z v| ≤ R * ‖v‖ := (abs_dot z v).trans (mul_le_mul_of_nonneg_right hz hv)
  have hd' : |dot (z + v) v| ≤ R * ‖v‖ := (abs_dot _ v).trans (mul_le_mul_of_nonneg_right hzv hv)
  have hq : |dot z v + dot (z + v) v| ≤ 2 * R * ‖v‖ := (abs_add_le _ _).trans (by linarith)
  have hvv : dot v v = ‖v‖ ^ 2 := dot_self v
  have split : add k (z + v) - add k z - dadd k z v =
      k 0 • (dot v v • (z + v) + (2 * dot z v) • v) +
      k 1 • ((2 * dot z z * dot v v + (dot z v + dot (z + v) v) ^ 2) • (z + v) + (4 * dot z z * dot z v) • v) +
      k 2 • (Complex.I * (2 * (dot v v : ℂ) - v * v)) +
      k 3 • (2 * (dot v v : ℂ) + v * v) := by
    have e1 : dot (z + v) (z + v) = dot z z + 2 * dot z v + dot v v := by
      simp only [dot, Complex.add_re, Complex.add_im]; ring
    have e2 : dot (z + v) v = dot z v + dot v v := by
      simp only [dot, Complex.add_re, Complex.add_im]; ring
    unfold add dadd
    rw [e1, e2]
    simp only [Complex.real_smul]
    push_cast
    ring
  have key : ‖add k (z + v) - add k z - dadd k z v‖ ≤
      (3 * R * |k 0| + 10 * R ^ 3 * |k 1| + 3 * (|k 2| + |k 3|)) * ‖v‖ ^ 2 := by
    rw [split]
    apply norm_comb
    · refine (norm_add_le _ _).trans ?_
      rw [norm_real_smul, norm_real_smul, hvv, abs_of_nonneg (sq_nonneg _), abs_mul, abs_two]
      have h1 := mul_le_mul_of_nonneg_left hzv (sq_nonneg ‖v‖)
      have h2 := mul_le_mul_of_nonneg_right hd hv
      nlinarith
    · refine (norm_add_le _ _).trans ?_
      rw [norm_real_smul, norm_real_smul]
      have a1 : |2 * dot z z * dot v v + (dot z v + dot (z + v) v) ^ 2| ≤ 6 * R ^ 2 * ‖v‖ ^ 2 := by
        refine (abs_add_le _ _).trans ?_
        rw [abs_mul, abs_mul, abs_two, hvv, abs_of_nonneg (sq_nonneg ‖v‖), abs_pow]
        have := pow_le_pow_left₀ (abs_nonneg _) hq 2
        have := mul_le_mul_of_nonneg_right (dot_le hz) (sq_nonneg ‖v‖)
        nlinarith
      have a2 : |4 * dot z z * dot z v| ≤ 4 * R ^ 3 * ‖v‖ := by
        rw [abs_mul, abs_mul, show |(4 : ℝ)| = 4 by norm_num]
        have := mul_le_mul (dot_le hz) hd (abs_nonneg _) (by positivity)
        nlinarith
      have b1 := mul_le_mul a1 hzv (norm_nonneg _) (by positivity)
      have b2 := mul_le_mul_of_nonneg_right a2 hv
      nlinarith
    · refine (norm_bil' _ _).trans ?_
      rw [hvv, abs_of_nonneg (sq_nonneg _), norm_mul]; nlinarith
    · refine (norm_bil _ _).trans ?_
      rw [hvv, abs_of_nonneg (sq_nonneg _), norm_mul]; nlinarith
  have h1 := mul_le_mul_of_nonneg_right key hR
  refine h1.trans ?_
  have hk0 := abs_nonneg (k 0); have hk1 := abs_nonneg (k 1)
  have hk2 := add_nonneg (abs_nonneg (k 2)) (abs_nonneg (k 3))
  have : (3 * R * |k 0| + 10 * R ^ 3 * |k 1| + 3 * (|k 2| + |k 3|)) * R ≤ 2 * bend k R := by
    unfold bend
    have : 0 ≤ R ^ 2 * |k 0| := by positivity
    have : 0 ≤ R * (|k 2| + |k 3|) := by positivity
    nlinarith
  calc _ = (3 * R * |k 0| + 10 * R ^ 3 * |k 1| + 3 * (|k 2| + |k 3|)) * R * ‖v‖ ^ 2 := by ring
    _ ≤ _ := mul_le_mul_of_nonneg_right this (sq_nonneg _)

/-- What is added is small compared to the point. -/
theorem norm_add_self (z : ℂ) (hz : ‖z‖ ≤ R) : ‖add k z‖ ≤ bend k R / 2 * ‖z‖ := by
  have hR : 0 ≤ R := (norm_nonneg z).trans hz
  have hv := norm_nonneg z
  have key : ‖add k z‖ ≤ (R ^ 2 * |k 0| + R ^ 4 * |k 1| + 3 * R * (|k 2| + |k 3|)) * ‖z‖ := by
    unfold add
    apply norm_comb
    · rw [norm_real_smul]; exact mul_le_mul_of_nonneg_right (dot_le hz) hv
    · rw [norm_real_smul]; exact mul_le_mul_of_nonneg_right (dot_sq_le hz) hv
    · refine (norm_bil' _ _).trans ?_
      rw [dot_self, abs_of_nonneg (sq_nonneg _), norm_mul]; nlinarith
    · refine (norm_bil _ _).trans ?_
      rw [dot_self, abs_of_nonneg (sq_nonneg _), norm_mul]; nlinarith
  refine key.trans (mul_le_mul_of_nonneg_right ?_ hv)
  unfold bend
  have : 0 ≤ R ^ 2 * |k 0| := by positivity
  have : 0 ≤ R ^ 4 * |k 1| := by positivity
  nlinarith

/-- A Newton step within the disc is defined, and at most 3/2 as long as the error. -/
theorem step_defined {q e : ℝ × ℝ} (hb : bend k R ≤ 1 / 3) (hq : ‖pt q‖ ≤ R) :
    ∃ du, newtonStep (radtanJacobian k q) e = some du ∧ pt du + dadd k (pt q) (pt du) = pt e ∧
      ‖pt du‖ ≤ 3 / 2 * ‖pt e‖ := by
  have low : ∀ v : ℂ, ‖v‖ ≤ 3 / 2 * ‖v + dadd k (pt q) v‖ := by
    intro v
    have h1 := norm_dadd (k := k) (pt q) v hq
    have h2 := norm_sub_le (v + dadd k (pt q) v) (dadd k (pt q) v)
    rw [add_sub_cancel_right] at h2
    have h3 := mul_le_mul_of_nonneg_right hb (norm_nonneg v)
    linarith
  have zero : ∀ v : ℝ × ℝ, (radtanJacobian k q).a * v.1 + (radtanJacobian k q).b * v.2 = 0 →
      (radtanJacobian k q).c * v.1 + (radtanJacobian k q).d * v.2 = 0 → v.1 = 0 ∧ v.2 = 0 := by
    intro v h1 h2
    have h := low (pt v)
    rw [← pt_jacobian, h1, h2, show pt (0, 0) = 0 from rfl, norm_zero, mul_zero] at h
    have h0 : pt v = 0 := norm_le_zero_iff.1 h
    exact ⟨congrArg Complex.re h0, congrArg Complex.im h0⟩
  have hne : (radtanJacobian k q).a * (radtanJacobian k q).d - (radtanJacobian k q).b * (radtanJacobian k q).c ≠ 0 := by
    intro h
    have z1 := zero (-(radtanJacobian k q).b, (radtanJacobian k q).a) (by ring) (by linear_combination h)
    have z2 := zero (-(radtanJacobian k q).d, (radtanJacobian k q).c) (by linear_combination -h) (by ring)
    have z3 := zero (1, 0) (by simp only at z1 ⊢; rw [z1.2]; ring) (by simp only at z2 ⊢; rw [z2.2]; ring)
    exact one_ne_zero z3.1
  cases hs : newtonStep (radtanJacobian k q) e with
  | none => exact absurd ((newtonStep_none _ _).1 hs) hne
  | some du =>
    obtain ⟨e1, e2⟩ := newtonStep_solves hs
    have e3 : pt du + dadd k (pt q) (pt du) = pt e := by rw [← pt_jacobian, e1, e2]
    refine ⟨du, rfl, e3, ?_⟩
    rw [← e3]
    exact low _

/-- The error of an iterate. -/
noncomputable def err (k : Fin 4 → ℝ) (y q : ℝ × ℝ) : ℝ := ‖pt y - (pt q + add k (pt q))‖

theorem err_eq (k : Fin 4 → ℝ) (y q : ℝ × ℝ) :
    err k y q = ‖pt (y.1 - (radtanDistort k q).1, y.2 - (radtanDistort k q).2)‖ := by
  unfold err
  rw [← pt_distort]
  rfl

theorem loop_converges (hR : 0 < R) (hb : bend k R ≤ 1 / 3) (y : ℝ × ℝ) (tol : ℝ) :
    ∀ (n : Nat) (q : ℝ × ℝ) (s : ℝ), err k y q ≤ 7 / 60 * R → ‖pt q‖ + 2 * err k y q ≤ R → err k y q ≤ s →
      ∃ r, newtonLoop (radtanDistort k) (radtanJacobian k) tol y n q = some r ∧ ‖pt r‖ ≤ R ∧
        err k y r ≤ 3 / 2 * max tol 0 / R + s / 5 ^ n := by
  intro n
  induction n with
  | zero =>
    intro q s _ h2 h3
    have h0 : 0 ≤ err k y q := norm_nonneg _
    have : 0 ≤ 3 / 2 * max tol 0 / R := by have := le_max_right tol 0; positivity
    exact ⟨q, rfl, by linarith, by rw [pow_zero, div_one]; linarith⟩
  | succ n ih =>
    intro q s h1 h2 h3
    have h0 : 0 ≤ err k y q := norm_nonneg _
    have hq : ‖pt q‖ ≤ R := by linarith
    obtain ⟨du, hs, hd, hl⟩ := step_defined (k := k)
      (e := (y.1 - (radtanDistort k q).1, y.2 - (radtanDistort k q).2)) hb hq
    rw [← err_eq] at hl
    have hnext : pt (q.1 + du.1, q.2 + du.2) = pt q + pt du := rfl
    have hq' : ‖pt q + pt du‖ ≤ R := (norm_add_le _ _).trans (by linarith)
    have hrest := norm_rest (k := k) (pt q) (pt du) hq hq'
    have he : err k y (q.1 + du.1, q.2 + du.2) = ‖add k (pt q + pt du) - add k (pt q) - dadd k (pt q) (pt du)‖ := by
      unfold err
      rw [hnext, ← norm_neg]
      congr 1
      have : pt (y.1 - (radtanDistort k q).1, y.2 - (radtanDistort k q).2) = pt y - (pt q + add k (pt q)) := by
        rw [← pt_distort]; rfl
      rw [this] at hd
      linear_combination hd
    rw [← he] at hrest
    have hsq : ‖pt du‖ ^ 2 ≤ 9 / 4 * err k y q ^ 2 := by
      have := pow_le_pow_left₀ (norm_nonneg (pt du)) hl 2
      nlinarith
    have hquad : err k y (q.1 + du.1, q.2 + du.2) * R ≤ 3 / 2 * err k y q ^ 2 := by
      have := mul_le_mul_of_nonneg_right hb (sq_nonneg ‖pt du‖)
      nlinarith
    have hdec : err k y (q.1 + du.1, q.2 + du.2) ≤ err k y q / 5 := by
      have h4 : err k y (q.1 + du.1, q.2 + du.2) * R ≤ err k y q / 5 * R := by nlinarith
      exact le_of_mul_le_mul_right h4 hR
    have hs2 : (y.1 - (radtanDistort k q).1) * (y.1 - (radtanDistort k q).1) +
        (y.2 - (radtanDistort k q).2) * (y.2 - (radtanDistort k q).2) = err k y q ^ 2 := by
      rw [err_eq, norm_pt, Real.sq_sqrt (by positivity)]
      ring
    unfold newtonLoop
    simp only [hs]
    rw [hs2]
    by_cases ht : err k y q ^ 2 ≤ tol
    · rw [if_pos ht]
      refine ⟨_, rfl, by rw [hnext]; exact hq', ?_⟩
      have h5 : err k y (q.1 + du.1, q.2 + du.2) ≤ 3 / 2 * max tol 0 / R := by
        rw [le_div_iff₀ hR]
        have := le_max_left tol 0
        linarith
      have : 0 ≤ s / 5 ^ (n + 1) := by have := h0.trans h3; positivity
      linarith
    · rw [if_neg ht]
      obtain ⟨r, hr1, hr2, hr3⟩ := ih (q.1 + du.1, q.2 + du.2) (s / 5) (by linarith)
        (by rw [hnext]; have := norm_add_le (pt q) (pt du); linarith) (by linarith)
      refine ⟨r, hr1, hr2, hr3.trans (le_of_eq ?_)⟩
      rw [pow_succ, div_div, mul_comm (5 : ℝ)]

theorem norm_distort (p : ℝ × ℝ) (hb : bend k R ≤ 1 / 3) (hp : ‖pt p‖ ≤ R) :
    ‖pt (radtanDistort k p)‖ ≤ 7 / 6 * ‖pt p‖ := by
  rw [pt_distort]
  have h1 := norm_add_self (k := k) (pt p) hp
  have h2 := norm_add_le (pt p) (add k (pt p))
  nlinarith [norm_nonneg (pt p)]

end Converge

open Converge

/-- C139: within a disc in which the lens changes lengths by less than their length, different points are distorted to
different points, and distances do not shrink by more than that. -/
theorem radtan_stretch {k : Fin 4 → ℝ} {R : ℝ} {p q : ℝ × ℝ} (hp : distance p (0, 0) ≤ R) (hq : distance q (0, 0) ≤ R) :
    (1 - bend k R) * distance p q ≤ distance (radtanDistort k p) (radtanDistort k q) ∧
      distance (radtanDistort k p) (radtanDistort k q) ≤ (1 + bend k R) * distance p q := by
  rw [distance_eq, show pt (0, 0) = 0 from rfl, sub_zero] at hp hq
  rw [distance_eq, distance_eq, pt_distort, pt_distort]
  have h := norm_add_sub (k := k) (pt p) (pt q) hp hq
  have e : pt p + add k (pt p) - (pt q + add k (pt q)) = (pt p - pt q) + (add k (pt p) - add k (pt q)) := by ring
  rw [e]
  have h1 := norm_add_le (pt p - pt q) (add k (pt p) - add k (pt q))
  have h2 := norm_sub_le ((pt p - pt q) + (add k (pt p) - add k (pt q))) (add k (pt p) - add k (pt q))
  rw [add_sub_cancel_right] at h2
  constructor <;> linarith

/-- C139: every point within 7/10 of the disc is the distortion of exactly one point of the disc. -/
theorem radtan_onto {k : Fin 4 → ℝ} {R : ℝ} (hb : bend k R ≤ 1 / 3) {y : ℝ × ℝ} (hy : distance y (0, 0) ≤ 7 / 10 * R) :
    ∃! p, distance p (0, 0) ≤ R ∧ radtanDistort k p = y := by
  have hR : 0 ≤ R := by
    have : 0 ≤ distance y (0, 0) := Real.sqrt_nonneg _
    linarith
  have hd0 : ∀ p, distance p (0, 0) = ‖pt p‖ := fun p => by
    rw [distance_eq, show pt (0, 0) = 0 from rfl, sub_zero]
  have hd : ∀ p q, distance p q = 0 → p = q := by
    intro p q h
    rw [distance_eq, norm_eq_zero, sub_eq_zero] at h
    exact Prod.ext (congrArg Complex.re h) (congrArg Complex.im h)
  rw [hd0] at hy
  have hmaps : Set.MapsTo (fun z => pt y - add k z) (Metric.closedBall (0 : ℂ) R) (Metric.closedBall (0 : ℂ) R) := by
    intro z hz
    rw [mem_closedBall_zero_iff] at hz ⊢
    have h1 := norm_add_self (k := k) z hz
    have h2 := norm_sub_le (pt y) (add k z)
    have : bend k R / 2 * ‖z‖ ≤ 1 / 6 * R := by
      have := mul_le_mul_of_nonneg_right hb (norm_nonneg z)
      nlinarith
    simp only
    linarith
  have hK : ContractingWith (1 / 3 : NNReal) (hmaps.restrict _ _ _) := by
    refine ⟨by rw [div_lt_one (by norm_num)]; norm_num, LipschitzWith.of_dist_le_mul ?_⟩
    rintro ⟨z, hz⟩ ⟨w, hw⟩
    rw [mem_closedBall_zero_iff] at hz hw
    rw [Subtype.dist_eq, Subtype.dist_eq, dist_eq_norm, dist_eq_norm]
    simp only [Set.MapsTo.val_restrict_apply]
    have h := norm_add_sub (k := k) z w hz hw
    have e : pt y - add k z - (pt y - add k w) = -(add k z - add k w) := by ring
    rw [e, norm_neg]
    refine h.trans ?_
    have := mul_le_mul_of_nonneg_right hb (norm_nonneg (z - w))
    simpa using this
  have hc : IsComplete (Metric.closedBall (0 : ℂ) R) := Metric.isClosed_closedBall.isComplete
  obtain ⟨z, hz, hfix, -, -⟩ := hK.exists_fixedPoint' hc hmaps (x := 0)
    (by rw [mem_closedBall_zero_iff, norm_zero]; exact hR) (edist_ne_top _ _)
  rw [mem_closedBall_zero_iff] at hz
  have hz2 : pt (z.re, z.im) = z := rfl
  have hfix' : pt y - add k z = z := hfix
  refine ⟨(z.re, z.im), ⟨by rw [hd0, hz2]; exact hz, ?_⟩, ?_⟩
  · apply hd
    rw [distance_eq, pt_distort, hz2, norm_eq_zero]
    linear_combination -hfix'
  · rintro p ⟨hp, hpy⟩
    have h1 : distance (radtanDistort k p) (radtanDistort k (z.re, z.im)) = 0 := by
      rw [distance_eq, hpy, pt_distort, hz2, norm_eq_zero]
      linear_combination hfix'
    have h2 := (radtan_stretch (k := k) hp (q := (z.re, z.im)) (by rw [hd0, hz2]; exact hz)).1
    rw [h1] at h2
    have h3 : 0 ≤ distance p (z.re, z.im) := Real.sqrt_nonneg _
    apply hd
    have h4 := mul_le_mul_of_nonneg_right hb h3
    linarith

/-- C139: undistorting a point within 7/10 of the disc ends with a point of the disc that is distorted to the given one,
except for an error far below the square root of the tolerance that the iteration uses. -/
theorem radtan_undistort_converges {k : Fin 4 → ℝ} {R : ℝ} (hR : 0 < R) (hb : bend k R ≤ 1 / 3) (tol : ℝ) {y : ℝ × ℝ}
    (hy : distance y (0, 0) ≤ 7 / 10 * R) :
    ∃ r, radtanUndistort tol k y = some r ∧ distance r (0, 0) ≤ R ∧
      distance (radtanDistort k r) y ≤ 3 / 2 * max tol 0 / R + R / 5 ^ 30 := by
  have hd0 : ∀ p, distance p (0, 0) = ‖pt p‖ := fun p => by
    rw [distance_eq, show pt (0, 0) = 0 from rfl, sub_zero]
  rw [hd0] at hy
  have he : err k y y ≤ 1 / 6 * ‖pt y‖ := by
    unfold err
    rw [sub_add_cancel_left, norm_neg]
    have h1 := norm_add_self (R := R) (k := k) (pt y) (by linarith)
    nlinarith [norm_nonneg (pt y)]
  obtain ⟨r, h1, h2, h3⟩ := loop_converges hR hb y tol 30 y R (by linarith) (by linarith) (by linarith)
  refine ⟨r, h1, by rw [hd0]; exact h2, ?_⟩
  rw [distance_eq, pt_distort, ← norm_neg, neg_sub]
  exact h3

/-- C139: undistorting a distorted point gives the point, up to that error. -/
theorem radtan_undistort_distort {k : Fin 4 → ℝ} {R : ℝ} (hR : 0 < R) (hb : bend k R ≤ 1 / 3) (tol : ℝ) {p : ℝ × ℝ}
    (hp : distance p (0, 0) ≤ 3 / 5 * R) :
    ∃ r, radtanUndistort tol k (radtanDistort k p) = some r ∧
      distance r p ≤ 3 / 2 * (3 / 2 * max tol 0 / R + R / 5 ^ 30) := by
  have hd0 : ∀ p, distance p (0, 0) = ‖pt p‖ := fun p => by
    rw [distance_eq, show pt (0, 0) = 0 from rfl, sub_zero]
  have hy : distance (radtanDistort k p) (0, 0) ≤ 7 / 10 * R := by
    rw [hd0] at hp ⊢
    have := norm_distort p hb (by linarith)
    linarith
  obtain ⟨r, h1, h2, h3⟩ := radtan_undistort_converges hR hb tol hy
  refine ⟨r, h1, ?_⟩
  have h4 := (radtan_stretch (k := k) h2 (q := p) (by linarith)).1
  have h5 : 0 ≤ distance r p := Real.sqrt_nonneg _
  have := mul_le_mul_of_nonneg_right hb h5
  linarith

/-- A lens with usual coefficients. -/
noncomputable def usualLens : Fin 4 → ℝ := ![-28 / 100, 7 / 100, 2 / 10000, 1 / 10000]

/-- A disc that contains half of its field of view. -/
theorem usualLens_bend : bend usualLens (58 / 100) ≤ 1 / 3 := by
  have h0 : usualLens 0 = -(28 / 100) := by rw [← neg_div]; rfl
  have h1 : usualLens 1 = 7 / 100 := rfl
  have h2 : usualLens 2 = 2 / 10000 := rfl
  have h3 : usualLens 3 = 1 / 10000 := rfl
  unfold bend
  rw [h0, h1, h2, h3, abs_neg, abs_of_pos (by norm_num), abs_of_pos (by norm_num), abs_of_pos (by norm_num),
    abs_of_pos (by norm_num)]
  norm_num

/-- For that lens and the default tolerance 1e-8 the point (0.2, 0.25) comes back with an error below a ten millionth. -/
example : ∃ r, radtanUndistort 1e-8 usualLens (radtanDistort usualLens (1 / 5, 1 / 4)) = some r ∧
      distance r (1 / 5, 1 / 4) ≤ 1e-7 := by
  obtain ⟨r, h1, h2⟩ := radtan_undistort_distort (R := 58 / 100) (by norm_num) usualLens_bend 1e-8
    (p := (1 / 5, 1 / 4)) (by unfold distance; rw [Real.sqrt_le_left (by norm_num)]; norm_num)
  refine ⟨r, h1, h2.trans ?_⟩
  rw [max_eq_left (by norm_num)]
  norm_num

/-- Outside such a disc the lens can fold the image over: two points are distorted to the same one, and of a distorted
point another one comes back. -/
theorem radtan_folds_refuted (tol : ℝ) :
    radtanUndistort tol ![-1, 0, 0, 0] (radtanDistort ![-1, 0, 0, 0] (1, 0)) = some (0, 0) := by
  have h : radtanDistort ![-1, 0, 0, 0] (1, 0) = (0, 0) := by
    simp [radtanDistort]
  rw [h]
  exact radtan_undistort_center _ _

/-- And at a point where the image is folded the iteration divides by zero at once. -/
theorem radtan_singular_refuted (tol : ℝ) : radtanUndistort tol ![-1 / 3, 0, 0, 0] (1, 0) = none := by
  have h : newtonStep (radtanJacobian ![-1 / 3, 0, 0, 0] (1, 0)) (1 - (radtanDistort ![-1 / 3, 0, 0, 0] (1, 0)).1,
      0 - (radtanDistort ![-1 / 3, 0, 0, 0] (1, 0)).2) = none := by
    rw [newtonStep_none]
    simp [radtanJacobian]
    norm_num
  unfold radtanUndistort newtonLoop
  simp only [h]

end Verif.Distortion
