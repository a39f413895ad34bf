import Verif.Distortion.ConvergeProps
import Mathlib.Analysis.Calculus.MeanValue

/-!
# Undistorting converges in the equidistant model (C139)

Distorting moves a point along its ray from the centre. If the distance of the distorted point from the centre grows
less and less (as without coefficients, or with negative ones: barrel distortion), the Newton iteration of `undistort`
approaches the point from the side of the centre.
-/

namespace Verif.Distortion

/-- The distance from the centre at which a point at the distance `s` is seen. -/
noncomputable def seenAt (k : Fin 4 → ℝ) (s : ℝ) : ℝ :=
  Real.arctan s * (1 + k 0 * Real.arctan s ^ 2 + k 1 * Real.arctan s ^ 4 + k 2 * Real.arctan s ^ 6 +
    k 3 * Real.arctan s ^ 8)

/-- How fast that grows. -/
noncomputable def growth (k : Fin 4 → ℝ) (s : ℝ) : ℝ :=
  (1 + 3 * k 0 * Real.arctan s ^ 2 + 5 * k 1 * Real.arctan s ^ 4 + 7 * k 2 * Real.arctan s ^ 6 +
    9 * k 3 * Real.arctan s ^ 8) / (1 + s ^ 2)

/-- The growth slows down steadily, by at most `L` times the distance, and does not end up to the distance `r`. -/
def SlowsDown (k : Fin 4 → ℝ) (r L : ℝ) : Prop :=
  0 < growth k r ∧ ∀ s t, 0 ≤ s → s ≤ t → t ≤ r → growth k t ≤ growth k s ∧ growth k s ≤ growth k t + L * (t - s)

/-- `growth` is the derivative of `seenAt`. -/
theorem hasDerivAt_seenAt (k : Fin 4 → ℝ) (s : ℝ) : HasDerivAt (seenAt k) (growth k s) s := by
  have h := Real.hasDerivAt_arctan s
  have := h.mul (((((hasDerivAt_const s (1 : ℝ)).add ((h.pow 2).const_mul (k 0))).add ((h.pow 4).const_mul (k 1))).add
    ((h.pow 6).const_mul (k 2))).add ((h.pow 8).const_mul (k 3)))
  refine this.congr_deriv ?_
  unfold growth
  simp only [Pi.add_apply, Pi.pow_apply]
  have : (1 : ℝ) + s ^ 2 ≠ 0 := by positivity
  field_simp
  push_cast
  ring

namespace Converge

variable {k : Fin 4 → ℝ} {r L : ℝ}

theorem growth_zero (k : Fin 4 → ℝ) : growth k 0 = 1 := by simp [growth]

theorem seenAt_zero (k : Fin 4 → ℝ) : seenAt k 0 = 0 := by simp [seenAt]

/-- The mean value theorem: the growth between two distances. -/
theorem between (h : SlowsDown k r L) {s t : ℝ} (hs : 0 ≤ s) (hst : s ≤ t) (ht : t ≤ r) :
    growth k t * (t - s) ≤ seenAt k t - seenAt k s ∧ seenAt k t - seenAt k s ≤ growth k s * (t - s) := by
  rcases hst.eq_or_lt with rfl | hlt
  · simp
  obtain ⟨c, hc, he⟩ := exists_hasDerivAt_eq_slope (seenAt k) (growth k) hlt
    (fun x _ => (hasDerivAt_seenAt k x).continuousAt.continuousWithinAt) (fun x _ => hasDerivAt_seenAt k x)
  have hpos : 0 < t - s := by linarith
  rw [eq_div_iff hpos.ne'] at he
  rw [← he]
  exact ⟨mul_le_mul_of_nonneg_right (h.2 c t (hs.trans hc.1.le) hc.2.le ht).1 hpos.le,
    mul_le_mul_of_nonneg_right (h.2 s c hs hc.1.le (hc.2.le.trans ht)).1 hpos.le⟩

theorem norm2_ray {u : ℝ × ℝ} (hu : u.1 ^ 2 + u.2 ^ 2 = 1) {s : ℝ} (hs : 0 ≤ s) : norm2 (s * u.1, s * u.2) = s := by
  unfold norm2
  simp only
  rw [show s * u.1 * (s * u.1) + s * u.2 * (s * u.2) = s ^ 2 by linear_combination s ^ 2 * hu]
  exact Real.sqrt_sq hs

theorem distort_ray {u : ℝ × ℝ} (hu : u.1 ^ 2 + u.2 ^ 2 = 1) {s : ℝ} (hs : 1e-8 < s) :
    equidistantDistort k (s * u.1, s * u.2) = (seenAt k s * u.1, seenAt k s * u.2) := by
  have h0 : 0 < s := lt_trans (by norm_num) hs
  have h10 : ¬ s < 1e-10 := by
    intro h
    norm_num at h hs
    linarith
  have e : thetad k (Real.arctan s) = seenAt k s := by unfold thetad seenAt; ring
  unfold equidistantDistort
  simp only [norm2_ray hu h0.le, if_neg h10, if_pos hs, e]
  refine Prod.ext ?_ ?_ <;> simp only <;> field_simp

theorem jacobian_entries {u : ℝ × ℝ} (hu : u.1 ^ 2 + u.2 ^ 2 = 1) {s : ℝ} (hs : 1e-8 < s) :
    equidistantJacobian k (s * u.1, s * u.2) =
      ⟨seenAt k s / s + (growth k s - seenAt k s / s) * u.1 ^ 2, (growth k s - seenAt k s / s) * (u.1 * u.2),
        (growth k s - seenAt k s / s) * (u.1 * u.2), seenAt k s / s + (growth k s - seenAt k s / s) * u.2 ^ 2⟩ := by
  have h0 : 0 < s := lt_trans (by norm_num) hs
  have h10 : ¬ s < 1e-10 := by
    intro h
    norm_num at h hs
    linarith
  have e2 : s * u.1 * (s * u.1) + s * u.2 * (s * u.2) = s ^ 2 := by linear_combination s ^ 2 * hu
  have h1 : (s : ℝ) ^ 2 + 1 ≠ 0 := by positivity
  have h1' : (1 : ℝ) + s ^ 2 ≠ 0 := by positivity
  unfold equidistantJacobian
  simp only [norm2_ray hu h0.le, if_neg h10, e2]
  generalize ht : Real.arctan s = θ
  unfold growth seenAt
  rw [ht]
  congr 1 <;> field_simp <;> ring

/-- The matrix is regular, and along the ray it multiplies with the growth. -/
theorem jacobian_ray {u : ℝ × ℝ} (hu : u.1 ^ 2 + u.2 ^ 2 = 1) {s : ℝ} (hs : 1e-8 < s) :
    let F := equidistantJacobian k (s * u.1, s * u.2)
    F.a * F.d - F.b * F.c = growth k s * (seenAt k s / s) ∧
      ∀ c, F.a * (c * u.1) + F.b * (c * u.2) = growth k s * c * u.1 ∧
        F.c * (c * u.1) + F.d * (c * u.2) = growth k s * c * u.2 := by
  rw [jacobian_entries hu hs]
  generalize seenAt k s / s = P
  generalize growth k s = G
  simp only
  refine ⟨by linear_combination P * (G - P) * hu, fun c => ⟨?_, ?_⟩⟩
  · linear_combination (G - P) * c * u.1 * hu
  · linear_combination (G - P) * c * u.2 * hu

/-- A Newton step along the ray. -/
theorem step_ray {u : ℝ × ℝ} (hu : u.1 ^ 2 + u.2 ^ 2 = 1) {s e : ℝ} (hs : 1e-8 < s) (hg : 0 < growth k s)
    (hf : 0 < seenAt k s) :
    newtonStep (equidistantJacobian k (s * u.1, s * u.2)) (e * u.1, e * u.2) =
      some (e / growth k s * u.1, e / growth k s * u.2) := by
  have h0 : 0 < s := lt_trans (by norm_num) hs
  obtain ⟨hdet, hray⟩ := jacobian_ray (k := k) hu hs
  have hne : growth k s * (seenAt k s / s) ≠ 0 := by positivity
  cases hn : newtonStep (equidistantJacobian k (s * u.1, s * u.2)) (e * u.1, e * u.2) with
  | none =>
    have := (newtonStep_none _ _).1 hn
    rw [hdet] at this
    exact absurd this hne
  | some du =>
    obtain ⟨e1, e2⟩ := newtonStep_solves hn
    obtain ⟨r1, r2⟩ := hray (e / growth k s)
    rw [mul_div_cancel₀ _ hg.ne'] at r1 r2
    simp only at e1 e2
    rw [← hdet] at hne
    generalize equidistantJacobian k (s * u.1, s * u.2) = F at *
    have d1 : du.1 = e / growth k s * u.1 := by
      apply mul_left_cancel₀ hne
      linear_combination F.d * e1 - F.b * e2 - F.d * r1 + F.b * r2
    have d2 : du.2 = e / growth k s * u.2 := by
      apply mul_left_cancel₀ hne
      linear_combination F.a * e2 - F.c * e1 - F.a * r2 + F.c * r1
    rw [← d1, ← d2]

theorem ray_loop (h : SlowsDown k r L) (hr0 : 0 < r) {u : ℝ × ℝ} (hu : u.1 ^ 2 + u.2 ^ 2 = 1) (tol : ℝ) :
    ∀ (n : Nat) (s : ℝ), 1e-8 < s → s ≤ r →
      ∃ t, newtonLoop (equidistantDistort k) (equidistantJacobian k) tol (seenAt k r * u.1, seenAt k r * u.2) n
          (s * u.1, s * u.2) = some (t * u.1, t * u.2) ∧ s ≤ t ∧ t ≤ r ∧
        r - t ≤ L * max tol 0 / growth k r ^ 3 + (r - s) * (1 - growth k r) ^ n := by
  have hgr := h.1
  have hr : growth k r ≤ 1 := by rw [← growth_zero k]; exact (h.2 0 r le_rfl hr0.le le_rfl).1
  have hL : 0 ≤ L := by
    have h1 := h.2 0 r le_rfl hr0.le le_rfl
    by_contra hn
    have : L * (r - 0) < 0 := mul_neg_of_neg_of_pos (by linarith) (by linarith)
    linarith
  have hA : 0 ≤ L * max tol 0 / growth k r ^ 3 := by have := le_max_right tol 0; positivity
  intro n
  induction n with
  | zero =>
    intro s _ hsr
    exact ⟨s, rfl, le_rfl, hsr, by rw [pow_zero, mul_one]; linarith⟩
  | succ n ih =>
    intro s hs hsr
    have h0 : 0 < s := lt_trans (by norm_num) hs
    have hgs : growth k r ≤ growth k s := (h.2 s r h0.le hsr le_rfl).1
    have hgL : growth k s ≤ growth k r + L * (r - s) := (h.2 s r h0.le hsr le_rfl).2
    have hgs1 : growth k s ≤ 1 := by rw [← growth_zero k]; exact (h.2 0 s le_rfl h0.le hsr).1
    have hgp : 0 < growth k s := hgr.trans_le hgs
    have hf : 0 < seenAt k s := by
      have h1 := (between h le_rfl h0.le hsr).1
      rw [seenAt_zero, sub_zero, sub_zero] at h1
      exact (mul_pos hgp h0).trans_le h1
    obtain ⟨b1, b2⟩ := between h h0.le hsr le_rfl
    have hd : 0 ≤ r - s := by linarith
    have hstep := step_ray (k := k) hu (e := seenAt k r - seenAt k s) hs hgp hf
    set e := seenAt k r - seenAt k s with he
    have he0 : 0 ≤ e := (mul_nonneg hgr.le hd).trans b1
    have q1 : 0 ≤ e / growth k s := by positivity
    have q2 : e / growth k s ≤ r - s := by rw [div_le_iff₀ hgp]; linarith
    have q3 : growth k r / growth k s * (r - s) ≤ e / growth k s := by
      rw [div_mul_eq_mul_div]; exact div_le_div_of_nonneg_right b1 hgp.le
    have q4 : growth k r ≤ growth k r / growth k s := by
      rw [le_div_iff₀ hgp]; nlinarith
    have hdec : r - (s + e / growth k s) ≤ (r - s) * (1 - growth k r) := by
      have := mul_le_mul_of_nonneg_right q4 hd
      linarith
    have hquad : (r - (s + e / growth k s)) * growth k s ≤ L * (r - s) ^ 2 := by
      have h1 : (r - (s + e / growth k s)) * growth k s = (r - s) * growth k s - e := by field_simp; ring
      have h2 := mul_le_mul_of_nonneg_right hgL hd
      rw [h1]
      nlinarith
    have e1 : (seenAt k r * u.1 - seenAt k s * u.1, seenAt k r * u.2 - seenAt k s * u.2) = (e * u.1, e * u.2) := by
      rw [he, sub_mul, sub_mul]
    have e2 : ((s * u.1 + e / growth k s * u.1, s * u.2 + e / growth k s * u.2) : ℝ × ℝ) =
        ((s + e / growth k s) * u.1, (s + e / growth k s) * u.2) := by rw [add_mul, add_mul]
    have e3 : (seenAt k r * u.1 - seenAt k s * u.1) * (seenAt k r * u.1 - seenAt k s * u.1) +
        (seenAt k r * u.2 - seenAt k s * u.2) * (seenAt k r * u.2 - seenAt k s * u.2) = e ^ 2 := by
      rw [he]; linear_combination (seenAt k r - seenAt k s) ^ 2 * hu
    unfold newtonLoop
    simp only [distort_ray hu hs, e1, hstep, e2]
    rw [e3]
    by_cases ht : e ^ 2 ≤ tol
    · rw [if_pos ht]
      refine ⟨_, rfl, by linarith, by linarith, ?_⟩
      have h2 : 0 ≤ (r - s) * (1 - growth k r) ^ (n + 1) := mul_nonneg hd (pow_nonneg (by linarith) _)
      have h3 : r - (s + e / growth k s) ≤ L * max tol 0 / growth k r ^ 3 := by
        rw [le_div_iff₀ (by positivity)]
        have a1 : (growth k r * (r - s)) ^ 2 ≤ max tol 0 :=
          ((pow_le_pow_left₀ (mul_nonneg hgr.le hd) b1 2).trans ht).trans (le_max_left _ _)
        have a2 := mul_le_mul_of_nonneg_left a1 hL
        have a3 : 0 ≤ r - (s + e / growth k s) := by linarith
        have a4 : (r - (s + e / growth k s)) * growth k r ≤ (r - (s + e / growth k s)) * growth k s :=
          mul_le_mul_of_nonneg_left hgs a3
        have a5 := mul_le_mul_of_nonneg_right (a4.trans hquad) (sq_nonneg (growth k r))
        calc (r - (s + e / growth k s)) * growth k r ^ 3 =
              (r - (s + e / growth k s)) * growth k r * growth k r ^ 2 := by ring
          _ ≤ L * (r - s) ^ 2 * growth k r ^ 2 := a5
          _ = L * (growth k r * (r - s)) ^ 2 := by ring
          _ ≤ _ := a2
      linarith
    · rw [if_neg ht]
      obtain ⟨t, t1, t2, t3, t4⟩ := ih (s + e / growth k s) (by linarith) (by linarith)
      refine ⟨t, t1, by linarith, t3, t4.trans ?_⟩
      have h2 : 0 ≤ (1 - growth k r) ^ n := pow_nonneg (by linarith) _
      have h3 := mul_le_mul_of_nonneg_right hdec h2
      have h4 : (r - s) * (1 - growth k r) * (1 - growth k r) ^ n = (r - s) * (1 - growth k r) ^ (n + 1) := by
        rw [pow_succ]; ring
      linarith

theorem arctan_diff {s t : ℝ} (h0 : 0 ≤ s) (h : s ≤ t) :
    0 ≤ Real.arctan s ∧ Real.arctan s ≤ Real.arctan t ∧ Real.arctan t - Real.arctan s ≤ t - s := by
  refine ⟨Real.arctan_nonneg.2 h0, Real.arctan_strictMono.monotone h, ?_⟩
  rcases h.eq_or_lt with rfl | hlt
  · simp
  obtain ⟨c, hc, he⟩ := exists_hasDerivAt_eq_slope Real.arctan (fun x => 1 / (1 + x ^ 2)) hlt
    (fun x _ => (Real.hasDerivAt_arctan x).continuousAt.continuousWithinAt) (fun x _ => Real.hasDerivAt_arctan x)
  have hpos : 0 < t - s := by linarith
  rw [eq_div_iff hpos.ne'] at he
  have : 1 / (1 + c ^ 2) ≤ 1 := by rw [div_le_one (by positivity)]; nlinarith [sq_nonneg c]
  nlinarith

theorem pow_diff {a b A : ℝ} (ha : 0 ≤ a) (hab : a ≤ b) (hb : b ≤ A) :
    ∀ n : Nat, a ^ n ≤ b ^ n ∧ b ^ (n + 1) - a ^ (n + 1) ≤ (n + 1) * A ^ n * (b - a) := by
  have hA : 0 ≤ A := ha.trans (hab.trans hb)
  intro n
  refine ⟨pow_le_pow_left₀ ha hab n, ?_⟩
  induction n with
  | zero => simp
  | succ n ih =>
    have e : b ^ (n + 1 + 1) - a ^ (n + 1 + 1) = b * (b ^ (n + 1) - a ^ (n + 1)) + a ^ (n + 1) * (b - a) := by ring
    have h0 : 0 ≤ (n + 1) * A ^ n * (b - a) := mul_nonneg (by positivity) (by linarith)
    have h1 : b * (b ^ (n + 1) - a ^ (n + 1)) ≤ A * ((n + 1) * A ^ n * (b - a)) :=
      (mul_le_mul_of_nonneg_left ih (ha.trans hab)).trans (mul_le_mul_of_nonneg_right hb h0)
    have h2 : a ^ (n + 1) * (b - a) ≤ A ^ (n + 1) * (b - a) :=
      mul_le_mul_of_nonneg_right (pow_le_pow_left₀ ha (hab.trans hb) _) (by linarith)
    rw [e]
    push_cast
    calc _ ≤ A * ((n + 1) * A ^ n * (b - a)) + A ^ (n + 1) * (b - a) := add_le_add h1 h2
      _ = _ := by ring

theorem mix {m n h g x d : ℝ} (h1 : n ≤ m) (h2 : 0 < n) (h3 : m ≤ 1) (h4 : m - n ≤ x) (h5 : 0 ≤ x) (h6 : g ≤ h)
    (h7 : h ≤ g + 1 * d) (h8 : g ≤ 1) (h9 : 0 ≤ g) (h10 : 0 ≤ d) : n * g ≤ m * h ∧ m * h ≤ n * g + (d + x) := by
  refine ⟨mul_le_mul h1 h6 h9 (h2.le.trans h1), ?_⟩
  have a1 := mul_le_mul_of_nonneg_left h7 (h2.le.trans h1)
  have a2 := mul_le_mul_of_nonneg_right h3 h10
  have a3 := mul_le_mul_of_nonneg_right h4 h9
  have a4 := mul_le_mul_of_nonneg_left h8 h5
  nlinarith

end Converge

open Converge

/-- C139 for the equidistant model: if the growth slows down up to the point, undistorting a distorted point that is not
in the special region at the centre ends with a point on the same ray, not farther out than the point, at a distance
from it that is bounded by a multiple of the tolerance and what is left of the distance after 30 rounds. -/
theorem equidistant_undistort_distort {k : Fin 4 → ℝ} {p : ℝ × ℝ} {L : ℝ} (tol : ℝ) (h : SlowsDown k (distance p (0, 0)) L)
    (hp : 1e-6 ≤ (equidistantDistort k p).1 ^ 2 + (equidistantDistort k p).2 ^ 2) :
    ∃ q, equidistantUndistort tol k (equidistantDistort k p) = some q ∧
      (∃ c, 0 ≤ c ∧ c ≤ 1 ∧ q = (c * p.1, c * p.2)) ∧
      distance q p ≤ L * max tol 0 / growth k (distance p (0, 0)) ^ 3 +
        distance p (0, 0) * (1 - growth k (distance p (0, 0))) ^ 30 := by
  have hrn : distance p (0, 0) = norm2 p := by unfold distance norm2; simp only [sub_zero, pow_two]
  rw [hrn] at h ⊢
  set r := norm2 p with hrdef
  have hr0 : 0 ≤ r := Real.sqrt_nonneg _
  have hsq : p.1 ^ 2 + p.2 ^ 2 = r ^ 2 := by
    rw [hrdef]; unfold norm2; rw [Real.sq_sqrt (by nlinarith [sq_nonneg p.1, sq_nonneg p.2])]; ring
  have hr8 : 1e-8 < r := by
    by_contra hn
    have hle : r ≤ 1e-8 := not_lt.1 hn
    have hq : equidistantDistort k p = p := by
      unfold equidistantDistort
      simp only [← hrdef]
      split
      · rfl
      · simp
    rw [hq, hsq] at hp
    have := pow_le_pow_left₀ hr0 hle 2
    norm_num at this hp
    linarith
  have hrp : 0 < r := lt_trans (by norm_num) hr8
  have hu : (p.1 / r) ^ 2 + (p.2 / r) ^ 2 = 1 := by
    rw [div_pow, div_pow, ← add_div, hsq, div_self (by positivity)]
  have hpr : p = (r * (p.1 / r), r * (p.2 / r)) := by
    rw [mul_div_cancel₀ _ hrp.ne', mul_div_cancel₀ _ hrp.ne']
  have hdis : equidistantDistort k p = (seenAt k r * (p.1 / r), seenAt k r * (p.2 / r)) := by
    conv_lhs => rw [hpr]
    exact distort_ray (u := (p.1 / r, p.2 / r)) hu hr8
  obtain ⟨b1, b2⟩ := between h le_rfl hr0 le_rfl
  rw [seenAt_zero, growth_zero, sub_zero, sub_zero, one_mul] at b2
  rw [seenAt_zero, sub_zero, sub_zero] at b1
  have hf0 : 0 ≤ seenAt k r := (mul_nonneg h.1.le hr0).trans b1
  have hseen : seenAt k r ^ 2 = (equidistantDistort k p).1 ^ 2 + (equidistantDistort k p).2 ^ 2 := by
    rw [hdis]; simp only; linear_combination -(seenAt k r ^ 2) * hu
  have hs8 : 1e-8 < seenAt k r := by
    by_contra hn
    have := pow_le_pow_left₀ hf0 (not_lt.1 hn) 2
    rw [hseen] at this
    have := hp.trans this
    norm_num at this
  obtain ⟨t, t1, t2, t3, t4⟩ := ray_loop h hrp (u := (p.1 / r, p.2 / r)) hu tol 30 (seenAt k r) hs8 b2
  refine ⟨(t * (p.1 / r), t * (p.2 / r)), ?_, ⟨t / r, div_nonneg (by linarith) hr0, ?_, ?_⟩, ?_⟩
  · unfold equidistantUndistort
    rw [if_neg (by
      rw [not_lt]
      calc (1e-6 : ℝ) ≤ _ := hp
        _ = _ := by ring)]
    rw [hdis]
    exact t1
  · rw [div_le_one hrp]; exact t3
  · refine Prod.ext ?_ ?_ <;> simp only <;> ring
  · have hdist : distance (t * (p.1 / r), t * (p.2 / r)) p = r - t := by
      unfold distance
      simp only
      rw [show (t * (p.1 / r) - p.1) ^ 2 + (t * (p.2 / r) - p.2) ^ 2 = (r - t) ^ 2 by
        have e1 : t * (p.1 / r) - p.1 = (t - r) * (p.1 / r) := by field_simp
        have e2 : t * (p.2 / r) - p.2 = (t - r) * (p.2 / r) := by field_simp
        rw [e1, e2]
        linear_combination (t - r) ^ 2 * hu]
      exact Real.sqrt_sq (by linarith)
    rw [hdist]
    refine t4.trans ?_
    have hg1 : growth k r ≤ 1 := by rw [← growth_zero k]; exact (h.2 0 r le_rfl hr0 le_rfl).1
    have : (r - seenAt k r) * (1 - growth k r) ^ 30 ≤ r * (1 - growth k r) ^ 30 :=
      mul_le_mul_of_nonneg_right (by linarith) (pow_nonneg (by linarith) _)
    linarith

/-- C139: without coefficients the growth slows down at every distance. -/
theorem slowsDown_zero {r : ℝ} : SlowsDown 0 r 1 := by
  have hg : ∀ s, growth 0 s = 1 / (1 + s ^ 2) := fun s => by simp [growth]
  refine ⟨by rw [hg]; positivity, fun s t hs hst _ => ?_⟩
  rw [hg, hg]
  have hs2 : (0 : ℝ) < 1 + s ^ 2 := by positivity
  have ht2 : (0 : ℝ) < 1 + t ^ 2 := by positivity
  refine ⟨one_div_le_one_div_of_le hs2 (by nlinarith), ?_⟩
  have e : 1 / (1 + s ^ 2) - 1 / (1 + t ^ 2) = (t - s) * ((t + s) / ((1 + s ^ 2) * (1 + t ^ 2))) := by
    field_simp; ring
  have : (t + s) / ((1 + s ^ 2) * (1 + t ^ 2)) ≤ 1 := by
    rw [div_le_one (by positivity)]
    nlinarith [sq_nonneg (t - 1), sq_nonneg (s - 1), mul_nonneg (sq_nonneg s) (sq_nonneg t)]
  nlinarith

/-- C139: with barrel distortion (no positive coefficient) the growth slows down at every distance at which it is
positive. -/
theorem slowsDown_barrel {k : Fin 4 → ℝ} {r : ℝ} (hk : ∀ i, k i ≤ 0) (hr : 0 ≤ r) (hg : 0 < growth k r) :
    SlowsDown k r (1 - (6 * k 0 * Real.arctan r + 20 * k 1 * Real.arctan r ^ 3 + 42 * k 2 * Real.arctan r ^ 5 +
      72 * k 3 * Real.arctan r ^ 7)) := by
  set A := Real.arctan r with hA
  have hN : ∀ s, growth k s = (1 + 3 * k 0 * Real.arctan s ^ 2 + 5 * k 1 * Real.arctan s ^ 4 +
      7 * k 2 * Real.arctan s ^ 6 + 9 * k 3 * Real.arctan s ^ 8) * (1 / (1 + s ^ 2)) := fun s => by
    unfold growth; rw [mul_one_div]
  have hh : ∀ s, growth 0 s = 1 / (1 + s ^ 2) := fun s => by simp [growth]
  refine ⟨hg, fun s t hs hst htr => ?_⟩
  obtain ⟨a1, a2, a3⟩ := arctan_diff hs hst
  obtain ⟨-, a4, -⟩ := arctan_diff (hs.trans hst) htr
  have k0 := hk 0; have k1 := hk 1; have k2 := hk 2; have k3 := hk 3
  -- the differences of the numerator
  have hnum : ∀ {a b : ℝ}, 0 ≤ a → a ≤ b → b ≤ A →
      (1 + 3 * k 0 * b ^ 2 + 5 * k 1 * b ^ 4 + 7 * k 2 * b ^ 6 + 9 * k 3 * b ^ 8) ≤
        (1 + 3 * k 0 * a ^ 2 + 5 * k 1 * a ^ 4 + 7 * k 2 * a ^ 6 + 9 * k 3 * a ^ 8) ∧
      (1 + 3 * k 0 * a ^ 2 + 5 * k 1 * a ^ 4 + 7 * k 2 * a ^ 6 + 9 * k 3 * a ^ 8) -
        (1 + 3 * k 0 * b ^ 2 + 5 * k 1 * b ^ 4 + 7 * k 2 * b ^ 6 + 9 * k 3 * b ^ 8) ≤
        -(6 * k 0 * A + 20 * k 1 * A ^ 3 + 42 * k 2 * A ^ 5 + 72 * k 3 * A ^ 7) * (b - a) := by
    intro a b ha hab hb
    have p2 := pow_diff ha hab hb 2; have p4 := pow_diff ha hab hb 4
    have p6 := pow_diff ha hab hb 6; have p8 := pow_diff ha hab hb 8
    have d2 := (pow_diff ha hab hb 1).2; have d4 := (pow_diff ha hab hb 3).2
    have d6 := (pow_diff ha hab hb 5).2; have d8 := (pow_diff ha hab hb 7).2
    norm_num at d2 d4 d6 d8
    constructor
    · have := mul_le_mul_of_nonpos_left p2.1 k0
      have := mul_le_mul_of_nonpos_left p4.1 k1
      have := mul_le_mul_of_nonpos_left p6.1 k2
      have := mul_le_mul_of_nonpos_left p8.1 k3
      linarith
    · have := mul_le_mul_of_nonpos_left d2 k0
      have := mul_le_mul_of_nonpos_left d4 k1
      have := mul_le_mul_of_nonpos_left d6 k2
      have := mul_le_mul_of_nonpos_left d8 k3
      linarith
  obtain ⟨n1, n2⟩ := hnum a1 a2 a4
  obtain ⟨n3, -⟩ := hnum (a1.trans a2) a4 le_rfl
  obtain ⟨n4, -⟩ := hnum le_rfl a1 (a2.trans a4)
  have hNr : 0 < 1 + 3 * k 0 * A ^ 2 + 5 * k 1 * A ^ 4 + 7 * k 2 * A ^ 6 + 9 * k 3 * A ^ 8 := by
    rw [hN] at hg
    exact pos_of_mul_pos_left hg (by positivity)
  norm_num at n4
  obtain ⟨-, hz⟩ := slowsDown_zero (r := r)
  obtain ⟨z1, z2⟩ := hz s t hs hst htr
  rw [hh, hh] at z1 z2
  rw [hN, hN]
  have hM : 0 ≤ -(6 * k 0 * A + 20 * k 1 * A ^ 3 + 42 * k 2 * A ^ 5 + 72 * k 3 * A ^ 7) := by
    have hA0 : 0 ≤ A := Real.arctan_nonneg.2 hr
    have := mul_nonpos_of_nonpos_of_nonneg k0 hA0
    have := mul_nonpos_of_nonpos_of_nonneg k1 (pow_nonneg hA0 3)
    have := mul_nonpos_of_nonpos_of_nonneg k2 (pow_nonneg hA0 5)
    have := mul_nonpos_of_nonpos_of_nonneg k3 (pow_nonneg hA0 7)
    linarith
  have n5 := n2.trans (mul_le_mul_of_nonneg_left a3 hM)
  have hts : 0 ≤ t - s := by linarith
  have ht1 : 1 / (1 + t ^ 2) ≤ 1 := by rw [div_le_one (by positivity)]; nlinarith [sq_nonneg t]
  have ht0 : 0 < 1 / (1 + t ^ 2) := by positivity
  have hs0 : 0 < 1 / (1 + s ^ 2) := by positivity
  have hfin := mix n1 (hNr.trans_le n3) n4 n5 (mul_nonneg hM hts) z1 z2 ht1 ht0.le hts
  refine ⟨hfin.1, hfin.2.trans (le_of_eq ?_)⟩
  ring

/-- For example with all coefficients -0.01, up to 45 degrees. -/
example : ∃ L, SlowsDown (fun _ => -(1 / 100)) 1 L := by
  refine ⟨_, slowsDown_barrel (fun _ => by norm_num) (by norm_num) ?_⟩
  unfold growth
  rw [Real.arctan_one]
  have h0 : 0 ≤ Real.pi / 4 := by have := Real.pi_pos; positivity
  have h1 : Real.pi / 4 ≤ 1 := by have := Real.pi_lt_four; linarith
  have a2 := pow_le_one₀ (n := 2) h0 h1
  have a4 := pow_le_one₀ (n := 4) h0 h1
  have a6 := pow_le_one₀ (n := 6) h0 h1
  have a8 := pow_le_one₀ (n := 8) h0 h1
  apply div_pos _ (by norm_num)
  linarith

/-- For example at 45 degrees. -/
example : ∃ q, equidistantUndistort 1e-8 0 (equidistantDistort 0 (1, 0)) = some q ∧ distance q (1, 0) ≤ 1e-7 := by
  have hd : distance (1, 0) (0, 0) = 1 := by unfold distance; simp
  have hn : norm2 ((1 : ℝ), 0) = 1 := by unfold norm2; simp
  have hpi := Real.pi_gt_three
  obtain ⟨q, h1, -, h2⟩ := equidistant_undistort_distort (k := 0) (p := (1, 0)) (L := 1) 1e-8 slowsDown_zero (by
    have e : equidistantDistort 0 (1, 0) = (Real.pi / 4, 0) := by
      unfold equidistantDistort thetad
      simp only [hn]
      norm_num
    rw [e]
    simp only
    nlinarith)
  refine ⟨q, h1, h2.trans ?_⟩
  rw [hd, max_eq_left (by norm_num)]
  have hg : growth 0 1 = 1 / 2 := by simp [growth]; norm_num
  rw [hg]
  norm_num

end Verif.Distortion
