import Verif.Camera.Jets
import Verif.Camera.Props
import Mathlib.Analysis.Calculus.FDeriv.Pi
import Mathlib.Analysis.Calculus.Deriv.Comp
import Mathlib.Analysis.Calculus.Deriv.Prod

/-!
# Properties of the projection with automatic differentiation (C133)
-/

namespace Verif.Camera.Jets

open Verif (Outcome)
open Verif.Camera (Box Status)
open Scalar

/-! ## Specification -/

/-- The linear form with given coefficients. -/
noncomputable def lin {N : Nat} (v : Fin N → ℝ) : (Fin N → ℝ) →L[ℝ] ℝ := ∑ i, v i • ContinuousLinearMap.proj i

/-- The jet stands for the function at the point: it has its value and its (Fréchet) derivative. -/
def StandsFor {N : Nat} (j : Jet N) (f : (Fin N → ℝ) → ℝ) (x : Fin N → ℝ) : Prop :=
  j.a = f x ∧ ∃ v, j.v = some v ∧ HasFDerivAt f (lin v) x

/-! ## Arithmetic of jets -/

theorem lin_apply {N : Nat} (v y : Fin N → ℝ) : lin v y = ∑ i, v i * y i := by
  simp [lin]

theorem lin_add {N : Nat} (v w : Fin N → ℝ) : lin (v + w) = lin v + lin w := by
  unfold lin
  rw [← Finset.sum_add_distrib]
  exact Finset.sum_congr rfl fun i _ => by rw [Pi.add_apply, add_smul]

theorem lin_smul {N : Nat} (c : ℝ) (v : Fin N → ℝ) : lin (c • v) = c • lin v := by
  unfold lin
  rw [Finset.smul_sum]
  exact Finset.sum_congr rfl fun i _ => by rw [Pi.smul_apply, smul_eq_mul, mul_smul]

theorem lin_zero {N : Nat} : lin (0 : Fin N → ℝ) = 0 := by
  unfold lin
  simp

theorem lin_neg {N : Nat} (v : Fin N → ℝ) : lin (-v) = -lin v := by
  ext y
  simp [lin_apply, Finset.sum_neg_distrib]

theorem lin_sub {N : Nat} (v w : Fin N → ℝ) : lin (v - w) = lin v - lin w := by
  rw [sub_eq_add_neg, lin_add, lin_neg, sub_eq_add_neg]

theorem lin_inj {N : Nat} {v w : Fin N → ℝ} (h : lin v = lin w) : v = w := by
  funext i
  have := congrArg (fun L => L (Pi.single i 1)) h
  simpa [lin_apply, Pi.single_apply] using this

section
variable {N : Nat} {j k : Jet N} {f g : (Fin N → ℝ) → ℝ} {x : Fin N → ℝ}

theorem StandsFor.continuousAt (h : StandsFor j f x) : ContinuousAt f x := by
  obtain ⟨_, v, _, hd⟩ := h
  exact hd.continuousAt

theorem StandsFor.const (c : ℝ) (x : Fin N → ℝ) : StandsFor (Jet.const c) (fun _ => c) x :=
  ⟨rfl, 0, rfl, by rw [lin_zero]; exact hasFDerivAt_const c x⟩

theorem StandsFor.add (hj : StandsFor j f x) (hk : StandsFor k g x) : StandsFor (j.add k) (fun y => f y + g y) x := by
  obtain ⟨ha, v, hv, hd⟩ := hj
  obtain ⟨hb, w, hw, he⟩ := hk
  refine ⟨by simp only [Jet.add, ha, hb], v + w, by simp [Jet.add, hv, hw], ?_⟩
  rw [lin_add]
  exact hd.add he

theorem StandsFor.mul (hj : StandsFor j f x) (hk : StandsFor k g x) : StandsFor (j.mul k) (fun y => f y * g y) x := by
  obtain ⟨ha, v, hv, hd⟩ := hj
  obtain ⟨hb, w, hw, he⟩ := hk
  refine ⟨by simp only [Jet.mul, ha, hb], j.a • w + k.a • v, by simp [Jet.mul, hv, hw], ?_⟩
  rw [lin_add, lin_smul, lin_smul, ha, hb]
  exact hd.mul he

/-- Functions of one variable. -/
theorem StandsFor.comp {φ : ℝ → ℝ} {d : ℝ} (hj : StandsFor j f x) (hφ : HasDerivAt φ d (f x)) (v : Fin N → ℝ)
    (hv : j.v = some v) : HasFDerivAt (fun y => φ (f y)) (lin (d • v)) x := by
  obtain ⟨_, w, hw, hd⟩ := hj
  rw [hv] at hw
  cases hw
  rw [lin_smul]
  exact hφ.comp_hasFDerivAt x hd

theorem StandsFor.div (hj : StandsFor j f x) (hk : StandsFor k g x) (h0 : g x ≠ 0) :
    StandsFor (j.div k) (fun y => f y / g y) x := by
  obtain ⟨ha, v, hv, hd⟩ := hj
  have hk' := hk
  obtain ⟨hb, w, hw, he⟩ := hk
  have hb0 : k.a ≠ 0 := by rw [hb]; exact h0
  refine ⟨by simp only [Jet.div, ha, hb], (1 / k.a) • (v - (j.a / k.a) • w), by simp [Jet.div, hv, hw, hb0], ?_⟩
  have hi := hk'.comp (hasDerivAt_inv h0) w hw
  have := hd.mul hi
  refine (this.congr_fderiv ?_).congr_of_eventuallyEq (Filter.Eventually.of_forall fun y => div_eq_mul_inv _ _)
  rw [lin_smul, lin_smul, lin_sub, lin_smul, ha, hb]
  ext y
  simp
  field_simp
  ring

theorem StandsFor.sqrt (hj : StandsFor j f x) (h0 : f x ≠ 0) : StandsFor j.sqrt (fun y => Real.sqrt (f y)) x := by
  have hj' := hj
  obtain ⟨ha, v, hv, hd⟩ := hj
  have ha0 : j.a ≠ 0 := by rw [ha]; exact h0
  refine ⟨by simp only [Jet.sqrt, ha], (1 / (2 * Real.sqrt j.a)) • v, by simp [Jet.sqrt, hv, ha0], ?_⟩
  rw [ha]
  exact hj'.comp (Real.hasDerivAt_sqrt h0) v hv

theorem StandsFor.tan (hj : StandsFor j f x) (h0 : Real.cos (f x) ≠ 0) : StandsFor j.tan (fun y => Real.tan (f y)) x := by
  have hj' := hj
  obtain ⟨ha, v, hv, hd⟩ := hj
  refine ⟨by simp only [Jet.tan, ha], (1 + Real.tan j.a * Real.tan j.a) • v, by simp [Jet.tan, hv], ?_⟩
  have e : 1 + Real.tan j.a * Real.tan j.a = 1 / Real.cos (f x) ^ 2 := by
    rw [ha, Real.tan_eq_sin_div_cos]
    have := Real.sin_sq_add_cos_sq (f x)
    field_simp
    linarith
  rw [e]
  exact hj'.comp (Real.hasDerivAt_tan h0) v hv

theorem StandsFor.atan (hj : StandsFor j f x) : StandsFor j.atan (fun y => Real.arctan (f y)) x := by
  have hj' := hj
  obtain ⟨ha, v, hv, hd⟩ := hj
  refine ⟨by simp only [Jet.atan, ha], (1 / (1 + j.a * j.a)) • v, by simp [Jet.atan, hv], ?_⟩
  rw [ha, ← pow_two]
  exact hj'.comp (Real.hasDerivAt_arctan (f x)) v hv

theorem StandsFor.congr (hj : StandsFor j f x) (h : g =ᶠ[nhds x] f) : StandsFor j g x := by
  obtain ⟨ha, v, hv, hd⟩ := hj
  exact ⟨by rw [ha, h.self_of_nhds], v, hv, hd.congr_of_eventuallyEq h⟩

end

/-! ## The template with `double` -/

theorem norm_real (p : ℝ × ℝ) : norm p = Distortion.norm2 p := rfl

theorem factor_real (w r : ℝ) : fisheyeFactor w r = Distortion.fisheyeScale w r := by
  unfold fisheyeFactor Distortion.fisheyeScale
  simp only [Scalar.value, Scalar.mul, Scalar.div, Scalar.ofReal, Scalar.tan, Scalar.atan]
  rw [mul_comm r (2 * Real.tan (w / 2))]

theorem fisheye_real (w : ℝ) (p : ℝ × ℝ) : fisheyeDistort [w] p = .ok (Distortion.fisheyeDistort (fun _ => w) p) := by
  unfold fisheyeDistort Distortion.fisheyeDistort
  simp only [factor_real, norm_real]
  rfl

theorem evaluate_real (b : Box) (k : ℝ × ℝ) (z : ℝ) : evaluate b k z = pinholeEvaluate b k z := rfl

/-- **With `double` the template and the virtual function agree**, for cameras with a fisheye distortion: same status
and same keypoint for all intrinsics, coefficients and points. -/
theorem fisheye_double (b : Box) (I : Fin 4 → ℝ) (w : ℝ) (p : V3) :
    project (some .fisheye) .fisheye b [I 0, I 1, I 2, I 3] [w] p =
      .ok ((pinholeProject Distortion.fisheye b I (fun _ => w) p).status,
        (pinholeProject Distortion.fisheye b I (fun _ => w) p).keypoint) := by
  unfold project pinholeProject
  simp only [distort, fisheye_real, if_true, Outcome.bind_ok]
  by_cases h : p.2.2 = 0
  · have h' : value p.2.2 = 0 := h
    rw [if_pos h, if_pos h']
  · have h' : ¬ value p.2.2 = 0 := h
    rw [if_neg h, if_neg h']
    rfl

/-- The same for cameras without distortion; any coefficients are accepted and ignored. -/
theorem null_double (b : Box) (I : Fin 4 → ℝ) (cs : List ℝ) (c : Fin 0 → ℝ) (p : V3) :
    project (some .null) .null b [I 0, I 1, I 2, I 3] cs p =
      .ok ((pinholeProject Distortion.null b I c p).status, (pinholeProject Distortion.null b I c p).keypoint) := by
  unfold project pinholeProject
  simp only [distort, if_true, Outcome.bind_ok]
  by_cases h : p.2.2 = 0
  · have h' : value p.2.2 = 0 := h
    rw [if_pos h, if_pos h']
  · have h' : ¬ value p.2.2 = 0 := h
    rw [if_neg h, if_neg h']
    rfl

/-! ## Sizes and types -/

/-- When the call ends normally, aborts and is undefined, for every type of scalars. -/
theorem project_outcome {α : Type} [Scalar α] (own : Option Kind) (named : Kind) (b : Box) (I C : List α) (p : α × α × α) :
    (project own named b I C p = .abort ↔ I.length ≠ 4 ∨ (own = some .fisheye ∧ named = .fisheye ∧ C.length ≠ 1)) ∧
    (project own named b I C p = .ub ↔ I.length = 4 ∧ own ≠ some named) ∧
    ((∃ r, project own named b I C p = .ok r) ↔ I.length = 4 ∧ own = some named ∧ (named = .fisheye → C.length = 1)) := by
  rcases I with _ | ⟨fu, _ | ⟨fv, _ | ⟨cu, _ | ⟨cv, _ | ⟨e, I⟩⟩⟩⟩⟩
  · simp [project]
  · simp [project]
  · simp [project]
  · simp [project]
  · by_cases h : own = some named
    · subst h
      unfold project
      simp only [if_true]
      cases named
      · simp only [distort, Outcome.bind_ok]
        split <;> simp
      · rcases C with _ | ⟨w, _ | ⟨w', C⟩⟩
        · simp [distort, fisheyeDistort]
        · simp only [distort, fisheyeDistort, Outcome.bind_ok]
          split <;> simp
        · simp [distort, fisheyeDistort]
    · have e : project own named b [fu, fv, cu, cv] C p = .ub := by
        unfold project
        simp only [if_neg h]
      rw [e]
      refine ⟨⟨fun e => by simp at e, ?_⟩, ⟨fun _ => ⟨rfl, h⟩, fun _ => rfl⟩, ?_⟩
      · rintro (h4 | ⟨h1, h2, _⟩)
        · exact absurd rfl h4
        · exact absurd (by rw [h1, h2]) h
      · constructor
        · rintro ⟨r, hr⟩
          simp at hr
        · exact fun ⟨_, h2, _⟩ => absurd h2 h
  · simp [project]

/-! ## Jets have the values of `double` -/

section
variable {N : Nat}

theorem norm_value (p : Jet N × Jet N) : (norm p).a = norm (p.1.a, p.2.a) := rfl

theorem factor_value (w r : Jet N) : (fisheyeFactor w r).a = fisheyeFactor w.a r.a := by
  unfold fisheyeFactor
  have h1 : (value (mul w w) < 1e-5) = (value (mul w.a w.a) < 1e-5) := rfl
  have h2 : (value (mul r r) < value (ofReal (α := Jet N) 1e-5)) = (value (mul r.a r.a) < value (ofReal (α := ℝ) 1e-5)) := rfl
  simp only [h1, h2]
  split
  · rfl
  · split <;> rfl

/-- **Jets carry the values that `double` gives**: status and keypoint, and the same outcome if there is none. -/
theorem jets_value (own : Option Kind) (named : Kind) (b : Box) (I C : List (Jet N)) (p : Jet N × Jet N × Jet N) :
    (do
      let r ← project own named b I C p
      pure (r.1, r.2.map fun k => (k.1.a, k.2.a))) =
      project own named b (I.map Jet.a) (C.map Jet.a) (p.1.a, p.2.1.a, p.2.2.a) := by
  rcases I with _ | ⟨fu, _ | ⟨fv, _ | ⟨cu, _ | ⟨cv, _ | ⟨e, I⟩⟩⟩⟩⟩
  · rfl
  · rfl
  · rfl
  · rfl
  · unfold project
    simp only [List.map_cons, List.map_nil]
    by_cases h : own = some named
    · rw [if_pos h, if_pos h]
      have hz : (value p.2.2 = 0) = (value p.2.2.a = 0) := rfl
      cases named
      · simp only [distort, Outcome.bind_ok, hz]
        split <;> rfl
      · rcases C with _ | ⟨w, _ | ⟨w', C⟩⟩
        · rfl
        · simp only [distort, fisheyeDistort, Outcome.bind_ok, List.map_cons, List.map_nil, hz]
          split
          · rfl
          · simp only [Outcome.bind_ok, Outcome.pure_eq, Option.map_some]
            have hf := factor_value w (norm (mul p.1 (div (ofReal 1) p.2.2), mul p.2.1 (div (ofReal 1) p.2.2)))
            rw [norm_value] at hf
            have e1 : ∀ a b c : Jet N, (add (mul a b) c).a = add (mul a.a b.a) c.a := fun _ _ _ => rfl
            have e2 : ∀ a b : Jet N, (mul a b).a = mul a.a b.a := fun _ _ => rfl
            have e3 : ∀ z : Jet N, (div (ofReal 1) z).a = div (ofReal 1) z.a := fun _ => rfl
            simp only [e2, e3] at hf
            have ev : ∀ (k : Jet N × Jet N) (z : Jet N), evaluate b k z = evaluate b (k.1.a, k.2.a) z.a := fun _ _ => rfl
            rw [ev]
            simp only [e1, e2, e3, hf]
        · rfl
    · rw [if_neg h, if_neg h]
      rfl
  · rfl

/-! ## Jets have the derivatives -/

variable {x : Fin N → ℝ}

theorem near_lt {f : (Fin N → ℝ) → ℝ} (h : ContinuousAt f x) {c : ℝ} (hc : f x < c) : ∀ᶠ y in nhds x, f y < c :=
  h.eventually_lt continuousAt_const hc

theorem near_gt {f : (Fin N → ℝ) → ℝ} (h : ContinuousAt f x) {c : ℝ} (hc : c < f x) : ∀ᶠ y in nhds x, c < f y :=
  continuousAt_const.eventually_lt h hc

/-- The factor of the fisheye distortion, if the jet of the radius need not have a derivative at the centre. -/
theorem factor_stands {jw jx jy : Jet N} {w u v : (Fin N → ℝ) → ℝ} (hw : StandsFor jw w x) (hu : StandsFor jx u x)
    (hv : StandsFor jy v x) (h1 : w x * w x ≠ 1e-5)
    (h2 : w x * w x < 1e-5 ∨ (Real.cos (w x / 2) ≠ 0 ∧ u x * u x + v x * v x ≠ 1e-5)) :
    StandsFor (fisheyeFactor jw (norm (jx, jy))) (fun y => Distortion.fisheyeScale (w y) (Distortion.norm2 (u y, v y))) x := by
  have cw : ContinuousAt (fun y => w y * w y) x := hw.continuousAt.mul hw.continuousAt
  have hww : (value (mul jw jw) < 1e-5) = (w x * w x < 1e-5) := by
    show (jw.a * jw.a < 1e-5) = _
    rw [hw.1]
  by_cases hs : w x * w x < 1e-5
  · have e : fisheyeFactor jw (norm (jx, jy)) = Jet.const 1 := by
      unfold fisheyeFactor
      rw [if_pos (by rw [hww]; exact hs)]
      rfl
    rw [e]
    refine (StandsFor.const 1 x).congr ?_
    filter_upwards [near_lt cw hs] with y hy
    unfold Distortion.fisheyeScale
    simp only [if_pos hy]
  · rcases h2 with h2 | ⟨hcos, hr⟩
    · exact absurd h2 hs
    have hgt : 1e-5 < w x * w x := lt_of_le_of_ne (not_lt.1 hs) (Ne.symm h1)
    have hw0 : w x ≠ 0 := by
      intro h
      rw [h] at hgt
      norm_num at hgt
    have nw := near_gt cw hgt
    have cr : ContinuousAt (fun y => u y * u y + v y * v y) x :=
      (hu.continuousAt.mul hu.continuousAt).add (hv.continuousAt.mul hv.continuousAt)
    have hsq : ∀ y, Distortion.norm2 (u y, v y) * Distortion.norm2 (u y, v y) = u y * u y + v y * v y :=
      fun y => Distortion.norm2_sq _
    have hna : (norm (jx, jy)).a = Distortion.norm2 (u x, v x) := by
      show Real.sqrt (jx.a * jx.a + jy.a * jy.a) = _
      rw [hu.1, hv.1]
      rfl
    have hrr : (value (mul (norm (jx, jy)) (norm (jx, jy))) < value (ofReal (α := Jet N) 1e-5)) =
        (u x * u x + v x * v x < 1e-5) := by
      show ((norm (jx, jy)).a * (norm (jx, jy)).a < 1e-5) = _
      rw [hna, hsq]
    have ht : StandsFor (mul (ofReal 2) (Scalar.tan (div jw (ofReal 2)))) (fun y => 2 * Real.tan (w y / 2)) x :=
      (StandsFor.const 2 x).mul ((hw.div (StandsFor.const 2 x) two_ne_zero).tan hcos)
    unfold fisheyeFactor
    rw [if_neg (by rw [hww]; exact hs)]
    simp only
    rcases lt_or_gt_of_ne hr with hr | hr
    · rw [if_pos (by rw [hrr]; exact hr)]
      refine (ht.div hw hw0).congr ?_
      filter_upwards [nw, near_lt cr hr] with y hy hy'
      unfold Distortion.fisheyeScale
      simp only [if_neg (not_lt.2 hy.le), hsq, if_pos hy']
    · rw [if_neg (by rw [hrr]; exact not_lt.2 hr.le)]
      have hr0 : u x * u x + v x * v x ≠ 0 := by
        intro h
        rw [h] at hr
        norm_num at hr
      have hn0 : Distortion.norm2 (u x, v x) ≠ 0 := by
        intro h
        apply hr0
        rw [← hsq, h, mul_zero]
      have hn : StandsFor (norm (jx, jy)) (fun y => Distortion.norm2 (u y, v y)) x :=
        ((hu.mul hu).add (hv.mul hv)).sqrt hr0
      refine (((hn.mul ht).atan).div (hn.mul hw) (mul_ne_zero hn0 hw0)).congr ?_
      filter_upwards [nw, near_gt cr hr] with y hy hy'
      unfold Distortion.fisheyeScale
      simp only [if_neg (not_lt.2 hy.le), hsq, if_neg (not_lt.2 hy'.le)]
      rw [mul_comm (Distortion.norm2 _) (2 * _)]

/-- Distorting jets: the derivatives are right at the centre of the image too. -/
theorem fisheye_stands {jw jx jy : Jet N} {w u v : (Fin N → ℝ) → ℝ} (hw : StandsFor jw w x) (hu : StandsFor jx u x)
    (hv : StandsFor jy v x) (h1 : w x * w x ≠ 1e-5)
    (h2 : w x * w x < 1e-5 ∨ (Real.cos (w x / 2) ≠ 0 ∧ u x * u x + v x * v x ≠ 1e-5)) :
    ∃ k, fisheyeDistort [jw] (jx, jy) = .ok k ∧
      StandsFor k.1 (fun y => (Distortion.fisheyeDistort (fun _ => w y) (u y, v y)).1) x ∧
      StandsFor k.2 (fun y => (Distortion.fisheyeDistort (fun _ => w y) (u y, v y)).2) x := by
  have hf := factor_stands hw hu hv h1 h2
  exact ⟨_, rfl, hu.mul hf, hv.mul hf⟩

/-- **C133 for cameras with a fisheye distortion**: if the intrinsics, the coefficient and the point are jets of any
functions of `N` variables, then the keypoint is the jet of the projection, as a function of these variables.  Missing:
the values at which the formula of the distortion changes, where it is false (`boundary_refuted`). -/
theorem fisheye_derivative_partial (b : Box) {jfu jfv jcu jcv jw jx jy jz : Jet N}
    {fu fv cu cv w X Y Z : (Fin N → ℝ) → ℝ}
    (hfu : StandsFor jfu fu x) (hfv : StandsFor jfv fv x) (hcu : StandsFor jcu cu x) (hcv : StandsFor jcv cv x)
    (hw : StandsFor jw w x) (hX : StandsFor jx X x) (hY : StandsFor jy Y x) (hZ : StandsFor jz Z x)
    (h0 : Z x ≠ 0) (h1 : w x * w x ≠ 1e-5)
    (h2 : w x * w x < 1e-5 ∨
      (Real.cos (w x / 2) ≠ 0 ∧ (X x / Z x) * (X x / Z x) + (Y x / Z x) * (Y x / Z x) ≠ 1e-5)) :
    ∃ s k, project (some .fisheye) .fisheye b [jfu, jfv, jcu, jcv] [jw] (jx, jy, jz) = .ok (s, some k) ∧
      StandsFor k.1 (fun y => fu y * (Distortion.fisheyeDistort (fun _ => w y) (X y / Z y, Y y / Z y)).1 + cu y) x ∧
      StandsFor k.2 (fun y => fv y * (Distortion.fisheyeDistort (fun _ => w y) (X y / Z y, Y y / Z y)).2 + cv y) x := by
  have hrz : StandsFor (div (ofReal 1) jz) (fun y => 1 / Z y) x := (StandsFor.const 1 x).div hZ h0
  have hu : StandsFor (mul jx (div (ofReal 1) jz)) (fun y => X y / Z y) x :=
    (hX.mul hrz).congr (Filter.Eventually.of_forall fun y => by simp only; ring)
  have hv : StandsFor (mul jy (div (ofReal 1) jz)) (fun y => Y y / Z y) x :=
    (hY.mul hrz).congr (Filter.Eventually.of_forall fun y => by simp only; ring)
  obtain ⟨k, hk, k1, k2⟩ := fisheye_stands hw hu hv h1 h2
  have hz : ¬ (value jz = 0) := by
    show ¬ (jz.a = 0)
    rw [hZ.1]
    exact h0
  refine ⟨evaluate b (add (mul jfu k.1) jcu, add (mul jfv k.2) jcv) jz,
    (add (mul jfu k.1) jcu, add (mul jfv k.2) jcv), ?_, (hfu.mul k1).add hcu, (hfv.mul k2).add hcv⟩
  unfold project
  simp only [distort, hk, if_true, Outcome.bind_ok, if_neg hz]

/-- The same for cameras without distortion, everywhere but at depth zero. -/
theorem null_derivative (b : Box) {jfu jfv jcu jcv jx jy jz : Jet N} {fu fv cu cv X Y Z : (Fin N → ℝ) → ℝ}
    (C : List (Jet N))
    (hfu : StandsFor jfu fu x) (hfv : StandsFor jfv fv x) (hcu : StandsFor jcu cu x) (hcv : StandsFor jcv cv x)
    (hX : StandsFor jx X x) (hY : StandsFor jy Y x) (hZ : StandsFor jz Z x) (h0 : Z x ≠ 0) :
    ∃ s k, project (some .null) .null b [jfu, jfv, jcu, jcv] C (jx, jy, jz) = .ok (s, some k) ∧
      StandsFor k.1 (fun y => fu y * (X y / Z y) + cu y) x ∧ StandsFor k.2 (fun y => fv y * (Y y / Z y) + cv y) x := by
  have hrz : StandsFor (div (ofReal 1) jz) (fun y => 1 / Z y) x := (StandsFor.const 1 x).div hZ h0
  have hu : StandsFor (mul jx (div (ofReal 1) jz)) (fun y => X y / Z y) x :=
    (hX.mul hrz).congr (Filter.Eventually.of_forall fun y => by simp only; ring)
  have hv : StandsFor (mul jy (div (ofReal 1) jz)) (fun y => Y y / Z y) x :=
    (hY.mul hrz).congr (Filter.Eventually.of_forall fun y => by simp only; ring)
  have hz : ¬ (value jz = 0) := by
    show ¬ (jz.a = 0)
    rw [hZ.1]
    exact h0
  refine ⟨evaluate b (add (mul jfu (mul jx (div (ofReal 1) jz))) jcu, add (mul jfv (mul jy (div (ofReal 1) jz))) jcv) jz,
    (add (mul jfu (mul jx (div (ofReal 1) jz))) jcu, add (mul jfv (mul jy (div (ofReal 1) jz))) jcv), ?_,
    (hfu.mul hu).add hcu, (hfv.mul hv).add hcv⟩
  unfold project
  simp only [distort, if_true, Outcome.bind_ok, if_neg hz]

end

/-! ## Against the virtual functions -/

/-- The jet of the variable with the given number. -/
def variable' {N : Nat} (i : Fin N) (x : Fin N → ℝ) : Jet N := ⟨x i, some (Pi.single i 1)⟩

theorem variable_stands {N : Nat} (i : Fin N) (x : Fin N → ℝ) : StandsFor (variable' i x) (fun y => y i) x := by
  refine ⟨rfl, Pi.single i 1, rfl, ?_⟩
  have : lin (Pi.single i 1) = (ContinuousLinearMap.proj i : (Fin N → ℝ) →L[ℝ] ℝ) := by
    ext y
    rw [lin_apply]
    simp [Pi.single_apply]
  rw [this]
  exact hasFDerivAt_apply i x

/-- **Near the centre the jets are right and `distortParameterJacobian` is wrong**, for every valid coefficient but zero:
the derivative with respect to the coefficient that the jets give is never the one of the virtual function. -/
theorem coefficient_refuted (w : ℝ) (p : ℝ × ℝ) (h1 : 0.5 ≤ w) (h2 : w ≤ 1.5)
    (hr : Distortion.norm2 p * Distortion.norm2 p < 1e-5) :
    ∃ k d e, fisheyeDistort [variable' (0 : Fin 1) fun _ => w] (Jet.const p.1, Jet.const p.2) = .ok k ∧
      k.1.v = some (fun _ => d) ∧ k.2.v = some (fun _ => e) ∧
      HasDerivAt (fun t => (Distortion.fisheyeDistort (fun _ => t) p).1) d w ∧
      HasDerivAt (fun t => (Distortion.fisheyeDistort (fun _ => t) p).2) e w ∧
      Distortion.fisheyeParameterJacobian (fun _ => w) p 0 ≠ (d, e) := by
  have hw2 : w * w ≠ 1e-5 := by
    norm_num at h1 ⊢
    nlinarith
  have hpi := Real.pi_gt_three
  have hc : Real.cos (w / 2) ≠ 0 := by
    norm_num at h1 h2
    exact (Real.cos_pos_of_mem_Ioo ⟨by linarith, by linarith⟩).ne'
  have hr' : p.1 * p.1 + p.2 * p.2 ≠ 1e-5 := by
    rw [Distortion.norm2_sq] at hr
    exact hr.ne
  obtain ⟨k, hk, ⟨_, v, hv, dv⟩, ⟨_, v', hv', dv'⟩⟩ := fisheye_stands (variable_stands (0 : Fin 1) fun _ => w)
    (StandsFor.const p.1 fun _ => w) (StandsFor.const p.2 fun _ => w) hw2 (Or.inr ⟨hc, hr'⟩)
  have conv : ∀ (g : ℝ → ℝ) (v : Fin 1 → ℝ), HasFDerivAt (fun y : Fin 1 → ℝ => g (y 0)) (lin v) (fun _ => w) →
      HasDerivAt g (v 0) w := by
    intro g v h
    have hl : HasDerivAt (fun t : ℝ => (fun _ : Fin 1 => t)) (fun _ => 1) w := hasDerivAt_pi.2 fun _ => hasDerivAt_id w
    have := h.comp_hasDerivAt (f := fun t : ℝ => (fun _ : Fin 1 => t)) w hl
    refine this.congr_deriv ?_
    rw [lin_apply]
    simp
  have c1 := conv (fun t => (Distortion.fisheyeDistort (fun _ => t) p).1) v dv
  have c2 := conv (fun t => (Distortion.fisheyeDistort (fun _ => t) p).2) v' dv'
  refine ⟨k, v 0, v' 0, hk, ?_, ?_, c1, c2, ?_⟩
  · rw [hv]
    congr 1
    funext i
    rw [Subsingleton.elim i 0]
  · rw [hv']
    congr 1
    funext i
    rw [Subsingleton.elim i 0]
  · intro e
    refine Distortion.fisheye_parameterJacobian_refuted (fun _ => w) p h1 h2 hr ?_
    intro i
    have hi : i = 0 := Subsingleton.elim _ _
    subst hi
    rw [e]
    have hu : ∀ t : ℝ, Function.update (fun _ : Fin 1 => w) 0 t = fun _ => t := by
      intro t
      funext i
      rw [Subsingleton.elim i 0, Function.update_self]
    simp only [hu]
    exact ⟨c1, c2⟩

/-- **Refuted** on the circle where the formula changes: the jets hold derivatives though the distortion has none. -/
theorem boundary_refuted (w : ℝ) (h1 : 0.5 ≤ w) (h2 : w ≤ 1.5) :
    ∃ k d e, fisheyeDistort [Jet.const w]
        (variable' (0 : Fin 2) ![Real.sqrt 1e-5, 0], variable' (1 : Fin 2) ![Real.sqrt 1e-5, 0]) = .ok k ∧
      k.1.v = some d ∧ k.2.v = some e ∧
      ∀ J, ¬ Distortion.IsJacobian (Distortion.fisheyeDistort fun _ => w) J (Real.sqrt 1e-5, 0) := by
  have hs : Real.sqrt (1e-5 : ℝ) * Real.sqrt (1e-5 : ℝ) = 1e-5 := Real.mul_self_sqrt (by norm_num)
  have hw : ¬ w * w < 1e-5 := by
    norm_num at h1 ⊢
    nlinarith
  have hn : (norm (variable' (0 : Fin 2) ![Real.sqrt 1e-5, 0], variable' (1 : Fin 2) ![Real.sqrt 1e-5, 0])).a *
      (norm (variable' (0 : Fin 2) ![Real.sqrt 1e-5, 0], variable' (1 : Fin 2) ![Real.sqrt 1e-5, 0])).a = 1e-5 := by
    show Real.sqrt (Real.sqrt 1e-5 * Real.sqrt 1e-5 + 0 * 0) * Real.sqrt (Real.sqrt 1e-5 * Real.sqrt 1e-5 + 0 * 0) = 1e-5
    rw [hs, mul_zero, add_zero, hs]
  generalize hx0 : (![Real.sqrt 1e-5, 0] : Fin 2 → ℝ) = x0 at hn
  have v0 := variable_stands (0 : Fin 2) x0
  have v1 := variable_stands (1 : Fin 2) x0
  have hw0 : w ≠ 0 := by
    norm_num at h1
    intro h
    rw [h] at h1
    linarith
  have hpi := Real.pi_gt_three
  have hc : Real.cos (w / 2) ≠ 0 := by
    norm_num at h1 h2
    exact (Real.cos_pos_of_mem_Ioo ⟨by linarith, by linarith⟩).ne'
  have hr0 : x0 0 * x0 0 + x0 1 * x0 1 ≠ 0 := by
    rw [← hx0]
    show Real.sqrt 1e-5 * Real.sqrt 1e-5 + 0 * 0 ≠ 0
    rw [hs]
    norm_num
  have hN := ((v0.mul v0).add (v1.mul v1)).sqrt hr0
  have hN0 : Real.sqrt (x0 0 * x0 0 + x0 1 * x0 1) ≠ 0 := by
    intro h
    have : (norm (variable' (0 : Fin 2) x0, variable' (1 : Fin 2) x0)).a = 0 := h
    rw [this] at hn
    norm_num at hn
  have hW : StandsFor (Jet.const w) (fun _ => w) x0 := StandsFor.const w x0
  have ht := (StandsFor.const 2 x0).mul ((hW.div (StandsFor.const 2 x0) two_ne_zero).tan hc)
  have hf := ((hN.mul ht).atan).div (hN.mul hW) (mul_ne_zero hN0 hw0)
  have e : StandsFor (fisheyeFactor (Jet.const w) (norm (variable' (0 : Fin 2) x0, variable' (1 : Fin 2) x0)))
      (fun y => Real.arctan (Real.sqrt (y 0 * y 0 + y 1 * y 1) * (2 * Real.tan (w / 2))) /
        (Real.sqrt (y 0 * y 0 + y 1 * y 1) * w)) x0 := by
    unfold fisheyeFactor
    rw [if_neg (show ¬ (value (mul (Jet.const w) (Jet.const w : Jet 2)) < 1e-5) from hw)]
    simp only
    rw [if_neg]
    · exact hf
    · show ¬ (_ * _ < (1e-5 : ℝ))
      rw [hn]
      exact lt_irrefl _
  obtain ⟨_, d, hd, _⟩ := v0.mul e
  obtain ⟨_, d', hd', _⟩ := v1.mul e
  exact ⟨_, d, d', rfl, hd, hd', fun J => Distortion.fisheye_boundary_refuted (fun _ => w) h1 h2 J⟩

/-! ## Cases -/

/-- A point in front of a camera with coefficient 1, with derivatives with respect to the point and the coefficient,
meets the hypotheses of `fisheye_derivative_partial`. -/
example (b : Box) : ∃ s k, project (some .fisheye) .fisheye b [Jet.const 400, Jet.const 400, Jet.const 320, Jet.const 240]
    [variable' (3 : Fin 4) ![1, 2, 4, 1]] (variable' 0 ![1, 2, 4, 1], variable' 1 ![1, 2, 4, 1], variable' 2 ![1, 2, 4, 1]) =
      .ok (s, some k) ∧
      StandsFor k.1 (fun y => 400 * (Distortion.fisheyeDistort (fun _ => y 3) (y 0 / y 2, y 1 / y 2)).1 + 320) ![1, 2, 4, 1] ∧
      StandsFor k.2 (fun y => 400 * (Distortion.fisheyeDistort (fun _ => y 3) (y 0 / y 2, y 1 / y 2)).2 + 240)
        ![1, 2, 4, 1] := by
  refine fisheye_derivative_partial b (StandsFor.const 400 _) (StandsFor.const 400 _) (StandsFor.const 320 _)
    (StandsFor.const 240 _) (variable_stands 3 _) (variable_stands 0 _) (variable_stands 1 _) (variable_stands 2 _) ?_ ?_
    (Or.inr ⟨?_, ?_⟩)
  · simp
  · simp
    norm_num
  · have hpi := Real.pi_gt_three
    exact (Real.cos_pos_of_mem_Ioo ⟨by simp; linarith, by simp; linarith⟩).ne'
  · simp
    norm_num

/-- The centre of the image, with the coefficient variable, meets those of `coefficient_refuted`. -/
example : Distortion.norm2 (0, 0) * Distortion.norm2 (0, 0) < 1e-5 := by
  rw [Distortion.norm2_sq]
  norm_num

end Verif.Camera.Jets
