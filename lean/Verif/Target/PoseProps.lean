import Verif.Target.Pose
import Verif.Target.Props
import Verif.GeometricVision.PoseProps

/-!
# The pose of a target (C120)
-/

namespace Verif.Target

open Verif Matrix
open Verif.Triangulation (V Pose)
open Verif.GeometricVision (PnpCamera RansacResult normalize ransacThreshold pnp_result pnp_rejects)

private theorem bind_okay {α β : Type} (x : α) (f : α → Outcome β) : (Outcome.ok x).bind f = f x := rfl

/-! ## Specification -/

/-- A RANSAC that finds the pose if all measurements are exact and the landmarks are in a position that determines it:
`T` maps points of the camera to the frame of the landmarks, and a bearing is the direction in which the camera sees a
landmark. -/
def Finds (ransac : List V → List V → ℝ → Nat → RansacResult) (determined : List V → Prop) : Prop :=
  ∀ (ls : List V) (T : Pose) (threshold : ℝ) (n : Nat), determined ls → T.Rᵀ * T.R = 1 → 0 < threshold → 0 < n →
    (ransac (ls.map fun l => normalize (T.inverse.act l)) ls threshold n).success = true ∧
    (ransac (ls.map fun l => normalize (T.inverse.act l)) ls threshold n).model = T

/-- The camera sees the point `q` of the target at the corner `p` if the target is at `T`: the ray of the corner goes
through the point. -/
def Sees (c : PnpCamera) (T : Pose) (p : P2) (q : P3) : Prop :=
  ∃ s : ℝ, 0 < s ∧ (c.backProject (measurement p)).1 = s • T.inverse.act (landmark q)

/-- The points of the target with the given ids. -/
def PointsOf (t : Target) (ids : List Int) (ps : List P3) : Prop :=
  ps.length = ids.length ∧ ∀ (i : Nat) (z : Int), ids[i]? = some z → ∃ p, ps[i]? = some p ∧ point t z.toNat = .ok p

/-! ## Proofs -/

private theorem points_ok {c : Config} {t : Target} (h : newAprilGrid c = .ok t) (hf : Fits c)
    {ids : List Int} {corners : List P2} {o : Observation} (ho : newObservation t ids corners = .ok o)
    (hr : ∀ z ∈ ids, 0 ≤ z ∧ z < t.size) :
    ∃ ps, getCorrespondingTargetPoints o = .ok ps ∧ PointsOf t ids ps ∧ ids.length = corners.length ∧
      o.corners = corners := by
  obtain ⟨ps, h1, h2, h3⟩ := correspondingTargetPoints_spec h hf ho hr
  obtain ⟨hl, rfl⟩ := (newObservation_iff _ _ _ _).1 ho
  exact ⟨ps, h1, ⟨by omega, h3⟩, hl, rfl⟩

/-- C120: the RANSAC is given, for every observed corner, the direction in which the camera sees it and the point of the
target with the observed id, the given number of iterations, and a threshold that is the angle of `pixelSigma` pixels in
the middle of the image. Its success is returned, and its model written if it succeeds. -/
theorem estimate_spec (ransac : List V → List V → ℝ → Nat → RansacResult) {cfg : Config} {t : Target}
    (h : newAprilGrid cfg = .ok t) (hf : Fits cfg) {ids : List Int} {corners : List P2} {o : Observation}
    (ho : newObservation t ids corners = .ok o) (hr : ∀ z ∈ ids, 0 ≤ z ∧ z < t.size) (c : PnpCamera)
    (hc : c.supported = true) (hfoc : 0 < c.fu + c.fv) (T : Pose) (refine : Bool) {sigma : ℝ} (hs : 0 < sigma) {n : Int}
    (hn : 0 < n) :
    ∃ (bs ls : List V) (a : ℝ), bs.length = corners.length ∧ ls.length = corners.length ∧
      (∀ (i : Nat) (p : P2), corners[i]? = some p → bs[i]? = some (normalize (c.backProject ((p.1 : ℝ), (p.2 : ℝ))).1)) ∧
      (∀ (i : Nat) (z : Int), ids[i]? = some z →
        ∃ q, point t z.toNat = .ok q ∧ ls[i]? = some ![(q.1 : ℝ), (q.2.1 : ℝ), (q.2.2 : ℝ)]) ∧
      0 < a ∧ a < Real.pi / 2 ∧ Real.tan a = sigma / ((c.fu + c.fv) / 2) ∧
      estimateTarget ransac o (some c) T refine sigma n =
        .ok ((ransac bs ls (1 - Real.cos a) n.toNat).success,
          if (ransac bs ls (1 - Real.cos a) n.toNat).success = true then (ransac bs ls (1 - Real.cos a) n.toNat).model
          else T) := by
  obtain ⟨ps, h1, ⟨h2, h3⟩, hl, hco⟩ := points_ok h hf ho hr
  obtain ⟨bs, r, hb, hb', rfl, he⟩ := pnp_result ransac c (corners.map measurement) (ps.map landmark) sigma n.toNat T
    (by simp; omega) hc
  refine ⟨bs, ps.map landmark, Real.arctan (sigma / ((c.fu + c.fv) / 2)), by rw [hb, List.length_map]; omega,
    by rw [List.length_map]; omega, fun i p hp => ?_, fun i z hz => ?_, Real.arctan_pos.2 (by positivity),
    Real.arctan_lt_pi_div_two _, Real.tan_arctan _, ?_⟩
  · have := hb' i (measurement p) (by rw [List.getElem?_map, hp]; rfl)
    exact this
  · obtain ⟨q, hq, hq'⟩ := h3 i z hz
    exact ⟨q, hq', by rw [List.getElem?_map, hq]; rfl⟩
  · unfold estimateTarget
    simp only []
    rw [if_pos hs, if_pos hn, h1, bind_okay, hco, he, bind_okay]
    rfl

/-- C120: without options the tolerance is one pixel and there are at most 200 iterations. -/
theorem estimate_default (ransac : List V → List V → ℝ → Nat → RansacResult) (o : Observation) (camera : Option PnpCamera)
    (T : Pose) (refine : Bool) :
    estimateTargetDefault ransac o camera T = estimateTarget ransac o camera T refine 1 200 := by
  cases camera <;> rfl

private theorem normalize_smul {s : ℝ} (hs : 0 < s) (v : V) : GeometricVision.normalize (s • v) = GeometricVision.normalize v := by
  have e : (s • v) ⬝ᵥ (s • v) = s ^ 2 * (v ⬝ᵥ v) := by
    rw [smul_dotProduct, dotProduct_smul, smul_eq_mul, smul_eq_mul]
    ring
  unfold GeometricVision.normalize
  rw [e]
  by_cases hv : v ⬝ᵥ v > 0
  · rw [if_pos hv, if_pos (by positivity)]
    funext i
    rw [Real.sqrt_mul (by positivity), Real.sqrt_sq hs.le, Pi.smul_apply, smul_eq_mul]
    exact mul_div_mul_left _ _ hs.ne'
  · have h0 : v = 0 := by
      have h1 : v ⬝ᵥ v = 0 := by
        refine le_antisymm (not_lt.1 hv) ?_
        simp only [dotProduct]
        exact Finset.sum_nonneg fun i _ => mul_self_nonneg _
      exact dotProduct_self_eq_zero.1 h1
    subst h0
    simp

/-- C120: if the camera sees every observed point of the target where it is observed, then the pose of the camera with
respect to the target is found, provided the RANSAC finds poses from exact measurements and the points determine the
pose. -/
theorem estimate_exact (ransac : List V → List V → ℝ → Nat → RansacResult) (determined : List V → Prop)
    (hran : Finds ransac determined) {cfg : Config} {t : Target} (h : newAprilGrid cfg = .ok t) (hf : Fits cfg)
    {ids : List Int} {corners : List P2} {o : Observation} (ho : newObservation t ids corners = .ok o)
    (hr : ∀ z ∈ ids, 0 ≤ z ∧ z < t.size) (c : PnpCamera) (hc : c.supported = true) (hfoc : 0 < c.fu + c.fv)
    (truth : Pose) (htruth : truth.Rᵀ * truth.R = 1)
    (hdet : ∀ ps, PointsOf t ids ps → determined (ps.map landmark))
    (hsees : ∀ (i : Nat) (z : Int) (p : P2) (q : P3), ids[i]? = some z → corners[i]? = some p →
      point t z.toNat = .ok q → Sees c truth p q)
    (T : Pose) (refine : Bool) {sigma : ℝ} (hs : 0 < sigma) {n : Int} (hn : 0 < n) :
    estimateTarget ransac o (some c) T refine sigma n = .ok (true, truth) := by
  obtain ⟨ps, h1, hps, hl, -⟩ := points_ok h hf ho hr
  obtain ⟨bs, ls, a, hbl, hll, hb, hl', ha0, ha1, -, he⟩ := estimate_spec ransac h hf ho hr c hc hfoc T refine hs hn
  obtain ⟨hp1, hp2⟩ := hps
  have hls : ls = ps.map landmark := by
    refine List.ext_getElem? fun i => ?_
    by_cases hi : i < ids.length
    · obtain ⟨q, hq, hq'⟩ := hl' i _ (List.getElem?_eq_getElem hi)
      obtain ⟨q', hq1, hq2⟩ := hp2 i _ (List.getElem?_eq_getElem hi)
      rw [hq] at hq2
      injection hq2 with hq2
      rw [hq', List.getElem?_map, hq1, ← hq2]
      rfl
    · rw [List.getElem?_eq_none (by omega), List.getElem?_eq_none (by rw [List.length_map]; omega)]
  have hbs : bs = ls.map fun l => normalize (truth.inverse.act l) := by
    refine List.ext_getElem? fun i => ?_
    by_cases hi : i < ids.length
    · have hi' : i < corners.length := by omega
      obtain ⟨q, hq, hq'⟩ := hl' i _ (List.getElem?_eq_getElem hi)
      rw [hb i _ (List.getElem?_eq_getElem hi'), List.getElem?_map, hq']
      obtain ⟨s, hs', e⟩ := hsees i _ _ q (List.getElem?_eq_getElem hi) (List.getElem?_eq_getElem hi') hq
      unfold measurement at e
      rw [e, normalize_smul hs']
      rfl
    · rw [List.getElem?_eq_none (by omega), List.getElem?_eq_none (by rw [List.length_map]; omega)]
  have hthr : 0 < 1 - Real.cos a := by
    have : Real.cos a < Real.cos 0 := Real.cos_lt_cos_of_nonneg_of_le_pi (le_refl _) (by linarith [Real.pi_pos]) ha0
    rw [Real.cos_zero] at this
    linarith
  have hd := hdet ps ⟨hp1, hp2⟩
  rw [← hls] at hd
  obtain ⟨r1, r2⟩ := hran ls truth (1 - Real.cos a) n.toNat hd htruth hthr (by omega)
  rw [← hbs] at r1 r2
  rw [he, r1, r2, if_pos rfl]

/-- A camera one metre in front of a board with one tag, looking at it along the third axis: the corners are seen at the
directions of the points. -/
example (ransac : List V → List V → ℝ → Nat → RansacResult) (determined : List V → Prop) (hran : Finds ransac determined)
    (hdet : ∀ ls, ls.length = 4 → determined ls) (T : Pose) :
    ∃ (t : Target) (o : Observation),
      newAprilGrid ⟨1, 1, 1, 1⟩ = .ok t ∧ newObservation t [0, 1, 2, 3] [(0, 0), (1, 0), (0, 1), (1, 1)] = .ok o ∧
      estimateTarget ransac o (some ⟨true, 1, 1, fun m => (![m.1, m.2, 1], true)⟩) T true 1 200 =
        .ok (true, ⟨1, ![0, 0, -1]⟩) := by
  have ht : newAprilGrid ⟨1, 1, 1, 1⟩ = .ok ⟨2, 2, [(0, 0, 0), (1, 0, 0), (0, 1, 0), (1, 1, 0)]⟩ := by decide +kernel
  refine ⟨_, _, ht, rfl, ?_⟩
  refine estimate_exact ransac determined hran ht (by unfold Fits; norm_num)
    (ids := [0, 1, 2, 3]) (corners := [(0, 0), (1, 0), (0, 1), (1, 1)]) rfl ?_ _ rfl (by norm_num) _ (by simp) ?_ ?_ T true
    one_pos (by norm_num)
  · intro z hz
    simp only [List.mem_cons, List.not_mem_nil, or_false] at hz
    rcases hz with rfl | rfl | rfl | rfl <;> decide
  · rintro ps ⟨h1, -⟩
    exact hdet _ (by rw [List.length_map, h1]; rfl)
  · intro i z p q hz hp hq
    refine ⟨1, one_pos, ?_⟩
    match i, hz, hp with
    | 0, hz, hp =>
      simp at hz hp; subst hz; subst hp
      have : q = (0, 0, 0) := by injection hq with hq; exact hq.symm
      subst this
      funext i; fin_cases i <;> simp [measurement, landmark, Pose.inverse, Pose.act]
    | 1, hz, hp =>
      simp at hz hp; subst hz; subst hp
      have : q = (1, 0, 0) := by injection hq with hq; exact hq.symm
      subst this
      funext i; fin_cases i <;> simp [measurement, landmark, Pose.inverse, Pose.act]
    | 2, hz, hp =>
      simp at hz hp; subst hz; subst hp
      have : q = (0, 1, 0) := by injection hq with hq; exact hq.symm
      subst this
      funext i; fin_cases i <;> simp [measurement, landmark, Pose.inverse, Pose.act]
    | 3, hz, hp =>
      simp at hz hp; subst hz; subst hp
      have : q = (1, 1, 0) := by injection hq with hq; exact hq.symm
      subst this
      funext i; fin_cases i <;> simp [measurement, landmark, Pose.inverse, Pose.act]
    | i + 4, hz, hp => simp at hz

/-- C120: if no pose is found, the caller's pose is left as it was. -/
theorem estimate_failure (ransac : List V → List V → ℝ → Nat → RansacResult) (o : Observation) (camera : Option PnpCamera)
    (T T' : Pose) (refine : Bool) (sigma : ℝ) (n : Int)
    (h : estimateTarget ransac o camera T refine sigma n = .ok (false, T')) : T' = T := by
  unfold estimateTarget at h
  cases camera with
  | none => cases h
  | some c =>
    simp only [] at h
    by_cases hs : 0 < sigma
    swap; · rw [if_neg hs] at h; cases h
    by_cases hn : 0 < n
    swap; · rw [if_pos hs, if_neg hn] at h; cases h
    rw [if_pos hs, if_pos hn] at h
    cases hp : getCorrespondingTargetPoints o with
    | ok ps =>
      rw [hp, bind_okay] at h
      by_cases hl : (o.corners.map measurement).length = (ps.map landmark).length
      · cases hc : c.supported with
        | true =>
          obtain ⟨bs, r, -, -, -, he⟩ := pnp_result ransac c _ _ sigma n.toNat T hl hc
          rw [he, bind_okay] at h
          injection h with h
          injection h with h1 h2
          simp only [] at h1 h2
          rw [← h2, h1, if_neg (by decide)]
        | false =>
          rw [pnp_rejects ransac c _ _ sigma n.toNat T (Or.inr hc)] at h
          cases h
      · rw [pnp_rejects ransac c _ _ sigma n.toNat T (Or.inl hl)] at h
        cases h
    | abort => rw [hp] at h; cases h
    | ub => rw [hp] at h; cases h
    | exc => rw [hp] at h; cases h

/-- C120: a missing camera, a camera that is neither a pinhole nor a unified projection camera, a tolerance or a number of
iterations that is not positive end the process. -/
theorem estimate_rejects (ransac : List V → List V → ℝ → Nat → RansacResult) {cfg : Config} {t : Target}
    (h : newAprilGrid cfg = .ok t) (hf : Fits cfg) {ids : List Int} {corners : List P2} {o : Observation}
    (ho : newObservation t ids corners = .ok o) (hr : ∀ z ∈ ids, 0 ≤ z ∧ z < t.size) (camera : Option PnpCamera)
    (T : Pose) (refine : Bool) (sigma : ℝ) (n : Int)
    (hbad : (∀ c, camera = some c → c.supported = false) ∨ sigma ≤ 0 ∨ n ≤ 0) :
    estimateTarget ransac o camera T refine sigma n = .abort := by
  obtain ⟨ps, h1, -, -, -⟩ := points_ok h hf ho hr
  unfold estimateTarget
  cases camera with
  | none => rfl
  | some c =>
    simp only []
    by_cases hs : 0 < sigma
    swap; · rw [if_neg hs]
    by_cases hn : 0 < n
    swap; · rw [if_pos hs, if_neg hn]
    rw [if_pos hs, if_pos hn, h1, bind_okay]
    rcases hbad with hb | hb | hb
    · rw [pnp_rejects ransac c _ _ sigma n.toNat T (Or.inr (hb c rfl))]
      rfl
    · exact absurd hs (not_lt.2 hb)
    · exact absurd hn (not_lt.2 hb)

/-- C120: so does an observed id that the target does not have. -/
theorem estimate_unknown (ransac : List V → List V → ℝ → Nat → RansacResult) {cfg : Config} {t : Target}
    (h : newAprilGrid cfg = .ok t) (hf : Fits cfg) {ids : List Int} {corners : List P2} {o : Observation}
    (ho : newObservation t ids corners = .ok o) (hint : ∀ z ∈ ids, -2 ^ 31 ≤ z ∧ z < 2 ^ 31)
    (hr : ∃ z ∈ ids, z < 0 ∨ (t.size : Int) ≤ z) (camera : Option PnpCamera) (T : Pose) (refine : Bool) (sigma : ℝ) (n : Int) :
    estimateTarget ransac o camera T refine sigma n = .abort := by
  obtain ⟨hrows, hcols, hlen, -⟩ := newAprilGrid_spec h
  have hsz : t.size = 4 * (cfg.tagRows * cfg.tagCols) := by
    unfold Target.size
    rw [hrows, hcols]
    ring
  unfold Fits at hf
  have key : ∀ l : List Int, (∀ z ∈ l, -2 ^ 31 ≤ z ∧ z < 2 ^ 31) → (∃ z ∈ l, z < 0 ∨ (t.size : Int) ≤ z) →
      targetPoints t l = .abort := by
    intro l
    induction l with
    | nil => simp
    | cons z l ih =>
      intro hi hb
      have hz := hi z (by simp)
      unfold targetPoints
      by_cases hzb : z < 0 ∨ (t.size : Int) ≤ z
      · have hp : point t (ofInt z) = .abort := by
          unfold point ofInt
          rw [if_neg (by omega)]
        rw [hp]
        rfl
      · have hp : ∃ p, point t (ofInt z) = .ok p := by
          have hlt : ofInt z < t.points.length := by unfold ofInt; omega
          refine ⟨t.points[ofInt z], ?_⟩
          unfold point
          rw [if_pos (by omega), List.getElem?_eq_getElem hlt]
        obtain ⟨p, hp⟩ := hp
        have hb' : ∃ z ∈ l, z < 0 ∨ (t.size : Int) ≤ z := by
          obtain ⟨x, hx, hx'⟩ := hb
          rcases List.mem_cons.1 hx with rfl | hx
          · exact absurd hx' hzb
          · exact ⟨x, hx, hx'⟩
        rw [hp, Outcome.bind_ok, ih (fun x hx => hi x (List.mem_cons_of_mem _ hx)) hb']
        rfl
  obtain ⟨hl, rfl⟩ := (newObservation_iff _ _ _ _).1 ho
  have hp : getCorrespondingTargetPoints ⟨t, ids, corners, buildIndex 0 ids []⟩ = .abort := key ids hint hr
  unfold estimateTarget
  cases camera with
  | none => rfl
  | some c =>
    simp only []
    by_cases hs : 0 < sigma
    swap; · rw [if_neg hs]
    by_cases hn : 0 < n
    swap; · rw [if_pos hs, if_neg hn]
    rw [if_pos hs, if_pos hn, hp]
    rfl

/-- C120 fails for the refinement: whether it is asked for has no effect. -/
theorem estimate_refinement_refuted (ransac : List V → List V → ℝ → Nat → RansacResult) (o : Observation)
    (camera : Option PnpCamera) (T : Pose) (sigma : ℝ) (n : Int) :
    estimateTarget ransac o camera T true sigma n = estimateTarget ransac o camera T false sigma n := rfl

end Verif.Target
