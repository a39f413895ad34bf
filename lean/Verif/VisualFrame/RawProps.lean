import Verif.VisualFrame.Raw
import Verif.Camera.Props
import Verif.Undistort.Props

/-!
# Properties of raw image coordinates (C112)
-/

namespace Verif.VisualFrame.Raw

open Verif (Outcome)
open Verif.Camera (V2 V3 Status Result Box PinholeValid UnifiedValid InImage scale pinholeProject unifiedProject
  pinholeBackProject unifiedBackProject)
open Verif.Undistort (mapEntry)

/-! ### Specification -/

/-- The camera sees the point at the keypoint. -/
def Sees (c : Cam) (p : V3) (k : V2) : Prop := (c.proj p).2 = some k

/-- The projection depends on the ray only. -/
def OnRays (c : Cam) : Prop := ∀ (s : ℝ) (p : V3), 0 < s → (c.proj (scale s p)).2 = (c.proj p).2

/-- The back-projection of the keypoint of the point succeeds and is a point on its ray. -/
def Inverts (c : Cam) (p : V3) : Prop := ∀ k, Sees c p k → ∃ s : ℝ, 0 < s ∧ c.back k = (scale s p, true)

/-! ### One keypoint -/

/-- C112: where the camera of the frame sees a point, the raw coordinates are where the raw camera sees it. -/
theorem raw_recovered {c r : Cam} (hr : OnRays r) {p : V3} (hc : Inverts c p) {k k' : V2} (hk : Sees c p k)
    (hk' : Sees r p k') : ∃ s, toRaw (some c) (some r) k = .ok (s, some (some k')) := by
  obtain ⟨s, hs, hb⟩ := hc k hk
  unfold toRaw
  simp only
  rw [hb]
  simp only [if_true]
  refine ⟨_, congrArg Outcome.ok (Prod.ext rfl ?_)⟩
  simp only
  rw [hr s p hs]
  exact congrArg some hk'

/-- The keypoint of a pinhole camera depends on the ray only. -/
theorem pinhole_onRays {n : Nat} (D : Verif.Distortion.Model n) (b : Box) (I : Fin 4 → ℝ) (c : Fin n → ℝ)
    (back : V2 → V3 × Bool) : OnRays (pinhole D b I c back) :=
  fun s p hs => Verif.Camera.pinhole_scale D b I c s hs.ne' p

/-- The keypoint of a camera of the unified model depends on the ray only. -/
theorem unified_onRays {n : Nat} (D : Verif.Distortion.Model n) (b : Box) (I : Fin 5 → ℝ) (c : Fin n → ℝ)
    (back : V2 → V3 × Bool) (hI : 0 ≤ I 0) : OnRays (unified D b I c back) :=
  fun _ p hs => Verif.Camera.unified_scale D b I c hI hs p

/-- The camera of the example back-projects like the pinhole model. -/
theorem pinholeNull_back (b : Box) (I : Fin 4 → ℝ) (k : V2) :
    pinholeBackProject Verif.Distortion.null I Fin.elim0 k =
      (some ((pinholeNull b I).back k).1, ((pinholeNull b I).back k).2) := by
  unfold pinholeBackProject pinholeNull Verif.Distortion.null
  simp

/-- The pinhole camera without distortion inverts its projection. -/
theorem pinholeNull_inverts (b : Box) {I : Fin 4 → ℝ} (hI : PinholeValid I) {p : V3} (hz : 0 < p.2.2) :
    Inverts (pinholeNull b I) p := by
  intro k hk
  have h := (Verif.Camera.pinhole_null_inverse b I Fin.elim0 hI).2 p k hz.ne' hk
  rw [pinholeNull_back b] at h
  refine ⟨1 / p.2.2, by positivity, ?_⟩
  simp only [Prod.mk.injEq, Option.some.injEq] at h
  exact Prod.ext h.1 h.2

/-- C112: frames that were undistorted to a pinhole camera: for every point in front of the cameras the raw coordinates of its
keypoint are its keypoint in the raw image of a pinhole camera with any distortion, and they are reported as visible
exactly if they are in the raw image. -/
theorem raw_pinhole {n : Nat} (D : Verif.Distortion.Model n) (bo b : Box) {O : Fin 4 → ℝ} (I : Fin 4 → ℝ) (c : Fin n → ℝ)
    (back : V2 → V3 × Bool) (hO : PinholeValid O) {p : V3} (hz : 0 < p.2.2) {k : V2}
    (hk : Sees (pinholeNull bo O) p k) :
    ∃ s k', Sees (pinhole D b I c back) p k' ∧
      toRaw (some (pinholeNull bo O)) (some (pinhole D b I c back)) k = .ok (s, some (some k')) ∧
      (s = .visible ↔ InImage b k') ∧ (s = .outside ↔ ¬ InImage b k') := by
  obtain ⟨k', hk'⟩ : ∃ k', Sees (pinhole D b I c back) p k' := ⟨_, Verif.Camera.pinhole_keypoint D b I c hz.ne'⟩
  have hb : (pinholeNull bo O).back k = (scale (1 / p.2.2) p, true) := by
    have h := (Verif.Camera.pinhole_null_inverse bo O Fin.elim0 hO).2 p k hz.ne' hk
    rw [pinholeNull_back bo] at h
    simp only [Prod.mk.injEq, Option.some.injEq] at h
    exact Prod.ext h.1 h.2
  have hz1 : (scale (1 / p.2.2) p).2.2 = 1 := by
    unfold scale
    simp only
    rw [one_div, inv_mul_cancel₀ hz.ne']
  have hks : (pinholeProject D b I c (scale (1 / p.2.2) p)).keypoint = some k' :=
    (Verif.Camera.pinhole_scale D b I c _ (by positivity) p).trans hk'
  refine ⟨(pinholeProject D b I c (scale (1 / p.2.2) p)).status, k', hk', ?_, ?_, ?_⟩
  · unfold toRaw
    simp only
    rw [hb]
    simp only [if_true]
    exact congrArg Outcome.ok (Prod.ext rfl (congrArg some hks))
  · rw [(Verif.Camera.pinhole_status D b I c _).1, hks, hz1]
    constructor
    · rintro ⟨-, k2, h1, h2⟩
      injection h1 with h1
      rwa [h1]
    · exact fun h => ⟨by norm_num, k', rfl, h⟩
  · rw [(Verif.Camera.pinhole_status D b I c _).2.1, hks, hz1]
    constructor
    · rintro ⟨-, k2, h1, h2⟩
      injection h1 with h1
      rwa [h1]
    · exact fun h => ⟨by norm_num, k', rfl, h⟩

/-- C112: the same for raw images of a camera of the unified projection. -/
theorem raw_unified {n : Nat} (D : Verif.Distortion.Model n) (bo b : Box) {O : Fin 4 → ℝ} {I : Fin 5 → ℝ} (c : Fin n → ℝ)
    (back : V2 → V3 × Bool) (hO : PinholeValid O) (hI : 0 ≤ I 0) {p : V3} (hz : 0 < p.2.2) {k : V2}
    (hk : Sees (pinholeNull bo O) p k) :
    ∃ s k', Sees (unified D b I c back) p k' ∧
      toRaw (some (pinholeNull bo O)) (some (unified D b I c back)) k = .ok (s, some (some k')) := by
  have hv : p.2.2 > -(Verif.Camera.fovParameter (I 0) * Verif.Camera.norm3 p) := by
    have h1 := Verif.Camera.fov_nonneg hI
    have h2 := Verif.Camera.norm3_nonneg p
    have := mul_nonneg h1 h2
    linarith
  obtain ⟨k', hk'⟩ : ∃ k', Sees (unified D b I c back) p k' :=
    ⟨_, Verif.Camera.unified_keypoint D b I c hI hv⟩
  obtain ⟨s, hs⟩ := raw_recovered (unified_onRays D b I c back hI) (pinholeNull_inverts bo hO hz) hk hk'
  exact ⟨s, k', hk', hs⟩

/-- C112: if the image was not changed, the raw coordinates are the coordinates. -/
theorem raw_identity (b : Box) {I : Fin 4 → ℝ} (hI : PinholeValid I) (k : V2) :
    ∃ s, toRaw (some (pinholeNull b I)) (some (pinholeNull b I)) k = .ok (s, some (some k)) := by
  obtain ⟨r, hr, hs⟩ := (Verif.Camera.pinhole_null_inverse b I Fin.elim0 hI).1 k
  rw [pinholeNull_back b] at hr
  simp only [Prod.mk.injEq, Option.some.injEq] at hr
  unfold toRaw
  simp only
  rw [hr.1, hr.2]
  simp only [if_true]
  refine ⟨_, congrArg Outcome.ok (Prod.ext rfl (congrArg some ?_))⟩
  have := hs 1 one_pos
  rwa [Verif.Camera.pinhole_scale _ b I _ 1 one_ne_zero] at this

/-- C112: for rays that point forward the raw coordinates are the entry of the map by which the image was undistorted
(C79): the place the pixel was taken from. -/
theorem raw_eq_map {c r : Cam} (hr : OnRays r) {k : V2} (hz : 0 < (c.back k).1.2.2) (hok : (c.back k).2 = true) :
    ∃ s, toRaw (some c) (some r) k =
      .ok (s, some (mapEntry (fun k => some (c.back k).1) (fun p => (r.proj p).2) k)) := by
  unfold toRaw
  simp only
  rw [hok, if_pos rfl]
  refine ⟨_, congrArg Outcome.ok (Prod.ext rfl (congrArg some ?_))⟩
  exact (Verif.Undistort.map_ray_partial (backProject := fun k => some (c.back k).1)
    (project := fun p => (r.proj p).2) (k := k)
    (r := (c.back k).1) (fun s p hs => hr s p hs) rfl hz).symm

/-- C112, refuted for rays that point backward: the raw coordinates are the place the pixel was taken from.  A frame of a camera
of the unified projection, undistorted to the same camera: the raw coordinates are right, the map is not. -/
theorem raw_map_refuted : ∃ (b : Box) (I : Fin 5 → ℝ) (back : V2 → V3 × Bool) (k k' : V2), UnifiedValid I ∧ InImage b k ∧
    unifiedBackProject Verif.Distortion.null I Fin.elim0 k = some (back k) ∧
    (∃ s, toRaw (some (unified Verif.Distortion.null b I Fin.elim0 back))
      (some (unified Verif.Distortion.null b I Fin.elim0 back)) k = .ok (s, some (some k))) ∧
    mapEntry (fun k => (unifiedBackProject Verif.Distortion.null I Fin.elim0 k).map Prod.fst)
      (fun p => (unifiedProject Verif.Distortion.null b I Fin.elim0 p).keypoint) k = some k' ∧ k'.1 < k.1 := by
  obtain ⟨b, I, k, k', hI, hk, ⟨r, hr, hp, -⟩, hm, -, h1, h2⟩ := Verif.Undistort.map_unified_refuted
  refine ⟨b, I, fun _ => (r, true), k, k', hI, hk, hr, ?_, hm, by rw [h1, h2]; norm_num⟩
  unfold toRaw unified
  simp only [if_true]
  exact ⟨_, congrArg Outcome.ok (Prod.ext rfl (congrArg some hp))⟩

/-- C112: the status is `invalid` and nothing is written if the keypoint has no ray. -/
theorem raw_failed {c r : Cam} {k : V2} (h : (c.back k).2 = false) :
    toRaw (some c) (some r) k = .ok (.invalid, none) := by
  unfold toRaw
  simp [h]

/-- C112, refuted: for a frame without raw camera the call fails cleanly. The pointer is followed without a check. -/
theorem raw_null_refuted {c : Cam} {k : V2} (h : (c.back k).2 = true) : toRaw (some c) none k = .ub := by
  unfold toRaw
  simp [h]

/-! ### Many keypoints -/

theorem markFailed_zipWith : ∀ (oks : List Bool) (ss : List Status), oks.length = ss.length →
    markFailed oks ss = List.zipWith (fun ok s => if ok then s else .invalid) oks ss
  | [], [], _ => rfl
  | [], _ :: _, h => by simp at h
  | _ :: _, [], h => by simp at h
  | ok :: oks, s :: ss, h => by
    rw [markFailed, List.zipWith_cons_cons, markFailed_zipWith oks ss (by simpa using h)]

/-- C112: the vectorised function gives as many results as keypoints, and for each keypoint the status that the other one
returns, and the same coordinates where that one writes them. -/
theorem raw_vectorized (c r : Cam) (ks : List V2) :
    ∃ out res, toRawVectorized (some c) (some r) ks = .ok (out, res) ∧ out.length = ks.length ∧
      res.length = ks.length ∧
      ∀ (i : Nat) (k : V2), ks[i]? = some k → ∃ s o, toRaw (some c) (some r) k = .ok (s, o) ∧ res[i]? = some s ∧
        ∀ q, o = some q → out[i]? = some q := by
  have hb := Verif.Camera.backProject3Vectorized_map c.back ks
  refine ⟨ks.map fun k => (r.proj (c.back k).1).2,
    ks.map fun k => if (c.back k).2 then (r.proj (c.back k).1).1 else .invalid, ?_, by simp, by simp, ?_⟩
  · unfold toRawVectorized
    simp only
    rw [hb]
    simp only
    rw [markFailed_zipWith _ _ (by simp)]
    simp only [List.map_map]
    congr 1
    refine Prod.ext (by simp [Function.comp_def]) ?_
    simp only [List.zipWith_map, List.zipWith_self, Function.comp_def]
  · intro i k hk
    simp only [List.getElem?_map, hk, Option.map_some]
    unfold toRaw
    cases h : (c.back k).2
    · exact ⟨.invalid, none, by simp [h], by simp, by simp⟩
    · exact ⟨(r.proj (c.back k).1).1, some (r.proj (c.back k).1).2, by simp [h], by simp, by simp⟩

/-! ### By index -/

/-- C112: an index below 2³¹ gives the raw coordinates of the keypoint, or ends the process if there is none. -/
theorem raw_index_partial (c r : Cam) (kps : List V2) {i : Nat} (hi : i < 2 ^ 31) :
    (∀ k, kps[i]? = some k → keypointToRaw (some c) (some r) kps i = toRaw (some c) (some r) k) ∧
      (kps.length ≤ i → keypointToRaw (some c) (some r) kps i = .abort) := by
  have hm : (i : Int).bmod (2 ^ 32) = i := by
    rw [Int.bmod_eq_of_le] <;> omega
  unfold keypointToRaw measurement
  rw [hm]
  constructor
  · intro k hk
    have hlt : i < kps.length := (List.getElem?_eq_some_iff.1 hk).1
    rw [if_pos (by exact_mod_cast hlt), hk, Outcome.bind_ok]
  · intro hl
    rw [if_neg (by omega)]
    rfl

/-- C112, refuted for other indices: an index of 2³¹ passes the check, whatever the frame holds, and the keypoint is read out
of bounds. -/
theorem raw_index_refuted (c r : Option Cam) (kps : List V2) (h : kps.length < 2 ^ 31) :
    keypointToRaw c r kps (2 ^ 31) = .ub := by
  unfold keypointToRaw measurement
  have hm : ((2 ^ 31 : Nat) : Int).bmod (2 ^ 32) = -2 ^ 31 := by decide
  rw [hm, if_pos (by omega), List.getElem?_eq_none (by omega)]
  rfl

/-! ### Cases -/

/-- A frame undistorted to a pinhole camera from a fisheye camera: a point that it sees. -/
example : PinholeValid ![100, 100, 50, 50] ∧ Sees (pinholeNull ⟨100, 100⟩ ![100, 100, 50, 50]) (1, 2, 10) (60, 70) := by
  constructor
  · unfold PinholeValid
    simp
  · unfold Sees pinholeNull
    simp only
    rw [Verif.Camera.pinhole_keypoint _ _ _ _ (by norm_num)]
    simp [Verif.Distortion.null]
    norm_num

end Verif.VisualFrame.Raw
