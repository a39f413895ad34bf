import Verif.TestRig.Model
import Verif.NCamera.Props
import Mathlib.Tactic.Linarith
import Mathlib.Tactic.LinearCombination
import Mathlib.Tactic.NormNum
import Mathlib.Tactic.Ring

/-!
# Rigs for tests: properties

Specification: a camera with pose T_C_B sees the point p of the body at R p + t; its centre is the point it sees at the
origin, its axis the direction that it sees along z.
-/

namespace Verif.TestRig

open Verif (Outcome)
open Verif.NCamera (Cam Rig construct copy initInternal initLoop idAt Agree deref getId isValid cloned clone_spec init_agree)

/-- Where the camera sees a point of the body. -/
def seen (T : Pose) (p : Vec) : Vec :=
  ⟨T.rotation.r0.x * p.x + T.rotation.r0.y * p.y + T.rotation.r0.z * p.z + T.position.x,
    T.rotation.r1.x * p.x + T.rotation.r1.y * p.y + T.rotation.r1.z * p.z + T.position.y,
    T.rotation.r2.x * p.x + T.rotation.r2.y * p.y + T.rotation.r2.z * p.z + T.position.z⟩

/-- `p` is where the camera is. -/
def Centre (T : Pose) (p : Vec) : Prop := seen T p = ⟨0, 0, 0⟩

/-- Going from any point in direction `d` is going along the axis of the camera. -/
def Axis (T : Pose) (d : Vec) : Prop :=
  ∀ p : Vec, seen T ⟨p.x + d.x, p.y + d.y, p.z + d.z⟩ = ⟨(seen T p).x, (seen T p).y, (seen T p).z + 1⟩

/-- A proper rotation: the rows are of unit length and at right angles, and right handed. -/
def Proper (R : Rot) : Prop :=
  R.r0.x ^ 2 + R.r0.y ^ 2 + R.r0.z ^ 2 = 1 ∧ R.r1.x ^ 2 + R.r1.y ^ 2 + R.r1.z ^ 2 = 1 ∧
    R.r0.x * R.r1.x + R.r0.y * R.r1.y + R.r0.z * R.r1.z = 0 ∧
    R.r2 = ⟨R.r0.y * R.r1.z - R.r0.z * R.r1.y, R.r0.z * R.r1.x - R.r0.x * R.r1.z, R.r0.x * R.r1.y - R.r0.y * R.r1.x⟩

/-- C110: the cameras of the test rig are proper, all of them look along the x axis of the body, and they stand in a row
along the y axis, 0.1 apart, the first at 0.1. -/
theorem test_poses (i : Nat) : Proper (testPose i).rotation ∧ Axis (testPose i) ⟨1, 0, 0⟩ ∧
    Centre (testPose i) ⟨0, (i + 1) / 10, 0⟩ := by
  refine ⟨?_, fun p => ?_, ?_⟩
  · refine ⟨?_, ?_, ?_, ?_⟩ <;> simp only [testPose, ofQuaternion] <;> norm_num
  · simp only [seen, testPose, ofQuaternion, Vec.mk.injEq]; refine ⟨?_, ?_, ?_⟩ <;> ring
  · simp only [Centre, seen, testPose, ofQuaternion, Vec.mk.injEq]; refine ⟨?_, ?_, ?_⟩ <;> ring

/-- A camera has one centre. -/
theorem Centre.unique {T : Pose} (hT : Proper T.rotation) {p q : Vec} (hp : Centre T p) (hq : Centre T q) : p = q := by
  obtain ⟨h0, h1, h01, h2⟩ := hT
  obtain ⟨⟨⟨a, b, c⟩, ⟨d, e, f⟩, ⟨g, h, k⟩⟩, ⟨t0, t1, t2⟩⟩ := T
  obtain ⟨px, py, pz⟩ := p
  obtain ⟨qx, qy, qz⟩ := q
  simp only [Centre, seen, Vec.mk.injEq] at *
  obtain ⟨rfl, rfl, rfl⟩ := h2
  obtain ⟨p0, p1, p2⟩ := hp
  obtain ⟨q0, q1, q2⟩ := hq
  have e0 : a * (px - qx) + b * (py - qy) + c * (pz - qz) = 0 := by linear_combination p0 - q0
  have e1 : d * (px - qx) + e * (py - qy) + f * (pz - qz) = 0 := by linear_combination p1 - q1
  have e2 : (b * f - c * e) * (px - qx) + (c * d - a * f) * (py - qy) + (a * e - b * d) * (pz - qz) = 0 := by
    linear_combination p2 - q2
  have hlag : (b * f - c * e) ^ 2 + (c * d - a * f) ^ 2 + (a * e - b * d) ^ 2 = 1 := by
    have : (b * f - c * e) ^ 2 + (c * d - a * f) ^ 2 + (a * e - b * d) ^ 2 =
        (a ^ 2 + b ^ 2 + c ^ 2) * (d ^ 2 + e ^ 2 + f ^ 2) - (a * d + b * e + c * f) ^ 2 := by ring
    rw [this, h0, h1, h01]; ring
  -- the determinant of the rows is one, so the difference vanishes
  have hx : px - qx = 0 := by
    have : (px - qx) * ((b * f - c * e) ^ 2 + (c * d - a * f) ^ 2 + (a * e - b * d) ^ 2) = 0 := by
      linear_combination (e * (a * e - b * d) - f * (c * d - a * f)) * e0 + (c * (c * d - a * f) - b * (a * e - b * d)) * e1 +
        (b * f - c * e) * e2
    rw [hlag, mul_one] at this; exact this
  have hy : py - qy = 0 := by
    have : (py - qy) * ((b * f - c * e) ^ 2 + (c * d - a * f) ^ 2 + (a * e - b * d) ^ 2) = 0 := by
      linear_combination (f * (b * f - c * e) - d * (a * e - b * d)) * e0 + (a * (a * e - b * d) - c * (b * f - c * e)) * e1 +
        (c * d - a * f) * e2
    rw [hlag, mul_one] at this; exact this
  have hz : pz - qz = 0 := by
    have : (pz - qz) * ((b * f - c * e) ^ 2 + (c * d - a * f) ^ 2 + (a * e - b * d) ^ 2) = 0 := by
      linear_combination (d * (c * d - a * f) - e * (b * f - c * e)) * e0 + (b * (b * f - c * e) - a * (c * d - a * f)) * e1 +
        (a * e - b * d) * e2
    rw [hlag, mul_one] at this; exact this
  refine ⟨?_, ?_, ?_⟩ <;> linarith

/-- C110: no two cameras of the test rig are in the same place. -/
theorem test_centres_differ {i j : Nat} {p : Vec} (hi : Centre (testPose i) p) (hj : Centre (testPose j) p) : i = j := by
  have h1 := Centre.unique (test_poses i).1 hi (test_poses i).2.2
  have h2 := Centre.unique (test_poses j).1 hj (test_poses j).2.2
  rw [h1] at h2
  simp only [Vec.mk.injEq, true_and, and_true] at h2
  have : (i : ℚ) = j := by linarith
  exact_mod_cast this

/-- C110: the four cameras of the surround rig are proper and look along x, y, -x and -y. -/
theorem surround_axes : surroundPoses.length = 4 ∧ (∀ T ∈ surroundPoses, Proper T.rotation) ∧
    List.Forall₂ Axis surroundPoses [⟨1, 0, 0⟩, ⟨0, 1, 0⟩, ⟨-1, 0, 0⟩, ⟨0, -1, 0⟩] := by
  refine ⟨rfl, ?_, ?_⟩
  · intro T hT
    simp only [surroundPoses, surroundRotation, surroundPosition, List.zipWith_cons_cons, List.zipWith_nil_right, List.mem_cons,
      List.not_mem_nil, or_false, Rot.transpose, Vec.neg] at hT
    rcases hT with rfl | rfl | rfl | rfl <;> (refine ⟨?_, ?_, ?_, ?_⟩ <;> norm_num)
  · simp only [surroundPoses, surroundRotation, surroundPosition, List.zipWith_cons_cons, List.zipWith_nil_right, Rot.transpose,
      Vec.neg]
    refine .cons ?_ (.cons ?_ (.cons ?_ (.cons ?_ .nil))) <;> intro p <;> simp only [seen, Vec.mk.injEq] <;>
      (refine ⟨?_, ?_, ?_⟩ <;> ring)

/-- C110, refuted: the cameras of the surround rig are not where `t_B_C` puts them: the translation of the inverse is not
rotated. The centres are on the y and z axes. -/
theorem surround_position_refuted :
    List.Forall₂ Centre surroundPoses [⟨0, -2, 0⟩, ⟨0, 0, -1⟩, ⟨0, -1, 0⟩, ⟨0, 0, 1⟩] ∧
      List.Forall₂ (fun T p => ¬ Centre T p) surroundPoses surroundPosition := by
  simp only [surroundPoses, surroundRotation, surroundPosition, List.zipWith_cons_cons, List.zipWith_nil_right, Rot.transpose,
      Vec.neg]
  constructor
  · refine .cons ?_ (.cons ?_ (.cons ?_ (.cons ?_ .nil))) <;> simp only [Centre, seen, Vec.mk.injEq] <;>
      (refine ⟨?_, ?_, ?_⟩ <;> norm_num)
  · refine .cons ?_ (.cons ?_ (.cons ?_ (.cons ?_ .nil))) <;> simp only [Centre, seen, Vec.mk.injEq] <;> norm_num

/-- C110, refuted: "a 4-camera rig in a plane": no plane contains the centres and the axes of the cameras. -/
theorem surround_plane_refuted : ¬ ∃ (n : Vec) (d : ℚ), n ≠ ⟨0, 0, 0⟩ ∧
    (∀ T ∈ surroundPoses, ∀ c, Centre T c → n.x * c.x + n.y * c.y + n.z * c.z = d) ∧
    (∀ T ∈ surroundPoses, ∀ a, Axis T a → n.x * a.x + n.y * a.y + n.z * a.z = 0) := by
  rintro ⟨⟨nx, ny, nz⟩, d, hn, hc, ha⟩
  have hx := surround_axes.2.2
  have hce := surround_position_refuted.1
  simp only [surroundPoses, surroundRotation, surroundPosition, List.zipWith_cons_cons, List.zipWith_nil_right,
    List.forall₂_cons, List.forall₂_nil_right_iff, and_true] at hx hce hc ha
  have a0 := ha _ (by simp) _ hx.1
  have a1 := ha _ (by simp) _ hx.2.1
  have c1 := hc _ (by simp) _ hce.2.1
  have c3 := hc _ (by simp) _ hce.2.2.2
  simp only at a0 a1 c1 c3
  refine hn ?_
  simp only [Vec.mk.injEq]
  refine ⟨?_, ?_, ?_⟩ <;> linarith

/-! ### The rigs as objects -/

theorem cams_get (gen : Nat → Nat) (d n k : Nat) (hk : k < n) : (testCameras gen d n)[k]? = some ⟨gen k, d, 0, true⟩ := by
  simp [testCameras, hk]

theorem initLoop_ok {cams : List Cam} : ∀ (ps : List (Option Nat)) (i : Nat) (m : List (Nat × Nat)),
    (∀ p ∈ ps, ∃ q c, p = some q ∧ cams[q]? = some c ∧ c.id ≠ 0) → ∃ m', initLoop cams ps i m = .ok m'
  | [], _, m, _ => ⟨m, rfl⟩
  | p :: ps, i, m, h => by
    obtain ⟨q, c, rfl, hc, hid⟩ := h p (by simp)
    obtain ⟨m', hm⟩ := initLoop_ok ps (i + 1) (NCamera.put m c.id i) fun p hp => h p (by simp [hp])
    refine ⟨m', ?_⟩
    unfold initLoop
    simp only [deref, hc, Outcome.bind_ok, getId, if_pos hid]
    exact hm

theorem cloned_ok {cams : List Cam} : ∀ (ps : List (Option Nat)),
    (∀ p ∈ ps, ∃ q c, p = some q ∧ cams[q]? = some c) → ∃ cs, cloned cams ps = .ok cs ∧ cs.length = ps.length ∧
      ∀ c ∈ cs, c ∈ cams
  | [], _ => ⟨[], rfl, rfl, by simp⟩
  | p :: ps, h => by
    obtain ⟨q, c, rfl, hc⟩ := h p (by simp)
    obtain ⟨cs, hcs, hl, hm⟩ := cloned_ok ps fun p hp => h p (by simp [hp])
    refine ⟨c :: cs, ?_, by simp [hl], ?_⟩
    · simp only [cloned, deref, hc, Outcome.bind_ok, hcs]
    · intro x hx
      rcases List.mem_cons.1 hx with rfl | hx
      · exact List.mem_of_getElem? hc
      · exact hm x hx

theorem isValid_ok {cams : List Cam} {r : Rig} (hid : r.id ≠ 0)
    (h : ∀ p ∈ r.cameras, ∃ q c, p = some q ∧ cams[q]? = some c ∧ c.id ≠ 0 ∧ c.sound = true) : isValid cams r = .ok true := by
  unfold isValid
  rw [if_neg hid]
  generalize r.cameras = l at h
  induction l with
  | nil => rfl
  | cons p ps ih =>
    obtain ⟨q, c, rfl, hc, hi, hs⟩ := h p (by simp)
    rw [List.foldr_cons, ih fun p hp => h p (by simp [hp])]
    simp [deref, hc, hi, hs]

/-- C110: a rig of any number of test cameras is made without failing: the rig is valid, its maps of ids and indices
agree, it has as many cameras as asked for, which are not those of the rig it was copied from and have different ids, and camera
`k` has pose `k`. -/
theorem rig_made {gen : Nat → Nat} (hg : ∀ k, gen k ≠ 0) (hinj : ∀ a b, gen a = gen b → a = b) (d n : Nat) :
    ∃ cams r, testRig gen d n = .ok (cams, r) ∧ Agree cams r ∧ isValid cams r = .ok true ∧ r.id = gen n ∧
      r.cameras.length = n ∧ r.T = List.range n ∧ ∀ k < n, r.cameras[k]? = some (some (n + k)) ∧
        cams[n + k]? = some ⟨gen k, d, 0, true⟩ := by
  have hlen : (testCameras gen d n).length = n := by simp [testCameras]
  have hps : ∀ p ∈ (List.range n).map some, ∃ q c, p = some q ∧ (testCameras gen d n)[q]? = some c ∧ c.id ≠ 0 := by
    intro p hp
    obtain ⟨k, hk, rfl⟩ := List.mem_map.1 hp
    exact ⟨k, _, rfl, cams_get gen d n k (List.mem_range.1 hk), hg k⟩
  obtain ⟨m, hm⟩ := initLoop_ok _ 0 [] hps
  have hinit : initInternal (testCameras gen d n) ⟨gen n, (List.range n).map some, List.range n, []⟩ =
      .ok ⟨gen n, (List.range n).map some, List.range n, m⟩ := by
    unfold initInternal
    rw [if_pos (by simp)]
    simp only [hm, Outcome.bind_ok]
  have hid : ∀ i id, idAt (testCameras gen d n) ((List.range n).map some) i = some id → i < n ∧ gen i = id := by
    intro i id h
    unfold idAt at h
    by_cases hi : i < n
    · simp [hi, testCameras] at h; exact ⟨hi, h⟩
    · simp [hi] at h
  obtain ⟨A, -, -, -⟩ := init_agree hinit (fun i j id h1 h2 => hinj _ _ ((hid i id h1).2.trans (hid j id h2).2.symm))
  obtain ⟨cs, hcs, hcl, hcm⟩ := cloned_ok (cams := testCameras gen d n) ((List.range n).map some)
    (fun p hp => by obtain ⟨q, c, h1, h2, _⟩ := hps p hp; exact ⟨q, c, h1, h2⟩)
  have hcl' : cs.length = n := by simpa using hcl
  have hgood : ∀ c ∈ cs, c.id ≠ 0 ∧ c.sound = true := by
    intro c hc
    obtain ⟨k, _, rfl⟩ := List.mem_map.1 (hcm c hc)
    exact ⟨hg k, rfl⟩
  have hps' : ∀ p ∈ (List.range cs.length).map (fun k => some ((testCameras gen d n).length + k)),
      ∃ q c, p = some q ∧ (testCameras gen d n ++ cs)[q]? = some c ∧ c.id ≠ 0 ∧ c.sound = true := by
    intro p hp
    obtain ⟨k, hk, rfl⟩ := List.mem_map.1 hp
    have hk' := List.mem_range.1 hk
    refine ⟨_, cs[k], rfl, ?_, hgood _ (List.getElem_mem hk')⟩
    rw [List.getElem?_append_right (by omega)]
    simp [List.getElem?_eq_getElem hk']
  obtain ⟨m', hm'⟩ := initLoop_ok (cams := testCameras gen d n ++ cs) _ 0 [] (fun p hp => by
    obtain ⟨q, c, h1, h2, h3, _⟩ := hps' p hp; exact ⟨q, c, h1, h2, h3⟩)
  have hval : isValid (testCameras gen d n ++ cs) ⟨gen n, (List.range cs.length).map (fun k => some ((testCameras gen d n).length + k)),
      List.range n, m'⟩ = .ok true := isValid_ok (hg n) hps'
  have hcopy : copy (testCameras gen d n) ⟨gen n, (List.range n).map some, List.range n, m⟩ = .ok (testCameras gen d n ++ cs,
      ⟨gen n, (List.range cs.length).map (fun k => some ((testCameras gen d n).length + k)), List.range n, m'⟩) := by
    unfold copy
    simp only [hcs, Outcome.bind_ok]
    unfold initInternal
    rw [if_pos (by simp [hcl'])]
    simp only [hm', Outcome.bind_ok, hval, if_true]
  obtain ⟨A', -, -, -, -, cs', he, -, hcam, hall⟩ := clone_spec A hcopy
  refine ⟨_, _, ?_, A', hval, rfl, by simp [hcl'], rfl, ?_⟩
  · unfold testRig
    simp only [construct, if_pos (hg n), hinit, Outcome.bind_ok, hcopy]
  · intro k hk
    refine ⟨by simp [hcl', hk, hlen], ?_⟩
    obtain ⟨p, c, h1, h2, h3, _⟩ := hall k (by simpa using hk)
    have : cs' = cs := (List.append_cancel_left he).symm
    subst this
    rw [List.getElem?_append_right (by omega), hlen, Nat.add_sub_cancel_left, h3, ← h2]
    simp only [List.getElem?_map, List.getElem?_range hk, Option.map_some, Option.some.injEq] at h1
    rw [← h1, cams_get gen d n k hk]

example : ∃ cams r, createTestNCamera (· + 1) 3 = .ok (cams, r) ∧ r.cameras.length = 3 ∧ Agree cams r := by
  obtain ⟨cams, r, h, A, _, _, hl, _⟩ := rig_made (gen := (· + 1)) (by simp) (by intro a b h; simpa using h) 1 3
  exact ⟨cams, r, h, hl, A⟩

/-- C110: the surround rig is made without failing and has four cameras. -/
theorem surround_made {gen : Nat → Nat} (hg : ∀ k, gen k ≠ 0) (hinj : ∀ a b, gen a = gen b → a = b) :
    ∃ cams r, createSurroundViewTestNCamera gen = .ok (cams, r) ∧ Agree cams r ∧ r.cameras.length = surroundPoses.length ∧
      r.T = List.range surroundPoses.length := by
  obtain ⟨cams, r, h, A, _, _, hl, hT, _⟩ := rig_made hg hinj 0 4
  exact ⟨cams, r, h, A, hl, hT⟩

end Verif.TestRig
