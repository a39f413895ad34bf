import Verif.Base.Outcome
import Verif.Camera.Lidar

/-!
# Random keypoints and points, border rays

Model of `createRandomKeypoint`, `createRandomVisiblePoint` and `getBorderRays` of the cameras (camera-pinhole.cc,
camera-unified-projection.cc, camera-3d-lidar.cc).  What `setRandom` and `rand` give are parameters; exact reals,
numbers that are not finite are `none`.
-/

namespace Verif.Camera

open Verif (Outcome)
open Verif.Distortion (Model)
open Classical

/-- `PinholeCamera::createRandomKeypoint` (camera-pinhole.cc:166-177) and `Camera3DLidar::createRandomKeypoint`
(camera-3d-lidar.cc:76-87); `r` is what `setRandom` gives. -/
noncomputable def randomKeypoint (b : Box) (r : V2) : V2 :=
  let border : ℝ := (min b.width b.height : Nat) * 0.1
  (border + |r.1| * (b.width - border * 2), border + |r.2| * (b.height - border * 2))

/-- Division by the norm and multiplication with the depth (camera-pinhole.cc:185-188, camera-unified-projection.cc:284-287,
camera-3d-lidar.cc:95-98). -/
noncomputable def toDepth (p : V3) (depth : ℝ) : Option V3 :=
  if norm3 p = 0 then none
  else some (p.1 / norm3 p * depth, p.2.1 / norm3 p * depth, p.2.2 / norm3 p * depth)

/-- `PinholeCamera::createRandomVisiblePoint` (camera-pinhole.cc:179-189). -/
noncomputable def pinholeRandomPoint {n : Nat} (D : Model n) (b : Box) (I : Fin 4 → ℝ) (c : Fin n → ℝ) (r : V2)
    (depth : ℝ) : Outcome (Option V3) :=
  if ¬ depth > 0 then .abort
  else
    let y := randomKeypoint b r
    .ok ((pinholeBackProject D I c y).1.bind fun p => toDepth p depth)

/-- `Camera3DLidar::createRandomVisiblePoint` (camera-3d-lidar.cc:89-99). -/
noncomputable def lidarRandomPoint (L : LidarParams) (b : Box) (r : V2) (depth : ℝ) : Outcome (Option V3) :=
  if ¬ depth > 0 then .abort
  else
    let y := randomKeypoint b r
    .ok (toDepth (lidarBackProject L y) depth)

/-- `isLiftable` (camera-unified-projection.cc:224-234).  If undistorting is not finite, the second comparison is false. -/
noncomputable def isLiftable {n : Nat} (D : Model n) (I : Fin 5 → ℝ) (c : Fin n → ℝ) (k : V2) : Prop :=
  match D.undistort c (1 / I 1 * (k.1 - I 3), 1 / I 2 * (k.2 - I 4)) with
  | none => I 0 ≤ 1
  | some y => isUndistortedKeypointValid (y.1 * y.1 + y.2 * y.2) (I 0)

/-- The random keypoint of one round (camera-unified-projection.cc:253-263): `draw` is what `setRandom` and the quotient of
`rand` and `RAND_MAX` give.  For `xi = 1` the factor is infinite, and the keypoint is taken to stay not finite. -/
noncomputable def drawn {n : Nat} (D : Model n) (I : Fin 5 → ℝ) (c : Fin n → ℝ) (draw : V2 × ℝ) : Option V2 :=
  if I 0 * I 0 - 1 = 0 then none
  else
    let f := draw.2 * (1 / (I 0 * I 0 - 1)) * 0.8
    let u := D.distort c (draw.1.1 * f, draw.1.2 * f)
    some (I 1 * u.1 + I 3, I 2 * u.2 + I 4)

/-- The loop of `UnifiedProjectionCamera::createRandomKeypoint` (camera-unified-projection.cc:251-272), `tries` is
`max_tries`, `i` the round. -/
noncomputable def drawLoop {n : Nat} (D : Model n) (b : Box) (I : Fin 5 → ℝ) (c : Fin n → ℝ) (draws : Nat → V2 × ℝ) :
    Nat → Nat → Option V2 → Option V2
  | 0, _, _ => some (I 3, I 4)
  | tries + 1, i, u =>
    if ∃ k, u = some k ∧ isLiftable D I c k ∧ isKeypointVisible b k then u
    else
      let u := drawn D I c (draws i)
      if tries < 1 then some (I 3, I 4) else drawLoop D b I c draws tries (i + 1) u

/-- `UnifiedProjectionCamera::createRandomKeypoint` (camera-unified-projection.cc:236-273). -/
noncomputable def unifiedRandomKeypoint {n : Nat} (D : Model n) (b : Box) (I : Fin 5 → ℝ) (c : Fin n → ℝ)
    (draws : Nat → V2 × ℝ) : Option V2 :=
  drawLoop D b I c draws 20 0 (some (b.width + 1, b.height + 1))

/-- `UnifiedProjectionCamera::createRandomVisiblePoint` (camera-unified-projection.cc:275-292).  A point that is not finite
fails the last check. -/
noncomputable def unifiedRandomPoint {n : Nat} (D : Model n) (b : Box) (I : Fin 5 → ℝ) (c : Fin n → ℝ)
    (draws : Nat → V2 × ℝ) (depth : ℝ) : Outcome V3 :=
  if ¬ depth > 0 then .abort
  else
    match (unifiedRandomKeypoint D b I c draws).bind (unifiedBackProject D I c) with
    | none => .abort
    | some (p, success) =>
      if ¬ success then .abort
      else
        match toDepth p depth with
        | none => .abort
        | some q => if (unifiedProject D b I c q).status = .visible then .ok q else .abort

/-- The keypoints of `getBorderRays` (camera-pinhole.cc:194-208, camera-3d-lidar.cc:104-118). -/
noncomputable def borderKeypoints (b : Box) : List V2 :=
  [(0, 0), (0, b.height * 0.5), (0, b.height - 1), (b.width - 1, 0), (b.width - 1, b.height * 0.5),
    (b.width - 1, b.height - 1), (b.width * 0.5, 0), (b.width * 0.5, b.height - 1)]

/-- `PinholeCamera::getBorderRays` (camera-pinhole.cc:191-210): the columns, `none` if they are not finite. -/
noncomputable def pinholeBorderRays {n : Nat} (D : Model n) (b : Box) (I : Fin 4 → ℝ) (c : Fin n → ℝ) :
    List (Option V4) :=
  (borderKeypoints b).map fun k => (pinholeBackProject D I c k).1.map backProject4

/-- `Camera3DLidar::getBorderRays` (camera-3d-lidar.cc:101-119). -/
noncomputable def lidarBorderRays (b : Box) (L : LidarParams) : List V4 :=
  (borderKeypoints b).map fun k => backProject4 (lidarBackProject L k)

end Verif.Camera
