import Verif.Yaml.Sensor

/-!
# Making and changing cameras

Model of the constructors of the cameras and distortions, of the factories (`aslam_cv_cameras/src/camera-factory.cc`,
`aslam_cv_cameras/include/aslam/cameras/camera-factory.h`, `camera-inl.h`), of the setters of a camera
(`aslam_cv_cameras/include/aslam/cameras/camera.h`, `aslam_cv_common/include/aslam/common/sensor.h`), and of `clone`,
`isValid`, `setRandom` and the test cameras.

The kinds, the validity of parameters and the comparison of two cameras are those of `Verif.Yaml.Sensor`. Doubles are
rationals (no NaN). Here the pointer to the distortion may be null, and a mask is its number of rows and columns. Ids
that the code generates are arguments.
-/

namespace Verif.CameraLife

open Verif (Outcome)
open Verif.HashId (Id)
open Verif.Yaml (Base Kind DistKind Dist Cam intrinsicsValid distValid isApprox baseEqual)

/-- A camera (camera.h:664-684, sensor.h:98-101): `cls` is its class, `type` the member `camera_type_`, `dist` is `none`
for a null pointer, `mask` is `none` for an empty mask, and rows and columns otherwise. -/
structure Obj where
  base : Base
  cls : Kind
  type : Kind
  width : Nat
  height : Nat
  lineDelay : Nat
  compressed : Bool
  intrinsics : List ℚ
  dist : Option Dist
  mask : Option (Nat × Nat)
  deriving DecidableEq

/-- `NullDistortion()` (distortion-null.h:27). -/
def nullDist : Dist := ⟨.nothing, []⟩

/-- The constructors of the distortions (distortion-equidistant.cc:9-12, distortion-fisheye.cc:9-12,
distortion-radtan.cc:9-12, distortion-null.h:27), as called in camera-factory.cc:24-42: `NullDistortion` is not given the
parameters. -/
def newDist : DistKind → List ℚ → Outcome Dist
  | .nothing, _ => .ok nullDist
  | k, p => if distValid k p then .ok ⟨k, p⟩ else .abort

/-- The constructors of the base class (camera.cc:42-63), of which one checks that there is a distortion, and
`Sensor::Sensor()` (sensor.cc:5-7). -/
def newBase (gen : Id) (k : Kind) (p : List ℚ) (w h : Nat) (d : Dist) : Obj :=
  { base := ⟨gen, "", ""⟩, cls := k, type := k, width := w, height := h, lineDelay := 0, compressed := false,
    intrinsics := p, dist := some d, mask := none }

/-- The constructors of the cameras (camera-pinhole.cc:20-45, camera-unified-projection.cc:23-52,
camera-3d-lidar.cc:20-25). -/
def newCamera (gen : Id) (k : Kind) (p : List ℚ) (w h : Nat) (d : Dist) : Outcome Obj :=
  if intrinsicsValid k p then .ok (newBase gen k p w h d) else .abort

/-- The default constructors (camera-pinhole.cc:17-18, camera-unified-projection.cc:18-21, camera-3d-lidar.cc:17-18). -/
def defaultCamera (gen : Id) (k : Kind) : Obj :=
  newBase gen k (List.replicate (match k with | .pinhole => 4 | .unified => 5 | .lidar => 3) 0) 0 0 nullDist

/-- `setId` (sensor.h:53-56). -/
def setId (id : Id) (c : Obj) : Outcome Obj :=
  if id.isValid then .ok { c with base := { c.base with id := id } } else .abort

/-- `createCamera` from types (camera-factory.cc:17-64). -/
def createCamera (gen id : Id) (p : List ℚ) (w h : Nat) (q : List ℚ) (k : Kind) (dk : DistKind) : Outcome Obj :=
  if id.isValid then
    newDist dk q >>= fun d =>
      if distValid dk q then
        (match k with
          | .pinhole => newCamera gen .pinhole p w h d
          | .unified => newCamera gen .unified p w h d
          | .lidar => .abort) >>= setId id
      else .abort
  else .abort

/-- `createCamera<CameraType, DistortionType>` (camera-factory.h:24-37), which is for distortions with parameters, and
`createCamera<CameraType>` (camera-factory.h:46-55) with no distortion: `id` is the generated id. -/
def createCameraOf (gen id : Id) (p : List ℚ) (w h : Nat) (k : Kind) (dk : DistKind) (q : List ℚ) : Outcome Obj :=
  newDist dk q >>= fun d => newCamera gen k p w h d >>= setId id

/-- `Camera::construct` (camera-inl.h:5-14). -/
def construct (gen : Id) (p : List ℚ) (w h : Nat) (k : Kind) (dk : DistKind) (q : List ℚ) : Outcome Obj :=
  newDist dk q >>= fun d => newCamera gen k p w h d

/-- The parameters of the test cameras (camera-pinhole.cc:275, camera-unified-projection.cc:362,
camera-3d-lidar.h:236-241): `M_PI` is 884279719003555 / 2^48, decimal constants stand for themselves. -/
def testIntrinsics : Kind → List ℚ
  | .pinhole => [400, 300, 320, 240]
  | .unified => [9 / 10, 400, 300, 320, 240]
  | .lidar => [2 * (884279719003555 / 281474976710656) / 1024, 9203703 / 1000000000, 289916642 / 1000000000, 0]

/-- The size of the images of the test cameras (camera-pinhole.cc:275, camera-unified-projection.cc:362,
camera-3d-lidar.h:243-244). -/
def testSize : Kind → Nat × Nat
  | .pinhole => (640, 480)
  | .unified => (640, 480)
  | .lidar => (1024, 64)

/-- `createTestDistortion` (distortion-null.h:131-133, distortion-equidistant.h:108-111, distortion-fisheye.h:102-105,
distortion-radtan.h:96-99). -/
def testCoefficients : DistKind → List ℚ
  | .nothing => []
  | .equidistant => [1 / 5, 1 / 100, 3 / 10, 1 / 20]
  | .fisheye => [11 / 10]
  | .radtan => [-28 / 100, 8 / 100, -26 / 100000, -24 / 100000]

/-- `createTestCamera` (camera-pinhole.cc:274-280, camera-unified-projection.cc:360-367) and `createTestCameraUnique`
(camera-pinhole.h:248-256, camera-unified-projection.h:253-261, camera-3d-lidar.h:235-250, which does not use the
distortion it is given). -/
def testCamera (gen id : Id) (k : Kind) (dk : DistKind) : Outcome Obj :=
  (match k with
    | .lidar => .ok nullDist
    | _ => newDist dk (testCoefficients dk)) >>= fun d =>
    newCamera gen k (testIntrinsics k) (testSize k).1 (testSize k).2 d >>= setId id

/-- `parameterCount` (camera-pinhole.h:30, 216-218, camera-unified-projection.h:31, 222-224, camera-3d-lidar.h:21, 199-201). -/
def parameterCount : Kind → Nat
  | .pinhole => 4
  | .unified => 5
  | .lidar => 4

/-- `Sensor::isValid` and `isValidImpl` of the cameras (sensor.cc:25-31, camera-pinhole.cc:236-238,
camera-unified-projection.cc:321-323, camera-3d-lidar.cc:144-146). -/
def isValid (c : Obj) : Bool := c.base.id.isValid && intrinsicsValid c.cls c.intrinsics

/-- `hasDistortion` (camera.h:568-571). -/
def hasDistortion (c : Obj) : Outcome Bool :=
  match c.dist with
  | some d => .ok (decide (d.kind ≠ .nothing))
  | none => .abort

/-- `clone` (crtp-clone.h:28-30, camera.h:188-200). -/
def clone (c : Obj) : Outcome Obj :=
  match c.dist with
  | some d => .ok { c with dist := some d }
  | none => .abort

/-- `Sensor::isEqual` of two cameras (sensor.cc:98-123, camera-pinhole.cc:254-272 and the same in the others,
camera.cc:77-104). A null pointer to the distortion is dereferenced. -/
def isEqual (a b : Obj) : Outcome Bool :=
  if baseEqual a.base b.base then
    if a.cls = b.cls then
      isApprox a.intrinsics b.intrinsics >>= fun e =>
        if e && decide (a.lineDelay = b.lineDelay) && decide (a.width = b.width) && decide (a.height = b.height)
            && decide (a.compressed = b.compressed) then
          match a.dist, b.dist with
          | some d, some e => .ok (decide (d = e))
          | _, _ => .ub
        else .ok false
    else .ok false
  else .ok false

/-- `setRandom` (sensor.cc:33-36) with `setRandomImpl` (camera-pinhole.cc:240-252, camera-unified-projection.cc:325-338,
camera-3d-lidar.cc:148-160): `id` is the generated id, `gen` and `test` those of the test camera. -/
def setRandom (id gen test : Id) (c : Obj) : Outcome Obj :=
  testCamera gen test c.cls .nothing >>= fun t =>
    .ok { c with base := { c.base with id := id }, lineDelay := t.lineDelay, width := t.width, height := t.height,
                 mask := t.mask, intrinsics := t.intrinsics, type := t.type,
                 dist := if t.dist.isSome then t.dist else c.dist }

/-- `getDistortionMutable()->setParameters` (camera.h:553-555, distortion.cc:65-68). -/
def setDistortionParameters (q : List ℚ) (c : Obj) : Outcome Obj :=
  match c.dist with
  | some d => if distValid d.kind q then .ok { c with dist := some { d with coeffs := q } } else .abort
  | none => .abort

/-- A change of a camera (sensor.h:53-73, camera.h:441-611, camera.cc:429-438). -/
inductive Op where
  | setId (id : Id)
  | setTopic (s : String)
  | setDescription (s : String)
  | setLineDelay (n : Nat)
  | setCompressed (b : Bool)
  | setParameters (p : List ℚ)
  | pokeParameter (i : Nat) (x : ℚ)
  | setDistortion (d : Option Dist)
  | removeDistortion
  | setDistortionParameters (q : List ℚ)
  | pokeDistortion (i : Nat) (x : ℚ)
  | setMask (rows cols : Nat) (grey : Bool)
  | clearMask
  | setRandom (id gen test : Id)

/-- One change (sensor.h:53-73, camera.h:445-447, 498-500, 553-555, 563-565, 574-576, 589-598, camera.cc:429-438).
`pokeParameter` and `pokeDistortion` write through the pointers of `getParametersMutable` (camera.h:589-591,
distortion.h:154): beyond the end of the vector this is undefined. -/
def step (c : Obj) : Op → Outcome Obj
  | .setId id => setId id c
  | .setTopic s => .ok { c with base := { c.base with topic := s } }
  | .setDescription s => .ok { c with base := { c.base with description := s } }
  | .setLineDelay n => .ok { c with lineDelay := n }
  | .setCompressed b => .ok { c with compressed := b }
  | .setParameters p => if parameterCount c.cls = p.length then .ok { c with intrinsics := p } else .abort
  | .pokeParameter i x => if i < c.intrinsics.length then .ok { c with intrinsics := c.intrinsics.set i x } else .ub
  | .setDistortion d => .ok { c with dist := d }
  | .removeDistortion => .ok { c with dist := some nullDist }
  | .setDistortionParameters q => setDistortionParameters q c
  | .pokeDistortion i x =>
    match c.dist with
    | some d => if i < d.coeffs.length then .ok { c with dist := some { d with coeffs := d.coeffs.set i x } } else .ub
    | none => .abort
  | .setMask rows cols grey =>
    if c.height = rows then
      if c.width = cols then
        if grey then .ok { c with mask := if rows = 0 ∨ cols = 0 then none else some (rows, cols) } else .abort
      else .abort
    else .abort
  | .clearMask => .ok { c with mask := none }
  | .setRandom id gen test => setRandom id gen test c

/-- Several changes. -/
def run (c : Obj) : List Op → Outcome Obj
  | [] => .ok c
  | o :: os => step c o >>= fun c => run c os

end Verif.CameraLife
