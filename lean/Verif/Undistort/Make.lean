import Verif.Undistort.Model

/-!
# Making and using undistorters

Model of `aslam_cv_pipeline/include/aslam/pipeline/undistorter-mapped-inl.h`,
`aslam_cv_pipeline/src/undistorter-mapped.cc` and `undistorter.{h,cc}`, in exact real arithmetic.  Left out: the topic and
description of the cameras, and their flag for compressed images.  `cv::remap` is modelled as OpenCV documents and
implements it for images with one channel of 8 bits and bilinear interpolation; the other interpolations are a parameter.
-/

namespace Verif.Undistort

open Verif (Outcome)
open Verif.Camera (V2 V3 Box PinholeValid UnifiedValid pinholeProject pinholeBackProject unifiedProject unifiedBackProject)
open Verif.Distortion (Model)
open Classical

/-! ### Cameras -/

/-- The type of a camera and its intrinsics (camera.h:664-684); `other` is a lidar. -/
inductive Projection where
  | pinhole (i : Fin 4 → ℝ)
  | unified (i : Fin 5 → ℝ)
  | other

/-- A camera (camera.h:664-684, sensor.h:98-101). -/
structure Cam where
  id : Nat
  lineDelay : Nat
  mask : Option (Nat × Nat)
  width : Nat
  height : Nat
  projection : Projection
  n : Nat
  distortion : Model n
  coefficients : Fin n → ℝ

/-- `getDistortion().undistort` (undistort-helpers.h:79); values that are not finite are left out. -/
noncomputable def Cam.undistort (c : Cam) (k : V2) : V2 := (c.distortion.undistort c.coefficients k).getD (0, 0)

/-- `backProject3` (undistort-helpers.h:69, 195); the result is not looked at. -/
noncomputable def Cam.backProject (c : Cam) (k : V2) : Option V3 :=
  match c.projection with
  | .pinhole i => (pinholeBackProject c.distortion i c.coefficients k).1
  | .unified i => (unifiedBackProject c.distortion i c.coefficients k).map Prod.fst
  | .other => none

/-- `project3` (undistort-helpers.h:197); the result is not looked at. -/
noncomputable def Cam.project (c : Cam) (p : V3) : Option V2 :=
  match c.projection with
  | .pinhole i => (pinholeProject c.distortion ⟨c.width, c.height⟩ i c.coefficients p).keypoint
  | .unified i => (unifiedProject c.distortion ⟨c.width, c.height⟩ i c.coefficients p).keypoint
  | .other => none

/-- The constructors of cameras without distortion (camera-pinhole.cc:27-31, camera-unified-projection.cc:31-35,
camera.cc:56-65) with a generated id (sensor.cc:5-7, camera-factory.h:48-55). -/
noncomputable def newCam (fresh : Nat) (p : Projection) (w h : Nat) : Outcome Cam :=
  let c : Cam := ⟨fresh, 0, none, w, h, p, 0, Verif.Distortion.null, Fin.elim0⟩
  match p with
  | .pinhole i => if PinholeValid i then .ok c else .abort
  | .unified i => if UnifiedValid i then .ok c else .abort
  | .other => .abort

/-! ### Maps -/

/-- The maps for `cv::remap`: their sizes and, for maps of type `CV_16SC2` with `CV_16UC1`, the entry of a column and row
(undistorter-mapped.h:76-79). -/
structure Maps where
  rowsU : Nat
  colsU : Nat
  rowsV : Nat
  colsV : Nat
  entry : Nat → Nat → Packed

/-- The map types that are accepted (undistort-helpers.h:174). -/
inductive MapType where
  | fixed
  | floats
  | pairs
  deriving DecidableEq, Repr

/-- The place in the input image that an output pixel shows (undistort-helpers.h:190-200). -/
noncomputable def position (input output : Cam) (j i : Nat) : Option V2 :=
  mapEntry output.backProject input.project (j, i)

/-- `buildUndistortMap` (undistort-helpers.h:165-220).  `round` is `cv::saturate_cast<int>` of a double, `junk` the entry of a
place that is not finite.  The entries of the other two types are not modelled here. -/
noncomputable def buildMaps (round : ℝ → ℤ) (junk : Packed) (t : MapType) (input output : Cam) : Maps where
  rowsU := output.height
  colsU := output.width
  rowsV := if t = .pairs then 0 else output.height
  colsV := if t = .pairs then 0 else output.width
  entry j i :=
    match position input output j i with
    | some k => pack (round (k.1 * 32)) (round (k.2 * 32))
    | none => junk

/-! ### Undistorters -/

/-- `InterpolationMethod` (types.h:10-23). -/
inductive Method where
  | linear
  | cubic
  | lanczos
  | nearest
  | area
  deriving DecidableEq, Repr

/-- `MappedUndistorter` (undistorter-mapped.h:75-81, undistorter.h:40-45); null pointers are `none`. -/
structure Undistorter where
  input : Option Cam
  output : Option Cam
  maps : Maps
  method : Method

/-- The constructor (undistorter-mapped.cc:49-58).  The output camera is looked at, the input camera is not. -/
def construct (input output : Option Cam) (m : Maps) (method : Method) : Outcome Undistorter :=
  match output with
  | none => .ub
  | some o =>
    if m.rowsU ≠ o.height then .abort
    else if m.colsU ≠ o.width then .abort
    else if m.rowsV ≠ o.height then .abort
    else if m.colsV ≠ o.width then .abort
    else .ok ⟨input, output, m, method⟩

/-- The surroundings of a call that makes an undistorter: `static_cast<int>(scale * size)` as computed with `float`
(undistorter-mapped.cc:32-33, undistorter-mapped-inl.h:53-55), rounding, the entry for places that are not finite, and the
generated id. -/
structure Ctx where
  times : ℝ → Nat → ℤ
  round : ℝ → ℤ
  junk : Packed
  fresh : Nat

/-- The checks of the arguments (undistorter-mapped.cc:14-16, undistorter-mapped-inl.h:40-42). -/
noncomputable def checked (alpha scale : ℝ) : Bool := decide (alpha ≥ 0) && decide (alpha ≤ 1) && decide (scale > 0)

/-- The output camera from its matrix, and the undistorter (undistorter-mapped.cc:28-44, undistorter-mapped-inl.h:53-91). -/
noncomputable def finish (x : Ctx) (c : Cam) (scale : ℝ) (method : Method) (p : Projection) : Outcome Undistorter :=
  newCam x.fresh p (x.times scale c.width).toNat (x.times scale c.height).toNat >>= fun o =>
    construct (some c) (some o) (buildMaps x.round x.junk .fixed c o) method

/-- The samples of a camera that is undistorted to one of its own kind (undistort-helpers.h:35-84), for its camera
matrix. -/
noncomputable def ownSamples (c : Cam) (fx fy cx cy : ℝ) : List Sample :=
  samples c.width c.height (normalizePlain fx fy cx cy c.undistort)

/-- The samples of a camera that is undistorted to a pinhole camera (undistort-helpers.h:35-84). -/
noncomputable def pinholeSamples (c : Cam) : List Sample :=
  samples c.width c.height (normalizeFull fun k => (c.backProject k).getD (0, 0, 0))

/-- The camera matrix for samples (undistort-helpers.h:119-155). -/
noncomputable def matrixOf (c : Cam) (ss : List Sample) (alpha scale : ℝ) : Outcome CameraMatrix :=
  newCameraMatrix c.width c.height (rectangles ss).1 (rectangles ss).2 alpha scale

/-- `createMappedUndistorter` (undistorter-mapped-inl.h:10-92).  The clone of the camera is the camera. -/
noncomputable def createMapped (x : Ctx) (c : Cam) (alpha scale : ℝ) (method : Method) : Outcome Undistorter :=
  if checked alpha scale = false then .abort
  else
    match c.projection with
    | .pinhole i => matrixOf c (ownSamples c (i 0) (i 1) (i 2) (i 3)) alpha scale >>= fun K =>
        finish x c scale method (.pinhole ![K.fx, K.fy, K.cx, K.cy])
    | .unified i => matrixOf c (ownSamples c (i 1) (i 2) (i 3) (i 4)) alpha scale >>= fun K =>
        finish x c scale method (.unified ![i 0, K.fx, K.fy, K.cx, K.cy])
    | .other => .abort

/-- `createMappedUndistorterToPinhole` (undistorter-mapped.cc:11-45).  It takes cameras of the unified projection; there is no
call for others. -/
noncomputable def createToPinhole (x : Ctx) (c : Cam) (alpha scale : ℝ) (method : Method) : Outcome Undistorter :=
  if checked alpha scale = false then .abort
  else
    match c.projection with
    | .unified _ => matrixOf c (pinholeSamples c) alpha scale >>= fun K =>
        finish x c scale method (.pinhole ![K.fx, K.fy, K.cx, K.cy])
    | _ => .ub

/-! ### Images -/

/-- An image with one channel of 8 bits (undistorter-mapped.cc:60-65). -/
structure Img where
  width : Nat
  height : Nat
  px : Nat → Nat → Nat

/-- The pixel at a column and row; outside of the image it is zero, the default of `cv::remap` (undistorter-mapped.cc:64). -/
def Img.at (m : Img) (x y : Int) : Nat :=
  if 0 ≤ x ∧ x < m.width ∧ 0 ≤ y ∧ y < m.height then m.px x.toNat y.toNat else 0

/-- Bilinear interpolation by `cv::remap` (undistorter-mapped.cc:64): weights in 1024ths, rounded. -/
def bilinear (m : Img) (p : Packed) : Nat :=
  let a := p.frac % 32
  let b := p.frac / 32
  ((32 - a) * (32 - b) * m.at p.u p.v + a * (32 - b) * m.at (p.u + 1) p.v + (32 - a) * b * m.at p.u (p.v + 1) +
    a * b * m.at (p.u + 1) (p.v + 1) + 512) / 1024

/-- The interpolation of a method; `cv::remap` takes `INTER_AREA` for `INTER_LINEAR` (undistorter-mapped.cc:64). -/
def interpolate (others : Method → Img → Packed → Nat) : Method → Img → Packed → Nat
  | .linear, m, p => bilinear m p
  | .area, m, p => bilinear m p
  | o, m, p => others o m p

/-- `MappedUndistorter::processImage` (undistorter-mapped.cc:60-65): the output image.  `out` says whether there is a place
for it. -/
def processImage (others : Method → Img → Packed → Nat) (u : Undistorter) (m : Img) (out : Bool) : Outcome Img :=
  match u.input with
  | none => .ub
  | some c =>
    if c.width ≠ m.width then .abort
    else if c.height ≠ m.height then .abort
    else if out = false then .abort
    else .ok ⟨u.maps.colsU, u.maps.rowsU, fun j i => interpolate others u.method m (u.maps.entry j i)⟩

end Verif.Undistort
