import Verif.Base.Outcome
import Mathlib.Data.Rat.Floor
import Mathlib.Algebra.Order.Floor.Defs

/-!
# Rolling shutters and masks of cameras

`aslam_cv_cameras/include/aslam/cameras/camera.h`, `aslam_cv_cameras/src/camera.cc` and
`aslam_cv_cameras/include/aslam/cameras/camera-3d-lidar.h`.

Numbers of the C++ types are `Nat` and `Int` with the ranges written where they matter; coordinates of keypoints are
rational numbers, an infinity or NaN.
-/

namespace Verif.CameraMask

open Verif (Outcome)

/-- A `double` (the coordinates of a keypoint, camera.h:454, 624). -/
inductive Coord where
  | nan
  | inf (negative : Bool)
  | num (x : ℚ)
  deriving DecidableEq

/-- Truncation towards zero, as conversion from floating point to integers does (camera.h:454-459, 629-632). -/
def trunc (x : ℚ) : Int := if 0 ≤ x then ⌊x⌋ else ⌈x⌉

/-- `static_cast<intN_t>(x)`: undefined if the truncated value is not in the range of the type
(camera.h:456, 629-632). -/
def castInt (bits : Nat) : Coord → Outcome Int
  | .num x => if -(2 : Int) ^ (bits - 1) ≤ trunc x ∧ trunc x < (2 : Int) ^ (bits - 1) then .ok (trunc x) else .ub
  | _ => .ub

/-- Conversion of the product of an `int64_t` and a `uint64_t`, which is a `uint64_t`, to `int64_t`. -/
def toInt64 (n : Int) : Int := Int.bmod n (2 ^ 64)

/-- Classes of cameras (camera.h:124-128). -/
inductive Cls where
  | pinhole
  | unified
  | lidar
  deriving DecidableEq

/-- What a camera needs for rolling shutters (camera.h:666-670): width and height are `uint32_t`, the line delay is a
`uint64_t`. -/
structure Shutter where
  cls : Cls
  width : Nat
  height : Nat
  lineDelay : Nat
  deriving DecidableEq

/-- The ranges of the types (camera.h:665-670). -/
def Shutter.Ranged (s : Shutter) : Prop := s.width < 2 ^ 32 ∧ s.height < 2 ^ 32 ∧ s.lineDelay < 2 ^ 64

/-- `rollingShutterDelayNanoSeconds(keypoint)` (camera.h:454-459), overridden for lidars (camera-3d-lidar.h:257-262). -/
def delay (s : Shutter) (u v : Coord) : Outcome Int :=
  castInt 64 (match s.cls with | .lidar => u | _ => v) >>= fun line => .ok (toInt64 (line * s.lineDelay))

/-- `maxRollingShutterDelayNanoSeconds` (camera.h:465-467); no class overrides it. -/
def maxDelay (s : Shutter) : Int := toInt64 (s.height * s.lineDelay)

/-- `Camera3DLidar::rollingShutterDelayNanoSeconds()` without arguments (camera-3d-lidar.h:267-269). -/
def lidarDelay (s : Shutter) : Int := toInt64 (s.width * s.lineDelay)

/-- `getNumberOfLines` (camera.h:471-476, camera-3d-lidar.h:273-278). -/
def numberOfLines (s : Shutter) : Nat :=
  if 0 < s.lineDelay then match s.cls with | .lidar => s.width | _ => s.height else 1

/-- `getLineDelayMode` (camera.h:481-483, camera-3d-lidar.h:281-283). -/
def columnMode (s : Shutter) : Bool := match s.cls with | .lidar => true | _ => false

/-! ## Masks -/

/-- The pixel buffers: rows of values (of `cv::Mat`, camera.h:672). -/
abbrev Heap := List (List (List Nat))

/-- A `cv::Mat` of one channel: a view of a buffer; `grey` tells whether its type is `CV_8UC1`. -/
structure View where
  buf : Nat
  rows : Nat
  cols : Nat
  grey : Bool
  deriving DecidableEq

/-- The image size and mask of a camera (camera.h:668-672); `none` is an empty `cv::Mat`. -/
structure Cam where
  width : Nat
  height : Nat
  mask : Option View
  deriving DecidableEq

/-- The constructors (camera.cc:41-66). -/
def newCam (width height : Nat) : Cam := ⟨width, height, none⟩

/-- `setMask` (camera.cc:429-434): the camera shares the pixels with the caller.  A view without pixels is `empty()`. -/
def setMask (c : Cam) (m : View) : Outcome Cam :=
  if c.height = m.rows then
    if c.width = m.cols then
      if m.grey then .ok { c with mask := if m.rows = 0 ∨ m.cols = 0 then none else some m } else .abort
    else .abort
  else .abort

/-- `clearMask` (camera.cc:436-438). -/
def clearMask (c : Cam) : Cam := { c with mask := none }

/-- `hasMask` (camera.cc:440-442). -/
def hasMask (c : Cam) : Bool := c.mask.isSome

/-- `setImageWidth` and `setImageHeight` (camera.h:224-231). -/
def setImageWidth (c : Cam) (w : Nat) : Cam := { c with width := w }
/-- See `setImageWidth` (camera.h:229-231). -/
def setImageHeight (c : Cam) (h : Nat) : Cam := { c with height := h }

/-- `mask_.at<uint8_t>(y, x)`: outside the view it is undefined. -/
def pixel (h : Heap) (m : View) (y x : Int) : Outcome Nat :=
  if 0 ≤ y ∧ y < m.rows ∧ 0 ≤ x ∧ x < m.cols then
    match (h[m.buf]?.bind fun b => b[y.toNat]?).bind fun r => r[x.toNat]? with
    | some p => .ok p
    | none => .ub
  else .ub

/-- `x < 0.0` -/
def negative : Coord → Bool
  | .nan => false
  | .inf n => n
  | .num x => x < 0

/-- `x >= n`, for a number `n` that is exact as a `double` (camera.h:625-628). -/
def atLeast : Coord → Nat → Bool
  | .nan, _ => false
  | .inf n, _ => !n
  | .num x, n => (n : ℚ) ≤ x

/-- `isMasked` (camera.h:624-633). -/
def isMasked (h : Heap) (c : Cam) (u v : Coord) : Outcome Bool :=
  if negative u || atLeast u c.width || negative v || atLeast v c.height then .ok true
  else
    match c.mask with
    | none => .ok false
    | some m => castInt 32 v >>= fun y => castInt 32 u >>= fun x => pixel h m y x >>= fun p => .ok (p = 0)

/-- The copy constructor (camera.h:188-199) that the clone functions of all classes use: the mask is copied. -/
def clone (h : Heap) (c : Cam) : Heap × Cam :=
  match c.mask with
  | none => (h, c)
  | some m => (h ++ [(h[m.buf]?).getD []], { c with mask := some { m with buf := h.length } })

/-- Somebody who has a view of the buffer writes a pixel (`setMask` shares the pixels, camera.cc:429-434). -/
def poke (h : Heap) (buf y x value : Nat) : Heap :=
  h.modify buf fun b => b.modify y fun r => r.set x value

end Verif.CameraMask
