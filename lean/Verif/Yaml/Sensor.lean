import Verif.Yaml.Model
import Verif.HashId.Model
import Mathlib.Data.Rat.Defs

/-!
# Sensors, cameras and rigs in YAML

Model of `Sensor` (`aslam_cv_common/src/sensor.cc`), of the YAML part and the equality of the cameras
(`aslam_cv_cameras/src/camera.cc`, `camera-pinhole.cc`, `camera-unified-projection.cc`, `camera-3d-lidar.cc`,
`camera-factory.cc`) and of the rigs (`aslam_cv_cameras/src/ncamera.cc`).

Doubles are rationals (no NaN).  Cameras are held by value: that cameras of a rig are shared is the subject of
`Verif.NCamera`.  A mask is an opaque number.  The transformations of minkindr are a type `P` with its matrix, the
constructor from a matrix and the inverse (`Geometry`).  `gen k` is the id that would be generated for the `k`-th
camera.  Reading may change an object although it returns false, so it returns the object in either case.
-/

namespace Verif.Yaml

open Verif (Outcome)
open Verif.HashId (Id)

/-- The members of `Sensor` (sensor.h) (lines 98-101). -/
structure Base where
  id : Id
  topic : String
  description : String
  deriving DecidableEq

/-- A camera model: as class, and as `Camera::Type` (camera.h) (lines 124-128). -/
inductive Kind where
  | pinhole | unified | lidar
  deriving DecidableEq, Repr

/-- `Distortion::Type` (distortion.h) (lines 23-28). -/
inductive DistKind where
  | nothing | equidistant | fisheye | radtan
  deriving DecidableEq, Repr

/-- A distortion object (distortion.h:41-42, camera.h:683). -/
structure Dist where
  kind : DistKind
  coeffs : List ℚ
  deriving DecidableEq

/-- A camera (camera.h:664-684): `cls` is its class, `type` the member `camera_type_`. -/
structure Cam where
  base : Base
  cls : Kind
  type : Kind
  width : Nat
  height : Nat
  lineDelay : Nat
  compressed : Bool
  intrinsics : List ℚ
  dist : Dist
  mask : Option Nat
  deriving DecidableEq

/-- `areParametersValid` of the cameras (camera-pinhole.cc:212-218, camera-unified-projection.cc:294-301,
camera-3d-lidar.cc:122-126), which is `intrinsicsValid` of the class. -/
def intrinsicsValid : Kind → List ℚ → Bool
  | .pinhole, [fu, fv, cu, cv] => decide (0 < fu) && decide (0 < fv) && decide (0 < cu) && decide (0 < cv)
  | .unified, [xi, fu, fv, cu, cv] =>
    decide (0 ≤ xi) && decide (0 < fu) && decide (0 < fv) && decide (0 < cu) && decide (0 < cv)
  | .lidar, [h, v, _, _] => decide (0 < h) && decide (0 < v)
  | _, _ => false

/-- `areParametersValid` of the distortions (distortion-null.h:144-147, distortion-equidistant.cc:175-181,
distortion-fisheye.cc:145-156, distortion-radtan.cc:120-126). -/
def distValid : DistKind → List ℚ → Bool
  | .nothing, _ => true
  | .equidistant, p => decide (p.length = 4)
  | .radtan, p => decide (p.length = 4)
  | .fisheye, [w] =>
    decide (|w| < 1 / 10000000000000000) || (decide (1 / 2 ≤ w) && decide (w ≤ 3 / 2))
  | .fisheye, _ => false

/-- `as<std::string>()` (sensor.cc:38-71, camera.cc:112-216). -/
def asString : Node → Outcome String := asScalar some

/-- `as<Eigen::VectorXd>()` (camera.cc:112-228). -/
def asVector (C : Codec) (n : Node) : Outcome (List ℚ) := decode C Shape.vector n >>= fun m => .ok m.entries

/-- `Sensor::deserialize` up to the virtual call (sensor.cc:38-71), for a node that is a map; `gen` is the id
generated if there is none.  A malformed id fails a `CHECK` or makes `std::stoul` throw. -/
def loadBase (gen : Id) (b : Base) (n : Node) : Outcome Base :=
  safeGet n "id" asString >>= fun o =>
    (match o with
      | some s =>
        if s = "" then .abort
        else (b.id.fromHexString s.toList).2 >>= fun good => if good then .ok (b.id.fromHexString s.toList).1 else .abort
      | none => .ok gen) >>= fun id =>
      if id.isValid then
        safeGet n "topic" asString >>= fun topic =>
          safeGet n "description" asString >>= fun description =>
            .ok ⟨id, topic.getD b.topic, description.getD b.description⟩
      else .abort

/-- The part of `Camera::loadFromYamlNodeImpl` about the distortion (camera.cc:112-189); `none` is the return value
false, which leaves the distortion unchanged. -/
def loadDist (C : Codec) : Option Node → Outcome (Option Dist)
  | none => .ok (some ⟨.nothing, []⟩)
  | some .null => .ok (some ⟨.nothing, []⟩)
  | some n =>
    if n.isMap then
      safeGet n "type" asString >>= fun o =>
        match o with
        | none => .ok none
        | some type =>
          safeGet n "parameters" (asVector C) >>= fun o =>
            match o with
            | none => .ok none
            | some p =>
              if type = "none" then .ok (some ⟨.nothing, []⟩)
              else if type = "equidistant" then .ok (if distValid .equidistant p then some ⟨.equidistant, p⟩ else none)
              else if type = "fisheye" then .ok (if distValid .fisheye p then some ⟨.fisheye, p⟩ else none)
              else if type = "radial-tangential" then .ok (if distValid .radtan p then some ⟨.radtan, p⟩ else none)
              else .ok none
    else .ok none

/-- The type named by a text (camera.cc:206-216, camera-factory.cc:85-98). -/
def kindOf (s : String) : Option Kind :=
  if s = "pinhole" then some .pinhole
  else if s = "unified-projection" then some .unified
  else if s = "camera-3d-lidar" then some .lidar
  else none

/-- The end of `Camera::loadFromYamlNodeImpl`: line delay and compressed images (camera.cc:230-247). -/
def loadOptional (C : Codec) (c : Cam) (n : Node) : Outcome (Cam × Bool) :=
  safeGet n "line-delay-nanoseconds" (asScalar (C.natRead 64)) >>= fun delay =>
    if hasKey n "compressed" then
      safeGet n "compressed" (asScalar C.boolRead) >>= fun compressed =>
        .ok ({ c with lineDelay := delay.getD 0, compressed := compressed.getD false }, true)
    else .ok ({ c with lineDelay := delay.getD 0 }, true)

/-- `Camera::loadFromYamlNodeImpl` from the type on (camera.cc:199-228). -/
def loadType (C : Codec) (c : Cam) (n : Node) : Outcome (Cam × Bool) :=
  safeGet n "type" asString >>= fun o =>
    match o.bind kindOf with
    | none => .ok (c, false)
    | some k =>
      safeGet n "intrinsics" (asVector C) >>= fun o =>
        match o with
        | none => .ok ({ c with type := k }, false)
        | some p =>
          if intrinsicsValid c.cls p then loadOptional C { c with type := k, intrinsics := p } n
          else .ok ({ c with type := k, intrinsics := p }, false)

/-- `Camera::loadFromYamlNodeImpl` (camera.cc:106-248). -/
def loadCam (C : Codec) (c : Cam) (n : Node) : Outcome (Cam × Bool) :=
  if n.isMap then
    loadDist C (n.get "distortion") >>= fun o =>
      match o with
      | none => .ok (c, false)
      | some d =>
        safeGet n "image_width" (asScalar (C.natRead 32)) >>= fun o =>
          match o with
          | none => .ok ({ c with dist := d }, false)
          | some w =>
            safeGet n "image_height" (asScalar (C.natRead 32)) >>= fun o =>
              match o with
              | none => .ok ({ c with dist := d, width := w }, false)
              | some h => loadType C { c with dist := d, width := w, height := h } n
  else .ok (c, false)

/-- `deserialize` of a camera (sensor.cc:38-74, camera.cc:106-248). -/
def deserializeCam (C : Codec) (gen : Id) (c : Cam) (n : Node) : Outcome (Cam × Bool) :=
  if n.isMap then loadBase gen c.base n >>= fun b => loadCam C { c with base := b } n else .ok (c, false)

/-- The texts for the types (camera.cc:258-273). -/
def kindText : Kind → String
  | .pinhole => "pinhole"
  | .unified => "unified-projection"
  | .lidar => "camera-3d-lidar"

/-- The texts for the distortions (camera.cc:279-294); without distortion nothing is written. -/
def distText : DistKind → Option String
  | .nothing => none
  | .equidistant => some "equidistant"
  | .fisheye => some "fisheye"
  | .radtan => some "radial-tangential"

/-- `Sensor::serialize` up to the virtual call (sensor.cc:76-85). -/
def saveBase (b : Base) (sensorType : String) (n : Node) : Outcome Node :=
  if b.id.isValid then
    .ok ((((n.set "id" (.scalar (String.ofList b.id.hexString))).set "sensor_type" (.scalar sensorType)).set "topic"
      (.scalar b.topic)).set "description" (.scalar b.description))
  else .abort

/-- `Camera::saveToYamlNodeImpl` (camera.cc:250-298). -/
def saveCam (C : Codec) (c : Cam) (n : Node) : Outcome Node :=
  let n1 := ((((n.set "compressed" (.scalar (C.boolText c.compressed))).set "line-delay-nanoseconds"
    (.scalar (C.natText c.lineDelay))).set "image_height" (.scalar (C.natText c.height))).set "image_width"
    (.scalar (C.natText c.width))).set "type" (.scalar (kindText c.type))
  encode C (Mat.col c.intrinsics) >>= fun v =>
    match distText c.dist.kind with
    | none => .ok (n1.set "intrinsics" v)
    | some s =>
      encode C (Mat.col c.dist.coeffs) >>= fun p =>
        .ok ((n1.set "intrinsics" v).set "distortion" ((Node.null.set "type" (.scalar s)).set "parameters" p))

/-- `serialize` of a camera (sensor.cc:76-88) to a node. -/
def serializeCam (C : Codec) (c : Cam) (n : Node) : Outcome Node := saveBase c.base "CAMERA" n >>= saveCam C c

/-- A camera from the default constructor (camera.cc:53-63, camera-pinhole.cc:17-18,
camera-unified-projection.cc:18-21, camera-3d-lidar.cc:17-18).  The id that `Sensor()` generates (sensor.cc:5-7) is
replaced in any case before it is read; it is left out. -/
def fresh (k : Kind) : Cam :=
  { base := ⟨Id.invalid, "", ""⟩, cls := k, type := k, width := 0, height := 0, lineDelay := 0, compressed := false,
    intrinsics := List.replicate (match k with | .pinhole => 4 | .unified => 5 | .lidar => 3) 0,
    dist := ⟨.nothing, []⟩, mask := none }

/-- `createCamera` from a node (camera-factory.cc:66-105); `none` is the null pointer. -/
def createCamera (C : Codec) (gen : Id) : Option Node → Outcome (Option Cam)
  | none => .ok none
  | some n =>
    if n.isMap then
      safeGet n "type" asString >>= fun o =>
        match o.bind kindOf with
        | none => .ok none
        | some k => deserializeCam C gen (fresh k) n >>= fun x => .ok (if x.2 then some x.1 else none)
    else .ok none

/-! ## Rigs -/

/-- The transformations of minkindr: `getTransformationMatrix`, the constructor from a matrix, `inverse`
(ncamera.cc:143-165). -/
structure Geometry (P : Type) where
  toMat : P → Mat
  ofMat : Mat → Outcome P
  inv : P → P

/-- A rig (ncamera.h:187-205). -/
structure Rig (P : Type) where
  base : Base
  cameras : List Cam
  T : List P
  map : List (Id × Nat)
  cov : Mat
  hasCov : Bool

/-- `NCamera::NCamera` without arguments (ncamera.cc:45-47). -/
def freshRig (P : Type) : Rig P :=
  ⟨⟨Id.invalid, "", ""⟩, [], [], [], ⟨6, 6, List.replicate 6 (List.replicate 6 0)⟩, false⟩

/-- `id_to_index_[id] = i` (ncamera.cc:205-209). -/
def putId (m : List (Id × Nat)) (id : Id) (i : Nat) : List (Id × Nat) := (id, i) :: m.filter fun e => e.1 ≠ id

/-- The loop of `initInternal` (ncamera.cc:205-209). -/
def initMap : List Cam → Nat → List (Id × Nat) → Outcome (List (Id × Nat))
  | [], _, m => .ok m
  | c :: cs, i, m => if c.base.id.isValid then initMap cs (i + 1) (putId m c.base.id i) else .abort

/-- `initInternal` (ncamera.cc:202-210). -/
def initInternal {P : Type} (r : Rig P) : Outcome (Rig P) :=
  if r.cameras.length = r.T.length then initMap r.cameras 0 [] >>= fun m => .ok { r with map := m } else .abort

/-- The transformation of one camera (ncamera.cc:143-161), inverted (ncamera.cc:165); `none` if there is neither. -/
def loadT {P : Type} (C : Codec) (G : Geometry P) (n : Node) : Outcome (Option P) :=
  if hasKey n "T_B_C" then
    safeGet n "T_B_C" (decode C (Shape.square 4)) >>= fun o =>
      match o with
      | some m => G.ofMat m >>= fun T_B_C => .ok (some (G.inv T_B_C))
      | none => .abort
  else if hasKey n "T_C_B" then
    safeGet n "T_C_B" (decode C (Shape.square 4)) >>= fun o =>
      match o with
      | some m => G.ofMat m >>= fun T_C_B => .ok (some (G.inv (G.inv T_C_B)))
      | none => .abort
  else .ok none

/-- The loop of `NCamera::loadFromYamlNodeImpl` (ncamera.cc:126-168): the cameras are added at the end. -/
def loadCams {P : Type} (C : Codec) (G : Geometry P) (gen : Nat → Id) : List Node → Nat → Rig P → Outcome (Rig P × Bool)
  | [], _, r => .ok (r, true)
  | n :: ns, k, r =>
    if n.isMap then
      createCamera C (gen k) (n.get "camera") >>= fun o =>
        match o with
        | none => .ok (r, false)
        | some c =>
          loadT C G n >>= fun o =>
            match o with
            | none => .ok (r, false)
            | some T => loadCams C G gen ns (k + 1) { r with cameras := r.cameras ++ [c], T := r.T ++ [T] }
    else .ok (r, false)

/-- `NCamera::loadFromYamlNodeImpl` (ncamera.cc:94-175). -/
def loadRig {P : Type} (C : Codec) (G : Geometry P) (gen : Nat → Id) (r : Rig P) (n : Node) : Outcome (Rig P × Bool) :=
  if n.isMap then
    (if hasKey n "T_G_B_fixed_covariance" then
      safeGet n "T_G_B_fixed_covariance" (decode C (Shape.square 6)) >>= fun o =>
        match o with
        | some m => .ok { r with cov := m, hasCov := true }
        | none => .abort
     else .ok r) >>= fun r =>
      match n.get "cameras" with
      | some (.seq l) =>
        if l = [] then .ok (r, false)
        else
          loadCams C G gen l 0 r >>= fun x => if x.2 then initInternal x.1 >>= fun r => .ok (r, true) else .ok x
      | _ => .ok (r, false)
  else .ok (r, false)

/-- `deserialize` of a rig (sensor.cc:38-74, ncamera.cc:94-175). -/
def deserializeRig {P : Type} (C : Codec) (G : Geometry P) (gen : Nat → Id) (genRig : Id) (r : Rig P) (n : Node) :
    Outcome (Rig P × Bool) :=
  if n.isMap then loadBase genRig r.base n >>= fun b => loadRig C G gen { r with base := b } n else .ok (r, false)

/-- The node of one camera of a rig (ncamera.cc:189-195). -/
def saveEntry {P : Type} (C : Codec) (G : Geometry P) (c : Cam) (T : P) : Outcome Node :=
  serializeCam C c .null >>= fun a =>
    encode C (G.toMat (G.inv T)) >>= fun b => .ok ((Node.null.set "camera" a).set "T_B_C" b)

/-- The loop of `NCamera::saveToYamlNodeImpl` (ncamera.cc:188-197); the transformations are as many as the cameras,
otherwise the vector of transformations is accessed beyond its end. -/
def saveEntries {P : Type} (C : Codec) (G : Geometry P) : List Cam → List P → Outcome (List Node)
  | [], _ => .ok []
  | _ :: _, [] => .ub
  | c :: cs, T :: Ts => saveEntry C G c T >>= fun n => saveEntries C G cs Ts >>= fun ns => .ok (n :: ns)

/-- `NCamera::saveToYamlNodeImpl` (ncamera.cc:177-200); without cameras the node `cameras` stays null. -/
def saveRig {P : Type} (C : Codec) (G : Geometry P) (r : Rig P) (n : Node) : Outcome Node :=
  (if r.hasCov then encode C r.cov >>= fun m => .ok (n.set "T_G_B_fixed_covariance" m) else .ok n) >>= fun n =>
    saveEntries C G r.cameras r.T >>= fun l => .ok (n.set "cameras" (if l = [] then .null else .seq l))

/-- `serialize` of a rig (sensor.cc:76-88, ncamera.cc:177-200). -/
def serializeRig {P : Type} (C : Codec) (G : Geometry P) (r : Rig P) (n : Node) : Outcome Node :=
  saveBase r.base "NCAMERA" n >>= saveRig C G r

/-! ## Equality -/

/-- The squared norm of a vector (camera.cc:79). -/
def norm2 (a : List ℚ) : ℚ := (a.map fun x => x * x).sum

/-- `common::macros::kEpsilon` (macros.h:37). -/
def kEpsilon : ℚ := 1 / 100000000

/-- `isApprox` of Eigen for vectors: `‖a - b‖² ≤ ε² min(‖a‖², ‖b‖²)`.  Vectors of different size fail an assertion of
Eigen, and without assertions memory beyond the end is read (used at camera.cc:79). -/
def isApprox (a b : List ℚ) : Outcome Bool :=
  if a.length = b.length then
    .ok (decide (norm2 (List.zipWith (· - ·) a b) ≤ kEpsilon ^ 2 * min (norm2 a) (norm2 b)))
  else .ub

/-- `Sensor::isEqual` without the virtual call (sensor.cc:98-103); both are cameras or both are rigs. -/
def baseEqual (a b : Base) : Bool := a.id.eq b.id && decide (a.topic = b.topic) && decide (a.description = b.description)

/-- `isEqualImpl` of the cameras (camera-pinhole.cc:254-272 and the same in the others, camera.cc:77-104,
distortion.cc:22-31). -/
def camEqualImpl (a b : Cam) : Outcome Bool :=
  if a.cls = b.cls then
    isApprox a.intrinsics b.intrinsics >>= fun e =>
      .ok (e && decide (a.lineDelay = b.lineDelay) && decide (a.width = b.width) && decide (a.height = b.height)
        && decide (a.compressed = b.compressed) && decide (a.dist = b.dist))
  else .ok false

/-- `Sensor::isEqual` of two cameras (sensor.cc:98-123). -/
def camEqual (a b : Cam) : Outcome Bool := if baseEqual a.base b.base then camEqualImpl a b else .ok false

/-- The largest difference of two matrices is less than `kEpsilon` (ncamera.cc:416-420). -/
def matClose (a b : Mat) : Bool := (List.zipWith (fun x y => decide (|x - y| < kEpsilon)) a.entries b.entries).all id

/-- The loop of `NCamera::isEqualImpl` (ncamera.cc:412-429). -/
def camsEqual {P : Type} (G : Geometry P) : List Cam → List Cam → List P → List P → Outcome Bool
  | a :: as, b :: bs, S :: Ss, T :: Ts =>
    camEqual a b >>= fun e => if e && matClose (G.toMat S) (G.toMat T) then camsEqual G as bs Ss Ts else .ok false
  | [], _, _, _ => .ok true
  | _, _, _, _ => .ub

/-- `Sensor::isEqual` of two rigs (sensor.cc:98-123, ncamera.cc:395-431). -/
def rigEqual {P : Type} (G : Geometry P) (a b : Rig P) : Outcome Bool :=
  if baseEqual a.base b.base then
    if a.cameras.length = b.cameras.length then camsEqual G a.cameras b.cameras a.T b.T else .ok false
  else .ok false

end Verif.Yaml
