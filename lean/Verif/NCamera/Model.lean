import Verif.Base.Outcome
import Verif.StlHelpers.Model

/-!
# Camera rigs

Model of the class `NCamera` (`aslam_cv_cameras/src/ncamera.cc`, `include/aslam/cameras/ncamera.h`): the cameras of a
rig, their mounting transformations and the map from camera ids to indices.

Cameras are objects shared between rigs and others; `cams` is the list of all of them, and pointers to them are
positions in it (`none` is a null pointer).  An id is a number, 0 being the invalid id.  The geometry of a camera, the
distortion (0 is none) and a transformation are opaque numbers.  Ids come from a generator `gen`, whose `k`-th value
is the `k`-th id generated during the call.
-/

namespace Verif.NCamera

open Verif (Outcome)

/-- A camera (camera.h:648-672, sensor.h): what matters here.  `sound` tells whether its intrinsics are valid. -/
structure Cam where
  id : Nat
  distortion : Nat
  geometry : Nat
  sound : Bool
  deriving DecidableEq, Repr

/-- A rig (ncamera.h:187-205). -/
structure Rig where
  id : Nat
  cameras : List (Option Nat)
  T : List Nat
  map : List (Nat × Nat)
  deriving DecidableEq, Repr

/-- All cameras and all rigs (camera.h:664-684, ncamera.h:187-205). -/
structure World where
  cams : List Cam
  rigs : List Rig
  deriving DecidableEq, Repr

/-- `id_to_index_.find` (used at ncamera.cc:294-297, 319-328). -/
def find (m : List (Nat × Nat)) (k : Nat) : Option Nat :=
  match m with
  | [] => none
  | (a, v) :: r => if a = k then some v else find r k

/-- `id_to_index_.erase` (used at ncamera.cc:273-279). -/
def erase (m : List (Nat × Nat)) (k : Nat) : List (Nat × Nat) := m.filter fun e => e.1 ≠ k

/-- `id_to_index_[k] = v` (ncamera.cc:205-209, 273-279). -/
def put (m : List (Nat × Nat)) (k v : Nat) : List (Nat × Nat) := (k, v) :: erase m k

/-- A camera through a pointer of a rig: `CHECK_NOTNULL`, then a dereference (ncamera.cc:205-209, 251-255). -/
def deref (cams : List Cam) : Option Nat → Outcome Cam
  | none => .abort
  | some p =>
    match cams[p]? with
    | some c => .ok c
    | none => .ub

/-- `Sensor::getId` (sensor.h:57-60). -/
def getId (c : Cam) : Outcome Nat := if c.id ≠ 0 then .ok c.id else .abort

/-- The loop of `initInternal` (ncamera.cc:205-209). -/
def initLoop (cams : List Cam) : List (Option Nat) → Nat → List (Nat × Nat) → Outcome (List (Nat × Nat))
  | [], _, m => .ok m
  | p :: ps, i, m => deref cams p >>= fun c => getId c >>= fun id => initLoop cams ps (i + 1) (put m id i)

/-- `initInternal` (ncamera.cc:202-210). -/
def initInternal (cams : List Cam) (r : Rig) : Outcome Rig :=
  if r.cameras.length = r.T.length then
    initLoop cams r.cameras 0 [] >>= fun m => .ok { r with map := m }
  else .abort

/-- The constructors (ncamera.cc:49-73). -/
def construct (cams : List Cam) (id : Nat) (T : List Nat) (cameras : List (Option Nat)) : Outcome Rig :=
  if id ≠ 0 then initInternal cams ⟨id, cameras, T, []⟩ else .abort

/-- `isValid` (sensor.cc:25-31, ncamera.cc:348-356). -/
def isValid (cams : List Cam) (r : Rig) : Outcome Bool :=
  if r.id = 0 then .ok false
  else r.cameras.foldr (fun p acc => deref cams p >>= fun c => if c.id ≠ 0 ∧ c.sound then acc else .ok false) (.ok true)

/-- Cloning the cameras of a rig (ncamera.cc:86-89); a clone has the id of the original (camera.h:186-199). -/
def cloned (cams : List Cam) : List (Option Nat) → Outcome (List Cam)
  | [] => .ok []
  | p :: ps => deref cams p >>= fun c => cloned cams ps >>= fun cs => .ok (c :: cs)

/-- The copy constructor (ncamera.cc:79-92), used by `clone` (ncamera.cc:21-23). -/
def copy (cams : List Cam) (r : Rig) : Outcome (List Cam × Rig) :=
  cloned cams r.cameras >>= fun cs =>
    initInternal (cams ++ cs) { r with cameras := (List.range cs.length).map fun k => some (cams.length + k) } >>=
      fun r' => isValid (cams ++ cs) r' >>= fun v => if v then .ok (cams ++ cs, r') else .abort

/-- `setId` of the cameras of a rig one after the other (ncamera.cc:32-38). -/
def setIds (gen : Nat → Nat) : List (Option Nat) → Nat → List Cam → Outcome (List Cam)
  | [], _, cams => .ok cams
  | none :: _, _, _ => .ub
  | some p :: ps, k, cams =>
    match cams[p]? with
    | some c => if gen k ≠ 0 then setIds gen ps (k + 1) (cams.set p { c with id := gen k }) else .abort
    | none => .ub

/-- `cloneWithNewIds` (ncamera.cc:25-43). -/
def cloneWithNewIds (gen : Nat → Nat) (cams : List Cam) (r : Rig) : Outcome (List Cam × Rig) :=
  copy cams r >>= fun x =>
    if gen 0 ≠ 0 then
      setIds gen x.2.cameras 1 x.1 >>= fun cams' =>
        initInternal cams' { x.2 with id := gen 0 } >>= fun r' =>
          isValid cams' r' >>= fun v => if v then .ok (cams', r') else .abort
    else .abort

/-- The loop of `cloneRigWithoutDistortion` (ncamera.cc:335-340). -/
def removeLoop (gen : Nat → Nat) : List (Option Nat) → Nat → List Cam → Outcome (List Cam)
  | [], _, cams => .ok cams
  | none :: _, _, _ => .ub
  | some p :: ps, k, cams =>
    match cams[p]? with
    | some c => if gen k ≠ 0 then removeLoop gen ps (k + 1) (cams.set p { c with distortion := 0, id := gen k }) else .abort
    | none => .ub

/-- `cloneRigWithoutDistortion` (ncamera.cc:330-346). -/
def cloneRigWithoutDistortion (gen : Nat → Nat) (cams : List Cam) (r : Rig) : Outcome (List Cam × Rig) :=
  copy cams r >>= fun x =>
    removeLoop gen x.2.cameras 0 x.1 >>= fun cams' =>
      if gen x.2.cameras.length ≠ 0 then .ok (cams', { x.2 with id := gen x.2.cameras.length }) else .abort

/-- `setCamera` (ncamera.cc:273-279); a null pointer among the cameras would be dereferenced. -/
def setCamera (cams : List Cam) (i : Nat) (camera : Option Nat) (r : Rig) : Outcome Rig :=
  match camera with
  | none => .abort
  | some q =>
    match r.cameras[i]? with
    | none => .abort
    | some none => .ub
    | some (some p) =>
      deref cams (some p) >>= getId >>= fun old => deref cams (some q) >>= getId >>= fun new =>
        .ok { r with cameras := r.cameras.set i (some q), map := put (erase r.map old) new i }

/-- `set_T_C_B` (ncamera.cc:242-245). -/
def setT (i t : Nat) (r : Rig) : Outcome Rig :=
  if i < r.T.length then .ok { r with T := r.T.set i t } else .abort

/-- `getCameraId` (ncamera.cc:289-292). -/
def getCameraId (cams : List Cam) (r : Rig) (i : Nat) : Outcome Nat :=
  match r.cameras[i]? with
  | none => .abort
  | some none => .ub
  | some (some p) => deref cams (some p) >>= getId

/-- `hasCameraWithId` (ncamera.cc:294-297). -/
def hasCameraWithId (r : Rig) (id : Nat) : Outcome Bool :=
  if id ≠ 0 then .ok (find r.map id).isSome else .abort

/-- `getCameraIndex` (ncamera.cc:319-328); the index is converted to `int`. -/
def getCameraIndex (r : Rig) (id : Nat) : Outcome Int :=
  if id ≠ 0 then
    match find r.map id with
    | none => .ok (-1)
    | some i => .ok (StlHelpers.toInt32 i)
  else .abort

/-- `get_T_C_B` by index (ncamera.cc:216-219). -/
def getT (r : Rig) (i : Nat) : Outcome Nat :=
  if i < r.cameras.length then
    match r.T[i]? with
    | some t => .ok t
    | none => .ub
  else .abort

/-- `get_T_C_B` by camera id (ncamera.cc:226-232). -/
def getTById (r : Rig) (id : Nat) : Outcome Nat :=
  getCameraIndex r id >>= fun i => if 0 ≤ i then getT r i.toNat else .abort

/-- Operations on the world: a new camera, a new rig (two constructors), the three kinds of clones, `setCamera`,
`set_T_C_B` and `setId` of a camera (ncamera.cc:21-92, 242-245, 273-279). -/
inductive Op where
  | newCamera (c : Cam)
  | construct (id : Nat) (T : List Nat) (cameras : List (Option Nat))
  | clone (r : Nat)
  | cloneWithNewIds (gen : Nat → Nat) (r : Nat)
  | cloneWithoutDistortion (gen : Nat → Nat) (r : Nat)
  | setCamera (r i : Nat) (camera : Option Nat)
  | setT (r i t : Nat)
  | setCameraId (p id : Nat)

/-- A rig that exists (the object of a call, ncamera.cc:21-346). -/
def rig (w : World) (k : Nat) : Outcome Rig :=
  match w.rigs[k]? with
  | some r => .ok r
  | none => .ub

/-- One operation (ncamera.cc:21-92, 242-245, 273-279). -/
def step (w : World) : Op → Outcome World
  | .newCamera c => .ok { w with cams := w.cams ++ [c] }
  | .construct id T cameras => construct w.cams id T cameras >>= fun r => .ok { w with rigs := w.rigs ++ [r] }
  | .clone k => rig w k >>= fun r => copy w.cams r >>= fun x => .ok ⟨x.1, w.rigs ++ [x.2]⟩
  | .cloneWithNewIds gen k =>
    rig w k >>= fun r => cloneWithNewIds gen w.cams r >>= fun x => .ok ⟨x.1, w.rigs ++ [x.2]⟩
  | .cloneWithoutDistortion gen k =>
    rig w k >>= fun r => cloneRigWithoutDistortion gen w.cams r >>= fun x => .ok ⟨x.1, w.rigs ++ [x.2]⟩
  | .setCamera k i c => rig w k >>= fun r => setCamera w.cams i c r >>= fun r' => .ok { w with rigs := w.rigs.set k r' }
  | .setT k i t => rig w k >>= fun r => setT i t r >>= fun r' => .ok { w with rigs := w.rigs.set k r' }
  | .setCameraId p id =>
    match w.cams[p]? with
    | some c => if id ≠ 0 then .ok { w with cams := w.cams.set p { c with id := id } } else .abort
    | none => .ub

/-- A sequence of operations (ncamera.cc:21-346). -/
def run : List Op → World → Outcome World
  | [], w => .ok w
  | o :: os, w => step w o >>= run os

end Verif.NCamera
