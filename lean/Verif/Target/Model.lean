import Mathlib.Algebra.Order.Field.Rat
import Mathlib.Data.List.Sort
import Mathlib.Data.List.Perm.Basic
import Verif.Base.Outcome

/-!
# Calibration targets

Model of aslam_cv_calibration: `TargetBase` (target-base.{h,cc}), `TargetAprilGrid` and `DetectorAprilGrid`
(target-aprilgrid.{h,cc}), `TargetObservation` (target-observation.h).

Lengths and image coordinates are rationals and computed exactly (doubles and floats are rationals; rounding is not
modelled).  `size_t` numbers are natural numbers without wrap-around (they count points in memory); `unsigned int` and
`int` are modelled with their width where the code converts to them.
-/

namespace Verif.Target

/-- A point of the target (target-base.h:65-66). -/
abbrev P3 := ℚ × ℚ × ℚ

/-- A point of the image (target-observation.h:125-131). -/
abbrev P2 := ℚ × ℚ

/-- What is used of `TargetAprilGrid::TargetConfiguration` (target-aprilgrid.h:38-57). -/
structure Config where
  tagRows : Nat
  tagCols : Nat
  tagSize : ℚ
  spacing : ℚ

/-- `TargetBase`: `rows_`, `cols_`, `points_target_frame_` (target-base.h:59-66). -/
structure Target where
  rows : Nat
  cols : Nat
  points : List P3
deriving DecidableEq

/-- `size` (target-base.h:52). -/
def Target.size (t : Target) : Nat := t.rows * t.cols

/-- The coordinates of a point along one side (target-aprilgrid.cc:77-80). -/
def along (c : Config) (i : Nat) : ℚ := ((i / 2 : Nat) : ℚ) * (c.tagSize + c.spacing) + ((i % 2 : Nat) : ℚ) * c.tagSize

/-- `createAprilGridPoints` (target-aprilgrid.cc:55-87): the columns of the matrix, in the order in which the two loops
write them, which is that of their indices `row_idx * num_point_cols + col_idx`. -/
def createAprilGridPoints (c : Config) : Outcome (List P3) :=
  if 0 < c.tagSize ∧ 0 < c.spacing then
    .ok ((List.range (2 * c.tagRows)).flatMap fun row =>
      (List.range (2 * c.tagCols)).map fun col => (along c col, along c row, 0))
  else .abort

/-- The constructor of `TargetBase` (target-base.cc:12-18). -/
def newTarget (rows cols : Nat) (points : List P3) : Outcome Target :=
  if 0 < rows ∧ 0 < cols ∧ rows * cols = points.length then .ok ⟨rows, cols, points⟩ else .abort

/-- The constructor of `TargetAprilGrid` (target-aprilgrid.cc:46-53). -/
def newAprilGrid (c : Config) : Outcome Target :=
  createAprilGridPoints c >>= fun points => newTarget (2 * c.tagRows) (2 * c.tagCols) points

/-- `point` (target-base.cc:24-27). -/
def point (t : Target) (i : Nat) : Outcome P3 :=
  if i < t.size then
    match t.points[i]? with
    | some p => .ok p
    | none => .ub
  else .abort

/-- `static_cast<int>` of a `size_t` (two's complement) (target-observation.h:71-74, 116-121). -/
def toInt (n : Nat) : Int := if n % 2 ^ 32 < 2 ^ 31 then (n % 2 ^ 32 : Nat) else (n % 2 ^ 32 : Nat) - 2 ^ 32

/-- Conversion of an `int` to `size_t` (target-observation.h:53-56). -/
def ofInt (z : Int) : Nat := (z % 2 ^ 64).toNat

/-- `pointToGridCoordinates` (target-base.cc:29-33). -/
def pointToGridCoordinates (t : Target) (i : Nat) : Nat × Nat := (i % t.cols, ofInt (toInt (i / t.cols)))

/-- `gridCoordinatesToPoint` (target-base.cc:35-42). -/
def gridCoordinatesToPoint (t : Target) (row col : Nat) : Outcome Nat :=
  if row < t.rows then
    if col < t.cols then
      if t.cols * row + col < t.size then .ok (t.cols * row + col) else .abort
    else .abort
  else .abort

/-- `gridPoint` (target-base.cc:44-46). -/
def gridPoint (t : Target) (row col : Nat) : Outcome P3 :=
  gridCoordinatesToPoint t row col >>= fun i =>
    match t.points[i]? with
    | some p => .ok p
    | none => .ub

/-- `width` (target-base.cc:53-58). -/
def width (t : Target) : Outcome ℚ :=
  if 0 < t.cols then
    gridPoint t 0 (t.cols - 1) >>= fun p => gridPoint t 0 0 >>= fun q => .ok |p.1 - q.1|
  else .abort

/-- `height` (target-base.cc:60-65). -/
def height (t : Target) : Outcome ℚ :=
  if 0 < t.rows then
    gridPoint t (t.rows - 1) 0 >>= fun p => gridPoint t 0 0 >>= fun q => .ok |p.2.1 - q.2.1|
  else .abort

/-! ## Observations -/

/-- `TargetObservation` (target-observation.h:125-131); the image size is not used by the functions modelled. -/
structure Observation where
  target : Target
  ids : List Int
  corners : List P2
  /-- `cornerid_to_index_map_`. -/
  index : List (Nat × Nat)
deriving DecidableEq

/-- `emplace` of an unordered map: keys that are present are kept as they are (target-observation.h:116-121). -/
def emplace (m : List (Nat × Nat)) (k v : Nat) : List (Nat × Nat) := if m.any (fun e => e.1 == k) then m else (k, v) :: m

/-- `buildIndex` (target-observation.h:116-121) from index `i` on. -/
def buildIndex : Nat → List Int → List (Nat × Nat) → List (Nat × Nat)
  | _, [], m => m
  | i, id :: ids, m => buildIndex (i + 1) ids (emplace m (ofInt id) i)

/-- The constructor (target-observation.h:23-35); the target is given. -/
def newObservation (t : Target) (ids : List Int) (corners : List P2) : Outcome Observation :=
  if ids.length = corners.length then .ok ⟨t, ids, corners, buildIndex 0 ids []⟩ else .abort

/-- `observedCornerId` (target-observation.h:53-56). -/
def observedCornerId (o : Observation) (id : Nat) : Outcome Bool :=
  if id < o.target.size then .ok (o.index.any fun e => e.1 == id) else .abort

/-- `numObservedCorners` (target-observation.h:63-65). -/
def numObservedCorners (o : Observation) : Nat := o.ids.length

/-- `allCornersObservered` (target-observation.h:58-61). -/
def allCornersObserved (o : Observation) : Bool := o.target.size == numObservedCorners o

/-- `getObservedCorner` (target-observation.h:71-74): the index is compared as an `int`. -/
def getObservedCorner (o : Observation) (i : Nat) : Outcome P2 :=
  if toInt i < (o.corners.length : Int) then
    match o.corners[i]? with
    | some p => .ok p
    | none => .ub
  else .abort

/-- `getObservedCornerId` (target-observation.h:92-95): a negative index passes the check and is read before the first
element. -/
def getObservedCornerId (o : Observation) (i : Int) : Outcome Nat :=
  if i < (o.ids.length : Int) then
    if 0 ≤ i then
      match o.ids[i.toNat]? with
      | some id => .ok (ofInt id)
      | none => .ub
    else .ub
  else .abort

/-- The loop of `getObservedCornerById` (target-observation.h:83-88) from index `i` on. -/
def findCorner (o : Observation) (id : Int) : Nat → List Int → Outcome (Option P2)
  | _, [] => .ok none
  | i, x :: xs => if id = x then getObservedCorner o i >>= fun p => .ok (some p) else findCorner o id (i + 1) xs

/-- `getObservedCornerById` (target-observation.h:80-90); the corner if it returns true. -/
def getObservedCornerById (o : Observation) (id : Int) : Outcome (Option P2) :=
  if id < (o.ids.length : Int) then findCorner o id 0 o.ids else .abort

/-- The loop of `getCorrespondingTargetPoints` (target-observation.h:107-113). -/
def targetPoints (t : Target) : List Int → Outcome (List P3)
  | [] => .ok []
  | id :: ids => point t (ofInt id) >>= fun p => targetPoints t ids >>= fun ps => .ok (p :: ps)

/-- `getCorrespondingTargetPoints` (target-observation.h:107-113). -/
def getCorrespondingTargetPoints (o : Observation) : Outcome (List P3) := targetPoints o.target o.ids

/-! ## The detector -/

/-- `AprilTags::TagDetection` (id, good, p) (read at target-aprilgrid.cc:107-127). -/
structure Detection where
  id : Int
  good : Bool
  p : Fin 4 → P2

/-- `DetectorConfiguration` (target-aprilgrid.h:78-92). -/
structure DetectorConfig where
  runSubpixelRefinement : Bool
  maxDisplacementSq : ℚ
  minVisibleTags : Nat
  minBorderDistance : ℚ

/-- A corner is nearer to the border than wanted (target-aprilgrid.cc:110-117). -/
def nearBorder (d : DetectorConfig) (rows cols : Nat) (p : P2) : Bool :=
  decide (p.1 < d.minBorderDistance) || decide (p.1 > cols - d.minBorderDistance) ||
    decide (p.2 < d.minBorderDistance) || decide (p.2 > rows - d.minBorderDistance)

/-- `remove` (target-aprilgrid.cc:107-127).  `static_cast<int>(target_->size() / 4.0)` is the integer part. -/
def removeTag (t : Target) (d : DetectorConfig) (rows cols : Nat) (x : Detection) : Bool :=
  (List.finRange 4).any (fun k => nearBorder d rows cols (x.p k)) || !x.good || decide ((t.size / 4 : Nat) ≤ x.id)

/-- Two neighbours have the same id (target-aprilgrid.cc:152-154). -/
def hasDuplicate : List Detection → Bool
  | a :: b :: l => a.id == b.id || hasDuplicate (b :: l)
  | _ => false

/-- `point_indices_tag` (target-aprilgrid.cc:228-235): `unsigned int` numbers. -/
def pointIndex (cols : Nat) (id : Int) (corner : Fin 4) : Nat :=
  let tagId := (id % 2 ^ 32).toNat
  let base := ((2 * tagId) % 2 ^ 32 + ofInt (toInt (tagId / (cols / 2))) * cols) % 2 ^ 32
  match corner with
  | 0 => base
  | 1 => (base + 1) % 2 ^ 32
  | 2 => (base + (cols + 1) % 2 ^ 32) % 2 ^ 32
  | 3 => (base + cols % 2 ^ 32) % 2 ^ 32

/-- The squared distance (target-aprilgrid.cc:247). -/
def squaredDistance (p q : P2) : ℚ := (p.1 - q.1) * (p.1 - q.1) + (p.2 - q.2) * (p.2 - q.2)

/-- The loop over the corners of one tag (target-aprilgrid.cc:238-253): `cs` are the corners left, `out` is what has
been written to `corner_ids` and `image_corners`, which have room for `room` entries. -/
def cornerLoop (d : DetectorConfig) (refine : P2 → P2) (cols room : Nat) (x : Detection) :
    List (Fin 4) → List (Int × P2) → Outcome (List (Int × P2))
  | [], out => .ok out
  | k :: ks, out =>
    if squaredDistance (refine (x.p k)) (x.p k) ≤ d.maxDisplacementSq then
      if out.length < room then
        cornerLoop d refine cols room x ks (out ++ [(toInt (pointIndex cols x.id k), refine (x.p k))])
      else .ub
    else cornerLoop d refine cols room x ks out

/-- The loop over the tags (target-aprilgrid.cc:225-254). -/
def tagLoop (d : DetectorConfig) (refine : P2 → P2) (cols room : Nat) :
    List Detection → List (Int × P2) → Outcome (List (Int × P2))
  | [], out => .ok out
  | x :: xs, out =>
    cornerLoop d refine cols room x (List.finRange 4) out >>= fun out' => tagLoop d refine cols room xs out'

/-- `detectTargetInImage` (target-aprilgrid.cc:100-260) for an image of the given size in which the tag detector finds
`detections`.  `sort` stands for `std::sort` by id, `refine` for `cv::cornerSubPix`, which moves every corner on its
own.  `none`: the null pointer; the window that shows duplicates is not modelled. -/
def detectTargetInImage (sort : List Detection → List Detection) (refine : P2 → P2) (t : Target) (d : DetectorConfig)
    (rows cols : Nat) (detections : List Detection) : Outcome (Option Observation) :=
  let kept := detections.filter fun x => !removeTag t d rows cols x
  if kept.length < d.minVisibleTags then .ok none
  else
    let sorted := sort kept
    if hasDuplicate sorted then .ok none
    else
      let refine := if d.runSubpixelRefinement then refine else id
      tagLoop d refine t.cols t.size sorted [] >>= fun out =>
        newObservation t (out.map (·.1)) (out.map (·.2)) >>= fun o => .ok (some o)

end Verif.Target
