import Verif.Target.Model
import Verif.Yaml.Sensor

/-!
# Targets described by files

Model of `TargetAprilGrid::TargetConfiguration` and of reading it from a file
(`aslam_cv_calibration/include/aslam/calibration/target-aprilgrid.h`, `aslam_cv_calibration/src/target-aprilgrid.cc`).
Numbers are rational and computed exactly; infinities are left out, and a number that is not one fails the checks.
-/

namespace Verif.Target

open Verif (Outcome)
open Verif.Yaml (Node Codec safeGet asScalar asString)

/-- `TargetConfiguration` (target-aprilgrid.h:38-58). -/
structure FileConfig where
  grid : Config
  borderBits : Nat

/-- The default constructor (target-aprilgrid.h:39-44). -/
def defaultBoard : FileConfig := ⟨⟨6, 6, 88 / 1000, 264 / 10000⟩, 2⟩

/-- `CHECK_GT(.., 0)` (target-aprilgrid.cc:29, 31, 33, 38). -/
def checkPos {α : Type} [Zero α] [LT α] [DecidableLT α] (x : α) : Outcome Unit := if 0 < x then .ok () else .abort

/-- The body of `fromYaml` (target-aprilgrid.cc:24-38) for the node of the file.  What `safeGet` returns is not looked at, so
that a value that cannot be read stays what it was; `relative_tag_spacing` was nothing, and using it is undefined. -/
def boardOfNode (C : Codec) (n : Node) : Outcome FileConfig :=
  safeGet n "target_type" asString >>= fun type =>
  if type.getD "" ≠ "aprilgrid" then .abort
  else
    safeGet n "tagCols" (asScalar (C.natRead 64)) >>= fun cols =>
    checkPos (cols.getD defaultBoard.grid.tagCols) >>= fun _ =>
    safeGet n "tagRows" (asScalar (C.natRead 64)) >>= fun rows =>
    checkPos (rows.getD defaultBoard.grid.tagRows) >>= fun _ =>
    safeGet n "tagSize" (asScalar C.numRead) >>= fun size =>
    checkPos (size.getD defaultBoard.grid.tagSize) >>= fun _ =>
    safeGet n "tagSpacing" (asScalar C.numRead) >>= fun spacing =>
    match spacing with
    | none => .ub
    | some s =>
      checkPos (s * size.getD defaultBoard.grid.tagSize) >>= fun _ =>
      .ok ⟨⟨rows.getD defaultBoard.grid.tagRows, cols.getD defaultBoard.grid.tagCols, size.getD defaultBoard.grid.tagSize,
        s * size.getD defaultBoard.grid.tagSize⟩, defaultBoard.borderBits⟩

/-- `TargetConfiguration::fromYaml` (target-aprilgrid.cc:20-44).  `none` is a file that is not there or not YAML: an exception
is thrown and caught, and the program ends. -/
def fromYaml (C : Codec) (file : Option Node) : Outcome FileConfig :=
  match file with
  | none => .abort
  | some n => boardOfNode C n

end Verif.Target
