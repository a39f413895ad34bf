import Verif.Base.Outcome
import Verif.Kaze.Descriptor
import Verif.Kaze.Orientation

/-!
# The descriptors of all keypoints

Model of `KAZE::Compute_Descriptors` in `aslam_cv_detector/src/kaze/KAZE.cpp`.  Its loops may be run by several threads
(`#pragma omp parallel for`): the calls `Compute_Main_Orientation` and `Get_…_Descriptor` are events that may happen in
any order in which those for the same keypoint come in the order of the program.  One call is one event: it reads and
writes only the keypoint and the row of its index, and reads the scale space, which nobody writes.  Timing is left out.
-/

namespace Verif.Kaze.Compute

open Verif (Outcome)
open Verif.Kaze.Descriptor (Kpt Which Family Derivatives)

/-- `DESCRIPTOR_TYPE` (KAZEConfig.h:22-35). -/
inductive DType where
  | surfUpright
  | surf
  | surfExtendedUpright
  | surfExtended
  | msurfUpright
  | msurf
  | msurfExtendedUpright
  | msurfExtended
  | gsurfUpright
  | gsurf
  | gsurfExtendedUpright
  | gsurfExtended
  deriving DecidableEq, Repr

/-- The number of columns of the matrix (KAZE.cpp:503-514). -/
def columns : DType → Nat
  | .surfExtended | .surfExtendedUpright | .msurfExtended | .msurfExtendedUpright | .gsurfExtended
  | .gsurfExtendedUpright => 128
  | _ => 64

/-- Which descriptor is computed (KAZE.cpp:516-641). -/
def which : DType → Which
  | .surfUpright => ⟨.surf, true, false⟩
  | .surf => ⟨.surf, false, false⟩
  | .surfExtended => ⟨.surf, false, true⟩
  | .surfExtendedUpright => ⟨.surf, true, true⟩
  | .msurfUpright => ⟨.msurf, true, false⟩
  | .msurf => ⟨.msurf, false, false⟩
  | .msurfExtended => ⟨.msurf, false, true⟩
  | .msurfExtendedUpright => ⟨.msurf, true, true⟩
  | .gsurfUpright => ⟨.gsurf, true, false⟩
  | .gsurf => ⟨.gsurf, false, false⟩
  | .gsurfExtended => ⟨.gsurf, false, true⟩
  | .gsurfExtendedUpright => ⟨.gsurf, true, true⟩

/-- Whether the orientation is computed before (KAZE.cpp:516-641). -/
def rotates : DType → Bool
  | .surf | .surfExtended | .msurf | .msurfExtended | .gsurf | .gsurfExtended => true
  | _ => false

/-- What is used of a `cv::KeyPoint`: `class_id` is the level of the scale space (KAZE.cpp:657-660). -/
structure Point where
  kp : Kpt
  level : Int

/-- What the calls read and do not write: the scale space, the size of the image, the arc tangent (KAZE.cpp:647-713). -/
structure Env where
  evolution : List Derivatives
  wd : Int
  ht : Int
  atan2 : ℝ → ℝ → ℝ

/-- `evolution_[level]` (KAZE.cpp:672), not checked. -/
def level (E : Env) (p : Point) : Outcome Derivatives :=
  if p.level < 0 then .ub
  else
    match E.evolution[p.level.toNat]? with
    | some d => .ok d
    | none => .ub

/-- The keypoints and the rows of the matrix; a row is `none` if it is not numbers (KAZE.cpp:498). -/
structure State where
  pts : List Point
  rows : List (Option (List ℝ))

/-- The calls of the loop bodies (KAZE.cpp:524-641). -/
inductive Event where
  | orient (i : Nat)
  | describe (i : Nat)
  deriving DecidableEq, Repr

/-- `Compute_Main_Orientation` of a keypoint (KAZE.cpp:647-713): only the angle changes. -/
noncomputable def oriented (E : Env) (d : Derivatives) (p : Point) : Point :=
  { p with kp := { p.kp with angle := Orientation.orientation E.atan2 E.wd E.ht d.Lx d.Ly p.kp } }

/-- One call (KAZE.cpp:524-641). -/
noncomputable def step (E : Env) (t : DType) (s : State) : Event → Outcome State
  | .orient i =>
    match s.pts[i]? with
    | none => .ub
    | some p => level E p >>= fun d => .ok { s with pts := s.pts.set i (oriented E d p) }
  | .describe i =>
    match s.pts[i]? with
    | none => .ub
    | some p =>
      level E p >>= fun d => .ok { s with rows := s.rows.set i (Descriptor.descriptor (which t) E.wd E.ht d p.kp) }

/-- Calls one after the other (KAZE.cpp:524-641). -/
noncomputable def run (E : Env) (t : DType) : State → List Event → Outcome State
  | s, [] => .ok s
  | s, e :: es => step E t s e >>= fun s' => run E t s' es

/-- The body of the loop for an index (KAZE.cpp:524-641). -/
def body (t : DType) (i : Nat) : List Event := if rotates t then [.orient i, .describe i] else [.describe i]

/-- The calls in the order of the loop (KAZE.cpp:524-641). -/
def program (t : DType) (n : Nat) : List Event := (List.range n).flatMap (body t)

/-- The state before the loop: the matrix is zero (KAZE.cpp:503-514). -/
def initial (t : DType) (pts : List Point) : State :=
  ⟨pts, List.replicate pts.length (some (List.replicate (columns t) 0))⟩

/-- `Compute_Descriptors` with the calls in a given order (KAZE.cpp:498-645). -/
noncomputable def computeDescriptors (E : Env) (t : DType) (pts : List Point) (es : List Event) : Outcome State :=
  run E t (initial t pts) es

end Verif.Kaze.Compute
