import Mathlib.Data.Rat.Defs
import Mathlib.Algebra.Order.Ring.Rat
import Verif.Base.Outcome

/-!
# Detection of extrema in the scale space

Model of `check_maximum_neighbourhood` in `aslam_cv_detector/src/kaze/nldiffusion_functions.cpp` and of the detector in
`aslam_cv_detector/src/kaze/KAZE.cpp`. The responses are rational numbers (every finite `float` is one).
-/

namespace Verif.Kaze.Extrema

open Verif (Outcome)

/-- The image `Ldet` of a level: row, column (KAZEConfig.h:93-104). -/
abbrev Level := Nat → Nat → ℚ

/-- A keypoint of the detector, KAZE.cpp:382-394, before the refinement. `size`, `octave` and the angle (that holds the
sublevel) are functions of the level and left out. -/
structure Kp where
  x : Nat
  y : Nat
  response : ℚ
  level : Nat
deriving DecidableEq, Repr

/-- `check_maximum_neighbourhood`, nldiffusion_functions.cpp:364-391. -/
def checkMaximum (rows cols : Nat) (img : Level) (dsize : Nat) (value : ℚ) (row col : Nat) (same : Bool) : Bool :=
  (List.range (2 * dsize + 1)).all fun a =>
    (List.range (2 * dsize + 1)).all fun b =>
      let i : Int := (row : Int) - dsize + a
      let j : Int := (col : Int) - dsize + b
      if 0 ≤ i ∧ i < rows ∧ 0 ≤ j ∧ j < cols then
        if same then
          if i ≠ row ∨ j ≠ col then !decide (value < img i.toNat j.toNat) else true
        else !decide (value < img i.toNat j.toNat)
      else true

/-- The test of a pixel, KAZE.cpp:362-379. -/
def isExtremum (rows cols : Nat) (Ldet : Nat → Level) (dthreshold : ℚ) (level ix jx : Nat) : Bool :=
  let value := Ldet level ix jx
  decide (dthreshold < value) && decide (1 / 100000 ≤ value) &&
    (decide (Ldet level ix (jx - 1) ≤ value) &&
      (checkMaximum rows cols (Ldet level) 1 value ix jx true &&
        (checkMaximum rows cols (Ldet (level - 1)) 1 value ix jx false &&
          checkMaximum rows cols (Ldet (level + 1)) 1 value ix jx false)))

/-- `KAZE::Find_Extremum_Threading`, KAZE.cpp:354-398: the keypoints of a level in raster order. -/
def findLevel (rows cols : Nat) (Ldet : Nat → Level) (dthreshold : ℚ) (level : Nat) : List Kp :=
  (List.range' 1 (rows - 2)).flatMap fun ix =>
    ((List.range' 1 (cols - 2)).filter fun jx => isExtremum rows cols Ldet dthreshold level ix jx).map fun jx =>
      { x := jx, y := ix, response := |Ldet level ix jx|, level := level }

/-- The test for a repeated point, KAZE.cpp:307-312. -/
def near (sigma : Nat → Nat) (c k : Kp) : Bool :=
  (decide (k.level = c.level) || decide (k.level = c.level + 1) || decide (k.level + 1 = c.level)) &&
    decide (((c.x : Int) - k.x) * ((c.x : Int) - k.x) + ((c.y : Int) - k.y) * ((c.y : Int) - k.y) <
      (sigma c.level : Int) * sigma c.level)

/-- One round of the loop over the candidates, KAZE.cpp:299-349. The test against the borders of the image has no effect,
because `is_out` is set to `false` after it, KAZE.cpp:337. -/
def mergeStep (sigma : Nat → Nat) (kpts : List Kp) (c : Kp) : List Kp :=
  match kpts.findIdx? (near sigma c) with
  | none => kpts ++ [c]
  | some i =>
    match kpts[i]? with
    | none => kpts
    | some k => if k.response < c.response then kpts.set i c else kpts

/-- `KAZE::Determinant_Hessian_Parallel`, KAZE.cpp:270-351, with `n` levels; `kpts` is what the vector held before.
Without levels the number of levels less one is the largest number, and the loop that allocates the vectors runs out of
memory. -/
def detect (rows cols : Nat) (Ldet : Nat → Level) (dthreshold : ℚ) (sigma : Nat → Nat) (n : Nat) (kpts : List Kp) :
    Outcome (List Kp) :=
  if n = 0 then .exc
  else .ok (((List.range' 1 (n - 2)).flatMap fun level => findLevel rows cols Ldet dthreshold level).foldl
    (mergeStep sigma) kpts)

end Verif.Kaze.Extrema
