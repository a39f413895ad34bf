import Verif.Kaze.Extrema

/-!
# Refinement of the keypoints

Model of `KAZE::Do_Subpixel_Refinement` and `KAZE::Feature_Detection` in `aslam_cv_detector/src/kaze/KAZE.cpp`, in exact
arithmetic.
-/

namespace Verif.Kaze.Extrema

open Verif (Outcome)

/-- An offset in columns, rows and levels: `dst` of KAZE.cpp:409. -/
structure Offset where
  x : ℚ
  y : ℚ
  s : ℚ
deriving DecidableEq

/-- The linear system, KAZE.cpp:456-465: the upper half of the matrix and the right hand side. -/
structure Sys where
  xx : ℚ
  yy : ℚ
  ss : ℚ
  xy : ℚ
  xs : ℚ
  ys : ℚ
  bx : ℚ
  bY : ℚ
  bs : ℚ

/-- `cv::solve`: the third argument is what the result holds before the call (KAZE.cpp:467). -/
abbrev Solver := Sys → Offset → Offset

/-- A keypoint after the refinement. The size is `2 soffset 2^scale`, KAZE.cpp:472-475. -/
structure Refined where
  x : ℚ
  y : ℚ
  scale : ℚ
  response : ℚ
  level : Nat
deriving DecidableEq

/-- The derivatives, KAZE.cpp:419-465, by differences of the response at the pixel (`step` is 1). -/
def system (Ldet : Nat → Level) (l y x : Nat) : Sys :=
  { xx := Ldet l y (x + 1) + Ldet l y (x - 1) - 2 * Ldet l y x
    yy := Ldet l (y + 1) x + Ldet l (y - 1) x - 2 * Ldet l y x
    ss := Ldet (l + 1) y x + Ldet (l - 1) y x - 2 * Ldet l y x
    xy := 1 / 4 * (Ldet l (y + 1) (x + 1) + Ldet l (y - 1) (x - 1)) -
      1 / 4 * (Ldet l (y - 1) (x + 1) + Ldet l (y + 1) (x - 1))
    xs := 1 / 4 * (Ldet (l + 1) y (x + 1) + Ldet (l - 1) y (x - 1)) -
      1 / 4 * (Ldet (l + 1) y (x - 1) + Ldet (l - 1) y (x + 1))
    ys := 1 / 4 * (Ldet (l + 1) (y + 1) x + Ldet (l - 1) (y - 1) x) -
      1 / 4 * (Ldet (l + 1) (y - 1) x + Ldet (l - 1) (y + 1) x)
    bx := -(1 / 2 * (Ldet l y (x + 1) - Ldet l y (x - 1)))
    bY := -(1 / 2 * (Ldet l (y + 1) x - Ldet l (y - 1) x))
    bs := -(1 / 2 * (Ldet (l + 1) y x - Ldet (l - 1) y x)) }

/-- One round of the loop, KAZE.cpp:415-481: the new `dst`, and the keypoint unless it is marked to be deleted. The levels
are pushed octave by octave, KAZE.cpp:49-50, so octave and sublevel are quotient and remainder of the level. Reading
outside of the image or of the levels is undefined, also if the address still is one of the next row. -/
def refineOne (solve : Solver) (rows cols n nsub : Nat) (Ldet : Nat → Level) (prev : Offset) (k : Kp) :
    Outcome (Offset × Option Refined) :=
  if 0 < k.x ∧ k.x + 1 < cols ∧ 0 < k.y ∧ k.y + 1 < rows ∧ 0 < k.level ∧ k.level + 1 < n then
    let d := solve (system Ldet k.level k.y k.x) prev
    if |d.x| ≤ 1 ∧ |d.y| ≤ 1 ∧ |d.s| ≤ 1 then
      .ok (d, some
        { x := k.x + d.x
          y := k.y + d.y
          scale := ((k.level / nsub : Nat) : ℚ) + (((k.level % nsub : Nat) : ℚ) + d.s) / nsub
          response := k.response
          level := k.level })
    else .ok (d, none)
  else .ub

/-- The loop, KAZE.cpp:415-482, and the removal of the deleted keypoints, KAZE.cpp:485-491 (responses are positive, so
only the marked ones are -1). -/
def refineAll (solve : Solver) (rows cols n nsub : Nat) (Ldet : Nat → Level) : Offset → List Kp → Outcome (List Refined)
  | _, [] => .ok []
  | prev, k :: ks =>
    refineOne solve rows cols n nsub Ldet prev k >>= fun r =>
      refineAll solve rows cols n nsub Ldet r.1 ks >>= fun rs =>
        .ok (match r.2 with | some p => p :: rs | none => rs)

/-- `KAZE::Do_Subpixel_Refinement`, KAZE.cpp:401-495. -/
def refine (solve : Solver) (rows cols n nsub : Nat) (Ldet : Nat → Level) (kpts : List Kp) : Outcome (List Refined) :=
  refineAll solve rows cols n nsub Ldet ⟨0, 0, 0⟩ kpts

/-- `KAZE::Feature_Detection` after the response, KAZE.cpp:256-267, into an empty vector. -/
def features (solve : Solver) (rows cols : Nat) (Ldet : Nat → Level) (dthreshold : ℚ) (sigma : Nat → Nat) (n nsub : Nat) :
    Outcome (List Refined) :=
  detect rows cols Ldet dthreshold sigma n [] >>= refine solve rows cols n nsub Ldet

end Verif.Kaze.Extrema
