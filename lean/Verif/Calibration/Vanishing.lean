import Verif.Base.Outcome
import Verif.Calibration.Model
import Mathlib.Analysis.Real.Pi.Bounds

/-!
# The focal length from vanishing points

Model of `initFocalLengthVanishingPoints` (focallength-initializers.cc:28-104), of what it uses of
`TargetObservation` (target-observation.h), and of the choice of the algorithm
(focallength-initializers-traits-inl.h).  Exact real arithmetic; a result that is not a number is explicit.
-/

namespace Verif.Calibration

open Verif (Outcome)

/-- `TargetObservation` with its target (target-observation.h:23-35, 123-127; target-base.h:59-66): `ids` and
`corners` are of the same length, which its constructor checks. -/
structure View where
  rows : Nat
  cols : Nat
  width : Nat
  height : Nat
  ids : List Int
  corners : List (ℝ × ℝ)

/-- `allCornersObservered` (target-observation.h:58-65): as many corners as the target has. -/
def View.complete (v : View) : Bool := v.rows * v.cols = v.ids.length

/-- `getObservedCornerById` (target-observation.h:80-90) without its check, which holds where it is called: the first
corner with this id. -/
def View.corner (v : View) (id : Nat) : Option (ℝ × ℝ) :=
  ((v.ids.zip v.corners).find? fun e => e.1 = (id : Int)).map (·.2)

/-- The points of a row (focallength-initializers.cc:55-65). -/
def View.row (v : View) (r : Nat) : List (ℝ × ℝ) :=
  (List.range v.cols).filterMap fun c => v.corner (r * v.cols + c)

/-- A guess (focallength-initializers.cc:74-85) from two circles; a circle is `none` if its fit divided by zero.
`some none` is a guess that is not a number: comparisons with numbers that are none are false, so that the
intersection gives two points. -/
noncomputable def guess (a b : Option (ℝ × ℝ × ℝ)) : Option (Option ℝ) :=
  match a, b with
  | some (x1, y1, r1), some (x2, y2, r2) =>
    match intersectCircles x1 y1 r1 x2 y2 r2 with
    | some (p :: q :: _) => some (some (hypot (p.1 - q.1) (p.2 - q.2) / Real.pi))
    | some _ => none
    | none => some none
  | _, _ => some none

/-- The pairs `j < k` in the order of the loops (focallength-initializers.cc:70-71). -/
def pairs (n : Nat) : List (Nat × Nat) :=
  (List.range n).flatMap fun j => (List.range' (j + 1) (n - (j + 1))).map fun k => (j, k)

/-- The guesses of one observation (focallength-initializers.cc:39-88). -/
noncomputable def guesses (v : View) : List (Option ℝ) :=
  if v.complete then
    (pairs v.rows).filterMap fun jk => guess (fitCircle (v.row jk.1)) (fitCircle (v.row jk.2))
  else []

/-- What `std::nth_element(begin, begin + k, end)` may do (stl-helpers.h:29-46), for real numbers. -/
structure Nth (k : Nat) (l l' : List ℝ) : Prop where
  perm : l'.Perm l
  before : ∀ a ∈ l'.take k, ∀ x, l'[k]? = some x → a ≤ x
  after : ∀ b ∈ l'.drop k, ∀ x, l'[k]? = some x → x ≤ b

/-- `median` (stl-helpers.h:29-46) of at least one real number; `nth` is `std::nth_element`. -/
noncomputable def medianReal (nth : Nat → List ℝ → List ℝ) (l : List ℝ) : ℝ :=
  let mid := l.length / 2
  let l1 := nth mid l
  let high := l1.getD mid 0
  if l.length % 2 ≠ 0 then high else ((high + (nth (mid - 1) l1).getD (mid - 1) 0) / 2)

/-- What comes out: false, or true with the intrinsics; `notANumber`: true, but a guess was not a number, so that the
median is none or, as such numbers have no order, anything (focallength-initializers.cc:90-103). -/
inductive Focal where
  | no
  | yes (fu fv cu cv : ℝ)
  | notANumber

open Classical in
/-- `initFocalLengthVanishingPoints` (focallength-initializers.cc:28-104). -/
noncomputable def vanishingPoints (nth : Nat → List ℝ → List ℝ) (observations : List View) : Outcome Focal :=
  match observations with
  | [] => .abort
  | first :: _ =>
    let cu := ((first.width : ℝ) - 1) / 2
    let cv := ((first.height : ℝ) - 1) / 2
    let g := observations.flatMap guesses
    if g = [] then .ok .no
    else if none ∈ g then .ok .notANumber
    else
      let f := medianReal nth (g.filterMap id)
      .ok (.yes f f cu cv)

/-! ## The choice of the algorithm -/

/-- The types of cameras (camera.h:124-128). -/
inductive Projection where
  | pinhole | unified | lidar
  deriving DecidableEq

/-- The types of distortion (distortion.h:23-28). -/
inductive Lens where
  | none | equidistant | fisheye | radtan
  deriving DecidableEq

/-- The algorithms (focallength-initializers.h:25-41). -/
inductive Algorithm where
  | vanishing | conic
  deriving DecidableEq

/-- `FocalLengthInitializer` (focallength-initializers-traits-inl.h:14-43): for all other combinations the process
ends. -/
def chosen : Projection → Lens → Outcome Algorithm
  | .pinhole, .equidistant => .ok .vanishing
  | .pinhole, .radtan => .ok .vanishing
  | .pinhole, .none => .ok .conic
  | _, _ => .abort

end Verif.Calibration
