import Verif.Kaze.Descriptor

/-!
# The main orientation of keypoints

Model of `KAZE::Compute_Main_Orientation` in `aslam_cv_detector/src/kaze/KAZE.cpp`. Numbers of type `float` are real
numbers, and rounding is not modelled: the windows begin at the multiples of 0.15. `cv::fastAtan2` times `CV_PI/180` is the
parameter `atan2`.
-/

namespace Verif.Kaze.Orientation

open Verif.Kaze.Descriptor (Kpt)

open Classical in
/-- The weighted derivatives `resX` and `resY` at a sample, KAZE.cpp:666-677. The scale is not zero for keypoints of size 1
and more. -/
noncomputable def res (wd ht : Int) (Lx Ly : Int → Int → ℝ) (kp : Kpt) (p : Int × Int) : ℝ × ℝ :=
  let s := Descriptor.scale kp
  let iy := Descriptor.fRound (kp.y + p.2 * s)
  let ix := Descriptor.fRound (kp.x + p.1 * s)
  if 0 ≤ iy ∧ iy < ht ∧ 0 ≤ ix ∧ ix < wd then
    let g := Descriptor.gaussian ((iy : ℝ) - kp.y) ((ix : ℝ) - kp.x) (5 / 2 * s)
    (g * Lx iy ix, g * Ly iy ix)
  else (0, 0)

/-- The samples with their angles, KAZE.cpp:663-683. -/
noncomputable def samples (atan2 : ℝ → ℝ → ℝ) (wd ht : Int) (Lx Ly : Int → Int → ℝ) (kp : Kpt) :
    List ((ℝ × ℝ) × ℝ) :=
  Descriptor.orientationSamples.map fun p =>
    let r := res wd ht Lx Ly kp p
    (r, atan2 r.2 r.1)

open Classical in
/-- Where the windows begin, KAZE.cpp:686: `fuel` bounds the number of rounds. -/
noncomputable def begins : Nat → ℝ → List ℝ
  | 0, _ => []
  | fuel + 1, ang1 => if ang1 < 2 * Real.pi then ang1 :: begins fuel (ang1 + 15 / 100) else []

open Classical in
/-- Where a window ends, KAZE.cpp:687. -/
noncomputable def windowEnd (ang1 : ℝ) : ℝ :=
  if 2 * Real.pi < ang1 + Real.pi / 3 then ang1 - 5 * Real.pi / 3 else ang1 + Real.pi / 3

/-- Whether an angle is within the window, KAZE.cpp:695-702. -/
def InWindow (ang1 ang2 ang : ℝ) : Prop :=
  (ang1 < ang2 ∧ ang1 < ang ∧ ang < ang2) ∨
    (ang2 < ang1 ∧ ((0 < ang ∧ ang < ang2) ∨ (ang1 < ang ∧ ang < 2 * Real.pi)))

open Classical in
/-- The sums over a window, KAZE.cpp:688-703. -/
noncomputable def windowSum (ang1 : ℝ) (l : List ((ℝ × ℝ) × ℝ)) : ℝ × ℝ :=
  l.foldl (fun acc e => if InWindow ang1 (windowEnd ang1) e.2 then (acc.1 + e.1.1, acc.2 + e.1.2) else acc) (0, 0)

open Classical in
/-- The loop over the windows, KAZE.cpp:686-712, with `max` and the angle. -/
noncomputable def slide (atan2 : ℝ → ℝ → ℝ) (l : List ((ℝ × ℝ) × ℝ)) : List ℝ → ℝ × ℝ → ℝ × ℝ
  | [], st => st
  | ang1 :: r, st =>
    let v := windowSum ang1 l
    if st.1 < v.1 * v.1 + v.2 * v.2 then slide atan2 l r (v.1 * v.1 + v.2 * v.2, atan2 v.2 v.1)
    else slide atan2 l r st

/-- `KAZE::Compute_Main_Orientation`, KAZE.cpp:647-713: the angle of the keypoint afterwards. -/
noncomputable def orientation (atan2 : ℝ → ℝ → ℝ) (wd ht : Int) (Lx Ly : Int → Int → ℝ) (kp : Kpt) : ℝ :=
  (slide atan2 (samples atan2 wd ht Lx Ly kp) (begins 100 0) (0, kp.angle)).2

end Verif.Kaze.Orientation
