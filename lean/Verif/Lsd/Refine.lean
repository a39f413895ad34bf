import Verif.Lsd.Rect

/-!
# Refining a region

Models `refine` and `reduce_region_radius` of `aslam_cv_detector/src/lsd/lsd-opencv.cc`.
Simplifications: floating point numbers are exact reals.
-/

open scoped Classical

namespace Verif.Lsd

/-- lsd-opencv.cc:92-96: `distSq`. -/
def distSq (x1 y1 x2 y2 : ℝ) : ℝ := (x2 - x1) * (x2 - x1) + (y2 - y1) * (y2 - y1)

/-- lsd-opencv.cc:98-102: `dist`. -/
noncomputable def dist (x1 y1 x2 y2 : ℝ) : ℝ := √(distSq x1 y1 x2 y2)

/-- lsd-opencv.cc:897-899, 929, 972-973: `density >= density_th`, where the density is
`reg_size / (dist(rec.x1, rec.y1, rec.x2, rec.y2) * rec.width)`. The quotient by zero is infinite. -/
def dense (n : Nat) (rec : Rect) (th : ℝ) : Prop :=
  dist rec.x1 rec.y1 rec.x2 rec.y2 * rec.width = 0 ∨
    th ≤ (n : ℝ) / (dist rec.x1 rec.y1 rec.x2 rec.y2 * rec.width)

/-- What `refine` and `reduce_region_radius` change: `used`, the region and the rectangle; and the
value they return (lsd-opencv.cc:894-979). -/
structure Refined where
  result : Bool
  used : Px → Bool
  reg : List Px
  rect : Rect

/-- lsd-opencv.cc:908-920: the differences to the angle of the first point, of the points that are
nearer to it than the width. -/
noncomputable def nearDiffs (m : Img) (s : Px) (width : ℝ) (reg : List Px) : List ℝ :=
  (reg.filter fun q => decide (dist s.1 s.2 q.1 q.2 < width)).map fun q =>
    angleDiffSigned ((m.ang q.1 q.2).getD (-1024)) ((m.ang s.1 s.2).getD (-1024))

/-- lsd-opencv.cc:921-923: `tau`. -/
noncomputable def tolerance (ds : List ℝ) : ℝ :=
  let n : ℝ := ds.length
  let sum := ds.sum
  let sSum := (ds.map fun d => d * d).sum
  let mean := sum / n
  2 * √((sSum - 2 * mean * sum) / n + mean * mean)

/-- lsd-opencv.cc:958-968: the loop that takes points out of the region: a point further away than the
radius is exchanged with the last one, which is dropped, and the same index is looked at again. At
most `fuel` steps. -/
noncomputable def removeFar (s : Px) (radSq : ℝ) :
    Nat → Nat → (Px → Bool) × List Px → (Px → Bool) × List Px
  | 0, _, st => st
  | fuel + 1, i, (used, reg) =>
    match reg[i]?, reg.getLast? with
    | some q, some last =>
      if radSq < distSq s.1 s.2 q.1 q.2 then
        removeFar s radSq fuel i (fun p => if p = q then false else used p, (reg.set i last).dropLast)
      else removeFar s radSq fuel (i + 1) (used, reg)
    | _, _ => (used, reg)

/-- lsd-opencv.cc:952-976: `while(density < density_th)`. If the rounds were not enough the outcome
would be `ub`, which `reduce_spec` excludes. -/
noncomputable def reduceLoop (m : Img) (s : Px) (regAngle prec p th : ℝ) :
    Nat → ℝ → (Px → Bool) → List Px → Rect → Outcome Refined
  | 0, _, _, _, _ => .ub
  | fuel + 1, radSq, used, reg, rec =>
    if dense reg.length rec th then .ok ⟨true, used, reg, rec⟩
    else
      let radSq := radSq * (3 / 4 * (3 / 4))
      let st := removeFar s radSq reg.length 0 (used, reg)
      if st.2.length < 2 then .ok ⟨false, st.1, st.2, rec⟩
      else region2rect m st.2 regAngle prec p >>= fun rec' =>
        reduceLoop m s regAngle prec p th fuel radSq st.1 st.2 rec'

/-- lsd-opencv.cc:942-979: `reduce_region_radius`; `s` is the first point of the region. -/
noncomputable def reduce (m : Img) (s : Px) (regAngle prec p th : ℝ) (used : Px → Bool)
    (reg : List Px) (rec : Rect) : Outcome Refined :=
  let r1 := distSq s.1 s.2 rec.x1 rec.y1
  let r2 := distSq s.1 s.2 rec.x2 rec.y2
  let radSq := if r2 < r1 then r1 else r2
  reduceLoop m s regAngle prec p th (2 * ⌈radSq⌉₊ + 2) radSq used reg rec

/-- lsd-opencv.cc:894-940: `refine`. An empty region is not passed to it; reading its first point
would be undefined behaviour. -/
noncomputable def refine (m : Img) (prec p th : ℝ) (used : Px → Bool) (reg : List Px) (rec : Rect) :
    Outcome Refined :=
  if dense reg.length rec th then .ok ⟨true, used, reg, rec⟩
  else
    match reg with
    | [] => .ub
    | s :: _ =>
      let used' : Px → Bool := fun q => if q ∈ reg then false else used q
      let tau := tolerance (nearDiffs m s rec.width reg)
      regionGrow m used' s tau >>= fun g =>
        if g.reg.length < 2 then .ok ⟨false, g.used, g.reg, rec⟩
        else region2rect m g.reg g.angle prec p >>= fun rec' =>
          if dense g.reg.length rec' th then .ok ⟨true, g.used, g.reg, rec'⟩
          else reduce m s g.angle prec p th g.used g.reg rec'

end Verif.Lsd
