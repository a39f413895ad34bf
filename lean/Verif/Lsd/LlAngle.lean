import Verif.Lsd.Grow
import Mathlib.Analysis.Real.Sqrt
import Mathlib.Data.Finset.Max

/-!
# Gradients of the image and the list of its pixels

Models `ll_angle` of `aslam_cv_detector/src/lsd/lsd-opencv.cc`. Simplifications: floating point
numbers are exact reals, and `cv::fastAtan2` with the conversion to radians is a parameter.
-/

open scoped Classical

namespace Verif.Lsd

/-- lsd-opencv.cc:326-336, 657-661: the scaled image. -/
structure Gray where
  w : Nat
  h : Nat
  px : Nat → Nat → ℝ

/-- lsd-opencv.cc:675-677: `gx`. -/
noncomputable def Gray.gx (i : Gray) (x y : Nat) : ℝ :=
  let da := i.px (x + 1) (y + 1) - i.px x y
  let bc := i.px (x + 1) y - i.px x (y + 1)
  da + bc

/-- lsd-opencv.cc:675-678: `gy`. -/
noncomputable def Gray.gy (i : Gray) (x y : Nat) : ℝ :=
  let da := i.px (x + 1) (y + 1) - i.px x y
  let bc := i.px (x + 1) y - i.px x (y + 1)
  da - bc

/-- lsd-opencv.cc:679: `norm`. -/
noncomputable def Gray.norm (i : Gray) (x y : Nat) : ℝ :=
  √((i.gx x y * i.gx x y + i.gy x y * i.gy x y) / 4)

/-- lsd-opencv.cc:650-694: the angles and the norms of the gradients. The norms in the last row and
in the last column stay as they were when the matrix was allocated, which is `rest`. -/
noncomputable def llImg (i : Gray) (threshold : ℝ) (atan2 : ℝ → ℝ → ℝ) (rest : Nat → Nat → ℝ) :
    Img where
  w := i.w
  h := i.h
  ang := fun x y =>
    if x + 1 < i.w ∧ y + 1 < i.h then
      if i.norm x y ≤ threshold then none else some (atan2 (i.gx x y) (-i.gy x y))
    else none
  mod := fun x y => if x + 1 < i.w ∧ y + 1 < i.h then i.norm x y else rest x y
  atan2 := atan2

/-- lsd-opencv.cc:671-673, 703-706: the pixels that have a gradient, in the order in which they are
visited. -/
def raster (w h : Nat) : List Px :=
  (List.range (h - 1)).flatMap fun y => (List.range (w - 1)).map fun x => (x, y)

/-- lsd-opencv.cc:670, 683-691: `max_grad`, the largest norm above the threshold. -/
noncomputable def maxGrad (i : Gray) (threshold : ℝ) : ℝ :=
  (raster i.w i.h).foldl
    (fun m q => if i.norm q.1 q.2 ≤ threshold then m
      else if m < i.norm q.1 q.2 then i.norm q.1 q.2 else m) (-1)

/-- lsd-opencv.cc:701, 709: the bin of a pixel. The value is converted to `int`, which cuts it off;
norms are not negative. -/
noncomputable def binOf (i : Gray) (threshold : ℝ) (nBins : Nat) (q : Px) : Nat :=
  let coef := if 0 < maxGrad i threshold then ((nBins - 1 : Nat) : ℝ) / maxGrad i threshold else 0
  ⌊i.norm q.1 q.2 * coef⌋₊

/-- lsd-opencv.cc:697-700: the vector `list` of cells with their members `p` and `next` (an index
instead of a pointer), the vectors `range_s` and `range_e`, and `count`. -/
structure Bins where
  p : Nat → Px
  next : Nat → Option Nat
  rs : Nat → Option Nat
  re : Nat → Option Nat
  count : Nat

/-- lsd-opencv.cc:697-700: before the pixels are visited. The constructor of the vector gives all cells
the point (0, 0) and no successor. -/
def Bins.start : Bins := ⟨fun _ => (0, 0), fun _ => none, fun _ => none, fun _ => none, 0⟩

/-- lsd-opencv.cc:709-722: the pixel `q` goes to bin `i`. An index behind the vectors `range_s`, `range_e`
(which have `nBins` entries) or `list` (which has `cells`) is undefined behaviour. -/
def Bins.put (nBins cells : Nat) (b : Bins) (i : Nat) (q : Px) : Outcome Bins :=
  if nBins ≤ i ∨ cells ≤ b.count then .ub
  else
    match b.re i with
    | none => .ok
        { p := fun c => if c = b.count then q else b.p c
          next := fun c => if c = b.count then none else b.next c
          rs := fun j => if j = i then some b.count else b.rs j
          re := fun j => if j = i then some b.count else b.re j
          count := b.count + 1 }
    | some e => .ok
        { p := fun c => if c = b.count then q else b.p c
          next := fun c =>
            if c = b.count then none else if c = e then some b.count else b.next c
          rs := b.rs
          re := fun j => if j = i then some b.count else b.re j
          count := b.count + 1 }

/-- lsd-opencv.cc:703-724: all pixels are put into their bins. -/
def Bins.fill (nBins cells : Nat) (bin : Px → Nat) : List Px → Bins → Outcome Bins
  | [], b => .ok b
  | q :: qs, b => b.put nBins cells (bin q) q >>= Bins.fill nBins cells bin qs

/-- lsd-opencv.cc:728: `for(;idx > 0 && !range_s[idx]; --idx);`. -/
def Bins.top (b : Bins) : Nat → Nat
  | 0 => 0
  | idx + 1 => if (b.rs (idx + 1)).isNone then b.top idx else idx + 1

/-- lsd-opencv.cc:733-742: `while(idx > 0)`: the bins below `idx` are appended to `end`. -/
def Bins.link (b : Bins) : Nat → Option Nat → Bins
  | 0, _ => b
  | idx + 1, fin =>
    match b.rs idx with
    | none => b.link idx fin
    | some s =>
      Bins.link { b with next := fun c => if some c = fin then some s else b.next c } idx (b.re idx)

/-- lsd-opencv.cc:727-743: the bins are linked, and the first cell. -/
def Bins.sort (nBins : Nat) (b : Bins) : Bins × Option Nat :=
  let idx := b.top (nBins - 1)
  match b.rs idx with
  | none => (b, none)
  | some s => (b.link idx (b.re idx), some s)

/-- lsd-opencv.cc:696-743: the list. What the caller gets is the vector `list`; the first cell of the chain
is a local variable that is lost. -/
noncomputable def llList (i : Gray) (threshold : ℝ) (nBins : Nat) : Outcome (Bins × Option Nat) :=
  Bins.fill nBins (i.w * i.h) (binOf i threshold nBins) (raster i.w i.h) Bins.start >>= fun b =>
    .ok (b.sort nBins)

/-- lsd-opencv.cc:585-588: the points of the vector in the order in which `flsd` visits them. -/
def Bins.points (b : Bins) (cells : Nat) : List Px := (List.range cells).map b.p

end Verif.Lsd
