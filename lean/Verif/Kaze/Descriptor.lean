import Mathlib.Analysis.SpecialFunctions.Trigonometric.Basic
import Mathlib.Analysis.SpecialFunctions.Sqrt

/-!
# The descriptors

Model of the twelve descriptors in `aslam_cv_detector/src/kaze/KAZE.cpp`, in exact arithmetic. They have the same
structure and are one function here, with the family, upright or not, and extended (128 numbers) or not as parameters.
The functions are, upright and rotated: SURF with 64 numbers KAZE.cpp:716-796 and 799-887, MSURF 890-1003 and 1006-1120,
GSURF 1123-1239 and 1242-1361; with 128 numbers SURF 1364-1464 and 1467-1576, MSURF 1579-1716 and 1719-1861, GSURF
1864-1998 and 2001-2141. Where they differ other than by these parameters, the definition concerned says so.
-/

namespace Verif.Kaze.Descriptor

/-- The families of descriptors, KAZEConfig.h (lines 22-35). -/
inductive Family where
  | surf
  | msurf
  | gsurf
deriving DecidableEq

/-- Which descriptor (KAZEConfig.h:22-35). -/
structure Which where
  family : Family
  upright : Bool
  extended : Bool

/-- The derivatives of a level of the scale space: row, column. Only positions within the image are read
(KAZEConfig.h:93-104). -/
structure Derivatives where
  Lx : Int → Int → ℝ
  Ly : Int → Int → ℝ
  Lxx : Int → Int → ℝ
  Lxy : Int → Int → ℝ
  Lyy : Int → Int → ℝ

/-- What the descriptors use of a keypoint, for example KAZE.cpp:815-822. -/
structure Kpt where
  x : ℝ
  y : ℝ
  size : ℝ
  angle : ℝ

/-- The conversion of a floating point number to `int`, for numbers in the range of `int` (KAZE.cpp:750-751). -/
noncomputable def trunc (x : ℝ) : Int := if 0 ≤ x then ⌊x⌋ else ⌈x⌉

/-- `fRound`, KAZE.cpp:2342-2344. -/
noncomputable def fRound (x : ℝ) : Int := trunc (x + 1 / 2)

/-- `checkDescriptorLimits`, KAZE.cpp:2326-2339, for one coordinate. -/
def limit (v n : Int) : Int :=
  let v := if v < 0 then 0 else v
  if n - 1 < v then n - 1 else v

/-- `gaussian`, KAZE.cpp:2321-2323. The standard deviation is not zero for keypoints of size 1 and more. -/
noncomputable def gaussian (x y sig : ℝ) : ℝ := Real.exp (-(x * x + y * y) / (2 * sig * sig))

/-- `scale`, for example KAZE.cpp:735. -/
noncomputable def scale (k : Kpt) : Int := fRound (k.size / 2)

/-- The position of the sample `(k, l)` as (x, y): rotated as in KAZE.cpp:831-832, 1052-1053, 1274-1275, 1501-1502,
1775-1776, 2041-2042; upright as in KAZE.cpp:747-748, 936-937, 1394-1395, 1630-1631, 1896-1897; and upright in
`Get_GSURF_Upright_Descriptor_64` as in KAZE.cpp:1154-1155. -/
noncomputable def position (w : Which) (kp : Kpt) (k l : Int) : ℝ × ℝ :=
  if w.upright then
    if w.family = .gsurf ∧ w.extended = false then (kp.x + k * scale kp, kp.y + l * scale kp)
    else (l * scale kp + kp.x, k * scale kp + kp.y)
  else
    (kp.x + (-l * scale kp * Real.sin kp.angle + k * scale kp * Real.cos kp.angle),
      kp.y + (l * scale kp * Real.cos kp.angle + k * scale kp * Real.sin kp.angle))

/-- The first pixel, before the limits: `(int)(sample-.5)`, for example KAZE.cpp:750-751; but `fRound(sample-.5)` in the
rotated MSURF descriptors, KAZE.cpp:1057-1058, 1781-1782. -/
noncomputable def first (w : Which) (s : ℝ) : Int :=
  if w.family = .msurf ∧ w.upright = false then fRound (s - 1 / 2) else trunc (s - 1 / 2)

/-- The interpolated value, for example KAZE.cpp:750-768. -/
noncomputable def interp (w : Which) (width height : Int) (im : Int → Int → ℝ) (p : ℝ × ℝ) : ℝ :=
  let x1 := limit (first w p.1) width
  let y1 := limit (first w p.2) height
  let x2 := limit (trunc (p.1 + 1 / 2)) width
  let y2 := limit (trunc (p.2 + 1 / 2)) height
  let fx := p.1 - x1
  let fy := p.2 - y1
  (1 - fx) * (1 - fy) * im y1 x1 + fx * (1 - fy) * im y1 x2 + (1 - fx) * fy * im y2 x1 + fx * fy * im y2 x2

/-- The second derivatives along and across the gradient, KAZE.cpp:1182-1212, for example. -/
noncomputable def gauge (w : Which) (width height : Int) (d : Derivatives) (p : ℝ × ℝ) (rx ry : ℝ) : ℝ × ℝ :=
  if rx ^ 2 + ry ^ 2 ≠ 0 then
    let rxx := interp w width height d.Lxx p
    let rxy := interp w width height d.Lxy p
    let ryy := interp w width height d.Lyy p
    ((rx ^ 2 * rxx + 2 * rx * rxy * ry + ry ^ 2 * ryy) / (rx ^ 2 + ry ^ 2),
      (-2 * rx * rxy * ry + rxx * ry ^ 2 + rx ^ 2 * ryy) / (rx ^ 2 + ry ^ 2))
  else (0, 0)

/-- The two values of the sample `(k, l)` in the cell that begins with `(i, j)`: derivatives in the axes of the keypoint
(KAZE.cpp:858-860), weighted (KAZE.cpp:960-961, 1080-1082), or the derivatives in the axes of the gradient, in the order
of the 64 (KAZE.cpp:1215-1219) or the 128 numbers (KAZE.cpp:1952-1968). The weight is centred at the sample `(i + 5, j + 5)`,
KAZE.cpp:927-931, 1045-1049. -/
noncomputable def values (w : Which) (width height : Int) (d : Derivatives) (kp : Kpt) (i j k l : Int) : ℝ × ℝ :=
  let p := position w kp k l
  let rx := interp w width height d.Lx p
  let ry := interp w width height d.Ly p
  let r : ℝ × ℝ :=
    if w.upright then (rx, ry)
    else (-rx * Real.sin kp.angle + ry * Real.cos kp.angle, rx * Real.cos kp.angle + ry * Real.sin kp.angle)
  match w.family with
  | .surf => r
  | .msurf =>
    let c := position w kp (i + 5) (j + 5)
    let g := gaussian (c.1 - p.1) (c.2 - p.2) (5 / 2 * scale kp)
    (g * r.1, g * r.2)
  | .gsurf =>
    let v := gauge w width height d p rx ry
    if w.extended then (v.2, v.1) else v

/-- The sum of the values that are chosen (KAZE.cpp:1420-1449). -/
noncomputable def sumIf (c f : ℝ × ℝ → ℝ) (vs : List (ℝ × ℝ)) : ℝ := (vs.map fun v => if 0 ≤ c v then f v else 0).sum

/-- The sum of the values that are not chosen (KAZE.cpp:1420-1449). -/
noncomputable def sumNot (c f : ℝ × ℝ → ℝ) (vs : List (ℝ × ℝ)) : ℝ := (vs.map fun v => if 0 ≤ c v then 0 else f v).sum

/-- The numbers of a cell: KAZE.cpp:770-783, and KAZE.cpp:1420-1449 for the extended ones. -/
noncomputable def bins (extended : Bool) (vs : List (ℝ × ℝ)) : List ℝ :=
  if extended then
    [sumIf Prod.snd Prod.fst vs, sumNot Prod.snd Prod.fst vs, sumIf Prod.snd (fun v => |v.1|) vs,
      sumNot Prod.snd (fun v => |v.1|) vs, sumIf Prod.fst Prod.snd vs, sumNot Prod.fst Prod.snd vs,
      sumIf Prod.fst (fun v => |v.2|) vs, sumNot Prod.fst (fun v => |v.2|) vs]
  else
    [(vs.map Prod.fst).sum, (vs.map Prod.snd).sum, (vs.map fun v => |v.1|).sum, (vs.map fun v => |v.2|).sum]

/-- Where a cell begins: -10, -5, 0, 5 (KAZE.cpp:738-739); the loops of MSURF (KAZE.cpp:912-985) give -12, -7, -2, 3. -/
def start (f : Family) (p : Nat) : Int := if f = .msurf then -12 + 5 * p else -10 + 5 * p

/-- The number of samples of a cell in each direction: KAZE.cpp:743-744, 933-934. -/
def width (f : Family) : Nat := if f = .msurf then 9 else 5

/-- The weight of a cell: KAZE.cpp:972. -/
noncomputable def weight (f : Family) (p q : Nat) : ℝ :=
  if f = .msurf then gaussian ((p : ℝ) + 1 / 2 - 2) ((q : ℝ) + 1 / 2 - 2) (3 / 2) else 1

/-- The sums of the cell in row `p` and column `q` (KAZE.cpp:738-783). -/
noncomputable def cell (w : Which) (wd ht : Int) (d : Derivatives) (kp : Kpt) (p q : Nat) : List ℝ :=
  let i := start w.family p
  let j := start w.family q
  bins w.extended ((List.range (width w.family)).flatMap fun (k : Nat) =>
    (List.range (width w.family)).map fun (l : Nat) => values w wd ht d kp i j (i + (k : Int)) (j + (l : Int)))

/-- The cells in the order of the loops (KAZE.cpp:738-789). -/
def cells : List (Nat × Nat) := (List.range 4).flatMap fun p => (List.range 4).map fun q => (p, q)

/-- The vector before it is divided by its length (KAZE.cpp:716-789). -/
noncomputable def raw (w : Which) (wd ht : Int) (d : Derivatives) (kp : Kpt) : List ℝ :=
  cells.flatMap fun c => (cell w wd ht d kp c.1 c.2).map (· * weight w.family c.1 c.2)

/-- The square of the length as it is summed up, KAZE.cpp:786, 979. -/
noncomputable def lengthSq (w : Which) (wd ht : Int) (d : Derivatives) (kp : Kpt) : ℝ :=
  (cells.map fun c => ((cell w wd ht d kp c.1 c.2).map (fun v => v * v)).sum * weight w.family c.1 c.2 *
    weight w.family c.1 c.2).sum

/-- The descriptor, KAZE.cpp:716-2141 (twelve functions). `none`: zero divided by zero, not a number. -/
noncomputable def descriptor (w : Which) (wd ht : Int) (d : Derivatives) (kp : Kpt) : Option (List ℝ) :=
  if Real.sqrt (lengthSq w wd ht d kp) = 0 then none
  else some ((raw w wd ht d kp).map (· / Real.sqrt (lengthSq w wd ht d kp)))

/-- The samples for the orientation, KAZE.cpp:663-683. -/
def orientationSamples : List (Int × Int) :=
  ((List.range 13).flatMap fun (a : Nat) => (List.range 13).map fun (b : Nat) => ((a : Int) - 6, (b : Int) - 6)).filter
    fun p => decide (p.1 * p.1 + p.2 * p.2 < 36)

end Verif.Kaze.Descriptor
