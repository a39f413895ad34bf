import Mathlib.Analysis.SpecialFunctions.Log.Basic
import Mathlib.Data.List.Sort
import Verif.Lsd.Rect

/-!
# The number of false alarms

Models `nfa`, `rect_nfa` and `rect_improve` of `aslam_cv_detector/src/lsd/lsd-opencv.cc`.
Simplifications: floating point numbers are exact reals and `int` does not overflow; `log_gamma` is a
parameter.
-/

open scoped Classical

namespace Verif.Lsd

/-- `log10`. -/
noncomputable def log10 (x : ℝ) : ℝ := Real.log x / Real.log 10

/-- lsd-opencv.cc:1229-1242: the loop from `i` on, for `fuel` more values of `i`; the result is
`bin_tail`. A factor `mult_term` of one, for which the error in C++ is not a number, does not come with
`p` up to one half. -/
noncomputable def nfaLoop (n : Nat) (pTerm logNT : ℝ) : Nat → Nat → ℝ → ℝ → ℝ
  | 0, _, _, tail => tail
  | fuel + 1, i, term, tail =>
    let binTerm := ((n : ℝ) - i + 1) / i
    let multTerm := binTerm * pTerm
    let term := term * multTerm
    let tail := tail + term
    if binTerm < 1 ∧
        term * ((1 - multTerm ^ (n - i + 1)) / (1 - multTerm) - 1) <
          1 / 10 * |(-log10 tail) - logNT| * tail then tail
    else nfaLoop n pTerm logNT fuel (i + 1) term tail

/-- lsd-opencv.cc:1208-1244: `nfa(n, k, p)`. `logGamma` is `log_gamma`, `logNT` the member `LOG_NT`. -/
noncomputable def nfa (logGamma : ℝ → ℝ) (logNT : ℝ) (n k : Nat) (p : ℝ) : ℝ :=
  if n = 0 ∨ k = 0 then -logNT
  else if n = k then -logNT - n * log10 p
  else
    let pTerm := p / (1 - p)
    let log1term := (n + 1) - logGamma (k + 1) - logGamma ((n - k : Nat) + 1) + k * Real.log p +
      (n - k : Nat) * Real.log (1 - p)
    let term := Real.exp log1term
    if doubleEqual term 0 then
      if n * p < k then -log1term / Real.log 10 - logNT else -logNT
    else -log10 (nfaLoop n pTerm logNT (n - k) (k + 1) term term) - logNT

/-! ### Counting in a rectangle -/

/-- `cv::Point` (lsd-opencv.cc:1088-1099). -/
abbrev Pt := Int × Int

/-- lsd-opencv.cc:135-139: `AsmallerB_XoverY` or equal. -/
def ptLe (a b : Pt) : Prop := if a.1 = b.1 then a.2 ≤ b.2 else a.1 < b.1

instance : DecidableRel ptLe := fun a b => by unfold ptLe; infer_instance

/-- lsd-opencv.cc:1103-1108, 1111-1126 and the like: walks over the points and keeps the current one
unless `better` says that the next one is better. -/
def keepBest (better : Pt → Pt → Bool) : Pt → List Pt → Pt
  | c, [] => c
  | c, q :: qs => keepBest better (if better c q then q else c) qs

/-- lsd-opencv.cc:1165-1173: the slope of a side: an integer division, although the result is a `double`.
For the sides to the last point `dy` is not the difference of rows, because the column of the last
point is subtracted. -/
def sideStep (dx dy : Int) : Int := if dy = 0 then 0 else dx.tdiv dy

/-- lsd-opencv.cc:1186-1196: the pixels of a row that are counted. -/
def scanRow (w : Nat) (left right y : Int) : List Px :=
  ((List.range (right - left + 1).toNat).map fun (k : Nat) => left + (k : Int)).filterMap fun x =>
    if x < 0 ∨ (w : Int) ≤ x then none else some (x.toNat, y.toNat)

/-- The variables of the loop over the rows (lsd-opencv.cc:1175-1203). -/
structure Scan where
  left : Int
  right : Int
  lstep : Int
  rstep : Int

/-- lsd-opencv.cc:1180-1203: the loop over `fuel` rows from `y` on; the pixels that are counted. For rows
out of the image nothing is done, also not to the borders. -/
def scanRows (w h : Nat) (ly ry sl sr : Int) : Nat → Int → Scan → List Px
  | 0, _, _ => []
  | fuel + 1, y, s =>
    if y < 0 ∨ (h : Int) ≤ y then scanRows w h ly ry sl sr fuel (y + 1) s
    else
      let lstep := if ly ≤ y then sl else s.lstep
      let rstep := if ry ≤ y then sr else s.rstep
      scanRow w s.left s.right y ++
        scanRows w h ly ry sl sr fuel (y + 1) ⟨s.left + lstep, s.right + rstep, lstep, rstep⟩

/-- lsd-opencv.cc:1101-1203: the pixels that are counted, given the corners. The corners are sorted; then the
first one with the least row is taken, then the leftmost of the rest, then the rightmost, and one
remains. -/
def rectPixels (w h : Nat) (corners : List Pt) : List Px :=
  match corners.insertionSort ptLe with
  | [] => []
  | c :: cs =>
    let minY := keepBest (fun a b => b.2 < a.2) c cs
    let maxY := keepBest (fun a b => a.2 < b.2) c cs
    match (c :: cs).erase minY with
    | [] => []
    | d :: ds =>
      let leftmost := keepBest (fun a b => b.1 < a.1) d ds
      match (d :: ds).erase leftmost with
      | [] => []
      | e :: es =>
        let rightmost := keepBest (fun a b => a.1 < b.1) e es
        match (e :: es).erase rightmost with
        | [] => []
        | tailp :: _ =>
          let fl := sideStep (minY.1 - leftmost.1) (minY.2 - leftmost.2)
          let sl := sideStep (leftmost.1 - tailp.1) (leftmost.2 - tailp.1)
          let fr := sideStep (minY.1 - rightmost.1) (minY.2 - rightmost.2)
          let sr := sideStep (rightmost.1 - tailp.1) (rightmost.2 - tailp.1)
          scanRows w h leftmost.2 rightmost.2 sl sr (maxY.2 - minY.2 + 1).toNat minY.2
            ⟨minY.1, minY.1, fl, fr⟩

/-- A `double` converted to `int`: the fraction is dropped (lsd-opencv.cc:1091-1203). -/
noncomputable def toInt (x : ℝ) : Int := if 0 ≤ x then ⌊x⌋ else ⌈x⌉

/-- lsd-opencv.cc:1088-1099: the corners of the rectangle. -/
noncomputable def corners (r : Rect) : List Pt :=
  let hw := r.width / 2
  let dyhw := Real.sin r.theta * hw
  let dxhw := Real.cos r.theta * hw
  [(toInt (r.x1 - dyhw), toInt (r.y1 + dxhw)), (toInt (r.x2 - dyhw), toInt (r.y2 + dxhw)),
    (toInt (r.x2 + dyhw), toInt (r.y2 - dxhw)), (toInt (r.x1 + dyhw), toInt (r.y1 - dxhw))]

/-- lsd-opencv.cc:1186-1196: `alg_pts`: how many of the pixels are aligned. -/
noncomputable def alignedCount (m : Img) (theta prec : ℝ) (l : List Px) : Nat :=
  (l.filter fun q => decide (isAligned (m.ang q.1 q.2) theta prec)).length

/-- lsd-opencv.cc:1085-1206: `rect_nfa(rec)`. -/
noncomputable def rectNfa (m : Img) (logGamma : ℝ → ℝ) (logNT : ℝ) (r : Rect) : ℝ :=
  let l := rectPixels m.w m.h (corners r)
  nfa logGamma logNT l.length (alignedCount m r.theta r.prec l) r.p

/-! ### Improving a rectangle -/

/-- lsd-opencv.cc:992-1003, 1007-1020 and the like: tries `move` up to `n` times in a row, from `r` on, and
keeps the best rectangle with its value. `move` gives none if the width is too small. -/
noncomputable def tries (f : Rect → ℝ) (move : Rect → Option Rect) : Nat → Rect → Rect × ℝ → Rect × ℝ
  | 0, _, best => best
  | n + 1, r, best =>
    match move r with
    | none => tries f move n r best
    | some r' => tries f move n r' (if best.2 < f r' then (r', f r') else best)

/-- lsd-opencv.cc:995-996: half the tolerance. -/
noncomputable def finer (r : Rect) : Rect := { r with p := r.p / 2, prec := r.p / 2 * Real.pi }

/-- lsd-opencv.cc:1010: `(r.width - delta) >= 0.5`. -/
def wide (r : Rect) : Prop := 1 / 2 ≤ r.width - 1 / 2

/-- lsd-opencv.cc:1012: a smaller width. -/
noncomputable def thinner (r : Rect) : Rect := { r with width := r.width - 1 / 2 }

/-- lsd-opencv.cc:1029-1033: the side against the normal vector is moved in. -/
noncomputable def shrinkOne (r : Rect) : Rect :=
  { r with
    x1 := r.x1 + -Real.sin r.theta * (1 / 4)
    y1 := r.y1 + Real.cos r.theta * (1 / 4)
    x2 := r.x2 + -Real.sin r.theta * (1 / 4)
    y2 := r.y2 + Real.cos r.theta * (1 / 4)
    width := r.width - 1 / 2 }

/-- lsd-opencv.cc:1050-1054: the side along the normal vector is moved in. -/
noncomputable def shrinkOther (r : Rect) : Rect :=
  { r with
    x1 := r.x1 - -Real.sin r.theta * (1 / 4)
    y1 := r.y1 - Real.cos r.theta * (1 / 4)
    x2 := r.x2 - -Real.sin r.theta * (1 / 4)
    y2 := r.y2 - Real.cos r.theta * (1 / 4)
    width := r.width - 1 / 2 }

/-- lsd-opencv.cc:981-1083: `rect_improve(rec)`: the new rectangle and its value. `f` is `rect_nfa`. -/
noncomputable def improve (f : Rect → ℝ) (logEps : ℝ) (rec : Rect) : Rect × ℝ :=
  let b0 := (rec, f rec)
  if logEps < b0.2 then b0
  else
    let b1 := tries f (fun r => some (finer r)) 5 rec b0
    if logEps < b1.2 then b1
    else
      let b2 := tries f (fun r => if wide r then some (thinner r) else none) 5 b1.1 b1
      if logEps < b2.2 then b2
      else
        let b3 := tries f (fun r => if wide r then some (shrinkOne r) else none) 5 b2.1 b2
        if logEps < b3.2 then b3
        else
          let b4 := tries f (fun r => if wide r then some (shrinkOther r) else none) 5 b3.1 b3
          if logEps < b4.2 then b4
          else tries f (fun r => if wide r then some (finer r) else none) 5 b4.1 b4

end Verif.Lsd
