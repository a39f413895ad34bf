import Mathlib.Data.Real.Sqrt
import Mathlib.LinearAlgebra.Matrix.Notation
import Mathlib.Algebra.Order.Floor.Ring
import Mathlib.Data.Real.Archimedean
import Verif.Base.Outcome

/-!
# Matches, inliers and ground truth of the KAZE utilities

Model of `save_keypoints`, `matches2points_nndr`, `compute_inliers_ransac`, `compute_inliers_homography`, `draw_inliers`
and `read_homography` in `aslam_cv_detector/src/kaze/utils.cpp`. Numbers of type `float` are real numbers; rounding and the
six digits of numbers printed to a stream are not modelled. Files are lists of characters or of lines.
-/

namespace Verif.Kaze.Evaluation

/-- `cv::Point2f`. -/
abbrev Pt := ℝ × ℝ

/-- `cv::KeyPoint` with the members that are used, utils.cpp:134-138 and 173-174. -/
structure KeyPoint where
  pt : Pt
  size : ℝ

/-- `cv::DMatch`, utils.cpp:168-170. -/
structure DMatch where
  queryIdx : Int
  trainIdx : Int
  distance : ℝ

/-- `operator[]` of a vector with an index of type `int`, utils.cpp:173-174: undefined outside of the vector. -/
def get {α : Type _} (l : List α) (i : Int) : Outcome α :=
  if 0 ≤ i then
    match l[i.toNat]? with
    | some x => .ok x
    | none => .ub
  else .ub

open Classical in
/-- `matches2points_nndr`, utils.cpp:162-177: the points are appended to those already in `pmatches`. Lists with less than
two neighbours are read outside of their bounds. -/
noncomputable def nndr (train query : List KeyPoint) (ratio : ℝ) : List (List DMatch) → List Pt → Outcome (List Pt)
  | [], pmatches => .ok pmatches
  | (m :: m' :: _) :: ms, pmatches =>
    if m.distance < ratio * m'.distance then
      (get train m.queryIdx).bind fun a =>
        (get query m.trainIdx).bind fun b => nndr train query ratio ms (pmatches ++ [a.pt, b.pt])
    else nndr train query ratio ms pmatches
  | _ :: _, _ => .ub

/-- The points of the two images, utils.cpp:188-191. -/
def split : List Pt → Outcome (List Pt × List Pt)
  | [] => .ok ([], [])
  | [_] => .ub
  | a :: b :: r => (split r).bind fun p => .ok (a :: p.1, b :: p.2)

/-- The loop over the flags, utils.cpp:198-203. `status` is indexed without a check. -/
def pick : List Pt → List Pt → List Nat → Outcome (List Pt)
  | a :: p1, b :: p2, s :: st => (pick p1 p2 st).bind fun r => .ok (if s = 1 then a :: b :: r else r)
  | [], _, _ => .ok []
  | _, _, _ => .ub

/-- `compute_inliers_ransac`, utils.cpp:180-204. `find` stands for `cv::findFundamentalMat` or `cv::findHomography`, of which
the flags are used only; it may throw. The inliers are appended. -/
def ransac (find : List Pt → List Pt → Outcome (List Nat)) (ms inliers : List Pt) : Outcome (List Pt) :=
  (split ms).bind fun p =>
    (find p.1 p.2).bind fun status =>
      (pick p.1 p.2 status).bind fun r => .ok (inliers ++ r)

open Classical in
/-- The test of one pair, utils.cpp:231-241. If `s` is zero then the coordinates are infinite or not numbers and the
comparison with a finite number is false. -/
noncomputable def fits (H : Matrix (Fin 3) (Fin 3) ℝ) (minError : ℝ) (a b : Pt) : Bool :=
  let s := H 2 0 * a.1 + H 2 1 * a.2 + H 2 2
  let x2m := (H 0 0 * a.1 + H 0 1 * a.2 + H 0 2) / s
  let y2m := (H 1 0 * a.1 + H 1 1 * a.2 + H 1 2) / s
  if s = 0 then false
  else decide (Real.sqrt ((x2m - b.1) ^ 2 + (y2m - b.2) ^ 2) ≤ minError)

/-- The loop over the pairs, utils.cpp:230-245. -/
noncomputable def fitting (H : Matrix (Fin 3) (Fin 3) ℝ) (minError : ℝ) : List Pt → Outcome (List Pt)
  | [] => .ok []
  | [_] => .ub
  | a :: b :: r =>
    (fitting H minError r).bind fun l => .ok (if fits H minError a b then a :: b :: l else l)

/-- `compute_inliers_homography`, utils.cpp:207-246, for different vectors `matches` and `inliers`: the inliers are cleared
first. If the matrix does not consist of numbers (`none`), then its last entry is not a number, see `readHomography`, and
no comparison is true. -/
noncomputable def homography (ms : List Pt) (_inliers : List Pt) (H : Option (Matrix (Fin 3) (Fin 3) ℝ)) (minError : ℝ) :
    Outcome (List Pt) :=
  match H with
  | some H => fitting H minError ms
  | none => if ms.length % 2 = 0 then .ok [] else .ub

/-- `compute_inliers_homography` with the same vector for `matches` and `inliers`, utils.cpp:228: nothing is left to
read. -/
noncomputable def homographyAlias (ms : List Pt) (H : Option (Matrix (Fin 3) (Fin 3) ℝ)) (minError : ℝ) :
    Outcome (List Pt) :=
  let _ := ms
  homography [] [] H minError

/-- `std::ifstream`, utils.cpp:350-357: what is left to read and whether neither of `eofbit` and `failbit` is set. -/
structure Stream where
  rest : List Char
  good : Bool

/-- `std::istream::getline` into a buffer of `n` characters, utils.cpp:361, 364 and 367: at most `n - 1` characters are
stored, and longer lines set `failbit`. A stream that is not good stores the empty string. -/
def getline (n : Nat) (s : Stream) : List Char × Stream :=
  if s.good then
    let line := s.rest.takeWhile (· ≠ '\n')
    if line.length ≤ n - 1 then
      match s.rest.drop line.length with
      | [] => (line, ⟨[], false⟩)
      | _ :: r => (line, ⟨r, true⟩)
    else (line.take (n - 1), ⟨s.rest.drop (n - 1), false⟩)
  else ([], s)

/-- The first numbers of a line, utils.cpp:362, 365 and 368. `scan` is the list of numbers `sscanf` converts. Variables
without a number keep their zeros, utils.cpp:345-347. -/
def row (scan : List Char → List ℝ) (line : List Char) : Fin 3 → ℝ :=
  fun j => (scan line).getD j 0

open Classical in
/-- `read_homography`, utils.cpp:343-385. `file` is `none` if it cannot be opened. The matrix is `none` if `h33` is zero:
its last entry is then not a number. -/
noncomputable def readHomography (scan : List Char → List ℝ) (file : Option (List Char)) :
    Bool × Option (Matrix (Fin 3) (Fin 3) ℝ) :=
  match file with
  | none => (false, some 0)
  | some cs =>
    let l0 := getline 256 ⟨cs, true⟩
    let l1 := getline 256 l0.2
    let l2 := getline 256 l1.2
    let h : Matrix (Fin 3) (Fin 3) ℝ := ![row scan l0.1, row scan l1.1, row scan l2.1]
    if h 2 2 = 0 then (true, none) else (true, some fun i j => h i j / h 2 2)

/-- A file of keypoints, utils.cpp:119 and 137-148: the header and the numbers of each line. A number is `none` if it is
infinite. -/
structure File where
  length : Nat
  count : Nat
  lines : List (List (Option ℝ))

open Classical in
/-- The squared inverse radius, utils.cpp:134-141. -/
noncomputable def invRadiusSq (size : ℝ) : Option ℝ :=
  let sc := size / 2
  if sc * sc = 0 then none else some (1 / (sc * sc))

/-- The lines of `save_keypoints`, utils.cpp:131-149, with a line per row of `desc`. `kpts[i]` is not checked. -/
noncomputable def saveLines : List KeyPoint → List (List ℝ) → Outcome (List (List (Option ℝ)))
  | _, [] => .ok []
  | [], _ :: _ => .ub
  | k :: ks, d :: ds =>
    (saveLines ks ds).bind fun r =>
      .ok (([some k.pt.1, some k.pt.2, invRadiusSq k.size, some 0, invRadiusSq k.size] ++ d.map some) :: r)

/-- `save_keypoints`, utils.cpp:101-159: the value and the file written. `cols` is the number of columns of the descriptors
`desc`. Failures to write are not noticed and not modelled. -/
noncomputable def save (opened : Bool) (kpts : List KeyPoint) (cols : Nat) (desc : List (List ℝ)) :
    Outcome (Int × Option File) :=
  if opened then (saveLines kpts desc).bind fun l => .ok (1, some ⟨cols, desc.length, l⟩)
  else .ok (-1, none)

/-- A continuous `cv::Mat` with three channels, utils.cpp:249: the pixels row after row. -/
structure Img (α : Type) where
  rows : Nat
  cols : Nat
  data : List α

/-- Reading three bytes at `ptr(i) + 3*j`, utils.cpp:271-278: the pixels after the end of a row are those of the next row,
and reading outside of the data is undefined. `j` is not negative. -/
def Img.read {α : Type} (m : Img α) (i j : Nat) : Outcome α :=
  if i < m.rows then
    match m.data[i * m.cols + j]? with
    | some x => .ok x
    | none => .ub
  else .ub

/-- A row of `img_com`, utils.cpp:269-280, columns `j` and following. `img_aux` has the columns of `img1`. -/
def composeRow {α : Type} (img1 img2 : Img α) (i : Nat) : List Nat → Outcome (List α)
  | [] => .ok []
  | j :: js =>
    (if j < img1.cols then img1.read i j else img2.read i (j - img1.cols)).bind fun x =>
      (composeRow img1 img2 i js).bind fun r => .ok (x :: r)

/-- The rows of `img_com`, utils.cpp:268-281. -/
def composeRows {α : Type} (img1 img2 : Img α) (cols : Nat) : List Nat → Outcome (List (List α))
  | [] => .ok []
  | i :: is =>
    (composeRow img1 img2 i (List.range cols)).bind fun x =>
      (composeRows img1 img2 cols is).bind fun r => .ok (x :: r)

/-- Conversion of a number to `int`, utils.cpp:284-287: towards zero. -/
noncomputable def toInt (x : ℝ) : Int := if 0 ≤ x then ⌊x⌋ else ⌈x⌉

/-- A line from the first point to the second, utils.cpp:288 and 333-338. -/
abbrev Line := (Int × Int) × (Int × Int)

/-- The lines drawn, utils.cpp:283-289 and 327-339. -/
noncomputable def inlierLines (cols1 : Nat) (ufactor vfactor : ℝ) : List Pt → Outcome (List Line)
  | [] => .ok []
  | [_] => .ub
  | a :: b :: r =>
    (inlierLines cols1 ufactor vfactor r).bind fun l =>
      .ok (((toInt (a.1 + 1 / 2), toInt (a.2 + 1 / 2)),
        (toInt (b.1 * ufactor + cols1 + 1 / 2), toInt (b.2 * vfactor + 1 / 2))) :: l)

/-- The colour of the lines in the order blue, green, red, utils.cpp:288 and 333-338. No colour is given to the first
overload. -/
def lineColour : Option Int → Option (Nat × Nat × Nat)
  | none => some (255, 0, 0)
  | some c => if c = 0 then some (255, 255, 0) else if c = 1 then some (255, 0, 0) else if c = 2 then some (0, 255, 0)
    else none

/-- `draw_inliers`, utils.cpp:249-290 and 293-340: the pixels copied to `img_com` of `rows` and `cols`, and the lines drawn
over them with their colour. `cv::resize` throws if one of the images is empty; its result is not used. `img_com` is
different from the other images. -/
noncomputable def drawInliers {α : Type} (img1 img2 : Img α) (rows cols : Nat) (ptpairs : List Pt)
    (color : Option Int) : Outcome (List (List α) × List (Line × (Nat × Nat × Nat))) :=
  if img1.rows * img1.cols = 0 ∨ img2.rows * img2.cols = 0 then .exc
  else
    (composeRows img1 img2 cols (List.range rows)).bind fun px =>
      (inlierLines img1.cols ((img1.cols : ℝ) / img2.cols) ((img1.rows : ℝ) / img2.rows) ptpairs).bind fun ls =>
        .ok (px, match lineColour color with
          | some c => ls.map fun l => (l, c)
          | none => [])

end Verif.Kaze.Evaluation
