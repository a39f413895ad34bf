import Verif.Base.Outcome

/-!
# Drawing and comparing segments

Model of `drawSegments`, `compareSegments`, `showSegments` and the outputs of `detect` in
`aslam_cv_detector/src/lsd/lsd-opencv.cc`. Which pixels `cv::line` sets is the parameter `raster`, and the conversion of a
colour to grey the parameter `gray`. Images have sizes that are not negative, and a pixel is given by its index in the
rows one after the other.
-/

namespace Verif.Lsd.Draw

open Verif (Outcome)

/-- `Vec4i`, lsd-opencv.cc:1293-1295. -/
abbrev Seg := (Int × Int) × (Int × Int)

/-- What `getMat` makes of the segments, lsd-opencv.cc:1287-1288 and 1310-1313: the number of columns and the elements. -/
structure LineMat where
  cols : Nat
  data : List Seg

/-- A `std::vector<Vec4i>` as a matrix, lsd-opencv.cc:1288: one row. -/
def ofVector (l : List Seg) : LineMat := ⟨l.length, l⟩

/-- The segments `detect` copies to a `cv::Mat`, lsd-opencv.cc:541: one column, or nothing if there are no segments. -/
def ofMat (l : List Seg) : LineMat := ⟨if l = [] then 0 else 1, l⟩

/-- The segments the loops draw, lsd-opencv.cc:1291-1297, 1316-1321 and 1322-1327: as many as there are columns. -/
def LineMat.drawn (m : LineMat) : List Seg := m.data.take m.cols

/-- The pixels `cv::line` sets in an image of a width and a height, lsd-opencv.cc:1296, 1320 and 1326. -/
abbrev Raster := Nat → Nat → Seg → Nat → Bool

/-- An image: for one channel only the first of the three numbers is meant, lsd-opencv.cc:1267 and 1336-1338. -/
structure Image where
  channels : Nat
  width : Nat
  height : Nat
  continuous : Bool
  px : Nat → Nat × Nat × Nat

/-- `drawSegments`, lsd-opencv.cc:1265-1298. A failing `CV_Assert` throws. The new image is continuous. -/
def drawSegments (raster : Raster) (gray : Nat × Nat × Nat → Nat) (im : Image) (lines : LineMat) : Outcome Image :=
  if im.width * im.height = 0 ∨ (im.channels ≠ 1 ∧ im.channels ≠ 3) then .exc
  else
    let g := fun k => if im.channels = 1 then (im.px k).1 else gray (im.px k)
    .ok { channels := 3, width := im.width, height := im.height, continuous := true,
          px := fun k => if lines.drawn.any fun s => raster im.width im.height s k then (0, 0, 255) else (g k, g k, g k) }

/-- The image of the segments, lsd-opencv.cc:1307-1308 and 1316-1327: 255 where a segment is drawn. -/
def lit (raster : Raster) (w h : Nat) (lines : LineMat) (k : Nat) : Nat :=
  if lines.drawn.any fun s => raster w h s k then 255 else 0

/-- `bitwise_xor` and `countNonZero`, lsd-opencv.cc:1330-1332. -/
def disagree (w h : Nat) (i1 i2 : Nat → Nat) : Nat := (List.range (w * h)).countP fun k => (i1 k ^^^ i2 k) ≠ 0

/-- The loop over the pixels, lsd-opencv.cc:1340-1353: the image has three channels. -/
def overlay (i1 i2 : Nat → Nat) (px : Nat → Nat × Nat × Nat) (k : Nat) : Nat × Nat × Nat :=
  if i1 k ≠ 0 ∨ i2 k ≠ 0 then
    (if i1 k ≠ 0 then 255 else 0, 0, if i2 k ≠ 0 then 255 else 0)
  else px k

/-- `compareSegments`, lsd-opencv.cc:1301-1357: the count and the image, if there is one. -/
def compareSegments (raster : Raster) (w h : Nat) (lines1 lines2 : LineMat) (image : Option Image) :
    Outcome (Nat × Option Image) :=
  let w' := match image with | some im => im.width | none => w
  let h' := match image with | some im => im.height | none => h
  if w' * h' = 0 then .exc
  else
    let i1 := lit raster w' h' lines1
    let i2 := lit raster w' h' lines2
    let n := disagree w' h' i1 i2
    match image with
    | none => .ok (n, none)
    | some im =>
      if im.channels ≠ 3 then .exc
      else if im.continuous = false then .exc
      else .ok (n, some { im with px := overlay i1 i2 im.px })

/-- `showSegments` for one list of segments, lsd-opencv.cc:1359-1364: the image shown. The given image is cloned. -/
def showSegments (raster : Raster) (gray : Nat × Nat × Nat → Nat) (im : Image) (lines : List Seg) : Outcome Image :=
  drawSegments raster gray { im with continuous := true } (ofVector lines)

/-- `showSegments` for two lists of segments, lsd-opencv.cc:1366-1374: the count and the image shown. -/
def showBoth (raster : Raster) (w h : Nat) (lines1 lines2 : List Seg) (image : Option Image) :
    Outcome (Nat × Option Image) :=
  let img : Image := match image with
    | none => ⟨1, w, h, true, fun _ => (0, 0, 0)⟩
    | some im => { im with continuous := true }
  compareSegments raster w h (ofVector lines1) (ofVector lines2) (some img)

/-- What `flsd` returns: the segments and for each its width, precision and number of false alarms, lsd-opencv.cc:530-531
and 539. -/
structure Found where
  seg : Seg
  width : Rat
  prec : Rat
  nfa : Rat

/-- `detect`, lsd-opencv.cc:521-545: the segments, and the widths, precisions and numbers of false alarms that are asked
for. `doRefine` is the level of refinement, with 2 for `LSD_REFINE_ADV`; `found` is the result of `flsd`.
Images of several channels of type `double`, which `Mat_<double>` may take for one channel, are not modelled. -/
def detect (empty : Bool) (channels doRefine : Nat) (wNeeded pNeeded nNeeded : Bool) (found : List Found) :
    Outcome (List Seg × Option (List Rat) × Option (List Rat) × Option (List Rat)) :=
  if empty ∨ channels ≠ 1 then .exc
  else if nNeeded ∧ doRefine < 2 then .exc
  else .ok (found.map Found.seg,
    (if wNeeded then some (found.map Found.width) else none),
    (if pNeeded then some (found.map Found.prec) else none),
    (if nNeeded then some (found.map Found.nfa) else none))

end Verif.Lsd.Draw
