import Verif.Base.Outcome
import Verif.Camera.Model

/-! Model of the outlier rejection of frame-to-frame matches
(/repo/aslam_cv_geometric_vision/src/match-outlier-rejection-twopt.cc) and of the match helpers it uses
(/repo/aslam_cv_matcher/src/match-helpers.cc, /repo/aslam_cv_frames/src/visual-frame.cc).

The two RANSAC runs of OpenGV are parameters: the lists of inlier indices they leave.  Keypoints (`K`) and bearing vectors
(`V`) are abstract where nothing is computed with them. -/

namespace Verif.GeometricVision

open Verif

/-- What the functions here need of a camera: `backProject3` (point, success) and `project3` (keypoint,
`isKeypointVisible()`).  A component that a failing call would leave unset is whatever the function gives. -/
structure Cam (K V : Type) where
  backProject : K → V × Bool
  project : V → K × Bool

/-- A loop `for i: out[i] = f(in[i])` from index `i` on (camera.cc:398-427). -/
def setLoop {α β : Type} (f : α → β) : Nat → List α → List β → List β
  | _, [], out => out
  | i, x :: xs, out => setLoop f (i + 1) xs (out.set i (f x))

/-- `std::vector::resize(n, x)` (used at camera.cc:398-427). -/
def resize {α : Type} (n : Nat) (x : α) (l : List α) : List α := l.take n ++ List.replicate (n - l.length) x

variable {K V : Type}

/-- `Camera::backProject3Vectorized` (camera.cc:414-427) given the success vector of the caller; `point` stands for the
initial content of the resized matrix of points. -/
def backProject3Vectorized (c : Cam K V) (point : V) (keypoints : List K) (success : List Bool) : List V × List Bool :=
  (setLoop (fun k => (c.backProject k).1) 0 keypoints (List.replicate keypoints.length point),
    setLoop (fun k => (c.backProject k).2) 0 keypoints (resize keypoints.length false success))

/-- `Camera::project3Vectorized` (camera.cc:398-412); the results are reduced to `isKeypointVisible()`. -/
def project3Vectorized (c : Cam K V) (keypoint : K) (points : List V) : List K × List Bool :=
  (setLoop (fun p => (c.project p).1) 0 points (List.replicate points.length keypoint),
    setLoop (fun p => (c.project p).2) 0 points (List.replicate points.length false))

/-! ## Bearing vectors -/

/-- The loop that gathers the keypoints in `VisualFrame::getNormalizedBearingVectors` (visual-frame.cc:544-548): the check
is `CHECK_LE`, and reading a column past the end is undefined. -/
def gather (keypoints : List K) : List Nat → Outcome (List K)
  | [] => .ok []
  | i :: is =>
    if i ≤ keypoints.length then
      match keypoints[i]? with
      | some k => gather keypoints is >>= fun ks => .ok (k :: ks)
      | none => .ub
    else .abort

/-- `VisualFrame::getNormalizedBearingVectors` (visual-frame.cc:526-553) for the keypoints of the descriptor type asked for;
`normalize` is Eigen's `normalized()`.  Without indices nothing is returned (visual-frame.cc:530-533). -/
def getNormalizedBearingVectors (c : Cam K V) (normalize : V → V) (point : V) (keypoints : List K) (indices : List Nat) :
    Outcome (List V × List Bool) :=
  if indices.isEmpty then .ok ([], [])
  else gather keypoints indices >>= fun ks =>
    let r := backProject3Vectorized c point ks []
    .ok (r.1.map normalize, r.2)

/-- `getBearingVectorsFromMatches` (match-helpers.cc:11-37): `(frame k+1, frame k)`.  The success flags are dropped. -/
def getBearingVectorsFromMatches (c1 c0 : Cam K V) (normalize : V → V) (point : V) (keypoints1 keypoints0 : List K)
    (matches_ : List (Nat × Nat)) : Outcome (List V × List V) :=
  getNormalizedBearingVectors c1 normalize point keypoints1 (matches_.map Prod.fst) >>= fun b1 =>
  getNormalizedBearingVectors c0 normalize point keypoints0 (matches_.map Prod.snd) >>= fun b0 =>
  .ok (b1.1, b0.1)

/-! ## Outlier rejection -/

/-- `std::unordered_set::insert(begin, end)`; the set is a list without repetition
(match-outlier-rejection-twopt.cc:51-111). -/
def insertAll (s : List Nat) : List Nat → List Nat
  | [] => s
  | x :: xs => insertAll (if s.contains x then s else s ++ [x]) xs

/-- `rejectOutlierFeatureMatchesTranslationRotationSAC` on bearing vectors (match-outlier-rejection-twopt.cc:51-111), given
the number of vectors of frame k+1 and the inliers of the two RANSAC runs. -/
def rejectIndices (threshold : ℚ) (maxIterations size1 : Nat) (rotation translation : List Nat) :
    Outcome (Bool × List Nat) :=
  if ¬ threshold > 0 then .abort
  else if ¬ maxIterations > 0 then .abort
  else if size1 < 6 then .ok (false, [])
  else
    let s := insertAll (insertAll [] rotation) translation
    if s.length < 6 then .ok (false, []) else .ok (true, s)

/-- The loop over the matches (match-outlier-rejection-twopt.cc:37-45). -/
def splitLoop {M : Type} (s : List Nat) : Nat → List M → List M × List M → List M × List M
  | _, [], r => r
  | i, m :: ms, r => splitLoop s (i + 1) ms (if s.contains i then (r.1 ++ [m], r.2) else (r.1, r.2 ++ [m]))

/-- `rejectOutlierFeatureMatchesTranslationRotationSAC` on frames (match-outlier-rejection-twopt.cc:17-49); `outputs` is the
content of the two output lists on entry.  The RANSAC runs see the bearing vectors. -/
def rejectMatches (c1 c0 : Cam K V) (normalize : V → V) (point : V) (keypoints1 keypoints0 : List K)
    (rotation translation : List V → List V → List Nat) (threshold : ℚ) (maxIterations : Nat) (matches_ : List (Nat × Nat))
    (outputs : List (Nat × Nat) × List (Nat × Nat)) : Outcome (Bool × List (Nat × Nat) × List (Nat × Nat)) :=
  getBearingVectorsFromMatches c1 c0 normalize point keypoints1 keypoints0 matches_ >>= fun b =>
  rejectIndices threshold maxIterations b.1.length (rotation b.1 b.2) (translation b.1 b.2) >>= fun r =>
  let s := splitLoop r.2 0 matches_ outputs
  if s.1.length + s.2.length = matches_.length then .ok (r.1, s.1, s.2) else .abort

/-! ## Prediction by rotation -/

/-- The last loop of `predictKeypointsByRotation` (match-helpers.cc:84-93). -/
def resolve : List K → List K → List Bool → List Bool → List K × List Bool
  | k :: ks, p :: ps, s :: ss, v :: vs =>
    let r := resolve ks ps ss vs
    if s && v then (p :: r.1, true :: r.2) else (k :: r.1, false :: r.2)
  | _, ps, ss, _ => (ps, ss)

/-- `predictKeypointsByRotation` (match-helpers.cc:40-94) for the keypoints of the descriptor type; `old` is the content of
the output matrix on entry, `rotate` the rotation by `q_Ckp1_Ck` and `w` the scalar part of that quaternion.  The branch
for the identity does not return. -/
def predictKeypoints (c : Cam K V) (rotate : V → V) (w : ℚ) (point : V) (keypoint : K) (keypoints old : List K) :
    List K × List Bool :=
  if keypoints.isEmpty then (old, [])
  else
    let success := if |w - 1| < 1 / 10 ^ 8 then List.replicate (2 * keypoints.length) true else []
    let b := backProject3Vectorized c point keypoints success
    let p := project3Vectorized c keypoint (b.1.map rotate)
    resolve keypoints p.1 b.2 p.2

/-- A pinhole camera without distortion, from the model of the cameras (camera-pinhole.cc:47-164). -/
noncomputable def pinhole (b : Verif.Camera.Box) (I : Fin 4 → ℝ) : Cam Verif.Camera.V2 Verif.Camera.V3 where
  backProject k :=
    let r := Verif.Camera.pinholeBackProject Verif.Distortion.null I Fin.elim0 k
    (r.1.getD (0, 0, 0), r.2)
  project p :=
    let r := Verif.Camera.pinholeProject Verif.Distortion.null b I Fin.elim0 p
    (r.keypoint.getD (0, 0), r.status = .visible)

end Verif.GeometricVision
