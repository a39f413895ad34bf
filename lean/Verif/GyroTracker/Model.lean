import Verif.Base.Outcome

/-!
# Gyro feature tracker

Model of `aslam_cv_tracker/src/feature-tracker-gyro.cc` and `include/aslam/tracker/feature-tracker-gyro.h`: the choice
of the keypoints handed to the Lucas-Kanade tracker, the match list and the bookkeeping over successive frames.

The descriptor matcher (modelled in `Verif.GyroMatcher`), the keypoint prediction, `cv::calcOpticalFlowPyrLK`,
`std::sort` and the descriptor extractor are parameters.  The presence and camera checks of `track` (feature-tracker-gyro.cc:80-109) are not
modelled.  Frames hold keypoints of the tracked descriptor type only, as the comment at feature-tracker-gyro.cc:287-290 presupposes.  Indices
and sizes are natural numbers (`int` in the code, sizes below 2^31).  `kNumPointsKp1 * ratio` is exact.
-/

namespace Verif.GyroTracker

open Verif (Outcome)

/-- `FeatureStatus` (feature-tracker-gyro.h:77-80). -/
inductive Status where
  | detected
  | lkTracked
  deriving DecidableEq, Repr

/-- The settings the model uses (feature-tracker-gyro.h:20-25, feature-tracker-gyro.cc:46-58): the candidate ratio,
the maximum status track length, the flag `gyro_lk_track_detected_threshold`, the border and the image size. -/
structure Settings where
  ratio : Rat
  maxLen : Nat
  threshold : Nat
  border : Nat
  width : Nat
  height : Nat

/-- The inputs of one call of `track`: track ids of frame k, number of keypoints of frame k+1 before the call, the
matches of the descriptor matcher as (index k+1, index k), the predictions that succeeded, the two sorts of
`computeLKCandidates`, the optical flow (for the indices tracked: success and position in frame k+1) and the class ids
of the keypoints that are left after extraction. -/
structure Call where
  idsK : List Int
  n1 : Nat
  ms : List (Nat × Nat)
  success : Nat → Bool
  sortDesc : List (Nat × Nat) → List (Nat × Nat)
  sortAsc : List (Nat × Nat) → List (Nat × Nat)
  flow : List Nat → List (Bool × Rat × Rat)
  extract : Nat → List Nat

/-- The members `initialized_`, `track_ids_k_km1_`, `feature_status_k_km1_`, `status_track_length_km1_`
(feature-tracker-gyro.h:146-155). -/
structure St where
  initialized : Bool
  ids : List (List Int)
  status : List (List Status)
  lens : List Nat

/-- A new tracker (feature-tracker-gyro.cc:65-74). -/
def St.new : St := ⟨false, [], [], []⟩

/-- `push_front`, then `pop_back` at size 3 (feature-tracker-gyro.cc:489-507). -/
def pushDeque {α : Type} (x : α) (d : List α) : List α :=
  if (x :: d).length = 3 then (x :: d).dropLast else x :: d

/-- `initializeFeatureStatusDeque` (feature-tracker-gyro.cc:482-487). -/
def initStatus (st : St) : Outcome St :=
  if st.ids.length = 1 then
    .ok { st with status := pushDeque (List.replicate (st.ids.headD []).length Status.detected) st.status }
  else .abort

/-- Updating the deques at the start of `track` (feature-tracker-gyro.cc:111-118). -/
def begin (P : Call) (st : St) : Outcome St :=
  if st.initialized then .ok { st with ids := pushDeque P.idsK st.ids }
  else initStatus { st with ids := pushDeque P.idsK st.ids }

/-- The loop of `computeTrackedMatches` (feature-tracker-gyro.cc:316-329): pairs (index k, index k-1); the first index
with the id. -/
def trackedLoop (km1 : List Int) : List Int → Nat → List (Nat × Nat)
  | [], _ => []
  | v :: rest, i =>
    if v = -1 then trackedLoop km1 rest (i + 1)
    else if v ∈ km1 then (i, km1.idxOf v) :: trackedLoop km1 rest (i + 1)
    else trackedLoop km1 rest (i + 1)

/-- `computeTrackedMatches` (feature-tracker-gyro.cc:296-330). -/
def trackedMatches (st : St) : Outcome (List (Nat × Nat)) :=
  if st.initialized then
    match st.ids with
    | [k, km1] => .ok (trackedLoop km1 k 0)
    | _ => .abort
  else .ok []

/-- One step of the loop of `computeStatusTrackLengthOfFrameK` (feature-tracker-gyro.cc:467-479). -/
def lengthOne (sK sKm1 : List Status) (lensKm1 : List Nat) (m : Nat × Nat) (lens : List Nat) : Outcome (List Nat) :=
  match sKm1[m.2]?, sK[m.1]? with
  | some a, some b =>
    if a ≠ b then
      if m.1 < lens.length then .ok (lens.set m.1 1) else .ub
    else
      match lensKm1[m.2]? with
      | some l => if m.1 < lens.length then .ok (lens.set m.1 (l + 1)) else .ub
      | none => .ub
  | _, _ => .ub

/-- The loop (feature-tracker-gyro.cc:467-479). -/
def lengthLoop (sK sKm1 : List Status) (lensKm1 : List Nat) : List (Nat × Nat) → List Nat → Outcome (List Nat)
  | [], lens => .ok lens
  | m :: ms, lens => (lengthOne sK sKm1 lensKm1 m lens) >>= (lengthLoop sK sKm1 lensKm1 ms)

/-- `computeStatusTrackLengthOfFrameK` (feature-tracker-gyro.cc:453-480). -/
def statusLengths (st : St) (tracked : List (Nat × Nat)) : Outcome (List Nat) :=
  match st.ids with
  | [] => .abort
  | k :: _ =>
    if st.initialized then
      match st.status with
      | [sK, sKm1] => lengthLoop sK sKm1 st.lens tracked (List.replicate k.length 0)
      | _ => .abort
    else .ok (List.replicate k.length 0)

/-- Marking the matched keypoints (feature-tracker-gyro.cc:436-440). -/
def markLoop : List (Nat × Nat) → List Bool → Outcome (List Bool)
  | [], u => .ok u
  | m :: ms, u => if m.2 < u.length then markLoop ms (u.set m.2 false) else .ub

/-- Collecting the indices that are still marked (feature-tracker-gyro.cc:442-446). -/
def collect : List Bool → Nat → List Nat
  | [], _ => []
  | b :: rest, i => if b then i :: collect rest (i + 1) else collect rest (i + 1)

/-- `computeUnmatchedIndicesOfFrameK` (feature-tracker-gyro.cc:424-451). -/
def unmatched (nK : Nat) (ms : List (Nat × Nat)) : Outcome (List Nat) :=
  if ms.length ≤ nK then
    (markLoop ms (List.replicate nK true)) >>= fun u =>
      if (collect u 0).length = nK - ms.length ∧ ms.length + (collect u 0).length = nK then .ok (collect u 0)
      else .abort
  else .abort

/-- Classifying the unmatched keypoints (feature-tracker-gyro.cc:348-372): detected ones with enough matches,
LK-tracked ones that are not too old, each with the status track length. -/
def classify (S : Settings) (status : List Status) (lens : List Nat) :
    List Nat → List (Nat × Nat) → List (Nat × Nat) → Outcome (List (Nat × Nat) × List (Nat × Nat))
  | [], d, l => .ok (d, l)
  | i :: rest, d, l =>
    match lens[i]?, status[i]? with
    | some n, some .detected =>
      if S.threshold ≤ n then classify S status lens rest (d ++ [(i, n)]) l else classify S status lens rest d l
    | some n, some .lkTracked =>
      if n < S.maxLen then classify S status lens rest d (l ++ [(i, n)]) else classify S status lens rest d l
    | _, _ => .ub

/-- `kLkNumMaxCandidates` (feature-tracker-gyro.cc:380-381). -/
def maxCandidates (S : Settings) (n1 : Nat) : Nat := ((n1 : Rat) * S.ratio).floor.toNat

/-- Pushing indices until the counter reaches the maximum (feature-tracker-gyro.cc:407-416). -/
def pushUntil (max : Nat) : List (Nat × Nat) → List Nat → List Nat
  | [], acc => acc
  | p :: rest, acc => if acc.length = max then acc else pushUntil max rest (acc ++ [p.1])

/-- The detected candidates, sorted if there are too many candidates (feature-tracker-gyro.cc:387-393). -/
def orderDetected (P : Call) (max : Nat) (d l : List (Nat × Nat)) : List (Nat × Nat) :=
  if max < d.length + l.length then P.sortDesc d else d

/-- The LK-tracked candidates, sorted if some but not all of them are needed (feature-tracker-gyro.cc:394-401). -/
def orderLk (P : Call) (max : Nat) (d l : List (Nat × Nat)) : List (Nat × Nat) :=
  if max < d.length + l.length ∧ d.length < max then P.sortAsc l else l

/-- `computeLKCandidates` (feature-tracker-gyro.cc:332-422). -/
def candidates (S : Settings) (P : Call) (status : List Status) (lens : List Nat) : Outcome (List Nat) :=
  if lens.length = P.idsK.length then
    (unmatched P.idsK.length P.ms) >>= fun u =>
      (classify S status lens u [] []) >>= fun dl =>
        .ok (pushUntil (maxCandidates S P.n1) (orderLk P (maxCandidates S P.n1) dl.1 dl.2)
          (pushUntil (maxCandidates S P.n1) (orderDetected P (maxCandidates S P.n1) dl.1 dl.2) []))
  else .abort

/-- `imageWidth() - kMinDistanceToImageBorderPx`, in `size_t` (feature-tracker-gyro.cc:227, 229). -/
def inner (size border : Nat) : Nat := (size + 2 ^ 64 - border) % 2 ^ 64

/-- `is_outside_roi` (feature-tracker-gyro.cc:224-230). -/
def outsideRoi (S : Settings) (x y : Rat) : Bool :=
  decide (x < S.border) || decide ((inner S.width S.border : Rat) ≤ x) ||
    decide (y < S.border) || decide ((inner S.height S.border : Rat) ≤ y)

/-- Whether index `i` goes to `indices_to_erase` (feature-tracker-gyro.cc:232-237). -/
def eraseFlag (S : Settings) (r : Bool × Rat × Rat) : Bool := !r.1 || outsideRoi S r.2.1 r.2.2

/-- `eraseVectorElementsByIndex` (feature-tracker-gyro.h:165-183): the predicate consumes one flag per element, in
order. -/
def eraseByFlags {α : Type} : List α → List Bool → List α
  | [], _ => []
  | x :: rest, f :: fs => if f then eraseByFlags rest fs else x :: eraseByFlags rest fs
  | _, [] => []

/-- The matches of the keypoints left after extraction (feature-tracker-gyro.cc:265-270). -/
def newMatches (n1 : Nat) (definite : List Nat) : List Nat → Nat → Outcome (List (Nat × Nat))
  | [], _ => .ok []
  | c :: cs, i =>
    match definite[c]? with
    | some k => (newMatches n1 definite cs (i + 1)) >>= fun r => .ok ((n1 + i, k) :: r)
    | none => .ub

/-- `lkTracking` (feature-tracker-gyro.cc:154-294): the matches appended, the optical flow result of each keypoint
added to frame k+1 (its position is `pt` of the key point that was handed to the extractor,
feature-tracker-gyro.cc:250-262, 291-293), and the status vector of frame k+1 (one entry for each of its keypoints, as
extended by feature-tracker-gyro.cc:291-293). -/
def lkTracking (S : Settings) (P : Call) (nK : Nat) (cand : List Nat) :
    Outcome (List (Nat × Nat) × List (Bool × Rat × Rat) × List Status) :=
  if cand.length ≤ nK then
    if (cand.filter P.success).isEmpty then .ok ([], [], List.replicate P.n1 .detected)
    else if (P.flow (cand.filter P.success)).length = (cand.filter P.success).length then
      let flags := (P.flow (cand.filter P.success)).map (eraseFlag S)
      let definite := eraseByFlags (cand.filter P.success) flags
      let points := eraseByFlags (P.flow (cand.filter P.success)) flags
      (newMatches P.n1 definite (P.extract definite.length) 0) >>= fun r =>
        .ok (r, (P.extract definite.length).filterMap (fun c => points[c]?),
          List.replicate P.n1 .detected ++ List.replicate (P.extract definite.length).length .lkTracked)
    else .abort
  else .abort

/-- What a call of `track` returns: the match list, the number of keypoints of frame k+1 afterwards, and, for the
statements, the candidates and status track lengths of frame k and the LK points. -/
structure Result where
  matchList : List (Nat × Nat)
  size : Nat
  cand : List Nat
  lens : List Nat
  points : List (Bool × Rat × Rat)

/-- `track` after the descriptor matcher (feature-tracker-gyro.cc:136-151). -/
def finish (S : Settings) (P : Call) (st : St) : Outcome (St × Result) :=
  (trackedMatches st) >>= fun tm =>
    (statusLengths st tm) >>= fun lens =>
      (candidates S P (st.status.headD []) lens) >>= fun cand =>
        (lkTracking S P P.idsK.length cand) >>= fun r =>
          .ok (⟨true, st.ids, pushDeque r.2.2 st.status, lens⟩,
            ⟨P.ms ++ r.1, P.n1 + r.1.length, cand, lens, r.2.1⟩)

/-- `track` (feature-tracker-gyro.cc:76-152). -/
def track (S : Settings) (P : Call) (st : St) : Outcome (St × Result) :=
  if 0 < S.ratio then (begin P st) >>= (finish S P)
  else .ok (st, ⟨P.ms, P.n1, [], [], []⟩)

end Verif.GyroTracker
