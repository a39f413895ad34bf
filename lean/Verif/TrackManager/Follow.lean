import Verif.TrackManager.Model
import Verif.GyroMatcher.Model

/-!
# Matching frame after frame

The gyro matcher of `aslam_cv_matcher/src/gyro-two-frame-matcher.cc` and the track manager of
`aslam_cv_tracker/src/track-manager.cc` in a row.
-/

namespace Verif.TrackManager.Follow

open Verif (Outcome)
open Verif.GyroMatcher (Input runMatch)

/-- The matches as they are handed on: pairs of an index in frame k+1 and one in frame k, of type `int`
(match.h:14-33, gyro-two-frame-matcher.cc:273-284). -/
def handOver (ms : List (Nat × Nat)) : List (Int × Int) := ms.map fun m => ((m.1 : Int), (m.2 : Int))

/-- `CHECK(frame.hasTrackIds())` (feature-tracker-gyro.cc:85, 94, visual-frame.cc:74-76). -/
def checkIds (w : World) (f : Nat) : Outcome Unit :=
  match w.ids f with
  | some _ => .ok ()
  | none => .abort

/-- One new frame: `GyroTracker::track` without optical flow (feature-tracker-gyro.cc:77-151, with
`lk_max_num_candidates_ratio_kp1` zero), and `applyMatchesToFrames` for the frames k+1 and k
(track-manager.cc:24-80).  The input of the matcher contains the predicted keypoints.  Of the checks at
feature-tracker-gyro.cc:80-109 those for track ids are modelled. -/
def trackFrame (P : Input) (k : Nat) (w : World) : Outcome World := do
  checkIds w k
  checkIds w (k + 1)
  let ms ← runMatch P
  applyMatches (k + 1) k (handOver ms) w

/-- The frames 0, 1, …, `n` in a row. -/
def trackFrames (P : Nat → Input) : Nat → World → Outcome World
  | 0, w => .ok w
  | n + 1, w => do
    let w ← trackFrames P n w
    trackFrame (P n) n w

end Verif.TrackManager.Follow
