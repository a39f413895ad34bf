import Verif.GyroTracker.Model
import Verif.TrackManager.Follow

/-!
# Tracking frame after frame with optical flow

`GyroTracker::track` (aslam_cv_tracker/src/feature-tracker-gyro.cc:76-152) and
`SimpleTrackManager::applyMatchesToFrames` (aslam_cv_tracker/src/track-manager.cc:24-80) in a row, as callers use them: the
track ids the tracker reads are those the track manager wrote, and the frame the track manager gets is the one the tracker
has added keypoints to.  Optical flow is switched on; without it see `Verif.TrackManager.Follow`.
-/

namespace Verif.GyroTracker.Loop

open Verif (Outcome)
open Verif.TrackManager (World applyMatches)
open Verif.TrackManager.Follow (handOver)

/-- What the calls get from outside: the number of keypoints detected in every frame, the matches of the descriptor matcher
for frame k with the number of keypoints given (feature-tracker-gyro.cc:130-133), and the rest of the inputs of `Call`. -/
structure Env where
  detected : Nat → Nat
  matcher : Nat → Nat → List (Nat × Nat)
  success : Nat → Nat → Bool
  sortDesc : List (Nat × Nat) → List (Nat × Nat)
  sortAsc : List (Nat × Nat) → List (Nat × Nat)
  flow : Nat → List Nat → List (Bool × Rat × Rat)
  extract : Nat → Nat → List Nat

/-- The tracker, the frames with the track manager, and the matches returned so far. -/
structure State where
  tracker : St
  world : World
  returned : List (List (Nat × Nat))

/-- The inputs of the call for the frames k and k+1 (feature-tracker-gyro.cc:76-133). -/
def callOf (E : Env) (k : Nat) (ids : List Int) : Call :=
  ⟨ids, E.detected (k + 1), E.matcher k ids.length, E.success k, E.sortDesc, E.sortAsc, E.flow k, E.extract k⟩

/-- `CHECK(hasTrackIds())` of a frame (feature-tracker-gyro.cc:85, 94) and its ids (`getTrackIdsOfType`,
feature-tracker-gyro.cc:498-502, visual-frame.cc:951-959).  With keypoints of one descriptor type only the block is the whole
channel (visual-frame.cc:868-882). -/
def readIds (w : World) (k : Nat) : Outcome (List Int) :=
  match w.ids k with
  | some l => .ok l
  | none => .abort

/-- `insertAdditionalCvKeypointsAndDescriptorsToVisualFrame` (feature-tracker-gyro.cc:287-293, tracking-helpers.cc:68-140) as
far as track ids and the number of keypoints are concerned: `m` keypoints are added with the track id -1.  Adding none is
skipped (feature-tracker-gyro.cc:282-284), which is the same. -/
def extend (w : World) (f m : Nat) (l : List Int) : World :=
  { w with
    ids := fun g => if g = f then some (l ++ List.replicate m (-1)) else w.ids g
    kps := fun g => if g = f then l.length + m else w.kps g }

/-- Tracking from frame k to frame k+1 and writing the track ids (feature-tracker-gyro.cc:76-152, track-manager.cc:24-80).  Of
the checks at feature-tracker-gyro.cc:80-109 those for track ids are modelled. -/
def step (S : Settings) (E : Env) (k : Nat) (s : State) : Outcome State :=
  readIds s.world k >>= fun ids =>
    readIds s.world (k + 1) >>= fun ids1 =>
      track S (callOf E k ids) s.tracker >>= fun r =>
        applyMatches (k + 1) k (handOver r.2.matchList)
            (extend s.world (k + 1) (r.2.size - E.detected (k + 1)) ids1) >>= fun w =>
          .ok ⟨r.1, w, s.returned ++ [r.2.matchList]⟩

/-- The frames 0, 1, …, `n` in a row. -/
def loop (S : Settings) (E : Env) : Nat → State → Outcome State
  | 0, s => .ok s
  | n + 1, s => loop S E n s >>= step S E n

/-- At the beginning: a new tracker, an id provider that has not been used, and frames whose keypoints have the track id -1,
as `insertCvKeypointsAndDescriptorsIntoEmptyVisualFrame` leaves them (tracking-helpers.cc:57-60). -/
def start (E : Env) : State :=
  ⟨St.new, ⟨fun f => some (List.replicate (E.detected f) (-1)), E.detected, 0⟩, []⟩

end Verif.GyroTracker.Loop
