import Verif.Base.Outcome
import Verif.StlHelpers.Model

/-!
# Track manager

Model of `aslam_cv_tracker/src/track-manager.cc` and `aslam_cv_tracker/include/aslam/tracker/track-manager.h`.

Frames are named by numbers (the frame pointers), so that passing one frame twice is covered.  A match is a pair of
`int` indices.
-/

namespace Verif.TrackManager

open Verif (Outcome)
open Verif.StlHelpers (toInt32)

/-- The track id channels (absent or a vector) and numbers of keypoints of all frames, and `id_` of the provider
(track-manager.h:13-34, `ThreadSafeIdProvider<size_t>`; each call holds its mutex). -/
structure World where
  ids : Nat → Option (List Int)
  kps : Nat → Nat
  next : Nat

/-- `createAndGetTrackIdChannel` (track-manager.cc:14-22). -/
def createChannel (w : World) (f : Nat) : World :=
  match w.ids f with
  | some _ => w
  | none => { w with ids := fun g => if g = f then some (List.replicate (w.kps f) (-1)) else w.ids g }

/-- The track id vector of a frame (track-manager.cc:31-35). -/
def vec (w : World) (f : Nat) : List Int := (w.ids f).getD []

/-- `track_ids(index) = value` (track-manager.cc:53-77). -/
def put (w : World) (f i : Nat) (v : Int) : World :=
  { w with ids := fun g => if g = f then some ((vec w f).set i v) else w.ids g }

/-- `getNewId` (track-manager.h:20-23), converted to `int` (track-manager.cc:57). -/
def newId (w : World) : Int × World := (toInt32 w.next, { w with next := (w.next + 1) % 2 ^ 64 })

/-- The body of the loop after the checks (track-manager.cc:53-77). -/
def link (a b i j : Nat) (w : World) : Outcome World :=
  match (vec w a)[i]?, (vec w b)[j]? with
  | some ta, some tb =>
    if ta < 0 ∧ tb < 0 then
      .ok (put (put (newId w).2 a i (newId w).1) b j (newId w).1)
    else if ta = tb then .ok w
    else if 0 ≤ tb then
      if ta < 0 then .ok (put w a i tb) else .abort
    else .ok (put w b j ta)
  | _, _ => .ub

/-- One match (track-manager.cc:39-78): range checks, exclusiveness (track-manager.h:87-100), linking. -/
def applyOne (a b : Nat) (m : Int × Int) (cA cB : List Int) (w : World) : Outcome World :=
  if m.1 < toInt32 (vec w a).length ∧ 0 ≤ m.1 ∧ m.2 < toInt32 (vec w b).length ∧ 0 ≤ m.2 ∧
      m.1 ∉ cA ∧ m.2 ∉ cB then
    link a b m.1.toNat m.2.toNat w
  else .abort

/-- The loop (track-manager.cc:39-79); `cA`, `cB` are `consumed_As`, `consumed_Bs`. -/
def applyLoop (a b : Nat) : List (Int × Int) → List Int → List Int → World → Outcome World
  | [], _, _, w => .ok w
  | m :: ms, cA, cB, w => do
    let w ← applyOne a b m cA cB w
    applyLoop a b ms (m.1 :: cA) (m.2 :: cB) w

/-- `SimpleTrackManager::applyMatchesToFrames` (track-manager.cc:24-80). -/
def applyMatches (a b : Nat) (ms : List (Int × Int)) (w : World) : Outcome World :=
  applyLoop a b ms [] [] (createChannel (createChannel w a) b)

/-- `resetIdProvider` (track-manager.h:59-61). -/
def resetIds (w : World) : World := { w with next := 0 }

end Verif.TrackManager
