import Verif.VisualFrame.Copy
import Verif.VisualFrame.Model

/-!
# Comparison without cameras, and types of descriptors set by hand

Model of `compareWithoutCameraGeometry` (visual-frame.cc:43-49), `compareWithoutCameraSystem` (visual-nframe.cc:208-219)
and `setDescriptorTypes` (visual-frame.cc:809-819).
-/

namespace Verif.VisualFrame.Copy

open Verif (Outcome)

/-- `VisualFrame::compareWithoutCameraGeometry` (visual-frame.cc:43-49). -/
def frameEqNoCam (w : World) (f g : Nat) : Outcome Bool :=
  match w.frames[f]?, w.frames[g]? with
  | some v, some u =>
    match w.store.groups[v.group]?, w.store.groups[u.group]? with
    | some a, some b => do
      let same ← Channels.isChannelGroupEqual w.store (decide (v.group = u.group)) a b
      .ok (decide (v.ts = u.ts) && same && decide (v.valid = u.valid))
    | _, _ => .ub
  | _, _ => .ub

/-- The loop of `compareWithoutCameraSystem` (visual-nframe.cc:213-216): `CHECK_NOTNULL` on both frames. -/
def framesEqNoCam (w : World) : List (Option Nat) → List (Option Nat) → Outcome Bool
  | some p :: ps, some q :: qs => do
    let a ← frameEqNoCam w p q
    let b ← framesEqNoCam w ps qs
    .ok (a && b)
  | [], [] => .ok true
  | _, _ => .abort

/-- `VisualNFrame::compareWithoutCameraSystem` (visual-nframe.cc:208-219). -/
def nframeEqNoRig (w : World) (k l : Nat) : Outcome Bool :=
  match w.nframes[k]?, w.nframes[l]? with
  | some a, some b =>
    if a.id = b.id ∧ a.frames.length = b.frames.length then framesEqNoCam w a.frames b.frames else .ok false
  | _, _ => .ub

end Verif.VisualFrame.Copy

namespace Verif.VisualFrame

open Verif (Outcome)

/-- `setDescriptorTypes` (visual-frame.cc:809-819). -/
def setDescriptorTypes (f : Frame) (types : List Int) : Outcome Frame := do
  let blocks ← get f.descriptors
  Outcome.check (decide (blocks.length = types.length))
  .ok { f with types := some types }

end Verif.VisualFrame
