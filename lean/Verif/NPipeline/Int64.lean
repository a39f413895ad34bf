import Verif.NPipeline.Model

/-!
# Time differences of the n-camera pipeline in 64 bits

`Verif/NPipeline/Model.lean` subtracts times as integers.  The code subtracts two `int64_t` and calls `std::abs`; both
are undefined when the result does not fit.
-/

namespace Verif.NPipeline.Int64

open Verif (Outcome)
open Verif.NPipeline

/-- `std::abs(a - b)` for `int64_t` (visual-npipeline.cc:239-240, 243-244): undefined if the difference does not fit or
is the smallest number. -/
def absDiff (a b : Int) : Outcome Int :=
  let d := a - b
  if -2 ^ 63 < d ∧ d < 2 ^ 63 then .ok (if d < 0 then -d else d) else .ub

/-- The search for the closest n-frame (visual-npipeline.cc:232-249); `none` if there is none. -/
def nearest64 (p : List Entry) (t : Int) : Outcome (Option (Nat × Int)) :=
  let i := lowerBound p t - 1
  match p[i]? with
  | none => .ok none
  | some e => do
    let d ← absDiff e.1 t
    match p[i + 1]? with
    | some e' => do
      let d' ← absDiff e'.1 t
      .ok (if d' < d then some (i + 1, d') else some (i, d))
    | none => .ok (some (i, d))

/-- The n-frame for a frame of time `t` (visual-npipeline.cc:226-264). -/
def findOrCreate64 (cfg : Config) (s : State) (t : Int) : Outcome (State × Nat) := do
  match ← nearest64 s.processing t with
  | some (i, d) => if d > cfg.tol then insertNew cfg s t else .ok (s, i)
  | none => insertNew cfg s t

/-- `work` (visual-npipeline.cc:215-332). -/
def work64 (cfg : Config) (s : State) (cam : Nat) (f : Frame) : Outcome State :=
  if cam > cfg.cams then .abort
  else if cam = cfg.cams then .ub
  else do
    let r ← findOrCreate64 cfg s f.ts
    let p ← setFrameAt r.1.processing r.2 cam f
    .ok (finish { r.1 with processing := p })

end Verif.NPipeline.Int64
