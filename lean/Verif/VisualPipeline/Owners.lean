import Verif.Base.Outcome

/-!
# The detectors and extractors inside pipelines

Model of how `BriskVisualPipeline`, `FreakVisualPipeline`, `LineSegmentDetector` and `DetectorAprilGrid` make, keep and give
up the detectors and extractors of other libraries: the objects on the heap, the counters of the smart pointers that own
them, and the members that hold such pointers.  What the detectors compute is not modelled here; a detector is what it was
made with.
-/

namespace Verif.VisualPipeline.Owners

open Verif (Outcome)

/-- What an object on the heap was made with (visual-pipeline-brisk.cc:45-58, visual-pipeline-freak.cc:57-60,
line-segment-detector.cc:14-15, target-aprilgrid.cc:96-97). -/
inductive Made
  | harris (octaves : Nat) (radius threshold : Rat) (most : Nat)
  | ast (threshold : Int)
  | brisk (rotation scale : Bool)
  | surf (hessian octaves layers : Int)
  | freak (rotation scale : Bool) (pattern : Rat) (octaves : Int)
  | lsd (refine : Int) (scale sigma quant angle logEps density : Rat) (bins : Int)
  | tags (border : Nat)
deriving DecidableEq

/-- An object on the heap. -/
structure Obj where
  made : Made
  alive : Bool

/-- The counter of the smart pointers that share an object: `std::shared_ptr` and `cv::Ptr` make one when they are given a
plain pointer. -/
structure Block where
  obj : Nat
  count : Nat

/-- The heap. -/
structure Heap where
  objs : List Obj
  blocks : List Block

/-- `new` (visual-pipeline-brisk.cc:49-58, target-aprilgrid.cc:97, lsd-opencv.cc:504-506): a new object and its address. -/
def Heap.create (m : Made) (h : Heap) : Heap × Nat := ({ h with objs := h.objs ++ [⟨m, true⟩] }, h.objs.length)

/-- A smart pointer is given a plain pointer (visual-pipeline-brisk.cc:49-57, visual-pipeline-freak.cc:57-60,
target-aprilgrid.cc:96): it makes a counter of its own. -/
def Heap.own (p : Nat) (h : Heap) : Heap × Nat := ({ h with blocks := h.blocks ++ [⟨p, 1⟩] }, h.blocks.length)

/-- `delete`: undefined for objects that are gone. -/
def Heap.delete (p : Nat) (h : Heap) : Outcome Heap :=
  match h.objs[p]? with
  | some o => if o.alive then .ok { h with objs := h.objs.set p { o with alive := false } } else .ub
  | none => .ub

/-- A smart pointer is copied: the counter grows. -/
def Heap.share (b : Nat) (h : Heap) : Outcome Heap :=
  match h.blocks[b]? with
  | some k => .ok { h with blocks := h.blocks.set b { k with count := k.count + 1 } }
  | none => .ub

/-- A smart pointer is destroyed or given something else: the counter falls, and the last one deletes the object. -/
def Heap.release (b : Nat) (h : Heap) : Outcome Heap :=
  match h.blocks[b]? with
  | some k =>
    if k.count = 1 then Heap.delete k.obj { h with blocks := h.blocks.set b { k with count := 0 } }
    else if k.count = 0 then .ub
    else .ok { h with blocks := h.blocks.set b { k with count := k.count - 1 } }
  | none => .ub

/-- A member function of the object of a smart pointer is called (visual-pipeline-brisk.cc:66, 70,
visual-pipeline-freak.cc:67, 71, line-segment-detector.cc:25-26): undefined if the object is gone. -/
def Heap.use (b : Nat) (h : Heap) : Outcome Made :=
  match h.blocks[b]? with
  | some k => match h.objs[k.obj]? with
    | some o => if o.alive then .ok o.made else .ub
    | none => .ub
  | none => .ub

/-- The arguments of the constructors (visual-pipeline-brisk.cc:14-17, visual-pipeline-freak.cc:15-22,
line-segment-detector.h:19-23, target-aprilgrid.cc:89-91). -/
inductive Config
  | brisk (octaves : Nat) (radius threshold : Rat) (most : Nat) (rotation scale : Bool)
  | freak (octaves : Nat) (hessian layers : Int) (rotation scale : Bool) (pattern : Rat)
  | lines
  | april (border : Nat)
deriving DecidableEq

/-- The conversion of `size_t` to `int` (visual-pipeline-freak.cc:58, 60). -/
def intOf (n : Nat) : Int := if n % 2 ^ 32 < 2 ^ 31 then ((n % 2 ^ 32 : Nat) : Int) else ((n % 2 ^ 32 : Nat) : Int) - 2 ^ 32

/-- What the detector is made with (visual-pipeline-brisk.cc:45-55, visual-pipeline-freak.cc:57-58,
line-segment-detector.cc:14-15, target-aprilgrid.cc:97). -/
def Config.detector (neon : Bool) : Config → Made
  | .brisk o r t m _ _ => if neon then .ast 70 else .harris o r t m
  | .freak o h l _ _ _ => .surf h (intOf o) l
  | .lines => .lsd 1 (4 / 5) (3 / 5) 2 (33 / 2) 0 (13 / 20) 1024
  | .april border => .tags border

/-- What the extractor is made with, if there is one (visual-pipeline-brisk.cc:57-58, visual-pipeline-freak.cc:59-60). -/
def Config.extractor : Config → Option Made
  | .brisk _ _ _ _ r s => some (.brisk r s)
  | .freak o _ _ r s p => some (.freak r s p (intOf o))
  | .lines => none
  | .april _ => none

/-- Is this a FREAK pipeline? -/
def Config.isFreak : Config → Bool
  | .freak .. => true
  | _ => false

/-- The members of a pipeline (visual-pipeline-brisk.h:84-93, visual-pipeline-freak.h:79-88, line-segment-detector.h:33,
target-aprilgrid.h:105): its settings and the counters of its pointers. -/
structure Pipe where
  config : Config
  det : Nat
  ext : Option Nat

/-- The program: the heap, and all pipelines that were made, `none` for those that were destroyed. -/
structure State where
  heap : Heap
  pipes : List (Option Pipe)

/-- The start. -/
def State.new : State := ⟨⟨[], []⟩, []⟩

/-- `member.reset(new …)` into an empty pointer, and `cv::Ptr(new …)` (visual-pipeline-brisk.cc:49-58,
line-segment-detector.cc:14-15, lsd-opencv.cc:504-506, target-aprilgrid.cc:96-97). -/
def Heap.fresh (m : Made) (h : Heap) : Heap × Nat :=
  let (h, p) := h.create m
  h.own p

/-- `member.reset(create(…).get())` into an empty pointer (visual-pipeline-freak.cc:57-60): `create` returns a `cv::Ptr`
that owns the object; the member makes a counter of its own for the plain pointer; at the end of the statement the
`cv::Ptr` is destroyed. -/
def Heap.borrowed (m : Made) (h : Heap) : Outcome (Heap × Nat) := do
  let (h, p) := h.create m
  let (h, temporary) := h.own p
  let (h, member) := h.own p
  let h ← h.release temporary
  .ok (h, member)

/-- One pointer member is set by the constructor of a pipeline. -/
def Heap.member (borrow : Bool) (m : Made) (h : Heap) : Outcome (Heap × Nat) :=
  if borrow then h.borrowed m else .ok (h.fresh m)

/-- The extractor, if the pipeline has one. -/
def Heap.member? (borrow : Bool) (m : Option Made) (h : Heap) : Outcome (Heap × Option Nat) :=
  match m with
  | some m => do
    let (h, b) ← h.member borrow m
    .ok (h, some b)
  | none => .ok (h, none)

/-- The constructors (visual-pipeline-brisk.cc:14-30, 34-59, visual-pipeline-freak.cc:15-40, 44-61,
line-segment-detector.cc:12-16, target-aprilgrid.cc:89-98): the detector, then the extractor. -/
def build (neon : Bool) (c : Config) (h : Heap) : Outcome (Heap × Pipe) := do
  let (h, det) ← h.member c.isFreak (c.detector neon)
  let (h, ext) ← h.member? c.isFreak c.extractor
  .ok (h, ⟨c, det, ext⟩)

/-- A pointer is given up if there is one. -/
def Heap.release? (b : Option Nat) (h : Heap) : Outcome Heap :=
  match b with
  | some b => h.release b
  | none => .ok h

/-- The destructors (visual-pipeline-brisk.cc:32, visual-pipeline-freak.cc:42, line-segment-detector.cc:18): the members go
in reverse order. -/
def destroy (p : Pipe) (h : Heap) : Outcome Heap := do
  let h ← h.release? p.ext
  h.release p.det

/-- `initializeBrisk` and `initializeFreak` again, which are public (visual-pipeline-brisk.cc:34-59,
visual-pipeline-freak.cc:44-61): each member gets a new object, then the old one is given up. For FREAK the temporary is
destroyed after that. -/
def rebuild (neon : Bool) (c : Config) (p : Pipe) (h : Heap) : Outcome (Heap × Pipe) :=
  if c.isFreak then do
    let (h, obj) := h.create (c.detector neon)
    let (h, temporary) := h.own obj
    let (h, det) := h.own obj
    let h ← h.release p.det
    let h ← h.release temporary
    let (h, ext) ← h.member? true c.extractor
    let h ← h.release? p.ext
    .ok (h, ⟨c, det, ext⟩)
  else do
    let (h, det) := h.fresh (c.detector neon)
    let h ← h.release p.det
    let (h, ext) ← h.member? false c.extractor
    let h ← h.release? p.ext
    .ok (h, ⟨c, det, ext⟩)

/-- Calls of a program. -/
inductive Op
  /-- A constructor; April grids without a target are refused. -/
  | make (c : Config)
  /-- The constructor of the April grid detector without a target. -/
  | noTarget
  /-- The copy constructor of the line detector. -/
  | copy (i : Nat)
  /-- `initializeBrisk` or `initializeFreak` of the pipeline. -/
  | again (i : Nat) (c : Config)
  /-- An image is processed; `found` if there are keypoints. -/
  | detect (i : Nat) (found : Bool)
  /-- The destructor. -/
  | destroy (i : Nat)

/-- A call can be written: the pipeline exists, line detectors can be copied and no others, and each kind of pipeline has
its own `initialize`. -/
def allowed (pipes : List (Option Config)) : Op → Bool
  | .make _ | .noTarget => true
  | .copy i => match pipes[i]? with
    | some (some .lines) => true
    | _ => false
  | .again i c => match pipes[i]? with
    | some (some (.brisk ..)) => match c with
      | .brisk .. => true
      | _ => false
    | some (some (.freak ..)) => match c with
      | .freak .. => true
      | _ => false
    | _ => false
  | .detect i _ | .destroy i => match pipes[i]? with
    | some (some _) => true
    | _ => false

/-- The extractor is used if there are keypoints (visual-pipeline-brisk.cc:69-74, visual-pipeline-freak.cc:70-75). -/
def useExt (found : Bool) (b : Option Nat) (h : Heap) : Outcome (List Made) :=
  if found then
    match b with
    | some b => do
      let m ← h.use b
      .ok [m]
    | none => .ok []
  else .ok []

/-- One call, with the detectors and extractors it used. -/
def step (neon : Bool) (s : State) : Op → Outcome (State × List Made)
  | .make c => do
    let (h, p) ← build neon c s.heap
    .ok (⟨h, s.pipes ++ [some p]⟩, [])
  | .noTarget => .abort
  | .copy i => match s.pipes[i]? with
    | some (some p) => do
      let h ← s.heap.share p.det
      .ok (⟨h, s.pipes ++ [some p]⟩, [])
    | _ => .ok (s, [])
  | .again i c => match s.pipes[i]? with
    | some (some p) => do
      let (h, p) ← rebuild neon c p s.heap
      .ok (⟨h, s.pipes.set i (some p)⟩, [])
    | _ => .ok (s, [])
  | .detect i found => match s.pipes[i]? with
    | some (some p) => do
      let d ← s.heap.use p.det
      let e ← useExt found p.ext s.heap
      .ok (s, d :: e)
    | _ => .ok (s, [])
  | .destroy i => match s.pipes[i]? with
    | some (some p) => do
      let h ← destroy p s.heap
      .ok (⟨h, s.pipes.set i none⟩, [])
    | _ => .ok (s, [])

/-- A program, with what each call used. -/
def run (neon : Bool) (s : State) : List Op → Outcome (State × List (List Made))
  | [] => .ok (s, [])
  | o :: os => do
    let (s, u) ← step neon s o
    let (s, us) ← run neon s os
    .ok (s, u :: us)

end Verif.VisualPipeline.Owners
