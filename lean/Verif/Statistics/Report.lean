import Verif.Statistics.Model
import Verif.Base.Decimal
import Mathlib.Data.Rat.Floor

/-!
# Reports of timings and statistics

Model of the printing in `aslam_cv_common/src/timer.cc` and `src/statistics.cc` and of the YAML files they write.  Tags and
texts are lists of characters; `std::map` keeps the tags in order, which here is any order `le` on tags.  `rnd` is the
rounding of floating point operations; `num` is the text `operator<<` gives for a number and `sqrt` the square root.
`Print` reads the figures of one tag in several steps; here no sample is added in between.
-/

namespace Verif.Statistics

open Verif (Outcome)
open Verif.Decimal (natString)

/-- `setw` with fill on the left, as `%0…` and right adjustment give it (timer.cc:178-184, 244-247). -/
def fillLeft (c : Char) (w : Nat) (s : List Char) : List Char := List.replicate (w - s.length) c ++ s

/-- `setw` with blanks on the right (timer.cc:241-243). -/
def fillRight (w : Nat) (s : List Char) : List Char := s ++ List.replicate (w - s.length) ' '

/-- The conversion of a `double` to an `int` (timer.cc:174-175): the fraction is cut off; other results are undefined. -/
def toInt (q : ℚ) : Outcome ℤ :=
  let z := if 0 ≤ q then ⌊q⌋ else ⌈q⌉
  if -2 ^ 31 ≤ z ∧ z < 2 ^ 31 then .ok z else .ub

/-- `fmod(seconds, 60)` (timer.cc:173): exact, with the sign of `seconds`. -/
def fmod60 (q : ℚ) : ℚ :=
  let k : ℤ := if 0 ≤ q / 60 then ⌊q / 60⌋ else ⌈q / 60⌉
  q - 60 * (k : ℚ)

/-- `%02d` (timer.cc:181-182). -/
def d02 (z : ℤ) : List Char :=
  if 0 ≤ z then fillLeft '0' 2 (natString z.toNat) else '-' :: fillLeft '0' 1 (natString (-z).toNat)

/-- A number of millionths next to `q`, the even one of two (timer.cc:183). -/
def millionths (q : ℚ) : ℕ :=
  let x : ℚ := q * 10 ^ 6
  let n : ℤ := ⌊x⌋
  if x - n < 1 / 2 then n.toNat else if 1 / 2 < x - n then (n + 1).toNat else if n % 2 = 0 then n.toNat else (n + 1).toNat

/-- A number of millionths with six digits after the point (timer.cc:183). -/
def fixed6 (n : ℕ) : List Char := natString (n / 10 ^ 6) ++ '.' :: fillLeft '0' 6 (natString (n % 10 ^ 6))

/-- `%09.6f` (timer.cc:183). -/
def f096 (q : ℚ) : List Char :=
  if 0 ≤ q then fillLeft '0' 9 (fixed6 (millionths q)) else '-' :: fillLeft '0' 8 (fixed6 (millionths (-q)))

/-- `SecondsToTimeString` (timer.cc:172-186); `Statistics` has the same function, with the hours and minutes only if asked
for when compiling (statistics.cc:171-195). -/
def timeText (rnd : ℚ → ℚ) (seconds : ℚ) : Outcome (List Char) := do
  let minutes ← toInt (rnd (seconds / 60))
  let hours ← toInt (rnd (seconds / 3600))
  .ok (d02 hours ++ ':' :: d02 (minutes - hours * 60) ++ ':' :: f096 (fmod60 seconds))

/-- What a report says of one tag (timer.cc:206-220, 247-256, statistics.cc:224-233, 259-272). -/
structure Figures where
  samples : Nat
  total : ℚ
  mean : ℚ
  deviation : ℚ
  min : ℚ
  max : ℚ
  hz : ℚ

/-- The tags and `max_tag_length_` (timer.h:131-134, statistics.h:204-207). -/
structure Tags where
  tags : List (List Char × Nat)
  maxLength : Nat

/-- The singleton at the start of the program (timer.cc:20). -/
def Tags.new : Tags := ⟨[], 0⟩

/-- Insertion into the `std::map` (timer.cc:32). -/
def insertTag (le : List Char → List Char → Bool) (t : List Char × Nat) : List (List Char × Nat) → List (List Char × Nat)
  | [] => [t]
  | u :: us => if le t.1 u.1 then t :: u :: us else u :: insertTag le t us

/-- `GetHandle` for a tag that is not there, with the handle it gets (timer.cc:30-38). -/
def Tags.add (le : List Char → List Char → Bool) (tag : List Char) (handle : Nat) (m : Tags) : Tags :=
  ⟨insertTag le (tag, handle) m.tags, max m.maxLength tag.length⟩

/-- `Reset` (timer.cc:272-275). -/
def Tags.reset (m : Tags) : Tags := { m with tags := [] }

/-- A new tag, or a reset (timer.cc:25-42, 272-275). -/
inductive TagOp
  | lookup (tag : List Char) (handle : Nat)
  | reset

/-- One call (timer.cc:25-42, 272-275): tags that are there are left alone. -/
def Tags.step (le : List Char → List Char → Bool) (m : Tags) : TagOp → Tags
  | .lookup tag handle => if tag ∈ m.tags.map Prod.fst then m else m.add le tag handle
  | .reset => m.reset

/-- A sequence of calls (timer.cc:25-42, 272-275). -/
def Tags.run (le : List Char → List Char → Bool) (m : Tags) (os : List TagOp) : Tags := os.foldl (Tags.step le) m

/-- The part of a row with the times, for tags with samples (timer.cc:248-261). -/
def timings (rnd : ℚ → ℚ) (f : Figures) : Outcome (List Char) :=
  if f.samples > 0 then do
    let total ← timeText rnd f.total
    let mean ← timeText rnd f.mean
    let dev ← timeText rnd f.deviation
    let lo ← timeText rnd f.min
    let hi ← timeText rnd f.max
    .ok (total ++ "\t(".toList ++ mean ++ " +- ".toList ++ dev ++ ")\t[".toList ++ lo ++ ",".toList ++ hi ++ "]".toList)
  else .ok []

/-- One row of `Timing::Print` (timer.cc:240-262). -/
def timingRow (rnd : ℚ → ℚ) (width : Nat) (fig : Nat → Figures) (t : List Char × Nat) : Outcome (List Char) := do
  let r ← timings rnd (fig t.2)
  .ok (fillRight width t.1 ++ '\t' :: fillLeft ' ' 7 (natString (fig t.2).samples) ++ '\t' :: r)

/-- Rows, each ended by a new line (timer.cc:239-263). -/
def timingRows (rnd : ℚ → ℚ) (width : Nat) (fig : Nat → Figures) : List (List Char × Nat) → Outcome (List (List Char))
  | [] => .ok []
  | t :: ts => do
    let r ← timingRow rnd width fig t
    let rs ← timingRows rnd width fig ts
    .ok (r :: rs)

/-- `Timing::Print` (timer.cc:226-264), as lines. -/
def timingReport (rnd : ℚ → ℚ) (fig : Nat → Figures) (m : Tags) : Outcome (List (List Char)) :=
  if m.tags = [] then .ok []
  else do
    let rs ← timingRows rnd m.maxLength fig m.tags
    .ok ("SM Timing".toList :: "-----------".toList :: rs)

/-- The row above the rows (statistics.cc:206-214): `width` is for the next item only. -/
def statsHeader (width : Nat) : List Char :=
  fillRight width "-----------".toList ++ fillLeft ' ' 7 "#\t".toList ++ "Hz\t".toList ++ "(avg     +- std    )\t".toList
    ++ "[min,max]".toList

/-- One row of `Statistics::Print` (statistics.cc:217-237). -/
def statsRow (num : ℚ → List Char) (width : Nat) (fig : Nat → Figures) (t : List Char × Nat) : List Char :=
  let f := fig t.2
  fillRight width t.1 ++ '\t' :: fillLeft ' ' 7 (natString f.samples) ++ '\t' ::
    (if f.samples > 0 then
      num f.hz ++ "\t(".toList ++ num f.mean ++ " +- ".toList ++ num f.deviation ++ ")\t[".toList ++ num f.min ++ ",".toList
        ++ num f.max ++ "]".toList
    else [])

/-- `Statistics::Print` (statistics.cc:197-239), as lines. -/
def statsReport (num : ℚ → List Char) (fig : Nat → Figures) (m : Tags) : List (List Char) :=
  if m.tags = [] then []
  else "Statistics".toList :: statsHeader m.maxLength :: m.tags.map (statsRow num m.maxLength fig)

/-- The label of a tag (timer.cc:207-212, statistics.cc:260-265). -/
def label (tag : List Char) : List Char := tag.map fun c => if c = ':' ∨ c = '#' then '_' else c

/-- What `Timing::WriteToYamlFile` writes for a tag, as lines (timer.cc:204-222). -/
def timingYaml (num : ℚ → List Char) (fig : Nat → Figures) (t : List Char × Nat) : List (List Char) :=
  let f := fig t.2
  (if f.samples > 0 then
    [label t.1 ++ [':'],
     "  num_samples: ".toList ++ natString f.samples,
     "  total: ".toList ++ num f.total,
     "  mean: ".toList ++ num f.mean,
     "  std_dev: ".toList ++ num f.deviation,
     "  min: ".toList ++ num f.min,
     "  max: ".toList ++ num f.max]
  else []) ++ [[]]

/-- What `Statistics::WriteToYamlFile` writes for a tag, as lines (statistics.cc:257-274). -/
def statsYaml (num : ℚ → List Char) (fig : Nat → Figures) (t : List Char × Nat) : List (List Char) :=
  let f := fig t.2
  (if f.samples > 0 then
    [label t.1 ++ [':'],
     "  samples: ".toList ++ natString f.samples,
     "  mean: ".toList ++ num f.mean,
     "  stddev: ".toList ++ num f.deviation,
     "  min: ".toList ++ num f.min,
     "  max: ".toList ++ num f.max]
  else []) ++ [[]]

/-- The file, as lines (timer.cc:188-224, statistics.cc:241-276): none is written without tags; `none` also stands for a
file that cannot be opened. -/
def yamlFile (opens : Bool) (block : List Char × Nat → List (List Char)) (m : Tags) : Option (List (List Char)) :=
  if m.tags = [] then none else if opens then some (m.tags.flatMap block) else none

end Verif.Statistics
