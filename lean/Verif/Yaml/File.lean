import Verif.Yaml.Sensor

/-!
# YAML files

Model of `aslam_cv_common/include/aslam/common/yaml-file-serialization.h` (`serializeToFile`,
`deserializeFromFile`) and of `Save` and `Load` in `.../yaml-serialization.h`.

A disk maps file names to the texts of the files.  What the operating system and yaml-cpp do is a parameter:
which files can be opened, how much of a text reaches the disk, how a node is written as text and how a text is
parsed.  A call returns the disk beside its outcome, since a program that aborts leaves its files behind.
-/

namespace Verif.Yaml.File

open Verif (Outcome)

/-- The surroundings (the library and the operating system; used at yaml-file-serialization.h:25-35 and
yaml-serialization.h:59-92). -/
structure Env where
  /-- `operator<<` for nodes -/
  emit : Node → String
  /-- parsing; `none` is a `YAML::ParserException` -/
  parse : String → Option Node
  /-- whether an `ofstream` for this name can be opened -/
  writable : String → Bool
  /-- whether an `ifstream` for the (existing) file can be opened -/
  readable : String → Bool
  /-- what is in a file after the text has been written and the stream closed: all of it if no write fails -/
  store : String → String

/-- The files by name (the operating system; used at yaml-file-serialization.h:25). -/
abbrev Disk := String → Option String

/-- Creating or overwriting a file (yaml-file-serialization.h:25-29). -/
def Disk.put (d : Disk) (name text : String) : Disk := fun x => if x = name then some text else d x

/-- `serializeToFile` (yaml-file-serialization.h:20-30); `saved` is the outcome of `serialize` on a new node.
`IsDefined()` is true for every node that can come out. -/
def serializeToFile (E : Env) (saved : Outcome Node) (d : Disk) (name : String) : Disk × Outcome Unit :=
  match saved with
  | .ok n => if E.writable name then (d.put name (E.store (E.emit n)), .ok ()) else (d, .abort)
  | .abort => (d, .abort)
  | .ub => (d, .ub)
  | .exc => (d, .exc)

/-- `YAML::LoadFile`: it throws if the file cannot be opened (`BadFile`) or parsed (the library; used at
yaml-file-serialization.h:35 and yaml-serialization.h:89). -/
def loadFile (E : Env) (d : Disk) (name : String) : Outcome Node :=
  match d name with
  | none => .exc
  | some text =>
    if E.readable name then
      match E.parse text with
      | some n => .ok n
      | none => .exc
    else .exc

/-- `deserializeFromFile` (yaml-file-serialization.h:32-43); `deserialize` returns the object afterwards and the
return value. -/
def deserializeFromFile {α : Type} (E : Env) (deserialize : α → Node → Outcome (α × Bool)) (a : α) (d : Disk)
    (name : String) : Outcome (α × Bool) :=
  match loadFile E d name with
  | .ok n => deserialize a n
  | .exc => .ok (a, false)
  | .abort => .abort
  | .ub => .ub

/-- `Save` to a file (yaml-serialization.h:59-79); `converted` is the outcome of `out = object`.  Opening the stream
empties the file; `debug` says whether `assert` is compiled in; writing to a stream that is not open does nothing. -/
def save (E : Env) (debug : Bool) (converted : Outcome Node) (d : Disk) (name : String) : Disk × Outcome Bool :=
  let opened := if E.writable name then d.put name "" else d
  if debug ∧ E.writable name = false then (opened, .abort)
  else
    match converted with
    | .ok n => (if E.writable name then d.put name (E.store (E.emit n)) else d, .ok true)
    | .exc => (opened, .ok false)
    | .abort => (opened, .abort)
    | .ub => (opened, .ub)

/-- `Load` (yaml-serialization.h:81-97); `as` is `doc.as<ObjectType>()`. -/
def load {α : Type} (E : Env) (as : Node → Outcome α) (a : α) (d : Disk) (name : String) : Outcome (α × Bool) :=
  if (d name).isSome ∧ E.readable name then
    match loadFile E d name >>= as with
    | .ok b => .ok (b, true)
    | .exc => .ok (a, false)
    | .abort => .abort
    | .ub => .ub
  else .ok (a, false)

/-- A program that writes objects to files, one after the other (yaml-file-serialization.h:20-30). -/
def writeAll (E : Env) : List (String × Outcome Node) → Disk → Disk × Outcome Unit
  | [], d => (d, .ok ())
  | (name, saved) :: rest, d =>
    match serializeToFile E saved d name with
    | (d', .ok ()) => writeAll E rest d'
    | r => r

end Verif.Yaml.File
