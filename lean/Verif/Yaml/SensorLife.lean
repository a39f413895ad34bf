import Verif.Yaml.Sensor

/-!
# The life of a sensor

Model of the constructors, the assignment, the accessors and `deserialize` of `Sensor`
(`aslam_cv_common/include/aslam/common/sensor.h`, `aslam_cv_common/src/sensor.cc`), as operations on the sensors of
a program.

* A sensor is its base part (`Base`); what the virtual functions do with the rest is given with the call.
* An exception that leaves `deserialize` may be caught by the caller: the sensor is then what was written so far.
* `gen` is the id that `generateId` yields at that call.
-/

namespace Verif.Yaml

open Verif (Outcome)
open Verif.HashId (Id)

/-- The constructors (sensor.cc:5-23): without an id, and with an id, a topic and a description, where those not given
are empty. -/
def newSensor (gen : Id) : Option Id → String → String → Outcome Base
  | none, _, _ => .ok ⟨gen, "", ""⟩
  | some id, topic, description => if id.isValid then .ok ⟨id, topic, description⟩ else .abort

/-- The copy constructor (sensor.h:35-38). -/
def copySensor (b : Base) : Base := ⟨b.id, b.topic, b.description⟩

/-- The assignment (sensor.h:39-43), members one after the other. -/
def assignSensor (b other : Base) : Base :=
  let b1 := { b with id := other.id }
  let b2 := { b1 with topic := other.topic }
  { b2 with description := other.description }

/-- `setId` (sensor.h:53-56). -/
def setSensorId (b : Base) (id : Id) : Outcome Base := if id.isValid then .ok { b with id := id } else .abort

/-- `getId` (sensor.h:57-60). -/
def getSensorId (b : Base) : Outcome Id := if b.id.isValid then .ok b.id else .abort

/-- Topic and description (sensor.cc:60-70); a text that is missing or no scalar leaves the member as it is. -/
def readTexts (b : Base) (n : Node) : Outcome Base :=
  safeGet n "topic" asString >>= fun topic =>
    safeGet n "description" asString >>= fun description =>
      .ok ⟨b.id, topic.getD b.topic, description.getD b.description⟩

/-- `CHECK(id_.isValid())` and what follows it up to the virtual call (sensor.cc:57-70). -/
def readChecked (b : Base) (n : Node) : Base × Outcome Unit :=
  if b.id.isValid then
    match readTexts b n with
    | .ok b' => (b', .ok ())
    | .abort => (b, .abort)
    | .ub => (b, .ub)
    | .exc => (b, .exc)
  else (b, .abort)

/-- `deserialize` up to the virtual call, for a map (sensor.cc:46-70): the sensor afterwards and how it ended. -/
def readBase (gen : Id) (b : Base) (n : Node) : Base × Outcome Unit :=
  match safeGet n "id" asString with
  | .ok (some s) =>
    if s = "" then (b, .abort)
    else
      match b.id.fromHexString s.toList with
      | (id, .ok true) => readChecked { b with id := id } n
      | (id, .ok false) => ({ b with id := id }, .abort)
      | (id, .abort) => ({ b with id := id }, .abort)
      | (id, .ub) => ({ b with id := id }, .ub)
      | (id, .exc) => ({ b with id := id }, .exc)
  | .ok none => readChecked { b with id := gen } n
  | .abort => (b, .abort)
  | .ub => (b, .ub)
  | .exc => (b, .exc)

/-- `deserialize` (sensor.cc:38-74); `impl` is how `loadFromYamlNodeImpl` ends. -/
def readSensor (gen : Id) (impl : Outcome Bool) (b : Base) (n : Node) : Base × Outcome Bool :=
  if n.isMap then
    match readBase gen b n with
    | (b', .ok ()) => (b', impl)
    | (b', .abort) => (b', .abort)
    | (b', .ub) => (b', .ub)
    | (b', .exc) => (b', .exc)
  else (b, .ok false)

/-- A call on one of the sensors of a program (sensor.h:26-88). -/
inductive SensorOp where
  | make (gen : Id) (id : Option Id) (topic description : String)
  | copy (i : Nat)
  | assign (i j : Nat)
  | setId (i : Nat) (id : Id)
  | setTopic (i : Nat) (s : String)
  | setDescription (i : Nat) (s : String)
  | setRandom (i : Nat) (gen : Id)
  | read (i : Nat) (gen : Id) (impl : Outcome Bool) (n : Node)
  | getId (i : Nat)

/-- What the caller sees of a call (sensor.h:26-88). -/
inductive SensorRes where
  | done
  | returned (b : Bool)
  | threw
  | id (i : Id)
  deriving DecidableEq

/-- A sensor of the program; using one that does not exist is undefined (sensor.h:26-88). -/
def sensorAt (s : List Base) (i : Nat) : Outcome Base :=
  match s[i]? with
  | some b => .ok b
  | none => .ub

/-- One call (sensor.h:26-88, sensor.cc:5-74); an exception of `deserialize` is caught by the caller. -/
def sensorStep (s : List Base) : SensorOp → Outcome (List Base × SensorRes)
  | .make gen id topic description => newSensor gen id topic description >>= fun b => .ok (s ++ [b], .done)
  | .copy i => sensorAt s i >>= fun b => .ok (s ++ [copySensor b], .done)
  | .assign i j => sensorAt s i >>= fun b => sensorAt s j >>= fun o => .ok (s.set i (assignSensor b o), .done)
  | .setId i id => sensorAt s i >>= fun b => setSensorId b id >>= fun b' => .ok (s.set i b', .done)
  | .setTopic i t => sensorAt s i >>= fun b => .ok (s.set i { b with topic := t }, .done)
  | .setDescription i t => sensorAt s i >>= fun b => .ok (s.set i { b with description := t }, .done)
  | .setRandom i gen => sensorAt s i >>= fun b => .ok (s.set i { b with id := gen }, .done)
  | .read i gen impl n =>
    sensorAt s i >>= fun b =>
      match readSensor gen impl b n with
      | (b', .ok r) => .ok (s.set i b', .returned r)
      | (b', .exc) => .ok (s.set i b', .threw)
      | (_, .abort) => .abort
      | (_, .ub) => .ub
  | .getId i => sensorAt s i >>= fun b => getSensorId b >>= fun id => .ok (s, .id id)

/-- A program: the sensors afterwards and what the caller saw (sensor.h:26-88). -/
def sensorRun : List Base → List SensorOp → Outcome (List Base × List SensorRes)
  | s, [] => .ok (s, [])
  | s, o :: os => sensorStep s o >>= fun p => sensorRun p.1 os >>= fun q => .ok (q.1, p.2 :: q.2)

end Verif.Yaml
