import Verif.Yaml.File
import Verif.Yaml.RigProps

/-!
# C123: YAML files

The specification is about disks as functions from names to texts: what a call leaves in the file it was given, that it
leaves all other files alone, and what reading gives.
-/

namespace Verif.Yaml.File

open Verif (Outcome)
open Verif.HashId (Id)

/-! ## Writing -/

/-- The surroundings do their part for this file and node: the file can be opened for writing and reading, all of the
text reaches the disk, and yaml-cpp parses what it has written. -/
structure Works (E : Env) (name : String) (n : Node) : Prop where
  writable : E.writable name = true
  readable : E.readable name = true
  store : E.store (E.emit n) = E.emit n
  parse : E.parse (E.emit n) = some n

/-- `serializeToFile` touches no file but the one it was given, whatever happens. -/
theorem other_files (E : Env) (saved : Outcome Node) (d : Disk) (name other : String) (h : other ≠ name) :
    (serializeToFile E saved d name).1 other = d other := by
  unfold serializeToFile
  cases saved with
  | ok n =>
    by_cases hw : E.writable name = true
    · simp [hw, Disk.put, h]
    · simp [hw]
  | abort => rfl
  | ub => rfl
  | exc => rfl

/-- An existing file is replaced: what the file contains afterwards does not depend on what was there. -/
theorem overwrites (E : Env) (n : Node) (d d' : Disk) (name : String) (h : E.writable name = true) :
    (serializeToFile E (.ok n) d name).1 name = (serializeToFile E (.ok n) d' name).1 name ∧
    (serializeToFile E (.ok n) d name).2 = .ok () := by
  simp [serializeToFile, h, Disk.put]

/-- An object that cannot be serialized leaves the old file as it was, and so does a file that cannot be opened. -/
theorem failed_write_keeps (E : Env) (saved : Outcome Node) (d : Disk) (name : String)
    (h : (serializeToFile E saved d name).2 ≠ .ok ()) : (serializeToFile E saved d name).1 = d := by
  unfold serializeToFile at h ⊢
  cases saved with
  | ok n =>
    by_cases hw : E.writable name = true
    · simp [hw] at h
    · simp [hw]
  | abort => rfl
  | ub => rfl
  | exc => rfl

/-- A file that cannot be opened for writing ends the program. -/
theorem unwritable_aborts (E : Env) (n : Node) (d : Disk) (name : String) (h : E.writable name = false) :
    serializeToFile E (.ok n) d name = (d, .abort) := by
  simp [serializeToFile, h]

/-! ## Reading back -/

/-- Reading the file just written hands `deserialize` the node that `serialize` had made. -/
theorem read_written {α : Type} (E : Env) {n : Node} {name : String} (hE : Works E name n) (d : Disk)
    (deserialize : α → Node → Outcome (α × Bool)) (a : α) :
    (serializeToFile E (.ok n) d name).2 = .ok () ∧
    deserializeFromFile E deserialize a (serializeToFile E (.ok n) d name).1 name = deserialize a n := by
  simp [serializeToFile, deserializeFromFile, loadFile, hE.writable, hE.readable, Disk.put, hE.store, hE.parse]

/-- Surroundings for the examples that work for one node. -/
def oneNode (n : Node) : Env := ⟨fun _ => "text", fun t => if t = "text" then some n else none, fun _ => true, fun _ => true, id⟩

example (n : Node) : Works (oneNode n) "cam.yaml" n := ⟨rfl, rfl, rfl, by simp [oneNode]⟩

/-- A sound camera written to a file and read into any camera of its class comes back, with the mask of the camera that
was there. -/
theorem camera_file_round_trip (E : Env) (C : Codec) {c : Cam} (h : c.Sound) (hx : c.Exact C) (gen : Id) (c0 : Cam)
    (hc : c0.cls = c.cls) (name : String) (d : Disk)
    (hE : ∀ n, serializeCam C c .null = .ok n → Works E name n) :
    (serializeToFile E (serializeCam C c .null) d name).2 = .ok () ∧
    deserializeFromFile E (deserializeCam C gen) c0 (serializeToFile E (serializeCam C c .null) d name).1 name =
      .ok ({ c with mask := c0.mask }, true) := by
  obtain ⟨n, h1, h2⟩ := camera_round_trip C h hx gen c0 hc
  obtain ⟨h3, h4⟩ := read_written E (hE n h1) d (deserializeCam C gen) c0
  rw [h1]
  exact ⟨h3, h4.trans h2⟩

example : ∃ E : Env, ∀ n, serializeCam words demo .null = .ok n → Works E "cam.yaml" n := by
  obtain ⟨n, h1, _⟩ := camera_round_trip words demo_sound ⟨fun x _ => words_exact x, fun x _ => words_exact x⟩
    Id.invalid demo rfl
  refine ⟨oneNode n, fun n' h' => ?_⟩
  rw [h1] at h'
  cases h'
  exact ⟨rfl, rfl, rfl, by simp [oneNode]⟩

/-- A sound rig written to a file and read into a new rig comes back, without the masks of its cameras. -/
theorem rig_file_round_trip (E : Env) (C : Codec) {P : Type} {G : Geometry P} (hG : G.Lawful) {r : Rig P} (h : r.Sound)
    (hx : r.Exact C G) (gen : Nat → Id) (genRig : Id) (name : String) (d : Disk)
    (hE : ∀ n, serializeRig C G r .null = .ok n → Works E name n) :
    (serializeToFile E (serializeRig C G r .null) d name).2 = .ok () ∧
    ∃ r', deserializeFromFile E (deserializeRig C G gen genRig) (freshRig P)
        (serializeToFile E (serializeRig C G r .null) d name).1 name = .ok (r', true) ∧
      r'.base = r.base ∧ r'.cameras = r.cameras.map bare ∧ r'.T = r.T ∧ r'.map = r.map ∧ r'.hasCov = r.hasCov ∧
      (r.hasCov = true → r'.cov = r.cov) := by
  obtain ⟨n, r', h1, h2, h3⟩ := rig_round_trip_partial C hG h hx gen genRig
  obtain ⟨k1, k2⟩ := read_written E (hE n h1) d (deserializeRig C G gen genRig) (freshRig P)
  rw [h1]
  exact ⟨k1, r', k2.trans h2, h3⟩

/-- After any number of writes to any files, each of which succeeds, reading a file hands out the node written to it
last. -/
theorem last_write_wins {α : Type} (E : Env) (ws vs : List (String × Outcome Node)) (name : String) (n : Node)
    (hE : Works E name n) (hv : ∀ w ∈ vs, w.1 ≠ name) (d : Disk)
    (hok : (writeAll E (ws ++ (name, .ok n) :: vs) d).2 = .ok ())
    (deserialize : α → Node → Outcome (α × Bool)) (a : α) :
    deserializeFromFile E deserialize a (writeAll E (ws ++ (name, .ok n) :: vs) d).1 name = deserialize a n := by
  have keep : ∀ (vs : List (String × Outcome Node)) (d : Disk), (∀ w ∈ vs, w.1 ≠ name) →
      (writeAll E vs d).1 name = d name := by
    intro vs
    induction vs with
    | nil => intro d _; rfl
    | cons w vs ih =>
      intro d hw
      obtain ⟨m, s⟩ := w
      have hne : name ≠ m := fun h => hw (m, s) (by simp) h.symm
      have h1 := other_files E s d m name hne
      unfold writeAll
      rcases hs : serializeToFile E s d m with ⟨d', o⟩
      rw [hs] at h1
      cases o with
      | ok u => simp only []; rw [ih d' fun w hw' => hw w (by simp [hw'])]; exact h1
      | abort => exact h1
      | ub => exact h1
      | exc => exact h1
  induction ws generalizing d with
  | nil =>
    simp only [List.nil_append, writeAll, serializeToFile, hE.writable, if_true]
    unfold deserializeFromFile loadFile
    rw [keep vs _ hv]
    simp [Disk.put, hE.readable, hE.store, hE.parse]
  | cons w ws ih =>
    obtain ⟨m, s⟩ := w
    simp only [List.cons_append, writeAll] at hok ⊢
    rcases hs : serializeToFile E s d m with ⟨d', o⟩
    rw [hs] at hok
    cases o with
    | ok u => exact ih d' hok
    | abort => cases hok
    | ub => cases hok
    | exc => cases hok

example (n : Node) : (writeAll (oneNode n) ([("a", .ok n), ("b", .ok n)] ++ ("a", .ok n) :: [("b", .ok n)])
    (fun _ => none)).2 = .ok () := rfl

/-- A file that is missing, cannot be opened or cannot be parsed gives false and leaves the object as it was. -/
theorem unreadable_keeps {α : Type} (E : Env) (deserialize : α → Node → Outcome (α × Bool)) (a : α) (d : Disk)
    (name : String) (h : d name = none ∨ E.readable name = false ∨ ∃ t, d name = some t ∧ E.parse t = none) :
    deserializeFromFile E deserialize a d name = .ok (a, false) := by
  have : loadFile E d name = .exc := by
    unfold loadFile
    rcases h with h | h | ⟨t, h, ht⟩
    · rw [h]
    · rw [h]; cases d name <;> simp
    · rw [h]; simp [ht]
  simp [deserializeFromFile, this]

/-- Only the file with the given name is read. -/
theorem reads_one_file {α : Type} (E : Env) (deserialize : α → Node → Outcome (α × Bool)) (a : α) (d d' : Disk)
    (name : String) (h : d name = d' name) :
    deserializeFromFile E deserialize a d name = deserializeFromFile E deserialize a d' name := by
  simp [deserializeFromFile, loadFile, h]

/-- A file that parses to something that is no map, such as an empty file, is refused by a camera and leaves it as it
was. -/
theorem empty_file_camera (E : Env) (C : Codec) (gen : Id) (c : Cam) (d : Disk) (name text : String) (n : Node)
    (h : d name = some text) (hr : E.readable name = true) (hp : E.parse text = some n) (hn : n.isMap = false) :
    deserializeFromFile E (deserializeCam C gen) c d name = .ok (c, false) := by
  simp [deserializeFromFile, loadFile, h, hr, hp, deserializeCam, hn]

/-! ## What does not hold -/

/-- A malformed file is not always refused: a wrong id in a file ends the program, since only the parsing is guarded. -/
theorem malformed_file_refuted (C : Codec) (gen : Id) (c : Cam) :
    ∃ (E : Env) (d : Disk), deserializeFromFile E (deserializeCam C gen) c d "cam.yaml" = .abort :=
  ⟨oneNode (.map [("id", .scalar "12ab")]), fun _ => some "text", by
    simp [deserializeFromFile, loadFile, oneNode, malformed_id_refuted]⟩

/-- Errors of writing go unnoticed: on a full disk `serializeToFile` returns as if the file had been written, and the
camera cannot be read back. -/
theorem full_disk_refuted (C : Codec) (gen : Id) {c : Cam} (h : c.Sound) (hx : c.Exact C) :
    ∃ E : Env, E.writable "cam.yaml" = true ∧ E.readable "cam.yaml" = true ∧
      (∀ n, serializeCam C c .null = .ok n → E.parse (E.emit n) = some n) ∧
      ∀ d, (serializeToFile E (serializeCam C c .null) d "cam.yaml").2 = .ok () ∧
        deserializeFromFile E (deserializeCam C gen) c
          (serializeToFile E (serializeCam C c .null) d "cam.yaml").1 "cam.yaml" = .ok (c, false) := by
  obtain ⟨n, h1, _⟩ := camera_round_trip C h hx gen c rfl
  refine ⟨⟨fun _ => "text", fun t => if t = "text" then some n else some .null, fun _ => true, fun _ => true,
    fun _ => ""⟩, rfl, rfl, ?_, ?_⟩
  · intro n' h'
    rw [h1] at h'
    cases h'
    simp
  · intro d
    rw [h1]
    refine ⟨rfl, ?_⟩
    simp [serializeToFile, deserializeFromFile, loadFile, Disk.put, deserializeCam, Node.isMap]

example : demo.Sound ∧ demo.Exact words := ⟨demo_sound, fun x _ => words_exact x, fun x _ => words_exact x⟩

/-! ## `Save` and `Load` -/

/-- `Load` lets no exception out, and whenever it returns false the object is as it was. -/
theorem load_outcomes {α : Type} (E : Env) (as : Node → Outcome α) (a : α) (d : Disk) (name : String) :
    load E as a d name ≠ .exc ∧ ∀ b, load E as a d name = .ok (b, false) → b = a := by
  unfold load
  split
  · cases loadFile E d name >>= as <;> simp
  · simp

/-- `Load` returns true exactly if the file parses and converts, and then the object is the converted one. -/
theorem load_true {α : Type} (E : Env) (as : Node → Outcome α) (a b : α) (d : Disk) (name : String) :
    load E as a d name = .ok (b, true) ↔
      ∃ t n, d name = some t ∧ E.readable name = true ∧ E.parse t = some n ∧ as n = .ok b := by
  unfold load loadFile
  cases hd : d name with
  | none => simp
  | some t =>
    by_cases hr : E.readable name = true
    · cases hp : E.parse t with
      | none => simp [hr, hp]
      | some n =>
        cases ha : as n <;> simp [hr, hp, ha]
    · simp [hr]

/-- A matrix that is not empty, saved to a file and loaded, comes back. -/
theorem matrix_file_round_trip (E : Env) (debug : Bool) (C : Codec) (sh : Shape) (m a : Mat) (hw : m.Wf)
    (hs : sh.Holds m) (hr : 0 < m.rows) (hc : 0 < m.cols) (hr' : m.rows < 2 ^ 63) (hc' : m.cols < 2 ^ 63)
    (hx : ∀ r ∈ m.data, ∀ x ∈ r, C.Exact x) (name : String) (d : Disk)
    (hE : ∀ n, encode C m = .ok n → Works E name n) :
    (save E debug (encode C m) d name).2 = .ok true ∧
    load E (decode C sh) a (save E debug (encode C m) d name).1 name = .ok (m, true) := by
  obtain ⟨n, h1, h2⟩ := matrix_round_trip C sh m hw hs hr hc hr' hc' hx
  have hE := hE n h1
  rw [h1]
  constructor
  · simp [save, hE.writable]
  · rw [load_true]
    exact ⟨E.emit n, n, by simp [save, hE.writable, Disk.put, hE.store], hE.readable, hE.parse, h2⟩

example : ∃ E : Env, ∀ n, encode words ⟨1, 2, [[1, 2]]⟩ = .ok n → Works E "m.yaml" n := by
  obtain ⟨n, h1, _⟩ := matrix_round_trip words ⟨none, none⟩ ⟨1, 2, [[1, 2]]⟩ ⟨rfl, by simp⟩ ⟨by simp, by simp⟩
    (by decide) (by decide) (by decide) (by decide) fun _ _ x _ => words_exact x
  refine ⟨oneNode n, fun n' h' => ?_⟩
  rw [h1] at h'
  cases h'
  exact ⟨rfl, rfl, rfl, by simp [oneNode]⟩

/-- `Save`, too, touches no other file. -/
theorem save_other_files (E : Env) (debug : Bool) (converted : Outcome Node) (d : Disk) (name other : String)
    (h : other ≠ name) : (save E debug converted d name).1 other = d other := by
  have hp : ∀ t, (d.put name t) other = d other := fun t => by simp [Disk.put, h]
  unfold save
  by_cases hw : E.writable name = true <;> cases debug <;> cases converted <;> simp [hw, hp]

/-- `Save` without assertions returns true although the file could not be opened and nothing was written. -/
theorem save_unopened_refuted (E : Env) (n : Node) (d : Disk) (name : String) (h : E.writable name = false) :
    save E false (.ok n) d name = (d, .ok true) := by
  simp [save, h]

/-- A `Save` that fails has already emptied the file that was there. -/
theorem failed_save_refuted (E : Env) (debug : Bool) (d : Disk) (name text : String) (hw : E.writable name = true)
    (hd : d name = some text) (ht : text ≠ "") :
    (save E debug .exc d name).2 = .ok false ∧ (save E debug .exc d name).1 name = some "" ∧
      (save E debug .exc d name).1 ≠ d := by
  have h1 : (save E debug .exc d name).1 name = some "" := by simp [save, hw, Disk.put]
  refine ⟨by simp [save, hw], h1, fun h => ?_⟩
  rw [h, hd] at h1
  exact ht (Option.some.inj h1)

example : (oneNode .null).writable "m.yaml" = true ∧ (fun _ => some "old" : Disk) "m.yaml" = some "old" := ⟨rfl, rfl⟩

end Verif.Yaml.File
