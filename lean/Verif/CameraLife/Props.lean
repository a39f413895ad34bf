import Verif.CameraLife.Model
import Verif.Yaml.SensorProps

/-!
# Making and changing cameras (C121)

What the factories make, what stays true whatever is done with a camera, and what `isValid`, `clone`, `setRandom` and
`isEqual` do not tell.
-/

namespace Verif.CameraLife

open Verif (Outcome)
open Verif.HashId (Id)
open Verif.Yaml (Base Kind DistKind Dist GoodIntrinsics GoodCoefficients intrinsicsValid distValid intrinsicsValid_iff
  distValid_iff isApprox norm2 kEpsilon)

/-- A new camera as the arguments say. -/
def Made (id : Id) (p : List ℚ) (w h : Nat) (k : Kind) (d : Dist) (c : Obj) : Prop :=
  c.base.id = id ∧ c.base.topic = "" ∧ c.base.description = "" ∧ c.cls = k ∧ c.type = k ∧ c.width = w ∧ c.height = h ∧
    c.intrinsics = p ∧ c.dist = some d ∧ c.lineDelay = 0 ∧ c.compressed = false ∧ c.mask = none

/-- The distortion for given coefficients. -/
def distOf (dk : DistKind) (q : List ℚ) : Dist := if dk = .nothing then ⟨.nothing, []⟩ else ⟨dk, q⟩

theorem newDist_eq (dk : DistKind) (q : List ℚ) :
    newDist dk q = if distValid dk q then .ok (distOf dk q) else .abort := by
  cases dk <;> simp [newDist, distOf, distValid, nullDist]

theorem made_iff {id gen : Id} {p : List ℚ} {w h : Nat} {k : Kind} {d : Dist} {c : Obj} :
    ({ newBase gen k p w h d with base := { (newBase gen k p w h d).base with id := id } } : Obj) = c ↔
      Made id p w h k d c := by
  obtain ⟨⟨i, t, s⟩, cls, type, cw, ch, ld, co, int, di, m⟩ := c
  simp only [newBase, Made, Obj.mk.injEq, Base.mk.injEq]
  constructor
  · rintro ⟨⟨rfl, rfl, rfl⟩, rfl, rfl, rfl, rfl, rfl, rfl, rfl, rfl, rfl⟩; simp
  · rintro ⟨rfl, rfl, rfl, rfl, rfl, rfl, rfl, rfl, rfl, rfl, rfl, rfl⟩; simp

/-- C121: `createCamera` makes the camera of the arguments if the id is valid, the model is not the one of lidars, and
intrinsics and coefficients are good; otherwise it aborts. -/
theorem create_spec (gen id : Id) (p : List ℚ) (w h : Nat) (q : List ℚ) (k : Kind) (dk : DistKind) :
    (∀ c, createCamera gen id p w h q k dk = .ok c ↔
      (id.isValid = true ∧ k ≠ .lidar ∧ GoodIntrinsics k p ∧ GoodCoefficients dk q) ∧ Made id p w h k (distOf dk q) c) ∧
    (¬ (id.isValid = true ∧ k ≠ .lidar ∧ GoodIntrinsics k p ∧ GoodCoefficients dk q) →
      createCamera gen id p w h q k dk = .abort) := by
  rw [← intrinsicsValid_iff, ← distValid_iff]
  have key : createCamera gen id p w h q k dk =
      if id.isValid = true ∧ k ≠ .lidar ∧ intrinsicsValid k p = true ∧ distValid dk q = true then
        .ok { newBase gen k p w h (distOf dk q) with
          base := { (newBase gen k p w h (distOf dk q)).base with id := id } }
      else .abort := by
    unfold createCamera
    rw [newDist_eq]
    by_cases h1 : id.isValid = true
    · by_cases h2 : distValid dk q = true
      · by_cases h3 : intrinsicsValid k p = true
        · cases k <;> simp [h1, h2, h3, newCamera, setId]
        · cases k <;> simp [h1, h2, h3, newCamera]
      · simp [h1, h2]
    · simp [h1]
  constructor
  · intro c
    rw [key]
    split_ifs with hc
    · simp only [Outcome.ok.injEq, made_iff, hc, true_and, ne_eq, not_false_eq_true]
    · simp only [reduceCtorEq, hc, false_and]
  · intro hc
    rw [key, if_neg hc]

/-- Such arguments. -/
example (id : Id) (hid : id.isValid = true) : id.isValid = true ∧ Kind.unified ≠ .lidar ∧
    GoodIntrinsics .unified [1 / 2, 400, 300, 320, 240] ∧ GoodCoefficients .fisheye [1] := by
  refine ⟨hid, by decide, ⟨_, _, _, _, _, rfl, ?_⟩, 1, rfl, Or.inr ?_⟩ <;> norm_num

/-- C121: the templates make the camera of the arguments if intrinsics and coefficients are good; here the id is the
generated one. -/
theorem createOf_spec (gen : Id) {id : Id} (hid : id.isValid = true) (p : List ℚ) (w h : Nat) (k : Kind) (dk : DistKind)
    (q : List ℚ) :
    (∀ c, createCameraOf gen id p w h k dk q = .ok c ↔
      (GoodIntrinsics k p ∧ GoodCoefficients dk q) ∧ Made id p w h k (distOf dk q) c) ∧
    (∀ c, construct gen p w h k dk q = .ok c ↔
      (GoodIntrinsics k p ∧ GoodCoefficients dk q) ∧ Made gen p w h k (distOf dk q) c) ∧
    (¬ (GoodIntrinsics k p ∧ GoodCoefficients dk q) →
      createCameraOf gen id p w h k dk q = .abort ∧ construct gen p w h k dk q = .abort) := by
  rw [← intrinsicsValid_iff, ← distValid_iff]
  have k1 : createCameraOf gen id p w h k dk q =
      if intrinsicsValid k p = true ∧ distValid dk q = true then
        .ok { newBase gen k p w h (distOf dk q) with
          base := { (newBase gen k p w h (distOf dk q)).base with id := id } }
      else .abort := by
    unfold createCameraOf
    rw [newDist_eq]
    by_cases h2 : distValid dk q = true <;> by_cases h3 : intrinsicsValid k p = true <;>
      simp [h2, h3, newCamera, setId, hid]
  have k2 : construct gen p w h k dk q =
      if intrinsicsValid k p = true ∧ distValid dk q = true then
        .ok { newBase gen k p w h (distOf dk q) with
          base := { (newBase gen k p w h (distOf dk q)).base with id := gen } }
      else .abort := by
    unfold construct
    rw [newDist_eq]
    by_cases h2 : distValid dk q = true <;> by_cases h3 : intrinsicsValid k p = true <;>
      simp [h2, h3, newCamera, newBase]
  rw [k1, k2]
  refine ⟨fun c => ?_, fun c => ?_, fun hc => ?_⟩
  · split_ifs with hc
    · simp only [Outcome.ok.injEq, made_iff, hc, true_and, and_self]
    · simp only [reduceCtorEq, hc, false_and]
  · split_ifs with hc
    · simp only [Outcome.ok.injEq, made_iff, hc, true_and, and_self]
    · simp only [reduceCtorEq, hc, false_and]
  · simp only [if_neg hc, and_self]

/-- C121: such a camera is valid, and it has a distortion exactly if another type than "none" was asked for. -/
theorem create_valid {gen id : Id} {p : List ℚ} {w h : Nat} {q : List ℚ} {k : Kind} {dk : DistKind} {c : Obj}
    (hc : createCamera gen id p w h q k dk = .ok c) :
    isValid c = true ∧ hasDistortion c = .ok (decide (dk ≠ .nothing)) := by
  obtain ⟨⟨hid, _, hp, _⟩, hm⟩ := ((create_spec gen id p w h q k dk).1 c).1 hc
  obtain ⟨m1, _, _, m4, _, _, _, m8, m9, _⟩ := hm
  refine ⟨?_, ?_⟩
  · rw [isValid, m1, m4, m8, hid, (intrinsicsValid_iff k p).2 hp]; rfl
  · rw [hasDistortion, m9]
    unfold distOf
    by_cases hd : dk = .nothing <;> simp [hd]

/-- C121 fails: coefficients that are given together with "no distortion" are accepted and forgotten. -/
theorem create_coefficients_refuted (gen : Id) {id : Id} (hid : id.isValid = true) (q : List ℚ) :
    ∃ c, createCamera gen id [400, 300, 320, 240] 640 480 q .pinhole .nothing = .ok c ∧ c.dist = some ⟨.nothing, []⟩ := by
  have hp : GoodIntrinsics .pinhole [400, 300, 320, 240] := ⟨_, _, _, _, rfl, by norm_num⟩
  refine ⟨_, ((create_spec gen id _ 640 480 q .pinhole .nothing).1 _).2
    ⟨⟨hid, by decide, hp, trivial⟩, (made_iff (gen := gen)).1 rfl⟩, rfl⟩

/-! ## What stays true -/

/-- As many coefficients as the distortion needs. -/
def Shaped (d : Dist) : Prop :=
  match d.kind with
  | .nothing => True
  | .fisheye => d.coeffs.length = 1
  | _ => d.coeffs.length = 4

/-- What is true of a camera at all times. -/
structure Consistent (c : Obj) : Prop where
  type : c.type = c.cls
  id : c.base.id.isValid = true
  count : c.intrinsics.length = parameterCount c.cls
  dist : ∀ d, c.dist = some d → Shaped d
  mask : ∀ m, c.mask = some m → m = (c.height, c.width) ∧ 0 < m.1 ∧ 0 < m.2

/-- Changes with what the program gives: distortions from their constructors, generated ids that are valid. -/
def Legal : Op → Prop
  | .setDistortion (some d) => Shaped d
  | .setRandom id _ _ => id.isValid = true
  | _ => True

theorem good_length {k : Kind} {p : List ℚ} (h : GoodIntrinsics k p) : p.length = parameterCount k := by
  cases k
  · obtain ⟨_, _, _, _, rfl, _⟩ := h; rfl
  · obtain ⟨_, _, _, _, _, rfl, _⟩ := h; rfl
  · obtain ⟨_, _, _, _, rfl, _⟩ := h; rfl

theorem shaped_of {k : DistKind} {q : List ℚ} (h : distValid k q = true) : Shaped ⟨k, q⟩ := by
  have := (distValid_iff k q).1 h
  cases k
  · trivial
  · exact this
  · obtain ⟨w, rfl, _⟩ := this; rfl
  · exact this

theorem testIntrinsics_good (k : Kind) : GoodIntrinsics k (testIntrinsics k) := by
  cases k
  · exact ⟨_, _, _, _, rfl, by norm_num⟩
  · exact ⟨_, _, _, _, _, rfl, by norm_num⟩
  · exact ⟨_, _, _, _, rfl, by norm_num⟩

theorem testCoefficients_valid (dk : DistKind) : distValid dk (testCoefficients dk) = true := by
  cases dk
  · rfl
  · rfl
  · simp only [testCoefficients, distValid, Bool.or_eq_true, Bool.and_eq_true, decide_eq_true_eq]
    right; norm_num
  · rfl

/-- C121: the test cameras are made from these parameters; lidars have no distortion. -/
theorem testCamera_spec (gen : Id) {id : Id} (hid : id.isValid = true) (k : Kind) (dk : DistKind) :
    ∃ c, testCamera gen id k dk = .ok c ∧ isValid c = true ∧
      Made id (testIntrinsics k) (if k = .lidar then 1024 else 640) (if k = .lidar then 64 else 480) k
        (if k = .lidar then ⟨.nothing, []⟩ else distOf dk (testCoefficients dk)) c := by
  have h3 := (intrinsicsValid_iff k _).2 (testIntrinsics_good k)
  refine ⟨_, ?_, ?_, (made_iff (gen := gen)).1 rfl⟩
  · unfold testCamera
    cases k <;> simp [newDist_eq, testCoefficients_valid, newCamera, h3, setId, hid, nullDist, testSize]
  · simp [isValid, newBase, hid, h3]

/-- The intrinsics and sizes of the test cameras, as the comments in the code say. -/
example : testIntrinsics .pinhole = [400, 300, 320, 240] ∧ testIntrinsics .unified = [9 / 10, 400, 300, 320, 240] ∧
    |(testIntrinsics .lidar)[1]! * 180 * 1000000 / 3141593 - 527333333 / 1000000000| < 1 / 1000000 := by
  refine ⟨rfl, rfl, ?_⟩
  norm_num [testIntrinsics, abs_lt]

theorem made_consistent {id : Id} {p : List ℚ} {w h : Nat} {k : Kind} {d : Dist} {c : Obj} (hid : id.isValid = true)
    (hp : GoodIntrinsics k p) (hd : Shaped d) (hm : Made id p w h k d c) : Consistent c := by
  obtain ⟨m1, m2, m3, m4, m5, m6, m7, m8, m9, m10, m11, m12⟩ := hm
  refine ⟨by rw [m4, m5], by rw [m1, hid], by rw [m8, m4, good_length hp], ?_, ?_⟩
  · intro e he; rw [m9] at he; injection he with he; exact he ▸ hd
  · intro m he; rw [m12] at he; cases he

/-- C121: the factories make consistent cameras. -/
theorem created_consistent {gen id : Id} (hg : gen.isValid = true) (hid : id.isValid = true) {p : List ℚ} {w h : Nat}
    {q : List ℚ} {k : Kind} {dk : DistKind} {c : Obj}
    (hc : createCamera gen id p w h q k dk = .ok c ∨ createCameraOf gen id p w h k dk q = .ok c ∨
      construct gen p w h k dk q = .ok c ∨ testCamera gen id k dk = .ok c) : Consistent c := by
  have hd : ∀ {q}, GoodCoefficients dk q → Shaped (distOf dk q) := by
    intro q hq
    unfold distOf
    by_cases hd : dk = .nothing
    · rw [if_pos hd]; trivial
    · rw [if_neg hd]; exact shaped_of ((distValid_iff dk q).2 hq)
  rcases hc with hc | hc | hc | hc
  · obtain ⟨⟨_, _, hp, hq⟩, hm⟩ := ((create_spec gen id p w h q k dk).1 c).1 hc
    exact made_consistent hid hp (hd hq) hm
  · obtain ⟨⟨hp, hq⟩, hm⟩ := ((createOf_spec gen hid p w h k dk q).1 c).1 hc
    exact made_consistent hid hp (hd hq) hm
  · obtain ⟨⟨hp, hq⟩, hm⟩ := ((createOf_spec gen hid p w h k dk q).2.1 c).1 hc
    exact made_consistent hg hp (hd hq) hm
  · obtain ⟨c', hc', _, hm⟩ := testCamera_spec gen hid k dk
    rw [hc] at hc'; injection hc' with hc'; subst hc'
    refine made_consistent hid (testIntrinsics_good k) ?_ hm
    by_cases hk : k = .lidar
    · rw [if_pos hk]; trivial
    · rw [if_neg hk]; exact hd ((distValid_iff dk _).1 (testCoefficients_valid dk))

/-- C121: `setRandom` makes the camera the test camera of its class without distortion; topic, description and the flag
for compressed images stay. -/
theorem setRandom_spec (id gen : Id) {test : Id} (ht : test.isValid = true) (c : Obj) :
    setRandom id gen test c = .ok
      { base := ⟨id, c.base.topic, c.base.description⟩, cls := c.cls, type := c.cls, width := if c.cls = .lidar then 1024 else 640,
        height := if c.cls = .lidar then 64 else 480, lineDelay := 0, compressed := c.compressed, intrinsics := testIntrinsics c.cls,
        dist := some ⟨.nothing, []⟩, mask := none } := by
  obtain ⟨t, h, _, hm⟩ := testCamera_spec gen ht c.cls .nothing
  obtain ⟨m1, m2, m3, m4, m5, m6, m7, m8, m9, m10, m11, m12⟩ := hm
  unfold setRandom
  rw [h]
  have hd : t.dist = some ⟨.nothing, []⟩ := by rw [m9]; simp [distOf]
  simp [m5, m6, m7, m8, hd, m10, m12]

theorem step_consistent {c c' : Obj} (h : Consistent c) {o : Op} (hl : Legal o) (hs : step c o = .ok c') :
    Consistent c' := by
  obtain ⟨ht, hid, hc, hd, hm⟩ := h
  cases o with
  | setId id =>
    simp only [step, setId] at hs
    split_ifs at hs with hi
    injection hs with hs; subst hs
    exact ⟨ht, hi, hc, hd, hm⟩
  | setTopic s => simp only [step, Outcome.ok.injEq] at hs; subst hs; exact ⟨ht, hid, hc, hd, hm⟩
  | setDescription s => simp only [step, Outcome.ok.injEq] at hs; subst hs; exact ⟨ht, hid, hc, hd, hm⟩
  | setLineDelay n => simp only [step, Outcome.ok.injEq] at hs; subst hs; exact ⟨ht, hid, hc, hd, hm⟩
  | setCompressed n => simp only [step, Outcome.ok.injEq] at hs; subst hs; exact ⟨ht, hid, hc, hd, hm⟩
  | setParameters p =>
    simp only [step] at hs
    split_ifs at hs with hp
    injection hs with hs; subst hs
    exact ⟨ht, hid, hp.symm, hd, hm⟩
  | pokeParameter i x =>
    simp only [step] at hs
    split_ifs at hs with hp
    injection hs with hs; subst hs
    exact ⟨ht, hid, by simpa using hc, hd, hm⟩
  | setDistortion d =>
    simp only [step, Outcome.ok.injEq] at hs; subst hs
    refine ⟨ht, hid, hc, ?_, hm⟩
    intro e he
    cases d with
    | none => cases he
    | some d => injection he with he; subst he; exact hl
  | removeDistortion =>
    simp only [step, Outcome.ok.injEq] at hs; subst hs
    refine ⟨ht, hid, hc, ?_, hm⟩
    intro e he; injection he with he; subst he; trivial
  | setDistortionParameters q =>
    simp only [step, setDistortionParameters] at hs
    split at hs
    · rename_i d hd'
      split_ifs at hs with hv
      injection hs with hs; subst hs
      refine ⟨ht, hid, hc, ?_, hm⟩
      intro e he; injection he with he; subst he; exact shaped_of hv
    · cases hs
  | pokeDistortion i x =>
    simp only [step] at hs
    split at hs
    · rename_i d hd'
      split_ifs at hs with hv
      injection hs with hs; subst hs
      refine ⟨ht, hid, hc, ?_, hm⟩
      intro e he; injection he with he; subst he
      have := hd d hd'
      unfold Shaped at this ⊢
      simpa using this
    · cases hs
  | setMask rows cols grey =>
    simp only [step] at hs
    split_ifs at hs with h1 h2 h3 h4
    · injection hs with hs; subst hs
      exact ⟨ht, hid, hc, hd, fun m he => by cases he⟩
    · injection hs with hs; subst hs
      refine ⟨ht, hid, hc, hd, fun m he => ?_⟩
      injection he with he; subst he
      refine ⟨by simp [h1, h2], ?_, ?_⟩ <;> simp only <;> omega
  | clearMask =>
    simp only [step, Outcome.ok.injEq] at hs; subst hs
    exact ⟨ht, hid, hc, hd, fun m he => by cases he⟩
  | setRandom id gen test =>
    simp only [step] at hs
    by_cases hi : test.isValid = true
    · rw [setRandom_spec id gen hi] at hs
      injection hs with hs; subst hs
      refine ⟨rfl, hl, good_length (testIntrinsics_good _), ?_, fun m he => by cases he⟩
      intro e he; injection he with he; subst he; trivial
    · exfalso
      revert hs
      cases hk : c.cls <;> simp [setRandom, testCamera, hk, newDist_eq, newCamera, distValid,
        (intrinsicsValid_iff _ _).2 (testIntrinsics_good _), setId, hi]

/-- C121: whatever is done with a camera, its model, its id, the number of its parameters and of its coefficients, and
the size of its mask stay right. -/
theorem consistent_always {c c' : Obj} (h : Consistent c) : ∀ {os : List Op}, (∀ o ∈ os, Legal o) → run c os = .ok c' →
    Consistent c' := by
  intro os
  induction os generalizing c with
  | nil => intro _ hr; simp only [run, Outcome.ok.injEq] at hr; exact hr ▸ h
  | cons o os ih =>
    intro hl hr
    obtain ⟨d, hd, hr⟩ := Outcome.bind_eq_ok.1 hr
    exact ih (step_consistent h (hl o (by simp)) hd) (fun o ho => hl o (by simp [ho])) hr

/-- A camera and changes. -/
example (id : Id) (hid : id.isValid = true) : ∃ c c', testCamera id id .pinhole .fisheye = .ok c ∧
    run c [.pokeParameter 0 500, .setMask 480 640 true, .pokeDistortion 0 1, .setTopic "left"] = .ok c' ∧
    c'.intrinsics = [500, 300, 320, 240] ∧ c'.mask = some (480, 640) ∧ c'.dist = some ⟨.fisheye, [1]⟩ := by
  obtain ⟨c, hc, _, m1, m2, m3, m4, m5, m6, m7, m8, m9, m10, m11, m12⟩ := testCamera_spec id hid .pinhole .fisheye
  refine ⟨c, ⟨⟨c.base.id, "left", c.base.description⟩, c.cls, c.type, c.width, c.height, c.lineDelay, c.compressed,
    [500, 300, 320, 240], some ⟨.fisheye, [1]⟩, some (480, 640)⟩, hc, ?_, rfl, rfl, rfl⟩
  simp [run, step, m6, m7, m8, m9, testSize, testIntrinsics, distOf, testCoefficients]

/-! ## Validity -/

/-- C121: a camera is valid if and only if its id is and its intrinsics are good. -/
theorem isValid_iff (c : Obj) : isValid c = true ↔ c.base.id.isValid = true ∧ GoodIntrinsics c.cls c.intrinsics := by
  rw [isValid, Bool.and_eq_true, intrinsicsValid_iff]

/-- Changes of the intrinsics other than by `setRandom`. -/
def ChangesIntrinsics : Op → Prop
  | .setParameters _ => True
  | .pokeParameter _ _ => True
  | _ => False

/-- C121: a valid camera stays valid while its intrinsics are not changed. -/
theorem valid_kept {c c' : Obj} (h : isValid c = true) {o : Op} (hl : Legal o) (ho : ¬ ChangesIntrinsics o)
    (hs : step c o = .ok c') : isValid c' = true := by
  rw [isValid_iff] at h ⊢
  obtain ⟨hid, hp⟩ := h
  cases o with
  | setId id =>
    simp only [step, setId] at hs
    split_ifs at hs with hi
    injection hs with hs; subst hs; exact ⟨hi, hp⟩
  | setTopic s => simp only [step, Outcome.ok.injEq] at hs; subst hs; exact ⟨hid, hp⟩
  | setDescription s => simp only [step, Outcome.ok.injEq] at hs; subst hs; exact ⟨hid, hp⟩
  | setLineDelay n => simp only [step, Outcome.ok.injEq] at hs; subst hs; exact ⟨hid, hp⟩
  | setCompressed n => simp only [step, Outcome.ok.injEq] at hs; subst hs; exact ⟨hid, hp⟩
  | setParameters p => exact absurd trivial ho
  | pokeParameter i x => exact absurd trivial ho
  | setDistortion d => simp only [step, Outcome.ok.injEq] at hs; subst hs; exact ⟨hid, hp⟩
  | removeDistortion => simp only [step, Outcome.ok.injEq] at hs; subst hs; exact ⟨hid, hp⟩
  | setDistortionParameters q =>
    simp only [step, setDistortionParameters] at hs
    split at hs
    · split_ifs at hs
      injection hs with hs; subst hs; exact ⟨hid, hp⟩
    · cases hs
  | pokeDistortion i x =>
    simp only [step] at hs
    split at hs
    · split_ifs at hs
      injection hs with hs; subst hs; exact ⟨hid, hp⟩
    · cases hs
  | setMask rows cols grey =>
    simp only [step] at hs
    split_ifs at hs <;> (injection hs with hs; subst hs; exact ⟨hid, hp⟩)
  | clearMask => simp only [step, Outcome.ok.injEq] at hs; subst hs; exact ⟨hid, hp⟩
  | setRandom id gen test =>
    simp only [step] at hs
    by_cases hi : test.isValid = true
    · rw [setRandom_spec id gen hi] at hs
      injection hs with hs; subst hs
      exact ⟨hl, testIntrinsics_good _⟩
    · exfalso
      revert hs
      cases hk : c.cls <;> simp [setRandom, testCamera, hk, newDist_eq, newCamera, distValid,
        (intrinsicsValid_iff _ _).2 (testIntrinsics_good _), setId, hi]

/-- C121: `setParameters` takes vectors of the right length only, and then they are the intrinsics. -/
theorem setParameters_spec (c : Obj) (p : List ℚ) :
    step c (.setParameters p) = if p.length = parameterCount c.cls then .ok { c with intrinsics := p } else .abort := by
  simp only [step, eq_comm]

/-- C121 fails: `setParameters` takes intrinsics that the constructor refuses, and makes a valid camera invalid. -/
theorem setParameters_refuted (id : Id) (hid : id.isValid = true) : ∃ c c', testCamera id id .pinhole .nothing = .ok c ∧
    isValid c = true ∧ step c (.setParameters [-1, 300, 320, 240]) = .ok c' ∧ isValid c' = false := by
  obtain ⟨c, hc, hv, m1, m2, m3, m4, _⟩ := testCamera_spec id hid .pinhole .nothing
  refine ⟨c, { c with intrinsics := [-1, 300, 320, 240] }, hc, hv, ?_, ?_⟩
  · simp [step, m4, parameterCount]
  · simp [isValid, m4, intrinsicsValid]

/-- C121 fails: a lidar from the default constructor has three parameters instead of four: writing the fourth is
undefined. -/
theorem lidar_default_refuted (gen : Id) (x : ℚ) : (defaultCamera gen .lidar).intrinsics.length = 3 ∧
    parameterCount .lidar = 4 ∧ step (defaultCamera gen .lidar) (.pokeParameter 3 x) = .ub := by
  refine ⟨rfl, rfl, ?_⟩
  simp [step, defaultCamera, newBase]

/-- The other default constructors have the right number of parameters, but their cameras are not valid. -/
theorem default_spec (gen : Id) (k : Kind) : isValid (defaultCamera gen k) = false ∧
    (k ≠ .lidar → (defaultCamera gen k).intrinsics.length = parameterCount k) := by
  cases k <;> simp [isValid, defaultCamera, newBase, intrinsicsValid, parameterCount, List.replicate]

/-! ## Copies and comparison -/

/-- C121: a copy is the same as the camera, if there is a distortion object; otherwise copying aborts. -/
theorem clone_spec (c : Obj) : clone c = if c.dist = none then .abort else .ok c := by
  obtain ⟨b, cls, type, w, h, ld, co, int, d, m⟩ := c
  cases d <;> simp [clone]

/-- C121: a camera with a distortion object is equal to itself. -/
theorem isEqual_refl {c : Obj} (hd : c.dist ≠ none) : isEqual c c = .ok true := by
  obtain ⟨d, hd⟩ := Option.ne_none_iff_exists'.1 hd
  have h0 : norm2 (List.zipWith (· - ·) c.intrinsics c.intrinsics) = 0 := by
    unfold norm2
    generalize c.intrinsics = l
    induction l with
    | nil => rfl
    | cons a l ih => simp [ih]
  have hn : 0 ≤ norm2 c.intrinsics := by
    unfold norm2
    generalize c.intrinsics = l
    induction l with
    | nil => simp
    | cons a l ih => simp only [List.map_cons, List.sum_cons]; exact add_nonneg (mul_self_nonneg a) ih
  have ha : isApprox c.intrinsics c.intrinsics = .ok true := by
    unfold isApprox
    rw [if_pos rfl, h0, decide_eq_true]
    rw [min_self]; exact mul_nonneg (sq_nonneg _) hn
  simp [isEqual, Verif.Yaml.baseEqual, HashId.Id.eq, ha, hd]

/-- C121: and to its copies. -/
theorem clone_isEqual {c c' : Obj} (h : clone c = .ok c') : isEqual c c' = .ok true := by
  rw [clone_spec] at h
  split_ifs at h with hd
  injection h with h; subst h
  exact isEqual_refl hd

/-- C121 fails: with the distortion object taken away a camera is still valid, but asking whether it has a distortion
aborts, copying it aborts, and comparing it is undefined; `removeDistortion` repairs it. -/
theorem null_distortion_refuted (id : Id) (hid : id.isValid = true) : ∃ c c', testCamera id id .pinhole .nothing = .ok c ∧
    step c (.setDistortion none) = .ok c' ∧ isValid c' = true ∧ hasDistortion c' = .abort ∧ clone c' = .abort ∧
    isEqual c' c' = .ub ∧ step c' .removeDistortion = .ok c := by
  obtain ⟨c, hc, hv, hm⟩ := testCamera_spec id hid .pinhole .nothing
  have hd : c.dist = some ⟨.nothing, []⟩ := hm.2.2.2.2.2.2.2.2.1
  have h8 := hm.2.2.2.2.2.2.2.1
  refine ⟨c, { c with dist := none }, hc, rfl, hv, rfl, rfl, ?_, ?_⟩
  · simp only [isEqual, Verif.Yaml.baseEqual, HashId.Id.eq, isApprox, h8, testIntrinsics]
    norm_num [norm2]
    intro h; exact absurd h (not_lt.2 (sq_nonneg _))
  · obtain ⟨b, cls, type, w, h, ld, co, int, d, m⟩ := c
    simp only at hd
    simp [step, hd, nullDist]

/-- C121 fails: coefficients can be given to "no distortion", where they have no effect; but then two cameras that
project alike are not equal. -/
theorem null_parameters_refuted (id : Id) (hid : id.isValid = true) (x : ℚ) : ∃ c c',
    testCamera id id .pinhole .nothing = .ok c ∧ step c (.setDistortionParameters [x]) = .ok c' ∧
    hasDistortion c' = .ok false ∧ isEqual c c' = .ok false := by
  obtain ⟨c, hc, hv, hm⟩ := testCamera_spec id hid .pinhole .nothing
  have hd : c.dist = some ⟨.nothing, []⟩ := hm.2.2.2.2.2.2.2.2.1
  have h8 := hm.2.2.2.2.2.2.2.1
  refine ⟨c, { c with dist := some ⟨.nothing, [x]⟩ }, hc, ?_, rfl, ?_⟩
  · simp [step, setDistortionParameters, hd, distValid]
  · simp only [isEqual, Verif.Yaml.baseEqual, HashId.Id.eq, isApprox, h8, testIntrinsics, hd]
    norm_num [norm2]

/-- C121 fails: `setRandom` leaves the flag for compressed images, so that two cameras made random with the same id
are not equal. -/
theorem setRandom_refuted (id : Id) (hid : id.isValid = true) : ∃ a b a' b', testCamera id id .pinhole .nothing = .ok a ∧
    step a (.setCompressed true) = .ok b ∧ setRandom id id id a = .ok a' ∧ setRandom id id id b = .ok b' ∧
    isEqual a' b' = .ok false := by
  obtain ⟨c, hc, hv, hm⟩ := testCamera_spec id hid .pinhole .nothing
  have h11 := hm.2.2.2.2.2.2.2.2.2.2.1
  refine ⟨c, _, _, _, hc, rfl, setRandom_spec id id hid _, setRandom_spec id id hid _, ?_⟩
  simp [isEqual, Verif.Yaml.baseEqual, HashId.Id.eq, isApprox, h11]

end Verif.CameraLife
