import Verif.Yaml.Sensor
import Verif.Yaml.Props
import Verif.HashId.Props

/-!
# Cameras in YAML survive being written and read (C85)
-/

namespace Verif.Yaml

open Verif (Outcome)
open Verif.HashId (Id)

/-! ## Specification -/

/-- A camera as it should be: a valid id, the type of its class, valid parameters, and numbers that fit. -/
structure Cam.Sound (c : Cam) : Prop where
  id : c.base.id.isValid = true
  type : c.type = c.cls
  intrinsics : intrinsicsValid c.cls c.intrinsics = true
  dist : distValid c.dist.kind c.dist.coeffs = true
  nothing : c.dist.kind = .nothing → c.dist.coeffs = []
  width : c.width < 2 ^ 32
  height : c.height < 2 ^ 32
  delay : c.lineDelay < 2 ^ 64

/-- All numbers of a camera survive as text. -/
def Cam.Exact (C : Codec) (c : Cam) : Prop := (∀ x ∈ c.intrinsics, C.Exact x) ∧ ∀ x ∈ c.dist.coeffs, C.Exact x

/-! ## Nodes -/

theorem set_isMap {n : Node} (h : n = .null ∨ n.isMap = true) (k : String) (v : Node) : (n.set k v).isMap = true :=
  (get_set h k v).1

theorem get_set_self {n : Node} (h : n = .null ∨ n.isMap = true) (k : String) (v : Node) :
    (n.set k v).get k = some v := (get_set h k v).2.1

theorem get_set_ne {n : Node} (h : n = .null ∨ n.isMap = true) {k l : String} (v : Node) (hl : k ≠ l) :
    (n.set k v).get l = n.get l := (get_set h k v).2.2 l hl

theorem safeGet_of {α : Type} {n : Node} (hm : n.isMap = true) {k : String} {v : Node} (hg : n.get k = some v)
    {as : Node → Outcome α} {a : α} (ha : as v = .ok a) : safeGet n k as = .ok (some a) := by
  simp only [safeGet, hm, hg, ha, if_true]

theorem safeGet_missing {α : Type} {n : Node} {k : String} (hg : n.get k = none) (as : Node → Outcome α) :
    safeGet n k as = .ok none := by
  simp only [safeGet, hg]
  split <;> rfl

theorem asString_scalar (s : String) : asString (.scalar s) = .ok s := rfl

theorem col_wf (p : List ℚ) : (Mat.col p).Wf := by
  refine ⟨by simp [Mat.col], fun r hr => ?_⟩
  simp only [Mat.col, List.mem_map] at hr
  obtain ⟨x, -, rfl⟩ := hr
  rfl

theorem col_entries (p : List ℚ) : (Mat.col p).entries = p := by
  simp only [Mat.entries, Mat.col]
  induction p with
  | nil => rfl
  | cons x p ih => simpa using ih

/-- A vector that is not empty and whose numbers survive comes back. -/
theorem vector_round_trip (C : Codec) {p : List ℚ} (h0 : p ≠ []) (hl : p.length < 2 ^ 63) (hx : ∀ x ∈ p, C.Exact x) :
    ∃ v, encode C (Mat.col p) = .ok v ∧ asVector C v = .ok p := by
  obtain ⟨v, h1, h2⟩ := matrix_round_trip C Shape.vector (Mat.col p) (col_wf p)
    ⟨by simp [Shape.vector], by simp [Shape.vector, Mat.col]⟩ (List.length_pos_iff.2 h0) (by simp [Mat.col]) hl
    (by simp [Mat.col]) (fun r hr x hxr => by
      simp only [Mat.col, List.mem_map] at hr
      obtain ⟨y, hy, rfl⟩ := hr
      rw [List.mem_singleton.1 hxr]
      exact hx y hy)
  exact ⟨v, h1, by rw [asVector, h2]; simp [col_entries]⟩

theorem intrinsics_length {k : Kind} {p : List ℚ} (h : intrinsicsValid k p = true) : p ≠ [] ∧ p.length ≤ 5 := by
  cases k <;> (unfold intrinsicsValid at h; split at h <;> simp_all)

theorem dist_length {k : DistKind} {p : List ℚ} (hk : k ≠ .nothing) (h : distValid k p = true) :
    p ≠ [] ∧ p.length ≤ 5 := by
  unfold distValid at h
  split at h
  · exact absurd rfl hk
  · have := of_decide_eq_true h
    exact ⟨by rintro rfl; simp at this, by omega⟩
  · have := of_decide_eq_true h
    exact ⟨by rintro rfl; simp at this, by omega⟩
  · simp
  · cases h

/-! ## Writing -/

/-- What stands in a node to which a camera was written. -/
structure Written (C : Codec) (c : Cam) (n0 n : Node) : Prop where
  isMap : n.isMap = true
  id : n.get "id" = some (.scalar (String.ofList c.base.id.hexString))
  topic : n.get "topic" = some (.scalar c.base.topic)
  description : n.get "description" = some (.scalar c.base.description)
  compressed : n.get "compressed" = some (.scalar (C.boolText c.compressed))
  delay : n.get "line-delay-nanoseconds" = some (.scalar (C.natText c.lineDelay))
  height : n.get "image_height" = some (.scalar (C.natText c.height))
  width : n.get "image_width" = some (.scalar (C.natText c.width))
  type : n.get "type" = some (.scalar (kindText c.type))
  intrinsics : ∃ v, n.get "intrinsics" = some v ∧ asVector C v = .ok c.intrinsics
  dist : loadDist C (n.get "distortion") =
    (if c.dist.kind = .nothing then loadDist C (n0.get "distortion") else .ok (some c.dist))

theorem kindOf_text (k : Kind) : kindOf (kindText k) = some k := by cases k <;> rfl

theorem loadDist_written (C : Codec) {d : Dist} (hk : d.kind ≠ .nothing) (hv : distValid d.kind d.coeffs = true)
    {p : Node} (hp : asVector C p = .ok d.coeffs) : ∃ s, distText d.kind = some s ∧
      loadDist C (some ((Node.null.set "type" (.scalar s)).set "parameters" p)) = .ok (some d) := by
  have hn : ∀ s, (Node.null.set "type" (Node.scalar s)).set "parameters" p =
      .map [("type", .scalar s), ("parameters", p)] := by
    intro s
    simp [Node.set, insert]
  obtain ⟨kind, coeffs⟩ := d
  simp only at hk hv hp
  cases kind with
  | nothing => exact absurd rfl hk
  | equidistant =>
    refine ⟨_, rfl, ?_⟩
    rw [hn]
    simp [loadDist, Node.isMap, safeGet, Node.get, find, asString_scalar, hp, hv]
  | fisheye =>
    refine ⟨_, rfl, ?_⟩
    rw [hn]
    simp [loadDist, Node.isMap, safeGet, Node.get, find, asString_scalar, hp, hv]
  | radtan =>
    refine ⟨_, rfl, ?_⟩
    rw [hn]
    simp [loadDist, Node.isMap, safeGet, Node.get, find, asString_scalar, hp, hv]

/-- Writing a sound camera works, and the node then contains all of it. -/
theorem serializeCam_ok (C : Codec) {c : Cam} (h : c.Sound) (hx : c.Exact C) {n0 : Node}
    (h0 : n0 = .null ∨ n0.isMap = true) : ∃ n, serializeCam C c n0 = .ok n ∧ Written C c n0 n := by
  obtain ⟨hi0, hi5⟩ := intrinsics_length h.intrinsics
  obtain ⟨v, hv1, hv2⟩ := vector_round_trip C hi0 (by omega) hx.1
  simp only [serializeCam, saveBase, h.id, if_true, Outcome.bind_ok, saveCam, hv1]
  have m1 : ∀ {n : Node} (k : String) (w : Node), n = .null ∨ n.isMap = true → (n.set k w = .null ∨ (n.set k w).isMap = true) :=
    fun k w hn => Or.inr (set_isMap hn k w)
  generalize e1 : n0.set "id" (.scalar (String.ofList c.base.id.hexString)) = n1
  have k1 : n1 = .null ∨ n1.isMap = true := e1 ▸ m1 _ _ h0
  generalize e2 : n1.set "sensor_type" (.scalar "CAMERA") = n2
  have k2 : n2 = .null ∨ n2.isMap = true := e2 ▸ m1 _ _ k1
  generalize e3 : n2.set "topic" (.scalar c.base.topic) = n3
  have k3 : n3 = .null ∨ n3.isMap = true := e3 ▸ m1 _ _ k2
  generalize e4 : n3.set "description" (.scalar c.base.description) = n4
  have k4 : n4 = .null ∨ n4.isMap = true := e4 ▸ m1 _ _ k3
  generalize e5 : n4.set "compressed" (.scalar (C.boolText c.compressed)) = n5
  have k5 : n5 = .null ∨ n5.isMap = true := e5 ▸ m1 _ _ k4
  generalize e6 : n5.set "line-delay-nanoseconds" (.scalar (C.natText c.lineDelay)) = n6
  have k6 : n6 = .null ∨ n6.isMap = true := e6 ▸ m1 _ _ k5
  generalize e7 : n6.set "image_height" (.scalar (C.natText c.height)) = n7
  have k7 : n7 = .null ∨ n7.isMap = true := e7 ▸ m1 _ _ k6
  generalize e8 : n7.set "image_width" (.scalar (C.natText c.width)) = n8
  have k8 : n8 = .null ∨ n8.isMap = true := e8 ▸ m1 _ _ k7
  generalize e9 : n8.set "type" (.scalar (kindText c.type)) = n9
  have k9 : n9 = .null ∨ n9.isMap = true := e9 ▸ m1 _ _ k8
  generalize e10 : n9.set "intrinsics" v = n10
  have k10 : n10.isMap = true := e10 ▸ set_isMap k9 _ _
  have gets : n10.get "id" = some (.scalar (String.ofList c.base.id.hexString)) ∧
      n10.get "topic" = some (.scalar c.base.topic) ∧
      n10.get "description" = some (.scalar c.base.description) ∧
      n10.get "compressed" = some (.scalar (C.boolText c.compressed)) ∧
      n10.get "line-delay-nanoseconds" = some (.scalar (C.natText c.lineDelay)) ∧
      n10.get "image_height" = some (.scalar (C.natText c.height)) ∧
      n10.get "image_width" = some (.scalar (C.natText c.width)) ∧
      n10.get "type" = some (.scalar (kindText c.type)) ∧ n10.get "intrinsics" = some v ∧
      n10.get "distortion" = n0.get "distortion" := by
    refine ⟨?_, ?_, ?_, ?_, ?_, ?_, ?_, ?_, ?_, ?_⟩ <;>
      (repeat' first
        | (rw [← e10, get_set_self k9])
        | (rw [← e10, get_set_ne k9 _ (by decide)])
        | (rw [← e9, get_set_self k8])
        | (rw [← e9, get_set_ne k8 _ (by decide)])
        | (rw [← e8, get_set_self k7])
        | (rw [← e8, get_set_ne k7 _ (by decide)])
        | (rw [← e7, get_set_self k6])
        | (rw [← e7, get_set_ne k6 _ (by decide)])
        | (rw [← e6, get_set_self k5])
        | (rw [← e6, get_set_ne k5 _ (by decide)])
        | (rw [← e5, get_set_self k4])
        | (rw [← e5, get_set_ne k4 _ (by decide)])
        | (rw [← e4, get_set_self k3])
        | (rw [← e4, get_set_ne k3 _ (by decide)])
        | (rw [← e3, get_set_self k2])
        | (rw [← e3, get_set_ne k2 _ (by decide)])
        | (rw [← e2, get_set_self k1])
        | (rw [← e2, get_set_ne k1 _ (by decide)])
        | (rw [← e1, get_set_self h0])
        | (rw [← e1, get_set_ne h0 _ (by decide)]))
  obtain ⟨g1, g2, g3, g4, g5, g6, g7, g8, g9, g10⟩ := gets
  by_cases hk : c.dist.kind = .nothing
  · refine ⟨n10, by simp [hk, distText], k10, g1, g2, g3, g4, g5, g6, g7, g8, ⟨v, g9, hv2⟩, ?_⟩
    rw [if_pos hk, g10]
  · obtain ⟨hd0, hd5⟩ := dist_length hk h.dist
    obtain ⟨p, hp1, hp2⟩ := vector_round_trip C hd0 (by omega) hx.2
    obtain ⟨s, hs, hread⟩ := loadDist_written C hk h.dist hp2
    have h11 : n10 = .null ∨ n10.isMap = true := Or.inr k10
    refine ⟨n10.set "distortion" ((Node.null.set "type" (Node.scalar s)).set "parameters" p),
      by simp only [hs, hp1, Outcome.bind_ok], set_isMap h11 _ _, ?_, ?_, ?_, ?_, ?_, ?_, ?_, ?_, ⟨v, ?_, hv2⟩, ?_⟩
    · rw [get_set_ne h11 _ (by decide), g1]
    · rw [get_set_ne h11 _ (by decide), g2]
    · rw [get_set_ne h11 _ (by decide), g3]
    · rw [get_set_ne h11 _ (by decide), g4]
    · rw [get_set_ne h11 _ (by decide), g5]
    · rw [get_set_ne h11 _ (by decide), g6]
    · rw [get_set_ne h11 _ (by decide), g7]
    · rw [get_set_ne h11 _ (by decide), g8]
    · rw [get_set_ne h11 _ (by decide), g9]
    · rw [if_neg hk, get_set_self h11, hread]

/-! ## Reading -/

theorem loadBase_written {b b0 : Base} (hid : b.id.isValid = true) {n : Node} (hm : n.isMap = true)
    (h1 : n.get "id" = some (.scalar (String.ofList b.id.hexString))) (h2 : n.get "topic" = some (.scalar b.topic))
    (h3 : n.get "description" = some (.scalar b.description)) (gen : Id) : loadBase gen b0 n = .ok b := by
  have hne : String.ofList b.id.hexString ≠ "" := by
    intro e
    have hl := (HashId.hexString_format b.id).1
    have := congrArg String.length e
    simp [hl] at this
  simp only [loadBase, safeGet_of hm h1 (asString_scalar _), Outcome.bind_ok, if_neg hne, String.toList_ofList,
    HashId.hex_round_trip, if_true, hid, safeGet_of hm h2 (asString_scalar _), safeGet_of hm h3 (asString_scalar _),
    Option.getD_some]

theorem deserialize_written (C : Codec) {c : Cam} (h : c.Sound) {n0 n : Node} (hw : Written C c n0 n)
    (hd : n0.get "distortion" = none) (gen : Id) (c0 : Cam) (hc : c0.cls = c.cls) :
    deserializeCam C gen c0 n = .ok ({ c with mask := c0.mask }, true) := by
  obtain ⟨v, hv1, hv2⟩ := hw.intrinsics
  have hdist : loadDist C (n.get "distortion") = .ok (some c.dist) := by
    rw [hw.dist]
    split
    · rename_i hk
      rw [hd]
      have : c.dist = ⟨.nothing, []⟩ := by
        cases hcd : c.dist with
        | mk kind coeffs =>
          have h1 : kind = .nothing := by simpa [hcd] using hk
          have h2 : coeffs = [] := by simpa [hcd] using h.nothing hk
          rw [h1, h2]
      rw [this]
      rfl
    · rfl
  have hkey : hasKey n "compressed" = true := by simp [hasKey, hw.isMap, hw.compressed]
  have hi := h.intrinsics
  simp only [deserializeCam, hw.isMap, if_true, loadBase_written h.id hw.isMap hw.id hw.topic hw.description gen,
    Outcome.bind_ok, loadCam, hdist,
    safeGet_of hw.isMap hw.width (asScalar_ok.2 ⟨_, rfl, C.nat_law 32 _ h.width⟩),
    safeGet_of hw.isMap hw.height (asScalar_ok.2 ⟨_, rfl, C.nat_law 32 _ h.height⟩), loadType,
    safeGet_of hw.isMap hw.type (asString_scalar _), Option.bind_some, kindOf_text,
    safeGet_of hw.isMap hv1 hv2, hc, hi, loadOptional,
    safeGet_of hw.isMap hw.delay (asScalar_ok.2 ⟨_, rfl, C.nat_law 64 _ h.delay⟩), hkey,
    safeGet_of hw.isMap hw.compressed (asScalar_ok.2 ⟨_, rfl, C.bool_law _⟩), Option.getD_some]

/-! ## C85 -/

/-- C85: a sound camera whose numbers survive as text, written to a node and read into any camera of its class, gives a
camera with the same id, topic, description, type, image size, line delay, kind of images, intrinsics and
distortion. -/
theorem camera_round_trip (C : Codec) {c : Cam} (h : c.Sound) (hx : c.Exact C) (gen : Id) (c0 : Cam)
    (hc : c0.cls = c.cls) :
    ∃ n, serializeCam C c .null = .ok n ∧ deserializeCam C gen c0 n = .ok ({ c with mask := c0.mask }, true) := by
  obtain ⟨n, h1, h2⟩ := serializeCam_ok C h hx (Or.inl rfl)
  exact ⟨n, h1, deserialize_written C h h2 rfl gen c0 hc⟩

/-- C85: `createCamera` gives the camera back, without its mask. -/
theorem factory_round_trip_partial (C : Codec) {c : Cam} (h : c.Sound) (hx : c.Exact C) (gen : Id) :
    ∃ n, serializeCam C c .null = .ok n ∧ createCamera C gen (some n) = .ok (some { c with mask := none }) := by
  obtain ⟨n, h1, h2⟩ := serializeCam_ok C h hx (Or.inl rfl)
  refine ⟨n, h1, ?_⟩
  have := deserialize_written C h h2 rfl gen (fresh c.type) (by rw [h.type]; rfl)
  simp only [createCamera, h2.isMap, if_true, safeGet_of h2.isMap h2.type (asString_scalar _), Outcome.bind_ok,
    Option.bind_some, kindOf_text, this]
  rfl

/-- An id for the examples. -/
def someId : Id := HashId.fromUint64 1 0

/-- A pinhole camera with a fisheye lens and a mask. -/
def demo : Cam :=
  { base := ⟨someId, "/cam0/image_raw", "left"⟩, cls := .pinhole, type := .pinhole, width := 640, height := 480,
    lineDelay := 25, compressed := true, intrinsics := [400, 300, 320, 240], dist := ⟨.fisheye, [9 / 10]⟩, mask := some 7 }

theorem demo_sound : demo.Sound :=
  { id := by decide, type := rfl, intrinsics := by simp [demo, intrinsicsValid], nothing := by simp [demo],
    dist := by norm_num [demo, distValid], width := by simp [demo], height := by simp [demo], delay := by simp [demo] }

example : ∃ n, serializeCam words demo .null = .ok n ∧
    createCamera words Id.invalid (some n) = .ok (some { demo with mask := none }) :=
  factory_round_trip_partial words demo_sound ⟨fun x _ => words_exact x, fun x _ => words_exact x⟩ _

/-- Not all of a camera survives: the mask is lost. -/
theorem mask_lost_refuted : ∃ n, serializeCam words demo .null = .ok n ∧
    ∃ c, createCamera words Id.invalid (some n) = .ok (some c) ∧ c.mask ≠ demo.mask := by
  obtain ⟨n, h1, h2⟩ := factory_round_trip_partial words demo_sound
    ⟨fun x _ => words_exact x, fun x _ => words_exact x⟩ Id.invalid
  exact ⟨n, h1, _, h2, by simp [demo]⟩

/-! ## What is read is sound -/

theorem safeGet_some {α : Type} {n : Node} {k : String} {as : Node → Outcome α} {a : α}
    (h : safeGet n k as = .ok (some a)) : ∃ v, n.get k = some v ∧ as v = .ok a := by
  unfold safeGet at h
  split at h
  · split at h
    · rename_i sub hs
      split at h
      · rename_i v hv
        injection h with h
        injection h with h
        exact ⟨sub, hs, by rw [hv, h]⟩
      all_goals simp at h
    · simp at h
  · simp at h

theorem loadBase_valid {gen : Id} {b0 b : Base} {n : Node} (h : loadBase gen b0 n = .ok b) : b.id.isValid = true := by
  obtain ⟨o, -, h⟩ := Outcome.bind_eq_ok.1 h
  obtain ⟨id, -, h⟩ := Outcome.bind_eq_ok.1 h
  split at h
  · rename_i hv
    obtain ⟨t, -, h⟩ := Outcome.bind_eq_ok.1 h
    obtain ⟨d, -, h⟩ := Outcome.bind_eq_ok.1 h
    injection h with h
    rw [← h]
    exact hv
  · cases h

theorem loadDist_valid {C : Codec} {o : Option Node} {d : Dist} (h : loadDist C o = .ok (some d)) :
    distValid d.kind d.coeffs = true ∧ (d.kind = .nothing → d.coeffs = []) := by
  have key : ∀ {k : DistKind} {p : List ℚ}, k ≠ .nothing →
      (Outcome.ok (if distValid k p = true then some (⟨k, p⟩ : Dist) else none)) = .ok (some d) →
      distValid d.kind d.coeffs = true ∧ (d.kind = .nothing → d.coeffs = []) := by
    intro k p hk e
    split at e
    · rename_i hv
      simp only [Outcome.ok.injEq, Option.some.injEq] at e
      subst e
      exact ⟨hv, fun e => absurd e hk⟩
    · simp at e
  have none' : Outcome.ok (some (⟨.nothing, []⟩ : Dist)) = .ok (some d) →
      distValid d.kind d.coeffs = true ∧ (d.kind = .nothing → d.coeffs = []) := by
    intro e
    simp only [Outcome.ok.injEq, Option.some.injEq] at e
    subst e
    exact ⟨rfl, fun _ => rfl⟩
  unfold loadDist at h
  split at h
  · exact none' h
  · exact none' h
  · split at h
    · obtain ⟨o1, -, h⟩ := Outcome.bind_eq_ok.1 h
      cases o1 with
      | none => simp at h
      | some type =>
        obtain ⟨o2, -, h⟩ := Outcome.bind_eq_ok.1 h
        cases o2 with
        | none => simp at h
        | some p =>
          simp only at h
          split at h
          · exact none' h
          · split at h
            · exact key (by decide) h
            · split at h
              · exact key (by decide) h
              · split at h
                · exact key (by decide) h
                · simp at h
    · simp at h

/-- What a successful reading of a camera guarantees: the class and the mask are those of before, the type is the one
named in the node, and everything else is sound. -/
theorem deserialize_sound {C : Codec} {gen : Id} {c0 c : Cam} {n : Node}
    (h : deserializeCam C gen c0 n = .ok (c, true)) :
    c.cls = c0.cls ∧ c.mask = c0.mask ∧ (∃ s, n.get "type" = some (.scalar s) ∧ kindOf s = some c.type) ∧
      c.base.id.isValid = true ∧ intrinsicsValid c.cls c.intrinsics = true ∧
      distValid c.dist.kind c.dist.coeffs = true ∧ (c.dist.kind = .nothing → c.dist.coeffs = []) ∧
      c.width < 2 ^ 32 ∧ c.height < 2 ^ 32 ∧ c.lineDelay < 2 ^ 64 := by
  unfold deserializeCam at h
  split at h
  case isFalse => simp at h
  rename_i hm
  obtain ⟨b, hb, h⟩ := Outcome.bind_eq_ok.1 h
  have hid := loadBase_valid hb
  simp only [loadCam, hm, if_true] at h
  obtain ⟨o, hd, h⟩ := Outcome.bind_eq_ok.1 h
  cases o with
  | none => simp at h
  | some d =>
    obtain ⟨hd1, hd2⟩ := loadDist_valid hd
    obtain ⟨o, hw, h⟩ := Outcome.bind_eq_ok.1 h
    cases o with
    | none => simp at h
    | some w =>
      obtain ⟨o, hh, h⟩ := Outcome.bind_eq_ok.1 h
      cases o with
      | none => simp at h
      | some ht =>
        have range : ∀ {b : Nat} {k : String} {v : Nat}, safeGet n k (asScalar (C.natRead b)) = .ok (some v) → v < 2 ^ b := by
          intro b k v e
          obtain ⟨x, -, hx⟩ := safeGet_some e
          obtain ⟨s, -, hs⟩ := asScalar_ok.1 hx
          exact C.nat_range b s v hs
        simp only [loadType] at h
        obtain ⟨o, ht1, h⟩ := Outcome.bind_eq_ok.1 h
        split at h
        · simp at h
        · rename_i k hk
          obtain ⟨s, rfl, hs⟩ := Option.bind_eq_some_iff.1 hk
          obtain ⟨x, hx1, hx2⟩ := safeGet_some ht1
          obtain ⟨s', rfl, hs'⟩ := asScalar_ok.1 hx2
          injection hs' with hs'
          subst hs'
          obtain ⟨o, hi, h⟩ := Outcome.bind_eq_ok.1 h
          cases o with
          | none => simp at h
          | some p =>
            simp only at h
            split at h
            · rename_i hv
              simp only [loadOptional] at h
              obtain ⟨o, hdelay, h⟩ := Outcome.bind_eq_ok.1 h
              have hdl : o.getD 0 < 2 ^ 64 := by
                cases o with
                | none => decide
                | some v => exact range hdelay
              split at h
              · obtain ⟨o2, -, h⟩ := Outcome.bind_eq_ok.1 h
                simp only [Outcome.ok.injEq, Prod.mk.injEq, and_true] at h
                subst h
                exact ⟨rfl, rfl, ⟨s', hx1, hs⟩, hid, hv, hd1, hd2, range hw, range hh, hdl⟩
              · simp only [Outcome.ok.injEq, Prod.mk.injEq, and_true] at h
                subst h
                exact ⟨rfl, rfl, ⟨s', hx1, hs⟩, hid, hv, hd1, hd2, range hw, range hh, hdl⟩
            · simp at h

/-- C85: whatever the node contains, a camera that `createCamera` returns is sound and has no mask. -/
theorem created_sound {C : Codec} {gen : Id} {o : Option Node} {c : Cam} (h : createCamera C gen o = .ok (some c)) :
    c.Sound ∧ c.mask = none := by
  cases o with
  | none => simp [createCamera] at h
  | some n =>
    simp only [createCamera] at h
    split at h
    · obtain ⟨o, ht, h⟩ := Outcome.bind_eq_ok.1 h
      split at h
      · simp at h
      · rename_i k hk
        obtain ⟨x, hx, h⟩ := Outcome.bind_eq_ok.1 h
        obtain ⟨c', b⟩ := x
        cases b with
        | false => simp at h
        | true =>
          simp only [if_true, Outcome.ok.injEq, Option.some.injEq] at h
          subst h
          obtain ⟨h1, h2, ⟨s, hs1, hs2⟩, h4, h5, h6, h7, h8, h9, h10⟩ := deserialize_sound hx
          obtain ⟨s', rfl, hs'⟩ := Option.bind_eq_some_iff.1 hk
          obtain ⟨v, hv1, hv2⟩ := safeGet_some ht
          obtain ⟨s'', rfl, e⟩ := asScalar_ok.1 hv2
          injection e with e
          subst e
          rw [hs1] at hv1
          injection hv1 with hv1
          injection hv1 with hv1
          rw [hv1, hs'] at hs2
          injection hs2 with hs2
          exact ⟨⟨h4, by rw [← hs2, h1]; rfl, h5, h6, h7, h8, h9, h10⟩, h2⟩
    · simp at h

/-- The node of a camera with the given entries on top of those of a camera without distortion. -/
def camNode (C : Codec) (type : String) (p : List ℚ) : Node :=
  .map [("id", .scalar (String.ofList someId.hexString)), ("type", .scalar type), ("image_width", .scalar (C.natText 4)),
    ("image_height", .scalar (C.natText 3)), ("intrinsics", nodeOf C p.length 1 (p.map fun x => .scalar (C.numText x)))]

theorem asVector_nodeOf (C : Codec) {p : List ℚ} (h0 : p ≠ []) (hl : p.length < 2 ^ 63) (hx : ∀ x ∈ p, C.Exact x) :
    asVector C (nodeOf C p.length 1 (p.map fun x => .scalar (C.numText x))) = .ok p := by
  obtain ⟨v, h1, h2⟩ := vector_round_trip C h0 hl hx
  rw [← h2]
  have h3 : encode C (Mat.col p) = .ok (nodeOf C p.length 1 (p.map fun x => .scalar (C.numText x))) := by
    have : 0 < p.length := List.length_pos_iff.2 h0
    simp [encode, Mat.col, this, rowNodes, nodeOf, Node.set, insert, Function.comp_def]
  rw [h3] at h1
  injection h1 with h1
  rw [h1]

/-- A camera after its id, distortion, image size, type and intrinsics were replaced. -/
def taken (c : Cam) (k : Kind) (p : List ℚ) : Cam :=
  { c with
    base := ⟨someId, c.base.topic, c.base.description⟩
    dist := ⟨.nothing, []⟩
    width := 4
    height := 3
    type := k
    intrinsics := p }

theorem load_camNode (C : Codec) {type : String} {k : Kind} (hk : kindOf type = some k) {p : List ℚ} (h0 : p ≠ [])
    (hl : p.length < 2 ^ 63) (hx : ∀ x ∈ p, C.Exact x) (gen : Id) (c : Cam) :
    deserializeCam C gen c (camNode C type p) =
      .ok (if intrinsicsValid c.cls p then ({ taken c k p with lineDelay := 0 }, true) else (taken c k p, false)) := by
  have hm : (camNode C type p).isMap = true := rfl
  have g1 : (camNode C type p).get "id" = some (.scalar (String.ofList someId.hexString)) := by
    simp [camNode, Node.get, find]
  have g2 : (camNode C type p).get "topic" = none := by simp [camNode, Node.get, find]
  have g3 : (camNode C type p).get "description" = none := by simp [camNode, Node.get, find]
  have g4 : (camNode C type p).get "distortion" = none := by simp [camNode, Node.get, find]
  have g5 : (camNode C type p).get "image_width" = some (.scalar (C.natText 4)) := by simp [camNode, Node.get, find]
  have g6 : (camNode C type p).get "image_height" = some (.scalar (C.natText 3)) := by simp [camNode, Node.get, find]
  have g7 : (camNode C type p).get "type" = some (.scalar type) := by simp [camNode, Node.get, find]
  have g8 : (camNode C type p).get "intrinsics" = some (nodeOf C p.length 1 (p.map fun x => .scalar (C.numText x))) := by
    simp [camNode, Node.get, find]
  have g9 : (camNode C type p).get "line-delay-nanoseconds" = none := by simp [camNode, Node.get, find]
  have g10 : (camNode C type p).get "compressed" = none := by simp [camNode, Node.get, find]
  have hne : String.ofList someId.hexString ≠ "" := by
    intro e
    have hl := (HashId.hexString_format someId).1
    have := congrArg String.length e
    simp [hl] at this
  have hid : someId.isValid = true := by decide
  have hkey : hasKey (camNode C type p) "compressed" = false := by simp [hasKey, g10]
  have hb : loadBase gen c.base (camNode C type p) = .ok ⟨someId, c.base.topic, c.base.description⟩ := by
    simp only [loadBase, safeGet_of hm g1 (asString_scalar _), Outcome.bind_ok, if_neg hne, String.toList_ofList,
      HashId.hex_round_trip, if_true, hid, safeGet_missing g2, safeGet_missing g3, Option.getD_none]
  simp only [deserializeCam, hm, if_true, hb, Outcome.bind_ok, loadCam, g4, loadDist,
    safeGet_of hm g5 (asScalar_ok.2 ⟨_, rfl, C.nat_law 32 4 (by decide)⟩),
    safeGet_of hm g6 (asScalar_ok.2 ⟨_, rfl, C.nat_law 32 3 (by decide)⟩), loadType,
    safeGet_of hm g7 (asString_scalar _), Option.bind_some, hk, safeGet_of hm g8 (asVector_nodeOf C h0 hl hx),
    loadOptional, safeGet_missing g9, hkey, Option.getD_none]
  split <;> simp [taken]

theorem create_camNode (C : Codec) {type : String} {k : Kind} (hk : kindOf type = some k) {p : List ℚ} (h0 : p ≠ [])
    (hl : p.length < 2 ^ 63) (hx : ∀ x ∈ p, C.Exact x) (gen : Id) (hv : intrinsicsValid k p = true) :
    createCamera C gen (some (camNode C type p)) = .ok (some { taken (fresh k) k p with lineDelay := 0 }) := by
  have hm : (camNode C type p).isMap = true := rfl
  have g7 : (camNode C type p).get "type" = some (.scalar type) := by simp [camNode, Node.get, find]
  have h := load_camNode C hk h0 hl hx gen (fresh k)
  have hv' : intrinsicsValid (fresh k).cls p = true := hv
  rw [if_pos hv'] at h
  simp only [createCamera, hm, if_true, safeGet_of hm g7 (asString_scalar _), Outcome.bind_ok, Option.bind_some, hk, h]

/-- The factory makes a pinhole camera from a node with the least entries. -/
example : ∃ c, createCamera words Id.invalid (some (camNode words "pinhole" [4, 3, 2, 1])) = .ok (some c) ∧ c.Sound := by
  have h := create_camNode words (type := "pinhole") (k := .pinhole) (kindOf_text .pinhole) (p := [4, 3, 2, 1])
    (by simp) (by simp) (fun x _ => words_exact x) Id.invalid (by simp [intrinsicsValid])
  exact ⟨_, h, (created_sound h).1⟩

/-- A camera does take over what was written by a camera of another model: a pinhole camera that reads the node of a
lidar reports success, and is then a pinhole camera of the type lidar. -/
theorem other_model_refuted : ∃ c, deserializeCam words Id.invalid demo (camNode words "camera-3d-lidar" [1, 1, 1, 1]) =
    .ok (c, true) ∧ c.cls = .pinhole ∧ c.type = .lidar := by
  have h := load_camNode words (type := "camera-3d-lidar") (k := .lidar) rfl (p := [1, 1, 1, 1]) (by simp) (by simp)
    (fun x _ => words_exact x) Id.invalid demo
  have hv : intrinsicsValid demo.cls [1, 1, 1, 1] = true := by simp [demo, intrinsicsValid]
  rw [if_pos hv] at h
  exact ⟨_, h, rfl, rfl⟩

/-- A reading that fails does not leave the camera alone: id, image size, type and intrinsics are replaced, and the
camera, valid before, is not valid any more. -/
theorem failed_load_refuted : ∃ c, deserializeCam words Id.invalid demo (camNode words "unified-projection" [1, 1, 1, 1, 1]) =
    .ok (c, false) ∧ c.width ≠ demo.width ∧ c.type ≠ demo.type ∧ intrinsicsValid c.cls c.intrinsics = false := by
  have h := load_camNode words (type := "unified-projection") (k := .unified) rfl (p := [1, 1, 1, 1, 1]) (by simp) (by simp)
    (fun x _ => words_exact x) Id.invalid demo
  have hv : ¬ intrinsicsValid demo.cls [1, 1, 1, 1, 1] = true := by simp [demo, intrinsicsValid]
  rw [if_neg hv] at h
  exact ⟨_, h, by simp [demo, taken], by simp [demo, taken], by simp [demo, taken, intrinsicsValid]⟩

/-- What the node does not say is not set to its default: the camera keeps whether its images are compressed, and its
topic. -/
theorem missing_default_refuted : ∃ c, deserializeCam words Id.invalid demo (camNode words "pinhole" [4, 3, 2, 1]) =
    .ok (c, true) ∧ c.compressed = true ∧ c.base.topic = "/cam0/image_raw" ∧ c.lineDelay = 0 := by
  have h := load_camNode words (type := "pinhole") (k := .pinhole) rfl (p := [4, 3, 2, 1]) (by simp) (by simp)
    (fun x _ => words_exact x) Id.invalid demo
  have hv : intrinsicsValid demo.cls [4, 3, 2, 1] = true := by simp [demo, intrinsicsValid]
  rw [if_pos hv] at h
  exact ⟨_, h, rfl, rfl, rfl⟩

/-- A malformed id is not refused, it ends the program. -/
theorem malformed_id_refuted (C : Codec) (gen : Id) (c : Cam) :
    deserializeCam C gen c (.map [("id", .scalar "12ab")]) = .abort := by
  have hm : (Node.map [("id", .scalar "12ab")]).isMap = true := rfl
  have g : (Node.map [("id", .scalar "12ab")]).get "id" = some (.scalar "12ab") := by simp [Node.get, find]
  have hid := HashId.wrong_length_refused c.base.id "12ab".toList (by decide)
  simp only [deserializeCam, hm, if_true, loadBase, safeGet_of hm g (asString_scalar _), Outcome.bind_ok, hid]
  rfl

/-- Writing a camera without distortion to a node that is in use leaves the distortion that stands there. -/
theorem stale_distortion_refuted (C : Codec) {c : Cam} (h : c.Sound) (hx : c.Exact C) (hk : c.dist.kind = .nothing)
    {n0 : Node} (h0 : n0.isMap = true) {d : Dist} (hd : loadDist C (n0.get "distortion") = .ok (some d)) :
    ∃ n, serializeCam C c n0 = .ok n ∧ loadDist C (n.get "distortion") = .ok (some d) := by
  obtain ⟨n, h1, h2⟩ := serializeCam_ok C h hx (Or.inr h0)
  exact ⟨n, h1, by rw [h2.dist, if_pos hk, hd]⟩

/-- A camera without distortion. -/
def plain : Cam := { demo with dist := ⟨.nothing, []⟩, mask := none }

theorem plain_sound : plain.Sound :=
  { id := by decide, type := rfl, intrinsics := by simp [plain, demo, intrinsicsValid], nothing := by simp [plain],
    dist := rfl, width := by simp [plain, demo], height := by simp [plain, demo], delay := by simp [plain, demo] }

/-- Written to the node of `demo`, a camera without distortion comes back as a camera with a fisheye lens. -/
example : ∃ n0 n, serializeCam words demo .null = .ok n0 ∧ serializeCam words plain n0 = .ok n ∧
    loadDist words (n.get "distortion") = .ok (some ⟨.fisheye, [9 / 10]⟩) := by
  obtain ⟨n0, h1, h2⟩ := serializeCam_ok words demo_sound ⟨fun x _ => words_exact x, fun x _ => words_exact x⟩ (Or.inl rfl)
  obtain ⟨n, h3, h4⟩ := stale_distortion_refuted words plain_sound ⟨fun x _ => words_exact x, fun x _ => words_exact x⟩
    rfl h2.isMap (d := demo.dist) (by rw [h2.dist, if_neg (by simp [demo])])
  exact ⟨n0, n, h1, h3, h4⟩

/-- C85: without an entry `id` the camera gets the generated id. -/
theorem missing_id {gen : Id} {b0 b : Base} {n : Node} (hn : n.get "id" = none) (h : loadBase gen b0 n = .ok b) :
    b.id = gen := by
  simp only [loadBase, safeGet_missing hn, Outcome.bind_ok] at h
  split at h
  · obtain ⟨t, -, h⟩ := Outcome.bind_eq_ok.1 h
    obtain ⟨d, -, h⟩ := Outcome.bind_eq_ok.1 h
    injection h with h
    rw [← h]
  · cases h

example : loadBase someId ⟨Id.invalid, "", ""⟩ (.map []) = .ok ⟨someId, "", ""⟩ := by
  simp [loadBase, safeGet, Node.isMap, Node.get, find, someId]
  decide

/-! ## What is valid, written and taken as default -/

/-- The intrinsics that a camera of a model may have. -/
def GoodIntrinsics : Kind → List ℚ → Prop
  | .pinhole, p => ∃ fu fv cu cv, p = [fu, fv, cu, cv] ∧ 0 < fu ∧ 0 < fv ∧ 0 < cu ∧ 0 < cv
  | .unified, p => ∃ xi fu fv cu cv, p = [xi, fu, fv, cu, cv] ∧ 0 ≤ xi ∧ 0 < fu ∧ 0 < fv ∧ 0 < cu ∧ 0 < cv
  | .lidar, p => ∃ h v h0 v0, p = [h, v, h0, v0] ∧ 0 < h ∧ 0 < v

/-- C85: the test of the intrinsics accepts exactly these. -/
theorem intrinsicsValid_iff (k : Kind) (p : List ℚ) : intrinsicsValid k p = true ↔ GoodIntrinsics k p := by
  constructor
  · intro h
    unfold intrinsicsValid at h
    split at h
    · simp only [Bool.and_eq_true, decide_eq_true_eq] at h
      exact ⟨_, _, _, _, rfl, h.1.1.1, h.1.1.2, h.1.2, h.2⟩
    · simp only [Bool.and_eq_true, decide_eq_true_eq] at h
      exact ⟨_, _, _, _, _, rfl, h.1.1.1.1, h.1.1.1.2, h.1.1.2, h.1.2, h.2⟩
    · simp only [Bool.and_eq_true, decide_eq_true_eq] at h
      exact ⟨_, _, _, _, rfl, h.1, h.2⟩
    · cases h
  · cases k
    · rintro ⟨fu, fv, cu, cv, rfl, h1, h2, h3, h4⟩
      simp [intrinsicsValid, h1, h2, h3, h4]
    · rintro ⟨xi, fu, fv, cu, cv, rfl, h0, h1, h2, h3, h4⟩
      simp [intrinsicsValid, h0, h1, h2, h3, h4]
    · rintro ⟨h, v, h0, v0, rfl, h1, h2⟩
      simp [intrinsicsValid, h1, h2]

/-- The coefficients that a distortion may have. -/
def GoodCoefficients : DistKind → List ℚ → Prop
  | .nothing, _ => True
  | .equidistant, p => p.length = 4
  | .radtan, p => p.length = 4
  | .fisheye, p => ∃ w, p = [w] ∧ (|w| < 1 / 10 ^ 16 ∨ (1 / 2 ≤ w ∧ w ≤ 3 / 2))

/-- C85: the test of the coefficients accepts exactly these. -/
theorem distValid_iff (k : DistKind) (p : List ℚ) : distValid k p = true ↔ GoodCoefficients k p := by
  cases k with
  | nothing => simp [distValid, GoodCoefficients]
  | equidistant => simp [distValid, GoodCoefficients]
  | radtan => simp [distValid, GoodCoefficients]
  | fisheye =>
    match p with
    | [] => simp [distValid, GoodCoefficients]
    | [w] => norm_num [distValid, GoodCoefficients]
    | _ :: _ :: _ => simp [distValid, GoodCoefficients]

/-- C85: a camera that is read has good intrinsics and coefficients. -/
theorem deserialize_good {C : Codec} {gen : Id} {c0 c : Cam} {n : Node}
    (h : deserializeCam C gen c0 n = .ok (c, true)) :
    GoodIntrinsics c0.cls c.intrinsics ∧ GoodCoefficients c.dist.kind c.dist.coeffs := by
  obtain ⟨h1, -, -, -, h2, h3, -⟩ := deserialize_sound h
  rw [h1] at h2
  exact ⟨(intrinsicsValid_iff _ _).1 h2, (distValid_iff _ _).1 h3⟩

/-- C85: a camera without a valid id is not written. -/
theorem serialize_invalid (C : Codec) {c : Cam} (h : c.base.id.isValid = false) (n : Node) :
    serializeCam C c n = .abort := by
  simp [serializeCam, saveBase, h]

example (C : Codec) : serializeCam C (fresh .pinhole) .null = .abort := serialize_invalid C (by decide) _

/-- C85: without the entries, a created camera has a global shutter and images that are not compressed. -/
theorem created_defaults {C : Codec} {gen : Id} {n : Node} {c : Cam} (h : createCamera C gen (some n) = .ok (some c)) :
    (n.get "compressed" = none → c.compressed = false) ∧ (n.get "line-delay-nanoseconds" = none → c.lineDelay = 0) := by
  simp only [createCamera] at h
  split at h
  case isFalse => simp at h
  rename_i hm
  obtain ⟨o, ht, h⟩ := Outcome.bind_eq_ok.1 h
  split at h
  · simp at h
  rename_i k hk
  obtain ⟨⟨c', b⟩, hx, h⟩ := Outcome.bind_eq_ok.1 h
  cases b with
  | false => simp at h
  | true =>
    simp only [if_true, Outcome.ok.injEq, Option.some.injEq] at h
    subst h
    unfold deserializeCam at hx
    rw [if_pos hm] at hx
    obtain ⟨b, hb, hx⟩ := Outcome.bind_eq_ok.1 hx
    simp only [loadCam, hm, if_true] at hx
    obtain ⟨o1, -, hx⟩ := Outcome.bind_eq_ok.1 hx
    cases o1 with
    | none => simp at hx
    | some d =>
      obtain ⟨o2, -, hx⟩ := Outcome.bind_eq_ok.1 hx
      cases o2 with
      | none => simp at hx
      | some w =>
        obtain ⟨o3, -, hx⟩ := Outcome.bind_eq_ok.1 hx
        cases o3 with
        | none => simp at hx
        | some hgt =>
          simp only [loadType] at hx
          obtain ⟨o4, -, hx⟩ := Outcome.bind_eq_ok.1 hx
          split at hx
          · simp at hx
          obtain ⟨o5, -, hx⟩ := Outcome.bind_eq_ok.1 hx
          cases o5 with
          | none => simp at hx
          | some p =>
            simp only at hx
            split at hx
            case isFalse => simp at hx
            simp only [loadOptional] at hx
            obtain ⟨delay, hdl, hx⟩ := Outcome.bind_eq_ok.1 hx
            constructor
            · intro hc
              have hk : hasKey n "compressed" = false := by simp [hasKey, hc]
              simp only [hk] at hx
              simp only [Bool.false_eq_true, if_false, Outcome.ok.injEq, Prod.mk.injEq, and_true] at hx
              subst hx
              rfl
            · intro hc
              rw [safeGet_missing hc] at hdl
              injection hdl with hdl
              subst hdl
              split at hx
              · obtain ⟨cc, -, hx⟩ := Outcome.bind_eq_ok.1 hx
                simp only [Outcome.ok.injEq, Prod.mk.injEq, and_true] at hx
                subst hx
                rfl
              · simp only [Outcome.ok.injEq, Prod.mk.injEq, and_true] at hx
                subst hx
                rfl

end Verif.Yaml
