import Verif.Yaml.SensorProps
import Mathlib.Tactic.Linarith
import Mathlib.Tactic.NormNum
import Mathlib.Tactic.Ring

/-!
# Rigs in YAML survive being written and read (C86), and what equality of sensors means (C87)
-/

namespace Verif.Yaml

open Verif (Outcome)
open Verif.HashId (Id)

variable {P : Type}

/-! ## Specification -/

/-- The laws of exact arithmetic: the matrix of a transformation has four rows and columns, gives the transformation
back, and inverting twice changes nothing. -/
structure Geometry.Lawful (G : Geometry P) : Prop where
  square : ∀ T, (G.toMat T).Wf ∧ (G.toMat T).rows = 4 ∧ (G.toMat T).cols = 4
  ofMat : ∀ T, G.ofMat (G.toMat T) = .ok T
  inv : ∀ T, G.inv (G.inv T) = T

/-- A rig as it should be: a valid id, at least one camera, all of them sound, as many transformations, a map from the
ids to the indices as `initInternal` makes it, and a covariance of six rows and columns. -/
structure Rig.Sound (r : Rig P) : Prop where
  id : r.base.id.isValid = true
  nonempty : r.cameras ≠ []
  cameras : ∀ c ∈ r.cameras, c.Sound
  T : r.T.length = r.cameras.length
  map : initMap r.cameras 0 [] = .ok r.map
  cov : r.cov.Wf ∧ r.cov.rows = 6 ∧ r.cov.cols = 6

/-- All numbers of a rig survive as text. -/
structure Rig.Exact (C : Codec) (G : Geometry P) (r : Rig P) : Prop where
  cameras : ∀ c ∈ r.cameras, c.Exact C
  T : ∀ T ∈ r.T, ∀ l ∈ (G.toMat (G.inv T)).data, ∀ x ∈ l, C.Exact x
  cov : ∀ l ∈ r.cov.data, ∀ x ∈ l, C.Exact x

/-- A camera without its mask. -/
def bare (c : Cam) : Cam := { c with mask := none }

/-! ## Writing and reading the cameras of a rig -/

theorem saveEntry_ok (C : Codec) {G : Geometry P} (hG : G.Lawful) {c : Cam} (h : c.Sound) (hx : c.Exact C) {T : P}
    (hT : ∀ l ∈ (G.toMat (G.inv T)).data, ∀ x ∈ l, C.Exact x) (gen : Id) :
    ∃ n, saveEntry C G c T = .ok n ∧ n.isMap = true ∧
      createCamera C gen (n.get "camera") = .ok (some (bare c)) ∧ loadT C G n = .ok (some T) := by
  obtain ⟨a, ha1, ha2⟩ := factory_round_trip_partial C h hx gen
  obtain ⟨w, hr, hc⟩ := hG.square (G.inv T)
  obtain ⟨b, hb1, hb2⟩ := matrix_round_trip C (Shape.square 4) _ w
    ⟨by simp [Shape.square, hr], by simp [Shape.square, hc]⟩ (by omega) (by omega) (by omega) (by omega) hT
  have hn : (Node.null.set "camera" a).set "T_B_C" b = .map [("camera", a), ("T_B_C", b)] := by simp [Node.set, insert]
  refine ⟨.map [("camera", a), ("T_B_C", b)], by simp only [saveEntry, ha1, hb1, Outcome.bind_ok, hn], rfl, ?_, ?_⟩
  · have : (Node.map [("camera", a), ("T_B_C", b)]).get "camera" = some a := by simp [Node.get, find]
    rw [this, ha2]
    rfl
  · have g : (Node.map [("camera", a), ("T_B_C", b)]).get "T_B_C" = some b := by simp [Node.get, find]
    have hk : hasKey (Node.map [("camera", a), ("T_B_C", b)]) "T_B_C" = true := by simp [hasKey, g, Node.isMap]
    simp only [loadT, hk, if_true, safeGet_of (n := Node.map [("camera", a), ("T_B_C", b)]) rfl g hb2, Outcome.bind_ok,
      hG.ofMat, hG.inv]

theorem saveEntries_ok (C : Codec) {G : Geometry P} (hG : G.Lawful) (gen : Nat → Id) :
    ∀ {cs : List Cam} {Ts : List P}, (∀ c ∈ cs, c.Sound) → (∀ c ∈ cs, c.Exact C) →
      (∀ T ∈ Ts, ∀ l ∈ (G.toMat (G.inv T)).data, ∀ x ∈ l, C.Exact x) → Ts.length = cs.length →
      ∃ ns, saveEntries C G cs Ts = .ok ns ∧ ns.length = cs.length ∧
        ∀ (k : Nat) (r : Rig P), loadCams C G gen ns k r =
          .ok ({ r with cameras := r.cameras ++ cs.map bare, T := r.T ++ Ts }, true)
  | [], Ts, _, _, _, hl => by
    have : Ts = [] := List.length_eq_zero_iff.1 (by simpa using hl)
    subst this
    exact ⟨[], rfl, rfl, fun k r => by simp [loadCams]⟩
  | c :: cs, [], _, _, _, hl => by simp at hl
  | c :: cs, T :: Ts, h, hx, hT, hl => by
    obtain ⟨ns, h1, h2, h3⟩ := saveEntries_ok C hG gen (cs := cs) (Ts := Ts)
      (fun d hd => h d (List.mem_cons_of_mem _ hd)) (fun d hd => hx d (List.mem_cons_of_mem _ hd))
      (fun d hd => hT d (List.mem_cons_of_mem _ hd)) (by simpa using hl)
    obtain ⟨n, e1, -⟩ := saveEntry_ok C hG (h c (by simp)) (hx c (by simp)) (hT T (by simp)) (gen 0)
    refine ⟨n :: ns, by simp [saveEntries, e1, h1], by simp [h2], fun k r => ?_⟩
    obtain ⟨n', e1', e2, e3, e4⟩ := saveEntry_ok C hG (h c (by simp)) (hx c (by simp)) (hT T (by simp)) (gen k)
    rw [e1] at e1'
    injection e1' with e1'
    subst e1'
    simp only [loadCams, e2, if_true, e3, Outcome.bind_ok, e4, h3]
    simp

theorem initMap_bare : ∀ (cs : List Cam) (i : Nat) (m : List (Id × Nat)), initMap (cs.map bare) i m = initMap cs i m
  | [], _, _ => rfl
  | c :: cs, i, m => by
    simp only [List.map_cons, initMap, bare]
    rw [initMap_bare cs]

/-- What stands in a node to which a rig was written. -/
theorem serializeRig_ok (C : Codec) {G : Geometry P} (hG : G.Lawful) {r : Rig P} (h : r.Sound) (hx : r.Exact C G)
    (gen : Nat → Id) :
    ∃ n ns, serializeRig C G r .null = .ok n ∧ n.isMap = true ∧
      n.get "id" = some (.scalar (String.ofList r.base.id.hexString)) ∧ n.get "topic" = some (.scalar r.base.topic) ∧
      n.get "description" = some (.scalar r.base.description) ∧ n.get "cameras" = some (.seq ns) ∧ ns ≠ [] ∧
      (r.hasCov = false → n.get "T_G_B_fixed_covariance" = none) ∧
      (r.hasCov = true → ∃ v, n.get "T_G_B_fixed_covariance" = some v ∧ decode C (Shape.square 6) v = .ok r.cov) ∧
      ∀ (k : Nat) (q : Rig P), loadCams C G gen ns k q =
        .ok ({ q with cameras := q.cameras ++ r.cameras.map bare, T := q.T ++ r.T }, true) := by
  obtain ⟨ns, h1, h2, h3⟩ := saveEntries_ok C hG gen h.cameras hx.cameras hx.T h.T
  have hne : ns ≠ [] := by
    intro e
    rw [e] at h2
    exact h.nonempty (List.length_eq_zero_iff.1 h2.symm)
  cases hc : r.hasCov with
  | false =>
    refine ⟨.map [("id", .scalar (String.ofList r.base.id.hexString)), ("sensor_type", .scalar "NCAMERA"),
      ("topic", .scalar r.base.topic), ("description", .scalar r.base.description), ("cameras", .seq ns)], ns, ?_, rfl,
      ?_, ?_, ?_, ?_, hne, ?_, ?_, h3⟩
    · simp [serializeRig, saveBase, h.id, saveRig, hc, h1, hne, Node.set, insert]
    all_goals simp [Node.get, find]
  | true =>
    obtain ⟨v, hv1, hv2⟩ := matrix_round_trip C (Shape.square 6) r.cov h.cov.1
      ⟨by simp [Shape.square, h.cov.2.1], by simp [Shape.square, h.cov.2.2]⟩ (by have := h.cov; omega)
      (by have := h.cov; omega) (by have := h.cov; omega) (by have := h.cov; omega) hx.cov
    refine ⟨.map [("id", .scalar (String.ofList r.base.id.hexString)), ("sensor_type", .scalar "NCAMERA"),
      ("topic", .scalar r.base.topic), ("description", .scalar r.base.description), ("T_G_B_fixed_covariance", v),
      ("cameras", .seq ns)], ns, ?_, rfl, ?_, ?_, ?_, ?_, hne, ?_, ?_, h3⟩
    · simp [serializeRig, saveBase, h.id, saveRig, hc, h1, hne, Node.set, insert, hv1]
    any_goals simp [Node.get, find]
    exact hv2

/-- What reading a node written by a sound rig does to any rig: the cameras are added to those that are there. -/
theorem deserializeRig_written (C : Codec) {G : Geometry P} (hG : G.Lawful) {r : Rig P} (h : r.Sound)
    (hx : r.Exact C G) (gen : Nat → Id) (genRig : Id) :
    ∃ n, serializeRig C G r .null = .ok n ∧ ∀ q : Rig P, deserializeRig C G gen genRig q n =
      (initInternal { q with
        base := r.base
        cameras := q.cameras ++ r.cameras.map bare
        T := q.T ++ r.T
        cov := if r.hasCov then r.cov else q.cov
        hasCov := r.hasCov || q.hasCov } >>= fun x => .ok (x, true)) := by
  obtain ⟨n, ns, h1, hm, g1, g2, g3, g4, hne, hc0, hc1, hload⟩ := serializeRig_ok C hG h hx gen
  refine ⟨n, h1, fun q => ?_⟩
  simp only [deserializeRig, hm, if_true, loadBase_written h.id hm g1 g2 g3 genRig, Outcome.bind_ok, loadRig]
  cases hcov : r.hasCov with
  | false =>
    have hk : hasKey n "T_G_B_fixed_covariance" = false := by simp [hasKey, hc0 hcov]
    simp only [hk, Bool.false_eq_true, if_false, Outcome.bind_ok, g4, if_neg hne, hload, if_true, Bool.false_or]
  | true =>
    obtain ⟨v, hv1, hv2⟩ := hc1 hcov
    have hk : hasKey n "T_G_B_fixed_covariance" = true := by simp [hasKey, hm, hv1]
    simp only [hk, if_true, safeGet_of hm hv1 hv2, Outcome.bind_ok, g4, if_neg hne, hload, Bool.true_or]

/-! ## C86 -/

/-- C86 in part (without the masks of the cameras, and for a rig with cameras that is read into a new rig): a rig
written to a node and read comes back with the same id, topic, description, cameras, transformations, map from ids to
indices and covariance. -/
theorem rig_round_trip_partial (C : Codec) {G : Geometry P} (hG : G.Lawful) {r : Rig P} (h : r.Sound)
    (hx : r.Exact C G) (gen : Nat → Id) (genRig : Id) :
    ∃ n r', serializeRig C G r .null = .ok n ∧ deserializeRig C G gen genRig (freshRig P) n = .ok (r', true) ∧
      r'.base = r.base ∧ r'.cameras = r.cameras.map bare ∧ r'.T = r.T ∧ r'.map = r.map ∧ r'.hasCov = r.hasCov ∧
      (r.hasCov = true → r'.cov = r.cov) := by
  obtain ⟨n, h1, h2⟩ := deserializeRig_written C hG h hx gen genRig
  have h3 := h2 (freshRig P)
  simp only [freshRig, List.nil_append, Bool.or_false, initInternal, List.length_map, h.T, if_true, initMap_bare, h.map,
    Outcome.bind_ok] at h3
  exact ⟨n, _, h1, h3, rfl, rfl, rfl, rfl, rfl, fun hc => by simp [hc]⟩

/-- Translations by whole numbers along the first axis: a geometry that satisfies the laws. -/
def shifts : Geometry ℚ where
  toMat x := ⟨4, 4, [[1, 0, 0, x], [0, 1, 0, 0], [0, 0, 1, 0], [0, 0, 0, 1]]⟩
  ofMat m :=
    match m.data with
    | [[_, _, _, x], _, _, _] => .ok x
    | _ => .abort
  inv x := -x

theorem shifts_lawful : shifts.Lawful where
  square T := ⟨⟨rfl, by simp [shifts]⟩, rfl, rfl⟩
  ofMat T := rfl
  inv T := by simp [shifts]

/-- A rig with one camera. -/
def demoRig : Rig ℚ := ⟨⟨HashId.fromUint64 2 0, "", "rig"⟩, [plain], [3], [(someId, 0)],
  ⟨6, 6, List.replicate 6 [1, 0, 0, 0, 0, 0]⟩, true⟩

theorem demoRig_sound : demoRig.Sound where
  id := by decide
  nonempty := by simp [demoRig]
  cameras := by simp [demoRig, plain_sound]
  T := rfl
  map := by
    have : plain.base.id.isValid = true := plain_sound.id
    simp [demoRig, initMap, this, putId]
    rfl
  cov := ⟨⟨rfl, by simp [demoRig]⟩, rfl, rfl⟩

theorem demoRig_exact : demoRig.Exact words shifts :=
  ⟨fun _ _ => ⟨fun x _ => words_exact x, fun x _ => words_exact x⟩, fun _ _ _ _ x _ => words_exact x,
    fun _ _ x _ => words_exact x⟩

example : ∃ n r', serializeRig words shifts demoRig .null = .ok n ∧
    deserializeRig words shifts (fun _ => Id.invalid) Id.invalid (freshRig ℚ) n = .ok (r', true) ∧ r'.T = [3] := by
  obtain ⟨n, r', h1, h2, -, -, h3, -⟩ := rig_round_trip_partial words shifts_lawful demoRig_sound demoRig_exact
    (fun _ => Id.invalid) Id.invalid
  exact ⟨n, r', h1, h2, h3⟩

/-- Reading a rig does not replace the cameras that are there: a rig that reads what it has written itself has all its
cameras twice. -/
theorem reload_refuted : ∃ n r', serializeRig words shifts demoRig .null = .ok n ∧
    deserializeRig words shifts (fun _ => Id.invalid) Id.invalid demoRig n = .ok (r', true) ∧
      r'.cameras = [plain, plain] ∧ r'.map = [(someId, 1)] := by
  obtain ⟨n, h1, h2⟩ := deserializeRig_written words shifts_lawful demoRig_sound demoRig_exact (fun _ => Id.invalid) Id.invalid
  have h3 := h2 demoRig
  have : initMap [plain, plain] 0 [] = .ok [(someId, 1)] := by
    have e : plain.base.id = someId := rfl
    simp [initMap, putId, e, show someId.isValid = true from by decide]
  have hb : bare plain = plain := rfl
  simp only [initInternal, demoRig, List.map_cons, List.map_nil, hb, List.cons_append, List.nil_append, List.length_cons,
    List.length_nil, if_true, this, Outcome.bind_ok, Bool.or_self] at h3
  exact ⟨n, _, h1, h3, rfl, rfl⟩

/-- A rig without covariance does not take the covariance away: it is kept from before. -/
theorem stale_covariance_refuted : ∃ n r', serializeRig words shifts { demoRig with hasCov := false } .null = .ok n ∧
    deserializeRig words shifts (fun _ => Id.invalid) Id.invalid demoRig n = .ok (r', true) ∧ r'.hasCov = true := by
  have hs : ({ demoRig with hasCov := false } : Rig ℚ).Sound := ⟨demoRig_sound.id, demoRig_sound.nonempty,
    demoRig_sound.cameras, demoRig_sound.T, demoRig_sound.map, demoRig_sound.cov⟩
  have hx : ({ demoRig with hasCov := false } : Rig ℚ).Exact words shifts :=
    ⟨demoRig_exact.cameras, demoRig_exact.T, demoRig_exact.cov⟩
  obtain ⟨n, h1, h2⟩ := deserializeRig_written words shifts_lawful hs hx (fun _ => Id.invalid) Id.invalid
  have this : initMap [plain, plain] 0 [] = .ok [(someId, 1)] := by
    have e : plain.base.id = someId := rfl
    simp [initMap, putId, e, show someId.isValid = true from by decide]
  have hb : bare plain = plain := rfl
  have h3 := h2 demoRig
  simp only [initInternal, demoRig, List.map_cons, List.map_nil, hb, List.cons_append, List.nil_append, List.length_cons,
    List.length_nil, if_true, this, Outcome.bind_ok, Bool.or_true] at h3
  exact ⟨n, _, h1, h3, rfl⟩

/-- A rig without cameras cannot be read again. -/
theorem empty_rig_refuted (C : Codec) (G : Geometry P) {r : Rig P} (hid : r.base.id.isValid = true) (hc : r.cameras = [])
    (hcov : r.hasCov = false) (gen : Nat → Id) (genRig : Id) :
    ∃ n q, serializeRig C G r .null = .ok n ∧ deserializeRig C G gen genRig (freshRig P) n = .ok (q, false) := by
  have hn : serializeRig C G r .null = .ok (.map [("id", .scalar (String.ofList r.base.id.hexString)),
      ("sensor_type", .scalar "NCAMERA"), ("topic", .scalar r.base.topic), ("description", .scalar r.base.description),
      ("cameras", .null)]) := by
    simp [serializeRig, saveBase, hid, saveRig, hc, hcov, saveEntries, Node.set, insert]
  refine ⟨_, { freshRig P with base := r.base }, hn, ?_⟩
  generalize hN : Node.map [("id", .scalar (String.ofList r.base.id.hexString)), ("sensor_type", .scalar "NCAMERA"),
    ("topic", .scalar r.base.topic), ("description", .scalar r.base.description), ("cameras", .null)] = N
  have hm : N.isMap = true := by rw [← hN]; rfl
  have g1 : N.get "id" = some (.scalar (String.ofList r.base.id.hexString)) := by rw [← hN]; simp [Node.get, find]
  have g2 : N.get "topic" = some (.scalar r.base.topic) := by rw [← hN]; simp [Node.get, find]
  have g3 : N.get "description" = some (.scalar r.base.description) := by rw [← hN]; simp [Node.get, find]
  have g4 : N.get "cameras" = some .null := by rw [← hN]; simp [Node.get, find]
  have g5 : N.get "T_G_B_fixed_covariance" = none := by rw [← hN]; simp [Node.get, find]
  have hk : hasKey N "T_G_B_fixed_covariance" = false := by simp [hasKey, g5]
  simp only [deserializeRig, hm, if_true, loadBase_written hid hm g1 g2 g3 genRig, Outcome.bind_ok, loadRig, hk,
    Bool.false_eq_true, if_false, g4]

example : ∃ n q, serializeRig words shifts ⟨⟨someId, "", ""⟩, [], [], [], ⟨6, 6, []⟩, false⟩ .null = .ok n ∧
    deserializeRig words shifts (fun _ => Id.invalid) Id.invalid (freshRig ℚ) n = .ok (q, false) :=
  empty_rig_refuted words shifts (by decide) rfl rfl _ _

/-- Cameras of a list are added one after the other, also if a later one cannot be read. -/
theorem loadCams_prefix (C : Codec) (G : Geometry P) (gen : Nat → Id) : ∀ {ns : List Node} {k : Nat} {r r' : Rig P} {b : Bool},
    loadCams C G gen ns k r = .ok (r', b) →
      (∃ cs Ts, r'.cameras = r.cameras ++ cs ∧ r'.T = r.T ++ Ts ∧ cs.length = Ts.length ∧ cs.length ≤ ns.length ∧
        (b = true → cs.length = ns.length) ∧ ∀ c ∈ cs, c.Sound ∧ c.mask = none) ∧
      r'.base = r.base ∧ r'.map = r.map ∧ r'.cov = r.cov ∧ r'.hasCov = r.hasCov := by
  intro ns
  induction ns with
  | nil =>
    intro k r r' b h
    simp only [loadCams, Outcome.ok.injEq, Prod.mk.injEq] at h
    obtain ⟨rfl, rfl⟩ := h
    exact ⟨⟨[], [], by simp, by simp, rfl, by simp, by simp, by simp⟩, rfl, rfl, rfl, rfl⟩
  | cons n ns ih =>
    intro k r r' b h
    have stay : ∀ {r'' : Rig P}, (Outcome.ok (r, false) : Outcome (Rig P × Bool)) = .ok (r'', b) →
        (∃ cs Ts, r''.cameras = r.cameras ++ cs ∧ r''.T = r.T ++ Ts ∧ cs.length = Ts.length ∧
          cs.length ≤ (n :: ns).length ∧ (b = true → cs.length = (n :: ns).length) ∧ ∀ c ∈ cs, c.Sound ∧ c.mask = none) ∧
        r''.base = r.base ∧ r''.map = r.map ∧ r''.cov = r.cov ∧ r''.hasCov = r.hasCov := by
      intro r'' e
      simp only [Outcome.ok.injEq, Prod.mk.injEq] at e
      obtain ⟨rfl, rfl⟩ := e
      exact ⟨⟨[], [], by simp, by simp, rfl, by simp, by simp, by simp⟩, rfl, rfl, rfl, rfl⟩
    simp only [loadCams] at h
    split at h
    · obtain ⟨o, ho, h⟩ := Outcome.bind_eq_ok.1 h
      cases o with
      | none => exact stay h
      | some c =>
        obtain ⟨o2, -, h⟩ := Outcome.bind_eq_ok.1 h
        cases o2 with
        | none => exact stay h
        | some T =>
          obtain ⟨⟨cs, Ts, h1, h2, h3, h4, h5, h6⟩, h7, h8, h9, h10⟩ := ih h
          refine ⟨⟨c :: cs, T :: Ts, by rw [h1]; simp, by rw [h2]; simp, by simp [h3], by simp [h4],
            fun hb => by simp [h5 hb], fun d hd => ?_⟩, h7, h8, h9, h10⟩
          rcases List.mem_cons.1 hd with rfl | hd
          · exact created_sound ho
          · exact h6 d hd
    · exact stay h

theorem initMap_spec : ∀ {cs : List Cam} {i : Nat} {m m' : List (Id × Nat)}, initMap cs i m = .ok m' →
    ∀ c ∈ cs, c.base.id.isValid = true
  | [], _, _, _, _ => by simp
  | c :: cs, i, m, m', h => by
    simp only [initMap] at h
    split at h
    · rename_i hv
      intro d hd
      rcases List.mem_cons.1 hd with rfl | hd
      · exact hv
      · exact initMap_spec h d hd
    · cases h

theorem initMap_mem : ∀ {cs : List Cam} {i : Nat} {m m' : List (Id × Nat)}, initMap cs i m = .ok m' →
    ∀ (id : Id) (j : Nat), (id, j) ∈ m' ↔
      (∃ (k : Nat) (c : Cam), cs[k]? = some c ∧ c.base.id = id ∧ j = i + k ∧
        ∀ (k' : Nat) (c' : Cam), k < k' → cs[k']? = some c' → c'.base.id ≠ id) ∨
      ((id, j) ∈ m ∧ ∀ c ∈ cs, c.base.id ≠ id)
  | [], i, m, m', h, id, j => by
    simp only [initMap, Outcome.ok.injEq] at h
    subst h
    simp
  | c :: cs, i, m, m', h, id, j => by
    simp only [initMap] at h
    split at h
    · rw [initMap_mem h id j]
      constructor
      · rintro (⟨k, d, h1, h2, h3, h4⟩ | ⟨h1, h2⟩)
        · refine .inl ⟨k + 1, d, h1, h2, by omega, ?_⟩
          intro k' c' hk hc'
          obtain ⟨k'', rfl⟩ : ∃ k'', k' = k'' + 1 := ⟨k' - 1, by omega⟩
          exact h4 k'' c' (by omega) hc'
        · rw [putId, List.mem_cons, List.mem_filter] at h1
          rcases h1 with h1 | ⟨h1, h3⟩
          · simp only [Prod.mk.injEq] at h1
            refine .inl ⟨0, c, rfl, h1.1.symm, h1.2, ?_⟩
            intro k' c' hk hc'
            obtain ⟨k'', rfl⟩ : ∃ k'', k' = k'' + 1 := ⟨k' - 1, by omega⟩
            exact h2 c' (List.mem_iff_getElem?.2 ⟨k'', hc'⟩)
          · refine .inr ⟨h1, fun d hd => ?_⟩
            rcases List.mem_cons.1 hd with rfl | hd
            · intro e
              simp [e] at h3
            · exact h2 d hd
      · rintro (⟨k, d, h1, h2, h3, h4⟩ | ⟨h1, h2⟩)
        · cases k with
          | zero =>
            have e : c = d := by simpa using h1
            subst e
            refine .inr ⟨?_, fun d hd => ?_⟩
            · rw [putId, h2, h3]
              simp
            · obtain ⟨k', hk'⟩ := List.mem_iff_getElem?.1 hd
              exact h4 (k' + 1) d (by omega) hk'
          | succ k =>
            refine .inl ⟨k, d, h1, h2, by omega, ?_⟩
            intro k' c' hk hc'
            exact h4 (k' + 1) c' (by omega) hc'
        · refine .inr ⟨?_, fun d hd => h2 d (List.mem_cons_of_mem _ hd)⟩
          rw [putId, List.mem_cons, List.mem_filter]
          exact .inr ⟨h1, by simpa using Ne.symm (h2 c (by simp))⟩
    · cases h

theorem initMap_total : ∀ {cs : List Cam} (i : Nat) (m : List (Id × Nat)), (∀ c ∈ cs, c.base.id.isValid = true) →
    ∃ m', initMap cs i m = .ok m'
  | [], _, m, _ => ⟨m, rfl⟩
  | c :: cs, i, m, h => by
    simp only [initMap, h c (by simp), if_true]
    exact initMap_total _ _ fun d hd => h d (List.mem_cons_of_mem _ hd)

/-- C86: a rig can be set up exactly if it has as many transformations as cameras and all ids of cameras are valid. -/
theorem initInternal_iff (r : Rig P) :
    (∃ r', initInternal r = .ok r') ↔ r.cameras.length = r.T.length ∧ ∀ c ∈ r.cameras, c.base.id.isValid = true := by
  constructor
  · rintro ⟨r', h⟩
    unfold initInternal at h
    split at h
    · rename_i hl
      obtain ⟨m, hm, -⟩ := Outcome.bind_eq_ok.1 h
      exact ⟨hl, initMap_spec hm⟩
    · cases h
  · rintro ⟨hl, hv⟩
    obtain ⟨m, hm⟩ := initMap_total 0 [] hv
    exact ⟨{ r with map := m }, by simp [initInternal, hl, hm]⟩

/-- C86: the map takes an id to the last camera with this id. -/
theorem initInternal_map {r r' : Rig P} (h : initInternal r = .ok r') (id : Id) (j : Nat) :
    (id, j) ∈ r'.map ↔ ∃ c, r'.cameras[j]? = some c ∧ c.base.id = id ∧
      ∀ (j' : Nat) (c' : Cam), j < j' → r'.cameras[j']? = some c' → c'.base.id ≠ id := by
  unfold initInternal at h
  split at h
  · obtain ⟨m, hm, h⟩ := Outcome.bind_eq_ok.1 h
    injection h with h
    subst h
    simp only
    rw [initMap_mem hm]
    constructor
    · rintro (⟨k, c, h1, h2, h3, h4⟩ | ⟨h1, -⟩)
      · rw [Nat.zero_add] at h3
        subst h3
        exact ⟨c, h1, h2, h4⟩
      · cases h1
    · rintro ⟨c, h1, h2, h3⟩
      exact .inl ⟨j, c, h1, h2, by omega, h3⟩
  · cases h

/-- C86: whatever the node contains, a rig that was read successfully into a new rig has at least one camera, sound
cameras, as many transformations as cameras, a valid id and the map of its cameras. -/
theorem read_rig_sound {C : Codec} {G : Geometry P} {gen : Nat → Id} {genRig : Id} {n : Node} {r : Rig P}
    (h : deserializeRig C G gen genRig (freshRig P) n = .ok (r, true)) :
    r.base.id.isValid = true ∧ r.cameras ≠ [] ∧ (∀ c ∈ r.cameras, c.Sound) ∧ r.T.length = r.cameras.length ∧
      initMap r.cameras 0 [] = .ok r.map ∧
      ∃ l, n.get "cameras" = some (.seq l) ∧ r.cameras.length = l.length := by
  simp only [deserializeRig] at h
  split at h
  case isFalse => simp at h
  rename_i hm
  obtain ⟨b, hb, h⟩ := Outcome.bind_eq_ok.1 h
  have hid := loadBase_valid hb
  simp only [loadRig, hm, if_true] at h
  obtain ⟨q, hq, h⟩ := Outcome.bind_eq_ok.1 h
  have hq' : q.base = b ∧ q.cameras = [] ∧ q.T = [] := by
    split at hq
    · obtain ⟨o, -, hq⟩ := Outcome.bind_eq_ok.1 hq
      cases o with
      | none => cases hq
      | some m =>
        injection hq with hq
        rw [← hq]
        exact ⟨rfl, rfl, rfl⟩
    · injection hq with hq
      rw [← hq]
      exact ⟨rfl, rfl, rfl⟩
  obtain ⟨q1, q2, q3⟩ := hq'
  split at h
  case h_2 => simp at h
  rename_i l hl
  split at h
  case isTrue => simp at h
  rename_i hne
  obtain ⟨x, hx, h⟩ := Outcome.bind_eq_ok.1 h
  obtain ⟨q', b'⟩ := x
  cases b' with
  | false => simp at h
  | true =>
    obtain ⟨⟨cs, Ts, h1, h2, h3, -, h5, h6⟩, h7, -⟩ := loadCams_prefix C G gen hx
    simp only [if_true] at h
    obtain ⟨r', hr', h⟩ := Outcome.bind_eq_ok.1 h
    simp only [Outcome.ok.injEq, Prod.mk.injEq, and_true] at h
    subst h
    rw [q2, List.nil_append] at h1
    rw [q3, List.nil_append] at h2
    simp only [initInternal] at hr'
    split at hr'
    case isFalse => cases hr'
    obtain ⟨m, hm', hr'⟩ := Outcome.bind_eq_ok.1 hr'
    injection hr' with hr'
    subst hr'
    have hcs : cs ≠ [] := by
      rintro rfl
      exact hne (List.length_eq_zero_iff.1 (h5 rfl).symm)
    exact ⟨by simp only; rw [h7, q1]; exact hid, by simp only; rw [h1]; exact hcs,
      fun c hc => (h6 c (by simpa [h1] using hc)).1, by simp only; rw [h1, h2, h3], hm', l, hl,
      by simp only; rw [h1]; exact h5 rfl⟩

/-- C86: the map of a rig that was read takes an id to the last camera with this id. -/
theorem read_rig_map {C : Codec} {G : Geometry P} {gen : Nat → Id} {genRig : Id} {n : Node} {r : Rig P}
    (h : deserializeRig C G gen genRig (freshRig P) n = .ok (r, true)) (id : Id) (j : Nat) :
    (id, j) ∈ r.map ↔ ∃ c, r.cameras[j]? = some c ∧ c.base.id = id ∧
      ∀ (j' : Nat) (c' : Cam), j < j' → r.cameras[j']? = some c' → c'.base.id ≠ id := by
  obtain ⟨-, -, -, hT, hm, -⟩ := read_rig_sound h
  exact initInternal_map (r := r) (r' := r) (by simp [initInternal, hT, hm]) id j

/-- A node with a camera that can be read and one that cannot. -/
noncomputable def brokenRig : Node :=
  .map [("id", .scalar (String.ofList (HashId.fromUint64 2 0).hexString)),
    ("cameras", .seq [.map [("camera", camNode words "pinhole" [4, 3, 2, 1]),
      ("T_B_C", nodeOf words 4 4 [.seq [num words 1, num words 0, num words 0, num words 5],
        .seq [num words 0, num words 1, num words 0, num words 0], .seq [num words 0, num words 0, num words 1, num words 0],
        .seq [num words 0, num words 0, num words 0, num words 1]])], .null])]

/-- A reading of a rig that fails does not leave the rig alone: it has a camera that is not in the map. -/
theorem failed_rig_refuted : ∃ r, deserializeRig words shifts (fun _ => Id.invalid) Id.invalid (freshRig ℚ) brokenRig =
    .ok (r, false) ∧ r.cameras.length = 1 ∧ r.map = [] := by
  have hcam := create_camNode words (type := "pinhole") (k := .pinhole) (kindOf_text .pinhole) (p := [4, 3, 2, 1])
    (by simp) (by simp) (fun x _ => words_exact x) Id.invalid (by simp [intrinsicsValid])
  have e0 : asScalar words.numRead (num words 0) = .ok 0 := asScalar_ok.2 ⟨_, rfl, words_exact 0⟩
  have e1 : asScalar words.numRead (num words 1) = .ok 1 := asScalar_ok.2 ⟨_, rfl, words_exact 1⟩
  have e5 : asScalar words.numRead (num words 5) = .ok 5 := asScalar_ok.2 ⟨_, rfl, words_exact 5⟩
  generalize hmat : nodeOf words 4 4 [.seq [num words 1, num words 0, num words 0, num words 5],
        .seq [num words 0, num words 1, num words 0, num words 0], .seq [num words 0, num words 0, num words 1, num words 0],
        .seq [num words 0, num words 0, num words 0, num words 1]] = M
  have hdec : decode words (Shape.square 4) M = .ok ⟨4, 4, [[1, 0, 0, 5], [0, 1, 0, 0], [0, 0, 1, 0], [0, 0, 0, 1]]⟩ := by
    rw [← hmat, decode_nodeOf words (Shape.square 4) (by decide) (by decide) ⟨by simp [Shape.square], by simp [Shape.square]⟩]
    simp [decodeData, readAll, rowElem, e0, e1, e5]
  generalize hcn : camNode words "pinhole" [4, 3, 2, 1] = N at hcam
  generalize taken (fresh .pinhole) .pinhole [4, 3, 2, 1] = c at hcam
  generalize hE : Node.map [("camera", N), ("T_B_C", M)] = E
  have hEm : E.isMap = true := by rw [← hE]; rfl
  have hE1 : E.get "camera" = some N := by rw [← hE]; simp [Node.get, find]
  have hE2 : E.get "T_B_C" = some M := by rw [← hE]; simp [Node.get, find]
  have hkE : hasKey E "T_B_C" = true := by simp [hasKey, hEm, hE2]
  have hT : loadT words shifts E = .ok (some (-5)) := by
    simp only [loadT, hkE, if_true, safeGet_of hEm hE2 hdec, Outcome.bind_ok, shifts]
  have hR : brokenRig = .map [("id", .scalar (String.ofList (HashId.fromUint64 2 0).hexString)),
      ("cameras", .seq [E, .null])] := by
    rw [← hE, ← hcn, ← hmat]
    rfl
  generalize hB : brokenRig = B at *
  have hm : B.isMap = true := by rw [hR]; rfl
  have g1 : B.get "id" = some (.scalar (String.ofList (HashId.fromUint64 2 0).hexString)) := by
    rw [hR]; simp [Node.get, find]
  have g2 : B.get "topic" = none := by rw [hR]; simp [Node.get, find]
  have g3 : B.get "description" = none := by rw [hR]; simp [Node.get, find]
  have g4 : B.get "cameras" = some (.seq [E, .null]) := by rw [hR]; simp [Node.get, find]
  have g5 : B.get "T_G_B_fixed_covariance" = none := by rw [hR]; simp [Node.get, find]
  have hk : hasKey B "T_G_B_fixed_covariance" = false := by simp [hasKey, g5]
  have hne : String.ofList (HashId.fromUint64 2 0).hexString ≠ "" := by
    intro e
    have hl := (HashId.hexString_format (HashId.fromUint64 2 0)).1
    have := congrArg String.length e
    simp [hl] at this
  have hid : (HashId.fromUint64 2 0).isValid = true := by decide
  have hb : ∀ b0 : Base, loadBase Id.invalid b0 B = .ok ⟨HashId.fromUint64 2 0, b0.topic, b0.description⟩ := by
    intro b0
    simp only [loadBase, safeGet_of hm g1 (asString_scalar _), Outcome.bind_ok, if_neg hne, String.toList_ofList,
      HashId.hex_round_trip, if_true, hid, safeGet_missing g2, safeGet_missing g3, Option.getD_none]
  have hnull : (Node.null).isMap = false := rfl
  simp only [deserializeRig, hm, if_true, hb, Outcome.bind_ok, loadRig, hk, Bool.false_eq_true, if_false, g4,
    List.cons_ne_nil, loadCams, hEm, hE1, hcam, hT, hnull]
  exact ⟨_, rfl, rfl, rfl⟩

/-- C86: the two ways of giving the mounting of a camera agree: the matrix `T_C_B` gives the transformation itself, the
matrix `T_B_C` its inverse. -/
theorem mounting_ways (C : Codec) {G : Geometry P} (hG : G.Lawful) {n : Node} (hm : n.isMap = true) {v : Node} {m : Mat}
    {T : P} (hv : decode C (Shape.square 4) v = .ok m) (hT : G.ofMat m = .ok T) :
    (n.get "T_B_C" = some v → loadT C G n = .ok (some (G.inv T))) ∧
      (n.get "T_B_C" = none → n.get "T_C_B" = some v → loadT C G n = .ok (some T)) ∧
      (n.get "T_B_C" = none → n.get "T_C_B" = none → loadT C G n = .ok none) := by
  refine ⟨fun g => ?_, fun g0 g => ?_, fun g0 g => ?_⟩
  · have hk : hasKey n "T_B_C" = true := by simp [hasKey, hm, g]
    simp only [loadT, hk, if_true, safeGet_of hm g hv, Outcome.bind_ok, hT]
  · have hk : hasKey n "T_B_C" = false := by simp [hasKey, g0]
    have hk' : hasKey n "T_C_B" = true := by simp [hasKey, hm, g]
    simp only [loadT, hk, Bool.false_eq_true, if_false, hk', if_true, safeGet_of hm g hv, Outcome.bind_ok, hT, hG.inv]
  · have hk : hasKey n "T_B_C" = false := by simp [hasKey, g0]
    have hk' : hasKey n "T_C_B" = false := by simp [hasKey, g]
    simp only [loadT, hk, Bool.false_eq_true, if_false, hk']

example {v : Node} (hv : decode words (Shape.square 4) v = .ok (shifts.toMat 5)) :
    loadT words shifts (.map [("T_B_C", v)]) = .ok (some (-5)) ∧ loadT words shifts (.map [("T_C_B", v)]) = .ok (some 5) :=
  ⟨(mounting_ways words shifts_lawful rfl hv (shifts_lawful.ofMat 5)).1 (by simp [Node.get, find]),
    (mounting_ways words shifts_lawful rfl hv (shifts_lawful.ofMat 5)).2.1 (by simp [Node.get, find])
      (by simp [Node.get, find])⟩

/-! ## C87 -/

theorem norm2_nonneg (a : List ℚ) : 0 ≤ norm2 a := by
  unfold norm2
  induction a with
  | nil => simp
  | cons x a ih =>
    simp only [List.map_cons, List.sum_cons]
    nlinarith [mul_self_nonneg x]

theorem norm2_sub_self (a : List ℚ) : norm2 (List.zipWith (· - ·) a a) = 0 := by
  unfold norm2
  induction a with
  | nil => rfl
  | cons x a ih => simpa using ih

theorem norm2_sub_comm : ∀ (a b : List ℚ), norm2 (List.zipWith (· - ·) a b) = norm2 (List.zipWith (· - ·) b a)
  | [], b => by simp
  | a, [] => by simp
  | x :: a, y :: b => by
    have := norm2_sub_comm a b
    unfold norm2 at this ⊢
    simp only [List.zipWith_cons_cons, List.map_cons, List.sum_cons, this]
    ring

theorem kEpsilon_pos : 0 < kEpsilon := by norm_num [kEpsilon]

theorem isApprox_refl (a : List ℚ) : isApprox a a = .ok true := by
  have := norm2_nonneg a
  simp only [isApprox, if_true, norm2_sub_self, min_self, Outcome.ok.injEq, decide_eq_true_eq]
  have := kEpsilon_pos
  positivity

theorem isApprox_symm (a b : List ℚ) : isApprox a b = isApprox b a := by
  unfold isApprox
  by_cases h : a.length = b.length
  · rw [if_pos h, if_pos h.symm, norm2_sub_comm, min_comm]
  · rw [if_neg h, if_neg (fun e => h e.symm)]

/-- C87: what equality of cameras means: same class, id, topic and description, same line delay, image size and kind of
images, the same distortion, and intrinsics that agree up to a relative difference of `kEpsilon`. -/
theorem camEqual_iff {a b : Cam} (hl : a.intrinsics.length = b.intrinsics.length) :
    camEqual a b = .ok true ↔ a.base = b.base ∧ a.cls = b.cls ∧ a.lineDelay = b.lineDelay ∧ a.width = b.width ∧
      a.height = b.height ∧ a.compressed = b.compressed ∧ a.dist = b.dist ∧
      norm2 (List.zipWith (· - ·) a.intrinsics b.intrinsics) ≤
        kEpsilon ^ 2 * min (norm2 a.intrinsics) (norm2 b.intrinsics) := by
  have hb : baseEqual a.base b.base = true ↔ a.base = b.base := by
    simp only [baseEqual, Bool.and_eq_true, decide_eq_true_eq, (HashId.eq_iff _ _).1]
    constructor
    · rintro ⟨⟨h1, h2⟩, h3⟩
      cases ha : a.base
      cases hb : b.base
      simp_all
    · rintro h
      rw [h]
      exact ⟨⟨rfl, rfl⟩, rfl⟩
  unfold camEqual
  by_cases h : a.base = b.base
  · rw [if_pos (hb.2 h)]
    unfold camEqualImpl
    by_cases hc : a.cls = b.cls
    · rw [if_pos hc]
      simp only [isApprox, hl, if_true, Outcome.bind_ok, Outcome.ok.injEq, Bool.and_eq_true, decide_eq_true_eq]
      constructor
      · rintro ⟨⟨⟨⟨⟨h1, h2⟩, h3⟩, h4⟩, h5⟩, h6⟩
        exact ⟨h, hc, h2, h3, h4, h5, h6, h1⟩
      · rintro ⟨-, -, h2, h3, h4, h5, h6, h1⟩
        exact ⟨⟨⟨⟨⟨h1, h2⟩, h3⟩, h4⟩, h5⟩, h6⟩
    · rw [if_neg hc]
      simp [hc]
  · rw [if_neg (fun e => h (hb.1 e))]
    simp [h]

/-- C87: every camera is equal to itself. -/
theorem camEqual_refl (a : Cam) : camEqual a a = .ok true := by
  rw [camEqual_iff rfl]
  refine ⟨rfl, rfl, rfl, rfl, rfl, rfl, rfl, ?_⟩
  have h := isApprox_refl a.intrinsics
  simpa [isApprox] using h

/-- C87: equality of cameras does not depend on the order. -/
theorem camEqual_symm (a b : Cam) : camEqual a b = camEqual b a := by
  have hb : baseEqual a.base b.base = baseEqual b.base a.base := by
    rw [Bool.eq_iff_iff]
    simp only [baseEqual, Bool.and_eq_true, decide_eq_true_eq, (HashId.eq_iff _ _).1]
    constructor <;> (rintro ⟨⟨h1, h2⟩, h3⟩; exact ⟨⟨h1.symm, h2.symm⟩, h3.symm⟩)
  unfold camEqual
  rw [hb]
  by_cases h : baseEqual b.base a.base = true
  · rw [if_pos h, if_pos h]
    unfold camEqualImpl
    by_cases hc : a.cls = b.cls
    · rw [if_pos hc, if_pos hc.symm, isApprox_symm]
      simp only [eq_comm]
    · rw [if_neg hc, if_neg fun e => hc e.symm]
  · rw [if_neg h, if_neg h]

/-- C87: a camera that was written and read is equal to the original, even if the original has a mask. -/
theorem round_trip_equal (C : Codec) {c : Cam} (h : c.Sound) (hx : c.Exact C) (gen : Id) :
    ∃ n c', serializeCam C c .null = .ok n ∧ createCamera C gen (some n) = .ok (some c') ∧ camEqual c c' = .ok true := by
  obtain ⟨n, h1, h2⟩ := factory_round_trip_partial C h hx gen
  refine ⟨n, _, h1, h2, ?_⟩
  refine (camEqual_iff (by rfl)).2 ⟨rfl, rfl, rfl, rfl, rfl, rfl, rfl, ?_⟩
  have h := isApprox_refl c.intrinsics
  simpa [isApprox] using h

example : ∃ n c', serializeCam words demo .null = .ok n ∧ createCamera words Id.invalid (some n) = .ok (some c') ∧
    camEqual demo c' = .ok true :=
  round_trip_equal words demo_sound ⟨fun x _ => words_exact x, fun x _ => words_exact x⟩ _

/-- Cameras that differ are equal: the mask does not count. -/
theorem equal_mask_refuted : camEqual demo { demo with mask := none } = .ok true ∧ demo.mask ≠ none := by
  refine ⟨?_, by simp [demo]⟩
  refine (camEqual_iff (by rfl)).2 ⟨rfl, rfl, rfl, rfl, rfl, rfl, rfl, ?_⟩
  have h := isApprox_refl demo.intrinsics
  simpa [isApprox] using h

/-- A camera with the given first focal length. -/
def withFu (x : ℚ) : Cam := { plain with intrinsics := [x, 1, 1, 1] }

/-- Equality of cameras is not transitive: the tolerance adds up. -/
theorem equal_transitive_refuted : camEqual (withFu 1) (withFu (1 + 2 / 100000000)) = .ok true ∧
    camEqual (withFu (1 + 2 / 100000000)) (withFu (1 + 4 / 100000000)) = .ok true ∧
    camEqual (withFu 1) (withFu (1 + 4 / 100000000)) = .ok false := by
  have e1 : camEqual (withFu 1) (withFu (1 + 2 / 100000000)) = .ok true := by
    refine (camEqual_iff (by rfl)).2 ⟨rfl, rfl, rfl, rfl, rfl, rfl, rfl, ?_⟩
    simp only [withFu, List.zipWith_cons_cons, List.zipWith_nil_right, norm2, List.map_cons, List.map_nil, List.sum_cons,
      List.sum_nil, kEpsilon]
    norm_num
  have e2 : camEqual (withFu (1 + 2 / 100000000)) (withFu (1 + 4 / 100000000)) = .ok true := by
    refine (camEqual_iff (by rfl)).2 ⟨rfl, rfl, rfl, rfl, rfl, rfl, rfl, ?_⟩
    simp only [withFu, List.zipWith_cons_cons, List.zipWith_nil_right, norm2, List.map_cons, List.map_nil, List.sum_cons,
      List.sum_nil, kEpsilon]
    norm_num
  refine ⟨e1, e2, ?_⟩
  have hne : ¬ camEqual (withFu 1) (withFu (1 + 4 / 100000000)) = .ok true := by
    intro e
    obtain ⟨-, -, -, -, -, -, -, h⟩ := (camEqual_iff (by rfl)).1 e
    revert h
    simp only [withFu, List.zipWith_cons_cons, List.zipWith_nil_right, norm2, List.map_cons, List.map_nil, List.sum_cons,
      List.sum_nil, kEpsilon]
    norm_num
  have hok : ∃ b, camEqual (withFu 1) (withFu (1 + 4 / 100000000)) = .ok b := by
    unfold camEqual
    split
    · unfold camEqualImpl
      rw [if_pos (by rfl)]
      simp only [isApprox]
      rw [if_pos (by rfl)]
      exact ⟨_, rfl⟩
    · exact ⟨_, rfl⟩
  obtain ⟨b, hb⟩ := hok
  cases b with
  | true => exact absurd hb hne
  | false => exact hb

theorem matClose_refl (m : Mat) : matClose m m = true := by
  unfold matClose
  generalize m.entries = l
  induction l with
  | nil => rfl
  | cons x l ih => simpa [kEpsilon_pos] using ih

theorem camsEqual_refl (G : Geometry P) : ∀ (cs : List Cam) (Ts : List P), Ts.length = cs.length →
    camsEqual G cs cs Ts Ts = .ok true
  | [], _, _ => by simp [camsEqual]
  | c :: cs, [], h => by simp at h
  | c :: cs, T :: Ts, h => by
    simp [camsEqual, camEqual_refl, matClose_refl, camsEqual_refl G cs Ts (by simpa using h)]

/-- C87: every rig with a transformation for each camera is equal to itself. -/
theorem rigEqual_refl (G : Geometry P) (r : Rig P) (h : r.T.length = r.cameras.length) : rigEqual G r r = .ok true := by
  have hb : baseEqual r.base r.base = true := by
    simp [baseEqual, (HashId.eq_iff _ _).1]
  simp [rigEqual, hb, camsEqual_refl G r.cameras r.T h]

example : rigEqual shifts demoRig demoRig = .ok true := rigEqual_refl shifts demoRig rfl

theorem camEqual_bare (c : Cam) : camEqual c (bare c) = .ok true := by
  refine (camEqual_iff (by rfl)).2 ⟨rfl, rfl, rfl, rfl, rfl, rfl, rfl, ?_⟩
  have h := isApprox_refl c.intrinsics
  simpa [isApprox, bare] using h

theorem camsEqual_bare (G : Geometry P) : ∀ (cs : List Cam) (Ts : List P), Ts.length = cs.length →
    camsEqual G cs (cs.map bare) Ts Ts = .ok true
  | [], _, _ => by simp [camsEqual]
  | c :: cs, [], h => by simp at h
  | c :: cs, T :: Ts, h => by
    simp [camsEqual, camEqual_bare, matClose_refl, camsEqual_bare G cs Ts (by simpa using h)]

/-- C87: a rig that was written and read into a new rig is equal to the original. -/
theorem rig_round_trip_equal (C : Codec) {G : Geometry P} (hG : G.Lawful) {r : Rig P} (h : r.Sound)
    (hx : r.Exact C G) (gen : Nat → Id) (genRig : Id) :
    ∃ n r', serializeRig C G r .null = .ok n ∧ deserializeRig C G gen genRig (freshRig P) n = .ok (r', true) ∧
      rigEqual G r r' = .ok true := by
  obtain ⟨n, r', h1, h2, e1, e2, e3, -⟩ := rig_round_trip_partial C hG h hx gen genRig
  refine ⟨n, r', h1, h2, ?_⟩
  have hb : baseEqual r.base r.base = true := by
    simp [baseEqual, (HashId.eq_iff _ _).1]
  simp [rigEqual, e1, e2, e3, hb, camsEqual_bare G r.cameras r.T h.T]

example : ∃ n r', serializeRig words shifts demoRig .null = .ok n ∧
    deserializeRig words shifts (fun _ => Id.invalid) Id.invalid (freshRig ℚ) n = .ok (r', true) ∧
      rigEqual shifts demoRig r' = .ok true :=
  rig_round_trip_equal words shifts_lawful demoRig_sound demoRig_exact _ _

/-- Rigs that differ are equal: the covariance does not count. -/
theorem equal_covariance_refuted :
    rigEqual shifts demoRig { demoRig with hasCov := false, cov := ⟨6, 6, []⟩ } = .ok true := rigEqual_refl shifts demoRig rfl

/-- C87: rigs that are equal have the same id, topic and description and as many cameras, each equal to the one at the
same place, with mounting matrices that differ by less than `kEpsilon` in every entry. -/
theorem rigEqual_spec {G : Geometry P} {a b : Rig P} (h : rigEqual G a b = .ok true) :
    a.base = b.base ∧ a.cameras.length = b.cameras.length ∧
      ∀ (i : Nat) (c d : Cam), a.cameras[i]? = some c → b.cameras[i]? = some d → camEqual c d = .ok true ∧
        ∃ S T, a.T[i]? = some S ∧ b.T[i]? = some T ∧
          ∀ (j : Nat) (x y : ℚ), (G.toMat S).entries[j]? = some x → (G.toMat T).entries[j]? = some y → |x - y| < kEpsilon := by
  unfold rigEqual at h
  split at h
  case isFalse => simp at h
  rename_i hb
  split at h
  case isFalse => simp at h
  rename_i hl
  refine ⟨?_, hl, ?_⟩
  · simp only [baseEqual, Bool.and_eq_true, decide_eq_true_eq, (HashId.eq_iff _ _).1] at hb
    obtain ⟨⟨h1, h2⟩, h3⟩ := hb
    cases ha : a.base
    cases hb : b.base
    simp_all
  · clear hb hl
    generalize a.cameras = as at *
    generalize b.cameras = bs at *
    generalize a.T = Ss at *
    generalize b.T = Ts at *
    induction as generalizing bs Ss Ts with
    | nil => intro i c d hc; simp at hc
    | cons c0 as ih =>
      cases bs with
      | nil => intro i c d _ hd; simp at hd
      | cons d0 bs =>
        cases Ss with
        | nil => simp [camsEqual] at h
        | cons S Ss =>
          cases Ts with
          | nil => simp [camsEqual] at h
          | cons T Ts =>
            simp only [camsEqual] at h
            obtain ⟨e, he, h⟩ := Outcome.bind_eq_ok.1 h
            split at h
            case isFalse => simp at h
            rename_i hcl
            rw [Bool.and_eq_true] at hcl
            intro i c d hc hd
            cases i with
            | zero =>
              simp only [List.getElem?_cons_zero, Option.some.injEq] at hc hd
              subst hc hd
              refine ⟨by rw [he, hcl.1], S, T, rfl, rfl, ?_⟩
              have h2 := hcl.2
              unfold matClose at h2
              intro j x y hx hy
              have : (List.zipWith (fun x y => decide (|x - y| < kEpsilon)) (G.toMat S).entries (G.toMat T).entries)[j]? =
                  some (decide (|x - y| < kEpsilon)) := by
                simp [List.getElem?_zipWith, hx, hy]
              have := List.all_eq_true.1 h2 _ (List.mem_of_getElem? this)
              simpa using this
            | succ i => exact ih bs Ss Ts h i c d (by simpa using hc) (by simpa using hd)

example : |(3 : ℚ) - 3| < kEpsilon :=
  ((rigEqual_spec (rigEqual_refl shifts demoRig rfl)).2.2 0 plain plain rfl rfl).2.elim fun _ h => h.elim fun _ h => by
    obtain ⟨h1, h2, h3⟩ := h
    injection h1 with h1
    injection h2 with h2
    subst h1 h2
    exact h3 3 3 3 rfl rfl

theorem matClose_symm (a b : Mat) : matClose a b = matClose b a := by
  unfold matClose
  rw [List.zipWith_comm]
  simp only [abs_sub_comm]

theorem camsEqual_symm (G : Geometry P) : ∀ (as bs : List Cam) (Ss Ts : List P), as.length = bs.length →
    camsEqual G as bs Ss Ts = camsEqual G bs as Ts Ss
  | [], [], _, _, _ => by simp [camsEqual]
  | [], b :: bs, _, _, h => by simp at h
  | a :: as, [], _, _, h => by simp at h
  | a :: as, b :: bs, [], [], _ => by simp [camsEqual]
  | a :: as, b :: bs, [], T :: Ts, _ => by simp [camsEqual]
  | a :: as, b :: bs, S :: Ss, [], _ => by simp [camsEqual]
  | a :: as, b :: bs, S :: Ss, T :: Ts, h => by
    simp only [camsEqual]
    rw [camEqual_symm a b, matClose_symm, camsEqual_symm G as bs Ss Ts (by simpa using h)]

theorem baseEqual_symm (a b : Base) : baseEqual a b = baseEqual b a := by
  rw [Bool.eq_iff_iff]
  simp only [baseEqual, Bool.and_eq_true, decide_eq_true_eq, (HashId.eq_iff _ _).1]
  constructor <;> (rintro ⟨⟨h1, h2⟩, h3⟩; exact ⟨⟨h1.symm, h2.symm⟩, h3.symm⟩)

/-- C87: equality of rigs does not depend on the order. -/
theorem rigEqual_symm (G : Geometry P) (a b : Rig P) : rigEqual G a b = rigEqual G b a := by
  unfold rigEqual
  rw [baseEqual_symm]
  by_cases h : a.cameras.length = b.cameras.length
  · rw [if_pos h, if_pos h.symm, camsEqual_symm G _ _ _ _ h]
  · simp only [if_neg h, if_neg (fun e => h e.symm : ¬ b.cameras.length = a.cameras.length)]

example : rigEqual shifts demoRig { demoRig with T := [3 + 1 / 1000000000] } =
    rigEqual shifts { demoRig with T := [3 + 1 / 1000000000] } demoRig := rigEqual_symm _ _ _

theorem matClose_intro {a b : Mat}
    (h : ∀ (j : Nat) (x y : ℚ), a.entries[j]? = some x → b.entries[j]? = some y → |x - y| < kEpsilon) :
    matClose a b = true := by
  unfold matClose
  rw [List.all_eq_true]
  intro e he
  obtain ⟨j, hj⟩ := List.mem_iff_getElem?.1 he
  rw [List.getElem?_zipWith] at hj
  cases hx : a.entries[j]? with
  | none => rw [hx] at hj; simp at hj
  | some x =>
    cases hy : b.entries[j]? with
    | none => rw [hx, hy] at hj; simp at hj
    | some y =>
      rw [hx, hy] at hj
      simp only [Option.some.injEq] at hj
      rw [← hj]
      simpa using h j x y hx hy

theorem camsEqual_intro (G : Geometry P) : ∀ (as bs : List Cam) (Ss Ts : List P), as.length = bs.length →
    (∀ (i : Nat) (c d : Cam), as[i]? = some c → bs[i]? = some d → camEqual c d = .ok true ∧
      ∃ S T, Ss[i]? = some S ∧ Ts[i]? = some T ∧
        ∀ (j : Nat) (x y : ℚ), (G.toMat S).entries[j]? = some x → (G.toMat T).entries[j]? = some y → |x - y| < kEpsilon) →
    camsEqual G as bs Ss Ts = .ok true
  | [], bs, Ss, Ts, _, _ => by simp [camsEqual]
  | a :: as, [], _, _, h, _ => by simp at h
  | a :: as, b :: bs, Ss, Ts, h, H => by
    obtain ⟨h1, S, T, h2, h3, h4⟩ := H 0 a b rfl rfl
    cases Ss with
    | nil => simp at h2
    | cons S' Ss =>
      cases Ts with
      | nil => simp at h3
      | cons T' Ts =>
        simp only [List.getElem?_cons_zero, Option.some.injEq] at h2 h3
        subst h2 h3
        simp only [camsEqual]
        rw [h1, Outcome.bind_ok, matClose_intro h4]
        exact camsEqual_intro G as bs Ss Ts (by simpa using h) fun i c d hc hd => by
          simpa using H (i + 1) c d (by simpa using hc) (by simpa using hd)

/-- C87: what equality of rigs means, in both directions: id, topic and description are the same, there are as many
cameras, each equal to the one at the same place, and the mounting matrices differ by less than `kEpsilon` in every
entry. -/
theorem rigEqual_iff {G : Geometry P} {a b : Rig P} :
    rigEqual G a b = .ok true ↔ a.base = b.base ∧ a.cameras.length = b.cameras.length ∧
      ∀ (i : Nat) (c d : Cam), a.cameras[i]? = some c → b.cameras[i]? = some d → camEqual c d = .ok true ∧
        ∃ S T, a.T[i]? = some S ∧ b.T[i]? = some T ∧
          ∀ (j : Nat) (x y : ℚ), (G.toMat S).entries[j]? = some x → (G.toMat T).entries[j]? = some y →
            |x - y| < 1 / 100000000 := by
  constructor
  · exact fun h => rigEqual_spec h
  · rintro ⟨h1, h2, h3⟩
    unfold rigEqual
    have hb : baseEqual a.base b.base = true := by
      rw [h1]
      simp [baseEqual, (HashId.eq_iff _ _).1]
    rw [if_pos hb, if_pos h2]
    exact camsEqual_intro G _ _ _ _ h2 h3

/-- A shift of the mounting of a camera by 1e-9 m is not noticed, one by 1e-7 m is. -/
example : rigEqual shifts demoRig { demoRig with T := demoRig.T.map (· + 1 / 1000000000) } = .ok true ∧
    rigEqual shifts demoRig { demoRig with T := demoRig.T.map (· + 1 / 10000000) } ≠ .ok true := by
  have hb : baseEqual demoRig.base demoRig.base = true := by simp [baseEqual, (HashId.eq_iff _ _).1]
  have hd : demoRig.T = [3] := rfl
  have hc : demoRig.cameras = [plain] := rfl
  constructor
  · simp [rigEqual, hb, hd, hc, camsEqual, camEqual_refl, matClose, shifts, Mat.entries, kEpsilon]
    rw [abs_of_pos (by norm_num)]
    norm_num
  · simp [rigEqual, hb, hd, hc, camsEqual, camEqual_refl, matClose, shifts, Mat.entries, kEpsilon]
    rw [abs_of_pos (by norm_num)]
    norm_num

end Verif.Yaml
