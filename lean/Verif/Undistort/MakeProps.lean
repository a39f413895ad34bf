import Verif.Undistort.Make
import Verif.Undistort.Props

/-!
# Property C129

Undistorters and what they do to images.
-/

namespace Verif.Undistort

open Verif (Outcome)
open Verif.Camera (V2 V3 Box PinholeValid UnifiedValid pinholeProject pinholeBackProject unifiedProject unifiedBackProject)
open Verif.Distortion (Model)
open Classical

/-! ## What is made -/

/-- Specification: the kind of the output camera, its intrinsics from the camera matrix; a mirror keeps its parameter. -/
def OutputProjection (toPinhole : Bool) (p : Projection) (K : CameraMatrix) (q : Projection) : Prop :=
  match p with
  | .pinhole _ => toPinhole = false ∧ q = .pinhole ![K.fx, K.fy, K.cx, K.cy]
  | .unified i => q = if toPinhole then .pinhole ![K.fx, K.fy, K.cx, K.cy] else .unified ![i 0, K.fx, K.fy, K.cx, K.cy]
  | .other => False

/-- Specification: a valid camera. -/
def Projection.Valid : Projection → Prop
  | .pinhole i => PinholeValid i
  | .unified i => UnifiedValid i
  | .other => False

/-- Specification: a camera without distortion, line delay and mask. -/
def Plain (o : Cam) (id w h : Nat) (p : Projection) : Prop :=
  o = ⟨id, 0, none, w, h, p, 0, Verif.Distortion.null, Fin.elim0⟩

/-- Specification: the undistorter that belongs to an input camera and a kind of output camera. -/
structure Belongs (x : Ctx) (c : Cam) (scale : ℝ) (method : Method) (p : Projection) (u : Undistorter) : Prop where
  input : u.input = some c
  output : ∃ o, u.output = some o ∧ Plain o x.fresh (x.times scale c.width).toNat (x.times scale c.height).toNat p ∧
    u.maps.colsU = o.width ∧ u.maps.rowsU = o.height ∧
    ∀ j i k, position c o j i = some k → u.maps.entry j i = pack (x.round (k.1 * 32)) (x.round (k.2 * 32))
  method_eq : u.method = method

theorem newCam_ok {fresh : Nat} {p : Projection} {w h : Nat} {o : Cam} :
    newCam fresh p w h = .ok o ↔ p.Valid ∧ Plain o fresh w h p := by
  unfold newCam Plain Projection.Valid
  cases p with
  | pinhole i =>
    simp only
    split
    · rename_i hv
      constructor
      · intro e
        injection e with e
        exact ⟨hv, e.symm⟩
      · rintro ⟨_, rfl⟩
        rfl
    · rename_i hv
      constructor
      · intro e
        cases e
      · rintro ⟨h, _⟩
        exact absurd h hv
  | unified i =>
    simp only
    split
    · rename_i hv
      constructor
      · intro e
        injection e with e
        exact ⟨hv, e.symm⟩
      · rintro ⟨_, rfl⟩
        rfl
    · rename_i hv
      constructor
      · intro e
        cases e
      · rintro ⟨h, _⟩
        exact absurd h hv
  | other =>
    simp only
    constructor
    · intro e
      cases e
    · rintro ⟨h, _⟩
      exact h.elim

theorem newCam_abort {fresh : Nat} {p : Projection} {w h : Nat} (hv : ¬ p.Valid) : newCam fresh p w h = .abort := by
  unfold newCam
  unfold Projection.Valid at hv
  cases p with
  | pinhole i =>
    simp only at hv ⊢
    rw [if_neg hv]
  | unified i =>
    simp only at hv ⊢
    rw [if_neg hv]
  | other => rfl

/-- The last part succeeds exactly if the output camera is valid. -/
theorem finish_spec (x : Ctx) (c : Cam) (scale : ℝ) (method : Method) (p : Projection) :
    (p.Valid → ∃ u, finish x c scale method p = .ok u ∧ Belongs x c scale method p u) ∧
      (¬ p.Valid → finish x c scale method p = .abort) := by
  constructor
  · intro hv
    unfold finish
    have hn := (newCam_ok (fresh := x.fresh) (p := p) (w := (x.times scale c.width).toNat)
      (h := (x.times scale c.height).toNat)).2 ⟨hv, rfl⟩
    rw [hn, Outcome.bind_ok]
    unfold construct buildMaps
    simp only [ne_eq, not_true_eq_false, if_false, if_neg (show ¬ MapType.fixed = MapType.pairs by decide)]
    refine ⟨_, rfl, ?_⟩
    refine ⟨rfl, ⟨_, rfl, rfl, rfl, rfl, ?_⟩, rfl⟩
    intro j i k hk
    simp only [hk]
  · intro hv
    unfold finish
    rw [newCam_abort hv]
    rfl

theorem checked_iff (alpha scale : ℝ) : checked alpha scale = true ↔ 0 ≤ alpha ∧ alpha ≤ 1 ∧ 0 < scale := by
  unfold checked
  simp only [Bool.and_eq_true, decide_eq_true_eq, ge_iff_le, gt_iff_lt, and_assoc]

theorem matrixOf_ok (c : Cam) (ss : List Sample) {alpha scale : ℝ} (h : checked alpha scale = true) :
    ∃ K, matrixOf c ss alpha scale = .ok K :=
  (matrix_checks c.width c.height (rectangles ss).1 (rectangles ss).2 alpha scale).2.2 ((checked_iff alpha scale).1 h)

/-- The samples that decide about the output camera. -/
noncomputable def samplesOf (toPinhole : Bool) (c : Cam) : List Sample :=
  match c.projection with
  | .pinhole i => ownSamples c (i 0) (i 1) (i 2) (i 3)
  | .unified i => if toPinhole then pinholeSamples c else ownSamples c (i 1) (i 2) (i 3) (i 4)
  | .other => []

/-- **C129 (samples).** The rectangles are made of the rays that the camera sees at the 81 points of a grid over the image,
at depth one: for a pinhole camera and, if the output is a pinhole camera, for a camera with a mirror.  Otherwise they are
made of the points of the mirror plane, with the distortion undone. -/
theorem samplesOf_spec (toPinhole : Bool) (c : Cam) :
    match c.projection with
    | .pinhole _ => ∀ x y : Nat, x < 9 → y < 9 → ∀ r, c.backProject ((x * c.width / 8 : Nat), (y * c.height / 8 : Nat)) = some r →
        ⟨x, y, (r.1, r.2.1)⟩ ∈ samplesOf toPinhole c ∧ r.2.2 = 1
    | .unified i =>
      (toPinhole = true → ∀ x y : Nat, x < 9 → y < 9 → ∀ r, c.backProject ((x * c.width / 8 : Nat), (y * c.height / 8 : Nat)) = some r →
        ⟨x, y, (r.1 / r.2.2, r.2.1 / r.2.2)⟩ ∈ samplesOf toPinhole c) ∧
      (toPinhole = false → ∀ x y : Nat, x < 9 → y < 9 → ∀ q, c.distortion.undistort c.coefficients
          ((((x * c.width / 8 : Nat) : ℝ) - i 3) / i 1, (((y * c.height / 8 : Nat) : ℝ) - i 4) / i 2) = some q →
        ⟨x, y, q⟩ ∈ samplesOf toPinhole c)
    | .other => samplesOf toPinhole c = [] := by
  cases hp : c.projection with
  | pinhole i =>
    simp only
    intro x y hx hy r hr
    unfold Cam.backProject pinholeBackProject at hr
    simp only [hp] at hr
    obtain ⟨q, hq, rfl⟩ := Option.map_eq_some_iff.1 hr
    refine ⟨?_, rfl⟩
    unfold samplesOf ownSamples
    simp only [hp]
    refine mem_samples.2 ⟨x, y, hx, hy, ?_⟩
    unfold normalizePlain Cam.undistort
    rw [one_div_mul_eq_div, one_div_mul_eq_div, hq]
    rfl
  | unified i =>
    simp only
    constructor
    · intro ht x y hx hy r hr
      unfold samplesOf pinholeSamples
      simp only [hp, ht, if_true]
      refine mem_samples.2 ⟨x, y, hx, hy, ?_⟩
      unfold normalizeFull
      simp only [hr]
      rfl
    · intro ht x y hx hy q hq
      unfold samplesOf ownSamples
      simp only [hp, ht, Bool.false_eq_true, if_false]
      refine mem_samples.2 ⟨x, y, hx, hy, ?_⟩
      unfold normalizePlain Cam.undistort
      rw [one_div_mul_eq_div, one_div_mul_eq_div, hq]
      rfl
  | other =>
    simp only
    unfold samplesOf
    rw [hp]

/-- **C129 (creation).** For a pinhole camera or one with a mirror, an alpha in [0, 1] and a positive scale there is a camera
matrix; if the output camera with this matrix is valid the undistorter is made: its input camera is the camera that was
given, its output camera is of the same kind (and mirror), with a new id and without distortion, line delay and mask,
with the scaled size; its maps have that size and hold, for every output pixel, the place where the input camera sees the
ray of the pixel.  If the output camera is not valid the call aborts. -/
theorem create_spec (x : Ctx) (c : Cam) (alpha scale : ℝ) (method : Method) (hc : c.projection ≠ .other)
    (h : 0 ≤ alpha ∧ alpha ≤ 1 ∧ 0 < scale) :
    ∃ K q, matrixOf c (samplesOf false c) alpha scale = .ok K ∧ OutputProjection false c.projection K q ∧
      (q.Valid → ∃ u, createMapped x c alpha scale method = .ok u ∧ Belongs x c scale method q u) ∧
      (¬ q.Valid → createMapped x c alpha scale method = .abort) := by
  have hk := (checked_iff alpha scale).2 h
  unfold createMapped samplesOf OutputProjection
  simp only [hk, Bool.true_eq_false, if_false]
  cases hp : c.projection with
  | pinhole i =>
    obtain ⟨K, hK⟩ := matrixOf_ok c (ownSamples c (i 0) (i 1) (i 2) (i 3)) hk
    obtain ⟨f1, f2⟩ := finish_spec x c scale method (.pinhole ![K.fx, K.fy, K.cx, K.cy])
    refine ⟨K, _, hK, ⟨trivial, rfl⟩, ?_, ?_⟩
    · intro hv
      simp only [hK, Outcome.bind_ok]
      exact f1 hv
    · intro hv
      simp only [hK, Outcome.bind_ok]
      exact f2 hv
  | unified i =>
    obtain ⟨K, hK⟩ := matrixOf_ok c (ownSamples c (i 1) (i 2) (i 3) (i 4)) hk
    obtain ⟨f1, f2⟩ := finish_spec x c scale method (.unified ![i 0, K.fx, K.fy, K.cx, K.cy])
    refine ⟨K, _, by simpa using hK, rfl, ?_, ?_⟩
    · intro hv
      simp only [hK, Outcome.bind_ok]
      exact f1 (by simpa using hv)
    · intro hv
      simp only [hK, Outcome.bind_ok]
      exact f2 (by simpa using hv)
  | other => exact absurd hp hc

/-- **C129 (to a pinhole camera).** The same for cameras with a mirror that are undistorted to a pinhole camera. -/
theorem toPinhole_spec (x : Ctx) (c : Cam) (alpha scale : ℝ) (method : Method) {i : Fin 5 → ℝ}
    (hc : c.projection = .unified i) (h : 0 ≤ alpha ∧ alpha ≤ 1 ∧ 0 < scale) :
    ∃ K q, matrixOf c (samplesOf true c) alpha scale = .ok K ∧ OutputProjection true c.projection K q ∧
      (q.Valid → ∃ u, createToPinhole x c alpha scale method = .ok u ∧ Belongs x c scale method q u) ∧
      (¬ q.Valid → createToPinhole x c alpha scale method = .abort) := by
  have hk := (checked_iff alpha scale).2 h
  unfold createToPinhole samplesOf OutputProjection
  simp only [hk, Bool.true_eq_false, if_false, hc]
  obtain ⟨K, hK⟩ := matrixOf_ok c (pinholeSamples c) hk
  obtain ⟨f1, f2⟩ := finish_spec x c scale method (.pinhole ![K.fx, K.fy, K.cx, K.cy])
  refine ⟨K, _, by simpa using hK, rfl, ?_, ?_⟩
  · intro hv
    simp only [hK, Outcome.bind_ok]
    exact f1 (by simpa using hv)
  · intro hv
    simp only [hK, Outcome.bind_ok]
    exact f2 (by simpa using hv)

/-- **C129 (rejected).** Other cameras, and an alpha or scale that is not allowed, are rejected. -/
theorem create_rejects (x : Ctx) (c : Cam) (alpha scale : ℝ) (method : Method)
    (h : c.projection = .other ∨ alpha < 0 ∨ 1 < alpha ∨ scale ≤ 0) :
    createMapped x c alpha scale method = .abort ∧
      (c.projection ≠ .other → createToPinhole x c alpha scale method = .abort) := by
  have hk : c.projection = .other ∨ checked alpha scale = false := by
    rcases h with h | h
    · exact Or.inl h
    · refine Or.inr ?_
      rw [Bool.eq_false_iff]
      intro e
      have := (checked_iff alpha scale).1 e
      rcases h with h | h | h <;> linarith [this.1, this.2.1, this.2.2]
  unfold createMapped createToPinhole
  rcases hk with hk | hk
  · refine ⟨?_, fun e => absurd hk e⟩
    rw [hk]
    simp
  · simp [hk]

/-- **C129 (success).** If the optical axis is strictly inside of the rectangles that are fitted, and the output image
has at least two pixels each way, the undistorter is made. -/
theorem create_succeeds (x : Ctx) (c : Cam) (alpha scale : ℝ) (method : Method) {i : Fin 4 → ℝ}
    (hc : c.projection = .pinhole i) (h : 0 ≤ alpha ∧ alpha ≤ 1 ∧ 0 < scale) {inner outer : Rect}
    (hr : rectangles (samplesOf false c) = (inner, outer))
    (hi : inner.x < 0 ∧ inner.y < 0 ∧ 0 < inner.x + inner.width ∧ 0 < inner.y + inner.height)
    (ho : outer.x < 0 ∧ outer.y < 0 ∧ 0 < outer.x + outer.width ∧ 0 < outer.y + outer.height)
    (hW : 2 ≤ outputSize scale c.width) (hH : 2 ≤ outputSize scale c.height) :
    ∃ u, createMapped x c alpha scale method = .ok u := by
  obtain ⟨K, q, hK, hq, h1, _⟩ := create_spec x c alpha scale method (by rw [hc]; exact fun e => by cases e) h
  unfold matrixOf at hK
  rw [hr] at hK
  have hv := matrix_valid hK hi ho hW hH
  unfold OutputProjection at hq
  rw [hc] at hq
  obtain ⟨u, hu, _⟩ := h1 (by rw [hq.2]; exact hv)
  exact ⟨u, hu⟩

/-- **C129 refuted (every positive scale).** A scale that leaves one column passes the checks but the call aborts, for every
pinhole camera without distortion. -/
theorem scale_refuted (x : Ctx) (c : Cam) (alpha scale : ℝ) (method : Method) {i : Fin 4 → ℝ}
    (hc : c.projection = .pinhole i) (h : 0 ≤ alpha ∧ alpha ≤ 1 ∧ 0 < scale) (hs : outputSize scale c.width = 1) :
    createMapped x c alpha scale method = .abort := by
  obtain ⟨K, q, hK, hq, _, h2⟩ := create_spec x c alpha scale method (by rw [hc]; exact fun e => by cases e) h
  apply h2
  unfold OutputProjection at hq
  rw [hc] at hq
  rw [hq.2]
  obtain ⟨_, _, _, a1, _⟩ := newCameraMatrix_eq hK
  intro hv
  have h0 : 0 < K.fx := hv.1
  rw [a1, hs] at h0
  simp only [fit] at h0
  norm_num at h0

example : outputSize (1 / 500) 640 = 1 := by
  unfold outputSize
  rw [Int.floor_eq_iff]
  norm_num

/-! ## The constructor -/

/-- **C129 (constructor).** With an output camera, the maps are accepted exactly if both have its size. -/
theorem construct_iff (input : Option Cam) (o : Cam) (m : Maps) (method : Method) :
    (∃ u, construct input (some o) m method = .ok u) ↔
      m.rowsU = o.height ∧ m.colsU = o.width ∧ m.rowsV = o.height ∧ m.colsV = o.width := by
  unfold construct
  simp only
  by_cases h1 : m.rowsU = o.height <;> by_cases h2 : m.colsU = o.width <;> by_cases h3 : m.rowsV = o.height <;>
    by_cases h4 : m.colsV = o.width <;> simp [h1, h2, h3, h4]

/-- **C129 (made maps are accepted), in part.** Maps of two of the three types that `buildUndistortMap` makes are accepted for the
cameras they were made for. -/
theorem construct_built_partial (round : ℝ → ℤ) (junk : Packed) (t : MapType) (ht : t ≠ .pairs) (input o : Cam)
    (method : Method) : ∃ u, construct (some input) (some o) (buildMaps round junk t input o) method = .ok u := by
  rw [construct_iff]
  unfold buildMaps
  simp [ht]

/-- **C129 refuted (made maps are accepted).** Maps of the third type, pairs of floats, are rejected (unless the image is
empty). -/
theorem construct_pairs_refuted (round : ℝ → ℤ) (junk : Packed) (input o : Cam) (method : Method) (h : 0 < o.height) :
    construct (some input) (some o) (buildMaps round junk .pairs input o) method = .abort := by
  unfold construct buildMaps
  have : (0 : Nat) ≠ o.height := by omega
  simp [this]

/-- **C129 refuted (null pointers are rejected).** A null pointer for the output camera is looked at; one for the input camera
is accepted and looked at by the first image. -/
theorem construct_null_refuted (others : Method → Img → Packed → Nat) (o : Cam) (m : Maps) (method : Method) (img : Img)
    (hm : m.rowsU = o.height ∧ m.colsU = o.width ∧ m.rowsV = o.height ∧ m.colsV = o.width) :
    construct none none m method = .ub ∧
      ∃ u, construct none (some o) m method = .ok u ∧ processImage others u img true = .ub := by
  obtain ⟨h1, h2, h3, h4⟩ := hm
  refine ⟨rfl, ⟨none, some o, m, method⟩, ?_, rfl⟩
  unfold construct
  simp [h1, h2, h3, h4]

/-! ## What images become -/

/-- **C129 (images).** Images of the size of the input camera, and only these, are processed; the output image has the size of
the maps, and each pixel is the interpolation at its map entry. -/
theorem process_spec (others : Method → Img → Packed → Nat) (u : Undistorter) {c : Cam} (hu : u.input = some c) (m : Img) :
    (c.width = m.width ∧ c.height = m.height → processImage others u m true =
      .ok ⟨u.maps.colsU, u.maps.rowsU, fun j i => interpolate others u.method m (u.maps.entry j i)⟩) ∧
    (¬ (c.width = m.width ∧ c.height = m.height) → processImage others u m true = .abort) ∧
    processImage others u m false = .abort := by
  unfold processImage
  rw [hu]
  by_cases h1 : c.width = m.width <;> by_cases h2 : c.height = m.height <;> simp [h1, h2]

/-- **C129 (area).** Interpolation by area is linear interpolation. -/
theorem process_area (others : Method → Img → Packed → Nat) (u : Undistorter) (m : Img) (out : Bool) :
    processImage others { u with method := .area } m out = processImage others { u with method := .linear } m out ∧
      ∀ p, interpolate others .linear m p = bilinear m p := ⟨rfl, fun _ => rfl⟩

/-- Specification: the value of bilinear interpolation, exactly. -/
def blend (m : Img) (x y : Int) (a b : ℚ) : ℚ :=
  (1 - a) * (1 - b) * m.at x y + a * (1 - b) * m.at (x + 1) y + (1 - a) * b * m.at x (y + 1) + a * b * m.at (x + 1) (y + 1)

/-- **C129 (linear).** The pixel is the bilinear interpolation of the four pixels around its place, rounded to the
nearest value. -/
theorem bilinear_spec (m : Img) (p : Packed) (hp : p.frac < 1024) :
    |(bilinear m p : ℚ) - blend m p.u p.v (((p.frac % 32 : Nat) : ℚ) / 32) (((p.frac / 32 : Nat) : ℚ) / 32)| ≤ 1 / 2 := by
  unfold bilinear blend
  simp only
  have ha : p.frac % 32 ≤ 32 := by omega
  have hb : p.frac / 32 ≤ 32 := by omega
  generalize p.frac % 32 = a at *
  generalize p.frac / 32 = b at *
  generalize m.at p.u p.v = v1
  generalize m.at (p.u + 1) p.v = v2
  generalize m.at p.u (p.v + 1) = v3
  generalize m.at (p.u + 1) (p.v + 1) = v4
  obtain ⟨s, hs⟩ : ∃ s : Nat, s = (32 - a) * (32 - b) * v1 + a * (32 - b) * v2 + (32 - a) * b * v3 + a * b * v4 := ⟨_, rfl⟩
  have hsq : (s : ℚ) = (32 - a) * (32 - b) * v1 + a * (32 - b) * v2 + (32 - a) * b * v3 + a * b * v4 := by
    rw [hs]
    push_cast [Nat.cast_sub ha, Nat.cast_sub hb]
    ring
  have hE : (1 - (a : ℚ) / 32) * (1 - (b : ℚ) / 32) * v1 + (a : ℚ) / 32 * (1 - (b : ℚ) / 32) * v2 +
      (1 - (a : ℚ) / 32) * ((b : ℚ) / 32) * v3 + (a : ℚ) / 32 * ((b : ℚ) / 32) * v4 = (s : ℚ) / 1024 := by
    rw [hsq]
    ring
  rw [hE, ← hs]
  have h1 : 1024 * ((s + 512) / 1024) ≤ s + 512 := Nat.mul_div_le _ _
  have h2 : s + 512 < 1024 * ((s + 512) / 1024) + 1024 := by omega
  generalize (s + 512) / 1024 = r at *
  have h1' : (1024 : ℚ) * r ≤ s + 512 := by exact_mod_cast h1
  have h2' : (s : ℚ) + 512 < 1024 * r + 1024 := by exact_mod_cast h2
  rw [abs_le]
  constructor <;> linarith

/-- The fraction of an entry that was packed. -/
theorem pack_frac (iu iv : Int) : (pack iu iv).frac < 1024 := by
  unfold pack
  simp only
  omega

/-- **C129 (whole pixels).** At whole pixels the value is that of the pixel. -/
theorem bilinear_whole (m : Img) (x y : Int) : bilinear m ⟨x, y, 0⟩ = m.at x y := by
  unfold bilinear
  simp only [Nat.zero_mod, Nat.zero_div, Nat.zero_mul, Nat.mul_zero, Nat.sub_zero, Nat.add_zero]
  omega

/-- **C129 (range).** The value is between the least and the greatest of the four pixels. -/
theorem bilinear_range (m : Img) (p : Packed) (hp : p.frac < 1024) {lo hi : Nat}
    (h : ∀ dx dy : Int, (dx = 0 ∨ dx = 1) → (dy = 0 ∨ dy = 1) → lo ≤ m.at (p.u + dx) (p.v + dy) ∧
      m.at (p.u + dx) (p.v + dy) ≤ hi) : lo ≤ bilinear m p ∧ bilinear m p ≤ hi := by
  have h1 := h 0 0 (Or.inl rfl) (Or.inl rfl)
  have h2 := h 1 0 (Or.inr rfl) (Or.inl rfl)
  have h3 := h 0 1 (Or.inl rfl) (Or.inr rfl)
  have h4 := h 1 1 (Or.inr rfl) (Or.inr rfl)
  simp only [add_zero] at h1 h2 h3 h4
  unfold bilinear
  simp only
  have ha : p.frac % 32 ≤ 32 := by omega
  have hb : p.frac / 32 ≤ 32 := by omega
  generalize p.frac % 32 = a at *
  generalize p.frac / 32 = b at *
  obtain ⟨a', ea⟩ : ∃ a', a' + a = 32 := ⟨32 - a, by omega⟩
  obtain ⟨b', eb⟩ : ∃ b', b' + b = 32 := ⟨32 - b, by omega⟩
  have e1 : 32 - a = a' := by omega
  have e2 : 32 - b = b' := by omega
  rw [e1, e2]
  generalize m.at p.u p.v = v1 at *
  generalize m.at (p.u + 1) p.v = v2 at *
  generalize m.at p.u (p.v + 1) = v3 at *
  generalize m.at (p.u + 1) (p.v + 1) = v4 at *
  have hw : a' * b' + a * b' + a' * b + a * b = 1024 := by
    have : (a' + a) * (b' + b) = 1024 := by rw [ea, eb]
    rw [← this]
    ring
  have key : ∀ t : Nat, a' * b' * t + a * b' * t + a' * b * t + a * b * t = 1024 * t := by
    intro t
    rw [← hw]
    ring
  have klo := key lo
  have khi := key hi
  have l1 := Nat.mul_le_mul_left (a' * b') h1.1
  have l2 := Nat.mul_le_mul_left (a * b') h2.1
  have l3 := Nat.mul_le_mul_left (a' * b) h3.1
  have l4 := Nat.mul_le_mul_left (a * b) h4.1
  have u1 := Nat.mul_le_mul_left (a' * b') h1.2
  have u2 := Nat.mul_le_mul_left (a * b') h2.2
  have u3 := Nat.mul_le_mul_left (a' * b) h3.2
  have u4 := Nat.mul_le_mul_left (a * b) h4.2
  constructor <;> omega

/-- **C129 (monotone).** A brighter image becomes a brighter image. -/
theorem bilinear_mono {m m' : Img} (h : ∀ x y, m.at x y ≤ m'.at x y) (p : Packed) : bilinear m p ≤ bilinear m' p := by
  unfold bilinear
  simp only
  apply Nat.div_le_div_right
  have a1 := Nat.mul_le_mul_left ((32 - p.frac % 32) * (32 - p.frac / 32)) (h p.u p.v)
  have a2 := Nat.mul_le_mul_left (p.frac % 32 * (32 - p.frac / 32)) (h (p.u + 1) p.v)
  have a3 := Nat.mul_le_mul_left ((32 - p.frac % 32) * (p.frac / 32)) (h p.u (p.v + 1))
  have a4 := Nat.mul_le_mul_left (p.frac % 32 * (p.frac / 32)) (h (p.u + 1) (p.v + 1))
  omega

/-! ## Places -/

/-- Rounding to a nearest integer, whatever is done with ties. -/
def Nearest (round : ℝ → ℤ) : Prop := ∀ x, |(round x : ℝ) - x| ≤ 1 / 2

theorem nearest_int {round : ℝ → ℤ} (h : Nearest round) (n : ℤ) : round n = n := by
  have := h n
  have h2 : |((round n - n : ℤ) : ℝ)| ≤ 1 / 2 := by push_cast; exact this
  by_contra hne
  have : 1 ≤ |round n - n| := Int.one_le_abs (sub_ne_zero.2 hne)
  have h3 : (1 : ℝ) ≤ |((round n - n : ℤ) : ℝ)| := by exact_mod_cast this
  linarith

example : Nearest _root_.round := fun x => by rw [abs_sub_comm]; exact abs_sub_round x

/-- Specification: the place an entry stands for. -/
noncomputable def place (p : Packed) : V2 :=
  (p.u + ((p.frac % 32 : Nat) : ℝ) / 32, p.v + ((p.frac / 32 : Nat) : ℝ) / 32)

theorem place_pack {iu iv : Int} (h1 : -(2 ^ 20) ≤ iu) (h2 : iu < 2 ^ 20) (h3 : -(2 ^ 20) ≤ iv) (h4 : iv < 2 ^ 20) :
    place (pack iu iv) = ((iu : ℝ) / 32, (iv : ℝ) / 32) := by
  have h := pack_exact_partial h1 h2 h3 h4
  unfold unpack at h
  unfold place
  simp only [Prod.mk.injEq] at h ⊢
  constructor
  · have := congrArg (Rat.cast : ℚ → ℝ) h.1
    push_cast at this ⊢
    exact this
  · have := congrArg (Rat.cast : ℚ → ℝ) h.2
    push_cast at this ⊢
    exact this

/-- **C129 (what a pixel shows), in part.** Take an undistorter of a pinhole camera, with any distortion.  If the output camera
sees a point at a pixel and the input camera sees the point at `k`, within 32767 pixels, then the pixel of the output
image is interpolated at a place at most a 64th of a pixel from `k`. -/
theorem shows_partial {x : Ctx} (hx : Nearest x.round) {c : Cam} {alpha scale : ℝ} {method : Method} {I : Fin 4 → ℝ}
    (hc : c.projection = .pinhole I) {u : Undistorter} (hu : createMapped x c alpha scale method = .ok u) :
    ∃ o, u.output = some o ∧ ∀ (p : V3) (j i : Nat) (k : V2), p.2.2 ≠ 0 → o.project p = some ((j : ℝ), (i : ℝ)) →
      c.project p = some k → |k.1| ≤ 32767 → |k.2| ≤ 32767 →
      |(place (u.maps.entry j i)).1 - k.1| ≤ 1 / 64 ∧ |(place (u.maps.entry j i)).2 - k.2| ≤ 1 / 64 := by
  have hchk : checked alpha scale = true := by
    by_contra h
    unfold createMapped at hu
    rw [if_pos (by simpa using h)] at hu
    cases hu
  obtain ⟨K, q, hK, hq, h1, h2⟩ := create_spec x c alpha scale method (by rw [hc]; exact fun e => by cases e)
    ((checked_iff alpha scale).1 hchk)
  have hv : q.Valid := by
    by_contra hn
    rw [h2 hn] at hu
    cases hu
  obtain ⟨u', hu', hb⟩ := h1 hv
  rw [hu'] at hu
  injection hu with hu
  subst hu
  unfold OutputProjection at hq
  rw [hc] at hq
  obtain ⟨_, hq⟩ := hq
  obtain ⟨o, ho, hpl, _, _, hent⟩ := hb.output
  refine ⟨o, ho, ?_⟩
  intro p j i k hz hp hk hk1 hk2
  have hpos : position c o j i = some k := by
    unfold position
    rw [← hk]
    unfold Plain at hpl
    rw [hq] at hv hpl
    have hmp := map_pinhole_partial c.distortion ⟨c.width, c.height⟩
      ⟨(x.times scale c.width).toNat, (x.times scale c.height).toNat⟩ I ![K.fx, K.fy, K.cx, K.cy] c.coefficients hv
      (p := p) (k := ((j : ℝ), (i : ℝ))) hz (by rw [hpl] at hp; exact hp)
    have e1 : o.backProject = fun k => (pinholeBackProject Verif.Distortion.null ![K.fx, K.fy, K.cx, K.cy] Fin.elim0 k).1 := by
      rw [hpl]
      rfl
    have e2 : c.project = fun p => (pinholeProject c.distortion ⟨c.width, c.height⟩ I c.coefficients p).keypoint := by
      funext p
      unfold Cam.project
      rw [hc]
    rw [e1, e2]
    exact hmp
  rw [hent j i k hpos]
  rw [abs_le] at hk1 hk2
  have n1 := abs_le.1 (hx (k.1 * 32))
  have n2 := abs_le.1 (hx (k.2 * 32))
  have b1 : -(2 ^ 20) ≤ x.round (k.1 * 32) := by
    have : (-(2 ^ 20) : ℝ) ≤ x.round (k.1 * 32) := by linarith [n1.1, hk1.1]
    exact_mod_cast this
  have b2 : x.round (k.1 * 32) < 2 ^ 20 := by
    have : (x.round (k.1 * 32) : ℝ) < 2 ^ 20 := by linarith [n1.2, hk1.2]
    exact_mod_cast this
  have b3 : -(2 ^ 20) ≤ x.round (k.2 * 32) := by
    have : (-(2 ^ 20) : ℝ) ≤ x.round (k.2 * 32) := by linarith [n2.1, hk2.1]
    exact_mod_cast this
  have b4 : x.round (k.2 * 32) < 2 ^ 20 := by
    have : (x.round (k.2 * 32) : ℝ) < 2 ^ 20 := by linarith [n2.2, hk2.2]
    exact_mod_cast this
  rw [place_pack b1 b2 b3 b4, abs_le, abs_le]
  refine ⟨⟨?_, ?_⟩, ⟨?_, ?_⟩⟩ <;> simp only <;> linarith [n1.1, n1.2, n2.1, n2.2]

/-! ## Cameras without distortion -/

/-- The place a pixel shows between pinhole cameras without distortion. -/
theorem position_null {c o : Cam} {I O : Fin 4 → ℝ} {fresh W H : Nat}
    (hc : ∃ id d mk w h, c = ⟨id, d, mk, w, h, .pinhole I, 0, Verif.Distortion.null, Fin.elim0⟩)
    (ho : Plain o fresh W H (.pinhole O)) (j i : Nat) :
    position c o j i = some (I 0 * ((j - O 2) / O 0) + I 2, I 1 * ((i - O 3) / O 1) + I 3) := by
  obtain ⟨id, d, mk, w, h, rfl⟩ := hc
  unfold Plain at ho
  subst ho
  unfold position mapEntry Cam.backProject Cam.project pinholeBackProject
  simp only [Verif.Distortion.null, Option.map_some, Option.bind_some]
  rw [if_neg one_ne_zero, Verif.Camera.pinhole_keypoint _ _ _ _ (by norm_num)]
  simp only [div_one]

/-- **C129 refuted (alpha 0: all pixels valid).** For every pinhole camera without distortion, with exact sizes, and with every
alpha: in the undistorted image the last column and the last row are black, whatever the image is. -/
theorem border_refuted (others : Method → Img → Packed → Nat) {x : Ctx} (hr : Nearest x.round) (ht : x.times = outputSize)
    {I : Fin 4 → ℝ} (hI : PinholeValid I) {id d w h : Nat} {mk : Option (Nat × Nat)}
    (hw : 0 < w ∧ w < 32768) (hh : 0 < h ∧ h < 32768)
    (hf : Finite (samples w h (normalizePlain (I 0) (I 1) (I 2) (I 3) _root_.id)))
    {alpha scale : ℝ} (ha : 0 ≤ alpha ∧ alpha ≤ 1 ∧ 0 < scale)
    (hW : 2 ≤ outputSize scale w) (hH : 2 ≤ outputSize scale h) :
    ∃ u, createMapped x ⟨id, d, mk, w, h, .pinhole I, 0, Verif.Distortion.null, Fin.elim0⟩ alpha scale .linear = .ok u ∧
      ∀ m : Img, m.width = w → m.height = h → ∃ r, processImage others u m true = .ok r ∧
        (r.width : ℤ) = outputSize scale w ∧ (r.height : ℤ) = outputSize scale h ∧
        (∀ i < r.height, r.px (r.width - 1) i = 0) ∧ ∀ j < r.width, r.px j (r.height - 1) = 0 := by
  set c : Cam := ⟨id, d, mk, w, h, .pinhole I, 0, Verif.Distortion.null, Fin.elim0⟩ with hcdef
  have hsamp : samplesOf false c = samples w h (normalizePlain (I 0) (I 1) (I 2) (I 3) _root_.id) := by
    unfold samplesOf ownSamples
    simp only [hcdef]
    rfl
  obtain ⟨i0, i1, i2, i3⟩ := hI
  obtain ⟨K, q, hK, hq, h1, _⟩ := create_spec x c alpha scale .linear (by rw [hcdef]; exact fun e => by cases e) ha
  have hq' : q = .pinhole ![K.fx, K.fy, K.cx, K.cy] := hq.2
  have hKe : K = _ := matrix_null i0 i1 hw.1 hh.1 hf (by unfold matrixOf at hK; rw [hsamp] at hK; exact hK)
  have w2 : (2 : ℝ) ≤ (outputSize scale w : ℝ) := by exact_mod_cast hW
  have h2 : (2 : ℝ) ≤ (outputSize scale h : ℝ) := by exact_mod_cast hH
  have w0 : (0 : ℝ) < w := by exact_mod_cast hw.1
  have h0 : (0 : ℝ) < h := by exact_mod_cast hh.1
  have sx : 0 < ((outputSize scale w : ℝ) - 1) / w := div_pos (by linarith) w0
  have sy : 0 < ((outputSize scale h : ℝ) - 1) / h := div_pos (by linarith) h0
  have hv : q.Valid := by
    rw [hq', hKe]
    exact ⟨mul_pos i0 sx, mul_pos i1 sy, mul_pos i2 sx, mul_pos i3 sy⟩
  obtain ⟨u, hu, hb⟩ := h1 hv
  refine ⟨u, hu, ?_⟩
  intro m hmw hmh
  obtain ⟨o, ho, hpl, hcols, hrows, hent⟩ := hb.output
  have hproc := (process_spec others u hb.input m).1 ⟨hmw.symm, hmh.symm⟩
  refine ⟨_, hproc, ?_⟩
  rw [hq'] at hpl
  have eW : (u.maps.colsU : ℤ) = outputSize scale w := by
    rw [hcols, hpl]
    show (((x.times scale w).toNat : ℕ) : ℤ) = _
    rw [ht, Int.toNat_of_nonneg (by omega)]
  have eH : (u.maps.rowsU : ℤ) = outputSize scale h := by
    rw [hrows, hpl]
    show (((x.times scale h).toNat : ℕ) : ℤ) = _
    rw [ht, Int.toNat_of_nonneg (by omega)]
  refine ⟨eW, eH, ?_, ?_⟩
  · intro i hi
    change interpolate others u.method m (u.maps.entry (u.maps.colsU - 1) i) = 0
    rw [hb.method_eq]
    have hpos := position_null (I := I) ⟨id, d, mk, w, h, hcdef⟩ hpl (u.maps.colsU - 1) i
    rw [hent _ _ _ hpos]
    have ex : I 0 * ((((u.maps.colsU - 1 : ℕ) : ℝ) - (![K.fx, K.fy, K.cx, K.cy] : Fin 4 → ℝ) 2) /
        (![K.fx, K.fy, K.cx, K.cy] : Fin 4 → ℝ) 0) + I 2 = w := by
      have e3 : ((u.maps.colsU - 1 : ℕ) : ℝ) = (outputSize scale w : ℝ) - 1 := by
        have : ((u.maps.colsU - 1 : ℕ) : ℤ) = outputSize scale w - 1 := by omega
        exact_mod_cast this
      rw [e3, hKe]
      show I 0 * (((outputSize scale w : ℝ) - 1 - I 2 * (((outputSize scale w : ℝ) - 1) / w)) /
        (I 0 * (((outputSize scale w : ℝ) - 1) / w))) + I 2 = w
      have : (outputSize scale w : ℝ) - 1 ≠ 0 := by intro e; linarith
      have := i0.ne'
      field_simp
      ring
    show bilinear m _ = 0
    have er : x.round (((w : ℝ)) * 32) = (w : ℤ) * 32 := by
      have := nearest_int hr ((w : ℤ) * 32)
      push_cast at this
      exact this
    simp only [ex, er]
    have hu0 : (pack ((w : ℤ) * 32) (x.round ((I 1 * (((i : ℝ) - (![K.fx, K.fy, K.cx, K.cy] : Fin 4 → ℝ) 3) /
        (![K.fx, K.fy, K.cx, K.cy] : Fin 4 → ℝ) 1) + I 3) * 32))).u = w := by
      have hsh := shift_eq (i := (w : ℤ) * 32) (by omega) (by omega)
      have hdv : (w : ℤ) * 32 / 32 = w := by omega
      rw [hdv] at hsh
      unfold pack
      simp only [hdv, hsh]
    generalize pack ((w : ℤ) * 32) (x.round ((I 1 * (((i : ℝ) - (![K.fx, K.fy, K.cx, K.cy] : Fin 4 → ℝ) 3) /
        (![K.fx, K.fy, K.cx, K.cy] : Fin 4 → ℝ) 1) + I 3) * 32)) = pk at hu0
    have z : ∀ (a b : Int), (w : ℤ) ≤ a → m.at a b = 0 := by
      intro a b hab
      unfold Img.at
      rw [if_neg]
      rintro ⟨_, h2, _⟩
      omega
    unfold bilinear
    simp only [hu0, z _ _ (le_refl _), z _ _ (show (w : ℤ) ≤ (w : ℤ) + 1 by omega), Nat.mul_zero, Nat.add_zero]
  · intro j hj
    change interpolate others u.method m (u.maps.entry j (u.maps.rowsU - 1)) = 0
    rw [hb.method_eq]
    have hpos := position_null (I := I) ⟨id, d, mk, w, h, hcdef⟩ hpl j (u.maps.rowsU - 1)
    rw [hent _ _ _ hpos]
    have ey : I 1 * ((((u.maps.rowsU - 1 : ℕ) : ℝ) - (![K.fx, K.fy, K.cx, K.cy] : Fin 4 → ℝ) 3) /
        (![K.fx, K.fy, K.cx, K.cy] : Fin 4 → ℝ) 1) + I 3 = h := by
      have e3 : ((u.maps.rowsU - 1 : ℕ) : ℝ) = (outputSize scale h : ℝ) - 1 := by
        have : ((u.maps.rowsU - 1 : ℕ) : ℤ) = outputSize scale h - 1 := by omega
        exact_mod_cast this
      rw [e3, hKe]
      show I 1 * (((outputSize scale h : ℝ) - 1 - I 3 * (((outputSize scale h : ℝ) - 1) / h)) /
        (I 1 * (((outputSize scale h : ℝ) - 1) / h))) + I 3 = h
      have : (outputSize scale h : ℝ) - 1 ≠ 0 := by intro e; linarith
      have := i1.ne'
      field_simp
      ring
    show bilinear m _ = 0
    have er : x.round (((h : ℝ)) * 32) = (h : ℤ) * 32 := by
      have := nearest_int hr ((h : ℤ) * 32)
      push_cast at this
      exact this
    simp only [ey, er]
    have hv0 : (pack (x.round ((I 0 * (((j : ℝ) - (![K.fx, K.fy, K.cx, K.cy] : Fin 4 → ℝ) 2) /
        (![K.fx, K.fy, K.cx, K.cy] : Fin 4 → ℝ) 0) + I 2) * 32)) ((h : ℤ) * 32)).v = h := by
      have hsh := shift_eq (i := (h : ℤ) * 32) (by omega) (by omega)
      have hdv : (h : ℤ) * 32 / 32 = h := by omega
      rw [hdv] at hsh
      unfold pack
      simp only [hdv, hsh]
    generalize pack (x.round ((I 0 * (((j : ℝ) - (![K.fx, K.fy, K.cx, K.cy] : Fin 4 → ℝ) 2) /
        (![K.fx, K.fy, K.cx, K.cy] : Fin 4 → ℝ) 0) + I 2) * 32)) ((h : ℤ) * 32) = pk at hv0
    have z : ∀ (a b : Int), (h : ℤ) ≤ b → m.at a b = 0 := by
      intro a b hab
      unfold Img.at
      rw [if_neg]
      rintro ⟨_, _, _, h2⟩
      omega
    unfold bilinear
    simp only [hv0, z _ _ (le_refl _), z _ _ (show (h : ℤ) ≤ (h : ℤ) + 1 by omega), Nat.mul_zero, Nat.add_zero]

/-! ## Sizes in floating point -/

/-- Specification: a number of single precision. -/
def Single (y : ℝ) : Prop := ∃ (m e : ℤ), |m| < 2 ^ 24 ∧ -149 ≤ e ∧ y = m * (2 : ℝ) ^ e

/-- Specification: a nearest number of single precision. -/
def Rounded (x y : ℝ) : Prop := Single y ∧ ∀ z, Single z → |x - y| ≤ |x - z|

/-- Specification: the product of a `float` and an integer, in single precision, without its fraction. -/
def SingleTimes (times : ℝ → Nat → ℤ) : Prop :=
  ∀ (s : ℝ) (n : ℕ) (y : ℝ), Rounded (s * n) y → (∀ z, Rounded (s * n) z → z = y) → times s n = ⌊y⌋

/-- The `float` closest to 0.7. -/
noncomputable def seven : ℝ := 11744051 / 2 ^ 24

example : Single seven := ⟨11744051, -24, by norm_num, by norm_num, by unfold seven; norm_num [zpow_neg]⟩

theorem single_448 {y : ℝ} (h : Single y) (hd : |seven * ((640 : ℕ) : ℝ) - y| ≤ 1 / 2 ^ 17) : y = 448 := by
  obtain ⟨m, e, hm, he, hy⟩ := h
  have hx : seven * ((640 : ℕ) : ℝ) = 448 - 1 / 2 ^ 17 := by
    unfold seven
    norm_num
  rw [hx, abs_le] at hd
  have lo : (448 : ℝ) - 2 / 2 ^ 17 ≤ y := by linarith [hd.2]
  have hi : y ≤ 448 := by linarith [hd.1]
  by_cases hle : e ≤ -16
  · exfalso
    have hp : (2 : ℝ) ^ e ≤ 2 ^ (-16 : ℤ) := zpow_le_zpow_right₀ (by norm_num) hle
    have hp0 : (0 : ℝ) < 2 ^ e := zpow_pos (by norm_num) e
    have hm' : (m : ℝ) < 2 ^ 24 := by
      have := (abs_lt.1 hm).2
      exact_mod_cast this
    have : y < 2 ^ 24 * 2 ^ (-16 : ℤ) := by
      rw [hy]
      calc (m : ℝ) * 2 ^ e < 2 ^ 24 * 2 ^ e := mul_lt_mul_of_pos_right hm' hp0
        _ ≤ 2 ^ 24 * 2 ^ (-16 : ℤ) := mul_le_mul_of_nonneg_left hp (by norm_num)
    norm_num [zpow_neg] at this
    norm_num at lo
    linarith
  · obtain ⟨t, ht⟩ : ∃ t : ℕ, e = -15 + t := ⟨(e + 15).toNat, by omega⟩
    have hyt : y * 2 ^ 15 = ((m * 2 ^ t : ℤ) : ℝ) := by
      rw [hy, ht, zpow_add₀ (by norm_num)]
      push_cast
      rw [zpow_natCast]
      norm_num [zpow_neg]
      ring
    have l2 : ((448 * 2 ^ 15 - 1 : ℤ) : ℝ) < ((m * 2 ^ t : ℤ) : ℝ) := by
      rw [← hyt]
      push_cast
      norm_num at lo ⊢
      linarith
    have u2 : ((m * 2 ^ t : ℤ) : ℝ) ≤ ((448 * 2 ^ 15 : ℤ) : ℝ) := by
      rw [← hyt]
      push_cast
      linarith
    have l3 : (448 * 2 ^ 15 - 1 : ℤ) < m * 2 ^ t := by exact_mod_cast l2
    have u3 : m * 2 ^ t ≤ (448 * 2 ^ 15 : ℤ) := by exact_mod_cast u2
    have : m * 2 ^ t = (448 * 2 ^ 15 : ℤ) := by omega
    rw [this] at hyt
    push_cast at hyt
    linarith

/-- The only integer that 0.7 times 640 may be rounded to is 448. -/
theorem rounded_448 : Rounded (seven * (640 : ℕ)) 448 ∧ ∀ z, Rounded (seven * (640 : ℕ)) z → z = 448 := by
  have h448 : Single 448 := ⟨448, 0, by norm_num, by norm_num, by norm_num⟩
  have e1 : |seven * ((640 : ℕ) : ℝ) - 448| = 1 / 2 ^ 17 := by
    have hx : seven * ((640 : ℕ) : ℝ) - 448 = -(1 / 2 ^ 17) := by
      unfold seven
      norm_num
    rw [hx, abs_neg, abs_of_pos (by positivity)]
  refine ⟨⟨h448, fun z hz => ?_⟩, fun z hz => ?_⟩
  · rw [e1]
    by_contra hn
    have := single_448 hz (not_le.1 hn).le
    rw [this, e1] at hn
    exact hn (le_refl _)
  · have := hz.2 448 h448
    rw [e1] at this
    exact single_448 hz.1 this

/-- Such a product exists. -/
theorem exists_singleTimes : ∃ times, SingleTimes times := by
  refine ⟨fun s n => if h : ∃ y, Rounded (s * n) y then ⌊h.choose⌋ else 0, ?_⟩
  intro s n y hy hu
  have h : ∃ y, Rounded (s * n) y := ⟨y, hy⟩
  simp only [dif_pos h]
  rw [hu _ h.choose_spec]

/-- **C129 refuted (the output camera fits its image).** The size of the output image is computed in single precision, the
size for which the camera matrix is made in double precision.  At scale 0.7 an image of 640 columns becomes one of 448
columns with the camera matrix for 447, so that with alpha 0 the last column shows rays outside of the inscribed rectangle. -/
theorem size_refuted {x : Ctx} (hx : SingleTimes x.times) {I : Fin 4 → ℝ} {id d h : Nat} {mk : Option (Nat × Nat)}
    (method : Method) {u : Undistorter}
    (hu : createMapped x ⟨id, d, mk, 640, h, .pinhole I, 0, Verif.Distortion.null, Fin.elim0⟩ 0 seven method = .ok u)
    {inner outer : Rect} (hin : 0 < inner.width)
    (hr : rectangles (samplesOf false ⟨id, d, mk, 640, h, .pinhole I, 0, Verif.Distortion.null, Fin.elim0⟩) = (inner, outer)) :
    ∃ o, u.output = some o ∧ o.width = 448 ∧ outputSize seven 640 = 447 ∧
      ∀ i : Nat, ∃ r, o.backProject ((447 : ℕ), i) = some r ∧ r.2.2 = 1 ∧ ¬ inner.Contains (r.1, r.2.1) := by
  set c : Cam := ⟨id, d, mk, 640, h, .pinhole I, 0, Verif.Distortion.null, Fin.elim0⟩ with hcdef
  have hs7 : (0 : ℝ) < seven := by unfold seven; norm_num
  obtain ⟨K, q, hK, hq, h1, h2⟩ := create_spec x c 0 seven method (by rw [hcdef]; exact fun e => by cases e)
    ⟨le_refl _, by norm_num, hs7⟩
  have hv : q.Valid := by
    by_contra hn
    rw [h2 hn] at hu
    cases hu
  obtain ⟨u', hu', hb⟩ := h1 hv
  rw [hu'] at hu
  injection hu with hu
  subst hu
  have hq' : q = .pinhole ![K.fx, K.fy, K.cx, K.cy] := hq.2
  obtain ⟨o, ho, hpl, _⟩ := hb.output
  have hout : outputSize seven 640 = 447 := by
    unfold outputSize seven
    rw [Int.floor_eq_iff]
    norm_num
  have hty := hx seven 640 448 rounded_448.1 rounded_448.2
  have hty' : x.times seven 640 = 448 := by
    rw [hty]
    norm_num
  refine ⟨o, ho, ?_, hout, ?_⟩
  · rw [hpl]
    show (x.times seven 640).toNat = 448
    rw [hty']
    rfl
  · intro i
    unfold matrixOf at hK
    rw [hr] at hK
    obtain ⟨_, _, _, a1, _, a3, _⟩ := newCameraMatrix_eq hK
    have hout' : outputSize seven c.width = 447 := hout
    rw [hout'] at a1 a3
    simp only [fit] at a1 a3
    rw [hpl, hq']
    refine ⟨_, rfl, rfl, ?_⟩
    rintro ⟨_, hle, _⟩
    have hle' : (((447 : ℕ) : ℝ) - K.cx) / K.fx ≤ inner.x + inner.width := hle
    have e1 : K.fx = 446 / inner.width := by rw [a1]; push_cast; ring
    have e2 : K.cx = -(446 / inner.width) * inner.x := by rw [a3]; push_cast; ring
    rw [e1, e2, div_le_iff₀ (by positivity)] at hle'
    have e3 : (inner.x + inner.width) * (446 / inner.width) = 446 / inner.width * inner.x + 446 := by
      field_simp
    rw [e3] at hle'
    push_cast at hle'
    linarith

/-- Non-vacuity: a camera of 640 times 480 pixels, for which both refutations apply. -/
theorem vga_finite : Finite (samples 640 480 (normalizePlain ((![400, 400, 320, 240] : Fin 4 → ℝ) 0)
    ((![400, 400, 320, 240] : Fin 4 → ℝ) 1) ((![400, 400, 320, 240] : Fin 4 → ℝ) 2)
    ((![400, 400, 320, 240] : Fin 4 → ℝ) 3) _root_.id)) := by
  intro s hs
  obtain ⟨x, y, hx, hy, rfl⟩ := mem_samples.1 hs
  have hb := fltMax_big
  have h1 : ((x * 640 / 8 : Nat) : ℝ) ≤ 640 := by
    have : x * 640 / 8 ≤ 640 := by omega
    exact_mod_cast this
  have h2 : ((y * 480 / 8 : Nat) : ℝ) ≤ 480 := by
    have : y * 480 / 8 ≤ 480 := by omega
    exact_mod_cast this
  have h3 : (0 : ℝ) ≤ ((x * 640 / 8 : Nat) : ℝ) := Nat.cast_nonneg _
  have h4 : (0 : ℝ) ≤ ((y * 480 / 8 : Nat) : ℝ) := Nat.cast_nonneg _
  show |1 / 400 * (((x * 640 / 8 : Nat) : ℝ) - 320)| ≤ fltMax ∧ |1 / 400 * (((y * 480 / 8 : Nat) : ℝ) - 240)| ≤ fltMax
  constructor <;> rw [abs_le] <;> constructor <;> linarith

example : ∃ u, createMapped ⟨outputSize, _root_.round, ⟨0, 0, 0⟩, 7⟩
    ⟨3, 0, none, 640, 480, .pinhole ![400, 400, 320, 240], 0, Verif.Distortion.null, Fin.elim0⟩ 0 1 .linear = .ok u := by
  have hs : ∀ n : Nat, outputSize 1 n = n := by
    intro n
    unfold outputSize
    rw [one_mul, Int.floor_natCast]
  obtain ⟨u, hu, _⟩ := border_refuted (fun _ _ _ => 0) (x := ⟨outputSize, _root_.round, ⟨0, 0, 0⟩, 7⟩)
    (I := ![400, 400, 320, 240]) (id := 3) (d := 0) (mk := none) (w := 640) (h := 480) (alpha := 0) (scale := 1)
    (fun x => by rw [abs_sub_comm]; exact abs_sub_round x) rfl
    ⟨by show (400 : ℝ) > 0; norm_num, by show (400 : ℝ) > 0; norm_num, by show (320 : ℝ) > 0; norm_num,
      by show (240 : ℝ) > 0; norm_num⟩ (by norm_num) (by norm_num) vga_finite
    ⟨le_refl _, by norm_num, by norm_num⟩ (by rw [hs]; norm_num) (by rw [hs]; norm_num)
  exact ⟨u, hu⟩

/-- Non-vacuity of the second: with any product in single precision the undistorter at scale 0.7 exists. -/
example : ∃ (times : ℝ → Nat → ℤ) (u : Undistorter) (inner outer : Rect), SingleTimes times ∧
    createMapped ⟨times, _root_.round, ⟨0, 0, 0⟩, 7⟩
      ⟨3, 0, none, 640, 480, .pinhole ![400, 400, 320, 240], 0, Verif.Distortion.null, Fin.elim0⟩ 0 seven .linear = .ok u ∧
    rectangles (samplesOf false
      ⟨3, 0, none, 640, 480, .pinhole ![400, 400, 320, 240], 0, Verif.Distortion.null, Fin.elim0⟩) = (inner, outer) ∧
    0 < inner.width := by
  obtain ⟨times, ht⟩ := exists_singleTimes
  have hr := rectangles_null (w := 640) (h := 480) (fx := 400) (fy := 400) (cx := 320) (cy := 240) (by norm_num)
    (by norm_num) vga_finite
  have hrect : ∀ t : ℝ → Nat → ℤ, rectangles (samplesOf false
      ⟨3, 0, none, 640, 480, .pinhole ![400, 400, 320, 240], 0, Verif.Distortion.null, Fin.elim0⟩) =
      (⟨-320 / 400, -240 / 400, ((640 : ℕ) : ℝ) / 400, ((480 : ℕ) : ℝ) / 400⟩,
        ⟨-320 / 400, -240 / 400, ((640 : ℕ) : ℝ) / 400, ((480 : ℕ) : ℝ) / 400⟩) := fun _ => hr
  obtain ⟨u, hu⟩ := create_succeeds ⟨times, _root_.round, ⟨0, 0, 0⟩, 7⟩
    ⟨3, 0, none, 640, 480, .pinhole ![400, 400, 320, 240], 0, Verif.Distortion.null, Fin.elim0⟩ 0 seven .linear
    (i := ![400, 400, 320, 240]) rfl ⟨le_refl _, by norm_num, by unfold seven; norm_num⟩ (hrect times)
    (by norm_num) (by norm_num)
    (by unfold outputSize seven; rw [Int.le_floor]; norm_num) (by unfold outputSize seven; rw [Int.le_floor]; norm_num)
  exact ⟨times, u, _, _, ht, hu, hrect times, by norm_num⟩

end Verif.Undistort
