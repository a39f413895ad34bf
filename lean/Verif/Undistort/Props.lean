import Verif.Undistort.Model
import Verif.Camera.Props

/-!
# Properties C78 and C79

The output camera and the maps of an undistorter.
-/

namespace Verif.Undistort

open Verif (Outcome)
open Verif.Camera (V2 V3 Box PinholeValid UnifiedValid pinholeProject pinholeBackProject unifiedProject unifiedBackProject
  scale InImage)
open Verif.Distortion (Model)
open Classical

/-! ## C78: the output camera -/

/-- Specification: the pixel of a normalised keypoint. -/
def CameraMatrix.pixel (K : CameraMatrix) (p : V2) : V2 := (K.fx * p.1 + K.cx, K.fy * p.2 + K.cy)

/-- Specification: the point is in the rectangle. -/
def Rect.Contains (r : Rect) (p : V2) : Prop :=
  r.x ≤ p.1 ∧ p.1 ≤ r.x + r.width ∧ r.y ≤ p.2 ∧ p.2 ≤ r.y + r.height

/-- The keypoints are finite as `float`. -/
def Finite (ss : List Sample) : Prop := ∀ s ∈ ss, |s.pt.1| ≤ fltMax ∧ |s.pt.2| ≤ fltMax

/-! ### Folds of minima and maxima -/

theorem fold_max (q : Sample → Prop) [DecidablePred q] (f : Sample → ℝ) : ∀ (ss : List Sample) (a : ℝ),
    a ≤ ss.foldl (fun a s => if q s then max a (f s) else a) a ∧
    (∀ s ∈ ss, q s → f s ≤ ss.foldl (fun a s => if q s then max a (f s) else a) a) ∧
    (ss.foldl (fun a s => if q s then max a (f s) else a) a = a ∨
      ∃ s ∈ ss, q s ∧ ss.foldl (fun a s => if q s then max a (f s) else a) a = f s) := by
  intro ss
  induction ss with
  | nil => intro a; simp
  | cons s ss ih =>
    intro a
    simp only [List.foldl_cons]
    obtain ⟨h1, h2, h3⟩ := ih (if q s then max a (f s) else a)
    by_cases hq : q s
    · rw [if_pos hq] at h1 h2 h3 ⊢
      refine ⟨le_trans (le_max_left _ _) h1, ?_, ?_⟩
      · intro t ht hqt
        rcases List.mem_cons.1 ht with rfl | ht
        · exact le_trans (le_max_right _ _) h1
        · exact h2 t ht hqt
      · rcases h3 with h3 | ⟨t, ht, hqt, h3⟩
        · rcases max_choice a (f s) with h | h
          · left; rw [h3, h]
          · right; exact ⟨s, by simp, hq, by rw [h3, h]⟩
        · right; exact ⟨t, List.mem_cons_of_mem _ ht, hqt, h3⟩
    · rw [if_neg hq] at h1 h2 h3 ⊢
      refine ⟨h1, ?_, ?_⟩
      · intro t ht hqt
        rcases List.mem_cons.1 ht with rfl | ht
        · exact absurd hqt hq
        · exact h2 t ht hqt
      · rcases h3 with h3 | ⟨t, ht, hqt, h3⟩
        · left; exact h3
        · right; exact ⟨t, List.mem_cons_of_mem _ ht, hqt, h3⟩

theorem fold_min (q : Sample → Prop) [DecidablePred q] (f : Sample → ℝ) : ∀ (ss : List Sample) (a : ℝ),
    ss.foldl (fun a s => if q s then min a (f s) else a) a ≤ a ∧
    (∀ s ∈ ss, q s → ss.foldl (fun a s => if q s then min a (f s) else a) a ≤ f s) ∧
    (ss.foldl (fun a s => if q s then min a (f s) else a) a = a ∨
      ∃ s ∈ ss, q s ∧ ss.foldl (fun a s => if q s then min a (f s) else a) a = f s) := by
  intro ss
  induction ss with
  | nil => intro a; simp
  | cons s ss ih =>
    intro a
    simp only [List.foldl_cons]
    obtain ⟨h1, h2, h3⟩ := ih (if q s then min a (f s) else a)
    by_cases hq : q s
    · rw [if_pos hq] at h1 h2 h3 ⊢
      refine ⟨le_trans h1 (min_le_left _ _), ?_, ?_⟩
      · intro t ht hqt
        rcases List.mem_cons.1 ht with rfl | ht
        · exact le_trans h1 (min_le_right _ _)
        · exact h2 t ht hqt
      · rcases h3 with h3 | ⟨t, ht, hqt, h3⟩
        · rcases min_choice a (f s) with h | h
          · left; rw [h3, h]
          · right; exact ⟨s, by simp, hq, by rw [h3, h]⟩
        · right; exact ⟨t, List.mem_cons_of_mem _ ht, hqt, h3⟩
    · rw [if_neg hq] at h1 h2 h3 ⊢
      refine ⟨h1, ?_, ?_⟩
      · intro t ht hqt
        rcases List.mem_cons.1 ht with rfl | ht
        · exact absurd hqt hq
        · exact h2 t ht hqt
      · rcases h3 with h3 | ⟨t, ht, hqt, h3⟩
        · left; exact h3
        · right; exact ⟨t, List.mem_cons_of_mem _ ht, hqt, h3⟩

/-- Each edge is a fold of its own. -/
theorem edges_eq : ∀ (ss : List Sample) (e : Edges), ss.foldl Edges.step e =
    { oX0 := ss.foldl (fun a s => if True then min a s.pt.1 else a) e.oX0
      oX1 := ss.foldl (fun a s => if True then max a s.pt.1 else a) e.oX1
      oY0 := ss.foldl (fun a s => if True then min a s.pt.2 else a) e.oY0
      oY1 := ss.foldl (fun a s => if True then max a s.pt.2 else a) e.oY1
      iX0 := ss.foldl (fun a s => if s.col = 0 then max a s.pt.1 else a) e.iX0
      iX1 := ss.foldl (fun a s => if s.col = 8 then min a s.pt.1 else a) e.iX1
      iY0 := ss.foldl (fun a s => if s.row = 0 then max a s.pt.2 else a) e.iY0
      iY1 := ss.foldl (fun a s => if s.row = 8 then min a s.pt.2 else a) e.iY1 } := by
  intro ss
  induction ss with
  | nil => intro e; rfl
  | cons s ss ih =>
    intro e
    rw [List.foldl_cons, ih]
    simp only [List.foldl_cons, Edges.step, if_true]

/-- Specification: the least upper bound of the values of the samples `q`. -/
def IsGreatestOf (ss : List Sample) (q : Sample → Prop) (f : Sample → ℝ) (a : ℝ) : Prop :=
  (∀ s ∈ ss, q s → f s ≤ a) ∧ ∃ s ∈ ss, q s ∧ f s = a

/-- Specification: the greatest lower bound. -/
def IsLeastOf (ss : List Sample) (q : Sample → Prop) (f : Sample → ℝ) (a : ℝ) : Prop :=
  (∀ s ∈ ss, q s → a ≤ f s) ∧ ∃ s ∈ ss, q s ∧ f s = a

theorem greatest_of_fold {ss : List Sample} {q : Sample → Prop} [DecidablePred q] {f : Sample → ℝ}
    (hf : ∀ s ∈ ss, |f s| ≤ fltMax) (hn : ∃ s ∈ ss, q s) :
    IsGreatestOf ss q f (ss.foldl (fun a s => if q s then max a (f s) else a) (-fltMax)) := by
  obtain ⟨h1, h2, h3⟩ := fold_max q f ss (-fltMax)
  refine ⟨h2, ?_⟩
  rcases h3 with h3 | ⟨s, hs, hq, h3⟩
  · obtain ⟨s, hs, hq⟩ := hn
    refine ⟨s, hs, hq, le_antisymm (h2 s hs hq) ?_⟩
    rw [h3]
    exact (abs_le.1 (hf s hs)).1
  · exact ⟨s, hs, hq, h3.symm⟩

theorem least_of_fold {ss : List Sample} {q : Sample → Prop} [DecidablePred q] {f : Sample → ℝ}
    (hf : ∀ s ∈ ss, |f s| ≤ fltMax) (hn : ∃ s ∈ ss, q s) :
    IsLeastOf ss q f (ss.foldl (fun a s => if q s then min a (f s) else a) fltMax) := by
  obtain ⟨h1, h2, h3⟩ := fold_min q f ss fltMax
  refine ⟨h2, ?_⟩
  rcases h3 with h3 | ⟨s, hs, hq, h3⟩
  · obtain ⟨s, hs, hq⟩ := hn
    refine ⟨s, hs, hq, le_antisymm ?_ (h2 s hs hq)⟩
    rw [h3]
    exact (abs_le.1 (hf s hs)).2
  · exact ⟨s, hs, hq, h3.symm⟩

/-- The grid has samples in every row and column. -/
theorem mem_samples {w h : Nat} {normalize : V2 → V2} {s : Sample} :
    s ∈ samples w h normalize ↔ ∃ x y : Nat, x < 9 ∧ y < 9 ∧
      s = ⟨x, y, normalize (((x * w / 8 : Nat) : ℝ), ((y * h / 8 : Nat) : ℝ))⟩ := by
  unfold samples
  simp only [List.mem_flatMap, List.mem_range, List.mem_map]
  constructor
  · rintro ⟨y, hy, x, hx, rfl⟩
    exact ⟨x, y, hx, hy, rfl⟩
  · rintro ⟨x, y, hx, hy, rfl⟩
    exact ⟨y, hy, x, hx, rfl⟩

/-- **C78**: the outer rectangle is the smallest one that contains every sample. -/
theorem outer_spec (w h : Nat) (normalize : V2 → V2) (hf : Finite (samples w h normalize)) :
    (∀ s ∈ samples w h normalize, (rectangles (samples w h normalize)).2.Contains s.pt) ∧
    ∀ r : Rect, (∀ s ∈ samples w h normalize, r.Contains s.pt) →
      r.x ≤ (rectangles (samples w h normalize)).2.x ∧ r.y ≤ (rectangles (samples w h normalize)).2.y ∧
      (rectangles (samples w h normalize)).2.x + (rectangles (samples w h normalize)).2.width ≤ r.x + r.width ∧
      (rectangles (samples w h normalize)).2.y + (rectangles (samples w h normalize)).2.height ≤ r.y + r.height := by
  have hn : ∃ s ∈ samples w h normalize, True :=
    ⟨_, mem_samples.2 ⟨0, 0, by omega, by omega, rfl⟩, trivial⟩
  have a1 := least_of_fold (q := fun _ => True) (fun s hs => (hf s hs).1) hn
  have a2 := greatest_of_fold (q := fun _ => True) (fun s hs => (hf s hs).1) hn
  have a3 := least_of_fold (q := fun _ => True) (fun s hs => (hf s hs).2) hn
  have a4 := greatest_of_fold (q := fun _ => True) (fun s hs => (hf s hs).2) hn
  unfold rectangles edges
  rw [edges_eq]
  simp only [Edges.start]
  refine ⟨?_, ?_⟩
  · intro s hs
    refine ⟨a1.1 s hs trivial, ?_, a3.1 s hs trivial, ?_⟩
    · have := a2.1 s hs trivial
      simp only
      linarith
    · have := a4.1 s hs trivial
      simp only
      linarith
  · intro r hr
    obtain ⟨s1, m1, -, e1⟩ := a1.2
    obtain ⟨s2, m2, -, e2⟩ := a2.2
    obtain ⟨s3, m3, -, e3⟩ := a3.2
    obtain ⟨s4, m4, -, e4⟩ := a4.2
    refine ⟨?_, ?_, ?_, ?_⟩
    · rw [← e1]; exact (hr s1 m1).1
    · rw [← e3]; exact (hr s3 m3).2.2.1
    · rw [add_sub_cancel, ← e2]; exact (hr s2 m2).2.1
    · rw [add_sub_cancel, ← e4]; exact (hr s4 m4).2.2.2

/-- **C78**: the edges of the inner rectangle are given by the innermost samples of the four sides of the image. -/
theorem inner_spec (w h : Nat) (normalize : V2 → V2) (hf : Finite (samples w h normalize)) :
    IsGreatestOf (samples w h normalize) (fun s => s.col = 0) (fun s => s.pt.1) (rectangles (samples w h normalize)).1.x ∧
    IsLeastOf (samples w h normalize) (fun s => s.col = 8) (fun s => s.pt.1)
      ((rectangles (samples w h normalize)).1.x + (rectangles (samples w h normalize)).1.width) ∧
    IsGreatestOf (samples w h normalize) (fun s => s.row = 0) (fun s => s.pt.2) (rectangles (samples w h normalize)).1.y ∧
    IsLeastOf (samples w h normalize) (fun s => s.row = 8) (fun s => s.pt.2)
      ((rectangles (samples w h normalize)).1.y + (rectangles (samples w h normalize)).1.height) := by
  have a1 := greatest_of_fold (q := fun s => s.col = 0) (fun s hs => (hf s hs).1)
    ⟨_, mem_samples.2 ⟨0, 0, by omega, by omega, rfl⟩, rfl⟩
  have a2 := least_of_fold (q := fun s => s.col = 8) (fun s hs => (hf s hs).1)
    ⟨_, mem_samples.2 ⟨8, 0, by omega, by omega, rfl⟩, rfl⟩
  have a3 := greatest_of_fold (q := fun s => s.row = 0) (fun s hs => (hf s hs).2)
    ⟨_, mem_samples.2 ⟨0, 0, by omega, by omega, rfl⟩, rfl⟩
  have a4 := least_of_fold (q := fun s => s.row = 8) (fun s hs => (hf s hs).2)
    ⟨_, mem_samples.2 ⟨0, 8, by omega, by omega, rfl⟩, rfl⟩
  unfold rectangles edges
  rw [edges_eq]
  simp only [Edges.start]
  rw [add_sub_cancel, add_sub_cancel]
  exact ⟨a1, a2, a3, a4⟩

theorem fltMax_big : (2 : ℝ) ≤ fltMax := by
  unfold fltMax
  norm_num

/-- An undistorted camera. -/
example : Finite (samples 16 16 (normalizePlain 16 16 8 8 id)) := by
  intro s hs
  obtain ⟨x, y, hx, hy, rfl⟩ := mem_samples.1 hs
  have hb := fltMax_big
  have bd : ∀ x : Nat, x < 9 → ((x * 16 / 8 : Nat) : ℝ) ≤ 16 := by
    intro x hx
    have : x * 16 / 8 ≤ 16 := by omega
    calc ((x * 16 / 8 : Nat) : ℝ) ≤ ((16 : Nat) : ℝ) := Nat.cast_le.2 this
      _ = 16 := by norm_num
  have h1 := bd x hx
  have h2 := bd y hy
  have h3 : (0 : ℝ) ≤ ((x * 16 / 8 : Nat) : ℝ) := Nat.cast_nonneg _
  have h4 : (0 : ℝ) ≤ ((y * 16 / 8 : Nat) : ℝ) := Nat.cast_nonneg _
  unfold normalizePlain
  simp only [id]
  constructor <;> rw [abs_le] <;> constructor <;> linarith

/-! ### The matrix -/

/-- The matrix that maps the rectangle to the image of the given size (the two extremes the code interpolates). -/
noncomputable def fit (width height : ℝ) (r : Rect) : CameraMatrix :=
  ⟨(width - 1) / r.width, (height - 1) / r.height, -((width - 1) / r.width) * r.x, -((height - 1) / r.height) * r.y⟩

theorem newCameraMatrix_eq {w h : Nat} {inner outer : Rect} {alpha scale : ℝ} {K : CameraMatrix}
    (hK : newCameraMatrix w h inner outer alpha scale = .ok K) :
    0 ≤ alpha ∧ alpha ≤ 1 ∧ 0 < scale ∧
      K.fx = (fit (outputSize scale w) (outputSize scale h) inner).fx * (1 - alpha) +
        (fit (outputSize scale w) (outputSize scale h) outer).fx * alpha ∧
      K.fy = (fit (outputSize scale w) (outputSize scale h) inner).fy * (1 - alpha) +
        (fit (outputSize scale w) (outputSize scale h) outer).fy * alpha ∧
      K.cx = (fit (outputSize scale w) (outputSize scale h) inner).cx * (1 - alpha) +
        (fit (outputSize scale w) (outputSize scale h) outer).cx * alpha ∧
      K.cy = (fit (outputSize scale w) (outputSize scale h) inner).cy * (1 - alpha) +
        (fit (outputSize scale w) (outputSize scale h) outer).cy * alpha := by
  unfold newCameraMatrix at hK
  split at hK
  · simp at hK
  rename_i h1
  split at hK
  · simp at hK
  rename_i h2
  split at hK
  · simp at hK
  rename_i h3
  simp only [Outcome.ok.injEq] at hK
  subst hK
  exact ⟨not_not.1 h1, not_not.1 h2, not_not.1 h3, rfl, rfl, rfl, rfl⟩

/-- **C78**: the parameters are rejected exactly if `alpha` is not in `[0, 1]` or `scale` is not positive. -/
theorem matrix_checks (w h : Nat) (inner outer : Rect) (alpha scale : ℝ) :
    (newCameraMatrix w h inner outer alpha scale = .abort ↔ ¬ (0 ≤ alpha ∧ alpha ≤ 1 ∧ 0 < scale)) ∧
      ((∃ K, newCameraMatrix w h inner outer alpha scale = .ok K) ↔ 0 ≤ alpha ∧ alpha ≤ 1 ∧ 0 < scale) := by
  unfold newCameraMatrix
  by_cases h1 : alpha ≥ 0
  · by_cases h2 : alpha ≤ 1
    · by_cases h3 : scale > 0
      · rw [if_neg (not_not.2 h1), if_neg (not_not.2 h2), if_neg (not_not.2 h3)]
        simp [h1, h2, h3]
      · simp [h1, h2, h3]
    · simp [h1, h2]
  · simp [h1]

theorem fit_corners {width height : ℝ} {r : Rect} (hw : r.width ≠ 0) (hh : r.height ≠ 0) :
    (fit width height r).pixel (r.x, r.y) = (0, 0) ∧
      (fit width height r).pixel (r.x + r.width, r.y + r.height) = (width - 1, height - 1) := by
  constructor
  · simp [fit, CameraMatrix.pixel]
  · simp only [fit, CameraMatrix.pixel, Prod.mk.injEq]
    constructor
    · field_simp
      ring
    · field_simp
      ring

/-- A point of the rectangle falls into the image. -/
theorem fit_contains {width height : ℝ} {r : Rect} (hw : 0 < r.width) (hh : 0 < r.height) (h1 : 1 ≤ width)
    (h2 : 1 ≤ height) {p : V2} (hp : r.Contains p) :
    0 ≤ ((fit width height r).pixel p).1 ∧ ((fit width height r).pixel p).1 ≤ width - 1 ∧
      0 ≤ ((fit width height r).pixel p).2 ∧ ((fit width height r).pixel p).2 ≤ height - 1 := by
  obtain ⟨a, b, c, d⟩ := hp
  have e1 : ((fit width height r).pixel p).1 = (width - 1) * ((p.1 - r.x) / r.width) := by
    simp only [fit, CameraMatrix.pixel]; ring
  have e2 : ((fit width height r).pixel p).2 = (height - 1) * ((p.2 - r.y) / r.height) := by
    simp only [fit, CameraMatrix.pixel]; ring
  have f1 : 0 ≤ (p.1 - r.x) / r.width := div_nonneg (by linarith) hw.le
  have f2 : (p.1 - r.x) / r.width ≤ 1 := (div_le_one hw).2 (by linarith)
  have f3 : 0 ≤ (p.2 - r.y) / r.height := div_nonneg (by linarith) hh.le
  have f4 : (p.2 - r.y) / r.height ≤ 1 := (div_le_one hh).2 (by linarith)
  rw [e1, e2]
  refine ⟨mul_nonneg (by linarith) f1, ?_, mul_nonneg (by linarith) f3, ?_⟩
  · exact mul_le_of_le_one_right (by linarith) f2
  · exact mul_le_of_le_one_right (by linarith) f4

/-- **C78**: for any `alpha` every pixel of a normalised point is the interpolation between its pixel for `alpha = 0` and
its pixel for `alpha = 1`. -/
theorem matrix_interpolates {w h : Nat} {inner outer : Rect} {alpha scale : ℝ} {K K0 K1 : CameraMatrix}
    (hK : newCameraMatrix w h inner outer alpha scale = .ok K) (h0 : newCameraMatrix w h inner outer 0 scale = .ok K0)
    (h1 : newCameraMatrix w h inner outer 1 scale = .ok K1) (p : V2) :
    K.pixel p = ((1 - alpha) * (K0.pixel p).1 + alpha * (K1.pixel p).1,
      (1 - alpha) * (K0.pixel p).2 + alpha * (K1.pixel p).2) := by
  obtain ⟨-, -, -, a1, a2, a3, a4⟩ := newCameraMatrix_eq hK
  obtain ⟨-, -, -, b1, b2, b3, b4⟩ := newCameraMatrix_eq h0
  obtain ⟨-, -, -, c1, c2, c3, c4⟩ := newCameraMatrix_eq h1
  unfold CameraMatrix.pixel
  rw [a1, a2, a3, a4, b1, b2, b3, b4, c1, c2, c3, c4]
  simp only [Prod.mk.injEq]
  constructor <;> ring

/-- **C78**: with `alpha = 0` the corners of the inner rectangle are the corner pixels of the output image, so every pixel
shows a point of the inner rectangle. -/
theorem matrix_inner {w h : Nat} {inner outer : Rect} {scale : ℝ} {K : CameraMatrix}
    (hK : newCameraMatrix w h inner outer 0 scale = .ok K) (hw : 0 < inner.width) (hh : 0 < inner.height)
    (hW : 2 ≤ outputSize scale w) (hH : 2 ≤ outputSize scale h) :
    K.pixel (inner.x, inner.y) = (0, 0) ∧
      K.pixel (inner.x + inner.width, inner.y + inner.height) =
        ((outputSize scale w : ℝ) - 1, (outputSize scale h : ℝ) - 1) ∧
      ∀ k : V2, 0 ≤ k.1 → k.1 ≤ (outputSize scale w : ℝ) - 1 → 0 ≤ k.2 → k.2 ≤ (outputSize scale h : ℝ) - 1 →
        ∃ p, inner.Contains p ∧ K.pixel p = k := by
  obtain ⟨-, -, -, a1, a2, a3, a4⟩ := newCameraMatrix_eq hK
  have hKf : K = fit (outputSize scale w) (outputSize scale h) inner := by
    cases K
    simp only [sub_zero, mul_one, mul_zero, add_zero] at a1 a2 a3 a4
    subst a1 a2 a3 a4
    rfl
  rw [hKf]
  refine ⟨(fit_corners hw.ne' hh.ne').1, (fit_corners hw.ne' hh.ne').2, ?_⟩
  intro k k1 k2 k3 k4
  have w2 : (2 : ℝ) ≤ (outputSize scale w : ℝ) := by exact_mod_cast hW
  have h2 : (2 : ℝ) ≤ (outputSize scale h : ℝ) := by exact_mod_cast hH
  generalize (outputSize scale w : ℝ) = W at *
  generalize (outputSize scale h : ℝ) = H at *
  have g1 : k.1 / (W - 1) ≤ 1 := (div_le_one (by linarith)).2 k2
  have g2 : 0 ≤ k.1 / (W - 1) := div_nonneg k1 (by linarith)
  have g3 : k.2 / (H - 1) ≤ 1 := (div_le_one (by linarith)).2 k4
  have g4 : 0 ≤ k.2 / (H - 1) := div_nonneg k3 (by linarith)
  have hW0 : W - 1 ≠ 0 := by intro hh; linarith
  have hH0 : H - 1 ≠ 0 := by intro hh; linarith
  refine ⟨(inner.x + inner.width * (k.1 / (W - 1)), inner.y + inner.height * (k.2 / (H - 1))), ⟨?_, ?_, ?_, ?_⟩, ?_⟩
  · have := mul_nonneg hw.le g2
    simp only; linarith
  · have := mul_le_of_le_one_right hw.le g1
    simp only; linarith
  · have := mul_nonneg hh.le g4
    simp only; linarith
  · have := mul_le_of_le_one_right hh.le g3
    simp only; linarith
  · obtain ⟨k1', k2'⟩ := k
    simp only [fit, CameraMatrix.pixel, Prod.mk.injEq]
    constructor
    · field_simp
      ring
    · field_simp
      ring

/-- **C78** (partial): with `alpha = 1` every sampled keypoint of the input image is retained in the output image.  (Only
the 81 samples are covered; what lies between them depends on the distortion.) -/
theorem matrix_outer_partial {w h : Nat} {normalize : V2 → V2} {scale : ℝ} {K : CameraMatrix}
    (hf : Finite (samples w h normalize))
    (hK : newCameraMatrix w h (rectangles (samples w h normalize)).1 (rectangles (samples w h normalize)).2 1 scale = .ok K)
    (hw : 0 < (rectangles (samples w h normalize)).2.width) (hh : 0 < (rectangles (samples w h normalize)).2.height)
    (hW : 1 ≤ outputSize scale w) (hH : 1 ≤ outputSize scale h) {x y : Nat} (hx : x ≤ 8) (hy : y ≤ 8) :
    let k := K.pixel (normalize (((x * w / 8 : Nat) : ℝ), ((y * h / 8 : Nat) : ℝ)))
    0 ≤ k.1 ∧ k.1 ≤ (outputSize scale w : ℝ) - 1 ∧ 0 ≤ k.2 ∧ k.2 ≤ (outputSize scale h : ℝ) - 1 := by
  obtain ⟨-, -, -, a1, a2, a3, a4⟩ := newCameraMatrix_eq hK
  have hKf : K = fit (outputSize scale w) (outputSize scale h) (rectangles (samples w h normalize)).2 := by
    cases K
    simp only [sub_self, mul_one, mul_zero, zero_add] at a1 a2 a3 a4
    subst a1 a2 a3 a4
    rfl
  rw [hKf]
  exact fit_contains hw hh (by exact_mod_cast hW) (by exact_mod_cast hH)
    ((outer_spec w h normalize hf).1 _ (mem_samples.2 ⟨x, y, by omega, by omega, rfl⟩))

/-- **C78**: if the optical axis is strictly inside of both rectangles and the output has at least two pixels each way,
the output camera is valid for every `alpha`. -/
theorem matrix_valid {w h : Nat} {inner outer : Rect} {alpha scale : ℝ} {K : CameraMatrix}
    (hK : newCameraMatrix w h inner outer alpha scale = .ok K)
    (hi : inner.x < 0 ∧ inner.y < 0 ∧ 0 < inner.x + inner.width ∧ 0 < inner.y + inner.height)
    (ho : outer.x < 0 ∧ outer.y < 0 ∧ 0 < outer.x + outer.width ∧ 0 < outer.y + outer.height)
    (hW : 2 ≤ outputSize scale w) (hH : 2 ≤ outputSize scale h) : PinholeValid ![K.fx, K.fy, K.cx, K.cy] := by
  obtain ⟨h0, h1, -, a1, a2, a3, a4⟩ := newCameraMatrix_eq hK
  have w2 : (2 : ℝ) ≤ (outputSize scale w : ℝ) := by exact_mod_cast hW
  have h2 : (2 : ℝ) ≤ (outputSize scale h : ℝ) := by exact_mod_cast hH
  generalize (outputSize scale w : ℝ) = W at *
  generalize (outputSize scale h : ℝ) = H at *
  have key : ∀ a b : ℝ, 0 < a → 0 < b → 0 < a * (1 - alpha) + b * alpha := by
    intro a b ha hb
    rcases h0.eq_or_lt with h | h
    · rw [← h]; linarith
    · have := mul_pos hb h
      have := mul_nonneg ha.le (by linarith : 0 ≤ 1 - alpha)
      linarith
  have d : ∀ (r : Rect), r.x < 0 ∧ r.y < 0 ∧ 0 < r.x + r.width ∧ 0 < r.y + r.height →
      0 < (fit W H r).fx ∧ 0 < (fit W H r).fy ∧ 0 < (fit W H r).cx ∧ 0 < (fit W H r).cy := by
    rintro r ⟨r1, r2, r3, r4⟩
    have f1 : 0 < (W - 1) / r.width := div_pos (by linarith) (by linarith)
    have f2 : 0 < (H - 1) / r.height := div_pos (by linarith) (by linarith)
    refine ⟨f1, f2, ?_, ?_⟩
    · simp only [fit]
      nlinarith
    · simp only [fit]
      nlinarith
  obtain ⟨i1, i2, i3, i4⟩ := d inner hi
  obtain ⟨o1, o2, o3, o4⟩ := d outer ho
  refine ⟨?_, ?_, ?_, ?_⟩
  · show 0 < K.fx
    rw [a1]; exact key _ _ i1 o1
  · show 0 < K.fy
    rw [a2]; exact key _ _ i2 o2
  · show 0 < K.cx
    rw [a3]; exact key _ _ i3 o3
  · show 0 < K.cy
    rw [a4]; exact key _ _ i4 o4

example : ∃ K, newCameraMatrix 640 480 ⟨-1, -1, 2, 2⟩ ⟨-2, -2, 4, 4⟩ (1 / 2) 1 = .ok K ∧
    (2 : ℤ) ≤ outputSize 1 640 ∧ (2 : ℤ) ≤ outputSize 1 480 := by
  refine ⟨_, (by unfold newCameraMatrix; rw [if_neg (by norm_num), if_neg (by norm_num), if_neg (by norm_num)]), ?_, ?_⟩
  · unfold outputSize; rw [Int.le_floor]; norm_num
  · unfold outputSize; rw [Int.le_floor]; norm_num

/-- **C78** refuted for small scales: a positive scale passes the checks although the output image is empty, and the
focal lengths come out negative. -/
theorem matrix_scale_refuted : ∃ K, newCameraMatrix 640 480 ⟨-1, -1, 2, 2⟩ ⟨-1, -1, 2, 2⟩ 0 (1 / 1000) = .ok K ∧
    outputSize (1 / 1000) 640 = 0 ∧ K.fx < 0 := by
  have h0 : outputSize (1 / 1000) 640 = 0 := by
    unfold outputSize
    rw [Int.floor_eq_zero_iff]
    norm_num
  have hc := (matrix_checks 640 480 ⟨-1, -1, 2, 2⟩ ⟨-1, -1, 2, 2⟩ 0 (1 / 1000)).2.2 (by norm_num)
  obtain ⟨K, hK⟩ := hc
  refine ⟨K, hK, h0, ?_⟩
  obtain ⟨-, -, -, a1, -⟩ := newCameraMatrix_eq hK
  rw [a1, h0]
  simp only [fit]
  norm_num

/-! ### Cameras without distortion -/

/-- The rectangles of a pinhole camera without distortion. -/
theorem rectangles_null {w h : Nat} {fx fy cx cy : ℝ} (hfx : 0 < fx) (hfy : 0 < fy)
    (hf : Finite (samples w h (normalizePlain fx fy cx cy id))) :
    rectangles (samples w h (normalizePlain fx fy cx cy id)) =
      (⟨-cx / fx, -cy / fy, w / fx, h / fy⟩, ⟨-cx / fx, -cy / fy, w / fx, h / fy⟩) := by
  have lo : ∀ n : Nat, (((0 * n / 8 : Nat) : ℝ)) = 0 := by intro n; simp
  have hi : ∀ n : Nat, (((8 * n / 8 : Nat) : ℝ)) = n := by
    intro n
    rw [Nat.mul_div_cancel_left n (by norm_num)]
  have bd : ∀ n x : Nat, x < 9 → (((x * n / 8 : Nat) : ℝ)) ≤ n := by
    intro n x hx
    have : x * n / 8 ≤ n := by
      have : x * n ≤ 8 * n := Nat.mul_le_mul_right _ (by omega)
      omega
    exact_mod_cast this
  have hn : ∀ n x : Nat, (0 : ℝ) ≤ ((x * n / 8 : Nat) : ℝ) := fun n x => Nat.cast_nonneg _
  obtain ⟨i1, i2, i3, i4⟩ := inner_spec w h _ hf
  obtain ⟨o1, o2⟩ := outer_spec w h _ hf
  generalize hr : rectangles (samples w h (normalizePlain fx fy cx cy id)) = r at *
  have mono : ∀ {f a b : ℝ}, 0 < f → a ≤ b → 1 / f * a ≤ 1 / f * b := fun hf hab =>
    mul_le_mul_of_nonneg_left hab (by positivity)
  -- inner
  have e1 : r.1.x = -cx / fx := by
    obtain ⟨s, hs, hq, he⟩ := i1.2
    obtain ⟨x, y, hx, hy, rfl⟩ := mem_samples.1 hs
    simp only at hq
    subst hq
    rw [← he]
    simp only [normalizePlain, id, lo]
    ring
  have e2 : r.1.x + r.1.width = (w - cx) / fx := by
    obtain ⟨s, hs, hq, he⟩ := i2.2
    obtain ⟨x, y, hx, hy, rfl⟩ := mem_samples.1 hs
    simp only at hq
    subst hq
    rw [← he]
    simp only [normalizePlain, id, hi]
    ring
  have e3 : r.1.y = -cy / fy := by
    obtain ⟨s, hs, hq, he⟩ := i3.2
    obtain ⟨x, y, hx, hy, rfl⟩ := mem_samples.1 hs
    simp only at hq
    subst hq
    rw [← he]
    simp only [normalizePlain, id, lo]
    ring
  have e4 : r.1.y + r.1.height = (h - cy) / fy := by
    obtain ⟨s, hs, hq, he⟩ := i4.2
    obtain ⟨x, y, hx, hy, rfl⟩ := mem_samples.1 hs
    simp only at hq
    subst hq
    rw [← he]
    simp only [normalizePlain, id, hi]
    ring
  -- outer
  have c0 := o1 _ (mem_samples.2 ⟨0, 0, by omega, by omega, rfl⟩)
  have c8 := o1 _ (mem_samples.2 ⟨8, 8, by omega, by omega, rfl⟩)
  have t := o2 ⟨-cx / fx, -cy / fy, w / fx, h / fy⟩ (by
    intro s hs
    obtain ⟨x, y, hx, hy, rfl⟩ := mem_samples.1 hs
    have b1 := bd w x hx
    have b2 := bd h y hy
    have n1 := hn w x
    have n2 := hn h y
    refine ⟨?_, ?_, ?_, ?_⟩ <;> simp only [normalizePlain, id]
    · have := mono hfx (show (-cx : ℝ) ≤ ((x * w / 8 : Nat) : ℝ) - cx by linarith)
      calc -cx / fx = 1 / fx * -cx := by ring
        _ ≤ _ := this
    · have := mono hfx (show ((x * w / 8 : Nat) : ℝ) - cx ≤ w - cx by linarith)
      calc _ ≤ _ := this
        _ = -cx / fx + w / fx := by ring
    · have := mono hfy (show (-cy : ℝ) ≤ ((y * h / 8 : Nat) : ℝ) - cy by linarith)
      calc -cy / fy = 1 / fy * -cy := by ring
        _ ≤ _ := this
    · have := mono hfy (show ((y * h / 8 : Nat) : ℝ) - cy ≤ h - cy by linarith)
      calc _ ≤ _ := this
        _ = -cy / fy + h / fy := by ring)
  obtain ⟨p1, -, p3, -⟩ := c0
  obtain ⟨-, p2, -, p4⟩ := c8
  simp only [normalizePlain, id, lo, hi] at p1 p2 p3 p4
  obtain ⟨t1, t2, t3, t4⟩ := t
  simp only at t1 t2 t3 t4
  have f1 : r.2.x = -cx / fx := le_antisymm (by linarith [show 1 / fx * (0 - cx) = -cx / fx by ring]) t1
  have f3 : r.2.y = -cy / fy := le_antisymm (by linarith [show 1 / fy * (0 - cy) = -cy / fy by ring]) t2
  have f2 : r.2.x + r.2.width = -cx / fx + w / fx :=
    le_antisymm t3 (by linarith [show 1 / fx * (w - cx) = -cx / fx + w / fx by ring])
  have f4 : r.2.y + r.2.height = -cy / fy + h / fy :=
    le_antisymm t4 (by linarith [show 1 / fy * (h - cy) = -cy / fy + h / fy by ring])
  have g1 : r.1.width = w / fx := by rw [e1] at e2; linarith [show (w - cx) / fx = -cx / fx + w / fx by ring]
  have g2 : r.1.height = h / fy := by rw [e3] at e4; linarith [show (h - cy) / fy = -cy / fy + h / fy by ring]
  have g3 : r.2.width = w / fx := by rw [f1] at f2; linarith
  have g4 : r.2.height = h / fy := by rw [f3] at f4; linarith
  obtain ⟨⟨x1, y1, w1, h1⟩, ⟨x2, y2, w2, h2⟩⟩ := r
  simp only at e1 e3 g1 g2 f1 f3 g3 g4
  subst e1 e3 g1 g2 f1 f3 g3 g4
  rfl

/-- **C78**: for a camera without distortion the output camera does not depend on `alpha`: it is the input camera with focal
lengths and centre scaled by (output size - 1) / input size. -/
theorem matrix_null {w h : Nat} {fx fy cx cy alpha scale : ℝ} {K : CameraMatrix} (hfx : 0 < fx) (hfy : 0 < fy)
    (hw : 0 < w) (hh : 0 < h) (hf : Finite (samples w h (normalizePlain fx fy cx cy id)))
    (hK : newCameraMatrix w h (rectangles (samples w h (normalizePlain fx fy cx cy id))).1
      (rectangles (samples w h (normalizePlain fx fy cx cy id))).2 alpha scale = .ok K) :
    K = ⟨fx * (((outputSize scale w : ℝ) - 1) / w), fy * (((outputSize scale h : ℝ) - 1) / h),
      cx * (((outputSize scale w : ℝ) - 1) / w), cy * (((outputSize scale h : ℝ) - 1) / h)⟩ := by
  obtain ⟨-, -, -, a1, a2, a3, a4⟩ := newCameraMatrix_eq hK
  rw [rectangles_null hfx hfy hf] at a1 a2 a3 a4
  have w0 : (w : ℝ) ≠ 0 := by positivity
  have h0 : (h : ℝ) ≠ 0 := by positivity
  obtain ⟨k1, k2, k3, k4⟩ := K
  simp only [fit] at a1 a2 a3 a4
  simp only [CameraMatrix.mk.injEq]
  refine ⟨?_, ?_, ?_, ?_⟩
  · rw [a1]; field_simp; ring
  · rw [a2]; field_simp; ring
  · rw [a3]; field_simp; ring
  · rw [a4]; field_simp; ring

/-- **C78** refuted: undistorting a camera that has no distortion at scale one does not give back the camera (the sampled
rectangle ends at the column `w`, the image at `w - 1`). -/
theorem matrix_identity_refuted {w h : Nat} {fx fy cx cy alpha : ℝ} (hfx : 0 < fx) (hfy : 0 < fy)
    (hw : 0 < w) (hh : 0 < h) (hf : Finite (samples w h (normalizePlain fx fy cx cy id)))
    (h0 : 0 ≤ alpha) (h1 : alpha ≤ 1) :
    ∃ K, newCameraMatrix w h (rectangles (samples w h (normalizePlain fx fy cx cy id))).1
      (rectangles (samples w h (normalizePlain fx fy cx cy id))).2 alpha 1 = .ok K ∧ K.fx < fx ∧ K.fy < fy := by
  obtain ⟨K, hK⟩ := (matrix_checks w h (rectangles (samples w h (normalizePlain fx fy cx cy id))).1
      (rectangles (samples w h (normalizePlain fx fy cx cy id))).2 alpha 1).2.2 ⟨h0, h1, one_pos⟩
  refine ⟨K, hK, ?_⟩
  rw [matrix_null hfx hfy hw hh hf hK]
  have o : ∀ n : Nat, (outputSize 1 n : ℝ) = n := by
    intro n
    unfold outputSize
    rw [one_mul, Int.floor_natCast]
    simp
  have w0 : (0 : ℝ) < w := by exact_mod_cast hw
  have h0' : (0 : ℝ) < h := by exact_mod_cast hh
  simp only [o]
  constructor
  · exact mul_lt_of_lt_one_right hfx ((div_lt_one w0).2 (by linarith))
  · exact mul_lt_of_lt_one_right hfy ((div_lt_one h0').2 (by linarith))

/-! ## C79: the maps -/

/-- **C79** (partial): if the ray of the output pixel points forward and the projection of the input camera depends on the ray
only, the map entry is where the input camera sees the ray of the output pixel. -/
theorem map_ray_partial {backProject : V2 → Option V3} {project : V3 → Option V2}
    (hs : ∀ (s : ℝ) (p : V3), 0 < s → project (scale s p) = project p) {k : V2} {r : V3} (hr : backProject k = some r)
    (hz : 0 < r.2.2) : mapEntry backProject project k = project r := by
  unfold mapEntry
  rw [hr, Option.bind_some, if_neg hz.ne', ← hs (1 / r.2.2) r (by positivity)]
  unfold scale
  rw [one_div, inv_mul_cancel₀ hz.ne', div_eq_inv_mul, div_eq_inv_mul]

/-- **C79** (partial): undistorting any pinhole camera to a pinhole camera without distortion: a point in front of the cameras
that the output camera sees at a pixel is seen by the input camera at the map entry of that pixel. -/
theorem map_pinhole_partial {n : Nat} (D : Model n) (b bo : Box) (I O : Fin 4 → ℝ) (c : Fin n → ℝ) (hO : PinholeValid O)
    {p : V3} {k : V2} (hz : p.2.2 ≠ 0)
    (hp : (pinholeProject Verif.Distortion.null bo O Fin.elim0 p).keypoint = some k) :
    mapEntry (fun k => (pinholeBackProject Verif.Distortion.null O Fin.elim0 k).1)
      (fun p => (pinholeProject D b I c p).keypoint) k = (pinholeProject D b I c p).keypoint := by
  have hb := (Verif.Camera.pinhole_null_inverse bo O Fin.elim0 hO).2 p k hz hp
  have hz1 : (scale (1 / p.2.2) p).2.2 = 1 := by
    unfold scale
    simp only
    rw [one_div, inv_mul_cancel₀ hz]
  rw [map_ray_partial (r := scale (1 / p.2.2) p)
    (fun s q hs => Verif.Camera.pinhole_scale D b I c s hs.ne' q) (by rw [hb]) (by rw [hz1]; exact one_pos)]
  exact Verif.Camera.pinhole_scale D b I c _ (by positivity) p

/-- **C79** (partial): undistorting a camera of the unified projection to a pinhole camera, for points in front of the
cameras. -/
theorem map_unified_pinhole_partial {n : Nat} (D : Model n) (b bo : Box) (I : Fin 5 → ℝ) (O : Fin 4 → ℝ) (c : Fin n → ℝ)
    (hI : 0 ≤ I 0) (hO : PinholeValid O) {p : V3} {k : V2} (hz : 0 < p.2.2)
    (hp : (pinholeProject Verif.Distortion.null bo O Fin.elim0 p).keypoint = some k) :
    mapEntry (fun k => (pinholeBackProject Verif.Distortion.null O Fin.elim0 k).1)
      (fun p => (unifiedProject D b I c p).keypoint) k = (unifiedProject D b I c p).keypoint := by
  have hb := (Verif.Camera.pinhole_null_inverse bo O Fin.elim0 hO).2 p k hz.ne' hp
  have hz1 : (scale (1 / p.2.2) p).2.2 = 1 := by
    unfold scale
    simp only
    rw [one_div, inv_mul_cancel₀ hz.ne']
  rw [map_ray_partial (r := scale (1 / p.2.2) p)
    (fun s q hs => Verif.Camera.unified_scale D b I c hI hs q) (by rw [hb]) (by rw [hz1]; exact one_pos)]
  exact Verif.Camera.unified_scale D b I c hI (by positivity) p

/-- A point seen by a pinhole camera. -/
example : PinholeValid ![100, 100, 50, 50] ∧
    (pinholeProject Verif.Distortion.null ⟨100, 100⟩ ![100, 100, 50, 50] Fin.elim0 (1, 2, 10)).keypoint =
      some (60, 70) := by
  constructor
  · unfold PinholeValid
    simp
  · rw [Verif.Camera.pinhole_keypoint _ _ _ _ (by norm_num)]
    simp [Verif.Distortion.null]
    norm_num

/-- **C79**: between equal pinhole cameras without distortion the map is the identity. -/
theorem map_identity (b : Box) (I : Fin 4 → ℝ) (hI : PinholeValid I) (k : V2) :
    mapEntry (fun k => (pinholeBackProject Verif.Distortion.null I Fin.elim0 k).1)
      (fun p => (pinholeProject Verif.Distortion.null b I Fin.elim0 p).keypoint) k = some k := by
  obtain ⟨r, hr, hs⟩ := (Verif.Camera.pinhole_null_inverse b I Fin.elim0 hI).1 k
  have hz : r.2.2 = 1 := by
    unfold pinholeBackProject Verif.Distortion.null at hr
    simp only [Option.map_some, Prod.mk.injEq, Option.some.injEq, and_true] at hr
    rw [← hr]
  rw [map_ray_partial (r := r) (fun s q hs => Verif.Camera.pinhole_scale _ b I _ s hs.ne' q) (by rw [hr])
    (by rw [hz]; exact one_pos)]
  have := hs 1 one_pos
  rw [Verif.Camera.pinhole_scale _ b I _ 1 one_ne_zero] at this
  exact this

/-- **C79** refuted for the unified projection with rays at more than 90 degrees from the optical axis (what
`createMappedUndistorter` builds for such cameras): between equal cameras without distortion a pixel is mapped to the
opposite side of the image, because the ray is divided by its negative depth. -/
theorem map_unified_refuted : ∃ (b : Box) (I : Fin 5 → ℝ) (k k' : V2), UnifiedValid I ∧ InImage b k ∧
    (∃ r, unifiedBackProject Verif.Distortion.null I Fin.elim0 k = some (r, true) ∧
      (unifiedProject Verif.Distortion.null b I Fin.elim0 r).keypoint = some k ∧
      (unifiedProject Verif.Distortion.null b I Fin.elim0 r).status = .visible) ∧
    mapEntry (fun k => (unifiedBackProject Verif.Distortion.null I Fin.elim0 k).map Prod.fst)
      (fun p => (unifiedProject Verif.Distortion.null b I Fin.elim0 p).keypoint) k = some k' ∧
    InImage b k' ∧ k.1 = 60 + 50 ∧ k'.1 = 60 - 50 / 9 := by
  have hback : unifiedBackProject Verif.Distortion.null ![1, 50 / 3, 50 / 3, 60, 60] Fin.elim0 (110, 60) =
      some ((3, 0, -4), true) := by
    unfold unifiedBackProject Verif.Distortion.null Verif.Camera.isUndistortedKeypointValid
    simp
    norm_num
  have n1 : Verif.Camera.norm3 (3, 0, -4) = 5 := Verif.Camera.norm3_eq (by norm_num) (by norm_num)
  have n2 : Verif.Camera.norm3 (-3 / 4, 0, 1) = 5 / 4 := Verif.Camera.norm3_eq (by norm_num) (by norm_num)
  have v1 : ((3, 0, -4) : V3).2.2 > -(Verif.Camera.fovParameter ((![1, 50 / 3, 50 / 3, 60, 60] : Fin 5 → ℝ) 0) *
      Verif.Camera.norm3 (3, 0, -4)) := by
    rw [n1, show (![1, 50 / 3, 50 / 3, 60, 60] : Fin 5 → ℝ) 0 = 1 from rfl]
    unfold Verif.Camera.fovParameter
    norm_num
  have v2 : ((-3 / 4, 0, 1) : V3).2.2 > -(Verif.Camera.fovParameter ((![1, 50 / 3, 50 / 3, 60, 60] : Fin 5 → ℝ) 0) *
      Verif.Camera.norm3 (-3 / 4, 0, 1)) := by
    rw [n2, show (![1, 50 / 3, 50 / 3, 60, 60] : Fin 5 → ℝ) 0 = 1 from rfl]
    unfold Verif.Camera.fovParameter
    norm_num
  have p1 : (unifiedProject Verif.Distortion.null ⟨120, 120⟩ ![1, 50 / 3, 50 / 3, 60, 60] Fin.elim0 (3, 0, -4)).keypoint =
      some (110, 60) := by
    rw [Verif.Camera.unified_keypoint _ _ _ _ (by show (0 : ℝ) ≤ 1; norm_num) v1, n1]
    simp [Verif.Distortion.null]
    norm_num
  have p2 : (unifiedProject Verif.Distortion.null ⟨120, 120⟩ ![1, 50 / 3, 50 / 3, 60, 60] Fin.elim0
      (-3 / 4, 0, 1)).keypoint = some (60 - 50 / 9, 60) := by
    rw [Verif.Camera.unified_keypoint _ _ _ _ (by show (0 : ℝ) ≤ 1; norm_num) v2, n2]
    simp [Verif.Distortion.null]
    norm_num
  refine ⟨⟨120, 120⟩, ![1, 50 / 3, 50 / 3, 60, 60], (110, 60), (60 - 50 / 9, 60), ?_, ?_, ⟨(3, 0, -4), hback, p1, ?_⟩, ?_,
    ?_, by norm_num, rfl⟩
  · unfold UnifiedValid
    refine ⟨?_, ?_, ?_, ?_, ?_⟩
    · show (1 : ℝ) ≥ 0; norm_num
    · show (50 / 3 : ℝ) > 0; norm_num
    · show (50 / 3 : ℝ) > 0; norm_num
    · show (60 : ℝ) > 0; norm_num
    · show (60 : ℝ) > 0; norm_num
  · unfold InImage
    norm_num
  · refine (Verif.Camera.unified_status Verif.Distortion.null ⟨120, 120⟩ ![1, 50 / 3, 50 / 3, 60, 60] Fin.elim0
      (by show (0 : ℝ) ≤ 1; norm_num) (3, 0, -4)).1.2 ⟨v1, by rw [n1]; norm_num, (110, 60), p1, ?_⟩
    unfold InImage
    norm_num
  · unfold mapEntry
    simp only
    rw [hback]
    simp only [Option.map_some, Option.bind_some]
    rw [if_neg (by norm_num), show ((3 : ℝ) / -4, (0 : ℝ) / -4, (1 : ℝ)) = (-3 / 4, 0, 1) by norm_num, p2]
  · unfold InImage
    norm_num

/-- **C79** refuted at the border even for pinhole cameras without distortion: with `alpha = 0`, which promises that all
pixels of the undistorted image are valid, its last pixel is taken from outside of the input image. -/
theorem map_border_refuted {w h : Nat} {I : Fin 4 → ℝ} {scale : ℝ} {K : CameraMatrix} (hI : PinholeValid I)
    (hw : 0 < w) (hh : 0 < h) (hW : 2 ≤ outputSize scale w) (hH : 2 ≤ outputSize scale h)
    (hf : Finite (samples w h (normalizePlain (I 0) (I 1) (I 2) (I 3) id)))
    (hK : newCameraMatrix w h (rectangles (samples w h (normalizePlain (I 0) (I 1) (I 2) (I 3) id))).1
      (rectangles (samples w h (normalizePlain (I 0) (I 1) (I 2) (I 3) id))).2 0 scale = .ok K) :
    ∃ k, mapEntry (fun k => (pinholeBackProject Verif.Distortion.null ![K.fx, K.fy, K.cx, K.cy] Fin.elim0 k).1)
      (fun p => (pinholeProject Verif.Distortion.null ⟨w, h⟩ I Fin.elim0 p).keypoint)
      ((outputSize scale w : ℝ) - 1, (outputSize scale h : ℝ) - 1) = some k ∧ ¬ InImage ⟨w, h⟩ k := by
  obtain ⟨i0, i1, i2, i3⟩ := hI
  have hKe := matrix_null i0 i1 hw hh hf hK
  have w2 : (2 : ℝ) ≤ (outputSize scale w : ℝ) := by exact_mod_cast hW
  have h2 : (2 : ℝ) ≤ (outputSize scale h : ℝ) := by exact_mod_cast hH
  have w0 : (0 : ℝ) < w := by exact_mod_cast hw
  have h0 : (0 : ℝ) < h := by exact_mod_cast hh
  refine ⟨(w, h), ?_, ?_⟩
  · rw [hKe]
    generalize (outputSize scale w : ℝ) = W at *
    generalize (outputSize scale h : ℝ) = H at *
    have hW0 : W - 1 ≠ 0 := by intro hh; linarith
    have hH0 : H - 1 ≠ 0 := by intro hh; linarith
    unfold mapEntry pinholeBackProject
    simp only [Verif.Distortion.null, Option.map_some, Option.bind_some]
    rw [if_neg one_ne_zero, Verif.Camera.pinhole_keypoint _ _ _ _ (by norm_num)]
    simp only [Option.some.injEq, Prod.mk.injEq, Verif.Distortion.null]
    rw [show (![I 0 * ((W - 1) / w), I 1 * ((H - 1) / h), I 2 * ((W - 1) / w), I 3 * ((H - 1) / h)] : Fin 4 → ℝ) 0 =
        I 0 * ((W - 1) / w) from rfl,
      show (![I 0 * ((W - 1) / w), I 1 * ((H - 1) / h), I 2 * ((W - 1) / w), I 3 * ((H - 1) / h)] : Fin 4 → ℝ) 1 =
        I 1 * ((H - 1) / h) from rfl,
      show (![I 0 * ((W - 1) / w), I 1 * ((H - 1) / h), I 2 * ((W - 1) / w), I 3 * ((H - 1) / h)] : Fin 4 → ℝ) 2 =
        I 2 * ((W - 1) / w) from rfl,
      show (![I 0 * ((W - 1) / w), I 1 * ((H - 1) / h), I 2 * ((W - 1) / w), I 3 * ((H - 1) / h)] : Fin 4 → ℝ) 3 =
        I 3 * ((H - 1) / h) from rfl]
    have n0 := i0.ne'
    have n1 := i1.ne'
    constructor
    · field_simp
      ring
    · field_simp
      ring
  · unfold InImage
    simp

/-! ### Fixed point -/

/-- Specification: how `cv::remap` reads an entry of the fixed-point maps: whole pixels and 32nds of a pixel. -/
def unpack (p : Packed) : ℚ × ℚ :=
  (p.u + ((p.frac % 32 : Nat) : ℚ) / 32, p.v + ((p.frac / 32 : Nat) : ℚ) / 32)

/-- The parts of the fraction. -/
theorem frac_parts (iu iv : Int) : (pack iu iv).frac % 32 = (iu % 32).toNat ∧ (pack iu iv).frac / 32 = (iv % 32).toNat := by
  unfold pack
  simp only
  omega

theorem shift_eq {i : Int} (h1 : -(2 ^ 20) ≤ i) (h2 : i < 2 ^ 20) : (i / 32).bmod 65536 = i / 32 := by
  rw [Int.bmod_eq_of_le] <;> omega

/-- **C79** (partial): for keypoints within ±32768 pixels the fixed-point maps hold the coordinates rounded to 32nds of a
pixel exactly. -/
theorem pack_exact_partial {iu iv : Int} (h1 : -(2 ^ 20) ≤ iu) (h2 : iu < 2 ^ 20) (h3 : -(2 ^ 20) ≤ iv) (h4 : iv < 2 ^ 20) :
    unpack (pack iu iv) = ((iu : ℚ) / 32, (iv : ℚ) / 32) := by
  obtain ⟨f1, f2⟩ := frac_parts iu iv
  unfold unpack
  rw [f1, f2]
  have e : ∀ i : Int, ((i / 32 : Int) : ℚ) + (((i % 32).toNat : Nat) : ℚ) / 32 = (i : ℚ) / 32 := by
    intro i
    have h := Int.emod_add_mul_ediv i 32
    have h' : ((i % 32 : Int) : ℚ) + 32 * ((i / 32 : Int) : ℚ) = (i : ℚ) := by exact_mod_cast h
    have ht : (((i % 32).toNat : Nat) : ℚ) = ((i % 32 : Int) : ℚ) := by
      have : (((i % 32).toNat : Nat) : Int) = i % 32 := Int.toNat_of_nonneg (by omega)
      exact_mod_cast this
    rw [ht, ← h']
    ring
  simp only [Prod.mk.injEq]
  constructor
  · rw [show (pack iu iv).u = iu / 32 from shift_eq h1 h2]
    exact e iu
  · rw [show (pack iu iv).v = iv / 32 from shift_eq h3 h4]
    exact e iv

/-- **C79** (partial): so the maps are accurate to a 64th of a pixel. -/
theorem pack_error_partial {u v : ℚ} {iu iv : Int} (hu : |(iu : ℚ) - u * 32| ≤ 1 / 2) (hv : |(iv : ℚ) - v * 32| ≤ 1 / 2)
    (h1 : -(2 ^ 20) ≤ iu) (h2 : iu < 2 ^ 20) (h3 : -(2 ^ 20) ≤ iv) (h4 : iv < 2 ^ 20) :
    |(unpack (pack iu iv)).1 - u| ≤ 1 / 64 ∧ |(unpack (pack iu iv)).2 - v| ≤ 1 / 64 := by
  rw [pack_exact_partial h1 h2 h3 h4]
  rw [abs_le] at hu hv ⊢
  rw [abs_le]
  simp only
  constructor <;> constructor <;> linarith [hu.1, hu.2, hv.1, hv.2]

example : unpack (pack 323 (-1)) = (10 + 3 / 32, -1 / 32) := by
  rw [pack_exact_partial] <;> norm_num

/-- **C79** refuted for keypoints far outside of the image, which strong distortion produces: the whole pixels are reduced
modulo 65536, so a keypoint at 65546 pixels is read as pixel 10 of the image. -/
theorem pack_wrap_refuted : unpack (pack (65546 * 32) (20 * 32)) = (10, 20) := by
  unfold unpack
  rw [show pack (65546 * 32) (20 * 32) = ⟨10, 20, 0⟩ by decide]
  norm_num

end Verif.Undistort
