import Verif.Camera.RandomProps

/-!
# Which keypoints the random keypoints of a unified projection camera can be (C113)
-/

namespace Verif.Camera

open Verif (Outcome)
open Verif.Distortion (Model)
open Classical

/-- What the random numbers can be: `setRandom` gives coordinates of at most one, the quotient of `rand` and `RAND_MAX` is
from zero to one. -/
def DrawnWith (d : V2 × ℝ) : Prop := Drawn d.1 ∧ 0 ≤ d.2 ∧ d.2 ≤ 1

/-- Half the sides of the rectangle in the normalized image plane from which keypoints are drawn. -/
noncomputable def reach (xi : ℝ) : ℝ := 0.8 / |xi ^ 2 - 1|

theorem drawLoop_from {n : Nat} (D : Model n) (b : Box) (I : Fin 5 → ℝ) (c : Fin n → ℝ) (draws : Nat → V2 × ℝ) (k : V2) :
    ∀ (tries i : Nat) (u : Option V2), drawLoop D b I c draws tries i u = some k →
      k = (I 3, I 4) ∨ (isLiftable D I c k ∧ isKeypointVisible b k ∧ (u = some k ∨ ∃ i, drawn D I c (draws i) = some k))
  | 0, _, _, h => Or.inl (by unfold drawLoop at h; exact (Option.some.inj h).symm)
  | tries + 1, i, u, h => by
    unfold drawLoop at h
    by_cases hc : ∃ k, u = some k ∧ isLiftable D I c k ∧ isKeypointVisible b k
    · rw [if_pos hc] at h
      obtain ⟨k', hk, h1, h2⟩ := hc
      rw [hk] at h
      cases h
      exact Or.inr ⟨h1, h2, Or.inl hk⟩
    · rw [if_neg hc] at h
      simp only at h
      by_cases ht : tries < 1
      · rw [if_pos ht] at h
        exact Or.inl (Option.some.inj h).symm
      · rw [if_neg ht] at h
        rcases drawLoop_from D b I c draws k tries (i + 1) _ h with e | ⟨h1, h2, e | e⟩
        · exact Or.inl e
        · exact Or.inr ⟨h1, h2, Or.inr ⟨i, e⟩⟩
        · exact Or.inr ⟨h1, h2, Or.inr e⟩

theorem start_hidden (b : Box) : ¬ isKeypointVisible b ((b.width : ℝ) + 1, (b.height : ℝ) + 1) := by
  rintro ⟨-, -, h, -⟩
  simp only at h
  linarith

theorem drawLoop_const {n : Nat} (D : Model n) (b : Box) (I : Fin 5 → ℝ) (c : Fin n → ℝ) (d : V2 × ℝ) {k : V2}
    (hd : drawn D I c d = some k) (hk : isLiftable D I c k ∧ isKeypointVisible b k) :
    unifiedRandomKeypoint D b I c (fun _ => d) = some k := by
  unfold unifiedRandomKeypoint drawLoop
  rw [if_neg]
  · simp only
    rw [if_neg (by norm_num), hd]
    unfold drawLoop
    rw [if_pos ⟨k, rfl, hk⟩]
  · rintro ⟨k', h, -, h2⟩
    cases h
    exact start_hidden b h2

theorem drawn_null {I : Fin 5 → ℝ} (hI : UnifiedValid I) (h1 : I 0 ≠ 1) (k : V2) :
    (∃ d, DrawnWith d ∧ drawn Verif.Distortion.null I Fin.elim0 d = some k) ↔
      |(k.1 - I 3) / I 1| ≤ reach (I 0) ∧ |(k.2 - I 4) / I 2| ≤ reach (I 0) := by
  obtain ⟨h0, hfu, hfv, -, -⟩ := hI
  have hx : I 0 * I 0 - 1 ≠ 0 := by
    intro h
    have : (I 0 - 1) * (I 0 + 1) = 0 := by linarith
    rcases mul_eq_zero.1 this with e | e
    · exact h1 (by linarith)
    · linarith
  have hr : reach (I 0) = |1 / (I 0 * I 0 - 1) * 0.8| := by
    unfold reach
    rw [abs_mul, abs_div, abs_one, sq, abs_of_pos (by norm_num : (0 : ℝ) < 0.8)]
    ring
  rw [hr]
  have hg : 1 / (I 0 * I 0 - 1) * (0.8 : ℝ) ≠ 0 := mul_ne_zero (one_div_ne_zero hx) (by norm_num)
  constructor
  · rintro ⟨⟨⟨x, y⟩, t⟩, ⟨⟨hx1, hy1⟩, ht0, ht1⟩, hd⟩
    unfold drawn at hd
    rw [if_neg hx] at hd
    simp only [Verif.Distortion.null] at hd
    cases hd
    simp only at hx1 hy1 ht0 ht1 ⊢
    rw [add_sub_cancel_right, add_sub_cancel_right, mul_div_cancel_left₀ _ hfu.ne', mul_div_cancel_left₀ _ hfv.ne']
    have bound : ∀ z : ℝ, |z| ≤ 1 → |z * (t * (1 / (I 0 * I 0 - 1)) * 0.8)| ≤ |1 / (I 0 * I 0 - 1) * 0.8| := by
      intro z hz
      rw [show z * (t * (1 / (I 0 * I 0 - 1)) * 0.8) = (z * t) * (1 / (I 0 * I 0 - 1) * 0.8) by ring, abs_mul]
      have : |z * t| ≤ 1 := by
        rw [abs_mul, abs_of_nonneg ht0]
        nlinarith [abs_nonneg z]
      nlinarith [abs_nonneg (1 / (I 0 * I 0 - 1) * (0.8 : ℝ))]
    exact ⟨bound x hx1, bound y hy1⟩
  · rintro ⟨ha, hb⟩
    refine ⟨(((k.1 - I 3) / I 1 / (1 / (I 0 * I 0 - 1) * 0.8), (k.2 - I 4) / I 2 / (1 / (I 0 * I 0 - 1) * 0.8)), 1),
      ⟨⟨?_, ?_⟩, zero_le_one, le_refl _⟩, ?_⟩
    · simp only
      rw [abs_div, div_le_one (abs_pos.2 hg)]
      exact ha
    · simp only
      rw [abs_div, div_le_one (abs_pos.2 hg)]
      exact hb
    · unfold drawn
      rw [if_neg hx]
      simp only [Verif.Distortion.null, one_mul]
      rw [div_mul_cancel₀ _ hg, div_mul_cancel₀ _ hg, mul_div_cancel₀ _ hfu.ne', mul_div_cancel₀ _ hfv.ne']
      simp

/-- C113.  Without distortion, and unless `xi` is one, the random keypoint can be exactly the principal point and the
keypoints of the image that have a ray and are in the rectangle of half side `0.8 / |xi² - 1|` around the principal point
of the normalized image plane. -/
theorem unifiedRandomKeypoint_reach (b : Box) {I : Fin 5 → ℝ} (hI : UnifiedValid I) (h1 : I 0 ≠ 1) (k : V2) :
    (∃ draws : Nat → V2 × ℝ, (∀ i, DrawnWith (draws i)) ∧
      unifiedRandomKeypoint Verif.Distortion.null b I Fin.elim0 draws = some k) ↔
    k = (I 3, I 4) ∨
      (InImage b k ∧ isUndistortedKeypointValid (((k.1 - I 3) / I 1) ^ 2 + ((k.2 - I 4) / I 2) ^ 2) (I 0) ∧
        |(k.1 - I 3) / I 1| ≤ reach (I 0) ∧ |(k.2 - I 4) / I 2| ≤ reach (I 0)) := by
  have hl : ∀ k : V2, isLiftable Verif.Distortion.null I Fin.elim0 k ↔
      isUndistortedKeypointValid (((k.1 - I 3) / I 1) ^ 2 + ((k.2 - I 4) / I 2) ^ 2) (I 0) := by
    intro k
    unfold isLiftable
    simp only [Verif.Distortion.null]
    rw [show 1 / I 1 * (k.1 - I 3) * (1 / I 1 * (k.1 - I 3)) + 1 / I 2 * (k.2 - I 4) * (1 / I 2 * (k.2 - I 4)) =
      ((k.1 - I 3) / I 1) ^ 2 + ((k.2 - I 4) / I 2) ^ 2 by ring]
  constructor
  · rintro ⟨draws, hd, h⟩
    rcases drawLoop_from _ b I _ draws k 20 0 _ h with e | ⟨ha, hb, e | ⟨i, e⟩⟩
    · exact Or.inl e
    · cases e
      exact absurd hb (start_hidden b)
    · exact Or.inr ⟨(visible_iff b k).1 hb, (hl k).1 ha, (drawn_null hI h1 k).1 ⟨draws i, hd i, e⟩⟩
  · rintro (e | ⟨ha, hb, hc⟩)
    · have hz : 0 ≤ reach (I 0) := by unfold reach; positivity
      obtain ⟨d, hd, e2⟩ := (drawn_null hI h1 k).2 (by rw [e]; simp [hz])
      refine ⟨fun _ => d, fun _ => hd, ?_⟩
      obtain ⟨k', h2, h3⟩ := unifiedRandomKeypoint_spec Verif.Distortion.null b I Fin.elim0 (fun _ => d)
      rcases drawLoop_from _ b I _ (fun _ => d) k' 20 0 _ h2 with e3 | ⟨-, hb, e3 | ⟨i, e3⟩⟩
      · rw [h2, e3, e]
      · cases e3
        exact absurd hb (start_hidden b)
      · rw [h2, ← e3, e2]
    · obtain ⟨d, hd, e2⟩ := (drawn_null hI h1 k).2 hc
      exact ⟨fun _ => d, fun _ => hd, drawLoop_const _ b I _ d e2 ⟨(hl k).2 hb, (visible_iff b k).2 ha⟩⟩

/-- C113, refuted: keypoints up to "the edge of this circle" of radius `1 / sqrt (xi² - 1)`, but for a margin, are not all
created: the rectangle is sized with the *square* of the radius.  With `xi = 3` no keypoint farther than a tenth of the
focal length from the principal point is ever created, although keypoints up to a third of it have rays. -/
theorem unifiedRandomKeypoint_reach_refuted {b : Box} {I : Fin 5 → ℝ} (hI : UnifiedValid I) (h3 : I 0 = 3)
    (hw : I 3 + I 1 / 3 < b.width) (hh : I 4 < b.height) :
    ∃ k, InImage b k ∧ isUndistortedKeypointValid (((k.1 - I 3) / I 1) ^ 2 + ((k.2 - I 4) / I 2) ^ 2) (I 0) ∧
      ∀ draws : Nat → V2 × ℝ, (∀ i, DrawnWith (draws i)) →
        unifiedRandomKeypoint Verif.Distortion.null b I Fin.elim0 draws ≠ some k := by
  have hf := hI.2.1
  refine ⟨(I 3 + I 1 / 3, I 4), ⟨?_, hw, ?_, hh⟩, ?_, ?_⟩
  · have := hI.2.2.2.1
    show 0 ≤ I 3 + I 1 / 3
    positivity
  · exact hI.2.2.2.2.le
  · right
    simp only [add_sub_cancel_left, sub_self, zero_div]
    rw [h3, div_div_cancel_left' hf.ne']
    norm_num
  · intro draws hd h
    rcases (unifiedRandomKeypoint_reach b hI (by rw [h3]; norm_num) _).1 ⟨draws, hd, h⟩ with e | ⟨-, -, h1, -⟩
    · have := congrArg Prod.fst e
      simp only at this
      linarith
    · simp only [add_sub_cancel_left] at h1
      rw [div_div_cancel_left' hf.ne', h3] at h1
      unfold reach at h1
      rw [abs_of_pos (by norm_num), abs_of_pos (by norm_num)] at h1
      norm_num at h1

/-- A camera with `xi = 3` and an image of 40 by 40 pixels. -/
example : UnifiedValid (fun _ => 3) ∧ ((3 : ℝ) + 3 / 3 < (40 : Nat)) :=
  ⟨⟨by norm_num, by norm_num, by norm_num, by norm_num, by norm_num⟩, by norm_num⟩

end Verif.Camera
