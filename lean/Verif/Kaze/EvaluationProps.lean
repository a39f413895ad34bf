import Mathlib.Data.List.Forall2
import Mathlib.Data.Matrix.Mul
import Mathlib.LinearAlgebra.Matrix.NonsingularInverse
import Mathlib.Tactic.FieldSimp
import Mathlib.Tactic.Linarith
import Mathlib.Tactic.FinCases
import Mathlib.Tactic.LinearCombination
import Mathlib.Tactic.Positivity
import Verif.Kaze.Evaluation

/-!
# Matches, inliers and ground truth

Specification of property C117.
-/

namespace Verif.Kaze.Evaluation

private theorem bind_okay {α β : Type _} (x : α) (f : α → Outcome β) : (Outcome.ok x).bind f = f x := rfl

private theorem bind_eq {α β : Type _} {x : Outcome α} {f : α → Outcome β} {b : β} (h : x.bind f = .ok b) :
    ∃ a, x = .ok a ∧ f a = .ok b := by
  cases x with
  | ok a => exact ⟨a, rfl, h⟩
  | abort => cases h
  | ub => cases h
  | exc => cases h

/-- Pairs of points as they are stored: one point after the other. -/
def flat (l : List (Pt × Pt)) : List Pt := l.flatMap fun p => [p.1, p.2]

private theorem flat_cons (p : Pt × Pt) (l : List (Pt × Pt)) : flat (p :: l) = p.1 :: p.2 :: flat l := rfl

/-! ### Putative matches -/

/-- The nearest neighbour is nearer than the second nearest times the ratio. -/
def Passes (ratio : ℝ) (m : List DMatch) : Prop := ∃ d e r, m = d :: e :: r ∧ d.distance < ratio * e.distance

/-- The points of the nearest neighbour: `queryIdx` is an index of the first list of keypoints and `trainIdx` of the
second. -/
def Ends (first second : List KeyPoint) (m : List DMatch) (p : Pt × Pt) : Prop :=
  ∃ d r a b, m = d :: r ∧ 0 ≤ d.queryIdx ∧ first[d.queryIdx.toNat]? = some a ∧
    0 ≤ d.trainIdx ∧ second[d.trainIdx.toNat]? = some b ∧ p = (a.pt, b.pt)

theorem get_ok {α : Type _} {l : List α} {i : Int} {x : α} : get l i = .ok x ↔ 0 ≤ i ∧ l[i.toNat]? = some x := by
  unfold get
  by_cases h : 0 ≤ i
  · rw [if_pos h]
    cases l[i.toNat]? with
    | none => simp
    | some y => simp [h]
  · rw [if_neg h]
    simp [h]

open Classical in
/-- The function returns normally exactly if there are two neighbours of every keypoint and the indices of those that pass
the test are in range; then the points of those are appended in the order of the matches. -/
theorem nndr_iff (train query : List KeyPoint) (ratio : ℝ) (ms : List (List DMatch)) (old out : List Pt) :
    nndr train query ratio ms old = .ok out ↔
      (∀ m ∈ ms, 2 ≤ m.length) ∧
        ∃ pairs, List.Forall₂ (Ends train query) (ms.filter fun m => decide (Passes ratio m)) pairs ∧
          out = old ++ flat pairs := by
  induction ms generalizing old with
  | nil =>
    constructor
    · intro h
      injection h with h
      exact ⟨by simp, [], List.Forall₂.nil, by simp [flat, h]⟩
    · rintro ⟨-, pairs, hf, rfl⟩
      cases hf
      simp [nndr, flat]
  | cons m ms ih =>
    match m with
    | [] => simp [nndr]
    | [d] => simp [nndr]
    | d :: e :: r =>
      have hpass : Passes ratio (d :: e :: r) ↔ d.distance < ratio * e.distance := by
        constructor
        · rintro ⟨d', e', r', h, hlt⟩
          cases h
          exact hlt
        · intro h
          exact ⟨d, e, r, rfl, h⟩
      rw [nndr]
      by_cases hlt : d.distance < ratio * e.distance
      · rw [if_pos hlt, List.filter_cons_of_pos (by simpa using hpass.2 hlt)]
        constructor
        · intro h
          obtain ⟨a, ha, h⟩ := bind_eq h
          obtain ⟨b, hb, h⟩ := bind_eq h
          obtain ⟨h2, pairs, hf, rfl⟩ := (ih _).1 h
          obtain ⟨ha0, ha⟩ := get_ok.1 ha
          obtain ⟨hb0, hb⟩ := get_ok.1 hb
          refine ⟨?_, (a.pt, b.pt) :: pairs, ?_, ?_⟩
          · intro m hm
            rcases List.mem_cons.1 hm with rfl | hm
            · simp
            · exact h2 m hm
          · exact List.Forall₂.cons ⟨d, e :: r, a, b, rfl, ha0, ha, hb0, hb, rfl⟩ hf
          · rw [flat_cons]
            simp
        · rintro ⟨h2, pairs, hf, rfl⟩
          cases hf with
          | cons he hf =>
            rename_i p pairs
            obtain ⟨d', r', a, b, hm, ha0, ha, hb0, hb, rfl⟩ := he
            cases hm
            rw [get_ok.2 ⟨ha0, ha⟩, bind_okay, get_ok.2 ⟨hb0, hb⟩, bind_okay]
            refine (ih _).2 ⟨fun m hm => h2 m (List.mem_cons_of_mem _ hm), pairs, hf, ?_⟩
            rw [flat_cons]
            simp
      · rw [if_neg hlt, List.filter_cons_of_neg (by simpa using fun h => hlt (hpass.1 h)), ih]
        constructor
        · rintro ⟨h2, hr⟩
          refine ⟨?_, hr⟩
          intro m hm
          rcases List.mem_cons.1 hm with rfl | hm
          · simp
          · exact h2 m hm
        · rintro ⟨h2, hr⟩
          exact ⟨fun m hm => h2 m (List.mem_cons_of_mem _ hm), hr⟩

/-- A pair that passes and a pair that does not. -/
example (a b c : KeyPoint) : nndr [a, b] [c] (1 / 2) [[⟨1, 0, 1⟩, ⟨1, 0, 3⟩], [⟨0, 0, 1⟩, ⟨0, 0, 2⟩]] [] =
    .ok [b.pt, c.pt] := by
  norm_num [nndr, get, Outcome.bind]

/-- A larger ratio never loses a match. -/
theorem nndr_mono (train query : List KeyPoint) (r r' : ℝ) (hr : r ≤ r') (ms : List (List DMatch))
    (hd : ∀ m ∈ ms, ∀ d ∈ m, 0 ≤ d.distance) (old old' out out' : List Pt) (hs : old.Sublist old')
    (h : nndr train query r ms old = .ok out) (h' : nndr train query r' ms old' = .ok out') : out.Sublist out' := by
  induction ms generalizing old old' with
  | nil =>
    injection h with h
    injection h' with h'
    rw [← h, ← h']
    exact hs
  | cons m ms ih =>
    match m with
    | [] => cases h
    | [d] => cases h
    | d :: e :: l =>
      rw [nndr] at h h'
      have hms : ∀ m ∈ ms, ∀ d ∈ m, 0 ≤ d.distance := fun m hm => hd m (List.mem_cons_of_mem _ hm)
      have he : 0 ≤ e.distance := hd _ (List.mem_cons_self ..) e (by simp)
      by_cases hlt : d.distance < r * e.distance
      · have hlt' : d.distance < r' * e.distance := lt_of_lt_of_le hlt (mul_le_mul_of_nonneg_right hr he)
        rw [if_pos hlt] at h
        rw [if_pos hlt'] at h'
        obtain ⟨a, ha, h⟩ := bind_eq h
        obtain ⟨b, hb, h⟩ := bind_eq h
        rw [ha, bind_okay, hb, bind_okay] at h'
        exact ih hms _ _ (hs.append (List.Sublist.refl _)) h h'
      · rw [if_neg hlt] at h
        by_cases hlt' : d.distance < r' * e.distance
        · rw [if_pos hlt'] at h'
          obtain ⟨a, ha, h'⟩ := bind_eq h'
          obtain ⟨b, hb, h'⟩ := bind_eq h'
          exact ih hms _ _ (hs.trans (List.sublist_append_left _ _)) h h'
        · rw [if_neg hlt'] at h'
          exact ih hms _ _ hs h h'

example (a : KeyPoint) : ∃ out out', nndr [a] [a] (1 / 2) [[⟨0, 0, 2⟩, ⟨0, 0, 3⟩]] [] = .ok out ∧
    nndr [a] [a] (4 / 5) [[⟨0, 0, 2⟩, ⟨0, 0, 3⟩]] [] = .ok out' ∧ out ≠ out' := by
  refine ⟨[], [a.pt, a.pt], ?_, ?_, by simp⟩ <;> norm_num [nndr, get, Outcome.bind]

/-- With a ratio of at most one, keypoints with two equally near neighbours are not matched, even if both are at distance
zero. -/
theorem nndr_ambiguous (train query : List KeyPoint) (ratio : ℝ) (hr : ratio ≤ 1) (d e : DMatch) (r : List DMatch)
    (hd : 0 ≤ d.distance) (hde : d.distance = e.distance) (old : List Pt) :
    nndr train query ratio [d :: e :: r] old = .ok old := by
  rw [nndr, if_neg]
  · rfl
  · rw [← hde, not_lt]
    exact mul_le_of_le_one_left hd hr

example : (4 / 5 : ℝ) ≤ 1 ∧ (0 : ℝ) ≤ (⟨0, 0, 0⟩ : DMatch).distance := by norm_num

/-- A keypoint with a single neighbour is read outside of the bounds: this is what a matcher returns if the other image has
only one keypoint. -/
theorem nndr_short_refuted (train query : List KeyPoint) (ratio : ℝ) (d : DMatch) (ms : List (List DMatch))
    (old : List Pt) : nndr train query ratio ([d] :: ms) old = .ub := rfl

/-- `queryIdx` is used as an index of `train`: keypoints passed as the names of the parameters suggest are read outside of
the bounds. -/
theorem nndr_names_refuted : ¬∀ (train query : List KeyPoint) (ratio : ℝ) (ms : List (List DMatch)),
    (∀ m ∈ ms, 2 ≤ m.length) →
      (∀ m ∈ ms, ∀ d ∈ m, 0 ≤ d.queryIdx ∧ d.queryIdx < query.length ∧ 0 ≤ d.trainIdx ∧ d.trainIdx < train.length) →
        ∃ out, nndr train query ratio ms [] = .ok out := by
  intro h
  obtain ⟨out, ho⟩ := h [⟨(0, 0), 1⟩] [⟨(0, 0), 1⟩, ⟨(0, 0), 1⟩] 1 [[⟨1, 0, 1⟩, ⟨1, 0, 2⟩]] (by simp) (by simp)
  norm_num [nndr, get, Outcome.bind] at ho
  cases ho

/-! ### Inliers of an estimated model -/

private theorem split_flat (pairs : List (Pt × Pt)) :
    split (flat pairs) = .ok (pairs.map Prod.fst, pairs.map Prod.snd) := by
  induction pairs with
  | nil => rfl
  | cons p l ih =>
    rw [flat_cons, split, ih, bind_okay]
    rfl

private theorem split_odd (ms : List Pt) (h : ms.length % 2 = 1) : split ms = .ub := by
  induction ms using split.induct with
  | case1 => simp at h
  | case2 => rfl
  | case3 a b r ih =>
    rw [split, ih (by simp only [List.length_cons] at h; omega)]
    rfl

private theorem pick_pairs (pairs : List (Pt × Pt)) (st : List Nat) (h : st.length = pairs.length) :
    pick (pairs.map Prod.fst) (pairs.map Prod.snd) st =
      .ok (flat (((pairs.zip st).filter fun e => e.2 = 1).map Prod.fst)) := by
  induction pairs generalizing st with
  | nil => cases st <;> rfl
  | cons p l ih =>
    cases st with
    | nil => simp at h
    | cons s st =>
      simp only [List.map_cons, pick, List.zip_cons_cons]
      rw [ih st (by simpa using h), bind_okay]
      by_cases hs : s = 1
      · rw [if_pos hs, List.filter_cons_of_pos (by simpa using hs)]
        rfl
      · rw [if_neg hs, List.filter_cons_of_neg (by simpa using hs)]

/-- The estimator is given the points of the first image and those of the second in the order of the pairs, and the pairs
flagged are appended. -/
theorem ransac_spec (find : List Pt → List Pt → Outcome (List Nat)) (pairs : List (Pt × Pt)) (old : List Pt)
    (st : List Nat) (hf : find (pairs.map Prod.fst) (pairs.map Prod.snd) = .ok st) (hst : st.length = pairs.length) :
    ransac find (flat pairs) old =
      .ok (old ++ flat (((pairs.zip st).filter fun e => e.2 = 1).map Prod.fst)) := by
  rw [ransac, split_flat, bind_okay, hf, bind_okay, pick_pairs pairs st hst, bind_okay]

example (a b c d : Pt) : ransac (fun _ _ => .ok [0, 1]) (flat [(a, b), (c, d)]) [] = .ok [c, d] := rfl

/-- Every inlier is one of the matches, in their order. -/
theorem ransac_sublist (find : List Pt → List Pt → Outcome (List Nat)) (pairs : List (Pt × Pt)) (old out : List Pt)
    (hst : ∀ st, find (pairs.map Prod.fst) (pairs.map Prod.snd) = .ok st → st.length = pairs.length)
    (h : ransac find (flat pairs) old = .ok out) : ∃ l, l.Sublist pairs ∧ out = old ++ flat l := by
  have h0 := h
  rw [ransac, split_flat, bind_okay] at h
  obtain ⟨st, hf, -⟩ := bind_eq h
  rw [ransac_spec find pairs old st hf (hst st hf)] at h0
  injection h0 with h0
  refine ⟨_, ?_, h0.symm⟩
  have hfst : (pairs.zip st).map Prod.fst = pairs := by
    rw [List.map_fst_zip]
    exact le_of_eq (hst st hf).symm
  conv_rhs => rw [← hfst]
  exact List.Sublist.map _ List.filter_sublist

example : ∃ out, ransac (fun p _ => .ok (p.map fun _ => 1)) (flat [((1, 2), (3, 4))]) [] = .ok out :=
  ⟨_, rfl⟩

/-- The inliers of an earlier call are kept: two calls with the same vector return every inlier twice. -/
theorem ransac_twice_refuted : ∃ (find : List Pt → List Pt → Outcome (List Nat)) (ms out out' : List Pt),
    ransac find ms [] = .ok out ∧ ransac find ms out = .ok out' ∧ out'.length = 2 * out.length ∧ out ≠ [] := by
  refine ⟨fun p _ => .ok (p.map fun _ => 1), [(0, 0), (1, 1)], [(0, 0), (1, 1)],
    [(0, 0), (1, 1), (0, 0), (1, 1)], rfl, rfl, rfl, by simp⟩

/-- A vector of odd length is read outside of its bounds. -/
theorem ransac_odd_refuted (find : List Pt → List Pt → Outcome (List Nat)) (ms old : List Pt)
    (h : ms.length % 2 = 1) : ransac find ms old = .ub := by
  rw [ransac, split_odd ms h]
  rfl

example : ([(0, 0)] : List Pt).length % 2 = 1 := rfl

/-! ### Inliers of a given homography -/

/-- The point `c` is the image of `a` by the homography. -/
def Image (H : Matrix (Fin 3) (Fin 3) ℝ) (a c : Pt) : Prop :=
  ∃ w : ℝ, w ≠ 0 ∧ H.mulVec ![a.1, a.2, 1] = w • ![c.1, c.2, 1]

private theorem image_iff (H : Matrix (Fin 3) (Fin 3) ℝ) (a c : Pt) :
    Image H a c ↔ H 2 0 * a.1 + H 2 1 * a.2 + H 2 2 ≠ 0 ∧
      c.1 = (H 0 0 * a.1 + H 0 1 * a.2 + H 0 2) / (H 2 0 * a.1 + H 2 1 * a.2 + H 2 2) ∧
      c.2 = (H 1 0 * a.1 + H 1 1 * a.2 + H 1 2) / (H 2 0 * a.1 + H 2 1 * a.2 + H 2 2) := by
  constructor
  · rintro ⟨w, hw, h⟩
    have h0 := congrFun h 0
    have h1 := congrFun h 1
    have h2 := congrFun h 2
    simp [Matrix.mulVec, dotProduct, Fin.sum_univ_three] at h0 h1 h2
    rw [h2, h0, h1]
    refine ⟨hw, ?_, ?_⟩ <;> field_simp
  · rintro ⟨hs, h0, h1⟩
    refine ⟨_, hs, ?_⟩
    funext i
    fin_cases i
    · simp [Matrix.mulVec, dotProduct, Fin.sum_univ_three]
      rw [h0, mul_div_cancel₀ _ hs]
    · simp [Matrix.mulVec, dotProduct, Fin.sum_univ_three]
      rw [h1, mul_div_cancel₀ _ hs]
    · simp [Matrix.mulVec, dotProduct, Fin.sum_univ_three]

/-- A pair fits exactly if the first point has an image and its distance from the second point is at most the error. -/
theorem fits_iff (H : Matrix (Fin 3) (Fin 3) ℝ) (e : ℝ) (a b : Pt) :
    fits H e a b = true ↔ ∃ c, Image H a c ∧ 0 ≤ e ∧ (c.1 - b.1) ^ 2 + (c.2 - b.2) ^ 2 ≤ e ^ 2 := by
  unfold fits
  simp only []
  by_cases hs : H 2 0 * a.1 + H 2 1 * a.2 + H 2 2 = 0
  · rw [if_pos hs]
    constructor
    · intro h
      cases h
    · rintro ⟨c, hi, -⟩
      exact absurd hs ((image_iff H a c).1 hi).1
  · rw [if_neg hs, decide_eq_true_iff]
    constructor
    · intro h
      refine ⟨(_, _), (image_iff H a _).2 ⟨hs, rfl, rfl⟩, le_trans (Real.sqrt_nonneg _) h, ?_⟩
      exact (Real.sqrt_le_left (le_trans (Real.sqrt_nonneg _) h)).1 h
    · rintro ⟨c, hi, he, hd⟩
      obtain ⟨-, h0, h1⟩ := (image_iff H a c).1 hi
      rw [← h0, ← h1]
      exact (Real.sqrt_le_left he).2 hd

/-- A shift by (2, 1). -/
example : Image !![1, 0, 2; 0, 1, 1; 0, 0, 1] (3, 4) (5, 5) := by
  rw [image_iff]
  simp
  norm_num

private theorem fitting_flat (H : Matrix (Fin 3) (Fin 3) ℝ) (e : ℝ) (pairs : List (Pt × Pt)) :
    fitting H e (flat pairs) = .ok (flat (pairs.filter fun p => fits H e p.1 p.2)) := by
  induction pairs with
  | nil => rfl
  | cons p l ih =>
    rw [flat_cons, fitting, ih, bind_okay]
    by_cases h : fits H e p.1 p.2 = true
    · rw [if_pos h, List.filter_cons_of_pos (p := fun p : Pt × Pt => fits H e p.1 p.2) h]
      rfl
    · rw [if_neg h, List.filter_cons_of_neg (p := fun p : Pt × Pt => fits H e p.1 p.2) h]

open Classical in
/-- The inliers are the pairs of which the image of the first point is within the error of the second, in their order, and
nothing else; what the vector held before is gone. -/
theorem homography_spec (pairs : List (Pt × Pt)) (old : List Pt) (H : Matrix (Fin 3) (Fin 3) ℝ) (e : ℝ) :
    homography (flat pairs) old (some H) e =
      .ok (flat (pairs.filter fun p => decide (∃ c, Image H p.1 c ∧ 0 ≤ e ∧
        (c.1 - p.2.1) ^ 2 + (c.2 - p.2.2) ^ 2 ≤ e ^ 2))) := by
  rw [homography, fitting_flat]
  congr 2
  apply List.filter_congr
  intro p _
  rw [Bool.eq_iff_iff, fits_iff, decide_eq_true_iff]

/-- The identity: one pair within the error and one that is not. -/
example : homography (flat [((0, 0), (3, 4)), ((1, 1), (9, 9))]) [(7, 7)] (some 1) 5 = .ok [(0, 0), (3, 4)] := by
  have h1 : fits 1 5 (0, 0) (3, 4) = true := by
    rw [fits_iff]
    exact ⟨(0, 0), by rw [image_iff]; simp, by norm_num, by norm_num⟩
  have h2 : fits 1 5 (1, 1) (9, 9) = false := by
    rw [← Bool.not_eq_true, fits_iff]
    rintro ⟨c, hc, -, h⟩
    rw [image_iff] at hc
    simp at hc
    rw [hc.1, hc.2] at h
    norm_num at h
  rw [homography, fitting_flat]
  simp [flat, h1, h2]

/-- The scale of the homography does not matter. -/
theorem homography_scale (ms old : List Pt) (H : Matrix (Fin 3) (Fin 3) ℝ) (k : ℝ) (hk : k ≠ 0) (e : ℝ) :
    homography ms old (some (k • H)) e = homography ms old (some H) e := by
  have himg : ∀ a c, Image (k • H) a c ↔ Image H a c := by
    intro a c
    constructor
    · rintro ⟨w, hw, h⟩
      refine ⟨k⁻¹ * w, mul_ne_zero (inv_ne_zero hk) hw, ?_⟩
      rw [Matrix.smul_mulVec] at h
      rw [mul_smul, ← h, smul_smul, inv_mul_cancel₀ hk, one_smul]
    · rintro ⟨w, hw, h⟩
      refine ⟨k * w, mul_ne_zero hk hw, ?_⟩
      rw [Matrix.smul_mulVec, h, mul_smul]
  have hfit : ∀ a b, fits (k • H) e a b = fits H e a b := by
    intro a b
    rw [Bool.eq_iff_iff, fits_iff, fits_iff]
    simp only [himg]
  simp only [homography]
  induction ms using split.induct with
  | case1 => rfl
  | case2 => rfl
  | case3 a b r ih => rw [fitting, fitting, ih, hfit]

example : ((-2 : ℝ)) ≠ 0 := by norm_num

/-- Inliers are inliers again. -/
theorem homography_again (ms old old' out : List Pt) (H : Option (Matrix (Fin 3) (Fin 3) ℝ)) (e : ℝ)
    (h : homography ms old H e = .ok out) : homography out old' H e = .ok out := by
  cases H with
  | none =>
    rw [homography] at h
    by_cases hm : ms.length % 2 = 0
    · rw [if_pos hm] at h
      injection h with h
      rw [← h]
      rfl
    · rw [if_neg hm] at h
      cases h
  | some H =>
    simp only [homography] at h ⊢
    induction ms using split.induct generalizing out with
    | case1 =>
      injection h with h
      rw [← h]
      rfl
    | case2 => cases h
    | case3 a b r ih =>
      rw [fitting] at h
      obtain ⟨l, hl, h⟩ := bind_eq h
      injection h with h
      have hl' := ih l hl
      by_cases hf : fits H e a b = true
      · rw [if_pos hf] at h
        rw [← h, fitting, hl', bind_okay, if_pos hf]
      · rw [if_neg hf] at h
        rw [← h]
        exact hl'

example : homography [] [] (some 1) 1 = .ok [] := rfl

/-- A larger error never loses an inlier. -/
theorem homography_mono (ms old old' out out' : List Pt) (H : Option (Matrix (Fin 3) (Fin 3) ℝ)) (e e' : ℝ)
    (he : e ≤ e') (h : homography ms old H e = .ok out) (h' : homography ms old' H e' = .ok out') :
    out.Sublist out' := by
  cases H with
  | none =>
    rw [homography] at h
    by_cases hm : ms.length % 2 = 0
    · rw [if_pos hm] at h
      injection h with h
      rw [← h]
      exact List.nil_sublist _
    · rw [if_neg hm] at h
      cases h
  | some H =>
    simp only [homography] at h h'
    induction ms using split.induct generalizing out out' with
    | case1 =>
      injection h with h
      rw [← h]
      exact List.nil_sublist _
    | case2 => cases h
    | case3 a b r ih =>
      rw [fitting] at h h'
      obtain ⟨l, hl, h⟩ := bind_eq h
      obtain ⟨l', hl', h'⟩ := bind_eq h'
      injection h with h
      injection h' with h'
      have hs := ih l l' hl hl'
      have himp : fits H e a b = true → fits H e' a b = true := by
        rw [fits_iff, fits_iff]
        rintro ⟨c, hc, h0, hd⟩
        exact ⟨c, hc, le_trans h0 he, le_trans hd (by nlinarith)⟩
      rw [← h, ← h']
      by_cases hf : fits H e a b = true
      · rw [if_pos hf, if_pos (himp hf)]
        exact (hs.cons_cons b).cons_cons a
      · rw [if_neg hf]
        by_cases hf' : fits H e' a b = true
        · rw [if_pos hf']
          exact (hs.cons b).cons a
        · rw [if_neg hf']
          exact hs

example : ∃ out out', homography [] [] (some 1) 1 = .ok out ∧ homography [] [] (some 1) 2 = .ok out' ∧ (1 : ℝ) ≤ 2 :=
  ⟨[], [], rfl, rfl, by norm_num⟩

/-- Without an error, the pairs that fit a homography are those that fit its inverse with the images exchanged. -/
theorem homography_inverse (H : Matrix (Fin 3) (Fin 3) ℝ) (hH : IsUnit H.det) (a b : Pt) :
    fits H 0 a b = fits H⁻¹ 0 b a := by
  have key : ∀ (G : Matrix (Fin 3) (Fin 3) ℝ) (a b : Pt), fits G 0 a b = true ↔ Image G a b := by
    intro G a b
    rw [fits_iff]
    constructor
    · rintro ⟨c, hc, -, hd⟩
      have h1 : c.1 = b.1 := by nlinarith [sq_nonneg (c.1 - b.1), sq_nonneg (c.2 - b.2)]
      have h2 : c.2 = b.2 := by nlinarith [sq_nonneg (c.1 - b.1), sq_nonneg (c.2 - b.2)]
      rwa [show b = c from Prod.ext h1.symm h2.symm]
    · intro h
      exact ⟨b, h, le_refl _, by simp⟩
  rw [Bool.eq_iff_iff, key, key]
  constructor
  · rintro ⟨w, hw, h⟩
    refine ⟨w⁻¹, inv_ne_zero hw, ?_⟩
    have h' : ![b.1, b.2, 1] = w⁻¹ • H.mulVec ![a.1, a.2, 1] := by
      rw [h, smul_smul, inv_mul_cancel₀ hw, one_smul]
    rw [h', Matrix.mulVec_smul, Matrix.mulVec_mulVec, Matrix.nonsing_inv_mul H hH, Matrix.one_mulVec]
  · rintro ⟨w, hw, h⟩
    refine ⟨w⁻¹, inv_ne_zero hw, ?_⟩
    have h' : ![a.1, a.2, 1] = w⁻¹ • H⁻¹.mulVec ![b.1, b.2, 1] := by
      rw [h, smul_smul, inv_mul_cancel₀ hw, one_smul]
    rw [h', Matrix.mulVec_smul, Matrix.mulVec_mulVec, Matrix.mul_nonsing_inv H hH, Matrix.one_mulVec]

example : IsUnit (!![2, 0, 1; 0, 1, 0; 0, 0, 1] : Matrix (Fin 3) (Fin 3) ℝ).det := by
  rw [Matrix.det_fin_three]
  simp

/-- Filtering a vector in place loses every match, also those that fit. -/
theorem homography_alias_refuted : ¬∀ (ms out : List Pt) (H : Matrix (Fin 3) (Fin 3) ℝ) (e : ℝ),
    homography ms [] (some H) e = .ok out → homographyAlias ms (some H) e = .ok out := by
  intro h
  have h1 : fits 1 5 (0, 0) (3, 4) = true := by
    rw [fits_iff]
    exact ⟨(0, 0), by rw [image_iff]; simp, by norm_num, by norm_num⟩
  have := h (flat [((0, 0), (3, 4))]) (flat [((0, 0), (3, 4))]) 1 5 (by
    rw [homography, fitting_flat]
    simp [h1])
  simp [homographyAlias, homography, fitting, flat] at this

/-- A vector of odd length is read outside of its bounds. -/
theorem homography_odd_refuted (ms old : List Pt) (H : Option (Matrix (Fin 3) (Fin 3) ℝ)) (e : ℝ)
    (h : ms.length % 2 = 1) : homography ms old H e = .ub := by
  cases H with
  | none => simp [homography, h]
  | some H =>
    simp only [homography]
    induction ms using split.induct with
    | case1 => simp at h
    | case2 => rfl
    | case3 a b r ih =>
      rw [fitting, ih (by simp only [List.length_cons] at h; omega)]
      rfl

/-! ### The ground truth -/

private theorem getline_nl (line r : List Char) (h : '\n' ∉ line) (hl : line.length ≤ 255) :
    getline 256 ⟨line ++ '\n' :: r, true⟩ = (line, ⟨r, true⟩) := by
  have htake : (line ++ '\n' :: r).takeWhile (· ≠ '\n') = line := by
    rw [List.takeWhile_append_of_pos]
    · simp
    · intro c hc
      simpa using fun he : c = '\n' => h (he ▸ hc)
  unfold getline
  simp only [if_true, htake]
  rw [if_pos (by omega)]
  simp

private theorem getline_end (line : List Char) (h : '\n' ∉ line) (hl : line.length ≤ 255) :
    getline 256 ⟨line, true⟩ = (line, ⟨[], false⟩) := by
  have htake : line.takeWhile (· ≠ '\n') = line := by
    have := List.takeWhile_append_of_pos (p := (· ≠ '\n')) (l₁ := line) (l₂ := []) (by
      intro c hc
      simpa using fun he : c = '\n' => h (he ▸ hc))
    simpa using this
  unfold getline
  simp only [if_true, htake]
  rw [if_pos (by omega)]
  simp

private theorem getline_long (line r : List Char) (h : '\n' ∉ line) (hl : 255 < line.length) :
    (getline 256 ⟨line ++ r, true⟩).2.good = false := by
  have htake : 255 < ((line ++ r).takeWhile (· ≠ '\n')).length := by
    rw [List.takeWhile_append_of_pos]
    · rw [List.length_append]
      omega
    · intro c hc
      simpa using fun he : c = '\n' => h (he ▸ hc)
  unfold getline
  simp only [if_true]
  rw [if_neg (by omega)]

private theorem getline_bad (s : Stream) (h : s.good = false) : getline 256 s = ([], s) := by
  unfold getline
  rw [h]
  rfl

/-- A file with three lines of three numbers is read as the homography with last entry one; further lines are ignored. -/
theorem read_spec (scan : List Char → List ℝ) (l0 l1 l2 : List Char) (tail : Option (List Char))
    (h : Matrix (Fin 3) (Fin 3) ℝ) (hn : '\n' ∉ l0 ∧ '\n' ∉ l1 ∧ '\n' ∉ l2)
    (hl : l0.length ≤ 255 ∧ l1.length ≤ 255 ∧ l2.length ≤ 255)
    (h0 : scan l0 = [h 0 0, h 0 1, h 0 2]) (h1 : scan l1 = [h 1 0, h 1 1, h 1 2]) (h2 : scan l2 = [h 2 0, h 2 1, h 2 2])
    (h33 : h 2 2 ≠ 0) :
    readHomography scan (some (l0 ++ '\n' :: (l1 ++ '\n' :: (l2 ++ (tail.elim [] fun t => '\n' :: t))))) =
      (true, some ((h 2 2)⁻¹ • h)) := by
  have g2 : (getline 256 ⟨l2 ++ (tail.elim [] fun t => '\n' :: t), true⟩).1 = l2 := by
    cases tail with
    | none =>
      simp only [Option.elim_none, List.append_nil]
      rw [getline_end l2 hn.2.2 hl.2.2]
    | some t =>
      simp only [Option.elim_some]
      rw [getline_nl l2 t hn.2.2 hl.2.2]
  have hrow : (![row scan l0, row scan l1, row scan l2] : Matrix (Fin 3) (Fin 3) ℝ) = h := by
    funext i j
    fin_cases i <;> fin_cases j <;> simp [row, h0, h1, h2]
  unfold readHomography
  simp only [getline_nl l0 _ hn.1 hl.1, getline_nl l1 _ hn.2.1 hl.2.1, g2]
  rw [hrow, if_neg h33]
  congr 2
  funext i j
  simp [div_eq_inv_mul]

/-- Lines of one character that stands for three numbers each. -/
example : readHomography (fun l => if l = ['a'] then [2, 0, 4] else if l = ['b'] then [0, 2, 6] else [0, 0, 2])
    (some ['a', '\n', 'b', '\n', 'c']) = (true, some ((2 : ℝ)⁻¹ • !![2, 0, 4; 0, 2, 6; 0, 0, 2])) := by
  have := read_spec (fun l => if l = ['a'] then [2, 0, 4] else if l = ['b'] then [0, 2, 6] else [0, 0, 2])
    ['a'] ['b'] ['c'] none !![2, 0, 4; 0, 2, 6; 0, 0, 2] (by decide) (by decide) (by simp) (by simp) (by simp) (by simp)
  simpa using this

/-- The inliers of the homography read are those of the homography in the file. -/
theorem read_inliers (scan : List Char → List ℝ) (l0 l1 l2 : List Char) (h : Matrix (Fin 3) (Fin 3) ℝ)
    (hn : '\n' ∉ l0 ∧ '\n' ∉ l1 ∧ '\n' ∉ l2) (hl : l0.length ≤ 255 ∧ l1.length ≤ 255 ∧ l2.length ≤ 255)
    (h0 : scan l0 = [h 0 0, h 0 1, h 0 2]) (h1 : scan l1 = [h 1 0, h 1 1, h 1 2]) (h2 : scan l2 = [h 2 0, h 2 1, h 2 2])
    (h33 : h 2 2 ≠ 0) (ms old : List Pt) (e : ℝ) :
    homography ms old (readHomography scan (some (l0 ++ '\n' :: (l1 ++ '\n' :: l2)))).2 e =
      homography ms old (some h) e := by
  have := read_spec scan l0 l1 l2 none h hn hl h0 h1 h2 h33
  simp only [Option.elim_none, List.append_nil] at this
  rw [this]
  exact homography_scale ms old h _ (inv_ne_zero h33) e

example : (!![2, 0, 4; 0, 2, 6; 0, 0, 2] : Matrix (Fin 3) (Fin 3) ℝ) 2 2 ≠ 0 := by simp

/-- A file that cannot be opened is reported, and the matrix left behind has no inliers. -/
theorem read_missing (scan : List Char → List ℝ) (pairs : List (Pt × Pt)) (old : List Pt) (e : ℝ) :
    (readHomography scan none).1 = false ∧
      homography (flat pairs) old (readHomography scan none).2 e = .ok [] := by
  refine ⟨rfl, ?_⟩
  simp only [readHomography]
  rw [homography, fitting_flat, List.filter_eq_nil_iff.2]
  · rfl
  · intro p _
    simp [fits]

/-- A file with less than three lines is read with success, but the matrix does not consist of numbers and no pair is an
inlier. -/
theorem read_incomplete_refuted (scan : List Char → List ℝ) (hscan : scan [] = []) (l0 l1 : List Char)
    (hn : '\n' ∉ l0 ∧ '\n' ∉ l1) (hl : l0.length ≤ 255 ∧ l1.length ≤ 255) (pairs : List (Pt × Pt)) (old : List Pt)
    (e : ℝ) : readHomography scan (some (l0 ++ '\n' :: l1)) = (true, none) ∧
      homography (flat pairs) old (readHomography scan (some (l0 ++ '\n' :: l1))).2 e = .ok [] := by
  have hr : readHomography scan (some (l0 ++ '\n' :: l1)) = (true, none) := by
    unfold readHomography
    simp only [getline_nl l0 _ hn.1 hl.1, getline_end l1 hn.2 hl.2, getline_bad ⟨[], false⟩ rfl]
    rw [if_pos]
    simp [row, hscan]
  refine ⟨hr, ?_⟩
  rw [hr, homography, if_pos]
  induction pairs with
  | nil => rfl
  | cons p l ih =>
    rw [flat_cons]
    simp only [List.length_cons]
    omega

example : readHomography (fun _ => []) (some ['1', '\n', '2']) = (true, none) :=
  (read_incomplete_refuted _ rfl ['1'] ['2'] (by decide) (by decide) [] [] 1).1

/-- A first line of more than 255 characters, be it trailing spaces, makes the following lines unread: success is reported,
but the matrix does not consist of numbers. -/
theorem read_long_refuted (scan : List Char → List ℝ) (hscan : scan [] = []) (l0 r : List Char) (hn : '\n' ∉ l0)
    (hl : 255 < l0.length) : readHomography scan (some (l0 ++ '\n' :: r)) = (true, none) := by
  have hb := getline_long l0 ('\n' :: r) hn hl
  have h1 := getline_bad _ hb
  unfold readHomography
  simp only [h1]
  rw [if_pos]
  simp [row, hscan]

example : 255 < (List.replicate 300 ' ').length ∧ '\n' ∉ List.replicate 300 ' ' := by
  rw [List.length_replicate, List.mem_replicate]
  decide

/-! ### The file of keypoints -/

/-- A line for each descriptor with the position of its keypoint, the ellipse and the descriptor, after the size of the
descriptors and their number. -/
theorem save_spec (kpts : List KeyPoint) (cols : Nat) (desc : List (List ℝ)) (h : desc.length ≤ kpts.length) :
    ∃ f, save true kpts cols desc = .ok (1, some f) ∧ f.length = cols ∧ f.count = desc.length ∧
      f.lines.length = f.count ∧
      ∀ (i : Nat) (k : KeyPoint) (d : List ℝ), kpts[i]? = some k → desc[i]? = some d →
        f.lines[i]? = some ([some k.pt.1, some k.pt.2, invRadiusSq k.size, some 0, invRadiusSq k.size] ++ d.map some) := by
  have key : ∃ l, saveLines kpts desc = .ok l ∧ l.length = desc.length ∧
      ∀ (i : Nat) (k : KeyPoint) (d : List ℝ), kpts[i]? = some k → desc[i]? = some d →
        l[i]? = some ([some k.pt.1, some k.pt.2, invRadiusSq k.size, some 0, invRadiusSq k.size] ++ d.map some) := by
    induction desc generalizing kpts with
    | nil => exact ⟨[], by cases kpts <;> rfl, rfl, by simp⟩
    | cons d ds ih =>
      cases kpts with
      | nil => simp at h
      | cons k ks =>
        obtain ⟨l, hl, hlen, hi⟩ := ih ks (by simpa using h)
        refine ⟨_, by rw [saveLines, hl, bind_okay], by simp [hlen], ?_⟩
        intro i k' d' hk hd
        cases i with
        | zero =>
          simp only [List.getElem?_cons_zero, Option.some.injEq] at hk hd ⊢
          rw [hk, hd]
        | succ i => simpa using hi i k' d' (by simpa using hk) (by simpa using hd)
  obtain ⟨l, hl, hlen, hi⟩ := key
  exact ⟨⟨cols, desc.length, l⟩, by rw [save, if_pos rfl, hl, bind_okay], rfl, rfl, hlen, hi⟩

/-- The two entries of the ellipse determine the size of a keypoint of positive size. -/
theorem save_radius (size : ℝ) (h : 0 < size) : ∃ v, invRadiusSq size = some v ∧ 0 < v ∧ v * (size / 2) ^ 2 = 1 := by
  have hs : size / 2 * (size / 2) ≠ 0 := by positivity
  refine ⟨1 / (size / 2 * (size / 2)), by simp only [invRadiusSq]; rw [if_neg hs], by positivity, ?_⟩
  field_simp

example : invRadiusSq 4 = some (1 / 4) := by norm_num [invRadiusSq]

/-- The file is not written if it cannot be opened. -/
theorem save_unopened (kpts : List KeyPoint) (cols : Nat) (desc : List (List ℝ)) :
    save false kpts cols desc = .ok (-1, none) := rfl

/-- More descriptors than keypoints: keypoints are read outside of the vector. -/
theorem save_fewer_refuted (kpts : List KeyPoint) (cols : Nat) (desc : List (List ℝ)) (h : kpts.length < desc.length) :
    save true kpts cols desc = .ub := by
  have key : saveLines kpts desc = .ub := by
    induction desc generalizing kpts with
    | nil => simp at h
    | cons d ds ih =>
      cases kpts with
      | nil => rfl
      | cons k ks =>
        rw [saveLines, ih ks (by simpa using h)]
        rfl
  rw [save, if_pos rfl, key]
  rfl

/-- Keypoints without descriptors are not written, though success is returned. -/
theorem save_more_refuted (kpts : List KeyPoint) (cols : Nat) : save true kpts cols [] = .ok (1, some ⟨cols, 0, []⟩) := by
  cases kpts <;> rfl

/-- The ellipse of a keypoint of size zero is not finite. -/
theorem save_zero_refuted : invRadiusSq 0 = none := by simp [invRadiusSq]

/-! ### The image of the inliers -/

private theorem read_some {α : Type} (m : Img α) (i j : Nat) (hm : m.data.length = m.rows * m.cols) (hi : i < m.rows)
    (hj : j < m.cols) : ∃ x, m.data[i * m.cols + j]? = some x ∧ m.read i j = .ok x := by
  have hlt : i * m.cols + j < m.data.length := by
    rw [hm]
    calc i * m.cols + j < i * m.cols + m.cols := by omega
      _ = (i + 1) * m.cols := by rw [Nat.add_mul, Nat.one_mul]
      _ ≤ m.rows * m.cols := Nat.mul_le_mul_right _ hi
  refine ⟨m.data[i * m.cols + j], List.getElem?_eq_getElem hlt, ?_⟩
  rw [Img.read, if_pos hi, List.getElem?_eq_getElem hlt]

private theorem composeRow_ok {α : Type} (img1 img2 : Img α) (i : Nat) (v : Nat → α) (js : List Nat)
    (h : ∀ j ∈ js, (if j < img1.cols then img1.read i j else img2.read i (j - img1.cols)) = .ok (v j)) :
    composeRow img1 img2 i js = .ok (js.map v) := by
  induction js with
  | nil => rfl
  | cons j js ih =>
    rw [composeRow, h j (List.mem_cons_self ..), bind_okay, ih fun j hj => h j (List.mem_cons_of_mem _ hj)]
    rfl

private theorem composeRows_ok {α : Type} (img1 img2 : Img α) (cols : Nat) (v : Nat → Nat → α) (is : List Nat)
    (h : ∀ i ∈ is, ∀ j < cols, (if j < img1.cols then img1.read i j else img2.read i (j - img1.cols)) = .ok (v i j)) :
    composeRows img1 img2 cols is = .ok (is.map fun i => (List.range cols).map (v i)) := by
  induction is with
  | nil => rfl
  | cons i is ih =>
    rw [composeRows, composeRow_ok img1 img2 i (v i) _ fun j hj => h i (List.mem_cons_self ..) j (List.mem_range.1 hj),
      bind_okay, ih fun i hi => h i (List.mem_cons_of_mem _ hi)]
    rfl

/-- The pixel of an image. -/
def Img.pixel {α : Type} (m : Img α) (i j : Nat) : Option α := m.data[i * m.cols + j]?

/-- If the second image is at least as large as the first in both directions, the canvas shows the first image to the left
and the upper left part of the second image to the right. -/
theorem compose_spec {α : Type} (img1 img2 : Img α) (h1 : img1.data.length = img1.rows * img1.cols)
    (h2 : img2.data.length = img2.rows * img2.cols) (hr : img1.rows ≤ img2.rows) (hc : img1.cols ≤ img2.cols) :
    ∃ px, composeRows img1 img2 (2 * img1.cols) (List.range img1.rows) = .ok px ∧
      px.length = img1.rows ∧
      ∀ (i : Nat), i < img1.rows → ∃ r, px[i]? = some r ∧ r.length = 2 * img1.cols ∧
        ∀ (j : Nat), j < img1.cols → r[j]? = img1.pixel i j ∧ r[img1.cols + j]? = img2.pixel i j := by
  have hv : ∀ i j, ∃ x : Option α, (i < img1.rows → j < 2 * img1.cols →
      (if j < img1.cols then img1.read i j else img2.read i (j - img1.cols)) =
        (match x with | some y => .ok y | none => .ub) ∧
      x = (if j < img1.cols then img1.pixel i j else img2.pixel i (j - img1.cols)) ∧ x.isSome) := by
    intro i j
    refine ⟨if j < img1.cols then img1.pixel i j else img2.pixel i (j - img1.cols), fun hi hj => ?_⟩
    by_cases hlt : j < img1.cols
    · obtain ⟨x, hx, hrd⟩ := read_some img1 i j h1 hi hlt
      simp only [if_pos hlt, Img.pixel, hx, hrd, Option.isSome_some, and_self]
    · obtain ⟨x, hx, hrd⟩ := read_some img2 i (j - img1.cols) h2 (by omega) (by omega)
      simp only [if_neg hlt, Img.pixel, hx, hrd, Option.isSome_some, and_self]
  choose w hw using hv
  by_cases hne : Nonempty α
  · obtain ⟨dflt⟩ := hne
    refine ⟨_, composeRows_ok img1 img2 _ (fun i j => (w i j).getD dflt) _ ?_, by simp, ?_⟩
    · intro i hi j hj
      obtain ⟨ha, -, hs⟩ := hw i j (List.mem_range.1 hi) hj
      obtain ⟨y, hy⟩ := Option.isSome_iff_exists.1 hs
      rw [ha, hy]
      rfl
    · intro i hi
      refine ⟨(List.range (2 * img1.cols)).map fun j => (w i j).getD dflt, ?_, by simp, ?_⟩
      · rw [List.getElem?_map, List.getElem?_range hi]
        rfl
      · intro j hj
        have e1 := hw i j hi (by omega)
        have e2 := hw i (img1.cols + j) hi (by omega)
        obtain ⟨y1, hy1⟩ := Option.isSome_iff_exists.1 e1.2.2
        obtain ⟨y2, hy2⟩ := Option.isSome_iff_exists.1 e2.2.2
        constructor
        · rw [List.getElem?_map, List.getElem?_range (by omega)]
          have : w i j = img1.pixel i j := by rw [e1.2.1, if_pos hj]
          rw [← this, hy1]
          simp [hy1]
        · rw [List.getElem?_map, List.getElem?_range (by omega)]
          have : w i (img1.cols + j) = img2.pixel i j := by
            rw [e2.2.1, if_neg (by omega), Nat.add_sub_cancel_left]
          rw [← this, hy2]
          simp [hy2]
  · have he : ∀ i j, i < img1.rows → j < 2 * img1.cols → False := by
      intro i j hi hj
      obtain ⟨y, -⟩ := Option.isSome_iff_exists.1 (hw i j hi hj).2.2
      exact hne ⟨y⟩
    rcases Nat.eq_zero_or_pos img1.rows with h0 | h0
    · exact ⟨[], by rw [h0]; rfl, by simp [h0], fun i hi => by omega⟩
    · rcases Nat.eq_zero_or_pos img1.cols with hc0 | hc0
      · refine ⟨(List.range img1.rows).map fun _ => [], ?_, by simp, ?_⟩
        · rw [hc0]
          induction (List.range img1.rows) with
          | nil => rfl
          | cons i is ih =>
            rw [composeRows]
            simp only [Nat.mul_zero, List.range_zero, composeRow, bind_okay] at ih ⊢
            rw [ih]
            rfl
        · intro i hi
          exact ⟨[], by rw [List.getElem?_map, List.getElem?_range hi]; rfl, by simp [hc0], fun j hj => by omega⟩
      · exact (he 0 0 h0 (by omega)).elim

/-- Two images of one row and two columns. -/
example : composeRows ⟨1, 2, ['a', 'b']⟩ ⟨1, 2, ['c', 'd']⟩ 4 (List.range 1) = .ok [['a', 'b', 'c', 'd']] := by decide

private theorem read_nonok {α : Type} (m : Img α) (i j : Nat) : (∃ x, m.read i j = .ok x) ∨ m.read i j = .ub := by
  unfold Img.read
  by_cases h : i < m.rows
  · rw [if_pos h]
    cases m.data[i * m.cols + j]? with
    | none => exact Or.inr rfl
    | some x => exact Or.inl ⟨x, rfl⟩
  · rw [if_neg h]
    exact Or.inr rfl

private theorem composeRow_ub {α : Type} (img1 img2 : Img α) (i j : Nat) (js : List Nat) (hj : j ∈ js)
    (h : (if j < img1.cols then img1.read i j else img2.read i (j - img1.cols)) = .ub) :
    composeRow img1 img2 i js = .ub := by
  induction js with
  | nil => cases hj
  | cons k ks ih =>
    rw [composeRow]
    have hk : (∃ x, (if k < img1.cols then img1.read i k else img2.read i (k - img1.cols)) = .ok x) ∨
        (if k < img1.cols then img1.read i k else img2.read i (k - img1.cols)) = .ub := by
      by_cases hlt : k < img1.cols
      · rw [if_pos hlt]
        exact read_nonok ..
      · rw [if_neg hlt]
        exact read_nonok ..
    rcases hk with ⟨x, hx⟩ | hx
    · rw [hx, bind_okay]
      rcases List.mem_cons.1 hj with rfl | hj
      · rw [h] at hx
        cases hx
      · rw [ih hj]
        rfl
    · rw [hx]
      rfl

private theorem composeRow_cases {α : Type} (img1 img2 : Img α) (i : Nat) (js : List Nat) :
    (∃ x, composeRow img1 img2 i js = .ok x) ∨ composeRow img1 img2 i js = .ub := by
  induction js with
  | nil => exact Or.inl ⟨[], rfl⟩
  | cons k ks ih =>
    rw [composeRow]
    have hk : (∃ x, (if k < img1.cols then img1.read i k else img2.read i (k - img1.cols)) = .ok x) ∨
        (if k < img1.cols then img1.read i k else img2.read i (k - img1.cols)) = .ub := by
      by_cases hlt : k < img1.cols
      · rw [if_pos hlt]
        exact read_nonok ..
      · rw [if_neg hlt]
        exact read_nonok ..
    rcases hk with ⟨x, hx⟩ | hx
    · rw [hx, bind_okay]
      rcases ih with ⟨y, hy⟩ | hy
      · exact Or.inl ⟨x :: y, by rw [hy, bind_okay]⟩
      · exact Or.inr (by rw [hy]; rfl)
    · exact Or.inr (by rw [hx]; rfl)

private theorem composeRows_ub {α : Type} (img1 img2 : Img α) (cols i : Nat) (is : List Nat) (hi : i ∈ is)
    (h : composeRow img1 img2 i (List.range cols) = .ub) : composeRows img1 img2 cols is = .ub := by
  induction is with
  | nil => cases hi
  | cons k ks ih =>
    rw [composeRows]
    rcases composeRow_cases img1 img2 k (List.range cols) with ⟨x, hx⟩ | hx
    · rw [hx, bind_okay]
      rcases List.mem_cons.1 hi with rfl | hi
      · rw [h] at hx
        cases hx
      · rw [ih hi]
        rfl
    · rw [hx]
      rfl

/-- If the second image is narrower than the first and not higher, or has less rows, then it is read outside of its
bounds: what is copied is not the resized image. -/
theorem draw_smaller_refuted {α : Type} (img1 img2 : Img α) (h2 : img2.data.length = img2.rows * img2.cols)
    (h1e : 0 < img1.rows) (h1c : 0 < img1.cols) (h2e : 0 < img2.rows * img2.cols)
    (hs : (img2.cols < img1.cols ∧ img2.rows ≤ img1.rows) ∨ img2.rows < img1.rows) (ptpairs : List Pt)
    (color : Option Int) : drawInliers img1 img2 img1.rows (2 * img1.cols) ptpairs color = .ub := by
  have key : ∃ i < img1.rows, ∃ j < img1.cols, img2.read i j = .ub := by
    by_cases hrow : img2.rows < img1.rows
    · exact ⟨img2.rows, hrow, 0, h1c, by rw [Img.read, if_neg (by omega)]⟩
    · have hcol : img2.cols < img1.cols ∧ img2.rows ≤ img1.rows := by
        rcases hs with hs | hs
        · exact hs
        · exact absurd hs hrow
      refine ⟨img1.rows - 1, by omega, img1.cols - 1, by omega, ?_⟩
      rw [Img.read, if_pos (by omega)]
      have hge : img2.data.length ≤ (img1.rows - 1) * img2.cols + (img1.cols - 1) := by
        rw [h2, show img2.rows = (img1.rows - 1) + 1 by omega, Nat.add_mul]
        omega
      rw [List.getElem?_eq_none hge]
  obtain ⟨i, hi, j, hj, hub⟩ := key
  have hrow : composeRow img1 img2 i (List.range (2 * img1.cols)) = .ub := by
    refine composeRow_ub img1 img2 i (img1.cols + j) _ (List.mem_range.2 (by omega)) ?_
    rw [if_neg (by omega), Nat.add_sub_cancel_left, hub]
  rw [drawInliers, if_neg, composeRows_ub img1 img2 _ i _ (List.mem_range.2 hi) hrow]
  · rfl
  · rintro (h | h)
    · exact absurd h (Nat.mul_pos h1e h1c).ne'
    · omega

example : drawInliers ⟨1, 2, ['a', 'b']⟩ ⟨1, 1, ['c']⟩ 1 4 [] none = .ub :=
  draw_smaller_refuted ⟨1, 2, ['a', 'b']⟩ ⟨1, 1, ['c']⟩ rfl (by decide) (by decide) (by decide) (Or.inl (by decide)) [] none

/-- For images of the same size, the inliers are joined by lines between their rounded positions, those of the second
image shifted by the width of the first. -/
theorem draw_lines {α : Type} (img1 img2 : Img α) (rows cols : Nat) (pairs : List (Pt × Pt)) (color : Option Int)
    (hr : img2.rows = img1.rows) (hc : img2.cols = img1.cols) (hr0 : 0 < img1.rows) (hc0 : 0 < img1.cols)
    (hp : ∀ p ∈ pairs, 0 ≤ p.1.1 ∧ 0 ≤ p.1.2 ∧ 0 ≤ p.2.1 ∧ 0 ≤ p.2.2)
    (px : List (List α)) (ls : List (Line × (Nat × Nat × Nat)))
    (h : drawInliers img1 img2 rows cols (flat pairs) color = .ok (px, ls)) :
    ls = match lineColour color with
      | some c => pairs.map fun p => (((⌊p.1.1 + 1 / 2⌋, ⌊p.1.2 + 1 / 2⌋),
          (⌊p.2.1 + 1 / 2⌋ + img1.cols, ⌊p.2.2 + 1 / 2⌋)), c)
      | none => [] := by
  have hl : inlierLines img1.cols ((img1.cols : ℝ) / img2.cols) ((img1.rows : ℝ) / img2.rows) (flat pairs) =
      .ok (pairs.map fun p => ((⌊p.1.1 + 1 / 2⌋, ⌊p.1.2 + 1 / 2⌋),
        (⌊p.2.1 + 1 / 2⌋ + (img1.cols : Int), ⌊p.2.2 + 1 / 2⌋))) := by
    rw [hr, hc, div_self (by positivity), div_self (by positivity)]
    clear h
    induction pairs with
    | nil => rfl
    | cons p l ih =>
      obtain ⟨ha, hb, hc, hd⟩ := hp p (List.mem_cons_self ..)
      rw [flat_cons, inlierLines, ih fun q hq => hp q (List.mem_cons_of_mem _ hq), bind_okay]
      have t : ∀ x : ℝ, 0 ≤ x → toInt (x + 1 / 2) = ⌊x + 1 / 2⌋ := fun x hx => by
        rw [toInt, if_pos (by positivity)]
      have t2 : toInt (p.2.1 * 1 + img1.cols + 1 / 2) = ⌊p.2.1 + 1 / 2⌋ + (img1.cols : Int) := by
        rw [toInt, if_pos (by positivity), ← Int.floor_add_natCast]
        congr 1
        ring
      rw [t _ ha, t _ hb, t2, mul_one, t _ hd]
      rfl
  rw [drawInliers] at h
  by_cases he : img1.rows * img1.cols = 0 ∨ img2.rows * img2.cols = 0
  · rw [if_pos he] at h
    cases h
  · rw [if_neg he] at h
    obtain ⟨q, -, h⟩ := bind_eq h
    rw [hl, bind_okay] at h
    injection h with h
    injection h with h1 h2
    rw [← h2]
    cases lineColour color with
    | none => rfl
    | some c => simp

example : ∃ ls, drawInliers ⟨1, 1, ['a']⟩ ⟨1, 1, ['c']⟩ 1 2 (flat [((0, 0), (0, 0))]) none = .ok ([['a', 'c']], ls) :=
  ⟨_, rfl⟩

/-- A larger second image is cut off while the inliers are scaled: the pixel at the position (2, 0) of the second image is
nowhere on the canvas, and its line ends at the pixel (1, 0) of that image. -/
theorem draw_larger_refuted : ∃ (img1 img2 : Img Nat) (ls : List (Line × (Nat × Nat × Nat))),
    img2.pixel 0 2 = some 7 ∧ img1.cols = 2 ∧
      drawInliers img1 img2 1 4 (flat [((0, 0), (2, 0))]) none = .ok ([[0, 1, 5, 6]], ls) ∧
      ls = [(((0, 0), (3, 0)), (255, 0, 0))] := by
  refine ⟨⟨1, 2, [0, 1]⟩, ⟨1, 4, [5, 6, 7, 8]⟩, _, rfl, rfl, rfl, ?_⟩
  have h1 : toInt (0 + 1 / 2) = 0 := by
    rw [toInt, if_pos (by norm_num), Int.floor_eq_iff]
    norm_num
  have h2 : toInt (2 * (((2 : Nat) : ℝ) / (4 : Nat)) + (2 : Nat) + 1 / 2) = 3 := by
    rw [toInt, if_pos (by norm_num), Int.floor_eq_iff]
    norm_num
  have h3 : toInt (0 * (((1 : Nat) : ℝ) / (1 : Nat)) + 1 / 2) = 0 := by
    rw [zero_mul]
    exact h1
  simp only [List.map_cons, List.map_nil]
  rw [h1, h2, h3]
  rfl

/-- Other colours than 0, 1 and 2 draw no lines. -/
theorem draw_colour_refuted (c : Int) (h : c < 0 ∨ 2 < c) : lineColour (some c) = none := by
  rw [lineColour, if_neg (by omega), if_neg (by omega), if_neg (by omega)]

/-- The colours of the methods are different. -/
theorem draw_colours : lineColour (some 0) = some (255, 255, 0) ∧ lineColour (some 1) = some (255, 0, 0) ∧
    lineColour (some 2) = some (0, 255, 0) ∧ lineColour none = lineColour (some 1) := by decide

end Verif.Kaze.Evaluation
