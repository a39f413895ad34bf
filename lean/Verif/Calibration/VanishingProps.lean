import Verif.Calibration.Vanishing
import Verif.Calibration.Props

/-!
# The focal length from vanishing points (C111)
-/

namespace Verif.Calibration

open Verif (Outcome)

/-! ## Specification -/

/-- The distance of two points. -/
noncomputable def apart (p q : ℝ × ℝ) : ℝ := Real.sqrt ((p.1 - q.1) ^ 2 + (p.2 - q.2) ^ 2)

/-- The image of the direction at the angle `θ` from the optical axis, with the azimuth `φ`, in an equidistant camera with
the principal point `c`. -/
noncomputable def equidistant (c : ℝ × ℝ) (f θ φ : ℝ) : ℝ × ℝ := (c.1 + f * θ * Real.cos φ, c.2 + f * θ * Real.sin φ)

/-- At most half of the numbers are smaller, and at most half are larger. -/
def Middle (l : List ℝ) (m : ℝ) : Prop := ∀ s : List ℝ, s.Sublist l →
  ((∀ x ∈ s, x < m) → 2 * s.length ≤ l.length) ∧ ((∀ x ∈ s, m < x) → 2 * s.length ≤ l.length)

/-- Rows `j` and `k` of an observation: their circles have exactly two common points, `d` apart. -/
def Cross (v : View) (j k : Nat) (d : ℝ) : Prop := ∃ x1 y1 r1 x2 y2 r2, fitCircle (v.row j) = some (x1, y1, r1) ∧
  fitCircle (v.row k) = some (x2, y2, r2) ∧ ∃ p q, p ≠ q ∧ d = apart p q ∧
    ∀ x, (OnCircle x1 y1 r1 x ∧ OnCircle x2 y2 r2 x) ↔ x = p ∨ x = q

/-- No row of the observation is straight, and no two rows have the same centre. -/
def Curved (v : View) : Prop := (∀ j < v.rows, ¬ OnLine (v.row j)) ∧
  ∀ j k, j < k → k < v.rows → ∀ x1 y1 r1 x2 y2 r2, fitCircle (v.row j) = some (x1, y1, r1) →
    fitCircle (v.row k) = some (x2, y2, r2) → (x1, y1) ≠ (x2, y2)

/-! ## The median -/

theorem count_lt_le {k : Nat} {l l' : List ℝ} (h : Nth k l l') {x : ℝ} (hx : l'[k]? = some x) {s : List ℝ}
    (hs : s.Sublist l) (hlt : ∀ y ∈ s, y < x) : s.length ≤ k := by
  classical
  have h1 : s.length ≤ l.countP (fun y => decide (y < x)) := by
    have := hs.countP_le (p := fun y => decide (y < x))
    rwa [List.countP_eq_length.2 (by intro y hy; simpa using hlt y hy)] at this
  have h2 : l.countP (fun y => decide (y < x)) ≤ k := by
    rw [← h.perm.countP_eq, ← List.take_append_drop k l', List.countP_append]
    have h1 : (l'.drop k).countP (fun y => decide (y < x)) = 0 := by
      rw [List.countP_eq_zero]
      intro b hb
      have := h.after b hb x hx
      simpa using this
    have h2 := List.countP_le_length (p := fun y => decide (y < x)) (l := l'.take k)
    have : (l'.take k).length ≤ k := by simp
    omega
  omega

theorem count_gt_le {k : Nat} {l l' : List ℝ} (h : Nth k l l') {x : ℝ} (hx : l'[k]? = some x) {s : List ℝ}
    (hs : s.Sublist l) (hlt : ∀ y ∈ s, x < y) : s.length + k + 1 ≤ l.length := by
  classical
  obtain ⟨hk, hxe⟩ := List.getElem?_eq_some_iff.mp hx
  have h1 : s.length ≤ l.countP (fun y => decide (x < y)) := by
    have := hs.countP_le (p := fun y => decide (x < y))
    rwa [List.countP_eq_length.2 (by intro y hy; simpa using hlt y hy)] at this
  have h2 : l.countP (fun y => decide (x < y)) + k + 1 ≤ l.length := by
    rw [← h.perm.countP_eq, ← h.perm.length_eq, ← List.take_append_drop k l', List.countP_append]
    have h1 : (l'.take k).countP (fun y => decide (x < y)) = 0 := by
      rw [List.countP_eq_zero]
      intro b hb
      have := h.before b hb x hx
      simpa using this
    have h3 : (l'.drop k).countP (fun y => decide (x < y)) ≤ l'.length - (k + 1) := by
      rw [List.drop_eq_getElem_cons hk, hxe, List.countP_cons_of_neg (by simp)]
      refine le_trans List.countP_le_length ?_
      simp
    rw [List.take_append_drop, h1]
    omega
  omega

theorem getD_some {l : List ℝ} {k : Nat} (hk : k < l.length) : l[k]? = some (l.getD k 0) := by
  rw [List.getElem?_eq_getElem hk, List.getD_eq_getElem?_getD, List.getElem?_eq_getElem hk]; rfl

/-- C111: the median has at most half of the numbers below it and at most half above it. -/
theorem median_middle {nth : Nat → List ℝ → List ℝ} (hn : ∀ k l, k < l.length → Nth k l (nth k l)) {l : List ℝ} (hl : l ≠ []) :
    Middle l (medianReal nth l) := by
  have hpos : 0 < l.length := List.length_pos_of_ne_nil hl
  have h1 := hn (l.length / 2) l (by omega)
  have e1 := h1.perm.length_eq
  have g1 := getD_some (l := nth (l.length / 2) l) (k := l.length / 2) (by omega)
  intro s hs
  unfold medianReal
  simp only
  by_cases ho : l.length % 2 ≠ 0
  · rw [if_pos ho]
    constructor
    · intro h
      have := count_lt_le h1 g1 hs h
      omega
    · intro h
      have := count_gt_le h1 g1 hs h
      omega
  · rw [if_neg ho]
    have h2 := hn (l.length / 2 - 1) (nth (l.length / 2) l) (by omega)
    have e2 := h2.perm.length_eq
    have g2 := getD_some (l := nth (l.length / 2 - 1) (nth (l.length / 2) l)) (k := l.length / 2 - 1) (by omega)
    have h2' : Nth (l.length / 2 - 1) l (nth (l.length / 2 - 1) (nth (l.length / 2) l)) :=
      ⟨h2.perm.trans h1.perm, h2.before, h2.after⟩
    set high := (nth (l.length / 2) l).getD (l.length / 2) 0
    set low := (nth (l.length / 2 - 1) (nth (l.length / 2) l)).getD (l.length / 2 - 1) 0
    have hle : low ≤ high := by
      by_contra hlt
      push Not at hlt
      -- more than the allowed number of elements would be at most `high`
      have hsub : (nth (l.length / 2) l).take (l.length / 2 + 1) ⊆ (nth (l.length / 2) l) := List.take_subset _ _
      have hall : ∀ y ∈ (nth (l.length / 2) l).take (l.length / 2 + 1), y < low := by
        intro y hy
        rw [List.take_add_one, List.mem_append] at hy
        rcases hy with hy | hy
        · exact lt_of_le_of_lt (h1.before y hy _ g1) hlt
        · rw [g1] at hy
          simp only [Option.toList_some, List.mem_singleton] at hy
          rw [hy]; exact hlt
      have := count_lt_le h2 g2 (List.take_sublist _ _) hall
      rw [List.length_take] at this
      omega
    constructor
    · intro h
      have := count_lt_le h1 g1 hs fun y hy => lt_of_lt_of_le (h y hy) (by linarith)
      omega
    · intro h
      have := count_gt_le h2' g2 hs fun y hy => lt_of_le_of_lt (by linarith) (h y hy)
      omega

/-- The median of equal numbers is this number. -/
theorem median_const {nth : Nat → List ℝ → List ℝ} (hn : ∀ k l, k < l.length → Nth k l (nth k l)) {l : List ℝ} (hl : l ≠ [])
    {f : ℝ} (h : ∀ x ∈ l, x = f) : medianReal nth l = f := by
  have hpos : 0 < l.length := List.length_pos_of_ne_nil hl
  have h1 := median_middle hn hl l (List.Sublist.refl l)
  rcases lt_trichotomy (medianReal nth l) f with hlt | heq | hgt
  · have := h1.2 fun x hx => by rw [h x hx]; exact hlt
    omega
  · exact heq
  · have := h1.1 fun x hx => by rw [h x hx]; exact hgt
    omega

/-! ## Guesses -/

theorem mem_pairs {n : Nat} {x : Nat × Nat} : x ∈ pairs n ↔ x.1 < x.2 ∧ x.2 < n := by
  obtain ⟨j, k⟩ := x
  simp only [pairs, List.mem_flatMap, List.mem_map, List.mem_range, List.mem_range'_1, Prod.mk.injEq]
  constructor
  · rintro ⟨j', hj, k', hk, rfl, rfl⟩; omega
  · intro h; exact ⟨j, by omega, k, by omega, rfl, rfl⟩

theorem total_hypot_nonneg (a b : ℝ) : ∀ ps : List (ℝ × ℝ), 0 ≤ total (fun p => hypot (p.1 - a) (p.2 - b)) ps
  | [] => by simp [total_nil]
  | p :: ps => by rw [total_cons]; exact add_nonneg (hypot_nonneg _ _) (total_hypot_nonneg a b ps)

theorem fit_radius {points : List (ℝ × ℝ)} {x y r : ℝ} (h : fitCircle points = some (x, y, r)) : 0 ≤ r := by
  unfold fitCircle at h
  simp only at h
  split at h
  · cases h
  · simp only [Option.some.injEq, Prod.mk.injEq] at h
    rw [← h.2.2, sumRadius_eq, zero_add]
    exact div_nonneg (total_hypot_nonneg _ _ _) (Nat.cast_nonneg _)

theorem apart_eq (p q : ℝ × ℝ) : hypot (p.1 - q.1) (p.2 - q.2) = apart p q := by
  unfold hypot apart; congr 1; ring

theorem apart_comm (p q : ℝ × ℝ) : apart p q = apart q p := by
  unfold apart; congr 1; ring

theorem apart_self (p : ℝ × ℝ) : apart p p = 0 := by simp [apart]

/-- Of two circles with different centres: a guess stands for two common points, and two common points that are not too
near give the guess. -/
theorem guess_iff {x1 y1 r1 x2 y2 r2 : ℝ} (h1 : 0 ≤ r1) (h2 : 0 ≤ r2) (hc : (x1, y1) ≠ (x2, y2)) :
    guess (some (x1, y1, r1)) (some (x2, y2, r2)) ≠ some none ∧
    (∀ f, guess (some (x1, y1, r1)) (some (x2, y2, r2)) = some (some f) → ∃ p q, p ≠ q ∧ f = apart p q / Real.pi ∧
      ∀ x, (OnCircle x1 y1 r1 x ∧ OnCircle x2 y2 r2 x) ↔ x = p ∨ x = q) ∧
    (∀ p q, p ≠ q → OnCircle x1 y1 r1 p ∧ OnCircle x2 y2 r2 p → OnCircle x1 y1 r1 q ∧ OnCircle x2 y2 r2 q →
      2e-10 < apart p q → guess (some (x1, y1, r1)) (some (x2, y2, r2)) = some (some (apart p q / Real.pi))) := by
  obtain ⟨l, hl, he, hcase⟩ := intersect_partial h1 h2 hc
  have hg : guess (some (x1, y1, r1)) (some (x2, y2, r2)) =
      match l with
      | p :: q :: _ => some (some (apart p q / Real.pi))
      | _ => none := by
    unfold guess
    simp only [hl]
    rcases hcase with rfl | ⟨p, q, rfl, _⟩ | ⟨p, rfl, _⟩
    · rfl
    · simp only [apart_eq]
    · rfl
  rw [hg]
  rcases hcase with rfl | ⟨p, q, rfl, hpq, hall⟩ | ⟨p, rfl, _, _, hnear⟩
  · refine ⟨by simp, by simp, fun p q _ hp _ _ => absurd ⟨p, hp⟩ (he.1 rfl)⟩
  · refine ⟨by simp, fun f hf => ?_, fun p' q' hne hp hq _ => ?_⟩
    · simp only [Option.some.injEq] at hf
      exact ⟨p, q, hpq, hf.symm, hall⟩
    · simp only [Option.some.injEq]
      rcases (hall p').1 hp with rfl | rfl <;> rcases (hall q').1 hq with rfl | rfl
      · exact absurd rfl hne
      · rfl
      · rw [apart_comm]
      · exact absurd rfl hne
  · refine ⟨by simp, by simp, fun p' q' hne hp hq hd => ?_⟩
    exfalso
    have a := hnear p' hp
    have b := hnear q' hq
    have tri : apart p' q' ≤ distance p.1 p.2 p' + distance p.1 p.2 q' := by
      unfold apart distance
      set a := Real.sqrt ((p'.1 - p.1) ^ 2 + (p'.2 - p.2) ^ 2)
      set b := Real.sqrt ((q'.1 - p.1) ^ 2 + (q'.2 - p.2) ^ 2)
      have ha : a ^ 2 = (p'.1 - p.1) ^ 2 + (p'.2 - p.2) ^ 2 := Real.sq_sqrt (by positivity)
      have hb : b ^ 2 = (q'.1 - p.1) ^ 2 + (q'.2 - p.2) ^ 2 := Real.sq_sqrt (by positivity)
      have ha0 : 0 ≤ a := Real.sqrt_nonneg _
      have hb0 : 0 ≤ b := Real.sqrt_nonneg _
      refine Real.sqrt_le_iff.2 ⟨by positivity, ?_⟩
      have hcs : -((p'.1 - p.1) * (q'.1 - p.1) + (p'.2 - p.2) * (q'.2 - p.2)) ≤ a * b := by
        refine le_trans (neg_le_abs _) (abs_le_of_sq_le_sq ?_ (by positivity))
        rw [mul_pow, ha, hb]
        nlinarith [sq_nonneg ((p'.1 - p.1) * (q'.2 - p.2) - (p'.2 - p.2) * (q'.1 - p.1))]
      nlinarith
    norm_num at a b hd ⊢
    linarith

theorem fit_some {points : List (ℝ × ℝ)} (h : ¬ OnLine points) : ∃ x y r, fitCircle points = some (x, y, r) := by
  cases hf : fitCircle points with
  | none => exact absurd ((fit_defined_iff points).1 hf) h
  | some c => exact ⟨c.1, c.2.1, c.2.2, rfl⟩

/-- C111: the guesses of an observation whose rows are curved are numbers, each is the distance of the two points in which the
circles of two rows cross, divided by π; and each two rows whose circles cross in points that are not too near give one. -/
theorem guesses_spec {v : View} (hv : Curved v) : none ∉ guesses v ∧
    (∀ f, some f ∈ guesses v → v.complete = true ∧ ∃ j k d, j < k ∧ k < v.rows ∧ Cross v j k d ∧ f = d / Real.pi) ∧
    (∀ j k d, v.complete = true → j < k → k < v.rows → Cross v j k d → 2e-10 < d → some (d / Real.pi) ∈ guesses v) := by
  unfold guesses
  cases hcm : v.complete
  · simp
  · simp only [if_true, List.mem_filterMap, Prod.exists]
    have hkey : ∀ j k, j < k → k < v.rows → ∃ x1 y1 r1 x2 y2 r2, fitCircle (v.row j) = some (x1, y1, r1) ∧
        fitCircle (v.row k) = some (x2, y2, r2) ∧ 0 ≤ r1 ∧ 0 ≤ r2 ∧ (x1, y1) ≠ (x2, y2) := by
      intro j k hjk hk
      obtain ⟨x1, y1, r1, e1⟩ := fit_some (hv.1 j (by omega))
      obtain ⟨x2, y2, r2, e2⟩ := fit_some (hv.1 k hk)
      exact ⟨x1, y1, r1, x2, y2, r2, e1, e2, fit_radius e1, fit_radius e2, hv.2 j k hjk hk _ _ _ _ _ _ e1 e2⟩
    refine ⟨?_, ?_, ?_⟩
    · rintro ⟨j, k, hm, hg⟩
      obtain ⟨hjk, hk⟩ := mem_pairs.1 hm
      obtain ⟨x1, y1, r1, x2, y2, r2, e1, e2, p1, p2, hne⟩ := hkey j k hjk hk
      simp only [e1, e2] at hg
      exact (guess_iff p1 p2 hne).1 hg
    · rintro f ⟨j, k, hm, hg⟩
      obtain ⟨hjk, hk⟩ := mem_pairs.1 hm
      obtain ⟨x1, y1, r1, x2, y2, r2, e1, e2, p1, p2, hne⟩ := hkey j k hjk hk
      simp only [e1, e2] at hg
      obtain ⟨p, q, hpq, hf, hall⟩ := (guess_iff p1 p2 hne).2.1 f hg
      exact ⟨trivial, j, k, apart p q, hjk, hk, ⟨x1, y1, r1, x2, y2, r2, e1, e2, p, q, hpq, rfl, hall⟩, hf⟩
    · rintro j k d - hjk hk ⟨x1, y1, r1, x2, y2, r2, e1, e2, p, q, hpq, rfl, hall⟩ hd
      refine ⟨j, k, mem_pairs.2 ⟨hjk, hk⟩, ?_⟩
      simp only [e1, e2]
      exact (guess_iff (fit_radius e1) (fit_radius e2) (hv.2 j k hjk hk _ _ _ _ _ _ e1 e2)).2.2 p q hpq
        ((hall p).2 (.inl rfl)) ((hall q).2 (.inr rfl)) hd

/-- C111: without observations the process ends. -/
theorem no_observations (nth : Nat → List ℝ → List ℝ) : vanishingPoints nth [] = .abort := rfl

/-- C111: the result for observations with curved rows: false if no guess is made, and otherwise true with the median of the
guesses in both directions and the centre of the first image. -/
theorem vanishing_spec {nth : Nat → List ℝ → List ℝ} (hn : ∀ k l, k < l.length → Nth k l (nth k l)) {first : View} {rest : List View}
    (hv : ∀ v ∈ first :: rest, v.complete = true → Curved v) :
    (vanishingPoints nth (first :: rest) = .ok .no ∧ ∀ v ∈ first :: rest, guesses v = []) ∨
    ∃ fs f, (first :: rest).flatMap guesses = fs.map some ∧ fs ≠ [] ∧ Middle fs f ∧
      vanishingPoints nth (first :: rest) = .ok (.yes f f (((first.width : ℝ) - 1) / 2) (((first.height : ℝ) - 1) / 2)) := by
  classical
  by_cases hg : (first :: rest).flatMap guesses = []
  · left
    refine ⟨?_, List.flatMap_eq_nil_iff.1 hg⟩
    unfold vanishingPoints
    simp only
    rw [if_pos hg]
  · right
    have hnone : none ∉ (first :: rest).flatMap guesses := by
      intro hm
      obtain ⟨v, hvm, hg⟩ := List.mem_flatMap.1 hm
      have hc : v.complete = true := by
        by_contra hc
        unfold guesses at hg
        rw [if_neg hc] at hg
        exact List.not_mem_nil hg
      exact (guesses_spec (hv v hvm hc)).1 hg
    have hmap : ∀ l : List (Option ℝ), none ∉ l → l = (l.filterMap id).map some := by
      intro l hl
      induction l with
      | nil => rfl
      | cons a l ih =>
        cases a with
        | none => simp at hl
        | some a => exact congrArg (some a :: ·) (ih (by simpa using hl))
    have hfs := hmap _ hnone
    have hne : ((first :: rest).flatMap guesses).filterMap id ≠ [] := by
      intro h; rw [h] at hfs; exact hg hfs
    refine ⟨_, _, hfs, hne, median_middle hn hne, ?_⟩
    unfold vanishingPoints
    simp only
    rw [if_neg hg, if_neg hnone]

/-- C111: observations that do not show all corners change nothing, apart from the first one, which gives the size of the
image. -/
theorem incomplete_ignored (nth : Nat → List ℝ → List ℝ) (first : View) (l1 l2 : List View) {v : View} (hv : v.complete = false) :
    vanishingPoints nth (first :: l1 ++ v :: l2) = vanishingPoints nth (first :: l1 ++ l2) := by
  have : guesses v = [] := by unfold guesses; rw [hv]; rfl
  unfold vanishingPoints
  simp [this]

/-- The images of opposite directions in an equidistant camera are π times the focal length apart. -/
theorem opposite_apart (c : ℝ × ℝ) {f : ℝ} (hf : 0 ≤ f) (θ φ : ℝ) :
    apart (equidistant c f θ φ) (equidistant c f (Real.pi - θ) (φ + Real.pi)) = f * Real.pi := by
  unfold apart equidistant
  simp only [Real.cos_add_pi, Real.sin_add_pi]
  have : (c.1 + f * θ * Real.cos φ - (c.1 + f * (Real.pi - θ) * -Real.cos φ)) ^ 2 +
      (c.2 + f * θ * Real.sin φ - (c.2 + f * (Real.pi - θ) * -Real.sin φ)) ^ 2 = (f * Real.pi) ^ 2 := by
    linear_combination (f * Real.pi) ^ 2 * Real.sin_sq_add_cos_sq φ
  rw [this, Real.sqrt_sq (mul_nonneg hf Real.pi_pos.le)]

/-- The rows of the observation are what the algorithm expects of an equidistant camera: the corners of each row are on a
circle, not on a line, and the circle contains the images of the two opposite directions of the row; no two rows have the
same centre. -/
def Fisheye (f : ℝ) (v : View) : Prop := ∃ (c : ℝ × ℝ) (θ φ : ℝ), ∃ circle : Nat → ℝ × ℝ × ℝ,
  (∀ j < v.rows, ¬ OnLine (v.row j) ∧ 0 ≤ (circle j).2.2 ∧
    ∀ p, (p ∈ v.row j ∨ p = equidistant c f θ φ ∨ p = equidistant c f (Real.pi - θ) (φ + Real.pi)) →
      OnCircle (circle j).1 (circle j).2.1 (circle j).2.2 p) ∧
  ∀ j k, j < k → k < v.rows → ((circle j).1, (circle j).2.1) ≠ ((circle k).1, (circle k).2.1)

/-- C111: every guess of a view through an ideal fisheye lens is its focal length, and a complete view gives a
guess. -/
theorem fisheye_guesses {f : ℝ} (hf : 1e-10 ≤ f) {v : View} (hv : Fisheye f v) :
    (∀ g ∈ guesses v, g = some f) ∧ (v.complete = true → 2 ≤ v.rows → guesses v ≠ []) := by
  obtain ⟨c, θ, φ, circle, h1, h2⟩ := hv
  have hf0 : 0 < f := lt_of_lt_of_le (by norm_num) hf
  have hfit : ∀ j < v.rows, fitCircle (v.row j) = some (circle j) := fun j hj =>
    fit_exact (h1 j hj).2.1 (fun p hp => (h1 j hj).2.2 p (.inl hp)) (h1 j hj).1
  have hap := opposite_apart c hf0.le θ φ
  set P := equidistant c f θ φ
  set Q := equidistant c f (Real.pi - θ) (φ + Real.pi)
  have hd : 2e-10 < apart P Q := by
    rw [hap]
    have := Real.pi_gt_three
    norm_num at hf ⊢
    nlinarith
  have hPQ : P ≠ Q := by
    intro h
    rw [h, apart_self] at hd
    norm_num at hd
  have hg : ∀ j k, j < k → k < v.rows → guess (fitCircle (v.row j)) (fitCircle (v.row k)) = some (some f) := by
    intro j k hjk hk
    rw [hfit j (by omega), hfit k hk]
    have := (guess_iff (h1 j (by omega)).2.1 (h1 k hk).2.1 (h2 j k hjk hk)).2.2 P Q hPQ
      ⟨(h1 j (by omega)).2.2 P (by simp), (h1 k hk).2.2 P (by simp)⟩ ⟨(h1 j (by omega)).2.2 Q (by simp), (h1 k hk).2.2 Q (by simp)⟩ hd
    rw [hap, mul_div_assoc, div_self Real.pi_ne_zero, mul_one] at this
    exact this
  constructor
  · intro g hgm
    unfold guesses at hgm
    split at hgm
    · obtain ⟨⟨j, k⟩, hm, he⟩ := List.mem_filterMap.1 hgm
      obtain ⟨a, b⟩ := mem_pairs.1 hm
      simp only [hg j k a b, Option.some.injEq] at he
      exact he.symm
    · exact absurd hgm List.not_mem_nil
  · intro hc hr he
    have : some f ∈ guesses v := by
      unfold guesses
      rw [if_pos hc]
      exact List.mem_filterMap.2 ⟨(0, 1), mem_pairs.2 ⟨by simp, hr⟩, hg 0 1 (by omega) (by omega)⟩
    rw [he] at this
    exact List.not_mem_nil this

/-- C111: if the rows are as in an equidistant camera with the focal length `f`, the result is exactly `f`, with the centre of
the image as the principal point, as soon as one observation is complete and has two rows. -/
theorem fisheye_exact {nth : Nat → List ℝ → List ℝ} (hn : ∀ k l, k < l.length → Nth k l (nth k l)) {f : ℝ} (hf : 1e-10 ≤ f)
    {first : View} {rest : List View} (hv : ∀ v ∈ first :: rest, v.complete = true → Fisheye f v)
    (hone : ∃ v ∈ first :: rest, v.complete = true ∧ 2 ≤ v.rows) :
    vanishingPoints nth (first :: rest) = .ok (.yes f f (((first.width : ℝ) - 1) / 2) (((first.height : ℝ) - 1) / 2)) := by
  classical
  have hall : ∀ g ∈ (first :: rest).flatMap guesses, g = some f := by
    intro g hg
    obtain ⟨v, hvm, hgv⟩ := List.mem_flatMap.1 hg
    have hc : v.complete = true := by
      by_contra hc
      unfold guesses at hgv
      rw [if_neg hc] at hgv
      exact List.not_mem_nil hgv
    exact (fisheye_guesses hf (hv v hvm hc)).1 g hgv
  obtain ⟨v, hvm, hc, hr⟩ := hone
  have hne : (first :: rest).flatMap guesses ≠ [] := fun h =>
    (fisheye_guesses hf (hv v hvm hc)).2 hc hr (List.flatMap_eq_nil_iff.1 h v hvm)
  have hnone : none ∉ (first :: rest).flatMap guesses := fun h => by have := hall _ h; cases this
  unfold vanishingPoints
  simp only
  rw [if_neg hne, if_neg hnone, median_const hn (f := f)]
  · intro h
    obtain ⟨g, hg⟩ := List.exists_mem_of_ne_nil _ hne
    have : f ∈ ((first :: rest).flatMap guesses).filterMap id := List.mem_filterMap.2 ⟨g, hg, hall g hg⟩
    rw [h] at this
    exact List.not_mem_nil this
  · intro x hx
    obtain ⟨g, hg, he⟩ := List.mem_filterMap.1 hx
    have := hall g hg
    rw [this] at he
    simpa using he.symm

/-- C111, refuted: if a complete observation with two rows has a straight row, the function returns true, but the focal
length is not a number. Rows are straight for a pinhole camera without distortion, and always if the target has two
columns. -/
theorem straight_refuted (nth : Nat → List ℝ → List ℝ) {first : View} {rest : List View} {v : View} (hv : v ∈ first :: rest)
    (hc : v.complete = true) (hr : 2 ≤ v.rows) {j : Nat} (hj : j < v.rows) (hl : OnLine (v.row j)) :
    vanishingPoints nth (first :: rest) = .ok .notANumber := by
  classical
  have hm : none ∈ guesses v := by
    unfold guesses
    rw [if_pos hc, List.mem_filterMap]
    have hf := (fit_defined_iff _).2 hl
    by_cases h0 : j = 0
    · subst h0
      exact ⟨(0, 1), mem_pairs.2 ⟨by simp, hr⟩, by simp [guess, hf]⟩
    · refine ⟨(0, j), mem_pairs.2 ⟨by simp; omega, hj⟩, ?_⟩
      simp only [hf, guess]
      cases fitCircle (v.row 0) <;> rfl
  have hm' : none ∈ (first :: rest).flatMap guesses := List.mem_flatMap.2 ⟨v, hv, hm⟩
  have hne : (first :: rest).flatMap guesses ≠ [] := fun h => by rw [h] at hm'; exact List.not_mem_nil hm'
  unfold vanishingPoints
  simp only
  rw [if_neg hne, if_pos hm']

/-- C111: the algorithm for a camera: exactly the pinhole camera without distortion uses the absolute conic; vanishing points
are used for the pinhole camera with two of the distortions; everything else ends the process. -/
theorem chosen_iff (p : Projection) (l : Lens) :
    (chosen p l = .ok .conic ↔ p = .pinhole ∧ l = .none) ∧
    (chosen p l = .ok .vanishing ↔ p = .pinhole ∧ (l = .equidistant ∨ l = .radtan)) ∧
    (chosen p l = .abort ↔ p ≠ .pinhole ∨ l = .fisheye) := by
  cases p <;> cases l <;> simp [chosen]

/-! ## Cases -/

theorem sqrt3_sq : Real.sqrt 3 ^ 2 = 3 := Real.sq_sqrt (by norm_num)

/-- Two rows of three corners. -/
noncomputable def fish : View := ⟨2, 3, 641, 481, [0, 1, 2, 3, 4, 5],
  [(0, Real.sqrt 3), (0, -Real.sqrt 3), (3, 0), (0, Real.sqrt 3), (0, -Real.sqrt 3), (-3, 0)]⟩

theorem fish_rows : fish.row 0 = [(0, Real.sqrt 3), (0, -Real.sqrt 3), (3, 0)] ∧
    fish.row 1 = [(0, Real.sqrt 3), (0, -Real.sqrt 3), (-3, 0)] := by
  constructor <;> simp [View.row, fish, View.corner, List.range_succ, List.find?]

theorem not_onLine {a : ℝ} (ha : a ≠ 0) : ¬ OnLine [(0, Real.sqrt 3), (0, -Real.sqrt 3), (a, 0)] := by
  rintro ⟨u, v, w, huv, h⟩
  have h1 := h (0, Real.sqrt 3) (by simp)
  have h2 := h (0, -Real.sqrt 3) (by simp)
  have h3 := h (a, 0) (by simp)
  simp only [mul_zero, zero_add, add_zero] at h1 h2 h3
  have hs : Real.sqrt 3 ≠ 0 := (Real.sqrt_pos.2 (by norm_num)).ne'
  have hv : v = 0 := by
    have : 2 * v * Real.sqrt 3 = 0 := by linear_combination h1 - h2
    rcases mul_eq_zero.1 this with h | h
    · linarith
    · exact absurd h hs
  have hw : w = 0 := by rw [← h1, hv, zero_mul]
  rw [hw] at h3
  have hu : u = 0 := (mul_eq_zero.1 h3).resolve_right ha
  rcases huv with h | h
  · exact h hu
  · exact h hv

theorem fish_fisheye : Fisheye (2 * Real.sqrt 3 / Real.pi) fish := by
  have hpi := Real.pi_ne_zero
  have e1 : equidistant (0, 0) (2 * Real.sqrt 3 / Real.pi) (Real.pi / 2) (Real.pi / 2) = (0, Real.sqrt 3) := by
    simp only [equidistant, Real.cos_pi_div_two, Real.sin_pi_div_two, Prod.mk.injEq]
    constructor
    · ring
    · field_simp; ring
  have e2 : equidistant (0, 0) (2 * Real.sqrt 3 / Real.pi) (Real.pi - Real.pi / 2) (Real.pi / 2 + Real.pi) = (0, -Real.sqrt 3) := by
    simp only [equidistant, Real.cos_add_pi, Real.sin_add_pi, Real.cos_pi_div_two, Real.sin_pi_div_two, Prod.mk.injEq]
    constructor
    · ring
    · field_simp; ring
  refine ⟨(0, 0), Real.pi / 2, Real.pi / 2, fun j => if j = 0 then (1, 0, 2) else (-1, 0, 2), ?_, ?_⟩
  · intro j hj
    have hj2 : j = 0 ∨ j = 1 := by simp only [fish] at hj; omega
    have s3 := sqrt3_sq
    rcases hj2 with rfl | rfl
    · rw [fish_rows.1, e1, e2]
      refine ⟨not_onLine (by norm_num), by norm_num, fun p hp => ?_⟩
      simp only [List.mem_cons, List.not_mem_nil, or_false] at hp
      rcases hp with (rfl | rfl | rfl) | rfl | rfl <;> simp only [OnCircle, if_true] <;> nlinarith
    · rw [fish_rows.2, e1, e2]
      refine ⟨not_onLine (by norm_num), by norm_num, fun p hp => ?_⟩
      simp only [List.mem_cons, List.not_mem_nil, or_false] at hp
      rcases hp with (rfl | rfl | rfl) | rfl | rfl <;> simp only [OnCircle] <;> norm_num <;> nlinarith
  · intro j k hjk hk
    have : j = 0 ∧ k = 1 := by simp only [fish] at hk; omega
    obtain ⟨rfl, rfl⟩ := this
    norm_num

/-- Sorting is one way to put the element into its place. -/
noncomputable def sortNth (_ : Nat) (l : List ℝ) : List ℝ := l.mergeSort (fun a b => decide (a ≤ b))

theorem sort_nth (k : Nat) (l : List ℝ) : Nth k l (sortNth k l) := by
  have hp : (sortNth k l).Pairwise (· ≤ ·) := by
    have := List.pairwise_mergeSort (le := fun a b : ℝ => decide (a ≤ b)) (by simp; exact fun a b c => le_trans)
      (by simp; exact le_total) l
    simpa [sortNth] using this
  refine ⟨List.mergeSort_perm _ _, fun a ha x hx => ?_, fun b hb x hx => ?_⟩
  · obtain ⟨hk, rfl⟩ := List.getElem?_eq_some_iff.mp hx
    obtain ⟨i, hi, rfl⟩ := List.getElem_of_mem ha
    rw [List.getElem_take]
    simp only [List.length_take] at hi
    exact List.pairwise_iff_getElem.1 hp i k (by omega) hk (by omega)
  · obtain ⟨hk, rfl⟩ := List.getElem?_eq_some_iff.mp hx
    obtain ⟨i, hi, rfl⟩ := List.getElem_of_mem hb
    rw [List.getElem_drop]
    simp only [List.length_drop] at hi
    rcases Nat.eq_zero_or_pos i with rfl | h0
    · simp
    · exact List.pairwise_iff_getElem.1 hp k (k + i) hk (by omega) (by omega)

example (nth : Nat → List ℝ → List ℝ) (hn : ∀ k l, k < l.length → Nth k l (nth k l)) :
    vanishingPoints nth [fish] = .ok (.yes (2 * Real.sqrt 3 / Real.pi) (2 * Real.sqrt 3 / Real.pi) 320 240) := by
  have h3 : 1 ≤ Real.sqrt 3 := by rw [Real.one_le_sqrt]; norm_num
  have hpi := Real.pi_lt_four
  have := fisheye_exact hn (f := 2 * Real.sqrt 3 / Real.pi) (first := fish) (rest := [])
    (by rw [le_div_iff₀ Real.pi_pos]; norm_num; nlinarith) (by intro v hv _; simp at hv; rw [hv]; exact fish_fisheye)
    ⟨fish, by simp, by decide, by decide⟩
  rw [this]
  simp only [fish]; norm_num

/-- A pinhole camera looks straight at a target with two rows of three corners. -/
def straight : View := ⟨2, 3, 641, 481, [0, 1, 2, 3, 4, 5], [(100, 100), (200, 100), (300, 100), (100, 200), (200, 200), (300, 200)]⟩

example (nth : Nat → List ℝ → List ℝ) : vanishingPoints nth [straight] = .ok .notANumber := by
  refine straight_refuted nth (v := straight) (by simp) (by decide) (by decide) (j := 0) (by decide) ⟨0, 1, 100, .inr one_ne_zero, ?_⟩
  simp [View.row, straight, View.corner, List.range_succ, List.find?]

end Verif.Calibration
