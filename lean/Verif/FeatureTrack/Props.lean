import Verif.FeatureTrack.Model
import Mathlib.Tactic.Linarith
import Mathlib.Tactic.NormNum
import Mathlib.Tactic.Positivity
import Mathlib.Tactic.Ring

/-!
# Property C82

Feature tracks: their keypoints and the bounding box of their disparity.
-/

namespace Verif.FeatureTrack

open Verif (Outcome)

/-! ## Keypoints of a track -/

/-- **C82**: a keypoint identifier is created exactly for a keypoint that exists. -/
theorem create_spec (n : NFrame) (i j : Nat) (k : Kid) :
    (create (some n) i j = .ok k ↔ k = ⟨i, j⟩ ∧ ∃ kps, n[i]? = some (some kps) ∧ j < kps.length) ∧
      create none i j = .abort := by
  refine ⟨?_, rfl⟩
  unfold create
  by_cases hi : i < n.length
  · simp only [hi, not_true_eq_false, if_false]
    cases hn : n[i]? with
    | none => simp
    | some o =>
      cases o with
      | none => simp
      | some kps =>
        by_cases hj : j < kps.length
        · simp [hj, eq_comm]
        · simp [hj]
  · simp only [hi, not_false_eq_true, if_true]
    rw [List.getElem?_eq_none (by omega)]
    simp

/-- **C82**: reading the measurement of a created identifier gives the keypoint it was created for. -/
theorem create_measurement {n : NFrame} {i j : Nat} {k : Kid} (h : create (some n) i j = .ok k) :
    ∃ kps p, n[i]? = some (some kps) ∧ kps[j]? = some p ∧ measurement n k = .ok p := by
  obtain ⟨rfl, kps, h1, h2⟩ := (create_spec n i j k).1.1 h
  refine ⟨kps, kps[j], h1, by simp [h2], ?_⟩
  simp [measurement, h1, h2]

example : create (some [none, some [(1, 2), (3, 4)]]) 1 1 = .ok ⟨1, 1⟩ ∧
    measurement [none, some [(1, 2), (3, 4)]] ⟨1, 1⟩ = .ok (3, 4) := by
  constructor <;> decide

/-- **C82**: adding and removing at the end: the track is the sequence of the observations added, first and last are its
ends, and removing undoes adding. -/
theorem add_spec {t t' : Track} {n : NFrame} {i j : Nat} (h : t.add n i j = .ok t') :
    t'.id = t.id ∧ t'.kids = t.kids ++ [(n, ⟨i, j⟩)] ∧ t'.last = .ok (n, ⟨i, j⟩) ∧
      (t.kids = [] → t'.first = .ok (n, ⟨i, j⟩)) ∧ (t.kids ≠ [] → t'.first = t.first) ∧ t'.pop = .ok t ∧
      Track.lt t t' = true := by
  unfold Track.add at h
  obtain ⟨k, hk, h⟩ := Outcome.bind_eq_ok.1 h
  obtain ⟨rfl, -⟩ := (create_spec n i j k).1.1 hk
  simp only [Outcome.ok.injEq] at h
  subst h
  refine ⟨rfl, rfl, ?_, ?_, ?_, ?_, ?_⟩
  · simp [Track.last]
  · intro he
    simp [Track.first, he]
  · intro hne
    cases ht : t.kids with
    | nil => exact absurd ht hne
    | cons a l => simp [Track.first, ht]
  · simp [Track.pop]
  · simp [Track.lt]

/-- **C82** refuted for an empty track: `getFirst…` and `getLast…` check for it, `popLast…` does not. -/
theorem pop_empty_refuted (id : Nat) :
    (Track.empty id).first = .abort ∧ (Track.empty id).last = .abort ∧ (Track.empty id).pop = .ub :=
  ⟨rfl, rfl, rfl⟩

/-- Specification: what `std::sort` and ordered containers need of a comparison. -/
structure StrictWeak {α : Type} (lt : α → α → Bool) : Prop where
  irrefl : ∀ a, lt a a = false
  trans : ∀ a b c, lt a b = true → lt b c = true → lt a c = true
  incomparable : ∀ a b c, lt a b = false → lt b a = false → lt b c = false → lt c b = false →
    lt a c = false ∧ lt c a = false

/-- **C82**: tracks are ordered by the number of their keypoints, in both directions; neither is smaller exactly if they
are equally long; sorting with either operator is defined. -/
theorem order_spec :
    (∀ a b : Track, Track.lt a b = true ↔ ∃ n, b.kids.length = a.kids.length + n + 1) ∧
    (∀ a b : Track, Track.gt a b = Track.lt b a) ∧
    (∀ a b : Track, Track.lt a b = false ∧ Track.lt b a = false ↔ a.kids.length = b.kids.length) ∧
    StrictWeak Track.lt ∧ StrictWeak Track.gt := by
  refine ⟨fun a b => ?_, fun a b => rfl, fun a b => ?_, ⟨fun a => ?_, fun a b c h1 h2 => ?_, fun a b c h1 h2 h3 h4 => ?_⟩,
    ⟨fun a => ?_, fun a b c h1 h2 => ?_, fun a b c h1 h2 h3 h4 => ?_⟩⟩ <;>
    simp only [Track.lt, Track.gt, decide_eq_true_eq, decide_eq_false_iff_not] at *
  · exact ⟨fun h => ⟨b.kids.length - a.kids.length - 1, by omega⟩, fun ⟨n, h⟩ => by omega⟩
  all_goals omega

/-- **C82**: continued tracks are ordered by their ids, which are not negative; sorting with either operator is
defined. -/
theorem continued_spec :
    (∀ id k c, Continued.make id k = .ok c ↔ 0 ≤ id ∧ c = ⟨id, k⟩) ∧ (∀ id k, id < 0 → Continued.make id k = .abort) ∧
    (∀ a b : Continued, Continued.lt a b = true ↔ ∃ n : ℕ, b.id = a.id + n + 1) ∧
    (∀ a b : Continued, Continued.gt a b = Continued.lt b a) ∧
    StrictWeak Continued.lt ∧ StrictWeak Continued.gt := by
  refine ⟨fun id k c => ?_, fun id k h => ?_, fun a b => ?_, fun a b => rfl,
    ⟨fun a => ?_, fun a b c h1 h2 => ?_, fun a b c h1 h2 h3 h4 => ?_⟩,
    ⟨fun a => ?_, fun a b c h1 h2 => ?_, fun a b c h1 h2 h3 h4 => ?_⟩⟩
  · unfold Continued.make
    split
    · rename_i h
      simp only [Outcome.ok.injEq, h, true_and]
      exact eq_comm
    · rename_i h
      simp [h]
  · exact if_neg (by omega)
  all_goals simp only [Continued.lt, Continued.gt, decide_eq_true_eq, decide_eq_false_iff_not] at *
  · exact ⟨fun h => ⟨(b.id - a.id - 1).toNat, by omega⟩, fun ⟨n, h⟩ => by omega⟩
  all_goals omega

example : Track.lt (Track.empty 3) ⟨1, [([], ⟨0, 0⟩)]⟩ = true ∧ Continued.lt ⟨1, ([], ⟨0, 0⟩)⟩ ⟨2, ([], ⟨0, 0⟩)⟩ = true := by
  decide

/-- All measurements of a track can be read if it was built by adding to an empty track. -/
inductive Built : Track → Prop
  | empty (id : Nat) : Built (Track.empty id)
  | add {t t' : Track} (n : NFrame) (i j : Nat) : Built t → t.add n i j = .ok t' → Built t'
  | pop {t t' : Track} : Built t → t.pop = .ok t' → Built t'

/-- **C82**: every keypoint of a track that was built by adding and removing can be read. -/
theorem built_measurements {t : Track} (h : Built t) :
    ∀ k ∈ t.kids, ∃ p, measurement k.1 k.2 = .ok p := by
  induction h with
  | empty id => intro k hk; simp [Track.empty] at hk
  | @add t t' n i j _ ha ih =>
    intro k hk
    rw [(add_spec ha).2.1] at hk
    rcases List.mem_append.1 hk with hk | hk
    · exact ih k hk
    · simp only [List.mem_singleton] at hk
      subst hk
      unfold Track.add at ha
      obtain ⟨kid, hkid, -⟩ := Outcome.bind_eq_ok.1 ha
      obtain ⟨_, p, _, _, hp⟩ := create_measurement hkid
      obtain ⟨rfl, -⟩ := (create_spec n i j kid).1.1 hkid
      exact ⟨p, hp⟩
  | @pop t t' _ hp ih =>
    intro k hk
    unfold Track.pop at hp
    split at hp
    · simp at hp
    · simp only [Outcome.ok.injEq] at hp
      subst hp
      exact ih k (List.dropLast_subset _ hk)

example : ∃ t, Built t ∧ t.kids.length = 1 :=
  ⟨_, .add [some [(1, 2)]] 0 0 (.empty 3) rfl, rfl⟩

/-! ## The bounding box -/

/-- Specification: the largest difference of the coordinates of two points. -/
def IsSpread (xs : List ℚ) (d : ℚ) : Prop :=
  (∀ x ∈ xs, ∀ y ∈ xs, x - y ≤ d) ∧ ∃ x ∈ xs, ∃ y ∈ xs, x - y = d

theorem fold_eq : ∀ (ps : List Pt) (e : Extent), ps.foldl Extent.step e =
    ⟨(ps.map Prod.fst).foldl min e.uMin, (ps.map Prod.fst).foldl max e.uMax,
      (ps.map Prod.snd).foldl min e.vMin, (ps.map Prod.snd).foldl max e.vMax⟩ := by
  intro ps
  induction ps with
  | nil => intro e; rfl
  | cons p ps ih => intro e; rw [List.foldl_cons, ih]; rfl

theorem foldl_min (xs : List ℚ) : ∀ a : ℚ, xs.foldl min a ≤ a ∧ (∀ x ∈ xs, xs.foldl min a ≤ x) ∧
    (xs.foldl min a = a ∨ xs.foldl min a ∈ xs) := by
  induction xs with
  | nil => intro a; simp
  | cons x xs ih =>
    intro a
    rw [List.foldl_cons]
    obtain ⟨h1, h2, h3⟩ := ih (min a x)
    refine ⟨le_trans h1 (min_le_left _ _), ?_, ?_⟩
    · intro y hy
      rcases List.mem_cons.1 hy with rfl | hy
      · exact le_trans h1 (min_le_right _ _)
      · exact h2 y hy
    · rcases h3 with h3 | h3
      · rw [h3]
        rcases min_choice a x with h | h
        · left; exact h
        · right; rw [h]; simp
      · right; exact List.mem_cons_of_mem _ h3

theorem foldl_max (xs : List ℚ) : ∀ a : ℚ, a ≤ xs.foldl max a ∧ (∀ x ∈ xs, x ≤ xs.foldl max a) ∧
    (xs.foldl max a = a ∨ xs.foldl max a ∈ xs) := by
  induction xs with
  | nil => intro a; simp
  | cons x xs ih =>
    intro a
    rw [List.foldl_cons]
    obtain ⟨h1, h2, h3⟩ := ih (max a x)
    refine ⟨le_trans (le_max_left _ _) h1, ?_, ?_⟩
    · intro y hy
      rcases List.mem_cons.1 hy with rfl | hy
      · exact le_trans (le_max_right _ _) h1
      · exact h2 y hy
    · rcases h3 with h3 | h3
      · rw [h3]
        rcases max_choice a x with h | h
        · left; exact h
        · right; rw [h]; simp
      · right; exact List.mem_cons_of_mem _ h3

/-- The extent that starts at the smallest positive number is the spread if some coordinate is not below it. -/
theorem spread_of {xs : List ℚ} (hm : ∀ x ∈ xs, x ≤ dblMax) (hp : ∃ x ∈ xs, dblMin ≤ x) :
    IsSpread xs (xs.foldl max dblMin - xs.foldl min dblMax) := by
  obtain ⟨a1, a2, a3⟩ := foldl_max xs dblMin
  obtain ⟨b1, b2, b3⟩ := foldl_min xs dblMax
  obtain ⟨x, hx, hpx⟩ := hp
  refine ⟨?_, ?_⟩
  · intro y hy z hz
    have := a2 y hy
    have := b2 z hz
    linarith
  · have hmax : xs.foldl max dblMin ∈ xs := by
      rcases a3 with h | h
      · rw [h]
        have : dblMin = x := le_antisymm hpx (by rw [← h]; exact a2 x hx)
        rw [this]; exact hx
      · exact h
    have hmin : xs.foldl min dblMax ∈ xs := by
      rcases b3 with h | h
      · rw [h]
        have : dblMax = x := le_antisymm (by rw [← h]; exact b2 x hx) (hm x hx)
        rw [this]; exact hx
      · exact h
    exact ⟨_, hmax, _, hmin, rfl⟩

theorem spread_nonneg {xs : List ℚ} {d : ℚ} (h : IsSpread xs d) : 0 ≤ d := by
  obtain ⟨x, hx, -⟩ := h.2
  have := h.1 x hx x hx
  linarith

theorem diagonal_iff {ps : List Pt} {e : Extent} (h : ps.foldl Extent.step Extent.start = e) (d : ℚ) :
    diagonalSq ps = .ok d ↔ e.uMin ≤ e.uMax ∧ e.vMin ≤ e.vMax ∧
      d = (e.uMin - e.uMax) * (e.uMin - e.uMax) + (e.vMin - e.vMax) * (e.vMin - e.vMax) := by
  unfold diagonalSq
  rw [h]
  by_cases h1 : e.uMin ≤ e.uMax
  · by_cases h2 : e.vMin ≤ e.vMax
    · simp [h1, h2, eq_comm]
    · simp [h1, h2]
  · simp [h1]

theorem diagonal_of {ps : List Pt} {e : Extent} (h : ps.foldl Extent.step Extent.start = e) (h1 : e.uMin ≤ e.uMax)
    (h2 : e.vMin ≤ e.vMax) :
    diagonalSq ps = .ok ((e.uMin - e.uMax) * (e.uMin - e.uMax) + (e.vMin - e.vMax) * (e.vMin - e.vMax)) :=
  (diagonal_iff h _).2 ⟨h1, h2, rfl⟩

/-- **C82** (partial): the squared diagonal of the bounding box, if some keypoint has a positive `u` and some keypoint a
positive `v` (at least the smallest normalised double). -/
theorem diagonal_partial {ps : List Pt} (hm : ∀ p ∈ ps, p.1 ≤ dblMax ∧ p.2 ≤ dblMax) (hu : ∃ p ∈ ps, dblMin ≤ p.1)
    (hv : ∃ p ∈ ps, dblMin ≤ p.2) :
    ∃ du dv, IsSpread (ps.map Prod.fst) du ∧ IsSpread (ps.map Prod.snd) dv ∧
      diagonalSq ps = .ok (du * du + dv * dv) := by
  have s1 := spread_of (xs := ps.map Prod.fst) (by
    intro x hx
    obtain ⟨p, hp, rfl⟩ := List.mem_map.1 hx
    exact (hm p hp).1) (by
    obtain ⟨p, hp, h⟩ := hu
    exact ⟨p.1, List.mem_map.2 ⟨p, hp, rfl⟩, h⟩)
  have s2 := spread_of (xs := ps.map Prod.snd) (by
    intro x hx
    obtain ⟨p, hp, rfl⟩ := List.mem_map.1 hx
    exact (hm p hp).2) (by
    obtain ⟨p, hp, h⟩ := hv
    exact ⟨p.2, List.mem_map.2 ⟨p, hp, rfl⟩, h⟩)
  refine ⟨_, _, s1, s2, ?_⟩
  have n1 := spread_nonneg s1
  have n2 := spread_nonneg s2
  rw [diagonal_iff (fold_eq ps _)]
  simp only [Extent.start]
  refine ⟨by linarith, by linarith, ?_⟩
  ring

/-- **C82**: whatever the coordinates, the diagonal bounds the distance of any two keypoints of the track. -/
theorem diagonal_bounds {ps : List Pt} {d : ℚ} (h : diagonalSq ps = .ok d) {p q : Pt} (hp : p ∈ ps) (hq : q ∈ ps) :
    (p.1 - q.1) * (p.1 - q.1) + (p.2 - q.2) * (p.2 - q.2) ≤ d := by
  rw [diagonal_iff (fold_eq ps _)] at h
  simp only [Extent.start] at h
  obtain ⟨-, -, rfl⟩ := h
  have sq : ∀ (xs : List ℚ) (x y : ℚ), x ∈ xs → y ∈ xs →
      (x - y) * (x - y) ≤ (xs.foldl min dblMax - xs.foldl max dblMin) * (xs.foldl min dblMax - xs.foldl max dblMin) := by
    intro xs x y hx hy
    have a1 := (foldl_max xs dblMin).2.1 x hx
    have a2 := (foldl_max xs dblMin).2.1 y hy
    have b1 := (foldl_min xs dblMax).2.1 x hx
    have b2 := (foldl_min xs dblMax).2.1 y hy
    nlinarith
  have m1 := sq _ p.1 q.1 (List.mem_map.2 ⟨p, hp, rfl⟩) (List.mem_map.2 ⟨q, hq, rfl⟩)
  have m2 := sq _ p.2 q.2 (List.mem_map.2 ⟨p, hp, rfl⟩) (List.mem_map.2 ⟨q, hq, rfl⟩)
  linarith

/-- **C82**: the bounding box does not shrink when a keypoint is added to the track. -/
theorem diagonal_mono {ps : List Pt} {p : Pt} {d d' : ℚ} (h : diagonalSq ps = .ok d) (h' : diagonalSq (ps ++ [p]) = .ok d') :
    d ≤ d' := by
  rw [diagonal_iff (fold_eq _ _)] at h h'
  simp only [Extent.start] at h h'
  obtain ⟨c1, c2, h⟩ := h
  obtain ⟨-, -, h'⟩ := h'
  simp only [List.map_append, List.map_cons, List.map_nil, List.foldl_append, List.foldl_cons, List.foldl_nil] at h'
  have sq : ∀ a b x : ℚ, a ≤ b → (a - b) * (a - b) ≤ (min a x - max b x) * (min a x - max b x) := by
    intro a b x hab
    have h1 := min_le_left a x
    have h2 := le_max_left b x
    nlinarith
  have m1 := sq _ _ p.1 c1
  have m2 := sq _ _ p.2 c2
  linarith

theorem dblMin_le_one : dblMin ≤ 1 := by
  unfold dblMin
  rw [div_le_one (by positivity)]
  exact one_le_pow₀ (by norm_num)

theorem dblMin_pos : 0 < dblMin := by
  unfold dblMin
  positivity

theorem dblMax_ge : (1000 : ℚ) ≤ dblMax := by
  unfold dblMax
  have : (2 : ℚ) ^ 10 ≤ 2 ^ 1023 := pow_le_pow_right₀ (by norm_num) (by norm_num)
  have h2 : (1 : ℚ) ≤ 2 - 1 / 2 ^ 52 := by norm_num
  calc (1000 : ℚ) ≤ 1 * 2 ^ 10 := by norm_num
    _ ≤ (2 - 1 / 2 ^ 52) * 2 ^ 1023 := mul_le_mul h2 this (by positivity) (by linarith)

/-- Keypoints in the image. -/
example : ∀ p ∈ [((1 : ℚ), (2 : ℚ)), (4, 6)], p.1 ≤ dblMax ∧ p.2 ≤ dblMax := by
  have h := dblMax_ge
  simp only [List.mem_cons, List.not_mem_nil, or_false, forall_eq_or_imp, forall_eq]
  constructor <;> constructor <;> linarith

example : (∃ p ∈ [((1 : ℚ), (2 : ℚ)), (4, 6)], dblMin ≤ p.1) ∧ ∃ p ∈ [((1 : ℚ), (2 : ℚ)), (4, 6)], dblMin ≤ p.2 := by
  have h := dblMin_le_one
  exact ⟨⟨(1, 2), by simp, by simpa using h⟩, ⟨(1, 2), by simp, by simp only; linarith⟩⟩

theorem step_one (lo hi : ℚ) (h1 : 0 < lo) (h2 : lo ≤ 1) (h3 : 1000 ≤ hi) :
    Extent.step ⟨hi, lo, hi, lo⟩ (-10, 5) = ⟨-10, lo, 5, 5⟩ := by
  unfold Extent.step
  rw [min_eq_right (by linarith : (-10 : ℚ) ≤ hi), max_eq_left (by linarith : (-10 : ℚ) ≤ lo),
      min_eq_right (by linarith : (5 : ℚ) ≤ hi), max_eq_right (by linarith : lo ≤ (5 : ℚ))]

/-- **C82** refuted for negative coordinates, because the maxima start at the smallest positive number rather than the
lowest: the box of a single keypoint at `(-10, 5)` has a diagonal of more than 100. -/
theorem diagonal_negative_refuted : ∃ d, diagonalSq [(-10, 5)] = .ok d ∧ 100 < d ∧ IsSpread [(-10 : ℚ)] 0 ∧
    IsSpread [(5 : ℚ)] 0 := by
  have hmin := dblMin_pos
  have h1 := dblMin_le_one
  have h2 := dblMax_ge
  refine ⟨(-10 - dblMin) * (-10 - dblMin) + (5 - 5) * (5 - 5), ?_, by nlinarith, ?_, ?_⟩
  · exact diagonal_of (ps := [(-10, 5)]) (e := ⟨-10, dblMin, 5, 5⟩) (step_one _ _ hmin h1 h2)
      (le_trans (by norm_num : (-10 : ℚ) ≤ 0) hmin.le) (le_refl _)
  · refine ⟨?_, -10, by simp, -10, by simp, by norm_num⟩
    intro x hx y hy
    simp only [List.mem_singleton] at hx hy
    subst hx hy
    norm_num
  · refine ⟨?_, 5, by simp, 5, by simp, by norm_num⟩
    intro x hx y hy
    simp only [List.mem_singleton] at hx hy
    subst hx hy
    norm_num

/-- **C82**: a track without keypoints has no bounding box: the call aborts. -/
theorem diagonal_empty (id : Nat) : (Track.empty id).diagonalSq = .abort := by
  unfold Track.diagonalSq Track.empty
  simp only [measurements, Outcome.bind_ok]
  unfold diagonalSq
  simp only [List.foldl_nil, Extent.start]
  have h1 := dblMin_le_one
  have h2 := dblMax_ge
  have h3 : ¬dblMin ≥ dblMax := fun h => absurd (le_trans h2 (le_trans h h1)) (by norm_num)
  exact if_pos h3

/-- **C82**: the loop visits the measurements of the keypoints in their order. -/
theorem measurements_of {ks : List (NFrame × Kid)} {ps : List Pt}
    (h : List.Forall₂ (fun k p => measurement k.1 k.2 = .ok p) ks ps) : measurements ks = .ok ps := by
  induction h with
  | nil => rfl
  | cons h1 _ ih => simp [measurements, h1, ih]

/-- **C82**: the box of a track is the one of the measurements of all its keypoints. -/
theorem track_diagonal {t : Track} {ps : List Pt}
    (h : List.Forall₂ (fun k p => measurement k.1 k.2 = .ok p) t.kids ps) : t.diagonalSq = diagonalSq ps := by
  unfold Track.diagonalSq
  rw [measurements_of h]
  rfl

example : (⟨3, [([some [(1, 2)]], ⟨0, 0⟩), ([none, some [(5, 5), (3, 4)]], ⟨1, 1⟩)]⟩ : Track).diagonalSq =
    diagonalSq [(1, 2), (3, 4)] :=
  track_diagonal (.cons rfl (.cons rfl .nil))

end Verif.FeatureTrack
