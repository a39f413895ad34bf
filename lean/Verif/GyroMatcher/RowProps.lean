import Verif.GyroMatcher.Model
import Mathlib.Tactic.Common
import Mathlib.Tactic.Linarith
import Mathlib.Tactic.NormNum
import Mathlib.Algebra.Order.Floor.Ring
import Mathlib.Tactic.Ring

/-!
# Gyro matcher, row search: C40
-/

namespace Verif.GyroMatcher

open Verif (Outcome)

/-! ## Specification -/

/-- `std::sort` by `y`. -/
def SortedByY (l : List KP) : Prop := l.Pairwise (fun p q => p.y ≤ q.y)

/-- No coordinate is -1 or less (converting it to `size_t` is undefined). -/
def NonNegRows (l : List KP) : Prop := ∀ q ∈ l, -1 < q.y

/-! ## The table -/

theorem trunc_mono {p q : ℚ} (h : p ≤ q) : trunc p ≤ trunc q := by
  unfold trunc
  by_cases hp : 0 ≤ p
  · rw [if_pos hp, if_pos (hp.trans h)]
    exact Int.floor_mono h
  · rw [if_neg hp]
    by_cases hq : 0 ≤ q
    · rw [if_pos hq]
      have h1 : ⌈p⌉ ≤ 0 := Int.ceil_le.2 (by push_cast; linarith)
      have h2 : 0 ≤ ⌊q⌋ := Int.floor_nonneg.2 hq
      omega
    · rw [if_neg hq]
      exact Int.ceil_mono h

theorem row_mono {p q : KP} (h : p.y ≤ q.y) : row p ≤ row q := by
  have := trunc_mono h
  unfold row
  omega

theorem advance_eq (y : Nat) : ∀ (l : List KP) (v : Nat),
    advance y l v = (v + (l.takeWhile (fun q => decide (row q < y))).length,
      l.dropWhile (fun q => decide (row q < y)))
  | [], v => rfl
  | q :: qs, v => by
    unfold advance
    by_cases h : row q < y
    · rw [if_pos h, advance_eq y qs (v + 1), List.takeWhile_cons_of_pos (by simpa using h),
        List.dropWhile_cons_of_pos (by simpa using h), List.length_cons]
      congr 1
      omega
    · rw [if_neg h, List.takeWhile_cons_of_neg (by simpa using h), List.dropWhile_cons_of_neg (by simpa using h)]
      rfl

/-- Rows in order: the leading keypoints with a row below `y` are all of them. -/
theorem split_sorted (y : Nat) : ∀ (l : List KP), SortedByY l →
    l.takeWhile (fun q => decide (row q < y)) = l.filter (fun q => decide (row q < y)) ∧
    l.dropWhile (fun q => decide (row q < y)) = l.filter (fun q => decide (y ≤ row q))
  | [], _ => ⟨rfl, rfl⟩
  | q :: qs, h => by
    unfold SortedByY at h
    rw [List.pairwise_cons] at h
    obtain ⟨i1, i2⟩ := split_sorted y qs h.2
    by_cases hq : row q < y
    · have h1 : ¬ y ≤ row q := by omega
      rw [List.takeWhile_cons_of_pos (by simpa using hq), List.dropWhile_cons_of_pos (by simpa using hq),
        List.filter_cons_of_pos (by simpa using hq), List.filter_cons_of_neg (by simpa using h1), i1, i2]
      exact ⟨rfl, rfl⟩
    · have h1 : y ≤ row q := by omega
      have h2 : ∀ p ∈ qs, y ≤ row p := fun p hp => h1.trans (row_mono (h.1 p hp))
      rw [List.takeWhile_cons_of_neg (by simpa using hq), List.dropWhile_cons_of_neg (by simpa using hq),
        List.filter_cons_of_neg (by simpa using hq), List.filter_cons_of_pos (by simpa using h1)]
      constructor
      · symm
        rw [List.filter_eq_nil_iff]
        intro p hp
        have := h2 p hp
        simp; omega
      · congr 1
        symm
        rw [List.filter_eq_self]
        intro p hp
        simpa using h2 p hp

theorem sorted_filter {l : List KP} (h : SortedByY l) (f : KP → Bool) : SortedByY (l.filter f) :=
  List.Pairwise.sublist List.filter_sublist h

theorem lutLoop_spec {l : List KP} (hs : SortedByY l) : ∀ (n t0 prev : Nat), prev ≤ t0 →
    ∀ t, t < n →
      (lutLoop (List.range' t0 n) (l.filter (fun q => decide (prev ≤ row q)))
        (l.filter (fun q => decide (row q < prev))).length)[t]? =
      some (l.filter (fun q => decide (row q < t0 + t))).length
  | 0, _, _, _, _, h => by omega
  | n + 1, t0, prev, hp, t, ht => by
    rw [List.range'_succ]
    unfold lutLoop
    rw [advance_eq]
    obtain ⟨e1, e2⟩ := split_sorted t0 _ (sorted_filter hs (fun q => decide (prev ≤ row q)))
    rw [e1, e2, List.filter_filter, List.filter_filter]
    have hlen : ∀ (m : List KP), (m.filter (fun q => decide (row q < prev))).length +
        (m.filter (fun q => decide (row q < t0) && decide (prev ≤ row q))).length =
        (m.filter (fun q => decide (row q < t0))).length := by
      intro m
      induction m with
      | nil => rfl
      | cons q m ih =>
        simp only [List.filter_cons, Bool.and_eq_true, decide_eq_true_eq]
        split <;> split <;> split <;> (try simp only [List.length_cons]) <;> omega
    have hdrop : (fun q : KP => decide (t0 ≤ row q) && decide (prev ≤ row q)) = fun q => decide (t0 ≤ row q) := by
      funext q
      by_cases h : t0 ≤ row q
      · have h' : prev ≤ row q := hp.trans h
        simp [h, h']
      · simp [h]
    simp only [hlen l, hdrop]
    cases t with
    | zero => simp
    | succ t =>
      rw [List.getElem?_cons_succ]
      have := lutLoop_spec hs n (t0 + 1) t0 (by omega) t (by omega)
      rw [this]
      congr 4
      funext q
      congr 2
      omega

theorem lut_spec {P : Input} {lut : List Nat} (h : initRows P = .ok lut) (hs : SortedByY P.sorted) {t : Nat}
    (ht : t < P.height) : lut[t]? = some (P.sorted.filter (fun q => decide (row q < t))).length := by
  unfold initRows at h
  split at h
  · cases h
  · cases h
    have := lutLoop_spec hs P.height 0 0 (Nat.le_refl _) t ht
    rw [List.range_eq_range']
    simp only [Nat.zero_add] at this
    rw [← this]
    congr 2
    · symm
      rw [List.filter_eq_self]
      intro q _
      simp
    · symm
      rw [List.length_eq_zero_iff, List.filter_eq_nil_iff]
      intro q _
      simp

theorem initRows_ok {P : Input} (h : NonNegRows P.sorted) : ∃ lut, initRows P = .ok lut := by
  unfold initRows
  rw [if_neg]
  · exact ⟨_, rfl⟩
  · intro hc
    rw [List.any_eq_true] at hc
    obtain ⟨q, hq, hy⟩ := hc
    have := h q hq
    simp at hy
    linarith

/-! ## C40 -/

theorem clamp_bounds {h x : ℤ} (hh : 0 < h) : 0 ≤ clamp 0 (h - 1) x ∧ clamp 0 (h - 1) x < h := by
  unfold clamp
  omega

theorem top_le_bottom (P : Input) (py : ℚ) (w : Nat) : topRow P py w ≤ bottomRow P py w := by
  have : trunc (py + 1 / 2 - w) ≤ trunc (py + 1 / 2 + w) := by
    apply trunc_mono
    have : (0 : ℚ) ≤ w := Nat.cast_nonneg w
    linarith
  unfold topRow bottomRow clamp
  omega

theorem drop_takeWhile (f : KP → Bool) : ∀ m : List KP, m.drop (m.takeWhile f).length = m.dropWhile f
  | [] => rfl
  | q :: m => by
    by_cases h : f q
    · rw [List.takeWhile_cons_of_pos h, List.dropWhile_cons_of_pos h, List.length_cons, List.drop_succ_cons,
        drop_takeWhile f m]
    · rw [List.takeWhile_cons_of_neg h, List.dropWhile_cons_of_neg h]
      rfl

theorem seg_sorted {l : List KP} (hs : SortedByY l) (t b : Nat) :
    ((l.take (l.filter (fun q => decide (row q < b))).length).drop
      (l.filter (fun q => decide (row q < t))).length) =
    l.filter (fun q => decide (t ≤ row q ∧ row q < b)) := by
  have tk : ∀ (m : List KP), SortedByY m → ∀ y, m.take (m.filter (fun q => decide (row q < y))).length =
      m.filter (fun q => decide (row q < y)) := by
    intro m hm y
    have h1 := (split_sorted y m hm).1
    rw [← h1]
    exact (List.prefix_iff_eq_take.1 (List.takeWhile_prefix _)).symm
  have dp : ∀ (m : List KP), SortedByY m → ∀ y, m.drop (m.filter (fun q => decide (row q < y))).length =
      m.filter (fun q => decide (y ≤ row q)) := by
    intro m hm y
    have h1 := split_sorted y m hm
    rw [← h1.1, ← h1.2]
    exact drop_takeWhile _ m
  rw [tk l hs b]
  by_cases hle : t ≤ b
  · have e : (l.filter (fun q => decide (row q < t))).length =
        ((l.filter (fun q => decide (row q < b))).filter (fun q => decide (row q < t))).length := by
      rw [List.filter_filter]
      congr 2
      funext q
      by_cases h : row q < t
      · have : row q < b := by omega
        simp [h, this]
      · simp [h]
    rw [e, dp _ (sorted_filter hs _) t, List.filter_filter]
    congr 1
    funext q
    by_cases h : t ≤ row q <;> by_cases h' : row q < b <;> simp [h, h']
  · rw [List.drop_of_length_le]
    · symm
      rw [List.filter_eq_nil_iff]
      intro q _
      simp
      omega
    · apply List.Sublist.length_le
      apply List.monotone_filter_right
      intro q hq
      simp only [decide_eq_true_eq] at hq ⊢
      omega

/-- The keypoints between the two iterators are exactly those whose row is at least the (clipped) top row of the
window and below its (clipped) bottom row.  The bottom row itself is left out, see `bottom_row_refuted`. -/
theorem window_exact_partial {P : Input} {lut : List Nat} (h : initRows P = .ok lut) (hs : SortedByY P.sorted)
    (hh : 0 < P.height) (py : ℚ) {w : Nat} (hw : 0 < w) :
    window P lut py w =
      .ok (P.sorted.filter (fun q => decide (topRow P py w ≤ row q ∧ (row q : ℤ) < bottomRow P py w))) := by
  obtain ⟨t1, t2⟩ := clamp_bounds (x := trunc (py + 1 / 2 - w)) (show (0 : ℤ) < P.height by omega)
  obtain ⟨b1, b2⟩ := clamp_bounds (x := trunc (py + 1 / 2 + w)) (show (0 : ℤ) < P.height by omega)
  change 0 ≤ topRow P py w at t1
  change topRow P py w < _ at t2
  change 0 ≤ bottomRow P py w at b1
  change bottomRow P py w < _ at b2
  unfold window
  rw [lut_spec h hs (t := (topRow P py w).toNat) (by omega), lut_spec h hs (t := (bottomRow P py w).toNat) (by omega)]
  simp only
  rw [if_pos ⟨hw, top_le_bottom P py w, t1, b2⟩, seg_sorted hs]
  congr 2
  funext q
  congr 1
  apply propext
  omega

/-- Two keypoints in an image with 100 rows. -/
def demoRows : Input :=
  { bits := 128, small := 10, large := 20, height := 100, n1 := 2, nK := 1, dist := fun _ _ => 0,
    pred := fun _ => (50, 50), success := fun _ => true, sorted := [⟨50, 45, 1⟩, ⟨50, 99, 0⟩] }

example : (∃ lut, initRows demoRows = .ok lut) ∧ SortedByY demoRows.sorted ∧ 0 < demoRows.height := by
  refine ⟨initRows_ok ?_, ?_, by decide⟩
  · intro q hq
    simp only [demoRows, List.mem_cons, List.not_mem_nil, or_false] at hq
    rcases hq with rfl | rfl <;> norm_num
  · unfold SortedByY
    simp [demoRows]
    norm_num

theorem trunc_lower (z : ℚ) : z - 1 < trunc z := by
  unfold trunc
  split
  · have := Int.lt_floor_add_one z
    linarith
  · have := Int.le_ceil z
    linarith

theorem row_bounds {q : KP} (h : 0 ≤ q.y) : (row q : ℚ) ≤ q.y ∧ q.y < row q + 1 ∧ (row q : ℤ) = ⌊q.y⌋ := by
  have h0 : 0 ≤ ⌊q.y⌋ := Int.floor_nonneg.2 h
  have e : (row q : ℤ) = ⌊q.y⌋ := by
    unfold row trunc
    rw [if_pos h]
    omega
  have e' : (row q : ℚ) = ((⌊q.y⌋ : ℤ) : ℚ) := by
    rw [← e]
    push_cast
    rfl
  rw [e']
  exact ⟨Int.floor_le _, Int.lt_floor_add_one _, e⟩

/-- Every visited keypoint of the image is within the window of half height `w + 1/2`. -/
theorem window_sound {P : Input} {lut : List Nat} (h : initRows P = .ok lut) (hs : SortedByY P.sorted)
    (hh : 0 < P.height) {py : ℚ} {w : Nat} (hw : 0 < w) {l : List KP}
    (hl : window P lut py w = .ok l) : ∀ q ∈ l, q ∈ P.sorted ∧ (0 ≤ q.y → |q.y - py| ≤ w + 1 / 2) := by
  rw [window_exact_partial h hs hh py hw] at hl
  cases hl
  intro q hq
  rw [List.mem_filter, decide_eq_true_eq] at hq
  obtain ⟨hm, h1, h2⟩ := hq
  refine ⟨hm, fun hy => ?_⟩
  obtain ⟨r1, r2, _⟩ := row_bounds hy
  have hw0 : (0 : ℚ) ≤ w := Nat.cast_nonneg w
  have t1 : trunc (py + 1 / 2 - w) ≤ row q ∧ (row q : ℤ) + 1 ≤ trunc (py + 1 / 2 + w) := by
    unfold topRow at h1
    unfold bottomRow at h2
    unfold clamp at h1 h2
    omega
  have t2 : (trunc (py + 1 / 2 - w) : ℚ) ≤ row q := by exact_mod_cast t1.1
  have t3 : (row q : ℚ) + 1 ≤ trunc (py + 1 / 2 + w) := by exact_mod_cast t1.2
  have l1 := trunc_lower (py + 1 / 2 - w)
  have u1 : (trunc (py + 1 / 2 + w) : ℚ) ≤ py + 1 / 2 + w := by
    have hpos : (1 : ℤ) ≤ trunc (py + 1 / 2 + w) := by omega
    unfold trunc at hpos ⊢
    by_cases hz : 0 ≤ py + 1 / 2 + w
    · rw [if_pos hz]
      exact Int.floor_le _
    · rw [if_neg hz] at hpos
      have : ⌈py + 1 / 2 + (w : ℚ)⌉ ≤ 0 := Int.ceil_le.2 (by push_cast; linarith)
      omega
  rw [abs_le]
  constructor <;> linarith

/-- Every keypoint within `w - 1/2` of the predicted row is visited, unless it is in the last row of the image. -/
theorem window_complete_partial {P : Input} {lut : List Nat} (h : initRows P = .ok lut) (hs : SortedByY P.sorted)
    (hh : 0 < P.height) {py : ℚ} {w : Nat} (hw : 0 < w) {l : List KP}
    (hl : window P lut py w = .ok l) {q : KP} (hq : q ∈ P.sorted) (h0 : 0 ≤ q.y) (h1 : q.y < (P.height : ℚ) - 1)
    (hd : |q.y - py| ≤ w - 1 / 2) : q ∈ l := by
  rw [window_exact_partial h hs hh py hw] at hl
  cases hl
  rw [List.mem_filter, decide_eq_true_eq]
  refine ⟨hq, ?_⟩
  obtain ⟨r1, r2, r3⟩ := row_bounds h0
  rw [abs_le] at hd
  have hrow : (row q : ℤ) < (P.height : ℤ) - 1 := by
    have : (row q : ℚ) < (P.height : ℚ) - 1 := lt_of_le_of_lt r1 h1
    have h2 : ((row q : ℤ) : ℚ) < (((P.height : ℤ) - 1 : ℤ) : ℚ) := by push_cast; exact this
    exact_mod_cast h2
  have e0 : trunc q.y = row q := by
    rw [r3]; unfold trunc; rw [if_pos h0]
  have e1 : trunc (q.y + 1) = row q + 1 := by
    rw [r3]; unfold trunc; rw [if_pos (by linarith), Int.floor_add_one]
  have m1 : trunc (py + 1 / 2 - w) ≤ row q := by
    rw [← e0]; exact trunc_mono (by linarith)
  have m2 : (row q : ℤ) + 1 ≤ trunc (py + 1 / 2 + w) := by
    rw [← e1]; exact trunc_mono (by linarith)
  unfold topRow bottomRow clamp
  omega

example : ∃ (lut : List Nat) (l : List KP), initRows demoRows = .ok lut ∧ window demoRows lut 50 10 = .ok l ∧
    (⟨50, 45, 1⟩ : KP) ∈ demoRows.sorted ∧ |(45 : ℚ) - 50| ≤ (10 : Nat) - 1 / 2 := by
  have hs : SortedByY demoRows.sorted := by
    unfold SortedByY
    simp [demoRows]
    norm_num
  obtain ⟨lut, h⟩ := initRows_ok (P := demoRows) (by
    intro q hq
    simp only [demoRows, List.mem_cons, List.not_mem_nil, or_false] at hq
    rcases hq with rfl | rfl <;> norm_num)
  refine ⟨lut, _, h, window_exact_partial h hs (by decide) 50 (by decide), by simp [demoRows], ?_⟩
  rw [abs_le]
  constructor <;> norm_num

/-- A keypoint in the last row of the image is never visited, whatever the prediction and the window. -/
theorem last_row_refuted {P : Input} {lut : List Nat} (h : initRows P = .ok lut) (hs : SortedByY P.sorted)
    (hh : 0 < P.height) {q : KP} (h1 : (P.height : ℚ) - 1 ≤ q.y) (py : ℚ) {w : Nat}
    (hw : 0 < w) : ∃ l, window P lut py w = .ok l ∧ q ∉ l := by
  refine ⟨_, window_exact_partial h hs hh py hw, ?_⟩
  rw [List.mem_filter, decide_eq_true_eq]
  rintro ⟨_, _, h2⟩
  have hH : (1 : ℚ) ≤ P.height := by exact_mod_cast hh
  obtain ⟨_, r2, _⟩ := row_bounds (show 0 ≤ q.y by linarith)
  have : (P.height : ℚ) < row q + 2 := by linarith
  have h3 : (P.height : ℤ) < row q + 2 := by exact_mod_cast this
  unfold bottomRow clamp at h2
  omega

/-- A keypoint in the image, exactly `w` below the prediction, is not visited, although one exactly `w` above is. -/
theorem bottom_row_refuted : ∃ (P : Input) (lut : List Nat) (l : List KP), initRows P = .ok lut ∧
    SortedByY P.sorted ∧ window P lut 50 10 = .ok l ∧ P.sorted = [⟨0, 40, 0⟩, ⟨0, 60, 1⟩] ∧ l = [⟨0, 40, 0⟩] := by
  let P : Input := { demoRows with sorted := [⟨0, 40, 0⟩, ⟨0, 60, 1⟩] }
  have hs : SortedByY P.sorted := by
    unfold SortedByY
    simp [P]
    norm_num
  obtain ⟨lut, h⟩ := initRows_ok (P := P) (by
    intro q hq
    simp only [P, List.mem_cons, List.not_mem_nil, or_false] at hq
    rcases hq with rfl | rfl <;> norm_num)
  refine ⟨P, lut, _, h, hs, window_exact_partial h hs (by decide) 50 (by decide), rfl, ?_⟩
  have r1 : row ⟨0, 40, 0⟩ = 40 := by
    unfold row trunc
    norm_num
    rfl
  have r2 : row ⟨0, 60, 1⟩ = 60 := by
    unfold row trunc
    norm_num
    rfl
  have t : topRow P 50 10 = 40 := by
    have : ⌊(50 : ℚ) + 1 / 2 - (10 : Nat)⌋ = 40 := by rw [Int.floor_eq_iff]; norm_num
    unfold topRow clamp trunc
    rw [if_pos (by norm_num), this]
    rfl
  have b : bottomRow P 50 10 = 60 := by
    have : ⌊(50 : ℚ) + 1 / 2 + (10 : Nat)⌋ = 60 := by rw [Int.floor_eq_iff]; norm_num
    unfold bottomRow clamp trunc
    rw [if_pos (by norm_num), this]
    rfl
  rw [t, b]
  simp [P, r1, r2]

end Verif.GyroMatcher
