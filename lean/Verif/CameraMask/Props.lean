import Verif.CameraMask.Model
import Mathlib.Algebra.Order.Floor.Ring
import Mathlib.Tactic.Linarith
import Mathlib.Tactic.NormNum
import Mathlib.Tactic.Push
import Mathlib.Tactic.Positivity

/-!
# Delays of rolling shutters (C88) and masks (C89)
-/

namespace Verif.CameraMask

open Verif (Outcome)

/-! ## C88 -/

theorem trunc_nonneg {x : ℚ} (h : 0 ≤ x) : trunc x = ⌊x⌋ := if_pos h

theorem toInt64_small {n : Int} (h1 : -2 ^ 63 ≤ n) (h2 : n < 2 ^ 63) : toInt64 n = n := by
  unfold toInt64
  rw [Int.bmod_eq_of_le] <;> norm_num <;> omega

/-- The coordinate along which the shutter moves. -/
def along (s : Shutter) (u v : Coord) : Coord := match s.cls with | .lidar => u | _ => v

/-- The number of lines the image has in that direction. -/
def lines (s : Shutter) : Nat := match s.cls with | .lidar => s.width | _ => s.height

/-- C88: a keypoint in line `k` (rows of images, columns of lidars) was taken `k` line delays after the first line, if
that fits into 63 bits. -/
theorem delay_spec (s : Shutter) {u v : Coord} {x : ℚ} {k : Nat} (hx : along s u v = .num x) (h1 : (k : ℚ) ≤ x)
    (h2 : x < k + 1) (hfit : k * s.lineDelay < 2 ^ 63) (hk : k < 2 ^ 63) :
    delay s u v = .ok (k * s.lineDelay) := by
  have hf : ⌊x⌋ = (k : Int) := Int.floor_eq_iff.2 ⟨by exact_mod_cast h1, by exact_mod_cast h2⟩
  have h0 : (0 : ℚ) ≤ x := le_trans (Nat.cast_nonneg k) h1
  have ht : trunc x = k := by rw [trunc_nonneg h0, hf]
  have e : delay s u v = (castInt 64 (along s u v) >>= fun line => .ok (toInt64 (line * s.lineDelay))) := rfl
  rw [e, hx]
  simp only [castInt, ht]
  have hk' : ((k : Int)) < 2 ^ 63 := by exact_mod_cast hk
  rw [if_pos ⟨by norm_num, by norm_num; omega⟩]
  simp only [Outcome.bind_ok]
  rw [toInt64_small (by have : (0 : Int) ≤ (k : Int) * s.lineDelay := by positivity
                        omega) (by exact_mod_cast hfit)]

example : delay ⟨.pinhole, 640, 480, 30000⟩ (.num 12) (.num (7 / 2)) = .ok 90000 :=
  delay_spec ⟨.pinhole, 640, 480, 30000⟩ (k := 3) rfl (by norm_num) (by norm_num) (by norm_num) (by norm_num)

/-- C88: the call is defined exactly for numbers whose whole part fits into 64 bits. -/
theorem delay_defined_iff (s : Shutter) (u v : Coord) :
    (∃ d, delay s u v = .ok d) ↔ ∃ x, along s u v = .num x ∧ -2 ^ 63 ≤ trunc x ∧ trunc x < 2 ^ 63 := by
  have e : delay s u v = (castInt 64 (along s u v) >>= fun line => .ok (toInt64 (line * s.lineDelay))) := rfl
  rw [e]
  cases along s u v with
  | nan => exact ⟨(fun ⟨_, h⟩ => nomatch h), fun ⟨_, h, _⟩ => nomatch h⟩
  | inf n => exact ⟨(fun ⟨_, h⟩ => nomatch h), fun ⟨_, h, _⟩ => nomatch h⟩
  | num x =>
    by_cases h : -2 ^ 63 ≤ trunc x ∧ trunc x < 2 ^ 63
    · simp only [castInt]
      rw [if_pos (by norm_num at h ⊢; exact h)]
      exact ⟨fun _ => ⟨x, rfl, h⟩, fun _ => ⟨_, rfl⟩⟩
    · simp only [castInt]
      rw [if_neg (by norm_num at h ⊢; exact h)]
      refine ⟨(fun ⟨_, h⟩ => nomatch h), ?_⟩
      rintro ⟨y, hy, hb⟩
      cases hy
      exact absurd hb h

/-- C88: the delay does not decrease along the shutter. -/
theorem delay_mono (s : Shutter) {u v u' v' : Coord} {x x' : ℚ} (hx : along s u v = .num x) (hx' : along s u' v' = .num x')
    (h0 : 0 ≤ x) (hle : x ≤ x') (hl : x' < lines s) (hfit : lines s * s.lineDelay < 2 ^ 63) (hr : s.Ranged) :
    ∃ d d', delay s u v = .ok d ∧ delay s u' v' = .ok d' ∧ 0 ≤ d ∧ d ≤ d' ∧ d' ≤ lines s * s.lineDelay ∧
      (0 < s.lineDelay → d' < lines s * s.lineDelay) := by
  have hL : lines s < 2 ^ 32 := by
    unfold lines
    split
    · exact hr.1
    · exact hr.2.1
  have h0' : 0 ≤ x' := le_trans h0 hle
  obtain ⟨k, hk⟩ := Int.eq_ofNat_of_zero_le (Int.floor_nonneg.2 h0)
  obtain ⟨k', hk'⟩ := Int.eq_ofNat_of_zero_le (Int.floor_nonneg.2 h0')
  have f1 := Int.floor_le x
  have f2 := Int.lt_floor_add_one x
  have f1' := Int.floor_le x'
  have f2' := Int.lt_floor_add_one x'
  have hkk : k ≤ k' := by
    have := Int.floor_le_floor hle
    rw [hk, hk'] at this
    exact_mod_cast this
  rw [hk] at f1 f2
  rw [hk'] at f1' f2'
  have hk'L : k' < lines s := by
    have : (k' : ℚ) < lines s := by
      push_cast at f1'
      linarith
    exact_mod_cast this
  have m1 : k' * s.lineDelay ≤ lines s * s.lineDelay := Nat.mul_le_mul_right _ hk'L.le
  have m2 : k * s.lineDelay ≤ k' * s.lineDelay := Nat.mul_le_mul_right _ hkk
  refine ⟨k * s.lineDelay, k' * s.lineDelay, delay_spec s hx (by exact_mod_cast f1) (by exact_mod_cast f2) (by omega)
    (by omega), delay_spec s hx' (by exact_mod_cast f1') (by exact_mod_cast f2') (by omega) (by omega), by positivity,
    by exact_mod_cast m2, by exact_mod_cast m1, fun hd => ?_⟩
  exact_mod_cast Nat.mul_lt_mul_of_pos_right hk'L hd

/-- C88 for cameras that are not lidars: the delay of a keypoint in the image is less than the maximal delay, which is
the line delay times the number of lines. -/
theorem maxDelay_partial (s : Shutter) (hc : s.cls ≠ .lidar) (hr : s.Ranged) (hfit : s.height * s.lineDelay < 2 ^ 63)
    (hd : 0 < s.lineDelay) :
    maxDelay s = numberOfLines s * s.lineDelay ∧
      ∀ (u : Coord) (y : ℚ), 0 ≤ y → y < s.height → ∃ d, delay s u (.num y) = .ok d ∧ 0 ≤ d ∧ d < maxDelay s := by
  have hlines : lines s = s.height := by
    unfold lines
    split
    · rename_i h; exact absurd h hc
    · rfl
  have halong : ∀ u v, along s u v = v := by
    intro u v
    unfold along
    split
    · rename_i h; exact absurd h hc
    · rfl
  have hmax : maxDelay s = s.height * s.lineDelay := by
    unfold maxDelay
    rw [toInt64_small]
    · have : (0 : Int) ≤ (s.height : Int) * s.lineDelay := by positivity
      omega
    · exact_mod_cast hfit
  have hn : numberOfLines s = s.height := by
    unfold numberOfLines
    rw [if_pos hd]
    exact hlines
  refine ⟨by rw [hmax, hn], fun u y h0 hy => ?_⟩
  obtain ⟨d, d', h1, h2, h3, h4, h5, h6⟩ := delay_mono s (u := u) (v := .num y) (u' := u) (v' := .num y) (halong _ _)
    (halong _ _) h0 le_rfl (by rw [hlines]; exact hy) (by rw [hlines]; exact hfit) hr
  rw [h1] at h2
  injection h2 with h2
  subst h2
  have := h6 hd
  rw [hlines] at this
  exact ⟨d, h1, h3, by rw [hmax]; exact this⟩

example : ∃ d, delay ⟨.pinhole, 640, 480, 30000⟩ (.num 12) (.num 479) = .ok d ∧ 0 ≤ d ∧
    d < maxDelay ⟨.pinhole, 640, 480, 30000⟩ :=
  (maxDelay_partial ⟨.pinhole, 640, 480, 30000⟩ (by decide) ⟨by decide, by decide, by decide⟩ (by decide) (by decide)).2 _ _
    (by norm_num) (by norm_num)

/-- The lidar with 64 rows and 1024 columns of `createTestCamera`, with a delay of 48828 ns for each column. -/
def testLidar : Shutter := ⟨.lidar, 1024, 64, 48828⟩

/-- For lidars the maximal delay is that of the rows, although the shutter moves along the columns: keypoints in the
image have delays far above the "maximal" delay, and the number of lines does not agree with it. -/
theorem maxDelay_lidar_refuted :
    ∃ d, delay testLidar (.num 1023) (.num 0) = .ok d ∧ maxDelay testLidar < d ∧
      maxDelay testLidar ≠ numberOfLines testLidar * testLidar.lineDelay := by
  refine ⟨1023 * 48828, ?_, by decide, by decide⟩
  exact delay_spec testLidar (k := 1023) rfl (by norm_num) (by norm_num) (by decide) (by decide)

/-- C88: for lidars the bound is the function of the same name without arguments. -/
theorem lidarDelay_spec (s : Shutter) (hc : s.cls = .lidar) (hr : s.Ranged) (hfit : s.width * s.lineDelay < 2 ^ 63)
    (hd : 0 < s.lineDelay) :
    lidarDelay s = numberOfLines s * s.lineDelay ∧
      ∀ (x : ℚ) (v : Coord), 0 ≤ x → x < s.width → ∃ d, delay s (.num x) v = .ok d ∧ 0 ≤ d ∧ d < lidarDelay s := by
  have hlines : lines s = s.width := by simp [lines, hc]
  have halong : ∀ u v, along s u v = u := by intro u v; simp [along, hc]
  have hmax : lidarDelay s = s.width * s.lineDelay := by
    unfold lidarDelay
    rw [toInt64_small]
    · have : (0 : Int) ≤ (s.width : Int) * s.lineDelay := by positivity
      omega
    · exact_mod_cast hfit
  have hn : numberOfLines s = s.width := by
    unfold numberOfLines
    rw [if_pos hd]
    exact hlines
  refine ⟨by rw [hmax, hn], fun x v h0 hx => ?_⟩
  obtain ⟨d, d', h1, h2, h3, h4, h5, h6⟩ := delay_mono s (u := .num x) (v := v) (u' := .num x) (v' := v) (halong _ _)
    (halong _ _) h0 le_rfl (by rw [hlines]; exact hx) (by rw [hlines]; exact hfit) hr
  rw [h1] at h2
  injection h2 with h2
  subst h2
  have := h6 hd
  rw [hlines] at this
  exact ⟨d, h1, h3, by rw [hmax]; exact this⟩

example : ∃ d, delay testLidar (.num 1023) .nan = .ok d ∧ 0 ≤ d ∧ d < lidarDelay testLidar :=
  (lidarDelay_spec testLidar rfl ⟨by decide, by decide, by decide⟩ (by decide) (by decide)).2 _ _ (by norm_num) (by norm_num [testLidar])

/-- C88: global shutters have no delays and one line. -/
theorem global_shutter (s : Shutter) (h : s.lineDelay = 0) :
    maxDelay s = 0 ∧ lidarDelay s = 0 ∧ numberOfLines s = 1 ∧
      ∀ u v d, delay s u v = .ok d → d = 0 := by
  have hz : toInt64 0 = 0 := by decide
  refine ⟨by simp [maxDelay, h, hz], by simp [lidarDelay, h, hz], by simp [numberOfLines, h], fun u v d hd => ?_⟩
  unfold delay at hd
  obtain ⟨l, -, hd⟩ := Outcome.bind_eq_ok.1 hd
  injection hd with hd
  rw [← hd, h]
  simp [hz]

example : numberOfLines ⟨.unified, 3, 2, 0⟩ = 1 := (global_shutter _ rfl).2.2.1

/-- C88: columns exactly for lidars. -/
theorem columnMode_iff (s : Shutter) : columnMode s = true ↔ s.cls = .lidar := by
  cases s with | mk c _ _ _ => cases c <;> simp [columnMode]

/-- Keypoints in the line above the image have the delay of the first line: truncation goes towards zero, so that one
line delay is missing for all keypoints that wander out of the image at the top. -/
theorem delay_above_refuted (s : Shutter) (hc : s.cls ≠ .lidar) (u : Coord) :
    delay s u (.num (-1 / 2)) = .ok 0 ∧ delay s u (.num (1 / 2)) = .ok 0 := by
  have halong : ∀ v, delay s u v = (castInt 64 v >>= fun line => .ok (toInt64 (line * s.lineDelay))) := by
    intro v
    unfold delay
    split
    · rename_i h; exact absurd h hc
    · rfl
  have hz : toInt64 0 = 0 := by decide
  have t1 : trunc (-1 / 2) = 0 := by rw [trunc, if_neg (by norm_num), Int.ceil_eq_iff]; norm_num
  have t2 : trunc (1 / 2) = 0 := by rw [trunc, if_pos (by norm_num), Int.floor_eq_iff]; norm_num
  rw [halong, halong]
  simp only [castInt, t1, t2]
  rw [if_pos ⟨by norm_num, by norm_num⟩]
  simp [hz]

/-- Delays that do not fit wrap: here a line delay near 2^63 gives negative delays. -/
theorem delay_wrap_refuted : delay ⟨.pinhole, 640, 480, 2 ^ 63⟩ (.num 0) (.num 1) = .ok (-2 ^ 63) := by
  have t : trunc 1 = 1 := by rw [trunc, if_pos (by norm_num), Int.floor_eq_iff]; norm_num
  have w : toInt64 (1 * ((2 ^ 63 : Nat) : Int)) = -2 ^ 63 := by decide
  simp only [delay, castInt, t]
  rw [if_pos ⟨by norm_num, by norm_num⟩]
  simp only [Outcome.bind_ok, w]

/-- Coordinates that are not numbers or too large are undefined behaviour. -/
theorem delay_nan_refuted (s : Shutter) (hc : s.cls ≠ .lidar) (u : Coord) : delay s u .nan = .ub := by
  unfold delay
  split
  · rename_i h; exact absurd h hc
  · rfl

/-! ## C89 -/

/-- The pixels of a view are there. -/
def Stored (h : Heap) (m : View) : Prop :=
  ∃ b, h[m.buf]? = some b ∧ b.length = m.rows ∧ ∀ r ∈ b, r.length = m.cols

/-- The mask of a camera fits the image, and its pixels are there. -/
def Fits (h : Heap) (c : Cam) : Prop :=
  ∀ m, c.mask = some m → m.rows = c.height ∧ m.cols = c.width ∧ Stored h m

/-- The value of the mask at a row and a column. -/
def valueAt (h : Heap) (m : View) (y x : Nat) : Nat := ((((h[m.buf]?).getD [])[y]?).getD [])[x]?.getD 0

theorem pixel_spec {h : Heap} {m : View} (hs : Stored h m) {y x : Nat} (hy : y < m.rows) (hx : x < m.cols) :
    pixel h m y x = .ok (valueAt h m y x) := by
  obtain ⟨b, h1, h2, h3⟩ := hs
  have hyb : y < b.length := by omega
  have hxr : x < b[y].length := by rw [h3 _ (List.getElem_mem hyb)]; exact hx
  simp only [pixel]
  rw [if_pos ⟨by positivity, by exact_mod_cast hy, by positivity, by exact_mod_cast hx⟩]
  simp [h1, List.getElem?_eq_getElem hyb, List.getElem?_eq_getElem hxr, valueAt]

/-- C89: a keypoint is masked exactly if it is outside the image or the camera has a mask that is zero at the pixel of
the keypoint; the question is always answered. -/
theorem isMasked_spec {h : Heap} {c : Cam} (hf : Fits h c) (hw : c.width < 2 ^ 31) (hh : c.height < 2 ^ 31) (u v : ℚ) :
    ∃ b, isMasked h c (.num u) (.num v) = .ok b ∧
      (b = true ↔ u < 0 ∨ c.width ≤ u ∨ v < 0 ∨ c.height ≤ v ∨
        ∃ m, c.mask = some m ∧ valueAt h m ⌊v⌋₊ ⌊u⌋₊ = 0) := by
  unfold isMasked
  by_cases hout : (negative (.num u) || atLeast (.num u) c.width || negative (.num v) || atLeast (.num v) c.height) = true
  · rw [if_pos hout]
    refine ⟨true, rfl, iff_of_true rfl ?_⟩
    simp only [negative, atLeast, Bool.or_eq_true, decide_eq_true_eq] at hout
    rcases hout with ((hout | hout) | hout) | hout
    · exact Or.inl hout
    · exact Or.inr (Or.inl hout)
    · exact Or.inr (Or.inr (Or.inl hout))
    · exact Or.inr (Or.inr (Or.inr (Or.inl hout)))
  · rw [if_neg hout]
    simp only [negative, atLeast, Bool.or_eq_true, decide_eq_true_eq, not_or, not_lt, not_le] at hout
    obtain ⟨⟨⟨u0, u1⟩, v0⟩, v1⟩ := hout
    have hno : ∀ p : Prop, (u < 0 ∨ (c.width : ℚ) ≤ u ∨ v < 0 ∨ (c.height : ℚ) ≤ v ∨ p) ↔ p := by
      intro p
      constructor
      · rintro (h | h | h | h | h)
        · linarith
        · linarith
        · linarith
        · linarith
        · exact h
      · exact fun h => Or.inr (Or.inr (Or.inr (Or.inr h)))
    cases hm : c.mask with
    | none => exact ⟨false, rfl, by rw [hno]; simp⟩
    | some m =>
      obtain ⟨e1, e2, hs⟩ := hf m hm
      have fu : trunc u = (⌊u⌋₊ : Int) := by rw [trunc_nonneg u0, Int.natCast_floor_eq_floor u0]
      have fv : trunc v = (⌊v⌋₊ : Int) := by rw [trunc_nonneg v0, Int.natCast_floor_eq_floor v0]
      have lu : ⌊u⌋₊ < c.width := (Nat.floor_lt u0).2 u1
      have lv : ⌊v⌋₊ < c.height := (Nat.floor_lt v0).2 v1
      have ru : (⌊u⌋₊ : Int) < 2 ^ 31 := by omega
      have rv : (⌊v⌋₊ : Int) < 2 ^ 31 := by omega
      simp only [castInt, fu, fv]
      rw [if_pos ⟨by norm_num <;> omega, by norm_num <;> omega⟩, if_pos ⟨by norm_num <;> omega, by norm_num <;> omega⟩]
      simp only [Outcome.bind_ok, pixel_spec hs (by omega : ⌊v⌋₊ < m.rows) (by omega : ⌊u⌋₊ < m.cols)]
      refine ⟨_, rfl, ?_⟩
      rw [hno]
      simp

/-- A mask of two rows and three columns. -/
def demoHeap : Heap := [[[255, 255, 0], [255, 0, 255]]]
/-- A camera with it. -/
def demoCam : Cam := ⟨3, 2, some ⟨0, 2, 3, true⟩⟩

theorem demo_fits : Fits demoHeap demoCam := by
  intro m hm
  injection hm with hm
  subst hm
  exact ⟨rfl, rfl, _, rfl, rfl, by simp⟩

example : ∃ b, isMasked demoHeap demoCam (.num (5 / 2)) (.num (1 / 2)) = .ok b ∧ b = true := by
  obtain ⟨b, h1, h2⟩ := isMasked_spec demo_fits (by decide) (by decide) (5 / 2) (1 / 2)
  refine ⟨b, h1, h2.2 (Or.inr (Or.inr (Or.inr (Or.inr ⟨_, rfl, ?_⟩))))⟩
  have e1 : ⌊(1 / 2 : ℚ)⌋₊ = 0 := by rw [Nat.floor_eq_iff (by norm_num)]; norm_num
  have e2 : ⌊(5 / 2 : ℚ)⌋₊ = 2 := by rw [Nat.floor_eq_iff (by norm_num)]; norm_num
  rw [e1, e2]
  rfl

/-- C89: a mask is taken exactly if it has the size of the image and is grey. -/
theorem setMask_iff (c : Cam) (m : View) :
    (∃ c', setMask c m = .ok c') ↔ m.rows = c.height ∧ m.cols = c.width ∧ m.grey = true := by
  unfold setMask
  constructor
  · rintro ⟨c', h⟩
    split at h
    · rename_i h1
      split at h
      · rename_i h2
        split at h
        · rename_i h3
          exact ⟨h1.symm, h2.symm, h3⟩
        · cases h
      · cases h
    · cases h
  · rintro ⟨h1, h2, h3⟩
    rw [if_pos h1.symm, if_pos h2.symm, if_pos h3]
    exact ⟨_, rfl⟩

/-- C89: a mask that is taken is the mask of the camera, unless it has no pixels. -/
theorem setMask_spec {c c' : Cam} {m : View} (h : setMask c m = .ok c') :
    c'.width = c.width ∧ c'.height = c.height ∧
      c'.mask = (if c.width = 0 ∨ c.height = 0 then none else some m) ∧ hasMask c' = decide (0 < c.width ∧ 0 < c.height) ∧
      ∀ h, Stored h m → Fits h c' := by
  obtain ⟨h1, h2, h3⟩ := (setMask_iff c m).1 ⟨c', h⟩
  unfold setMask at h
  rw [if_pos h1.symm, if_pos h2.symm, if_pos h3] at h
  injection h with h
  subst h
  refine ⟨rfl, rfl, by simp only [h1, h2, or_comm], ?_, fun hp hs k hk => ?_⟩
  · by_cases hz : c.width = 0 ∨ c.height = 0
    · have hz' : m.rows = 0 ∨ m.cols = 0 := by rw [h1, h2]; exact hz.symm
      simp only [hasMask, if_pos hz', Option.isSome_none]
      symm
      rw [decide_eq_false_iff_not]
      omega
    · have hz' : ¬(m.rows = 0 ∨ m.cols = 0) := by rw [h1, h2]; exact fun e => hz e.symm
      simp only [hasMask, if_neg hz', Option.isSome_some]
      symm
      rw [decide_eq_true_eq]
      omega
  · simp only at hk
    split at hk
    · cases hk
    · injection hk with hk
      subst hk
      exact ⟨h1, h2, hs⟩

example : ∃ c', setMask (newCam 3 2) ⟨0, 2, 3, true⟩ = .ok c' ∧ hasMask c' = true := ⟨_, rfl, rfl⟩

/-- C89: new cameras have no mask, and after `clearMask` there is none. -/
theorem no_mask (c : Cam) (w h : Nat) (hp : Heap) :
    hasMask (newCam w h) = false ∧ hasMask (clearMask c) = false ∧ Fits hp (newCam w h) ∧ Fits hp (clearMask c) :=
  ⟨rfl, rfl, fun _ e => (nomatch e), fun _ e => (nomatch e)⟩

/-- What can be done with a camera after construction, without changing the image size. -/
inductive Op where
  | setMask (m : View)
  | clearMask
  | write (buf y x value : Nat)

/-- The effect; setting a mask is refused (the program ends) if it does not fit, else the buffer must exist. -/
def step (s : Heap × Cam) : Op → Option (Heap × Cam)
  | .setMask m => match CameraMask.setMask s.2 m with | .ok c => some (s.1, c) | _ => none
  | .clearMask => some (s.1, CameraMask.clearMask s.2)
  | .write b y x p => some (poke s.1 b y x p, s.2)

/-- The program over a list of operations. -/
def run : Heap × Cam → List Op → Option (Heap × Cam)
  | s, [] => some s
  | s, o :: os => match step s o with | some s' => run s' os | none => none

theorem stored_poke {h : Heap} {m : View} (hs : Stored h m) (b y x p : Nat) : Stored (poke h b y x p) m := by
  obtain ⟨l, h1, h2, h3⟩ := hs
  unfold poke Stored
  by_cases hb : b = m.buf
  · subst hb
    refine ⟨l.modify y fun r => r.set x p, by simp [List.getElem?_modify, h1], by simpa using h2, fun r hr => ?_⟩
    obtain ⟨i, hi, e⟩ := List.getElem_of_mem hr
    rw [← e, List.getElem_modify]
    have hi' : i < l.length := by simpa using hi
    split
    · rw [List.length_set]
      exact h3 _ (List.getElem_mem hi')
    · exact h3 _ (List.getElem_mem hi')
  · exact ⟨l, by simp [List.getElem?_modify, hb, h1], h2, h3⟩

/-- C89: however masks are set and cleared and pixels written, the mask fits the image, as long as the image size is not
changed. -/
theorem run_fits : ∀ {os : List Op} {s s' : Heap × Cam}, Fits s.1 s.2 →
    (∀ m, Op.setMask m ∈ os → Stored s.1 m) → run s os = some s' → Fits s'.1 s'.2
  | [], s, s', hf, _, h => by
    injection h with h
    exact h ▸ hf
  | o :: os, s, s', hf, hst, h => by
    simp only [run] at h
    split at h
    case h_2 => cases h
    rename_i t ht
    cases o with
    | setMask m =>
      simp only [step] at ht
      split at ht
      case h_2 => cases ht
      rename_i c hc
      injection ht with ht
      subst ht
      exact run_fits (s := (s.1, c)) ((setMask_spec hc).2.2.2.2 _ (hst m (by simp))) (fun k hk => hst k (List.mem_cons_of_mem _ hk)) h
    | clearMask =>
      injection ht with ht
      subst ht
      exact run_fits (s := (s.1, CameraMask.clearMask s.2)) (no_mask s.2 0 0 s.1).2.2.2 (fun k hk => hst k (List.mem_cons_of_mem _ hk)) h
    | write b y x p =>
      injection ht with ht
      subst ht
      refine run_fits (s := (poke s.1 b y x p, s.2)) (fun k hk => ?_) (fun k hk => stored_poke (hst k (List.mem_cons_of_mem _ hk)) b y x p) h
      obtain ⟨e1, e2, e3⟩ := hf k hk
      exact ⟨e1, e2, stored_poke e3 b y x p⟩

example : ∃ s', run (demoHeap, newCam 3 2) [.setMask ⟨0, 2, 3, true⟩, .write 0 1 1 9] = some s' ∧ Fits s'.1 s'.2 := by
  have hs : Stored demoHeap ⟨0, 2, 3, true⟩ := (demo_fits _ rfl).2.2
  refine ⟨_, rfl, run_fits (s := (demoHeap, newCam 3 2)) (os := [.setMask ⟨0, 2, 3, true⟩, .write 0 1 1 9]) (no_mask demoCam 3 2 demoHeap).2.2.1
    (fun m hm => ?_) rfl⟩
  simp only [List.mem_cons, Op.setMask.injEq, reduceCtorEq, List.not_mem_nil, or_false] at hm
  subst hm
  exact hs

/-- Changing the image size does not touch the mask; then asking about a keypoint in the image reads outside the mask. -/
theorem resize_refuted : isMasked demoHeap (setImageWidth demoCam 4) (.num 3) (.num 0) = .ub ∧
    isMasked demoHeap (setImageHeight demoCam 3) (.num 0) (.num 2) = .ub := by
  have t0 : trunc 0 = 0 := by simp [trunc]
  have t2 : trunc 2 = 2 := by rw [trunc, if_pos (by norm_num), Int.floor_eq_iff]; norm_num
  have t3 : trunc 3 = 3 := by rw [trunc, if_pos (by norm_num), Int.floor_eq_iff]; norm_num
  constructor
  · simp [isMasked, negative, atLeast, setImageWidth, demoCam, castInt, t0, t3, pixel]
    norm_num
  · simp [isMasked, negative, atLeast, setImageHeight, demoCam, castInt, t0, t2, pixel]
    norm_num

/-- Keypoints that are not numbers are not masked by cameras without mask, and undefined for cameras with one. -/
theorem nan_refuted (h : Heap) (c : Cam) (v : ℚ) (h0 : 0 ≤ v) (h1 : v < c.height) :
    (c.mask = none → isMasked h c .nan (.num v) = .ok false) ∧
      (c.mask ≠ none → c.height < 2 ^ 31 → isMasked h c .nan (.num v) = .ub) := by
  have hcond : (negative .nan || atLeast .nan c.width || negative (.num v) || atLeast (.num v) c.height) = false := by
    simp [negative, atLeast, h0, h1]
  constructor
  · intro hm
    simp only [isMasked, hcond, hm, Bool.false_eq_true, if_false]
  · intro hm hr
    obtain ⟨m, hm⟩ := Option.ne_none_iff_exists'.1 hm
    have lv : ⌊v⌋₊ < c.height := (Nat.floor_lt h0).2 h1
    have fv : trunc v = (⌊v⌋₊ : Int) := by rw [trunc_nonneg h0, Int.natCast_floor_eq_floor h0]
    simp only [isMasked, hcond, hm, Bool.false_eq_true, if_false, castInt, fv]
    rw [if_pos ⟨by norm_num <;> omega, by norm_num <;> omega⟩]
    rfl

/-- Infinite coordinates are outside the image. -/
theorem inf_masked (h : Heap) (c : Cam) (n : Bool) (x : Coord) :
    isMasked h c (.inf n) x = .ok true ∧ isMasked h c x (.inf n) = .ok true := by
  have e : (negative (.inf n) || atLeast (.inf n) c.width) = true := by cases n <;> simp [negative, atLeast]
  have e' : (negative (.inf n) || atLeast (.inf n) c.height) = true := by cases n <;> simp [negative, atLeast]
  constructor
  · unfold isMasked
    rw [if_pos]
    simp [e]
  · unfold isMasked
    rw [if_pos]
    rw [Bool.or_assoc, e', Bool.or_true]

/-- The mask is shared with the caller of `setMask`: a pixel written later changes what is masked. -/
theorem shared_refuted : ∃ c, setMask (newCam 3 2) ⟨0, 2, 3, true⟩ = .ok c ∧
    isMasked demoHeap c (.num 0) (.num 0) = .ok false ∧ isMasked (poke demoHeap 0 0 0 0) c (.num 0) (.num 0) = .ok true := by
  have t0 : trunc 0 = 0 := by simp [trunc]
  refine ⟨_, rfl, ?_, ?_⟩
  · simp [isMasked, negative, atLeast, newCam, castInt, t0, pixel, demoHeap]
    norm_num
  · simp [isMasked, negative, atLeast, newCam, castInt, t0, pixel, demoHeap, poke, List.modify]

/-- The answer depends on the mask's pixels only. -/
theorem isMasked_congr {h h' : Heap} {c c' : Cam} (hw : c.width = c'.width) (hh : c.height = c'.height)
    (hm : c.mask = none ∧ c'.mask = none ∨ ∃ m m', c.mask = some m ∧ c'.mask = some m' ∧ m.rows = m'.rows ∧ m.cols = m'.cols ∧
      h[m.buf]? = h'[m'.buf]?) (u v : Coord) : isMasked h c u v = isMasked h' c' u v := by
  unfold isMasked
  rw [hw, hh]
  split
  · rfl
  · rcases hm with ⟨e1, e2⟩ | ⟨m, m', e1, e2, e3, e4, e5⟩
    · rw [e1, e2]
    · rw [e1, e2]
      simp only [pixel, e3, e4, e5]

/-- C89: a clone answers as the original. -/
theorem clone_spec {h : Heap} {c : Cam} (hf : Fits h c) (u v : Coord) :
    isMasked (clone h c).1 (clone h c).2 u v = isMasked h c u v ∧
      isMasked (clone h c).1 c u v = isMasked h c u v := by
  cases hm : c.mask with
  | none => simp [clone, hm]
  | some m =>
    obtain ⟨-, -, b, hb, -⟩ := hf m hm
    have hlt : m.buf < h.length := by
      by_contra hge
      rw [List.getElem?_eq_none (by omega)] at hb
      cases hb
    simp only [clone, hm, hb, Option.getD_some]
    constructor
    · exact isMasked_congr (by rfl) (by rfl) (Or.inr ⟨{ m with buf := h.length }, m, by rfl, hm, by rfl, by rfl, by simp [hb]⟩) u v
    · exact isMasked_congr rfl rfl (Or.inr ⟨_, _, hm, hm, rfl, rfl, by rw [List.getElem?_append_left hlt]⟩) u v

/-- C89: a clone has a mask of its own: whatever is written to buffers that existed before, it answers as the original
did. -/
theorem clone_independent {h : Heap} {c : Cam} (hf : Fits h c) {b : Nat} (hb : b < h.length) (y x p : Nat) (u v : Coord) :
    isMasked (poke (clone h c).1 b y x p) (clone h c).2 u v = isMasked h c u v := by
  rw [← (clone_spec hf u v).1]
  cases hm : c.mask with
  | none =>
    simp only [clone, hm]
    exact isMasked_congr rfl rfl (Or.inl ⟨hm, hm⟩) u v
  | some m =>
    simp only [clone, hm]
    refine isMasked_congr rfl rfl (Or.inr ⟨{ m with buf := h.length }, { m with buf := h.length }, rfl, rfl, rfl, rfl, ?_⟩) u v
    unfold poke
    rw [List.getElem?_modify]
    simp [show b ≠ h.length by omega]

example : isMasked (poke (clone demoHeap demoCam).1 0 0 0 0) (clone demoHeap demoCam).2 (.num 0) (.num 0) =
    isMasked demoHeap demoCam (.num 0) (.num 0) := clone_independent demo_fits (by decide) 0 0 0 _ _

end Verif.CameraMask
