import Mathlib.Analysis.SpecialFunctions.Complex.Arg
import Mathlib.Data.List.GetD
import Verif.Lsd.LlAngle
import Verif.Lsd.GrowProps

/-!
# Properties of the gradients (C103) and of the list of pixels (C104)
-/

open scoped Classical

namespace Verif.Lsd

/-! ### Specification of gradients -/

/-- The pixel has a right and a lower neighbour. -/
def Gray.Inner (i : Gray) (x y : Nat) : Prop := x + 1 < i.w ∧ y + 1 < i.h

/-- The mean slope from left to right over the two rows at the pixel. -/
noncomputable def Gray.slopeX (i : Gray) (x y : Nat) : ℝ :=
  ((i.px (x + 1) y - i.px x y) + (i.px (x + 1) (y + 1) - i.px x (y + 1))) / 2

/-- The mean slope downwards over the two columns at the pixel. -/
noncomputable def Gray.slopeY (i : Gray) (x y : Nat) : ℝ :=
  ((i.px x (y + 1) - i.px x y) + (i.px (x + 1) (y + 1) - i.px (x + 1) y)) / 2

/-! ### C103 -/

/-- C103: the norm is that of the vector of slopes. -/
theorem norm_eq (i : Gray) (x y : Nat) : i.norm x y = √(i.slopeX x y ^ 2 + i.slopeY x y ^ 2) := by
  unfold Gray.norm Gray.gx Gray.gy Gray.slopeX Gray.slopeY
  congr 1
  simp only
  ring

theorem gx_eq (i : Gray) (x y : Nat) : i.gx x y = 2 * i.slopeX x y := by
  unfold Gray.gx Gray.slopeX
  simp only
  ring

theorem gy_eq (i : Gray) (x y : Nat) : i.gy x y = 2 * i.slopeY x y := by
  unfold Gray.gy Gray.slopeY
  simp only
  ring

/-- C103: exactly the pixels that are not in the last row or column, and whose norm is above the
threshold, have a direction. -/
theorem ll_defined (i : Gray) (threshold : ℝ) (atan2 : ℝ → ℝ → ℝ) (rest : Nat → Nat → ℝ) (x y : Nat) :
    (llImg i threshold atan2 rest).ang x y ≠ none ↔
      i.Inner x y ∧ threshold < √(i.slopeX x y ^ 2 + i.slopeY x y ^ 2) := by
  rw [← norm_eq]
  simp only [llImg, Gray.Inner]
  split_ifs with h1 h2
  · simp [h1, h2]
  · simp only [ne_eq, reduceCtorEq, not_false_eq_true, true_iff]
    exact ⟨h1, not_le.1 h2⟩
  · simp only [ne_eq, not_true_eq_false, false_iff]
    exact fun h => h1 h.1

/-- C103: the norm that is stored is that of the slopes, for every pixel that has a direction. -/
theorem ll_mod {i : Gray} {threshold : ℝ} {atan2 : ℝ → ℝ → ℝ} {rest : Nat → Nat → ℝ} {x y : Nat}
    (h : (llImg i threshold atan2 rest).ang x y ≠ none) :
    (llImg i threshold atan2 rest).mod x y = √(i.slopeX x y ^ 2 + i.slopeY x y ^ 2) ∧
      threshold < (llImg i threshold atan2 rest).mod x y := by
  obtain ⟨h1, h2⟩ := (ll_defined i threshold atan2 rest x y).1 h
  have : (llImg i threshold atan2 rest).mod x y = √(i.slopeX x y ^ 2 + i.slopeY x y ^ 2) := by
    rw [← norm_eq]
    simp only [llImg]
    exact if_pos h1
  exact ⟨this, by rw [this]; exact h2⟩

theorem exactAngle_range (y x : ℝ) : 0 ≤ exactAngle y x ∧ exactAngle y x < 2 * Real.pi := by
  unfold exactAngle
  have h1 := Complex.neg_pi_lt_arg (⟨x, y⟩ : ℂ)
  have h2 := Complex.arg_le_pi (⟨x, y⟩ : ℂ)
  have := Real.pi_pos
  split_ifs with h
  · exact ⟨h, by linarith⟩
  · push Not at h
    exact ⟨by linarith, by linarith⟩

theorem exactAngle_vec (y x : ℝ) :
    √(x ^ 2 + y ^ 2) * Real.cos (exactAngle y x) = x ∧
      √(x ^ 2 + y ^ 2) * Real.sin (exactAngle y x) = y := by
  have hn : ‖(⟨x, y⟩ : ℂ)‖ = √(x ^ 2 + y ^ 2) := by
    rw [Complex.norm_def, Complex.normSq_mk]
    congr 1
    ring
  have hc := Complex.norm_mul_cos_arg (⟨x, y⟩ : ℂ)
  have hs := Complex.norm_mul_sin_arg (⟨x, y⟩ : ℂ)
  rw [hn] at hc hs
  unfold exactAngle
  split_ifs
  · exact ⟨hc, hs⟩
  · rw [Real.cos_add_two_pi, Real.sin_add_two_pi]
    exact ⟨hc, hs⟩

/-- C103: with an exact arc tangent the direction of a pixel is that of its level line: a quarter turn
from the gradient. -/
theorem ll_direction {i : Gray} {threshold : ℝ} {rest : Nat → Nat → ℝ} {x y : Nat} {a : ℝ}
    (h : (llImg i threshold exactAngle rest).ang x y = some a) :
    0 ≤ a ∧ a < 2 * Real.pi ∧
      √(i.slopeX x y ^ 2 + i.slopeY x y ^ 2) * Real.cos a = -i.slopeY x y ∧
      √(i.slopeX x y ^ 2 + i.slopeY x y ^ 2) * Real.sin a = i.slopeX x y := by
  have ha : a = exactAngle (i.gx x y) (-i.gy x y) := by
    simp only [llImg] at h
    split_ifs at h
    exact (Option.some.inj h).symm
  obtain ⟨r1, r2⟩ := exactAngle_range (i.gx x y) (-i.gy x y)
  obtain ⟨v1, v2⟩ := exactAngle_vec (i.gx x y) (-i.gy x y)
  rw [← ha] at r1 r2 v1 v2
  have hs : √((-i.gy x y) ^ 2 + i.gx x y ^ 2) = 2 * √(i.slopeX x y ^ 2 + i.slopeY x y ^ 2) := by
    rw [gx_eq, gy_eq]
    have : (-(2 * i.slopeY x y)) ^ 2 + (2 * i.slopeX x y) ^ 2 =
        2 ^ 2 * (i.slopeX x y ^ 2 + i.slopeY x y ^ 2) := by ring
    rw [this, Real.sqrt_mul (by norm_num), Real.sqrt_sq (by norm_num)]
  rw [hs] at v1 v2
  rw [gy_eq] at v1
  rw [gx_eq] at v2
  exact ⟨r1, r2, by linarith, by linarith⟩

/-- C103: in an image with constant slopes these are found everywhere. -/
theorem ramp_slopes {i : Gray} {a b c : ℝ} (h : ∀ x y, i.px x y = a * x + b * y + c) (x y : Nat) :
    i.slopeX x y = a ∧ i.slopeY x y = b := by
  unfold Gray.slopeX Gray.slopeY
  simp only [h]
  push_cast
  constructor <;> ring

/-- An image that gets brighter to the right, by 10 and by 30. -/
noncomputable def steps : Gray where
  w := 3
  h := 2
  px := fun x _ => 10 * (x : ℝ) ^ 2

theorem steps_norm (x y : Nat) : steps.norm x y = 10 * (2 * x + 1) := by
  rw [norm_eq]
  have h1 : steps.slopeX x y = 10 * (2 * x + 1) := by
    simp only [Gray.slopeX, steps]
    push_cast
    ring
  have h2 : steps.slopeY x y = 0 := by
    simp only [Gray.slopeY, steps]
    ring
  rw [h1, h2, show (10 * (2 * (x : ℝ) + 1)) ^ 2 + 0 ^ 2 = (10 * (2 * (x : ℝ) + 1)) ^ 2 by ring,
    Real.sqrt_sq (by positivity)]

/-- The first pixel of `steps` has a direction, and that is downwards: a quarter turn from the
gradient. -/
example : ∃ a, (llImg steps 2 exactAngle fun _ _ => 0).ang 0 0 = some a ∧ Real.cos a = 0 ∧
    Real.sin a = 1 := by
  have hd : (llImg steps 2 exactAngle fun _ _ => 0).ang 0 0 ≠ none := by
    rw [ll_defined, ← norm_eq, steps_norm]
    exact ⟨⟨by simp [steps], by simp [steps]⟩, by norm_num⟩
  obtain ⟨a, ha⟩ := Option.ne_none_iff_exists'.1 hd
  obtain ⟨-, -, h1, h2⟩ := ll_direction ha
  rw [← norm_eq, steps_norm] at h1 h2
  have e1 : steps.slopeX 0 0 = 10 := by norm_num [Gray.slopeX, steps]
  have e2 : steps.slopeY 0 0 = 0 := by norm_num [Gray.slopeY, steps]
  rw [e2] at h1
  rw [e1] at h2
  refine ⟨a, ha, ?_, ?_⟩
  · norm_num at h1
    exact h1
  · push_cast at h2
    linarith

/-! ### C104: the pixels that are visited -/

theorem mem_raster {w h : Nat} {q : Px} : q ∈ raster w h ↔ q.1 + 1 < w ∧ q.2 + 1 < h := by
  unfold raster
  simp only [List.mem_flatMap, List.mem_range, List.mem_map]
  constructor
  · rintro ⟨y, hy, x, hx, rfl⟩
    exact ⟨by simp only; omega, by simp only; omega⟩
  · rintro ⟨h1, h2⟩
    exact ⟨q.2, by omega, q.1, by omega, rfl⟩

theorem raster_length (w h : Nat) : (raster w h).length = (h - 1) * (w - 1) := by
  unfold raster
  rw [List.length_flatMap]
  simp

theorem raster_nodup (w h : Nat) : (raster w h).Nodup := by
  unfold raster
  rw [List.nodup_flatMap]
  refine ⟨fun y _ => List.nodup_range.map (fun a b h => by simpa using h), ?_⟩
  refine (List.nodup_range (n := h - 1)).imp ?_
  intro a b hab q hq hq'
  rw [List.mem_map] at hq hq'
  obtain ⟨x, -, rfl⟩ := hq
  obtain ⟨x', -, he⟩ := hq'
  exact hab (Prod.mk.inj he).2.symm

theorem norm_nonneg' (i : Gray) (x y : Nat) : 0 ≤ i.norm x y := Real.sqrt_nonneg _

theorem maxGrad_spec (i : Gray) (threshold : ℝ) :
    (∀ q ∈ raster i.w i.h, threshold < i.norm q.1 q.2 → i.norm q.1 q.2 ≤ maxGrad i threshold) ∧
      (maxGrad i threshold = -1 ∨ threshold < maxGrad i threshold) := by
  unfold maxGrad
  have key : ∀ (l : List Px) (m : ℝ), (m = -1 ∨ threshold < m) →
      let r := l.foldl (fun m q => if i.norm q.1 q.2 ≤ threshold then m
        else if m < i.norm q.1 q.2 then i.norm q.1 q.2 else m) m
      (∀ q ∈ l, threshold < i.norm q.1 q.2 → i.norm q.1 q.2 ≤ r) ∧ m ≤ r ∧
        (r = -1 ∨ threshold < r) := by
    intro l
    induction l with
    | nil => intro m hm; exact ⟨by simp, le_refl _, hm⟩
    | cons q l ih =>
      intro m hm
      simp only [List.foldl_cons]
      split_ifs with h1 h2
      · obtain ⟨k1, k2, k3⟩ := ih m hm
        refine ⟨?_, k2, k3⟩
        intro r hr hlt
        rcases List.mem_cons.1 hr with rfl | hr
        · exact absurd h1 (not_le.2 hlt)
        · exact k1 r hr hlt
      · obtain ⟨k1, k2, k3⟩ := ih (i.norm q.1 q.2) (Or.inr (not_le.1 h1))
        refine ⟨?_, le_trans h2.le k2, k3⟩
        intro r hr hlt
        rcases List.mem_cons.1 hr with rfl | hr
        · exact k2
        · exact k1 r hr hlt
      · obtain ⟨k1, k2, k3⟩ := ih m hm
        refine ⟨?_, k2, k3⟩
        intro r hr hlt
        rcases List.mem_cons.1 hr with rfl | hr
        · exact le_trans (not_lt.1 h2) k2
        · exact k1 r hr hlt
  obtain ⟨k1, -, k3⟩ := key (raster i.w i.h) (-1) (Or.inl rfl)
  exact ⟨k1, k3⟩

/-- C104: the bin of every pixel exists. -/
theorem bin_lt {i : Gray} {threshold : ℝ} {nBins : Nat} (hn : 0 < nBins) {q : Px}
    (hq : q ∈ raster i.w i.h) : binOf i threshold nBins q < nBins := by
  obtain ⟨k1, k2⟩ := maxGrad_spec i threshold
  unfold binOf
  simp only
  have h0 := norm_nonneg' i q.1 q.2
  split_ifs with hm
  · have hle : i.norm q.1 q.2 ≤ maxGrad i threshold := by
      rcases lt_or_ge threshold (i.norm q.1 q.2) with h | h
      · exact k1 q hq h
      · rcases k2 with h' | h'
        · linarith
        · linarith
    have : i.norm q.1 q.2 * (((nBins - 1 : Nat) : ℝ) / maxGrad i threshold) ≤ ((nBins - 1 : Nat) : ℝ) := by
      rw [mul_div_assoc', div_le_iff₀ hm, mul_comm]
      exact mul_le_mul_of_nonneg_left hle (by positivity)
    have := Nat.floor_le_of_le this
    omega
  · rw [mul_zero, Nat.floor_zero]
    exact hn

/-! ### The chain -/

/-- The order wanted: higher bins first, and within a bin as they are visited. -/
def Before (key : Nat → Nat) (c d : Nat) : Prop := key d < key c ∨ (key d = key c ∧ c < d)

/-- `d` comes directly after `c` among the first `n`. -/
def Next (key : Nat → Nat) (n c d : Nat) : Prop :=
  c < n ∧ d < n ∧ Before key c d ∧ ∀ e < n, Before key c e → e = d ∨ Before key d e

structure BinInv (L : List Px) (key : Nat → Nat) (n : Nat) (b : Bins) : Prop where
  count : b.count = n
  p : ∀ c, b.p c = if c < n then L.getD c (0, 0) else (0, 0)
  next : ∀ c d, b.next c = some d ↔
    c < d ∧ d < n ∧ key d = key c ∧ ∀ e, c < e → e < d → key e ≠ key c
  rs : ∀ j s, b.rs j = some s ↔ s < n ∧ key s = j ∧ ∀ d, d < s → key d ≠ j
  re : ∀ j s, b.re j = some s ↔ s < n ∧ key s = j ∧ ∀ d, s < d → d < n → key d ≠ j

theorem exists_last (key : Nat → Nat) (j : Nat) (n : Nat) : (∃ c < n, key c = j) →
    ∃ s < n, key s = j ∧ ∀ d, s < d → d < n → key d ≠ j := by
  induction n with
  | zero => rintro ⟨c, hc, -⟩; omega
  | succ n ih =>
    rintro ⟨c, hc, hk⟩
    by_cases hn : key n = j
    · exact ⟨n, by omega, hn, fun d h1 h2 => absurd h2 (by omega)⟩
    · have : c ≠ n := by rintro rfl; exact hn hk
      obtain ⟨s, h1, h2, h3⟩ := ih ⟨c, by omega, hk⟩
      refine ⟨s, by omega, h2, fun d h4 h5 => ?_⟩
      by_cases hd : d = n
      · rw [hd]; exact hn
      · exact h3 d h4 (by omega)

theorem exists_first (key : Nat → Nat) (j n : Nat) (h : ∃ c < n, key c = j) :
    ∃ s < n, key s = j ∧ ∀ d, d < s → key d ≠ j := by
  obtain ⟨c, hc, hk⟩ := h
  have hex : ∃ s, key s = j := ⟨c, hk⟩
  refine ⟨Nat.find hex, lt_of_le_of_lt (Nat.find_min' hex hk) hc, Nat.find_spec hex, ?_⟩
  intro d hd
  exact Nat.find_min hex hd

theorem put_inv {L : List Px} {key : Nat → Nat} {n : Nat} {b : Bins} (h : BinInv L key n b)
    {nBins cells : Nat} (hk : key n < nBins) (hc : n < cells) (hn : n < L.length) :
    ∃ b', b.put nBins cells (key n) (L.getD n (0, 0)) = .ok b' ∧ BinInv L key (n + 1) b' := by
  unfold Bins.put
  rw [h.count, if_neg (by omega)]
  cases hre : b.re (key n) with
  | none =>
    simp only
    have hno : ∀ c < n, key c ≠ key n := by
      intro c hc' hk'
      obtain ⟨s, hs⟩ := exists_last key (key n) n ⟨c, hc', hk'⟩
      have := (h.re (key n) s).2 ⟨hs.1, hs.2.1, hs.2.2⟩
      rw [hre] at this
      cases this
    refine ⟨_, rfl, ⟨rfl, ?_, ?_, ?_, ?_⟩⟩
    · intro c
      simp only [h.p c]
      by_cases h1 : c = n
      · rw [if_pos h1, if_pos (by omega), h1]
      · by_cases h2 : c < n
        · rw [if_neg h1, if_pos h2, if_pos (by omega)]
        · rw [if_neg h1, if_neg h2, if_neg (by omega)]
    · intro c d
      simp only
      by_cases h1 : c = n
      · rw [if_pos h1]
        constructor
        · intro h'; cases h'
        · rintro ⟨h2, h3, -⟩; omega
      · rw [if_neg h1, h.next]
        constructor
        · rintro ⟨h2, h3, h4, h5⟩
          exact ⟨h2, by omega, h4, h5⟩
        · rintro ⟨h2, h3, h4, h5⟩
          refine ⟨h2, ?_, h4, h5⟩
          by_contra hd
          obtain rfl : d = n := by omega
          exact hno c (by omega) h4.symm
    · intro j s
      simp only
      by_cases h1 : j = key n
      · rw [if_pos h1, h1]
        constructor
        · intro h'
          cases h'
          exact ⟨by omega, rfl, fun d hd => hno d hd⟩
        · rintro ⟨h2, h3, h4⟩
          by_contra hs
          have : s ≠ n := fun hs' => hs (by rw [hs'])
          exact hno s (by omega) h3
      · rw [if_neg h1, h.rs]
        constructor
        · rintro ⟨h2, h3, h4⟩
          exact ⟨by omega, h3, h4⟩
        · rintro ⟨h2, h3, h4⟩
          refine ⟨?_, h3, h4⟩
          by_contra hd
          obtain rfl : s = n := by omega
          exact h1 h3.symm
    · intro j s
      simp only
      by_cases h1 : j = key n
      · rw [if_pos h1, h1]
        constructor
        · intro h'
          cases h'
          exact ⟨by omega, rfl, fun d hd hd' => absurd hd' (by omega)⟩
        · rintro ⟨h2, h3, h4⟩
          by_contra hs
          have : s ≠ n := fun hs' => hs (by rw [hs'])
          exact hno s (by omega) h3
      · rw [if_neg h1, h.re]
        constructor
        · rintro ⟨h2, h3, h4⟩
          refine ⟨by omega, h3, fun d h5 h6 => ?_⟩
          by_cases hd : d = n
          · rw [hd]; exact fun h => h1 h.symm
          · exact h4 d h5 (by omega)
        · rintro ⟨h2, h3, h4⟩
          refine ⟨?_, h3, fun d h5 h6 => h4 d h5 (by omega)⟩
          by_contra hd
          obtain rfl : s = n := by omega
          exact h1 h3.symm
  | some e =>
    simp only
    obtain ⟨e1, e2, e3⟩ := (h.re _ _).1 hre
    refine ⟨_, rfl, ⟨rfl, ?_, ?_, ?_, ?_⟩⟩
    · intro c
      simp only [h.p c]
      by_cases h1 : c = n
      · rw [if_pos h1, if_pos (by omega), h1]
      · by_cases h2 : c < n
        · rw [if_neg h1, if_pos h2, if_pos (by omega)]
        · rw [if_neg h1, if_neg h2, if_neg (by omega)]
    · intro c d
      simp only
      by_cases h1 : c = n
      · rw [if_pos h1]
        constructor
        · intro h'; cases h'
        · rintro ⟨h2, h3, -⟩; omega
      · rw [if_neg h1]
        by_cases h6 : c = e
        · rw [if_pos h6, h6]
          constructor
          · intro h'
            cases h'
            exact ⟨e1, by omega, e2.symm, fun d h7 h8 => by rw [e2]; exact e3 d h7 h8⟩
          · rintro ⟨h2, h3, h4, h5⟩
            by_contra hs
            have hdn : d ≠ n := fun hs' => hs (by rw [hs'])
            exact e3 d h2 (by omega) (by rw [h4, e2])
        · rw [if_neg h6, h.next]
          constructor
          · rintro ⟨h2, h3, h4, h5⟩
            exact ⟨h2, by omega, h4, h5⟩
          · rintro ⟨h2, h3, h4, h5⟩
            refine ⟨h2, ?_, h4, h5⟩
            by_contra hd
            obtain rfl : d = n := by omega
            rcases Nat.lt_or_ge c e with hce | hce
            · exact h5 e hce e1 (by rw [e2, h4])
            · exact e3 c (by omega) h2 h4.symm
    · intro j s
      simp only
      rw [h.rs]
      constructor
      · rintro ⟨h2, h3, h4⟩
        exact ⟨by omega, h3, h4⟩
      · rintro ⟨h2, h3, h4⟩
        refine ⟨?_, h3, h4⟩
        by_contra hd
        obtain rfl : s = n := by omega
        exact h4 e e1 (by rw [e2, h3])
    · intro j s
      simp only
      by_cases h1 : j = key n
      · rw [if_pos h1, h1]
        constructor
        · intro h'
          cases h'
          exact ⟨by omega, rfl, fun d hd hd' => absurd hd' (by omega)⟩
        · rintro ⟨h2, h3, h4⟩
          by_contra hs
          have : s ≠ n := fun hs' => hs (by rw [hs'])
          exact h4 n (by omega) (by omega) rfl
      · rw [if_neg h1, h.re]
        constructor
        · rintro ⟨h2, h3, h4⟩
          refine ⟨by omega, h3, fun d h5 h6 => ?_⟩
          by_cases hd : d = n
          · rw [hd]; exact fun h => h1 h.symm
          · exact h4 d h5 (by omega)
        · rintro ⟨h2, h3, h4⟩
          refine ⟨?_, h3, fun d h5 h6 => h4 d h5 (by omega)⟩
          by_contra hd
          obtain rfl : s = n := by omega
          exact h1 h3.symm

theorem fill_inv {L : List Px} {bin : Px → Nat} {nBins cells : Nat}
    (hb : ∀ q ∈ L, bin q < nBins) (hc : L.length ≤ cells) (k : Nat) : ∀ (n : Nat) (b : Bins),
    n + k = L.length → BinInv L (fun c => bin (L.getD c (0, 0))) n b →
    ∃ b', Bins.fill nBins cells bin (L.drop n) b = .ok b' ∧
      BinInv L (fun c => bin (L.getD c (0, 0))) L.length b' := by
  induction k with
  | zero =>
    intro n b hn h
    obtain rfl : n = L.length := by omega
    rw [List.drop_length]
    exact ⟨b, rfl, h⟩
  | succ k ih =>
    intro n b hn h
    have hlt : n < L.length := by omega
    rw [List.drop_eq_getElem_cons hlt, Bins.fill]
    have hg : L.getD n (0, 0) = L[n] := by simp [List.getD, hlt]
    obtain ⟨b', h1, h2⟩ := put_inv h (nBins := nBins) (cells := cells)
      (by simp only [hg]; exact hb _ (List.getElem_mem hlt)) (by omega) hlt
    simp only [hg] at h1
    rw [h1, Outcome.bind_ok]
    exact ih (n + 1) b' (by omega) h2

theorem start_inv (L : List Px) (key : Nat → Nat) : BinInv L key 0 Bins.start where
  count := rfl
  p := fun c => by simp [Bins.start]
  next := fun c d => by simp [Bins.start]
  rs := fun j s => by simp [Bins.start]
  re := fun j s => by simp [Bins.start]

theorem Before.irrefl {key : Nat → Nat} {c : Nat} : ¬ Before key c c := by
  rintro (h | h) <;> omega

theorem Before.trans {key : Nat → Nat} {c d e : Nat} (h1 : Before key c d) (h2 : Before key d e) :
    Before key c e := by
  unfold Before at *
  omega

theorem Before.asymm {key : Nat → Nat} {c d : Nat} (h1 : Before key c d) : ¬ Before key d c :=
  fun h2 => Before.irrefl (h1.trans h2)

theorem Next.unique {key : Nat → Nat} {n c d d' : Nat} (h : Next key n c d) (h' : Next key n c d') :
    d = d' := by
  rcases h.2.2.2 d' h'.2.1 h'.2.2.1 with h1 | h1
  · exact h1.symm
  · rcases h'.2.2.2 d h.2.1 h.2.2.1 with h2 | h2
    · exact h2
    · exact absurd h1 h2.asymm

theorem link_inv {key : Nat → Nat} {n : Nat} (k : Nat) : ∀ (b : Bins) (e : Nat),
    (∀ j s, b.rs j = some s ↔ s < n ∧ key s = j ∧ ∀ d, d < s → key d ≠ j) →
    (∀ j s, b.re j = some s ↔ s < n ∧ key s = j ∧ ∀ d, s < d → d < n → key d ≠ j) →
    (∀ c d, b.next c = some d ↔ Next key n c d ∧ (k ≤ key d ∨ key d = key c)) →
    e < n → k ≤ key e → (∀ d < n, k ≤ key d → d = e ∨ Before key d e) →
    (∀ c d, (b.link k (some e)).next c = some d ↔ Next key n c d) ∧ (b.link k (some e)).p = b.p := by
  induction k with
  | zero =>
    intro b e hrs hre hnext he hke hlast
    rw [Bins.link]
    refine ⟨fun c d => ?_, rfl⟩
    rw [hnext]
    simp
  | succ k ih =>
    intro b e hrs hre hnext he hke hlast
    rw [Bins.link]
    cases hs : b.rs k with
    | none =>
      have hno : ∀ c < n, key c ≠ k := by
        intro c hc hk
        obtain ⟨s, h1, h2, h3⟩ := exists_first key k n ⟨c, hc, hk⟩
        have := (hrs k s).2 ⟨h1, h2, h3⟩
        rw [hs] at this
        cases this
      simp only
      refine ih b e hrs hre ?_ he (by omega) ?_
      · intro c d
        rw [hnext]
        constructor
        · rintro ⟨h1, h2⟩
          exact ⟨h1, by omega⟩
        · rintro ⟨h1, h2⟩
          have := hno d h1.2.1
          exact ⟨h1, by omega⟩
      · intro d hd hk
        have := hno d hd
        exact hlast d hd (by omega)
    | some s =>
      simp only
      obtain ⟨s1, s2, s3⟩ := (hrs k s).1 hs
      obtain ⟨e', h1, h2, h3⟩ := exists_last key k n ⟨s, s1, s2⟩
      have hre' := (hre k e').2 ⟨h1, h2, h3⟩
      rw [hre']
      have hes : Next key n e s := by
        refine ⟨he, s1, Or.inl (by omega), ?_⟩
        intro d hd hb
        have hkd : key d ≤ k := by
          by_contra hc
          rcases hlast d hd (by omega) with h4 | h4
          · rw [h4] at hb; exact Before.irrefl hb
          · exact absurd hb h4.asymm
        rcases Nat.lt_or_ge (key d) k with h4 | h4
        · exact Or.inr (Or.inl (by omega))
        · have h5 : key d = k := by omega
          by_cases h6 : d = s
          · exact Or.inl h6
          · right
            right
            refine ⟨by omega, ?_⟩
            by_contra hc
            exact s3 d (by omega) h5
      refine ih _ e' ?_ ?_ ?_ h1 (by omega) ?_
      · exact hrs
      · exact hre
      · intro c d
        simp only [Option.some.injEq]
        by_cases hce : c = e
        · rw [if_pos hce, hce]
          constructor
          · intro h'
            cases h'
            exact ⟨hes, by omega⟩
          · rintro ⟨h4, -⟩
            rw [hes.unique h4]
        · rw [if_neg hce, hnext]
          constructor
          · rintro ⟨h4, h5⟩
            exact ⟨h4, by omega⟩
          · rintro ⟨h4, h5⟩
            refine ⟨h4, ?_⟩
            by_contra hc
            push Not at hc
            have hdk : key d = k := by omega
            have hck : k + 1 ≤ key c := by
              rcases h4.2.2.1 with h6 | h6
              · omega
              · omega
            rcases hlast c h4.1 hck with h6 | h6
            · exact hce h6
            · rcases h4.2.2.2 e he h6 with h7 | h7
              · rw [h7] at hke; omega
              · rcases h7 with h7 | h7 <;> omega
      · intro d hd hk
        rcases Nat.lt_or_ge (key d) (k + 1) with h4 | h4
        · by_cases h5 : d = e'
          · exact Or.inl h5
          · right
            right
            refine ⟨by omega, ?_⟩
            by_contra hc
            exact h3 d (by omega) hd (by omega)
        · exact Or.inr (Or.inl (by omega))

theorem top_spec (b : Bins) (k : Nat) :
    b.top k ≤ k ∧ (∀ j, b.top k < j → j ≤ k → b.rs j = none) ∧
      (b.top k = 0 ∨ b.rs (b.top k) ≠ none) := by
  induction k with
  | zero => simp [Bins.top]; omega
  | succ k ih =>
    rw [Bins.top]
    split_ifs with h
    · obtain ⟨h1, h2, h3⟩ := ih
      refine ⟨by omega, ?_, h3⟩
      intro j h4 h5
      by_cases h6 : j = k + 1
      · rw [h6]; exact Option.isNone_iff_eq_none.1 h
      · exact h2 j h4 (by omega)
    · refine ⟨le_refl _, fun j h1 h2 => absurd h2 (by omega), Or.inr ?_⟩
      intro h'
      rw [h'] at h
      simp at h

theorem sort_spec {L : List Px} {key : Nat → Nat} {n nBins : Nat} {b : Bins} (h : BinInv L key n b)
    (hk : ∀ c < n, key c < nBins) :
    (∀ c d, (b.sort nBins).1.next c = some d ↔ Next key n c d) ∧ (b.sort nBins).1.p = b.p ∧
      ∀ s, (b.sort nBins).2 = some s ↔ s < n ∧ ∀ d < n, d = s ∨ Before key s d := by
  obtain ⟨t1, t2, t3⟩ := top_spec b (nBins - 1)
  have hkey : ∀ c < n, key c ≤ b.top (nBins - 1) := by
    intro c hc
    by_contra hlt
    obtain ⟨s, h1, h2, h3⟩ := exists_first key (key c) n ⟨c, hc, rfl⟩
    have := (h.rs (key c) s).2 ⟨h1, h2, h3⟩
    have hc' := hk c hc
    rw [t2 (key c) (by omega) (by omega)] at this
    cases this
  unfold Bins.sort
  simp only
  cases hs : b.rs (b.top (nBins - 1)) with
  | none =>
    have h0 : b.top (nBins - 1) = 0 := by
      rcases t3 with h' | h'
      · exact h'
      · exact absurd hs h'
    have hn : n = 0 := by
      by_contra hc
      have hk0 := hkey 0 (by omega)
      obtain ⟨s, h1, h2, h3⟩ := exists_first key 0 n ⟨0, by omega, by omega⟩
      have := (h.rs 0 s).2 ⟨h1, h2, h3⟩
      rw [h0] at hs
      rw [hs] at this
      cases this
    subst hn
    simp only
    refine ⟨fun c d => ?_, trivial, fun s => ?_⟩
    · rw [h.next]
      constructor
      · rintro ⟨h1, h2, -⟩; omega
      · rintro ⟨h1, -⟩; omega
    · constructor
      · intro h'; cases h'
      · rintro ⟨h1, -⟩; omega
  | some s =>
    obtain ⟨s1, s2, s3⟩ := (h.rs _ _).1 hs
    obtain ⟨e, e1, e2, e3⟩ := exists_last key (b.top (nBins - 1)) n ⟨s, s1, s2⟩
    have hre := (h.re _ e).2 ⟨e1, e2, e3⟩
    simp only
    rw [hre]
    obtain ⟨c1, c2⟩ := link_inv (key := key) (n := n) (b.top (nBins - 1)) b e h.rs h.re (by
      intro c d
      rw [h.next]
      constructor
      · rintro ⟨h1, h2, h3, h4⟩
        refine ⟨⟨by omega, h2, Or.inr ⟨h3, h1⟩, ?_⟩, Or.inr h3⟩
        intro f hf hb
        rcases hb with hb | hb
        · exact Or.inr (Or.inl (by omega))
        · by_cases hfd : f = d
          · exact Or.inl hfd
          · right
            right
            refine ⟨by omega, ?_⟩
            by_contra hc
            exact h4 f hb.2 (by omega) hb.1
      · rintro ⟨⟨h1, h2, h3, h4⟩, h5⟩
        have hkc := hkey c h1
        have hkd : key d = key c := by
          rcases h3 with h3 | h3
          · omega
          · exact h3.1
        have hcd : c < d := by
          rcases h3 with h3 | h3
          · omega
          · exact h3.2
        refine ⟨hcd, h2, hkd, ?_⟩
        intro f hf1 hf2 hf3
        rcases h4 f (by omega) (Or.inr ⟨hf3, hf1⟩) with h6 | h6
        · omega
        · rcases h6 with h6 | h6 <;> omega) e1 (by omega) (by
      intro d hd hkd
      have := hkey d hd
      by_cases hde : d = e
      · exact Or.inl hde
      · right
        right
        refine ⟨by omega, ?_⟩
        by_contra hc
        exact e3 d (by omega) hd (by omega))
    refine ⟨c1, c2, ?_⟩
    intro s'
    have hfirst : ∀ d < n, d = s ∨ Before key s d := by
      intro d hd
      have := hkey d hd
      by_cases hds : d = s
      · exact Or.inl hds
      · right
        rcases Nat.lt_or_ge (key d) (key s) with h1 | h1
        · exact Or.inl h1
        · refine Or.inr ⟨by omega, ?_⟩
          by_contra hc
          exact s3 d (by omega) (by omega)
    constructor
    · intro h'
      cases h'
      exact ⟨s1, hfirst⟩
    · rintro ⟨h1, h2⟩
      rcases h2 s s1 with h3 | h3
      · rw [h3]
      · rcases hfirst s' h1 with h4 | h4
        · rw [h4]
        · exact absurd h3 h4.asymm

/-- C104: making the list never leaves its vectors. The cells hold the pixels as they were visited, row
by row, and then the pixel (0, 0) for the rest. The chain that starts at `start` is in the right
order: from each cell `next` goes to the one that comes directly after it when higher bins are first. -/
theorem llList_spec (i : Gray) (threshold : ℝ) {nBins : Nat} (hn : 0 < nBins) :
    ∃ b start, llList i threshold nBins = .ok (b, start) ∧
      (∀ c, b.p c = (raster i.w i.h).getD c (0, 0)) ∧
      (∀ c d, b.next c = some d ↔
        Next (fun c => binOf i threshold nBins ((raster i.w i.h).getD c (0, 0)))
          (raster i.w i.h).length c d) ∧
      ∀ s, start = some s ↔ s < (raster i.w i.h).length ∧ ∀ d < (raster i.w i.h).length, d = s ∨
        Before (fun c => binOf i threshold nBins ((raster i.w i.h).getD c (0, 0))) s d := by
  have hlen : (raster i.w i.h).length ≤ i.w * i.h := by
    rw [raster_length, mul_comm]
    exact Nat.mul_le_mul (by omega) (by omega)
  obtain ⟨b, h1, h2⟩ := fill_inv (L := raster i.w i.h) (bin := binOf i threshold nBins)
    (nBins := nBins) (cells := i.w * i.h) (fun q hq => bin_lt hn hq) hlen
    (raster i.w i.h).length 0 Bins.start (by omega) (start_inv _ _)
  rw [List.drop_zero] at h1
  obtain ⟨s1, s2, s3⟩ := sort_spec h2 (nBins := nBins) (by
    intro c hc
    apply bin_lt hn
    rw [List.getD_eq_getElem _ _ hc]
    exact List.getElem_mem hc)
  refine ⟨(b.sort nBins).1, (b.sort nBins).2, ?_, ?_, s1, s3⟩
  · rw [llList, h1, Outcome.bind_ok]
  · intro c
    rw [s2, h2.p]
    split_ifs with hc
    · rfl
    · rw [List.getD_eq_default _ _ (by omega)]

/-- C104: what `flsd` visits: every pixel that can have a direction exactly once, row by row, and then
`w + h - 1` times the pixel (0, 0). -/
theorem llList_points {i : Gray} {threshold : ℝ} {nBins : Nat} (hn : 0 < nBins) (hw : 0 < i.w)
    (hh : 0 < i.h) {b : Bins} {start : Option Nat} (h : llList i threshold nBins = .ok (b, start)) :
    b.points (i.w * i.h) = raster i.w i.h ++ List.replicate (i.w + i.h - 1) (0, 0) ∧
      (raster i.w i.h).Nodup ∧
      ∀ q : Px, q ∈ raster i.w i.h ↔ i.Inner q.1 q.2 := by
  obtain ⟨b', s', h1, h2, -⟩ := llList_spec i threshold hn
  rw [h] at h1
  cases h1
  refine ⟨?_, raster_nodup _ _, fun q => mem_raster⟩
  have hlen : (raster i.w i.h).length + (i.w + i.h - 1) = i.w * i.h := by
    rw [raster_length]
    obtain ⟨w, hw'⟩ : ∃ w, i.w = w + 1 := ⟨i.w - 1, by omega⟩
    obtain ⟨h, hh'⟩ : ∃ h, i.h = h + 1 := ⟨i.h - 1, by omega⟩
    rw [hw', hh']
    simp only [Nat.add_sub_cancel]
    have : h * w + (w + 1 + (h + 1) - 1) = (w + 1) * (h + 1) := by
      rw [show w + 1 + (h + 1) - 1 = w + h + 1 by omega]; ring
    exact this
  apply List.ext_getElem
  · simp only [Bins.points, List.length_map, List.length_range, List.length_append,
      List.length_replicate]
    omega
  · intro c hc hc'
    simp only [Bins.points, List.getElem_map, List.getElem_range, h2]
    rcases Nat.lt_or_ge c (raster i.w i.h).length with h3 | h3
    · rw [List.getD_eq_getElem _ _ h3, List.getElem_append_left h3]
    · rw [List.getD_eq_default _ _ h3, List.getElem_append_right h3, List.getElem_replicate]

/-- C104, refuted: "Vector of coordinate points that are pseudo ordered by magnitude. Pixels would be
ordered by norm value, up to a precision given by max_grad/n_bins." The vector is in the order of the
rows: in `steps` the first pixel has the norm 10 and the second one 30. -/
theorem list_order_refuted : ¬ ∀ (i : Gray) (threshold : ℝ) (nBins : Nat) (b : Bins)
    (start : Option Nat), 0 < nBins → llList i threshold nBins = .ok (b, start) →
    ∀ c d, c < d → d < (raster i.w i.h).length →
      i.norm (b.p d).1 (b.p d).2 ≤
        i.norm (b.p c).1 (b.p c).2 + maxGrad i threshold / nBins := by
  intro h
  obtain ⟨b, start, h1, h2, -⟩ := llList_spec steps 2 (nBins := 1024) (by norm_num)
  have := h steps 2 1024 b start (by norm_num) h1 0 1 (by norm_num) (by
    rw [raster_length]
    simp [steps])
  rw [h2, h2] at this
  have hr : raster steps.w steps.h = [(0, 0), (1, 0)] := by
    simp only [steps]
    decide
  have hm : maxGrad steps 2 = 30 := by
    rw [maxGrad, hr]
    simp only [List.foldl_cons, List.foldl_nil, steps_norm]
    norm_num
  rw [hr, hm] at this
  simp only [steps_norm] at this
  norm_num at this

end Verif.Lsd
