import Verif.OccupancyGrid.Rounding

/-!
# C140: the occupancy grid with `double` coordinates
-/

namespace Verif.Double

/-- Rounding to nearest keeps the order, whatever the rule for ties. -/
theorem IsNearest.mono {rnd : ℚ → ℚ} (h : IsNearest rnd) {x y : ℚ} (hxy : x ≤ y) : rnd x ≤ rnd y := by
  rcases eq_or_lt_of_le hxy with rfl | hlt
  · exact le_rfl
  by_contra hc
  rw [not_le] at hc
  have h1 := (h x).2 _ (h y).1
  have h2 := (h y).2 _ (h x).1
  have h3 := sq_le_sq.mpr h1
  have h4 := sq_le_sq.mpr h2
  nlinarith

/-- A positive double with all bits of the significand. -/
theorem IsDouble.normalized {y : ℚ} (h : IsDouble y) (hy : 0 < y) :
    ∃ m e : ℤ, 2 ^ 52 ≤ m ∧ m < 2 ^ 53 ∧ y = m * (2 : ℚ) ^ e := by
  obtain ⟨k, hk⟩ := exists_mem_Ico_zpow hy (by norm_num : (1 : ℚ) < 2)
  obtain ⟨hlo, hhi⟩ := Set.mem_Ico.mp hk
  obtain ⟨e, rfl⟩ : ∃ e, k = 52 + e := ⟨k - 52, by ring⟩
  have hu : (0 : ℚ) < (2 : ℚ) ^ e := zpow_pos (by norm_num) _
  obtain ⟨n, hn⟩ := multiple_of_large h (hlo.trans (le_abs_self _))
  have e52 : (2 : ℚ) ^ (52 + e) = 2 ^ 52 * (2 : ℚ) ^ e := by rw [zpow_add₀ (by norm_num)]; norm_num
  have e53 : (2 : ℚ) ^ (52 + e + 1) = 2 ^ 53 * (2 : ℚ) ^ e := by
    rw [show 52 + e + 1 = 53 + e by ring, zpow_add₀ (by norm_num)]; norm_num
  rw [e52, hn] at hlo
  rw [e53, hn] at hhi
  have h1 := le_of_mul_le_mul_right hlo hu
  have h2 := lt_of_mul_lt_mul_right hhi hu.le
  exact ⟨n, e, by exact_mod_cast h1, by exact_mod_cast h2, hn⟩

/-- The next smaller double is smaller by a part of `2^-53` at least. -/
theorem gap_below {u w : ℚ} (hu : IsDouble u) (hw : IsDouble w) (h0 : 0 < w) (h : u < w) :
    u ≤ w - w / 2 ^ 53 := by
  obtain ⟨m, e, h1, h2, rfl⟩ := hw.normalized h0
  have hp : (0 : ℚ) < (2 : ℚ) ^ e := zpow_pos (by norm_num) _
  have h1' : (2 : ℚ) ^ 52 ≤ m := by exact_mod_cast h1
  have h2' : (m : ℚ) < 2 ^ 53 := by exact_mod_cast h2
  have hsmall : (m : ℚ) * 2 ^ e / 2 ^ 53 ≤ 2 ^ e := by
    rw [div_le_iff₀ (by norm_num)]; nlinarith
  have e52 : (2 : ℚ) ^ (52 + e) = 2 ^ 52 * (2 : ℚ) ^ e := by rw [zpow_add₀ (by norm_num)]; norm_num
  by_cases hb : (2 : ℚ) ^ (52 + e) ≤ u
  · obtain ⟨n, rfl⟩ := multiple_of_large hu (hb.trans (le_abs_self _))
    have hn : n < m := by
      have := lt_of_mul_lt_mul_right h hp.le
      exact_mod_cast this
    have hn' : (n : ℚ) ≤ m - 1 := by
      have : n ≤ m - 1 := by omega
      exact_mod_cast this
    have := mul_le_mul_of_nonneg_right hn' hp.le
    linarith
  · rw [not_le, e52] at hb
    rcases eq_or_lt_of_le h1 with he | hlt
    · -- `w` is a power of two
      subst he
      push_cast at *
      have e51 : (2 : ℚ) ^ (52 + (e - 1)) = 2 ^ 51 * (2 : ℚ) ^ e := by
        rw [show 52 + (e - 1) = 51 + e by ring, zpow_add₀ (by norm_num)]; norm_num
      by_cases hb2 : (2 : ℚ) ^ (52 + (e - 1)) ≤ u
      · obtain ⟨n, hn⟩ := multiple_of_large hu (hb2.trans (le_abs_self _))
        have ee : (2 : ℚ) ^ (e - 1) = 2 ^ e / 2 := by rw [zpow_sub₀ (by norm_num)]; norm_num
        rw [ee] at hn
        have hn1 : (n : ℚ) < 2 ^ 53 := by
          have : (n : ℚ) * (2 ^ e / 2) < 2 ^ 53 * (2 ^ e / 2) := by linarith
          exact lt_of_mul_lt_mul_right this (by positivity)
        have hn2 : n ≤ 2 ^ 53 - 1 := by
          have : n < 2 ^ 53 := by exact_mod_cast hn1
          omega
        have hn3 : (n : ℚ) ≤ 2 ^ 53 - 1 := by exact_mod_cast hn2
        have := mul_le_mul_of_nonneg_right hn3 (by positivity : (0 : ℚ) ≤ 2 ^ e / 2)
        linarith
      · rw [not_le, e51] at hb2
        linarith
    · have : (2 : ℚ) ^ 52 + 1 ≤ m := by
        have : 2 ^ 52 + 1 ≤ m := by omega
        exact_mod_cast this
      have := mul_le_mul_of_nonneg_right this hp.le
      linarith

/-- The next larger double is larger by more than a part of `2^-53`. -/
theorem gap_above {u w : ℚ} (hu : IsDouble u) (hw : IsDouble w) (h0 : 0 < w) (h : w < u) :
    w + w / 2 ^ 53 < u := by
  obtain ⟨m, e, h1, h2, rfl⟩ := hw.normalized h0
  have hp : (0 : ℚ) < (2 : ℚ) ^ e := zpow_pos (by norm_num) _
  have h1' : (2 : ℚ) ^ 52 ≤ m := by exact_mod_cast h1
  have h2' : (m : ℚ) < 2 ^ 53 := by exact_mod_cast h2
  have hsmall : (m : ℚ) * 2 ^ e / 2 ^ 53 < 2 ^ e := by
    rw [div_lt_iff₀ (by norm_num)]; nlinarith
  have e52 : (2 : ℚ) ^ (52 + e) = 2 ^ 52 * (2 : ℚ) ^ e := by rw [zpow_add₀ (by norm_num)]; norm_num
  have hb : (2 : ℚ) ^ (52 + e) ≤ u := by
    rw [e52]
    have := mul_le_mul_of_nonneg_right h1' hp.le
    linarith
  obtain ⟨n, rfl⟩ := multiple_of_large hu (hb.trans (le_abs_self _))
  have hn : m < n := by
    have := lt_of_mul_lt_mul_right h hp.le
    exact_mod_cast this
  have hn' : (m : ℚ) + 1 ≤ n := by exact_mod_cast hn
  have := mul_le_mul_of_nonneg_right hn' hp.le
  linarith

/-- What is smaller than a double by a part of `2^-53` is not rounded up to it. -/
theorem IsNearest.lt_of_gap {rnd : ℚ → ℚ} (h : IsNearest rnd) {x k : ℚ} (hk : IsDouble k) (h0 : 0 < k)
    (hx : x ≤ k - k / 2 ^ 53) : rnd x < k := by
  refine lt_of_le_of_lt (h.mono hx) ?_
  have hle : rnd (k - k / 2 ^ 53) ≤ k := by
    have := h.mono (show k - k / 2 ^ 53 ≤ k by have : 0 < k / 2 ^ 53 := by positivity
                                               linarith)
    rwa [h.exact hk] at this
  refine lt_of_le_of_ne hle fun he => ?_
  obtain ⟨m, e, h1, h2, hm⟩ := hk.normalized h0
  have hp : (0 : ℚ) < (2 : ℚ) ^ e := zpow_pos (by norm_num) _
  have near : ∀ d, IsDouble d → |d - (k - k / 2 ^ 53)| < k / 2 ^ 53 → False := by
    intro d hd hlt
    have := (h (k - k / 2 ^ 53)).2 d hd
    rw [he] at this
    have e1 : |k - (k - k / 2 ^ 53)| = k / 2 ^ 53 := by
      rw [show k - (k - k / 2 ^ 53) = k / 2 ^ 53 by ring]
      exact abs_of_pos (by positivity)
    rw [e1] at this
    linarith
  rcases eq_or_lt_of_le h1 with h3 | h3
  · refine near (k - k / 2 ^ 53) ?_ (by rw [sub_self, abs_zero]; positivity)
    refine ⟨2 ^ 53 - 1, e - 1, by norm_num, ?_⟩
    rw [hm, ← h3, zpow_sub₀ (by norm_num)]
    push_cast
    ring
  · have h3' : (2 : ℚ) ^ 52 + 1 ≤ m := by
      have : 2 ^ 52 + 1 ≤ m := by omega
      exact_mod_cast this
    have h2' : (m : ℚ) < 2 ^ 53 := by exact_mod_cast h2
    refine near (((m - 1 : ℤ) : ℚ) * 2 ^ e) ⟨m - 1, e, by rw [abs_of_nonneg (by omega)]; omega, rfl⟩ ?_
    have a1 : (m : ℚ) * 2 ^ e / 2 ^ 53 < 2 ^ e := by rw [div_lt_iff₀ (by norm_num)]; nlinarith
    have a2 : (2 : ℚ) ^ e < 2 * (m * 2 ^ e / 2 ^ 53) := by
      rw [← mul_div_assoc, lt_div_iff₀ (by norm_num)]; nlinarith
    rw [hm, abs_lt]
    push_cast
    constructor <;> linarith

/-- What is larger than a double by more than a part of `2^-53` is not rounded down to it. -/
theorem IsNearest.gt_of_gap {rnd : ℚ → ℚ} (h : IsNearest rnd) {x k : ℚ} (hk : IsDouble k) (h0 : 0 < k)
    (hx : k + k / 2 ^ 53 < x) : k < rnd x := by
  have hkx : k ≤ x := by have : 0 < k / 2 ^ 53 := by positivity
                         linarith
  have hle : k ≤ rnd x := by
    have := h.mono hkx
    rwa [h.exact hk] at this
  refine lt_of_le_of_ne hle fun he => ?_
  obtain ⟨m, e, h1, h2, hm⟩ := hk.normalized h0
  have hp : (0 : ℚ) < (2 : ℚ) ^ e := zpow_pos (by norm_num) _
  have h1' : (2 : ℚ) ^ 52 ≤ m := by exact_mod_cast h1
  have hd : IsDouble (((m + 1 : ℤ) : ℚ) * 2 ^ e) := isDouble_mul (by rw [abs_of_nonneg (by omega)]; omega)
  have := (h x).2 _ hd
  rw [← he, abs_of_nonpos (by linarith : k - x ≤ 0)] at this
  have a2 : (2 : ℚ) ^ e ≤ 2 * (m * 2 ^ e / 2 ^ 53) := by
    rw [← mul_div_assoc, le_div_iff₀ (by norm_num)]; nlinarith
  rw [hm] at this hx
  push_cast at this
  rcases le_abs.mp this with h4 | h4 <;> linarith

end Verif.Double

namespace Verif.OccupancyGrid

open Verif (Outcome)
open Verif.Double

/-- The cell of a coordinate as it is computed is the right one or the next one. -/
theorem floor_right_or_next {rnd : ℚ → ℚ} (h : IsNearest rnd) {x : ℚ} (h0 : 0 ≤ x) (hx : ⌊rnd x⌋ < 2 ^ 53) :
    ⌊rnd x⌋ = ⌊x⌋ ∨ ⌊rnd x⌋ = ⌊x⌋ + 1 := by
  have hq0 : 0 ≤ ⌊x⌋ := Int.floor_nonneg.mpr h0
  have hq : ⌊x⌋ < 2 ^ 53 := by
    by_contra hc
    rw [not_lt] at hc
    have h1 : ((2 ^ 53 : ℤ) : ℚ) ≤ x := Int.le_floor.mp hc
    have h2 := h.mono h1
    rw [h.exact (isDouble_int (by norm_num))] at h2
    have := Int.le_floor.mpr h2
    omega
  have h1 : ((⌊x⌋ : ℤ) : ℚ) ≤ rnd x := by
    have := h.mono (Int.floor_le x)
    rwa [h.exact (isDouble_int (by rw [abs_of_nonneg hq0]; omega))] at this
  have h2 : rnd x ≤ ((⌊x⌋ + 1 : ℤ) : ℚ) := by
    have h3 : x ≤ ((⌊x⌋ + 1 : ℤ) : ℚ) := by push_cast; exact (Int.lt_floor_add_one x).le
    have := h.mono h3
    rwa [h.exact (isDouble_int (by rw [abs_of_nonneg (by omega)]; omega))] at this
  have h3 := Int.le_floor.mpr h1
  have h4 := Int.floor_le_floor h2
  rw [Int.floor_intCast] at h4
  omega

/-- If the borders of the cells are doubles, the cell of a double is computed exactly. -/
theorem floor_exact {rnd : ℚ → ℚ} (h : IsNearest rnd) {u c : ℚ} (hc : 0 < c) (hu : IsDouble u) (h0 : 0 ≤ u)
    (hk : ⌊u / c⌋ < 2 ^ 53) (hb : IsDouble (((⌊u / c⌋ + 1 : ℤ) : ℚ) * c)) : ⌊rnd (u / c)⌋ = ⌊u / c⌋ := by
  have hq0 : 0 ≤ ⌊u / c⌋ := Int.floor_nonneg.mpr (div_nonneg h0 hc.le)
  have h1 := h.mono (Int.floor_le (u / c))
  rw [h.exact (isDouble_int (by rw [abs_of_nonneg hq0]; omega))] at h1
  have hpos : (0 : ℚ) < ((⌊u / c⌋ + 1 : ℤ) : ℚ) := by exact_mod_cast (by omega : 0 < ⌊u / c⌋ + 1)
  have hlt : u < ((⌊u / c⌋ + 1 : ℤ) : ℚ) * c := by
    rw [← div_lt_iff₀ hc]; push_cast; exact Int.lt_floor_add_one _
  have h2 := gap_below hu hb (by positivity) hlt
  have h3 : u / c ≤ ((⌊u / c⌋ + 1 : ℤ) : ℚ) - ((⌊u / c⌋ + 1 : ℤ) : ℚ) / 2 ^ 53 := by
    rw [div_le_iff₀ hc]
    linarith
  have h4 := h.lt_of_gap (isDouble_int (by rw [abs_of_nonneg (by omega)]; omega)) hpos h3
  rw [Int.floor_eq_iff]
  push_cast at h4
  exact ⟨h1, h4⟩

/-- If the borders of the cells are doubles, the number of cells is computed exactly. -/
theorem ceil_exact {rnd : ℚ → ℚ} (h : IsNearest rnd) {mx c : ℚ} (hc : 0 < c) (hm : IsDouble mx) (hmc : c ≤ mx)
    (hk : ⌈mx / c⌉ ≤ 2 ^ 53) (hb : IsDouble (((⌈mx / c⌉ - 1 : ℤ) : ℚ) * c)) : ⌈rnd (mx / c)⌉ = ⌈mx / c⌉ := by
  have h1c : 1 ≤ mx / c := by rw [le_div_iff₀ hc]; linarith
  have hq1 : 1 ≤ ⌈mx / c⌉ := by
    have : (1 : ℚ) ≤ ⌈mx / c⌉ := h1c.trans (Int.le_ceil _)
    exact_mod_cast this
  have h1 := h.mono (Int.le_ceil (mx / c))
  rw [h.exact (isDouble_int (by rw [abs_of_nonneg (by omega)]; omega))] at h1
  have hlt : ((⌈mx / c⌉ - 1 : ℤ) : ℚ) < rnd (mx / c) := by
    rcases eq_or_lt_of_le hq1 with he | hgt
    · have := h.mono h1c
      rw [show (1 : ℚ) = ((1 : ℤ) : ℚ) by norm_num, h.exact (isDouble_int (by norm_num))] at this
      rw [← he]
      push_cast at this ⊢
      linarith
    · have hpos : (0 : ℚ) < ((⌈mx / c⌉ - 1 : ℤ) : ℚ) := by exact_mod_cast (by omega : 0 < ⌈mx / c⌉ - 1)
      have hlt : ((⌈mx / c⌉ - 1 : ℤ) : ℚ) * c < mx := by
        rw [← lt_div_iff₀ hc]
        have := Int.ceil_lt_add_one (mx / c)
        push_cast
        linarith
      have h2 := gap_above hm hb (by positivity) hlt
      refine h.gt_of_gap (isDouble_int (by rw [abs_of_nonneg (by omega)]; omega)) hpos ?_
      rw [lt_div_iff₀ hc]
      linarith
  rw [Int.ceil_eq_iff]
  push_cast at hlt
  exact ⟨hlt, h1⟩

/-- Specification: along one axis, the borders of the cells up to the one behind the last coordinate are doubles,
and there are at most `2^53 - 1` cells. -/
def Borders (mx c : ℚ) : Prop :=
  ⌈mx / c⌉ < 2 ^ 53 ∧ ∀ k : ℕ, (k : ℤ) ≤ ⌈mx / c⌉ → IsDouble (k * c)

theorem Borders.count {rnd : ℚ → ℚ} (h : IsNearest rnd) {mx c : ℚ} (hc : 0 < c) (hm : IsDouble mx) (hmc : c ≤ mx)
    (hb : Borders mx c) : cellCountR rnd mx c = cellCount mx c := by
  have h1c : 1 ≤ mx / c := by rw [le_div_iff₀ hc]; linarith
  have hq1 : 1 ≤ ⌈mx / c⌉ := by
    have : (1 : ℚ) ≤ ⌈mx / c⌉ := h1c.trans (Int.le_ceil _)
    exact_mod_cast this
  unfold cellCountR cellCount
  rw [if_neg hc.ne', if_neg hc.ne', ceil_exact h hc hm hmc hb.1.le]
  have := hb.2 (⌈mx / c⌉ - 1).toNat (by omega)
  rwa [show (((⌈mx / c⌉ - 1).toNat : ℕ) : ℚ) = ((⌈mx / c⌉ - 1 : ℤ) : ℚ) by
    rw [← Int.cast_natCast, Int.toNat_of_nonneg (by omega)]] at this

theorem Borders.floor {rnd : ℚ → ℚ} (h : IsNearest rnd) {mx c u : ℚ} (hc : 0 < c) (hu : IsDouble u) (h0 : 0 ≤ u)
    (hlt : u < mx) (hb : Borders mx c) : ⌊rnd (u / c)⌋ = ⌊u / c⌋ := by
  have hq0 : 0 ≤ ⌊u / c⌋ := Int.floor_nonneg.mpr (div_nonneg h0 hc.le)
  have hq : ⌊u / c⌋ < ⌈mx / c⌉ := by
    rw [Int.floor_lt]
    refine lt_of_lt_of_le ?_ (Int.le_ceil _)
    rw [div_lt_div_iff_of_pos_right hc]; exact hlt
  refine floor_exact h hc hu h0 (by have := hb.1; omega) ?_
  have := hb.2 (⌊u / c⌋ + 1).toNat (by omega)
  rwa [show (((⌊u / c⌋ + 1).toNat : ℕ) : ℚ) = ((⌊u / c⌋ + 1 : ℤ) : ℚ) by
    rw [← Int.cast_natCast, Int.toNat_of_nonneg (by omega)]] at this

/-- **C140 (exact borders).** If the borders between the cells are doubles, the grid that is made and the cells of all
points are those of exact arithmetic: everything that holds for exact coordinates (C16 to C19) holds for `double`. -/
theorem rounding_exact_borders {rnd : ℚ → ℚ} (h : IsNearest rnd) {maxR maxC cellR cellC : ℚ} (hR : 0 < cellR)
    (hC : 0 < cellC) (hmR : IsDouble maxR) (hmC : IsDouble maxC) (hbR : Borders maxR cellR) (hbC : Borders maxC cellC) :
    createR rnd maxR maxC cellR cellC = create maxR maxC cellR cellC ∧
      ∀ g : Grid, g.maxR = maxR → g.maxC = maxC → g.cellR = cellR → g.cellC = cellC →
        (∀ u v, IsDouble u → IsDouble v → g.toCellR rnd u v = g.toCell u v) ∧
        (∀ p : Pt, IsDouble p.u → IsDouble p.v → g.addR rnd p = g.add p) := by
  constructor
  · unfold createR create
    by_cases h1 : maxR ≥ cellR
    · by_cases h2 : maxC ≥ cellC
      · rw [hbR.count h hR hmR h1, hbC.count h hC hmC h2]
      · have hd : decide (maxC ≥ cellC) = false := by simpa using h2
        rw [hd]
        cases decide (maxR > 0) <;> cases decide (maxC > 0) <;> cases decide (maxR ≥ cellR) <;>
          simp [Outcome.check_true, Outcome.check_false]
    · have hd : decide (maxR ≥ cellR) = false := by simpa using h1
      rw [hd]
      cases decide (maxR > 0) <;> cases decide (maxC > 0) <;> simp [Outcome.check_true, Outcome.check_false]
  · rintro g rfl rfl rfl rfl
    have key : ∀ u v, IsDouble u → IsDouble v → g.toCellR rnd u v = g.toCell u v := by
      intro u v hu hv
      unfold Grid.toCellR Grid.toCell
      by_cases hin : g.validInput u v = true
      · obtain ⟨a, b, c, d⟩ := validInput_iff.mp hin
        rw [hbR.floor h hR hu a b, hbC.floor h hC hv c d]
      · rw [Bool.not_eq_true] at hin
        rw [hin, Outcome.check_false, Outcome.bind_abort, Outcome.bind_abort]
    refine ⟨key, fun p hu hv => ?_⟩
    unfold Grid.addR Grid.add
    rw [key _ _ hu hv]

/-- Cells whose size is an integer number of pixels have such borders, in images of up to `2^52` pixels. -/
theorem borders_int {mx : ℚ} {c : ℕ} (hc : 0 < c) (hm : mx ≤ 2 ^ 52) (hcm : (c : ℚ) ≤ mx) : Borders mx c := by
  have hc' : (1 : ℚ) ≤ c := by exact_mod_cast hc
  have hle : ⌈mx / c⌉ ≤ 2 ^ 52 := by
    rw [Int.ceil_le, div_le_iff₀ (by linarith)]
    push_cast
    nlinarith
  refine ⟨by omega, fun k hk => ?_⟩
  have hk' : (k : ℚ) < mx / c + 1 := by
    have h1 : (k : ℚ) ≤ (⌈mx / c⌉ : ℚ) := by exact_mod_cast hk
    exact lt_of_le_of_lt h1 (Int.ceil_lt_add_one _)
  have h2 : (k : ℚ) * c < 2 ^ 53 := by
    have h3 : (mx / c + 1) * c = mx + c := by field_simp
    have h4 := mul_lt_mul_of_pos_right hk' (by linarith : (0 : ℚ) < c)
    linarith
  have h5 : k * c < 2 ^ 53 := by exact_mod_cast h2
  have := isDouble_int (n := (k * c : ℕ)) (by rw [abs_of_nonneg (by positivity)]; exact_mod_cast h5.le)
  exact_mod_cast this

/-- Non-vacuity: a grid for 480 rows and 752 columns with cells of 45 rows and 50 columns. -/
example : ∃ rnd, IsNearest rnd ∧ IsDouble (480 : ℚ) ∧ IsDouble (752 : ℚ) ∧ Borders 480 (45 : ℕ) ∧ Borders 752 (50 : ℕ) := by
  obtain ⟨rnd, h⟩ := exists_isNearest
  refine ⟨rnd, h, ?_, ?_, borders_int (by norm_num) (by norm_num) (by norm_num),
    borders_int (by norm_num) (by norm_num) (by norm_num)⟩
  · exact_mod_cast isDouble_int (n := 480) (by norm_num)
  · exact_mod_cast isDouble_int (n := 752) (by norm_num)

/-- **C140 (all sizes).** For all sizes the cell of a point is the one that contains it or the one after it, in each
direction, and it is at most one behind the last. -/
theorem rounding_near_partial {rnd : ℚ → ℚ} (h : IsNearest rnd) {maxR maxC cellR cellC : ℚ} {g : Grid} (hR : 0 < cellR)
    (hC : 0 < cellC) (hg : createR rnd maxR maxC cellR cellC = .ok g) (hn : g.nR < 2 ^ 53) (hm : g.nC < 2 ^ 53)
    {u v : ℚ} (hin : InRange g u v) :
    ∃ k k0, g.toCellR rnd u v = .ok k ∧ InCell g k0 u v ∧ (k.1 = k0.1 ∨ k.1 = k0.1 + 1) ∧ (k.2 = k0.2 ∨ k.2 = k0.2 + 1) ∧
      k.1 ≤ g.nR ∧ k.2 ≤ g.nC := by
  unfold createR at hg
  simp only [Outcome.bind_eq_ok, Outcome.ok.injEq] at hg
  obtain ⟨_, _, _, _, _, _, _, _, nR, h1, nC, h2, _, _, _, _, rfl⟩ := hg
  unfold cellCountR at h1 h2
  rw [if_neg hR.ne'] at h1
  rw [if_neg hC.ne'] at h2
  obtain ⟨_, _, e1⟩ := toSize_ok h1
  obtain ⟨_, _, e2⟩ := toSize_ok h2
  simp only at hn hm
  have aux : ∀ {x mx c : ℚ} {n : ℕ}, 0 < c → 0 ≤ x → x < mx → ⌈rnd (mx / c)⌉ = (n : ℤ) → n < 2 ^ 53 →
      0 ≤ ⌊rnd (x / c)⌋ ∧ 0 ≤ ⌊x / c⌋ ∧ ⌊rnd (x / c)⌋ ≤ n ∧ (⌊rnd (x / c)⌋ = ⌊x / c⌋ ∨ ⌊rnd (x / c)⌋ = ⌊x / c⌋ + 1) := by
    intro x mx c n hc h0 hlt hce hn
    have hx0 : 0 ≤ x / c := div_nonneg h0 hc.le
    have hle : ⌊rnd (x / c)⌋ ≤ n := by
      have a : x / c ≤ mx / c := by rw [div_le_div_iff_of_pos_right hc]; exact hlt.le
      have b := (h.mono a).trans (Int.le_ceil _)
      rw [hce] at b
      have d := (Int.floor_le (rnd (x / c))).trans b
      exact_mod_cast d
    have h3 := floor_right_or_next h hx0 (by omega)
    have h4 : 0 ≤ ⌊x / c⌋ := Int.floor_nonneg.mpr hx0
    exact ⟨by omega, h4, hle, h3⟩
  obtain ⟨a1, a2, a3, a4⟩ := aux hR hin.1 hin.2.1 e1 hn
  obtain ⟨b1, b2, b3, b4⟩ := aux hC hin.2.2.1 hin.2.2.2 e2 hm
  refine ⟨(⌊rnd (u / cellR)⌋.toNat, ⌊rnd (v / cellC)⌋.toNat), (⌊u / cellR⌋.toNat, ⌊v / cellC⌋.toNat), ?_, ?_, ?_, ?_, ?_, ?_⟩
  · unfold Grid.toCellR toSize
    rw [validInput_iff.mpr hin, Outcome.check_true, Outcome.bind_ok]
    simp only
    rw [if_pos ⟨a1, by omega⟩, Outcome.bind_ok, if_pos ⟨b1, by omega⟩, Outcome.bind_ok]
  · have h1 := floor_bounds hR (u := u) (n := ⌊u / cellR⌋.toNat) (by omega)
    have h2 := floor_bounds hC (u := v) (n := ⌊v / cellC⌋.toNat) (by omega)
    exact ⟨h1.1, h1.2, h2.1, h2.2⟩
  all_goals simp only; omega

/-- The double nearest to 480 / 11. -/
def eleventh : ℚ := 6141272219141585 / 2 ^ 47

theorem eleventh_eq {rnd : ℚ → ℚ} (h : IsNearest rnd) : rnd (480 / 11) = eleventh := by
  have := h.eq_of_close (x := 480 / 11) (e := -47) (n := 6141272219141585) (by norm_num) (by norm_num)
    (by rw [abs_lt]; norm_num)
  rw [this, eleventh]
  norm_num

/-- The grid that is made for 480 rows and 752 columns, 11 cells high. -/
theorem eleventh_grid {rnd : ℚ → ℚ} (h : IsNearest rnd) :
    createR rnd 480 752 eleventh 752 = .ok ⟨480, 752, eleventh, 752, 11, 1, 0, fun _ => []⟩ := by
  have e1 : rnd (480 / eleventh) = 11 := by
    have := h.eq_of_close (x := 480 / eleventh) (e := -49) (n := 11 * 2 ^ 49) (by norm_num [eleventh]) (by norm_num)
      (by rw [abs_lt]; norm_num [eleventh])
    rw [this]; norm_num
  have e2 : rnd (752 / 752) = 1 := by
    rw [div_self (by norm_num)]
    exact_mod_cast h.exact (isDouble_int (n := 1) (by norm_num))
  have c1 : cellCountR rnd 480 eleventh = .ok 11 := by
    unfold cellCountR toSize
    rw [if_neg (by norm_num [eleventh]), e1]
    norm_num
    rfl
  have c2 : cellCountR rnd 752 752 = .ok 1 := by
    unfold cellCountR toSize
    rw [if_neg (by norm_num), e2]
    norm_num
  unfold createR
  rw [c1, c2]
  norm_num [eleventh, Outcome.check_true]

/-- The claim is false for other sizes: in a grid for 480 rows with cells of height `480.0 / 11`, adding a point in the
last row of cells, at the last double below 480, ends the program. -/
theorem rounding_last_row_refuted {rnd : ℚ → ℚ} (h : IsNearest rnd) :
    ∃ g u, createR rnd 480 752 (rnd (480 / 11)) 752 = .ok g ∧ IsDouble u ∧ InRange g u 0 ∧
      g.addR rnd ⟨u, 0, 1, 0⟩ = .abort := by
  rw [eleventh_eq h]
  refine ⟨_, 8444249301319679 / 2 ^ 44, eleventh_grid h, ⟨8444249301319679, -44, by norm_num, by norm_num⟩,
    by norm_num [InRange], ?_⟩
  have e1 : rnd (8444249301319679 / 2 ^ 44 / eleventh) = 11 := by
    have := h.eq_of_close (x := 8444249301319679 / 2 ^ 44 / eleventh) (e := -49) (n := 11 * 2 ^ 49)
      (by norm_num [eleventh]) (by norm_num) (by rw [abs_lt]; norm_num [eleventh])
    rw [this]; norm_num
  have e2 : rnd (0 / 752) = 0 := by
    rw [zero_div]
    exact_mod_cast h.exact (isDouble_int (n := 0) (by norm_num))
  unfold Grid.addR Grid.toCellR
  simp only [e1, e2]
  norm_num [Grid.validInput, toSize, Outcome.check_true, Outcome.check_false, Grid.getCell, Grid.validCell]

/-- The claim is false for other sizes: in that grid a point is put in a cell that does not contain it. -/
theorem rounding_wrong_cell_refuted {rnd : ℚ → ℚ} (h : IsNearest rnd) :
    ∃ g u k, createR rnd 480 752 (rnd (480 / 11)) 752 = .ok g ∧ IsDouble u ∧ InRange g u 0 ∧
      g.toCellR rnd u 0 = .ok k ∧ k ∈ g.coords ∧ ¬ InCell g k u 0 := by
  rw [eleventh_eq h]
  refine ⟨_, 7676590273926981 / 2 ^ 45, (5, 0), eleventh_grid h, ⟨7676590273926981, -45, by norm_num, by norm_num⟩,
    by norm_num [InRange], ?_, ?_, by norm_num [InCell, eleventh]⟩
  · have e1 : rnd (7676590273926981 / 2 ^ 45 / eleventh) = 5 := by
      have := h.eq_of_close (x := 7676590273926981 / 2 ^ 45 / eleventh) (e := -50) (n := 5 * 2 ^ 50)
        (by norm_num [eleventh]) (by norm_num) (by rw [abs_lt]; norm_num [eleventh])
      rw [this]; norm_num
    have e2 : rnd (0 / 752) = 0 := by
      rw [zero_div]
      exact_mod_cast h.exact (isDouble_int (n := 0) (by norm_num))
    unfold Grid.toCellR
    simp only [e1, e2]
    norm_num [Grid.validInput, toSize, Outcome.check_true]
    rfl
  · rw [mem_coords]; norm_num

/-- Non-vacuity: the hypotheses of `rounding_near_partial` with the grid above. -/
example {rnd : ℚ → ℚ} (h : IsNearest rnd) : ∃ g, createR rnd 480 752 eleventh 752 = .ok g ∧ g.nR = 11 ∧ InRange g 100 200 :=
  ⟨_, eleventh_grid h, rfl, by norm_num [InRange]⟩

/-- C140, deviation: a cell size of zero passes the checks, and the infinite number of cells has no value as a
`size_t`. -/
theorem rounding_zero_cell_refuted (rnd : ℚ → ℚ) {maxR maxC cellC : ℚ} (hR : 0 < maxR) (hC : 0 < maxC) (h : cellC ≤ maxC) :
    createR rnd maxR maxC 0 cellC = .ub := by
  unfold createR cellCountR
  simp [hR, hC, h, hR.le]

/-- An image of 480 by 752 pixels. -/
example : createR id 480 752 0 45 = .ub := rounding_zero_cell_refuted _ (by norm_num) (by norm_num) (by norm_num)

end Verif.OccupancyGrid
