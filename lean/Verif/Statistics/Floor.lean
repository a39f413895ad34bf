import Verif.Base.Double
import Mathlib.Tactic.Linarith
import Mathlib.Tactic.Positivity
import Mathlib.Algebra.Order.Floor.Ring
import Mathlib.Data.Rat.Floor

/-!
# Dividing a double and cutting off the fraction

A double divided by a whole number, rounded to a nearest double and cut off is the whole part of the exact quotient: the
rounding never reaches the next whole number.
-/

namespace Verif.Statistics

open Verif.Double

/-- `k = 2^a`-scaled: the doubles right below a whole number. -/
theorem isDouble_pred {k a : ℕ} (h1 : 2 ^ a ≤ k) (h2 : k < 2 ^ (a + 1)) (ha : a ≤ 52) :
    IsDouble ((k : ℚ) - 2 ^ a / 2 ^ 52) ∧ (k = 2 ^ a → IsDouble ((k : ℚ) - 2 ^ a / 2 ^ 53)) := by
  have e52 : ((2 : ℚ) ^ ((a : ℤ) - 52)) = 2 ^ a / 2 ^ 52 := by
    rw [zpow_sub₀ (by norm_num)]; norm_cast
  have e53 : ((2 : ℚ) ^ ((a : ℤ) - 53)) = 2 ^ a / 2 ^ 53 := by
    rw [zpow_sub₀ (by norm_num)]; norm_cast
  constructor
  · refine ⟨(k * 2 ^ (52 - a) - 1 : ℤ), (a : ℤ) - 52, ?_, ?_⟩
    · have hk : k * 2 ^ (52 - a) < 2 ^ 53 := by
        calc k * 2 ^ (52 - a) < 2 ^ (a + 1) * 2 ^ (52 - a) := Nat.mul_lt_mul_of_pos_right h2 (by positivity)
          _ = 2 ^ 53 := by rw [← pow_add]; congr 1; omega
      have hp : 0 < k * 2 ^ (52 - a) := Nat.mul_pos (lt_of_lt_of_le (by positivity) h1) (by positivity)
      rw [abs_lt]
      constructor
      · have : (0 : ℤ) < ((k * 2 ^ (52 - a) : ℕ) : ℤ) := by exact_mod_cast hp
        push_cast at this; linarith
      · have : ((k * 2 ^ (52 - a) : ℕ) : ℤ) < 2 ^ 53 := by exact_mod_cast hk
        push_cast at this; linarith
    · rw [e52]
      push_cast
      have : (2 : ℚ) ^ (52 - a) * 2 ^ a = 2 ^ 52 := by rw [← pow_add]; congr 1; omega
      have h52 : (2 : ℚ) ^ 52 ≠ 0 := by positivity
      field_simp
      rw [← this]
      ring
  · intro e
    refine ⟨(2 ^ 53 - 1 : ℤ), (a : ℤ) - 53, by norm_num, ?_⟩
    rw [e53, e]
    push_cast
    field_simp
    try ring

/-- **Dividing a double by a whole number and cutting off gives the whole part of the exact quotient.** -/
theorem floor_div {rnd : ℚ → ℚ} (hr : IsNearest rnd) {s : ℚ} (hs : IsDouble s) (h0 : 0 ≤ s) {d : ℕ} (hd : 0 < d)
    (hb : s + d < 2 ^ 53) : ⌊rnd (s / d)⌋ = ⌊s / d⌋ := by
  have hd' : (0 : ℚ) < d := by exact_mod_cast hd
  have hd1 : (1 : ℚ) ≤ d := by exact_mod_cast hd
  set x := s / d with hx
  have hx0 : 0 ≤ x := div_nonneg h0 hd'.le
  have hxs : x * d = s := by rw [hx]; field_simp
  obtain ⟨n, hn⟩ : ∃ n : ℕ, (n : ℤ) = ⌊x⌋ := ⟨⌊x⌋.toNat, Int.toNat_of_nonneg (Int.floor_nonneg.2 hx0)⟩
  have hn1 : (n : ℚ) ≤ x := by have := Int.floor_le x; rw [← hn] at this; exact_mod_cast this
  have hn2 : x < n + 1 := by have := Int.lt_floor_add_one x; rw [← hn] at this; exact_mod_cast this
  have hxs' : x ≤ s := by nlinarith
  obtain ⟨hrd, hrn⟩ := hr x
  have hlow : (n : ℚ) ≤ rnd x := by
    by_contra hc
    push Not at hc
    have hnd : IsDouble (n : ℚ) := by
      have := isDouble_int (n := (n : ℤ)) (by
        rw [abs_of_nonneg (by positivity)]
        have : (n : ℚ) ≤ 2 ^ 53 := by linarith
        exact_mod_cast this)
      exact_mod_cast this
    have := hrn n hnd
    rw [abs_of_nonpos (by linarith), abs_of_nonpos (by linarith)] at this
    linarith
  have hhigh : rnd x < n + 1 := by
    by_contra hc
    push Not at hc
    obtain ⟨k, hk⟩ : ∃ k : ℕ, k = n + 1 := ⟨_, rfl⟩
    have hkq : (k : ℚ) = n + 1 := by rw [hk]; push_cast; ring
    have hk0 : k ≠ 0 := by omega
    have hdk : (d : ℚ) * k < 2 ^ 53 := by rw [hkq]; nlinarith
    have hkle : (k : ℚ) ≤ d * k := by nlinarith [show (0 : ℚ) ≤ k by positivity]
    obtain ⟨a, ha⟩ : ∃ a, a = Nat.log2 k := ⟨_, rfl⟩
    have h1 : 2 ^ a ≤ k := by rw [ha]; exact Nat.log2_self_le hk0
    have h2 : k < 2 ^ (a + 1) := by rw [ha]; exact Nat.lt_log2_self
    have ha52 : a ≤ 52 := by
      have hlt : (2 : ℚ) ^ a < 2 ^ 53 := by
        have : ((2 ^ a : ℕ) : ℚ) ≤ k := by exact_mod_cast h1
        push_cast at this
        linarith
      have := (pow_lt_pow_iff_right₀ (by norm_num : (1 : ℚ) < 2)).1 hlt
      omega
    obtain ⟨hp1, hp2⟩ := isDouble_pred h1 h2 ha52
    -- the distance to the next double below is at most twice the distance to `k`
    have key : ∀ u : ℚ, 0 < u → IsDouble ((k : ℚ) - u) → (k : ℚ) - u / 2 ≤ x := by
      intro u hu hy
      have h := hrn _ hy
      have e1 : |rnd x - x| = rnd x - x := abs_of_nonneg (by linarith)
      rw [e1] at h
      by_contra hcx
      push Not at hcx
      rcases le_total x (k - u) with c | c
      · rw [abs_of_nonneg (by linarith)] at h; linarith
      · rw [abs_of_nonpos (by linarith)] at h; linarith
    have hA : (0 : ℚ) < 2 ^ a := by positivity
    have hAk : (2 : ℚ) ^ a ≤ k := by exact_mod_cast h1
    have hs0 : 0 < s := by
      have := key _ (by positivity) hp1
      have hh : (2 : ℚ) ^ a / 2 ^ 52 / 2 ≤ k / 2 := by
        rw [div_div]
        apply div_le_div₀ (by positivity) hAk (by norm_num) (by norm_num)
      have hkpos : (0 : ℚ) < k := by positivity
      have : 0 < x := by linarith
      rw [← hxs]; positivity
    obtain ⟨b, hbm⟩ := exists_mem_Ico_zpow hs0 (by norm_num : (1 : ℚ) < 2)
    obtain ⟨hb1, hb2⟩ := Set.mem_Ico.1 hbm
    obtain ⟨m, hm⟩ := multiple_of_large (e := b - 52) hs (by
      rw [abs_of_pos hs0, show (52 : ℤ) + (b - 52) = b by ring]; exact hb1)
    have hb52 : b ≤ 52 := by
      have : (2 : ℚ) ^ b < 2 ^ (53 : ℤ) := by
        have : (2 : ℚ) ^ (53 : ℤ) = 2 ^ 53 := by norm_cast
        rw [this]; linarith
      have := (zpow_lt_zpow_iff_right₀ (by norm_num : (1 : ℚ) < 2)).1 this
      omega
    have hU : (0 : ℚ) < (2 : ℚ) ^ (b - 52) := zpow_pos (by norm_num) _
    obtain ⟨c, hc'⟩ : ∃ c : ℕ, b - 52 = -(c : ℤ) := ⟨(52 - b).toNat, by omega⟩
    have hone : (1 : ℚ) = (2 ^ c : ℤ) * (2 : ℚ) ^ (b - 52) := by
      rw [hc', zpow_neg]; push_cast
      rw [zpow_natCast]; field_simp
    -- `d * k - s` is a positive multiple of `2 ^ (b - 52)`
    have hgap : (2 : ℚ) ^ (b - 52) ≤ d * k - s := by
      have hpos : 0 < (d : ℚ) * k - s := by
        have : x < k := by rw [hkq]; exact hn2
        have := mul_lt_mul_of_pos_right this hd'
        rw [hxs] at this; linarith
      have e : (d : ℚ) * k - s = ((d * k * 2 ^ c - m : ℤ) : ℚ) * (2 : ℚ) ^ (b - 52) := by
        push_cast
        rw [sub_mul, ← hm]
        have h1' : (d : ℚ) * k = d * k * 1 := by ring
        conv_lhs => rw [h1', hone]
        push_cast
        ring
      rw [e] at hpos ⊢
      have hi : 0 < (d * k * 2 ^ c - m : ℤ) := by
        by_contra hneg
        push Not at hneg
        have : ((d * k * 2 ^ c - m : ℤ) : ℚ) ≤ 0 := by exact_mod_cast hneg
        exact absurd hpos (not_lt.2 (mul_nonpos_of_nonpos_of_nonneg this hU.le))
      have : (1 : ℚ) ≤ ((d * k * 2 ^ c - m : ℤ) : ℚ) := by exact_mod_cast hi
      exact le_mul_of_one_le_left hU.le this
    have hb2' : s < 2 ^ 53 * (2 : ℚ) ^ (b - 52) := by
      have : (2 : ℚ) ^ (b + 1) = 2 ^ 53 * (2 : ℚ) ^ (b - 52) := by
        rw [show b + 1 = 53 + (b - 52) by ring, zpow_add₀ (by norm_num)]; norm_cast
      linarith
    have gapx : ∀ u : ℚ, (k : ℚ) - u / 2 ≤ x → d * k - s ≤ d * u / 2 := by
      intro u h
      have := mul_le_mul_of_nonneg_right h hd'.le
      rw [hxs] at this
      linarith
    by_cases hk2 : k = 2 ^ a
    · have g := gapx _ (key _ (by positivity) (hp2 hk2))
      have e : (k : ℚ) = 2 ^ a := by rw [hk2]; push_cast; ring
      have hs2 : s < d * k / 2 := by
        calc s < 2 ^ 53 * (2 : ℚ) ^ (b - 52) := hb2'
          _ ≤ 2 ^ 53 * (d * (2 ^ a / 2 ^ 53) / 2) :=
            mul_le_mul_of_nonneg_left (hgap.trans g) (by norm_num)
          _ = d * k / 2 := by rw [e]; field_simp
      have hxk : x < k / 2 := by
        by_contra hcc
        push Not at hcc
        have := mul_le_mul_of_nonneg_right hcc hd'.le
        rw [hxs] at this; linarith
      have g2 := key _ (by positivity) (hp2 hk2)
      rw [← e] at g2
      have hkpos : (0 : ℚ) < k := by positivity
      have : (k : ℚ) / 2 ^ 53 / 2 ≤ k / 2 := by
        rw [div_div]
        apply div_le_div₀ hkpos.le le_rfl (by norm_num) (by norm_num)
      linarith
    · have g := gapx _ (key _ (by positivity) hp1)
      have hs2 : s < d * 2 ^ a := by
        calc s < 2 ^ 53 * (2 : ℚ) ^ (b - 52) := hb2'
          _ ≤ 2 ^ 53 * (d * (2 ^ a / 2 ^ 52) / 2) :=
            mul_le_mul_of_nonneg_left (hgap.trans g) (by norm_num)
          _ = d * 2 ^ a := by field_simp
      have hk3 : 2 ^ a + 1 ≤ k := by omega
      have hk3q : (2 : ℚ) ^ a ≤ n := by
        have : 2 ^ a ≤ n := by omega
        exact_mod_cast this
      have : (n : ℚ) * d ≤ s := by rw [← hxs]; exact mul_le_mul_of_nonneg_right hn1 hd'.le
      have h3 : (d : ℚ) * 2 ^ a ≤ d * n := mul_le_mul_of_nonneg_left hk3q hd'.le
      linarith [mul_comm (d : ℚ) n]
  rw [← hn]
  exact Int.floor_eq_iff.2 ⟨by exact_mod_cast hlow, by exact_mod_cast hhigh⟩

end Verif.Statistics
