import Verif.Statistics.Report
import Verif.Statistics.Floor
import Mathlib.Data.List.Sort

/-!
# What the reports say

Times are read back to half a millionth of a second; every tag has one row or block, with its own figures.
-/

namespace Verif.Statistics

open Verif (Outcome)
open Verif.Double
open Verif.Decimal (natString digits digitChar)

/-! ## Times -/

theorem millionths_close {q : ℚ} (h : 0 ≤ q) : |(millionths q : ℚ) / 10 ^ 6 - q| ≤ 1 / 2 / 10 ^ 6 := by
  have hf : 0 ≤ ⌊q * 10 ^ 6⌋ := Int.floor_nonneg.2 (by positivity)
  have h1 := Int.floor_le (q * 10 ^ 6)
  have h2 := Int.lt_floor_add_one (q * 10 ^ 6)
  have e1 : ((⌊q * 10 ^ 6⌋.toNat : ℕ) : ℚ) = ⌊q * 10 ^ 6⌋ := by
    have := Int.toNat_of_nonneg hf
    exact_mod_cast this
  have e2 : (((⌊q * 10 ^ 6⌋ + 1).toNat : ℕ) : ℚ) = ⌊q * 10 ^ 6⌋ + 1 := by
    have := Int.toNat_of_nonneg (show 0 ≤ ⌊q * 10 ^ 6⌋ + 1 by omega)
    exact_mod_cast this
  have key : |(millionths q : ℚ) - q * 10 ^ 6| ≤ 1 / 2 := by
    unfold millionths
    simp only []
    generalize q * 10 ^ 6 = x at *
    generalize ⌊x⌋ = n at *
    have c1 : |((n.toNat : ℕ) : ℚ) - x| = x - n := by rw [e1, abs_of_nonpos (by linarith)]; ring
    have c2 : |(((n + 1).toNat : ℕ) : ℚ) - x| = n + 1 - x := by rw [e2, abs_of_nonneg (by linarith)]
    split
    · rw [c1]; linarith
    · split
      · rw [c2]; linarith
      · split
        · rw [c1]; linarith
        · rw [c2]; linarith
  rw [abs_le] at key ⊢
  constructor
  · have : (millionths q : ℚ) / 10 ^ 6 - q = ((millionths q : ℚ) - q * 10 ^ 6) / 10 ^ 6 := by field_simp
    rw [this, ← neg_div]
    exact div_le_div_of_nonneg_right (by linarith [key.1]) (by norm_num)
  · have : (millionths q : ℚ) / 10 ^ 6 - q = ((millionths q : ℚ) - q * 10 ^ 6) / 10 ^ 6 := by field_simp
    rw [this]
    exact div_le_div_of_nonneg_right key.2 (by norm_num)

theorem millionths_le {q : ℚ} (h0 : 0 ≤ q) (h : q < 60) : millionths q ≤ 60 * 10 ^ 6 := by
  have := (abs_le.1 (millionths_close h0)).2
  have h3 : (millionths q : ℚ) < 60 * 10 ^ 6 + 1 := by
    have e : (millionths q : ℚ) = (millionths q : ℚ) / 10 ^ 6 * 10 ^ 6 := by field_simp
    rw [e]
    have : (millionths q : ℚ) / 10 ^ 6 * 10 ^ 6 ≤ (q + 1 / 2 / 10 ^ 6) * 10 ^ 6 :=
      mul_le_mul_of_nonneg_right (by linarith) (by norm_num)
    have h4 : (q + 1 / 2 / 10 ^ 6) * 10 ^ 6 < 60 * 10 ^ 6 + 1 := by
      rw [add_mul]
      have : q * 10 ^ 6 < 60 * 10 ^ 6 := mul_lt_mul_of_pos_right h (by norm_num)
      have e2 : (1 : ℚ) / 2 / 10 ^ 6 * 10 ^ 6 = 1 / 2 := by norm_num
      rw [e2]; linarith
    linarith
  have : millionths q < 60 * 10 ^ 6 + 1 := by exact_mod_cast h3
  omega

/-- Zeros in front of a number with a point go in front of its whole part. -/
theorem fill_fixed6 (n : ℕ) :
    fillLeft '0' 9 (fixed6 n) = fillLeft '0' 2 (natString (n / 10 ^ 6)) ++ '.' :: fillLeft '0' 6 (natString (n % 10 ^ 6)) := by
  have hl : (fillLeft '0' 6 (natString (n % 10 ^ 6))).length = 6 := by
    have h : (natString (n % 10 ^ 6)).length ≤ 6 := by
      unfold natString
      rw [List.length_map]
      exact Decimal.digits_length_le (by omega) (Nat.mod_lt _ (by norm_num))
    unfold fillLeft
    rw [List.length_append, List.length_replicate]
    omega
  have e : 9 - (fixed6 n).length = 2 - (natString (n / 10 ^ 6)).length := by
    unfold fixed6
    rw [List.length_append, List.length_cons, hl]
    omega
  show List.replicate (9 - (fixed6 n).length) '0' ++ fixed6 n
    = (List.replicate (2 - (natString (n / 10 ^ 6)).length) '0' ++ natString (n / 10 ^ 6)) ++ _
  rw [e, List.append_assoc]
  rfl

/-- The text of hours, minutes and millionths of a second. -/
def clock (h m u : ℕ) : List Char :=
  fillLeft '0' 2 (natString h) ++ ':' :: (fillLeft '0' 2 (natString m) ++ ':' ::
    (fillLeft '0' 2 (natString (u / 10 ^ 6)) ++ '.' :: fillLeft '0' 6 (natString (u % 10 ^ 6))))

theorem toInt_nonneg {q : ℚ} (h0 : 0 ≤ q) (h : ⌊q⌋ < 2 ^ 31) : toInt q = .ok ⌊q⌋ := by
  unfold toInt
  have : 0 ≤ ⌊q⌋ := Int.floor_nonneg.2 h0
  simp only [if_pos h0]
  rw [if_pos ⟨by omega, h⟩]

theorem rnd_nonneg {rnd : ℚ → ℚ} (hr : IsNearest rnd) {q : ℚ} (h : 0 ≤ q) : 0 ≤ rnd q := by
  by_contra hc
  push Not at hc
  have := (hr q).2 0 ⟨0, 0, by norm_num, by simp⟩
  rw [abs_of_nonpos (by linarith), abs_of_nonpos (by linarith)] at this
  linarith

/-- **A duration is written as hours, minutes below 60 and seconds, which together are the duration to half a millionth of a
second.**  In double precision: the divisions are rounded. -/
theorem timeText_spec {rnd : ℚ → ℚ} (hr : IsNearest rnd) {s : ℚ} (hs : IsDouble s) (h0 : 0 ≤ s) (hb : s < 60 * 2 ^ 31) :
    ∃ h m u : ℕ, timeText rnd s = .ok (clock h m u) ∧ m < 60 ∧ u ≤ 60 * 10 ^ 6
      ∧ |(h * 3600 + m * 60 + u / 10 ^ 6 : ℚ) - s| ≤ 1 / 2 / 10 ^ 6 := by
  have f60 := floor_div hr hs h0 (d := 60) (by norm_num) (by push_cast; linarith)
  have f3600 := floor_div hr hs h0 (d := 3600) (by norm_num) (by push_cast; linarith)
  push_cast at f60 f3600
  have hq60 : 0 ≤ s / 60 := by positivity
  have hq3600 : 0 ≤ s / 3600 := by positivity
  have b60 : ⌊s / 60⌋ < 2 ^ 31 := by
    rw [Int.floor_lt]
    push_cast
    rw [div_lt_iff₀ (by norm_num)]
    linarith
  have hle : s / 3600 ≤ s / 60 := by
    rw [div_le_div_iff₀ (by norm_num) (by norm_num)]; linarith
  have b3600 : ⌊s / 3600⌋ < 2 ^ 31 := lt_of_le_of_lt (Int.floor_le_floor hle) b60
  have t60 : toInt (rnd (s / 60)) = .ok ⌊s / 60⌋ := by
    rw [← f60]; exact toInt_nonneg (rnd_nonneg hr hq60) (by rw [f60]; exact b60)
  have t3600 : toInt (rnd (s / 3600)) = .ok ⌊s / 3600⌋ := by
    rw [← f3600]; exact toInt_nonneg (rnd_nonneg hr hq3600) (by rw [f3600]; exact b3600)
  have p60 : 0 ≤ ⌊s / 60⌋ := Int.floor_nonneg.2 hq60
  have p3600 : 0 ≤ ⌊s / 3600⌋ := Int.floor_nonneg.2 hq3600
  have hdiv : ⌊s / 3600⌋ = ⌊s / 60⌋ / 60 := by
    have := Int.floor_div_natCast (s / 60) 60
    push_cast at this
    rw [← this, div_div]
    norm_num
  obtain ⟨h, hh⟩ := Int.eq_ofNat_of_zero_le p3600
  obtain ⟨m, hm⟩ := Int.eq_ofNat_of_zero_le (show 0 ≤ ⌊s / 60⌋ - ⌊s / 3600⌋ * 60 by omega)
  have hm60 : m < 60 := by omega
  have hsec0 : 0 ≤ fmod60 s := by
    unfold fmod60
    rw [if_pos hq60]
    have := Int.floor_le (s / 60)
    have : 60 * (⌊s / 60⌋ : ℚ) ≤ 60 * (s / 60) := mul_le_mul_of_nonneg_left this (by norm_num)
    linarith [show 60 * (s / 60) = s by field_simp]
  have hsec1 : fmod60 s < 60 := by
    unfold fmod60
    rw [if_pos hq60]
    have := Int.lt_floor_add_one (s / 60)
    have : 60 * (s / 60) < 60 * ((⌊s / 60⌋ : ℚ) + 1) := mul_lt_mul_of_pos_left this (by norm_num)
    linarith [show 60 * (s / 60) = s by field_simp]
  refine ⟨h, m, millionths (fmod60 s), ?_, hm60, millionths_le hsec0 hsec1, ?_⟩
  · unfold timeText
    rw [t60, t3600]
    simp only [Outcome.bind_ok]
    rw [hm, hh]
    unfold d02 f096
    rw [if_pos (by omega), if_pos (by omega), if_pos hsec0, fill_fixed6]
    simp [clock]
  · have e : (h * 3600 + m * 60 : ℚ) = s - fmod60 s := by
      unfold fmod60
      rw [if_pos hq60]
      have : (⌊s / 60⌋ : ℚ) = m + h * 60 := by
        have : ⌊s / 60⌋ = m + h * 60 := by omega
        rw [this]; push_cast; ring
      simp only []
      rw [this]; ring
    have := millionths_close hsec0
    rw [e]
    convert this using 2
    ring

theorem split_at {c : Char} : ∀ {a b a' b' : List Char}, c ∉ a → c ∉ a' → a ++ c :: b = a' ++ c :: b' → a = a' ∧ b = b'
  | [], _, [], _, _, _, h => ⟨rfl, (List.cons.inj h).2⟩
  | [], _, x :: a', _, _, h2, h => absurd ((List.cons.inj h).1 ▸ List.mem_cons_self) h2
  | x :: a, _, [], _, h1, _, h => absurd ((List.cons.inj h).1 ▸ List.mem_cons_self) h1
  | x :: a, _, y :: a', _, h1, h2, h => by
    obtain ⟨e, h'⟩ := List.cons.inj h
    obtain ⟨e1, e2⟩ := split_at (fun m => h1 (.tail _ m)) (fun m => h2 (.tail _ m)) h'
    exact ⟨by rw [e, e1], e2⟩

theorem fill_eq (w n : ℕ) : fillLeft '0' w (natString n) = (List.replicate (w - (digits n).length) 0 ++ digits n).map digitChar := by
  unfold fillLeft natString
  rw [List.map_append, List.map_replicate, List.length_map]
  rfl

theorem fill_inj {w w' n n' : ℕ} (h : fillLeft '0' w (natString n) = fillLeft '0' w' (natString n')) : n = n' := by
  rw [fill_eq, fill_eq] at h
  have hd : ∀ (k n : ℕ), ∀ d ∈ List.replicate k 0 ++ digits n, d < 10 := by
    intro k n d hd
    rcases List.mem_append.1 hd with hd | hd
    · rw [List.eq_of_mem_replicate hd]; norm_num
    · exact Decimal.digits_lt hd
  have := Decimal.map_digitChar_inj (hd _ _) (hd _ _) h
  have := congrArg Decimal.ofDigits this
  rw [Decimal.ofDigits_replicate_zero, Decimal.ofDigits_replicate_zero, Decimal.ofDigits_digits, Decimal.ofDigits_digits] at this
  exact this

theorem fill_char {w n : ℕ} {c : Char} (h : c ∈ fillLeft '0' w (natString n)) : ∃ d, c = digitChar d := by
  rw [fill_eq] at h
  obtain ⟨d, _, e⟩ := List.mem_map.1 h
  exact ⟨d, e.symm⟩

theorem digitChar_ne (d : ℕ) : digitChar d ≠ ':' ∧ digitChar d ≠ '.' := by
  unfold digitChar; split <;> decide

/-- The text of a clock says hours, minutes and millionths. -/
theorem clock_inj {h m u h' m' u' : ℕ} (e : clock h m u = clock h' m' u') : h = h' ∧ m = m' ∧ u = u' := by
  have nc : ∀ {w n : ℕ}, ':' ∉ fillLeft '0' w (natString n) := fun hm => by
    obtain ⟨d, hd⟩ := fill_char hm
    exact (digitChar_ne d).1 hd.symm
  have nd : ∀ {w n : ℕ}, '.' ∉ fillLeft '0' w (natString n) := fun hm => by
    obtain ⟨d, hd⟩ := fill_char hm
    exact (digitChar_ne d).2 hd.symm
  obtain ⟨e1, e2⟩ := split_at nc nc e
  obtain ⟨e3, e4⟩ := split_at nc nc e2
  obtain ⟨e5, e6⟩ := split_at nd nd e4
  have h5 := fill_inj e5
  have h6 := fill_inj e6
  refine ⟨fill_inj e1, fill_inj e3, ?_⟩
  rw [← Nat.div_add_mod u (10 ^ 6), ← Nat.div_add_mod u' (10 ^ 6), h5, h6]

/-- **Durations with the same text differ by at most a millionth of a second.** -/
theorem timeText_close {rnd : ℚ → ℚ} (hr : IsNearest rnd) {s t : ℚ} (hs : IsDouble s) (ht : IsDouble t) (h0 : 0 ≤ s)
    (h0' : 0 ≤ t) (hb : s < 60 * 2 ^ 31) (hb' : t < 60 * 2 ^ 31) (h : timeText rnd s = timeText rnd t) :
    |s - t| ≤ 1 / 10 ^ 6 := by
  obtain ⟨a, b, c, e1, _, _, h1⟩ := timeText_spec hr hs h0 hb
  obtain ⟨a', b', c', e2, _, _, h2⟩ := timeText_spec hr ht h0' hb'
  rw [e1, e2] at h
  obtain ⟨rfl, rfl, rfl⟩ := clock_inj (Outcome.ok.inj h)
  rw [abs_le] at h1 h2 ⊢
  constructor
  · linarith [h1.1, h1.2, h2.1, h2.2]
  · linarith [h1.1, h1.2, h2.1, h2.2]

theorem natString_step {n : ℕ} (h : 10 ≤ n) : natString n = natString (n / 10) ++ [digitChar (n % 10)] := by
  unfold natString
  rw [digits, if_neg (by omega), List.map_append]
  rfl

theorem natString_digit {n : ℕ} (h : n < 10) : natString n = [digitChar n] := by
  unfold natString
  rw [digits, if_pos h]
  rfl

theorem text_3500000 : fillLeft '0' 9 (fixed6 3500000) = "03.500000".toList := by
  unfold fixed6
  norm_num
  rw [natString_step (n := 500000) (by norm_num), natString_step (n := 500000 / 10) (by norm_num),
    natString_step (n := 500000 / 10 / 10) (by norm_num), natString_step (n := 500000 / 10 / 10 / 10) (by norm_num),
    natString_step (n := 500000 / 10 / 10 / 10 / 10) (by norm_num), natString_digit (by norm_num), natString_digit (by norm_num)]
  rfl

theorem text_60000000 : fillLeft '0' 9 (fixed6 60000000) = "60.000000".toList := by
  unfold fixed6
  norm_num
  rw [natString_step (n := 60) (by norm_num), natString_digit (n := 60 / 10) (by norm_num), natString_digit (n := 0) (by norm_num)]
  rfl

theorem d02_digit {n : ℕ} (h : n < 10) : d02 n = ['0', digitChar n] := by
  unfold d02
  rw [if_pos (by omega), Int.toNat_natCast, natString_digit h]
  rfl

/-- An hour, two minutes and 3.5 seconds. -/
example : timeText id (7447 / 2) = .ok "01:02:03.500000".toList := by
  have h1 : ⌊(7447 / 2 / 60 : ℚ)⌋ = 62 := by rw [Int.floor_eq_iff]; norm_num
  have h2 : ⌊(7447 / 2 / 3600 : ℚ)⌋ = 1 := by rw [Int.floor_eq_iff]; norm_num
  have h3 : fmod60 (7447 / 2) = 7 / 2 := by
    unfold fmod60
    simp only []
    rw [if_pos (by norm_num), h1]
    norm_num
  have h4 : millionths (7 / 2) = 3500000 := by
    have : ⌊(7 / 2 * 10 ^ 6 : ℚ)⌋ = 3500000 := by rw [Int.floor_eq_iff]; norm_num
    unfold millionths
    simp only []
    rw [this, if_pos (by norm_num)]
    rfl
  unfold timeText
  simp only [_root_.id]
  rw [toInt_nonneg (by norm_num) (by rw [h1]; norm_num), toInt_nonneg (by norm_num) (by rw [h2]; norm_num), h1, h2, h3]
  unfold f096
  simp only [Outcome.bind_ok]
  rw [if_pos (by norm_num), h4, text_3500000, show d02 1 = _ from d02_digit (n := 1) (by norm_num),
    show d02 (62 - 1 * 60) = _ from d02_digit (n := 2) (by norm_num)]
  rfl

/-- **Refuted: that the seconds are below 60.**  Just below a minute they are rounded up to 60, with zero minutes. -/
theorem sixty_refuted {rnd : ℚ → ℚ} (hr : IsNearest rnd) :
    ∃ s : ℚ, IsDouble s ∧ 0 ≤ s ∧ s < 60 ∧ timeText rnd s = .ok "00:00:60.000000".toList := by
  refine ⟨60 - 1 / 2 ^ 30, ?_, by norm_num, by norm_num, ?_⟩
  · exact ⟨60 * 2 ^ 30 - 1, -30, by norm_num, by norm_num⟩
  · have hd : IsDouble (60 - 1 / 2 ^ 30) := ⟨60 * 2 ^ 30 - 1, -30, by norm_num, by norm_num⟩
    have f1 := floor_div hr hd (by norm_num) (d := 60) (by norm_num) (by norm_num)
    have f2 := floor_div hr hd (by norm_num) (d := 3600) (by norm_num) (by norm_num)
    push_cast at f1 f2
    have h1 : ⌊((60 - 1 / 2 ^ 30) / 60 : ℚ)⌋ = 0 := by rw [Int.floor_eq_iff]; norm_num
    have h2 : ⌊((60 - 1 / 2 ^ 30) / 3600 : ℚ)⌋ = 0 := by rw [Int.floor_eq_iff]; norm_num
    have h3 : fmod60 (60 - 1 / 2 ^ 30) = 60 - 1 / 2 ^ 30 := by
      unfold fmod60
      simp only []
      rw [if_pos (by norm_num), h1]
      norm_num
    have h4 : millionths (60 - 1 / 2 ^ 30) = 60000000 := by
      have : ⌊((60 - 1 / 2 ^ 30) * 10 ^ 6 : ℚ)⌋ = 59999999 := by rw [Int.floor_eq_iff]; norm_num
      unfold millionths
      simp only []
      rw [this, if_neg (by norm_num), if_pos (by norm_num)]
      rfl
    unfold timeText
    rw [toInt_nonneg (rnd_nonneg hr (by norm_num)) (by rw [f1, h1]; norm_num),
      toInt_nonneg (rnd_nonneg hr (by norm_num)) (by rw [f2, h2]; norm_num), f1, f2, h1, h2, h3]
    unfold f096
    simp only [Outcome.bind_ok]
    rw [if_pos (by norm_num), h4, text_60000000, show d02 0 = _ from d02_digit (n := 0) (by norm_num),
      show d02 (0 - 0 * 60) = _ from d02_digit (n := 0) (by norm_num)]
    rfl

/-- **Refuted: that every duration can be written.**  From `2^31` minutes on, some four thousand years, the conversion to
`int` is undefined. -/
theorem long_refuted {rnd : ℚ → ℚ} (hr : IsNearest rnd) : IsDouble (60 * 2 ^ 31) ∧ timeText rnd (60 * 2 ^ 31) = .ub := by
  refine ⟨⟨60 * 2 ^ 31, 0, by norm_num, by norm_num⟩, ?_⟩
  have e : ((60 * 2 ^ 31 : ℚ) / 60) = 2 ^ 31 := by norm_num
  have er : rnd (2 ^ 31 : ℚ) = 2 ^ 31 := hr.exact ⟨2 ^ 31, 0, by norm_num, by norm_num⟩
  have hf : ⌊(2 ^ 31 : ℚ)⌋ = 2 ^ 31 := by rw [Int.floor_eq_iff]; norm_num
  have : toInt (2 ^ 31 : ℚ) = .ub := by
    unfold toInt
    simp only []
    have : (if (0 : ℚ) ≤ 2 ^ 31 then ⌊(2 ^ 31 : ℚ)⌋ else ⌈(2 ^ 31 : ℚ)⌉) = 2 ^ 31 := by rw [if_pos (by norm_num), hf]
    rw [this, if_neg (by norm_num)]
  unfold timeText
  rw [e, er, this]
  rfl

/-! ## Tags -/

/-- The tags of a report: every tag once, in order, and none longer than the width of the column. -/
structure Good (le : List Char → List Char → Bool) (m : Tags) : Prop where
  nodup : (m.tags.map Prod.fst).Nodup
  sorted : m.tags.Pairwise fun a b => le a.1 b.1 = true
  width : ∀ t ∈ m.tags, t.1.length ≤ m.maxLength

theorem insertTag_perm (le : List Char → List Char → Bool) (t : List Char × Nat) :
    ∀ l, (insertTag le t l).Perm (t :: l)
  | [] => .refl _
  | u :: us => by
    unfold insertTag
    split
    · exact .refl _
    · exact ((insertTag_perm le t us).cons u).trans (.swap t u us)

theorem insertTag_sorted {le : List Char → List Char → Bool} (ht : ∀ a b c, le a b = true → le b c = true → le a c = true)
    (hl : ∀ a b, le a b = true ∨ le b a = true) (t : List Char × Nat) :
    ∀ l : List (List Char × Nat), l.Pairwise (fun a b => le a.1 b.1 = true) →
      (insertTag le t l).Pairwise fun a b => le a.1 b.1 = true
  | [], _ => by simp [insertTag]
  | u :: us, h => by
    obtain ⟨h1, h2⟩ := List.pairwise_cons.1 h
    unfold insertTag
    split
    · rename_i hc
      refine List.pairwise_cons.2 ⟨?_, h⟩
      intro a ha
      rcases List.mem_cons.1 ha with rfl | ha
      · exact hc
      · exact ht _ _ _ hc (h1 a ha)
    · rename_i hc
      refine List.pairwise_cons.2 ⟨?_, insertTag_sorted ht hl t us h2⟩
      intro a ha
      rcases List.mem_cons.1 ((insertTag_perm le t us).mem_iff.1 ha) with rfl | ha
      · rcases hl u.1 a.1 with e | e
        · exact e
        · exact absurd e hc
      · exact h1 a ha

/-- **Whatever tags are asked for and whenever they are reset, the report has each tag since the latest reset once, in
order, and its column is wide enough.** -/
theorem tags_good {le : List Char → List Char → Bool} (ht : ∀ a b c, le a b = true → le b c = true → le a c = true)
    (hl : ∀ a b, le a b = true ∨ le b a = true) (os : List TagOp) : Good le (Tags.run le Tags.new os) := by
  have key : ∀ (os : List TagOp) (m : Tags), Good le m → Good le (Tags.run le m os) := by
    intro os
    induction os with
    | nil => intro m hm; exact hm
    | cons o os ih =>
      intro m hm
      apply ih
      cases o with
      | reset => exact ⟨List.nodup_nil, List.Pairwise.nil, fun _ h => absurd h List.not_mem_nil⟩
      | lookup tag handle =>
        show Good le (if tag ∈ m.tags.map Prod.fst then m else m.add le tag handle)
        split
        · exact hm
        · rename_i hn
          have hp := insertTag_perm le (tag, handle) m.tags
          refine ⟨?_, insertTag_sorted ht hl _ _ hm.sorted, ?_⟩
          · exact ((hp.map Prod.fst).nodup_iff).2 (List.nodup_cons.2 ⟨hn, hm.nodup⟩)
          · intro t h
            show t.1.length ≤ max m.maxLength tag.length
            rcases List.mem_cons.1 (hp.mem_iff.1 h) with rfl | h
            · exact le_max_right _ _
            · exact (hm.width t h).trans (le_max_left _ _)
  exact key os _ ⟨List.nodup_nil, List.Pairwise.nil, fun _ h => absurd h List.not_mem_nil⟩

/-- The tags asked for since the latest reset. -/
def asked : List TagOp → List (List Char)
  | [] => []
  | .lookup t _ :: os => if os.any (fun o => match o with | .reset => true | _ => false) then asked os else t :: asked os
  | .reset :: os => asked os

theorem asked_snoc (os : List TagOp) (o : TagOp) (t : List Char) :
    t ∈ asked (os ++ [o]) ↔ match o with
      | .reset => False
      | .lookup u _ => t = u ∨ t ∈ asked os := by
  induction os with
  | nil => cases o <;> simp [asked]
  | cons p os ih =>
    cases p with
    | reset =>
      cases o with
      | reset => simpa [asked] using ih
      | lookup u k => simpa [asked] using ih
    | lookup v j =>
      cases o with
      | reset => simpa [asked] using ih
      | lookup u k =>
        simp only [List.cons_append, asked, List.any_append, List.any_cons, List.any_nil, Bool.or_false]
        split
        · exact ih
        · rw [List.mem_cons, ih, List.mem_cons]
          tauto

/-- **The report has exactly the tags asked for since the latest reset.** -/
theorem tags_asked (le : List Char → List Char → Bool) (os : List TagOp) (t : List Char) :
    t ∈ (Tags.run le Tags.new os).tags.map Prod.fst ↔ t ∈ asked os := by
  induction os using List.reverseRecOn with
  | nil => simp [Tags.run, Tags.new, asked]
  | append_singleton os o ih =>
    rw [asked_snoc]
    have e : Tags.run le Tags.new (os ++ [o]) = Tags.step le (Tags.run le Tags.new os) o := by
      unfold Tags.run; rw [List.foldl_append]; rfl
    rw [e]
    cases o with
    | reset => simp [Tags.step, Tags.reset]
    | lookup u k =>
      show t ∈ (if u ∈ _ then _ else Tags.add le u k _).tags.map Prod.fst ↔ _
      simp only []
      rw [← ih]
      split
      · rename_i h
        constructor
        · exact .inr
        · rintro (rfl | h')
          · exact h
          · exact h'
      · unfold Tags.add
        simp only []
        rw [((insertTag_perm le (u, k) _).map Prod.fst).mem_iff]
        simp

/-! ## Rows -/

theorem fillRight_at {w : ℕ} {s r : List Char} {c : Char} (h : s.length ≤ w) :
    (fillRight w s ++ c :: r)[w]? = some c ∧ s <+: fillRight w s ++ c :: r := by
  constructor
  · have : (fillRight w s).length = w := by
      unfold fillRight; rw [List.length_append, List.length_replicate]; omega
    rw [List.getElem?_append_right (by omega)]
    simp [this]
  · unfold fillRight
    rw [List.append_assoc]
    exact List.prefix_append _ _

theorem timingRows_spec {rnd : ℚ → ℚ} {w : ℕ} {fig : ℕ → Figures} :
    ∀ {ts : List (List Char × ℕ)} {rs : List (List Char)}, timingRows rnd w fig ts = .ok rs →
      rs.length = ts.length ∧ ∀ (i : ℕ) (t : List Char × ℕ), ts[i]? = some t →
        ∃ r, rs[i]? = some r ∧ timingRow rnd w fig t = .ok r
  | [], rs, h => by cases h; simp
  | t :: ts, rs, h => by
    obtain ⟨r, hr, h⟩ := Outcome.bind_eq_ok.1 h
    obtain ⟨rs', hrs, h⟩ := Outcome.bind_eq_ok.1 h
    cases h
    obtain ⟨h1, h2⟩ := timingRows_spec hrs
    refine ⟨by simp [h1], ?_⟩
    intro i u hu
    cases i with
    | zero => simp at hu; subst hu; exact ⟨r, rfl, hr⟩
    | succ i => simpa using h2 i u (by simpa using hu)

/-- **The report of timings has two lines and then a row for each tag, in their order: the tag, blanks up to the same column
for all, the number of samples in seven places, and for a tag with samples, and only for one, the times of that tag.** -/
theorem report_rows {rnd : ℚ → ℚ} {fig : ℕ → Figures} {m : Tags} {ls : List (List Char)} (hne : m.tags ≠ [])
    (hw : ∀ t ∈ m.tags, t.1.length ≤ m.maxLength) (h : timingReport rnd fig m = .ok ls) :
    ls.length = m.tags.length + 2 ∧ ∀ (i : ℕ) (t : List Char × ℕ), m.tags[i]? = some t →
      ∃ r times, ls[i + 2]? = some r ∧ timings rnd (fig t.2) = .ok times
        ∧ t.1 <+: r ∧ r[m.maxLength]? = some '\t' ∧ r.drop (m.maxLength + 1)
          = fillLeft ' ' 7 (natString (fig t.2).samples) ++ '\t' :: times := by
  unfold timingReport at h
  rw [if_neg hne] at h
  obtain ⟨rs, hrs, h⟩ := Outcome.bind_eq_ok.1 h
  cases h
  obtain ⟨h1, h2⟩ := timingRows_spec hrs
  refine ⟨by simp [h1], ?_⟩
  intro i t ht
  obtain ⟨r, hr, hrow⟩ := h2 i t ht
  obtain ⟨times, htimes, hrow⟩ := Outcome.bind_eq_ok.1 hrow
  cases hrow
  have hl := hw t (List.mem_of_getElem? ht)
  have hfl : (fillRight m.maxLength t.1).length = m.maxLength := by
    unfold fillRight; rw [List.length_append, List.length_replicate]; omega
  refine ⟨_, times, by simpa using hr, htimes, ?_, ?_, ?_⟩
  · exact (fillRight_at hl).2
  · exact (fillRight_at hl).1
  · rw [List.drop_append, hfl]
    simp [hfl]

/-- A duration that can be written. -/
def Writable (s : ℚ) : Prop := IsDouble s ∧ 0 ≤ s ∧ s < 60 * 2 ^ 31

/-- `x` is the text of the duration `s`: hours, minutes and seconds, to the nearest millionth. -/
def IsTime (s : ℚ) (x : List Char) : Prop :=
  ∃ h m u : ℕ, x = clock h m u ∧ m < 60 ∧ u ≤ 60 * 10 ^ 6 ∧ |(h * 3600 + m * 60 + u / 10 ^ 6 : ℚ) - s| ≤ 1 / 2 / 10 ^ 6

/-- **What a row says of the times**: nothing without samples; otherwise the total, the mean with the deviation, the least
and the greatest, each to the nearest millionth of a second. -/
theorem timings_spec {rnd : ℚ → ℚ} (hr : IsNearest rnd) {f : Figures} (ht : Writable f.total) (hm : Writable f.mean)
    (hd : Writable f.deviation) (hn : Writable f.min) (hx : Writable f.max) :
    (f.samples = 0 → timings rnd f = .ok []) ∧ (0 < f.samples → ∃ a b c d e, timings rnd f
        = .ok (a ++ "\t(".toList ++ b ++ " +- ".toList ++ c ++ ")\t[".toList ++ d ++ ",".toList ++ e ++ "]".toList)
      ∧ IsTime f.total a ∧ IsTime f.mean b ∧ IsTime f.deviation c ∧ IsTime f.min d ∧ IsTime f.max e) := by
  have key : ∀ {s : ℚ}, Writable s → ∃ x, timeText rnd s = .ok x ∧ IsTime s x := by
    intro s hs
    obtain ⟨h, m, u, e, h1, h2, h3⟩ := timeText_spec hr hs.1 hs.2.1 hs.2.2
    exact ⟨_, e, h, m, u, rfl, h1, h2, h3⟩
  constructor
  · intro h
    unfold timings
    rw [if_neg (by omega)]
  · intro h
    obtain ⟨a, ea, ha⟩ := key ht
    obtain ⟨b, eb, hb⟩ := key hm
    obtain ⟨c, ec, hc⟩ := key hd
    obtain ⟨d, ed, hd⟩ := key hn
    obtain ⟨e, ee, he⟩ := key hx
    refine ⟨a, b, c, d, e, ?_, ha, hb, hc, hd, he⟩
    unfold timings
    rw [if_pos h, ea, eb, ec, ed, ee]
    rfl

/-- **The report is written if all times can be.** -/
theorem report_ok {rnd : ℚ → ℚ} (hr : IsNearest rnd) {fig : ℕ → Figures} {m : Tags}
    (h : ∀ t ∈ m.tags, (fig t.2).samples > 0 → Writable (fig t.2).total ∧ Writable (fig t.2).mean
      ∧ Writable (fig t.2).deviation ∧ Writable (fig t.2).min ∧ Writable (fig t.2).max) :
    ∃ ls, timingReport rnd fig m = .ok ls := by
  have key : ∀ ts : List (List Char × ℕ), (∀ t ∈ ts, t ∈ m.tags) → ∃ rs, timingRows rnd m.maxLength fig ts = .ok rs := by
    intro ts
    induction ts with
    | nil => intro _; exact ⟨_, rfl⟩
    | cons t ts ih =>
      intro hts
      obtain ⟨rs, ers⟩ := ih fun u hu => hts u (.tail _ hu)
      have : ∃ x, timings rnd (fig t.2) = .ok x := by
        by_cases hs : (fig t.2).samples > 0
        · obtain ⟨a, b, c, d, e⟩ := h t (hts t (.head _)) hs
          obtain ⟨x1, x2, x3, x4, x5, e, _⟩ := (timings_spec hr a b c d e).2 hs
          exact ⟨_, e⟩
        · exact ⟨[], by unfold timings; rw [if_neg hs]⟩
      obtain ⟨x, ex⟩ := this
      unfold timingRows timingRow
      rw [ex, ers]
      exact ⟨_, rfl⟩
  unfold timingReport
  split
  · exact ⟨_, rfl⟩
  · obtain ⟨rs, e⟩ := key m.tags fun _ h => h
    rw [e]
    exact ⟨_, rfl⟩

/-- A quarter of a second can be written. -/
example : Writable (1 / 4) := ⟨⟨1, -2, by norm_num, by norm_num⟩, by norm_num, by norm_num⟩

/-- **The report of statistics likewise.** -/
theorem stats_rows {num : ℚ → List Char} {fig : ℕ → Figures} {m : Tags} (hne : m.tags ≠ [])
    (hw : ∀ t ∈ m.tags, t.1.length ≤ m.maxLength) :
    (statsReport num fig m).length = m.tags.length + 2 ∧ ∀ (i : ℕ) (t : List Char × ℕ), m.tags[i]? = some t →
      ∃ r rest, (statsReport num fig m)[i + 2]? = some r ∧ t.1 <+: r ∧ r[m.maxLength]? = some '\t'
        ∧ r.drop (m.maxLength + 1) = fillLeft ' ' 7 (natString (fig t.2).samples) ++ '\t' :: rest
        ∧ (rest = [] ↔ (fig t.2).samples = 0) ∧ ((fig t.2).samples > 0 → rest = num (fig t.2).hz ++ "\t(".toList
          ++ num (fig t.2).mean ++ " +- ".toList ++ num (fig t.2).deviation ++ ")\t[".toList ++ num (fig t.2).min ++ ",".toList
          ++ num (fig t.2).max ++ "]".toList) := by
  unfold statsReport
  rw [if_neg hne]
  refine ⟨by simp, ?_⟩
  intro i t ht
  have hl := hw t (List.mem_of_getElem? ht)
  have hfl : (fillRight m.maxLength t.1).length = m.maxLength := by
    unfold fillRight; rw [List.length_append, List.length_replicate]; omega
  refine ⟨statsRow num m.maxLength fig t, if (fig t.2).samples > 0 then
      num (fig t.2).hz ++ "\t(".toList ++ num (fig t.2).mean ++ " +- ".toList ++ num (fig t.2).deviation ++ ")\t[".toList
        ++ num (fig t.2).min ++ ",".toList ++ num (fig t.2).max ++ "]".toList else [], by simp [ht], ?_, ?_, ?_, ?_⟩
  · unfold statsRow; rw [List.append_assoc]; exact (fillRight_at hl).2
  · unfold statsRow; rw [List.append_assoc]; exact (fillRight_at hl).1
  · unfold statsRow
    rw [List.append_assoc, List.cons_append, List.drop_append, hfl]
    simp only [Nat.add_sub_cancel_left, List.drop_succ_cons, List.drop_zero]
    rw [List.drop_eq_nil_of_le (by omega), List.nil_append]
  · constructor
    · by_cases h : (fig t.2).samples > 0
      · rw [if_pos h]
        refine ⟨fun e => absurd e (by simp), fun e => by omega⟩
      · rw [if_neg h]
        exact ⟨fun _ => by omega, fun _ => rfl⟩
    · intro h
      rw [if_pos h]

/-- Without tags there is no report. -/
theorem no_tags {rnd : ℚ → ℚ} {num : ℚ → List Char} {fig : ℕ → Figures} {m : Tags} (h : m.tags = []) (opens : Bool)
    (block : List Char × ℕ → List (List Char)) :
    timingReport rnd fig m = .ok [] ∧ statsReport num fig m = [] ∧ yamlFile opens block m = none := by
  simp [timingReport, statsReport, yamlFile, h]

/-- Two tags, one with a longer name: the tabs are in column 5. -/
example : Tags.run (fun a b => decide (a.length ≤ b.length)) Tags.new
    [.lookup "total".toList 0, .lookup "io".toList 1, .lookup "io".toList 1]
      = ⟨[("io".toList, 1), ("total".toList, 0)], 5⟩ := by rfl

/-- **Refuted: that the heading of the statistics is in line with the rows.**  The rule has eleven characters and no tab
after it: with tags of two characters the number sign is at 16, the number at 9 (at 14 with tabs every eight columns). -/
theorem heading_refuted :
    (statsHeader 2).length = 11 + 7 + 3 + 21 + 9 ∧ (statsHeader 2)[11 + 5]? = some '#'
      ∧ (statsRow (fun _ => []) 2 (fun _ => ⟨3, 0, 0, 0, 0, 0, 0⟩) ("io".toList, 0))[9]? = some '3' := by
  refine ⟨by decide, by decide, ?_⟩
  simp [statsRow, fillRight, fillLeft, natString, digits, digitChar]

/-! ## Files -/

/-- A reader of such files: a line that does not begin with a blank begins an entry, with the colon at its end cut off; the
others belong to the entry before; empty lines mean nothing. -/
def readEntries : List (List Char) → List (List Char × List (List Char))
  | [] => []
  | l :: ls =>
    if l = [] ∨ l.head? = some ' ' then readEntries ls
    else (l.dropLast, (ls.takeWhile fun x => x.head? = some ' ')) :: readEntries ls

theorem readEntries_skip {fs ls : List (List Char)} (h : ∀ f ∈ fs, f.head? = some ' ') : readEntries (fs ++ ls) = readEntries ls := by
  induction fs with
  | nil => rfl
  | cons f fs ih =>
    rw [List.cons_append, readEntries, if_pos (.inr (h f (.head _)))]
    exact ih fun g hg => h g (.tail _ hg)

/-- A block: the label, the fields and an empty line. -/
theorem readEntries_block {tag : List Char} {fs ls : List (List Char)} (ht : tag.head? ≠ some ' ')
    (h : ∀ f ∈ fs, f.head? = some ' ') :
    readEntries ((tag ++ [':']) :: (fs ++ [] :: ls)) = (tag, fs) :: readEntries ls := by
  rw [readEntries, if_neg]
  · have htw : (fs ++ [] :: ls).takeWhile (fun x => decide (x.head? = some ' ')) = fs := by
      induction fs with
      | nil => simp
      | cons f fs ih =>
        rw [List.cons_append, List.takeWhile_cons_of_pos (by simpa using h f (.head _)),
          ih fun g hg => h g (.tail _ hg)]
    rw [htw, readEntries_skip h, readEntries, if_pos (.inl rfl)]
    simp
  · rintro (e | e)
    · simp at e
    · cases tag with
      | nil => simp at e
      | cons c cs => exact ht (by simpa using e)

theorem label_head {tag : List Char} (h : tag.head? ≠ some ' ') : (label tag).head? ≠ some ' ' := by
  cases tag with
  | nil => simp [label]
  | cons c cs =>
    simp only [label, List.map_cons, List.head?_cons, ne_eq, Option.some.injEq] at h ⊢
    split
    · decide
    · exact h

/-- The fields of a tag in the file of timings. -/
def timingFields (num : ℚ → List Char) (f : Figures) : List (List Char) :=
  ["  num_samples: ".toList ++ natString f.samples, "  total: ".toList ++ num f.total, "  mean: ".toList ++ num f.mean,
   "  std_dev: ".toList ++ num f.deviation, "  min: ".toList ++ num f.min, "  max: ".toList ++ num f.max]

/-- The fields of a tag in the file of statistics. -/
def statsFields (num : ℚ → List Char) (f : Figures) : List (List Char) :=
  ["  samples: ".toList ++ natString f.samples, "  mean: ".toList ++ num f.mean, "  stddev: ".toList ++ num f.deviation,
   "  min: ".toList ++ num f.min, "  max: ".toList ++ num f.max]

/-- **Reading the file of timings gives, in order, the label and the figures of each tag that has samples**, and nothing for
the others.  Tags do not begin with a blank. -/
theorem timing_file {num : ℚ → List Char} {fig : ℕ → Figures} {m : Tags} {ls : List (List Char)}
    (hb : ∀ t ∈ m.tags, t.1.head? ≠ some ' ') (h : yamlFile true (timingYaml num fig) m = some ls) :
    readEntries ls = (m.tags.filter fun t => (fig t.2).samples > 0).map fun t => (label t.1, timingFields num (fig t.2)) := by
  have key : ∀ ts : List (List Char × ℕ), (∀ t ∈ ts, t.1.head? ≠ some ' ') →
      readEntries (ts.flatMap (timingYaml num fig))
        = (ts.filter fun t => (fig t.2).samples > 0).map fun t => (label t.1, timingFields num (fig t.2)) := by
    intro ts
    induction ts with
    | nil => intro _; rfl
    | cons t ts ih =>
      intro hts
      have ih := ih fun u hu => hts u (.tail _ hu)
      rw [List.flatMap_cons]
      by_cases hs : (fig t.2).samples > 0
      · rw [List.filter_cons_of_pos (by simpa using hs), List.map_cons, ← ih]
        have e : timingYaml num fig t ++ ts.flatMap (timingYaml num fig)
            = (label t.1 ++ [':']) :: (timingFields num (fig t.2) ++ [] :: ts.flatMap (timingYaml num fig)) := by
          unfold timingYaml timingFields
          simp only []
          rw [if_pos hs]
          rfl
        rw [e]
        apply readEntries_block (label_head (hts t (.head _)))
        intro f hf
        simp only [timingFields, List.mem_cons, List.not_mem_nil, or_false] at hf
        rcases hf with rfl | rfl | rfl | rfl | rfl | rfl <;> rfl
      · rw [List.filter_cons_of_neg (by simpa using hs), ← ih]
        unfold timingYaml
        simp only []
        rw [if_neg hs, List.nil_append, List.singleton_append, readEntries, if_pos (.inl rfl)]
  unfold yamlFile at h
  split at h
  · cases h
  · cases h
    exact key _ hb

/-- **Reading the file of statistics likewise.** -/
theorem stats_file {num : ℚ → List Char} {fig : ℕ → Figures} {m : Tags} {ls : List (List Char)}
    (hb : ∀ t ∈ m.tags, t.1.head? ≠ some ' ') (h : yamlFile true (statsYaml num fig) m = some ls) :
    readEntries ls = (m.tags.filter fun t => (fig t.2).samples > 0).map fun t => (label t.1, statsFields num (fig t.2)) := by
  have key : ∀ ts : List (List Char × ℕ), (∀ t ∈ ts, t.1.head? ≠ some ' ') →
      readEntries (ts.flatMap (statsYaml num fig))
        = (ts.filter fun t => (fig t.2).samples > 0).map fun t => (label t.1, statsFields num (fig t.2)) := by
    intro ts
    induction ts with
    | nil => intro _; rfl
    | cons t ts ih =>
      intro hts
      have ih := ih fun u hu => hts u (.tail _ hu)
      rw [List.flatMap_cons]
      by_cases hs : (fig t.2).samples > 0
      · rw [List.filter_cons_of_pos (by simpa using hs), List.map_cons, ← ih]
        have e : statsYaml num fig t ++ ts.flatMap (statsYaml num fig)
            = (label t.1 ++ [':']) :: (statsFields num (fig t.2) ++ [] :: ts.flatMap (statsYaml num fig)) := by
          unfold statsYaml statsFields
          simp only []
          rw [if_pos hs]
          rfl
        rw [e]
        apply readEntries_block (label_head (hts t (.head _)))
        intro f hf
        simp only [statsFields, List.mem_cons, List.not_mem_nil, or_false] at hf
        rcases hf with rfl | rfl | rfl | rfl | rfl <;> rfl
      · rw [List.filter_cons_of_neg (by simpa using hs), ← ih]
        unfold statsYaml
        simp only []
        rw [if_neg hs, List.nil_append, List.singleton_append, readEntries, if_pos (.inl rfl)]
  unfold yamlFile at h
  split at h
  · cases h
  · cases h
    exact key _ hb

/-- **Labels have no colon and no number sign, and tags without these are their own labels.** -/
theorem label_spec (tag : List Char) :
    ':' ∉ label tag ∧ '#' ∉ label tag ∧ (label tag).length = tag.length ∧ (':' ∉ tag → '#' ∉ tag → label tag = tag) := by
  refine ⟨?_, ?_, by simp [label], ?_⟩
  · intro h
    obtain ⟨c, _, e⟩ := List.mem_map.1 h
    split at e
    · exact absurd e (by decide)
    · rename_i hc; exact hc (.inl e)
  · intro h
    obtain ⟨c, _, e⟩ := List.mem_map.1 h
    split at e
    · exact absurd e (by decide)
    · rename_i hc; exact hc (.inr e)
  · intro h1 h2
    unfold label
    conv_rhs => rw [← List.map_id tag]
    apply List.map_congr_left
    intro c hc
    rw [if_neg]
    · rfl
    · rintro (rfl | rfl)
      · exact h1 hc
      · exact h2 hc

/-- **Refuted: that the file tells the tags apart.**  Tags that differ in a colon give two entries of one name. -/
theorem label_refuted :
    ∃ (m : Tags) (fig : ℕ → Figures) (ls : List (List Char)), (m.tags.map Prod.fst).Nodup
      ∧ yamlFile true (timingYaml (fun _ => []) fig) m = some ls
      ∧ (readEntries ls).map Prod.fst = ["a_b".toList, "a_b".toList] := by
  refine ⟨⟨[("a:b".toList, 0), ("a_b".toList, 1)], 3⟩, fun _ => ⟨1, 0, 0, 0, 0, 0, 0⟩, _, by decide, rfl, ?_⟩
  rw [timing_file (m := ⟨[("a:b".toList, 0), ("a_b".toList, 1)], 3⟩) (fig := fun _ => ⟨1, 0, 0, 0, 0, 0, 0⟩) (by decide) rfl]
  decide

end Verif.Statistics
