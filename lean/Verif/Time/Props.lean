import Verif.Time.Model

/-!
# Property C27
-/

namespace Verif.Time

open Verif (Outcome)
open Verif.Double

/-- The largest number of whole units for which the conversions are exact: the number of nanoseconds divided
by its power of two fits into 53 bits. -/
def exactBound : TimeUnit → ℤ
  | .sec => 4611686018
  | .milli => 576460752303
  | .micro => 72057594037927
  | .nano => 9007199254740992

theorem isDouble_units {u : TimeUnit} {k : ℤ} (hk : |k| ≤ exactBound u) :
    IsDouble ((k * u.nanoseconds : ℤ) : ℚ) ∧ -2 ^ 63 ≤ k * u.nanoseconds ∧ k * u.nanoseconds < 2 ^ 63 := by
  have hk' := abs_le.mp hk
  cases u with
  | sec =>
    simp only [exactBound] at hk'
    refine ⟨?_, ?_, ?_⟩
    · have : ((k * TimeUnit.sec.nanoseconds : ℤ) : ℚ) = ((k * 5 ^ 9 : ℤ) : ℚ) * (2 : ℚ) ^ (9 : ℤ) := by
        simp only [TimeUnit.nanoseconds]; push_cast; ring
      rw [this]
      exact isDouble_mul (by rw [abs_le]; constructor <;> omega)
    · simp only [TimeUnit.nanoseconds]; omega
    · simp only [TimeUnit.nanoseconds]; omega
  | milli =>
    simp only [exactBound] at hk'
    refine ⟨?_, ?_, ?_⟩
    · have : ((k * TimeUnit.milli.nanoseconds : ℤ) : ℚ) = ((k * 5 ^ 6 : ℤ) : ℚ) * (2 : ℚ) ^ (6 : ℤ) := by
        simp only [TimeUnit.nanoseconds]; push_cast; ring
      rw [this]
      exact isDouble_mul (by rw [abs_le]; constructor <;> omega)
    · simp only [TimeUnit.nanoseconds]; omega
    · simp only [TimeUnit.nanoseconds]; omega
  | micro =>
    simp only [exactBound] at hk'
    refine ⟨?_, ?_, ?_⟩
    · have : ((k * TimeUnit.micro.nanoseconds : ℤ) : ℚ) = ((k * 5 ^ 3 : ℤ) : ℚ) * (2 : ℚ) ^ (3 : ℤ) := by
        simp only [TimeUnit.nanoseconds]; push_cast; ring
      rw [this]
      exact isDouble_mul (by rw [abs_le]; constructor <;> omega)
    · simp only [TimeUnit.nanoseconds]; omega
    · simp only [TimeUnit.nanoseconds]; omega
  | nano =>
    simp only [exactBound] at hk'
    refine ⟨?_, ?_, ?_⟩
    · simp only [TimeUnit.nanoseconds, mul_one]
      exact isDouble_int (by rw [abs_le]; constructor <;> omega)
    · simp only [TimeUnit.nanoseconds]; omega
    · simp only [TimeUnit.nanoseconds]; omega

theorem isDouble_k {u : TimeUnit} {k : ℤ} (hk : |k| ≤ exactBound u) : IsDouble k :=
  isDouble_int (hk.trans (by cases u <;> norm_num [exactBound]))

/-- **C27 (whole units, partial).** In every rounding to nearest, for whole numbers of seconds, milliseconds
and microseconds up to the bounds above, `unit(k)`, `from_unit(k)` and `to_unit` invert each other exactly.
Missing: larger numbers, for which it is false. -/
theorem whole_units_partial {rnd : ℚ → ℚ} (hr : IsNearest rnd) (u : TimeUnit) (k : ℤ)
    (hk : |k| ≤ exactBound u) :
    ∃ t, ofUnits u k = .ok t ∧ fromUnits rnd u k = .ok t ∧ toUnits rnd u t = k ∧
      fromUnits rnd u (toUnits rnd u t) = .ok t := by
  obtain ⟨hd, h1, h2⟩ := isDouble_units hk
  have hu : (u.nanoseconds : ℚ) ≠ 0 := by cases u <;> norm_num [TimeUnit.nanoseconds]
  have hfrom : fromUnits rnd u k = .ok (k * u.nanoseconds) := by
    unfold fromUnits
    rw [show (k : ℚ) * u.nanoseconds = ((k * u.nanoseconds : ℤ) : ℚ) by push_cast; ring, hr.exact hd]
    unfold trunc int64
    rw [Int.floor_intCast, Int.ceil_intCast, ite_self, if_pos ⟨h1, h2⟩]
  have hto : toUnits rnd u (k * u.nanoseconds) = k := by
    unfold toUnits
    rw [hr.exact hd]
    rw [show (((k * u.nanoseconds : ℤ) : ℚ)) / u.nanoseconds = k by push_cast; field_simp]
    exact hr.exact (isDouble_k hk)
  refine ⟨k * u.nanoseconds, ?_, hfrom, hto, ?_⟩
  · unfold ofUnits int64; rw [if_pos ⟨h1, h2⟩]
  · rw [hto]; exact hfrom

/-- Non-vacuity: rounding to nearest exists; a time of today in seconds is in range. -/
example : (∃ rnd, IsNearest rnd) ∧ |(1763280000 : ℤ)| ≤ exactBound .sec :=
  ⟨exists_isNearest, by norm_num [exactBound]⟩

/-- **C27 refuted.** For a time of November 2023 in milliseconds neither direction is exact, in any rounding
to nearest. -/
theorem whole_units_refuted {rnd : ℚ → ℚ} (hr : IsNearest rnd) :
    ofUnits .milli 1700829521486 = .ok 1700829521486000000 ∧
    toUnits rnd .milli 1700829521486000000 ≠ 1700829521486 ∧
    fromUnits rnd .milli 1700829521486 ≠ .ok 1700829521486000000 := by
  -- the number of nanoseconds lies half way between two doubles
  have hnear : rnd 1700829521486000000 = 1700829521486000128 ∨
      rnd 1700829521486000000 = 1700829521485999872 := by
    obtain ⟨h1, h2⟩ := hr 1700829521486000000
    have h3 := h2 1700829521486000128 (by
      rw [show (1700829521486000128 : ℚ) = ((6643865318304688 : ℤ) : ℚ) * (2 : ℚ) ^ (8 : ℤ) by norm_num]
      exact isDouble_mul (by norm_num))
    have h4 : |rnd 1700829521486000000 - 1700829521486000000| ≤ 128 := h3.trans (by norm_num)
    obtain ⟨h5, h6⟩ := abs_le.mp h4
    obtain ⟨n, hn⟩ := multiple_of_large (e := 8) h1 (by
      rw [abs_of_nonneg (by linarith)]
      norm_num
      linarith)
    have e8 : (2 : ℚ) ^ (8 : ℤ) = 256 := by norm_num
    rw [e8] at hn
    rw [hn] at h5 h6 ⊢
    have h7 : (1700829521485999872 : ℚ) ≤ (n : ℚ) * 256 := by linarith
    have h8 : (n : ℚ) * 256 ≤ 1700829521486000128 := by linarith
    have h9 : (1700829521485999872 : ℤ) ≤ n * 256 := by exact_mod_cast h7
    have h10 : n * 256 ≤ (1700829521486000128 : ℤ) := by exact_mod_cast h8
    have : n = 6643865318304688 ∨ n = 6643865318304687 := by omega
    rcases this with rfl | rfl
    · left; norm_num
    · right; norm_num
  refine ⟨by unfold ofUnits int64 TimeUnit.nanoseconds; norm_num, ?_, ?_⟩
  · unfold toUnits
    have e : ((1700829521486000000 : ℤ) : ℚ) = 1700829521486000000 := by norm_num
    have e6 : ((TimeUnit.nanoseconds .milli : ℤ) : ℚ) = 1000000 := by
      norm_num [TimeUnit.nanoseconds]
    rw [e, e6]
    have e12 : (2 : ℚ) ^ (-12 : ℤ) = 1 / 4096 := by norm_num
    rcases hnear with h | h
    · rw [h, hr.eq_of_close (e := -12) (n := 6966597720006657) (by norm_num) (by norm_num)
        (by rw [e12, abs_lt]; constructor <;> norm_num), e12]
      norm_num
    · rw [h, hr.eq_of_close (e := -12) (n := 6966597720006655) (by norm_num) (by norm_num)
        (by rw [e12, abs_lt]; constructor <;> norm_num), e12]
      norm_num
  · unfold fromUnits
    have e : (1700829521486 : ℚ) * (TimeUnit.nanoseconds .milli : ℤ) = 1700829521486000000 := by
      norm_num [TimeUnit.nanoseconds]
    rw [e]
    rcases hnear with h | h
    · rw [h]
      unfold trunc
      rw [if_pos (by norm_num), show (1700829521486000128 : ℚ) = ((1700829521486000128 : ℤ) : ℚ) by norm_num,
        Int.floor_intCast]
      unfold int64
      rw [if_pos (by norm_num)]
      simp
    · rw [h]
      unfold trunc
      rw [if_pos (by norm_num), show (1700829521485999872 : ℚ) = ((1700829521485999872 : ℤ) : ℚ) by norm_num,
        Int.floor_intCast]
      unfold int64
      rw [if_pos (by norm_num)]
      simp

/-- **C27 (validity).** Exactly the smallest `int64_t` is invalid. -/
theorem validTime_iff (t : ℤ) : isValidTime t = true ↔ t ≠ -9223372036854775808 := by
  unfold isValidTime invalidTime
  rw [decide_eq_true_eq]
  norm_num

/-! ### Printing -/

/-- **C27 (printing determines the timestamp).** -/
theorem timeString_injective {a b : ℤ} (h : timeString a = timeString b) : a = b := by
  apply Decimal.intString_inj
  unfold timeString at h
  generalize Decimal.intString a = s at h
  generalize Decimal.intString b = t at h
  simp only at h
  by_cases hs : s.length < 10
  · rw [if_pos hs] at h
    by_cases ht : t.length < 10
    · rw [if_pos ht] at h
      exact List.append_cancel_right h
    · rw [if_neg ht] at h
      have := congrArg List.length h
      simp only [List.length_append, List.length_take, List.length_drop, List.length_cons,
        List.length_nil] at this
      omega
  · rw [if_neg hs] at h
    by_cases ht : t.length < 10
    · rw [if_pos ht] at h
      have := congrArg List.length h
      simp only [List.length_append, List.length_take, List.length_drop, List.length_cons,
        List.length_nil] at this
      omega
    · rw [if_neg ht] at h
      have hl := congrArg List.length h
      simp only [List.length_append, List.length_take, List.length_drop, List.length_cons,
        List.length_nil] at hl
      have hlen : s.length = t.length := by omega
      have h1 := List.append_cancel_right h
      have h2 := List.append_inj h1 (by
        simp only [List.length_append, List.length_take, List.length_cons, List.length_nil]; omega)
      have h3 := List.append_cancel_right h2.1
      rw [← List.take_append_drop (s.length - 9) s, ← List.take_append_drop (t.length - 9) t, h3, h2.2]

/-- Nine decimal digits. -/
def NineDigits (l : List Char) (value : Nat) : Prop :=
  ∃ ds : List Nat, l = ds.map Decimal.digitChar ∧ ds.length = 9 ∧ (∀ d ∈ ds, d < 10) ∧
    Decimal.ofDigits ds = value

theorem natString_split {n : Nat} (h : 10 ^ 9 ≤ n) : ∃ low, Decimal.natString n =
    Decimal.natString (n / 10 ^ 9) ++ low ∧ low.length = 9 ∧ NineDigits low (n % 10 ^ 9) := by
  obtain ⟨low, e, hl, hv, hd⟩ := Decimal.digits_split h
  refine ⟨low.map Decimal.digitChar, ?_, by simpa using hl, ⟨low, rfl, hl, hd, hv⟩⟩
  unfold Decimal.natString
  rw [e, List.map_append]

theorem natString_short {n : Nat} (h : n < 10 ^ 9) : (Decimal.natString n).length ≤ 9 := by
  unfold Decimal.natString
  rw [List.length_map]
  exact Decimal.digits_length_le (by omega) h

theorem timeString_long {s high low : List Char} (e : s = high ++ low) (hl : low.length = 9)
    (hh : high ≠ []) :
    (if s.length < 10 then s ++ ['n', 's']
      else s.take (s.length - 9) ++ ['s', ' '] ++ s.drop (s.length - 9) ++ ['n', 's']) =
    high ++ ['s', ' '] ++ low ++ ['n', 's'] := by
  have h1 : 0 < high.length := List.length_pos_of_ne_nil hh
  have h2 : s.length - 9 = high.length := by rw [e, List.length_append]; omega
  rw [if_neg (by rw [e, List.length_append]; omega), h2, e, List.take_left, List.drop_left]

/-- **C27 (format, partial).** Seconds and nine digits of nanoseconds from one second on (with a sign for
negative times), plain nanoseconds below.  Missing: times between `-10^9` and `-10^8` (exclusive), for which
the seconds are missing. -/
theorem timeString_format_partial (t : ℤ) :
    ((10 : ℤ) ^ 9 ≤ t → ∃ low, timeString t =
      Decimal.natString (t / 10 ^ 9).toNat ++ ['s', ' '] ++ low ++ ['n', 's'] ∧
        NineDigits low (t % 10 ^ 9).toNat) ∧
    (t ≤ -10 ^ 9 → ∃ low, timeString t =
      '-' :: Decimal.natString (-t / 10 ^ 9).toNat ++ ['s', ' '] ++ low ++ ['n', 's'] ∧
        NineDigits low (-t % 10 ^ 9).toNat) ∧
    (-10 ^ 8 < t ∧ t < 10 ^ 9 → timeString t = Decimal.intString t ++ ['n', 's']) := by
  refine ⟨?_, ?_, ?_⟩
  · intro h
    obtain ⟨n, rfl⟩ := Int.eq_ofNat_of_zero_le (show 0 ≤ t by omega)
    obtain ⟨low, e, hl, hn⟩ := natString_split (n := n) (by omega)
    refine ⟨low, ?_, ?_⟩
    · have : ((n : ℤ) / 10 ^ 9).toNat = n / 10 ^ 9 := by omega
      rw [this]
      exact timeString_long e hl (Decimal.natString_ne_nil _)
    · have : ((n : ℤ) % 10 ^ 9).toNat = n % 10 ^ 9 := by omega
      rw [this]; exact hn
  · intro h
    obtain ⟨n, rfl⟩ := Int.eq_negSucc_of_lt_zero (show t < 0 by omega)
    obtain ⟨low, e, hl, hn⟩ := natString_split (n := n + 1) (by omega)
    refine ⟨low, ?_, ?_⟩
    · have : (-Int.negSucc n / 10 ^ 9).toNat = (n + 1) / 10 ^ 9 := by omega
      rw [this]
      exact timeString_long (high := '-' :: Decimal.natString ((n + 1) / 10 ^ 9))
        (show Decimal.intString (Int.negSucc n) = _ by
          show '-' :: Decimal.natString (n + 1) = _
          rw [e]; rfl) hl (by simp)
    · have : (-Int.negSucc n % 10 ^ 9).toNat = (n + 1) % 10 ^ 9 := by omega
      rw [this]; exact hn
  · rintro ⟨h1, h2⟩
    unfold timeString
    simp only
    rw [if_pos]
    rcases Int.lt_or_le t 0 with h | h
    · obtain ⟨n, rfl⟩ := Int.eq_negSucc_of_lt_zero h
      show ('-' :: Decimal.natString (n + 1)).length < 10
      rw [List.length_cons]
      have : (Decimal.natString (n + 1)).length ≤ 8 := by
        unfold Decimal.natString
        rw [List.length_map]
        exact Decimal.digits_length_le (by omega) (by omega)
      omega
    · obtain ⟨n, rfl⟩ := Int.eq_ofNat_of_zero_le h
      have : (Decimal.natString n).length ≤ 9 := natString_short (by omega)
      show (Decimal.natString n).length < 10
      omega

/-- Non-vacuity and **C27 refuted (format)**: a negative time below one second is printed with empty
seconds. -/
theorem timeString_format_refuted : timeString (-123456789) = "-s 123456789ns".toList := by
  have h : Decimal.digits 123456789 = [1, 2, 3, 4, 5, 6, 7, 8, 9] := by
    iterate 9 (rw [Decimal.digits]; simp only [Nat.reduceLT, ↓reduceIte, Nat.reduceDiv, Nat.reduceMod])
    rfl
  have : Decimal.intString (-123456789) = '-' :: Decimal.natString 123456789 := rfl
  unfold timeString
  rw [this]
  unfold Decimal.natString
  rw [h]
  decide

end Verif.Time
