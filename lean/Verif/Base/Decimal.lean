import Mathlib.Tactic.Ring
import Mathlib.Tactic.IntervalCases
import Mathlib.Data.List.Basic

/-!
# Decimal output of integers

`std::to_string` and `std::ostream << integer` of the C++ standard library, as used in
`aslam/common/time.h` and `aslam/common/unique-id.h`.
-/

namespace Verif.Decimal

/-- Decimal digits of a natural number, most significant first, without leading zeros (`[0]` for zero). -/
def digits (n : Nat) : List Nat :=
  if n < 10 then [n] else digits (n / 10) ++ [n % 10]
  termination_by n

/-- The character of a digit. -/
def digitChar : Nat → Char
  | 0 => '0' | 1 => '1' | 2 => '2' | 3 => '3' | 4 => '4'
  | 5 => '5' | 6 => '6' | 7 => '7' | 8 => '8' | _ => '9'

/-- `std::to_string` of a non-negative integer. -/
def natString (n : Nat) : List Char := (digits n).map digitChar

/-- `std::to_string` of an integer. -/
def intString : Int → List Char
  | .ofNat n => natString n
  | .negSucc n => '-' :: natString (n + 1)

/-- The number denoted by a list of digits, most significant first. -/
def ofDigits (l : List Nat) : Nat := l.foldl (fun a d => 10 * a + d) 0

theorem ofDigits_append (a b : List Nat) :
    ofDigits (a ++ b) = ofDigits a * 10 ^ b.length + ofDigits b := by
  have h : ∀ (l : List Nat) (x : Nat), l.foldl (fun a d => 10 * a + d) x =
      x * 10 ^ l.length + l.foldl (fun a d => 10 * a + d) 0 := by
    intro l
    induction l with
    | nil => intro x; simp
    | cons d l ih =>
      intro x
      rw [List.foldl_cons, List.foldl_cons, ih (10 * x + d), ih (10 * 0 + d), List.length_cons]
      ring
  unfold ofDigits
  rw [List.foldl_append, h]

theorem ofDigits_digits (n : Nat) : ofDigits (digits n) = n := by
  induction n using digits.induct with
  | case1 n h => unfold digits; rw [if_pos h]; simp [ofDigits]
  | case2 n h ih =>
    unfold digits
    rw [if_neg h, ofDigits_append, ih]
    simp [ofDigits]
    omega

theorem digits_lt {n d : Nat} (h : d ∈ digits n) : d < 10 := by
  induction n using digits.induct with
  | case1 n hn =>
    unfold digits at h
    rw [if_pos hn] at h
    simp at h; omega
  | case2 n hn ih =>
    unfold digits at h
    rw [if_neg hn, List.mem_append] at h
    rcases h with h | h
    · exact ih h
    · simp at h; omega

theorem ofDigits_replicate_zero (k : Nat) (l : List Nat) : ofDigits (List.replicate k 0 ++ l) = ofDigits l := by
  have : ofDigits (List.replicate k 0) = 0 := by
    induction k with
    | zero => rfl
    | succ k ih => rw [List.replicate_succ', ofDigits_append, ih]; simp [ofDigits]
  rw [ofDigits_append, this]; simp

theorem digits_ne_nil (n : Nat) : digits n ≠ [] := by
  unfold digits; split <;> simp

/-- The number of digits: at most `k` digits exactly for numbers below `10 ^ k`. -/
theorem digits_length_le {k n : Nat} (hk : 0 < k) (h : n < 10 ^ k) : (digits n).length ≤ k := by
  induction n using digits.induct generalizing k with
  | case1 n hn => unfold digits; rw [if_pos hn, List.length_singleton]; omega
  | case2 n hn ih =>
    unfold digits
    rw [if_neg hn, List.length_append, List.length_singleton]
    obtain ⟨j, rfl⟩ := Nat.exists_eq_succ_of_ne_zero (n := k) (by omega)
    have hj : 0 < j := by
      rcases Nat.eq_zero_or_pos j with rfl | h0
      · simp at h; omega
      · exact h0
    have : n / 10 < 10 ^ j := by
      rw [Nat.pow_succ] at h
      exact Nat.div_lt_of_lt_mul (by omega)
    have := ih hj this
    omega

theorem le_digits_length {k n : Nat} (h : 10 ^ k ≤ n) : k < (digits n).length := by
  induction n using digits.induct generalizing k with
  | case1 n hn =>
    unfold digits
    rw [if_pos hn]
    rcases Nat.eq_zero_or_pos k with rfl | h0
    · simp
    · have : 10 ^ 1 ≤ 10 ^ k := Nat.pow_le_pow_right (by omega) h0
      omega
  | case2 n hn ih =>
    unfold digits
    rw [if_neg hn, List.length_append, List.length_singleton]
    rcases Nat.eq_zero_or_pos k with rfl | h0
    · omega
    · obtain ⟨j, rfl⟩ := Nat.exists_eq_succ_of_ne_zero (n := k) (by omega)
      have : 10 ^ j ≤ n / 10 := by
        rw [Nat.le_div_iff_mul_le (by omega)]
        rw [Nat.pow_succ] at h; omega
      have := ih this
      omega

theorem digitChar_inj {a b : Nat} (ha : a < 10) (hb : b < 10) (h : digitChar a = digitChar b) : a = b := by
  interval_cases a <;> interval_cases b <;> first | rfl | (exact absurd h (by decide))

theorem map_digitChar_inj : ∀ {a b : List Nat}, (∀ d ∈ a, d < 10) → (∀ d ∈ b, d < 10) →
    a.map digitChar = b.map digitChar → a = b
  | [], [], _, _, _ => rfl
  | [], _ :: _, _, _, h => by simp at h
  | _ :: _, [], _, _, h => by simp at h
  | x :: a, y :: b, ha, hb, h => by
    simp only [List.map_cons, List.cons.injEq] at h
    rw [digitChar_inj (ha x List.mem_cons_self) (hb y List.mem_cons_self) h.1,
      map_digitChar_inj (fun d hd => ha d (List.mem_cons_of_mem _ hd))
        (fun d hd => hb d (List.mem_cons_of_mem _ hd)) h.2]

theorem natString_inj {a b : Nat} (h : natString a = natString b) : a = b := by
  have := map_digitChar_inj (fun d => digits_lt) (fun d => digits_lt) h
  rw [← ofDigits_digits a, ← ofDigits_digits b, this]

theorem digitChar_ne_minus (d : Nat) : digitChar d ≠ '-' := by
  unfold digitChar; split <;> decide

theorem minus_notMem (n : Nat) : '-' ∉ natString n := by
  intro h
  obtain ⟨d, _, hd⟩ := List.mem_map.mp h
  exact digitChar_ne_minus d hd

theorem natString_ne_nil (n : Nat) : natString n ≠ [] := by
  unfold natString
  simpa using digits_ne_nil n

theorem intString_inj {a b : Int} (h : intString a = intString b) : a = b := by
  cases a with
  | ofNat a =>
    cases b with
    | ofNat b => rw [natString_inj h]
    | negSucc b =>
      exact absurd (show '-' ∈ natString a by
        have h' : natString a = '-' :: natString (b + 1) := h
        rw [h']; exact List.mem_cons_self) (minus_notMem a)
  | negSucc a =>
    cases b with
    | ofNat b =>
      exact absurd (show '-' ∈ natString b by
        have h' : '-' :: natString (a + 1) = natString b := h
        rw [← h']; exact List.mem_cons_self) (minus_notMem b)
    | negSucc b =>
      have h' : '-' :: natString (a + 1) = '-' :: natString (b + 1) := h
      have := natString_inj (List.cons.inj h').2
      have : a = b := by omega
      rw [this]

/-- Splitting off the last `k` digits. -/
theorem digits_split {k n : Nat} (h : 10 ^ k ≤ n) :
    ∃ low, digits n = digits (n / 10 ^ k) ++ low ∧ low.length = k ∧ ofDigits low = n % 10 ^ k ∧
      ∀ d ∈ low, d < 10 := by
  induction k generalizing n with
  | zero => exact ⟨[], by simp, rfl, by simp [ofDigits, Nat.mod_one], by simp⟩
  | succ k ih =>
    have h10 : ¬ n < 10 := by
      have : 10 ^ 1 ≤ 10 ^ (k + 1) := Nat.pow_le_pow_right (by omega) (by omega)
      omega
    have hdiv : 10 ^ k ≤ n / 10 := by
      rw [Nat.le_div_iff_mul_le (by omega)]
      rw [Nat.pow_succ] at h; omega
    obtain ⟨low, e, hl, hv, hd⟩ := ih hdiv
    refine ⟨low ++ [n % 10], ?_, by simp [hl], ?_, ?_⟩
    · conv_lhs => unfold digits
      rw [if_neg h10, e, List.append_assoc, Nat.div_div_eq_div_mul, Nat.pow_succ, Nat.mul_comm 10]
    · rw [ofDigits_append, hv]
      simp only [List.length_singleton, pow_one]
      have : ofDigits [n % 10] = n % 10 := by simp [ofDigits]
      rw [this, Nat.pow_succ, Nat.mul_comm (10 ^ k) 10, Nat.mod_mul]
      ring
    · intro d hd'
      rcases List.mem_append.mp hd' with h' | h'
      · exact hd d h'
      · simp at h'; omega

end Verif.Decimal
