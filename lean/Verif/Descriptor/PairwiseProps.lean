import Verif.Descriptor.Pairwise
import Mathlib.Data.Nat.Sqrt
import Mathlib.Data.Int.ModEq
import Mathlib.Tactic.Ring
import Mathlib.Tactic.Linarith
import Mathlib.Tactic.LinearCombination

/-!
# Pairwise distances of descriptors (C153)
-/

namespace Verif.Descriptor

open Verif (Outcome)

/-- The squared Euclidean distance of two descriptors, in whole numbers. -/
def distanceSq : List UInt8 → List UInt8 → Nat
  | x :: xs, y :: ys => (max x.toNat y.toNat - min x.toNat y.toNat) ^ 2 + distanceSq xs ys
  | _, _ => 0

/-- The place of the pair of `i < j` among the pairs of `n` things in the order of MATLAB's `pdist`:
(0,1), (0,2), …, (0,n-1), (1,2), …. -/
def pdistIndex (n i j : Nat) : Nat := i * n - i * (i + 1) / 2 + (j - i - 1)

theorem squaredNorm8_eq : ∀ a b : List UInt8, (squaredNorm8 a b).toNat = distanceSq a b % 256
  | [], _ => by simp [squaredNorm8, distanceSq]
  | _ :: _, [] => by simp [squaredNorm8, distanceSq]
  | x :: xs, y :: ys => by
    have ih := squaredNorm8_eq xs ys
    have hx := x.toNat_lt
    have hy := y.toNat_lt
    have key : (2 ^ 8 - x.toNat + y.toNat) * (2 ^ 8 - x.toNat + y.toNat) % 256
        = (max x.toNat y.toNat - min x.toNat y.toNat) ^ 2 % 256 := by
      have : ((2 ^ 8 - x.toNat + y.toNat : Nat) * (2 ^ 8 - x.toNat + y.toNat : Nat)) ≡
          (max x.toNat y.toNat - min x.toNat y.toNat) ^ 2 [MOD 256] := by
        generalize x.toNat = p at *
        generalize y.toNat = q at *
        rcases le_total p q with h | h
        · rw [max_eq_right h, min_eq_left h]
          obtain ⟨d, rfl⟩ := Nat.exists_eq_add_of_le h
          have e : 2 ^ 8 - p + (p + d) = d + 256 := by omega
          have e2 : p + d - p = d := by omega
          rw [e, e2, sq]
          exact Nat.ModEq.mul (by simp [Nat.ModEq]) (by simp [Nat.ModEq])
        · rw [max_eq_left h, min_eq_right h]
          obtain ⟨d, rfl⟩ := Nat.exists_eq_add_of_le h
          have e2 : q + d - q = d := by omega
          have hd : d ≤ 256 := by omega
          have e : 2 ^ 8 - (q + d) + q = 256 - d := by omega
          rw [e, e2]
          obtain ⟨c, hc⟩ := Nat.exists_eq_add_of_le hd
          have e3 : 256 - d = c := by omega
          rw [e3, ← Int.natCast_modEq_iff]
          apply Int.ModEq.symm
          rw [Int.modEq_iff_dvd]
          refine ⟨(c : ℤ) - d, ?_⟩
          have : (256 : ℤ) = d + c := by exact_mod_cast hc
          push_cast
          rw [this]; ring
      exact this
    show (((y - x) * (y - x) + squaredNorm8 xs ys)).toNat = _
    rw [UInt8.toNat_add, UInt8.toNat_mul, UInt8.toNat_sub, ih]
    show _ = ((max x.toNat y.toNat - min x.toNat y.toNat) ^ 2 + distanceSq xs ys) % 256
    rw [Nat.add_mod (_ ^ 2), ← key]
    simp [Nat.add_mod, Nat.mul_mod]

theorem norm8_eq (a b : List UInt8) : (norm8 a b).toNat = Nat.sqrt (distanceSq a b % 256) := by
  unfold norm8
  rw [squaredNorm8_eq, UInt8.toNat_ofNat']
  apply Nat.mod_eq_of_lt
  exact lt_of_le_of_lt (Nat.sqrt_le_self _) (Nat.mod_lt _ (by norm_num))

theorem fillInner_ok (cols : List (List UInt8)) (i : Nat) : ∀ (js : List Nat) (pre rest : List UInt8),
    js.length ≤ rest.length →
    fillInner cols i js (pre ++ rest, pre.length)
      = .ok (pre ++ js.map (fun j => norm8 (column cols i) (column cols j)) ++ rest.drop js.length,
          pre.length + js.length)
  | [], pre, rest, _ => by simp [fillInner]
  | j :: js, pre, [], h => by simp at h
  | j :: js, pre, x :: rest, h => by
    have h' : js.length ≤ rest.length := by simpa using h
    have ih := fillInner_ok cols i js (pre ++ [norm8 (column cols i) (column cols j)]) rest h'
    have e : (pre ++ x :: rest).set pre.length (norm8 (column cols i) (column cols j))
        = pre ++ [norm8 (column cols i) (column cols j)] ++ rest := by simp
    unfold fillInner
    rw [if_pos (by simp), e]
    have e2 : pre.length + 1 = (pre ++ [norm8 (column cols i) (column cols j)]).length := by simp
    rw [e2, ih]
    simp [Nat.add_comm, Nat.add_left_comm]

/-- The distances of descriptor `i` to the later ones. -/
def distancesFrom (cols : List (List UInt8)) (i : Nat) : List UInt8 :=
  (List.range' (i + 1) (cols.length - (i + 1))).map fun j => norm8 (column cols i) (column cols j)

theorem fillOuter_ok (cols : List (List UInt8)) : ∀ (is : List Nat) (pre rest : List UInt8),
    (is.flatMap (distancesFrom cols)).length ≤ rest.length →
    fillOuter cols is (pre ++ rest, pre.length)
      = .ok (pre ++ is.flatMap (distancesFrom cols) ++ rest.drop (is.flatMap (distancesFrom cols)).length,
          pre.length + (is.flatMap (distancesFrom cols)).length)
  | [], pre, rest, _ => by simp [fillOuter]
  | i :: is, pre, rest, h => by
    rw [List.flatMap_cons, List.length_append] at h
    have hl : (List.range' (i + 1) (cols.length - (i + 1))).length = (distancesFrom cols i).length := by
      simp [distancesFrom]
    unfold fillOuter
    rw [fillInner_ok cols i _ pre rest (by rw [hl]; omega)]
    have ih := fillOuter_ok cols is (pre ++ distancesFrom cols i) (rest.drop (distancesFrom cols i).length)
      (by rw [List.length_drop]; omega)
    rw [hl]
    show fillOuter cols is ((pre ++ distancesFrom cols i) ++ rest.drop (distancesFrom cols i).length,
      pre.length + (distancesFrom cols i).length) = _
    rw [← List.length_append, ih]
    simp [Nat.add_assoc]

theorem prefix_length (cols : List (List UInt8)) : ∀ i, i ≤ cols.length →
    2 * ((List.range i).flatMap (distancesFrom cols)).length + i * (i + 1) = 2 * (i * cols.length)
  | 0, _ => by simp
  | i + 1, h => by
    have ih := prefix_length cols i (by omega)
    rw [List.range_succ, List.flatMap_append, List.length_append]
    have hl : ((([i] : List Nat).flatMap (distancesFrom cols))).length = cols.length - (i + 1) := by
      simp [distancesFrom]
    rw [hl]
    obtain ⟨d, hd⟩ := Nat.exists_eq_add_of_le h
    have e : cols.length - (i + 1) = d := by omega
    rw [e]
    rw [hd] at ih ⊢
    nlinarith [ih]

theorem total_length (cols : List (List UInt8)) :
    ((List.range cols.length).flatMap (distancesFrom cols)).length = cols.length * (cols.length - 1) / 2 := by
  have h := prefix_length cols cols.length le_rfl
  generalize ((List.range cols.length).flatMap (distancesFrom cols)).length = L at *
  rcases Nat.eq_zero_or_pos cols.length with h0 | h0
  · rw [h0] at h ⊢; omega
  · obtain ⟨m, hm⟩ : ∃ m, cols.length = m + 1 := ⟨cols.length - 1, by omega⟩
    rw [hm] at h ⊢
    have : (m + 1) * (m + 1 - 1) = 2 * L := by
      rw [Nat.add_sub_cancel]; nlinarith [h]
    rw [this]; omega

theorem pairwise_eq (cols : List (List UInt8)) (junk : Nat → UInt8)
    (h : cols.length * (cols.length - 1) < 2 ^ 31) :
    pairwise cols junk = .ok ((List.range cols.length).flatMap (distancesFrom cols)) := by
  unfold pairwise
  rw [if_pos h]
  have k := fillOuter_ok cols (List.range cols.length) []
    ((List.range (cols.length * (cols.length - 1) / 2)).map junk) (by rw [total_length]; simp)
  simp only [List.nil_append, List.length_nil] at k
  rw [k, total_length]
  simp

/-- C153.  For up to 46341 descriptors the call returns one number per pair; the number of the pair `i < j` is at the
place that `pdist` gives it, whatever was in the result before.  It is the whole part of the root of the squared distance
*modulo 256*. -/
theorem pairwise_values (cols : List (List UInt8)) (junk : Nat → UInt8) (hn : cols.length ≤ 46341) :
    ∃ r, pairwise cols junk = .ok r ∧ r.length = cols.length * (cols.length - 1) / 2 ∧
      ∀ i j a b, i < j → cols[i]? = some a → cols[j]? = some b →
        ∃ v, r[pdistIndex cols.length i j]? = some v ∧ v.toNat = Nat.sqrt (distanceSq a b % 256) := by
  have hlt : cols.length * (cols.length - 1) < 2 ^ 31 := by
    calc cols.length * (cols.length - 1) ≤ 46341 * 46340 := Nat.mul_le_mul hn (by omega)
      _ < 2 ^ 31 := by norm_num
  refine ⟨_, pairwise_eq cols junk hlt, total_length cols, ?_⟩
  intro i j a b hij ha hb
  have hj : j < cols.length := (List.getElem?_eq_some_iff.mp hb).1
  have hi : i < cols.length := by omega
  refine ⟨norm8 a b, ?_, norm8_eq a b⟩
  have hp := prefix_length cols i hi.le
  have hsplit : List.range cols.length = List.range i ++ (i :: List.range' (i + 1) (cols.length - (i + 1))) := by
    rw [List.range_eq_range', List.range_eq_range', ← List.range'_succ]
    have : cols.length = i + (cols.length - (i + 1) + 1) := by omega
    conv_lhs => rw [this]
    rw [← List.range'_append_1]
    simp
  have hidx : pdistIndex cols.length i j
      = ((List.range i).flatMap (distancesFrom cols)).length + (j - i - 1) := by
    unfold pdistIndex
    generalize ((List.range i).flatMap (distancesFrom cols)).length = L at *
    generalize i * cols.length = A at *
    generalize i * (i + 1) = B at *
    omega
  rw [hidx, hsplit, List.flatMap_append, List.getElem?_append_right (by omega), Nat.add_sub_cancel_left,
    List.flatMap_cons, List.getElem?_append_left (by simp [distancesFrom]; omega)]
  unfold distancesFrom
  rw [List.getElem?_map, List.getElem?_range' (by omega)]
  have e : i + 1 + 1 * (j - i - 1) = j := by omega
  simp only [Option.map_some, e]
  unfold column
  rw [List.getD_eq_getElem?_getD, List.getD_eq_getElem?_getD, ha, hb]
  rfl

/-- C153.  Different pairs have different places. -/
theorem places_differ (n i j k l : Nat) (hij : i < j) (hj : j < n) (hkl : k < l) (hl : l < n)
    (h : pdistIndex n i j = pdistIndex n k l) : i = k ∧ j = l := by
  have key : ∀ i j k l : Nat, i < j → j < n → k < l → l < n → i < k → pdistIndex n i j < pdistIndex n k l := by
    intro i j k l hij hj hkl hl hik
    unfold pdistIndex
    have e1 : i * (i + 1) / 2 * 2 = i * (i + 1) := Nat.div_mul_cancel (Nat.even_mul_succ_self i).two_dvd
    have e2 : k * (k + 1) / 2 * 2 = k * (k + 1) := Nat.div_mul_cancel (Nat.even_mul_succ_self k).two_dvd
    have b1 : i * (i + 1) ≤ i * n := Nat.mul_le_mul_left _ (by omega)
    have b2 : k * (k + 1) ≤ k * n := Nat.mul_le_mul_left _ (by omega)
    have : 2 * (i * n) + 2 * (j - i - 1) + k * (k + 1) < 2 * (k * n) + i * (i + 1) + 2 * (l - k - 1) := by
      obtain ⟨d, rfl⟩ : ∃ d, k = i + 1 + d := ⟨k - i - 1, by omega⟩
      obtain ⟨e, rfl⟩ : ∃ e, n = i + 1 + d + 1 + e := ⟨n - (i + 1 + d + 1), by omega⟩
      have hx : j - i - 1 ≤ d + e := by omega
      nlinarith [Nat.zero_le (d * e), Nat.zero_le (d * d), Nat.zero_le (i * d), Nat.zero_le (i * e)]
    generalize i * n = A at *
    generalize k * n = B at *
    generalize i * (i + 1) = C at *
    generalize k * (k + 1) = D at *
    omega
  rcases lt_trichotomy i k with c | c | c
  · have := key i j k l hij hj hkl hl c; omega
  · subst c
    refine ⟨rfl, ?_⟩
    unfold pdistIndex at h
    omega
  · have := key k l i j hkl hl hij hj c; omega

/-- C153.  Descriptors closer than 16 get the whole part of their distance. -/
theorem close_pairs (cols : List (List UInt8)) (junk : Nat → UInt8) (hn : cols.length ≤ 46341) (i j : Nat)
    (a b : List UInt8) (hij : i < j) (ha : cols[i]? = some a) (hb : cols[j]? = some b)
    (hclose : distanceSq a b < 256) :
    ∃ r v, pairwise cols junk = .ok r ∧ r[pdistIndex cols.length i j]? = some v ∧
      v.toNat ^ 2 ≤ distanceSq a b ∧ distanceSq a b < (v.toNat + 1) ^ 2 := by
  obtain ⟨r, hr, _, hv⟩ := pairwise_values cols junk hn
  obtain ⟨v, h1, h2⟩ := hv i j a b hij ha hb
  rw [Nat.mod_eq_of_lt hclose] at h2
  refine ⟨r, v, hr, h1, ?_, ?_⟩
  · rw [h2]; exact Nat.sqrt_le' _
  · rw [h2]; exact Nat.lt_succ_sqrt' _

/-- C153.  No number returned is more than 15. -/
theorem at_most_fifteen (cols : List (List UInt8)) (junk : Nat → UInt8) (r : List UInt8)
    (h : pairwise cols junk = .ok r) (v : UInt8) (hv : v ∈ r) : v.toNat ≤ 15 := by
  by_cases hlt : cols.length * (cols.length - 1) < 2 ^ 31
  · rw [pairwise_eq cols junk hlt] at h
    cases h
    obtain ⟨i, _, hi⟩ := List.mem_flatMap.mp hv
    unfold distancesFrom at hi
    obtain ⟨j, _, rfl⟩ := List.mem_map.mp hi
    rw [norm8_eq]
    have h1 : distanceSq (column cols i) (column cols j) % 256 < 256 := Nat.mod_lt _ (by norm_num)
    have : Nat.sqrt (distanceSq (column cols i) (column cols j) % 256) < 16 := by
      rw [Nat.sqrt_lt']; omega
    omega
  · unfold pairwise at h
    rw [if_neg hlt] at h
    cases h

/-- C153 refuted: the numbers are not the Euclidean distances.  Two descriptors that differ by 16 in one byte are said to
be 0 apart. -/
theorem pairwise_distance_refuted : ∃ (cols : List (List UInt8)) (a b : List UInt8),
    cols = [a, b] ∧ distanceSq a b = 16 ^ 2 ∧ ∀ junk, pairwise cols junk = .ok [0] := by
  refine ⟨[[0], [16]], [0], [16], rfl, by decide, ?_⟩
  intro junk
  rw [pairwise_eq _ _ (by decide)]
  decide +kernel

/-- C153 refuted: more than 46341 descriptors overflow the `int` product that sizes the result. -/
theorem pairwise_overflow_refuted (cols : List (List UInt8)) (junk : Nat → UInt8) (h : 46341 < cols.length) :
    pairwise cols junk = .ub := by
  unfold pairwise
  rw [if_neg]
  have : 46342 * 46341 ≤ cols.length * (cols.length - 1) := Nat.mul_le_mul (by omega) (by omega)
  have h2 : (2 : Nat) ^ 31 ≤ 46342 * 46341 := by norm_num
  omega

/-- Three descriptors of two bytes: distances 5, √425 (20 would be the whole part, 13 is returned) and √250. -/
example : pairwise [[0, 0], [3, 4], [8, 19]] (fun _ => 7) = .ok [5, 13, 15] := by
  rw [pairwise_eq _ _ (by decide)]
  decide +kernel

end Verif.Descriptor
