import Verif.Descriptor.Props
import Mathlib.Tactic.IntervalCases

/-!
# Spread statistics of long descriptors

The counters of `hamming-inl.h:88-137` have eight bits (C46), so that the median and the mean absolute deviation of
descriptors of more than 496 bytes can be wrong (descriptor-utils.h:68-132).
-/

namespace Verif.Descriptor

open Verif (Outcome)
open Verif.Hamming (bit distance laneDistance evaluate)

/-- 512 bytes without any bit. -/
def zeros : List UInt8 := List.replicate 512 0

/-- 512 bytes with all bits. -/
def ones : List UInt8 := List.replicate 512 255

/-- All bits but the first. -/
def nearly : List UInt8 := 254 :: List.replicate 511 255

theorem bit_zeros (k : Nat) : bit zeros k = false := by
  unfold bit zeros
  rw [List.getD_eq_getElem?_getD, List.getElem?_replicate]
  split <;> simp

theorem bit_255 {j : Nat} (h : j < 8) : (255 : UInt8).toNat.testBit j = true := by
  interval_cases j <;> decide

theorem bit_ones {k : Nat} (h : k < 4096) : bit ones k = true := by
  unfold bit ones
  rw [List.getD_eq_getElem?_getD, List.getElem?_replicate, if_pos (by omega)]
  exact bit_255 (Nat.mod_lt _ (by norm_num))

theorem bit_nearly {k : Nat} (h : k < 4096) : bit nearly k = decide (k ≠ 0) := by
  unfold bit nearly
  rw [List.getD_eq_getElem?_getD]
  by_cases h8 : k / 8 = 0
  · rw [h8]
    have h9 : k % 8 = k := by omega
    rw [h9]
    have : k < 8 := by omega
    clear h h8 h9
    interval_cases k <;> decide
  · obtain ⟨m, hm⟩ := Nat.exists_eq_succ_of_ne_zero h8
    rw [hm, List.getElem?_cons_succ, List.getElem?_replicate, if_pos (by omega)]
    rw [show (some (255 : UInt8)).getD 0 = 255 from rfl, bit_255 (Nat.mod_lt _ (by norm_num))]
    have : k ≠ 0 := by omega
    simp [this]

/-- What is computed for descriptors of 512 bytes with these bits. -/
theorem evaluate_long {addrA addrB : Nat} {a b : List UInt8} (hA : addrA % 16 = 0) (hB : addrB % 16 = 0) (ha : 512 ≤ a.length)
    (hb : 512 ≤ b.length) {f g : Nat → Bool} (hf : ∀ k < 4096, bit a k = f k) (hg : ∀ k < 4096, bit b k = g k) :
    evaluate addrA addrB a b 512
      = .ok (∑ l ∈ Finset.range 16, ((Finset.range 4096).filter fun k => k / 8 % 16 = l ∧ f k ≠ g k).card % 256) := by
  rw [Hamming.ssse3_exact hA hB (by norm_num) ha hb]
  refine congrArg Outcome.ok (Finset.sum_congr rfl fun l _ => ?_)
  have h : ((Finset.range 4096).filter fun k => k / 8 % 16 = l ∧ bit a k ≠ bit b k)
      = (Finset.range 4096).filter fun k => k / 8 % 16 = l ∧ f k ≠ g k := by
    apply Finset.filter_congr
    intro k hk
    have := Finset.mem_range.1 hk
    rw [hf k this, hg k this]
  rw [← h]
  rfl

theorem distance_long {a b : List UInt8} {f g : Nat → Bool} (hf : ∀ k < 4096, bit a k = f k) (hg : ∀ k < 4096, bit b k = g k) :
    distance (8 * 512) a b = ((Finset.range 4096).filter fun k => f k ≠ g k).card := by
  have h : ((Finset.range 4096).filter fun k => bit a k ≠ bit b k) = (Finset.range 4096).filter fun k => f k ≠ g k := by
    apply Finset.filter_congr
    intro k hk
    have := Finset.mem_range.1 hk
    rw [hf k this, hg k this]
  rw [← h]
  rfl

theorem lanes (l : Nat) (hl : l < 16) : ((Finset.range 4096).filter fun k => k / 8 % 16 = l).card = 256 := by
  interval_cases l <;> decide +kernel

theorem sum_none : (∑ l ∈ Finset.range 16, ((Finset.range 4096).filter fun k => k / 8 % 16 = l ∧ false ≠ false).card % 256) = 0 := by
  simp

theorem sum_all : (∑ l ∈ Finset.range 16, ((Finset.range 4096).filter fun k => k / 8 % 16 = l ∧ false ≠ true).card % 256) = 0 := by
  apply Finset.sum_eq_zero
  intro l hl
  have := lanes l (Finset.mem_range.1 hl)
  simp [this]

theorem sum_first : (∑ l ∈ Finset.range 16, ((Finset.range 4096).filter fun k => k / 8 % 16 = l ∧ true ≠ decide (k ≠ 0)).card % 256)
    = 1 := by
  have h : ∀ l, ((Finset.range 4096).filter fun k => k / 8 % 16 = l ∧ true ≠ decide (k ≠ 0)) = if l = 0 then {0} else ∅ := by
    intro l
    ext k
    by_cases hl : l = 0
    · subst hl
      simp only [ne_eq, Finset.mem_filter, Finset.mem_range, if_true, Finset.mem_singleton]
      constructor
      · rintro ⟨_, _, h⟩
        by_contra hk
        exact h (by simp [hk])
      · rintro rfl
        simp
    · simp only [ne_eq, Finset.mem_filter, Finset.mem_range, if_neg hl, Finset.notMem_empty, iff_false]
      rintro ⟨_, h1, h⟩
      apply h
      have : k ≠ 0 := by rintro rfl; exact hl (by simpa using h1.symm)
      simp [this]
  simp only [h]
  rw [Finset.sum_eq_single 0] <;> simp +contextual

theorem sum_rest : (∑ l ∈ Finset.range 16, ((Finset.range 4096).filter fun k => k / 8 % 16 = l ∧ false ≠ decide (k ≠ 0)).card % 256)
    = 255 := by
  have h : ∀ l, ((Finset.range 4096).filter fun k => k / 8 % 16 = l ∧ false ≠ decide (k ≠ 0))
      = if l = 0 then ((Finset.range 4096).filter fun k => k / 8 % 16 = l).erase 0
        else (Finset.range 4096).filter fun k => k / 8 % 16 = l := by
    intro l
    ext k
    by_cases hl : l = 0
    · subst hl
      simp only [ne_eq, Finset.mem_filter, Finset.mem_range, if_true, Finset.mem_erase]
      constructor
      · rintro ⟨h0, h1, h⟩
        exact ⟨fun hk => h (by simp [hk]), h0, h1⟩
      · rintro ⟨h, h0, h1⟩
        exact ⟨h0, h1, by simp [h]⟩
    · simp only [ne_eq, Finset.mem_filter, Finset.mem_range, if_neg hl]
      constructor
      · rintro ⟨h0, h1, h⟩
        exact ⟨h0, h1⟩
      · rintro ⟨h0, h1⟩
        have : k ≠ 0 := by rintro rfl; exact hl (by simpa using h1.symm)
        exact ⟨h0, h1, by simp [this]⟩
  simp only [h]
  rw [Finset.sum_eq_single 0]
  · rw [if_pos rfl, Finset.card_erase_of_mem (by simp), lanes 0 (by norm_num)]
  · intro l hl h0
    rw [if_neg h0, lanes l (Finset.mem_range.1 hl), Nat.mod_self]
  · intro h; simp at h

/-- Three descriptors without any bit, one with all bits, and that one without its first bit. -/
def longColumns : List (List UInt8) := [zeros, zeros, zeros, ones, nearly]

theorem longColumns_length : ∀ d ∈ longColumns, d.length = 512 := by
  unfold longColumns zeros ones nearly
  simp only [List.mem_cons, List.not_mem_nil, or_false]
  rintro d (h | h | h | h | h) <;> subst h <;> simp only [List.length_replicate, List.length_cons]

theorem columnDistance_long {i j : Nat} {d e : List UInt8} {f g : Nat → Bool} (hi : longColumns[i]? = some d)
    (hj : longColumns[j]? = some e) (hf : ∀ k < 4096, bit d k = f k) (hg : ∀ k < 4096, bit e k = g k) :
    columnDistance 0 512 longColumns i j
      = .ok (∑ l ∈ Finset.range 16, ((Finset.range 4096).filter fun k => k / 8 % 16 = l ∧ f k ≠ g k).card % 256) := by
  obtain ⟨r, hr⟩ := flatten_drop longColumns_length hi
  obtain ⟨s, hs⟩ := flatten_drop longColumns_length hj
  have hd := longColumns_length d (List.mem_of_getElem? hi)
  have he := longColumns_length e (List.mem_of_getElem? hj)
  unfold columnDistance
  rw [hr, hs]
  exact evaluate_long (by omega) (by omega) (by rw [List.length_append]; omega) (by rw [List.length_append]; omega)
    (fun k hk => by rw [bit_append (by omega)]; exact hf k hk) (fun k hk => by rw [bit_append (by omega)]; exact hg k hk)

theorem entries : ∀ i < 5, ∀ j < 5, entry 0 512 longColumns i j
    = .ok (if i = j then 0 else if i = 4 ∨ j = 4 then (if i = 3 ∨ j = 3 then 1 else 255) else 0) := by
  have zz : ∀ i j, longColumns[i]? = some zeros → longColumns[j]? = some zeros → columnDistance 0 512 longColumns i j = .ok 0 :=
    fun i j hi hj => by
      rw [columnDistance_long hi hj (f := fun _ => false) (g := fun _ => false) (fun k _ => bit_zeros k) (fun k _ => bit_zeros k),
        sum_none]
  have zo : ∀ i j, longColumns[i]? = some zeros → longColumns[j]? = some ones → columnDistance 0 512 longColumns i j = .ok 0 :=
    fun i j hi hj => by
      rw [columnDistance_long hi hj (f := fun _ => false) (g := fun _ => true) (fun k _ => bit_zeros k) (fun k h => bit_ones h),
        sum_all]
  have zn : ∀ i j, longColumns[i]? = some zeros → longColumns[j]? = some nearly → columnDistance 0 512 longColumns i j = .ok 255 :=
    fun i j hi hj => by
      rw [columnDistance_long hi hj (f := fun _ => false) (g := fun k => decide (k ≠ 0)) (fun k _ => bit_zeros k)
        (fun k h => bit_nearly h), sum_rest]
  have on : ∀ i j, longColumns[i]? = some ones → longColumns[j]? = some nearly → columnDistance 0 512 longColumns i j = .ok 1 :=
    fun i j hi hj => by
      rw [columnDistance_long hi hj (f := fun _ => true) (g := fun k => decide (k ≠ 0)) (fun k h => bit_ones h)
        (fun k h => bit_nearly h), sum_first]
  intro i hi j hj
  unfold entry
  interval_cases i <;> interval_cases j <;> norm_num <;>
    first
    | exact zz _ _ rfl rfl
    | exact zo _ _ rfl rfl
    | exact zn _ _ rfl rfl
    | exact on _ _ rfl rfl

theorem longColumns_sums : columnSums 0 512 longColumns (List.range 5) = .ok [255, 255, 255, 1, 766] := by
  have h : ∀ j < 5, columnSum 0 512 longColumns j (List.range 5)
      = .ok (if j = 4 then 766 else if j = 3 then 1 else 255) := by
    intro j hj
    rw [show List.range 5 = [0, 1, 2, 3, 4] from rfl]
    unfold columnSum columnSum columnSum columnSum columnSum columnSum
    rw [entries 0 (by norm_num) j hj, entries 1 (by norm_num) j hj, entries 2 (by norm_num) j hj, entries 3 (by norm_num) j hj,
      entries 4 (by norm_num) j hj]
    simp only [Outcome.bind_ok]
    interval_cases j <;> rfl
  rw [show List.range 5 = [0, 1, 2, 3, 4] from rfl]
  unfold columnSums columnSums columnSums columnSums columnSums columnSums
  rw [show longColumns.length = 5 from rfl, h 0 (by norm_num), h 1 (by norm_num), h 2 (by norm_num), h 3 (by norm_num),
    h 4 (by norm_num)]
  rfl

/-- Of these descriptors with 512 bytes the one with all bits is chosen, though the ones without bits are closer to the rest:
the distances are wrong (C46). -/
theorem median_long_refuted {argmin : List Nat → Nat}
    (ha : ∀ l, l ≠ [] → argmin l < l.length ∧ ∀ x ∈ l, l.getD (argmin l) 0 ≤ x) :
    medianIndex argmin 0 512 longColumns = .ok 3 ∧ longColumns[3]? = some ones ∧ zeros ∈ longColumns ∧
      summedDistance (8 * 512) longColumns zeros < summedDistance (8 * 512) longColumns ones := by
  refine ⟨?_, rfl, by simp [longColumns], ?_⟩
  · unfold medianIndex
    rw [if_pos (by norm_num), show longColumns.length = 5 from rfl, longColumns_sums, Outcome.bind_ok, if_neg (by simp)]
    obtain ⟨h1, h2⟩ := ha [255, 255, 255, 1, 766] (by simp)
    have h3 := h2 1 (by simp)
    have h4 : argmin [255, 255, 255, 1, 766] < 5 := h1
    rw [if_pos h4]
    generalize argmin [255, 255, 255, 1, 766] = k at h3 h4
    interval_cases k <;> simp_all
  · have zo : distance (8 * 512) zeros ones = 4096 := by
      rw [distance_long (f := fun _ => false) (g := fun _ => true) (fun k _ => bit_zeros k) (fun k h => bit_ones h)]
      simp
    have zn : distance (8 * 512) nearly zeros ≤ 4096 := by
      unfold distance
      exact (Finset.card_filter_le _ _).trans (by simp)
    unfold summedDistance longColumns
    simp only [List.map_cons, List.map_nil, List.sum_cons, List.sum_nil, distance_self]
    rw [distance_comm _ ones zeros, zo]
    omega

/-- The mean absolute deviation of three descriptors with 512 bytes is zero, though the summed distance from any descriptor is
4096 or more. -/
theorem deviation_long_refuted : absoluteDeviation 0 4096 512 [zeros, zeros, ones] = .ok 0 ∧
    ∀ d : List UInt8, 4096 ≤ summedDistance (8 * 512) [zeros, zeros, ones] d := by
  have hc : ∀ d ∈ [zeros, zeros, ones], d.length = 512 := by
    unfold zeros ones
    simp only [List.mem_cons, List.not_mem_nil, or_false]
    rintro d (h | h | h) <;> subst h <;> simp only [List.length_replicate]
  obtain ⟨m, hm, hl, hb⟩ := mean_is_majority (rows := 512) (by norm_num) hc
  have hbit : ∀ k < 4096, bit m k = false := by
    intro k hk
    have := hb k (by omega)
    have hv : votes [zeros, zeros, ones] k = 1 := by
      unfold votes
      simp [List.countP_cons, bit_zeros, bit_ones hk]
    rw [hv] at this
    simpa using this
  constructor
  · unfold absoluteDeviation
    rw [if_neg (by simp), hm, Outcome.bind_ok]
    have h0 : ∀ i d, [zeros, zeros, ones][i]? = some d → ∀ x : Bool, (∀ k < 4096, bit d k = x) →
        evaluate (0 + 512 * i) 4096 ([zeros, zeros, ones].drop i).flatten m 512 = .ok 0 := by
      intro i d hd x hx
      obtain ⟨r, hr⟩ := flatten_drop hc hd
      have hdl := hc d (List.mem_of_getElem? hd)
      rw [hr, evaluate_long (by omega) (by norm_num) (by rw [List.length_append]; omega) (by omega) (f := fun _ => x)
        (g := fun _ => false) (fun k hk => by rw [bit_append (by omega)]; exact hx k hk) hbit]
      cases x
      · rw [sum_none]
      · have := sum_all
        simp only [ne_comm (a := false)] at this
        rw [this]
    rw [show List.range [zeros, zeros, ones].length = [0, 1, 2] from rfl]
    unfold deviationLoop deviationLoop deviationLoop deviationLoop
    rw [h0 0 zeros rfl false (fun k _ => bit_zeros k), Outcome.bind_ok, h0 1 zeros rfl false (fun k _ => bit_zeros k),
      Outcome.bind_ok, h0 2 ones rfl true (fun k h => bit_ones h), Outcome.bind_ok]
    simp [Outcome.bind_ok]
  · intro d
    have h := mean_minimises hc hm d
    have e : distance (8 * 512) ones m = 4096 := by
      rw [distance_long (f := fun _ => true) (g := fun _ => false) (fun k h => bit_ones h) hbit]
      simp
    have e2 : distance (8 * 512) ones m ≤ summedDistance (8 * 512) [zeros, zeros, ones] m := by
      unfold summedDistance
      simp only [List.map_cons, List.map_nil, List.sum_cons, List.sum_nil]
      omega
    omega

/-- The columns of a matrix whose number of rows is not a multiple of 16 are not aligned: undefined with two columns or more. -/
theorem median_unaligned_refuted (argmin : List Nat → Nat) {base rows : Nat} {cols : List (List UInt8)} (hb : base % 16 = 0)
    (h0 : 0 < rows) (h16 : rows % 16 ≠ 0) (h2 : 2 ≤ cols.length) : medianIndex argmin base rows cols = .ub := by
  obtain ⟨n, hn⟩ : ∃ n, cols.length = n + 2 := ⟨cols.length - 2, by omega⟩
  have : columnDistance base rows cols 0 1 = .ub := Hamming.unaligned_refuted (Or.inr (by omega))
  have hs : columnSum base rows cols 0 (List.range cols.length) = .ub := by
    rw [hn, List.range_succ_eq_map, List.range_succ_eq_map]
    simp only [List.map_cons, columnSum]
    unfold entry
    rw [if_neg (by omega), if_neg (by omega), Outcome.bind_ok, if_neg (by omega), if_pos (by omega), this]
    rfl
  unfold medianIndex
  rw [if_pos h0]
  have : columnSums base rows cols (List.range cols.length) = .ub := by
    conv_lhs => rw [hn, List.range_succ_eq_map]
    unfold columnSums
    rw [hs]
    rfl
  rw [this]
  rfl

example : medianIndex (fun _ => 0) 0 20 [List.replicate 20 0, List.replicate 20 1] = .ub :=
  median_unaligned_refuted _ rfl (by norm_num) (by norm_num) (by simp)

end Verif.Descriptor
