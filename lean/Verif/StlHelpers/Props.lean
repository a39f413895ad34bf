import Verif.StlHelpers.Model
import Mathlib.Data.List.Nodup
import Mathlib.Data.List.Perm.Subperm
import Mathlib.Algebra.BigOperators.Group.List.Basic
import Mathlib.Tactic.Linarith
import Mathlib.Tactic.FieldSimp

/-!
# C21, C22: erasing indices and selecting elements
-/

namespace Verif.StlHelpers

open Verif (Outcome)

variable {α : Type}

/-! ## C21 -/

/-- Specification: the elements of `data` whose position is not listed, in their old order. -/
def without (data : List α) (idxs : List Nat) : List α :=
  (data.zipIdx.filter (fun p => decide (p.2 ∉ idxs))).map Prod.fst

/-- The same for the part of `data` from position `b` on. -/
def withoutFrom (data : List α) (idxs : List Nat) (b : Nat) : List α :=
  (((data.drop b).zipIdx b).filter (fun p => decide (p.2 ∉ idxs))).map Prod.fst

theorem withoutFrom_nil (data : List α) (b : Nat) : withoutFrom data [] b = data.drop b := by
  simp [withoutFrom, List.filter_eq_self.mpr]

theorem withoutFrom_cons {data : List α} {i b : Nat} {is : List Nat} (hb : b ≤ i)
    (hi : i < data.length) (hs : ∀ j ∈ is, i < j) :
    withoutFrom data (i :: is) b = (data.drop b).take (i - b) ++ withoutFrom data is (i + 1) := by
  have e : data.drop b = (data.drop b).take (i - b) ++ (data[i] :: data.drop (i + 1)) := by
    conv_lhs => rw [← List.take_append_drop (i - b) (data.drop b)]
    congr 1
    rw [List.drop_drop, show b + (i - b) = i by omega, List.drop_eq_getElem_cons hi]
  have hl : ((data.drop b).take (i - b)).length = i - b := by
    simp only [List.length_take, List.length_drop]; omega
  unfold withoutFrom
  conv_lhs => rw [e, List.zipIdx_append, hl, show b + (i - b) = i by omega, List.zipIdx_cons,
    List.filter_append, List.map_append]
  congr 1
  · rw [List.filter_eq_self.mpr, List.zipIdx_map_fst]
    rintro ⟨x, j⟩ hx
    have h1 := List.le_snd_of_mem_zipIdx hx
    have h2 := List.snd_lt_add_of_mem_zipIdx hx
    simp only at h1 h2
    rw [hl] at h2
    rw [decide_eq_true_eq]
    intro hm
    rcases List.mem_cons.mp hm with hm | hm
    · omega
    · have := hs j hm; omega
  · rw [List.filter_cons_of_neg (by simp)]
    congr 1
    apply List.filter_congr
    rintro ⟨x, j⟩ hx
    have h1 := List.le_snd_of_mem_zipIdx hx
    simp only at h1
    have : j ≠ i := by omega
    simp [this]

theorem eraseLoop_eq {data : List α} : ∀ {is : List Nat} {b : Nat} {out : List α},
    is.Pairwise (· < ·) → (∀ i ∈ is, b ≤ i ∧ i < data.length) → b ≤ data.length →
    eraseLoop data is b out = .ok (out ++ withoutFrom data is b)
  | [], b, out, _, _, hb => by
    rw [withoutFrom_nil]
    unfold eraseLoop copyBlock copyRange
    by_cases h : b = data.length
    · simp [h]
    · rw [if_pos h, if_pos ⟨hb, Nat.le_refl _⟩, List.take_of_length_le (by simp)]
  | i :: is, b, out, hp, hr, hb => by
    obtain ⟨h1, h2⟩ := List.pairwise_cons.mp hp
    obtain ⟨hbi, hi⟩ := hr i List.mem_cons_self
    have hstep : copyBlock data b i out =
        .ok (out ++ (data.drop b).take (i - b)) := by
      unfold copyBlock
      by_cases h : b = i
      · simp [h]
      · rw [if_pos h]; unfold copyRange; rw [if_pos ⟨hbi, by omega⟩]
    unfold eraseLoop
    rw [hstep, Outcome.bind_ok, eraseLoop_eq h2 (fun j hj => ⟨h1 j hj, (hr j (List.mem_cons_of_mem _ hj)).2⟩)
      (by omega), withoutFrom_cons hbi hi h1, List.append_assoc]

theorem eraseLoop_ub {data : List α} : ∀ {is : List Nat} {b : Nat} {out : List α},
    is.Pairwise (· ≤ ·) → (∀ i ∈ is, i < data.length) →
    (¬ is.Nodup ∨ ∃ i, is.head? = some i ∧ i < b) → eraseLoop data is b out = .ub
  | [], b, out, _, _, h => by simp at h
  | i :: is, b, out, hp, hr, h => by
    obtain ⟨h1, h2⟩ := List.pairwise_cons.mp hp
    have hi := hr i List.mem_cons_self
    by_cases hbi : b ≤ i
    · have hstep : copyBlock data b i out =
          .ok (out ++ (data.drop b).take (i - b)) := by
        unfold copyBlock
        by_cases h : b = i
        · simp [h]
        · rw [if_pos h]; unfold copyRange; rw [if_pos ⟨hbi, by omega⟩]
      unfold eraseLoop
      rw [hstep, Outcome.bind_ok]
      apply eraseLoop_ub h2 (fun j hj => hr j (List.mem_cons_of_mem _ hj))
      rcases h with h | ⟨j, hj, hlt⟩
      · rw [List.nodup_cons] at h
        by_cases hm : i ∈ is
        · right
          cases is with
          | nil => simp at hm
          | cons j js =>
            refine ⟨j, rfl, ?_⟩
            obtain ⟨h3, _⟩ := List.pairwise_cons.mp h2
            have := h1 j List.mem_cons_self
            rcases List.mem_cons.mp hm with e | hm
            · omega
            · have := h3 i hm; omega
        · left; intro hn; exact h ⟨hm, hn⟩
      · simp only [List.head?_cons, Option.some.injEq] at hj; omega
    · unfold eraseLoop copyBlock
      rw [if_pos (by omega)]
      unfold copyRange
      rw [if_neg (by omega), Outcome.bind_ub]

theorem sorted_spec (idxs : List Nat) :
    (idxs.mergeSort (fun a b => decide (a ≤ b))).Pairwise (· ≤ ·) := by
  have := List.pairwise_mergeSort (le := fun a b : Nat => decide (a ≤ b))
    (by intro a b c h1 h2; simp at *; omega) (by intro a b; simp; omega) idxs
  exact this.imp (by intro a b h; simpa using h)

theorem le_getLast {l : List Nat} (hp : l.Pairwise (· ≤ ·)) {m : Nat} (hl : l.getLast? = some m)
    {x : Nat} (hx : x ∈ l) : x ≤ m := by
  obtain ⟨l', rfl⟩ := List.getLast?_eq_some_iff.mp hl
  rcases List.mem_append.mp hx with h | h
  · exact (List.pairwise_append.mp hp).2.2 x h m (by simp)
  · simp at h; omega

theorem strict_of_nodup {l : List Nat} (hp : l.Pairwise (· ≤ ·)) (hn : l.Nodup) :
    l.Pairwise (· < ·) :=
  (hp.and hn).imp (fun h => by omega)

theorem length_le_of_strict : ∀ {is : List Nat} {s c : Nat}, is.Pairwise (· < ·) →
    (∀ i ∈ is, s ≤ i ∧ i < c) → is.length ≤ c - s
  | [], _, _, _, _ => by simp
  | i :: is, s, c, hp, hr => by
    obtain ⟨h1, h2⟩ := List.pairwise_cons.mp hp
    have := hr i List.mem_cons_self
    have := length_le_of_strict h2 (s := i + 1) (c := c)
      (fun j hj => ⟨h1 j hj, (hr j (List.mem_cons_of_mem _ hj)).2⟩)
    simp only [List.length_cons]; omega

theorem without_perm {data : List α} {a b : List Nat} (h : a.Perm b) :
    without data a = without data b := by
  unfold without
  congr 1
  apply List.filter_congr
  intro p _
  rw [decide_eq_decide, h.mem_iff]

/-- **C21 (vector).** For distinct positions inside the vector, listed in any order, exactly those
positions are removed and the rest keeps its order. -/
theorem erase_vector_exact (data : List α) (idxs : List Nat) (hn : idxs.Nodup)
    (hr : ∀ i ∈ idxs, i < data.length) :
    eraseIndicesFromVector data idxs = .ok (without data idxs) := by
  unfold eraseIndicesFromVector
  cases idxs with
  | nil => simp [without, List.filter_eq_self.mpr]
  | cons x xs =>
    rw [if_neg (by simp)]
    have hperm := List.mergeSort_perm (x :: xs) (fun a b : Nat => decide (a ≤ b))
    have hsort := sorted_spec (x :: xs)
    generalize hg : (x :: xs).mergeSort (fun a b : Nat => decide (a ≤ b)) = sorted at *
    have hs := strict_of_nodup hsort (hperm.nodup_iff.mpr hn)
    have hr' : ∀ i ∈ sorted, i < data.length := fun i hi => hr i (hperm.mem_iff.mp hi)
    have hlen := length_le_of_strict (s := 0) (c := data.length) hs (fun i hi => ⟨by omega, hr' i hi⟩)
    cases hl : sorted.getLast? with
    | none =>
      have := hperm.length_eq
      rw [List.getLast?_eq_none_iff] at hl
      subst hl
      simp at this
    | some last =>
      have h1 : last < data.length := hr' _ (List.mem_of_getLast? hl)
      simp only [hl]
      rw [show decide (last < data.length) = true from decide_eq_true h1, Outcome.check_true,
        Outcome.bind_ok, show decide (sorted.length ≤ data.length) = true from
          decide_eq_true (by omega), Outcome.check_true, Outcome.bind_ok,
        eraseLoop_eq hs (fun i hi => ⟨by omega, hr' i hi⟩) (by omega), ← without_perm hperm]
      simp [withoutFrom, without]

/-- **C21 (vector, rejection).** A position outside of the vector aborts. -/
theorem erase_vector_rejects (data : List α) (idxs : List Nat) (h : ∃ i ∈ idxs, data.length ≤ i) :
    eraseIndicesFromVector data idxs = .abort := by
  obtain ⟨i, hi, hlt⟩ := h
  unfold eraseIndicesFromVector
  rw [if_neg (by cases idxs <;> simp at hi ⊢)]
  have hperm := List.mergeSort_perm idxs (fun a b : Nat => decide (a ≤ b))
  have hsort := sorted_spec idxs
  generalize hg : idxs.mergeSort (fun a b : Nat => decide (a ≤ b)) = sorted at *
  have hm : i ∈ sorted := hperm.mem_iff.mpr hi
  cases hl : sorted.getLast? with
  | none => rw [List.getLast?_eq_none_iff] at hl; subst hl; simp at hm
  | some last =>
    have := le_getLast hsort hl hm
    simp only [hl]
    rw [show decide (last < data.length) = false from decide_eq_false (by omega),
      Outcome.check_false, Outcome.bind_abort]

/-- **C21 (vector, repeated positions), refuted.** For every vector and every list of valid positions
that contains a repetition (and is not longer than the vector) the behaviour is undefined: a range with
its end before its begin is copied. -/
theorem erase_vector_repeated_refuted (data : List α) (idxs : List Nat)
    (hr : ∀ i ∈ idxs, i < data.length) (hd : ¬ idxs.Nodup) (hle : idxs.length ≤ data.length) :
    eraseIndicesFromVector data idxs = .ub := by
  unfold eraseIndicesFromVector
  rw [if_neg (by cases idxs <;> simp at hd ⊢)]
  have hperm := List.mergeSort_perm idxs (fun a b : Nat => decide (a ≤ b))
  have hsort := sorted_spec idxs
  generalize hg : idxs.mergeSort (fun a b : Nat => decide (a ≤ b)) = sorted at *
  cases hl : sorted.getLast? with
  | none => simp only [hl]
  | some last =>
    have h1 : last < data.length := hr _ (hperm.mem_iff.mp (List.mem_of_getLast? hl))
    have := hperm.length_eq
    simp only [hl]
    rw [show decide (last < data.length) = true from decide_eq_true h1, Outcome.check_true,
      Outcome.bind_ok, show decide (sorted.length ≤ data.length) = true from
        decide_eq_true (by omega), Outcome.check_true, Outcome.bind_ok]
    exact eraseLoop_ub hsort (fun i hi => hr i (hperm.mem_iff.mp hi))
      (Or.inl (fun hn => hd (hperm.nodup_iff.mp hn)))

/-- Non-vacuity: unordered positions; a repetition; a position outside. -/
example : eraseIndicesFromVector [10, 11, 12, 13] [3, 0] = .ok [11, 12] := by
  have := erase_vector_exact [10, 11, 12, 13] [3, 0] (by decide) (by decide)
  rw [this]; rfl
example : eraseIndicesFromVector [10, 11, 12, 13] [1, 1] = .ub :=
  erase_vector_repeated_refuted _ _ (by decide) (by decide) (by decide)
example : eraseIndicesFromVector [10, 11] [2] = .abort := erase_vector_rejects _ _ ⟨2, by simp, by simp⟩

theorem toInt32_small {n : Nat} (h : n < 2 ^ 31) : toInt32 n = (n : Int) := by
  unfold toInt32
  have : n % 2 ^ 32 = n := Nat.mod_eq_of_lt (by omega)
  simp only [this]
  rw [if_pos h]

theorem eigenEraseLoop_eq {src : List α} (hc : src.length < 2 ^ 31) :
    ∀ {is : List Nat} {f s : Nat} {dst : List α},
    is.Pairwise (· < ·) → (∀ i ∈ is, s ≤ i ∧ i < src.length) → s ≤ src.length →
    dst.length = f + (src.length - s - is.length) →
    eigenEraseLoop src src.length is f s dst = .ok (dst.take f ++ withoutFrom src is s)
  | [], f, s, dst, _, _, hs, hd => by
    simp only [List.length_nil] at hd
    unfold eigenEraseLoop copyMiddle
    rw [if_pos (by omega), withoutFrom_nil]
    have h1 : ((f : Int) + ((src.length : Int) - s)).toNat = dst.length := by omega
    have h2 : ((src.length : Int) - s).toNat = src.length - s := by omega
    rw [h1, h2, Int.toNat_natCast, Int.toNat_natCast, List.drop_length, List.append_nil,
      List.take_of_length_le (l := src.drop s) (by simp)]
  | i :: is, f, s, dst, hp, hr, hs, hd => by
    obtain ⟨h1, h2⟩ := List.pairwise_cons.mp hp
    obtain ⟨hsi, hi⟩ := hr i List.mem_cons_self
    have hlen := length_le_of_strict h2 (s := i + 1) (c := src.length)
      (fun j hj => ⟨h1 j hj, (hr j (List.mem_cons_of_mem _ hj)).2⟩)
    simp only [List.length_cons] at hd
    have hi32 : toInt32 i = (i : Int) := toInt32_small (by omega)
    unfold eigenEraseLoop
    simp only [hi32]
    rw [show decide ((s : Int) ≤ i) = true from decide_eq_true (by omega), Outcome.check_true,
      Outcome.bind_ok]
    have hcp : copyMiddle (s : Int) f ((i : Int) - s) src dst =
        .ok (dst.take f ++ (src.drop s).take (i - s) ++ dst.drop (f + (i - s))) := by
      unfold copyMiddle
      rw [if_pos (by omega)]
      rw [show ((f : Int) + ((i : Int) - s)).toNat = f + (i - s) by omega,
        show ((i : Int) - s).toNat = i - s by omega, Int.toNat_natCast, Int.toNat_natCast]
    rw [hcp, Outcome.bind_ok]
    have hf : (f : Int) + ((i : Int) - s) = ((f + (i - s) : Nat) : Int) := by omega
    have hs1 : (i : Int) + 1 = ((i + 1 : Nat) : Int) := by omega
    have hl1 : (dst.take f ++ (src.drop s).take (i - s)).length = f + (i - s) := by
      simp only [List.length_append, List.length_take, List.length_drop]; omega
    rw [hf, hs1, eigenEraseLoop_eq hc h2
      (fun j hj => ⟨h1 j hj, (hr j (List.mem_cons_of_mem _ hj)).2⟩) (by omega)
      (by rw [List.length_append, hl1, List.length_drop]; omega),
      withoutFrom_cons hsi hi h1, List.take_append_of_le_length (by omega),
      List.take_of_length_le (by omega), List.append_assoc]

/-- **C21 (Eigen matrices).** For a non-empty strictly increasing list of valid positions exactly those
columns (rows) are removed. -/
theorem erase_eigen_exact (junk : α) (src : List α) (idxs : List Nat) (hc : src.length < 2 ^ 31)
    (hne : idxs ≠ []) (hp : idxs.Pairwise (· < ·)) (hr : ∀ i ∈ idxs, i < src.length) :
    eigenErase junk idxs src.length src = .ok (without src idxs) := by
  have hlen := length_le_of_strict (s := 0) (c := src.length) hp (fun i hi => ⟨by omega, hr i hi⟩)
  unfold eigenErase
  rw [show decide (src.length = src.length) = true from decide_eq_true rfl, Outcome.check_true,
    Outcome.bind_ok]
  cases hl : idxs.getLast? with
  | none => rw [List.getLast?_eq_none_iff] at hl; exact absurd hl hne
  | some last =>
    have h1 : last < src.length := hr _ (List.mem_of_getLast? hl)
    simp only
    rw [show decide (last < src.length) = true from decide_eq_true h1, Outcome.check_true,
      Outcome.bind_ok, show decide (idxs.length ≤ src.length) = true from decide_eq_true (by omega),
      Outcome.check_true, Outcome.bind_ok]
    have := eigenEraseLoop_eq hc (f := 0) (s := 0) (dst := List.replicate (src.length - idxs.length) junk)
      hp (fun i hi => ⟨by omega, hr i hi⟩) (by omega) (by simp)
    simpa [withoutFrom, without] using this

theorem eigenEraseLoop_strict {src : List α} {c : Nat} :
    ∀ {is : List Nat} {f : Int} {s : Int} {dst r : List α},
    (∀ i ∈ is, i < 2 ^ 31) → eigenEraseLoop src c is f s dst = .ok r →
    is.Pairwise (· < ·) ∧ ∀ i ∈ is, s ≤ i
  | [], _, _, _, _, _, _ => by simp
  | i :: is, f, s, dst, r, hr, h => by
    unfold eigenEraseLoop at h
    rw [toInt32_small (hr i List.mem_cons_self), Outcome.bind_eq_ok] at h
    obtain ⟨_, h1, h⟩ := h
    rw [Outcome.check_eq_ok, decide_eq_true_eq] at h1
    simp only at h
    rw [Outcome.bind_eq_ok] at h
    obtain ⟨d, _, h⟩ := h
    obtain ⟨h2, h3⟩ := eigenEraseLoop_strict (fun j hj => hr j (List.mem_cons_of_mem _ hj)) h
    refine ⟨List.pairwise_cons.mpr ⟨fun j hj => by have := h3 j hj; omega, h2⟩, ?_⟩
    intro j hj
    rcases List.mem_cons.mp hj with rfl | hj
    · exact h1
    · have := h3 j hj; omega

/-- **C21 (Eigen matrices, nothing else succeeds).** If the Eigen version returns, the list was non-empty,
strictly increasing and inside of the matrix, and the result is the matrix without those columns. -/
theorem erase_eigen_only_exact (junk : α) (src r : List α) (idxs : List Nat) (count : Nat)
    (hc : count < 2 ^ 31) (hi : ∀ i ∈ idxs, i < 2 ^ 31)
    (h : eigenErase junk idxs count src = .ok r) :
    idxs ≠ [] ∧ idxs.Pairwise (· < ·) ∧ (∀ i ∈ idxs, i < src.length) ∧ r = without src idxs := by
  have h0 := h
  unfold eigenErase at h
  rw [Outcome.bind_eq_ok] at h
  obtain ⟨_, h1, h⟩ := h
  rw [Outcome.check_eq_ok, decide_eq_true_eq] at h1
  subst h1
  cases hl : idxs.getLast? with
  | none => rw [hl] at h; simp at h
  | some last =>
    simp only [hl] at h
    rw [Outcome.bind_eq_ok] at h
    obtain ⟨_, h1, h⟩ := h
    rw [Outcome.check_eq_ok, decide_eq_true_eq] at h1
    rw [Outcome.bind_eq_ok] at h
    obtain ⟨_, h2, h⟩ := h
    obtain ⟨hp, _⟩ := eigenEraseLoop_strict hi h
    have hr : ∀ i ∈ idxs, i < src.length := fun i hm => by
      have := le_getLast (hp.imp Nat.le_of_lt) hl hm; omega
    have hne : idxs ≠ [] := by rintro rfl; simp at hl
    refine ⟨hne, hp, hr, ?_⟩
    rw [erase_eigen_exact junk src idxs hc hne hp hr] at h0
    simpa using h0.symm

/-- **C21 (Eigen matrices, empty list), refuted.** Erasing nothing is undefined behaviour: `back()` of the
empty list is read before the test for emptiness. -/
theorem erase_eigen_nothing_refuted (junk : α) (src : List α) :
    eigenErase junk [] src.length src = .ub := by
  unfold eigenErase
  simp

/-- **C21 (Eigen matrices, unordered list), refuted.** Valid distinct positions in descending order are
not rejected by a `CHECK` but run into an invalid block copy. -/
theorem erase_eigen_unordered_refuted : eigenErase 0 [2, 1] 3 [10, 11, 12] = .ub := by rfl

/-- **C21 (vector overload).** `eraseIndicesFromContainer` on `std::vector`. -/
theorem erase_container_vector_exact (data : List α) (idxs : List Nat) (hn : idxs.Nodup)
    (hr : ∀ i ∈ idxs, i < data.length) :
    vectorEraseFromContainer idxs data.length data = .ok (without data idxs) := by
  unfold vectorEraseFromContainer
  rw [show decide (data.length = data.length) = true from decide_eq_true rfl, Outcome.check_true,
    Outcome.bind_ok, erase_vector_exact data idxs hn hr]

/-- Non-vacuity: columns 0 and 2 of 4. -/
example : eigenErase 0 [0, 2] 4 [10, 11, 12, 13] = .ok [11, 13] := by rfl

/-! ## C22 -/

/-- `m` is the element at position `k` of the sorted values: at most `k` values are smaller and more
than `k` are smaller or equal. -/
def IsOrderStat (k : Nat) (l : List ℚ) (m : ℚ) : Prop :=
  l.countP (fun x => decide (x < m)) ≤ k ∧ k < l.countP (fun x => decide (x ≤ m))

/-- The specification determines the value. -/
theorem orderStat_unique {k : Nat} {l : List ℚ} {a b : ℚ} (ha : IsOrderStat k l a)
    (hb : IsOrderStat k l b) : a = b := by
  have aux : ∀ {a b : ℚ}, IsOrderStat k l a → IsOrderStat k l b → ¬ a < b := by
    intro a b ha hb h
    have : l.countP (fun x => decide (x ≤ a)) ≤ l.countP (fun x => decide (x < b)) := by
      apply List.countP_mono_left
      intro x _ hx
      simp only [decide_eq_true_eq] at hx ⊢
      linarith
    have := ha.2
    have := hb.1
    omega
  rcases lt_trichotomy a b with h | h | h
  · exact absurd h (aux ha hb)
  · exact h
  · exact absurd h (aux hb ha)

theorem IsNth.orderStat {k : Nat} {l l' : List ℚ} (h : IsNth k l l') {x : ℚ}
    (hx : l'[k]? = some x) : IsOrderStat k l x := by
  obtain ⟨hk, hxe⟩ := List.getElem?_eq_some_iff.mp hx
  have hcl : (l'.take k).length = k := by simp only [List.length_take]; omega
  constructor
  · rw [← h.perm.countP_eq, ← List.take_append_drop k l', List.countP_append]
    have h1 : (l'.drop k).countP (fun y => decide (y < x)) = 0 := by
      rw [List.countP_eq_zero]
      intro b hb
      have := h.after b hb x hx
      simp only [decide_eq_true_eq]
      linarith
    have h2 := List.countP_le_length (p := fun y => decide (y < x)) (l := l'.take k)
    omega
  · rw [← h.perm.countP_eq, ← List.take_append_drop k l', List.countP_append]
    have h1 : (l'.take k).countP (fun y => decide (y ≤ x)) = k := by
      rw [List.countP_eq_length.mpr, hcl]
      intro a ha
      simpa using h.before a ha x hx
    have h2 : 0 < (l'.drop k).countP (fun y => decide (y ≤ x)) := by
      rw [List.countP_pos_iff]
      refine ⟨x, ?_, by simp⟩
      rw [List.drop_eq_getElem_cons hk, hxe]
      exact List.mem_cons_self
    omega

/-- **C22 (median).** For every `std::nth_element` the standard allows: the middle value of an odd number
of values, the mean of the two middle values of an even number. -/
theorem median_exact (nth : Nat → List ℚ → List ℚ)
    (hnth : ∀ k l, k < l.length → IsNth k l (nth k l)) (l : List ℚ) (hne : l ≠ []) :
    ∃ m, median nth l = .ok m ∧
      (l.length % 2 = 1 → IsOrderStat (l.length / 2) l m) ∧
      (l.length % 2 = 0 → ∃ a b, IsOrderStat (l.length / 2 - 1) l a ∧
        IsOrderStat (l.length / 2) l b ∧ m = (a + b) / 2) := by
  have hpos : 0 < l.length := List.length_pos_of_ne_nil hne
  have hn := hnth (l.length / 2) l (by omega)
  have hlen := hn.perm.length_eq
  have hmid : l.length / 2 < (nth (l.length / 2) l).length := by omega
  unfold median
  rw [if_neg (by omega)]
  simp only
  rw [List.getElem?_eq_getElem hmid]
  simp only
  have hhigh := hn.orderStat (List.getElem?_eq_getElem hmid)
  by_cases hodd : l.length % 2 = 0
  · rw [if_neg (by omega)]
    have hn2 := hnth (l.length / 2 - 1) (nth (l.length / 2) l) (by omega)
    have hlen2 := hn2.perm.length_eq
    have hm2 : l.length / 2 - 1 < (nth (l.length / 2 - 1) (nth (l.length / 2) l)).length := by omega
    rw [List.getElem?_eq_getElem hm2]
    have hlow := hn2.orderStat (List.getElem?_eq_getElem hm2)
    refine ⟨_, rfl, by omega, fun _ => ⟨_, _, ?_, hhigh, by rw [add_comm]⟩⟩
    unfold IsOrderStat at hlow ⊢
    rw [hn.perm.countP_eq, hn.perm.countP_eq] at hlow
    exact hlow
  · rw [if_pos hodd]
    exact ⟨_, rfl, fun _ => hhigh, by omega⟩

/-- **C22 (median of nothing).** -/
theorem median_empty (nth : Nat → List ℚ → List ℚ) : median nth [] = .abort := rfl

/-- **C22 (mean).** -/
theorem mean_exact (l : List ℚ) (hne : l ≠ []) : ∃ m, mean l = .ok m ∧ m * l.length = l.sum := by
  have hpos : 0 < l.length := List.length_pos_of_ne_nil hne
  unfold mean
  rw [if_neg (by omega)]
  refine ⟨_, rfl, ?_⟩
  rw [div_mul_cancel₀, List.sum_eq_foldl]
  have : (l.length : ℚ) ≠ 0 := by
    have : l.length ≠ 0 := by omega
    exact_mod_cast this
  exact this

theorem isNth_of_mergeSort (k : Nat) (l : List ℚ) :
    IsNth k l (l.mergeSort (fun a b => decide (a ≤ b))) := by
  have hp : (l.mergeSort (fun a b => decide (a ≤ b))).Pairwise (· ≤ ·) := by
    have := List.pairwise_mergeSort (le := fun a b : ℚ => decide (a ≤ b))
      (by intro a b c h1 h2; simp only [decide_eq_true_eq] at *; linarith)
      (by intro a b; simp only [Bool.or_eq_true, decide_eq_true_eq]; exact le_total a b) l
    exact this.imp (by intro a b h; simpa using h)
  refine ⟨List.mergeSort_perm _ _, ?_, ?_⟩
  · intro a ha x hx
    rw [← List.take_append_drop k (l.mergeSort _)] at hp
    refine (List.pairwise_append.mp hp).2.2 a ha x ?_
    obtain ⟨hk, rfl⟩ := List.getElem?_eq_some_iff.mp hx
    rw [List.drop_eq_getElem_cons hk]
    exact List.mem_cons_self
  · intro b hb x hx
    obtain ⟨hk, rfl⟩ := List.getElem?_eq_some_iff.mp hx
    rw [← List.take_append_drop k (l.mergeSort _)] at hp
    rw [List.drop_eq_getElem_cons hk] at hp hb
    rcases List.mem_cons.mp hb with rfl | hb
    · exact le_refl _
    · exact (List.pairwise_cons.mp (List.pairwise_append.mp hp).2.1).1 b hb

/-- Non-vacuity: sorting is an allowed `nth_element`. -/
example : ∀ k l, k < l.length → IsNth k l (l.mergeSort (fun a b => decide (a ≤ b))) :=
  fun k l _ => isNth_of_mergeSort k l

/-! ### `drawNRandomElements` -/

theorem drawIndices_spec {n : Nat} {bound : Nat} : ∀ {draws set r : List Nat},
    drawIndices n draws set = some r → set.Nodup → set.length ≤ n → (∀ d ∈ draws, d < bound) →
    (∀ d ∈ set, d < bound) → r.Nodup ∧ r.length = n ∧ ∀ d ∈ r, d < bound
  | [], set, r, h, hn, hl, hd, hs => by
    unfold drawIndices at h
    split at h
    · simp at h
    · simp only [Option.some.injEq] at h; subst h; exact ⟨hn, by omega, hs⟩
  | d :: ds, set, r, h, hn, hl, hd, hs => by
    unfold drawIndices at h
    split at h
    · rename_i hlt
      simp only at h
      by_cases hm : d ∈ set
      · rw [if_pos hm] at h
        exact drawIndices_spec h hn hl (fun x hx => hd x (List.mem_cons_of_mem _ hx)) hs
      · rw [if_neg hm] at h
        refine drawIndices_spec h (List.nodup_cons.mpr ⟨hm, hn⟩) (by simp; omega)
          (fun x hx => hd x (List.mem_cons_of_mem _ hx)) ?_
        intro x hx
        rcases List.mem_cons.mp hx with rfl | hx
        · exact hd _ List.mem_cons_self
        · exact hs x hx
    · simp only [Option.some.injEq] at h; subst h; exact ⟨hn, by omega, hs⟩

theorem drawIndices_none {n : Nat} : ∀ {draws set : List Nat}, drawIndices n draws set = none →
    ∀ d : List Nat, d.Nodup → d ⊆ draws ++ set → d.length < n
  | [], set, h, d, hn, hs => by
    unfold drawIndices at h
    split at h
    · rename_i hlt
      have := (hn.subperm (by simpa using hs)).length_le
      omega
    · simp at h
  | x :: ds, set, h, d, hn, hs => by
    unfold drawIndices at h
    split at h
    · simp only at h
      refine drawIndices_none h d hn ?_
      intro y hy
      have := hs hy
      simp only [List.cons_append, List.mem_cons, List.mem_append] at this ⊢
      split
      · rename_i hm
        rcases this with rfl | h | h
        · exact Or.inr hm
        · exact Or.inl h
        · exact Or.inr h
      · simp only [List.mem_cons]
        tauto
    · simp at h

theorem collect_eq {input : List α} : ∀ {is : List Nat} {out0 : List α}, (∀ i ∈ is, i < input.length) →
    ∃ out, is.foldl (pick input) (Outcome.ok out0) = .ok (out0 ++ out) ∧
      out.map some = is.map (input[·]?)
  | [], out0, _ => ⟨[], by simp, rfl⟩
  | i :: is, out0, h => by
    have hi := h i List.mem_cons_self
    obtain ⟨out, h1, h2⟩ := collect_eq (is := is) (out0 := out0 ++ [input[i]])
      (fun j hj => h j (List.mem_cons_of_mem _ hj))
    refine ⟨input[i] :: out, ?_, by simp [h2, List.getElem?_eq_getElem hi]⟩
    rw [List.foldl_cons]
    have : pick input (Outcome.ok out0) i = .ok (out0 ++ [input[i]]) := by
      simp [pick, Outcome.bind, List.getElem?_eq_getElem hi]
    rw [this, h1]; simp

/-- **C22 (random subset).** If more than `n` elements are available, the result consists of the elements
at `n` different positions of the input. -/
theorem draw_subset (n : Nat) (input : List α) (draws : List Nat) (order : List Nat → List Nat)
    (horder : ∀ l, (order l).Perm l) (hd : ∀ d ∈ draws, d < input.length)
    (hn : 0 < n) (hlt : n < input.length) {r : Outcome (List α)}
    (h : drawN n input draws order = some r) :
    ∃ (out : List α) (pos : List Nat), r = .ok out ∧ pos.Nodup ∧ pos.length = n ∧
      (∀ i ∈ pos, i < input.length) ∧ out.map some = pos.map (input[·]?) := by
  unfold drawN at h
  rw [if_neg (by omega), if_neg (by omega)] at h
  cases hs : drawIndices n draws [] with
  | none => rw [hs] at h; simp at h
  | some set =>
    simp only [hs, Option.some.injEq] at h
    obtain ⟨h1, h2, h3⟩ := drawIndices_spec hs List.nodup_nil (by simp) hd (by simp)
    have hp := horder set
    have hb : ∀ i ∈ order set, i < input.length := fun i hi => h3 i (hp.mem_iff.mp hi)
    obtain ⟨out, h4, h5⟩ := collect_eq (input := input) (out0 := []) hb
    exact ⟨out, order set, by rw [← h]; simpa using h4, hp.nodup_iff.mpr h1,
      by rw [hp.length_eq, h2], hb, h5⟩

/-- **C22 (random subset, few elements).** Everything is returned if not more than `n` are available. -/
theorem draw_all (n : Nat) (input : List α) (draws : List Nat) (order : List Nat → List Nat)
    (hn : 0 < n) (hle : input.length ≤ n) : drawN n input draws order = some (.ok input) := by
  unfold drawN
  rw [if_neg (by omega), if_pos hle]

/-- **C22 (random subset, termination).** The call returns as soon as `n` different values were drawn. -/
theorem draw_terminates (n : Nat) (input : List α) (draws : List Nat) (order : List Nat → List Nat)
    (h : ∃ d : List Nat, d.Nodup ∧ d ⊆ draws ∧ n ≤ d.length) : drawN n input draws order ≠ none := by
  obtain ⟨d, h1, h2, h3⟩ := h
  unfold drawN
  split
  · simp
  · split
    · simp
    · cases hs : drawIndices n draws [] with
      | some _ => simp
      | none =>
        have := drawIndices_none hs d h1 (by simpa using h2)
        omega

/-- Non-vacuity: two of three elements with a repeated draw. -/
example : drawN 2 [10, 11, 12] [1, 1, 2] id = some (.ok [12, 11]) := by
  simp [drawN, drawIndices, pick, Outcome.bind]

/-! ### `keepOnlyNSortedElements` -/

/-- **C22 (selection).** For every `std::partial_sort` the standard allows: the container keeps
`min n size` elements, kept and removed elements together are the old content, and no removed element
precedes a kept one in the given order.  The action is run on exactly the removed elements. -/
theorem keep_strongest (lt : α → α → Bool) (psort : Nat → List α → List α)
    (hps : ∀ m l, m ≤ l.length → IsPartialSort lt m l (psort m l)) (n : Nat) (l : List α) :
    (keepOnlyN psort n l).1.length = min n l.length ∧
    ((keepOnlyN psort n l).1 ++ (keepOnlyN psort n l).2).Perm l ∧
    ∀ a ∈ (keepOnlyN psort n l).1, ∀ b ∈ (keepOnlyN psort n l).2, lt b a = false := by
  unfold keepOnlyN
  split
  · rename_i h; subst h; simp
  · split
    · rename_i h; refine ⟨by simp only; omega, by simp, by simp⟩
    · rename_i h0 h
      have hp := hps n l (by omega)
      refine ⟨?_, ?_, hp.front⟩
      · simp only [List.length_take]; rw [hp.perm.length_eq]
      · simp only [List.take_append_drop]; exact hp.perm

/-- **C22 (selection is sorted when something is removed).** -/
theorem kept_sorted (lt : α → α → Bool) (psort : Nat → List α → List α)
    (hps : ∀ m l, m ≤ l.length → IsPartialSort lt m l (psort m l)) (n : Nat) (l : List α)
    (h : n < l.length) :
    (keepOnlyN psort n l).1.Pairwise (fun a b => lt b a = false) := by
  unfold keepOnlyN
  split
  · simp
  · rw [if_neg (by omega)]
    exact (hps n l (by omega)).sorted

/-- **C22 (sorted result), refuted in general.** Despite its name the function leaves a short container
unsorted. -/
theorem kept_sorted_refuted (psort : Nat → List Nat → List Nat) :
    keepOnlyN psort 3 [2, 1] = ([2, 1], []) := rfl

/-- Non-vacuity: sorting everything is an allowed `partial_sort`. -/
example (m : Nat) (l : List Nat) :
    IsPartialSort (fun a b => decide (a < b)) m l (l.mergeSort (fun a b => decide (a ≤ b))) := by
  have hp := sorted_spec l
  refine ⟨List.mergeSort_perm _ _, ?_, ?_⟩
  · exact (hp.sublist (List.take_sublist _ _)).imp (by intro a b h; simpa using h)
  · intro a ha b hb
    rw [← List.take_append_drop m (l.mergeSort _)] at hp
    have := (List.pairwise_append.mp hp).2.2 a ha b hb
    simpa using this

/-- **C22 (counting).** -/
theorem countNested_exact (l : List (List α)) : countNested l = l.flatten.length := by
  have : ∀ (l : List (List α)) (n : Nat), l.foldl (fun n inner => n + inner.length) n =
      n + l.flatten.length := by
    intro l
    induction l with
    | nil => simp
    | cons a l ih => intro n; rw [List.foldl_cons, ih]; simp; omega
  unfold countNested
  rw [this]; simp

end Verif.StlHelpers
