import Mathlib.Algebra.Order.BigOperators.Group.List
import Mathlib.Algebra.BigOperators.Ring.List
import Mathlib.Algebra.BigOperators.Intervals
import Mathlib.Data.List.Nodup
import Mathlib.Tactic.Linarith
import Mathlib.Tactic.LinearCombination
import Mathlib.Tactic.FieldSimp
import Mathlib.Tactic.Ring
import Mathlib.Tactic.NormNum
import Mathlib.Tactic.Positivity
import Verif.Kaze.Descriptor

/-!
# Property C96: descriptors
-/

namespace Verif.Kaze.Descriptor

/-! ## Size and length -/

theorem bins_length (e : Bool) (vs : List (ℝ × ℝ)) : (bins e vs).length = if e then 8 else 4 := by
  unfold bins
  split <;> simp

/-- C96: the descriptor has 64 numbers, the extended one 128. -/
theorem raw_length (w : Which) (wd ht : Int) (d : Derivatives) (kp : Kpt) :
    (raw w wd ht d kp).length = if w.extended then 128 else 64 := by
  unfold raw
  rw [List.length_flatMap]
  simp only [List.length_map, cell, bins_length]
  cases w.extended <;> simp [cells, List.range_succ]

theorem sum_sq_map_mul (l : List ℝ) (a : ℝ) :
    ((l.map (· * a)).map (fun v => v * v)).sum = (l.map (fun v => v * v)).sum * a * a := by
  induction l with
  | nil => simp
  | cons v l ih =>
    simp only [List.map_cons, List.sum_cons, ih]
    ring

/-- The sum that is kept is the square of the length of the vector. -/
theorem lengthSq_eq (w : Which) (wd ht : Int) (d : Derivatives) (kp : Kpt) :
    lengthSq w wd ht d kp = ((raw w wd ht d kp).map (fun v => v * v)).sum := by
  unfold lengthSq raw
  induction cells with
  | nil => simp
  | cons c cs ih =>
    simp only [List.map_cons, List.sum_cons, List.flatMap_cons, List.map_append, List.sum_append, ih, sum_sq_map_mul]

theorem sum_sq_nonneg (l : List ℝ) : 0 ≤ (l.map (fun v => v * v)).sum :=
  List.sum_nonneg fun x hx => by
    obtain ⟨v, -, rfl⟩ := List.mem_map.1 hx
    exact mul_self_nonneg v

theorem sum_sq_zero : ∀ {l : List ℝ}, (l.map (fun v => v * v)).sum = 0 ↔ ∀ v ∈ l, v = 0
  | [] => by simp
  | a :: l => by
    have h1 := mul_self_nonneg a
    have h2 := sum_sq_nonneg l
    simp only [List.map_cons, List.sum_cons, List.forall_mem_cons]
    constructor
    · intro h
      have ha : a * a = 0 := by linarith
      exact ⟨mul_self_eq_zero.1 ha, sum_sq_zero.1 (by linarith)⟩
    · rintro ⟨rfl, h⟩
      rw [sum_sq_zero.2 h]
      ring

/-- C96: there is a descriptor unless all sums are zero. -/
theorem descriptor_none_iff (w : Which) (wd ht : Int) (d : Derivatives) (kp : Kpt) :
    descriptor w wd ht d kp = none ↔ ∀ v ∈ raw w wd ht d kp, v = 0 := by
  unfold descriptor
  have hn : 0 ≤ lengthSq w wd ht d kp := by
    rw [lengthSq_eq]
    exact sum_sq_nonneg _
  rw [← sum_sq_zero, ← lengthSq_eq]
  by_cases h : Real.sqrt (lengthSq w wd ht d kp) = 0
  · rw [if_pos h]
    simpa using (Real.sqrt_eq_zero hn).1 h
  · rw [if_neg h]
    simp only [reduceCtorEq, false_iff]
    intro h0
    exact h ((Real.sqrt_eq_zero hn).2 h0)

/-- C96: a descriptor has the right number of entries and length one, and is the vector of sums up to a positive
factor. -/
theorem descriptor_unit {w : Which} {wd ht : Int} {d : Derivatives} {kp : Kpt} {v : List ℝ}
    (h : descriptor w wd ht d kp = some v) :
    v.length = (if w.extended then 128 else 64) ∧ (v.map (fun x => x ^ 2)).sum = 1 ∧ (∀ x ∈ v, |x| ≤ 1) ∧
      ∃ c > 0, v = (raw w wd ht d kp).map (· * c) := by
  unfold descriptor at h
  split at h
  · cases h
  rename_i hs
  injection h with h
  subst h
  have hn : 0 ≤ lengthSq w wd ht d kp := by
    rw [lengthSq_eq]
    exact sum_sq_nonneg _
  have hp : 0 < Real.sqrt (lengthSq w wd ht d kp) := lt_of_le_of_ne (Real.sqrt_nonneg _) (Ne.symm hs)
  have e : (raw w wd ht d kp).map (· / Real.sqrt (lengthSq w wd ht d kp)) =
      (raw w wd ht d kp).map (· * (Real.sqrt (lengthSq w wd ht d kp))⁻¹) :=
    List.map_congr_left fun x _ => by simp only [div_eq_mul_inv]
  have one : (((raw w wd ht d kp).map (· / Real.sqrt (lengthSq w wd ht d kp))).map (fun x => x ^ 2)).sum = 1 := by
    rw [e]
    have e2 : ∀ l : List ℝ, (l.map fun x => x ^ 2) = l.map fun x => x * x := fun l =>
      List.map_congr_left fun x _ => by ring
    rw [e2, sum_sq_map_mul, ← lengthSq_eq]
    have := Real.mul_self_sqrt hn
    field_simp
    rw [sq, this]
  refine ⟨by rw [List.length_map, raw_length], one, ?_, _, inv_pos.2 hp, e⟩
  intro x hx
  have hle : x ^ 2 ≤ 1 := by
    rw [← one]
    refine List.single_le_sum (fun y hy => ?_) _ (List.mem_map_of_mem hx)
    obtain ⟨z, -, rfl⟩ := List.mem_map.1 hy
    exact sq_nonneg z
  exact abs_le_one_iff_mul_self_le_one.2 (by linarith [sq x])

/-! ## Reading -/

/-- C96: the limits are in the image. -/
theorem limit_range {v n : Int} (hn : 0 < n) : 0 ≤ limit v n ∧ limit v n < n := by
  unfold limit
  simp only
  split <;> split <;> omega

/-- Pixels in the image keep their coordinates. -/
theorem limit_inside {v n : Int} (h0 : 0 ≤ v) (hn : v < n) : limit v n = v := by
  unfold limit
  simp only
  split <;> split <;> omega

theorem limit_above {v n : Int} (hn : 0 < n) (h : n - 1 ≤ v) : limit v n = n - 1 := by
  unfold limit
  simp only
  split <;> split <;> omega

theorem limit_below {v n : Int} (hn : 0 < n) (h : v ≤ 0) : limit v n = 0 := by
  unfold limit
  simp only
  split <;> split <;> omega

/-- Two images that are the same in the bounds. -/
def SameInside (wd ht : Int) (a b : Int → Int → ℝ) : Prop :=
  ∀ y x, 0 ≤ y → y < ht → 0 ≤ x → x < wd → a y x = b y x

theorem interp_inside (w : Which) {wd ht : Int} (hw : 0 < wd) (hh : 0 < ht) {a b : Int → Int → ℝ}
    (h : SameInside wd ht a b) (p : ℝ × ℝ) : interp w wd ht a p = interp w wd ht b p := by
  have := fun v u => h (limit v ht) (limit u wd) (limit_range hh).1 (limit_range hh).2 (limit_range hw).1 (limit_range hw).2
  unfold interp
  simp only [this]

/-- C96: the descriptor does not depend on anything outside of the image, wherever the keypoint is and however large. -/
theorem descriptor_inside (w : Which) {wd ht : Int} (hw : 0 < wd) (hh : 0 < ht) {d e : Derivatives}
    (hx : SameInside wd ht d.Lx e.Lx) (hy : SameInside wd ht d.Ly e.Ly) (hxx : SameInside wd ht d.Lxx e.Lxx)
    (hxy : SameInside wd ht d.Lxy e.Lxy) (hyy : SameInside wd ht d.Lyy e.Lyy) (kp : Kpt) :
    descriptor w wd ht d kp = descriptor w wd ht e kp := by
  have hv : values w wd ht d kp = values w wd ht e kp := by
    funext i j k l
    unfold values gauge
    simp only [interp_inside w hw hh hx, interp_inside w hw hh hy, interp_inside w hw hh hxx, interp_inside w hw hh hxy,
      interp_inside w hw hh hyy]
  have hc : cell w wd ht d kp = cell w wd ht e kp := by
    funext p q
    unfold cell
    rw [hv]
  unfold descriptor lengthSq raw
  rw [hc]

/-! ## Contrast -/

/-- All derivatives times a number: the derivatives of the image with another contrast. -/
def Derivatives.times (d : Derivatives) (a : ℝ) : Derivatives :=
  { Lx := fun y x => a * d.Lx y x
    Ly := fun y x => a * d.Ly y x
    Lxx := fun y x => a * d.Lxx y x
    Lxy := fun y x => a * d.Lxy y x
    Lyy := fun y x => a * d.Lyy y x }

theorem interp_times (w : Which) (wd ht : Int) (im : Int → Int → ℝ) (a : ℝ) (p : ℝ × ℝ) :
    interp w wd ht (fun y x => a * im y x) p = a * interp w wd ht im p := by
  unfold interp
  simp only
  ring

theorem gauge_times (w : Which) (wd ht : Int) (d : Derivatives) {a : ℝ} (ha : 0 < a) (p : ℝ × ℝ) (rx ry : ℝ) :
    gauge w wd ht (d.times a) p (a * rx) (a * ry) =
      (a * (gauge w wd ht d p rx ry).1, a * (gauge w wd ht d p rx ry).2) := by
  unfold gauge Derivatives.times
  have e : (a * rx) ^ 2 + (a * ry) ^ 2 = a ^ 2 * (rx ^ 2 + ry ^ 2) := by ring
  have ha2 : a ^ 2 ≠ 0 := by positivity
  by_cases h : rx ^ 2 + ry ^ 2 = 0
  · have h' : ¬ (a * rx) ^ 2 + (a * ry) ^ 2 ≠ 0 := by rw [e, h]; simp
    rw [if_neg h', if_neg (by simpa using h)]
    simp
  · have h' : (a * rx) ^ 2 + (a * ry) ^ 2 ≠ 0 := by rw [e]; exact mul_ne_zero ha2 h
    rw [if_pos h', if_pos h]
    simp only [interp_times, e]
    refine Prod.ext ?_ ?_
    · simp only
      field_simp
    · simp only
      field_simp

theorem values_times (w : Which) (wd ht : Int) (d : Derivatives) (kp : Kpt) {a : ℝ} (ha : 0 < a) (i j k l : Int) :
    values w wd ht (d.times a) kp i j k l =
      (a * (values w wd ht d kp i j k l).1, a * (values w wd ht d kp i j k l).2) := by
  have ex : (d.times a).Lx = fun y x => a * d.Lx y x := rfl
  have ey : (d.times a).Ly = fun y x => a * d.Ly y x := rfl
  obtain ⟨f, u, e⟩ := w
  unfold values
  simp only [ex, ey, interp_times]
  cases f
  · cases u
    · simp only [Bool.false_eq_true, if_false]
      refine Prod.ext ?_ ?_ <;> · simp only; ring
    · simp
  · cases u
    · simp only [Bool.false_eq_true, if_false]
      refine Prod.ext ?_ ?_ <;> · simp only; ring
    · simp only [if_true]
      refine Prod.ext ?_ ?_ <;> · simp only; ring
  · simp only [gauge_times _ _ _ _ ha]
    cases e <;> simp

theorem bins_times (e : Bool) (vs : List (ℝ × ℝ)) {a : ℝ} (ha : 0 < a) :
    bins e (vs.map fun v => (a * v.1, a * v.2)) = (bins e vs).map (a * ·) := by
  have h1 : ∀ (c f : ℝ × ℝ → ℝ), (∀ v : ℝ × ℝ, c (a * v.1, a * v.2) = a * c v) →
      (∀ v : ℝ × ℝ, f (a * v.1, a * v.2) = a * f v) →
      sumIf c f (vs.map fun v => (a * v.1, a * v.2)) = a * sumIf c f vs ∧
      sumNot c f (vs.map fun v => (a * v.1, a * v.2)) = a * sumNot c f vs := by
    intro c f hc hf
    unfold sumIf sumNot
    constructor
    · rw [← List.sum_map_mul_left, List.map_map]
      congr 1
      refine List.map_congr_left fun v _ => ?_
      simp only [Function.comp, hc, hf, mul_nonneg_iff_of_pos_left ha]
      split <;> simp
    · rw [← List.sum_map_mul_left, List.map_map]
      congr 1
      refine List.map_congr_left fun v _ => ?_
      simp only [Function.comp, hc, hf, mul_nonneg_iff_of_pos_left ha]
      split <;> simp
  have h2 : ∀ f : ℝ × ℝ → ℝ, (∀ v : ℝ × ℝ, f (a * v.1, a * v.2) = a * f v) →
      ((vs.map fun v => (a * v.1, a * v.2)).map f).sum = a * (vs.map f).sum := by
    intro f hf
    rw [← List.sum_map_mul_left, List.map_map]
    congr 1
    exact List.map_congr_left fun v _ => hf v
  have a1 : ∀ v : ℝ × ℝ, |(a * v.1, a * v.2).1| = a * |v.1| := fun v => by simp [abs_mul, abs_of_pos ha]
  have a2 : ∀ v : ℝ × ℝ, |(a * v.1, a * v.2).2| = a * |v.2| := fun v => by simp [abs_mul, abs_of_pos ha]
  unfold bins
  cases e
  · simp only [Bool.false_eq_true, if_false, List.map_cons, List.map_nil]
    rw [h2 Prod.fst fun _ => rfl, h2 Prod.snd fun _ => rfl, h2 (fun v => |v.1|) a1, h2 (fun v => |v.2|) a2]
  · simp only [if_true, List.map_cons, List.map_nil]
    rw [(h1 Prod.snd Prod.fst (fun _ => rfl) fun _ => rfl).1, (h1 Prod.snd Prod.fst (fun _ => rfl) fun _ => rfl).2,
      (h1 Prod.fst Prod.snd (fun _ => rfl) fun _ => rfl).1, (h1 Prod.fst Prod.snd (fun _ => rfl) fun _ => rfl).2,
      (h1 Prod.snd (fun v => |v.1|) (fun _ => rfl) a1).1, (h1 Prod.snd (fun v => |v.1|) (fun _ => rfl) a1).2,
      (h1 Prod.fst (fun v => |v.2|) (fun _ => rfl) a2).1, (h1 Prod.fst (fun v => |v.2|) (fun _ => rfl) a2).2]

theorem cell_times (w : Which) (wd ht : Int) (d : Derivatives) (kp : Kpt) {a : ℝ} (ha : 0 < a) (p q : Nat) :
    cell w wd ht (d.times a) kp p q = (cell w wd ht d kp p q).map (a * ·) := by
  unfold cell
  simp only
  rw [← bins_times _ _ ha]
  congr 1
  rw [List.map_flatMap]
  congr 1
  funext k
  rw [List.map_map]
  exact List.map_congr_left fun l _ => by simp only [Function.comp, values_times w wd ht d kp ha]

/-- C96: the descriptor does not depend on the contrast of the image. -/
theorem descriptor_contrast (w : Which) (wd ht : Int) (d : Derivatives) (kp : Kpt) {a : ℝ} (ha : 0 < a) :
    descriptor w wd ht (d.times a) kp = descriptor w wd ht d kp := by
  have hraw : raw w wd ht (d.times a) kp = (raw w wd ht d kp).map (a * ·) := by
    unfold raw
    rw [List.map_flatMap]
    congr 1
    funext c
    rw [cell_times w wd ht d kp ha, List.map_map, List.map_map]
    exact List.map_congr_left fun v _ => by simp only [Function.comp]; ring
  have hlen : lengthSq w wd ht (d.times a) kp = a ^ 2 * lengthSq w wd ht d kp := by
    rw [lengthSq_eq, lengthSq_eq, hraw]
    have : (raw w wd ht d kp).map (a * ·) = (raw w wd ht d kp).map (· * a) :=
      List.map_congr_left fun v _ => mul_comm a v
    rw [this, sum_sq_map_mul]
    ring
  have hs : Real.sqrt (lengthSq w wd ht (d.times a) kp) = a * Real.sqrt (lengthSq w wd ht d kp) := by
    rw [hlen, Real.sqrt_mul (by positivity), Real.sqrt_sq ha.le]
  unfold descriptor
  rw [hs]
  by_cases h : Real.sqrt (lengthSq w wd ht d kp) = 0
  · rw [if_pos h, if_pos (by rw [h, mul_zero])]
  · rw [if_neg h, if_neg (mul_ne_zero ha.ne' h), hraw, List.map_map]
    congr 1
    refine List.map_congr_left fun v _ => ?_
    simp only [Function.comp]
    field_simp

/-! ## The sums of a cell -/

/-- C96: the sums of the values are not larger than the sums of their absolute values. -/
theorem bins_bound (vs : List (ℝ × ℝ)) : ∃ a b c d, bins false vs = [a, b, c, d] ∧ |a| ≤ c ∧ |b| ≤ d := by
  refine ⟨_, _, _, _, rfl, ?_, ?_⟩
  · induction vs with
    | nil => simp
    | cons v vs ih =>
      simp only [List.map_cons, List.sum_cons]
      exact (abs_add_le _ _).trans (by linarith)
  · induction vs with
    | nil => simp
    | cons v vs ih =>
      simp only [List.map_cons, List.sum_cons]
      exact (abs_add_le _ _).trans (by linarith)

theorem sumIf_add_sumNot (c f : ℝ × ℝ → ℝ) (vs : List (ℝ × ℝ)) : sumIf c f vs + sumNot c f vs = (vs.map f).sum := by
  unfold sumIf sumNot
  rw [← List.sum_map_add]
  congr 1
  refine List.map_congr_left fun v _ => ?_
  split <;> simp

/-- C96: the extended descriptor splits the sums of the plain one: of SURF and MSURF, each number of a cell of the plain
descriptor is the sum of two of the extended one. -/
theorem extended_splits {f : Family} (hf : f ≠ .gsurf) (u : Bool) (wd ht : Int) (d : Derivatives) (kp : Kpt) (p q : Nat) :
    ∃ e0 e1 e2 e3 e4 e5 e6 e7, cell ⟨f, u, true⟩ wd ht d kp p q = [e0, e1, e2, e3, e4, e5, e6, e7] ∧
      cell ⟨f, u, false⟩ wd ht d kp p q = [e0 + e1, e4 + e5, e2 + e3, e6 + e7] := by
  have hp : ∀ e, position ⟨f, u, e⟩ kp = position ⟨f, u, false⟩ kp := by
    intro e
    funext k l
    unfold position
    simp [hf]
  have hi : ∀ e, interp ⟨f, u, e⟩ wd ht = interp ⟨f, u, false⟩ wd ht := by
    intro e
    rfl
  have hv : values ⟨f, u, true⟩ wd ht d kp = values ⟨f, u, false⟩ wd ht d kp := by
    funext i j k l
    unfold values
    simp only [hp true, hi true]
    cases f <;> simp_all
  refine ⟨_, _, _, _, _, _, _, _, rfl, ?_⟩
  unfold cell
  simp only [hv]
  unfold bins
  simp only [Bool.false_eq_true, if_false, sumIf_add_sumNot]

/-! ## Interpolation -/

theorem trunc_of_nonneg {x : ℝ} (h : 0 ≤ x) : trunc x = ⌊x⌋ := if_pos h

/-- C96: but for the rotated MSURF, values of a function that is linear are interpolated exactly, for samples half a
pixel and more from the border. -/
theorem interp_linear {w : Which} (hw : ¬ (w.family = .msurf ∧ w.upright = false)) {wd ht : Int} {p : ℝ × ℝ}
    (hx : 1 / 2 ≤ p.1) (hx1 : p.1 < wd - 1 / 2) (hy : 1 / 2 ≤ p.2) (hy1 : p.2 < ht - 1 / 2) (a b c : ℝ) :
    interp w wd ht (fun y x => a + b * x + c * y) p = a + b * p.1 + c * p.2 := by
  have key : ∀ (s : ℝ) (n : Int), 1 / 2 ≤ s → s < n - 1 / 2 →
      ∃ m : Int, limit (first w s) n = m ∧ limit (trunc (s + 1 / 2)) n = m + 1 := by
    intro s n h1 h2
    have e1 : first w s = ⌊s - 1 / 2⌋ := by
      unfold first
      rw [if_neg hw, trunc_of_nonneg (by linarith)]
    have e2 : trunc (s + 1 / 2) = ⌊s - 1 / 2⌋ + 1 := by
      rw [trunc_of_nonneg (by linarith), ← Int.floor_add_one]
      congr 1
      ring
    have h0 : 0 ≤ ⌊s - 1 / 2⌋ := Int.floor_nonneg.2 (by linarith)
    have h3 : ⌊s - 1 / 2⌋ + 1 < n := by
      have : ⌊s - 1 / 2⌋ < n - 1 := by
        rw [Int.floor_lt]
        push_cast
        linarith
      omega
    exact ⟨⌊s - 1 / 2⌋, by rw [e1, limit_inside h0 (by omega)], by rw [e2, limit_inside (by omega) h3]⟩
  obtain ⟨m, m1, m2⟩ := key p.1 wd hx hx1
  obtain ⟨n, n1, n2⟩ := key p.2 ht hy hy1
  unfold interp
  simp only [m1, m2, n1, n2]
  push_cast
  ring

/-- C96: for the rotated MSURF, an interpolated value is in the range of the image, wherever the sample is. -/
theorem interp_range_msurf (e : Bool) {wd ht : Int} (hwd : 0 < wd) (hht : 0 < ht) {im : Int → Int → ℝ} {lo hi : ℝ}
    (h : ∀ y x, 0 ≤ y → y < ht → 0 ≤ x → x < wd → lo ≤ im y x ∧ im y x ≤ hi) (p : ℝ × ℝ) :
    lo ≤ interp ⟨.msurf, false, e⟩ wd ht im p ∧ interp ⟨.msurf, false, e⟩ wd ht im p ≤ hi := by
  have key : ∀ (s : ℝ) (n : Int), 0 < n → limit (first ⟨.msurf, false, e⟩ s) n = limit (trunc (s + 1 / 2)) n ∨
      (0 ≤ s - (limit (first ⟨.msurf, false, e⟩ s) n : ℝ) ∧ s - (limit (first ⟨.msurf, false, e⟩ s) n : ℝ) ≤ 1) := by
    intro s n hn
    have e1 : first ⟨.msurf, false, e⟩ s = trunc s := by
      unfold first fRound
      rw [if_pos ⟨rfl, rfl⟩]
      congr 1
      ring
    rw [e1]
    by_cases h0 : 0 ≤ s
    · rw [trunc_of_nonneg h0, trunc_of_nonneg (by linarith)]
      have f0 : 0 ≤ ⌊s⌋ := Int.floor_nonneg.2 h0
      by_cases h1 : ⌊s⌋ < n
      · right
        rw [limit_inside f0 h1]
        exact ⟨by linarith [Int.floor_le s], by linarith [Int.lt_floor_add_one s]⟩
      · left
        have : ⌊s⌋ ≤ ⌊s + 1 / 2⌋ := Int.floor_mono (by linarith)
        rw [limit_above hn (by omega), limit_above hn (by omega)]
    · left
      have t1 : trunc s ≤ 0 := by
        unfold trunc
        rw [if_neg h0]
        exact Int.ceil_le.2 (by push_cast; linarith)
      have t2 : trunc (s + 1 / 2) ≤ 0 := by
        unfold trunc
        split
        · have : ⌊s + 1 / 2⌋ < 1 := by
            rw [Int.floor_lt]
            push_cast
            linarith
          omega
        · exact Int.ceil_le.2 (by push_cast; linarith)
      rw [limit_below hn t1, limit_below hn t2]
  have mix : ∀ (a b t : ℝ) (l u : ℝ), l ≤ a → a ≤ u → l ≤ b → b ≤ u → (a = b ∨ (0 ≤ t ∧ t ≤ 1)) →
      l ≤ (1 - t) * a + t * b ∧ (1 - t) * a + t * b ≤ u := by
    intro a b t l u h1 h2 h3 h4 ht
    rcases ht with rfl | ⟨t0, t1⟩
    · have : (1 - t) * a + t * a = a := by ring
      rw [this]
      exact ⟨h1, h2⟩
    · constructor
      · nlinarith
      · nlinarith
  unfold interp
  simp only
  have ex := key p.1 wd hwd
  have ey := key p.2 ht hht
  have rx := @limit_range (first ⟨.msurf, false, e⟩ p.1) wd hwd
  have rx2 := @limit_range (trunc (p.1 + 1 / 2)) wd hwd
  have ry := @limit_range (first ⟨.msurf, false, e⟩ p.2) ht hht
  have ry2 := @limit_range (trunc (p.2 + 1 / 2)) ht hht
  generalize limit (first ⟨.msurf, false, e⟩ p.1) wd = x1 at *
  generalize limit (trunc (p.1 + 1 / 2)) wd = x2 at *
  generalize limit (first ⟨.msurf, false, e⟩ p.2) ht = y1 at *
  generalize limit (trunc (p.2 + 1 / 2)) ht = y2 at *
  have row : ∀ y, 0 ≤ y → y < ht → lo ≤ (1 - (p.1 - x1)) * im y x1 + (p.1 - x1) * im y x2 ∧
      (1 - (p.1 - x1)) * im y x1 + (p.1 - x1) * im y x2 ≤ hi := by
    intro y h0 h1
    have b1 := h y x1 h0 h1 rx.1 rx.2
    have b2 := h y x2 h0 h1 rx2.1 rx2.2
    refine mix _ _ _ _ _ b1.1 b1.2 b2.1 b2.2 ?_
    rcases ex with ex | ex
    · exact .inl (by rw [ex])
    · exact .inr ex
  have r1 := row y1 ry.1 ry.2
  have r2 := row y2 ry2.1 ry2.2
  have := mix _ _ (p.2 - y1) _ _ r1.1 r1.2 r2.1 r2.2 (by
    rcases ey with ey | ey
    · exact .inl (by rw [ey])
    · exact .inr ey)
  constructor
  · linarith [this.1]
  · linarith [this.2]

theorem floor_eq' {x : ℝ} (n : Int) (h1 : (n : ℝ) ≤ x) (h2 : x < n + 1) : ⌊x⌋ = n := Int.floor_eq_iff.2 ⟨h1, h2⟩

/-- C96: the others extrapolate: between the pixels 0 of column 2 and 1 of columns 3 and 4, the value at column 3.25 is
more than 1. -/
theorem interp_range_refuted {w : Which} (hw : ¬ (w.family = .msurf ∧ w.upright = false)) :
    interp w 10 10 (fun _ x => if x ≤ 2 then 0 else 1) (13 / 4, 5) = 5 / 4 := by
  have f1 : ⌊(13 / 4 : ℝ) - 1 / 2⌋ = 2 := floor_eq' 2 (by norm_num) (by norm_num)
  have f2 : ⌊(13 / 4 : ℝ) + 1 / 2⌋ = 3 := floor_eq' 3 (by norm_num) (by norm_num)
  have f3 : ⌊(5 : ℝ) - 1 / 2⌋ = 4 := floor_eq' 4 (by norm_num) (by norm_num)
  have f4 : ⌊(5 : ℝ) + 1 / 2⌋ = 5 := floor_eq' 5 (by norm_num) (by norm_num)
  unfold interp first
  simp only
  simp only [if_neg hw, trunc_of_nonneg (show (0 : ℝ) ≤ 13 / 4 - 1 / 2 by norm_num),
    trunc_of_nonneg (show (0 : ℝ) ≤ 13 / 4 + 1 / 2 by norm_num), trunc_of_nonneg (show (0 : ℝ) ≤ 5 - 1 / 2 by norm_num),
    trunc_of_nonneg (show (0 : ℝ) ≤ 5 + 1 / 2 by norm_num), f1, f2, f3, f4]
  norm_num [limit]

/-- C96: the rotated MSURF does not interpolate: a linear function is read as 3 at column 3.25. -/
theorem interp_msurf_refuted (e : Bool) : interp ⟨.msurf, false, e⟩ 10 10 (fun _ x => x) (13 / 4, 5) = 3 := by
  have f1 : ⌊(13 / 4 : ℝ) - 1 / 2 + 1 / 2⌋ = 3 := floor_eq' 3 (by norm_num) (by norm_num)
  have f2 : ⌊(13 / 4 : ℝ) + 1 / 2⌋ = 3 := floor_eq' 3 (by norm_num) (by norm_num)
  have f3 : ⌊(5 : ℝ) - 1 / 2 + 1 / 2⌋ = 5 := floor_eq' 5 (by norm_num) (by norm_num)
  have f4 : ⌊(5 : ℝ) + 1 / 2⌋ = 5 := floor_eq' 5 (by norm_num) (by norm_num)
  unfold interp first fRound
  simp only [and_self, if_true]
  simp only [trunc_of_nonneg (show (0 : ℝ) ≤ 13 / 4 - 1 / 2 + 1 / 2 by norm_num),
    trunc_of_nonneg (show (0 : ℝ) ≤ 13 / 4 + 1 / 2 by norm_num),
    trunc_of_nonneg (show (0 : ℝ) ≤ 5 - 1 / 2 + 1 / 2 by norm_num),
    trunc_of_nonneg (show (0 : ℝ) ≤ 5 + 1 / 2 by norm_num), f1, f2, f3, f4]
  norm_num [limit]

/-! ## Ramps -/

/-- Interpolating a constant gives the constant. -/
theorem interp_const (w : Which) (wd ht : Int) (a : ℝ) (p : ℝ × ℝ) : interp w wd ht (fun _ _ => a) p = a := by
  unfold interp
  simp only
  ring

/-- A ramp of intensity: constant gradient. -/
def ramp (gx gy : ℝ) : Derivatives :=
  { Lx := fun _ _ => gx
    Ly := fun _ _ => gy
    Lxx := fun _ _ => 0
    Lxy := fun _ _ => 0
    Lyy := fun _ _ => 0 }

theorem bins_zero {e : Bool} {vs : List (ℝ × ℝ)} (h : ∀ v ∈ vs, v = (0, 0)) {u : ℝ} (hu : u ∈ bins e vs) : u = 0 := by
  have hs : ∀ f : ℝ × ℝ → ℝ, f (0, 0) = 0 → (vs.map f).sum = 0 := by
    intro f hf
    refine List.sum_eq_zero fun x hx => ?_
    obtain ⟨v, hv, rfl⟩ := List.mem_map.1 hx
    rw [h v hv, hf]
  unfold bins sumIf sumNot at hu
  split at hu
  · simp only [List.mem_cons, List.not_mem_nil, or_false] at hu
    rcases hu with rfl | rfl | rfl | rfl | rfl | rfl | rfl | rfl <;> exact hs _ (by simp)
  · simp only [List.mem_cons, List.not_mem_nil, or_false] at hu
    rcases hu with rfl | rfl | rfl | rfl <;> exact hs _ (by simp)

/-- C96: there is no descriptor where the image is flat: the numbers are not numbers. -/
theorem descriptor_flat_refuted (w : Which) (wd ht : Int) (kp : Kpt) : descriptor w wd ht (ramp 0 0) kp = none := by
  have hv : ∀ i j k l, values w wd ht (ramp 0 0) kp i j k l = (0, 0) := by
    intro i j k l
    unfold values gauge ramp
    simp only [interp_const]
    obtain ⟨f, u, e⟩ := w
    cases f <;> cases u <;> cases e <;> simp
  rw [descriptor_none_iff]
  intro v hm
  unfold raw at hm
  rw [List.mem_flatMap] at hm
  obtain ⟨c, -, hm⟩ := hm
  obtain ⟨u, hu, rfl⟩ := List.mem_map.1 hm
  rw [bins_zero ?_ hu]
  · simp
  · intro v hv'
    rw [List.mem_flatMap] at hv'
    obtain ⟨k, -, hv'⟩ := hv'
    obtain ⟨l, -, rfl⟩ := List.mem_map.1 hv'
    exact hv _ _ _ _

/-- C96: nor has the gauge descriptor a value on a ramp. -/
theorem gsurf_ramp_refuted (u e : Bool) (wd ht : Int) (kp : Kpt) (gx gy : ℝ) :
    descriptor ⟨.gsurf, u, e⟩ wd ht (ramp gx gy) kp = none := by
  have hv : ∀ i j k l, values ⟨.gsurf, u, e⟩ wd ht (ramp gx gy) kp i j k l = (0, 0) := by
    intro i j k l
    unfold values gauge ramp
    simp only [interp_const]
    cases e <;> simp
  rw [descriptor_none_iff]
  intro v hm
  unfold raw at hm
  rw [List.mem_flatMap] at hm
  obtain ⟨c, -, hm⟩ := hm
  obtain ⟨u', hu, rfl⟩ := List.mem_map.1 hm
  rw [bins_zero ?_ hu]
  · simp
  · intro v hv'
    rw [List.mem_flatMap] at hv'
    obtain ⟨k, -, hv'⟩ := hv'
    obtain ⟨l, -, rfl⟩ := List.mem_map.1 hv'
    exact hv _ _ _ _

theorem sum_replicate' (n : Nat) (a : ℝ) : (List.replicate n a).sum = n * a := by
  simp

theorem surf_ramp_cell (u : Bool) (wd ht : Int) (kp : Kpt) (gx gy : ℝ) (a b : ℝ)
    (hv : ∀ i j k l, values ⟨.surf, u, false⟩ wd ht (ramp gx gy) kp i j k l = (a, b)) (p q : Nat) :
    cell ⟨.surf, u, false⟩ wd ht (ramp gx gy) kp p q = [25 * a, 25 * b, 25 * |a|, 25 * |b|] := by
  unfold cell
  simp only [hv]
  simp [bins, width, List.range_succ]
  refine ⟨?_, ?_, ?_, ?_⟩ <;> ring

theorem surf_ramp (u : Bool) (wd ht : Int) (kp : Kpt) (gx gy : ℝ) (a b : ℝ) (hab : a ^ 2 + b ^ 2 ≠ 0)
    (hv : ∀ i j k l, values ⟨.surf, u, false⟩ wd ht (ramp gx gy) kp i j k l = (a, b)) :
    descriptor ⟨.surf, u, false⟩ wd ht (ramp gx gy) kp =
      some ((List.replicate 16 [a, b, |a|, |b|]).flatten.map (· / Real.sqrt (32 * (a ^ 2 + b ^ 2)))) := by
  have hc := surf_ramp_cell u wd ht kp gx gy a b hv
  have hl : lengthSq ⟨.surf, u, false⟩ wd ht (ramp gx gy) kp = 25 ^ 2 * (32 * (a ^ 2 + b ^ 2)) := by
    unfold lengthSq
    simp only [hc]
    simp only [cells, List.range_succ, List.range_zero, weight]
    simp
    nlinarith [abs_mul_abs_self a, abs_mul_abs_self b, sq_abs a, sq_abs b]
  have hpos : 0 < a ^ 2 + b ^ 2 := lt_of_le_of_ne (by positivity) (Ne.symm hab)
  have hs : Real.sqrt (lengthSq ⟨.surf, u, false⟩ wd ht (ramp gx gy) kp) = 25 * Real.sqrt (32 * (a ^ 2 + b ^ 2)) := by
    rw [hl, Real.sqrt_mul (by positivity), Real.sqrt_sq (by norm_num)]
  have hr : 0 < Real.sqrt (32 * (a ^ 2 + b ^ 2)) := Real.sqrt_pos.2 (by positivity)
  have hraw : raw ⟨.surf, u, false⟩ wd ht (ramp gx gy) kp =
      (List.replicate 16 [a, b, |a|, |b|]).flatten.map (25 * ·) := by
    unfold raw
    simp only [hc]
    simp [cells, List.range_succ, weight, List.replicate_succ]
  unfold descriptor
  rw [hs, if_neg (by positivity), hraw, List.map_map]
  congr 1
  refine List.map_congr_left fun v _ => ?_
  simp only [Function.comp]
  field_simp

/-- C96: on a ramp the rotated SURF descriptor depends on the angle between the gradient and the keypoint only: turned by
the direction of the gradient, it is the same for all directions, strengths and places. -/
theorem surf_rotation (wd ht : Int) (x y size g phi : ℝ) (hg : 0 < g) :
    descriptor ⟨.surf, false, false⟩ wd ht (ramp (g * Real.cos phi) (g * Real.sin phi)) ⟨x, y, size, phi⟩ =
      some ((List.replicate 16 [0, 1, |0|, |1|]).flatten.map (· / Real.sqrt (32 * (0 ^ 2 + 1 ^ 2)))) := by
  have e : ramp (g * Real.cos phi) (g * Real.sin phi) = (ramp (Real.cos phi) (Real.sin phi)).times g := by
    unfold ramp Derivatives.times
    simp
  rw [e, descriptor_contrast _ _ _ _ _ hg]
  refine surf_ramp false wd ht _ _ _ 0 1 (by norm_num) ?_
  intro i j k l
  unfold values ramp
  simp only [interp_const, Bool.false_eq_true, if_false]
  refine Prod.ext ?_ ?_
  · simp only
    ring
  · simp only
    nlinarith [Real.sin_sq_add_cos_sq phi]

/-- C96: the upright descriptor is not the rotated one for angle zero: the axes are exchanged. -/
theorem upright_refuted (wd ht : Int) (x y size : ℝ) :
    descriptor ⟨.surf, true, false⟩ wd ht (ramp 1 0) ⟨x, y, size, 0⟩ ≠
      descriptor ⟨.surf, false, false⟩ wd ht (ramp 1 0) ⟨x, y, size, 0⟩ := by
  have h1 := surf_ramp true wd ht ⟨x, y, size, 0⟩ 1 0 1 0 (by norm_num) (by
    intro i j k l
    unfold values ramp
    simp [interp_const])
  have h2 := surf_rotation wd ht x y size 1 0 one_pos
  simp only [Real.cos_zero, Real.sin_zero, mul_one, mul_zero] at h2
  rw [h1, h2]
  intro h
  injection h with h
  simp [List.replicate_succ] at h

/-- C96: the weights of a cell of MSURF are not centred: the first and the last row have different ones. -/
theorem msurf_centre_refuted (wd ht : Int) (x y : ℝ) :
    (values ⟨.msurf, true, false⟩ wd ht (ramp 1 0) ⟨x, y, 2, 0⟩ (-12) (-12) (-12) (-8)).1 ≠
      (values ⟨.msurf, true, false⟩ wd ht (ramp 1 0) ⟨x, y, 2, 0⟩ (-12) (-12) (-12 + 8) (-8)).1 := by
  have hs : scale ⟨x, y, 2, 0⟩ = 1 := by
    unfold scale fRound
    rw [trunc_of_nonneg (by norm_num)]
    exact floor_eq' 1 (by norm_num) (by norm_num)
  unfold values ramp position gaussian
  simp only [interp_const, hs, if_true]
  norm_num
  intro h
  rw [if_neg (by decide), if_neg (by decide), if_neg (by decide)] at h
  simp only at h
  nlinarith

/-- C96: the samples for the orientation are exactly as many as the vectors have room for. -/
theorem orientationSamples_length : orientationSamples.length = 109 ∧ orientationSamples.Nodup := by
  decide +kernel

/-- C96: where a rotated descriptor looks: the grid of samples, as complex numbers, is stretched by the scale and rotated
by the angle of the keypoint, it is not mirrored. -/
theorem position_rotated (f : Family) (e : Bool) (kp : Kpt) (k l : Int) :
    ((position ⟨f, false, e⟩ kp k l).1 - kp.x : ℂ) + ((position ⟨f, false, e⟩ kp k l).2 - kp.y) * Complex.I =
      scale kp * (k + l * Complex.I) * Complex.exp (kp.angle * Complex.I) := by
  rw [Complex.exp_mul_I, ← Complex.ofReal_cos, ← Complex.ofReal_sin]
  simp only [position, Bool.false_eq_true, if_false]
  push_cast
  linear_combination -((scale kp : ℂ) * l * Complex.sin kp.angle * Complex.I_sq)

/-- C96: an upright descriptor looks at the same grid without a rotation, but with rows and columns exchanged, except in
the short GSURF descriptor. -/
theorem position_upright (f : Family) (e : Bool) (kp : Kpt) (k l : Int) :
    position ⟨f, true, e⟩ kp k l =
      position ⟨f, false, e⟩ { kp with angle := 0 } (if f = .gsurf ∧ e = false then k else l)
        (if f = .gsurf ∧ e = false then l else k) := by
  by_cases h : f = .gsurf ∧ e = false
  · simp [position, h, scale]
  · simp [position, h, scale, add_comm]

/-- C96: along a gradient of direction `t` and across it, the GSURF descriptor takes the second derivatives of the image in
these directions. -/
theorem gauge_directions (w : Which) (wd ht : Int) (d : Derivatives) (p : ℝ × ℝ) {m : ℝ} (hm : m ≠ 0) (t : ℝ) :
    let second := fun (ux uy : ℝ) => ux ^ 2 * interp w wd ht d.Lxx p + 2 * ux * uy * interp w wd ht d.Lxy p +
      uy ^ 2 * interp w wd ht d.Lyy p
    gauge w wd ht d p (m * Real.cos t) (m * Real.sin t) =
      (second (Real.cos t) (Real.sin t), second (-Real.sin t) (Real.cos t)) := by
  intro second
  have hs : (m * Real.cos t) ^ 2 + (m * Real.sin t) ^ 2 = m ^ 2 := by
    linear_combination m ^ 2 * Real.sin_sq_add_cos_sq t
  have hm2 : m ^ 2 ≠ 0 := pow_ne_zero 2 hm
  rw [gauge, if_pos (by rw [hs]; exact hm2)]
  simp only [hs, second, Prod.mk.injEq]
  constructor
  · rw [div_eq_iff hm2]; ring
  · rw [div_eq_iff hm2]; ring

/-- C96: the cells of a MSURF descriptor: the first begins 12 before the keypoint, together they are the samples up to 11
behind it, and each shares four rows with the next. -/
theorem msurf_cells (k : Int) :
    ((∃ p : Nat, p < 4 ∧ start .msurf p ≤ k ∧ k < start .msurf p + width .msurf) ↔ -12 ≤ k ∧ k < 12) ∧
      ∀ p : Nat, start .msurf p + width .msurf - start .msurf (p + 1) = 4 := by
  constructor
  · constructor
    · rintro ⟨p, hp, h1, h2⟩
      simp only [start, width, if_true] at h1 h2
      push_cast at h2
      omega
    · rintro ⟨h1, h2⟩
      refine ⟨min 3 ((k + 12) / 5).toNat, by omega, ?_, ?_⟩ <;> simp only [start, width, if_true] <;> push_cast <;> omega
  · intro p
    simp only [start, width, if_true]
    push_cast
    ring

/-- C96: the cells of the other descriptors are the samples from 10 before the keypoint up to 9 behind it, each once. -/
theorem surf_cells {f : Family} (hf : f ≠ .msurf) (k : Int) :
    ((∃ p : Nat, p < 4 ∧ start f p ≤ k ∧ k < start f p + width f) ↔ -10 ≤ k ∧ k < 10) ∧
      ∀ p q : Nat, start f p ≤ k → k < start f p + width f → start f q ≤ k → k < start f q + width f → p = q := by
  constructor
  · constructor
    · rintro ⟨p, hp, h1, h2⟩
      simp only [start, width, if_neg hf] at h1 h2
      push_cast at h2
      omega
    · rintro ⟨h1, h2⟩
      refine ⟨((k + 10) / 5).toNat, by omega, ?_, ?_⟩ <;> simp only [start, width, if_neg hf] <;> push_cast <;> omega
  · intro p q h1 h2 h3 h4
    simp only [start, width, if_neg hf] at h1 h2 h3 h4
    push_cast at h2 h4
    omega

/-- C96: the weights of the cells of MSURF are those of a normal distribution around the middle of the four by four cells:
they are the same on both sides, and smaller outside. -/
theorem weight_symm {p q : Nat} (hp : p < 4) :
    weight .msurf p q = weight .msurf (3 - p) q ∧ weight .msurf p q = weight .msurf q p ∧
      weight .msurf 0 q < weight .msurf 1 q := by
  have key : ∀ a b : Nat, weight .msurf a b = gaussian ((a : ℝ) + 1 / 2 - 2) ((b : ℝ) + 1 / 2 - 2) (3 / 2) :=
    fun a b => if_pos rfl
  refine ⟨?_, ?_, ?_⟩
  · rw [key, key, gaussian, gaussian, Nat.cast_sub (by omega)]
    congr 1
    push_cast
    ring
  · rw [key, key, gaussian, gaussian]
    congr 1
    ring
  · rw [key, key, gaussian, gaussian, Real.exp_lt_exp]
    push_cast
    rw [div_lt_div_iff_of_pos_right (by norm_num)]
    nlinarith

example : weight .msurf 0 0 < weight .msurf 1 0 := (weight_symm (p := 0) (q := 0) (by omega)).2.2

theorem sum_grid (n : Nat) (f : Nat → Nat → ℝ × ℝ) (g : ℝ × ℝ → ℝ) :
    (((List.range n).flatMap fun k => (List.range n).map fun l => f k l).map g).sum =
      ∑ k ∈ Finset.range n, ∑ l ∈ Finset.range n, g (f k l) := by
  have one : ∀ (m : Nat) (h : Nat → ℝ), ((List.range m).map h).sum = ∑ l ∈ Finset.range m, h l := by
    intro m h
    induction m with
    | zero => simp
    | succ m ih => rw [List.range_succ, List.map_append, List.sum_append, ih, Finset.sum_range_succ]; simp
  rw [List.map_flatMap, List.flatMap, List.sum_flatten, List.map_map, one]
  refine Finset.sum_congr rfl fun k _ => ?_
  simp only [Function.comp, List.map_map]
  exact one n _

/-- C96: the four numbers of a cell are the sums of the two values, and of their magnitudes, over the samples of the
cell: in SURF and GSURF 5 by 5 samples from `(5 p - 10, 5 q - 10)` on, in MSURF 9 by 9 from `(5 p - 12, 5 q - 12)` on. -/
theorem cell_sums {w : Which} (he : w.extended = false) (wd ht : Int) (d : Derivatives) (kp : Kpt) (p q : Nat) :
    ∃ (n : Nat) (i j : Int),
      ((w.family = .msurf → n = 9 ∧ i = 5 * p - 12 ∧ j = 5 * q - 12) ∧
        (w.family ≠ .msurf → n = 5 ∧ i = 5 * p - 10 ∧ j = 5 * q - 10)) ∧
      cell w wd ht d kp p q =
        [∑ a ∈ Finset.range n, ∑ b ∈ Finset.range n, (values w wd ht d kp i j (i + a) (j + b)).1,
          ∑ a ∈ Finset.range n, ∑ b ∈ Finset.range n, (values w wd ht d kp i j (i + a) (j + b)).2,
          ∑ a ∈ Finset.range n, ∑ b ∈ Finset.range n, |(values w wd ht d kp i j (i + a) (j + b)).1|,
          ∑ a ∈ Finset.range n, ∑ b ∈ Finset.range n, |(values w wd ht d kp i j (i + a) (j + b)).2|] := by
  refine ⟨width w.family, start w.family p, start w.family q, ⟨?_, ?_⟩, ?_⟩
  · intro h
    simp only [width, start, if_pos h, true_and]
    constructor <;> ring
  · intro h
    simp only [width, start, if_neg h, true_and]
    constructor <;> ring
  · simp only [cell, bins, he, Bool.false_eq_true, if_false]
    rw [sum_grid, sum_grid, sum_grid, sum_grid]

example : (⟨.surf, false, false⟩ : Which).extended = false := rfl

end Verif.Kaze.Descriptor
