import Verif.Kaze.ScaleSpace
import Verif.Kaze.ContrastProps
import Verif.Kaze.AosProps
import Verif.Kaze.ResponseProps
import Mathlib.Analysis.SpecialFunctions.Pow.NNReal
import Mathlib.Tactic.LinearCombination

/-!
# Properties of the nonlinear scale space (C116)
-/

namespace Verif.Kaze.ScaleSpace

open Verif (Outcome)
open Verif.Kaze.Diffusion (Img Kind conductivity nldSteps aosStep total spread)
open Verif.Kaze.Response (Level levels times weigh filterX filterY)

/-! ## Smoothing -/

/-- C116: the kernel of the smoothing has an odd size, which grows with the standard deviation; standard deviations up to
0.35 have no kernel. -/
theorem kernelSize_spec (sigma : ℝ) :
    (sigma ≤ 7 / 20 → kernelSize sigma = .ub) ∧
    (7 / 20 < sigma → ∃ n, kernelSize sigma = .ok n ∧ n % 2 = 1 ∧ 20 / 3 * sigma - 10 / 3 ≤ n ∧
      (n : ℝ) < 20 / 3 * sigma - 10 / 3 + 2) := by
  have e : 2 * (1 + (sigma - 8 / 10) / (3 / 10)) = 20 / 3 * sigma - 10 / 3 := by ring
  unfold kernelSize
  rw [e]
  simp only []
  constructor
  · intro h
    rw [if_pos]
    have : ⌈20 / 3 * sigma - 10 / 3⌉ ≤ -1 := Int.ceil_le.2 (by push_cast; linarith)
    omega
  · intro h
    have h1 : (-1 : Int) < ⌈20 / 3 * sigma - 10 / 3⌉ := Int.lt_ceil.2 (by push_cast; linarith)
    have h2 := Int.le_ceil (20 / 3 * sigma - 10 / 3)
    have h3 := Int.ceil_lt_add_one (20 / 3 * sigma - 10 / 3)
    rw [if_neg (by omega)]
    generalize ⌈20 / 3 * sigma - 10 / 3⌉ = v at h1 h2 h3
    obtain ⟨m, rfl⟩ : ∃ m : Nat, v = (m : Int) := ⟨v.toNat, by omega⟩
    push_cast at h2 h3
    simp only [Int.toNat_natCast]
    by_cases hm : m % 2 = 0
    · refine ⟨m + 1, by rw [if_pos hm], by omega, ?_, ?_⟩ <;> push_cast <;> linarith
    · exact ⟨m, by rw [if_neg hm], by omega, h2, by linarith⟩

theorem list_sum_pos {f : Nat → ℝ} (hf : ∀ i, 0 < f i) : ∀ {n : Nat}, 0 < n → 0 < ((List.range n).map f).sum := by
  intro n hn
  rw [Response.list_sum_range]
  exact Finset.sum_pos (fun i _ => hf i) ⟨0, Finset.mem_range.2 hn⟩

/-- Weights that are not negative and sum up to one. -/
def Mean (k : List ℝ) : Prop := (∀ w ∈ k, 0 ≤ w) ∧ k.sum = 1

theorem gaussKernel_mean {n : Nat} (hn : 0 < n) (sigma : ℝ) : Mean (gaussKernel n sigma) := by
  have hp : 0 < ((List.range n).map (weight n sigma)).sum := list_sum_pos (fun i => Real.exp_pos _) hn
  unfold gaussKernel
  constructor
  · intro w hw
    rw [List.mem_map] at hw
    obtain ⟨i, -, rfl⟩ := hw
    have : 0 < weight n sigma i := Real.exp_pos _
    positivity
  · set S := ((List.range n).map (weight n sigma)).sum with hS
    rw [Response.list_sum_range, ← Finset.sum_div, ← Response.list_sum_range, ← hS]
    exact div_self hp.ne'

theorem gaussKernel_length (n : Nat) (sigma : ℝ) : (gaussKernel n sigma).length = n := by simp [gaussKernel]

theorem weigh_eq (k : List ℝ) (f : Nat → ℝ) : weigh k f = ∑ t ∈ Finset.range k.length, k.getD t 0 * f t := by
  unfold weigh
  rw [Response.list_sum_range]

theorem sum_getD (k : List ℝ) : ∑ t ∈ Finset.range k.length, k.getD t 0 = k.sum := by
  induction k with
  | nil => simp
  | cons a k ih =>
    rw [List.length_cons, Finset.sum_range_succ', List.sum_cons, ← ih]
    simp [add_comm]

theorem getD_nonneg {k : List ℝ} (h : ∀ w ∈ k, 0 ≤ w) (t : Nat) : 0 ≤ k.getD t 0 := by
  rw [List.getD_eq_getElem?_getD]
  cases e : k[t]? with
  | none => simp
  | some w => exact h w (List.mem_of_getElem? e)

theorem weigh_affine (k : List ℝ) (f : Nat → ℝ) (a b : ℝ) :
    weigh k (fun t => a * f t + b) = a * weigh k f + b * k.sum := by
  rw [weigh_eq, weigh_eq, ← sum_getD, Finset.mul_sum, Finset.mul_sum, ← Finset.sum_add_distrib]
  exact Finset.sum_congr rfl fun t _ => by ring

theorem weigh_mono {k : List ℝ} (h : ∀ w ∈ k, 0 ≤ w) {f g : Nat → ℝ} (hfg : ∀ t, f t ≤ g t) : weigh k f ≤ weigh k g := by
  rw [weigh_eq, weigh_eq]
  exact Finset.sum_le_sum fun t _ => mul_le_mul_of_nonneg_left (hfg t) (getD_nonneg h t)

theorem weigh_const (k : List ℝ) (b : ℝ) : weigh k (fun _ => b) = b * k.sum := by
  have := weigh_affine k (fun _ => 0) 0 b
  simpa using this

theorem weigh_range {k : List ℝ} (h : Mean k) {f : Nat → ℝ} {lo hi : ℝ} (hf : ∀ t, lo ≤ f t ∧ f t ≤ hi) :
    lo ≤ weigh k f ∧ weigh k f ≤ hi := by
  have h1 := weigh_mono h.1 (f := fun _ => lo) (g := f) fun t => (hf t).1
  have h2 := weigh_mono h.1 (f := f) (g := fun _ => hi) fun t => (hf t).2
  rw [weigh_const, h.2, mul_one] at h1 h2
  exact ⟨h1, h2⟩

theorem replicate_lt {n : Nat} (hn : 0 < n) (p : Int) : replicate n p < n := by
  unfold replicate
  by_cases h : p < 0
  · rw [if_pos h]; exact hn
  · rw [if_neg h]
    by_cases h2 : (n : Int) ≤ p
    · rw [if_pos h2]; omega
    · rw [if_neg h2]; omega

theorem replicate_in {n : Nat} {p : Int} (h0 : 0 ≤ p) (h1 : p < n) : replicate n p = p.toNat := by
  unfold replicate
  rw [if_neg (by omega), if_neg (by omega)]

/-- All pixels are between two values. -/
def Within (lo hi : ℝ) (im : Img) : Prop := ∀ y x, y < im.rows → x < im.cols → lo ≤ im.px y x ∧ im.px y x ≤ hi

theorem blurX_within {k : List ℝ} (h : Mean k) {im : Img} {lo hi : ℝ} (hw : Within lo hi im) : Within lo hi (blurX k im) :=
  fun _ _ hy hx => weigh_range h fun _ => hw _ _ hy (replicate_lt (Nat.lt_of_le_of_lt (Nat.zero_le _) hx) _)

theorem blurY_within {k : List ℝ} (h : Mean k) {im : Img} {lo hi : ℝ} (hw : Within lo hi im) : Within lo hi (blurY k im) :=
  fun _ _ hy hx => weigh_range h fun _ => hw _ _ (replicate_lt (Nat.lt_of_le_of_lt (Nat.zero_le _) hy) _) hx

theorem gaussian_eq {sigma : ℝ} (h : 7 / 20 < sigma) : ∃ n, n % 2 = 1 ∧ ∀ im,
    gaussian sigma im = .ok (blurY (gaussKernel n sigma) (blurX (gaussKernel n sigma) im)) := by
  obtain ⟨n, e, h1, -⟩ := (kernelSize_spec sigma).2 h
  exact ⟨n, h1, fun im => by unfold gaussian; rw [e]; rfl⟩

/-- C116: the smoothing keeps the size of the image, and its pixels between any two values that they were between. -/
theorem gaussian_within {sigma : ℝ} (h : 7 / 20 < sigma) (im : Img) :
    ∃ im', gaussian sigma im = .ok im' ∧ im'.rows = im.rows ∧ im'.cols = im.cols ∧
      ∀ lo hi, Within lo hi im → Within lo hi im' := by
  obtain ⟨n, hn, e⟩ := gaussian_eq h
  have hm := gaussKernel_mean (by omega : 0 < n) sigma
  exact ⟨_, e im, rfl, rfl, fun lo hi hw => blurY_within hm (blurX_within hm hw)⟩

private theorem gaussKernel_getD {r i : Nat} (hi : i < 2 * r + 1) (sigma : ℝ) :
    (gaussKernel (2 * r + 1) sigma).getD i 0 =
      Real.exp (-((i : ℝ) - r) ^ 2 / (2 * sigma ^ 2)) /
        ∑ j ∈ Finset.range (2 * r + 1), Real.exp (-((j : ℝ) - r) ^ 2 / (2 * sigma ^ 2)) := by
  have hw : weight (2 * r + 1) sigma = fun j : Nat => Real.exp (-((j : ℝ) - r) ^ 2 / (2 * sigma ^ 2)) := by
    funext j
    unfold weight
    congr 4
    push_cast
    ring
  unfold gaussKernel
  rw [hw, Response.list_sum_range]
  simp [List.getD_eq_getElem?_getD, List.getElem?_range hi]

private theorem replicate_shift {n p i r : Nat} (h0 : r ≤ p) (h1 : p + r < n) (hi : i < 2 * r + 1) :
    replicate n ((p : Int) + (i : Int) - (((2 * r + 1) / 2 : Nat) : Int)) = p + i - r := by
  rw [replicate_in (by omega) (by omega)]
  omega

/-- C116: away from the border, a smoothed pixel is the mean of the pixels around it with the weights of a normal
distribution in two dimensions with the given standard deviation, in a square that reaches at least 10/3 of the standard
deviation minus 13/6 in each direction. -/
theorem gaussian_interior {sigma : ℝ} (h : 7 / 20 < sigma) : ∃ r : Nat,
    (10 / 3 * sigma - 13 / 6 ≤ r ∧ (r : ℝ) < 10 / 3 * sigma - 7 / 6) ∧ ∀ im : Img, ∃ im', gaussian sigma im = .ok im' ∧
      ∀ y x, r ≤ y → y + r < im.rows → r ≤ x → x + r < im.cols →
        im'.px y x * (∑ i ∈ Finset.range (2 * r + 1), ∑ j ∈ Finset.range (2 * r + 1),
          Real.exp (-(((i : ℝ) - r) ^ 2 + ((j : ℝ) - r) ^ 2) / (2 * sigma ^ 2))) =
        ∑ i ∈ Finset.range (2 * r + 1), ∑ j ∈ Finset.range (2 * r + 1),
          Real.exp (-(((i : ℝ) - r) ^ 2 + ((j : ℝ) - r) ^ 2) / (2 * sigma ^ 2)) * im.px (y + i - r) (x + j - r) := by
  obtain ⟨n, e, h1, h2, h3⟩ := (kernelSize_spec sigma).2 h
  obtain ⟨r, rfl⟩ : ∃ r, n = 2 * r + 1 := ⟨n / 2, by omega⟩
  push_cast at h2 h3
  refine ⟨r, ⟨by linarith, by linarith⟩, fun im => ⟨_, by unfold gaussian; rw [e]; rfl, fun y x hy hy' hx hx' => ?_⟩⟩
  set E : Nat → ℝ := fun j => Real.exp (-((j : ℝ) - r) ^ 2 / (2 * sigma ^ 2)) with hE
  set S := ∑ j ∈ Finset.range (2 * r + 1), E j with hS
  have hSpos : 0 < S := Finset.sum_pos (fun i _ => Real.exp_pos _) ⟨0, by simp⟩
  have hEE : ∀ i j : Nat, Real.exp (-(((i : ℝ) - r) ^ 2 + ((j : ℝ) - r) ^ 2) / (2 * sigma ^ 2)) = E i * E j := by
    intro i j
    simp only [hE]
    rw [← Real.exp_add]
    congr 1
    ring
  simp only [hEE]
  have hSS : ∑ i ∈ Finset.range (2 * r + 1), ∑ j ∈ Finset.range (2 * r + 1), E i * E j = S * S := by
    rw [hS, Finset.sum_mul_sum]
  rw [hSS]
  have hX : ∀ y', (blurX (gaussKernel (2 * r + 1) sigma) im).px y' x =
      (∑ j ∈ Finset.range (2 * r + 1), E j * im.px y' (x + j - r)) / S := by
    intro y'
    simp only [blurX]
    rw [weigh_eq, gaussKernel_length, Finset.sum_div]
    refine Finset.sum_congr rfl fun j hj => ?_
    rw [Finset.mem_range] at hj
    rw [gaussKernel_getD hj, replicate_shift hx hx' hj]
    simp only [hE, hS]
    ring
  have hrows : (blurX (gaussKernel (2 * r + 1) sigma) im).rows = im.rows := rfl
  have hY : (blurY (gaussKernel (2 * r + 1) sigma) (blurX (gaussKernel (2 * r + 1) sigma) im)).px y x =
      (∑ i ∈ Finset.range (2 * r + 1), E i * ((∑ j ∈ Finset.range (2 * r + 1), E j * im.px (y + i - r) (x + j - r)) / S)) /
        S := by
    simp only [blurY]
    rw [weigh_eq, gaussKernel_length, Finset.sum_div]
    refine Finset.sum_congr rfl fun i hi => ?_
    rw [Finset.mem_range] at hi
    rw [gaussKernel_getD hi, hrows, replicate_shift hy hy' hi, hX]
    simp only [hE, hS]
    ring
  rw [hY, div_mul_eq_mul_div, mul_comm S S, ← mul_assoc, mul_div_assoc, div_self hSpos.ne', mul_one, Finset.sum_mul]
  refine Finset.sum_congr rfl fun i _ => ?_
  rw [mul_assoc, div_mul_cancel₀ _ hSpos.ne', Finset.mul_sum]
  exact Finset.sum_congr rfl fun j _ => by ring

/-- The square reaches four pixels in each direction for the default options. -/
example : (10 / 3 * (8 / 5 : ℝ) - 13 / 6 ≤ 4 ∧ (4 : ℝ) < 10 / 3 * (8 / 5) - 7 / 6) := by norm_num

/-- C116, refuted: with a standard deviation up to 0.35 the size of the kernel has no defined value. -/
theorem gaussian_small_refuted {sigma : ℝ} (h : sigma ≤ 7 / 20) (im : Img) : gaussian sigma im = .ub := by
  unfold gaussian
  rw [(kernelSize_spec sigma).1 h]
  rfl

/-- C116, refuted: with a standard deviation up to 0.5 nothing is smoothed. -/
theorem gaussian_none_refuted {sigma : ℝ} (h : 7 / 20 < sigma) (h2 : sigma ≤ 1 / 2) (im : Img) :
    ∃ im', gaussian sigma im = .ok im' ∧ ∀ y x, y < im.rows → x < im.cols → im'.px y x = im.px y x := by
  obtain ⟨n, e, h1, -, h3⟩ := (kernelSize_spec sigma).2 h
  have hn : n < 2 := by
    have : (n : ℝ) < 2 := by linarith
    exact_mod_cast this
  have hn1 : n = 1 := by omega
  subst hn1
  refine ⟨_, by unfold gaussian; rw [e]; rfl, fun y x hy hx => ?_⟩
  have hk : gaussKernel 1 sigma = [1] := by
    unfold gaussKernel
    have : weight 1 sigma 0 ≠ 0 := (Real.exp_pos _).ne'
    simp [this]
  rw [hk]
  simp only [blurX, blurY, weigh, List.length_singleton, List.range_one, List.map_cons, List.map_nil, List.sum_cons,
    List.sum_nil, List.getD_cons_zero]
  norm_num
  rw [replicate_in (by omega) (by omega), replicate_in (by omega) (by omega)]
  simp

/-- The image with contrast and brightness changed. -/
noncomputable def affine (a b : ℝ) (im : Img) : Img := { im with px := fun y x => a * im.px y x + b }

theorem blurX_affine {k : List ℝ} (h : k.sum = 1) (a b : ℝ) (im : Img) : blurX k (affine a b im) = affine a b (blurX k im) := by
  unfold blurX affine
  congr 1
  funext y x
  rw [weigh_affine, h, mul_one]

theorem blurY_affine {k : List ℝ} (h : k.sum = 1) (a b : ℝ) (im : Img) : blurY k (affine a b im) = affine a b (blurY k im) := by
  unfold blurY affine
  congr 1
  funext y x
  rw [weigh_affine, h, mul_one]

theorem gaussian_affine (sigma a b : ℝ) (im : Img) :
    gaussian sigma (affine a b im) = (gaussian sigma im).bind fun r => .ok (affine a b r) := by
  by_cases h : sigma ≤ 7 / 20
  · rw [gaussian_small_refuted h, gaussian_small_refuted h]; rfl
  · obtain ⟨n, hn, e⟩ := gaussian_eq (not_le.1 h)
    have hm := (gaussKernel_mean (by omega : 0 < n) sigma).2
    rw [e, e, blurX_affine hm, blurY_affine hm]
    rfl

/-! ## Gradients -/

theorem filterX_affine (k : List ℝ) (a b : ℝ) (im : Img) :
    filterX k (affine a b im) = affine a (b * k.sum) (filterX k im) := by
  unfold filterX affine
  congr 1
  funext y x
  rw [weigh_affine]

theorem filterY_affine (k : List ℝ) (a b : ℝ) (im : Img) :
    filterY k (affine a b im) = affine a (b * k.sum) (filterY k im) := by
  unfold filterY affine
  congr 1
  funext y x
  rw [weigh_affine]

theorem gradSq_affine (a b : ℝ) (im : Img) (y x : Nat) : gradSq (affine a b im) y x = a ^ 2 * gradSq im y x := by
  have h1 : scharrX (affine a b im) = affine a 0 (scharrX im) := by
    unfold scharrX
    rw [filterX_affine, filterY_affine]
    norm_num
  have h2 : scharrY (affine a b im) = affine a 0 (scharrY im) := by
    unfold scharrY
    rw [filterX_affine, filterY_affine]
    norm_num
  unfold gradSq
  rw [h1, h2]
  simp only [affine]
  ring

theorem gradSq_nonneg (im : Img) (y x : Nat) : 0 ≤ gradSq im y x :=
  add_nonneg (mul_self_nonneg _) (mul_self_nonneg _)

theorem magnitudes_affine {a : ℝ} (ha : 0 < a) (b : ℝ) (im : Img) :
    magnitudes (affine a b im) = (magnitudes im).map fun m => a * m := by
  unfold magnitudes
  rw [List.map_flatMap]
  refine List.flatMap_congr fun y _ => ?_
  rw [List.map_map]
  refine List.map_congr_left fun x _ => ?_
  simp only [Function.comp]
  rw [gradSq_affine, Real.sqrt_mul (by positivity), Real.sqrt_sq ha.le]

theorem magnitudes_nonneg (im : Img) : ∀ m ∈ magnitudes im, 0 ≤ m := by
  intro m hm
  unfold magnitudes at hm
  rw [List.mem_flatMap] at hm
  obtain ⟨y, -, hm⟩ := hm
  rw [List.mem_map] at hm
  obtain ⟨x, -, rfl⟩ := hm
  exact Real.sqrt_nonneg _

/-! ## Contrast -/

theorem hmax_gain {a : ℝ} (ha : 0 < a) (g : List ℝ) : Contrast.hmax (g.map fun m => a * m) = a * Contrast.hmax g := by
  have key : ∀ (g : List ℝ) (h : ℝ), (g.map fun m => a * m).foldl (fun h m => if h < m then m else h) (a * h) =
      a * g.foldl (fun h m => if h < m then m else h) h := by
    intro g
    induction g with
    | nil => intro h; rfl
    | cons m g ih =>
      intro h
      rw [List.map_cons, List.foldl_cons, List.foldl_cons]
      by_cases c : h < m
      · rw [if_pos c, if_pos (mul_lt_mul_of_pos_left c ha), ih]
      · rw [if_neg c, if_neg (by rw [not_lt] at c ⊢; exact mul_le_mul_of_nonneg_left c ha.le), ih]
  have := key g 0
  rwa [mul_zero] at this

theorem binOf_gain {a : ℝ} (ha : 0 < a) (top : ℝ) (n : Nat) (m : ℝ) :
    Contrast.binOf (a * top) n (a * m) = Contrast.binOf top n m := by
  unfold Contrast.binOf
  rw [mul_div_mul_left _ _ ha.ne']

theorem hist_gain {a : ℝ} (ha : 0 < a) (g : List ℝ) (n : Nat) :
    Contrast.hist (g.map fun m => a * m) n = Contrast.hist g n := by
  funext k
  unfold Contrast.hist
  rw [List.countP_map, hmax_gain ha]
  refine List.countP_congr fun m _ => ?_
  simp only [Function.comp, binOf_gain ha, ha.ne', ne_eq, mul_eq_zero, false_or]

theorem npoints_gain {a : ℝ} (ha : 0 < a) (g : List ℝ) :
    Contrast.npoints (g.map fun m => a * m) = Contrast.npoints g := by
  unfold Contrast.npoints
  rw [List.countP_map]
  refine List.countP_congr fun m _ => ?_
  simp only [Function.comp, ha.ne', ne_eq, mul_eq_zero, false_or]

theorem kPercentile_value {g : List ℝ} {perc : ℝ} {nbins : Nat} (hg : ∀ m ∈ g, 0 ≤ m) (hn : 0 < nbins) (h1 : perc ≤ 1) :
    Contrast.kPercentile g perc nbins = .ok (Contrast.hmax g *
      (((Contrast.climb (Contrast.hist g nbins) ⌊(Contrast.npoints g : ℝ) * perc⌋₊ nbins (nbins + 1) 0 0).1 : ℝ) / (nbins : ℝ))) := by
  have hth := Contrast.threshold_le (g := g) h1
  set th := ⌊(Contrast.npoints g : ℝ) * perc⌋₊ with hthdef
  obtain ⟨k, e, hk, -, hend⟩ := Contrast.climb_spec g th nbins (nbins + 1) 0 (by omega) (by omega) (fun j hj => by omega)
  have hb0 : Contrast.below g nbins 0 = 0 := by
    unfold Contrast.below
    rw [List.countP_eq_zero]
    simp
  rw [hb0] at e
  have henough : th ≤ Contrast.below g nbins k := by
    rcases hend with h | h
    · exact h
    · rw [h, Contrast.below_all hg hn]
      exact hth
  unfold Contrast.kPercentile
  rw [if_neg (by omega)]
  simp only [← hthdef, e]
  rw [if_neg (by omega)]

theorem kPercentile_gain {a : ℝ} (ha : 0 < a) {g : List ℝ} {perc : ℝ} {nbins : Nat} (hg : ∀ m ∈ g, 0 ≤ m) (hn : 0 < nbins)
    (h1 : perc ≤ 1) : Contrast.kPercentile (g.map fun m => a * m) perc nbins =
      (Contrast.kPercentile g perc nbins).bind fun r => .ok (a * r) := by
  have hg' : ∀ m ∈ g.map (fun m => a * m), 0 ≤ m := by
    intro m hm
    rw [List.mem_map] at hm
    obtain ⟨w, hw, rfl⟩ := hm
    exact mul_nonneg ha.le (hg w hw)
  rw [kPercentile_value hg hn h1, kPercentile_value hg' hn h1, hmax_gain ha, hist_gain ha, npoints_gain ha]
  show Outcome.ok _ = Outcome.ok _
  rw [mul_assoc]

theorem bind_okay {α β : Type} (x : α) (f : α → Outcome β) : (Outcome.ok x).bind f = f x := rfl

theorem contrast_affine {o : Opts} (hn : 0 < o.nbins) (h1 : o.perc ≤ 1) {a : ℝ} (ha : 0 < a) (b : ℝ) (im : Img) :
    contrast o (affine a b im) = (contrast o im).bind fun k => .ok (a * k) := by
  unfold contrast
  rw [gaussian_affine]
  cases h : gaussian o.sderivatives im with
  | ok r =>
    simp only [bind_okay]
    rw [magnitudes_affine ha, kPercentile_gain ha (magnitudes_nonneg r) hn h1]
  | abort => rfl
  | ub => rfl
  | exc => rfl

theorem conductivity_gain {a : ℝ} (ha : 0 < a) (kd : Kind) (k g : ℝ) :
    conductivity kd (a * k) (a ^ 2 * g) = conductivity kd k g := by
  unfold conductivity
  by_cases hk : k = 0
  · subst hk
    rw [mul_zero, if_pos rfl, if_pos rfl]
    by_cases hg : g = 0
    · subst hg; simp
    · rw [if_neg hg, if_neg (by positivity)]
  · rw [if_neg hk, if_neg (mul_ne_zero ha.ne' hk)]
    have e : 1 / (a * k * (a * k)) * (a ^ 2 * g) = 1 / (k * k) * g := by field_simp
    have e' : -(1 / (a * k * (a * k))) * (a ^ 2 * g) = -(1 / (k * k)) * g := by rw [neg_mul, e, neg_mul]
    simp only [e, e']

theorem flow_affine {a : ℝ} (ha : 0 < a) (b : ℝ) (kind : Option Kind) (k : ℝ) (smooth : Img) (old : Nat → Nat → ℝ) :
    flow kind (a * k) (affine a b smooth) old = flow kind k smooth old := by
  unfold flow
  cases kind with
  | none => rfl
  | some kd =>
    have h : ∀ y x, conductivity kd (a * k) (gradSq (affine a b smooth) y x) = conductivity kd k (gradSq smooth y x) :=
      fun y x => by rw [gradSq_affine, conductivity_gain ha]
    by_cases c : ∀ y x, y < smooth.rows → x < smooth.cols → conductivity kd k (gradSq smooth y x) ≠ none
    · refine (if_pos ?_).trans (Eq.trans ?_ (if_pos c).symm)
      · intro y x hy hx
        rw [h]
        exact c y x hy hx
      · simp only [h]
    · refine (if_neg ?_).trans (if_neg c).symm
      intro c'
      refine c fun y x hy hx => ?_
      rw [← h]
      exact c' y x hy hx

theorem nldSteps_affine (c : Nat → Nat → ℝ) (a b : ℝ) : ∀ (tau : List ℝ) (L : Img),
    nldSteps c tau (affine a b L) = (nldSteps c tau L).bind fun r => .ok (affine a b r) := by
  intro tau
  induction tau with
  | nil => intro L; rfl
  | cons s r ih =>
    intro L
    rw [nldSteps, nldSteps]
    have h : Diffusion.nldStep c s (affine a b L) = (Diffusion.nldStep c s L).bind fun r => .ok (affine a b r) := by
      unfold Diffusion.nldStep
      by_cases hs : L.rows < 2 ∨ L.cols < 2
      · rw [if_pos hs]
        exact if_pos hs
      · rw [if_neg hs]
        refine (if_neg hs).trans ?_
        show Outcome.ok _ = Outcome.ok _
        congr 1
        unfold affine
        congr 1
        funext y x
        have := Diffusion.lstep_add L.rows L.cols c (fun y x => a * L.px y x) (fun _ _ => b) s y x
        simp only [] at this ⊢
        rw [this, Diffusion.lstep_smul]
        have hb : Diffusion.lstep L.rows L.cols c (fun _ _ => b) s y x = 0 := by
          simp [Diffusion.lstep, Diffusion.borderRow, Diffusion.firstCol, Diffusion.lastCol, Diffusion.interior]
        rw [hb]
        ring
    rw [h]
    cases Diffusion.nldStep c s L with
    | ok L' => exact ih L'
    | abort => rfl
    | ub => rfl
    | exc => rfl

/-- A level with contrast and brightness changed. -/
noncomputable def Slice.affine (a b : ℝ) (s : Slice) : Slice := ⟨ScaleSpace.affine a b s.lt, ScaleSpace.affine a b s.smooth⟩

theorem evolve_affine {o : Opts} (hf : o.useFed = true) {a : ℝ} (ha : 0 < a) (b k : ℝ) :
    ∀ (steps : List (ℝ × List ℝ)) (old : Nat → Nat → ℝ) (prev : Img),
      evolve o (a * k) steps old (affine a b prev) =
        (evolve o k steps old prev).bind fun r => .ok (r.map fun l => l.map (Slice.affine a b)) := by
  intro steps
  induction steps with
  | nil => intro old prev; rfl
  | cons st r ih =>
    intro old prev
    obtain ⟨t, tau⟩ := st
    rw [evolve, evolve, gaussian_affine]
    cases gaussian o.sderivatives prev with
    | ok smooth =>
      simp only [bind_okay, flow_affine ha, hf, if_true]
      cases flow o.kind k smooth old with
      | none => rfl
      | some c =>
        simp only []
        rw [nldSteps_affine]
        cases nldSteps c tau prev with
        | ok lt =>
          simp only [bind_okay]
          rw [ih]
          cases evolve o k r c lt with
          | ok rest => cases rest <;> rfl
          | abort => rfl
          | ub => rfl
          | exc => rfl
        | abort => rfl
        | ub => rfl
        | exc => rfl
    | abort => rfl
    | ub => rfl
    | exc => rfl

/-- C116: contrast and brightness of the image change contrast and brightness of every level in the same way, and nothing
else (with FED). -/
theorem run_affine {o : Opts} (hf : o.useFed = true) (hn : 0 < o.nbins) (h1 : o.perc ≤ 1) {a : ℝ} (ha : 0 < a) (b : ℝ)
    (img : Img) : run o (affine a b img) =
      (run o img).bind fun r => .ok (r.map fun p => (p.1, p.2.map (Slice.affine a b))) := by
  unfold run
  cases construct o with
  | ok steps =>
    simp only [bind_okay]
    unfold create
    by_cases hl : levels o.soffset o.omax o.nsublevels = []
    · rw [if_pos hl, if_pos hl]; rfl
    · rw [if_neg hl, if_neg hl, gaussian_affine]
      cases gaussian o.soffset img with
      | ok lt =>
        simp only [bind_okay]
        rw [gaussian_affine, contrast_affine hn h1 ha]
        cases gaussian o.sderivatives lt with
        | ok smooth =>
          simp only [bind_okay]
          cases contrast o img with
          | ok k =>
            simp only [bind_okay]
            rw [evolve_affine hf ha]
            cases evolve o k steps (fun _ _ => 0) lt with
            | ok rest => cases rest <;> rfl
            | abort => rfl
            | ub => rfl
            | exc => rfl
          | abort => rfl
          | ub => rfl
          | exc => rfl
        | abort => rfl
        | ub => rfl
        | exc => rfl
      | abort => rfl
      | ub => rfl
      | exc => rfl
  | abort => rfl
  | ub => rfl
  | exc => rfl

/-! ## Times -/

theorem times_mem : ∀ {ls : List Level} {t : ℝ}, t ∈ times ls → ∃ k a b, ls[k]? = some a ∧ ls[k + 1]? = some b ∧
    t = b.etime - a.etime := by
  intro ls
  induction ls with
  | nil => intro t h; simp [times] at h
  | cons a r ih =>
    cases r with
    | nil => intro t h; simp [times] at h
    | cons b r =>
      intro t h
      rw [times, List.mem_cons] at h
      rcases h with rfl | h
      · exact ⟨0, a, b, rfl, rfl, rfl⟩
      · obtain ⟨k, a', b', h1, h2, h3⟩ := ih h
        exact ⟨k + 1, a', b', h1, h2, h3⟩

theorem levels_toNat (soffset : ℝ) (omax n : Int) : levels soffset omax n = levels soffset omax.toNat n.toNat := by
  unfold levels
  simp only [Int.toNat_natCast]

/-- The time of level `k`. -/
theorem etime_eq (soffset : ℝ) {n : Nat} (hn : 0 < n) (k : Nat) :
    (Response.level soffset n (k / n) (k % n)).etime = soffset ^ 2 / 2 * ((2 : ℝ) ^ (2 / (n : ℝ))) ^ k := by
  have hnr : (n : ℝ) ≠ 0 := by exact_mod_cast hn.ne'
  have h : ((k % n : Nat) : ℝ) / n + ((k / n : Nat) : ℝ) = (k : ℝ) / n := by
    have : (n : ℝ) * ((k / n : Nat) : ℝ) + ((k % n : Nat) : ℝ) = k := by exact_mod_cast Nat.div_add_mod k n
    field_simp
    linarith
  unfold Response.level
  simp only []
  rw [h]
  have h2 : ((2 : ℝ) ^ (2 / (n : ℝ))) ^ k = (2 : ℝ) ^ ((k : ℝ) / n) * (2 : ℝ) ^ ((k : ℝ) / n) := by
    rw [← Real.rpow_natCast, ← Real.rpow_mul (by norm_num), ← Real.rpow_add (by norm_num)]
    congr 1
    ring
  rw [h2]
  ring

/-- C116: the first time between two levels is the shortest; no time is longer than the last level is old. -/
theorem times_bounds (o : Opts) {t : ℝ} (h : t ∈ times (levels o.soffset o.omax o.nsublevels)) :
    o.soffset ^ 2 / 2 * ((2 : ℝ) ^ (2 / (o.nsublevels.toNat : ℝ)) - 1) ≤ t ∧ t ≤ o.soffset ^ 2 / 2 * 4 ^ o.omax.toNat := by
  rw [levels_toNat] at h
  obtain ⟨k, a, b, h1, h2, rfl⟩ := times_mem h
  have hlen := (Response.levels_at o.soffset o.omax.toNat o.nsublevels.toNat).1
  have hk : k + 1 < o.omax.toNat * o.nsublevels.toNat := by
    rw [← hlen]
    exact (List.getElem?_eq_some_iff.1 h2).1
  have hn : 0 < o.nsublevels.toNat := Nat.pos_of_ne_zero (by rintro e; simp [e] at hk)
  rw [(Response.levels_get (by omega)).1] at h1
  rw [(Response.levels_get hk).1] at h2
  injection h1 with h1
  injection h2 with h2
  rw [← h1, ← h2, etime_eq _ hn, etime_eq _ hn]
  set q : ℝ := (2 : ℝ) ^ (2 / (o.nsublevels.toNat : ℝ)) with hq
  have hq1 : 1 ≤ q := Real.one_le_rpow (by norm_num) (by positivity)
  have hqk : 1 ≤ q ^ k := one_le_pow₀ hq1
  have hs : 0 ≤ o.soffset ^ 2 / 2 := by positivity
  constructor
  · have : o.soffset ^ 2 / 2 * q ^ (k + 1) - o.soffset ^ 2 / 2 * q ^ k = o.soffset ^ 2 / 2 * ((q - 1) * q ^ k) := by ring
    rw [this]
    refine mul_le_mul_of_nonneg_left ?_ hs
    nlinarith
  · have e : q ^ (o.omax.toNat * o.nsublevels.toNat) = 4 ^ o.omax.toNat := by
      have hnr : (o.nsublevels.toNat : ℝ) ≠ 0 := by exact_mod_cast hn.ne'
      rw [hq, ← Real.rpow_natCast, ← Real.rpow_mul (by norm_num), Nat.cast_mul,
        show 2 / (o.nsublevels.toNat : ℝ) * ((o.omax.toNat : ℝ) * (o.nsublevels.toNat : ℝ)) = 2 * (o.omax.toNat : ℝ) by field_simp,
        Real.rpow_mul (by norm_num), Real.rpow_natCast]
      norm_num
    have h3 : q ^ (k + 1) ≤ 4 ^ o.omax.toNat := by
      rw [← e]
      exact pow_le_pow_right₀ hq1 hk.le
    have h4 := mul_le_mul_of_nonneg_left h3 hs
    have h5 : 0 ≤ o.soffset ^ 2 / 2 * q ^ k := mul_nonneg hs (by linarith)
    linarith

/-! ## Levels -/

/-- What a level is made of, from the level before: the smoothed image is that of the level before, the conductivities
come from it, and with them the image of the level before is diffused. -/
def Next (o : Opts) (k : ℝ) (st : ℝ × List ℝ) (s s' : Slice) : Prop :=
  gaussian o.sderivatives s.lt = .ok s'.smooth ∧
    ∃ c : Nat → Nat → ℝ,
      (∀ kd, o.kind = some kd → ∀ y x, y < s'.smooth.rows → x < s'.smooth.cols →
        conductivity kd k (gradSq s'.smooth y x) = some (c y x)) ∧
      (o.kind = none → ∀ y x, c y x = 0) ∧
      (o.useFed = true → nldSteps c st.2 s.lt = .ok s'.lt) ∧
      (o.useFed = false → aosStep c st.1 s.lt = .ok s'.lt)

theorem flow_some {kind : Option Kind} {k : ℝ} {smooth : Img} {old c : Nat → Nat → ℝ} (h : flow kind k smooth old = some c) :
    (∀ kd, kind = some kd → ∀ y x, y < smooth.rows → x < smooth.cols → conductivity kd k (gradSq smooth y x) = some (c y x)) ∧
      (kind = none → c = old) := by
  unfold flow at h
  cases kind with
  | none =>
    simp only [Option.some.injEq] at h
    exact ⟨fun kd e => by simp at e, fun _ => h.symm⟩
  | some kd =>
    simp only [] at h
    by_cases hc : ∀ y x, y < smooth.rows → x < smooth.cols → conductivity kd k (gradSq smooth y x) ≠ none
    · rw [if_pos hc] at h
      injection h with h
      refine ⟨fun kd' e y x hy hx => ?_, fun e => by simp at e⟩
      injection e with e
      subst e
      rw [← h]
      obtain ⟨v, hv⟩ := Option.ne_none_iff_exists'.1 (hc y x hy hx)
      simp only [hv, Option.getD_some]
    · rw [if_neg hc] at h
      exact absurd h (by simp)

theorem evolve_next {o : Opts} {k : ℝ} : ∀ {steps : List (ℝ × List ℝ)} {old : Nat → Nat → ℝ} {s : Slice} {l : List Slice},
    (o.kind = none → ∀ y x, old y x = 0) → evolve o k steps old s.lt = .ok (some l) → l.length = steps.length ∧
      ∀ i st a b, steps[i]? = some st → (s :: l)[i]? = some a → (s :: l)[i + 1]? = some b → Next o k st a b := by
  intro steps
  induction steps with
  | nil =>
    intro old s l _ h
    rw [evolve] at h
    injection h with h
    injection h with h
    subst h
    exact ⟨rfl, fun i st a b h => by simp at h⟩
  | cons st r ih =>
    intro old s l hold h
    obtain ⟨t, tau⟩ := st
    rw [evolve] at h
    obtain ⟨smooth, h1, h⟩ := Outcome.bind_eq_ok.1 h
    cases hf : flow o.kind k smooth old with
    | none => rw [hf] at h; simp at h
    | some c =>
      rw [hf] at h
      simp only [] at h
      obtain ⟨lt, h2, h⟩ := Outcome.bind_eq_ok.1 h
      obtain ⟨rest, h3, h⟩ := Outcome.bind_eq_ok.1 h
      cases rest with
      | none => simp at h
      | some rest =>
        simp only [Option.map_some, Outcome.ok.injEq, Option.some.injEq] at h
        subst h
        have hfs := flow_some hf
        have hz : o.kind = none → ∀ y x, c y x = 0 := fun e y x => by rw [hfs.2 e]; exact hold e y x
        obtain ⟨hl, hn⟩ := ih (s := ⟨lt, smooth⟩) hz h3
        refine ⟨by simp [hl], fun i st a b e1 e2 e3 => ?_⟩
        cases i with
        | zero =>
          simp only [List.getElem?_cons_zero, Option.some.injEq, List.getElem?_cons_succ, zero_add] at e1 e2 e3
          subst e1 e2 e3
          refine ⟨h1, c, hfs.1, hz, fun e => ?_, fun e => ?_⟩
          · rwa [if_pos e] at h2
          · rwa [if_neg (by simp [e])] at h2
        | succ i =>
          exact hn i st a b (by simpa using e1) (by simpa using e2) (by simpa using e3)

/-- C116: if the scale space is created, there are as many levels as were allocated; the first one is the smoothed image;
and every other one is diffused from the one before. -/
theorem run_levels {o : Opts} {img : Img} {ret : Int} {l : List Slice} (h : run o img = .ok (some (ret, l))) :
    ∃ steps, construct o = .ok steps ∧
      ((levels o.soffset o.omax o.nsublevels = [] ∧ ret = -1 ∧ l = []) ∨
       (ret = 0 ∧ l.length = steps.length + 1 ∧ ∃ k, contrast o img = .ok k ∧
        (∃ s r, l = s :: r ∧ gaussian o.soffset img = .ok s.lt ∧ gaussian o.sderivatives s.lt = .ok s.smooth) ∧
        ∀ i st a b, steps[i]? = some st → l[i]? = some a → l[i + 1]? = some b → Next o k st a b)) := by
  unfold run at h
  obtain ⟨steps, h0, h⟩ := Outcome.bind_eq_ok.1 h
  refine ⟨steps, h0, ?_⟩
  unfold create at h
  by_cases hl : levels o.soffset o.omax o.nsublevels = []
  · rw [if_pos hl] at h
    simp only [Outcome.ok.injEq, Option.some.injEq, Prod.mk.injEq] at h
    exact Or.inl ⟨hl, h.1.symm, h.2.symm⟩
  · rw [if_neg hl] at h
    obtain ⟨lt, h1, h⟩ := Outcome.bind_eq_ok.1 h
    obtain ⟨smooth, h2, h⟩ := Outcome.bind_eq_ok.1 h
    obtain ⟨k, h3, h⟩ := Outcome.bind_eq_ok.1 h
    obtain ⟨rest, h4, h⟩ := Outcome.bind_eq_ok.1 h
    cases rest with
    | none => simp at h
    | some rest =>
      simp only [Option.map_some, Outcome.ok.injEq, Option.some.injEq, Prod.mk.injEq] at h
      obtain ⟨rfl, rfl⟩ := h
      obtain ⟨hl, hn⟩ := evolve_next (s := ⟨lt, smooth⟩) (fun _ _ _ => rfl) h4
      exact Or.inr ⟨rfl, by simp [hl], k, h3, ⟨⟨lt, smooth⟩, rest, rfl, h1, h2⟩, hn⟩

/-- C116, refuted: the smoothed images, from which keypoints are detected and described, lag behind: that of a level is
that of the image of the level before, and the first two are always the same. -/
theorem smooth_lags_refuted {o : Opts} {img : Img} {a b : Slice} {r : List Slice} (h : run o img = .ok (some (0, a :: b :: r))) :
    b.smooth = a.smooth := by
  obtain ⟨steps, -, ⟨-, h1, -⟩ | ⟨-, hl, k, -, ⟨s, r', e, -, h2⟩, hn⟩⟩ := run_levels h
  · simp at h1
  · injection e with e1 e2
    subst e1
    have hs : 0 < steps.length := by simp at hl; omega
    have := (hn 0 (steps[0]'hs) a b (by simp) rfl rfl).1
    rw [h2] at this
    injection this with this
    exact this.symm

/-- C116, refuted: a diffusivity that is not supported is reported on the console only: the function returns 0, and all
levels have the image of the first one. -/
theorem unsupported_refuted {o : Opts} (hk : o.kind = none) (hf : o.useFed = true) {img : Img} {l : List Slice} {ret : Int}
    (hlv : levels o.soffset o.omax o.nsublevels ≠ []) (h : run o img = .ok (some (ret, l))) :
    ret = 0 ∧ ∀ s s', s ∈ l → s' ∈ l → s.lt = s'.lt := by
  obtain ⟨steps, -, ⟨h1, -⟩ | ⟨h0, hl, k, -, -, hn⟩⟩ := run_levels h
  · exact absurd h1 hlv
  · refine ⟨h0, ?_⟩
    have hstep : ∀ (tau : List ℝ) (c : Nat → Nat → ℝ) (L L' : Img), (∀ y x, c y x = 0) → nldSteps c tau L = .ok L' → L' = L := by
      intro tau
      induction tau with
      | nil => intro c L L' _ h; rw [nldSteps] at h; injection h with h; exact h.symm
      | cons s r ih =>
        intro c L L' hc h
        rw [nldSteps] at h
        obtain ⟨M, h1, h2⟩ := Outcome.bind_eq_ok.1 h
        rw [ih c M L' hc h2]
        unfold Diffusion.nldStep at h1
        by_cases hs : L.rows < 2 ∨ L.cols < 2
        · rw [if_pos hs] at h1; exact absurd h1 (by simp)
        · rw [if_neg hs] at h1
          injection h1 with h1
          rw [← h1]
          have hz : ∀ y x, Diffusion.lstep L.rows L.cols c L.px s y x = 0 := by
            intro y x
            simp [Diffusion.lstep, Diffusion.borderRow, Diffusion.firstCol, Diffusion.lastCol, Diffusion.interior, hc]
          simp only [hz, add_zero]
    have hall : ∀ (i : Nat) (a b : Slice), l[0]? = some a → l[i]? = some b → b.lt = a.lt := by
      intro i
      induction i with
      | zero => intro a b e1 e2; rw [e1] at e2; injection e2 with e2; rw [e2]
      | succ i ih =>
        intro a b e1 e2
        have hi : i + 1 < l.length := (List.getElem?_eq_some_iff.1 e2).1
        have hi' : i < steps.length := by omega
        have hm := List.getElem?_eq_getElem (by omega : i < l.length)
        obtain ⟨-, c, -, hz, hfed, -⟩ := hn i (steps[i]'hi') (l[i]'(by omega)) b (by simp) hm e2
        rw [hstep _ c _ _ (hz hk) (hfed hf)]
        exact ih a _ e1 hm
    intro s s' hs hs'
    obtain ⟨i, hi, rfl⟩ := List.getElem_of_mem hs
    obtain ⟨j, hj, rfl⟩ := List.getElem_of_mem hs'
    have h00 := List.getElem?_eq_getElem (by omega : 0 < l.length)
    rw [hall i _ _ h00 (List.getElem?_eq_getElem hi), hall j _ _ h00 (List.getElem?_eq_getElem hj)]

/-! ## Explicit scheme -/

theorem cycles_ok : ∀ {ts : List ℝ}, (∀ t ∈ ts, 7 / 40 ≤ t ∧ t ≤ 10 ^ 12) → ∃ l, cycles ts = .ok l ∧ l.length = ts.length ∧
    ∀ st ∈ ts.zip l, (7 / 40 ≤ st.1 ∧ st.1 ≤ 10 ^ 12) ∧ ∃ n, Fed.byProcessTime st.1 1 (1 / 4) true [] = .ok (n, st.2) := by
  intro ts
  induction ts with
  | nil => intro _; exact ⟨[], rfl, rfl, by simp⟩
  | cons t r ih =>
    intro h
    obtain ⟨l, h1, h2, h3⟩ := ih fun x hx => h x (List.mem_cons_of_mem _ hx)
    have ht := h t (List.mem_cons_self ..)
    obtain ⟨n, tau, -, e, -⟩ := Fed.byProcessTime_reordered_partial t 1 (1 / 4) [] (by norm_num) (by norm_num)
      (by norm_num; linarith [ht.1]) (by have := ht.2; norm_num at this ⊢; linarith)
    refine ⟨tau :: l, by rw [cycles, e, bind_okay, h1]; rfl, by simp [h2], ?_⟩
    intro st hst
    rw [List.zip_cons_cons, List.mem_cons] at hst
    rcases hst with rfl | hst
    · exact ⟨ht, n, e⟩
    · exact h3 st hst

theorem flow_ok {kd : Kind} {k : ℝ} (hk : k ≠ 0) (smooth : Img) (old : Nat → Nat → ℝ) :
    ∃ c, flow (some kd) k smooth old = some c ∧ ∀ y x, 0 ≤ c y x ∧ c y x ≤ 1 := by
  have h : ∀ y x, ∃ v, conductivity kd k (gradSq smooth y x) = some v ∧ 0 ≤ v ∧ v ≤ 1 :=
    fun y x => Diffusion.conductivity_range_partial kd hk (gradSq_nonneg smooth y x)
  refine ⟨_, if_pos fun y x _ _ => ?_, fun y x => ?_⟩
  · obtain ⟨v, e, -⟩ := h y x
    rw [e]
    simp
  · obtain ⟨v, e, h0, h1⟩ := h y x
    rw [e]
    exact ⟨h0, h1⟩

theorem evolve_fed {o : Opts} {kd : Kind} (hkd : o.kind = some kd) (hf : o.useFed = true) (hs : 7 / 20 < o.sderivatives)
    {k : ℝ} (hk : k ≠ 0) : ∀ {steps : List (ℝ × List ℝ)} (old : Nat → Nat → ℝ) (prev : Img), 2 ≤ prev.rows → 2 ≤ prev.cols →
      (∀ st ∈ steps, (7 / 40 ≤ st.1 ∧ st.1 ≤ 10 ^ 12) ∧ ∃ n, Fed.byProcessTime st.1 1 (1 / 4) true [] = .ok (n, st.2)) →
      ∃ l, evolve o k steps old prev = .ok (some l) ∧
        (∀ s ∈ l, s.lt.rows = prev.rows ∧ s.lt.cols = prev.cols ∧ total s.lt = total prev ∧ spread s.lt ≤ spread prev) ∧
        l.Pairwise fun a b => spread b.lt ≤ spread a.lt := by
  intro steps
  induction steps with
  | nil => intro old prev _ _ _; exact ⟨[], rfl, by simp, List.Pairwise.nil⟩
  | cons st r ih =>
    intro old prev hr hc hst
    obtain ⟨t, tau⟩ := st
    obtain ⟨⟨t0, t1⟩, n, e⟩ := hst (t, tau) (List.mem_cons_self ..)
    obtain ⟨smooth, hg, -⟩ := gaussian_within hs prev
    obtain ⟨c, hfl, hcr⟩ := flow_ok (kd := kd) hk smooth old
    obtain ⟨n', tau', lt, e', h2, h3, h4, h5, h6⟩ := Diffusion.level_spread (c := c) (L := prev) hr hc (fun y x _ _ => hcr y x) t0 t1
    simp only [] at e
    rw [e] at e'
    simp only [Outcome.ok.injEq, Prod.mk.injEq] at e'
    obtain ⟨-, rfl⟩ := e'
    obtain ⟨l, h7, h8, h9⟩ := ih c lt (by omega) (by omega) fun st h => hst st (List.mem_cons_of_mem _ h)
    refine ⟨⟨lt, smooth⟩ :: l, ?_, ?_, ?_⟩
    · rw [evolve, hg, bind_okay, hkd, hfl]
      simp only [hf, if_true]
      rw [h2, bind_okay, h7]
      rfl
    · intro s hs
      rcases List.mem_cons.1 hs with rfl | hs
      · exact ⟨h3, h4, h5, h6⟩
      · obtain ⟨a, b, d, f⟩ := h8 s hs
        exact ⟨a.trans h3, b.trans h4, d.trans h5, f.trans h6⟩
    · exact List.Pairwise.cons (fun s hs => (h8 s hs).2.2.2) h9

/-- Enough gradients of the smoothed image, without those on the border, are not zero: the percentile asks for one of them
at least. -/
def Structured (o : Opts) (img : Img) : Prop :=
  ∀ g, gaussian o.sderivatives img = .ok g →
    1 ≤ (((magnitudes g).countP fun m => decide (m ≠ 0) : Nat) : ℝ) * o.perc

theorem contrast_pos {o : Opts} (hs : 7 / 20 < o.sderivatives) (hn : 0 < o.nbins) (h1 : o.perc ≤ 1) {img : Img}
    (h : Structured o img) : ∃ k, contrast o img = .ok k ∧ 0 < k := by
  obtain ⟨g, hg, -⟩ := gaussian_within hs img
  unfold contrast
  rw [hg, bind_okay]
  exact Contrast.kPercentile_pos_partial (magnitudes_nonneg g) hn h1 (h g hg)

/-- C116 (in part): with FED, the scale space of an image with structure has all levels; each keeps the size of the image
and the mean brightness of the first level, and its variance is at most that of the levels before. Not for flat images,
for many sublevels, and for small standard deviations. -/
theorem run_fed_partial {o : Opts} {kd : Kind} (hkd : o.kind = some kd) (hf : o.useFed = true)
    (ho : 0 < o.omax) (hl : 0 < o.nsublevels) (hs : 7 / 20 < o.sderivatives) (hs0 : 7 / 20 < o.soffset)
    (hn : 0 < o.nbins) (h1 : o.perc ≤ 1)
    (ht : 7 / 20 ≤ o.soffset ^ 2 * ((2 : ℝ) ^ (2 / (o.nsublevels.toNat : ℝ)) - 1))
    (ht' : o.soffset ^ 2 * 4 ^ o.omax.toNat ≤ 10 ^ 12)
    {img : Img} (hr : 2 ≤ img.rows) (hc : 2 ≤ img.cols) (hstr : Structured o img) :
    ∃ s l, run o img = .ok (some (0, s :: l)) ∧ (s :: l).length = o.omax.toNat * o.nsublevels.toNat ∧
      gaussian o.soffset img = .ok s.lt ∧
      (∀ s' ∈ l, s'.lt.rows = img.rows ∧ s'.lt.cols = img.cols ∧ total s'.lt = total s.lt) ∧
      (s :: l).Pairwise fun a b => spread b.lt ≤ spread a.lt := by
  have hb : ∀ t ∈ times (levels o.soffset o.omax o.nsublevels), 7 / 40 ≤ t ∧ t ≤ 10 ^ 12 := by
    intro t h
    obtain ⟨a, b⟩ := times_bounds o h
    have p4 : (0 : ℝ) ≤ o.soffset ^ 2 * 4 ^ o.omax.toNat := by positivity
    refine ⟨by linarith, b.trans ?_⟩
    rw [div_mul_eq_mul_div]
    exact le_trans (by linarith) ht'
  obtain ⟨cy, hcy, hlen, hgood⟩ := cycles_ok hb
  obtain ⟨lt, hg, g1, g2, -⟩ := gaussian_within hs0 img
  obtain ⟨smooth, hg', -⟩ := gaussian_within hs lt
  obtain ⟨k, hk, hk0⟩ := contrast_pos hs hn h1 hstr
  obtain ⟨l, h2, h3, h4⟩ := evolve_fed hkd hf hs hk0.ne' (fun _ _ => 0) lt (by omega) (by omega) hgood
  have hne : levels o.soffset o.omax o.nsublevels ≠ [] := by
    intro e
    have := (Response.levels_at o.soffset o.omax.toNat o.nsublevels.toNat).1
    rw [← levels_toNat, e] at this
    have : 0 < o.omax.toNat * o.nsublevels.toNat := Nat.mul_pos (by omega) (by omega)
    simp at *
    omega
  have hrun : run o img = .ok (some (0, ⟨lt, smooth⟩ :: l)) := by
    unfold run construct
    simp only [hf, if_true]
    rw [hcy, bind_okay, bind_okay]
    unfold create
    rw [if_neg hne, hg, bind_okay, hg', bind_okay, hk, bind_okay, h2]
    rfl
  refine ⟨⟨lt, smooth⟩, l, hrun, ?_, hg, fun s' hs' => ?_, List.Pairwise.cons (fun s' hs' => (h3 s' hs').2.2.2) h4⟩
  · have e := (evolve_next (s := ⟨lt, smooth⟩) (fun _ _ _ => rfl) h2).1
    have e2 := Response.times_length (levels o.soffset o.omax o.nsublevels)
    have e3 := (Response.levels_at o.soffset o.omax.toNat o.nsublevels.toNat).1
    rw [← levels_toNat] at e3
    rw [List.length_cons, e, List.length_zip, hlen, min_self, e2, e3]
    have : 0 < o.omax.toNat * o.nsublevels.toNat := Nat.mul_pos (by omega) (by omega)
    omega
  · obtain ⟨a, b, c, -⟩ := h3 s' hs'
    exact ⟨a.trans g1, b.trans g2, c⟩

/-- The default options, KAZEConfig.h:51-66. -/
noncomputable def defaults : Opts := ⟨8 / 5, 1, 7 / 10, 300, 4, 4, some .pmG2, true⟩

/-- C116: with the default options, this holds for all images with two gradients that are not zero. -/
theorem run_defaults {img : Img} (hr : 2 ≤ img.rows) (hc : 2 ≤ img.cols)
    (h : ∀ g, gaussian 1 img = .ok g → 2 ≤ (magnitudes g).countP fun m => decide (m ≠ 0)) :
    ∃ s l, run defaults img = .ok (some (0, s :: l)) ∧ (s :: l).length = 16 ∧
      gaussian (8 / 5) img = .ok s.lt ∧
      (∀ s' ∈ l, s'.lt.rows = img.rows ∧ s'.lt.cols = img.cols ∧ total s'.lt = total s.lt) ∧
      (s :: l).Pairwise fun a b => spread b.lt ≤ spread a.lt := by
  refine run_fed_partial (o := defaults) rfl rfl (by decide) (by decide) (by norm_num [defaults]) (by norm_num [defaults])
    (by norm_num [defaults]) (by norm_num [defaults]) ?_ ?_ hr hc ?_
  · show (7 : ℝ) / 20 ≤ (8 / 5) ^ 2 * ((2 : ℝ) ^ (2 / ((4 : Nat) : ℝ)) - 1)
    have : (2 : ℝ) ^ (2 / ((4 : Nat) : ℝ)) = √2 := by
      rw [Real.sqrt_eq_rpow]
      norm_num
    rw [this]
    have h2 : (7 : ℝ) / 5 ≤ √2 := Real.le_sqrt_of_sq_le (by norm_num)
    linarith
  · show ((8 : ℝ) / 5) ^ 2 * 4 ^ 4 ≤ 10 ^ 12
    norm_num
  · intro g hg
    have := h g hg
    have h2 : (2 : ℝ) ≤ (((magnitudes g).countP fun m => decide (m ≠ 0) : Nat) : ℝ) := by exact_mod_cast this
    show (1 : ℝ) ≤ _ * (7 / 10)
    linarith

/-- An image that gets brighter from left to right, for the examples. -/
noncomputable def rampOf (w : Nat) : Img := ⟨4, w, fun _ x => x⟩

theorem rampOf_structured {w : Nat} (hw : 4 ≤ w) : ∀ g, gaussian 1 (rampOf w) = .ok g → 2 ≤ (magnitudes g).countP fun m => decide (m ≠ 0) := by
  obtain ⟨n, e, h1, h2, h3⟩ := (kernelSize_spec 1).2 (by norm_num)
  have hn : n = 5 := by
    have a : (3 : ℝ) < n := by linarith
    have b : (n : ℝ) < 6 := by linarith
    have a' : 3 < n := by exact_mod_cast a
    have b' : n < 6 := by exact_mod_cast b
    omega
  subst hn
  set K := gaussKernel 5 1 with hK
  have hm : Mean K := gaussKernel_mean (by norm_num) 1
  have hKl : K.length = 5 := gaussKernel_length 5 1
  set B : Nat → ℝ := fun x => weigh K fun t => ((replicate w ((x : Int) + (t : Int) - 2) : Nat) : ℝ) with hB
  have hinc : ∀ x, x + 2 < w → B x < B (x + 2) := by
    intro x hx
    simp only [hB, weigh_eq, hKl]
    refine Finset.sum_lt_sum (fun t ht => ?_) ⟨2, by simp, ?_⟩
    · refine mul_le_mul_of_nonneg_left ?_ (getD_nonneg hm.1 t)
      rw [Nat.cast_le]
      unfold replicate
      split_ifs <;> omega
    · refine mul_lt_mul_of_pos_left ?_ ?_
      · rw [Nat.cast_lt]
        unfold replicate
        split_ifs <;> omega
      · rw [hK]
        have hp : 0 < ((List.range 5).map (weight 5 1)).sum := list_sum_pos (fun i => Real.exp_pos _) (by norm_num)
        have hwp : 0 < weight 5 1 2 := Real.exp_pos _
        unfold gaussKernel
        simp only [List.getD_eq_getElem?_getD, List.getElem?_map, List.getElem?_range (by norm_num : 2 < 5), Option.map_some,
          Option.getD_some]
        exact div_pos hwp hp
  intro g hg
  have hg' : g = ⟨4, w, fun _ x => B x⟩ := by
    unfold gaussian at hg
    rw [e] at hg
    simp only [bind_okay, Outcome.ok.injEq] at hg
    rw [← hg, ← hK]
    unfold blurY blurX rampOf
    simp only [hKl]
    congr 1
    funext y x
    rw [weigh_const, hm.2, mul_one]
    rfl
  have hgrad : ∀ y x, y < 2 → x + 2 < w → gradSq g (y + 1) (x + 1) ≠ 0 := by
    intro y x hy hx
    have hX : (scharrX g).px (y + 1) (x + 1) = 16 * (B (x + 2) - B x) := by
      rw [hg']
      simp only [scharrX, filterX, filterY, weigh]
      norm_num [List.range_succ]
      rw [Response.reflect_in (by omega) (by omega), Response.reflect_in (by omega) (by omega)]
      rw [show ((x : Int) + 1 + 2 - 1).toNat = x + 2 by omega, Int.toNat_natCast]
      ring
    have := hinc x hx
    have h0 : 0 < (scharrX g).px (y + 1) (x + 1) := by rw [hX]; linarith
    unfold gradSq
    nlinarith [mul_pos h0 h0, mul_self_nonneg ((scharrY g).px (y + 1) (x + 1))]
  have hall : (magnitudes g).countP (fun m => decide (m ≠ 0)) = (magnitudes g).length := by
    rw [List.countP_eq_length]
    intro m hm
    unfold magnitudes at hm
    rw [List.mem_flatMap] at hm
    obtain ⟨y, hy, hm⟩ := hm
    rw [List.mem_map] at hm
    obtain ⟨x, hx, rfl⟩ := hm
    rw [List.mem_range] at hy hx
    have hr : g.rows = 4 := by rw [hg']
    have hc : g.cols = w := by rw [hg']
    have hp := lt_of_le_of_ne (gradSq_nonneg g _ _) (hgrad y x (by omega) (by omega)).symm
    simp only [ne_eq, decide_not, Bool.not_eq_true', decide_eq_false_iff_not]
    exact (Real.sqrt_pos.2 hp).ne'
  rw [hall]
  have : (magnitudes g).length = 2 * (w - 2) := by
    rw [hg']
    simp [magnitudes, List.range_succ]
    omega
  omega

/-- A square one. -/
noncomputable def ramp : Img := rampOf 4

theorem ramp_structured : ∀ g, gaussian 1 ramp = .ok g → 2 ≤ (magnitudes g).countP fun m => decide (m ≠ 0) :=
  rampOf_structured le_rfl

example : ∃ s l, run defaults ramp = .ok (some (0, s :: l)) ∧ (s :: l).length = 16 := by
  obtain ⟨s, l, h1, h2, -⟩ := run_defaults (img := ramp) (by decide) (by decide) ramp_structured
  exact ⟨s, l, h1, h2⟩

/-! ## Implicit scheme -/

theorem evolve_aos {o : Opts} {kd : Kind} (hkd : o.kind = some kd) (hf : o.useFed = false) (hs : 7 / 20 < o.sderivatives)
    {k : ℝ} (hk : k ≠ 0) : ∀ {steps : List (ℝ × List ℝ)} (old : Nat → Nat → ℝ) (prev : Img), 2 ≤ prev.rows → prev.cols = prev.rows →
      (∀ st ∈ steps, 0 ≤ st.1) →
      ∃ l, evolve o k steps old prev = .ok (some l) ∧
        (∀ s ∈ l, s.lt.rows = prev.rows ∧ s.lt.cols = prev.cols ∧ total s.lt = total prev ∧ spread s.lt ≤ spread prev ∧
          ∀ lo hi, Within lo hi prev → Within lo hi s.lt) ∧
        l.Pairwise fun a b => spread b.lt ≤ spread a.lt := by
  intro steps
  induction steps with
  | nil => intro old prev _ _ _; exact ⟨[], rfl, by simp, List.Pairwise.nil⟩
  | cons st r ih =>
    intro old prev hr hc hst
    obtain ⟨t, tau⟩ := st
    have t0 : 0 ≤ t := hst (t, tau) (List.mem_cons_self ..)
    obtain ⟨smooth, hg, -⟩ := gaussian_within hs prev
    obtain ⟨c, hfl, hcr⟩ := flow_ok (kd := kd) hk smooth old
    obtain ⟨lt, h2⟩ := Diffusion.aosStep_ok_partial c t prev hr hc
    have hcn : ∀ y x, y < prev.rows → x < prev.cols → 0 ≤ c y x := fun y x _ _ => (hcr y x).1
    have h5 := Diffusion.aosStep_total h2 t0 hcn
    have h6 := Diffusion.aosStep_spread h2 t0 hcn
    obtain ⟨-, -, hpx⟩ := Diffusion.aosStep_px h2
    have h3 : lt.rows = prev.rows := by rw [hpx]
    have h4 : lt.cols = prev.cols := by rw [hpx]
    have h10 : ∀ lo hi, Within lo hi prev → Within lo hi lt := by
      intro lo hi hw y x hy hx
      exact (Diffusion.aosStep_range h2 t0 hcn hw).2.2 y x hy hx
    obtain ⟨l, h7, h8, h9⟩ := ih c lt (by omega) (by omega) fun st h => hst st (List.mem_cons_of_mem _ h)
    refine ⟨⟨lt, smooth⟩ :: l, ?_, ?_, ?_⟩
    · rw [evolve, hg, bind_okay, hkd, hfl]
      simp only [hf, Bool.false_eq_true, if_false]
      rw [h2, bind_okay, h7]
      rfl
    · intro s hs
      rcases List.mem_cons.1 hs with rfl | hs
      · exact ⟨h3, h4, h5, h6, h10⟩
      · obtain ⟨a, b, d, f, g⟩ := h8 s hs
        exact ⟨a.trans h3, b.trans h4, d.trans h5, f.trans h6, fun lo hi hw => g lo hi (h10 lo hi hw)⟩
    · exact List.Pairwise.cons (fun s hs => (h8 s hs).2.2.2.1) h9

theorem levels_ne_nil {o : Opts} (ho : 0 < o.omax) (hl : 0 < o.nsublevels) : levels o.soffset o.omax o.nsublevels ≠ [] := by
  intro e
  have := (Response.levels_at o.soffset o.omax.toNat o.nsublevels.toNat).1
  rw [← levels_toNat, e] at this
  have : 0 < o.omax.toNat * o.nsublevels.toNat := Nat.mul_pos (by omega) (by omega)
  simp at *
  omega

theorem times_nonneg (o : Opts) : ∀ t ∈ times (levels o.soffset o.omax o.nsublevels), 0 ≤ t := by
  intro t h
  refine le_trans (mul_nonneg (by positivity) ?_) (times_bounds o h).1
  have : (1 : ℝ) ≤ (2 : ℝ) ^ (2 / (o.nsublevels.toNat : ℝ)) := Real.one_le_rpow (by norm_num) (by positivity)
  linarith

/-- C116 (in part): without FED, the scale space of a square image with structure has all levels, for all numbers of
sublevels; each keeps size and mean, and its pixels stay between any two values that those of the image are between. -/
theorem run_aos_partial {o : Opts} {kd : Kind} (hkd : o.kind = some kd) (hf : o.useFed = false)
    (ho : 0 < o.omax) (hl : 0 < o.nsublevels) (hs : 7 / 20 < o.sderivatives) (hs0 : 7 / 20 < o.soffset)
    (hn : 0 < o.nbins) (h1 : o.perc ≤ 1) {img : Img} (hr : 2 ≤ img.rows) (hc : img.cols = img.rows) (hstr : Structured o img) :
    ∃ s l, run o img = .ok (some (0, s :: l)) ∧ (s :: l).length = o.omax.toNat * o.nsublevels.toNat ∧
      gaussian o.soffset img = .ok s.lt ∧
      (∀ s' ∈ l, s'.lt.rows = img.rows ∧ s'.lt.cols = img.cols ∧ total s'.lt = total s.lt) ∧
      (∀ s' ∈ s :: l, ∀ lo hi, Within lo hi img → Within lo hi s'.lt) ∧
      (s :: l).Pairwise fun a b => spread b.lt ≤ spread a.lt := by
  obtain ⟨lt, hg, g1, g2, g3⟩ := gaussian_within hs0 img
  obtain ⟨smooth, hg', -⟩ := gaussian_within hs lt
  obtain ⟨k, hk, hk0⟩ := contrast_pos hs hn h1 hstr
  obtain ⟨l, h2, h3, h4⟩ := evolve_aos (steps := (times (levels o.soffset o.omax o.nsublevels)).map fun t => (t, []))
    hkd hf hs hk0.ne' (fun _ _ => 0) lt (by omega) (by omega) (by
      intro st h
      rw [List.mem_map] at h
      obtain ⟨t, ht, rfl⟩ := h
      exact times_nonneg o t ht)
  have hrun : run o img = .ok (some (0, ⟨lt, smooth⟩ :: l)) := by
    unfold run construct
    simp only [hf, Bool.false_eq_true, if_false]
    rw [bind_okay]
    unfold create
    rw [if_neg (levels_ne_nil ho hl), hg, bind_okay, hg', bind_okay, hk, bind_okay, h2]
    rfl
  refine ⟨⟨lt, smooth⟩, l, hrun, ?_, hg, fun s' hs' => ?_, ?_, List.Pairwise.cons (fun s' hs' => (h3 s' hs').2.2.2.1) h4⟩
  · have e := (evolve_next (s := ⟨lt, smooth⟩) (fun _ _ _ => rfl) h2).1
    have e2 := Response.times_length (levels o.soffset o.omax o.nsublevels)
    have e3 := (Response.levels_at o.soffset o.omax.toNat o.nsublevels.toNat).1
    rw [← levels_toNat] at e3
    rw [List.length_cons, e, List.length_map, e2, e3]
    have : 0 < o.omax.toNat * o.nsublevels.toNat := Nat.mul_pos (by omega) (by omega)
    omega
  · obtain ⟨a, b, c, -⟩ := h3 s' hs'
    exact ⟨a.trans g1, b.trans g2, c⟩
  · intro s' hs' lo hi hw
    rcases List.mem_cons.1 hs' with rfl | hs'
    · exact g3 lo hi hw
    · exact (h3 s' hs').2.2.2.2 lo hi (g3 lo hi hw)

/-! ## What goes wrong -/

/-- C116: without levels, -1 is returned. -/
theorem run_none {o : Opts} (h : o.omax ≤ 0 ∨ o.nsublevels ≤ 0) (img : Img) : run o img = .ok (some (-1, [])) := by
  have hl : levels o.soffset o.omax o.nsublevels = [] := by
    unfold levels
    rcases h with h | h
    · rw [show o.omax.toNat = 0 by omega]; rfl
    · rw [show o.nsublevels.toNat = 0 by omega]; simp
  unfold run construct
  rw [hl]
  simp only [times]
  by_cases hf : o.useFed = true
  · rw [if_pos hf]
    show create o _ img = _
    unfold create
    rw [if_pos hl]
  · rw [if_neg hf]
    show create o _ img = _
    unfold create
    rw [if_pos hl]

theorem filterX_flat (k : List ℝ) {v : ℝ} {im : Img} (h : Within v v im) :
    Within (v * k.sum) (v * k.sum) (filterX k im) := by
  intro y x hy hx
  have e : (filterX k im).px y x = v * k.sum := by
    rw [← weigh_const]
    show weigh k _ = weigh k _
    congr 1
    funext t
    have := h y _ hy (Response.reflect_lt (Nat.lt_of_le_of_lt (Nat.zero_le _) hx) ((x : Int) + (t : Int) - ((k.length / 2 : Nat) : Int)))
    exact le_antisymm this.2 this.1
  rw [e]
  exact ⟨le_rfl, le_rfl⟩

theorem filterY_flat (k : List ℝ) {v : ℝ} {im : Img} (h : Within v v im) :
    Within (v * k.sum) (v * k.sum) (filterY k im) := by
  intro y x hy hx
  have e : (filterY k im).px y x = v * k.sum := by
    rw [← weigh_const]
    show weigh k _ = weigh k _
    congr 1
    funext t
    have := h _ x (Response.reflect_lt (Nat.lt_of_le_of_lt (Nat.zero_le _) hy) ((y : Int) + (t : Int) - ((k.length / 2 : Nat) : Int))) hx
    exact le_antisymm this.2 this.1
  rw [e]
  exact ⟨le_rfl, le_rfl⟩

theorem gradSq_flat {v : ℝ} {im : Img} (h : Within v v im) {y x : Nat} (hy : y < im.rows) (hx : x < im.cols) :
    gradSq im y x = 0 := by
  have h1 := filterY_flat [3, 10, 3] (filterX_flat [-1, 0, 1] h) y x hy hx
  have h2 := filterY_flat [-1, 0, 1] (filterX_flat [3, 10, 3] h) y x hy hx
  have s0 : ([-1, 0, 1] : List ℝ).sum = 0 := by norm_num
  rw [s0, mul_zero, zero_mul] at h1
  rw [s0, mul_zero] at h2
  have e1 : (scharrX im).px y x = 0 := le_antisymm h1.2 h1.1
  have e2 : (scharrY im).px y x = 0 := le_antisymm h2.2 h2.1
  unfold gradSq
  rw [e1, e2]
  norm_num

/-- C116, refuted: for a flat image the contrast factor is zero and the conductivities are not numbers, so all levels
but the first are not either. -/
theorem run_flat_refuted {o : Opts} {kd : Kind} (hkd : o.kind = some kd) (hs : 7 / 20 < o.sderivatives)
    (hs0 : 7 / 20 < o.soffset) (hn : 0 < o.nbins) {st : ℝ × List ℝ} {r : List (ℝ × List ℝ)} (hst : construct o = .ok (st :: r))
    {img : Img} {v : ℝ} (hv : Within v v img) (hr : 0 < img.rows) (hc : 0 < img.cols)
    (hl : levels o.soffset o.omax o.nsublevels ≠ []) : run o img = .ok none := by
  obtain ⟨lt, hg, g1, g2, g3⟩ := gaussian_within hs0 img
  obtain ⟨smooth, hg', f1, f2, f3⟩ := gaussian_within hs lt
  obtain ⟨gi, hgi, i1, i2, i3⟩ := gaussian_within hs img
  have hk : contrast o img = .ok 0 := by
    unfold contrast
    rw [hgi, bind_okay]
    refine Contrast.kPercentile_zero hn ?_
    have : Contrast.npoints (magnitudes gi) = 0 := by
      unfold Contrast.npoints
      rw [List.countP_eq_zero]
      intro m hm
      unfold magnitudes at hm
      rw [List.mem_flatMap] at hm
      obtain ⟨y, hy, hm⟩ := hm
      rw [List.mem_map] at hm
      obtain ⟨x, hx, rfl⟩ := hm
      rw [List.mem_range] at hy hx
      rw [gradSq_flat (i3 v v hv) (by omega) (by omega)]
      simp
    rw [this]
    norm_num
  have hfl : flow o.kind 0 smooth (fun _ _ => 0) = none := by
    rw [hkd]
    refine if_neg fun h => h 0 0 (by omega) (by omega) ?_
    rw [gradSq_flat (f3 v v (g3 v v hv)) (by omega) (by omega)]
    exact Diffusion.conductivity_refuted kd
  unfold run
  rw [hst, bind_okay]
  unfold create
  rw [if_neg hl, hg, bind_okay, hg', bind_okay, hk, bind_okay]
  obtain ⟨t, tau⟩ := st
  rw [evolve, hg', bind_okay, hfl]
  rfl

/-- C116, refuted: without FED, an image that is not square is out of the memory of the detector, or refused. -/
theorem run_wide_refuted {o : Opts} {kd : Kind} (hkd : o.kind = some kd) (hf : o.useFed = false)
    (hs : 7 / 20 < o.sderivatives) (hs0 : 7 / 20 < o.soffset)
    (hn : 0 < o.nbins) (h1 : o.perc ≤ 1) {t : ℝ} {r : List ℝ} (hl : times (levels o.soffset o.omax o.nsublevels) = t :: r)
    {img : Img} (hr : 2 ≤ img.rows) (hc : 2 ≤ img.cols) (hstr : Structured o img) :
    (img.rows < img.cols → run o img = .ub) ∧ (img.cols < img.rows → run o img = .exc) := by
  obtain ⟨lt, hg, g1, g2, -⟩ := gaussian_within hs0 img
  obtain ⟨smooth, hg', -⟩ := gaussian_within hs lt
  obtain ⟨k, hk, hk0⟩ := contrast_pos hs hn h1 hstr
  obtain ⟨c, hfl, -⟩ := flow_ok (kd := kd) hk0.ne' smooth (fun _ _ => 0)
  have hne : levels o.soffset o.omax o.nsublevels ≠ [] := by
    intro e
    rw [e] at hl
    simp [times] at hl
  have key : run o img = (aosStep c t lt).bind fun lt' =>
      (evolve o k (r.map fun t => (t, [])) c lt').bind fun rest => Outcome.bind (.ok (rest.map fun l => (⟨lt', smooth⟩ : Slice) :: l))
        fun rest => .ok (rest.map fun l => ((0 : Int), (⟨lt, smooth⟩ : Slice) :: l)) := by
    unfold run construct
    simp only [hf, Bool.false_eq_true, if_false]
    rw [bind_okay, hl]
    unfold create
    rw [if_neg hne, hg, bind_okay, hg', bind_okay, hk, bind_okay, List.map_cons, evolve, hg', bind_okay, hkd, hfl]
    simp only [hf, Bool.false_eq_true, if_false]
    cases aosStep c t lt with
    | ok lt' =>
      simp only [bind_okay]
      cases evolve o k (r.map fun t => (t, [])) c lt' <;> rfl
    | abort => rfl
    | ub => rfl
    | exc => rfl
  constructor
  · intro h
    rw [key]
    unfold aosStep
    rw [if_neg (by omega), if_pos (by omega)]
    rfl
  · intro h
    rw [key]
    unfold aosStep
    rw [if_neg (by omega), if_neg (by omega), if_pos (by omega)]
    rfl

/-- C116, refuted: with 20 sublevels, and otherwise the default options, the constructor does not end well: the cycles
have a single step, which cannot be reordered. -/
theorem sublevels_refuted (img : Img) : run { defaults with nsublevels := 20 } img = .ub := by
  have h : construct { defaults with nsublevels := 20 } = .ub := by
    unfold construct
    simp only [defaults, if_true]
    obtain ⟨t, r, e⟩ : ∃ t r, times (levels (8 / 5) 4 20) = t :: r := by
      have e1 := Response.times_length (levels (8 / 5) 4 20)
      have e2 := (Response.levels_at (8 / 5) 4 20).1
      push_cast at e2
      rw [e2] at e1
      cases e3 : times (levels (8 / 5) 4 20) with
      | nil => rw [e3] at e1; simp at e1
      | cons t r => exact ⟨t, r, rfl⟩
    have ht : 1 / 100 < t ∧ t < 1 / 10 := by
      have e0 : ∃ a b l, levels (8 / 5) 4 20 = a :: b :: l ∧ a = Response.level (8 / 5) 20 0 0 ∧ b = Response.level (8 / 5) 20 0 1 := by
        refine ⟨_, _, _, rfl, rfl, rfl⟩
      obtain ⟨a, b, l, e0, ha, hb⟩ := e0
      rw [e0, times] at e
      injection e with e
      have t0 := etime_eq (8 / 5) (n := 20) (by norm_num) 0
      have t1 := etime_eq (8 / 5) (n := 20) (by norm_num) 1
      simp only [Nat.zero_div, Nat.zero_mod, pow_zero, pow_one] at t0 t1
      rw [show (1 : Nat) / 20 = 0 by norm_num, show (1 : Nat) % 20 = 1 by norm_num] at t1
      rw [← ha] at t0
      rw [← hb] at t1
      rw [t0, t1] at e
      rw [← e]
      set q : ℝ := (2 : ℝ) ^ (2 / ((20 : Nat) : ℝ)) with hq
      have q10 : q ^ 10 = 2 := by
        rw [hq, ← Real.rpow_natCast, ← Real.rpow_mul (by norm_num)]
        norm_num
      have q0 : 0 < q := Real.rpow_pos_of_pos (by norm_num) _
      have l1 : 101 / 100 < q := by
        by_contra hcon
        have := pow_le_pow_left₀ q0.le (not_lt.1 hcon) 10
        rw [q10] at this
        norm_num at this
      have l2 : q < 1075 / 1000 := by
        by_contra hcon
        have := pow_le_pow_left₀ (by norm_num) (not_lt.1 hcon) 10
        rw [q10] at this
        norm_num at this
      constructor <;> nlinarith
    rw [e, cycles]
    have : Fed.byProcessTime t 1 (1 / 4) true [] = .ub := by
      unfold Fed.byProcessTime
      exact Fed.byCycleTime_short_ub [] (by norm_num) (by norm_num; linarith) (by norm_num; linarith)
    rw [this]
    rfl
  unfold run
  rw [h]
  rfl

example (b : ℝ) : ∃ s l, run defaults (affine 3 b ramp) = .ok (some (0, s :: l)) := by
  obtain ⟨s, l, h1, -⟩ := run_defaults (img := ramp) (by decide) (by decide) ramp_structured
  rw [run_affine rfl (by norm_num [defaults]) (by norm_num [defaults]) (by norm_num), h1]
  exact ⟨_, _, rfl⟩

theorem ramp_structured' {o : Opts} (h1 : o.sderivatives = 1) (h2 : o.perc = 7 / 10) {w : Nat} (hw : 4 ≤ w) :
    Structured o (rampOf w) := by
  intro g hg
  rw [h1] at hg
  rw [h2]
  have h3 : (2 : ℝ) ≤ (((magnitudes g).countP fun m => decide (m ≠ 0) : Nat) : ℝ) := by exact_mod_cast rampOf_structured hw g hg
  linarith

example : ∃ s l, run { defaults with useFed := false, nsublevels := 20 } ramp = .ok (some (0, s :: l)) ∧ (s :: l).length = 80 ∧
    ∀ s' ∈ s :: l, Within 0 3 s'.lt := by
  obtain ⟨s, l, h1, h2, -, -, h3, -⟩ := run_aos_partial (o := { defaults with useFed := false, nsublevels := 20 }) (img := ramp)
    (kd := .pmG2) rfl rfl (by decide) (by decide) (by norm_num [defaults]) (by norm_num [defaults]) (by norm_num [defaults])
    (by norm_num [defaults]) (by decide) rfl (ramp_structured' rfl rfl le_rfl)
  refine ⟨s, l, h1, h2, fun s' hs' => h3 s' hs' 0 3 fun y x _ hx => ?_⟩
  have : x ≤ 3 := by change x < 4 at hx; omega
  exact ⟨Nat.cast_nonneg x, by show (x : ℝ) ≤ 3; exact_mod_cast this⟩

example : run { defaults with nsublevels := 0 } ramp = .ok (some (-1, [])) := run_none (Or.inr le_rfl) ramp

example : ∃ a b r, run defaults ramp = .ok (some (0, a :: b :: r)) ∧ b.smooth = a.smooth := by
  obtain ⟨s, l, h1, h2, -⟩ := run_defaults (img := ramp) (by decide) (by decide) ramp_structured
  cases l with
  | nil => simp at h2
  | cons b r => exact ⟨s, b, r, h1, smooth_lags_refuted h1⟩

/-- C116, refuted: with the default options, all levels but the first of a flat image are not numbers. -/
theorem run_flat_defaults_refuted (v : ℝ) : run defaults ⟨4, 4, fun _ _ => v⟩ = .ok none := by
  obtain ⟨s, l, h1, h2, -⟩ := run_defaults (img := ramp) (by decide) (by decide) ramp_structured
  obtain ⟨steps, hst, ⟨-, h3, -⟩ | ⟨-, hl, -⟩⟩ := run_levels h1
  · simp at h3
  · cases steps with
    | nil => rw [h2] at hl; simp at hl
    | cons st r =>
      exact run_flat_refuted (kd := .pmG2) rfl (by norm_num [defaults]) (by norm_num [defaults]) (by norm_num [defaults]) hst
        (v := v) (fun _ _ _ _ => ⟨le_rfl, le_rfl⟩) (by norm_num) (by norm_num) (levels_ne_nil (o := defaults) (by decide) (by decide))

example : run { defaults with useFed := false } (rampOf 5) = .ub := by
  have hl := Response.times_length (levels (8 / 5) 4 4)
  have e2 := (Response.levels_at (8 / 5) 4 4).1
  push_cast at e2
  rw [e2] at hl
  cases e : times (levels (8 / 5) 4 4) with
  | nil => rw [e] at hl; simp at hl
  | cons t r =>
    exact (run_wide_refuted (o := { defaults with useFed := false }) (kd := .pmG2) (img := rampOf 5) rfl rfl
      (by norm_num [defaults]) (by norm_num [defaults]) (by norm_num [defaults]) (by norm_num [defaults]) e (by decide) (by decide)
      (ramp_structured' rfl rfl (by norm_num))).1 (by decide)

theorem evolve_unsupported {o : Opts} (hk : o.kind = none) (hf : o.useFed = true) (hs : 7 / 20 < o.sderivatives) (k : ℝ) :
    ∀ (steps : List (ℝ × List ℝ)) (prev : Img), 2 ≤ prev.rows → 2 ≤ prev.cols →
      ∃ l, evolve o k steps (fun _ _ => 0) prev = .ok (some l) := by
  have hstep : ∀ (tau : List ℝ) (L : Img), 2 ≤ L.rows → 2 ≤ L.cols → nldSteps (fun _ _ => 0) tau L = .ok L := by
    intro tau
    induction tau with
    | nil => intro L _ _; rfl
    | cons s r ih =>
      intro L hr hc
      have h : Diffusion.nldStep (fun _ _ => 0) s L = .ok L := by
        unfold Diffusion.nldStep
        rw [if_neg (by omega)]
        have hz : ∀ y x, Diffusion.lstep L.rows L.cols (fun _ _ => 0) L.px s y x = 0 := by
          intro y x
          simp [Diffusion.lstep, Diffusion.borderRow, Diffusion.firstCol, Diffusion.lastCol, Diffusion.interior]
        simp only [hz, add_zero]
      rw [nldSteps, h]
      exact ih L hr hc
  intro steps
  induction steps with
  | nil => intro prev _ _; exact ⟨[], rfl⟩
  | cons st r ih =>
    intro prev hr hc
    obtain ⟨t, tau⟩ := st
    obtain ⟨smooth, hg, -⟩ := gaussian_within hs prev
    obtain ⟨l, hl⟩ := ih prev hr hc
    refine ⟨⟨prev, smooth⟩ :: l, ?_⟩
    rw [evolve, hg, bind_okay, hk]
    simp only [flow, hf, if_true]
    rw [hstep tau prev hr hc, bind_okay, hl]
    rfl

example : ∃ l, run { defaults with kind := none } ramp = .ok (some (0, l)) ∧ ∀ s s', s ∈ l → s' ∈ l → s.lt = s'.lt := by
  obtain ⟨s, l, h1, h2, -⟩ := run_defaults (img := ramp) (by decide) (by decide) ramp_structured
  obtain ⟨steps, hst, -⟩ := run_levels h1
  have e : construct { defaults with kind := none } = .ok steps := hst
  obtain ⟨lt, hg, g1, g2, -⟩ := gaussian_within (sigma := 8 / 5) (by norm_num) ramp
  obtain ⟨smooth, hg', -⟩ := gaussian_within (sigma := 1) (by norm_num) lt
  obtain ⟨k, hk, -⟩ := contrast_pos (o := { defaults with kind := none }) (img := ramp) (by norm_num [defaults]) (by norm_num [defaults])
    (by norm_num [defaults]) (ramp_structured' rfl rfl le_rfl)
  have r4 : ramp.rows = 4 := rfl
  have c4 : ramp.cols = 4 := rfl
  obtain ⟨l', hl'⟩ := evolve_unsupported (o := { defaults with kind := none }) rfl rfl (by norm_num [defaults]) k steps lt (by omega) (by omega)
  have hrun : run { defaults with kind := none } ramp = .ok (some (0, ⟨lt, smooth⟩ :: l')) := by
    unfold run
    rw [e, bind_okay]
    unfold create
    rw [if_neg (levels_ne_nil (o := { defaults with kind := none }) (by decide) (by decide))]
    show (gaussian (8 / 5) ramp).bind _ = _
    rw [hg, bind_okay]
    show (gaussian 1 lt).bind _ = _
    rw [hg', bind_okay, hk, bind_okay, hl']
    rfl
  exact ⟨_, hrun, (unsupported_refuted rfl rfl (levels_ne_nil (o := { defaults with kind := none }) (by decide) (by decide)) hrun).2⟩

end Verif.Kaze.ScaleSpace
