import Mathlib.Data.List.Count
import Mathlib.Tactic.FieldSimp
import Mathlib.Tactic.Linarith
import Mathlib.Tactic.NormNum
import Mathlib.Tactic.Positivity
import Verif.Kaze.Contrast

/-!
# Property C93: contrast factor and scaling of images
-/

namespace Verif.Kaze.Contrast

open Verif (Outcome)

/-! ## The largest gradient -/

theorem foldMax_spec : ∀ (g : List ℝ) (a : ℝ),
    a ≤ g.foldl (fun h m => if h < m then m else h) a ∧
    (∀ m ∈ g, m ≤ g.foldl (fun h m => if h < m then m else h) a) ∧
    (g.foldl (fun h m => if h < m then m else h) a = a ∨ g.foldl (fun h m => if h < m then m else h) a ∈ g)
  | [], a => by simp
  | x :: g, a => by
    simp only [List.foldl_cons]
    obtain ⟨h1, h2, h3⟩ := foldMax_spec g (if a < x then x else a)
    have ha : a ≤ (if a < x then x else a) := by split <;> linarith
    have hx : x ≤ (if a < x then x else a) := by split <;> linarith
    refine ⟨ha.trans h1, ?_, ?_⟩
    · intro m hm
      rcases List.mem_cons.1 hm with rfl | hm
      · exact hx.trans h1
      · exact h2 m hm
    · rcases h3 with h3 | h3
      · rw [h3]
        split
        · exact .inr (by simp)
        · exact .inl rfl
      · exact .inr (List.mem_cons_of_mem _ h3)

theorem foldMin_spec : ∀ (g : List ℝ) (a : ℝ),
    g.foldl (fun h m => if m < h then m else h) a ≤ a ∧
    (∀ m ∈ g, g.foldl (fun h m => if m < h then m else h) a ≤ m) ∧
    (g.foldl (fun h m => if m < h then m else h) a = a ∨ g.foldl (fun h m => if m < h then m else h) a ∈ g)
  | [], a => by simp
  | x :: g, a => by
    simp only [List.foldl_cons]
    obtain ⟨h1, h2, h3⟩ := foldMin_spec g (if x < a then x else a)
    have ha : (if x < a then x else a) ≤ a := by split <;> linarith
    have hx : (if x < a then x else a) ≤ x := by split <;> linarith
    refine ⟨h1.trans ha, ?_, ?_⟩
    · intro m hm
      rcases List.mem_cons.1 hm with rfl | hm
      · exact h1.trans hx
      · exact h2 m hm
    · rcases h3 with h3 | h3
      · rw [h3]
        split
        · exact .inr (by simp)
        · exact .inl rfl
      · exact .inr (List.mem_cons_of_mem _ h3)

/-! ## The histogram -/

theorem binOf_lt {top : ℝ} {nbins : Nat} (hn : 0 < nbins) {m : ℝ} (h1 : m ≤ top) (ht : 0 < top) :
    binOf top nbins m < nbins := by
  have hle : ⌊(nbins : ℝ) * (m / top)⌋₊ ≤ nbins := by
    have : (nbins : ℝ) * (m / top) ≤ nbins := by
      have : m / top ≤ 1 := (div_le_one ht).2 h1
      nlinarith [(Nat.cast_nonneg nbins : (0 : ℝ) ≤ nbins)]
    exact Nat.floor_le_of_le this
  unfold binOf
  simp only
  split <;> omega

/-- The bins below `k` hold the gradients below `k` widths of a bin, the last bin also the largest gradient. -/
theorem binOf_lt_iff {top : ℝ} {nbins : Nat} {m : ℝ} (h0 : 0 ≤ m) (h1 : m ≤ top) (ht : 0 < top) {k : Nat} (hk : k < nbins) :
    binOf top nbins m < k ↔ m < top * (k / nbins) := by
  have hn : (0 : ℝ) < nbins := by exact_mod_cast (by omega : 0 < nbins)
  have hx : 0 ≤ (nbins : ℝ) * (m / top) := by positivity
  have e : m < top * (k / nbins) ↔ (nbins : ℝ) * (m / top) < k := by
    rw [mul_div_assoc', lt_div_iff₀ hn, mul_div_assoc', div_lt_iff₀ ht]
    constructor <;> intro h <;> linarith
  rw [e, ← Nat.floor_lt hx]
  have hle : ⌊(nbins : ℝ) * (m / top)⌋₊ ≤ nbins := by
    have : (nbins : ℝ) * (m / top) ≤ nbins := by
      have : m / top ≤ 1 := (div_le_one ht).2 h1
      nlinarith
    exact Nat.floor_le_of_le this
  unfold binOf
  simp only
  split <;> omega

/-- The number of gradients in the bins below `k`. -/
noncomputable def below (g : List ℝ) (nbins k : Nat) : Nat :=
  g.countP fun m => decide (m ≠ 0) && decide (binOf (hmax g) nbins m < k)

theorem countP_disj {α : Type} (p q r : α → Bool) (h : ∀ x, r x = (p x || q x)) (hd : ∀ x, ¬ (p x = true ∧ q x = true)) :
    ∀ l : List α, l.countP r = l.countP p + l.countP q
  | [] => rfl
  | x :: l => by
    have hx := h x
    have hdx := hd x
    rw [List.countP_cons, List.countP_cons, List.countP_cons, countP_disj p q r h hd l, hx]
    cases hp : p x <;> cases hq : q x <;> simp_all <;> omega

theorem below_succ (g : List ℝ) (nbins k : Nat) : below g nbins (k + 1) = below g nbins k + hist g nbins k := by
  unfold below hist
  refine countP_disj _ _ _ (fun m => ?_) (fun m => ?_) g
  · rw [← Bool.and_or_distrib_left]
    congr 1
    rw [← Bool.decide_or, decide_eq_decide]
    omega
  · simp only [Bool.and_eq_true, decide_eq_true_eq, not_and, and_imp]
    intro _ h1 _ h2
    omega

theorem climb_spec (g : List ℝ) (th nbins : Nat) : ∀ (fuel k : Nat), k ≤ nbins → nbins < k + fuel →
    (∀ j, j < k → below g nbins j < th) →
    ∃ k', climb (hist g nbins) th nbins fuel k (below g nbins k) = (k', below g nbins k') ∧ k' ≤ nbins ∧
      (∀ j, j < k' → below g nbins j < th) ∧ (th ≤ below g nbins k' ∨ k' = nbins)
  | 0, k, h1, h2, _ => by omega
  | fuel + 1, k, h1, h2, h3 => by
    unfold climb
    split
    · rename_i h
      rw [← below_succ]
      refine climb_spec g th nbins fuel (k + 1) (by omega) (by omega) fun j hj => ?_
      by_cases e : j = k
      · rw [e]; exact h.1
      · exact h3 j (by omega)
    · rename_i h
      exact ⟨k, rfl, h1, h3, by omega⟩

theorem hmax_ge {g : List ℝ} {m : ℝ} (h : m ∈ g) : m ≤ hmax g := (foldMax_spec g 0).2.1 m h

theorem hmax_nonneg (g : List ℝ) : 0 ≤ hmax g := (foldMax_spec g 0).1

theorem hmax_pos {g : List ℝ} (hg : ∀ m ∈ g, 0 ≤ m) (h : 0 < npoints g) : 0 < hmax g := by
  unfold npoints at h
  rw [List.countP_pos_iff] at h
  obtain ⟨m, hm, hm0⟩ := h
  have := hg m hm
  have h1 := hmax_ge hm
  have : m ≠ 0 := by simpa using hm0
  have : 0 < m := lt_of_le_of_ne (hg m hm) (Ne.symm this)
  linarith

theorem below_all {g : List ℝ} (hg : ∀ m ∈ g, 0 ≤ m) {nbins : Nat} (hn : 0 < nbins) : below g nbins nbins = npoints g := by
  unfold below npoints
  refine List.countP_congr fun m hm => ?_
  simp only [Bool.and_eq_true, decide_eq_true_eq, and_iff_left_iff_imp]
  intro h0
  have : 0 < m := lt_of_le_of_ne (hg m hm) (Ne.symm h0)
  exact binOf_lt hn (hmax_ge hm) (this.trans_le (hmax_ge hm))

theorem threshold_le {g : List ℝ} {perc : ℝ} (h1 : perc ≤ 1) : ⌊(npoints g : ℝ) * perc⌋₊ ≤ npoints g := by
  refine Nat.floor_le_of_le ?_
  nlinarith [(Nat.cast_nonneg (npoints g) : (0 : ℝ) ≤ npoints g)]

/-- C93: for a percentile up to 1, the contrast factor `r` is at most the largest gradient; the wanted number of gradients
is below `r` (or `r` is the largest gradient); and the wanted number is not below `r` less the width of a bin. -/
theorem kPercentile_spec {g : List ℝ} {perc : ℝ} {nbins : Nat} (hg : ∀ m ∈ g, 0 ≤ m) (hn : 0 < nbins)
    (h1 : perc ≤ 1) :
    ∃ r, kPercentile g perc nbins = .ok r ∧ 0 ≤ r ∧ (∀ b, (∀ m ∈ g, m ≤ b) → 0 ≤ b → r ≤ b) ∧
      (⌊((g.countP fun m => decide (m ≠ 0)) : ℝ) * perc⌋₊ ≤ g.countP (fun m => decide (m ≠ 0) && decide (m < r)) ∨
        ∀ m ∈ g, m ≤ r) ∧
      (0 < r → ∀ b, b ≤ r - hmax g / nbins →
        g.countP (fun m => decide (m ≠ 0) && decide (m < b)) < ⌊((g.countP fun m => decide (m ≠ 0)) : ℝ) * perc⌋₊) := by
  have hth := threshold_le (g := g) h1
  change ∃ r, kPercentile g perc nbins = .ok r ∧ 0 ≤ r ∧ (∀ b, (∀ m ∈ g, m ≤ b) → 0 ≤ b → r ≤ b) ∧
      (⌊(npoints g : ℝ) * perc⌋₊ ≤ g.countP (fun m => decide (m ≠ 0) && decide (m < r)) ∨ ∀ m ∈ g, m ≤ r) ∧
      (0 < r → ∀ b, b ≤ r - hmax g / nbins →
        g.countP (fun m => decide (m ≠ 0) && decide (m < b)) < ⌊(npoints g : ℝ) * perc⌋₊)
  set th := ⌊(npoints g : ℝ) * perc⌋₊ with hthdef
  have hnr : (0 : ℝ) < nbins := by exact_mod_cast hn
  obtain ⟨k, e, hk, hlow, hend⟩ := climb_spec g th nbins (nbins + 1) 0 (by omega) (by omega) (fun j hj => by omega)
  have hb0 : below g nbins 0 = 0 := by
    unfold below
    rw [List.countP_eq_zero]
    simp
  rw [hb0] at e
  have henough : th ≤ below g nbins k := by
    rcases hend with h | h
    · exact h
    · rw [h, below_all hg hn]
      exact hth
  have hm0 := hmax_nonneg g
  have hkr : (k : ℝ) ≤ nbins := by exact_mod_cast hk
  refine ⟨hmax g * ((k : ℝ) / (nbins : ℝ)), ?_, by positivity, ?_, ?_, ?_⟩
  · unfold kPercentile
    rw [if_neg (by omega)]
    simp only [← hthdef, e]
    rw [if_neg (by omega)]
  · intro b hb hb0
    have h2 : hmax g ≤ b := by
      rcases (foldMax_spec g 0).2.2 with h | h
      · show hmax g ≤ b
        rw [show hmax g = 0 from h]
        exact hb0
      · exact hb _ h
    have h3 : (k : ℝ) / nbins ≤ 1 := (div_le_one hnr).2 hkr
    nlinarith
  · by_cases hkn : k = nbins
    · right
      intro m hm
      rw [hkn, div_self hnr.ne', mul_one]
      exact hmax_ge hm
    · left
      refine henough.trans (le_of_eq ?_)
      unfold below
      refine List.countP_congr fun m hm => ?_
      simp only [Bool.and_eq_true, decide_eq_true_eq, and_congr_right_iff]
      intro h0
      have hmp : 0 < m := lt_of_le_of_ne (hg m hm) (Ne.symm h0)
      exact binOf_lt_iff (hg m hm) (hmax_ge hm) (hmp.trans_le (hmax_ge hm)) (by omega)
  · intro hr b hb
    have hk0 : k ≠ 0 := by
      rintro rfl
      simp at hr
    have hprev := hlow (k - 1) (by omega)
    refine lt_of_le_of_lt ?_ hprev
    unfold below
    refine List.countP_mono_left fun m hm => ?_
    simp only [Bool.and_eq_true, decide_eq_true_eq, and_imp]
    intro h0 hmb
    refine ⟨h0, ?_⟩
    have hmp : 0 < m := lt_of_le_of_ne (hg m hm) (Ne.symm h0)
    rw [binOf_lt_iff (hg m hm) (hmax_ge hm) (hmp.trans_le (hmax_ge hm)) (by omega)]
    refine hmb.trans_le (hb.trans (le_of_eq ?_))
    rw [Nat.cast_sub (by omega)]
    push_cast
    field_simp

/-- C93: the contrast factor is positive if the percentile asks for one gradient at least ... -/
theorem kPercentile_pos_partial {g : List ℝ} {perc : ℝ} {nbins : Nat} (hg : ∀ m ∈ g, 0 ≤ m) (hn : 0 < nbins)
    (h1 : perc ≤ 1) (hth : 1 ≤ (npoints g : ℝ) * perc) : ∃ r, kPercentile g perc nbins = .ok r ∧ 0 < r := by
  obtain ⟨r, e, h0, -, hc, -⟩ := kPercentile_spec hg hn h1
  refine ⟨r, e, ?_⟩
  have ht1 : 1 ≤ ⌊(npoints g : ℝ) * perc⌋₊ := Nat.one_le_floor_iff _ |>.2 hth
  have hnp : 0 < npoints g := by
    rcases Nat.eq_zero_or_pos (npoints g) with h | h
    · rw [h] at hth
      norm_num at hth
    · exact h
  rcases hc with hc | hc
  · have : 0 < g.countP (fun m => decide (m ≠ 0) && decide (m < r)) := lt_of_lt_of_le ht1 hc
    rw [List.countP_pos_iff] at this
    obtain ⟨m, hm, hp⟩ := this
    simp only [Bool.and_eq_true, decide_eq_true_eq] at hp
    exact lt_of_le_of_lt (hg m hm) hp.2
  · unfold npoints at hnp
    rw [List.countP_pos_iff] at hnp
    obtain ⟨m, hm, hp⟩ := hnp
    have h2 : m ≠ 0 := by simpa using hp
    exact lt_of_lt_of_le (lt_of_le_of_ne (hg m hm) (Ne.symm h2)) (hc m hm)

/-- C93: ... and zero otherwise, whatever the image is. -/
theorem kPercentile_zero {g : List ℝ} {perc : ℝ} {nbins : Nat} (hn : 0 < nbins) (hth : (npoints g : ℝ) * perc < 1) :
    kPercentile g perc nbins = .ok 0 := by
  have ht : ⌊(npoints g : ℝ) * perc⌋₊ = 0 := Nat.floor_eq_zero.2 hth
  unfold kPercentile
  rw [if_neg (by omega), ht]
  simp [climb]

/-- C93: the contrast factor of a flat image is zero (then no conductivity is a number, C91). -/
theorem kPercentile_flat_refuted : kPercentile (List.replicate 100 0) (7 / 10) 300 = .ok 0 := by
  refine kPercentile_zero (by norm_num) ?_
  have : npoints (List.replicate 100 (0 : ℝ)) = 0 := by
    unfold npoints
    rw [List.countP_eq_zero]
    intro a ha
    simp [List.eq_of_mem_replicate ha]
  rw [this]
  norm_num

example : ∃ r, kPercentile [1, 2, 3, 4, 0] (1 / 2) 4 = .ok r ∧ 0 < r := by
  refine kPercentile_pos_partial (by simp) (by norm_num) (by norm_num) ?_
  have : npoints [1, 2, 3, 4, (0 : ℝ)] = 4 := by
    simp [npoints]
  rw [this]
  norm_num

/-! ## Scaling -/

/-- C93: the minimum is right if some value is at most 1000 ... -/
theorem computeMin_partial {src : List ℝ} (h : ∃ v ∈ src, v ≤ 1000) :
    computeMin src ∈ src ∧ ∀ v ∈ src, computeMin src ≤ v := by
  obtain ⟨h1, h2, h3⟩ := foldMin_spec src 1000
  refine ⟨?_, h2⟩
  rcases h3 with e | e
  · obtain ⟨v, hv, hv1⟩ := h
    have := h2 v hv
    rw [e] at this
    have hv2 : v = 1000 := le_antisymm hv1 this
    unfold computeMin
    rw [e, ← hv2]
    exact hv
  · exact e

/-- C93: ... but 1000 if all are larger. -/
theorem computeMin_refuted : computeMin [2000, 3000] = 1000 := by norm_num [computeMin]

/-- C93: the maximum is right if some value is not negative ... -/
theorem computeMax_partial {src : List ℝ} (h : ∃ v ∈ src, 0 ≤ v) : computeMax src ∈ src ∧ ∀ v ∈ src, v ≤ computeMax src := by
  obtain ⟨h1, h2, h3⟩ := foldMax_spec src 0
  refine ⟨?_, h2⟩
  rcases h3 with e | e
  · obtain ⟨v, hv, hv1⟩ := h
    have := h2 v hv
    rw [e] at this
    have hv2 : v = 0 := le_antisymm this hv1
    unfold computeMax
    rw [e, ← hv2]
    exact hv
  · exact e

/-- C93: ... but zero if all are negative. -/
theorem computeMax_refuted : computeMax [-2, -3] = 0 := by norm_num [computeMax]

/-- C93: an image with two different values, one of them at most 1000, is scaled to the range from 0 to 1, and both ends
are reached, in the order of the values. -/
theorem convertScale_partial {src : List ℝ} (h : ∃ v ∈ src, v ≤ 1000) (hd : ∃ v ∈ src, ∃ w ∈ src, v < w) :
    ∃ a b : ℝ, 0 < a ∧ convertScale src = some (src.map fun v => a * v + b) ∧
      (∀ v ∈ src, 0 ≤ a * v + b ∧ a * v + b ≤ 1) ∧ (∃ v ∈ src, a * v + b = 0) ∧ ∃ v ∈ src, a * v + b = 1 := by
  obtain ⟨hmem, hmin⟩ := computeMin_partial h
  set lo := computeMin src with hlo
  obtain ⟨v, hv, w, hw, hvw⟩ := hd
  have hmx := computeMax_partial (src := src.map fun v => v - lo) ⟨w - lo, List.mem_map_of_mem hw, by linarith [hmin w hw]⟩
  set m := computeMax (src.map fun v => v - lo) with hm
  have hm0 : 0 < m := by
    have := hmx.2 (w - lo) (List.mem_map_of_mem hw)
    have := hmin v hv
    linarith
  have hval : ∀ u : ℝ, 1 / m * u + -lo / m = (u - lo) / m := fun u => by field_simp; ring
  refine ⟨1 / m, -lo / m, by positivity, ?_, ?_, ?_, ?_⟩
  · unfold convertScale
    simp only [← hlo, ← hm]
    rw [if_neg (fun hh => hm0.ne' hh.1), List.map_map]
    congr 1
    refine List.map_congr_left fun u _ => ?_
    rw [hval]
    rfl
  · intro u hu
    rw [hval]
    exact ⟨div_nonneg (by linarith [hmin u hu]) hm0.le, (div_le_one hm0).2 (hmx.2 _ (List.mem_map_of_mem hu))⟩
  · exact ⟨lo, hmem, by rw [hval, sub_self, zero_div]⟩
  · obtain ⟨u, hu, e⟩ := List.mem_map.1 hmx.1
    exact ⟨u, hu, by rw [hval, e, div_self hm0.ne']⟩

/-- C93: a flat image is not a number any more after scaling. -/
theorem convertScale_flat_refuted : convertScale [5, 5, 5] = none := by
  norm_num [convertScale, computeMin, computeMax]
  exact fun h => absurd h (List.cons_ne_nil _ _)

/-- C93: an image with values above 1000 only does not reach 0. -/
theorem convertScale_refuted : convertScale [2000, 3000] = some [1 / 2, 1] := by
  norm_num [convertScale, computeMin, computeMax]

example : convertScale [1, 3, 2] = some [0, 1, 1 / 2] := by
  norm_num [convertScale, computeMin, computeMax]

end Verif.Kaze.Contrast
