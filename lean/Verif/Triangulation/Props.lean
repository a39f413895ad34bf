import Verif.Triangulation.Model
import Mathlib.LinearAlgebra.Matrix.NonsingularInverse
import Mathlib.Analysis.Calculus.Deriv.Inv
import Mathlib.Analysis.Calculus.Deriv.Add
import Mathlib.Analysis.Calculus.Deriv.Mul
import Mathlib.Tactic.LinearCombination
import Mathlib.Tactic.FieldSimp

/-!
# Properties of the triangulation (C55, C56, C70)
-/

namespace Verif.Triangulation

open Matrix

/-! ## Specification -/

/-- The camera with this pose sees the point at these normalised coordinates: the point is some depth along the ray. -/
def Sees (T_G_C : Pose) (m : ℝ × ℝ) (P : V) : Prop := ∃ depth : ℝ, P = T_G_C.act (depth • ![m.1, m.2, 1])

/-- The directions are all parallel. -/
def Parallel {n : Nat} (d : Fin n → V) : Prop := ∃ u : V, ∀ i, ∃ s : ℝ, d i = s • u

/-- The sum of squared distances of a point from points on the lines. -/
def cost {n : Nat} (c d : Fin n → V) (P : V) (depth : Fin n → ℝ) : ℝ :=
  ∑ i, (P - (c i + depth i • d i)) ⬝ᵥ (P - (c i + depth i • d i))

/-- The point is, among all points, one with the least sum of squared distances from the lines. -/
def IsNearest {n : Nat} (c d : Fin n → V) (P : V) : Prop :=
  ∃ depth, ∀ Q depth', cost c d P depth ≤ cost c d Q depth'

/-- What is used of the decomposition: no rank is reported above the true one, and the solution of a system with full
column rank satisfies the normal equations. -/
structure Valid {m c : Type} [Fintype m] [Fintype c] (q : QR m c) : Prop where
  rank_le : ∀ A, q.rank A ≤ A.rank
  normal : ∀ A b, A.rank = Fintype.card c → Aᵀ *ᵥ (A *ᵥ q.solve A b) = Aᵀ *ᵥ b

/-- The effect of the threshold of `Eigen::ColPivHouseholderQR`: a pivot is at most the length of its column and is
counted only above the threshold times the largest. -/
def Thresholded {m c : Type} [Fintype m] [Fintype c] (threshold : ℝ) (q : QR m c) : Prop :=
  ∀ (A : Matrix m c ℝ) (j0 : c) (S : Finset c),
    (∀ j, j ∉ S → (∑ r, A r j * A r j) ≤ threshold ^ 2 * ∑ r, A r j0 * A r j0) → q.rank A ≤ S.card

/-! ## Linear algebra -/

theorem dot_self_eq_zero {v : V} (h : v ⬝ᵥ v = 0) : v = 0 := dotProduct_self_eq_zero.1 h

theorem dot_self_nonneg (v : V) : 0 ≤ v ⬝ᵥ v := Finset.sum_nonneg fun i _ => mul_self_nonneg _

/-- Residuals orthogonal to the lines with sum zero characterise nearest points. -/
theorem nearest_of_normal {n : Nat} {c d : Fin n → V} {P : V} {l : Fin n → ℝ}
    (h1 : ∀ i, d i ⬝ᵥ (P - (c i + l i • d i)) = 0) (h2 : ∑ i, (P - (c i + l i • d i)) = 0) : IsNearest c d P := by
  refine ⟨l, fun Q m => ?_⟩
  unfold cost
  have key : ∀ i, (Q - (c i + m i • d i)) ⬝ᵥ (Q - (c i + m i • d i)) =
      (P - (c i + l i • d i)) ⬝ᵥ (P - (c i + l i • d i)) +
      ((Q - P) + (l i - m i) • d i) ⬝ᵥ ((Q - P) + (l i - m i) • d i) +
      2 * ((Q - P) ⬝ᵥ (P - (c i + l i • d i))) + 2 * (l i - m i) * (d i ⬝ᵥ (P - (c i + l i • d i))) := by
    intro i
    simp only [dotProduct, Fin.sum_univ_three, Pi.sub_apply, Pi.add_apply, Pi.smul_apply, smul_eq_mul]
    ring
  have hsum : ∑ i, (Q - P) ⬝ᵥ (P - (c i + l i • d i)) = 0 := by
    rw [← dotProduct_sum, h2, dotProduct_zero]
  have e : ∑ i, (Q - (c i + m i • d i)) ⬝ᵥ (Q - (c i + m i • d i)) =
      (∑ i, (P - (c i + l i • d i)) ⬝ᵥ (P - (c i + l i • d i))) +
      ∑ i, ((Q - P) + (l i - m i) • d i) ⬝ᵥ ((Q - P) + (l i - m i) • d i) := by
    rw [Finset.sum_congr rfl fun i _ => key i]
    simp only [Finset.sum_add_distrib, h1, mul_zero, Finset.sum_const_zero, add_zero, ← Finset.mul_sum, hsum]
  rw [e]
  have : 0 ≤ ∑ i, ((Q - P) + (l i - m i) • d i) ⬝ᵥ ((Q - P) + (l i - m i) • d i) :=
    Finset.sum_nonneg fun i _ => dot_self_nonneg _
  linarith

/-- If lines that are not all parallel meet in a point, only that point is nearest. -/
theorem nearest_exact {n : Nat} {c d : Fin n → V} {P X : V} {m : Fin n → ℝ} (hX : ∀ i, X = c i + m i • d i)
    (hP : IsNearest c d P) (hd : ¬ Parallel d) : P = X := by
  obtain ⟨l, hl⟩ := hP
  have h0 : cost c d X m = 0 := by
    unfold cost
    refine Finset.sum_eq_zero fun i _ => ?_
    rw [← hX i, sub_self, dotProduct_zero]
  have h1 := hl X m
  rw [h0] at h1
  have h2 : ∀ i, P = c i + l i • d i := by
    have hz : cost c d P l = 0 :=
      le_antisymm h1 (Finset.sum_nonneg fun i _ => dot_self_nonneg _)
    unfold cost at hz
    intro i
    have := (Finset.sum_eq_zero_iff_of_nonneg fun i _ => dot_self_nonneg _).1 hz i (Finset.mem_univ i)
    exact sub_eq_zero.1 (dot_self_eq_zero this)
  by_contra hne
  apply hd
  have hn : P - X ≠ 0 := sub_ne_zero.2 hne
  refine ⟨P - X, fun i => ⟨1 / (l i - m i), ?_⟩⟩
  have e : P - X = (l i - m i) • d i := by
    rw [h2 i, hX i, sub_smul]
    abel
  have hlm : l i - m i ≠ 0 := fun h => hn (by rw [e, h, zero_smul])
  rw [e, smul_smul, one_div_mul_cancel hlm, one_smul]

theorem systemA_mulVec {n : Nat} (d : Fin n → V) (x : Fin 3 ⊕ Fin n → ℝ) (i : Fin n) (k : Fin 3) :
    (systemA d *ᵥ x) (i, k) = x (.inl k) - x (.inr i) * d i k := by
  show ∑ j, systemA d (i, k) j * x j = _
  rw [Fintype.sum_sum_type]
  simp only [systemA, ite_mul, one_mul, zero_mul, Finset.sum_ite_eq, Finset.mem_univ, if_true]
  ring

theorem systemA_transpose_inl {n : Nat} (d : Fin n → V) (y : Fin n × Fin 3 → ℝ) (l : Fin 3) :
    ((systemA d)ᵀ *ᵥ y) (.inl l) = ∑ i, y (i, l) := by
  show ∑ r, systemA d r (.inl l) * y r = _
  rw [Fintype.sum_prod_type]
  refine Finset.sum_congr rfl fun i _ => ?_
  simp only [systemA, ite_mul, one_mul, zero_mul, Finset.sum_ite_eq', Finset.mem_univ, if_true]

theorem systemA_transpose_inr {n : Nat} (d : Fin n → V) (y : Fin n × Fin 3 → ℝ) (j : Fin n) :
    ((systemA d)ᵀ *ᵥ y) (.inr j) = -(d j ⬝ᵥ fun k => y (j, k)) := by
  show ∑ r, systemA d r (.inr j) * y r = _
  rw [Fintype.sum_prod_type, Finset.sum_eq_single j]
  · simp only [systemA, if_true, dotProduct, ← Finset.sum_neg_distrib, neg_mul]
  · intro i _ hij
    simp only [systemA, if_neg hij, zero_mul, Finset.sum_const_zero]
  · intro h
    exact absurd (Finset.mem_univ _) h

/-- Injective systems are those of full rank. -/
theorem rank_eq_card {m c : Type} [Fintype m] [Fintype c] [DecidableEq c] (A : Matrix m c ℝ) :
    A.rank = Fintype.card c ↔ ∀ x, A *ᵥ x = 0 → x = 0 := by
  have h := LinearMap.finrank_range_add_finrank_ker A.mulVecLin
  rw [Module.finrank_fintype_fun_eq_card] at h
  have hr : A.rank = Module.finrank ℝ (LinearMap.range A.mulVecLin) := rfl
  constructor
  · intro hc x hx
    have : Module.finrank ℝ (LinearMap.ker A.mulVecLin) = 0 := by omega
    have hb := Submodule.finrank_eq_zero.1 this
    have hm : x ∈ LinearMap.ker A.mulVecLin := by
      rw [LinearMap.mem_ker, Matrix.mulVecLin_apply]
      exact hx
    rw [hb] at hm
    exact (Submodule.mem_bot ℝ).1 hm
  · intro hi
    have hb : LinearMap.ker A.mulVecLin = ⊥ := by
      rw [Submodule.eq_bot_iff]
      intro x hx
      rw [LinearMap.mem_ker, Matrix.mulVecLin_apply] at hx
      exact hi x hx
    rw [hb, finrank_bot] at h
    omega

/-- The system has full rank iff the rays are not all parallel. -/
theorem systemA_rank {n : Nat} (hn : 0 < n) {d : Fin n → V} (hd : ∀ i, d i ≠ 0) :
    (systemA d).rank = n + 3 ↔ ¬ Parallel d := by
  have hc : Fintype.card (Fin 3 ⊕ Fin n) = n + 3 := by
    rw [Fintype.card_sum, Fintype.card_fin, Fintype.card_fin]
    omega
  rw [← hc, rank_eq_card]
  constructor
  · rintro h ⟨u, hu⟩
    choose s hs using hu
    have hs0 : ∀ i, s i ≠ 0 := fun i h0 => hd i (by rw [hs i, h0, zero_smul])
    have hx := h (Sum.elim u fun i => 1 / s i) (by
      funext ⟨i, k⟩
      rw [systemA_mulVec]
      simp only [Sum.elim_inl, Sum.elim_inr, Pi.zero_apply]
      rw [hs i, Pi.smul_apply, smul_eq_mul, ← mul_assoc, one_div_mul_cancel (hs0 i), one_mul, sub_self])
    have := congrFun hx (.inr ⟨0, hn⟩)
    simp only [Sum.elim_inr, Pi.zero_apply] at this
    exact one_div_ne_zero (hs0 _) this
  · intro hp x hx
    have he : ∀ i k, x (.inl k) = x (.inr i) * d i k := by
      intro i k
      have := congrFun hx (i, k)
      rw [systemA_mulVec, Pi.zero_apply] at this
      linarith
    have hP : (fun k => x (.inl k)) = (0 : V) := by
      by_contra hne
      apply hp
      refine ⟨fun k => x (.inl k), fun i => ⟨1 / x (.inr i), ?_⟩⟩
      have hi : x (.inr i) ≠ 0 := by
        intro h0
        apply hne
        funext k
        rw [he i k, h0, zero_mul, Pi.zero_apply]
      funext k
      rw [Pi.smul_apply, smul_eq_mul, he i k, ← mul_assoc, one_div_mul_cancel hi, one_mul]
    funext j
    rcases j with k | i
    · exact congrFun hP k
    · by_contra hne
      apply hd i
      funext k
      have h1 := he i k
      have h2 := congrFun hP k
      simp only [Pi.zero_apply] at h2
      rw [h2] at h1
      rcases mul_eq_zero.1 h1.symm with h | h
      · exact absurd h hne
      · exact h

/-- Its rank is at least the number of views. -/
theorem systemA_rank_ge {n : Nat} {d : Fin n → V} (hd : ∀ i, d i ≠ 0) : n ≤ (systemA d).rank := by
  let e : (Fin n → ℝ) →ₗ[ℝ] (Fin 3 ⊕ Fin n → ℝ) :=
    { toFun := fun a => Sum.elim (0 : V) a
      map_add' := by
        intro a b
        funext j
        cases j <;> simp
      map_smul' := by
        intro r a
        funext j
        cases j <;> simp }
  let f : (Fin n → ℝ) →ₗ[ℝ] (Fin n × Fin 3 → ℝ) := (systemA d).mulVecLin.comp e
  have hf : ∀ a i k, f a (i, k) = -(a i * d i k) := by
    intro a i k
    show (systemA d *ᵥ Sum.elim (0 : V) a) (i, k) = _
    rw [systemA_mulVec]
    simp
  have hinj : Function.Injective f := by
    intro a b hab
    funext i
    have hk : ∃ k, d i k ≠ 0 := by
      by_contra hn
      push Not at hn
      exact hd i (funext hn)
    obtain ⟨k, hk⟩ := hk
    have := congrFun hab (i, k)
    rw [hf, hf] at this
    exact mul_right_cancel₀ hk (neg_injective this)
  have h1 := LinearMap.finrank_range_of_inj hinj
  rw [Module.finrank_fintype_fun_eq_card, Fintype.card_fin] at h1
  have h2 : LinearMap.range f ≤ LinearMap.range (systemA d).mulVecLin := LinearMap.range_comp_le_range _ _
  have h3 := Submodule.finrank_mono h2
  rw [h1] at h3
  exact h3

theorem systemA_rank_le {n : Nat} (d : Fin n → V) : (systemA d).rank ≤ n + 3 := by
  have := Matrix.rank_le_card_width (systemA d)
  rw [Fintype.card_sum, Fintype.card_fin, Fintype.card_fin] at this
  omega

/-! ## The stacked system (C55) -/

/-- What the solver returns with full rank is the nearest point. -/
theorem solve_nearest {n : Nat} {q : QR (Fin n × Fin 3) (Fin 3 ⊕ Fin n)} (hq : Valid q) (d c : Fin n → V)
    (hr : (systemA d).rank = n + 3) : IsNearest c d fun k => q.solve (systemA d) (systemB c) (.inl k) := by
  have hn := hq.normal (systemA d) (systemB c) (by
    rw [hr, Fintype.card_sum, Fintype.card_fin, Fintype.card_fin]
    omega)
  set x := q.solve (systemA d) (systemB c) with hx
  have hres : ∀ i k, ((fun k => x (.inl k)) - (c i + x (.inr i) • d i)) k = (systemA d *ᵥ x) (i, k) - systemB c (i, k) := by
    intro i k
    rw [systemA_mulVec]
    simp only [Pi.sub_apply, Pi.add_apply, Pi.smul_apply, smul_eq_mul, systemB]
    ring
  refine nearest_of_normal (l := fun i => x (.inr i)) (fun i => ?_) ?_
  · have h := congrFun hn (.inr i)
    rw [systemA_transpose_inr, systemA_transpose_inr] at h
    have h' := neg_injective h
    rw [show ((fun k => x (.inl k)) - (c i + x (.inr i) • d i)) =
      (fun k => (systemA d *ᵥ x) (i, k)) - fun k => systemB c (i, k) from funext (hres i), dotProduct_sub, h', sub_self]
  · funext k
    have h := congrFun hn (.inl k)
    rw [systemA_transpose_inl, systemA_transpose_inl] at h
    rw [Finset.sum_apply, Finset.sum_congr rfl fun i _ => hres i k, Finset.sum_sub_distrib, h, sub_self, Pi.zero_apply]

theorem subSize_lt {a n : Nat} (h1 : n ≤ a) (h2 : a ≤ n + 3) : subSize a n < 3 ↔ a < n + 3 := by
  unfold subSize
  have : a + 2 ^ 64 - n = (a - n) + 2 ^ 64 := by omega
  rw [this, Nat.add_mod_right, Nat.mod_eq_of_lt (by omega)]
  omega

/-- C55, status: if the reported rank is not below the number of views, the status is "unobservable" iff a rank below
full is reported.  Missing: lower reported ranks, where the subtraction wraps (`solveSystem_wraps`). -/
theorem solveSystem_partial {n : Nat} {q : QR (Fin n × Fin 3) (Fin 3 ⊕ Fin n)} (hq : Valid q) (d c : Fin n → V)
    (hr : n ≤ q.rank (systemA d)) :
    (q.rank (systemA d) < n + 3 ∧ solveSystem q d c = (.unobservable, none)) ∨
      (q.rank (systemA d) = n + 3 ∧ (systemA d).rank = n + 3 ∧ ∃ P, solveSystem q d c = (.successful, some P) ∧
        IsNearest c d P) := by
  have hle := hq.rank_le (systemA d)
  have hle2 := systemA_rank_le d
  unfold solveSystem
  by_cases h : q.rank (systemA d) < n + 3
  · exact Or.inl ⟨h, if_pos ((subSize_lt hr (by omega)).2 h)⟩
  · have hfull : (systemA d).rank = n + 3 := by omega
    exact Or.inr ⟨by omega, hfull, _, if_neg (fun h' => h ((subSize_lt hr (by omega)).1 h')), solve_nearest hq d c hfull⟩

/-- A reported rank below the number of views makes the subtraction wrap and the status "successful". -/
theorem solveSystem_wraps {n : Nat} (hn : n < 2 ^ 63) (q : QR (Fin n × Fin 3) (Fin 3 ⊕ Fin n)) (d c : Fin n → V)
    (hr : q.rank (systemA d) < n) : (solveSystem q d c).1 = .successful := by
  unfold solveSystem
  rw [if_neg]
  unfold subSize
  rw [Nat.mod_eq_of_lt (by omega)]
  omega

/-- The centers and directions in the global frame. -/
def center (T : Pose) : V := T.p
def heading (T : Pose) (m : ℝ × ℝ) : V := T.R *ᵥ ![m.1, m.2, 1]

/-- A pose is rigid if its matrix is orthogonal. -/
def Rigid (T : Pose) : Prop := T.Rᵀ * T.R = 1

theorem Rigid.mul_transpose {T : Pose} (h : Rigid T) : T.R * T.Rᵀ = 1 := mul_eq_one_comm.1 h

theorem Rigid.mulP {a b : Pose} (ha : Rigid a) (hb : Rigid b) : Rigid (a.mul b) := by
  unfold Rigid Pose.mul
  unfold Rigid at ha hb
  simp only
  rw [transpose_mul, Matrix.mul_assoc, ← Matrix.mul_assoc a.Rᵀ, ha, Matrix.one_mul, hb]

theorem heading_ne_zero {T : Pose} (h : Rigid T) (m : ℝ × ℝ) : heading T m ≠ 0 := by
  intro h0
  unfold heading at h0
  have : T.Rᵀ *ᵥ (T.R *ᵥ ![m.1, m.2, 1]) = 0 := by rw [h0, mulVec_zero]
  rw [mulVec_mulVec, h, one_mulVec] at this
  have := congrFun this 2
  simp at this

theorem sees_line {T : Pose} {m : ℝ × ℝ} {P : V} : Sees T m P ↔ ∃ l : ℝ, P = center T + l • heading T m := by
  unfold Sees center heading Pose.act
  refine exists_congr fun l => ?_
  rw [mulVec_smul, add_comm]

theorem nViews_eq {n : Nat} (hn : ¬ n < 2) (q : QR (Fin n × Fin 3) (Fin 3 ⊕ Fin n)) (m : Fin n → ℝ × ℝ)
    (T_G_B : Fin n → Pose) (T_B_C : Pose) :
    nViews q m T_G_B T_B_C = solveSystem q (fun i => heading ((T_G_B i).mul T_B_C) (m i))
      fun i => center ((T_G_B i).mul T_B_C) := by
  unfold nViews
  rw [if_neg hn]
  congr 1
  · funext i
    unfold heading Pose.mul ray
    rw [mulVec_mulVec]
  · funext i
    unfold center Pose.mul
    exact add_comm _ _

theorem nViewsMultiCam_eq {n k : Nat} (hn : ¬ n < 2) (q : QR (Fin n × Fin 3) (Fin 3 ⊕ Fin n)) (m : Fin n → ℝ × ℝ)
    (camera : Fin n → Fin k) (T_G_B : Fin n → Pose) (T_B_C : Fin k → Pose) :
    nViewsMultiCam q m (fun i => camera i) T_G_B T_B_C =
      some (solveSystem q (fun i => heading ((T_G_B i).mul (T_B_C (camera i))) (m i))
        fun i => center ((T_G_B i).mul (T_B_C (camera i)))) := by
  unfold nViewsMultiCam
  rw [if_neg hn, dif_pos fun i => (camera i).2]
  congr 2
  funext i
  unfold heading Pose.mul ray
  rw [mulVec_mulVec]

/-- C55 for one camera: with at least two views and a reported rank not below the number of views, if all cameras see
one point and the status is "successful", that point is returned. -/
theorem nViews_exact_partial {n : Nat} (hn : 2 ≤ n) {q : QR (Fin n × Fin 3) (Fin 3 ⊕ Fin n)} (hq : Valid q)
    (m : Fin n → ℝ × ℝ) (T_G_B : Fin n → Pose) (T_B_C : Pose) (hT : ∀ i, Rigid (T_G_B i)) (hC : Rigid T_B_C) (X : V)
    (hX : ∀ i, Sees ((T_G_B i).mul T_B_C) (m i) X)
    (hr : n ≤ q.rank (systemA fun i => heading ((T_G_B i).mul T_B_C) (m i)))
    (hs : (nViews q m T_G_B T_B_C).1 = .successful) : (nViews q m T_G_B T_B_C).2 = some X := by
  rw [nViews_eq (by omega)] at hs ⊢
  choose l hl using fun i => sees_line.1 (hX i)
  rcases solveSystem_partial hq _ (fun i => center ((T_G_B i).mul T_B_C)) hr with ⟨-, h⟩ | ⟨-, hfull, P, h, hP⟩
  · rw [h] at hs
    cases hs
  · rw [h]
    have hd := (systemA_rank (by omega) fun i => heading_ne_zero ((hT i).mulP hC) (m i)).1 hfull
    rw [nearest_exact hl hP hd]

/-- C55 for several cameras. -/
theorem nViewsMultiCam_exact_partial {n k : Nat} (hn : 2 ≤ n) {q : QR (Fin n × Fin 3) (Fin 3 ⊕ Fin n)} (hq : Valid q)
    (m : Fin n → ℝ × ℝ) (camera : Fin n → Fin k) (T_G_B : Fin n → Pose) (T_B_C : Fin k → Pose)
    (hT : ∀ i, Rigid (T_G_B i)) (hC : ∀ j, Rigid (T_B_C j)) (X : V)
    (hX : ∀ i, Sees ((T_G_B i).mul (T_B_C (camera i))) (m i) X)
    (hr : n ≤ q.rank (systemA fun i => heading ((T_G_B i).mul (T_B_C (camera i))) (m i))) :
    nViewsMultiCam q m (fun i => camera i) T_G_B T_B_C = some (.unobservable, none) ∨
      nViewsMultiCam q m (fun i => camera i) T_G_B T_B_C = some (.successful, some X) := by
  rw [nViewsMultiCam_eq (by omega)]
  choose l hl using fun i => sees_line.1 (hX i)
  rcases solveSystem_partial hq _ (fun i => center ((T_G_B i).mul (T_B_C (camera i)))) hr with ⟨-, h⟩ | ⟨-, hfull, P, h, hP⟩
  · exact Or.inl (by rw [h])
  · right
    rw [h]
    have hd := (systemA_rank (by omega) fun i => heading_ne_zero ((hT i).mulP (hC (camera i))) (m i)).1 hfull
    rw [nearest_exact hl hP hd]

/-- C55, observability: if the reported rank is the true one, the status is "unobservable" exactly if all rays are
parallel, and otherwise the point nearest to the rays is returned. -/
theorem nViews_observable {n : Nat} (hn : 2 ≤ n) {q : QR (Fin n × Fin 3) (Fin 3 ⊕ Fin n)} (hq : Valid q)
    (m : Fin n → ℝ × ℝ) (T_G_B : Fin n → Pose) (T_B_C : Pose) (hT : ∀ i, Rigid (T_G_B i)) (hC : Rigid T_B_C)
    (hr : q.rank (systemA fun i => heading ((T_G_B i).mul T_B_C) (m i)) =
      (systemA fun i => heading ((T_G_B i).mul T_B_C) (m i)).rank) :
    (Parallel (fun i => heading ((T_G_B i).mul T_B_C) (m i)) → nViews q m T_G_B T_B_C = (.unobservable, none)) ∧
    (¬ Parallel (fun i => heading ((T_G_B i).mul T_B_C) (m i)) → ∃ P, nViews q m T_G_B T_B_C = (.successful, some P) ∧
      IsNearest (fun i => center ((T_G_B i).mul T_B_C)) (fun i => heading ((T_G_B i).mul T_B_C) (m i)) P) := by
  have hd := fun i => heading_ne_zero ((hT i).mulP hC) (m i)
  have hge := systemA_rank_ge hd
  have hiff := systemA_rank (by omega) hd
  rw [nViews_eq (by omega)]
  rcases solveSystem_partial hq _ (fun i => center ((T_G_B i).mul T_B_C)) (by rw [hr]; exact hge) with
    ⟨hlt, h⟩ | ⟨heq, hfull, P, h, hP⟩
  · refine ⟨fun _ => h, fun hnp => ?_⟩
    have := hiff.2 hnp
    omega
  · exact ⟨fun hp => absurd hp (hiff.1 hfull), fun _ => ⟨P, h, hP⟩⟩

/-- Too few views are reported exactly for fewer than two. -/
theorem nViews_tooFew {n : Nat} (q : QR (Fin n × Fin 3) (Fin 3 ⊕ Fin n)) (m : Fin n → ℝ × ℝ) (T_G_B : Fin n → Pose)
    (T_B_C : Pose) : (nViews q m T_G_B T_B_C).1 = .tooFew ↔ n < 2 := by
  unfold nViews
  split
  · simp [*]
  · rename_i h
    unfold solveSystem
    split <;> simp [h]

/-- A decomposition that reports the true rank. -/
noncomputable def exactQR (m c : Type) [Fintype m] [Fintype c] [DecidableEq c] : QR m c :=
  ⟨fun A => A.rank, fun A b => (Aᵀ * A)⁻¹ *ᵥ (Aᵀ *ᵥ b)⟩

theorem normal_solution {m c : Type} [Fintype m] [Fintype c] [DecidableEq c] (A : Matrix m c ℝ) (b : m → ℝ)
    (h : A.rank = Fintype.card c) : Aᵀ *ᵥ (A *ᵥ ((Aᵀ * A)⁻¹ *ᵥ (Aᵀ *ᵥ b))) = Aᵀ *ᵥ b := by
  have hr : (Aᵀ * A).rank = Fintype.card c := by rw [Matrix.rank_transpose_mul_self, h]
  have hu : IsUnit (Aᵀ * A) := by
    rw [← Matrix.mulVec_injective_iff_isUnit]
    intro x y hxy
    have := (rank_eq_card _).1 hr (x - y) (by rw [mulVec_sub]; exact sub_eq_zero.2 hxy)
    exact sub_eq_zero.1 this
  rw [mulVec_mulVec, mulVec_mulVec, mul_nonsing_inv _ ((Matrix.isUnit_iff_isUnit_det _).1 hu), one_mulVec]

theorem exactQR_valid (m c : Type) [Fintype m] [Fintype c] [DecidableEq c] : Valid (exactQR m c) :=
  ⟨fun _ => le_rfl, fun A b h => normal_solution A b h⟩

/-- A decomposition with a threshold exists: it reports the largest rank possible. -/
theorem thresholded_exists (m c : Type) [Fintype m] [Fintype c] [DecidableEq c] (threshold : ℝ) :
    ∃ q : QR m c, Valid q ∧ Thresholded threshold q := by
  refine ⟨⟨fun A => sInf ({A.rank} ∪ {k | ∃ (j0 : c) (S : Finset c), k = S.card ∧
    ∀ j, j ∉ S → (∑ r, A r j * A r j) ≤ threshold ^ 2 * ∑ r, A r j0 * A r j0}),
    fun A b => (Aᵀ * A)⁻¹ *ᵥ (Aᵀ *ᵥ b)⟩, ⟨fun A => ?_, fun A b h => normal_solution A b h⟩, fun A j0 S hS => ?_⟩
  · exact Nat.sInf_le (Or.inl rfl)
  · exact Nat.sInf_le (Or.inr ⟨j0, S, rfl, hS⟩)

/-- Two cameras on the ray of both, the second turned towards it. -/
noncomputable def degeneratePoses : Fin 2 → Pose := ![⟨1, 0⟩,
  ⟨!![3999 / 7996001, 0, 7996000 / 7996001; 0, 1, 0; -7996000 / 7996001, 0, 3999 / 7996001], ![7996000, 0, 3999]⟩]

noncomputable def degenerateMeasurements : Fin 2 → ℝ × ℝ := ![(7996000 / 3999, 0), (0, 0)]

/-- C55 is false: both cameras see every point of a line, nothing determines one of them, yet the status is
"successful": with the threshold 0.001 the reported rank is at most one, and one minus two wraps. -/
theorem nViews_success_refuted :
    (∀ i, Rigid (degeneratePoses i)) ∧
    (∀ t : ℝ, ∀ i, Sees ((degeneratePoses i).mul ⟨1, 0⟩) (degenerateMeasurements i) (t • ![7996000, 0, 3999])) ∧
    ∀ q, Thresholded 0.001 q → (nViews q degenerateMeasurements degeneratePoses ⟨1, 0⟩).1 = .successful := by
  have hcol : ∀ i, heading ((degeneratePoses i).mul ⟨1, 0⟩) (degenerateMeasurements i) =
      (![![7996000 / 3999, 0, 1], ![7996000 / 7996001, 0, 3999 / 7996001]] : Fin 2 → V) i := by
    intro i
    unfold heading Pose.mul
    simp only [Matrix.mul_one]
    fin_cases i
    · simp [degeneratePoses, degenerateMeasurements]
    · funext k
      fin_cases k <;> simp [degeneratePoses, degenerateMeasurements, mulVec, dotProduct, Fin.sum_univ_three]
  refine ⟨?_, ?_, ?_⟩
  · intro i
    unfold Rigid
    fin_cases i
    · simp [degeneratePoses]
    · ext k l
      fin_cases k <;> fin_cases l <;>
        simp [degeneratePoses, Matrix.mul_apply, Fin.sum_univ_three] <;> norm_num
  · intro t i
    rw [sees_line]
    rw [hcol]
    unfold center Pose.mul
    simp only [mulVec_zero, zero_add]
    fin_cases i
    · refine ⟨3999 * t, ?_⟩
      funext k
      fin_cases k <;> simp [degeneratePoses] <;> ring
    · refine ⟨7996001 * (t - 1), ?_⟩
      funext k
      fin_cases k <;> simp [degeneratePoses] <;> ring
  · intro q hq
    rw [nViews_eq (by omega)]
    apply solveSystem_wraps (by norm_num)
    have := hq (systemA fun i => heading ((degeneratePoses i).mul ⟨1, 0⟩) (degenerateMeasurements i)) (.inr 0) {.inr 0} (by
      intro j hj
      simp only [Fintype.sum_prod_type, systemA, Fin.sum_univ_two, Fin.sum_univ_three, hcol]
      rcases j with k | j
      · fin_cases k <;> simp [hcol] <;> norm_num
      · fin_cases j
        · simp at hj
        · simp [hcol]
          norm_num)
    rw [Finset.card_singleton] at this
    omega

/-! ## Bearing vectors (C55) -/

theorem axtAx_mulVec {n : Nat} (t : Fin n → V) (x : V) (k : Fin 3) :
    (axtAx t *ᵥ x) k = ∑ i, (x k - (t i ⬝ᵥ t i)⁻¹ * (t i ⬝ᵥ x) * t i k) := by
  show ∑ l, axtAx t k l * x l = _
  unfold axtAx biD
  simp only [sub_mul, Finset.sum_sub_distrib, ite_mul, zero_mul, Finset.sum_ite_eq, Finset.mem_univ, if_true,
    Finset.sum_const, Finset.card_univ, Fintype.card_fin, nsmul_eq_mul, Finset.sum_mul]
  rw [Finset.sum_comm]
  congr 1
  refine Finset.sum_congr rfl fun i _ => ?_
  simp only [dotProduct, Fin.sum_univ_three]
  ring

theorem axtbx_eq {n : Nat} (t p : Fin n → V) (k : Fin 3) :
    axtbx t p k = ∑ i, (p i k - (t i ⬝ᵥ t i)⁻¹ * (t i ⬝ᵥ p i) * t i k) := by
  unfold axtbx biD
  rw [Finset.sum_sub_distrib]
  congr 1
  refine Finset.sum_congr rfl fun i _ => ?_
  ring

/-- The matrix is regular iff the bearing vectors are not all parallel. -/
theorem axtAx_rank {n : Nat} (hn : 0 < n) {t : Fin n → V} (ht : ∀ i, t i ⬝ᵥ t i ≠ 0) :
    (axtAx t).rank = 3 ↔ ¬ Parallel t := by
  rw [show ((axtAx t).rank = 3 ↔ ¬ Parallel t) = ((axtAx t).rank = Fintype.card (Fin 3) ↔ ¬ Parallel t) from rfl,
    rank_eq_card]
  constructor
  · rintro h ⟨u, hu⟩
    choose s hs using hu
    have hu0 := h u (by
      funext k
      rw [axtAx_mulVec, Pi.zero_apply]
      refine Finset.sum_eq_zero fun i _ => ?_
      have h1 := ht i
      rw [hs i] at h1 ⊢
      simp only [smul_dotProduct, dotProduct_smul, smul_eq_mul, Pi.smul_apply] at h1 ⊢
      have hs0 : s i ≠ 0 := fun h0 => h1 (by rw [h0, zero_mul])
      have hu1 : u ⬝ᵥ u ≠ 0 := fun h0 => h1 (by rw [h0, mul_zero, mul_zero])
      field_simp
      ring)
    apply ht ⟨0, hn⟩
    rw [hs, hu0, smul_zero, dotProduct_zero]
  · intro hp x hx
    by_contra hne
    apply hp
    refine ⟨x, fun i => ?_⟩
    have key : ∑ i, (x - ((t i ⬝ᵥ t i)⁻¹ * (t i ⬝ᵥ x)) • t i) ⬝ᵥ (x - ((t i ⬝ᵥ t i)⁻¹ * (t i ⬝ᵥ x)) • t i) = 0 := by
      have h1 : x ⬝ᵥ (axtAx t *ᵥ x) = 0 := by rw [hx, dotProduct_zero]
      rw [← h1]
      have : x ⬝ᵥ (axtAx t *ᵥ x) = ∑ i, x ⬝ᵥ (fun k => x k - (t i ⬝ᵥ t i)⁻¹ * (t i ⬝ᵥ x) * t i k) := by
        rw [← dotProduct_sum]
        congr 1
        funext k
        rw [axtAx_mulVec, Finset.sum_apply]
      rw [this]
      refine Finset.sum_congr rfl fun i _ => ?_
      have h2 : (t i ⬝ᵥ t i)⁻¹ * (t i ⬝ᵥ t i) = 1 := inv_mul_cancel₀ (ht i)
      generalize (t i ⬝ᵥ t i)⁻¹ = s at h2 ⊢
      simp only [dotProduct, Fin.sum_univ_three, Pi.sub_apply, Pi.smul_apply, smul_eq_mul] at h2 ⊢
      linear_combination s * (t i 0 * x 0 + t i 1 * x 1 + t i 2 * x 2) ^ 2 * h2
    have hz := (Finset.sum_eq_zero_iff_of_nonneg fun i _ => dot_self_nonneg _).1 key i (Finset.mem_univ i)
    have he := sub_eq_zero.1 (dot_self_eq_zero hz)
    have hl : (t i ⬝ᵥ t i)⁻¹ * (t i ⬝ᵥ x) ≠ 0 := fun h0 => hne (by rw [he, h0, zero_smul])
    refine ⟨1 / ((t i ⬝ᵥ t i)⁻¹ * (t i ⬝ᵥ x)), ?_⟩
    generalize (t i ⬝ᵥ t i)⁻¹ * (t i ⬝ᵥ x) = a at he hl ⊢
    rw [he, smul_smul, one_div_mul_cancel hl, one_smul]

/-- C55 for bearing vectors: the status is "unobservable" whenever a rank below three is reported; otherwise the point
nearest to the rays is returned and the rays are not all parallel, so that it is the point where they meet, if they
meet. -/
theorem bearing_exact {n : Nat} (hn : 2 ≤ n) {q : QR (Fin 3) (Fin 3)} (hq : Valid q) (t p : Fin n → V)
    (ht : ∀ i, t i ≠ 0) :
    (q.rank (axtAx t) < 3 ∧ nViewsBearing q t p = some (.unobservable, none)) ∨
      (¬ Parallel t ∧ ∃ P, nViewsBearing q t p = some (.successful, some P) ∧ IsNearest p t P ∧
        ∀ X (l : Fin n → ℝ), (∀ i, X = p i + l i • t i) → P = X) := by
  have ht' : ∀ i, t i ⬝ᵥ t i ≠ 0 := fun i h => ht i (dot_self_eq_zero h)
  unfold nViewsBearing
  rw [if_neg (by omega), if_neg (by push Not; exact ht')]
  by_cases h : q.rank (axtAx t) < 3
  · exact Or.inl ⟨h, if_pos h⟩
  · right
    rw [if_neg h]
    have hle := hq.rank_le (axtAx t)
    have hle3 := Matrix.rank_le_card_width (axtAx t)
    rw [Fintype.card_fin] at hle3
    have hfull : (axtAx t).rank = 3 := by omega
    have hnp := (axtAx_rank (by omega) ht').1 hfull
    have hsol : axtAx t *ᵥ q.solve (axtAx t) (axtbx t p) = axtbx t p := by
      have h1 := hq.normal (axtAx t) (axtbx t p) hfull
      have h2 : ((axtAx t)ᵀ).rank = Fintype.card (Fin 3) := by rw [Matrix.rank_transpose]; exact hfull
      have h3 := (rank_eq_card _).1 h2 (axtAx t *ᵥ q.solve (axtAx t) (axtbx t p) - axtbx t p)
        (by rw [mulVec_sub]; exact sub_eq_zero.2 h1)
      exact sub_eq_zero.1 h3
    set x := q.solve (axtAx t) (axtbx t p) with hx
    have hnear : IsNearest p t x := by
      refine nearest_of_normal (l := fun i => (t i ⬝ᵥ t i)⁻¹ * (t i ⬝ᵥ (x - p i))) (fun i => ?_) ?_
      · have h2 : (t i ⬝ᵥ t i)⁻¹ * (t i ⬝ᵥ t i) = 1 := inv_mul_cancel₀ (ht' i)
        rw [dotProduct_sub, dotProduct_add, dotProduct_smul, dotProduct_sub, smul_eq_mul]
        linear_combination -(t i ⬝ᵥ x - t i ⬝ᵥ p i) * h2
      · funext k
        have h1 := congrFun hsol k
        rw [axtAx_mulVec, axtbx_eq, ← sub_eq_zero, ← Finset.sum_sub_distrib] at h1
        rw [Finset.sum_apply, Pi.zero_apply, ← h1]
        refine Finset.sum_congr rfl fun i _ => ?_
        simp only [Pi.sub_apply, Pi.add_apply, Pi.smul_apply, smul_eq_mul, dotProduct_sub]
        ring
    exact ⟨hnp, x, rfl, hnear, fun X l hX => nearest_exact hX hnear hnp⟩

/-- C55 for bearing vectors, observability: with the true rank, "unobservable" means that all are parallel. -/
theorem bearing_observable {n : Nat} (hn : 2 ≤ n) {q : QR (Fin 3) (Fin 3)} (hq : Valid q) (t p : Fin n → V)
    (ht : ∀ i, t i ≠ 0) (hr : q.rank (axtAx t) = (axtAx t).rank) :
    nViewsBearing q t p = some (.unobservable, none) ↔ Parallel t := by
  have ht' : ∀ i, t i ⬝ᵥ t i ≠ 0 := fun i h => ht i (dot_self_eq_zero h)
  have hiff := axtAx_rank (by omega) ht'
  rcases bearing_exact hn hq t p ht with ⟨h, he⟩ | ⟨hnp, P, he, -⟩
  · rw [he]
    refine ⟨fun _ => ?_, fun _ => rfl⟩
    by_contra hnp
    have := hiff.2 hnp
    omega
  · rw [he]
    refine ⟨fun h => ?_, fun h => absurd h hnp⟩
    rw [Option.some.injEq, Prod.mk.injEq] at h
    cases h.1

/-! ## Gauss-Newton (C70) -/

theorem poseCiG_rigid {a b : Pose} (ha : Rigid a) (hb : Rigid b) : Rigid (poseCiG a b) := by
  have h1 := ha.mul_transpose
  have h2 := hb.mul_transpose
  unfold Rigid poseCiG Pose.mul Pose.inverse
  simp only
  rw [transpose_mul, transpose_transpose, transpose_transpose, Matrix.mul_assoc, ← Matrix.mul_assoc b.R, h2,
    Matrix.one_mul, h1]

/-- The frames are inverse to each other. -/
theorem act_poseCiG {a b : Pose} (ha : Rigid a) (hb : Rigid b) (Q : V) : (a.mul b).act ((poseCiG a b).act Q) = Q := by
  have h1 := ha.mul_transpose
  have h2 := hb.mul_transpose
  unfold poseCiG Pose.mul Pose.inverse Pose.act
  simp only [mulVec_add, mulVec_mulVec, mulVec_neg]
  have e1 : a.R * b.R * (b.Rᵀ * a.Rᵀ) = 1 := by
    rw [Matrix.mul_assoc, ← Matrix.mul_assoc b.R, h2, Matrix.one_mul, h1]
  have e2 : a.R * b.R * b.Rᵀ = a.R := by rw [Matrix.mul_assoc, h2, Matrix.mul_one]
  rw [e1, e2, one_mulVec]
  abel_nf
  simp

/-- C70: the predicted ray is that of the point the variables stand for, in the frame of the camera; so the residuals
are the differences between the measurements and the projections of that point. -/
theorem gn_predicted {n : Nat} (first : Fin n) (T_G_B : Fin n → Pose) (T_B_C : Pose) (hT : ∀ i, Rigid (T_G_B i))
    (hC : Rigid T_B_C) (s : V) (hs : s 2 ≠ 0) (i : Fin n) :
    predicted (cache first T_G_B T_B_C) s i =
      s 2 • (poseCiG (T_G_B i) T_B_C).act (gnPoint (cache first T_G_B T_B_C) s) := by
  have hr := (poseCiG_rigid (hT i) hC).mul_transpose
  unfold predicted gnPoint cache Pose.act
  simp only
  set P := poseCiG (T_G_B i) T_B_C
  have e : P.R *ᵥ P.inverse.p = -P.p := by
    unfold Pose.inverse
    simp only
    rw [mulVec_neg, mulVec_mulVec, hr, one_mulVec]
  rw [e, mulVec_add, mulVec_smul, mulVec_mulVec, smul_add, smul_add, smul_smul, mul_one_div_cancel hs, one_smul,
    sub_neg_eq_add, smul_add, add_assoc]

/-- C70: where the residuals vanish, every camera sees the point at its measurement; so it is the point sought if the
rays are not all parallel. -/
theorem gn_exact {n : Nat} (first : Fin n) (T_G_B : Fin n → Pose) (T_B_C : Pose) (hT : ∀ i, Rigid (T_G_B i))
    (hC : Rigid T_B_C) (meas : Fin n → ℝ × ℝ) (s : V) (hs : s 2 ≠ 0)
    (hd : ∀ i, predicted (cache first T_G_B T_B_C) s i 2 ≠ 0)
    (hr : ∀ i, residual (cache first T_G_B T_B_C) meas s i = (0, 0)) :
    (∀ i, Sees ((T_G_B i).mul T_B_C) (meas i) (gnPoint (cache first T_G_B T_B_C) s)) ∧
      ∀ X, (∀ i, Sees ((T_G_B i).mul T_B_C) (meas i) X) →
        ¬ Parallel (fun i => heading ((T_G_B i).mul T_B_C) (meas i)) → gnPoint (cache first T_G_B T_B_C) s = X := by
  have h1 : ∀ i, Sees ((T_G_B i).mul T_B_C) (meas i) (gnPoint (cache first T_G_B T_B_C) s) := by
    intro i
    have hp := gn_predicted first T_G_B T_B_C hT hC s hs i
    have hri := hr i
    have hdi := hd i
    unfold residual at hri
    simp only [Prod.mk.injEq] at hri
    obtain ⟨r1, r2⟩ := hri
    have m1 : predicted (cache first T_G_B T_B_C) s i 0 = (meas i).1 * predicted (cache first T_G_B T_B_C) s i 2 :=
      (div_eq_iff hdi).1 (by linarith)
    have m2 : predicted (cache first T_G_B T_B_C) s i 1 = (meas i).2 * predicted (cache first T_G_B T_B_C) s i 2 :=
      (div_eq_iff hdi).1 (by linarith)
    refine ⟨predicted (cache first T_G_B T_B_C) s i 2 / s 2, ?_⟩
    have he : (predicted (cache first T_G_B T_B_C) s i 2 / s 2) • ![(meas i).1, (meas i).2, 1] =
        (poseCiG (T_G_B i) T_B_C).act (gnPoint (cache first T_G_B T_B_C) s) := by
      have : (poseCiG (T_G_B i) T_B_C).act (gnPoint (cache first T_G_B T_B_C) s) =
          (1 / s 2) • predicted (cache first T_G_B T_B_C) s i := by
        rw [hp, smul_smul, one_div_mul_cancel hs, one_smul]
      rw [this]
      funext k
      fin_cases k
      · simp only [Fin.zero_eta, Pi.smul_apply, smul_eq_mul, cons_val_zero]
        rw [m1]
        ring
      · simp only [Fin.mk_one, Pi.smul_apply, smul_eq_mul, cons_val_one]
        rw [m2]
        simp
        ring
      · simp
        ring
    rw [he, act_poseCiG (hT i) hC]
  refine ⟨h1, fun X hX hnp => ?_⟩
  choose l hl using fun i => sees_line.1 (h1 i)
  choose m hm using fun i => sees_line.1 (hX i)
  refine nearest_exact hm ⟨l, fun Q m' => ?_⟩ hnp
  have : cost (fun i => center ((T_G_B i).mul T_B_C)) (fun i => heading ((T_G_B i).mul T_B_C) (meas i))
      (gnPoint (cache first T_G_B T_B_C) s) l = 0 := by
    unfold cost
    refine Finset.sum_eq_zero fun i _ => ?_
    rw [← hl i, sub_self, dotProduct_zero]
  rw [this]
  exact Finset.sum_nonneg fun i _ => dot_self_nonneg _

/-- Predictions are affine in each variable. -/
theorem predicted_update {n : Nat} (C : Cache n) (s : V) (i : Fin n) (j k : Fin 3) (x : ℝ) :
    predicted C (Function.update s j x) i k = predicted C s i k +
      (x - s j) * (![C.R_Ci_Cn i *ᵥ ![1, 0, 0], C.R_Ci_Cn i *ᵥ ![0, 1, 0], C.p_Ci_Cn i] j) k := by
  unfold predicted
  fin_cases j <;>
    simp [mulVec, dotProduct, Fin.sum_univ_three, Function.update] <;> ring

/-- C70: the Jacobian used is the derivative of the residuals. -/
theorem gn_jacobian {n : Nat} (C : Cache n) (meas : Fin n → ℝ × ℝ) (s : V) (i : Fin n) (hd : predicted C s i 2 ≠ 0)
    (j : Fin 3) :
    HasDerivAt (fun x => (residual C meas (Function.update s j x) i).1) ((jacobian C s i).1 j) (s j) ∧
      HasDerivAt (fun x => (residual C meas (Function.update s j x) i).2) ((jacobian C s i).2 j) (s j) := by
  have aff : ∀ (a b : ℝ), HasDerivAt (fun x => a + (x - s j) * b) b (s j) := by
    intro a b
    have := (((hasDerivAt_id (s j)).sub_const (s j)).mul_const b).const_add a
    simpa using this
  have key : ∀ (m h v : ℝ) (v2 : ℝ), HasDerivAt
      (fun x => m - (h + (x - s j) * v) / (predicted C s i 2 + (x - s j) * v2))
      (-1 / predicted C s i 2 * v + h / (predicted C s i 2 * predicted C s i 2) * v2) (s j) := by
    intro m h v v2
    have h0 : predicted C s i 2 + (s j - s j) * v2 ≠ 0 := by simpa using hd
    have := ((aff h v).div (aff (predicted C s i 2) v2) h0).const_sub m
    refine this.congr_deriv ?_
    simp only [sub_self, zero_mul, add_zero]
    field_simp
    ring
  unfold residual
  simp only [predicted_update]
  unfold jacobian
  simp only
  constructor
  · have := key (meas i).1 (predicted C s i 0)
      ((![C.R_Ci_Cn i *ᵥ ![1, 0, 0], C.R_Ci_Cn i *ᵥ ![0, 1, 0], C.p_Ci_Cn i] j) 0)
      ((![C.R_Ci_Cn i *ᵥ ![1, 0, 0], C.R_Ci_Cn i *ᵥ ![0, 1, 0], C.p_Ci_Cn i] j) 2)
    refine this.congr_deriv ?_
    fin_cases j <;> rfl
  · have := key (meas i).2 (predicted C s i 1)
      ((![C.R_Ci_Cn i *ᵥ ![1, 0, 0], C.R_Ci_Cn i *ᵥ ![0, 1, 0], C.p_Ci_Cn i] j) 1)
      ((![C.R_Ci_Cn i *ᵥ ![1, 0, 0], C.R_Ci_Cn i *ᵥ ![0, 1, 0], C.p_Ci_Cn i] j) 2)
    refine this.congr_deriv ?_
    fin_cases j <;> rfl

/-- What is used of the LDLT decomposition: regular systems are solved. -/
def Solves (ldlt : M3 → V → V) : Prop := ∀ A b, A.det ≠ 0 → A *ᵥ ldlt A b = b

/-- C70: an iteration does not move from where the residuals vanish. -/
theorem gn_fixed {n : Nat} {ldlt : M3 → V → V} (hl : Solves ldlt) (C : Cache n) (meas : Fin n → ℝ × ℝ) (s : V)
    (hr : ∀ i, residual C meas s i = (0, 0)) (hdet : (jtj (jacobian C s)).det ≠ 0) : iterate ldlt C meas s = s := by
  unfold iterate
  simp only
  have h0 : jtr (jacobian C s) (residual C meas s) = 0 := by
    funext k
    unfold jtr
    simp [hr]
  rw [h0]
  have h1 := hl _ 0 hdet
  have h2 : ldlt (jtj (jacobian C s)) 0 = 0 := by
    have hu : IsUnit (jtj (jacobian C s)) := (Matrix.isUnit_iff_isUnit_det _).2 (isUnit_iff_ne_zero.2 hdet)
    apply Matrix.mulVec_injective_iff_isUnit.2 hu
    show _ *ᵥ _ = _ *ᵥ _
    rw [h1, mulVec_zero]
  rw [h2, sub_zero]

/-- C70: each iteration solves the linearised least squares problem. -/
theorem gn_step {n : Nat} {ldlt : M3 → V → V} (hl : Solves ldlt) (C : Cache n) (meas : Fin n → ℝ × ℝ) (s : V)
    (hdet : (jtj (jacobian C s)).det ≠ 0) (k : Fin 3) :
    ∑ i, ((jacobian C s i).1 k * ((residual C meas s i).1 + (jacobian C s i).1 ⬝ᵥ (iterate ldlt C meas s - s)) +
      (jacobian C s i).2 k * ((residual C meas s i).2 + (jacobian C s i).2 ⬝ᵥ (iterate ldlt C meas s - s))) = 0 := by
  unfold iterate
  simp only
  have h := congrFun (hl _ (jtr (jacobian C s) (residual C meas s)) hdet) k
  set x := ldlt (jtj (jacobian C s)) (jtr (jacobian C s) (residual C meas s))
  have h' : ∑ i, ((jacobian C s i).1 k * ((jacobian C s i).1 ⬝ᵥ x) + (jacobian C s i).2 k * ((jacobian C s i).2 ⬝ᵥ x)) =
      ∑ i, ((jacobian C s i).1 k * (residual C meas s i).1 + (jacobian C s i).2 k * (residual C meas s i).2) := by
    have e : (jtj (jacobian C s) *ᵥ x) k = ∑ i, ((jacobian C s i).1 k * ((jacobian C s i).1 ⬝ᵥ x) +
        (jacobian C s i).2 k * ((jacobian C s i).2 ⬝ᵥ x)) := by
      show ∑ l, jtj (jacobian C s) k l * x l = _
      unfold jtj
      simp only [Finset.sum_mul]
      rw [Finset.sum_comm]
      refine Finset.sum_congr rfl fun i _ => ?_
      simp only [dotProduct, Fin.sum_univ_three]
      ring
    rw [← e, h]
    rfl
  rw [← sub_eq_zero, ← Finset.sum_sub_distrib] at h'
  rw [← neg_eq_zero, ← Finset.sum_neg_distrib, ← h']
  refine Finset.sum_congr rfl fun i _ => ?_
  have e1 : ∀ v : V, v ⬝ᵥ (s - x - s) = -(v ⬝ᵥ x) := by
    intro v
    rw [sub_sub_cancel_left, dotProduct_neg]
  rw [e1, e1]
  ring

/-- With at least two views the status is always "successful", parallel rays or not, converged or not. -/
theorem gn_status_refuted {n : Nat} (hn : 2 ≤ n) (ldlt : M3 → V → V) (meas : Fin n → ℝ × ℝ) (T_G_B : Fin n → Pose)
    (T_B_C : Pose) : (gaussNewton ldlt meas T_G_B T_B_C).1 = .successful := by
  unfold gaussNewton
  rw [dif_neg (by omega)]

/-- If the squared residuals at the start add up to 100 or more, only one iteration is made. -/
theorem gn_stops_refuted {n : Nat} (ldlt : M3 → V → V) (C : Cache n) (meas : Fin n → ℝ × ℝ)
    (hd : ∀ i, predicted C 0 i 2 ≠ 0) (hr : 100 ≤ squaredNorm (residual C meas 0)) :
    gnLoop ldlt C meas 10 1000 100 0 = some (iterate ldlt C meas 0) := by
  unfold gnLoop
  rw [if_pos (by norm_num), if_neg (by push Not; exact hd)]
  unfold gnLoop
  rw [if_neg]
  rw [not_lt]
  have : (100 : ℝ) - squaredNorm (residual C meas 0) ≤ 0 := by linarith
  refine this.trans (by norm_num)

/-! ## Feature tracks (C56) -/

/-- C56 for `triangulateFeatureTrack`: the solver gets one measurement per observation, the pose of the body at each
observation, and the mounting of the camera of every observation, if the track was seen by one camera.  Missing: tracks
seen by several (`track_refuted`). -/
theorem track_partial (obs : List Observation) (T_W_B : List Pose) (h1 : 1 < obs.length)
    (h2 : obs.length = T_W_B.length) (T : Pose) (hT : ∀ o ∈ obs, o.T_C_B = T) (hz : ∀ o ∈ obs, o.ray 2 ≠ 0) :
    ∃ ms, trackArguments obs T_W_B = some (ms, T_W_B, T.inverse) ∧ ms.length = obs.length ∧
      ∀ (i : Nat) (o : Observation), obs[i]? = some o → ∃ m, ms[i]? = some m ∧ o.ray = o.ray 2 • ![m.1, m.2, 1] := by
  cases obs with
  | nil => simp at h1
  | cons first os =>
    unfold trackArguments
    simp only
    rw [if_pos ⟨h1, h2⟩]
    refine ⟨_, by rw [hT first (List.mem_cons_self ..)], by simp, ?_⟩
    intro i o ho
    refine ⟨(o.ray 0 / o.ray 2, o.ray 1 / o.ray 2), ?_, ?_⟩
    · rw [List.getElem?_map, ho]
      rfl
    · have := hz o (List.mem_of_getElem? ho)
      funext k
      fin_cases k <;> simp <;> field_simp

/-- The mounting of the first camera is used for all observations. -/
theorem track_refuted (first second : Observation) (T0 T1 : Pose) (hne : first.T_C_B.inverse ≠ second.T_C_B.inverse) :
    ∃ ms T, trackArguments [first, second] [T0, T1] = some (ms, [T0, T1], T) ∧ T ≠ second.T_C_B.inverse :=
  ⟨_, _, rfl, hne⟩

theorem fastLoop_spec (T_W_B : List Pose) (T0 : Pose) (hT : T_W_B[0]? = some T0) :
    ∀ (obs : List Observation) (last : Observation) (cols : List V × List V), obs.getLast? = some last →
      fastLoop T_W_B 0 obs cols =
        (cols.1.set 0 ((T0.mul last.T_C_B.inverse).R *ᵥ last.ray), cols.2.set 0 (T0.mul last.T_C_B.inverse).p) := by
  intro obs
  induction obs with
  | nil =>
    intro last cols h
    cases h
  | cons o os ih =>
    intro last cols h
    unfold fastLoop
    rw [hT]
    simp only
    cases os with
    | nil =>
      simp only [List.getLast?_singleton, Option.some.injEq] at h
      subst h
      rfl
    | cons o2 os =>
      rw [ih last _ (by rw [← h, List.getLast?_cons_cons])]
      simp only [List.set_set]

/-- C56 is false for `fastTriangulateFeatureTrack`: the first column is computed from the last observation and the
pose of the first, all others are what was in memory before. -/
theorem fast_columns (garbage : List V × List V) (obs : List Observation) (T_W_B : List Pose) (h1 : 1 < obs.length)
    (h2 : obs.length = T_W_B.length) (last : Observation) (T0 : Pose) (hl : obs.getLast? = some last)
    (hT : T_W_B[0]? = some T0) :
    ∃ cols, fastArguments garbage obs T_W_B = some cols ∧
      cols.1 = garbage.1.set 0 ((T0.mul last.T_C_B.inverse).R *ᵥ last.ray) ∧
      cols.2 = garbage.2.set 0 (T0.mul last.T_C_B.inverse).p ∧
      ∀ i, 0 < i → cols.1[i]? = garbage.1[i]? ∧ cols.2[i]? = garbage.2[i]? := by
  refine ⟨_, if_pos ⟨h1, h2⟩, ?_, ?_, ?_⟩
  · rw [fastLoop_spec T_W_B T0 hT obs last garbage hl]
  · rw [fastLoop_spec T_W_B T0 hT obs last garbage hl]
  · intro i hi
    rw [fastLoop_spec T_W_B T0 hT obs last garbage hl]
    constructor <;> rw [List.getElem?_set_ne (by omega)]

/-- Whatever the track, the columns handed to the solver can be other than those of its observations. -/
theorem fast_refuted (obs : List Observation) (T_W_B : List Pose) (h1 : 1 < obs.length) (h2 : obs.length = T_W_B.length) :
    ∃ garbage : List V × List V, garbage.1.length = obs.length ∧ garbage.2.length = obs.length ∧
      ∀ cols, fastArguments garbage obs T_W_B = some cols →
        ∃ (i : Nat) (o : Observation) (T : Pose), obs[i]? = some o ∧ T_W_B[i]? = some T ∧
          cols.2[i]? ≠ some (T.mul o.T_C_B.inverse).p := by
  have hi : 1 < T_W_B.length := by omega
  refine ⟨(List.replicate obs.length 0,
    List.replicate obs.length ((T_W_B[1].mul obs[1].T_C_B.inverse).p + ![1, 0, 0])), by simp, by simp, ?_⟩
  intro cols hc
  have hlast : ∃ last, obs.getLast? = some last := by
    cases obs with
    | nil => simp at h1
    | cons o os => exact ⟨_, List.getLast?_eq_some_getLast (List.cons_ne_nil o os)⟩
  obtain ⟨last, hl⟩ := hlast
  obtain ⟨cols', hc', -, -, h⟩ := fast_columns (List.replicate obs.length 0,
    List.replicate obs.length ((T_W_B[1].mul obs[1].T_C_B.inverse).p + ![1, 0, 0])) obs T_W_B h1 h2 last T_W_B[0] hl
    (List.getElem?_eq_getElem (by omega))
  rw [hc'] at hc
  injection hc with hc
  subst hc
  refine ⟨1, obs[1], T_W_B[1], List.getElem?_eq_getElem h1, List.getElem?_eq_getElem hi, ?_⟩
  rw [(h 1 one_pos).2]
  simp only
  rw [List.getElem?_replicate, if_pos h1]
  intro he
  rw [Option.some.injEq] at he
  have := congrFun he 0
  simp at this

/-! ## Concrete cases -/

/-- Two cameras side by side. -/
noncomputable def stereo : Fin 2 → Pose := ![⟨1, 0⟩, ⟨1, ![1, 0, 0]⟩]

theorem stereo_rigid (i : Fin 2) : Rigid (stereo i) := by
  unfold Rigid
  fin_cases i <;> simp [stereo]

theorem stereo_sees (i : Fin 2) : Sees ((stereo i).mul ⟨1, 0⟩) (![(0, 0), (-1, 0)] i) ![0, 0, 1] := by
  refine ⟨1, ?_⟩
  unfold Pose.mul Pose.act
  funext k
  fin_cases i <;> fin_cases k <;> simp [stereo]

theorem stereo_heading (i : Fin 2) :
    heading ((stereo i).mul ⟨1, 0⟩) (![(0, 0), (-1, 0)] i) = (![![0, 0, 1], ![-1, 0, 1]] : Fin 2 → V) i := by
  unfold heading Pose.mul
  fin_cases i <;> simp [stereo]

theorem stereo_not_parallel : ¬ Parallel (fun i => heading ((stereo i).mul ⟨1, 0⟩) (![(0, 0), (-1, 0)] i)) := by
  rintro ⟨u, hu⟩
  obtain ⟨s, hs⟩ := hu 0
  obtain ⟨r, hr⟩ := hu 1
  simp only [stereo_heading] at hs hr
  have a0 := congrFun hs 0
  have a2 := congrFun hs 2
  have b0 := congrFun hr 0
  simp at a0 a2 b0
  rcases a0 with h | h
  · rw [h, zero_mul] at a2
    norm_num at a2
  · rw [h, mul_zero] at b0
    norm_num at b0

/-- They find the point in front of the first. -/
example : nViews (exactQR _ _) ![(0, 0), (-1, 0)] stereo ⟨1, 0⟩ = (.successful, some ![0, 0, 1]) := by
  have hq := exactQR_valid (Fin 2 × Fin 3) (Fin 3 ⊕ Fin 2)
  have hC : Rigid ⟨1, 0⟩ := by simp [Rigid]
  obtain ⟨P, h, hP⟩ := (nViews_observable le_rfl hq ![(0, 0), (-1, 0)] stereo ⟨1, 0⟩ stereo_rigid hC rfl).2
    stereo_not_parallel
  choose l hl using fun i => sees_line.1 (stereo_sees i)
  rw [h, nearest_exact hl hP stereo_not_parallel]

example : ∃ P, nViewsBearing (exactQR _ _) (![![0, 0, 1], ![-1, 0, 1]] : Fin 2 → V) ![![0, 0, 0], ![1, 0, 0]] =
    some (.successful, some P) := by
  have ht : ∀ i, (![![0, 0, 1], ![-1, 0, 1]] : Fin 2 → V) i ≠ 0 := by
    intro i h
    have := congrFun h 2
    fin_cases i <;> simp at this
  have hnp : ¬ Parallel (![![0, 0, 1], ![-1, 0, 1]] : Fin 2 → V) := by
    rw [← funext stereo_heading]
    exact stereo_not_parallel
  rcases bearing_exact le_rfl (exactQR_valid (Fin 3) (Fin 3)) _ ![![0, 0, 0], ![1, 0, 0]] ht with ⟨h, he⟩ | ⟨-, P, he, -⟩
  · have := (axtAx_rank two_pos fun i h0 => ht i (dot_self_eq_zero h0)).2 hnp
    exact absurd (show (axtAx ![![0, 0, 1], ![-1, 0, 1]]).rank < 3 from h) (by omega)
  · exact ⟨P, he⟩

/-- The variables `(0, 0, 1)` have no residuals there. -/
example : (∀ i, residual (cache 0 stereo ⟨1, 0⟩) ![(0, 0), (-1, 0)] ![0, 0, 1] i = (0, 0)) ∧
    (∀ i, predicted (cache 0 stereo ⟨1, 0⟩) ![0, 0, 1] i 2 ≠ 0) ∧ Solves (fun A b => A⁻¹ *ᵥ b) := by
  refine ⟨fun i => ?_, fun i => ?_, fun A b h => ?_⟩
  · fin_cases i <;>
      simp [residual, predicted, cache, poseCiG, Pose.mul, Pose.inverse, stereo]
  · fin_cases i <;>
      simp [predicted, cache, poseCiG, Pose.mul, Pose.inverse, stereo]
  · rw [mulVec_mulVec, mul_nonsing_inv _ (isUnit_iff_ne_zero.2 h), one_mulVec]

end Verif.Triangulation
