import Mathlib.Algebra.Polynomial.Derivative
import Mathlib.Algebra.Polynomial.Eval.Degree
import Mathlib.Analysis.Calculus.Taylor
import Mathlib.Data.List.Nodup
import Mathlib.Tactic.FieldSimp
import Mathlib.Tactic.LinearCombination
import Mathlib.Tactic.Ring
import Mathlib.Tactic.NormNum
import Mathlib.Tactic.Positivity
import Mathlib.Tactic.FinCases
import Verif.NumDiff.Model

/-!
# Property C108: numerical differentiation
-/

namespace Verif.NumDiff

variable {n m : Nat}

/-- The input moved by `t` in direction `j`. -/
def moved (x : Fin n → ℝ) (j : Fin n) (t : ℝ) : Fin n → ℝ := fun k => if k = j then x k + t else x k

/-- Where a scheme evaluates the function, in steps. -/
def nodes : Mode → List ℝ
  | .forward => [0, 1]
  | .central => [1, -1]
  | .centralSecond => [2, 1, -1, -2]

/-- The formula of a scheme for a function of one variable. -/
noncomputable def formula (mode : Mode) (h : ℝ) (g : ℝ → ℝ) : ℝ :=
  match mode with
  | .forward => (g h - g 0) / h
  | .central => (g h - g (-h)) / (2 * h)
  | .centralSecond => (8 * (g h - g (-h)) - (g (2 * h) - g (-2 * h))) / (12 * h)

theorem eps_pos (e : ℝ) : 0 < eps e := Real.sqrt_pos.2 (lt_max_of_lt_right (by positivity))

/-- C108: the step is never zero. -/
theorem step_pos (e v : ℝ) : 0 < step e v := by
  unfold step
  by_cases h : eps e * |v| = 0
  · rw [if_pos h]; exact eps_pos e
  · rw [if_neg h]; exact lt_of_le_of_ne (mul_nonneg (eps_pos e).le (abs_nonneg v)) (Ne.symm h)

/-- C108: the step is relative to the input, with the square root of the number given as the factor. -/
theorem step_eq {e v : ℝ} (he : 1 / 2 ^ 52 ≤ e) (hv : v ≠ 0) : step e v = √e * |v| := by
  unfold step eps
  rw [max_eq_left he, if_neg]
  exact mul_ne_zero (Real.sqrt_pos.2 (lt_of_lt_of_le (by positivity) he)).ne' (abs_ne_zero.2 hv)

theorem update_moved (x : Fin n → ℝ) (j : Fin n) (t : ℝ) : Function.update x j (x j + t) = moved x j t := by
  funext k
  by_cases h : k = j
  · subst h; simp [moved]
  · simp [moved, h]

theorem moved_at (x : Fin n → ℝ) (j : Fin n) (t : ℝ) : moved x j t j = x j + t := if_pos rfl

theorem update_moved' (x : Fin n → ℝ) (j : Fin n) (t v : ℝ) : Function.update (moved x j t) j v = moved x j (v - x j) := by
  funext k
  by_cases h : k = j
  · subst h; simp [moved]
  · simp [moved, h]

theorem moved_zero (x : Fin n → ℝ) (j : Fin n) : moved x j 0 = x := by
  funext k
  by_cases h : k = j <;> simp [moved, h]

/-- One round: the input is as before, the column is that of the formula. -/
theorem column_spec (mode : Mode) (f : Fun n m) (e : ℝ) (x : Fin n → ℝ) (J : Fin m → Fin n → ℝ) (b : Bool) (j : Fin n) :
    column mode f e x ⟨x, J, b⟩ j =
      ⟨x, setCol J j fun i => formula mode (step e (x j)) fun t => (f (moved x j t)).2 i,
        b && (nodes mode).all fun c => (f (moved x j (c * step e (x j)))).1⟩ := by
  cases mode
  · simp only [column, update_moved, moved_at, update_moved', formula, nodes, sub_self, moved_zero, List.all_cons,
      List.all_nil, zero_mul, one_mul, Bool.and_true, Bool.and_assoc]
  · have h1 : x j + step e (x j) - 2 * step e (x j) - x j = -step e (x j) := by ring
    simp only [column, update_moved, moved_at, update_moved', formula, nodes, sub_self, moved_zero, List.all_cons,
      List.all_nil, one_mul, Bool.and_true, Bool.and_assoc, h1, neg_mul]
  · generalize hh : step e (x j) = h
    have h1 : x j + 2 * h - h - x j = h := by ring
    have h2 : x j + h - 2 * h - x j = -h := by ring
    have h3 : x j + -h - h - x j = -(2 * h) := by ring
    simp only [column, hh, update_moved, moved_at, update_moved', formula, nodes, sub_self, moved_zero, List.all_cons,
      List.all_nil, one_mul, Bool.and_true, Bool.and_assoc, h1, h2, h3, neg_mul]
    congr 2
    funext i
    rw [mul_comm h 12]
    congr 1
    ring

theorem fold_spec (mode : Mode) (f : Fun n m) (e : ℝ) (x : Fin n → ℝ) : ∀ (l : List (Fin n)) (J : Fin m → Fin n → ℝ) (b : Bool),
    let s := l.foldl (column mode f e x) ⟨x, J, b⟩
    s.x = x ∧ (∀ i j, s.jac i j = if j ∈ l then formula mode (step e (x j)) fun t => (f (moved x j t)).2 i else J i j) ∧
      s.success = (b && l.all fun j => (nodes mode).all fun c => (f (moved x j (c * step e (x j)))).1)
  | [], J, b => by simp
  | j :: l, J, b => by
    simp only [List.foldl_cons, column_spec]
    obtain ⟨h1, h2, h3⟩ := fold_spec mode f e x l
      (setCol J j fun i => formula mode (step e (x j)) fun t => (f (moved x j t)).2 i)
      (b && (nodes mode).all fun c => (f (moved x j (c * step e (x j)))).1)
    refine ⟨h1, ?_, ?_⟩
    · intro i k
      rw [h2 i k]
      by_cases hk : k ∈ l
      · rw [if_pos hk, if_pos (List.mem_cons_of_mem _ hk)]
      · rw [if_neg hk]
        unfold setCol
        by_cases hj : k = j
        · subst hj; rw [if_pos rfl, if_pos List.mem_cons_self]
        · rw [if_neg hj, if_neg (by simp [hj, hk])]
    · rw [h3, List.all_cons, Bool.and_assoc]

/-- C108: every entry of the Jacobian is that of the scheme for the function along this input, all others at their
values: the columns do not influence each other, and nothing of the old contents is left. It returns true exactly if the
function could be evaluated at all points. -/
theorem numerical_spec (mode : Mode) (f : Fun n m) (e : ℝ) (x : Fin n → ℝ) (junk : Fin m → Fin n → ℝ) :
    (∀ i j, (jacobianNumerical mode f e x junk).2 i j = formula mode (step e (x j)) fun t => (f (moved x j t)).2 i) ∧
      ((jacobianNumerical mode f e x junk).1 = true ↔
        ∀ j, ∀ c ∈ nodes mode, (f (moved x j (c * step e (x j)))).1 = true) := by
  obtain ⟨_, h2, h3⟩ := fold_spec mode f e x (List.finRange n) junk true
  constructor
  · intro i j
    exact (h2 i j).trans (if_pos (List.mem_finRange j))
  · unfold jacobianNumerical
    simp only [h3, Bool.true_and, List.all_eq_true, List.mem_finRange, true_implies]

/-- The order of a scheme: polynomials up to this degree are differentiated exactly. -/
def order : Mode → Nat
  | .forward => 1
  | .central => 2
  | .centralSecond => 4

/-- C108: polynomials up to the order of the scheme are differentiated exactly, whatever the step. -/
theorem formula_exact (mode : Mode) {h : ℝ} (hh : h ≠ 0) (p : Polynomial ℝ) (hp : p.natDegree ≤ order mode) :
    formula mode h (fun t => p.eval t) = p.derivative.eval 0 := by
  have hd : p.derivative.eval 0 = p.coeff 1 := by
    rw [← Polynomial.coeff_zero_eq_eval_zero, Polynomial.coeff_derivative]; norm_num
  rw [hd]
  have he : ∀ t, p.eval t = ∑ k ∈ Finset.range (order mode + 1), p.coeff k * t ^ k := fun t =>
    Polynomial.eval_eq_sum_range' (Nat.lt_succ_of_le hp) t
  cases mode
  · simp only [formula, he, order, Finset.sum_range_succ, Finset.sum_range_zero]
    field_simp
    ring
  · simp only [formula, he, order, Finset.sum_range_succ, Finset.sum_range_zero]
    field_simp
    ring
  · simp only [formula, he, order, Finset.sum_range_succ, Finset.sum_range_zero]
    field_simp
    ring

/-- Taylor's theorem as it is needed here. -/
theorem taylor_bound {g : ℝ → ℝ} {k : Nat} (hg : ContDiff ℝ (k + 1) g) {M r : ℝ}
    (hM : ∀ t, |t| ≤ r → |iteratedDeriv (k + 1) g t| ≤ M) {x : ℝ} (hx : |x| ≤ r) :
    |g x - ∑ i ∈ Finset.range (k + 1), ((i.factorial : ℝ))⁻¹ * x ^ i * iteratedDeriv i g 0| ≤
      M * |x| ^ (k + 1) / ((k + 1).factorial : ℝ) := by
  by_cases h0 : x = 0
  · subst h0
    rw [Finset.sum_eq_single_of_mem 0 (by simp)]
    · simp
    · intro i _ hi
      simp [hi]
  · obtain ⟨y, hy, h⟩ := taylor_mean_remainder_lagrange_iteratedDeriv (f := g) (n := k) (x₀ := 0) (x := x) (Ne.symm h0)
      (by exact_mod_cast hg.contDiffOn)
    have hs : taylorWithinEval g k (Set.uIcc 0 x) 0 x =
        ∑ i ∈ Finset.range (k + 1), ((i.factorial : ℝ))⁻¹ * x ^ i * iteratedDeriv i g 0 := by
      rw [taylor_within_apply]
      refine Finset.sum_congr rfl fun i hi => ?_
      rw [iteratedDerivWithin_eq_iteratedDeriv (uniqueDiffOn_uIcc (Ne.symm h0)) _ Set.left_mem_uIcc, sub_zero, smul_eq_mul]
      exact (hg.of_le (by exact_mod_cast (Nat.le_succ_of_le (Nat.lt_succ_iff.1 (Finset.mem_range.1 hi))))).contDiffAt
    rw [hs] at h
    rw [h, sub_zero, abs_div, abs_mul, abs_pow, abs_of_pos (by positivity : (0 : ℝ) < ((k + 1).factorial : ℝ))]
    have hy' : |y| ≤ |x| := by
      have := Set.uIoo_subset_uIcc_self hy
      rw [Set.mem_uIcc] at this
      rcases this with ⟨a, b⟩ | ⟨a, b⟩
      · rw [abs_of_nonneg a, abs_of_nonneg (a.trans b)]; exact b
      · rw [abs_of_nonpos b, abs_of_nonpos (a.trans b)]; linarith
    have := hM y (hy'.trans hx)
    gcongr

/-- The largest step of a scheme. -/
def reach : Mode → ℝ
  | .forward => 1
  | .central => 1
  | .centralSecond => 2

/-- The constant of the error of a scheme. -/
noncomputable def constant : Mode → ℝ
  | .forward => 1 / 2
  | .central => 1 / 6
  | .centralSecond => 1 / 18

/-- C108: the error for a smooth function: of first order in the step for forward differences, of second order for central
ones, and of fourth order for the scheme that the tests use. -/
theorem formula_error (mode : Mode) {h : ℝ} (hh : 0 < h) {g : ℝ → ℝ} (hg : ContDiff ℝ (order mode + 1) g) {M : ℝ}
    (hM : ∀ t, |t| ≤ reach mode * h → |iteratedDeriv (order mode + 1) g t| ≤ M) :
    |formula mode h g - deriv g 0| ≤ constant mode * M * h ^ order mode := by
  have T := fun (x : ℝ) (hx : |x| ≤ reach mode * h) => taylor_bound (k := order mode) (by exact_mod_cast hg) hM hx
  have hd : deriv g 0 = iteratedDeriv 1 g 0 := by rw [iteratedDeriv_one]
  rw [hd]
  cases mode
  · have t1 := T h (by simp [reach, abs_of_pos hh])
    have hg0 : g 0 = iteratedDeriv 0 g 0 := by simp
    simp only [order, Finset.sum_range_succ, Finset.sum_range_zero, abs_of_pos hh] at t1
    norm_num [Nat.factorial] at t1
    simp only [formula, constant, order]
    rw [show (g h - g 0) / h - iteratedDeriv 1 g 0 = (g h - (g 0 + h * iteratedDeriv 1 g 0)) / h by field_simp; ring,
      abs_div, abs_of_pos hh, div_le_iff₀ hh]
    rw [iteratedDeriv_one]
    calc _ ≤ _ := t1
      _ = _ := by ring
  · have t1 := T h (by simp [reach, abs_of_pos hh])
    have t2 := T (-h) (by simp [reach, abs_of_pos hh])
    simp only [order, Finset.sum_range_succ, Finset.sum_range_zero, abs_of_pos hh, abs_neg] at t1 t2
    norm_num [Nat.factorial] at t1 t2
    simp only [formula, constant, order, iteratedDeriv_one]
    set R1 := g h - (g 0 + h * deriv g 0 + 1 / 2 * h ^ 2 * iteratedDeriv 2 g 0) with hR1
    set R2 := g (-h) - (g 0 + -(h * deriv g 0) + 1 / 2 * h ^ 2 * iteratedDeriv 2 g 0) with hR2
    rw [show (g h - g (-h)) / (2 * h) - deriv g 0 = (R1 - R2) / (2 * h) by rw [hR1, hR2]; field_simp; ring,
      abs_div, abs_of_pos (by positivity : 0 < 2 * h), div_le_iff₀ (by positivity)]
    calc |R1 - R2| ≤ |R1| + |R2| := abs_sub _ _
      _ ≤ M * h ^ 3 / 6 + M * h ^ 3 / 6 := add_le_add t1 t2
      _ = _ := by ring
  · have t1 := T (2 * h) (by simp [reach, abs_of_pos hh])
    have t2 := T h (by simp only [reach, abs_of_pos hh]; linarith)
    have t3 := T (-h) (by simp only [reach, abs_neg, abs_of_pos hh]; linarith)
    have t4 := T (-(2 * h)) (by simp [reach, abs_of_pos hh])
    simp only [order, Finset.sum_range_succ, Finset.sum_range_zero, abs_neg, abs_of_pos hh,
      abs_of_pos (by positivity : 0 < 2 * h)] at t1 t2 t3 t4
    simp only [Nat.factorial, iteratedDeriv_zero, iteratedDeriv_one] at t1 t2 t3 t4
    push_cast at t1 t2 t3 t4
    simp only [formula, constant, order, iteratedDeriv_one]
    generalize iteratedDeriv 2 g 0 = a at *
    generalize iteratedDeriv 3 g 0 = b at *
    generalize iteratedDeriv 4 g 0 = c at *
    generalize deriv g 0 = d at *
    rw [abs_le] at t1 t2 t3 t4
    have e : (8 * (g h - g (-h)) - (g (2 * h) - g (-2 * h))) / (12 * h) - d =
        (8 * (g h - g (-h)) - (g (2 * h) - g (-(2 * h))) - 12 * h * d) / (12 * h) := by
      rw [show -2 * h = -(2 * h) by ring]; field_simp
    rw [e, abs_div, abs_of_pos (by positivity : 0 < 12 * h), div_le_iff₀ (by positivity), abs_le]
    constructor <;> linarith

/-- C108: what a passed test means: every entry of the analytical Jacobian is as near to the derivative as the tolerance
and the error of the scheme allow. -/
theorem passes_sound {f : Fun n m} {x : Fin n → ℝ} {stepsize tolerance : ℝ} {symbolic : Bool × (Fin m → Fin n → ℝ)}
    {junk : Fin m → Fin n → ℝ} (hp : passes f x stepsize tolerance symbolic junk) (i : Fin m) (j : Fin n)
    (hg : ContDiff ℝ 5 fun t => (f (moved x j t)).2 i) {M : ℝ}
    (hM : ∀ t, |t| ≤ 2 * step stepsize (x j) → |iteratedDeriv 5 (fun t => (f (moved x j t)).2 i) t| ≤ M) :
    |symbolic.2 i j - deriv (fun t => (f (moved x j t)).2 i) 0| ≤ tolerance + M * step stepsize (x j) ^ 4 / 18 := by
  have h1 := hp.2.2 i j
  rw [(numerical_spec .centralSecond f stepsize x junk).1 i j] at h1
  have h2 := formula_error .centralSecond (step_pos stepsize (x j)) (g := fun t => (f (moved x j t)).2 i)
    (by norm_num [order]; exact_mod_cast hg) (M := M) (by simpa [reach, order] using hM)
  simp only [constant, order] at h2
  rw [abs_le] at h1 h2 ⊢
  constructor <;> linarith [h1.1, h1.2, h2.1, h2.2]

/-- C108: a test cannot fail for a correct Jacobian of functions that are polynomials of degree four along every input,
if they can be evaluated. -/
theorem passes_complete {f : Fun n m} {x : Fin n → ℝ} {stepsize tolerance : ℝ} (ht : 0 ≤ tolerance)
    {symbolic : Bool × (Fin m → Fin n → ℝ)} (junk : Fin m → Fin n → ℝ) (hf : ∀ x, (f x).1 = true) (hs : symbolic.1 = true)
    (p : Fin m → Fin n → Polynomial ℝ) (hd : ∀ i j, (p i j).natDegree ≤ 4)
    (he : ∀ i j t, (f (moved x j t)).2 i = (p i j).eval t) (hJ : ∀ i j, symbolic.2 i j = (p i j).derivative.eval 0) :
    passes f x stepsize tolerance symbolic junk := by
  obtain ⟨h1, h2⟩ := numerical_spec .centralSecond f stepsize x junk
  refine ⟨h2.2 fun j c _ => hf _, hs, fun i j => ?_⟩
  rw [h1 i j, hJ i j, show (fun t => (f (moved x j t)).2 i) = fun t => (p i j).eval t from funext fun t => he i j t,
    formula_exact .centralSecond (step_pos _ _).ne' (p i j) (hd i j), sub_self, abs_zero]
  exact ht

/-- The product of two numbers. -/
def product : Fun 2 1 := fun x => (true, fun _ => x 0 * x 1)

example : passes product ![3, 5] (1 / 1000) (1 / 100) (true, ![![5, 3]]) (fun _ _ => 7) := by
  refine passes_complete (by norm_num) _ (fun _ => rfl) rfl
    ![![Polynomial.C 15 + Polynomial.C 5 * Polynomial.X, Polynomial.C 15 + Polynomial.C 3 * Polynomial.X]] ?_ ?_ ?_
  · intro i j
    fin_cases i
    fin_cases j <;> simp <;> compute_degree <;> norm_num
  · intro i j t
    fin_cases i
    fin_cases j <;> simp [product, moved] <;> ring
  · intro i j
    fin_cases i
    fin_cases j <;> simp

/-- A function that is not defined for negative numbers. -/
noncomputable def root : Fun 1 1 := fun x => (decide (0 ≤ x 0), fun _ => √(x 0))

/-- C108: a failed evaluation is reported. -/
theorem failure_reported : (jacobianNumerical .centralSecond root (1 / 100) ![0] fun _ _ => 0).1 = false := by
  rw [Bool.eq_false_iff]
  intro h
  have := (numerical_spec .centralSecond root (1 / 100) ![0] fun _ _ => 0).2.1 h 0 (-1) (by simp [nodes])
  have hs := step_pos (1 / 100) (![0] (0 : Fin 1))
  simp only [root, moved, decide_eq_true_eq, if_true] at this
  simp at this hs
  linarith

/-- C108 refuted: the documentation calls the argument the step size of the differentiation. The step at 1 for a step size
of 1/100 is 1/10, and at 100 it is 10. -/
theorem stepsize_refuted : step (1 / 100) 1 = 1 / 10 ∧ step (1 / 100) 100 = 10 := by
  have h : √(1 / 100 : ℝ) = 1 / 10 := by
    rw [show (1 / 100 : ℝ) = (1 / 10) ^ 2 by norm_num]; exact Real.sqrt_sq (by norm_num)
  constructor
  · rw [step_eq (by norm_num) (by norm_num), h]; norm_num
  · rw [step_eq (by norm_num) (by norm_num), h]; norm_num

/-- C108: the scheme is not exact for polynomials of degree five: it is off by four times the fourth power of the step. -/
theorem formula_five {h : ℝ} (hh : h ≠ 0) : formula .centralSecond h (fun t => t ^ 5) = -4 * h ^ 4 := by
  simp only [formula]
  field_simp
  ring

end Verif.NumDiff
