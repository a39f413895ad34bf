import Mathlib.Tactic.Linarith
import Mathlib.Tactic.LinearCombination
import Mathlib.Tactic.FieldSimp
import Mathlib.Tactic.Ring
import Mathlib.Tactic.NormNum
import Verif.Kaze.ExtremaProps
import Verif.Kaze.Subpixel

/-!
# Property C95: refinement of the keypoints
-/

namespace Verif.Kaze.Extrema

open Verif (Outcome)

/-- The offset solves the system. -/
def Solves (A : Sys) (d : Offset) : Prop :=
  A.xx * d.x + A.xy * d.y + A.xs * d.s = A.bx ∧ A.xy * d.x + A.yy * d.y + A.ys * d.s = A.bY ∧
    A.xs * d.x + A.ys * d.y + A.ss * d.s = A.bs

/-- The determinant of the matrix of the system. -/
def det (A : Sys) : ℚ :=
  A.xx * (A.yy * A.ss - A.ys * A.ys) - A.xy * (A.xy * A.ss - A.ys * A.xs) + A.xs * (A.xy * A.ys - A.yy * A.xs)

/-- What is expected of `cv::solve`: regular systems are solved. -/
def Right (solve : Solver) : Prop := ∀ A prev, det A ≠ 0 → Solves A (solve A prev)

/-- A solver that gives nothing for singular systems, as `cv::solve` does for 3 by 3 systems: the result stays as it is. -/
def cramer : Solver := fun A prev =>
  if det A = 0 then prev
  else
    { x := (A.bx * (A.yy * A.ss - A.ys * A.ys) - A.xy * (A.bY * A.ss - A.ys * A.bs) +
        A.xs * (A.bY * A.ys - A.yy * A.bs)) / det A
      y := (A.xx * (A.bY * A.ss - A.ys * A.bs) - A.bx * (A.xy * A.ss - A.ys * A.xs) +
        A.xs * (A.xy * A.bs - A.bY * A.xs)) / det A
      s := (A.xx * (A.yy * A.bs - A.bY * A.ys) - A.xy * (A.xy * A.bs - A.bY * A.xs) +
        A.bx * (A.xy * A.ys - A.yy * A.xs)) / det A }

/-- Cramer's rule solves regular systems. -/
theorem cramer_right : Right cramer := by
  intro A prev h
  unfold cramer
  rw [if_neg h]
  refine ⟨?_, ?_, ?_⟩
  · field_simp
    unfold det
    ring
  · field_simp
    unfold det
    ring
  · field_simp
    unfold det
    ring

/-- A regular system has one solution. -/
theorem solves_unique {A : Sys} (h : det A ≠ 0) {d e : Offset} (hd : Solves A d) (he : Solves A e) : d = e := by
  obtain ⟨d1, d2, d3⟩ := hd
  obtain ⟨e1, e2, e3⟩ := he
  have hx : det A * (d.x - e.x) = 0 := by
    unfold det
    linear_combination (A.yy * A.ss - A.ys * A.ys) * (d1 - e1) + (A.xs * A.ys - A.xy * A.ss) * (d2 - e2) +
      (A.xy * A.ys - A.xs * A.yy) * (d3 - e3)
  have hy : det A * (d.y - e.y) = 0 := by
    unfold det
    linear_combination (A.xs * A.ys - A.xy * A.ss) * (d1 - e1) + (A.xx * A.ss - A.xs * A.xs) * (d2 - e2) +
      (A.xs * A.xy - A.xx * A.ys) * (d3 - e3)
  have hs : det A * (d.s - e.s) = 0 := by
    unfold det
    linear_combination (A.xy * A.ys - A.xs * A.yy) * (d1 - e1) + (A.xs * A.xy - A.xx * A.ys) * (d2 - e2) +
      (A.xx * A.yy - A.xy * A.xy) * (d3 - e3)
  have hx := (mul_eq_zero.1 hx).resolve_left h
  have hy := (mul_eq_zero.1 hy).resolve_left h
  have hs := (mul_eq_zero.1 hs).resolve_left h
  cases d
  cases e
  simp only [Offset.mk.injEq]
  simp only at hx hy hs
  exact ⟨by linarith, by linarith, by linarith⟩

/-- The refined keypoint belongs to the pixel: at most one pixel and one level away, of the scale of its level. -/
def Belongs (nsub : Nat) (k : Kp) (r : Refined) : Prop :=
  |r.x - k.x| ≤ 1 ∧ |r.y - k.y| ≤ 1 ∧ |r.scale * nsub - k.level| ≤ 1 ∧ r.response = k.response ∧ r.level = k.level

theorem scale_eq (l nsub : Nat) (s : ℚ) (hn : nsub ≠ 0) :
    (((l / nsub : Nat) : ℚ) + (((l % nsub : Nat) : ℚ) + s) / nsub) * nsub = l + s := by
  have h : ((nsub * (l / nsub) + l % nsub : Nat) : ℚ) = (l : ℚ) := by rw [Nat.div_add_mod]
  push_cast at h
  have hn' : (nsub : ℚ) ≠ 0 := by exact_mod_cast hn
  field_simp
  linarith

/-- C95: each keypoint after the refinement belongs to one before it. -/
theorem refineOne_belongs {solve : Solver} {rows cols n nsub : Nat} {Ldet : Nat → Level} {prev d : Offset} {k : Kp}
    {r : Refined} (hn : nsub ≠ 0) (h : refineOne solve rows cols n nsub Ldet prev k = .ok (d, some r)) :
    Belongs nsub k r := by
  unfold refineOne at h
  split at h
  · simp only at h
    split at h
    · rename_i hd
      simp only [Outcome.ok.injEq, Prod.mk.injEq, Option.some.injEq] at h
      obtain ⟨-, rfl⟩ := h
      refine ⟨by simpa using hd.1, by simpa using hd.2.1, ?_, rfl, rfl⟩
      simp only [scale_eq _ _ _ hn]
      simpa using hd.2.2
    · simp at h
  · cases h

/-- The keypoints after the refinement are those of some of the keypoints before, in the same order. -/
theorem refineAll_belongs {solve : Solver} {rows cols n nsub : Nat} {Ldet : Nat → Level} (hn : nsub ≠ 0) :
    ∀ {ks : List Kp} {prev : Offset} {rs : List Refined}, refineAll solve rows cols n nsub Ldet prev ks = .ok rs →
      ∃ ks', ks'.Sublist ks ∧ List.Forall₂ (Belongs nsub) ks' rs
  | [], prev, rs, h => by
    simp only [refineAll, Outcome.ok.injEq] at h
    subst h
    exact ⟨[], List.Sublist.refl _, .nil⟩
  | k :: ks, prev, rs, h => by
    simp only [refineAll] at h
    obtain ⟨⟨d, o⟩, h1, h⟩ := Outcome.bind_eq_ok.1 h
    obtain ⟨rs', h2, h⟩ := Outcome.bind_eq_ok.1 h
    injection h with h
    obtain ⟨ks', hs, hf⟩ := refineAll_belongs hn h2
    cases o with
    | none =>
      simp only at h
      subst h
      exact ⟨ks', hs.trans (List.sublist_cons_self _ _), hf⟩
    | some r =>
      simp only at h
      subst h
      exact ⟨k :: ks', hs.cons_cons k, .cons (refineOne_belongs hn h1) hf⟩

theorem refineAll_total (solve : Solver) {rows cols n : Nat} (nsub : Nat) (Ldet : Nat → Level) :
    ∀ (ks : List Kp) (prev : Offset), (∀ k ∈ ks, 0 < k.x ∧ k.x + 1 < cols ∧ 0 < k.y ∧ k.y + 1 < rows ∧ 0 < k.level ∧
      k.level + 1 < n) → ∃ rs, refineAll solve rows cols n nsub Ldet prev ks = .ok rs
  | [], _, _ => ⟨[], rfl⟩
  | k :: ks, prev, h => by
    have hk := h k (by simp)
    have : ∃ x, refineOne solve rows cols n nsub Ldet prev k = .ok x := by
      unfold refineOne
      rw [if_pos hk]
      simp only
      split
      · exact ⟨_, rfl⟩
      · exact ⟨_, rfl⟩
    obtain ⟨x, hx⟩ := this
    obtain ⟨rs, hrs⟩ := refineAll_total solve nsub Ldet ks x.1 fun k' hk' => h k' (List.mem_cons_of_mem _ hk')
    simp only [refineAll, hx, hrs, Outcome.bind_ok]
    exact ⟨_, rfl⟩

/-- C95: with levels, the detection of features never fails and reads within the images only, whatever the response is
and whatever the solver does; each feature is within one pixel and one level of a maximum, so it is in the image. -/
theorem features_spec (solve : Solver) {rows cols n nsub : Nat} (Ldet : Nat → Level) (dthreshold : ℚ) (sigma : Nat → Nat)
    (hn : n ≠ 0) (hs : nsub ≠ 0) :
    ∃ out, features solve rows cols Ldet dthreshold sigma n nsub = .ok out ∧
      ∀ r ∈ out, 0 ≤ r.x ∧ r.x ≤ cols - 1 ∧ 0 ≤ r.y ∧ r.y ≤ rows - 1 ∧ 0 ≤ r.scale * nsub ∧ r.scale * nsub ≤ n - 1 ∧
        ∃ k : Kp, Maximum rows cols Ldet dthreshold k.level k.y k.x ∧ k.response = Ldet k.level k.y k.x ∧
          Belongs nsub k r := by
  obtain ⟨ks, hks⟩ : ∃ ks, detect rows cols Ldet dthreshold sigma n [] = .ok ks := by
    unfold detect
    rw [if_neg hn]
    exact ⟨_, rfl⟩
  have hm : ∀ k ∈ ks, 0 < k.level ∧ k.level + 1 < n ∧ k.response = Ldet k.level k.y k.x ∧
      Maximum rows cols Ldet dthreshold k.level k.y k.x := by
    intro k hk
    exact (detect_sound hks hk).resolve_left (by simp)
  obtain ⟨rs, hrs⟩ := refineAll_total solve (rows := rows) (cols := cols) (n := n) nsub Ldet ks ⟨0, 0, 0⟩ fun k hk => by
    obtain ⟨h1, h2, -, h3, h4, h5, h6, -⟩ := hm k hk
    exact ⟨h5, h6, h3, h4, h1, h2⟩
  refine ⟨rs, by simp [features, hks, refine, hrs], ?_⟩
  intro r hr
  obtain ⟨ks', hsub, hf⟩ := refineAll_belongs hs hrs
  obtain ⟨k, hk, hb⟩ : ∃ k ∈ ks', Belongs nsub k r := by
    clear hsub hrs
    induction hf with
    | nil => simp at hr
    | cons h _ ih =>
      rcases List.mem_cons.1 hr with rfl | hr
      · exact ⟨_, by simp, h⟩
      · obtain ⟨k, hk, hb⟩ := ih hr
        exact ⟨k, List.mem_cons_of_mem _ hk, hb⟩
  obtain ⟨l1, l2, hresp, hmax⟩ := hm k (hsub.subset hk)
  obtain ⟨m1, m2, m3, m4, -⟩ := hmax
  have hmax := (hm k (hsub.subset hk)).2.2.2
  obtain ⟨b1, b2, b3, -⟩ := id hb
  rw [abs_le] at b1 b2 b3
  have e1 : (1 : ℚ) ≤ k.x := by exact_mod_cast m3
  have e2 : (k.x : ℚ) + 2 ≤ cols := by exact_mod_cast m4
  have e3 : (1 : ℚ) ≤ k.y := by exact_mod_cast m1
  have e4 : (k.y : ℚ) + 2 ≤ rows := by exact_mod_cast m2
  have e5 : (1 : ℚ) ≤ k.level := by exact_mod_cast l1
  have e6 : (k.level : ℚ) + 2 ≤ n := by exact_mod_cast l2
  exact ⟨by linarith, by linarith, by linarith, by linarith, by linarith, by linarith, k, hmax, hresp, hb⟩

/-- A quadratic function of the offset from a pixel. -/
structure Quadratic where
  c : ℚ
  gx : ℚ
  gy : ℚ
  gs : ℚ
  hxx : ℚ
  hyy : ℚ
  hss : ℚ
  hxy : ℚ
  hxs : ℚ
  hys : ℚ

/-- Its value. -/
def Quadratic.eval (q : Quadratic) (x y s : ℚ) : ℚ :=
  q.c + q.gx * x + q.gy * y + q.gs * s + (q.hxx * x ^ 2 + q.hyy * y ^ 2 + q.hss * s ^ 2) / 2 + q.hxy * x * y +
    q.hxs * x * s + q.hys * y * s

/-- Its gradient is zero at the offset. -/
def Quadratic.Stationary (q : Quadratic) (d : Offset) : Prop :=
  q.gx + q.hxx * d.x + q.hxy * d.y + q.hxs * d.s = 0 ∧ q.gy + q.hxy * d.x + q.hyy * d.y + q.hys * d.s = 0 ∧
    q.gs + q.hxs * d.x + q.hys * d.y + q.hss * d.s = 0

/-- The determinant of its Hessian. -/
def Quadratic.hessian (q : Quadratic) : ℚ :=
  q.hxx * (q.hyy * q.hss - q.hys ^ 2) - q.hxy * (q.hxy * q.hss - q.hys * q.hxs) + q.hxs * (q.hxy * q.hys - q.hyy * q.hxs)

/-- C95: where the response is a quadratic function around the pixel, the refinement finds its stationary point exactly,
and keeps the keypoint exactly if this point is at most a pixel and a level away. -/
theorem refineOne_quadratic {solve : Solver} (hr : Right solve) {rows cols n nsub : Nat} {Ldet : Nat → Level} {k : Kp}
    (hin : 0 < k.x ∧ k.x + 1 < cols ∧ 0 < k.y ∧ k.y + 1 < rows ∧ 0 < k.level ∧ k.level + 1 < n) (hn : nsub ≠ 0)
    (q : Quadratic) (hh : q.hessian ≠ 0)
    (hq : ∀ l y x : Nat, l ≤ k.level + 1 → k.level ≤ l + 1 → y ≤ k.y + 1 → k.y ≤ y + 1 → x ≤ k.x + 1 → k.x ≤ x + 1 →
      Ldet l y x = q.eval ((x : ℚ) - k.x) ((y : ℚ) - k.y) ((l : ℚ) - k.level))
    {d : Offset} (hd : q.Stationary d) (prev : Offset) :
    (|d.x| ≤ 1 ∧ |d.y| ≤ 1 ∧ |d.s| ≤ 1 → ∃ r, refineOne solve rows cols n nsub Ldet prev k = .ok (d, some r) ∧
      r.x = k.x + d.x ∧ r.y = k.y + d.y ∧ r.scale = (k.level + d.s) / nsub) ∧
    (¬ (|d.x| ≤ 1 ∧ |d.y| ≤ 1 ∧ |d.s| ≤ 1) → refineOne solve rows cols n nsub Ldet prev k = .ok (d, none)) := by
  obtain ⟨x, y, resp, l⟩ := k
  simp only at hin hq
  obtain ⟨x, rfl⟩ : ∃ x', x = x' + 1 := ⟨x - 1, by omega⟩
  obtain ⟨y, rfl⟩ : ∃ y', y = y' + 1 := ⟨y - 1, by omega⟩
  obtain ⟨l, rfl⟩ : ∃ l', l = l' + 1 := ⟨l - 1, by omega⟩
  have key : ∀ a b c : Nat, a ≤ 2 → b ≤ 2 → c ≤ 2 →
      Ldet (l + a) (y + b) (x + c) = q.eval ((c : ℚ) - 1) ((b : ℚ) - 1) ((a : ℚ) - 1) := by
    intro a b c ha hb hc
    rw [hq (l + a) (y + b) (x + c) (by omega) (by omega) (by omega) (by omega) (by omega) (by omega)]
    push_cast
    congr 1 <;> ring
  have hA : system Ldet (l + 1) (y + 1) (x + 1) =
      ⟨q.hxx, q.hyy, q.hss, q.hxy, q.hxs, q.hys, -q.gx, -q.gy, -q.gs⟩ := by
    have k111 := key 1 1 1 (by omega) (by omega) (by omega)
    have k112 := key 1 1 2 (by omega) (by omega) (by omega)
    have k110 := key 1 1 0 (by omega) (by omega) (by omega)
    have k121 := key 1 2 1 (by omega) (by omega) (by omega)
    have k101 := key 1 0 1 (by omega) (by omega) (by omega)
    have k211 := key 2 1 1 (by omega) (by omega) (by omega)
    have k011 := key 0 1 1 (by omega) (by omega) (by omega)
    have k122 := key 1 2 2 (by omega) (by omega) (by omega)
    have k100 := key 1 0 0 (by omega) (by omega) (by omega)
    have k102 := key 1 0 2 (by omega) (by omega) (by omega)
    have k120 := key 1 2 0 (by omega) (by omega) (by omega)
    have k212 := key 2 1 2 (by omega) (by omega) (by omega)
    have k010 := key 0 1 0 (by omega) (by omega) (by omega)
    have k210 := key 2 1 0 (by omega) (by omega) (by omega)
    have k012 := key 0 1 2 (by omega) (by omega) (by omega)
    have k221 := key 2 2 1 (by omega) (by omega) (by omega)
    have k001 := key 0 0 1 (by omega) (by omega) (by omega)
    have k201 := key 2 0 1 (by omega) (by omega) (by omega)
    have k021 := key 0 2 1 (by omega) (by omega) (by omega)
    simp only [Nat.add_zero] at k110 k101 k011 k100 k102 k120 k010 k210 k012 k001 k201 k021
    unfold system
    simp only [Nat.add_sub_cancel, Nat.add_assoc, Nat.reduceAdd, k111, k112, k110, k121, k101, k211, k011, k122, k100, k102,
      k120, k212, k010, k210, k012, k221, k001, k201, k021, Quadratic.eval]
    simp only [Sys.mk.injEq]
    refine ⟨?_, ?_, ?_, ?_, ?_, ?_, ?_, ?_, ?_⟩ <;> · push_cast; ring
  have hdet : det (system Ldet (l + 1) (y + 1) (x + 1)) ≠ 0 := by
    rw [hA]
    unfold det
    unfold Quadratic.hessian at hh
    simp only
    intro h
    exact hh (by linarith)
  have hsol : solve (system Ldet (l + 1) (y + 1) (x + 1)) prev = d := by
    refine solves_unique hdet (hr _ _ hdet) ?_
    rw [hA]
    obtain ⟨h1, h2, h3⟩ := hd
    exact ⟨by simp only; linarith, by simp only; linarith, by simp only; linarith⟩
  unfold refineOne
  simp only
  rw [if_pos hin, hsol]
  constructor
  · intro hb
    rw [if_pos hb]
    refine ⟨_, rfl, rfl, rfl, ?_⟩
    have := scale_eq (l + 1) nsub d.s hn
    have hn' : (nsub : ℚ) ≠ 0 := by exact_mod_cast hn
    rw [eq_div_iff hn']
    exact this
  · intro hb
    rw [if_neg hb]

/-- The hypotheses of `refineOne_quadratic` can be met: a paraboloid with its top between the pixels. -/
example : (Quadratic.mk 1 (1 / 2) 0 (1 / 4) (-2) (-2) (-1) 0 0 0).Stationary ⟨1 / 4, 0, 1 / 4⟩ ∧
    (Quadratic.mk 1 (1 / 2) 0 (1 / 4) (-2) (-2) (-1) 0 0 0).hessian ≠ 0 := by
  unfold Quadratic.Stationary Quadratic.hessian
  norm_num

/-- A response with an isolated maximum at (2,2) and one at (2,6) of which the derivatives over the levels vanish. -/
def twoTops : Nat → Level := fun l y x =>
  if y = 2 ∧ x = 6 then 1
  else if l = 1 ∧ y = 2 ∧ x = 2 then 2
  else if l = 1 ∧ y = 2 ∧ x = 3 then 1
  else 0

/-- C95: the outcome of the solver is not looked at: with a solver that leaves its result unchanged for singular systems,
the second keypoint, a symmetric maximum, is moved by the offset of the first. -/
theorem refine_singular_refuted : Right cramer ∧
    features cramer 5 9 twoTops 0 (fun _ => 2) 3 4 =
      .ok [⟨2 + 1 / 6, 2, 1 / 4, 2, 1⟩, ⟨6 + 1 / 6, 2, 1 / 4, 1, 1⟩] ∧
    (∀ l y, twoTops l y 7 = twoTops l y 5) := by
  refine ⟨cramer_right, by decide +kernel, ?_⟩
  intro l y
  simp [twoTops]

/-- C95: keypoints of other images in the vector may be read outside of the levels. -/
theorem refine_stale_refuted (solve : Solver) (Ldet : Nat → Level) :
    refine solve 100 100 4 4 Ldet [⟨50, 50, 1, 7⟩] = .ub := by
  simp [refine, refineAll, refineOne]

end Verif.Kaze.Extrema
