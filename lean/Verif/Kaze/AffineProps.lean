import Verif.Kaze.ScaleSpaceProps

/-!
# Property C116: contrast and brightness with both schemes
-/

namespace Verif.Kaze.Diffusion

open Verif (Outcome)

theorem forward_affine (p b d : Nat → ℝ) (α β : ℝ) : ∀ k,
    forward p b (fun i => α * d i + β) k = α * forward p b d k + β * forward p b (fun _ => 1) k
  | 0 => by simp only [forward]; ring
  | k + 1 => by
    simp only [forward]
    rw [forward_affine p b d α β k]
    ring

theorem backward_affine (p b d : Nat → ℝ) (α β : ℝ) (n : Nat) : ∀ j,
    backward p b (fun i => α * d i + β) n j = α * backward p b d n j + β * backward p b (fun _ => 1) n j
  | 0 => by
    simp only [backward]
    rw [forward_affine]
    ring
  | j + 1 => by
    simp only [backward]
    rw [forward_affine, backward_affine p b d α β n j]
    ring

/-- C92: the solutions of the system change with contrast and brightness as the image does, also beyond the last row. -/
theorem line_affine {q d : Nat → ℝ} {s : ℝ} {n : Nat} (hn : 2 ≤ n) (hs : 0 ≤ s) (hq : ∀ k, 0 ≤ q k) (α β : ℝ) (i : Nat) :
    thomas (diag q s n) (fun k => -s * q k) (fun k => α * d k + β) n i =
      α * thomas (diag q s n) (fun k => -s * q k) d n i + β := by
  have one : thomas (diag q s n) (fun k => -s * q k) (fun _ => 1) n i = 1 := by
    have h : ∀ j, j < n → thomas (diag q s n) (fun k => -s * q k) (fun _ => 1) n j = 1 := by
      intro j hj
      have := line_range (d := fun _ => (1 : ℝ)) (lo := 1) (hi := 1) hn hs (fun k _ => hq k) (fun _ _ => ⟨le_rfl, le_rfl⟩) hj
      exact le_antisymm this.2 this.1
    by_cases hi : i < n
    · exact h i hi
    · have := h (n - 1) (by omega)
      unfold thomas at this ⊢
      rw [show n - 1 - i = n - 1 - (n - 1) by omega]
      exact this
  unfold thomas at one ⊢
  rw [backward_affine, one]
  ring

/-- C92: contrast and brightness of the image are those of the result of an implicit step. -/
theorem aosStep_affine {c : Nat → Nat → ℝ} (hc : ∀ y x, 0 ≤ c y x) {s : ℝ} (hs : 0 ≤ s) (a b : ℝ) (L : Img) :
    aosStep c s { L with px := fun y x => a * L.px y x + b } =
      (aosStep c s L).bind fun r => .ok { r with px := fun y x => a * r.px y x + b } := by
  unfold aosStep
  simp only
  split
  · rfl
  split
  · rfl
  split
  · rfl
  · show Outcome.ok _ = Outcome.ok _
    congr 1
    simp only [Img.mk.injEq, true_and]
    funext i j
    have h1 : aosRows L.rows c s (fun y x => a * L.px y x + b) i j = a * aosRows L.rows c s L.px i j + b :=
      line_affine (d := fun k => L.px k j) (by omega) hs (fun k => add_nonneg (hc _ _) (hc _ _)) a b i
    have h2 : aosCols L.cols c s (fun y x => a * L.px y x + b) i j = a * aosCols L.cols c s L.px i j + b :=
      line_affine (d := fun k => L.px i k) (by omega) hs (fun k => add_nonneg (hc _ _) (hc _ _)) a b j
    rw [h1, h2]
    ring

/-- Conductivities are not negative. -/
theorem conductivity_nonneg {kind : Kind} {k g v : ℝ} (hg : 0 ≤ g) (h : conductivity kind k g = some v) : 0 ≤ v := by
  by_cases hk : k = 0
  · subst hk
    unfold conductivity at h
    rw [if_pos rfl] at h
    split at h
    · cases h
    · cases h
      exact le_rfl
  · obtain ⟨w, hw, h0, -⟩ := conductivity_range_partial kind hk hg
    rw [h] at hw
    cases hw
    exact h0

end Verif.Kaze.Diffusion

namespace Verif.Kaze.ScaleSpace

open Verif (Outcome)
open Verif.Kaze.Diffusion (Img Kind conductivity nldSteps aosStep)
open Verif.Kaze.Response (Level levels times)

theorem flow_nonneg {kind : Option Kind} {k : ℝ} {smooth : Img} {old c : Nat → Nat → ℝ} (ho : ∀ y x, 0 ≤ old y x)
    (h : flow kind k smooth old = some c) (y x : Nat) : 0 ≤ c y x := by
  unfold flow at h
  cases kind with
  | none =>
    cases h
    exact ho y x
  | some kd =>
    simp only at h
    split at h
    · cases h
      simp only
      cases hv : conductivity kd k (gradSq smooth y x) with
      | none => exact le_rfl
      | some v => exact Diffusion.conductivity_nonneg (gradSq_nonneg smooth y x) hv
    · cases h

theorem evolve_affine_aos {o : Opts} (hf : o.useFed = false) {a : ℝ} (ha : 0 < a) (b k : ℝ) :
    ∀ (steps : List (ℝ × List ℝ)) (old : Nat → Nat → ℝ) (prev : Img), (∀ st ∈ steps, 0 ≤ st.1) → (∀ y x, 0 ≤ old y x) →
      evolve o (a * k) steps old (affine a b prev) =
        (evolve o k steps old prev).bind fun r => .ok (r.map fun l => l.map (Slice.affine a b)) := by
  intro steps
  induction steps with
  | nil => intro old prev _ _; rfl
  | cons st r ih =>
    intro old prev hst hold
    obtain ⟨t, tau⟩ := st
    have ht : 0 ≤ t := hst (t, tau) (List.mem_cons_self ..)
    rw [evolve, evolve, gaussian_affine]
    cases gaussian o.sderivatives prev with
    | ok smooth =>
      simp only [bind_okay, flow_affine ha, hf, Bool.false_eq_true, if_false]
      cases hfl : flow o.kind k smooth old with
      | none => rfl
      | some c =>
        simp only []
        have hc := flow_nonneg hold hfl
        have hstep : aosStep c t (affine a b prev) = (aosStep c t prev).bind fun r => .ok (affine a b r) :=
          Diffusion.aosStep_affine hc ht a b prev
        rw [hstep]
        cases aosStep c t prev with
        | ok lt =>
          simp only [bind_okay]
          rw [ih _ _ (fun st h => hst st (List.mem_cons_of_mem _ h)) hc]
          cases evolve o k r c lt with
          | ok rest => cases rest <;> rfl
          | abort => rfl
          | ub => rfl
          | exc => rfl
        | abort => rfl
        | ub => rfl
        | exc => rfl
    | abort => rfl
    | ub => rfl
    | exc => rfl

/-- **C116**: contrast and brightness of the image change contrast and brightness of every level in the same way, and nothing
else, with both schemes. -/
theorem run_affine_both (o : Opts) (hn : 0 < o.nbins) (h1 : o.perc ≤ 1) {a : ℝ} (ha : 0 < a) (b : ℝ) (img : Img) :
    run o (affine a b img) = (run o img).bind fun r => .ok (r.map fun p => (p.1, p.2.map (Slice.affine a b))) := by
  cases hf : o.useFed with
  | true => exact run_affine hf hn h1 ha b img
  | false =>
    unfold run
    have hcon : construct o = .ok ((times (levels o.soffset o.omax o.nsublevels)).map fun t => (t, [])) := by
      unfold construct
      simp only [hf, Bool.false_eq_true, if_false]
    rw [hcon]
    simp only [bind_okay]
    unfold create
    by_cases hl : levels o.soffset o.omax o.nsublevels = []
    · rw [if_pos hl, if_pos hl]; rfl
    · rw [if_neg hl, if_neg hl, gaussian_affine]
      cases gaussian o.soffset img with
      | ok lt =>
        simp only [bind_okay]
        rw [gaussian_affine, contrast_affine hn h1 ha]
        cases gaussian o.sderivatives lt with
        | ok smooth =>
          simp only [bind_okay]
          cases contrast o img with
          | ok k =>
            simp only [bind_okay]
            rw [evolve_affine_aos hf ha _ _ _ _ _ (by
              intro st h
              rw [List.mem_map] at h
              obtain ⟨t, ht, rfl⟩ := h
              exact times_nonneg o t ht) (fun _ _ => le_rfl)]
            cases evolve o k ((times (levels o.soffset o.omax o.nsublevels)).map fun t => (t, [])) (fun _ _ => 0) lt with
            | ok rest => cases rest <;> rfl
            | abort => rfl
            | ub => rfl
            | exc => rfl
          | abort => rfl
          | ub => rfl
          | exc => rfl
        | abort => rfl
        | ub => rfl
        | exc => rfl
      | abort => rfl
      | ub => rfl
      | exc => rfl

/-- A square image with structure has all levels without FED, and so has a brighter one, with all levels brighter. -/
example : ∃ s l, run { defaults with useFed := false } ramp = .ok (some (0, s :: l)) ∧
    run { defaults with useFed := false } (affine 2 1 ramp) =
      .ok (some (0, (s :: l).map (Slice.affine 2 1))) := by
  obtain ⟨s, l, h, -⟩ := run_aos_partial (o := { defaults with useFed := false }) (kd := .pmG2) rfl rfl (by simp [defaults])
    (by simp [defaults]) (by norm_num [defaults]) (by norm_num [defaults]) (by simp [defaults]) (by norm_num [defaults])
    (img := ramp) (by decide) rfl (ramp_structured' rfl rfl le_rfl)
  refine ⟨s, l, h, ?_⟩
  rw [run_affine_both _ (by simp [defaults]) (by norm_num [defaults]) (by norm_num) 1 ramp, h]
  rfl

end Verif.Kaze.ScaleSpace
