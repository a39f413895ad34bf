import Verif.Kaze.Compute
import Verif.Kaze.DescriptorProps
import Mathlib.Data.List.Perm.Basic
import Mathlib.Data.List.Perm.Subperm

/-!
# The descriptors of all keypoints: properties (C128)
-/

namespace Verif.Kaze.Compute

open Verif (Outcome)
open Verif.Kaze.Descriptor (Kpt Which Family Derivatives)

/-! ## The types -/

/-- What the names of the types say. -/
def Named : DType → Family → Bool → Bool → Prop
  | .surfUpright, f, u, e => f = .surf ∧ u = true ∧ e = false
  | .surf, f, u, e => f = .surf ∧ u = false ∧ e = false
  | .surfExtendedUpright, f, u, e => f = .surf ∧ u = true ∧ e = true
  | .surfExtended, f, u, e => f = .surf ∧ u = false ∧ e = true
  | .msurfUpright, f, u, e => f = .msurf ∧ u = true ∧ e = false
  | .msurf, f, u, e => f = .msurf ∧ u = false ∧ e = false
  | .msurfExtendedUpright, f, u, e => f = .msurf ∧ u = true ∧ e = true
  | .msurfExtended, f, u, e => f = .msurf ∧ u = false ∧ e = true
  | .gsurfUpright, f, u, e => f = .gsurf ∧ u = true ∧ e = false
  | .gsurf, f, u, e => f = .gsurf ∧ u = false ∧ e = false
  | .gsurfExtendedUpright, f, u, e => f = .gsurf ∧ u = true ∧ e = true
  | .gsurfExtended, f, u, e => f = .gsurf ∧ u = false ∧ e = true

/-- **C128 (types).** Every type computes the descriptor of its name; the orientation is computed exactly for those that
are not upright; the matrix has 128 columns for the extended ones and 64 for the others, as many as the descriptor has
numbers, so that no row is written beyond its end. -/
theorem types_spec (t : DType) :
    Named t (which t).family (which t).upright (which t).extended ∧ (rotates t = true ↔ (which t).upright = false) ∧
      columns t = (if (which t).extended then 128 else 64) ∧
      ∀ wd ht d kp v, Descriptor.descriptor (which t) wd ht d kp = some v → v.length = columns t := by
  refine ⟨by cases t <;> simp [Named, which], by cases t <;> simp [rotates, which],
    by cases t <;> simp [columns, which], ?_⟩
  intro wd ht d kp v h
  have hc : columns t = if (which t).extended then 128 else 64 := by cases t <;> simp [columns, which]
  unfold Descriptor.descriptor at h
  split at h
  · cases h
  · injection h with h
    rw [← h, List.length_map, Descriptor.raw_length, hc]

/-! ## Schedules -/

/-- An order of the calls that threads may produce: every call of the program once, and for every keypoint its
orientation before its descriptor. -/
def Schedule (t : DType) (n : Nat) (es : List Event) : Prop :=
  es.Perm (program t n) ∧ ∀ i < n, (body t i).Sublist es

/-- The order of the loop is such an order. -/
theorem program_schedule (t : DType) (n : Nat) : Schedule t n (program t n) := by
  refine ⟨List.Perm.refl _, fun i hi => ?_⟩
  unfold program
  obtain ⟨a, b, h⟩ := List.append_of_mem (List.mem_range.2 hi)
  rw [h, List.flatMap_append, List.flatMap_cons]
  exact (List.sublist_append_left _ _).trans (List.sublist_append_right _ _)

/-- The keypoint an event is about. -/
def Event.index : Event → Nat
  | .orient i => i
  | .describe i => i

theorem body_index {t : DType} {i : Nat} {e : Event} (h : e ∈ body t i) : e.index = i := by
  unfold body at h
  split at h
  · simp only [List.mem_cons, List.not_mem_nil, or_false] at h
    rcases h with rfl | rfl <;> rfl
  · simp only [List.mem_cons, List.not_mem_nil, or_false] at h
    rw [h]
    rfl

theorem filter_program (t : DType) (i : Nat) : ∀ n, (program t n).filter (fun e => decide (e.index = i)) =
    if i < n then body t i else [] := by
  intro n
  induction n with
  | zero => simp [program]
  | succ n ih =>
    unfold program at ih ⊢
    rw [List.range_succ, List.flatMap_append, List.filter_append, ih, List.flatMap_singleton]
    by_cases h : i = n
    · subst h
      rw [if_neg (lt_irrefl i), if_pos (Nat.lt_succ_self i), List.nil_append, List.filter_eq_self]
      intro e he
      exact decide_eq_true (body_index he)
    · have hf : (body t n).filter (fun e => decide (e.index = i)) = [] := by
        rw [List.filter_eq_nil_iff]
        intro e he
        rw [body_index he, decide_eq_true_eq]
        exact fun e => h e.symm
      rw [hf, List.append_nil]
      by_cases hi : i < n
      · rw [if_pos hi, if_pos (by omega)]
      · rw [if_neg hi, if_neg (by omega)]

/-- In every schedule the calls about a keypoint are those of the loop body, in its order. -/
theorem schedule_filter {t : DType} {n : Nat} {es : List Event} (h : Schedule t n es) {i : Nat} (hi : i < n) :
    es.filter (fun e => decide (e.index = i)) = body t i := by
  have hp := h.1.filter (fun e => decide (e.index = i))
  rw [filter_program, if_pos hi] at hp
  have hs : (body t i).Sublist (es.filter (fun e => decide (e.index = i))) := by
    have := (h.2 i hi).filter (fun e => decide (e.index = i))
    rwa [List.filter_eq_self.2 fun e he => decide_eq_true (body_index he)] at this
  exact (hs.eq_of_length hp.length_eq.symm).symm

/-! ## The result -/

/-- What an event does to its keypoint and row, if the level exists. -/
noncomputable def touch (E : Env) (t : DType) (d : Derivatives) (x : Point × Option (List ℝ)) : Event → Point × Option (List ℝ)
  | .orient _ => (oriented E d x.1, x.2)
  | .describe _ => (x.1, Descriptor.descriptor (which t) E.wd E.ht d x.1.kp)

theorem level_ok_iff (E : Env) (p : Point) (d : Derivatives) :
    level E p = .ok d ↔ ∃ n : Nat, p.level = n ∧ E.evolution[n]? = some d := by
  unfold level
  by_cases h : p.level < 0
  · rw [if_pos h]
    constructor
    · intro e
      cases e
    · rintro ⟨n, hn, _⟩
      omega
  · rw [if_neg h]
    constructor
    · intro e
      split at e
      · rename_i d' hd
        injection e with e
        exact ⟨p.level.toNat, by omega, by rw [hd, e]⟩
      · cases e
    · rintro ⟨n, hn, hd⟩
      have : p.level.toNat = n := by omega
      rw [this, hd]

theorem level_cases (E : Env) (p : Point) : (∃ d, level E p = .ok d) ∨ level E p = .ub := by
  unfold level
  split
  · exact Or.inr rfl
  · split
    · exact Or.inl ⟨_, rfl⟩
    · exact Or.inr rfl

/-- The level of every keypoint exists. -/
def Levels (E : Env) (pts : List Point) : Prop := ∀ p ∈ pts, ∃ n : Nat, p.level = n ∧ n < E.evolution.length

theorem level_oriented (E : Env) (d : Derivatives) (p : Point) : level E (oriented E d p) = level E p := rfl

/-- A run of events about existing keypoints with existing levels. -/
theorem run_spec (E : Env) (t : DType) : ∀ (es : List Event) (s : State), s.rows.length = s.pts.length →
    (∀ e ∈ es, e.index < s.pts.length) → (∀ p ∈ s.pts, ∃ d, level E p = .ok d) →
    ∃ s', run E t s es = .ok s' ∧ s'.pts.length = s.pts.length ∧ s'.rows.length = s.pts.length ∧
      ∀ (i : Nat) (p : Point) (r : Option (List ℝ)) (d : Derivatives), s.pts[i]? = some p → s.rows[i]? = some r →
        level E p = .ok d →
        ∃ x : Point × Option (List ℝ), x = (es.filter (fun e => decide (e.index = i))).foldl (touch E t d) (p, r) ∧
          s'.pts[i]? = some x.1 ∧ s'.rows[i]? = some x.2 ∧ level E x.1 = .ok d
  | [], s, hl, _, _ => ⟨s, rfl, rfl, hl, fun i p r d hp hr hd => ⟨(p, r), rfl, hp, hr, hd⟩⟩
  | e :: es, s, hl, hi, hv => by
    have hk : e.index < s.pts.length := hi e (List.mem_cons_self ..)
    obtain ⟨pk, hpk⟩ : ∃ pk, s.pts[e.index]? = some pk := ⟨_, List.getElem?_eq_getElem hk⟩
    obtain ⟨dk, hdk⟩ := hv pk (List.mem_of_getElem? hpk)
    obtain ⟨s1, h1, hl1, hr1, hv1, hstep⟩ : ∃ s1, step E t s e = .ok s1 ∧ s1.pts.length = s.pts.length ∧
        s1.rows.length = s.rows.length ∧ (∀ p ∈ s1.pts, ∃ d, level E p = .ok d) ∧
        ∀ (i : Nat) (p : Point) (r : Option (List ℝ)) (d : Derivatives), s.pts[i]? = some p → s.rows[i]? = some r →
          level E p = .ok d →
          (e.index = i → s1.pts[i]? = some (touch E t d (p, r) e).1 ∧ s1.rows[i]? = some (touch E t d (p, r) e).2) ∧
          (e.index ≠ i → s1.pts[i]? = some p ∧ s1.rows[i]? = some r) := by
      cases e with
      | orient k =>
        change k < _ at hk
        change s.pts[k]? = _ at hpk
        refine ⟨{ s with pts := s.pts.set k (oriented E dk pk) }, ?_, by simp, rfl, ?_, ?_⟩
        · unfold step
          simp only [hpk]
          rw [hdk]
          rfl
        · intro p hp
          rcases List.mem_or_eq_of_mem_set hp with hp | rfl
          · exact hv p hp
          · exact ⟨dk, by rw [level_oriented]; exact hdk⟩
        · intro i p r d hp hr hd
          constructor
          · intro e
            change k = i at e
            subst e
            rw [hpk] at hp
            injection hp with hp
            rw [← hp] at hd ⊢
            rw [hdk] at hd
            injection hd with hd
            rw [← hd]
            exact ⟨by simp [List.getElem?_set_self hk, touch], hr⟩
          · intro e
            change k ≠ i at e
            exact ⟨by rw [List.getElem?_set_ne e]; exact hp, hr⟩
      | describe k =>
        change k < _ at hk
        change s.pts[k]? = _ at hpk
        refine ⟨{ s with rows := s.rows.set k (Descriptor.descriptor (which t) E.wd E.ht dk pk.kp) }, ?_, rfl,
          by simp, hv, ?_⟩
        · unfold step
          simp only [hpk]
          rw [hdk]
          rfl
        · intro i p r d hp hr hd
          constructor
          · intro e
            change k = i at e
            subst e
            rw [hpk] at hp
            injection hp with hp
            rw [← hp] at hd ⊢
            rw [hdk] at hd
            injection hd with hd
            rw [← hd]
            exact ⟨hpk, by simp [List.getElem?_set_self (hl ▸ hk), touch]⟩
          · intro e
            change k ≠ i at e
            exact ⟨hp, by rw [List.getElem?_set_ne e]; exact hr⟩
    obtain ⟨s', h2, g1, g2, g3⟩ := run_spec E t es s1 (by rw [hl1, hr1, hl])
      (fun e' he' => by rw [hl1]; exact hi e' (List.mem_cons_of_mem _ he')) hv1
    refine ⟨s', by unfold run; rw [h1]; exact h2, by rw [g1, hl1], by rw [g2, hl1], ?_⟩
    intro i p r d hp hr hd
    obtain ⟨ha, hb⟩ := hstep i p r d hp hr hd
    by_cases hei : e.index = i
    · obtain ⟨k1, k2⟩ := ha hei
      have hd1 : level E (touch E t d (p, r) e).1 = .ok d := by
        cases e with
        | orient k => exact hd
        | describe k => exact hd
      obtain ⟨x, hx, q⟩ := g3 i _ _ d k1 k2 hd1
      refine ⟨x, ?_, q⟩
      rw [hx, List.filter_cons_of_pos (by simpa using hei), List.foldl_cons]
    · obtain ⟨k1, k2⟩ := hb hei
      obtain ⟨x, hx, q⟩ := g3 i _ _ d k1 k2 hd
      refine ⟨x, ?_, q⟩
      rw [hx, List.filter_cons_of_neg (by simpa using hei)]

/-- The keypoint after the call: with its main orientation, unless the descriptor is upright. -/
noncomputable def after (E : Env) (t : DType) (d : Derivatives) (p : Point) : Point :=
  if (which t).upright then p
  else ⟨{ p.kp with angle := Orientation.orientation E.atan2 E.wd E.ht d.Lx d.Ly p.kp }, p.level⟩

/-- **C128 (every schedule).** Whatever threads run the loop, and in whatever order: afterwards there are as many
keypoints and rows as keypoints before; each keypoint has its main orientation in its level (unless the descriptor is
upright) and is otherwise as before; its row is the descriptor of the type at that keypoint, with that orientation, in
its level. -/
theorem compute_spec (E : Env) (t : DType) (pts : List Point) (hv : Levels E pts) {es : List Event}
    (hs : Schedule t pts.length es) :
    ∃ s, computeDescriptors E t pts es = .ok s ∧ s.pts.length = pts.length ∧ s.rows.length = pts.length ∧
      ∀ (i : Nat) p, pts[i]? = some p → ∃ d, E.evolution[p.level.toNat]? = some d ∧ s.pts[i]? = some (after E t d p) ∧
        s.rows[i]? = some (Descriptor.descriptor (which t) E.wd E.ht d (after E t d p).kp) := by
  have hlev : ∀ p ∈ pts, ∃ d, level E p = .ok d := by
    intro p hp
    obtain ⟨n, h1, h2⟩ := hv p hp
    exact ⟨E.evolution[n], (level_ok_iff E p _).2 ⟨n, h1, List.getElem?_eq_getElem h2⟩⟩
  have hidx : ∀ e ∈ es, e.index < pts.length := by
    intro e he
    have := hs.1.mem_iff.1 he
    unfold program at this
    obtain ⟨i, hi, hb⟩ := List.mem_flatMap.1 this
    rw [body_index hb]
    exact List.mem_range.1 hi
  obtain ⟨s', h1, h2, h3, h4⟩ := run_spec E t es (initial t pts) (by simp [initial]) hidx hlev
  refine ⟨s', h1, h2, h3, ?_⟩
  intro i p hp
  obtain ⟨d, hd⟩ := hlev p (List.mem_of_getElem? hp)
  have hi : i < pts.length := (List.getElem?_eq_some_iff.1 hp).1
  obtain ⟨x, hx, g1, g2, _⟩ := h4 i p (some (List.replicate (columns t) 0)) d hp
    (by simp [initial, hi]) hd
  rw [schedule_filter hs hi] at hx
  obtain ⟨n, hn, hg⟩ := (level_ok_iff E p d).1 hd
  refine ⟨d, by rw [hn, Int.toNat_natCast, hg], ?_⟩
  have key : x = (after E t d p, Descriptor.descriptor (which t) E.wd E.ht d (after E t d p).kp) := by
    rw [hx]
    unfold body after
    cases t <;> rfl
  rw [key] at g1 g2
  exact ⟨g1, g2⟩

/-- **C128 (order does not matter).** All schedules give the same keypoints and the same matrix as the loop. -/
theorem schedule_irrelevant (E : Env) (t : DType) (pts : List Point) (hv : Levels E pts) {es : List Event}
    (hs : Schedule t pts.length es) :
    computeDescriptors E t pts es = computeDescriptors E t pts (program t pts.length) := by
  obtain ⟨s, h1, h2, h3, h4⟩ := compute_spec E t pts hv hs
  obtain ⟨s', g1, g2, g3, g4⟩ := compute_spec E t pts hv (program_schedule t pts.length)
  rw [h1, g1]
  have e1 : s.pts = s'.pts := by
    apply List.ext_getElem?
    intro i
    by_cases hi : i < pts.length
    · obtain ⟨d, a1, a2, _⟩ := h4 i _ (List.getElem?_eq_getElem hi)
      obtain ⟨d', b1, b2, _⟩ := g4 i _ (List.getElem?_eq_getElem hi)
      rw [a1] at b1
      injection b1 with b1
      rw [a2, b2, b1]
    · rw [List.getElem?_eq_none (by omega), List.getElem?_eq_none (by omega)]
  have e2 : s.rows = s'.rows := by
    apply List.ext_getElem?
    intro i
    by_cases hi : i < pts.length
    · obtain ⟨d, a1, _, a2⟩ := h4 i _ (List.getElem?_eq_getElem hi)
      obtain ⟨d', b1, _, b2⟩ := g4 i _ (List.getElem?_eq_getElem hi)
      rw [a1] at b1
      injection b1 with b1
      rw [a2, b2, b1]
    · rw [List.getElem?_eq_none (by omega), List.getElem?_eq_none (by omega)]
  cases s
  cases s'
  simp only at e1 e2
  rw [e1, e2]

/-- **C128 (rows of others).** The row of a keypoint does not depend on the other keypoints: two calls whose keypoints
agree at some place agree in the row there. -/
theorem row_local (E : Env) (t : DType) {pts qts : List Point} (hv : Levels E pts) (hw : Levels E qts) {i j : Nat}
    {p : Point} (hp : pts[i]? = some p) (hq : qts[j]? = some p) :
    ∃ s s', computeDescriptors E t pts (program t pts.length) = .ok s ∧
      computeDescriptors E t qts (program t qts.length) = .ok s' ∧ s.rows[i]? = s'.rows[j]? ∧
      s.pts[i]? = s'.pts[j]? := by
  obtain ⟨s, h1, _, _, h4⟩ := compute_spec E t pts hv (program_schedule t pts.length)
  obtain ⟨s', g1, _, _, g4⟩ := compute_spec E t qts hw (program_schedule t qts.length)
  obtain ⟨d, a1, a2, a3⟩ := h4 i p hp
  obtain ⟨d', b1, b2, b3⟩ := g4 j p hq
  rw [a1] at b1
  injection b1 with b1
  subst b1
  exact ⟨s, s', h1, g1, by rw [a3, b3], by rw [a2, b2]⟩

/-! ## Upright descriptors, and computing twice -/

/-- **C128 (upright).** Upright descriptors do not depend on the angle of the keypoint. -/
theorem upright_angle (t : DType) (hu : (which t).upright = true) (wd ht : Int) (d : Derivatives) (kp : Kpt) (a : ℝ) :
    Descriptor.descriptor (which t) wd ht d { kp with angle := a } = Descriptor.descriptor (which t) wd ht d kp := by
  have hpos : ∀ k l, Descriptor.position (which t) { kp with angle := a } k l = Descriptor.position (which t) kp k l := by
    intro k l
    unfold Descriptor.position
    rw [if_pos hu, if_pos hu]
    rfl
  have hval : ∀ i j k l, Descriptor.values (which t) wd ht d { kp with angle := a } i j k l =
      Descriptor.values (which t) wd ht d kp i j k l := by
    intro i j k l
    unfold Descriptor.values
    simp only [hpos, hu, if_true]
    rfl
  have hcell : ∀ p q, Descriptor.cell (which t) wd ht d { kp with angle := a } p q =
      Descriptor.cell (which t) wd ht d kp p q := by
    intro p q
    unfold Descriptor.cell
    simp only [hval]
  unfold Descriptor.descriptor Descriptor.raw Descriptor.lengthSq
  simp only [hcell]

theorem slide_angle (atan2 : ℝ → ℝ → ℝ) (l : List ((ℝ × ℝ) × ℝ)) : ∀ (ws : List ℝ) (m : ℝ),
    ∃ o : Option ℝ, ∀ a, (Orientation.slide atan2 l ws (m, a)).2 = o.getD a
  | [], m => ⟨none, fun _ => rfl⟩
  | w :: ws, m => by
    unfold Orientation.slide
    simp only
    split
    · obtain ⟨o, ho⟩ := slide_angle atan2 l ws
        ((Orientation.windowSum w l).1 * (Orientation.windowSum w l).1 +
          (Orientation.windowSum w l).2 * (Orientation.windowSum w l).2)
      exact ⟨some (o.getD (atan2 (Orientation.windowSum w l).2 (Orientation.windowSum w l).1)), fun a => ho _⟩
    · exact slide_angle atan2 l ws m

/-- Computing the orientation of a keypoint again does not change it. -/
theorem orientation_twice (E : Env) (d : Derivatives) (kp : Kpt) :
    Orientation.orientation E.atan2 E.wd E.ht d.Lx d.Ly
        { kp with angle := Orientation.orientation E.atan2 E.wd E.ht d.Lx d.Ly kp } =
      Orientation.orientation E.atan2 E.wd E.ht d.Lx d.Ly kp := by
  have hs : ∀ a, Orientation.samples E.atan2 E.wd E.ht d.Lx d.Ly { kp with angle := a } =
      Orientation.samples E.atan2 E.wd E.ht d.Lx d.Ly kp := fun a => rfl
  obtain ⟨o, ho⟩ := slide_angle E.atan2 (Orientation.samples E.atan2 E.wd E.ht d.Lx d.Ly kp) (Orientation.begins 100 0) 0
  unfold Orientation.orientation
  simp only [hs, ho]
  cases o <;> rfl

theorem after_twice (E : Env) (t : DType) (d : Derivatives) (p : Point) :
    after E t d (after E t d p) = after E t d p := by
  unfold after
  split
  · rfl
  · simp only [orientation_twice]

theorem after_level (E : Env) (t : DType) (d : Derivatives) (p : Point) : (after E t d p).level = p.level := by
  unfold after
  split <;> rfl

/-- **C128 (computing twice).** Computing the descriptors of the keypoints that a first call has oriented changes
neither keypoints nor descriptors. -/
theorem compute_twice (E : Env) (t : DType) (pts : List Point) (hv : Levels E pts) {es fs : List Event}
    (hs : Schedule t pts.length es) (hf : Schedule t pts.length fs) :
    ∃ s, computeDescriptors E t pts es = .ok s ∧ computeDescriptors E t s.pts fs = .ok s := by
  obtain ⟨s, h1, h2, h3, h4⟩ := compute_spec E t pts hv hs
  refine ⟨s, h1, ?_⟩
  have hv' : Levels E s.pts := by
    intro q hq
    obtain ⟨i, hi, rfl⟩ := List.getElem_of_mem hq
    have hi' : i < pts.length := by omega
    obtain ⟨d, _, a2, _⟩ := h4 i _ (List.getElem?_eq_getElem hi')
    rw [List.getElem?_eq_getElem hi] at a2
    injection a2 with a2
    rw [a2, after_level]
    exact hv _ (List.getElem_mem hi')
  obtain ⟨s', g1, g2, g3, g4⟩ := compute_spec E t s.pts hv' (by rw [h2]; exact hf)
  rw [g1]
  have key : ∀ i < pts.length, s'.pts[i]? = s.pts[i]? ∧ s'.rows[i]? = s.rows[i]? := by
    intro i hi
    obtain ⟨d, a1, a2, a3⟩ := h4 i _ (List.getElem?_eq_getElem hi)
    obtain ⟨d', b1, b2, b3⟩ := g4 i _ a2
    rw [after_level, a1] at b1
    injection b1 with b1
    subst b1
    rw [after_twice] at b2 b3
    exact ⟨by rw [a2, b2], by rw [a3, b3]⟩
  have e1 : s'.pts = s.pts := by
    apply List.ext_getElem?
    intro i
    by_cases hi : i < pts.length
    · exact (key i hi).1
    · rw [List.getElem?_eq_none (by omega), List.getElem?_eq_none (by omega)]
  have e2 : s'.rows = s.rows := by
    apply List.ext_getElem?
    intro i
    by_cases hi : i < pts.length
    · exact (key i hi).2
    · rw [List.getElem?_eq_none (by omega), List.getElem?_eq_none (by omega)]
  cases s
  cases s'
  simp only at e1 e2
  rw [e1, e2]

/-! ## Levels are not checked -/

/-- **C128 refuted (levels are checked).** A keypoint that was not found in this scale space, for example one made by
`cv::KeyPoint` with its default `class_id` of -1, leads to undefined behaviour. -/
theorem level_refuted (E : Env) (t : DType) (p : Point) (h : p.level = -1 ∨ (E.evolution.length : Int) ≤ p.level) :
    computeDescriptors E t [p] (program t 1) = .ub := by
  have hl : level E p = .ub := by
    rcases level_cases E p with ⟨d, hd⟩ | h'
    · obtain ⟨n, hn, hg⟩ := (level_ok_iff E p d).1 hd
      have := (List.getElem?_eq_some_iff.1 hg).1
      omega
    · exact h'
  unfold computeDescriptors initial
  cases t <;> simp [program, body, rotates, run, step, hl]

/-- Non-vacuity: three keypoints, and an order in which two threads may run the loop. -/
example : Schedule .msurf 3 [.orient 2, .orient 0, .describe 0, .orient 1, .describe 2, .describe 1] := by
  refine ⟨by decide, ?_⟩
  intro i hi
  have : i = 0 ∨ i = 1 ∨ i = 2 := by omega
  rcases this with rfl | rfl | rfl <;> decide

example : Levels ⟨[⟨fun _ _ => 1, fun _ _ => 0, fun _ _ => 0, fun _ _ => 0, fun _ _ => 0⟩], 100, 100, fun _ _ => 0⟩
    [⟨⟨50, 50, 4, 0⟩, 0⟩, ⟨⟨20, 50, 4, 0⟩, 0⟩] := by
  intro p hp
  simp only [List.mem_cons, List.not_mem_nil, or_false] at hp
  rcases hp with rfl | rfl <;> exact ⟨0, rfl, by decide⟩

end Verif.Kaze.Compute
