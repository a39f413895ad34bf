import Mathlib.Analysis.SpecialFunctions.Complex.Arg
import Mathlib.Analysis.SpecialFunctions.Trigonometric.Arctan
import Mathlib.Data.Finset.Prod
import Mathlib.Data.Finset.Card
import Mathlib.Logic.Relation
import Mathlib.Tactic.Linarith
import Mathlib.Tactic.NormNum
import Mathlib.Tactic.Ring
import Mathlib.Tactic.FieldSimp
import Verif.Lsd.AngleProps
import Verif.Lsd.Grow

/-!
# Properties of growing a region (C100)
-/

open scoped Classical

namespace Verif.Lsd

/-! ### Specification -/

/-- The pixel is in the image. -/
def Img.In (m : Img) (p : Px) : Prop := p.1 < m.w ∧ p.2 < m.h

/-- The two pixels are the same or touch each other, corners included. -/
def Adj (p q : Px) : Prop := p.1 ≤ q.1 + 1 ∧ q.1 ≤ p.1 + 1 ∧ p.2 ≤ q.2 + 1 ∧ q.2 ≤ p.2 + 1

/-- The angle of a pixel, if it has one. -/
noncomputable def Img.at (m : Img) (p : Px) : ℝ := (m.ang p.1 p.2).getD (-1024)

/-- The mean direction of a list of pixels: the direction of the sum of the unit vectors, and the
angle itself if there is only one pixel. -/
noncomputable def Img.mean (m : Img) (l : List Px) : ℝ :=
  match l with
  | [p] => m.at p
  | l => m.atan2 ((l.map fun p => Real.sin (m.at p)).sum) ((l.map fun p => Real.cos (m.at p)).sum)

/-- What is wanted of the region grown from `s`, given the pixels that were used before: `l` is the
region and `used'` the pixels used afterwards. -/
structure IsRegion (m : Img) (used : Px → Bool) (s : Px) (prec : ℝ) (l : List Px)
    (used' : Px → Bool) (angle : ℝ) : Prop where
  /-- it starts with `s` -/
  head : l.head? = some s
  /-- no pixel is listed twice -/
  nodup : l.Nodup
  /-- its pixels are in the image, were free and have a direction -/
  free : ∀ p ∈ l, m.In p ∧ used p = false ∧ m.ang p.1 p.2 ≠ none
  /-- its pixels and no others are marked -/
  marks : ∀ p, used' p = true ↔ used p = true ∨ p ∈ l
  /-- each pixel touches an earlier one and is aligned with the mean of the earlier ones -/
  grown : ∀ k q, 0 < k → l[k]? = some q →
    isAligned (m.ang q.1 q.2) (m.mean (l.take k)) prec ∧ ∃ j p, j < k ∧ l[j]? = some p ∧ Adj p q
  /-- the angle is the mean direction -/
  angle : angle = m.mean l

/-- Every pixel of the image that touches the region is used or was, at some time, not aligned with
the region. -/
def IsComplete (m : Img) (prec : ℝ) (l : List Px) (used' : Px → Bool) : Prop :=
  ∀ p ∈ l, ∀ q, m.In q → Adj p q → used' q = true ∨
    ∃ k, 0 < k ∧ k ≤ l.length ∧ ¬ isAligned (m.ang q.1 q.2) (m.mean (l.take k)) prec

/-! ### Lemmas -/

theorem mem_window {x n : Nat} (hx : x < n) (v : Nat) :
    v ∈ window x n ↔ v < n ∧ x ≤ v + 1 ∧ v ≤ x + 1 := by
  unfold window
  rw [List.mem_range'_1]
  rcases Nat.le_total (x + 1) (n - 1) with h | h
  · rw [show Nat.min (x + 1) (n - 1) = x + 1 from Nat.min_eq_left h]; omega
  · rw [show Nat.min (x + 1) (n - 1) = n - 1 from Nat.min_eq_right h]; omega

theorem mem_neighbours {m : Img} {p : Px} (hp : m.In p) (q : Px) :
    q ∈ neighbours m p ↔ m.In q ∧ Adj p q := by
  obtain ⟨qx, qy⟩ := q
  unfold neighbours
  simp only [List.mem_flatMap, List.mem_map, Prod.mk.injEq]
  constructor
  · rintro ⟨y, hy, x, hx, rfl, rfl⟩
    rw [mem_window hp.2] at hy
    rw [mem_window hp.1] at hx
    exact ⟨⟨hx.1, hy.1⟩, hx.2.1, hx.2.2, hy.2.1, hy.2.2⟩
  · rintro ⟨⟨h1, h2⟩, a1, a2, a3, a4⟩
    exact ⟨qy, (mem_window hp.2 _).2 ⟨h2, a3, a4⟩, qx, (mem_window hp.1 _).2 ⟨h1, a1, a2⟩, rfl, rfl⟩

theorem length_le_of_nodup {m : Img} {l : List Px} (hn : l.Nodup) (hi : ∀ p ∈ l, m.In p) :
    l.length ≤ m.w * m.h := by
  have h : l.toFinset ⊆ Finset.range m.w ×ˢ Finset.range m.h := by
    intro p hp
    rw [List.mem_toFinset] at hp
    rw [Finset.mem_product, Finset.mem_range, Finset.mem_range]
    exact hi p hp
  have := Finset.card_le_card h
  rwa [List.toFinset_card_of_nodup hn, Finset.card_product, Finset.card_range,
    Finset.card_range] at this

theorem mean_append {m : Img} {l : List Px} (hl : l ≠ []) (q : Px) :
    m.mean (l ++ [q]) = m.atan2 ((l.map fun p => Real.sin (m.at p)).sum + Real.sin (m.at q))
      ((l.map fun p => Real.cos (m.at p)).sum + Real.cos (m.at q)) := by
  have : ∀ l' : List Px, 2 ≤ l'.length → m.mean l' =
      m.atan2 ((l'.map fun p => Real.sin (m.at p)).sum)
        ((l'.map fun p => Real.cos (m.at p)).sum) := by
    intro l' hl'
    match l', hl' with
    | a :: b :: t, _ => rfl
  rw [this _ (by
    cases l with
    | nil => exact absurd rfl hl
    | cons a t => simp)]
  simp

/-- The state of `region_grow` between two visits. -/
structure GrowInv (m : Img) (used : Px → Bool) (s : Px) (prec : ℝ) (g : Growing) : Prop where
  region : IsRegion m used s prec g.reg g.used g.angle
  sx : g.sx = (g.reg.map fun p => Real.cos (m.at p)).sum
  sy : g.sy = (g.reg.map fun p => Real.sin (m.at p)).sum

theorem growStart_inv {m : Img} {used : Px → Bool} {s : Px} (prec : ℝ) (hs : m.In s)
    (hu : used s = false) (ha : m.ang s.1 s.2 ≠ none) :
    GrowInv m used s prec (growStart m used s) where
  region :=
    { head := rfl
      nodup := by simp [growStart]
      free := by
        intro p hp
        simp only [growStart, List.mem_singleton] at hp
        subst hp
        exact ⟨hs, hu, ha⟩
      marks := by
        intro p
        simp only [growStart, List.mem_singleton]
        split_ifs with h
        · simp [h]
        · simp [h]
      grown := by
        intro k q hk hq
        simp only [growStart] at hq
        rw [List.getElem?_eq_none (by simp; omega)] at hq
        cases hq
      angle := rfl }
  sx := by simp [growStart, Img.at]
  sy := by simp [growStart, Img.at]

theorem growVisit_inv {m : Img} {used : Px → Bool} {s : Px} {prec : ℝ} {g : Growing}
    (hg : GrowInv m used s prec g) {i : Nat} {p : Px} (hp : g.reg[i]? = some p) {q : Px}
    (hq : m.In q) (hadj : Adj p q) :
    ∃ g', growVisit m prec g q = .ok g' ∧ GrowInv m used s prec g' ∧ g.reg <+: g'.reg ∧
      (∀ r, g.used r = true → g'.used r = true) ∧
      (g'.used q = true ∨ ¬ isAligned (m.ang q.1 q.2) (m.mean g.reg) prec) := by
  have hne : g.reg ≠ [] := by
    intro h
    have := hg.region.head
    rw [h] at this
    cases this
  unfold growVisit
  by_cases hc : g.used q = false ∧ isAligned (m.ang q.1 q.2) g.angle prec
  · rw [if_pos hc]
    have hnot : q ∉ g.reg := by
      intro h
      have := (hg.region.marks q).2 (Or.inr h)
      rw [hc.1] at this
      cases this
    have hfree : used q = false := by
      cases h : used q with
      | false => rfl
      | true =>
        have := (hg.region.marks q).2 (Or.inl h)
        rw [hc.1] at this
        cases this
    have hdef : m.ang q.1 q.2 ≠ none := by
      intro h
      rw [h] at hc
      exact hc.2
    have hnd : (g.reg ++ [q]).Nodup := by
      rw [List.nodup_append]
      refine ⟨hg.region.nodup, by simp, ?_⟩
      intro a ha b hb hab
      simp only [List.mem_singleton] at hb
      subst hb
      subst hab
      exact hnot ha
    have hfreeAll : ∀ r ∈ g.reg ++ [q], m.In r ∧ used r = false ∧ m.ang r.1 r.2 ≠ none := by
      intro r hr
      rw [List.mem_append, List.mem_singleton] at hr
      rcases hr with hr | rfl
      · exact hg.region.free r hr
      · exact ⟨hq, hfree, hdef⟩
    have hlen := length_le_of_nodup hnd (fun r hr => (hfreeAll r hr).1)
    rw [List.length_append, List.length_singleton] at hlen
    rw [if_pos (by omega)]
    refine ⟨_, rfl, ?_, List.prefix_append _ _, ?_, Or.inl (by simp)⟩
    · refine ⟨⟨?_, hnd, hfreeAll, ?_, ?_, ?_⟩, ?_, ?_⟩
      · rw [List.head?_append_of_ne_nil _ hne]
        exact hg.region.head
      · intro r
        simp only [List.mem_append, List.mem_singleton]
        split_ifs with h
        · simp [h]
        · rw [hg.region.marks r]
          simp [h]
      · intro k r hk hr
        rcases Nat.lt_or_ge k g.reg.length with hlt | hge
        · rw [List.getElem?_append_left hlt] at hr
          rw [List.take_append_of_le_length hlt.le]
          obtain ⟨h1, j, p', hj, hp', ha⟩ := hg.region.grown k r hk hr
          refine ⟨h1, j, p', hj, ?_, ha⟩
          rw [List.getElem?_append_left (by omega)]
          exact hp'
        · obtain ⟨hk', hr'⟩ := List.getElem?_eq_some_iff.1 hr
          rw [List.length_append, List.length_singleton] at hk'
          obtain rfl : k = g.reg.length := by omega
          simp only [List.getElem_concat_length] at hr'
          subst hr'
          rw [List.take_append_of_le_length le_rfl, List.take_length, ← hg.region.angle]
          obtain ⟨hi, -⟩ := List.getElem?_eq_some_iff.1 hp
          refine ⟨hc.2, i, p, hi, ?_, hadj⟩
          rw [List.getElem?_append_left hi]
          exact hp
      · show _ = m.mean (g.reg ++ [q])
        rw [mean_append hne, ← hg.sx, ← hg.sy]
        rfl
      · simp [hg.sx, Img.at]
      · simp [hg.sy, Img.at]
    · intro r hr
      show (if r = q then true else g.used r) = true
      split_ifs
      · rfl
      · exact hr
  · rw [if_neg hc]
    refine ⟨g, rfl, hg, List.prefix_refl _, fun _ h => h, ?_⟩
    cases h : g.used q with
    | true => exact Or.inl rfl
    | false =>
      refine Or.inr ?_
      rw [← hg.region.angle]
      exact fun ha => hc ⟨h, ha⟩

/-- The pixel is used or was once not aligned. -/
def Seen (m : Img) (prec : ℝ) (g : Growing) (q : Px) : Prop :=
  g.used q = true ∨
    ∃ k, 0 < k ∧ k ≤ g.reg.length ∧ ¬ isAligned (m.ang q.1 q.2) (m.mean (g.reg.take k)) prec

theorem Seen.mono {m : Img} {prec : ℝ} {g g' : Growing} {q : Px} (h : Seen m prec g q)
    (hpre : g.reg <+: g'.reg) (hu : ∀ r, g.used r = true → g'.used r = true) :
    Seen m prec g' q := by
  rcases h with h | ⟨k, h1, h2, h3⟩
  · exact Or.inl (hu _ h)
  · refine Or.inr ⟨k, h1, le_trans h2 hpre.length_le, ?_⟩
    obtain ⟨t, ht⟩ := hpre
    rw [← ht, List.take_append_of_le_length h2]
    exact h3

theorem growVisits_inv {m : Img} {used : Px → Bool} {s : Px} {prec : ℝ} {i : Nat} {p : Px}
    (qs : List Px) : ∀ {g : Growing}, GrowInv m used s prec g → g.reg[i]? = some p →
    (∀ q ∈ qs, m.In q ∧ Adj p q) →
    ∃ g', growVisits m prec g qs = .ok g' ∧ GrowInv m used s prec g' ∧ g.reg <+: g'.reg ∧
      (∀ r, g.used r = true → g'.used r = true) ∧ ∀ q ∈ qs, Seen m prec g' q := by
  induction qs with
  | nil => intro g hg _ _; exact ⟨g, rfl, hg, List.prefix_refl _, fun _ h => h, by simp⟩
  | cons q qs ih =>
    intro g hg hp hqs
    obtain ⟨hq, hadj⟩ := hqs q (List.mem_cons_self ..)
    obtain ⟨g1, e1, h1, pre1, u1, c1⟩ := growVisit_inv hg hp hq hadj
    have hp1 : g1.reg[i]? = some p := by
      obtain ⟨t, ht⟩ := pre1
      obtain ⟨hi, -⟩ := List.getElem?_eq_some_iff.1 hp
      rw [← ht, List.getElem?_append_left hi]
      exact hp
    obtain ⟨g2, e2, h2, pre2, u2, c2⟩ := ih h1 hp1 (fun r hr => hqs r (List.mem_cons_of_mem _ hr))
    refine ⟨g2, ?_, h2, pre1.trans pre2, fun r hr => u2 r (u1 r hr), ?_⟩
    · simp only [growVisits, e1, Outcome.bind_ok, e2]
    · intro r hr
      rcases List.mem_cons.1 hr with rfl | hr
      · rcases c1 with c1 | c1
        · exact Or.inl (u2 _ c1)
        · have hlen : 0 < g.reg.length := by
            obtain ⟨hi, -⟩ := List.getElem?_eq_some_iff.1 hp
            omega
          have : Seen m prec g r := Or.inr ⟨g.reg.length, hlen, le_rfl, by rwa [List.take_length]⟩
          exact (this.mono pre1 u1).mono pre2 u2
      · exact c2 r hr

theorem growLoop_inv {m : Img} {used : Px → Bool} {s : Px} {prec : ℝ} (fuel : Nat) :
    ∀ {i : Nat} {g : Growing}, GrowInv m used s prec g → i ≤ g.reg.length →
    m.w * m.h + 1 ≤ fuel + i →
    (∀ j p, j < i → g.reg[j]? = some p → ∀ q, m.In q → Adj p q → Seen m prec g q) →
    ∃ g', growLoop m prec fuel i g = .ok g' ∧ GrowInv m used s prec g' ∧
      ∀ p ∈ g'.reg, ∀ q, m.In q → Adj p q → Seen m prec g' q := by
  induction fuel with
  | zero =>
    intro i g hg hi hf
    have := length_le_of_nodup hg.region.nodup (fun r hr => (hg.region.free r hr).1)
    omega
  | succ fuel ih =>
    intro i g hg hi hf hdone
    simp only [growLoop]
    cases hp : g.reg[i]? with
    | none =>
      refine ⟨g, rfl, hg, ?_⟩
      intro p hp' q hq ha
      obtain ⟨j, hj, rfl⟩ := List.mem_iff_getElem.1 hp'
      rw [List.getElem?_eq_none_iff] at hp
      exact hdone j _ (by omega) (List.getElem?_eq_getElem hj) q hq ha
    | some p =>
      obtain ⟨hi', hpe⟩ := List.getElem?_eq_some_iff.1 hp
      have hpin : m.In p := (hg.region.free p (hpe ▸ List.getElem_mem hi')).1
      obtain ⟨g1, e1, h1, pre1, u1, c1⟩ := growVisits_inv (neighbours m p) hg hp
        (fun q hq => (mem_neighbours hpin q).1 hq)
      simp only [e1, Outcome.bind_ok]
      refine ih h1 (le_trans hi' pre1.length_le) (by omega) ?_
      intro j r hj hr q hq ha
      rcases Nat.lt_or_ge j i with hlt | hge
      · have hr' : g.reg[j]? = some r := by
          obtain ⟨t, ht⟩ := pre1
          rw [← ht, List.getElem?_append_left (by omega)] at hr
          exact hr
        exact (hdone j r hlt hr' q hq ha).mono pre1 u1
      · obtain rfl : j = i := by omega
        have hr' : r = p := by
          obtain ⟨t, ht⟩ := pre1
          rw [← ht, List.getElem?_append_left hi', hp] at hr
          exact (Option.some.inj hr).symm
        subst hr'
        exact c1 q ((mem_neighbours hpin q).2 ⟨hq, ha⟩)

/-- C100: growing ends, with its invariant, and has looked at all neighbours of the region. -/
theorem regionGrow_all {m : Img} {used : Px → Bool} {s : Px} (prec : ℝ) (hs : m.In s)
    (hu : used s = false) (ha : m.ang s.1 s.2 ≠ none) :
    ∃ g, regionGrow m used s prec = .ok g ∧ GrowInv m used s prec g ∧
      ∀ p ∈ g.reg, ∀ q, m.In q → Adj p q → Seen m prec g q :=
  growLoop_inv (m.w * m.h + 1) (growStart_inv prec hs hu ha) (by simp) (by simp)
    (fun j p hj => absurd hj (by omega))

/-! ### C100 -/

/-- C100: growing a region from a free pixel with a direction ends without writing behind the vector
of points, and its result is a region: free pixels of the image with directions, each listed once,
each touching an earlier one and aligned with the mean of the earlier ones; exactly these are marked
as used. -/
theorem regionGrow_spec {m : Img} {used : Px → Bool} {s : Px} (prec : ℝ) (hs : m.In s)
    (hu : used s = false) (ha : m.ang s.1 s.2 ≠ none) :
    ∃ g, regionGrow m used s prec = .ok g ∧
      IsRegion m used s prec g.reg g.used g.angle := by
  obtain ⟨g, h1, h2, -⟩ := regionGrow_all prec hs hu ha
  exact ⟨g, h1, h2.region⟩

/-- C100: no pixel is forgotten: those around the region that are left are used, or were not aligned
when they were looked at. -/
theorem regionGrow_complete {m : Img} {used : Px → Bool} {s : Px} {prec : ℝ} {g : Growing}
    (hs : m.In s) (hu : used s = false) (ha : m.ang s.1 s.2 ≠ none)
    (h : regionGrow m used s prec = .ok g) : IsComplete m prec g.reg g.used := by
  obtain ⟨g', h1, -, h2⟩ := regionGrow_all (prec := prec) hs hu ha
  rw [h] at h1
  cases h1
  exact h2

/-- C100: the region is connected: from each of its pixels one gets to the first one over pixels of
the region that touch. -/
theorem IsRegion.connected {m : Img} {used : Px → Bool} {s : Px} {prec : ℝ} {l : List Px}
    {used' : Px → Bool} {angle : ℝ} (h : IsRegion m used s prec l used' angle) :
    ∀ q ∈ l, Relation.ReflTransGen (fun a b => a ∈ l ∧ b ∈ l ∧ Adj a b) s q := by
  have key : ∀ (k : Nat) (q : Px), l[k]? = some q →
      Relation.ReflTransGen (fun a b => a ∈ l ∧ b ∈ l ∧ Adj a b) s q := by
    intro k
    induction k using Nat.strong_induction_on with
    | _ k ih =>
      intro q hq
      rcases Nat.eq_zero_or_pos k with rfl | hk
      · have := h.head
        rw [List.head?_eq_getElem?] at this
        rw [this] at hq
        cases hq
        exact Relation.ReflTransGen.refl
      · obtain ⟨-, j, p, hj, hp, hadj⟩ := h.grown k q hk hq
        exact (ih j hj p hp).tail ⟨List.mem_of_getElem? hp, List.mem_of_getElem? hq, hadj⟩
  intro q hq
  obtain ⟨k, hk, rfl⟩ := List.mem_iff_getElem.1 hq
  exact key k _ (List.getElem?_eq_getElem hk)

/-- C100: the region has at most as many pixels as the image. -/
theorem IsRegion.size {m : Img} {used : Px → Bool} {s : Px} {prec : ℝ} {l : List Px}
    {used' : Px → Bool} {angle : ℝ} (h : IsRegion m used s prec l used' angle) :
    0 < l.length ∧ l.length ≤ m.w * m.h := by
  refine ⟨?_, length_le_of_nodup h.nodup (fun p hp => (h.free p hp).1)⟩
  cases hl : l with
  | nil => have := h.head; rw [hl] at this; cases this
  | cons a t => simp

/-! ### The mean moves -/

/-- The angle of a vector, from 0 to 2π. -/
noncomputable def exactAngle (y x : ℝ) : ℝ :=
  if 0 ≤ Complex.arg ⟨x, y⟩ then Complex.arg ⟨x, y⟩ else Complex.arg ⟨x, y⟩ + 2 * Real.pi

theorem exactAngle_pos {y x : ℝ} (hx : 0 < x) (hy : 0 ≤ y) :
    exactAngle y x = Real.arctan (y / x) := by
  have h1 : 0 ≤ Complex.arg (⟨x, y⟩ : ℂ) := Complex.arg_nonneg_iff.2 hy
  have h2 : |Complex.arg (⟨x, y⟩ : ℂ)| < Real.pi / 2 :=
    Complex.abs_arg_lt_pi_div_two_iff.2 (Or.inl hx)
  obtain ⟨h3, h4⟩ := abs_lt.1 h2
  rw [exactAngle, if_pos h1, ← Real.arctan_tan h3 h4, Complex.tan_arg]

/-- An image of one row: directions of 0, 60, 90 and 90 degrees. -/
noncomputable def bend : Img where
  w := 4
  h := 1
  ang := fun x _ =>
    if x = 0 then some 0 else if x = 1 then some (Real.pi / 3) else some (Real.pi / 2)
  mod := fun _ _ => 1
  atan2 := exactAngle

theorem bend_means :
    exactAngle (√3 / 2) (3 / 2) = Real.pi / 6 ∧
      (Real.pi / 6 ≤ exactAngle (√3 / 2 + 1) (3 / 2) ∧ exactAngle (√3 / 2 + 1) (3 / 2) ≤ Real.pi / 2) ∧
      Real.pi / 3 < exactAngle (√3 / 2 + 1 + 1) (3 / 2) ∧
      exactAngle (√3 / 2 + 1 + 1) (3 / 2) < Real.pi / 2 := by
  have h3 : (0 : ℝ) < √3 := Real.sqrt_pos.2 (by norm_num)
  have hs : √3 * √3 = 3 := Real.mul_self_sqrt (by norm_num)
  have h6 : Real.arctan (1 / √3) = Real.pi / 6 := by
    rw [← Real.tan_pi_div_six, Real.arctan_tan] <;> linarith [Real.pi_pos]
  have hlt : √3 < 2 := by
    by_contra hc
    push Not at hc
    nlinarith
  refine ⟨?_, ⟨?_, ?_⟩, ?_, ?_⟩
  · rw [exactAngle_pos (by norm_num) (by positivity), ← h6]
    congr 1
    field_simp
    nlinarith
  · rw [exactAngle_pos (by norm_num) (by positivity), ← h6]
    apply Real.arctan_mono
    rw [div_le_div_iff₀ h3 (by norm_num)]
    nlinarith
  · rw [exactAngle_pos (by norm_num) (by positivity)]
    exact (Real.arctan_lt_pi_div_two _).le
  · rw [exactAngle_pos (by norm_num) (by positivity)]
    have : Real.arctan (√3) = Real.pi / 3 := by
      rw [← Real.tan_pi_div_three, Real.arctan_tan] <;> linarith [Real.pi_pos]
    rw [← this]
    apply Real.arctan_strictMono
    rw [lt_div_iff₀ (by norm_num)]
    linarith
  · rw [exactAngle_pos (by norm_num) (by positivity)]
    exact Real.arctan_lt_pi_div_two _

/-- The region that grows in the example of the bend: all four pixels. -/
theorem bend_grow : ∃ g, regionGrow bend (fun _ => false) (0, 0) (Real.pi / 3) = .ok g ∧
    g.reg = [(0, 0), (1, 0), (2, 0), (3, 0)] ∧
    g.angle = exactAngle (√3 / 2 + 1 + 1) (3 / 2) := by
  have hp := Real.pi_pos
  obtain ⟨m1, ⟨m2, m3⟩, -, -⟩ := bend_means
  have a0 : bend.ang 0 0 = some 0 := by simp [bend]
  have a1 : bend.ang 1 0 = some (Real.pi / 3) := by simp [bend]
  have a2 : bend.ang 2 0 = some (Real.pi / 2) := by simp [bend]
  have a3 : bend.ang 3 0 = some (Real.pi / 2) := by simp [bend]
  have hat : bend.atan2 = exactAngle := rfl
  have t1 : isAligned (some (Real.pi / 3)) 0 (Real.pi / 3) := by
    rw [isAligned_some]
    have : |0 - Real.pi / 3| = Real.pi / 3 := by rw [zero_sub, abs_neg, abs_of_pos (by linarith)]
    rw [this, if_neg (by linarith)]
  have t2 : isAligned (some (Real.pi / 2)) (Real.pi / 6) (Real.pi / 3) := by
    rw [isAligned_some]
    have : |Real.pi / 6 - Real.pi / 2| = Real.pi / 3 := by
      rw [abs_of_nonpos (by linarith)]; ring
    rw [this, if_neg (by linarith)]
  have t3 : isAligned (some (Real.pi / 2)) (exactAngle (√3 / 2 + 1) (3 / 2)) (Real.pi / 3) := by
    rw [isAligned_some]
    have : |exactAngle (√3 / 2 + 1) (3 / 2) - Real.pi / 2| ≤ Real.pi / 3 := by
      rw [abs_le]; constructor <;> linarith
    rw [if_neg (by linarith)]
    exact this
  have n0 : neighbours bend (0, 0) = [(0, 0), (1, 0)] := by decide
  have n1 : neighbours bend (1, 0) = [(0, 0), (1, 0), (2, 0)] := by decide
  have n2 : neighbours bend (2, 0) = [(1, 0), (2, 0), (3, 0)] := by decide
  have n3 : neighbours bend (3, 0) = [(2, 0), (3, 0)] := by decide
  have hw : bend.w * bend.h = 4 := rfl
  have c1 : (0 : ℝ) + √3 / 2 = √3 / 2 := by ring
  have c2 : (1 : ℝ) + 2⁻¹ = 3 / 2 := by norm_num
  have c3 : (3 / 2 : ℝ) + 0 = 3 / 2 := by norm_num
  refine ⟨?_, ?_, ?_, ?_⟩
  rotate_left 1
  · simp only [regionGrow, hw, growStart, a0, Option.getD_some, Real.cos_zero, Real.sin_zero]
    simp [growLoop, growVisits, growVisit, n0, n1, n2, n3, a1, a2, a3, hw, hat, t1,
      Real.cos_pi_div_three, Real.sin_pi_div_three, Real.cos_pi_div_two, Real.sin_pi_div_two, c1, c2,
      c3, m1, t2, t3]
    rfl
  · rfl
  · rfl

/-- C100 refuted: the documentation promises that the angles of the region are aligned with its mean
up to the precision. They are aligned with the mean of the earlier pixels, which moves on: from
directions of 0, 60, 90 and 90 degrees, with a precision of 60 degrees, all are taken, and the
direction of the region differs from that of its first pixel by more. -/
theorem region_mean_refuted :
    ∃ m : Img, ∃ s : Px, ∃ prec : ℝ, ∃ g, m.atan2 = exactAngle ∧ m.In s ∧ prec < Real.pi / 2 ∧
      regionGrow m (fun _ => false) s prec = .ok g ∧
      s ∈ g.reg ∧ ¬ isAligned (m.ang s.1 s.2) g.angle prec := by
  have hp := Real.pi_pos
  obtain ⟨g, h1, h2, h3⟩ := bend_grow
  obtain ⟨-, -, m4, m5⟩ := bend_means
  refine ⟨bend, (0, 0), Real.pi / 3, g, rfl, by constructor <;> decide, by linarith, h1, ?_, ?_⟩
  · rw [h2]; simp
  · have a0 : bend.ang 0 0 = some 0 := by simp [bend]
    show ¬ isAligned (bend.ang 0 0) g.angle (Real.pi / 3)
    rw [a0, isAligned_some, sub_zero, h3, abs_of_pos (by linarith), if_neg (by linarith)]
    linarith

/-- A region that satisfies the hypotheses of `regionGrow_spec`, with four pixels. -/
example : ∃ g, regionGrow bend (fun _ => false) (0, 0) (Real.pi / 3) = .ok g ∧
    IsRegion bend (fun _ => false) (0, 0) (Real.pi / 3) g.reg g.used g.angle ∧ g.reg.length = 4 := by
  obtain ⟨g, h1, h2, -⟩ := bend_grow
  obtain ⟨g', h3, h4⟩ := regionGrow_spec (m := bend) (used := fun _ => false) (s := (0, 0))
    (Real.pi / 3) (by constructor <;> decide) rfl (by simp [bend])
  rw [h1] at h3
  cases h3
  exact ⟨g, h1, h4, by rw [h2]; rfl⟩

end Verif.Lsd
