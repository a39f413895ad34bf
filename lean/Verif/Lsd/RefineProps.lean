import Mathlib.Algebra.Order.Ring.Pow
import Mathlib.Data.List.Perm.Basic
import Mathlib.Data.List.Nodup
import Verif.Lsd.RectProps
import Verif.Lsd.Refine

/-!
# Properties of refining a region (C102)
-/

open scoped Classical

namespace Verif.Lsd

/-! ### Specification -/

/-- The region `reg` that starts with `s` owns its pixels: they are different pixels of the image with
directions, nobody else had them (`used0`), and exactly they are marked in addition. -/
structure Owns (m : Img) (used0 : Px → Bool) (s : Px) (reg : List Px) (used : Px → Bool) : Prop where
  head : reg.head? = some s
  nodup : reg.Nodup
  free : ∀ p ∈ reg, m.In p ∧ used0 p = false ∧ m.ang p.1 p.2 ≠ none
  marks : ∀ p, used p = true ↔ used0 p = true ∨ p ∈ reg

/-- Every pixel with a direction has a gradient of at least one. -/
def Steep (m : Img) : Prop := ∀ x y, m.ang x y ≠ none → 1 ≤ m.mod x y

/-- There are at least `th` pixels per area of the rectangle. -/
def Dense (n : Nat) (rec : Rect) (th : ℝ) : Prop :=
  th * (√((rec.x2 - rec.x1) ^ 2 + (rec.y2 - rec.y1) ^ 2) * rec.width) ≤ n

theorem IsRegion.owns {m : Img} {used : Px → Bool} {s : Px} {prec : ℝ} {l : List Px}
    {used' : Px → Bool} {angle : ℝ} (h : IsRegion m used s prec l used' angle) :
    Owns m used s l used' := ⟨h.head, h.nodup, h.free, h.marks⟩

/-- The test of the density is that of the specification. -/
theorem dense_iff {n : Nat} {rec : Rect} {th : ℝ} (hw : 1 ≤ rec.width) :
    dense n rec th ↔ Dense n rec th := by
  have hd : dist rec.x1 rec.y1 rec.x2 rec.y2 =
      √((rec.x2 - rec.x1) ^ 2 + (rec.y2 - rec.y1) ^ 2) := by
    unfold dist distSq
    congr 1
    ring
  unfold dense Dense
  rw [hd]
  have hnn : 0 ≤ √((rec.x2 - rec.x1) ^ 2 + (rec.y2 - rec.y1) ^ 2) * rec.width :=
    mul_nonneg (Real.sqrt_nonneg _) (by linarith)
  generalize √((rec.x2 - rec.x1) ^ 2 + (rec.y2 - rec.y1) ^ 2) * rec.width = A at *
  rcases hnn.eq_or_lt with h0 | h0
  · rw [← h0]
    simp
  · rw [le_div_iff₀ h0]
    constructor
    · rintro (h | h)
      · exact absurd h h0.ne'
      · exact h
    · exact Or.inr

/-! ### The tolerance -/

/-- C102: the new tolerance is twice the standard deviation of the differences. -/
theorem tolerance_eq {ds : List ℝ} (hne : ds ≠ []) :
    tolerance ds = 2 * √((ds.map fun d => (d - ds.sum / ds.length) ^ 2).sum / ds.length) := by
  have hn : (ds.length : ℝ) ≠ 0 := by
    have : ds.length ≠ 0 := fun h => hne (List.length_eq_zero_iff.1 h)
    exact_mod_cast this
  have hexp : ∀ (c : ℝ) (l : List ℝ), (l.map fun d => (d - c) ^ 2).sum =
      (l.map fun d => d * d).sum - 2 * c * l.sum + l.length * (c * c) := by
    intro c l
    induction l with
    | nil => simp
    | cons a t ih =>
      simp only [List.map_cons, List.sum_cons, ih, List.length_cons]
      push_cast
      ring
  unfold tolerance
  simp only
  congr 2
  rw [hexp]
  field_simp

/-- C102: the first point is always among the points the tolerance is estimated from. -/
theorem nearDiffs_ne_nil {m : Img} {s : Px} {width : ℝ} {reg : List Px} (hs : s ∈ reg)
    (hw : 1 ≤ width) : nearDiffs m s width reg ≠ [] := by
  unfold nearDiffs
  intro h
  rw [List.map_eq_nil_iff] at h
  have : s ∈ reg.filter fun q => decide (dist s.1 s.2 q.1 q.2 < width) := by
    rw [List.mem_filter]
    refine ⟨hs, ?_⟩
    have : dist (s.1 : ℝ) s.2 s.1 s.2 = 0 := by simp [dist, distSq]
    rw [decide_eq_true_eq, this]
    linarith
  rw [h] at this
  cases this

/-- C102: each of the differences is, up to whole turns, the difference between the direction of a pixel of
the region nearer than the width and the direction of the first pixel, and at most half a turn. -/
theorem nearDiffs_mem {m : Img} {s : Px} {width b : ℝ} {reg : List Px} (hb : m.ang s.1 s.2 = some b)
    (hreg : ∀ q ∈ reg, m.ang q.1 q.2 ≠ none) (d : ℝ) :
    d ∈ nearDiffs m s width reg ↔ ∃ q ∈ reg, ∃ a, m.ang q.1 q.2 = some a ∧
      √(((q.1 : ℝ) - s.1) ^ 2 + ((q.2 : ℝ) - s.2) ^ 2) < width ∧
      (-Real.pi < d ∧ d ≤ Real.pi) ∧ ∃ k : ℤ, d = a - b + 2 * Real.pi * k := by
  have hdist : ∀ q : Px, dist (s.1 : ℝ) s.2 q.1 q.2 =
      √(((q.1 : ℝ) - s.1) ^ 2 + ((q.2 : ℝ) - s.2) ^ 2) := by
    intro q
    simp only [dist, distSq, sq]
  unfold nearDiffs
  rw [List.mem_map]
  constructor
  · rintro ⟨q, hq, hd⟩
    rw [List.mem_filter, decide_eq_true_eq, hdist] at hq
    obtain ⟨a, ha⟩ := Option.ne_none_iff_exists'.1 (hreg q hq.1)
    rw [ha, hb, Option.getD_some, Option.getD_some] at hd
    refine ⟨q, hq.1, a, ha, hq.2, ?_, ?_⟩
    · rw [← hd]; exact angleDiffSigned_range a b
    · rw [← hd]; exact angleDiffSigned_turns a b
  · rintro ⟨q, hq, a, ha, hlt, hr, k, hk⟩
    refine ⟨q, ?_, ?_⟩
    · rw [List.mem_filter, decide_eq_true_eq, hdist]; exact ⟨hq, hlt⟩
    · rw [ha, hb, Option.getD_some, Option.getD_some]
      obtain ⟨k', hk'⟩ := angleDiffSigned_turns a b
      obtain ⟨r1, r2⟩ := angleDiffSigned_range a b
      have hp := Real.pi_pos
      have hkk : k' = k := by
        have e : angleDiffSigned a b - d = 2 * Real.pi * ((k' - k : ℤ) : ℝ) := by
          rw [hk', hk]; push_cast; ring
        have h1 : ((k' - k : ℤ) : ℝ) < 1 := by
          by_contra h
          push Not at h
          nlinarith [hr.1, hr.2]
        have h2 : (-1 : ℝ) < ((k' - k : ℤ) : ℝ) := by
          by_contra h
          push Not at h
          nlinarith [hr.1, hr.2]
        have h1' : k' - k < 1 := by exact_mod_cast h1
        have h2' : -1 < k' - k := by exact_mod_cast h2
        omega
      rw [hk', hk, hkk]

/-! ### Taking points out -/

theorem set_dropLast_perm {α : Type*} (reg : List α) (i : Nat) (q last : α) (hi : reg[i]? = some q)
    (hl : reg.getLast? = some last) : (q :: (reg.set i last).dropLast).Perm reg := by
  obtain ⟨hlt, hq⟩ := List.getElem?_eq_some_iff.1 hi
  have hsplit : reg = reg.take i ++ q :: reg.drop (i + 1) := by
    rw [← hq, List.getElem_cons_drop, List.take_append_drop]
  generalize ha : reg.take i = a at hsplit
  generalize hb : reg.drop (i + 1) = b at hsplit
  have hal : a.length = i := by rw [← ha, List.length_take]; omega
  subst hsplit
  have hset : (a ++ q :: b).set i last = a ++ last :: b := by
    rw [List.set_append_right _ _ (by omega), hal]
    simp
  rw [hset]
  rcases List.eq_nil_or_concat b with rfl | ⟨c, z, rfl⟩
  · rw [List.dropLast_concat]
    exact (List.perm_append_singleton q a).symm
  · simp only [List.concat_eq_append] at *
    have hz : z = last := by
      have : a ++ q :: (c ++ [z]) = (a ++ q :: c) ++ [z] := by simp
      rw [this, List.getLast?_concat] at hl
      exact Option.some.inj hl
    subst hz
    have e1 : a ++ z :: (c ++ [z]) = (a ++ z :: c) ++ [z] := by simp
    rw [e1, List.dropLast_concat]
    have e2 : a ++ q :: (c ++ [z]) = (a ++ [q]) ++ (c ++ [z]) := by simp
    rw [e2]
    have p1 : (c ++ [z]).Perm (z :: c) := List.perm_append_singleton z c
    have p2 : (a ++ [q]).Perm (q :: a) := List.perm_append_singleton q a
    exact ((p2.append p1).symm)

/-- C102: taking the far points out keeps exactly the near ones, the first one among them. -/
theorem removeFar_spec (s : Px) {radSq : ℝ} (hr : 0 ≤ radSq) (fuel : Nat) :
    ∀ (i : Nat) (used : Px → Bool) (reg : List Px), reg.Nodup → reg.head? = some s →
    reg.length ≤ fuel + i →
    (∀ (j : Nat) q, j < i → reg[j]? = some q → ¬ radSq < distSq s.1 s.2 q.1 q.2) →
    ((removeFar s radSq fuel i (used, reg)).2.Perm
        (reg.filter fun q => decide (¬ radSq < distSq s.1 s.2 q.1 q.2))) ∧
      (removeFar s radSq fuel i (used, reg)).2.head? = some s ∧
      ∀ p, (removeFar s radSq fuel i (used, reg)).1 p =
        if p ∈ reg ∧ radSq < distSq s.1 s.2 p.1 p.2 then false else used p := by
  induction fuel with
  | zero =>
    intro i used reg hnd hh hlen hnear
    have hall : ∀ q ∈ reg, ¬ radSq < distSq s.1 s.2 q.1 q.2 := by
      intro q hq
      obtain ⟨j, hj, rfl⟩ := List.mem_iff_getElem.1 hq
      exact hnear j _ (by omega) (List.getElem?_eq_getElem hj)
    simp only [removeFar]
    refine ⟨?_, hh, ?_⟩
    · rw [List.filter_eq_self.2 (fun q hq => decide_eq_true (hall q hq))]
    · intro p
      rw [if_neg (fun hc => hall p hc.1 hc.2)]
  | succ fuel ih =>
    intro i used reg hnd hh hlen hnear
    rw [removeFar]
    cases hi : reg[i]? with
    | none =>
      have hall : ∀ q ∈ reg, ¬ radSq < distSq s.1 s.2 q.1 q.2 := by
        intro q hq
        obtain ⟨j, hj, rfl⟩ := List.mem_iff_getElem.1 hq
        rw [List.getElem?_eq_none_iff] at hi
        exact hnear j _ (by omega) (List.getElem?_eq_getElem hj)
      simp only
      refine ⟨?_, hh, ?_⟩
      · rw [List.filter_eq_self.2 (fun q hq => decide_eq_true (hall q hq))]
      · intro p
        rw [if_neg (fun hc => hall p hc.1 hc.2)]
    | some q =>
      obtain ⟨hlt, hqe⟩ := List.getElem?_eq_some_iff.1 hi
      obtain ⟨last, hlast⟩ : ∃ last, reg.getLast? = some last := by
        exact ⟨_, List.getLast?_eq_some_getLast (List.ne_nil_of_length_pos (by omega))⟩
      simp only [hlast]
      split_ifs with hfar
      · have hperm := set_dropLast_perm reg i q last hi hlast
        have hi0 : i ≠ 0 := by
          rintro rfl
          rw [List.head?_eq_getElem?, hi] at hh
          cases hh
          simp [distSq] at hfar
          linarith
        have hnd' : (q :: (reg.set i last).dropLast).Nodup := hperm.nodup_iff.2 hnd
        have hlen' : (reg.set i last).dropLast.length = reg.length - 1 := by simp
        have hh' : (reg.set i last).dropLast.head? = some s := by
          rw [List.head?_eq_getElem?, List.getElem?_dropLast, List.length_set,
            if_pos (by omega), List.getElem?_set_ne hi0, ← List.head?_eq_getElem?]
          exact hh
        have hnear' : ∀ (j : Nat) r, j < i → (reg.set i last).dropLast[j]? = some r →
            ¬ radSq < distSq s.1 s.2 r.1 r.2 := by
          intro j r hj hr'
          rw [List.getElem?_dropLast, List.length_set, if_pos (by omega),
            List.getElem?_set_ne (by omega)] at hr'
          exact hnear j r hj hr'
        obtain ⟨c1, c2, c3⟩ := ih i (fun p => if p = q then false else used p) _
          (List.nodup_cons.1 hnd').2 hh' (by omega) hnear'
        refine ⟨?_, c2, ?_⟩
        · refine c1.trans ?_
          have := hperm.filter (fun r => decide (¬ radSq < distSq s.1 s.2 r.1 r.2))
          rwa [List.filter_cons_of_neg (by simpa using hfar)] at this
        · intro p
          rw [c3]
          have hmem : p ∈ reg ↔ p = q ∨ p ∈ (reg.set i last).dropLast := by
            rw [← hperm.mem_iff, List.mem_cons]
          by_cases hpq : p = q
          · subst hpq
            rw [if_pos (⟨hmem.2 (Or.inl rfl), hfar⟩ : p ∈ reg ∧ _)]
            simp
          · simp only [hmem, hpq, false_or, if_false]
      · apply ih (i + 1) used reg hnd hh (by omega)
        intro j r hj hr'
        rcases Nat.lt_or_ge j i with h | h
        · exact hnear j r h hr'
        · obtain rfl : j = i := by omega
          rw [hi] at hr'
          cases hr'
          exact hfar

/-- Taking the far points out leaves a region that owns its pixels. -/
theorem removeFar_owns {m : Img} {used0 used : Px → Bool} {s : Px} {reg : List Px}
    (h : Owns m used0 s reg used) {radSq : ℝ} (hr : 0 ≤ radSq) :
    Owns m used0 s (removeFar s radSq reg.length 0 (used, reg)).2
        (removeFar s radSq reg.length 0 (used, reg)).1 ∧
      (∀ p, p ∈ (removeFar s radSq reg.length 0 (used, reg)).2 ↔
        p ∈ reg ∧ distSq s.1 s.2 p.1 p.2 ≤ radSq) := by
  obtain ⟨c1, c2, c3⟩ := removeFar_spec s hr reg.length 0 used reg h.nodup h.head (by omega)
    (fun j q hj => absurd hj (by omega))
  have hmem : ∀ p, p ∈ (removeFar s radSq reg.length 0 (used, reg)).2 ↔
        p ∈ reg ∧ distSq s.1 s.2 p.1 p.2 ≤ radSq := by
    intro p
    rw [c1.mem_iff, List.mem_filter, decide_eq_true_eq, not_lt]
  refine ⟨⟨c2, c1.nodup_iff.2 (h.nodup.filter _), ?_, ?_⟩, hmem⟩
  · intro p hp
    exact h.free p ((hmem p).1 hp).1
  · intro p
    rw [c3, hmem]
    by_cases hc : p ∈ reg ∧ radSq < distSq s.1 s.2 p.1 p.2
    · rw [if_pos hc]
      have := (h.free p hc.1).2.1
      constructor
      · intro h'; cases h'
      · rintro (h' | h')
        · rw [this] at h'; cases h'
        · linarith [h'.2, hc.2]
    · rw [if_neg hc, h.marks p]
      constructor
      · rintro (h' | h')
        · exact Or.inl h'
        · exact Or.inr ⟨h', not_lt.1 (fun hlt => hc ⟨h', hlt⟩)⟩
      · rintro (h' | h')
        · exact Or.inl h'
        · exact Or.inr h'.1

theorem distSq_ge_one {s q : Px} (h : q ≠ s) : (1 : ℝ) ≤ distSq s.1 s.2 q.1 q.2 := by
  have key : ∀ a b : ℕ, a ≠ b → (1 : ℝ) ≤ ((a : ℝ) - b) * ((a : ℝ) - b) := by
    intro a b hab
    rcases Nat.lt_or_gt_of_ne hab with h | h
    · have : (a : ℝ) + 1 ≤ b := by exact_mod_cast h
      nlinarith
    · have : (b : ℝ) + 1 ≤ a := by exact_mod_cast h
      nlinarith
  unfold distSq
  by_cases h1 : q.1 = s.1
  · have h2 : q.2 ≠ s.2 := fun h2 => h (Prod.ext h1 h2)
    nlinarith [key _ _ h2, mul_self_nonneg ((q.1 : ℝ) - s.1)]
  · nlinarith [key _ _ h1, mul_self_nonneg ((q.2 : ℝ) - s.2)]

theorem owns_rect {m : Img} {used0 used : Px → Bool} {s : Px} {reg : List Px}
    (h : Owns m used0 s reg used) (hm : Steep m) (h2 : 2 ≤ reg.length) (a prec p : ℝ) :
    ∃ r, region2rect m reg a prec p = .ok r := by
  match reg, h2 with
  | q :: q' :: t, _ =>
    refine region2rect_ok (q := q) (q' := q') ?_ (by simp) (by simp) ?_ a prec p
    · intro r hr
      exact hm _ _ (h.free r hr).2.2
    · intro he
      have := h.nodup
      rw [he] at this
      simp at this

/-- What is wanted of the result. -/
def GoodRefined (m : Img) (used0 : Px → Bool) (s : Px) (prec p th : ℝ) (R : Refined) : Prop :=
  Owns m used0 s R.reg R.used ∧
    (R.result = true → Dense R.reg.length R.rect th ∧
      ∃ a, region2rect m R.reg a prec p = .ok R.rect) ∧
    (R.result = false → R.reg = [s])

theorem owns_single {m : Img} {used0 used : Px → Bool} {s : Px} {reg : List Px}
    (h : Owns m used0 s reg used) (h2 : reg.length < 2) : reg = [s] := by
  match reg, h2, h.head with
  | [q], _, hh => cases hh; rfl
  | [], _, hh => cases hh

theorem reduceLoop_spec {m : Img} {used0 : Px → Bool} {s : Px} {a prec p th : ℝ} (hm : Steep m)
    (fuel : Nat) : ∀ (radSq : ℝ) (used : Px → Bool) (reg : List Px) (rec : Rect), 0 ≤ radSq →
    radSq * (9 / 16) ^ fuel < 1 → Owns m used0 s reg used →
    region2rect m reg a prec p = .ok rec →
    ∃ R, reduceLoop m s a prec p th (fuel + 1) radSq used reg rec = .ok R ∧
      GoodRefined m used0 s prec p th R := by
  induction fuel with
  | zero =>
    intro radSq used reg rec hr hlt ho hrec
    have hw := (rect_width hrec).1
    rw [reduceLoop]
    split_ifs with hd
    · exact ⟨_, rfl, ho, fun _ => ⟨(dense_iff hw).1 hd, a, hrec⟩, fun h => by cases h⟩
    · have hr' : 0 ≤ radSq * (3 / 4 * (3 / 4)) := by positivity
      obtain ⟨h1, h2⟩ := removeFar_owns ho hr'
      simp only
      have hlt2 : (removeFar s (radSq * (3 / 4 * (3 / 4))) reg.length 0 (used, reg)).2.length < 2 := by
        rw [pow_zero, mul_one] at hlt
        by_contra hc
        have hnd := h1.nodup
        generalize (removeFar s (radSq * (3 / 4 * (3 / 4))) reg.length 0 (used, reg)).2 = l at *
        have hall : ∀ q ∈ l, q = s := by
          intro q hq
          by_contra hne
          have := distSq_ge_one hne
          have := ((h2 q).1 hq).2
          nlinarith
        match l, hc with
        | q :: q' :: t, _ =>
          have e1 := hall q (by simp)
          have e2 := hall q' (by simp)
          rw [e1, e2] at hnd
          simp at hnd
        | [q], hc => simp at hc
        | [], hc => simp at hc
      rw [if_pos hlt2]
      exact ⟨_, rfl, h1, (fun h => by cases h), fun _ => owns_single h1 hlt2⟩
  | succ fuel ih =>
    intro radSq used reg rec hr hlt ho hrec
    have hw := (rect_width hrec).1
    rw [reduceLoop]
    split_ifs with hd
    · exact ⟨_, rfl, ho, fun _ => ⟨(dense_iff hw).1 hd, a, hrec⟩, fun h => by cases h⟩
    · have hr' : 0 ≤ radSq * (3 / 4 * (3 / 4)) := by positivity
      obtain ⟨h1, h2⟩ := removeFar_owns ho hr'
      simp only
      split_ifs with hl
      · exact ⟨_, rfl, h1, (fun h => by cases h), fun _ => owns_single h1 hl⟩
      · obtain ⟨rec', hrec'⟩ := owns_rect h1 hm (by omega) a prec p
        rw [hrec', Outcome.bind_ok]
        refine ih _ _ _ _ hr' ?_ h1 hrec'
        calc radSq * (3 / 4 * (3 / 4)) * (9 / 16) ^ fuel = radSq * (9 / 16) ^ (fuel + 1) := by
              rw [pow_succ]; ring
          _ < 1 := hlt

theorem radius_small {R : ℝ} (hR : 0 ≤ R) : R * (9 / 16) ^ (2 * ⌈R⌉₊ + 1) < 1 := by
  have hb := one_add_mul_le_pow (a := (7 / 9 : ℝ)) (by norm_num) (2 * ⌈R⌉₊ + 1)
  have hc : R ≤ (⌈R⌉₊ : ℝ) := Nat.le_ceil R
  have h1 : R < (16 / 9 : ℝ) ^ (2 * ⌈R⌉₊ + 1) := by
    have : (1 + 7 / 9 : ℝ) = 16 / 9 := by norm_num
    rw [this] at hb
    push_cast at hb
    nlinarith
  have h2 : (9 / 16 : ℝ) ^ (2 * ⌈R⌉₊ + 1) = ((16 / 9 : ℝ) ^ (2 * ⌈R⌉₊ + 1))⁻¹ := by
    rw [← inv_pow]; norm_num
  rw [h2, ← div_eq_mul_inv, div_lt_one (by positivity)]
  exact h1

/-- C102: reducing the radius ends, and its result is as wanted. -/
theorem reduce_spec {m : Img} {used0 used : Px → Bool} {s : Px} {reg : List Px}
    {a prec p th : ℝ} {rec : Rect} (hm : Steep m) (ho : Owns m used0 s reg used)
    (hrec : region2rect m reg a prec p = .ok rec) :
    ∃ R, reduce m s a prec p th used reg rec = .ok R ∧ GoodRefined m used0 s prec p th R := by
  unfold reduce
  simp only
  set radSq := if distSq s.1 s.2 rec.x2 rec.y2 < distSq s.1 s.2 rec.x1 rec.y1 then
    distSq s.1 s.2 rec.x1 rec.y1 else distSq s.1 s.2 rec.x2 rec.y2
  have hnn : 0 ≤ radSq := by
    have : ∀ x y z w : ℝ, 0 ≤ distSq x y z w := fun x y z w => by
      unfold distSq
      nlinarith [mul_self_nonneg (z - x), mul_self_nonneg (w - y)]
    rcases ite_eq_or_eq (distSq s.1 s.2 rec.x2 rec.y2 < distSq s.1 s.2 rec.x1 rec.y1)
      (distSq s.1 s.2 rec.x1 rec.y1) (distSq s.1 s.2 rec.x2 rec.y2) with h | h
    · exact (this _ _ _ _).trans_eq h.symm
    · exact (this _ _ _ _).trans_eq h.symm
  exact reduceLoop_spec hm (2 * ⌈radSq⌉₊ + 1) radSq used reg rec hnn (radius_small hnn) ho hrec

/-- C102: refining a region never fails and always ends. Afterwards the region still owns its pixels:
nothing that belonged to others is touched, and the pixels that were given up are free again. If it
returns true the rectangle is that of the region, and the region has the asked density in it;
otherwise only the first pixel is left. -/
theorem refine_spec {m : Img} {used0 used : Px → Bool} {s : Px} {reg : List Px}
    {prec p th : ℝ} {rec : Rect} (hm : Steep m) (ho : Owns m used0 s reg used)
    (hrec : ∃ a, region2rect m reg a prec p = .ok rec) :
    ∃ R, refine m prec p th used reg rec = .ok R ∧ GoodRefined m used0 s prec p th R := by
  obtain ⟨a, hrec⟩ := hrec
  have hw := (rect_width hrec).1
  unfold refine
  split_ifs with hd
  · exact ⟨_, rfl, ho, fun _ => ⟨(dense_iff hw).1 hd, a, hrec⟩, fun h => by cases h⟩
  · cases hreg : reg with
    | nil =>
      have := ho.head
      rw [hreg] at this
      cases this
    | cons s' t =>
      have hs' : s' = s := by
        have := ho.head
        rw [hreg] at this
        cases this
        rfl
      subst hs'
      simp only
      rw [← hreg]
      have hsin : s' ∈ reg := by rw [hreg]; simp
      obtain ⟨f1, f2, f3⟩ := ho.free s' hsin
      -- the marks without the region are the old ones
      have hused : (fun q => if q ∈ reg then false else used q) = used0 := by
        funext q
        by_cases hq : q ∈ reg
        · rw [if_pos hq, (ho.free q hq).2.1]
        · rw [if_neg hq]
          have := ho.marks q
          cases h1 : used q <;> cases h2 : used0 q <;> simp_all
      have hfun : (fun q => if q ∈ reg then false else used q : Px → Bool) = used0 := hused
      rw [hfun]
      obtain ⟨g, hg, hgr⟩ := regionGrow_spec (m := m) (used := used0) (s := s')
        (tolerance (nearDiffs m s' rec.width reg)) f1 f2 f3
      rw [hg, Outcome.bind_ok]
      have hog := hgr.owns
      split_ifs with hl
      · exact ⟨_, rfl, hog, (fun h => by cases h), fun _ => owns_single hog hl⟩
      · obtain ⟨rec', hrec'⟩ := owns_rect hog hm (by omega) g.angle prec p
        rw [hrec', Outcome.bind_ok]
        split_ifs with hd'
        · exact ⟨_, rfl, hog,
            fun _ => ⟨(dense_iff (rect_width hrec').1).1 hd', g.angle, hrec'⟩, fun h => by cases h⟩
        · exact reduce_spec hm hog hrec'

/-- The theorem applies to the four pixels of `bump`, grown from a free image. -/
example : ∃ R rec, region2rect bump bumpReg 0 (Real.pi / 8) (1 / 8) = .ok rec ∧
    refine bump (Real.pi / 8) (1 / 8) (7 / 10) (fun q => decide (q ∈ bumpReg)) bumpReg rec = .ok R ∧
    GoodRefined bump (fun _ => false) (0, 0) (Real.pi / 8) (1 / 8) (7 / 10) R := by
  obtain ⟨rec, hrec, -⟩ := bump_rect
  obtain ⟨R, h1, h2⟩ := refine_spec (m := bump) (used0 := fun _ => false)
    (used := fun q => decide (q ∈ bumpReg)) (s := (0, 0)) (reg := bumpReg) (th := 7 / 10)
    (fun _ _ _ => by simp [bump])
    ⟨rfl, by decide, by
      intro p hp
      refine ⟨?_, rfl, by simp [bump]⟩
      simp only [bumpReg, List.mem_cons, List.not_mem_nil, or_false] at hp
      rcases hp with rfl | rfl | rfl | rfl <;> exact ⟨by decide, by decide⟩, by
      intro p; simp⟩ ⟨0, hrec⟩
  exact ⟨R, rec, hrec, h1, h2⟩

end Verif.Lsd
