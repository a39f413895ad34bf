import Mathlib.Data.List.Sort
import Mathlib.Data.List.Nodup
import Verif.Lsd.Nfa
import Verif.Lsd.GrowProps

/-!
# Properties of counting in a rectangle and of improving it (C106)
-/

open scoped Classical

namespace Verif.Lsd

/-! ### Specification -/

/-- The pixel is within the rectangle. -/
def Rect.Inside (r : Rect) (q : Px) : Prop :=
  0 ≤ (q.1 - r.x1) * Real.cos r.theta + (q.2 - r.y1) * Real.sin r.theta ∧
    (q.1 - r.x1) * Real.cos r.theta + (q.2 - r.y1) * Real.sin r.theta ≤
      (r.x2 - r.x1) * Real.cos r.theta + (r.y2 - r.y1) * Real.sin r.theta ∧
    |(q.2 - r.y1) * Real.cos r.theta - (q.1 - r.x1) * Real.sin r.theta| ≤ r.width / 2

/-- `r'` is a narrower version of `r`: the segment is moved sideways by `c`, without leaving the
rectangle `r`, and the tolerance is halved some number of times. -/
def Narrower (r r' : Rect) : Prop :=
  r'.theta = r.theta ∧ r'.x = r.x ∧ r'.y = r.y ∧
    (∃ c : ℝ, r'.x1 = r.x1 - c * Real.sin r.theta ∧ r'.y1 = r.y1 + c * Real.cos r.theta ∧
      r'.x2 = r.x2 - c * Real.sin r.theta ∧ r'.y2 = r.y2 + c * Real.cos r.theta ∧
      |c| ≤ (r.width - r'.width) / 2) ∧
    (r'.width = r.width ∨ 1 / 2 ≤ r'.width) ∧
    ∃ k : Nat, k ≤ 10 ∧ r'.p = r.p / 2 ^ k ∧ (r'.prec = r.prec ∧ k = 0 ∨ r'.prec = r'.p * Real.pi)

/-! ### Counting -/

theorem mem_scanRow {w : Nat} {left right y : Int} {q : Px} (hy : 0 ≤ y) :
    q ∈ scanRow w left right y ↔
      (q.2 : Int) = y ∧ q.1 < w ∧ left ≤ q.1 ∧ (q.1 : Int) ≤ right := by
  unfold scanRow
  simp only [List.mem_filterMap, List.mem_map, List.mem_range]
  constructor
  · rintro ⟨x, ⟨k, hk, rfl⟩, hx⟩
    split_ifs at hx with h
    cases hx
    simp only
    omega
  · rintro ⟨h1, h2, h3, h4⟩
    refine ⟨q.1, ⟨(q.1 - left).toNat, by omega, by omega⟩, ?_⟩
    rw [if_neg (by omega)]
    have : q = ((q.1 : Int).toNat, y.toNat) := Prod.ext (by simp) (by simp only; omega)
    rw [← this]

theorem scanRow_nodup (w : Nat) (left right y : Int) : (scanRow w left right y).Nodup := by
  unfold scanRow
  apply List.Nodup.filterMap
  · intro a b q hq hq'
    rw [Option.mem_def] at hq hq'
    split_ifs at hq hq' with h1 h2
    cases hq
    have := congrArg Prod.fst (Option.some.inj hq')
    simp only at this
    omega
  · exact List.nodup_range.map (fun a b h => by simpa using h)

theorem scanRows_spec {w h : Nat} {ly ry sl sr : Int} (fuel : Nat) : ∀ (y : Int) (s : Scan),
    (scanRows w h ly ry sl sr fuel y s).Nodup ∧
      ∀ q ∈ scanRows w h ly ry sl sr fuel y s, q.1 < w ∧ q.2 < h ∧ y ≤ q.2 ∧ (q.2 : Int) < y + fuel := by
  induction fuel with
  | zero => intro y s; simp [scanRows]
  | succ fuel ih =>
    intro y s
    rw [scanRows]
    by_cases hy : y < 0 ∨ (h : Int) ≤ y
    · rw [if_pos hy]
      obtain ⟨h1, h2⟩ := ih (y + 1) s
      refine ⟨h1, fun q hq => ?_⟩
      have := h2 q hq
      push_cast
      omega
    · rw [if_neg hy]
      simp only
      obtain ⟨h1, h2⟩ := ih (y + 1) ⟨s.left + (if ly ≤ y then sl else s.lstep),
        s.right + (if ry ≤ y then sr else s.rstep), if ly ≤ y then sl else s.lstep,
        if ry ≤ y then sr else s.rstep⟩
      refine ⟨?_, ?_⟩
      · rw [List.nodup_append]
        refine ⟨scanRow_nodup _ _ _ _, h1, ?_⟩
        rintro a ha b hb rfl
        have h3 := (mem_scanRow (by omega)).1 ha
        have h4 := h2 a hb
        omega
      · intro q hq
        rcases List.mem_append.1 hq with h3 | h3
        · have := (mem_scanRow (by omega)).1 h3
          push_cast
          omega
        · have := h2 q h3
          push_cast
          omega

theorem keepBest_mem (better : Pt → Pt → Bool) (cs : List Pt) : ∀ c,
    keepBest better c cs ∈ c :: cs := by
  induction cs with
  | nil => intro c; simp [keepBest]
  | cons q qs ih =>
    intro c
    rw [keepBest]
    have := ih (if better c q then q else c)
    rcases List.mem_cons.1 this with h | h
    · rw [h]
      split_ifs <;> simp
    · simp [h]

/-- C106: the pixels that are counted are different pixels of the image, in rows between those of the
corners. -/
theorem rectPixels_spec (w h : Nat) (cs : List Pt) :
    (rectPixels w h cs).Nodup ∧
      ∀ q ∈ rectPixels w h cs, q.1 < w ∧ q.2 < h ∧
        (∃ c ∈ cs, c.2 ≤ q.2) ∧ ∃ c ∈ cs, (q.2 : Int) ≤ c.2 := by
  have hperm := List.perm_insertionSort ptLe cs
  unfold rectPixels
  cases hs : cs.insertionSort ptLe with
  | nil => simp
  | cons c t =>
    simp only
    have m1 := keepBest_mem (fun a b => decide (b.2 < a.2)) t c
    have m2 := keepBest_mem (fun a b => decide (a.2 < b.2)) t c
    rw [← hs, hperm.mem_iff] at m1 m2
    split
    · simp
    · split
      · simp
      · split
        · simp
        · rename_i d ds _ _ e es _ _ tp _ _
          obtain ⟨h1, h2⟩ := scanRows_spec (w := w) (h := h)
            (ly := (keepBest (fun a b => decide (b.1 < a.1)) d ds).2)
            (ry := (keepBest (fun a b => decide (a.1 < b.1)) e es).2)
            (sl := sideStep ((keepBest (fun a b => decide (b.1 < a.1)) d ds).1 - tp.1)
              ((keepBest (fun a b => decide (b.1 < a.1)) d ds).2 - tp.1))
            (sr := sideStep ((keepBest (fun a b => decide (a.1 < b.1)) e es).1 - tp.1)
              ((keepBest (fun a b => decide (a.1 < b.1)) e es).2 - tp.1))
            ((keepBest (fun a b => decide (a.2 < b.2)) c t).2 -
              (keepBest (fun a b => decide (b.2 < a.2)) c t).2 + 1).toNat
            (keepBest (fun a b => decide (b.2 < a.2)) c t).2
            ⟨(keepBest (fun a b => decide (b.2 < a.2)) c t).1,
              (keepBest (fun a b => decide (b.2 < a.2)) c t).1,
              sideStep ((keepBest (fun a b => decide (b.2 < a.2)) c t).1 -
                  (keepBest (fun a b => decide (b.1 < a.1)) d ds).1)
                ((keepBest (fun a b => decide (b.2 < a.2)) c t).2 -
                  (keepBest (fun a b => decide (b.1 < a.1)) d ds).2),
              sideStep ((keepBest (fun a b => decide (b.2 < a.2)) c t).1 -
                  (keepBest (fun a b => decide (a.1 < b.1)) e es).1)
                ((keepBest (fun a b => decide (b.2 < a.2)) c t).2 -
                  (keepBest (fun a b => decide (a.1 < b.1)) e es).2)⟩
          refine ⟨h1, fun q hq => ?_⟩
          obtain ⟨h3, h4, h5, h6⟩ := h2 q hq
          exact ⟨h3, h4, ⟨_, m1, h5⟩, ⟨_, m2, by omega⟩⟩

/-- C106: at most as many pixels are aligned as are counted, and at most as many are counted as the image
has. -/
theorem counts_le (m : Img) (r : Rect) :
    alignedCount m r.theta r.prec (rectPixels m.w m.h (corners r)) ≤
        (rectPixels m.w m.h (corners r)).length ∧
      (rectPixels m.w m.h (corners r)).length ≤ m.w * m.h := by
  refine ⟨List.length_filter_le _ _, ?_⟩
  obtain ⟨h1, h2⟩ := rectPixels_spec m.w m.h (corners r)
  exact length_le_of_nodup h1 (fun q hq => ⟨(h2 q hq).1, (h2 q hq).2.1⟩)

/-- A horizontal rectangle of three rows. -/
noncomputable def flat : Rect where
  x1 := 0
  y1 := 1
  x2 := 10
  y2 := 1
  width := 2
  x := 5
  y := 1
  theta := 0
  prec := Real.pi / 8
  p := 1 / 8

theorem toInt_natCast (n : Nat) : toInt n = n := by
  unfold toInt
  rw [if_pos (by positivity), Int.floor_natCast]

theorem toInt_near (x : ℝ) : |(toInt x : ℝ) - x| < 1 ∧ |(toInt x : ℝ)| ≤ |x| := by
  unfold toInt
  split_ifs with h
  · have h1 := Int.floor_le x
    have h2 := Int.lt_floor_add_one x
    have h3 : (0 : ℝ) ≤ ⌊x⌋ := by exact_mod_cast Int.floor_nonneg.2 h
    rw [abs_of_nonneg h3, abs_of_nonneg h, abs_lt]
    exact ⟨⟨by linarith, by linarith⟩, h1⟩
  · push Not at h
    have h1 := Int.le_ceil x
    have h2 := Int.ceil_lt_add_one x
    have h3 : (⌈x⌉ : ℝ) ≤ 0 := by exact_mod_cast Int.ceil_le.2 (by simpa using h.le)
    rw [abs_of_nonpos h3, abs_of_neg h, abs_lt]
    exact ⟨⟨by linarith, by linarith⟩, by linarith⟩

/-- C106: the four corners are those of the rectangle, in turn: the ends of its axis moved by half the width
along the normal vector, one way and the other; rounded towards zero, by less than a pixel. -/
theorem corners_spec (r : Rect) :
    List.Forall₂ (fun (c : Pt) (p : ℝ × ℝ) => (|(c.1 : ℝ) - p.1| < 1 ∧ |(c.1 : ℝ)| ≤ |p.1|) ∧
        |(c.2 : ℝ) - p.2| < 1 ∧ |(c.2 : ℝ)| ≤ |p.2|) (corners r)
      [((r.x1, r.y1) : ℝ × ℝ) + (r.width / 2) • (-Real.sin r.theta, Real.cos r.theta),
        (r.x2, r.y2) + (r.width / 2) • (-Real.sin r.theta, Real.cos r.theta),
        (r.x2, r.y2) - (r.width / 2) • (-Real.sin r.theta, Real.cos r.theta),
        (r.x1, r.y1) - (r.width / 2) • (-Real.sin r.theta, Real.cos r.theta)] := by
  have key : ∀ x y a b : ℝ, x = a → y = b →
      (|(toInt x : ℝ) - a| < 1 ∧ |(toInt x : ℝ)| ≤ |a|) ∧
        |(toInt y : ℝ) - b| < 1 ∧ |(toInt y : ℝ)| ≤ |b| := by
    rintro x y _ _ rfl rfl
    exact ⟨toInt_near x, toInt_near y⟩
  unfold corners
  refine .cons ?_ (.cons ?_ (.cons ?_ (.cons ?_ .nil))) <;>
    (apply key <;> simp only [Prod.fst_add, Prod.snd_add, Prod.fst_sub, Prod.snd_sub, Prod.smul_fst,
      Prod.smul_snd, smul_eq_mul] <;> ring)

/-- C106: a row that is visited while both borders still follow their first side: the pixels of the image
between two lines of the given slopes. -/
theorem scanRows_upper (w h : Nat) (ly ry sl sr : Int) (fuel : Nat) (y : Int) (s : Scan) (hy : 0 ≤ y)
    (q : Px) (hlo : y ≤ q.2) (hhi : (q.2 : Int) < y + fuel) (hl : (q.2 : Int) ≤ ly)
    (hr : (q.2 : Int) ≤ ry) :
    q ∈ scanRows w h ly ry sl sr fuel y s ↔ (q.1 < w ∧ q.2 < h) ∧
      s.left + ((q.2 : Int) - y) * s.lstep ≤ q.1 ∧ (q.1 : Int) ≤ s.right + ((q.2 : Int) - y) * s.rstep := by
  induction fuel generalizing y s with
  | zero => omega
  | succ fuel ih =>
    rw [scanRows]
    by_cases hout : y < 0 ∨ (h : Int) ≤ y
    · rw [if_pos hout]
      constructor
      · intro hq
        have := (scanRows_spec fuel (y + 1) s).2 q hq
        omega
      · rintro ⟨⟨-, h2⟩, -⟩
        omega
    · rw [if_neg hout]
      simp only [List.mem_append]
      rcases Int.lt_or_eq_of_le hlo with hlt | heq
      · rw [if_neg (by omega), if_neg (by omega), ih (y + 1) _ (by omega) (by omega) (by omega)]
        have hrow : q ∉ scanRow w s.left s.right y := by
          intro hq
          have := (mem_scanRow hy).1 hq
          omega
        simp only [hrow, false_or]
        have e1 : s.left + s.lstep + ((q.2 : Int) - (y + 1)) * s.lstep =
            s.left + ((q.2 : Int) - y) * s.lstep := by ring
        have e2 : s.right + s.rstep + ((q.2 : Int) - (y + 1)) * s.rstep =
            s.right + ((q.2 : Int) - y) * s.rstep := by ring
        rw [e1, e2]
      · have hrest : q ∉ scanRows w h ly ry sl sr fuel (y + 1)
            ⟨s.left + (if ly ≤ y then sl else s.lstep), s.right + (if ry ≤ y then sr else s.rstep),
              if ly ≤ y then sl else s.lstep, if ry ≤ y then sr else s.rstep⟩ := by
          intro hq
          have := (scanRows_spec fuel (y + 1) _).2 q hq
          omega
        simp only [hrest, or_false]
        rw [mem_scanRow hy, ← heq, sub_self, zero_mul, zero_mul, add_zero, add_zero]
        omega

/-- C106: a square standing on a corner: down to the row of its left and right corners exactly its pixels are
counted; in the next row a pixel inside is left out, because of the slopes of the lower sides. -/
theorem diamond_counted :
    (∀ x y : Nat, y ≤ 4 → ((x, y) ∈ rectPixels 20 20 [(5, 1), (8, 4), (5, 7), (2, 4)] ↔
      |(x : Int) - 5| + |(y : Int) - 4| ≤ 3)) ∧
    ((4, 5) ∉ rectPixels 20 20 [(5, 1), (8, 4), (5, 7), (2, 4)] ∧ |(4 : Int) - 5| + |(5 : Int) - 4| ≤ 3) := by
  have e : rectPixels 20 20 [(5, 1), (8, 4), (5, 7), (2, 4)] =
      scanRows 20 20 4 4 3 (-3) 7 1 ⟨5, 5, -1, 1⟩ := by decide
  refine ⟨fun x y hy => ?_, by decide⟩
  rw [e]
  by_cases h1 : 1 ≤ y
  · rw [scanRows_upper 20 20 4 4 3 (-3) 7 1 _ (by decide) (x, y) (by simp; omega) (by simp; omega)
      (by simp; omega) (by simp; omega)]
    simp only
    rw [abs_of_nonpos (by omega : (y : Int) - 4 ≤ 0)]
    rcases abs_cases ((x : Int) - 5) with h | h <;> omega
  · constructor
    · intro hq
      have := (scanRows_spec 7 1 _).2 _ hq
      simp only at this
      omega
    · intro h
      have := abs_nonneg ((x : Int) - 5)
      rw [abs_of_nonpos (by omega : (y : Int) - 4 ≤ 0)] at h
      omega


theorem flat_corners : corners flat = [(0, 2), (10, 2), (10, 0), (0, 0)] := by
  have h0 : toInt 0 = 0 := by simpa using toInt_natCast 0
  have h2 : toInt 2 = 2 := by simpa using toInt_natCast 2
  have h10 : toInt 10 = 10 := by simpa using toInt_natCast 10
  unfold corners flat
  simp only [Real.sin_zero, Real.cos_zero]
  norm_num
  simp only [h0, h2, h10, and_self]

/-- C106, refuted: the points "within the rectangle" are counted. Of the 33 pixels of `flat` only the three
in the first column are. -/
theorem counted_refuted : ¬ ∀ (w h : Nat) (r : Rect) (q : Px), q.1 < w → q.2 < h → r.Inside q →
    q ∈ rectPixels w h (corners r) := by
  intro h
  have h' := h 20 20 flat (5, 1) (by decide) (by decide) (by
    unfold Rect.Inside flat
    simp only [Real.sin_zero, Real.cos_zero]
    norm_num)
  rw [flat_corners] at h'
  revert h'
  decide

/-- What is counted instead. -/
example : rectPixels 20 20 (corners flat) = [(0, 0), (0, 1), (0, 2)] := by
  rw [flat_corners]
  decide

/-! ### Improving -/

/-- The value that is kept belongs to the rectangle that is kept, and it is no less than all values that
were seen. -/
theorem tries_spec {f : Rect → ℝ} {move : Rect → Option Rect} (n : Nat) : ∀ (r : Rect) (best : Rect × ℝ),
    best.2 = f best.1 →
    (tries f move n r best).2 = f (tries f move n r best).1 ∧
      best.2 ≤ (tries f move n r best).2 := by
  induction n with
  | zero => intro r best h; exact ⟨h, le_refl _⟩
  | succ n ih =>
    intro r best h
    rw [tries]
    cases hm : move r with
    | none => exact ih r best h
    | some r' =>
      simp only
      split_ifs with hlt
      · obtain ⟨h1, h2⟩ := ih r' (r', f r') rfl
        exact ⟨h1, le_trans hlt.le h2⟩
      · exact ih r' best h

/-- C106: improving gives the value of the new rectangle, and that is no worse than before. -/
theorem improve_value (f : Rect → ℝ) (logEps : ℝ) (rec : Rect) :
    (improve f logEps rec).2 = f (improve f logEps rec).1 ∧ f rec ≤ (improve f logEps rec).2 := by
  unfold improve
  simp only
  have key : ∀ (b : Rect × ℝ), b.2 = f b.1 → f rec ≤ b.2 → ∀ move,
      (tries f move 5 b.1 b).2 = f (tries f move 5 b.1 b).1 ∧
        f rec ≤ (tries f move 5 b.1 b).2 := by
    intro b h1 h2 move
    obtain ⟨h3, h4⟩ := tries_spec (f := f) (move := move) 5 b.1 b h1
    exact ⟨h3, le_trans h2 h4⟩
  split_ifs with c0 c1 c2 c3 c4
  · exact ⟨rfl, le_refl _⟩
  · exact key (rec, f rec) rfl (le_refl _) _
  all_goals have k1 := key (rec, f rec) rfl (le_refl _) (fun r => some (finer r))
  all_goals have k2 := key _ k1.1 k1.2 (fun r => if wide r then some (thinner r) else none)
  · exact k2
  all_goals have k3 := key _ k2.1 k2.2 (fun r => if wide r then some (shrinkOne r) else none)
  · exact k3
  all_goals have k4 := key _ k3.1 k3.2 (fun r => if wide r then some (shrinkOther r) else none)
  · exact k4
  · exact key _ k4.1 k4.2 _

/-- C106: a rectangle that is good enough is left as it is. -/
theorem improve_good {f : Rect → ℝ} {logEps : ℝ} {rec : Rect} (h : logEps < f rec) :
    improve f logEps rec = (rec, f rec) := by
  unfold improve
  simp only
  rw [if_pos h]

theorem tries_seen {f : Rect → ℝ} {g : Rect → Rect} (n : Nat) : ∀ (r : Rect) (best : Rect × ℝ),
    best.2 = f best.1 → ∀ k, k < n → f (g^[k + 1] r) ≤ (tries f (fun r => some (g r)) n r best).2 := by
  induction n with
  | zero => intro r best _ k hk; omega
  | succ n ih =>
    intro r best hb k hk
    rw [tries]
    simp only
    have hbest : f (g r) ≤ (if best.2 < f (g r) then (g r, f (g r)) else best).2 := by
      split_ifs with h
      · exact le_refl _
      · exact not_lt.1 h
    have hval : (if best.2 < f (g r) then (g r, f (g r)) else best).2 =
        f (if best.2 < f (g r) then (g r, f (g r)) else best).1 := by
      split_ifs
      · rfl
      · exact hb
    cases k with
    | zero =>
      rw [Function.iterate_one]
      exact le_trans hbest (tries_spec n _ _ hval).2
    | succ k =>
      rw [Function.iterate_succ_apply]
      exact ih (g r) _ hval k (by omega)

theorem finer_iterate (r : Rect) (k : Nat) :
    finer^[k + 1] r = { r with p := r.p / 2 ^ (k + 1), prec := r.p / 2 ^ (k + 1) * Real.pi } := by
  induction k with
  | zero => simp [finer]
  | succ k ih =>
    rw [Function.iterate_succ_apply', ih]
    unfold finer
    simp only
    rw [pow_succ 2 (k + 1), div_mul_eq_div_div]

theorem tries_ge {f : Rect → ℝ} {move : Rect → Option Rect} {n : Nat} {b : Rect × ℝ}
    (hb : b.2 = f b.1) {v : ℝ} (h : v ≤ b.2) : v ≤ (tries f move n b.1 b).2 :=
  le_trans h (tries_spec n b.1 b hb).2

/-- C106: a rectangle that is not good enough is compared with the same rectangle at the halves of its
tolerance, up to one thirty-second. -/
theorem improve_finer {f : Rect → ℝ} {logEps : ℝ} {rec : Rect} (h : f rec ≤ logEps) (k : Nat)
    (hk : k < 5) :
    f { rec with p := rec.p / 2 ^ (k + 1), prec := rec.p / 2 ^ (k + 1) * Real.pi } ≤
      (improve f logEps rec).2 := by
  rw [← finer_iterate]
  have hs := tries_seen (f := f) (g := finer) 5 rec (rec, f rec) rfl k hk
  have key : ∀ (b : Rect × ℝ), b.2 = f b.1 → f (finer^[k + 1] rec) ≤ b.2 → ∀ move,
      (tries f move 5 b.1 b).2 = f (tries f move 5 b.1 b).1 ∧
        f (finer^[k + 1] rec) ≤ (tries f move 5 b.1 b).2 := by
    intro b h1 h2 move
    obtain ⟨h3, h4⟩ := tries_spec (f := f) (move := move) 5 b.1 b h1
    exact ⟨h3, le_trans h2 h4⟩
  have k1 : (tries f (fun r => some (finer r)) 5 rec (rec, f rec)).2 =
      f (tries f (fun r => some (finer r)) 5 rec (rec, f rec)).1 :=
    (tries_spec 5 rec (rec, f rec) rfl).1
  unfold improve
  simp only
  rw [if_neg (not_lt.2 h)]
  split_ifs with c1 c2 c3 c4
  · exact hs
  all_goals have k2 := key _ k1 hs (fun r => if wide r then some (thinner r) else none)
  · exact k2.2
  all_goals have k3 := key _ k2.1 k2.2 (fun r => if wide r then some (shrinkOne r) else none)
  · exact k3.2
  all_goals have k4 := key _ k3.1 k3.2 (fun r => if wide r then some (shrinkOther r) else none)
  · exact k4.2
  · exact (key _ k4.1 k4.2 _).2

/-! ### The new rectangle -/

/-- `Narrower` with at most `n` halvings of the tolerance. -/
def NarrowerN (n : Nat) (r r' : Rect) : Prop :=
  r'.theta = r.theta ∧ r'.x = r.x ∧ r'.y = r.y ∧
    (∃ c : ℝ, r'.x1 = r.x1 - c * Real.sin r.theta ∧ r'.y1 = r.y1 + c * Real.cos r.theta ∧
      r'.x2 = r.x2 - c * Real.sin r.theta ∧ r'.y2 = r.y2 + c * Real.cos r.theta ∧
      |c| ≤ (r.width - r'.width) / 2) ∧
    (r'.width = r.width ∨ 1 / 2 ≤ r'.width) ∧
    ∃ k : Nat, k ≤ n ∧ r'.p = r.p / 2 ^ k ∧ (r'.prec = r.prec ∧ k = 0 ∨ r'.prec = r'.p * Real.pi)

theorem NarrowerN.refl (n : Nat) (r : Rect) : NarrowerN n r r :=
  ⟨rfl, rfl, rfl, ⟨0, by ring, by ring, by ring, by ring, by simp⟩, Or.inl rfl, 0, by omega, by simp,
    Or.inl ⟨rfl, rfl⟩⟩

theorem NarrowerN.mono {n n' : Nat} {r r' : Rect} (h : NarrowerN n r r') (hn : n ≤ n') :
    NarrowerN n' r r' := by
  obtain ⟨h1, h2, h3, h4, h5, k, h6, h7⟩ := h
  exact ⟨h1, h2, h3, h4, h5, k, by omega, h7⟩

theorem NarrowerN.finer {n : Nat} {r r' : Rect} (h : NarrowerN n r r') :
    NarrowerN (n + 1) r (finer r') := by
  obtain ⟨h1, h2, h3, h4, h5, k, h6, h7, h8⟩ := h
  refine ⟨h1, h2, h3, h4, h5, k + 1, by omega, ?_, Or.inr rfl⟩
  simp only [Lsd.finer, h7]
  rw [pow_succ, div_mul_eq_div_div]

theorem NarrowerN.shift {n : Nat} {r r' r'' : Rect} (h : NarrowerN n r r') (hw : wide r') {c : ℝ}
    (hc : |c| ≤ 1 / 4) (e1 : r''.theta = r'.theta) (e2 : r''.x = r'.x) (e3 : r''.y = r'.y)
    (e4 : r''.x1 = r'.x1 - c * Real.sin r'.theta) (e5 : r''.y1 = r'.y1 + c * Real.cos r'.theta)
    (e6 : r''.x2 = r'.x2 - c * Real.sin r'.theta) (e7 : r''.y2 = r'.y2 + c * Real.cos r'.theta)
    (e8 : r''.width = r'.width - 1 / 2) (e9 : r''.p = r'.p) (e10 : r''.prec = r'.prec) :
    NarrowerN n r r'' := by
  obtain ⟨h1, h2, h3, ⟨d, d1, d2, d3, d4, d5⟩, h5, k, h6, h7, h8⟩ := h
  refine ⟨by rw [e1, h1], by rw [e2, h2], by rw [e3, h3], ⟨d + c, ?_, ?_, ?_, ?_, ?_⟩, ?_, k, h6,
    by rw [e9, h7], by rw [e10, e9]; exact h8⟩
  · rw [e4, d1, h1]; ring
  · rw [e5, d2, h1]; ring
  · rw [e6, d3, h1]; ring
  · rw [e7, d4, h1]; ring
  · rw [e8]
    have := abs_add_le d c
    linarith
  · right
    unfold wide at hw
    rw [e8]
    exact hw

theorem tries_rel {f : Rect → ℝ} {move : Rect → Option Rect} {P : Nat → Rect → Prop}
    (hmove : ∀ k r r', P k r → move r = some r' → P (k + 1) r')
    (hmono : ∀ k r, P k r → P (k + 1) r) (n : Nat) : ∀ (k : Nat) (r : Rect) (best : Rect × ℝ),
    P k r → P k best.1 → P (k + n) (tries f move n r best).1 := by
  induction n with
  | zero => intro k r best _ hb; exact hb
  | succ n ih =>
    intro k r best hr hb
    rw [tries]
    have e : k + (n + 1) = (k + 1) + n := by omega
    cases hm : move r with
    | none =>
      simp only
      rw [e]
      exact ih (k + 1) r best (hmono _ _ hr) (hmono _ _ hb)
    | some r' =>
      simp only
      rw [e]
      refine ih (k + 1) r' _ (hmove k r r' hr hm) ?_
      split_ifs
      · exact hmove k r r' hr hm
      · exact hmono _ _ hb

theorem narrower_iff (r r' : Rect) : Narrower r r' ↔ NarrowerN 10 r r' := Iff.rfl

/-- C106: the new rectangle is a narrower version of the old one: its direction and its length are the
same, and it does not reach out of the old one sideways. -/
theorem improve_narrower (f : Rect → ℝ) (logEps : ℝ) (rec : Rect) :
    Narrower rec (improve f logEps rec).1 := by
  rw [narrower_iff]
  have hfine : ∀ n (r : Rect) (b : Rect × ℝ), NarrowerN n rec r → NarrowerN n rec b.1 →
      NarrowerN (n + 5) rec (tries f (fun r => some (finer r)) 5 r b).1 := fun n r b =>
    tries_rel (P := fun k r => NarrowerN k rec r)
      (fun k r r' h h' => by cases h'; exact h.finer) (fun k r h => h.mono (by omega)) 5 n r b
  have hfine' : ∀ n (r : Rect) (b : Rect × ℝ), NarrowerN n rec r → NarrowerN n rec b.1 →
      NarrowerN (n + 5) rec (tries f (fun r => if wide r then some (finer r) else none) 5 r b).1 :=
    fun n r b => tries_rel (P := fun k r => NarrowerN k rec r)
      (fun k r r' h h' => by
        split_ifs at h'
        cases h'
        exact h.finer) (fun k r h => h.mono (by omega)) 5 n r b
  have hshift : ∀ (g : Rect → Rect), (∀ n r', NarrowerN n rec r' → wide r' → NarrowerN n rec (g r')) →
      ∀ n (b : Rect × ℝ), NarrowerN n rec b.1 →
      NarrowerN n rec (tries f (fun r => if wide r then some (g r) else none) 5 b.1 b).1 := by
    intro g hg n b h
    exact tries_rel (P := fun _ r => NarrowerN n rec r)
      (fun k r r' h h' => by
        split_ifs at h' with hw
        cases h'
        exact hg n r h hw) (fun k r h => h) 5 n b.1 b h h
  have g1 : ∀ n r', NarrowerN n rec r' → wide r' → NarrowerN n rec (thinner r') := by
    intro n r' h hw
    exact h.shift (c := 0) hw (by norm_num) rfl rfl rfl (by simp [thinner]) (by simp [thinner])
      (by simp [thinner]) (by simp [thinner]) rfl rfl rfl
  have g2 : ∀ n r', NarrowerN n rec r' → wide r' → NarrowerN n rec (shrinkOne r') := by
    intro n r' h hw
    exact h.shift (c := 1 / 4) hw (by rw [abs_of_pos] <;> norm_num) rfl rfl rfl
      (by simp only [shrinkOne]; ring) (by simp only [shrinkOne]; ring)
      (by simp only [shrinkOne]; ring) (by simp only [shrinkOne]; ring) rfl rfl rfl
  have g3 : ∀ n r', NarrowerN n rec r' → wide r' → NarrowerN n rec (shrinkOther r') := by
    intro n r' h hw
    exact h.shift (c := -(1 / 4)) hw (by rw [abs_neg, abs_of_pos] <;> norm_num) rfl rfl rfl
      (by simp only [shrinkOther]; ring) (by simp only [shrinkOther]; ring)
      (by simp only [shrinkOther]; ring) (by simp only [shrinkOther]; ring) rfl rfl rfl
  have k0 := NarrowerN.refl 0 rec
  have k1 := hfine 0 rec (rec, f rec) k0 k0
  have k2 := hshift thinner g1 _ _ k1
  have k3 := hshift shrinkOne g2 _ _ k2
  have k4 := hshift shrinkOther g3 _ _ k3
  have k5 := hfine' _ _ _ k4 k4
  unfold improve
  simp only
  split_ifs with c0 c1 c2 c3 c4
  · exact k0.mono (by omega)
  · exact k1.mono (by omega)
  · exact k2.mono (by omega)
  · exact k3.mono (by omega)
  · exact k4.mono (by omega)
  · exact k5

/-- C106: every pixel within a narrower version of a rectangle is within the rectangle. -/
theorem Narrower.inside {r r' : Rect} (h : Narrower r r') {q : Px} (hq : r'.Inside q) : r.Inside q := by
  obtain ⟨h1, -, -, ⟨c, c1, c2, c3, c4, c5⟩, -⟩ := h
  obtain ⟨q1, q2, q3⟩ := hq
  unfold Rect.Inside
  rw [h1, c1, c2] at q1 q2 q3
  rw [c3, c4] at q2
  refine ⟨?_, ?_, ?_⟩
  · refine le_of_le_of_eq q1 ?_
    ring
  · have e1 : (q.1 - (r.x1 - c * Real.sin r.theta)) * Real.cos r.theta +
        (q.2 - (r.y1 + c * Real.cos r.theta)) * Real.sin r.theta =
        (q.1 - r.x1) * Real.cos r.theta + (q.2 - r.y1) * Real.sin r.theta := by ring
    rw [e1] at q2
    refine q2.trans_eq ?_
    ring
  · have hcs := Real.sin_sq_add_cos_sq r.theta
    have e : (q.2 - r.y1) * Real.cos r.theta - (q.1 - r.x1) * Real.sin r.theta =
        ((q.2 - (r.y1 + c * Real.cos r.theta)) * Real.cos r.theta -
          (q.1 - (r.x1 - c * Real.sin r.theta)) * Real.sin r.theta) + c := by
      linear_combination c * hcs
    rw [e]
    have := abs_add_le ((q.2 - (r.y1 + c * Real.cos r.theta)) * Real.cos r.theta -
          (q.1 - (r.x1 - c * Real.sin r.theta)) * Real.sin r.theta) c
    linarith

/-- C106: moving one side in leaves the other side where it is. -/
theorem shrink_sides (r : Rect) :
    ((shrinkOne r).x1 + -Real.sin r.theta * ((shrinkOne r).width / 2) =
        r.x1 + -Real.sin r.theta * (r.width / 2) ∧
      (shrinkOne r).y1 + Real.cos r.theta * ((shrinkOne r).width / 2) =
        r.y1 + Real.cos r.theta * (r.width / 2)) ∧
      ((shrinkOther r).x1 - -Real.sin r.theta * ((shrinkOther r).width / 2) =
        r.x1 - -Real.sin r.theta * (r.width / 2) ∧
      (shrinkOther r).y1 - Real.cos r.theta * ((shrinkOther r).width / 2) =
        r.y1 - Real.cos r.theta * (r.width / 2)) := by
  simp only [shrinkOne, shrinkOther]
  refine ⟨⟨?_, ?_⟩, ?_, ?_⟩ <;> ring

/-- A value that prefers thin rectangles: `flat` is improved from the width 2 to the width 1/2. -/
example : (improve (fun r => -r.width) 0 flat).1.width = 1 / 2 ∧
    (improve (fun r => -r.width) 0 flat).2 = -(1 / 2) := by
  norm_num [improve, tries, flat, finer, thinner, wide, shrinkOne, shrinkOther]

/-- C106: with a tolerance below 90 degrees and angles as the detector has them, the aligned pixels of a rectangle
are those counted whose own direction is within the tolerance. -/
theorem alignedCount_spec {m : Img} {r : Rect} (h0 : 0 ≤ r.prec) (hp : r.prec < Real.pi / 2)
    (hd : ∀ x y a, m.ang x y = some a → |r.theta - a| ≤ 3 * Real.pi) :
    alignedCount m r.theta r.prec (rectPixels m.w m.h (corners r)) =
      ((rectPixels m.w m.h (corners r)).toFinset.filter fun q =>
        ∃ a, m.ang q.1 q.2 = some a ∧ Within a r.theta r.prec).card := by
  have hn := (rectPixels_spec m.w m.h (corners r)).1
  unfold alignedCount
  rw [← List.toFinset_card_of_nodup (hn.filter _)]
  congr 1
  ext q
  rw [List.mem_toFinset, List.mem_filter, Finset.mem_filter, List.mem_toFinset, decide_eq_true_iff]
  refine and_congr_right fun _ => ?_
  cases ha : m.ang q.1 q.2 with
  | none => simp [isAligned]
  | some a => rw [isAligned_iff (hd _ _ _ ha) h0 hp]; simp

/-- C106: the value of a rectangle is that of the number of its pixels, of which those count as aligned whose own direction
is within its tolerance, with its probability. -/
theorem rectNfa_spec {m : Img} {r : Rect} (logGamma : ℝ → ℝ) (logNT : ℝ) (h0 : 0 ≤ r.prec) (hp : r.prec < Real.pi / 2)
    (hd : ∀ x y a, m.ang x y = some a → |r.theta - a| ≤ 3 * Real.pi) :
    ∃ R : Finset Px, (∀ q, q ∈ R ↔ q ∈ rectPixels m.w m.h (corners r)) ∧
      rectNfa m logGamma logNT r = nfa logGamma logNT R.card
        (R.filter fun q => ∃ a, m.ang q.1 q.2 = some a ∧ Within a r.theta r.prec).card r.p := by
  refine ⟨(rectPixels m.w m.h (corners r)).toFinset, fun q => List.mem_toFinset, ?_⟩
  unfold rectNfa
  simp only
  rw [alignedCount_spec h0 hp hd, List.toFinset_card_of_nodup (rectPixels_spec m.w m.h (corners r)).1]

/-- In an image of horizontal directions the rectangle `flat` meets the hypotheses, and three pixels count. -/
example : ∃ m : Img, (∀ x y a, m.ang x y = some a → |flat.theta - a| ≤ 3 * Real.pi) ∧ 0 ≤ flat.prec ∧
    flat.prec < Real.pi / 2 := by
  refine ⟨⟨20, 20, fun _ _ => some 0, fun _ _ => 1, fun _ _ => 0⟩, ?_, ?_, ?_⟩
  · intro x y a h
    cases h
    simp only [flat, sub_zero, abs_zero]
    linarith [Real.pi_pos]
  · simp only [flat]; linarith [Real.pi_pos]
  · simp only [flat]; linarith [Real.pi_pos]

end Verif.Lsd
