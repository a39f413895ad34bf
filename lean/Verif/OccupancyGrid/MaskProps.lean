import Verif.OccupancyGrid.Mask
import Verif.OccupancyGrid.Props

/-!
# Occupancy grid: C147, the mask of occupied places
-/

namespace Verif.OccupancyGrid.Mask

open Verif (Outcome)
open Verif.OccupancyGrid

/-! ## Specification -/

/-- What is assumed of filled circles: they contain their centre and do not reach further than the radius. -/
structure DiscLaw (disc : Int → Int → Int → Bool) : Prop where
  centre : ∀ r, 0 ≤ r → disc r 0 0 = true
  inside : ∀ r dy dx, disc r dy dx = true → |dy| ≤ r ∧ |dx| ≤ r

/-- The pixels within the radius. -/
def euclid (r dy dx : Int) : Bool := decide (0 ≤ r ∧ dy * dy + dx * dx ≤ r * r)

theorem euclid_law : DiscLaw euclid := by
  refine ⟨fun r h => by simp [euclid, h, mul_self_nonneg], fun r dy dx h => ?_⟩
  simp only [euclid, decide_eq_true_eq] at h
  constructor
  · exact abs_le_of_sq_le_sq (by nlinarith [mul_self_nonneg dx]) h.1
  · exact abs_le_of_sq_le_sq (by nlinarith [mul_self_nonneg dy]) h.1

/-- A pixel of the mask. -/
def InImage (g : Grid) (y x : Int) : Prop := 0 ≤ y ∧ y < ⌊g.maxR⌋ ∧ 0 ≤ x ∧ x < ⌊g.maxC⌋

/-! ## Proof -/

theorem toInt_floor {q : ℚ} (h : 0 ≤ q) : toInt q = ⌊q⌋ := by
  unfold toInt
  rw [if_neg (not_lt.mpr h)]

theorem toInt_int (z : Int) : toInt z = z := by
  unfold toInt
  split
  · exact Int.ceil_intCast z
  · exact Int.floor_intCast z

/-- The rectangle painted over a cell. -/
def Covers (g : Grid) (k : Cell) (y x : Int) : Prop :=
  min (toInt (k.1 * g.cellR)) (toInt ((k.1 + 1) * g.cellR - 1)) ≤ y ∧
  y ≤ max (toInt (k.1 * g.cellR)) (toInt ((k.1 + 1) * g.cellR - 1)) ∧
  min (toInt (k.2 * g.cellC)) (toInt ((k.2 + 1) * g.cellC - 1)) ≤ x ∧
  x ≤ max (toInt (k.2 * g.cellC)) (toInt ((k.2 + 1) * g.cellC - 1))

/-- A fold of painting: size and pixels afterwards. -/
structure Painted (m m' : Image) (P : Int → Int → Prop) : Prop where
  rows : m'.rows = m.rows
  cols : m'.cols = m.cols
  hit : ∀ y x, 0 ≤ y → y < m.rows → 0 ≤ x → x < m.cols → P y x → m'.px y x = 0
  miss : ∀ y x, ¬ P y x → m'.px y x = m.px y x

theorem Painted.refl (m : Image) : Painted m m (fun _ _ => False) :=
  ⟨rfl, rfl, fun _ _ _ _ _ _ h => h.elim, fun _ _ _ => rfl⟩

theorem Painted.zero {m m' : Image} {P : Int → Int → Prop} (h : Painted m m' P) {y x : Int} (h1 : 0 ≤ y)
    (h2 : y < m.rows) (h3 : 0 ≤ x) (h4 : x < m.cols) (h0 : m.px y x = 0) : m'.px y x = 0 := by
  by_cases hp : P y x
  · exact h.hit y x h1 h2 h3 h4 hp
  · rw [h.miss y x hp]; exact h0

theorem Painted.trans {m m' m'' : Image} {P Q : Int → Int → Prop} (h : Painted m m' P) (h' : Painted m' m'' Q) :
    Painted m m'' (fun y x => P y x ∨ Q y x) := by
  refine ⟨h'.rows.trans h.rows, h'.cols.trans h.cols, ?_, ?_⟩
  · intro y x h1 h2 h3 h4 hpq
    rcases hpq with hp | hq
    · exact h'.zero h1 (by rw [h.rows]; exact h2) h3 (by rw [h.cols]; exact h4) (h.hit y x h1 h2 h3 h4 hp)
    · exact h'.hit y x h1 (by rw [h.rows]; exact h2) h3 (by rw [h.cols]; exact h4) hq
  · intro y x hn
    rw [h'.miss y x (fun hq => hn (Or.inr hq)), h.miss y x (fun hp => hn (Or.inl hp))]

theorem paint_painted (m : Image) (s : Int → Int → Bool) : Painted m (m.paint s) (fun y x => s y x = true) := by
  refine ⟨rfl, rfl, ?_, ?_⟩
  · intro y x h1 h2 h3 h4 hs
    unfold Image.paint
    simp only
    rw [if_pos ⟨h1, h2, h3, h4, hs⟩]
  · intro y x hs
    unfold Image.paint
    simp only
    rw [if_neg (fun h => hs h.2.2.2.2)]

theorem Painted.congr {m m' : Image} {P Q : Int → Int → Prop} (h : Painted m m' P) (e : ∀ y x, P y x ↔ Q y x) :
    Painted m m' Q :=
  ⟨h.rows, h.cols, fun y x h1 h2 h3 h4 hq => h.hit y x h1 h2 h3 h4 ((e y x).2 hq),
    fun y x hn => h.miss y x (fun hp => hn ((e y x).1 hp))⟩

theorem points_painted (disc : Int → Int → Int → Bool) (radius : ℚ) : ∀ (l : List Pt) (m : Image),
    Painted m (l.foldl (drawPoint disc radius) m)
      (fun y x => ∃ p ∈ l, disc (toInt radius) (y - toInt p.u) (x - toInt p.v) = true)
  | [], m => (Painted.refl m).congr (by simp)
  | p :: l, m => by
    refine ((paint_painted m _).trans (points_painted disc radius l (drawPoint disc radius m p))).congr ?_
    intro y x
    simp

theorem cell_painted (g : Grid) (m : Image) (k : Cell) : Painted m (drawCell g m k) (Covers g k) := by
  refine (paint_painted m _).congr ?_
  intro y x
  simp only [decide_eq_true_eq]
  exact Iff.rfl

theorem one_painted (disc : Int → Int → Int → Bool) (radius : ℚ) (n : Nat) {g : Grid} (m : Image) {k : Cell}
    (hk : k ∈ g.coords) : ∃ m', drawOne disc radius n g m k = .ok m' ∧
    Painted m m' (fun y x => (∃ p ∈ g.cells k, disc (toInt radius) (y - toInt p.u) (x - toInt p.v) = true) ∨
      (n ≤ (g.cells k).length ∧ Covers g k y x)) := by
  unfold drawOne
  rw [getCell_eq hk, Outcome.bind_ok]
  refine ⟨_, rfl, ?_⟩
  have h1 := points_painted disc radius (g.cells k) m
  split
  · next hn =>
    refine (h1.trans (cell_painted g _ k)).congr ?_
    intro y x
    simp only [ge_iff_le] at hn
    simp [hn]
  · next hn =>
    refine h1.congr ?_
    intro y x
    simp only [ge_iff_le] at hn
    simp [hn]

theorem all_painted (disc : Int → Int → Int → Bool) (radius : ℚ) (n : Nat) {g : Grid} : ∀ (ks : List Cell) (m : Image),
    (∀ k ∈ ks, k ∈ g.coords) → ∃ m', ks.foldlM (drawOne disc radius n g) m = .ok m' ∧
    Painted m m' (fun y x => ∃ k ∈ ks,
      (∃ p ∈ g.cells k, disc (toInt radius) (y - toInt p.u) (x - toInt p.v) = true) ∨
      (n ≤ (g.cells k).length ∧ Covers g k y x))
  | [], m, _ => ⟨m, rfl, (Painted.refl m).congr (by simp)⟩
  | k :: ks, m, h => by
    obtain ⟨m1, e1, p1⟩ := one_painted disc radius n m (h k List.mem_cons_self)
    obtain ⟨m2, e2, p2⟩ := all_painted disc radius n ks m1 (fun q hq => h q (List.mem_cons_of_mem _ hq))
    refine ⟨m2, ?_, (p1.trans p2).congr ?_⟩
    · rw [List.foldlM_cons, e1, Outcome.bind_ok, e2]
    · intro y x
      simp only [List.mem_cons, exists_eq_or_imp]

/-! ## Theorems -/

/-- The mask has the size of the input range without fractions; a pixel is 0 if it is painted by a point or a full cell
and 255 otherwise.  The call succeeds for every positive radius and limit. -/
theorem mask_pixels (disc : Int → Int → Int → Bool) (g : Grid) {radius : ℚ} (hr : 0 < radius) {n : Nat} (hn : 0 < n) :
    ∃ m, occupancyMask disc g radius n = .ok m ∧ m.rows = ⌊g.maxR⌋ ∧ m.cols = ⌊g.maxC⌋ ∧
    ∀ y x, InImage g y x →
      (m.px y x = 0 ∨ m.px y x = 255) ∧
      (m.px y x = 0 ↔ (∃ p ∈ g.all, disc (toInt radius) (y - toInt p.u) (x - toInt p.v) = true) ∨
        ∃ k ∈ g.coords, n ≤ (g.cells k).length ∧ Covers g k y x) := by
  obtain ⟨m, e, p⟩ := all_painted disc radius n g.coords ⟨⌊g.maxR⌋, ⌊g.maxC⌋, fun _ _ => 255⟩ (fun _ h => h)
  refine ⟨m, ?_, p.rows, p.cols, ?_⟩
  · unfold occupancyMask
    rw [show decide (radius > 0) = true from decide_eq_true hr, show decide (n > 0) = true from decide_eq_true hn,
      Outcome.check_true, Outcome.bind_ok, Outcome.bind_ok]
    exact e
  · rintro y x ⟨h1, h2, h3, h4⟩
    have key : ((∃ p ∈ g.all, disc (toInt radius) (y - toInt p.u) (x - toInt p.v) = true) ∨
        ∃ k ∈ g.coords, n ≤ (g.cells k).length ∧ Covers g k y x) ↔ ∃ k ∈ g.coords,
      (∃ p ∈ g.cells k, disc (toInt radius) (y - toInt p.u) (x - toInt p.v) = true) ∨
      (n ≤ (g.cells k).length ∧ Covers g k y x) := by
      constructor
      · rintro (⟨q, hq, hd⟩ | ⟨k, hk, h⟩)
        · obtain ⟨k, hk, hqk⟩ := mem_all.1 hq
          exact ⟨k, hk, Or.inl ⟨q, hqk, hd⟩⟩
        · exact ⟨k, hk, Or.inr h⟩
      · rintro ⟨k, hk, ⟨q, hq, hd⟩ | h⟩
        · exact Or.inl ⟨q, mem_all.2 ⟨k, hk, hq⟩, hd⟩
        · exact Or.inr ⟨k, hk, h⟩
    rw [key]
    by_cases hp : ∃ k ∈ g.coords, (∃ p ∈ g.cells k, disc (toInt radius) (y - toInt p.u) (x - toInt p.v) = true) ∨
      (n ≤ (g.cells k).length ∧ Covers g k y x)
    · have := p.hit y x h1 h2 h3 h4 hp
      exact ⟨Or.inl this, fun _ => hp, fun _ => this⟩
    · have := p.miss y x hp
      exact ⟨Or.inr this, fun h => (by rw [this] at h; cases h), fun h => absurd h hp⟩

/-- A limit of 0 and a radius that is not positive end the program. -/
theorem mask_rejects (disc : Int → Int → Int → Bool) (g : Grid) (radius : ℚ) (n : Nat) (h : radius ≤ 0 ∨ n = 0) :
    occupancyMask disc g radius n = .abort := by
  unfold occupancyMask
  by_cases hr : radius > 0
  · have hn : n = 0 := h.resolve_left (by linarith)
    rw [show decide (radius > 0) = true from decide_eq_true hr, Outcome.check_true, Outcome.bind_ok, hn]
    rfl
  · rw [show decide (radius > 0) = false from decide_eq_false hr]
    rfl

theorem floor_in_cell {i c : Nat} (hc : 0 < c) {u : ℚ} (h1 : (i : ℚ) * c ≤ u) (h2 : u < (i + 1) * c) :
    ((i * c : Nat) : Int) ≤ ⌊u⌋ ∧ ⌊u⌋ ≤ (((i + 1) * c : Nat) : Int) - 1 := by
  constructor
  · rw [Int.le_floor]; push_cast; exact h1
  · have : ⌊u⌋ < (((i + 1) * c : Nat) : Int) := by
      rw [Int.floor_lt]; push_cast; exact h2
    omega

theorem toInt_nat (z : Nat) : toInt (z : ℚ) = z := by
  have := toInt_int (z : Int)
  rwa [Int.cast_natCast] at this

theorem corner (i c : Nat) (hc : 0 < c) : toInt ((i : ℚ) * c) = ((i * c : Nat) : Int) ∧
    toInt (((i : ℚ) + 1) * c - 1) = (((i + 1) * c : Nat) : Int) - 1 := by
  constructor
  · rw [← toInt_nat]; push_cast; rfl
  · have := toInt_int ((((i + 1) * c : Nat) : Int) - 1)
    rw [← this]; push_cast; rfl

/-- With cells of a whole number of pixels, the rectangle of a cell is exactly the pixels in it. -/
theorem covers_iff {g : Grid} {k : Cell} {a b : Nat} (ha : 0 < a) (hb : 0 < b) (ea : g.cellR = a) (eb : g.cellC = b)
    {u v : ℚ} (hu : 0 ≤ u) (hv : 0 ≤ v) : Covers g k ⌊u⌋ ⌊v⌋ ↔ InCell g k u v := by
  obtain ⟨c1, c2⟩ := corner k.1 a ha
  obtain ⟨c3, c4⟩ := corner k.2 b hb
  unfold Covers InCell
  rw [ea, eb, c1, c2, c3, c4]
  have m1 : k.1 * a + a = (k.1 + 1) * a := by ring
  have m2 : k.2 * b + b = (k.2 + 1) * b := by ring
  rw [min_eq_left (by omega), max_eq_right (by omega), min_eq_left (by omega), max_eq_right (by omega)]
  have f1 : ((k.1 * a : Nat) : Int) ≤ ⌊u⌋ ↔ (k.1 : ℚ) * a ≤ u := by rw [Int.le_floor]; push_cast; rfl
  have f2 : ⌊u⌋ ≤ (((k.1 + 1) * a : Nat) : Int) - 1 ↔ u < ((k.1 : ℚ) + 1) * a := by
    rw [Int.le_sub_one_iff, Int.floor_lt]; push_cast; rfl
  have f3 : ((k.2 * b : Nat) : Int) ≤ ⌊v⌋ ↔ (k.2 : ℚ) * b ≤ v := by rw [Int.le_floor]; push_cast; rfl
  have f4 : ⌊v⌋ ≤ (((k.2 + 1) * b : Nat) : Int) - 1 ↔ v < ((k.2 : ℚ) + 1) * b := by
    rw [Int.le_sub_one_iff, Int.floor_lt]; push_cast; rfl
  rw [f1, f2, f3, f4]

/-- With cells of a whole number of pixels: a place whose pixel is not masked is in a cell with room, and no point of
the grid is in its pixel; a place whose pixel is masked is in a full cell, or a point is within the radius of it in both
directions. -/
theorem mask_meaning_partial {disc : Int → Int → Int → Bool} (hd : DiscLaw disc) {g : Grid} (hg : Inv g) {a b : Nat}
    (ha : 0 < a) (hb : 0 < b) (ea : g.cellR = a) (eb : g.cellC = b) {radius : ℚ} (hr : 0 < radius) {n : Nat} (hn : 0 < n)
    {u v : ℚ} (hu : 0 ≤ u) (hv : 0 ≤ v) (hin : InImage g ⌊u⌋ ⌊v⌋) :
    ∃ m k, occupancyMask disc g radius n = .ok m ∧ g.toCell u v = .ok k ∧
      (m.px ⌊u⌋ ⌊v⌋ ≠ 0 → (g.cells k).length < n ∧ ∀ p ∈ g.all, ¬ (⌊p.u⌋ = ⌊u⌋ ∧ ⌊p.v⌋ = ⌊v⌋)) ∧
      (m.px ⌊u⌋ ⌊v⌋ = 0 → n ≤ (g.cells k).length ∨
        ∃ p ∈ g.all, |((⌊u⌋ - ⌊p.u⌋ : Int) : ℚ)| ≤ radius ∧ |((⌊v⌋ - ⌊p.v⌋ : Int) : ℚ)| ≤ radius) := by
  obtain ⟨m, e, _, _, hpx⟩ := mask_pixels disc g hr hn
  have range : InRange g u v := by
    refine ⟨hu, ?_, hv, ?_⟩
    · have h1 := Int.lt_floor_add_one u
      have h2 := Int.floor_le g.maxR
      have h3 : ((⌊u⌋ + 1 : Int) : ℚ) ≤ (⌊g.maxR⌋ : Int) := by exact_mod_cast hin.2.1
      push_cast at h3
      linarith
    · have h1 := Int.lt_floor_add_one v
      have h2 := Int.floor_le g.maxC
      have h3 : ((⌊v⌋ + 1 : Int) : ℚ) ≤ (⌊g.maxC⌋ : Int) := by exact_mod_cast hin.2.2.2
      push_cast at h3
      linarith
  obtain ⟨k, hk, hkc, hik⟩ := toCell_of_inRange hg.shape range
  have pos : ∀ p ∈ g.all, toInt p.u = ⌊p.u⌋ ∧ toInt p.v = ⌊p.v⌋ := by
    intro p hp
    obtain ⟨q, hq, hpq⟩ := mem_all.1 hp
    have := (hg.placed q hq p hpq).1
    exact ⟨toInt_floor this.1, toInt_floor this.2.2.1⟩
  have r0 : 0 ≤ toInt radius := by rw [toInt_floor hr.le]; exact Int.floor_nonneg.2 hr.le
  refine ⟨m, k, e, hk, ?_, ?_⟩
  · intro h0
    have hno := fun h => h0 ((hpx _ _ hin).2.2 h)
    refine ⟨?_, ?_⟩
    · by_contra hc
      exact hno (Or.inr ⟨k, hkc, by omega, (covers_iff ha hb ea eb hu hv).2 hik⟩)
    · rintro p hp ⟨e1, e2⟩
      refine hno (Or.inl ⟨p, hp, ?_⟩)
      rw [(pos p hp).1, (pos p hp).2, e1, e2, sub_self, sub_self]
      exact hd.centre _ r0
  · intro h0
    rcases (hpx _ _ hin).2.1 h0 with ⟨p, hp, h⟩ | ⟨q, hq, hfull, hcov⟩
    · right
      have := hd.inside _ _ _ h
      rw [(pos p hp).1, (pos p hp).2, toInt_floor hr.le] at this
      have hle := Int.floor_le radius
      refine ⟨p, hp, ?_, ?_⟩
      · have : ((|⌊u⌋ - ⌊p.u⌋| : Int) : ℚ) ≤ ((⌊radius⌋ : Int) : ℚ) := by exact_mod_cast this.1
        rw [Int.cast_abs] at this
        linarith
      · have : ((|⌊v⌋ - ⌊p.v⌋| : Int) : ℚ) ≤ ((⌊radius⌋ : Int) : ℚ) := by exact_mod_cast this.2
        rw [Int.cast_abs] at this
        linarith
    · left
      have := inCell_unique hg.shape ((covers_iff ha hb ea eb hu hv).1 hcov) hik
      rw [← this]
      exact hfull

/-- So, with such cells, a point detected where the mask allows it never pushes out another one: it is added. -/
theorem unmasked_point_added_partial {disc : Int → Int → Int → Bool} (hd : DiscLaw disc) {g : Grid} (hg : Inv g)
    {a b : Nat} (ha : 0 < a) (hb : 0 < b) (ea : g.cellR = a) (eb : g.cellC = b) {radius : ℚ} (hr : 0 < radius) {n : Nat}
    (hn : 0 < n) {p : Pt} (hu : 0 ≤ p.u) (hv : 0 ≤ p.v) (hin : InImage g ⌊p.u⌋ ⌊p.v⌋) {m : Image}
    (hm : occupancyMask disc g radius n = .ok m) (h0 : m.px ⌊p.u⌋ ⌊p.v⌋ ≠ 0) :
    ∃ g', g.addOrReplace p n = .ok (g', true) ∧ g'.num = g.num + 1 ∧ g'.all.Perm (p :: g.all) := by
  obtain ⟨m', k, e, hk, h1, _⟩ := mask_meaning_partial hd hg ha hb ea eb hr hn hu hv hin
  rw [e] at hm
  cases hm
  obtain ⟨hlt, _⟩ := h1 h0
  have hkc := (toCell_ok hg.shape hk).2.1
  have hadd : g.add p = .ok { g.setCell k (g.cells k ++ [p]) with num := g.num + 1 } := by
    unfold Grid.add
    rw [hk, Outcome.bind_ok, getCell_eq hkc, Outcome.bind_ok]
  refine ⟨{ g.setCell k (g.cells k ++ [p]) with num := g.num + 1 }, ?_, rfl, (add_ok hg hadd).2.1⟩
  unfold Grid.addOrReplace
  rw [show decide (n > 0) = true from decide_eq_true hn, Outcome.check_true, Outcome.bind_ok, hk,
    Outcome.bind_ok, getCell_eq hkc, Outcome.bind_ok, if_pos hlt]

/-! ## Deviations -/

/-- A grid of 5 × 5 with cells of 2.5 × 2.5 and a point in the corner. -/
def halfGrid : Grid := ⟨5, 5, 5 / 2, 5 / 2, 2, 2, 1, fun k => if k = (0, 0) then [⟨0, 0, 1, 0⟩] else []⟩

theorem halfGrid_made : ∃ g0, create 5 5 (5 / 2) (5 / 2) = .ok g0 ∧ g0.add ⟨0, 0, 1, 0⟩ = .ok halfGrid := by
  have h1 : ⌈(5 : ℚ) / (5 / 2)⌉ = 2 := by rw [Int.ceil_eq_iff]; norm_num
  have c1 : cellCount 5 (5 / 2) = .ok 2 := by
    unfold cellCount; rw [if_neg (by norm_num), h1]; rfl
  refine ⟨⟨5, 5, 5 / 2, 5 / 2, 2, 2, 0, fun _ => []⟩, ?_, ?_⟩
  · unfold create
    rw [c1]
    norm_num
  · unfold Grid.add Grid.toCell Grid.validInput Grid.getCell Grid.validCell toSize
    norm_num [halfGrid, Grid.setCell]

/-- With cells of 2.5 pixels: the pixel (2, 2) is not masked although the place (2, 2) is in a full cell (the rectangle
ends at pixel 1), so a point detected there is added to a full cell or replaces another one. -/
theorem fractional_cells_refuted : ∃ m, occupancyMask euclid halfGrid 1 1 = .ok m ∧ m.px 2 2 = 255 ∧
    halfGrid.toCell 2 2 = .ok (0, 0) ∧ (halfGrid.cells (0, 0)).length = 1 := by
  obtain ⟨m, e, _, _, h⟩ := mask_pixels euclid halfGrid (radius := 1) (by norm_num) (n := 1) (by norm_num)
  have f5 : ⌊(5 : ℚ)⌋ = 5 := by rw [Int.floor_eq_iff]; norm_num
  have hin : InImage halfGrid 2 2 := by
    unfold InImage
    simp only [halfGrid, f5]
    norm_num
  have t1 : toInt 1 = 1 := by have := toInt_int 1; simpa using this
  have t0 : toInt 0 = 0 := by have := toInt_int 0; simpa using this
  have t2 : toInt (5 / 2 - 1) = 1 := by
    rw [toInt_floor (by norm_num), Int.floor_eq_iff]; norm_num
  refine ⟨m, e, ?_, ?_, by simp [halfGrid]⟩
  · rcases (h 2 2 hin).1 with h0 | h0
    · exfalso
      rcases (h 2 2 hin).2.1 h0 with ⟨p, hp, hd⟩ | ⟨k, _, hfull, hcov⟩
      · obtain ⟨k, _, hpk⟩ := mem_all.1 hp
        simp only [halfGrid] at hpk
        split at hpk
        · rw [List.mem_singleton] at hpk
          subst hpk
          simp only [t1, t0] at hd
          revert hd
          decide
        · cases hpk
      · simp only [halfGrid] at hfull
        split at hfull
        · next hk =>
          subst hk
          unfold Covers at hcov
          simp only [halfGrid, Nat.cast_zero, zero_mul, zero_add, one_mul, t0, t2] at hcov
          revert hcov
          decide
        · simp at hfull
    · exact h0
  · unfold Grid.toCell Grid.validInput toSize
    have : ⌊(2 : ℚ) / (5 / 2)⌋ = 0 := by rw [Int.floor_eq_iff]; norm_num
    simp only [halfGrid, this]
    norm_num

/-- A grid of 5 × 5 with one cell and a point in the middle of a pixel. -/
def oneGrid : Grid := ⟨5, 5, 5, 5, 1, 1, 1, fun k => if k = (0, 0) then [⟨2, 2, 1, 0⟩] else []⟩

/-- The radius is cut to whole pixels: with a radius of 1.9 the pixel diagonal to a point, at a distance of 1.42, is not
masked. -/
theorem radius_cut_refuted : ∃ m, occupancyMask euclid oneGrid (19 / 10) 2 = .ok m ∧ m.px 3 3 = 255 ∧
    ⟨2, 2, 1, 0⟩ ∈ oneGrid.all ∧ ((3 : ℚ) - 2) ^ 2 + (3 - 2) ^ 2 < (19 / 10) ^ 2 := by
  obtain ⟨m, e, _, _, h⟩ := mask_pixels euclid oneGrid (radius := 19 / 10) (by norm_num) (n := 2) (by norm_num)
  have f5 : ⌊(5 : ℚ)⌋ = 5 := by rw [Int.floor_eq_iff]; norm_num
  have hin : InImage oneGrid 3 3 := by
    unfold InImage
    simp only [oneGrid, f5]
    norm_num
  have t1 : toInt (19 / 10) = 1 := by
    rw [toInt_floor (by norm_num), Int.floor_eq_iff]; norm_num
  have t2 : toInt 2 = 2 := by have := toInt_int 2; simpa using this
  refine ⟨m, e, ?_, ?_, by norm_num⟩
  · rcases (h 3 3 hin).1 with h0 | h0
    · exfalso
      rcases (h 3 3 hin).2.1 h0 with ⟨p, hp, hd⟩ | ⟨k, _, hfull, hcov⟩
      · obtain ⟨k, _, hpk⟩ := mem_all.1 hp
        simp only [oneGrid] at hpk
        split at hpk
        · rw [List.mem_singleton] at hpk
          subst hpk
          simp only [t1, t2] at hd
          revert hd
          decide
        · cases hpk
      · simp only [oneGrid] at hfull
        split at hfull <;> simp at hfull
    · exact h0
  · rw [mem_all]
    exact ⟨(0, 0), by rw [mem_coords]; simp [oneGrid], by simp [oneGrid]⟩

/-- The hypotheses of `mask_meaning_partial` hold for a 5 × 6 grid with cells of 3 × 2 and the place (4.5, 3). -/
example : Inv exampleGrid ∧ exampleGrid.cellR = ((3 : Nat) : ℚ) ∧ exampleGrid.cellC = ((2 : Nat) : ℚ) ∧
    InImage exampleGrid ⌊(9 / 2 : ℚ)⌋ ⌊(3 : ℚ)⌋ := by
  have h1 : ⌊(9 / 2 : ℚ)⌋ = 4 := by rw [Int.floor_eq_iff]; norm_num
  have h2 : ⌊(3 : ℚ)⌋ = 3 := by rw [Int.floor_eq_iff]; norm_num
  have h3 : ⌊(5 : ℚ)⌋ = 5 := by rw [Int.floor_eq_iff]; norm_num
  have h4 : ⌊(6 : ℚ)⌋ = 6 := by rw [Int.floor_eq_iff]; norm_num
  refine ⟨exampleGrid_inv, by simp [exampleGrid], by simp [exampleGrid], ?_⟩
  unfold InImage
  rw [h1, h2]
  simp only [exampleGrid, h3, h4]
  norm_num

end Verif.OccupancyGrid.Mask
