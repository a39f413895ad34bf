import Verif.OccupancyGrid.Model
import Verif.StlHelpers.Props
import Mathlib.Tactic.Linarith
import Mathlib.Tactic.FieldSimp
import Mathlib.Tactic.Ring
import Mathlib.Tactic.NormNum
import Mathlib.Tactic.Positivity

/-!
# Occupancy grid: invariant and auxiliary facts
-/

namespace Verif.OccupancyGrid

open Verif (Outcome)
open Verif.StlHelpers

/-! ### Cells -/

theorem mem_coords {g : Grid} {k : Cell} : k ∈ g.coords ↔ k.1 < g.nR ∧ k.2 < g.nC := by
  obtain ⟨r, c⟩ := k
  simp [Grid.coords, List.mem_flatMap]

theorem coords_nodup (g : Grid) : g.coords.Nodup := by
  unfold Grid.coords
  rw [List.nodup_flatMap]
  refine ⟨fun r _ => ?_, ?_⟩
  · exact List.Nodup.map (fun a b h => by simpa using h) List.nodup_range
  · refine List.Pairwise.imp ?_ (List.nodup_range (n := g.nR))
    intro a b hab x hx hy
    simp only [List.mem_map] at hx hy
    obtain ⟨_, _, rfl⟩ := hx
    obtain ⟨_, _, h⟩ := hy
    exact hab (by simpa using (congrArg Prod.fst h).symm)

theorem validCell_iff {g : Grid} {k : Cell} : g.validCell k = true ↔ k ∈ g.coords := by
  rw [mem_coords]; simp [Grid.validCell]

theorem flatMap_congr' {α β : Type} {l : List α} {f g : α → List β} (h : ∀ a ∈ l, f a = g a) :
    l.flatMap f = l.flatMap g := by
  induction l with
  | nil => rfl
  | cons a l ih =>
    rw [List.flatMap_cons, List.flatMap_cons, h a List.mem_cons_self,
      ih (fun b hb => h b (List.mem_cons_of_mem _ hb))]

theorem flatMap_perm_congr {α β : Type} {l : List α} {f g : α → List β}
    (h : ∀ a ∈ l, (f a).Perm (g a)) : (l.flatMap f).Perm (l.flatMap g) := by
  induction l with
  | nil => exact List.Perm.refl _
  | cons a l ih =>
    rw [List.flatMap_cons, List.flatMap_cons]
    exact (h a List.mem_cons_self).append (ih (fun b hb => h b (List.mem_cons_of_mem _ hb)))

/-- All points: those of one cell and those of the others. -/
theorem all_split (g : Grid) {k : Cell} (hk : k ∈ g.coords) :
    g.all.Perm (g.cells k ++ (g.coords.erase k).flatMap g.cells) := by
  unfold Grid.all
  have := (List.perm_cons_erase hk).flatMap_right g.cells
  rwa [List.flatMap_cons] at this

theorem setCell_coords (g : Grid) (k : Cell) (l : List Pt) : (g.setCell k l).coords = g.coords := rfl

theorem setCell_same (g : Grid) (k : Cell) (l : List Pt) : (g.setCell k l).cells k = l := by
  simp [Grid.setCell]

theorem setCell_other (g : Grid) {k k' : Cell} (l : List Pt) (h : k' ≠ k) :
    (g.setCell k l).cells k' = g.cells k' := by
  simp [Grid.setCell, h]

theorem all_setCell (g : Grid) {k : Cell} (hk : k ∈ g.coords) (l : List Pt) :
    (g.setCell k l).all.Perm (l ++ (g.coords.erase k).flatMap g.cells) := by
  have h := all_split (g.setCell k l) (k := k) hk
  rw [setCell_same] at h
  have e : ((g.setCell k l).coords.erase k).flatMap (g.setCell k l).cells =
      (g.coords.erase k).flatMap g.cells := by
    rw [setCell_coords]
    apply flatMap_congr'
    intro a ha
    apply setCell_other
    intro h
    subst h
    exact (List.Nodup.not_mem_erase (coords_nodup g)) ha
  rwa [e] at h

theorem all_setCell_length (g : Grid) {k : Cell} (hk : k ∈ g.coords) (l : List Pt) :
    ((g.setCell k l).all.length : Int) = g.all.length - (g.cells k).length + l.length := by
  have h1 := (all_setCell g hk l).length_eq
  have h2 := (all_split g hk).length_eq
  simp only [List.length_append] at h1 h2
  omega

theorem mem_all {g : Grid} {p : Pt} : p ∈ g.all ↔ ∃ k ∈ g.coords, p ∈ g.cells k := by
  simp [Grid.all, List.mem_flatMap]

/-! ### The invariant -/

/-- Specification: the rectangle of cell `k` contains the coordinates. -/
def InCell (g : Grid) (k : Cell) (u v : ℚ) : Prop :=
  k.1 * g.cellR ≤ u ∧ u < (k.1 + 1) * g.cellR ∧ k.2 * g.cellC ≤ v ∧ v < (k.2 + 1) * g.cellC

/-- Specification: coordinates the grid is made for. -/
def InRange (g : Grid) (u v : ℚ) : Prop := 0 ≤ u ∧ u < g.maxR ∧ 0 ≤ v ∧ v < g.maxC

/-- Shape of the grid as made by the constructor. -/
structure Shape (g : Grid) : Prop where
  cellR : 0 < g.cellR
  cellC : 0 < g.cellC
  nR : (g.nR : Int) = ⌈g.maxR / g.cellR⌉
  nC : (g.nC : Int) = ⌈g.maxC / g.cellC⌉
  nRlt : g.nR < 2 ^ 64
  nClt : g.nC < 2 ^ 64

structure Inv (g : Grid) : Prop where
  shape : Shape g
  num : g.num = g.all.length
  placed : ∀ k ∈ g.coords, ∀ p ∈ g.cells k, InRange g p.u p.v ∧ InCell g k p.u p.v

theorem Shape.of_eq {g g' : Grid} (h : Shape g) (h1 : g'.maxR = g.maxR) (h2 : g'.maxC = g.maxC)
    (h3 : g'.cellR = g.cellR) (h4 : g'.cellC = g.cellC) (h5 : g'.nR = g.nR) (h6 : g'.nC = g.nC) :
    Shape g' := by
  constructor
  · rw [h3]; exact h.cellR
  · rw [h4]; exact h.cellC
  · rw [h5, h1, h3]; exact h.nR
  · rw [h6, h2, h4]; exact h.nC
  · rw [h5]; exact h.nRlt
  · rw [h6]; exact h.nClt

theorem toSize_ok {z : Int} {n : Nat} (h : toSize z = .ok n) : 0 ≤ z ∧ z < 2 ^ 64 ∧ z = n := by
  unfold toSize at h
  split at h
  · rename_i hz
    simp only [Outcome.ok.injEq] at h
    exact ⟨hz.1, hz.2, by omega⟩
  · simp at h

theorem floor_cell {u mx cl : ℚ} {n : Nat} (hc : 0 < cl) (hn : (n : Int) = ⌈mx / cl⌉) (h0 : 0 ≤ u)
    (hu : u < mx) : 0 ≤ ⌊u / cl⌋ ∧ ⌊u / cl⌋ < n := by
  refine ⟨Int.floor_nonneg.mpr (div_nonneg h0 hc.le), ?_⟩
  rw [hn, Int.floor_lt]
  have h1 : u / cl < mx / cl := by
    rw [div_lt_div_iff_of_pos_right hc]; exact hu
  exact lt_of_lt_of_le h1 (Int.le_ceil _)

theorem floor_bounds {u cl : ℚ} (hc : 0 < cl) {n : Nat} (hn : ⌊u / cl⌋ = (n : Int)) :
    n * cl ≤ u ∧ u < (n + 1) * cl := by
  have h1 := Int.floor_le (u / cl)
  have h2 := Int.lt_floor_add_one (u / cl)
  rw [hn] at h1 h2
  simp only [Int.cast_natCast] at h1 h2
  rw [le_div_iff₀ hc] at h1
  rw [div_lt_iff₀ hc] at h2
  exact ⟨h1, h2⟩

theorem validInput_iff {g : Grid} {u v : ℚ} : g.validInput u v = true ↔ InRange g u v := by
  simp only [Grid.validInput, Bool.and_eq_true, decide_eq_true_eq, InRange, ge_iff_le]
  tauto

/-- Coordinates in range have a cell. -/
theorem toCell_of_inRange {g : Grid} (hs : Shape g) {u v : ℚ} (h : InRange g u v) :
    ∃ k, g.toCell u v = .ok k ∧ k ∈ g.coords ∧ InCell g k u v := by
  obtain ⟨a1, a2⟩ := floor_cell hs.cellR hs.nR h.1 h.2.1
  obtain ⟨b1, b2⟩ := floor_cell hs.cellC hs.nC h.2.2.1 h.2.2.2
  have hr := hs.nRlt
  have hc := hs.nClt
  refine ⟨(⌊u / g.cellR⌋.toNat, ⌊v / g.cellC⌋.toNat), ?_, ?_, ?_⟩
  · unfold Grid.toCell toSize
    rw [validInput_iff.mpr h, Outcome.check_true, Outcome.bind_ok, if_pos ⟨a1, by omega⟩,
      Outcome.bind_ok, if_pos ⟨b1, by omega⟩, Outcome.bind_ok]
  · rw [mem_coords]; simp only; omega
  · have h1 := floor_bounds hs.cellR (u := u) (n := ⌊u / g.cellR⌋.toNat) (by omega)
    have h2 := floor_bounds hs.cellC (u := v) (n := ⌊v / g.cellC⌋.toNat) (by omega)
    exact ⟨h1.1, h1.2, h2.1, h2.2⟩

theorem toCell_of_not_inRange {g : Grid} {u v : ℚ} (h : ¬ InRange g u v) :
    g.toCell u v = .abort := by
  unfold Grid.toCell
  have : g.validInput u v = false := by
    rw [← Bool.not_eq_true, validInput_iff]; exact h
  rw [this, Outcome.check_false, Outcome.bind_abort]

theorem toCell_ok {g : Grid} (hs : Shape g) {u v : ℚ} {k : Cell} (h : g.toCell u v = .ok k) :
    InRange g u v ∧ k ∈ g.coords ∧ InCell g k u v := by
  by_cases hr : InRange g u v
  · obtain ⟨k', h1, h2, h3⟩ := toCell_of_inRange hs hr
    rw [h1, Outcome.ok.injEq] at h
    subst h
    exact ⟨hr, h2, h3⟩
  · rw [toCell_of_not_inRange hr] at h; simp at h

theorem getCell_eq {g : Grid} {k : Cell} (hk : k ∈ g.coords) : g.getCell k = .ok (g.cells k) := by
  unfold Grid.getCell
  rw [validCell_iff.mpr hk, Outcome.check_true, Outcome.bind_ok]

theorem getCell_ok {g : Grid} {k : Cell} {l : List Pt} (h : g.getCell k = .ok l) :
    k ∈ g.coords ∧ l = g.cells k := by
  unfold Grid.getCell at h
  rw [Outcome.bind_eq_ok] at h
  obtain ⟨_, h1, h2⟩ := h
  rw [Outcome.check_eq_ok, validCell_iff] at h1
  simp only [Outcome.ok.injEq] at h2
  exact ⟨h1, h2.symm⟩

/-- Replacing the content of one cell keeps the invariant. -/
theorem Inv.setCell {g : Grid} (h : Inv g) {k : Cell} (hk : k ∈ g.coords) (l : List Pt) (n : Int)
    (hl : ∀ p ∈ l, InRange g p.u p.v ∧ InCell g k p.u p.v)
    (hn : n = g.num - (g.cells k).length + l.length) :
    Inv { g.setCell k l with num := n } := by
  refine ⟨h.shape.of_eq rfl rfl rfl rfl rfl rfl, ?_, ?_⟩
  · have := all_setCell_length g hk l
    have h2 := h.num
    show n = (((g.setCell k l).all.length : Nat) : Int)
    omega
  · intro k' hk' p hp
    change k' ∈ g.coords at hk'
    change p ∈ (g.setCell k l).cells k' at hp
    by_cases e : k' = k
    · subst e
      rw [setCell_same] at hp
      exact hl p hp
    · rw [setCell_other g l e] at hp
      exact h.placed k' hk' p hp

theorem Inv.of_create {maxR maxC cellR cellC : ℚ} {g : Grid} (h : create maxR maxC cellR cellC = .ok g) :
    Inv g ∧ g.all = [] ∧ g.maxR = maxR ∧ g.maxC = maxC ∧ g.cellR = cellR ∧ g.cellC = cellC := by
  unfold create at h
  simp only [Outcome.bind_eq_ok, Outcome.ok.injEq] at h
  obtain ⟨_, h1, _, h2, _, h3, _, h4, nR, hR, nC, hC, _, h5, _, h6, rfl⟩ := h
  rw [Outcome.check_eq_ok, decide_eq_true_eq] at h1 h2 h5 h6
  have aux : ∀ {mx cl : ℚ} {n : Nat}, 0 < mx → 0 < n → cellCount mx cl = .ok n →
      0 < cl ∧ (n : Int) = ⌈mx / cl⌉ ∧ n < 2 ^ 64 := by
    intro mx cl n hm hn hc
    unfold cellCount at hc
    split at hc
    · simp at hc
    · rename_i hz
      obtain ⟨a, b, c⟩ := toSize_ok hc
      refine ⟨?_, c.symm, by omega⟩
      rcases lt_trichotomy cl 0 with hlt | he | hgt
      · exfalso
        have : ⌈mx / cl⌉ ≤ 0 := by
          rw [Int.ceil_le]
          have := div_neg_of_pos_of_neg hm hlt
          push_cast
          exact this.le
        omega
      · exact absurd he hz
      · exact hgt
  obtain ⟨a1, a2, a3⟩ := aux h1 h5 hR
  obtain ⟨b1, b2, b3⟩ := aux h2 h6 hC
  have hall : (⟨maxR, maxC, cellR, cellC, nR, nC, 0, fun _ => []⟩ : Grid).all = [] := by
    unfold Grid.all
    rw [List.flatMap_eq_nil_iff]
    intro x _; rfl
  refine ⟨⟨⟨a1, b1, a2, b2, a3, b3⟩, ?_, ?_⟩, hall, rfl, rfl, rfl, rfl⟩
  · rw [hall]; rfl
  · intro k _ p hp; simp at hp

/-! ### Weakest point of a cell -/

theorem minElement_lt : ∀ {l : List Pt}, l ≠ [] → minElement l < l.length
  | [], h => absurd rfl h
  | a :: l, _ => by
    unfold minElement
    split
    · simp
    · rename_i b hb
      have := (List.getElem?_eq_some_iff.mp hb).1
      split
      · simp; omega
      · simp

theorem minElement_min : ∀ {l : List Pt} {m : Pt}, l[minElement l]? = some m → ∀ q ∈ l, m.w ≤ q.w
  | [], m, h => by simp at h
  | a :: l, m, h => by
    unfold minElement at h
    split at h
    · rename_i hn
      have hl : l = [] := by
        by_contra hne
        rw [List.getElem?_eq_none_iff] at hn
        have := minElement_lt hne
        omega
      subst hl
      simp only [List.getElem?_cons_zero, Option.some.injEq] at h
      subst h
      intro q hq
      simp only [List.mem_cons, List.not_mem_nil, or_false] at hq
      rw [hq]
    · rename_i b hb
      have ih := minElement_min hb
      split at h
      · rename_i hlt
        rw [List.getElem?_cons_succ, hb, Option.some.injEq] at h
        subst h
        intro q hq
        rcases List.mem_cons.mp hq with rfl | hq
        · exact hlt.le
        · exact ih q hq
      · rename_i hlt
        simp only [List.getElem?_cons_zero, Option.some.injEq] at h
        subst h
        intro q hq
        rcases List.mem_cons.mp hq with rfl | hq
        · exact le_refl _
        · exact le_trans (not_lt.mp hlt) (ih q hq)

theorem set_perm {l : List Pt} {i : Nat} {m p : Pt} (h : l[i]? = some m) :
    ∃ rest, l.Perm (m :: rest) ∧ (l.set i p).Perm (p :: rest) := by
  obtain ⟨hi, he⟩ := List.getElem?_eq_some_iff.mp h
  refine ⟨l.take i ++ l.drop (i + 1), ?_, ?_⟩
  · have : l = l.take i ++ m :: l.drop (i + 1) := by
      rw [← he, List.cons_getElem_drop_succ, List.take_append_drop]
    conv_lhs => rw [this]
    exact List.perm_middle
  · rw [List.set_eq_take_append_cons_drop, if_pos hi]
    exact List.perm_middle

/-! ### Thinning a cell -/

theorem psort_split {lib : Lib} (hv : lib.Valid) {n : Nat} {l : List Pt} (h : n < l.length) :
    ((lib.psort (n + 1) l).take n ++ (lib.psort (n + 1) l).drop n).Perm l ∧
    ((lib.psort (n + 1) l).take n).length = n ∧
    ∀ a ∈ (lib.psort (n + 1) l).take n, ∀ b ∈ (lib.psort (n + 1) l).drop n, b.w ≤ a.w := by
  have hp := hv.psort (n + 1) l (by omega)
  generalize lib.psort (n + 1) l = s at hp
  have hlen := hp.perm.length_eq
  refine ⟨by rw [List.take_append_drop]; exact hp.perm, by simp only [List.length_take]; omega, ?_⟩
  intro a ha b hb
  have hn : n < s.length := by omega
  have hsplit : s.take (n + 1) = s.take n ++ [s[n]] := by
    rw [List.take_succ_eq_append_getElem hn]
  rw [List.drop_eq_getElem_cons hn] at hb
  have hnot : ∀ x y : Pt, decide (x.w > y.w) = false → x.w ≤ y.w := by
    intro x y hxy; simpa using hxy
  rcases List.mem_cons.mp hb with rfl | hb
  · have := hp.sorted
    rw [hsplit] at this
    exact hnot _ _ ((List.pairwise_append.mp this).2.2 a ha _ (by simp))
  · exact hnot _ _ (hp.front a (by rw [hsplit]; exact List.mem_append_left _ ha) b hb)

theorem psort_mem {lib : Lib} (hv : lib.Valid) {n : Nat} {l : List Pt} (h : n < l.length) {p : Pt}
    (hp : p ∈ (lib.psort (n + 1) l).take n) : p ∈ l :=
  (psort_split hv h).1.mem_iff.mp (List.mem_append_left _ hp)

/-- Specification of thinning one cell: what is left of `l` when at most `n` points may stay. -/
def Thinned (n : Nat) (l l' : List Pt) : Prop :=
  l'.length = min n l.length ∧ ∃ dropped, (l' ++ dropped).Perm l ∧
    ∀ a ∈ l', ∀ b ∈ dropped, b.w ≤ a.w

theorem thinCell_eq {lib : Lib} (hv : lib.Valid) {g : Grid} {k : Cell} {n : Nat} (hn : 0 < n)
    (hk : k ∈ g.coords) : ∃ l, g.thinCell lib k n =
      .ok ({ g.setCell k l with num := g.num - ((g.cells k).length - l.length : Nat) },
        (g.cells k).length - l.length) ∧ Thinned n (g.cells k) l := by
  unfold Grid.thinCell
  rw [show decide (n > 0) = true from decide_eq_true hn, Outcome.check_true, Outcome.bind_ok,
    getCell_eq hk, Outcome.bind_ok]
  by_cases hle : (g.cells k).length ≤ n
  · refine ⟨g.cells k, ?_, by omega, [], by simp, by simp⟩
    rw [if_pos hle]
    simp only [Nat.sub_self]
    congr 2
    have : g.setCell k (g.cells k) = g := by
      unfold Grid.setCell
      congr 1
      funext k'
      split
      · rename_i e; rw [e]
      · rfl
    rw [this]
    simp
  · have hs := psort_split hv (n := n) (l := g.cells k) (by omega)
    refine ⟨(lib.psort (n + 1) (g.cells k)).take n, ?_, by omega, _, hs.1, hs.2.2⟩
    rw [if_neg hle]
    simp only [hs.2.1]

theorem Thinned.mem {n : Nat} {l l' : List Pt} (h : Thinned n l l') {p : Pt} (hp : p ∈ l') : p ∈ l := by
  obtain ⟨_, d, h1, _⟩ := h
  exact h1.mem_iff.mp (List.mem_append_left _ hp)

theorem Inv.thinCell {lib : Lib} (hv : lib.Valid) {g : Grid} (h : Inv g) {k : Cell} {n : Nat}
    {r : Grid × Nat} (hr : g.thinCell lib k n = .ok r) : Inv r.1 := by
  have h0 := hr
  unfold Grid.thinCell at h0
  rw [Outcome.bind_eq_ok] at h0
  obtain ⟨_, h1, h0⟩ := h0
  rw [Outcome.check_eq_ok, decide_eq_true_eq] at h1
  rw [Outcome.bind_eq_ok] at h0
  obtain ⟨l, h2, _⟩ := h0
  obtain ⟨hk, _⟩ := getCell_ok h2
  obtain ⟨l', e, ht⟩ := thinCell_eq hv h1 hk (n := n) (g := g)
  rw [e, Outcome.ok.injEq] at hr
  subst hr
  apply h.setCell hk
  · intro p hp
    exact h.placed k hk p (ht.mem hp)
  · have := ht.1
    omega

end Verif.OccupancyGrid
