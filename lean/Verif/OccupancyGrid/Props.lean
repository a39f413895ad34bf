import Verif.OccupancyGrid.MinDist

/-!
# C16–C20: the weighted occupancy grid
-/

namespace Verif.OccupancyGrid

open Verif (Outcome)
open Verif.StlHelpers

/-! ## Examples used below -/

/-- A library that sorts completely and iterates in insertion order; weights above -1000. -/
def exampleLib : Lib :=
  ⟨fun _ l => l.mergeSort (fun a b => decide (b.w ≤ a.w)), id, -1000⟩

theorem exampleLib_valid : exampleLib.Valid := by
  refine ⟨fun m l _ => ?_, fun l => List.Perm.refl _⟩
  have hp : (l.mergeSort (fun a b => decide (b.w ≤ a.w))).Pairwise (fun a b => b.w ≤ a.w) := by
    have := List.pairwise_mergeSort (le := fun a b : Pt => decide (b.w ≤ a.w))
      (by intro a b c h1 h2; simp only [decide_eq_true_eq] at *; linarith)
      (by intro a b; simp only [Bool.or_eq_true, decide_eq_true_eq]; exact le_total _ _) l
    exact this.imp (by intro a b h; simpa using h)
  refine ⟨List.mergeSort_perm _ _, ?_, ?_⟩
  · exact (hp.sublist (List.take_sublist _ _)).imp (by intro a b h; simpa using h)
  · intro a ha b hb
    change a ∈ (l.mergeSort (fun a b => decide (b.w ≤ a.w))).take m at ha
    change b ∈ (l.mergeSort (fun a b => decide (b.w ≤ a.w))).drop m at hb
    rw [← List.take_append_drop m (l.mergeSort (fun a b => decide (b.w ≤ a.w)))] at hp
    have := (List.pairwise_append.mp hp).2.2 a ha b hb
    simpa using this

/-- A grid of 2 × 3 cells: 5 × 6 with cells of 3 × 2. -/
def exampleGrid : Grid := ⟨5, 6, 3, 2, 2, 3, 0, fun _ => []⟩

theorem exampleGrid_create : create 5 6 3 2 = .ok exampleGrid := by
  have h1 : ⌈(5 : ℚ) / 3⌉ = 2 := by rw [Int.ceil_eq_iff]; norm_num
  have h2 : ⌈(6 : ℚ) / 2⌉ = 3 := by rw [Int.ceil_eq_iff]; norm_num
  have c1 : cellCount 5 3 = .ok 2 := by
    unfold cellCount; rw [if_neg (by norm_num), h1]; rfl
  have c2 : cellCount 6 2 = .ok 3 := by
    unfold cellCount; rw [if_neg (by norm_num), h2]; rfl
  unfold create
  rw [c1, c2]
  norm_num [exampleGrid]

theorem exampleGrid_inv : Inv exampleGrid := (Inv.of_create exampleGrid_create).1

/-! ## C16 -/

/-- **C16 (cells).** Coordinates inside the input range lie in exactly the cell that is computed for
them, and that cell exists. -/
theorem cell_exists {g : Grid} (hs : Shape g) {u v : ℚ}
    (h0 : 0 ≤ u) (h1 : u < g.maxR) (h2 : 0 ≤ v) (h3 : v < g.maxC) :
    ∃ r c, g.toCell u v = .ok (r, c) ∧ r < g.nR ∧ c < g.nC ∧
      r * g.cellR ≤ u ∧ u < (r + 1) * g.cellR ∧ c * g.cellC ≤ v ∧ v < (c + 1) * g.cellC := by
  obtain ⟨k, a, b, c⟩ := toCell_of_inRange hs ⟨h0, h1, h2, h3⟩
  rw [mem_coords] at b
  exact ⟨k.1, k.2, a, b.1, b.2, c⟩

/-- **C16 (cells, rejection).** Coordinates outside of the range abort. -/
theorem cell_rejects (g : Grid) {u v : ℚ} (h : u < 0 ∨ g.maxR ≤ u ∨ v < 0 ∨ g.maxC ≤ v) :
    g.toCell u v = .abort := by
  apply toCell_of_not_inRange
  rintro ⟨a, b, c, d⟩
  rcases h with h | h | h | h <;> linarith

theorem foldl_thin {lib : Lib} (hv : lib.Valid) {n : Nat} (hn : 0 < n) :
    ∀ {ks : List Cell} {g : Grid} {c : Nat}, Inv g → ks.Nodup → (∀ k ∈ ks, k ∈ g.coords) →
    ∃ g', ks.foldlM (fun (s : Grid × Nat) k => do
      let r ← s.1.thinCell lib k n
      .ok (r.1, s.2 + r.2)) (g, c) = Outcome.ok (g', c + (g.num - g'.num).toNat) ∧ Inv g' ∧
      g'.num ≤ g.num ∧
      (∃ m, g' = { g with num := m, cells := g'.cells }) ∧
      (∀ k ∈ ks, Thinned n (g.cells k) (g'.cells k)) ∧ (∀ k, k ∉ ks → g'.cells k = g.cells k)
  | [], g, c, h, _, _ => ⟨g, by simp, h, le_refl _, ⟨g.num, rfl⟩, by simp, by simp⟩
  | k :: ks, g, c, h, hnd, hk => by
    obtain ⟨h1, h2⟩ := List.nodup_cons.mp hnd
    have hkc := hk k List.mem_cons_self
    obtain ⟨l, e, ht⟩ := thinCell_eq hv hn hkc
    have hinv : Inv { g.setCell k l with num := g.num - ((g.cells k).length - l.length : Nat) } :=
      Inv.thinCell hv h e
    obtain ⟨g', a1, a2, a3, ⟨m, a4⟩, a5, a6⟩ := foldl_thin hv hn (ks := ks)
      (c := c + ((g.cells k).length - l.length)) hinv h2
      (fun k' hk' => hk k' (List.mem_cons_of_mem _ hk'))
    have hlen : l.length ≤ (g.cells k).length := by rw [ht.1]; omega
    change g'.num ≤ g.num - ((g.cells k).length - l.length : Nat) at a3
    refine ⟨g', ?_, a2, by omega, ⟨m, a4⟩, ?_, ?_⟩
    · rw [List.foldlM_cons]
      simp only [e, Outcome.bind_ok]
      rw [a1]
      congr 2
      show c + ((g.cells k).length - l.length) +
        (g.num - ((g.cells k).length - l.length : Nat) - g'.num).toNat = _
      omega
    · intro k' hk'
      rcases List.mem_cons.mp hk' with rfl | hk'
      · rw [a6 _ h1]
        show Thinned n _ ((g.setCell k' l).cells k')
        rw [setCell_same]; exact ht
      · have := a5 k' hk'
        change Thinned n ((g.setCell k l).cells k') _ at this
        rwa [setCell_other g l (by intro heq; rw [heq] at hk'; exact h1 hk')] at this
    · intro k' hk'
      rw [List.mem_cons, not_or] at hk'
      rw [a6 k' hk'.2]
      exact setCell_other g l hk'.1

theorem Inv.thinCells {lib : Lib} (hv : lib.Valid) {g : Grid} (h : Inv g) {n : Nat}
    {r : Grid × Nat} (hr : g.thinCells lib n = .ok r) : Inv r.1 := by
  unfold Grid.thinCells at hr
  rw [Outcome.bind_eq_ok] at hr
  obtain ⟨_, h1, hr⟩ := hr
  rw [Outcome.check_eq_ok, decide_eq_true_eq] at h1
  obtain ⟨g', a1, a2, _⟩ := foldl_thin hv h1 (c := 0) h (coords_nodup g) (fun k hk => hk)
  rw [a1, Outcome.ok.injEq] at hr
  subst hr
  exact a2

theorem Inv.thinTurn {lib : Lib} (hv : lib.Valid) {g g' : Grid} (h : Inv g)
    (hr : g.thinTurn lib = .ok g') : Inv g' := by
  unfold Grid.thinTurn at hr
  simp only at hr
  rw [Outcome.bind_eq_ok] at hr
  obtain ⟨l, h1, hr⟩ := hr
  rw [Outcome.bind_eq_ok] at hr
  obtain ⟨r, h2, hr⟩ := hr
  simp only [Outcome.ok.injEq] at hr
  subst hr
  exact h.thinCell hv h2

theorem Inv.thinLoop {lib : Lib} (hv : lib.Valid) {n : Nat} : ∀ {fuel : Nat} {g g' : Grid}, Inv g →
    g.thinLoop lib n fuel = some (.ok g') → Inv g'
  | 0, g, g', h, hr => by
    unfold Grid.thinLoop at hr
    split at hr
    · simp at hr
    · simp only [Option.some.injEq, Outcome.ok.injEq] at hr; subst hr; exact h
  | fuel + 1, g, g', h, hr => by
    unfold Grid.thinLoop at hr
    split at hr
    · simp only at hr
      split at hr
      · rename_i g1 h1
        exact Inv.thinLoop hv (h.thinTurn hv h1) hr
      all_goals simp at hr
    · simp only [Option.some.injEq, Outcome.ok.injEq] at hr; subst hr; exact h

theorem addMinDist_ok {lib : Lib} (hv : lib.Valid) {g g' : Grid} (h : Inv g) {p : Pt} {d : ℚ}
    (hr : g.addMinDist lib p d = .ok g') :
    Inv g' ∧ Inserted p d g.all g'.all ∧ 0 < d ∧ d ≤ g.cellR ∧ d ≤ g.cellC ∧
      ∃ n, g' = { g with num := n, cells := g'.cells } := by
  have h0 := hr
  unfold Grid.addMinDist at h0
  rw [Outcome.bind_eq_ok] at h0
  obtain ⟨_, h1, h0⟩ := h0
  rw [Outcome.check_eq_ok, decide_eq_true_eq] at h1
  rw [Outcome.bind_eq_ok] at h0
  obtain ⟨_, h2, h0⟩ := h0
  rw [Outcome.check_eq_ok, decide_eq_true_eq, le_min_iff] at h2
  rw [Outcome.bind_eq_ok] at h0
  obtain ⟨k, h3, _⟩ := h0
  obtain ⟨hin, _⟩ := toCell_ok h.shape h3
  rcases addMinDist_cases hv h h1 h2.2 h2.1 hin with ⟨g2, a, b, c, e⟩ | ⟨a, _⟩
  · rw [a, Outcome.ok.injEq] at hr
    subst hr
    exact ⟨b, c, h1, h2.2, h2.1, e⟩
  · rw [a] at hr; simp at hr

theorem add_ok {g g' : Grid} (h : Inv g) {p : Pt} (hr : g.add p = .ok g') :
    Inv g' ∧ g'.all.Perm (p :: g.all) ∧ ∃ n, g' = { g with num := n, cells := g'.cells } := by
  unfold Grid.add at hr
  rw [Outcome.bind_eq_ok] at hr
  obtain ⟨k, h1, hr⟩ := hr
  obtain ⟨hin, hk, hc⟩ := toCell_ok h.shape h1
  rw [getCell_eq hk, Outcome.bind_ok, Outcome.ok.injEq] at hr
  subst hr
  refine ⟨h.setCell hk _ _ ?_ (by simp; omega), ?_, g.num + 1, rfl⟩
  · intro q hq
    rcases List.mem_append.mp hq with hq | hq
    · exact h.placed k hk q hq
    · simp only [List.mem_singleton] at hq
      subst hq; exact ⟨hin, hc⟩
  · show ((g.setCell k (g.cells k ++ [p])).all).Perm _
    refine (all_setCell g hk _).trans ?_
    rw [List.append_assoc]
    exact (List.perm_middle (l₁ := g.cells k)).trans ((all_split g hk).symm.cons p)

/-- What `addPointOrReplaceWeakestIfCellFull` does to the cell of the point. -/
theorem addOrReplace_cell {g : Grid} (h : Inv g) {p : Pt} {n : Nat} (hn : 0 < n) {k : Cell}
    (hk : g.toCell p.u p.v = .ok k) :
    ∃ g' b, g.addOrReplace p n = .ok (g', b) ∧ Inv g' ∧
      (∃ m, g' = { g with num := m, cells := g'.cells }) ∧
      (∀ k', k' ≠ k → g'.cells k' = g.cells k') ∧
      (((g.cells k).length < n ∧ b = true ∧ g'.cells k = g.cells k ++ [p]) ∨
       (n ≤ (g.cells k).length ∧ ∃ m rest, (g.cells k).Perm (m :: rest) ∧ (∀ q ∈ g.cells k, m.w ≤ q.w) ∧
        ((m.w < p.w ∧ b = true ∧ (g'.cells k).Perm (p :: rest)) ∨
         (p.w ≤ m.w ∧ b = false ∧ g'.cells k = g.cells k)))) := by
  obtain ⟨hin, hkc, hc⟩ := toCell_ok h.shape hk
  unfold Grid.addOrReplace
  rw [show decide (n > 0) = true from decide_eq_true hn, Outcome.check_true, Outcome.bind_ok, hk,
    Outcome.bind_ok, getCell_eq hkc, Outcome.bind_ok]
  by_cases hlt : (g.cells k).length < n
  · rw [if_pos hlt]
    refine ⟨_, _, rfl, ?_, ⟨g.num + 1, rfl⟩, ?_, Or.inl ⟨hlt, rfl, ?_⟩⟩
    · apply h.setCell hkc
      · intro q hq
        rcases List.mem_append.mp hq with hq | hq
        · exact h.placed k hkc q hq
        · simp only [List.mem_singleton] at hq
          subst hq; exact ⟨hin, hc⟩
      · simp; omega
    · intro k' hne; exact setCell_other g _ hne
    · exact setCell_same g _ _
  · rw [if_neg hlt]
    have hne : g.cells k ≠ [] := by
      intro he; rw [he] at hlt; simp at hlt; omega
    have hml := minElement_lt hne
    have hm : (g.cells k)[minElement (g.cells k)]? = some (g.cells k)[minElement (g.cells k)] :=
      List.getElem?_eq_getElem hml
    obtain ⟨rest, p1, p2⟩ := set_perm (p := p) hm
    have hmin := minElement_min hm
    rw [hm]
    simp only
    by_cases hw : ((g.cells k)[minElement (g.cells k)]).w < p.w
    · rw [if_pos hw]
      refine ⟨_, _, rfl, ?_, ⟨g.num, rfl⟩, fun k' hk' => setCell_other g _ hk',
        Or.inr ⟨by omega, _, rest, p1, hmin, Or.inl ⟨hw, rfl, ?_⟩⟩⟩
      · have := h.setCell hkc ((g.cells k).set (minElement (g.cells k)) p) g.num ?_ (by simp)
        · exact this
        · intro q hq
          rcases List.mem_cons.mp (p2.mem_iff.mp hq) with rfl | hq
          · exact ⟨hin, hc⟩
          · exact h.placed k hkc q (p1.mem_iff.mpr (List.mem_cons_of_mem _ hq))
      · rw [setCell_same]; exact p2
    · rw [if_neg hw]
      exact ⟨_, _, rfl, h, ⟨g.num, rfl⟩, fun _ _ => rfl,
        Or.inr ⟨by omega, _, rest, p1, hmin, Or.inr ⟨not_lt.mp hw, rfl, rfl⟩⟩⟩

theorem Inv.addOrReplace {g : Grid} (h : Inv g) {p : Pt} {n : Nat} {r : Grid × Bool}
    (hr : g.addOrReplace p n = .ok r) : Inv r.1 := by
  have h0 := hr
  unfold Grid.addOrReplace at h0
  rw [Outcome.bind_eq_ok] at h0
  obtain ⟨_, h1, h0⟩ := h0
  rw [Outcome.check_eq_ok, decide_eq_true_eq] at h1
  rw [Outcome.bind_eq_ok] at h0
  obtain ⟨k, h2, _⟩ := h0
  obtain ⟨g', b, e, hi, _⟩ := addOrReplace_cell h h1 h2
  rw [e, Outcome.ok.injEq] at hr
  subst hr
  exact hi

theorem Inv.reset {g : Grid} (h : Inv g) : Inv g.reset ∧ g.reset.all = [] := by
  have hall : g.reset.all = [] := by
    unfold Grid.all
    rw [List.flatMap_eq_nil_iff]
    intro k hk
    change k ∈ g.coords at hk
    simp [Grid.reset, validCell_iff.mpr hk]
  refine ⟨⟨h.shape.of_eq rfl rfl rfl rfl rfl rfl, by rw [hall]; rfl, ?_⟩, hall⟩
  intro k hk p hp
  exfalso
  have : p ∈ g.reset.all := mem_all.mpr ⟨k, hk, hp⟩
  rw [hall] at this; simp at this

theorem Inv.setWeight {g : Grid} (h : Inv g) (w : ℚ) :
    Inv (g.setWeight w) ∧ (g.setWeight w).all = g.all.map (fun p => { p with w := w }) := by
  have hcell : ∀ k ∈ g.coords, (g.setWeight w).cells k = (g.cells k).map (fun p => { p with w := w }) := by
    intro k hk
    simp [Grid.setWeight, validCell_iff.mpr hk]
  have hall : (g.setWeight w).all = g.all.map (fun p => { p with w := w }) := by
    unfold Grid.all
    rw [List.map_flatMap]
    exact flatMap_congr' hcell
  refine ⟨⟨h.shape.of_eq rfl rfl rfl rfl rfl rfl, ?_, ?_⟩, hall⟩
  · rw [hall, List.length_map]; exact h.num
  · intro k hk p hp
    rw [hcell k hk, List.mem_map] at hp
    obtain ⟨q, hq, rfl⟩ := hp
    exact h.placed k hk q hq

theorem Inv.step {lib : Lib} (hv : lib.Valid) {g g' : Grid} (h : Inv g) {op : Op}
    (hs : step lib g op = some (.ok g')) : Inv g' := by
  cases op with
  | reset => simp only [OccupancyGrid.step, Option.some.injEq, Outcome.ok.injEq] at hs; subst hs; exact h.reset.1
  | add p => simp only [OccupancyGrid.step, Option.some.injEq] at hs; exact (add_ok h hs).1
  | addOrReplace p n =>
    simp only [OccupancyGrid.step, Option.some.injEq] at hs
    rw [Outcome.bind_eq_ok] at hs
    obtain ⟨r, h1, h2⟩ := hs
    simp only [Outcome.ok.injEq] at h2
    subst h2
    exact h.addOrReplace h1
  | addMinDist p d => simp only [OccupancyGrid.step, Option.some.injEq] at hs; exact (addMinDist_ok hv h hs).1
  | setWeight w =>
    simp only [OccupancyGrid.step, Option.some.injEq, Outcome.ok.injEq] at hs; subst hs; exact (h.setWeight w).1
  | thinCell k n =>
    simp only [OccupancyGrid.step, Option.some.injEq] at hs
    rw [Outcome.bind_eq_ok] at hs
    obtain ⟨r, h1, h2⟩ := hs
    simp only [Outcome.ok.injEq] at h2
    subst h2
    exact h.thinCell hv h1
  | thinCells n =>
    simp only [OccupancyGrid.step, Option.some.injEq] at hs
    rw [Outcome.bind_eq_ok] at hs
    obtain ⟨r, h1, h2⟩ := hs
    simp only [Outcome.ok.injEq] at h2
    subst h2
    exact h.thinCells hv h1
  | thinUntil n fuel =>
    simp only [OccupancyGrid.step, Grid.thinUntil] at hs
    split at hs
    · exact Inv.thinLoop hv h hs
    · simp at hs

theorem Inv.of_reachable {lib : Lib} (hv : lib.Valid) {g : Grid} (h : Reachable lib g) : Inv g := by
  induction h with
  | create hc => exact (Inv.of_create hc).1
  | step _ hs ih => exact ih.step hv hs

/-- **C16 (bookkeeping).** After any sequence of calls every stored point lies in the rectangle of its cell
and in the input range, `getAllPointsInGrid` does not abort and lists every point as often as it is stored
in the cells, and `getNumPoints` is the length of that list. -/
theorem bookkeeping {lib : Lib} (hv : lib.Valid) {g : Grid} (h : Reachable lib g) :
    (∀ r < g.nR, ∀ c < g.nC, ∀ p ∈ g.cells (r, c),
      0 ≤ p.u ∧ p.u < g.maxR ∧ 0 ≤ p.v ∧ p.v < g.maxC ∧
      r * g.cellR ≤ p.u ∧ p.u < (r + 1) * g.cellR ∧ c * g.cellC ≤ p.v ∧ p.v < (c + 1) * g.cellC) ∧
    ∃ l, g.getAll = .ok l ∧ g.num = l.length ∧
      ∀ p, l.count p = ((List.range g.nR).map fun r =>
        ((List.range g.nC).map fun c => (g.cells (r, c)).count p).sum).sum := by
  have hinv := Inv.of_reachable hv h
  refine ⟨?_, g.all, ?_, hinv.num, ?_⟩
  · intro r hr c hc p hp
    obtain ⟨⟨a1, a2, a3, a4⟩, b⟩ := hinv.placed (r, c) (mem_coords.mpr ⟨hr, hc⟩) p hp
    exact ⟨a1, a2, a3, a4, b⟩
  · unfold Grid.getAll
    rw [show decide ((g.all.length : Int) = g.num) = true from decide_eq_true hinv.num.symm,
      Outcome.check_true, Outcome.bind_ok]
  · intro p
    unfold Grid.all Grid.coords
    rw [List.flatMap_assoc, List.count_flatMap]
    congr 1
    apply List.map_congr_left
    intro r _
    simp only [Function.comp]
    rw [List.flatMap_map, List.count_flatMap]
    rfl

/-- **C16 (unconditional insertion).** The returned points are the old ones and the new one. -/
theorem add_exact {g : Grid} (h : Inv g) (p : Pt) (hin : InRange g p.u p.v) :
    ∃ g', g.add p = .ok g' ∧ g'.all.Perm (p :: g.all) := by
  obtain ⟨k, h1, hk, _⟩ := toCell_of_inRange h.shape hin
  have : ∃ g', g.add p = .ok g' := by
    unfold Grid.add
    rw [h1, Outcome.bind_ok, getCell_eq hk, Outcome.bind_ok]
    exact ⟨_, rfl⟩
  obtain ⟨g', e⟩ := this
  exact ⟨g', e, (add_ok h e).2.1⟩

/-- **C16 (reset).** -/
theorem reset_empty {g : Grid} (h : Inv g) : g.reset.all = [] ∧ g.reset.num = 0 := ⟨h.reset.2, rfl⟩

/-- **C16 (weights).** `setConstantWeightForAllPointsInGrid` changes nothing but the weights. -/
theorem setWeight_exact {g : Grid} (h : Inv g) (w : ℚ) :
    (g.setWeight w).all = g.all.map (fun p => { p with w := w }) ∧ (g.setWeight w).num = g.num :=
  ⟨(h.setWeight w).2, rfl⟩

/-- **C16 (constructor).** A grid has positive cell sizes; its cells cover the input range. -/
theorem create_covers {maxR maxC cellR cellC : ℚ} {g : Grid} (h : create maxR maxC cellR cellC = .ok g) :
    0 < cellR ∧ 0 < cellC ∧ maxR ≤ g.nR * cellR ∧ maxC ≤ g.nC * cellC ∧ g.all = [] := by
  obtain ⟨hi, h0, h1, h2, h3, h4⟩ := Inv.of_create h
  have hs := hi.shape
  have aux : ∀ {mx cl : ℚ} {n : Nat}, 0 < cl → (n : Int) = ⌈mx / cl⌉ → mx ≤ n * cl := by
    intro mx cl n hc hn
    have := Int.le_ceil (mx / cl)
    rw [← hn, div_le_iff₀ hc] at this
    exact_mod_cast this
  subst h1 h2 h3 h4
  exact ⟨hs.cellR, hs.cellC, aux hs.cellR hs.nR, aux hs.cellC hs.nC, h0⟩

/-- Cell sizes that are not positive are not all rejected: zero is undefined behaviour. -/
theorem create_zero_cell_refuted : create 5 6 0 2 = .ub := by
  unfold create cellCount
  norm_num

/-- Non-vacuity: a reachable grid with a point that was added. -/
example : ∃ g, Reachable exampleLib g ∧ g.all = [⟨4, 1, 7, 0⟩] := by
  obtain ⟨g', e, hp⟩ := add_exact exampleGrid_inv ⟨4, 1, 7, 0⟩
    (by norm_num [InRange, exampleGrid])
  refine ⟨g', .step (op := .add ⟨4, 1, 7, 0⟩) (.create exampleGrid_create) (by simp [step, e]), ?_⟩
  have : exampleGrid.all = [] := (Inv.of_create exampleGrid_create).2.1
  rw [this] at hp
  exact List.perm_singleton.mp hp

/-! ## C17 -/

/-- Calls of `addPointOrReplaceWeakestIfCellFull` with one limit. -/
def offerAll (n : Nat) (g : Grid) (ps : List Pt) : Outcome Grid :=
  ps.foldlM (fun g p => g.addOrReplace p n >>= fun r => .ok r.1) g

/-- Specification: coordinates of `p` lie in the rectangle of cell `k`. -/
def inCellB (g : Grid) (k : Cell) (p : Pt) : Bool :=
  decide (k.1 * g.cellR ≤ p.u) && decide (p.u < (k.1 + 1) * g.cellR) &&
  decide (k.2 * g.cellC ≤ p.v) && decide (p.v < (k.2 + 1) * g.cellC)

theorem inCellB_iff {g : Grid} {k : Cell} {p : Pt} : inCellB g k p = true ↔ InCell g k p.u p.v := by
  simp only [inCellB, Bool.and_eq_true, decide_eq_true_eq, InCell]
  tauto

theorem nat_eq_of_cell {i j : Nat} {cl a : ℚ} (hc : 0 < cl) (h1 : i * cl ≤ a) (h2 : a < (i + 1) * cl)
    (h3 : j * cl ≤ a) (h4 : a < (j + 1) * cl) : i = j := by
  have h5 : (i : ℚ) < j + 1 := by
    by_contra h; rw [not_lt] at h
    have := mul_le_mul_of_nonneg_right h hc.le; linarith
  have h6 : (j : ℚ) < i + 1 := by
    by_contra h; rw [not_lt] at h
    have := mul_le_mul_of_nonneg_right h hc.le; linarith
  have h5' : i < j + 1 := by exact_mod_cast h5
  have h6' : j < i + 1 := by exact_mod_cast h6
  omega

theorem inCell_unique {g : Grid} (hs : Shape g) {k k' : Cell} {u v : ℚ} (h : InCell g k u v)
    (h' : InCell g k' u v) : k = k' := by
  have h1 := nat_eq_of_cell hs.cellR h.1 h.2.1 h'.1 h'.2.1
  have h2 := nat_eq_of_cell hs.cellC h.2.2.1 h.2.2.2 h'.2.2.1 h'.2.2.2
  exact Prod.ext h1 h2

theorem Thinned.offer_room {n : Nat} {offered l : List Pt} (h : Thinned n offered l) (hlt : l.length < n)
    (p : Pt) : Thinned n (offered ++ [p]) (l ++ [p]) := by
  obtain ⟨h1, d, h2, h3⟩ := h
  have hd : d = [] := by
    have := h2.length_eq
    simp only [List.length_append] at this
    apply List.eq_nil_of_length_eq_zero
    omega
  subst hd
  rw [List.append_nil] at h2
  refine ⟨by simp only [List.length_append, List.length_singleton]; omega, [], ?_, by simp⟩
  rw [List.append_nil]
  exact h2.append_right _

theorem offer_all {n : Nat} (hn : 0 < n) : ∀ {ps : List Pt} {g : Grid} {before : Cell → List Pt}, Inv g →
    (∀ p ∈ ps, InRange g p.u p.v) → (∀ k ∈ g.coords, Thinned n (before k) (g.cells k)) →
    ∃ g', offerAll n g ps = .ok g' ∧ Inv g' ∧ (∃ m, g' = { g with num := m, cells := g'.cells }) ∧
      ∀ k ∈ g.coords, Thinned n (before k ++ ps.filter (inCellB g k)) (g'.cells k)
  | [], g, before, h, _, ht => ⟨g, rfl, h, ⟨g.num, rfl⟩, by simpa using ht⟩
  | p :: ps, g, before, h, hin, ht => by
    obtain ⟨k, h1, hk, hc⟩ := toCell_of_inRange h.shape (hin p List.mem_cons_self)
    obtain ⟨g1, b, e, hi1, ⟨m, hs⟩, hother, hcase⟩ := addOrReplace_cell h hn h1
    have hshape : g1.coords = g.coords := by rw [hs]; rfl
    have hr : ∀ u v, InRange g1 u v ↔ InRange g u v := by
      intro u v; rw [hs]; exact Iff.rfl
    have hcb : ∀ k q, inCellB g1 k q = inCellB g k q := by
      intro k q; rw [hs]; rfl
    have hstep : ∀ k' ∈ g1.coords, Thinned n (before k' ++ [p].filter (inCellB g k')) (g1.cells k') := by
      intro k' hk'
      rw [hshape] at hk'
      by_cases hkk : k' = k
      · subst hkk
        rw [List.filter_cons_of_pos (inCellB_iff.mpr hc), List.filter_nil]
        have hth := ht k' hk'
        rcases hcase with ⟨hlt, _, hcell⟩ | ⟨hfull, mn, rest, hperm, hmin, hc2⟩
        · rw [hcell]; exact hth.offer_room hlt p
        · obtain ⟨a1, d, a2, a3⟩ := hth
          have hlen := hperm.length_eq
          have hbl := a2.length_eq
          simp only [List.length_append, List.length_cons] at hlen hbl
          rcases hc2 with ⟨hw, _, hcell⟩ | ⟨hw, _, hcell⟩
          · have hl2 := hcell.length_eq
            simp only [List.length_cons] at hl2
            refine ⟨by simp only [List.length_append, List.length_singleton]; omega, mn :: d, ?_, ?_⟩
            · -- p :: rest ++ mn :: d ~ before ++ [p]
              have hL : (g1.cells k' ++ mn :: d).Perm (p :: (mn :: rest ++ d)) := by
                refine (hcell.append_right _).trans ?_
                rw [List.cons_append, List.cons_append]
                exact List.perm_middle.cons p
              have hR : (before k' ++ [p]).Perm (p :: (mn :: rest ++ d)) := by
                refine List.perm_append_singleton p _ |>.trans ?_
                exact ((a2.symm.trans (hperm.append_right d))).cons p
              exact hL.trans hR.symm
            · intro a ha c hcm
              have hmem : mn ∈ g.cells k' := hperm.mem_iff.mpr List.mem_cons_self
              rcases List.mem_cons.mp (hcell.mem_iff.mp ha) with rfl | ha
              · rcases List.mem_cons.mp hcm with rfl | hcm
                · exact hw.le
                · exact le_trans (a3 mn hmem c hcm) hw.le
              · have hag : a ∈ g.cells k' := hperm.mem_iff.mpr (List.mem_cons_of_mem _ ha)
                rcases List.mem_cons.mp hcm with rfl | hcm
                · exact hmin a hag
                · exact a3 a hag c hcm
          · rw [hcell]
            refine ⟨by simp only [List.length_append, List.length_singleton]; omega, d ++ [p], ?_, ?_⟩
            · rw [← List.append_assoc]
              exact a2.append_right _
            · intro a ha c hcm
              rcases List.mem_append.mp hcm with hcm | hcm
              · exact a3 a ha c hcm
              · simp only [List.mem_singleton] at hcm
                subst hcm
                exact le_trans hw (hmin a ha)
      · rw [List.filter_cons_of_neg, List.filter_nil, List.append_nil, hother k' hkk]
        · exact ht k' hk'
        · intro hb
          exact hkk (inCell_unique h.shape (inCellB_iff.mp hb) hc)
    obtain ⟨g', e', hi', ⟨m', hs'⟩, hfin⟩ := offer_all hn (ps := ps) hi1
      (fun q hq => (hr _ _).mpr (hin q (List.mem_cons_of_mem _ hq))) hstep
    refine ⟨g', ?_, hi', ⟨m', ?_⟩, ?_⟩
    · unfold offerAll at e' ⊢
      rw [List.foldlM_cons, e, Outcome.bind_ok, Outcome.bind_ok, e']
    · rw [hs', hs]
    · intro k' hk'
      have := hfin k' (by rw [hshape]; exact hk')
      rw [show ps.filter (inCellB g1 k') = ps.filter (inCellB g k') from
        List.filter_congr (fun q _ => hcb k' q)] at this
      rw [show p :: ps = [p] ++ ps from rfl, List.filter_append, ← List.append_assoc]
      exact this

/-- **C17.** After offering any points (inside the range) one after the other to an empty grid, every cell
holds `min n` (number offered to it) of the points offered to it, and no point that was turned away or
replaced is heavier than one that is held. -/
theorem bounded_cells_keep_heaviest {maxR maxC cellR cellC : ℚ} {g : Grid}
    (hg : create maxR maxC cellR cellC = .ok g) {n : Nat} (hn : 0 < n) (ps : List Pt)
    (hin : ∀ p ∈ ps, InRange g p.u p.v) :
    ∃ g', offerAll n g ps = .ok g' ∧ ∀ r < g.nR, ∀ c < g.nC,
      (g'.cells (r, c)).length = min n (ps.filter (inCellB g (r, c))).length ∧
      ∃ lost, (g'.cells (r, c) ++ lost).Perm (ps.filter (inCellB g (r, c))) ∧
        ∀ a ∈ g'.cells (r, c), ∀ b ∈ lost, b.w ≤ a.w := by
  obtain ⟨hinv, hall, _⟩ := Inv.of_create hg
  have hempty : ∀ k ∈ g.coords, g.cells k = [] := by
    intro k hk
    unfold Grid.all at hall
    rw [List.flatMap_eq_nil_iff] at hall
    exact hall k hk
  obtain ⟨g', e, _, _, h⟩ := offer_all hn (ps := ps) (before := fun _ => []) hinv hin (by
    intro k hk
    rw [hempty k hk]
    exact ⟨by simp, [], by simp, by simp⟩)
  refine ⟨g', e, ?_⟩
  intro r hr c hc
  have := h (r, c) (mem_coords.mpr ⟨hr, hc⟩)
  simpa [Thinned] using this

/-- Non-vacuity: three points for one cell with limit 2. -/
example : ∀ p ∈ [(⟨0, 0, 1, 0⟩ : Pt), ⟨1, 1, 3, 1⟩, ⟨2, 1, 2, 2⟩],
    InRange exampleGrid p.u p.v ∧ inCellB exampleGrid (0, 0) p = true := by
  simp [InRange, exampleGrid, inCellB]; norm_num

/-! ## C18 -/

/-- **C18 (distance).** Inserting with minimum distance `d` keeps all pairs of points at least `d` apart. -/
theorem min_distance_kept {lib : Lib} (hv : lib.Valid) {g g' : Grid} (h : Inv g) {p : Pt} {d : ℚ}
    (hr : g.addMinDist lib p d = .ok g')
    (hold : g.all.Pairwise (fun a b => d * d ≤ (a.u - b.u) * (a.u - b.u) + (a.v - b.v) * (a.v - b.v))) :
    g'.all.Pairwise (fun a b => d * d ≤ (a.u - b.u) * (a.u - b.u) + (a.v - b.v) * (a.v - b.v)) := by
  obtain ⟨_, ⟨best, h1, h2, _, _⟩, hd, _⟩ := addMinDist_ok hv h hr
  have hsym : ∀ {a b : Pt}, d * d ≤ (a.u - b.u) * (a.u - b.u) + (a.v - b.v) * (a.v - b.v) →
      d * d ≤ (b.u - a.u) * (b.u - a.u) + (b.v - a.v) * (b.v - a.v) := by
    intro a b hab
    linarith [show (b.u - a.u) * (b.u - a.u) + (b.v - a.v) * (b.v - a.v) =
      (a.u - b.u) * (a.u - b.u) + (a.v - b.v) * (a.v - b.v) by ring]
  rw [h1.pairwise_iff (fun {a b} => hsym)]
  have hnot : ∀ a b : Pt, tooClose a b d = false →
      d * d ≤ (a.u - b.u) * (a.u - b.u) + (a.v - b.v) * (a.v - b.v) := by
    intro a b hab
    unfold tooClose at hab
    rw [decide_eq_false_iff_not, not_lt] at hab
    exact hab
  rw [List.pairwise_cons]
  refine ⟨?_, hold.filter _⟩
  intro q hq
  rw [List.mem_filter] at hq
  obtain ⟨hqa, hqf⟩ := hq
  have hqf' : tooClose p q d = false := by simpa using hqf
  rcases h2 with rfl | ⟨hb, hbc⟩
  · exact hnot _ _ hqf'
  · have hne : best ≠ q := by rintro rfl; rw [hbc] at hqf'; simp at hqf'
    have : Std.Symm (fun a b : Pt =>
        d * d ≤ (a.u - b.u) * (a.u - b.u) + (a.v - b.v) * (a.v - b.v)) := ⟨fun a b => hsym⟩
    exact hold.forall hb hqa hne

/-- Insertions with one minimum distance. -/
def insertAll (lib : Lib) (d : ℚ) (g : Grid) (ps : List Pt) : Outcome Grid :=
  ps.foldlM (fun g p => g.addMinDist lib p d) g

/-- **C18 (distance, all insertion sequences).** -/
theorem min_distance_always {lib : Lib} (hv : lib.Valid) {maxR maxC cellR cellC : ℚ} {g g' : Grid}
    (hg : create maxR maxC cellR cellC = .ok g) {d : ℚ} {ps : List Pt}
    (hr : insertAll lib d g ps = .ok g') :
    g'.all.Pairwise (fun a b => d * d ≤ (a.u - b.u) * (a.u - b.u) + (a.v - b.v) * (a.v - b.v)) := by
  obtain ⟨hinv, hall, _⟩ := Inv.of_create hg
  have hbase : g.all.Pairwise
      (fun a b => d * d ≤ (a.u - b.u) * (a.u - b.u) + (a.v - b.v) * (a.v - b.v)) := by
    rw [hall]; exact List.Pairwise.nil
  clear hg
  rename_i hrest
  clear hrest hall
  unfold insertAll at hr
  induction ps generalizing g with
  | nil =>
    have : g = g' := by simpa using hr
    subst this
    exact hbase
  | cons p ps ih =>
    rw [List.foldlM_cons, Outcome.bind_eq_ok] at hr
    obtain ⟨g1, h1, h2⟩ := hr
    exact ih h2 (addMinDist_ok hv hinv h1).1 (min_distance_kept hv hinv h1 hbase)

/-- **C18 (what is kept).** The heaviest of the new point and the points closer than `d` to it stays, the
other points closer than `d` go, everything else stays. In particular the new point is turned away only if
a stored point closer than `d` is at least as heavy. -/
theorem min_distance_exact {lib : Lib} (hv : lib.Valid) {g g' : Grid} (h : Inv g) {p : Pt} {d : ℚ}
    (hr : g.addMinDist lib p d = .ok g') :
    ∃ best, g'.all.Perm (best :: g.all.filter (fun q =>
        decide (d * d ≤ (p.u - q.u) * (p.u - q.u) + (p.v - q.v) * (p.v - q.v)))) ∧
      (best = p ∨ (best ∈ g.all ∧ p.w ≤ best.w ∧
        (p.u - best.u) * (p.u - best.u) + (p.v - best.v) * (p.v - best.v) < d * d)) ∧
      ∀ q ∈ g.all, (p.u - q.u) * (p.u - q.u) + (p.v - q.v) * (p.v - q.v) < d * d → q.w ≤ best.w := by
  obtain ⟨_, ⟨best, h1, h2, h3, h4⟩, _⟩ := addMinDist_ok hv h hr
  refine ⟨best, ?_, ?_, ?_⟩
  · rw [show (fun q : Pt => decide (d * d ≤ (p.u - q.u) * (p.u - q.u) + (p.v - q.v) * (p.v - q.v))) =
      (fun q => !tooClose p q d) from by
        funext q
        unfold tooClose
        rw [Bool.eq_iff_iff]
        simp]
    exact h1
  · rcases h2 with h2 | ⟨a, b⟩
    · exact Or.inl h2
    · refine Or.inr ⟨a, h3, ?_⟩
      simpa [tooClose] using b
  · intro q hq hc
    exact h4 q hq (by simpa [tooClose] using hc)

/-- **C18 (no abort).** With a positive distance not above the cell sizes every point in range whose weight
is above the smallest representable one is handled. -/
theorem min_distance_total {lib : Lib} (hv : lib.Valid) {g : Grid} (h : Inv g) {p : Pt} {d : ℚ}
    (hd : 0 < d) (hR : d ≤ g.cellR) (hC : d ≤ g.cellC) (hin : InRange g p.u p.v)
    (hw : lib.lowest < p.w) : ∃ g', g.addMinDist lib p d = .ok g' := by
  rcases addMinDist_cases hv h hd hR hC hin with ⟨g', e, _⟩ | ⟨_, hle⟩
  · exact ⟨g', e⟩
  · exact absurd hw (not_lt.mpr hle)

/-- Non-vacuity: two insertions into neighbouring cells closer than the distance. -/
example : ∃ g', insertAll exampleLib 2 exampleGrid [⟨2, 1, 5, 0⟩, ⟨3, 1, 4, 1⟩] = .ok g' := by
  obtain ⟨g1, e1⟩ := min_distance_total exampleLib_valid exampleGrid_inv (p := ⟨2, 1, 5, 0⟩) (d := 2)
    (by norm_num) (by norm_num [exampleGrid]) (by norm_num [exampleGrid])
    (by norm_num [InRange, exampleGrid]) (by norm_num [exampleLib])
  obtain ⟨hi, _, _, _, _, n, hs⟩ := addMinDist_ok exampleLib_valid exampleGrid_inv e1
  obtain ⟨g2, e2⟩ := min_distance_total exampleLib_valid hi (p := ⟨3, 1, 4, 1⟩) (d := 2)
    (by norm_num) (by rw [hs]; norm_num [exampleGrid]) (by rw [hs]; norm_num [exampleGrid])
    (by rw [hs]; norm_num [InRange, exampleGrid]) (by norm_num [exampleLib])
  refine ⟨g2, ?_⟩
  unfold insertAll
  rw [List.foldlM_cons, e1, Outcome.bind_ok, List.foldlM_cons, e2, Outcome.bind_ok]
  rfl

/-! ## C19 -/

/-- Number of non-empty cells. -/
def nonEmpty (g : Grid) : Nat := (g.coords.filter (fun k => decide (g.cells k ≠ []))).length

theorem length_ge_nonEmpty (f : Cell → List Pt) (ks : List Cell) :
    (ks.filter (fun k => decide (f k ≠ []))).length ≤ (ks.flatMap f).length ∧
    ((∀ k ∈ ks, (f k).length ≤ 1) →
      (ks.filter (fun k => decide (f k ≠ []))).length = (ks.flatMap f).length) := by
  induction ks with
  | nil => simp
  | cons k ks ih =>
    rw [List.flatMap_cons, List.length_append]
    by_cases h : f k = []
    · rw [List.filter_cons_of_neg (by simp [h]), h]
      refine ⟨by simpa using ih.1, fun hl => ?_⟩
      simpa using ih.2 (fun k' hk' => hl k' (List.mem_cons_of_mem _ hk'))
    · rw [List.filter_cons_of_pos (by simp [h]), List.length_cons]
      have hpos : 0 < (f k).length := List.length_pos_of_ne_nil h
      refine ⟨by omega, fun hl => ?_⟩
      have h1 := hl k List.mem_cons_self
      have h2 := ih.2 (fun k' hk' => hl k' (List.mem_cons_of_mem _ hk'))
      omega

theorem fullest_fold (g : Grid) : ∀ (ks : List Cell) (b : Cell × Nat),
    b.2 ≤ (ks.foldl (fun (best : Cell × Nat) k =>
      if (g.cells k).length > best.2 then (k, (g.cells k).length) else best) b).2 ∧
    (∀ k ∈ ks, (g.cells k).length ≤ (ks.foldl (fun (best : Cell × Nat) k =>
      if (g.cells k).length > best.2 then (k, (g.cells k).length) else best) b).2) ∧
    ((ks.foldl (fun (best : Cell × Nat) k =>
      if (g.cells k).length > best.2 then (k, (g.cells k).length) else best) b) = b ∨
     (ks.foldl (fun (best : Cell × Nat) k =>
      if (g.cells k).length > best.2 then (k, (g.cells k).length) else best) b).1 ∈ ks ∧
     (g.cells (ks.foldl (fun (best : Cell × Nat) k =>
      if (g.cells k).length > best.2 then (k, (g.cells k).length) else best) b).1).length =
      (ks.foldl (fun (best : Cell × Nat) k =>
      if (g.cells k).length > best.2 then (k, (g.cells k).length) else best) b).2)
  | [], b => by simp
  | k :: ks, b => by
    rw [List.foldl_cons]
    by_cases h : (g.cells k).length > b.2
    · rw [if_pos h]
      obtain ⟨h1, h2, h3⟩ := fullest_fold g ks (k, (g.cells k).length)
      refine ⟨by simp only at h1; omega, ?_, ?_⟩
      · intro k' hk'
        rcases List.mem_cons.mp hk' with rfl | hk'
        · exact h1
        · exact h2 k' hk'
      · right
        rcases h3 with h3 | ⟨h3, h4⟩
        · rw [h3]; exact ⟨List.mem_cons_self, rfl⟩
        · exact ⟨List.mem_cons_of_mem _ h3, h4⟩
    · rw [if_neg h]
      obtain ⟨h1, h2, h3⟩ := fullest_fold g ks b
      refine ⟨h1, ?_, ?_⟩
      · intro k' hk'
        rcases List.mem_cons.mp hk' with rfl | hk'
        · omega
        · exact h2 k' hk'
      · rcases h3 with h3 | ⟨h3, h4⟩
        · exact Or.inl h3
        · exact Or.inr ⟨List.mem_cons_of_mem _ h3, h4⟩

theorem fullest_spec {g : Grid} (h : Inv g) (hn : 0 < g.num) :
    g.fullest ∈ g.coords ∧ (∀ k ∈ g.coords, (g.cells k).length ≤ (g.cells g.fullest).length) ∧
      0 < (g.cells g.fullest).length := by
  have hpos : 0 < g.all.length := by have := h.num; omega
  obtain ⟨p, hp⟩ := List.exists_mem_of_length_pos hpos
  obtain ⟨k, hk, hpk⟩ := mem_all.mp hp
  have hkl : 0 < (g.cells k).length := List.length_pos_of_mem hpk
  obtain ⟨h1, h2, h3⟩ := fullest_fold g g.coords ((0, 0), 0)
  have hk2 := h2 k hk
  unfold Grid.fullest
  rcases h3 with h3 | ⟨h3, h4⟩
  · rw [h3] at hk2; simp only at hk2; omega
  · refine ⟨h3, ?_, by omega⟩
    intro k' hk'
    rw [h4]
    exact h2 k' hk'

/-- One turn removes a lightest point of a fullest cell, or aborts if that cell has only one. -/
theorem thinTurn_spec {lib : Lib} (hv : lib.Valid) {g : Grid} (h : Inv g) (hn : 0 < g.num) :
    ((g.cells g.fullest).length = 1 ∧ g.thinTurn lib = .abort) ∨
    (2 ≤ (g.cells g.fullest).length ∧ ∃ g', g.thinTurn lib = .ok g' ∧ Inv g' ∧ g'.num = g.num - 1 ∧
      (∃ m, g' = { g with num := m, cells := g'.cells }) ∧
      (∀ k, k ≠ g.fullest → g'.cells k = g.cells k) ∧
      Thinned ((g.cells g.fullest).length - 1) (g.cells g.fullest) (g'.cells g.fullest)) := by
  obtain ⟨hk, _, hpos⟩ := fullest_spec h hn
  unfold Grid.thinTurn
  simp only
  rw [getCell_eq hk, Outcome.bind_ok]
  have hd : sizeDec (g.cells g.fullest).length = (g.cells g.fullest).length - 1 := by
    unfold sizeDec; rw [if_neg (by omega)]
  rw [hd]
  by_cases h1 : (g.cells g.fullest).length = 1
  · left
    refine ⟨h1, ?_⟩
    rw [h1]
    unfold Grid.thinCell
    simp
  · right
    refine ⟨by omega, ?_⟩
    obtain ⟨l, e, ht⟩ := thinCell_eq hv (n := (g.cells g.fullest).length - 1) (by omega) hk
    rw [e, Outcome.bind_ok]
    refine ⟨_, rfl, Inv.thinCell hv h e, ?_, ⟨_, rfl⟩, fun k hk' => setCell_other g _ hk', ?_⟩
    · have := ht.1
      show g.num - ((g.cells g.fullest).length - l.length : Nat) = _
      omega
    · show Thinned _ _ ((g.setCell g.fullest l).cells g.fullest)
      rw [setCell_same]; exact ht

/-- What thinning may do: only points are removed; in a cell the removed points are not heavier than the
kept ones; a cell that lost points is at most one point smaller than any other cell. -/
structure ThinnedOut (g g' : Grid) : Prop where
  same : ∃ m, g' = { g with num := m, cells := g'.cells }
  kept : ∀ k ∈ g.coords, ∃ dropped, (g'.cells k ++ dropped).Perm (g.cells k) ∧
    ∀ a ∈ g'.cells k, ∀ b ∈ dropped, b.w ≤ a.w
  fullest : ∀ a ∈ g.coords, (g'.cells a).length < (g.cells a).length →
    ∀ b ∈ g.coords, (g'.cells b).length ≤ (g'.cells a).length + 1

theorem thinLoop_spec {lib : Lib} (hv : lib.Valid) {n : Nat} : ∀ {fuel : Nat} {g : Grid}, Inv g →
    g.num ≤ fuel →
    (nonEmpty g ≤ n → ∃ g', g.thinLoop lib n fuel = some (.ok g') ∧ Inv g' ∧
      g'.num = min g.num n ∧ ThinnedOut g g') ∧
    (n < nonEmpty g → g.thinLoop lib n fuel = some .abort) := by
  intro fuel
  induction fuel with
  | zero =>
    intro g h hf
    have hge := (length_ge_nonEmpty g.cells g.coords).1
    change nonEmpty g ≤ g.all.length at hge
    have hnum := h.num
    constructor
    · intro _
      refine ⟨g, ?_, h, by omega, ⟨⟨g.num, rfl⟩, fun k _ => ⟨[], by simp, by simp⟩, ?_⟩⟩
      · unfold Grid.thinLoop; rw [if_neg (by omega)]
      · intro a _ hlt; omega
    · intro hlt; omega
  | succ fuel ih =>
    intro g h hf
    have hge := (length_ge_nonEmpty g.cells g.coords).1
    change nonEmpty g ≤ g.all.length at hge
    have hnum := h.num
    by_cases hgt : g.num > n
    · have hmax := (fullest_spec h (by omega)).2.1
      have hfc := (fullest_spec h (by omega)).1
      rcases thinTurn_spec hv h (by omega) with ⟨hone, habort⟩ | ⟨htwo, g1, e, hi1, hn1, ⟨m, hs⟩, hoth, hth⟩
      · have hall1 := (length_ge_nonEmpty g.cells g.coords).2 (fun k hk => by have := hmax k hk; omega)
        change nonEmpty g = g.all.length at hall1
        refine ⟨fun hle => by omega, fun _ => ?_⟩
        unfold Grid.thinLoop
        rw [if_pos hgt]
        simp only [habort]
      · have hco : g1.coords = g.coords := by rw [hs]; rfl
        have hloop : g.thinLoop lib n (fuel + 1) = g1.thinLoop lib n fuel := by
          conv_lhs => unfold Grid.thinLoop
          rw [if_pos hgt]
          simp only [e]
        have hlen1 := hth.1
        have hne : nonEmpty g1 = nonEmpty g := by
          unfold nonEmpty
          rw [hco]
          congr 1
          apply List.filter_congr
          intro k _
          by_cases hkf : k = g.fullest
          · subst hkf
            rw [decide_eq_decide]
            constructor
            · intro _ he; rw [he] at htwo; simp at htwo
            · intro _ he; rw [he] at hlen1; simp at hlen1; omega
          · rw [hoth k hkf]
        obtain ⟨ih1, ih2⟩ := ih hi1 (by omega)
        rw [hloop]
        refine ⟨fun hle => ?_, fun hlt => ih2 (by omega)⟩
        obtain ⟨g', e', hi', hn', hto⟩ := ih1 (by omega)
        obtain ⟨m', hs'⟩ := hto.same
        refine ⟨g', e', hi', by omega, ⟨⟨m', by rw [hs', hs]⟩, ?_, ?_⟩⟩
        · intro k hk
          obtain ⟨d2, p2, w2⟩ := hto.kept k (by rw [hco]; exact hk)
          by_cases hkf : k = g.fullest
          · subst hkf
            obtain ⟨_, d1, p1, w1⟩ := hth
            refine ⟨d2 ++ d1, ?_, ?_⟩
            · rw [← List.append_assoc]
              exact (p2.append_right d1).trans p1
            · intro a ha b hb
              rcases List.mem_append.mp hb with hb | hb
              · exact w2 a ha b hb
              · exact w1 a (p2.mem_iff.mp (List.mem_append_left _ ha)) b hb
          · rw [hoth k hkf] at p2
            exact ⟨d2, p2, w2⟩
        · intro a ha hlt b hb
          have hshrink : ∀ k ∈ g.coords, (g'.cells k).length ≤ (g1.cells k).length := by
            intro k hk
            obtain ⟨d, p, _⟩ := hto.kept k (by rw [hco]; exact hk)
            have := p.length_eq
            simp only [List.length_append] at this
            omega
          by_cases hlt2 : (g'.cells a).length < (g1.cells a).length
          · exact hto.fullest a (by rw [hco]; exact ha) hlt2 b (by rw [hco]; exact hb)
          · have haf : a = g.fullest := by
              by_contra hne2
              rw [hoth a hne2] at hlt2
              omega
            subst haf
            have h1 := hshrink b hb
            have h2 := hmax b hb
            have h3 : (g1.cells b).length ≤ (g.cells g.fullest).length := by
              by_cases hbf : b = g.fullest
              · subst hbf; omega
              · rw [hoth b hbf]; exact h2
            have h4 : (g.cells g.fullest).length - 1 ≤ (g1.cells g.fullest).length := by
              rw [hlen1]; exact le_min (Nat.le_refl _) (Nat.sub_le _ _)
            have h5 := Nat.not_lt.mp hlt2
            exact Nat.le_trans (Nat.le_trans h1 h3)
              (Nat.le_trans (Nat.sub_le_iff_le_add.mp h4) (Nat.add_le_add_right h5 1))
    · have hstop : g.thinLoop lib n (fuel + 1) = some (.ok g) := by
        unfold Grid.thinLoop; rw [if_neg hgt]
      rw [hstop]
      refine ⟨fun _ => ⟨g, rfl, h, by omega, ⟨⟨g.num, rfl⟩, fun k _ => ⟨[], by simp, by simp⟩, ?_⟩⟩,
        fun hlt => by omega⟩
      intro a _ hlt; omega

/-- **C19 (partial).** If not more cells are occupied than points are wanted, the call returns (after at
most as many turns as there are points) with exactly `min size n` points; points are only removed, the
lightest of a cell first, and only from a fullest cell: a cell that lost a point ends at most one point
smaller than any other cell.
Missing: the claim for grids with more than `n` occupied cells, where it is false. -/
theorem thin_reaches_size_partial {lib : Lib} (hv : lib.Valid) {g : Grid} (h : Inv g) {n : Nat} (hn : 0 < n)
    (hocc : nonEmpty g ≤ n) {fuel : Nat} (hf : g.num ≤ fuel) :
    ∃ g', g.thinUntil lib n fuel = some (.ok g') ∧ Inv g' ∧ g'.num = min g.num n ∧ ThinnedOut g g' := by
  unfold Grid.thinUntil
  rw [if_pos hn]
  exact (thinLoop_spec hv h hf).1 hocc

/-- **C19 (abort), refuted.** For every grid with more than `n` occupied cells the call aborts the process
instead of reaching the size. -/
theorem thin_aborts_refuted {lib : Lib} (hv : lib.Valid) {g : Grid} (h : Inv g) {n : Nat}
    (hocc : n < nonEmpty g) {fuel : Nat} (hf : g.num ≤ fuel) :
    g.thinUntil lib n fuel = some .abort := by
  unfold Grid.thinUntil
  split
  · exact (thinLoop_spec hv h hf).2 hocc
  · rfl

/-- Two occupied cells of the example grid. -/
def exampleTwo : Grid :=
  { exampleGrid with num := 2, cells := fun k => if k = (0, 0) then [⟨0, 0, 1, 0⟩]
      else if k = (1, 2) then [⟨4, 5, 1, 1⟩] else [] }

theorem exampleTwo_inv : Inv exampleTwo := by
  refine ⟨exampleGrid_inv.shape.of_eq rfl rfl rfl rfl rfl rfl, rfl, ?_⟩
  intro k hk p hp
  simp only [exampleTwo] at hp
  split at hp
  · rename_i e; subst e
    simp only [List.mem_singleton] at hp
    subst hp
    norm_num [InRange, InCell, exampleTwo, exampleGrid]
  · split at hp
    · rename_i e; subst e
      simp only [List.mem_singleton] at hp
      subst hp
      norm_num [InRange, InCell, exampleTwo, exampleGrid]
    · simp at hp

/-- Non-vacuity: one wanted point aborts, two are fine. -/
example : exampleTwo.thinUntil exampleLib 1 2 = some .abort :=
  thin_aborts_refuted exampleLib_valid exampleTwo_inv (by decide) (by decide)
example : ∃ g', exampleTwo.thinUntil exampleLib 2 2 = some (.ok g') ∧ g'.num = 2 := by
  obtain ⟨g', a, _, b, _⟩ := thin_reaches_size_partial exampleLib_valid exampleTwo_inv (n := 2)
    (by decide) (by decide) (fuel := 2) (by decide)
  exact ⟨g', a, by rw [b]; rfl⟩

/-! ## C20 -/

/-- **C20 (one cell).** At most `n` points stay, no removed point is heavier than a kept one, the returned
number is the number of removed points, other cells are untouched. -/
theorem thin_cell_exact {lib : Lib} (hv : lib.Valid) {g : Grid} (h : Inv g) {n : Nat} (hn : 0 < n)
    {k : Cell} (hk : k.1 < g.nR ∧ k.2 < g.nC) :
    ∃ g' removed, g.thinCell lib k n = .ok (g', removed) ∧
      (g'.cells k).length = min n (g.cells k).length ∧
      (∃ dropped, (g'.cells k ++ dropped).Perm (g.cells k) ∧ removed = dropped.length ∧
        ∀ a ∈ g'.cells k, ∀ b ∈ dropped, b.w ≤ a.w) ∧
      (∀ k', k' ≠ k → g'.cells k' = g.cells k') ∧ g'.num = g.num - removed := by
  have _ := h
  obtain ⟨l, e, ht⟩ := thinCell_eq hv hn (mem_coords.mpr hk)
  refine ⟨_, _, e, ?_, ?_, fun k' hk' => setCell_other g _ hk', rfl⟩
  · show ((g.setCell k l).cells k).length = _
    rw [setCell_same]; exact ht.1
  · obtain ⟨_, d, p, w⟩ := ht
    have := p.length_eq
    simp only [List.length_append] at this
    refine ⟨d, ?_, by omega, ?_⟩
    · show ((g.setCell k l).cells k ++ d).Perm _
      rw [setCell_same]; exact p
    · show ∀ a ∈ (g.setCell k l).cells k, _
      rw [setCell_same]; exact w

/-- **C20 (all cells).** The same for every cell; the returned number is the number of removed points. -/
theorem thin_cells_exact {lib : Lib} (hv : lib.Valid) {g : Grid} (h : Inv g) {n : Nat} (hn : 0 < n) :
    ∃ g' removed, g.thinCells lib n = .ok (g', removed) ∧ Inv g' ∧ (removed : Int) = g.num - g'.num ∧
      ∀ r < g.nR, ∀ c < g.nC, (g'.cells (r, c)).length = min n (g.cells (r, c)).length ∧
        ∃ dropped, (g'.cells (r, c) ++ dropped).Perm (g.cells (r, c)) ∧
          ∀ a ∈ g'.cells (r, c), ∀ b ∈ dropped, b.w ≤ a.w := by
  obtain ⟨g', a1, a2, a3, _, a5, _⟩ := foldl_thin hv hn (c := 0) h (coords_nodup g) (fun k hk => hk)
  refine ⟨g', 0 + (g.num - g'.num).toNat, ?_, a2, by omega, ?_⟩
  · unfold Grid.thinCells
    rw [show decide (n > 0) = true from decide_eq_true hn, Outcome.check_true, Outcome.bind_ok]
    exact a1
  · intro r hr c hc
    exact a5 (r, c) (mem_coords.mpr ⟨hr, hc⟩)

/-- Non-vacuity: a grid with an overfull cell. -/
example : ∃ g, Inv g ∧ (g.cells (0, 0)).length = 2 ∧ g.nR = 2 := by
  obtain ⟨g1, _, _, i1, ⟨m, s1⟩, _, c1⟩ := addOrReplace_cell exampleGrid_inv (p := ⟨0, 0, 1, 0⟩) (n := 5)
    (by norm_num) (k := (0, 0)) (by
      unfold Grid.toCell Grid.validInput; norm_num [exampleGrid, toSize])
  obtain ⟨g2, _, _, i2, ⟨m2, s2⟩, _, c2⟩ := addOrReplace_cell i1 (p := ⟨1, 1, 2, 1⟩) (n := 5)
    (by norm_num) (k := (0, 0)) (by
      rw [s1]
      unfold Grid.toCell Grid.validInput
      have h1 : ⌊(1 : ℚ) / 3⌋ = 0 := by rw [Int.floor_eq_iff]; norm_num
      have h2 : ⌊(1 : ℚ) / 2⌋ = 0 := by rw [Int.floor_eq_iff]; norm_num
      simp only [exampleGrid, h1, h2]
      norm_num [toSize])
  have e0 : exampleGrid.cells (0, 0) = [] := rfl
  rw [e0] at c1
  rcases c1 with ⟨_, _, c1⟩ | ⟨c1, _⟩
  · rw [c1] at c2
    rcases c2 with ⟨_, _, c2⟩ | ⟨c2, _⟩
    · exact ⟨g2, i2, by rw [c2]; rfl, by rw [s2, s1]; rfl⟩
    · simp at c2
  · simp at c1

end Verif.OccupancyGrid
