import Verif.StlHelpers.Model
import Mathlib.Data.Rat.Floor

/-!
# Weighted occupancy grid

Model of `aslam_cv_common/include/aslam/common/occupancy-grid.h` and `.../occupancy-grid-inl.h`.

* Coordinates and weights (`double`) are exact rationals; NaN and rounding are not modelled.
* `grid_` is a function from cell coordinates to the list of points of the cell; only coordinates below
  `(nR, nC)` exist, `grid_` is never resized after construction.
* The count `current_num_points_` is an integer without wrap-around; `bookkeeping` shows that it is never
  negative.
* `std::partial_sort`, the iteration order of the `unordered_map` and
  `std::numeric_limits<WeightType>::lowest()` are parameters (`Lib`).
* `getOccupancyMask` is in `Mask.lean`.  Mutation through the reference returned by the public `getGridCell` and
  running out of memory are not modelled.
-/

namespace Verif.OccupancyGrid

open Verif (Outcome)
open Verif.StlHelpers (IsPartialSort eraseIndicesFromVector)

/-- `WeightedKeypoint` (occupancy-grid.h:14-36). -/
structure Pt where
  /-- `u_rows` -/
  u : ℚ
  /-- `v_cols` -/
  v : ℚ
  /-- `weight` -/
  w : ℚ
  /-- `id` -/
  id : Int
  deriving DecidableEq, Repr

/-- `GridCoordinates` (occupancy-grid.h:52-55). -/
abbrev Cell := Nat × Nat

/-- Things the C++ standard leaves to the implementation (occupancy-grid-inl.h:92-192, 268-285). -/
structure Lib where
  /-- `std::partial_sort(begin, begin + m, end, std::greater)` -/
  psort : Nat → List Pt → List Pt
  /-- iteration order of `std::unordered_map<PointList*, std::vector<size_t>>` -/
  order : List (Cell × List Nat) → List (Cell × List Nat)
  /-- `std::numeric_limits<WeightType>::lowest()` -/
  lowest : ℚ

/-- What the standard guarantees (occupancy-grid-inl.h:92-192, 268-285). -/
structure Lib.Valid (lib : Lib) : Prop where
  psort : ∀ m l, m ≤ l.length → IsPartialSort (fun a b : Pt => decide (a.w > b.w)) m l (lib.psort m l)
  order : ∀ l, (lib.order l).Perm l

/-- `WeightedOccupancyGrid` (occupancy-grid.h:133-144). -/
structure Grid where
  maxR : ℚ
  maxC : ℚ
  cellR : ℚ
  cellC : ℚ
  /-- `num_grid_rows_` -/
  nR : Nat
  /-- `num_grid_cols_` -/
  nC : Nat
  /-- `current_num_points_` -/
  num : Int
  /-- `grid_` -/
  cells : Cell → List Pt

/-- `static_cast<size_t>(double)`; undefined if the value does not fit (occupancy-grid-inl.h:29-32, 382-393). -/
def toSize (z : Int) : Outcome Nat :=
  if 0 ≤ z ∧ z < 2 ^ 64 then .ok z.toNat else .ub

/-- `static_cast<size_t>(std::ceil(max / cell))` (occupancy-grid-inl.h:29-32); a division by zero gives infinity or
NaN. -/
def cellCount (max cell : ℚ) : Outcome Nat :=
  if cell = 0 then .ub else toSize ⌈max / cell⌉

/-- Constructor and `initializeGrid` (occupancy-grid-inl.h:13-45). -/
def create (maxR maxC cellR cellC : ℚ) : Outcome Grid := do
  Outcome.check (decide (maxR > 0))
  Outcome.check (decide (maxC > 0))
  Outcome.check (decide (maxR ≥ cellR))
  Outcome.check (decide (maxC ≥ cellC))
  let nR ← cellCount maxR cellR
  let nC ← cellCount maxC cellC
  Outcome.check (decide (nR > 0))
  Outcome.check (decide (nC > 0))
  .ok ⟨maxR, maxC, cellR, cellC, nR, nC, 0, fun _ => []⟩

/-- The cells in the order of the loops `for i_row … for j_col …` (occupancy-grid-inl.h:200-201 and others). -/
def Grid.coords (g : Grid) : List Cell :=
  (List.range g.nR).flatMap fun r => (List.range g.nC).map fun c => (r, c)

/-- Assignment to a cell (occupancy-grid-inl.h:350-364). -/
def Grid.setCell (g : Grid) (k : Cell) (l : List Pt) : Grid :=
  { g with cells := fun k' => if k' = k then l else g.cells k' }

/-- `isValidInputCoordinate` (occupancy-grid-inl.h:366-373). -/
def Grid.validInput (g : Grid) (u v : ℚ) : Bool :=
  decide (u ≥ 0) && decide (v ≥ 0) && decide (u < g.maxR) && decide (v < g.maxC)

/-- `isValidGridCoordinates` (occupancy-grid-inl.h:375-380). -/
def Grid.validCell (g : Grid) (k : Cell) : Bool := decide (k.1 < g.nR) && decide (k.2 < g.nC)

/-- `inputToGridCoordinates` (occupancy-grid-inl.h:382-393). -/
def Grid.toCell (g : Grid) (u v : ℚ) : Outcome Cell := do
  Outcome.check (g.validInput u v)
  let r ← toSize ⌊u / g.cellR⌋
  let c ← toSize ⌊v / g.cellC⌋
  .ok (r, c)

/-- `getGridCell` (occupancy-grid-inl.h:350-364). -/
def Grid.getCell (g : Grid) (k : Cell) : Outcome (List Pt) := do
  Outcome.check (g.validCell k)
  .ok (g.cells k)

/-- `reset` (occupancy-grid-inl.h:47-55). -/
def Grid.reset (g : Grid) : Grid :=
  { g with num := 0, cells := fun k => if g.validCell k then [] else g.cells k }

/-- `addPointUnconditional` (occupancy-grid-inl.h:57-63). -/
def Grid.add (g : Grid) (p : Pt) : Outcome Grid := do
  let k ← g.toCell p.u p.v
  let cell ← g.getCell k
  .ok { g.setCell k (cell ++ [p]) with num := g.num + 1 }

/-- `std::min_element` with `operator<` of the points: position of the first lightest point
(occupancy-grid-inl.h:65-90). -/
def minElement : List Pt → Nat
  | [] => 0
  | a :: l =>
    match l[minElement l]? with
    | none => 0
    | some b => if b.w < a.w then minElement l + 1 else 0

/-- `addPointOrReplaceWeakestIfCellFull` (occupancy-grid-inl.h:65-90). -/
def Grid.addOrReplace (g : Grid) (p : Pt) (maxPoints : Nat) : Outcome (Grid × Bool) := do
  Outcome.check (decide (maxPoints > 0))
  let k ← g.toCell p.u p.v
  let cell ← g.getCell k
  if cell.length < maxPoints then
    .ok ({ g.setCell k (cell ++ [p]) with num := g.num + 1 }, true)
  else
    match cell[minElement cell]? with
    | none => .ub
    | some weakest =>
      if weakest.w < p.w then .ok (g.setCell k (cell.set (minElement cell) p), true)
      else .ok (g, false)

/-- `delta.squaredNorm() < min_distance_sq` (occupancy-grid-inl.h:126-130). -/
def tooClose (p q : Pt) (d : ℚ) : Bool :=
  decide ((p.u - q.u) * (p.u - q.u) + (p.v - q.v) * (p.v - q.v) < d * d)

/-- Cells of the neighbourhood `[i - 1, i + 1] × [j - 1, j + 1]` clamped to the grid (occupancy-grid-inl.h:105-110,
119-120); grid sizes are below `2^31`. -/
def Grid.window (g : Grid) (k : Cell) : List Cell :=
  let rows := (List.range (min (k.1 + 1) (g.nR - 1) + 1)).filter (fun r => decide (k.1 - 1 ≤ r))
  let cols := (List.range (min (k.2 + 1) (g.nC - 1) + 1)).filter (fun c => decide (k.2 - 1 ≤ c))
  rows.flatMap fun r => cols.map fun c => (r, c)

/-- Positions of the points of a cell that are too close (occupancy-grid-inl.h:124-133). -/
def violators (p : Pt) (d : ℚ) (cell : List Pt) : List Nat :=
  (cell.zipIdx.filter (fun x => tooClose p x.1 d)).map (fun x => x.2)

/-- `distance_violating_points` after the search (occupancy-grid-inl.h:116-135): only cells with a violating point have
an entry. -/
def Grid.violating (g : Grid) (k : Cell) (p : Pt) (d : ℚ) : List (Cell × List Nat) :=
  (g.window k).filterMap fun k' =>
    let v := violators p d (g.cells k')
    if v = [] then none else some (k', v)

/-- `distance_violating_points[&input_cell].emplace_back(idx)` (occupancy-grid-inl.h:149). -/
def emplaceBack (m : List (Cell × List Nat)) (k : Cell) (idx : Nat) : List (Cell × List Nat) :=
  if m.any (fun e => decide (e.1 = k)) then
    m.map (fun e => if e.1 = k then (e.1, e.2 ++ [idx]) else e)
  else m ++ [(k, [idx])]

/-- The three numbers the search for the heaviest point (occupancy-grid-inl.h:156-172) looks at for one violator: the
cell, `violator_index` and the position in the cell. -/
def triples (m : List (Cell × List Nat)) : List (Cell × Nat × Nat) :=
  m.flatMap fun e => e.2.zipIdx.map fun x => (e.1, x.2, x.1)

/-- Loop body of the search (occupancy-grid-inl.h:163-170). -/
def searchStep (g : Grid) (best : ℚ × Option (Cell × Nat)) (t : Cell × Nat × Nat) :
    Outcome (ℚ × Option (Cell × Nat)) :=
  match (g.cells t.1)[t.2.2]? with
  | none => .ub
  | some q => if q.w > best.1 then .ok (q.w, some (t.1, t.2.1)) else .ok best

/-- Loop body of the removal (occupancy-grid-inl.h:183-191). -/
def eraseStep (g : Grid) (e : Cell × List Nat) : Outcome Grid := do
  let reduced ← eraseIndicesFromVector (g.cells e.1) e.2
  .ok { g.setCell e.1 reduced with num := g.num - e.2.length }

/-- `distance_violating_points[cell].erase(begin() + idx)` (occupancy-grid-inl.h:179-180). -/
def dropViolator (m : List (Cell × List Nat)) (k : Cell) (idx : Nat) : List (Cell × List Nat) :=
  m.map fun e => if e.1 = k then (e.1, e.2.eraseIdx idx) else e

/-- Search for the heaviest of the violating points and removal of the others (occupancy-grid-inl.h:151-191). -/
def Grid.keepHeaviest (lib : Lib) (g : Grid) (m : List (Cell × List Nat)) : Outcome Grid := do
  let best ← (triples m).foldlM (searchStep g) (lib.lowest, none)
  Outcome.check (decide (best.1 > lib.lowest))
  match best.2 with
  | none => .abort
  | some (bk, bi) => (dropViolator m bk bi).foldlM eraseStep g

/-- `addPointOrReplaceWeakestNearestPoints` (occupancy-grid-inl.h:92-192). -/
def Grid.addMinDist (lib : Lib) (g : Grid) (p : Pt) (d : ℚ) : Outcome Grid := do
  Outcome.check (decide (d > 0))
  Outcome.check (decide (d ≤ min g.cellC g.cellR))
  let k ← g.toCell p.u p.v
  let viol := g.violating k p d
  let cell ← g.getCell k
  let g1 : Grid := { g.setCell k (cell ++ [p]) with num := g.num + 1 }
  if viol = [] then .ok g1
  else
    g1.keepHeaviest lib (lib.order (emplaceBack viol k cell.length))

/-- `getAllPointsInGrid` (occupancy-grid-inl.h:194-210). -/
def Grid.all (g : Grid) : List Pt := g.coords.flatMap g.cells

/-- `getAllPointsInGrid` (occupancy-grid-inl.h:194-210) with its consistency check. -/
def Grid.getAll (g : Grid) : Outcome (List Pt) := do
  Outcome.check (decide ((g.all.length : Int) = g.num))
  .ok g.all

/-- `setConstantWeightForAllPointsInGrid` (occupancy-grid-inl.h:212-223). -/
def Grid.setWeight (g : Grid) (w : ℚ) : Grid :=
  { g with cells := fun k => if g.validCell k then (g.cells k).map (fun p => { p with w := w })
                             else g.cells k }

/-- `getFullestGridCell` (occupancy-grid-inl.h:240-254). -/
def Grid.fullest (g : Grid) : Cell :=
  (g.coords.foldl (fun (best : Cell × Nat) k =>
    if (g.cells k).length > best.2 then (k, (g.cells k).length) else best) ((0, 0), 0)).1

/-- `removeWeightedPointsFromOverfullCell` (occupancy-grid-inl.h:268-285): grid and number of removed points. -/
def Grid.thinCell (lib : Lib) (g : Grid) (k : Cell) (maxPoints : Nat) : Outcome (Grid × Nat) := do
  Outcome.check (decide (maxPoints > 0))
  let cell ← g.getCell k
  if cell.length ≤ maxPoints then .ok (g, 0)
  else
    let removed := cell.length - maxPoints
    let cell' := (lib.psort (maxPoints + 1) cell).take maxPoints
    .ok ({ g.setCell k cell' with num := g.num - removed }, removed)

/-- `removeWeightedPointsFromOverfullCells` (occupancy-grid-inl.h:287-300). -/
def Grid.thinCells (lib : Lib) (g : Grid) (maxPoints : Nat) : Outcome (Grid × Nat) := do
  Outcome.check (decide (maxPoints > 0))
  g.coords.foldlM (fun (s : Grid × Nat) k => do
    let r ← s.1.thinCell lib k maxPoints
    .ok (r.1, s.2 + r.2)) (g, 0)

/-- `size_t` decrement (occupancy-grid-inl.h:183-191). -/
def sizeDec (n : Nat) : Nat := if n = 0 then 2 ^ 64 - 1 else n - 1

/-- One turn of the loop of `removePointsFromFullestCellsUntilSize` (occupancy-grid-inl.h:261-264). -/
def Grid.thinTurn (lib : Lib) (g : Grid) : Outcome Grid := do
  let k := g.fullest
  let cell ← g.getCell k
  let r ← g.thinCell lib k (sizeDec cell.length)
  .ok r.1

/-- The loop of `removePointsFromFullestCellsUntilSize` (occupancy-grid-inl.h:260-265); `none` if it is still running
after `fuel` turns. -/
def Grid.thinLoop (lib : Lib) (n : Nat) : Nat → Grid → Option (Outcome Grid)
  | fuel, g =>
    if g.num > n then
      match fuel with
      | 0 => none
      | fuel + 1 =>
        match g.thinTurn lib with
        | .ok g' => thinLoop lib n fuel g'
        | .abort => some .abort
        | .ub => some .ub
        | .exc => some .exc
    else some (.ok g)

/-- `removePointsFromFullestCellsUntilSize` (occupancy-grid-inl.h:256-266). -/
def Grid.thinUntil (lib : Lib) (g : Grid) (n : Nat) (fuel : Nat) : Option (Outcome Grid) :=
  if n > 0 then g.thinLoop lib n fuel else some .abort

/-- Calls that change the grid; `thinUntil` carries a number of turns after which the loop is observed
(occupancy-grid-inl.h:47-300). -/
inductive Op where
  | reset
  | add (p : Pt)
  | addOrReplace (p : Pt) (maxPoints : Nat)
  | addMinDist (p : Pt) (d : ℚ)
  | setWeight (w : ℚ)
  | thinCell (k : Cell) (maxPoints : Nat)
  | thinCells (maxPoints : Nat)
  | thinUntil (n : Nat) (fuel : Nat)

/-- Effect of a call; `none` if it has not returned (occupancy-grid-inl.h:47-300). -/
def step (lib : Lib) (g : Grid) : Op → Option (Outcome Grid)
  | .reset => some (.ok g.reset)
  | .add p => some (g.add p)
  | .addOrReplace p n => some (g.addOrReplace p n >>= fun r => .ok r.1)
  | .addMinDist p d => some (g.addMinDist lib p d)
  | .setWeight w => some (.ok (g.setWeight w))
  | .thinCell k n => some (g.thinCell lib k n >>= fun r => .ok r.1)
  | .thinCells n => some (g.thinCells lib n >>= fun r => .ok r.1)
  | .thinUntil n fuel => g.thinUntil lib n fuel

/-- Grids obtained from the constructor by calls that returned (occupancy-grid-inl.h:13-300). -/
inductive Reachable (lib : Lib) : Grid → Prop
  | create {maxR maxC cellR cellC : ℚ} {g : Grid} : create maxR maxC cellR cellC = .ok g → Reachable lib g
  | step {g g' : Grid} {op : Op} : Reachable lib g → step lib g op = some (.ok g') → Reachable lib g'

end Verif.OccupancyGrid
