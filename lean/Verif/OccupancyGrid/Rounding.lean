import Verif.OccupancyGrid.Lemmas
import Verif.Base.Double

/-!
# The occupancy grid with `double` coordinates

`aslam_cv_common/include/aslam/common/occupancy-grid-inl.h` for `CoordinatesType = double`: the quotients from
which the number of cells and the cell of a point are computed are rounded by `rnd`.  The comparisons, `std::ceil`
and `std::floor` are exact.  Infinities, NaN and subnormal numbers are not modelled.
-/

namespace Verif.OccupancyGrid

open Verif (Outcome)

/-- `static_cast<size_t>(std::ceil(max / cell))` (occupancy-grid-inl.h:29-32). -/
def cellCountR (rnd : ℚ → ℚ) (max cell : ℚ) : Outcome Nat :=
  if cell = 0 then .ub else toSize ⌈rnd (max / cell)⌉

/-- Constructor and `initializeGrid` (occupancy-grid-inl.h:13-45). -/
def createR (rnd : ℚ → ℚ) (maxR maxC cellR cellC : ℚ) : Outcome Grid := do
  Outcome.check (decide (maxR > 0))
  Outcome.check (decide (maxC > 0))
  Outcome.check (decide (maxR ≥ cellR))
  Outcome.check (decide (maxC ≥ cellC))
  let nR ← cellCountR rnd maxR cellR
  let nC ← cellCountR rnd maxC cellC
  Outcome.check (decide (nR > 0))
  Outcome.check (decide (nC > 0))
  .ok ⟨maxR, maxC, cellR, cellC, nR, nC, 0, fun _ => []⟩

/-- `inputToGridCoordinates` (occupancy-grid-inl.h:382-393). -/
def Grid.toCellR (rnd : ℚ → ℚ) (g : Grid) (u v : ℚ) : Outcome Cell := do
  Outcome.check (g.validInput u v)
  let r ← toSize ⌊rnd (u / g.cellR)⌋
  let c ← toSize ⌊rnd (v / g.cellC)⌋
  .ok (r, c)

/-- `addPointUnconditional` (occupancy-grid-inl.h:57-63). -/
def Grid.addR (rnd : ℚ → ℚ) (g : Grid) (p : Pt) : Outcome Grid := do
  let k ← g.toCellR rnd p.u p.v
  let cell ← g.getCell k
  .ok { g.setCell k (cell ++ [p]) with num := g.num + 1 }

end Verif.OccupancyGrid
