import Verif.Base.Outcome
import Mathlib.Data.Rat.Floor

/-!
# Gyro two-frame matcher

Model of `aslam_cv_matcher/src/gyro-two-frame-matcher.cc` and
`aslam_cv_matcher/include/aslam/matcher/gyro-two-frame-matcher.h`.

* Coordinates are finite doubles, modelled as rationals; sums of coordinates and window sizes are exact and fit into
  an `int`.
* `unordered_map`s are functions, iterators into `keypoints_kp1_sorted_by_y_` are channel indices, iterators into
  the match vector are positions.  The latter dangle when the vector grows beyond its reserved capacity; the model
  returns `ub` in that case.
* Matching scores `score / bits` are compared with each other and with `0.85f` only; the model keeps `score` and
  compares cross-multiplied.
* The tests `isValid`, `hasDescriptors`, … of the constructor (gyro-two-frame-matcher.cc:36-54) and the statistics are not modelled.
-/

namespace Verif.GyroMatcher

open Verif (Outcome)

/-- `KeypointData` (gyro-two-frame-matcher.h:66-72). -/
structure KP where
  x : ℚ
  y : ℚ
  idx : Nat

/-- What the matcher is given.  `bits` is the static `kDescriptorSizeBits` (gyro-two-frame-matcher.cc:143), `dist k i` the number of
differing bits of descriptor `k` of frame k and descriptor `i` of frame k+1, `sorted` the keypoints of frame k+1 after
`std::sort` (gyro-two-frame-matcher.cc:91-95). -/
structure Input where
  bits : Nat
  small : Nat
  large : Nat
  height : Nat
  n1 : Nat
  nK : Nat
  dist : Nat → Nat → Nat
  pred : Nat → ℚ × ℚ
  success : Nat → Bool
  sorted : List KP

/-- Conversion of a double to an integer: truncation (gyro-two-frame-matcher.cc:103). -/
def trunc (q : ℚ) : ℤ := if 0 ≤ q then ⌊q⌋ else ⌈q⌉

/-- `static_cast<size_t>(measurement(1))` (gyro-two-frame-matcher.cc:103). -/
def row (q : KP) : Nat := (trunc q.y).toNat

/-- The `while` loop of the table construction (gyro-two-frame-matcher.cc:102-105), on the keypoints from position `v` on. -/
def advance (y : Nat) : List KP → Nat → Nat × List KP
  | [], v => (v, [])
  | q :: qs, v => if row q < y then advance y qs (v + 1) else (v, q :: qs)

/-- The `for` loop of the table construction (gyro-two-frame-matcher.cc:101-107). -/
def lutLoop : List Nat → List KP → Nat → List Nat
  | [], _, _ => []
  | y :: ys, rest, v => (advance y rest v).1 :: lutLoop ys (advance y rest v).2 (advance y rest v).1

/-- `initialize` (gyro-two-frame-matcher.cc:66-110): the row table.  Converting a coordinate of -1 or less to `size_t` is undefined; as the
keypoints are sorted and the image is not empty the conversion of the least one is reached. -/
def initRows (P : Input) : Outcome (List Nat) :=
  if P.sorted.any (fun q => decide (q.y ≤ -1)) then .ub
  else .ok (lutLoop (List.range P.height) P.sorted 0)

/-- `clamp` (gyro-two-frame-matcher.h:225-228). -/
def clamp (lower upper inp : ℤ) : ℤ := min (max inp lower) upper

/-- `LUT_index_top` (gyro-two-frame-matcher.h:210-211). -/
def topRow (P : Input) (py : ℚ) (w : Nat) : ℤ := clamp 0 ((P.height : ℤ) - 1) (trunc (py + 1 / 2 - w))

/-- `LUT_index_bottom` (gyro-two-frame-matcher.h:212-213). -/
def bottomRow (P : Input) (py : ℚ) (w : Nat) : ℤ := clamp 0 ((P.height : ℤ) - 1) (trunc (py + 1 / 2 + w))

/-- `getKeypointIteratorsInWindow` (gyro-two-frame-matcher.h:200-223): the keypoints from `begin` to `end`. -/
def window (P : Input) (lut : List Nat) (py : ℚ) (w : Nat) : Outcome (List KP) :=
  match lut[(topRow P py w).toNat]?, lut[(bottomRow P py w).toNat]? with
  | some b, some e =>
    if 0 < w ∧ topRow P py w ≤ bottomRow P py w ∧ 0 ≤ topRow P py w ∧ bottomRow P py w < P.height then
      .ok ((P.sorted.take e).drop b)
    else .abort
  | _, _ => .ub

/-- The horizontal test (gyro-two-frame-matcher.cc:154-157, 165-168 and 193-196, 205-208). -/
def inColumns (px : ℚ) (w : Nat) (q : KP) : Bool :=
  !(decide (q.x < trunc (px - w)) || decide (q.x > trunc (px + w)))

/-- The local variables of `matchKeypoint` (gyro-two-frame-matcher.cc:139-148, 159). -/
structure Search where
  best : ℤ
  dBest : Nat
  second : Nat
  it : Option Nat
  cands : List (Nat × ℤ)

/-- Initial values (gyro-two-frame-matcher.cc:139-148).  `bits * 0.8f` is computed in `float` and truncated; see `relaxed_threshold`. -/
def Search.init (bits : Nat) : Search := ⟨(bits * 4 / 5 : Nat), bits + 1, bits + 1, none, []⟩

/-- The update of the two best distances (gyro-two-frame-matcher.cc:176-187 and 215-226). -/
def update (s : Search) (i d : Nat) (score : ℤ) : Search :=
  if score > s.best then { s with best := score, second := s.dBest, dBest := d, it := some i }
  else if d < s.second then { s with second := d }
  else s

/-- One candidate (gyro-two-frame-matcher.cc:170-192 and 209-231), with `addCandidate` (gyro-two-frame-matcher.h:80-86). -/
def visit (P : Input) (k : Nat) (s : Search) (i : Nat) : Outcome Search :=
  if i < P.n1 then
    if 0 < (P.bits : ℤ) - P.dist k i then
      .ok { update s i (P.dist k i) ((P.bits : ℤ) - P.dist k i) with
        cands := s.cands ++ [(i, (P.bits : ℤ) - P.dist k i)] }
    else .abort
  else .abort

/-- The loops over candidates (gyro-two-frame-matcher.cc:150-233). -/
def visitAll (P : Input) (k : Nat) : List Nat → Search → Outcome Search
  | [], s => .ok s
  | i :: is, s => do
    let s ← visit P k s i
    visitAll P k is s

/-- The search of the small window (gyro-two-frame-matcher.cc:150-192). -/
def smallCands (P : Input) (lut : List Nat) (k : Nat) : Outcome (List Nat) := do
  let w ← window P lut (P.pred k).2 P.small
  .ok ((w.filter (inColumns (P.pred k).1 P.small)).map KP.idx)

/-- The candidates of the large window that were not processed yet (gyro-two-frame-matcher.cc:195-208). -/
def largeCands (P : Input) (lut : List Nat) (k : Nat) (done : List Nat) : Outcome (List Nat) := do
  let w ← window P lut (P.pred k).2 P.large
  .ok ((w.filter (fun q => !(done.contains q.idx) && inColumns (P.pred k).1 P.large q)).map KP.idx)

/-- The large window, searched if nothing was found (gyro-two-frame-matcher.cc:194-233). -/
def searchLarge (P : Input) (lut : List Nat) (k : Nat) (done : List Nat) (s : Search) : Outcome Search :=
  if s.it = none then do
    let c ← largeCands P lut k done
    visitAll P k c s
  else .ok s

/-- Both searches (gyro-two-frame-matcher.cc:134-233). -/
def search (P : Input) (lut : List Nat) (k : Nat) : Outcome Search := do
  let c ← smallCands P lut k
  let s ← visitAll P k c (Search.init P.bits)
  searchLarge P lut k c s

/-- `ratioTest` (gyro-two-frame-matcher.h:235-252).  The quotient is computed in `float`; see `float_ratio`. -/
def ratioTest (bits d1 d2 : Nat) : Outcome Bool :=
  if d1 ≤ d2 then
    .ok (if d2 > bits then true else if d2 = 0 then true else decide (5 * d1 < 4 * d2))
  else .abort

/-- The member variables that change (gyro-two-frame-matcher.h:170-190). -/
structure St where
  matched : Nat → Bool
  pairs : List (Nat × Nat)
  iter : Nat → Option Nat
  score : Nat → Option ℤ
  cand : Nat → Option (List (Nat × ℤ))
  inferior : List Nat

/-- The state after construction (gyro-two-frame-matcher.cc:14-64). -/
def St.init : St := ⟨fun _ => false, [], fun _ => none, fun _ => none, fun _ => none, []⟩

/-- Writing to a map (gyro-two-frame-matcher.cc:241-277). -/
def upd {α : Type} (f : Nat → α) (i : Nat) (v : α) : Nat → α := fun j => if j = i then v else f j

/-- A new match is appended and its iterator and score are recorded (gyro-two-frame-matcher.cc:269-276 and 351-360).  The vector has
capacity `nK` (gyro-two-frame-matcher.cc:61). -/
def emplace (P : Input) (i k : Nat) (sc : ℤ) (st : St) : Outcome St :=
  if st.pairs.length < P.nK then
    if st.iter i = none ∧ st.score i = none then
      .ok { st with pairs := st.pairs ++ [(i, k)], iter := upd st.iter i (some st.pairs.length),
                    score := upd st.score i (some sc) }
    else .abort
  else .ub

/-- The match of a keypoint of frame k+1 is given to another keypoint of frame k (gyro-two-frame-matcher.cc:254-262 and 333-348).  Returns
the keypoint that loses it. -/
def replaceMatch (i k : Nat) (sc : ℤ) (st : St) : Outcome (Nat × St) :=
  match st.iter i with
  | some p =>
    match st.pairs[p]? with
    | some m => .ok (m.2, { st with pairs := st.pairs.set p (i, k), score := upd st.score i (some sc) })
    | none => .ub
  | none => .ub

/-- `map[key]` for the scores: a missing entry is created as 0.0 (gyro-two-frame-matcher.cc:248, 329). -/
def scoreAt (st : St) (i : Nat) : ℤ := (st.score i).getD 0

/-- What is done with a keypoint that passed the ratio test (gyro-two-frame-matcher.cc:241-277). -/
def place (P : Input) (k i : Nat) (sc : ℤ) (cands : List (Nat × ℤ)) (st : St) : Outcome St :=
  match st.cand k with
  | some _ => .abort
  | none =>
    if st.matched i then
      if sc > scoreAt st i then do
        let r ← replaceMatch i k sc { st with cand := upd st.cand k (some cands) }
        .ok { r.2 with inferior := r.2.inferior ++ [r.1] }
      else .ok { st with cand := upd st.cand k (some cands), inferior := st.inferior ++ [k] }
    else emplace P i k sc { st with cand := upd st.cand k (some cands), matched := upd st.matched i true }

/-- The decision after the search (gyro-two-frame-matcher.cc:235-277). -/
def decideMatch (P : Input) (k : Nat) (s : Search) (st : St) : Outcome St :=
  match s.it with
  | none => .ok st
  | some i => do
    let pass ← ratioTest P.bits s.dBest s.second
    if pass then place P k i s.best s.cands st else .ok st

/-- `matchKeypoint` (gyro-two-frame-matcher.cc:130-289). -/
def matchKeypoint (P : Input) (lut : List Nat) (k : Nat) (st : St) : Outcome St :=
  if P.success k then do
    let s ← search P lut k
    decideMatch P k s st
  else .ok st

/-- The loop over the keypoints of frame k (gyro-two-frame-matcher.cc:119-121). -/
def matchAll (P : Input) (lut : List Nat) : List Nat → St → Outcome St
  | [], st => .ok st
  | k :: ks, st => do
    let st ← matchKeypoint P lut k st
    matchAll P lut ks st

/-- `matching_score > 0.85f` (gyro-two-frame-matcher.cc:303, 313): `0.85f` is 14260634 / 2^24. -/
def strict (bits : Nat) (sc : ℤ) : Bool := decide (14260634 * (bits : ℤ) < 2 ^ 24 * sc)

/-- The best candidate that is not matched yet (gyro-two-frame-matcher.cc:302-317). -/
def pick (bits : Nat) (matched : Nat → Bool) : List (Nat × ℤ) → Option (Nat × ℤ) → Option (Nat × ℤ)
  | [], b => b
  | c :: cs, b =>
    if matched c.1 then pick bits matched cs b
    else
      match b with
      | none => if strict bits c.2 then pick bits matched cs (some c) else pick bits matched cs b
      | some d => if c.2 > d.2 then pick bits matched cs (some c) else pick bits matched cs b

/-- The variables of `matchInferiorMatches` (gyro-two-frame-matcher.cc:291-299). -/
structure Inf where
  st : St
  isInf : Nat → Bool
  erase : List Nat
  found : Bool

/-- A keypoint of frame k and the candidate found for it (gyro-two-frame-matcher.cc:319-361). -/
def infPlace (P : Input) (k i : Nat) (sc : ℤ) (s : Inf) : Outcome Inf :=
  if s.isInf i then
    if sc > scoreAt s.st i then do
      let r ← replaceMatch i k sc s.st
      .ok { s with st := r.2, erase := (k :: s.erase).filter (fun e => e ≠ r.1), found := true }
    else .ok { s with found := true }
  else do
    let st ← emplace P i k sc s.st
    .ok { s with st := st, isInf := upd s.isInf i true, erase := k :: s.erase, found := true }

/-- One keypoint of the inner loop (gyro-two-frame-matcher.cc:300-361). -/
def infOne (P : Input) (k : Nat) (s : Inf) : Outcome Inf :=
  match pick P.bits s.st.matched ((s.st.cand k).getD []) none with
  | none => .ok s
  | some c => infPlace P k c.1 c.2 s

/-- The loop (gyro-two-frame-matcher.cc:298-362). -/
def infAll (P : Input) : List Nat → Inf → Outcome Inf
  | [], s => .ok s
  | k :: ks, s => do
    let s ← infOne P k s
    infAll P ks s

/-- `matchInferiorMatches` (gyro-two-frame-matcher.cc:291-376): the new state, the flags and whether a match was found. -/
def matchInferior (P : Input) (st : St) (isInf : Nat → Bool) : Outcome (St × (Nat → Bool) × Bool) := do
  let s ← infAll P st.inferior ⟨st, isInf, [], false⟩
  .ok ({ s.st with inferior := s.st.inferior.filter (fun e => !s.erase.contains e), matched := s.isInf },
    s.isInf, s.found)

/-- The repetitions (gyro-two-frame-matcher.cc:125-127). -/
def rounds (P : Input) : Nat → St → (Nat → Bool) → Outcome St
  | 0, st, _ => .ok st
  | n + 1, st, isInf => do
    let r ← matchInferior P st isInf
    if r.2.2 then rounds P n r.1 r.2.1 else .ok r.1

/-- `match` (gyro-two-frame-matcher.cc:112-128). -/
def runMatch (P : Input) : Outcome (List (Nat × Nat)) := do
  let lut ← initRows P
  if P.nK = 0 ∨ P.n1 = 0 then .ok []
  else
    let st ← matchAll P lut (List.range P.nK) St.init
    let st ← rounds P 3 st st.matched
    .ok st.pairs

end Verif.GyroMatcher
