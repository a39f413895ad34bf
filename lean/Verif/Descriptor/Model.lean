import Verif.Hamming.Model

/-!
# Binary descriptors

Model of the free functions of `aslam_cv_common/include/aslam/common/feature-descriptor-ref.h` and
`feature-descriptor-ref-inl.h` and of `descriptor-utils.h`.

A descriptor is a list of bytes, a descriptor matrix the list of its columns.  The counters of `int` are taken not to
overflow (fewer than 2^31 descriptors).  Means and deviations are exact numbers: rounding is not modelled.
-/

namespace Verif.Descriptor

open Verif (Outcome)

/-- `SetBit` (feature-descriptor-ref.h:105-111) and `setBit` (descriptor-utils.h:31-39). -/
def setBit (k : Nat) (d : List UInt8) : Outcome (List UInt8) :=
  match d[k / 8]? with
  | some x => .ok (d.set (k / 8) (UInt8.ofNat (x.toNat ||| (1 <<< (k % 8)))))
  | none => .abort

/-- `GetBit` (feature-descriptor-ref.h:113-118) and `getBit` (descriptor-utils.h:22-29). -/
def getBit (k : Nat) (d : List UInt8) : Outcome Bool :=
  match d[k / 8]? with
  | some x => .ok (decide (x.toNat &&& (1 <<< (k % 8)) ≠ 0))
  | none => .abort

/-- `FlipBit` (feature-descriptor-ref.h:120-126). -/
def flipBit (k : Nat) (d : List UInt8) : Outcome (List UInt8) :=
  match d[k / 8]? with
  | some x => .ok (d.set (k / 8) (UInt8.ofNat (x.toNat ^^^ (1 <<< (k % 8)))))
  | none => .abort

/-- The loop of `FlipNRandomBits` (feature-descriptor-ref.h:139-141). -/
def flipBits : List Nat → List UInt8 → Outcome (List UInt8)
  | [], d => .ok d
  | k :: ks, d => flipBit k d >>= flipBits ks

/-- `FlipNRandomBits` (feature-descriptor-ref.h:128-142); `shuffle` is the result of `std::random_shuffle`. -/
def flipNRandomBits (shuffle : List Nat → List Nat) (n : Nat) (d : List UInt8) : Outcome (List UInt8) :=
  let bits := List.range (d.length * 8 % 2 ^ 32)
  if n < bits.length then flipBits ((shuffle bits).take n) d else .abort

/-- `GetNumBitsDifferent` (feature-descriptor-ref.h:144-153). -/
def numBitsDifferent (addrA addrB : Nat) (a b : List UInt8) : Outcome Nat :=
  if a.length = b.length then Hamming.evaluate addrA addrB a b a.length else .abort

/-- The inner loop over the bits of one descriptor (descriptor-utils.h:52-56, feature-descriptor-ref-inl.h:204-208). -/
def countBits (d : List UInt8) : List Nat → List Nat → Outcome (List Nat)
  | [], sums => .ok sums
  | k :: ks, sums => getBit k d >>= fun b =>
    if b then
      match sums[k]? with
      | some v => countBits d ks (sums.set k (v + 1))
      | none => .ub
    else countBits d ks sums

/-- The loop over the descriptors (descriptor-utils.h:51-57); `bits` gives the number of bits visited. -/
def countAll (bits : List UInt8 → Nat) : List (List UInt8) → List Nat → Outcome (List Nat)
  | [], sums => .ok sums
  | d :: ds, sums => countBits d (List.range (bits d)) sums >>= countAll bits ds

/-- The loop that sets the bits of the mean (descriptor-utils.h:58-62, feature-descriptor-ref-inl.h:210-215). -/
def setMajority (half : Nat) (sums : List Nat) : List Nat → List UInt8 → Outcome (List UInt8)
  | [], m => .ok m
  | k :: ks, m =>
    match sums[k]? with
    | some v => if half < v then setBit k m >>= setMajority half sums ks else setMajority half sums ks m
    | none => .ub

/-- `descriptorMeanRoundedToBinaryValue` (descriptor-utils.h:41-63) of a matrix with `rows` rows. -/
def binaryMean (rows : Nat) (cols : List (List UInt8)) : Outcome (List UInt8) :=
  if 0 < rows then
    countAll (fun _ => rows * 8) cols (List.replicate (rows * 8) 0) >>= fun sums =>
      setMajority (cols.length / 2) sums (List.range (rows * 8)) (List.replicate rows 0)
  else .abort

/-- `DescriptorMean` (feature-descriptor-ref-inl.h:191-216): `mean` is the descriptor passed in. -/
def descriptorMean (features : List (List UInt8)) (mean : List UInt8) : Outcome (List UInt8) :=
  match features with
  | [] => .ok mean
  | f :: _ =>
    if mean.length = f.length then
      countAll (fun d => d.length * 8) features (List.replicate (f.length * 8) 0) >>= fun sums =>
        setMajority (features.length / 2) sums (List.range sums.length) (List.replicate mean.length 0)
    else .abort

/-- The distance of two columns of a matrix stored at address `base` (descriptor-utils.h:94-95): a column may be read to
the end of the matrix. -/
def columnDistance (base rows : Nat) (cols : List (List UInt8)) (i j : Nat) : Outcome Nat :=
  Hamming.evaluate (base + rows * i) (base + rows * j) (cols.drop i).flatten (cols.drop j).flatten rows

/-- The value of `hamming_distance_matrix(i, j)` after the loops (descriptor-utils.h:83-104): the distance of a pair is
computed once, for the smaller index first, and written twice; the diagonal stays zero. -/
def entry (base rows : Nat) (cols : List (List UInt8)) (i j : Nat) : Outcome Nat :=
  if i < j then columnDistance base rows cols i j else if j < i then columnDistance base rows cols j i else .ok 0

/-- The sum of column `j` of the matrix (descriptor-utils.h:107), over the rows given. -/
def columnSum (base rows : Nat) (cols : List (List UInt8)) (j : Nat) : List Nat → Outcome Nat
  | [] => .ok 0
  | i :: is => entry base rows cols i j >>= fun d => columnSum base rows cols j is >>= fun s => .ok (d + s)

/-- The sums of the columns given (descriptor-utils.h:50-57). -/
def columnSums (base rows : Nat) (cols : List (List UInt8)) : List Nat → Outcome (List Nat)
  | [] => .ok []
  | j :: js => columnSum base rows cols j (List.range cols.length) >>= fun s =>
    columnSums base rows cols js >>= fun r => .ok (s :: r)

/-- `getIndexOfDescriptorClosestToMedian` (descriptor-utils.h:68-113); `argmin` is `minCoeff(&index)`, which requires a
non-empty vector. -/
def medianIndex (argmin : List Nat → Nat) (base rows : Nat) (cols : List (List UInt8)) : Outcome Nat :=
  if 0 < rows then
    columnSums base rows cols (List.range cols.length) >>= fun sums =>
      if sums = [] then .abort else if argmin sums < cols.length then .ok (argmin sums) else .abort
  else .abort

/-- The loop of `descriptorMeanAbsoluteDeviation` (descriptor-utils.h:126-129). -/
def deviationLoop (base meanAddr rows : Nat) (cols : List (List UInt8)) (mean : List UInt8) :
    List Nat → Nat → Outcome Nat
  | [], acc => .ok acc
  | i :: is, acc => Hamming.evaluate (base + rows * i) meanAddr (cols.drop i).flatten mean rows >>= fun d =>
    deviationLoop base meanAddr rows cols mean is (acc + d)

/-- `descriptorMeanAbsoluteDeviation` (descriptor-utils.h:115-132). -/
def absoluteDeviation (base meanAddr rows : Nat) (cols : List (List UInt8)) : Outcome Rat :=
  if cols.length < 2 then .ok 0
  else binaryMean rows cols >>= fun mean =>
    deviationLoop base meanAddr rows cols mean (List.range cols.length) 0 >>= fun s => .ok ((s : Rat) / cols.length)

/-- `floatDescriptorMean` (descriptor-utils.h:134-156). -/
def floatMean (rows : Nat) (cols : List (List UInt8)) : Outcome (List Rat) :=
  if 0 < rows ∧ 0 < cols.length then
    countAll (fun _ => rows * 8) cols (List.replicate (rows * 8) 0) >>= fun sums =>
      .ok (sums.map fun v : Nat => (v : Rat) / (cols.length : Rat))
  else .abort

/-- The squared norm of the difference of the bits of a descriptor and a mean (descriptor-utils.h:165-175), over the bits
given. -/
def squaredNorm (d : List UInt8) (mean : List Rat) : List Nat → Outcome Rat
  | [] => .ok 0
  | k :: ks => getBit k d >>= fun b =>
    match mean[k]? with
    | some m => squaredNorm d mean ks >>= fun r => .ok (((if b then 1 else 0) - m) * ((if b then 1 else 0) - m) + r)
    | none => .ub

/-- `differenceToMeanSquaredNorm` (descriptor-utils.h:158-176). -/
def differenceToMean (d : List UInt8) (mean : List Rat) : Outcome Rat :=
  if mean.length = d.length * 8 then squaredNorm d mean (List.range (d.length * 8)) else .abort

/-- The loop of `descriptorMeanStandardDeviation` (descriptor-utils.h:188-191). -/
def squaredLoop (mean : List Rat) : List (List UInt8) → Outcome Rat
  | [] => .ok 0
  | d :: ds => differenceToMean d mean >>= fun x => squaredLoop mean ds >>= fun r => .ok (x + r)

/-- The square of the result of `descriptorMeanStandardDeviation` (descriptor-utils.h:178-194). -/
def squaredDeviation (rows : Nat) (cols : List (List UInt8)) : Outcome Rat :=
  if cols.length < 2 then .ok 0
  else floatMean rows cols >>= fun mean => squaredLoop mean cols >>= fun s => .ok (s / cols.length)

end Verif.Descriptor
