import Verif.Base.Outcome

/-!
# Hamming distance of descriptors

Model of `aslam_cv_common/include/aslam/common/hamming.h` and `hamming-inl.h`.

A pointer to a descriptor is an address and the bytes that may be read from there on (the descriptor and whatever
follows it in the same allocation).  128-bit registers are lists of 16 bytes, lowest first; bytes are numbers below 256.
The conversions of the two 32-bit counters to `float` and back (hamming-inl.h:131-132) are left out: the counters are at
most 2040, so that both conversions are exact (`Props.lean`, `sums_small`).
-/

namespace Verif.Hamming

open Verif (Outcome)

/-- `POPCOUNT_4bit` (hamming-inl.h:54-55). -/
def popcount4 : List Nat := [0, 1, 1, 2, 1, 2, 2, 3, 1, 2, 2, 3, 2, 3, 3, 4]

/-- Reading the `i`-th 128-bit word behind a pointer; reading past the allocation is undefined. -/
def word (i : Nat) (a : List UInt8) : Outcome (List Nat) :=
  if 16 * (i + 1) ≤ a.length then .ok (((a.drop (16 * i)).take 16).map UInt8.toNat) else .ub

/-- `_mm_srl_epi16` by 4 (hamming-inl.h:114): a shift of 16-bit lanes, low byte first. -/
def shift16 : List Nat → List Nat
  | lo :: hi :: r => (((hi * 256 + lo) >>> 4) % 256) :: (((hi * 256 + lo) >>> 4) / 256) :: shift16 r
  | l => l

/-- `_mm_and_si128` with `MASK_4bit` (hamming-inl.h:115-116). -/
def mask (x : List Nat) : List Nat := x.map (· &&& 0xf)

/-- `_mm_shuffle_epi8` of `POPCOUNT_4bit` (hamming-inl.h:119-120): an index with bit 7 set gives 0. -/
def shuffle (x : List Nat) : List Nat := x.map fun i => if 128 ≤ i then 0 else popcount4.getD (i % 16) 0

/-- `_mm_add_epi8` (hamming-inl.h:121-122). -/
def add8 (x y : List Nat) : List Nat := List.zipWith (fun a b => (a + b) % 256) x y

/-- One round of the loop (hamming-inl.h:112-122). -/
def round (x y acc : List Nat) : List Nat :=
  let d := List.zipWith (· ^^^ ·) x y
  add8 (add8 acc (shuffle (mask d))) (shuffle (mask (shift16 d)))

/-- `n` rounds from word `i` on (hamming-inl.h:112-124). -/
def rounds (a b : List UInt8) : Nat → Nat → List Nat → Outcome (List Nat)
  | 0, _, acc => .ok acc
  | n + 1, i, acc => word i a >>= fun x => word i b >>= fun y => rounds a b n (i + 1) (round x y acc)

/-- `SSSE3PopcntofXORed` (hamming-inl.h:88-137): the loop is a `do … while`, so that there is at least one round; then
the bytes of each half are summed (`_mm_sad_epu8`) and the halves added.  The loads are those of aligned words. -/
def ssse3 (addrA addrB : Nat) (a b : List UInt8) (words : Nat) : Outcome Nat :=
  if addrA % 16 = 0 ∧ addrB % 16 = 0 then
    rounds a b (if words = 0 then 1 else words) 0 (List.replicate 16 0) >>= fun acc =>
      .ok ((acc.drop 8).sum + (acc.take 8).sum)
  else .ub

/-- `vcntq_u8` (hamming-inl.h:76): the number of bits set in a byte. -/
def bits (x : Nat) : Nat := (List.range 8).countP fun j => x.testBit j

/-- The loop of `NEONPopcntofXORed` (hamming-inl.h:74-82). -/
def neonLoop (a b : List UInt8) : Nat → Nat → Nat → Outcome Nat
  | 0, _, acc => .ok acc
  | n + 1, i, acc => word i a >>= fun x => word i b >>= fun y =>
    neonLoop a b n (i + 1) ((acc + ((List.zipWith (· ^^^ ·) x y).map bits).sum) % 2 ^ 32)

/-- `NEONPopcntofXORed` (hamming-inl.h:67-84). -/
def neon (a b : List UInt8) (words : Nat) : Outcome Nat := neonLoop a b words 0 0

/-- `evaluate` and `operator()` on x86 (hamming.h:99-118).  A negative size would make one round as well. -/
def evaluate (addrA addrB : Nat) (a b : List UInt8) (size : Nat) : Outcome Nat := ssse3 addrA addrB a b (size / 16)

/-- `evaluate` and `operator()` on ARM (hamming.h:99-118). -/
def evaluateNeon (a b : List UInt8) (size : Nat) : Outcome Nat := neon a b (size / 16)

end Verif.Hamming
