import Verif.Base.Outcome

/-!
# Channel serialisation

Model of `aslam_cv_common/include/aslam/common/channel-serialization.h` and
`aslam_cv_common/src/channel-serialization.cc`.

Memory is a list of bytes; every `memcpy` is a bounds-checked read or write whose out-of-bounds case
is `ub`.  `size_t` arithmetic is modulo `2^64`, headers are four little-endian `uint32_t` (x86/ARM).
-/

namespace Verif.Serialization

open Verif (Outcome)

/-- `char` of the serialised string (channel-serialization.h:39, 96, 154). -/
abbrev Byte := UInt8
/-- `std::string` of serialised bytes (channel-serialization.h:39, 96, 154). -/
abbrev Bytes := List Byte

/-- `n` low bytes of `x`, least significant first: the object representation of an unsigned integer
of `n` bytes on a little-endian machine (all machines the library supports)
(copied by `memcpy` at channel-serialization.cc:13-19). -/
def le : Nat → Nat → Bytes
  | 0, _ => []
  | n + 1, x => UInt8.ofNat x :: le n (x / 256)

/-- The integer whose little-endian representation is the given bytes (channel-serialization.cc:28-34). -/
def unle : Bytes → Nat
  | [] => 0
  | b :: bs => b.toNat + 256 * unle bs

/-- The source side of a `memcpy` of `n` bytes from `buf + off`; reading past the end of the object
is undefined behaviour (channel-serialization.cc:28-34, channel-serialization.h:231, 280). -/
def readAt (buf : Bytes) (off n : Nat) : Outcome Bytes :=
  if off + n ≤ buf.length then .ok ((buf.drop off).take n) else .ub

/-- The destination side of a `memcpy` of `bs` to `buf + off`; writing past the end of the object is
undefined behaviour (channel-serialization.cc:13-19, channel-serialization.h:58, 80). -/
def writeAt (buf : Bytes) (off : Nat) (bs : Bytes) : Outcome Bytes :=
  if off + bs.length ≤ buf.length then
    .ok (buf.take off ++ bs ++ buf.drop (off + bs.length))
  else .ub

/-- Element types for which `cv::DataType<Scalar>::depth` is used by the code
(channel-serialization.cc:49-86). -/
inductive Scalar where
  | u8 | s8 | u16 | s16 | s32 | f32 | f64
  deriving DecidableEq, Repr

/-- `sizeof(Scalar)` (channel-serialization.h:45, 69). -/
def Scalar.size : Scalar → Nat
  | .u8 | .s8 => 1
  | .u16 | .s16 => 2
  | .s32 | .f32 => 4
  | .f64 => 8

/-- `cv::DataType<Scalar>::depth` (OpenCV: CV_8U=0, CV_8S=1, CV_16U=2, CV_16S=3, CV_32S=4, CV_32F=5,
CV_64F=6). -/
def Scalar.depth : Scalar → Nat
  | .u8 => 0 | .s8 => 1 | .u16 => 2 | .s16 => 3 | .s32 => 4 | .f32 => 5 | .f64 => 6

/-- `2^64`, the modulus of `size_t`. -/
def sizeMod : Nat := 2 ^ 64

/-- The product `sizeof(Scalar) * rows * cols * channels` in `size_t` (channel-serialization.h:45, 69). -/
def sizeProd (sz rows cols channels : Nat) : Nat := (sz * rows * cols * channels) % sizeMod

/-- `struct HeaderInformation` (channel-serialization.h:17-25). -/
structure Header where
  rows : Nat
  cols : Nat
  depth : Nat
  channels : Nat
  deriving DecidableEq, Repr

/-- `HeaderInformation::size` (channel-serialization.cc:6-8). -/
def headerSize : Nat := 4 + 4 + 4 + 4

/-- `makeHeaderInformation<Scalar>` (channel-serialization.h:27-35): `int` to `uint32_t`
conversion is modulo `2^32`. -/
def makeHeader (s : Scalar) (rows cols channels : Nat) : Header :=
  { rows := rows % 2 ^ 32, cols := cols % 2 ^ 32, channels := channels % 2 ^ 32, depth := s.depth }

/-- `HeaderInformation::serializeToBuffer` (channel-serialization.cc:10-22). -/
def Header.serializeToBuffer (h : Header) (buf : Bytes) (off : Nat) : Outcome Bytes := do
  let buf ← writeAt buf off (le 4 h.rows)
  let buf ← writeAt buf (off + 4) (le 4 h.cols)
  let buf ← writeAt buf (off + 4 + 4) (le 4 h.depth)
  writeAt buf (off + 4 + 4 + 4) (le 4 h.channels)

/-- `HeaderInformation::deSerializeFromBuffer` (channel-serialization.cc:24-37). -/
def Header.deSerializeFromBuffer (buf : Bytes) (off : Nat) : Outcome Header := do
  let r ← readAt buf off 4
  let c ← readAt buf (off + 4) 4
  let d ← readAt buf (off + 4 + 4) 4
  let ch ← readAt buf (off + 4 + 4 + 4) 4
  .ok { rows := unle r, cols := unle c, depth := unle d, channels := unle ch }

/-- An `Eigen::Matrix<Scalar, ROWS, COLS>`: dimensions and the bytes of its storage.  Entries are
opaque byte patterns (they are only ever copied) (channel-serialization.h:84-102). -/
structure Mat where
  rows : Nat
  cols : Nat
  data : Bytes
  deriving DecidableEq, Repr

/-- Compile-time shape `ROWS, COLS` of the Eigen type; `none` is `Eigen::Dynamic` (channel-serialization.h:199-201). -/
structure Shape where
  scalar : Scalar
  rows : Option Nat
  cols : Option Nat
  deriving DecidableEq, Repr

/-- Typed `serializeToString` (channel-serialization.h:37-60).  `rows`/`cols` come from non-negative
dimensions, so the two `CHECK_GE` hold; `resize` fills with zero bytes. -/
def serializeRawToString (s : Scalar) (data : Bytes) (rows cols channels : Nat) :
    Outcome Bytes := do
  let matrixSize := sizeProd s.size rows cols channels
  let totalSize := (matrixSize + headerSize) % sizeMod
  Outcome.check (decide (0 < totalSize))
  let buf := List.replicate totalSize 0
  let buf ← (makeHeader s rows cols channels).serializeToBuffer buf 0
  let src ← readAt data 0 matrixSize
  writeAt buf headerSize src

/-- Typed `serializeToBuffer` (channel-serialization.h:62-82).  `heap k` is the unspecified content
of a fresh `new char[k]`. -/
def serializeRawToBuffer (heap : Nat → Byte) (s : Scalar) (data : Bytes)
    (rows cols channels : Nat) : Outcome Bytes := do
  let matrixSize := sizeProd s.size rows cols channels
  let totalSize := (matrixSize + headerSize) % sizeMod
  let buf := (List.range totalSize).map heap
  let buf ← (makeHeader s rows cols channels).serializeToBuffer buf 0
  let src ← readAt data 0 matrixSize
  writeAt buf headerSize src

/-- Eigen `serializeToBuffer` (channel-serialization.h:84-92). -/
def serializeToBuffer (heap : Nat → Byte) (s : Scalar) (m : Mat) : Outcome Bytes :=
  serializeRawToBuffer heap s m.data m.rows m.cols 1

/-- Eigen `serializeToString` (channel-serialization.h:94-102). -/
def serializeToString (s : Scalar) (m : Mat) : Outcome Bytes :=
  serializeRawToString s m.data m.rows m.cols 1

/-- The size computation loop of the vector overloads (channel-serialization.h:113-124, 160-171). -/
def vectorSize (s : Scalar) : List Mat → Nat → Nat
  | [], size => size
  | m :: ms, size =>
    vectorSize s ms ((size + (sizeProd s.size m.rows m.cols 1 + headerSize) % sizeMod) % sizeMod)

/-- The copy loop of the vector overloads (channel-serialization.h:131-148, 178-195). -/
def serializeElems (s : Scalar) : List Mat → Nat → Bytes → Outcome Bytes
  | [], _, buf => .ok buf
  | m :: ms, off, buf => do
    let buf ← (makeHeader s m.rows m.cols 1).serializeToBuffer buf off
    let off := off + headerSize
    let matrixSize := sizeProd s.size m.rows m.cols 1
    let src ← readAt m.data 0 matrixSize
    let buf ← writeAt buf off src
    serializeElems s ms (off + matrixSize) buf

/-- Vector `serializeToBuffer` (channel-serialization.h:104-150). -/
def serializeVectorToBuffer (heap : Nat → Byte) (s : Scalar) (ms : List Mat) : Outcome Bytes := do
  let size := vectorSize s ms 8
  let buf := (List.range size).map heap
  let buf ← writeAt buf 0 (le 8 ms.length)
  serializeElems s ms 8 buf

/-- Vector `serializeToString` (channel-serialization.h:152-197). -/
def serializeVectorToString (s : Scalar) (ms : List Mat) : Outcome Bytes := do
  let size := vectorSize s ms 8
  let buf := List.replicate size 0
  let buf ← writeAt buf 0 (le 8 ms.length)
  serializeElems s ms 8 buf

/-- `CHECK_EQ` against a compile-time dimension; nothing is checked for `Eigen::Dynamic`
(channel-serialization.h:211-216). -/
def checkDim (fixed : Option Nat) (got : Nat) : Outcome Unit :=
  match fixed with
  | none => .ok ()
  | some k => Outcome.check (decide (got = k % 2 ^ 32))

/-- `matrix->resize(rows, cols)`: Eigen throws `std::bad_alloc` when the storage would not be
addressable.  Simplification: smaller allocations never fail (channel-serialization.h:220-226). -/
def eigenResize (s : Scalar) (rows cols : Nat) : Outcome Unit :=
  if s.size * rows * cols < 2 ^ 63 then .ok () else .exc

/-- The header checks and the resize shared by the two Eigen deserialisers
(channel-serialization.h:211-226, 262-277). -/
def acceptHeader (sh : Shape) (h : Header) : Outcome Unit := do
  checkDim sh.rows h.rows
  checkDim sh.cols h.cols
  Outcome.check (decide (h.depth = sh.scalar.depth))
  Outcome.check (decide (1 = h.channels))
  eigenResize sh.scalar h.rows h.cols

/-- Eigen `deSerializeFromBuffer` (channel-serialization.h:199-233); `size` is the second argument
of the C++ function.  After `resize` (and the checks on fixed dimensions) the matrix has the
dimensions of the header. -/
def deSerializeFromBuffer (sh : Shape) (buf : Bytes) (size : Nat) : Outcome Mat := do
  Outcome.check (decide (headerSize ≤ size))
  let h ← Header.deSerializeFromBuffer buf 0
  acceptHeader sh h
  let matrixSize := sizeProd sh.scalar.size h.rows h.cols 1
  let totalSize := (matrixSize + headerSize) % sizeMod
  Outcome.check (decide (size = totalSize))
  let data ← readAt buf headerSize matrixSize
  .ok { rows := h.rows, cols := h.cols, data := data }

/-- Eigen `deSerializeFromString` (channel-serialization.h:235-240). -/
def deSerializeFromString (sh : Shape) (str : Bytes) : Outcome Mat :=
  deSerializeFromBuffer sh str str.length

/-- The loop of the vector deserialiser (channel-serialization.h:251-282). -/
def deSerializeElems (sh : Shape) (buf : Bytes) : Nat → Nat → Outcome (List Mat)
  | 0, _ => .ok []
  | n + 1, off => do
    let h ← Header.deSerializeFromBuffer buf off
    let off := off + headerSize
    acceptHeader sh h
    let matrixSize := sizeProd sh.scalar.size h.rows h.cols 1
    let data ← readAt buf off matrixSize
    let ms ← deSerializeElems sh buf n (off + matrixSize)
    .ok ({ rows := h.rows, cols := h.cols, data := data } :: ms)

/-- Vector `deSerializeFromBuffer` (channel-serialization.h:242-285).  The argument `size` is only
used in an error message, so the model does not take it.  `matrices->resize(repeat)` throws
`std::length_error` for counts above `max_size()`; `sizeof` of the element type is at least one
byte. -/
def deSerializeVectorFromBuffer (sh : Shape) (buf : Bytes) : Outcome (List Mat) := do
  let r ← readAt buf 0 8
  let rep := unle r
  if rep < 2 ^ 63 then deSerializeElems sh buf rep 8 else .exc

/-- Vector `deSerializeFromString` (channel-serialization.h:287-292). -/
def deSerializeVectorFromString (sh : Shape) (str : Bytes) : Outcome (List Mat) :=
  deSerializeVectorFromBuffer sh str

/-! ### `cv::Mat` -/

/-- A continuous two-dimensional `cv::Mat`: dimensions, depth code, channel count and storage
(channel-serialization.cc:39-46). -/
structure CvMat where
  rows : Nat
  cols : Nat
  depth : Nat
  channels : Nat
  data : Bytes
  deriving DecidableEq, Repr

/-- The `switch` over supported depths (channel-serialization.cc:49-90, 109-146); `none` is the
`default: LOG(FATAL)` branch. -/
def scalarOfDepth : Nat → Option Scalar
  | 0 => some .u8
  | 1 => some .s8
  | 2 => some .u16
  | 3 => some .s16
  | 4 => some .s32
  | 5 => some .f32
  | 6 => some .f64
  | _ => none

/-- `serializeToString(const cv::Mat&)` (channel-serialization.cc:39-92) for a continuous
two-dimensional image (the `CHECK`s on `isContinuous` and `dims` hold); `image.rows * image.cols` is
an `int` product whose overflow is undefined. -/
def cvSerializeToString (m : CvMat) : Outcome Bytes :=
  if m.rows * m.cols < 2 ^ 31 then
    match scalarOfDepth m.depth with
    | some s => serializeRawToString s m.data m.rows m.cols m.channels
    | none => .abort
  else .ub

/-- `serializeToBuffer(const cv::Mat&)` (channel-serialization.cc:158-212). -/
def cvSerializeToBuffer (heap : Nat → Byte) (m : CvMat) : Outcome Bytes :=
  if m.rows * m.cols < 2 ^ 31 then
    match scalarOfDepth m.depth with
    | some s => serializeRawToBuffer heap s m.data m.rows m.cols m.channels
    | none => .abort
  else .ub

/-- Channel count of `CV_MAKETYPE(depth, channels)` as `cv::Mat::create` sees it: OpenCV keeps nine
bits of `channels - 1` (`CV_MAT_CN_MASK`). -/
def cvChannels (channels : Nat) : Nat := (channels + 2 ^ 32 - 1) % 512 + 1

/-- `deSerializeTypedFromBuffer<SCALAR>` (channel-serialization.cc:99-112).  `image->create` throws
for dimensions that are negative as `int` or not addressable; otherwise the image owns exactly
`rows * cols * sizeof(SCALAR) * cvChannels` bytes, and `heap` is their unspecified initial
content. -/
def cvDeSerializeTyped (heap : Nat → Byte) (s : Scalar) (buf : Bytes) (size : Nat) (h : Header) :
    Outcome CvMat := do
  let matrixSize := sizeProd s.size h.rows h.cols h.channels
  let totalSize := (matrixSize + headerSize) % sizeMod
  Outcome.check (decide (size = totalSize))
  let ch := cvChannels h.channels
  if h.rows < 2 ^ 31 ∧ h.cols < 2 ^ 31 ∧ s.size * h.rows * h.cols * ch < 2 ^ 63 then
    let src ← readAt buf headerSize matrixSize
    let data ← writeAt ((List.range (s.size * h.rows * h.cols * ch)).map heap) 0 src
    .ok { rows := h.rows, cols := h.cols, depth := s.depth, channels := ch, data := data }
  else .exc

/-- `deSerializeFromBuffer(const char*, size_t, cv::Mat*)` (channel-serialization.cc:114-156). -/
def cvDeSerializeFromBuffer (heap : Nat → Byte) (buf : Bytes) (size : Nat) : Outcome CvMat := do
  Outcome.check (decide (headerSize ≤ size))
  let h ← Header.deSerializeFromBuffer buf 0
  match scalarOfDepth h.depth with
  | some s => cvDeSerializeTyped heap s buf size h
  | none => .abort

/-- `deSerializeFromString(const std::string&, cv::Mat*)` (channel-serialization.cc:94-97). -/
def cvDeSerializeFromString (heap : Nat → Byte) (str : Bytes) : Outcome CvMat :=
  cvDeSerializeFromBuffer heap str str.length

/-! ### Scalars -/

/-- Scalar `serializeToBuffer` (channel-serialization.h:335-343): the object representation. -/
def scalarSerializeToBuffer (repr : Bytes) : Outcome Bytes := do
  let src ← readAt repr 0 repr.length
  writeAt (List.replicate repr.length 0) 0 src

/-- Scalar `deSerializeFromBuffer` (channel-serialization.h:344-350); `sz` is `sizeof(Scalar)`. -/
def scalarDeSerializeFromBuffer (sz : Nat) (buf : Bytes) (size : Nat) : Outcome Bytes := do
  Outcome.check (decide (size = sz))
  readAt buf 0 size

/-- The decimal digit characters (`std::to_string`, channel-serialization.h:309). -/
def digitChar : Nat → Char
  | 0 => '0' | 1 => '1' | 2 => '2' | 3 => '3' | 4 => '4'
  | 5 => '5' | 6 => '6' | 7 => '7' | 8 => '8' | _ => '9'

/-- Decimal digits of a natural number, most significant first (`%llu`) (channel-serialization.h:309). -/
def decimal (n : Nat) : List Char :=
  if n < 10 then [digitChar n] else decimal (n / 10) ++ [digitChar (n % 10)]

/-- `std::to_string` of an integer (channel-serialization.h:309). -/
def toStringInt : Int → List Char
  | .ofNat n => decimal n
  | .negSucc n => '-' :: decimal (n + 1)

/-- Value of a decimal digit character (`std::stoll`, channel-serialization.h:320). -/
def digitVal : Char → Option Nat
  | '0' => some 0 | '1' => some 1 | '2' => some 2 | '3' => some 3 | '4' => some 4
  | '5' => some 5 | '6' => some 6 | '7' => some 7 | '8' => some 8 | '9' => some 9
  | _ => none

/-- Value of the longest decimal prefix, continuing from `acc` (channel-serialization.h:320). -/
def digitsVal : List Char → Nat → Nat
  | [], acc => acc
  | c :: cs, acc =>
    match digitVal c with
    | some d => digitsVal cs (10 * acc + d)
    | none => acc

/-- `isspace` in the C locale (channel-serialization.h:320). -/
def isSpace (c : Char) : Bool :=
  c = ' ' || c = '\t' || c = '\n' || c = '\x0b' || c = '\x0c' || c = '\r'

/-- The sign-and-digits part of `strtoll`; `none` when there is no digit (channel-serialization.h:320). -/
def parseSigned : List Char → Option Int
  | '-' :: c :: cs => if (digitVal c).isSome then some (-(digitsVal (c :: cs) 0 : Int)) else none
  | '+' :: c :: cs => if (digitVal c).isSome then some (digitsVal (c :: cs) 0 : Int) else none
  | c :: cs => if (digitVal c).isSome then some (digitsVal (c :: cs) 0 : Int) else none
  | [] => none

/-- `std::stoll`: throws `std::invalid_argument` without a number and `std::out_of_range` outside
`long long` (channel-serialization.h:320). -/
def stoll (cs : List Char) : Outcome Int :=
  match parseSigned (cs.dropWhile isSpace) with
  | none => .exc
  | some v => if -(2 ^ 63) ≤ v ∧ v < 2 ^ 63 then .ok v else .exc

/-- Integral scalar types used as channel values (channel-serialization.h:314-317). -/
inductive IntType where
  | i32 | u32 | i64 | u64 | bool
  deriving DecidableEq, Repr

/-- Values representable in the type (channel-serialization.h:314-317). -/
def IntType.InRange (t : IntType) (v : Int) : Prop :=
  match t with
  | .i32 => -(2 ^ 31) ≤ v ∧ v < 2 ^ 31
  | .u32 => 0 ≤ v ∧ v < 2 ^ 32
  | .i64 => -(2 ^ 63) ≤ v ∧ v < 2 ^ 63
  | .u64 => 0 ≤ v ∧ v < 2 ^ 64
  | .bool => 0 ≤ v ∧ v < 2

/-- `static_cast<Scalar>(long long)` (channel-serialization.h:320). -/
def IntType.cast (t : IntType) (v : Int) : Int :=
  match t with
  | .i32 => (v + 2 ^ 31) % 2 ^ 32 - 2 ^ 31
  | .u32 => v % 2 ^ 32
  | .i64 => (v + 2 ^ 63) % 2 ^ 64 - 2 ^ 63
  | .u64 => v % 2 ^ 64
  | .bool => if v = 0 then 0 else 1

/-- Scalar `serializeToString` for integers (channel-serialization.h:306-312). -/
def intSerializeToString (v : Int) : Outcome (List Char) := .ok (toStringInt v)

/-- Integral `deSerializeFromString` (channel-serialization.h:314-322). -/
def intDeSerializeFromString (t : IntType) (cs : List Char) : Outcome Int := do
  Outcome.check (!cs.isEmpty)
  let v ← stoll cs
  .ok (t.cast v)

/-- The decimal printed by `std::to_string(double)` (`"%f"`, six digits after the point) as a number
of millionths: the finite double `m / 2^e` rounded to nearest, ties to even. -/
def micros (m : Int) (e : Nat) : Int :=
  let n := m * 10 ^ 6
  let q := n / 2 ^ e
  let r := n % 2 ^ e
  if 2 * r < 2 ^ e then q
  else if 2 ^ e < 2 * r then q + 1
  else if q % 2 = 0 then q else q + 1

end Verif.Serialization
