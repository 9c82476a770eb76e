import Verif.SimpleModels
import Verif.Utils
import Mathlib.Data.Int.Log

/-! # Model of utils/compress.hpp and cereal/eigen.hpp

The libraries behind them are parameters: `Zstd`, and pairs of functions for gzip and base64.  Bytes are
`UInt8`, buffers lists of bytes.  A cereal archive keeps the named values it is given; it is either a text or
a binary archive. -/

namespace Albatross

open Matrix

abbrev Bytes := List UInt8

/-! ## zstd -/

/-- `ZSTD_CONTENTSIZE_UNKNOWN`. -/
def contentSizeUnknown : Nat := 2 ^ 64 - 1

/-- `ZSTD_CONTENTSIZE_ERROR`. -/
def contentSizeError : Nat := 2 ^ 64 - 2

/-- The functions used of the zstd library.  `compress level capacity src` and `decompress src capacity`
return the `size_t` result together with the bytes written to the start of the destination. -/
structure Zstd where
  compressBound : Nat → Nat
  compress : Int → Nat → Bytes → Nat × Bytes
  frameContentSize : Bytes → Nat
  decompress : Bytes → Nat → Nat × Bytes

/-- `std::string::max_size()` of 64 bit implementations: no buffer is larger. -/
def stringMaxSize : Nat := 2 ^ 63 - 2

/-- What the zstd manual promises about data that fits in memory: compressing into a buffer of
`ZSTD_compressBound` bytes succeeds and returns the number of bytes written; such a frame knows its content
size and decompresses to the source; no more is written than the capacity, a successful result is the number
of bytes written, and an error is a `size_t` larger than any buffer. -/
structure Zstd.Contract (z : Zstd) : Prop where
  compress_fits : ∀ level src, src.length ≤ stringMaxSize →
    (z.compress level (z.compressBound src.length) src).2.length ≤ z.compressBound src.length
  compress_size : ∀ level src, src.length ≤ stringMaxSize →
    (z.compress level (z.compressBound src.length) src).1 =
      (z.compress level (z.compressBound src.length) src).2.length
  content_size : ∀ level src, src.length ≤ stringMaxSize →
    z.frameContentSize (z.compress level (z.compressBound src.length) src).2 = src.length
  round_trip : ∀ level src capacity, src.length ≤ stringMaxSize → src.length ≤ capacity →
    z.decompress (z.compress level (z.compressBound src.length) src).2 capacity = (src.length, src)
  written_fits : ∀ src capacity, (z.decompress src capacity).2.length ≤ capacity
  result : ∀ src capacity, (z.decompress src capacity).1 = (z.decompress src capacity).2.length ∨
    stringMaxSize < (z.decompress src capacity).1

/-- `s.resize(n)`. -/
def resizeBytes (s : Bytes) (n : Nat) : Bytes := s.take n ++ List.replicate (n - s.length) 0

/-- Writing `written` to the start of a buffer. -/
def overwrite (buffer written : Bytes) : Bytes := written ++ buffer.drop written.length

/-- `internal::compress` (utils/compress.hpp lines 22-37). -/
def zstdCompressBytes (z : Zstd) (level : Int) (data : Bytes) : Bytes :=
  let compressed := resizeBytes [] (z.compressBound data.length)
  let r := z.compress level compressed.length data
  resizeBytes (overwrite compressed r.2) r.1

/-- `internal::DecompressResult` (utils/compress.hpp lines 39-45). -/
inductive DecompressResult
  | ok
  | contentSizeUnknown
  | contentSizeError
  | expectedRequestedSizeMismatch
  | resultingRequestedSizeMismatch
  deriving DecidableEq

/-- `internal::failed` (utils/compress.hpp lines 47-53). -/
def DecompressResult.failed (r : DecompressResult) : Bool := if r = .ok then false else true

/-- `internal::assert_on_error` (utils/compress.hpp lines 55-81). -/
def assertOnError (b : Build) : DecompressResult → Outcome Unit
  | .ok => .ok ()
  | .contentSizeUnknown => albatrossAssert b false
  | .contentSizeError => albatrossAssert b false
  | .expectedRequestedSizeMismatch => albatrossAssert b false
  | .resultingRequestedSizeMismatch => albatrossAssert b false

/-- `internal::check_decompressed_size` (utils/compress.hpp lines 83-98). -/
def checkDecompressedSize (size : Nat) : DecompressResult :=
  if contentSizeUnknown = size then .contentSizeUnknown
  else if contentSizeError = size then .contentSizeError
  else .ok

/-- `internal::maybe_decompress` (utils/compress.hpp lines 100-123): the result and the output buffer
afterwards.  `output` holds `outputSize` bytes. -/
def maybeDecompressBytes (z : Zstd) (input output : Bytes) (outputSize : Nat) : DecompressResult × Bytes :=
  let decompressedSize := z.frameContentSize input
  let check := checkDecompressedSize decompressedSize
  if check.failed then (check, output)
  else if decompressedSize ≠ outputSize then (.expectedRequestedSizeMismatch, output)
  else
    let r := z.decompress input outputSize
    let output := overwrite output r.2
    if r.1 ≠ outputSize then (.resultingRequestedSizeMismatch, output)
    else (.ok, output)

/-- `internal::decompress` (utils/compress.hpp lines 125-128). -/
def decompressBytes (b : Build) (z : Zstd) (input output : Bytes) (outputSize : Nat) : Outcome Bytes := do
  let r := maybeDecompressBytes z input output outputSize
  assertOnError b r.1
  pure r.2

/-- `maybe_decompress(input, output, n_elements)` (utils/compress.hpp lines 164-176) for elements of
`width` bytes. -/
def maybeDecompressElements (z : Zstd) (width : Nat) (input output : Bytes) (nElements : Nat) : Bool × Bytes :=
  let r := maybeDecompressBytes z input output (width * nElements % 2 ^ 64)
  if r.1.failed then (false, r.2) else (true, r.2)

/-- `decompress(input, data, n_elements)` (utils/compress.hpp lines 153-158). -/
def decompressElements (b : Build) (z : Zstd) (width : Nat) (input output : Bytes) (nElements : Nat) :
    Outcome Bytes :=
  decompressBytes b z input output (nElements * width % 2 ^ 64)

/-- `output->resize(size)`, which throws `std::length_error` for sizes beyond `max_size()`. -/
def resizeString (s : Bytes) (n : Nat) : Outcome Bytes :=
  if n ≤ stringMaxSize then .ok (resizeBytes s n) else .error .thrown

/-- `maybe_decompress(input, output)` (utils/compress.hpp lines 181-199). -/
def maybeDecompressString (z : Zstd) (input output : Bytes) : Outcome (Bool × Bytes) := do
  let size := z.frameContentSize input
  if (checkDecompressedSize size).failed then pure (false, output)
  else do
    let output ← resizeString output size
    let r := maybeDecompressBytes z input output size
    if r.1.failed then pure (false, r.2) else pure (true, r.2)

/-- `decompress(input)` (utils/compress.hpp lines 203-213). -/
def decompressString (b : Build) (z : Zstd) (input : Bytes) : Outcome Bytes := do
  let size := z.frameContentSize input
  assertOnError b (checkDecompressedSize size)
  let output ← resizeString [] size
  decompressBytes b z input output size

/-! ## Dense matrices -/

/-- A pair of an encoder and a decoder: gzip and base64. -/
structure Codec where
  encode : Bytes → Bytes
  decode : Bytes → Bytes

/-- Decoding undoes encoding. -/
def Codec.Contract (c : Codec) : Prop := ∀ s, c.decode (c.encode s) = s

/-- The object representation of the scalars of a matrix: `sizeof(_Scalar)` bytes each. -/
structure ScalarRep (α : Type) where
  width : Nat
  bytes : α → Bytes
  ofBytes : Bytes → α

/-- What is true of a trivially copyable type. -/
structure ScalarRep.Contract {α : Type} (s : ScalarRep α) : Prop where
  pos : 0 < s.width
  length : ∀ x, (s.bytes x).length = s.width
  round_trip : ∀ x, s.ofBytes (s.bytes x) = x

/-- The scalars in a buffer. -/
def ScalarRep.read {α : Type} (s : ScalarRep α) : Nat → Bytes → List α
  | 0, _ => []
  | n + 1, buffer => s.ofBytes (buffer.take s.width) :: s.read n (buffer.drop s.width)

/-- The object representation of an array of scalars. -/
def ScalarRep.write {α : Type} (s : ScalarRep α) (xs : List α) : Bytes := xs.flatMap s.bytes

/-- An Eigen matrix with its column-major storage. -/
structure Stored (α : Type) where
  rows : Nat
  cols : Nat
  data : List α

/-- The storage has one scalar for each position. -/
def Stored.Valid {α : Type} (m : Stored α) : Prop := m.data.length = m.rows * m.cols

/-- What an archive holds for a dense matrix (cereal/eigen.hpp lines 18-36). -/
structure DenseArchive where
  rows : Nat
  cols : Nat
  payload : Bytes

/-- `save` of a dense matrix (cereal/eigen.hpp lines 18-36); `text` says whether it is a text archive. -/
def saveDense {α : Type} (z : Zstd) (base64 : Codec) (s : ScalarRep α) (text : Bool) (m : Stored α) :
    DenseArchive :=
  let payload := zstdCompressBytes z 3 (s.write m.data)
  let payload := if text then base64.encode payload else payload
  ⟨m.rows, m.cols, payload⟩

/-- `load` of a dense matrix (cereal/eigen.hpp lines 38-70).  `uninit` is the content of the buffer after
`m.resize`. -/
def loadDense {α : Type} (b : Build) (z : Zstd) (gzip base64 : Codec) (s : ScalarRep α) (text : Bool)
    (uninit : Bytes) (ar : DenseArchive) : Outcome (Stored α) := do
  let size := ar.rows * ar.cols
  if size = 0 then pure ⟨ar.rows, ar.cols, []⟩
  else do
    let payload := if text then base64.decode ar.payload else ar.payload
    let r := maybeDecompressElements z s.width payload uninit size
    if !r.1 then do
      let decompressed := gzip.decode payload
      albatrossAssert b (decide (decompressed.length = size * s.width))
      if decompressed.length < size * s.width then .error .ub
      else pure ⟨ar.rows, ar.cols, s.read size decompressed⟩
    else pure ⟨ar.rows, ar.cols, s.read size r.2⟩

/-! ## Lower triangles -/

/-- Rounding to the nearest double, ties to even (numbers in the range of normal doubles): a number of
magnitude in `[2^(52+e), 2^(53+e))` is rounded to a multiple of `2^e`. -/
noncomputable def roundDouble (x : ℝ) : ℝ :=
  let e := Int.log 2 |x| - 52
  let magnitude := (roundHalfEven (|x| / (2 : ℝ) ^ e) : ℝ) * (2 : ℝ) ^ e
  if x < 0 then -magnitude else magnitude

/-- `m(i, j)`, with Eigen's check of the indices. -/
def Stored.at {α : Type} (b : Build) (m : Stored α) (i j : Nat) : Outcome α := do
  eigenAssert b (decide (i < m.rows ∧ j < m.cols))
  vecGet m.data (j * m.rows + i)

/-- The matrix of the given size with the given entries. -/
def Stored.ofEntries {α : Type} (rows cols : Nat) (f : Nat → Nat → α) : Stored α :=
  ⟨rows, cols, (List.range (rows * cols)).map fun k => f (k % rows) (k / rows)⟩

/-- The vector written by `save_lower_triangle` (cereal/eigen.hpp lines 124-137): `v(i, j)` for `j ≤ i`, row by
row. -/
def lowerTriangleData {α : Type} (b : Build) (v : Stored α) : Outcome (List α) := do
  let rows ← (List.range v.rows).mapM fun i => (List.range (i + 1)).mapM fun j => v.at b i j
  pure rows.flatten

/-- The number of rows inferred by `load_lower_triangle` (cereal/eigen.hpp lines 147-154), with every
operation rounded to double. -/
noncomputable def inferredRows (b : Build) (size : Nat) : Outcome Nat := do
  let n ← indexToDouble b size
  let a : ℝ := 1
  let bb : ℝ := 1
  let c := roundDouble (-2 * n)
  let fourAC := roundDouble (roundDouble (4 * a) * c)
  let disc := roundDouble (roundDouble (bb * bb) - fourAC)
  let root := roundDouble (Real.sqrt disc)
  let rowsAsDouble := roundDouble (roundDouble (root - bb) / roundDouble (2 * a))
  let nearest := ⌊rowsAsDouble + 1 / 2⌋₊
  albatrossAssert b (@decide (rowsAsDouble - nearest = 0) (Classical.dec _))
  pure nearest

/-- `save_lower_triangle` (cereal/eigen.hpp lines 124-137). -/
def saveLowerTriangle {α : Type} (b : Build) (z : Zstd) (base64 : Codec) (s : ScalarRep α) (text : Bool)
    (v : Stored α) : Outcome DenseArchive := do
  let data ← lowerTriangleData b v
  pure (saveDense z base64 s text ⟨data.length, 1, data⟩)

/-- The loop of `load_lower_triangle` over the `n` rows from row `i` on: each takes the next `i + 1` values
(cereal/eigen.hpp lines 140-160). -/
def readLower {α : Type} (b : Build) : Nat → Nat → List α → Outcome (List (List α))
  | 0, _, _ => .ok []
  | n + 1, i, data => do
    eigenAssert b (decide (i + 1 ≤ data.length))
    let rest ← readLower b n (i + 1) (data.drop (i + 1))
    pure (data.take (i + 1) :: rest)

/-- `load_lower_triangle` (cereal/eigen.hpp lines 144-162) after `data` was loaded; `uninit` is the content
after `v.resize`. -/
noncomputable def fillLowerTriangle {α : Type} (b : Build) (uninit : Nat → Nat → α) (data : List α) :
    Outcome (Stored α) := do
  let rows ← inferredRows b data.length
  let lines ← readLower b rows 0 data
  pure (Stored.ofEntries rows rows fun i j =>
    if j ≤ i then (lines.getD i []).getD j (uninit i j) else uninit i j)

/-- `load_lower_triangle` (cereal/eigen.hpp lines 139-163). -/
noncomputable def loadLowerTriangle {α : Type} (b : Build) (z : Zstd) (gzip base64 : Codec) (s : ScalarRep α)
    (text : Bool) (uninitBytes : Bytes) (uninit : Nat → Nat → α) (ar : DenseArchive) : Outcome (Stored α) := do
  let data ← loadDense b z gzip base64 s text uninitBytes ar
  fillLowerTriangle b uninit data.data

/-! ## Sparse matrices -/

/-- A sparse matrix of doubles: its stored entries `(row, column, value)` in the order of its iterators. -/
structure SparseMat where
  rows : Nat
  cols : Nat
  entries : List (Nat × Nat × ℝ)

/-- The entry of the matrix a sparse matrix stands for. -/
noncomputable def SparseMat.entry (m : SparseMat) (i j : Nat) : ℝ :=
  (m.entries.map fun e => if e.1 = i ∧ e.2.1 = j then e.2.2 else 0).sum

/-- The eight byte words of an array of `Eigen::Triplet<double>`: two 32 bit indices, then the value. -/
inductive Word
  | index (row col : Nat)
  | value (x : ℝ)

/-- What an archive holds for a sparse matrix; the payload after undoing gzip and base64. -/
structure SparseArchive where
  rows : Nat
  cols : Nat
  nnz : Nat
  payload : List Word

/-- `save` of a sparse matrix of doubles (cereal/eigen.hpp lines 165-196).  Line 180 constructs the triplets
from `(it.col(), it.row(), it.value())`; `gzip::compress` reads `nnz * sizeof(double)` bytes (lines 172, 185),
that is `nnz` words. -/
def saveSparse (m : SparseMat) : SparseArchive :=
  let nnz := m.entries.length
  let elems := m.entries.flatMap fun e => [Word.index e.2.1 e.1, Word.value e.2.2]
  ⟨m.rows, m.cols, nnz, elems.take nnz⟩

/-- `std::memcpy` of words over default constructed triplets (indices and value zero). -/
noncomputable def readTriplets : Nat → List Word → List (Nat × Nat × ℝ)
  | 0, _ => []
  | n + 1, .index r c :: .value x :: ws => (r, c, x) :: readTriplets n ws
  | n + 1, [.index r c] => (r, c, 0) :: readTriplets n []
  | n + 1, _ => (0, 0, 0) :: readTriplets n []

/-- `load` of a sparse matrix of doubles (cereal/eigen.hpp lines 198-231); `setFromTriplets` writes through
the indices it is given, which must be in range. -/
noncomputable def loadSparse (b : Build) (ar : SparseArchive) : Outcome SparseMat := do
  albatrossAssert b (decide (ar.nnz = ar.payload.length))
  if ar.nnz = 0 then pure ⟨ar.rows, ar.cols, []⟩
  else do
    let elems := readTriplets ar.nnz ar.payload
    elems.forM fun e => eigenAssert b (decide (e.1 < ar.rows ∧ e.2.1 < ar.cols))
    pure ⟨ar.rows, ar.cols, elems⟩

end Albatross
