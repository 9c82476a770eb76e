import Verif.SuiteSparse
import Verif.SerializeProps

/-! # C90: saving and loading CHOLMOD matrices and sparse QR decompositions -/

namespace Albatross

/-! ## Reading in order -/

@[simp] theorem readNat_cons (text : Bool) (name : String) (n : Nat) (before after : List (String × Field)) :
    readNat text name ⟨before, (name, .nat n) :: after⟩ = .ok (n, ⟨before ++ [(name, .nat n)], after⟩) := by
  unfold readNat; rw [next_cons]; rfl

@[simp] theorem readInt_cons (text : Bool) (name : String) (n : Int) (before after : List (String × Field)) :
    readInt text name ⟨before, (name, .int n) :: after⟩ = .ok (n, ⟨before ++ [(name, .int n)], after⟩) := by
  unfold readInt; rw [next_cons]; rfl

@[simp] theorem readReal_cons (text : Bool) (name : String) (x : ℝ) (before after : List (String × Field)) :
    readReal text name ⟨before, (name, .real x) :: after⟩ = .ok (x, ⟨before ++ [(name, .real x)], after⟩) := by
  unfold readReal; rw [next_cons]; rfl

@[simp] theorem readFlag_cons (text : Bool) (name : String) (x : Bool) (before after : List (String × Field)) :
    readFlag text name ⟨before, (name, .flag x) :: after⟩ = .ok (x, ⟨before ++ [(name, .flag x)], after⟩) := by
  unfold readFlag; rw [next_cons]; rfl

@[simp] theorem readText_cons (text : Bool) (name : String) (s : Bytes) (before after : List (String × Field)) :
    readText text name ⟨before, (name, .text s) :: after⟩ = .ok (s, ⟨before ++ [(name, .text s)], after⟩) := by
  unfold readText; rw [next_cons]; rfl

@[simp] theorem readName_cons (text : Bool) (name : String) (s : String) (before after : List (String × Field)) :
    readName text name ⟨before, (name, .name s) :: after⟩ = .ok (s, ⟨before ++ [(name, .name s)], after⟩) := by
  unfold readName; rw [next_cons]; rfl

@[simp] theorem readSparse_cons (text : Bool) (name : String) (a : SparseArchive)
    (before after : List (String × Field)) :
    readSparse text name ⟨before, (name, .sparse a) :: after⟩ =
      .ok (a, ⟨before ++ [(name, .sparse a)], after⟩) := by
  unfold readSparse; rw [next_cons]; rfl

@[simp] theorem readDense_cons (text : Bool) (name : String) (a : DenseArchive)
    (before after : List (String × Field)) :
    readDense text name ⟨before, (name, .dense a) :: after⟩ =
      .ok (a, ⟨before ++ [(name, .dense a)], after⟩) := by
  unfold readDense; rw [next_cons]; rfl

@[simp] theorem readNode_cons (text : Bool) (name : String) (ms : List (String × Field))
    (before after : List (String × Field)) :
    readNode text name ⟨before, (name, .node ms) :: after⟩ =
      .ok (ms, ⟨before ++ [(name, .node ms)], after⟩) := by
  unfold readNode; rw [next_cons]; rfl

theorem splitAtName_none {name : String} {ms : List (String × Field)} (h : ∀ m ∈ ms, m.1 ≠ name) :
    splitAtName name ms = none := by
  induction ms with
  | nil => rfl
  | cons m ms ih =>
    unfold splitAtName
    rw [if_neg (h m (by simp)), ih fun m hm => h m (by simp [hm])]
    rfl

/-- A name that a text archive does not hold throws. -/
theorem next_missing {name : String} {before after : List (String × Field)} (hb : ∀ m ∈ before, m.1 ≠ name)
    (ha : ∀ m ∈ after, m.1 ≠ name) : Reader.next true name ⟨before, after⟩ = .error .thrown := by
  unfold Reader.next
  have hall : splitAtName name (before ++ after) = none :=
    splitAtName_none fun m hm => by
      rcases List.mem_append.1 hm with h | h
      · exact hb m h
      · exact ha m h
  cases after with
  | nil =>
    rw [List.append_nil] at hall
    simp only [if_true, hall]
  | cons m ms =>
    simp only [hall]
    rw [if_pos ⟨trivial, ha m (by simp)⟩]

/-! ## Arrays -/

/-- The contracts of the libraries; `malloc` does not fail. -/
structure SparseEnv.Contract (env : SparseEnv) : Prop where
  zstd : env.zstd.Contract
  base64 : env.base64.Contract
  malloc : ∀ n, ∃ p, env.malloc n = some p ∧ p.length = n

/-- The payload of an array of bytes. -/
def payloadOf (env : SparseEnv) (text : Bool) (s : Bytes) : Bytes :=
  if text then env.base64.encode (zstdCompressBytes env.zstd 3 s) else zstdCompressBytes env.zstd 3 s

theorem encodeArray_some (env : SparseEnv) (text : Bool) (s : Bytes) {n : Nat} (hn : s.length = n) :
    encodeArray env text (some s) n = .ok (payloadOf env text s) := by
  unfold encodeArray payloadOf
  simp [← hn]

theorem decode_payload {env : SparseEnv} (he : env.Contract) (text : Bool) (s : Bytes) :
    (if text then env.base64.decode (payloadOf env text s) else payloadOf env text s) =
      zstdCompressBytes env.zstd 3 s := by
  unfold payloadOf
  cases text
  · rfl
  · simp only [if_true]
    exact he.base64 _

theorem decodeArray_payload {env : SparseEnv} (he : env.Contract) (b : Build) (text : Bool) (name : String)
    {d s : Bytes} (hd : d.length = s.length) (hs : s.length ≤ stringMaxSize) {n : Nat} (hn : s.length = n)
    (before after : List (String × Field)) :
    decodeArray b env text name (some d) n ⟨before, (name, .text (payloadOf env text s)) :: after⟩ =
      .ok (some s, ⟨before ++ [(name, .text (payloadOf env text s))], after⟩) := by
  unfold decodeArray
  subst hn
  rw [readText_cons]
  simp only [Option.isSome_some, albatrossAssert_true, except_ok_bind, decode_payload he, Option.getD_some,
    decompress_compressed he.zstd 3 hs hd]
  rw [if_neg (by omega)]
  rfl

/-- Decompressing into a block that is too small writes past its end. -/
theorem decodeArray_overflow {env : SparseEnv} (he : env.Contract) (b : Build) (text : Bool) (name : String)
    {d s : Bytes} (hd : d.length < s.length) (hs : s.length ≤ stringMaxSize) {n : Nat} (hn : s.length = n)
    (before after : List (String × Field)) :
    decodeArray b env text name (some d) n ⟨before, (name, .text (payloadOf env text s)) :: after⟩ =
      .error .ub := by
  unfold decodeArray
  subst hn
  rw [readText_cons]
  have hlong : (maybeDecompressBytes env.zstd (zstdCompressBytes env.zstd 3 s) d s.length).2.length =
      s.length := by
    rw [zstdCompressBytes_eq he.zstd 3 hs]
    unfold maybeDecompressBytes
    simp only [he.zstd.content_size 3 s hs, checkDecompressedSize_fits hs,
      he.zstd.round_trip 3 s s.length hs le_rfl]
    rw [if_neg (by rw [failed_iff]; simp), if_neg (by simp), if_neg (by simp), overwrite_full (by omega)]
  simp only [Option.isSome_some, albatrossAssert_true, except_ok_bind, decode_payload he, Option.getD_some]
  rw [if_pos (by rw [hlong]; exact hd)]

theorem sizeMul_of_le {m n k : Nat} (h : m * n = k) (hk : k ≤ stringMaxSize) : sizeMul m n = k := by
  unfold sizeMul
  rw [h, Nat.mod_eq_of_lt]
  unfold stringMaxSize at hk
  omega

theorem cerealRealloc_ok {env : SparseEnv} (he : env.Contract) (b : Build) (count elemSize : Nat) :
    ∃ d, cerealRealloc b env count elemSize = .ok (some d) ∧ d.length = sizeMul count elemSize := by
  obtain ⟨p, hp, hl⟩ := he.malloc (sizeMul count elemSize)
  refine ⟨p, ?_, hl⟩
  unfold cerealRealloc
  rw [hp]
  simp

/-! ## Sparse matrices -/

/-- The width of the integers of a matrix: `int` or `SuiteSparse_long`. -/
def indexWidth (itype : Int) : Nat := if itype = cholmodLong then 8 else 4

/-- The number of floating point numbers per entry. -/
def partsPerEntry (xtype : Int) : Nat := if xtype = cholmodComplex then 2 else 1

/-- The width of the floating point numbers. -/
def scalarWidth (dtype : Int) : Nat := if dtype = cholmodDouble then 8 else 4

/-- A sparse matrix as CHOLMOD documents it: `ncol + 1` column pointers, room for `nzmax` row indices and
values, column counts if it is not packed; indices are `int` or `long`, and nothing is larger than memory. -/
structure CholmodSparse.Valid (m : CholmodSparse) (p i x : Bytes) (nz : Option Bytes) : Prop where
  index_type : m.itype = cholmodInt ∨ m.itype = cholmodLong
  p_eq : m.p = some p
  p_length : p.length = (m.ncol + 1) * indexWidth m.itype
  i_eq : m.i = some i
  i_length : i.length = m.nzmax * indexWidth m.itype
  nz_eq : m.nz = nz
  nz_packed : m.packed ≠ 0 → nz = none
  nz_unpacked : m.packed = 0 → ∃ a, nz = some a ∧ a.length = m.ncol * indexWidth m.itype
  x_eq : m.x = some x
  x_length : x.length = m.nzmax * partsPerEntry m.xtype * scalarWidth m.dtype
  z_eq : m.z = none
  fits : p.length ≤ stringMaxSize ∧ i.length ≤ stringMaxSize ∧ x.length ≤ stringMaxSize ∧
    ∀ a, nz = some a → a.length ≤ stringMaxSize

theorem pSize_ok (b : Build) {itype : Int} (h : itype = cholmodInt ∨ itype = cholmodLong) :
    pElementSizeBytes b itype = .ok (indexWidth itype) := by
  unfold pElementSizeBytes assertIndexType indexWidth
  rcases h with h | h <;> subst h <;> cases b <;> rfl

theorem integerSize_ok (b : Build) {itype : Int} (h : itype = cholmodInt ∨ itype = cholmodLong) :
    integerSizeBytes b itype = .ok (indexWidth itype) := by
  unfold integerSizeBytes assertIndexType indexWidth
  rcases h with h | h <;> subst h <;> cases b <;> rfl

theorem indexType_ok (b : Build) {itype : Int} (h : itype = cholmodInt ∨ itype = cholmodLong) :
    assertIndexType b itype = .ok () := by
  unfold assertIndexType
  rw [decide_eq_true h, albatrossAssert_true]

/-- The members written for the column counts. -/
def nzMembers (env : SparseEnv) (text : Bool) (nz : Option Bytes) : List (String × Field) :=
  match nz with
  | some a => [("m.nz", .text (payloadOf env text a))]
  | none => []

/-- The members written for a sparse matrix up to the column counts. -/
def sparseMembers (env : SparseEnv) (text : Bool) (m : CholmodSparse) (p i : Bytes) : List (String × Field) :=
  [("m.nrow", .nat m.nrow), ("m.ncol", .nat m.ncol), ("m.nzmax", .nat m.nzmax), ("m.stype", .int m.stype),
    ("m.itype", .int m.itype), ("m.xtype", .int m.xtype), ("m.dtype", .int m.dtype), ("m.sorted", .int m.sorted),
    ("m.packed", .int m.packed), ("m.p", .text (payloadOf env text p)), ("m.i", .text (payloadOf env text i))]

theorem pSizeMul {m : CholmodSparse} {p i x : Bytes} {nz : Option Bytes} (hm : m.Valid p i x nz) :
    sizeMul ((m.ncol + 1) % 2 ^ 64) (indexWidth m.itype) = p.length := by
  have hw : 4 ≤ indexWidth m.itype := by unfold indexWidth; split <;> omega
  have hlt : m.ncol + 1 < 2 ^ 64 := by
    have h1 := hm.p_length
    have h2 := hm.fits.1
    unfold stringMaxSize at h2
    have : (m.ncol + 1) * 1 ≤ (m.ncol + 1) * indexWidth m.itype := Nat.mul_le_mul_left _ (by omega)
    omega
  rw [Nat.mod_eq_of_lt hlt]
  exact sizeMul_of_le hm.p_length.symm hm.fits.1

theorem xSizeMul {nzmax : Nat} {xtype dtype : Int} {x : Bytes}
    (hx : x.length = nzmax * partsPerEntry xtype * scalarWidth dtype) (hfit : x.length ≤ stringMaxSize) :
    sizeMul (numXElements nzmax xtype) (elementSizeBytes dtype) = x.length := by
  have hw : 1 ≤ scalarWidth dtype := by unfold scalarWidth; split <;> omega
  have hle : nzmax * partsPerEntry xtype ≤ stringMaxSize := by
    have : nzmax * partsPerEntry xtype * 1 ≤ nzmax * partsPerEntry xtype * scalarWidth dtype :=
      Nat.mul_le_mul_left _ hw
    omega
  unfold numXElements
  rw [show sizeMul nzmax (if xtype = cholmodComplex then 2 else 1) = nzmax * partsPerEntry xtype from
    sizeMul_of_le rfl hle]
  exact sizeMul_of_le hx.symm hfit

/-- What is written for a sparse matrix. -/
theorem saveCholmodSparse_eq (b : Build) (env : SparseEnv) (text : Bool) {m : CholmodSparse} {p i x : Bytes}
    {nz : Option Bytes} (hm : m.Valid p i x nz) :
    saveCholmodSparse b env text m =
      .ok (sparseMembers env text m p i ++ nzMembers env text nz ++ [("m.x", .text (payloadOf env text x))]) := by
  unfold saveCholmodSparse
  rw [indexType_ok b hm.index_type, except_ok_bind, pSize_ok b hm.index_type]
  simp only [except_ok_bind]
  rw [integerSize_ok b hm.index_type]
  simp only [except_ok_bind]
  rw [hm.p_eq, hm.i_eq, hm.x_eq, hm.z_eq, hm.nz_eq, pSizeMul hm, sizeMul_of_le hm.i_length.symm hm.fits.2.1,
    encodeArray_some env text p rfl, except_ok_bind, encodeArray_some env text i rfl, except_ok_bind,
    xSizeMul hm.x_length hm.fits.2.2.1]
  have hx : saveArrayIf env text (some x).isSome "m.x" (some x) x.length =
      .ok [("m.x", .text (payloadOf env text x))] := by
    unfold saveArrayIf
    rw [encodeArray_some env text x rfl]
    rfl
  have hnz : saveArrayIf env text (nz.isSome = true ∧ m.packed = 0) "m.nz" nz
      (sizeMul m.ncol (indexWidth m.itype)) = .ok (nzMembers env text nz) := by
    unfold saveArrayIf
    by_cases hp : m.packed = 0
    · obtain ⟨a, ha, hl⟩ := hm.nz_unpacked hp
      rw [ha, sizeMul_of_le hl.symm (hm.fits.2.2.2 a ha), encodeArray_some env text a rfl]
      simp [hp, nzMembers]
    · rw [hm.nz_packed hp]
      simp [nzMembers]
  rw [hnz, except_ok_bind, hx, except_ok_bind]
  simp [sparseMembers]

/-- Everything up to the column counts is read as it was written, and the blocks are allocated. -/
theorem loadCholmodSparse_start {env : SparseEnv} (he : env.Contract) (b : Build) (text : Bool)
    {m old : CholmodSparse} {p i x : Bytes} {nz : Option Bytes} (hm : m.Valid p i x nz)
    (rest : List (String × Field)) :
    ∃ (before : List (String × Field)) (nz0 : Option Bytes) (x0 : Bytes),
      before = sparseMembers env text m p i ∧
      (m.packed ≠ 0 → nz0 = old.nz) ∧
      (m.packed = 0 → ∃ a, nz0 = some a ∧ a.length = sizeMul m.ncol (indexWidth m.itype)) ∧
      x0.length = sizeMul m.nzmax (elementSizeBytes m.dtype) ∧
      loadCholmodSparse b env text old (Reader.start (sparseMembers env text m p i ++ rest)) = (do
        let (nz, r) ← (if m.packed = 0 then
          decodeArray b env text "m.nz" nz0 (sizeMul m.ncol (indexWidth m.itype)) ⟨before, rest⟩
          else .ok (nz0, ⟨before, rest⟩))
        let (x, r) ← decodeArray b env text "m.x" (some x0)
          (sizeMul (numXElements m.nzmax m.xtype) (elementSizeBytes m.dtype)) r
        albatrossAssert b old.z.isNone
        pure (⟨m.nrow, m.ncol, m.nzmax, m.stype, m.itype, m.xtype, m.dtype, m.sorted, m.packed, some p, some i, nz,
          x, old.z⟩, r)) := by
  obtain ⟨p0, hp0, hpl⟩ := cerealRealloc_ok he b ((m.ncol + 1) % 2 ^ 64) (indexWidth m.itype)
  obtain ⟨i0, hi0, hil⟩ := cerealRealloc_ok he b m.nzmax (indexWidth m.itype)
  obtain ⟨n0, hn0, hnl⟩ := cerealRealloc_ok he b m.ncol (indexWidth m.itype)
  obtain ⟨x0, hx0, hxl⟩ := cerealRealloc_ok he b m.nzmax (elementSizeBytes m.dtype)
  have hp := pSizeMul hm
  have hi := sizeMul_of_le hm.i_length.symm hm.fits.2.1
  rw [hp] at hpl
  rw [hi] at hil
  by_cases hpk : m.packed = 0
  · refine ⟨_, some n0, x0, rfl, fun h => absurd hpk h, fun _ => ⟨n0, rfl, hnl⟩, hxl, ?_⟩
    simp only [loadCholmodSparse, Reader.start, sparseMembers, List.cons_append, List.nil_append, readNat_cons,
      readInt_cons, except_ok_bind, pSize_ok b hm.index_type, integerSize_ok b hm.index_type, hp0, hi0, hn0, hx0,
      hpk, if_true, hp, hi]
    rw [decodeArray_payload he b text "m.p" hpl hm.fits.1 rfl]
    simp only [except_ok_bind]
    rw [decodeArray_payload he b text "m.i" hil hm.fits.2.1 rfl]
    simp only [except_ok_bind, List.cons_append, List.nil_append]
  · refine ⟨_, old.nz, x0, rfl, fun _ => rfl, fun h => absurd h hpk, hxl, ?_⟩
    simp only [loadCholmodSparse, Reader.start, sparseMembers, List.cons_append, List.nil_append, readNat_cons,
      readInt_cons, except_ok_bind, pSize_ok b hm.index_type, integerSize_ok b hm.index_type, hp0, hi0, hx0,
      hpk, if_false, hp, hi]
    rw [decodeArray_payload he b text "m.p" hpl hm.fits.1 rfl]
    simp only [except_ok_bind]
    rw [decodeArray_payload he b text "m.i" hil hm.fits.2.1 rfl]
    simp only [except_ok_bind, List.cons_append, List.nil_append]

/-- Reading the column counts that were written. -/
theorem loadNz {env : SparseEnv} (he : env.Contract) (b : Build) (text : Bool) {m : CholmodSparse} {p i x : Bytes}
    {nz : Option Bytes} (hm : m.Valid p i x nz) {nz0 : Option Bytes} (h0 : m.packed ≠ 0 → nz0 = none)
    (h1 : m.packed = 0 → ∃ a, nz0 = some a ∧ a.length = sizeMul m.ncol (indexWidth m.itype))
    (before rest : List (String × Field)) :
    (if m.packed = 0 then
      decodeArray b env text "m.nz" nz0 (sizeMul m.ncol (indexWidth m.itype)) ⟨before, nzMembers env text nz ++ rest⟩
      else .ok (nz0, ⟨before, nzMembers env text nz ++ rest⟩)) =
      .ok (nz, ⟨before ++ nzMembers env text nz, rest⟩) := by
  by_cases hp : m.packed = 0
  · obtain ⟨a, ha, hl⟩ := hm.nz_unpacked hp
    obtain ⟨d, hd, hdl⟩ := h1 hp
    have hsize := sizeMul_of_le hl.symm (hm.fits.2.2.2 a ha)
    rw [hsize] at hdl
    rw [if_pos hp, hd, ha, hsize]
    exact decodeArray_payload he b text "m.nz" hdl (hm.fits.2.2.2 a ha) rfl before rest
  · rw [if_neg hp, h0 hp, hm.nz_packed hp]
    simp [nzMembers]

/-- **C90**, partial: a sparse matrix of real numbers that has its values is loaded as it was saved, by every
kind of archive and in every build.  The full claim is `SparseMatricesRoundTrip` below. -/
theorem C90_sparse_partial {env : SparseEnv} (he : env.Contract) (b : Build) (text : Bool) {m old : CholmodSparse}
    {p i x : Bytes} {nz : Option Bytes} (hm : m.Valid p i x nz) (hreal : m.xtype ≠ cholmodComplex)
    (hz : old.z = none) (hnz : old.nz = none) :
    ∃ saved r, saveCholmodSparse b env text m = .ok saved ∧
      loadCholmodSparse b env text old (Reader.start saved) = .ok (m, r) := by
  obtain ⟨before, nz0, x0, -, h0, h1, hx0, hload⟩ := loadCholmodSparse_start he b text (old := old) hm
    (nzMembers env text nz ++ [("m.x", Field.text (payloadOf env text x))])
  refine ⟨_, ⟨before ++ nzMembers env text nz ++ [("m.x", Field.text (payloadOf env text x))], []⟩,
    saveCholmodSparse_eq b env text hm, ?_⟩
  rw [List.append_assoc, hload, loadNz he b text hm (fun h => by rw [h0 h, hnz]) h1]
  simp only [except_ok_bind]
  have hxl : x0.length = x.length := by
    rw [hx0, hm.x_length, partsPerEntry, if_neg hreal, Nat.mul_one]
    refine sizeMul_of_le rfl ?_
    have := hm.x_length
    rw [partsPerEntry, if_neg hreal, Nat.mul_one] at this
    show m.nzmax * scalarWidth m.dtype ≤ _
    rw [← this]
    exact hm.fits.2.2.1
  rw [xSizeMul hm.x_length hm.fits.2.2.1, decodeArray_payload he b text "m.x" hxl hm.fits.2.2.1 rfl]
  simp only [except_ok_bind, hz, Option.isNone_none, albatrossAssert_true, except_pure]
  rw [← hm.p_eq, ← hm.i_eq, ← hm.x_eq, ← hm.nz_eq, ← hm.z_eq]

/-- **C90**: of an array with room for more than is in use only the part in use is saved; saving more than there is
reads past the end of the block, and so does saving from a null pointer. -/
theorem C90_array_size (env : SparseEnv) (text : Bool) (s : Bytes) (n : Nat) :
    encodeArray env text (some s) n =
        (if s.length < n then .error .ub else .ok (payloadOf env text (s.take n))) ∧
      (0 < n → encodeArray env text none n = .error .ub) := by
  constructor
  · by_cases h : s.length < n <;> simp [encodeArray, payloadOf, h]
  · intro h
    simp [encodeArray, h]

/-- **C90 is false** for complex matrices: the block allocated for the values holds half of what is then
decompressed into it, so loading any complex matrix writes past the end of the block. -/
theorem C90_complex_overflow {env : SparseEnv} (he : env.Contract) (b : Build) (text : Bool)
    {m old : CholmodSparse} {p i x : Bytes} {nz : Option Bytes} (hm : m.Valid p i x nz)
    (hcomplex : m.xtype = cholmodComplex) (hpos : 0 < m.nzmax) (hnz : old.nz = none) :
    ∃ saved, saveCholmodSparse b env text m = .ok saved ∧
      loadCholmodSparse b env text old (Reader.start saved) = .error .ub := by
  refine ⟨_, saveCholmodSparse_eq b env text hm, ?_⟩
  obtain ⟨before, nz0, x0, -, h0, h1, hx0, hload⟩ := loadCholmodSparse_start he b text (old := old) hm
    (nzMembers env text nz ++ [("m.x", Field.text (payloadOf env text x))])
  rw [List.append_assoc, hload, loadNz he b text hm (fun h => by rw [h0 h, hnz]) h1]
  simp only [except_ok_bind]
  have hxl : x0.length < x.length := by
    rw [hx0, hm.x_length, partsPerEntry, if_pos hcomplex]
    have h1 : sizeMul m.nzmax (elementSizeBytes m.dtype) ≤ m.nzmax * scalarWidth m.dtype := Nat.mod_le _ _
    have hw : 0 < scalarWidth m.dtype := by unfold scalarWidth; split <;> omega
    have h2 : 0 < m.nzmax * scalarWidth m.dtype := Nat.mul_pos hpos hw
    have h3 : m.nzmax * 2 * scalarWidth m.dtype = 2 * (m.nzmax * scalarWidth m.dtype) := by ring
    omega
  rw [xSizeMul hm.x_length hm.fits.2.2.1, decodeArray_overflow he b text "m.x" hxl hm.fits.2.2.1 rfl]
  rfl

/-- **C90 is false** for matrices without values: nothing is written for them, and loading from a text archive
throws because the values are always asked for. -/
theorem C90_no_values {env : SparseEnv} (he : env.Contract) (b : Build) {m old : CholmodSparse}
    {p i x : Bytes} {nz : Option Bytes} (hm : m.Valid p i x nz) (hnz : old.nz = none) :
    ∃ saved, saveCholmodSparse b env true { m with x := none } = .ok saved ∧
      loadCholmodSparse b env true old (Reader.start saved) = .error .thrown := by
  have hsaved : saveCholmodSparse b env true { m with x := none } =
      .ok (sparseMembers env true m p i ++ nzMembers env true nz) := by
    have h := saveCholmodSparse_eq b env true hm
    unfold saveCholmodSparse at h ⊢
    obtain ⟨_, h1, h⟩ := except_bind_eq_ok.1 h
    obtain ⟨_, h2, h⟩ := except_bind_eq_ok.1 h
    obtain ⟨_, h3, h⟩ := except_bind_eq_ok.1 h
    obtain ⟨_, h4, h⟩ := except_bind_eq_ok.1 h
    obtain ⟨_, h5, h⟩ := except_bind_eq_ok.1 h
    obtain ⟨_, h6, h⟩ := except_bind_eq_ok.1 h
    obtain ⟨_, h7, h⟩ := except_bind_eq_ok.1 h
    obtain ⟨_, h8, h⟩ := except_bind_eq_ok.1 h
    simp only [h1, h2, h3, h4, h5, h6, h8, except_ok_bind]
    have hx : ∃ a, saveArrayIf env true m.x.isSome "m.x" m.x
        (sizeMul (numXElements m.nzmax m.xtype) (elementSizeBytes m.dtype)) = .ok [("m.x", Field.text a)] := by
      unfold saveArrayIf
      rw [hm.x_eq, xSizeMul hm.x_length hm.fits.2.2.1, encodeArray_some env true x rfl]
      exact ⟨_, rfl⟩
    obtain ⟨a, hx⟩ := hx
    rw [hx] at h7
    cases h7
    unfold saveArrayIf
    simp only [Option.isSome_none, Bool.false_eq_true, if_false, except_pure, except_ok_bind]
    have h := Except.ok.inj h
    have h := List.append_inj' h rfl
    rw [h.1, List.append_nil]
  refine ⟨_, hsaved, ?_⟩
  obtain ⟨before, nz0, x0, hb, h0, h1, hx0, hload⟩ := loadCholmodSparse_start he b true (old := old) hm
    (nzMembers env true nz)
  have hnz' := loadNz he b true hm (fun h => by rw [h0 h, hnz]) h1 before []
  rw [List.append_nil] at hnz'
  rw [hload, hnz']
  simp only [except_ok_bind]
  have hmiss : Reader.next true "m.x" ⟨before ++ nzMembers env true nz, []⟩ = .error .thrown := by
    apply next_missing
    · intro f hf
      rcases List.mem_append.1 hf with hf | hf
      · rw [hb] at hf
        simp only [sparseMembers, List.mem_cons, List.not_mem_nil, or_false] at hf
        rcases hf with h | h | h | h | h | h | h | h | h | h | h <;> subst h <;> simp
      · unfold nzMembers at hf
        cases nz with
        | none => simp at hf
        | some a => simp at hf; subst hf; simp
    · simp
  unfold decodeArray readText
  rw [hmiss]
  simp

/-- **C90 is false** for unpacked matrices without column counts: nothing is written for the counts, and loading
from a text archive throws. -/
theorem C90_no_counts {env : SparseEnv} (he : env.Contract) (b : Build) {m old : CholmodSparse}
    {p i x : Bytes} {nz : Option Bytes} (hm : m.Valid p i x nz) (hpk : m.packed = 0) :
    ∃ saved, saveCholmodSparse b env true { m with nz := none } = .ok saved ∧
      loadCholmodSparse b env true old (Reader.start saved) = .error .thrown := by
  have hsaved : saveCholmodSparse b env true { m with nz := none } =
      .ok (sparseMembers env true m p i ++ [("m.x", .text (payloadOf env true x))]) := by
    unfold saveCholmodSparse
    simp only [indexType_ok b hm.index_type, except_ok_bind, pSize_ok b hm.index_type,
      integerSize_ok b hm.index_type, hm.p_eq, hm.i_eq, hm.x_eq, hm.z_eq, pSizeMul hm,
      sizeMul_of_le hm.i_length.symm hm.fits.2.1, encodeArray_some env true p rfl,
      encodeArray_some env true i rfl, xSizeMul hm.x_length hm.fits.2.2.1]
    unfold saveArrayIf
    simp [encodeArray_some env true x rfl, sparseMembers]
  refine ⟨_, hsaved, ?_⟩
  obtain ⟨before, nz0, x0, hb, h0, h1, hx0, hload⟩ := loadCholmodSparse_start he b true (old := old) hm
    [("m.x", Field.text (payloadOf env true x))]
  rw [hload, if_pos hpk]
  have hmiss : Reader.next true "m.nz" ⟨before, [("m.x", Field.text (payloadOf env true x))]⟩ =
      .error .thrown := by
    apply next_missing
    · intro f hf
      rw [hb] at hf
      simp only [sparseMembers, List.mem_cons, List.not_mem_nil, or_false] at hf
      rcases hf with h | h | h | h | h | h | h | h | h | h | h <;> subst h <;> simp
    · intro f hf
      simp only [List.mem_cons, List.not_mem_nil, or_false] at hf
      subst hf
      simp
  obtain ⟨a, ha, -⟩ := h1 hpk
  unfold decodeArray readText
  rw [hmiss, ha]
  simp

/-- **C90 is false** for matrices loaded into one that has column counts: those of a packed matrix are not
cleared, so the counts of the matrix that was there before stay. -/
theorem C90_stale_counts {env : SparseEnv} (he : env.Contract) (b : Build) (text : Bool) {m old : CholmodSparse}
    {p i x : Bytes} {nz : Option Bytes} (hm : m.Valid p i x nz) (hreal : m.xtype ≠ cholmodComplex)
    (hz : old.z = none) (hpk : m.packed ≠ 0) :
    ∃ saved r, saveCholmodSparse b env text m = .ok saved ∧
      loadCholmodSparse b env text old (Reader.start saved) = .ok ({ m with nz := old.nz }, r) := by
  obtain rfl := hm.nz_packed hpk
  obtain ⟨before, nz0, x0, -, h0, h1, hx0, hload⟩ := loadCholmodSparse_start he b text (old := old) hm
    [("m.x", Field.text (payloadOf env text x))]
  refine ⟨_, ⟨before ++ [("m.x", Field.text (payloadOf env text x))], []⟩, saveCholmodSparse_eq b env text hm, ?_⟩
  rw [show nzMembers env text none = [] from rfl, List.append_nil, hload, if_neg hpk]
  simp only [except_ok_bind]
  have hxl : x0.length = x.length := by
    rw [hx0, hm.x_length, partsPerEntry, if_neg hreal, Nat.mul_one]
    refine sizeMul_of_le rfl ?_
    have := hm.x_length
    rw [partsPerEntry, if_neg hreal, Nat.mul_one] at this
    show m.nzmax * scalarWidth m.dtype ≤ _
    rw [← this]
    exact hm.fits.2.2.1
  rw [xSizeMul hm.x_length hm.fits.2.2.1, decodeArray_payload he b text "m.x" hxl hm.fits.2.2.1 rfl]
  simp only [except_ok_bind, hz, Option.isNone_none, albatrossAssert_true, except_pure]
  rw [← hm.p_eq, ← hm.i_eq, ← hm.x_eq, ← hm.z_eq, h0 hpk]

/-- The claim of C90 for sparse matrices. -/
def SparseMatricesRoundTrip (b : Build) (env : SparseEnv) (text : Bool) : Prop :=
  ∀ (m old : CholmodSparse) (p i x : Bytes) (nz : Option Bytes), m.Valid p i x nz → old.z = none → old.nz = none →
    ∃ saved r, saveCholmodSparse b env text m = .ok saved ∧
      loadCholmodSparse b env text old (Reader.start saved) = .ok (m, r)

/-- A complex 1 × 1 matrix. -/
def complexOne : CholmodSparse :=
  ⟨1, 1, 1, 0, 2, 2, 0, 1, 1, some (List.replicate 16 0), some (List.replicate 8 0), none,
    some (List.replicate 16 0), none⟩

theorem complexOne_valid :
    complexOne.Valid (List.replicate 16 0) (List.replicate 8 0) (List.replicate 16 0) none := by
  refine ⟨Or.inr rfl, rfl, ?_, rfl, ?_, rfl, fun _ => rfl, fun h => by simp [complexOne] at h, rfl, ?_, rfl, ?_⟩
  · simp [complexOne, indexWidth, cholmodLong]
  · simp [complexOne, indexWidth, cholmodLong]
  · simp [complexOne, partsPerEntry, scalarWidth, cholmodComplex, cholmodDouble]
  · simp [stringMaxSize]

/-- **C90 is false**: a complex 1 × 1 matrix cannot be loaded. -/
theorem C90_round_trip_false {env : SparseEnv} (he : env.Contract) (b : Build) (text : Bool) :
    ¬ SparseMatricesRoundTrip b env text := by
  intro h
  obtain ⟨saved, r, hs, hl⟩ := h complexOne complexOne _ _ _ _ complexOne_valid rfl rfl
  obtain ⟨saved', hs', hl'⟩ := C90_complex_overflow he b text (old := complexOne) complexOne_valid rfl (by simp [complexOne]) rfl
  rw [hs] at hs'
  cases hs'
  rw [hl] at hl'
  cases hl'

/-! ## Dense matrices -/

/-- A dense matrix as CHOLMOD documents it: room for `nzmax` values, and a leading dimension that is not smaller
than the number of rows. -/
structure CholmodDense.Valid (m : CholmodDense) (x : Bytes) : Prop where
  x_eq : m.x = some x
  x_length : x.length = m.nzmax * partsPerEntry m.xtype * scalarWidth m.dtype
  z_eq : m.z = none
  leading : m.nrow ≤ m.d
  fits : x.length ≤ stringMaxSize

/-- **C90**: dense matrices, real or complex, are loaded as they were saved. -/
theorem C90_dense {env : SparseEnv} (he : env.Contract) (b : Build) (text : Bool) {m old : CholmodDense} {x : Bytes}
    (hm : m.Valid x) (hz : old.z = none) :
    ∃ saved r, saveCholmodDense b env text m = .ok saved ∧
      loadCholmodDense b env text old (Reader.start saved) = .ok (m, r) := by
  have hsaved : saveCholmodDense b env text m = .ok
      [("m.nrow", .nat m.nrow), ("m.ncol", .nat m.ncol), ("m.nzmax", .nat m.nzmax), ("m.d", .nat m.d),
        ("m.xtype", .int m.xtype), ("m.dtype", .int m.dtype), ("m.x", .text (payloadOf env text x))] := by
    unfold saveCholmodDense saveArrayIf
    simp only [decide_eq_true hm.leading, hm.x_eq, hm.z_eq, xSizeMul hm.x_length hm.fits,
      encodeArray_some env text x rfl]
    simp
  refine ⟨_, ⟨[("m.nrow", .nat m.nrow), ("m.ncol", .nat m.ncol), ("m.nzmax", .nat m.nzmax), ("m.d", .nat m.d),
        ("m.xtype", .int m.xtype), ("m.dtype", .int m.dtype), ("m.x", .text (payloadOf env text x))], []⟩, hsaved, ?_⟩
  · obtain ⟨x0, hx0, hxl⟩ := cerealRealloc_ok he b (numXElements m.nzmax m.xtype) (elementSizeBytes m.dtype)
    rw [xSizeMul hm.x_length hm.fits] at hxl
    simp only [loadCholmodDense, Reader.start, readNat_cons, readInt_cons, except_ok_bind, hx0,
      decide_eq_true hm.leading, albatrossAssert_true, List.cons_append, List.nil_append,
      xSizeMul hm.x_length hm.fits]
    rw [decodeArray_payload he b text "m.x" hxl hm.fits rfl]
    simp only [except_ok_bind, hz, Option.isNone_none, albatrossAssert_true, except_pure, List.cons_append,
      List.nil_append]
    rw [← hm.x_eq, ← hm.z_eq]

/-! ## The settings of CHOLMOD -/

theorem loadNumbers_saved (text : Bool) (names : List String) (v old : String → ℝ)
    (before after : List (String × Field)) :
    loadNumbers text names old ⟨before, saveNumbers names v ++ after⟩ =
      .ok (fun m => if m ∈ names then v m else old m, ⟨before ++ saveNumbers names v, after⟩) := by
  induction names generalizing old before with
  | nil => simp [loadNumbers, saveNumbers]
  | cons n ns ih =>
    unfold loadNumbers
    rw [show saveNumbers (n :: ns) v ++ after = (n, Field.real (v n)) :: (saveNumbers ns v ++ after) from rfl,
      readReal_cons]
    simp only [except_ok_bind]
    rw [ih]
    have hf : (fun m => if m ∈ ns then v m else if m = n then v n else old m) =
        fun m => if m ∈ n :: ns then v m else old m := by
      funext m
      by_cases h1 : m ∈ ns
      · simp [h1]
      · by_cases h2 : m = n
        · subst h2; simp
        · simp [h1, h2]
    rw [hf, List.append_assoc]
    rfl

/-- The members written for the methods `k`, …, `k + n - 1`. -/
def methodNodes (v : Nat → String → ℝ) : Nat → Nat → List (String × Field)
  | 0, _ => []
  | n + 1, k => (autoName k, .node (saveNumbers methodMembers (v k))) :: methodNodes v n (k + 1)

theorem loadMethods_saved (text : Bool) (v : Nat → String → ℝ) (n k : Nat) (hk : k + n ≤ 10)
    (old : Fin 10 → String → ℝ) (before after : List (String × Field)) :
    loadMethods text n k old ⟨before, methodNodes v n k ++ after⟩ =
      .ok (fun i name => if k ≤ i.val ∧ i.val < k + n ∧ name ∈ methodMembers then v i.val name else old i name,
        ⟨before ++ methodNodes v n k, after⟩) := by
  induction n generalizing k old before with
  | zero =>
    have : (fun (i : Fin 10) name => if k ≤ i.val ∧ i.val < k + 0 ∧ name ∈ methodMembers then v i.val name
        else old i name) = old := by
      funext i name
      rw [if_neg]
      omega
    rw [this]
    simp [loadMethods, methodNodes]
  | succ n ih =>
    unfold loadMethods
    rw [show methodNodes v (n + 1) k ++ after =
      (autoName k, Field.node (saveNumbers methodMembers (v k))) :: (methodNodes v n (k + 1) ++ after) from rfl,
      readNode_cons]
    simp only [except_ok_bind]
    have h1 := loadNumbers_saved text methodMembers (v k)
      (fun name => if h : k < 10 then old ⟨k, h⟩ name else 0) [] []
    rw [List.append_nil] at h1
    rw [show Reader.start (saveNumbers methodMembers (v k)) = ⟨[], saveNumbers methodMembers (v k)⟩ from rfl, h1]
    simp only [except_ok_bind]
    rw [ih (k + 1) (by omega)]
    have hf : (fun (i : Fin 10) name => if k + 1 ≤ i.val ∧ i.val < k + 1 + n ∧ name ∈ methodMembers then v i.val name
        else (if i.val = k then (fun m => if m ∈ methodMembers then v k m
          else if h : k < 10 then old ⟨k, h⟩ m else 0) else old i) name) =
        fun i name => if k ≤ i.val ∧ i.val < k + (n + 1) ∧ name ∈ methodMembers then v i.val name else old i name := by
      funext i name
      by_cases hi : i.val = k
      · have hk10 : k < 10 := by omega
        rw [if_neg (by omega), if_pos hi]
        have : (⟨k, hk10⟩ : Fin 10) = i := Fin.ext hi.symm
        simp only [dif_pos hk10, this]
        by_cases hn : name ∈ methodMembers
        · rw [if_pos hn, if_pos ⟨by omega, by omega, hn⟩, hi]
        · rw [if_neg hn, if_neg (by tauto)]
      · rw [if_neg hi]
        by_cases hc : k + 1 ≤ i.val ∧ i.val < k + 1 + n ∧ name ∈ methodMembers
        · rw [if_pos hc, if_pos ⟨by omega, by omega, hc.2.2⟩]
        · rw [if_neg hc, if_neg]
          rintro ⟨h1, h2, h3⟩
          exact hc ⟨by omega, by omega, h3⟩
    rw [hf, List.append_assoc]
    rfl

/-- The numbers of `cholmod_common` that are saved. -/
def savedCommon (v5 : Bool) : List String :=
  savedBeforeMethods ++ savedAfterMethods v5 ++ ["cc.useGPU"] ++ savedAfterGpu

/-- The methods by number. -/
noncomputable def methodsAt (cc : CholmodCommon) (k : Nat) (name : String) : ℝ :=
  if h : k < 10 then cc.methods ⟨k, h⟩ name else 0

/-- The members written for the settings of CHOLMOD. -/
noncomputable def commonMembers (v5 : Bool) (cc : CholmodCommon) : List (String × Field) :=
  saveNumbers savedBeforeMethods cc.numbers ++ (methodNodes (methodsAt cc) 10 0 ++
    (saveNumbers (savedAfterMethods v5) cc.numbers ++ (saveNumbers ["cc.useGPU"] cc.numbers ++
      saveNumbers savedAfterGpu cc.numbers)))

theorem saveCholmodCommon_eq (b : Build) (v5 : Bool) (cc : CholmodCommon) (hgpu : cc.numbers "cc.useGPU" = 0) :
    saveCholmodCommon b v5 cc = .ok (commonMembers v5 cc) := by
  unfold saveCholmodCommon commonMembers
  rw [@decide_eq_true _ (Classical.dec _) hgpu, albatrossAssert_true]
  simp only [except_ok_bind, except_pure, List.append_assoc]
  have hnodes : (List.finRange 10).map
      (fun k => (autoName k.val, Field.node (saveNumbers methodMembers (cc.methods k)))) =
      methodNodes (methodsAt cc) 10 0 := by
    rfl
  rw [hnodes]
  rfl

/-- The settings loaded from the ones saved. -/
noncomputable def loadedCommon (v5 : Bool) (cc old : CholmodCommon) : CholmodCommon where
  numbers := fun name => if name ∈ savedCommon v5 then cc.numbers name else old.numbers name
  methods := fun i name => if name ∈ methodMembers then cc.methods i name else old.methods i name

theorem loadCholmodCommon_eq (b : Build) (v5 text : Bool) (cc old : CholmodCommon)
    (hgpu : cc.numbers "cc.useGPU" = 0) :
    loadCholmodCommon b v5 text old (Reader.start (commonMembers v5 cc)) =
      .ok (loadedCommon v5 cc old, ⟨commonMembers v5 cc, []⟩) := by
  unfold loadCholmodCommon Reader.start commonMembers
  rw [show loadedBeforeMethods = savedBeforeMethods from rfl, loadNumbers_saved]
  simp only [except_ok_bind]
  rw [loadMethods_saved text _ 10 0 (by omega)]
  simp only [except_ok_bind]
  rw [show loadedAfterMethods v5 = savedAfterMethods v5 from rfl, loadNumbers_saved]
  simp only [except_ok_bind]
  rw [loadNumbers_saved]
  simp only [except_ok_bind, List.mem_cons, List.not_mem_nil, or_false, if_true]
  rw [@decide_eq_true _ (Classical.dec _) hgpu, albatrossAssert_true]
  simp only [except_ok_bind]
  rw [show loadedAfterGpu = savedAfterGpu from rfl]
  rw [← List.append_nil (saveNumbers savedAfterGpu cc.numbers), loadNumbers_saved]
  simp only [except_ok_bind, except_pure, List.append_nil, List.nil_append, List.append_assoc]
  congr 2
  unfold loadedCommon
  congr 1
  · funext name
    simp only [savedCommon, List.mem_append, List.mem_cons, List.not_mem_nil, or_false]
    by_cases h1 : name ∈ savedAfterGpu <;> by_cases h2 : name = "cc.useGPU" <;>
      by_cases h3 : name ∈ savedAfterMethods v5 <;> by_cases h4 : name ∈ savedBeforeMethods <;> simp [h1, h2, h3, h4]
  · funext i name
    have hi : i.val < 10 := i.isLt
    simp [hi, methodsAt]

/-- **C90**: `save` and `load` of the settings of CHOLMOD agree on the names and their order, so every number
that is saved is loaded; the others, and those of the methods that are not saved, keep their values. -/
theorem C90_common (b : Build) (v5 text : Bool) (cc old : CholmodCommon) (hgpu : cc.numbers "cc.useGPU" = 0) :
    ∃ saved r cc', saveCholmodCommon b v5 cc = .ok saved ∧
      loadCholmodCommon b v5 text old (Reader.start saved) = .ok (cc', r) ∧
      (∀ name, cc'.numbers name = if name ∈ savedCommon v5 then cc.numbers name else old.numbers name) ∧
      ∀ i name, cc'.methods i name = if name ∈ methodMembers then cc.methods i name else old.methods i name :=
  ⟨_, _, _, saveCholmodCommon_eq b v5 cc hgpu, loadCholmodCommon_eq b v5 text cc old hgpu, fun _ => rfl,
    fun _ _ => rfl⟩

/-- **C90**: settings that use a GPU stop a debug build when they are saved. -/
theorem C90_common_gpu (v5 : Bool) (cc : CholmodCommon) (hgpu : cc.numbers "cc.useGPU" ≠ 0) :
    saveCholmodCommon .debug v5 cc = .error .assertFail := by
  unfold saveCholmodCommon
  rw [@decide_eq_false _ (Classical.dec _) hgpu]
  rfl

/-! ## Sparse QR decompositions -/

/-- A decomposition as SPQR returns it: the three factors and the two permutations are there. -/
structure Spqr.Valid (q : Spqr) (width : Nat) (cR matH : CholmodSparse) (hTau : CholmodDense)
    (permE hPinv : Bytes) : Prop where
  gpu : q.common.numbers "cc.useGPU" = 0
  cR_eq : q.cR = some cR
  cR_valid : ∃ p i x nz, cR.Valid p i x nz
  cR_real : cR.xtype ≠ cholmodComplex
  matH_eq : q.matH = some matH
  matH_valid : ∃ p i x nz, matH.Valid p i x nz
  matH_real : matH.xtype ≠ cholmodComplex
  hTau_eq : q.hTau = some hTau
  hTau_valid : ∃ x, hTau.Valid x
  permE_eq : q.permE = some permE
  permE_length : permE.length = cR.ncol * width
  hPinv_eq : q.hPinv = some hPinv
  hPinv_length : hPinv.length = q.numRows * width
  fits : permE.length ≤ stringMaxSize ∧ hPinv.length ≤ stringMaxSize

/-- The members written for a decomposition whose factors are saved as `s1`, `s2` and `s3`. -/
noncomputable def spqrMembers (env : SparseEnv) (v5 text : Bool) (q : Spqr) (s1 s2 s3 : List (String × Field))
    (permE hPinv : Bytes) : List (String × Field) :=
  [("Base::m_isInitialized", .flag q.isInitialized), ("Base::m_analysisIsOk", .flag q.analysisIsOk),
    ("Base::m_factorizationIsOk", .flag q.factorizationIsOk), ("Base::m_isRUpToDate", .flag q.isRUpToDate),
    ("Base::m_info", .int q.info), ("Base::m_ordering", .int q.ordering), ("Base::m_allow_tol", .int q.allowTol),
    ("Base::m_tolerance", .real q.tolerance), ("Base::m_R", .sparse (saveSparse q.matR)),
    ("Base::m_rank", .int q.rank), ("Base::m_cc", .node (commonMembers v5 q.common)),
    ("Base::m_useDefaultThreshold", .flag q.useDefaultThreshold), ("Base::m_rows", .nat q.numRows),
    ("m_cR", .node s1), ("m_H", .node s2), ("m_HTau", .node s3), ("m_E", .text (payloadOf env text permE)),
    ("m_HPinv", .text (payloadOf env text hPinv))]

/-- Everything but the cached factor `m_R` and the settings of CHOLMOD that are not saved comes back. -/
theorem loadSpqr_saved {env : SparseEnv} (he : env.Contract) (b : Build) (v5 text : Bool) (width : Nat)
    {q old : Spqr} {cR matH : CholmodSparse} {hTau : CholmodDense} {permE hPinv : Bytes}
    (hq : q.Valid width cR matH hTau permE hPinv) {w : SparseMat} (hw : loadSparse b (saveSparse q.matR) = .ok w) :
    ∃ saved r, saveSpqr b env v5 text width q = .ok saved ∧
      loadSpqr b env v5 text width old (Reader.start saved) =
        .ok ({ q with matR := w, common := loadedCommon v5 q.common old.common }, r) := by
  obtain ⟨p1, i1, x1, nz1, hcR⟩ := hq.cR_valid
  obtain ⟨p2, i2, x2, nz2, hH⟩ := hq.matH_valid
  obtain ⟨x3, hT⟩ := hq.hTau_valid
  obtain ⟨s1, r1, hs1, hl1⟩ := C90_sparse_partial he b text (old := allocatedSparse) hcR hq.cR_real rfl rfl
  obtain ⟨s2, r2, hs2, hl2⟩ := C90_sparse_partial he b text (old := allocatedSparse) hH hq.matH_real rfl rfl
  obtain ⟨s3, r3, hs3, hl3⟩ := C90_dense he b text (old := allocatedDense) hT rfl
  have hE : sizeMul cR.ncol width = permE.length := sizeMul_of_le hq.permE_length.symm hq.fits.1
  have hP : sizeMul q.numRows width = hPinv.length := sizeMul_of_le hq.hPinv_length.symm hq.fits.2
  obtain ⟨m1, hm1, hml1⟩ := he.malloc permE.length
  obtain ⟨m2, hm2, hml2⟩ := he.malloc hPinv.length
  have hsaved : saveSpqr b env v5 text width q = .ok (spqrMembers env v5 text q s1 s2 s3 permE hPinv) := by
    unfold saveSpqr
    simp only [saveCholmodCommon_eq b v5 q.common hq.gpu, hq.cR_eq, hq.matH_eq, hq.hTau_eq, hq.permE_eq, hq.hPinv_eq,
      deref, except_ok_bind, hs1, hs2, hs3, hE, hP, encodeArray_some env text permE rfl,
      encodeArray_some env text hPinv rfl, except_pure, spqrMembers]
  refine ⟨_, ⟨spqrMembers env v5 text q s1 s2 s3 permE hPinv, []⟩, hsaved, ?_⟩
  unfold loadSpqr spqrMembers
  simp only [Reader.start, readFlag_cons, readInt_cons, readReal_cons, readSparse_cons, readNode_cons, readNat_cons,
    except_ok_bind, hw]
  rw [show (⟨[], commonMembers v5 q.common⟩ : Reader) = Reader.start (commonMembers v5 q.common) from rfl,
    loadCholmodCommon_eq b v5 text q.common old.common hq.gpu]
  simp only [except_ok_bind]
  rw [show (⟨[], s1⟩ : Reader) = Reader.start s1 from rfl, hl1]
  simp only [except_ok_bind]
  rw [show (⟨[], s2⟩ : Reader) = Reader.start s2 from rfl, hl2]
  simp only [except_ok_bind]
  rw [show (⟨[], s3⟩ : Reader) = Reader.start s3 from rfl, hl3]
  simp only [except_ok_bind, hE, hP, hm1, hm2]
  rw [decodeArray_payload he b text "m_E" hml1 hq.fits.1 rfl]
  simp only [except_ok_bind]
  rw [decodeArray_payload he b text "m_HPinv" hml2 hq.fits.2 rfl]
  simp only [except_ok_bind, except_pure, hq.cR_eq, hq.matH_eq, hq.hTau_eq, hq.permE_eq, hq.hPinv_eq, List.nil_append,
    List.cons_append]

/-- **C90**, partial: a decomposition whose cached factor stores nothing (it has not been asked for) is loaded as
it was saved, except for the settings of CHOLMOD that are not saved. -/
theorem C90_spqr_partial {env : SparseEnv} (he : env.Contract) (b : Build) (v5 text : Bool) (width : Nat)
    {q old : Spqr} {cR matH : CholmodSparse} {hTau : CholmodDense} {permE hPinv : Bytes}
    (hq : q.Valid width cR matH hTau permE hPinv) (hR : q.matR.entries = []) :
    ∃ saved r q', saveSpqr b env v5 text width q = .ok saved ∧
      loadSpqr b env v5 text width old (Reader.start saved) = .ok (q', r) ∧
      { q' with common := q.common } = q ∧
      (∀ name ∈ savedCommon v5, q'.common.numbers name = q.common.numbers name) ∧
      (∀ i, ∀ name ∈ methodMembers, q'.common.methods i name = q.common.methods i name) ∧
      ∀ view, q'.matrixR view = q.matrixR view := by
  have hw : loadSparse b (saveSparse q.matR) = .ok q.matR := by
    have := C57_empty_partial b q.matR.rows q.matR.cols
    rw [← hR] at this
    exact this
  obtain ⟨saved, r, hs, hl⟩ := loadSpqr_saved he b v5 text width (old := old) hq hw
  refine ⟨saved, r, _, hs, hl, rfl, fun name hn => if_pos hn, fun i name hn => if_pos hn, fun view => rfl⟩

/-- **C90 is false** for decompositions whose factor has been asked for: the cached factor is saved through the
sparse matrix code (see C57), so that a square one without structural duplicates or stored zeros loads, but
`matrixR` of the decomposition loaded is a different matrix. -/
theorem C90_spqr_factor_lost {env : SparseEnv} (he : env.Contract) (b : Build) (v5 text : Bool) (width : Nat)
    {q old : Spqr} {cR matH : CholmodSparse} {hTau : CholmodDense} {permE hPinv : Bytes}
    (hq : q.Valid width cR matH hTau permE hPinv) (hup : q.isRUpToDate = true) (hne : q.matR.entries ≠ [])
    (hsq : q.matR.rows = q.matR.cols) (hin : ∀ e ∈ q.matR.entries, e.1 < q.matR.rows ∧ e.2.1 < q.matR.cols)
    (hnd : (q.matR.entries.map fun e => (e.1, e.2.1)).Nodup) (hnz : ∀ e ∈ q.matR.entries, e.2.2 ≠ 0)
    (view : CholmodSparse → SparseMat) :
    ∃ saved r q' R', saveSpqr b env v5 text width q = .ok saved ∧
      loadSpqr b env v5 text width old (Reader.start saved) = .ok (q', r) ∧
      q.matrixR view = .ok q.matR ∧ q'.matrixR view = .ok R' ∧ ∃ i j, R'.entry i j ≠ q.matR.entry i j := by
  obtain ⟨w, hw, -, -, -⟩ := C57_square_loaded b q.matR hsq hin
  obtain ⟨saved, r, hs, hl⟩ := loadSpqr_saved he b v5 text width (old := old) hq hw
  refine ⟨saved, r, _, w, hs, hl, ?_, ?_, C57_lost b q.matR w hne hnd hnz hw⟩
  · unfold Spqr.matrixR
    rw [if_pos hup]
  · unfold Spqr.matrixR
    rw [if_pos hup]

/-- **C90 is false** for decompositions that have not been computed: saving one dereferences null. -/
theorem C90_spqr_empty (b : Build) (env : SparseEnv) (v5 text : Bool) (width : Nat) {q : Spqr}
    (hgpu : q.common.numbers "cc.useGPU" = 0) (hq : q.cR = none) :
    saveSpqr b env v5 text width q = .error .ub := by
  unfold saveSpqr
  simp only [saveCholmodCommon_eq b v5 q.common hgpu, hq, deref, except_ok_bind, except_error_bind]

/-- **C90 is false** for decompositions without a column permutation, for which SPQR returns a null pointer:
saving one with a column reads through it. -/
theorem C90_spqr_no_permutation {env : SparseEnv} (he : env.Contract) (b : Build) (v5 text : Bool) (width : Nat)
    {q : Spqr} {cR matH : CholmodSparse} {hTau : CholmodDense} {permE hPinv : Bytes}
    (hq : q.Valid width cR matH hTau permE hPinv) (hpos : permE ≠ []) :
    saveSpqr b env v5 text width { q with permE := none } = .error .ub := by
  obtain ⟨p1, i1, x1, nz1, hcR⟩ := hq.cR_valid
  obtain ⟨p2, i2, x2, nz2, hH⟩ := hq.matH_valid
  obtain ⟨x3, hT⟩ := hq.hTau_valid
  obtain ⟨s1, r1, hs1, -⟩ := C90_sparse_partial he b text (old := allocatedSparse) hcR hq.cR_real rfl rfl
  obtain ⟨s2, r2, hs2, -⟩ := C90_sparse_partial he b text (old := allocatedSparse) hH hq.matH_real rfl rfl
  obtain ⟨s3, r3, hs3, -⟩ := C90_dense he b text (old := allocatedDense) hT rfl
  have hE : sizeMul cR.ncol width = permE.length := sizeMul_of_le hq.permE_length.symm hq.fits.1
  have hnone : encodeArray env text none permE.length = .error .ub := by
    unfold encodeArray
    rw [if_pos]
    simpa [List.length_pos_iff] using hpos
  unfold saveSpqr
  simp only [saveCholmodCommon_eq b v5 q.common hq.gpu, hq.cR_eq, hq.matH_eq, hq.hTau_eq, deref, except_ok_bind,
    except_error_bind, hs1, hs2, hs3, hE, hnone]

/-! ## The hypotheses are met -/

/-- Libraries that meet their contracts: nothing is compressed or encoded, and memory is never short. -/
def plainSparseEnv : SparseEnv := ⟨storedZstd, ⟨id, id⟩, fun n => some (List.replicate n 0)⟩

theorem plainSparseEnv_contract : plainSparseEnv.Contract :=
  ⟨storedZstd_contract, fun _ => rfl, fun n => ⟨_, rfl, by simp⟩⟩

/-- An unpacked 2 × 1 matrix with `int` indices and room for two single precision values. -/
def unpackedSparse : CholmodSparse :=
  ⟨2, 1, 2, 0, 0, 1, 1, 1, 0, some (List.replicate 8 1), some (List.replicate 8 2), some (List.replicate 4 3),
    some (List.replicate 8 4), none⟩

theorem unpackedSparse_valid : unpackedSparse.Valid (List.replicate 8 1) (List.replicate 8 2) (List.replicate 8 4)
    (some (List.replicate 4 3)) := by
  refine ⟨Or.inl rfl, rfl, ?_, rfl, ?_, rfl, fun h => by simp [unpackedSparse] at h, fun _ => ⟨_, rfl, ?_⟩, rfl, ?_,
    rfl, ?_⟩
  · simp [unpackedSparse, indexWidth, cholmodLong]
  · simp [unpackedSparse, indexWidth, cholmodLong]
  · simp [unpackedSparse, indexWidth, cholmodLong]
  · simp [unpackedSparse, partsPerEntry, scalarWidth, cholmodComplex, cholmodDouble]
  · simp [stringMaxSize]

theorem allocatedSparse_valid : allocatedSparse.Valid (List.replicate 16 0) (List.replicate 8 0) (List.replicate 8 0)
    none := by
  refine ⟨Or.inr rfl, rfl, ?_, rfl, ?_, rfl, fun _ => rfl, fun h => by simp [allocatedSparse] at h, rfl, ?_, rfl, ?_⟩
  · simp [allocatedSparse, indexWidth, cholmodLong]
  · simp [allocatedSparse, indexWidth, cholmodLong]
  · simp [allocatedSparse, partsPerEntry, scalarWidth, cholmodComplex, cholmodDouble]
  · simp [stringMaxSize]

/-- A complex 1 × 2 dense matrix. -/
def complexDense : CholmodDense := ⟨1, 2, 2, 1, 2, 0, some (List.replicate 32 7), none⟩

theorem complexDense_valid : complexDense.Valid (List.replicate 32 7) := by
  refine ⟨rfl, ?_, rfl, by simp [complexDense], by simp [stringMaxSize]⟩
  simp [complexDense, partsPerEntry, scalarWidth, cholmodComplex, cholmodDouble]

/-- A decomposition whose factor is `R`. -/
def smallSpqr (upToDate : Bool) (R : SparseMat) : Spqr :=
  ⟨true, true, true, upToDate, 0, 7, 2, 1, R, 1, ⟨fun _ => 0, fun _ _ => 1⟩, true, 2, some unpackedSparse,
    some allocatedSparse, some complexDense, some (List.replicate 8 5), some (List.replicate 16 6)⟩

theorem smallSpqr_valid (upToDate : Bool) (R : SparseMat) :
    (smallSpqr upToDate R).Valid 8 unpackedSparse allocatedSparse complexDense (List.replicate 8 5)
      (List.replicate 16 6) where
  gpu := rfl
  cR_eq := rfl
  cR_valid := ⟨_, _, _, _, unpackedSparse_valid⟩
  cR_real := by simp [unpackedSparse, cholmodComplex]
  matH_eq := rfl
  matH_valid := ⟨_, _, _, _, allocatedSparse_valid⟩
  matH_real := by simp [allocatedSparse, cholmodComplex]
  hTau_eq := rfl
  hTau_valid := ⟨_, complexDense_valid⟩
  permE_eq := rfl
  permE_length := by simp [unpackedSparse]
  hPinv_eq := rfl
  hPinv_length := by simp [smallSpqr]
  fits := by simp [stringMaxSize]

example : ∃ saved r, saveCholmodSparse .debug plainSparseEnv true unpackedSparse = .ok saved ∧
    loadCholmodSparse .debug plainSparseEnv true allocatedSparse (Reader.start saved) = .ok (unpackedSparse, r) :=
  C90_sparse_partial plainSparseEnv_contract .debug true unpackedSparse_valid (by simp [unpackedSparse, cholmodComplex])
    rfl rfl

example : ∃ saved, saveCholmodSparse .debug plainSparseEnv true { unpackedSparse with nz := none } = .ok saved ∧
    loadCholmodSparse .debug plainSparseEnv true allocatedSparse (Reader.start saved) = .error .thrown :=
  C90_no_counts plainSparseEnv_contract .debug unpackedSparse_valid rfl

example : ∃ saved r, saveCholmodSparse .debug plainSparseEnv false allocatedSparse = .ok saved ∧
    loadCholmodSparse .debug plainSparseEnv false unpackedSparse (Reader.start saved) =
      .ok ({ allocatedSparse with nz := some (List.replicate 4 3) }, r) :=
  C90_stale_counts plainSparseEnv_contract .debug false (old := unpackedSparse) allocatedSparse_valid
    (by simp [allocatedSparse, cholmodComplex]) rfl (by simp [allocatedSparse])

example : ∃ saved r, saveCholmodDense .ndebug plainSparseEnv false complexDense = .ok saved ∧
    loadCholmodDense .ndebug plainSparseEnv false allocatedDense (Reader.start saved) = .ok (complexDense, r) :=
  C90_dense plainSparseEnv_contract .ndebug false complexDense_valid rfl

example (view : CholmodSparse → SparseMat) :
    ∃ saved r q', saveSpqr .debug plainSparseEnv true true 8 (smallSpqr false ⟨0, 0, []⟩) = .ok saved ∧
      loadSpqr .debug plainSparseEnv true true 8 (smallSpqr true ⟨3, 3, []⟩) (Reader.start saved) = .ok (q', r) ∧
      q'.matrixR view = .ok (view unpackedSparse) := by
  obtain ⟨saved, r, q', h1, h2, -, -, -, h3⟩ := C90_spqr_partial plainSparseEnv_contract .debug true true 8
    (old := smallSpqr true ⟨3, 3, []⟩) (smallSpqr_valid false ⟨0, 0, []⟩) rfl
  exact ⟨saved, r, q', h1, h2, h3 view⟩

example (view : CholmodSparse → SparseMat) :
    ∃ saved r q' R', saveSpqr .debug plainSparseEnv true true 8 (smallSpqr true ⟨1, 1, [(0, 0, 5)]⟩) = .ok saved ∧
      loadSpqr .debug plainSparseEnv true true 8 (smallSpqr false ⟨0, 0, []⟩) (Reader.start saved) = .ok (q', r) ∧
      q'.matrixR view = .ok R' ∧ ∃ i j, R'.entry i j ≠ SparseMat.entry ⟨1, 1, [(0, 0, 5)]⟩ i j := by
  obtain ⟨saved, r, q', R', h1, h2, -, h3, h4⟩ := C90_spqr_factor_lost plainSparseEnv_contract .debug true true 8
    (old := smallSpqr false ⟨0, 0, []⟩) (smallSpqr_valid true ⟨1, 1, [(0, 0, 5)]⟩) rfl
    (by simp [smallSpqr]) rfl (by simp [smallSpqr]) (by simp [smallSpqr]) (by simp [smallSpqr]) view
  exact ⟨saved, r, q', R', h1, h2, h3, h4⟩

example : saveSpqr .debug plainSparseEnv true true 8 { smallSpqr false ⟨0, 0, []⟩ with permE := none } =
    .error .ub :=
  C90_spqr_no_permutation plainSparseEnv_contract .debug true true 8 (smallSpqr_valid false ⟨0, 0, []⟩) (by simp)

end Albatross
