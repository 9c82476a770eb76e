import Verif.Archive

/-! # Model of cereal/suitesparse.hpp, cereal/serializable_spqr.hpp and eigen/serializable_spqr.hpp

CHOLMOD's structures hold pointers to arrays: a pointer is an `Option` of the bytes of the array, `none` being
the null pointer.  Sizes are computed in `std::size_t`, that is modulo 2^64. -/

namespace Albatross

/-- The constants of CHOLMOD that are used. -/
def cholmodInt : Int := 0
def cholmodLong : Int := 2
def cholmodReal : Int := 1
def cholmodComplex : Int := 2
def cholmodDouble : Int := 0

/-- A product of two `std::size_t`. -/
def sizeMul (m n : Nat) : Nat := m * n % 2 ^ 64

/-- The libraries and the platform: zstd, base64, `malloc` (which may fail). -/
structure SparseEnv where
  zstd : Zstd
  base64 : Codec
  malloc : Nat → Option Bytes

/-- `malloc` returns a block of the size asked for, or null. -/
def SparseEnv.MallocContract (env : SparseEnv) : Prop := ∀ n p, env.malloc n = some p → p.length = n

/-- `encode_array` (cereal/suitesparse.hpp lines 58-69): `size` bytes are read from `source`. -/
def encodeArray (env : SparseEnv) (text : Bool) (source : Option Bytes) (size : Nat) : Outcome Bytes :=
  if (source.getD []).length < size then .error .ub
  else
    let payload := zstdCompressBytes env.zstd 3 ((source.getD []).take size)
    .ok (if text then env.base64.encode payload else payload)

/-- An array written if a condition holds. -/
def saveArrayIf (env : SparseEnv) (text : Bool) (cond : Bool) (name : String) (source : Option Bytes) (size : Nat) :
    Outcome (List (String × Field)) :=
  if cond then do
    let a ← encodeArray env text source size
    pure [(name, Field.text a)]
  else pure []

/-- `decode_array` (cereal/suitesparse.hpp lines 71-81): decompression writes into the block at `destination`,
which must be large enough for what is written. -/
def decodeArray (b : Build) (env : SparseEnv) (text : Bool) (name : String) (destination : Option Bytes)
    (expected : Nat) (r : Reader) : Outcome (Option Bytes × Reader) := do
  albatrossAssert b destination.isSome
  let (payload, r) ← readText text name r
  let payload := if text then env.base64.decode payload else payload
  let d := maybeDecompressBytes env.zstd payload (destination.getD []) expected
  if (destination.getD []).length < d.2.length then .error .ub
  else do
    assertOnError b d.1
    pure (destination.map fun _ => d.2, r)

/-- `suitesparse_cereal_realloc` (cereal/suitesparse.hpp lines 83-93). -/
def cerealRealloc (b : Build) (env : SparseEnv) (count elemSize : Nat) : Outcome (Option Bytes) := do
  let p := env.malloc (sizeMul count elemSize)
  albatrossAssert b p.isSome
  pure p

/-- `cholmod_sparse`. -/
structure CholmodSparse where
  nrow : Nat
  ncol : Nat
  nzmax : Nat
  stype : Int
  itype : Int
  xtype : Int
  dtype : Int
  sorted : Int
  packed : Int
  p : Option Bytes
  i : Option Bytes
  nz : Option Bytes
  x : Option Bytes
  z : Option Bytes

/-- `cholmod_dense`. -/
structure CholmodDense where
  nrow : Nat
  ncol : Nat
  nzmax : Nat
  d : Nat
  xtype : Int
  dtype : Int
  x : Option Bytes
  z : Option Bytes

/-- `get_element_size_bytes` (cereal/suitesparse.hpp lines 360-363). -/
def elementSizeBytes (dtype : Int) : Nat := if dtype = cholmodDouble then 8 else 4

/-- `get_num_x_elements` (cereal/suitesparse.hpp lines 365-369). -/
def numXElements (nzmax : Nat) (xtype : Int) : Nat := sizeMul nzmax (if xtype = cholmodComplex then 2 else 1)

/-- The check that the indices are `int` or `long` (a plain `assert`). -/
def assertIndexType (b : Build) (itype : Int) : Outcome Unit :=
  albatrossAssert b (decide (itype = cholmodInt ∨ itype = cholmodLong))

/-- `get_p_element_size_bytes` (cereal/suitesparse.hpp lines 371-376). -/
def pElementSizeBytes (b : Build) (itype : Int) : Outcome Nat := do
  assertIndexType b itype
  pure (if itype = cholmodInt then 4 else 8)

/-- `get_integer_size_bytes` (cereal/suitesparse.hpp lines 378-383). -/
def integerSizeBytes (b : Build) (itype : Int) : Outcome Nat := do
  assertIndexType b itype
  pure (if itype = cholmodLong then 8 else 4)

/-- `save` of a `cholmod_sparse` (cereal/suitesparse.hpp lines 385-415). -/
def saveCholmodSparse (b : Build) (env : SparseEnv) (text : Bool) (m : CholmodSparse) :
    Outcome (List (String × Field)) := do
  assertIndexType b m.itype
  let elementSize := elementSizeBytes m.dtype
  let xElements := numXElements m.nzmax m.xtype
  let pSize ← pElementSizeBytes b m.itype
  let integerSize ← integerSizeBytes b m.itype
  let p ← encodeArray env text m.p (sizeMul ((m.ncol + 1) % 2 ^ 64) pSize)
  let i ← encodeArray env text m.i (sizeMul m.nzmax integerSize)
  let nz ← saveArrayIf env text (m.nz.isSome ∧ m.packed = 0) "m.nz" m.nz (sizeMul m.ncol integerSize)
  let x ← saveArrayIf env text m.x.isSome "m.x" m.x (sizeMul xElements elementSize)
  albatrossAssert b m.z.isNone
  pure ([("m.nrow", .nat m.nrow), ("m.ncol", .nat m.ncol), ("m.nzmax", .nat m.nzmax), ("m.stype", .int m.stype),
    ("m.itype", .int m.itype), ("m.xtype", .int m.xtype), ("m.dtype", .int m.dtype), ("m.sorted", .int m.sorted),
    ("m.packed", .int m.packed), ("m.p", .text p), ("m.i", .text i)] ++ nz ++ x)

/-- `load` of a `cholmod_sparse` (cereal/suitesparse.hpp lines 417-451) into `old`. -/
def loadCholmodSparse (b : Build) (env : SparseEnv) (text : Bool) (old : CholmodSparse) (r : Reader) :
    Outcome (CholmodSparse × Reader) := do
  let (nrow, r) ← readNat text "m.nrow" r
  let (ncol, r) ← readNat text "m.ncol" r
  let (nzmax, r) ← readNat text "m.nzmax" r
  let (stype, r) ← readInt text "m.stype" r
  let (itype, r) ← readInt text "m.itype" r
  let (xtype, r) ← readInt text "m.xtype" r
  let (dtype, r) ← readInt text "m.dtype" r
  let (sorted, r) ← readInt text "m.sorted" r
  let (packed, r) ← readInt text "m.packed" r
  let elementSize := elementSizeBytes dtype
  let xElements := numXElements nzmax xtype
  let pSize ← pElementSizeBytes b itype
  let integerSize ← integerSizeBytes b itype
  let p ← cerealRealloc b env ((ncol + 1) % 2 ^ 64) pSize
  let i ← cerealRealloc b env nzmax integerSize
  let nz ← (if packed = 0 then cerealRealloc b env ncol integerSize else .ok old.nz)
  let x ← cerealRealloc b env nzmax elementSize
  let (p, r) ← decodeArray b env text "m.p" p (sizeMul ((ncol + 1) % 2 ^ 64) pSize) r
  let (i, r) ← decodeArray b env text "m.i" i (sizeMul nzmax integerSize) r
  let (nz, r) ← (if packed = 0 then decodeArray b env text "m.nz" nz (sizeMul ncol integerSize) r else .ok (nz, r))
  let (x, r) ← decodeArray b env text "m.x" x (sizeMul xElements elementSize) r
  albatrossAssert b old.z.isNone
  pure (⟨nrow, ncol, nzmax, stype, itype, xtype, dtype, sorted, packed, p, i, nz, x, old.z⟩, r)

/-- `save` of a `cholmod_dense` (cereal/suitesparse.hpp lines 453-472). -/
def saveCholmodDense (b : Build) (env : SparseEnv) (text : Bool) (m : CholmodDense) :
    Outcome (List (String × Field)) := do
  albatrossAssert b (decide (m.nrow ≤ m.d))
  let elementSize := elementSizeBytes m.dtype
  let xElements := numXElements m.nzmax m.xtype
  let x ← saveArrayIf env text m.x.isSome "m.x" m.x (sizeMul xElements elementSize)
  albatrossAssert b m.z.isNone
  pure ([("m.nrow", .nat m.nrow), ("m.ncol", .nat m.ncol), ("m.nzmax", .nat m.nzmax), ("m.d", .nat m.d),
    ("m.xtype", .int m.xtype), ("m.dtype", .int m.dtype)] ++ x)

/-- `load` of a `cholmod_dense` (cereal/suitesparse.hpp lines 474-492) into `old`. -/
def loadCholmodDense (b : Build) (env : SparseEnv) (text : Bool) (old : CholmodDense) (r : Reader) :
    Outcome (CholmodDense × Reader) := do
  let (nrow, r) ← readNat text "m.nrow" r
  let (ncol, r) ← readNat text "m.ncol" r
  let (nzmax, r) ← readNat text "m.nzmax" r
  let (d, r) ← readNat text "m.d" r
  let (xtype, r) ← readInt text "m.xtype" r
  let (dtype, r) ← readInt text "m.dtype" r
  albatrossAssert b (decide (nrow ≤ d))
  let elementSize := elementSizeBytes dtype
  let xElements := numXElements nzmax xtype
  let x ← cerealRealloc b env xElements elementSize
  let (x, r) ← decodeArray b env text "m.x" x (sizeMul xElements elementSize) r
  albatrossAssert b old.z.isNone
  pure (⟨nrow, ncol, nzmax, d, xtype, dtype, x, old.z⟩, r)

/-! ## The settings and statistics of CHOLMOD -/

/-- The members of `cholmod_method_struct` in the order of `serialize` (cereal/suitesparse.hpp lines 18-54). -/
def methodMembers : List String :=
  ["cms.lnz", "cms.fl", "cms.prune_dense", "cms.prune_dense2", "cms.nd_oksep", "cms.other_1_0", "cms.other_1_1",
    "cms.other_1_2", "cms.other_1_3", "cms.nd_small", "cms.other_2_0", "cms.other_2_1", "cms.other_2_2",
    "cms.other_2_3", "cms.aggressive", "cms.order_for_lu", "cms.nd_compress", "cms.nd_camd", "cms.nd_components",
    "cms.ordering", "cms.other_3_0", "cms.other_3_1", "cms.other_3_2", "cms.other_3_3"]

/-- The members of `cholmod_common` that `save` writes before the methods (cereal/suitesparse.hpp lines
100-133). -/
def savedBeforeMethods : List String :=
  ["cc.dbound", "cc.grow0", "cc.grow1", "cc.grow2", "cc.maxrank", "cc.supernodal_switch", "cc.supernodal",
    "cc.final_asis", "cc.final_super", "cc.final_ll", "cc.final_pack", "cc.final_monotonic", "cc.final_resymbol",
    "cc.zrelax0", "cc.zrelax1", "cc.zrelax2", "cc.nrelax0", "cc.nrelax1", "cc.nrelax2", "cc.prefer_zomplex",
    "cc.prefer_upper", "cc.quick_return_if_not_posdef", "cc.prefer_binary", "cc.print", "cc.precise",
    "cc.try_catch", "cc.nmethods", "cc.current", "cc.selected"]

/-- The members that `load` reads before the methods (cereal/suitesparse.hpp lines 234-267). -/
def loadedBeforeMethods : List String :=
  ["cc.dbound", "cc.grow0", "cc.grow1", "cc.grow2", "cc.maxrank", "cc.supernodal_switch", "cc.supernodal",
    "cc.final_asis", "cc.final_super", "cc.final_ll", "cc.final_pack", "cc.final_monotonic", "cc.final_resymbol",
    "cc.zrelax0", "cc.zrelax1", "cc.zrelax2", "cc.nrelax0", "cc.nrelax1", "cc.nrelax2", "cc.prefer_zomplex",
    "cc.prefer_upper", "cc.quick_return_if_not_posdef", "cc.prefer_binary", "cc.print", "cc.precise",
    "cc.try_catch", "cc.nmethods", "cc.current", "cc.selected"]

/-- The members written after the methods, up to the GPU flag (cereal/suitesparse.hpp lines 139-208); `v5` is
the test of the CHOLMOD version. -/
def savedAfterMethods (v5 : Bool) : List String :=
  ["cc.postorder", "cc.default_nesdis", "cc.metis_memory", "cc.metis_dswitch", "cc.metis_nswitch", "cc.mark",
    "cc.itype"] ++ (if v5 then [] else ["cc.dtype"]) ++
  ["cc.no_workspace_reallocate", "cc.status", "cc.fl", "cc.lnz", "cc.anz", "cc.modfl", "cc.malloc_count",
    "cc.memory_usage", "cc.memory_inuse", "cc.nrealloc_col", "cc.nrealloc_factor", "cc.ndbounds_hit",
    "cc.rowfacfl", "cc.aatfl", "cc.called_nd", "cc.blas_ok", "cc.SPQR_grain", "cc.SPQR_small", "cc.SPQR_shrink",
    "cc.SPQR_nthreads", "cc.SPQR_flopcount", "cc.SPQR_analyze_time", "cc.SPQR_factorize_time",
    "cc.SPQR_solve_time", "cc.SPQR_flopcount_bound", "cc.SPQR_tol_used", "cc.SPQR_norm_E_fro", "cc.SPQR_istat0",
    "cc.SPQR_istat1", "cc.SPQR_istat2", "cc.SPQR_istat3", "cc.SPQR_istat4", "cc.SPQR_istat5", "cc.SPQR_istat6",
    "cc.SPQR_istat7"] ++ (if v5 then [] else ["cc.SPQR_istat8", "cc.SPQR_istat9"])

/-- The members read after the methods, up to the GPU flag (cereal/suitesparse.hpp lines 273-337). -/
def loadedAfterMethods (v5 : Bool) : List String :=
  ["cc.postorder", "cc.default_nesdis", "cc.metis_memory", "cc.metis_dswitch", "cc.metis_nswitch", "cc.mark",
    "cc.itype"] ++ (if v5 then [] else ["cc.dtype"]) ++
  ["cc.no_workspace_reallocate", "cc.status", "cc.fl", "cc.lnz", "cc.anz", "cc.modfl", "cc.malloc_count",
    "cc.memory_usage", "cc.memory_inuse", "cc.nrealloc_col", "cc.nrealloc_factor", "cc.ndbounds_hit",
    "cc.rowfacfl", "cc.aatfl", "cc.called_nd", "cc.blas_ok", "cc.SPQR_grain", "cc.SPQR_small", "cc.SPQR_shrink",
    "cc.SPQR_nthreads", "cc.SPQR_flopcount", "cc.SPQR_analyze_time", "cc.SPQR_factorize_time",
    "cc.SPQR_solve_time", "cc.SPQR_flopcount_bound", "cc.SPQR_tol_used", "cc.SPQR_norm_E_fro", "cc.SPQR_istat0",
    "cc.SPQR_istat1", "cc.SPQR_istat2", "cc.SPQR_istat3", "cc.SPQR_istat4", "cc.SPQR_istat5", "cc.SPQR_istat6",
    "cc.SPQR_istat7"] ++ (if v5 then [] else ["cc.SPQR_istat8", "cc.SPQR_istat9"])

/-- The members written after the GPU flag (cereal/suitesparse.hpp lines 218-228). -/
def savedAfterGpu : List String :=
  ["cc.syrkStart", "cc.cholmod_cpu_gemm_time", "cc.cholmod_cpu_syrk_time", "cc.cholmod_cpu_trsm_time",
    "cc.cholmod_cpu_potrf_time", "cc.cholmod_assemble_time", "cc.cholmod_assemble_time2",
    "cc.cholmod_cpu_gemm_calls", "cc.cholmod_cpu_syrk_calls", "cc.cholmod_cpu_trsm_calls",
    "cc.cholmod_cpu_potrf_calls"]

/-- The members read after the GPU flag (cereal/suitesparse.hpp lines 347-357). -/
def loadedAfterGpu : List String :=
  ["cc.syrkStart", "cc.cholmod_cpu_gemm_time", "cc.cholmod_cpu_syrk_time", "cc.cholmod_cpu_trsm_time",
    "cc.cholmod_cpu_potrf_time", "cc.cholmod_assemble_time", "cc.cholmod_assemble_time2",
    "cc.cholmod_cpu_gemm_calls", "cc.cholmod_cpu_syrk_calls", "cc.cholmod_cpu_trsm_calls",
    "cc.cholmod_cpu_potrf_calls"]

/-- `cholmod_common`: its numbers by name (in the archive `cc.` precedes them), and its methods, an array of
`CHOLMOD_MAXMETHODS + 1` structures of numbers. -/
structure CholmodCommon where
  numbers : String → ℝ
  methods : Fin 10 → String → ℝ

/-- Writing the named numbers. -/
def saveNumbers (names : List String) (values : String → ℝ) : List (String × Field) :=
  names.map fun n => (n, Field.real (values n))

/-- Reading named numbers over `old`. -/
noncomputable def loadNumbers (text : Bool) : List String → (String → ℝ) → Reader → Outcome ((String → ℝ) × Reader)
  | [], old, r => .ok (old, r)
  | n :: ns, old, r => do
    let (x, r) ← readReal text n r
    loadNumbers text ns (fun m => if m = n then x else old m) r

/-- Reading the methods `k`, …, `k + n - 1`. -/
noncomputable def loadMethods (text : Bool) : Nat → Nat → (Fin 10 → String → ℝ) → Reader →
    Outcome ((Fin 10 → String → ℝ) × Reader)
  | 0, _, old, r => .ok (old, r)
  | n + 1, k, old, r => do
    let (members, r) ← readNode text (autoName k) r
    let (values, _) ← loadNumbers text methodMembers (fun name => if h : k < 10 then old ⟨k, h⟩ name else 0)
      (Reader.start members)
    loadMethods text n (k + 1) (fun i => if i.val = k then values else old i) r

/-- `save` of a `cholmod_common` (cereal/suitesparse.hpp lines 97-229). -/
noncomputable def saveCholmodCommon (b : Build) (v5 : Bool) (cc : CholmodCommon) : Outcome (List (String × Field)) := do
  albatrossAssert b (@decide (cc.numbers "cc.useGPU" = 0) (Classical.dec _))
  pure (saveNumbers savedBeforeMethods cc.numbers ++
    (List.finRange 10).map (fun k => (autoName k.val, Field.node (saveNumbers methodMembers (cc.methods k)))) ++
    saveNumbers (savedAfterMethods v5) cc.numbers ++
    [("cc.useGPU", .real (cc.numbers "cc.useGPU"))] ++ saveNumbers savedAfterGpu cc.numbers)

/-- `load` of a `cholmod_common` (cereal/suitesparse.hpp lines 231-358); freeing the workspace succeeds. -/
noncomputable def loadCholmodCommon (b : Build) (v5 text : Bool) (old : CholmodCommon) (r : Reader) :
    Outcome (CholmodCommon × Reader) := do
  let (numbers, r) ← loadNumbers text loadedBeforeMethods old.numbers r
  let (methods, r) ← loadMethods text 10 0 old.methods r
  let (numbers, r) ← loadNumbers text (loadedAfterMethods v5) numbers r
  let (numbers, r) ← loadNumbers text ["cc.useGPU"] numbers r
  albatrossAssert b (@decide (numbers "cc.useGPU" = 0) (Classical.dec _))
  let (numbers, r) ← loadNumbers text loadedAfterGpu numbers r
  pure (⟨numbers, methods⟩, r)

/-! ## Sparse QR decompositions -/

/-- The members of `SerializableSPQR` (eigen/serializable_spqr.hpp lines 18-43), most of which it inherits from
`Eigen::SPQR`. -/
structure Spqr where
  isInitialized : Bool
  analysisIsOk : Bool
  factorizationIsOk : Bool
  isRUpToDate : Bool
  info : Int
  ordering : Int
  allowTol : Int
  tolerance : ℝ
  matR : SparseMat
  rank : Int
  common : CholmodCommon
  useDefaultThreshold : Bool
  numRows : Nat
  cR : Option CholmodSparse
  matH : Option CholmodSparse
  hTau : Option CholmodDense
  permE : Option Bytes
  hPinv : Option Bytes

/-- `*p` of a pointer. -/
def deref {α : Type} : Option α → Outcome α
  | some a => .ok a
  | none => .error .ub

/-- `SerializableSPQR::save` (cereal/serializable_spqr.hpp lines 18-45); `width` is `sizeof(StorageIndex)`. -/
noncomputable def saveSpqr (b : Build) (env : SparseEnv) (v5 text : Bool) (width : Nat) (q : Spqr) :
    Outcome (List (String × Field)) := do
  let common ← saveCholmodCommon b v5 q.common
  let cR ← deref q.cR
  let savedR ← saveCholmodSparse b env text cR
  let matH ← deref q.matH
  let savedH ← saveCholmodSparse b env text matH
  let hTau ← deref q.hTau
  let savedTau ← saveCholmodDense b env text hTau
  let permE ← encodeArray env text q.permE (sizeMul cR.ncol width)
  let hPinv ← encodeArray env text q.hPinv (sizeMul q.numRows width)
  pure [("Base::m_isInitialized", .flag q.isInitialized), ("Base::m_analysisIsOk", .flag q.analysisIsOk),
    ("Base::m_factorizationIsOk", .flag q.factorizationIsOk), ("Base::m_isRUpToDate", .flag q.isRUpToDate),
    ("Base::m_info", .int q.info), ("Base::m_ordering", .int q.ordering), ("Base::m_allow_tol", .int q.allowTol),
    ("Base::m_tolerance", .real q.tolerance), ("Base::m_R", .sparse (saveSparse q.matR)),
    ("Base::m_rank", .int q.rank), ("Base::m_cc", .node common),
    ("Base::m_useDefaultThreshold", .flag q.useDefaultThreshold), ("Base::m_rows", .nat q.numRows),
    ("m_cR", .node savedR), ("m_H", .node savedH), ("m_HTau", .node savedTau), ("m_E", .text permE),
    ("m_HPinv", .text hPinv)]

/-- What `cholmod_l_allocate_sparse(1, 1, 1, 1, 1, 0, CHOLMOD_REAL, ...)` returns: a packed 1 × 1 matrix
without `nz` and `z`. -/
def allocatedSparse : CholmodSparse :=
  ⟨1, 1, 1, 0, 2, 1, 0, 1, 1, some (List.replicate 16 0), some (List.replicate 8 0), none,
    some (List.replicate 8 0), none⟩

/-- What `cholmod_l_allocate_dense(1, 1, 1, CHOLMOD_REAL, ...)` returns. -/
def allocatedDense : CholmodDense := ⟨1, 1, 1, 1, 1, 0, some (List.replicate 8 0), none⟩

/-- `SerializableSPQR::load` (cereal/serializable_spqr.hpp lines 47-83) into `old`. -/
noncomputable def loadSpqr (b : Build) (env : SparseEnv) (v5 text : Bool) (width : Nat) (old : Spqr) (r : Reader) :
    Outcome (Spqr × Reader) := do
  let (isInitialized, r) ← readFlag text "Base::m_isInitialized" r
  let (analysisIsOk, r) ← readFlag text "Base::m_analysisIsOk" r
  let (factorizationIsOk, r) ← readFlag text "Base::m_factorizationIsOk" r
  let (isRUpToDate, r) ← readFlag text "Base::m_isRUpToDate" r
  let (info, r) ← readInt text "Base::m_info" r
  let (ordering, r) ← readInt text "Base::m_ordering" r
  let (allowTol, r) ← readInt text "Base::m_allow_tol" r
  let (tolerance, r) ← readReal text "Base::m_tolerance" r
  let (savedR, r) ← readSparse text "Base::m_R" r
  let matR ← loadSparse b savedR
  let (rank, r) ← readInt text "Base::m_rank" r
  let (common, r) ← readNode text "Base::m_cc" r
  let (common, _) ← loadCholmodCommon b v5 text old.common (Reader.start common)
  let (useDefaultThreshold, r) ← readFlag text "Base::m_useDefaultThreshold" r
  let (numRows, r) ← readNat text "Base::m_rows" r
  let (cR, r) ← readNode text "m_cR" r
  let (cR, _) ← loadCholmodSparse b env text allocatedSparse (Reader.start cR)
  let (matH, r) ← readNode text "m_H" r
  let (matH, _) ← loadCholmodSparse b env text allocatedSparse (Reader.start matH)
  let (hTau, r) ← readNode text "m_HTau" r
  let (hTau, _) ← loadCholmodDense b env text allocatedDense (Reader.start hTau)
  let (permE, r) ← decodeArray b env text "m_E" (env.malloc (sizeMul cR.ncol width)) (sizeMul cR.ncol width) r
  let (hPinv, r) ← decodeArray b env text "m_HPinv" (env.malloc (sizeMul numRows width)) (sizeMul numRows width) r
  pure (⟨isInitialized, analysisIsOk, factorizationIsOk, isRUpToDate, info, ordering, allowTol, tolerance, matR,
    rank, common, useDefaultThreshold, numRows, some cR, some matH, some hTau, permE, hPinv⟩, r)

/-- `SPQR::matrixR()` of Eigen: the cached factor, computed from `m_cR` if it is out of date; `view` is
`viewAsEigen`. -/
def Spqr.matrixR (view : CholmodSparse → SparseMat) (q : Spqr) : Outcome SparseMat :=
  if q.isRUpToDate then .ok q.matR else do
    let cR ← deref q.cR
    pure (view cR)

end Albatross
