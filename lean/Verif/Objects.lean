import Verif.Archive

/-! # Model of the serialisation of albatross objects

The remaining headers under cereal/: variant, priors, parameters, dataset, distribution, fit_model, model, gp,
least_squares, ransac, representations, block_utils, serializable_ldlt, ThreadPool, evaluation, traits, and the
Eigen types of cereal/eigen.hpp lines 72-122.

Most of them are `serialize` functions, which run both when saving and when loading: cereal casts away `const`
from the object being saved.  `Serial.save` therefore returns the object after saving as well. -/

namespace Albatross

/-- The archive, the build and the libraries. -/
structure Io where
  text : Bool
  b : Build
  zstd : Zstd
  gzip : Codec
  base64 : Codec
  /-- The contents of a fresh block of that many bytes. -/
  uninit : Nat → Bytes

/-- How values of a type go through an archive: what is written for a value, with the value afterwards; and what
loading over an old value gives. -/
structure Serial (α : Type) where
  save : α → Outcome (Field × α)
  load : α → Field → Outcome α

/-- One named value of an object. -/
structure Member (σ : Type) where
  name : String
  α : Type
  serial : Serial α
  get : σ → α
  set : σ → α → σ

/-- One statement of a `serialize` function. -/
inductive Step (σ : Type)
  /-- `archive(make_nvp(name, object.member))`. -/
  | field (m : Member σ)
  /-- A statement that does not involve the archive. -/
  | assign (f : σ → σ)

/-- Running a `serialize` function on an output archive. -/
def saveSteps {σ : Type} : List (Step σ) → σ → Outcome (List (String × Field) × σ)
  | [], s => .ok ([], s)
  | .field m :: steps, s => do
    let (f, a) ← m.serial.save (m.get s)
    let (fs, s) ← saveSteps steps (m.set s a)
    pure ((m.name, f) :: fs, s)
  | .assign f :: steps, s => saveSteps steps (f s)

/-- Running a `serialize` function on an input archive. -/
def loadSteps {σ : Type} (text : Bool) : List (Step σ) → σ → Reader → Outcome (σ × Reader)
  | [], s, r => .ok (s, r)
  | .field m :: steps, s, r => do
    let (f, r) ← r.next text m.name
    let a ← m.serial.load (m.get s) f
    loadSteps text steps (m.set s a) r
  | .assign f :: steps, s, r => loadSteps text steps (f s) r

/-- The members of an object in an archive. -/
def membersOf (text : Bool) : Field → Outcome (List (String × Field))
  | .node ms => .ok ms
  | _ => .error (confused text)

/-- An object with a `serialize` function. -/
def objectSerial {σ : Type} (io : Io) (steps : List (Step σ)) : Serial σ where
  save s := do
    let (fs, s) ← saveSteps steps s
    pure (.node fs, s)
  load s f := do
    let ms ← membersOf io.text f
    let (s, _) ← loadSteps io.text steps s (Reader.start ms)
    pure s

/-! ## Numbers, strings and containers, which cereal serialises itself -/

def intSerial (io : Io) : Serial Int where
  save n := .ok (.int n, n)
  load _ f := match f with
    | .int n => .ok n
    | _ => .error (confused io.text)

def natSerial (io : Io) : Serial Nat where
  save n := .ok (.nat n, n)
  load _ f := match f with
    | .nat n => .ok n
    | _ => .error (confused io.text)

def dblSerial (io : Io) : Serial Dbl where
  save x := .ok (.dbl x, x)
  load _ f := match f with
    | .dbl x => .ok x
    | _ => .error (confused io.text)

def flagSerial (io : Io) : Serial Bool where
  save x := .ok (.flag x, x)
  load _ f := match f with
    | .flag x => .ok x
    | _ => .error (confused io.text)

def stringSerial (io : Io) : Serial String where
  save x := .ok (.name x, x)
  load _ f := match f with
    | .name x => .ok x
    | _ => .error (confused io.text)

/-- The elements of a `std::vector`, from number `i` on. -/
def saveElements {α : Type} (c : Serial α) : Nat → List α → Outcome (List (String × Field) × List α)
  | _, [] => .ok ([], [])
  | i, x :: xs => do
    let (f, x) ← c.save x
    let (fs, xs) ← saveElements c (i + 1) xs
    pure ((autoName i, f) :: fs, x :: xs)

/-- The elements are loaded over those the vector has after `resize`. -/
def loadElements {α : Type} (c : Serial α) (init : α) : Nat → List α → List (String × Field) → Outcome (List α)
  | _, _, [] => .ok []
  | i, old, f :: fs => do
    let x ← c.load (old.getD i init) f.2
    let xs ← loadElements c init (i + 1) old fs
    pure (x :: xs)

/-- `std::vector`; `init` is a default constructed element. -/
def vectorSerial {α : Type} (io : Io) (c : Serial α) (init : α) : Serial (List α) where
  save xs := do
    let (fs, xs) ← saveElements c 0 xs
    pure (.node fs, xs)
  load old f := do
    let ms ← membersOf io.text f
    loadElements c init 0 old ms

/-- A pair in a map: its key, then its value. -/
def pairSteps {κ ν : Type} (k : Serial κ) (v : Serial ν) : List (Step (κ × ν)) :=
  [.field ⟨"key", κ, k, Prod.fst, fun p a => (a, p.2)⟩, .field ⟨"value", ν, v, Prod.snd, fun p a => (p.1, a)⟩]

/-- `std::map`: loading clears the map and inserts the pairs one after the other. -/
def mapSerial {κ ν : Type} [LT κ] [DecidableLT κ] [DecidableEq κ] (io : Io) (k : Serial κ) (v : Serial ν)
    (init : κ × ν) : Serial (SMap κ ν) where
  save m := do
    let (fs, m) ← saveElements (objectSerial io (pairSteps k v)) 0 m
    pure (.node fs, m)
  load _ f := do
    let ms ← membersOf io.text f
    let pairs ← loadElements (objectSerial io (pairSteps k v)) init 0 [] ms
    pure (SMap.ofList pairs)

/-! ## Variants -/

/-- One of the types of a variant: its `typeid` name, how it goes through an archive, a default constructed
value. -/
structure Alternative where
  α : Type
  typeName : String
  serial : Serial α
  init : α

/-- A value of one of the types. -/
abbrev Variant (alts : List Alternative) := (i : Fin alts.length) × (alts.get i).α

/-- `load_variant<N>` (cereal/variant.hpp lines 28-50). -/
def loadVariant (io : Io) (alts : List Alternative) (target : Int) (old : Variant alts) (r : Reader) (n : Nat) :
    Outcome (Variant alts) :=
  if h : n < alts.length then
    if (n : Int) = target then do
      let (f, _) ← r.next io.text "data"
      let value ← (alts.get ⟨n, h⟩).serial.load (alts.get ⟨n, h⟩).init f
      pure ⟨⟨n, h⟩, value⟩
    else loadVariant io alts target old r (n + 1)
  else do
    albatrossAssert io.b false
    pure old
termination_by alts.length - n

/-- `save` and `load` of a variant (cereal/variant.hpp lines 65-91) for a version of the format. -/
def variantSerial (io : Io) (version : Nat) (alts : List Alternative) : Serial (Variant alts) where
  save v := do
    let (f, value) ← (alts.get v.1).serial.save v.2
    pure (.node ([("which", .int v.1.val)] ++
      (if 0 < version then [("which_typeid", .name (alts.get v.1).typeName)] else []) ++ [("data", f)]), ⟨v.1, value⟩)
  load old f := do
    let ms ← membersOf io.text f
    let (which, r) ← readInt io.text "which" (Reader.start ms)
    if 0 < version then do
      let (_, r) ← readName io.text "which_typeid" r
      albatrossAssert io.b (decide (which < alts.length))
      loadVariant io alts which old r 0
    else loadVariant io alts which old r 0

/-- `VARIANT_SERIALIZATION_VERSION` (cereal/variant.hpp lines 20-22, 95-109). -/
def variantVersion : Nat := 1

/-! ## Priors and parameters -/

/-- `serialize` of the priors without members (cereal/priors.hpp lines 18-21). -/
def emptyPriorSteps : List (Step Unit) := []

/-- `serialize` of `UniformPrior`, and of `LogScaleUniformPrior` which derives from it (cereal/priors.hpp lines
23-28). -/
def boundsSteps (io : Io) : List (Step (Dbl × Dbl)) :=
  [.field ⟨"lower", Dbl, dblSerial io, Prod.fst, fun p a => (a, p.2)⟩,
    .field ⟨"upper", Dbl, dblSerial io, Prod.snd, fun p a => (p.1, a)⟩]

/-- `serialize` of the Gaussian priors (cereal/priors.hpp lines 30-49). -/
def momentsSteps (io : Io) : List (Step (Dbl × Dbl)) :=
  [.field ⟨"mu", Dbl, dblSerial io, Prod.fst, fun p a => (a, p.2)⟩,
    .field ⟨"sigma", Dbl, dblSerial io, Prod.snd, fun p a => (p.1, a)⟩]

/-- `PossiblePriors` (core/priors.hpp lines 196-199) in order; the default values are those of the default
constructors. -/
noncomputable def possiblePriors (io : Io) : List Alternative :=
  [⟨Unit, "UninformativePrior", objectSerial io emptyPriorSteps, ()⟩,
    ⟨Unit, "FixedPrior", objectSerial io emptyPriorSteps, ()⟩,
    ⟨Unit, "NonNegativePrior", objectSerial io emptyPriorSteps, ()⟩,
    ⟨Unit, "PositivePrior", objectSerial io emptyPriorSteps, ()⟩,
    ⟨Dbl × Dbl, "UniformPrior", objectSerial io (boundsSteps io), (.fin 0, .fin 1)⟩,
    ⟨Dbl × Dbl, "LogScaleUniformPrior", objectSerial io (boundsSteps io), (.fin (10⁻¹ ^ 12), .fin (10 ^ 12))⟩,
    ⟨Dbl × Dbl, "GaussianPrior", objectSerial io (momentsSteps io), (.fin 0, .fin 1)⟩,
    ⟨Dbl × Dbl, "LogNormalPrior", objectSerial io (momentsSteps io), (.fin 0, .fin 1)⟩,
    ⟨Dbl × Dbl, "PositiveGaussianPrior", objectSerial io (momentsSteps io), (.fin 0, .fin 1)⟩]

/-- The prior a `PossiblePriors` holds. -/
def Prior.ofVariant (io : Io) : Variant (possiblePriors io) → Prior
  | ⟨⟨0, _⟩, _⟩ => .uninformative
  | ⟨⟨1, _⟩, _⟩ => .fixed
  | ⟨⟨2, _⟩, _⟩ => .nonNegative
  | ⟨⟨3, _⟩, _⟩ => .positive
  | ⟨⟨4, _⟩, p⟩ => .uniform p.1 p.2
  | ⟨⟨5, _⟩, p⟩ => .logScaleUniform p.1 p.2
  | ⟨⟨6, _⟩, p⟩ => .gaussian p.1 p.2
  | ⟨⟨7, _⟩, p⟩ => .logNormal p.1 p.2
  | ⟨⟨8, _⟩, p⟩ => .positiveGaussian p.1 p.2
  | ⟨⟨_ + 9, h⟩, _⟩ => absurd h (by simp [possiblePriors])

/-- The `PossiblePriors` that holds a prior. -/
noncomputable def Prior.toVariant (io : Io) : Prior → Variant (possiblePriors io)
  | .uninformative => ⟨⟨0, by simp [possiblePriors]⟩, ()⟩
  | .fixed => ⟨⟨1, by simp [possiblePriors]⟩, ()⟩
  | .nonNegative => ⟨⟨2, by simp [possiblePriors]⟩, ()⟩
  | .positive => ⟨⟨3, by simp [possiblePriors]⟩, ()⟩
  | .uniform l u => ⟨⟨4, by simp [possiblePriors]⟩, (l, u)⟩
  | .logScaleUniform l u => ⟨⟨5, by simp [possiblePriors]⟩, (l, u)⟩
  | .gaussian m s => ⟨⟨6, by simp [possiblePriors]⟩, (m, s)⟩
  | .logNormal m s => ⟨⟨7, by simp [possiblePriors]⟩, (m, s)⟩
  | .positiveGaussian m s => ⟨⟨8, by simp [possiblePriors]⟩, (m, s)⟩

/-- `serialize` of `PriorContainer` (cereal/priors.hpp lines 51-55). -/
noncomputable def priorSteps (io : Io) : List (Step Prior) :=
  [.field ⟨"container", Variant (possiblePriors io), variantSerial io variantVersion (possiblePriors io),
    Prior.toVariant io, fun _ v => Prior.ofVariant io v⟩]

/-- `serialize` of `Parameter` (cereal/parameters.hpp lines 18-23). -/
noncomputable def parameterSteps (io : Io) : List (Step Parameter) :=
  [.field ⟨"value", Dbl, dblSerial io, Parameter.value, fun p a => { p with value := a }⟩,
    .field ⟨"prior", Prior, objectSerial io (priorSteps io), Parameter.prior, fun p a => { p with prior := a }⟩]

/-- A default constructed `Parameter` (core/parameters.hpp line 32). -/
def Parameter.init : Parameter := ⟨.fin 0, .uninformative⟩

/-- A `ParameterStore`. -/
noncomputable def storeSerial (io : Io) : Serial ParameterStore :=
  mapSerial io (stringSerial io) (objectSerial io (parameterSteps io)) ("", Parameter.init)

/-! ## Eigen objects -/

/-- A dense matrix (cereal/eigen.hpp lines 18-70, see `saveDense` and `loadDense`). -/
def denseSerial {α : Type} (io : Io) (rep : ScalarRep α) : Serial (Stored α) where
  save m := .ok (.dense (saveDense io.zstd io.base64 rep io.text m), m)
  load _ f := match f with
    | .dense a => loadDense io.b io.zstd io.gzip io.base64 rep io.text (io.uninit (rep.width * (a.rows * a.cols))) a
    | _ => .error (confused io.text)

/-- `Eigen::Transpositions` and `Eigen::PermutationMatrix` through their `indices()` (cereal/eigen.hpp lines
72-115). -/
def indicesSteps {ι : Type} (io : Io) (rep : ScalarRep ι) : List (Step (Stored ι)) :=
  [.field ⟨"indices", Stored ι, denseSerial io rep, id, fun _ a => a⟩]

/-- `Eigen::DiagonalMatrix` through its `diagonal()`, which has no name (cereal/eigen.hpp lines 117-122). -/
def diagonalSteps {α : Type} (io : Io) (rep : ScalarRep α) : List (Step (Stored α)) :=
  [.field ⟨autoName 0, Stored α, denseSerial io rep, id, fun _ a => a⟩]

/-- The members of `Eigen::LDLT` that matter: the factors in one matrix, the transpositions, whether it has been
computed; and those that are not serialised, the norm used by `rcond()` and the sign used by `isPositive()`
(eigen/serializable_ldlt.hpp lines 19-53). -/
structure LdltObject (α ι : Type) where
  matrix : Stored α
  transpositions : Stored ι
  isInitialized : Bool
  l1Norm : α
  sign : Int

/-- `save_lower_triangle` and `load_lower_triangle` (cereal/eigen.hpp lines 124-163) as a member; `junk` is what
the matrix holds above the diagonal after `resize`. -/
noncomputable def lowerTriangleSerial {α : Type} (io : Io) (rep : ScalarRep α) (junk : Nat → Nat → α) :
    Serial (Stored α) where
  save m := do
    let a ← saveLowerTriangle io.b io.zstd io.base64 rep io.text m
    pure (.dense a, m)
  load _ f := match f with
    | .dense a => loadLowerTriangle io.b io.zstd io.gzip io.base64 rep io.text
        (io.uninit (rep.width * (a.rows * a.cols))) junk a
    | _ => .error (confused io.text)

/-- `save` and `load` of `SerializableLDLT` (cereal/serializable_ldlt.hpp lines 18-32), which agree on the names
and their order. -/
noncomputable def ldltSteps {α ι : Type} (io : Io) (rep : ScalarRep α) (irep : ScalarRep ι) (junk : Nat → Nat → α) :
    List (Step (LdltObject α ι)) :=
  [.field ⟨"lower_triangle", Stored α, lowerTriangleSerial io rep junk, LdltObject.matrix,
      fun s a => { s with matrix := a }⟩,
    .field ⟨"transpositions", Stored ι, objectSerial io (indicesSteps io irep), LdltObject.transpositions,
      fun s a => { s with transpositions := a }⟩,
    .field ⟨"is_initialized", Bool, flagSerial io, LdltObject.isInitialized,
      fun s a => { s with isInitialized := a }⟩]

/-- `l1_norm()` (eigen/serializable_ldlt.hpp lines 50-53). -/
def LdltObject.norm {α ι : Type} (b : Build) (s : LdltObject α ι) : Outcome α := do
  albatrossAssert b s.isInitialized
  pure s.l1Norm

/-! ## Distributions, datasets and linear combinations -/

/-- `Metadata` and `Insights`: maps from strings to strings. -/
abbrev StringMap := SMap String String

/-- A map from strings to strings. -/
def stringMapSerial (io : Io) : Serial StringMap := mapSerial io (stringSerial io) (stringSerial io) ("", "")

/-- A distribution with its covariance `κ`: the diagonal or the matrix. -/
structure DistObject (α : Type) where
  mean : Stored α
  covariance : Stored α
  metadata : StringMap

/-- `serialize` of distributions (cereal/distribution.hpp lines 18-32); `cov` is how the covariance is written. -/
def distSteps {α : Type} (io : Io) (rep : ScalarRep α) (cov : Serial (Stored α)) : List (Step (DistObject α)) :=
  [.field ⟨"mean", Stored α, denseSerial io rep, DistObject.mean, fun s a => { s with mean := a }⟩,
    .field ⟨"covariance", Stored α, cov, DistObject.covariance, fun s a => { s with covariance := a }⟩,
    .field ⟨"metadata", StringMap, stringMapSerial io, DistObject.metadata, fun s a => { s with metadata := a }⟩]

/-- `MarginalDistribution`. -/
def marginalSerial {α : Type} (io : Io) (rep : ScalarRep α) : Serial (DistObject α) :=
  objectSerial io (distSteps io rep (objectSerial io (diagonalSteps io rep)))

/-- `JointDistribution`. -/
def jointSerial {α : Type} (io : Io) (rep : ScalarRep α) : Serial (DistObject α) :=
  objectSerial io (distSteps io rep (denseSerial io rep))

/-- `RegressionDataset`. -/
structure DatasetObject (X α : Type) where
  features : List X
  targets : DistObject α
  metadata : StringMap

/-- `serialize` of a dataset (cereal/dataset.hpp lines 22-30). -/
def datasetSteps {X α : Type} (io : Io) (rep : ScalarRep α) (c : Serial X) (init : X) :
    List (Step (DatasetObject X α)) :=
  [.field ⟨"features", List X, vectorSerial io c init, DatasetObject.features, fun s a => { s with features := a }⟩,
    .field ⟨"targets", DistObject α, marginalSerial io rep, DatasetObject.targets,
      fun s a => { s with targets := a }⟩,
    .field ⟨"metadata", StringMap, stringMapSerial io, DatasetObject.metadata,
      fun s a => { s with metadata := a }⟩]

/-- `LinearCombination`. -/
structure ComboObject (X α : Type) where
  values : List X
  coefficients : Stored α

/-- `serialize` of a linear combination (cereal/gp.hpp lines 80-85). -/
def comboSteps {X α : Type} (io : Io) (rep : ScalarRep α) (c : Serial X) (init : X) :
    List (Step (ComboObject X α)) :=
  [.field ⟨"values", List X, vectorSerial io c init, ComboObject.values, fun s a => { s with values := a }⟩,
    .field ⟨"coefficients", Stored α, denseSerial io rep, ComboObject.coefficients,
      fun s a => { s with coefficients := a }⟩]

/-! ## Covariance representations -/

/-- `BlockSymmetric`. -/
structure BlockObject (S L α : Type) where
  A : S
  aiB : Stored α
  schur : L

/-- `serialize` of `BlockSymmetric` (cereal/block_utils.hpp lines 18-25). -/
def blockSteps {S L α : Type} (io : Io) (rep : ScalarRep α) (solver : Serial S) (ldlt : Serial L) :
    List (Step (BlockObject S L α)) :=
  [.field ⟨"A", S, solver, BlockObject.A, fun s a => { s with A := a }⟩,
    .field ⟨"Ai_B", Stored α, denseSerial io rep, BlockObject.aiB, fun s a => { s with aiB := a }⟩,
    .field ⟨"S", L, ldlt, BlockObject.schur, fun s a => { s with schur := a }⟩]

/-- `ExplainedCovariance`. -/
structure ExplainedObject (L α : Type) where
  outer : L
  inner : Stored α

/-- `serialize` of `ExplainedCovariance` (cereal/representations.hpp lines 18-24). -/
def explainedSteps {L α : Type} (io : Io) (rep : ScalarRep α) (ldlt : Serial L) : List (Step (ExplainedObject L α)) :=
  [.field ⟨"outer_ldlt", L, ldlt, ExplainedObject.outer, fun s a => { s with outer := a }⟩,
    .field ⟨"inner", Stored α, denseSerial io rep, ExplainedObject.inner, fun s a => { s with inner := a }⟩]

/-- `serialize` of `DirectInverse` (cereal/representations.hpp lines 26-30). -/
def directSteps {α : Type} (io : Io) (rep : ScalarRep α) : List (Step (Stored α)) :=
  [.field ⟨"inverse", Stored α, denseSerial io rep, id, fun _ a => a⟩]

/-! ## Fits and models -/

/-- `Fit<GPFit>`. -/
structure GpFitObject (C X α : Type) where
  features : List X
  covariance : C
  information : Stored α

/-- `serialize` of `Fit<GPFit>` (cereal/gp.hpp lines 28-36). -/
def gpFitSteps {C X α : Type} (io : Io) (rep : ScalarRep α) (cov : Serial C) (c : Serial X) (init : X) :
    List (Step (GpFitObject C X α)) :=
  [.field ⟨"information", Stored α, denseSerial io rep, GpFitObject.information,
      fun s a => { s with information := a }⟩,
    .field ⟨"train_ldlt", C, cov, GpFitObject.covariance, fun s a => { s with covariance := a }⟩,
    .field ⟨"train_features", List X, vectorSerial io c init, GpFitObject.features,
      fun s a => { s with features := a }⟩]

/-- `Fit<SparseGPFit>` (models/sparse_gp.hpp lines 93-123). -/
structure SparseFitObject (L X α ι : Type) where
  features : List X
  covariance : L
  R : Stored α
  P : Stored ι
  information : Stored α
  numericalRank : Int

/-- `serialize` of `Fit<SparseGPFit>` (cereal/gp.hpp lines 38-52). -/
def sparseFitSteps {L X α ι : Type} (io : Io) (version : Nat) (rep : ScalarRep α) (irep : ScalarRep ι) (cov : Serial L)
    (c : Serial X) (init : X) : List (Step (SparseFitObject L X α ι)) :=
  [.field ⟨"information", Stored α, denseSerial io rep, SparseFitObject.information,
      fun s a => { s with information := a }⟩,
    .field ⟨"train_covariance", L, cov, SparseFitObject.covariance, fun s a => { s with covariance := a }⟩,
    .field ⟨"train_features", List X, vectorSerial io c init, SparseFitObject.features,
      fun s a => { s with features := a }⟩,
    .field ⟨"R", Stored α, denseSerial io rep, SparseFitObject.R, fun s a => { s with R := a }⟩,
    .field ⟨"P", Stored ι, objectSerial io (indicesSteps io irep), SparseFitObject.P, fun s a => { s with P := a }⟩] ++
  (if 1 < version then
    [.field ⟨"numerical_rank", Int, intSerial io, SparseFitObject.numericalRank,
      fun s a => { s with numericalRank := a }⟩]
  else [.assign fun s => { s with numericalRank := -1 }])

/-- The version cereal uses for a class: the static member `serialization_version`, or 0 without one
(cereal/traits.hpp lines 71-105). -/
def classVersion (declared : Option Nat) : Nat := declared.getD 0

/-- `Fit<SparseGPFit>` declares no `serialization_version` (models/sparse_gp.hpp lines 93-123); the macro
`GP_SERIALIZATION_VERSION` (cereal/gp.hpp lines 22-24) is not used anywhere. -/
def sparseFitDeclared : Option Nat := none

/-- `GaussianProcessBase::serialization_version` (models/gp.hpp line 230). -/
def gpDeclared : Option Nat := some 1

/-- A model: its parameters, its insights, its name, and everything else it was constructed with (strategies,
thresholds, the thread pool). -/
structure ModelObject (T : Type) where
  handler : Handler
  insights : StringMap
  name : String
  rest : T

/-- `save` and `load` of a model (cereal/model.hpp lines 20-33). -/
noncomputable def modelSerial {T : Type} (io : Io) : Serial (ModelObject T) where
  save m := do
    let (params, _) ← (storeSerial io).save m.handler.getParams
    let (insights, _) ← (stringMapSerial io).save m.insights
    pure (.node [("params", params), ("insights", insights)], m)
  load m f := do
    let ms ← membersOf io.text f
    let (f, r) ← (Reader.start ms).next io.text "params"
    let params ← (storeSerial io).load [] f
    let handler ← m.handler.setAll io.b params
    let (f, _) ← r.next io.text "insights"
    let insights ← (stringMapSerial io).load m.insights f
    pure { m with handler := handler, insights := insights }

/-- `save` and `load` of a Gaussian process (cereal/gp.hpp lines 54-78): the name is always saved, and loaded for
versions above 0. -/
noncomputable def gpSerial {T : Type} (io : Io) (version : Nat) : Serial (ModelObject T) where
  save m := do
    let (name, _) ← (stringSerial io).save m.name
    let (params, _) ← (storeSerial io).save m.handler.getParams
    let (insights, _) ← (stringMapSerial io).save m.insights
    pure (.node [("name", name), ("params", params), ("insights", insights)], m)
  load m f := do
    let ms ← membersOf io.text f
    let (name, r) ← (if 0 < version then readName io.text "name" (Reader.start ms) else .ok (m.name, Reader.start ms))
    let (f, r) ← r.next io.text "params"
    let params ← (storeSerial io).load [] f
    let handler ← m.handler.setAll io.b params
    let (f, _) ← r.next io.text "insights"
    let insights ← (stringMapSerial io).load m.insights f
    pure { m with name := name, handler := handler, insights := insights }

/-- `serialize` of `FitModel` (cereal/fit_model.hpp lines 18-24). -/
def fitModelSteps {M F : Type} (model : Serial M) (fit : Serial F) : List (Step (M × F)) :=
  [.field ⟨"model", M, model, Prod.fst, fun s a => (a, s.2)⟩, .field ⟨"fit", F, fit, Prod.snd, fun s a => (s.1, a)⟩]

/-- `serialize` of `Fit<LeastSquares>` (cereal/least_squares.hpp lines 21-25); the coefficients have no name. -/
def leastSquaresSteps {α : Type} (io : Io) (rep : ScalarRep α) : List (Step (Stored α)) :=
  [.field ⟨autoName 0, Stored α, denseSerial io rep, id, fun _ a => a⟩]

/-! ## RANSAC -/

/-- `RansacIteration`. -/
structure IterationObject (κ : Type) where
  candidates : List κ
  inliers : SMap κ Dbl
  outliers : SMap κ Dbl
  consensus : Dbl

/-- `serialize` of `RansacIteration` (cereal/ransac.hpp lines 26-35). -/
def iterationSteps {κ : Type} [LT κ] [DecidableLT κ] [DecidableEq κ] (io : Io) (k : Serial κ) (init : κ) :
    List (Step (IterationObject κ)) :=
  [.field ⟨"candidates", List κ, vectorSerial io k init, IterationObject.candidates,
      fun s a => { s with candidates := a }⟩,
    .field ⟨"inliers", SMap κ Dbl, mapSerial io k (dblSerial io) (init, .fin 0), IterationObject.inliers,
      fun s a => { s with inliers := a }⟩,
    .field ⟨"outliers", SMap κ Dbl, mapSerial io k (dblSerial io) (init, .fin 0), IterationObject.outliers,
      fun s a => { s with outliers := a }⟩,
    .field ⟨"consensus_metric_value", Dbl, dblSerial io, IterationObject.consensus,
      fun s a => { s with consensus := a }⟩]

/-- `RansacOutput`. -/
structure RansacOutputObject (κ : Type) where
  returnCode : Int
  best : IterationObject κ
  iterations : List (IterationObject κ)

/-- `serialize` of `RansacOutput` (cereal/ransac.hpp lines 37-43). -/
def ransacOutputSteps {κ : Type} [LT κ] [DecidableLT κ] [DecidableEq κ] (io : Io) (k : Serial κ) (init : κ) :
    List (Step (RansacOutputObject κ)) :=
  [.field ⟨"return_code", Int, intSerial io, RansacOutputObject.returnCode, fun s a => { s with returnCode := a }⟩,
    .field ⟨"best", IterationObject κ, objectSerial io (iterationSteps io k init), RansacOutputObject.best,
      fun s a => { s with best := a }⟩,
    .field ⟨"iterations", List (IterationObject κ),
      vectorSerial io (objectSerial io (iterationSteps io k init)) ⟨[], [], [], .nan⟩, RansacOutputObject.iterations,
      fun s a => { s with iterations := a }⟩]

/-- `serialize` of `Fit<RansacFit>` (cereal/ransac.hpp lines 45-53); `fit` is how the variant goes through an
archive. -/
def ransacFitSteps {V κ : Type} [LT κ] [DecidableLT κ] [DecidableEq κ] (io : Io) (fit : Serial V) (k : Serial κ)
    (init : κ) : List (Step (V × RansacOutputObject κ)) :=
  [.field ⟨"maybe_empty_fit_model", V, fit, Prod.fst, fun s a => (a, s.2)⟩,
    .field ⟨"ransac_output", RansacOutputObject κ, objectSerial io (ransacOutputSteps io k init), Prod.snd,
      fun s a => (s.1, a)⟩]

/-! ## Thread pools and metrics -/

/-- `save` of a thread pool (cereal/ThreadPool.hpp lines 22-29): `none` is the null pointer, `some n` a pool of
`n` threads. -/
def saveThreadPool : Option Nat → Nat
  | none => 0
  | some n => n

/-- `load` of a thread pool (cereal/ThreadPool.hpp lines 31-40). -/
def loadThreadPool (n : Nat) : Option Nat := if n = 0 ∨ n = 1 then none else some n

/-- Metrics are not saved (cereal/evaluation.hpp lines 21-27). -/
def metricSteps (σ : Type) : List (Step σ) := []

end Albatross
