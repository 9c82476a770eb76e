import Verif.Indexing

/-! # Model of utils/variant_utils.hpp -/

namespace Albatross

/-- A value of `variant<ts...>` (mapbox): one of the listed types and a value of it.  `El` gives the values of a
type.  (The types of a variant are different from each other, so the type determines the alternative.) -/
structure VariantVal {τ : Type} (El : τ → Type) (ts : List τ) where
  tag : τ
  mem : tag ∈ ts
  val : El tag

variable {τ : Type} {El : τ → Type} {ts us : List τ}

/-- `set_variant` for a sub variant (utils/variant_utils.hpp lines 26-35): the variant after the call. -/
def setVariantSub (h : ∀ t ∈ us, t ∈ ts) (x : VariantVal El us) (_toSet : VariantVal El ts) : VariantVal El ts :=
  ⟨x.tag, h _ x.mem, x.val⟩

/-- `set_variant` for a value of one of the types (utils/variant_utils.hpp lines 40-45). -/
def setVariantValue {t : τ} (h : t ∈ ts) (x : El t) (_toSet : VariantVal El ts) : VariantVal El ts := ⟨t, h, x⟩

/-- `vector::resize` (C++ library): `fill` is a default constructed element. -/
def stdResize {α : Type} (xs : List α) (n : Nat) (fill : α) : List α :=
  xs.take n ++ List.replicate (n - xs.length) fill

/-- `set_variants` (utils/variant_utils.hpp lines 59-66): the vector after the call, `set` is the `set_variant`
chosen by overload resolution. -/
def setVariants {X V : Type} (set : X → V → V) (fill : V) (xs : List X) (toSet : List V) : Outcome (List V) :=
  (List.range xs.length).foldlM (fun out i => do
    let x ← vecGet xs i
    let old ← vecGet out i
    pure (out.set i (set x old))) (stdResize toSet xs.length fill)

/-- `to_variant_vector` (utils/variant_utils.hpp lines 68-76). -/
def toVariantVector {X V : Type} (set : X → V → V) (fill : V) (xs : List X) : Outcome (List V) :=
  setVariants set fill xs []

variable [DecidableEq τ]

/-- `x.match([](const OutputType &f) {...}, [](const auto &) {})`: the value, if it is of the type. -/
def VariantVal.get? (t : τ) (x : VariantVal El ts) : Option (El t) := if h : x.tag = t then some (h ▸ x.val) else none

/-- `extract_from_variants` for vectors (utils/variant_utils.hpp lines 78-92). -/
def extractFromVariants (t : τ) (xs : List (VariantVal El ts)) : List (El t) :=
  xs.foldl (fun output x => match x.get? t with
    | some f => output ++ [f]
    | none => output) []

/-- The body of the loop of `extract_from_variants` for datasets (utils/variant_utils.hpp lines 104-109): the
indices and features so far. -/
def extractStep (t : τ) (fs : List (VariantVal El ts)) (out : List Nat × List (El t)) (i : Nat) :
    Outcome (List Nat × List (El t)) := do
  let x ← vecGet fs i
  match x.get? t with
    | some f => pure (out.1 ++ [i], out.2 ++ [f])
    | none => pure out

/-- `extract_from_variants` for datasets (utils/variant_utils.hpp lines 94-113). -/
def extractFromVariantsDataset {R : Type} (b : Build) (t : τ) (dataset : Dataset (VariantVal El ts) R) :
    Outcome (Dataset (El t) R) := do
  let (indices, features) ← (List.range dataset.features.length).foldlM (extractStep t dataset.features) ([], [])
  let mean ← subset b dataset.mean indices
  let variance ← subset b dataset.variance indices
  mkDataset b features mean variance

end Albatross
