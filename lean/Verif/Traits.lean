import Verif.Basic

/-! # Model of the type traits

details/traits.hpp lines 46-49, 88-188 and 199-304, covariance_functions/traits.hpp lines 25-54, 78-82, 113-222 and 233-241, core/concatenate.hpp
lines 19-62 and 64-142, utils/variant_utils.hpp lines 26-54 and utils/map_utils.hpp lines 405-531: decisions taken by the
compiler from types alone.  A template specialisation is a case of a function on types. -/

namespace Albatross

/-- Templates with one parameter which the traits look for. -/
inductive CppWrapper
  | vector | measurement | linearCombination
  deriving DecidableEq

/-- Types: classes told apart by a number, wrapped types and variants. -/
inductive CppType
  | named (n : Nat)
  | wrap (w : CppWrapper) (t : CppType)
  | variant (ts : List CppType)

mutual

/-- Types are compared by their parts. -/
def CppType.decEq : (a b : CppType) → Decidable (a = b)
  | .named n, .named m => if h : n = m then isTrue (h ▸ rfl) else isFalse fun e => h (CppType.named.inj e)
  | .named _, .wrap .. => isFalse nofun
  | .named _, .variant _ => isFalse nofun
  | .wrap .., .named _ => isFalse nofun
  | .wrap w s, .wrap v t =>
    if h : w = v then
      match CppType.decEq s t with
      | isTrue h' => isTrue (h ▸ h' ▸ rfl)
      | isFalse h' => isFalse fun e => h' (CppType.wrap.inj e).2
    else isFalse fun e => h (CppType.wrap.inj e).1
  | .wrap .., .variant _ => isFalse nofun
  | .variant _, .named _ => isFalse nofun
  | .variant _, .wrap .. => isFalse nofun
  | .variant ss, .variant ts =>
    match CppType.decEqList ss ts with
    | isTrue h => isTrue (h ▸ rfl)
    | isFalse h => isFalse fun e => h (CppType.variant.inj e)

/-- Lists of types are compared one by one. -/
def CppType.decEqList : (a b : List CppType) → Decidable (a = b)
  | [], [] => isTrue rfl
  | [], _ :: _ => isFalse nofun
  | _ :: _, [] => isFalse nofun
  | s :: ss, t :: ts =>
    match CppType.decEq s t with
    | isFalse h => isFalse fun e => h (List.cons.inj e).1
    | isTrue h =>
      match CppType.decEqList ss ts with
      | isTrue h' => isTrue (h ▸ h' ▸ rfl)
      | isFalse h' => isFalse fun e => h' (List.cons.inj e).2

end

instance : DecidableEq CppType := CppType.decEq

/-- `is_variant` (details/traits.hpp lines 199-210). -/
def CppType.isVariant : CppType → Bool
  | .variant _ => true
  | _ => false

/-- `is_measurement` (details/traits.hpp lines 199-203, 216-217). -/
def CppType.isMeasurement : CppType → Bool
  | .wrap .measurement _ => true
  | _ => false

/-- `is_vector` (details/traits.hpp lines 46-49). -/
def CppType.isVector : CppType → Bool
  | .wrap .vector _ => true
  | _ => false

/-- `is_basic_type` (covariance_functions/traits.hpp lines 233-241). -/
def CppType.isBasic : CppType → Bool
  | .wrap .linearCombination _ => false
  | .wrap .measurement _ => false
  | .variant _ => false
  | _ => true

/-- `is_in_variant` for the alternatives of a variant (details/traits.hpp lines 241-251). -/
def isInAlternatives (t : CppType) : List CppType → Bool
  | [] => false
  | [a] => decide (t = a)
  | a :: ts => decide (t = a) || isInAlternatives t ts

/-- `is_in_variant` (details/traits.hpp lines 241-251). -/
def isInVariant (t : CppType) : CppType → Bool
  | .variant ts => isInAlternatives t ts
  | _ => false

/-- `variant_any` (details/traits.hpp lines 256-270): the specialisations require the first type not to be a variant. -/
def variantAny (e : CppType → Bool) : List CppType → Bool
  | [] => false
  | [a] => if a.isVariant then false else e a
  | a :: ts => if a.isVariant then false else e a || variantAny e ts

/-- `variant_all` (details/traits.hpp lines 275-289). -/
def variantAll (e : CppType → Bool) : List CppType → Bool
  | [] => true
  | [a] => if a.isVariant then true else e a
  | a :: ts => if a.isVariant then true else e a && variantAll e ts

/-- `is_sub_variant` (details/traits.hpp lines 294-303). -/
def isSubVariant : CppType → CppType → Bool
  | .variant ts, y => variantAll (fun t => isInVariant t y) ts
  | _, _ => false

/-- `internal::concatenation_type` (core/concatenate.hpp lines 19-58). -/
def concatenationType (x y : CppType) : CppType :=
  if x = y then x
  else
    match x, y with
    | .variant _, .variant _ => .variant [x, y]
    | x, .variant ts => if isInVariant x (.variant ts) then .variant ts else .variant (x :: ts)
    | .variant ts, y => if isInVariant y (.variant ts) then .variant ts else .variant (ts ++ [y])
    | x, y => .variant [x, y]

/-- The element type of `concatenate` for two vectors (core/concatenate.hpp lines 64-142); `none`: there is no overload. -/
def concatenateElement (x y : CppType) : Option CppType :=
  if x = y then some x
  else if x.isVariant && y.isVariant then none
  else some (concatenationType x y)

/-- The overloads of `set_variant` (utils/variant_utils.hpp lines 26-54). -/
inductive SetVariant
  | convert | assign | refuse | missing
  deriving DecidableEq

/-- The overload of `set_variant` taken for a value of a type and the alternatives of the variant to set
(utils/variant_utils.hpp lines 26-54). -/
def setVariantOverload (x : CppType) (ts : List CppType) : SetVariant :=
  if isSubVariant x (.variant ts) then .convert
  else if !x.isVariant && isInVariant x (.variant ts) then .assign
  else if !x.isVariant && !isInVariant x (.variant ts) then .refuse
  else .missing

/-! ## Merging maps -/

/-- How a merge function can be called: with the key and both values, with both values. -/
structure MergeCalls where
  withKey : Bool
  withoutKey : Bool

/-- What becomes of a call of a function with a fallback overload that explains what is wrong: it compiles, the
`static_assert` of the fallback fails, or the compiler stops inside the trait itself. -/
inductive CallFate
  | compiles (withKey : Bool) | explained | broken
  deriving DecidableEq

/-- `map_union_traits` (details/traits.hpp lines 100-116): there is no definition for functions which cannot be called
in either way. -/
def mapUnionTraits : MergeCalls → Option MergeCalls
  | ⟨true, wo⟩ => some ⟨true, wo⟩
  | ⟨false, true⟩ => some ⟨false, true⟩
  | ⟨false, false⟩ => none

/-- `map_intersection_traits` (details/traits.hpp lines 138-165). -/
def mapIntersectionTraits : MergeCalls → MergeCalls
  | ⟨true, wo⟩ => ⟨true, wo⟩
  | ⟨false, true⟩ => ⟨false, true⟩
  | ⟨false, false⟩ => ⟨false, false⟩

/-- `map_union` for maps of the same comparator, keys and values (utils/map_utils.hpp lines 405-472): `enable_if` on
`can_call_map_union_v` (details/traits.hpp lines 118-121), whose members do not exist without traits; `call_map_union`
(lines 123-136) prefers the call with the key. -/
def mapUnionFate (m : MergeCalls) : CallFate :=
  match mapUnionTraits m with
  | none => .broken
  | some t => if t.withKey || t.withoutKey then .compiles t.withKey else .explained

/-- `map_intersect` for maps of the same comparator (utils/map_utils.hpp lines 474-531, `can_call_map_intersection_v` and
`call_map_intersection` of details/traits.hpp lines 167-187). -/
def mapIntersectFate (m : MergeCalls) : CallFate :=
  let t := mapIntersectionTraits m
  if t.withKey || t.withoutKey then .compiles t.withKey else .explained

/-- `can_project_key` (details/traits.hpp lines 88-98): `invocable` is `std::is_invocable_r_v<K, Project, K2>`; the
specialisation asks only whether the type `std::is_invocable_r<K, Project, K2>` exists. -/
def canProjectKey (_invocable : Bool) : Bool := true

/-! ## Implementations of covariance functions -/

/-- How an argument of a method is passed. -/
inductive Passing
  | value | constRef | mutableRef | rvalueRef
  deriving DecidableEq

/-- The one method named `_call_impl` taking the types in question. -/
structure CallImpl where
  isConst : Bool
  params : List Passing
  returnsDouble : Bool

/-- An argument declared `const T &` can be passed. -/
def Passing.takesConst : Passing → Bool
  | .value => true
  | .constRef => true
  | .mutableRef => false
  | .rvalueRef => false

/-- An argument declared `T &` can be passed. -/
def Passing.takesLvalue : Passing → Bool
  | .rvalueRef => false
  | _ => true

/-- `has_valid_call_impl` (covariance_functions/traits.hpp lines 25-28 and details/method_inspection_macros.hpp lines
50-79): called for `const U` with constant references and returning exactly `double`. -/
def CallImpl.valid (f : CallImpl) : Bool := f.isConst && f.params.all Passing.takesConst && f.returnsDouble

/-- `has_possible_call_impl` (covariance_functions/traits.hpp lines 30-31). -/
def CallImpl.possible (f : CallImpl) : Bool := f.params.all Passing.takesLvalue

/-- `has_invalid_call_impl` (covariance_functions/traits.hpp lines 78-82). -/
def CallImpl.invalid (f : CallImpl) : Bool := f.possible && !f.valid

/-! ## Variants of features

`ok` is `has_valid_cov_caller` of the primary template: whether `Caller::call` takes the two types. -/

mutual

/-- `has_valid_cov_caller` (covariance_functions/traits.hpp lines 39-43 and 131-138). -/
def validCovCaller (ok : CppType → CppType → Bool) : CppType → CppType → Bool
  | .variant ts, .variant ys => validForAll ok ts && validForAll ok ys
  | a, b => ok a b
termination_by a b => max (sizeOf a) (sizeOf b)

/-- `has_valid_cov_caller_for_all_variants` for the alternatives (covariance_functions/traits.hpp lines 113-125). -/
def validForAll (ok : CppType → CppType → Bool) : List CppType → Bool
  | [] => false
  | [a] => validCovCaller ok a a
  | a :: b :: ts => validCovCaller ok a a && validForAll ok (b :: ts)
termination_by ts => sizeOf ts

end

/-- `has_valid_cross_cov_caller` (covariance_functions/traits.hpp lines 48-54 and 144-156). -/
def validCrossCaller (ok : CppType → CppType → Bool) (a : CppType) : CppType → Bool
  | .variant [b] => validCrossCaller ok a b
  | .variant (b :: c :: ts) =>
    validForAll ok (b :: c :: ts) && (validCrossCaller ok a b || validCrossCaller ok a (.variant (c :: ts)))
  | b => validCovCaller ok a a && validCovCaller ok a b && validCovCaller ok b b
termination_by b => sizeOf b

/-- Some alternative on the right is accepted (covariance_functions/traits.hpp lines 166-178). -/
def validAnyRight (ok : CppType → CppType → Bool) (a : CppType) : List CppType → Bool
  | [] => false
  | [b] => validCovCaller ok a b
  | b :: ts => validCovCaller ok a b || validAnyRight ok a ts

/-- Some alternative on the left is accepted (covariance_functions/traits.hpp lines 181-193). -/
def validAnyLeft (ok : CppType → CppType → Bool) (b : CppType) : List CppType → Bool
  | [] => false
  | [a] => validCovCaller ok a b
  | a :: ts => validCovCaller ok a b || validAnyLeft ok b ts

/-- `has_valid_variant_cov_caller` (covariance_functions/traits.hpp lines 160-199). -/
def validVariantCaller (ok : CppType → CppType → Bool) : CppType → CppType → Bool
  | .variant ts, .variant ys => if ts = ys then validCovCaller ok (.variant ts) (.variant ys) else false
  | .variant ts, b => validAnyLeft ok b ts
  | a, .variant ys => validAnyRight ok a ys
  | _, _ => false

/-- `has_valid_variant_mean_caller` for the alternatives (covariance_functions/traits.hpp lines 204-222). -/
def validVariantMean (ok : CppType → Bool) : List CppType → Bool
  | [] => false
  | [a] => if a.isVariant then false else ok a
  | a :: ts => if a.isVariant then false else ok a || validVariantMean ok ts

end Albatross
