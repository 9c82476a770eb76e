import Verif.NumberText

/-! # Model of the text and the equality of priors and parameters

`get_name` and the comparison operators of core/priors.hpp, and `pretty_params`, `pretty_priors`, `pretty_param_details`
and the comparison operators of core/parameters.hpp.  A character is one byte of a `std::string`; the sign of zero
(`-0` is printed with its sign) is not modelled, nor the conversion of a name's length to `int`. -/

namespace Albatross

/-- `<<` of a double on a new stream: six significant digits. -/
noncomputable def defaultText : Dbl → List Char := generalText 6

/-- `name[a,b]`, written by `get_name` (core/priors.hpp lines 83-87, 112-116, 129-133, 157-161, 180-184). -/
noncomputable def twoArgName (kind : List Char) (a b : Dbl) : List Char :=
  kind ++ '[' :: defaultText a ++ ',' :: defaultText b ++ [']']

/-- `get_name` (core/priors.hpp lines 46, 52, 61, 71, 83-87, 112-116, 129-133, 157-161, 180-184, 224-226). -/
noncomputable def Prior.name : Prior → List Char
  | uninformative => ['u', 'n', 'i', 'n', 'f', 'o', 'r', 'm', 'a', 't', 'i', 'v', 'e']
  | fixed => ['f', 'i', 'x', 'e', 'd']
  | nonNegative => ['n', 'o', 'n', '_', 'n', 'e', 'g', 'a', 't', 'i', 'v', 'e']
  | positive => ['p', 'o', 's', 'i', 't', 'i', 'v', 'e']
  | uniform l u => twoArgName ['u', 'n', 'i', 'f', 'o', 'r', 'm'] l u
  | logScaleUniform l u => twoArgName ['l', 'o', 'g', '_', 's', 'c', 'a', 'l', 'e', '_', 'u', 'n', 'i', 'f', 'o',
    'r', 'm'] l u
  | gaussian mu sigma => twoArgName ['g', 'a', 'u', 's', 's', 'i', 'a', 'n'] mu sigma
  | logNormal mu sigma => twoArgName ['l', 'o', 'g', '_', 'n', 'o', 'r', 'm', 'a', 'l'] mu sigma
  | positiveGaussian mu sigma => twoArgName ['p', 'o', 's', 'i', 't', 'i', 'v', 'e', '_', 'g', 'a', 'u', 's', 's',
    'i', 'a', 'n'] mu sigma

/-- `a == b` of two doubles. -/
noncomputable def dblEqual (a b : Dbl) : Bool := decide (a = b ∧ a ≠ .nan)

/-- `PriorContainer::operator==` (core/priors.hpp lines 244-246): the variant compares the alternatives it holds and
then calls the alternative's operator, which is `Prior::operator==` (lines 38-40) unless the class has its own (lines
125-127, 149-151, 176-178). -/
noncomputable def Prior.equal : Prior → Prior → Bool
  | uninformative, uninformative => decide (Prior.name uninformative = Prior.name uninformative)
  | fixed, fixed => decide (Prior.name fixed = Prior.name fixed)
  | nonNegative, nonNegative => decide (Prior.name nonNegative = Prior.name nonNegative)
  | positive, positive => decide (Prior.name positive = Prior.name positive)
  | uniform l u, uniform l' u' => decide ((uniform l u).name = (uniform l' u').name)
  | logScaleUniform l u, logScaleUniform l' u' => decide ((logScaleUniform l u).name = (logScaleUniform l' u').name)
  | gaussian m s, gaussian m' s' => dblEqual m' m && dblEqual s' s
  | logNormal m s, logNormal m' s' => dblEqual m' m && dblEqual s' s
  | positiveGaussian m s, positiveGaussian m' s' => dblEqual m' m && dblEqual s' s
  | _, _ => false

/-- `operator!=` of `PriorContainer`, inherited from `Prior` (core/priors.hpp lines 38-41): compares the names. -/
noncomputable def Prior.notEqual (a b : Prior) : Bool := !decide (a.name = b.name)

/-- `Parameter::operator==` (core/parameters.hpp lines 48-50). -/
noncomputable def Parameter.equal (p q : Parameter) : Bool := dblEqual p.value q.value && p.prior.equal q.prior

/-- `Parameter::operator!=` (core/parameters.hpp line 52). -/
noncomputable def Parameter.notEqual (p q : Parameter) : Bool := !p.equal q

/-- `operator==` of two `std::map`s of parameters: the sizes, then the entries in order. -/
noncomputable def storesEqual : ParameterStore → ParameterStore → Bool
  | [], [] => true
  | p :: ps, q :: qs => (decide (p.1 = q.1) && p.2.equal q.2) && storesEqual ps qs
  | _, _ => false

/-- The line of one parameter (core/parameters.hpp lines 75-76). -/
noncomputable def paramLine (kv : String × Parameter) : List Char :=
  [' ', ' ', ' ', ' ', '{', '"'] ++ kv.1.toList ++ ['"', ',', ' '] ++ sciText 13 kv.2.value ++ ['}', ',', '\n']

/-- `pretty_params` (core/parameters.hpp lines 69-80): 12 digits after the point. -/
noncomputable def prettyParams (params : ParameterStore) : List Char :=
  params.foldl (fun ss kv => ss ++ paramLine kv) ['{', '\n'] ++ ['}', ';', '\n']

/-- The line of one prior (core/parameters.hpp lines 86-88). -/
noncomputable def priorLine (kv : String × Parameter) : List Char :=
  [' ', ' ', ' ', ' ', '"'] ++ kv.1.toList ++ ['"', ':', ' '] ++ kv.2.prior.name ++ ['\n']

/-- `pretty_priors` (core/parameters.hpp lines 82-91). -/
noncomputable def prettyPriors (params : ParameterStore) : List Char :=
  params.foldl (fun ss kv => ss ++ priorLine kv) ['P', 'R', 'I', 'O', 'R', 'S', ':', '\n']

/-- `<< std::left << std::setw(n) << text`. -/
def padRight (n : Nat) (t : List Char) : List Char := t ++ List.replicate (n - t.length) ' '

/-- `std::max_element` with `compare_size` (core/parameters.hpp lines 96-101): the first longest name; dereferencing
the end of an empty map is undefined. -/
def longestName : ParameterStore → Outcome Nat
  | [] => .error .ub
  | kv :: rest => pure (rest.foldl (fun best kv =>
      if best.toList.length < kv.1.toList.length then kv.1 else best) kv.1).toList.length

/-- The line of one parameter in `pretty_param_details` (core/parameters.hpp lines 104-112). -/
noncomputable def detailLine (width : Nat) (kv : String × Parameter) : List Char :=
  [' ', ' ', ' ', ' '] ++ padRight (width + 1) kv.1.toList ++ [' ', 'v', 'a', 'l', 'u', 'e', ':', ' '] ++
    padRight 12 (defaultText kv.2.value) ++
    [' ', 'v', 'a', 'l', 'i', 'd', ':', ' '] ++ padRight 3 (if kv.2.isValid then ['1'] else ['0']) ++ [' ', 'p', 'r',
      'i', 'o', 'r', ':', ' '] ++
    padRight 15 kv.2.prior.name ++ [' ', 'b', 'o', 'u', 'n', 'd', 's', ':', ' ', '['] ++
      defaultText kv.2.prior.lower ++ [',', ' '] ++
    defaultText kv.2.prior.upper ++ [']', '\n']

/-- `pretty_param_details` (core/parameters.hpp lines 93-115). -/
noncomputable def prettyParamDetails (params : ParameterStore) : Outcome (List Char) := do
  let width ← longestName params
  pure (params.foldl (fun ss kv => ss ++ detailLine width kv) [])

end Albatross
