import Verif.SamplerCsv
import Mathlib.Data.Int.Log

/-! # Model of `stream << double`

`%e` (after `std::scientific`) and `%g` (the default) with a number of significant digits.  The digits are those of the
exact value rounded half to even.  The sign of zero is not modelled. -/

namespace Albatross

/-- The digits and the exponent of a positive number rounded to `p` significant digits. -/
noncomputable def sigRound (p : Nat) (x : ℝ) : Nat × ℤ :=
  let e := Int.log 10 x
  let k := roundHalfEven (x * (10 : ℝ) ^ ((p : ℤ) - 1 - e))
  if k = 10 ^ p then (10 ^ (p - 1), e + 1) else (k, e)

/-- The exponent: at least two digits. -/
def exponentText (e : ℤ) : List Char :=
  'e' :: (if e < 0 then '-' else '+') ::
    (if e.natAbs < 100 then padDigits 2 e.natAbs else decDigits e.natAbs).map digitChar

/-- Digits with a decimal point, left out when nothing follows it. -/
def withPoint (ip frac : List Nat) : List Char :=
  ip.map digitChar ++ if frac = [] then [] else '.' :: frac.map digitChar

/-- Drops the zeros at the end. -/
def stripZeros (ds : List Nat) : List Nat := (ds.reverse.dropWhile fun d => d = 0).reverse

/-- `printf("%.*e", p - 1, x)` of a non-negative number. -/
noncomputable def sciUnsigned (p : Nat) (x : ℝ) : List Char :=
  if x = 0 then withPoint [0] (List.replicate (p - 1) 0) ++ exponentText 0
  else
    let (k, e) := sigRound p x
    withPoint ((padDigits p k).take 1) ((padDigits p k).drop 1) ++ exponentText e

/-- `printf("%.*g", p, x)` of a non-negative number. -/
noncomputable def generalUnsigned (p : Nat) (x : ℝ) : List Char :=
  if x = 0 then ['0']
  else
    let (k, e) := sigRound p x
    let ds := padDigits p k
    if e < -4 ∨ (p : ℤ) ≤ e then withPoint (ds.take 1) (stripZeros (ds.drop 1)) ++ exponentText e
    else if 0 ≤ e then withPoint (ds.take (e.toNat + 1)) (stripZeros (ds.drop (e.toNat + 1)))
    else withPoint [0] (List.replicate (-e - 1).toNat 0 ++ stripZeros ds)

/-- A number with its sign, infinities and NaN. -/
noncomputable def signedText (unsigned : ℝ → List Char) : Dbl → List Char
  | .fin x => (if x < 0 then ['-'] else []) ++ unsigned |x|
  | .pinf => ['i', 'n', 'f']
  | .ninf => ['-', 'i', 'n', 'f']
  | .nan => ['n', 'a', 'n']

/-- `stream << std::scientific << x` with `p - 1` digits after the point. -/
noncomputable def sciText (p : Nat) : Dbl → List Char := signedText (sciUnsigned p)

/-- `stream << x` with `p` significant digits; a new stream has 6. -/
noncomputable def generalText (p : Nat) : Dbl → List Char := signedText (generalUnsigned p)

end Albatross
