import Verif.Csv
import Verif.Sampler
import Mathlib.Algebra.Order.Floor.Defs
import Mathlib.Algebra.Order.Archimedean.Real.Basic

/-! # Model of the CSV parts of `samplers/callbacks.hpp` and `samplers/initialization.hpp`

Numbers are printed and parsed as text: `std::to_string(double)` is `printf("%f")`, six decimals,
rounded half to even.  `std::stod` is modelled on the texts that function writes (sign, digits, point,
digits, `inf`, `nan`, anything after them ignored); white space, exponents and hexadecimal floats are
not modelled.  Doubles are exact reals.  The warning printed by `parse_line` is not modelled. -/

namespace Albatross

/-! ## Numbers as text -/

/-- The decimal digits of `n`. -/
def decDigits (n : Nat) : List Nat :=
  if n < 10 then [n] else decDigits (n / 10) ++ [n % 10]

/-- The last `k` decimal digits of `n`. -/
def padDigits : Nat → Nat → List Nat
  | 0, _ => []
  | k + 1, n => padDigits k (n / 10) ++ [n % 10]

/-- The character of a digit. -/
def digitChar (d : Nat) : Char := Char.ofNat (48 + d)

/-- `std::to_string(std::size_t)`. -/
def sizeToString (n : Nat) : List Char := (decDigits n).map digitChar

/-- Rounding of a non-negative real to an integer, ties to even. -/
noncomputable def roundHalfEven (y : ℝ) : Nat :=
  let f := ⌊y⌋₊
  if y - f < 1 / 2 then f
  else if 1 / 2 < y - f then f + 1
  else if f % 2 = 0 then f else f + 1

/-- `std::to_string(double)`. -/
noncomputable def doubleToString : Dbl → List Char
  | .fin x =>
    let k := roundHalfEven (|x| * 10 ^ 6)
    (if x < 0 then ['-'] else []) ++ (decDigits (k / 10 ^ 6)).map digitChar ++
      '.' :: (padDigits 6 (k % 10 ^ 6)).map digitChar
  | .pinf => ['i', 'n', 'f']
  | .ninf => ['-', 'i', 'n', 'f']
  | .nan => ['n', 'a', 'n']

/-- Read digits: value so far, number of digits so far. -/
def readDigits : List Char → Nat → Nat → Nat × Nat × List Char
  | [], acc, n => (acc, n, [])
  | c :: cs, acc, n =>
    if c.isDigit then readDigits cs (10 * acc + (c.toNat - 48)) (n + 1) else (acc, n, c :: cs)

/-- The unsigned part of `std::stod`; `none` when it throws. -/
noncomputable def stodUnsigned (s : List Char) : Option Dbl :=
  if ['i', 'n', 'f'].isPrefixOf s then some .pinf
  else if ['n', 'a', 'n'].isPrefixOf s then some .nan
  else
    let (ip, n1, rest) := readDigits s 0 0
    match rest with
    | '.' :: r =>
      let (v, n2, _) := readDigits r ip 0
      if n1 + n2 = 0 then none else some (.fin ((v : ℝ) / 10 ^ n2))
    | _ => if n1 = 0 then none else some (.fin ip)

/-- `std::stod`; `none` when it throws. -/
noncomputable def stod : List Char → Option Dbl
  | '-' :: s => (stodUnsigned s).map fun v => -v
  | '+' :: s => stodUnsigned s
  | s => stodUnsigned s

/-! ## Writing -/

/-- `get_sampler_csv_columns` (samplers/callbacks.hpp lines 22-31). -/
def samplerCsvColumns (store : ParameterStore) : List String :=
  ["iteration", "log_probability", "ensemble_index"] ++ store.keys

/-- One pass of the loop of `write_ensemble_sampler_state` (samplers/callbacks.hpp lines 37-48). -/
noncomputable def writeSamplerState (ex : Dbl → Dbl) (b : Build) (store : ParameterStore)
    (iteration : Nat) (columns : List String) (stream : OStream) (x : SamplerState × Nat) :
    Outcome OStream := do
  let params ← setTunableParamsValues ex b store x.1.params true
  let row : SMap String String := params.foldl
    (fun row kv => SMap.put row kv.1 (String.ofList (doubleToString kv.2.value))) []
  let row := SMap.put row "iteration" (String.ofList (sizeToString iteration))
  let row := SMap.put row "log_probability" (String.ofList (doubleToString x.1.logProb))
  let row := SMap.put row "ensemble_index" (String.ofList (sizeToString x.2))
  pure (writeRow stream row columns)

/-- `write_ensemble_sampler_state` (samplers/callbacks.hpp lines 33-50). -/
noncomputable def writeEnsembleState (ex : Dbl → Dbl) (b : Build) (stream : OStream)
    (store : ParameterStore) (ensemble : List SamplerState) (iteration : Nat) (columns : List String) :
    Outcome OStream :=
  ensemble.zipIdx.foldlM (writeSamplerState ex b store iteration columns) stream

/-- `CsvWritingCallback` (samplers/callbacks.hpp lines 81-104). -/
structure CsvCallback where
  store : ParameterStore
  stream : OStream := {}
  columns : List String := []

/-- `CsvWritingCallback::operator()` (samplers/callbacks.hpp lines 90-98). -/
noncomputable def CsvCallback.call (ex : Dbl → Dbl) (b : Build) (cb : CsvCallback) (iteration : Nat)
    (ensembles : List SamplerState) : Outcome CsvCallback := do
  let cb := if iteration = 0 then
      let columns := samplerCsvColumns cb.store
      { cb with columns := columns, stream := writeHeader cb.stream columns }
    else cb
  let stream ← writeEnsembleState ex b cb.stream cb.store ensembles iteration cb.columns
  pure { cb with stream := stream }

/-! ## Reading -/

/-- `split_string` (samplers/initialization.hpp lines 18-27), also the sequence of lines successive
calls of `std::getline` extract: no token after a final delimiter. -/
def splitString (d : Char) (s : List Char) : List (List Char) :=
  match s with
  | [] => []
  | c :: cs =>
    (c :: cs).takeWhile (fun x => !decide (x = d)) ::
      splitString d (((c :: cs).dropWhile (fun x => !decide (x = d))).drop 1)
termination_by s.length
decreasing_by
  have h : ((c :: cs).dropWhile (fun x => !decide (x = d))).length ≤ (c :: cs).length :=
    (List.dropWhile_sublist _).length_le
  simp only [List.length_drop]
  simp only [List.length_cons] at h ⊢
  omega

/-- `parse_line` (samplers/initialization.hpp lines 29-40). -/
noncomputable def parseLine (line : List Char) : List Dbl :=
  (splitString ',' line).map fun s => (stod s).getD .nan

/-- The loop body of `initial_params_from_csv` (samplers/initialization.hpp lines 57-75). -/
noncomputable def readCsvLine (b : Build) (columns : List (List Char))
    (st : Dbl × List (SMap String Dbl)) (line : List Char) : Outcome (Dbl × List (SMap String Dbl)) := do
  let values := parseLine line
  let v0 ← vecGet values 0
  let st := if st.1 < v0 then (v0, []) else st
  albatrossAssert b (values.length == columns.length)
  let paramValues ← (List.range' 3 (columns.length - 3)).foldlM (fun (m : SMap String Dbl) i => do
    let c ← vecGet columns i
    let v ← vecGet values i
    pure (SMap.put m (String.ofList c) v)) []
  pure (st.1, st.2 ++ [paramValues])

/-- `initial_params_from_csv(stream)` (samplers/initialization.hpp lines 42-78). -/
noncomputable def initialParamsFromCsv (b : Build) (text : List Char) :
    Outcome (List (SMap String Dbl)) := do
  let lines := splitString '\n' text
  albatrossAssert b (!lines.isEmpty)
  let columns := splitString ',' (lines.headD [])
  let c0 ← vecGet columns 0
  albatrossAssert b (c0 == "iteration".toList)
  let c1 ← vecGet columns 1
  albatrossAssert b (c1 == "log_probability".toList)
  let c2 ← vecGet columns 2
  albatrossAssert b (c2 == "ensemble_index".toList)
  let (_, output) ← lines.tail.foldlM (readCsvLine b columns) (.fin 0, [])
  pure output

/-- `params[name].value = ensure_value_within_bounds(params[name], value)`
(samplers/initialization.hpp lines 90-91). -/
noncomputable def setClamped (params : ParameterStore) (name : String) (value : Dbl) : ParameterStore :=
  SMap.alter (fun o =>
    let p := o.getD ⟨.fin 0, .uninformative⟩
    { p with value := ensureWithinBounds p value }) name params

/-- `initial_params_from_csv(param_store, stream)` (samplers/initialization.hpp lines 80-98). -/
noncomputable def initialVectorsFromCsv (lg : Dbl → Dbl) (b : Build) (store : ParameterStore)
    (text : List Char) : Outcome (List (List Dbl)) := do
  let allParams ← initialParamsFromCsv b text
  allParams.mapM fun valueMap => do
    albatrossAssert b (valueMap.length == store.length)
    let params := valueMap.foldl (fun params kv => setClamped params kv.1 kv.2) store
    let t ← getTunableParameters lg b params
    pure t.values

end Albatross
