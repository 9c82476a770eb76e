import Verif.Indexing
import Verif.MapUtils
import Verif.Dbl

/-! # Model of `utils/csv_utils.hpp`

A stream is the text written so far and its fail bit; writing happens at the end.  `toStr` is
`std::to_string(double)` and `featureMap` the column map of a feature (`to_map`, modelled in `XmlFlatten`, which for most types
goes through an XML archive that is not modelled); both are parameters. -/

namespace Albatross

/-- `std::ostream`. -/
structure OStream where
  text : List Char := []
  fail : Bool := false
  deriving DecidableEq

/-- `stream << s`. -/
def OStream.put (s : OStream) (t : List Char) : OStream :=
  if s.fail then s else { s with text := s.text ++ t }

/-- `replace_last_character_with_newline` (utils/csv_utils.hpp lines 170-173): seeking before the
beginning of an empty stream sets the fail bit. -/
def OStream.replaceLastWithNewline (s : OStream) : OStream :=
  if s.fail then s
  else if s.text = [] then { s with fail := true }
  else { s with text := s.text.dropLast ++ ['\n'] }

/-- `write_row` (utils/csv_utils.hpp lines 187-197). -/
def writeRow (stream : OStream) (row : SMap String String) (columns : List String) : OStream :=
  (columns.foldl (fun stream col =>
    let stream := match row.find? col with
      | some v => stream.put v.toList
      | none => stream
    stream.put [',']) stream).replaceLastWithNewline

/-- `write_header` (utils/csv_utils.hpp lines 199-205). -/
def writeHeader (stream : OStream) (columns : List String) : OStream :=
  (columns.foldl (fun stream col => (stream.put col.toList).put [',']) stream).replaceLastWithNewline

/-- The parts of a distribution that are written (utils/csv_utils.hpp): mean, diagonal of the covariance,
metadata. -/
structure CsvPrediction where
  mean : List Dbl
  diagonal : List Dbl
  metadata : SMap String String := []

variable {F : Type}

/-- `to_map` of one row (utils/csv_utils.hpp lines 129-139). -/
def toMapRow (toStr : Dbl → String) (featureMap : F → SMap String String) (feature : F)
    (target targetVariance prediction predictionVariance : Dbl) : SMap String String :=
  let output := featureMap feature
  let output := SMap.put output "target" (toStr target)
  let output := SMap.put output "target_variance" (toStr targetVariance)
  let output := SMap.put output "prediction" (toStr prediction)
  SMap.put output "prediction_variance" (toStr predictionVariance)

/-- `to_map(dataset, predictions, i)` (utils/csv_utils.hpp lines 145-163). -/
def toMapAt (toStr : Dbl → String) (featureMap : F → SMap String String) (b : Build)
    (dataset : Dataset F Dbl) (predictions : CsvPrediction) (i : Nat) : Outcome (SMap String String) := do
  albatrossAssert b (dataset.mean.length == predictions.mean.length)
  albatrossAssert b (decide (i < dataset.features.length))
  let tv ← vecGet dataset.variance i
  let pv ← vecGet predictions.diagonal i
  let f ← vecGet dataset.features i
  let t ← vecGet dataset.mean i
  let p ← vecGet predictions.mean i
  let row := toMapRow toStr featureMap f t tv p pv
  let row := mapJoin row dataset.metadata
  pure (mapJoin row predictions.metadata)

/-- `get_column_names` (utils/csv_utils.hpp lines 175-185). -/
def getColumnNames (toStr : Dbl → String) (featureMap : F → SMap String String) (b : Build)
    (dataset : Dataset F Dbl) (predictions : CsvPrediction) : Outcome (List String) :=
  (List.range dataset.features.length).foldlM (fun keys i => do
    let m ← toMapAt toStr featureMap b dataset predictions i
    pure (m.keys.foldl (fun s x => setInsert x s) keys)) []

/-- `write_to_csv(stream, dataset, predictions, columns)` (utils/csv_utils.hpp lines 207-217). -/
def writeRowsCsv (toStr : Dbl → String) (featureMap : F → SMap String String) (b : Build)
    (stream : OStream) (dataset : Dataset F Dbl) (predictions : CsvPrediction) (columns : List String) :
    Outcome OStream :=
  (List.range dataset.features.length).foldlM (fun stream i => do
    let row ← toMapAt toStr featureMap b dataset predictions i
    pure (writeRow stream row columns)) stream

/-- `write_to_csv(stream, dataset, predictions, include_header)` (utils/csv_utils.hpp lines 219-229). -/
def writeToCsv (toStr : Dbl → String) (featureMap : F → SMap String String) (b : Build)
    (stream : OStream) (dataset : Dataset F Dbl) (predictions : CsvPrediction) (includeHeader : Bool) :
    Outcome OStream := do
  let columns ← getColumnNames toStr featureMap b dataset predictions
  let stream := if includeHeader then writeHeader stream columns else stream
  writeRowsCsv toStr featureMap b stream dataset predictions columns

/-- `write_to_csv(stream, dataset, include_header)` (utils/csv_utils.hpp lines 234-241). -/
def writeDatasetCsv (toStr : Dbl → String) (featureMap : F → SMap String String) (b : Build)
    (stream : OStream) (dataset : Dataset F Dbl) (includeHeader : Bool) : Outcome OStream :=
  writeToCsv toStr featureMap b stream dataset
    ⟨dataset.mean.map fun _ => .fin 0, dataset.mean.map fun _ => .fin 0, []⟩ includeHeader

/-- `write_to_csv(stream, datasets, predictions)` (utils/csv_utils.hpp lines 243-255): the columns are
those of the first dataset. -/
def writeDatasetsCsv (toStr : Dbl → String) (featureMap : F → SMap String String) (b : Build)
    (stream : OStream) (datasets : List (Dataset F Dbl)) (predictions : List CsvPrediction) :
    Outcome OStream := do
  let d0 ← vecGet datasets 0
  let p0 ← vecGet predictions 0
  let columns ← getColumnNames toStr featureMap b d0 p0
  let stream := writeHeader stream columns
  albatrossAssert b (datasets.length == predictions.length)
  (List.range datasets.length).foldlM (fun stream i => do
    let d ← vecGet datasets i
    let p ← vecGet predictions i
    writeRowsCsv toStr featureMap b stream d p columns) stream

/-- `write_to_csv` of a matrix (utils/csv_utils.hpp lines 257-270), the entries already printed. -/
def writeMatrixCsv (stream : OStream) (x : List (List (List Char))) : OStream :=
  let rows := x.length
  (x.zipIdx).foldl (fun stream ri =>
    let cols := ri.1.length
    let stream := (ri.1.zipIdx).foldl (fun stream cj =>
      let stream := stream.put cj.1
      if cj.2 + 1 < cols then stream.put [','] else stream) stream
    if ri.2 + 1 < rows then stream.put ['\n'] else stream) stream

end Albatross
