import Verif.EigenDirections
import Verif.Graph
import Verif.RansacModel
import Verif.Stats
import Verif.CovTree

/-! # Model of the stream operators and of `print_call_trace`

The streams of the program are numbered; number 0 is `std::cout`.  What has been written to a stream is a list of
characters.  The streams have default settings (six digits) and do not fail; the sign of a NaN is not printed.  The
functions `text` are the `operator<<` of the keys, vertices and features, which are taken to write to the stream they are
given. -/

namespace Albatross

/-- What has been written to each stream. -/
abbrev Streams := Nat → List Char

/-- `std::cout`. -/
def coutStream : Nat := 0

/-- `os << text`. -/
def writeTo (os : Nat) (text : List Char) (ss : Streams) : Streams := fun o => if o = os then ss o ++ text else ss o

variable {V K F X : Type}

/-- `operator<<` of an edge (graph/minimum_spanning_tree.hpp lines 269-274). -/
noncomputable def printEdge (text : V → List Char) (os : Nat) (e : Edge V Dbl) (ss : Streams) : Streams :=
  let ss := writeTo os (text e.a) ss
  let ss := writeTo os [' ', '<', '-', '-', '>', ' '] ss
  let ss := writeTo os (text e.b) ss
  let ss := writeTo os [' ', '['] ss
  let ss := writeTo os (defaultText e.cost) ss
  writeTo os [']'] ss

/-- `operator<<` of a graph (graph/minimum_spanning_tree.hpp lines 276-283): the loop writes to `std::cout`. -/
noncomputable def printGraph (text : V → List Char) (_os : Nat) (g : Graph V Dbl) (ss : Streams) : Streams :=
  g.edges.foldl (fun ss e => writeTo coutStream ['\n'] (printEdge text coutStream e ss)) ss

/-- The part of a line that follows the feature or the index (core/distribution.hpp lines 290-291, core/dataset.hpp lines
196-199, 209-211). -/
noncomputable def printTarget (os : Nat) (mean variance : Dbl) (ss : Streams) : Streams :=
  let ss := writeTo os [' ', ' ', ' ', ' '] ss
  let ss := writeTo os (defaultText mean) ss
  let ss := writeTo os [' ', ' ', ' ', '+', '/', '-', ' '] ss
  let ss := writeTo os (defaultText variance.sqrt) ss
  writeTo os ['\n'] ss

/-- `get_diagonal` of a marginal distribution (core/distribution.hpp lines 45-47, 105-108). -/
def marginalDiagonal (b : Build) (variance : List Dbl) (i : Nat) : Outcome Dbl := do
  albatrossAssert b (decide (i < variance.length))
  vecGet variance i

/-- `operator<<` of a marginal distribution (core/distribution.hpp lines 286-293); `size()` (lines 38-43) checks the
sizes. -/
noncomputable def printMarginal (b : Build) (os : Nat) (mean variance : List Dbl) (ss : Streams) : Outcome Streams := do
  albatrossAssert b (decide (mean.length = variance.length))
  (List.range mean.length).foldlM (fun ss i => do
    let m ← vecGet mean i
    let v ← marginalDiagonal b variance i
    pure (printTarget os m v (writeTo os (sizeToString i) ss))) ss

/-- `operator<<` of a dataset (core/dataset.hpp lines 191-213); `text` is `none` if the features have no
`operator<<`. -/
noncomputable def printDataset (b : Build) (text : Option (F → List Char)) (os : Nat) (d : Dataset F Dbl) (ss : Streams) :
    Outcome Streams :=
  (List.range d.features.length).foldlM (fun ss i => do
    let f ← vecGet d.features i
    eigenAssert b (decide (i < d.mean.length))
    let m ← vecGet d.mean i
    let v ← marginalDiagonal b d.variance i
    pure (printTarget os m v (writeTo os (match text with
      | some t => t f
      | none => sizeToString i) ss))) ss

/-- `operator<<` of a dense matrix (Eigen, `print_matrix` with the default format): every entry has the width of the
longest. -/
noncomputable def printMatrix (os : Nat) (rows : List (List Dbl)) (ss : Streams) : Streams :=
  let width := (rows.flatten.map fun x => (defaultText x).length).foldl max 0
  rows.zipIdx.foldl (fun ss row =>
    let ss := row.1.zipIdx.foldl (fun ss x =>
      writeTo os ((if x.2 = 0 then [] else [' ']) ++ padLeft width (defaultText x.1)) ss) ss
    if row.2 + 1 < rows.length then writeTo os ['\n'] ss else ss) ss

/-- `operator<<` of a joint distribution (core/distribution.hpp lines 295-304): the mean and the rows of the covariance,
written to `std::cout`. -/
noncomputable def printJoint (b : Build) (_os : Nat) (mean : List Dbl) (covariance : List (List Dbl)) (ss : Streams) :
    Outcome Streams := do
  eigenAssert b (decide (covariance.length = mean.length))
  pure (printMatrix coutStream (List.zipWith (fun m row => m :: row) mean covariance) ss)

/-- `operator<<` of a measurement (covariance_functions/measurement.hpp lines 31-34). -/
def printMeasurement (text : X → List Char) (os : Nat) (x : X) (ss : Streams) : Streams :=
  let ss := writeTo os ['M', 'e', 'a', 's', '['] ss
  let ss := writeTo os (text x) ss
  writeTo os [']'] ss

/-- One line of `operator<<` of an iteration (models/ransac.hpp lines 537, 542). -/
noncomputable def printScore (text : K → List Char) (os : Nat) (ss : Streams) (kv : K × Dbl) : Streams :=
  let ss := writeTo os [' ', ' ', ' ', ' '] ss
  let ss := writeTo os (text kv.1) ss
  let ss := writeTo os [' ', ':', ' '] ss
  let ss := writeTo os (defaultText kv.2) ss
  writeTo os ['\n'] ss

/-- `operator<<` of an iteration (models/ransac.hpp lines 526-547). -/
noncomputable def printIteration (text : K → List Char) (os : Nat) (it : RansacIteration K) (ss : Streams) : Streams :=
  let ss := writeTo os ['C', 'A', 'N', 'D', 'I', 'D', 'A', 'T', 'E', 'S', ':', ' '] ss
  let ss := it.candidates.foldl (fun ss k => writeTo os [',', ' '] (writeTo os (text k) ss)) ss
  let ss := writeTo os ['\n'] ss
  let ss := writeTo os ['I', 'N', 'L', 'I', 'E', 'R', 'S', ':', ' ', '\n'] ss
  let ss := it.inliers.foldl (printScore text os) ss
  let ss := writeTo os ['O', 'U', 'T', 'L', 'I', 'E', 'R', 'S', ':', ' ', '\n'] ss
  let ss := it.outliers.foldl (printScore text os) ss
  let ss := writeTo os ['C', 'O', 'N', 'S', 'E', 'N', 'S', 'U', 'S', '_', 'M', 'E', 'T', 'R', 'I', 'C', ':', ' '] ss
  writeTo os (defaultText it.consensusMetricValue) ss

/-- `operator<<` of the result of a search (models/ransac.hpp lines 549-564). -/
noncomputable def printRansacOutput (b : Build) (text : K → List Char) (os : Nat) (r : RansacOutput K) (ss : Streams) :
    Outcome Streams := do
  let ss := r.iterations.zipIdx.foldl (fun ss it =>
    let ss := writeTo os ['=', '=', '=', '=', ' ', 'I', 't', 'e', 'r', 'a', 't', 'i', 'o', 'n', ' '] ss
    let ss := writeTo os (sizeToString it.2) ss
    let ss := writeTo os ['=', '=', '=', '=', '\n'] ss
    writeTo os ['\n'] (printIteration text os it.1 ss)) ss
  let ss := writeTo os ['=', '=', '=', '=', ' ', 'B', 'e', 's', 't', ' ', '=', '=', '=', '=', '\n'] ss
  let ss := writeTo os ['\n'] (printIteration text os r.best ss)
  let name ← ransacCodeName b r.returnCode.value
  let ss := writeTo os ['R', 'E', 'T', 'U', 'R', 'N', ' ', 'C', 'O', 'D', 'E', ':', ' '] ss
  pure (writeTo os ['\n'] (writeTo os name.toList ss))

/-! ## Call traces -/

/-- A line of two columns (covariance_functions/call_trace.hpp lines 63-64, 65-66, 68-69). -/
def traceLine (width : Nat) (value name : List Char) (ss : Streams) : Streams :=
  let ss := writeTo coutStream (padRight width value) ss
  let ss := writeTo coutStream (padRight 100 name) ss
  writeTo coutStream ['\n'] ss

/-- `print_call_trace` (covariance_functions/call_trace.hpp lines 51-71); widths that do not fit an `int` are not
modelled. -/
def printCallTrace (trace : List CallAndValue) (ss : Streams) : Streams :=
  let longest := trace.foldl (fun n cv => if n < cv.value.length then cv.value.length else n) 0
  let width := longest + 2
  let ss := traceLine width ['V', 'A', 'L', 'U', 'E'] ['F', 'U', 'N', 'C', 'T', 'I', 'O', 'N'] ss
  let ss := traceLine width ['-', '-', '-', '-', '-'] ['-', '-', '-', '-', '-', '-', '-', '-'] ss
  trace.foldl (fun ss cv => traceLine width cv.value cv.callName ss) ss

end Albatross
