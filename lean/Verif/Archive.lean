import Verif.Serialize

/-! # Model of cereal archives

cereal is a dependency, so only what the serialisation code of albatross relies on is described.  An archive is
a tree of named values.  Within one node

* a text archive (JSON or XML) reads the next value if it has the requested name, looks through the whole node
  for that name otherwise, and throws if there is no such value;
* a binary archive has no names: it reads whatever comes next, and throws at the end of the archive.

The version number of a class is stored by cereal the first time it meets the class; here it is a parameter of
the functions that use it. -/

namespace Albatross

/-- The values in an archive. -/
inductive Field
  | nat (n : Nat)
  | int (n : Int)
  | real (x : ℝ)
  | dbl (x : Dbl)
  | flag (b : Bool)
  | text (s : Bytes)
  | name (s : String)
  | sparse (a : SparseArchive)
  | dense (a : DenseArchive)
  | node (members : List (String × Field))

/-- A node in the course of being read: the members behind the cursor and those ahead of it. -/
structure Reader where
  before : List (String × Field)
  after : List (String × Field)

/-- Reading from the start of a node. -/
def Reader.start (members : List (String × Field)) : Reader := ⟨[], members⟩

/-- The members from the first one of the given name on, and those before it. -/
def splitAtName (name : String) : List (String × Field) → Option (List (String × Field) × Field × List (String × Field))
  | [] => none
  | m :: ms =>
    if m.1 = name then some ([], m.2, ms)
    else (splitAtName name ms).map fun r => (m :: r.1, r.2.1, r.2.2)

/-- `archive(make_nvp(name, ...))` of an input archive. -/
def Reader.next (text : Bool) (name : String) (r : Reader) : Outcome (Field × Reader) :=
  match r.after with
  | m :: ms =>
    if text = true ∧ m.1 ≠ name then
      match splitAtName name (r.before ++ r.after) with
      | some (pre, f, post) => .ok (f, ⟨pre ++ [(name, f)], post⟩)
      | none => .error .thrown
    else .ok (m.2, ⟨r.before ++ [m], ms⟩)
  | [] =>
    if text = true then
      match splitAtName name r.before with
      | some (pre, f, post) => .ok (f, ⟨pre ++ [(name, f)], post⟩)
      | none => .error .thrown
    else .error .thrown

/-- What happens when the value read is not of the kind asked for: a text archive throws; a binary archive
takes the bytes for something they are not, which the model does not follow any further. -/
def confused (text : Bool) : Fault := if text then .thrown else .ub

/-- Reading an unsigned number. -/
def readNat (text : Bool) (name : String) (r : Reader) : Outcome (Nat × Reader) := do
  let (f, r) ← r.next text name
  match f with
  | .nat n => pure (n, r)
  | _ => .error (confused text)

/-- Reading a signed number. -/
def readInt (text : Bool) (name : String) (r : Reader) : Outcome (Int × Reader) := do
  let (f, r) ← r.next text name
  match f with
  | .int n => pure (n, r)
  | _ => .error (confused text)

/-- Reading a floating point number. -/
def readReal (text : Bool) (name : String) (r : Reader) : Outcome (ℝ × Reader) := do
  let (f, r) ← r.next text name
  match f with
  | .real x => pure (x, r)
  | _ => .error (confused text)

/-- Reading a boolean. -/
def readFlag (text : Bool) (name : String) (r : Reader) : Outcome (Bool × Reader) := do
  let (f, r) ← r.next text name
  match f with
  | .flag x => pure (x, r)
  | _ => .error (confused text)

/-- Reading a string of bytes. -/
def readText (text : Bool) (name : String) (r : Reader) : Outcome (Bytes × Reader) := do
  let (f, r) ← r.next text name
  match f with
  | .text s => pure (s, r)
  | _ => .error (confused text)

/-- Reading a name. -/
def readName (text : Bool) (name : String) (r : Reader) : Outcome (String × Reader) := do
  let (f, r) ← r.next text name
  match f with
  | .name s => pure (s, r)
  | _ => .error (confused text)

/-- Reading what was saved for a sparse Eigen matrix. -/
def readSparse (text : Bool) (name : String) (r : Reader) : Outcome (SparseArchive × Reader) := do
  let (f, r) ← r.next text name
  match f with
  | .sparse a => pure (a, r)
  | _ => .error (confused text)

/-- Reading what was saved for a dense Eigen matrix. -/
def readDense (text : Bool) (name : String) (r : Reader) : Outcome (DenseArchive × Reader) := do
  let (f, r) ← r.next text name
  match f with
  | .dense a => pure (a, r)
  | _ => .error (confused text)

/-- Reading a nested object: its members. -/
def readNode (text : Bool) (name : String) (r : Reader) : Outcome (List (String × Field) × Reader) := do
  let (f, r) ← r.next text name
  match f with
  | .node ms => pure (ms, r)
  | _ => .error (confused text)

/-- The name cereal gives to the `k`-th value without a name in a node. -/
def autoName (k : Nat) : String := "value" ++ toString k

/-- Values read in the order in which they were written are found, whatever their names. -/
theorem next_cons (text : Bool) (name : String) (f : Field) (before after : List (String × Field)) :
    Reader.next text name ⟨before, (name, f) :: after⟩ = .ok (f, ⟨before ++ [(name, f)], after⟩) := by
  unfold Reader.next
  simp

end Albatross
