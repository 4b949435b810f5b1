import Verif.Io.Ident
import Verif.Signal

set_option autoImplicit false

/-!
# Names of the ports of a network that was read from an AIGER file

Model of `NameMap` and of the naming callbacks in include/operations/io/detail/aiger_reader.hpp, and of the constructor
of `Reader` in include/operations/io/reader.hpp. `none` stands for undefined behaviour.
-/

namespace Verif.Io

/-- `NameMap`, aiger_reader.hpp 26-91: the names of every signal; a missing key is the empty vector. The reverse map is
only used for a warning and left out. -/
abbrev NameMap := Sig → List Text

/-- `NameMap::insert`, aiger_reader.hpp 35-55 -/
def NameMap.insert (m : NameMap) (s : Sig) (name : Text) : NameMap :=
  if name = [] then m else fun k => if k = s then m s ++ [name] else m k

/-- What the reader knows when the symbol table has been read: the nodes of the inputs (primary inputs, then register
outputs), the signals of the primary outputs with their names and those of the register inputs with the names of the
registers (aiger_reader.hpp 205-220; no name is the empty string), and the lines of the symbol table for inputs and
registers in the order of the file, as positions in the list of inputs. -/
structure Symbols where
  inputs : List Nat
  inLines : List (Nat × Text)
  outs : List (Sig × Text)
  latches : List (Sig × Text)
deriving DecidableEq, Repr

/-- `on_input_name` and `on_latch_name`, aiger_reader.hpp 197-220: `none` for a position outside `signals` -/
def insertLines (inputs : List Nat) : List (Nat × Text) → NameMap → Option NameMap
  | [], m => some m
  | (i, name) :: l, m =>
    match inputs[i]? with
    | none => none
    | some n => insertLines inputs l (m.insert ⟨n, false⟩ name)

/-- the insertions of the destructor `~aiger_reader`, aiger_reader.hpp 133-168 -/
def insertOuts : List (Sig × Text) → NameMap → NameMap
  | [], m => m
  | (s, name) :: l, m => insertOuts l (m.insert s name)

/-- The name map when reading is finished: input lines, then outputs, then register inputs with the suffix `_next`,
aiger_reader.hpp 133-168. -/
def Symbols.nameMap (f : Symbols) : Option NameMap :=
  match insertLines f.inputs f.inLines (fun _ => []) with
  | none => none
  | some m => some (insertOuts (f.outs ++ f.latches.map fun p => (p.1, p.2 ++ "_next".toList)) m)

/-- the two loops of `Reader`, reader.hpp 138-161: the names of the signals in the list; `cnt` is `signalCount` -/
def portNames (m : NameMap) : List Sig → (Sig → Nat) → Option (List Text × (Sig → Nat))
  | [], cnt => some ([], cnt)
  | s :: l, cnt =>
    if m s = [] then portNames m l cnt
    else
      match (m s)[cnt s]? with
      | none => none
      | some name =>
        match portNames m l (fun k => if k = s then cnt s + 1 else cnt k) with
        | none => none
        | some (names, cnt') => some (if name = [] then names else toEscaped name :: names, cnt')

/-- `input_names` and `output_names` of the parameters filled in by `Reader`, reader.hpp 134-162 -/
def Symbols.ports (f : Symbols) : Option (List Text × List Text) :=
  match f.nameMap with
  | none => none
  | some m =>
    match portNames m (f.inputs.map fun n => ⟨n, false⟩) (fun _ => 0) with
    | none => none
    | some (ins, cnt) =>
      match portNames m ((f.outs ++ f.latches).map (·.1)) cnt with
      | none => none
      | some (outs, _) => some (ins, outs)

end Verif.Io
