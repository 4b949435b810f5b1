import Verif.Flow.Files
import Verif.Mapping.Command
import Verif.Io.LutNetlist
import Verif.Io.Verilog

set_option autoImplicit false

/-!
# Sessions of the shell from reading a design to writing it
-/

namespace Verif.Cli.Fpga

open Io (Params LutModule VModule)

variable {β : Type}

/-- The stores of the shell, `cli/command/io/read_aiger.hpp` 22-36: the current AIG (the five places of the history are left out, see Cli/History), the current LUT network, the current port names; and the
last file of each kind that was written. `none` stands for an empty store and no file. -/
structure St where
  aig : Option Aig := none
  luts : Option Klut := none
  names : Option Params := none
  netlist : Option LutModule := none
  verilog : Option VModule := none
  aiger : Option (List Aiger.Byte) := none

/-- Commands, `cli/command`: `read_aiger` of a path, with the names that the reader finds in the file (see C54); a command that replaces the current AIG by another (`balance`, `rewrite`, `refactor`,
`lut_opt`, `cleanup`); `map_fpga` with type 0, its options and the heuristics of the mapper; `write_fpga`; `write_primary` with type 0;
`write_aiger`. -/
inductive Cmd (β : Type) where
  | read (disk : Flow.Files.Disk) (path : List Char) (names : Params)
  | change (A : Aig)
  | map (o : Mapper.Options) (H : Nat → Nat → Mapper.Heur β) (cost : β)
  | write
  | primary
  | aiger

/-- `read_aiger_command::execute`, `cli/command/io/read_aiger.hpp` 21-37: the stores are cleared if there is an AIG -/
def read (s : St) (disk : Flow.Files.Disk) (path : List Char) (names : Params) : Option St :=
  match Flow.Files.reader disk path Aig.empty with
  | none => none
  | some (N, _) => some { s with aig := some N, luts := if s.aig = none then s.luts else none, names := some names }

/-- the end of the commands that replace the current AIG, e.g. `cli/command/rewrite.hpp` 24-27, 39-47: a warning without an AIG -/
def change (s : St) (A : Aig) : St := if s.aig = none then s else { s with aig := some A }

/-- `map_fpga_command::execute` with type 0, `cli/command/map_fpga.hpp` 34-75, 104-113; the store of LUT networks is made (66-68) after the options are accepted -/
def map (s : St) (o : Mapper.Options) (H : Nat → Nat → Mapper.Heur β) (cost : β) : Option St :=
  match s.aig with
  | none => some s
  | some N =>
    match Mapper.mapFpga o N H cost with
    | none => none
    | some none => some s
    | some (some K) => some { s with luts := some K }

/-- `write_fpga_command::execute`, `cli/command/io/write_fpga.hpp` 19-31 -/
def write (s : St) : Option St :=
  match s.luts with
  | none => some s
  | some K =>
    match Io.writeLut (match s.names with | none => ⟨[], []⟩ | some ps => ps) K with
    | none => none
    | some m => some { s with netlist := some m }

/-- `write_primary_command::execute` with type 0, `cli/command/io/write_verilog.hpp` 21-28: without the names that were read -/
def writePrimary (s : St) : Option St :=
  match s.aig with
  | none => some s
  | some N =>
    match Io.writeVerilog ⟨[], []⟩ N N.nodes.length with
    | none => none
    | some m => some { s with verilog := some m }

/-- `write_aiger_command::execute`, `cli/command/io/write_aiger.hpp` 18-23: without an AIG there is a warning, and then the access to the empty store throws (`libs/alice/include/alice/store.hpp` 57-64),
which is `none` here -/
def writeAiger (s : St) : Option St :=
  match s.aig with
  | none => none
  | some N =>
    match Aiger.write N with
    | none => none
    | some bs => some { s with aiger := some bs }

/-- one command, dispatched by `libs/alice/include/alice/cli.hpp` 266-307 -/
def step (s : St) : Cmd β → Option St
  | .read disk path names => read s disk path names
  | .change A => some (change s A)
  | .map o H cost => map s o H cost
  | .write => write s
  | .primary => writePrimary s
  | .aiger => writeAiger s

/-- a session, `libs/alice/include/alice/cli.hpp` 266-307; `none`: undefined behaviour, no end, or an exception -/
def run : List (Cmd β) → St → Option St
  | [], s => some s
  | c :: cs, s => match step s c with
    | none => none
    | some s' => run cs s'

end Verif.Cli.Fpga
