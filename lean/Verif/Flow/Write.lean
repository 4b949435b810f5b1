import Verif.Flow.Files
import Verif.Io.LutNetlist
import Verif.Io.Verilog

set_option autoImplicit false

/-!
# Writing the results of the flow

Model of `write_out` (`include/flow/flow_manager.hpp` 322-361) with `Writer::write2Verilog` and `Writer::write2LUT` (`include/operations/io/writer.hpp` 92-130). Not modelled: the folders made by
the shell (325-338) and files that cannot be opened (the results of the writers are not used), and the two files for debugging (343-347).
-/

namespace Verif.Flow.Write

open Io (Params VModule LutModule)

/-- contents of a file: a Verilog module (write_verilog.hpp) or a netlist of LUTs (writer_lut.hpp) -/
inductive Content where
  | verilog (m : VModule)
  | luts (m : LutModule)
deriving DecidableEq

/-- `_path_output_verilog`, flow_manager.hpp 349-352 -/
def verilogPath (input given : List Char) : List Char := if given = [] then input ++ "_ifpga.v".toList else given

/-- `_path_output_lut`, flow_manager.hpp 354-357 -/
def lutPath (input given : List Char) : List Char := if given = [] then input ++ "_ifpga_lut.v".toList else given

/-- writing a file, writer.hpp 96-98, 116-118: what was there is replaced -/
def put (d : List Char → Option Content) (p : List Char) (c : Content) : List Char → Option Content := fun q => if q = p then some c else d q

/-- `write_out`, flow_manager.hpp 340-360: the files afterwards. The network is the one of the mapped view, the LUT network the result of the mapper (120). -/
def writeOut (ps : Params) (input verilog lut : List Char) (r : Files.Mapped) (d : List Char → Option Content) : Option (List Char → Option Content) :=
  match Io.writeVerilog ps r.synth.awc.net r.synth.awc.net.nodes.length with
  | none => none
  | some v =>
    match Io.writeLut ps r.luts with
    | none => none
    | some l => some (put (put d (verilogPath input verilog) (.verilog v)) (lutPath input lut) (.luts l))

end Verif.Flow.Write
