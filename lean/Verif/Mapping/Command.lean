import Verif.Mapping.Map
import Verif.Klut.Collapse
import Verif.Klut.ToAig

set_option autoImplicit false

/-!
# The shell commands `map_fpga` and `lut_opt`
-/

namespace Verif.Mapper
open Cuts

variable {β : Type}

/-- `map_fpga_command::execute` without choices, map_fpga.hpp 41-75 and 103-112, on the current AIG: mapping, conversion
and the dereference of the returned optional (`*choice_to_klut(…)`, line 109). Outer `none`: undefined behaviour, in
particular dereferencing an empty optional; `some none`: options refused with a warning. `H` are the heuristics of the
mapper and `cost` default constructed cost data. -/
def mapFpga (o : Options) (N : Aig) (H : Nat → Nat → Heur β) (cost : β) : Option (Option Klut) :=
  match o.params with
  | none => some none
  | some p => match klutMap p (Choice.init N N.nodes.length) H cost with
    | none => none
    | some M => match Collapse.choiceToKlut N M with
      | some (some K) => some (some K)
      | _ => none

/-- options of `lut_opt`, lut_opt.hpp 72-78 (the help text gives 4 as the default cut size, line 22) -/
structure LutOptions where
  cutSize : Nat := 6
  prioritySize : Nat := 10
  flowIter : Nat := 1
  areaIter : Nat := 2
  zeroGain : Bool := false
  verbose : Bool := false
deriving DecidableEq, Repr

/-- `lut_opt_command::execute`, lut_opt.hpp 39-66: range checks and the parameters handed to the mapper; `none` stands for
the warning and early return. -/
def LutOptions.params (o : LutOptions) : Option Ps :=
  if o.prioritySize < 6 ∨ 20 < o.prioritySize then none
  else if o.cutSize < 2 ∨ 6 < o.cutSize then none
  else if o.flowIter < 1 ∨ 2 < o.flowIter then none
  else if o.areaIter < 1 ∨ 3 < o.areaIter then none
  else some { cut := { cutSize := o.cutSize, cutLimit := o.prioritySize }
              uFlowIters := BitVec.ofNat 8 o.flowIter, uAreaIters := BitVec.ofNat 8 o.areaIter
              bZeroGain := o.zeroGain, verbose := o.verbose }

/-- `lut_opt_command::execute`, lut_opt.hpp 32-71, on the current AIG: the AIG stored afterwards. `none`: undefined
behaviour, in particular dereferencing an empty optional (line 68). `H` are the heuristics of the mapper and `cost` default
constructed cost data. -/
def lutOpt (o : LutOptions) (N : Aig) (H : Nat → Nat → Heur β) (cost : β) : Option Aig :=
  match o.params with
  | none => some N
  | some p => match klutMap p (Choice.init N N.nodes.length) H cost with
    | none => none
    | some M => match Collapse.choiceToKlut N M with
      | some (some K) => ToAig.convertKlut K
      | _ => none

end Verif.Mapper
