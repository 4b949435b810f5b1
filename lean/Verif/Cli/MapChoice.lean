import Verif.Cli.History
import Verif.Choice.Miter
import Verif.Choice.Sweep
import Verif.Mapping.Command
import Verif.Mapping.Timed

set_option autoImplicit false

/-!
# The shell command `map_fpga --type 1`

What the command computes from the state of the shell.
-/

namespace Verif.Cli
open Mapper (Options Ps Heur)

/-- `klut_mapping` on an AIG with choices, map_fpga.hpp 99 and 109, with the heuristics `H` and default constructed cost data `cost`. -/
def anyMapper {β : Type} (H : Nat → Nat → Heur β) (cost : β) (p : Ps) (D : Choice) : Option Mapping := Mapper.klutMap p D H cost

/-- `klut_mapping`, map_fpga.hpp 99 and 109, with its own costs; as in `Mapping/Timed.lean` the costs are rational numbers instead of `float`. The
returned delay and area are not used by the command. -/
def realMapper (p : Ps) (D : Choice) : Option Mapping := (Mapper.Timed.klutMapping p D).map (·.1)

/-- `map_fpga_command::execute` with choices, map_fpga.hpp 95-102, on the list of AIGs handed to the choice miter: miter, choice computation,
mapping, conversion, dereference of the returned optional (line 100). `none`: undefined behaviour, in particular `merge_aigs_to_miter` on an empty
list and the dereference of an empty optional. Returned are the network with choices and the mapping too. `E` is the environment of the choice
computation (random numbers and solver), `map` the mapper, `fuel` bounds the recursion of the miter. -/
def mapHistory (fuel : Nat) (E : Choice.Env) (map : Ps → Choice → Option Mapping) (p : Ps) (l : List Aig) : Option (Choice × Mapping × Klut) :=
  match ChoiceMiter.merge fuel l with
  | none => none
  | some M => match Choice.computeChoice M E with
    | none => none
    | some D => match map p D with
      | none => none
      | some L => match Collapse.choiceToKlut D.net L with
        | some (some K) => some (D, L, K)
        | _ => none

/-- `map_fpga_command::execute` without choices, map_fpga.hpp 105-112, on the current AIG; see `Mapper.mapFpga`. -/
def mapCurrent (map : Ps → Choice → Option Mapping) (p : Ps) (N : Aig) : Option Klut :=
  match map p (Choice.init N N.nodes.length) with
  | none => none
  | some L => match Collapse.choiceToKlut N L with
    | some (some K) => some K
    | _ => none

/-- The AIGs of the history that have a gate, from the last slot to the first, map_fpga.hpp 88-93 (`num_gates` is `Aig.numGates`). `none`: a slot
without storage, which does not occur. -/
def histories (s : St Aig) : Option (List Aig) :=
  (s.slots.dropLast.reverse.mapM (s.heap[·]?)).map (·.filter fun A => decide (A.numGates > 0))

/-- What `map_fpga` does to the store of LUT networks, map_fpga.hpp 33-114: a warning only, or a new current network, without choices (103-113) or
with choices (82-103). -/
inductive Outcome where
  | refused
  | plain (K : Klut)
  | choices (D : Choice) (L : Mapping) (K : Klut)

/-- `map_fpga_command::execute`, map_fpga.hpp 33-114, in a state of the shell. The parameters handed to the mapper are those of `Options.params`.
With fewer than two slots the command maps without choices (77-80; that this also changes the member `type` is in `Cli/Options.lean`). `none`:
undefined behaviour. -/
def mapFpga (fuel : Nat) (E : Choice.Env) (map : Ps → Choice → Option Mapping) (o : Options) (s : St Aig) : Option Outcome :=
  if s.slots = [] then some .refused
  else match o.params with
    | none => some .refused
    | some p =>
      if o.type = 1 ∧ ¬ s.slots.length < 2 then
        match histories s with
        | none => none
        | some l => match mapHistory fuel E map p l with
          | none => none
          | some (D, L, K) => some (.choices D L K)
      else match s.slots.getLast? with
        | none => none
        | some c => match s.heap[c]? with
          | none => none
          | some N => (mapCurrent map p N).map .plain

end Verif.Cli
