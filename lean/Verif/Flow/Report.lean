import Verif.Flow.Config
import Verif.Cli.Stats

set_option autoImplicit false

/-!
# The report of the flow

Model of `report`, `include/flow/flow_manager.hpp` 366-379, and of `get_detailed_lut_statics`, `include/database/network/klut_network.hpp` 837-850. Not modelled: the delay in the report, which is
the number of the mapper (Mapping/TimedReport).
-/

namespace Verif.Flow.Report

/-- `fanin_size( n ) - 1`, klut_network.hpp 462-465 and 842: a difference of 32 bits without sign -/
def index (fanins : Nat) : Nat := (fanins % 2 ^ 32 + (2 ^ 32 - 1)) % 2 ^ 32

/-- `++lut_num[ i ]`, klut_network.hpp 842, a counter of 32 bits; undefined outside the vector -/
def bump (l : List Nat) (i : Nat) : Option (List Nat) :=
  match l[i]? with
  | none => none
  | some c => some (l.set i ((c + 1) % 2 ^ 32))

/-- the loop of `get_detailed_lut_statics`, klut_network.hpp 840-843 -/
def count (K : Klut) : List Nat → List Nat → Option (List Nat)
  | [], l => some l
  | n :: ns, l =>
    match K.nodes[n]? with
    | none => none
    | some nd =>
      match bump l (index nd.children.length) with
      | none => none
      | some l' => count K ns l'

/-- `get_Statics_LUT`, klut_network.hpp 837-850. -/
def statistics (K : Klut) (k : Nat) : Option (List Nat) := count K K.gates (List.replicate k 0)

/-- What is printed: the area, whether "NO LUT" is printed, and the lines with the number of fanins and the number of LUTs, flow_manager.hpp 368-378. -/
structure Printed where
  area : Int
  noLut : Bool
  lines : List (Int × Nat)
deriving DecidableEq

/-- `report`, flow_manager.hpp 366-379, without the delay; `none`: undefined behaviour. -/
def report (K : Klut) (k : Nat) : Option Printed :=
  match statistics K k with
  | none => none
  | some l => some ⟨Cli.Stats.shown K.numGates, l.length == 0, l.mapIdx fun i c => (Cli.Stats.shown (i + 1), c)⟩

/-- `run` up to the report, flow_manager.hpp 85-101: the report is made for the cut size of the mapper (370). -/
def run {β γ : Type} (E : Env β) (H : Nat → Nat → Mapper.Heur γ) (cost : γ) (doc : Config.Json) (N : Aig) : Config.Out Printed :=
  (Config.configure doc {}).then fun p =>
  (Config.Out.of (Flow.mapper E p.mapper H cost N)).then fun r =>
  .of (report r.2.2 p.mapper.cut.cutSize)

end Verif.Flow.Report
