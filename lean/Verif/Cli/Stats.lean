import Verif.Topo.Depth
import Verif.Klut.Basic

set_option autoImplicit false

/-!
# The command `print_stats`

Model of `cli/command/print_stats.hpp`. The command constructs a network from the stored storage, makes a `depth_view` of it and prints four
numbers. The AIG constructor only copies the pointer; the constructor of LUT networks also runs `_init`, which is meant for new storages.
-/

namespace Verif.Cli.Stats

/-- The four numbers of a printed line, `cli/command/print_stats.hpp` 29 and 38. -/
structure Line where
  pis : Int
  pos : Int
  area : Int
  depth : Int
deriving DecidableEq, Repr

/-- `printf("%d")` of a `uint32_t`, `cli/command/print_stats.hpp` 29 and 38: the counters are cut to 32 bits
(`static_cast<uint32_t>`, `aig_network.hpp` 765, `klut_network.hpp` 459) and read as a signed number. -/
def shown (n : Nat) : Int := (BitVec.ofNat 32 n).toInt

/-- The marks that a traversal leaves in the storage, `set_visited` and `incr_trav_id`, `include/database/network/aig_network.hpp` 1240-1259. -/
def withMarks (N : Aig) (vis : Nat → Nat) (trav : Nat) : Aig :=
  { N with nodes := N.nodes.mapIdx fun i nd => { nd with visited := vis i }, travId := trav }

/-- `print_stats` with type 0, `cli/command/print_stats.hpp` 27-29: the line and the stored network afterwards. -/
def aigStats (N : Aig) (fuel : Nat) : Option (Line × Aig) :=
  match Topo.depthView N false fuel with
  | none => none
  | some (s, d) => some (⟨shown N.numPis, shown N.numPos, shown N.numGates, shown d⟩, withMarks N s.vis (N.travId + 1))

/-- `nodes[i].data[1].h1 = l`, `include/database/network/klut_network.hpp` 140-141 -/
def setFn (l : List KNode) (i lit : Nat) : List KNode := l.modify i fun nd => { nd with fn := lit }

/-- The constructor of `klut_network` from a storage, `include/database/network/klut_network.hpp` 77-82, with `_init` (85-142): a node is
appended whatever the storage holds, the first tables are put into the cache, and the literals of the two constants are set. -/
def reinit (N : Klut) : Klut :=
  { N with
      nodes := setFn (setFn (N.nodes ++ [{ children := [], fn := 0 }]) 0 0) 1 1
      cache := N.cache.inserts Klut.initTables }

/-- A stored LUT network with its visited marks and traversal counter (`include/database/network/klut_network.hpp` 38, 46), which `Klut` leaves out.
Simplification: natural numbers for both, functions for the marks. -/
structure Lut where
  net : Klut
  vis : Nat → Nat
  trav : Nat

/-- fanins of a LUT as signals, `foreach_fanin`, `include/database/network/klut_network.hpp` 720-728 -/
def lutFanins (N : Klut) (n : Nat) : List Sig :=
  match N.fanins n with
  | some cs => cs.map fun c => ⟨c, false⟩
  | none => []

/-- `depth_view{ klut }` with unit cost, `include/database/views/depth_view.hpp` 120-139 -/
def lutDepth (s : Lut) (fuel : Nat) : Option (Topo.DSt × Nat) :=
  Topo.updateLevels ⟨lutFanins s.net, fun n => Klut.isConstant n || s.net.isPi n, fun _ => 1, false⟩
    ((s.net.outputs.take s.net.numPos).map fun o => ⟨o, false⟩) s.vis s.trav fuel

/-- `print_stats` with type 1, `cli/command/print_stats.hpp` 36-38: the line and the stored network afterwards; the storage is shared, so the stored
network has the appended node as well. -/
def lutStats (s : Lut) (fuel : Nat) : Option (Line × Lut) :=
  let M : Lut := ⟨reinit s.net, Topo.upd s.vis s.net.nodes.length 0, s.trav⟩
  match lutDepth M fuel with
  | none => none
  | some (t, d) =>
    some (⟨shown M.net.numPis, shown M.net.numPos, shown M.net.numGates, shown d⟩, ⟨M.net, t.vis, s.trav + 1⟩)

/-- What a user may do with one stored LUT network: print its numbers, or write it (`cli/command/print_stats.hpp` 31-39, `cli/command/io/write_fpga.hpp`
18-31). The writer changes nothing (`write_fpga.hpp` 23: a reference). -/
inductive Cmd where
  | print
  | write
deriving DecidableEq, Repr

/-- A session after `map_fpga`: the printed lines and the network at the end (`libs/alice/include/alice/cli.hpp` 266-307). -/
def run (fuel : Nat) : List Cmd → Lut → Option (List Line × Lut)
  | [], s => some ([], s)
  | .print :: cs, s =>
    match lutStats s fuel with
    | none => none
    | some (l, s') => (run fuel cs s').map fun r => (l :: r.1, r.2)
  | .write :: cs, s => run fuel cs s

end Verif.Cli.Stats
