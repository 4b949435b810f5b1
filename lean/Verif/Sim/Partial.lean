import Verif.Aig.Basic

set_option autoImplicit false

/-!
# Simulation with partial truth tables

Model of the simulation of an AIG with patterns that are added over time:
`detail::simulate_fanin_cone`, `detail::re_simulate_fanin_cone`, `detail::update_const_pi`,
`simulate_node` and `simulate_nodes` for `partial_truth_table`
(include/operations/algorithms/simulation.hpp 592-732), the simulator they read (lines 154-255), the two
versions of `aig_network::compute` for partial truth tables (aig_network.hpp 1170-1210) and `resize`
(libs/kitty/include/kitty/partial_truth_table.hpp 140-171).

A partial truth table is the list of its bits.  The code stores them in blocks of 64 with zeros after the
last bit; all operations below keep these zeros (`mask_bits`).  Assertions are off in the release build.
-/

namespace Verif.PSim

open Verif Verif.Aig

/-- A partial truth table, partial_truth_table.hpp 50-59: the bits, least significant first. -/
abbrev Tab := List Bool

/-- `resize`, partial_truth_table.hpp 163-171: zeros are appended, or bits are cut off at the end. -/
def resize (t : Tab) (l : Nat) : Tab := t.take l ++ List.replicate (l - t.length) false

/-- the position of the first bit of the last block of a table with `l` bits; `_bits` has
`((l - 1) >> 6) + 1` blocks (partial_truth_table.hpp 167). -/
def lastStart (l : Nat) : Nat := 64 * ((l - 1) / 64)

/-- bit `j` of `_bits.back()`; the bits after the end of the table are zero. -/
def lastBit (t : Tab) (j : Nat) : Bool :=
  match t[lastStart t.length + j]? with
  | some b => b
  | none => false

/-- `aig_network::compute`, aig_network.hpp 1172-1185, for partial truth tables.  `none`: the tables have
different lengths, and `binary_operation` (kitty/algorithm.hpp 122-130), whose assertion is off, may read
past the end of the second.  Simplification: unequal lengths with as many blocks are `none` too. -/
def computeAll (c0 c1 : Sig) (t1 t2 : Tab) : Option Tab :=
  if t1.length = t2.length then
    some (List.zipWith (fun a b => (a ^^ c0.compl) && (b ^^ c1.compl)) t1 t2)
  else none

/-- the in-place `aig_network::compute`, aig_network.hpp 1189-1210: the result is resized, and its last
block is computed from the last blocks of the fanins.  `none` for `back()` of an empty vector. -/
def computeLast (c0 c1 : Sig) (r t1 t2 : Tab) : Option Tab :=
  if t1.length = 0 ∨ t2.length = 0 then none
  else
    let l := t1.length
    some ((resize r l).take (lastStart l) ++ (List.range (l - lastStart l)).map fun j =>
      (lastBit t1 j ^^ c0.compl) && (lastBit t2 j ^^ c1.compl))

/-- `unordered_node_map<partial_truth_table, Ntk>`, node_map.hpp 197-288: `none` for nodes that `has` does
not find. -/
abbrev Map := Nat → Option Tab

/-- `node_to_value[n] = t`, node_map.hpp 242-245. -/
def set (m : Map) (n : Nat) (t : Tab) : Map := fun k => if k = n then some t else m k

/-- the value that `node_to_value[n]` refers to, node_map.hpp 242-245: the empty table for a new entry. -/
def get (m : Map) (n : Nat) : Tab :=
  match m n with
  | some t => t
  | none => []

/-- The simulator, simulation.hpp 154-255: the rows of the inputs and the number of patterns. -/
structure Simulator where
  patterns : List Tab
  bits : Nat
deriving DecidableEq, Repr

/-- simulation.hpp 602-609 and 620-627: simulate the node if it has no value, or its last block if its value
is of another length; `rec` are the two functions for its cone. -/
def visit (rec : Bool → Nat → Map → Option Map) (L k : Nat) (m : Map) : Option Map :=
  match m k with
  | none => rec true k m
  | some t => if t.length ≠ L then rec false k m else some m

/-- `simulate_fanin_cone` (`fresh = true`), simulation.hpp 597-613, and `re_simulate_fanin_cone`
(`fresh = false`), lines 615-631, which differ in the last statement only.  `L` is `sim.num_bits()`.
`none`: the node does not exist, or has no fanins and `compute` dereferences the begin of an empty vector,
or one of the calls fails, or the fuel is used up. -/
def cone (N : Aig) (L : Nat) : Nat → Bool → Nat → Map → Option Map
  | 0, _, _, _ => none
  | fuel + 1, fresh, n, m =>
    match N.nodes[n]? with
    | none => none
    | some nd =>
      if n == 0 || N.isCi n then none
      else
        match visit (cone N L fuel) L nd.c0.index m with
        | none => none
        | some m1 =>
          match m1 nd.c0.index with
          | none => none
          | some t1 =>
            match visit (cone N L fuel) L nd.c1.index m1 with
            | none => none
            | some m2 =>
              match m2 nd.c1.index with
              | none => none
              | some t2 =>
                if fresh then
                  match computeAll nd.c0 nd.c1 t1 t2 with
                  | none => none
                  | some t => some (set m2 n t)
                else
                  match computeLast nd.c0 nd.c1 (get m2 n) t1 t2 with
                  | none => none
                  | some t => some (set m2 n t)

/-- the loop over the inputs in `update_const_pi`, simulation.hpp 644-646; `none`: `patterns.at` throws
(line 228). -/
def setPis (S : Simulator) : List Nat → Nat → Map → Option Map
  | [], _, m => some m
  | n :: l, i, m =>
    match S.patterns[i]? with
    | none => none
    | some t => setPis S l (i + 1) (set m n t)

/-- `update_const_pi`, simulation.hpp 633-647; an AIG has one constant node. -/
def updateConstPi (N : Aig) (S : Simulator) (m : Map) : Option Map :=
  setPis S (N.inputs.take N.numPis) 0 (set m 0 (List.replicate S.bits false))

/-- lines 677-684 of simulation.hpp, the same text. -/
def visitNode (N : Aig) (L n : Nat) (m : Map) : Option Map := visit (cone N L (n + 1)) L n m

/-- `simulate_node`, simulation.hpp 660-685.  Line 672 adds an empty table for the constant node if there
is none. -/
def simulateNode (N : Aig) (S : Simulator) (n : Nat) (m : Map) : Option Map :=
  let t0 := get m 0
  let m := set m 0 t0
  if t0.length ≠ S.bits then
    match updateConstPi N S m with
    | none => none
    | some m => visitNode N S.bits n m
  else visitNode N S.bits n m

/-- the loop over the gates with `simulate_whole_tt`, simulation.hpp 715-720: gates with a value are
skipped. -/
def simWhole (N : Aig) (L : Nat) : List Nat → Map → Option Map
  | [], m => some m
  | n :: l, m =>
    match m n with
    | some _ => simWhole N L l m
    | none =>
      match cone N L (n + 1) true n m with
      | none => none
      | some m => simWhole N L l m

/-- the loop over the gates without `simulate_whole_tt`, simulation.hpp 724-730; the assertion of line 725
is off, line 726 adds an empty table for a gate without a value. -/
def simLast (N : Aig) (L : Nat) : List Nat → Map → Option Map
  | [], m => some m
  | n :: l, m =>
    let t := get m n
    let m := set m n t
    if t.length ≠ L then
      match cone N L (n + 1) false n m with
      | none => none
      | some m => simLast N L l m
    else simLast N L l m

/-- `simulate_nodes` for partial truth tables, simulation.hpp 696-732. -/
def simulateNodes (N : Aig) (S : Simulator) (whole : Bool) (m : Map) : Option Map :=
  match updateConstPi N S m with
  | none => none
  | some m => if whole then simWhole N S.bits N.gates m else simLast N S.bits N.gates m

end Verif.PSim
