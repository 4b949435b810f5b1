import Verif.Cli.Stats
import Verif.Io.Ident

set_option autoImplicit false

/-!
# The writer of drawings

Model of `write_dot`, `include/operations/io/detail/write_dot.hpp` 34-108 and 300-382, with the default drawer, for AIGs and LUT networks
(`cli/command/io/write_dot.hpp` 21-44). Indices are natural numbers instead of 32-bit numbers. The three string streams are lists of lines; every line ends with a newline in the file.
-/

namespace Verif.Io.Dot

/-- What the writer asks of a network: `foreach_node`, `is_constant`, `is_pi`, `foreach_fanin`, `foreach_po`, and the level in the view of the drawer
(`include/operations/io/detail/write_dot.hpp` 64-72, 303-308). -/
structure View where
  nodes : List Nat
  isConst : Nat → Bool
  isPi : Nat → Bool
  fanins : Nat → List Sig
  pos : List Sig
  level : Nat → Nat

/-- `node_shape`, `include/operations/io/detail/write_dot.hpp` 48-62 -/
def shape (V : View) (n : Nat) : Text :=
  if V.isConst n then "box".toList else if V.isPi n then "triangle".toList else "ellipse".toList

/-- `node_fillcolor`, `include/operations/io/detail/write_dot.hpp` 81-84 -/
def color (V : View) (n : Nat) : Text := if V.isConst n || V.isPi n then "snow2".toList else "white".toList

/-- `signal_style`, `include/operations/io/detail/write_dot.hpp` 101-104 -/
def style (f : Sig) : Text := if f.compl then "dashed".toList else "solid".toList

/-- line of a node, `include/operations/io/detail/write_dot.hpp` 315-319; the label is the index (43-46) -/
def nodeLine (V : View) (n : Nat) : Text :=
  dec n ++ (" [label=\"".toList ++ (dec n ++ ("\",shape=".toList ++ (shape V n ++ (",style=filled,fillcolor=".toList ++ (color V n ++ "]".toList))))))

/-- line of a fanin, `include/operations/io/detail/write_dot.hpp` 325-328 -/
def edgeLine (n : Nat) (f : Sig) : Text :=
  dec f.index ++ (" -> ".toList ++ (dec n ++ (" [style=".toList ++ (style f ++ "]".toList))))

/-- lines of the fanins of a node, `include/operations/io/detail/write_dot.hpp` 320-331; the default drawer draws all signals (93-99) -/
def edgeLines (V : View) (n : Nat) : List Text :=
  if !V.isConst n && !V.isPi n then (V.fanins n).map (edgeLine n) else []

/-- one round of `level_to_node_indexes`, `include/operations/io/detail/write_dot.hpp` 333-338 -/
def addLevel (t : List (List Nat)) (lvl n : Nat) : List (List Nat) :=
  (if t.length ≤ lvl then t ++ List.replicate (lvl + 1 - t.length) [] else t).modify lvl (· ++ [n])

/-- the table of levels after the loop, `include/operations/io/detail/write_dot.hpp` 312-339 -/
def levels (V : View) : List (List Nat) := V.nodes.foldl (fun t n => addLevel t (V.level n) n) []

/-- line of a level, `include/operations/io/detail/write_dot.hpp` 341-346 -/
def rankLine (ns : List Nat) : Text := "{rank = same; ".toList ++ (ns.flatMap (fun n => dec n ++ "; ".toList) ++ "}".toList)

/-- line of an output, `include/operations/io/detail/write_dot.hpp` 350, with 74-79 and 86-91 -/
def outLine (i : Nat) : Text := "po".toList ++ (dec i ++ " [shape=invtriangle,style=filled,fillcolor=snow2]".toList)

/-- line of the signal of an output, `include/operations/io/detail/write_dot.hpp` 351-354 -/
def outEdgeLine (i : Nat) (f : Sig) : Text :=
  dec f.index ++ (" -> ".toList ++ ("po".toList ++ (dec i ++ (" [style=".toList ++ (style f ++ "]".toList)))))

/-- last line of the levels, `include/operations/io/detail/write_dot.hpp` 348, 355, 357 -/
def outRankLine (k : Nat) : Text :=
  "{rank = same; ".toList ++ ((List.range k).flatMap (fun i => "po".toList ++ (dec i ++ "; ".toList)) ++ "}".toList)

/-- the lines between the second and the last, in the order of the streams, `include/operations/io/detail/write_dot.hpp` 312-357, 361 -/
def body (V : View) : List Text :=
  (V.nodes.map (nodeLine V) ++ (List.range V.pos.length).map outLine) ++
    ((V.nodes.flatMap (edgeLines V) ++ V.pos.mapIdx outEdgeLine) ++ ((levels V).map rankLine ++ [outRankLine V.pos.length]))

/-- the file, `include/operations/io/detail/write_dot.hpp` 359-361 -/
def write (V : View) : Text :=
  ("digraph {".toList :: "rankdir=BT;".toList :: (body V ++ ["}".toList])).flatMap (· ++ ['\n'])

/-- nodes visited by `foreach_node` of an AIG, `include/database/network/aig_network.hpp` 993-999 -/
def aigNodes (N : Aig) : List Nat := (List.range N.nodes.length).filter fun n => !N.isDead n

/-- what the writer sees of an AIG whose levels are `lev`, `include/database/network/aig_network.hpp` 250-253, 993-1125 -/
def aigView (N : Aig) (lev : Nat → Nat) : View :=
  ⟨aigNodes N, fun n => n == 0, N.isPi, Topo.aigFanins N, N.outputs.take N.numPos, lev⟩

/-- `write_dot` of an AIG, `include/operations/io/detail/write_dot.hpp` 300-362; `none`: the view of the drawer (69) does not come to an end -/
def writeAig (N : Aig) (fuel : Nat) : Option Text :=
  match Topo.depthView N false fuel with
  | none => none
  | some (s, _) => some (write (aigView N s.lev))

/-- what the writer sees of a LUT network whose levels are `lev`, `include/database/network/klut_network.hpp` 216-230, 623-728 -/
def lutView (N : Klut) (lev : Nat → Nat) : View :=
  ⟨List.range N.nodes.length, Klut.isConstant, N.isPi, Cli.Stats.lutFanins N, (N.outputs.take N.numPos).map fun o => ⟨o, false⟩, lev⟩

/-- `write_dot` of a LUT network, `include/operations/io/detail/write_dot.hpp` 300-362 -/
def writeLutNet (s : Cli.Stats.Lut) (fuel : Nat) : Option Text :=
  match Cli.Stats.lutDepth s fuel with
  | none => none
  | some (t, _) => some (write (lutView s.net t.lev))

end Verif.Io.Dot
