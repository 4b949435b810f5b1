import Verif.TTCache
import Verif.Isop

set_option autoImplicit false

/-!
# LUT networks

Model of `include/database/network/klut_network.hpp`.
-/

namespace Verif

/-- `klut_storage_node`, klut_network.hpp 41-54 with node.hpp 107-119: children, `data[0].h1` (fan-out
count), `data[0].h2` (user value, also the CI mark), `data[1].h1` (function literal). Simplification: the
visited mark is not modelled; the fan-out count is a natural number. -/
structure KNode where
  children : List Nat
  fn : Nat
  fo : Nat := 0
  value : BitVec 32 := 0#32
deriving DecidableEq, Repr

/-- `klut_storage` with `klut_storage_data`, klut_network.hpp 32-39, 56. -/
structure Klut where
  nodes : List KNode
  inputs : List Nat
  outputs : List Nat
  numPis : Nat
  numPos : Nat
  latches : List Int
  cache : TTCache
deriving DecidableEq, Repr

namespace Klut

/-- table of the bits of a word, `create_from_words`, klut_network.hpp 92-137. -/
def ofWord (n w : Nat) : TT := TT.ofFn n fun p => w.testBit p

/-- tables inserted by `_init`, klut_network.hpp 89-137. -/
def initTables : List TT :=
  [ofWord 0 0, ofWord 1 0x1, ofWord 2 0x8, ofWord 2 0xe, ofWord 2 0x4, ofWord 2 0xd, ofWord 2 0x6,
   ofWord 3 0xe8, ofWord 3 0xd8, ofWord 3 0x96]

/-- constructor with `_init`, klut_network.hpp 71-142 and storage.hpp 44-52. -/
def empty : Klut where
  nodes := [{ children := [], fn := 0 }, { children := [], fn := 1 }]
  inputs := []
  outputs := []
  numPis := 0
  numPos := 0
  latches := []
  cache := TTCache.empty.inserts initTables

/-- `get_constant`, klut_network.hpp 147-150. -/
def getConstant (b : Bool) : Nat := if b then 1 else 0

/-- `create_pi`, klut_network.hpp 152-164. -/
def createPi (N : Klut) : Klut × Nat :=
  ({ N with
      nodes := N.nodes ++ [{ children := [], fn := 2, value := 1#32 }]
      inputs := N.inputs ++ [N.nodes.length]
      numPis := N.numPis + 1 }, N.nodes.length)

/-- `create_ro`, klut_network.hpp 179-190. -/
def createRo (N : Klut) : Klut × Nat :=
  ({ N with
      nodes := N.nodes ++ [{ children := [], fn := 2, value := 3#32 }]
      inputs := N.inputs ++ [N.nodes.length] }, N.nodes.length)

/-- `nodes[i].data[0].h1++`, klut_network.hpp 171, 197, 344-347. Nothing happens here for an index outside the
vector, which is undefined in the code; the theorems only use indices of existing nodes. -/
def incFo (l : List KNode) (i : Nat) : List KNode := l.modify i fun nd => { nd with fo := nd.fo + 1 }

/-- `create_po`, klut_network.hpp 166-177. -/
def createPo (N : Klut) (f : Nat) : Klut :=
  { N with nodes := incFo N.nodes f, outputs := N.outputs ++ [f], numPos := N.numPos + 1 }

/-- `create_ri`, klut_network.hpp 192-202. -/
def createRi (N : Klut) (f : Nat) (reset : Int) : Klut :=
  { N with nodes := incFo N.nodes f, outputs := N.outputs ++ [f], latches := N.latches ++ [reset] }

/-- `set_value`, klut_network.hpp 787-790. -/
def setValue (N : Klut) (n : Nat) (v : BitVec 32) : Klut :=
  { N with nodes := N.nodes.modify n fun nd => { nd with value := v } }

/-- `clear_values`, klut_network.hpp 777-780. -/
def clearValues (N : Klut) : Klut := { N with nodes := N.nodes.map fun nd => { nd with value := 0#32 } }

/-- `incr_value`, klut_network.hpp 792-795. -/
def incrValue (N : Klut) (n : Nat) : Klut :=
  { N with nodes := N.nodes.modify n fun nd => { nd with value := nd.value + 1 } }

/-- `decr_value`, klut_network.hpp 797-800. -/
def decrValue (N : Klut) (n : Nat) : Klut :=
  { N with nodes := N.nodes.modify n fun nd => { nd with value := nd.value - 1 } }

/-- `_create_node`, klut_network.hpp 326-357; no structural hashing, events are not modelled. -/
def createLit (N : Klut) (cs : List Nat) (lit : Nat) : Klut × Nat :=
  (setValue { N with nodes := cs.foldl incFo (N.nodes ++ [{ children := cs, fn := lit }]) } N.nodes.length 0#32,
    N.nodes.length)

/-- `create_node`, klut_network.hpp 359-367. -/
def createNode (N : Klut) (cs : List Nat) (f : TT) : Klut × Nat :=
  if cs.length = 0 then (N, getConstant (!f.isConst0))
  else
    let r := N.cache.insert f
    createLit { N with cache := r.1 } cs r.2

/-- `create_not`, klut_network.hpp 258-261. -/
def createNot (N : Klut) (a : Nat) : Klut × Nat := N.createLit [a] 3
/-- `create_and`, klut_network.hpp 265-268 -/
def createAnd (N : Klut) (a b : Nat) : Klut × Nat := N.createLit [a, b] 4
/-- `create_or`, klut_network.hpp 270-273 -/
def createOr (N : Klut) (a b : Nat) : Klut × Nat := N.createLit [a, b] 6
/-- `create_lt`, klut_network.hpp 275-278 -/
def createLt (N : Klut) (a b : Nat) : Klut × Nat := N.createLit [a, b] 8
/-- `create_le`, klut_network.hpp 280-283 -/
def createLe (N : Klut) (a b : Nat) : Klut × Nat := N.createLit [a, b] 11
/-- `create_xor`, klut_network.hpp 285-288 -/
def createXor (N : Klut) (a b : Nat) : Klut × Nat := N.createLit [a, b] 12
/-- `create_maj`, klut_network.hpp 292-295 -/
def createMaj (N : Klut) (a b c : Nat) : Klut × Nat := N.createLit [a, b, c] 14
/-- `create_ite`, klut_network.hpp 297-300 -/
def createIte (N : Klut) (a b c : Nat) : Klut × Nat := N.createLit [a, b, c] 16
/-- `create_xor3`, klut_network.hpp 302-305 -/
def createXor3 (N : Klut) (a b c : Nat) : Klut × Nat := N.createLit [a, b, c] 18

/-- `is_constant`, klut_network.hpp 216-219. -/
def isConstant (n : Nat) : Bool := decide (n ≤ 1)

/-- `is_ci`, klut_network.hpp 221-225 (an index outside the vector is no CI here). -/
def isCi (N : Klut) (n : Nat) : Bool :=
  match N.nodes[n]? with
  | some nd => nd.value == 1#32 || nd.value == 3#32
  | none => false

/-- `is_pi`, klut_network.hpp 227-230. -/
def isPi (N : Klut) (n : Nat) : Bool :=
  match N.nodes[n]? with
  | some nd => nd.value == 1#32
  | none => false

/-- `is_function`, klut_network.hpp 472-475. -/
def isFunction (N : Klut) (n : Nat) : Bool := decide (1 < n) && !N.isCi n

/-- nodes visited by `foreach_gate`, klut_network.hpp 711-718. -/
def gates (N : Klut) : List Nat := (List.range N.nodes.length).filter fun n => decide (2 ≤ n) && !N.isCi n

/-- fanins visited by `foreach_fanin`, klut_network.hpp 720-728. -/
def fanins (N : Klut) (n : Nat) : Option (List Nat) :=
  if n = 0 ∨ N.isCi n = true then some [] else (N.nodes[n]?).map (·.children)

/-- `node_function`, klut_network.hpp 479-482. -/
def nodeFunction (N : Klut) (n : Nat) : Option TT := N.nodes[n]?.bind fun nd => N.cache.lookup nd.fn

/-- `num_gates`, klut_network.hpp 457-460. -/
def numGates (N : Klut) : Nat := N.nodes.length - N.inputs.length - 2

/-- `compute` on Booleans, klut_network.hpp 732-743; up to 32 fanins, so the 32-bit index does not
overflow. -/
def computeBool (N : Klut) (n : Nat) (xs : List Bool) : Option Bool :=
  (N.nodeFunction n).map fun f => f.get (xs.foldl (fun i b => 2 * i + if b then 1 else 0) 0)

/-- the pattern collected in the inner loop, klut_network.hpp 761-765. -/
def pattern (i : Nat) : Nat → List TT → Nat
  | _, [] => 0
  | j, t :: ts => (if t.get i then 2 ^ j else 0) + pattern i (j + 1) ts

/-- `compute` on truth tables, klut_network.hpp 745-773; `none`: no such node or no fanin tables. -/
def computeTT (N : Klut) (n : Nat) (ts : List TT) : Option TT :=
  match N.nodeFunction n, ts with
  | some f, t :: _ => some (TT.ofFn t.n fun i => f.get (pattern i 0 ts))
  | _, _ => none

end Klut
end Verif
