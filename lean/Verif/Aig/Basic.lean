import Verif.Signal

set_option autoImplicit false

/-!
# AIG network: model of the construction API

Model of `include/database/network/aig_network.hpp` (construction part) and of
`include/database/network/details/{node,storage}.hpp`.

The chained hash table is represented here by the list of node indices stored in it (most recently
inserted first); `Verif/Strash.lean` models the concrete buckets/links and proves that they implement
such a list.
-/

namespace Verif

/-- One node, `fixed_node<2,...>` in `include/database/network/details/node.hpp` 90-102 with the use
of the state words described in `aig_network.hpp` 30-58: `data[0].h1` = fan-out count with the dead flag
in its top bit, `data[0].h2` = user value, `data[1].h1` = visited mark, `data[1].h2` = flags (phase).
Simplification: fields of the packed state words are separate; marks A/B are not modelled; the `next`
link is in `Verif/Strash.lean`. -/
structure Node where
  c0 : Sig
  c1 : Sig
  fo : Nat := 0
  dead : Bool := false
  value : Nat := 0
  visited : Nat := 0
  phase : Bool := false
deriving DecidableEq, Repr

/-- The storage of a network, `details/storage.hpp` 42-138 with `aig_storage_data`
(`aig_network.hpp` 36-44: `num_pis`, `num_pos`, `latches`, `trav_id`). -/
structure Aig where
  nodes : List Node
  inputs : List Nat
  outputs : List Sig
  /-- indices of the nodes in the hash table, most recent first; `num_entries` is its length -/
  table : List Nat
  numPis : Nat
  numPos : Nat
  latches : List Int
  travId : Nat
deriving DecidableEq, Repr

namespace Aig

/-- Fresh network: constructor of `storage`, storage.hpp 44-52; node 0 is value-initialised, hence
both children words are 0. -/
def empty : Aig where
  nodes := [{ c0 := ⟨0, false⟩, c1 := ⟨0, false⟩ }]
  inputs := []
  outputs := []
  table := []
  numPis := 0
  numPos := 0
  latches := []
  travId := 0

/-- `size()`, aig_network.hpp 721-724. -/
def size (N : Aig) : Nat := N.nodes.length

/-- `is_ci`, aig_network.hpp 255-258 (true for node 0 as well; out-of-range access is not a CI here). -/
def isCi (N : Aig) (n : Nat) : Bool :=
  match N.nodes[n]? with
  | some nd => nd.c0 == nd.c1
  | none => false

/-- `is_pi`, aig_network.hpp 260-263. -/
def isPi (N : Aig) (n : Nat) : Bool :=
  match N.nodes[n]? with
  | some nd => nd.c0 == nd.c1 && decide (nd.c0.data < N.numPis)
  | none => false

/-- `is_dead`, aig_network.hpp 590-593. -/
def isDead (N : Aig) (n : Nat) : Bool :=
  match N.nodes[n]? with
  | some nd => nd.dead
  | none => false

/-- `fanout_size`, aig_network.hpp 775-778. -/
def fanoutSize (N : Aig) (n : Nat) : Nat :=
  match N.nodes[n]? with
  | some nd => nd.fo
  | none => 0

/-- `phase(n)`, aig_network.hpp 1268-1280. -/
def phaseOf (N : Aig) (n : Nat) : Bool :=
  match N.nodes[n]? with
  | some nd => nd.phase
  | none => false

/-- `num_gates`, aig_network.hpp 763-766: the entry counter of the hash table. -/
def numGates (N : Aig) : Nat := N.table.length

/-- nodes visited by `foreach_gate`, aig_network.hpp 1082-1089. -/
def gates (N : Aig) : List Nat :=
  (List.range N.nodes.length).filter fun n => n != 0 && !N.isCi n && !N.isDead n

/-- `nodes[i].data[0].h1++`, e.g. aig_network.hpp 208, 358-359. -/
def incFo (N : Aig) (i : Nat) : Aig :=
  { N with nodes := N.nodes.modify i fun nd => { nd with fo := nd.fo + 1 } }

/-- `create_pi`, aig_network.hpp 189-201. -/
def createPi (N : Aig) : Aig × Sig :=
  let d := Sig.ofData N.inputs.length
  ({ N with
      nodes := N.nodes ++ [{ c0 := d, c1 := d }]
      inputs := N.inputs ++ [N.nodes.length]
      numPis := N.numPis + 1 }, ⟨N.nodes.length, false⟩)

/-- `create_ro`, aig_network.hpp 215-224. -/
def createRo (N : Aig) : Aig × Sig :=
  let d := Sig.ofData N.inputs.length
  ({ N with
      nodes := N.nodes ++ [{ c0 := d, c1 := d }]
      inputs := N.inputs ++ [N.nodes.length] }, ⟨N.nodes.length, false⟩)

/-- `create_po`, aig_network.hpp 203-213 (returned position omitted). -/
def createPo (N : Aig) (f : Sig) : Aig :=
  let N := N.incFo f.index
  { N with outputs := N.outputs ++ [f], numPos := N.numPos + 1 }

/-- `create_ri`, aig_network.hpp 226-236. -/
def createRi (N : Aig) (f : Sig) (reset : Int) : Aig :=
  let N := N.incFo f.index
  { N with outputs := N.outputs ++ [f], latches := N.latches ++ [reset] }

/-- does the stored node `t` have the children pair `(a,b)`; `fixed_node::operator==`,
node.hpp 98-101. -/
def hasKids (N : Aig) (a b : Sig) (t : Nat) : Bool :=
  match N.nodes[t]? with
  | some nd => nd.c0 == a && nd.c1 == b
  | none => false

/-- `hash_find`, storage.hpp 66-75; `none` is the return value 0. -/
def hashFind (N : Aig) (a b : Sig) : Option Nat := N.table.find? (N.hasKids a b)

/-- the input ordering step `if (a.index > b.index) std::swap(a, b)`, aig_network.hpp 316-319. -/
def order (a b : Sig) : Sig × Sig := if a.index > b.index then (b, a) else (a, b)

/-- allocation of a new AND node, aig_network.hpp 343-366 (events omitted). -/
def addAnd (N : Aig) (a b : Sig) : Aig × Sig :=
  let index := N.nodes.length
  let ph := (Bool.xor (N.phaseOf a.index) a.compl) && (Bool.xor (N.phaseOf b.index) b.compl)
  let N1 : Aig := { N with
    nodes := N.nodes ++ [{ c0 := a, c1 := b, phase := ph }]
    table := index :: N.table }
  ((N1.incFo a.index).incFo b.index, ⟨index, false⟩)

/-- `create_and`, aig_network.hpp 313-367. -/
def createAnd (N : Aig) (a0 b0 : Sig) : Aig × Sig :=
  let p := order a0 b0
  let a := p.1
  let b := p.2
  if a.index = b.index then
    (N, if a.compl = b.compl then a else Sig.const false)
  else if a.index = 0 then
    (N, if a.compl then b else Sig.const false)
  else
    match N.hashFind a b with
    | some t => (N, ⟨t, false⟩)
    | none => N.addAnd a b

/-- `find_and`, aig_network.hpp 290-311. -/
def findAnd (N : Aig) (a0 b0 : Sig) : Bool :=
  let p := order a0 b0
  let a := p.1
  let b := p.2
  if a.index = b.index ∨ a.index = 0 then true
  else (N.hashFind a b).isSome

/-- `create_nand`, aig_network.hpp 369-372. -/
def createNand (N : Aig) (a b : Sig) : Aig × Sig :=
  let (N, s) := N.createAnd a b
  (N, s.not)

/-- `create_or`, aig_network.hpp 374-377. -/
def createOr (N : Aig) (a b : Sig) : Aig × Sig :=
  let (N, s) := N.createAnd a.not b.not
  (N, s.not)

/-- `create_nor`, aig_network.hpp 379-382. -/
def createNor (N : Aig) (a b : Sig) : Aig × Sig := N.createAnd a.not b.not

/-- `create_lt`, aig_network.hpp 384-387. -/
def createLt (N : Aig) (a b : Sig) : Aig × Sig := N.createAnd a.not b

/-- `create_le`, aig_network.hpp 389-392. -/
def createLe (N : Aig) (a b : Sig) : Aig × Sig :=
  let (N, s) := N.createAnd a b.not
  (N, s.not)

/-- `create_xor`, aig_network.hpp 394-400. -/
def createXor (N : Aig) (a b : Sig) : Aig × Sig :=
  let fcompl := Bool.xor a.compl b.compl
  let (N, c1) := N.createAnd a.pos b.neg
  let (N, c2) := N.createAnd b.pos a.neg
  let (N, s) := N.createAnd c1.not c2.not
  (N, s.xorb (!fcompl))

/-- `create_xnor`, aig_network.hpp 402-405. -/
def createXnor (N : Aig) (a b : Sig) : Aig × Sig :=
  let (N, s) := N.createXor a b
  (N, s.not)

/-- `create_ite`, aig_network.hpp 409-425.  The two inner `create_and` calls are function arguments,
whose evaluation order C++ leaves open; the model takes left to right (the function theorem does not
depend on it). -/
def createIte (N : Aig) (cond0 then0 else0 : Sig) : Aig × Sig :=
  let sw := decide (then0.index < else0.index)
  let ft1 := if sw then else0 else then0
  let fe1 := if sw then then0 else else0
  let cond := if sw then cond0.not else cond0
  let fCompl := ft1.compl
  let ft := if fCompl then ft1.pos else ft1
  let fe := if fCompl then fe1.not else fe1
  let (N, p) := N.createAnd cond.not fe
  let (N, q) := N.createAnd cond ft
  let (N, s) := N.createAnd p.not q.not
  (N, s.xorb (!fCompl))

/-- `create_maj`, aig_network.hpp 427-430 (argument evaluation order as in `createIte`). -/
def createMaj (N : Aig) (a b c : Sig) : Aig × Sig :=
  let (N, p) := N.createAnd a b
  let (N, q) := N.createAnd a.not b.not
  let (N, r) := N.createAnd c q.not
  N.createOr p r

/-- `create_xor3`, aig_network.hpp 432-435. -/
def createXor3 (N : Aig) (a b c : Sig) : Aig × Sig :=
  let (N, s) := N.createXor a b
  N.createXor s c

/-- `tree_reduce`, include/utils/range.hpp 25-45, for an operation that threads the network. -/
def treeReduce (op : Aig → Sig → Sig → Aig × Sig) (init : Sig) (N : Aig) (fs : List Sig) : Aig × Sig :=
  match fs with
  | [] => (N, init)
  | [a] => (N, a)
  | [a, b] => op N a b
  | a :: b :: c :: l =>
    let fs := a :: b :: c :: l
    let m := fs.length / 2
    let r1 := treeReduce op init N (fs.take m)
    let r2 := treeReduce op init r1.1 (fs.drop m)
    op r2.1 r1.2 r2.2
termination_by fs.length
decreasing_by all_goals (simp +zetaDelta; try omega)

/-- `create_nary_and`, aig_network.hpp 439-442. -/
def createNaryAnd (N : Aig) (fs : List Sig) : Aig × Sig := treeReduce createAnd (Sig.const true) N fs

/-- `create_nary_or`, aig_network.hpp 444-447. -/
def createNaryOr (N : Aig) (fs : List Sig) : Aig × Sig := treeReduce createOr (Sig.const false) N fs

/-- `create_nary_xor`, aig_network.hpp 449-452. -/
def createNaryXor (N : Aig) (fs : List Sig) : Aig × Sig := treeReduce createXor (Sig.const false) N fs

end Aig
end Verif
