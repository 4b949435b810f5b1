import Verif.Signal

set_option autoImplicit false

/-!
# The chained hash table of a network storage

Model of `include/database/network/details/storage.hpp` 54-126 (`abc_hash`, `hash_find`,
`hash_reserve`, `hash_insert`, `hash_erase`).  A chain that never reaches 0 or an access outside a
vector gives the outcome `none`.
-/

namespace Verif.Strash

/-- the part of `fixed_node<2,..>` the hash table uses, details/node.hpp 90-102. -/
structure SNode where
  c0 : Sig
  c1 : Sig
  next : Nat := 0
deriving DecidableEq, Repr

/-- the part of `storage` the hash table uses, details/storage.hpp 128-135. -/
structure Tab where
  nodes : List SNode
  hash : List Nat
  num : Nat
deriving DecidableEq, Repr

/-- `storage()`, storage.hpp 44-52: one (constant) node, 10000 empty buckets. -/
def Tab.init : Tab := ⟨[⟨⟨0, false⟩, ⟨0, false⟩, 0⟩], List.replicate 10000 0, 0⟩

/-- `abc_hash`, storage.hpp 56-64 (64-bit wrap-around; a zero size is caught by the bucket lookup). -/
def abcHash (a b : Sig) (size : Nat) : Nat :=
  (a.index * 7937 + b.index * 2971 + a.compl.toNat * 911 + b.compl.toNat * 353) % 2 ^ 64 % size

/-- the loop of `hash_find`, storage.hpp 70-73; `some 0` is "not found", `none` is "no end of the chain
within the fuel" or an access outside the node vector. -/
def walkFind (nodes : List SNode) (a b : Sig) : Nat → Nat → Option Nat
  | 0, _ => none
  | f + 1, cur =>
    if cur = 0 then some 0
    else match nodes[cur]? with
      | none => none
      | some nd => if nd.c0 = a ∧ nd.c1 = b then some cur else walkFind nodes a b f nd.next

/-- `hash_find`, storage.hpp 66-75.  A chain without repetition has at most `nodes.length` members. -/
def Tab.find (T : Tab) (a b : Sig) : Option Nat :=
  match T.hash[abcHash a b T.hash.length]? with
  | none => none
  | some h => walkFind T.nodes a b (T.nodes.length + 1) h

/-- writing the `next` field of one node -/
def setNext (nodes : List SNode) (i nx : Nat) : List SNode :=
  nodes.modify i fun nd => { nd with next := nx }

/-- inner loop of `hash_reserve`, storage.hpp 83-90. -/
def walkMove (size : Nat) : Nat → List SNode → List Nat → Nat → Option (List SNode × List Nat)
  | 0, _, _, _ => none
  | f + 1, nodes, nh, cur =>
    if cur = 0 then some (nodes, nh)
    else match nodes[cur]? with
      | none => none
      | some nd =>
        let key := abcHash nd.c0 nd.c1 size
        match nh[key]? with
        | none => none
        | some h => walkMove size f (setNext nodes cur h) (nh.set key cur) nd.next

/-- outer loop of `hash_reserve`, storage.hpp 81-91. -/
def moveAll (size fuel : Nat) : List Nat → List SNode → List Nat → Option (List SNode × List Nat)
  | [], nodes, nh => some (nodes, nh)
  | h :: hs, nodes, nh =>
    match walkMove size fuel nodes nh h with
    | none => none
    | some (nodes, nh) => moveAll size fuel hs nodes nh

/-- `hash_reserve`, storage.hpp 77-93. -/
def Tab.reserve (T : Tab) (size : Nat) : Option Tab :=
  match moveAll size (T.nodes.length + 1) T.hash T.nodes (List.replicate size 0) with
  | none => none
  | some (nodes, nh) => some { T with nodes := nodes, hash := nh }

/-- tail of `hash_insert`, storage.hpp 101-104. -/
def Tab.push (T : Tab) (a b : Sig) (index : Nat) : Option Tab :=
  let key := abcHash a b T.hash.length
  match T.hash[key]?, T.nodes[index]? with
  | some h, some _ =>
    some { nodes := setNext T.nodes index h, hash := T.hash.set key index, num := T.num + 1 }
  | _, _ => none

/-- `hash_insert`, storage.hpp 95-105.  `grow` stands for `uint64_t(3.1415f * size)`, whose rounding is
not modelled. -/
def Tab.insert (grow : Nat → Nat) (T : Tab) (a b : Sig) (index : Nat) : Option Tab :=
  if T.num > 2 * T.hash.length then
    match T.reserve (grow T.hash.length) with
    | none => none
    | some T => T.push a b index
  else T.push a b index

/-- loop of `hash_erase`, storage.hpp 111-115: final `(pre, cur)`. -/
def walkErase (nodes : List SNode) (a b : Sig) : Nat → Nat → Nat → Option (Nat × Nat)
  | 0, _, _ => none
  | f + 1, pre, cur =>
    match nodes[cur]? with
    | none => none
    | some nd =>
      if (nd.c0 = a ∧ nd.c1 = b) ∨ nd.next = 0 then some (pre, cur)
      else walkErase nodes a b f cur nd.next

/-- `hash_erase`, storage.hpp 107-126 (the assertion in line 116 is off in release builds; the counter
is a `Nat`, so the wrap-around below zero of an erase on an empty table is not modelled). -/
def Tab.erase (T : Tab) (a b : Sig) : Option Tab :=
  let key := abcHash a b T.hash.length
  match T.hash[key]? with
  | none => none
  | some h =>
    match walkErase T.nodes a b (T.nodes.length + 1) h h with
    | none => none
    | some (pre, cur) =>
      match T.nodes[cur]? with
      | none => none
      | some nd =>
        if cur = h then some { T with hash := T.hash.set key nd.next, num := T.num - 1 }
        else some { T with nodes := setNext T.nodes pre nd.next, num := T.num - 1 }

/-- `nodes.emplace_back()` followed by writing the children, as in aig_network.hpp 343-351
(the new node's `next` is 0, node.hpp 96). -/
def Tab.newNode (T : Tab) (a b : Sig) : Tab := { T with nodes := T.nodes ++ [⟨a, b, 0⟩] }

/-- `node.children[0] = ..; node.children[1] = ..` in `replace_in_node`, aig_network.hpp 523-524. -/
def Tab.setKids (T : Tab) (i : Nat) (a b : Sig) : Tab :=
  { T with nodes := T.nodes.modify i fun nd => { nd with c0 := a, c1 := b } }

/-- the calls a network makes on its storage -/
inductive Op
  | newNode (a b : Sig)
  | insert (i : Nat)
  | erase (i : Nat)
  | setKids (i : Nat) (a b : Sig)
  | reserve (size : Nat)
deriving DecidableEq, Repr

/-- one call; `hash_insert(node, i)` and `hash_erase(node)` are always given the node object itself
(aig_network.hpp 352, 520-525, 568). -/
def Tab.step (grow : Nat → Nat) (T : Tab) : Op → Option Tab
  | .newNode a b => some (T.newNode a b)
  | .insert i => match T.nodes[i]? with
    | none => none
    | some nd => T.insert grow nd.c0 nd.c1 i
  | .erase i => match T.nodes[i]? with
    | none => none
    | some nd => T.erase nd.c0 nd.c1
  | .setKids i a b => some (T.setKids i a b)
  | .reserve k => T.reserve k

/-- a sequence of calls -/
def Tab.run (grow : Nat → Nat) (T : Tab) : List Op → Option Tab
  | [] => some T
  | o :: os => match T.step grow o with
    | none => none
    | some T => T.run grow os

end Verif.Strash
