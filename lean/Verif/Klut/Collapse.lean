import Verif.Klut.Basic
import Verif.Klut.Mapping
import Verif.Topo.Basic

set_option autoImplicit false

/-!
# Mapped AIG to LUT network

Model of `include/operations/algorithms/network_to_klut.hpp` for a mapped AIG as source and a LUT network as
destination. Names are not modelled. `none` stands for undefined behaviour.
-/

namespace Verif.Collapse

/-- `driver_type`, network_to_klut.hpp 43-50 -/
inductive Driver
  | none | pos | neg | mixed
deriving DecidableEq, Repr

/-- the `switch` on an output, network_to_klut.hpp 58-74 -/
def Driver.byPo (d : Driver) (compl : Bool) : Driver :=
  match d with
  | .none => if compl then .neg else .pos
  | .pos => if compl then .mixed else .pos
  | .neg => if compl then .neg else .mixed
  | .mixed => .mixed

/-- `if ( node_driver_type[fanin] == driver_type::neg ) …`, network_to_klut.hpp 82-85 -/
def Driver.byFanin (d : Driver) : Driver :=
  match d with
  | .neg => .mixed
  | d => d

/-- writing one entry of a node map -/
def upd {α : Type} (f : Nat → α) (n : Nat) (a : α) : Nat → α := fun k => if k = n then a else f k

/-- loop over the outputs, network_to_klut.hpp 57-74 -/
def poDrivers : List Sig → (Nat → Driver) → Nat → Driver
  | [], d => d
  | s :: l, d => poDrivers l (upd d s.index ((d s.index).byPo s.compl))

/-- inner loop over the leaves of a cell, network_to_klut.hpp 81-86 -/
def faninDrivers : List Nat → (Nat → Driver) → Nat → Driver
  | [], d => d
  | n :: l, d => faninDrivers l (upd d n (d n).byFanin)

/-- the nodes a cell is built for: not constant, not a primary input, and a cell root,
network_to_klut.hpp 78-79, 151-152. -/
def isCell (N : Aig) (M : Mapping) (n : Nat) : Option Bool :=
  if n = 0 ∨ N.isPi n then some false else M.isCellRoot n

/-- loop over all nodes, network_to_klut.hpp 76-87 -/
def cellDrivers (N : Aig) (M : Mapping) : List Nat → (Nat → Driver) → Option (Nat → Driver)
  | [], d => some d
  | n :: l, d => match isCell N M n with
    | none => none
    | some false => cellDrivers N M l d
    | some true => match M.cellFanins n with
      | none => none
      | some cs => cellDrivers N M l (faninDrivers cs d)

/-- nodes visited by `foreach_node`, aig_network.hpp 993-1000 -/
def allNodes (N : Aig) : List Nat := (List.range N.nodes.length).filter fun n => !N.isDead n

/-- destination, `node_to_signal` and `opposites`; absent entries read as signal 0. -/
structure St where
  dest : Klut
  sig : Nat → Nat
  opp : Nat → Nat

/-- constants, network_to_klut.hpp 89-115; both constants of an AIG are node 0. -/
def constants (d : Nat → Driver) (K : Klut) : St :=
  match d 0 with
  | .neg => ⟨K, upd (fun _ => 0) 0 (Klut.getConstant true), fun _ => 0⟩
  | .mixed => ⟨K, upd (fun _ => 0) 0 (Klut.getConstant false), upd (fun _ => 0) 0 (Klut.getConstant true)⟩
  | _ => ⟨K, upd (fun _ => 0) 0 (Klut.getConstant false), fun _ => 0⟩

/-- a primary input, network_to_klut.hpp 118-139 -/
def makePi (d : Nat → Driver) (s : St) (n : Nat) : St :=
  let r := s.dest.createPi
  match d n with
  | .neg =>
    let q := r.1.createNot r.2
    ⟨q.1, upd s.sig n q.2, s.opp⟩
  | .mixed =>
    let q := r.1.createNot r.2
    ⟨q.1, upd s.sig n r.2, upd s.opp n q.2⟩
  | _ => ⟨r.1, upd s.sig n r.2, s.opp⟩

/-- all primary inputs, network_to_klut.hpp 117-146 -/
def makePis (d : Nat → Driver) : List Nat → St → St
  | [], s => s
  | n :: l, s => makePis d l (makePi d s n)

/-- a cell, network_to_klut.hpp 154-175 -/
def makeCell (d : Nat → Driver) (s : St) (n : Nat) (cs : List Nat) (f : TT) : St :=
  let children := cs.map s.sig
  match d n with
  | .neg =>
    let r := s.dest.createNode children f.not
    ⟨r.1, upd s.sig n r.2, s.opp⟩
  | .mixed =>
    let r := s.dest.createNode children f
    let q := r.1.createNode children f.not
    ⟨q.1, upd s.sig n r.2, upd s.opp n q.2⟩
  | _ =>
    let r := s.dest.createNode children f
    ⟨r.1, upd s.sig n r.2, s.opp⟩

/-- loop over the nodes, network_to_klut.hpp 148-176 (topological order) and 324-352 (choice version) -/
def makeCells (N : Aig) (M : Mapping) (d : Nat → Driver) : List Nat → St → Option St
  | [], s => some s
  | n :: l, s => match isCell N M n with
    | none => none
    | some false => makeCells N M d l s
    | some true => match M.cellFanins n, M.cellFunction n with
      | some cs, some f => makeCells N M d l (makeCell d s n cs f)
      | _, _ => none

/-- the signal of an output, network_to_klut.hpp 182-189 -/
def outSig (d : Nat → Driver) (s : St) (f : Sig) : Nat :=
  if f.compl = true ∧ d f.index = .mixed then s.opp f.index else s.sig f.index

/-- outputs, network_to_klut.hpp 178-198 -/
def makePos (d : Nat → Driver) (s : St) : List Sig → Klut → Klut
  | [], K => K
  | f :: l, K => makePos d s l (K.createPo (outSig d s f))

/-- `collapse_mapped_network_impl::run`, network_to_klut.hpp 39-199, for a given order of the nodes -/
def collapse (N : Aig) (M : Mapping) (order : List Nat) : Option Klut :=
  match cellDrivers N M (allNodes N) (poDrivers (N.outputs.take N.numPos) fun _ => .none) with
  | none => none
  | some d =>
    match makeCells N M d order (makePis d (N.inputs.take N.numPis) (constants d Klut.empty)) with
    | none => none
    | some s => some (makePos d s (N.outputs.take N.numPos) s.dest)

/-- result of `network_to_klut`: `std::nullopt` or a LUT network -/
abbrev Result := Option (Option Klut)

/-- `network_to_klut`, network_to_klut.hpp 383-397. Outer `none`: undefined behaviour or non-termination. -/
def networkToKlut (N : Aig) (M : Mapping) (fuel : Nat) : Result :=
  if !M.hasMapping && decide (0 < N.numGates) then some none
  else match Topo.topoView N fuel with
    | none => none
    | some order => (collapse N M order).map some

/-- `choice_to_klut`, network_to_klut.hpp 415-429: the gates in index
order (205-375). The choices of the network are not looked at. -/
def choiceToKlut (N : Aig) (M : Mapping) : Result :=
  if !M.hasMapping && decide (0 < N.numGates) then some none
  else (collapse N M N.gates).map some

end Verif.Collapse
