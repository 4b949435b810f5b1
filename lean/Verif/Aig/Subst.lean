import Verif.Aig.Gates

set_option autoImplicit false

/-!
# AIG network: substitution

Model of `aig_network.hpp` 466-625.  The hash table is the abstract list of `Verif/Aig/Basic.lean`
(`Verif/Strash` has the refinement); erasing a fanin pair that is not stored, which corrupts the table
in a release build (`Strash.C10_erase_absent_removes_other`), is the outcome `none`.  Loops without an
evident bound carry fuel; running out of fuel is also `none`.
-/

namespace Verif.Aig

/-- remove the most recent entry satisfying `p` -/
def eraseFirst (p : Nat → Bool) : List Nat → Option (List Nat)
  | [] => none
  | t :: l => if p t then some l else (eraseFirst p l).map (t :: ·)

/-- `hash_erase(node)`, details/storage.hpp 107-126, for the stored node `n`: removes the first entry of
the chain with the same children as `n`, whichever index it has. -/
def hashErase (N : Aig) (a b : Sig) : Option Aig :=
  (eraseFirst (N.hasKids a b) N.table).map fun t => { N with table := t }

/-- Result of `replace_in_node`: the network and possibly a further pair to substitute. -/
abbrev ReplResult := Option (Aig × Option (Nat × Sig))

/-- the part of `replace_in_node` after the fanin has been found, aig_network.hpp 488-535; `s` is the
replacement with the polarity of the replaced edge applied, `other` the other fanin. -/
def replaceCore (N : Aig) (n old : Nat) (nd : Node) (s other : Sig) : ReplResult :=
  let p := order other s
  let c0 := p.1
  let c1 := p.2
  if c0.index = c1.index then
    some (N, some (n, if c0.compl ≠ c1.compl then Sig.const false else c1))
  else if c0.index = 0 then
    some (N, some (n, if c0.compl then c1 else Sig.const false))
  else
    match N.hashFind c0 c1 with
    | some f =>
      if f ≠ old then some (N, some (n, ⟨f, false⟩))
      else rewire c0 c1
    | none => rewire c0 c1
where
  /-- aig_network.hpp 515-535: erase from the hash table, change the children, insert again, count the
  new reference. -/
  rewire (c0 c1 : Sig) : ReplResult :=
    match N.hashErase nd.c0 nd.c1 with
    | none => none
    | some N1 =>
      let N2 : Aig := { N1 with
        nodes := N1.nodes.modify n fun nd => { nd with c0 := c0, c1 := c1 }
        table := n :: N1.table }
      some (N2.incFo s.index, none)

/-- `replace_in_node`, aig_network.hpp 466-536. -/
def replaceInNode (N : Aig) (n old : Nat) (new : Sig) : ReplResult :=
  match N.nodes[n]? with
  | none => none
  | some nd =>
    if nd.c0.index = old then N.replaceCore n old nd (new.xorb nd.c0.compl) nd.c1
    else if nd.c1.index = old then N.replaceCore n old nd (new.xorb nd.c1.compl) nd.c0
    else some (N, none)

/-- `replace_in_outputs`, aig_network.hpp 538-557. -/
def replaceInOutputs (N : Aig) (old : Nat) (new : Sig) : Aig :=
  if N.isDead old then N
  else
    let hits := N.outputs.countP fun o => o.index == old
    let N1 : Aig := { N with
      outputs := N.outputs.map fun o => if o.index = old then new.xorb o.compl else o }
    if old ≠ new.index then
      { N1 with nodes := N1.nodes.modify new.index fun nd => { nd with fo := nd.fo + hits } }
    else N1

/-- aig_network.hpp 577-587, one fanin `c` of a removed node; `rec` is the recursive call. -/
def derefChild (rec : Aig → Nat → Option Aig) (N : Aig) (c : Nat) : Option Aig :=
  if N.fanoutSize c = 0 then some N
  else
    let N1 : Aig := { N with nodes := N.nodes.modify c fun nd => { nd with fo := nd.fo - 1 } }
    if N1.fanoutSize c = 0 then rec N1 c else some N1

/-- `take_out_node`, aig_network.hpp 559-588 (recursion with fuel). -/
def takeOut : Nat → Aig → Nat → Option Aig
  | 0, _, _ => none
  | f + 1, N, n =>
    if n = 0 ∨ N.isCi n = true ∨ N.isDead n = true then some N
    else match N.nodes[n]? with
      | none => none
      | some nd =>
        let N1 : Aig := { N with nodes := N.nodes.modify n fun nd => { nd with fo := 0, dead := true } }
        match N1.hashErase nd.c0 nd.c1 with
        | none => none
        | some N2 =>
          match derefChild (takeOut f) N2 nd.c0.index with
          | none => none
          | some N3 => derefChild (takeOut f) N3 nd.c1.index

/-- the scan over all nodes in `substitute_node`, aig_network.hpp 605-614: gives the network and the
pushed pairs, most recent first. -/
def scanNodes (old : Nat) (new : Sig) : List Nat → Aig → List (Nat × Sig) → Option (Aig × List (Nat × Sig))
  | [], N, st => some (N, st)
  | idx :: l, N, st =>
    if N.isCi idx = true ∨ N.isDead idx = true then scanNodes old new l N st
    else match N.replaceInNode idx old new with
      | none => none
      | some (N1, none) => scanNodes old new l N1 st
      | some (N1, some p) => scanNodes old new l N1 (p :: st)

/-- the main loop of `substitute_node`, aig_network.hpp 600-624. -/
def substLoop : Nat → Aig → List (Nat × Sig) → Option Aig
  | 0, _, _ => none
  | _ + 1, N, [] => some N
  | f + 1, N, (old, new) :: st =>
    match scanNodes old new ((List.range N.nodes.length).drop 1) N st with
    | none => none
    | some (N1, st1) =>
      let N2 := N1.replaceInOutputs old new
      if old ≠ new.index then
        match takeOut (N2.nodes.length + 1) N2 old with
        | none => none
        | some N3 => substLoop f N3 st1
      else substLoop f N2 st1

/-- `substitute_node`, aig_network.hpp 595-625. -/
def substituteNode (fuel : Nat) (N : Aig) (old : Nat) (new : Sig) : Option Aig :=
  substLoop fuel N [(old, new)]

end Verif.Aig
