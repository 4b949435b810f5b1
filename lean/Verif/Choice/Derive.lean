import Verif.Choice.Basic
import Verif.Aig.Cleanup

set_option autoImplicit false

/-!
# Building the network with choices

Model of `derive_choice_aig`, `man_dup_dfs` and `man_dup_dfs_rec`,
`include/operations/algorithms/choice_computation.hpp` 1067-1219.
-/

namespace Verif.Choice

/-- The vectors `old2new` of choice_computation.hpp 1075 and 1174; `none` is `SIGNAL_NULL`. -/
abbrev SMap := List (Option Sig)

/-- `old2new[s.index] ^ s.complement`, choice_computation.hpp 1088, 1100-1101, 1128, 1182, 1208-1209. `none` if the entry does not exist
or is `SIGNAL_NULL`; every use of such a signal is an access out of range. -/
def look (m : SMap) (s : Sig) : Option Sig :=
  match m[s.index]? with
  | some (some t) => some (t.xorb s.compl)
  | _ => none

/-- `get_repr_signal`, choice_computation.hpp 1092-1096 (and 1129-1130). `none` for an access out of range. -/
def reprSig (C : Choice) (s : Sig) : Option Sig :=
  match C.reprs[s.index]? with
  | none => none
  | some r =>
    if s.index < C.net.nodes.length ∧ r < C.net.nodes.length then
      some ⟨r, Bool.xor (Bool.xor (C.net.phaseOf r) (C.net.phaseOf s.index)) s.compl⟩
    else none

/-- The loop of choice_computation.hpp 1103-1108. The first argument bounds the number of rounds. -/
def reprLoop (C : Choice) : Nat → Sig → Option Sig
  | 0, _ => none
  | fuel + 1, s =>
    match C.reprSig s with
    | none => none
    | some t => if t = s then some s else reprLoop C fuel t

/-- The last part of the loop body, choice_computation.hpp 1112-1125: `t` is the signal of the new node, `r` the proved
representative. A representative that has no signal has an index larger than all others. -/
def deriveLink (C : Choice) (m : SMap) (n r : Nat) (t : Sig) : Option (Choice × SMap) :=
  if r = n then some (C, m)
  else
    match m[r]? with
    | none => none
    | some none => some (C, m)
    | some (some u) =>
      if u.index ≥ t.index then some (C, m)
      else if C.net.fanoutSize t.index ≠ 0 then some (C, m)
      else (C.setChoice t.index u.index).map fun q => (q.1, m)

/-- The body of the loop over the gates, choice_computation.hpp 1081-1126. The number of rounds of the inner loop is bounded
by the number of nodes plus one (`reprLoop_spec`: this is enough). -/
def deriveNode (N : Aig) (repr : List Nat) (st : Choice × SMap) (n : Nat) : Option (Choice × SMap) :=
  match repr[n]?, N.kids n with
  | some r, some (a, b) =>
    if r ≥ N.nodes.length then none
    else if r = 0 ∨ N.isCi r then
      match look st.2 ⟨r, Bool.xor (N.phaseOf n) (N.phaseOf r)⟩ with
      | none => none
      | some s => some (st.1, st.2.set n (some s))
    else
      match (look st.2 a).bind st.1.reprSig, (look st.2 b).bind st.1.reprSig with
      | some a', some b' =>
        let q := st.1.net.createAnd a' b'
        let C := { st.1 with net := q.1 }
        match C.reprLoop (C.net.nodes.length + 1) q.2 with
        | none => none
        | some t => deriveLink C (st.2.set n (some t)) n r t
      | _, _ => none
  | _, _ => none

/-- The loop over the gates, choice_computation.hpp 1081-1126. -/
def deriveNodes (N : Aig) (repr : List Nat) : List Nat → Choice × SMap → Option (Choice × SMap)
  | [], st => some st
  | n :: l, st =>
    match deriveNode N repr st n with
    | none => none
    | some st => deriveNodes N repr l st

/-- The loop over the outputs, choice_computation.hpp 1127-1131. -/
def deriveOutputs (m : SMap) : List Sig → Choice → Option Choice
  | [], C => some C
  | o :: l, C =>
    match (look m o).bind C.reprSig with
    | none => none
    | some s => deriveOutputs m l { C with net := C.net.createPo s }

/-- The start of both functions, choice_computation.hpp 1073-1080 and 1173-1179: arrays of the given size, one primary input
for every combinational input (registers included), and the entry of the input `i` is the signal `i`, whatever node
`create_pi` returned. -/
def start (N : Aig) : Choice × SMap :=
  ({ init Aig.empty N.nodes.length with net := (Aig.cloneInputs N.inputs.length Aig.empty).1 },
    N.inputs.foldl (fun m i => m.set i (some ⟨i, false⟩)) ((List.replicate N.nodes.length none).set 0 (some ⟨0, false⟩)))

/-- `derive_choice_aig` without the last line, choice_computation.hpp 1071-1131. -/
def deriveRaw (N : Aig) (repr : List Nat) : Option Choice :=
  match deriveNodes N repr N.gates (start N) with
  | none => none
  | some st => deriveOutputs st.2 N.outputs st.1

/-- The recursive call for the next node of the class, choice_computation.hpp 1199-1203. -/
def dupEquiv (rec : Nat → Choice × SMap → Option ((Choice × SMap) × Sig)) (e : Option Nat) (st : Choice × SMap) :
    Option ((Choice × SMap) × Option Sig) :=
  match e with
  | none => some (st, none)
  | some m => (rec m st).map fun r => (r.1, some r.2)

/-- The new node and its link, choice_computation.hpp 1208-1218. -/
def dupNode (n : Nat) (a b : Sig) (ne : Option Sig) (st : Choice × SMap) : Option ((Choice × SMap) × Sig) :=
  match look st.2 a, look st.2 b with
  | some a', some b' =>
    if a'.index < st.1.net.nodes.length ∧ b'.index < st.1.net.nodes.length then
      let q := st.1.net.createAnd a' b'
      match ne with
      | none => some (({ st.1 with net := q.1 }, st.2.set n (some q.2)), q.2)
      | some e =>
        if e.index < q.2.index then
          if q.2.index < st.1.equivs.length then
            some (({ st.1 with net := q.1, equivs := st.1.equivs.set q.2.index (some e.index) }, st.2.set n (some q.2)), q.2)
          else none
        else some (({ st.1 with net := q.1 }, st.2.set n (some q.2)), q.2)
    else none
  | _, _ => none

/-- `man_dup_dfs_rec`, choice_computation.hpp 1196-1219. The first argument bounds the recursion depth. -/
def dupRec (T : Choice) : Nat → Nat → Choice × SMap → Option ((Choice × SMap) × Sig)
  | 0, _, _ => none
  | fuel + 1, n, st =>
    match st.2[n]? with
    | none => none
    | some (some s) => some (st, s)
    | some none =>
      match T.equivs[n]?, T.net.kids n with
      | some e, some (a, b) =>
        (dupEquiv (dupRec T fuel) e st).bind fun r1 =>
          (dupRec T fuel a.index r1.1).bind fun r2 =>
            (dupRec T fuel b.index r2.1).bind fun r3 => dupNode n a b r1.2 r3.1
      | _, _ => none

/-- The loop over the outputs, choice_computation.hpp 1180-1183. -/
def dupOutputs (T : Choice) : List Sig → Choice × SMap → Option Choice
  | [], st => some st.1
  | o :: l, st =>
    match dupRec T (T.net.nodes.length + 1) o.index st with
    | none => none
    | some r =>
      match look r.1.2 o with
      | none => none
      | some s => dupOutputs T l ({ r.1.1 with net := r.1.1.net.createPo s }, r.1.2)

/-- `man_dup_dfs`, choice_computation.hpp 1171-1185. The recursion bound is the number of nodes plus one: a deeper recursion
has met some node twice on the stack and never ends (`dupRec_spec`: this does not happen). -/
def manDup (T : Choice) : Option Choice := dupOutputs T T.net.outputs (start T.net)

/-- `derive_choice_aig`, choice_computation.hpp 1071-1164. -/
def deriveChoice (N : Aig) (repr : List Nat) : Option Choice := (deriveRaw N repr).bind manDup

end Verif.Choice
