import Verif.Rewrite.Basic
import Verif.Balance.Basic
import Verif.Choice.Miter
import Verif.Choice.Sweep
import Verif.Mapping.Map
import Verif.Klut.Collapse
import Verif.Klut.ToAig
import Verif.Aig.Miter
import Verif.Cnf.Basic

set_option autoImplicit false

/-!
# The choice flow of the flow manager

Model of `include/flow/flow_manager.hpp` 158-280 (`dch_compress`, `dch_compress2`, `choice_synthesis`, `mapper` for a path with ".aig") and of
the verification step 103-116 with `debug_by_miter` (`debugger.hpp` 78-95). Networks are handles: copying one shares the storage
(aig_network.hpp 60-90), and `rewrite` changes the storage it is given before it returns a new network. The model therefore keeps, beside each
result, what the storage of the argument holds afterwards. `none` stands for undefined behaviour or recursion without end. Not modelled here: the
configuration file (Flow/Config), the report (Flow/Report), reading files and `choice_synthesis_abc` (Flow/Files), and writing files (Flow/Write).
-/

namespace Verif.Flow

/-- What the flow takes from outside: the default `rewrite_params` (flow_manager.hpp 165, 187: the values read from the configuration file are not
used), the words of the rewriting database, the sorting done by `balance_and`, the environment of the choice computation, and the bound of the
recursions of `rewrite`. -/
structure Env (β : Type) where
  rw : Rewrite.RwParams β
  db : List Nat
  sort : (Sig → Nat × Nat) → List Sig → List Sig
  choice : Choice.Env
  fuel : Nat

variable {β γ : Type}

/-- `rewrite( caig, ps_rewrite )`, rewrite.hpp 347-356, as seen from outside: what the storage of the argument holds afterwards, and the new network. -/
def rewriteIn (E : Env β) (preserveDepth useZeroGain : Bool) (N : Aig) : Option (Aig × Aig) :=
  match Rewrite.rewriteCore { E.rw with preserveDepth := preserveDepth, useZeroGain := useZeroGain } E.db E.fuel N with
  | none => none
  | some M =>
    match Aig.cleanupDangling M E.fuel with
    | none => none
    | some D => some (M, D)

/-- `balance_and( caig )`, and_balance.hpp 360-365; reading levels outside their vector is undefined. -/
def balance (E : Env β) (N : Aig) : Option Aig :=
  match Balance.balanceAnd E.sort N N.size with
  | some (D, false) => some D
  | _ => none

/-- Outcome of a script: what the storage of its argument holds afterwards, the resulting network, and the networks given to `rewrite` on the way. -/
structure Run where
  store : Aig
  res : Aig
  given : List Aig

/-- `dch_compress`, flow_manager.hpp 162-178. -/
def dchCompress (E : Env β) (N : Aig) : Option Run :=
  match rewriteIn E true false N with
  | none => none
  | some (M, A) =>
    match balance E A with
    | none => none
    | some B =>
      match rewriteIn E true true B with
      | none => none
      | some (_, C) => some ⟨M, C, [N, B]⟩

/-- `dch_compress2`, flow_manager.hpp 184-211. -/
def dchCompress2 (E : Env β) (N : Aig) : Option Run :=
  match rewriteIn E false false N with
  | none => none
  | some (M, A) =>
    match balance E A with
    | none => none
    | some B =>
      match rewriteIn E true false B with
      | none => none
      | some (_, C) =>
        match rewriteIn E true true C with
        | none => none
        | some (_, D) =>
          match balance E D with
          | none => none
          | some F =>
            match rewriteIn E true true F with
            | none => none
            | some (_, G) =>
              match balance E G with
              | none => none
              | some H => some ⟨M, H, [N, B, C, F]⟩

/-- What `choice_synthesis` leaves behind: the storages of `_original_aig`, `_compress_aig` and `_compress2_aig`, `_merged_aig`, the network with
choices, and the networks given to `rewrite`. -/
structure Synth where
  original : Aig
  compress : Aig
  compress2 : Aig
  merged : Aig
  awc : Choice
  given : List Aig

/-- `choice_synthesis`, flow_manager.hpp 217-232. The bound of the recursion of the miter is the number of all nodes: paths in acyclic networks are not
longer. -/
def choiceSynthesis (E : Env β) (N : Aig) : Option Synth :=
  match dchCompress E N with
  | none => none
  | some r1 =>
    match dchCompress2 E r1.res with
    | none => none
    | some r2 =>
      match ChoiceMiter.merge (r2.res.nodes.length + r2.store.nodes.length + r1.store.nodes.length) [r2.res, r2.store, r1.store] with
      | none => none
      | some M =>
        match Choice.computeChoice M E.choice with
        | none => none
        | some D => some ⟨r1.store, r2.store, r2.res, M, D, r1.given ++ r2.given⟩

/-- `mapper`, flow_manager.hpp 261-280: the outcome of the synthesis, the mapping and the LUT network; the result of `choice_to_klut` is
dereferenced without a test (279). -/
def mapper (E : Env β) (p : Mapper.Ps) (H : Nat → Nat → Mapper.Heur γ) (cost : γ) (N : Aig) : Option (Synth × Mapping × Klut) :=
  match choiceSynthesis E N with
  | none => none
  | some S =>
    match Mapper.klutMap p S.awc H cost with
    | none => none
    | some L =>
      match Collapse.choiceToKlut S.awc.net L with
      | some (some K) => some (S, L, K)
      | _ => none

/-- `debug_by_miter`, debugger.hpp 78-95: no miter means different; the verdict is dereferenced without a test (85). The bound of the
recursions of the miter is the number of all nodes. -/
def debugByMiter (solve : List (List Nat) → Nat → Cnf.Answer) (A B : Aig) : Option Bool :=
  match Aig.miter A B (A.size + B.size) with
  | none => none
  | some none => some false
  | some (some M) =>
    match Cnf.equivalenceChecking M solve with
    | .equivalent => some true
    | .different _ => some false
    | _ => none

/-- The step "Formal Verfication" of `run`, flow_manager.hpp 107-108: the LUT network against the storage of `_original_aig` as it is then. -/
def verification (solve : List (List Nat) → Nat → Cnf.Answer) (S : Synth) (K : Klut) : Option Bool :=
  match ToAig.convertKlut K with
  | none => none
  | some A => debugByMiter solve A S.original

end Verif.Flow
