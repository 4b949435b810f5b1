import Verif.Cli.MapChoice
import Verif.Flow.Proof
import Verif.Props.C46
import Verif.Props.C53
import Verif.Props.C69

set_option autoImplicit false

/-!
# C72: `map_fpga --type 1` in a session of the shell

The full claim — after a session that reads a design and optimises it, `map_fpga --type 1` stores a LUT network with the inputs, outputs and output
functions of the design, with LUTs of at most `cut_size` inputs — is false: without a saved snapshot that has a gate the command runs into undefined
behaviour (`C72_violated_empty`, `C72_violated_read`), because the check for an empty history counts the slots of the store, of which there are
always six; and when the trivial cut of a node is its best cut (C59), which happens with the costs of the program for a design of three gates, an
output becomes the constant 0 (`C72_violated_zero`). What was done since the last snapshot is lost (`C72_current_unused`).
-/

namespace Verif.Cli
open ChoiceMiter (Good)
open Flow (Same)
open Mapper (Options Ps Heur)

variable {β : Type}

/-- `K` is a correct result for `A`: as many inputs and outputs, the same output functions, LUTs of at most `c` inputs. -/
structure Stores (A : Aig) (c : Nat) (K : Klut) : Prop where
  inputs : K.inputs.length = A.inputs.length
  outputs : K.outputs.length = A.outputs.length
  val : ∀ x v v', A.Consistent x v → K.Consistent x v' → K.outputs.map v' = A.outputs.map (·.val v)
  size : ∀ (n : Nat) nd, K.nodes[n]? = some nd → nd.children.length ≤ c

/-- Every optimisation command of the session preserves the interface and the output functions of the network it is given. -/
def Spec.KeepsAll (k : Nat) : Spec Aig → List (Cmd Aig) → Prop
  | _, [] => True
  | p, c :: cs => (match c with
      | .optimize f g => Same k p.cur (g (f p.cur))
      | _ => True) ∧ (p.step c).KeepsAll k cs

/-- The specification of a shell in which `A` has just been read. -/
def afterRead (A : Aig) : Spec Aig := { cur := A, saved := [], fresh := true }

theorem replaceAt_mem {α : Type} {l : List α} {i : Int} {a b : α} (h : b ∈ replaceAt l i a) : b ∈ l ∨ b = a := by
  unfold replaceAt at h
  split at h
  · exact List.mem_or_eq_of_mem_set h
  · exact Or.inl h

/-- the current network and all snapshots have the functions of the design -/
theorem keeps_run {k : Nat} {A : Aig} : ∀ (cs : List (Cmd Aig)) (p : Spec Aig), p.AllowsAll cs → p.KeepsAll k cs → Same k A p.cur →
    (∀ B ∈ p.saved, Same k A B) → Same k A (p.run cs).cur ∧ ∀ B ∈ (p.run cs).saved, Same k A B
  | [], _, _, _, hc, hsv => ⟨hc, hsv⟩
  | .read _ :: _, _, ha, _, _, _ => ha.1.elim
  | .history add size clear r :: cs, p, ha, hk, hc, hsv => by
    refine keeps_run cs _ ha.2 hk.2 hc fun B hB => ?_
    have h1 : ∀ B ∈ (if add then p.saved ++ [p.cur] else p.saved), Same k A B := by
      intro B hB
      split at hB
      · rcases List.mem_append.1 hB with h | h
        · exact hsv B h
        · rw [List.mem_singleton.1 h]; exact hc
      · exact hsv B hB
    simp only [Spec.step] at hB
    split at hB
    · simp at hB
    · cases r with
      | none => exact h1 B hB
      | some i =>
        rcases replaceAt_mem hB with h | rfl
        · exact h1 B h
        · exact hc
  | .optimize f g :: cs, p, ha, hk, hc, hsv => keeps_run cs _ ha.2 hk.2 (hc.trans hk.1) hsv
  | .mapChoice :: cs, p, ha, hk, hc, hsv => keeps_run cs _ ha.2 hk.2 hc hsv

/-- the shell after a session: six slots, and the AIGs given to the miter are the snapshots with a gate, the last one first -/
theorem session (A : Aig) (cs : List (Cmd Aig)) (hcs : (afterRead A).AllowsAll cs) :
    ∃ s, run Aig.empty Aig.numGates init (.read A :: cs) = some s ∧ s.slots.length = 6 ∧
      (∃ c, s.slots.getLast? = some c ∧ s.heap[c]? = some ((afterRead A).run cs).cur) ∧
      histories s = some (((afterRead A).run cs).saved.reverse.filter fun B => decide (B.numGates > 0)) := by
  have h0 : Holds Aig.numGates (execRead Aig.empty init A) (afterRead A) := by
    refine ⟨read_ready Aig.empty A, (List.range 5).map ((0 : Nat) + ·), 5, List.replicate 5 Aig.empty, ?_, ?_, ?_, ?_, ?_⟩
    · simp [execRead, init, List.range_succ]
    · simp [execRead, init, afterRead]
    · simp [execRead, init, List.range_succ, afterRead, List.replicate]
    · intro b hb
      rw [List.eq_of_mem_replicate hb]; rfl
    · intro _; decide
  obtain ⟨s, es, hs⟩ := holds_run Aig.empty cs h0 hcs
  obtain ⟨l, c, blanks, hl, hc, hm, hb, hfr⟩ := hs.slots
  refine ⟨s, by rw [run, step, Option.bind_some]; exact es, hs.ready.six, ⟨c, by rw [hl]; simp, hc⟩, ?_⟩
  have hv : s.slots.dropLast.reverse.mapM (s.heap[·]?) = some (((afterRead A).run cs).saved ++ blanks).reverse := by
    apply mapM_of_map
    rw [hl, List.dropLast_concat, List.map_reverse, hm, List.map_reverse]
  have hbl : blanks.reverse.filter (fun B => decide (B.numGates > 0)) = [] := by
    rw [List.filter_eq_nil_iff]
    intro b hbm
    have := hb b (List.mem_reverse.1 hbm)
    simp [this]
  rw [histories, hv, Option.map_some, List.reverse_append, List.filter_append, hbl, List.nil_append]

/-- The mapper is one of C59: its result is that of `klut_mapping` with some heuristics. -/
def IsMapper (map : Ps → Choice → Option Mapping) : Prop :=
  ∀ p D L, D.net.Built → D.Ordered → map p D = some L → ∃ (β : Type) (H : Nat → Nat → Heur β) (cost : β), Mapper.klutMap p D H cost = some L

theorem isMapper_any (H : Nat → Nat → Heur β) (cost : β) : IsMapper (anyMapper H cost) := fun _ _ _ _ _ e => ⟨β, H, cost, e⟩

theorem isMapper_real : IsMapper realMapper := by
  intro p D L hb hO e
  unfold realMapper at e
  cases em : Mapper.Timed.klutMapping p D with
  | none => rw [em] at e; cases e
  | some t =>
    rw [em] at e
    obtain ⟨H, h⟩ := Mapper.Timed.C69_refines p D hb hO t.1 t.2 em
    exact ⟨_, H, _, by rw [h]; exact e⟩

/-- C72 for sessions that read one design without registers, save at most five snapshots, do not clear the history, change no network in place while
it is both current and saved, and whose optimisation commands preserve the functions: no command of the session fails, and if `map_fpga --type 1` does
not run into undefined behaviour it refuses exactly the bad options and otherwise stores a correct LUT network for the design, and for the current
network too. Whatever the random numbers and the answers of a sound solver, and for the mapper with any heuristics (`isMapper_any`) and with its own
(`isMapper_real`). Missing: mappings in which a node is its own cell, where it fails (`C72_violated_zero`); priority sizes above 11; designs without
inputs or with inputs after gates. -/
theorem C72_partial (k : Nat) (hk : 0 < k) (A : Aig) (hA : Good k A) (hpo : A.outputs.length = A.numPos) (cs : List (Cmd Aig))
    (hcs : (afterRead A).AllowsAll cs) (hkeep : (afterRead A).KeepsAll k cs) (fuel : Nat)
    (hf : ∀ B ∈ ((afterRead A).run cs).saved, B.nodes.length ≤ fuel) (E : Choice.Env) (hw : 0 < E.nwords) (hs : Choice.Prover.Sound E.solve)
    (map : Ps → Choice → Option Mapping) (hmap : IsMapper map) (o : Options) (ht : o.type = 1) (hprio : o.prioritySize ≤ 11) :
    ∃ s, run Aig.empty Aig.numGates init (.read A :: cs) = some s ∧ ∀ r, mapFpga fuel E map o s = some r →
      (o.params = none ∧ r = .refused) ∨ ∃ D L K, o.params ≠ none ∧ r = .choices D L K ∧
        ((∀ n, ¬ Mapper.SelfCell D.net L n) → Stores A o.cutSize K ∧ Stores ((afterRead A).run cs).cur o.cutSize K) := by
  obtain ⟨s, es, h6, -, hh⟩ := session A cs hcs
  have hrefl : Same k A A := Same.refl hA hpo
  obtain ⟨hcur, hsaved⟩ := keeps_run cs (afterRead A) hcs hkeep hrefl (by simp [afterRead])
  refine ⟨s, es, fun r e => ?_⟩
  unfold mapFpga at e
  rw [if_neg (by intro h; rw [h] at h6; simp at h6)] at e
  cases ho : o.params with
  | none =>
    rw [ho] at e
    exact Or.inl ⟨rfl, (Option.some.inj e).symm⟩
  | some p =>
    rw [ho] at e
    dsimp only at e
    rw [if_pos ⟨ht, by omega⟩, hh] at e
    dsimp only at e
    obtain ⟨hp, hsz⟩ := Mapper.params_ok ho hprio
    right
    cases em : mapHistory fuel E map p (((afterRead A).run cs).saved.reverse.filter fun B => decide (B.numGates > 0)) with
    | none => rw [em] at e; cases e
    | some t =>
      obtain ⟨D, L, K⟩ := t
      rw [em] at e
      refine ⟨D, L, K, by simp, (Option.some.inj e).symm, fun hself => ?_⟩
      have hmem : ∀ B ∈ ((afterRead A).run cs).saved.reverse.filter (fun B => decide (B.numGates > 0)),
          B ∈ ((afterRead A).run cs).saved := fun B hB => List.mem_reverse.1 (List.mem_filter.1 hB).1
      revert em hmem
      generalize (((afterRead A).run cs).saved.reverse.filter fun B => decide (B.numGates > 0)) = l
      intro em hmem
      unfold mapHistory at em
      cases l with
      | nil => simp [ChoiceMiter.merge] at em
      | cons B l =>
        have hB := hsaved B (hmem B (by simp))
        obtain ⟨M, e1, hm, hin, hph⟩ := ChoiceMiter.merge_spec k hk B l (fun C hC => (hsaved C (hmem C hC)).good)
          (fun C hC => by rw [← hB.numPos, (hsaved C (hmem C hC)).outputs, hB.outputs]) fuel (fun C hC => hf C (hmem C hC))
        rw [e1] at em
        dsimp only at em
        cases e2 : Choice.computeChoice M E with
        | none => rw [e2] at em; cases em
        | some D' =>
          rw [e2] at em
          dsimp only at em
          obtain ⟨h3, h4, h5⟩ := (Choice.computeChoice_spec hph (by unfold Choice.InputsFirst; rw [hin]; simp) E hw hs).2 D' e2
          cases e3 : map p D' with
          | none => rw [e3] at em; cases em
          | some L' =>
            rw [e3] at em
            dsimp only at em
            split at em
            · rename_i K' e4
              rw [Option.some.injEq, Prod.mk.injEq, Prod.mk.injEq] at em
              obtain ⟨rfl, rfl, rfl⟩ := em
              obtain ⟨γ, H, cost, e6⟩ := hmap p D' L' h3.built h4 e3
              obtain ⟨r', e5, -, h7⟩ := Choice.mapping_of h3 h4 h5 p hp H cost L' e6 hself
              rw [e4, Option.some.injEq] at e5
              obtain ⟨q1, q2, q3, q4⟩ := h7 K' e5.symm
              have key : ∀ C, Same k A C → Stores C o.cutSize K' := fun C hC => by
                refine ⟨?_, ?_, fun x v v' hv hv' => ?_, fun n nd hn => hsz ▸ q4 n nd hn⟩
                · rw [q1, hm.inputs, hB.good.inputs, hC.good.inputs]
                · rw [q2, hm.outputs, hB.outputs, hC.outputs]
                · have hb := hB.good.built.wf.consistent_value x
                  have ha := hA.built.wf.consistent_value x
                  have hM := hph.wf.consistent_value x
                  rw [q3 x _ v' hM hv', hm.val x _ _ hb hM, hB.val x _ _ ha hb, hC.val x _ v ha hv]
              exact ⟨key A hrefl, key _ hcur⟩
            · cases em

/-- When the command is free of undefined behaviour, for cut sizes 2 and 3 and any heuristics: a snapshot with a gate and a miter of less than 1000
nodes are enough, unless the mapping made is without cells although the network with choices has gates, or has a cell that is the node itself. -/
theorem C72_defined_partial (k : Nat) (hk : 0 < k) (A : Aig) (hA : Good k A) (hpo : A.outputs.length = A.numPos) (cs : List (Cmd Aig))
    (hcs : (afterRead A).AllowsAll cs) (hkeep : (afterRead A).KeepsAll k cs) (fuel : Nat)
    (hf : ∀ B ∈ ((afterRead A).run cs).saved, B.nodes.length ≤ fuel) (hsome : ∃ B ∈ ((afterRead A).run cs).saved, 0 < B.numGates)
    (E : Choice.Env) (hw : 0 < E.nwords) (hs : Choice.Prover.Sound E.solve) (H : Nat → Nat → Heur β) (cost : β)
    (o : Options) (ht : o.type = 1) (hprio : o.prioritySize ≤ 11) (hsize : o.cutSize ≤ 3) (p : Ps) (ho : o.params = some p) :
    ∃ s l M, run Aig.empty Aig.numGates init (.read A :: cs) = some s ∧ histories s = some l ∧ ChoiceMiter.merge fuel l = some M ∧
      (M.nodes.length < 1000 → ∃ D L, Choice.computeChoice M E = some D ∧ Mapper.klutMap p D H cost = some L ∧
        ((∀ n, ¬ Mapper.SelfCell D.net L n) →
          (mapFpga fuel E (anyMapper H cost) o s = none ↔ L.hasMapping = false ∧ 0 < D.net.numGates))) := by
  obtain ⟨s, es, h6, -, hh⟩ := session A cs hcs
  have hrefl : Same k A A := Same.refl hA hpo
  obtain ⟨hcur, hsaved⟩ := keeps_run cs (afterRead A) hcs hkeep hrefl (by simp [afterRead])
  obtain ⟨hp, hsz⟩ := Mapper.params_ok ho hprio
  have hmem : ∀ B ∈ ((afterRead A).run cs).saved.reverse.filter (fun B => decide (B.numGates > 0)),
      B ∈ ((afterRead A).run cs).saved := fun B hB => List.mem_reverse.1 (List.mem_filter.1 hB).1
  have hne : ((afterRead A).run cs).saved.reverse.filter (fun B => decide (B.numGates > 0)) ≠ [] := by
    obtain ⟨B, hB, hg⟩ := hsome
    exact List.ne_nil_of_mem (List.mem_filter.2 ⟨List.mem_reverse.2 hB, by simpa using hg⟩)
  revert hmem hne hh
  generalize (((afterRead A).run cs).saved.reverse.filter fun B => decide (B.numGates > 0)) = l
  intro hh hmem hne
  cases l with
  | nil => exact absurd rfl hne
  | cons B l =>
    have hB := hsaved B (hmem B (by simp))
    obtain ⟨M, e1, hm, hin, hph⟩ := ChoiceMiter.merge_spec k hk B l (fun C hC => (hsaved C (hmem C hC)).good)
      (fun C hC => by rw [← hB.numPos, (hsaved C (hmem C hC)).outputs, hB.outputs]) fuel (fun C hC => hf C (hmem C hC))
    refine ⟨s, _, M, es, hh, e1, fun hM => ?_⟩
    obtain ⟨h1, h2⟩ := Choice.computeChoice_spec hph (by unfold Choice.InputsFirst; rw [hin]; simp) E hw hs
    obtain ⟨D, e2⟩ := h1 hM
    obtain ⟨h3, h4, h5⟩ := h2 D e2
    obtain ⟨L, e3⟩ := Mapper.C59_defined_partial p D h3.built (by rw [h3.outputs, h3.numPos]) h4 h5 hp (by omega) H cost
    refine ⟨D, L, e2, e3, fun hself => ?_⟩
    obtain ⟨r, e4, h7, -⟩ := Choice.mapping_of h3 h4 h5 p hp H cost L e3 hself
    rw [← h7]
    unfold mapFpga mapHistory anyMapper
    rw [if_neg (by intro h; rw [h] at h6; simp at h6), ho]
    dsimp only
    rw [if_pos ⟨ht, by omega⟩, hh]
    dsimp only
    rw [e1]
    dsimp only
    rw [e2]
    dsimp only
    rw [e3]
    dsimp only
    rw [e4]
    cases r <;> simp

/-- Without `--type 1` it is the current network that is mapped, whatever was saved. -/
theorem C72_plain (A : Aig) (cs : List (Cmd Aig)) (hcs : (afterRead A).AllowsAll cs) (fuel : Nat) (E : Choice.Env)
    (H : Nat → Nat → Heur β) (cost : β) (o : Options) (ht : o.type = 0) :
    ∃ s, run Aig.empty Aig.numGates init (.read A :: cs) = some s ∧
      mapFpga fuel E (anyMapper H cost) o s = (Mapper.mapFpga o ((afterRead A).run cs).cur H cost).map fun
        | none => .refused
        | some K => .plain K := by
  obtain ⟨s, es, h6, ⟨c, h1, h2⟩, -⟩ := session A cs hcs
  refine ⟨s, es, ?_⟩
  unfold mapFpga Mapper.mapFpga
  rw [if_neg (by intro h; rw [h] at h6; simp at h6)]
  cases o.params with
  | none => rfl
  | some p =>
    dsimp only
    rw [if_neg (by omega), h1]
    dsimp only
    rw [h2]
    dsimp only
    unfold mapCurrent anyMapper
    cases Mapper.klutMap p (Choice.init ((afterRead A).run cs).cur ((afterRead A).run cs).cur.nodes.length) H cost with
    | none => rfl
    | some L =>
      dsimp only
      rcases Collapse.choiceToKlut ((afterRead A).run cs).cur L with _ | _ | K <;> rfl

/-- Whatever the session, if no saved snapshot has a gate, then
`map_fpga --type 1` with accepted options runs into undefined behaviour, instead of warning and mapping the current network. -/
theorem C72_violated_empty (A : Aig) (cs : List (Cmd Aig)) (hcs : (afterRead A).AllowsAll cs)
    (hno : ∀ B ∈ ((afterRead A).run cs).saved, B.numGates = 0) (fuel : Nat) (E : Choice.Env) (o : Options) (ht : o.type = 1) (ho : o.params ≠ none)
    (map : Ps → Choice → Option Mapping) :
    ∃ s, run Aig.empty Aig.numGates init (.read A :: cs) = some s ∧ mapFpga fuel E map o s = none := by
  obtain ⟨s, es, h6, -, hh⟩ := session A cs hcs
  refine ⟨s, es, ?_⟩
  rw [List.filter_eq_nil_iff.2 (fun B hB => by simp [hno B (List.mem_reverse.1 hB)])] at hh
  unfold mapFpga
  rw [if_neg (by intro h; rw [h] at h6; simp at h6)]
  cases hp : o.params with
  | none => exact absurd hp ho
  | some p =>
    dsimp only
    rw [if_pos ⟨ht, by omega⟩, hh]
    rfl

/-- In any state of the shell, also after earlier designs with snapshots: `map_fpga --type 1` right after `read_aiger` has undefined behaviour. -/
theorem C72_violated_read (s : St Aig) (A : Aig) (fuel : Nat) (E : Choice.Env) (o : Options) (ht : o.type = 1) (ho : o.params ≠ none)
    (map : Ps → Choice → Option Mapping) :
    mapFpga fuel E map o (execRead Aig.empty s A) = none := by
  have hv : (execRead Aig.empty s A).slots.dropLast.reverse.mapM ((execRead Aig.empty s A).heap[·]?) = some (List.replicate 5 Aig.empty) := by
    apply mapM_of_map
    rw [execRead]
    dsimp only
    rw [range_six, List.dropLast_concat, List.map_reverse, read_heap]
    rfl
  have hh : histories (execRead Aig.empty s A) = some [] := by
    rw [histories, hv]; decide +kernel
  unfold mapFpga
  rw [if_neg (by simp [execRead])]
  cases hp : o.params with
  | none => exact absurd hp ho
  | some p =>
    dsimp only
    rw [if_pos ⟨ht, by simp [execRead]⟩, hh]
    rfl

/-- The command does not look at the current network: an optimisation after the last snapshot that leaves the storage it works on alone changes
nothing in what `map_fpga --type 1` does. -/
theorem C72_current_unused (s s' : St Aig) (haddr : ∀ i ∈ s.slots, i < s.heap.length) (hsl : 2 ≤ s.slots.length) (g : Aig → Aig)
    (h : step Aig.empty Aig.numGates s (.optimize id g) = some s') (fuel : Nat) (E : Choice.Env) (o : Options) (ht : o.type = 1)
    (map : Ps → Choice → Option Mapping) :
    mapFpga fuel E map o s' = mapFpga fuel E map o s := by
  have h0 : s.slots ≠ [] := by intro h; rw [h] at hsl; simp at hsl
  obtain ⟨l, c, hl⟩ : ∃ l c, s.slots = l ++ [c] := ⟨_, _, (List.dropLast_concat_getLast h0).symm⟩
  have hg : s.slots.getLast? = some c := by rw [hl]; simp
  obtain ⟨v, hv⟩ : ∃ v, s.heap[c]? = some v := ⟨_, List.getElem?_eq_getElem (haddr c (by rw [hl]; simp))⟩
  rw [step, execOptimize_ok id g hg hv] at h
  obtain rfl := Option.some.inj h
  have hh : histories { s with heap := s.heap.set c (id v) ++ [g (id v)], slots := s.slots.dropLast ++ [s.heap.length] } = histories s := by
    unfold histories
    congr 1
    dsimp only
    rw [List.dropLast_concat]
    have hin : ∀ i ∈ s.slots.dropLast.reverse, i < s.heap.length := fun i hi =>
      haddr i (List.dropLast_subset _ (List.mem_reverse.1 hi))
    have hk := heap_keep (y := g (id v)) hv hin (Or.inr (rfl : id v = v))
    obtain ⟨vs, hvs⟩ : ∃ vs : List Aig, s.slots.dropLast.reverse.map (s.heap[·]?) = vs.map some := by
      revert hin
      generalize s.slots.dropLast.reverse = l
      clear hk
      induction l with
      | nil => exact fun _ => ⟨[], rfl⟩
      | cons i l ih =>
        intro hin
        obtain ⟨vs, h⟩ := ih fun j hj => hin j (List.mem_cons_of_mem _ hj)
        obtain ⟨w, hw⟩ : ∃ w, s.heap[i]? = some w := ⟨_, List.getElem?_eq_getElem (hin i (by simp))⟩
        exact ⟨w :: vs, by rw [List.map_cons, List.map_cons, hw, h]⟩
    rw [mapM_of_map hvs, mapM_of_map (hk.trans hvs)]
  have hlen : (s.slots.dropLast ++ [s.heap.length]).length = s.slots.length := by rw [hl]; simp
  unfold mapFpga
  dsimp only
  rw [if_neg h0, if_neg (by simp), hh, hlen]
  cases o.params with
  | none => rfl
  | some p =>
    dsimp only
    rw [if_pos ⟨ht, by omega⟩, if_pos ⟨ht, by omega⟩]

/-! ### Example -/

open ChoiceMiter (mA mB mA_good mB_good)

theorem mB_same : Same 2 mA mB := by
  refine ⟨mB_good, by decide, by decide, fun x v v' hv hv' => ?_⟩
  have a1 := hv.input 0 1 (by decide)
  have a2 := hv.input 1 2 (by decide)
  have b1 := hv'.input 0 1 (by decide)
  have b2 := hv'.input 1 2 (by decide)
  have a3 := hv.models.gate 3 ⟨1, false⟩ ⟨2, false⟩ ⟨by decide, by decide, _, rfl, by decide, by decide, by decide⟩
  have b3 := hv'.models.gate 3 ⟨1, true⟩ ⟨2, false⟩ ⟨by decide, by decide, _, rfl, by decide, by decide, by decide⟩
  have b4 := hv'.models.gate 4 ⟨2, false⟩ ⟨3, true⟩ ⟨by decide, by decide, _, rfl, by decide, by decide, by decide⟩
  have oa : mA.outputs = [⟨3, false⟩] := by decide
  have ob : mB.outputs = [⟨4, false⟩] := by decide
  rw [oa, ob]
  simp only [Sig.val, List.map_cons, List.map_nil] at *
  rw [a3, b4, b3, a1, a2, b1, b2]
  cases x 0 <;> cases x 1 <;> rfl

/-- the design `x₁ ∧ x₂` is read and saved, made `x₂ ∧ ¬(¬x₁ ∧ x₂)` by some command, and saved again -/
def story : List (Cmd Aig) := [.history true false false none, .optimize id (fun _ => mB), .history true false false none]

theorem story_ok : (afterRead mA).AllowsAll story ∧ (afterRead mA).KeepsAll 2 story ∧ ((afterRead mA).run story).saved = [mA, mB] := by
  refine ⟨?_, ?_, rfl⟩
  · simp [story, Spec.AllowsAll, Spec.Allows, Spec.step, afterRead]
  · refine ⟨trivial, ?_, trivial, trivial⟩
    simpa [Spec.step, afterRead] using mB_same

/-- what can be compared of an outcome with choices -/
def Outcome.view : Outcome → Option (List Nat × List (Option Bool) × List (Option (List Nat)) × Klut)
  | .choices D L K => some (D.net.gates, (List.range D.net.nodes.length).map L.isCellRoot, D.net.gates.map L.cellFanins, K)
  | _ => none

theorem story_run : (((run Aig.empty Aig.numGates init (.read mA :: story)).bind
    (mapFpga 5 Choice.runEnv (anyMapper Mapper.H1 0) { type := 1, cutSize := 3 })).bind Outcome.view).map (fun r => (r.1, r.2.1, r.2.2.1)) =
    some ([3, 4, 5], [some false, some false, some false, some false, some true, some true], [some [], some [1, 2], some [2, 4]]) := by
  decide +kernel

/-- The hypotheses of `C72_partial` are met, and the command stores a correct network: LUTs for the nodes 4 and 5 of the network with choices. -/
example : ∃ s D L K, run Aig.empty Aig.numGates init (.read mA :: story) = some s ∧
    mapFpga 5 Choice.runEnv (anyMapper Mapper.H1 0) { type := 1, cutSize := 3 } s = some (.choices D L K) ∧ Stores mA 3 K ∧ Stores mB 3 K := by
  obtain ⟨s, es, h⟩ := C72_partial 2 (by decide) mA mA_good (by decide) story story_ok.1 story_ok.2.1 5 (by
      rw [story_ok.2.2]
      intro B hB
      simp only [List.mem_cons, List.not_mem_nil, or_false] at hB
      rcases hB with rfl | rfl <;> decide) Choice.runEnv (by decide) Choice.Prover.search_sound (anyMapper Mapper.H1 0) (isMapper_any _ _)
    { type := 1, cutSize := 3 } rfl (by decide)
  have hv := story_run
  rw [es, Option.bind_some] at hv
  cases e : mapFpga 5 Choice.runEnv (anyMapper Mapper.H1 0) { type := 1, cutSize := 3 } s with
  | none => rw [e] at hv; cases hv
  | some r =>
    rw [e, Option.bind_some] at hv
    rcases h r e with ⟨h1, -⟩ | ⟨D, L, K, -, rfl, h2⟩
    · exact absurd h1 (by decide)
    · refine ⟨s, D, L, K, es, e, h2 ?_⟩
      simp only [Outcome.view, Option.map_some, Option.some.injEq, Prod.mk.injEq] at hv
      obtain ⟨hg, hr, hc⟩ := hv
      rw [hg] at hc
      simp only [List.map_cons, List.map_nil, List.cons.injEq, and_true] at hc
      rintro n ⟨⟨⟨a, b, h0, hni, nd, hnd, -⟩, hroot⟩, hself⟩
      have hn : n < D.net.nodes.length := (List.getElem?_eq_some_iff.1 hnd).1
      have := congrArg (fun l => l[n]?) hr
      simp only [List.getElem?_map, List.getElem?_range hn, Option.map_some] at this
      rw [show L.isCellRoot n = some true from hroot] at this
      match n, this with
      | 4, _ => rw [hc.2.1] at hself; simp at hself
      | 5, _ => rw [hc.2.2] at hself; simp at hself
      | n + 6, h => simp at h

/-- and of `C72_defined_partial` -/
example : ∃ s l M, run Aig.empty Aig.numGates init (.read mA :: story) = some s ∧ histories s = some l ∧ ChoiceMiter.merge 5 l = some M := by
  obtain ⟨s, l, M, h1, h2, h3, -⟩ := C72_defined_partial 2 (by decide) mA mA_good (by decide) story story_ok.1 story_ok.2.1 5 (by
      rw [story_ok.2.2]
      intro B hB
      simp only [List.mem_cons, List.not_mem_nil, or_false] at hB
      rcases hB with rfl | rfl <;> decide) (by rw [story_ok.2.2]; exact ⟨mB, by simp, by decide⟩) Choice.runEnv (by decide)
    Choice.Prover.search_sound Mapper.H1 0 { type := 1, cutSize := 3 } rfl (by decide) (by decide) _ rfl
  exact ⟨s, l, M, h1, h2, h3⟩

/-- The hypotheses of `C72_current_unused` are met: after a read and `history --add`, with two optimisations between which nothing is saved, the second
is lost. -/
example : ∃ s s', run Aig.empty Aig.numGates init [.read mB, .history true false false none, .optimize id (fun _ => mB)] = some s ∧
    step Aig.empty Aig.numGates s (.optimize id (fun _ => mA)) = some s' ∧
    mapFpga 5 Choice.runEnv realMapper { type := 1 } s' = mapFpga 5 Choice.runEnv realMapper { type := 1 } s := by
  refine ⟨_, _, rfl, rfl, C72_current_unused _ _ (by decide +kernel) (by decide +kernel) (fun _ => mA) rfl 5 Choice.runEnv { type := 1 } rfl realMapper⟩

/-- no snapshot: `C72_violated_empty` applies, also after an optimisation -/
example : ∃ s, run Aig.empty Aig.numGates init [.read mA, .optimize id (fun _ => mB)] = some s ∧
    mapFpga 5 Choice.runEnv realMapper { type := 1 } s = none :=
  C72_violated_empty mA [.optimize id (fun _ => mB)] (by simp [Spec.AllowsAll, Spec.Allows, afterRead]) (by simp [Spec.run, Spec.step, afterRead])
    5 Choice.runEnv { type := 1 } rfl (by decide) realMapper

/-- a design with the output functions `x₁ ∧ x₂` and `x₂ ∧ ¬(¬x₁ ∧ x₂)` -/
def twice : Aig :=
  let r := ChoiceMiter.pi2.createAnd ⟨1, false⟩ ⟨2, false⟩
  let q := r.1.createAnd ⟨1, true⟩ ⟨2, false⟩
  let t := q.1.createAnd ⟨2, false⟩ q.2.not
  (t.1.createPo r.2).createPo t.2

theorem twice_good : Good 2 twice :=
  ⟨.po (.po (.and (.and (.and (.pi (.pi .empty)) (by decide) (by decide)) (by decide) (by decide)) (by decide) (by decide)) (by decide)) (by decide),
    by decide, by decide⟩

/-- a LUT network with the constant 0 at both outputs -/
def zeroLut : Klut := ((Klut.empty.createPi.1.createPi.1.createNode [0] ⟨1, [false, true]⟩).1.createPo 4).createPo 4

theorem twice_run : ((run Aig.empty Aig.numGates init [.read twice, .history true false false none]).bind
    (mapFpga 6 Choice.runEnv realMapper { type := 1 })).bind Outcome.view =
    some ([3, 4, 5], [some false, some false, some false, some false, some false, some true], [some [], some [], some [5]], zeroLut) := by
  decide +kernel

/-- The property fails for a design of three gates, with the mapper's own costs, the options of the shell and no optimisation at all: after
`read_aiger`, `history --add` and `map_fpga --type 1` both outputs of the stored network are the constant 0, those of the design are not. The two
gates are found to be equivalent; the cut `{x₁, x₂}` of the choice removes the equal cut of the representative, and the trivial cut of the
representative, of delay 0, comes first. -/
theorem C72_violated_zero : Good 2 twice ∧ twice.outputs.length = twice.numPos ∧
    ∃ s D L K, run Aig.empty Aig.numGates init [.read twice, .history true false false none] = some s ∧
      mapFpga 6 Choice.runEnv realMapper { type := 1 } s = some (.choices D L K) ∧
      (∀ x v, K.Consistent x v → K.outputs.map v = [false, false]) ∧
      ∀ v, twice.Consistent (fun _ => true) v → twice.outputs.map (·.val v) = [true, true] := by
  refine ⟨twice_good, by decide, ?_⟩
  have hv := twice_run
  cases es : run Aig.empty Aig.numGates init [.read twice, .history true false false none] with
  | none => rw [es] at hv; cases hv
  | some s =>
    rw [es, Option.bind_some] at hv
    cases e : mapFpga 6 Choice.runEnv realMapper { type := 1 } s with
    | none => rw [e] at hv; cases hv
    | some r =>
      rw [e, Option.bind_some] at hv
      cases r with
      | refused => cases hv
      | plain K => cases hv
      | choices D L K =>
        simp only [Outcome.view, Option.some.injEq, Prod.mk.injEq] at hv
        obtain ⟨-, -, -, rfl⟩ := hv
        refine ⟨s, D, L, zeroLut, rfl, e, ?_, ?_⟩
        · intro x v hv
          have h4 := hv.lut 4 [0] ⟨1, [false, true]⟩ ⟨by decide, by decide, _, rfl, by decide, by decide +kernel⟩
          show [v 4, v 4] = [false, false]
          rw [h4]
          have : Klut.args v [0] 0 = false := hv.const0
          simp [TT.eval, TT.pos, this, TT.get]
        · intro v hv
          have h1 := hv.input 0 1 (by decide)
          have h2 := hv.input 1 2 (by decide)
          have h3 := hv.models.gate 3 (.mk 1 false) (.mk 2 false) ⟨by decide, by decide, _, rfl, by decide, by decide⟩
          have h4 := hv.models.gate 4 (.mk 1 true) (.mk 2 false) ⟨by decide, by decide, _, rfl, by decide, by decide⟩
          have h5 := hv.models.gate 5 (.mk 2 false) (.mk 4 true) ⟨by decide, by decide, _, rfl, by decide, by decide⟩
          simp only [Sig.val] at h3 h4 h5
          show [Bool.xor false (v 3), Bool.xor false (v 5)] = [true, true]
          rw [h5, h3, h4, h1, h2]
          rfl

end Verif.Cli
