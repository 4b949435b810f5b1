import Verif.Cnf.CheckerParProof
import Verif.Props.C74

set_option autoImplicit false

/-!
# C81: the parallel checker of mapped networks

Full statement: the parallel checker of a mapped network returns true exactly if every LUT computes the function of its root; the result
does not depend on the number of threads and the order of the iterations; and no two iterations conflict.

This is false in several ways: a right LUT is refused if a node between its leaves and its root is farther from the leaves than the root
(`C81_violated_alarm`; the other checker accepts that mapping), if it has no leaves (`C81_no_leaves`), and if the solver gives up
(`C81_violated_timeout`); with registers a wrong LUT is accepted (`C81_violated_register`); and two iterations conflict on the map of
fan-outs for the plainest network with two outputs (`C81_violated_race`). Proved:

* `C81_sound_partial`: without registers all LUTs of an accepted mapping are right, also if the solver gives up sometimes;
  `C81_network_partial`: the LUT network made of it is equivalent to the AIG.
* `C81_order`: the result does not depend on the order in which the iterations end.
* `C81_defined_partial`: the check ends without running outside the data.
* `C81_accepts_partial`: LUTs that are right by their structure, with all nodes nearer to the leaves than the root, are accepted.
* `C81_free_partial`: an accepted mapping is checked without conflicts if all nodes above the leaves of a LUT, except for its root, have fan-outs.
-/

namespace Verif.Checker.Par
open Cnf

/-! ### helper lemmas -/

theorem run_spec {C : Choice} {M : Mapping} {solve : List (List Nat) → Answer} {fuel : Nat} {order : List Nat → List Nat} {b : Bool}
    (e : run C M solve fuel order = some b) : ∃ rs R, roots M C.net.gates = some rs ∧ reprMap C = some R ∧
      loop C M R solve fuel (order rs) false = some (!b) := by
  rw [run] at e
  split at e
  · rename_i rs R h1 h2
    obtain ⟨c, e1, rfl⟩ := Option.map_eq_some_iff.1 e
    exact ⟨rs, R, h1, h2, by rw [e1, Bool.not_not]⟩
  · cases e

theorem run_true {C : Choice} {M : Mapping} (hN : C.net.Built) {solve : List (List Nat) → Answer} {fuel : Nat} {order : List Nat → List Nat}
    (ho : ∀ l, (order l).Perm l) (e : run C M solve fuel order = some true) : ∃ R, reprMap C = some R ∧
      ∀ n, Cover.Root C.net M n → isEqualCell C M R solve fuel n = some true := by
  obtain ⟨rs, R, h1, h2, h3⟩ := run_spec e
  refine ⟨R, h2, fun n hr => ((loop_false _ _).1 h3).2 n ?_⟩
  exact (ho rs).mem_iff.2 ((mem_roots _ _ h1 n).2 ⟨(hN.wf.mem_gates n).2 hr.1, hr.2⟩)

theorem verdict_true {solve : List (List Nat) → Answer} (hs : Correct solve) {cs : List (List Nat)} (h : verdict (solve cs) = true) :
    ¬ ∃ a, Satisfies a cs := by
  have := hs cs
  cases ha : solve cs with
  | sat a => rw [ha] at h; cases h
  | unsat => rw [ha] at this; exact this
  | timeout => rw [ha] at h; cases h

theorem verdict_sat {solve : List (List Nat) → Answer} (hs : Correct solve) {cs : List (List Nat)} (h : ∃ a, Satisfies a cs) :
    verdict (solve cs) = false := by
  cases hv : verdict (solve cs) with
  | false => rfl
  | true => exact absurd h (verdict_true hs hv)

theorem verdict_unsat {solve : List (List Nat) → Answer} (hs : Correct solve) (hd : Decides solve) {cs : List (List Nat)} (h : ¬ ∃ a, Satisfies a cs) :
    verdict (solve cs) = true := by
  have := hs cs
  cases ha : solve cs with
  | sat a => rw [ha] at this; exact absurd ⟨a, this⟩ h
  | unsat => rfl
  | timeout => exact absurd ha (hd cs)

/-! ### what acceptance means -/

/-- All LUTs of an accepted mapping compute the functions of their roots, in whatever order the iterations end. Missing: registers
(`C81_violated_register`), conflicts of the iterations (`C81_free_partial`). -/
theorem C81_sound_partial (C : Choice) (M : Mapping) (hN : C.net.Built) (hpi : C.net.inputs.length = C.net.numPis) (hO : C.Ordered)
    (hS : C.Sound) (hc : ∀ n, Cover.Root C.net M n → Cell M n) (solve : List (List Nat) → Answer) (hs : Correct solve)
    (fuel : Nat) (order : List Nat → List Nat) (ho : ∀ l, (order l).Perm l) (e : run C M solve fuel order = some true) :
    ∀ n, Cover.Root C.net M n → ∃ cs f, M.cellFanins n = some cs ∧ M.cellFunction n = some f ∧
      ∀ v, C.net.Models v → v n = f.eval (Klut.args v cs) := by
  intro n hr
  obtain ⟨R, eR, hl⟩ := run_true hN ho e
  obtain ⟨cs, f, h1, h2, h3, h4, h5, h6⟩ := hc n hr
  obtain ⟨x, e1, e2⟩ := Option.map_eq_some_iff.1 (hl n hr)
  exact ⟨cs, f, h1, h2, fun v hv => cell_sound hN hpi eR hv (fun k r h => reprMap_sound hO hS eR h v hv) e1 (verdict_true hs e2) h2 h1 h3 h5
    h4.symm⟩

/-- The LUT network made of an accepted mapping is equivalent to the AIG. Missing: as above; and the checker does not look
whether the outputs are covered, and whether the leaves of a LUT are roots of other LUTs and come before its root. -/
theorem C81_network_partial (C : Choice) (M : Mapping) (hN : C.net.Built) (hpi : C.net.inputs.length = C.net.numPis)
    (hpo : C.net.outputs.length = C.net.numPos) (hO : C.Ordered)
    (hS : C.Sound) (hc : ∀ n, Cover.Root C.net M n → Cell M n) (hm : ∀ n, n < C.net.nodes.length → ∃ b, M.isCellRoot n = some b)
    (ho : ∀ o ∈ C.net.outputs, Cover.Avail C.net M o.index)
    (hl : ∀ n, Cover.Root C.net M n → ∀ cs, M.cellFanins n = some cs → ∀ l ∈ cs, Cover.Avail C.net M l ∧ l < n)
    (solve : List (List Nat) → Answer) (hs : Correct solve)
    (fuel : Nat) (order : List Nat → List Nat) (hp : ∀ l, (order l).Perm l) (e : run C M solve fuel order = some true) :
    ∃ r, Collapse.choiceToKlut C.net M = some r ∧ (r = none ↔ M.hasMapping = false ∧ 0 < C.net.numGates) ∧
      ∀ K, r = some K → Collapse.Equiv C.net K := by
  refine Collapse.C34_choice_to_klut_rising_partial C.net M hN ⟨hm, ho, fun n hr => ?_⟩
    (fun n cs hr hcs l h => (hl n hr cs hcs l h).2) hpi hpo
  obtain ⟨cs, f, h1, h2, h3⟩ := C81_sound_partial C M hN hpi hO hS hc solve hs fuel order hp e n hr
  obtain ⟨cs', f', h1', h2', h4, h5, _⟩ := hc n hr
  obtain rfl := Option.some.inj (h1.symm.trans h1')
  obtain rfl := Option.some.inj (h2.symm.trans h2')
  exact ⟨cs, f, h1, h2, h4, h5, fun l h => (hl n hr cs h1 l h).1, h3⟩

/-- The result, also whether there is one, is the same in whatever order the iterations end. -/
theorem C81_order (C : Choice) (M : Mapping) (solve : List (List Nat) → Answer) (fuel : Nat) (order order' : List Nat → List Nat)
    (h : ∀ l, (order l).Perm l) (h' : ∀ l, (order' l).Perm l) : run C M solve fuel order = run C M solve fuel order' := by
  rw [run, run]
  split
  · rename_i rs R h1 h2
    rw [loop_congr (l := order rs) (l' := order' rs)]
    intro n
    rw [(h rs).mem_iff, (h' rs).mem_iff]
  · rfl

/-- The check ends with a result if the leaves of the LUTs are nodes of the network; this bound on the number of rounds of each search
suffices. Missing: conflicts of the iterations, which are undefined behaviour. -/
theorem C81_defined_partial (C : Choice) (M : Mapping) (hN : C.net.Built) (hO : C.Ordered)
    (hc : ∀ n, Cover.Root C.net M n → Cell M n) (hm : ∀ n, n < C.net.nodes.length → ∃ b, M.isCellRoot n = some b)
    (hl : ∀ n, Cover.Root C.net M n → ∀ cs, M.cellFanins n = some cs → ∀ l ∈ cs, l < C.net.nodes.length)
    (solve : List (List Nat) → Answer) (fuel : Nat) (hf : C.net.nodes.length * (C.net.nodes.length + 3) + 32 ≤ fuel)
    (order : List Nat → List Nat) (ho : ∀ l, (order l).Perm l) : ∃ b, run C M solve fuel order = some b := by
  obtain ⟨R, eR⟩ := reprMap_defined hO
  obtain ⟨rs, ers⟩ : ∃ rs, roots M C.net.gates = some rs := roots_defined _ fun n hn => by
    obtain ⟨a, b, g⟩ := (hN.wf.mem_gates n).1 hn
    exact hm n (hN.wf.isGate_lt g).2.2.2
  rw [run, ers, eR]
  dsimp only
  cases e : loop C M R solve fuel (order rs) false with
  | some b => exact ⟨_, rfl⟩
  | none =>
    obtain ⟨n, hn, e'⟩ := (loop_none _ _).1 e
    have := (mem_roots _ _ ers n).1 ((ho rs).mem_iff.1 hn)
    have hr : Cover.Root C.net M n := ⟨(hN.wf.mem_gates n).1 this.1, this.2⟩
    obtain ⟨x, hx⟩ := cellClauses_defined hN eR (hc n hr) (hl n hr) hf
    rw [isEqualCell, hx] at e'
    cases e'

/-- LUTs that are right by their structure, with all nodes that are needed for this nearer to the leaves than the root, are accepted.
Missing: other right LUTs (`C81_violated_alarm`, `C81_no_leaves`), a solver that gives up (`C81_violated_timeout`). -/
theorem C81_accepts_partial (C : Choice) (M : Mapping) (hN : C.net.Built)
    (hc : ∀ n, Cover.Root C.net M n → Cell M n) (hr : ∀ n, Cover.Root C.net M n → NearRight C M n)
    (solve : List (List Nat) → Answer) (hs : Correct solve) (hd : Decides solve) (fuel : Nat)
    (order : List Nat → List Nat) (ho : ∀ l, (order l).Perm l) (b : Bool) (e : run C M solve fuel order = some b) : b = true := by
  obtain ⟨rs, R, ers, eR, e1⟩ := run_spec e
  have key : loop C M R solve fuel (order rs) false = some false := by
    refine (loop_false _ _).2 ⟨rfl, fun n hn => ?_⟩
    have := (mem_roots _ _ ers n).1 ((ho rs).mem_iff.1 hn)
    have hroot : Cover.Root C.net M n := ⟨(hN.wf.mem_gates n).1 this.1, this.2⟩
    obtain ⟨cs, f, h1, h2, h3, h4, h5, _⟩ := hc n hroot
    obtain ⟨cs', f', h1', h2', hw, hv⟩ := hr n hroot
    obtain rfl := Option.some.inj (h1.symm.trans h1')
    obtain rfl := Option.some.inj (h2.symm.trans h2')
    cases ex : cellClauses C M R fuel n with
    | none =>
      have : loop C M R solve fuel (order rs) false = none := (loop_none _ _).2 ⟨n, hn, by rw [isEqualCell, ex]; rfl⟩
      rw [this] at e1
      cases e1
    | some x =>
      rw [isEqualCell, ex, Option.map_some, verdict_unsat hs hd (cell_complete hN eR ex h2 h1 h3 h5 h4.symm hw hv)]
  rw [key] at e1
  cases b
  · cases e1
  · rfl

/-- An accepted mapping is checked without conflicts, whatever the threads, if from every node above the leaves of a LUT, except for its root, the search
can go on. Missing: mappings that are refused (two iterations may both write the flag). -/
theorem C81_free_partial (C : Choice) (M : Mapping) (hN : C.net.Built)
    (hf : ∀ n, Cover.Root C.net M n → ∀ cs, M.cellFanins n = some cs → ∀ i m k, Walk C n cs i m → m ≠ n → Key C m k → ∃ g, Reads C.net g k)
    (solve : List (List Nat) → Answer) (fuel : Nat) (order : List Nat → List Nat) (ho : ∀ l, (order l).Perm l)
    (e : run C M solve fuel order = some true) (R : Nat → Option Nat) (eR : reprMap C = some R) (rs : List Nat)
    (ers : roots M C.net.gates = some rs) (thread : Nat → Nat) : ¬ Race C M R solve fuel thread rs := by
  rintro ⟨m, hm, n, hn, _, x, y, hx, hy, ⟨⟨k, hk, hk'⟩, _⟩ | ⟨hv, _⟩⟩
  · have := (mem_roots _ _ ers m).1 hm
    have hr : Cover.Root C.net M m := ⟨(hN.wf.mem_gates m).1 this.1, this.2⟩
    rw [cellClauses] at hx
    split at hx
    · rename_i f cs h1 h2
      split at hx
      · cases hx
      · split at hx
        · cases hx
        · rename_i ns A e2
          obtain ⟨S2, e3, e4⟩ := Option.map_eq_some_iff.1 hx
          have : x.2 = A := by rw [← e4]
          rw [this] at hk
          obtain ⟨q, i, w, hq, hkey⟩ := (upCone_found hN eR e2).1.keys k hk
          obtain ⟨g, hg⟩ := hf m hr cs h2 i q k w hq hkey
          have := (mem_fanouts hN).2 hg
          rw [hk'] at this
          cases this
    · cases hx
  · have := (mem_roots _ _ ers m).1 hm
    have hr : Cover.Root C.net M m := ⟨(hN.wf.mem_gates m).1 this.1, this.2⟩
    obtain ⟨R', eR', hl⟩ := run_true hN ho e
    obtain rfl := Option.some.inj (eR.symm.trans eR')
    have := hl m hr
    rw [isEqualCell, hx, Option.map_some, hv] at this
    cases this

/-- A LUT without leaves is refused, right or wrong, whatever the solver answers. -/
theorem C81_no_leaves (C : Choice) (M : Mapping) (R : Nat → Option Nat) (n : Nat) (f : TT) (h1 : M.cellFanins n = some []) (h2 : M.cellFunction n = some f)
    (h3 : f.WF) (h4 : f.n = 0) (solve : List (List Nat) → Answer) (hs : Correct solve) (fuel : Nat) :
    isEqualCell C M R solve fuel n = some false := by
  obtain ⟨b, g, _⟩ := (recycle_good fun _ => !f.eval (Klut.args (fun _ => false) [])).prepare n
  obtain ⟨cls, S1, _, e1, _⟩ := addFunc_spec (S := prepare recycle n) h3 (by omega) (leaves := []) (by rw [h4]; rfl)
  obtain ⟨b1, g1, hg1, _⟩ := g.addFunc h3 (by omega) (leaves := []) (by rw [h4]; rfl) e1
  obtain ⟨b2, g2, ag⟩ := g1.prepare n
  have hu : upCone C.net R fuel n [] = some ([], []) := by
    have : upLoop C.net R n fuel [] [] [] = some ([], []) := by cases fuel <;> rfl
    rw [upCone, this]
    dsimp only
    simp
  have hgold := (addFunc_le e1).2.2
  have l2 := (prepare_le (S := { S1 with clauses := S1.clauses ++ cls }) n).next
  have hvar := g2.var n (prepare_has g1.next2 n)
  obtain ⟨b3, g3, _⟩ := g2.addDiffer (x := (prepare recycle n).next) (y := (prepare { S1 with clauses := S1.clauses ++ cls } n).var n)
    (Nat.lt_of_lt_of_le hgold l2) hvar.1 (by
      rw [hvar.2, ag _ hgold, hg1]
      have : Klut.args (fun _ => !f.eval (Klut.args (fun _ => false) [])) [] = Klut.args (fun _ => false) [] :=
        Klut.args_congr fun c hc => by cases hc
      rw [this]
      cases f.eval (Klut.args (fun _ => false) []) <;> simp)
  rw [isEqualCell, cellClauses, h2, h1]
  dsimp only
  rw [show prepares (prepare recycle n) [] = prepare recycle n from rfl, e1]
  dsimp only
  rw [hu]
  dsimp only
  rw [show addNodes C R [] { S1 with clauses := S1.clauses ++ cls } = some { S1 with clauses := S1.clauses ++ cls } from rfl, Option.map_some,
    Option.map_some]
  dsimp only
  rw [verdict_sat hs ⟨b3, g3.sat⟩]

/-! ### a network without choices, its mapping accepted without conflicts -/

/-- LUTs for `(1 ∧ 2) ∧ ¬3` (`plain`), one for each gate -/
def plainMap : Mapping :=
  ((Mapping.init 6).run [.add 4 [1, 2], .setFunction 4 ⟨2, [false, false, false, true]⟩, .add 5 [3, 4],
    .setFunction 5 ⟨2, [false, false, true, false]⟩]).get (by decide +kernel)

theorem init_rep {N : Aig} {k n r : Nat} : ¬ RepOf (Choice.init N k) n r := by
  intro h
  have : ∀ {a b}, Behind (Choice.init N k) a b → False := by
    intro a b hb
    cases hb with
    | next h => simp only [Choice.init, List.getElem?_replicate] at h; split at h <;> cases h
    | more h _ => simp only [Choice.init, List.getElem?_replicate] at h; split at h <;> cases h
  exact this h.behind

theorem init_ordered {N : Aig} {k : Nat} (h : N.nodes.length ≤ k) : (Choice.init N k).Ordered := by
  refine ⟨by simpa [Choice.init] using h, fun n m h => ?_⟩
  simp only [Choice.init, List.getElem?_replicate] at h
  split at h <;> cases h

theorem init_sound {N : Aig} {k : Nat} : (Choice.init N k).Sound := by
  intro n m h
  simp only [Choice.init, List.getElem?_replicate] at h
  split at h <;> cases h

theorem plain_gate4 : plain.net.IsGate 4 (.mk 1 false) (.mk 2 false) := ⟨by decide, by decide, _, rfl, by decide, by decide⟩

theorem plain_roots {n : Nat} (h : Cover.Root plain.net plainMap n) :
    n = 4 ∧ plainMap.cellFanins n = some [1, 2] ∨ n = 5 ∧ plainMap.cellFanins n = some [3, 4] := by
  obtain ⟨⟨a, b, hg⟩, hr⟩ := h
  have hn : n < 6 := (ToAig.coverAig_built.wf.isGate_lt hg).2.2.2
  have : ∀ k < 6, plainMap.isCellRoot k = some true → k = 4 ∨ k = 5 := by decide +kernel
  rcases this n hn hr with rfl | rfl
  · exact .inl ⟨rfl, by decide +kernel⟩
  · exact .inr ⟨rfl, by decide +kernel⟩

theorem plain_cell (n : Nat) (h : Cover.Root plain.net plainMap n) : Cell plainMap n := by
  rcases plain_roots h with ⟨rfl, e⟩ | ⟨rfl, e⟩
  · exact ⟨[1, 2], ⟨2, [false, false, false, true]⟩, e, by decide +kernel, rfl, rfl, by decide, by simp⟩
  · exact ⟨[3, 4], ⟨2, [false, false, true, false]⟩, e, by decide +kernel, rfl, rfl, by decide, by simp⟩

theorem plain_near (n : Nat) (h : Cover.Root plain.net plainMap n) : NearRight plain plainMap n := by
  rcases plain_roots h with ⟨rfl, e⟩ | ⟨rfl, e⟩
  · refine ⟨[1, 2], ⟨2, [false, false, false, true]⟩, e, by decide +kernel,
      ⟨1, .step (n := 1) (.leaf (by simp)) (by decide) (.inr ⟨1, .inr ⟨rfl, fun r => init_rep⟩, _, _, plain_gate4, .inl rfl⟩)⟩, fun w => ?_⟩
    rw [eval_and]
    simpa using NearVal.gate (C := plain) (w := w) (root := 4) (leaves := [1, 2]) (.inl rfl) plain_gate4 (.leaf (by simp)) (.leaf (by simp))
  · refine ⟨[3, 4], ⟨2, [false, false, true, false]⟩, e, by decide +kernel,
      ⟨1, .step (n := 3) (.leaf (by simp)) (by decide) (.inr ⟨3, .inr ⟨rfl, fun r => init_rep⟩, _, _, plain_gate5, .inl rfl⟩)⟩, fun w => ?_⟩
    have h5 := NearVal.gate (C := plain) (w := w) (root := 5) (leaves := [3, 4]) (.inl rfl) plain_gate5 (.leaf (by simp)) (.leaf (by simp))
    have h0 : Klut.args w [3, 4] 0 = w 3 := rfl
    have h1 : Klut.args w [3, 4] 1 = w 4 := rfl
    simp only [TT.eval, TT.pos, h0, h1]
    revert h5
    cases w 3 <;> cases w 4 <;> exact id

theorem plain_marked : ∀ n, n < plain.net.nodes.length → ∃ b, plainMap.isCellRoot n = some b := by
  intro n hn
  have : ∀ k < 6, (plainMap.isCellRoot k).isSome = true := by decide +kernel
  exact Option.isSome_iff_exists.1 (this n hn)

theorem plain_leaves (n : Nat) (h : Cover.Root plain.net plainMap n) (cs : List Nat) (e : plainMap.cellFanins n = some cs) :
    ∀ l ∈ cs, l < plain.net.nodes.length := by
  have : plain.net.nodes.length = 6 := rfl
  rw [this]
  rcases plain_roots h with ⟨rfl, e'⟩ | ⟨rfl, e'⟩ <;>
  · obtain rfl := Option.some.inj (e'.symm.trans e)
    simp

/-- it is accepted by every solver that answers, with the iterations in any order -/
theorem plain_accepted (solve : List (List Nat) → Answer) (hs : Correct solve) (hd : Decides solve) (order : List Nat → List Nat)
    (ho : ∀ l, (order l).Perm l) : run plain plainMap solve 100 order = some true := by
  obtain ⟨b, e⟩ := C81_defined_partial plain plainMap ToAig.coverAig_built plain_ordered plain_cell plain_marked plain_leaves solve 100
    (by decide) order ho
  rw [e, C81_accepts_partial plain plainMap ToAig.coverAig_built plain_cell plain_near solve hs hd 100 order ho b e]

/-- so the LUT of node 5 is right -/
example : ∃ cs f, plainMap.cellFanins 5 = some cs ∧ plainMap.cellFunction 5 = some f ∧
    ∀ v, plain.net.Models v → v 5 = f.eval (Klut.args v cs) :=
  C81_sound_partial plain plainMap ToAig.coverAig_built (by decide) plain_ordered init_sound plain_cell ideal ideal_correct.1 100 List.reverse
    (fun l => List.reverse_perm l) (plain_accepted _ ideal_correct.1 ideal_correct.2 _ fun l => List.reverse_perm l) 5
    ⟨⟨_, _, plain_gate5⟩, by decide +kernel⟩

example : run plain plainMap ideal 100 id = run plain plainMap ideal 100 List.reverse :=
  C81_order _ _ _ _ _ _ (fun l => List.Perm.refl l) (fun l => List.reverse_perm l)

/-- the walks from the leaves of a LUT of it end at its root -/
theorem plain_walk {n : Nat} (hr : Cover.Root plain.net plainMap n) {cs : List Nat} (e : plainMap.cellFanins n = some cs) {i m : Nat}
    (w : Walk plain n cs i m) : m ∈ cs ∨ m = n := by
  obtain ⟨R, eR⟩ := reprMap_defined plain_ordered
  have hd : (reprMap plain).map (fun R => (succs plain.net R 1, succs plain.net R 2, succs plain.net R 3, succs plain.net R 4)) =
      some ([4], [4], [5], [5]) := by decide +kernel
  rw [eR, Option.map_some, Option.some.injEq, Prod.mk.injEq, Prod.mk.injEq, Prod.mk.injEq] at hd
  induction w with
  | leaf h => exact .inl h
  | @step k n' m' _ hne hs ih =>
    rcases ih with ih | ih
    · have hs' := (mem_succs ToAig.coverAig_built eR).2 hs
      rcases plain_roots hr with ⟨rfl, e'⟩ | ⟨rfl, e'⟩
      · obtain rfl := Option.some.inj (e'.symm.trans e)
        simp only [List.mem_cons, List.not_mem_nil, or_false] at ih
        rcases ih with rfl | rfl
        · rw [hd.1] at hs'; exact .inr (by simpa using hs')
        · rw [hd.2.1] at hs'; exact .inr (by simpa using hs')
      · obtain rfl := Option.some.inj (e'.symm.trans e)
        simp only [List.mem_cons, List.not_mem_nil, or_false] at ih
        rcases ih with rfl | rfl
        · rw [hd.2.2.1] at hs'; exact .inr (by simpa using hs')
        · rw [hd.2.2.2] at hs'; exact .inr (by simpa using hs')
    · exact absurd ih hne

/-- it is checked without conflicts, whatever the threads -/
example (thread : Nat → Nat) : ∃ R rs, reprMap plain = some R ∧ roots plainMap plain.net.gates = some rs ∧
    ¬ Race plain plainMap R ideal 100 thread rs := by
  obtain ⟨R, eR⟩ := reprMap_defined plain_ordered
  have ers : roots plainMap plain.net.gates = some [4, 5] := by decide +kernel
  refine ⟨R, _, eR, ers, C81_free_partial plain plainMap ToAig.coverAig_built ?_ ideal 100 id (fun l => List.Perm.refl l)
    (plain_accepted _ ideal_correct.1 ideal_correct.2 _ fun l => List.Perm.refl l) R eR _ ers thread⟩
  intro n hr cs e i m k w hne hk
  rcases hk with hk | ⟨rfl, _⟩
  · exact absurd hk init_rep
  · rcases plain_walk hr e w with h | h
    · rcases plain_roots hr with ⟨rfl, e'⟩ | ⟨rfl, e'⟩
      · obtain rfl := Option.some.inj (e'.symm.trans e)
        simp only [List.mem_cons, List.not_mem_nil, or_false] at h
        rcases h with rfl | rfl
        · exact ⟨4, _, _, plain_gate4, .inl rfl⟩
        · exact ⟨4, _, _, plain_gate4, .inr rfl⟩
      · obtain rfl := Option.some.inj (e'.symm.trans e)
        simp only [List.mem_cons, List.not_mem_nil, or_false] at h
        rcases h with rfl | rfl
        · exact ⟨5, _, _, plain_gate5, .inl rfl⟩
        · exact ⟨5, _, _, plain_gate5, .inr rfl⟩
    · exact absurd h hne

/-! ### a network with a choice -/

theorem assoc_succs {R : Nat → Option Nat} (eR : reprMap Mapper.assocNet = some R) :
    succs Mapper.assocNet.net R 1 = [4, 7] ∧ succs Mapper.assocNet.net R 3 = [5, 6] ∧ succs Mapper.assocNet.net R 4 = [5] ∧
      succs Mapper.assocNet.net R 5 = [7] := by
  have hd : (reprMap Mapper.assocNet).map (fun R => (succs Mapper.assocNet.net R 1, succs Mapper.assocNet.net R 3,
      succs Mapper.assocNet.net R 4, succs Mapper.assocNet.net R 5)) = some ([4, 7], [5, 6], [5], [7]) := by decide +kernel
  rw [eR, Option.map_some, Option.some.injEq, Prod.mk.injEq, Prod.mk.injEq, Prod.mk.injEq] at hd
  exact hd

/-- the LUT of node 7 is right by its choice, node 5, which is nearer to the leaves 3 and 4 than node 7 -/
theorem assoc_near (n : Nat) (h : Cover.Root Mapper.assocNet.net assocMap n) : NearRight Mapper.assocNet assocMap n := by
  obtain ⟨R, eR⟩ := reprMap_defined Mapper.assocNet_ordered
  obtain ⟨s1, s3, s4, s5⟩ := assoc_succs eR
  have hst : ∀ {n m}, Step Mapper.assocNet n m ↔ m ∈ succs Mapper.assocNet.net R n := fun {n m} => (mem_succs Mapper.assocAig_built eR).symm
  rcases assocMap_root h with rfl | rfl
  · refine ⟨[1, 2], ⟨2, [false, false, false, true]⟩, by decide +kernel, by decide +kernel,
      ⟨1, .step (n := 1) (.leaf (by simp)) (by decide) (hst.2 (by rw [s1]; simp))⟩, fun w => ?_⟩
    rw [eval_and]
    simpa using NearVal.gate (C := Mapper.assocNet) (w := w) (root := 4) (leaves := [1, 2]) (.inl rfl) assoc_gate4 (.leaf (by simp)) (.leaf (by simp))
  · have w5 : Walk Mapper.assocNet 7 [3, 4] 1 5 := .step (n := 3) (.leaf (by simp)) (by decide) (hst.2 (by rw [s3]; simp))
    have hnear : Nearer Mapper.assocNet 7 [3, 4] 5 := by
      refine ⟨1, w5, fun j hj w => ?_⟩
      cases w with
      | leaf h => simp at h
      | @step k n m w hne hs =>
        obtain rfl : k = 0 := by omega
        cases w with
        | leaf h =>
          have hs' := hst.1 hs
          simp only [List.mem_cons, List.not_mem_nil, or_false] at h
          rcases h with rfl | rfl
          · rw [s3] at hs'; simp at hs'
          · rw [s4] at hs'; simp at hs'
    refine ⟨[3, 4], ⟨2, [false, false, false, true]⟩, by decide +kernel, by decide +kernel,
      ⟨2, .step w5 (by decide) (hst.2 (by rw [s5]; simp))⟩, fun w => ?_⟩
    rw [eval_and]
    have h5 := NearVal.gate (C := Mapper.assocNet) (w := w) (root := 7) (leaves := [3, 4]) (.inr hnear) assoc_gate5 (.leaf (by simp)) (.leaf (by simp))
    have hc : ChoiceOf Mapper.assocNet 5 7 :=
      ⟨⟨_, _, assoc_gate5⟩, ⟨_, _, assoc_gate7⟩, by decide +kernel, .next (by decide), fun g _ _ hb => by rw [assoc_behind hb]⟩
    have := NearVal.choice hnear hc h5
    have p7 : Mapper.assocNet.net.phaseOf 7 = false := by decide
    have p5 : Mapper.assocNet.net.phaseOf 5 = false := by decide
    rw [p7, p5] at this
    simpa using this

theorem assoc_below (n : Nat) (h : Cover.Root Mapper.assocNet.net assocMap n) (cs : List Nat) (e : assocMap.cellFanins n = some cs) :
    ∀ l ∈ cs, l < Mapper.assocNet.net.nodes.length := by
  intro l hl
  obtain ⟨a, b, g⟩ := h.1
  have := (assoc_leaves n h cs e l hl).2
  have := (Mapper.assocAig_built.wf.isGate_lt g).2.2.2
  exact Nat.lt_trans ‹l < n› this

theorem assoc_accepted : run Mapper.assocNet assocMap ideal 200 id = some true := by
  obtain ⟨b, e⟩ := C81_defined_partial _ _ Mapper.assocAig_built Mapper.assocNet_ordered assoc_cell assoc_marked assoc_below ideal 200
    (by decide) id (fun l => List.Perm.refl l)
  rw [e, C81_accepts_partial _ _ Mapper.assocAig_built assoc_cell assoc_near ideal ideal_correct.1 ideal_correct.2 200 id
    (fun l => List.Perm.refl l) b e]

example : ∃ K, Collapse.choiceToKlut Mapper.assocNet.net assocMap = some (some K) ∧ Collapse.Equiv Mapper.assocNet.net K := by
  obtain ⟨r, er, hr, hK⟩ := C81_network_partial _ _ Mapper.assocAig_built (by decide) (by decide) Mapper.assocNet_ordered Mapper.assocNet_sound
    assoc_cell assoc_marked assoc_outputs assoc_leaves ideal ideal_correct.1 200 id (fun l => List.Perm.refl l) assoc_accepted
  cases r with
  | none =>
    have h : assocMap.hasMapping = true := by decide +kernel
    rw [(hr.1 rfl).1] at h
    cases h
  | some K => exact ⟨K, er, hK K rfl⟩

/-- a constant LUT for node 4 of `plain`, without leaves -/
def bareMap : Mapping :=
  ((Mapping.init 6).run [.add 4 [], .setFunction 4 ⟨0, [false]⟩]).get (by decide +kernel)

example : isEqualCell plain bareMap (fun _ => none) ideal 10 4 = some false :=
  C81_no_leaves _ _ _ 4 ⟨0, [false]⟩ (by decide +kernel) (by decide +kernel) rfl rfl ideal ideal_correct.1 10

/-! ### counterexamples -/

/-- inputs 1 to 4; node 5 is `x₃ ∧ x₄`, node 6 `x₂ ∧ 5`, node 7 `x₁ ∧ 6` and the output -/
def chainAig : Aig :=
  let n1 := Aig.empty.createPi.1.createPi.1.createPi.1.createPi.1
  let r5 := n1.createAnd (.mk 3 false) (.mk 4 false)
  let r6 := r5.1.createAnd (.mk 2 false) (.mk 5 false)
  let r7 := r6.1.createAnd (.mk 1 false) (.mk 6 false)
  r7.1.createPo (.mk 7 false)

theorem chainAig_built : chainAig.Built := by
  have h1 : Aig.Built Aig.empty.createPi.1.createPi.1.createPi.1.createPi.1 := .pi (.pi (.pi (.pi .empty)))
  have h5 := Aig.Built.and (a := .mk 3 false) (b := .mk 4 false) h1 (by decide) (by decide)
  have h6 := Aig.Built.and (a := .mk 2 false) (b := .mk 5 false) h5 (by decide) (by decide)
  have h7 := Aig.Built.and (a := .mk 1 false) (b := .mk 6 false) h6 (by decide) (by decide)
  exact .po h7 (by decide)

def chainNet : Choice := Choice.init chainAig 8

def and4 : TT := ⟨4, List.replicate 15 false ++ [true]⟩

/-- one LUT for the whole network, the conjunction of the inputs -/
def chainMap : Mapping := ((Mapping.init 8).run [.add 7 [1, 2, 3, 4], .setFunction 7 and4]).get (by decide +kernel)

theorem chain_gate5 : chainNet.net.IsGate 5 (.mk 3 false) (.mk 4 false) := ⟨by decide, by decide, _, rfl, by decide, by decide⟩
theorem chain_gate6 : chainNet.net.IsGate 6 (.mk 2 false) (.mk 5 false) := ⟨by decide, by decide, _, rfl, by decide, by decide⟩
theorem chain_gate7 : chainNet.net.IsGate 7 (.mk 1 false) (.mk 6 false) := ⟨by decide, by decide, _, rfl, by decide, by decide⟩

theorem eval_and4 (w : Nat → Bool) : and4.eval (Klut.args w [1, 2, 3, 4]) = (w 1 && (w 2 && (w 3 && w 4))) := by
  have h0 : Klut.args w [1, 2, 3, 4] 0 = w 1 := rfl
  have h1 : Klut.args w [1, 2, 3, 4] 1 = w 2 := rfl
  have h2 : Klut.args w [1, 2, 3, 4] 2 = w 3 := rfl
  have h3 : Klut.args w [1, 2, 3, 4] 3 = w 4 := rfl
  simp only [and4, TT.eval, TT.pos, h0, h1, h2, h3]
  cases w 1 <;> cases w 2 <;> cases w 3 <;> cases w 4 <;> rfl

theorem chain_root {n : Nat} (h : Cover.Root chainNet.net chainMap n) : n = 7 := by
  obtain ⟨⟨a, b, hg⟩, hr⟩ := h
  have hn : n < 8 := (chainAig_built.wf.isGate_lt hg).2.2.2
  have : ∀ k < 8, chainMap.isCellRoot k = some true → k = 7 := by decide +kernel
  exact this n hn hr

/-- A right LUT, right by its structure, is refused whatever the solver answers: the search stops at the root before it has met the nodes 5 and 6.
The checker that is not parallel accepts the mapping. -/
theorem C81_violated_alarm : chainNet.net.Built ∧ chainNet.Ordered ∧ StructRight chainNet chainMap 7 ∧
    (∀ solve, Correct solve → ∀ order, (∀ l, (order l).Perm l) → run chainNet chainMap solve 50 order = some false) ∧
    (∃ F, ∀ fuel, F ≤ fuel → ∀ solve, Correct solve → Checker.run chainNet chainMap solve fuel = some true) ∧
    ∃ cs f, chainMap.cellFanins 7 = some cs ∧ chainMap.cellFunction 7 = some f ∧
      ∀ v, chainNet.net.Models v → v 7 = f.eval (Klut.args v cs) := by
  have hO : chainNet.Ordered := init_ordered (by decide)
  have hleaves : chainMap.cellFanins 7 = some [1, 2, 3, 4] := by decide +kernel
  have hS : StructRight chainNet chainMap 7 := by
    refine ⟨[1, 2, 3, 4], and4, hleaves, by decide +kernel, fun w => ?_⟩
    rw [eval_and4]
    have h5 := Val.gate (C := chainNet) (w := w) (leaves := [1, 2, 3, 4]) chain_gate5 (.leaf (by simp)) (.leaf (by simp))
    have h6 := Val.gate (C := chainNet) (w := w) (leaves := [1, 2, 3, 4]) chain_gate6 (.leaf (by simp)) h5
    have h7 := Val.gate (C := chainNet) (w := w) (leaves := [1, 2, 3, 4]) chain_gate7 (.leaf (by simp)) h6
    simpa using h7
  refine ⟨chainAig_built, hO, hS, fun solve hs order ho => ?_, ?_, ?_⟩
  · obtain ⟨R, eR⟩ := reprMap_defined hO
    have h : (reprMap chainNet).bind (fun R => (cellClauses chainNet chainMap R 50 7).map Prod.fst) = some
        [[7, 9, 11, 13, 14], [12, 15], [10, 15], [8, 15], [6, 15], [6, 5], [16, 5], [7, 17, 4], [14, 4], [15, 5]] := by
      decide +kernel
    rw [eR, Option.bind_some] at h
    obtain ⟨x, e1, e2⟩ := Option.map_eq_some_iff.1 h
    have ers : roots chainMap chainNet.net.gates = some [7] := by decide +kernel
    rw [C81_order chainNet chainMap solve 50 order id ho fun l => List.Perm.refl l, run, ers, eR]
    dsimp only [id]
    rw [loop, isEqualCell, e1, Option.map_some, e2]
    dsimp only
    rw [verdict_sat hs ⟨fun k => k == 2 || k == 3 || k == 8, by simp [Satisfies, LitTrue]⟩]
    rfl
  · refine C74_accepts_partial chainNet chainMap chainAig_built (by decide) hO ?_ ?_ ?_ ?_ ?_
    · intro n h
      obtain rfl := chain_root h
      exact ⟨[1, 2, 3, 4], and4, hleaves, by decide +kernel, rfl, rfl, by decide, by simp⟩
    · intro n hn
      have : ∀ k < 8, (chainMap.isCellRoot k).isSome = true := by decide +kernel
      exact Option.isSome_iff_exists.1 (this n hn)
    · intro o h
      have h' : chainNet.net.outputs = [.mk 7 false] := by decide
      rw [h', List.mem_singleton] at h
      subst h
      exact .inr (.inr ⟨⟨_, _, chain_gate7⟩, by decide +kernel⟩)
    · intro n h cs e l hl
      obtain rfl := chain_root h
      obtain rfl := Option.some.inj (hleaves.symm.trans e)
      have hi : ∀ k ∈ [1, 2, 3, 4], k ∈ chainNet.net.inputs ∧ k < 7 := by decide
      exact ⟨.inr (.inl (hi l hl).1), (hi l hl).2⟩
    · intro n h
      obtain rfl := chain_root h
      exact hS
  · refine ⟨[1, 2, 3, 4], and4, hleaves, by decide +kernel, fun v hv => ?_⟩
    have h5 := hv.gate 5 _ _ chain_gate5
    have h6 := hv.gate 6 _ _ chain_gate6
    have h7 := hv.gate 7 _ _ chain_gate7
    simp only [Sig.val] at h5 h6 h7
    rw [eval_and4, h7, h6, h5]
    simp

/-- A solver that gives up makes the checker refuse a mapping that it accepts with other solvers. -/
theorem C81_violated_timeout : Correct (fun _ => .timeout) ∧ run plain plainMap (fun _ => .timeout) 100 id = some false ∧
    run plain plainMap ideal 100 id = some true :=
  ⟨fun _ => trivial, by decide +kernel, plain_accepted _ ideal_correct.1 ideal_correct.2 _ fun l => List.Perm.refl l⟩

/-- With registers a wrong LUT is accepted by every solver that answers, as in `C74_violated_register`. -/
theorem C81_violated_register : regNet.net.Built ∧ regNet.Ordered ∧
    (∀ solve, Correct solve → Decides solve → ∀ order, (∀ l, (order l).Perm l) → run regNet regMap solve 50 order = some true) ∧
    ∃ cs f v, regMap.cellFanins 3 = some cs ∧ regMap.cellFunction 3 = some f ∧ regNet.net.Models v ∧ v 3 ≠ f.eval (Klut.args v cs) := by
  obtain ⟨h1, hO, _, h3⟩ := C74_violated_register
  refine ⟨h1, hO, fun solve hs hd order ho => ?_, h3⟩
  obtain ⟨R, eR⟩ := reprMap_defined hO
  have h : (reprMap regNet).bind (fun R => (cellClauses regNet regMap R 50 3).map Prod.fst) = some
      [[7, 10], [6, 11], [12, 7], [12, 7], [13, 13, 6], [12, 9], [12, 9], [13, 13, 8], [6, 5], [8, 5], [7, 9, 4], [10, 4], [11, 5]] := by
    decide +kernel
  rw [eR, Option.bind_some] at h
  obtain ⟨x, e1, e2⟩ := Option.map_eq_some_iff.1 h
  have ers : roots regMap regNet.net.gates = some [3] := by decide +kernel
  have hu : ¬ ∃ a, Satisfies a
      [[7, 10], [6, 11], [12, 7], [12, 7], [13, 13, 6], [12, 9], [12, 9], [13, 13, 8], [6, 5], [8, 5], [7, 9, 4], [10, 4], [11, 5]] := by
    rintro ⟨a, ha⟩
    simp only [Satisfies, List.forall_mem_cons, List.exists_mem_cons_iff, LitTrue, List.not_mem_nil, false_and, exists_false, or_false,
      Nat.reduceMod, Nat.reduceDiv] at ha
    revert ha
    cases a 2 <;> cases a 3 <;> cases a 4 <;> cases a 5 <;> cases a 6 <;> simp
  rw [C81_order regNet regMap solve 50 order id ho fun l => List.Perm.refl l, run, ers, eR]
  dsimp only [id]
  rw [loop, isEqualCell, e1, Option.map_some, e2]
  dsimp only
  rw [verdict_unsat hs hd hu]
  rfl

/-- inputs 1 and 2; the outputs are node 3, `x₁ ∧ x₂`, and node 4, `x₁ ∧ ¬x₂` -/
def twoAig : Aig :=
  let n1 := Aig.empty.createPi.1.createPi.1
  let r3 := n1.createAnd (.mk 1 false) (.mk 2 false)
  let r4 := r3.1.createAnd (.mk 1 false) (.mk 2 true)
  (r4.1.createPo (.mk 3 false)).createPo (.mk 4 false)

theorem twoAig_built : twoAig.Built := by
  have h1 : Aig.Built Aig.empty.createPi.1.createPi.1 := .pi (.pi .empty)
  have h3 := Aig.Built.and (a := .mk 1 false) (b := .mk 2 false) h1 (by decide) (by decide)
  have h4 := Aig.Built.and (a := .mk 1 false) (b := .mk 2 true) h3 (by decide) (by decide)
  exact .po (.po h4 (by decide)) (by decide)

def twoNet : Choice := Choice.init twoAig 5

/-- a LUT for each gate -/
def twoMap : Mapping :=
  ((Mapping.init 5).run [.add 3 [1, 2], .setFunction 3 ⟨2, [false, false, false, true]⟩, .add 4 [1, 2],
    .setFunction 4 ⟨2, [false, true, false, false]⟩]).get (by decide +kernel)

/-- The plainest network with two outputs, every LUT made of one gate and right: if the two iterations are on different threads, they conflict, since the search
from the leaves of node 4 meets node 3, for which a key is inserted. -/
theorem C81_violated_race : twoNet.net.Built ∧ twoNet.Ordered ∧
    (∀ n cs f v, twoMap.cellFanins n = some cs → twoMap.cellFunction n = some f → n = 3 ∨ n = 4 → twoNet.net.Models v →
      v n = f.eval (Klut.args v cs)) ∧
    ∀ R rs, reprMap twoNet = some R → roots twoMap twoNet.net.gates = some rs → ∀ solve thread, thread 3 ≠ thread 4 →
      Race twoNet twoMap R solve 50 thread rs := by
  refine ⟨twoAig_built, init_ordered (by decide), ?_, ?_⟩
  · intro n cs f v hcs hf hn hv
    have g3 : twoNet.net.IsGate 3 (.mk 1 false) (.mk 2 false) := ⟨by decide, by decide, _, rfl, by decide, by decide⟩
    have g4 : twoNet.net.IsGate 4 (.mk 1 false) (.mk 2 true) := ⟨by decide, by decide, _, rfl, by decide, by decide⟩
    have e0 : Klut.args v [1, 2] 0 = v 1 := rfl
    have e1 : Klut.args v [1, 2] 1 = v 2 := rfl
    rcases hn with rfl | rfl
    · have a1 : twoMap.cellFanins 3 = some [1, 2] := by decide +kernel
      have a2 : twoMap.cellFunction 3 = some ⟨2, [false, false, false, true]⟩ := by decide +kernel
      obtain rfl := Option.some.inj (a1.symm.trans hcs)
      obtain rfl := Option.some.inj (a2.symm.trans hf)
      have h := hv.gate 3 _ _ g3
      simp only [Sig.val] at h
      simp only [TT.eval, TT.pos, e0, e1]
      rw [h]
      cases v 1 <;> cases v 2 <;> rfl
    · have a1 : twoMap.cellFanins 4 = some [1, 2] := by decide +kernel
      have a2 : twoMap.cellFunction 4 = some ⟨2, [false, true, false, false]⟩ := by decide +kernel
      obtain rfl := Option.some.inj (a1.symm.trans hcs)
      obtain rfl := Option.some.inj (a2.symm.trans hf)
      have h := hv.gate 4 _ _ g4
      simp only [Sig.val] at h
      simp only [TT.eval, TT.pos, e0, e1]
      rw [h]
      cases v 1 <;> cases v 2 <;> rfl
  · intro R rs eR ers solve thread hne
    have h3 : (reprMap twoNet).bind (fun R => (cellClauses twoNet twoMap R 50 3).map Prod.snd) = some [2, 1] := by decide +kernel
    have h4 : (reprMap twoNet).bind (fun R => (cellClauses twoNet twoMap R 50 4).map Prod.snd) = some [3, 2, 1] := by decide +kernel
    rw [eR, Option.bind_some] at h3 h4
    obtain ⟨x, x1, x2⟩ := Option.map_eq_some_iff.1 h3
    obtain ⟨y, y1, y2⟩ := Option.map_eq_some_iff.1 h4
    have ers' : roots twoMap twoNet.net.gates = some [3, 4] := by decide +kernel
    obtain rfl := Option.some.inj (ers'.symm.trans ers)
    refine ⟨4, by simp, 3, by simp, hne.symm, y, x, y1, x1, .inl ⟨⟨3, ?_, by decide +kernel⟩, ?_⟩⟩
    · rw [y2]; simp
    · rw [x2]; simp

end Verif.Checker.Par
