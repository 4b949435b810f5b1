import Verif.Mapping.TimedFacts
import Verif.Props.C69

set_option autoImplicit false

/-!
# C70: reference counts and required times of the LUT mapper

After every round the mapper counts how often each node is used by the current mapping (`mark_current_mapping_rec`), and
it derives from the delay of the mapping the latest time at which each node may arrive (`compute_required_times`).  The
next round takes its area flow and exact area from the first and refuses slower cuts because of the second.

The counts are right after every round (`C70_refs_partial`).  The required times are right (`C70_required_partial`) after
every round that is not an area round of the preprocessing, and after the first round no node arrives too late
(`C70_slack_partial`).  After an area round only the outputs have a required time (`C70_violated_area`), and after all
rounds a node may arrive later than required (`C70_violated_slack`).
-/

namespace Verif.Mapper.Timed
open Cuts
open Topo (Tfi FaninsFirst)
open RefDeref (Vals)

/-! ### Theorems -/

/-- The reference counts after a round are the numbers of uses by the mapping that the round leaves, if these fit into the
counters (networks without choices and registers). -/
theorem C70_refs_partial (p : CutPs) (N : Aig) (hN : N.Built) (hpo : N.numPos = N.outputs.length) (hp : PsOk p)
    (hsize : N.outputs.length + N.nodes.length < 2 ^ 32) (rs : List Round) (r : Round) (S : St) (M : Mapping) (q : Qor)
    (h : After p N (rs ++ [r]) S M q) (x : Nat) : (S.refs x).toNat = fanout N M x := by
  obtain ⟨order, S1, f⟩ := facts hp hN hpo h
  obtain ⟨hc, hv⟩ := f.counted hN hsize
  have h1 := hc x
  rw [Nat.add_zero] at h1
  rw [h1, fanout]
  congr 1
  rw [List.countP_eq_length_filter]
  have h2 : ∀ m ∈ order.toFinset, (if S.refs m ≠ 0 ∧ Inner N m then
      ((cover (Choice.init N N.nodes.length) S1.map).best m).count x else 0) = if usedBy M x m = true then 1 else 0 := by
    intro m hm
    have hmo := List.mem_toFinset.1 hm
    by_cases hs : S.refs m ≠ 0 ∧ Inner N m
    · have hr := avail_root hN (hv m hs.1).1 hs.2
      have hl := f.leaf m hr.2 (f.lt m hmo)
      rw [f.map] at hl
      rw [if_pos hs, (f.best hN hmo hs.2).1.count]
      simp [usedBy, hr.2, hl]
    · rw [if_neg hs, if_neg]
      intro hu
      rw [usedBy, Bool.and_eq_true, beq_iff_eq] at hu
      have hi := (f.root m (f.lt m hmo) hu.1).2
      obtain ⟨nd, _, hg⟩ := gate_of hN (f.lt m hmo) hi.1 hi.2
      obtain ⟨k, hk⟩ := f.reach m ⟨⟨_, _, hg⟩, hu.1⟩
      exact hs ⟨f.marked hN hsize hk, hi⟩
  rw [uses, Finset.sum_congr rfl h2, ← Finset.card_filter, ← List.toFinset_card_of_nodup (List.nodup_range.filter _)]
  congr 1
  ext m
  simp only [Finset.mem_filter, List.mem_toFinset, List.mem_filter, List.mem_range]
  constructor
  · rintro ⟨h1, h2⟩
    exact ⟨f.lt m h1, h2⟩
  · rintro ⟨h1, h2⟩
    refine ⟨(f.root m h1 ?_).1, h2⟩
    rw [usedBy, Bool.and_eq_true, beq_iff_eq] at h2
    exact h2.1

/-- No cell of the mapping is superfluous: from each one a path of cells leads to an output (same cases). -/
theorem C70_used_partial (p : CutPs) (N : Aig) (hN : N.Built) (hpo : N.numPos = N.outputs.length) (hp : PsOk p)
    (rs : List Round) (r : Round) (S : St) (M : Mapping) (q : Qor)
    (h : After p N (rs ++ [r]) S M q) (n : Nat) (hn : Cover.Root N M n) : ∃ k, Down N M n k := by
  obtain ⟨order, S1, f⟩ := facts hp hN hpo h
  exact f.reach n hn

/-- The required times after a round that is not an area round of the preprocessing: a node has a required time if and only if
the mapping uses it, and it is the reported delay minus the length of the longest path to an output (same cases). -/
theorem C70_required_partial (p : CutPs) (N : Aig) (hN : N.Built) (hpo : N.numPos = N.outputs.length) (hp : PsOk p)
    (hsize : N.outputs.length + N.nodes.length < 2 ^ 32) (rs : List Round) (r : Round) (hr : r.ps.bArea = false) (S : St) (M : Mapping) (q : Qor)
    (h : After p N (rs ++ [r]) S M q) (x : Nat) :
    (∀ k, Down N M x k → ∃ y, S.req x = some y ∧ y ≤ (q.delay : Int) - k) ∧
      ∀ y, S.req x = some y → ∃ k, Down N M x k ∧ y = (q.delay : Int) - k := by
  obtain ⟨order, S1, f⟩ := facts hp hN hpo h
  obtain ⟨_, hv⟩ := f.counted hN hsize
  have e := (required_parts f.req).2 hr
  have hrev : ∀ m ∈ order.reverse, m < (Choice.init N N.nodes.length).net.nodes.length := fun m hm => f.lt m (List.mem_reverse.1 hm)
  rw [f.delay, f.map]
  constructor
  · intro k hd
    induction hd with
    | @out o ho =>
      obtain ⟨y, hy, hle⟩ := propagate_lower f.noChoice order.reverse _ _ hrev e o.index (glo (Choice.init N N.nodes.length) S1.map)
        (by rw [setAll]; exact if_pos (List.mem_map.2 ⟨o, ho, rfl⟩))
      exact ⟨y, hy, by simpa using hle⟩
    | @step n x k cs hd hroot hcs hx ih =>
      obtain ⟨y, hy, hle⟩ := ih
      have hlt := root_lt hN hroot
      obtain ⟨hno, hi⟩ := f.root n hlt hroot.2
      have hl := f.leaf n hroot.2 hlt
      rw [hcs, f.map] at hl
      obtain rfl := Option.some.inj hl
      have hpw : order.reverse.Pairwise (fun a b => Inner N b → a ∉ (cover (Choice.init N N.nodes.length) S1.map).best b) := by
        rw [List.pairwise_reverse]
        refine order_pairwise order [] f.first f.nodup fun a ha hi b hb => ?_
        obtain ⟨h1, _, h2⟩ := (f.best hN ha hi).2 b hb
        exact ⟨Nat.ne_of_lt h1, h2⟩
      obtain ⟨z, hz, hzle⟩ := propagate_closed f.noChoice order.reverse _ _ hrev hpw
        (fun a ha hi hm => absurd ((f.best hN (List.mem_reverse.1 ha) hi).2 a hm).1 (lt_irrefl _)) e n (List.mem_reverse.2 hno) hi
        (f.marked hN hsize hd) y hy x hx
      exact ⟨z, hz, by push_cast; omega⟩
  · refine propagate_sound f.noChoice (P := fun x y => ∃ k, Down N M x k ∧ y = (glo (Choice.init N N.nodes.length) S1.map : Int) - k) ?_
      order.reverse _ _ hrev ?_ e x
    · rintro n y ⟨k, hd, rfl⟩ hi _ m hm
      have hroot := avail_root hN (f.down hN hd).1 hi
      have hl := f.leaf n hroot.2 (root_lt hN hroot)
      rw [f.map] at hl
      exact ⟨k + 1, .step hd hroot hl hm, by push_cast; omega⟩
    · intro n y hy
      rw [setAll] at hy
      split at hy
      · rename_i hmem
        obtain ⟨o, ho, rfl⟩ := List.mem_map.1 hmem
        exact ⟨0, .out ho, by simpa using (Option.some.inj hy).symm⟩
      · simp at hy

/-- After the first round every node arrives in time: no path of cells from an input to it is longer than its required time
(same cases; the round must not be an area round of the preprocessing). -/
theorem C70_slack_partial (p : CutPs) (N : Aig) (hN : N.Built) (hpo : N.numPos = N.outputs.length) (hp : PsOk p)
    (hsize : N.outputs.length + N.nodes.length < 2 ^ 32) (r : Round) (hr : r.ps.bArea = false) (S : St) (M : Mapping) (q : Qor)
    (h : After p N [r] S M q) (x j : Nat) (y : Int) (hu : Up N M x j) (hy : S.req x = some y) : (j : Int) ≤ y := by
  obtain ⟨k, hd, rfl⟩ := (C70_required_partial p N hN hpo hp hsize [] r hr S M q h x).2 y hy
  obtain ⟨order, S1, f⟩ := facts (rs := []) hp hN hpo h
  have hC : NoChoice (Choice.init N N.nodes.length) := rfl
  have hgate : ∀ m ∈ order, Inner N m → bestDelay S.map m = cutDelay S.map ((cover (Choice.init N N.nodes.length) S.map).best m) :=
    f.first_delay hp hN h
  have hleaf : ∀ n x cs, Cover.Root N M n → M.cellFanins n = some cs → x ∈ cs → bestDelay S.map x + 1 ≤ bestDelay S.map n := by
    intro n x cs hroot hcs hx
    have hlt := root_lt hN hroot
    obtain ⟨hno, hi⟩ := f.root n hlt hroot.2
    have hl := f.leaf n hroot.2 hlt
    rw [hcs] at hl
    rw [hgate n hno hi, ← Option.some.inj hl]
    exact cutDelay_le.1 le_rfl x hx
  have h1 : j ≤ bestDelay S.map x := by
    clear hd hy
    induction hu with
    | input _ => omega
    | @step n x j cs _ hroot hcs hx ih =>
      have := hleaf n x cs hroot hcs hx
      omega
  have h2 : bestDelay S.map x + k ≤ q.delay := by
    clear hu hy h1
    rw [f.delay]
    induction hd with
    | @out o ho => exact glo_le.1 le_rfl o ho
    | @step n x k cs _ hroot hcs hx ih =>
      have := hleaf n x cs hroot hcs hx
      omega
  omega

/-- Counting references and computing required times always ends, after each round (same cases). -/
theorem C70_defined_partial (p : CutPs) (N : Aig) (hN : N.Built) (hp : PsOk p) (rs : List Round) (r : Round)
    (st : MapSt Cost) (order : List Nat) (S S' : St)
    (hst : initCuts (0 :: N.inputs) (MapSt.init ⟨0, 0, 0⟩ N.nodes.length) = some st)
    (htopo : topologize (Choice.init N N.nodes.length) = some order)
    (hS : rounds p (Choice.init N N.nodes.length) order rs (start (Choice.init N N.nodes.length) st) = some S)
    (hS' : loop p (Choice.init N N.nodes.length) r order S = some S') : ∃ T, required (Choice.init N N.nodes.length) r order S' = some T := by
  have hC : NoChoice (Choice.init N N.nodes.length) := rfl
  obtain ⟨st0, e0, i0, d0⟩ := start_spec (β := Cost) (C := Choice.init N N.nodes.length) p hN ⟨0, 0, 0⟩
  obtain rfl := Option.some.inj (e0.symm.trans hst)
  obtain ⟨order0, et, hff, hlt, hout, hnd⟩ := topologize_inv (C := Choice.init N N.nodes.length) hN hC.ordered
  obtain rfl := Option.some.inj (et.symm.trans htopo)
  have hblank := initCuts_blank _ _ _ (fun _ h => h) (init_blank ⟨0, 0, 0⟩ (0 :: N.inputs) N.nodes.length) e0
  obtain ⟨h1, h2, h3, h4⟩ := rounds_low hp hC hN hff hnd hlt rs (start (Choice.init N N.nodes.length) st0) S i0 d0
    (Or.inl fun _ _ => rfl) hblank.low hS
  obtain ⟨_, hd, _⟩ := loop_spec hp hC hN order0 [] S S' hff hnd hlt h1 (by simp) h2 h3 hS'
  exact required_total hC hN hff hlt hout hd

/-! ### Examples and counterexamples -/

/-- the state of the mapper after the given rounds, with what would be reported -/
def stateAfter (p : CutPs) (N : Aig) (rs : List Round) : Option (St × Mapping × Qor) :=
  match initCuts (0 :: N.inputs) (MapSt.init ⟨0, 0, 0⟩ N.nodes.length), topologize (Choice.init N N.nodes.length) with
  | some st, some order =>
    match rounds p (Choice.init N N.nodes.length) order rs (start (Choice.init N N.nodes.length) st) with
    | some S => (report N order S.map).map fun r => (S, r)
    | none => none
  | _, _ => none

theorem After.of {p : CutPs} {N : Aig} {rs : List Round} {S : St} {M : Mapping} {q : Qor} (e : stateAfter p N rs = some (S, M, q)) :
    After p N rs S M q := by
  rw [stateAfter] at e
  split at e
  · rename_i st order h1 h2
    split at e
    · rename_i S' h3
      obtain ⟨r, hr, er⟩ := Option.map_eq_some_iff.1 e
      simp only [Prod.mk.injEq] at er
      obtain ⟨rfl, rfl⟩ := er
      exact ⟨⟨st, order, h1, h2, h3, hr⟩⟩
    · simp at e
  · simp at e

/-- cut size 2, everything else as set by the shell command -/
def ps2 : Ps := { cut := { cutSize := 2, cutLimit := 10 } }

/-- what the examples look at -/
structure View where
  req : List (Option Int)
  refs : List Nat
  roots : List (Option Bool)
  leaves : List (Option (List Nat))
  delay : Nat
deriving DecidableEq

/-- required times, reference counts, roots and leaves of some nodes, and the reported delay -/
def view (ns : List Nat) (r : St × Mapping × Qor) : View :=
  ⟨ns.map r.1.req, ns.map fun n => (r.1.refs n).toNat, ns.map r.2.1.isCellRoot, ns.map r.2.1.cellFanins, r.2.2.delay⟩

/-- `(x₁ ∧ x₂) ∧ x₃` with cut size 2 after all rounds, after the first and after the third -/
theorem and3_req :
    (stateAfter ps2.cut and3 (run ps2)).map (view [3, 4, 5]) =
      some ⟨[some 1, some 1, some 2], [1, 1, 1], [some false, some true, some true], [some [], some [1, 2], some [3, 4]], 2⟩ ∧
    (stateAfter ps2.cut and3 ((run ps2).take 1)).map (view [3, 4, 5]) =
      some ⟨[some 1, some 1, some 2], [1, 1, 1], [some false, some true, some true], [some [], some [1, 2], some [3, 4]], 2⟩ ∧
    (stateAfter ps2.cut and3 ((run ps2).take 3)).map (view [4, 5]) =
      some ⟨[none, some 2], [1, 1], [some true, some true], [some [1, 2], some [3, 4]], 2⟩ := by
  decide +kernel

/-- `six` with cut size 3 after all rounds -/
theorem six_req : (stateAfter ps3.cut six (run ps3)).map (view [2, 7, 9, 11, 12]) =
      some ⟨[some (-1), some 0, some 1, some 2, some 3], [2, 2, 2, 1, 1], [some false, some true, some true, some true, some true],
        [some [], some [2, 5], some [3, 6, 7], some [1, 6, 9], some [2, 5, 11]], 3⟩ := by
  decide +kernel

theorem ps2_ok : PsOk ps2.cut := ⟨by decide, by decide, by decide, by decide, rfl⟩

/-- the gates of `and3` -/
theorem and3_gate (n : Nat) (h : n = 4 ∨ n = 5) : ∃ a b, and3.IsGate n a b := by
  obtain ⟨nd, _, hg⟩ := gate_of and3_built (n := n) (by rcases h with rfl | rfl <;> decide) (by omega) (by rcases h with rfl | rfl <;> decide)
  exact ⟨_, _, hg⟩

/-- `and3` with cut size 2 meets the hypotheses of the theorems on counts and required times: after all rounds node 4 is used
once, by the cell at the output, and has to arrive one cell before the output -/
example : ∃ S M q, After ps2.cut and3 (run ps2) S M q ∧ (S.refs 4).toNat = fanout and3 M 4 ∧ fanout and3 M 4 = 1 ∧
    Down and3 M 4 1 ∧ S.req 4 = some 1 ∧ q.delay = 2 := by
  have h := and3_req.1
  obtain ⟨⟨S, M, q⟩, e, hv⟩ := Option.map_eq_some_iff.1 h
  simp only [view, View.mk.injEq, List.map_cons, List.map_nil, List.cons.injEq, and_true] at hv
  obtain ⟨⟨_, hq, _⟩, ⟨_, hr, _⟩, ⟨_, _, h5⟩, ⟨_, _, l5⟩, hd⟩ := hv
  have ha := After.of e
  have hrefs := C70_refs_partial ps2.cut and3 and3_built (by decide) ps2_ok (by decide) _ _ S M q
    (by rw [List.dropLast_append_getLast (l := run ps2) (by decide)]; exact ha) 4
  refine ⟨S, M, q, ha, hrefs, hrefs.symm.trans hr, ?_, hq, hd⟩
  exact .step (Down.out (N := and3) (o := .mk 5 false) (by decide)) ⟨and3_gate 5 (by simp), h5⟩ l5 (by simp)

/-- and after the first round it arrives in time -/
example : ∃ S M q, After ps2.cut and3 ((run ps2).take 1) S M q ∧ Up and3 M 4 1 ∧ S.req 4 = some 1 ∧ ((1 : Nat) : Int) ≤ 1 := by
  have h := and3_req.2.1
  obtain ⟨⟨S, M, q⟩, e, hv⟩ := Option.map_eq_some_iff.1 h
  simp only [view, View.mk.injEq, List.map_cons, List.map_nil, List.cons.injEq, and_true] at hv
  obtain ⟨⟨_, hq, _⟩, _, ⟨_, h4, _⟩, ⟨_, l4, _⟩, _⟩ := hv
  have ha := After.of e
  have hu : Up and3 M 4 1 := .step (Up.input (N := and3) (x := 1) (Or.inr (by decide))) ⟨and3_gate 4 (by simp), h4⟩ l4 (by simp)
  exact ⟨S, M, q, ha, hu, hq, C70_slack_partial ps2.cut and3 and3_built (by decide) ps2_ok (by decide) _ (by decide) S M q ha 4 1 1 hu hq⟩

/-- C70 is violated for the area round of the preprocessing, the third round with the parameters of the shell: a cell of the
mapping has no required time, so that the next round accepts any cut for it. -/
theorem C70_violated_area : ∃ (p : Ps) (N : Aig), N.Built ∧ N.numPos = N.outputs.length ∧ PsOk p.cut ∧
    ∃ S M q, After p.cut N ((run p).take 3) S M q ∧ ∃ n k, Cover.Root N M n ∧ Down N M n k ∧ S.req n = none := by
  refine ⟨ps2, and3, and3_built, by decide, ps2_ok, ?_⟩
  have h := and3_req.2.2
  obtain ⟨⟨S, M, q⟩, e, hv⟩ := Option.map_eq_some_iff.1 h
  simp only [view, View.mk.injEq, List.map_cons, List.map_nil, List.cons.injEq, and_true] at hv
  obtain ⟨⟨hq, _⟩, _, ⟨h4, h5⟩, ⟨_, l5⟩, _⟩ := hv
  exact ⟨S, M, q, After.of e, 4, 1, ⟨and3_gate 4 (by simp), h4⟩,
    .step (Down.out (N := and3) (o := .mk 5 false) (by decide)) ⟨and3_gate 5 (by simp), h5⟩ l5 (by simp), hq⟩

/-- C70 is violated after all rounds: a cell that is reached only after one cell is required at time 0, and the inputs below it
even at time −1. -/
theorem C70_violated_slack : ∃ (p : Ps) (N : Aig), N.Built ∧ N.numPos = N.outputs.length ∧ PsOk p.cut ∧
    ∃ S M q, After p.cut N (run p) S M q ∧ (∃ n, Cover.Root N M n ∧ Up N M n 1 ∧ S.req n = some 0) ∧ ∃ n ∈ N.inputs, S.req n = some (-1) := by
  refine ⟨ps3, six, six_built, by decide, ⟨by decide, by decide, by decide, by decide, rfl⟩, ?_⟩
  obtain ⟨⟨S, M, q⟩, e, hv⟩ := Option.map_eq_some_iff.1 six_req
  simp only [view, View.mk.injEq, List.map_cons, List.map_nil, List.cons.injEq, and_true] at hv
  obtain ⟨⟨q2, q7, _⟩, _, ⟨_, h7, _⟩, ⟨_, l7, _⟩, _⟩ := hv
  obtain ⟨nd, _, hg⟩ := gate_of six_built (n := 7) (by decide) (by omega) (by decide)
  have hr : Cover.Root six M 7 := ⟨⟨_, _, hg⟩, h7⟩
  exact ⟨S, M, q, After.of e, ⟨7, hr, .step (Up.input (N := six) (x := 2) (Or.inr (by decide))) hr l7 (by simp), q7⟩, 2, by decide, q2⟩

end Verif.Mapper.Timed
