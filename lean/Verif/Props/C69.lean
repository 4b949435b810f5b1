import Verif.Mapping.TimedReport
import Verif.Props.C36

set_option autoImplicit false

/-!
# C69: the delay and the area that the LUT mapper reports are those of the mapping

`klut_mapping` returns a `mapping_qor_storage` with a delay and an area, which `map_fpga` and the flow manager print.
The area is always the number of cells (`C69_area_partial`).  The delay is the depth of the mapping only after the first
round (`C69_first_partial`); later rounds never raise the reported value (`C69_monotone_partial`), but they may use
slower cuts below a cut whose delay is not computed again: `C69_violated` has a mapping of depth 4 reported with delay 3,
although the first round had a mapping of depth 3.
-/

namespace Verif.Mapper.Timed
open Cuts
open Topo (Tfi FaninsFirst)

/-! ### Specification -/

/-- `d` gives the length of the longest path of cells that ends in a node. -/
structure Arrival (N : Aig) (M : Mapping) (d : Nat → Nat) : Prop where
  input : ∀ n, ¬ Cover.Root N M n → d n = 0
  cell : ∀ n cs, Cover.Root N M n → M.cellFanins n = some cs →
    (∀ m ∈ cs, d m + 1 ≤ d n) ∧ ∃ m ∈ cs, d n = d m + 1

/-- The depth of the mapping is `D`. -/
def Depth (N : Aig) (M : Mapping) (D : Nat) : Prop :=
  ∃ d, Arrival N M d ∧ (∀ o ∈ N.outputs, d o.index ≤ D) ∧ (D = 0 ∨ ∃ o ∈ N.outputs, d o.index = D)

/-- The number of cells of the mapping. -/
def cells (N : Aig) (M : Mapping) : Nat := (List.range N.nodes.length).countP fun n => M.isCellRoot n == some true

/-- In a mapping whose cells lie above their leaves, the depth is unique. -/
theorem Depth.unique {N : Aig} {M : Mapping} (hM : ∀ n, Cover.Root N M n → ∃ cs, M.cellFanins n = some cs ∧ ∀ m ∈ cs, m < n)
    {D D' : Nat} (h : Depth N M D) (h' : Depth N M D') : D = D' := by
  obtain ⟨d, a, b, c⟩ := h
  obtain ⟨d', a', b', c'⟩ := h'
  have hd : ∀ n, d n = d' n := by
    intro n
    induction n using Nat.strong_induction_on with
    | _ n ih =>
      by_cases hr : Cover.Root N M n
      · obtain ⟨cs, hcs, hlt⟩ := hM n hr
        obtain ⟨u, x, hx, ex⟩ := a.cell n cs hr hcs
        obtain ⟨u', y, hy, ey⟩ := a'.cell n cs hr hcs
        have h1 := u y hy
        have h2 := u' x hx
        have h3 := ih x (hlt x hx)
        have h4 := ih y (hlt y hy)
        omega
      · rw [a.input n hr, a'.input n hr]
  have key : ∀ {D D' : Nat} {d d' : Nat → Nat}, (∀ n, d n = d' n) → (∀ o ∈ N.outputs, d' o.index ≤ D') →
      (D = 0 ∨ ∃ o ∈ N.outputs, d o.index = D) → D ≤ D' := by
    intro D D' d d' hd hb hc
    rcases hc with hc | ⟨o, ho, e⟩
    · omega
    · rw [← e, hd]; exact hb o ho
  exact Nat.le_antisymm (key hd b' c) (key (fun n => (hd n).symm) b c')

/-! ### Theorems -/

/-- With its real costs the mapper is the mapper of C36 and C59 with some heuristics, also for networks with choices;
so their theorems hold for it. -/
theorem C69_refines (p : Ps) (C : Choice) (hN : C.net.Built) (hO : C.Ordered) (M : Mapping) (q : Qor)
    (e : klutMapping p C = some (M, q)) : ∃ H, klutMap p C H (⟨0, 0, 0⟩ : Cost) = some M := by
  obtain ⟨st, order, S, h⟩ := mapWith_parts hO hN e
  obtain ⟨r, rs, er, hf, hrs⟩ := run_first p
  obtain ⟨H, hH⟩ := rounds_map h.nodup (run p) 0 (start C st) S
    (by rw [er]; exact hrs) (fun _ _ _ _ _ => rfl) h.run
  refine ⟨H, ?_⟩
  unfold klutMap
  rw [h.init, h.topo]
  dsimp only
  rw [show mapRounds p.cut C H order 0 ((run p).map (·.first)) st = some S.map from hH]
  dsimp only
  have := h.rep
  rw [report] at this
  split at this
  · rename_i hd
    rw [hd]
    simp only [Option.some.injEq, Prod.mk.injEq] at this
    rw [this.1]
  · simp at this

/-- C36 for the mapper with its real costs (same cases as `C36_partial`). -/
theorem C69_cover_partial (p : Ps) (N : Aig) (hN : N.Built) (hpo : N.numPos = N.outputs.length) (hp : PsOk p.cut) (M : Mapping) (q : Qor)
    (e : klutMapping p (Choice.init N N.nodes.length) = some (M, q)) : GoodCover N p.cut.cutSize M := by
  have hC : NoChoice (Choice.init N N.nodes.length) := rfl
  obtain ⟨H, hH⟩ := C69_refines p (Choice.init N N.nodes.length) hN hC.ordered M q e
  exact C36_partial p N hN hpo hp H _ M hH

/-- The reported area is the number of cells (networks without choices and registers, cut limits from 3 to 11). -/
theorem C69_area_partial (p : Ps) (N : Aig) (hN : N.Built) (hpo : N.numPos = N.outputs.length) (hp : PsOk p.cut) (M : Mapping) (q : Qor)
    (e : klutMapping p (Choice.init N N.nodes.length) = some (M, q)) : q.area = cells N M := by
  have hC : NoChoice (Choice.init N N.nodes.length) := rfl
  obtain ⟨st, order, S, h⟩ := mapWith_parts (C := Choice.init N N.nodes.length) hC.ordered hN e
  obtain ⟨r, rs, er, _⟩ := run_first p
  rw [er] at h
  obtain ⟨_, _, _, _, b, _⟩ := h.between hp hC hN
  obtain ⟨M', q', e', _, _, ha, _⟩ := report_spec hN hpo h.first h.lt h.nodup h.out b.inv b.done
  rw [h.rep] at e'
  simp only [Option.some.injEq, Prod.mk.injEq] at e'
  rw [e'.1, e'.2]
  exact ha

/-- After one round the reported delay is the depth of the mapping (same cases). -/
theorem C69_first_partial (p : CutPs) (r : Round) (N : Aig) (hN : N.Built) (hpo : N.numPos = N.outputs.length) (hp : PsOk p) (M : Mapping)
    (q : Qor) (e : mapWith p (Choice.init N N.nodes.length) [r] = some (M, q)) : Depth N M q.delay := by
  have hC : NoChoice (Choice.init N N.nodes.length) := rfl
  obtain ⟨st, order, S, h⟩ := mapWith_parts (C := Choice.init N N.nodes.length) hC.ordered hN e
  obtain ⟨S1, _, eS, b, _, _, hci, hgate⟩ := h.between hp hC hN
  obtain rfl := Option.some.inj eS
  obtain ⟨M', q', e', hcells, hdelay, _, hroot, hleaf⟩ := report_spec hN hpo h.first h.lt h.nodup h.out b.inv b.done
  have he := h.rep.symm.trans e'
  simp only [Option.some.injEq, Prod.mk.injEq] at he
  obtain ⟨rfl, rfl⟩ := he
  have hzero : ∀ m, m = 0 ∨ m ∈ N.inputs → bestDelay S1.map m = 0 := by
    intro m hm
    have hm' : m = 0 ∨ N.isCi m = true := by
      rcases hm with hm | hm
      · exact Or.inl hm
      · refine Or.inr ?_
        obtain ⟨k, hk⟩ := List.mem_iff_getElem?.1 hm
        obtain ⟨_, nd', hnd', e0, e1, _⟩ := hN.wf.input k m hk
        simp [Aig.isCi, hnd', e0, e1]
    rw [bestDelay_congr (hci m hm')]
    rw [bestDelay]
    cases hb : st.best[m]? with
    | none => rfl
    | some c => simp [h.blank.best m c hb]
  have hlt : ∀ n, Cover.Root N M n → n < N.nodes.length := by
    rintro n ⟨⟨a, b, hg⟩, _⟩
    exact (hN.wf.isGate_lt hg).2.2.2
  classical
  obtain ⟨d, hd⟩ : ∃ d : Nat → Nat, ∀ n, d n = if Cover.Root N M n then bestDelay S1.map n else 0 := ⟨_, fun _ => rfl⟩
  have hav : ∀ m, Cover.Avail N M m → d m = bestDelay S1.map m := by
    intro m hm
    rw [hd]
    split
    · rfl
    · rename_i hr
      rcases hm with hm | hm | hm
      · exact (hzero m (Or.inl hm)).symm
      · exact (hzero m (Or.inr hm)).symm
      · exact absurd hm hr
  refine ⟨d, ⟨fun n hn => by rw [hd, if_neg hn], ?_⟩, ?_, ?_⟩
  · intro n cs hr hcs
    obtain ⟨hno, h0, hci'⟩ := hroot n (hlt n hr) hr.2
    obtain ⟨c, hb, hl⟩ := hleaf n hr.2 (hlt n hr)
    rw [hcs] at hl
    obtain rfl := Option.some.inj hl
    obtain ⟨c', hb', hdel⟩ := hgate n hno h0 hci'
    rw [hb] at hb'
    obtain rfl := Option.some.inj hb'
    obtain ⟨cs', f, hc1, _, _, _, hc5, hc6, _⟩ := hcells.cell n hr
    rw [hcs] at hc1
    obtain rfl := Option.some.inj hc1
    have hdn : d n = cutDelay S1.map c.leaves := by
      rw [hd, if_pos hr, bestDelay, hb]; exact hdel
    have hne : c.leaves ≠ [] := by
      rcases hc6 with hc6 | hc6
      · rw [hc6.1]; simp
      · intro hx; rw [hx] at hc6; simp at hc6
    rw [hdn]
    refine ⟨fun m hm => ?_, ?_⟩
    · rw [hav m (hc5 m hm).1]
      exact cutDelay_le.1 le_rfl m hm
    · obtain ⟨m, hm, em⟩ := cutDelay_mem (st := S1.map) hne
      exact ⟨m, hm, by rw [em, hav m (hc5 m hm).1]⟩
  · intro o ho
    rw [hav o.index (hcells.output o ho), hdelay]
    exact glo_le.1 le_rfl o ho
  · rw [hdelay, glo]
    rcases foldl_max_mem (l := (N.outputs.map (·.index)).map (bestDelay S1.map)) (a := 0) with hx | hx
    · exact Or.inl hx
    · obtain ⟨i, hi, ei⟩ := List.mem_map.1 hx
      obtain ⟨o, ho, rfl⟩ := List.mem_map.1 hi
      exact Or.inr ⟨o, ho, by rw [hav o.index (hcells.output o ho)]; exact ei⟩

/-- Further rounds never raise the reported delay (same cases). -/
theorem C69_monotone_partial (p : CutPs) (r : Round) (rs rs' : List Round) (N : Aig) (hN : N.Built) (hpo : N.numPos = N.outputs.length)
    (hp : PsOk p) (M : Mapping) (q : Qor) (e : mapWith p (Choice.init N N.nodes.length) (r :: rs ++ rs') = some (M, q)) :
    ∃ M' q', mapWith p (Choice.init N N.nodes.length) (r :: rs) = some (M', q') ∧ q.delay ≤ q'.delay := by
  have hC : NoChoice (Choice.init N N.nodes.length) := rfl
  obtain ⟨st, order, S, h⟩ := mapWith_parts (C := Choice.init N N.nodes.length) hC.ordered hN e
  obtain ⟨S1, e1, e2⟩ := rounds_append (r :: rs) rs' _ _ h.run
  obtain ⟨S0, e0, e0', b0, bS, _⟩ := h.between hp hC hN
  have hb1 : Between p (Choice.init N N.nodes.length) order S1 := by
    obtain ⟨S2, e3, e4⟩ := rounds_append [r] rs _ _ e1
    rw [e0] at e3
    obtain rfl := Option.some.inj e3
    exact (rounds_glo hp hC hN h.first h.nodup h.lt rs _ _ b0 e4).1
  obtain ⟨M', q', er, _, hd, _⟩ := report_spec hN hpo h.first h.lt h.nodup h.out hb1.inv hb1.done
  obtain ⟨M2, q2, er2, _, hd2, _⟩ := report_spec hN hpo h.first h.lt h.nodup h.out bS.inv bS.done
  refine ⟨M', q', ?_, ?_⟩
  · rw [mapWith, h.init, h.topo]
    dsimp only
    rw [e1]
    exact er
  · have he := h.rep.symm.trans er2
    simp only [Option.some.injEq, Prod.mk.injEq] at he
    rw [he.2, hd, hd2]
    exact (rounds_glo hp hC hN h.first h.nodup h.lt rs' _ _ hb1 e2).2

/-- The first round of the mapper fixes a delay that the reported value never exceeds: it is the depth of the mapping
the first round alone would give (same cases). -/
theorem C69_bound_partial (p : Ps) (N : Aig) (hN : N.Built) (hpo : N.numPos = N.outputs.length) (hp : PsOk p.cut) (M : Mapping) (q : Qor)
    (e : klutMapping p (Choice.init N N.nodes.length) = some (M, q)) :
    ∃ M' q', mapWith p.cut (Choice.init N N.nodes.length) ((run p).take 1) = some (M', q') ∧ Depth N M' q'.delay ∧ q.delay ≤ q'.delay := by
  obtain ⟨r, rs, er, _⟩ := run_first p
  rw [klutMapping, er] at e
  obtain ⟨M', q', e', hle⟩ := C69_monotone_partial p.cut r [] rs N hN hpo hp M q e
  rw [er]
  exact ⟨M', q', e', C69_first_partial p.cut r N hN hpo hp M' q' e', hle⟩

/-- The simplification of the model: whenever the mapper probes a cut during a round, the probing ends, gives the
modelled value and leaves the reference counts unchanged (networks without choices and registers). -/
theorem C69_probing_partial (p : CutPs) (N : Aig) (hN : N.Built) (hpi : N.numPis = N.inputs.length) (hp : PsOk p) (rs : List Round) (r : Round)
    (st : MapSt Cost) (order pre post : List Nat) (S S' : St)
    (hst : initCuts (0 :: N.inputs) (MapSt.init ⟨0, 0, 0⟩ N.nodes.length) = some st)
    (htopo : topologize (Choice.init N N.nodes.length) = some order)
    (hS : rounds p (Choice.init N N.nodes.length) order rs (start (Choice.init N N.nodes.length) st) = some S)
    (horder : order = pre ++ post) (hS' : loop p (Choice.init N N.nodes.length) r pre S = some S')
    (cost : List Nat → Nat) (cut : List Nat) (hcut : ∀ x ∈ cut, x < N.nodes.length) :
    ∃ a : Nat, cutDerefed (cover (Choice.init N N.nodes.length) S'.map) cost (N.nodes.length + 1) cut S'.refs = some (S'.refs, a) ∧
      exact (Choice.init N N.nodes.length) S' cost cut = a := by
  have hC : NoChoice (Choice.init N N.nodes.length) := rfl
  obtain ⟨st0, e0, i0, d0⟩ := start_spec (β := Cost) (C := Choice.init N N.nodes.length) p hN ⟨0, 0, 0⟩
  obtain rfl := Option.some.inj (e0.symm.trans hst)
  obtain ⟨order0, et, hff, hlt, hout, hnd⟩ := topologize_inv (C := Choice.init N N.nodes.length) hN hC.ordered
  obtain rfl := Option.some.inj (et.symm.trans htopo)
  have hblank := initCuts_blank _ _ _ (fun _ h => h) (init_blank ⟨0, 0, 0⟩ (0 :: N.inputs) N.nodes.length) e0
  obtain ⟨h1, h2, h3, h4⟩ := rounds_low hp hC hN hff hnd hlt rs (start (Choice.init N N.nodes.length) st0) S i0 d0
    (Or.inl fun _ _ => rfl) hblank.low hS
  have hsub : ∀ m ∈ pre, m ∈ order0 := fun m hm => by rw [horder]; exact List.mem_append_left _ hm
  have hff' : FaninsFirst (Choice.init N N.nodes.length).deps pre := by
    intro l1 k l2 e' m hm
    exact hff l1 k (l2 ++ post) (by rw [horder, e']; simp) m hm
  have hnd' : pre.Nodup := by rw [horder] at hnd; exact (List.nodup_append.1 hnd).1
  have hl := loop_low hp hC hN (pre := []) hff' hnd' (fun m hm => hlt m (hsub m hm)) h1 (by simp) h2
    (h3.imp (fun h m hm => h m (hsub m hm)) fun h m hm => h m (hsub m hm)) h4 hS'
  exact probing_pure hN hpi hl cost cut hcut

/-! ### Examples and counterexample -/

/-- the example of C36: `(x₁ ∧ x₂) ∧ x₃` becomes one cell, and area 1 and delay 1 are reported -/
theorem and3_qor : (klutMapping {} (Choice.init and3 6)).map (fun r => (r.2, cells and3 r.1)) = some (⟨1, 1⟩, 1) := by
  decide +kernel

/-- `and3` meets the hypotheses of the theorems -/
example : ∃ M q, klutMapping {} (Choice.init and3 6) = some (M, q) ∧ GoodCover and3 6 M ∧ q.area = cells and3 M := by
  have h := and3_qor
  cases e : klutMapping {} (Choice.init and3 6) with
  | none => rw [e] at h; simp at h
  | some r =>
    obtain ⟨M, q⟩ := r
    exact ⟨M, q, rfl, C69_cover_partial {} and3 and3_built (by decide) ⟨by decide, by decide, by decide, by decide, rfl⟩ M q e,
      C69_area_partial {} and3 and3_built (by decide) ⟨by decide, by decide, by decide, by decide, rfl⟩ M q e⟩

/-- a network with six gates and three outputs -/
def six : Aig :=
  let n := Aig.empty.createPi.1.createPi.1.createPi.1.createPi.1.createPi.1.createPi.1
  let n := (n.createAnd (.mk 2 false) (.mk 5 false)).1
  let n := (n.createAnd (.mk 3 false) (.mk 7 false)).1
  let n := (n.createAnd (.mk 6 false) (.mk 8 false)).1
  let n := (n.createAnd (.mk 1 false) (.mk 9 false)).1
  let n := (n.createAnd (.mk 6 false) (.mk 10 false)).1
  let n := (n.createAnd (.mk 7 false) (.mk 11 false)).1
  ((n.createPo (.mk 7 false)).createPo (.mk 9 false)).createPo (.mk 12 false)

theorem six_built : six.Built := by
  have h0 : Aig.Built Aig.empty.createPi.1.createPi.1.createPi.1.createPi.1.createPi.1.createPi.1 := .pi (.pi (.pi (.pi (.pi (.pi .empty)))))
  have h1 := Aig.Built.and (a := .mk 2 false) (b := .mk 5 false) h0 (by decide) (by decide)
  have h2 := Aig.Built.and (a := .mk 3 false) (b := .mk 7 false) h1 (by decide) (by decide)
  have h3 := Aig.Built.and (a := .mk 6 false) (b := .mk 8 false) h2 (by decide) (by decide)
  have h4 := Aig.Built.and (a := .mk 1 false) (b := .mk 9 false) h3 (by decide) (by decide)
  have h5 := Aig.Built.and (a := .mk 6 false) (b := .mk 10 false) h4 (by decide) (by decide)
  have h6 := Aig.Built.and (a := .mk 7 false) (b := .mk 11 false) h5 (by decide) (by decide)
  exact .po (.po (.po h6 (by decide)) (by decide)) (by decide)

/-- cut size 3, everything else as set by the shell command -/
def ps3 : Ps := { cut := { cutSize := 3, cutLimit := 10 } }

/-- what the mapper returns for `six`, and after the first round -/
theorem six_run : (klutMapping ps3 (Choice.init six 13)).map (fun r => (r.2, [7, 9, 11, 12].map fun n => (r.1.isCellRoot n, r.1.cellFanins n))) =
      some (⟨3, 4⟩, [(some true, some [2, 5]), (some true, some [3, 6, 7]), (some true, some [1, 6, 9]), (some true, some [2, 5, 11])]) ∧
    (mapWith ps3.cut (Choice.init six 13) ((run ps3).take 1)).map (fun r => r.2.delay) = some 3 := by
  decide +kernel

/-- C69 is violated: on a network with six gates and cut size 3 (all other parameters as in the shell) the mapper reports
delay 3, but every path length assignment gives the last output at least 4; the first round had a mapping of depth 3. -/
theorem C69_violated : ∃ (p : Ps) (N : Aig), N.Built ∧ N.numPos = N.outputs.length ∧ N.numPis = N.inputs.length ∧ PsOk p.cut ∧
    ∃ M q, klutMapping p (Choice.init N N.nodes.length) = some (M, q) ∧ q.delay = 3 ∧ ¬ Depth N M q.delay ∧
      (∀ D, Depth N M D → 4 ≤ D) ∧
      ∃ M' q', mapWith p.cut (Choice.init N N.nodes.length) ((run p).take 1) = some (M', q') ∧ Depth N M' 3 := by
  have hp : PsOk ps3.cut := ⟨by decide, by decide, by decide, by decide, rfl⟩
  refine ⟨ps3, six, six_built, by decide, by decide, hp, ?_⟩
  obtain ⟨h, h'⟩ := six_run
  have hlen : six.nodes.length = 13 := by decide
  cases e : klutMapping ps3 (Choice.init six 13) with
  | none => rw [e] at h; simp at h
  | some r =>
    cases e' : mapWith ps3.cut (Choice.init six 13) ((run ps3).take 1) with
    | none => rw [e'] at h'; simp at h'
    | some r' =>
      obtain ⟨M, q⟩ := r
      obtain ⟨M', q'⟩ := r'
      rw [e] at h
      rw [e'] at h'
      simp only [Option.map_some, Option.some.injEq, Prod.mk.injEq, List.map_cons, List.map_nil, List.cons.injEq] at h h'
      obtain ⟨hq, ⟨r7, f7⟩, ⟨r9, f9⟩, ⟨r11, f11⟩, ⟨r12, f12⟩, _⟩ := h
      have hd : ∀ D, Depth six M D → 4 ≤ D := by
        rintro D ⟨d, a, b, _⟩
        have g : ∀ n, 7 ≤ n → n < 13 → ∃ a b, six.IsGate n a b := by
          intro n h1 h2
          obtain ⟨nd, _, hg⟩ := gate_of six_built (n := n) (by rw [hlen]; exact h2) (by omega)
            (by interval_cases n <;> decide)
          exact ⟨_, _, hg⟩
        have c7 := (a.cell 7 _ ⟨g 7 (by omega) (by omega), r7⟩ f7).1 2 (by simp)
        have c9 := (a.cell 9 _ ⟨g 9 (by omega) (by omega), r9⟩ f9).1 7 (by simp)
        have c11 := (a.cell 11 _ ⟨g 11 (by omega) (by omega), r11⟩ f11).1 9 (by simp)
        have c12 := (a.cell 12 _ ⟨g 12 (by omega) (by omega), r12⟩ f12).1 11 (by simp)
        have := b (.mk 12 false) (by decide)
        have e12 : (Sig.mk 12 false).index = 12 := by decide
        rw [e12] at this
        omega
      rw [hlen]
      refine ⟨M, q, e, by rw [hq], fun hx => ?_, hd, M', q', e', ?_⟩
      · have := hd _ hx
        rw [hq] at this
        exact absurd this (by decide)
      · have := C69_first_partial ps3.cut _ six six_built (by decide) hp M' q' (by rw [hlen]; exact e')
        rw [h'] at this
        exact this

end Verif.Mapper.Timed
