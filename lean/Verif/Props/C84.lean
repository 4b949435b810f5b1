import Verif.Flow.Report
import Verif.Props.C30
import Verif.Props.C65
import Verif.Props.C83

set_option autoImplicit false

/-!
# C84: the report of the flow

Full statement: the report of the flow gives the number of LUTs as the area and, for every number of fanins, the number of LUTs with it; it says so if there are no LUTs; and it is defined for every
network that the flow makes, with every configuration file.

`C84_report`: the numbers are right whenever no LUT has more than `k` fanins; `C84_defined`: exactly then the report is defined. `C84_flow_partial`: it is for the networks of the flow if the parameters are
sensible. Missing is the rest: with a file without a cut size the report may be undefined (`C84_violated_missing`), and "NO LUT" is not said of networks without LUTs (`C84_violated_none`).
`C84_copied`: for the copies that `klut_network( storage )` makes (C79) it is never defined.
-/

namespace Verif.Flow.Report

open ChoiceMiter (Good)

/-! ### specification -/

/-- exactly `m` numbers have the property -/
def Number (P : Nat → Prop) (m : Nat) : Prop := ∃ l : List Nat, l.Nodup ∧ (∀ n, n ∈ l ↔ P n) ∧ l.length = m

/-- `n` is a LUT of the network -/
def Lut (K : Klut) (n : Nat) : Prop := ∃ cs f, K.IsLut n cs f

/-- `n` is a LUT with `c` fanins -/
def LutWith (K : Klut) (c n : Nat) : Prop := ∃ cs f, K.IsLut n cs f ∧ cs.length = c

/-- A right report for the numbers of fanins from 1 to `k`. -/
structure Right (K : Klut) (k : Nat) (r : Printed) : Prop where
  area : ∃ m : Nat, r.area = m ∧ Number (Lut K) m
  length : r.lines.length = k
  line : ∀ i < k, ∃ m, r.lines[i]? = some (((i + 1 : Nat) : Int), m) ∧ Number (LutWith K (i + 1)) m
  total : (((r.lines.map (·.2)).sum : Nat) : Int) = r.area

/-! ### proofs -/

theorem then_ok {α β : Type} (a : α) (f : α → Config.Out β) : (Config.Out.ok a).then f = f a := rfl

theorem of_some {α : Type} (a : α) : Config.Out.of (some a) = .ok a := rfl

theorem of_none {α : Type} : Config.Out.of (none : Option α) = .undef := rfl

theorem index_zero : index 0 = 2 ^ 32 - 1 := by decide

theorem index_pos {c : Nat} (h : 1 ≤ c) (h2 : c < 2 ^ 32) : index c = c - 1 := by unfold index; omega

theorem shown_small {n : Nat} (h : n < 2 ^ 31) : Cli.Stats.shown n = n := by
  unfold Cli.Stats.shown
  rw [BitVec.toInt_eq_toNat_of_lt (by rw [BitVec.toNat_ofNat]; omega), BitVec.toNat_ofNat, Nat.mod_eq_of_lt (by omega)]

/-- the number of fanins of a node -/
def size (K : Klut) (n : Nat) : Nat :=
  match K.nodes[n]? with
  | some nd => nd.children.length
  | none => 0

theorem count_spec (K : Klut) : ∀ (ns l : List Nat), (∀ n ∈ ns, n < K.nodes.length ∧ 1 ≤ size K n ∧ size K n ≤ l.length) → l.length < 2 ^ 32 →
    ∃ l', count K ns l = some l' ∧ l'.length = l.length ∧
      ∀ i < l.length, ∃ c d, l[i]? = some c ∧ l'[i]? = some d ∧ (c + ns.length < 2 ^ 32 → d = c + ns.countP fun n => size K n == i + 1) := by
  intro ns
  induction ns with
  | nil =>
    intro l _ _
    refine ⟨l, rfl, rfl, fun i hi => ⟨l[i], l[i], List.getElem?_eq_getElem hi, List.getElem?_eq_getElem hi, fun _ => by simp⟩⟩
  | cons n ns ih =>
    intro l h hl
    obtain ⟨h1, h2, h3⟩ := h n (by simp)
    obtain ⟨nd, hnd⟩ : ∃ nd, K.nodes[n]? = some nd := ⟨_, List.getElem?_eq_getElem h1⟩
    have hs : size K n = nd.children.length := by unfold size; rw [hnd]
    rw [hs] at h2 h3
    have hx : index nd.children.length = nd.children.length - 1 := index_pos h2 (by omega)
    obtain ⟨c, hc⟩ : ∃ c, l[nd.children.length - 1]? = some c := ⟨_, List.getElem?_eq_getElem (by omega)⟩
    have hb : bump l (index nd.children.length) = some (l.set (nd.children.length - 1) ((c + 1) % 2 ^ 32)) := by
      unfold bump; rw [hx, hc]
    obtain ⟨l', e, e1, e2⟩ := ih (l.set (nd.children.length - 1) ((c + 1) % 2 ^ 32))
      (fun m hm => by rw [List.length_set]; exact h m (List.mem_cons_of_mem _ hm)) (by rw [List.length_set]; exact hl)
    rw [List.length_set] at e1 e2
    refine ⟨l', ?_, e1, fun i hi => ?_⟩
    · rw [count, hnd]; dsimp only; rw [hb]; exact e
    · obtain ⟨a, d, ha, hd, q⟩ := e2 i hi
      rw [List.getElem?_set] at ha
      split at ha
      · rename_i hic
        rw [if_pos (by omega)] at ha
        obtain rfl := Option.some.inj ha
        refine ⟨c, d, hic ▸ hc, hd, fun hlt => ?_⟩
        rw [List.length_cons] at hlt
        have hm : (c + 1) % 2 ^ 32 = c + 1 := Nat.mod_eq_of_lt (by omega)
        rw [hm] at q
        rw [q (by omega), List.countP_cons, if_pos (by rw [hs, beq_iff_eq]; omega)]
        omega
      · rename_i hic
        refine ⟨a, d, ha, hd, fun hlt => ?_⟩
        rw [List.length_cons] at hlt
        rw [q (by omega), List.countP_cons, if_neg (by rw [hs, beq_iff_eq]; omega)]
        omega

theorem count_none (K : Klut) : ∀ (ns l : List Nat), (∀ n ∈ ns, size K n < 2 ^ 32) → l.length < 2 ^ 32 →
    (∃ n ∈ ns, size K n = 0 ∨ l.length < size K n) → count K ns l = none := by
  intro ns
  induction ns with
  | nil => intro l _ _ ⟨n, hn, _⟩; cases hn
  | cons n ns ih =>
    intro l h hl hx
    rw [count]
    split
    · rfl
    rename_i nd hnd
    have hs : size K n = nd.children.length := by unfold size; rw [hnd]
    unfold bump
    have hn := h n (by simp)
    rw [hs] at hn
    by_cases hbad : size K n = 0 ∨ l.length < size K n
    · have : l[index nd.children.length]? = none := by
        rw [List.getElem?_eq_none_iff]
        rw [hs] at hbad
        by_cases h0 : nd.children.length = 0
        · rw [h0, index_zero]; omega
        · rw [index_pos (by omega) hn]; omega
      rw [this]
    · cases hc : l[index nd.children.length]? with
      | none => rfl
      | some c =>
        dsimp only
        refine ih _ (fun m hm => h m (List.mem_cons_of_mem _ hm)) (by rw [List.length_set]; exact hl) ?_
        obtain ⟨m, hm, hm2⟩ := hx
        rw [List.length_set]
        rcases List.mem_cons.1 hm with rfl | hm
        · exact absurd hm2 hbad
        · exact ⟨m, hm, hm2⟩

theorem hit (c : Nat) : ∀ k, ((List.range k).map fun i => if c = i + 1 then 1 else 0).sum = if 1 ≤ c ∧ c ≤ k then 1 else 0 := by
  intro k
  induction k with
  | zero => rw [if_neg (by omega)]; rfl
  | succ k ih =>
    rw [List.range_succ, List.map_append, List.sum_append, ih]
    simp only [List.map_cons, List.map_nil, List.sum_cons, List.sum_nil]
    split <;> split <;> split <;> omega

theorem split_sum (s : Nat → Nat) (k : Nat) : ∀ ns : List Nat, (∀ n ∈ ns, 1 ≤ s n ∧ s n ≤ k) →
    ((List.range k).map fun i => ns.countP fun n => s n == i + 1).sum = ns.length := by
  intro ns
  induction ns with
  | nil =>
    intro _
    simp
  | cons n ns ih =>
    intro h
    have e : (fun i => (n :: ns).countP fun n => s n == i + 1) = fun i => (ns.countP fun n => s n == i + 1) + if s n = i + 1 then 1 else 0 := by
      funext i
      rw [List.countP_cons]
      simp
    rw [e, List.sum_map_add, ih fun m hm => h m (List.mem_cons_of_mem _ hm), hit, if_pos (h n (by simp)), List.length_cons]

theorem size_of {K : Klut} {n : Nat} {cs : List Nat} {f : TT} (h : K.IsLut n cs f) : size K n = cs.length := by
  obtain ⟨_, _, nd, hnd, rfl, _⟩ := h
  unfold size
  rw [hnd]

theorem gates_lt {K : Klut} {n : Nat} (h : n ∈ K.gates) : n < K.nodes.length := by
  rw [Klut.gates, List.mem_filter, List.mem_range] at h
  exact h.1

theorem lut_pos {K : Klut} (hK : Klut.Built K) {n : Nat} {cs : List Nat} {f : TT} (h : K.IsLut n cs f) : 1 ≤ cs.length := by
  obtain ⟨h2, hi, nd, hnd, rfl, _⟩ := h
  have := (hK.wf.gate n nd hnd h2 hi).1
  exact List.length_pos_iff.2 this

theorem statistics_spec {K : Klut} (hK : Klut.Built K) {k : Nat} (hk : k < 2 ^ 32) (hn : K.nodes.length < 2 ^ 32)
    (hl : ∀ n cs f, K.IsLut n cs f → cs.length ≤ k) :
    statistics K k = some ((List.range k).map fun i => K.gates.countP fun n => size K n == i + 1) := by
  have hg := (Klut.C51_bookkeeping hK).2.1
  obtain ⟨l', e, e1, e2⟩ := count_spec K K.gates (List.replicate k 0) (fun n hm => by
    obtain ⟨cs, f, hf⟩ := (hg n).1 hm
    rw [size_of hf, List.length_replicate]
    exact ⟨gates_lt hm, lut_pos hK hf, hl n cs f hf⟩) (by rw [List.length_replicate]; exact hk)
  rw [List.length_replicate] at e1 e2
  have hlen : K.gates.length ≤ K.nodes.length := by
    rw [Klut.gates]
    exact (List.length_filter_le _ _).trans (by rw [List.length_range])
  unfold statistics
  rw [e, Option.some.injEq]
  apply List.ext_getElem?
  intro i
  by_cases hi : i < k
  · obtain ⟨c, d, hc, hd, q⟩ := e2 i hi
    rw [List.getElem?_replicate, if_pos hi, Option.some.injEq] at hc
    subst hc
    rw [hd, q (by omega), List.getElem?_map, List.getElem?_range hi, Option.map_some, Nat.zero_add]
  · rw [List.getElem?_eq_none (by omega), List.getElem?_eq_none (by rw [List.length_map, List.length_range]; omega)]

/-! ### C84 -/

/-- The report is right for all networks built by clients without LUTs of more than `k` fanins. -/
theorem C84_report (K : Klut) (hK : Klut.Built K) (k : Nat) (hk : k < 2 ^ 31) (hn : K.nodes.length < 2 ^ 31)
    (hl : ∀ n cs f, K.IsLut n cs f → cs.length ≤ k) : ∃ r, report K k = some r ∧ Right K k r := by
  have hg := (Klut.C51_bookkeeping hK).2.1
  have hnum := (Klut.C51_bookkeeping hK).2.2.1
  have hnd : K.gates.Nodup := List.Pairwise.filter _ List.nodup_range
  have hlen : K.gates.length ≤ K.nodes.length := by
    rw [Klut.gates]
    exact (List.length_filter_le _ _).trans (by rw [List.length_range])
  have hs := statistics_spec hK (k := k) (by omega) (by omega) hl
  refine ⟨_, by unfold report; rw [hs], ?_, ?_, ?_, ?_⟩
  · exact ⟨K.gates.length, by dsimp only; rw [hnum, shown_small (by omega)], K.gates, hnd, hg, rfl⟩
  · simp
  · intro i hi
    refine ⟨K.gates.countP fun n => size K n == i + 1, ?_, K.gates.filter fun n => size K n == i + 1, hnd.filter _, fun n => ?_,
      (List.countP_eq_length_filter).symm⟩
    · simp only [List.getElem?_mapIdx, List.getElem?_map, List.getElem?_range hi, Option.map_some]
      rw [shown_small (by omega)]
    · rw [List.mem_filter, beq_iff_eq, hg]
      constructor
      · rintro ⟨⟨cs, f, hf⟩, e⟩
        exact ⟨cs, f, hf, by rw [← size_of hf]; exact e⟩
      · rintro ⟨cs, f, hf, e⟩
        exact ⟨⟨cs, f, hf⟩, by rw [size_of hf]; exact e⟩
  · dsimp only
    rw [hnum, shown_small (by omega)]
    have : ((((List.range k).map fun i => K.gates.countP fun n => size K n == i + 1).mapIdx fun i c => (Cli.Stats.shown (i + 1), c)).map (·.2)) =
        (List.range k).map fun i => K.gates.countP fun n => size K n == i + 1 := by
      apply List.ext_getElem? ; intro i
      simp only [List.getElem?_map, List.getElem?_mapIdx, Option.map_map]
      rfl
    rw [this, split_sum (size K) k K.gates fun n hm => by
      obtain ⟨cs, f, hf⟩ := (hg n).1 hm
      rw [size_of hf]
      exact ⟨lut_pos hK hf, hl n cs f hf⟩]

/-- The report is defined exactly if no LUT has more than `k` fanins. -/
theorem C84_defined (K : Klut) (hK : Klut.Built K) (k : Nat) (hk : k < 2 ^ 31) (hn : K.nodes.length < 2 ^ 31)
    (hf : ∀ n cs f, K.IsLut n cs f → cs.length < 2 ^ 32) : (report K k).isSome = true ↔ ∀ n cs f, K.IsLut n cs f → cs.length ≤ k := by
  constructor
  · intro h
    by_contra hx
    push Not at hx
    obtain ⟨n, cs, f, hl, hx⟩ := hx
    have hg := (Klut.C51_bookkeeping hK).2.1
    have : statistics K k = none := count_none K _ _ (fun m hm => by
      obtain ⟨cs, f, hl⟩ := (hg m).1 hm
      rw [size_of hl]
      exact hf m cs f hl) (by rw [List.length_replicate]; omega) ⟨n, (hg n).2 ⟨cs, f, hl⟩, Or.inr (by rw [size_of hl, List.length_replicate]; exact hx)⟩
    unfold report at h
    rw [this] at h
    cases h
  · intro h
    obtain ⟨r, e, _⟩ := C84_report K hK k hk hn h
    rw [e]; rfl

/-- two inputs, an inverter, a LUT with three fanins -/
example : Klut.Built Klut.sample ∧ (report Klut.sample 6) = some ⟨2, false, [(1, 1), (2, 0), (3, 1), (4, 0), (5, 0), (6, 0)]⟩ ∧ report Klut.sample 2 = none :=
  ⟨Klut.sample_built, by decide +kernel, by decide +kernel⟩

/-- a case of `C84_report` -/
example : ∃ r, report Klut.sample 6 = some r ∧ Right Klut.sample 6 r :=
  C84_report _ Klut.sample_built 6 (by decide) (by decide +kernel) fun n cs f ⟨_, _, nd, hnd, e, _⟩ => by
    subst e
    have : Klut.sample.nodes.all (fun nd => decide (nd.children.length ≤ 6)) = true := by decide +kernel
    simpa using List.all_eq_true.1 this nd (List.mem_of_getElem? hnd)

variable {β γ : Type}

/-- With sensible parameters the flow ends with a right report (same hypotheses as C65). -/
theorem C84_flow_partial (E : Env β) (hE : EnvOk E) (k : Nat) (hk : 0 < k) (N : Aig) (h : Good k N) (hpo : N.outputs.length = N.numPos)
    (doc : Config.Json) (p : Config.Params) (hdoc : Config.configure doc {} = .ok p) (hp : Mapper.PsOk p.mapper.cut) (H : Nat → Nat → Mapper.Heur γ) (cost : γ) (S : Synth)
    (L : Mapping) (K : Klut) (e : mapper E p.mapper H cost N = some (S, L, K)) (hn : ∀ B ∈ S.given, NoTwins B)
    (hself : ∀ n, ¬ Mapper.SelfCell S.awc.net L n) (hsize : K.nodes.length < 2 ^ 31) :
    ∃ r, run E H cost doc N = .ok r ∧ Right K p.mapper.cut.cutSize r := by
  obtain ⟨q, hs⟩ := C65_partial E hE k hk N h hpo p.mapper hp H cost S L K e hn hself
  obtain ⟨r, hr, hr2⟩ := C84_report K q.built p.mapper.cut.cutSize (lt_of_le_of_lt hp.size7 (by decide)) hsize
    fun n cs f ⟨_, _, nd, hnd, hc, _⟩ => hc ▸ hs n nd hnd
  refine ⟨r, ?_, hr2⟩
  rw [run, hdoc, then_ok, e, of_some, then_ok, hr, of_some]

set_option maxRecDepth 4000 in
theorem shipped_run : (mapper runEnv {} Mapper.H1 0 Rewrite.twiceOut).map (fun r => r.2.2.nodes.length) = some 8 := by decide +kernel

theorem shipped_configured : ∃ p, Config.configure Config.shipped {} = .ok p ∧ p.mapper.cut = ({} : Mapper.Ps).cut := ⟨_, rfl, rfl⟩

/-- a case of `C84_flow_partial`: the file of the repository and the network of C65 -/
example : ∃ p S L K r, Config.configure Config.shipped {} = .ok p ∧ mapper runEnv p.mapper Mapper.H1 0 Rewrite.twiceOut = some (S, L, K) ∧
    run runEnv Mapper.H1 0 Config.shipped Rewrite.twiceOut = .ok r ∧ Right K 6 r := by
  obtain ⟨p, hp, hc⟩ := shipped_configured
  have h := twiceOut_run
  have h5 := shipped_run
  have e' := Config.mapper_cut runEnv Mapper.H1 0 Rewrite.twiceOut hc
  cases e : mapper runEnv {} Mapper.H1 0 Rewrite.twiceOut with
  | none => rw [e] at h; cases h
  | some r =>
    obtain ⟨S, L, K⟩ := r
    rw [e] at e' h5
    rw [Option.map_some, Option.some.injEq] at h5
    rw [e, Option.map_some, Option.some.injEq, Prod.mk.injEq, Prod.mk.injEq, Prod.mk.injEq] at h
    obtain ⟨h1, h2, h3, h4⟩ := h
    dsimp only at h1 h2 h3 h4 h5
    have hgiven : ∀ B ∈ S.given, NoTwins B := by
      intro B hB
      rw [h1] at hB
      simp only [List.mem_cons, List.not_mem_nil, or_false, or_self] at hB
      rcases hB with rfl | rfl
      · exact Rewrite.separated_sound twiceOut_built (by decide) (xs := probes) (by decide +kernel)
      · exact Rewrite.separated_sound shared_built (by decide) (xs := probes) (by decide +kernel)
    have hself : ∀ n, ¬ Mapper.SelfCell S.awc.net L n := by
      rintro n ⟨⟨⟨a, b, g⟩, _⟩, hc⟩
      have hn : n < 8 := by
        obtain ⟨_, _, nd, hnd, _⟩ := g
        rw [← h3]; exact Aig.lt_of_getElem? hnd
      have := congrArg (·[n]?) h2
      simp only [List.getElem?_map, List.getElem?_range hn, Option.map_some, hc] at this
      have : ∀ n < 8, (some (some [n]) : Option (Option (List Nat))) ≠
          [some [], some [], some [], some [], some [], some [], some [], some [1, 2, 3, 4]][n]? := by decide
      exact this n hn (by assumption)
    obtain ⟨r, hr, hr2⟩ := C84_flow_partial runEnv runEnv_ok 4 (by decide) _ ⟨twiceOut_built, by decide, by decide⟩ (by decide) Config.shipped p hp
      (by rw [hc]; constructor <;> decide) Mapper.H1 0 S L K e' hgiven hself (by rw [h5]; decide)
    exact ⟨p, S, L, K, r, hp, e', hr, by rw [hc] at hr2; exact hr2⟩

/-- For a network that `klut_network( storage )` has made from another one no report is defined: the appended node counts as a LUT without fanins. -/
theorem C84_copied (K : Klut) (hK : Klut.Built K) (hf : ∀ n cs f, K.IsLut n cs f → cs.length < 2 ^ 32) (k : Nat) (hk : k < 2 ^ 32) :
    report (Cli.Stats.reinit K) k = none := by
  have hlen := hK.wf.len
  have hget : ∀ n : Nat, (Cli.Stats.reinit K).nodes[n]? = ((K.nodes ++ [{ children := [], fn := 0 }])[n]?).map fun nd =>
      { nd with fn := if n = 0 then 0 else if n = 1 then 1 else nd.fn } := by
    intro n
    show (Cli.Stats.setFn (Cli.Stats.setFn _ 0 0) 1 1)[n]? = _
    unfold Cli.Stats.setFn
    rw [List.getElem?_modify, List.getElem?_modify, Option.map_eq_map, Option.map_eq_map, Option.map_map]
    congr 1
    funext nd
    by_cases h0 : n = 0
    · subst h0; simp
    · by_cases h1 : n = 1
      · subst h1; simp
      · simp [h0, h1, Ne.symm h0, Ne.symm h1]
  have hsz : ∀ n, size (Cli.Stats.reinit K) n = size K n := by
    intro n
    unfold size
    rw [hget]
    rcases Nat.lt_trichotomy n K.nodes.length with h | h | h
    · rw [List.getElem?_append_left h, List.getElem?_eq_getElem h]; rfl
    · subst h; simp
    · rw [List.getElem?_eq_none (by simp; omega), List.getElem?_eq_none (by omega)]; rfl
  have hnone : statistics (Cli.Stats.reinit K) k = none := by
    refine count_none _ _ _ (fun n _ => ?_) (by rw [List.length_replicate]; exact hk) ⟨K.nodes.length, ?_, Or.inl ?_⟩
    · rw [hsz]
      unfold size
      split
      · rename_i nd hnd
        by_cases hx : n < 2 ∨ n ∈ K.inputs
        · rw [hK.wf.nogate n nd hnd hx]; simp
        · push Not at hx
          obtain ⟨_, _, f, hl, _⟩ := hK.wf.gate n nd hnd hx.1 hx.2
          exact hf n nd.children f ⟨hx.1, hx.2, nd, hnd, rfl, hl⟩
      · decide
    · rw [Klut.gates, List.mem_filter, List.mem_range]
      have hl : K.nodes.length < (Cli.Stats.reinit K).nodes.length := by
        show _ < (Cli.Stats.setFn (Cli.Stats.setFn _ 0 0) 1 1).length
        simp [Cli.Stats.setFn]
      refine ⟨hl, ?_⟩
      rw [Bool.and_eq_true, decide_eq_true_iff, Bool.not_eq_true']
      refine ⟨hlen, ?_⟩
      unfold Klut.isCi
      rw [hget]
      simp
    · rw [hsz]; unfold size; rw [List.getElem?_eq_none (by omega)]
  unfold report
  rw [hnone]

/-- the conjunction of two inputs, and the complement of the first one -/
def two : Aig := ((Aig.empty.createPi.1.createPi.1.createAnd ⟨1, false⟩ ⟨2, false⟩).1.createPo ⟨3, false⟩).createPo ⟨1, true⟩

theorem two_good : Good 2 two := ⟨.po (.po (.and (.pi (.pi .empty)) (by decide) (by decide)) (by decide)) (by decide), by decide, by decide⟩

/-- a file in which the cut size is missing -/
def noSize : Config.Json := .obj [("klut_mapping", .obj [("cut_limit", .nat 10)])]

/-- the parameters of the mapper that come from it -/
def noSettings : Mapper.Ps := { cut := { cutSize := 0, cutLimit := 10 }, uFlowIters := 0, uAreaIters := 0, bDebug := false, verbose := false }

theorem two_run : (mapper runEnv noSettings Mapper.H1 0 two).map (fun r => (r.2.2.numGates, r.2.2.outputs, report r.2.2 0)) = some (1, [0, 3], none) := by
  decide +kernel

theorem configured : ∃ p, Config.configure noSize {} = .ok p ∧ p.mapper = noSettings := ⟨_, rfl, rfl⟩

/-- With a configuration file without a cut size the flow makes a network with one LUT, the inverter, and the report is undefined: it counts in an empty vector. -/
theorem C84_violated_missing : ∃ N S L K, Good 2 N ∧ N.outputs.length = N.numPos ∧
    (∃ p, Config.configure noSize {} = .ok p ∧ mapper runEnv p.mapper Mapper.H1 0 N = some (S, L, K)) ∧ K.numGates = 1 ∧
    run runEnv Mapper.H1 0 noSize N = .undef := by
  obtain ⟨p, hp, hm⟩ := configured
  have h := two_run
  cases e : mapper runEnv noSettings Mapper.H1 0 two with
  | none => rw [e] at h; cases h
  | some r =>
    obtain ⟨S, L, K⟩ := r
    rw [e, Option.map_some, Option.some.injEq, Prod.mk.injEq, Prod.mk.injEq] at h
    refine ⟨two, S, L, K, two_good, by decide, ⟨p, hp, by rw [hm]; exact e⟩, h.1, ?_⟩
    rw [run, hp, then_ok, hm, e, of_some, then_ok, show noSettings.cut.cutSize = 0 from rfl, h.2.2, of_none]

/-- A network without LUTs is reported with lines of zeros, not with "NO LUT". -/
theorem C84_violated_none : Klut.Built Klut.empty ∧ (∀ n, ¬ Lut Klut.empty n) ∧ report Klut.empty 2 = some ⟨0, false, [(1, 0), (2, 0)]⟩ := by
  refine ⟨.empty, ?_, by decide +kernel⟩
  rintro n ⟨cs, f, h2, _, nd, hnd, _⟩
  have : n < 2 := Aig.lt_of_getElem? hnd
  omega

end Verif.Flow.Report

namespace Verif.Flow.Config

open Report (two two_good)
open ChoiceMiter (Good)

/-- a file with LUTs of one input -/
def oneInput : Json := .obj [("klut_mapping", .obj [("cut_size", .nat 1), ("cut_limit", .nat 10)])]

/-- the parameters of the mapper that come from it -/
def oneParams : Mapper.Ps := { cut := { cutSize := 1, cutLimit := 10 }, uFlowIters := 0, uAreaIters := 0, bDebug := false, verbose := false }

theorem one_run : (Flow.mapper runEnv oneParams Mapper.H1 0 two).map (fun r => r.2.2.outputs) = some [0, 3] := by decide +kernel

theorem one_configured : ∃ p, configure oneInput {} = .ok p ∧ p.mapper = oneParams := ⟨_, rfl, rfl⟩

/-- A cut size that makes no sense is not reported: with 1 the flow ends normally, and the conjunction of two inputs has become the constant 0. -/
theorem C83_violated_range : ∃ N S L K, Good 2 N ∧ N.outputs.length = N.numPos ∧ flow runEnv Mapper.H1 0 oneInput N = .ok (S, L, K) ∧
    ∃ x v, N.Consistent x v ∧ ∀ v', K.Consistent x v' → K.outputs.map v' ≠ N.outputs.map (·.val v) := by
  obtain ⟨p, hp, hm⟩ := one_configured
  have h := one_run
  cases e : Flow.mapper runEnv oneParams Mapper.H1 0 two with
  | none => rw [e] at h; cases h
  | some r =>
    obtain ⟨S, L, K⟩ := r
    rw [e, Option.map_some, Option.some.injEq] at h
    refine ⟨two, S, L, K, two_good, by decide, ?_, fun _ => true, _, two_good.built.wf.consistent_value _, ?_⟩
    · rw [flow, hp, Report.then_ok, hm, e, Report.of_some]
    · intro v' hv'
      dsimp only at h
      rw [h]
      have q := Aig.C45_bool two two_good.built (by decide) (fun _ => true) _ (two_good.built.wf.consistent_value _)
      rw [show Aig.simulate (Aig.boolSim fun _ => true) two = some [true, false] by decide +kernel] at q
      have ho : two.outputs.map (·.val (two.value fun _ => true)) = [true, false] := by
        have := Option.some.inj q
        rw [List.take_of_length_le (by decide)] at this
        exact this.symm
      rw [ho]
      simp [hv'.const0]

end Verif.Flow.Config
