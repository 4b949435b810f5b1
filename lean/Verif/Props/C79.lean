import Verif.Cli.Stats
import Verif.Io.LutProof
import Verif.Io.VerilogProof
import Verif.Props.C16

set_option autoImplicit false

/-!
# C79: `print_stats` prints the right numbers and changes nothing

Full statement: the line printed for a stored network shows its numbers of inputs, outputs and gates (LUTs) and the length of its longest path, and the stored
network is the same afterwards.

For AIGs without registers this holds (`C79_aig_partial`). For LUT networks every call appends a node to the stored network before it counts
(`C79_violated`). `C79_lut_exact_partial` says what is printed instead, `C79_function_partial` that the functions stay, `C79_netlist_partial` what is written later.
-/

namespace Verif.Cli.Stats

open Klut (IsLut Built Consistent)

/-! ### specification -/

/-- There is a chain of `k` edges that starts in `n`. -/
inductive Chain (E : Nat → Nat → Prop) : Nat → Nat → Prop
  | nil (n : Nat) : Chain E n 0
  | cons {n c k : Nat} : E n c → Chain E c k → Chain E n (k + 1)

/-- `d` is the length of a longest chain from the roots, 0 without roots. -/
def IsDepth (E : Nat → Nat → Prop) (roots : List Nat) (d : Nat) : Prop :=
  (∀ o ∈ roots, ∀ k, Chain E o k → k ≤ d) ∧ (d = 0 ∨ ∃ o ∈ roots, Chain E o d)

/-- Exactly `k` numbers have the property. -/
def Count (P : Nat → Prop) (k : Nat) : Prop := ∃ l : List Nat, l.Nodup ∧ (∀ n, n ∈ l ↔ P n) ∧ l.length = k

/-- `n` is a LUT that reads `c` -/
def LutEdge (N : Klut) (n c : Nat) : Prop := ∃ cs f, N.IsLut n cs f ∧ c ∈ cs

/-- `n` is a gate that reads `c` -/
def AndEdge (N : Aig) (n c : Nat) : Prop := ∃ a b, N.IsGate n a b ∧ (c = a.index ∨ c = b.index)

/-! ### traversal marks -/

theorem kids_vis {p : Topo.DepthParam} {trav : Nat} {rec : Nat → Topo.DSt → Option (Topo.DSt × Nat)}
    (hrec : ∀ n s s' c, rec n s = some (s', c) → ∀ m, s'.vis m = s.vis m ∨ s'.vis m = trav) :
    ∀ (l : List Sig) (s : Topo.DSt) (lv : Nat) (s' : Topo.DSt) (c : Nat), Topo.levelKids p rec l s lv = some (s', c) →
      ∀ m, s'.vis m = s.vis m ∨ s'.vis m = trav := by
  intro l
  induction l with
  | nil => intro s lv s' c h m; cases h; exact Or.inl rfl
  | cons f l ih =>
    intro s lv s' c h m
    rw [Topo.levelKids] at h
    split at h
    · cases h
    · rename_i s1 c1 e
      rcases ih _ _ _ _ h m with h' | h'
      · rw [h']; exact hrec _ _ _ _ e m
      · exact Or.inr h'

theorem rec_vis {p : Topo.DepthParam} {trav : Nat} : ∀ (f n : Nat) (s s' : Topo.DSt) (c : Nat), Topo.levelRec p trav f n s = some (s', c) →
    ∀ m, s'.vis m = s.vis m ∨ s'.vis m = trav := by
  intro f
  induction f with
  | zero => intro n s s' c h; cases h
  | succ f ih =>
    intro n s s' c h m
    rw [Topo.levelRec] at h
    have hu : ∀ m, Topo.upd s.vis n trav m = s.vis m ∨ Topo.upd s.vis n trav m = trav := by
      intro m
      unfold Topo.upd
      split
      · exact Or.inr rfl
      · exact Or.inl rfl
    split at h
    · cases h; exact Or.inl rfl
    · dsimp only at h
      split at h
      · cases h; exact hu m
      · split at h
        · cases h
        · rename_i s1 lv e
          cases h
          rcases kids_vis ih _ _ _ _ _ e m with h' | h'
          · show s1.vis m = _ ∨ s1.vis m = _
            rw [h']; exact hu m
          · exact Or.inr h'

theorem pos_vis {p : Topo.DepthParam} {trav fuel : Nat} : ∀ (l : List Sig) (s : Topo.DSt) (d : Nat) (s' : Topo.DSt) (c : Nat),
    Topo.levelPos p trav fuel l s d = some (s', c) → ∀ m, s'.vis m = s.vis m ∨ s'.vis m = trav := by
  intro l
  induction l with
  | nil => intro s d s' c h m; cases h; exact Or.inl rfl
  | cons f l ih =>
    intro s d s' c h m
    rw [Topo.levelPos] at h
    split at h
    · cases h
    · rename_i s1 c1 e
      rcases ih _ _ _ _ h m with h' | h'
      · rw [h']; exact rec_vis _ _ _ _ _ e m
      · exact Or.inr h'

/-! ### longest paths and chains -/

/-- The view counts the edges of `E` below the nodes of `S`. -/
structure Counts (p : Topo.DepthParam) (E : Nat → Nat → Prop) (S : Nat → Prop) : Prop where
  unit : ∀ n, p.cost n = 1
  plain : p.countCompl = false
  ranked : ∀ n f, p.term n = false → f ∈ p.fanins n → f.index < n
  closed : ∀ n c, S n → E n c → S c
  term : ∀ n, S n → p.term n = true → ∀ c, ¬ E n c
  kids : ∀ n, S n → p.term n = false → p.fanins n ≠ []
  edge : ∀ n, S n → p.term n = false → ∀ c, E n c ↔ ∃ f ∈ p.fanins n, f.index = c

theorem Counts.chain {p : Topo.DepthParam} {E : Nat → Nat → Prop} {S : Nat → Prop} (h : Counts p E S) {n k : Nat} (hp : Topo.Path p n k)
    (hn : S n) : Chain E n k := by
  induction hp with
  | terminal _ => exact .nil _
  | source h1 h2 => exact absurd h2 (h.kids _ hn h1)
  | @step n f k h1 h2 _ ih =>
    have he : E n f.index := (h.edge n hn h1 _).2 ⟨f, h2, rfl⟩
    rw [h.unit, if_neg (by rw [h.plain]; simp)]
    exact .cons he (ih (h.closed _ _ hn he))

theorem Counts.exists {p : Topo.DepthParam} {E : Nat → Nat → Prop} {S : Nat → Prop} (h : Counts p E S) (n : Nat) (hn : S n) :
    ∃ k, Topo.Path p n k := by
  induction n using Nat.strong_induction_on with
  | _ n ih =>
    cases ht : p.term n with
    | true => exact ⟨0, .terminal ht⟩
    | false =>
      obtain ⟨f, hf⟩ := List.exists_mem_of_ne_nil _ (h.kids n hn ht)
      have he : E n f.index := (h.edge n hn ht _).2 ⟨f, hf, rfl⟩
      obtain ⟨k, hk⟩ := ih f.index (h.ranked n f ht hf) (h.closed _ _ hn he)
      exact ⟨_, .step ht hf hk⟩

theorem Counts.path {p : Topo.DepthParam} {E : Nat → Nat → Prop} {S : Nat → Prop} (h : Counts p E S) {n k : Nat} (hc : Chain E n k)
    (hn : S n) : ∃ l, k ≤ l ∧ Topo.Path p n l := by
  induction hc with
  | nil n =>
    obtain ⟨l, hl⟩ := h.exists n hn
    exact ⟨l, Nat.zero_le _, hl⟩
  | @cons n c k he _ ih =>
    obtain ⟨l, h1, h2⟩ := ih (h.closed _ _ hn he)
    have ht : p.term n = false := by
      cases ht : p.term n with
      | false => rfl
      | true => exact absurd he (h.term n hn ht c)
    obtain ⟨f, hf, rfl⟩ := (h.edge n hn ht c).1 he
    refine ⟨_, ?_, .step ht hf h2⟩
    rw [h.unit]
    omega

theorem Counts.depth {p : Topo.DepthParam} {E : Nat → Nat → Prop} {S : Nat → Prop} (h : Counts p E S) (pos : List Sig) (hS : ∀ f ∈ pos, S f.index)
    (vis : Nat → Nat) (trav fuel : Nat) (hv : ∀ n, vis n ≤ trav) (hf : ∀ f ∈ pos, f.index < fuel) :
    ∃ s d, Topo.updateLevels p pos vis trav fuel = some (s, d) ∧ IsDepth E (pos.map (·.index)) d ∧ ∀ n, s.vis n ≤ trav + 1 := by
  obtain ⟨s, d, e, h1, _, h3, h4, h5⟩ := Topo.C16_levels p id (fun n hn f hf => h.ranked n f hn hf) pos vis trav fuel hv hf
  have hl : ∀ f ∈ pos, Topo.Longest p f.index (s.lev f.index) := fun f hf => h1 _ ⟨f, hf, .refl _⟩
  have hx : ∀ f : Sig, (if p.countCompl = true ∧ f.compl = true then 1 else 0) = 0 := fun f => if_neg (by rw [h.plain]; simp)
  refine ⟨s, d, e, ⟨?_, ?_⟩, ?_⟩
  · intro o ho k hk
    obtain ⟨f, hf, rfl⟩ := List.mem_map.1 ho
    obtain ⟨l, hl1, hl2⟩ := h.path hk (hS f hf)
    have := (hl f hf).2 l hl2
    have := h4 f hf
    omega
  · by_cases hp : pos = []
    · exact Or.inl (h3 hp)
    · obtain ⟨f, hf, hd⟩ := h5 hp
      rw [hx] at hd
      refine Or.inr ⟨_, List.mem_map_of_mem hf, ?_⟩
      rw [hd]
      exact h.chain (hl f hf).1 (hS f hf)
  · intro n
    rcases pos_vis _ _ _ _ _ e n with h' | h'
    · rw [h']
      exact Nat.le_succ_of_le (hv n)
    · omega

theorem chain_le {E : Nat → Nat → Prop} (hE : ∀ n c, E n c → c < n) {n k : Nat} (h : Chain E n k) : k ≤ n := by
  induction h with
  | nil n => exact Nat.zero_le _
  | cons he _ ih =>
    have := hE _ _ he
    omega

/-! ### printed numbers -/

theorem shown_eq {n : Nat} (h : n < 2 ^ 31) : shown n = (n : Int) := by
  unfold shown
  rw [BitVec.toInt_eq_toNat_cond, BitVec.toNat_ofNat]
  have : n % 2 ^ 32 = n := Nat.mod_eq_of_lt (by omega)
  rw [this, if_pos (by omega)]

/-! ### AIGs -/

theorem withMarks_get (N : Aig) (vis : Nat → Nat) (trav n : Nat) :
    (withMarks N vis trav).nodes[n]? = (N.nodes[n]?).map fun nd => { nd with visited := vis n } := by
  simp [withMarks]

theorem withMarks_length (N : Aig) (vis : Nat → Nat) (trav : Nat) : (withMarks N vis trav).nodes.length = N.nodes.length := by
  simp [withMarks]

theorem withMarks_twice (N : Aig) (a c : Nat → Nat) (b d : Nat) : withMarks (withMarks N a b) c d = withMarks N c d := by
  have : (withMarks (withMarks N a b) c d).nodes = (withMarks N c d).nodes := by
    apply List.ext_getElem?
    intro n
    rw [withMarks_get, withMarks_get, withMarks_get, Option.map_map]
    rfl
  unfold withMarks at this ⊢
  dsimp only at this ⊢
  rw [this]

/-- Every network is itself with its own marks. -/
theorem withMarks_self (N : Aig) : withMarks N (Topo.visOf N) N.travId = N := by
  have : (withMarks N (Topo.visOf N) N.travId).nodes = N.nodes := by
    apply List.ext_getElem?
    intro n
    rw [withMarks_get]
    unfold Topo.visOf
    cases h : N.nodes[n]? with
    | none => rfl
    | some nd => rfl
  unfold withMarks at this ⊢
  dsimp only at this ⊢
  rw [this]

theorem withMarks_gate (N : Aig) (vis : Nat → Nat) (trav n : Nat) (a b : Sig) : (withMarks N vis trav).IsGate n a b ↔ N.IsGate n a b := by
  unfold Aig.IsGate
  constructor
  · rintro ⟨h0, h1, nd, h2, h3, h4, h5⟩
    rw [withMarks_get] at h2
    obtain ⟨x, hx, rfl⟩ := Option.map_eq_some_iff.1 h2
    exact ⟨h0, h1, x, hx, h3, h4, h5⟩
  · rintro ⟨h0, h1, nd, h2, h3, h4, h5⟩
    exact ⟨h0, h1, { nd with visited := vis n }, by rw [withMarks_get, h2]; rfl, h3, h4, h5⟩

theorem withMarks_isPi (N : Aig) (vis : Nat → Nat) (trav n : Nat) : (withMarks N vis trav).isPi n = N.isPi n := by
  unfold Aig.isPi
  rw [withMarks_get]
  cases N.nodes[n]? <;> rfl

theorem withMarks_fanins (N : Aig) (vis : Nat → Nat) (trav n : Nat) : Topo.aigFanins (withMarks N vis trav) n = Topo.aigFanins N n := by
  have : (withMarks N vis trav).isCi n = N.isCi n := by
    unfold Aig.isCi
    rw [withMarks_get]
    cases N.nodes[n]? <;> rfl
  unfold Topo.aigFanins
  rw [this, withMarks_get]
  cases N.nodes[n]? <;> rfl

theorem aig_counts {N : Aig} (hN : Aig.Built N) (hpi : N.inputs.length = N.numPis) :
    Counts ⟨Topo.aigFanins N, fun n => n == 0 || N.isPi n, fun _ => 1, false⟩ (AndEdge N) (fun n => n < N.nodes.length) := by
  have hr := (Topo.C16_built N hN false).1
  have hterm : ∀ n, (n == 0 || N.isPi n) = true ↔ n = 0 ∨ n ∈ N.inputs := by
    intro n
    by_cases h0 : n = 0
    · simp [h0]
    · simp only [Bool.or_eq_true, beq_iff_eq, h0, false_or]
      exact Io.isPi_iff hN.wf hpi h0
  have hfan : ∀ n, n < N.nodes.length → (n == 0 || N.isPi n) = false → ∃ a b, N.IsGate n a b ∧ Topo.aigFanins N n = [a, b] := by
    intro n hn ht
    have ht' : ¬ (n = 0 ∨ n ∈ N.inputs) := by rw [← hterm, ht]; simp
    rw [not_or] at ht'
    obtain ⟨nd, hnd⟩ : ∃ nd, N.nodes[n]? = some nd := ⟨_, List.getElem?_eq_getElem hn⟩
    have hg : N.IsGate n nd.c0 nd.c1 := ⟨ht'.1, ht'.2, nd, hnd, (hN.wf.gate n nd hnd ht'.1 ht'.2).2.2.2, rfl, rfl⟩
    refine ⟨nd.c0, nd.c1, hg, ?_⟩
    have hm := (hN.wf.mem_gates n).2 ⟨_, _, hg⟩
    simp only [Aig.gates, List.mem_filter, Bool.and_eq_true, Bool.not_eq_true'] at hm
    unfold Topo.aigFanins
    rw [if_neg (by rintro (h | h); · exact ht'.1 h
                   · rw [hm.2.1.2] at h; cases h), hnd]
  refine ⟨fun _ => rfl, rfl, fun n f ht hf => hr n ht f hf, ?_, ?_, ?_, ?_⟩
  · rintro n c hn ⟨a, b, hg, hc⟩
    have := hN.wf.isGate_lt hg
    rcases hc with rfl | rfl <;> omega
  · rintro n hn ht c ⟨a, b, hg, _⟩
    rcases (hterm n).1 ht with h | h
    · exact hg.1 h
    · exact hg.2.1 h
  · intro n hn ht
    obtain ⟨a, b, _, e⟩ := hfan n hn ht
    dsimp only
    rw [e]; simp
  · intro n hn ht c
    obtain ⟨a, b, hg, e⟩ := hfan n hn ht
    dsimp only
    rw [e]
    constructor
    · rintro ⟨a', b', hg', hc⟩
      have := hg.2.2
      obtain ⟨nd, h1, _, h2, h3⟩ := hg.2.2
      obtain ⟨nd', h1', _, h2', h3'⟩ := hg'.2.2
      rw [h1] at h1'; cases h1'
      rw [h2] at h2'; rw [h3] at h3'
      subst h2' h3'
      rcases hc with rfl | rfl
      · exact ⟨a, by simp, rfl⟩
      · exact ⟨b, by simp, rfl⟩
    · rintro ⟨f, hf, rfl⟩
      rcases List.mem_cons.1 hf with rfl | hf
      · exact ⟨_, b, hg, Or.inl rfl⟩
      · rw [List.mem_singleton] at hf
        subst hf
        exact ⟨a, _, hg, Or.inr rfl⟩

/-- The part of the claim that holds for AIGs: without registers and with less than 2^31 nodes and outputs, whatever the traversal marks are, the printed line has the numbers of
inputs, outputs and gates and the length of a longest path, and only marks change; so the same holds for all following calls. Missing from the full
statement: registers, see `C79_violated_register`. -/
theorem C79_aig_partial (N : Aig) (hN : Aig.Built N) (hpi : N.inputs.length = N.numPis) (hpo : N.outputs.length = N.numPos)
    (hsize : N.nodes.length < 2 ^ 31) (hout : N.outputs.length < 2 ^ 31) (vis : Nat → Nat) (trav fuel : Nat) (hv : ∀ n, vis n ≤ trav) (hf : N.nodes.length ≤ fuel) :
    ∃ (vis' : Nat → Nat) (gates depth : Nat), Count (fun n => ∃ a b, N.IsGate n a b) gates ∧ IsDepth (AndEdge N) (N.outputs.map (·.index)) depth ∧
      aigStats (withMarks N vis trav) fuel = some (⟨N.inputs.length, N.outputs.length, gates, depth⟩, withMarks N vis' (trav + 1)) ∧
      ∀ n, vis' n ≤ trav + 1 := by
  have hW := hN.wf
  have hvis : ∀ n, Topo.visOf (withMarks N vis trav) n ≤ trav := by
    intro n
    unfold Topo.visOf
    rw [withMarks_get]
    cases N.nodes[n]? with
    | none => exact Nat.zero_le _
    | some nd => exact hv n
  have hpos : ∀ f ∈ N.outputs.take N.numPos, f.index < N.nodes.length := fun f hf => hW.outputs f (List.mem_of_mem_take hf)
  obtain ⟨s, d, e, h1, h2⟩ := (aig_counts hN hpi).depth (N.outputs.take N.numPos) hpos (Topo.visOf (withMarks N vis trav)) trav fuel hvis
    (fun f hf' => lt_of_lt_of_le (hpos f hf') hf)
  have hd : Topo.depthView (withMarks N vis trav) false fuel = some (s, d) := by
    rw [← e]
    unfold Topo.depthView
    rw [show Topo.aigFanins (withMarks N vis trav) = Topo.aigFanins N from funext fun n => withMarks_fanins ..,
      show (fun n => n == 0 || (withMarks N vis trav).isPi n) = (fun n => n == 0 || N.isPi n) from funext fun n => by rw [withMarks_isPi]]
    rfl
  have htake : N.outputs.take N.numPos = N.outputs := by rw [← hpo, List.take_length]
  rw [htake] at h1
  refine ⟨s.vis, N.numGates, d, ⟨N.gates, ?_, hW.mem_gates, (Aig.gates_length hW).symm⟩, h1, ?_, h2⟩
  · exact (Aig.C06_topological N hN).2.2.imp fun h => Nat.ne_of_lt h
  · have hg : N.numGates < 2 ^ 31 := by
      rw [Aig.gates_length hW]
      have : N.gates.length ≤ N.nodes.length := by
        unfold Aig.gates
        exact le_trans (List.length_filter_le _ _) (by rw [List.length_range])
      omega
    have hi : N.numPis < 2 ^ 31 := by
      have := (Aig.C08_sizes N hN).2
      unfold Aig.size at this
      omega
    have hdd : d < 2 ^ 31 := by
      rcases h1.2 with h | ⟨o, ho, hc⟩
      · omega
      · obtain ⟨f, hf', rfl⟩ := List.mem_map.1 ho
        have := chain_le (E := AndEdge N) (fun n c ⟨a, b, hg, hc⟩ => by
          have := hW.isGate_lt hg
          rcases hc with rfl | rfl <;> omega) hc
        have := hW.outputs f hf'
        unfold Aig.Valid at this
        omega
    unfold aigStats
    rw [hd]
    dsimp only
    rw [withMarks_twice]
    show some ((⟨shown N.numPis, shown N.numPos, shown N.numGates, shown d⟩ : Line), _) = _
    rw [shown_eq hg, shown_eq hi, shown_eq hdd, shown_eq (by omega), hpi, hpo]
    rfl

/-! ### LUT networks -/

/-- The network with `k` more nodes that read nothing. -/
def grow (N : Klut) (k : Nat) : Klut := { N with nodes := N.nodes ++ List.replicate k { children := [], fn := 0 } }

theorem insert_known {c : TTCache} (h : c.Inv) {l : Nat} {t : TT} (ht : t.WF) (hl : c.lookup l = some t) : (c.insert t).1 = c := by
  obtain ⟨n1, n2, n3⟩ := TTCache.normal_spec t ht
  have : c.data[l / 2]? = some (if t.get 0 then t.not else t) := by
    unfold TTCache.lookup at hl
    split at hl
    · cases hl
    · rename_i u hu
      have hn := h.normal u (List.mem_of_getElem? hu)
      have hw := h.wf u (List.mem_of_getElem? hu)
      rw [hu]
      congr 1
      have hl' := Option.some.inj hl
      by_cases h2 : l % 2 = 1
      · rw [if_pos h2] at hl'
        have g0 : t.get 0 = true := by
          rw [← hl', TT.get_not (Nat.two_pow_pos _), hn]; rfl
        rw [if_pos g0, ← hl', TT.not_not hw]
      · rw [if_neg h2] at hl'
        subst hl'
        rw [hn]; rfl
  rw [TTCache.insert_stored c t (l / 2) ((h.find _ _).2 this)]

theorem inserts_known {c : TTCache} (h : c.Inv) : ∀ (ts : List TT), (∀ t ∈ ts, t.WF ∧ ∃ l, c.lookup l = some t) → c.inserts ts = c := by
  intro ts
  induction ts with
  | nil => intro _; rfl
  | cons t ts ih =>
    intro ht
    obtain ⟨hw, l, hl⟩ := ht t (List.mem_cons_self ..)
    rw [TTCache.inserts, insert_known h hw hl]
    exact ih fun u hu => ht u (List.mem_cons_of_mem _ hu)

theorem init_known : ∀ t ∈ Klut.initTables, ∃ l, (TTCache.empty.inserts Klut.initTables).lookup l = some t := by
  have h : (Klut.initTables.all fun t => (List.range 20).any fun l => decide ((TTCache.empty.inserts Klut.initTables).lookup l = some t)) = true := by
    decide +kernel
  intro t ht
  obtain ⟨l, _, hl⟩ := List.any_eq_true.1 (List.all_eq_true.1 h t ht)
  exact ⟨l, of_decide_eq_true hl⟩

theorem const_fn {N : Klut} (hN : Built N) : (N.nodes[0]?).map (·.fn) = some 0 ∧ (N.nodes[1]?).map (·.fn) = some 1 := by
  have lit : ∀ {N : Klut} (cs : List Nat) (lit : Nat), Built N → ((N.nodes[0]?).map (·.fn) = some 0 ∧ (N.nodes[1]?).map (·.fn) = some 1) →
      ((N.createLit cs lit).1.nodes[0]?).map (·.fn) = some 0 ∧ ((N.createLit cs lit).1.nodes[1]?).map (·.fn) = some 1 := by
    intro N cs lit hN ih
    have := hN.wf.len
    rw [Klut.createLit_get_lt _ _ _ _ (by omega), Klut.createLit_get_lt _ _ _ _ (by omega), Option.map_map, Option.map_map]
    exact ih
  have fo : ∀ {N : Klut} (f : Nat), ((N.nodes[0]?).map (·.fn) = some 0 ∧ (N.nodes[1]?).map (·.fn) = some 1) →
      ((Klut.incFo N.nodes f)[0]?).map (·.fn) = some 0 ∧ ((Klut.incFo N.nodes f)[1]?).map (·.fn) = some 1 := by
    intro N f ih
    rw [Klut.incFo_get, Klut.incFo_get, Option.map_map, Option.map_map]
    exact ih
  have app : ∀ {N : Klut} (b : KNode), Built N → ((N.nodes[0]?).map (·.fn) = some 0 ∧ (N.nodes[1]?).map (·.fn) = some 1) →
      ((N.nodes ++ [b])[0]?).map (·.fn) = some 0 ∧ ((N.nodes ++ [b])[1]?).map (·.fn) = some 1 := by
    intro N b hN ih
    have := hN.wf.len
    rw [List.getElem?_append_left (by omega), List.getElem?_append_left (by omega)]
    exact ih
  induction hN with
  | empty => exact ⟨rfl, rfl⟩
  | pi hN ih => exact app _ hN ih
  | ro hN ih => exact app _ hN ih
  | po hN _ ih => exact fo _ ih
  | ri hN _ ih => exact fo _ ih
  | @node N cs f hN _ _ _ ih =>
    unfold Klut.createNode
    split
    · exact ih
    · have := hN.wf.len
      dsimp only
      rw [Klut.createLit_get_lt _ _ _ _ (by dsimp only; omega), Klut.createLit_get_lt _ _ _ _ (by dsimp only; omega), Option.map_map, Option.map_map]
      exact ih
  | not hN _ ih => exact lit _ _ hN ih
  | and hN _ _ ih => exact lit _ _ hN ih
  | or hN _ _ ih => exact lit _ _ hN ih
  | lt hN _ _ ih => exact lit _ _ hN ih
  | le hN _ _ ih => exact lit _ _ hN ih
  | xor hN _ _ ih => exact lit _ _ hN ih
  | maj hN _ _ _ ih => exact lit _ _ hN ih
  | ite hN _ _ _ ih => exact lit _ _ hN ih
  | xor3 hN _ _ _ ih => exact lit _ _ hN ih

theorem setFn_same {l : List KNode} {i lit : Nat} (h : (l[i]?).map (·.fn) = some lit) : setFn l i lit = l := by
  apply List.ext_getElem?
  intro n
  rw [setFn, List.getElem?_modify]
  by_cases hn : i = n
  · subst hn
    obtain ⟨nd, h1, h2⟩ := Option.map_eq_some_iff.1 h
    rw [h1, ← h2]; simp
  · simp [hn]

theorem grow_zero (N : Klut) : grow N 0 = N := by simp [grow]

theorem grow_lt {N : Klut} {k n : Nat} (h : n < N.nodes.length) : (grow N k).nodes[n]? = N.nodes[n]? :=
  List.getElem?_append_left h

theorem grow_new {N : Klut} {k n : Nat} (h : N.nodes.length ≤ n) (nd : KNode) (hn : (grow N k).nodes[n]? = some nd) :
    n < N.nodes.length + k ∧ nd = { children := [], fn := 0 } := by
  unfold grow at hn
  dsimp only at hn
  rw [List.getElem?_append_right h, List.getElem?_replicate] at hn
  split at hn
  · cases hn; exact ⟨by omega, rfl⟩
  · cases hn

theorem grow_new' {N : Klut} {k n : Nat} (h : N.nodes.length ≤ n) (h' : n < N.nodes.length + k) :
    (grow N k).nodes[n]? = some { children := [], fn := 0 } := by
  unfold grow
  dsimp only
  rw [List.getElem?_append_right h, List.getElem?_replicate, if_pos (by omega)]

/-- Constructing a network from the storage appends one node and changes nothing else. -/
theorem reinit_grow {N : Klut} (hN : Built N) (k : Nat) : reinit (grow N k) = grow N (k + 1) := by
  have hW := hN.wf
  have hlen := hW.len
  have h0 := const_fn hN
  have hc : (grow N k).cache.inserts Klut.initTables = N.cache :=
    inserts_known hW.cache _ fun t ht => ⟨by
      obtain ⟨l, hl⟩ := init_known t ht
      have := hW.tables l t hl
      unfold TTCache.lookup at this
      split at this
      · cases this
      · rename_i u hu
        cases this
        split
        · exact TT.wf_not _
        · exact hW.cache.wf _ (List.mem_of_getElem? hu), by
      obtain ⟨l, hl⟩ := init_known t ht
      exact ⟨l, hW.tables l t hl⟩⟩
  have hn : (grow N k).nodes ++ [{ children := [], fn := 0 }] = (grow N (k + 1)).nodes := by
    unfold grow
    dsimp only
    rw [List.append_assoc, ← List.replicate_succ']
  have e0 : ((grow N (k + 1)).nodes[0]?).map (·.fn) = some 0 := by rw [grow_lt (by omega)]; exact h0.1
  have e1 : ((grow N (k + 1)).nodes[1]?).map (·.fn) = some 1 := by rw [grow_lt (by omega)]; exact h0.2
  unfold reinit
  rw [hc, hn, setFn_same e0, setFn_same e1]
  rfl

theorem grow_isLut {N : Klut} (hN : Built N) (k n : Nat) (cs : List Nat) (f : TT) :
    (grow N k).IsLut n cs f ↔ N.IsLut n cs f ∨ (N.nodes.length ≤ n ∧ n < N.nodes.length + k ∧ cs = [] ∧ f = Klut.ofWord 0 0) := by
  have hW := hN.wf
  have hlen := hW.len
  have h0 : N.cache.lookup 0 = some (Klut.ofWord 0 0) := hW.tables _ _ (by decide +kernel)
  constructor
  · rintro ⟨h1, h2, nd, h3, h4, h5⟩
    by_cases hn : n < N.nodes.length
    · rw [grow_lt hn] at h3
      exact Or.inl ⟨h1, h2, nd, h3, h4, h5⟩
    · obtain ⟨g1, g2⟩ := grow_new (by omega) nd h3
      subst g2
      have h5' : N.cache.lookup 0 = some f := h5
      rw [h0] at h5'
      exact Or.inr ⟨by omega, g1, h4.symm, (Option.some.inj h5').symm⟩
  · rintro (⟨h1, h2, nd, h3, h4, h5⟩ | ⟨h1, h2, rfl, rfl⟩)
    · exact ⟨h1, h2, nd, by rw [grow_lt (Klut.lt_of_get h3)]; exact h3, h4, h5⟩
    · refine ⟨by omega, fun hm => ?_, _, grow_new' h1 h2, rfl, h0⟩
      have := (hW.inputs n hm).2
      omega

theorem grow_isCi {N : Klut} {k n : Nat} (h : n < N.nodes.length) : (grow N k).isCi n = N.isCi n := by
  unfold Klut.isCi
  rw [grow_lt h]

theorem grow_isPi {N : Klut} {k n : Nat} (h : n < N.nodes.length) : (grow N k).isPi n = N.isPi n := by
  unfold Klut.isPi
  rw [grow_lt h]

theorem lut_counts {N : Klut} (hN : Built N) (hpi : N.inputs.length = N.numPis) (k : Nat) :
    Counts ⟨lutFanins (grow N k), fun n => Klut.isConstant n || (grow N k).isPi n, fun _ => 1, false⟩ (LutEdge N) (fun n => n < N.nodes.length) := by
  have hW := hN.wf
  have hterm : ∀ n, n < N.nodes.length → ((Klut.isConstant n || (grow N k).isPi n) = true ↔ n < 2 ∨ n ∈ N.inputs) := by
    intro n hn
    rw [grow_isPi hn, Bool.or_eq_true]
    constructor
    · rintro (h | h)
      · unfold Klut.isConstant at h
        have := of_decide_eq_true h
        left; omega
      · exact Or.inr (Io.isPi_mem hN h)
    · rintro (h | h)
      · left
        unfold Klut.isConstant
        exact decide_eq_true (by omega)
      · exact Or.inr ((Io.isPi_of_numPis hN).2 hpi n h)
  have hfan : ∀ n, n < N.nodes.length → (Klut.isConstant n || (grow N k).isPi n) = false →
      ∃ cs f, N.IsLut n cs f ∧ cs ≠ [] ∧ (∀ c ∈ cs, c < n) ∧ lutFanins (grow N k) n = cs.map fun c => ⟨c, false⟩ := by
    intro n hn ht
    have ht' : ¬ (n < 2 ∨ n ∈ N.inputs) := by rw [← hterm n hn, ht]; simp
    rw [not_or] at ht'
    obtain ⟨nd, hnd⟩ : ∃ nd, N.nodes[n]? = some nd := ⟨_, List.getElem?_eq_getElem hn⟩
    obtain ⟨g1, g2, f, g3, _⟩ := hW.gate n nd hnd (by omega) ht'.2
    refine ⟨nd.children, f, ⟨by omega, ht'.2, nd, hnd, rfl, g3⟩, g1, g2, ?_⟩
    unfold lutFanins Klut.fanins
    rw [grow_isCi hn, grow_lt hn, hnd, if_neg]
    · rfl
    · rintro (h | h)
      · omega
      · exact ht'.2 (Io.isCi_mem hN h)
  refine ⟨fun _ => rfl, rfl, ?_, ?_, ?_, ?_, ?_⟩
  · intro n f ht hf
    by_cases hn : n < N.nodes.length
    · obtain ⟨cs, g, _, _, hlt, e⟩ := hfan n hn ht
      dsimp only at hf
      rw [e] at hf
      obtain ⟨c, hc, rfl⟩ := List.mem_map.1 hf
      exact hlt c hc
    · exfalso
      dsimp only at hf
      unfold lutFanins Klut.fanins at hf
      split at hf
      · rename_i cs hcs
        split at hcs
        · cases hcs; simp at hf
        · obtain ⟨nd, h1, h2⟩ := Option.map_eq_some_iff.1 hcs
          obtain ⟨_, rfl⟩ := grow_new (by omega) nd h1
          subst h2
          simp at hf
      · simp at hf
  · rintro n c hn ⟨cs, f, hl, hc⟩
    obtain ⟨h1, h2, nd, h3, h4, _⟩ := hl
    have := (hW.gate n nd h3 h1 h2).2.1 c (by rw [h4]; exact hc)
    omega
  · rintro n hn ht c ⟨cs, f, hl, _⟩
    rcases (hterm n hn).1 ht with h | h
    · have := hl.1; omega
    · exact hl.2.1 h
  · intro n hn ht
    obtain ⟨cs, f, _, h0, _, e⟩ := hfan n hn ht
    dsimp only
    rw [e]
    simpa using h0
  · intro n hn ht c
    obtain ⟨cs, f, hl, _, _, e⟩ := hfan n hn ht
    dsimp only
    rw [e]
    constructor
    · rintro ⟨cs', f', hl', hc⟩
      obtain ⟨_, _, nd, h1, h2, _⟩ := hl
      obtain ⟨_, _, nd', h1', h2', _⟩ := hl'
      rw [h1] at h1'; cases h1'
      rw [h2] at h2'
      subst h2'
      exact ⟨_, List.mem_map_of_mem hc, rfl⟩
    · rintro ⟨g, hg, rfl⟩
      obtain ⟨c, hc, rfl⟩ := List.mem_map.1 hg
      exact ⟨cs, f, hl, hc⟩

/-- the number of LUTs -/
theorem count_luts {N : Klut} (hN : Built N) : ∃ a, Count (fun n => ∃ cs f, N.IsLut n cs f) a ∧ a + N.inputs.length + 2 = N.nodes.length := by
  have hW := hN.wf
  have hlen := hW.len
  let l := (List.range N.nodes.length).filter fun n => decide (2 ≤ n ∧ n ∉ N.inputs)
  have hl : ∀ n, n ∈ l ↔ n < N.nodes.length ∧ 2 ≤ n ∧ n ∉ N.inputs := by
    intro n
    simp only [l, List.mem_filter, List.mem_range, decide_eq_true_eq]
  have hnd : l.Nodup := List.nodup_range.filter _
  refine ⟨l.length, ⟨l, hnd, ?_, rfl⟩, ?_⟩
  · intro n
    rw [hl]
    constructor
    · rintro ⟨h1, h2, h3⟩
      obtain ⟨nd, hnd⟩ : ∃ nd, N.nodes[n]? = some nd := ⟨_, List.getElem?_eq_getElem h1⟩
      obtain ⟨_, _, f, g, _⟩ := hW.gate n nd hnd h2 h3
      exact ⟨nd.children, f, h2, h3, nd, hnd, rfl, g⟩
    · rintro ⟨cs, f, h1, h2, nd, h3, _⟩
      exact ⟨Klut.lt_of_get h3, h1, h2⟩
  · have hp : (l ++ N.inputs ++ [0, 1]).Perm (List.range N.nodes.length) := by
      refine (List.perm_ext_iff_of_nodup ?_ List.nodup_range).2 ?_
      · rw [List.nodup_append, List.nodup_append]
        refine ⟨⟨hnd, hW.inputsNodup, ?_⟩, by decide, ?_⟩
        · intro a ha b hb e
          subst e
          exact ((hl a).1 ha).2.2 hb
        · intro a ha b hb e
          subst e
          have h2 : 2 ≤ a := by
            rcases List.mem_append.1 ha with h | h
            · exact ((hl a).1 h).2.1
            · exact (hW.inputs a h).1
          simp at hb
          omega
      · intro n
        simp only [List.mem_append, hl, List.mem_range, List.mem_cons, List.not_mem_nil, or_false]
        constructor
        · rintro ((h | h) | h)
          · exact h.1
          · exact (hW.inputs n h).2
          · omega
        · intro h
          by_cases h2 : n < 2
          · right; omega
          · left
            by_cases hi : n ∈ N.inputs
            · exact Or.inr hi
            · exact Or.inl ⟨h, by omega, hi⟩
    have := hp.length_eq
    simp only [List.length_append, List.length_range, List.length_cons, List.length_nil] at this
    omega

theorem depth_unique {E : Nat → Nat → Prop} {roots : List Nat} {d d' : Nat} (h : IsDepth E roots d) (h' : IsDepth E roots d') : d = d' := by
  have key : ∀ {d d' : Nat}, IsDepth E roots d → IsDepth E roots d' → d ≤ d' := by
    intro d d' h h'
    rcases h.2 with e | ⟨o, ho, hc⟩
    · omega
    · exact h'.1 o ho d hc
  exact Nat.le_antisymm (key h h') (key h' h)

theorem lutStats_grow {N : Klut} (hN : Built N) (hpi : N.inputs.length = N.numPis) (hpo : N.outputs.length = N.numPos) (k : Nat)
    (hsize : N.nodes.length + k + 1 < 2 ^ 31) (hout : N.outputs.length < 2 ^ 31) (vis : Nat → Nat) (trav fuel : Nat) (hv : ∀ n, vis n ≤ trav)
    (hf : N.nodes.length ≤ fuel) {a : Nat} (ha : a + N.inputs.length + 2 = N.nodes.length) :
    ∃ (vis' : Nat → Nat) (d : Nat), lutStats ⟨grow N k, vis, trav⟩ fuel = some (⟨N.inputs.length, N.outputs.length, (a + k + 1 : Nat), d⟩, ⟨grow N (k + 1), vis', trav + 1⟩) ∧
      IsDepth (LutEdge N) N.outputs d ∧ ∀ n, vis' n ≤ trav + 1 := by
  have hW := hN.wf
  have hout' : ∀ f ∈ (N.outputs.take N.numPos).map (fun o => (⟨o, false⟩ : Sig)), f.index < N.nodes.length := by
    intro f hf
    obtain ⟨o, ho, rfl⟩ := List.mem_map.1 hf
    exact hW.outputs o (List.mem_of_mem_take ho)
  obtain ⟨s, d, e, h1, h2⟩ := (lut_counts hN hpi (k + 1)).depth ((N.outputs.take N.numPos).map fun o => ⟨o, false⟩) hout'
    (Topo.upd vis (grow N k).nodes.length 0) trav fuel (by
      intro n
      unfold Topo.upd
      split
      · exact Nat.zero_le _
      · exact hv n) (fun f hf' => lt_of_lt_of_le (hout' f hf') hf)
  have hmap : ((N.outputs.take N.numPos).map fun o => (⟨o, false⟩ : Sig)).map (·.index) = N.outputs := by
    rw [List.map_map, ← hpo, List.take_length]
    exact List.map_id' _
  rw [hmap] at h1
  have hd : d < 2 ^ 31 := by
    rcases h1.2 with h | ⟨o, ho, hc⟩
    · omega
    · have := chain_le (E := LutEdge N) (fun n c ⟨cs, f, hl, hc⟩ => by
        obtain ⟨g1, g2, nd, g3, g4, _⟩ := hl
        exact (hW.gate n nd g3 g1 g2).2.1 c (by rw [g4]; exact hc)) hc
      have := hW.outputs o ho
      omega
  have hl : lutDepth ⟨grow N (k + 1), Topo.upd vis (grow N k).nodes.length 0, trav⟩ fuel = some (s, d) := e
  refine ⟨s.vis, d, ?_, h1, h2⟩
  unfold lutStats
  dsimp only
  rw [reinit_grow hN, hl]
  dsimp only
  have hg : (grow N (k + 1)).numGates = a + k + 1 := by
    unfold Klut.numGates grow
    dsimp only
    rw [List.length_append, List.length_replicate]
    omega
  rw [hg]
  show some ((⟨shown N.numPis, shown N.numPos, shown (a + k + 1), shown d⟩ : Line), _) = _
  rw [shown_eq (n := a + k + 1) (by omega), shown_eq hd, ← hpi, ← hpo, shown_eq hout, shown_eq (by omega)]

theorem run_grow {N : Klut} (hN : Built N) (hpi : N.inputs.length = N.numPis) (hpo : N.outputs.length = N.numPos) (hout : N.outputs.length < 2 ^ 31)
    (fuel : Nat) (hf : N.nodes.length ≤ fuel) {a d : Nat} (ha : a + N.inputs.length + 2 = N.nodes.length) (hd : IsDepth (LutEdge N) N.outputs d) :
    ∀ (cs : List Cmd) (k : Nat) (vis : Nat → Nat) (trav : Nat), N.nodes.length + k + cs.length < 2 ^ 31 → (∀ n, vis n ≤ trav) →
      ∃ ls vis' trav', run fuel cs ⟨grow N k, vis, trav⟩ = some (ls, ⟨grow N (k + cs.count .print), vis', trav'⟩) ∧
        ls.length = cs.count .print ∧
        ∀ (i : Nat) l, ls[i]? = some l → l = ⟨N.inputs.length, N.outputs.length, (a + k + i + 1 : Nat), d⟩ := by
  intro cs
  induction cs with
  | nil => intro k vis trav _ _; exact ⟨[], vis, trav, rfl, rfl, by simp⟩
  | cons c cs ih =>
    intro k vis trav hs hv
    rw [List.length_cons] at hs
    cases c with
    | write =>
      obtain ⟨ls, vis', trav', h1, h2, h3⟩ := ih k vis trav (by omega) hv
      exact ⟨ls, vis', trav', by simpa [run] using h1, by simpa using h2, h3⟩
    | print =>
      obtain ⟨v1, d', e1, hd', hv1⟩ := lutStats_grow hN hpi hpo k (by omega) hout vis trav fuel hv hf ha
      cases depth_unique hd hd'
      obtain ⟨ls, vis', trav', h1, h2, h3⟩ := ih (k + 1) v1 (trav + 1) (by omega) hv1
      refine ⟨⟨N.inputs.length, N.outputs.length, (a + k + 1 : Nat), d⟩ :: ls, vis', trav', ?_, by simp [h2], ?_⟩
      · rw [run, e1]
        dsimp only
        rw [h1, List.count_cons_self, show k + 1 + cs.count .print = k + (cs.count .print + 1) by omega]
        rfl
      · intro i l hl
        cases i with
        | zero => cases hl; rfl
        | succ i =>
          rw [List.getElem?_cons_succ] at hl
          rw [h3 i l hl, show a + (k + 1) + i + 1 = a + k + (i + 1) + 1 by omega]

/-- What the command prints for LUT networks without registers: in any session the numbers of inputs and outputs and the length of a longest path are right; the
number of LUTs is too large by the number of times it was printed, counting this time. The sum of sizes is to be below 2^31. Missing from the full statement:
the right number (`C79_violated`) and registers. -/
theorem C79_lut_exact_partial (N : Klut) (hN : Built N) (hpi : N.inputs.length = N.numPis) (hpo : N.outputs.length = N.numPos) (cs : List Cmd)
    (hsize : N.nodes.length + cs.length < 2 ^ 31) (hout : N.outputs.length < 2 ^ 31) (vis : Nat → Nat) (trav fuel : Nat) (hv : ∀ n, vis n ≤ trav)
    (hf : N.nodes.length ≤ fuel) :
    ∃ (ls : List Line) (s : Lut) (luts depth : Nat), run fuel cs ⟨N, vis, trav⟩ = some (ls, s) ∧ Count (fun n => ∃ cs f, N.IsLut n cs f) luts ∧ IsDepth (LutEdge N) N.outputs depth ∧
      ls.length = cs.count .print ∧ ∀ (i : Nat) l, ls[i]? = some l → l = ⟨N.inputs.length, N.outputs.length, (luts + i + 1 : Nat), depth⟩ := by
  obtain ⟨a, hc, ha⟩ := count_luts hN
  have hd : ∃ d, IsDepth (LutEdge N) N.outputs d := by
    by_cases h : N.nodes.length + 0 + 1 < 2 ^ 31
    · obtain ⟨_, d, _, hd, _⟩ := lutStats_grow hN hpi hpo 0 h hout vis trav fuel hv hf ha
      exact ⟨d, hd⟩
    · have hout' : ∀ f ∈ N.outputs.map (fun o => (⟨o, false⟩ : Sig)), f.index < N.nodes.length := by
        intro f hf
        obtain ⟨o, ho, rfl⟩ := List.mem_map.1 hf
        exact hN.wf.outputs o ho
      obtain ⟨_, d, _, hd, _⟩ := (lut_counts hN hpi 0).depth _ hout' vis trav fuel hv (fun f hf' => lt_of_lt_of_le (hout' f hf') hf)
      rw [List.map_map] at hd
      exact ⟨d, by simpa [Function.comp_def] using hd⟩
  obtain ⟨d, hd⟩ := hd
  obtain ⟨ls, vis', trav', h1, h2, h3⟩ := run_grow hN hpi hpo hout fuel hf ha hd cs 0 vis trav (by omega) hv
  rw [grow_zero] at h1
  exact ⟨ls, _, a, d, h1, hc, hd, h2, h3⟩

/-- The part of the claim about changes that holds: after any session the stored network has the same inputs and outputs, every valuation of it is one of the network
before, and every valuation of the network before extends to it; so all outputs keep their functions. Missing from the full statement: the network is not the
same (`C79_violated`), and registers. -/
theorem C79_function_partial (N : Klut) (hN : Built N) (hpi : N.inputs.length = N.numPis) (hpo : N.outputs.length = N.numPos) (cs : List Cmd)
    (hsize : N.nodes.length + cs.length < 2 ^ 31) (hout : N.outputs.length < 2 ^ 31) (vis : Nat → Nat) (trav fuel : Nat) (hv : ∀ n, vis n ≤ trav)
    (hf : N.nodes.length ≤ fuel) :
    ∃ ls s, run fuel cs ⟨N, vis, trav⟩ = some (ls, s) ∧ s.net.inputs = N.inputs ∧ s.net.outputs = N.outputs ∧
      (∀ x v, Consistent s.net x v → Consistent N x v) ∧
      ∀ x v, Consistent N x v → ∃ w, Consistent s.net x w ∧ ∀ n, n < N.nodes.length → w n = v n := by
  obtain ⟨a, hc, ha⟩ := count_luts hN
  obtain ⟨_, _, _, d, _, _, hd, _⟩ := C79_lut_exact_partial N hN hpi hpo cs hsize hout vis trav fuel hv hf
  obtain ⟨ls, vis', trav', h1, h2, h3⟩ := run_grow hN hpi hpo hout fuel hf ha hd cs 0 vis trav (by omega) hv
  rw [grow_zero] at h1
  refine ⟨ls, _, h1, rfl, rfl, ?_, ?_⟩
  · intro x v h
    exact ⟨h.const0, h.const1, h.input, fun n cs f hl => h.lut n cs f ((grow_isLut hN _ n cs f).2 (Or.inl hl))⟩
  · intro x v h
    have hW := hN.wf
    have hlen := hW.len
    refine ⟨fun n => if n < N.nodes.length then v n else false, ⟨?_, ?_, ?_, ?_⟩, fun n hn => if_pos hn⟩
    · rw [if_pos (by omega)]; exact h.const0
    · rw [if_pos (by omega)]; exact h.const1
    · intro j n hj
      rw [if_pos (hW.inputs n (List.mem_of_getElem? hj)).2]
      exact h.input j n hj
    · intro n cs f hl
      rcases (grow_isLut hN _ n cs f).1 hl with hl | ⟨g1, _, rfl, rfl⟩
      · have hn := Klut.lt_of_get hl.2.2.choose_spec.1
        rw [if_pos hn, h.lut n cs f hl]
        congr 1
        apply Klut.args_congr
        intro c hc
        obtain ⟨k1, k2, nd, k3, k4, _⟩ := hl
        have := (hW.gate n nd k3 k1 k2).2.1 c (by rw [k4]; exact hc)
        rw [if_pos (by omega)]
      · rw [if_neg (by omega)]
        rfl

/-! ### what is written afterwards -/

theorem writeLuts_append {N : Klut} {m : Nat → Option Io.Text} : ∀ (l1 l2 w : List Nat) (k : Nat) (r1 r2 : List Io.LutInst) (w1 w2 : List Nat),
    Io.writeLuts N m l1 w k = some (r1, w1) → Io.writeLuts N m l2 w1 (k + r1.length) = some (r2, w2) →
    Io.writeLuts N m (l1 ++ l2) w k = some (r1 ++ r2, w2) := by
  intro l1
  induction l1 with
  | nil => intro l2 w k r1 r2 w1 w2 h1 h2; cases h1; exact h2
  | cons n l1 ih =>
    intro l2 w k r1 r2 w1 w2 h1 h2
    rw [List.cons_append]
    rw [Io.writeLuts] at h1 ⊢
    split at h1
    · rename_i hc
      rw [if_pos hc]
      exact ih _ _ _ _ _ _ _ h1 h2
    · rename_i hc
      rw [if_neg hc]
      split at h1
      · rename_i f cs hf hcs
        split at h1
        · cases h1
        · rename_i r ws hr
          cases h1
          rw [ih l2 _ _ r r2 _ w2 hr (by rw [← h2]; congr 1; rw [List.length_cons]; omega)]
          rfl
      · cases h1

theorem writeLuts_grow {N : Klut} {m : Nat → Option Io.Text} (j : Nat) : ∀ (l w : List Nat) (k : Nat), (∀ n ∈ l, n < N.nodes.length) →
    Io.writeLuts (grow N j) m l w k = Io.writeLuts N m l w k := by
  intro l
  induction l with
  | nil => intro w k _; rfl
  | cons n l ih =>
    intro w k hl
    have hn := hl n (List.mem_cons_self ..)
    have hf : (grow N j).nodeFunction n = N.nodeFunction n := by
      unfold Klut.nodeFunction
      rw [grow_lt hn]
      rfl
    have hk : (grow N j).fanins n = N.fanins n := by
      unfold Klut.fanins
      rw [grow_isCi hn, grow_lt hn]
    rw [Io.writeLuts, Io.writeLuts, grow_isPi hn, hf, hk, ih _ _ (fun n hn => hl n (List.mem_cons_of_mem _ hn)),
      ih _ _ (fun n hn => hl n (List.mem_cons_of_mem _ hn))]

/-- The LUTs that are written for appended nodes. -/
def extraLuts (first node k : Nat) : List Io.LutInst :=
  (List.range k).map fun i => ⟨Io.instName (first + i), 1, "0".toList, [], Io.wrapped 'w' (node + i)⟩

theorem writeLuts_new {N : Klut} (hN : Built N) {m : Nat → Option Io.Text} (j : Nat) : ∀ (k i : Nat) (w : List Nat) (q : Nat), i + k ≤ j →
    Io.writeLuts (grow N j) m (List.range' (N.nodes.length + i) k) w q =
      some (extraLuts q (N.nodes.length + i) k, w ++ List.range' (N.nodes.length + i) k) := by
  intro k
  induction k with
  | zero => intro i w q _; simp [Io.writeLuts, extraLuts]
  | succ k ih =>
    intro i w q hi
    have hlen := hN.wf.len
    have hg : (grow N j).nodes[N.nodes.length + i]? = some { children := [], fn := 0 } := grow_new' (by omega) (by omega)
    have hf : (grow N j).nodeFunction (N.nodes.length + i) = some (Klut.ofWord 0 0) := by
      unfold Klut.nodeFunction
      rw [hg]
      exact hN.wf.tables _ _ (by decide +kernel)
    have hci : (grow N j).isCi (N.nodes.length + i) = false := by
      unfold Klut.isCi; rw [hg]; rfl
    have hpi : (grow N j).isPi (N.nodes.length + i) = false := by
      unfold Klut.isPi; rw [hg]; rfl
    have hk : (grow N j).fanins (N.nodes.length + i) = some [] := by
      unfold Klut.fanins
      rw [hci, hg, if_neg (by simp only [Bool.false_eq_true, or_false]; omega)]
      rfl
    rw [List.range'_succ, Io.writeLuts, if_neg, hf, hk]
    · dsimp only
      rw [show N.nodes.length + i + 1 = N.nodes.length + (i + 1) by omega, ih (i + 1) _ _ (by omega)]
      dsimp only
      congr 2
      · unfold extraLuts
        rw [List.range_succ_eq_map, List.map_cons, List.map_map]
        have e0 : Io.toHex (Klut.ofWord 0 0) = "0".toList := by decide +kernel
        rw [e0]
        congr 1
        apply List.map_congr_left
        intro b _
        simp only [Function.comp]
        rw [show q + 1 + b = q + (b + 1) by omega, show N.nodes.length + (i + 1) + b = N.nodes.length + i + (b + 1) by omega]
      · rw [List.append_assoc]
        rfl
    · rw [hpi]
      unfold Klut.isConstant
      rintro (h | h)
      · have := of_decide_eq_true h; omega
      · cases h

theorem writeAssigns_grow {N : Klut} {ys : List Io.Text} {m : Nat → Option Io.Text} (j : Nat) : ∀ (l : List Nat) (i : Nat), (∀ n ∈ l, n < N.nodes.length) →
    Io.writeAssigns (grow N j) ys m i l = Io.writeAssigns N ys m i l := by
  intro l
  induction l with
  | nil => intro i _; rfl
  | cons s l ih =>
    intro i hl
    rw [Io.writeAssigns, Io.writeAssigns, ih _ fun n hn => hl n (List.mem_cons_of_mem _ hn), grow_isPi (hl s (List.mem_cons_self ..))]

/-- What `write_fpga` writes after a session: the netlist of the network itself and, for every time the numbers were printed, a LUT without pins whose output nothing
reads. The hypotheses are those of `C79_lut_exact_partial`. -/
theorem C79_netlist_partial (N : Klut) (hN : Built N) (hpi : N.inputs.length = N.numPis) (hpo : N.outputs.length = N.numPos) (cs : List Cmd)
    (hsize : N.nodes.length + cs.length < 2 ^ 31) (hout : N.outputs.length < 2 ^ 31) (vis : Nat → Nat) (trav fuel : Nat) (hv : ∀ n, vis n ≤ trav)
    (hf : N.nodes.length ≤ fuel) (ps : Io.Params) (M : Io.LutModule) (hM : Io.writeLut ps N = some M) :
    ∃ ls s, run fuel cs ⟨N, vis, trav⟩ = some (ls, s) ∧
      Io.writeLut ps s.net = some { M with
        wires := M.wires ++ (List.range (cs.count .print)).map (fun i => Io.wrapped 'w' (N.nodes.length + i))
        luts := M.luts ++ (List.range (cs.count .print)).map fun i =>
          ⟨Io.instName (M.luts.length + i), 1, "0".toList, [], Io.wrapped 'w' (N.nodes.length + i)⟩ } := by
  obtain ⟨a, hc, ha⟩ := count_luts hN
  obtain ⟨_, _, _, d, _, _, hd, _⟩ := C79_lut_exact_partial N hN hpi hpo cs hsize hout vis trav fuel hv hf
  obtain ⟨ls, vis', trav', h1, h2, h3⟩ := run_grow hN hpi hpo hout fuel hf ha hd cs 0 vis trav (by omega) hv
  rw [grow_zero, Nat.zero_add] at h1
  refine ⟨ls, _, h1, ?_⟩
  dsimp only
  generalize cs.count .print = k
  unfold Io.writeLut at hM ⊢
  dsimp only at hM ⊢
  show (match Io.piMap (Io.lutInputTexts ps N) 0 (N.inputs.take N.numPis) (fun _ => none) with
    | none => none
    | some m =>
      match Io.writeLuts (grow N k) m (List.range (grow N k).nodes.length) [] 0 with
      | none => none
      | some (luts, wires) =>
        match Io.writeAssigns (grow N k) (Io.lutOutputTexts ps N) m 0 (N.outputs.take N.numPos) with
        | none => none
        | some as => some (⟨Io.header (Io.lutInputTexts ps N) (Io.lutOutputTexts ps N), Io.lutInputTexts ps N, Io.lutOutputTexts ps N, wires.map (Io.wrapped 'w'), luts, as⟩ : Io.LutModule)) = _
  split at hM
  · cases hM
  · rename_i m hm
    rw [hm]
    dsimp only
    split at hM
    · cases hM
    · rename_i luts wires hw
      split at hM
      · cases hM
      · rename_i as has
        cases hM
        have hl : (grow N k).nodes.length = N.nodes.length + k := by simp [grow]
        have hr : List.range (N.nodes.length + k) = List.range N.nodes.length ++ List.range' (N.nodes.length + 0) k := by
          rw [Nat.add_zero, List.range_eq_range', List.range_eq_range', ← List.range'_append_1, Nat.zero_add]
        rw [hl, hr, writeLuts_append _ _ _ _ luts _ wires _ (by rw [writeLuts_grow k _ _ _ (fun n hn => List.mem_range.1 hn)]; exact hw)
          (writeLuts_new hN k k 0 wires (0 + luts.length) (by omega))]
        dsimp only
        rw [writeAssigns_grow k _ _ (fun n hn => hN.wf.outputs n (List.mem_of_mem_take hn)), has]
        dsimp only
        rw [List.map_append, Nat.zero_add, Nat.add_zero]
        congr 3
        rw [List.range'_eq_map_range, List.map_map]
        rfl

/-! ### cases -/

/-- Two inputs, their AND and its complement, both outputs. -/
def lPair : Klut := ((((Klut.empty.createPi.1.createPi.1).createAnd 2 3).1.createNot 4).1.createPo 4).createPo 5

theorem lPair_built : Built lPair :=
  .po (.po (.not (.and (.pi (.pi .empty)) (by decide +kernel) (by decide +kernel)) (by decide +kernel)) (by decide +kernel)) (by decide +kernel)

/-- The hypotheses of the theorems on LUT networks hold, and the lines of a session are: 3, 4 and 5 LUTs instead of 2. -/
example : lPair.inputs.length = lPair.numPis ∧ lPair.outputs.length = lPair.numPos ∧
    (run 6 [.print, .write, .print, .print] ⟨lPair, fun _ => 0, 0⟩).map (·.1) = some [⟨2, 2, 3, 2⟩, ⟨2, 2, 4, 2⟩, ⟨2, 2, 5, 2⟩] := by
  decide +kernel

/-- The netlist written at the end has two LUTs without pins. -/
example : ((run 6 [.print, .print] ⟨lPair, fun _ => 0, 0⟩).bind fun r => Io.writeLut ⟨[], []⟩ r.2.net).map (fun M => M.luts.map fun l => (l.name, l.pins.length, l.out)) =
    some [("name0".toList, 2, "_w4_".toList), ("name1".toList, 1, "_w5_".toList), ("name2".toList, 0, "_w6_".toList), ("name3".toList, 0, "_w7_".toList)] := by
  decide +kernel

/-- An AIG with two gates and a complemented output. -/
def aPair : Aig := (((Aig.empty.createPi.1.createPi.1.createAnd ⟨1, false⟩ ⟨2, false⟩).1.createAnd ⟨3, true⟩ ⟨1, false⟩).1.createPo ⟨4, true⟩).createPo ⟨3, false⟩

theorem aPair_built : Aig.Built aPair :=
  .po (.po (.and (.and (.pi (.pi .empty)) (by decide) (by decide)) (by decide) (by decide)) (by decide)) (by decide)

/-- The hypotheses of `C79_aig_partial` hold for it, also after the line was printed; the line is the same the second time. -/
example : aPair.inputs.length = aPair.numPis ∧ aPair.outputs.length = aPair.numPos ∧ (aigStats aPair 5).map (·.1) = some ⟨2, 2, 2, 2⟩ ∧
    ((aigStats aPair 5).bind fun r => aigStats r.2 5).map (·.1) = some ⟨2, 2, 2, 2⟩ := by decide +kernel

/-- The claim fails for LUT networks: already the first line shows one LUT too many, and the stored network has one more node. -/
theorem C79_violated : ∃ (N : Klut) (l : Line) (s : Lut), Built N ∧ N.inputs.length = N.numPis ∧ N.outputs.length = N.numPos ∧
    lutStats ⟨N, fun _ => 0, 0⟩ 6 = some (l, s) ∧ Count (fun n => ∃ cs f, N.IsLut n cs f) 2 ∧ l.area = 3 ∧ s.net.nodes.length = N.nodes.length + 1 := by
  obtain ⟨vis', d, h, _⟩ := lutStats_grow lPair_built (by decide +kernel) (by decide +kernel) 0 (by decide +kernel) (by decide +kernel) (fun _ => 0) 0 6
    (fun _ => Nat.le_refl 0) (by decide +kernel) (a := 2) (by decide +kernel)
  rw [grow_zero] at h
  refine ⟨lPair, _, _, lPair_built, by decide +kernel, by decide +kernel, h, ?_, rfl, by
    show (grow lPair 1).nodes.length = _; decide +kernel⟩
  obtain ⟨a, hc, ha⟩ := count_luts lPair_built
  have h1 : lPair.inputs.length = 2 := by decide +kernel
  have h2 : lPair.nodes.length = 6 := by decide +kernel
  have : a = 2 := by omega
  rwa [this] at hc

/-- One input, one register, and their AND as output and next state. -/
def aReg : Aig := ((Aig.empty.createPi.1.createRo.1.createAnd ⟨1, false⟩ ⟨2, false⟩).1.createPo ⟨3, false⟩).createRi ⟨3, false⟩ 0

theorem aReg_edge {n c : Nat} (h : AndEdge aReg n c) : n = 3 ∧ c < 3 := by
  obtain ⟨a, b, ⟨h0, h1, nd, h2, _, h4, h5⟩, hc⟩ := h
  have hn : n < 4 := (List.getElem?_eq_some_iff.1 h2).1
  have hi : ∀ m ∈ [1, 2], m ∈ aReg.inputs := by decide
  have h3 : n = 3 := by
    by_contra h3
    have : n ∈ [1, 2] := by simp; omega
    exact h1 (hi n this)
  subst h3
  have e : aReg.nodes[3]? = some { c0 := ⟨1, false⟩, c1 := ⟨2, false⟩, fo := 2 } := by decide
  rw [e] at h2
  cases h2
  refine ⟨rfl, ?_⟩
  rcases hc with rfl | rfl
  · rw [← h4]; decide
  · rw [← h5]; decide

/-- The claim fails for registers: a register output counts as a gate on the path (C16), so the printed depth is 2 though no path has two gates. -/
theorem C79_violated_register : ∃ (N : Aig) (l : Line) (M : Aig), Aig.Built N ∧ aigStats N 4 = some (l, M) ∧ l.depth = 2 ∧
    IsDepth (AndEdge N) (N.outputs.map (·.index)) 1 := by
  have h : (aigStats aReg 4).map (·.1) = some ⟨1, 1, 1, 2⟩ := by decide +kernel
  obtain ⟨⟨l, M⟩, h1, h2⟩ := Option.map_eq_some_iff.1 h
  dsimp only at h2
  subst h2
  refine ⟨aReg, _, M, .ri (.po (.and (.ro (.pi .empty)) (by decide) (by decide)) (by decide)) (by decide), h1, rfl, ?_, Or.inr ⟨3, by decide, ?_⟩⟩
  · intro o _ k hk
    cases hk with
    | nil => omega
    | cons he hk =>
      have := aReg_edge he
      cases hk with
      | nil => omega
      | cons he' _ =>
        have := aReg_edge he'
        omega
  · refine .cons (c := 1) ⟨⟨1, false⟩, ⟨2, false⟩, ⟨by decide, by decide, _, rfl, rfl, rfl, rfl⟩, Or.inl rfl⟩ (.nil _)

end Verif.Cli.Stats
