import Verif.Topo.GrowSpec
import Verif.Props.C79

set_option autoImplicit false

/-!
# Lemmas for C82
-/

namespace Verif.Topo.Grow

open Cli.Stats (withMarks withMarks_get withMarks_length withMarks_gate withMarks_isPi withMarks_fanins)

/-! ### ways -/

theorem Way.congr {N M : Aig} {cc : Bool} (h : ∀ n a b, N.IsGate n a b ↔ M.IsGate n a b) (n k : Nat) : Way N cc n k ↔ Way M cc n k := by
  constructor
  · intro w
    induction w with
    | stop n => exact .stop n
    | gate g hs _ ih => exact .gate ((h _ _ _).1 g) hs ih
  · intro w
    induction w with
    | stop n => exact .stop n
    | gate g hs _ ih => exact .gate ((h _ _ _).2 g) hs ih

theorem IsLevel.congr {N M : Aig} {cc : Bool} (h : ∀ n a b, N.IsGate n a b ↔ M.IsGate n a b) (n l : Nat) :
    IsLevel N cc n l ↔ IsLevel M cc n l := by
  unfold IsLevel
  simp only [Way.congr h]

theorem IsLevel.unique {N : Aig} {cc : Bool} {n l k : Nat} (h : IsLevel N cc n l) (h' : IsLevel N cc n k) : l = k :=
  Nat.le_antisymm (h'.2 _ h.1) (h.2 _ h'.1)

/-- Ways from old nodes do not use a new node. -/
theorem Way.old {N M : Aig} {cc : Bool} (hW : Aig.WF N) {m : Nat}
    (h : ∀ n a b, n ≠ m → (M.IsGate n a b ↔ N.IsGate n a b)) {n k : Nat} (hn : n < m) : Way M cc n k ↔ Way N cc n k := by
  constructor
  · intro w
    induction w with
    | stop n => exact .stop n
    | @gate n k a b s g hs _ ih =>
      have g' := (h _ _ _ (by omega)).1 g
      have := hW.isGate_lt g'
      exact .gate g' hs (ih (by rcases hs with rfl | rfl <;> omega))
  · intro w
    induction w with
    | stop n => exact .stop n
    | @gate n k a b s g hs _ ih =>
      have := hW.isGate_lt g
      exact .gate ((h _ _ _ (by omega)).2 g) hs (ih (by rcases hs with rfl | rfl <;> omega))

theorem isGate_fn {N : Aig} {n : Nat} {a b c d : Sig} (h : N.IsGate n a b) (h' : N.IsGate n c d) : c = a ∧ d = b := by
  obtain ⟨nd, h1, _, h2, h3⟩ := h.2.2
  obtain ⟨nd', h1', _, h2', h3'⟩ := h'.2.2
  rw [h1] at h1'; cases h1'
  exact ⟨h2' ▸ h2, h3' ▸ h3⟩

theorem IsLevel.gate {N : Aig} {cc : Bool} {n la lb : Nat} {a b : Sig} (g : N.IsGate n a b) (ha : IsLevel N cc a.index la)
    (hb : IsLevel N cc b.index lb) : IsLevel N cc n (max (la + weight cc a) (lb + weight cc b) + 1) := by
  constructor
  · rcases Nat.le_total (la + weight cc a) (lb + weight cc b) with h | h
    · rw [Nat.max_eq_right h]
      exact .gate g (Or.inr rfl) hb.1
    · rw [Nat.max_eq_left h]
      exact .gate g (Or.inl rfl) ha.1
  · intro k hk
    cases hk with
    | stop => exact Nat.zero_le _
    | @gate _ k c d s g' hs w =>
      obtain ⟨rfl, rfl⟩ := isGate_fn g g'
      rcases hs with rfl | rfl
      · have := ha.2 _ w
        omega
      · have := hb.2 _ w
        omega

theorem IsLevel.leaf {N : Aig} {cc : Bool} {n : Nat} (h : ∀ a b, ¬ N.IsGate n a b) : IsLevel N cc n 0 := by
  refine ⟨.stop n, ?_⟩
  intro k hk
  cases hk with
  | stop => exact Nat.le_refl _
  | gate g _ _ => exact absurd g (h _ _)

/-! ### networks with marks -/

theorem WF.marks {N : Aig} (h : Aig.WF N) (vis : Nat → Nat) (trav : Nat) : Aig.WF (withMarks N vis trav) := by
  have hg : ∀ {n : Nat} {nd : Node}, (withMarks N vis trav).nodes[n]? = some nd → ∃ x : Node, N.nodes[n]? = some x ∧ nd = { x with visited := vis n } := by
    intro n nd hn
    rw [withMarks_get] at hn
    obtain ⟨x, hx, rfl⟩ := Option.map_eq_some_iff.1 hn
    exact ⟨x, hx, rfl⟩
  refine ⟨by rw [withMarks_length]; exact h.pos, ?_, ?_, ?_, ?_, h.tableNodup, h.inputsNodup, ?_, ?_⟩
  · intro nd hn
    obtain ⟨x, hx, rfl⟩ := hg hn
    exact h.node0 x hx
  · intro k n hk
    obtain ⟨h0, nd, h1, h2⟩ := h.input k n hk
    exact ⟨h0, { nd with visited := vis n }, by rw [withMarks_get, h1]; rfl, h2⟩
  · intro n nd hn h0 h1
    obtain ⟨x, hx, rfl⟩ := hg hn
    exact h.gate n x hx h0 h1
  · intro t
    rw [withMarks_length]
    exact h.table t
  · intro t u a b ht hu
    exact h.uniq t u a b ((withMarks_gate ..).1 ht) ((withMarks_gate ..).1 hu)
  · intro s hs
    have := h.outputs s hs
    unfold Aig.Valid at this ⊢
    rw [withMarks_length]
    exact this

theorem visOf_marks {N : Aig} {vis : Nat → Nat} {trav n : Nat} (h : vis n ≤ trav) : visOf (withMarks N vis trav) n ≤ trav := by
  unfold visOf
  rw [withMarks_get]
  cases N.nodes[n]? with
  | none => exact Nat.zero_le _
  | some nd => exact h

/-! ### the traversal -/

theorem fanins_gate {N : Aig} (hW : Aig.WF N) {n : Nat} {a b : Sig} (g : N.IsGate n a b) : aigFanins N n = [a, b] := by
  obtain ⟨h0, h1, nd, hn, _, e0, e1⟩ := g
  obtain ⟨_, h3, _, _⟩ := hW.gate n nd hn h0 h1
  have hc : N.isCi n = false := by
    unfold Aig.isCi
    rw [hn]
    simp only [beq_eq_false_iff_ne, ne_eq]
    intro h
    rw [h] at h3
    omega
  unfold aigFanins
  rw [if_neg (by rintro (h | h); · exact h0 h
                 · rw [hc] at h; cases h), hn, ← e0, ← e1]

theorem nonterm {N : Aig} (hW : Aig.WF N) (hpi : N.inputs.length = N.numPis) {n : Nat} (hn : n < N.nodes.length)
    (ht : (n == 0 || N.isPi n) = false) : ∃ a b, N.IsGate n a b ∧ aigFanins N n = [a, b] := by
  simp only [Bool.or_eq_false_iff, beq_eq_false_iff_ne, ne_eq] at ht
  have hi : n ∉ N.inputs := by
    rw [← Io.isPi_iff hW hpi ht.1, ht.2]
    simp
  obtain ⟨nd, hnd⟩ : ∃ nd, N.nodes[n]? = some nd := ⟨_, List.getElem?_eq_getElem hn⟩
  have g : N.IsGate n nd.c0 nd.c1 := ⟨ht.1, hi, nd, hnd, (hW.gate n nd hnd ht.1 hi).2.2.2, rfl, rfl⟩
  exact ⟨_, _, g, fanins_gate hW g⟩

theorem fanins_out {N : Aig} {n : Nat} (hn : N.nodes.length ≤ n) : aigFanins N n = [] := by
  unfold aigFanins
  rw [List.getElem?_eq_none hn]
  split <;> rfl

/-- what the traversal reads -/
abbrev par (N : Aig) (cc : Bool) : DepthParam := ⟨aigFanins N, fun n => n == 0 || N.isPi n, fun _ => 1, cc⟩

theorem ranked {N : Aig} (hW : Aig.WF N) (hpi : N.inputs.length = N.numPis) (cc : Bool) : DRanked (par N cc) id := by
  intro n ht f hf
  by_cases hn : n < N.nodes.length
  · obtain ⟨a, b, g, e⟩ := nonterm hW hpi hn ht
    have := hW.isGate_lt g
    dsimp only at hf
    rw [e] at hf
    simp only [List.mem_cons, List.not_mem_nil, or_false] at hf
    rcases hf with rfl | rfl <;> simp only [id] <;> omega
  · dsimp only at hf
    rw [fanins_out (by omega)] at hf
    cases hf

theorem term_leaf {N : Aig} (hW : Aig.WF N) (hpi : N.inputs.length = N.numPis) {n : Nat} (ht : (n == 0 || N.isPi n) = true) (a b : Sig) :
    ¬ N.IsGate n a b := by
  rintro ⟨h0, h1, _⟩
  simp only [Bool.or_eq_true, beq_iff_eq] at ht
  rcases ht with h | h
  · exact h0 h
  · exact h1 ((Io.isPi_iff hW hpi h0).1 h)

theorem path_way {N : Aig} (hW : Aig.WF N) (hpi : N.inputs.length = N.numPis) {cc : Bool} {n k : Nat} (hp : Path (par N cc) n k)
    (hn : n < N.nodes.length) : Way N cc n k := by
  induction hp with
  | terminal _ => exact .stop _
  | @source n h1 h2 =>
    obtain ⟨a, b, g, e⟩ := nonterm hW hpi hn h1
    dsimp only at h2
    rw [e] at h2
    cases h2
  | @step n f k h1 h2 _ ih =>
    obtain ⟨a, b, g, e⟩ := nonterm hW hpi hn h1
    dsimp only at h2
    rw [e] at h2
    simp only [List.mem_cons, List.not_mem_nil, or_false] at h2
    have := hW.isGate_lt g
    exact .gate g h2 (ih (by rcases h2 with rfl | rfl <;> omega))

theorem path_exists {N : Aig} (hW : Aig.WF N) (hpi : N.inputs.length = N.numPis) {cc : Bool} (n : Nat) (hn : n < N.nodes.length) :
    ∃ k, Path (par N cc) n k := by
  induction n using Nat.strong_induction_on with
  | _ n ih =>
    cases ht : (n == 0 || N.isPi n) with
    | true => exact ⟨0, .terminal ht⟩
    | false =>
      obtain ⟨a, b, g, e⟩ := nonterm hW hpi hn ht
      have := hW.isGate_lt g
      obtain ⟨k, hk⟩ := ih a.index (by omega) (by omega)
      exact ⟨_, .step ht (by dsimp only; rw [e]; simp) hk⟩

theorem way_path {N : Aig} (hW : Aig.WF N) (hpi : N.inputs.length = N.numPis) {cc : Bool} {n k : Nat} (w : Way N cc n k)
    (hn : n < N.nodes.length) : ∃ l, k ≤ l ∧ Path (par N cc) n l := by
  induction w with
  | stop n =>
    obtain ⟨l, hl⟩ := path_exists hW hpi (cc := cc) n hn
    exact ⟨l, Nat.zero_le _, hl⟩
  | @gate n k a b s g hs _ ih =>
    have := hW.isGate_lt g
    obtain ⟨l, h1, h2⟩ := ih (by rcases hs with rfl | rfl <;> omega)
    have ht : (n == 0 || N.isPi n) = false := by
      cases ht : (n == 0 || N.isPi n) with
      | false => rfl
      | true => exact absurd g (term_leaf hW hpi ht a b)
    have hm : s ∈ aigFanins N n := by
      rw [fanins_gate hW g]
      rcases hs with rfl | rfl <;> simp
    refine ⟨_, ?_, .step ht hm h2⟩
    unfold weight
    simp only
    omega

theorem longest_level {N : Aig} (hW : Aig.WF N) (hpi : N.inputs.length = N.numPis) {cc : Bool} {n l : Nat} (h : Longest (par N cc) n l)
    (hn : n < N.nodes.length) : IsLevel N cc n l := by
  refine ⟨path_way hW hpi h.1 hn, ?_⟩
  intro k w
  obtain ⟨m, h1, h2⟩ := way_path hW hpi w hn
  exact h1.trans (h.2 _ h2)

theorem tfi_snoc {kids : Nat → List Nat} {n m k : Nat} (h : Tfi kids n m) (hk : k ∈ kids m) : Tfi kids n k := by
  induction h with
  | refl n => exact .step hk (.refl _)
  | step hj _ ih => exact .step hj (ih hk)

theorem used_tfi {N : Aig} (hW : Aig.WF N) (hpi : N.inputs.length = N.numPis) {cc : Bool} {n : Nat} (h : Used N n) :
    n < N.nodes.length ∧ ∃ f ∈ N.outputs, Tfi (below (par N cc)) f.index n := by
  induction h with
  | @out f hf => exact ⟨hW.outputs f hf, f, hf, .refl _⟩
  | @gate n a b s _ g hs ih =>
    have hlt := hW.isGate_lt g
    refine ⟨by rcases hs with rfl | rfl <;> omega, ?_⟩
    obtain ⟨_, f, hf, ht⟩ := ih
    refine ⟨f, hf, ?_⟩
    have hm : s.index ∈ below (par N cc) n := by
      have hnt : (n == 0 || N.isPi n) = false := by
        cases ht : (n == 0 || N.isPi n) with
        | false => rfl
        | true => exact absurd g (term_leaf hW hpi ht a b)
      unfold below
      rw [if_neg (by show ¬ (n == 0 || N.isPi n) = true; rw [hnt]; simp)]
      dsimp only
      rw [fanins_gate hW g]
      rcases hs with rfl | rfl <;> simp
    exact tfi_snoc ht hm

/-! ### invariant -/

structure Fine (V : View) : Prop where
  wf : Aig.WF V.net
  pis : V.net.inputs.length = V.net.numPis
  pos : V.net.outputs.length = V.net.numPos
  marks : ∀ n, visOf V.net n ≤ V.net.travId
  len : V.lev.length ≤ V.net.nodes.length
  ne : 0 < V.lev.length
  late : ∀ n, V.lev.length ≤ n → n < V.net.nodes.length → n ∈ V.net.inputs
  right : ∀ n l, V.lev[n]? = some l → IsLevel V.net V.cc n l
  crit : ∀ n : Nat, V.crit[n]? ≠ some true
  up : ∀ f ∈ V.net.outputs, ∀ k, Way V.net V.cc f.index k → k ≤ V.depth
  low : V.depth = 0 ∨ ∃ f ∈ V.net.outputs, ∃ k, Way V.net V.cc f.index k ∧ k ≤ V.depth ∧ V.depth ≤ k + weight V.cc f

theorem crit_false (k n : Nat) : (List.replicate k false)[n]? ≠ some true := by
  rw [List.getElem?_replicate]
  split <;> simp

theorem fresh_inv (cc : Bool) : Fine (fresh cc) := by
  refine ⟨Aig.WF.empty, rfl, rfl, ?_, by simp [fresh, Aig.empty], by simp [fresh], ?_, ?_, ?_, ?_, Or.inl rfl⟩
  · intro n
    exact (Topo.C16_built _ .empty cc).2 n
  · intro n h1 h2
    simp [fresh, Aig.empty] at h1 h2
    omega
  · intro n l h
    have hl : l = 0 := by
      have := List.mem_of_getElem? h
      simpa [fresh] using this
    subst hl
    apply IsLevel.leaf
    intro a b g
    have := Aig.WF.empty.isGate_lt g
    simp [Aig.empty] at this
    omega
  · intro n
    exact crit_false 1 n
  · intro f hf
    simp [fresh, Aig.empty] at hf

/-- What `update_levels` computes. -/
theorem update_spec {N : Aig} (hW : Aig.WF N) (hpi : N.inputs.length = N.numPis) (hpo : N.outputs.length = N.numPos)
    (hv : ∀ n, visOf N n ≤ N.travId) {cc : Bool} {fuel : Nat} (hf : N.nodes.length ≤ fuel) :
    ∃ s d, depthView N cc fuel = some (s, d) ∧ (∀ n, s.vis n ≤ N.travId + 1) ∧ (∀ n, Used N n → IsLevel N cc n (s.lev n)) ∧
      (∀ n, (∀ a b, ¬ N.IsGate n a b) → n < N.nodes.length → s.lev n = 0) ∧ IsDepth N cc d := by
  have ht : N.outputs.take N.numPos = N.outputs := by rw [← hpo, List.take_length]
  obtain ⟨s, d, e, h1, h2, h3, h4, h5⟩ := C16_levels (par N cc) id (ranked hW hpi cc) N.outputs (visOf N) N.travId fuel hv
    (fun f hf' => lt_of_lt_of_le (hW.outputs f hf') hf)
  have hout : ∀ f ∈ N.outputs, IsLevel N cc f.index (s.lev f.index) := fun f hf' =>
    longest_level hW hpi (h1 _ ⟨f, hf', .refl _⟩) (hW.outputs f hf')
  refine ⟨s, d, ?_, ?_, ?_, ?_, ?_, ?_⟩
  · unfold depthView
    rw [ht]
    exact e
  · intro n
    rcases Cli.Stats.pos_vis _ _ _ _ _ e n with h' | h'
    · rw [h']
      exact Nat.le_succ_of_le (hv n)
    · omega
  · intro n hu
    obtain ⟨hn, hx⟩ := used_tfi hW hpi (cc := cc) hu
    exact longest_level hW hpi (h1 n hx) hn
  · intro n hg hn
    by_cases hx : ∃ f ∈ N.outputs, Tfi (below (par N cc)) f.index n
    · exact (longest_level hW hpi (h1 n hx) hn).unique (IsLevel.leaf hg)
    · exact h2 n hx
  · intro f hf' k w
    have := (hout f hf').2 k w
    have h4' := h4 f hf'
    unfold weight
    dsimp only at h4'
    omega
  · by_cases hp : N.outputs = []
    · exact Or.inl (h3 hp)
    · obtain ⟨f, hf', hd⟩ := h5 hp
      exact Or.inr ⟨f, hf', _, (hout f hf').1, hd⟩

theorem update_defined {V : View} (h : Fine V) {fuel : Nat} (hf : V.net.nodes.length ≤ fuel) : ∃ V', V.update fuel = some V' := by
  obtain ⟨s, d, e, _⟩ := update_spec h.wf h.pis h.pos h.marks (cc := V.cc) hf
  unfold View.update
  rw [e]
  exact ⟨_, rfl⟩

theorem update_inv {V V' : View} (hW : Aig.WF V.net) (hpi : V.net.inputs.length = V.net.numPis) (hpo : V.net.outputs.length = V.net.numPos)
    (hv : ∀ n, visOf V.net n ≤ V.net.travId) (hu : AllUsed V.net) {fuel : Nat} (hf : V.net.nodes.length ≤ fuel) (hV : V.update fuel = some V') :
    Fine V' ∧ V'.lev.length = V.net.nodes.length ∧ (∀ n a b, V'.net.IsGate n a b ↔ V.net.IsGate n a b) ∧ V'.net.outputs = V.net.outputs ∧
      V'.cc = V.cc ∧ IsDepth V.net V.cc V'.depth := by
  obtain ⟨s, d, e, h1, h2, h3, h4⟩ := update_spec hW hpi hpo hv (cc := V.cc) hf
  unfold View.update at hV
  rw [e] at hV
  cases hV
  have hg : ∀ n a b, (withMarks V.net s.vis (V.net.travId + 1)).IsGate n a b ↔ V.net.IsGate n a b := fun n a b => withMarks_gate ..
  refine ⟨⟨WF.marks hW _ _, hpi, hpo, ?_, ?_, ?_, ?_, ?_, crit_false _, ?_, ?_⟩, by simp, hg, rfl, rfl, h4⟩
  · intro n
    exact visOf_marks (h1 n)
  · dsimp only
    rw [withMarks_length]
    simp
  · simpa using hW.pos
  · intro n hn hn'
    dsimp only at hn hn'
    rw [withMarks_length] at hn'
    simp at hn
    omega
  · intro n l hl
    dsimp only at hl ⊢
    rw [IsLevel.congr hg]
    rw [List.getElem?_map] at hl
    obtain ⟨m, hm, rfl⟩ := Option.map_eq_some_iff.1 hl
    obtain ⟨hm1, hm2⟩ := List.getElem?_eq_some_iff.1 hm
    simp only [List.getElem_range] at hm2
    subst hm2
    rw [List.length_range] at hm1
    by_cases hx : ∃ a b, V.net.IsGate n a b
    · obtain ⟨a, b, g⟩ := hx
      exact h2 n (hu n a b g)
    · push Not at hx
      rw [h3 n hx hm1]
      exact IsLevel.leaf hx
  · intro f hf' k w
    dsimp only at w hf' ⊢
    rw [Way.congr hg] at w
    have := h4.1 f hf' k w
    omega
  · rcases h4.2 with h | ⟨f, hf', k, w, hd⟩
    · exact Or.inl h
    · refine Or.inr ⟨f, hf', k, (Way.congr hg _ _).2 w, ?_, ?_⟩ <;> dsimp only <;> omega

theorem pi_gate (N : Aig) (n : Nat) (a b : Sig) : N.createPi.1.IsGate n a b ↔ N.IsGate n a b := Aig.addCi_isGate N n a b

theorem visOf_append {N M : Aig} {nd : Node} (h0 : nd.visited = 0) (h : M.nodes = N.nodes ++ [nd]) {t : Nat} (ht : ∀ n, visOf N n ≤ t) (n : Nat) : visOf M n ≤ t := by
  have := ht n
  unfold visOf at this ⊢
  rw [h]
  cases e : (N.nodes ++ [nd])[n]? with
  | none => exact Nat.zero_le _
  | some x =>
    rcases Aig.append_get_cases e with h' | ⟨_, h'⟩
    · rw [h'] at this
      exact this
    · rw [h']
      dsimp only
      omega

theorem visOf_incFo (N : Aig) (i n : Nat) : visOf (N.incFo i) n = visOf N n := by
  unfold visOf
  rw [Aig.incFo_get]
  cases N.nodes[n]? with
  | none => rfl
  | some x =>
    simp only [Option.map_some]
    split <;> rfl

theorem pi_inv {V : View} (h : Fine V) : Fine V.createPi.1 := by
  have hg : ∀ n a b, V.createPi.1.net.IsGate n a b ↔ V.net.IsGate n a b := fun n a b => pi_gate V.net n a b
  have hl : V.createPi.1.net.nodes.length = V.net.nodes.length + 1 := by simp [View.createPi, Aig.createPi]
  have hi : V.createPi.1.net.inputs = V.net.inputs ++ [V.net.nodes.length] := rfl
  refine ⟨h.wf.createPi, ?_, h.pos, ?_, ?_, h.ne, ?_, ?_, h.crit, ?_, ?_⟩
  · have := h.pis
    rw [hi]
    simp only [List.length_append, List.length_singleton]
    show _ = V.net.numPis + 1
    omega
  · exact visOf_append rfl rfl h.marks
  · rw [hl]
    exact Nat.le_succ_of_le h.len
  · intro n h1 h2
    rw [hi, List.mem_append, List.mem_singleton]
    rw [hl] at h2
    by_cases hn : n < V.net.nodes.length
    · exact Or.inl (h.late n h1 hn)
    · exact Or.inr (by omega)
  · intro n l hl
    rw [IsLevel.congr hg]
    exact h.right n l hl
  · intro f hf k w
    rw [Way.congr hg] at w
    exact h.up f hf k w
  · rcases h.low with e | ⟨f, hf, k, w, h1⟩
    · exact Or.inl e
    · exact Or.inr ⟨f, hf, k, (Way.congr hg _ _).2 w, h1⟩

theorem po_gate (N : Aig) (f : Sig) (n : Nat) (a b : Sig) : (N.createPo f).IsGate n a b ↔ N.IsGate n a b := Aig.incFo_isGate N f.index n a b

theorem po_inv {V V' : View} (h : Fine V) {f : Sig} (e : V.createPo f = some V') : Fine V' := by
  unfold View.createPo at e
  split at e
  · cases e
  · rename_i l hl
    cases e
    have hg : ∀ n a b, (V.net.createPo f).IsGate n a b ↔ V.net.IsGate n a b := fun n a b => po_gate V.net f n a b
    have hs : (V.net.createPo f).nodes.length = V.net.nodes.length := by simp [Aig.createPo]
    have ho : (V.net.createPo f).outputs = V.net.outputs ++ [f] := rfl
    have hx := h.right _ _ hl
    have hlt : f.index < V.lev.length := Aig.lt_of_getElem? hl
    refine ⟨h.wf.createPo (Nat.lt_of_lt_of_le hlt h.len), h.pis, ?_, ?_, ?_, h.ne, ?_, ?_, h.crit, ?_, ?_⟩
    · have := h.pos
      dsimp only
      rw [ho]
      simp only [List.length_append, List.length_singleton]
      show _ = V.net.numPos + 1
      omega
    · intro n
      exact (visOf_incFo V.net f.index n).trans_le (h.marks n)
    · dsimp only
      rw [hs]
      exact h.len
    · intro n h1 h2
      dsimp only at h1 h2
      rw [hs] at h2
      exact h.late n h1 h2
    · intro n l hl
      dsimp only
      rw [IsLevel.congr hg]
      exact h.right n l hl
    · intro g hf k w
      dsimp only at hf w ⊢
      rw [Way.congr hg] at w
      rw [ho, List.mem_append, List.mem_singleton] at hf
      rcases hf with hf | rfl
      · have := h.up g hf k w
        omega
      · have := hx.2 k w
        omega
    · dsimp only
      rcases Nat.le_total l V.depth with hd | hd
      · rw [Nat.max_eq_left hd]
        rcases h.low with e | ⟨g, hf, k, w, h1⟩
        · exact Or.inl e
        · exact Or.inr ⟨g, by rw [ho]; simp [hf], k, (Way.congr hg _ _).2 w, h1⟩
      · rw [Nat.max_eq_right hd]
        exact Or.inr ⟨f, by rw [ho]; simp, l, (Way.congr hg _ _).2 hx.1, Nat.le_refl _, Nat.le_add_right _ _⟩

theorem grown_length {lev : List Nat} {size : Nat} (h : lev.length ≤ size) : (grown lev size).length = size := by
  unfold grown
  simp
  omega

theorem grown_get {lev : List Nat} {size n l : Nat} (h : (grown lev size)[n]? = some l) : lev[n]? = some l ∨ lev.length ≤ n ∧ n < size ∧ l = 0 := by
  unfold grown at h
  rw [List.getElem?_append] at h
  split at h
  · exact Or.inl h
  · rename_i h'
    rw [List.getElem?_replicate] at h
    split at h
    · cases h
      exact Or.inr ⟨by omega, by omega, rfl⟩
    · cases h

theorem input_leaf {N : Aig} {n : Nat} (h : n ∈ N.inputs) (a b : Sig) : ¬ N.IsGate n a b := fun g => g.2.1 h

theorem resize_inv {V : View} (h : Fine V) : Fine V.resize := by
  have hl : V.resize.lev.length = V.net.nodes.length := grown_length h.len
  refine ⟨h.wf, h.pis, h.pos, h.marks, hl.le, ?_, ?_, ?_, h.crit, h.up, h.low⟩
  · rw [hl]
    exact h.wf.pos
  · intro n h1 h2
    rw [hl] at h1
    exact absurd h2 (by show ¬ n < V.net.nodes.length; omega)
  · intro n l hn
    rcases grown_get hn with hn | ⟨h1, h2, rfl⟩
    · exact h.right n l hn
    · exact IsLevel.leaf (input_leaf (h.late n h1 h2))

/-- `on_add` for a gate whose fanins have levels. -/
theorem addKids_two {cc : Bool} {lev : List Nat} {a b : Sig} {la lb : Nat} (ha : lev[a.index]? = some la) (hb : lev[b.index]? = some lb) :
    addKids cc lev [a, b] 0 = some (max (la + weight cc a) (lb + weight cc b)) := by
  have hw : ∀ (s : Sig) (l : Nat), (if cc && s.compl then l + 1 else l) = l + weight cc s := by
    intro s l
    unfold weight
    cases cc <;> cases s.compl <;> rfl
  simp only [addKids, ha, hb, hw, Nat.zero_max]

theorem and_spec {V : View} (h : Fine V) {a b : Sig} (ha : V.net.Valid a) (hb : V.net.Valid b) :
    ∃ r, V.createAnd a b = some r ∧ Fine r.1 := by
  have hs := Aig.createAnd_spec h.wf ha hb
  rcases Aig.createAnd_cases V.net a b with e | ⟨c, d, ho, hcd, hc0, hlt, hfind, e⟩
  · refine ⟨({ V with net := (V.net.createAnd a b).1 }, (V.net.createAnd a b).2), ?_, ?_⟩
    · unfold View.createAnd
      dsimp only
      rw [if_pos (by rw [e])]
    · dsimp only
      rw [e]
      exact h
  · have hl : (V.net.createAnd a b).1.nodes.length = V.net.nodes.length + 1 := by rw [e]; simp
    have hg : ∀ n x y, (V.net.createAnd a b).1.IsGate n x y ↔ V.net.IsGate n x y ∨ (n = V.net.nodes.length ∧ x = c ∧ y = d) := by
      intro n x y
      rw [e]
      exact Aig.addAnd_isGate h.wf c d n x y
    have hix : (V.net.createAnd a b).2.index = V.net.nodes.length := by rw [e]; rfl
    have hnew : (V.net.createAnd a b).1.IsGate V.net.nodes.length c d := (hg _ _ _).2 (Or.inr ⟨rfl, rfl, rfl⟩)
    have hdl : d.index < V.net.nodes.length := (hs.wf.isGate_lt hnew).2.2.1
    have hmarks : ∀ n, visOf (V.net.createAnd a b).1 n ≤ (V.net.createAnd a b).1.travId := by
      intro n
      obtain ⟨ph, e'⟩ := Aig.addAnd_eq V.net c d
      rw [e, e']
      rw [visOf_incFo, visOf_incFo]
      exact visOf_append rfl rfl h.marks n
    have hw := hs.wf
    have hin := hs.inputs
    have hout := hs.outputs
    have hnp := hs.numPis
    have hnq := hs.numPos
    generalize hN : (V.net.createAnd a b).1 = N at hl hg hix hnew hmarks hw hin hout hnp hnq
    generalize hr : (V.net.createAnd a b).2 = rs at hix
    have hold : ∀ n x y, n ≠ V.net.nodes.length → (N.IsGate n x y ↔ V.net.IsGate n x y) := by
      intro n x y hn
      rw [hg]
      constructor
      · rintro (g | ⟨e, _⟩)
        · exact g
        · exact absurd e hn
      · exact Or.inl
    have hway : ∀ {n k}, n < V.net.nodes.length → (Way N V.cc n k ↔ Way V.net V.cc n k) := fun hn => Way.old h.wf hold hn
    have hlev : ∀ {n l}, n < V.net.nodes.length → IsLevel V.net V.cc n l → IsLevel N V.cc n l := by
      intro n l hn hL
      refine ⟨(hway hn).2 hL.1, ?_⟩
      intro k w
      exact hL.2 k ((hway hn).1 w)
    have hgl : (grown V.lev N.nodes.length).length = N.nodes.length := grown_length (by have := h.len; omega)
    have hold' : ∀ n l, n < V.net.nodes.length → (grown V.lev N.nodes.length)[n]? = some l → IsLevel N V.cc n l := by
      intro n l hn hx
      rcases grown_get hx with hx | ⟨h1, _, rfl⟩
      · exact hlev hn (h.right n l hx)
      · exact IsLevel.leaf (input_leaf (by rw [hin]; exact h.late n h1 hn))
    obtain ⟨lc, hlc⟩ : ∃ l, (grown V.lev N.nodes.length)[c.index]? = some l := ⟨_, List.getElem?_eq_getElem (by rw [hgl]; omega)⟩
    obtain ⟨ld, hld⟩ : ∃ l, (grown V.lev N.nodes.length)[d.index]? = some l := ⟨_, List.getElem?_eq_getElem (by rw [hgl]; omega)⟩
    have hn : IsLevel N V.cc V.net.nodes.length (max (lc + weight V.cc c) (ld + weight V.cc d) + 1) :=
      IsLevel.gate hnew (hold' _ _ (by omega) hlc) (hold' _ _ hdl hld)
    refine ⟨({ V with net := N, lev := (grown V.lev N.nodes.length).set V.net.nodes.length (max (lc + weight V.cc c) (ld + weight V.cc d) + 1) }, rs), ?_, ?_⟩
    · unfold View.createAnd View.onAdd
      dsimp only
      rw [hN, hr, if_neg (by omega), hix, fanins_gate hw hnew, addKids_two hlc hld]
      dsimp only
      rw [if_pos (by rw [hgl]; omega)]
      rfl
    · have hlen : ((grown V.lev N.nodes.length).set V.net.nodes.length (max (lc + weight V.cc c) (ld + weight V.cc d) + 1)).length = N.nodes.length := by
        rw [List.length_set, hgl]
      refine ⟨hw, ?_, ?_, hmarks, hlen.le, ?_, ?_, ?_, h.crit, ?_, ?_⟩
      · show N.inputs.length = N.numPis
        rw [hin, hnp]
        exact h.pis
      · show N.outputs.length = N.numPos
        rw [hout, hnq]
        exact h.pos
      · dsimp only
        omega
      · intro n h1 h2
        dsimp only at h1 h2
        omega
      · intro n l hx
        dsimp only at hx ⊢
        rw [List.getElem?_set] at hx
        split at hx
        · rename_i hnn
          subst hnn
          split at hx
          · cases hx
            exact hn
          · cases hx
        · have := Aig.lt_of_getElem? hx
          exact hold' n l (by omega) hx
      · intro f hf k w
        dsimp only at hf w ⊢
        rw [hout] at hf
        exact h.up f hf k ((hway (h.wf.outputs f hf)).1 w)
      · rcases h.low with e | ⟨f, hf, k, w, h1⟩
        · exact Or.inl e
        · refine Or.inr ⟨f, ?_, k, (hway (h.wf.outputs f hf)).2 w, h1⟩
          show f ∈ N.outputs
          rw [hout]
          exact hf

theorem session_inv {V : View} (h : Session V) : Fine V := by
  induction h with
  | fresh cc => exact fresh_inv cc
  | net hB h1 h2 hu hf e => exact (update_inv (V := ⟨_, _, _, _, _⟩) hB.wf h1 h2 (Topo.C16_built _ hB false).2 hu hf e).1
  | pi _ ih => exact pi_inv ih
  | po _ e ih => exact po_inv ih e
  | and _ ha hb e ih =>
    obtain ⟨r, e', hr⟩ := and_spec ih ha hb
    rw [e] at e'
    cases e'
    exact hr
  | resize _ ih => exact resize_inv ih
  | update _ hu hf e ih => exact (update_inv ih.wf ih.pis ih.pos ih.marks hu hf e).1

end Verif.Topo.Grow
