import Verif.Topo.GrowProof

set_option autoImplicit false

/-!
# C82: a depth view follows a network that grows through it

Full statement: while inputs, outputs and gates are created through a depth view, in any order, `level` of every node is the length of a longest way from it, `depth` is the
length of a longest way from the outputs, as if all levels had been computed anew, and `is_on_critical_path` tells the nodes on these ways.

It holds for levels of AIGs without registers if every gate is used whenever all levels are computed (`C82_levels_partial`), and for the depth if moreover complements are not counted
(`C82_depth_partial`, `C82_same_partial`); otherwise the depth is at most one too small (`C82_count_partial`). What can be read is in `C82_defined_partial`. The rest is false: unused gates
(`C82_violated_unused`), complemented outputs (`C82_violated_complement`), registers (`C82_violated_register`), new inputs (`C82_violated_input`), and `is_on_critical_path` is never true
(`C82_critical`, `C82_violated_critical`).
-/

namespace Verif.Topo.Grow

/-- Whatever is created, a level that can be read is the length of a longest way. Missing from the full statement: registers, and gates that are unused when all levels are computed. -/
theorem C82_levels_partial (V : View) (h : Session V) (n l : Nat) (hl : V.level n = some l) : IsLevel V.net V.cc n l :=
  (session_inv h).right n l hl

/-- If complements are not counted, the depth is the length of a longest way from the outputs. Missing from the full statement: as above, and counted complements. -/
theorem C82_depth_partial (V : View) (h : Session V) (hc : V.cc = false) : IsDepth V.net V.cc V.depth := by
  have hI := session_inv h
  have hw : ∀ f, weight V.cc f = 0 := by
    intro f
    unfold weight
    rw [hc]
    simp
  refine ⟨?_, ?_⟩
  · intro f hf k w
    have := hI.up f hf k w
    rw [hw]
    omega
  · rcases hI.low with e | ⟨f, hf, k, w, h1, h2⟩
    · exact Or.inl e
    · rw [hw] at h2
      refine Or.inr ⟨f, hf, k, w, ?_⟩
      rw [hw]
      omega

/-- If complements are counted, the depth is right or one too small. -/
theorem C82_count_partial (V : View) (h : Session V) (d : Nat) (hd : IsDepth V.net V.cc d) : V.depth ≤ d ∧ d ≤ V.depth + 1 := by
  have hI := session_inv h
  have hw : ∀ f, weight V.cc f ≤ 1 := by
    intro f
    unfold weight
    split <;> omega
  constructor
  · rcases hI.low with e | ⟨f, hf, k, w, h1, h2⟩
    · omega
    · have := hd.1 f hf k w
      omega
  · rcases hd.2 with e | ⟨f, hf, k, w, h1⟩
    · omega
    · have := hI.up f hf k w
      have := hw f
      omega

/-- The levels are those of an update, and so is the depth if complements are not counted; the update does not change the network except for marks. -/
theorem C82_same_partial (V V' : View) (h : Session V) (hu : AllUsed V.net) (fuel : Nat) (hf : V.net.nodes.length ≤ fuel) (hV : V.update fuel = some V') :
    (∀ n l, V.level n = some l → V'.level n = some l) ∧ (V.cc = false → V'.depth = V.depth) ∧ V'.net.outputs = V.net.outputs ∧
      ∀ n a b, V'.net.IsGate n a b ↔ V.net.IsGate n a b := by
  have hI := session_inv h
  obtain ⟨hI', hlen, hg, ho, hc, hd⟩ := update_inv hI.wf hI.pis hI.pos hI.marks hu hf hV
  refine ⟨?_, ?_, ho, hg⟩
  · intro n l hl
    have hn := Aig.lt_of_getElem? hl
    have := hI.len
    obtain ⟨k, hk⟩ : ∃ k, V'.lev[n]? = some k := ⟨_, List.getElem?_eq_getElem (by omega)⟩
    have h1 := hI'.right n k hk
    rw [hc, IsLevel.congr hg] at h1
    rw [(hI.right n l hl).unique h1]
    exact hk
  · intro hcc
    have h1 := C82_depth_partial V h hcc
    have hw : ∀ f, weight V.cc f = 0 := by
      intro f
      unfold weight
      rw [hcc]
      simp
    apply Nat.le_antisymm
    · rcases hd.2 with e | ⟨f, hf, k, w, e⟩
      · omega
      · have := h1.1 f hf k w
        omega
    · rcases h1.2 with e | ⟨f, hf, k, w, e⟩
      · omega
      · have := hd.1 f hf k w
        omega

/-- Creating gates and updating is always defined, levels of gates and of the constant can always be read; only inputs created after the last resize cannot be read and cannot become outputs.
Missing from the full statement: these. -/
theorem C82_defined_partial (V : View) (h : Session V) :
    (∀ a b, V.net.Valid a → V.net.Valid b → ∃ r, V.createAnd a b = some r) ∧
    (∀ fuel, V.net.nodes.length ≤ fuel → ∃ V', V.update fuel = some V') ∧
    (∀ n, n < V.net.nodes.length → n ∉ V.net.inputs → ∃ l, V.level n = some l) ∧
    (∀ f, V.net.Valid f → f.index ∉ V.net.inputs → ∃ V', V.createPo f = some V') ∧
    (∀ n, n < V.net.nodes.length → ∃ l, V.resize.level n = some l) ∧
    (∀ a b r, V.net.Valid a → V.net.Valid b → V.createAnd a b = some r → r.1.net.nodes.length ≠ V.net.nodes.length →
      ∀ n, n < r.1.net.nodes.length → ∃ l, r.1.level n = some l) := by
  have hI := session_inv h
  have hr : ∀ n, n < V.net.nodes.length → n ∉ V.net.inputs → ∃ l, V.level n = some l := by
    intro n hn hi
    by_cases hl : n < V.lev.length
    · exact ⟨_, List.getElem?_eq_getElem hl⟩
    · exact absurd (hI.late n (by omega) hn) hi
  refine ⟨?_, fun fuel hf => update_defined hI hf, hr, ?_, ?_, ?_⟩
  · intro a b ha hb
    obtain ⟨r, e, _⟩ := and_spec hI ha hb
    exact ⟨r, e⟩
  · intro f hf hi
    obtain ⟨l, hl⟩ := hr f.index hf hi
    unfold View.level at hl
    unfold View.createPo
    rw [hl]
    exact ⟨_, rfl⟩
  · intro n hn
    exact ⟨_, List.getElem?_eq_getElem (by show n < (grown _ _).length; rw [grown_length hI.len]; exact hn)⟩
  · intro a b r ha hb e hne n hn
    have hlen : r.1.lev.length = r.1.net.nodes.length := by
      unfold View.createAnd at e
      dsimp only at e
      split at e
      · cases e
        rename_i h'
        exact absurd h' hne
      · obtain ⟨W, hW, rfl⟩ := Option.map_eq_some_iff.1 e
        unfold View.onAdd at hW
        dsimp only at hW
        split at hW
        · cases hW
        · split at hW
          · cases hW
            dsimp only
            rw [List.length_set]
            have := (Aig.createAnd_spec hI.wf ha hb).ext.len
            have := hI.len
            exact grown_length (by omega)
          · cases hW
    exact ⟨_, List.getElem?_eq_getElem (by omega)⟩

/-- No node is ever on the critical path. -/
theorem C82_critical (V : View) (h : Session V) (n : Nat) : V.critical n ≠ some true := (session_inv h).crit n

/-! ### a concrete session -/

/-- `create_and` keeping the view only -/
def andThen (V : Option View) (a b : Sig) : Option View :=
  match V with
  | none => none
  | some V => (V.createAnd a b).map (·.1)

/-- `create_po` on what came before -/
def poThen (V : Option View) (f : Sig) : Option View :=
  match V with
  | none => none
  | some V => V.createPo f

/-- three inputs, then an update, as `and_balance` does it -/
def three (cc : Bool) : View := (fresh cc).createPi.1.createPi.1.createPi.1

theorem three_session (cc : Bool) : Session (three cc) := .pi (.pi (.pi (.fresh cc)))

theorem three_used (cc : Bool) : AllUsed (three cc).net := by
  intro n a b g
  exfalso
  have hW := (session_inv (three_session cc)).wf
  have hl := (hW.isGate_lt g).2.2.2
  have : n < 4 := hl
  have hi := g.2.1
  have h0 := g.1
  have hin : (three cc).net.inputs = [1, 2, 3] := rfl
  rw [hin] at hi
  simp at hi
  omega

/-- the view after the update, with two gates on top of each other and an output -/
def grownView (cc : Bool) (out : Sig) : Option View :=
  poThen (andThen (andThen ((three cc).update 4) ⟨1, false⟩ ⟨2, true⟩) ⟨4, true⟩ ⟨3, false⟩) out

theorem grown_session (cc : Bool) (out : Sig) {V : View} (h : grownView cc out = some V) : Session V := by
  unfold grownView at h
  obtain ⟨U, hU⟩ := update_defined (session_inv (three_session cc)) (fuel := 4) (Nat.le_refl _)
  rw [hU] at h
  have s1 := Session.update (three_session cc) (three_used cc) (Nat.le_refl _) hU
  have hlen : U.net.nodes.length = 4 := by
    unfold View.update at hU
    split at hU
    · cases hU
    · cases hU
      dsimp only
      rw [Cli.Stats.withMarks_length]
      rfl
  simp only [andThen, poThen] at h
  split at h
  · cases h
  · rename_i W hW
    split at hW
    · cases hW
    · rename_i X hX
      obtain ⟨r, hr, rfl⟩ := Option.map_eq_some_iff.1 hX
      obtain ⟨t, ht, rfl⟩ := Option.map_eq_some_iff.1 hW
      have s2 : Session r.1 := Session.and s1 (by show _ < _; rw [hlen]; decide) (by show _ < _; rw [hlen]; decide) hr
      have hval : r.1.net.Valid ⟨4, true⟩ ∧ r.1.net.Valid ⟨3, false⟩ := by
        have e : (((three cc).update 4).bind fun U => (U.createAnd ⟨1, false⟩ ⟨2, true⟩).map fun r => r.1.net.nodes.length) = some 5 := by
          cases cc <;> decide
        rw [hU] at e
        simp only [Option.bind_some, hr, Option.map_some, Option.some.injEq] at e
        constructor <;> show _ < _ <;> rw [e] <;> decide
      have s3 : Session t.1 := Session.and s2 hval.1 hval.2 ht
      exact Session.po s3 h

/-- the session is defined, with levels 1 and 2 and depth 2; level 3 if complements are counted -/
example : (grownView false ⟨5, true⟩).map (fun V => (V.level 4, V.level 5, V.depth)) = some (some 1, some 2, 2) := by decide

example : (grownView true ⟨5, false⟩).map (fun V => (V.level 4, V.level 5, V.depth)) = some (some 2, some 4, 4) := by decide

/-- a view on a network with gates that are all used -/
example : (ofNet (((Aig.empty.createPi.1.createPi.1.createAnd ⟨1, false⟩ ⟨2, false⟩).1).createPo ⟨3, false⟩) false 4).map (fun V => (V.level 3, V.depth)) =
    some (some 1, 1) := by decide

/-! ### what is false -/

/-- The constructor gives unused gates the level 0, so the level of a gate on top of it and the depth become too small; an update corrects them. -/
theorem C82_violated_unused :
    let N := (Aig.empty.createPi.1.createPi.1.createPi.1.createAnd ⟨1, false⟩ ⟨2, false⟩).1
    Aig.Built N ∧
    (poThen (andThen (ofNet N false 5) ⟨4, false⟩ ⟨3, false⟩) ⟨5, false⟩).map (fun V => (V.level 5, V.depth)) = some (some 1, 1) ∧
    ((poThen (andThen (ofNet N false 5) ⟨4, false⟩ ⟨3, false⟩) ⟨5, false⟩).bind fun V => V.update 6).map (fun V => (V.level 5, V.depth)) = some (some 2, 2) := by
  refine ⟨.and (.pi (.pi (.pi .empty))) (by decide) (by decide), by decide, by decide⟩

/-- `create_po` does not count the complement of the output, an update does. -/
theorem C82_violated_complement :
    (grownView true ⟨5, true⟩).map (·.depth) = some 4 ∧ ((grownView true ⟨5, true⟩).bind fun V => V.update 6).map (·.depth) = some 5 := by
  constructor <;> decide

/-- A register output has the level 0 when a gate is put on it, and the level 1 after an update. -/
theorem C82_violated_register :
    let V := poThen (andThen (some (fresh false).createPi.1.createRo.1) ⟨1, false⟩ ⟨2, false⟩) ⟨3, false⟩
    V.map (fun V => (V.level 2, V.level 3, V.depth)) = some (some 0, some 1, 1) ∧
    (V.bind fun V => V.update 4).map (fun V => (V.level 2, V.level 3, V.depth)) = some (some 1, some 2, 2) := by
  constructor <;> decide

/-- The level of a new input is read outside the vector, also when the input becomes an output. -/
theorem C82_violated_input :
    ∃ V, Session V ∧ V.net.Valid ⟨1, false⟩ ∧ V.level 1 = none ∧ V.createPo ⟨1, false⟩ = none ∧ (V.resize.createPo ⟨1, false⟩).isSome = true :=
  ⟨(fresh false).createPi.1, .pi (.fresh _), by decide, by decide, by decide, by decide⟩

/-- The only gate of a network, on its longest way, is not on the critical path. -/
theorem C82_violated_critical :
    (ofNet (((Aig.empty.createPi.1.createPi.1.createAnd ⟨1, false⟩ ⟨2, false⟩).1).createPo ⟨3, false⟩) false 4).map
      (fun V => (V.level 3, V.depth, V.critical 3)) = some (some 1, 1, some false) := by decide

end Verif.Topo.Grow
