import Verif.Props.C29
import Verif.Props.AigInv

set_option autoImplicit false

/-!
# C85: networks accepted by the AIGER reader

Full statement: whatever bytes the reader accepts, the network is well formed, with the numbers of inputs, registers, outputs and gates that the header announces, and files that break the format are not
accepted.

`C85_accepted_partial`: the first half, for all byte strings. The second half is false: missing and meaningless lines of outputs are taken as the constant 0, and a wrong maximal variable is not noticed
(`C85_violated_*`).
-/

namespace Verif.Aiger

open Aig

/-! ### specification -/

/-- the number that a string of digits denotes -/
def number (w : List Byte) : Nat := w.foldl (fun a c => 10 * a + (c.toNat - 48)) 0

/-- The first line announces `i` inputs, `l` registers, `o` outputs and `a` gates. -/
def Announces (bs : List Byte) (i l o a : Nat) : Prop :=
  ∃ (line rest wm wi wl wo wa : List Byte) (more : List (List Byte)), bs = line ++ 10#8 :: rest ∧
    line = [97#8, 105#8, 103#8] ++ (wm :: wi :: wl :: wo :: wa :: more).flatMap (fun w => 32#8 :: w) ∧
    (∀ w ∈ wm :: wi :: wl :: wo :: wa :: more, w ≠ [] ∧ ∀ c ∈ w, 48#8 ≤ c ∧ c ≤ 57#8) ∧
    number wi = i ∧ number wl = l ∧ number wo = o ∧ number wa = a

/-- The network has the announced numbers; the inputs come first. -/
structure Conforms (N : Aig) (i l o a : Nat) : Prop where
  built : Built N
  inputs : N.inputs = List.range' 1 (i + l)
  numPis : N.numPis = i
  outputs : N.outputs.length = o + l
  numPos : N.numPos = o
  latches : N.latches.length = l
  gates : N.gates.length ≤ a

/-! ### proofs -/

/-- what holds while the reader runs: `c` inputs and registers, at most `g` gates, and all stored signals are in the network -/
structure Ok (s : RSt) (c p g : Nat) : Prop where
  built : Built s.net
  inputs : s.net.inputs = List.range' 1 c
  numPis : s.net.numPis = p
  outputs : s.net.outputs = []
  numPos : s.net.numPos = 0
  latches : s.net.latches = []
  gates : s.net.numGates ≤ g
  valid : ∀ x ∈ s.signals, s.net.Valid x

theorem mkPis_ok : ∀ (k : Nat) (s : RSt) (c : Nat), Ok s c c 0 → s.net.nodes.length = c + 1 →
    Ok (mkPis k s) (c + k) (c + k) 0 ∧ (mkPis k s).net.nodes.length = c + k + 1 ∧ (mkPis k s).outputs = s.outputs ∧ (mkPis k s).latches = s.latches := by
  intro k
  induction k with
  | zero => intro s c h hl; exact ⟨h, hl, rfl, rfl⟩
  | succ k ih =>
    intro s c h hl
    rw [mkPis]
    have := ih { s with net := s.net.createPi.1, signals := s.signals ++ [s.net.createPi.2] } (c + 1)
      ⟨.pi h.built, by
        show s.net.inputs ++ [s.net.nodes.length] = _
        rw [h.inputs, hl, List.range'_1_concat, Nat.add_comm 1 c], by
        show s.net.numPis + 1 = _
        rw [h.numPis], h.outputs, h.numPos, h.latches, h.gates, by
        intro x hx
        rcases List.mem_append.1 hx with hx | hx
        · exact (ext_createPi s.net).valid (h.valid x hx)
        · rw [List.mem_singleton] at hx
          subst hx
          show s.net.nodes.length < (s.net.nodes ++ [_]).length
          simp⟩ (by
        show (s.net.nodes ++ [_]).length = _
        simp [hl])
    rw [show c + (k + 1) = c + 1 + k by omega]
    exact this

theorem mkRos_ok : ∀ (k : Nat) (s : RSt) (c p : Nat), Ok s c p 0 → s.net.nodes.length = c + 1 →
    Ok (mkRos k s) (c + k) p 0 ∧ (mkRos k s).outputs = s.outputs ∧ (mkRos k s).latches = s.latches := by
  intro k
  induction k with
  | zero => intro s c p h hl; exact ⟨h, rfl, rfl⟩
  | succ k ih =>
    intro s c p h hl
    rw [mkRos]
    have := ih { s with net := s.net.createRo.1, signals := s.signals ++ [s.net.createRo.2] } (c + 1) p
      ⟨.ro h.built, by
        show s.net.inputs ++ [s.net.nodes.length] = _
        rw [h.inputs, hl, List.range'_1_concat, Nat.add_comm 1 c], h.numPis, h.outputs, h.numPos, h.latches, h.gates, by
        intro x hx
        rcases List.mem_append.1 hx with hx | hx
        · exact (ext_createRo s.net).valid (h.valid x hx)
        · rw [List.mem_singleton] at hx
          subst hx
          show s.net.nodes.length < (s.net.nodes ++ [_]).length
          simp⟩ (by
        show (s.net.nodes ++ [_]).length = _
        simp [hl])
    rw [show c + (k + 1) = c + 1 + k by omega]
    exact this

theorem onHeader_ok (i l : Nat) : Ok (onHeader i l) (i + l) i 0 ∧ (onHeader i l).outputs = [] ∧ (onHeader i l).latches = [] := by
  obtain ⟨h1, h2, h3, h4⟩ := mkPis_ok i ⟨Aig.empty, [Sig.const false], [], []⟩ 0
    ⟨.empty, rfl, rfl, rfl, rfl, rfl, by decide, by
      intro x hx
      rw [List.mem_singleton] at hx
      subst hx
      decide⟩ rfl
  rw [Nat.zero_add] at h1 h2
  obtain ⟨r1, r2, r3⟩ := mkRos_ok l _ i i h1 h2
  exact ⟨r1, r2.trans h3, r3.trans h4⟩

theorem readLatches_ok : ∀ (k : Nat) (b : List Byte) (s : RSt), (readLatches k b s).2.net = s.net ∧ (readLatches k b s).2.signals = s.signals ∧
    (readLatches k b s).2.outputs = s.outputs ∧ (readLatches k b s).2.latches.length = s.latches.length + k := by
  intro k
  induction k with
  | zero => intro b s; exact ⟨rfl, rfl, rfl, rfl⟩
  | succ k ih =>
    intro b s
    rw [readLatches]
    refine ⟨(ih _ _).1, (ih _ _).2.1, (ih _ _).2.2.1, ?_⟩
    rw [(ih _ _).2.2.2]
    simp
    omega

theorem readOutputs_ok : ∀ (k : Nat) (b : List Byte) (s : RSt), (readOutputs k b s).2.net = s.net ∧ (readOutputs k b s).2.signals = s.signals ∧
    (readOutputs k b s).2.latches = s.latches ∧ (readOutputs k b s).2.outputs.length = s.outputs.length + k := by
  intro k
  induction k with
  | zero => intro b s; exact ⟨rfl, rfl, rfl, rfl⟩
  | succ k ih =>
    intro b s
    rw [readOutputs]
    refine ⟨(ih _ _).1, (ih _ _).2.1, (ih _ _).2.2.1, ?_⟩
    rw [(ih _ _).2.2.2]
    simp
    omega

theorem litSig_ok {s : RSt} {c p g : Nat} (h : Ok s c p g) {lit : BitVec 32} {x : Sig} (e : litSig s lit = some x) : s.net.Valid x := by
  unfold litSig at e
  cases hx : s.signals[(lit >>> 1).toNat]? with
  | none => rw [hx] at e; cases e
  | some y =>
    rw [hx, Option.map_some, Option.some.injEq] at e
    have hy := h.valid y (List.mem_of_getElem? hx)
    subst e
    split
    · exact hy
    · exact hy

theorem bind_ok {α β : Type} {r : Res α} {k : α → Res β} {b : β} (e : r.bind k = .ok b) : ∃ a, r = .ok a ∧ k a = .ok b := by
  cases r with
  | ok a => exact ⟨a, rfl, e⟩
  | parseError => cases e
  | ub => cases e
  | hang => cases e

theorem onAnd_ok {s s' : RSt} {c p g : Nat} (h : Ok s c p g) {l r : BitVec 32} (e : onAnd s l r = .ok s') :
    Ok s' c p (g + 1) ∧ s'.outputs = s.outputs ∧ s'.latches = s.latches := by
  unfold onAnd at e
  split at e
  · rename_i a b ha hb
    have va := litSig_ok h ha
    have vb := litSig_ok h hb
    have sp := createAnd_spec h.built.wf va vb
    rw [Res.ok.injEq] at e
    subst e
    refine ⟨⟨.and h.built va vb, ?_, ?_, ?_, ?_, ?_, ?_, ?_⟩, rfl, rfl⟩
    · rw [← h.inputs]; exact sp.inputs
    · rw [← h.numPis]; exact sp.numPis
    · rw [← h.outputs]; exact sp.outputs
    · rw [← h.numPos]; exact sp.numPos
    · rw [← h.latches]; exact sp.latches
    · rcases createAnd_cases s.net a b with e | ⟨c, d, _, _, _, _, _, e⟩
      · show (s.net.createAnd a b).1.table.length ≤ g + 1
        rw [e]
        exact h.gates.trans (Nat.le_succ g)
      · show (s.net.createAnd a b).1.table.length ≤ g + 1
        rw [e]
        have := h.gates
        unfold numGates at this
        show s.net.table.length + 1 ≤ g + 1
        omega
    · intro x hx
      rcases List.mem_append.1 hx with hx | hx
      · exact sp.ext.valid (h.valid x hx)
      · rw [List.mem_singleton] at hx
        subst hx
        exact sp.valid
  · cases e

theorem readAnds_ok : ∀ (k : Nat) (i : BitVec 32) (b : List Byte) (s : RSt) (q : List Byte × RSt) (c p g : Nat), Ok s c p g → readAnds k i b s = .ok q →
    Ok q.2 c p (g + k) ∧ q.2.outputs = s.outputs ∧ q.2.latches = s.latches := by
  intro k
  induction k with
  | zero =>
    intro i b s q c p g h e
    rw [readAnds, Res.ok.injEq] at e
    subst e
    exact ⟨h, rfl, rfl⟩
  | succ k ih =>
    intro i b s q c p g h e
    rw [readAnds] at e
    obtain ⟨d1, _, e⟩ := bind_ok e
    obtain ⟨d2, _, e⟩ := bind_ok e
    dsimp only at e
    obtain ⟨s', e1, e⟩ := bind_ok e
    obtain ⟨h1, h2, h3⟩ := onAnd_ok h e1
    obtain ⟨r1, r2, r3⟩ := ih _ _ _ _ _ _ _ h1 e
    rw [show g + 1 + k = g + (k + 1) by omega] at r1
    exact ⟨r1, r2.trans h2, r3.trans h3⟩

theorem mkOutputs_ok {s : RSt} : ∀ (l : List (BitVec 32)) (N N' : Aig), Built N → (∀ lit x, litSig s lit = some x → N.Valid x) → mkOutputs s l N = .ok N' →
    Built N' ∧ N'.inputs = N.inputs ∧ N'.numPis = N.numPis ∧ N'.outputs.length = N.outputs.length + l.length ∧ N'.numPos = N.numPos + l.length ∧
      N'.latches = N.latches ∧ N'.numGates = N.numGates ∧ Ext N N' := by
  intro l
  induction l with
  | nil =>
    intro N N' h _ e
    rw [mkOutputs, Res.ok.injEq] at e
    subst e
    exact ⟨h, rfl, rfl, rfl, rfl, rfl, rfl, Ext.refl _⟩
  | cons lit l ih =>
    intro N N' h hv e
    rw [mkOutputs] at e
    split at e
    · rename_i f hf
      have vf := hv lit f hf
      obtain ⟨r1, r2, r3, r4, r5, r6, r7, r8⟩ := ih _ _ (.po h vf) (fun lit x hx => (ext_createPo N f).valid (hv lit x hx)) e
      refine ⟨r1, r2, r3, ?_, ?_, r6, r7, (ext_createPo N f).trans r8⟩
      · rw [r4]
        show (N.outputs ++ [f]).length + l.length = _
        simp; omega
      · rw [r5]
        show N.numPos + 1 + l.length = _
        simp; omega
    · cases e

theorem mkRis_ok {s : RSt} : ∀ (l : List (BitVec 32 × Int)) (N N' : Aig), Built N → (∀ lit x, litSig s lit = some x → N.Valid x) → mkRis s l N = .ok N' →
    Built N' ∧ N'.inputs = N.inputs ∧ N'.numPis = N.numPis ∧ N'.outputs.length = N.outputs.length + l.length ∧ N'.numPos = N.numPos ∧
      N'.latches.length = N.latches.length + l.length ∧ N'.numGates = N.numGates := by
  intro l
  induction l with
  | nil =>
    intro N N' h _ e
    rw [mkRis, Res.ok.injEq] at e
    subst e
    exact ⟨h, rfl, rfl, rfl, rfl, rfl, rfl⟩
  | cons y l ih =>
    intro N N' h hv e
    obtain ⟨lit, reset⟩ := y
    rw [mkRis] at e
    split at e
    · rename_i f hf
      have vf := hv lit f hf
      obtain ⟨r1, r2, r3, r4, r5, r6, r7⟩ := ih _ _ (.ri h vf) (fun lit x hx => (ext_createRi N f reset).valid (hv lit x hx)) e
      refine ⟨r1, r2, r3, ?_, r5, ?_, r7⟩
      · rw [r4]
        show (N.outputs ++ [f]).length + l.length = _
        simp; omega
      · rw [r6]
        show (N.latches ++ [reset]).length + l.length = _
        simp; omega
    · cases e

theorem readBody_ok {i l o a b c j f : BitVec 32} {bs : List Byte} {N : Aig} (e : readBody i l o a b c j f bs = .ok N) :
    Conforms N i.toNat l.toNat o.toNat a.toNat := by
  unfold readBody at e
  dsimp only at e
  obtain ⟨b5, _, e⟩ := bind_ok e
  obtain ⟨q7, e7, e⟩ := bind_ok e
  obtain ⟨_, _, e⟩ := bind_ok e
  obtain ⟨M, eM, e⟩ := bind_ok e
  obtain ⟨h0, h0o, h0l⟩ := onHeader_ok i.toNat l.toNat
  obtain ⟨l1, l2, l3, l4⟩ := readLatches_ok l.toNat bs (onHeader i.toNat l.toNat)
  obtain ⟨o1, o2, o3, o4⟩ := readOutputs_ok o.toNat (readLatches l.toNat bs (onHeader i.toNat l.toNat)).1 (readLatches l.toNat bs (onHeader i.toNat l.toNat)).2
  have h2 : Ok (readOutputs o.toNat (readLatches l.toNat bs (onHeader i.toNat l.toNat)).1 (readLatches l.toNat bs (onHeader i.toNat l.toNat)).2).2
      (i.toNat + l.toNat) i.toNat 0 := by
    constructor
    all_goals rw [o1, l1]
    · exact h0.built
    · exact h0.inputs
    · exact h0.numPis
    · exact h0.outputs
    · exact h0.numPos
    · exact h0.latches
    · exact h0.gates
    · rw [o2, l2]; exact h0.valid
  obtain ⟨a1, a2, a3⟩ := readAnds_ok _ _ _ _ _ _ _ _ h2 e7
  have hcount := count_le (i + l) a
  have hv : ∀ lit x, litSig q7.2 lit = some x → q7.2.net.Valid x := fun lit x hx => litSig_ok a1 hx
  obtain ⟨r1, r2, r3, r4, r5, r6, r7, r8⟩ := mkOutputs_ok _ _ _ a1.built hv eM
  obtain ⟨t1, t2, t3, t4, t5, t6, t7⟩ := mkRis_ok _ _ _ r1 (fun lit x hx => r8.valid (hv lit x hx)) e
  have hol : q7.2.outputs.length = o.toNat := by rw [a2, o4, l3, h0o]; simp
  have hll : q7.2.latches.length = l.toNat := by rw [a3, o3, l4, h0l]; simp
  refine ⟨t1, ?_, ?_, ?_, ?_, ?_, ?_⟩
  · rw [t2, r2, a1.inputs]
  · rw [t3, r3, a1.numPis]
  · rw [t4, r4, a1.outputs, hol, hll]; simp
  · rw [t5, r5, a1.numPos, hol]; simp
  · rw [t6, r6, a1.latches, hll]; simp
  · rw [← gates_length t1.wf, t7, r7]
    have := a1.gates
    omega

theorem pieces_flat (ws : List (List Byte)) (h : ∀ w ∈ ws, ∀ c ∈ w, c ≠ 32#8) : ∀ (p : List Byte), (∀ c ∈ p, c ≠ 32#8) →
    pieces (p ++ ws.flatMap (fun w => 32#8 :: w)) = p :: ws := by
  induction ws with
  | nil => intro p hp; simp [pieces_single p hp]
  | cons w ws ih =>
    intro p hp
    rw [List.flatMap_cons, List.cons_append, pieces_cons p _ hp, ih (fun v hv => h v (List.mem_cons_of_mem _ hv)) w (h w List.mem_cons_self)]

theorem digit_of_range {c : Byte} (h : 48#8 ≤ c ∧ c ≤ 57#8) : ∃ d, d < 10 ∧ c = BitVec.ofNat 8 (48 + d) := by
  have h1 : 48 ≤ c.toNat := h.1
  have h2 : c.toNat ≤ 57 := h.2
  refine ⟨c.toNat - 48, by omega, ?_⟩
  rw [show 48 + (c.toNat - 48) = c.toNat by omega]
  simp

theorem number_read {w : List Byte} (h : Digits w) {n : Nat} (e : number w = n) (hn : n < 2 ^ 32) : (toUnsigned (atol w)).toNat = n := by
  have e' : digitsVal w = n := e
  rw [atol_digits w h, e']
  have : min (n : Int) (2 ^ 63 - 1) = n := by omega
  rw [this, toUnsigned]
  simp
  omega

/-! ### the property -/

/-- Whatever the reader accepts is a well-formed network: inputs first, then register outputs, then gates, and as many register inputs as register outputs. -/
theorem C85_built (bs : List Byte) (N : Aig) (e : read bs = .ok N) : ∃ i l o a, Conforms N i l o a := by
  unfold read at e
  dsimp only at e
  split at e
  · exact ⟨_, _, _, _, readBody_ok e⟩
  · cases e

/-- Whatever follows the header, an accepted file gives the announced numbers of inputs, registers and outputs, and at most the announced number of gates.
Missing: files that break the format are not all refused. -/
theorem C85_accepted_partial (bs : List Byte) (N : Aig) (e : read bs = .ok N) (i l o a : Nat) (h : Announces bs i l o a)
    (hi : i < 2 ^ 32) (hl : l < 2 ^ 32) (ho : o < 2 ^ 32) (ha : a < 2 ^ 32) : Conforms N i l o a := by
  obtain ⟨line, rest, wm, wi, wl, wo, wa, more, rfl, hline, hd, ei, el, eo, ea⟩ := h
  have hD : ∀ w ∈ wm :: wi :: wl :: wo :: wa :: more, Digits w := fun w hw c hc => digit_of_range ((hd w hw).2 c hc)
  have hp : pieces line = [97#8, 105#8, 103#8] :: wm :: wi :: wl :: wo :: wa :: more := by
    rw [hline]
    exact pieces_flat _ (fun w hw => (hD w hw).noSpace) _ (by decide)
  have hb : ∀ c ∈ line, c ≠ 10#8 ∧ c ≠ 13#8 := by
    intro c hc
    rw [hline] at hc
    rcases List.mem_append.1 hc with hc | hc
    · have : ∀ c ∈ [97#8, 105#8, 103#8], c ≠ 10#8 ∧ c ≠ 13#8 := by decide
      exact this c hc
    · obtain ⟨w, hw, hc⟩ := List.mem_flatMap.1 hc
      rcases List.mem_cons.1 hc with rfl | hc
      · decide
      · exact (hD w hw).noBreak c hc
  unfold read at e
  rw [getline_append line rest hb] at e
  dsimp only at e
  unfold parseHeader at e
  rw [hp] at e
  dsimp only at e
  split at e
  · rename_i m i' l' o' a' r heq
    split at heq
    · rw [Option.some.injEq, List.map_cons, List.map_cons, List.map_cons, List.map_cons, List.map_cons] at heq
      injection heq with _ heq
      injection heq with e1 heq
      injection heq with e2 heq
      injection heq with e3 heq
      injection heq with e4 _
      have := readBody_ok e
      rw [← e1, ← e2, ← e3, ← e4, number_read (hD wi (by simp)) ei hi, number_read (hD wl (by simp)) el hl,
        number_read (hD wo (by simp)) eo ho, number_read (hD wa (by simp)) ea ha] at this
      exact this
    · cases heq
  · cases e

/-! ### examples and counterexamples -/

/-- the bytes of a text -/
def text (s : String) : List Byte := s.toList.map fun c => BitVec.ofNat 8 c.toNat

/-- two inputs, a register, an output and a gate: the register stores the conjunction of the inputs -/
def withRegister : List Byte := text "aig 4 2 1 1 1\n8\n6\n" ++ [2#8, 2#8]

example : Announces withRegister 2 1 1 1 :=
  ⟨text "aig 4 2 1 1 1", text "8\n6\n" ++ [2#8, 2#8], text "4", text "2", text "1", text "1", text "1", [], by decide, by decide, by decide,
    by decide, by decide, by decide, by decide⟩

example : (match read withRegister with
    | .ok N => decide (N.inputs = [1, 2, 3] ∧ N.numPis = 2 ∧ N.outputs.length = 2 ∧ N.numPos = 1 ∧ N.latches.length = 1 ∧ N.gates = [4])
    | _ => false) = true := by decide +kernel

/-- The file ends before the announced output: it is accepted, with the constant 0 as the output. -/
theorem C85_violated_missing : (match read (text "aig 1 1 0 1 0\n") with
    | .ok N => decide (N.outputs = [Sig.const false])
    | _ => false) = true := by decide +kernel

/-- A line of letters in place of an output is accepted as the constant 0. -/
theorem C85_violated_letters : (match read (text "aig 1 1 0 1 0\nhello\n") with
    | .ok N => decide (N.outputs = [Sig.const false])
    | _ => false) = true := by decide +kernel

/-- The maximal variable is smaller than the number of inputs: accepted all the same. -/
theorem C85_violated_maximum : (match read (text "aig 0 1 0 1 0\n2\n") with
    | .ok N => decide (N.outputs = [⟨1, false⟩])
    | _ => false) = true := by decide +kernel

/-- The bound on the numbers is needed: of 4294967297 announced inputs one is made. -/
theorem C85_violated_large : Announces (text "aig 1 4294967297 0 0 0\n") 4294967297 0 0 0 ∧
    (match read (text "aig 1 4294967297 0 0 0\n") with
    | .ok N => decide (N.numPis = 1)
    | _ => false) = true :=
  ⟨⟨text "aig 1 4294967297 0 0 0", [], text "1", text "4294967297", text "0", text "0", text "0", [], by decide, by decide, by decide,
    by decide, by decide, by decide, by decide⟩, by decide +kernel⟩

end Verif.Aiger
