import Verif.Sim.PackProof

set_option autoImplicit false

/-!
# C50: pattern packing loses no simulation pattern

A session is a sequence of calls of `add_pattern`, `pack_bits` and `randomize_dont_care_bits` on a simulator constructed
from initial patterns. Every pattern ever given to the simulator is still there, at one position that agrees with all
its cared-for bits; and every cared-for bit comes from some pattern that was given.

Read strictly, `add_bit` shifts by 2³²-1 for every 64th bit, so sessions of 64 patterns are undefined
(`C50_violated_shift`); the claim is proved for the instruction set the tool is built for, on which the shift count is
taken modulo 64, and for all sessions that are defined in the strict reading.
-/

namespace Verif.Pack

/-- calls of the public interface -/
inductive Call where
  | add (bits : List (Bool × Bool))
  | pack (start : Nat → Nat)
  | randomize (rnd : Nat → Nat → Bool)

/-- effect of a call, simulation.hpp 322-406 -/
def call (x86 : Bool) (s : Sim) : Call → Option Sim
  | .add bs => addPattern x86 s bs
  | .pack start => (packBits start s).map (·.1)
  | .randomize rnd => some (randomize rnd s)

/-- a session, simulation.hpp 322-406 -/
def session (x86 : Bool) : Sim → List Call → Option Sim
  | s, [] => some s
  | s, c :: cs =>
    match call x86 s c with
    | none => none
    | some s' => session x86 s' cs

/-- every call of `add_pattern` gives a bit for every input (asserted in the code) -/
def Widths (w : Nat) (cs : List Call) : Prop := ∀ bs, Call.add bs ∈ cs → bs.length = w

theorem call_spec {x86 : Bool} {w : Nat} {s s' : Sim} (h : Inv w s) (c : Call) (hw : ∀ bs, c = .add bs → bs.length = w)
    (e : call x86 s c = some s') : Inv w s' ∧ Keeps s.rows s'.rows (· < s.numPatterns) (· < s'.numPatterns) ∧
      (∀ bs, c = .add bs → ∃ q, q < s'.numPatterns ∧ ∀ (i : Nat) b, bs[i]? = some (b, true) → At s'.rows i q b) ∧
      ∀ i q b, At s'.rows i q b → (∃ q', At s.rows i q' b) ∨ ∃ bs, c = .add bs ∧ bs[i]? = some (b, true) := by
  cases c with
  | add bs =>
    have hb := hw bs rfl
    unfold call addPattern at e
    dsimp only at e
    split at e
    · cases e
    · rename_i rows er
      cases e
      obtain ⟨g1, g2, g3, g4, g5⟩ := addRows_spec s.rows bs rows h.sized (by rw [hb, h.width]) er
      refine ⟨⟨g1, by have := h.packed; dsimp only; omega, by dsimp only; rw [g2, h.width]⟩, ?_, ?_, ?_⟩
      · intro q hq
        exact ⟨q, Nat.lt_succ_of_lt hq, fun i b hx => g3 i q b hx⟩
      · intro bs' hbs
        cases hbs
        exact ⟨s.numPatterns, Nat.lt_succ_self _, g4⟩
      · intro i q b hx
        rcases g5 i q b hx with hx | ⟨_, hx⟩
        · exact Or.inl ⟨q, hx⟩
        · exact Or.inr ⟨bs, rfl, hx⟩
  | pack start =>
    obtain ⟨s1, f, e1, hi, _, _, ho, hk⟩ := packBits_spec start s h
    unfold call at e
    dsimp only at e
    rw [e1] at e
    cases e
    refine ⟨hi, hk, fun bs hbs => (by cases hbs), fun i q b hx => Or.inl (ho i q b hx)⟩
  | randomize rnd =>
    unfold call at e
    cases e
    obtain ⟨h1, h2, h3⟩ := randomize_spec rnd s.rows 0 h.sized
    refine ⟨⟨h1, h.packed, h2.trans h.width⟩, fun q hq => ⟨q, hq, fun i b hx => (h3 i q b).2 hx⟩, fun bs hbs => (by cases hbs),
      fun i q b hx => Or.inl ⟨q, (h3 i q b).1 hx⟩⟩

theorem session_spec {x86 : Bool} {w : Nat} : ∀ (cs : List Call) (s s' : Sim), Inv w s → Widths w cs → session x86 s cs = some s' →
    Inv w s' ∧ Keeps s.rows s'.rows (· < s.numPatterns) (· < s'.numPatterns) ∧
      (∀ bs, Call.add bs ∈ cs → ∃ q, q < s'.numPatterns ∧ ∀ (i : Nat) b, bs[i]? = some (b, true) → At s'.rows i q b) ∧
      ∀ i q b, At s'.rows i q b → (∃ q', At s.rows i q' b) ∨ ∃ bs, Call.add bs ∈ cs ∧ bs[i]? = some (b, true) := by
  intro cs
  induction cs with
  | nil =>
    intro s s' h _ e
    cases e
    exact ⟨h, fun q hq => ⟨q, hq, fun _ _ hx => hx⟩, fun bs hbs => (by simp at hbs), fun i q b hx => Or.inl ⟨q, hx⟩⟩
  | cons c cs ih =>
    intro s s' h hw e
    rw [session] at e
    split at e
    · cases e
    · rename_i s1 e1
      obtain ⟨i1, k1, a1, o1⟩ := call_spec h c (fun bs hb => hw bs (by simp [hb])) e1
      obtain ⟨i2, k2, a2, o2⟩ := ih s1 s' i1 (fun bs hb => hw bs (by simp [hb])) e
      refine ⟨i2, k1.trans k2, ?_, ?_⟩
      · intro bs hb
        rcases List.mem_cons.1 hb with hb | hb
        · obtain ⟨q, hq, hx⟩ := a1 bs hb.symm
          obtain ⟨q', hq', hx'⟩ := k2 q hq
          exact ⟨q', hq', fun i b hi => hx' i b (hx i b hi)⟩
        · exact a2 bs hb
      · intro i q b hx
        rcases o2 i q b hx with ⟨q', hx'⟩ | ⟨bs, hbs, hi⟩
        · rcases o1 i q' b hx' with hx'' | ⟨bs, hbs, hi⟩
          · exact Or.inl hx''
          · exact Or.inr ⟨bs, by rw [hbs]; simp, hi⟩
        · exact Or.inr ⟨bs, by simp [hbs], hi⟩

/-- the bit of input `i` at position `q` is cared for and is `b` -/
def Sim.Holds (s : Sim) (i q : Nat) (b : Bool) : Prop :=
  ∃ r, s.rows[i]? = some r ∧ r.care[q]? = some true ∧ r.pat[q]? = some b

/-- C50. For every simulator constructed from initial tables of `n` bits and every session that runs through:
every initial pattern is found at some position (all inputs at the same position), every added pattern is found at
some position as far as it is cared for, and every cared-for bit is a bit of the same input of one of these patterns.
The tables have one bit per pattern. -/
theorem C50_packing (x86 : Bool) (pats : List (List Bool)) (n : Nat) (hn : ∀ t ∈ pats, t.length = n) (cs : List Call)
    (hw : Widths pats.length cs) (s : Sim) (hs : session x86 (init pats n) cs = some s) :
    (∀ q, q < n → ∃ q', q' < s.numPatterns ∧ ∀ (i : Nat) t b, pats[i]? = some t → t[q]? = some b → s.Holds i q' b) ∧
    (∀ bs, Call.add bs ∈ cs → ∃ q', q' < s.numPatterns ∧ ∀ (i : Nat) b, bs[i]? = some (b, true) → s.Holds i q' b) ∧
    (∀ i q' b, s.Holds i q' b → (∃ (t : List Bool) (q : Nat), pats[i]? = some t ∧ t[q]? = some b) ∨
      ∃ bs, Call.add bs ∈ cs ∧ bs[i]? = some (b, true)) ∧
    s.rows.length = pats.length ∧ ∀ r ∈ s.rows, r.pat.length = s.numPatterns ∧ r.care.length = s.numPatterns := by
  have hi : Inv pats.length (init pats n) := by
    refine ⟨?_, Nat.le_refl _, by simp [init]⟩
    intro r hr
    obtain ⟨t, ht, rfl⟩ := List.mem_map.1 hr
    exact ⟨hn t ht, by simp [init]⟩
  obtain ⟨h1, h2, h3, h4⟩ := session_spec cs _ s hi hw hs
  refine ⟨fun q hq => ?_, h3, fun i q' b hx => ?_, h1.width, h1.sized⟩
  · obtain ⟨q', hq', hx⟩ := h2 q hq
    refine ⟨q', hq', fun i t b ht hb => hx i b ⟨⟨t, List.replicate n true⟩, ?_, ?_, hb⟩⟩
    · rw [init]; dsimp only; rw [List.getElem?_map, ht]; rfl
    · dsimp only; rw [List.getElem?_replicate, if_pos hq]
  · rcases h4 i q' b hx with ⟨q, r, hr, _, hb⟩ | hx
    · rw [init] at hr
      dsimp only at hr
      rw [List.getElem?_map, Option.map_eq_some_iff] at hr
      obtain ⟨t, ht, rfl⟩ := hr
      exact Or.inl ⟨t, q, ht, hb⟩
    · exact Or.inr hx

/-- Where shift counts are taken modulo 64, every session runs through: no access outside a table, no endless loop. -/
theorem C50_defined (pats : List (List Bool)) (n : Nat) (hn : ∀ t ∈ pats, t.length = n) (cs : List Call)
    (hw : Widths pats.length cs) : ∃ s, session true (init pats n) cs = some s := by
  have main : ∀ (cs : List Call) (w : Nat) (s : Sim), Inv w s → Widths w cs → ∃ s', session true s cs = some s' := by
    intro cs
    induction cs with
    | nil => intro w s _ _; exact ⟨s, rfl⟩
    | cons c cs ih =>
      intro w s hi hw
      have hc : ∃ s1, call true s c = some s1 := by
        cases c with
        | add bs =>
          obtain ⟨rows, e⟩ := addRows_x86 s.rows bs (by rw [hi.width]; exact hw bs (by simp))
          exact ⟨{ s with rows := rows, numPatterns := s.numPatterns + 1 }, by simp [call, addPattern, e]⟩
        | pack start =>
          obtain ⟨s1, f, e, _⟩ := packBits_spec start s hi
          exact ⟨s1, by simp [call, e]⟩
        | randomize rnd => exact ⟨_, rfl⟩
      obtain ⟨s1, e⟩ := hc
      rw [session, e]
      exact ih w s1 (call_spec hi c (fun bs hb => hw bs (by simp [hb])) e).1 (fun bs hb => hw bs (by simp [hb]))
  refine main cs pats.length _ ⟨?_, Nat.le_refl _, by simp [init]⟩ hw
  intro r hr
  obtain ⟨t, ht, rfl⟩ := List.mem_map.1 hr
  exact ⟨hn t ht, by simp [init]⟩

/-- The return value of `pack_bits` says whether patterns were merged, and the number of patterns never grows. -/
theorem C50_result (w : Nat) (start : Nat → Nat) (s s' : Sim) (f : Bool) (h : Inv w s) (e : packBits start s = some (s', f)) :
    s'.numPatterns ≤ s.numPatterns ∧ (f = true ↔ s'.numPatterns < s.numPatterns) := by
  obtain ⟨s1, f1, e1, _, h1, h2, _⟩ := packBits_spec start s h
  rw [e] at e1
  cases e1
  exact ⟨h1, h2⟩

/-- The 64th pattern: a one-input simulator to which 64 cared-for ones are added shifts a word by 2³²-1. -/
theorem C50_violated_shift : session false (init [[]] 0) (List.replicate 64 (.add [(true, true)])) = none := by
  decide +kernel

/-- three patterns over two inputs; the last two are merged into one position -/
example : ∃ s, session true (init [[true], [false]] 1)
      [.add [(true, true), (false, false)], .add [(false, false), (true, true)], .pack fun _ => 0] = some s ∧
    s.numPatterns = 2 ∧ s.Holds 0 1 true ∧ s.Holds 1 1 true := by
  refine ⟨⟨[⟨[true, true], [true, true]⟩, ⟨[false, true], [true, true]⟩], 2, 2⟩, by decide +kernel, rfl,
    ⟨_, rfl, rfl, rfl⟩, ⟨_, rfl, rfl, rfl⟩⟩

end Verif.Pack
