import Verif.Choice.Mux
import Verif.Props.C14

set_option autoImplicit false

/-!
# C40: mux recognition is sound

Whenever a node is recognised as a multiplexer with control `c` and data `t`, `e`, the node's value
equals `c ? t : e` under every assignment. Proved for all constructed networks, together with the
facts that recognition never leaves its results unset, that the control is not complemented, and
that exactly the nodes of the shape `!(a & b) & !(c & d)` with a complementary pair across the two
products are recognised.
-/

namespace Verif.Aig

/-- Specification: the node is an AND of two complemented ANDs `p`, `q`, and some fanin of `p` is
the complement of some fanin of `q`. -/
def MuxShape (N : Aig) (n : Nat) : Prop :=
  ∃ p q a b c d, N.IsGate n ⟨p, true⟩ ⟨q, true⟩ ∧ N.IsGate p a b ∧ N.IsGate q c d ∧
    ∃ s ∈ [a, b], s.not ∈ [c, d]

theorem WF.and_iff {N : Aig} (h : WF N) {n : Nat} (hn : n < N.nodes.length) :
    (N.isAnd n = true ∧ ∃ a b, N.IsGate n a b ∧ N.kids n = some (a, b)) ∨
      (N.isAnd n = false ∧ ∀ a b, ¬ N.IsGate n a b) := by
  obtain ⟨nd, hnd⟩ : ∃ nd, N.nodes[n]? = some nd := ⟨_, List.getElem?_eq_getElem hn⟩
  by_cases h0 : n = 0
  · refine Or.inr ⟨by simp [isAnd, h0], fun a b g => g.1 h0⟩
  · by_cases hc : N.isCi n = true
    · refine Or.inr ⟨by simp [isAnd, hc], fun a b g => ?_⟩
      have := g.not_ci h
      rw [hc] at this; cases this
    · refine Or.inl ⟨?_, nd.c0, nd.c1, ?_, by simp [kids, hnd]⟩
      · simp [isAnd, hc]; omega
      · refine h.isGate_of h0 ?_ hnd
        intro hi
        obtain ⟨k, hk⟩ := List.getElem?_of_mem hi
        obtain ⟨_, nd', hnd', e0, e1, _⟩ := h.input k n hk
        apply hc
        simp [isCi, hnd', e0, e1]

theorem IsGate.kids {N : Aig} {n : Nat} {a b : Sig} (g : N.IsGate n a b) :
    N.kids n = some (a, b) := by
  obtain ⟨_, _, nd, hnd, _, rfl, rfl⟩ := g
  simp [Aig.kids, hnd]

theorem IsGate.same {N : Aig} {n : Nat} {a b c d : Sig} (g : N.IsGate n a b) (g' : N.IsGate n c d) :
    a = c ∧ b = d := by
  have := g.kids.symm.trans g'.kids
  simpa using this

theorem not_eq_iff (a b : Sig) : a = b.not ↔ a.not = b := by
  constructor
  · rintro rfl; cases b; simp [Sig.not]
  · rintro rfl; cases a; simp [Sig.not]

theorem muxPattern_iff (a b c d : Sig) :
    muxPattern a b c d = true ↔ ∃ s ∈ [a, b], s.not ∈ [c, d] := by
  simp [muxPattern, not_eq_iff, or_assoc]

theorem muxBranch_val (a a' b b' : Sig) (hab : a = b.not) (v : Nat → Bool) :
    (muxBranch a a' b b').1.compl = false ∧
    (Bool.not (a.val v && a'.val v) && Bool.not (b.val v && b'.val v)) =
      if (muxBranch a a' b b').1.val v then (muxBranch a a' b b').2.1.val v
      else (muxBranch a a' b b').2.2.val v := by
  subst hab
  obtain ⟨i, c⟩ := b
  cases c
  · simp only [muxBranch, Sig.not, Bool.not_false, if_true, true_and]
    rw [← Sig.not, ← Sig.not, Sig.val_not, Sig.val_not]
    simp only [Sig.val, Bool.false_xor, Bool.true_xor]
    generalize Bool.xor a'.compl (v a'.index) = x
    generalize Bool.xor b'.compl (v b'.index) = y
    revert x y; cases v i <;> decide
  · simp only [muxBranch, Sig.not, Bool.not_true, Bool.false_eq_true, if_false, true_and]
    rw [← Sig.not, ← Sig.not, Sig.val_not, Sig.val_not]
    simp only [Sig.val, Bool.false_xor, Bool.true_xor]
    generalize Bool.xor a'.compl (v a'.index) = x
    generalize Bool.xor b'.compl (v b'.index) = y
    revert x y; cases v i <;> decide

theorem muxBranch_valid {N : Aig} {a a' b b' : Sig} (ha : N.Valid a) (ha' : N.Valid a')
    (hb : N.Valid b) (hb' : N.Valid b') :
    N.Valid (muxBranch a a' b b').1 ∧ N.Valid (muxBranch a a' b b').2.1 ∧
      N.Valid (muxBranch a a' b b').2.2 := by
  rw [muxBranch]
  split
  · exact ⟨hb, hb', ha'⟩
  · exact ⟨ha, ha', hb'⟩

theorem muxSelect_spec {N : Aig} {a b c d : Sig} (h : muxPattern a b c d = true) (ha : N.Valid a)
    (hb : N.Valid b) (hc : N.Valid c) (hd : N.Valid d) :
    ∃ i t e, muxSelect a b c d = some (i, t, e) ∧ i.compl = false ∧
      N.Valid i ∧ N.Valid t ∧ N.Valid e ∧
      ∀ v : Nat → Bool, (Bool.not (a.val v && b.val v) && Bool.not (c.val v && d.val v)) =
        if i.val v then t.val v else e.val v := by
  have key : ∀ (x x' y y' : Sig), x = y.not → N.Valid x → N.Valid x' → N.Valid y → N.Valid y' →
      (∀ v : Nat → Bool, (Bool.not (a.val v && b.val v) && Bool.not (c.val v && d.val v)) =
        (Bool.not (x.val v && x'.val v) && Bool.not (y.val v && y'.val v))) →
      ∃ i t e, some (muxBranch x x' y y') = some (i, t, e) ∧ i.compl = false ∧
        N.Valid i ∧ N.Valid t ∧ N.Valid e ∧
        ∀ v : Nat → Bool, (Bool.not (a.val v && b.val v) && Bool.not (c.val v && d.val v)) =
          if i.val v then t.val v else e.val v := by
    intro x x' y y' hxy h1 h2 h3 h4 hv
    obtain ⟨w1, w2, w3⟩ := muxBranch_valid (N := N) h1 h2 h3 h4
    exact ⟨_, _, _, rfl, (muxBranch_val x x' y y' hxy fun _ => false).1, w1, w2, w3,
      fun v => (hv v).trans (muxBranch_val x x' y y' hxy v).2⟩
  rw [muxSelect]
  by_cases h1 : b = d.not
  · rw [if_pos h1]
    exact key b a d c h1 hb ha hd hc fun v => by rw [Bool.and_comm (a.val v), Bool.and_comm (c.val v)]
  · rw [if_neg h1]
    by_cases h2 : a = c.not
    · rw [if_pos h2]; exact key a b c d h2 ha hb hc hd fun v => rfl
    · rw [if_neg h2]
      by_cases h3 : a = d.not
      · rw [if_pos h3]; exact key a b d c h3 ha hb hd hc fun v => by rw [Bool.and_comm (c.val v)]
      · rw [if_neg h3]
        by_cases h4 : b = c.not
        · rw [if_pos h4]; exact key b a c d h4 hb ha hc hd fun v => by rw [Bool.and_comm (a.val v)]
        · simp [muxPattern, h1, h2, h3, h4] at h

theorem isMux_iff {N : Aig} (h : WF N) {n : Nat} (hn : n < N.nodes.length) :
    ∃ r, N.isMux n = some r ∧ (r = true ↔ N.MuxShape n) := by
  rw [isMux, if_neg (by omega)]
  rcases h.and_iff hn with ⟨ha, c0, c1, g, hk⟩ | ⟨ha, hg⟩
  · rw [if_neg (by simp [ha]), hk]
    dsimp only
    obtain ⟨hi1, hi2, hi3, -⟩ := h.isGate_lt g
    by_cases hc : (!c0.compl || !c1.compl) = true
    · rw [if_pos hc]
      refine ⟨_, rfl, by simp, ?_⟩
      rintro ⟨p, q, a, b, c, d, g', -⟩
      obtain ⟨rfl, rfl⟩ := g.same g'
      simp at hc
    · rw [if_neg hc, if_neg (by omega)]
      have h0 : c0 = ⟨c0.index, true⟩ := by
        obtain ⟨i, x⟩ := c0; cases x
        · simp at hc
        · rfl
      have h1 : c1 = ⟨c1.index, true⟩ := by
        obtain ⟨i, x⟩ := c1; cases x
        · simp at hc
        · rfl
      rcases h.and_iff (n := c0.index) (by omega) with ⟨hb0, a, b, gp, hkp⟩ | ⟨hb0, hgp⟩
      · rcases h.and_iff (n := c1.index) (by omega) with ⟨hb1, c, d, gq, hkq⟩ | ⟨hb1, hgq⟩
        · rw [if_neg (by simp [hb0, hb1]), hkp, hkq]
          dsimp only
          refine ⟨_, rfl, ?_⟩
          rw [muxPattern_iff]
          constructor
          · intro hp
            exact ⟨c0.index, c1.index, a, b, c, d, by rw [← h0, ← h1]; exact g, gp, gq, hp⟩
          · rintro ⟨p, q, a', b', c', d', g', gp', gq', hp⟩
            obtain ⟨e0, e1⟩ := g.same g'
            rw [e0] at gp; rw [e1] at gq
            obtain ⟨rfl, rfl⟩ := gp.same gp'
            obtain ⟨rfl, rfl⟩ := gq.same gq'
            exact hp
        · rw [if_pos (by simp [hb1])]
          refine ⟨_, rfl, by simp, ?_⟩
          rintro ⟨p, q, a', b', c', d', g', gp', gq', hp⟩
          obtain ⟨e0, e1⟩ := g.same g'
          rw [e1] at hgq; exact absurd gq' (hgq _ _)
      · rw [if_pos (by simp [hb0])]
        refine ⟨_, rfl, by simp, ?_⟩
        rintro ⟨p, q, a', b', c', d', g', gp', gq', hp⟩
        obtain ⟨e0, e1⟩ := g.same g'
        rw [e0] at hgp; exact absurd gp' (hgp _ _)
  · rw [if_pos (by simp [ha])]
    refine ⟨_, rfl, by simp, ?_⟩
    rintro ⟨p, q, a', b', c', d', g', -⟩
    exact absurd g' (hg _ _)

theorem mux_spec {N : Aig} (h : WF N) {n : Nat} (hm : N.MuxShape n) :
    ∃ i t e, N.recognizeMux n = some (i, t, e) ∧ i.compl = false ∧ N.Valid i ∧ N.Valid t ∧
      N.Valid e ∧ ∀ v, N.Models v → v n = if i.val v then t.val v else e.val v := by
  obtain ⟨p, q, a, b, c, d, g, gp, gq, hs⟩ := hm
  have lp := h.isGate_lt gp
  have lq := h.isGate_lt gq
  obtain ⟨i, t, e, hsel, hc, vi, vt, ve, hv⟩ := muxSelect_spec (N := N) ((muxPattern_iff a b c d).2 hs)
    (show a.index < _ by omega) (show b.index < _ by omega) (show c.index < _ by omega)
    (show d.index < _ by omega)
  refine ⟨i, t, e, ?_, hc, vi, vt, ve, ?_⟩
  · rw [recognizeMux, g.kids]; dsimp only; rw [gp.kids, gq.kids]; exact hsel
  · intro v hmv
    rw [← hv v, hmv.gate n _ _ g]
    simp [Sig.val, hmv.gate p _ _ gp, hmv.gate q _ _ gq]

/-- C40. In every constructed network, for every node: `is_mux` answers, and answers `true` exactly
for the nodes of multiplexer shape; then `recognize_mux` yields signals of the network, the control
is not complemented, and the node's value is that of the multiplexer in every valuation. -/
theorem C40_mux {N : Aig} (hN : Built N) {n : Nat} (hn : n < N.nodes.length) :
    ∃ r, N.isMux n = some r ∧ (r = true ↔ N.MuxShape n) ∧
      (r = true → ∃ i t e, N.recognizeMux n = some (i, t, e) ∧ i.compl = false ∧
        N.Valid i ∧ N.Valid t ∧ N.Valid e ∧
        ∀ v, N.Models v → v n = if i.val v then t.val v else e.val v) := by
  obtain ⟨r, hr, hi⟩ := isMux_iff hN.wf hn
  exact ⟨r, hr, hi, fun h => mux_spec hN.wf (hi.1 h)⟩

/-- A network with a multiplexer whose control is complemented and an exclusive or, built with the
API. -/
def muxNet : Aig :=
  let N := Aig.empty.createPi.1.createPi.1.createPi.1
  let r := N.createIte ⟨1, true⟩ ⟨2, false⟩ ⟨3, true⟩
  (r.1.createXor ⟨2, false⟩ ⟨3, false⟩).1

theorem muxNet_built : Built muxNet := by
  have h0 : Built Aig.empty.createPi.1.createPi.1.createPi.1 := .pi (.pi (.pi .empty))
  have h1 := (createIte_spec h0.wf (N := Aig.empty.createPi.1.createPi.1.createPi.1)
    (c := ⟨1, true⟩) (t := ⟨2, false⟩) (e := ⟨3, true⟩) (by decide) (by decide) (by decide)).built h0
  exact (createXor_spec h1.wf (a := ⟨2, false⟩) (b := ⟨3, false⟩) (by decide) (by decide)).built h1

/-- The recognised nodes of that network and what is recognised there. -/
example : ((List.range muxNet.nodes.length).filter fun n => muxNet.isMux n == some true) = [6, 9] ∧
    muxNet.recognizeMux 6 = some (⟨1, false⟩, ⟨3, true⟩, ⟨2, false⟩) ∧
    muxNet.recognizeMux 9 = some (⟨3, false⟩, ⟨2, false⟩, ⟨2, true⟩) := by decide +kernel

end Verif.Aig
