import Verif.Choice.Sweep
import Verif.Choice.ClassesProof
import Verif.Choice.DeriveProof
import Verif.Props.C40

set_option autoImplicit false

/-!
# Resimulation after a disproof
-/

namespace Verif.Choice
open Aig (WF Built)

theorem ci_input {N : Aig} (hN : WF N) {n : Nat} (hn : n < N.nodes.length) (h0 : n ≠ 0) (hc : N.isCi n = true) : n ∈ N.inputs := by
  by_contra hi
  have g := hN.isGate_of (n := n) h0 hi (List.getElem?_eq_getElem hn)
  rw [g.not_ci hN] at hc
  cases hc

theorem gate_kids {N : Aig} (hN : WF N) {n : Nat} (hn : n < N.nodes.length) (h0 : n ≠ 0) (hc : ¬ N.isCi n = true) :
    ∃ a b, N.IsGate n a b ∧ N.kids n = some (a, b) := by
  rcases hN.and_iff hn with ⟨_, a, b, g, hk⟩ | ⟨ha, -⟩
  · exact ⟨a, b, g, hk⟩
  · simp [Aig.isAnd, h0, hc] at ha

/-! ### fanouts -/

/-- every entry of the fanout lists is a larger node -/
def FanOk (size : Nat) (f : List (List Nat)) : Prop := f.length = size ∧ ∀ (n : Nat) (l : List Nat), f[n]? = some l → ∀ x ∈ l, n < x ∧ x < size

theorem FanOk.modify {size : Nat} {f : List (List Nat)} (h : FanOk size f) {k n : Nat} (hk : k < n) (hn : n < size) :
    FanOk size (f.modify k fun l => if n ∈ l then l else l ++ [n]) := by
  refine ⟨by rw [List.length_modify]; exact h.1, fun m l hm x hx => ?_⟩
  rw [List.getElem?_modify] at hm
  cases hf : f[m]? with
  | none => rw [hf] at hm; simp at hm
  | some l0 =>
      rw [hf] at hm
      have hm' := Option.some.inj hm
      simp only [] at hm'
      have h0 := h.2 m l0 hf
      split at hm'
      · next e =>
        subst e
        rw [← hm'] at hx
        split at hx
        · exact h0 x hx
        · rcases List.mem_append.1 hx with hx | hx
          · exact h0 x hx
          · rw [List.mem_singleton.1 hx]; exact ⟨hk, hn⟩
      · rw [← hm'] at hx; exact h0 x hx

theorem fanouts_spec {N : Aig} (hN : WF N) : FanOk N.nodes.length (fanouts N) := by
  unfold fanouts
  have h0 : FanOk N.nodes.length (List.replicate N.nodes.length []) := by
    refine ⟨by simp, fun n l hl x hx => ?_⟩
    rw [List.getElem?_replicate] at hl
    split at hl
    · obtain rfl := Option.some.inj hl; simp at hx
    · cases hl
  have hg : ∀ n ∈ N.gates, ∃ a b, N.IsGate n a b := fun n hn => (hN.mem_gates n).1 hn
  generalize List.replicate N.nodes.length [] = f at h0
  generalize N.gates = gs at hg
  induction gs generalizing f with
  | nil => exact h0
  | cons n gs ih =>
      rw [List.foldl_cons]
      refine ih _ ?_ fun m hm => hg m (List.mem_cons_of_mem _ hm)
      obtain ⟨a, b, g⟩ := hg n List.mem_cons_self
      obtain ⟨l1, l2, l3, l4⟩ := hN.isGate_lt g
      rw [g.kids]
      exact (h0.modify (by omega) l4).modify l3 l4

/-! ### the classes to be refined -/

/-- only representatives are collected -/
def Collect.Ok (K : Classes) (st : Collect) : Prop := (∀ x ∈ st.markA, x ∈ st.roots) ∧ ∀ x ∈ st.roots, ∃ c : Nat, K.reprs[c]? = some x

theorem collectRec_spec {size : Nat} {fan : List (List Nat)} (hfan : FanOk size fan) {K : Classes} (hK : K.Ok size) :
    ∀ (fuel n : Nat) (st : Collect), n < size → size < n + fuel → st.Ok K →
    ∃ st', collectRec fan K fuel n st = some st' ∧ st'.Ok K ∧ (∀ x ∈ st.roots, x ∈ st'.roots) ∧
      (n ∉ st.visited → ∀ r, K.reprs[n]? = some r → r ≠ n → r ∈ st'.roots)
  | 0, n, _, h1, h2, _ => by omega
  | fuel + 1, n, st, hn, hf, hst => by
      rw [collectRec]
      by_cases hv : n ∈ st.visited
      · rw [if_pos hv]
        exact ⟨st, rfl, hst, fun x hx => hx, fun h => absurd hv h⟩
      · rw [if_neg hv]
        obtain ⟨fo, hfn⟩ : ∃ fo, fan[n]? = some fo := ⟨_, List.getElem?_eq_getElem (by rw [hfan.1]; exact hn)⟩
        obtain ⟨r, hrn⟩ : ∃ r, K.reprs[n]? = some r := ⟨_, List.getElem?_eq_getElem (by rw [hK.lenr]; exact hn)⟩
        have hfo := hfan.2 n _ hfn
        rw [hfn, hrn]; dsimp only
        have loop : ∀ (fo : List Nat) (st : Collect), (∀ x ∈ fo, n < x ∧ x < size) → st.Ok K →
            ∃ st', fo.foldl (fun o f => o.bind (collectRec fan K fuel f)) (some st) = some st' ∧ st'.Ok K ∧ ∀ x ∈ st.roots, x ∈ st'.roots := by
          intro fo
          induction fo with
          | nil => intro st _ h; exact ⟨st, rfl, h, fun x hx => hx⟩
          | cons f fo ih =>
              intro st hfo h
              have hf1 := hfo f List.mem_cons_self
              obtain ⟨s1, e1, o1, m1, _⟩ := collectRec_spec hfan hK fuel f st hf1.2 (by omega) h
              obtain ⟨s2, e2, o2, m2⟩ := ih s1 (fun x hx => hfo x (List.mem_cons_of_mem _ hx)) o1
              refine ⟨s2, ?_, o2, fun x hx => m2 x (m1 x hx)⟩
              rw [List.foldl_cons, Option.bind_some, e1]; exact e2
        obtain ⟨s1, e1, o1, m1⟩ := loop fo { st with visited := n :: st.visited } hfo hst
        rw [e1, Option.map_some]
        by_cases hr : r = n
        · rw [if_pos hr]
          refine ⟨s1, rfl, o1, m1, fun _ r' h1 h2 => ?_⟩
          exact absurd ((Option.some.inj h1).symm.trans hr) h2
        · rw [if_neg hr]
          by_cases hm : r ∈ s1.markA
          · rw [if_pos hm]
            refine ⟨s1, rfl, o1, m1, fun _ r' h1 h2 => ?_⟩
            rw [← Option.some.inj h1]; exact o1.1 r hm
          · rw [if_neg hm]
            refine ⟨_, rfl, ⟨?_, ?_⟩, fun x hx => List.mem_append_left _ (m1 x hx), fun _ r' h1 h2 => ?_⟩
            · intro x hx
              rcases List.mem_cons.1 hx with rfl | hx
              · exact List.mem_append_right _ List.mem_cons_self
              · exact List.mem_append_left _ (o1.1 x hx)
            · intro x hx
              rcases List.mem_append.1 hx with hx | hx
              · exact o1.2 x hx
              · rw [List.mem_singleton.1 hx]; exact ⟨n, hrn⟩
            · rw [← Option.some.inj h1]; exact List.mem_append_right _ List.mem_cons_self

theorem collectCands_spec {N : Aig} (hN : WF N) {K : Classes} (hK : K.Ok N.nodes.length) {r n : Nat} (hn : n < N.nodes.length)
    (hr : K.reprs[n]? = some r) (hne : r ≠ n) :
    ∃ roots, collectCands N K r n = some roots ∧ r ∈ roots ∧ ∀ x ∈ roots, x < N.nodes.length := by
  have hf := fanouts_spec hN
  have hrn := (hK.repr hr).1
  obtain ⟨s1, e1, o1, _, m1⟩ := collectRec_spec hf hK (N.nodes.length + 1) n { visited := [0], markA := [], roots := [] } hn (by omega)
    ⟨by simp, by simp⟩
  obtain ⟨s2, e2, o2, m2, _⟩ := collectRec_spec hf hK (N.nodes.length + 1) r s1 (by omega) (by omega) o1
  refine ⟨s2.roots.insertionSort (· ≤ ·), ?_, ?_, ?_⟩
  · rw [collectCands, e1, Option.bind_some, e2, Option.map_some]
  · rw [List.mem_insertionSort]
    exact m2 r (m1 (by simp; omega) r hr hne)
  · intro x hx
    rw [List.mem_insertionSort] at hx
    obtain ⟨c, hc⟩ := o2.2 x hx
    exact hK.bound c x hc

/-! ### values -/

theorem markGate_spec {size : Nat} {n : Nat} {a b : Sig} {st : Marks} (hl : st.2.length = size) (ha : a.index < size) (hb : b.index < size) :
    ∃ x y, st.2[a.index]? = some x ∧ st.2[b.index]? = some y ∧
      markGate n a b st = some (st.1, st.2.set n ((Bool.xor x a.compl) && (Bool.xor y b.compl))) := by
  have h1 : st.2[a.index]? = some st.2[a.index] := List.getElem?_eq_getElem (by omega)
  have h2 : st.2[b.index]? = some st.2[b.index] := List.getElem?_eq_getElem (by omega)
  refine ⟨_, _, h1, h2, ?_⟩
  rw [markGate, h1, h2]

/-- what a traversal from `n` does to the marks -/
structure Traverse (n : Nat) (st st' : Marks) : Prop where
  len : st'.2.length = st.2.length
  sub : ∀ x ∈ st.1, x ∈ st'.1
  keep : ∀ x : Nat, x ∈ st.1 ∨ n < x → st'.2[x]? = st.2[x]?
  has : n ∈ st'.1

theorem solvedRec_spec {N : Aig} (hN : WF N) {map : SMap} {val : Nat → Option Bool} {v : Nat → Bool} (hv : N.Models v)
    (hval : ∀ i ∈ N.inputs, ∃ s, map[i]? = some (some s) ∧ val s.index = some (v i)) :
    ∀ (fuel n : Nat) (st : Marks), n < fuel → n < N.nodes.length → st.2.length = N.nodes.length → 0 ∈ st.1 →
    (∀ x ∈ st.1, x ≤ n → st.2[x]? = some (v x)) →
    ∃ st', solvedRec N map val fuel n st = some st' ∧ Traverse n st st' ∧ ∀ x ∈ st'.1, x ∈ st.1 ∨ (x ≤ n ∧ st'.2[x]? = some (v x))
  | 0, _, _, h, _, _, _, _ => by omega
  | fuel + 1, n, st, hf, hn, hl, h0, hst => by
      rw [solvedRec]
      by_cases hvis : n ∈ st.1
      · rw [if_pos hvis]
        exact ⟨st, rfl, ⟨rfl, fun _ h => h, fun _ _ => rfl, hvis⟩, fun x hx => .inl hx⟩
      · rw [if_neg hvis, if_neg (by omega)]
        have hn0 : n ≠ 0 := fun e => hvis (e ▸ h0)
        by_cases hc : N.isCi n = true
        · rw [if_pos hc]
          obtain ⟨s, hs, hvs⟩ := hval n (ci_input hN hn hn0 hc)
          rw [hs]; dsimp only
          rw [hvs, Option.map_some]
          refine ⟨_, rfl, ⟨by simp, fun x hx => List.mem_cons_of_mem _ hx, ?_, List.mem_cons_self⟩, ?_⟩
          · intro x hx
            have hnx : n ≠ x := by
              rcases hx with hx | hx
              · rintro rfl; exact hvis hx
              · omega
            simp only
            rw [List.getElem?_set, if_neg hnx]
          · intro x hx
            rcases List.mem_cons.1 hx with rfl | hx
            · exact .inr ⟨Nat.le_refl _, List.getElem?_set_self (by omega)⟩
            · exact .inl hx
        · rw [if_neg hc]
          obtain ⟨a, b, g, hk⟩ := gate_kids hN hn hn0 hc
          obtain ⟨l1, l2, l3, l4⟩ := hN.isGate_lt g
          rw [hk]; dsimp only
          obtain ⟨s1, e1, t1, n1⟩ := solvedRec_spec hN hv hval fuel a.index (n :: st.1, st.2) (by omega) (by omega) hl
            (List.mem_cons_of_mem _ h0) (by
              intro x hx hxa
              rcases List.mem_cons.1 hx with rfl | hx
              · omega
              · exact hst x hx (by omega))
          have good1 : ∀ x ∈ s1.1, x < n → s1.2[x]? = some (v x) := by
            intro x hx hxn
            rcases n1 x hx with h | h
            · rw [t1.keep x (.inl h)]
              rcases List.mem_cons.1 h with rfl | h
              · omega
              · exact hst x h (by omega)
            · exact h.2
          obtain ⟨s2, e2, t2, n2⟩ := solvedRec_spec hN hv hval fuel b.index s1 (by omega) (by omega) (t1.len.trans hl)
            (t1.sub _ (List.mem_cons_of_mem _ h0)) (fun x hx hxb => good1 x hx (by omega))
          have good2 : ∀ x ∈ s2.1, x < n → s2.2[x]? = some (v x) := by
            intro x hx hxn
            rcases n2 x hx with h | h
            · rw [t2.keep x (.inl h)]; exact good1 x h hxn
            · exact h.2
          have hl2 : s2.2.length = N.nodes.length := (t2.len.trans t1.len).trans hl
          obtain ⟨x, y, hx, hy, e3⟩ := markGate_spec (n := n) (a := a) (b := b) hl2 (by omega) (by omega)
          rw [e1, Option.bind_some, e2, Option.bind_some, e3]
          have hxv : x = v a.index := by
            have := good2 _ (t2.sub _ t1.has) (by omega)
            rw [hx] at this; exact Option.some.inj this
          have hyv : y = v b.index := by
            have := good2 _ t2.has (by omega)
            rw [hy] at this; exact Option.some.inj this
          have hval' : ((Bool.xor x a.compl) && (Bool.xor y b.compl)) = v n := by
            rw [hv.gate n a b g, hxv, hyv]
            simp only [Sig.val]
            rw [Bool.xor_comm a.compl, Bool.xor_comm b.compl]
          refine ⟨_, rfl, ⟨?_, ?_, ?_, ?_⟩, ?_⟩
          · simp only [List.length_set]; omega
          · exact fun z hz => t2.sub z (t1.sub z (List.mem_cons_of_mem _ hz))
          · intro z hz
            have hnz : n ≠ z := by
              rcases hz with hz | hz
              · rintro rfl; exact hvis hz
              · omega
            simp only
            rw [List.getElem?_set, if_neg hnz]
            rcases hz with hz | hz
            · rw [t2.keep z (.inl (t1.sub z (List.mem_cons_of_mem _ hz))), t1.keep z (.inl (List.mem_cons_of_mem _ hz))]
            · rw [t2.keep z (.inr (by omega)), t1.keep z (.inr (by omega))]
          · exact t2.sub _ (t1.sub _ List.mem_cons_self)
          · intro z hz
            by_cases hzn : z = n
            · subst hzn
              refine .inr ⟨Nat.le_refl _, ?_⟩
              simp only
              rw [List.getElem?_set_self (by omega), hval']
            · have hz2 : ∀ q, s2.2[z]? = some q → (s2.2.set n ((Bool.xor x a.compl) && (Bool.xor y b.compl)))[z]? = some q := by
                intro q hq
                rw [List.getElem?_set, if_neg (fun e => hzn e.symm)]; exact hq
              rcases n2 z hz with h | h
              · rcases n1 z h with h | h
                · rcases List.mem_cons.1 h with h | h
                  · exact absurd h hzn
                  · exact .inl h
                · refine .inr ⟨by omega, hz2 _ ?_⟩
                  rw [t2.keep z (.inl (by assumption))]; exact h.2
              · exact .inr ⟨by omega, hz2 _ h.2⟩

theorem otherRec_spec {N : Aig} (hN : WF N) (rand : Nat → Nat) : ∀ (fuel n : Nat) (st : Marks × Nat), n < fuel → n < N.nodes.length →
    st.1.2.length = N.nodes.length → 0 ∈ st.1.1 → ∃ st', otherRec N rand fuel n st = some st' ∧ Traverse n st.1 st'.1
  | 0, _, _, h, _, _, _ => by omega
  | fuel + 1, n, st, hf, hn, hl, h0 => by
      rw [otherRec]
      by_cases hvis : n ∈ st.1.1
      · rw [if_pos hvis]
        exact ⟨st, rfl, ⟨rfl, fun _ h => h, fun _ _ => rfl, hvis⟩⟩
      · rw [if_neg hvis, if_neg (by omega)]
        have hn0 : n ≠ 0 := fun e => hvis (e ▸ h0)
        have hne : ∀ x, x ∈ st.1.1 ∨ n < x → n ≠ x := by
          rintro x (hx | hx)
          · rintro rfl; exact hvis hx
          · omega
        by_cases hc : N.isCi n = true
        · rw [if_pos hc]
          refine ⟨_, rfl, ⟨by simp, fun x hx => List.mem_cons_of_mem _ hx, ?_, List.mem_cons_self⟩⟩
          intro x hx
          simp only
          rw [List.getElem?_set, if_neg (hne x hx)]
        · rw [if_neg hc]
          obtain ⟨a, b, g, hk⟩ := gate_kids hN hn hn0 hc
          obtain ⟨l1, l2, l3, l4⟩ := hN.isGate_lt g
          rw [hk]; dsimp only
          obtain ⟨s1, e1, t1⟩ := otherRec_spec hN rand fuel a.index ((n :: st.1.1, st.1.2), st.2) (by omega) (by omega) hl (List.mem_cons_of_mem _ h0)
          obtain ⟨s2, e2, t2⟩ := otherRec_spec hN rand fuel a.index s1 (by omega) (by omega) (t1.len.trans hl)
            (t1.sub _ (List.mem_cons_of_mem _ h0))
          have hl2 : s2.1.2.length = N.nodes.length := (t2.len.trans t1.len).trans hl
          obtain ⟨x, y, hx, hy, e3⟩ := markGate_spec (n := n) (a := a) (b := b) hl2 (by omega) (by omega)
          rw [e1, Option.bind_some, e2, Option.bind_some, e3]
          refine ⟨_, rfl, ⟨?_, ?_, ?_, ?_⟩⟩
          · simp only [List.length_set]; omega
          · exact fun z hz => t2.sub z (t1.sub z (List.mem_cons_of_mem _ hz))
          · intro z hz
            simp only
            rw [List.getElem?_set, if_neg (hne z hz)]
            rcases hz with hz | hz
            · rw [t2.keep z (.inl (t1.sub z (List.mem_cons_of_mem _ hz))), t1.keep z (.inl (List.mem_cons_of_mem _ hz))]
            · rw [t2.keep z (.inr (by omega)), t1.keep z (.inr (by omega))]
          · exact t2.sub _ (t1.sub _ List.mem_cons_self)

/-- marks of visited nodes are kept -/
structure Keeps (st st' : Marks) : Prop where
  len : st'.2.length = st.2.length
  sub : ∀ x ∈ st.1, x ∈ st'.1
  keep : ∀ x ∈ st.1, st'.2[x]? = st.2[x]?

theorem Keeps.refl (st : Marks) : Keeps st st := ⟨rfl, fun _ h => h, fun _ _ => rfl⟩

theorem Keeps.trans {a b c : Marks} (h : Keeps a b) (h' : Keeps b c) : Keeps a c :=
  ⟨h'.len.trans h.len, fun x hx => h'.sub x (h.sub x hx), fun x hx => (h'.keep x (h.sub x hx)).trans (h.keep x hx)⟩

theorem Traverse.keeps {n : Nat} {st st' : Marks} (h : Traverse n st st') : Keeps st st' := ⟨h.len, h.sub, fun x hx => h.keep x (.inl hx)⟩

theorem otherLoop_spec {N : Aig} (hN : WF N) (rand : Nat → Nat) : ∀ (l : List Nat) (st : Marks × Nat), (∀ x ∈ l, x < N.nodes.length) →
    st.1.2.length = N.nodes.length → 0 ∈ st.1.1 → ∃ st', otherLoop N rand l st = some st' ∧ Keeps st.1 st'.1
  | [], st, _, _, _ => ⟨st, rfl, .refl _⟩
  | c :: l, st, hc, hl, h0 => by
      have := hc c List.mem_cons_self
      obtain ⟨s1, e1, t1⟩ := otherRec_spec hN rand (N.nodes.length + 1) c st (by omega) this hl h0
      obtain ⟨s2, e2, t2⟩ := otherLoop_spec hN rand l s1 (fun x hx => hc x (List.mem_cons_of_mem _ hx)) (t1.len.trans hl) (t1.sub _ h0)
      exact ⟨s2, by rw [otherLoop, e1]; exact e2, t1.keeps.trans t2⟩

theorem equalCex_refl {N : Aig} {marks : List Bool} (hl : marks.length = N.nodes.length) (n : Nat) (hn : n < N.nodes.length) :
    equalCex N marks n n = true := by
  rw [equalCex, List.getElem?_eq_getElem (by omega)]
  simp

/-- the effect of the loop over the classes -/
theorem resimLoop_spec {N : Aig} (hN : WF N) (rand : Nat → Nat) : ∀ (l : List Nat) (st : (Marks × Nat) × Classes),
    (∀ x ∈ l, x < N.nodes.length) → st.1.1.2.length = N.nodes.length → 0 ∈ st.1.1.1 → st.2.Ok N.nodes.length →
    ∃ st', resimLoop N rand l st = some st' ∧ Keeps st.1.1 st'.1.1 ∧ st'.2.Ok N.nodes.length ∧
      (∀ a b : Nat, st'.2.reprs[a]? = st'.2.reprs[b]? → st.2.reprs[a]? = st.2.reprs[b]?) ∧
      (∀ c : Nat, st.2.reprs[c]? = some c → st'.2.reprs[c]? = some c) ∧
      ∀ r n : Nat, r ∈ l → st.2.reprs[r]? = some r → r ∈ st.1.1.1 → n ∈ st.1.1.1 → equalCex N st.1.1.2 r n = false →
        st'.2.reprs[n]? ≠ st'.2.reprs[r]?
  | [], st, _, _, _, hK => ⟨st, rfl, .refl _, hK, fun _ _ h => h, fun _ h => h, by simp⟩
  | root :: l, st, hx, hl, h0, hK => by
      have hroot := hx root List.mem_cons_self
      obtain ⟨cs, hcs⟩ := hK.get hroot
      have hcm : ∀ x ∈ cs, x < N.nodes.length := fun x hm => hK.lt ((hK.mem root cs hcs x).1 hm)
      obtain ⟨q, e1, k1⟩ := otherLoop_spec hN rand cs st.1 hcm hl h0
      have hl1 := k1.len.trans hl
      obtain ⟨k, K1, e2, s2⟩ := refineOne_spec (eq := equalCex N q.1.2) (recursively := false) (equalCex_refl hl1) (N.nodes.length + 1) root st.2 cs hK hcs
        (by have := hK.class_length hcs; omega)
      obtain ⟨st', e3, k3, o3, f3, r3, d3⟩ := resimLoop_spec hN rand l (q, K1) (fun x hm => hx x (List.mem_cons_of_mem _ hm)) hl1 (k1.sub 0 h0) s2.ok
      have hself : ∀ c : Nat, st.2.reprs[c]? = some c → K1.reprs[c]? = some c := by
        intro c hc
        by_cases hcr : c = root
        · subst hcr; exact s2.old c hc (equalCex_refl hl1 c hroot)
        · rw [s2.stay c (by rw [hc]; simpa using hcr)]; exact hc
      refine ⟨st', ?_, k1.trans k3, o3, fun a b e => s2.refines.finer a b (f3 a b e), fun c hc => r3 c (hself c hc), ?_⟩
      · rw [resimLoop, hcs]; dsimp only
        rw [e1]; dsimp only
        rw [e2]; exact e3
      · intro r n hr hrr hrv hnv hne
        have hne1 : equalCex N q.1.2 r n = false := by
          rw [equalCex, k1.keep r hrv, k1.keep n hnv]; exact hne
        by_cases hrl : r ∈ l
        · exact d3 r n hrl (hself r hrr) (k1.sub r hrv) (k1.sub n hnv) hne1
        · have hrr' : r = root := (List.mem_cons.1 hr).resolve_right hrl
          subst hrr'
          intro e
          have h1 := f3 n r e
          simp only at h1
          rw [hself r hrr] at h1
          rw [s2.hom n h1] at hne1
          cases hne1

theorem solvedRec_mono {N : Aig} {map : SMap} {val val' : Nat → Option Bool} (h : ∀ x b, val x = some b → val' x = some b) :
    ∀ (fuel n : Nat) (st st' : Marks), solvedRec N map val fuel n st = some st' → solvedRec N map val' fuel n st = some st'
  | 0, _, _, _, e => by simp [solvedRec] at e
  | fuel + 1, n, st, st', e => by
      rw [solvedRec] at e ⊢
      by_cases h1 : n ∈ st.1
      · rw [if_pos h1] at e ⊢; exact e
      · rw [if_neg h1] at e ⊢
        by_cases h2 : n ≥ N.nodes.length
        · rw [if_pos h2] at e; cases e
        · rw [if_neg h2] at e ⊢
          by_cases h3 : N.isCi n = true
          · rw [if_pos h3] at e ⊢
            rcases hm : map[n]? with _ | (_ | s)
            · rw [hm] at e; cases e
            · rw [hm] at e; cases e
            · rw [hm] at e
              dsimp only at e ⊢
              obtain ⟨b, hb, e⟩ := Option.map_eq_some_iff.1 e
              rw [h _ _ hb, Option.map_some, e]
          · rw [if_neg h3] at e ⊢
            rcases hk : N.kids n with _ | ⟨a, b⟩
            · rw [hk] at e; cases e
            · rw [hk] at e
              dsimp only at e ⊢
              obtain ⟨s2, hs2, e⟩ := Option.bind_eq_some_iff.1 e
              obtain ⟨s1, hs1, e1⟩ := Option.bind_eq_some_iff.1 hs2
              rw [solvedRec_mono h fuel _ _ _ hs1, Option.bind_some, solvedRec_mono h fuel _ _ _ e1, Option.bind_some, e]

/-- `resimulate`, where `v` has the values of the solver at the inputs it knows -/
theorem resimulate_spec {N : Aig} (hN : WF N) (E : Env) {model : Nat → Bool} {S : Sweep} (hK : S.cls.Ok N.nodes.length)
    (hl : S.marks.length = N.nodes.length) (h0 : S.marks[0]? = some false) {r n : Nat} (hn : n < N.nodes.length)
    (hr : S.cls.reprs[n]? = some r) (hne : r ≠ n) {v : Nat → Bool} (hv : N.Models v)
    (hval : ∀ i ∈ N.inputs, ∃ s, S.map[i]? = some (some s) ∧ (S.prover.varValue model s.index).getD false = v i) :
    (∃ K marks c, resimulate N E model r n S = some { S with marks := marks, rnd := c, cls := K } ∧ K.Ok N.nodes.length ∧
      marks.length = N.nodes.length ∧ marks[0]? = some false ∧
      (∀ a b : Nat, K.reprs[a]? = K.reprs[b]? → S.cls.reprs[a]? = S.cls.reprs[b]?) ∧
      (Bool.xor (v r) (N.phaseOf r) ≠ Bool.xor (v n) (N.phaseOf n) → K.reprs[n]? ≠ K.reprs[r]?)) ∨
    (resimulate N E model r n S = none ∧ ∃ i ∈ N.inputs, ∃ s, S.map[i]? = some (some s) ∧ S.prover.varValue model s.index = none) := by
  obtain ⟨roots, e1, hrm, hrl⟩ := collectCands_spec hN hK hn hr hne
  have hrn := hK.repr hr
  have spec : ∀ val : Nat → Option Bool, (∀ i ∈ N.inputs, ∃ s, S.map[i]? = some (some s) ∧ val s.index = some (v i)) →
      ∃ m, (solvedRec N S.map val (N.nodes.length + 1) n ([0], S.marks)).bind (solvedRec N S.map val (N.nodes.length + 1) r) = some m ∧
        m.2.length = N.nodes.length ∧ 0 ∈ m.1 ∧ n ∈ m.1 ∧ r ∈ m.1 ∧ ∀ x ∈ m.1, m.2[x]? = some (v x) := by
    intro val hval
    obtain ⟨m1, e2, t1, n1⟩ := solvedRec_spec hN hv hval (N.nodes.length + 1) n ([0], S.marks) (by omega) hn hl (by simp) (by
      intro x hx _
      simp only [List.mem_singleton] at hx
      subst hx
      rw [hv.const]; exact h0)
    have good1 : ∀ x ∈ m1.1, m1.2[x]? = some (v x) := by
      intro x hx
      rcases n1 x hx with h | h
      · rw [t1.keep x (.inl h)]
        simp only [List.mem_singleton] at h
        subst h
        rw [hv.const]; exact h0
      · exact h.2
    obtain ⟨m2, e3, t2, n2⟩ := solvedRec_spec hN hv hval (N.nodes.length + 1) r m1 (by omega) (by omega) (t1.len.trans hl)
      (t1.sub 0 (by simp)) (fun x hx _ => good1 x hx)
    refine ⟨m2, by rw [e2, Option.bind_some, e3], (t2.len.trans t1.len).trans hl, t2.sub 0 (t1.sub 0 (by simp)), t2.sub n t1.has, t2.has, ?_⟩
    intro x hx
    rcases n2 x hx with h | h
    · rw [t2.keep x (.inl h)]; exact good1 x h
    · exact h.2
  obtain ⟨m, em, hml, hm0, hmn, hmr, hgood⟩ := spec (fun x => some ((S.prover.varValue model x).getD false)) (by
    intro i hi
    obtain ⟨s, hs, hs2⟩ := hval i hi
    exact ⟨s, hs, by rw [hs2]⟩)
  rw [resimulate, e1]
  dsimp only
  rcases e2 : (solvedRec N S.map (S.prover.varValue model) (N.nodes.length + 1) n ([0], S.marks)).bind
      (solvedRec N S.map (S.prover.varValue model) (N.nodes.length + 1) r) with _ | m'
  · right
    refine ⟨rfl, ?_⟩
    by_contra hno
    obtain ⟨m', em', -⟩ := spec (S.prover.varValue model) (by
      intro i hi
      obtain ⟨s, hs, hs2⟩ := hval i hi
      refine ⟨s, hs, ?_⟩
      cases hx : S.prover.varValue model s.index with
      | none => exact absurd ⟨i, hi, s, hs, hx⟩ hno
      | some b => rw [hx] at hs2; rw [← hs2]; rfl)
    rw [e2] at em'; cases em'
  · left
    obtain rfl : m' = m := by
      obtain ⟨m1, q1, q2⟩ := Option.bind_eq_some_iff.1 e2
      have hmono : ∀ x b, S.prover.varValue model x = some b → some ((S.prover.varValue model x).getD false) = some b := by
        intro x b hx; rw [hx]; rfl
      rw [solvedRec_mono hmono _ _ _ _ q1, Option.bind_some, solvedRec_mono hmono _ _ _ _ q2] at em
      exact Option.some.inj em
    dsimp only
    obtain ⟨st, e4, k4, o4, f4, _, d4⟩ := resimLoop_spec hN E.rand roots ((m', S.rnd), S.cls) hrl hml hm0 hK
    refine ⟨st.2, st.1.1.2, st.1.2, ?_, o4, k4.len.trans hml, ?_, f4, ?_⟩
    · rw [e4, Option.map_some]
    · rw [k4.keep 0 hm0, hgood 0 hm0, hv.const]
    · intro hd
      refine d4 r n hrm hrn.2 hmr hmn ?_
      rw [equalCex, hgood r hmr, hgood n hmn]
      revert hd
      dsimp only
      cases v r <;> cases v n <;> cases N.phaseOf r <;> cases N.phaseOf n <;> decide

end Verif.Choice
