import Verif.Klut.Collapse
import Verif.Klut.Cover
import Verif.Klut.LutSize
import Verif.Props.C35

set_option autoImplicit false

/-!
# C34: collapsing a mapped AIG into a LUT network preserves behaviour
-/

namespace Verif.Collapse
open Klut (args)
open RefDeref (aigKids)
open Topo (Tfi FaninsFirst)

/-! ### driver types -/

/-- the driver type is right for an output edge with this polarity -/
def Driver.Serves (d : Driver) (compl : Bool) : Prop := d = .mixed ∨ d = if compl then .neg else .pos

theorem Driver.serves_byPo (d : Driver) (c : Bool) : (d.byPo c).Serves c := by
  cases d <;> cases c <;> simp [Driver.byPo, Driver.Serves]

theorem Driver.Serves.byPo {d : Driver} {c : Bool} (h : d.Serves c) (c' : Bool) : (d.byPo c').Serves c := by
  revert h
  cases d <;> cases c <;> cases c' <;> simp [Driver.byPo, Driver.Serves]

theorem Driver.Serves.byFanin {d : Driver} {c : Bool} (h : d.Serves c) : d.byFanin.Serves c := by
  revert h
  cases d <;> cases c <;> simp [Driver.byFanin, Driver.Serves]

theorem poDrivers_keep (c : Bool) (n : Nat) : ∀ (l : List Sig) (d : Nat → Driver), (d n).Serves c → (poDrivers l d n).Serves c := by
  intro l
  induction l with
  | nil => intro d h; exact h
  | cons s l ih =>
    intro d h
    rw [poDrivers]
    apply ih
    unfold upd
    split
    · rename_i e; subst e; exact h.byPo _
    · exact h

theorem poDrivers_serves : ∀ (l : List Sig) (d : Nat → Driver), ∀ s ∈ l, (poDrivers l d s.index).Serves s.compl := by
  intro l
  induction l with
  | nil => simp
  | cons s l ih =>
    intro d t ht
    rw [poDrivers]
    rcases List.mem_cons.1 ht with rfl | ht
    · apply poDrivers_keep
      unfold upd
      rw [if_pos rfl]
      exact Driver.serves_byPo _ _
    · exact ih _ t ht

theorem faninDrivers_serves (c : Bool) (n : Nat) : ∀ (l : List Nat) (d : Nat → Driver), (d n).Serves c → (faninDrivers l d n).Serves c := by
  intro l
  induction l with
  | nil => intro d h; exact h
  | cons s l ih =>
    intro d h
    rw [faninDrivers]
    apply ih
    unfold upd
    split
    · rename_i e; subst e; exact h.byFanin
    · exact h

theorem byFanin_ne (d : Driver) : d.byFanin ≠ .neg := by cases d <;> simp [Driver.byFanin]

theorem faninDrivers_keep (n : Nat) : ∀ (l : List Nat) (d : Nat → Driver), d n ≠ .neg → faninDrivers l d n ≠ .neg := by
  intro l
  induction l with
  | nil => intro d h; exact h
  | cons s l ih =>
    intro d h
    rw [faninDrivers]
    apply ih
    unfold upd
    split
    · exact byFanin_ne _
    · exact h

theorem faninDrivers_ne : ∀ (l : List Nat) (d : Nat → Driver), ∀ n ∈ l, faninDrivers l d n ≠ .neg := by
  intro l
  induction l with
  | nil => simp
  | cons s l ih =>
    intro d t ht
    rw [faninDrivers]
    rcases List.mem_cons.1 ht with rfl | ht
    · apply faninDrivers_keep
      unfold upd
      rw [if_pos rfl]
      exact byFanin_ne _
    · exact ih _ t ht

theorem cellDrivers_spec {N : Aig} {M : Mapping} (nodes : List Nat)
    (hdef : ∀ n ∈ nodes, ∃ b, isCell N M n = some b ∧ (b = true → ∃ cs, M.cellFanins n = some cs)) :
    ∀ (d : Nat → Driver), ∃ d', cellDrivers N M nodes d = some d' ∧ (∀ n c, (d n).Serves c → (d' n).Serves c) ∧
      (∀ n, d n ≠ .neg → d' n ≠ .neg) ∧
      ∀ n ∈ nodes, isCell N M n = some true → ∀ cs, M.cellFanins n = some cs → ∀ l ∈ cs, d' l ≠ .neg := by
  induction nodes with
  | nil => intro d; exact ⟨d, rfl, fun _ _ h => h, fun _ h => h, by simp⟩
  | cons n nodes ih =>
    intro d
    obtain ⟨b, hb, hcs⟩ := hdef n (by simp)
    have ih' := ih fun k hk => hdef k (by simp [hk])
    rw [cellDrivers, hb]
    cases b with
    | false =>
      obtain ⟨d', e, h1, h2, h3⟩ := ih' d
      refine ⟨d', e, h1, h2, ?_⟩
      intro k hk hc
      rcases List.mem_cons.1 hk with rfl | hk
      · rw [hb] at hc; cases hc
      · exact h3 k hk hc
    | true =>
      obtain ⟨cs, hf⟩ := hcs rfl
      rw [hf]
      obtain ⟨d', e, h1, h2, h3⟩ := ih' (faninDrivers cs d)
      refine ⟨d', e, fun k c h => h1 k c (faninDrivers_serves c k cs d h), fun k h => h2 k (faninDrivers_keep k cs d h), ?_⟩
      intro k hk hc cs' hcs' l hl
      rcases List.mem_cons.1 hk with rfl | hk
      · rw [hf] at hcs'
        injection hcs' with e'
        subst e'
        exact h2 l (faninDrivers_ne cs d l hl)
      · exact h3 k hk hc cs' hcs' l hl

/-! ### construction -/

theorem createPi_old {K : Klut} {x v : Nat → Bool} (h : K.createPi.1.Consistent x v) : K.Consistent x v := by
  refine ⟨h.const0, h.const1, ?_, ?_⟩
  · intro k n hk
    apply h.input k n
    show (K.inputs ++ [K.nodes.length])[k]? = some n
    rw [List.getElem?_append_left (Klut.lt_of_get hk)]; exact hk
  · rintro n cs f ⟨h2, hi, nd, hnd, hc, hf⟩
    apply h.lut n cs f
    refine ⟨h2, ?_, nd, ?_, hc, hf⟩
    · show n ∉ K.inputs ++ [K.nodes.length]
      have := Klut.lt_of_get hnd
      simp only [List.mem_append, List.mem_singleton, not_or]
      exact ⟨hi, by omega⟩
    · show (K.nodes ++ [_])[n]? = some nd
      rw [List.getElem?_append_left (Klut.lt_of_get hnd)]; exact hnd

theorem createPi_new {K : Klut} {x v : Nat → Bool} (h : K.createPi.1.Consistent x v) : v K.nodes.length = x K.inputs.length := by
  apply h.input K.inputs.length
  show (K.inputs ++ [K.nodes.length])[K.inputs.length]? = some _
  simp

/-- the signals of node `n` have the value `b` of the node, or its complement, as the driver type says -/
def Rel (d : Nat → Driver) (s : St) (v' : Nat → Bool) (n : Nat) (b : Bool) : Prop :=
  v' (s.sig n) = (b ^^ decide (d n = .neg)) ∧ (d n = .mixed → v' (s.opp n) = !b)

/-- state of the construction: `known` nodes are represented, `k` inputs exist -/
structure Inv (d : Nat → Driver) (good : (Nat → Bool) → (Nat → Bool) → Prop) (k : Nat) (known : Nat → Prop) (s : St) : Prop where
  built : Klut.Built s.dest
  inputs : s.dest.inputs.length = k
  numPis : s.dest.numPis = k
  outputs : s.dest.outputs = []
  numPos : s.dest.numPos = 0
  sig : ∀ n, s.sig n < s.dest.nodes.length
  opp : ∀ n, s.opp n < s.dest.nodes.length
  val : ∀ x v v', good x v → s.dest.Consistent x v' → ∀ n, known n → Rel d s v' n (v n)

theorem constants_inv (d : Nat → Driver) (good : (Nat → Bool) → (Nat → Bool) → Prop) (hg : ∀ x v, good x v → v 0 = false) :
    Inv d good 0 (· = 0) (constants d Klut.empty) := by
  have hval : ∀ (s : St) (v' : Nat → Bool), (s.sig 0 = if d 0 = .neg then 1 else 0) → (d 0 = .mixed → s.opp 0 = 1) →
      v' 0 = false → v' 1 = true → Rel d s v' 0 false := by
    intro s v' h1 h2 e0 e1
    refine ⟨?_, ?_⟩
    · rw [h1]
      by_cases h : d 0 = .neg
      · simp [h, e1]
      · simp [h, e0]
    · intro h; rw [h2 h, e1]; rfl
  have hb : (constants d Klut.empty).dest = Klut.empty := by unfold constants; split <;> rfl
  have hs : ∀ n, (constants d Klut.empty).sig n < 2 ∧ (constants d Klut.empty).opp n < 2 := by
    intro n
    unfold constants
    split <;> constructor <;> simp only [upd, Klut.getConstant] <;> (try split) <;> simp
  have h0 : (constants d Klut.empty).sig 0 = if d 0 = .neg then 1 else 0 := by
    unfold constants
    split
    · rename_i h; simp [h, upd, Klut.getConstant]
    · rename_i h; simp [h, upd, Klut.getConstant]
    · rename_i h _; rw [if_neg h]; simp [upd, Klut.getConstant]
  have h1 : d 0 = .mixed → (constants d Klut.empty).opp 0 = 1 := by
    intro h
    simp [constants, h, upd, Klut.getConstant]
  refine ⟨by rw [hb]; exact .empty, by rw [hb]; rfl, by rw [hb]; rfl, by rw [hb]; rfl, by rw [hb]; rfl,
    fun n => by rw [hb]; exact (hs n).1, fun n => by rw [hb]; exact (hs n).2, ?_⟩
  rintro x v v' hgv hc n rfl
  rw [hg x v hgv]
  exact hval _ v' h0 h1 hc.const0 hc.const1

/-- adding nodes and describing one more source node keeps the invariant -/
theorem Inv.extend {d : Nat → Driver} {good : (Nat → Bool) → (Nat → Bool) → Prop} {k : Nat} {known : Nat → Prop} {s : St}
    (h : Inv d good k known s) {k' : Nat} {s' : St} (n : Nat) (hb : Klut.Built s'.dest) (hi : s'.dest.inputs.length = k')
    (hp : s'.dest.numPis = k') (ho : s'.dest.outputs = []) (hpo : s'.dest.numPos = 0)
    (hlen : s.dest.nodes.length ≤ s'.dest.nodes.length)
    (hsig : ∀ j, j ≠ n → s'.sig j = s.sig j) (hopp : ∀ j, j ≠ n → s'.opp j = s.opp j)
    (hsn : s'.sig n < s'.dest.nodes.length) (hon : s'.opp n < s'.dest.nodes.length)
    (hold : ∀ x v', s'.dest.Consistent x v' → s.dest.Consistent x v')
    (hval : ∀ x v v', good x v → s'.dest.Consistent x v' → Rel d s' v' n (v n)) :
    Inv d good k' (fun j => known j ∨ j = n) s' := by
  refine ⟨hb, hi, hp, ho, hpo, ?_, ?_, ?_⟩
  · intro j
    by_cases e : j = n
    · rw [e]; exact hsn
    · rw [hsig j e]; exact lt_of_lt_of_le (h.sig j) hlen
  · intro j
    by_cases e : j = n
    · rw [e]; exact hon
    · rw [hopp j e]; exact lt_of_lt_of_le (h.opp j) hlen
  · intro x v v' hg hc j hj
    by_cases e : j = n
    · rw [e]; exact hval x v v' hg hc
    · obtain ⟨r1, r2⟩ := h.val x v v' hg (hold x v' hc) j (hj.resolve_right e)
      exact ⟨by rw [hsig j e]; exact r1, fun hm => by rw [hopp j e]; exact r2 hm⟩

theorem adds_counts_not (K : Klut) (a : Nat) : (K.createNot a).1.numPis = K.numPis ∧ (K.createNot a).1.numPos = K.numPos := ⟨rfl, rfl⟩

theorem createNode_counts (K : Klut) (cs : List Nat) (f : TT) :
    (K.createNode cs f).1.numPis = K.numPis ∧ (K.createNode cs f).1.numPos = K.numPos ∧ K.nodes.length ≤ (K.createNode cs f).1.nodes.length := by
  rw [Klut.createNode]
  split
  · exact ⟨rfl, rfl, le_rfl⟩
  · refine ⟨rfl, rfl, ?_⟩
    rw [Klut.createLit_length]; exact Nat.le_succ _

theorem createPi_length (K : Klut) : K.createPi.1.nodes.length = K.nodes.length + 1 := by simp [Klut.createPi]

theorem makePi_inv {d : Nat → Driver} {good : (Nat → Bool) → (Nat → Bool) → Prop} {k : Nat} {known : Nat → Prop} {s : St}
    (h : Inv d good k known s) (n : Nat) (hg : ∀ x v, good x v → v n = x k) :
    Inv d good (k + 1) (fun j => known j ∨ j = n) (makePi d s n) := by
  have hb1 : Klut.Built s.dest.createPi.1 := .pi h.built
  have hin : s.dest.createPi.1.inputs.length = k + 1 := by
    show (s.dest.inputs ++ [_]).length = _
    rw [List.length_append, h.inputs]; rfl
  have hnp : s.dest.createPi.1.numPis = k + 1 := by
    show s.dest.numPis + 1 = _
    rw [h.numPis]
  have ho : s.dest.createPi.1.outputs = [] := h.outputs
  have hpo : s.dest.createPi.1.numPos = 0 := h.numPos
  have hl := createPi_length s.dest
  have hr2 : s.dest.createPi.2 = s.dest.nodes.length := rfl
  have hA := Klut.C30_not hb1 s.dest.createPi.2 (by rw [hr2, hl]; omega)
  have hlq : (s.dest.createPi.1.createNot s.dest.createPi.2).1.nodes.length = s.dest.nodes.length + 2 := by
    rw [Klut.createNot, Klut.createLit_length, hl]
  have hpiv : ∀ x v v', good x v → s.dest.createPi.1.Consistent x v' → v' s.dest.createPi.2 = v n := by
    intro x v v' hgv hc
    rw [hr2, createPi_new hc, h.inputs, hg x v hgv]
  have hu : ∀ (f : Nat → Nat) (a j : Nat), j ≠ n → upd f n a j = f j := fun f a j hj => by simp [upd, hj]
  have hu' : ∀ (f : Nat → Nat) (a : Nat), upd f n a n = a := fun f a => by simp [upd]
  unfold makePi
  dsimp only
  split
  · rename_i hd
    refine h.extend n hA.built (by rw [hA.inputs]; exact hin) hnp (by rw [hA.outputs]; exact ho) hpo (by dsimp only; rw [hlq]; omega)
      (fun j hj => hu _ _ j hj) (fun j hj => rfl) (by dsimp only; rw [hu']; exact hA.valid) (by dsimp only; rw [hlq]; have := h.opp n; omega)
      (fun x v' hc => createPi_old (hA.old x v' hc)) ?_
    intro x v v' hgv hc
    refine ⟨?_, fun hm => by rw [hd] at hm; cases hm⟩
    dsimp only
    rw [hu', hA.value x v' hc, hpiv x v v' hgv (hA.old x v' hc), hd]
    simp
  · rename_i hd
    refine h.extend n hA.built (by rw [hA.inputs]; exact hin) hnp (by rw [hA.outputs]; exact ho) hpo (by dsimp only; rw [hlq]; omega)
      (fun j hj => hu _ _ j hj) (fun j hj => hu _ _ j hj) (by dsimp only; rw [hu', hlq, hr2]; omega) (by dsimp only; rw [hu']; exact hA.valid)
      (fun x v' hc => createPi_old (hA.old x v' hc)) ?_
    intro x v v' hgv hc
    have hp := hpiv x v v' hgv (hA.old x v' hc)
    refine ⟨?_, fun _ => ?_⟩
    · dsimp only
      rw [hu', hp, hd]; simp
    · dsimp only
      rw [hu', hA.value x v' hc, hp]
  · rename_i hd1 hd2
    refine h.extend n hb1 hin hnp ho hpo (by dsimp only; rw [hl]; omega)
      (fun j hj => hu _ _ j hj) (fun j hj => rfl) (by dsimp only; rw [hu', hl, hr2]; omega) (by dsimp only; rw [hl]; have := h.opp n; omega)
      (fun x v' hc => createPi_old hc) ?_
    intro x v v' hgv hc
    refine ⟨?_, fun hm => absurd hm hd2⟩
    dsimp only
    rw [hu', hpiv x v v' hgv hc]
    rw [decide_eq_false hd1, Bool.xor_false]

theorem makePis_inv {d : Nat → Driver} {good : (Nat → Bool) → (Nat → Bool) → Prop} : ∀ (l : List Nat) {k : Nat} {known : Nat → Prop} {s : St},
    Inv d good k known s → (∀ x v, good x v → ∀ (i n : Nat), l[i]? = some n → v n = x (k + i)) →
    Inv d good (k + l.length) (fun j => known j ∨ j ∈ l) (makePis d l s) := by
  intro l
  induction l with
  | nil => intro k known s h _; simpa [makePis] using h
  | cons n l ih =>
    intro k known s h hg
    have h1 := makePi_inv h n (fun x v hgv => by have := hg x v hgv 0 n rfl; simpa using this)
    have h2 := ih h1 (fun x v hgv i m hm => by
      rw [hg x v hgv (i + 1) m (by simpa using hm)]
      congr 1; omega)
    have e1 : k + 1 + l.length = k + (n :: l).length := by simp; omega
    have e2 : (fun j => (known j ∨ j = n) ∨ j ∈ l) = fun j => known j ∨ j ∈ n :: l := by
      funext j
      rw [List.mem_cons]
      exact propext or_assoc
    rw [e1, e2] at h2
    exact h2

theorem makeCell_inv {d : Nat → Driver} {good : (Nat → Bool) → (Nat → Bool) → Prop} {k : Nat} {known : Nat → Prop} {s : St}
    (h : Inv d good k known s) (n : Nat) (cs : List Nat) (f : TT) (hf : f.WF) (hn : f.n = cs.length)
    (hk : ∀ l ∈ cs, known l ∧ d l ≠ .neg) (hg : ∀ x v, good x v → v n = f.eval (args v cs)) :
    Inv d good k (fun j => known j ∨ j = n) (makeCell d s n cs f) := by
  have hch : ∀ c ∈ cs.map s.sig, c < s.dest.nodes.length := by
    intro c hc
    obtain ⟨l, _, rfl⟩ := List.mem_map.1 hc
    exact h.sig l
  have hu : ∀ (f : Nat → Nat) (a j : Nat), j ≠ n → upd f n a j = f j := fun f a j hj => by simp [upd, hj]
  have hu' : ∀ (f : Nat → Nat) (a : Nat), upd f n a n = a := fun f a => by simp [upd]
  have hargs : ∀ x v v', good x v → s.dest.Consistent x v' → args v' (cs.map s.sig) = args v cs := by
    intro x v v' hgv hc
    funext j
    unfold args
    rw [List.getElem?_map]
    cases hj : cs[j]? with
    | none => rfl
    | some l =>
      obtain ⟨hkl, hdl⟩ := hk l (List.mem_of_getElem? hj)
      have := (h.val x v v' hgv hc l hkl).1
      dsimp only [Option.map]
      rw [this]
      simp [hdl]
  have hA := Klut.C30_create_node h.built (cs.map s.sig) f hch hf (by rw [List.length_map]; exact hn)
  obtain ⟨a1, a2, a3⟩ := createNode_counts s.dest (cs.map s.sig) f
  have hB := Klut.C30_create_node h.built (cs.map s.sig) f.not hch (TT.wf_not f) (by rw [List.length_map]; exact hn)
  obtain ⟨b1, b2, b3⟩ := createNode_counts s.dest (cs.map s.sig) f.not
  have hC := Klut.C30_create_node hA.built (cs.map s.sig) f.not (fun c hc => lt_of_lt_of_le (hch c hc) a3) (TT.wf_not f)
    (by rw [List.length_map]; exact hn)
  obtain ⟨c1, c2, c3⟩ := createNode_counts (s.dest.createNode (cs.map s.sig) f).1 (cs.map s.sig) f.not
  unfold makeCell
  dsimp only
  split
  · rename_i hd
    refine h.extend n hB.built (by rw [hB.inputs]; exact h.inputs) (b1.trans h.numPis) (by rw [hB.outputs]; exact h.outputs)
      (b2.trans h.numPos) b3
      (fun j hj => hu _ _ j hj) (fun j hj => rfl) (by dsimp only; rw [hu']; exact hB.valid) (lt_of_lt_of_le (h.opp n) b3) hB.old ?_
    intro x v v' hgv hc
    refine ⟨?_, fun hm => by rw [hd] at hm; cases hm⟩
    dsimp only
    rw [hu', hB.value x v' hc, hargs x v v' hgv (hB.old x v' hc), TT.eval_not, hg x v hgv, hd]
    simp
  · rename_i hd
    refine h.extend n hC.built (by rw [hC.inputs, hA.inputs]; exact h.inputs) (c1.trans (a1.trans h.numPis))
      (by rw [hC.outputs, hA.outputs]; exact h.outputs) (c2.trans (a2.trans h.numPos)) (a3.trans c3)
      (fun j hj => hu _ _ j hj) (fun j hj => hu _ _ j hj) (by dsimp only; rw [hu']; exact lt_of_lt_of_le hA.valid c3) (by dsimp only; rw [hu']; exact hC.valid)
      (fun x v' hc => hA.old x v' (hC.old x v' hc)) ?_
    intro x v v' hgv hc
    have hc1 := hC.old x v' hc
    have hc2 := hA.old x v' hc1
    refine ⟨?_, fun _ => ?_⟩
    · dsimp only
      rw [hu', hA.value x v' hc1, hargs x v v' hgv hc2, hg x v hgv, hd]; simp
    · dsimp only
      rw [hu', hC.value x v' hc, hargs x v v' hgv hc2, TT.eval_not, hg x v hgv]
  · rename_i hd1 hd2
    refine h.extend n hA.built (by rw [hA.inputs]; exact h.inputs) (a1.trans h.numPis) (by rw [hA.outputs]; exact h.outputs)
      (a2.trans h.numPos) a3
      (fun j hj => hu _ _ j hj) (fun j hj => rfl) (by dsimp only; rw [hu']; exact hA.valid) (lt_of_lt_of_le (h.opp n) a3) hA.old ?_
    intro x v v' hgv hc
    refine ⟨?_, fun hm => absurd hm hd2⟩
    dsimp only
    rw [hu', hA.value x v' hc, hargs x v v' hgv (hA.old x v' hc), hg x v hgv]
    rw [decide_eq_false hd1, Bool.xor_false]

/-- the order in which cells are built: every leaf is a base node or a cell built before -/
def OrderOk (N : Aig) (M : Mapping) (base : Nat → Prop) (order : List Nat) : Prop :=
  ∀ pre n post, order = pre ++ n :: post → isCell N M n = some true → ∀ cs, M.cellFanins n = some cs →
    ∀ l ∈ cs, base l ∨ (l ∈ pre ∧ isCell N M l = some true)

theorem makeCells_inv {N : Aig} {M : Mapping} {d : Nat → Driver} {good : (Nat → Bool) → (Nat → Bool) → Prop} {k : Nat}
    {base : Nat → Prop} {order : List Nat} (ho : OrderOk N M base order)
    (hdef : ∀ n ∈ order, ∃ b, isCell N M n = some b ∧ (b = true → ∃ cs f, M.cellFanins n = some cs ∧ M.cellFunction n = some f ∧
      f.WF ∧ f.n = cs.length ∧ (∀ l ∈ cs, d l ≠ .neg) ∧ ∀ x v, good x v → v n = f.eval (args v cs))) :
    ∀ (rest done : List Nat) (s : St), order = done ++ rest →
      Inv d good k (fun j => base j ∨ (j ∈ done ∧ isCell N M j = some true)) s →
      ∃ s', makeCells N M d rest s = some s' ∧ Inv d good k (fun j => base j ∨ (j ∈ order ∧ isCell N M j = some true)) s' := by
  intro rest
  induction rest with
  | nil => intro done s e h; exact ⟨s, rfl, by rw [e, List.append_nil]; exact h⟩
  | cons n rest ih =>
    intro done s e h
    obtain ⟨b, hb, hcs⟩ := hdef n (by rw [e]; simp)
    rw [makeCells, hb]
    cases b with
    | false =>
      apply ih (done ++ [n]) s (by simp [e])
      have : (fun j => base j ∨ (j ∈ done ++ [n] ∧ isCell N M j = some true)) =
          fun j => base j ∨ (j ∈ done ∧ isCell N M j = some true) := by
        funext j
        apply propext
        rw [List.mem_append, List.mem_singleton]
        constructor
        · rintro (h | ⟨h | rfl, h'⟩)
          · exact Or.inl h
          · exact Or.inr ⟨h, h'⟩
          · rw [hb] at h'; cases h'
        · rintro (h | ⟨h, h'⟩)
          · exact Or.inl h
          · exact Or.inr ⟨Or.inl h, h'⟩
      rw [this]
      exact h
    | true =>
      obtain ⟨cs, f, e1, e2, w, a, hd, hv⟩ := hcs rfl
      rw [e1, e2]
      apply ih (done ++ [n]) _ (by simp [e])
      have h' := makeCell_inv h n cs f w a (fun l hl => ⟨ho done n rest e hb cs e1 l hl, hd l hl⟩) hv
      have : (fun j => base j ∨ (j ∈ done ++ [n] ∧ isCell N M j = some true)) =
          fun j => (base j ∨ (j ∈ done ∧ isCell N M j = some true)) ∨ j = n := by
        funext j
        apply propext
        rw [List.mem_append, List.mem_singleton]
        constructor
        · rintro (h | ⟨h | rfl, h'⟩)
          · exact Or.inl (Or.inl h)
          · exact Or.inl (Or.inr ⟨h, h'⟩)
          · exact Or.inr rfl
        · rintro ((h | ⟨h, h'⟩) | rfl)
          · exact Or.inl h
          · exact Or.inr ⟨Or.inl h, h'⟩
          · exact Or.inr ⟨Or.inr rfl, hb⟩
      rw [this]
      exact h'

theorem createPo_old {K : Klut} {f : Nat} {x v : Nat → Bool} (h : (K.createPo f).Consistent x v) : K.Consistent x v := by
  refine ⟨h.const0, h.const1, h.input, ?_⟩
  rintro n cs g ⟨h2, hi, nd, hnd, hc, hf⟩
  apply h.lut n cs g
  refine ⟨h2, hi, { nd with fo := nd.fo + if f = n then 1 else 0 }, ?_, hc, hf⟩
  show (Klut.incFo K.nodes f)[n]? = _
  rw [Klut.incFo_get, hnd]; rfl

theorem makePos_spec (d : Nat → Driver) (s : St) : ∀ (l : List Sig) (K : Klut), Klut.Built K →
    (∀ f ∈ l, outSig d s f < K.nodes.length) →
    Klut.Built (makePos d s l K) ∧ (makePos d s l K).inputs = K.inputs ∧ (makePos d s l K).numPis = K.numPis ∧
    (makePos d s l K).outputs = K.outputs ++ l.map (outSig d s) ∧ (makePos d s l K).numPos = K.numPos + l.length ∧
    ∀ x v, (makePos d s l K).Consistent x v → K.Consistent x v := by
  intro l
  induction l with
  | nil => intro K h _; exact ⟨h, rfl, rfl, by simp [makePos], by simp [makePos], fun _ _ h => h⟩
  | cons f l ih =>
    intro K h hl
    have hb : Klut.Built (K.createPo (outSig d s f)) := .po h (hl f (by simp))
    have hlen : (K.createPo (outSig d s f)).nodes.length = K.nodes.length := Klut.incFo_length _ _
    obtain ⟨h1, h2, h3, h4, h5, h6⟩ := ih _ hb (fun g hg => by rw [hlen]; exact hl g (by simp [hg]))
    rw [makePos]
    refine ⟨h1, h2, h3, ?_, ?_, fun x v hc => createPo_old (h6 x v hc)⟩
    · rw [h4]; simp [Klut.createPo]
    · rw [h5]; simp [Klut.createPo]; omega

/-! ### the theorems -/

/-- which nodes get a cell -/
theorem isCell_iff {N : Aig} {M : Mapping} (hN : Aig.Built N) (hM : Cover.Right N M) (hpi : N.inputs.length = N.numPis) {n : Nat}
    (hn : n < N.nodes.length) : ∃ b, isCell N M n = some b ∧ (b = true ↔ Cover.Root N M n) := by
  have h := hN.wf
  unfold isCell
  by_cases h0 : n = 0 ∨ N.isPi n = true
  · rw [if_pos h0]
    refine ⟨false, rfl, by simp, ?_⟩
    rintro ⟨⟨a, b, hg⟩, _⟩
    exfalso
    rcases h0 with h0 | h0
    · exact hg.1 h0
    · have := hg.not_ci h
      obtain ⟨nd, hnd⟩ : ∃ nd, N.nodes[n]? = some nd := ⟨_, List.getElem?_eq_getElem hn⟩
      simp only [Aig.isPi, Aig.isCi, hnd, Bool.and_eq_true] at h0 this
      rw [h0.1] at this; cases this
  · rw [if_neg h0]
    obtain ⟨b, hb⟩ := hM.marked n hn
    refine ⟨b, hb, ?_⟩
    simp only [not_or, Bool.not_eq_true] at h0
    have hni : n ∉ N.inputs := by
      intro hi
      obtain ⟨k, hk⟩ := List.getElem?_of_mem hi
      obtain ⟨_, nd, hnd, e1, e2, _⟩ := h.input k n hk
      have hlt := Aig.lt_of_getElem? hk
      have : N.isPi n = true := by
        simp only [Aig.isPi, hnd, e1, e2, beq_self_eq_true, Bool.true_and, decide_eq_true_iff, Sig.data_ofData]
        omega
      rw [this] at h0; cases h0.2
    obtain ⟨nd, hnd⟩ : ∃ nd, N.nodes[n]? = some nd := ⟨_, List.getElem?_eq_getElem hn⟩
    constructor
    · rintro rfl
      exact ⟨⟨_, _, h.isGate_of h0.1 hni hnd⟩, hb⟩
    · rintro ⟨_, hr⟩
      rw [hb] at hr; injection hr

/-- the result `K` has the inputs, outputs and output functions of `N` -/
structure Equiv (N : Aig) (K : Klut) : Prop where
  built : Klut.Built K
  numPis : K.numPis = N.numPis
  inputs : K.inputs.length = N.inputs.length
  numPos : K.numPos = N.numPos
  outputs : K.outputs.length = N.outputs.length
  val : ∀ x v v', N.Consistent x v → K.Consistent x v' → K.outputs.map v' = N.outputs.map (·.val v)

theorem collapse_spec (N : Aig) (M : Mapping) (hN : Aig.Built N) (hM : Cover.Right N M) (hpi : N.inputs.length = N.numPis)
    (hpo : N.outputs.length = N.numPos) (order : List Nat) (hmem : ∀ n ∈ order, n < N.nodes.length)
    (hroots : ∀ o ∈ N.outputs, Cover.Root N M o.index → o.index ∈ order)
    (hord : ∀ pre n post, order = pre ++ n :: post → Cover.Root N M n → ∀ cs, M.cellFanins n = some cs → ∀ l ∈ cs,
      Cover.Root N M l → l ∈ pre) :
    ∃ K, collapse N M order = some K ∧ Equiv N K := by
  have h := hN.wf
  have hins : N.inputs.take N.numPis = N.inputs := List.take_of_length_le (by omega)
  have houts : N.outputs.take N.numPos = N.outputs := List.take_of_length_le (by omega)
  have hcell : ∀ n, n < N.nodes.length → ∃ b, isCell N M n = some b ∧ (b = true → Cover.Root N M n) := by
    intro n hn
    obtain ⟨b, hb, hr⟩ := isCell_iff hN hM hpi hn
    exact ⟨b, hb, hr.1⟩
  have hrootcell : ∀ n, Cover.Root N M n → isCell N M n = some true := by
    rintro n hr
    obtain ⟨⟨a, b, g1, g2, nd, hnd, g3⟩, _⟩ := id hr
    obtain ⟨b, hb, hb'⟩ := isCell_iff hN hM hpi (Aig.lt_of_getElem? hnd)
    rw [hb, hb'.2 hr]
  have hrootlt : ∀ n, Cover.Root N M n → n < N.nodes.length := by
    rintro n ⟨⟨a, b, g1, g2, nd, hnd, g3⟩, _⟩
    exact Aig.lt_of_getElem? hnd
  have hrootall : ∀ n, Cover.Root N M n → n ∈ allNodes N := by
    rintro n hr
    have hlt := hrootlt n hr
    obtain ⟨⟨a, b, g1, g2, nd, hnd, g3, _⟩, _⟩ := hr
    rw [allNodes, List.mem_filter, List.mem_range]
    refine ⟨hlt, ?_⟩
    simp [Aig.isDead, hnd, g3]
  obtain ⟨d, ed, d1, d2, d3⟩ := cellDrivers_spec (N := N) (M := M) (allNodes N) (by
    intro n hn
    rw [allNodes, List.mem_filter, List.mem_range] at hn
    obtain ⟨b, hb, hr⟩ := hcell n hn.1
    refine ⟨b, hb, fun ht => ?_⟩
    obtain ⟨cs, f, e, _⟩ := hM.cell n (hr ht)
    exact ⟨cs, e⟩) (poDrivers N.outputs fun _ => .none)
  let good : (Nat → Bool) → (Nat → Bool) → Prop := fun x v => N.Consistent x v
  have i1 := constants_inv d good (fun x v hv => hv.models.const)
  have i2 := makePis_inv N.inputs i1 (fun x v hv i n hn => by rw [Nat.zero_add]; exact hv.input i n hn)
  rw [Nat.zero_add] at i2
  have hbase : (fun j => j = 0 ∨ j ∈ N.inputs) = fun j => (j = 0 ∨ j ∈ N.inputs) ∨ (j ∈ ([] : List Nat) ∧ isCell N M j = some true) := by
    funext j; simp
  rw [hbase] at i2
  obtain ⟨s, es, i3⟩ := makeCells_inv (N := N) (M := M) (base := fun j => j = 0 ∨ j ∈ N.inputs) (order := order) (by
      intro pre n post e hc cs hcs l hl
      have hn : n < N.nodes.length := hmem n (by rw [e]; simp)
      obtain ⟨b, hb, hr⟩ := hcell n hn
      rw [hc] at hb; injection hb with hb
      obtain ⟨cs', f, e1, _, _, _, hleaf, _⟩ := hM.cell n (hr hb.symm)
      rw [hcs] at e1; injection e1 with e1
      subst e1
      rcases hleaf l hl with h0 | hi | hr'
      · exact Or.inl (Or.inl h0)
      · exact Or.inl (Or.inr hi)
      · exact Or.inr ⟨hord pre n post e (hr hb.symm) cs hcs l hl hr', hrootcell l hr'⟩)
    (by
      intro n hn
      obtain ⟨b, hb, hr⟩ := hcell n (hmem n hn)
      refine ⟨b, hb, fun ht => ?_⟩
      obtain ⟨cs, f, e1, e2, w, a, hl, hf⟩ := hM.cell n (hr ht)
      refine ⟨cs, f, e1, e2, w, a, ?_, fun x v hv => hf v hv.models⟩
      intro l hl'
      exact d3 n (hrootall n (hr ht)) (hrootcell n (hr ht)) cs e1 l hl')
    order [] _ rfl i2
  have hout : ∀ f, outSig d s f < s.dest.nodes.length := by
    intro f
    unfold outSig
    split
    · exact i3.opp _
    · exact i3.sig _
  obtain ⟨p1, p2, p3, p4, p5, p6⟩ := makePos_spec d s N.outputs s.dest i3.built (fun f _ => hout f)
  refine ⟨makePos d s N.outputs s.dest, ?_, p1, by rw [p3, i3.numPis, hpi], by rw [p2, i3.inputs],
    by rw [p5, i3.numPos, ← hpo]; omega, by rw [p4, i3.outputs]; simp, ?_⟩
  · simp only [collapse, houts, hins, ed, es]
  · intro x v v' hv hc
    rw [p4, i3.outputs, List.nil_append, List.map_map]
    apply List.map_congr_left
    intro o ho
    have hserves := d1 o.index o.compl (poDrivers_serves N.outputs _ o ho)
    have hknown : (o.index = 0 ∨ o.index ∈ N.inputs) ∨ (o.index ∈ order ∧ isCell N M o.index = some true) := by
      rcases hM.output o ho with h0 | hi | hr
      · exact Or.inl (Or.inl h0)
      · exact Or.inl (Or.inr hi)
      · exact Or.inr ⟨hroots o ho hr, hrootcell _ hr⟩
    obtain ⟨r1, r2⟩ := i3.val x v v' hv (p6 x v' hc) o.index hknown
    show v' (outSig d s o) = Bool.xor o.compl (v o.index)
    unfold outSig
    split
    · rename_i hm
      rw [r2 hm.2, hm.1]; simp
    · rename_i hm
      rw [r1]
      rcases hserves with e | e
      · rw [e]
        have : o.compl = false := by
          cases hcc : o.compl
          · rfl
          · exact absurd ⟨hcc, e⟩ hm
        rw [this]; simp
      · rw [e]
        cases o.compl <;> simp

/-- a node's strict fanin cone precedes it -/
theorem FaninsFirst.before {kids : Nat → List Nat} {order pre post : List Nat} {n l : Nat} (h : FaninsFirst kids order)
    (e : order = pre ++ n :: post) (ht : Tfi kids n l) (hne : l ≠ n) : l ∈ pre := by
  have hpre : FaninsFirst kids pre := by
    intro l1 k l2 e' m hm
    exact h l1 k (l2 ++ n :: post) (by rw [e, e']; simp) m hm
  cases ht with
  | refl => exact absurd rfl hne
  | step hk ht => exact hpre.mem (h pre n post e _ hk) ht

/-- C34 for constructed AIGs without registers: whenever the mapping is a legal cover, `network_to_klut` returns a
LUT network with the same inputs and outputs in the same order, and every output computes the same function, for
all output polarities. It returns nothing exactly when the AIG has gates but no cell. Missing: registers
(`C34_violated_registers`). -/
theorem C34_network_to_klut_partial (N : Aig) (M : Mapping) (hN : Aig.Built N) (hM : Cover.Legal N M)
    (hpi : N.inputs.length = N.numPis) (hpo : N.outputs.length = N.numPos) (fuel : Nat) (hf : N.size ≤ fuel) :
    ∃ r, networkToKlut N M fuel = some r ∧ (r = none ↔ M.hasMapping = false ∧ 0 < N.numGates) ∧
      ∀ K, r = some K → Equiv N K := by
  unfold networkToKlut
  by_cases hc : (!M.hasMapping && decide (0 < N.numGates)) = true
  · rw [if_pos hc]
    rw [Bool.and_eq_true, Bool.not_eq_true', decide_eq_true_iff] at hc
    exact ⟨none, rfl, by simp [hc], by simp⟩
  · rw [if_neg hc]
    rw [Bool.and_eq_true, Bool.not_eq_true', decide_eq_true_iff] at hc
    obtain ⟨order, rest, eo, _, hnd, hff, hmem⟩ := Topo.C15_topo N id (Topo.C15_built N hN) fuel (fun o ho => by
      have := hN.wf.outputs o ho; simp only [Aig.Valid, Aig.size, id] at *; omega)
    rw [eo]
    obtain ⟨K, eK, hK⟩ := collapse_spec N M hN hM.right hpi hpo order (by
        intro n hn
        rcases (hmem n).1 hn with rfl | hi | ⟨o, ho, ht⟩
        · exact hN.wf.pos
        · obtain ⟨k, hk⟩ := List.getElem?_of_mem hi
          obtain ⟨_, nd, hnd, _⟩ := hN.wf.input k n hk
          exact Aig.lt_of_getElem? hnd
        · exact Aig.Tfi_lt hN.wf ht (hN.wf.outputs o ho))
      (fun o ho _ => (hmem _).2 (Or.inr (Or.inr ⟨o, ho, .refl _⟩)))
      (fun pre n post e hr cs hcs l hl _ => by
        obtain ⟨cs', f, e', _, _, _, hleaf, _⟩ := hM.cell n hr
        obtain rfl := Option.some.inj (hcs.symm.trans e')
        exact FaninsFirst.before hff e (hleaf l hl).2.2 (hleaf l hl).2.1)
    refine ⟨some K, by dsimp only; rw [eK]; rfl, by simp only [reduceCtorEq, false_iff]; exact hc, ?_⟩
    intro K' e
    injection e with e
    subst e
    exact hK

theorem _root_.Verif.Cover.Legal.rising {N : Aig} {M : Mapping} (hN : Aig.Built N) (h : Cover.Legal N M) : Cover.Rising N M := by
  intro n cs hr hcs l hl
  obtain ⟨cs', f, e, _, _, _, hleaf, _⟩ := h.cell n hr
  obtain rfl := Option.some.inj (hcs.symm.trans e)
  have := (hleaf l hl).2.2.rank (Topo.C15_built N hN).ranked
  have hne := (hleaf l hl).2.1
  simp only [id] at this
  omega

/-- the same for `choice_to_klut`, also on an AIG with choices, where the leaves of a cell need not be in the cone of
its root: cells with smaller leaves are enough -/
theorem C34_choice_to_klut_rising_partial (N : Aig) (M : Mapping) (hN : Aig.Built N) (hM : Cover.Right N M)
    (hR : Cover.Rising N M) (hpi : N.inputs.length = N.numPis) (hpo : N.outputs.length = N.numPos) :
    ∃ r, choiceToKlut N M = some r ∧ (r = none ↔ M.hasMapping = false ∧ 0 < N.numGates) ∧ ∀ K, r = some K → Equiv N K := by
  unfold choiceToKlut
  by_cases hc : (!M.hasMapping && decide (0 < N.numGates)) = true
  · rw [if_pos hc]
    rw [Bool.and_eq_true, Bool.not_eq_true', decide_eq_true_iff] at hc
    exact ⟨none, rfl, by simp [hc], by simp⟩
  · rw [if_neg hc]
    rw [Bool.and_eq_true, Bool.not_eq_true', decide_eq_true_iff] at hc
    obtain ⟨K, eK, hK⟩ := collapse_spec N M hN hM hpi hpo N.gates (by
        intro n hn
        rw [Aig.gates, List.mem_filter, List.mem_range] at hn
        exact hn.1)
      (fun o ho hr => (hN.wf.mem_gates _).2 hr.1)
      (fun pre n post e hr cs hcs l hl hr' =>
        ToAig.before_of_lt (l := N.gates) ((ToAig.range_sorted _).filter _) e ((hN.wf.mem_gates l).2 hr'.1) (hR n cs hr hcs l hl))
    refine ⟨some K, by rw [eK]; rfl, by simp only [reduceCtorEq, false_iff]; exact hc, ?_⟩
    intro K' e
    injection e with e
    subst e
    exact hK

/-- the same for `choice_to_klut` on a legal cover -/
theorem C34_choice_to_klut_partial (N : Aig) (M : Mapping) (hN : Aig.Built N) (hM : Cover.Legal N M)
    (hpi : N.inputs.length = N.numPis) (hpo : N.outputs.length = N.numPos) :
    ∃ r, choiceToKlut N M = some r ∧ (r = none ↔ M.hasMapping = false ∧ 0 < N.numGates) ∧ ∀ K, r = some K → Equiv N K :=
  C34_choice_to_klut_rising_partial N M hN hM.right (hM.rising hN) hpi hpo

/-- the covered AIG of `C35` meets the hypotheses -/
example : ∃ M K, ToAig.coverMap = some M ∧ networkToKlut ToAig.coverAig M 6 = some (some K) ∧ Equiv ToAig.coverAig K := by
  obtain ⟨M, e, h1, h2⟩ := ToAig.cover_legal
  obtain ⟨r, e', h3, h4⟩ := C34_network_to_klut_partial ToAig.coverAig M ToAig.coverAig_built h1 (by decide) (by decide) 6 (by decide)
  have hm : M.hasMapping = true := by
    have : ToAig.coverMap.map (·.hasMapping) = some true := by decide +kernel
    rw [e] at this; simpa using this
  cases r with
  | none => have := h3.1 rfl; rw [hm] at this; simp at this
  | some K => exact ⟨M, K, e, e', h4 K rfl⟩

/-- The LUTs have no more inputs than the cells have leaves; `k ≥ 1` because output inverters of primary inputs are
LUTs with one input. Missing: registers. -/
theorem C34_lut_size_partial (N : Aig) (M : Mapping) (hN : Aig.Built N) (hM : Cover.Right N M)
    (hpi : N.inputs.length = N.numPis) (k : Nat) (hk : 1 ≤ k)
    (hc : ∀ n cs, Cover.Root N M n → M.cellFanins n = some cs → cs.length ≤ k) (K : Klut)
    (e : choiceToKlut N M = some (some K) ∨ ∃ fuel, N.size ≤ fuel ∧ networkToKlut N M fuel = some (some K)) :
    ∀ (n : Nat) nd, K.nodes[n]? = some nd → nd.children.length ≤ k := by
  have hl : ∀ n, n < N.nodes.length → isCell N M n = some true → ∀ cs, M.cellFanins n = some cs → cs.length ≤ k := by
    intro n hn h cs hcs
    obtain ⟨b, hb, hr⟩ := isCell_iff hN hM hpi hn
    rw [h] at hb
    exact hc n cs (hr.1 (Option.some.inj hb).symm) hcs
  have hmap : ∀ order, (∀ n ∈ order, n < N.nodes.length) → (collapse N M order).map some = some (some K) → Small k K := by
    intro order ho h
    obtain ⟨K', hK, e'⟩ := Option.map_eq_some_iff.1 h
    obtain rfl := Option.some.inj e'
    exact collapse_small hk (fun n hn => hl n (ho n hn)) hK
  rcases e with e | ⟨fuel, hf, e⟩
  · unfold choiceToKlut at e
    split at e
    · simp at e
    · refine hmap _ (fun n hn => ?_) e
      rw [Aig.gates, List.mem_filter, List.mem_range] at hn
      exact hn.1
  · unfold networkToKlut at e
    split at e
    · simp at e
    · obtain ⟨order, rest, eo, _, hnd, hff, hmem⟩ := Topo.C15_topo N id (Topo.C15_built N hN) fuel (fun o ho => by
        have := hN.wf.outputs o ho; simp only [Aig.Valid, Aig.size, id] at *; omega)
      rw [eo] at e
      refine hmap _ (fun n hn => ?_) e
      rcases (hmem n).1 hn with rfl | hi | ⟨o, ho, ht⟩
      · exact hN.wf.pos
      · obtain ⟨k, hk⟩ := List.getElem?_of_mem hi
        obtain ⟨_, nd, hnd, _⟩ := hN.wf.input k n hk
        exact Aig.lt_of_getElem? hnd
      · exact Aig.Tfi_lt hN.wf ht (hN.wf.outputs o ho)

/-- the cover of `C35`, whose only cell has three leaves, meets the hypotheses with `k = 3` -/
example : ∃ M, ToAig.coverMap = some M ∧ M.cellFanins 5 = some [1, 2, 3] ∧
    ∀ n cs, Cover.Root ToAig.coverAig M n → M.cellFanins n = some cs → cs.length ≤ 3 := by
  have h : ToAig.coverMap.map (fun M => (M.cellFanins 5, M.mappings)) = some (some [1, 2, 3], [0, 0, 0, 0, 0, 6, 3, 1, 2, 3]) := by
    decide +kernel
  obtain ⟨M, e, h1, h2⟩ := ToAig.cover_legal
  rw [e] at h
  simp only [Option.map_some, Option.some.injEq, Prod.mk.injEq] at h
  refine ⟨M, e, h.1, fun n cs hr hc => ?_⟩
  obtain ⟨⟨a, b, hg⟩, hr⟩ := hr
  have hn : n < 6 := (ToAig.coverAig_built.wf.isGate_lt hg).2.2.2
  rw [Mapping.isCellRoot, h.2] at hr
  have : n = 5 := by
    match n, hn with
    | 0, _ => simp at hr
    | 1, _ => simp at hr
    | 2, _ => simp at hr
    | 3, _ => simp at hr
    | 4, _ => simp at hr
    | 5, _ => rfl
  subst this
  rw [h.1] at hc
  obtain rfl := Option.some.inj hc
  decide

/-- a register whose output drives a primary output; no gates, so no cells are needed -/
def regAig : Aig :=
  let r1 := Aig.empty.createPi
  let r2 := r1.1.createRo
  let r3 := r2.1.createPo r2.2
  r3.createRi r1.2 0

theorem regAig_built : Aig.Built regAig := .ri (.po (.ro (.pi .empty)) (by decide)) (by decide)

theorem regAig_legal : Cover.Legal regAig (Mapping.init 3) := by
  refine ⟨?_, ?_, ?_⟩
  · intro n hn
    have : n < 3 := hn
    match n, this with
    | 0, _ => exact ⟨false, rfl⟩
    | 1, _ => exact ⟨false, rfl⟩
    | 2, _ => exact ⟨false, rfl⟩
  · intro o ho
    have : ∀ o ∈ regAig.outputs, o.index ∈ regAig.inputs := by decide
    exact Or.inr (Or.inl (this o ho))
  · rintro n ⟨⟨a, b, h0, hi, nd, hnd, _⟩, _⟩
    exfalso
    have : n < 3 := Aig.lt_of_getElem? hnd
    match n, this with
    | 0, _ => exact h0 rfl
    | 1, _ => exact hi (by decide)
    | 2, _ => exact hi (by decide)

/-- `network_to_klut` drops registers and reads register outputs as constant 0: the primary output, which is the
register output, becomes constant. -/
theorem C34_violated_registers : ∃ K, networkToKlut regAig (Mapping.init 3) 3 = some (some K) ∧
    K.inputs.length ≠ regAig.inputs.length ∧ K.outputs.length ≠ regAig.outputs.length ∧
    (∀ x v, K.Consistent x v → K.outputs.map v = [false]) ∧
    ∀ x v, x 1 = true → regAig.Consistent x v → (regAig.outputs.map (·.val v)).head? = some true := by
  refine ⟨Klut.empty.createPi.1.createPo 0, by decide +kernel, by decide, by decide, ?_, ?_⟩
  · intro x v hv
    show [v 0] = _
    rw [hv.const0]
  · intro x v hx hv
    show some (Bool.xor false (v 2)) = some true
    rw [hv.input 1 2 (by decide), hx]; rfl

end Verif.Collapse
