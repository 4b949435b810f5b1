import Verif.Aig.Inv

set_option autoImplicit false

/-!
# Derived constructors: helper lemmas
-/

namespace Verif.Aig

variable {N : Aig}

theorem GateSpec.mono {f g : (Nat → Bool) → Bool} {r} (h : GateSpec N f r)
    (e : ∀ v, v 0 = false → f v = g v) : GateSpec N g r :=
  { h with val := fun v hv => (h.val v hv).trans (e v hv.const) }

theorem GateSpec.not {f : (Nat → Bool) → Bool} {r} (h : GateSpec N f r) :
    GateSpec N (fun v => !(f v)) (r.1, r.2.not) :=
  { wf := h.wf, ext := h.ext, valid := h.valid, inputs := h.inputs, outputs := h.outputs,
    numPis := h.numPis, numPos := h.numPos, latches := h.latches, built := h.built,
    val := fun v hv => by simp [h.val v hv] }

theorem GateSpec.xorb {f : (Nat → Bool) → Bool} {r} (h : GateSpec N f r) (c : Bool) :
    GateSpec N (fun v => Bool.xor (f v) c) (r.1, r.2.xorb c) :=
  { wf := h.wf, ext := h.ext, valid := h.valid, inputs := h.inputs, outputs := h.outputs,
    numPis := h.numPis, numPos := h.numPos, latches := h.latches, built := h.built,
    val := fun v hv => by simp [h.val v hv] }

/-- Sequencing: run one constructor, then another one whose specification may use the value of the
first result. -/
theorem GateSpec.bind {f : (Nat → Bool) → Bool} {g : (Nat → Bool) → Bool} {r r'}
    (h : GateSpec N f r) (h' : GateSpec r.1 g r') :
    GateSpec N g r' :=
  { wf := h'.wf, ext := h.ext.trans h'.ext, valid := h'.valid, inputs := h'.inputs.trans h.inputs,
    outputs := h'.outputs.trans h.outputs, numPis := h'.numPis.trans h.numPis,
    numPos := h'.numPos.trans h.numPos, latches := h'.latches.trans h.latches,
    built := fun hN => h'.built (h.built hN), val := h'.val }

/-- The value of the first result is still known in valuations of the second network. -/
theorem GateSpec.val_later {f : (Nat → Bool) → Bool} {r} (h : GateSpec N f r) {M : Aig}
    (e : Ext r.1 M) {v} (hv : M.Models v) : r.2.val v = f v := h.val v (e.models hv)

theorem createNand_spec (h : WF N) {a b : Sig} (ha : N.Valid a) (hb : N.Valid b) :
    GateSpec N (fun v => !(a.val v && b.val v)) (N.createNand a b) :=
  (createAnd_spec h ha hb).not

theorem createOr_spec (h : WF N) {a b : Sig} (ha : N.Valid a) (hb : N.Valid b) :
    GateSpec N (fun v => a.val v || b.val v) (N.createOr a b) := by
  have := (createAnd_spec h (a := a.not) (b := b.not) ha hb).not
  exact this.mono (fun v _ => by simp)

theorem createNor_spec (h : WF N) {a b : Sig} (ha : N.Valid a) (hb : N.Valid b) :
    GateSpec N (fun v => !(a.val v || b.val v)) (N.createNor a b) := by
  have := (createAnd_spec h (a := a.not) (b := b.not) ha hb)
  exact this.mono (fun v _ => by simp)

theorem createLt_spec (h : WF N) {a b : Sig} (ha : N.Valid a) (hb : N.Valid b) :
    GateSpec N (fun v => !(a.val v) && b.val v) (N.createLt a b) := by
  have := (createAnd_spec h (a := a.not) (b := b) ha hb)
  exact this.mono (fun v _ => by simp)

theorem createLe_spec (h : WF N) {a b : Sig} (ha : N.Valid a) (hb : N.Valid b) :
    GateSpec N (fun v => !(a.val v) || b.val v) (N.createLe a b) := by
  have := (createAnd_spec h (a := a) (b := b.not) ha hb).not
  exact this.mono (fun v _ => by simp)

/-- Three conjunctions combined as in `create_xor` and `create_ite`. -/
theorem three_spec (h : WF N) {a b c d : Sig} (ha : N.Valid a) (hb : N.Valid b) (hc : N.Valid c)
    (hd : N.Valid d) (k : Bool) :
    GateSpec N (fun v => Bool.xor (!(a.val v && b.val v) && !(c.val v && d.val v)) k)
      (let r1 := N.createAnd a b
       let r2 := r1.1.createAnd c d
       let r3 := r2.1.createAnd r1.2.not r2.2.not
       (r3.1, r3.2.xorb k)) := by
  have s1 := createAnd_spec h ha hb
  have s2 := createAnd_spec s1.wf (s1.ext.valid hc) (s1.ext.valid hd)
  have s3 := createAnd_spec s2.wf (a := (N.createAnd a b).2.not)
    (b := ((N.createAnd a b).1.createAnd c d).2.not) (s2.ext.valid s1.valid) s2.valid
  have := ((s1.bind s2).bind s3).xorb k
  refine { this with val := ?_ }
  intro v hv
  have hv' : ((((N.createAnd a b).1.createAnd c d).1.createAnd (N.createAnd a b).2.not
    ((N.createAnd a b).1.createAnd c d).2.not).1).Models v := hv
  have := this.val v hv
  dsimp only at this ⊢
  rw [this]
  simp only [Sig.val_not]
  rw [s1.val_later (s2.ext.trans s3.ext) hv', s2.val_later s3.ext hv']

theorem Sig.val_pos_neg (v : Nat → Bool) (a : Sig) :
    a.pos.val v = Bool.xor a.compl (a.val v) ∧ a.neg.val v = !(Bool.xor a.compl (a.val v)) := by
  cases a with | mk i c => cases c <;> simp [Sig.val, Sig.pos, Sig.neg]

theorem createXor_spec (h : WF N) {a b : Sig} (ha : N.Valid a) (hb : N.Valid b) :
    GateSpec N (fun v => Bool.xor (a.val v) (b.val v)) (N.createXor a b) := by
  have := three_spec h (a := a.pos) (b := b.neg) (c := b.pos) (d := a.neg) ha hb hb ha
    (!(Bool.xor a.compl b.compl))
  refine this.mono (fun v _ => ?_)
  simp only [Sig.val_pos_neg]
  cases a.compl <;> cases b.compl <;> cases a.val v <;> cases b.val v <;> rfl

theorem createXnor_spec (h : WF N) {a b : Sig} (ha : N.Valid a) (hb : N.Valid b) :
    GateSpec N (fun v => !(Bool.xor (a.val v) (b.val v))) (N.createXnor a b) :=
  (createXor_spec h ha hb).not

theorem createIte_spec (h : WF N) {c t e : Sig} (hc : N.Valid c) (ht : N.Valid t) (he : N.Valid e) :
    GateSpec N (fun v => if c.val v then t.val v else e.val v) (N.createIte c t e) := by
  -- the operands after the swap and the complement normalisation
  let sw := decide (t.index < e.index)
  let ft1 := if sw then e else t
  let fe1 := if sw then t else e
  let cond := if sw then c.not else c
  let ft := if ft1.compl then ft1.pos else ft1
  let fe := if ft1.compl then fe1.not else fe1
  have hft1 : N.Valid ft1 := by show N.Valid (if sw then e else t); split <;> assumption
  have hfe1 : N.Valid fe1 := by show N.Valid (if sw then t else e); split <;> assumption
  have hcond : N.Valid cond := by show N.Valid (if sw then c.not else c); split <;> assumption
  have hft : N.Valid ft := by show N.Valid (if ft1.compl then ft1.pos else ft1); split <;> assumption
  have hfe : N.Valid fe := by show N.Valid (if ft1.compl then fe1.not else fe1); split <;> assumption
  have := three_spec h (a := cond.not) (b := fe) (c := cond) (d := ft) hcond hfe hcond hft (!ft1.compl)
  refine GateSpec.mono (r := N.createIte c t e) this (fun v _ => ?_)
  have e1 : ft.val v = Bool.xor ft1.compl (ft1.val v) := by
    show (if ft1.compl then ft1.pos else ft1).val v = _
    split
    · rw [(Sig.val_pos_neg v ft1).1]
    · simp_all
  have e2 : fe.val v = Bool.xor ft1.compl (fe1.val v) := by
    show (if ft1.compl then fe1.not else fe1).val v = _
    split <;> simp_all
  have e3 : cond.val v = Bool.xor sw (c.val v) := by
    show (if sw then c.not else c).val v = _
    split <;> simp_all
  have e4 : ft1.val v = if sw then e.val v else t.val v := by
    show (if sw then e else t).val v = _
    split <;> rfl
  have e5 : fe1.val v = if sw then t.val v else e.val v := by
    show (if sw then t else e).val v = _
    split <;> rfl
  rw [Sig.val_not, e1, e2, e3, e4, e5]
  cases sw <;> cases ft1.compl <;> cases c.val v <;> cases t.val v <;> cases e.val v <;> rfl

theorem createMaj_eq (N : Aig) (a b c : Sig) : N.createMaj a b c =
    (((N.createAnd a b).1.createAnd a.not b.not).1.createAnd c
      ((N.createAnd a b).1.createAnd a.not b.not).2.not).1.createOr (N.createAnd a b).2
      (((N.createAnd a b).1.createAnd a.not b.not).1.createAnd c
      ((N.createAnd a b).1.createAnd a.not b.not).2.not).2 := rfl

theorem createMaj_spec (h : WF N) {a b c : Sig} (ha : N.Valid a) (hb : N.Valid b) (hc : N.Valid c) :
    GateSpec N (fun v => (a.val v && b.val v) || (c.val v && (a.val v || b.val v)))
      (N.createMaj a b c) := by
  rw [createMaj_eq]
  have s1 := createAnd_spec h ha hb
  generalize N.createAnd a b = r1 at *
  have s2 := createAnd_spec s1.wf (a := a.not) (b := b.not) (s1.ext.valid ha) (s1.ext.valid hb)
  generalize r1.1.createAnd a.not b.not = r2 at *
  have s3 := createAnd_spec s2.wf (a := c) (b := r2.2.not) ((s1.ext.trans s2.ext).valid hc) s2.valid
  generalize r2.1.createAnd c r2.2.not = r3 at *
  have s4 := createOr_spec s3.wf (s3.ext.valid (s2.ext.valid s1.valid)) s3.valid
  generalize r3.1.createOr r1.2 r3.2 = r4 at *
  have := ((s1.bind s2).bind s3).bind s4
  refine { this with val := ?_ }
  intro v hv
  rw [this.val v hv, s1.val_later ((s2.ext.trans s3.ext).trans s4.ext) hv, s3.val v (s4.ext.models hv)]
  simp only [Sig.val_not]
  rw [s2.val_later (s3.ext.trans s4.ext) hv]
  simp

theorem createXor3_eq (N : Aig) (a b c : Sig) : N.createXor3 a b c =
    (N.createXor a b).1.createXor (N.createXor a b).2 c := rfl

theorem createXor3_spec (h : WF N) {a b c : Sig} (ha : N.Valid a) (hb : N.Valid b) (hc : N.Valid c) :
    GateSpec N (fun v => Bool.xor (Bool.xor (a.val v) (b.val v)) (c.val v)) (N.createXor3 a b c) := by
  rw [createXor3_eq]
  have s1 := createXor_spec h ha hb
  generalize N.createXor a b = r1 at *
  have s2 := createXor_spec s1.wf s1.valid (s1.ext.valid hc)
  generalize r1.1.createXor r1.2 c = r2 at *
  have := s1.bind s2
  refine { this with val := ?_ }
  intro v hv
  rw [this.val v hv, s1.val_later s2.ext hv]

theorem GateSpec.id (h : WF N) {s : Sig} (hs : N.Valid s) : GateSpec N (fun v => s.val v) (N, s) :=
  ⟨h, Ext.refl N, hs, fun _ _ => rfl, rfl, rfl, rfl, rfl, rfl, fun h => h⟩

theorem const_spec (h : WF N) (b : Bool) : GateSpec N (fun _ => b) (N, Sig.const b) :=
  (GateSpec.id h (h.valid_const b)).mono (fun v h0 => by simp [Sig.val, h0])

/-- `tree_reduce` with an associative operation `o` with unit computed by the constructor `op`. -/
theorem treeReduce_spec (op : Aig → Sig → Sig → Aig × Sig) (o : Bool → Bool → Bool) (u : Bool)
    (assoc : ∀ x y z, o (o x y) z = o x (o y z)) (unit : ∀ x, o x u = x)
    (unit' : ∀ x, o u x = x)
    (hop : ∀ {M : Aig}, WF M → ∀ {a b : Sig}, M.Valid a → M.Valid b →
      GateSpec M (fun v => o (a.val v) (b.val v)) (op M a b)) :
    ∀ (n : Nat) (fs : List Sig), fs.length ≤ n → ∀ {N : Aig}, WF N → (∀ s ∈ fs, N.Valid s) →
      GateSpec N (fun v => fs.foldr (fun s acc => o (s.val v) acc) u)
        (treeReduce op (Sig.const u) N fs) := by
  have fold_app : ∀ (v : Nat → Bool) (l1 l2 : List Sig),
      (l1 ++ l2).foldr (fun s acc => o (s.val v) acc) u =
        o (l1.foldr (fun s acc => o (s.val v) acc) u) (l2.foldr (fun s acc => o (s.val v) acc) u) := by
    intro v l1 l2
    induction l1 with
    | nil => simp [unit']
    | cons s l ih => simp only [List.cons_append, List.foldr_cons, ih, assoc]
  intro n
  induction n with
  | zero =>
    intro fs hl N h hv
    have : fs = [] := List.length_eq_zero_iff.1 (by omega)
    subst this
    rw [treeReduce]
    exact const_spec h u
  | succ n ih =>
    intro fs hl N h hv
    match fs, hl, hv with
    | [], _, _ => rw [treeReduce]; exact const_spec h u
    | [a], _, hv =>
      rw [treeReduce]
      exact (GateSpec.id h (hv a (by simp))).mono (fun v _ => by simp [unit])
    | [a, b], _, hv =>
      rw [treeReduce]
      exact (hop h (hv a (by simp)) (hv b (by simp))).mono (fun v _ => by simp [unit])
    | a :: b :: c :: l, hl, hv =>
      rw [treeReduce]
      generalize hfs : a :: b :: c :: l = fs at *
      have hlen : 3 ≤ fs.length := by subst hfs; simp
      have s1 := ih (fs.take (fs.length / 2)) (by simp; omega) h
        (fun s hs => hv s (List.mem_of_mem_take hs))
      have s2 := ih (fs.drop (fs.length / 2)) (by simp; omega) s1.wf
        (fun s hs => s1.ext.valid (hv s (List.mem_of_mem_drop hs)))
      have s3 := hop s2.wf (s2.ext.valid s1.valid) s2.valid
      have := (s1.bind s2).bind s3
      refine { this with val := ?_ }
      intro v hv
      refine (this.val v hv).trans ?_
      rw [s1.val_later (s2.ext.trans s3.ext) hv, s2.val_later s3.ext hv, ← fold_app,
        List.take_append_drop]

end Verif.Aig
