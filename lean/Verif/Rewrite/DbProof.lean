import Verif.Rewrite.Db
import Verif.Rewrite.NpnProof
import Verif.Aig.CleanupProof
import Verif.Props.C45
import Verif.Props.C14

set_option autoImplicit false

/-!
# The database holds what its keys say, and resynthesis returns equivalent signals
-/

namespace Verif.Rewrite

open Verif.Aig

theorem litSig_valid {N : Aig} {sigs : List Sig} (h : ∀ s ∈ sigs, N.Valid s) {l : Nat} {s : Sig}
    (e : litSig sigs l = some s) : N.Valid s := by
  unfold litSig at e
  split at e
  · simp at e
  · rename_i t ht
    obtain rfl := Option.some.inj e
    have := h t (List.mem_of_getElem? ht)
    split
    · exact this
    · exact this

theorem dbGates_spec : ∀ (f : Nat) (l : List Nat), l.length ≤ f → ∀ (N : Aig) (sigs : List Sig), WF N → (∀ s ∈ sigs, N.Valid s) →
    ∀ N' sigs', dbGates l N sigs = some (N', sigs') → Grown N N' ∧ ∀ s ∈ sigs', N'.Valid s := by
  intro f
  induction f with
  | zero =>
    intro l hl N sigs hN hs N' sigs' e
    obtain rfl := List.length_eq_zero_iff.1 (Nat.le_zero.1 hl)
    rw [dbGates] at e
    obtain ⟨rfl, rfl⟩ := Prod.mk.inj (Option.some.inj e)
    exact ⟨Grown.refl hN, hs⟩
  | succ f ih =>
    intro l hl N sigs hN hs N' sigs' e
    match l, hl, e with
    | [], _, e =>
      rw [dbGates] at e
      obtain ⟨rfl, rfl⟩ := Prod.mk.inj (Option.some.inj e)
      exact ⟨Grown.refl hN, hs⟩
    | [_], _, e => simp [dbGates] at e
    | l0 :: l1 :: rest, hl, e =>
      rw [dbGates] at e
      split at e
      · rename_i s0 s1 e0 e1
        dsimp only at e
        have v0 := litSig_valid hs e0
        have v1 := litSig_valid hs e1
        have key : Grown N (if l0 > l1 then N.createXor s0 s1 else N.createAnd s0 s1).1 ∧
            (if l0 > l1 then N.createXor s0 s1 else N.createAnd s0 s1).1.Valid
              (if l0 > l1 then N.createXor s0 s1 else N.createAnd s0 s1).2 := by
          split
          · exact ⟨(createXor_spec hN v0 v1).grown, (createXor_spec hN v0 v1).valid⟩
          · exact ⟨(createAnd_spec hN v0 v1).grown, (createAnd_spec hN v0 v1).valid⟩
        obtain ⟨g1, h1⟩ := ih rest (by simp at hl; omega) _ _ key.1.wf (by
          intro s h
          rcases List.mem_append.1 h with h | h
          · exact key.1.ext.valid (hs s h)
          · obtain rfl := List.mem_singleton.1 h
            exact key.2) N' sigs' e
        exact ⟨key.1.trans g1, h1⟩
      · simp at e

theorem dbOuts_spec : ∀ (l : List Nat) (sigs : List Sig) (N : Aig), Built N → (∀ s ∈ sigs, N.Valid s) →
    ∀ N', dbOuts sigs l N = some N' → Built N' ∧ N'.inputs = N.inputs ∧ N'.numPis = N.numPis := by
  intro l
  induction l with
  | nil =>
    intro sigs N hN hs N' e
    obtain rfl := Option.some.inj e
    exact ⟨hN, rfl, rfl⟩
  | cons l rest ih =>
    intro sigs N hN hs N' e
    rw [dbOuts] at e
    split at e
    · simp at e
    · rename_i s es
      obtain ⟨h1, h2, h3⟩ := ih sigs (N.createPo s) (.po hN (litSig_valid hs es))
        (fun t ht => (ext_createPo N s).valid (hs t ht)) N' e
      exact ⟨h1, h2, h3⟩

theorem decodeDb_spec {w : Nat} {rest : List Nat} {net : Aig} (e : decodeDb (w :: rest) = some net) (hw : dbPis w = 4) :
    Built net ∧ net.inputs = [1, 2, 3, 4] ∧ net.numPis = 4 := by
  rw [decodeDb, hw] at e
  have hb : Built (cloneInputs 4 Aig.empty).1 := (cloneInputs_spec 4 Aig.empty .empty rfl).1
  have hv := (cloneInputs_spec 4 Aig.empty .empty rfl).2.2.2.2.2.2.2.2.2.1
  split at e
  · simp at e
  · rename_i N sigs hg
    obtain ⟨g, hs⟩ := dbGates_spec _ _ (Nat.le_refl _) _ _ hb.wf (by
      intro s h
      rcases List.mem_cons.1 h with rfl | h
      · exact hb.wf.pos
      · exact (hv s h).1) _ _ hg
    obtain ⟨h1, h2, h3⟩ := dbOuts_spec _ _ _ (g.built hb) hs _ e
    exact ⟨h1, h2.trans (g.inputs.trans rfl), h3.trans (g.numPis.trans rfl)⟩

theorem interp_ttSim4 {p : Nat} (hp : p < 2 ^ 4) : Interp ttSim4 (fun t => t.n = 4 ∧ t.WF) (fun t => t.get p) where
  constant b := ⟨⟨rfl, TT.wf_const 4 b⟩, TT.get_const b hp⟩
  pi i := ⟨rfl, TT.wf_nthVar 4 i⟩
  neg a ha := ⟨⟨ha.1, TT.wf_not a⟩, TT.get_not (by rw [ha.1]; exact hp)⟩
  conj a b ha hb := ⟨⟨ha.1, TT.wf_and a b⟩, TT.get_and (by rw [ha.1]; exact hp)⟩

/-- What a database is: a network over four inputs, and pairs of a 4-input table and a signal computing it. -/
structure DbOk (db : Db) : Prop where
  built : Built db.net
  inputs : db.net.inputs = [1, 2, 3, 4]
  entries : ∀ t s, (t, s) ∈ db.entries → t.WF ∧ t.n = 4 ∧ db.net.Valid s ∧
    ∀ y v, db.net.Consistent y v → s.val v = t.eval y

theorem generateDb_ok {w : Nat} {rest : List Nat} {db : Db} (e : generateDb (w :: rest) = some db) (hw : dbPis w = 4) :
    DbOk db := by
  rw [generateDb] at e
  split at e
  · simp at e
  · rename_i net hd
    obtain ⟨hb, hin, hpi⟩ := decodeDb_spec hd hw
    split at e
    · simp at e
    · rename_i sim hsim
      obtain rfl := Option.some.inj e
      have hlen := simulateNodes_length hsim
      have key : ∀ (n : Nat) (t : TT), sim[n]? = some t → t.WF ∧ t.n = 4 ∧ n < net.nodes.length ∧
          ∀ y v, net.Consistent y v → v n = t.eval y := by
        intro n t ht
        have hn : n < net.nodes.length := hlen ▸ lt_of_getElem? ht
        have main : ∀ y v, net.Consistent y v → (t.n = 4 ∧ t.WF) ∧ v n = t.eval y := by
          intro y v hv
          obtain ⟨r, er, hr⟩ := simulateNodes_spec (interp_ttSim4 (TT.pos_lt y 4)) hb (by rw [hin, hpi]; decide) (v := v)
            ⟨hv.models, by
              intro k n hk
              have hk4 : k < 4 := by
                have := (List.getElem?_eq_some_iff.1 hk).1
                rw [hin] at this
                exact this
              rw [hv.input k n hk]
              show y k = (TT.nthVar 4 k).get (TT.pos y 4)
              rw [TT.get_nthVar k (TT.pos_lt y 4), TT.testBit_pos y 4 k hk4]⟩
          obtain rfl := Option.some.inj (hsim.symm.trans er)
          obtain ⟨a, ha, ga, hv'⟩ := hr n hn
          obtain rfl := Option.some.inj (ht.symm.trans ha)
          refine ⟨ga, ?_⟩
          rw [← hv', TT.eval, ga.1]
        have h0 := (main (fun _ => false) _ (hb.wf.consistent_value _)).1
        exact ⟨h0.2, h0.1, hn, fun y v hv => (main y v hv).2⟩
      refine ⟨hb, hin, ?_⟩
      intro t s hts
      obtain ⟨⟨u, n⟩, hu, he⟩ := List.mem_filterMap.1 hts
      have hun : sim[n]? = some u := by
        have := List.mem_zipIdx_iff_getElem?.1 hu
        exact this
      obtain ⟨k1, k2, k3, k4⟩ := key n u hun
      unfold dbEntry at he
      dsimp only at he
      split at he
      · obtain ⟨rfl, rfl⟩ := Prod.mk.inj (Option.some.inj he)
        refine ⟨k1, k2, k3, fun y v hv => ?_⟩
        rw [← k4 y v hv]
        simp [Sig.val]
      · split at he
        · obtain ⟨rfl, rfl⟩ := Prod.mk.inj (Option.some.inj he)
          refine ⟨TT.wf_not u, k2, k3, fun y v hv => ?_⟩
          have : u.not.eval y = !u.eval y := TT.get_not (TT.pos_lt y u.n)
          rw [this, ← k4 y v hv]
          simp [Sig.val]
        · simp at he

/-- the map of already copied nodes: node `k` of the database is represented by a signal with the value of
`k` when the database inputs carry `y v`. -/
structure MapOk (db N : Aig) (y : (Nat → Bool) → Nat → Bool) (m : DbMap) : Prop where
  val : ∀ k s, m k = some s → N.Valid s ∧ ∀ v, N.Models v → s.val v = db.value (y v) k
  base : ∀ k, k = 0 ∨ db.isCi k = true → ∃ s, m k = some s

theorem MapOk.ext {db N N' : Aig} {y : (Nat → Bool) → Nat → Bool} {m : DbMap} (h : MapOk db N y m) (g : Ext N N') :
    MapOk db N' y m :=
  ⟨fun k s hk => ⟨g.valid (h.val k s hk).1, fun v hv => (h.val k s hk).2 v (g.models hv)⟩, h.base⟩

theorem MapOk.insert {db N : Aig} {y : (Nat → Bool) → Nat → Bool} {m : DbMap} (h : MapOk db N y m) {n : Nat} {s : Sig}
    (hs : N.Valid s) (hv : ∀ v, N.Models v → s.val v = db.value (y v) n) : MapOk db N y (m.insert n s) := by
  refine ⟨fun k t hk => ?_, fun k hk => ?_⟩
  · unfold DbMap.insert at hk
    split at hk
    · rename_i hc
      obtain rfl := Option.some.inj hk
      rw [hc.1]
      exact ⟨hs, hv⟩
    · exact h.val k t hk
  · unfold DbMap.insert
    split
    · exact ⟨s, rfl⟩
    · exact h.base k hk

theorem val_ite_not (s : Sig) (b : Bool) (v : Nat → Bool) :
    (if b then s.not else s).val v = Bool.xor b (s.val v) := by
  cases b
  · simp
  · simp [Sig.val, Sig.not]

theorem valid_ite_not {N : Aig} {s : Sig} (h : N.Valid s) (b : Bool) : N.Valid (if b then s.not else s) := by
  cases b
  · exact h
  · exact h

theorem isCi_of_input {N : Aig} (h : WF N) {n : Nat} (hn : n ∈ N.inputs) : N.isCi n = true := by
  obtain ⟨k, hk⟩ := List.getElem?_of_mem hn
  obtain ⟨_, nd, hnd, e0, e1, _⟩ := h.input k n hk
  simp [isCi, hnd, e0, e1]

theorem pad_spec {db : Aig} (hdb : Built db) {y : (Nat → Bool) → Nat → Bool} :
    ∀ (f n : Nat) (N : Aig) (m : DbMap), n < f → n < db.nodes.length → WF N → MapOk db N y m →
    ∃ N' m' s, pad db f n N m = some (N', m', s) ∧ Grown N N' ∧ MapOk db N' y m' ∧ N'.Valid s ∧
      ∀ v, N'.Models v → s.val v = db.value (y v) n := by
  intro f
  induction f with
  | zero => intro n N m h; omega
  | succ f ih =>
    intro n N m hnf hn hN hm
    rw [pad]
    split
    · rename_i s hs
      exact ⟨N, m, s, rfl, Grown.refl hN, hm, (hm.val n s hs).1, (hm.val n s hs).2⟩
    · rename_i hnone
      have hb : ¬ (n = 0 ∨ db.isCi n = true) := by
        intro h
        obtain ⟨s, hs⟩ := hm.base n h
        rw [hs] at hnone
        exact absurd hnone (by simp)
      rw [if_neg hb]
      obtain ⟨nd, hnd⟩ : ∃ nd, db.nodes[n]? = some nd := ⟨_, List.getElem?_eq_getElem hn⟩
      rw [hnd]
      dsimp only
      have hg : db.IsGate n nd.c0 nd.c1 := by
        apply hdb.wf.isGate_of
        · intro h; exact hb (Or.inl h)
        · intro h; exact hb (Or.inr (isCi_of_input hdb.wf h))
        · exact hnd
      obtain ⟨g1, g2, g3, g4⟩ := hdb.wf.isGate_lt hg
      obtain ⟨N1, m1, a, e1, G1, M1, V1, A1⟩ := ih nd.c0.index N m (by omega) (by omega) hN hm
      rw [e1]
      dsimp only
      obtain ⟨N2, m2, b, e2, G2, M2, V2, A2⟩ := ih nd.c1.index N1 m1 (by omega) (by omega) G1.wf M1
      rw [e2]
      dsimp only
      have S := createAnd_spec G2.wf (a := if nd.c0.compl then a.not else a) (b := if nd.c1.compl then b.not else b)
        (valid_ite_not (G2.ext.valid V1) _) (valid_ite_not V2 _)
      have hval : ∀ v, (N2.createAnd (if nd.c0.compl then a.not else a) (if nd.c1.compl then b.not else b)).1.Models v →
          (N2.createAnd (if nd.c0.compl then a.not else a) (if nd.c1.compl then b.not else b)).2.val v =
            db.value (y v) n := by
        intro v hv
        refine (S.val v hv).trans ?_
        have hv2 := S.ext.models hv
        have hv1 := G2.ext.models hv2
        rw [val_ite_not, val_ite_not, A1 v hv1, A2 v hv2]
        exact ((hdb.wf.consistent_value (y v)).models.gate n _ _ hg).symm
      exact ⟨_, _, _, rfl, (G1.trans G2).trans S.grown, (M2.ext S.ext).insert S.valid hval, S.valid, hval⟩

/-- value of the four leaves -/
def sigVal (leaves : List Sig) (v : Nat → Bool) (i : Nat) : Bool :=
  match leaves[i]? with
  | some s => s.val v
  | none => false

/-- a signal computing `tt` of the leaves -/
def Computes (N : Aig) (tt : TT) (leaves : List Sig) (s : Sig) : Prop :=
  N.Valid s ∧ ∀ v, N.Models v → s.val v = tt.eval (sigVal leaves v)

theorem leafMap_ok {db N : Aig} (hdb : Built db) (hin : db.inputs = [1, 2, 3, 4]) (hN : WF N) {leaves : List Sig}
    (hl : leaves.length = 4) (hv : ∀ s ∈ leaves, N.Valid s) {phase : Nat} {perm : List Nat}
    (hp : perm.Perm (List.range 4)) :
    MapOk db N (fun v i => match perm[i]? with
      | some p => Bool.xor (sigVal leaves v p) (phase.testBit p)
      | none => false) (leafMap leaves phase perm) := by
  have hpl : perm.length = 4 := by simpa using hp.length_eq
  have entry : ∀ n, n ≠ 0 → n ≤ 4 → ∃ p s, perm[n - 1]? = some p ∧ leaves[p]? = some s ∧
      leafMap leaves phase perm n = some (if phase.testBit p then s.not else s) := by
    intro n h0 h4
    obtain ⟨p, ep⟩ : ∃ p, perm[n - 1]? = some p := ⟨_, List.getElem?_eq_getElem (by omega)⟩
    have hp4 : p < 4 := List.mem_range.1 (hp.mem_iff.1 (List.mem_of_getElem? ep))
    obtain ⟨s, es⟩ : ∃ s, leaves[p]? = some s := ⟨_, List.getElem?_eq_getElem (by omega)⟩
    refine ⟨p, s, ep, es, ?_⟩
    rw [leafMap, if_neg h0, if_pos h4, ep]
    dsimp only
    rw [es]
  refine ⟨fun k s hk => ?_, fun k hk => ?_⟩
  · by_cases h0 : k = 0
    · subst h0
      rw [leafMap, if_pos rfl] at hk
      obtain rfl := Option.some.inj hk
      refine ⟨hN.pos, fun v hm => ?_⟩
      rw [(hdb.wf.consistent_value _).models.const]
      simp [Sig.val, hm.const]
    · by_cases h4 : k ≤ 4
      · obtain ⟨p, t, ep, et, e⟩ := entry k h0 h4
        obtain rfl := Option.some.inj (hk.symm.trans e)
        refine ⟨valid_ite_not (hv t (List.mem_of_getElem? et)) _, fun v hm => ?_⟩
        have hk' : db.inputs[k - 1]? = some k := by
          rw [hin]
          have : k = 1 ∨ k = 2 ∨ k = 3 ∨ k = 4 := by omega
          rcases this with rfl | rfl | rfl | rfl <;> rfl
        rw [val_ite_not, (hdb.wf.consistent_value _).input (k - 1) k hk']
        rw [ep]
        simp only [sigVal]
        rw [et, Bool.xor_comm]
      · rw [leafMap, if_neg h0, if_neg h4] at hk
        simp at hk
  · rcases hk with rfl | hk
    · exact ⟨_, rfl⟩
    · by_cases h0 : k = 0
      · subst h0; exact ⟨_, rfl⟩
      · have hm := hdb.wf.ci_input h0 hk
        rw [hin] at hm
        have h4 : k ≤ 4 := by simp at hm; omega
        obtain ⟨p, t, _, _, e⟩ := entry k h0 h4
        exact ⟨_, e⟩

theorem candLoop_spec {σ : Type} {db : Aig} (hdb : Built db) {y : (Nat → Bool) → Nat → Bool} {phase : Nat}
    {fn : Aig → Sig → σ → Option σ} {P : Aig → σ → Prop} {tt : TT} {leaves : List Sig} (N0 : Aig)
    (hg : ∀ N N' st, Grown N0 N → Grown N N' → P N st → P N' st)
    (hfn : ∀ N s st st', Grown N0 N → P N st → Computes N tt leaves s → fn N s st = some st' → P N st') :
    ∀ (cs : List Sig), (∀ c ∈ cs, db.Valid c ∧
      ∀ v, tt.eval (sigVal leaves v) = Bool.xor (c.val (db.value (y v))) (phase.testBit 4)) →
    ∀ (N : Aig) (m : DbMap) (st : σ), Grown N0 N → MapOk db N y m → P N st →
    ∀ N' st', candLoop db phase fn cs N m st = some (N', st') → Grown N N' ∧ P N' st' := by
  intro cs
  induction cs with
  | nil =>
    intro _ N m st hN hm hP N' st' e
    rw [candLoop] at e
    obtain ⟨rfl, rfl⟩ := Prod.mk.inj (Option.some.inj e)
    exact ⟨Grown.refl hN.wf, hP⟩
  | cons c cs ih =>
    intro hc N m st hN hm hP N' st' e
    obtain ⟨c1, c2⟩ := hc c (List.mem_cons_self ..)
    obtain ⟨N1, m1, s, e1, G1, M1, V1, A1⟩ := pad_spec hdb db.size c.index N m c1 c1 hN.wf hm
    rw [candLoop, e1] at e
    dsimp only at e
    split at e
    · simp at e
    · rename_i st1 est
      have hcomp : Computes N1 tt leaves (if Bool.xor c.compl (phase.testBit 4) then s.not else s) := by
        refine ⟨valid_ite_not V1 _, fun v hv => ?_⟩
        rw [val_ite_not, A1 v hv, c2 v, Sig.val]
        cases c.compl <;> cases phase.testBit 4 <;> simp
      obtain ⟨G2, P2⟩ := ih (fun c' h' => hc c' (List.mem_cons_of_mem _ h')) N1 m1 st1 (hN.trans G1) M1
        (hfn _ _ _ _ (hN.trans G1) (hg _ _ _ hN G1 hP) hcomp est) N' st' e
      exact ⟨G1.trans G2, P2⟩

theorem resynth_spec {σ : Type} {db : Db} (hdb : DbOk db) {N : Aig} (hN : WF N) {tt : TT} (h4 : tt.n ≤ 4)
    {leaves : List Sig} (hv : ∀ s ∈ leaves, N.Valid s) {fn : Aig → Sig → σ → Option σ} {P : Aig → σ → Prop}
    (hg : ∀ N1 N2 st, Grown N N1 → Grown N1 N2 → P N1 st → P N2 st)
    (hfn : ∀ N1 s st st', Grown N N1 → P N1 st → Computes N1 tt leaves s → fn N1 s st = some st' → P N1 st')
    {st : σ} (hP : P N st) {N' : Aig} {st' : σ} (e : resynth db N tt leaves fn st = some (N', st')) :
    Grown N N' ∧ P N' st' := by
  unfold resynth at e
  split at e
  · simp at e
  · rename_i hl
    have hl : leaves.length = 4 := by omega
    have C := Npn.canon_config (tt := tt.extendTo 4) (TT.wf_ofFn _ _) rfl
    have hn4 : (tt.extendTo 4).n = 4 := rfl
    dsimp only at e
    generalize Npn.canon (tt.extendTo 4) = c0 at C e
    refine candLoop_spec hdb.built N hg hfn _ ?_ N _ st (Grown.refl hN)
      (leafMap_ok hdb.built hdb.inputs hN hl hv (hn4 ▸ C.isPerm)) hP N' st' e
    intro c hc
    obtain ⟨⟨t, s⟩, ht, rfl⟩ := List.mem_map.1 hc
    obtain ⟨hm, hk⟩ := List.mem_filter.1 ht
    obtain ⟨_, _, vs, hs⟩ := hdb.entries t s hm
    have hk : t = c0.1 := by simpa using hk
    refine ⟨vs, fun v => ?_⟩
    rw [hs _ _ (hdb.built.wf.consistent_value _), hk, ← TT.eval_extendTo h4]
    refine C.eval _ _ (fun i p hp => ?_)
    rw [hp]

theorem candLoop_total {σ : Type} {db : Aig} (hdb : Built db) {y : (Nat → Bool) → Nat → Bool} {phase : Nat}
    {fn : Aig → Sig → σ → Option σ} (hfn : ∀ N s st, ∃ st', fn N s st = some st') :
    ∀ (cs : List Sig), (∀ c ∈ cs, db.Valid c) → ∀ (N : Aig) (m : DbMap) (st : σ), WF N → MapOk db N y m →
    ∃ r, candLoop db phase fn cs N m st = some r := by
  intro cs
  induction cs with
  | nil => intro _ N m st _ _; exact ⟨_, rfl⟩
  | cons c cs ih =>
    intro hc N m st hN hm
    have c1 := hc c (List.mem_cons_self ..)
    obtain ⟨N1, m1, s, e1, G1, M1, _, _⟩ := pad_spec hdb db.size c.index N m c1 c1 hN hm
    rw [candLoop, e1]
    dsimp only
    obtain ⟨st1, est⟩ := hfn N1 (if Bool.xor c.compl (phase.testBit 4) then s.not else s) st
    rw [est]
    exact ih (fun c' h' => hc c' (List.mem_cons_of_mem _ h')) N1 m1 st1 G1.wf M1

theorem resynth_total {σ : Type} {db : Db} (hdb : DbOk db) {N : Aig} (hN : WF N) {tt : TT}
    {leaves : List Sig} (hl : leaves.length = 4) (hv : ∀ s ∈ leaves, N.Valid s) {fn : Aig → Sig → σ → Option σ}
    (hfn : ∀ N s st, ∃ st', fn N s st = some st') (st : σ) : ∃ r, resynth db N tt leaves fn st = some r := by
  unfold resynth
  rw [if_neg (by omega)]
  have C := Npn.canon_config (tt := tt.extendTo 4) (TT.wf_ofFn _ _) rfl
  have hn4 : (tt.extendTo 4).n = 4 := rfl
  dsimp only
  generalize Npn.canon (tt.extendTo 4) = c0 at C ⊢
  refine candLoop_total hdb.built hfn _ ?_ N _ st hN (leafMap_ok hdb.built hdb.inputs hN hl hv (hn4 ▸ C.isPerm))
  intro c hc
  obtain ⟨⟨t, s⟩, ht, rfl⟩ := List.mem_map.1 hc
  exact (hdb.entries t s (List.mem_filter.1 ht).1).2.2.1

end Verif.Rewrite
