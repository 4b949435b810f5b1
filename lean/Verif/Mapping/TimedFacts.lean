import Verif.Mapping.TimedPath
import Verif.Mapping.TimedReq
import Verif.Rewrite.DbProof

set_option autoImplicit false

/-!
# References and required times of the LUT mapper: what holds after a round (helper lemmas)
-/

namespace Verif.Mapper.Timed
open Cuts
open Topo (Tfi FaninsFirst)
open RefDeref (Vals)

/-- what holds after a round -/
structure Facts (p : CutPs) (N : Aig) (r : Round) (S : St) (M : Mapping) (q : Qor) (order : List Nat) (S1 : St) : Prop where
  topo : topologize (Choice.init N N.nodes.length) = some order
  first : FaninsFirst (Choice.init N N.nodes.length).deps order
  lt : ∀ m ∈ order, m < N.nodes.length
  out : ∀ o ∈ N.outputs, o.index = 0 ∨ o.index ∈ order
  nodup : order.Nodup
  req : required (Choice.init N N.nodes.length) r order S1 = some S
  map : S.map = S1.map
  between : Between p (Choice.init N N.nodes.length) order S
  cells : Cells p (Choice.init N N.nodes.length) M
  delay : q.delay = glo (Choice.init N N.nodes.length) S.map
  root : ∀ n, n < N.nodes.length → M.isCellRoot n = some true → n ∈ order ∧ Inner N n
  leaf : ∀ n, M.isCellRoot n = some true → n < N.nodes.length → M.cellFanins n = some ((cover (Choice.init N N.nodes.length) S.map).best n)
  reach : ∀ n, Cover.Root N M n → ∃ k, Down N M n k

theorem root_lt {N : Aig} (hN : N.Built) {M : Mapping} {n : Nat} (h : Cover.Root N M n) : n < N.nodes.length := by
  obtain ⟨⟨a, b, hg⟩, _⟩ := h
  exact (hN.wf.isGate_lt hg).2.2.2

theorem avail_root {N : Aig} (hN : N.Built) {M : Mapping} {n : Nat} (h : Cover.Avail N M n) (hi : Inner N n) : Cover.Root N M n := by
  rcases h with h | h | h
  · exact absurd h hi.1
  · have := Rewrite.isCi_of_input hN.wf h
    rw [hi.2] at this; simp at this
  · exact h

theorem facts {p : CutPs} (hp : PsOk p) {N : Aig} (hN : N.Built) (hpo : N.numPos = N.outputs.length) {rs : List Round} {r : Round} {S : St}
    {M : Mapping} {q : Qor} (h : After p N (rs ++ [r]) S M q) : ∃ order S1, Facts p N r S M q order S1 := by
  have hC : NoChoice (Choice.init N N.nodes.length) := rfl
  obtain ⟨st, order, hst, htopo, hS, hrep⟩ := h.state
  obtain ⟨order0, et, hff, hlt, hout, hnd⟩ := topologize_inv (C := Choice.init N N.nodes.length) hN hC.ordered
  obtain rfl := Option.some.inj (et.symm.trans htopo)
  obtain ⟨S1, e1, em, b⟩ := rounds_last (C := Choice.init N N.nodes.length) hp hC hN hst hff hnd hlt hS
  obtain ⟨M', q', e', hcells, hdelay, _, hroot, hleaf⟩ := report_spec (C := Choice.init N N.nodes.length) hN hpo hff hlt hnd hout b.inv b.done
  obtain ⟨mk, M2, er, ed, _, hsel, _⟩ := derive_full (C := Choice.init N N.nodes.length) hN hpo hff hlt hout b.inv b.done
  have he := hrep.symm.trans e'
  simp only [Option.some.injEq, Prod.mk.injEq] at he
  obtain ⟨rfl, rfl⟩ := he
  have hM2 : M2 = M := by
    have := hrep
    rw [report, show derive N order0 S.map = some M2 from ed,
      show markAll (markRec N S.map.best (N.nodes.length + 1)) ((N.outputs.take N.numPos).map (·.index)) (fun _ => 0) = some mk from er] at this
    simp only [Option.some.injEq, Prod.mk.injEq] at this
    exact this.1
  subst hM2
  refine ⟨order0, S1, et, hff, hlt, hout, hnd, e1, em, b, hcells, hdelay, fun n hn hr => ?_, fun n hr hn => ?_, fun n hr => ?_⟩
  · obtain ⟨h1, h2, h3⟩ := hroot n hn hr
    exact ⟨h1, h2, h3⟩
  · obtain ⟨c, hc, hl⟩ := hleaf n hr hn
    rw [hl]
    simp only [cover, hc]
  · have hsn := (hsel n (root_lt hN hr)).1 hr.2
    have key : ∀ x, mk x ≠ 0 → Cover.Avail N M2 x ∧ ∃ k, Down N M2 x k := by
      have hstep : ∀ n c, (Cover.Avail N M2 n ∧ ∃ k, Down N M2 n k) → Inner N n → S.map.best[n]? = some c →
          ∀ m ∈ c.leaves, Cover.Avail N M2 m ∧ ∃ k, Down N M2 m k := by
        rintro n c ⟨ha, k, hk⟩ hi hc m hm
        have hr := avail_root hN ha hi
        obtain ⟨c', hc', hl⟩ := hleaf n hr.2 (root_lt hN hr)
        rw [hc] at hc'
        obtain rfl := Option.some.inj hc'
        obtain ⟨cs, f, h1, _, _, _, h5, _⟩ := hcells.cell n hr
        rw [hl] at h1
        obtain rfl := Option.some.inj h1
        exact ⟨(h5 m hm).1, k + 1, .step hk hr hl hm⟩
      refine markAll_only _ (fun m hm r r' e hx => markRec_only hstep _ m r r' e ?_ hx) _ _ er (by simp)
      obtain ⟨o, ho, rfl⟩ := List.mem_map.1 hm
      have ho' : o ∈ N.outputs := List.mem_of_mem_take ho
      exact ⟨hcells.output o ho', 0, .out ho'⟩
    exact (key n hsn.2.1).2

section
variable {p : CutPs} {N : Aig} {r : Round} {S : St} {M : Mapping} {q : Qor} {order : List Nat} {S1 : St}

theorem Facts.noChoice (_ : Facts p N r S M q order S1) : NoChoice (Choice.init N N.nodes.length) := rfl

theorem Facts.best (h : Facts p N r S M q order S1) (hN : N.Built) {n : Nat} (hn : n ∈ order) (hi : Inner N n) :
    ((cover (Choice.init N N.nodes.length) S1.map).best n).Nodup ∧
      ∀ x ∈ (cover (Choice.init N N.nodes.length) S1.map).best n, x < n ∧ x ∈ order ∧ Tfi (Choice.init N N.nodes.length).deps n x := by
  rw [← h.map]
  exact best_leaves h.noChoice hN h.first h.lt h.between.done hn hi

/-- every node on a path is available and ordered -/
theorem Facts.down (h : Facts p N r S M q order S1) (hN : N.Built) {x k : Nat} (hd : Down N M x k) : Cover.Avail N M x ∧ (x = 0 ∨ x ∈ order) := by
  cases hd with
  | out ho => exact ⟨h.cells.output _ ho, h.out _ ho⟩
  | @step n x k cs hd hr hcs hx =>
    obtain ⟨cs', f, h1, _, _, _, h5, _⟩ := h.cells.cell n hr
    rw [hcs] at h1
    obtain rfl := Option.some.inj h1
    exact ⟨(h5 x hx).1, Or.inr (h.first.mem (h.root n (root_lt hN hr) hr.2).1 (h5 x hx).2)⟩

theorem Facts.counted (h : Facts p N r S M q order S1) (hN : N.Built) (hsize : N.outputs.length + N.nodes.length < 2 ^ 32) :
    Counted N order (cover (Choice.init N N.nodes.length) S1.map).best (fun x => (N.outputs.map (·.index)).count x) S.refs (fun _ => 0) ∧
    ∀ x, S.refs x ≠ 0 → Cover.Avail N M x ∧ ∃ k, Down N M x k := by
  obtain ⟨e, _⟩ := required_parts h.req
  constructor
  · refine markAll_counted (C := Choice.init N N.nodes.length) (fun v x => ?_) (fun n hn hi m hm => Or.inr ((h.best hN hn hi).2 m hm).2.1) _ _ _ ?_ e ?_
    · have h1 := uses_le (N := N) (order := order) (best := (cover (Choice.init N N.nodes.length) S1.map).best)
        (fun n hn hi => (h.best hN hn hi).1) v x
      have h2 := order_length h.nodup h.lt
      have h3 : (N.outputs.map (·.index)).count x ≤ N.outputs.length := by simpa using List.count_le_length (l := N.outputs.map (·.index)) (a := x)
      show List.count x _ + uses N _ _ _ _ < _
      omega
    · intro m hm
      obtain ⟨o, ho, rfl⟩ := List.mem_map.1 hm
      exact h.out o ho
    · intro x
      have : uses N order (cover (Choice.init N N.nodes.length) S1.map).best (fun _ => 0) x = 0 := by simp [uses]
      show _ = List.count x _ + uses N _ _ _ _
      rw [this]; simp [Choice.init]
  · refine foldl_bind (fun v => ∀ x, v x ≠ 0 → Cover.Avail N M x ∧ ∃ k, Down N M x k) _ (fun n hn v v' e hv => ?_) _ _ e (by simp)
    obtain ⟨o, ho, rfl⟩ := List.mem_map.1 hn
    refine markCur_only (P := fun x => Cover.Avail N M x ∧ ∃ k, Down N M x k) ?_ _ _ v v' e ⟨h.cells.output o ho, 0, .out ho⟩ hv
    rintro n ⟨ha, k, hk⟩ hi m hm
    have hr := avail_root hN ha hi
    have hl := h.leaf n hr.2 (root_lt hN hr)
    rw [h.map] at hl
    have hd := Down.step hk hr hl hm
    exact ⟨(h.down hN hd).1, k + 1, hd⟩

theorem Facts.marked (h : Facts p N r S M q order S1) (hN : N.Built) (hsize : N.outputs.length + N.nodes.length < 2 ^ 32) {x k : Nat}
    (hd : Down N M x k) : S.refs x ≠ 0 := by
  obtain ⟨hc, _⟩ := h.counted hN hsize
  have key : 1 ≤ (S.refs x).toNat → S.refs x ≠ 0 := fun h1 h2 => by rw [h2] at h1; simp at h1
  induction hd with
  | @out o ho =>
    refine key ?_
    have h1 := hc o.index
    have h2 : 1 ≤ (N.outputs.map (·.index)).count o.index := List.one_le_count_iff.2 (List.mem_map.2 ⟨o, ho, rfl⟩)
    dsimp only at h1
    omega
  | @step n x k cs hd hr hcs hx ih =>
    refine key ?_
    have h1 := hc x
    have hlt := root_lt hN hr
    obtain ⟨ho, hi⟩ := h.root n hlt hr.2
    have hl := h.leaf n hr.2 hlt
    rw [hcs, h.map] at hl
    obtain rfl := Option.some.inj hl
    have h2 := uses_pos (N := N) (v := S.refs) (best := (cover (Choice.init N N.nodes.length) S1.map).best) ho hi
      (ih fun h1 h2 => by rw [h2] at h1; simp at h1) hx
    dsimp only at h1
    omega

/-- after the first round the arrival times are right -/
theorem Facts.first_delay (h : Facts p N r S M q order S1) (hp : PsOk p) (hN : N.Built) (ha : After p N [r] S M q) :
    ∀ m ∈ order, Inner N m → bestDelay S.map m = cutDelay S.map ((cover (Choice.init N N.nodes.length) S.map).best m) := by
  have hC : NoChoice (Choice.init N N.nodes.length) := rfl
  obtain ⟨st, order', hst, htopo, hS, hrep⟩ := ha.state
  obtain ⟨st2, order2, S2, hP⟩ := mapWith_parts (p := p) (C := Choice.init N N.nodes.length) (rs := [r]) (M := M) (q := q) hC.ordered hN
    (by rw [mapWith, show initCuts (0 :: (Choice.init N N.nodes.length).net.inputs)
          (MapSt.init ⟨0, 0, 0⟩ (Choice.init N N.nodes.length).net.nodes.length) = some st from hst, htopo]
        dsimp only
        rw [hS]
        exact hrep)
  obtain rfl := Option.some.inj (hP.init.symm.trans hst)
  obtain rfl := Option.some.inj (hP.topo.symm.trans htopo)
  obtain rfl := Option.some.inj (hP.run.symm.trans hS)
  obtain ⟨S3, e1, e2, _, _, _, _, hg⟩ := hP.between hp hC hN
  obtain rfl := Option.some.inj e2
  intro m hm hi
  obtain rfl := Option.some.inj (hP.topo.symm.trans h.topo)
  obtain ⟨c, hc, hd⟩ := hg m hm hi.1 hi.2
  simp only [bestDelay, cover, hc]
  exact hd

end

end Verif.Mapper.Timed
