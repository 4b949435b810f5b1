import Verif.Rewrite.DbProof

set_option autoImplicit false

/-!
# C56: resynthesis from the database
-/

namespace Verif.Rewrite

open Verif.Aig

/-- a callback that records the signals it is called with -/
def record (_ : Aig) (s : Sig) (l : List Sig) : Option (List Sig) := some (l ++ [s])

/-- C56, the database: whatever words it is read from, every entry pairs a table of four variables with a signal of
the database network that computes it. -/
theorem C56_database (w : Nat) (rest : List Nat) (hw : dbPis w = 4) (db : Db) (e : generateDb (w :: rest) = some db) :
    Built db.net ∧ db.net.inputs = [1, 2, 3, 4] ∧ ∀ t s, (t, s) ∈ db.entries →
      t.WF ∧ t.n = 4 ∧ db.net.Valid s ∧ ∀ y v, db.net.Consistent y v → s.val v = t.eval y :=
  let h := generateDb_ok e hw
  ⟨h.built, h.inputs, h.entries⟩

/-- C56, the resynthesis: for every constructed network, every table of at most four variables and any four signals
of the network, resynthesis comes back, only adds gates, and every signal it offers computes the table of the four
signals. -/
theorem C56_resynthesis (w : Nat) (rest : List Nat) (hw : dbPis w = 4) (db : Db) (e : generateDb (w :: rest) = some db)
    (N : Aig) (hN : Built N) (tt : TT) (h4 : tt.n ≤ 4) (a b c d : Sig)
    (hv : N.Valid a ∧ N.Valid b ∧ N.Valid c ∧ N.Valid d) :
    ∃ N' l, resynth db N tt [a, b, c, d] record [] = some (N', l) ∧ Built N' ∧ N'.inputs = N.inputs ∧
      N'.outputs = N.outputs ∧ (∀ v, N'.Models v → N.Models v) ∧
      ∀ s ∈ l, N'.Valid s ∧ ∀ v, N'.Models v → s.val v =
        tt.eval fun i => match i with | 0 => a.val v | 1 => b.val v | 2 => c.val v | 3 => d.val v | _ => false := by
  have hdb := generateDb_ok e hw
  have hv' : ∀ s ∈ [a, b, c, d], N.Valid s := by
    intro s hs
    simp only [List.mem_cons, List.not_mem_nil, or_false] at hs
    rcases hs with rfl | rfl | rfl | rfl
    · exact hv.1
    · exact hv.2.1
    · exact hv.2.2.1
    · exact hv.2.2.2
  obtain ⟨⟨N', l⟩, er⟩ := resynth_total hdb hN.wf (tt := tt) (leaves := [a, b, c, d]) rfl hv' (fn := record)
    (fun _ _ _ => ⟨_, rfl⟩) []
  obtain ⟨G, hl⟩ := resynth_spec (P := fun M (l : List Sig) => ∀ s ∈ l, Computes M tt [a, b, c, d] s) hdb hN.wf h4 hv'
    (fun N1 N2 st _ g h s hs => ⟨g.ext.valid (h s hs).1, fun v hv => (h s hs).2 v (g.ext.models hv)⟩)
    (fun N1 s st st' _ h hc es t ht => by
      obtain rfl := Option.some.inj es
      rcases List.mem_append.1 ht with ht | ht
      · exact h t ht
      · obtain rfl := List.mem_singleton.1 ht
        exact hc) (by simp) er
  refine ⟨N', l, er, G.built hN, G.inputs, G.outputs, fun v hv => G.ext.models hv, fun s hs => ⟨(hl s hs).1, fun v hv => ?_⟩⟩
  rw [(hl s hs).2 v hv]
  apply TT.eval_congr
  intro k hk
  have : k = 0 ∨ k = 1 ∨ k = 2 ∨ k = 3 := by omega
  rcases this with rfl | rfl | rfl | rfl <;> rfl

/-- the database with the AND of four complemented inputs -/
def norDb : List Nat := [4 + 256 * 1 + 65536 * 3, 3, 5, 7, 9, 10, 12, 14]

/-- The hypotheses can be met; the AND of signals 1, !2, 3, !4 is built from three gates. -/
example : dbPis (4 + 256 * 1 + 65536 * 3) = 4 ∧ ((generateDb norDb).bind fun db =>
    (resynth db (cloneInputs 4 Aig.empty).1 (Npn.wordTT 0x8000) [⟨1, false⟩, ⟨2, true⟩, ⟨3, false⟩, ⟨4, true⟩] record []).map
      fun r => (r.2, r.1.gates)) = some ([⟨7, false⟩], [5, 6, 7]) := by decide +kernel

end Verif.Rewrite
