import Verif.GateLevel.FlowProps

/-!
# The functions of the constant nodes
-/
namespace Verif.GateLevel

open Verif.Layouts

/-- The functions of the constant nodes never change. -/
theorem const_fn (m : Dim) (ops : List Op) (hv : Valid m init ops) (n : Nat) (hn : n ≤ 1) :
    ((run m init ops).nodes n).fn ≤ 1 := by
  refine (run_rule m (fun s => ∀ n ≤ 1, (s.nodes n).fn ≤ 1) ?_ init ops WF.init ?_ hv) n hn
  · intro s op hop w h k hk
    have w2 := w.two
    have href : ∀ (l : List Coord) (s : State), ((l.foldl State.ref s).nodes k).fn = (s.nodes k).fn := by
      intro l; induction l with
      | nil => intro s; rfl
      | cons c l ih =>
        intro s; rw [List.foldl_cons, ih]
        simp only [State.ref, State.modNode]; split_ifs <;> rfl
    have hunref : ∀ (l : List Coord) (s : State), ((l.foldl State.unref s).nodes k).fn = (s.nodes k).fn := by
      intro l; induction l with
      | nil => intro s; rfl
      | cons c l ih =>
        intro s; rw [List.foldl_cons, ih]
        simp only [State.unref, State.modNode]; split_ifs <;> rfl
    have hclear : ∀ (s : State) t, ((s.clearTile m t).nodes k).fn = (s.nodes k).fn := by
      intro s t
      unfold State.clearTile
      cases s.tileNode t with
      | none => rfl
      | some j =>
        simp only [State.kill, State.modNode]
        split_ifs <;> simp
        all_goals (split_ifs <;> rfl)
    have hassign : ∀ (s : State) t j, ((s.assignNode m t j).nodes k).fn = (s.nodes k).fn := by
      intro s t j
      cases ht : t.d with
      | true => rw [assign_dead m ht]
      | false => rw [assign_nodes m ht, hclear]
    have hpush : ∀ d, ((s.push d).nodes k).fn ≤ 1 := by
      intro d
      simp only [State.push]; rw [if_neg (by omega)]; exact h k hk
    cases op with
    | createPi t => simp only [State.step, State.createPi]; rw [hassign]; exact hpush _
    | createPo c t =>
      simp only [State.step, State.createPo]
      have : ¬ k = s.size := by omega
      have e := href [c]
      simp only [List.foldl_cons, List.foldl_nil] at e
      rw [State.modNode]; simp only [this, if_false]
      rw [e, hassign]; exact hpush _
    | createGate lit cs t => simp only [State.step, State.createGate]; rw [hassign, href]; exact hpush _
    | connect c j =>
      simp only [State.step, State.connect]
      split
      · exact h k hk
      · rename_i hc
        simp only [isConstant, decide_eq_true_eq] at hc
        have : ¬ k = j := by omega
        simp only [State.modNode, this, if_false]; exact h k hk
    | clear t => simp only [State.step]; rw [hclear]; exact h k hk
    | move j t cs =>
      have hj := hop.1
      have hne : ¬ k = j := by omega
      have hm : ∀ (s : State) f, ((s.modNode j f).nodes k).fn = (s.nodes k).fn := by
        intro s f; simp only [State.modNode, hne, if_false]
      have hrev : ∀ (s : State), ((s.revive j).nodes k).fn = (s.nodes k).fn := by
        intro s; simp only [State.revive]; split
        · rfl
        · exact hm _ _
      simp only [State.step, State.moveNode]
      rw [href, hm]
      split
      · rw [hm, hunref]; exact h k hk
      · rw [hrev, hassign, hclear]
        split
        · rw [hm, hunref]; exact h k hk
        · show ((((s.nodes j).children.foldl State.unref s).modNode j (fun d => { d with children := [] })).nodes k).fn ≤ 1
          rw [hm, hunref]; exact h k hk
  · intro k hk
    simp only [init]; split_ifs <;> decide

end Verif.GateLevel
