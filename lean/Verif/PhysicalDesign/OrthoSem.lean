import Verif.PhysicalDesign.Orthogonal
import Verif.GateLevel.Lemmas
import Mathlib.Tactic.ByContra
import Mathlib.Tactic.SplitIfs

/-!
# Placing nodes on empty tiles
-/
namespace Verif.PhysicalDesign.Ortho

open Verif.Layouts Verif.Clocking Verif.GateLevel

/-- What an operation that places node `n` on the empty tile `t` does. -/
structure Placed (s s' : State) (t : Coord) (n fn : Nat) (cs : List Coord) : Prop where
  wf : WF s'
  tile : ∀ k : Coord, k.d = false → s'.tileNode k = if k = t then some n else s.tileNode k
  old : ∀ k, k ≠ n → (s'.nodes k).fn = (s.nodes k).fn ∧ (s'.nodes k).children = (s.nodes k).children
  fn : (s'.nodes n).fn = fn
  children : (s'.nodes n).children = cs
  inputs : s'.inputs = s.inputs

theorem modNode_children (s : State) (n k : Nat) (f : Node → Node) (hf : ∀ d : Node, (f d).children = d.children) :
    ((s.modNode n f).nodes k).children = (s.nodes k).children := by
  simp only [State.modNode]
  split_ifs
  · exact hf _
  · rfl

theorem refs_children (l : List Coord) : ∀ (s : State) (k : Nat), ((l.foldl State.ref s).nodes k).children = (s.nodes k).children := by
  induction l with
  | nil => intro s k; rfl
  | cons c l ih =>
    intro s k
    rw [List.foldl_cons, ih]
    exact modNode_children _ _ _ _ (fun _ => rfl)

theorem unrefs_children (l : List Coord) : ∀ (s : State) (k : Nat), ((l.foldl State.unref s).nodes k).children = (s.nodes k).children := by
  induction l with
  | nil => intro s k; rfl
  | cons c l ih =>
    intro s k
    rw [List.foldl_cons, ih]
    exact modNode_children _ _ _ _ (fun _ => rfl)

variable (m : Dim)

theorem fnOf_def (s : State) (k : Nat) : s.fnOf k = (s.nodes k).fn := rfl

theorem clear_children (s : State) (t : Coord) (k : Nat) : ((s.clearTile m t).nodes k).children = (s.nodes k).children := by
  unfold State.clearTile
  split
  · rfl
  · simp only [State.kill, State.modNode]
    split_ifs <;> simp only <;> (try split_ifs) <;> rfl

theorem createGate_placed {s : State} (w : WF s) (lit : Nat) (cs : List Coord) {t : Coord} (ht : t.d = false) (he : s.tileNode t = none) :
    Placed s (s.createGate m lit cs t) t s.size lit cs ∧ (s.createGate m lit cs t).size = s.size + 1 ∧
      (s.createGate m lit cs t).outputs = s.outputs := by
  have hs : SameView (s.push { children := cs, fn := lit }) (cs.foldl State.ref (s.push { children := cs, fn := lit })) := .refs _ _
  have hnone : (cs.foldl State.ref (s.push { children := cs, fn := lit })).tileNode t = none := by rw [hs.tileNode]; exact he
  have hc := clear_none m hnone
  have hwf : WF (s.createGate m lit cs t) := w.step m (.createGate lit cs t) trivial
  refine ⟨⟨hwf, ?_, ?_, ?_, ?_, ?_⟩, ?_, ?_⟩
  · intro k hk
    unfold State.createGate
    simp only
    rw [assign_tileNode m ht, hs.tileNode]
    rfl
  · intro k hk
    unfold State.createGate
    simp only
    rw [assign_nodes m ht, hc, refs_children, ← fnOf_def, hs.fnOf]
    simp [State.push, hk, State.fnOf]
  · unfold State.createGate
    simp only
    rw [assign_nodes m ht, hc, ← fnOf_def, hs.fnOf]
    simp [State.push, State.fnOf]
  · unfold State.createGate
    simp only
    rw [assign_nodes m ht, hc, refs_children]
    simp [State.push]
  · unfold State.createGate
    simp only
    rw [assign_inputs m ht, hs.inputs]
    rfl
  · unfold State.createGate
    simp only
    rw [assign_size m ht, hs.size]
    rfl
  · unfold State.createGate
    simp only
    rw [assign_outputs m ht, hc, hs.outputs]
    rfl

theorem createPo_placed {s : State} (w : WF s) (c : Coord) {t : Coord} (ht : t.d = false) (he : s.tileNode t = none) :
    Placed s (s.createPo m c t) t s.size 2 [c] ∧ (s.createPo m c t).size = s.size + 1 ∧
      (s.createPo m c t).outputs = s.outputs ++ [t] := by
  have hnone : ({ (s.push { fn := 2 }) with outputs := (s.push { fn := 2 }).outputs ++ [t] } : State).tileNode t = none := he
  have hc := clear_none m hnone
  have hwf : WF (s.createPo m c t) := w.step m (.createPo c t) trivial
  refine ⟨⟨hwf, ?_, ?_, ?_, ?_, ?_⟩, ?_, ?_⟩
  · intro k hk
    unfold State.createPo
    simp only [State.modNode, State.ref]
    rw [assign_tileNode m ht]
    rfl
  · intro k hk
    unfold State.createPo
    simp only [State.modNode, State.ref]
    rw [assign_nodes m ht, hc]
    rw [if_neg hk]
    split_ifs <;> simp [State.push, hk]
  · unfold State.createPo
    simp only [State.modNode, State.ref]
    rw [assign_nodes m ht, hc]
    rw [if_pos trivial]
    split_ifs <;> simp [State.push]
  · unfold State.createPo
    simp only [State.modNode, State.ref]
    rw [assign_nodes m ht, hc]
    rw [if_pos trivial]
    split_ifs <;> simp [State.push]
  · unfold State.createPo
    simp only [State.modNode, State.ref]
    rw [assign_inputs m ht]
    rfl
  · unfold State.createPo
    simp only [State.modNode, State.ref]
    rw [assign_size m ht]
    rfl
  · unfold State.createPo
    simp only [State.modNode, State.ref]
    rw [assign_outputs m ht, hc]
    rfl

/-- Moving a node without a tile to an empty tile. -/
theorem move_placed {s : State} (w : WF s) {n : Nat} (h2 : 2 ≤ n) (hn : n < s.size) (hu : s.nodeTile n = none) {t : Coord} (ht : t.d = false)
    (he : s.tileNode t = none) (ho : s.outputs = []) :
    Placed s (s.moveNode m n t []) t n (s.nodes n).fn [] ∧ (s.moveNode m n t []).size = s.size ∧ (s.moveNode m n t []).outputs = [] := by
  have hwf : WF (s.moveNode m n t []) := w.step m (.move n t []) ⟨h2, hn⟩
  have hold : s.getTile n = const0 := by simp [State.getTile, hu]
  have hne : t ≠ const0 := by rintro rfl; simp [const0] at ht
  have hs1 := SameView.unrefs (s.nodes n).children s
  -- the state before the old tile is cleared
  let s2 : State := ((s.nodes n).children.foldl State.unref s).modNode n (fun d => { d with children := [] })
  let s3 : State := { s2 with outputs := s2.outputs.map (fun p => if p = s.getTile n then t else p) }
  have e2 : SameView s s2 := hs1.trans (.mod _ _ _ (fun _ => rfl))
  have e3t : s3.tileNode = s.tileNode := e2.tileNode
  have hcl : (s3.clearTile m const0).tileNode t = none := by
    rw [clear_tileNode, if_neg hne, e3t]
    exact he
  have hcn := clear_none m hcl
  have hunf : s.moveNode m n t [] = ((((s3.clearTile m const0).assignNode m t n).revive n).modNode n (fun d => { d with children := [] })) := by
    unfold State.moveNode
    simp only [hold, if_neg hne, ht, Bool.false_eq_true, if_false, List.foldl_nil]
    show _ = ((((State.mk s2.nodes s2.size s2.inputs (s2.outputs.map (fun p => if p = s.getTile n then t else p)) s2.tileNode s2.nodeTile s2.numGates s2.numWires s2.numCrossings).clearTile m const0).assignNode m t n).revive n).modNode n (fun d => { d with children := [] })
    rw [hold]
  have hr := SameView.revive ((s3.clearTile m const0).assignNode m t n) n
  have hm := SameView.mod (((s3.clearTile m const0).assignNode m t n).revive n) n (fun d => { d with children := [] }) (fun _ => rfl)
  have hfn : ∀ k, ((s.moveNode m n t []).nodes k).fn = (s.nodes k).fn := by
    intro k
    rw [hunf, ← fnOf_def, hm.fnOf, hr.fnOf, assign_fnOf m ht, clear_fnOf, ← fnOf_def]
    show s2.fnOf k = _
    rw [e2.fnOf]
  have hco : (s3.clearTile m const0).outputs = [] := by
    cases e : s3.tileNode const0 with
    | none =>
      rw [clear_none m e]
      show s2.outputs.map _ = []
      rw [e2.outputs, ho]
      rfl
    | some j =>
      rw [clear_outputs m e]
      have : s3.outputs = [] := by
        show s2.outputs.map _ = []
        rw [e2.outputs, ho]
        rfl
      simp [this, eraseFirst]
  refine ⟨⟨hwf, ?_, ?_, hfn n, ?_, ?_⟩, ?_, ?_⟩
  · intro k hk
    rw [hunf, hm.tileNode, hr.tileNode, assign_tileNode m ht, clear_tileNode, e3t]
    have : k ≠ const0 := by rintro rfl; simp [const0] at hk
    rw [if_neg this]
  · intro k hk
    refine ⟨hfn k, ?_⟩
    rw [hunf]
    simp only [State.modNode, if_neg hk]
    have hrev : (((s3.clearTile m const0).assignNode m t n).revive n).nodes k = ((s3.clearTile m const0).assignNode m t n).nodes k := by
      unfold State.revive
      split_ifs
      · rfl
      · simp [State.modNode, hk]
    rw [hrev, assign_nodes m ht, hcn, clear_children]
    show (s2.nodes k).children = _
    simp only [s2, State.modNode, if_neg hk, unrefs_children]
  · rw [hunf]
    simp [State.modNode]
  · rw [hunf, hm.inputs, hr.inputs, assign_inputs m ht, clear_inputs]
    exact e2.inputs
  · rw [hunf, hm.size, hr.size, assign_size m ht, clear_size]
    exact e2.size
  · rw [hunf, hm.outputs, hr.outputs, assign_outputs m ht, hcn]
    exact hco

/-- `s'` extends `s`: whatever is on a tile stays there. -/
def Ext (s s' : State) : Prop :=
  ∀ t n, t.d = false → s.tileNode t = some n →
    s'.tileNode t = some n ∧ (s'.nodes n).fn = (s.nodes n).fn ∧ (s'.nodes n).children = (s.nodes n).children

theorem Ext.refl (s : State) : Ext s s := fun _ _ _ h => ⟨h, rfl, rfl⟩

theorem Ext.trans {a b c : State} (h : Ext a b) (k : Ext b c) : Ext a c := by
  intro t n ht hn
  obtain ⟨h1, h2, h3⟩ := h t n ht hn
  obtain ⟨k1, k2, k3⟩ := k t n ht h1
  exact ⟨k1, k2.trans h2, k3.trans h3⟩

theorem Placed.ext {s s' : State} {t : Coord} {n fn : Nat} {cs : List Coord} (p : Placed s s' t n fn cs) (he : s.tileNode t = none)
    (hn : ∀ k, s.tileNode k ≠ some n) : Ext s s' := by
  intro k j hk hj
  have hjn : j ≠ n := by rintro rfl; exact hn k hj
  have hkt : k ≠ t := by rintro rfl; rw [he] at hj; cases hj
  refine ⟨?_, p.old j hjn⟩
  rw [p.tile k hk, if_neg hkt, hj]

/-- `c` is the western or northern neighbour of `t`, on either layer. -/
def Nbr (c t : Coord) : Prop :=
  c.d = false ∧ c.z ≤ 1 ∧ ((c.x + 1 = t.x ∧ c.y = t.y) ∨ (c.x = t.x ∧ c.y + 1 = t.y))

/-- The value on a tile of a layout with `K` inputs: children are western or northern neighbours. -/
inductive SVal (tab : Nat → List Bool → Bool) (K : Nat) (s : State) (a : Nat → Bool) : Coord → Bool → Prop
  | pi (t : Coord) (k : Nat) (ht : t.d = false) (hn : s.tileNode t = some (2 + k)) (hk : k < K) : SVal tab K s a t (a k)
  | one (t : Coord) (n : Nat) (c : Coord) (b : Bool) (ht : t.d = false) (hn : s.tileNode t = some n) (hk : 2 + K ≤ n)
      (hc : (s.nodes n).children = [c]) (hb : Nbr c t) (h : SVal tab K s a c b) : SVal tab K s a t (tab (s.nodes n).fn [b])
  | two (t : Coord) (n : Nat) (c c' : Coord) (b b' : Bool) (ht : t.d = false) (hn : s.tileNode t = some n) (hk : 2 + K ≤ n)
      (hc : (s.nodes n).children = [c, c']) (hb : Nbr c t) (hb' : Nbr c' t) (h : SVal tab K s a c b) (h' : SVal tab K s a c' b') :
      SVal tab K s a t (tab (s.nodes n).fn [b, b'])

theorem SVal.mono {tab : Nat → List Bool → Bool} {K : Nat} {s s' : State} {a : Nat → Bool} (he : Ext s s') {t : Coord} {b : Bool}
    (h : SVal tab K s a t b) : SVal tab K s' a t b := by
  induction h with
  | pi t k ht hn hk => exact .pi t k ht (he t _ ht hn).1 hk
  | one t n c b ht hn hk hc hb h ih =>
    obtain ⟨e1, e2, e3⟩ := he t n ht hn
    rw [← e2]
    exact .one t n c b ht e1 hk (by rw [e3, hc]) hb ih
  | two t n c c' b b' ht hn hk hc hb hb' h h' ih ih' =>
    obtain ⟨e1, e2, e3⟩ := he t n ht hn
    rw [← e2]
    exact .two t n c c' b b' ht e1 hk (by rw [e3, hc]) hb hb' ih ih'

end Verif.PhysicalDesign.Ortho
