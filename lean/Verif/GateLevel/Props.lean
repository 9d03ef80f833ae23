import Verif.GateLevel.Lemmas

/-! # Properties C16–C18 of gate-level layouts

`run m init ops` is the layout after the operations `ops`; `Valid m init ops` says that node arguments exist when they
are used and that constants are not moved. Tiles are arbitrary coordinates. -/
namespace Verif.GateLevel

open Verif.Layouts Verif.Clocking

variable (m : Dim)

/-! ## C16 -/

/-- C16. A node sits on a tile iff the tile hosts the node; a tile is empty or hosts an existing, non-constant node; no
two tiles host the same node. -/
theorem C16_bijection (ops : List Op) (hv : Valid m init ops) :
    let s := run m init ops
    (∀ t n, t.d = false → 2 ≤ n → (s.getNode t = n ↔ s.getTile n = t)) ∧
    (∀ t, t.d = false → s.isEmptyTile t = false → 2 ≤ s.getNode t ∧ s.getNode t < s.size) ∧
    (∀ t t', t.d = false → t'.d = false → s.isEmptyTile t = false → s.getNode t = s.getNode t' → t = t') := by
  intro s
  have w : WF s := WF.init.run m ops hv
  have hd : const0.d = true := rfl
  have key : ∀ t n, t.d = false → 2 ≤ n → (s.getNode t = n ↔ s.getTile n = t) := by
    intro t n ht h2
    have h1 := w.inv t n
    simp only [State.getNode, State.getTile]
    cases a : s.tileNode t <;> cases b : s.nodeTile n <;> simp [a, b] at h1 ⊢ <;> grind
  have two : ∀ t, t.d = false → s.isEmptyTile t = false → 2 ≤ s.getNode t ∧ s.getNode t < s.size := by
    intro t ht he
    simp only [State.isEmptyTile, State.getNode] at he ⊢
    cases a : s.tileNode t with
    | none => simp [a] at he
    | some n =>
      have := w.lt t n a
      have := w.live t n a
      simp only [Option.getD_some]
      rw [ht] at this
      simp at this; omega
  refine ⟨key, two, ?_⟩
  intro t t' ht ht' he e
  have h2 := (two t ht he).1
  have a := (key t _ ht h2).1 rfl
  have b := (key t' _ ht' h2).1 e.symm
  rw [← a, ← b]

/-- Placed, or dead. -/
private def J (n : Nat) (s : State) : Prop := 2 ≤ n ∧ n < s.size ∧ (s.nodeTile n ≠ none ∨ s.isDead n = true)

private theorem J.mod {n s} (h : J n s) (k f) (hk : k = n → s.nodeTile n = none → ∀ d : Node, d.h1.getLsbD 31 = true → (f d).h1.getLsbD 31 = true) :
    J n (s.modNode k f) := by
  obtain ⟨h1, h2, h3⟩ := h
  refine ⟨h1, h2, ?_⟩
  cases e : s.nodeTile n with
  | some t => left; simp [e]
  | none =>
    right
    simp only [e, ne_eq, not_true_eq_false, false_or, State.isDead] at h3
    simp only [State.isDead, State.modNode]
    split_ifs with ek
    · exact hk ek.symm e _ h3
    · exact h3

private theorem J.ref {n s} (w : WF s) (h : J n s) (c f) : J n (s.modNode (s.getNode c) f) := by
  refine h.mod _ _ ?_
  intro e hn
  exfalso
  have h2 := h.1
  simp only [State.getNode] at e
  cases a : s.tileNode c with
  | none => simp [a] at e; omega
  | some k => simp [a] at e; subst e; rw [(w.inv c k).1 a] at hn; simp at hn

private theorem kill_dead (s : State) (n : Nat) (h : 2 ≤ n) : (s.kill n).isDead n = true := by
  unfold State.kill isConstant
  rw [if_neg (by simp; omega)]
  simp [State.isDead, State.modNode]

private theorem J.kill {n s} (h : J n s) (k) : J n (s.kill k) := by
  unfold State.kill
  split
  · exact h
  · refine h.mod _ _ ?_
    intro _ _ d hd
    simp [hd]

private theorem J.revive {n s} (h : J n s) (k) (hk : k ≠ n) : J n (s.revive k) := by
  unfold State.revive
  split
  · exact h
  · exact h.mod _ _ (fun e => absurd e hk)

private theorem J.clear {n s} (w : WF s) (h : J n s) (t) : J n (s.clearTile m t) := by
  have h2 := h.1
  refine ⟨h2, by rw [clear_size]; exact h.2.1, ?_⟩
  rw [clear_nodeTile]
  cases e : s.tileNode t with
  | none => simp only [reduceCtorEq, if_false]; rw [clear_none m e]; exact h.2.2
  | some k =>
    by_cases ek : k = n
    · subst ek
      right
      unfold State.clearTile
      rw [e]
      simp only
      exact kill_dead _ k h2
    · have : ¬ (some k = some n) := by simpa using ek
      rw [if_neg this]
      rcases h.2.2 with a | a
      · left; exact a
      · right
        unfold State.clearTile
        rw [e]
        simp only [State.isDead] at a ⊢
        unfold State.kill State.modNode
        have ek' : ¬ n = k := Ne.symm ek
        split_ifs <;> simpa [ek'] using a

private theorem J.assign {n s} (w : WF s) (h : J n s) (t k) (hk : k ≠ n) : J n (s.assignNode m t k) := by
  cases ht : t.d with
  | true => rw [assign_dead m ht]; exact h
  | false =>
    obtain ⟨a, b, c⟩ := h.clear m w t
    refine ⟨a, by rw [assign_size m ht]; exact h.2.1, ?_⟩
    rw [assign_nodeTile m ht, if_neg (Ne.symm hk)]
    rw [clear_nodeTile] at c
    simpa [State.isDead, assign_nodes m ht] using c

private theorem J.push {n s} (h : J n s) (d) : J n (s.push d) := by
  obtain ⟨h1, h2, h3⟩ := h
  refine ⟨h1, Nat.lt_succ_of_lt h2, ?_⟩
  rcases h3 with h3 | h3
  · left; exact h3
  · right; simp only [State.isDead, State.push]; rw [if_neg (Nat.ne_of_lt h2)]; exact h3

private theorem J.step {n s} (w : WF s) (h : J n s) (op : Op) (hv : op.Valid s)
    (hm : ∀ t cs, op ≠ .move n t cs) :
    J n (s.step m op) := by
  have hne : n ≠ s.size := Nat.ne_of_lt h.2.1
  have hm' : ¬ op.moves n := by
    intro e; cases op <;> simp only [Op.moves] at e; subst e; exact hm _ _ rfl
  exact (step_rule m (J n) s op (fun s c w h => h.ref w c _) (fun s c w _ h => h.ref w c _)
    (fun s k f _ h => h.mod _ _ (fun _ _ d hd => hd)) (fun s k _ hk h => h.revive k (fun e => hm' (e ▸ hk)))
    (fun _ _ _ h => h) (fun _ _ _ h => h) (fun s cs lit _ h => h.push _) (fun s t w h => h.clear m w t)
    (fun s t k w _ _ _ _ ho h => h.assign m w t k (fun e => ho.elim (fun e' => hm' (e ▸ e')) (fun e' => hne (e ▸ e')))) hv w h).2

/-- Unplaced nodes stay unplaced unless they are moved. -/
private theorem unplaced_step {n} {s : State} (w : WF s) (hn : n < s.size) (h : s.nodeTile n = none) (op : Op)
    (hv : op.Valid s) (hm : ∀ t cs, op ≠ .move n t cs) : (s.step m op).nodeTile n = none := by
  have hm' : ¬ op.moves n := by
    intro e; cases op <;> simp only [Op.moves] at e; subst e; exact hm _ _ rfl
  refine (step_rule m (fun s => s.nodeTile n = none) s op (fun _ _ _ h => h) (fun _ _ _ _ h => h) (fun _ _ _ _ h => h)
    ?_ (fun _ _ _ h => h) (fun _ _ _ h => h) (fun _ _ _ _ h => h) ?_ ?_ hv w h).2
  · intro s k _ _ h; rw [(SameView.revive s k).nodeTile]; exact h
  · intro s t _ h; rw [clear_nodeTile]; split_ifs <;> simp [h]
  · intro s' t k _ ht _ _ _ ho h
    rw [assign_nodeTile m ht, if_neg, h, ite_self]
    rintro rfl
    rcases ho with ho | ho
    · exact hm' ho
    · omega

private theorem size_step {s : State} (w : WF s) (op : Op) (hv : op.Valid s) : s.size ≤ (s.step m op).size := by
  refine (step_rule_view m (fun s' => s.size ≤ s'.size) ?_ ?_ ?_ ?_ ?_ ?_ s op hv w (Nat.le_refl _)).2
  · intro a b v h; rw [v.size]; exact h
  · exact fun _ _ h => h
  · exact fun _ _ h => h
  · intro a d _ h; exact Nat.le_succ_of_le h
  · intro a t _ h; rw [clear_size]; exact h
  · intro a t n _ ht _ _ _ h; rw [assign_size m ht]; exact h

/-- C16. A node that loses its tile — because the tile is cleared, or because something else is created on it or moved
onto it — is dead afterwards, unless the operation is a `move_node` of this very node. -/
theorem C16_removed_is_dead (ops : List Op) (hv : Valid m init ops) (op : Op) (hop : op.Valid (run m init ops)) (n : Nat)
    (hn : 2 ≤ n) (hm : ∀ t cs, op ≠ .move n t cs) :
    let s := run m init ops
    (s.getTile n).d = false → ((s.step m op).getTile n).d = true →
    (s.step m op).isDead n = true ∧ (s.step m op).getTile n = const0 ∧ ∀ t, (s.step m op).getNode t ≠ n := by
  intro s h1 h2
  have w : WF s := WF.init.run m ops hv
  have w' := w.step m op hop
  have hp : s.nodeTile n ≠ none := by
    intro e; simp [State.getTile, e, const0] at h1
  obtain ⟨t, ht⟩ := Option.ne_none_iff_exists'.1 hp
  have hlt := w.lt t n ((w.inv t n).2 ht)
  have hj : J n (s.step m op) := J.step m w ⟨hn, hlt, .inl hp⟩ op hop hm
  have hnone : (s.step m op).nodeTile n = none := by
    cases e : (s.step m op).nodeTile n with
    | none => rfl
    | some u =>
      have := w'.live u n ((w'.inv u n).2 e)
      simp [State.getTile, e] at h2
      rw [h2] at this; simp at this; omega
  refine ⟨?_, by simp [State.getTile, hnone], ?_⟩
  · rcases hj.2.2 with a | a
    · exact absurd hnone a
    · exact a
  · intro u e
    simp only [State.getNode] at e
    cases a : (s.step m op).tileNode u with
    | none => simp [a] at e; omega
    | some k => simp [a] at e; subst e; rw [(w'.inv u k).1 a] at hnone; simp at hnone

/-- C16. `clear_tile` empties the tile and leaves every other live tile alone. -/
theorem C16_clear (ops : List Op) (t u : Coord) :
    let s := run m init ops
    (s.clearTile m t).getNode u = if u = t then 0 else s.getNode u := by
  intro s
  simp only [State.getNode, clear_tileNode]
  split_ifs <;> rfl

/-- C16. A dead node without a tile stays dead and without a tile for as long as it is not moved. -/
theorem C16_dead_stays_dead (ops ops' : List Op) (hv : Valid m init ops) (hv' : Valid m (run m init ops) ops') (n : Nat)
    (hn : 2 ≤ n) (hs : n < (run m init ops).size) (hm : ∀ op ∈ ops', ∀ t cs, op ≠ .move n t cs)
    (hd : (run m init ops).isDead n = true) (ht : (run m init ops).getTile n = const0) :
    (run m init (ops ++ ops')).isDead n = true ∧ (run m init (ops ++ ops')).getTile n = const0 := by
  have w : WF (run m init ops) := WF.init.run m ops hv
  have hnone : (run m init ops).nodeTile n = none := by
    cases e : (run m init ops).nodeTile n with
    | none => rfl
    | some u =>
      have := w.live u n ((w.inv u n).2 e)
      simp [State.getTile, e] at ht
      rw [ht] at this; simp [const0] at this; omega
  have e : run m init (ops ++ ops') = run m (run m init ops) ops' := by simp [run]
  rw [e]
  generalize run m init ops = s at *
  clear ht e
  have hj : J n s := ⟨hn, hs, .inr hd⟩
  clear hs hd
  induction ops' generalizing s with
  | nil =>
    refine ⟨?_, by simp [run, State.getTile, hnone]⟩
    exact hj.2.2.elim (fun a => absurd hnone a) id
  | cons op ops' ih =>
    have h1 := hm op (by simp)
    exact ih (fun o ho => hm o (by simp [ho])) (s.step m op) hv'.2 (w.step m op hv'.1)
      (unplaced_step m w hj.2.1 hnone op hv'.1 h1) (J.step m w hj op hv'.1 h1)

/-- C16. `move_node` puts the node where it is told to, and the tile it came from is empty afterwards. -/
theorem C16_move (ops : List Op) (hv : Valid m init ops) (n : Nat) (t : Coord) (cs : List Coord) (ht : t.d = false)
    (hop : (Op.move n t cs).Valid (run m init ops)) :
    let s := run m init ops
    (s.moveNode m n t cs).getTile n = t ∧ (s.moveNode m n t cs).getNode t = n ∧
    ((s.getTile n).d = false → s.getTile n ≠ t → (s.moveNode m n t cs).getNode (s.getTile n) = 0) ∧
    (∀ u, u.d = false → u ≠ t → u ≠ s.getTile n → (s.moveNode m n t cs).getNode u = s.getNode u) := by
  intro s
  have w : WF s := WF.init.run m ops hv
  have h2 := hop.1
  have key : ∀ u, (s.moveNode m n t cs).tileNode u = if u = t then some n else if u = s.getTile n then none else s.tileNode u := by
    intro u
    simp only [State.moveNode]
    rw [(SameView.refs cs _).tileNode, modNode_tileNode]
    have v := (SameView.unrefs (s.nodes n).children s).trans
      (.mod ((s.nodes n).children.foldl State.unref s) n (fun d => { d with children := [] }) (fun _ => rfl))
    generalize ((s.nodes n).children.foldl State.unref s).modNode n (fun d => { d with children := [] }) = s2 at v ⊢
    by_cases e : t = s.getTile n
    · rw [if_pos e, v.tileNode]
      have : s.nodeTile n = some t := by
        cases a : s.nodeTile n with
        | none => simp [e, State.getTile, a, const0] at ht
        | some x => simp [e, State.getTile, a]
      have := (w.inv t n).2 this
      grind
    · rw [if_neg e, (SameView.revive _ _).tileNode, assign_tileNode m ht, clear_tileNode]
      simp [ht, v.tileNode]
  have e1 : (s.moveNode m n t cs).getNode t = n := by simp [State.getNode, key]
  refine ⟨?_, e1, ?_, ?_⟩
  · have w' : WF (s.moveNode m n t cs) := w.step m (.move n t cs) hop
    have := (w'.inv t n).1 (by rw [key, if_pos rfl])
    simp [State.getTile, this]
  · intro _ hne; simp [State.getNode, key, hne]
  · intro u _ h1 h2; simp [State.getNode, key, h1, h2]

/-- Non-vacuity of the C16 theorems: a history of creations, an overwritten tile, a move and a clear. -/
def demoOps : List Op :=
  [.createPi ⟨0, 1, 0, false⟩, .createPi ⟨1, 0, 0, false⟩, .createGate 4 [⟨0, 1, 0, false⟩, ⟨1, 0, 0, false⟩] ⟨1, 1, 0, false⟩,
   .createPo ⟨1, 1, 0, false⟩ ⟨2, 1, 0, false⟩, .createGate 2 [⟨1, 0, 0, false⟩] ⟨2, 1, 1, false⟩, .move 5 ⟨1, 2, 0, false⟩ [⟨1, 1, 0, false⟩],
   .createGate 3 [] ⟨0, 1, 0, false⟩, .clear ⟨2, 1, 1, false⟩]

example : Valid ⟨3, 3, 1⟩ init demoOps ∧ (run ⟨3, 3, 1⟩ init demoOps).getTile 5 = ⟨1, 2, 0, false⟩ ∧
    (run ⟨3, 3, 1⟩ init demoOps).isDead 2 = true ∧ (run ⟨3, 3, 1⟩ init demoOps).isDead 6 = true ∧
    (run ⟨3, 3, 1⟩ init demoOps).getTile 6 = const0 ∧ (run ⟨3, 3, 1⟩ init demoOps).size = 8 := by
  refine ⟨⟨trivial, trivial, trivial, trivial, trivial, ⟨by decide, by decide⟩, trivial, trivial, trivial⟩, ?_, ?_, ?_, ?_, ?_⟩ <;> decide

/-! ## C17 -/

private def GateTile (s : State) (t : Coord) : Prop := t.d = false ∧ ∃ n, s.tileNode t = some n ∧ s.fnOf n ≠ 2
private def WireTile (s : State) (t : Coord) : Prop := t.d = false ∧ ∃ n, s.tileNode t = some n ∧ s.fnOf n = 2
private def Cnt (s : State) : Prop := CountIs (GateTile s) s.numGates ∧ CountIs (WireTile s) s.numWires

private theorem Cnt.congr {s s' : State} (h : Cnt s) (h1 : s'.tileNode = s.tileNode)
    (h2 : ∀ t n, s.tileNode t = some n → s'.fnOf n = s.fnOf n) (h3 : s'.numGates = s.numGates) (h4 : s'.numWires = s.numWires) : Cnt s' := by
  refine ⟨h3 ▸ h.1.congr ?_, h4 ▸ h.2.congr ?_⟩ <;>
  · intro t
    simp only [GateTile, WireTile, h1]
    refine and_congr_right (fun _ => exists_congr (fun n => and_congr_right (fun e => ?_)))
    rw [h2 t n e]

private theorem Cnt.clear {s : State} (h : Cnt s) (t) : Cnt (s.clearTile m t) := by
  cases e : s.tileNode t with
  | none => rw [clear_none m e]; exact h
  | some n =>
    have hg : ∀ u, GateTile (s.clearTile m t) u ↔ GateTile s u ∧ u ≠ t := by
      intro u; simp only [GateTile, clear_fnOf, clear_tileNode]; grind
    have hw : ∀ u, WireTile (s.clearTile m t) u ↔ WireTile s u ∧ u ≠ t := by
      intro u; simp only [WireTile, clear_fnOf, clear_tileNode]; grind
    constructor
    · rw [clear_numGates m e]
      split_ifs with k
      · exact h.1.erase t ⟨k.1, n, e, k.2⟩ hg
      · refine h.1.congr (fun u => ((hg u).trans ?_).symm)
        simp only [GateTile]; grind
    · rw [clear_numWires m e]
      split_ifs with k
      · exact h.2.erase t ⟨k.1, n, e, k.2⟩ hw
      · refine h.2.congr (fun u => ((hw u).trans ?_).symm)
        simp only [WireTile]; grind

private theorem Cnt.assign {s : State} (h : Cnt s) {t} (n) (ht : t.d = false) : Cnt (s.assignNode m t n) := by
  have hc := h.clear m t
  have hg : ∀ u, GateTile (s.assignNode m t n) u ↔ GateTile (s.clearTile m t) u ∨ (u = t ∧ s.fnOf n ≠ 2) := by
    intro u; simp only [GateTile, clear_fnOf, clear_tileNode, assign_fnOf m ht, assign_tileNode m ht]; grind
  have hw : ∀ u, WireTile (s.assignNode m t n) u ↔ WireTile (s.clearTile m t) u ∨ (u = t ∧ s.fnOf n = 2) := by
    intro u; simp only [WireTile, clear_fnOf, clear_tileNode, assign_fnOf m ht, assign_tileNode m ht]; grind
  have h0 : (s.clearTile m t).tileNode t = none := by rw [clear_tileNode, if_pos rfl]
  constructor
  · rw [assign_numGates m ht]
    split_ifs with k
    · exact hc.1.congr (fun u => ((hg u).trans (by simp [k])).symm)
    · exact hc.1.insert t (by simp [GateTile, h0]) (fun u => (hg u).trans (by simp [k]))
  · rw [assign_numWires m ht]
    split_ifs with k
    · exact hc.2.insert t (by simp [WireTile, h0]) (fun u => (hw u).trans (by simp [k]))
    · exact hc.2.congr (fun u => ((hw u).trans (by simp [k])).symm)

theorem push_fn {s : State} (w : WF s) (d) : ∀ t n, s.tileNode t = some n → (s.push d).fnOf n = s.fnOf n := by
  intro t n h
  have := w.lt t n h
  simp only [State.fnOf, State.push]
  rw [if_neg (by omega)]

private theorem Cnt.run (ops : List Op) (hv : Valid m init ops) : Cnt (run m init ops) := by
  refine run_rule m Cnt ?_ init ops WF.init ?_ hv
  · intro s op ho w h
    exact (step_rule_view m Cnt (fun s s' v h => h.congr v.tileNode (fun _ _ _ => by rw [v.fnOf]) v.numGates v.numWires)
      (fun _ _ h => h) (fun _ _ h => h) (fun s d w h => h.congr rfl (push_fn w d) rfl rfl) (fun s t _ h => h.clear m t)
      (fun s t n _ ht _ _ _ h => h.assign m n ht) s op ho w h).2
  · have : ∀ t n, init.tileNode t = some n → t.d = true := by
      intro t n h; simp only [init] at h; split_ifs at h with h1 h2
      · rw [h1]; rfl
      · rw [h2]; rfl
    constructor
    · refine ⟨∅, fun t => ?_, rfl⟩
      simp only [GateTile, Finset.notMem_empty, false_iff]
      rintro ⟨h, n, h', -⟩; simp [this t n h'] at h
    · refine ⟨∅, fun t => ?_, rfl⟩
      simp only [WireTile, Finset.notMem_empty, false_iff]
      rintro ⟨h, n, h', -⟩; simp [this t n h'] at h

theorem empty_iff {s : State} (w : WF s) {t : Coord} (ht : t.d = false) :
    s.isEmptyTile t = false ↔ ∃ n, s.tileNode t = some n := by
  simp only [State.isEmptyTile, State.getNode]
  cases a : s.tileNode t with
  | none => simp
  | some n =>
    have := w.live t n a
    rw [ht] at this
    simp at this ⊢; omega

/-- C17. The gate count is the number of occupied tiles whose node is no wire segment, the wire count that of those whose
node is one, whatever has been created, overwritten, moved and cleared (counters are unsigned 32-bit numbers). -/
theorem C17_counts (ops : List Op) (hv : Valid m init ops) (gates wires : Finset Coord) :
    let s := run m init ops
    (∀ t, t ∈ gates ↔ t.d = false ∧ s.isEmptyTile t = false ∧ s.isWireTile t = false) →
    (∀ t, t ∈ wires ↔ t.d = false ∧ s.isEmptyTile t = false ∧ s.isWireTile t = true) →
    s.numGates = BitVec.ofNat 32 gates.card ∧ s.numWires = BitVec.ofNat 32 wires.card := by
  intro s hg hw
  have w : WF s := WF.init.run m ops hv
  have h := Cnt.run m ops hv
  refine ⟨h.1.unique gates (fun t => (hg t).trans (and_congr_right fun ht => ?_)),
    h.2.unique wires (fun t => (hw t).trans (and_congr_right fun ht => ?_))⟩ <;>
  · rw [empty_iff w ht]
    simp only [State.isWireTile, State.isWire, State.fnOf]
    constructor
    · rintro ⟨⟨n, e⟩, k⟩
      simp only [State.getNode, e, Option.getD_some] at k
      exact ⟨n, e, by simpa using k⟩
    · rintro ⟨n, e, k⟩
      have e' : s.tileNode t = some n := e
      exact ⟨⟨n, e⟩, by simp only [State.getNode, e', Option.getD_some]; simpa using k⟩

/-- C17. The sets counted in `C17_counts` exist (only finitely many tiles are occupied). -/
theorem C17_finite (ops : List Op) (hv : Valid m init ops) : ∃ gates wires : Finset Coord,
    (∀ t, t ∈ gates ↔ t.d = false ∧ (run m init ops).isEmptyTile t = false ∧ (run m init ops).isWireTile t = false) ∧
    (∀ t, t ∈ wires ↔ t.d = false ∧ (run m init ops).isEmptyTile t = false ∧ (run m init ops).isWireTile t = true) := by
  have w : WF (run m init ops) := WF.init.run m ops hv
  obtain ⟨⟨G, hG, -⟩, ⟨W, hW, -⟩⟩ := Cnt.run m ops hv
  refine ⟨G, W, fun t => (hG t).trans (and_congr_right fun ht => ?_), fun t => (hW t).trans (and_congr_right fun ht => ?_)⟩ <;>
  · rw [empty_iff w ht]
    simp only [State.isWireTile, State.isWire, State.fnOf]
    constructor
    · rintro ⟨n, e, k⟩
      exact ⟨⟨n, e⟩, by simpa [State.getNode, e] using k⟩
    · rintro ⟨⟨n, e⟩, k⟩
      simp only [State.getNode, e, Option.getD_some] at k
      exact ⟨n, e, by simpa using k⟩

example : (run ⟨3, 3, 1⟩ init demoOps).numGates = 2 ∧ (run ⟨3, 3, 1⟩ init demoOps).numWires = 2 := by decide

end Verif.GateLevel
