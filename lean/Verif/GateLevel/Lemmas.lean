import Verif.GateLevel.Model
import Mathlib.Data.Finset.Card
import Mathlib.Tactic.SplitIfs

/-! # Effect of the layout operations on the tile/node maps, and the representation invariant -/
namespace Verif.GateLevel

open Verif.Layouts Verif.Clocking

variable (m : Dim)

def State.fnOf (s : State) (n : Nat) : Nat := (s.nodes n).fn

@[simp] theorem modNode_tileNode (s : State) (n f) : (s.modNode n f).tileNode = s.tileNode := rfl
@[simp] theorem modNode_nodeTile (s : State) (n f) : (s.modNode n f).nodeTile = s.nodeTile := rfl
@[simp] theorem modNode_size (s : State) (n f) : (s.modNode n f).size = s.size := rfl
@[simp] theorem modNode_inputs (s : State) (n f) : (s.modNode n f).inputs = s.inputs := rfl
@[simp] theorem modNode_outputs (s : State) (n f) : (s.modNode n f).outputs = s.outputs := rfl
@[simp] theorem modNode_numGates (s : State) (n f) : (s.modNode n f).numGates = s.numGates := rfl
@[simp] theorem modNode_numWires (s : State) (n f) : (s.modNode n f).numWires = s.numWires := rfl
@[simp] theorem modNode_numCrossings (s : State) (n f) : (s.modNode n f).numCrossings = s.numCrossings := rfl
theorem modNode_fnOf (s : State) (n f) (hf : ∀ d : Node, (f d).fn = d.fn) : (s.modNode n f).fnOf = s.fnOf := by
  funext k; simp only [State.fnOf, State.modNode]; split_ifs <;> simp [hf]

/-- Two states that differ only in children and reference counts. -/
structure SameView (s s' : State) : Prop where
  tileNode : s'.tileNode = s.tileNode
  nodeTile : s'.nodeTile = s.nodeTile
  size : s'.size = s.size
  fnOf : s'.fnOf = s.fnOf
  inputs : s'.inputs = s.inputs
  outputs : s'.outputs = s.outputs
  numGates : s'.numGates = s.numGates
  numWires : s'.numWires = s.numWires
  numCrossings : s'.numCrossings = s.numCrossings

theorem SameView.refl (s : State) : SameView s s := ⟨rfl, rfl, rfl, rfl, rfl, rfl, rfl, rfl, rfl⟩
theorem SameView.trans {a b c : State} (h : SameView a b) (k : SameView b c) : SameView a c :=
  ⟨k.1.trans h.1, k.2.trans h.2, k.3.trans h.3, k.4.trans h.4, k.5.trans h.5, k.6.trans h.6, k.7.trans h.7,
    k.8.trans h.8, k.9.trans h.9⟩

theorem SameView.mod (s : State) (n f) (hf : ∀ d : Node, (f d).fn = d.fn) : SameView s (s.modNode n f) :=
  ⟨rfl, rfl, rfl, modNode_fnOf s n f hf, rfl, rfl, rfl, rfl, rfl⟩

theorem SameView.kill (s : State) (n) : SameView s (s.kill n) := by
  unfold State.kill; split
  · exact .refl s
  · exact .mod s n _ (fun _ => rfl)

theorem SameView.revive (s : State) (n) : SameView s (s.revive n) := by
  unfold State.revive; split
  · exact .refl s
  · exact .mod s n _ (fun _ => rfl)

theorem SameView.ref (s : State) (c) : SameView s (s.ref c) := .mod s _ _ (fun _ => rfl)
theorem SameView.unref (s : State) (c) : SameView s (s.unref c) := .mod s _ _ (fun _ => rfl)

theorem SameView.refs (l : List Coord) : ∀ s : State, SameView s (l.foldl State.ref s) := by
  induction l with
  | nil => exact .refl
  | cons c l ih => intro s; exact (SameView.ref s c).trans (ih _)

theorem SameView.unrefs (l : List Coord) : ∀ s : State, SameView s (l.foldl State.unref s) := by
  induction l with
  | nil => exact .refl
  | cons c l ih => intro s; exact (SameView.unref s c).trans (ih _)

/-! ## `clear_tile` -/

theorem clear_none {s : State} {t : Coord} (h : s.tileNode t = none) : s.clearTile m t = s := by
  unfold State.clearTile; rw [h]

theorem clear_tileNode (s : State) (t k : Coord) :
    (s.clearTile m t).tileNode k = if k = t then none else s.tileNode k := by
  unfold State.clearTile
  cases h : s.tileNode t with
  | none => simp only; split_ifs with e; · rw [e, h]
            · rfl
  | some n => simp only; split_ifs <;> simp [(SameView.kill _ n).tileNode]

theorem clear_nodeTile (s : State) (t : Coord) (k : Nat) :
    (s.clearTile m t).nodeTile k = if s.tileNode t = some k then none else s.nodeTile k := by
  unfold State.clearTile
  cases h : s.tileNode t with
  | none => simp
  | some n =>
    simp only [Option.some.injEq]
    by_cases e : k = n
    · simp [e]
    · rw [if_neg e, if_neg (Ne.symm e), (SameView.kill _ n).nodeTile]; split_ifs <;> rfl

theorem clear_size (s : State) (t : Coord) : (s.clearTile m t).size = s.size := by
  unfold State.clearTile
  cases h : s.tileNode t with
  | none => rfl
  | some n => simp only [(SameView.kill _ n).size]; split_ifs <;> rfl

theorem clear_inputs (s : State) (t : Coord) : (s.clearTile m t).inputs = s.inputs := by
  unfold State.clearTile
  cases h : s.tileNode t with
  | none => rfl
  | some n => simp only [(SameView.kill _ n).inputs]; split_ifs <;> rfl

theorem clear_fnOf (s : State) (t : Coord) : (s.clearTile m t).fnOf = s.fnOf := by
  unfold State.clearTile
  cases h : s.tileNode t with
  | none => rfl
  | some n =>
    funext k
    have key : ∀ s1 : State, s1.fnOf = s.fnOf → ((s1.kill n).nodes k).fn = (s.nodes k).fn := by
      intro s1 h1
      have := congrFun ((SameView.kill s1 n).fnOf.trans h1) k
      exact this
    simp only [State.fnOf]
    apply key
    split_ifs <;> rfl

theorem clear_numGates {s : State} {t : Coord} {n : Nat} (h : s.tileNode t = some n) :
    (s.clearTile m t).numGates = if t.d = false ∧ s.fnOf n ≠ 2 then s.numGates - 1 else s.numGates := by
  unfold State.clearTile
  rw [h]
  simp only [(SameView.kill _ n).numGates, State.isWire, State.fnOf]
  cases t.d <;> by_cases e : (s.nodes n).fn = 2 <;> simp [e]

theorem clear_numWires {s : State} {t : Coord} {n : Nat} (h : s.tileNode t = some n) :
    (s.clearTile m t).numWires = if t.d = false ∧ s.fnOf n = 2 then s.numWires - 1 else s.numWires := by
  unfold State.clearTile
  rw [h]
  simp only [(SameView.kill _ n).numWires, State.isWire, State.fnOf]
  cases t.d <;> by_cases e : (s.nodes n).fn = 2 <;> simp [e]

theorem clear_numCrossings {s : State} {t : Coord} {n : Nat} (h : s.tileNode t = some n) :
    (s.clearTile m t).numCrossings =
      if t.d = false ∧ s.fnOf n = 2 then s.numCrossings - s.crossingsAt m t else s.numCrossings := by
  unfold State.clearTile
  rw [h]
  simp only [(SameView.kill _ n).numCrossings, State.isWire, State.fnOf]
  cases t.d <;> by_cases e : (s.nodes n).fn = 2 <;> simp [e]

theorem clear_outputs {s : State} {t : Coord} {n : Nat} (h : s.tileNode t = some n) :
    (s.clearTile m t).outputs =
      if t.d = false ∧ s.fnOf n = 2 then eraseFirst (fun p => s.getNode p == n) s.outputs else s.outputs := by
  unfold State.clearTile
  rw [h]
  simp only [(SameView.kill _ n).outputs, State.isWire, State.fnOf]
  cases t.d <;> by_cases e : (s.nodes n).fn = 2 <;> simp [e]

/-! ## `assign_node` -/

theorem assign_dead {s : State} {t : Coord} {n : Nat} (h : t.d = true) : s.assignNode m t n = s := by
  unfold State.assignNode; rw [if_pos h]

section
variable {s : State} {t : Coord} {n : Nat} (ht : t.d = false)
include ht

theorem assign_tileNode (k : Coord) :
    (s.assignNode m t n).tileNode k = if k = t then some n else s.tileNode k := by
  unfold State.assignNode
  rw [if_neg (by simp [ht])]
  simp only
  split <;> · simp only [clear_tileNode]; split_ifs <;> rfl

theorem assign_nodeTile (k : Nat) : (s.assignNode m t n).nodeTile k =
    if k = n then some t else if s.tileNode t = some k then none else s.nodeTile k := by
  unfold State.assignNode
  rw [if_neg (by simp [ht])]
  simp only
  split <;> simp only [clear_nodeTile]

theorem assign_size : (s.assignNode m t n).size = s.size := by
  unfold State.assignNode
  rw [if_neg (by simp [ht])]
  simp only
  split <;> simp only [clear_size]

theorem assign_inputs : (s.assignNode m t n).inputs = s.inputs := by
  unfold State.assignNode
  rw [if_neg (by simp [ht])]
  simp only
  split <;> simp only [clear_inputs]

theorem assign_fnOf : (s.assignNode m t n).fnOf = s.fnOf := by
  have := clear_fnOf m s t
  unfold State.assignNode
  rw [if_neg (by simp [ht])]
  simp only
  split <;> exact this

theorem assign_outputs : (s.assignNode m t n).outputs = (s.clearTile m t).outputs := by
  unfold State.assignNode
  rw [if_neg (by simp [ht])]
  simp only
  split <;> rfl

theorem assign_nodes : (s.assignNode m t n).nodes = (s.clearTile m t).nodes := by
  unfold State.assignNode
  rw [if_neg (by simp [ht])]
  simp only
  split <;> rfl

omit ht in
theorem assign_isWire : (State.isWire { s.clearTile m t with
      tileNode := fun k => if k = t then some n else (s.clearTile m t).tileNode k
      nodeTile := fun k => if k = n then some t else (s.clearTile m t).nodeTile k } n = true) ↔ s.fnOf n = 2 := by
  have := congrFun (clear_fnOf m s t) n
  simp only [State.fnOf] at this
  simp [State.isWire, State.fnOf, this]

theorem assign_numGates : (s.assignNode m t n).numGates =
    if s.fnOf n = 2 then (s.clearTile m t).numGates else (s.clearTile m t).numGates + 1 := by
  have h := assign_isWire m (t := t) (s := s) (n := n)
  unfold State.assignNode
  rw [if_neg (by simp [ht])]
  simp only
  by_cases e : s.fnOf n = 2
  · rw [if_pos (h.2 e), if_pos e]
  · rw [if_neg (fun k => e (h.1 k)), if_neg e]

theorem assign_numWires : (s.assignNode m t n).numWires =
    if s.fnOf n = 2 then (s.clearTile m t).numWires + 1 else (s.clearTile m t).numWires := by
  have h := assign_isWire m (t := t) (s := s) (n := n)
  unfold State.assignNode
  rw [if_neg (by simp [ht])]
  simp only
  by_cases e : s.fnOf n = 2
  · rw [if_pos (h.2 e), if_pos e]
  · rw [if_neg (fun k => e (h.1 k)), if_neg e]

theorem assign_numCrossings : (s.assignNode m t n).numCrossings =
    if s.fnOf n = 2 then (s.clearTile m t).numCrossings + (s.assignNode m t n).crossingsAt m t
    else (s.clearTile m t).numCrossings := by
  have h := assign_isWire m (t := t) (s := s) (n := n)
  unfold State.assignNode
  rw [if_neg (by simp [ht])]
  simp only
  by_cases e : s.fnOf n = 2
  · rw [if_pos (h.2 e), if_pos e]; rfl
  · rw [if_neg (fun k => e (h.1 k)), if_neg e]

end

/-! ## Representation invariant -/

structure WF (s : State) : Prop where
  two : 2 ≤ s.size
  inv : ∀ t n, s.tileNode t = some n ↔ s.nodeTile n = some t
  lt : ∀ t n, s.tileNode t = some n → n < s.size
  live : ∀ t n, s.tileNode t = some n → (n ≤ 1 ↔ t.d = true)

theorem WF.init : WF init := by
  constructor
  · exact Nat.le_refl _
  · intro t n
    have e : const0 ≠ const1 := by decide
    simp only [GateLevel.init]
    grind
  · intro t n h
    simp only [GateLevel.init] at h ⊢
    split_ifs at h <;> simp_all <;> omega
  · intro t n h
    simp only [GateLevel.init] at h
    split_ifs at h with h1 h2 <;> simp at h
    · subst h1 h; simp [const0]
    · subst h2 h; simp [const1]

theorem WF.same {s s' : State} (h : SameView s s') (w : WF s) : WF s' := by
  refine ⟨?_, ?_, ?_, ?_⟩
  · rw [h.size]; exact w.two
  · rw [h.tileNode, h.nodeTile]; exact w.inv
  · rw [h.tileNode, h.size]; exact w.lt
  · rw [h.tileNode]; exact w.live

theorem WF.outputs {s : State} (w : WF s) (l) : WF { s with outputs := l } := ⟨w.1, w.2, w.3, w.4⟩
theorem WF.inputs {s : State} (w : WF s) (l) : WF { s with inputs := l } := ⟨w.1, w.2, w.3, w.4⟩

theorem WF.push {s : State} (w : WF s) (d) : WF (s.push d) := by
  refine ⟨?_, w.inv, ?_, w.live⟩
  · have := w.two; simp only [State.push]; omega
  · intro t n h; have := w.lt t n h; simp only [State.push]; omega

theorem WF.clear {s : State} (w : WF s) (t) : WF (s.clearTile m t) := by
  refine ⟨?_, ?_, ?_, ?_⟩
  · rw [clear_size]; exact w.two
  · intro u n
    rw [clear_tileNode, clear_nodeTile]
    have h1 := w.inv u n
    have h2 := w.inv t n
    grind
  · intro u n h
    rw [clear_tileNode] at h; rw [clear_size]
    split_ifs at h; exact w.lt u n h
  · intro u n h
    rw [clear_tileNode] at h
    split_ifs at h; exact w.live u n h

theorem WF.assign {s : State} (w : WF s) {t n} (ht : t.d = false) (h2 : 2 ≤ n) (hs : n < s.size)
    (hn : s.nodeTile n = none) : WF (s.assignNode m t n) := by
  refine ⟨?_, ?_, ?_, ?_⟩
  · rw [assign_size m ht]; exact w.two
  · intro u k
    rw [assign_tileNode m ht, assign_nodeTile m ht]
    have h1 := w.inv u k
    have h2 := w.inv t k
    have h3 := w.inv u n
    grind
  · intro u k h
    rw [assign_tileNode m ht] at h; rw [assign_size m ht]
    have := w.lt u k
    grind
  · intro u k h
    rw [assign_tileNode m ht] at h
    have := w.live u k
    split_ifs at h with e
    · subst e; simp at h; subst h; simp [ht]; omega
    · exact this h

theorem WF.fresh {s : State} (w : WF s) {n} (h : s.size ≤ n) : s.nodeTile n = none := by
  cases e : s.nodeTile n with
  | none => rfl
  | some t => have := w.lt t n ((w.inv t n).2 e); omega

/-- After `clear_tile` of its own tile, a node has none. -/
theorem WF.unplaced {s : State} (w : WF s) (n) : (s.clearTile m (s.getTile n)).nodeTile n = none := by
  rw [clear_nodeTile]
  cases e : s.nodeTile n with
  | none => split_ifs <;> rfl
  | some t =>
    have : s.getTile n = t := by simp [State.getTile, e]
    rw [this, if_pos ((w.inv t n).2 e)]

/-! ## A proof rule for all operations -/

/-- The node a `move` operation moves. -/
def Op.moves : Op → Nat → Prop
  | .move k _ _, n => k = n
  | _, _ => False

/-- To show that an operation preserves `I`, look at the elementary updates it is made of. -/
theorem step_rule (I : State → Prop) (s : State) (op : Op)
    (href : ∀ s c, WF s → I s → I (s.ref c))
    (hunref : ∀ s c, WF s → (∃ n, op.moves n) → I s → I (s.unref c))
    (hch : ∀ s n (f : Node → List Coord), WF s → I s → I (s.modNode n (fun d => { d with children := f d })))
    (hrevive : ∀ s n, WF s → op.moves n → I s → I (s.revive n))
    (hout : ∀ s l, WF s → I s → I { s with outputs := l })
    (hin : ∀ s l, WF s → I s → I { s with inputs := l })
    (hpush : ∀ s cs lit, WF s → I s → I (s.push { children := cs, fn := lit }))
    (hclear : ∀ s t, WF s → I s → I (s.clearTile m t))
    (hassign : ∀ s' t n, WF s' → t.d = false → 2 ≤ n → n < s'.size → s'.nodeTile n = none → (op.moves n ∨ n = s.size) →
      I s' → I (s'.assignNode m t n))
    (hv : op.Valid s) (w : WF s) (h : I s) : WF (s.step m op) ∧ I (s.step m op) := by
  have place : ∀ (s' : State) t n, WF s' ∧ I s' → 2 ≤ n → n < s'.size → s'.nodeTile n = none →
      (op.moves n ∨ n = s.size) → WF (s'.assignNode m t n) ∧ I (s'.assignNode m t n) := by
    intro s t n ⟨w, h⟩ h2 hn he ho
    cases ht : t.d with
    | true => rw [assign_dead m ht]; exact ⟨w, h⟩
    | false => exact ⟨w.assign m ht h2 hn he, hassign s t n w ht h2 hn he ho h⟩
  have refs : ∀ (l : List Coord) (s : State), WF s ∧ I s → WF (l.foldl State.ref s) ∧ I (l.foldl State.ref s) := by
    intro l
    induction l with
    | nil => exact fun s h => h
    | cons c l ih => exact fun s h => ih _ ⟨h.1.same (.ref s c), href s c h.1 h.2⟩
  have unrefs : (∃ n, op.moves n) → ∀ (l : List Coord) (s : State), WF s ∧ I s →
      WF (l.foldl State.unref s) ∧ I (l.foldl State.unref s) := by
    intro hn l
    induction l with
    | nil => exact fun s h => h
    | cons c l ih => exact fun s h => ih _ ⟨h.1.same (.unref s c), hunref s c h.1 hn h.2⟩
  have ch : ∀ (s : State) n (f : Node → List Coord), WF s ∧ I s → WF (s.modNode n (fun d => { d with children := f d })) ∧
      I (s.modNode n (fun d => { d with children := f d })) :=
    fun s n f h => ⟨h.1.same (.mod _ _ _ (fun _ => rfl)), hch s n f h.1 h.2⟩
  have w2 := w.two
  have push : ∀ cs lit, WF (s.push { children := cs, fn := lit }) ∧ I (s.push { children := cs, fn := lit }) :=
    fun cs lit => ⟨w.push _, hpush s cs lit w h⟩
  cases op with
  | createPi t =>
    have h0 := push [] 2
    exact place _ t s.size ⟨h0.1.inputs _, hin _ _ h0.1 h0.2⟩ w2 (Nat.lt_succ_self _) (w.fresh (Nat.le_refl _)) (.inr rfl)
  | createPo c t =>
    have h0 := push [] 2
    have h1 := place _ t s.size ⟨h0.1.outputs (s.outputs ++ [t]), hout _ _ h0.1 h0.2⟩ w2 (Nat.lt_succ_self _)
      (w.fresh (Nat.le_refl _)) (.inr rfl)
    exact ch _ s.size (fun d => d.children ++ [c]) (refs [c] _ h1)
  | createGate lit cs t =>
    have v := SameView.refs cs (s.push { children := cs, fn := lit })
    refine place _ t s.size (refs cs _ (push cs lit)) w2 ?_ ?_ (.inr rfl)
    · rw [v.size]; exact Nat.lt_succ_self _
    · rw [v.nodeTile]; exact w.fresh (Nat.le_refl _)
  | connect c n =>
    simp only [State.step, State.connect]
    split
    · exact ⟨w, h⟩
    · exact ch s n (fun d => d.children ++ [c]) ⟨w, h⟩
  | clear t => exact ⟨w.clear m t, hclear s t w h⟩
  | move n t cs =>
    obtain ⟨h2, hn⟩ := hv
    simp only [State.step, State.moveNode]
    refine refs cs _ (ch _ n (fun _ => cs) ?_)
    have v := (SameView.unrefs (s.nodes n).children s).trans
      (.mod ((s.nodes n).children.foldl State.unref s) n (fun d => { d with children := [] }) (fun _ => rfl))
    have h0 := ch _ n (fun _ => []) (unrefs ⟨n, rfl⟩ (s.nodes n).children s ⟨w, h⟩)
    generalize ((s.nodes n).children.foldl State.unref s).modNode n (fun d => { d with children := [] }) = s2 at v h0 ⊢
    split
    · exact h0
    · have h3 : ∀ s3 : State, (s3 = if t.d then s2 else { s2 with outputs := s2.outputs.map (fun p => if p = s.getTile n then t else p) }) →
          WF s3 ∧ I s3 ∧ s3.size = s.size ∧ s3.getTile n = s.getTile n := by
        intro s3 e
        have g : s2.getTile n = s.getTile n := by simp [State.getTile, v.nodeTile]
        subst e; split
        · exact ⟨h0.1, h0.2, v.size, g⟩
        · exact ⟨h0.1.outputs _, hout _ _ h0.1 h0.2, v.size, g⟩
      obtain ⟨a, b, c, d⟩ := h3 _ rfl
      have h4 := place _ t n ⟨a.clear m (s.getTile n), hclear _ _ a b⟩ h2 (by rw [clear_size, c]; exact hn) (by
        have := a.unplaced m n
        rwa [d] at this) (.inl rfl)
      exact ⟨h4.1.same (.revive _ _), hrevive _ n h4.1 rfl h4.2⟩

/-- The same for invariants that do not look at children, reference counts and dead flags, inputs and outputs. -/
theorem step_rule_view (I : State → Prop)
    (hsame : ∀ s s', SameView s s' → I s → I s')
    (hout : ∀ s l, I s → I { s with outputs := l })
    (hin : ∀ s l, I s → I { s with inputs := l })
    (hpush : ∀ s d, WF s → I s → I (s.push d))
    (hclear : ∀ s t, WF s → I s → I (s.clearTile m t))
    (hassign : ∀ s t n, WF s → t.d = false → 2 ≤ n → n < s.size → s.nodeTile n = none → I s → I (s.assignNode m t n))
    (s : State) (op : Op) (hv : op.Valid s) (w : WF s) (h : I s) : WF (s.step m op) ∧ I (s.step m op) :=
  step_rule m I s op (fun s c _ => hsame _ _ (.ref s c)) (fun s c _ _ => hsame _ _ (.unref s c))
    (fun s n f _ => hsame _ _ (.mod s n _ (fun _ => rfl))) (fun s n _ _ => hsame _ _ (.revive s n))
    (fun s l _ => hout s l) (fun s l _ => hin s l) (fun s cs lit w => hpush s _ w) hclear
    (fun s t n w a b c d _ => hassign s t n w a b c d) hv w h

/-- The tile an operation places a node on. -/
def Op.target : Op → Option Coord
  | .createPi t => some t
  | .createPo _ t => some t
  | .createGate _ _ t => some t
  | .move _ t _ => some t
  | .connect _ _ => none
  | .clear _ => none

/-- The same with separate invariants before and after the (single) placement of a node. -/
theorem step_rule_place (I K : State → Prop)
    (hI : ∀ s s', SameView s s' → I s → I s')
    (hK : ∀ s s', SameView s s' → K s → K s')
    (hIK : ∀ s, I s → K s)
    (hout : ∀ s l, I s → I { s with outputs := l })
    (hin : ∀ s l, I s → I { s with inputs := l })
    (hpush : ∀ s d, WF s → I s → I (s.push d))
    (hclear : ∀ s t, WF s → I s → I (s.clearTile m t))
    (s : State) (op : Op)
    (hassign : ∀ s t n, WF s → t.d = false → op.target = some t → 2 ≤ n → n < s.size → s.nodeTile n = none → I s →
      K (s.assignNode m t n))
    (hv : op.Valid s) (w : WF s) (h : I s) : K (s.step m op) := by
  have place : ∀ (s' : State) t n, op.target = some t → WF s' ∧ I s' → 2 ≤ n → n < s'.size → s'.nodeTile n = none →
      K (s'.assignNode m t n) := by
    intro s t n ho ⟨w, h⟩ h2 hn he
    cases ht : t.d with
    | true => rw [assign_dead m ht]; exact hIK _ h
    | false => exact hassign s t n w ht ho h2 hn he h
  have same : ∀ {s s' : State}, SameView s s' → WF s ∧ I s → WF s' ∧ I s' :=
    fun v k => ⟨k.1.same v, hI _ _ v k.2⟩
  have w2 := w.two
  cases op with
  | createPi t =>
    exact place _ t s.size rfl ⟨(w.push { fn := 2 }).inputs (s.inputs ++ [s.size]), hin _ _ (hpush s _ w h)⟩ w2
      (Nat.lt_succ_self _) (w.fresh (Nat.le_refl _))
  | createPo c t =>
    have h1 := place _ t s.size rfl ⟨(w.push { fn := 2 }).outputs (s.outputs ++ [t]), hout _ _ (hpush s _ w h)⟩ w2
      (Nat.lt_succ_self _) (w.fresh (Nat.le_refl _))
    exact hK _ _ (.mod _ s.size (fun d => { d with children := d.children ++ [c] }) (fun _ => rfl)) (hK _ _ (.ref _ c) h1)
  | createGate lit cs t =>
    have v := SameView.refs cs (s.push { children := cs, fn := lit })
    have h0 := same v ⟨w.push _, hpush s _ w h⟩
    refine place _ t s.size rfl h0 w2 ?_ ?_
    · rw [v.size]; exact Nat.lt_succ_self _
    · rw [v.nodeTile]; exact w.fresh (Nat.le_refl _)
  | connect c n =>
    simp only [State.step, State.connect]
    split
    · exact hIK _ h
    · exact hK _ _ (.mod _ _ _ (fun _ => rfl)) (hIK _ h)
  | clear t => exact hIK _ (hclear s t w h)
  | move n t cs =>
    obtain ⟨h2, hn⟩ := hv
    simp only [State.step, State.moveNode]
    refine hK _ _ (.refs cs _) (hK _ _ (.mod _ _ _ (fun _ => rfl)) ?_)
    have v := (SameView.unrefs (s.nodes n).children s).trans
      (.mod ((s.nodes n).children.foldl State.unref s) n (fun d => { d with children := [] }) (fun _ => rfl))
    have h0 := same v ⟨w, h⟩
    generalize ((s.nodes n).children.foldl State.unref s).modNode n (fun d => { d with children := [] }) = s2 at v h0 ⊢
    split
    · exact hIK _ h0.2
    · refine hK _ _ (.revive _ _) ?_
      have h3 : ∀ s3 : State, (s3 = if t.d then s2 else { s2 with outputs := s2.outputs.map (fun p => if p = s.getTile n then t else p) }) →
          WF s3 ∧ I s3 ∧ s3.size = s.size ∧ s3.getTile n = s.getTile n := by
        intro s3 e
        have g : s2.getTile n = s.getTile n := by simp [State.getTile, v.nodeTile]
        subst e; split
        · exact ⟨h0.1, h0.2, v.size, g⟩
        · exact ⟨h0.1.outputs _, hout _ _ h0.2, v.size, g⟩
      obtain ⟨a, b, c, d⟩ := h3 _ rfl
      refine place _ t n rfl ⟨a.clear m _, hclear _ _ a b⟩ h2 ?_ ?_
      · rw [clear_size, c]; exact hn
      · have := a.unplaced m n
        rwa [d] at this

/-- The function literal of the node an operation creates. -/
def Op.creates : Op → Option Nat
  | .createPi _ => some 2
  | .createPo _ _ => some 2
  | .createGate lit _ _ => some lit
  | _ => none

theorem assign_size' (s : State) (t n) : (s.assignNode m t n).size = s.size := by
  cases ht : t.d with
  | true => rw [assign_dead m ht]
  | false => exact assign_size m ht
theorem assign_fnOf' (s : State) (t n) : (s.assignNode m t n).fnOf = s.fnOf := by
  cases ht : t.d with
  | true => rw [assign_dead m ht]
  | false => exact assign_fnOf m ht
theorem assign_inputs' (s : State) (t n) : (s.assignNode m t n).inputs = s.inputs := by
  cases ht : t.d with
  | true => rw [assign_dead m ht]
  | false => exact assign_inputs m ht

private theorem step_both (s : State) (op : Op) :
    (s.step m op).size = s.size + (if op.creates.isSome then 1 else 0) ∧
    (∀ n, (s.step m op).fnOf n = if n = s.size then (op.creates.getD (s.fnOf n)) else s.fnOf n) ∧
    (s.step m op).inputs = s.inputs ++ (match op with | .createPi _ => [s.size] | _ => []) := by
  cases op with
  | createPi t =>
    simp only [State.step, State.createPi, assign_size', assign_fnOf', assign_inputs', Op.creates]
    refine ⟨rfl, ?_, rfl⟩
    intro n; simp only [State.fnOf, State.push]; split_ifs <;> rfl
  | createPo c t =>
    simp only [State.step, State.createPo, Op.creates, modNode_size, modNode_inputs, State.ref, assign_size', assign_inputs']
    refine ⟨rfl, ?_, by simp [State.push]⟩
    intro n
    rw [modNode_fnOf, modNode_fnOf, assign_fnOf']
    · simp only [State.fnOf, State.push]; split_ifs <;> rfl
    · exact fun _ => rfl
    · exact fun _ => rfl
  | createGate lit cs t =>
    simp only [State.step, State.createGate, Op.creates, assign_size', assign_fnOf', assign_inputs', (SameView.refs cs _).size,
      (SameView.refs cs _).fnOf, (SameView.refs cs _).inputs]
    refine ⟨rfl, ?_, by simp [State.push]⟩
    intro n; simp only [State.fnOf, State.push]; split_ifs <;> rfl
  | connect c n =>
    simp only [State.step, State.connect, Op.creates]
    split
    · simp
    · refine ⟨rfl, ?_, by simp⟩
      rw [modNode_fnOf]
      · simp
      · exact fun _ => rfl
  | clear t =>
    simp [State.step, clear_size, clear_fnOf, clear_inputs, Op.creates]
  | move n t cs =>
    have key : (s.moveNode m n t cs).size = s.size ∧ (s.moveNode m n t cs).fnOf = s.fnOf ∧
        (s.moveNode m n t cs).inputs = s.inputs := by
      have v := (SameView.unrefs (s.nodes n).children s).trans
        (.mod ((s.nodes n).children.foldl State.unref s) n (fun d => { d with children := [] }) (fun _ => rfl))
      simp only [State.moveNode]
      generalize ((s.nodes n).children.foldl State.unref s).modNode n (fun d => { d with children := [] }) = s2 at v ⊢
      rw [(SameView.refs cs _).size, (SameView.refs cs _).fnOf, (SameView.refs cs _).inputs, modNode_size,
        modNode_inputs, modNode_fnOf (hf := ?_)]
      · split
        · exact ⟨v.size, v.fnOf, v.inputs⟩
        · rw [(SameView.revive _ _).size, (SameView.revive _ _).fnOf, (SameView.revive _ _).inputs, assign_size', assign_fnOf',
            assign_inputs', clear_size, clear_fnOf, clear_inputs]
          split
          · exact ⟨v.size, v.fnOf, v.inputs⟩
          · exact ⟨v.size, v.fnOf, v.inputs⟩
      · exact fun _ => rfl
    refine ⟨key.1, ?_, by simp [State.step, key.2.2]⟩
    intro k
    simp [State.step, key.2.1, Op.creates]

theorem step_size (s : State) (op : Op) : (s.step m op).size = s.size + (if op.creates.isSome then 1 else 0) :=
  (step_both m s op).1
theorem step_fnOf (s : State) (op : Op) (n) (h : n < s.size) : (s.step m op).fnOf n = s.fnOf n := by
  rw [(step_both m s op).2.1, if_neg (Nat.ne_of_lt h)]
theorem step_fnOf_new (s : State) (op : Op) (lit) (h : op.creates = some lit) : (s.step m op).fnOf s.size = lit := by
  rw [(step_both m s op).2.1, if_pos rfl, h]; rfl
theorem step_inputs (s : State) (op : Op) :
    (s.step m op).inputs = s.inputs ++ (match op with | .createPi _ => [s.size] | _ => []) := (step_both m s op).2.2

/-! ## Histories -/

theorem WF.step {s : State} (w : WF s) (op : Op) (hv : op.Valid s) : WF (s.step m op) :=
  (step_rule_view m (fun _ => True) (by simp) (by simp) (by simp) (by simp) (by simp) (by simp) s op hv w trivial).1

theorem WF.run {s : State} (ops : List Op) (w : WF s) (hv : Valid m s ops) : WF (run m s ops) := by
  induction ops generalizing s with
  | nil => exact w
  | cons op ops ih => exact ih (w.step m op hv.1) hv.2

theorem run_rule (I : State → Prop) (h : ∀ s op, op.Valid s → WF s → I s → I (s.step m op)) (s : State) (ops : List Op)
    (w : WF s) (hi : I s) (hv : Valid m s ops) : I (GateLevel.run m s ops) := by
  induction ops generalizing s with
  | nil => exact hi
  | cons op ops ih => exact ih _ (w.step m op hv.1) (h s op hv.1 w hi) hv.2

/-! ## Counting -/

/-- `c` is the number of tiles satisfying `P`, as an unsigned 32-bit number. -/
def CountIs (P : Coord → Prop) (c : BitVec 32) : Prop :=
  ∃ F : Finset Coord, (∀ t, t ∈ F ↔ P t) ∧ c = BitVec.ofNat 32 F.card

theorem CountIs.congr {P Q : Coord → Prop} {c} (h : CountIs P c) (e : ∀ t, P t ↔ Q t) : CountIs Q c := by
  obtain ⟨F, h1, h2⟩ := h
  exact ⟨F, fun t => (h1 t).trans (e t), h2⟩

theorem CountIs.insert {P Q : Coord → Prop} {c} (h : CountIs P c) (t : Coord) (hn : ¬ P t)
    (e : ∀ u, Q u ↔ P u ∨ u = t) : CountIs Q (c + 1) := by
  obtain ⟨F, h1, h2⟩ := h
  refine ⟨Insert.insert t F, fun u => by rw [Finset.mem_insert, h1, e]; exact or_comm, ?_⟩
  rw [Finset.card_insert_of_notMem (by rw [h1]; exact hn), h2]
  apply BitVec.eq_of_toNat_eq; simp

theorem CountIs.erase {P Q : Coord → Prop} {c} (h : CountIs P c) (t : Coord) (hn : P t)
    (e : ∀ u, Q u ↔ P u ∧ u ≠ t) : CountIs Q (c - 1) := by
  obtain ⟨F, h1, h2⟩ := h
  refine ⟨F.erase t, fun u => by rw [Finset.mem_erase, h1, e]; exact and_comm, ?_⟩
  have hm : t ∈ F := (h1 t).2 hn
  have := Finset.card_erase_add_one hm
  rw [h2, ← this]
  apply BitVec.eq_of_toNat_eq; simp [BitVec.toNat_sub]; omega

theorem CountIs.unique {P : Coord → Prop} {c} (h : CountIs P c) (F : Finset Coord) (hF : ∀ t, t ∈ F ↔ P t) :
    c = BitVec.ofNat 32 F.card := by
  obtain ⟨G, h1, h2⟩ := h
  have : F = G := by ext t; rw [hF, h1]
  rw [this]; exact h2

end Verif.GateLevel
