import Verif.GateLevel.IoProps

/-! # Property C49: enumeration of nodes -/
namespace Verif.GateLevel

open Verif.Layouts Verif.Clocking

variable (m : Dim)

/-- Spec: the number of child arguments in a history. -/
def childArgs : Op → Nat
  | .createPo _ _ => 1
  | .createGate _ cs _ => cs.length
  | .move _ _ cs => cs.length
  | _ => 0

def Op.isMove : Op → Bool
  | .move _ _ _ => true
  | _ => false

private theorem clear_h1 (s : State) (t n) : ((s.clearTile m t).nodes n).h1 =
    if s.tileNode t = some n ∧ 2 ≤ n then (s.nodes n).h1 ||| 0x80000000#32 else (s.nodes n).h1 := by
  unfold State.clearTile
  cases e : s.tileNode t with
  | none => simp
  | some k =>
    have key : ∀ s1 : State, s1.nodes = s.nodes → ((s1.kill k).nodes n).h1 =
        if some k = some n ∧ 2 ≤ n then (s.nodes n).h1 ||| 0x80000000#32 else (s.nodes n).h1 := by
      intro s1 h1
      unfold State.kill isConstant
      by_cases hk : k ≤ 1
      · rw [if_pos (by simpa using hk), if_neg, h1]
        rintro ⟨h, h'⟩; cases h; omega
      · rw [if_neg (by simpa using hk)]
        simp only [State.modNode, h1, Option.some.injEq]
        by_cases e : n = k
        · subst e; simp; omega
        · rw [if_neg e, if_neg (fun h => e h.1.symm)]
    apply key
    split_ifs <;> rfl

private theorem assign_h1 (s : State) (t k n) : ((s.assignNode m t k).nodes n).h1 =
    if t.d = false ∧ s.tileNode t = some n ∧ 2 ≤ n then (s.nodes n).h1 ||| 0x80000000#32 else (s.nodes n).h1 := by
  cases ht : t.d with
  | true => rw [assign_dead m ht]; simp
  | false => rw [assign_nodes m ht, clear_h1]; simp

private theorem ref_h1 (s : State) (c n) : ((s.ref c).nodes n).h1 =
    if n = s.getNode c then (s.nodes n).h1 + 1 else (s.nodes n).h1 := by
  simp only [State.ref, State.modNode]; split_ifs <;> rfl

private theorem inc_le (x : BitVec 32) : (x + 1).toNat ≤ x.toNat + 1 := by
  rw [BitVec.toNat_add]; exact Nat.mod_le _ _

private theorem refs_le (l : List Coord) : ∀ (s : State) n, ((l.foldl State.ref s).nodes n).h1.toNat ≤ (s.nodes n).h1.toNat + l.length := by
  induction l with
  | nil => intro s n; simp
  | cons c l ih =>
    intro s n
    rw [List.foldl_cons, List.length_cons]
    refine Nat.le_trans (ih _ n) ?_
    have : ((s.ref c).nodes n).h1.toNat ≤ (s.nodes n).h1.toNat + 1 := by
      rw [ref_h1]; split_ifs
      · exact inc_le _
      · omega
    omega

private theorem getNode_ne {s : State} (w : WF s) {n} (h2 : 2 ≤ n) (hn : s.nodeTile n = none) (c) : n ≠ s.getNode c := by
  rintro rfl
  cases e : s.tileNode c with
  | none => simp [State.getNode, e] at h2
  | some k => rw [getNode_some' e] at hn; rw [(w.inv c k).1 e] at hn; simp at hn
where getNode_some' {s : State} {t n} (h : s.tileNode t = some n) : s.getNode t = n := by simp [State.getNode, h]

private theorem refs_same (l : List Coord) : ∀ {s : State} {n}, WF s → 2 ≤ n → s.nodeTile n = none →
    ((l.foldl State.ref s).nodes n).h1 = (s.nodes n).h1 := by
  induction l with
  | nil => intro s n _ _ _; rfl
  | cons c l ih =>
    intro s n w h2 hn
    rw [List.foldl_cons, ih (w.same (.ref s c)) h2 (by rw [(SameView.ref s c).nodeTile]; exact hn), ref_h1,
      if_neg (getNode_ne w h2 hn c)]

/-- What is kept about node `n` through a history without moves. `u`: created without a tile. -/
private def St (u : Bool) (r n : Nat) (s : State) : Prop :=
  n < s.size ∧
  if n ≤ 1 then (s.nodes n).h1.toNat ≤ r
  else if u then s.nodeTile n = none ∧ (s.nodes n).h1 = 0
  else (s.nodeTile n ≠ none ∧ (s.nodes n).h1.toNat ≤ r) ∨ (s.nodeTile n = none ∧ s.isDead n = true)

private theorem St.refs {u r n} {s : State} (w : WF s) (h : St u r n s) (l : List Coord) : St u (r + l.length) n (l.foldl State.ref s) := by
  have hle := refs_le l s n
  have v := SameView.refs l s
  unfold St at *
  rw [v.size, v.nodeTile]
  refine ⟨h.1, ?_⟩
  have h' := h.2
  by_cases h1 : n ≤ 1
  · simp only [if_pos h1] at h' ⊢; omega
  · simp only [if_neg h1] at h' ⊢
    cases u with
    | true =>
      simp only [if_true] at h' ⊢
      exact ⟨h'.1, by rw [refs_same l w (by omega) h'.1]; exact h'.2⟩
    | false =>
      simp only [Bool.false_eq_true, if_false] at h' ⊢
      rcases h' with h' | h'
      · exact .inl ⟨h'.1, by omega⟩
      · refine .inr ⟨h'.1, ?_⟩
        simp only [State.isDead]; rw [refs_same l w (by omega) h'.1]; exact h'.2

private theorem St.clear {u r n} {s : State} (w : WF s) (h : St u r n s) (t) : St u r n (s.clearTile m t) := by
  unfold St at *
  rw [clear_size, clear_nodeTile]
  simp only [State.isDead, clear_h1]
  refine ⟨h.1, ?_⟩
  have h' := h.2
  by_cases h1 : n ≤ 1
  · simp only [if_pos h1] at h' ⊢
    rw [if_neg (by omega)]; exact h'
  · simp only [if_neg h1] at h' ⊢
    have h2 : 2 ≤ n := by omega
    cases u with
    | true =>
      simp only [if_true] at h' ⊢
      have : s.tileNode t ≠ some n := by intro e; rw [(w.inv t n).1 e] at h'; simp at h'
      simp only [this, if_false, false_and]; exact h'
    | false =>
      simp only [Bool.false_eq_true, if_false, State.isDead] at h' ⊢
      by_cases e : s.tileNode t = some n
      · rw [if_pos e, if_pos ⟨e, h2⟩]; right; simp
      · rw [if_neg e, if_neg (fun k => e k.1)]; exact h'

private theorem St.assign {u r n} {s : State} (w : WF s) (h : St u r n s) (t k) (hk : n ≠ k) : St u r n (s.assignNode m t k) := by
  cases ht : t.d with
  | true => rw [assign_dead m ht]; exact h
  | false =>
    have := h.clear m w t
    unfold St at *
    rw [assign_size m ht, assign_nodeTile m ht, if_neg hk]
    rw [clear_size, clear_nodeTile] at this
    simpa only [State.isDead, assign_nodes m ht] using this

private theorem St.push {u r n} {s : State} (h : St u r n s) (d) : St u r n (s.push d) := by
  have hn := h.1
  unfold St at *
  refine ⟨Nat.lt_succ_of_lt hn, ?_⟩
  have : (s.push d).nodes n = s.nodes n := by simp only [State.push]; rw [if_neg (by omega)]
  simp only [State.isDead, this]
  exact h.2

private theorem St.children {u r n} {s : State} (h : St u r n s) (k) (f : Node → List Coord) :
    St u r n (s.modNode k (fun d => { d with children := f d })) := by
  unfold St at *
  have : ∀ j, ((s.modNode k (fun d => { d with children := f d })).nodes j).h1 = (s.nodes j).h1 := by
    intro j; simp only [State.modNode]; split_ifs <;> rfl
  simp only [State.isDead, this]
  exact h

/-- A node created by an operation. -/
private theorem St.new {s : State} (w : WF s) {s1 : State} (w1 : WF s1) (hs : s1.size = s.size + 1) (t : Coord)
    (h0 : (s1.nodes s.size).h1.toNat = 0) (hn : s1.nodeTile s.size = none) : St t.d 0 s.size (s1.assignNode m t s.size) := by
  have w2 := w.two
  have hne : s1.tileNode t ≠ some s.size := by intro e; rw [(w1.inv t _).1 e] at hn; simp at hn
  have e0 : (s1.nodes s.size).h1 = 0 := BitVec.eq_of_toNat_eq (by simpa using h0)
  unfold St
  rw [assign_size', hs]
  refine ⟨Nat.lt_succ_self _, ?_⟩
  rw [if_neg (by omega)]
  have e1 : ((s1.assignNode m t s.size).nodes s.size).h1 = 0 := by
    rw [assign_h1, if_neg (fun h => hne h.2.1)]; exact e0
  cases ht : t.d with
  | true => simp only [if_true]; exact ⟨by rw [assign_dead m ht]; exact hn, e1⟩
  | false =>
    rw [if_neg (by simp)]
    left
    rw [assign_nodeTile m ht, if_pos rfl, e1]
    simp

private theorem St.mono {u r r' n} {s : State} (h : St u r n s) (hr : r ≤ r') : St u r' n s := by
  unfold St at *
  refine ⟨h.1, ?_⟩
  have := h.2
  split_ifs at this ⊢
  · omega
  · exact this
  · rcases this with a | a
    · exact .inl ⟨a.1, by omega⟩
    · exact .inr a

private theorem St.step {u r n} {s : State} (w : WF s) (h : St u r n s) (op : Op) (hm : op.isMove = false) :
    St u (r + childArgs op) n (s.step m op) := by
  have hne : n ≠ s.size := Nat.ne_of_lt h.1
  cases op with
  | createPi t =>
    have q : St u r n { s.push { fn := 2 } with inputs := s.inputs ++ [s.size] } := h.push _
    exact q.assign m ((w.push _).inputs _) t _ hne
  | createPo c t =>
    have q : St u r n { s.push { fn := 2 } with outputs := s.outputs ++ [t] } := h.push _
    have w1 : WF { s.push { fn := 2 } with outputs := s.outputs ++ [t] } := (w.push _).outputs _
    have w2 : WF (State.assignNode m { s.push { fn := 2 } with outputs := s.outputs ++ [t] } t s.size) := by
      cases ht : t.d with
      | true => rw [assign_dead m ht]; exact w1
      | false => exact w1.assign m ht w.two (Nat.lt_succ_self _) (w.fresh (Nat.le_refl _))
    exact ((q.assign m w1 t _ hne).refs w2 [c]).children s.size (fun d => d.children ++ [c])
  | createGate lit cs t =>
    have v := SameView.refs cs (s.push { children := cs, fn := lit })
    exact ((h.push _).refs (w.push _) cs).assign m ((w.push _).same v) t _ hne
  | connect c k =>
    simp only [State.step, State.connect]
    split
    · exact h
    · exact h.children k (fun d => d.children ++ [c])
  | clear t => exact h.clear m w t
  | move k t cs => simp [Op.isMove] at hm

/-- Status right after creation. -/
private theorem St.created {s : State} (w : WF s) (op : Op) (hm : op.creates.isSome = true) :
    ∃ t, op.target = some t ∧ St t.d (childArgs op) s.size (s.step m op) := by
  have w2 := w.two
  cases op with
  | createPi t =>
    refine ⟨t, rfl, ?_⟩
    exact St.new m w ((w.push { fn := 2 }).inputs (s.inputs ++ [s.size])) rfl t (by simp [State.push]) (w.fresh (Nat.le_refl _))
  | createPo c t =>
    refine ⟨t, rfl, ?_⟩
    have w1 : WF { s.push { fn := 2 } with outputs := s.outputs ++ [t] } := (w.push _).outputs _
    have w2' : WF (State.assignNode m { s.push { fn := 2 } with outputs := s.outputs ++ [t] } t s.size) := by
      cases ht : t.d with
      | true => rw [assign_dead m ht]; exact w1
      | false => exact w1.assign m ht w.two (Nat.lt_succ_self _) (w.fresh (Nat.le_refl _))
    have q := St.new m w w1 rfl t (by simp [State.push]) (w.fresh (Nat.le_refl _))
    have := (q.refs w2' [c]).children s.size (fun d => d.children ++ [c])
    exact this
  | createGate lit cs t =>
    refine ⟨t, rfl, ?_⟩
    have v := SameView.refs cs (s.push { children := cs, fn := lit })
    have hn : (s.push { children := cs, fn := lit }).nodeTile s.size = none := w.fresh (Nat.le_refl _)
    have q := St.new m w ((w.push _).same v) v.size t (by rw [refs_same cs (w.push _) w2 hn]; simp [State.push])
      (by rw [v.nodeTile]; exact hn)
    exact q.mono (Nat.zero_le _)
  | connect c k => simp [Op.creates] at hm
  | clear t => simp [Op.creates] at hm
  | move k t cs => simp [Op.creates] at hm

private theorem valid_append (a b : List Op) : ∀ s, Valid m s (a ++ b) → Valid m s a ∧ Valid m (run m s a) b := by
  induction a with
  | nil => intro s h; exact ⟨trivial, h⟩
  | cons o a ih => intro s h; exact ⟨⟨h.1, (ih _ h.2).1⟩, (ih _ h.2).2⟩

/-- C49 (partial). For histories without `move_node` and with less than 2^31 child arguments, `foreach_node` enumerates the
constants, the nodes that sit on a tile, and the nodes that were created without one; it skips exactly the nodes that lost
their tile. Missing: histories with `move_node`, for which this is false (`C49_moved_child_skipped`). -/
theorem C49_enumeration_partial (ops : List Op) (hv : Valid m init ops) (hm : ∀ op ∈ ops, op.isMove = false)
    (hr : (ops.map childArgs).sum < 2 ^ 31) (n : Nat) :
    let s := run m init ops
    n ∈ s.allNodes ↔ n ≤ 1 ∨
      ∃ i op t, n = i + 2 ∧ (created ops)[i]? = some op ∧ op.target = some t ∧ (t.d = true ∨ (s.getTile n).d = false) := by
  have main : ∀ ops : List Op, Valid m init ops → (∀ op ∈ ops, op.isMove = false) →
      (∀ n ≤ 1, St true (ops.map childArgs).sum n (run m init ops)) ∧
      ∀ i op, (created ops)[i]? = some op → ∃ t, op.target = some t ∧ St t.d (ops.map childArgs).sum (i + 2) (run m init ops) := by
    intro ops
    induction ops using List.reverseRecOn with
    | nil =>
      intro _ _
      refine ⟨?_, by simp [created]⟩
      intro n hn
      unfold St
      rw [if_pos hn]
      refine ⟨by simp [run, init]; omega, ?_⟩
      simp only [run, List.foldl_nil, init]
      split_ifs <;> simp
    | append_singleton ops op ih =>
      intro hv hm
      obtain ⟨hv1, hv2, -⟩ := valid_append m ops [op] init hv
      have w : WF (run m init ops) := WF.init.run m ops hv1
      obtain ⟨h1, h2⟩ := ih hv1 (fun o ho => hm o (by simp [ho]))
      have hop := hm op (by simp)
      have e : run m init (ops ++ [op]) = (run m init ops).step m op := by simp [run]
      have es : ((ops ++ [op]).map childArgs).sum = (ops.map childArgs).sum + childArgs op := by simp
      rw [e, es]
      refine ⟨fun n hn => (h1 n hn).step m w op hop, ?_⟩
      intro i o ho
      have hc : created (ops ++ [op]) = created ops ++ created [op] := by simp [created]
      rw [hc] at ho
      by_cases hi : i < (created ops).length
      · rw [List.getElem?_append_left hi] at ho
        obtain ⟨t, ht, hs⟩ := h2 i o ho
        exact ⟨t, ht, hs.step m w op hop⟩
      · rw [List.getElem?_append_right (by omega)] at ho
        cases hcr : op.creates.isSome with
        | false => simp [created, hcr] at ho
        | true =>
          have ec : created [op] = [op] := by simp [created, hcr]
          rw [ec] at ho
          have hi0 : i - (created ops).length = 0 := by
            by_contra hne; rw [List.getElem?_eq_none (by simp; omega)] at ho; simp at ho
          rw [hi0] at ho
          simp only [List.getElem?_cons_zero, Option.some.injEq] at ho
          subst ho
          obtain ⟨t, ht, hs⟩ := St.created m w op hcr
          refine ⟨t, ht, ?_⟩
          have := C19_node_numbers m ops
          have e2 : i + 2 = (run m init ops).size := by omega
          rw [e2]; exact hs.mono (by omega)
  intro s
  obtain ⟨h1, h2⟩ := main ops hv hm
  have w : WF s := WF.init.run m ops hv
  have hsz := C19_node_numbers m ops
  have alive : ∀ x : BitVec 32, x.toNat ≤ (ops.map childArgs).sum → x.getLsbD 31 = false := by
    intro x hx
    exact Nat.testBit_lt_two_pow (Nat.lt_of_le_of_lt hx hr)
  have hmem : n ∈ s.allNodes ↔ n < s.size ∧ s.isDead n = false := by
    simp [State.allNodes]
  rw [hmem]
  by_cases hn : n ≤ 1
  · have hs := h1 n hn
    unfold St at hs
    rw [if_pos hn] at hs
    exact ⟨fun _ => .inl hn, fun _ => ⟨hs.1, alive _ hs.2⟩⟩
  · obtain ⟨i, rfl⟩ : ∃ i, n = i + 2 := ⟨n - 2, by omega⟩
    simp only [hn, false_or]
    have hgt : ∀ j, s.nodeTile (i + 2) = some j → j.d = false := by
      intro j hj
      have := w.live j _ ((w.inv j _).2 hj)
      cases hd : j.d with
      | false => rfl
      | true => have := this.2 hd; omega
    constructor
    · rintro ⟨ha, hb⟩
      have hlt : i < (created ops).length := by
        have : s.size = (created ops).length + 2 := hsz
        omega
      obtain ⟨t, ht, hs⟩ := h2 i _ (List.getElem?_eq_getElem hlt)
      refine ⟨i, _, t, rfl, List.getElem?_eq_getElem hlt, ht, ?_⟩
      unfold St at hs
      rw [if_neg hn] at hs
      cases hd : t.d with
      | true => exact .inl rfl
      | false =>
        right
        rw [hd] at hs
        simp only [Bool.false_eq_true, if_false] at hs
        rcases hs.2 with a | a
        · obtain ⟨j, hj⟩ := Option.ne_none_iff_exists'.1 a.1
          have hj' : s.nodeTile (i + 2) = some j := hj
          simp only [State.getTile, hj', Option.getD_some]
          exact hgt j hj
        · have : s.isDead (i + 2) = true := a.2
          rw [hb] at this; simp at this
    · rintro ⟨i', op, t, e, hop, ht, hor⟩
      have : i' = i := by omega
      subst this
      obtain ⟨t', ht', hs⟩ := h2 i' op hop
      rw [ht] at ht'; cases ht'
      unfold St at hs
      rw [if_neg hn] at hs
      refine ⟨hs.1, ?_⟩
      cases hd : t.d with
      | true =>
        rw [hd] at hs
        simp only [if_true] at hs
        have := hs.2.2
        simp only [State.isDead]
        rw [show (s.nodes (i' + 2)).h1 = 0 from this]; rfl
      | false =>
        rw [hd] at hs hor
        simp only [Bool.false_eq_true, if_false, false_or] at hs hor
        rcases hs.2 with a | a
        · exact alive _ a.2
        · have : s.nodeTile (i' + 2) = none := a.1
          simp [State.getTile, this, const0] at hor

example : let ops := demoOps.filter (fun op => !op.isMove)
    (∀ op ∈ ops, op.isMove = false) ∧ (ops.map childArgs).sum < 2 ^ 31 ∧
    (run ⟨3, 3, 1⟩ init ops).allNodes = [0, 1, 3, 4, 5, 7] := by
  refine ⟨?_, by decide, by decide⟩
  intro op h
  simpa using (List.mem_filter.1 h).2

/-- C49. `foreach_wire` and `foreach_gate` enumerate the wire segments and the non-input nodes among the enumerated
non-constant nodes. -/
theorem C49_wires_and_gates (s : State) (n : Nat) :
    (n ∈ s.allWires ↔ n ∈ s.allNodes ∧ 2 ≤ n ∧ (s.nodes n).fn = 2) ∧
    (n ∈ s.allGates ↔ n ∈ s.allNodes ∧ 2 ≤ n ∧ 2 ≤ (s.nodes n).fn ∧ s.isPi n = false) := by
  constructor <;> simp [State.allWires, State.allGates, State.allNodes, State.isWire, State.isGate] <;> grind

/-- C49 is false of the code once nodes are moved: `connect` does not count references but `move_node` uncounts them. After
connecting a gate to a wire segment and moving the gate, the wire segment — still on its tile — has its reference count
wrapped around, so that it is reported dead and skipped by all enumerations. -/
theorem C49_moved_child_skipped :
    let ops : List Op := [.createGate 2 [] ⟨0, 1, 0, false⟩, .createGate 3 [] ⟨1, 1, 0, false⟩,
      .connect ⟨0, 1, 0, false⟩ 3, .move 3 ⟨2, 1, 0, false⟩ []]
    let s := run ⟨3, 3, 1⟩ init ops
    Valid ⟨3, 3, 1⟩ init ops ∧ s.getTile 2 = ⟨0, 1, 0, false⟩ ∧ s.getNode ⟨0, 1, 0, false⟩ = 2 ∧ s.isDead 2 = true ∧
    s.allNodes = [0, 1, 3] ∧ s.allWires = [] ∧ s.numWires = 1 :=
  ⟨⟨trivial, trivial, (by decide : (3 : Nat) < _), ⟨by decide, by decide⟩, trivial⟩, by decide, by decide, by decide, by decide, by decide, by decide⟩

/-- C49 is false of the code also without `connect`: replace the node on a child's tile, then move the parent. -/
theorem C49_replaced_child_skipped :
    let ops : List Op := [.createGate 2 [] ⟨0, 1, 0, false⟩, .createGate 3 [⟨0, 1, 0, false⟩] ⟨1, 1, 0, false⟩,
      .createGate 2 [] ⟨0, 1, 0, false⟩, .move 3 ⟨2, 1, 0, false⟩ []]
    let s := run ⟨3, 3, 1⟩ init ops
    Valid ⟨3, 3, 1⟩ init ops ∧ s.getNode ⟨0, 1, 0, false⟩ = 4 ∧ s.getTile 4 = ⟨0, 1, 0, false⟩ ∧ s.isDead 4 = true ∧
    s.allNodes = [0, 1, 3] :=
  ⟨⟨trivial, trivial, trivial, ⟨by decide, by decide⟩, trivial⟩, by decide, by decide, by decide, by decide⟩

end Verif.GateLevel
