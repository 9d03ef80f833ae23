import Verif.GateLevel.Props
import Mathlib.Data.List.Induction
import Mathlib.Data.List.Nodup
import Mathlib.Data.List.Perm.Basic

/-! # Property C19: registration of primary inputs and outputs -/
namespace Verif.GateLevel

open Verif.Layouts Verif.Clocking

variable (m : Dim)

/-! ## Primary inputs -/

/-- Spec: the operations that create a node; the `i`-th of them creates node `i + 2` (0 and 1 are the constants). -/
def created (ops : List Op) : List Op := ops.filter (fun op => op.creates.isSome)

theorem run_append (s : State) (a b : List Op) : run m s (a ++ b) = run m (run m s a) b := by simp [run]

/-- C19. The `i`-th creating operation creates node `i + 2`. -/
theorem C19_node_numbers (ops : List Op) : (run m init ops).size = (created ops).length + 2 := by
  induction ops using List.reverseRecOn with
  | nil => rfl
  | append_singleton ops op ih =>
    rw [run_append]
    simp only [run, List.foldl_cons, List.foldl_nil]
    rw [step_size]
    have : (run m init ops).size = (created ops).length + 2 := ih
    simp only [run] at this
    rw [this]
    cases h : op.creates <;> simp [created, h]

/-- C19. A node is a primary input iff it was created by `create_pi`, whatever happened since. -/
theorem C19_is_pi (ops : List Op) (i : Nat) :
    (run m init ops).isPi (i + 2) = true ↔ ∃ t, (created ops)[i]? = some (.createPi t) := by
  simp only [State.isPi, List.contains_iff_mem]
  induction ops using List.reverseRecOn with
  | nil => simp [run, init, created]
  | append_singleton ops op ih =>
    have hs := C19_node_numbers m ops
    rw [run_append]
    have e : run m (run m init ops) [op] = (run m init ops).step m op := rfl
    rw [e, step_inputs, List.mem_append, ih, hs]
    have hc : created (ops ++ [op]) = created ops ++ created [op] := by simp [created]
    rw [hc]
    cases op with
    | createPi t =>
      have : created [Op.createPi t] = [.createPi t] := rfl
      simp only [this, List.mem_singleton]
      by_cases h : i < (created ops).length
      · rw [List.getElem?_append_left h]
        simp only [or_iff_left_iff_imp]
        intro h'; omega
      · by_cases h' : i = (created ops).length
        · subst h'; simp
        · rw [List.getElem?_eq_none (by omega), List.getElem?_eq_none (by simp; omega)]
          simp; omega
    | createPo c t =>
      have : created [Op.createPo c t] = [.createPo c t] := rfl
      simp only [this]
      by_cases h : i < (created ops).length
      · simp [List.getElem?_append_left h]
      · rw [List.getElem?_append_right (by omega), List.getElem?_eq_none (Nat.le_of_not_lt h)]
        rcases Nat.eq_zero_or_pos (i - (created ops).length) with h' | h'
        · simp [h']
        · rw [List.getElem?_eq_none (by simp; omega)]; simp
    | createGate lit cs t =>
      have : created [Op.createGate lit cs t] = [.createGate lit cs t] := rfl
      simp only [this]
      by_cases h : i < (created ops).length
      · simp [List.getElem?_append_left h]
      · rw [List.getElem?_append_right (by omega), List.getElem?_eq_none (Nat.le_of_not_lt h)]
        rcases Nat.eq_zero_or_pos (i - (created ops).length) with h' | h'
        · simp [h']
        · rw [List.getElem?_eq_none (by simp; omega)]; simp
    | connect c n => simp [created, Op.creates]
    | move n t cs => simp [created, Op.creates]
    | clear t => simp [created, Op.creates]

/-- C19. `num_pis` is the number of `create_pi` calls. -/
theorem C19_num_pis (ops : List Op) :
    (run m init ops).inputs.length = (ops.filter (fun op => match op with | .createPi _ => true | _ => false)).length := by
  induction ops using List.reverseRecOn with
  | nil => rfl
  | append_singleton ops op ih =>
    rw [run_append]
    have e : run m (run m init ops) [op] = (run m init ops).step m op := rfl
    rw [e, step_inputs, List.length_append, ih]
    cases op <;> simp

example : (run ⟨3, 3, 1⟩ init demoOps).isPi 3 = true ∧ (run ⟨3, 3, 1⟩ init demoOps).isPi 4 = false ∧
    (run ⟨3, 3, 1⟩ init demoOps).inputs.length = 2 := by decide

/-- C19 is false of the code: a cleared primary input is still counted, so `num_pis` is not the number of primary inputs
on the layout. -/
theorem C19_cleared_pi_counted :
    let ops : List Op := [.createPi ⟨0, 1, 0, false⟩, .clear ⟨0, 1, 0, false⟩]
    Valid ⟨3, 3, 1⟩ init ops ∧ (run ⟨3, 3, 1⟩ init ops).inputs.length = 1 ∧ (run ⟨3, 3, 1⟩ init ops).isPi 2 = true ∧
    (run ⟨3, 3, 1⟩ init ops).isDead 2 = true := ⟨⟨trivial, trivial, trivial⟩, by decide, by decide, by decide⟩

/-! ## Primary outputs -/

/-- Spec: the primary outputs after an operation, given those before. A primary output is one from its creation until its
tile is cleared, is taken by another node, or until it is moved off the layout. -/
def posAfter (s : State) (P : List Nat) : Op → List Nat
  | .createPo _ t => P.filter (· ≠ s.getNode t) ++ [s.size]
  | .createPi t => if t.d then P else P.filter (· ≠ s.getNode t)
  | .createGate _ _ t => if t.d then P else P.filter (· ≠ s.getNode t)
  | .move n t _ => if t = s.getTile n then P else if t.d then P.filter (· ≠ n) else P.filter (· ≠ s.getNode t)
  | .clear t => P.filter (· ≠ s.getNode t)
  | .connect _ _ => P

/-- Spec: the primary outputs after a history. -/
def pos : State → List Nat → List Op → List Nat
  | _, P, [] => P
  | s, P, op :: ops => pos (s.step m op) (posAfter s P op) ops

/-- The situations in which the code keeps track correctly: primary outputs are created on live tiles, and neither created
on nor moved onto a tile that hosts a wire segment which is not itself a primary output. -/
def PoSafe (s : State) (P : List Nat) : Op → Prop
  | .createPo _ t => t.d = false ∧ (s.isEmptyTile t = false → s.isWireTile t = true → s.getNode t ∈ P)
  | .move n t _ => n ∈ P → t.d = false → t ≠ s.getTile n → (s.isEmptyTile t = false → s.isWireTile t = true → s.getNode t ∈ P)
  | _ => True

/-- … in all states of a history. -/
def PoSafeAll : State → List Nat → List Op → Prop
  | _, _, [] => True
  | s, P, op :: ops => PoSafe s P op ∧ PoSafeAll (s.step m op) (posAfter s P op) ops

private structure Q (s : State) (P : List Nat) : Prop where
  nodup : s.outputs.Nodup
  nodupP : P.Nodup
  mem : ∀ p, p ∈ s.outputs ↔ p.d = false ∧ ∃ n ∈ P, s.tileNode p = some n
  placed : ∀ n ∈ P, 2 ≤ n ∧ s.fnOf n = 2 ∧ ∃ t, s.nodeTile n = some t

private theorem Q.same {s s' : State} {P} (v : SameView s s') (h : Q s P) : Q s' P := by
  refine ⟨?_, h.nodupP, ?_, ?_⟩
  · rw [v.outputs]; exact h.nodup
  · rw [v.outputs, v.tileNode]; exact h.mem
  · rw [v.fnOf, v.nodeTile]; exact h.placed

private theorem eraseFirst_eq (t : Coord) (p : Coord → Bool) (l : List Coord) (h : ∀ x ∈ l, p x = true ↔ x = t) :
    eraseFirst p l = l.erase t := by
  induction l with
  | nil => rfl
  | cons a l ih =>
    simp only [eraseFirst, List.erase_cons]
    have := h a (by simp)
    by_cases e : a = t
    · rw [if_pos (this.2 e)]; simp [e]
    · rw [if_neg (fun k => e (this.1 k)), ih (fun x hx => h x (by simp [hx]))]; simp [e]

private theorem eraseFirst_none (p : Coord → Bool) (l : List Coord) (h : ∀ x ∈ l, p x = false) : eraseFirst p l = l := by
  induction l with
  | nil => rfl
  | cons a l ih =>
    simp only [eraseFirst]
    rw [if_neg (by simp [h a (by simp)]), ih (fun x hx => h x (by simp [hx]))]

private theorem filter_ne_self (P : List Nat) (k : Nat) (h : k ∉ P) : P.filter (· ≠ k) = P := by
  rw [List.filter_eq_self]; intro a ha; simp; rintro rfl; exact h ha

private theorem getNode_some {s : State} {t n} (h : s.tileNode t = some n) : s.getNode t = n := by simp [State.getNode, h]

private theorem Q.clear_outputs {s : State} {P} (w : WF s) (h : Q s P) {t k} (e : s.tileNode t = some k) :
    (s.clearTile m t).outputs = s.outputs.erase t := by
  have hk : s.nodeTile k = some t := (w.inv t k).1 e
  rw [GateLevel.clear_outputs m e]
  by_cases ht : t.d = false ∧ s.fnOf k = 2
  · rw [if_pos ht]
    refine eraseFirst_eq t _ _ ?_
    intro x hx
    obtain ⟨-, n, -, hn⟩ := (h.mem x).1 hx
    rw [getNode_some hn]
    simp only [beq_iff_eq]
    constructor
    · rintro rfl; have := (w.inv x n).1 hn; rw [hk] at this; exact (Option.some.inj this).symm
    · rintro rfl; rw [e] at hn; exact (Option.some.inj hn).symm
  · rw [if_neg ht, List.erase_of_not_mem]
    intro hm
    obtain ⟨hd, n, hP, hn⟩ := (h.mem t).1 hm
    rw [e] at hn; cases hn
    exact ht ⟨hd, (h.placed k hP).2.1⟩

/-- Clearing a tile. -/
private theorem Q.clear {s : State} {P} (w : WF s) (h : Q s P) (t) : Q (s.clearTile m t) (P.filter (· ≠ s.getNode t)) := by
  cases e : s.tileNode t with
  | none =>
    rw [clear_none m e, filter_ne_self]
    · exact h
    · have : s.getNode t = 0 := by simp [State.getNode, e]
      rw [this]; intro h0; have := (h.placed 0 h0).1; omega
  | some k =>
    rw [getNode_some e]
    have hk : s.nodeTile k = some t := (w.inv t k).1 e
    have hout := h.clear_outputs m w e
    refine ⟨?_, h.nodupP.filter _, ?_, ?_⟩
    · rw [hout]; exact h.nodup.erase t
    · intro p
      rw [hout, h.nodup.mem_erase_iff, h.mem]
      simp only [clear_tileNode, List.mem_filter, decide_eq_true_eq, ne_eq]
      constructor
      · rintro ⟨hne, hd, n, hP, hn⟩
        refine ⟨hd, n, ⟨hP, ?_⟩, by rw [if_neg hne]; exact hn⟩
        rintro rfl; have := (w.inv p n).1 hn; rw [hk] at this; exact hne (Option.some.inj this).symm
      · rintro ⟨hd, n, ⟨hP, hne⟩, hn⟩
        split_ifs at hn with e'
        exact ⟨e', hd, n, hP, hn⟩
    · intro n hn
      simp only [List.mem_filter, decide_eq_true_eq, ne_eq] at hn
      obtain ⟨h1, h2, u, h3⟩ := h.placed n hn.1
      refine ⟨h1, by rw [clear_fnOf]; exact h2, u, ?_⟩
      rw [clear_nodeTile, if_neg, h3]
      rw [e]; intro h'; exact hn.2 (Option.some.inj h').symm

/-- Placing a node that is no primary output. -/
private theorem Q.assign {s : State} {P} (w : WF s) (h : Q s P) {t : Coord} (ht : t.d = false) {n : Nat} (hn : n ∉ P) :
    Q (s.assignNode m t n) (P.filter (· ≠ s.getNode t)) := by
  have hc := h.clear m w t
  have h0 : (s.clearTile m t).tileNode t = none := by rw [clear_tileNode, if_pos rfl]
  refine ⟨by rw [assign_outputs m ht]; exact hc.nodup, hc.nodupP, ?_, ?_⟩
  · intro p
    rw [assign_outputs m ht, hc.mem]
    refine and_congr_right fun hp => exists_congr fun k => and_congr_right fun hk => ?_
    rw [clear_tileNode, assign_tileNode m ht]
    split_ifs with e
    · simp only [reduceCtorEq, false_iff, Option.some.injEq]
      rintro rfl; exact hn (List.mem_of_mem_filter hk)
    · rfl
  · intro k hk
    obtain ⟨h1, h2, u, h3⟩ := hc.placed k hk
    refine ⟨h1, by rw [assign_fnOf m ht]; rw [clear_fnOf] at h2; exact h2, u, ?_⟩
    rw [clear_nodeTile] at h3
    rw [assign_nodeTile m ht, if_neg]
    · exact h3
    · rintro rfl; exact hn (List.mem_of_mem_filter hk)

/-- Placing the primary output `n` on `t`, where its entry in the output list has been prepared: the list holds `t` and the
entries `A` of the other primary outputs. -/
private theorem Q.place {s : State} {P : List Nat} {A : List Coord} (w : WF s) {t : Coord} (ht : t.d = false) {n : Nat}
    (h2 : 2 ≤ n) (hf : s.fnOf n = 2) (hu : s.nodeTile n = none)
    (hQ : Q { s with outputs := A } P) (hn : n ∉ P) (hp : s.outputs.Perm (t :: A))
    (hs : s.isEmptyTile t = false → s.isWireTile t = true → s.getNode t ∈ P) (P' : List Nat)
    (hP' : P'.Perm (P.filter (· ≠ s.getNode t) ++ [n])) : Q (s.assignNode m t n) P' := by
  have hA : ∀ p, p ∈ A ↔ p.d = false ∧ ∃ n ∈ P, s.tileNode p = some n := hQ.mem
  have hnd : A.Nodup := hQ.nodup
  have hpl : ∀ n ∈ P, 2 ≤ n ∧ s.fnOf n = 2 ∧ ∃ t, s.nodeTile n = some t := hQ.placed
  -- the resulting list is `t` and the entries in `A` other than `t`
  have hout : (s.assignNode m t n).outputs.Perm (t :: A.erase t) := by
    rw [assign_outputs m ht]
    cases e : s.tileNode t with
    | none =>
      rw [clear_none m e, List.erase_of_not_mem]
      · exact hp
      · intro hm; obtain ⟨-, k, -, hk⟩ := (hA t).1 hm; rw [e] at hk; simp at hk
    | some k =>
      rw [GateLevel.clear_outputs m e]
      have hk : s.nodeTile k = some t := (w.inv t k).1 e
      have hkP : s.fnOf k = 2 → k ∈ P := by
        intro hw
        have := hs ((empty_iff w ht).2 ⟨k, e⟩) (by simp [State.isWireTile, getNode_some e, State.isWire]; exact hw)
        rwa [getNode_some e] at this
      by_cases hw : s.fnOf k = 2
      · rw [if_pos ⟨ht, hw⟩, eraseFirst_eq t]
        · have htA : t ∈ A := (hA t).2 ⟨ht, k, hkP hw, e⟩
          have h1 := hp.erase t
          simp only [List.erase_cons_head] at h1
          exact h1.trans (List.perm_cons_erase htA)
        · intro x hx
          rw [hp.mem_iff] at hx
          simp only [beq_iff_eq]
          rcases List.mem_cons.1 hx with rfl | hx
          · simp [getNode_some e]
          · obtain ⟨-, j, -, hj⟩ := (hA x).1 hx
            rw [getNode_some hj]
            constructor
            · rintro rfl; have := (w.inv x j).1 hj; rw [hk] at this; exact (Option.some.inj this).symm
            · rintro rfl; rw [e] at hj; exact (Option.some.inj hj).symm
      · rw [if_neg (fun h => hw h.2), List.erase_of_not_mem]
        · exact hp
        · intro hm
          obtain ⟨-, j, hj, hj'⟩ := (hA t).1 hm
          rw [e] at hj'; cases hj'; exact hw (hpl k hj).2.1
  have hmemP : ∀ k, k ∈ P' ↔ (k ∈ P ∧ k ≠ s.getNode t) ∨ k = n := by
    intro k; rw [hP'.mem_iff]; simp
  refine ⟨hout.nodup_iff.2 ?_, hP'.nodup_iff.2 ?_, ?_, ?_⟩
  · rw [List.nodup_cons]; exact ⟨fun h => (hnd.mem_erase_iff.1 h).1 rfl, hnd.erase t⟩
  · rw [List.nodup_append]
    refine ⟨hQ.nodupP.filter _, by simp, ?_⟩
    intro a ha b hb
    simp only [List.mem_singleton] at hb
    rintro rfl; subst hb; exact hn (List.mem_of_mem_filter ha)
  · intro p
    rw [hout.mem_iff, List.mem_cons, hnd.mem_erase_iff, hA]
    simp only [assign_tileNode m ht, hmemP]
    constructor
    · rintro (rfl | ⟨hne, hd, k, hk, hk'⟩)
      · exact ⟨ht, n, .inr rfl, by simp⟩
      · refine ⟨hd, k, .inl ⟨hk, ?_⟩, by rw [if_neg hne]; exact hk'⟩
        rintro rfl
        cases e : s.tileNode t with
        | none =>
          have : s.getNode t = 0 := by simp [State.getNode, e]
          rw [this] at hk; have := (hpl 0 hk).1; omega
        | some j =>
          rw [getNode_some e] at hk'
          have a := (w.inv p j).1 hk'; rw [(w.inv t j).1 e] at a
          exact hne (Option.some.inj a).symm
    · rintro ⟨hd, k, hk, hk'⟩
      split_ifs at hk' with e
      · exact .inl e
      · refine .inr ⟨e, hd, k, ?_, hk'⟩
        rcases hk with hk | rfl
        · exact hk.1
        · rw [(w.inv p k).1 hk'] at hu; simp at hu
  · intro k hk
    rcases (hmemP k).1 hk with ⟨hk, hne⟩ | rfl
    · obtain ⟨a, b, u, c⟩ := hpl k hk
      refine ⟨a, by rw [assign_fnOf m ht]; exact b, u, ?_⟩
      rw [assign_nodeTile m ht, if_neg, if_neg]
      · exact c
      · intro e; exact hne (getNode_some e).symm
      · rintro rfl; exact hn hk
    · exact ⟨h2, by rw [assign_fnOf m ht]; exact hf, t, by rw [assign_nodeTile m ht, if_pos rfl]⟩

private theorem Q.push {s : State} {P} (w : WF s) (h : Q s P) (d) : Q (s.push d) P := by
  refine ⟨h.nodup, h.nodupP, h.mem, ?_⟩
  intro n hn
  obtain ⟨a, b, t, c⟩ := h.placed n hn
  exact ⟨a, by rw [push_fn w d t n ((w.inv t n).2 c)]; exact b, t, c⟩

private theorem Q.lt {s : State} {P} (w : WF s) (h : Q s P) {n} (hn : n ∈ P) : n < s.size := by
  obtain ⟨-, -, t, c⟩ := h.placed n hn
  exact w.lt t n ((w.inv t n).2 c)

private theorem replace_perm (l : List Coord) (hl : l.Nodup) (a b : Coord) (ha : a ∈ l) :
    (l.map (fun p => if p = a then b else p)).Perm (b :: l.erase a) := by
  have h1 := (List.perm_cons_erase ha).map (fun p => if p = a then b else p)
  refine h1.trans ?_
  simp only [List.map_cons, if_true]
  have : (l.erase a).map (fun p => if p = a then b else p) = l.erase a := by
    conv => rhs; rw [← List.map_id (l.erase a)]
    refine List.map_congr_left ?_
    intro x hx
    rw [if_neg (hl.mem_erase_iff.1 hx).1]; rfl
  rw [this]

private theorem replace_self (l : List Coord) (a b : Coord) (ha : a ∉ l) :
    l.map (fun p => if p = a then b else p) = l := by
  conv => rhs; rw [← List.map_id l]
  refine List.map_congr_left ?_
  intro x hx
  rw [if_neg (by rintro rfl; exact ha hx)]; rfl

private theorem Q.step {s : State} {P} (w : WF s) (h : Q s P) (op : Op) (hv : op.Valid s) (hs : PoSafe s P op) :
    Q (s.step m op) (posAfter s P op) := by
  have w2 := w.two
  have hsz : s.size ∉ P := fun k => Nat.lt_irrefl _ (h.lt w k)
  have plain : ∀ (s1 : State) t n, WF s1 → Q s1 P → s1.tileNode = s.tileNode → n ∉ P →
      Q (s1.assignNode m t n) (if t.d then P else P.filter (· ≠ s.getNode t)) := by
    intro s1 t n w1 h1 e hn
    have e' : s.getNode t = s1.getNode t := by simp [State.getNode, e]
    cases ht : t.d with
    | true => rw [assign_dead m ht, if_pos rfl]; exact h1
    | false => rw [if_neg (by simp), e']; exact h1.assign m w1 ht hn
  cases op with
  | createPi t =>
    have q : Q { s.push { fn := 2 } with inputs := s.inputs ++ [s.size] } P := by
      have := h.push w { fn := 2 }
      exact ⟨this.1, this.2, this.3, this.4⟩
    exact plain _ t s.size ((w.push _).inputs _) q rfl hsz
  | createGate lit cs t =>
    have v := SameView.refs cs (s.push { children := cs, fn := lit })
    exact plain _ t s.size ((w.push _).same v) ((h.push w _).same v) v.tileNode hsz
  | createPo c t =>
    obtain ⟨ht, hs⟩ := hs
    have hq := h.push w { fn := 2 }
    have q := Q.place m (s := { s.push { fn := 2 } with outputs := s.outputs ++ [t] }) (P := P) (A := s.outputs)
      ((w.push _).outputs _) ht w2 (by simp [State.fnOf, State.push]) (w.fresh (Nat.le_refl _))
      ⟨hq.1, hq.2, hq.3, hq.4⟩ hsz (List.perm_append_singleton t s.outputs) (by
        intro a b
        refine hs a ?_
        obtain ⟨k, hk⟩ := (empty_iff w ht).1 a
        have := push_fn w { fn := 2 } t k hk
        have e : s.getNode t = k := getNode_some hk
        have e' : State.getNode { s.push { fn := 2 } with outputs := s.outputs ++ [t] } t = k := getNode_some hk
        simp only [State.isWireTile, e'] at b
        simp only [State.isWireTile, e]
        simp only [State.isWire, State.fnOf] at this b ⊢
        rw [← this]; exact b) _ (List.Perm.refl _)
    exact (q.same (.ref _ c)).same (.mod _ s.size (fun d => { d with children := d.children ++ [c] }) (fun _ => rfl))
  | connect c n =>
    simp only [State.step, State.connect, posAfter]
    split
    · exact h
    · exact h.same (.mod _ _ _ (fun _ => rfl))
  | clear t => exact h.clear m w t
  | move n t cs =>
    obtain ⟨h2, hn⟩ := hv
    simp only [State.step, State.moveNode, posAfter]
    refine Q.same (.refs cs _) (Q.same (.mod _ _ _ (fun _ => rfl)) ?_)
    have v := (SameView.unrefs (s.nodes n).children s).trans
      (.mod ((s.nodes n).children.foldl State.unref s) n (fun d => { d with children := [] }) (fun _ => rfl))
    have ws := w.same v
    have q := h.same v
    generalize ((s.nodes n).children.foldl State.unref s).modNode n (fun d => { d with children := [] }) = s2 at v ws q ⊢
    have g : ∀ u, s.getNode u = s2.getNode u := fun u => by simp [State.getNode, v.tileNode]
    have gt : s.getTile n = s2.getTile n := by simp [State.getTile, v.nodeTile]
    have hn2 : n < s2.size := by rw [v.size]; exact hn
    have hs2 : n ∈ P → t.d = false → t ≠ s2.getTile n → (s2.isEmptyTile t = false → s2.isWireTile t = true → s2.getNode t ∈ P) := by
      intro a b c d e
      rw [← g]
      refine hs a b (gt ▸ c) ?_ ?_
      · simpa [State.isEmptyTile, g] using d
      · have := congrFun v.fnOf (s2.getNode t)
        simp only [State.fnOf] at this
        simp only [State.isWireTile, State.isWire, g] at e ⊢
        rw [← this]; exact e
    rw [gt, g t]
    clear hs g gt h w hsz plain v hn w2
    by_cases ht0 : t = s2.getTile n
    · rw [if_pos ht0, if_pos ht0]; exact q
    · rw [if_neg ht0, if_neg ht0]
      refine Q.same (.revive _ _) ?_
      -- what clearing the old tile removes
      have hold : P.filter (· ≠ s2.getNode (s2.getTile n)) = P.filter (· ≠ n) := by
        cases e : s2.nodeTile n with
        | some u => rw [show s2.getTile n = u by simp [State.getTile, e], getNode_some ((ws.inv u n).2 e)]
        | none =>
          have hnP : n ∉ P := by intro k; obtain ⟨-, -, u, hu⟩ := q.placed n k; rw [e] at hu; simp at hu
          rw [filter_ne_self P n hnP, filter_ne_self]
          have e0 : s2.getTile n = const0 := by simp [State.getTile, e]
          rw [e0]
          intro hk
          have hk2 := (q.placed _ hk).1
          cases e1 : s2.tileNode const0 with
          | none => simp [State.getNode, e1] at hk2
          | some j =>
            have := (ws.live const0 j e1).2 rfl
            rw [getNode_some e1] at hk2; omega
      have hunpl := ws.unplaced m n
      have gold : (s2.clearTile m (s2.getTile n)).getNode t = s2.getNode t := by
        simp [State.getNode, clear_tileNode, ht0]
      cases ht : t.d with
      | true =>
        rw [if_pos rfl, if_pos rfl, assign_dead m ht, ← hold]
        exact q.clear m ws _
      | false =>
        simp only [Bool.false_eq_true, if_false]
        by_cases hnP : n ∈ P
        · obtain ⟨-, hf, u, hu⟩ := q.placed n hnP
          have eu : s2.getTile n = u := by simp [State.getTile, hu]
          have tu : s2.tileNode u = some n := (ws.inv u n).2 hu
          have ud : u.d = false := by
            have := ws.live u n tu
            cases hd : u.d with
            | false => rfl
            | true => have := this.2 hd; omega
          have huo : u ∈ s2.outputs := (q.mem u).2 ⟨ud, n, hnP, tu⟩
          rw [eu] at ht0 gold hold hunpl ⊢
          have qc := q.clear m ws u
          have co := q.clear_outputs m ws tu
          generalize hs3 : ({ s2 with outputs := s2.outputs.map (fun p => if p = u then t else p) } : State) = s3
          have e3 : s3.tileNode = s2.tileNode ∧ s3.nodeTile = s2.nodeTile ∧ s3.fnOf = s2.fnOf ∧ s3.size = s2.size := by
            subst hs3; exact ⟨rfl, rfl, rfl, rfl⟩
          have w3 : WF s3 := by subst hs3; exact ws.outputs _
          have hgn : n ≠ s2.getNode t := by
            intro e
            cases e1 : s2.tileNode t with
            | none => simp [State.getNode, e1] at e; omega
            | some j =>
              rw [getNode_some e1] at e; subst e
              have := (ws.inv t n).1 e1; rw [hu] at this; exact ht0 (Option.some.inj this).symm
          have o3 : s3.outputs = s2.outputs.map (fun p => if p = u then t else p) := by subst hs3; rfl
          have o4 : (s3.clearTile m u).outputs = s3.outputs := by
            rw [GateLevel.clear_outputs m (e3.1 ▸ tu)]
            have : u.d = false ∧ s3.fnOf n = 2 := ⟨ud, by rw [e3.2.2.1]; exact hf⟩
            rw [if_pos this]
            refine eraseFirst_none _ _ ?_
            intro x hx
            rw [o3, (replace_perm s2.outputs q.nodup u t huo).mem_iff] at hx
            have gx : s3.getNode x = s2.getNode x := by simp [State.getNode, e3.1]
            rw [gx]
            simp only [beq_eq_false_iff_ne, ne_eq]
            rcases List.mem_cons.1 hx with rfl | hx
            · exact fun e => hgn e.symm
            · have hx := q.nodup.mem_erase_iff.1 hx
              obtain ⟨-, j, -, hj⟩ := (q.mem x).1 hx.2
              rw [getNode_some hj]; rintro rfl
              have := (ws.inv x j).1 hj; rw [hu] at this; exact hx.1 (Option.some.inj this).symm
          have gc : ∀ x, (s3.clearTile m u).tileNode x = (s2.clearTile m u).tileNode x := by
            intro x; rw [clear_tileNode, clear_tileNode, e3.1]
          have gn : ∀ x, (s3.clearTile m u).nodeTile x = (s2.clearTile m u).nodeTile x := by
            intro x; rw [clear_nodeTile, clear_nodeTile, e3.1, e3.2.1]
          have gf : (s3.clearTile m u).fnOf = (s2.clearTile m u).fnOf := by rw [clear_fnOf, clear_fnOf, e3.2.2.1]
          have g3 : (s3.clearTile m u).getNode t = s2.getNode t := by rw [← gold]; simp [State.getNode, gc]
          rw [getNode_some tu] at qc
          refine Q.place m (A := s2.outputs.erase u) (P := P.filter (· ≠ n)) (w3.clear m u) ht h2 ?_ ?_ ?_ ?_ ?_ ?_ _ ?_
          · rw [gf, clear_fnOf]; exact hf
          · rw [gn]; exact hunpl
          · refine ⟨co ▸ qc.nodup, qc.nodupP, ?_, ?_⟩
            · intro p; show p ∈ s2.outputs.erase u ↔ _
              rw [← co, qc.mem]; simp only [gc]
            · intro k hk
              obtain ⟨a, b, x, c⟩ := qc.placed k hk
              exact ⟨a, by rw [← gf] at b; exact b, x, by rw [← gn] at c; exact c⟩
          · simp
          · rw [o4, o3]; exact replace_perm s2.outputs q.nodup u t huo
          · intro a b
            rw [g3]
            have : s2.getNode t ∈ P := by
              refine hs2 hnP ht (eu ▸ ht0) ?_ ?_
              · simpa [State.isEmptyTile, g3] using a
              · have := congrFun (gf.trans (clear_fnOf m s2 u)) (s2.getNode t)
                simp only [State.fnOf] at this
                simp only [State.isWireTile, State.isWire, g3] at b ⊢
                rw [← this]; exact b
            simp [this, hgn.symm]
          · rw [g3, List.perm_ext_iff_of_nodup (q.nodupP.filter _)]
            · intro k
              simp only [List.mem_filter, List.mem_append, List.mem_singleton, decide_eq_true_eq]
              constructor
              · rintro ⟨a, b⟩
                by_cases e : k = n
                · exact .inr e
                · exact .inl ⟨⟨a, e⟩, b⟩
              · rintro (⟨⟨a, -⟩, b⟩ | rfl)
                · exact ⟨a, b⟩
                · exact ⟨hnP, hgn⟩
            · rw [List.nodup_append]
              refine ⟨(q.nodupP.filter _).filter _, by simp, ?_⟩
              intro a ha b hb
              simp only [List.mem_singleton] at hb
              rintro rfl; subst hb
              simp at ha
        · have hno : s2.getTile n ∉ s2.outputs := by
            intro hm
            obtain ⟨hd, k, hk, hk'⟩ := (q.mem _).1 hm
            cases e : s2.nodeTile n with
            | none => simp [State.getTile, e, const0] at hd
            | some u =>
              have eu : s2.getTile n = u := by simp [State.getTile, e]
              rw [eu, (ws.inv u n).2 e] at hk'; cases hk'; exact hnP hk
          have qm : Q ({ s2 with outputs := s2.outputs.map (fun p => if p = s2.getTile n then t else p) }) P := by
            refine ⟨?_, q.nodupP, ?_, q.placed⟩
            · rw [replace_self _ _ _ hno]; exact q.nodup
            · rw [replace_self _ _ _ hno]; exact q.mem
          have wm : WF ({ s2 with outputs := s2.outputs.map (fun p => if p = s2.getTile n then t else p) }) := ws.outputs _
          have qc := qm.clear m wm (s2.getTile n)
          have hf0 : P.filter (· ≠ State.getNode ({ s2 with outputs := s2.outputs.map (fun p => if p = s2.getTile n then t else p) }) (s2.getTile n)) = P :=
            hold.trans (filter_ne_self P n hnP)
          rw [hf0] at qc
          have := qc.assign m (wm.clear m _) ht hnP
          have g3 : (State.clearTile m ({ s2 with outputs := s2.outputs.map (fun p => if p = s2.getTile n then t else p) }) (s2.getTile n)).getNode t = s2.getNode t := by
            simp [State.getNode, clear_tileNode, ht0]
          rw [g3] at this
          exact this

/-- C19 (partial). As long as primary outputs are created on live tiles, and neither created on nor moved onto a tile that
hosts a wire segment which is not itself a primary output, a node is a primary output exactly from its creation until its
tile is cleared or taken or it is moved off the layout, and `num_pos` is the number of these nodes. Missing from C19: the
excluded histories, for which it is false (`C19_po_lost`, `C19_moved_po_lost`, `C19_unplaced_pos`). -/
theorem C19_pos_partial (ops : List Op) (hv : Valid m init ops) (hs : PoSafeAll m init [] ops) :
    (∀ n, (run m init ops).isPo n = true ↔ n ∈ pos m init [] ops) ∧
    (run m init ops).outputs.length = (pos m init [] ops).length ∧ (pos m init [] ops).Nodup := by
  have main : ∀ (ops : List Op) (s : State) P, WF s → Q s P → Valid m s ops → PoSafeAll m s P ops →
      WF (run m s ops) ∧ Q (run m s ops) (pos m s P ops) := by
    intro ops
    induction ops with
    | nil => intro s P w q _ _; exact ⟨w, q⟩
    | cons op ops ih => intro s P w q hv hs; exact ih _ _ (w.step m op hv.1) (q.step m w op hv.1 hs.1) hv.2 hs.2
  obtain ⟨w, q⟩ := main ops init [] WF.init ⟨by simp [init], by simp, by simp [init], by simp⟩ hv hs
  refine ⟨?_, ?_, q.nodupP⟩
  · intro n
    simp only [State.isPo, List.any_eq_true, beq_iff_eq]
    constructor
    · rintro ⟨p, hp, rfl⟩
      obtain ⟨-, k, hk, hk'⟩ := (q.mem p).1 hp
      rw [getNode_some hk']; exact hk
    · intro hn
      obtain ⟨h2, -, t, ht⟩ := q.placed n hn
      have ht' := (w.inv t n).2 ht
      refine ⟨t, (q.mem t).2 ⟨?_, n, hn, ht'⟩, getNode_some ht'⟩
      have := w.live t n ht'
      cases hd : t.d with
      | false => rfl
      | true => have := this.2 hd; omega
  · have hmap : ((run m init ops).outputs.map (run m init ops).getNode).Perm (pos m init [] ops) := by
      rw [List.perm_ext_iff_of_nodup _ q.nodupP]
      · intro n
        simp only [List.mem_map]
        constructor
        · rintro ⟨p, hp, rfl⟩
          obtain ⟨-, k, hk, hk'⟩ := (q.mem p).1 hp
          rw [getNode_some hk']; exact hk
        · intro hn
          obtain ⟨h2, -, t, ht⟩ := q.placed n hn
          have ht' := (w.inv t n).2 ht
          refine ⟨t, (q.mem t).2 ⟨?_, n, hn, ht'⟩, getNode_some ht'⟩
          have := w.live t n ht'
          cases hd : t.d with
          | false => rfl
          | true => have := this.2 hd; omega
      · refine List.Nodup.map_on ?_ q.nodup
        intro x hx y hy e
        obtain ⟨-, k, -, hk⟩ := (q.mem x).1 hx
        obtain ⟨-, j, -, hj⟩ := (q.mem y).1 hy
        rw [getNode_some hk, getNode_some hj] at e; subst e
        have := (w.inv x k).1 hk; rw [(w.inv y k).1 hj] at this; exact (Option.some.inj this).symm
    have := hmap.length_eq
    simpa using this

/-- Non-vacuity: the history above, in which a primary output is moved, then another one created on the tile of the
first. -/
example : let ops := demoOps ++ [.createPo ⟨1, 1, 0, false⟩ ⟨1, 2, 0, false⟩]
    PoSafeAll ⟨3, 3, 1⟩ init [] ops ∧ pos ⟨3, 3, 1⟩ init [] demoOps = [5] ∧ pos ⟨3, 3, 1⟩ init [] ops = [8] := by
  refine ⟨⟨trivial, trivial, trivial, ⟨rfl, by decide⟩, trivial, fun _ _ _ => by decide, trivial, trivial, ⟨rfl, by decide⟩, trivial⟩, by decide, by decide⟩

/-- C19 is false of the code: a primary output created on a tile that hosts a wire segment is not registered. -/
theorem C19_po_lost :
    let ops : List Op := [.createPi ⟨0, 1, 0, false⟩, .createGate 2 [⟨0, 1, 0, false⟩] ⟨1, 1, 0, false⟩,
      .createPo ⟨0, 1, 0, false⟩ ⟨1, 1, 0, false⟩]
    Valid ⟨3, 3, 1⟩ init ops ∧ (run ⟨3, 3, 1⟩ init ops).getTile 4 = ⟨1, 1, 0, false⟩ ∧ (run ⟨3, 3, 1⟩ init ops).isPo 4 = false ∧
    (run ⟨3, 3, 1⟩ init ops).outputs.length = 0 := ⟨⟨trivial, trivial, trivial, trivial⟩, by decide, by decide, by decide⟩

/-- C19 is false of the code: a primary output moved onto a tile that hosts a wire segment is no longer one. -/
theorem C19_moved_po_lost :
    let ops : List Op := [.createGate 2 [] ⟨1, 1, 0, false⟩, .createPo ⟨1, 1, 0, false⟩ ⟨2, 1, 0, false⟩, .move 3 ⟨1, 1, 0, false⟩ []]
    Valid ⟨3, 3, 1⟩ init ops ∧ (run ⟨3, 3, 1⟩ init (ops.take 2)).isPo 3 = true ∧
    (run ⟨3, 3, 1⟩ init ops).getTile 3 = ⟨1, 1, 0, false⟩ ∧ (run ⟨3, 3, 1⟩ init ops).isPo 3 = false :=
  ⟨⟨trivial, trivial, ⟨by decide, by decide⟩, trivial⟩, by decide, by decide, by decide⟩

/-- C19 is false of the code: of two primary outputs created without a tile, moving the first to a tile registers both on
it; the second, moved to its own tile, is not a primary output. -/
theorem C19_unplaced_pos :
    let ops : List Op := [.createPo const0 const0, .createPo const0 const0, .move 2 ⟨1, 1, 0, false⟩ [], .move 3 ⟨2, 1, 0, false⟩ []]
    let s := run ⟨3, 3, 1⟩ init ops
    Valid ⟨3, 3, 1⟩ init ops ∧ s.getTile 3 = ⟨2, 1, 0, false⟩ ∧ s.isPo 3 = false ∧
    s.outputs = [⟨1, 1, 0, false⟩, ⟨1, 1, 0, false⟩] :=
  ⟨⟨trivial, trivial, ⟨by decide, by decide⟩, ⟨by decide, by decide⟩, trivial⟩, by decide, by decide, by decide⟩

end Verif.GateLevel
