import Verif.Networks.FanoutProps

/-!
# Decision procedures for the assumptions on concrete networks

Used in examples only.
-/
namespace Verif.Networks

/-- The index of an input. -/
def Node.piIdx : Node → Option Nat
  | .pi k => some k
  | _ => none

theorem Node.piIdx_eq {x : Node} {k : Nat} : x.piIdx = some k ↔ x = .pi k := by
  cases x <;> simp [Node.piIdx]

def Node.constIs (b : Bool) : Node → Bool
  | .const c => c == b
  | _ => false

theorem Node.constIs_eq {x : Node} {b : Bool} (h : x.constIs b = true) : x = .const b := by
  cases x <;> simp_all [Node.constIs]

def wfCheck (N : Ntk) (k : Nat) : Bool :=
  decide (2 ≤ N.size) && (N.node 0).constIs false && (N.node 1).constIs true &&
  (N.nodes.drop 2).all (fun x => !x.isConst) &&
  (List.range N.size).all (fun i => (N.node i).fanins.all (fun f => decide (f < i))) &&
  (List.range N.size).all (fun i => match (N.node i).piIdx with | some j => decide (j < k) | none => true) &&
  (List.range k).all (fun j => (List.range N.size).any (fun i => (N.node i).piIdx == some j)) &&
  (List.range N.size).all (fun i => (List.range N.size).all (fun j =>
    (N.node i).piIdx == none || (N.node i).piIdx != (N.node j).piIdx || i == j)) &&
  N.pos.all (fun p => decide (p < N.size))

theorem wfCheck_sound {N : Ntk} {k : Nat} (h : wfCheck N k = true) : N.WF k := by
  unfold wfCheck at h
  simp only [Bool.and_eq_true, List.all_eq_true, List.mem_range, decide_eq_true_eq, List.any_eq_true, Bool.or_eq_true, beq_iff_eq,
    bne_iff_ne, Bool.not_eq_true'] at h
  obtain ⟨⟨⟨⟨⟨⟨⟨⟨h1, h2⟩, h3⟩, h4⟩, h5⟩, h6⟩, h7⟩, h8⟩, h9⟩ := h
  have hlt : ∀ i j, N.node i = .pi j → i < N.size := by
    intro i j e
    by_contra hc
    rw [Ntk.node_ge _ _ (by omega)] at e
    cases e
  refine ⟨?_, h5, ?_, ?_, ?_, h9⟩
  · have e0 := Node.constIs_eq h2
    have e1 := Node.constIs_eq h3
    obtain ⟨nodes, pos⟩ := N
    match nodes with
    | [] => simp [Ntk.size] at h1
    | [_] => simp [Ntk.size] at h1
    | a :: b :: l =>
      simp [Ntk.node] at e0 e1
      subst e0 e1
      exact ⟨l, rfl, h4⟩
  · intro i hi
    cases e : N.node i with
    | pi j =>
      have := h6 i (hlt i j e)
      rw [e] at this
      simp only [Node.piIdx, decide_eq_true_eq] at this
      exact ⟨j, this, rfl⟩
    | _ => rw [e] at hi; cases hi
  · intro j hj
    obtain ⟨i, hi, e⟩ := h7 j hj
    exact ⟨i, hi, Node.piIdx_eq.1 e⟩
  · intro i j c hi hj
    rcases h8 i (hlt i c hi) j (hlt j c hj) with (h | h) | h
    · rw [hi] at h; cases h
    · rw [hi, hj] at h; exact absurd rfl h
    · exact h

def topoGo (N : Ntk) : List Nat → List Nat → Bool
  | _, [] => true
  | seen, g :: l => (N.node g).fanins.all (fun f => !(N.node f).isGate || seen.contains f) && topoGo N (seen ++ [g]) l

theorem topoGo_sound {N : Ntk} : ∀ (l seen : List Nat), topoGo N seen l = true → ∀ l1 g r, l = l1 ++ g :: r →
    ∀ f ∈ (N.node g).fanins, (N.node f).isGate = true → f ∈ seen ++ l1
  | [], _, _, l1, g, r, e, _, _, _ => by simp at e
  | x :: l, seen, h, l1, g, r, e, f, hf, hg => by
    unfold topoGo at h
    rw [Bool.and_eq_true, List.all_eq_true] at h
    cases l1 with
    | nil =>
      simp only [List.nil_append, List.cons.injEq] at e
      obtain ⟨rfl, rfl⟩ := e
      have := h.1 f hf
      rw [hg] at this
      simpa using this
    | cons y l1 =>
      simp only [List.cons_append, List.cons.injEq] at e
      obtain ⟨rfl, rfl⟩ := e
      have := topoGo_sound _ _ h.2 l1 g r rfl f hf hg
      simpa using this

def topoCheck (N : Ntk) (order : List Nat) : Bool :=
  decide order.Nodup && order.all (fun g => decide (g < N.size) && (N.node g).isGate) && topoGo N [] order &&
  N.pos.all (fun p => !(N.node p).isGate || order.contains p) &&
  order.all (fun g => N.pos.contains g || order.any (fun g' => (N.node g').fanins.contains g))

theorem topoCheck_sound {N : Ntk} {order : List Nat} (h : topoCheck N order = true) : TopoOrder N order := by
  unfold topoCheck at h
  simp only [Bool.and_eq_true, List.all_eq_true, decide_eq_true_eq, List.any_eq_true, Bool.or_eq_true, List.contains_iff_mem,
    Bool.not_eq_true'] at h
  obtain ⟨⟨⟨⟨h1, h2⟩, h3⟩, h4⟩, h5⟩ := h
  refine ⟨h1, h2, ?_, ?_, h5⟩
  · intro l g r e f hf hg
    simpa using topoGo_sound order [] h3 l g r e f hf hg
  · intro p hp hg
    rcases h4 p hp with h | h
    · rw [hg] at h; cases h
    · exact h

end Verif.Networks
