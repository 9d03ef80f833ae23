import Verif.Clocking.Sync
import Verif.Clocking.Props

/-!
# C102: synchronization elements

## Specification
-/
namespace Verif.Clocking.Sync

open Verif.Layouts Verif.Clocking

/-- What users expect of histories: every layout assigns a number of cycles to each zone, zero at first; an assignment changes one
number of one layout, and a clone begins with the numbers of the original. -/
structure Ideal where
  cycles : Nat → Coord → Nat
  next : Nat

/-- The effect of a call. -/
def Ideal.step (i : Ideal) : Op → Ideal
  | .create => ⟨fun l cz => if l = i.next then 0 else i.cycles l cz, i.next + 1⟩
  | .clone k => ⟨fun l cz => if l = i.next then i.cycles k cz else i.cycles l cz, i.next + 1⟩
  | .assign k z se => { i with cycles := fun l cz => if l = k ∧ cz = z then se else i.cycles l cz }

/-- The effect of a history. -/
def ideal (ops : List Op) : Ideal := ops.foldl Ideal.step ⟨fun _ _ => 0, 0⟩

/-! ## Lemmas -/

/-- The keys are different and no entry is zero. -/
def Good (m : SeMap) : Prop := (m.map Prod.fst).Nodup ∧ ∀ e ∈ m, e.2 ≠ 0

theorem find_filter_ne (m : SeMap) (cz : Coord) : (m.filter (fun e => e.1 != cz)).find? (fun e => e.1 == cz) = none := by
  rw [List.find?_eq_none]
  intro e he
  have := (List.mem_filter.1 he).2
  simpa using this

theorem find_filter_other (m : SeMap) {cz z : Coord} (h : cz ≠ z) :
    (m.filter (fun e => e.1 != z)).find? (fun e => e.1 == cz) = m.find? (fun e => e.1 == cz) := by
  induction m with
  | nil => rfl
  | cons e m ih =>
    by_cases h1 : e.1 = z
    · rw [List.filter_cons_of_neg (by simp [h1]), ih, List.find?_cons_of_neg (by rw [h1]; simpa using h.symm)]
    · rw [List.filter_cons_of_pos (by simpa using h1)]
      by_cases h2 : e.1 = cz
      · rw [List.find?_cons_of_pos (by simpa using h2), List.find?_cons_of_pos (by simpa using h2)]
      · rw [List.find?_cons_of_neg (by simpa using h2), List.find?_cons_of_neg (by simpa using h2), ih]

theorem get_assign (m : SeMap) (z cz : Coord) (se : Nat) : (m.assign z se).get cz = if cz = z then se else m.get cz := by
  unfold SeMap.assign SeMap.get
  by_cases h : cz = z
  · subst h
    rw [if_pos rfl]
    by_cases h0 : se = 0
    · rw [if_pos h0, find_filter_ne, h0]
    · rw [if_neg h0, List.find?_cons_of_pos (by simp)]
  · rw [if_neg h]
    by_cases h0 : se = 0
    · rw [if_pos h0, find_filter_other m h]
    · rw [if_neg h0, List.find?_cons_of_neg (by simpa using Ne.symm h), find_filter_other m h]

theorem good_assign {m : SeMap} (h : Good m) (z : Coord) (se : Nat) : Good (m.assign z se) := by
  have hf : Good (m.filter (fun e => e.1 != z)) :=
    ⟨h.1.sublist ((List.filter_sublist (p := fun e : Coord × Nat => e.1 != z)).map _), fun e he => h.2 e (List.mem_filter.1 he).1⟩
  unfold SeMap.assign
  by_cases h0 : se = 0
  · rw [if_pos h0]; exact hf
  · rw [if_neg h0]
    refine ⟨?_, ?_⟩
    · rw [List.map_cons, List.nodup_cons]
      refine ⟨fun hm => ?_, hf.1⟩
      obtain ⟨e, he, hz⟩ := List.mem_map.1 hm
      have := (List.mem_filter.1 he).2
      rw [hz] at this
      simp at this
    · intro e he
      rcases List.mem_cons.1 he with rfl | he
      · exact h0
      · exact hf.2 e he

theorem run_spec (ops : List Op) : ∀ (h : Heap) (i : Ideal), h.next = i.next → (∀ l, Good (h.block l)) →
    (∀ l cz, (h.block l).get cz = i.cycles l cz) →
    (∀ l, Good ((ops.foldl Heap.step h).block l)) ∧
      ∀ l cz, ((ops.foldl Heap.step h).block l).get cz = (ops.foldl Ideal.step i).cycles l cz := by
  induction ops with
  | nil => intro h i _ h2 h3; exact ⟨h2, h3⟩
  | cons o ops ih =>
    intro h i h1 h2 h3
    rw [List.foldl_cons, List.foldl_cons]
    cases o with
    | create =>
      refine ih _ _ (by simp [Heap.step, Ideal.step, h1]) ?_ ?_
      · intro l
        simp only [Heap.step]
        split_ifs
        · exact ⟨List.nodup_nil, by simp⟩
        · exact h2 l
      · intro l cz
        simp only [Heap.step, Ideal.step, h1]
        split_ifs
        · rfl
        · exact h3 l cz
    | clone k =>
      refine ih _ _ (by simp [Heap.step, Ideal.step, h1]) ?_ ?_
      · intro l
        simp only [Heap.step]
        split_ifs
        · exact h2 k
        · exact h2 l
      · intro l cz
        simp only [Heap.step, Ideal.step, h1]
        split_ifs
        · exact h3 k cz
        · exact h3 l cz
    | assign k z se =>
      refine ih _ _ h1 ?_ ?_
      · intro l
        simp only [Heap.step]
        split_ifs
        · exact good_assign (h2 l) z se
        · exact h2 l
      · intro l cz
        simp only [Heap.step, Ideal.step]
        by_cases hl : l = k
        · rw [if_pos hl, get_assign, h3]
          simp [hl]
        · rw [if_neg hl, h3]
          simp [hl]

theorem good_run (ops : List Op) (l : Nat) : Good ((run ops).block l) :=
  (run_spec ops ⟨fun _ => [], 0⟩ ⟨fun _ _ => 0, 0⟩ rfl (fun _ => ⟨List.nodup_nil, by simp⟩) (fun _ _ => rfl)).1 l

theorem isSe_eq (m : SeMap) (cz : Coord) : m.isSe cz = (m.get cz != 0) := by
  unfold SeMap.isSe SeMap.get
  cases m.find? (fun e => e.1 == cz) <;> rfl

theorem length_filter_mono {α : Type} (p q : α → Bool) (l : List α) (h : ∀ x ∈ l, p x = true → q x = true) :
    (l.filter p).length ≤ (l.filter q).length := by
  rw [← List.countP_eq_length_filter, ← List.countP_eq_length_filter]
  exact List.countP_mono_left h

theorem incoming_of_clocked {s : Scheme} {m : SeMap} {a b : Coord} (h : isIncomingClocked s a b = true) :
    isIncoming s m a b = true := by
  unfold isIncoming
  have : a ≠ b := fun e => by rw [e, (C11_irreflexive s b).1] at h; cases h
  rw [if_neg this, h]
  rfl

theorem outgoing_of_clocked {s : Scheme} {m : SeMap} {a b : Coord} (h : isOutgoingClocked s a b = true) :
    isOutgoing s m a b = true := by
  unfold isOutgoing
  have : a ≠ b := fun e => by rw [e, (C11_irreflexive s b).2] at h; cases h
  rw [if_neg this, h]
  rfl

/-! ## Theorems -/

/-- C102. After any history of constructors, clones and assignments, every layout reports for each zone the number of cycles last
assigned to it or inherited by cloning, and whether it is not zero; in particular, clones are independent of their originals. -/
theorem C102_history (ops : List Op) (l : Nat) (cz : Coord) :
    ((run ops).block l).get cz = (ideal ops).cycles l cz ∧
      (((run ops).block l).isSe cz = true ↔ (ideal ops).cycles l cz ≠ 0) := by
  have h := (run_spec ops ⟨fun _ => [], 0⟩ ⟨fun _ _ => 0, 0⟩ rfl (fun _ => ⟨List.nodup_nil, by simp⟩) (fun _ _ => rfl)).2 l cz
  change ((run ops).block l).get cz = (ideal ops).cycles l cz at h
  exact ⟨h, by rw [isSe_eq, h, bne_iff_ne]⟩

/-- C102. `num_se` is the number of zones whose number of cycles is not zero. -/
theorem C102_count (ops : List Op) (l : Nat) :
    ∃ zs : List Coord, zs.Nodup ∧ (∀ cz, cz ∈ zs ↔ (ideal ops).cycles l cz ≠ 0) ∧ ((run ops).block l).numSe = zs.length := by
  have hg := good_run ops l
  refine ⟨((run ops).block l).map Prod.fst, hg.1, fun cz => ?_, by rw [List.length_map]; rfl⟩
  rw [← (C102_history ops l cz).1]
  unfold SeMap.get
  constructor
  · intro hm
    obtain ⟨e, he, rfl⟩ := List.mem_map.1 hm
    cases hf : ((run ops).block l).find? (fun e' => e'.1 == e.1) with
    | none =>
      rw [List.find?_eq_none] at hf
      exact absurd (hf e he) (by simp)
    | some e' => exact hg.2 e' (List.mem_of_find?_eq_some hf)
  · intro h
    cases hf : ((run ops).block l).find? (fun e' => e'.1 == cz) with
    | none => rw [hf] at h; exact absurd rfl h
    | some e' =>
      have h1 := List.find?_some hf
      rw [beq_iff_eq] at h1
      exact List.mem_map.2 ⟨e', List.mem_of_find?_eq_some hf, h1⟩

/-- C102. A zone feeds another one exactly if their clock numbers are consecutive or one of them is a synchronization element; this
is what the other zone says, too. -/
theorem C102_flow (s : Scheme) (m : SeMap) (a b : Coord) :
    (isIncoming s m a b = true ↔ a ≠ b ∧ ((s.clock b + 1) % s.numClocks = s.clock a ∨ m.isSe a = true ∨ m.isSe b = true)) ∧
      isOutgoing s m b a = isIncoming s m a b := by
  constructor
  · unfold isIncoming isIncomingClocked
    by_cases h : a = b
    · simp [h]
    · simp [h, or_assoc]
  · unfold isIncoming isOutgoing
    by_cases h : a = b
    · simp [h]
    · rw [if_neg h, if_neg (Ne.symm h), C11_dual, Bool.or_assoc, Bool.or_assoc, Bool.or_comm (m.isSe b)]

/-- C102. On Cartesian and hexagonal layouts, `b` is an incoming zone of `a` iff `a` is an outgoing zone of `b`. -/
theorem C102_zones_dual (t : Topo) (d : Dim) (hX : d.X < 2^31 - 1) (hY : d.Y < 2^31 - 1) (s : Scheme) (m : SeMap)
    (a b : Coord) (ha : InBounds d a) (hb : InBounds d b) :
    b ∈ incomingZones t d s m a ↔ a ∈ outgoingZones t d s m b := by
  unfold incomingZones outgoingZones
  rw [List.mem_filter, List.mem_filter, (C102_flow s m a b).2, adj_symm t d hX hY a b ha hb]

/-- C102. A synchronization element exchanges information with all its neighbours in both directions. -/
theorem C102_element (t : Topo) (d : Dim) (s : Scheme) (m : SeMap) (cz : Coord) (h : m.isSe cz = true)
    (hn : cz ∉ t.adjacent d cz) :
    incomingZones t d s m cz = t.adjacent d cz ∧ outgoingZones t d s m cz = t.adjacent d cz ∧
      inDegree t d s m cz = (t.adjacent d cz).length ∧ outDegree t d s m cz = (t.adjacent d cz).length := by
  have h1 : incomingZones t d s m cz = t.adjacent d cz := by
    unfold incomingZones
    rw [List.filter_eq_self]
    intro z hz
    rw [(C102_flow s m cz z).1]
    exact ⟨fun e => hn (e ▸ hz), Or.inr (Or.inl h)⟩
  have h2 : outgoingZones t d s m cz = t.adjacent d cz := by
    unfold outgoingZones
    rw [List.filter_eq_self]
    intro z hz
    rw [(C102_flow s m z cz).2, (C102_flow s m z cz).1]
    exact ⟨fun e => hn (e ▸ hz), Or.inr (Or.inr h)⟩
  exact ⟨h1, h2, by rw [inDegree, h1], by rw [outDegree, h2]⟩

/-- C102. Without synchronization elements at a zone and its neighbours, `degree` is the number of incoming and outgoing zones.
Missing: any other zones, for which this is false, see C102_degree_ignores and C102_false_degree. -/
theorem C102_degree_partial (t : Topo) (d : Dim) (s : Scheme) (m : SeMap) (cz : Coord) (h : m.isSe cz = false)
    (hn : ∀ z ∈ t.adjacent d cz, m.isSe z = false) :
    degree t d s m cz = (incomingZones t d s m cz).length + (outgoingZones t d s m cz).length := by
  have h1 : incomingZones t d s m cz = incomingClockedZones t d s cz := by
    unfold incomingZones incomingClockedZones
    refine List.filter_congr fun z hz => ?_
    unfold isIncoming
    by_cases e : cz = z
    · rw [if_pos e, e, (C11_irreflexive s z).1]
    · rw [if_neg e, h, hn z hz]
      simp
  have h2 : outgoingZones t d s m cz = outgoingClockedZones t d s cz := by
    unfold outgoingZones outgoingClockedZones
    refine List.filter_congr fun z hz => ?_
    unfold isOutgoing
    by_cases e : cz = z
    · rw [if_pos e, e, (C11_irreflexive s z).2]
    · rw [if_neg e, h, hn z hz]
      simp
  unfold degree inDegree outDegree Clocking.degree Clocking.inDegree Clocking.outDegree
  rw [h1, h2]
  simp

/-- C102. `degree` never takes synchronization elements into account. -/
theorem C102_degree_ignores (t : Topo) (d : Dim) (s : Scheme) (m : SeMap) (cz : Coord) :
    degree t d s m cz = Clocking.degree t d s cz := by
  have h1 : Clocking.inDegree t d s cz ≤ inDegree t d s m cz :=
    length_filter_mono _ _ _ (fun z _ h => incoming_of_clocked h)
  have h2 : Clocking.outDegree t d s cz ≤ outDegree t d s m cz :=
    length_filter_mono _ _ _ (fun z _ h => outgoing_of_clocked h)
  have h3 : Clocking.degree t d s cz = Clocking.inDegree t d s cz + Clocking.outDegree t d s cz := rfl
  unfold degree
  dsimp only
  split_ifs with h
  · rfl
  · omega

/-! ## Where the property fails, and examples -/

/-- A synchronization element in the center of a layout. -/
def center : SeMap := [(⟨1, 1, 0, false⟩, 2)]

/-- C102. A synchronization element with four incoming and four outgoing zones has degree four. -/
theorem C102_false_degree : inDegree .cart ⟨2, 2, 0⟩ (twoddwaveClocking .cart .four) center ⟨1, 1, 0, false⟩ = 4 ∧
    outDegree .cart ⟨2, 2, 0⟩ (twoddwaveClocking .cart .four) center ⟨1, 1, 0, false⟩ = 4 ∧
    degree .cart ⟨2, 2, 0⟩ (twoddwaveClocking .cart .four) center ⟨1, 1, 0, false⟩ = 4 := by decide +kernel

example : center.isSe ⟨1, 1, 0, false⟩ = true ∧ (⟨1, 1, 0, false⟩ : Coord) ∉ Topo.cart.adjacent ⟨2, 2, 0⟩ ⟨1, 1, 0, false⟩ := by
  decide +kernel

example : center.isSe ⟨2, 2, 0, false⟩ = false ∧
    (∀ z ∈ Topo.cart.adjacent ⟨2, 2, 0⟩ (⟨2, 2, 0, false⟩ : Coord), center.isSe z = false) ∧
    degree .cart ⟨2, 2, 0⟩ (twoddwaveClocking .cart .four) center ⟨2, 2, 0, false⟩ = 2 := by decide +kernel

example : ((run [.create, .assign 0 ⟨1, 1, 0, false⟩ 2, .clone 0, .assign 0 ⟨1, 1, 0, false⟩ 0, .assign 1 ⟨0, 0, 0, false⟩ 1]).block 1).numSe = 2 ∧
    ((run [.create, .assign 0 ⟨1, 1, 0, false⟩ 2, .clone 0, .assign 0 ⟨1, 1, 0, false⟩ 0, .assign 1 ⟨0, 0, 0, false⟩ 1]).block 0).numSe = 0 := by
  decide +kernel

example : (⟨2, 1, 0, false⟩ : Coord) ∈ incomingZones .cart ⟨2, 2, 0⟩ (twoddwaveClocking .cart .four) center ⟨1, 1, 0, false⟩ := by
  decide +kernel

end Verif.Clocking.Sync
