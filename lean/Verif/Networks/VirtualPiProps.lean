import Verif.Networks.CopyLemmas

/-!
# C31: deleting virtual inputs
-/
namespace Verif.Networks

/-- A network with virtual inputs as it results from `create_pi`, `create_virtual_pi`, `create_<gate>` and
`create_po`: virtual inputs are inputs and copies of real inputs. -/
structure VNtk.WF (V : VNtk) (k : Nat) : Prop where
  ntk : V.ntk.WF k
  real : ∀ v r, V.real v = some r → (V.ntk.node v).isPi = true ∧ (V.ntk.node r).isPi = true ∧ V.real r = none

/-- Spec: the assignment `a` of all inputs gives the `j`-th real input the value `b j` and every virtual
input the value of the real input it is a copy of. -/
structure VNtk.Agree (V : VNtk) (a b : Nat → Bool) : Prop where
  real : ∀ i k j, V.ntk.node i = .pi k → V.realPis[j]? = some i → a k = b j
  virt : ∀ v r k k', V.real v = some r → V.ntk.node v = .pi k → V.ntk.node r = .pi k' → a k = a k'

theorem Node.isPi_gate {x : Node} (h : x.isPi = true) : x.isGate = false := by cases x <;> simp_all [Node.isPi, Node.isGate]

theorem node_size_of_pi {N : Ntk} {i : Nat} (h : (N.node i).isPi = true) : i < N.size := by
  by_contra hn
  rw [Ntk.node_ge _ _ (by omega)] at h; cases h

theorem realPis_nodup (V : VNtk) : V.realPis.Nodup := by
  unfold VNtk.realPis Ntk.pis
  exact (List.nodup_range.filter _).filter _

theorem mem_realPis (V : VNtk) (i : Nat) : i ∈ V.realPis ↔ (V.ntk.node i).isPi = true ∧ V.real i = none := by
  unfold VNtk.realPis
  rw [List.mem_filter, pis_spec]
  constructor
  · rintro ⟨⟨-, h⟩, h2⟩; exact ⟨h, by simpa using h2⟩
  · rintro ⟨h, h2⟩; exact ⟨⟨node_size_of_pi h, h⟩, by simp [h2]⟩

theorem virtual_value (V : VNtk) (k : Nat) (hV : V.WF k) (a b : Nat → Bool) (hab : V.Agree a b) (v r : Nat)
    (h : V.real v = some r) : V.ntk.value a v = V.ntk.value a r := by
  obtain ⟨h1, h2, -⟩ := hV.real v r h
  rw [V.ntk.value_eq hV.ntk.fanins a v (node_size_of_pi h1), V.ntk.value_eq hV.ntk.fanins a r (node_size_of_pi h2)]
  cases hv : V.ntk.node v with
  | pi i =>
    cases hr : V.ntk.node r with
    | pi j => exact hab.virt v r i j h hv hr
    | const c => rw [hr] at h2; cases h2
    | buf c => rw [hr] at h2; cases h2
    | gate c d => rw [hr] at h2; cases h2
  | const c => rw [hv] at h1; cases h1
  | buf c => rw [hv] at h1; cases h1
  | gate c d => rw [hv] at h1; cases h1

/-- The state after all gates have been copied. -/
theorem delete_state (V : VNtk) (k : Nat) (order : List Nat) (hV : V.WF k) (ho : TopoOrder V.ntk order) (a b : Nat → Bool)
    (hab : V.Agree a b) :
    let st := order.foldl (deleteGate V) (Ntk.initCopy V.realPis.length, V.initMap)
    CopyInv (V.ntk.value a) b (fun n => (n < V.ntk.size ∧ (V.ntk.node n).isGate = false ∧ V.real n = none) ∨ n ∈ order) st ∧
    Shape V.realPis.length st.1 ∧ Ext (Ntk.initCopy V.realPis.length) st.1 ∧ ∀ n, n ∉ order → st.2 n = V.initMap n := by
  have h := copy_fold V.ntk hV.ntk.fanins order ho (fun f => (V.real f).getD f)
    (fun n => n < V.ntk.size ∧ (V.ntk.node n).isGate = false ∧ V.real n = none) a b (by
      intro f hf hg
      cases hr : V.real f with
      | none => exact ⟨⟨hf, hg, hr⟩, rfl⟩
      | some r =>
        obtain ⟨h1, h2, h3⟩ := hV.real f r hr
        exact ⟨⟨node_size_of_pi h2, Node.isPi_gate h2, h3⟩, (virtual_value V k hV a b hab f r hr).symm⟩) (by
      intro f hf hg
      cases hr : V.real f with
      | none => rfl
      | some r =>
        have := Node.isPi_gate (hV.real f r hr).1
        rw [hg] at this; cases this) V.realPis.length order [] rfl (Ntk.initCopy V.realPis.length, V.initMap)
    (initCopy_shape _) (by
      rintro n (⟨h1, h2, h3⟩ | h)
      · dsimp only
        rw [V.ntk.value_eq hV.ntk.fanins a n h1, initCopy_size]
        obtain ⟨v0, v1, v2⟩ := initCopy_value V.realPis.length b
        unfold VNtk.initMap
        cases hx : V.ntk.node n with
        | const c => cases c <;> simp [Node.value, v0, v1]
        | pi j =>
          rw [h3]
          have hm : n ∈ V.realPis := (mem_realPis V n).2 ⟨by rw [hx]; rfl, h3⟩
          have hlt := List.idxOf_lt_length_of_mem hm
          refine ⟨by simp; omega, ?_⟩
          simp only [Option.isNone_none, if_true]
          rw [v2 _ hlt]
          refine (hab.real n j (V.realPis.idxOf n) hx ?_).symm
          rw [List.getElem?_eq_getElem hlt, List.getElem_idxOf]
        | buf c => rw [hx] at h2; cases h2
        | gate c d => rw [hx] at h2; cases h2
      · simp at h) (by
      rintro n hn ⟨-, h2, -⟩
      have := (ho.gates n hn).2
      rw [h2] at this; cases this)
  exact ⟨h.1, h.2.2.1, h.2.1, h.2.2.2⟩

/-- If no output is driven directly by a virtual input, the result has exactly the real inputs, in their
order, and for every assignment of them it has the outputs that the source has when the virtual inputs
carry the values of their real inputs. The restriction is necessary, see `C31_output_lost`. -/
theorem C31_delete_partial (V : VNtk) (k : Nat) (order : List Nat) (hV : V.WF k) (ho : TopoOrder V.ntk order)
    (hpo : ∀ p ∈ V.ntk.pos, V.real p = none) (hvirt : ∃ v, v ∈ V.ntk.pis ∧ V.real v ≠ none) :
    (deleteVirtualPis V order).WF V.realPis.length ∧
      ∀ a b, V.Agree a b → (deleteVirtualPis V order).outputs b = V.ntk.outputs a := by
  unfold deleteVirtualPis
  rw [if_neg (by
    obtain ⟨v, hv, hr⟩ := hvirt
    simp only [List.all_eq_true, not_forall]
    exact ⟨v, hv, by cases hx : V.real v <;> simp_all⟩)]
  dsimp only
  rw [foldl_createPo]
  have hdom : ∀ p ∈ V.ntk.pos, (p < V.ntk.size ∧ (V.ntk.node p).isGate = false ∧ V.real p = none) ∨ p ∈ order := by
    intro p hp
    obtain ⟨h1, h2 | h2⟩ := gate_of_fanin_wf V.ntk order ho k hV.ntk p hp
    · exact Or.inl ⟨h1, h2, hpo p hp⟩
    · exact Or.inr h2
  have hx : ∃ a b, V.Agree a b :=
    ⟨fun _ => false, fun _ => false, ⟨fun _ _ _ _ _ => rfl, fun _ _ _ _ _ _ _ => rfl⟩⟩
  obtain ⟨a0, b0, hab0⟩ := hx
  obtain ⟨s1, s2, s3, -⟩ := delete_state V k order hV ho a0 b0 hab0
  have hpos : (order.foldl (deleteGate V) (Ntk.initCopy V.realPis.length, V.initMap)).1.pos = [] := s3.pos
  refine ⟨?_, ?_⟩
  · refine Shape.wf ⟨s2.ext, s2.fanins, s2.gates⟩ ?_
    intro p hp
    rw [hpos] at hp
    simp only [List.nil_append, List.mem_map] at hp
    obtain ⟨q, hq, rfl⟩ := hp
    exact (s1 q (hdom q hq)).1
  · intro a b hab
    obtain ⟨t1, -⟩ := delete_state V k order hV ho a b hab
    unfold Ntk.outputs
    rw [hpos]
    simp only [List.nil_append, List.map_map]
    apply List.map_congr_left
    intro p hp
    exact (t1 p (hdom p hp)).2

/-- Without virtual inputs the network is returned unchanged. -/
theorem C31_no_virtual (V : VNtk) (order : List Nat) (h : ∀ v ∈ V.ntk.pis, V.real v = none) :
    deleteVirtualPis V order = V.ntk := by
  unfold deleteVirtualPis
  rw [if_pos]
  rw [List.all_eq_true]
  intro v hv; rw [h v hv]; rfl

/-- Every output that is driven directly by a virtual input becomes the constant false. -/
theorem C31_output_lost (V : VNtk) (k : Nat) (order : List Nat) (hV : V.WF k) (ho : TopoOrder V.ntk order) (j p : Nat)
    (hp : V.ntk.pos[j]? = some p) (hv : V.real p ≠ none) (b : Nat → Bool) :
    ((deleteVirtualPis V order).outputs b)[j]? = some false := by
  obtain ⟨r, hr⟩ : ∃ r, V.real p = some r := by cases hx : V.real p <;> simp_all
  have hpi := (hV.real p r hr).1
  unfold deleteVirtualPis
  rw [if_neg (by
    simp only [List.all_eq_true, not_forall]
    exact ⟨p, (pis_spec _ _).2 ⟨node_size_of_pi hpi, hpi⟩, by simp [hr]⟩)]
  dsimp only
  rw [foldl_createPo]
  -- the copied gates do not depend on the assignment
  obtain ⟨-, s2, s3, s4⟩ := delete_state V k order hV ho (fun _ => false) (fun _ => false)
    ⟨fun _ _ _ _ _ => rfl, fun _ _ _ _ _ _ _ => rfl⟩
  have hno : p ∉ order := by
    intro h
    have := (ho.gates p h).2
    rw [Node.isPi_gate hpi] at this; cases this
  have h0 : V.initMap p = 0 := by
    unfold VNtk.initMap
    cases hx : V.ntk.node p with
    | pi i => simp [hr]
    | const c => rw [hx] at hpi; cases hpi
    | buf c => rfl
    | gate c d => rfl
  unfold Ntk.outputs
  have hpos : (order.foldl (deleteGate V) (Ntk.initCopy V.realPis.length, V.initMap)).1.pos = [] := s3.pos
  rw [hpos]
  simp only [List.nil_append, List.map_map, List.getElem?_map, hp, Option.map_some, Function.comp]
  rw [s4 p hno, h0]
  congr 1
  have := s3.value b 0 (by rw [initCopy_size]; omega)
  rw [(initCopy_value _ b).1] at this
  exact this

/-- A network with an input, a virtual copy of it and an exclusive-or of both; the second output is driven by
the virtual input. -/
def exVirtual (pos : List Nat) : VNtk :=
  ⟨⟨[.const false, .const true, .pi 0, .pi 1, .gate (fun l => xor (l.getD 0 false) (!(l.getD 1 false))) [2, 3]], pos⟩,
    fun v => if v = 3 then some 2 else none⟩

theorem exVirtual_wf (pos : List Nat) (h : ∀ p ∈ pos, p < 5) : (exVirtual pos).WF 2 := by
  have hb : ∀ i k, (exVirtual pos).ntk.node i = .pi k → i = k + 2 ∧ k < 2 := by
    intro i k hi
    rcases i with _ | _ | _ | _ | _ | i <;> simp [Ntk.node, exVirtual] at hi ⊢ <;> omega
  refine ⟨⟨⟨_, rfl, by simp [Node.isConst]⟩, ?_, ?_, ?_, ?_, h⟩, ?_⟩
  · intro i hi f hf
    rcases i with _ | _ | _ | _ | _ | i <;> simp [Ntk.node, exVirtual, Node.fanins] at hf <;> omega
  · intro i hi
    cases hx : (exVirtual pos).ntk.node i with
    | pi k => exact ⟨k, (hb i k hx).2, rfl⟩
    | const c => rw [hx] at hi; cases hi
    | buf c => rw [hx] at hi; cases hi
    | gate c d => rw [hx] at hi; cases hi
  · intro k hk
    have : k = 0 ∨ k = 1 := by omega
    rcases this with rfl | rfl
    · exact ⟨2, by simp [Ntk.size, exVirtual], rfl⟩
    · exact ⟨3, by simp [Ntk.size, exVirtual], rfl⟩
  · intro i j k hi hj
    have := hb i k hi; have := hb j k hj; omega
  · intro v r hv
    unfold exVirtual at hv
    dsimp only at hv
    split at hv
    · rename_i e; subst e; cases hv; exact ⟨rfl, rfl, rfl⟩
    · cases hv

theorem exVirtual_topo (pos : List Nat) (h4 : 4 ∈ pos) : TopoOrder (exVirtual pos).ntk [4] := by
  refine ⟨by simp, ?_, ?_, ?_, ?_⟩
  · intro g hg; simp at hg; subst hg; exact ⟨by simp [Ntk.size, exVirtual], rfl⟩
  · intro l g r e f hf hg
    match l, e with
    | [], e =>
      simp at e; rw [← e.1] at hf; simp [Ntk.node, exVirtual, Node.fanins] at hf
      rcases hf with rfl | rfl <;> cases hg
    | x :: l, e => simp at e
  · intro p hp hg
    rcases p with _ | _ | _ | _ | _ | p <;> simp [Ntk.node, exVirtual, Node.isGate] at hg ⊢
  · intro g hg; simp at hg; subst hg; exact Or.inl h4

/-- Non-vacuity of `C31_delete_partial`, and a result that is not constant. -/
example : (exVirtual [4, 2]).WF 2 ∧ TopoOrder (exVirtual [4, 2]).ntk [4] ∧ (∀ p ∈ (exVirtual [4, 2]).ntk.pos, (exVirtual [4, 2]).real p = none) ∧
    (∃ v, v ∈ (exVirtual [4, 2]).ntk.pis ∧ (exVirtual [4, 2]).real v ≠ none) ∧ (exVirtual [4, 2]).realPis.length = 1 ∧
    (exVirtual [4, 2]).Agree (fun _ => true) (fun _ => true) ∧
    (deleteVirtualPis (exVirtual [4, 2]) [4]).outputs (fun _ => true) = [true, true] ∧
    (deleteVirtualPis (exVirtual [4, 2]) [4]).outputs (fun _ => false) = [true, false] :=
  ⟨exVirtual_wf _ (by decide), exVirtual_topo _ (by decide), by decide, ⟨3, by decide, by decide⟩, by decide,
    ⟨fun _ _ _ _ _ => rfl, fun _ _ _ _ _ _ _ => rfl⟩, by decide, by decide⟩

/-- The function is not preserved if an output is driven by a virtual input: the identity becomes the constant
false. -/
theorem C31_not_preserved : ∃ (V : VNtk) (order : List Nat) (a b : Nat → Bool), V.WF 2 ∧ TopoOrder V.ntk order ∧ V.Agree a b ∧
    V.ntk.outputs a = [true, true] ∧ (deleteVirtualPis V order).outputs b = [true, false] :=
  ⟨exVirtual [4, 3], [4], fun _ => true, fun _ => true, exVirtual_wf _ (by decide), exVirtual_topo _ (by decide),
    ⟨fun _ _ _ _ _ => rfl, fun _ _ _ _ _ _ _ => rfl⟩, by decide, by decide⟩

end Verif.Networks
