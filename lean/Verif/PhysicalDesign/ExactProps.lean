import Verif.PhysicalDesign.ExactClocked
import Verif.PhysicalDesign.OrthoProps
import Verif.Networks.SubstitutePo

/-!
# C76: layouts by `exact` compute the function of the network

The function of a layout is `Val`, LayoutFn.lean: the value of a node follows from those of the nodes that `foreach_fanin` visits, which are
neighbours with the preceding clock number. The function of a network is `Ntk.value`. The SMT solver is an arbitrary source of
assignments; nothing is assumed about it but that the assignment meets the constraints.
-/
namespace Verif.PhysicalDesign.Exact

open Verif.Layouts Verif.Clocking Verif.GateLevel Verif.Networks

/-! ## Networks -/

/-- The networks that the theorem is about: results of fanout substitution with `k` inputs over gates with one to three fanins.
`tab` is the table of functions of the layout, `lit` the literals of the nodes, `cap` the number of branches of a node that are
recorded. -/
structure Designable (D : Ntk) (k : Nat) (lit : Networks.Node → Nat) (tab : Nat → List Bool → Bool) (cap : Nat) : Prop where
  wf : D.WF k
  numbered : ∀ j n : Nat, D.pis[j]? = some n → D.node n = .pi j
  someInput : 0 < D.pis.length
  degree : ∀ n, (D.node n).isGate = true → 1 ≤ (D.node n).fanins.length ∧ (D.node n).fanins.length ≤ 3
  noConst : ∀ n, ∀ f ∈ (D.node n).fanins, (D.node f).isConst = false
  output : ∀ p ∈ D.pos, (D.node p).isConst = false
  /-- No gate dangles, no node has more fanouts than branches. -/
  used : ∀ n, (D.node n).isGate = true → 0 < D.fanoutSize n
  bounded : ∀ n, (D.node n).isConst = false → D.fanoutSize n ≤ cap
  capPos : 1 ≤ cap
  /-- Literal 2 is the identity, the literal of buffers. The literal of a gate is an entry of the table for its function; gates with one
  fanin are buffers and inverters. -/
  wire : ∀ b, tab 2 [b] = b
  litBuf : ∀ f, lit (.buf f) = 2
  fn : ∀ n, (D.node n).isGate = true → ∀ a v, (D.node n).value a v = tab (lit (D.node n)) ((D.node n).fanins.map v)
  unary : ∀ n, (D.node n).isGate = true → (D.node n).fanins.length = 1 → lit (D.node n) = 2 ∨ lit (D.node n) = 3

/-- `substitute_po_signals` keeps the functions of the outputs; afterwards every output has a buffer of its own that drives nothing else,
and all other nodes are as before.  -/
theorem C76_po_signals (N : Ntk) (k : Nat) (h : N.WF k) :
    N.substitutePos.pos.length = N.pos.length ∧ (∀ a, N.substitutePos.outputs a = N.outputs a) ∧
    N.substitutePos.pos.Nodup ∧
    (∀ p ∈ N.substitutePos.pos, (N.substitutePos.node p).isBuf = true ∧ N.substitutePos.fanouts p = []) ∧
    ∀ n < N.size, N.substitutePos.node n = N.node n ∧ N.substitutePos.fanoutSize n = N.fanoutSize n := by
  have b := substitutePos_buffered h.fanins h.pos
  have one : ∀ p ∈ N.substitutePos.pos, (N.substitutePos.node p).isBuf = true ∧ N.substitutePos.fanoutSize p = 1 := by
    intro p hp
    obtain ⟨j, hj⟩ := List.mem_iff_getElem?.1 hp
    have hl : j < N.pos.length := by
      rw [← b.length]
      by_contra hc
      rw [List.getElem?_eq_none (by omega)] at hj
      cases hj
    obtain ⟨-, h2, h3, -⟩ := b.done j p hl hj
    exact ⟨h2, h3⟩
  refine ⟨b.length, ?_, ?_, ?_, ?_⟩
  · intro a
    unfold Ntk.outputs
    apply List.ext_getElem?
    intro j
    rw [List.getElem?_map, List.getElem?_map]
    by_cases hj : j < N.pos.length
    · have hj' : j < N.substitutePos.pos.length := by rw [b.length]; exact hj
      rw [List.getElem?_eq_getElem hj, List.getElem?_eq_getElem hj']
      simp only [Option.map_some]
      rw [(b.done j _ hj (List.getElem?_eq_getElem hj')).2.2.2 a _ (List.getElem?_eq_getElem hj)]
    · have hl := b.length
      rw [List.getElem?_eq_none (show N.pos.length ≤ j by omega), List.getElem?_eq_none (show N.substitutePos.pos.length ≤ j by omega)]
      rfl
  · rw [List.nodup_iff_count_le_one]
    intro p
    by_cases hp : p ∈ N.substitutePos.pos
    · have h1 := Ortho.fanouts_le N.substitutePos p
      have := (one p hp).2
      omega
    · rw [List.count_eq_zero_of_not_mem hp]; omega
  · intro p hp
    refine ⟨(one p hp).1, ?_⟩
    have h1 := Ortho.fanouts_le N.substitutePos p
    have h2 := (one p hp).2
    have h3 := List.count_pos_iff.2 hp
    exact List.eq_nil_of_length_eq_zero (by omega)
  · intro n hn
    refine ⟨?_, b.old n hn⟩
    obtain ⟨l, hl, -⟩ := b.nodes
    exact Ext.node (N := N) (N' := { N.substitutePos with pos := N.pos }) ⟨⟨l, hl⟩, rfl⟩ n hn

/-- The nodes of the network with output buffers. -/
theorem substituted_node {N : Ntk} {k : Nat} (h : N.WF k) (n : Nat) :
    (n < N.size ∧ N.substitutePos.node n = N.node n ∧ N.substitutePos.fanoutSize n = N.fanoutSize n) ∨
    (N.size ≤ n ∧ n < N.substitutePos.size ∧ (∃ p ∈ N.pos, N.substitutePos.node n = .buf p) ∧ N.substitutePos.fanoutSize n = 1) ∨
    (N.size ≤ n ∧ N.substitutePos.size ≤ n ∧ N.substitutePos.node n = .const false) := by
  have b := substitutePos_buffered h.fanins h.pos
  obtain ⟨l, hl, hx⟩ := b.nodes
  have hs : N.substitutePos.size = N.size + l.length := by unfold Ntk.size; rw [hl, List.length_append]
  by_cases h1 : n < N.size
  · exact Or.inl ⟨h1, (C76_po_signals N k h).2.2.2.2 n h1⟩
  by_cases h2 : n < N.substitutePos.size
  · refine Or.inr (Or.inl ⟨by omega, h2, ?_, b.new n (by omega) h2⟩)
    have hi : n - N.size < l.length := by omega
    have e : N.substitutePos.node n = l[n - N.size] := by
      unfold Ntk.node
      rw [hl, List.getD_eq_getElem?_getD, List.getElem?_append_right (by unfold Ntk.size at h1; omega)]
      unfold Ntk.size at hi ⊢
      rw [List.getElem?_eq_getElem hi]
      rfl
    rw [e]
    exact hx _ (List.getElem_mem hi)
  · exact Or.inr (Or.inr ⟨by omega, by omega, Ntk.node_ge _ _ (by omega)⟩)

theorem substituted_pis {N : Ntk} {k : Nat} (h : N.WF k) : N.substitutePos.pis = N.pis := by
  have b := substitutePos_buffered h.fanins h.pos
  obtain ⟨l, hl, hx⟩ := b.nodes
  have hs : N.substitutePos.size = N.size + l.length := by unfold Ntk.size; rw [hl, List.length_append]
  unfold Ntk.pis
  rw [hs, List.range_add, List.filter_append]
  have h2 : (List.map (fun x => N.size + x) (List.range l.length)).filter (fun i => (N.substitutePos.node i).isPi) = [] := by
    rw [List.filter_eq_nil_iff]
    intro n hn
    obtain ⟨x, hx, rfl⟩ := List.mem_map.1 hn
    rw [List.mem_range] at hx
    rcases substituted_node h (N.size + x) with ⟨h1, -⟩ | ⟨-, -, ⟨p, -, e⟩, -⟩ | ⟨-, h1, -⟩
    · omega
    · rw [e]; simp [Networks.Node.isPi]
    · omega
  rw [h2, List.append_nil]
  apply List.filter_congr
  intro n hn
  rw [List.mem_range] at hn
  rw [((C76_po_signals N k h).2.2.2.2 n hn).1]

/-- If no gate dangles, all gates are visited. -/
theorem all_visited {N : Ntk} {order : List Nat} (hf : ∀ i < N.size, ∀ f ∈ (N.node i).fanins, f < i) (ht : TopoOrder N order)
    (hu : ∀ n, (N.node n).isGate = true → 0 < N.fanoutSize n) : ∀ n, (N.node n).isGate = true → n ∈ order := by
  have key : ∀ d n, N.size - n ≤ d → (N.node n).isGate = true → n ∈ order := by
    intro d
    induction d with
    | zero =>
      intro n hd hg
      rw [Ntk.node_ge _ _ (by omega)] at hg
      cases hg
    | succ d ih =>
      intro n hd hg
      by_cases hp : n ∈ N.pos
      · exact ht.pos n hp hg
      have h0 := hu n hg
      unfold Ntk.fanoutSize at h0
      rw [List.count_eq_zero_of_not_mem hp, Nat.add_zero] at h0
      obtain ⟨x, hx, hc⟩ : ∃ x ∈ N.nodes, n ∈ x.fanins := by
        by_contra hno
        have hz : (N.nodes.map (fun x => x.fanins.count n)).sum = 0 := by
          apply List.sum_eq_zero
          intro c hc
          obtain ⟨x, hx, rfl⟩ := List.mem_map.1 hc
          exact List.count_eq_zero_of_not_mem fun hm => hno ⟨x, hx, hm⟩
        omega
      obtain ⟨i, hi, rfl⟩ := List.getElem_of_mem hx
      have e : N.node i = N.nodes[i] := by
        unfold Ntk.node
        rw [List.getD_eq_getElem?_getD, List.getElem?_eq_getElem hi]
        rfl
      rw [← e] at hc
      have hlt := hf i hi n hc
      have hi' : i < N.size := hi
      have hio := ih i (by omega) (isGate_of_fanins (List.ne_nil_of_mem hc))
      obtain ⟨l, r, hlr⟩ := List.append_of_mem hio
      have := ht.fanins l i r hlr n hc hg
      rw [hlr]
      exact List.mem_append_left _ this
  intro n hg
  exact key _ n (le_refl _) hg

theorem Designable.ok {D : Ntk} {k : Nat} {lit : Networks.Node → Nat} {tab : Nat → List Bool → Bool} {cap : Nat}
    (h : Designable D k lit tab cap) {order : List Nat} (ht : TopoOrder D.substitutePos order) :
    Ok D.substitutePos order (fun n => lit (D.substitutePos.node n)) tab cap := by
  obtain ⟨p1, p2, p3, p4, p5⟩ := C76_po_signals D k h.wf
  have b := substitutePos_buffered h.wf.fanins h.wf.pos
  have hfan : ∀ i < D.substitutePos.size, ∀ f ∈ (D.substitutePos.node i).fanins, f < i := by
    intro i hi f hf
    rcases substituted_node h.wf i with ⟨h1, e, -⟩ | ⟨h1, -, ⟨p, hp, e⟩, -⟩ | ⟨-, h1, -⟩
    · rw [e] at hf
      exact h.wf.fanins i h1 f hf
    · rw [e] at hf
      have := h.wf.pos p hp
      rw [List.mem_singleton.1 hf]
      omega
    · omega
  have hconst : ∀ f, f < D.size → (D.node f).isConst = false → (D.substitutePos.node f).isConst = false := by
    intro f hf hc
    rw [(p5 f hf).1]
    exact hc
  have hlt : ∀ f, (D.node f).isConst = false → f < D.size := by
    intro f hc
    by_contra hno
    rw [Ntk.node_ge _ _ (by omega)] at hc
    cases hc
  refine ⟨hfan, ht, all_visited hfan ht ?_, ?_, ?_, ?_, h.wire, ?_, ?_, ?_, ?_, fun p hp => (p4 p hp).2, p3, fun p hp => (p4 p hp).1⟩
  · intro n hg
    rcases substituted_node h.wf n with ⟨h1, e, e'⟩ | ⟨h1, -, -, e'⟩ | ⟨-, -, e⟩
    · rw [e']
      exact h.used n (by rw [← e]; exact hg)
    · omega
    · rw [e] at hg
      cases hg
  · intro n f hf
    rcases substituted_node h.wf n with ⟨h1, e, -⟩ | ⟨h1, -, ⟨p, hp, e⟩, -⟩ | ⟨-, -, e⟩
    · rw [e] at hf
      have := h.noConst n f hf
      exact hconst f (hlt f this) this
    · rw [e] at hf
      rw [List.mem_singleton.1 hf]
      exact hconst p (hlt p (h.output p hp)) (h.output p hp)
    · rw [e] at hf
      cases hf
  · intro n hn
    have hg := (ht.gates n hn).2
    rcases substituted_node h.wf n with ⟨h1, e, -⟩ | ⟨h1, -, ⟨p, hp, e⟩, -⟩ | ⟨-, -, e⟩
    · rw [e] at hg ⊢
      exact h.degree n hg
    · rw [e]
      simp [Networks.Node.fanins]
    · rw [e] at hg
      cases hg
  · intro n
    have hle := Ortho.fanouts_le D.substitutePos n
    rcases substituted_node h.wf n with ⟨h1, e, e'⟩ | ⟨h1, -, -, e'⟩ | ⟨h1, h2, e⟩
    · cases hc : (D.node n).isConst with
      | false =>
        have := h.bounded n hc
        omega
      | true =>
        have : D.substitutePos.fanouts n = [] := by
          apply List.eq_nil_iff_forall_not_mem.2
          intro t hto
          have hm := mem_fanouts'.1 hto
          rcases substituted_node h.wf t with ⟨-, e2, -⟩ | ⟨-, -, ⟨p, hp, e2⟩, -⟩ | ⟨-, -, e2⟩
          · rw [e2] at hm
            rw [h.noConst t n hm] at hc
            cases hc
          · rw [e2] at hm
            rw [List.mem_singleton.1 hm, h.output p hp] at hc
            cases hc
          · rw [e2] at hm
            cases hm
        rw [this]
        exact Nat.zero_le _
    · have := h.capPos
      omega
    · have := b.closed n h2
      omega
  · intro n hn a v
    have hg := (ht.gates n hn).2
    rcases substituted_node h.wf n with ⟨h1, e, -⟩ | ⟨h1, -, ⟨p, hp, e⟩, -⟩ | ⟨-, -, e⟩
    · rw [e] at hg
      simp only [e]
      exact h.fn n hg a v
    · simp only [e, h.litBuf]
      exact (h.wire _).symm
    · rw [e] at hg
      cases hg
  · intro n hn
    have hg := (ht.gates n hn).2
    rcases substituted_node h.wf n with ⟨h1, e, -⟩ | ⟨h1, -, ⟨p, hp, e⟩, -⟩ | ⟨-, -, e⟩
    · rw [e] at hg
      simp only [e]
      exact h.unary n hg
    · simp only [e, h.litBuf]
      exact fun _ => Or.inl trivial
    · rw [e] at hg
      cases hg
  · rw [substituted_pis h.wf]
    exact h.someInput
  · intro j n hj
    rw [substituted_pis h.wf] at hj
    have hn := List.mem_of_getElem? hj
    unfold Ntk.pis at hn
    rw [(p5 n (List.mem_range.1 (List.mem_filter.1 hn).1)).1]
    exact h.numbered j n hj

/-! ## C76 -/

/-- Whatever assignment of the variables the solver finds: if it meets the constraints for an aspect ratio, then the layout is built from
it without a violated assertion or an endless recursion, has the inputs and outputs of the network, and its `i`-th output computes the
`i`-th output of the network and nothing else. Everything is within the bounds of the layout; the inputs and outputs are on the ground
tiles on which the assignment places them. For every named regular clocking scheme, Cartesian and hexagonal layouts, with and without
crossings, synchronized or not.
Missing: `2DDWAVE3` on hexagonal layouts, for which no constraints against cycles are generated although its clock zones form cycles
(`C12_2ddwave3_hexagonal_cyclic`); irregular clocking; constant fanins and outputs. -/
theorem C76_function_partial (tp : Topo) (name : List Char) (cs : Scheme) (hget : getClockingScheme tp name = some cs)
    (hreg : cs.regular = true) (hnot : tp ≠ .cart → name.map Char.toUpper ≠ "2DDWAVE3".toList)
    (D : Ntk) (k : Nat) (lit : Networks.Node → Nat) (tab : Nat → List Bool → Bool) (h : Designable D k lit tab tp.maxFanin)
    (order : List Nat) (ht : TopoOrder D.substitutePos order)
    (m : Dim) (hX : m.X < 2 ^ 31 - 1) (hY : m.Y < 2 ^ 31 - 1) (crossings desynchronize : Bool) (hZ : m.Z = if crossings then 1 else 0)
    (A : Asg) (hsat : sat tp m cs D.substitutePos (D.substitutePos.pis ++ order) crossings A desynchronize = true) :
    ∃ s, assign tp m cs D.substitutePos (D.substitutePos.pis ++ order) A (fun n => lit (D.substitutePos.node n)) = some s ∧
      s.inputs.length = D.pis.length ∧ s.outputs.length = D.pos.length ∧
      (∀ a i b, i < D.pos.length →
        (Val tab m tp cs s a (s.getNode (s.outputs.getD i const0)) b ↔ b = D.value a (D.pos.getD i 0))) ∧
      (∀ t n, t.d = false → s.tileNode t = some n → InBounds m t) ∧
      (∀ j p : Nat, D.pis[j]? = some p → ∃ n, s.inputs[j]? = some n ∧ A.tn (s.getTile n) p = true ∧ (s.getTile n).z = 0) ∧
      (∀ i p : Nat, D.substitutePos.pos[i]? = some p → A.tn (s.outputs.getD i const0) p = true ∧ (s.outputs.getD i const0).z = 0 ∧
        s.getNode (s.outputs.getD i const0) ≠ 0) := by
  have hsm : Small m := ⟨hX, hY⟩
  have hb : satBase tp m cs D.substitutePos (D.substitutePos.pis ++ order) crossings A = true := by
    unfold sat at hsat
    exact (Bool.and_eq_true_iff.1 hsat).1
  obtain ⟨p1, p2, -, -, -⟩ := C76_po_signals D k h.wf
  have hpis := substituted_pis h.wf
  obtain ⟨s0, s, e1, hd, e3, e4⟩ := assign_ok (h.ok ht) (clocked_named hget hreg hnot hsm) hZ hb
  have hnd : s.inputs.Nodup := by
    rw [hd.inputs]
    exact List.nodup_range.map (fun x y e => by simpa using e)
  refine ⟨s, e1, by rw [hd.inputs, hpis]; simp, by rw [hd.len, p1], ?_, e3, ?_, ?_⟩
  · intro a i b hi
    have hi' : i < D.substitutePos.pos.length := by rw [p1]; exact hi
    obtain ⟨t, -, -, ho, hv⟩ := hd.out i _ (List.getElem?_eq_getElem hi')
    have ev : D.substitutePos.value a D.substitutePos.pos[i] = D.value a (D.pos.getD i 0) := by
      have e := congrArg (fun l => l.getD i false) (p2 a)
      simp only [Ntk.outputs, List.getD_eq_getElem?_getD, List.getElem?_map] at e
      rw [List.getElem?_eq_getElem hi, List.getElem?_eq_getElem hi'] at e
      simp only [Option.map_some, Option.getD_some] at e
      simp only [List.getD_eq_getElem?_getD, List.getElem?_eq_getElem hi, Option.getD_some]
      exact e
    rw [← ev, List.getD_eq_getElem?_getD, ho, Option.getD_some]
    have hv' := (hv a).toVal hd.wf hd.inputs
    exact ⟨fun hb => hb.unique hnd hv', fun e => by rw [e]; exact hv'⟩
  · intro j p hj
    obtain ⟨t, htm, htn, htile⟩ := e4 j p (by rw [hpis]; exact hj)
    have hl : j < D.substitutePos.pis.length := by
      rw [hpis]
      by_contra hc
      rw [List.getElem?_eq_none (by omega)] at hj
      cases hj
    have hti := (tile_of hd.wf htile).2.2
    refine ⟨2 + j, ?_, ?_, ?_⟩
    · rw [hd.inputs]
      simp [hl]
    · rw [hti]; exact htn
    · rw [hti]; exact (mem_tiles.1 htm).2.1
  · intro i p hi
    obtain ⟨t, htm, htn, ho, hv⟩ := hd.out i p hi
    rw [List.getD_eq_getElem?_getD, ho, Option.getD_some]
    refine ⟨htn, (mem_tiles.1 htm).2.1, ?_⟩
    obtain ⟨-, n, hn⟩ := (hv (fun _ => false)).occupied
    rw [(tile_of hd.wf hn).2.1]
    rintro rfl
    have := (hd.wf.live _ _ hn).1 (by omega)
    rw [(mem_tiles.1 htm).1] at this
    cases this

/-! ## Examples -/

/-- The conjunction of two inputs. -/
def exAnd : Ntk := ⟨[.const false, .const true, .pi 0, .pi 1, .gate Ortho.AND [2, 3]], [4]⟩

def exLitG : Networks.Node → Nat
  | .buf _ => 2
  | .gate _ _ => 4
  | _ => 0

/-- Inputs on (1,0) and (0,1), the gate on (1,1), the output on (2,1). -/
def exAsg : Asg where
  tn t n := (n == 2 && t == ⟨1, 0, 0, false⟩) || (n == 3 && t == ⟨0, 1, 0, false⟩) || (n == 4 && t == ⟨1, 1, 0, false⟩) ||
    (n == 5 && t == ⟨2, 1, 0, false⟩)
  te _ _ := false
  tc t u := (u == ⟨1, 1, 0, false⟩ && (t == ⟨1, 0, 0, false⟩ || t == ⟨0, 1, 0, false⟩)) || (u == ⟨2, 1, 0, false⟩ && t == ⟨1, 1, 0, false⟩)
  tp _ _ := false
  ncl _ c := c == 1

/-- The hypotheses of `C76_function_partial` are met. -/
example : getClockingScheme .cart "2ddwave".toList = some (twoddwaveClocking .cart .four) ∧
    (twoddwaveClocking .cart .four).regular = true ∧ Designable exAnd 2 exLitG Ortho.exTab (Topo.maxFanin .cart) ∧
    TopoOrder exAnd.substitutePos [4, 5] ∧
    sat .cart ⟨2, 1, 0⟩ (twoddwaveClocking .cart .four) exAnd.substitutePos (exAnd.substitutePos.pis ++ [4, 5]) false exAsg false = true := by
  refine ⟨by rfl, rfl, ?_, topoCheck_sound (by decide +kernel), by decide +kernel⟩
  refine ⟨wfCheck_sound (by decide +kernel), ?_, by decide +kernel, ?_, ?_, by decide +kernel, ?_, ?_, by decide, by decide, fun _ => rfl, ?_,
    ?_⟩
  · intro j n h
    rw [show exAnd.pis = [2, 3] by decide +kernel] at h
    rcases j with _ | _ | j
    · cases h; rfl
    · cases h; rfl
    · simp at h
  · refine Ortho.node_cases (N := exAnd) (by decide +kernel) (fun n e => by rw [e]; intro h; cases h)
  · refine Ortho.node_cases (N := exAnd) (by decide +kernel) (fun n e => by rw [e]; simp [Networks.Node.fanins])
  · refine Ortho.node_cases (N := exAnd) (by decide +kernel) (fun n e => by rw [e]; intro h; cases h)
  · refine Ortho.node_cases (N := exAnd) (by decide +kernel) (fun n e => by rw [e]; intro h; cases h)
  · intro n hn a v
    match n with
    | 0 | 1 | 2 | 3 => cases hn
    | 4 => rfl
    | n + 5 => rw [Ntk.node_ge _ _ (by simp [exAnd, Ntk.size])] at hn; cases hn
  · refine Ortho.node_cases (N := exAnd) (by decide +kernel) (fun n e => by rw [e]; intro h; cases h)

/-- The layout of the example. -/
example : (assign .cart ⟨2, 1, 0⟩ (twoddwaveClocking .cart .four) exAnd.substitutePos (exAnd.substitutePos.pis ++ [4, 5]) exAsg
    (fun n => exLitG (exAnd.substitutePos.node n))).map (fun s => (s.inputs.map s.getTile, s.outputs, s.tileNode ⟨1, 1, 0, false⟩)) =
      some ([⟨1, 0, 0, false⟩, ⟨0, 1, 0, false⟩], [⟨2, 1, 0, false⟩], some 4) := by
  decide +kernel

/-- Two wires that cross. -/
def exWires : Ntk := ⟨[.const false, .const true, .pi 0, .pi 1], [2, 3]⟩

/-- Inputs on (1,0) and (0,1), a crossing on (1,1), the outputs on (1,2) and (2,1). -/
def exCross : Asg where
  tn t n := (n == 2 && t == ⟨1, 0, 0, false⟩) || (n == 3 && t == ⟨0, 1, 0, false⟩) || (n == 4 && t == ⟨1, 2, 0, false⟩) ||
    (n == 5 && t == ⟨2, 1, 0, false⟩)
  te t _ := t == ⟨1, 1, 0, false⟩
  tc t u := (u == ⟨1, 1, 0, false⟩ && (t == ⟨1, 0, 0, false⟩ || t == ⟨0, 1, 0, false⟩)) ||
    (t == ⟨1, 1, 0, false⟩ && (u == ⟨1, 2, 0, false⟩ || u == ⟨2, 1, 0, false⟩))
  tp _ _ := false
  ncl _ c := c == 1

/-- The constraints with crossings are met; without crossings they are not. -/
example : exWires.substitutePos.pos = [4, 5] ∧
    sat .cart ⟨2, 2, 1⟩ (twoddwaveClocking .cart .four) exWires.substitutePos (exWires.substitutePos.pis ++ [4, 5]) true exCross false = true ∧
    sat .cart ⟨2, 2, 1⟩ (twoddwaveClocking .cart .four) exWires.substitutePos (exWires.substitutePos.pis ++ [4, 5]) false exCross false =
      false := by
  decide +kernel

/-- The second wire is placed above the first. -/
example : (assign .cart ⟨2, 2, 1⟩ (twoddwaveClocking .cart .four) exWires.substitutePos (exWires.substitutePos.pis ++ [4, 5]) exCross
    (fun n => exLitG (exWires.substitutePos.node n))).map
      (fun s => (s.outputs, s.tileNode ⟨1, 1, 0, false⟩, s.tileNode ⟨1, 1, 1, false⟩, (s.nodes (s.getNode ⟨2, 1, 0, false⟩)).children)) =
      some ([⟨1, 2, 0, false⟩, ⟨2, 1, 0, false⟩], some 4, some 5, [⟨1, 1, 1, false⟩]) := by
  decide +kernel

end Verif.PhysicalDesign.Exact
