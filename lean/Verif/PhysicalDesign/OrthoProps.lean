import Verif.PhysicalDesign.OrthoSpec
import Verif.Networks.Check

/-!
# C60: orthogonal physical design
-/
namespace Verif.PhysicalDesign.Ortho

open Verif.Layouts Verif.Clocking Verif.GateLevel Verif.Networks

/-! ## Specification -/

/-- The networks and orders the theorem is about. `tab` is the table of functions of the layout, `lit` the literals of the nodes. -/
structure Placeable (N : Ntk) (k : Nat) (order : List Nat) (lit : Nat → Nat) (tab : Nat → List Bool → Bool) : Prop where
  wf : N.WF k
  topo : TopoOrder N order
  /-- Inputs are numbered in the order of their creation. -/
  numbered : ∀ i (h : i < N.pis.length), N.node N.pis[i] = .pi i
  /-- Gates have one or two fanins that are not constant. -/
  degree : ∀ n, (N.node n).fanins.length ≤ 2
  fed : ∀ n ∈ order, (N.node n).fanins ≠ []
  noConst : ∀ n, ∀ f ∈ (N.node n).fanins, (N.node f).isConst = false
  /-- The network is fanout-substituted with the default parameters. -/
  substituted : isFanoutSubstituted ⟨.breadth, 2, 1⟩ N = true
  /-- There are outputs; no node drives an output and anything else. -/
  someOutput : N.pos ≠ []
  output : ∀ p ∈ N.pos, (N.node p).isConst = false ∧ N.fanoutSize p = 1
  /-- The functions of the nodes are those in the table; 2 stands for the identity. -/
  wire : ∀ b, tab 2 [b] = b
  fn : ∀ n ∈ order, ∀ a v, (N.node n).value a v = tab (lit n) ((N.node n).fanins.map v)
  /-- Nodes with one fanin are buffers and inverters. -/
  unary : ∀ n ∈ order, (N.node n).fanins.length = 1 → lit n = 2 ∨ lit n = 3
  /-- The fanins of a gate are distinct. -/
  distinct : ∀ n, (N.node n).fanins.Nodup
  /-- The functions of gates with two fanins are symmetric. -/
  symmetric : ∀ n ∈ order, (N.node n).fanins.length = 2 → ∀ b c, tab (lit n) [b, c] = tab (lit n) [c, b]

/-! ## Lemmas -/

theorem countP_le_sum (n : Nat) : ∀ l : List Networks.Node, l.countP (fun x => decide (n ∈ x.fanins)) ≤ (l.map (fun x => x.fanins.count n)).sum
  | [] => by simp
  | x :: l => by
    rw [List.countP_cons, List.map_cons, List.sum_cons]
    have := countP_le_sum n l
    by_cases h : n ∈ x.fanins
    · have := List.count_pos_iff.2 h
      simp only [h, decide_true, if_true]
      omega
    · simp only [h, decide_false, Bool.false_eq_true, if_false]
      omega

theorem nodes_eq (N : Ntk) : (List.range N.size).map N.node = N.nodes := by
  apply List.ext_getElem
  · simp [Ntk.size]
  · intro i h1 h2
    simp only [List.getElem_map, List.getElem_range, Ntk.node]
    rw [List.getD_eq_getElem?_getD, List.getElem?_eq_getElem h2]
    rfl

theorem fanouts_le (N : Ntk) (n : Nat) : (N.fanouts n).length + N.pos.count n ≤ N.fanoutSize n := by
  have h := countP_le_sum n N.nodes
  have e : (N.fanouts n).length = N.nodes.countP (fun x => decide (n ∈ x.fanins)) := by
    conv_rhs => rw [← nodes_eq N]
    rw [List.countP_map, Ntk.fanouts, ← List.countP_eq_length_filter]
    rfl
  unfold Ntk.fanoutSize
  omega

theorem Placeable.ok {N : Ntk} {k : Nat} {order : List Nat} {lit : Nat → Nat} {tab : Nat → List Bool → Bool} (h : Placeable N k order lit tab) :
    Ok N order lit tab := by
  have hsub := (C32_check_exact ⟨.breadth, 2, 1⟩ N).1 h.substituted
  have hlt : ∀ n, N.size ≤ n → N.node n = .const false := fun n hn => Ntk.node_ge _ _ hn
  have hnil : ∀ s, (N.node s).isConst = true → N.fanouts s = [] := by
    intro s hs
    apply List.eq_nil_iff_forall_not_mem.2
    intro t ht
    have := h.noConst t s (mem_fanouts.1 ht)
    rw [hs] at this; cases this
  have hsize : ∀ s, (N.node s).isConst = false → s < N.size := by
    intro s hs
    by_contra hc
    rw [hlt s (by omega)] at hs
    cases hs
  refine ⟨h.wf.fanins, h.topo, ⟨h.distinct, h.degree, ?_⟩, fun n _ => h.noConst n, h.fed, ?_, h.wire, h.fn, h.unary, h.symmetric, ?_, ?_, ?_,
    fun p hp => (h.output p hp).1, h.wf.pos⟩
  · intro s
    cases hc : (N.node s).isConst with
    | true => rw [hnil s hc]; simp
    | false =>
      have h1 := fanouts_le N s
      obtain ⟨h2, h3⟩ := hsub s (hsize s hc) hc
      by_cases hb : (N.node s).isBuf = true ∧ 1 < N.fanoutSize s
      · have := h2 hb; simp only at this; omega
      · have := h3 hb; simp only at this; omega
  · intro n hp
    have hc : (N.node n).isConst = false := by cases e : N.node n <;> rw [e] at hp <;> simp_all [Node.isPi, Node.isConst]
    have h1 := fanouts_le N n
    have := (hsub n (hsize n hc) hc).2 (by rintro ⟨hb, -⟩; cases e : N.node n <;> rw [e] at hp hb <;> simp_all [Node.isPi, Node.isBuf])
    simp only at this
    omega
  · intro l n r e
    have hlen : l.length < N.pis.length := by rw [e]; simp
    have := h.numbered l.length hlen
    rwa [show N.pis[l.length] = n by simp [e]] at this
  · intro p hp
    have h1 := fanouts_le N p
    have h2 := (h.output p hp).2
    have h3 := List.count_pos_iff.2 hp
    exact List.eq_nil_of_length_eq_zero (by omega)
  · rw [List.nodup_iff_count_le_one]
    intro p
    by_cases hp : p ∈ N.pos
    · have h1 := fanouts_le N p
      have h2 := (h.output p hp).2
      omega
    · rw [List.count_eq_zero_of_not_mem hp]; omega

/-! ## C60 -/

/-- The layout exists and has the inputs and outputs of the network; each output computes the function of the network's output, and nothing
else; everything is within the bounds of the layout; the inputs are on the western border in their order and the outputs on the eastern
border. The layout is clocked by 2DDWave with three or four phases, and data flows only between neighbouring tiles with consecutive clock
numbers (`foreach_fanin`).
Missing (false of the code, see below): outputs whose driver has another fanout, gates with equal fanins, two-input gates whose function is
not symmetric. Not modelled: constant fanins and outputs. -/
theorem C60_function_partial (N : Ntk) (k : Nat) (order : List Nat) (lit : Nat → Nat) (tab : Nat → List Bool → Bool)
    (h : Placeable N k order lit tab) (nc : NumClks) :
    ∃ m s, run N order lit = some (m, s) ∧
      s.inputs.length = N.pis.length ∧ s.outputs.length = N.pos.length ∧
      (∀ a i b, i < N.pos.length →
        (Val tab m .cart (twoddwaveClocking .cart nc) s a (s.getNode (s.outputs.getD i const0)) b ↔ b = N.value a (N.pos.getD i 0))) ∧
      (∀ t n, t.d = false → s.tileNode t = some n → InBounds m t) ∧
      (∀ j, j < N.pis.length → ∃ n, s.inputs[j]? = some n ∧ s.getTile n = ⟨0, j, 0, false⟩) ∧
      (∀ t ∈ s.outputs, t.x = m.X ∧ s.getNode t ≠ 0) := by
  obtain ⟨m, s, G, pos, hrun, hZ, hi, -⟩ := run_ok h.ok h.someOutput
  refine ⟨m, s, hrun, by rw [hi.inputs]; simp, by rw [hi.outputs]; simp, ?_, ?_, ?_, ?_⟩
  · intro a i b hl
    have hp : N.pos.getD i 0 ∈ N.pos := by
      rw [List.getD_eq_getElem?_getD, List.getElem?_eq_getElem hl]
      exact List.getElem_mem hl
    have hv := hi.toVal hZ nc (hi.val _ hp a)
    have ho : s.outputs.getD i const0 = ⟨m.X, (pos (N.pos.getD i 0)).y, 0, false⟩ := by
      rw [hi.outputs]
      simp [List.getD_eq_getElem?_getD, hl]
    rw [ho]
    have hnd : s.inputs.Nodup := by
      rw [hi.inputs]
      exact List.nodup_range.map (fun x y e => by simpa using e)
    constructor
    · exact fun hb => hb.unique hnd hv
    · rintro rfl; exact hv
  · exact fun t n ht hn => hi.inBounds hZ ht hn
  · intro j hj
    refine ⟨2 + j, ?_, (hi.tile_of (hi.piTile j hj)).2.2⟩
    rw [hi.inputs]
    simp [hj]
  · intro t ht
    rw [hi.outputs] at ht
    obtain ⟨p, hp, rfl⟩ := List.mem_map.1 ht
    refine ⟨rfl, ?_⟩
    obtain ⟨-, n, hn⟩ := (hi.val p hp (fun _ => false)).occupied
    rw [(hi.tile_of hn).2.1]
    rintro rfl
    have := (hi.rep.wf.live _ _ hn).1 (by omega)
    cases this

/-! ## Examples -/

def AND : List Bool → Bool | [a, b] => a && b | _ => false
def XOR : List Bool → Bool | [a, b] => xor a b | _ => false
/-- The literals 2 (identity), 3 (negation), 4 (and), 8 (less than), 12 (exclusive or) of `gate_level_layout`. -/
def exTab : Nat → List Bool → Bool
  | 2, [a] => a
  | 3, [a] => !a
  | 4, l => AND l
  | 8, [a, b] => !a && b
  | 12, l => XOR l
  | _, _ => false
def exLit (N : Ntk) (n : Nat) : Nat :=
  match N.node n with
  | .buf _ => 2
  | .gate f _ => if f [true, true] then 4 else if f [true, false] then 12 else 8
  | _ => 0

/-- A half adder. -/
def exHalf : Ntk := ⟨[.const false, .const true, .pi 0, .pi 1, .gate XOR [2, 3], .gate AND [2, 3]], [4, 5]⟩
/-- Its fanout substitution. -/
def exHalfD : Ntk :=
  ⟨[.const false, .const true, .pi 0, .pi 1, .buf 2, .buf 3, .gate XOR [4, 5], .gate AND [4, 5]], [6, 7]⟩

theorem node_cases {N : Ntk} {P : Nat → Prop} (h : ∀ n < N.size, P n) (h' : ∀ n, N.node n = .const false → P n) : ∀ n, P n := by
  intro n
  by_cases hn : n < N.size
  · exact h n hn
  · exact h' n (Ntk.node_ge _ _ (by omega))

theorem exHalf_placeable : Placeable exHalfD 2 [4, 5, 6, 7] (exLit exHalfD) exTab := by
  refine ⟨wfCheck_sound (by decide +kernel), topoCheck_sound (by decide +kernel), ?_, ?_, by decide, ?_, by decide +kernel, by decide,
    by decide +kernel, by decide, ?_, by decide +kernel, ?_, ?_⟩
  · intro i hi
    have : i < 2 := hi
    interval_cases i <;> rfl
  · refine node_cases (N := exHalfD) (by decide +kernel) (fun n e => by rw [e]; simp [Node.fanins])
  · refine node_cases (N := exHalfD) (by decide +kernel) (fun n e => by rw [e]; simp [Node.fanins])
  · intro n hn a v
    simp only [List.mem_cons, List.not_mem_nil, or_false] at hn
    rcases hn with rfl | rfl | rfl | rfl <;> rfl
  · refine node_cases (N := exHalfD) (by decide +kernel) (fun n e => by rw [e]; simp [Node.fanins])
  · intro n hn _ b c
    simp only [List.mem_cons, List.not_mem_nil, or_false] at hn
    revert b c
    rcases hn with rfl | rfl | rfl | rfl <;> decide +kernel

/-- The hypotheses are met by the result of fanout substitution of a half adder, and the layout is not trivial. -/
example : Placeable exHalfD 2 [4, 5, 6, 7] (exLit exHalfD) exTab ∧
    (fanoutSubstitution ⟨.breadth, 2, 1⟩ exHalf 2 [4, 5]).map (fun D => (D.nodes.map Node.fanins, D.pos)) =
      some (exHalfD.nodes.map Node.fanins, exHalfD.pos) ∧
    (run exHalfD [4, 5, 6, 7] (exLit exHalfD)).map (fun r => (r.1, r.2.outputs.map (fun t => (t.x, t.y)), r.2.size)) =
      some (⟨5, 4, 1⟩, [(5, 3), (5, 4)], 22) :=
  ⟨exHalf_placeable, by decide +kernel, by decide +kernel⟩

/-! ## Disagreements -/

/-- What the outputs of the layout compute under the assignment `a`. -/
def outputValues (N : Ntk) (order : List Nat) (a : Nat → Bool) : Option (List (Option Bool)) :=
  (run N order (exLit N)).map (fun r =>
    r.2.outputs.map (fun t => eval exTab r.1 .cart (twoddwaveClocking .cart .four) r.2 a 100 (r.2.getNode t)))

/-- What `outputValues` yields are values of the layout. -/
theorem outputValues_sound {N : Ntk} {order : List Nat} {a : Nat → Bool} {i : Nat} {b : Bool} {l : List (Option Bool)}
    (h : outputValues N order a = some l) (hi : l[i]? = some (some b)) :
    ∃ m s, run N order (exLit N) = some (m, s) ∧
      Val exTab m .cart (twoddwaveClocking .cart .four) s a (s.getNode (s.outputs.getD i const0)) b := by
  unfold outputValues at h
  rw [Option.map_eq_some_iff] at h
  obtain ⟨⟨m, s⟩, hr, rfl⟩ := h
  refine ⟨m, s, hr, eval_sound (f := 100) ?_⟩
  rw [List.getElem?_map, Option.map_eq_some_iff] at hi
  obtain ⟨t, ht, he⟩ := hi
  rw [List.getD_eq_getElem?_getD, ht]
  exact he

/-- Two inputs `a`, `b`; `x = a ⊕ b`; the outputs are `x ∧ b`, `x` and `(x ∧ a) ⊕ a`. -/
def exShared : Ntk :=
  ⟨[.const false, .const true, .pi 0, .pi 1, .gate XOR [2, 3], .gate AND [4, 3], .gate AND [4, 2], .gate XOR [6, 2]], [5, 4, 7]⟩
/-- Its fanout substitution. -/
def exSharedD : Ntk :=
  ⟨[.const false, .const true, .pi 0, .pi 1, .buf 2, .buf 4, .buf 3, .gate XOR [4, 6], .buf 7, .buf 8, .gate AND [8, 6], .gate AND [9, 5],
    .gate XOR [11, 5]], [10, 9, 12]⟩

/-- Bug: if a node drives an output and another gate, the wire to the output and the wires to the gates can meet on the same tile. Only the
first fanout decides where the output goes, and the rows that are added are not kept free. Here the second output overwrites the wire
to the first one, which then computes the second output: for `a = 1`, `b = 0` the layout yields 1 and the network 0. -/
theorem C60_shared_output_wrong :
    (fanoutSubstitution ⟨.breadth, 2, 1⟩ exShared 2 [4, 5, 6, 7]).map (fun D => (D.nodes.map Node.fanins, D.pos)) =
      some (exSharedD.nodes.map Node.fanins, exSharedD.pos) ∧
    TopoOrder exSharedD [4, 6, 7, 8, 10, 9, 5, 11, 12] ∧ isFanoutSubstituted ⟨.breadth, 2, 1⟩ exSharedD = true ∧
    outputValues exSharedD [4, 6, 7, 8, 10, 9, 5, 11, 12] (fun k => k == 0) = some [some true, some true, some false] ∧
    exSharedD.outputs (fun k => k == 0) = [false, true, false] ∧ exShared.outputs (fun k => k == 0) = [false, true, false] :=
  ⟨by decide +kernel, topoCheck_sound (by decide +kernel), by decide +kernel, by decide +kernel, by decide +kernel, by decide +kernel⟩

def LESS : List Bool → Bool | [a, b] => !a && b | _ => false
/-- `¬a ∧ b` and `¬b ∧ a`. -/
def exLess : Ntk := ⟨[.const false, .const true, .pi 0, .pi 1, .gate LESS [2, 3]], [4]⟩
def exLess' : Ntk := ⟨[.const false, .const true, .pi 0, .pi 1, .gate LESS [3, 2]], [4]⟩

/-- Bug: the fanins of a gate are given in the order of their position, not in their own order. One of the two gates that compute
`¬a ∧ b` and `¬b ∧ a` therefore has the wrong function. -/
theorem C60_asymmetric_gate_wrong :
    TopoOrder exLess [4] ∧ TopoOrder exLess' [4] ∧
    isFanoutSubstituted ⟨.breadth, 2, 1⟩ exLess = true ∧ isFanoutSubstituted ⟨.breadth, 2, 1⟩ exLess' = true ∧
    ∃ N ∈ [exLess, exLess'], ∃ b, outputValues N [4] (fun k => k == 0) = some [some b] ∧ N.outputs (fun k => k == 0) ≠ [b] := by
  refine ⟨topoCheck_sound (by decide +kernel), topoCheck_sound (by decide +kernel), by decide +kernel, by decide +kernel, ?_⟩
  decide +kernel

/-- `a ∧ a`. -/
def exTwice : Ntk := ⟨[.const false, .const true, .pi 0, .gate AND [2, 2]], [3]⟩
/-- Its fanout substitution. -/
def exTwiceD : Ntk := ⟨[.const false, .const true, .pi 0, .buf 2, .gate AND [3, 3]], [4]⟩

/-- Bug: of a gate with the same fanin twice, the second wire ends on the gate's own tile and the gate becomes its own fanin. The layout
has only one fanin for the gate. -/
theorem C60_double_fanin_wrong :
    (fanoutSubstitution ⟨.breadth, 2, 1⟩ exTwice 1 [3]).map (fun D => (D.nodes.map Node.fanins, D.pos)) =
      some (exTwiceD.nodes.map Node.fanins, exTwiceD.pos) ∧
    TopoOrder exTwiceD [3, 4] ∧ isFanoutSubstituted ⟨.breadth, 2, 1⟩ exTwiceD = true ∧
    (run exTwiceD [3, 4] (exLit exTwiceD)).map (fun r =>
      (r.2.tileNode ⟨1, 2, 0, false⟩, (r.2.nodes 6).fn, (r.2.nodes 6).children,
        r.2.fanins r.1 .cart (twoddwaveClocking .cart .four) true 6)) =
      some (some 6, 4, [⟨1, 1, 0, false⟩, ⟨1, 2, 0, false⟩], [⟨1, 1, 0, false⟩]) :=
  ⟨by decide +kernel, topoCheck_sound (by decide +kernel), by decide +kernel, by decide +kernel⟩

end Verif.PhysicalDesign.Ortho
