import Verif.PhysicalDesign.OrthoProps
import Verif.Networks.FanoutOrigin

/-! # C60: the whole of `orthogonal`, fanout substitution followed by placement and routing -/
namespace Verif.PhysicalDesign.Ortho

open Verif.Layouts Verif.Clocking Verif.GateLevel Verif.Networks

/-- `has_high_degree_fanin_nodes(ntk, 2)`, network_utils.hpp:260-284: fanins that are constant do not count. -/
def highDegree (S : Ntk) : Bool :=
  S.nodes.any (fun x => decide (2 < (x.fanins.filter (fun f => !(S.node f).isConst)).length))

/-- `orthogonal`, orthogonal.hpp:698-724: networks with gates of more than two fanins are rejected; the others are
fanout-substituted with the default parameters, then placed and routed. `order` and `order' D` are the orders in which `topo_view`
visits the gates of the two networks; `lit` is the literal of the function of a node (the index of its truth table in the store of
the layout). -/
def orthogonal (S : Ntk) (k : Nat) (order : List Nat) (order' : Ntk → List Nat) (lit : Networks.Node → Nat) : Option (Dim × State) :=
  if highDegree S then none
  else
    match fanoutSubstitution ⟨.breadth, 2, 1⟩ S k order with
    | none => none
    | some D => run D (order' D) (fun n => lit (D.node n))

/-- The networks the theorem is about. `tab` is the table of functions of the layout, `lit` the literals of the nodes. -/
structure Source (S : Ntk) (k : Nat) (order : List Nat) (lit : Networks.Node → Nat) (tab : Nat → List Bool → Bool) : Prop where
  wf : S.WF k
  topo : TopoOrder S order
  /-- Gates have one or two fanins, distinct and not constant. -/
  degree : ∀ n, (S.node n).fanins.length ≤ 2
  fed : ∀ n ∈ order, (S.node n).fanins ≠ []
  noConst : ∀ n ∈ order, ∀ f ∈ (S.node n).fanins, (S.node f).isConst = false
  distinct : ∀ n, (S.node n).fanins.Nodup
  /-- There are outputs; no node drives an output and anything else. -/
  someOutput : S.pos ≠ []
  output : ∀ p ∈ S.pos, (S.node p).isConst = false ∧ S.fanoutSize p = 1
  /-- Literal 2 is the identity, the literal of buffers. -/
  wire : ∀ b, tab 2 [b] = b
  litBuf : ∀ f, lit (.buf f) = 2
  /-- The literal of a gate depends on its function only and is an entry of the table for this function. -/
  litGate : ∀ g fs fs', lit (.gate g fs) = lit (.gate g fs')
  fn : ∀ n ∈ order, ∀ g fs, S.node n = .gate g fs → ∀ l, l.length = fs.length → g l = tab (lit (.gate g fs)) l
  /-- Gates with one fanin are buffers and inverters; gates with two fanins are symmetric. -/
  unary : ∀ n ∈ order, (S.node n).fanins.length = 1 → lit (S.node n) = 2 ∨ lit (S.node n) = 3
  symmetric : ∀ n ∈ order, (S.node n).fanins.length = 2 → ∀ b c, tab (lit (S.node n)) [b, c] = tab (lit (S.node n)) [c, b]

theorem not_gate_fanins {x : Networks.Node} (h : x.isGate = false) : x.fanins = [] := by
  cases x <;> simp_all [Networks.Node.isGate, Networks.Node.fanins]

theorem lit_withFanins {lit : Networks.Node → Nat} (hb : ∀ f, lit (.buf f) = 2) (hg : ∀ g fs fs', lit (.gate g fs) = lit (.gate g fs'))
    (x : Networks.Node) (cs : List Nat) : lit (x.withFanins cs) = lit x := by
  cases x with
  | const b => rfl
  | pi k => rfl
  | buf f => rw [Networks.Node.withFanins, hb, hb]
  | gate g fs => exact hg g cs fs

/-- A node over distinct fanins that are not constant, with its literal. -/
structure Fit (N : Ntk) (tab : Nat → List Bool → Bool) (lit : Networks.Node → Nat) (x : Networks.Node) : Prop where
  degree : x.fanins.length ≤ 2
  fed : x.fanins ≠ []
  noConst : ∀ f ∈ x.fanins, (N.node f).isConst = false
  distinct : x.fanins.Nodup
  fn : ∀ a v, x.value a v = tab (lit x) (x.fanins.map v)
  unary : x.fanins.length = 1 → lit x = 2 ∨ lit x = 3
  symmetric : x.fanins.length = 2 → ∀ b c, tab (lit x) [b, c] = tab (lit x) [c, b]

theorem Source.fit {S D : Ntk} {k : Nat} {order : List Nat} {lit : Networks.Node → Nat} {tab : Nat → List Bool → Bool}
    (h : Source S k order lit tab) {x : Networks.Node} (hx : Origin S order D x) : Fit D tab lit x := by
  have hbuf : ∀ f, (D.node f).isConst = false → Fit D tab lit (.buf f) := by
    intro f hf
    refine ⟨by simp [Networks.Node.fanins], by simp [Networks.Node.fanins], by simpa [Networks.Node.fanins] using hf,
      by simp [Networks.Node.fanins], ?_, fun _ => Or.inl (h.litBuf f), by simp [Networks.Node.fanins]⟩
    intro a v
    rw [h.litBuf]
    exact (h.wire _).symm
  rcases hx with ⟨f, rfl, -, hf⟩ | ⟨n, hn, cs, rfl, hl, hnd, hc⟩
  · exact hbuf f hf
  · have hgt := (h.topo.gates n hn).2
    have hlit := lit_withFanins h.litBuf h.litGate (S.node n) cs
    have hdeg := h.degree n
    have hfed := h.fed n hn
    have hun := h.unary n hn
    have hsym := h.symmetric n hn
    have hfn := h.fn n hn
    cases e : S.node n with
    | const b => rw [e] at hgt; cases hgt
    | pi j => rw [e] at hgt; cases hgt
    | buf f =>
      rw [e] at hl
      simp only [Networks.Node.fanins, List.length_singleton] at hl
      obtain ⟨c, rfl⟩ := List.length_eq_one_iff.1 hl
      exact hbuf c (hc c (by simp)).2
    | gate g fs =>
      rw [e] at hl hlit hdeg hfed hun hsym
      simp only [Networks.Node.fanins] at hl hdeg hfed hun hsym
      simp only [Networks.Node.withFanins] at hlit ⊢
      refine ⟨by simp only [Networks.Node.fanins]; omega, ?_, fun c hm => (hc c hm).2, hnd, ?_, ?_, ?_⟩
      · simp only [Networks.Node.fanins]
        rintro rfl
        exact hfed (List.length_eq_zero_iff.1 hl.symm)
      · intro a v
        rw [hlit]
        exact hfn g fs e _ (by rw [List.length_map]; exact hl)
      · intro h1
        rw [hlit]
        exact hun (by rw [← hl]; exact h1)
      · intro h1
        rw [hlit]
        exact hsym (by rw [← hl]; exact h1)

theorem Source.placeable {S D : Ntk} {k : Nat} {order order' : List Nat} {lit : Networks.Node → Nat} {tab : Nat → List Bool → Bool}
    (h : Source S k order lit tab) (hD : fanoutSubstitution ⟨.breadth, 2, 1⟩ S k order = some D) (ho : TopoOrder D order') :
    Placeable D k order' (fun n => lit (D.node n)) tab ∧ D.pis.length = k := by
  obtain ⟨o1, o2, o3, o4⟩ := fanoutSubstitution_origin (ps := ⟨.breadth, 2, 1⟩) (by decide) (by decide) h.wf h.topo h.noConst
    (fun n _ => h.distinct n) hD
  obtain ⟨w1, w2, w3⟩ := C32_function_preserved _ S D k order h.wf h.topo hD
  obtain ⟨m, hm, hp⟩ := o2 (fun p hp => by rw [(h.output p hp).2])
  have hnd : NoDoubleFanin S := by
    intro n _ f _ _
    exact List.nodup_iff_count_le_one.1 (h.distinct n) f
  have hfit : ∀ n, (D.node n).isGate = true → Fit D tab lit (D.node n) := by
    intro n hn
    refine h.fit (o1 n ?_ hn)
    by_contra hc
    rw [Ntk.node_ge _ _ (by omega)] at hn
    cases hn
  have hfit' : ∀ n ∈ order', Fit D tab lit (D.node n) := fun n hn => hfit n (ho.gates n hn).2
  have hall : ∀ n, (D.node n).fanins = [] ∨ Fit D tab lit (D.node n) := by
    intro n
    cases hg : (D.node n).isGate
    · exact Or.inl (not_gate_fanins hg)
    · exact Or.inr (hfit n hg)
  refine ⟨⟨w1, ho, ?_, ?_, fun n hn => (hfit' n hn).fed, ?_,
    C32_accepted_partial _ (by decide) (by decide) S D k order h.wf h.topo hnd (Or.inl (by decide)) hD, ?_, ?_, h.wire,
    fun n hn => (hfit' n hn).fn, fun n hn => (hfit' n hn).unary, ?_, fun n hn => (hfit' n hn).symmetric⟩, by rw [o3]; simp⟩
  · intro i hi
    have hk : i < k := by rw [o3] at hi; simpa using hi
    have : D.pis[i] = 2 + i := by simp [o3]
    rw [this]
    exact o4 i hk
  · intro n
    rcases hall n with e | e
    · rw [e]; simp
    · exact e.degree
  · intro n f hf
    rcases hall n with e | e
    · rw [e] at hf; cases hf
    · exact e.noConst f hf
  · intro hc
    apply h.someOutput
    rw [hm] at hc
    exact List.map_eq_nil_iff.1 hc
  · intro q hq
    have hq' := hq
    rw [hm] at hq'
    obtain ⟨p, hpm, rfl⟩ := List.mem_map.1 hq'
    obtain ⟨a1, a2, -⟩ := hp p hpm
    rw [(h.output p hpm).1] at a1
    rw [(h.output p hpm).2] at a2
    refine ⟨a1, le_antisymm a2 ?_⟩
    have := List.count_pos_iff.2 hq
    unfold Ntk.fanoutSize
    omega
  · intro n
    rcases hall n with e | e
    · rw [e]; exact List.nodup_nil
    · exact e.distinct

/-- For every source network of this form and all orders in which the gates may be visited, `orthogonal` yields a layout in
which the `i`-th output computes the `i`-th output of the source under every assignment, reading the `j`-th input in row `j` of the
first column; the outputs are in the last column and nothing is outside the bounds of the layout.
Missing: constant outputs and fanins; and, false of the code, outputs sharing their driver with other gates, asymmetric functions
and gates reading the same signal twice (`C60_shared_output_wrong`, `C60_asymmetric_gate_wrong`, `C60_double_fanin_wrong`). -/
theorem C60_orthogonal_partial (S : Ntk) (k : Nat) (order : List Nat) (order' : Ntk → List Nat) (lit : Networks.Node → Nat)
    (tab : Nat → List Bool → Bool) (h : Source S k order lit tab)
    (ho : ∀ D, fanoutSubstitution ⟨.breadth, 2, 1⟩ S k order = some D → TopoOrder D (order' D)) (nc : NumClks) :
    ∃ m s, orthogonal S k order order' lit = some (m, s) ∧
      s.inputs.length = k ∧ s.outputs.length = S.pos.length ∧
      (∀ a i b, i < S.pos.length →
        (Val tab m .cart (twoddwaveClocking .cart nc) s a (s.getNode (s.outputs.getD i const0)) b ↔ b = S.value a (S.pos.getD i 0))) ∧
      (∀ t n, t.d = false → s.tileNode t = some n → InBounds m t) ∧
      (∀ j, j < k → ∃ n, s.inputs[j]? = some n ∧ s.getTile n = ⟨0, j, 0, false⟩) ∧
      (∀ t ∈ s.outputs, t.x = m.X ∧ s.getNode t ≠ 0) := by
  obtain ⟨D, hD⟩ := C32_total ⟨.breadth, 2, 1⟩ (by decide) S k order h.wf h.topo
  obtain ⟨hp, hk⟩ := h.placeable hD (ho D hD)
  obtain ⟨-, w2, w3⟩ := C32_function_preserved _ S D k order h.wf h.topo hD
  obtain ⟨m, s, r1, r2, r3, r4, r5, r6, r7⟩ := C60_function_partial D k (order' D) (fun n => lit (D.node n)) tab hp nc
  refine ⟨m, s, ?_, by rw [r2, hk], by rw [r3, w2], ?_, r5, by rw [← hk]; exact r6, r7⟩
  · unfold orthogonal
    rw [if_neg, hD]
    · exact r1
    · unfold highDegree
      rw [List.any_eq_true]
      rintro ⟨x, hx, hl⟩
      obtain ⟨i, hi, rfl⟩ := List.getElem_of_mem hx
      have := h.degree i
      unfold Ntk.node at this
      rw [List.getD_eq_getElem?_getD, List.getElem?_eq_getElem hi] at this
      simp only [Option.getD_some] at this
      have hle := List.length_filter_le (fun f => !(S.node f).isConst) S.nodes[i].fanins
      have := of_decide_eq_true hl
      omega
  · intro a i b hi
    rw [r4 a i b (by rw [w2]; exact hi)]
    have e := congrArg (fun l => l.getD i false) (w3 a)
    simp only [Ntk.outputs, List.getD_eq_getElem?_getD, List.getElem?_map] at e
    have hi' : i < D.pos.length := by rw [w2]; exact hi
    rw [List.getElem?_eq_getElem hi, List.getElem?_eq_getElem hi'] at e
    simp only [Option.map_some, Option.getD_some] at e
    simp only [List.getD_eq_getElem?_getD, List.getElem?_eq_getElem hi, List.getElem?_eq_getElem hi', Option.getD_some]
    rw [e]

/-! ## Examples -/

def exLitF : Networks.Node → Nat
  | .buf _ => 2
  | .gate f _ => if f [true, true] then 4 else if f [true, false] then 12 else 8
  | _ => 0

/-- The hypotheses are met by a half adder, whatever the order in which the gates of the substituted network are visited. -/
example : Source exHalf 2 [4, 5] exLitF exTab := by
  refine ⟨wfCheck_sound (by decide +kernel), topoCheck_sound (by decide +kernel), ?_, by decide, by decide +kernel, ?_, by decide,
    by decide +kernel, by decide, fun _ => rfl, fun _ _ _ => rfl, ?_, by decide +kernel, ?_⟩
  · refine node_cases (N := exHalf) (by decide +kernel) (fun n e => by rw [e]; simp [Node.fanins])
  · refine node_cases (N := exHalf) (by decide +kernel) (fun n e => by rw [e]; simp [Node.fanins])
  · intro n hn g fs e l hl
    simp only [List.mem_cons, List.not_mem_nil, or_false] at hn
    rcases hn with rfl | rfl <;> (cases e; rfl)
  · intro n hn _ b c
    simp only [List.mem_cons, List.not_mem_nil, or_false] at hn
    revert b c
    rcases hn with rfl | rfl <;> decide +kernel

example : (orthogonal exHalf 2 [4, 5] (fun D => (List.range D.size).filter (fun i => (D.node i).isGate)) exLitF).map
    (fun r => (r.1, r.2.outputs.map (fun t => (t.x, t.y)), r.2.size)) = some (⟨5, 4, 1⟩, [(5, 3), (5, 4)], 22) := by
  decide +kernel

end Verif.PhysicalDesign.Ortho
