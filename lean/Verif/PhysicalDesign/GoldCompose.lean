import Verif.PhysicalDesign.GoldOrder
import Verif.PhysicalDesign.GoldProps
import Verif.PhysicalDesign.OrthoCompose
import Verif.PhysicalDesign.ExactProps

/-!
# C89: from the network to the layout

The outputs are given buffers, fanouts are substituted, the nodes are put into an order, and the search places and routes them.
-/
namespace Verif.PhysicalDesign.Gold

open Verif.Layouts Verif.Clocking Verif.GateLevel Verif.Networks Verif.Paths Verif.PhysicalDesign.ColorRouting Verif.PhysicalDesign.Ortho

/-- A search space of graph-oriented layout design, graph_oriented_layout_design.hpp:794, 2197-2385: a fanout-substituted network, the
nodes in the order of their placement, and the locations allowed for inputs. -/
def space (D : Ntk) (lit : Networks.Node → Nat) (locs : PiLocs) (ciToCo : Bool) (perm : Nat → List Nat → List Nat) (starts : List Nat) : Space :=
  ⟨D, nodesToPlace D (topoOrder D ciToCo perm starts), fun n => lit (D.node n), locs⟩

/-- The networks the theorem is about. `tab` is the table of functions of the layout, `lit` the literals of the nodes. -/
structure Origins (N : Ntk) (k : Nat) (lit : Networks.Node → Nat) (tab : Nat → List Bool → Bool) : Prop where
  wf : N.WF k
  somePi : 0 < k
  /-- Gates have one or two fanins, distinct and not constant; outputs are not constant. -/
  degree : ∀ n, (N.node n).fanins.length ≤ 2
  fed : ∀ n, (N.node n).isGate = true → (N.node n).fanins ≠ []
  noConst : ∀ n, ∀ f ∈ (N.node n).fanins, (N.node f).isConst = false
  distinct : ∀ n, (N.node n).fanins.Nodup
  output : ∀ p ∈ N.pos, (N.node p).isConst = false
  /-- Literal 2 is the identity, the literal of buffers. -/
  wire : ∀ b, tab 2 [b] = b
  litBuf : ∀ f, lit (.buf f) = 2
  /-- The literal of a gate depends on its function only and is an entry of the table for this function. -/
  litGate : ∀ g fs fs', lit (.gate g fs) = lit (.gate g fs')
  fn : ∀ n g fs, N.node n = .gate g fs → ∀ l, l.length = fs.length → g l = tab (lit (.gate g fs)) l
  /-- Gates with one fanin are buffers and inverters. -/
  unary : ∀ n, (N.node n).fanins.length = 1 → lit (N.node n) = 2 ∨ lit (N.node n) = 3

theorem substituted_wf {N : Ntk} {k : Nat} (h : N.WF k) : N.substitutePos.WF k := by
  have b := substitutePos_buffered h.fanins h.pos
  obtain ⟨l, hl, hx⟩ := b.nodes
  have hsz : N.size ≤ N.substitutePos.size := by unfold Ntk.size; rw [hl, List.length_append]; omega
  have hold := (Exact.C76_po_signals N k h).2.2.2.2
  refine ⟨?_, ?_, ?_, ?_, ?_, ?_⟩
  · obtain ⟨r, hr, hc⟩ := h.consts
    refine ⟨r ++ l, by rw [hl, hr]; rfl, ?_⟩
    intro x hx'
    rw [List.mem_append] at hx'
    rcases hx' with h1 | h1
    · exact hc x h1
    · obtain ⟨p, -, rfl⟩ := hx x h1
      rfl
  · intro i hi f hf
    rcases Exact.substituted_node h i with ⟨h1, h2, -⟩ | ⟨h1, -, ⟨p, hp, h2⟩, -⟩ | ⟨-, h1, -⟩
    · rw [h2] at hf
      exact h.fanins i h1 f hf
    · rw [h2] at hf
      simp only [Networks.Node.fanins, List.mem_singleton] at hf
      have := h.pos p hp
      omega
    · omega
  · intro i hi
    rcases Exact.substituted_node h i with ⟨h1, h2, -⟩ | ⟨h1, -, ⟨p, hp, h2⟩, -⟩ | ⟨-, -, h2⟩
    · rw [h2] at hi ⊢
      exact h.pis i hi
    · rw [h2] at hi; cases hi
    · rw [h2] at hi; cases hi
  · intro j hj
    obtain ⟨i, h1, h2⟩ := h.pisAll j hj
    exact ⟨i, by omega, by rw [(hold i h1).1]; exact h2⟩
  · intro i j n h1 h2
    have key : ∀ i, N.substitutePos.node i = .pi n → N.node i = .pi n := by
      intro i hi
      rcases Exact.substituted_node h i with ⟨-, h2, -⟩ | ⟨-, -, ⟨p, -, h2⟩, -⟩ | ⟨-, -, h2⟩ <;> rw [h2] at hi
      · exact hi
      · cases hi
      · cases hi
    exact h.pisInj i j n (key i h1) (key j h2)
  · intro p hp
    obtain ⟨j, hj⟩ := List.mem_iff_getElem?.1 hp
    refine (b.done j p ?_ hj).1
    rw [← b.length]
    by_contra hc
    rw [List.getElem?_eq_none (by omega)] at hj
    cases hj

/-- The properties of the source hold for the network with buffers. -/
theorem Origins.substituted {N : Ntk} {k : Nat} {lit : Networks.Node → Nat} {tab : Nat → List Bool → Bool} (h : Origins N k lit tab) :
    Origins N.substitutePos k lit tab := by
  have hbufs : ∀ n, (∃ p ∈ N.pos, N.substitutePos.node n = .buf p) ∨ N.substitutePos.node n = N.node n := by
    intro n
    rcases Exact.substituted_node h.wf n with ⟨-, h2, -⟩ | ⟨-, -, h2, -⟩ | ⟨h1, -, h2⟩
    · exact .inr h2
    · exact .inl h2
    · exact .inr (by rw [h2, Ntk.node_ge N n h1])
  have hc : ∀ f, f < N.size → (N.node f).isConst = false → (N.substitutePos.node f).isConst = false := by
    intro f hf hcf
    rw [((Exact.C76_po_signals N k h.wf).2.2.2.2 f hf).1]
    exact hcf
  refine ⟨substituted_wf h.wf, h.somePi, ?_, ?_, ?_, ?_, ?_, h.wire, h.litBuf, h.litGate, ?_, ?_⟩
  · intro n
    rcases hbufs n with ⟨p, -, e⟩ | e <;> rw [e]
    · simp [Networks.Node.fanins]
    · exact h.degree n
  · intro n hn
    rcases hbufs n with ⟨p, -, e⟩ | e <;> rw [e] at hn ⊢
    · simp [Networks.Node.fanins]
    · exact h.fed n hn
  · intro n f hf
    rcases hbufs n with ⟨p, hp, e⟩ | e <;> rw [e] at hf
    · simp only [Networks.Node.fanins, List.mem_singleton] at hf
      subst hf
      exact hc _ (h.wf.pos _ hp) (h.output _ hp)
    · have hn : n < N.size := by
        by_contra hcc
        rw [Ntk.node_ge N n (by omega)] at hf
        cases hf
      exact hc f (lt_trans (h.wf.fanins n hn f hf) hn) (h.noConst n f hf)
  · intro n
    rcases hbufs n with ⟨p, -, e⟩ | e <;> rw [e]
    · simp [Networks.Node.fanins]
    · exact h.distinct n
  · intro p hp
    have := ((Exact.C76_po_signals N k h.wf).2.2.2.1 p hp).1
    revert this
    cases N.substitutePos.node p <;> simp [Networks.Node.isBuf, Networks.Node.isConst]
  · intro n g fs e
    rcases hbufs n with ⟨p, -, e'⟩ | e' <;> rw [e'] at e
    · cases e
    · exact h.fn n g fs e
  · intro n hn
    rcases hbufs n with ⟨p, -, e⟩ | e <;> rw [e] at hn ⊢
    · exact .inl (h.litBuf p)
    · exact h.unary n hn

/-- A node over fanins that are not constant, with its literal. -/
structure Fits (D : Ntk) (tab : Nat → List Bool → Bool) (lit : Networks.Node → Nat) (x : Networks.Node) : Prop where
  degree : x.fanins.length = 1 ∨ x.fanins.length = 2
  noConst : ∀ f ∈ x.fanins, (D.node f).isConst = false
  fn : ∀ a v, x.value a v = tab (lit x) (x.fanins.map v)
  unary : x.fanins.length = 1 → lit x = 2 ∨ lit x = 3

theorem Origins.fits {S D : Ntk} {k : Nat} {order : List Nat} {lit : Networks.Node → Nat} {tab : Nat → List Bool → Bool}
    (h : Origins S k lit tab) (ho : TopoOrder S order) {x : Networks.Node} (hx : Origin S order D x) : Fits D tab lit x := by
  have hbuf : ∀ f, (D.node f).isConst = false → Fits D tab lit (.buf f) := by
    intro f hf
    refine ⟨.inl (by simp [Networks.Node.fanins]), by simpa [Networks.Node.fanins] using hf, ?_, fun _ => Or.inl (h.litBuf f)⟩
    intro a v
    rw [h.litBuf]
    exact (h.wire _).symm
  rcases hx with ⟨f, rfl, -, hf⟩ | ⟨n, hn, cs, rfl, hl, hnd, hc⟩
  · exact hbuf f hf
  · have hgt := (ho.gates n hn).2
    have hlit := lit_withFanins h.litBuf h.litGate (S.node n) cs
    have hdeg := h.degree n
    have hfed := h.fed n hgt
    have hun := h.unary n
    have hfn := h.fn n
    cases e : S.node n with
    | const b => rw [e] at hgt; cases hgt
    | pi j => rw [e] at hgt; cases hgt
    | buf f =>
      rw [e] at hl
      simp only [Networks.Node.fanins, List.length_singleton] at hl
      obtain ⟨c, rfl⟩ := List.length_eq_one_iff.1 hl
      exact hbuf c (hc c (by simp)).2
    | gate g fs =>
      rw [e] at hl hlit hdeg hfed hun
      simp only [Networks.Node.fanins] at hl hdeg hfed hun
      simp only [Networks.Node.withFanins] at hlit ⊢
      have hpos := List.length_pos_iff.2 hfed
      refine ⟨?_, fun c hm => (hc c hm).2, ?_, ?_⟩
      · simp only [Networks.Node.fanins]; omega
      · intro a v
        rw [hlit]
        exact hfn g fs e _ (by rw [List.length_map]; exact hl)
      · intro h1
        rw [hlit]
        exact hun (by rw [← hl]; exact h1)

/-- Search spaces are suitable. -/
theorem Origins.suitable {N D : Ntk} {k : Nat} {order : List Nat} {lit : Networks.Node → Nat} {tab : Nat → List Bool → Bool}
    (h : Origins N k lit tab) (ho : TopoOrder N.substitutePos order) {strategy : Strategy}
    (hD : fanoutSubstitution ⟨strategy, 2, 1⟩ N.substitutePos k order = some D) (locs : PiLocs) (ciToCo : Bool)
    {perm : Nat → List Nat → List Nat} (hp : ∀ n l, (perm n l).Perm l) {starts : List Nat} (hs : starts.Perm (if ciToCo then D.pis else D.pos)) :
    Suitable (space D lit locs ciToCo perm starts) k tab ∧ D.pis.length = k := by
  have hS := h.substituted
  obtain ⟨o1, o2, o3, o4⟩ := fanoutSubstitution_origin (ps := ⟨strategy, 2, 1⟩) (le_refl 2) (le_refl 1) hS.wf ho (fun n _ => hS.noConst n)
    (fun n _ => hS.distinct n) hD
  obtain ⟨w1, w2, w3⟩ := C32_function_preserved _ _ D k order hS.wf ho hD
  have hout : ∀ p ∈ N.substitutePos.pos, (N.substitutePos.node p).isBuf = true ∧ N.substitutePos.fanoutSize p = 1 := by
    intro p hp
    have b := substitutePos_buffered h.wf.fanins h.wf.pos
    obtain ⟨j, hj⟩ := List.mem_iff_getElem?.1 hp
    have hl : j < N.pos.length := by
      rw [← b.length]
      by_contra hc
      rw [List.getElem?_eq_none (by omega)] at hj
      cases hj
    obtain ⟨-, h2, h3, -⟩ := b.done j p hl hj
    exact ⟨h2, h3⟩
  obtain ⟨m, hm, hmp⟩ := o2 (fun p hp => by rw [(hout p hp).2])
  have hfit : ∀ n, (D.node n).isGate = true → Fits D tab lit (D.node n) := by
    intro n hn
    refine hS.fits ho (o1 n ?_ hn)
    by_contra hc
    rw [Ntk.node_ge _ _ (by omega)] at hn
    cases hn
  have hbuf : ∀ q ∈ D.pos, (D.node q).isBuf = true ∧ D.fanoutSize q = 1 := by
    intro q hq
    have hq' := hq
    rw [hm] at hq'
    obtain ⟨p, hpm, rfl⟩ := List.mem_map.1 hq'
    obtain ⟨-, a2, a3⟩ := hmp p hpm
    rw [(hout p hpm).1] at a3
    rw [(hout p hpm).2] at a2
    refine ⟨a3, le_antisymm a2 ?_⟩
    have := List.count_pos_iff.2 hq
    unfold Ntk.fanoutSize
    omega
  have hor : Orderly D k := by
    refine ⟨w1, ?_, ?_, ?_, fun q hq => (hbuf q hq).2⟩
    · intro n hn hc
      have := (hfit n hn).degree
      rw [hc] at this
      simp at this
    · intro n f hf
      cases hg : (D.node n).isGate
      · rw [not_gate_fanins hg] at hf; cases hf
      · exact (hfit n hg).noConst f hf
    · intro q hq
      have := (hbuf q hq).1
      revert this
      cases D.node q <;> simp [Networks.Node.isBuf, Networks.Node.isGate]
  obtain ⟨t1, t2⟩ := topoOrder_spec hor ciToCo hp hs
  obtain ⟨n1, n2, n3⟩ := nodesToPlace_spec hor t1 t2
  have hgate : ∀ n ∈ nodesToPlace D (topoOrder D ciToCo perm starts), (D.node n).isPi = false → (D.node n).isGate = true := by
    intro n hn hpi
    have := (n2 n hn).2
    revert this hpi
    cases D.node n <;> simp [Networks.Node.isPi, Networks.Node.isGate, Networks.Node.isConst]
  have hk : D.pis.length = k := by rw [o3]; simp
  refine ⟨⟨w1, ?_, ?_, n1, fun n hn => (n2 n hn).1, n3, ⟨_, rfl⟩, ?_, ?_, h.wire, ?_, ?_⟩, hk⟩
  · intro i hi
    change i < D.pis.length at hi
    have : D.pis[i] = 2 + i := by simp [o3]
    change D.node D.pis[i] = _
    rw [this]
    exact o4 i (by omega)
  · intro hc
    change D.pis = [] at hc
    rw [hc] at hk
    have := h.somePi
    simp at hk
    omega
  · intro n hn
    change (D.node n).isPi = true ∨ (D.node n).fanins.length = 1 ∨ (D.node n).fanins.length = 2
    cases hpi : (D.node n).isPi
    · exact .inr (hfit n (hgate n hn hpi)).degree
    · exact .inl rfl
  · intro q hq
    have := (hbuf q hq).1
    change ∃ f, D.node q = _
    revert this
    cases D.node q <;> simp [Networks.Node.isBuf]
  · intro n hn hpi
    exact (hfit n (hgate n hn hpi)).fn
  · intro n hn h1
    have hg : (D.node n).isGate = true := by
      by_contra hc
      change (D.node n).fanins.length = 1 at h1
      rw [not_gate_fanins (by simpa using hc)] at h1
      cases h1
    exact (hfit n hg).unary h1

/-- For every network of this form, every strategy of fanout substitution, both orders of the nodes with all ways of shuffling, all
locations of the inputs and all parameters: every layout that the search delivers has the inputs and outputs of the network, and its `i`-th
output computes the `i`-th output of the network, and nothing else, under every assignment.
Missing: constant fanins and outputs, gates reading the same signal twice, networks without inputs; and the relocation of outputs that
follows the search (`post_layout_optimization` with `optimize_pos_only`). -/
theorem C89_design_partial (q : Queue Coord Nat) (hq : q.Faithful) (ps : Params) (N : Ntk) (k : Nat) (lit : Networks.Node → Nat)
    (tab : Nat → List Bool → Bool) (h : Origins N k lit tab) (order : List Nat) (ho : TopoOrder N.substitutePos order) (strategy : Strategy)
    (locs : PiLocs) (ciToCo : Bool) (perm : Nat → List Nat → List Nat) (hp : ∀ n l, (perm n l).Perm l) :
    ∃ D, fanoutSubstitution ⟨strategy, 2, 1⟩ N.substitutePos k order = some D ∧
      ∀ starts, starts.Perm (if ciToCo then D.pis else D.pos) →
        ∀ vertex, Reached q ps (space D lit locs ciToCo perm starts) vertex → ∀ skip,
          (∀ v L, expand q ps (space D lit locs ciToCo perm starts) skip v vertex = .solution L →
            L.s.inputs.length = k ∧ L.s.outputs.length = N.pos.length ∧
            (∀ a i b, i < N.pos.length →
              (Val tab L.m .cart (twoddwaveClocking .cart .four) L.s a (L.s.getNode (L.s.outputs.getD i const0)) b ↔
                b = N.value a (N.pos.getD i 0))) ∧
            (∀ t n, t.d = false → L.s.tileNode t = some n → InBounds L.m t)) ∧
          (N.pos ≠ [] → ∀ (improve : Nat → Bool) (cost best : Nat → Nat),
            expand q ps (space D lit locs ciToCo perm starts) skip (fun i => sameCost (improve i) (cost i) (best i)) vertex ≠ .broken) := by
  have hS := h.substituted
  obtain ⟨D, hD⟩ := C32_total ⟨strategy, 2, 1⟩ (le_refl 2) _ k order hS.wf ho
  refine ⟨D, hD, ?_⟩
  intro starts hs vertex hv skip
  obtain ⟨hsu, hk⟩ := h.suitable ho hD locs ciToCo hp hs
  obtain ⟨-, w2, w3⟩ := C32_function_preserved _ _ D k order hS.wf ho hD
  obtain ⟨c1, c2, -, -, -⟩ := Exact.C76_po_signals N k h.wf
  have hlen : D.pos.length = N.pos.length := by rw [w2, c1]
  constructor
  · intro v L hL
    obtain ⟨r1, r2, r3, r4, -, -⟩ := C89_function_partial q hq ps _ k tab hsu vertex hv skip v L hL
    refine ⟨by rw [r1]; exact hk, by rw [r2]; exact hlen, ?_, r4⟩
    intro a i b hi
    have hval : D.value a (D.pos.getD i 0) = N.value a (N.pos.getD i 0) := by
      have e : D.outputs a = N.outputs a := by rw [w3, c2]
      unfold Ntk.outputs at e
      have := congrArg (fun l => l[i]?) e
      have hi' : i < D.pos.length := by omega
      simp only [List.getElem?_map, List.getElem?_eq_getElem hi, List.getElem?_eq_getElem hi', Option.map_some, Option.some.injEq] at this
      rw [List.getD_eq_getElem?_getD, List.getD_eq_getElem?_getD, List.getElem?_eq_getElem hi, List.getElem?_eq_getElem hi']
      exact this
    rw [← hval]
    exact r3 a i b (by change i < D.pos.length; omega)
  · intro hne improve cost best
    refine C89_defined_single q hq ps _ k tab hsu vertex hv skip improve cost best ?_
    intro hc
    change nodesToPlace D (topoOrder D ciToCo perm starts) = [] at hc
    unfold nodesToPlace at hc
    rw [List.append_eq_nil_iff] at hc
    apply hne
    rw [← List.length_eq_zero_iff, ← hlen, hc.2]
    rfl

/-! ## Example -/

theorem exHalf_origins : Origins exHalf 2 exLitF exTab := by
  refine ⟨wfCheck_sound (by decide +kernel), by decide, ?_, ?_, ?_, ?_, by decide +kernel, by decide, fun _ => rfl, fun _ _ _ => rfl, ?_, ?_⟩
  · exact node_cases (N := exHalf) (by decide +kernel) (fun n e => by rw [e]; simp [Networks.Node.fanins])
  · exact node_cases (N := exHalf) (by decide +kernel) (fun n e => by rw [e]; simp [Networks.Node.isGate])
  · exact node_cases (N := exHalf) (by decide +kernel) (fun n e => by rw [e]; simp [Networks.Node.fanins])
  · exact node_cases (N := exHalf) (by decide +kernel) (fun n e => by rw [e]; simp [Networks.Node.fanins])
  · intro n g fs e l hl
    have hn : n < exHalf.size := by
      by_contra hc
      rw [Ntk.node_ge _ _ (by omega)] at e
      cases e
    have : n < 6 := hn
    interval_cases n <;> first | (cases e; done) | (cases e; rfl)
  · exact node_cases (N := exHalf) (by decide +kernel) (fun n e => by rw [e]; simp [Networks.Node.fanins])

def exD : Ntk := (fanoutSubstitution ⟨.breadth, 2, 1⟩ exHalf.substitutePos 2 [4, 5, 6, 7]).getD ⟨[], []⟩
def exS : Space := space exD exLitF .topAndLeft true (fun _ l => l) exD.pis
def exW : List Coord :=
  [⟨0, 0, 0, false⟩, ⟨0, 1, 0, false⟩, ⟨1, 0, 0, false⟩, ⟨2, 0, 0, false⟩, ⟨2, 1, 0, false⟩, ⟨3, 2, 0, false⟩, ⟨2, 3, 0, false⟩, ⟨3, 3, 0, false⟩]

theorem exW_reached : Reached (stdQueue Coord Nat) {} exS exW := by
  have key : ∀ i, i ≤ 8 → Reached (stdQueue Coord Nat) {} exS (exW.take i) := by
    intro i
    induction i with
    | zero => intro _; exact .start
    | succ i ih =>
      intro hi
      have h := ih (by omega)
      have hs : exW.take (i + 1) = exW.take i ++ [exW.getD i const0] := by
        have : i < 8 := by omega
        interval_cases i <;> rfl
      rw [hs]
      refine h.of 0 always ?_
      have : i < 8 := by omega
      interval_cases i <;> decide +kernel
  exact key 8 (Nat.le_refl _)

/-- A half adder and a vertex that stands for a layout of it meet the hypotheses. -/
example : Origins exHalf 2 exLitF exTab ∧ TopoOrder exHalf.substitutePos [4, 5, 6, 7] ∧ Reached (stdQueue Coord Nat) {} exS exW ∧
    exS.order = [2, 4, 3, 5, 6, 7, 8, 9] ∧ nodesToPlace exD (topoOrder exD false (fun _ l => l.reverse) exD.pos.reverse) = [3, 5, 2, 4, 7, 6, 8, 9] ∧
    (expand (stdQueue Coord Nat) {} exS 0 always exW).solves (fun L => L.s.outputs == [⟨2, 3, 0, false⟩, ⟨3, 3, 0, false⟩]) = true :=
  ⟨exHalf_origins, topoCheck_sound (by decide +kernel), exW_reached, by decide +kernel, by decide +kernel, by decide +kernel⟩

end Verif.PhysicalDesign.Gold
