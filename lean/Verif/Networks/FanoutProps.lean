import Verif.Networks.FanoutWF
import Mathlib.Tactic.IntervalCases

/-!
# C32: fanout substitution

`S` is the source after `convert_network`, `k` its number of inputs and `order` any order in which
`topo_view` may visit its gates. `none` stands for undefined behaviour.
-/
namespace Verif.Networks

/-- Spec: no gate of the network has the same non-constant fanin twice. -/
def NoDoubleFanin (N : Ntk) : Prop :=
  ∀ n < N.size, ∀ f ∈ (N.node n).fanins, (N.node f).isConst = false → (N.node n).fanins.count f ≤ 1

/-- Whatever the strategy, the degree, the threshold and the order: the result has the same inputs, the same
number of outputs and computes the same outputs for every input assignment. -/
theorem C32_function_preserved (ps : FanoutParams) (S D : Ntk) (k : Nat) (order : List Nat)
    (hS : S.WF k) (ho : TopoOrder S order) (h : fanoutSubstitution ps S k order = some D) :
    D.WF k ∧ D.pos.length = S.pos.length ∧ ∀ a, D.outputs a = S.outputs a :=
  ⟨(fanoutSubstitution_wf hS ho h).1, (fanoutSubstitution_wf hS ho h).2, fanoutSubstitution_outputs hS ho h⟩

/-- With a degree of at least two the transformation always succeeds: whenever a tree has been generated, a
buffer with a free output is found for every use. -/
theorem C32_total (ps : FanoutParams) (hd : 2 ≤ ps.degree) (S : Ntk) (k : Nat) (order : List Nat)
    (hS : S.WF k) (ho : TopoOrder S order) : ∃ D, fanoutSubstitution ps S k order = some D := by
  obtain ⟨st, h, -⟩ := fanoutSubstitution_main hd hS ho
  exact ⟨_, h⟩

theorem bounds_aux (ps : FanoutParams) (hd : 2 ≤ ps.degree) (ht : 1 ≤ ps.threshold) (S D : Ntk) (k : Nat)
    (order : List Nat) (hS : S.WF k) (ho : TopoOrder S order) (hn : NoDoubleFanin S)
    (h : fanoutSubstitution ps S k order = some D) (i : Nat) (hi : i < D.size) (hc : (D.node i).isConst = false) :
    ((D.node i).isBuf = false → D.fanoutSize i ≤ ps.threshold) ∧
    ((D.node i).isBuf = true → D.fanoutSize i ≤ ps.degree ∨
      (D.fanoutSize i ≤ ps.threshold ∧ ∃ m < S.size, (S.node m).isBuf = true)) := by
  obtain ⟨st, h1, h2, h3⟩ := fanoutSubstitution_main hd hS ho
  rw [h] at h1
  cases h1
  have hb := h3 ht (fun n hnm => hn n (ho.gates n hnm).1)
  rcases hb.cover i hi with ⟨n, hn, e⟩ | ⟨⟨f, hf⟩, hle⟩
  · have hk := hb.kind n hn
    rw [e] at hk
    have hnc : (S.node n).isConst = false := by rw [← hk.2]; exact hc
    by_cases ha : st.avail n = []
    · have hf := h2.full n hn ha
      rw [e] at hf
      rcases h2.small n hn (by simp) ha hnc with hs | ⟨hs, hs2⟩
      · exact ⟨fun _ => by omega, fun hbuf => Or.inr ⟨by omega, n, hn.1, by rw [← hk.1]; exact hbuf⟩⟩
      · have hbuf : (S.node n).isBuf = true := by
          unfold Ntk.isFanout at hs; simp at hs; exact hs.1
        refine ⟨fun hx => ?_, fun _ => Or.inl (by omega)⟩
        rw [hk.1, hbuf] at hx; cases hx
    · have hr := hb.root n hn ha
      rw [e] at hr
      exact ⟨fun _ => hr, fun hbuf => Or.inr ⟨hr, n, hn.1, by rw [← hk.1]; exact hbuf⟩⟩
  · refine ⟨fun hx => ?_, fun _ => Or.inl hle⟩
    rw [hf] at hx; cases hx

/-- If no gate of the source has the same fanin twice, the degree is at least two and the threshold at least
one, no gate and no input of the result has more fanouts than the threshold, and no buffer more than the
degree (or than the threshold, if that is larger and the source contains buffers).
Missing (false of the code, see `C32_double_fanin_overfull`): gates with equal fanins. -/
theorem C32_bounds_partial (ps : FanoutParams) (hd : 2 ≤ ps.degree) (ht : 1 ≤ ps.threshold) (S D : Ntk) (k : Nat)
    (order : List Nat) (hS : S.WF k) (ho : TopoOrder S order) (hn : NoDoubleFanin S)
    (h : fanoutSubstitution ps S k order = some D) (i : Nat) (hi : i < D.size) (hc : (D.node i).isConst = false) :
    ((D.node i).isBuf = false → D.fanoutSize i ≤ ps.threshold) ∧
    ((D.node i).isBuf = true → D.fanoutSize i ≤ max ps.degree ps.threshold) ∧
    ((∀ m < S.size, (S.node m).isBuf = false) → (D.node i).isBuf = true → D.fanoutSize i ≤ ps.degree) := by
  obtain ⟨h1, h2⟩ := bounds_aux ps hd ht S D k order hS ho hn h i hi hc
  refine ⟨h1, fun hb => ?_, fun hno hb => ?_⟩
  · rcases h2 hb with h2 | ⟨h2, -⟩ <;> omega
  · rcases h2 hb with h2 | ⟨-, m, hm, hmb⟩
    · exact h2
    · rw [hno m hm] at hmb; cases hmb

/-- `is_fanout_substituted` accepts the result if, in addition, the threshold does not exceed the degree or the
source contains no buffers.
Missing (false of the code, see `C32_large_threshold_rejected`): larger thresholds. -/
theorem C32_accepted_partial (ps : FanoutParams) (hd : 2 ≤ ps.degree) (ht : 1 ≤ ps.threshold) (S D : Ntk) (k : Nat)
    (order : List Nat) (hS : S.WF k) (ho : TopoOrder S order) (hn : NoDoubleFanin S)
    (hle : ps.threshold ≤ ps.degree ∨ ∀ m < S.size, (S.node m).isBuf = false)
    (h : fanoutSubstitution ps S k order = some D) : isFanoutSubstituted ps D = true := by
  unfold isFanoutSubstituted
  rw [List.all_eq_true]
  intro i hi
  rw [List.mem_range] at hi
  split
  · rfl
  · rename_i hc
    have hc : (D.node i).isConst = false := by simpa using hc
    obtain ⟨h1, h2⟩ := bounds_aux ps hd ht S D k order hS ho hn h i hi hc
    split
    · rename_i hf
      unfold Ntk.isFanout at hf
      simp at hf
      have := h2 hf.1
      have hd2 : D.fanoutSize i ≤ ps.degree := by
        rcases this with h3 | ⟨h3, m, hm, hmb⟩
        · exact h3
        · rcases hle with h4 | h4
          · omega
          · rw [h4 m hm] at hmb; cases hmb
      simpa using hd2
    · rename_i hf
      unfold Ntk.isFanout at hf
      simp at hf
      by_cases hb : (D.node i).isBuf = true
      · have := hf hb
        simpa using by omega
      · simpa using h1 (by simpa using hb)

/-- What `is_fanout_substituted` decides: buffers with several fanouts respect the degree, all other
non-constant nodes the threshold. -/
theorem C32_check_exact (ps : FanoutParams) (N : Ntk) : isFanoutSubstituted ps N = true ↔
    ∀ i < N.size, (N.node i).isConst = false →
      (((N.node i).isBuf = true ∧ 1 < N.fanoutSize i) → N.fanoutSize i ≤ ps.degree) ∧
      (¬((N.node i).isBuf = true ∧ 1 < N.fanoutSize i) → N.fanoutSize i ≤ ps.threshold) := by
  unfold isFanoutSubstituted
  rw [List.all_eq_true]
  constructor
  · intro h i hi hc
    have := h i (List.mem_range.2 hi)
    simp only [hc, Ntk.isFanout, Bool.and_eq_true, decide_eq_true_eq] at this
    split_ifs at this <;> simp_all
  · intro h i hi
    rw [List.mem_range] at hi
    by_cases hc : (N.node i).isConst = true
    · simp [hc]
    · have := h i hi (by simpa using hc)
      simp only [hc, Ntk.isFanout, Bool.and_eq_true, decide_eq_true_eq]
      split_ifs <;> simp_all

/-! ### Concrete networks -/

/-- Two inputs, `AND(x, x)` and `AND(x, y)`. -/
def exDouble : Ntk :=
  ⟨[.const false, .const true, .pi 0, .pi 1, .gate (fun l => l.all id) [2, 2], .gate (fun l => l.all id) [2, 3]], [4, 5]⟩

/-- The same with `AND(x, y)` twice and an inverter, so that `x` has three fanouts. -/
def exTriple : Ntk :=
  ⟨[.const false, .const true, .pi 0, .pi 1, .gate (fun l => l.all id) [2, 3], .gate (fun l => l.all id) [2, 3],
    .gate (fun l => !l.all id) [2]], [4, 5, 6]⟩

theorem exTriple_wf : exTriple.WF 2 := by
  refine ⟨⟨_, rfl, ?_⟩, ?_, ?_, ?_, ?_, ?_⟩
  · simp [Node.isConst]
  · intro i hi f hf
    have : i < 7 := hi
    interval_cases i <;> simp [Ntk.node, exTriple, Node.fanins] at hf <;> omega
  · intro i hi
    by_cases h : i < 7
    · interval_cases i <;> simp [Ntk.node, exTriple, Node.isPi] at hi ⊢
    · rw [Ntk.node_ge _ _ (by show 7 ≤ i; omega)] at hi; cases hi
  · intro k hk
    interval_cases k
    · exact ⟨2, by decide, rfl⟩
    · exact ⟨3, by decide, rfl⟩
  · intro i j k hi hj
    have hb : ∀ i, exTriple.node i = .pi k → i = k + 2 := by
      intro i hi
      by_cases h : i < 7
      · interval_cases i <;> simp [Ntk.node, exTriple] at hi ⊢ <;> omega
      · rw [Ntk.node_ge _ _ (by show 7 ≤ i; omega)] at hi; cases hi
    rw [hb i hi, hb j hj]
  · intro p hp; simp [exTriple] at hp; show p < 7; omega

theorem exTriple_topo : TopoOrder exTriple [4, 5, 6] := by
  refine ⟨by decide, ?_, ?_, ?_, fun g hg => Or.inl hg⟩
  · intro g hg; simp at hg; rcases hg with rfl | rfl | rfl <;> exact ⟨by decide, rfl⟩
  · intro l g r e f hf hg
    have hgm : g ∈ [4, 5, 6] := by rw [e]; simp
    exfalso
    simp at hgm
    rcases hgm with rfl | rfl | rfl <;> simp [Ntk.node, exTriple, Node.fanins] at hf
    · rcases hf with rfl | rfl <;> simp [Ntk.node, exTriple, Node.isGate] at hg
    · rcases hf with rfl | rfl <;> simp [Ntk.node, exTriple, Node.isGate] at hg
    · subst hf; simp [Ntk.node, exTriple, Node.isGate] at hg
  · intro p hp _; simpa [exTriple] using hp

theorem exTriple_nodup : NoDoubleFanin exTriple := by
  intro n hn f hf _
  have : n < 7 := hn
  interval_cases n <;> simp [Ntk.node, exTriple, Node.fanins] at hf ⊢
  · rcases hf with rfl | rfl <;> decide
  · rcases hf with rfl | rfl <;> decide
  · subst hf; decide

/-- The hypotheses of the theorems above are met, the trees are non-trivial and the result is accepted. -/
example : exTriple.WF 2 ∧ TopoOrder exTriple [4, 5, 6] ∧ NoDoubleFanin exTriple ∧ exTriple.fanoutSize 2 = 3 ∧
    (∀ m < exTriple.size, (exTriple.node m).isBuf = false) ∧
    ((fanoutSubstitution ⟨.breadth, 2, 1⟩ exTriple 2 [4, 5, 6]).map
      (fun D => (D.size, (List.range D.size).map D.fanoutSize))) = some (10, [0, 0, 1, 1, 2, 2, 2, 1, 1, 1]) := by
  exact ⟨exTriple_wf, exTriple_topo, exTriple_nodup, rfl, by decide, by decide⟩

/-- Bug: the children of a gate are gathered before the gate is created, so that a gate with the same fanin
twice is given the same buffer twice. The buffer then has three fanouts although the degree is two, and
`is_fanout_substituted` rejects the result of `fanout_substitution`. -/
theorem C32_double_fanin_overfull :
    (fanoutSubstitution ⟨.breadth, 2, 1⟩ exDouble 2 [4, 5]).map (isFanoutSubstituted ⟨.breadth, 2, 1⟩) = some false ∧
    ((fanoutSubstitution ⟨.breadth, 2, 1⟩ exDouble 2 [4, 5]).map
      (fun D => (D.node 4).isBuf && decide (D.fanoutSize 4 = 3))) = some true := by
  decide

/-- A source in which a buffer has three fanouts. -/
def exBuf : Ntk :=
  ⟨[.const false, .const true, .pi 0, .buf 2, .gate (fun l => !l.all id) [3], .gate (fun l => !l.all id) [3],
    .gate (fun l => !l.all id) [3]], [4, 5, 6]⟩

/-- With a threshold above the degree, a buffer of the source keeps up to `threshold` fanouts, which
`is_fanout_substituted` does not accept. -/
theorem C32_large_threshold_rejected :
    (fanoutSubstitution ⟨.breadth, 2, 3⟩ exBuf 1 [3, 4, 5, 6]).map (isFanoutSubstituted ⟨.breadth, 2, 3⟩) = some false := by
  decide

/-- With degree one no tree provides more than one output: the search for a buffer with a free output runs off
the queue. -/
theorem C32_degree_one_undefined : (fanoutSubstitution ⟨.breadth, 1, 1⟩ exTriple 2 [4, 5, 6]).isNone = true := by
  decide

end Verif.Networks
