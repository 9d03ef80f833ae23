import Verif.Networks.BalanceLemmas
import Verif.Networks.FanoutProps

/-!
# C33: network balancing
-/
namespace Verif.Networks

theorem init_balInv {S : Ntk} {k : Nat} (hS : S.WF k) : BalInv S k (Ntk.initCopy k, S.initMap) [] := by
  have hfan : ∀ i, ((Ntk.initCopy k).node i).fanins = [] := by
    intro i; rw [initCopy_node]; split_ifs <;> rfl
  have hlev : ∀ i, (Ntk.initCopy k).level i = 0 := by
    intro i
    by_cases hi : i < (Ntk.initCopy k).size
    · rw [Ntk.level_eq _ (initCopy_shape k).fanins i hi, initCopy_node]
      split_ifs <;> rfl
    · exact Ntk.level_ge _ _ (by omega)
  have hf := init_fun S k hS
  refine ⟨⟨initCopy_shape k, ?_⟩, ?_, ?_, by simp⟩
  · intro i _ f hfi; rw [hfan] at hfi; simp at hfi
  · intro n hn
    have h1 := hf.map n hn.1 (Or.inl (hn.2.resolve_right (by simp)))
    refine ⟨h1.1, h1.2, ?_, (initMap_spec hS n hn).2.1.symm⟩
    dsimp only
    rw [hlev, S.level_eq hS.fanins n hn.1]
    have hg : (S.node n).isGate = false := hn.2.resolve_right (by simp)
    revert hg; cases S.node n <;> simp [Node.isGate, Node.level]
  · intro i h1 h2; dsimp only at h2; rw [initCopy_size] at h2; omega

theorem balance_gates {S : Ntk} {k : Nat} (hS : S.WF k) {order : List Nat} (ho : TopoOrder S order) :
    ∀ (r l : List Nat) (st : Ntk × (Nat → Nat)), order = l ++ r → BalInv S k st l →
      BalInv S k (r.foldl (balanceGate S) st) order ∧ Ext st.1 (r.foldl (balanceGate S) st).1 := by
  intro r
  induction r with
  | nil => intro l st e h; simp at e; subst e; exact ⟨h, Ext.refl _⟩
  | cons n r ih =>
    intro l st e h
    have hnd : n ∉ l := by
      have := ho.nodup
      rw [e] at this
      have := (List.nodup_append.1 this).2.2
      intro hm; exact this n hm n (by simp) rfl
    have h1 := balanceGate_inv hS ho h (fun g hg => by rw [e]; simp [hg]) (by rw [e]; simp) hnd (ho.fanins l n r e) (by
      intro g hg f hf hfg
      obtain ⟨l1, l2, e2⟩ := List.append_of_mem hg
      have := ho.fanins l1 g (l2 ++ n :: r) (by rw [e, e2]; simp) f hf hfg
      rw [e2]; simp [this])
    have h2 := ih (l ++ [n]) _ (by rw [e]; simp) h1.1
    rw [List.foldl_cons]
    exact ⟨h2.1, h1.2.trans h2.2⟩

/-- What a run over outputs provides. -/
structure PosSpec (unify : Bool) (S : Ntk) (k maxL : Nat) (o : Nat → Nat) (l : List Nat) (N N' : Ntk) : Prop where
  ext : Ext N ⟨N'.nodes, N.pos⟩
  bal : Bal k N'
  mono : ∀ i, 0 < N.fanoutSize i → 0 < N'.fanoutSize i
  used : ∀ P, Used k N P → Used k N' P
  outs : ∃ cs, N'.pos = N.pos ++ cs ∧ List.Forall₂ (fun p c => c < N'.size ∧ (∀ a, N'.value a c = S.value a p) ∧
    N'.level c = (if unify then maxL else S.level p)) l cs
  touched : ∀ p ∈ l, 0 < N'.fanoutSize (o p)

theorem balance_pos {S : Ntk} {k : Nat} {unify : Bool} {maxL : Nat} {o : Nat → Nat} : ∀ (l : List Nat) (N : Ntk), Bal k N →
    (∀ p ∈ l, o p < N.size ∧ (∀ a, N.value a (o p) = S.value a p) ∧ N.level (o p) = S.level p ∧
      S.depthLevel p = S.level p ∧ S.level p ≤ maxL) →
    PosSpec unify S k maxL o l N (l.foldl (balancePo unify S maxL o) N) := by
  intro l
  induction l with
  | nil => intro N h _; exact ⟨Ext.refl _, h, fun _ => id, fun _ => id, ⟨[], by simp, .nil⟩, by simp⟩
  | cons p l ih =>
    intro N h hl
    obtain ⟨p1, p2, p3, p4, p5⟩ := hl p (List.mem_cons_self ..)
    have hch : ∃ N1 c, (if unify then bufChain (maxL - S.depthLevel p) N (o p) else (N, o p)) = (N1, c) ∧
        Ext N N1 ∧ Bal k N1 ∧ c < N1.size ∧ (∀ a, N1.value a c = S.value a p) ∧
        N1.level c = (if unify then maxL else S.level p) ∧ (∀ i, 0 < N.fanoutSize i → 0 < N1.fanoutSize i) ∧
        (c = o p ∨ 0 < N1.fanoutSize (o p)) ∧ ∀ P, Used k N P → Used k N1 (c :: P) := by
      cases unify with
      | true =>
        have s := bufChain_spec k (maxL - S.depthLevel p) N (o p) h p1
        refine ⟨_, _, rfl, s.ext, s.bal, s.lt, fun a => (s.value a).trans (p2 a), ?_, s.mono, s.src, ?_⟩
        · rw [s.level, p3, p4]; simp; omega
        · intro P hu
          exact s.used P (fun i h1 h2 => (hu i h1 h2).imp id (fun hx => List.mem_cons_of_mem _ hx))
      | false =>
        refine ⟨N, o p, rfl, Ext.refl _, h, p1, p2, by simpa using p3, fun _ => id, Or.inl rfl, ?_⟩
        intro P hu i h1 h2
        exact (hu i h1 h2).imp id (fun hx => List.mem_cons_of_mem _ hx)
    obtain ⟨N1, c, e1, x1, b1, c1, c2, c3, m1, s1, u1⟩ := hch
    rw [List.foldl_cons]
    have e2 : balancePo unify S maxL o N p = N1.createPo c := by unfold balancePo; rw [e1]
    rw [e2]
    have bq : Bal k (N1.createPo c) := ⟨⟨b1.shape.ext, b1.shape.fanins, b1.shape.gates⟩, b1.bal⟩
    have hfo : ∀ i, (N1.createPo c).fanoutSize i = N1.fanoutSize i + if i = c then 1 else 0 := N1.fanoutSize_createPo c
    have xq : ∀ i < N.size, i < (N1.createPo c).size ∧ (∀ a, (N1.createPo c).value a i = N.value a i) ∧
        (N1.createPo c).level i = N.level i := by
      intro i hi
      exact ⟨lt_of_lt_of_le hi x1.size, fun a => x1.value a i hi, x1.level i hi⟩
    have q := ih (N1.createPo c) bq (by
      intro p' hp'
      obtain ⟨a1, a2, a3, a4, a5⟩ := hl p' (List.mem_cons_of_mem _ hp')
      obtain ⟨d1, d2, d3⟩ := xq (o p') a1
      exact ⟨d1, fun a => (d2 a).trans (a2 a), d3.trans a3, a4, a5⟩)
    generalize l.foldl (balancePo unify S maxL o) (N1.createPo c) = N2 at q
    have x2 : Ext N1 ⟨N2.nodes, N1.pos⟩ := ⟨q.ext.nodes, rfl⟩
    refine ⟨?_, q.bal, ?_, ?_, ?_, ?_⟩
    · obtain ⟨⟨l1, h1⟩, -⟩ := x1
      obtain ⟨⟨l2, h2⟩, -⟩ := q.ext
      refine ⟨⟨l1 ++ l2, ?_⟩, rfl⟩
      show N2.nodes = _
      have h2' : N2.nodes = N1.nodes ++ l2 := h2
      rw [h2', h1, List.append_assoc]
    · intro i hi
      apply q.mono
      have := m1 i hi
      rw [hfo]; omega
    · intro P hu
      apply q.used
      intro i h1 h2
      rw [hfo]
      rcases u1 P hu i h1 h2 with h3 | h3
      · left; omega
      · rcases List.mem_cons.1 h3 with h3 | h3
        · left; rw [if_pos h3]; omega
        · right; exact h3
    · obtain ⟨cs, hcs, hf⟩ := q.outs
      refine ⟨c :: cs, ?_, .cons ?_ hf⟩
      · rw [hcs]; simp [Ntk.createPo]; have := x1.pos; rw [this]
      · exact ⟨lt_of_lt_of_le c1 x2.size, fun a => (x2.value a c c1).trans (c2 a), (x2.level c c1).trans c3⟩
    · intro p' hp'
      rcases List.mem_cons.1 hp' with e | hp'
      · subst e
        apply q.mono
        rw [hfo]
        rcases s1 with e | h3
        · rw [if_pos e.symm]; omega
        · omega
      · exact q.touched p' hp'

/-- Everything balancing guarantees, for a source with at least one output. -/
theorem balancing_main {S : Ntk} {k : Nat} (hS : S.WF k) {order : List Nat} (ho : TopoOrder S order) (unify : Bool)
    (hp : S.pos ≠ []) : ∃ D, networkBalancing unify S k order = some D ∧ Bal k D ∧
      (∀ i < D.size, k + 2 ≤ i → 0 < D.fanoutSize i) ∧
      List.Forall₂ (fun p c => c < D.size ∧ (∀ a, D.value a c = S.value a p) ∧
        D.level c = (if unify then (S.pos.map S.level).foldl max 0 else S.level p)) S.pos D.pos := by
  have hg := balance_gates hS ho order [] (Ntk.initCopy k, S.initMap) (by simp) (init_balInv hS)
  have hdl := depthLevel_order hS ho
  have htr := gate_of_fanin_wf S order ho k hS
  unfold networkBalancing
  dsimp only
  generalize order.foldl (balanceGate S) (Ntk.initCopy k, S.initMap) = st at hg
  obtain ⟨hb, hx⟩ := hg
  have hml : S.pos.map S.depthLevel = S.pos.map S.level := List.map_congr_left (fun p hp => hdl p (htr p hp))
  rw [if_neg hp, hml]
  have q := balance_pos (S := S) (k := k) (unify := unify) (maxL := (S.pos.map S.level).foldl max 0) (o := st.2) S.pos st.1
    hb.bal (by
      intro p hp
      obtain ⟨a1, a2, a3, a4⟩ := hb.map p (htr p hp)
      exact ⟨a1, a2, a3, hdl p (htr p hp), le_foldl_max _ _ _ (List.mem_map_of_mem hp)⟩)
  refine ⟨_, rfl, q.bal, ?_, ?_⟩
  · intro i hi hk
    rcases q.used _ hb.used i hk hi with h | h
    · exact h
    · rw [List.mem_map] at h
      obtain ⟨g, hg, rfl⟩ := h
      rcases ho.needed g hg with h1 | ⟨g', hg', hf⟩
      · exact q.touched g h1
      · exact q.mono _ (hb.fan g' hg' g hf)
  · obtain ⟨cs, h1, h2⟩ := q.outs
    have : st.1.pos = [] := by rw [hx.pos]; rfl
    rw [h1, this, List.nil_append]
    exact h2

/-! ## Theorems -/

/-- Spec: every fanin of a gate that is not a constant lies on the level directly below the gate; levels
are lengths of longest paths from a constant or an input. -/
def Balanced (N : Ntk) : Prop :=
  ∀ i < N.size, ∀ f ∈ (N.node i).fanins, (N.node f).isConst = false → N.level i = N.level f + 1

/-- The result is a technology network with the same inputs and as many outputs, computes the same outputs
for every input assignment, is balanced, and keeps the level of every output or, on request, has all outputs
on the level of the deepest one. The source must have an output (see `C33_no_outputs_undefined`). -/
theorem C33_balancing (unify : Bool) (S : Ntk) (k : Nat) (order : List Nat) (hS : S.WF k) (ho : TopoOrder S order)
    (hp : S.pos ≠ []) : ∃ D, networkBalancing unify S k order = some D ∧ D.WF k ∧ D.pos.length = S.pos.length ∧
      (∀ a, D.outputs a = S.outputs a) ∧ Balanced D ∧
      (unify = false → D.pos.map D.level = S.pos.map S.level) ∧
      (unify = true → ∀ p ∈ D.pos, (∃ q ∈ S.pos, D.level p = S.level q) ∧ ∀ q ∈ S.pos, S.level q ≤ D.level p) := by
  obtain ⟨D, h1, h2, h3, h4⟩ := balancing_main hS ho unify hp
  refine ⟨D, h1, h2.shape.wf ?_, h4.length_eq.symm, ?_, h2.bal, ?_, ?_⟩
  · intro p hp
    obtain ⟨x, _, hx⟩ := forall₂_right h4 p hp
    exact hx.1
  · intro a
    unfold Ntk.outputs
    have : ∀ (l cs : List Nat), List.Forall₂ (fun p c => c < D.size ∧ (∀ a, D.value a c = S.value a p) ∧
        D.level c = (if unify then (S.pos.map S.level).foldl max 0 else S.level p)) l cs →
        cs.map (D.value a) = l.map (S.value a) := by
      intro l cs h
      induction h with
      | nil => rfl
      | cons hx _ ih => simp only [List.map_cons]; rw [ih, hx.2.1 a]
    exact this _ _ h4
  · intro hu
    subst hu
    have : ∀ (l cs : List Nat), List.Forall₂ (fun p c => c < D.size ∧ (∀ a, D.value a c = S.value a p) ∧
        D.level c = (if false then (S.pos.map S.level).foldl max 0 else S.level p)) l cs →
        cs.map D.level = l.map S.level := by
      intro l cs h
      induction h with
      | nil => rfl
      | cons hx _ ih => simp only [List.map_cons]; rw [ih, hx.2.2]; rfl
    exact this _ _ (by simpa using h4)
  · intro hu p hpp
    obtain ⟨x, hx, hx2⟩ := forall₂_right h4 p hpp
    rw [hx2.2.2, if_pos hu]
    refine ⟨?_, fun q hq => le_foldl_max _ _ _ (List.mem_map_of_mem hq)⟩
    rcases foldl_max_mem (S.pos.map S.level) 0 with h | h
    · refine ⟨x, hx, ?_⟩
      have := le_foldl_max (S.pos.map S.level) 0 _ (List.mem_map_of_mem hx)
      omega
    · rw [List.mem_map] at h
      obtain ⟨q, hq, e⟩ := h
      exact ⟨q, hq, e.symm⟩

theorem zip_tail_all (l : List Nat) : ((l.zip l.tail).all fun p => decide (p.1 = p.2)) = true ↔
    ∀ x ∈ l, ∀ y ∈ l, x = y := by
  induction l with
  | nil => simp
  | cons a l ih =>
    cases l with
    | nil => simp
    | cons b l =>
      simp only [List.tail_cons, List.zip_cons_cons, List.all_cons, Bool.and_eq_true, decide_eq_true_eq] at ih ⊢
      rw [ih]
      constructor
      · rintro ⟨rfl, h⟩ x hx y hy
        exact h x (by simpa using hx) y (by simpa using hy)
      · intro h
        exact ⟨h a (by simp) b (by simp), fun x hx y hy => h x (List.mem_cons_of_mem _ hx) y (List.mem_cons_of_mem _ hy)⟩

/-- `is_balanced` accepts the result, with the same setting of `unify_outputs`. -/
theorem C33_accepted (unify : Bool) (S D : Ntk) (k : Nat) (order : List Nat) (hS : S.WF k) (ho : TopoOrder S order)
    (h : networkBalancing unify S k order = some D) : isBalanced unify D = true := by
  have hp : S.pos ≠ [] := by
    intro e; unfold networkBalancing at h; rw [if_pos e] at h; cases h
  obtain ⟨D', h1, h2, h3, h4⟩ := balancing_main hS ho unify hp
  rw [h] at h1
  cases h1
  have hcone := cone_all D h2.shape.fanins (k + 2) h3
  have hlow : ∀ i < k + 2, D.level i = 0 := by
    intro i hi
    have h5 := h2.shape.ext.level i (by rw [initCopy_size]; exact hi)
    have h6 : D.level i = (Ntk.initCopy k).level i := h5
    rw [h6]
    exact ((init_balInv (S := D) (h2.shape.wf (by
      intro p hp
      obtain ⟨x, _, hx⟩ := forall₂_right h4 p hp
      exact hx.1))).bal.1 |> fun sh => by
        rw [Ntk.level_eq _ sh.fanins i (by rw [initCopy_size]; exact hi), initCopy_node]
        split_ifs <;> rfl)
  have hdl : ∀ i < D.size, D.depthLevel i = D.level i := by
    intro i hi
    unfold Ntk.depthLevel
    split
    · rfl
    · rename_i hc
      by_cases hk : k + 2 ≤ i
      · exact absurd (hcone i hi hk) hc
      · exact (hlow i (by omega)).symm
  unfold isBalanced
  rw [Bool.and_eq_true]
  refine ⟨?_, ?_⟩
  · rw [List.all_eq_true]
    intro i hi
    rw [List.mem_range] at hi
    rw [Bool.or_eq_true]
    right
    rw [List.all_eq_true]
    intro f hf
    rw [Bool.or_eq_true]
    by_cases hc : (D.node f).isConst = true
    · exact Or.inl hc
    · right
      have hfi := h2.shape.fanins i hi f hf
      rw [decide_eq_true_eq, hdl i hi, hdl f (by omega)]
      exact h2.bal i hi f hf (by simpa using hc)
  · cases unify with
    | false => rfl
    | true =>
      rw [Bool.not_true, Bool.false_or, zip_tail_all]
      intro x hx y hy
      rw [List.mem_map] at hx hy
      obtain ⟨p, hp1, rfl⟩ := hx
      obtain ⟨q, hq1, rfl⟩ := hy
      obtain ⟨_, _, a1, -, a3⟩ := forall₂_right h4 p hp1
      obtain ⟨_, _, b1, -, b3⟩ := forall₂_right h4 q hq1
      rw [hdl p a1, hdl q b1, a3, b3]
      rfl

/-- What `is_balanced` decides on networks without dangling gates: balancedness and, on request, equal levels
of all outputs. -/
theorem C33_check_exact (unify : Bool) (N : Ntk) (k : Nat) (hN : N.WF k)
    (hd : ∀ i < N.size, (N.node i).isGate = true → 0 < N.fanoutSize i) :
    isBalanced unify N = true ↔
      Balanced N ∧ (unify = true → ∀ p ∈ N.pos, ∀ q ∈ N.pos, N.level p = N.level q) := by
  have hcone : ∀ (m i : Nat), N.size - i = m → i < N.size → (N.node i).isGate = true → i ∈ N.cone := by
    intro m
    induction m using Nat.strong_induction_on with
    | _ m ih =>
      intro i hm hi hg
      rcases (fanout_pos_iff N i).1 (hd i hi hg) with hp | ⟨j, hj, hf⟩
      · exact N.cone_pos hN.fanins i hp
      · have := hN.fanins j hj i hf
        refine N.cone_fanin hN.fanins j i hj (ih (N.size - j) (by omega) j rfl hj ?_) hf
        revert hf
        cases N.node j <;> simp [Node.fanins, Node.isGate]
  have hdl : ∀ i < N.size, N.depthLevel i = N.level i := by
    intro i hi
    unfold Ntk.depthLevel
    split
    · rfl
    · rename_i hc
      rw [N.level_eq hN.fanins i hi]
      by_cases hg : (N.node i).isGate = true
      · exact absurd (hcone _ i rfl hi hg) hc
      · revert hg; cases N.node i <;> simp [Node.isGate, Node.level]
  unfold isBalanced
  rw [Bool.and_eq_true]
  apply and_congr
  · rw [List.all_eq_true]
    unfold Balanced
    constructor
    · intro h i hi f hf hc
      have h1 := h i (List.mem_range.2 hi)
      have hg : (N.node i).isGate = true := by
        revert hf
        cases N.node i <;> simp [Node.fanins, Node.isGate]
      rw [hg, Bool.not_true, Bool.false_or, List.all_eq_true] at h1
      have h2 := h1 f hf
      have hfi := hN.fanins i hi f hf
      rw [hc, Bool.false_or, decide_eq_true_eq, hdl i hi, hdl f (by omega)] at h2
      exact h2
    · intro h i hi
      rw [List.mem_range] at hi
      rw [Bool.or_eq_true]
      right
      rw [List.all_eq_true]
      intro f hf
      rw [Bool.or_eq_true]
      by_cases hc : (N.node f).isConst = true
      · exact Or.inl hc
      · right
        have hfi := hN.fanins i hi f hf
        rw [decide_eq_true_eq, hdl i hi, hdl f (by omega)]
        exact h i hi f hf (by simpa using hc)
  · cases unify with
    | false => simp
    | true =>
      rw [Bool.not_true, Bool.false_or, zip_tail_all]
      constructor
      · intro h _ p hp q hq
        have := h _ (List.mem_map_of_mem (f := N.depthLevel) hp) _ (List.mem_map_of_mem (f := N.depthLevel) hq)
        rwa [hdl p (hN.pos p hp), hdl q (hN.pos q hq)] at this
      · intro h x hx y hy
        rw [List.mem_map] at hx hy
        obtain ⟨p, hp, rfl⟩ := hx
        obtain ⟨q, hq, rfl⟩ := hy
        rw [hdl p (hN.pos p hp), hdl q (hN.pos q hq)]
        exact h rfl p hp q hq

/-- `network_balancing` dereferences the maximum of an empty vector if the network has no outputs, even if
the outputs are not to be unified. -/
theorem C33_no_outputs_undefined (unify : Bool) (S : Ntk) (k : Nat) (order : List Nat) (h : S.pos = []) :
    networkBalancing unify S k order = none := by
  unfold networkBalancing; simp [h]

/-- `is_balanced` rejects a balanced network with a dangling gate: `depth_view` reports level 0 for it. -/
theorem C33_dangling_rejected : ∃ N : Ntk, Balanced N ∧ isBalanced false N = false := by
  refine ⟨⟨[.const false, .const true, .pi 0, .gate (fun l => !l.all id) [2]], [2]⟩, ?_, by decide⟩
  intro i hi f hf hc
  have : i < 4 := hi
  interval_cases i <;> simp [Ntk.node, Node.fanins] at hf
  subst hf; rfl

/-- A network with a short and a long path to a gate and an output on a lower level. -/
def exUnbalanced : Ntk :=
  ⟨[.const false, .const true, .pi 0, .pi 1, .gate (fun l => !l.all id) [2], .gate (fun l => !l.all id) [4],
    .gate (fun l => l.all id) [3, 5]], [4, 6]⟩

theorem exUnbalanced_wf : exUnbalanced.WF 2 := by
  refine ⟨⟨_, rfl, ?_⟩, ?_, ?_, ?_, ?_, ?_⟩
  · simp [Node.isConst]
  · intro i hi f hf
    have : i < 7 := hi
    interval_cases i <;> simp [Ntk.node, exUnbalanced, Node.fanins] at hf <;> omega
  · intro i hi
    by_cases h : i < 7
    · interval_cases i <;> simp [Ntk.node, exUnbalanced, Node.isPi] at hi ⊢
    · rw [Ntk.node_ge _ _ (by show 7 ≤ i; omega)] at hi; cases hi
  · intro k hk
    interval_cases k
    · exact ⟨2, by decide, rfl⟩
    · exact ⟨3, by decide, rfl⟩
  · intro i j k hi hj
    have hb : ∀ i, exUnbalanced.node i = .pi k → i = k + 2 := by
      intro i hi
      by_cases h : i < 7
      · interval_cases i <;> simp [Ntk.node, exUnbalanced] at hi ⊢ <;> omega
      · rw [Ntk.node_ge _ _ (by show 7 ≤ i; omega)] at hi; cases hi
    rw [hb i hi, hb j hj]
  · intro p hp; simp [exUnbalanced] at hp; show p < 7; omega

theorem exUnbalanced_topo : TopoOrder exUnbalanced [4, 5, 6] := by
  refine ⟨by decide, ?_, ?_, ?_, ?_⟩
  · intro g hg; simp at hg; rcases hg with rfl | rfl | rfl <;> exact ⟨by decide, rfl⟩
  · intro l g r e f hf hg
    match l, e with
    | [], e => simp at e; rw [← e.1] at hf; simp [Ntk.node, exUnbalanced, Node.fanins] at hf; subst hf; cases hg
    | [a], e =>
      simp at e; obtain ⟨rfl, rfl, _⟩ := e
      simp [Ntk.node, exUnbalanced, Node.fanins] at hf; simp [hf]
    | [a, b], e =>
      simp at e; obtain ⟨rfl, rfl, rfl, _⟩ := e
      simp [Ntk.node, exUnbalanced, Node.fanins] at hf
      rcases hf with rfl | rfl
      · cases hg
      · simp
    | a :: b :: c :: l, e => simp at e
  · intro p hp _; simp [exUnbalanced] at hp; rcases hp with rfl | rfl <;> simp
  · intro g hg
    simp at hg
    rcases hg with rfl | rfl | rfl
    · exact Or.inl (by simp [exUnbalanced])
    · exact Or.inr ⟨6, by simp, by simp [Ntk.node, exUnbalanced, Node.fanins]⟩
    · exact Or.inl (by simp [exUnbalanced])

/-- The hypotheses are met by an unbalanced network, into which buffers are inserted. -/
example : exUnbalanced.WF 2 ∧ TopoOrder exUnbalanced [4, 5, 6] ∧ exUnbalanced.pos ≠ [] ∧
    isBalanced false exUnbalanced = false ∧
    (networkBalancing false exUnbalanced 2 [4, 5, 6]).map (fun D => (D.size, isBalanced false D, isBalanced true D))
      = some (9, true, false) ∧
    (networkBalancing true exUnbalanced 2 [4, 5, 6]).map (fun D => (D.size, isBalanced true D)) = some (11, true) :=
  ⟨exUnbalanced_wf, exUnbalanced_topo, by decide, by decide, by decide, by decide⟩

end Verif.Networks
