import Verif.PhysicalDesign.GoldPath

/-!
# Placing a gate and routing its fanins
-/
namespace Verif.PhysicalDesign.Gold

open Verif.Layouts Verif.Clocking Verif.GateLevel Verif.Networks Verif.Paths Verif.PhysicalDesign.ColorRouting Verif.PhysicalDesign.Ortho

/-- Taking the fanins from a node that has just been placed. -/
theorem detach_placed (m : Dim) {s s' : State} {p : Coord} {n fn : Nat} {cs : List Coord} (h : Placed s s' p n fn cs) (h2 : 2 ≤ n)
    (hp : p.d = false) : Placed s (detach m s' p) p n fn [] ∧ (detach m s' p).size = s'.size ∧ (detach m s' p).outputs = s'.outputs := by
  have htn : s'.tileNode p = some n := by rw [h.tile p hp, if_pos rfl]
  have hg : s'.getNode p = n := by simp [State.getNode, htn]
  have ht : s'.getTile n = p := by simp [State.getTile, (h.wf.inv _ _).1 htn]
  have hlt := h.wf.lt _ _ htn
  have hwf : WF (s'.moveNode m n p []) := h.wf.step m (.move n p []) ⟨h2, hlt⟩
  have e1 := SameView.unrefs (s'.nodes n).children s'
  let s2 : State := ((s'.nodes n).children.foldl State.unref s').modNode n (fun d => { d with children := [] })
  have e2 : SameView s' s2 := e1.trans (.mod _ _ _ (fun _ => rfl))
  have hunf : s'.moveNode m n p [] = s2.modNode n (fun d => { d with children := [] }) := by
    unfold State.moveNode
    simp only [ht, if_true, List.foldl_nil]
    rfl
  have e3 : SameView s' (s'.moveNode m n p []) := by
    rw [hunf]
    exact e2.trans (.mod _ _ _ (fun _ => rfl))
  unfold detach
  rw [hg]
  refine ⟨⟨hwf, ?_, ?_, ?_, ?_, ?_⟩, e3.size, e3.outputs⟩
  · intro k hk
    rw [e3.tileNode]
    exact h.tile k hk
  · intro k hk
    refine ⟨?_, ?_⟩
    · rw [← fnOf_def, e3.fnOf]
      exact (h.old k hk).1
    · rw [hunf]
      simp only [State.modNode, if_neg hk, s2, unrefs_children]
      exact (h.old k hk).2
  · rw [← fnOf_def, e3.fnOf]
    exact h.fn
  · rw [hunf]
    simp [State.modNode]
  · rw [e3.inputs]
    exact h.inputs

/-- The last step of a path. -/
theorem Good.final {L : Lo} {src dst : Coord} {p : List Coord} (h : Good L src dst p) : Nbr (p.getD (p.length - 2) const0) dst := by
  have := h.step (p.length - 2) (by have := h.long; omega)
  rwa [show p.length - 2 + 1 = p.length - 1 by have := h.long; omega, getD_last, h.last] at this

theorem mem_of_inner {p : List Coord} {c : Coord} (h : c ∈ inner p) : c ∈ p :=
  List.tail_subset p (List.dropLast_subset _ h)

theorem Good.layable {L : Lo} (w : WF L.s) {src dst : Coord} {p : List Coord} (h : Good L src dst p) (hd : dst.d = false) {n : Nat}
    (hn : L.s.tileNode dst = some n) : Layable L.s p := by
  refine ⟨h.long, ?_, ?_, ?_⟩
  · intro c hc
    have hcd := (h.bounds c (mem_of_inner hc)).1
    exact ⟨hcd, (empty_iff w hcd).1 (h.free c hc).1⟩
  · exact h.nodup.sublist ((List.dropLast_sublist _).trans (List.tail_sublist _))
  · rw [h.last]
    exact ⟨hd, n, hn⟩

/-- A placed gate with routed fanins. -/
structure RoutedGate (tab : Nat → List Bool → Bool) (K : Nat) (m : Dim) (s0 s1 s2 : State) (p : Coord) (fn : Nat) (sel : List (List Coord)) :
    Prop where
  wf : WF s2
  ext : Ext s0 s2
  tile : s2.tileNode p = some s0.size
  fn : (s2.nodes s0.size).fn = fn
  children : (s2.nodes s0.size).children = sel.map fun q => q.getD (q.length - 2) const0
  inputs : s2.inputs = s0.inputs
  outputs : s2.outputs = s1.outputs
  values : ∀ q ∈ sel, Nbr (q.getD (q.length - 2) const0) p ∧ ∀ a b, SVal tab K s0 a (q.getD 0 const0) b →
    SVal tab K s2 a (q.getD (q.length - 2) const0) b
  bounds : ∀ t n, t.d = false → s2.tileNode t = some n → s0.tileNode t = some n ∨ InBounds m t
  high : ∀ n, n < s0.size → ∀ t : Coord, t.d = false → s2.tileNode t = some n → s0.tileNode t = some n
  old : ∀ n, n < s0.size → (s2.nodes n).children = (s0.nodes n).children
  closed : ∀ t n, t.d = false → s2.tileNode t = some n → s0.tileNode t = some n ∨
    ∀ c ∈ (s2.nodes n).children, c.d = false ∧ ∃ k, s2.tileNode c = some k

theorem routed {tab : Nat → List Bool → Bool} (hw : ∀ b, tab 2 [b] = b) {K : Nat} {L : Lo} {s0 : State} {p : Coord} (hp : InBounds L.m p)
    {fn : Nat} (he : s0.tileNode p = none) (w0 : WF s0) (h : Placed s0 L.s p s0.size fn []) (hsz : L.s.size = s0.size + 1)
    (hK : 2 + K ≤ s0.size) (sel : List (List Coord))
    (hg : ∀ q ∈ sel, ∃ src, Good L src p q) (hsrc : ∀ q ∈ sel, ∃ k, s0.tileNode (q.getD 0 const0) = some k) (hd : sel.Pairwise fun a b => ∀ c ∈ inner a, c ∉ inner b) :
    RoutedGate tab K L.m s0 L.s (sel.foldl (routePath L.m) L.s) p fn sel := by
  have htn : L.s.tileNode p = some s0.size := by rw [h.tile p hp.1, if_pos rfl]
  have hlay : ∀ q ∈ sel, Layable L.s q := by
    intro q hq
    obtain ⟨src, hgq⟩ := hg q hq
    exact hgq.layable h.wf hp.1 htn
  obtain ⟨w2, hW⟩ := route_all L.m sel L.s h.wf hlay hd
  generalize sel.foldl (routePath L.m) L.s = s2 at w2 hW ⊢
  have hgn : L.s.getNode p = s0.size := by simp [State.getNode, htn]
  have hlast : ∀ q ∈ sel, L.s.getNode (q.getLastD const0) = s0.size := by
    intro q hq
    obtain ⟨src, hgq⟩ := hg q hq
    rw [hgq.last, hgn]
  have hfree : ∀ t n, L.s.tileNode t = some n → ∀ q ∈ sel, t ∉ inner q := by
    intro t n ht q hq hm
    rw [((hlay q hq).free t hm).2] at ht
    cases ht
  have hold : ∀ n, n < s0.size → (s2.nodes n).fn = (s0.nodes n).fn ∧ (s2.nodes n).children = (s0.nodes n).children := by
    intro n hn
    obtain ⟨h1, h2⟩ := hW.fed n (by omega)
    obtain ⟨h3, h4⟩ := h.old n (by omega)
    refine ⟨h1.trans h3, ?_⟩
    rw [h2, h4]
    have : (sel.filter fun q => L.s.getNode (q.getLastD const0) == n && decide (2 ≤ n)) = [] := by
      rw [List.filter_eq_nil_iff]
      intro q hq hc
      rw [Bool.and_eq_true, beq_iff_eq, hlast q hq] at hc
      omega
    rw [this]
    simp
  have hext : Ext s0 s2 := by
    intro t n ht hn
    have hlt := w0.lt _ _ hn
    have htp : t ≠ p := by rintro rfl; rw [he] at hn; cases hn
    have h1 : L.s.tileNode t = some n := by rw [h.tile t ht, if_neg htp, hn]
    refine ⟨?_, hold n hlt⟩
    rw [hW.untouched t ht (hfree t n h1), h1]
  have hseg : ∀ t : Coord, t.d = false → (∃ q ∈ sel, t ∈ inner q) → ∃ n, s0.size ≤ n ∧ s2.tileNode t = some n := by
    rintro t ht ⟨q, hq, hm⟩
    obtain ⟨i, hi, e⟩ := inner_getD (hlay q hq).long hm
    obtain ⟨n, h1, h2, -, -⟩ := hW.segment q hq i hi
    rw [e] at h2
    exact ⟨n, by omega, h2⟩
  obtain ⟨f1, f2⟩ := hW.fed s0.size (by omega)
  -- every tile of a path but the last is occupied
  have hocc : ∀ q ∈ sel, ∀ i, i + 1 < q.length → (q.getD i const0).d = false ∧ ∃ k, s2.tileNode (q.getD i const0) = some k := by
    intro q hq i hi
    obtain ⟨src, hgq⟩ := hg q hq
    have hid := (hgq.bounds _ (getD_mem (show i < q.length by omega))).1
    refine ⟨hid, ?_⟩
    cases i with
    | zero =>
      obtain ⟨k, hk⟩ := hsrc q hq
      exact ⟨k, (hext _ _ hid hk).1⟩
    | succ i =>
      obtain ⟨k, -, hk, -⟩ := hW.segment q hq i hi
      exact ⟨k, hk⟩
  have hch : (s2.nodes s0.size).children = sel.map fun q => q.getD (q.length - 2) const0 := by
    rw [f2, h.children, List.nil_append]
    have : (sel.filter fun q => L.s.getNode (q.getLastD const0) == s0.size && decide (2 ≤ s0.size)) = sel := by
      rw [List.filter_eq_self]
      intro q hq
      rw [hlast q hq, Bool.and_eq_true]
      refine ⟨beq_self_eq_true _, ?_⟩
      rw [decide_eq_true_eq]
      omega
    rw [this]
  have htp2 : s2.tileNode p = some s0.size := by rw [hW.untouched p hp.1 (hfree p _ htn), htn]
  refine ⟨w2, hext, htp2, f1.trans h.fn, hch, hW.ports.1.trans h.inputs, hW.ports.2, ?_, ?_, ?_, fun n hn => (hold n hn).2, ?_⟩
  · intro q hq
    obtain ⟨src, hgq⟩ := hg q hq
    refine ⟨hgq.final, ?_⟩
    intro a b hv
    have key : ∀ i, i + 1 < q.length → SVal tab K s2 a (q.getD i const0) b := by
      intro i
      induction i with
      | zero => intro _; exact hv.mono hext
      | succ i ih =>
        intro hi
        obtain ⟨n, h1, h2, h3, h4⟩ := hW.segment q hq i hi
        have := ih (by omega)
        have h5 := SVal.one (tab := tab) (K := K) (s := s2) (a := a) (q.getD (i + 1) const0) n (q.getD i const0) b
          (hgq.bounds _ (getD_mem (by omega))).1 h2 (by omega) h4 (hgq.step i (by omega)) this
        rw [h3, hw] at h5
        exact h5
    exact key _ (by have := hgq.long; omega)
  · intro t n ht hn
    by_cases hc : ∃ q ∈ sel, t ∈ inner q
    · obtain ⟨q, hq, hm⟩ := hc
      obtain ⟨src, hgq⟩ := hg q hq
      exact .inr (hgq.bounds t (mem_of_inner hm))
    · rw [hW.untouched t ht (by intro q hq hm; exact hc ⟨q, hq, hm⟩), h.tile t ht] at hn
      split_ifs at hn with htp
      · exact .inr (htp ▸ hp)
      · exact .inl hn
  · intro n hn t ht htn2
    by_cases hc : ∃ q ∈ sel, t ∈ inner q
    · obtain ⟨n', h1, h2⟩ := hseg t ht hc
      rw [h2] at htn2
      injection htn2 with e
      omega
    · rw [hW.untouched t ht (by intro q hq hm; exact hc ⟨q, hq, hm⟩), h.tile t ht] at htn2
      split_ifs at htn2 with htp
      · injection htn2 with e; omega
      · exact htn2
  · intro t n ht hn
    by_cases hc : ∃ q ∈ sel, t ∈ inner q
    · obtain ⟨q, hq, hm⟩ := hc
      obtain ⟨i, hi, e⟩ := inner_getD (hlay q hq).long hm
      obtain ⟨n', -, h2, -, h4⟩ := hW.segment q hq i hi
      rw [e, hn] at h2
      injection h2 with h2
      rw [← h2] at h4
      refine .inr ?_
      intro c hc
      rw [h4, List.mem_singleton] at hc
      rw [hc]
      exact hocc q hq i (by omega)
    · have hn2 := hn
      rw [hW.untouched t ht (by intro q hq hm; exact hc ⟨q, hq, hm⟩), h.tile t ht] at hn
      split_ifs at hn with htp
      · injection hn with e
        refine .inr ?_
        rw [← e, hch]
        intro c hc
        rw [List.mem_map] at hc
        obtain ⟨q, hq, rfl⟩ := hc
        obtain ⟨src, hgq⟩ := hg q hq
        exact hocc q hq _ (by have := hgq.long; omega)
      · exact .inl hn

end Verif.PhysicalDesign.Gold
