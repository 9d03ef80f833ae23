import Verif.PhysicalDesign.ExactInv
import Verif.Networks.Lemmas

/-!
# `assign_layout` builds a layout of the network
-/
namespace Verif.PhysicalDesign.Exact

open Verif.Layouts Verif.Clocking Verif.GateLevel Verif.Networks

/-- What is needed of the network. -/
structure Ok (N : Ntk) (order : List Nat) (lit : Nat → Nat) (tab : Nat → List Bool → Bool) (cap : Nat) : Prop where
  fan : ∀ i < N.size, ∀ f ∈ (N.node i).fanins, f < i
  topo : TopoOrder N order
  all : ∀ n, (N.node n).isGate = true → n ∈ order
  noConst : ∀ n, ∀ f ∈ (N.node n).fanins, (N.node f).isConst = false
  degree : ∀ n ∈ order, 1 ≤ (N.node n).fanins.length ∧ (N.node n).fanins.length ≤ 3
  cap : ∀ n, (N.fanouts n).length ≤ cap
  wire : ∀ b, tab 2 [b] = b
  value : ∀ n ∈ order, ∀ a v, (N.node n).value a v = tab (lit n) ((N.node n).fanins.map v)
  one : ∀ n ∈ order, (N.node n).fanins.length = 1 → lit n = 2 ∨ lit n = 3
  somePi : 0 < N.pis.length
  pis : ∀ j n, N.pis[j]? = some n → N.node n = .pi j
  poFan : ∀ p ∈ N.pos, N.fanouts p = []
  poNodup : N.pos.Nodup
  poBuf : ∀ p ∈ N.pos, (N.node p).isBuf = true

theorem isGate_of_fanins {x : Networks.Node} (h : x.fanins ≠ []) : x.isGate = true := by
  cases x <;> simp_all [Node.fanins, Node.isGate]

theorem mem_fanouts' {N : Ntk} {n f : Nat} : f ∈ N.fanouts n ↔ n ∈ (N.node f).fanins := by
  unfold Ntk.fanouts
  rw [List.mem_filter, List.mem_range, decide_eq_true_eq]
  constructor
  · exact fun h => h.2
  · intro h
    refine ⟨?_, h⟩
    by_contra hc
    rw [Ntk.node_ge _ _ (by omega)] at h
    cases h

section
variable {tab : Nat → List Bool → Bool} {tp : Topo} {m : Dim} {cs : Scheme} {N : Ntk} {order : List Nat} {lit : Nat → Nat} {crossings : Bool}
variable {A : Asg} {cap : Nat}

theorem Ok.sources (ok : Ok N order lit tab cap) (n : Nat) : sources N n = (N.node n).fanins := by
  unfold Exact.sources
  rw [List.filter_eq_self]
  intro f hf
  rw [ok.noConst n f hf]
  rfl

theorem Ok.fanout (ok : Ok N order lit tab cap) {n f : Nat} (h : f ∈ N.fanouts n) : f ∈ order ∧ (n, f) ∈ edges N (N.pis ++ order) := by
  have h1 := mem_fanouts'.1 h
  have h2 : f ∈ order := ok.all f (isGate_of_fanins (List.ne_nil_of_mem h1))
  refine ⟨h2, ?_⟩
  unfold edges
  rw [List.mem_flatMap]
  refine ⟨f, List.mem_append_right _ h2, ?_⟩
  rw [ok.sources, List.mem_map]
  exact ⟨n, h1, rfl⟩

theorem pis_isPi {n : Nat} (h : n ∈ N.pis) : (N.node n).isPi = true := (List.mem_filter.1 h).2

theorem Ok.pi_not_order (ok : Ok N order lit tab cap) {n : Nat} (h : n ∈ N.pis) : n ∉ order := by
  intro ho
  have h1 := pis_isPi h
  have h2 := (ok.topo.gates n ho).2
  cases e : N.node n <;> rw [e] at h1 h2 <;> simp_all [Node.isPi, Node.isGate]

theorem Ok.nodup (ok : Ok N order lit tab cap) : (N.pis ++ order).Nodup := by
  rw [List.nodup_append]
  refine ⟨List.nodup_range.filter _, ok.topo.nodup, ?_⟩
  rintro a ha b hb rfl
  exact ok.pi_not_order ha hb

theorem fanOut_ok (ok : Ok N order lit tab tp.maxFanin) (F : Facts tp m cs N (N.pis ++ order) crossings A) (hc : Clocked tp m cs)
    (hZ : m.Z = if crossings then 1 else 0) {P : List Nat} (hP : ∀ n ∈ P, n ∈ N.pis ++ order) {n : Nat} (hn : n ∈ P) {t : Coord}
    (ht : t ∈ tiles m) : ∀ (fs : List Nat) (own : Coord → Option Item) (st : St) (R : List (Nat × Nat)),
      fs.Nodup → (∀ f ∈ fs, f ∈ N.fanouts n) → Inv tab tp m cs N crossings A own st P R → own t = some (.node n) → (∀ f ∈ fs, (n, f) ∉ R) →
      (∀ e ∈ R, e ∈ edges N (N.pis ++ order)) → (∀ e ∈ R, Final tp m cs crossings A st.pos e) →
      ∃ st' own', fs.foldlM (fun st u => route tp m cs A (n, u) ((tiles m).length + 1)
          { st with pos := branch tp.maxFanin st.pos n u t } t) st = some st' ∧
        Inv tab tp m cs N crossings A own' st' P (R ++ fs.map (fun f => (n, f))) ∧
        (∀ e ∈ R ++ fs.map (fun f => (n, f)), e ∈ edges N (N.pis ++ order)) ∧
        (∀ e ∈ R ++ fs.map (fun f => (n, f)), Final tp m cs crossings A st'.pos e) ∧ Ortho.Ext st.lyt st'.lyt := by
  intro fs
  induction fs with
  | nil =>
    intro own st R _ _ h _ _ hR hF
    exact ⟨st, own, rfl, by simpa using h, by simpa using hR, by simpa using hF, .refl _⟩
  | cons f fs ih =>
    intro own st R hnd hfs h hown hnR hR hF
    have hf := hfs f List.mem_cons_self
    have hfR := hnR f List.mem_cons_self
    obtain ⟨h1, hl, hne⟩ := h.newBranch (ok.cap n) hf hn hfR hown
    have hR' : ∀ e ∈ R ++ [(n, f)], e ∈ edges N (N.pis ++ order) := by
      intro e he
      rcases List.mem_append.1 he with he | he
      · exact hR e he
      · rw [List.mem_singleton] at he
        subst he
        exact (ok.fanout hf).2
    obtain ⟨st', own', r1, r2, r3, r4, r5, r6⟩ := route_ok F hc hZ ok.wire hP hR' (e := (n, f)) (by simp) ((tiles m).length + 1) own
      { st with pos := branch tp.maxFanin st.pos n f t } t [t] h1 ht (by simp only [hl]; exact over_self ht) (by simp)
      (by intro t' ht'; rw [List.mem_singleton] at ht'; subst ht'; exact ⟨ht, .refl⟩)
      (by
        intro c' hc'
        obtain ⟨-, -, -, -, h5⟩ := h.edge c' _ hc'
        exact absurd h5 hfR)
      (by simp)
    obtain ⟨st2, own2, s1, s2, s3, s4, s5⟩ := ih own' st' (R ++ [(n, f)]) (List.nodup_cons.1 hnd).2
      (fun g hg => hfs g (List.mem_cons_of_mem _ hg)) r2 (r5 _ _ hown)
      (by
        intro g hg hc
        rcases List.mem_append.1 hc with hc | hc
        · exact hnR g (List.mem_cons_of_mem _ hg) hc
        · rw [List.mem_singleton, Prod.mk.injEq] at hc
          exact (List.nodup_cons.1 hnd).1 (hc.2 ▸ hg))
      hR'
      (by
        intro e he
        by_cases e0 : e = (n, f)
        · rw [e0]; exact r3
        · have heR : e ∈ R := by
            rcases List.mem_append.1 he with he | he
            · exact he
            · exact absurd (List.mem_singleton.1 he) e0
          unfold Final
          rw [r4 e e0]
          simp only [hne e e0]
          exact hF e heR)
    refine ⟨st2, own2, ?_, ?_, ?_, ?_, r6.trans s5⟩
    · rw [List.foldlM_cons]
      rw [r1]
      exact s1
    · simpa using s2
    · simpa using s3
    · simpa using s4

/-- The tile of a node. -/
theorem tile_find (F : Facts tp m cs N (N.pis ++ order) crossings A) {n : Nat} (hn : n ∈ N.pis ++ order) :
    ∃ t ∈ tiles m, A.tn t n = true ∧ (tiles m).find? (fun t => A.tn t n) = some t ∧ (tiles m).filter (fun t => A.tn t n) = [t] ∧
      ∀ t' ∈ tiles m, A.tn t' n = true → t' = t := by
  obtain ⟨t, h1, h2, h3⟩ := F.placed n hn
  refine ⟨t, h1, h2, ?_, ?_, h3⟩
  · cases hf : (tiles m).find? (fun t => A.tn t n) with
    | none =>
      have := List.find?_eq_none.1 hf t h1
      exact absurd h2 this
    | some t' => rw [h3 t' (List.mem_of_find?_eq_some hf) (by simpa using List.find?_some hf)]
  · have hnd : ((tiles m).filter (fun t => A.tn t n)).Nodup := (tiles_nodup m).filter _
    have hmem : ∀ t', t' ∈ (tiles m).filter (fun t => A.tn t n) ↔ t' = t := by
      intro t'
      rw [List.mem_filter]
      constructor
      · exact fun h => h3 t' h.1 h.2
      · rintro rfl; exact ⟨h1, h2⟩
    have := (List.perm_ext_iff_of_nodup hnd (List.nodup_singleton t)).2 (fun t' => by rw [hmem t', List.mem_singleton])
    exact List.perm_singleton.1 this

/-- The state after the nodes `l`. -/
structure After (tab : Nat → List Bool → Bool) (tp : Topo) (m : Dim) (cs : Scheme) (N : Ntk) (order : List Nat) (crossings : Bool) (A : Asg)
    (l : List Nat) (own : Coord → Option Item) (st : St) : Prop where
  inv : Inv tab tp m cs N crossings A own st (l.filter (fun n => decide (n ∉ N.pos))) (l.flatMap (outEdges N))
  edges : ∀ e ∈ l.flatMap (outEdges N), e ∈ edges N (N.pis ++ order)
  final : ∀ e ∈ l.flatMap (outEdges N), Final tp m cs crossings A st.pos e
  pis : ∀ j n, N.pis[j]? = some n → n ∈ l → ∃ t ∈ tiles m, A.tn t n = true ∧ st.lyt.tileNode t = some (2 + j)

theorem Ok.pi_not_po (ok : Ok N order lit tab cap) {n : Nat} (h : n ∈ N.pis) : n ∉ N.pos := by
  intro ho
  have h1 := pis_isPi h
  have h2 := ok.poBuf n ho
  cases e : N.node n <;> rw [e] at h1 h2 <;> simp_all [Node.isPi, Node.isBuf]

/-- A tile onto which a node goes that is not placed yet is free. -/
theorem free_tile (F : Facts tp m cs N (N.pis ++ order) crossings A) {own : Coord → Option Item} {st : St} {P : List Nat}
    {R : List (Nat × Nat)} (h : Inv tab tp m cs N crossings A own st P R) (hP : ∀ n ∈ P, n ∈ N.pis ++ order)
    (hR : ∀ e ∈ R, e ∈ edges N (N.pis ++ order)) {n : Nat} (hn : n ∈ N.pis ++ order) (hnP : n ∉ P) {t : Coord} (ht : t ∈ tiles m)
    (htn : A.tn t n = true) : own t = none := by
  cases ho : own t with
  | none => rfl
  | some i =>
    exfalso
    cases i with
    | node n' =>
      obtain ⟨-, h1, h2⟩ := h.node t n' ho
      exact hnP (F.nodeUnique t ht n hn n' (hP _ h2) htn h1 ▸ h2)
    | edge e =>
      obtain ⟨g, h1, h2, h3, h4⟩ := h.edge t e ho
      have : g = t := by
        obtain ⟨g1, g2, -⟩ := mem_tiles.1 h1
        obtain ⟨t1, t2, -⟩ := mem_tiles.1 ht
        obtain ⟨x, y, z, d⟩ := g
        obtain ⟨x', y', z', d'⟩ := t
        have e1 := h2.2.1
        have e2 := h2.2.2.1
        simp only at *
        subst g1; subst g2; subst t1; subst t2
        rw [e1, e2]
      rw [this] at h3
      exact F.nodeEdge t ht n hn e (hR e h4) htn h3

/-- The signals of the fanins of a node. -/
theorem fanin_signal (ok : Ok N order lit tab tp.maxFanin) (F : Facts tp m cs N (N.pis ++ order) crossings A) (hc : Clocked tp m cs)
    (hZ : m.Z = if crossings then 1 else 0) {l r : List Nat} {n : Nat} (hl : N.pis ++ order = l ++ n :: r ∨ (N.pis ++ order = l ∧ n ∈ order))
    {own : Coord → Option Item} {st : St}
    (h : After tab tp m cs N order crossings A l own st) {t : Coord} (ht : t ∈ tiles m) (htn : A.tn t n = true) {f : Nat}
    (hf : f ∈ (N.node n).fanins) :
    Flows tp m cs (look st.pos f n) t ∧ ∀ a, TVal tab tp m cs N.pis.length st.lyt a (look st.pos f n) (N.value a f) := by
  have hnm : n ∈ N.pis ++ order := by
    rcases hl with hl | hl
    · rw [hl]; simp
    · exact List.mem_append_right _ hl.2
  have hno : n ∈ order := ok.all n (isGate_of_fanins (List.ne_nil_of_mem hf))
  have hfo : n ∈ N.fanouts f := mem_fanouts'.2 hf
  have hfl : f ∈ l := by
    have hin : f ∈ N.pis ∨ f ∈ order := by
      have hcn := ok.noConst n f hf
      cases e : N.node f with
      | const b => rw [e] at hcn; cases hcn
      | pi k =>
        left
        unfold Ntk.pis
        rw [List.mem_filter, List.mem_range, e]
        refine ⟨?_, rfl⟩
        by_contra hc
        rw [Ntk.node_ge _ _ (by omega)] at e
        cases e
      | buf g => right; exact ok.all f (by rw [e]; rfl)
      | gate g gs => right; exact ok.all f (by rw [e]; rfl)
    rcases hl with hl | hl
    · rcases List.append_eq_append_iff.1 hl with ⟨l', e1, e2⟩ | ⟨l', e1, e2⟩
      · rcases hin with hin | hin
        · rw [e1]; exact List.mem_append_left _ hin
        · rw [e1]
          exact List.mem_append_right _ (ok.topo.fanins l' n r e2 f hf (ok.topo.gates f hin).2)
      · -- `n` would be an input
        cases l' with
        | nil =>
          rw [List.append_nil] at e1
          rcases hin with hin | hin
          · rw [← e1]; exact hin
          · have := ok.topo.fanins [] n r (by simpa using e2.symm) f hf (ok.topo.gates f hin).2
            cases this
        | cons x l' =>
          exfalso
          rw [List.cons_append, List.cons.injEq] at e2
          refine ok.pi_not_order (n := n) ?_ hno
          rw [e1, ← e2.1]; simp
    · rw [← hl.1]
      exact List.mem_append.2 hin
  have hR : (f, n) ∈ l.flatMap (outEdges N) := by
    rw [List.mem_flatMap]
    exact ⟨f, hfl, List.mem_map.2 ⟨n, hfo, rfl⟩⟩
  obtain ⟨g, u, h1, h2, h3⟩ := h.final _ hR
  simp only at h1 h3
  obtain ⟨t', -, -, -, -, hu⟩ := tile_find F hnm
  have hut : u = t := (hu u (h2.tiles hc.small).2 h3).trans (hu t ht htn).symm
  subst hut
  refine ⟨flows_of hc hZ h2 h1 (over_self ht), ?_⟩
  intro a
  rcases h.inv.at_ _ hR with h4 | h4
  · exact h.inv.val _ _ a h4
  · exact h.inv.val _ _ a h4

theorem After.sub {l r : List Nat} (hl : N.pis ++ order = l ++ r) :
    ∀ n ∈ l.filter (fun n => decide (n ∉ N.pos)), n ∈ N.pis ++ order := by
  intro n hn
  rw [hl]
  exact List.mem_append_left _ (List.mem_filter.1 hn).1

theorem step_ok (ok : Ok N order lit tab tp.maxFanin) (F : Facts tp m cs N (N.pis ++ order) crossings A) (hc : Clocked tp m cs)
    (hZ : m.Z = if crossings then 1 else 0) {l r : List Nat} {n : Nat} (hl : N.pis ++ order = l ++ n :: r)
    {own : Coord → Option Item} {st : St} (h : After tab tp m cs N order crossings A l own st) :
    ∃ st' own', stepNode tp m cs N A lit st n = some st' ∧ After tab tp m cs N order crossings A (l ++ [n]) own' st' := by
  have hnm : n ∈ N.pis ++ order := by rw [hl]; simp
  have hnl : n ∉ l := by
    have := ok.nodup
    rw [hl, List.nodup_append] at this
    intro hc
    exact this.2.2 n hc n List.mem_cons_self rfl
  obtain ⟨t, ht, htn, hfind, -, -⟩ := tile_find F hnm
  have hP := After.sub (N := N) (order := order) hl
  unfold stepNode
  rw [hfind]
  simp only
  have hfree : own t = none := free_tile F h.inv hP h.edges hnm (fun hc => hnl (List.mem_filter.1 hc).1) ht htn
  obtain ⟨t1, t2, -⟩ := mem_tiles.1 ht
  have hte : st.lyt.tileNode t = none := (h.inv.free t t1).2 hfree
  have hmapR : (l ++ [n]).flatMap (outEdges N) = l.flatMap (outEdges N) ++ (N.fanouts n).map (fun f => (n, f)) := by
    rw [List.flatMap_append]
    simp [outEdges]
  have hnd : (N.fanouts n).Nodup := List.nodup_range.filter _
  have hnR : ∀ f ∈ N.fanouts n, (n, f) ∉ l.flatMap (outEdges N) := by
    intro f _ hc
    rw [List.mem_flatMap] at hc
    obtain ⟨k, hk, hm⟩ := hc
    obtain ⟨f', -, e⟩ := List.mem_map.1 hm
    injection e with e
    exact hnl (e ▸ hk)
  -- fanouts of the placed node
  have finish : n ∉ N.pos → ∀ (s' : State) (j fn : Nat) (ch : List Coord), Ortho.Placed st.lyt s' t j fn ch →
      (∀ k, st.lyt.tileNode k ≠ some j) → 2 + N.pis.length ≤ s'.size → s'.outputs = [] →
      (∀ j' n', N.pis[j']? = some n' → n' ≠ n → 2 + j' ≠ j) → (∀ j', N.pis[j']? = some n → j = 2 + j') →
      (∀ a, TVal tab tp m cs N.pis.length s' a t (N.value a n)) →
      ∃ st' own', fanOut tp m cs N A t n { st with lyt := s' } = some st' ∧ After tab tp m cs N order crossings A (l ++ [n]) own' st' := by
    intro hpo s' j fn ch p hj hs ho hother hself hval
    have eP : (l ++ [n]).filter (fun n => decide (n ∉ N.pos)) = l.filter (fun n => decide (n ∉ N.pos)) ++ [n] := by
      rw [List.filter_append]
      simp [hpo]
    have hP' : ∀ k ∈ (l ++ [n]).filter (fun n => decide (n ∉ N.pos)), k ∈ N.pis ++ order := by
      refine After.sub (r := r) ?_
      rw [hl]; simp
    have hnP' : n ∈ (l ++ [n]).filter (fun n => decide (n ∉ N.pos)) := by rw [eP]; simp
    obtain ⟨h', hx⟩ := h.inv.place (P' := (l ++ [n]).filter (fun n => decide (n ∉ N.pos))) (it := .node n) p t1 hfree hj hs ho
      (by intro k hk; rw [eP]; exact List.mem_append_left _ hk)
      (by intro k hk; injection hk with hk; subst hk; exact ⟨ht, htn, hnP'⟩)
      (by intro e he; cases he)
      (by
        intro j' n' hj' hn'
        refine hother j' n' hj' ?_
        rintro rfl
        exact hn' hnP')
      hval
    obtain ⟨st', own', r1, r2, r3, r4, r5⟩ := fanOut_ok ok F hc hZ hP' hnP' ht (N.fanouts n) _ { st with lyt := s' } _ hnd (fun _ hf => hf) h'
      (put_self own t (.node n)) hnR h.edges h.final
    refine ⟨st', own', r1, ⟨by rw [hmapR]; exact r2, by rw [hmapR]; exact r3, by rw [hmapR]; exact r4, ?_⟩⟩
    intro j' n' hj' hn'
    rcases List.mem_append.1 hn' with hn' | hn'
    · obtain ⟨t', h1, h2, h3⟩ := h.pis j' n' hj' hn'
      exact ⟨t', h1, h2, ((hx.trans r5) t' _ (mem_tiles.1 h1).1 h3).1⟩
    · rw [List.mem_singleton] at hn'
      subst hn'
      refine ⟨t, ht, htn, (r5 t _ t1 ?_).1⟩
      show s'.tileNode t = _
      rw [p.tile t t1, if_pos rfl, hself j' hj']
  by_cases hpi : (N.node n).isPi = true
  · rw [if_pos hpi]
    have hmp : n ∈ N.pis := by
      rcases List.mem_append.1 hnm with h1 | h1
      · exact h1
      · have h2 := (ok.topo.gates n h1).2
        cases e : N.node n <;> rw [e] at hpi h2 <;> simp_all [Node.isPi, Node.isGate]
    have hidx : N.pis[N.pis.idxOf n]? = some n := by
      rw [List.getElem?_eq_getElem (List.idxOf_lt_length_of_mem hmp)]
      simp
    have hjlt := List.idxOf_lt_length_of_mem hmp
    have hpnd : N.pis.Nodup := List.nodup_range.filter _
    have hinj : ∀ j', N.pis[j']? = some n → j' = N.pis.idxOf n := by
      intro j' hj'
      exact ((List.getElem?_inj hjlt hpnd).1 (hidx.trans hj'.symm)).symm
    have hnone : ∀ k, st.lyt.tileNode k ≠ some (2 + N.pis.idxOf n) :=
      h.inv.pif _ n hidx (fun hc => hnl (List.mem_filter.1 hc).1)
    have hnt : st.lyt.nodeTile (2 + N.pis.idxOf n) = none := by
      cases e : st.lyt.nodeTile (2 + N.pis.idxOf n) with
      | none => rfl
      | some k => exact absurd ((h.inv.wf.inv _ _).2 e) (hnone k)
    have hsz := h.inv.size
    obtain ⟨p, p1, p2⟩ := Ortho.move_placed m h.inv.wf (n := 2 + N.pis.idxOf n) (by omega) (by omega) hnt t1 hte h.inv.outputs
    refine finish (ok.pi_not_po hmp) _ _ _ _ p hnone (by rw [p1]; exact hsz) p2 ?_ ?_ ?_
    · intro j' n' hj' hn' e
      have : j' = N.pis.idxOf n := by omega
      rw [this, hidx] at hj'
      injection hj' with hj'
      exact hn' hj'.symm
    · intro j' hj'
      rw [hinj j' hj']
    · intro a
      have hlt : n < N.size := List.mem_range.1 (List.mem_filter.1 hmp).1
      rw [Ntk.value_eq N ok.fan a n hlt, ok.pis _ n hidx]
      exact .pi t _ t1 (by rw [p.tile t t1, if_pos rfl]) hjlt
  · rw [if_neg hpi]
    have hno : n ∈ order := by
      rcases List.mem_append.1 hnm with h1 | h1
      · exact absurd (pis_isPi h1) hpi
      · exact h1
    have hnp : n ∉ N.pis := fun hc => hpi (pis_isPi hc)
    by_cases hpo : n ∈ N.pos
    · rw [if_pos hpo]
      have e1 : (l ++ [n]).filter (fun n => decide (n ∉ N.pos)) = l.filter (fun n => decide (n ∉ N.pos)) := by
        rw [List.filter_append]
        simp [hpo]
      have e2 : (l ++ [n]).flatMap (outEdges N) = l.flatMap (outEdges N) := by
        rw [hmapR, ok.poFan n hpo]
        simp
      refine ⟨st, own, rfl, ⟨by rw [e1, e2]; exact h.inv, by rw [e2]; exact h.edges, by rw [e2]; exact h.final, ?_⟩⟩
      intro j' n' hj' hn'
      rcases List.mem_append.1 hn' with hn' | hn'
      · exact h.pis j' n' hj' hn'
      · rw [List.mem_singleton] at hn'
        subst hn'
        exact absurd (List.mem_of_getElem? hj') hnp
    · rw [if_neg hpo]
      have hlen := ok.degree n hno
      let ch := (N.node n).fanins.map (fun f => look st.pos f n)
      have hplace : place m N lit st t n = some (st.lyt.createGate m (lit n) ch t) := by
        unfold place
        simp only [ok.sources, List.length_map]
        by_cases h1 : (N.node n).fanins.length = 1
        · rw [if_pos h1, if_pos (ok.one n hno h1)]
        · rw [if_neg h1, if_pos (by omega)]
      rw [hplace]
      simp only
      obtain ⟨p, p1, p2⟩ := Ortho.createGate_placed m h.inv.wf (lit n) ch t1 hte
      have hsz := h.inv.size
      refine finish hpo _ _ _ _ p h.inv.fresh (by rw [p1]; omega) (by rw [p2]; exact h.inv.outputs) ?_ ?_ ?_
      · intro j' n' hj' _
        exact h.inv.pis_lt hj'
      · intro j' hj'
        exact absurd (List.mem_of_getElem? hj') hnp
      · intro a
        have hlt := (ok.topo.gates n hno).1
        have ev : N.value a n = tab ((st.lyt.createGate m (lit n) ch t).nodes st.lyt.size).fn ((N.node n).fanins.map (N.value a)) := by
          rw [p.fn, Ntk.value_eq N ok.fan a n hlt, ok.value n hno]
        rw [ev]
        have hext := p.ext hte h.inv.fresh
        have key : ∀ i, i < (N.node n).fanins.length → Flows tp m cs (ch.getD i const0) t ∧
            TVal tab tp m cs N.pis.length st.lyt a (ch.getD i const0) (((N.node n).fanins.map (N.value a)).getD i false) := by
          intro i hi
          have e1 : ch.getD i const0 = look st.pos ((N.node n).fanins[i]) n := by
            simp [ch, List.getD_eq_getElem?_getD, hi]
          have e2 : ((N.node n).fanins.map (N.value a)).getD i false = N.value a ((N.node n).fanins[i]) := by
            simp [List.getD_eq_getElem?_getD, hi]
          rw [e1, e2]
          obtain ⟨k1, k2⟩ := fanin_signal ok F hc hZ (.inl hl) h ht htn (List.getElem_mem hi)
          exact ⟨k1, k2 a⟩
        refine .gate t _ ((N.node n).fanins.map (N.value a)) t1 (by rw [p.tile t t1, if_pos rfl]) (by omega)
          (by rw [p.children]; simp only [ch, List.length_map]) ?_ ?_
        · intro i hi
          rw [p.children]
          exact (key i (by simpa using hi)).1
        · intro i hi
          rw [p.children]
          exact (key i (by simpa using hi)).2.mono hext

theorem loop_ok (ok : Ok N order lit tab tp.maxFanin) (F : Facts tp m cs N (N.pis ++ order) crossings A) (hc : Clocked tp m cs)
    (hZ : m.Z = if crossings then 1 else 0) : ∀ (r l : List Nat) (own : Coord → Option Item) (st : St), N.pis ++ order = l ++ r →
      After tab tp m cs N order crossings A l own st →
      ∃ st' own', r.foldlM (stepNode tp m cs N A lit) st = some st' ∧ After tab tp m cs N order crossings A (N.pis ++ order) own' st' := by
  intro r
  induction r with
  | nil =>
    intro l own st hl h
    rw [List.append_nil] at hl
    exact ⟨st, own, rfl, hl ▸ h⟩
  | cons n r ih =>
    intro l own st hl h
    obtain ⟨st', own', r1, r2⟩ := step_ok ok F hc hZ hl h
    obtain ⟨st2, own2, s1, s2⟩ := ih (l ++ [n]) own' st' (by rw [hl]; simp) r2
    refine ⟨st2, own2, ?_, s2⟩
    rw [List.foldlM_cons, r1]
    exact s1

theorem start_ok (ok : Ok N order lit tab cap) :
    After tab tp m cs N order crossings A [] (fun _ => none) ⟨Ortho.reserve m N.pis.length init, fun _ => []⟩ := by
  obtain ⟨h1, h2, h3, h4, h5, h6⟩ := Ortho.reserve_spec m ok.somePi
  refine ⟨⟨h1, by simp only; omega, h3, h4, ?_, ?_, ?_, ?_, ?_, ?_, ?_, by simp, by simp, by simp⟩, by simp, by simp, by simp⟩
  · intro c hcd
    simp only [h5 c hcd]
  · intro c n hn; cases hn
  · intro c n hn; cases hn
  · intro c c' g e hn; cases hn
  · intro j n _ _ t ht
    simp only at ht
    cases e : t.d with
    | false => rw [h5 t e] at ht; cases ht
    | true => have := (h1.live t _ ht).2 e; omega
  · intro c i a hn; cases hn
  · intro n; rfl

/-- The state after the outputs `l`. -/
structure Done (tab : Nat → List Bool → Bool) (tp : Topo) (m : Dim) (cs : Scheme) (N : Ntk) (crossings : Bool) (A : Asg) (s0 : State)
    (l : List Nat) (s : State) : Prop where
  wf : WF s
  size : 2 + N.pis.length ≤ s.size
  inputs : s.inputs = (List.range N.pis.length).map (2 + ·)
  ext : Ortho.Ext s0 s
  free : ∀ c n, c.d = false → s.tileNode c = some n → (∃ n', s0.tileNode c = some n') ∨ (c ∈ tiles m ∧ ∃ p ∈ l, A.tn c p = true)
  len : s.outputs.length = l.length
  out : ∀ (i p : Nat), l[i]? = some p → ∃ t ∈ tiles m, A.tn t p = true ∧ s.outputs[i]? = some t ∧
    ∀ a, TVal tab tp m cs N.pis.length s a t (N.value a p)

theorem po_ok (ok : Ok N order lit tab tp.maxFanin) (F : Facts tp m cs N (N.pis ++ order) crossings A) (hc : Clocked tp m cs)
    (hZ : m.Z = if crossings then 1 else 0) {own : Coord → Option Item} {st : St}
    (h : After tab tp m cs N order crossings A (N.pis ++ order) own st) : ∀ (r l : List Nat) (s : State), N.pos = l ++ r →
      Done tab tp m cs N crossings A st.lyt l s →
      ∃ s', r.foldlM (stepPo m N A st.pos) s = some s' ∧ Done tab tp m cs N crossings A st.lyt N.pos s' := by
  intro r
  induction r with
  | nil =>
    intro l s hl hd
    rw [List.append_nil] at hl
    exact ⟨s, rfl, hl ▸ hd⟩
  | cons p r ih =>
    intro l s hl hd
    have hpp : p ∈ N.pos := by rw [hl]; simp
    have hpl : p ∉ l := by
      have := ok.poNodup
      rw [hl, List.nodup_append] at this
      intro hc
      exact this.2.2 p hc p List.mem_cons_self rfl
    have hb := ok.poBuf p hpp
    have hpo : p ∈ order := ok.all p (by cases e : N.node p <;> rw [e] at hb <;> simp_all [Node.isBuf, Node.isGate])
    have hpm : p ∈ N.pis ++ order := List.mem_append_right _ hpo
    obtain ⟨t, ht, htn, -, hfil, -⟩ := tile_find F hpm
    obtain ⟨t1, t2, -⟩ := mem_tiles.1 ht
    obtain ⟨f, hf⟩ : ∃ f, N.node p = .buf f := by
      cases e : N.node p <;> rw [e] at hb <;> simp_all [Node.isBuf]
    have hsrc : sources N p = [f] := by rw [ok.sources, hf]; rfl
    have hstep : stepPo m N A st.pos s p = some (s.createPo m (look st.pos f p) t) := by
      unfold stepPo
      rw [hfil, hsrc]
      rfl
    have hsub := After.sub (N := N) (order := order) (l := N.pis ++ order) (r := []) (by simp)
    have h0 : st.lyt.tileNode t = none :=
      (h.inv.free t t1).2 (free_tile F h.inv hsub h.edges hpm (fun hc => by have := (List.mem_filter.1 hc).2; simp [hpp] at this) ht htn)
    have hempty : s.tileNode t = none := by
      cases e : s.tileNode t with
      | none => rfl
      | some k =>
        exfalso
        rcases hd.free t k t1 e with ⟨n', hn'⟩ | ⟨-, q, hq, hqt⟩
        · rw [h0] at hn'; cases hn'
        · have hqp : q ∈ N.pos := by rw [hl]; exact List.mem_append_left _ hq
          have hqb := ok.poBuf q hqp
          have hqo : q ∈ order := ok.all q (by cases e : N.node q <;> rw [e] at hqb <;> simp_all [Node.isBuf, Node.isGate])
          exact hpl (F.nodeUnique t ht p hpm q (List.mem_append_right _ hqo) htn hqt ▸ hq)
    obtain ⟨pl, p1, p2⟩ := Ortho.createPo_placed m hd.wf (look st.pos f p) t1 hempty
    have hext := pl.ext hempty (fun k hk => by have := hd.wf.lt _ _ hk; omega)
    obtain ⟨k1, k2⟩ := fanin_signal ok F hc hZ (l := N.pis ++ order) (r := []) (n := p) (.inr ⟨rfl, hpo⟩) h ht htn (f := f) (by rw [hf]; exact List.mem_singleton.2 rfl)
    have hval : ∀ a, TVal tab tp m cs N.pis.length (s.createPo m (look st.pos f p) t) a t (N.value a p) := by
      intro a
      have hlt := (ok.topo.gates p hpo).1
      have e : N.value a p = tab ((s.createPo m (look st.pos f p) t).nodes s.size).fn [N.value a f] := by
        rw [pl.fn, ok.wire, Ntk.value_eq N ok.fan a p hlt, hf]
        rfl
      rw [e]
      have hsz := hd.size
      refine .gate t _ _ t1 (by rw [pl.tile t t1, if_pos rfl]) (by omega) (by rw [pl.children]; rfl) ?_ ?_
      · intro i hi
        rw [pl.children]
        have : i = 0 := by simpa using hi
        subst this
        exact k1
      · intro i hi
        rw [pl.children]
        have : i = 0 := by simpa using hi
        subst this
        exact ((k2 a).mono hd.ext).mono hext
    have base : Done tab tp m cs N crossings A st.lyt (l ++ [p]) (s.createPo m (look st.pos f p) t) := by
      refine ⟨pl.wf, by rw [p1]; have := hd.size; omega,
      by rw [pl.inputs]; exact hd.inputs, hd.ext.trans hext, ?_, by rw [p2]; simp [hd.len], ?_⟩
      · intro c n hcd hcn
        rw [pl.tile c hcd] at hcn
        split_ifs at hcn with e
        · subst e
          exact .inr ⟨ht, p, by simp, htn⟩
        · rcases hd.free c n hcd hcn with h1 | ⟨h1, q, h2, h3⟩
          · exact .inl h1
          · exact .inr ⟨h1, q, List.mem_append_left _ h2, h3⟩
      · intro i q hq
        rw [p2]
        by_cases hi : i < l.length
        · rw [List.getElem?_append_left hi] at hq
          obtain ⟨t', h1, h2, h3, h4⟩ := hd.out i q hq
          refine ⟨t', h1, h2, ?_, fun a => (h4 a).mono hext⟩
          rw [List.getElem?_append_left (by rw [hd.len]; exact hi)]
          exact h3
        · rw [List.getElem?_append_right (by omega)] at hq
          have hi' : i - l.length = 0 := by
            by_contra hc
            rw [List.getElem?_eq_none (by simp; omega)] at hq
            cases hq
          rw [hi'] at hq
          injection hq with hq
          subst hq
          refine ⟨t, ht, htn, ?_, hval⟩
          rw [List.getElem?_append_right (by rw [hd.len]; omega), hd.len, hi']
          rfl
    obtain ⟨s', q1, q2⟩ := ih (l ++ [p]) _ (by rw [hl]; simp) base
    refine ⟨s', ?_, q2⟩
    rw [List.foldlM_cons, hstep]
    exact q1

/-- The layout of a satisfying assignment. -/
theorem assign_ok (ok : Ok N order lit tab tp.maxFanin) (hc : Clocked tp m cs) (hZ : m.Z = if crossings then 1 else 0)
    (hsat : satBase tp m cs N (N.pis ++ order) crossings A = true) :
    ∃ s0 s, assign tp m cs N (N.pis ++ order) A lit = some s ∧ Done tab tp m cs N crossings A s0 N.pos s ∧
      (∀ c n, c.d = false → s.tileNode c = some n → InBounds m c) ∧
      ∀ j n, N.pis[j]? = some n → ∃ t ∈ tiles m, A.tn t n = true ∧ s.tileNode t = some (2 + j) := by
  have F := sat_facts hc hsat
  obtain ⟨st, own, h1, h2⟩ := loop_ok ok F hc hZ (N.pis ++ order) [] _ _ (by simp) (start_ok (tp := tp) (m := m) (cs := cs) (crossings := crossings) (A := A) ok)
  have hd0 : Done tab tp m cs N crossings A st.lyt [] st.lyt :=
    ⟨h2.inv.wf, h2.inv.size, h2.inv.inputs, .refl _, fun c n _ hn => .inl ⟨n, hn⟩, by rw [h2.inv.outputs]; rfl, by simp⟩
  obtain ⟨s, h3, h4⟩ := po_ok ok F hc hZ h2 N.pos [] st.lyt (by simp) hd0
  refine ⟨st.lyt, s, ?_, h4, ?_, ?_⟩
  · unfold assign
    rw [h1]
    exact h3
  · intro c n hcd hcn
    rcases h4.free c n hcd hcn with ⟨n', hn'⟩ | ⟨h5, -⟩
    · cases ho : own c with
      | none => rw [(h2.inv.free c hcd).2 ho] at hn'; cases hn'
      | some i =>
        cases i with
        | node k => exact tile_inBounds (h2.inv.node c k ho).1
        | edge e =>
          obtain ⟨g, g1, g2, -⟩ := h2.inv.edge c e ho
          exact g2.inBounds hZ g1
    · exact tile_inBounds h5
  · intro j n hj
    obtain ⟨t, t1, t2, t3⟩ := h2.pis j n hj (List.mem_append_left _ (List.mem_of_getElem? hj))
    exact ⟨t, t1, t2, (h4.ext t _ (mem_tiles.1 t1).1 t3).1⟩

end

end Verif.PhysicalDesign.Exact
