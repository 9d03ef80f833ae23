import Verif.PhysicalDesign.GoldInv

/-!
# The steps of graph-oriented layout design preserve the invariant
-/
namespace Verif.PhysicalDesign.Gold

open Verif.Layouts Verif.Clocking Verif.GateLevel Verif.Networks Verif.Paths Verif.PhysicalDesign.ColorRouting Verif.PhysicalDesign.Ortho

variable {g : Space} {k : Nat} {tab : Nat → List Bool → Bool}

theorem Good.unblock {L : Lo} {src dst : Coord} {p b : List Coord} (h : Good (L.block b) src dst p) :
    Good L src dst p ∧ ∀ c ∈ inner p, c ∉ b := by
  refine ⟨⟨h.long, h.head, h.last, h.nodup, h.step, h.bounds, ?_⟩, ?_⟩
  · intro c hc
    obtain ⟨h1, h2⟩ := h.free c hc
    exact ⟨h1, fun hm => h2 (List.mem_append_left _ hm)⟩
  · intro c hc hm
    exact (h.free c hc).2 (List.mem_append_right _ hm)

theorem GInv.source {done : List Nat} {L : Lo} (I : GInv g tab done L) {f : Nat} (hf : f ∈ done) :
    InBounds L.m (L.pos f) ∧ ∃ j, L.s.tileNode (L.pos f) = some j := by
  obtain ⟨h1, j, h2⟩ := (I.at_ f hf (fun _ => false)).occupied
  exact ⟨I.tidy.bounds _ _ h1 h2, j, h2⟩

theorem route1_step {q : Queue Coord Nat} (hq : q.Faithful) (ps : Params) (S : Suitable g k tab) {done rest : List Nat} {n f : Nat}
    (ho : g.order = done ++ n :: rest) {L : Lo} (I : GInv g tab done L) (hpi : (g.N.node n).isPi = false) (hff : (g.N.node n).fanins = [f])
    {p : Coord} (hp : InBounds L.m p) (hz : p.z = 0) (he : L.s.tileNode p = none) (hl : 2 ≤ (findPath q ps L (L.pos f) p).length)
    {s' : State} {fn : Nat} {cs : List Coord} (hP : Placed L.s s' p L.s.size fn cs) (hsz : s'.size = L.s.size + 1)
    (hout : s'.outputs = L.s.outputs ++ (if n ∈ g.N.pos then [p] else []))
    (hfn : ∀ a v, (g.N.node n).value a v = tab fn ((g.N.node n).fanins.map v))
    (hpo : n ∈ g.N.pos → p.x = L.m.X ∨ p.y = L.m.Y) :
    ∃ L', route1 q ps L n p s' (L.pos f) = some L' ∧ GInv g tab (done ++ [n]) L' ∧ L'.m = L.m := by
  have hfd := S.topo _ _ _ ho f (by rw [hff]; simp)
  obtain ⟨hsb, j, hsj⟩ := I.source hfd
  obtain ⟨hD, hD2, hD3⟩ := detach_placed L.m hP (by have := I.size; omega) hp.1
  have hout' : (detach L.m s' p).outputs = L.s.outputs ++ (if n ∈ g.N.pos then [p] else []) := hD3.trans hout
  have hoo : (detach L.m s' p).outputs = L.s.outputs ∨ (detach L.m s' p).outputs = L.s.outputs ++ [p] := by
    rw [hout']
    split_ifs
    · exact .inr rfl
    · exact .inl (List.append_nil _)
  have hoff : findPath q ps { L with s := detach L.m s' p } (L.pos f) p = findPath q ps L (L.pos f) p :=
    findPath_off I.tidy hp.1 he hD hoo hq ps I.depth L.obs L.pos hsb (I.ground f hfd)
  have hgood : Good { L with s := detach L.m s' p } (L.pos f) p (findPath q ps L (L.pos f) p) := by
    rw [← hoff]
    exact findPath_good hq ps (L := { L with s := detach L.m s' p }) I.depth hsb (by rw [hoff]; exact hl)
  have hR := routed (tab := tab) S.wire (K := g.N.pis.length) (L := { L with s := detach L.m s' p }) hp he I.tidy.wf hD (hD2.trans hsz) I.size
    [findPath q ps L (L.pos f) p]
    (by intro r hr; rw [List.mem_singleton] at hr; rw [hr]; exact ⟨_, hgood⟩)
    (by intro r hr; rw [List.mem_singleton] at hr; rw [hr, hgood.head]; exact ⟨j, hsj⟩) (by simp)
  refine ⟨_, ?_, gate_inv S ho I hpi hp hz hR hout' hfn ?_ (.inl rfl) hpo (findPath q ps L (L.pos f) p), rfl⟩
  · unfold route1
    dsimp only
    rw [checkPath_none, hoff]
    generalize findPath q ps L (L.pos f) p = r at *
    have e : (if r.length < 2 then [] else r) = r := if_neg (by omega)
    rw [e, if_neg (by intro e; rw [e] at hl; simp at hl)]
    rfl
  · rw [hff, List.map_singleton, List.map_singleton, hgood.head]

theorem route2_step {q : Queue Coord Nat} (hq : q.Faithful) (ps : Params) (S : Suitable g k tab) {done rest : List Nat} {n f h : Nat}
    (ho : g.order = done ++ n :: rest) {L : Lo} (I : GInv g tab done L) (hpi : (g.N.node n).isPi = false) (hff : (g.N.node n).fanins = [f, h])
    {p : Coord} (hp : InBounds L.m p) (hz : p.z = 0) (he : L.s.tileNode p = none) (hl : 2 ≤ (findPath q ps L (L.pos f) p).length)
    (hl2 : 2 ≤ (findPath q ps (L.block (findPath q ps L (L.pos f) p)) (L.pos h) p).length)
    {s' : State} {fn : Nat} {cs : List Coord} (hP : Placed L.s s' p L.s.size fn cs) (hsz : s'.size = L.s.size + 1)
    (hout : s'.outputs = L.s.outputs) (hnp : n ∉ g.N.pos)
    (hfn : ∀ a v, (g.N.node n).value a v = tab fn ((g.N.node n).fanins.map v)) :
    ∃ L', route2 q ps L n p s' (L.pos f) (L.pos h) = some L' ∧ GInv g tab (done ++ [n]) L' ∧ L'.m = L.m := by
  have hfd := S.topo _ _ _ ho f (by rw [hff]; simp)
  have hhd := S.topo _ _ _ ho h (by rw [hff]; simp)
  obtain ⟨hsb, j, hsj⟩ := I.source hfd
  obtain ⟨hsb', j', hsj'⟩ := I.source hhd
  obtain ⟨hD, hD2, hD3⟩ := detach_placed L.m hP (by have := I.size; omega) hp.1
  have hoo : (detach L.m s' p).outputs = L.s.outputs := hD3.trans hout
  have hoff : findPath q ps { L with s := detach L.m s' p } (L.pos f) p = findPath q ps L (L.pos f) p :=
    findPath_off I.tidy hp.1 he hD (.inl hoo) hq ps I.depth L.obs L.pos hsb (I.ground f hfd)
  generalize hr : findPath q ps L (L.pos f) p = r at hl hl2 hoff
  have hoff2 : findPath q ps ({ L with s := detach L.m s' p }.block r) (L.pos h) p = findPath q ps (L.block r) (L.pos h) p :=
    findPath_off I.tidy hp.1 he hD (.inl hoo) hq ps I.depth (L.obs ++ r) L.pos hsb' (I.ground h hhd)
  generalize hr2 : findPath q ps (L.block r) (L.pos h) p = r2 at hl2 hoff2
  have hgood : Good { L with s := detach L.m s' p } (L.pos f) p r := by
    rw [← hoff]
    exact findPath_good hq ps (L := { L with s := detach L.m s' p }) I.depth hsb (by rw [hoff]; exact hl)
  have hgood2 : Good ({ L with s := detach L.m s' p }.block r) (L.pos h) p r2 := by
    have := findPath_good hq ps (L := { L with s := detach L.m s' p }.block r) (src := L.pos h) (dst := p) I.depth hsb' (by rw [hoff2]; exact hl2)
    rwa [hoff2] at this
  obtain ⟨hg2, hdis⟩ := hgood2.unblock
  have hR := routed (tab := tab) S.wire (K := g.N.pis.length) (L := { L with s := detach L.m s' p }) hp he I.tidy.wf hD (hD2.trans hsz) I.size
    [r, r2]
    (by
      intro x hx
      rw [List.mem_cons, List.mem_singleton] at hx
      rcases hx with rfl | rfl
      · exact ⟨_, hgood⟩
      · exact ⟨_, hg2⟩)
    (by
      intro x hx
      rw [List.mem_cons, List.mem_singleton] at hx
      rcases hx with rfl | rfl
      · rw [hgood.head]; exact ⟨j, hsj⟩
      · rw [hg2.head]; exact ⟨j', hsj'⟩)
    (by
      rw [List.pairwise_cons]
      refine ⟨?_, by simp⟩
      intro x hx c hc hc2
      rw [List.mem_singleton] at hx
      subst hx
      exact hdis c hc2 (mem_of_inner hc))
  refine ⟨_, ?_, gate_inv S ho I hpi hp hz hR (by rw [if_neg hnp, List.append_nil]; exact hoo) hfn ?_ (.inr rfl) (fun hc => absurd hc hnp) (r ++ r2), rfl⟩
  · unfold route2
    dsimp only
    have e : (if r.length < 2 then [] else r) = r := if_neg (by omega)
    have e2 : (if r2.length < 2 then [] else r2) = r2 := if_neg (by omega)
    rw [checkPath_none, hoff, e, if_neg (by intro e; rw [e] at hl; simp at hl), checkPath_none, hoff2, e2,
      if_neg (by intro e; rw [e] at hl2; simp at hl2)]
    rfl
  · rw [hff]
    simp only [List.map_cons, List.map_nil]
    rw [hgood.head, hg2.head]

theorem Suitable.noOutputs (S : Suitable g k tab) {done rest : List Nat} {n : Nat} (ho : g.order = done ++ n :: rest) (hn : n ∉ g.N.pos) :
    done.filter (fun n => decide (n ∈ g.N.pos)) = [] := by
  obtain ⟨body, hb⟩ := S.posLast
  have hnd := S.nodup
  rw [hb, List.nodup_append] at hnd
  rw [List.filter_eq_nil_iff]
  intro j hj hjp
  rw [decide_eq_true_eq] at hjp
  rw [hb] at ho
  rcases List.append_eq_append_iff.1 ho with ⟨a, h1, h2⟩ | ⟨a, h1, h2⟩
  · apply hn
    rw [h2]
    simp
  · exact hnd.2.2 j (by rw [h1]; simp [hj]) j hjp rfl

theorem Tidy.grow {m m' : Dim} {s : State} (h : Tidy m s) (hX : m.X ≤ m'.X) (hY : m.Y ≤ m'.Y) (hZ : m.Z = m'.Z) : Tidy m' s := by
  refine ⟨h.wf, ?_, h.closed, h.const, h.outputs⟩
  intro t n ht hn
  obtain ⟨h1, h2, h3, h4⟩ := h.bounds t n ht hn
  exact ⟨h1, by omega, by omega, by omega⟩

theorem pi_step {q : Queue Coord Nat} (ps : Params) (S : Suitable g k tab) {done rest : List Nat} {n : Nat}
    (ho : g.order = done ++ n :: rest) {L : Lo} (I : GInv g tab done L) (hpi : (g.N.node n).isPi = true) {p : Coord} (hd : p.d = false)
    (hz : p.z = 0) (hb : AtBorder g.piLocs p) (he : L.s.tileNode p = none) :
    ∃ L', placeAndRoute q ps g L n p = some L' ∧ GInv g tab (done ++ [n]) L' := by
  have hno : n ∈ g.order := by rw [ho]; simp
  have hnd := S.notDone ho
  obtain ⟨hm, hi, hnode⟩ := idx_spec S hpi (S.nodes n hno)
  have hnp : n ∉ g.N.pos := by
    intro hc
    obtain ⟨f, hf⟩ := S.output n hc
    rw [hf] at hpi
    cases hpi
  have hnone : L.s.outputs = [] := by rw [I.outputs, S.noOutputs ho hnp]; rfl
  have hunpl : ∀ t, L.s.tileNode t ≠ some (2 + g.N.pis.idxOf n) := I.unplaced n hm hnd
  have hu : L.s.nodeTile (2 + g.N.pis.idxOf n) = none := by
    cases e : L.s.nodeTile (2 + g.N.pis.idxOf n) with
    | none => rfl
    | some t => exact absurd ((I.tidy.wf.inv _ _).2 e) (hunpl t)
  have hsz := I.size
  obtain ⟨hP, hP2, hP3⟩ := move_placed ⟨max L.m.X p.x, max L.m.Y p.y, L.m.Z⟩ I.tidy.wf (by omega)
    (show 2 + g.N.pis.idxOf n < L.s.size by omega) hu hd he hnone
  have hext := hP.ext he hunpl
  refine ⟨_, by unfold placeAndRoute; rw [if_pos hpi], ?_⟩
  generalize hmd : (⟨max L.m.X p.x, max L.m.Y p.y, L.m.Z⟩ : Dim) = m' at *
  have hX : m'.X = max L.m.X p.x := by rw [← hmd]
  have hY : m'.Y = max L.m.Y p.y := by rw [← hmd]
  have hZ : m'.Z = L.m.Z := by rw [← hmd]
  generalize hs2 : L.s.moveNode m' (2 + g.N.pis.idxOf n) p [] = s2 at *
  have hpos : ∀ j ∈ done, ({ L with m := m' }.finish n p s2 []).pos j = L.pos j := by
    intro j hj
    have : j ≠ n := by rintro rfl; exact hnd hj
    simp [Lo.finish, this]
  have hposn : ({ L with m := m' }.finish n p s2 []).pos n = p := by simp [Lo.finish]
  have ht := I.tidy.grow (m' := m') (by omega) (by omega) hZ.symm
  have htp : s2.tileNode p = some (2 + g.N.pis.idxOf n) := by rw [hP.tile p hd, if_pos rfl]
  refine ⟨⟨?_, ?_, ?_, ?_, ?_⟩, ?_, ?_, ?_, ?_, ?_, ?_, ?_, ?_, ?_⟩
  · exact hP.wf
  · intro t j htd hj
    have hj' : s2.tileNode t = some j := hj
    rw [hP.tile t htd] at hj'
    split_ifs at hj' with h
    · rw [h]
      show InBounds m' p
      exact ⟨hd, by omega, by omega, by omega⟩
    · exact ht.bounds t j htd hj'
  · intro t j htd hj c hc
    have hj' : s2.tileNode t = some j := hj
    have hc' : c ∈ (s2.nodes j).children := hc
    rw [hP.tile t htd] at hj'
    split_ifs at hj' with h
    · injection hj' with e
      rw [← e, hP.children] at hc'
      cases hc'
    · rw [(hext t j htd hj').2.2] at hc'
      obtain ⟨h1, i, h2⟩ := ht.closed t j htd hj' c hc'
      exact ⟨h1, i, (hext c i h1 h2).1⟩
  · show (s2.nodes 0).children = []
    rw [(hP.old 0 (by omega)).2]
    exact ht.const
  · intro o hoo
    have : o ∈ s2.outputs := hoo
    rw [hP3] at this
    cases this
  · show _ ≤ s2.size
    rw [hP2]
    exact hsz
  · show m'.Z ≤ 1
    rw [hZ]
    exact I.depth
  · exact hP.inputs.trans I.inputs
  · show s2.outputs = _
    rw [hP3, List.filter_append, S.noOutputs ho hnp]
    simp [hnp]
  · intro j hj a
    rw [List.mem_append, List.mem_singleton] at hj
    rcases hj with hj | rfl
    · rw [hpos j hj]
      exact (I.at_ j hj a).mono hext
    · rw [hposn]
      have hv : g.N.value a j = a (g.N.pis.idxOf j) := by
        rw [Ntk.value_eq g.N S.wf.fanins a j (S.nodes j hno)]
        conv => lhs; rw [hnode]
        rfl
      rw [hv]
      exact .pi p _ hd htp hi
  · intro j hj
    rw [List.mem_append, List.mem_singleton] at hj
    rcases hj with hj | rfl
    · rw [hpos j hj]; exact I.ground j hj
    · rw [hposn]; exact hz
  · intro j hj hji
    rw [List.mem_append, List.mem_singleton] at hj
    rcases hj with hj | rfl
    · rw [hpos j hj]
      obtain ⟨h1, h2⟩ := I.pi j hj hji
      exact ⟨(hext _ _ (I.at_ j hj (fun _ => false)).occupied.1 h1).1, h2⟩
    · rw [hposn]; exact ⟨htp, hb⟩
  · intro j hj hjd t htj
    have htj' : s2.tileNode t = some (2 + g.N.pis.idxOf j) := htj
    rw [List.mem_append, not_or, List.mem_singleton] at hjd
    have htd : t.d = false := by
      cases hdd : t.d with
      | false => rfl
      | true =>
        have := (hP.wf.live t _ htj').2 hdd
        omega
    rw [hP.tile t htd] at htj'
    split_ifs at htj' with h
    · have e : g.N.pis.idxOf n = g.N.pis.idxOf j := by injection htj' with e; omega
      exact hjd.2 ((List.idxOf_inj hm).1 e).symm
    · exact I.unplaced j hj hjd.1 t htj'
  · intro j hj hjp
    rw [List.mem_append, List.mem_singleton] at hj
    rcases hj with hj | rfl
    · exfalso
      have : j ∈ done.filter (fun n => decide (n ∈ g.N.pos)) := by rw [List.mem_filter]; exact ⟨hj, by simp [hjp]⟩
      rw [S.noOutputs ho hnp] at this
      cases this
    · exact absurd hjp hnp

/-- Every possible position of the next node can be used. -/
theorem step {q : Queue Coord Nat} (hq : q.Faithful) (ps : Params) (S : Suitable g k tab) {done rest : List Nat} {n : Nat}
    (ho : g.order = done ++ n :: rest) {L : Lo} (I : GInv g tab done L) {skip : Nat} {p : Coord} (hp : p ∈ positions q ps g skip L n) :
    ∃ L', placeAndRoute q ps g L n p = some L' ∧ GInv g tab (done ++ [n]) L' := by
  have hno : n ∈ g.order := by rw [ho]; simp
  have w := I.tidy.wf
  unfold positions at hp
  by_cases hpi : (g.N.node n).isPi = true
  · rw [if_pos hpi] at hp
    obtain ⟨h1, h2, h3, h4⟩ := positionsPi_spec hp
    exact pi_step ps S ho I hpi h1 h2 h3 ((empty_iff w h1).1 h4)
  · rw [if_neg hpi] at hp
    have hpf : (g.N.node n).isPi = false := by simpa using hpi
    unfold placeAndRoute
    rw [if_neg hpi]
    by_cases hnp : n ∈ g.N.pos
    · rw [if_pos hnp] at hp
      obtain ⟨f, hf⟩ := S.output n hnp
      have hff : (g.N.node n).fanins = [f] := by rw [hf]; rfl
      rw [hff] at hp ⊢
      obtain ⟨h1, h2, h3, h4, h5⟩ := positionsPo_spec hp
      have he := (empty_iff w h1.1).1 h4
      dsimp only
      rw [if_pos hnp]
      obtain ⟨hP, hP2, hP3⟩ := createPo_placed L.m w (L.pos f) h1.1 he
      obtain ⟨L', e, I', -⟩ := route1_step hq ps S ho I hpf hff h1 h2 he h5 hP hP2 (by rw [if_pos hnp]; exact hP3)
        (by intro a v; rw [hf]; simp [Networks.Node.value, Networks.Node.fanins, S.wire]) (fun _ => h3)
      exact ⟨L', e, I'⟩
    · rw [if_neg hnp] at hp
      rcases S.kinds n hno with h | h | h
      · exact absurd h hpi
      · obtain ⟨f, hff⟩ := List.length_eq_one_iff.1 h
        rw [hff] at hp ⊢
        obtain ⟨h1, h2, h4, h5⟩ := positionsOne_spec hp
        have he := (empty_iff w h1.1).1 h4
        dsimp only
        rw [if_neg hnp]
        unfold place1
        rw [if_pos (S.unary n hno h)]
        obtain ⟨hP, hP2, hP3⟩ := createGate_placed L.m w (g.lit n) [L.pos f] h1.1 he
        obtain ⟨L', e, I', -⟩ := route1_step hq ps S ho I hpf hff h1 h2 he h5 hP hP2 (by rw [if_neg hnp, List.append_nil]; exact hP3)
          (S.fn n hno hpf) (fun hc => absurd hc hnp)
        exact ⟨L', e, I'⟩
      · obtain ⟨f, f', hff⟩ := List.length_eq_two.1 h
        rw [hff] at hp ⊢
        obtain ⟨h1, h2, h4, h5, h6⟩ := positionsTwo_spec hp
        have he := (empty_iff w h1.1).1 h4
        dsimp only
        obtain ⟨hP, hP2, hP3⟩ := createGate_placed L.m w (g.lit n) [asSignal f, asSignal f'] h1.1 he
        obtain ⟨L', e, I', -⟩ := route2_step hq ps S ho I hpf hff h1 h2 he h5 h6 hP hP2 hP3 hnp (S.fn n hno hpf)
        exact ⟨L', e, I'⟩

theorem adjust_inv (S : Suitable g k tab) {done rest : List Nat} {n : Nat} (ho : g.order = done ++ n :: rest) {L : Lo}
    (I : GInv g tab (done ++ [n]) L) (p : Coord) : GInv g tab (done ++ [n]) (adjust g L n p) := by
  unfold adjust
  by_cases hn : n ∈ g.N.pos
  · rw [if_pos hn]
    exact I
  · rw [if_neg hn]
    have ht := I.tidy.grow (m' := ⟨if p.x = L.m.X then L.m.X + 1 else L.m.X, if p.y = L.m.Y then L.m.Y + 1 else L.m.Y, L.m.Z⟩)
      (by dsimp only; split_ifs <;> omega) (by dsimp only; split_ifs <;> omega) rfl
    refine ⟨ht, I.size, I.depth, I.inputs, I.outputs, I.at_, I.ground, I.pi, I.unplaced, ?_⟩
    intro j hj hjp
    exfalso
    have : j ∈ (done ++ [n]).filter (fun n => decide (n ∈ g.N.pos)) := by rw [List.mem_filter]; exact ⟨hj, by simp [hjp]⟩
    rw [List.filter_append, S.noOutputs ho hn] at this
    simp [hn] at this

/-! ## The start -/

theorem createPis_const (m : Dim) (k : Nat) : (((List.range k).foldl (fun s _ => s.createPi m ⟨0, 0, 0, false⟩) GateLevel.init).nodes 0).children = [] := by
  induction k with
  | zero => rfl
  | succ k ih =>
    rw [List.range_succ, List.foldl_append, List.foldl_cons, List.foldl_nil]
    have hs := (createPis m ⟨0, 0, 0, false⟩ rfl k).2.1
    generalize (List.range k).foldl (fun s _ => s.createPi m ⟨0, 0, 0, false⟩) GateLevel.init = s at ih hs
    unfold State.createPi
    simp only
    rw [assign_nodes m rfl, clear_children]
    simp only [State.push, hs]
    rw [if_neg (by omega)]
    exact ih

theorem reserve_const (m : Dim) {k : Nat} (hk : 0 < k) : ((reserve m k GateLevel.init).nodes 0).children = [] := by
  have hc := createPis_const m k
  obtain ⟨w, hs, hi, hout, ht, hf⟩ := createPis m ⟨0, 0, 0, false⟩ rfl k
  unfold reserve
  simp only at hs ht w ⊢
  generalize (List.range k).foldl (fun s _ => s.createPi m ⟨0, 0, 0, false⟩) GateLevel.init = s at w hs ht hc
  have htn : s.tileNode ⟨0, 0, 0, false⟩ = some (1 + k) := by rw [ht _ rfl, if_pos ⟨rfl, hk⟩]
  have hg : s.getNode ⟨0, 0, 0, false⟩ = 1 + k := by simp [State.getNode, htn]
  rw [hg]
  have hold : s.getTile (1 + k) = ⟨0, 0, 0, false⟩ := by simp [State.getTile, (w.inv _ _).1 htn]
  unfold State.moveNode
  have hd : const0.d = true := rfl
  simp only [hold, if_neg (show const0 ≠ ⟨0, 0, 0, false⟩ by decide), hd, if_true, List.foldl_nil, assign_dead m hd]
  simp only [State.modNode, if_neg (show (0 : Nat) ≠ 1 + k by omega)]
  have hrev : ∀ s' : State, (s'.revive (1 + k)).nodes 0 = s'.nodes 0 := by
    intro s'
    unfold State.revive
    split_ifs
    · rfl
    · simp only [State.modNode, if_neg (show (0 : Nat) ≠ 1 + k by omega)]
  rw [hrev, clear_children]
  simp only [if_neg (show (0 : Nat) ≠ 1 + k by omega)]
  rw [unrefs_children]
  exact hc

theorem start_inv (S : Suitable g k tab) (ps : Params) : GInv g tab [] (start ps g) := by
  have hk : 0 < g.N.pis.length := List.length_pos_of_ne_nil S.somePi
  unfold start
  generalize hm : (⟨g.N.pis.length - 1, 0, if ps.planar then 0 else 1⟩ : Dim) = m
  obtain ⟨w, hs, hi, ho, ht, hf⟩ := reserve_spec m hk
  refine ⟨⟨w, ?_, ?_, reserve_const m hk, ?_⟩, ?_, ?_, hi, ?_, ?_, ?_, ?_, ?_, ?_⟩
  · intro t n htd hn
    have : (reserve m g.N.pis.length GateLevel.init).tileNode t = some n := hn
    rw [ht t htd] at this
    cases this
  · intro t n htd hn
    have : (reserve m g.N.pis.length GateLevel.init).tileNode t = some n := hn
    rw [ht t htd] at this
    cases this
  · intro o hoo
    have : o ∈ (reserve m g.N.pis.length GateLevel.init).outputs := hoo
    rw [ho] at this
    cases this
  · exact Nat.le_of_eq hs.symm
  · show m.Z ≤ 1
    rw [← hm]
    dsimp only
    split_ifs <;> omega
  · exact ho
  all_goals try (intro n hn; cases hn; done)
  intro n hn _ t he
  have he' : (reserve m g.N.pis.length GateLevel.init).tileNode t = some (2 + g.N.pis.idxOf n) := he
  have htd : t.d = false := by
    cases hd : t.d with
    | false => rfl
    | true =>
      have := (w.live t _ he').2 hd
      omega
  rw [ht t htd] at he'
  cases he'

/-! ## Replaying a vertex -/

/-- The layout of a vertex. -/
def replay (q : Queue Coord Nat) (ps : Params) (g : Space) : List Coord → Nat → Lo → Option Lo
  | [], _, L => some L
  | p :: r, idx, L => (placeAndRoute q ps g L (g.order.getD idx 0) p).bind fun L' => replay q ps g r (idx + 1) (adjust g L' (g.order.getD idx 0) p)

theorem replay_snoc (q : Queue Coord Nat) (ps : Params) (p : Coord) : ∀ (l : List Coord) (idx : Nat) (L : Lo),
    replay q ps g (l ++ [p]) idx L = (replay q ps g l idx L).bind fun L1 =>
      (placeAndRoute q ps g L1 (g.order.getD (idx + l.length) 0) p).bind fun L2 => some (adjust g L2 (g.order.getD (idx + l.length) 0) p)
  | [], idx, L => rfl
  | a :: l, idx, L => by
    rw [List.cons_append]
    unfold replay
    cases placeAndRoute q ps g L (g.order.getD idx 0) a with
    | none => rfl
    | some L' =>
      simp only [Option.bind_some]
      rw [replay_snoc q ps p l (idx + 1)]
      simp only [List.length_cons, show idx + 1 + l.length = idx + (l.length + 1) by omega]

theorem expandLoop_next {q : Queue Coord Nat} {ps : Params} {skip : Nat} {v : Nat → Verdict} {r : List Coord} : ∀ {l : List Coord} {idx : Nat} {L : Lo},
    expandLoop q ps g skip v l idx L = .next r → ∃ L', replay q ps g l idx L = some L' ∧ idx + l.length < g.order.length ∧
      r = positions q ps g skip L' (g.order.getD (idx + l.length) 0)
  | [], idx, L, h => by
    unfold expandLoop at h
    cases h
  | p :: rest, idx, L, h => by
    unfold expandLoop at h
    unfold replay
    dsimp only at h
    cases e : placeAndRoute q ps g L (g.order.getD idx 0) p with
    | none => rw [e] at h; cases h
    | some L1 =>
      rw [e] at h
      dsimp only at h
      simp only [Option.bind_some]
      split_ifs at h with h1 h2 h3 h4 h5
      · injection h with h
        have : rest = [] := by simpa using h3
        subst this
        exact ⟨_, rfl, by simpa using h5, h.symm⟩
      · obtain ⟨L', e1, e2, e3⟩ := expandLoop_next h
        rw [show idx + 1 + rest.length = idx + (p :: rest).length by rw [List.length_cons]; omega] at e2 e3
        exact ⟨L', e1, e2, e3⟩

theorem expand_next {q : Queue Coord Nat} {ps : Params} {skip : Nat} {v : Nat → Verdict} {l r : List Coord}
    (h : expand q ps g skip v l = .next r) : ∃ L', replay q ps g l 0 (start ps g) = some L' ∧ l.length < g.order.length ∧
      r = positions q ps g skip L' (g.order.getD l.length 0) := by
  unfold expand at h
  split_ifs at h with h1 h2
  · injection h with h
    have : l = [] := by simpa using h1
    subst this
    refine ⟨_, rfl, ?_, h.symm⟩
    cases ho : g.order with
    | nil => rw [ho] at h2; simp at h2
    | cons a t => simp
  · obtain ⟨L', e1, e2, e3⟩ := expandLoop_next h
    simp only [Nat.zero_add] at e2 e3
    exact ⟨L', e1, e2, e3⟩

theorem split_at {l : List Nat} {i : Nat} (h : i < l.length) : l = l.take i ++ l.getD i 0 :: l.drop (i + 1) := by
  rw [List.getD_eq_getElem?_getD, List.getElem?_eq_getElem h, Option.getD_some, List.getElem_cons_drop]
  exact (List.take_append_drop i l).symm

theorem take_succ_getD {l : List Nat} {i : Nat} (h : i < l.length) : l.take i ++ [l.getD i 0] = l.take (i + 1) := by
  rw [List.getD_eq_getElem?_getD, List.getElem?_eq_getElem h, Option.getD_some, List.take_concat_get']

/-- Every vertex on the frontier stands for a layout that satisfies the invariant. -/
theorem reached_inv {q : Queue Coord Nat} (hq : q.Faithful) {ps : Params} (S : Suitable g k tab) {l : List Coord} (h : Reached q ps g l) :
    l.length ≤ g.order.length ∧ ∃ L, replay q ps g l 0 (start ps g) = some L ∧ GInv g tab (g.order.take l.length) L := by
  induction h with
  | start => exact ⟨Nat.zero_le _, _, rfl, start_inv S ps⟩
  | @next l skip v r p h he hp ih =>
    obtain ⟨-, L, e, I⟩ := ih
    obtain ⟨L', e1, e2, e3⟩ := expand_next he
    rw [e] at e1
    injection e1 with e1
    subst e1
    rw [e3] at hp
    have ho := split_at e2
    obtain ⟨L2, e4, I2⟩ := step hq ps S ho I hp
    rw [List.length_append, List.length_singleton]
    refine ⟨e2, adjust g L2 (g.order.getD l.length 0) p, ?_, ?_⟩
    · rw [replay_snoc, e, Option.bind_some, Nat.zero_add, e4, Option.bind_some]
    · rw [← take_succ_getD e2]
      exact adjust_inv S ho I2 p

theorem reached_last {q : Queue Coord Nat} {ps : Params} {l : List Coord} {p : Coord} (h : Reached q ps g (l ++ [p])) :
    Reached q ps g l ∧ ∃ skip v r, expand q ps g skip v l = .next r ∧ p ∈ r := by
  generalize e : l ++ [p] = w at h
  cases h with
  | start => simp at e
  | @next l' skip v r p' h he hp =>
    obtain ⟨rfl, e2⟩ := List.append_inj' e rfl
    injection e2 with e2
    subst e2
    exact ⟨h, skip, v, r, he, hp⟩

theorem reached_prefix {q : Queue Coord Nat} {ps : Params} : ∀ (r l : List Coord), Reached q ps g (l ++ r) → Reached q ps g l := by
  intro r
  induction r using List.reverseRecOn with
  | nil => intro l h; rwa [List.append_nil] at h
  | append_singleton r p ih =>
    intro l h
    rw [← List.append_assoc] at h
    exact ih l (reached_last h).1

/-- One position of a vertex on the frontier. -/
theorem reached_step {q : Queue Coord Nat} (hq : q.Faithful) {ps : Params} (S : Suitable g k tab) {l : List Coord} {p : Coord}
    (h : Reached q ps g (l ++ [p])) : ∃ L L', replay q ps g l 0 (start ps g) = some L ∧ l.length < g.order.length ∧
      placeAndRoute q ps g L (g.order.getD l.length 0) p = some L' ∧ GInv g tab (g.order.take (l.length + 1)) L' := by
  obtain ⟨hr, skip, v, r, he, hp⟩ := reached_last h
  obtain ⟨-, L, e, I⟩ := reached_inv hq S hr
  obtain ⟨L', e1, e2, e3⟩ := expand_next he
  rw [e] at e1
  injection e1 with e1
  subst e1
  rw [e3] at hp
  obtain ⟨L2, e4, I2⟩ := step hq ps S (split_at e2) I hp
  rw [take_succ_getD e2] at I2
  exact ⟨L, L2, e, e2, e4, I2⟩

theorem expandLoop_reached {q : Queue Coord Nat} (hq : q.Faithful) {ps : Params} (S : Suitable g k tab) {skip : Nat} {v : Nat → Verdict} :
    ∀ (r l : List Coord) (L : Lo), r ≠ [] → Reached q ps g (l ++ r) → replay q ps g l 0 (start ps g) = some L →
      (∀ X, expandLoop q ps g skip v r l.length L = .solution X → GInv g tab g.order X) ∧
      ((v (g.order.length - 1)).accept = true ∨ (v (g.order.length - 1)).prune = true → expandLoop q ps g skip v r l.length L ≠ .broken)
  | [], _, _, hr, _, _ => absurd rfl hr
  | p :: r, l, L, _, h, e => by
    have h1 : Reached q ps g (l ++ [p]) := by
      refine reached_prefix r _ ?_
      rwa [List.append_assoc, List.singleton_append]
    obtain ⟨L0, L1, e0, hlen, e1, I1⟩ := reached_step hq S h1
    rw [e] at e0
    injection e0 with e0
    subst e0
    have ih := expandLoop_reached hq (ps := ps) S (skip := skip) (v := v) r (l ++ [p]) (adjust g L1 (g.order.getD l.length 0) p)
    rw [List.append_assoc, List.singleton_append, replay_snoc, e, Option.bind_some, Nat.zero_add, e1, Option.bind_some,
      List.length_append, List.length_singleton] at ih
    unfold expandLoop
    dsimp only
    rw [e1]
    dsimp only
    by_cases c1 : l.length + 1 = g.order.length ∧ (v l.length).accept = true
    · rw [if_pos c1]
      refine ⟨?_, fun _ hc => (by cases hc)⟩
      intro X hX
      injection hX with hX
      subst hX
      rw [c1.1, List.take_length] at I1
      exact I1
    · rw [if_neg c1]
      by_cases c2 : (v l.length).prune = true
      · rw [if_pos c2]
        exact ⟨fun X hX => (by cases hX), fun _ hc => (by cases hc)⟩
      · rw [if_neg c2]
        by_cases c3 : r.isEmpty = true
        · rw [if_pos c3]
          by_cases c4 : validLayout q ps g (g.order.take (l.length + 1)) (adjust g L1 (g.order.getD l.length 0) p) = true
          · rw [if_pos c4]
            by_cases c5 : l.length + 1 < g.order.length
            · rw [if_pos c5]
              exact ⟨fun X hX => (by cases hX), fun _ hc => (by cases hc)⟩
            · rw [if_neg c5]
              refine ⟨fun X hX => (by cases hX), ?_⟩
              intro hv
              have : g.order.length - 1 = l.length := by omega
              rw [this] at hv
              rcases hv with hv | hv
              · exact absurd ⟨by omega, hv⟩ c1
              · exact absurd hv c2
          · rw [if_neg c4]
            exact ⟨fun X hX => (by cases hX), fun _ hc => (by cases hc)⟩
        · rw [if_neg c3]
          exact ih (by rintro rfl; simp at c3) h rfl

end Verif.PhysicalDesign.Gold
