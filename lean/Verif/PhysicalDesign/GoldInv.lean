import Verif.PhysicalDesign.GoldWire
import Verif.PhysicalDesign.GoldCongr
import Verif.PhysicalDesign.OrthoMain
import Verif.Networks.Lemmas

/-!
# The invariant of graph-oriented layout design
-/
namespace Verif.PhysicalDesign.Gold

open Verif.Layouts Verif.Clocking Verif.GateLevel Verif.Networks Verif.Paths Verif.PhysicalDesign.ColorRouting Verif.PhysicalDesign.Ortho

/-- The networks and orders of nodes that graph-oriented layout design works with. -/
structure Suitable (g : Space) (k : Nat) (tab : Nat → List Bool → Bool) : Prop where
  wf : g.N.WF k
  /-- Inputs are numbered in the order of their creation. -/
  numbered : ∀ i (h : i < g.N.pis.length), g.N.node g.N.pis[i] = .pi i
  somePi : g.N.pis ≠ []
  /-- Every node occurs once and after its fanins; the outputs come last, in their order. -/
  nodup : g.order.Nodup
  nodes : ∀ n ∈ g.order, n < g.N.size
  topo : ∀ l n r, g.order = l ++ n :: r → ∀ f ∈ (g.N.node n).fanins, f ∈ l
  posLast : ∃ body, g.order = body ++ g.N.pos
  /-- Inputs and nodes with one or two fanins; outputs are buffers. -/
  kinds : ∀ n ∈ g.order, (g.N.node n).isPi = true ∨ (g.N.node n).fanins.length = 1 ∨ (g.N.node n).fanins.length = 2
  output : ∀ p ∈ g.N.pos, ∃ f, g.N.node p = .buf f
  /-- The functions of the nodes are those in the table; 2 stands for the identity. -/
  wire : ∀ b, tab 2 [b] = b
  fn : ∀ n ∈ g.order, (g.N.node n).isPi = false → ∀ a v, (g.N.node n).value a v = tab (g.lit n) ((g.N.node n).fanins.map v)
  /-- Nodes with one fanin are buffers and inverters. -/
  unary : ∀ n ∈ g.order, (g.N.node n).fanins.length = 1 → g.lit n = 2 ∨ g.lit n = 3

/-- Where inputs may be placed: at the northern or western border, or at one of them only. -/
def AtBorder : PiLocs → Coord → Prop
  | .topAndLeft, t => t.x = 0 ∨ t.y = 0
  | .top, t => t.y = 0
  | .left, t => t.x = 0

/-- The invariant after the nodes `done` have been placed and routed. -/
structure GInv (g : Space) (tab : Nat → List Bool → Bool) (done : List Nat) (L : Lo) : Prop where
  tidy : Tidy L.m L.s
  size : 2 + g.N.pis.length ≤ L.s.size
  depth : L.m.Z ≤ 1
  inputs : L.s.inputs = (List.range g.N.pis.length).map (2 + ·)
  outputs : L.s.outputs = (done.filter (fun n => decide (n ∈ g.N.pos))).map L.pos
  at_ : ∀ n ∈ done, ∀ a, SVal tab g.N.pis.length L.s a (L.pos n) (g.N.value a n)
  ground : ∀ n ∈ done, (L.pos n).z = 0
  pi : ∀ n ∈ done, (g.N.node n).isPi = true → L.s.tileNode (L.pos n) = some (2 + g.N.pis.idxOf n) ∧ AtBorder g.piLocs (L.pos n)
  unplaced : ∀ n ∈ g.N.pis, n ∉ done → ∀ t, L.s.tileNode t ≠ some (2 + g.N.pis.idxOf n)
  po : ∀ n ∈ done, n ∈ g.N.pos → (L.pos n).x = L.m.X ∨ (L.pos n).y = L.m.Y

/-! ## Possible positions -/

theorem scan_mem {limit : Nat} {check : Coord → Bool} {p : Coord} : ∀ {gs : List (List Coord)} {acc : List Coord},
    p ∈ scan limit check gs acc → p ∈ acc ∨ ∃ g ∈ gs, p ∈ g ∧ check p = true
  | [], acc, h => .inl h
  | g :: gs, acc, h => by
    unfold scan at h
    dsimp only at h
    have key : p ∈ acc ++ g.filter check → p ∈ acc ∨ ∃ g' ∈ g :: gs, p ∈ g' ∧ check p = true := by
      intro h
      rw [List.mem_append, List.mem_filter] at h
      rcases h with h | h
      · exact .inl h
      · exact .inr ⟨g, by simp, h⟩
    split_ifs at h
    · exact key h
    · rcases scan_mem h with h | ⟨g', h1, h2⟩
      · exact key h
      · exact .inr ⟨g', by simp [h1], h2⟩

theorem mem_diagonal {m : Dim} {x0 y0 : Nat} {g : List Coord} {p : Coord} (h : g ∈ diagonal m x0 y0) (hp : p ∈ g) :
    InBounds m p ∧ p.z = 0 := by
  unfold diagonal at h
  rw [List.mem_flatMap] at h
  obtain ⟨k, -, h⟩ := h
  rw [List.mem_map] at h
  obtain ⟨x, -, rfl⟩ := h
  split_ifs at hp with hc
  · rw [List.mem_singleton] at hp
    subst hp
    exact ⟨⟨rfl, hc.2, hc.1, Nat.zero_le _⟩, rfl⟩
  · cases hp

theorem isEmpty_not {l : List Coord} (h : (!l.isEmpty) = true) : l ≠ [] := by
  rintro rfl
  simp at h

theorem mem_ite {c : Prop} [Decidable c] {p x : Coord} (h : p ∈ (if c then [x] else [])) : p = x := by
  by_cases hc : c
  · rw [if_pos hc] at h
    exact List.mem_singleton.1 h
  · rw [if_neg hc] at h
    cases h

theorem mem_ite_and {c : Prop} [Decidable c] {x p : Coord} (h : p ∈ (if c then [x] else [])) : p = x ∧ c := by
  split_ifs at h with hc
  · exact ⟨List.mem_singleton.1 h, hc⟩
  · cases h

theorem positionsPi_spec {q : Queue Coord Nat} {ps : Params} {locs : PiLocs} {numPis skip : Nat} {L : Lo} {p : Coord}
    (h : p ∈ positionsPi q ps locs numPis skip L) : p.d = false ∧ p.z = 0 ∧ AtBorder locs p ∧ L.s.isEmptyTile p = true := by
  unfold positionsPi at h
  dsimp only at h
  rcases scan_mem h with h | ⟨g, hg, hp, hc⟩
  · cases h
  · have he := (checkPath_some (isEmpty_not hc)).2.2.1 rfl
    rw [List.mem_map] at hg
    obtain ⟨k, -, rfl⟩ := hg
    rw [List.mem_append] at hp
    rcases hp with hp | hp <;> obtain ⟨hp, hb, -, -⟩ := mem_ite_and hp <;> subst hp
    · refine ⟨rfl, rfl, ?_, he⟩
      match locs, hb with
      | .topAndLeft, _ => exact .inr rfl
      | .top, _ => rfl
      | .left, hb => exact absurd rfl hb
    · refine ⟨rfl, rfl, ?_, he⟩
      match locs, hb with
      | .topAndLeft, _ => exact .inl rfl
      | .top, hb => exact absurd rfl hb
      | .left, _ => rfl

theorem positionsPo_spec {q : Queue Coord Nat} {ps : Params} {L : Lo} {pre p : Coord} (h : p ∈ positionsPo q ps L pre) :
    InBounds L.m p ∧ p.z = 0 ∧ (p.x = L.m.X ∨ p.y = L.m.Y) ∧ L.s.isEmptyTile p = true ∧ 2 ≤ (findPath q ps L pre p).length := by
  unfold positionsPo at h
  dsimp only at h
  rw [List.mem_flatMap] at h
  obtain ⟨k, -, h⟩ := h
  rw [List.mem_append, List.mem_filter, List.mem_filter] at h
  have key : (!(checkPath q ps L pre p .dest (bend ps L pre)).isEmpty) = true → L.s.isEmptyTile p = true ∧ 2 ≤ (findPath q ps L pre p).length := by
    intro hc
    have := checkPath_some (isEmpty_not hc)
    exact ⟨this.2.2.2 rfl, this.2.1⟩
  rcases h with ⟨hp, hc⟩ | ⟨hp, hc⟩
  · split_ifs at hp with hb
    · rw [List.mem_singleton] at hp
      refine ⟨?_, ?_, ?_, key hc⟩ <;> subst hp
      · exact ⟨rfl, hb, Nat.le_refl _, Nat.zero_le _⟩
      · rfl
      · exact .inr rfl
    · cases hp
  · split_ifs at hp with hb
    · rw [List.mem_singleton] at hp
      refine ⟨?_, ?_, ?_, key hc⟩ <;> subst hp
      · exact ⟨rfl, Nat.le_refl _, Nat.le_of_lt hb, Nat.zero_le _⟩
      · rfl
      · exact .inl rfl
    · cases hp

theorem positionsOne_spec {q : Queue Coord Nat} {ps : Params} {L : Lo} {pre p : Coord} (h : p ∈ positionsOne q ps L pre) :
    InBounds L.m p ∧ p.z = 0 ∧ L.s.isEmptyTile p = true ∧ 2 ≤ (findPath q ps L pre p).length := by
  unfold positionsOne at h
  rcases scan_mem h with h | ⟨g, hg, hp, hc⟩
  · cases h
  · obtain ⟨h1, h2⟩ := mem_diagonal hg hp
    rw [Bool.and_eq_true] at hc
    have := checkPath_some (isEmpty_not hc.1)
    exact ⟨h1, h2, this.2.2.2 rfl, this.2.1⟩

theorem positionsTwo_spec {q : Queue Coord Nat} {ps : Params} {L : Lo} {pre1 pre2 p : Coord} (h : p ∈ positionsTwo q ps L pre1 pre2) :
    InBounds L.m p ∧ p.z = 0 ∧ L.s.isEmptyTile p = true ∧ 2 ≤ (findPath q ps L pre1 p).length ∧
      2 ≤ (findPath q ps (L.block (findPath q ps L pre1 p)) pre2 p).length := by
  unfold positionsTwo at h
  dsimp only at h
  rcases scan_mem h with h | ⟨g, hg, hp, hc⟩
  · cases h
  · obtain ⟨h1, h2⟩ := mem_diagonal hg hp
    rw [Bool.and_eq_true, Bool.and_eq_true] at hc
    have e1 := checkPath_some (isEmpty_not hc.1.1)
    have e2 := checkPath_some (isEmpty_not hc.1.2)
    rw [e1.1] at e2
    exact ⟨h1, h2, e1.2.2.2 rfl, e1.2.1, e2.2.1⟩

/-! ## Placing and routing one node -/

section
variable {g : Space} {k : Nat} {tab : Nat → List Bool → Bool}

theorem Suitable.notDone (S : Suitable g k tab) {done rest : List Nat} {n : Nat} (h : g.order = done ++ n :: rest) : n ∉ done := by
  have := S.nodup
  rw [h, List.nodup_append] at this
  intro hm
  exact this.2.2 n hm n (by simp) rfl

theorem idx_spec (S : Suitable g k tab) {n : Nat} (h : (g.N.node n).isPi = true) (hn : n < g.N.size) :
    n ∈ g.N.pis ∧ g.N.pis.idxOf n < g.N.pis.length ∧ g.N.node n = .pi (g.N.pis.idxOf n) := by
  have hm : n ∈ g.N.pis := by
    unfold Ntk.pis
    rw [List.mem_filter, List.mem_range]
    exact ⟨hn, h⟩
  have hi := List.idxOf_lt_length_of_mem hm
  refine ⟨hm, hi, ?_⟩
  have := S.numbered _ hi
  rwa [List.getElem_idxOf] at this

/-- A gate that has been placed and routed. -/
theorem gate_inv (S : Suitable g k tab) {done rest : List Nat} {n : Nat} (ho : g.order = done ++ n :: rest) {L : Lo}
    (I : GInv g tab done L) (hpi : (g.N.node n).isPi = false) {p : Coord} (hp : InBounds L.m p) (hz : p.z = 0) {fn : Nat}
    {s1 s2 : State} {sel : List (List Coord)} (R : RoutedGate tab g.N.pis.length L.m L.s s1 s2 p fn sel)
    (hout : s1.outputs = L.s.outputs ++ (if n ∈ g.N.pos then [p] else []))
    (hfn : ∀ a v, (g.N.node n).value a v = tab fn ((g.N.node n).fanins.map v))
    (hsel : sel.map (fun q => q.getD 0 const0) = (g.N.node n).fanins.map L.pos)
    (hlen : sel.length = 1 ∨ sel.length = 2)
    (hpo : n ∈ g.N.pos → p.x = L.m.X ∨ p.y = L.m.Y) (path : List Coord) :
    GInv g tab (done ++ [n]) (L.finish n p s2 path) := by
  have hnd := S.notDone ho
  have hno : n ∈ g.order := by rw [ho]; simp
  have hpos : ∀ j ∈ done, (L.finish n p s2 path).pos j = L.pos j := by
    intro j hj
    have : j ≠ n := by rintro rfl; exact hnd hj
    simp [Lo.finish, this]
  have hposn : (L.finish n p s2 path).pos n = p := by simp [Lo.finish]
  have hs : (L.finish n p s2 path).s = s2 := rfl
  have hm : (L.finish n p s2 path).m = L.m := rfl
  have hval : ∀ a, SVal tab g.N.pis.length s2 a p (g.N.value a n) := by
    intro a
    rw [Ntk.value_eq g.N S.wf.fanins a n (S.nodes n hno), hfn]
    have hin : ∀ q ∈ sel, ∀ f, f ∈ (g.N.node n).fanins → q.getD 0 const0 = L.pos f →
        Nbr (q.getD (q.length - 2) const0) p ∧ SVal tab g.N.pis.length s2 a (q.getD (q.length - 2) const0) (g.N.value a f) := by
      intro q hq f hf e
      obtain ⟨h1, h2⟩ := R.values q hq
      refine ⟨h1, h2 a _ ?_⟩
      rw [e]
      exact I.at_ f (S.topo _ _ _ ho f hf) a
    have hsz := I.size
    rcases hlen with hl | hl
    · match sel, hl with
      | [q], _ =>
        rw [List.map_singleton] at hsel
        obtain ⟨f, hff⟩ := List.length_eq_one_iff.1 (show (g.N.node n).fanins.length = 1 by simpa using (congrArg List.length hsel).symm)
        · rw [hff] at hsel
          have e : q.getD 0 const0 = L.pos f := by simpa using hsel
          obtain ⟨h1, h2⟩ := hin q (by simp) f (by rw [hff]; simp) e
          have := SVal.one (tab := tab) (K := g.N.pis.length) (s := s2) (a := a) p L.s.size _ _ hp.1 R.tile hsz R.children h1 h2
          rw [R.fn] at this
          rw [hff]
          exact this
    · match sel, hl with
      | [q, q'], _ =>
        obtain ⟨f, f', hff⟩ := List.length_eq_two.1 (show (g.N.node n).fanins.length = 2 by simpa using (congrArg List.length hsel).symm)
        · rw [hff] at hsel
          have e : q.getD 0 const0 = L.pos f ∧ q'.getD 0 const0 = L.pos f' := by simpa using hsel
          obtain ⟨h1, h2⟩ := hin q (by simp) f (by rw [hff]; simp) e.1
          obtain ⟨h3, h4⟩ := hin q' (by simp) f' (by rw [hff]; simp) e.2
          have := SVal.two (tab := tab) (K := g.N.pis.length) (s := s2) (a := a) p L.s.size _ _ _ _ hp.1 R.tile hsz R.children h1 h3 h2 h4
          rw [R.fn] at this
          rw [hff]
          exact this
  refine ⟨⟨?_, ?_, ?_, ?_, ?_⟩, ?_, ?_, ?_, ?_, ?_, ?_, ?_, ?_, ?_⟩
  · exact R.wf
  · intro t j ht hj
    rcases R.bounds t j ht hj with h | h
    · exact I.tidy.bounds t j ht h
    · exact h
  · intro t j ht hj c hc
    rcases R.closed t j ht hj with h | h
    · have e := (R.ext t j ht h).2.2
      rw [hs, e] at hc
      obtain ⟨h1, i, h2⟩ := I.tidy.closed t j ht h c hc
      exact ⟨h1, i, (R.ext c i h1 h2).1⟩
    · exact h c hc
  · show (s2.nodes 0).children = []
    rw [R.old 0 (by have := I.size; omega)]
    exact I.tidy.const
  · intro o hoo
    have hoo' : o ∈ L.s.outputs ++ (if n ∈ g.N.pos then [p] else []) := by rw [← hout, ← R.outputs]; exact hoo
    rw [List.mem_append] at hoo'
    rcases hoo' with h | h
    · obtain ⟨h1, i, h2⟩ := I.tidy.outputs o h
      exact ⟨h1, i, (R.ext o i h1 h2).1⟩
    · split_ifs at h
      · rw [List.mem_singleton] at h
        rw [h]
        exact ⟨hp.1, _, R.tile⟩
      · cases h
  · show 2 + g.N.pis.length ≤ s2.size
    have := R.wf.lt _ _ R.tile
    have := I.size
    omega
  · exact I.depth
  · exact R.inputs.trans I.inputs
  · show s2.outputs = _
    rw [R.outputs, hout, I.outputs, List.filter_append, List.map_append]
    congr 1
    · refine List.map_congr_left ?_
      intro j hj
      exact (hpos j (List.mem_filter.1 hj).1).symm
    · split_ifs with h
      · simp [h, hposn]
      · simp [h]
  · intro j hj a
    rw [List.mem_append, List.mem_singleton] at hj
    rcases hj with hj | rfl
    · rw [hpos j hj]
      exact (I.at_ j hj a).mono R.ext
    · rw [hposn]
      exact hval a
  · intro j hj
    rw [List.mem_append, List.mem_singleton] at hj
    rcases hj with hj | rfl
    · rw [hpos j hj]; exact I.ground j hj
    · rw [hposn]; exact hz
  · intro j hj hji
    rw [List.mem_append, List.mem_singleton] at hj
    rcases hj with hj | rfl
    · rw [hpos j hj]
      obtain ⟨h1, h2⟩ := I.pi j hj hji
      exact ⟨(R.ext _ _ (I.at_ j hj (fun _ => false)).occupied.1 h1).1, h2⟩
    · rw [hpi] at hji; cases hji
  · intro j hj hjd t ht
    rw [List.mem_append, not_or] at hjd
    have hlt := List.idxOf_lt_length_of_mem hj
    have htd : t.d = false := by
      cases hd : t.d with
      | false => rfl
      | true =>
        have := (R.wf.live t _ ht).2 hd
        omega
    exact I.unplaced j hj hjd.1 t (R.high _ (by have := I.size; omega) t htd ht)
  · intro j hj hjp
    rw [List.mem_append, List.mem_singleton] at hj
    rcases hj with hj | rfl
    · rw [hpos j hj]; exact I.po j hj hjp
    · rw [hposn]; exact hpo hjp

end

end Verif.PhysicalDesign.Gold
