import Verif.PhysicalDesign.GoldStep
import Verif.PhysicalDesign.OrthoProps

/-!
# C89: graph-oriented layout design

The specification consists of `Suitable` (GoldInv.lean: the networks and orders of nodes), `Val` (LayoutFn.lean: the function of a
layout) and `Reached` (Gold.lean: the vertices of the search).
-/
namespace Verif.PhysicalDesign.Gold

open Verif.Layouts Verif.Clocking Verif.GateLevel Verif.Networks Verif.Paths Verif.PhysicalDesign.ColorRouting Verif.PhysicalDesign.Ortho

/-! ## Lemmas -/

theorem nbr_fanin1 {m : Dim} (hZ : m.Z ≤ 1) {c t : Coord} (hc : InBounds m c) (ht : InBounds m t) (h : Nbr c t) :
    (Topo.isAdjacentElevationOf .cart m t c && (!true || isIncomingClocked scheme t c)) = true := by
  by_cases h1 : m.Z = 1
  · exact nbr_fanin h1 hc ht h .four
  · -- only the ground layer
    have hz : m.Z = 0 := by omega
    have hcz := hc.2.2.2
    have htz := ht.2.2.2
    obtain ⟨-, -, hn⟩ := h
    have hne : t ≠ c := by rintro rfl; omega
    have hclk : isIncomingClocked scheme t c = true := by
      unfold isIncomingClocked
      rw [if_neg hne, beq_iff_eq, clock_scheme, clock_scheme]
      have hnum : scheme.numClocks = 4 := rfl
      rw [hnum]
      omega
    have hadj : Topo.isAdjacentElevationOf .cart m t c = true := by
      unfold Topo.isAdjacentElevationOf Topo.isAdjacentOf
      simp only [Bool.or_eq_true]
      refine .inl (.inl ?_)
      show Cart.isAdjacentOf m t c = true
      rw [(C07_is_adjacent m t c ht hc).1]
      refine ⟨by omega, ?_⟩
      omega
    rw [hadj, hclk]
    rfl

theorem getNode_eq {s : State} {t : Coord} {n : Nat} (h : s.tileNode t = some n) : s.getNode t = n := by simp [State.getNode, h]

theorem getTile_eq {s : State} (w : WF s) {t : Coord} {n : Nat} (h : s.tileNode t = some n) : s.getTile n = t := by
  simp [State.getTile, (w.inv _ _).1 h]

theorem Tidy.toVal {tab : Nat → List Bool → Bool} {m : Dim} {s : State} {K : Nat} (ty : Tidy m s) (hZ : m.Z ≤ 1)
    (hi : s.inputs = (List.range K).map (2 + ·)) {a : Nat → Bool} {t : Coord} {b : Bool} (hv : SVal tab K s a t b) :
    Val tab m .cart scheme s a (s.getNode t) b := by
  have hinp : ∀ n, 2 + K ≤ n → n ∉ s.inputs := by
    intro n hn hm
    rw [hi] at hm
    simp at hm
    omega
  induction hv with
  | pi t k ht hn hk =>
    rw [getNode_eq hn]
    refine .input k _ ?_
    rw [hi]
    simp [hk]
  | one t n c b ht hn hk hc hb hs ih =>
    have e2 := getTile_eq ty.wf hn
    obtain ⟨hcd, j, hj⟩ := hs.occupied
    have e3 : s.getTile (s.getNode c) = c := by rw [getNode_eq hj]; exact getTile_eq ty.wf hj
    have hin := nbr_fanin1 hZ (ty.bounds _ _ hcd hj) (ty.bounds _ _ ht hn) hb
    have hf : s.fanins m .cart scheme true n = [c] := by
      unfold State.fanins
      rw [if_neg (by omega), hc]
      simp only [e2]
      rw [List.filter_cons, e3, if_pos hin]
      simp [e3]
    rw [getNode_eq hn]
    refine .gate n [b] (by omega) (hinp n hk) (by rw [hf]; rfl) ?_
    intro i hi
    have : i = 0 := by simpa using hi
    subst this
    rw [hf]
    exact ih
  | two t n c c' b b' ht hn hk hc hb hb' hs hs' ih ih' =>
    have e2 := getTile_eq ty.wf hn
    obtain ⟨hcd, j, hj⟩ := hs.occupied
    have e3 : s.getTile (s.getNode c) = c := by rw [getNode_eq hj]; exact getTile_eq ty.wf hj
    obtain ⟨hcd', j', hj'⟩ := hs'.occupied
    have e3' : s.getTile (s.getNode c') = c' := by rw [getNode_eq hj']; exact getTile_eq ty.wf hj'
    have hin := nbr_fanin1 hZ (ty.bounds _ _ hcd hj) (ty.bounds _ _ ht hn) hb
    have hin' := nbr_fanin1 hZ (ty.bounds _ _ hcd' hj') (ty.bounds _ _ ht hn) hb'
    have hf : s.fanins m .cart scheme true n = [c, c'] := by
      unfold State.fanins
      rw [if_neg (by omega), hc]
      simp only [e2]
      rw [List.filter_cons, e3, if_pos hin, List.filter_cons, e3', if_pos hin']
      simp [e3, e3']
    rw [getNode_eq hn]
    refine .gate n [b, b'] (by omega) (hinp n hk) (by rw [hf]; rfl) ?_
    intro i hi
    have : i = 0 ∨ i = 1 := by simp at hi; omega
    rw [hf]
    rcases this with rfl | rfl
    · exact ih
    · exact ih'

theorem expand_reached {q : Queue Coord Nat} (hq : q.Faithful) {ps : Params} {g : Space} {k : Nat} {tab : Nat → List Bool → Bool}
    (S : Suitable g k tab) {skip : Nat} {v : Nat → Verdict} {l : List Coord} (h : Reached q ps g l) (hl : l ≠ []) :
    (∀ X, expand q ps g skip v l = .solution X → GInv g tab g.order X) ∧
    ((v (g.order.length - 1)).accept = true ∨ (v (g.order.length - 1)).prune = true → expand q ps g skip v l ≠ .broken) := by
  have he : ¬ l.isEmpty = true := by rintro h; exact hl (by simpa using h)
  unfold expand
  rw [if_neg he]
  exact expandLoop_reached hq S l [] _ hl h rfl

theorem outputs_all {g : Space} {k : Nat} {tab : Nat → List Bool → Bool} (S : Suitable g k tab) :
    g.order.filter (fun n => decide (n ∈ g.N.pos)) = g.N.pos := by
  obtain ⟨body, hb⟩ := S.posLast
  have hnd := S.nodup
  rw [hb, List.nodup_append] at hnd
  rw [hb, List.filter_append]
  have h1 : body.filter (fun n => decide (n ∈ g.N.pos)) = [] := by
    rw [List.filter_eq_nil_iff]
    intro j hj hjp
    exact hnd.2.2 j hj j (by simpa using hjp) rfl
  have h2 : g.N.pos.filter (fun n => decide (n ∈ g.N.pos)) = g.N.pos := by
    rw [List.filter_eq_self]
    intro j hj
    simpa using hj
  rw [h1, h2, List.nil_append]

/-! ## C89 -/

/-- Every layout that the expansion of a vertex delivers, whatever the search has done before and whatever the comparisons with the best
costs yield, has the inputs and outputs of the network; each output computes the function of the network's output, and nothing else;
everything is within the bounds of the layout; inputs are on the northern or western border, as allowed, and outputs on the southern or eastern border.
The layout is clocked by 2DDWave, and data flows only between neighbouring tiles with consecutive clock numbers (`foreach_fanin`).
Missing: the relocation of outputs that follows (`post_layout_optimization` with `optimize_pos_only`). -/
theorem C89_function_partial (q : Queue Coord Nat) (hq : q.Faithful) (ps : Params) (g : Space) (k : Nat) (tab : Nat → List Bool → Bool)
    (S : Suitable g k tab) (vertex : List Coord) (hv : Reached q ps g vertex) (skip : Nat) (v : Nat → Verdict) (L : Lo)
    (h : expand q ps g skip v vertex = .solution L) :
    L.s.inputs.length = g.N.pis.length ∧ L.s.outputs.length = g.N.pos.length ∧
    (∀ a i b, i < g.N.pos.length →
      (Val tab L.m .cart (twoddwaveClocking .cart .four) L.s a (L.s.getNode (L.s.outputs.getD i const0)) b ↔
        b = g.N.value a (g.N.pos.getD i 0))) ∧
    (∀ t n, t.d = false → L.s.tileNode t = some n → InBounds L.m t) ∧
    (∀ j n, g.N.node n = .pi j → n ∈ g.order → ∃ t, t.d = false ∧ L.s.tileNode t = L.s.inputs[j]? ∧ L.s.inputs[j]? ≠ none ∧
      t.z = 0 ∧ AtBorder g.piLocs t) ∧
    (∀ t ∈ L.s.outputs, t.d = false ∧ t.z = 0 ∧ (t.x = L.m.X ∨ t.y = L.m.Y) ∧ L.s.getNode t ≠ 0) := by
  have hne : vertex ≠ [] := by
    rintro rfl
    unfold expand at h
    split_ifs at h <;> simp at *
  have I := (expand_reached hq S hv hne).1 L h
  have hout : L.s.outputs = g.N.pos.map L.pos := by rw [I.outputs, outputs_all S]
  obtain ⟨body, hbody⟩ := S.posLast
  have hmem : ∀ p ∈ g.N.pos, p ∈ g.order := by
    intro p hp
    rw [hbody]
    exact List.mem_append_right _ hp
  have hnd : L.s.inputs.Nodup := by
    rw [I.inputs]
    exact List.nodup_range.map (fun x y e => by simpa using e)
  refine ⟨by rw [I.inputs]; simp, by rw [hout]; simp, ?_, I.tidy.bounds, ?_, ?_⟩
  · intro a i b hi
    have hp : g.N.pos.getD i 0 ∈ g.N.pos := by
      rw [List.getD_eq_getElem?_getD, List.getElem?_eq_getElem hi]
      exact List.getElem_mem hi
    have ho : L.s.outputs.getD i const0 = L.pos (g.N.pos.getD i 0) := by
      rw [hout]
      simp [List.getD_eq_getElem?_getD, hi]
    have hval := I.tidy.toVal I.depth I.inputs (I.at_ _ (hmem _ hp) a)
    rw [ho]
    constructor
    · exact fun hb => hb.unique hnd hval
    · rintro rfl; exact hval
  · intro j n hn hno
    have hpi : (g.N.node n).isPi = true := by rw [hn]; rfl
    obtain ⟨-, h2, h3⟩ := idx_spec S hpi (S.nodes n hno)
    rw [hn] at h3
    injection h3 with h3
    obtain ⟨h4, h5⟩ := I.pi n hno hpi
    have hj : L.s.inputs[j]? = some (2 + g.N.pis.idxOf n) := by
      rw [I.inputs, h3]
      simp [h2]
    refine ⟨L.pos n, (I.at_ n hno (fun _ => false)).occupied.1, by rw [h4, hj], by rw [hj]; simp, I.ground n hno, h5⟩
  · intro t ht
    rw [hout, List.mem_map] at ht
    obtain ⟨p, hp, rfl⟩ := ht
    obtain ⟨h1, n, h2⟩ := (I.at_ p (hmem p hp) (fun _ => false)).occupied
    refine ⟨h1, I.ground p (hmem p hp), I.po p (hmem p hp) hp, ?_⟩
    rw [getNode_eq h2]
    rintro rfl
    have := (I.tidy.wf.live _ _ h2).1 (by omega)
    rw [h1] at this
    cases this

/-- Expanding a vertex never runs into a failed assertion or an access out of bounds: every position that the search determined can be
used. The comparisons with the best costs have to agree at the last position, as they do unless another thread changes the costs. -/
theorem C89_defined (q : Queue Coord Nat) (hq : q.Faithful) (ps : Params) (g : Space) (k : Nat) (tab : Nat → List Bool → Bool)
    (S : Suitable g k tab) (vertex : List Coord) (hv : Reached q ps g vertex) (skip : Nat) (v : Nat → Verdict)
    (h : (v (g.order.length - 1)).accept = true ∨ (v (g.order.length - 1)).prune = true) (ho : g.order ≠ []) :
    expand q ps g skip v vertex ≠ .broken := by
  by_cases hne : vertex = []
  · subst hne
    unfold expand
    have ho' : ¬ g.order.isEmpty = true := by simpa using ho
    rw [List.isEmpty_nil, if_pos (rfl : true = true), if_neg ho']
    intro hc
    cases hc
  · exact (expand_reached hq S hv hne).2 h

/-- What the comparisons yield if no other thread changes the best cost in between: `improve` says whether a solution has been found
already, graph_oriented_layout_design.hpp:2025, 2138. -/
def sameCost (improve : Bool) (cost best : Nat) : Verdict := ⟨!improve || decide (cost ≤ best), improve && decide (best ≤ cost)⟩

/-- Whatever the costs: with a single thread the expansion of a vertex is always defined. -/
theorem C89_defined_single (q : Queue Coord Nat) (hq : q.Faithful) (ps : Params) (g : Space) (k : Nat) (tab : Nat → List Bool → Bool)
    (S : Suitable g k tab) (vertex : List Coord) (hv : Reached q ps g vertex) (skip : Nat) (improve : Nat → Bool) (cost best : Nat → Nat)
    (ho : g.order ≠ []) : expand q ps g skip (fun i => sameCost (improve i) (cost i) (best i)) vertex ≠ .broken := by
  refine C89_defined q hq ps g k tab S vertex hv skip _ ?_ ho
  generalize g.order.length - 1 = i
  unfold sameCost
  dsimp only
  cases improve i
  · exact .inl rfl
  · by_cases h : cost i ≤ best i
    · exact .inl (by simpa using h)
    · exact .inr (by simp; omega)

theorem placeAndRoute_depth {q : Queue Coord Nat} {ps : Params} {g : Space} {L L' : Lo} {n : Nat} {p : Coord}
    (h : placeAndRoute q ps g L n p = some L') : L'.m.Z = L.m.Z := by
  have key : ∀ {s : State} {pre : Coord}, route1 q ps L n p s pre = some L' → L'.m.Z = L.m.Z := by
    intro s pre h
    unfold route1 at h
    dsimp only at h
    split_ifs at h
    rw [← Option.some.inj h]
    rfl
  unfold placeAndRoute at h
  dsimp only at h
  split_ifs at h
  · rw [← Option.some.inj h]
    rfl
  · split at h
    · cases h
    · exact key h
    · unfold route2 at h
      dsimp only at h
      split_ifs at h
      rw [← Option.some.inj h]
      rfl
  · split at h
    · cases h
    · obtain ⟨s, -, h⟩ := Option.bind_eq_some_iff.1 h
      exact key h
    · unfold route2 at h
      dsimp only at h
      split_ifs at h
      rw [← Option.some.inj h]
      rfl

theorem expandLoop_depth {q : Queue Coord Nat} {ps : Params} {g : Space} {skip : Nat} {v : Nat → Verdict} {X : Lo} :
    ∀ {l : List Coord} {idx : Nat} {L : Lo}, expandLoop q ps g skip v l idx L = .solution X → X.m.Z = L.m.Z
  | [], _, _, h => by cases h
  | p :: rest, idx, L, h => by
    unfold expandLoop at h
    dsimp only at h
    split at h
    · cases h
    · rename_i L' e
      have h1 := placeAndRoute_depth e
      have h2 : (adjust g L' (g.order.getD idx 0) p).m.Z = L'.m.Z := by unfold adjust; split_ifs <;> rfl
      split_ifs at h
      · injection h with h
        rw [← h, h1]
      · have := expandLoop_depth h
        omega

/-- Planar layouts have no crossings: all gates and wires are in the ground layer. -/
theorem C89_planar (q : Queue Coord Nat) (hq : q.Faithful) (ps : Params) (hps : ps.planar = true) (g : Space) (k : Nat)
    (tab : Nat → List Bool → Bool) (S : Suitable g k tab) (vertex : List Coord) (hv : Reached q ps g vertex) (skip : Nat) (v : Nat → Verdict)
    (L : Lo) (h : expand q ps g skip v vertex = .solution L) : ∀ t n, t.d = false → L.s.tileNode t = some n → t.z = 0 := by
  obtain ⟨-, -, -, hb, -, -⟩ := C89_function_partial q hq ps g k tab S vertex hv skip v L h
  have hZ : L.m.Z = 0 := by
    unfold expand at h
    split_ifs at h
    rw [expandLoop_depth h]
    unfold start
    dsimp only
    rw [if_pos hps]
  intro t n ht hn
  obtain ⟨-, -, -, h4⟩ := hb t n ht hn
  omega

/-! ## Examples -/

/-- A half adder, fanout-substituted, with buffers for outputs. -/
def exN : Ntk :=
  ⟨[.const false, .const true, .pi 0, .pi 1, .buf 2, .buf 3, .gate XOR [4, 5], .gate AND [4, 5], .buf 6, .buf 7], [8, 9]⟩
def exG : Space := ⟨exN, [2, 3, 4, 5, 6, 7, 8, 9], exLit exN, .topAndLeft⟩
/-- A vertex that stands for a solution. -/
def exV : List Coord :=
  [⟨0, 0, 0, false⟩, ⟨1, 0, 0, false⟩, ⟨0, 1, 0, false⟩, ⟨2, 0, 0, false⟩, ⟨2, 1, 0, false⟩, ⟨3, 2, 0, false⟩, ⟨2, 3, 0, false⟩, ⟨3, 3, 0, false⟩]

theorem exG_suitable : Suitable exG 2 exTab := by
  refine ⟨wfCheck_sound (by decide +kernel), ?_, by decide, by decide, by decide, ?_, ⟨[2, 3, 4, 5, 6, 7], rfl⟩, by decide +kernel, ?_, by decide +kernel,
    ?_, by decide +kernel⟩
  · intro i hi
    have : i < 2 := hi
    interval_cases i <;> rfl
  · intro l n r e
    have hl : l = exG.order.take l.length := by rw [e]; simp
    have hn : n = exG.order.getD l.length 0 := by rw [e]; simp
    have : l.length < 8 := by
      have := congrArg List.length e
      rw [List.length_append, List.length_cons] at this
      have h8 : exG.order.length = 8 := rfl
      omega
    rw [hl, hn]
    generalize l.length = i at this
    interval_cases i <;> decide +kernel
  · intro p hp
    have : p = 8 ∨ p = 9 := by simpa [exG, exN] using hp
    rcases this with rfl | rfl
    · exact ⟨6, rfl⟩
    · exact ⟨7, rfl⟩
  · intro n hn _ a v
    have : n = 2 ∨ n = 3 ∨ n = 4 ∨ n = 5 ∨ n = 6 ∨ n = 7 ∨ n = 8 ∨ n = 9 := by simpa [exG] using hn
    rcases this with rfl | rfl | rfl | rfl | rfl | rfl | rfl | rfl
    all_goals first
      | contradiction
      | (simp [exG, exN, exLit, Ntk.node, Networks.Node.value, Networks.Node.fanins, exTab, AND, XOR])

/-- The positions that the expansion of a vertex yields. -/
def Outcome.positions : Outcome → List Coord
  | .next l => l
  | _ => []

theorem Reached.of {q : Queue Coord Nat} {ps : Params} {g : Space} {l : List Coord} (h : Reached q ps g l) (skip : Nat) (v : Nat → Verdict) {p : Coord}
    (hp : p ∈ (expand q ps g skip v l).positions) : Reached q ps g (l ++ [p]) := by
  cases e : expand q ps g skip v l with
  | next r =>
    rw [e] at hp
    exact .next h e hp
  | broken => rw [e] at hp; cases hp
  | dropped => rw [e] at hp; cases hp
  | solution _ => rw [e] at hp; cases hp

def always : Nat → Verdict := fun _ => ⟨true, false⟩

theorem exV_reached : Reached (stdQueue Coord Nat) {} exG exV := by
  have key : ∀ i, i ≤ 8 → Reached (stdQueue Coord Nat) {} exG (exV.take i) := by
    intro i
    induction i with
    | zero => intro _; exact .start
    | succ i ih =>
      intro hi
      have h := ih (by omega)
      have hs : exV.take (i + 1) = exV.take i ++ [exV.getD i const0] := by
        have : i < 8 := by omega
        interval_cases i <;> rfl
      rw [hs]
      refine h.of 0 always ?_
      have : i < 8 := by omega
      interval_cases i <;> decide +kernel
  exact key 8 (Nat.le_refl _)

/-- Whether the outcome is a solution that satisfies `p`. -/
def Outcome.solves (p : Lo → Bool) : Outcome → Bool
  | .solution L => p L
  | _ => false

/-- The vertex `exV` meets the hypotheses of C89: it is reached and its expansion delivers a layout of the half adder. -/
example : Suitable exG 2 exTab ∧ Reached (stdQueue Coord Nat) {} exG exV ∧
    (expand (stdQueue Coord Nat) {} exG 0 always exV).solves (fun L =>
      L.m.X == 4 && L.m.Y == 3 && L.s.outputs == [⟨2, 3, 0, false⟩, ⟨3, 3, 0, false⟩] &&
      [(fun _ => false), (fun i => i == 0), (fun _ => true)].map (fun a => L.s.outputs.map fun t => eval exTab L.m .cart scheme L.s a 100 (L.s.getNode t)) ==
        [[some false, some false], [some true, some false], [some false, some true]]) = true :=
  ⟨exG_suitable, exV_reached, by decide +kernel⟩

/-! ## Disagreement -/

/-- Whether an outcome is a failed assertion or an access out of bounds. -/
def Outcome.isBroken : Outcome → Bool
  | .broken => true
  | _ => false

/-- If other threads change the best cost between the two comparisons (first to less, then to more than the cost of this layout; the
best cost is stored without comparing it again, so it can also go up), the code goes on to look for positions of the node after the last
one, an access out of bounds (graph_oriented_layout_design.hpp:2025, 2138, 2156, 1568). -/
theorem C89_false_race : ∃ vertex v, Reached (stdQueue Coord Nat) {} exG vertex ∧
    (expand (stdQueue Coord Nat) {} exG 0 v vertex).isBroken = true :=
  ⟨exV, fun _ => ⟨false, false⟩, exV_reached, by decide +kernel⟩

end Verif.PhysicalDesign.Gold
