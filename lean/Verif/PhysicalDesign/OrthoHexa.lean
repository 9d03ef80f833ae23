import Verif.PhysicalDesign.OrthoCompose
import Verif.PhysicalDesign.HexaProps

/-!
# C61: hexagonalization after orthogonal physical design
-/
namespace Verif.PhysicalDesign.Hexa

open Verif.Layouts Verif.Clocking Verif.GateLevel Verif.Networks Verif.PhysicalDesign.Ortho

section
variable {N : Ntk} {tab : Nat → List Bool → Bool} {m : Dim} {pos : Nat → Coord} {G : Grid} {s : State}
  (h : OInv N tab m pos G N.pos [] s) (hZ : m.Z = 1)
include h

theorem node_ge {t : Coord} {n : Nat} (ht : t.d = false) (hn : s.tileNode t = some n) : 2 ≤ n := by
  by_contra hc
  have := (h.rep.wf.live t n hn).1 (by omega)
  rw [ht] at this
  cases this

theorem not_input {t : Coord} {n : Nat} (ht : t.d = false) (hn : s.tileNode t = some n) : n ∉ s.inputs ↔ 2 + N.pis.length ≤ n := by
  have h2 := node_ge h ht hn
  rw [h.inputs]
  simp only [List.mem_map, List.mem_range, not_exists, not_and]
  constructor
  · intro hc
    by_contra hlt
    exact hc (n - 2) (by omega) (by omega)
  · intro hle k hk
    omega

include hZ

theorem ortho_fanins (nc : NumClks) {t : Coord} {n : Nat} (ht : t.d = false) (hn : s.tileNode t = some n) (hi : n ∉ s.inputs) :
    s.fanins m .cart (twoddwaveClocking .cart nc) true n = (s.nodes n).children ∧ Good s t (s.nodes n).fn (s.nodes n).children := by
  have hge := (not_input h ht hn).1 hi
  rcases h.rep.net t n ht hn with hc | hg
  · omega
  · refine ⟨?_, hg⟩
    have key : ∀ c ∈ (s.nodes n).children, s.getTile (s.getNode c) = c ∧
        (Topo.isAdjacentElevationOf .cart m t c && (!true || isIncomingClocked (twoddwaveClocking .cart nc) t c)) = true := by
      intro c hc
      obtain ⟨hb, ho⟩ := hg.1 c hc
      cases e : s.tileNode c with
      | none => exact absurd e ho
      | some j => exact ⟨(h.tile_of e).1, nbr_fanin hZ (h.inBounds hZ hb.1 e) (h.inBounds hZ ht hn) hb nc⟩
    unfold State.fanins
    rw [if_neg (by omega)]
    simp only [(h.tile_of hn).2.2]
    rw [List.filter_eq_self.2]
    · conv_rhs => rw [← List.map_id (s.nodes n).children]
      exact List.map_congr_left (fun c hc => (key c hc).1)
    · intro c hc
      rw [(key c hc).1]
      exact (key c hc).2

theorem ortho_hexable (nc : NumClks) (hnd : N.pos.Nodup) (hrows : ∀ p ∈ N.pos, ∀ q ∈ N.pos, p ≠ q → (pos p).y ≠ (pos q).y)
    (small : m.X + m.Y < 2^31 - 1) : Hexable m nc s := by
  have hpo : ∀ p ∈ s.outputs, ∃ k ∈ N.pos, p = ⟨m.X, (pos k).y, 0, false⟩ := by
    intro p hp
    rw [h.outputs] at hp
    obtain ⟨k, hk, e⟩ := List.mem_map.1 hp
    exact ⟨k, hk, e.symm⟩
  refine ⟨h.rep.wf, small, fun t n => h.inBounds hZ, ?_, ?_, ?_, ?_, ?_, ?_, ?_, ?_, ?_⟩
  · intro t n ht hn
    have hz : t.z ≤ 1 := (by have := (h.inBounds hZ ht hn).2.2.2; omega)
    obtain ⟨x, y, z, d⟩ := t
    simp only at ht hz ⊢
    subst ht
    have : z = 0 ∨ z = 1 := by omega
    rcases this with rfl | rfl
    · rw [hn]; simp
    · intro h0
      have hg := (h.rep.z0 x y).2 h0
      rw [h.rep.z1 x y (by rw [hg]; simp)] at hn
      cases hn
  · rw [h.inputs]
    exact List.nodup_range.map (fun x y e => by simpa using e)
  · intro n hn
    rw [h.inputs] at hn
    simp only [List.mem_map, List.mem_range] at hn
    obtain ⟨j, hj, rfl⟩ := hn
    exact ⟨_, rfl, h.piTile j hj⟩
  · intro n hn
    rw [h.inputs] at hn
    simp only [List.mem_map, List.mem_range] at hn
    obtain ⟨j, hj, rfl⟩ := hn
    exact h.rep.pifn _ (by omega) (by omega)
  · intro t n ht hn hi
    obtain ⟨e, hg⟩ := ortho_fanins h hZ nc ht hn hi
    rw [e]
    refine ⟨?_, fun c hc => (hg.1 c hc).1.1⟩
    rcases hg.2 with hl | hl
    · exact Or.inl hl.1
    · exact Or.inr hl
  · intro t n ht hn hi hl
    obtain ⟨e, hg⟩ := ortho_fanins h hZ nc ht hn hi
    rw [e] at hl
    rcases hg.2 with hl' | hl'
    · exact hl'.2
    · omega
  · rw [h.outputs]
    refine List.Nodup.map_on ?_ hnd
    intro p hp q hq e
    by_contra hne
    injection e with _ e
    exact hrows p hp q hq hne e
  · intro p hp
    obtain ⟨k, hk, rfl⟩ := hpo p hp
    obtain ⟨n, c, h1, h2, h3, h4, h5⟩ := h.po k hk
    have hi := (not_input h rfl h1).2 h2
    refine ⟨rfl, n, h1, hi, h3, ?_⟩
    rw [(ortho_fanins h hZ nc rfl h1 hi).1, h4]
    rfl
  · intro t n ht hn hi c hc hp
    obtain ⟨k, hk, rfl⟩ := hpo c hp
    obtain ⟨e, hg⟩ := ortho_fanins h hZ nc ht hn hi
    rw [e] at hc
    obtain ⟨hb, -⟩ := hg.1 _ hc
    have hin := h.inBounds hZ ht hn
    obtain ⟨-, -, hb | hb⟩ := hb
    · have := hin.2.1
      simp only at hb
      omega
    · obtain ⟨x, y, z, d⟩ := t
      simp only at hb ht
      obtain ⟨e1, e2⟩ := hb
      subst ht e1
      have hz : z = 0 := by
        by_contra hne
        have h1 := hin.2.2.2
        simp only at h1
        have : z = 1 := by omega
        subst this
        rw [h.rep.z1 _ _ (h.edgeX y)] at hn
        cases hn
      subst hz
      obtain ⟨k', hk', ey⟩ := h.edge y (fun hg => by
        rw [(h.rep.z0 _ _).1 hg] at hn
        cases hn)
      obtain ⟨n', c', h1, h2, h3, h4, h5⟩ := h.po k' hk'
      rw [ey, hn] at h1
      injection h1 with h1
      subst h1
      rw [h4, List.mem_singleton] at hc
      subst hc
      simp only at h5
      omega

end

/-- Every layout of the orthogonal physical design is hexagonalizable, unless it is too large for the coordinates. -/
theorem C61_orthogonal_hexable (N : Ntk) (k : Nat) (order : List Nat) (lit : Nat → Nat) (tab : Nat → List Bool → Bool)
    (h : Placeable N k order lit tab) (nc : NumClks) (m : Dim) (s : State) (hr : Ortho.run N order lit = some (m, s))
    (small : m.X + m.Y < 2^31 - 1) : Hexable m nc s := by
  obtain ⟨m', s', G, pos, hrun, hZ, hi, hrows⟩ := run_ok h.ok h.someOutput
  rw [hr] at hrun
  injection hrun with hrun
  injection hrun with e1 e2
  subst e1 e2
  exact ortho_hexable hi hZ nc h.ok.poNodup hrows small

/-- `orthogonal` followed by `hexagonalization` (the flow for SiDB layouts): for every source network of the form `Source`, the hexagonal
layout has the inputs and outputs of the network, and its `i`-th output computes the `i`-th output of the network under every assignment.
Missing: the same as for `orthogonal`; layouts too large for the coordinates. -/
theorem C61_flow_partial (S : Ntk) (k : Nat) (order : List Nat) (order' : Ntk → List Nat) (lit : Networks.Node → Nat)
    (tab : Nat → List Bool → Bool) (h : Source S k order lit tab)
    (ho : ∀ D, fanoutSubstitution ⟨.breadth, 2, 1⟩ S k order = some D → TopoOrder D (order' D)) (nc : NumClks) :
    ∃ m s, orthogonal S k order order' lit = some (m, s) ∧ (m.X + m.Y < 2^31 - 1 →
      ∃ m' s', hexagonalization m (twoddwaveClocking .cart nc) s = some (m', s') ∧
        s'.inputs.length = k ∧ s'.outputs.length = S.pos.length ∧
        ∀ a i b, i < S.pos.length → (Val tab m' (.hex .evenRow) (rowClocking (.hex .evenRow) .four) s' a
          (s'.getNode (s'.outputs.getD i const0)) b ↔ b = S.value a (S.pos.getD i 0))) := by
  obtain ⟨m, s, r1, r2, r3, r4, -⟩ := C60_orthogonal_partial S k order order' lit tab h ho nc
  refine ⟨m, s, r1, fun small => ?_⟩
  obtain ⟨D, hD⟩ := C32_total ⟨.breadth, 2, 1⟩ (by decide) S k order h.wf h.topo
  obtain ⟨hp, hk⟩ := h.placeable hD (ho D hD)
  have hrun : Ortho.run D (order' D) (fun n => lit (D.node n)) = some (m, s) := by
    unfold orthogonal at r1
    split_ifs at r1
    rw [hD] at r1
    exact r1
  have hx := C61_orthogonal_hexable D k (order' D) _ tab hp nc m s hrun small
  obtain ⟨m', s', g, e, hM, hv⟩ := C61_hexagonalization_partial m nc s hx
  refine ⟨m', s', e, ?_, by rw [hM.outputs, List.length_map, r3], ?_⟩
  · have := congrArg List.length hM.inputs
    rw [List.length_map, List.length_map] at this
    rw [this, r2]
  · intro a i b hi
    rw [← r4 a i b hi]
    have hi' : i < s.outputs.length := by rw [r3]; exact hi
    have e1 : s.outputs.getD i const0 = s.outputs[i] := by rw [List.getD_eq_getElem?_getD, List.getElem?_eq_getElem hi']; rfl
    have e2 : s'.outputs.getD i const0 = g s.outputs[i] := by
      rw [hM.outputs, List.getD_eq_getElem?_getD, List.getElem?_map, List.getElem?_eq_getElem hi']; rfl
    rw [e1, e2]
    exact (hv tab a _ (List.getElem_mem hi') b).symm

/-- The flow on a half adder (its `Source` is shown beside `C60_orthogonal_partial`). -/
example : ((orthogonal exHalf 2 [4, 5] (fun D => (List.range D.size).filter (fun i => (D.node i).isGate)) exLitF).bind
    (fun r => hexagonalization r.1 (twoddwaveClocking .cart .four) r.2)).map (fun r => (r.1, r.2.outputs.map (fun t => (t.x, t.y)))) =
    some (⟨2, 9, 1⟩, [(2, 8), (2, 9)]) := by
  decide +kernel

end Verif.PhysicalDesign.Hexa
