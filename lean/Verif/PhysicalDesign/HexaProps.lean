import Verif.PhysicalDesign.HexaSem

/-!
# C61: hexagonalization
-/
namespace Verif.PhysicalDesign.Hexa

open Verif.Layouts Verif.Clocking Verif.GateLevel Verif.PhysicalDesign.Ortho

/-! ## Lemmas -/

section
variable {m : Dim} {nc : NumClks} {s : State} (H : Hexable m nc s) {m' : Dim} {s' : State}
  (hZ : m'.Z = m.Z) (hB : Built m nc s (Occ s) ⟨s', m'.X, m'.Y⟩) (hP : Pins m s s.inputs.length s')
include H hB

theorem dim_small : m'.X < 2^31 - 1 ∧ m'.Y < 2^31 - 1 := by
  have hs := H.small
  constructor
  · rcases hB.tightX with e | ⟨t, ht, e⟩
    · simp only at e; omega
    · have h1 := H.col_nonneg ht
      have h2 := (getOffset_spec m s).1
      obtain ⟨hd, n, hn⟩ := ht
      have hb := H.bounds t n hd hn
      obtain ⟨-, hx, hy, -⟩ := hb
      rw [toHexX_eq] at h1
      unfold ceilHalf at h1
      simp only at e
      omega
  · rcases hB.tightY with e | ⟨t, ht, e⟩
    · simp only at e; omega
    · obtain ⟨hd, n, hn⟩ := ht
      obtain ⟨-, hx, hy, -⟩ := H.bounds t n hd hn
      have e2 : (conv m s t).y = t.x + t.y := rfl
      simp only at e
      omega

include hZ

theorem conv_in {t : Coord} (ht : Occ s t) : InBounds m' (conv m s t) := by
  have h1 := hB.seenX t ht
  obtain ⟨hd, n, hn⟩ := ht
  obtain ⟨-, hx, hy, hz⟩ := H.bounds t n hd hn
  exact ⟨rfl, h1.1, h1.2, by rw [hZ]; exact hz⟩

theorem fanins_eq {t : Coord} {n n' : Nat} (ht : t.d = false) (hn : s.tileNode t = some n) (hn' : s'.tileNode (conv m s t) = some n') (hi : n ∉ s.inputs) :
    s'.fanins m' (.hex .evenRow) (rowClocking (.hex .evenRow) .four) true n' =
      (s.fanins m .cart (twoddwaveClocking .cart nc) true n).map (conv m s) := by
  have hocc : Occ s t := ⟨ht, n, hn⟩
  obtain ⟨j, h1, -, h3⟩ := hB.node t n hocc hn
  simp only at h1 h3
  rw [hn'] at h1
  injection h1 with h1
  subst h1
  have h2 : 2 ≤ n' := by
    by_contra hc
    have := (hB.wf.live _ _ hn').1 (by omega)
    cases this
  have e' : s'.nodeTile n' = some (conv m s t) := (hB.wf.inv _ _).1 hn'
  have ht' : s'.getTile n' = conv m s t := by simp [State.getTile, e']
  obtain ⟨hX, hY⟩ := dim_small H hB
  have hch : ∀ c ∈ s.fanins m .cart (twoddwaveClocking .cart nc) true n, s'.getTile (s'.getNode (conv m s c)) = conv m s c ∧
      (Topo.isAdjacentElevationOf (.hex .evenRow) m' (conv m s t) (conv m s c) &&
      (!true || isIncomingClocked (rowClocking (.hex .evenRow) .four) (conv m s t) (conv m s c))) = true := by
    intro c hc
    obtain ⟨hoc, hfl, -⟩ := H.faninOcc ht hn hi hc
    exact ⟨hB.signal H hoc, fanin_hex hX hY (H.off hoc) (H.off hocc) hfl (conv_in H hZ hB hoc) (conv_in H hZ hB hocc)⟩
  unfold State.fanins
  rw [if_neg (by omega)]
  simp only
  rw [h3 hi, ht', List.filter_eq_self.2, List.map_map]
  · exact List.map_congr_left (fun c hc => (hch c hc).1)
  · intro c' hc'
    obtain ⟨c, hc, rfl⟩ := List.mem_map.1 hc'
    rw [(hch c hc).1]
    exact (hch c hc).2

include hP

theorem input_iff {t : Coord} {n n' : Nat} (ht : t.d = false) (hn : s.tileNode t = some n) (hn' : s'.tileNode (conv m s t) = some n') (i : Nat) :
    s.inputs[i]? = some n ↔ s'.inputs[i]? = some n' := by
  have hN := H.node ht hn
  constructor
  · intro h
    have hlt : i < s.inputs.length := by
      by_contra hc
      rw [List.getElem?_eq_none (by omega)] at h
      cases h
    have := hP.pin i n hlt h
    rw [hN.2.1, hn'] at this
    injection this with this
    rw [hP.inputs, this]
    simp [hlt]
  · intro h
    have hlt : i < s.inputs.length := by
      by_contra hc
      rw [hP.inputs, List.getElem?_eq_none (by simp; omega)] at h
      cases h
    rw [hP.inputs] at h
    simp [hlt] at h
    have hk := List.getElem?_eq_getElem hlt
    have hpin := hP.pin i _ hlt hk
    rw [h] at hpin
    obtain ⟨t', ht', hk'⟩ := H.placed _ (List.getElem_mem hlt)
    rw [(H.node ht' hk').2.1] at hpin
    have e := ((hB.wf.inv _ _).1 hpin).symm.trans ((hB.wf.inv _ _).1 hn')
    injection e with e
    have := H.inj ⟨ht', _, hk'⟩ ⟨ht, n, hn⟩ e
    subst this
    rw [hn] at hk'
    injection hk' with hk'
    rw [hk, ← hk']

theorem iso : Iso m .cart (twoddwaveClocking .cart nc) s m' (.hex .evenRow) (rowClocking (.hex .evenRow) .four) s' (conv m s) := by
  refine ⟨?_, ?_, ?_, ?_, ?_⟩
  · intro t n n' ht h1 h2
    refine ⟨(H.node ht h1).2.2, ?_⟩
    by_contra hc
    have := (hB.wf.live _ _ h2).1 (by omega)
    cases this
  · intro t n n' ht h1 h2
    obtain ⟨j, a1, a2, -⟩ := hB.node t n ⟨ht, n, h1⟩ h1
    simp only at a1 a2
    rw [h2] at a1
    injection a1 with a1
    subst a1
    exact a2
  · intro t n n' ht h1 h2 i
    exact input_iff H hZ hB hP ht h1 h2 i
  · intro t n n' ht h1 h2 hi
    exact fanins_eq H hZ hB ht h1 h2 hi
  · intro t n ht h1 hi c hc
    obtain ⟨⟨hd, k, hk⟩, -, -⟩ := H.faninOcc ht h1 hi hc
    obtain ⟨j, a1, -⟩ := hB.node c k ⟨hd, k, hk⟩ hk
    exact ⟨hd, ⟨k, hk⟩, j, a1⟩

end

/-! ## C61 -/

/-- Every layout that is hexagonalizable is mapped: each diagonal becomes a row, functions, connections, inputs and outputs are kept, the
connections follow the row clocking, and every output computes in the hexagonal layout what it computes in the Cartesian one.
Missing: the modes that extend the pins to the borders. -/
theorem C61_hexagonalization_partial (m : Dim) (nc : NumClks) (s : State) (H : Hexable m nc s) :
    ∃ m' s' g, hexagonalization m (twoddwaveClocking .cart nc) s = some (m', s') ∧ Moved m nc s m' s' g ∧
      ∀ tab a, ∀ p ∈ s.outputs, ∀ b,
        Val tab m .cart (twoddwaveClocking .cart nc) s a (s.getNode p) b ↔
          Val tab m' (.hex .evenRow) (rowClocking (.hex .evenRow) .four) s' a (s'.getNode (g p)) b := by
  obtain ⟨m', s', e, hZ, hB, hP, ho⟩ := run H
  have hI := iso H hZ hB hP
  have hnode : ∀ t, Occ s t → ∃ n n', s.tileNode t = some n ∧ s'.tileNode (conv m s t) = some n' ∧ s.getNode t = n ∧ s'.getNode (conv m s t) = n' := by
    rintro t ⟨hd, n, hn⟩
    obtain ⟨j, a1, -⟩ := hB.node t n ⟨hd, n, hn⟩ hn
    exact ⟨n, j, hn, a1, getNode_of hn, getNode_of a1⟩
  refine ⟨m', s', conv m s, e, ⟨fun t t' => H.inj, ?_, fun t _ => ⟨rfl, rfl⟩, fun t => conv_in H hZ hB, ?_, ?_, ?_, ho⟩, ?_⟩
  · intro k
    constructor
    · rintro ⟨hd, j, hj⟩
      exact hB.only k hd j hj
    · rintro ⟨t, ht, rfl⟩
      obtain ⟨n, n', -, h, -⟩ := hnode t ht
      exact ⟨rfl, n', h⟩
  · intro t ht
    obtain ⟨n, n', h1, h2, e1, e2⟩ := hnode t ht
    rw [e1, e2]
    exact hI.fn t n n' ht.1 h1 h2
  · intro t ht hi
    obtain ⟨n, n', h1, h2, e1, e2⟩ := hnode t ht
    rw [e1] at hi ⊢
    rw [e2]
    exact hI.fanins t n n' ht.1 h1 h2 hi
  · rw [hP.inputs]
    apply List.ext_getElem
    · simp
    · intro i h1 h2
      simp only [List.length_map] at h2
      have := hP.pin i s.inputs[i] h2 (List.getElem?_eq_getElem h2)
      simp only [List.getElem_map, List.getElem_range]
      have e' : s'.nodeTile (2 + i) = some (conv m s (s.getTile s.inputs[i])) := (hB.wf.inv _ _).1 this
      have e'' : s'.getTile (2 + i) = conv m s (s.getTile s.inputs[i]) := by simp [State.getTile, e']
      exact e''
  · intro tab a p hp b
    obtain ⟨hd, n, hn, -⟩ := H.po p hp
    obtain ⟨n, n', h1, h2, e1, e2⟩ := hnode p ⟨hd, n, hn⟩
    rw [e1, e2]
    exact ⟨fun h => hI.val h p n' hd h1 h2, fun h => hI.val' h p n hd h1 h2⟩

/-- The bounding box is tight: the first column and the last column and row are occupied. -/
theorem C61_tight_partial (m : Dim) (nc : NumClks) (s : State) (H : Hexable m nc s) (hne : ∃ t, Occ s t) :
    ∃ m' s', hexagonalization m (twoddwaveClocking .cart nc) s = some (m', s') ∧
      (∃ k, Occ s' k ∧ k.x = 0) ∧ (∃ k, Occ s' k ∧ k.x = m'.X) ∧ (∃ k, Occ s' k ∧ k.y = m'.Y) := by
  obtain ⟨m', s', e, hZ, hB, hP, ho⟩ := run H
  have hocc : ∀ t, Occ s t → Occ s' (conv m s t) := by
    rintro t ⟨hd, n, hn⟩
    obtain ⟨j, a1, -⟩ := hB.node t n ⟨hd, n, hn⟩ hn
    exact ⟨rfl, j, a1⟩
  refine ⟨m', s', e, ?_, ?_, ?_⟩
  · obtain ⟨t, hd, n, hn⟩ := hne
    obtain ⟨hb0, hb1, hb2, hb3⟩ := H.bounds t n hd hn
    have hg := H.ground t n hd hn
    have hE : s.isEmptyTile ⟨t.x, t.y, 0, false⟩ = false := by
      cases h : s.isEmptyTile ⟨t.x, t.y, 0, false⟩
      · rfl
      · exact absurd ((isEmpty_eq H _ rfl).1 h) hg
    obtain ⟨t', hz, hb, he, hx⟩ := (getOffset_spec m s).2.2 ⟨⟨t.x, t.y, 0, false⟩, rfl, ⟨rfl, hb1, hb2, Nat.zero_le _⟩, hE⟩
    have ht' : Occ s t' := by
      refine ⟨hb.1, ?_⟩
      cases h : s.tileNode t' with
      | none => rw [(isEmpty_eq H _ hb.1).2 h] at he; cases he
      | some n => exact ⟨n, rfl⟩
    refine ⟨_, hocc t' ht', ?_⟩
    have := H.col_nonneg ht'
    omega
  · rcases hB.tightX with h | ⟨t, ht, h⟩
    · obtain ⟨t, ht⟩ := hne
      have := (hB.seenX t ht).1
      simp only at h this
      exact ⟨_, hocc t ht, by omega⟩
    · exact ⟨_, hocc t ht, h⟩
  · rcases hB.tightY with h | ⟨t, ht, h⟩
    · obtain ⟨t, ht⟩ := hne
      have := (hB.seenX t ht).2
      simp only at h this
      exact ⟨_, hocc t ht, by omega⟩
    · exact ⟨_, hocc t ht, h⟩

/-! ## Examples -/

/-- A sufficient condition that can be evaluated. -/
def hexCheck (m : Dim) (nc : NumClks) (s : State) : Bool :=
  decide (m.X + m.Y < 2^31 - 1) && decide s.inputs.Nodup && decide s.outputs.Nodup &&
  (List.range s.size).all (fun n =>
    match s.nodeTile n with
    | none => !s.inputs.contains n
    | some t =>
      let fs := s.fanins m .cart (twoddwaveClocking .cart nc) true n
      t.d || (decide (t.x ≤ m.X ∧ t.y ≤ m.Y ∧ t.z ≤ m.Z) && (s.tileNode ⟨t.x, t.y, 0, false⟩).isSome &&
        (if s.inputs.contains n then decide ((s.nodes n).fn = 2)
        else (fs.length == 1 && ((s.nodes n).fn == 2 || (s.nodes n).fn == 3) || fs.length == 2) && fs.all (fun c => !c.d && !s.outputs.contains c)))) &&
  s.inputs.all (fun n => decide (2 ≤ n) && decide (n < s.size)) &&
  s.outputs.all (fun p => !p.d && match s.tileNode p with
    | none => false
    | some n => !s.inputs.contains n && (s.nodes n).fn == 2 && (s.fanins m .cart (twoddwaveClocking .cart nc) true n).length == 1)

theorem hexCheck_sound {m : Dim} {nc : NumClks} {s : State} (w : WF s) (h : hexCheck m nc s = true) : Hexable m nc s := by
  unfold hexCheck at h
  simp only [Bool.and_eq_true, decide_eq_true_eq, List.all_eq_true, List.mem_range] at h
  obtain ⟨⟨⟨⟨⟨h1, h2⟩, h3⟩, h4⟩, h5⟩, h6⟩ := h
  have key : ∀ t n, t.d = false → s.tileNode t = some n → (t.x ≤ m.X ∧ t.y ≤ m.Y ∧ t.z ≤ m.Z) ∧ (s.tileNode ⟨t.x, t.y, 0, false⟩).isSome ∧
      (n ∈ s.inputs → (s.nodes n).fn = 2) ∧
      (n ∉ s.inputs → (((s.fanins m .cart (twoddwaveClocking .cart nc) true n).length = 1 ∧ ((s.nodes n).fn = 2 ∨ (s.nodes n).fn = 3)) ∨
        (s.fanins m .cart (twoddwaveClocking .cart nc) true n).length = 2) ∧
        ∀ c ∈ s.fanins m .cart (twoddwaveClocking .cart nc) true n, c.d = false ∧ c ∉ s.outputs) := by
    intro t n ht hn
    have := h4 n (w.lt _ _ hn)
    rw [(w.inv _ _).1 hn] at this
    simp only [ht, Bool.false_or, Bool.and_eq_true, decide_eq_true_eq] at this
    obtain ⟨⟨a1, a2⟩, a3⟩ := this
    refine ⟨a1, a2, ?_, ?_⟩
    · intro hi
      rw [if_pos (by simpa using hi)] at a3
      simpa using a3
    · intro hi
      rw [if_neg (by simpa using hi)] at a3
      simpa using a3
  refine ⟨w, h1, ?_, ?_, h2, ?_, ?_, ?_, ?_, h3, ?_, ?_⟩
  · intro t n ht hn
    exact ⟨ht, (key t n ht hn).1⟩
  · intro t n ht hn
    have := (key t n ht hn).2.1
    rw [Option.isSome_iff_ne_none] at this
    exact this
  · intro n hn
    have := h5 n hn
    have h := h4 n this.2
    cases e : s.nodeTile n with
    | none => rw [e] at h; simp [hn] at h
    | some t =>
      have ht := (w.inv _ _).2 e
      refine ⟨t, ?_, ht⟩
      cases hd : t.d with
      | false => rfl
      | true =>
        have := (w.live t n ht).2 hd
        omega
  · intro n hn
    have := h5 n hn
    have h := h4 n this.2
    cases e : s.nodeTile n with
    | none => rw [e] at h; simp [hn] at h
    | some t =>
      have ht := (w.inv _ _).2 e
      cases hd : t.d with
      | false => exact (key t n hd ht).2.2.1 hn
      | true =>
        have := (w.live t n ht).2 hd
        omega
  · intro t n ht hn hi
    obtain ⟨a, b⟩ := (key t n ht hn).2.2.2 hi
    exact ⟨by omega, fun c hc => (b c hc).1⟩
  · intro t n ht hn hi hl
    obtain ⟨a, b⟩ := (key t n ht hn).2.2.2 hi
    omega
  · intro p hp
    have := h6 p hp
    simp only [Bool.not_eq_true'] at this
    obtain ⟨hd, h⟩ := this
    refine ⟨hd, ?_⟩
    cases e : s.tileNode p with
    | none => rw [e] at h; cases h
    | some n =>
      rw [e] at h
      simp at h
      exact ⟨n, rfl, h.1.1, h.1.2, h.2⟩
  · intro t n ht hn hi c hc
    exact (((key t n ht hn).2.2.2 hi).2 c hc).2

/-- A conjunction of an input and the negation of another one, with a wire crossing over a wire. -/
def exOps : List GateLevel.Op :=
  [.createPi ⟨1, 0, 0, false⟩, .createPi ⟨0, 1, 0, false⟩, .createGate 2 [⟨1, 0, 0, false⟩] ⟨1, 1, 0, false⟩,
    .createGate 2 [⟨0, 1, 0, false⟩] ⟨1, 1, 1, false⟩, .createGate 3 [⟨1, 1, 1, false⟩] ⟨2, 1, 0, false⟩,
    .createGate 2 [⟨1, 1, 0, false⟩] ⟨1, 2, 0, false⟩, .createGate 4 [⟨2, 1, 0, false⟩, ⟨1, 2, 0, false⟩] ⟨2, 2, 0, false⟩,
    .createPo ⟨2, 2, 0, false⟩ ⟨3, 2, 0, false⟩]
def exDim : Dim := ⟨3, 2, 1⟩
def exLyt : State := GateLevel.run exDim init exOps

example : Hexable exDim .four exLyt := by
  refine hexCheck_sound (WF.run exDim _ WF.init ?_) (by decide +kernel)
  simp [exOps, Valid, GateLevel.Op.Valid]

example : (hexagonalization exDim (twoddwaveClocking .cart .four) exLyt).map
    (fun r => (r.1, r.2.outputs.map (fun t => (t.x, t.y)), r.2.inputs.map (fun n => ((r.2.getTile n).x, (r.2.getTile n).y)))) =
    some (⟨1, 5, 1⟩, [(1, 5)], [(1, 1), (0, 1)]) := by decide +kernel

/-! ## What the code does not do -/

/-- A layout with a crossing above an empty tile: the offset only considers the ground layer, so a column becomes negative (and wraps around
in the code). -/
theorem C61_false_crossing_only : ∃ m : Dim, ∃ ops : List GateLevel.Op, ∃ t, Occ (GateLevel.run m init ops) t ∧ InBounds m t ∧
    toHexX (m.Y + 1) t - getOffset m (GateLevel.run m init ops) < 0 := by
  refine ⟨⟨2, 2, 1⟩, [.createPi ⟨2, 1, 0, false⟩, .createGate 2 [⟨0, 1, 0, false⟩] ⟨0, 2, 1, false⟩], ⟨0, 2, 1, false⟩,
    ⟨rfl, 3, by decide +kernel⟩, by decide +kernel, by decide +kernel⟩

/-- An output tile that is read: in the result its reader is connected to the constant 0. -/
theorem C61_false_output_read : ∃ m : Dim, ∃ ops : List GateLevel.Op,
    (GateLevel.run m init ops).fanins m .cart (twoddwaveClocking .cart .four) true 4 = [⟨1, 0, 0, false⟩] ∧
    ((GateLevel.run m init ops).getTile 4 = ⟨2, 0, 0, false⟩) ∧
    (hexagonalization m (twoddwaveClocking .cart .four) (GateLevel.run m init ops)).map
      (fun r => (r.2.tileNode (hexTile (m.Y + 1) 0 ⟨2, 0, 0, false⟩), (r.2.nodes 3).children)) = some (some 3, [const0]) := by
  refine ⟨⟨2, 0, 1⟩, [.createPi ⟨0, 0, 0, false⟩, .createPo ⟨0, 0, 0, false⟩ ⟨1, 0, 0, false⟩,
    .createGate 2 [⟨1, 0, 0, false⟩] ⟨2, 0, 0, false⟩], by decide +kernel, by decide +kernel, by decide +kernel⟩

end Verif.PhysicalDesign.Hexa
