import Verif.Properties.Drv
import Verif.Properties.CritPathProps
import Verif.GateLevel.IoProps

/-!
# C56: a layout has no design rule violations iff it obeys the design rules
-/
namespace Verif.Drv

open Verif.Layouts Verif.Clocking Verif.GateLevel

/-! ## Specification -/

/-- The design rules for a gate-level layout. `b` is a neighbour of `a` if it is adjacent to `a` or to the tile above or
below `a`. -/
structure Clean (m : Dim) (tp : Topo) (cs : Scheme) (s : State) : Prop where
  /-- every signal a placed node uses comes from a node on a neighbouring tile -/
  adjacent : ∀ t, InBounds m t → s.isEmptyTile t = false → ∀ c ∈ (s.nodes (s.getNode t)).children,
    s.isEmptyTile c = false ∧ ∃ y, (y = t ∨ y = Cart.above m t ∨ y = Cart.below t) ∧ c ∈ tp.adjacent m y
  /-- and that tile is clocked one phase earlier -/
  clocked : ∀ t, InBounds m t → s.isEmptyTile t = false → ∀ c ∈ (s.nodes (s.getNode t)).children,
    (cs.clock c + 1) % cs.numClocks = cs.clock t
  /-- a placed node that uses no signals is a primary input -/
  inputs : ∀ t, InBounds m t → s.isEmptyTile t = false → (s.nodes (s.getNode t)).children = [] →
    s.getNode t ∈ s.inputs
  /-- a placed node whose signal is not used is a primary output -/
  outputs : ∀ t, InBounds m t → s.isEmptyTile t = false →
    (∀ t', InBounds m t' → s.isEmptyTile t' = false → t ∉ (s.nodes (s.getNode t')).children) → ∃ o ∈ s.outputs, s.getNode o = s.getNode t
  /-- wire segments in the crossing layer are above wire segments -/
  crossings : ∀ w ∈ s.allWires, 0 < (s.getTile w).z → s.isWireTile (Cart.below (s.getTile w)) = true
  /-- there are inputs and outputs and all of them are on tiles -/
  hasInputs : s.inputs ≠ []
  hasOutputs : s.outputs ≠ []
  inputsPlaced : ∀ n ∈ s.inputs, (s.getTile n).d = false
  outputsPlaced : ∀ o ∈ s.outputs, s.isEmptyTile o = false

/-! ## Lemmas -/

private theorem sum_zero : ∀ l : List Nat, l.sum = 0 ↔ ∀ x ∈ l, x = 0
  | [] => by simp
  | a :: l => by simp [sum_zero l]

theorem node_of {s : State} (w : WF s) {t : Coord} (hd : t.d = false) (h : s.isEmptyTile t = false) :
    2 ≤ s.getNode t ∧ s.tileNode t = some (s.getNode t) ∧ s.getTile (s.getNode t) = t := by
  simp only [State.isEmptyTile, beq_eq_false_iff_ne] at h
  cases e : s.tileNode t with
  | none => simp [State.getNode, e] at h
  | some n =>
    have : s.getNode t = n := by simp [State.getNode, e]
    rw [this]
    have hl := w.live t n e
    rw [hd] at hl
    simp at hl
    exact ⟨by omega, rfl, by simp [State.getTile, (w.inv t n).1 e]⟩

private theorem tile0_dead {s : State} (w : WF s) : (s.getTile 0).d = true := by
  cases e : s.nodeTile 0 with
  | none => simp [State.getTile, e, const0]
  | some t => simpa [State.getTile, e] using (w.live t 0 ((w.inv t 0).2 e)).1 (by omega)

/-- The tile a child lives on is live exactly if there is a node on the child's tile. -/
theorem child_tile {s : State} (w : WF s) {c : Coord} (h : (s.getTile (s.getNode c)).d = false) :
    s.isEmptyTile c = false ∧ s.getTile (s.getNode c) = c := by
  cases e : s.tileNode c with
  | none =>
    have : s.getNode c = 0 := by simp [State.getNode, e]
    rw [this, tile0_dead w] at h; simp at h
  | some n =>
    have hn : s.getNode c = n := by simp [State.getNode, e]
    have ht : s.getTile n = c := by simp [State.getTile, (w.inv c n).1 e]
    rw [hn, ht] at h
    have := w.live c n e
    rw [h] at this
    simp at this
    refine ⟨?_, by rw [hn, ht]⟩
    simp only [State.isEmptyTile, hn, beq_eq_false_iff_ne]; omega

theorem adj_elev_iff {m : Dim} {tp : Topo} (hX : m.X < 2^31 - 1) (hY : m.Y < 2^31 - 1) {t c : Coord} (ht : InBounds m t) :
    Topo.isAdjacentElevationOf tp m t c = true ↔
      ∃ y, (y = t ∨ y = Cart.above m t ∨ y = Cart.below t) ∧ c ∈ tp.adjacent m y := by
  unfold Topo.isAdjacentElevationOf
  simp only [Bool.or_eq_true]
  have k : ∀ y, (y = t ∨ y = Cart.above m t ∨ y = Cart.below t) → (Topo.isAdjacentOf tp m y c = true ↔ c ∈ tp.adjacent m y) :=
    fun y hy => isAdj_iff m tp hX hY y c (above_below ht hy).1
  rw [k t (by simp), k (Cart.above m t) (by simp), k (Cart.below t) (by simp)]
  constructor
  · rintro ((h | h) | h)
    · exact ⟨t, by simp, h⟩
    · exact ⟨_, by simp, h⟩
    · exact ⟨_, by simp, h⟩
  · rintro ⟨y, rfl | rfl | rfl, h⟩ <;> tauto

section
variable {m : Dim} {tp : Topo} {cs : Scheme} {s : State}

private theorem adj_clause (w : WF s) (hX : m.X < 2^31 - 1) (hY : m.Y < 2^31 - 1) {t c : Coord} (ht : InBounds m t) :
    Topo.isAdjacentElevationOf tp m t (s.getTile (s.getNode c)) = true ↔
      s.isEmptyTile c = false ∧ c.d = false ∧ ∃ y, (y = t ∨ y = Cart.above m t ∨ y = Cart.below t) ∧ c ∈ tp.adjacent m y := by
  rw [adj_elev_iff hX hY ht]
  constructor
  · rintro ⟨y, hy, h⟩
    have hb := (adj_facts m tp hX hY y _ (above_below ht hy).1 h).1
    obtain ⟨h1, h2⟩ := child_tile w hb.1
    rw [h2] at h hb
    exact ⟨h1, hb.1, y, hy, h⟩
  · rintro ⟨h1, hd, y, hy, h⟩
    rw [(node_of w hd h1).2.2]
    exact ⟨y, hy, h⟩

end

private theorem not_own {m : Dim} {tp : Topo} (hX : m.X < 2^31 - 1) (hY : m.Y < 2^31 - 1) {t y : Coord} (ht : InBounds m t)
    (hy : y = t ∨ y = Cart.above m t ∨ y = Cart.below t) : t ∉ tp.adjacent m y := by
  intro h
  have ab := above_below ht hy
  obtain ⟨-, hne, hz⟩ := adj_facts m tp hX hY y _ ab.1 h
  refine hne ?_
  obtain ⟨x, y1, z, d⟩ := t
  obtain ⟨x', y', z', d'⟩ := y
  have h1 := ab.1.1
  have h2 := ht.1
  simp only at h1 h2 hz ab ⊢
  rw [ab.2.1, ab.2.2.1, hz, h1, h2]

private theorem const0_free (m : Dim) (ops : List GateLevel.Op) (hv : Valid m init ops) :
    ∀ n, (run m init ops).tileNode const0 = some n → n = 0 := by
  refine run_rule m (fun s => ∀ n, s.tileNode const0 = some n → n = 0) ?_ _ _ WF.init ?_ hv
  · intro s op hv w h
    refine (step_rule_view m (fun s => ∀ n, s.tileNode const0 = some n → n = 0) ?_ ?_ ?_ ?_ ?_ ?_ s op hv w h).2
    · intro s s' v h; rw [v.tileNode]; exact h
    · exact fun s l h => h
    · exact fun s l h => h
    · exact fun s d w h => h
    · intro s t w h n hn
      rw [clear_tileNode] at hn
      split_ifs at hn
      exact h n hn
    · intro s t n w ht h2 hn he h k hk
      rw [assign_tileNode m ht] at hk
      split_ifs at hk with e
      · rw [← e] at ht; simp [const0] at ht
      · exact h k hk
  · intro n hn
    simp [init] at hn
    omega

theorem inputs_two (m : Dim) (ops : List GateLevel.Op) : ∀ n ∈ (run m init ops).inputs, 2 ≤ n := by
  induction ops using List.reverseRecOn with
  | nil => simp [run, init]
  | append_singleton ops op ih =>
    intro n hn
    rw [run_append] at hn
    have e : run m (run m init ops) [op] = (run m init ops).step m op := rfl
    rw [e, step_inputs, List.mem_append] at hn
    rcases hn with hn | hn
    · exact ih n hn
    · have := C19_node_numbers m ops
      cases op <;> simp at hn
      omega

/-- Without violations of the first two kinds, the fanins of a placed node are its children. -/
theorem fanins_of_clean {m : Dim} {tp : Topo} {cs : Scheme} {s : State} (w : WF s) {t : Coord} (ht : InBounds m t)
    (hne : s.isEmptyTile t = false)
    (h1 : ∀ c ∈ (s.nodes (s.getNode t)).children, Topo.isAdjacentElevationOf tp m t (s.getTile (s.getNode c)) = true)
    (h2 : ∀ c ∈ (s.nodes (s.getNode t)).children, isIncomingClocked cs t (s.getTile (s.getNode c)) = true) :
    s.fanins m tp cs true (s.getNode t) = (s.nodes (s.getNode t)).children.map (fun c => s.getTile (s.getNode c)) := by
  obtain ⟨hn, -, et⟩ := node_of w ht.1 hne
  unfold State.fanins
  rw [if_neg (by omega)]
  simp only [et]
  congr 1
  rw [List.filter_eq_self]
  intro c hc
  simp [h1 c hc, h2 c hc]

/-- C56: a non-empty layout built by any history of operations, all of whose nodes are placed within the layout or not at
all, has no design rule violations iff it obeys the design rules. -/
theorem C56_no_drvs_iff_clean (m : Dim) (ops : List GateLevel.Op) (hv : Valid m init ops) (tp : Topo) (hX : m.X < 2^31 - 1)
    (hY : m.Y < 2^31 - 1) (cs : Scheme) (hcs : LayerFree cs)
    (hin : ∀ t n, (run m init ops).tileNode t = some n → 2 ≤ n → InBounds m t)
    (hne : layoutEmpty (run m init ops) = false) :
    drvs m tp cs (run m init ops) {} = 0 ↔ Clean m tp cs (run m init ops) := by
  have w : WF (run m init ops) := WF.init.run m ops hv
  have hz0 := const0_free m ops hv
  have hi2 := inputs_two m ops
  have hdual := dual m w (no_const_children m ops hv) tp hX hY cs true (fun _ => hcs)
  generalize run m init ops = s at *
  have hnode : ∀ {t}, InBounds m t → s.isEmptyTile t = false → 2 ≤ s.getNode t ∧ s.tileNode t = some (s.getNode t) ∧ s.getTile (s.getNode t) = t :=
    fun hb he => node_of w hb.1 he
  have tm : ∀ t, t ∈ tiles m ↔ InBounds m t := fun t => CritPath.mem_tiles
  have e1 : nonAdjacentConnections m tp s = 0 ↔ ∀ t, InBounds m t → s.isEmptyTile t = false → ∀ c ∈ (s.nodes (s.getNode t)).children,
      Topo.isAdjacentElevationOf tp m t (s.getTile (s.getNode c)) = true := by
    simp only [nonAdjacentConnections, hne, Bool.false_eq_true, if_false, sum_zero, List.mem_map, forall_exists_index, and_imp,
      forall_apply_eq_imp_iff₂, tm]
    refine forall_congr' fun t => forall_congr' fun ht => ?_
    cases he : s.isEmptyTile t with
    | true => simp
    | false => simp [List.countP_eq_zero]
  have e2 : clockedDataFlow m cs s = 0 ↔ ∀ t, InBounds m t → s.isEmptyTile t = false → ∀ c ∈ (s.nodes (s.getNode t)).children,
      isIncomingClocked cs t (s.getTile (s.getNode c)) = true := by
    simp only [clockedDataFlow, hne, Bool.false_eq_true, if_false, sum_zero, List.mem_map, forall_exists_index, and_imp,
      forall_apply_eq_imp_iff₂, tm]
    refine forall_congr' fun t => forall_congr' fun ht => ?_
    cases he : s.isEmptyTile t with
    | true => simp
    | false => simp [List.countP_eq_zero]
  have e3 : missingConnections m tp cs s = 0 ↔ ∀ t, InBounds m t → s.isEmptyTile t = false →
      (s.fanouts m tp cs true (s.getNode t) = [] → s.isPoTile t = true) ∧
      (s.fanins m tp cs true (s.getNode t) = [] → s.isPi (s.getNode t) = true) := by
    simp only [missingConnections, hne, Bool.false_eq_true, if_false, List.countP_eq_zero, tm]
    refine forall_congr' fun t => forall_congr' fun ht => ?_
    cases he : s.isEmptyTile t with
    | true => simp
    | false => simp
  have e4 : crossingGates s = 0 ↔ ∀ w ∈ s.allWires, 0 < (s.getTile w).z → s.isWireTile (Cart.below (s.getTile w)) = true := by
    simp only [crossingGates, hne, Bool.false_eq_true, if_false, List.countP_eq_zero, isCrossingLayer]
    refine forall_congr' fun t => forall_congr' fun ht => ?_
    simp
  have e5 : hasIo s = 0 ↔ s.inputs ≠ [] ∧ s.outputs ≠ [] := by
    simp only [hasIo, hne, Bool.false_eq_true, if_false]
    split_ifs <;> simp_all
  have e6 : emptyIo s = 0 ↔ (∀ n ∈ s.inputs, s.isEmptyTile (s.getTile n) = false) ∧
      ∀ o ∈ s.outputs, s.isEmptyTile (s.getTile (s.getNode o)) = false := by
    simp [emptyIo, hne, List.countP_eq_zero]
  have e0 : drvs m tp cs s {} = 0 ↔ nonAdjacentConnections m tp s = 0 ∧ missingConnections m tp cs s = 0 ∧ crossingGates s = 0 ∧
      clockedDataFlow m cs s = 0 ∧ hasIo s = 0 ∧ emptyIo s = 0 := by
    simp only [drvs, if_true]; omega
  rw [e0, e1, e2, e3, e4, e5, e6]
  have hfo : (∀ t, InBounds m t → s.isEmptyTile t = false → ∀ c ∈ (s.nodes (s.getNode t)).children,
      Topo.isAdjacentElevationOf tp m t (s.getTile (s.getNode c)) = true) →
      (∀ t, InBounds m t → s.isEmptyTile t = false → ∀ c ∈ (s.nodes (s.getNode t)).children,
      isIncomingClocked cs t (s.getTile (s.getNode c)) = true) →
      ∀ t, InBounds m t → s.isEmptyTile t = false → (s.fanouts m tp cs true (s.getNode t) = [] ↔
        ∀ t', InBounds m t' → s.isEmptyTile t' = false → t ∉ (s.nodes (s.getNode t')).children) := by
    intro a1 a2 t ht he
    obtain ⟨n2, tn, nt⟩ := hnode ht he
    constructor
    · intro h t' ht' he' hc
      obtain ⟨n2', tn', nt'⟩ := hnode ht' he'
      have hf := fanins_of_clean w ht' he' (a1 t' ht' he') (a2 t' ht' he')
      have hm : t ∈ s.fanins m tp cs true (s.getNode t') := by
        rw [hf, List.mem_map]; exact ⟨t, hc, nt⟩
      have := ((hdual 2 (s.getNode t')).2 (by rw [(w.inv _ _).1 tn']; simp) (by rw [nt']; exact ht') t hm).2.2
      rw [h] at this; simp at this
    · intro h
      by_contra hne'
      obtain ⟨a, ha⟩ := List.exists_mem_of_ne_nil _ hne'
      have hm := (hdual (s.getNode t) a).1 n2 (by rw [(w.inv _ _).1 tn]; simp) (by rw [nt]; exact ht) ha
      rw [nt] at hm
      have ha2 : ¬ a ≤ 1 := by
        intro hle; unfold State.fanins at hm; rw [if_pos hle] at hm; simp at hm
      -- the fanout is placed
      have hpl : ∃ x, s.tileNode x = some a := by
        unfold State.fanouts at ha
        rw [if_neg (by omega)] at ha
        simp only [List.mem_flatMap, List.mem_filter, List.mem_map] at ha
        obtain ⟨_, _, ⟨x, _, hx⟩, _⟩ := ha
        cases e : s.tileNode x with
        | none => simp [State.getNode, e] at hx; omega
        | some k => exact ⟨x, by simp [State.getNode, e] at hx; rw [e, hx]⟩
      obtain ⟨x, hx⟩ := hpl
      have hbx := hin x a hx (by omega)
      have hnx : s.getNode x = a := by simp [State.getNode, hx]
      have hex : s.isEmptyTile x = false := by simp only [State.isEmptyTile, hnx, beq_eq_false_iff_ne]; omega
      have hf := fanins_of_clean w hbx hex (a1 x hbx hex) (a2 x hbx hex)
      rw [hnx] at hf
      rw [hf, List.mem_map] at hm
      obtain ⟨c, hc, ec⟩ := hm
      have hct := child_tile w (c := c) (by rw [ec]; exact ht.1)
      rw [hct.2] at ec
      subst ec
      exact h x hbx hex (by rw [hnx]; exact hc)
  have hzz : s.getNode const0 = 0 := by
    cases e : s.tileNode const0 with
    | none => simp [State.getNode, e]
    | some n => simp [State.getNode, e, hz0 n e]
  have hinp : ∀ n ∈ s.inputs, (s.isEmptyTile (s.getTile n) = false ↔ (s.getTile n).d = false) := by
    intro n hn
    have h2 := hi2 n hn
    cases e : s.nodeTile n with
    | none => simp [State.getTile, e, State.isEmptyTile, hzz]; rfl
    | some t =>
      have ht := (w.inv t n).2 e
      have := w.live t n ht
      simp [State.getTile, e, State.isEmptyTile, State.getNode, ht]
      constructor
      · intro _; by_contra hc; rw [Bool.not_eq_false] at hc; have := this.2 hc; omega
      · intro _; omega
  have hout : ∀ o, s.isEmptyTile (s.getTile (s.getNode o)) = false ↔ s.isEmptyTile o = false := by
    intro o
    cases e : s.tileNode o with
    | none =>
      have h0 : s.getNode o = 0 := by simp [State.getNode, e]
      have hz : s.getNode (s.getTile 0) = 0 := by
        cases e0 : s.nodeTile 0 with
        | some t => simp [State.getTile, State.getNode, e0, (w.inv t 0).2 e0]
        | none => simpa [State.getTile, e0] using hzz
      simp [State.isEmptyTile, h0, hz]
    | some n =>
      have : s.getNode o = n := by simp [State.getNode, e]
      have ht : s.getTile n = o := by simp [State.getTile, (w.inv o n).1 e]
      rw [this, ht]
  constructor
  · rintro ⟨a1, a3, a4, a2, ⟨a5, a5'⟩, a6, a6'⟩
    have ch : ∀ t, InBounds m t → s.isEmptyTile t = false → ∀ c ∈ (s.nodes (s.getNode t)).children,
        s.isEmptyTile c = false ∧ c.d = false ∧ ∃ y, (y = t ∨ y = Cart.above m t ∨ y = Cart.below t) ∧ c ∈ tp.adjacent m y :=
      fun t ht he c hc => (adj_clause w hX hY ht).1 (a1 t ht he c hc)
    refine ⟨fun t ht he c hc => ⟨(ch t ht he c hc).1, (ch t ht he c hc).2.2⟩, ?_, ?_, ?_, a4, a5, a5', fun n hn => (hinp n hn).1 (a6 n hn), fun o ho => (hout o).1 (a6' o ho)⟩
    · intro t ht he c hc
      have h := a2 t ht he c hc
      obtain ⟨h1, h2, -⟩ := ch t ht he c hc
      rw [(node_of w h2 h1).2.2] at h
      unfold isIncomingClocked at h
      split_ifs at h
      exact beq_iff_eq.1 h
    · intro t ht he hc
      have h := (a3 t ht he).2 (by rw [fanins_of_clean w ht he (a1 t ht he) (a2 t ht he), hc]; rfl)
      simpa [State.isPi] using h
    · intro t ht he hc
      have h := (a3 t ht he).1 ((hfo a1 a2 t ht he).2 hc)
      simpa [State.isPoTile, State.isPo] using h
  · intro k
    have ch : ∀ t, InBounds m t → s.isEmptyTile t = false → ∀ c ∈ (s.nodes (s.getNode t)).children, c.d = false ∧ c ≠ t := by
      intro t ht he c hc
      obtain ⟨-, y, hy, h⟩ := k.adjacent t ht he c hc
      refine ⟨(adj_facts m tp hX hY y _ (above_below ht hy).1 h).1.1, ?_⟩
      rintro rfl
      exact not_own hX hY ht hy h
    have a1 : ∀ t, InBounds m t → s.isEmptyTile t = false → ∀ c ∈ (s.nodes (s.getNode t)).children,
        Topo.isAdjacentElevationOf tp m t (s.getTile (s.getNode c)) = true :=
      fun t ht he c hc => (adj_clause w hX hY ht).2 ⟨(k.adjacent t ht he c hc).1, (ch t ht he c hc).1, (k.adjacent t ht he c hc).2⟩
    have a2 : ∀ t, InBounds m t → s.isEmptyTile t = false → ∀ c ∈ (s.nodes (s.getNode t)).children,
        isIncomingClocked cs t (s.getTile (s.getNode c)) = true := by
      intro t ht he c hc
      rw [(node_of w (ch t ht he c hc).1 (k.adjacent t ht he c hc).1).2.2]
      unfold isIncomingClocked
      rw [if_neg (fun e => (ch t ht he c hc).2 e.symm)]
      exact beq_iff_eq.2 (k.clocked t ht he c hc)
    refine ⟨a1, ?_, k.crossings, a2, ⟨k.hasInputs, k.hasOutputs⟩, fun n hn => (hinp n hn).2 (k.inputsPlaced n hn), fun o ho => (hout o).2 (k.outputsPlaced o ho)⟩
    intro t ht he
    constructor
    · intro h
      have := k.outputs t ht he ((hfo a1 a2 t ht he).1 h)
      simpa [State.isPoTile, State.isPo] using this
    · intro h
      rw [fanins_of_clean w ht he (a1 t ht he) (a2 t ht he), List.map_eq_nil_iff] at h
      simpa [State.isPi] using k.inputs t ht he h

section
variable (m : Dim) (ops : List GateLevel.Op) (hv : Valid m init ops) (tp : Topo) (hX : m.X < 2^31 - 1) (hY : m.Y < 2^31 - 1)
  (cs : Scheme) (hcs : LayerFree cs) (hin : ∀ t n, (run m init ops).tileNode t = some n → 2 ≤ n → InBounds m t)
  (hne : layoutEmpty (run m init ops) = false)
include hv hX hY hcs hin hne

/-- C56: without violations, all signals a placed node uses reach it: iterating over the fanins of the node, which looks at
adjacency and clocking, visits all of its children. -/
theorem C56_fanins_complete (h : drvs m tp cs (run m init ops) {} = 0) (t : Coord) (ht : InBounds m t)
    (he : (run m init ops).isEmptyTile t = false) :
    (run m init ops).fanins m tp cs true ((run m init ops).getNode t) = ((run m init ops).nodes ((run m init ops).getNode t)).children := by
  have k := (C56_no_drvs_iff_clean m ops hv tp hX hY cs hcs hin hne).1 h
  have w : WF (run m init ops) := WF.init.run m ops hv
  generalize run m init ops = s at *
  have ch : ∀ c ∈ (s.nodes (s.getNode t)).children, c.d = false ∧ c ≠ t := by
    intro c hc
    obtain ⟨-, y, hy, h⟩ := k.adjacent t ht he c hc
    refine ⟨(adj_facts m tp hX hY y _ (above_below ht hy).1 h).1.1, ?_⟩
    rintro rfl
    exact not_own hX hY ht hy h
  have et : ∀ c ∈ (s.nodes (s.getNode t)).children, s.getTile (s.getNode c) = c :=
    fun c hc => (node_of w (ch c hc).1 (k.adjacent t ht he c hc).1).2.2
  rw [fanins_of_clean w ht he
    (fun c hc => (adj_clause w hX hY ht).2 ⟨(k.adjacent t ht he c hc).1, (ch c hc).1, (k.adjacent t ht he c hc).2⟩)]
  · exact (List.map_congr_left (g := id) et).trans (List.map_id _)
  · intro c hc
    rw [et c hc]
    unfold isIncomingClocked
    rw [if_neg (fun e => (ch c hc).2 e.symm)]
    exact beq_iff_eq.2 (k.clocked t ht he c hc)

/-- C56: on a layout without violations and without cycles in its data flow, whose primary inputs use no signals, the
critical path length is the number of tiles on a longest path from a primary input to a primary output. -/
theorem C56_critical_path {sort : List CritPath.Info → List CritPath.Info} (hs : CritPath.Sorts sort)
    (h : drvs m tp cs (run m init ops) {} = 0)
    (hac : ∀ t, ¬ Relation.TransGen (fun a b => a ∈ (CritPath.ofState m tp cs (run m init ops)).inc b) t t)
    (hob : ∀ o ∈ (run m init ops).outputs, o.d = false)
    (hpi' : ∀ n ∈ (run m init ops).inputs, ((run m init ops).nodes n).children = []) :
    let v := CritPath.ofState m tp cs (run m init ops)
    ∃ r, CritPath.criticalPath v sort ((m.X + 1) * ((m.Y + 1) * (m.Z + 1)) + 1) = some r ∧
      (∀ po ∈ v.pos, ∀ a k, v.isPi a = true → CritPath.FlowPath v a po k → k ≤ r.criticalPathLength) ∧
      (∃ po ∈ v.pos, ∃ a, v.isPi a = true ∧ CritPath.FlowPath v a po r.criticalPathLength) := by
  intro v
  have k := (C56_no_drvs_iff_clean m ops hv tp hX hY cs hcs hin hne).1 h
  have hfc := C56_fanins_complete m ops hv tp hX hY cs hcs hin hne h
  have w : WF (run m init ops) := WF.init.run m ops hv
  obtain ⟨r, e, r1, r2⟩ := CritPath.C46_layout_length m ops tp cs hs hv hX hY hin hac
    (fun t ht => by
      have h1 := k.outputsPlaced t ht
      obtain ⟨h2, h3, -⟩ := node_of w (hob t ht) h1
      exact ⟨hin t _ h3 h2, h1⟩)
    (fun t ht he hi => by
      have := hfc t ht he
      have e' : (CritPath.ofState m tp cs (run m init ops)).inc t = (run m init ops).fanins m tp cs true ((run m init ops).getNode t) := rfl
      rw [← e', hi] at this
      simpa [State.isPi] using k.inputs t ht he this.symm) hpi'
  exact ⟨r, e, r1, r2 k.hasOutputs⟩
end

/-! ## A concrete case, and disagreements -/

/-- Two wires that cross: one on the ground layer and one in the crossing layer. -/
def crossing : List GateLevel.Op :=
  [.createPi ⟨0, 1, 0, false⟩, .createGate 2 [⟨0, 1, 0, false⟩] ⟨1, 1, 0, false⟩, .createPo ⟨1, 1, 0, false⟩ ⟨2, 1, 0, false⟩,
   .createPi ⟨1, 0, 0, false⟩, .createGate 2 [⟨1, 0, 0, false⟩] ⟨1, 1, 1, false⟩, .createPo ⟨1, 1, 1, false⟩ ⟨1, 2, 0, false⟩]

theorem crossing_valid : Valid ⟨2, 2, 1⟩ init crossing := ⟨trivial, trivial, trivial, trivial, trivial, trivial, trivial⟩

/-- The layout meets the hypotheses of `C56_no_drvs_iff_clean`, and has no violations. -/
example :
    (∀ t n, (run ⟨2, 2, 1⟩ init crossing).tileNode t = some n → 2 ≤ n → InBounds ⟨2, 2, 1⟩ t) ∧
    layoutEmpty (run ⟨2, 2, 1⟩ init crossing) = false ∧
    drvs ⟨2, 2, 1⟩ .cart (twoddwaveClocking .cart .four) (run ⟨2, 2, 1⟩ init crossing) {} = 0 ∧
    LayerFree (twoddwaveClocking .cart .four) ∧
    (∀ o ∈ (run ⟨2, 2, 1⟩ init crossing).outputs, o.d = false) ∧
    (∀ n ∈ (run ⟨2, 2, 1⟩ init crossing).inputs, ((run ⟨2, 2, 1⟩ init crossing).nodes n).children = []) := by
  refine ⟨?_, by decide +kernel, by decide +kernel, fun a b hx hy => by simp [Scheme.clock, twoddwaveClocking, byRow, hx, hy], by decide +kernel, by decide +kernel⟩
  intro t n h hn
  have w : WF (run ⟨2, 2, 1⟩ init crossing) := WF.init.run _ _ crossing_valid
  have e : (run ⟨2, 2, 1⟩ init crossing).size = 8 := by decide +kernel
  have h8 := w.lt t n h
  rw [e] at h8
  have h2 := (w.inv t n).1 h
  have hall : ∀ n < 8, 2 ≤ n → ((run ⟨2, 2, 1⟩ init crossing).nodeTile n).any (fun t => decide (InBounds ⟨2, 2, 1⟩ t)) = true := by decide +kernel
  have h3 := hall n h8 hn
  rw [h2] at h3
  simpa using h3

/-- Moving a node one row breaks both the adjacency and the clocking rule, and leaves two nodes unconnected. -/
example : drvs ⟨2, 2, 1⟩ .cart (twoddwaveClocking .cart .four)
    (run ⟨2, 2, 1⟩ init (crossing ++ [.move 4 ⟨2, 2, 0, false⟩ [⟨1, 1, 0, false⟩]])) {} = 4 := by decide +kernel

/-- C56 is false of the code for wires that are marked dead (see `C49_moved_child_skipped`): a wire crosses a gate, and
no violation is reported, only a warning. -/
theorem C56_crossed_gate_missed :
    Valid ⟨2, 2, 1⟩ init (crossing.set 1 (.createGate 3 [⟨0, 1, 0, false⟩] ⟨1, 1, 0, false⟩) ++
      [.connect ⟨1, 1, 1, false⟩ 7, .move 7 ⟨1, 2, 0, false⟩ [], .connect ⟨1, 1, 1, false⟩ 7]) ∧
    let s := run ⟨2, 2, 1⟩ init (crossing.set 1 (.createGate 3 [⟨0, 1, 0, false⟩] ⟨1, 1, 0, false⟩) ++
      [.connect ⟨1, 1, 1, false⟩ 7, .move 7 ⟨1, 2, 0, false⟩ [], .connect ⟨1, 1, 1, false⟩ 7])
    drvs ⟨2, 2, 1⟩ .cart (twoddwaveClocking .cart .four) s {} = 0 ∧ s.isEmptyTile ⟨1, 1, 1, false⟩ = false ∧
    s.isWireTile ⟨1, 1, 1, false⟩ = true ∧ s.isEmptyTile ⟨1, 1, 0, false⟩ = false ∧ s.isWireTile ⟨1, 1, 0, false⟩ = false ∧
    placedDeadNodes ⟨2, 2, 1⟩ s = 1 :=
  ⟨⟨trivial, trivial, trivial, trivial, trivial, trivial, (by decide +kernel : (7 : Nat) < _), ⟨by decide, by decide +kernel⟩,
    (by decide +kernel : (7 : Nat) < _), trivial⟩, by decide +kernel, by decide +kernel, by decide +kernel, by decide +kernel,
    by decide +kernel, by decide +kernel⟩

/-- C56 is false of the code for gates in the crossing layer: only wires are checked. -/
theorem C56_gate_in_crossing_layer_missed :
    let ops := crossing.set 4 (.createGate 3 [⟨1, 0, 0, false⟩] ⟨1, 1, 1, false⟩)
    let s := run ⟨2, 2, 1⟩ init ops
    Valid ⟨2, 2, 1⟩ init ops ∧ drvs ⟨2, 2, 1⟩ .cart (twoddwaveClocking .cart .four) s {} = 0 ∧
    s.isEmptyTile ⟨1, 1, 1, false⟩ = false ∧ s.isWireTile ⟨1, 1, 1, false⟩ = false ∧ s.isEmptyTile ⟨1, 1, 0, false⟩ = false :=
  ⟨⟨trivial, trivial, trivial, trivial, trivial, trivial, trivial⟩, by decide +kernel, by decide +kernel, by decide +kernel, by decide +kernel⟩

/-- C56 is false of the code for empty layouts: they have no inputs and no outputs, and no violations. -/
theorem C56_empty_layout_passes (m : Dim) (tp : Topo) (cs : Scheme) :
    drvs m tp cs init {} = 0 ∧ init.inputs = [] ∧ init.outputs = [] := by
  have : layoutEmpty init = true := by decide
  exact ⟨by simp [drvs, nonAdjacentConnections, missingConnections, crossingGates, clockedDataFlow, hasIo, emptyIo, this], rfl, rfl⟩

end Verif.Drv
