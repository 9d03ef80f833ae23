import Verif.GateLevel.Props

/-! # Property C18: the crossing count -/
namespace Verif.GateLevel

open Verif.Layouts Verif.Clocking

variable (m : Dim)

/-- Spec: the tile above on the crossing layer. -/
def onTop (t : Coord) : Coord := { t with z := 1 }

/-- Spec: where both layers of a column are occupied, both nodes are wire segments. -/
def ColumnsOfWires (s : State) : Prop := ∀ t : Coord, t.d = false → t.z = 0 →
  s.isEmptyTile t = false → s.isEmptyTile (onTop t) = false → s.isWireTile t = true ∧ s.isWireTile (onTop t) = true

/-- Spec: nodes are put on layers the layout has. -/
def Op.inLayers (op : Op) : Prop := ∀ t, op.target = some t → t.d = false → t.z ≤ m.Z

private def Occ (s : State) (t : Coord) : Prop := ∃ n, s.tileNode t = some n
private def LB (s : State) : Prop := ∀ t, t.d = false → Occ s t → t.z ≤ m.Z
private def flip (t : Coord) : Coord := { t with z := 1 - t.z }
private def CT (s : State) (t : Coord) : Prop := t.d = false ∧ t.z = 0 ∧ Occ s t ∧ Occ s (onTop t)
private def Cols (s : State) : Prop := ∀ t n n', t.d = false → t.z = 0 → s.tileNode t = some n →
  s.tileNode (onTop t) = some n' → s.fnOf n = 2 ∧ s.fnOf n' = 2

private theorem crossingsAt_eq {s : State} (w : WF s) (hZ : m.Z ≤ 1) (hl : LB m s) {t : Coord} (ht : t.d = false)
    (htz : t.z ≤ m.Z) : (Occ s (flip t) → s.crossingsAt m t = 1) ∧ (¬ Occ s (flip t) → s.crossingsAt m t = 0) := by
  have hd : (flip t).d = false := ht
  have he := empty_iff w hd
  have key : s.crossingsAt m t = if s.isEmptyTile (flip t) = false then 1 else 0 := by
    unfold State.crossingsAt isCrossingLayer isGroundLayer
    by_cases hz : t.z = 0
    · have e1 : flip t = { t with z := 1 } := by simp [flip, hz]
      have e2 : Cart.above m t = if m.Z = 1 then flip t else t := by
        unfold Cart.above
        rw [if_neg (by omega), e1]
        by_cases h1 : m.Z = 1
        · rw [if_pos (by omega), if_pos h1, hz]
        · rw [if_neg (by omega), if_neg h1]
      rw [e2]
      by_cases h1 : m.Z = 1
      · have : (flip t).z = 1 := by rw [e1]
        simp [hz, h1, this]
      · have hne : s.isEmptyTile (flip t) = true := by
          cases e : s.isEmptyTile (flip t) with
          | true => rfl
          | false =>
            have := hl _ hd (he.1 e)
            simp [e1] at this; omega
        simp [hz, h1, hne]
    · have e1 : Cart.below t = flip t := by
        unfold Cart.below flip; rw [if_neg hz]
        have : t.z = 1 := by omega
        rw [this]
      rw [e1]
      have : 0 < t.z := by omega
      simp [hz, this]
  constructor
  · intro h; rw [key, if_pos (he.2 h)]
  · intro h; rw [key, if_neg (fun e => h (he.1 e))]

private theorem CT_base {s : State} {t : Coord} (ht : t.d = false) (hz : t.z ≤ 1) :
    CT s { t with z := 0 } ↔ Occ s t ∧ Occ s (flip t) := by
  obtain ⟨x, y, z, d⟩ := t
  simp only at ht hz; subst ht
  have : z = 0 ∨ z = 1 := by omega
  rcases this with rfl | rfl <;> simp [CT, flip, onTop, and_comm]

private theorem CT_iff {s : State} {u t : Coord} (hz : t.z ≤ 1) (ht : t.d = false) (hu : CT s u) :
    u = { t with z := 0 } ↔ u = t ∨ onTop u = t := by
  obtain ⟨x, y, z, d⟩ := t
  obtain ⟨x', y', z', d'⟩ := u
  obtain ⟨h1, h2, -, -⟩ := hu
  simp only at ht hz h1 h2; subst ht h1 h2
  have : z = 0 ∨ z = 1 := by omega
  rcases this with rfl | rfl <;> simp [onTop]

private theorem cols_flip {s : State} (h : Cols s) {t : Coord} {n} (ht : t.d = false) (hz : t.z ≤ 1)
    (e : s.tileNode t = some n) (ho : Occ s (flip t)) : s.fnOf n = 2 := by
  obtain ⟨k, hk⟩ := ho
  obtain ⟨x, y, z, d⟩ := t
  simp only at ht hz; subst ht
  have : z = 0 ∨ z = 1 := by omega
  rcases this with rfl | rfl
  · exact (h _ n k rfl rfl e hk).1
  · exact (h ⟨x, y, 0, false⟩ k n rfl rfl hk e).2

private def Cnt (s : State) : Prop := CountIs (CT s) s.numCrossings

private theorem clear_CT (s : State) (t u : Coord) : CT (s.clearTile m t) u ↔ CT s u ∧ ¬ (u = t ∨ onTop u = t) := by
  simp only [CT, Occ, clear_tileNode]; grind

private theorem Cnt.clear {s : State} (w : WF s) (hZ : m.Z ≤ 1) (hl : LB m s) (hc : Cols s) (h : Cnt s) (t) :
    Cnt (s.clearTile m t) := by
  cases e : s.tileNode t with
  | none => rw [clear_none m e]; exact h
  | some n =>
    unfold Cnt
    rw [clear_numCrossings m e]
    cases ht : t.d with
    | true =>
      simp only [Bool.true_eq_false, false_and, if_false]
      refine h.congr (fun u => Iff.trans ?_ (clear_CT m s t u).symm)
      constructor
      · intro hu; refine ⟨hu, ?_⟩
        have := hu.1
        rintro (rfl | rfl)
        · rw [ht] at this; simp at this
        · have h2 : (onTop u).d = u.d := rfl
          rw [← h2, ht] at this; simp at this
      · exact fun hu => hu.1
    | false =>
      have hz : t.z ≤ m.Z := hl t ht ⟨n, e⟩
      have hb := CT_base (s := s) ht (Nat.le_trans hz hZ)
      have cr := crossingsAt_eq m w hZ hl ht hz
      have hch : ∀ u, CT (s.clearTile m t) u ↔ CT s u ∧ u ≠ { t with z := 0 } := by
        intro u
        rw [clear_CT]
        refine and_congr_right (fun hu => not_congr (CT_iff (Nat.le_trans hz hZ) ht hu).symm)
      by_cases ho : Occ s (flip t)
      · rw [if_pos ⟨rfl, cols_flip hc ht (Nat.le_trans hz hZ) e ho⟩, cr.1 ho]
        exact h.erase _ (hb.2 ⟨⟨n, e⟩, ho⟩) hch
      · have : (if false = false ∧ s.fnOf n = 2 then s.numCrossings - s.crossingsAt m t else s.numCrossings) = s.numCrossings := by
          rw [cr.2 ho]; simp
        rw [this]
        refine h.congr (fun u => ((hch u).trans ?_).symm)
        constructor
        · exact fun a => a.1
        · exact fun a => ⟨a, fun a' => ho (hb.1 (a' ▸ a)).2⟩

private theorem LB.clear {s : State} (hl : LB m s) (t) : LB m (s.clearTile m t) := by
  intro u hu ⟨n, h⟩; rw [clear_tileNode] at h; split_ifs at h; exact hl u hu ⟨n, h⟩

private theorem Cols.clear {s : State} (hl : Cols s) (t) : Cols (s.clearTile m t) := by
  intro u n n' hu hz h h'
  rw [clear_tileNode] at h h'; split_ifs at h h'
  rw [clear_fnOf]; exact hl u n n' hu hz h h'

private theorem Cnt.assign {s : State} (w : WF s) (hZ : m.Z ≤ 1) (hl : LB m s) (hc : Cols s) (h : Cnt s) {t n}
    (ht : t.d = false) (hz : t.z ≤ m.Z) (h2 : 2 ≤ n) (hs : n < s.size) (hn : s.nodeTile n = none)
    (hc' : Cols (s.assignNode m t n)) : Cnt (s.assignNode m t n) := by
  have h0 := h.clear m w hZ hl hc t
  have w' := w.assign m ht h2 hs hn
  have hl' : LB m (s.assignNode m t n) := by
    intro u hu ⟨k, hk⟩
    rw [assign_tileNode m ht] at hk; split_ifs at hk with e
    · rw [e]; exact hz
    · exact hl u hu ⟨k, hk⟩
  have e : (s.assignNode m t n).tileNode t = some n := by rw [assign_tileNode m ht, if_pos rfl]
  have hb := CT_base (s := s.assignNode m t n) ht (Nat.le_trans hz hZ)
  have cr := crossingsAt_eq m w' hZ hl' ht hz
  have hch : ∀ u, CT (s.clearTile m t) u ↔ CT (s.assignNode m t n) u ∧ u ≠ { t with z := 0 } := by
    intro u
    rw [clear_CT]
    have : CT s u ∧ ¬ (u = t ∨ onTop u = t) ↔ CT (s.assignNode m t n) u ∧ ¬ (u = t ∨ onTop u = t) := by
      simp only [CT, Occ, assign_tileNode m ht]; grind
    rw [this]
    exact and_congr_right (fun hu => not_congr (CT_iff (Nat.le_trans hz hZ) ht hu).symm)
  unfold Cnt
  rw [assign_numCrossings m ht]
  by_cases ho : Occ (s.assignNode m t n) (flip t)
  · have := cols_flip hc' ht (Nat.le_trans hz hZ) e ho
    rw [assign_fnOf m ht] at this
    rw [if_pos this, cr.1 ho]
    refine h0.insert { t with z := 0 } (fun a => ((hch _).1 a).2 rfl) (fun u => ?_)
    rw [hch]
    constructor
    · intro a; by_cases eu : u = { t with z := 0 }
      · exact .inr eu
      · exact .inl ⟨a, eu⟩
    · rintro (a | a)
      · exact a.1
      · rw [a]; exact hb.2 ⟨⟨n, e⟩, ho⟩
  · have : (if s.fnOf n = 2 then (s.clearTile m t).numCrossings + (s.assignNode m t n).crossingsAt m t
        else (s.clearTile m t).numCrossings) = (s.clearTile m t).numCrossings := by rw [cr.2 ho]; simp
    rw [this]
    refine h0.congr (fun u => (hch u).trans ?_)
    constructor
    · exact fun a => a.1
    · exact fun a => ⟨a, fun a' => ho (hb.1 (a' ▸ a)).2⟩

private theorem view_LB {s s' : State} (e : s'.tileNode = s.tileNode) (h : LB m s) : LB m s' := by
  unfold LB Occ at *; rw [e]; exact h
private theorem view_Cols {s s' : State} (e : s'.tileNode = s.tileNode) (f : s'.fnOf = s.fnOf) (h : Cols s) : Cols s' := by
  unfold Cols at *; rw [e, f]; exact h
private theorem view_Cnt {s s' : State} (e : s'.tileNode = s.tileNode) (f : s'.numCrossings = s.numCrossings) (h : Cnt s) :
    Cnt s' := by
  unfold Cnt CT Occ at *; rw [e, f]; exact h

private theorem step_ok (hZ : m.Z ≤ 1) (s : State) (op : Op) (hv : op.Valid s) (ho : op.inLayers m) (w : WF s)
    (hl : LB m s) (hc : Cols s) (h : Cnt s) (hc' : Cols (s.step m op)) : LB m (s.step m op) ∧ Cnt (s.step m op) := by
  have := step_rule_place m (fun s => LB m s ∧ Cols s ∧ Cnt s) (fun s => LB m s ∧ (Cols s → Cnt s))
    (fun s s' v h => ⟨view_LB m v.tileNode h.1, view_Cols v.tileNode v.fnOf h.2.1, view_Cnt v.tileNode v.numCrossings h.2.2⟩)
    (fun s s' v h => ⟨view_LB m v.tileNode h.1, fun k => view_Cnt v.tileNode v.numCrossings
      (h.2 (view_Cols v.tileNode.symm v.fnOf.symm k))⟩)
    (fun s h => ⟨h.1, fun _ => h.2.2⟩) (fun _ _ h => h) (fun _ _ h => h)
    (fun s d w h => ⟨h.1, ?_, h.2.2⟩) (fun s t w h => ⟨h.1.clear m t, h.2.1.clear m t, h.2.2.clear m w hZ h.1 h.2.1 t⟩)
    s op ?_ hv w ⟨hl, hc, h⟩
  · exact ⟨this.1, this.2 hc'⟩
  · intro t n n' a b c d'
    rw [push_fn w d t n c, push_fn w d _ n' d']
    exact h.2.1 t n n' a b c d'
  · intro s t n w ht ho' h2 hs hn h
    refine ⟨?_, fun k => h.2.2.assign m w hZ h.1 h.2.1 ht (ho t ho' ht) h2 hs hn k⟩
    intro u hu ⟨k, hk⟩
    rw [assign_tileNode m ht] at hk; split_ifs at hk with e
    · rw [e]; exact ho t ho' ht
    · exact h.1 u hu ⟨k, hk⟩

private theorem cols_of {s : State} (w : WF s) (h : ColumnsOfWires s) : Cols s := by
  intro t n n' ht hz e e'
  have := h t ht hz ((empty_iff w ht).2 ⟨n, e⟩) ((empty_iff w (t := onTop t) ht).2 ⟨n', e'⟩)
  simpa [State.isWireTile, State.isWire, State.getNode, e, e', State.fnOf] using this

/-- C18 (partial). On a layout with at most one crossing layer, as long as columns with both layers occupied only ever
contain wire segments, the crossing count is the number of ground tiles that host a wire segment below an occupied
crossing tile. Missing from C18: histories that put a gate below or above something, for which the claim is false
(`C18_underflow`). -/
theorem C18_crossings_partial (hZ : m.Z ≤ 1) (ops : List Op) (hv : Valid m init ops) (hl : ∀ op ∈ ops, op.inLayers m)
    (hc : ∀ k, ColumnsOfWires (run m init (ops.take k))) (crossings : Finset Coord) :
    let s := run m init ops
    (∀ t, t ∈ crossings ↔ t.d = false ∧ t.z = 0 ∧ s.isEmptyTile t = false ∧ s.isWireTile t = true ∧
      s.isEmptyTile (onTop t) = false) →
    s.numCrossings = BitVec.ofNat 32 crossings.card := by
  have main : ∀ (ops : List Op) (s : State), WF s → LB m s → Cols s → Cnt s → Valid m s ops → (∀ op ∈ ops, op.inLayers m) →
      (∀ k, ColumnsOfWires (run m s (ops.take k))) → Cnt (run m s ops) := by
    intro ops
    induction ops with
    | nil => intro s _ _ _ h _ _ _; exact h
    | cons op ops ih =>
      intro s w hlb hcs h hv hl hc
      have w' := w.step m op hv.1
      have hc' : Cols (s.step m op) := cols_of w' (hc 1)
      obtain ⟨a, b⟩ := step_ok m hZ s op hv.1 (hl op (by simp)) w hlb hcs h hc'
      exact ih _ w' a hc' b hv.2 (fun o ho => hl o (by simp [ho])) (fun k => hc (k + 1))
  intro s hF
  have w : WF s := WF.init.run m ops hv
  have live : ∀ t n, init.tileNode t = some n → t.d = true := by
    intro t n h; simp only [init] at h; split_ifs at h with h1 h2
    · rw [h1]; rfl
    · rw [h2]; rfl
  have hcols : Cols s := cols_of w (by have := hc ops.length; rwa [List.take_length] at this)
  have h : Cnt s := by
    refine main ops init WF.init ?_ ?_ ?_ hv hl hc
    · rintro t ht ⟨n, h⟩; rw [live t n h] at ht; simp at ht
    · intro t n n' ht _ h; rw [live t n h] at ht; simp at ht
    · refine ⟨∅, fun t => ?_, rfl⟩
      simp only [CT, Finset.notMem_empty, false_iff]
      rintro ⟨ht, _, ⟨n, h⟩, _⟩; rw [live t n h] at ht; simp at ht
  refine h.unique crossings (fun t => (hF t).trans (and_congr_right fun ht => and_congr_right fun hz => ?_))
  rw [empty_iff w ht, empty_iff w (t := onTop t) ht]
  constructor
  · exact fun a => ⟨a.1, a.2.2⟩
  · rintro ⟨⟨n, e⟩, ⟨n', e'⟩⟩
    refine ⟨⟨n, e⟩, ?_, ⟨n', e'⟩⟩
    have := (hcols t n n' ht hz e e').1
    have e2 : s.tileNode t = some n := e
    simpa [State.isWireTile, State.isWire, State.getNode, e2, State.fnOf] using this

/-- C18 (partial): in particular the count is right for all histories that create nothing but primary inputs, primary
outputs and wire segments; the remaining hypotheses of `C18_crossings_partial` hold for all of them. -/
theorem C18_wires_only_partial (ops : List Op) (hv : Valid m init ops)
    (hw : ∀ op ∈ ops, ∀ lit cs t, op = .createGate lit cs t → lit = 2) (k : Nat) :
    ColumnsOfWires (run m init (ops.take k)) := by
  have main : ∀ (ops : List Op) (s : State), WF s → (∀ n, 2 ≤ n → n < s.size → s.fnOf n = 2) → Valid m s ops →
      (∀ op ∈ ops, ∀ lit cs t, op = .createGate lit cs t → lit = 2) →
      WF (run m s ops) ∧ (∀ n, 2 ≤ n → n < (run m s ops).size → (run m s ops).fnOf n = 2) := by
    intro ops
    induction ops with
    | nil => intro s w h _ _; exact ⟨w, h⟩
    | cons op ops ih =>
      intro s w h hv hw
      refine ih _ (w.step m op hv.1) ?_ hv.2 (fun o ho => hw o (by simp [ho]))
      intro n h2 hn
      rw [step_size] at hn
      by_cases hs : n < s.size
      · rw [step_fnOf m s op n hs]; exact h n h2 hs
      · have := hw op (by simp)
        cases op <;> simp [Op.creates] at hn <;> try omega
        all_goals
          have e : n = s.size := by omega
          subst e
          rw [step_fnOf_new m s _ _ rfl]
        exact this _ _ _ rfl
  have take : ∀ (ops : List Op) (s : State) k, Valid m s ops → Valid m s (ops.take k) := by
    intro ops
    induction ops with
    | nil => intro s k h; simpa using h
    | cons op ops ih =>
      intro s k h
      cases k with
      | zero => trivial
      | succ k => exact ⟨h.1, ih _ k h.2⟩
  obtain ⟨w, h⟩ := main (ops.take k) init WF.init (by intro n h1 h2; simp [init] at h2; omega) (take ops init k hv)
    (fun o ho => hw o (List.mem_of_mem_take ho))
  have key : ∀ t : Coord, t.d = false → (run m init (ops.take k)).isEmptyTile t = false →
      (run m init (ops.take k)).isWireTile t = true := by
    intro t ht he
    obtain ⟨n, e⟩ := (empty_iff w ht).1 he
    have := w.live t n e
    rw [ht] at this
    simp only [Bool.false_eq_true, iff_false] at this
    have := h n (by omega) (w.lt t n e)
    simpa [State.isWireTile, State.isWire, State.getNode, e, State.fnOf] using this
  exact fun t ht _ a b => ⟨key t ht a, key _ ht b⟩

/-- Non-vacuity: two wires crossing, one of them moved away, two crossings rebuilt. -/
private def ok : List Op :=
  [.createPi ⟨0, 1, 0, false⟩, .createGate 2 [⟨0, 1, 0, false⟩] ⟨1, 1, 0, false⟩, .createGate 2 [⟨1, 0, 0, false⟩] ⟨1, 1, 1, false⟩,
   .move 4 ⟨0, 1, 1, false⟩ [], .createGate 2 [⟨1, 0, 0, false⟩] ⟨1, 1, 1, false⟩, .clear ⟨1, 1, 0, false⟩]

example : (∀ op ∈ ok, op.inLayers ⟨3, 3, 1⟩) ∧ (run ⟨3, 3, 1⟩ init ok).numCrossings = 1 ∧
    (run ⟨3, 3, 1⟩ init (ok.take 5)).numCrossings = 2 := by
  refine ⟨?_, by decide, by decide⟩
  intro op h
  simp only [ok, List.mem_cons, List.not_mem_nil, or_false] at h
  rcases h with rfl | rfl | rfl | rfl | rfl | rfl <;> (intro t ht _; simp [Op.target] at ht; try subst ht; try simp)

/-- C18 is false of the code: putting a wire on an empty column's crossing layer, a gate below it, and clearing the wire
makes the counter wrap around to 2^32 - 1, on a layout without any crossing. -/
theorem C18_underflow :
    let ops : List Op := [.createGate 2 [] ⟨1, 1, 1, false⟩, .createGate 4 [] ⟨1, 1, 0, false⟩, .clear ⟨1, 1, 1, false⟩]
    Valid ⟨3, 3, 1⟩ init ops ∧ (∀ op ∈ ops, op.inLayers ⟨3, 3, 1⟩) ∧ (run ⟨3, 3, 1⟩ init ops).numCrossings = 0xFFFFFFFF#32 ∧
    (run ⟨3, 3, 1⟩ init ops).numWires = 0 := by
  refine ⟨⟨trivial, trivial, trivial, trivial⟩, ?_, by decide, by decide⟩
  intro op h
  simp only [List.mem_cons, List.not_mem_nil, or_false] at h
  rcases h with rfl | rfl | rfl <;> (intro t ht _; simp [Op.target] at ht; try subst ht; try simp)

end Verif.GateLevel
