import Verif.PhysicalDesign.OrthoPi
import Mathlib.Algebra.Order.Group.Nat

/-!
# The run of the orthogonal physical design
-/
namespace Verif.PhysicalDesign.Ortho

open Verif.Layouts Verif.Clocking Verif.GateLevel Verif.Networks

variable {N : Ntk} {order : List Nat} {tab : Nat → List Bool → Bool} {lit : Nat → Nat}

/-! ## Reserving the inputs -/

theorem createPis (m : Dim) (o : Coord) (ho : o = ⟨0, 0, 0, false⟩) (k : Nat) :
    let s := (List.range k).foldl (fun s _ => s.createPi m o) init
    WF s ∧ s.size = 2 + k ∧ s.inputs = (List.range k).map (2 + ·) ∧ s.outputs = [] ∧
      (∀ c : Coord, c.d = false → s.tileNode c = if c = o ∧ 0 < k then some (1 + k) else none) ∧
      ∀ j, 2 ≤ j → j < 2 + k → s.fnOf j = 2 := by
  induction k with
  | zero =>
    refine ⟨WF.init, rfl, rfl, rfl, ?_, fun j h1 h2 => by omega⟩
    intro c hc
    simp only [List.range_zero, List.foldl_nil, Nat.lt_irrefl, and_false, if_false]
    cases e : init.tileNode c with
    | none => rfl
    | some n =>
      have h1 := WF.init.lt c n e
      have h2 := (WF.init.live c n e).1 (by simp [init] at h1; omega)
      rw [hc] at h2; cases h2
  | succ k ih =>
    simp only [List.range_succ, List.foldl_append, List.foldl_cons, List.foldl_nil] at ih ⊢
    obtain ⟨w, hs, hi, hout, ht, hf⟩ := ih
    generalize (List.range k).foldl (fun s _ => s.createPi m o) init = s at w hs hi hout ht hf
    have hod : o.d = false := by rw [ho]
    refine ⟨w.step m (.createPi o) trivial, ?_, ?_, ?_, ?_, ?_⟩
    · unfold State.createPi
      simp only
      rw [assign_size m hod]
      simp [State.push, hs]; omega
    · unfold State.createPi
      simp only
      rw [assign_inputs m hod]
      simp [State.push, hs, hi]
    · unfold State.createPi
      simp only
      rw [assign_outputs m hod]
      cases e : ({ (s.push { fn := 2 }) with inputs := (s.push { fn := 2 }).inputs ++ [s.size] } : State).tileNode o with
      | none => rw [clear_none m e]; simp [State.push, hout]
      | some n => rw [clear_outputs m e]; simp [State.push, hout, eraseFirst]
    · intro c hc
      unfold State.createPi
      simp only
      rw [assign_tileNode m hod]
      by_cases hco : c = o
      · rw [if_pos hco, if_pos ⟨hco, by omega⟩, hs]
        congr 1
        omega
      · rw [if_neg hco, if_neg (by tauto)]
        show s.tileNode c = none
        rw [ht c hc, if_neg (by tauto)]
    · intro j h2 hj
      unfold State.createPi
      simp only
      rw [assign_fnOf m hod]
      show (if j = s.size then _ else s.nodes j : GateLevel.Node).fn = 2
      split_ifs with e
      · rfl
      · exact hf j h2 (by omega)

theorem reserve_spec (m : Dim) {k : Nat} (hk : 0 < k) :
    WF (reserve m k init) ∧ (reserve m k init).size = 2 + k ∧ (reserve m k init).inputs = (List.range k).map (2 + ·) ∧
      (reserve m k init).outputs = [] ∧ (∀ c : Coord, c.d = false → (reserve m k init).tileNode c = none) ∧
      ∀ j, 2 ≤ j → j < 2 + k → ((reserve m k init).nodes j).fn = 2 := by
  obtain ⟨w, hs, hi, hout, ht, hf⟩ := createPis m ⟨0, 0, 0, false⟩ rfl k
  unfold reserve
  simp only at hs hi hout ht hf w ⊢
  generalize (List.range k).foldl (fun s _ => s.createPi m ⟨0, 0, 0, false⟩) init = s at w hs hi hout ht hf
  have htn : s.tileNode ⟨0, 0, 0, false⟩ = some (1 + k) := by rw [ht _ rfl, if_pos ⟨rfl, hk⟩]
  have hg : s.getNode ⟨0, 0, 0, false⟩ = 1 + k := by simp [State.getNode, htn]
  rw [hg]
  have hold : s.getTile (1 + k) = ⟨0, 0, 0, false⟩ := by simp [State.getTile, (w.inv _ _).1 htn]
  have hwf : WF (s.moveNode m (1 + k) const0 []) := w.step m (.move (1 + k) const0 []) ⟨by omega, by omega⟩
  have hs1 := SameView.unrefs (s.nodes (1 + k)).children s
  let s2 : State := ((s.nodes (1 + k)).children.foldl State.unref s).modNode (1 + k) (fun d => { d with children := [] })
  have e2 : SameView s s2 := hs1.trans (.mod _ _ _ (fun _ => rfl))
  have hunf : s.moveNode m (1 + k) const0 [] =
      ((s2.clearTile m ⟨0, 0, 0, false⟩).revive (1 + k)).modNode (1 + k) (fun d => { d with children := [] }) := by
    unfold State.moveNode
    have hd : const0.d = true := rfl
    simp only [hold, if_neg (show const0 ≠ ⟨0, 0, 0, false⟩ by decide), hd, if_true, List.foldl_nil, assign_dead m hd]
    rfl
  have hr := SameView.revive (s2.clearTile m ⟨0, 0, 0, false⟩) (1 + k)
  have hm := SameView.mod ((s2.clearTile m ⟨0, 0, 0, false⟩).revive (1 + k)) (1 + k) (fun d => { d with children := [] }) (fun _ => rfl)
  refine ⟨hwf, ?_, ?_, ?_, ?_, ?_⟩
  · rw [hunf, hm.size, hr.size, clear_size, e2.size, hs]
  · rw [hunf, hm.inputs, hr.inputs, clear_inputs, e2.inputs, hi]
  · rw [hunf, hm.outputs, hr.outputs]
    have h2 : s2.outputs = [] := by rw [e2.outputs, hout]
    rw [clear_outputs m (n := 1 + k) (by rw [e2.tileNode, htn]), h2]
    simp [eraseFirst]
  · intro c hc
    rw [hunf, hm.tileNode, hr.tileNode, clear_tileNode, e2.tileNode]
    split_ifs with hco
    · rfl
    · rw [ht c hc, if_neg (by tauto)]
  · intro j h2 hj
    rw [← fnOf_def, hunf, hm.fnOf, hr.fnOf, clear_fnOf, e2.fnOf]
    exact hf j h2 hj

/-! ## The size -/

/-- The columns and rows a node takes, and the additional column for an output. -/
def nodeX (N : Ntk) (col : Nat → Color) (n : Nat) : Nat := if (N.node n).isPi then piX N col n else gateX (col n)
def nodeY (N : Ntk) (col : Nat → Color) (n : Nat) : Nat := if (N.node n).isPi then 0 else gateY (col n)
def nodeO (N : Ntk) (n : Nat) : Nat := if n ∈ N.pos then 1 else 0

theorem east_of_po (ok : Ok N order lit tab) (col : Nat → Color) {n : Nat} (h : n ∈ N.pos) : eastAvailable N col n = true := by
  unfold eastAvailable
  rw [ok.poFan n h]

theorem multi_nil : ∀ (seen l : List Nat), l.Nodup → (∀ p ∈ l, p ∉ seen) → multiOutputs seen l = []
  | _, [], _, _ => rfl
  | seen, p :: l, hn, h => by
    unfold multiOutputs
    rw [if_neg (h p (by simp))]
    rw [List.nodup_cons] at hn
    refine multi_nil _ l hn.2 ?_
    intro q hq
    rw [List.mem_append, List.mem_singleton, not_or]
    exact ⟨h q (by simp [hq]), fun e => hn.1 (e ▸ hq)⟩

theorem sizeStep_eq (ok : Ok N order lit tab) (col : Nat → Color) (p : Nat × Nat) (n : Nat) :
    sizeStep N col p n = (p.1 + (nodeX N col n + nodeO N n), p.2 + nodeY N col n) := by
  have h := @east_of_po N order tab lit ok col n
  unfold sizeStep nodeX nodeY nodeO piX gateX gateY
  by_cases h1 : (N.node n).isPi = true <;> by_cases h2 : n ∈ N.pos
  · simp only [h1, h2, if_true, h h2, Nat.add_zero]
    rw [Nat.add_assoc]
  · simp only [h1, h2, if_true, if_false, Nat.add_zero]
  · simp only [h1, h2, if_true, h h2]
    cases col n <;> simp
  · simp only [h1, h2, if_false]
    cases col n <;> simp

theorem size_fold (ok : Ok N order lit tab) (col : Nat → Color) : ∀ (l : List Nat) (p : Nat × Nat),
    l.foldl (sizeStep N col) p = (p.1 + ((l.map (nodeX N col)).sum + (l.map (nodeO N)).sum), p.2 + (l.map (nodeY N col)).sum)
  | [], p => by simp
  | n :: l, p => by
    rw [List.foldl_cons, size_fold ok col l, sizeStep_eq ok]
    simp only [List.map_cons, List.sum_cons, Prod.mk.injEq]
    omega

theorem layoutSize_eq (ok : Ok N order lit tab) (col : Nat → Color) :
    layoutSize N order col = ⟨((N.pis ++ order).map (nodeX N col)).sum + ((N.pis ++ order).map (nodeO N)).sum,
      N.pis.length - 1 + ((N.pis ++ order).map (nodeY N col)).sum, 1⟩ := by
  unfold layoutSize
  rw [multi_nil [] N.pos ok.poNodup (by simp), size_fold ok]
  simp

/-! ## The main loop -/

theorem stepNode_eq (ok : Ok N order lit tab) (m : Dim) (col : Nat → Color) (st : Loop) (n : Nat) :
    stepNode m N col lit st n = if (N.node n).isPi then some (stepPi m N col st n)
      else match (N.node n).fanins with
      | [f] => stepOne m col lit st n f
      | f :: g :: _ => some (stepTwo m col lit st n f g)
      | [] => none := by
  have hno : ¬ (n ∈ N.pos ∧ (eastAvailable N col n = false ∨ n ∈ multiOutputs [] N.pos)) := by
    rintro ⟨h, h1 | h1⟩
    · rw [east_of_po ok col h] at h1; cases h1
    · rw [multi_nil [] N.pos ok.poNodup (by simp)] at h1; cases h1
  unfold stepNode
  simp only [if_neg hno]
  exact Option.map_id'

theorem init_inv (m : Dim) (hk : 0 < N.pis.length) :
    Inv N order tab (fun _ _ => .none) [] ⟨reserve m N.pis.length init, fun _ => const0, 1, 0⟩ := by
  obtain ⟨w, hs, hi, ho, ht, hf⟩ := reserve_spec m hk
  refine ⟨⟨w, Nat.le_of_eq hs.symm, ?_, ?_, ?_, ?_, hf⟩, hi, ho, Nat.one_pos, ?_, ?_, ?_, ?_, ?_, ?_, ?_, ?_, ?_, ?_, ?_⟩
  · intro x y; simp [ht]
  · intro x y _; exact ht _ rfl
  · intro t h _; exact ht t h
  · intro t n h hn; rw [ht t h] at hn; cases hn
  · intro x y h; exact absurd rfl h
  all_goals try (intro n hn; cases hn; done)
  · intro j _ hj t he
    have htd : t.d = false := by
      cases hd : t.d with
      | false => rfl
      | true =>
        have := (w.live t _ he).2 hd
        omega
    rw [ht t htd] at he
    cases he

theorem pis_loop (ok : Ok N order lit tab) {m : Dim} (hZ : m.Z = 1) : ∀ (r l : List Nat) (G : Grid) (st : Loop), N.pis = l ++ r →
    Inv N order tab G l st → st.ly = l.length →
    ∃ st' G', r.foldlM (stepNode m N (coloring N order).2 lit) st = some st' ∧ Inv N order tab G' N.pis st' ∧
      st'.ly = N.pis.length ∧ st'.lx = st.lx + (r.map (nodeX N (coloring N order).2)).sum
  | [], l, G, st, hl, h, hy => by
    rw [List.append_nil] at hl
    subst hl
    exact ⟨st, G, rfl, h, hy, by simp⟩
  | n :: r, l, G, st, hl, h, hy => by
    obtain ⟨G1, i1, x1, y1⟩ := pi_step (lit := lit) ok hZ hl h hy
    have hpi := (mem_pis (N := N) (n := n) (by rw [hl]; simp)).2
    obtain ⟨st', G', hf, i2, y2, x2⟩ := pis_loop ok hZ r (l ++ [n]) G1 _ (by rw [hl]; simp) i1 (by rw [y1, hy]; simp)
    refine ⟨st', G', ?_, i2, y2, ?_⟩
    · rw [List.foldlM_cons, stepNode_eq ok, if_pos hpi]
      exact hf
    · rw [x2, x1, List.map_cons, List.sum_cons]
      have : nodeX N (coloring N order).2 n = piX N (coloring N order).2 n := by unfold nodeX; rw [if_pos hpi]
      omega

theorem not_pi (ok : Ok N order lit tab) {n : Nat} (h : n ∈ order) : (N.node n).isPi = false := by
  have h2 := (ok.topo.gates n h).2
  cases e : N.node n <;> rw [e] at h2 <;> simp [Node.isPi, Node.isGate] at h2 ⊢

theorem gates_loop (ok : Ok N order lit tab) {m : Dim} (hZ : m.Z = 1) : ∀ (r l : List Nat) (G : Grid) (st : Loop), order = l ++ r →
    Inv N order tab G (N.pis ++ l) st → st.lx + (r.map (nodeX N (coloring N order).2)).sum ≤ m.X + 1 →
    st.ly + (r.map (nodeY N (coloring N order).2)).sum ≤ m.Y + 1 →
    ∃ st' G', r.foldlM (stepNode m N (coloring N order).2 lit) st = some st' ∧ Inv N order tab G' (N.pis ++ order) st' ∧
      st'.lx = st.lx + (r.map (nodeX N (coloring N order).2)).sum ∧ st'.ly = st.ly + (r.map (nodeY N (coloring N order).2)).sum
  | [], l, G, st, hl, h, _, _ => by
    rw [List.append_nil] at hl
    subst hl
    exact ⟨st, G, rfl, h, by simp, by simp⟩
  | n :: r, l, G, st, hl, h, hx, hy => by
    rw [List.map_cons, List.sum_cons] at hx hy
    have hpi := not_pi ok (n := n) (by rw [hl]; simp)
    have ex : nodeX N (coloring N order).2 n = gateX ((coloring N order).2 n) := by unfold nodeX; rw [hpi]; rfl
    have ey : nodeY N (coloring N order).2 n = gateY ((coloring N order).2 n) := by unfold nodeY; rw [hpi]; rfl
    obtain ⟨st1, G1, e1, i1, x1, y1⟩ := gate_step ok hZ hl h (by omega) (by omega)
    rw [List.append_assoc] at i1
    obtain ⟨st', G', hf, i2, x2, y2⟩ := gates_loop ok hZ r (l ++ [n]) G1 st1 (by rw [hl]; simp) i1 (by omega) (by omega)
    refine ⟨st', G', ?_, i2, ?_, ?_⟩
    · have e : stepNode m N (coloring N order).2 lit st n = some st1 := by
        rw [stepNode_eq ok, if_neg (by simp [hpi])]
        exact e1
      rw [List.foldlM_cons, e]
      exact hf
    · rw [x2, x1, List.map_cons, List.sum_cons]; omega
    · rw [y2, y1, List.map_cons, List.sum_cons]; omega

/-! ## The outputs -/

/-- Before the outputs `ps` are placed. -/
structure OInv (N : Ntk) (tab : Nat → List Bool → Bool) (m : Dim) (pos : Nat → Coord) (G : Grid) (done ps : List Nat) (s : State) : Prop where
  rep : Rep N.pis.length G s
  inputs : s.inputs = (List.range N.pis.length).map (2 + ·)
  outputs : s.outputs = done.map (fun p => ⟨m.X, (pos p).y, 0, false⟩)
  bounds : ∀ x y, G x y ≠ .none → x ≤ m.X ∧ y ≤ m.Y
  piTile : ∀ j, j < N.pis.length → s.tileNode ⟨0, j, 0, false⟩ = some (2 + j)
  val : ∀ p ∈ done, ∀ a, SVal tab N.pis.length s a ⟨m.X, (pos p).y, 0, false⟩ (N.value a p)
  todo : ∀ p ∈ ps, (pos p).z = 0 ∧ (pos p).d = false ∧ (pos p).x < m.X ∧ (pos p).y ≤ m.Y ∧ EastClaim G (pos p) ∧ G m.X (pos p).y = .none ∧
    ∀ a, SVal tab N.pis.length s a (pos p) (N.value a p)
  occ : ∀ p ∈ ps, s.tileNode (pos p) ≠ none
  edgeX : ∀ y, G m.X y ≠ .X
  edge : ∀ y, G m.X y ≠ .none → ∃ p ∈ done, (pos p).y = y
  po : ∀ p ∈ done, ∃ n c, s.tileNode ⟨m.X, (pos p).y, 0, false⟩ = some n ∧ 2 + N.pis.length ≤ n ∧ (s.nodes n).fn = 2 ∧
    (s.nodes n).children = [c] ∧ c.x < m.X

theorem out_loop (ok : Ok N order lit tab) {m : Dim} (hZ : m.Z = 1) (col : Nat → Color) {pos : Nat → Coord}
    (hrows : ∀ p ∈ N.pos, ∀ q ∈ N.pos, p ≠ q → (pos p).y ≠ (pos q).y) : ∀ (ps done : List Nat) (G : Grid) (s : State), N.pos = done ++ ps →
    OInv N tab m pos G done ps s →
    ∃ G', OInv N tab m pos G' N.pos [] (ps.foldl (placeOutput m N col pos) (s, done)).1
  | [], done, G, s, hd, h => by
    rw [List.append_nil] at hd
    subst hd
    exact ⟨G, h⟩
  | p :: ps, done, G, s, hd, h => by
    have hp : p ∈ N.pos := by rw [hd]; simp
    have hnd := ok.poNodup
    rw [hd, List.nodup_append] at hnd
    have hpd : p ∉ done := fun hh => hnd.2.2 p hh p (by simp) rfl
    have hpp : p ∉ ps := by have := hnd.2.1; rw [List.nodup_cons] at this; exact this.1
    obtain ⟨tz, td, tx, ty, tE, tN, tV⟩ := h.todo p (by simp)
    obtain ⟨w, -, z, hz, e, -⟩ := wireEast_spec hZ ok.wire h.rep td (h.occ p (by simp)) (by omega) tx (fun x h1 _ => tE x h1)
    have hstep : placeOutput m N col pos (s, done) p =
        ((wireEast m s (pos p) m.X).1.createPo m (wireEast m s (pos p) m.X).2 ⟨m.X, (pos p).y, 0, false⟩, done ++ [p]) := by
      unfold placeOutput
      have hm : ¬ (eastAvailable N col p = false ∨ decide (p ∈ done) = true) := by
        rw [east_of_po ok col hp]; simp [hpd]
      simp only [if_neg hm]
      by_cases hb : (pos p).x + 1 = m.X
      · have h1 : (Cart.isAtEasternBorder m { pos p with x := (pos p).x + 1 } && !decide (p ∈ done)) = true := by
          simp [Cart.isAtEasternBorder, hb, hpd]
        rw [if_pos h1]
        have h2 : wireEast m s (pos p) m.X = (s, pos p) := by
          unfold wireEast
          rw [← hb, Nat.sub_self]
          rfl
        rw [h2, hb]
        simp only [tz, td]
      · have h1 : ¬ (Cart.isAtEasternBorder m { pos p with x := (pos p).x + 1 } && !decide (p ∈ done)) = true := by
          simp [Cart.isAtEasternBorder, hb]
        rw [if_neg h1]
        simp only [tz, td]
    rw [List.foldl_cons, hstep]
    have hG : hrow G (pos p).y ((pos p).x + 1) m.X m.X (pos p).y = .none := by
      simp only [hrow]; grind
    have he := (w.rep.z0 _ _).1 hG
    obtain ⟨q, q2, q3⟩ := createPo_placed m w.rep.wf (wireEast m s (pos p) m.X).2 (t := ⟨m.X, (pos p).y, 0, false⟩) rfl he
    have hqe := q.ext he w.rep.fresh_size
    have hext := w.ext.trans hqe
    refine out_loop ok hZ col hrows ps (done ++ [p]) (fun x' y' => if x' = m.X ∧ y' = (pos p).y then .H else hrow G (pos p).y ((pos p).x + 1) m.X x' y') _
      (by rw [hd]; simp) ?_
    have h2 : Nbr (wireEast m s (pos p) m.X).2 ⟨m.X, (pos p).y, 0, false⟩ := by
      rw [e]
      exact ⟨rfl, hz, .inl ⟨by simp only; omega, rfl⟩⟩
    refine ⟨w.rep.put q (by omega) .H (by simp) hG (.inr ⟨w.rep.size, w.rep.fresh_size, by simpa using ⟨h2, w.occ⟩, .inl ⟨rfl, .inl rfl⟩⟩),
      by rw [q.inputs, w.inputs, h.inputs], by rw [q3, w.outputs, h.outputs]; simp, ?_, ?_, ?_, ?_, ?_, ?_, ?_, ?_⟩
    · intro x y hh
      have := h.bounds x y
      simp only [hrow] at hh
      grind
    · intro j hj
      exact (hext _ _ rfl (h.piTile j hj)).1
    · intro k hk a
      rcases List.mem_append.1 hk with hk | hk
      · exact (h.val k hk a).mono hext
      · rw [List.mem_singleton] at hk
        subst hk
        have h1 := (w.val a _ (tV a)).mono hqe
        have := SVal.one _ _ _ _ rfl (by rw [q.tile _ rfl, if_pos rfl]) w.rep.size q.children h2 h1
        rwa [q.fn, ok.wire] at this
    · intro k hk
      have hkp : k ≠ p := fun e => hpp (e ▸ hk)
      obtain ⟨kz, kd, kx, ky, kE, kN, kV⟩ := h.todo k (by simp [hk])
      have hr := hrows k (by rw [hd]; simp [hk]) p hp hkp
      refine ⟨kz, kd, kx, ky, ?_, ?_, fun a => (kV a).mono hext⟩
      · intro x hx
        have := kE x hx
        simp only [hrow]; grind
      · simp only [hrow]; grind
    · intro k hk
      exact hext.occ (h.todo k (by simp [hk])).2.1 (h.occ k (by simp [hk]))
    · intro y
      have := h.edgeX y
      simp only [hrow]; grind
    · intro y hy
      simp only [hrow] at hy
      by_cases e : y = (pos p).y
      · exact ⟨p, by simp, e.symm⟩
      · obtain ⟨k, hk, hk'⟩ := h.edge y (by grind)
        exact ⟨k, by simp [hk], hk'⟩
    · intro k hk
      rcases List.mem_append.1 hk with hk | hk
      · obtain ⟨n, c, h1, h2, h3, h4, h5⟩ := h.po k hk
        obtain ⟨e1, e2, e3⟩ := hext _ _ rfl h1
        exact ⟨n, c, e1, h2, by rw [e2, h3], by rw [e3, h4], h5⟩
      · rw [List.mem_singleton] at hk
        subst hk
        exact ⟨_, _, by rw [q.tile _ rfl, if_pos rfl], w.rep.size, q.fn, q.children, by rw [e]; simp only; omega⟩

/-! ## The run -/

theorem pis_pos (ok : Ok N order lit tab) (hpos : N.pos ≠ []) : 0 < N.pis.length := by
  have key : ∀ f, f < N.size → (N.node f).isPi = true → 0 < N.pis.length := by
    intro f h1 h2
    apply List.length_pos_of_mem (a := f)
    unfold Ntk.pis
    rw [List.mem_filter, List.mem_range]
    exact ⟨h1, h2⟩
  obtain ⟨p, hp⟩ := List.exists_mem_of_ne_nil _ hpos
  by_cases hpi : (N.node p).isPi = true
  · exact key p (ok.poLt p hp) hpi
  · have hc := ok.poConst p hp
    have hg : (N.node p).isGate = true := by
      cases e : N.node p <;> rw [e] at hpi hc <;> simp_all [Node.isPi, Node.isGate, Node.isConst]
    have := ok.topo.pos p hp hg
    match ho : order with
    | [] => cases this
    | g :: r =>
      have hgm : g ∈ g :: r := by simp
      obtain ⟨f, hf⟩ := List.exists_mem_of_ne_nil _ (ok.nonempty g hgm)
      have h1 := ok.noConst g hgm f hf
      have h2 := ok.fan g (ok.topo.gates g hgm).1 f hf
      have h3 : (N.node f).isGate = false := by
        cases e : (N.node f).isGate with
        | false => rfl
        | true => exact absurd (ok.topo.fanins [] g r rfl f hf e) (by simp)
      refine key f (by have := (ok.topo.gates g hgm).1; omega) ?_
      cases e : N.node f <;> rw [e] at h1 h3 <;> simp_all [Node.isPi, Node.isGate, Node.isConst]

theorem run_ok (ok : Ok N order lit tab) (hpos : N.pos ≠ []) :
    ∃ m s G pos, run N order lit = some (m, s) ∧ m.Z = 1 ∧ OInv N tab m pos G N.pos [] s ∧
      ∀ p ∈ N.pos, ∀ q ∈ N.pos, p ≠ q → (pos p).y ≠ (pos q).y := by
  have hk := pis_pos ok hpos
  let col := (coloring N order).2
  let m := layoutSize N order col
  have hm : m = _ := layoutSize_eq ok col
  have hZ : m.Z = 1 := by rw [hm]
  have hX : m.X = ((N.pis ++ order).map (nodeX N col)).sum + ((N.pis ++ order).map (nodeO N)).sum := by rw [hm]
  have hY : m.Y = N.pis.length - 1 + ((N.pis ++ order).map (nodeY N col)).sum := by rw [hm]
  have hmem : ∀ p ∈ N.pos, p ∈ N.pis ++ order := by
    intro p hp
    rw [List.mem_append]
    by_cases hpi : (N.node p).isPi = true
    · left
      unfold Ntk.pis
      rw [List.mem_filter, List.mem_range]
      exact ⟨ok.poLt p hp, hpi⟩
    · right
      have hc := ok.poConst p hp
      refine ok.topo.pos p hp ?_
      cases e : N.node p <;> rw [e] at hpi hc <;> simp_all [Node.isPi, Node.isGate, Node.isConst]
  have hO : 1 ≤ ((N.pis ++ order).map (nodeO N)).sum := by
    obtain ⟨p, hp⟩ := List.exists_mem_of_ne_nil _ hpos
    have h1 : nodeO N p = 1 := by unfold nodeO; rw [if_pos hp]
    have := List.single_le_sum (l := (N.pis ++ order).map (nodeO N)) (fun _ _ => Nat.zero_le _) (nodeO N p) (List.mem_map_of_mem (hmem p hp))
    omega
  have hY0 : (N.pis.map (nodeY N col)).sum = 0 := by
    rw [List.sum_eq_zero_iff]
    intro x hx
    obtain ⟨n, hn, rfl⟩ := List.mem_map.1 hx
    unfold nodeY
    rw [if_pos (mem_pis hn).2]
  rw [List.map_append, List.sum_append] at hX hY
  obtain ⟨st1, G1, f1, i1, y1, x1⟩ := pis_loop ok hZ N.pis [] _ _ rfl (init_inv m hk) rfl
  obtain ⟨st2, G2, f2, i2, x2, y2⟩ := gates_loop ok hZ order [] G1 st1 rfl (by rw [List.append_nil]; exact i1)
    (by show _ + (order.map (nodeX N col)).sum ≤ _
        have : st1.lx = 1 + (N.pis.map (nodeX N col)).sum := x1
        omega)
    (by show _ + (order.map (nodeY N col)).sum ≤ _
        omega)
  have hlx : st2.lx ≤ m.X := by
    have e1 : st1.lx = 1 + (N.pis.map (nodeX N col)).sum := x1
    have e2 : st2.lx = st1.lx + (order.map (nodeX N col)).sum := x2
    omega
  have hly : st2.ly ≤ m.Y + 1 := by
    have e2 : st2.ly = st1.ly + (order.map (nodeY N col)).sum := y2
    omega
  have hclaim : ∀ p ∈ N.pos, EastClaim G2 (st2.pos p) := fun p hp => i2.leaf p (hmem p hp) (ok.poFan p hp)
  have hrows : ∀ p ∈ N.pos, ∀ q ∈ N.pos, p ≠ q → (st2.pos p).y ≠ (st2.pos q).y := by
    intro p hp q hq hpq hy
    exact hpq (i2.inj p (hmem p hp) q (hmem q hq)
      (east_unique i2.hP (Inv.mem (hmem p hp)) (Inv.mem (hmem q hq)) (hclaim p hp) (hclaim q hq) hy))
  obtain ⟨G', hG'⟩ := out_loop ok hZ col (pos := st2.pos) hrows N.pos [] G2 st2.lyt rfl (by
    refine ⟨i2.rep, i2.inputs, i2.outputs, ?_, ?_, by simp, ?_, ?_, ?_, ?_, by simp⟩
    · intro x y h
      have := i2.front x y h
      omega
    · intro j hj
      exact i2.piTile j (by rw [List.length_append]; omega) hj
    · intro p hp
      obtain ⟨h1, h2, h3⟩ := i2.X p (hmem p hp)
      have h4 := i2.front _ _ (show G2 (st2.pos p).x (st2.pos p).y ≠ .none by rw [h1]; simp)
      refine ⟨h2, h3, by omega, by omega, hclaim p hp, ?_, i2.val p (hmem p hp)⟩
      by_contra hh
      have := (i2.front _ _ hh).1
      omega
    · intro p hp
      obtain ⟨h1, h2, h3⟩ := i2.X p (hmem p hp)
      exact i2.rep.occ (by rw [h1]; simp) h2 h3
    · intro y hh
      have := (i2.front m.X y (by rw [hh]; simp)).1
      omega
    · intro y hh
      have := (i2.front _ _ hh).1
      omega)
  refine ⟨m, _, G', st2.pos, ?_, hZ, hG', hrows⟩
  unfold run
  simp only
  rw [List.foldlM_append]
  have f1' : List.foldlM (stepNode (layoutSize N order (coloring N order).2) N (coloring N order).2 lit) _ N.pis = some st1 := f1
  have f2' : List.foldlM (stepNode (layoutSize N order (coloring N order).2) N (coloring N order).2 lit) st1 order = some st2 := f2
  rw [f1']
  simp only [Option.bind_eq_bind, Option.bind_some]
  rw [f2']
  rfl

end Verif.PhysicalDesign.Ortho
