import Verif.PhysicalDesign.HexaGeo
import Verif.PhysicalDesign.HexaSpec

/-!
# The loops of hexagonalization
-/
namespace Verif.PhysicalDesign.Hexa

open Verif.Layouts Verif.Clocking Verif.GateLevel Verif.PhysicalDesign.Ortho

/-! ## Layouts of the same shape -/

/-- `f` maps the layout `s` to the layout `s'`. -/
structure Iso (m : Dim) (tp : Topo) (cs : Scheme) (s : State) (m' : Dim) (tp' : Topo) (cs' : Scheme) (s' : State) (f : Coord → Coord) : Prop where
  two : ∀ t n n', t.d = false → s.tileNode t = some n → s'.tileNode (f t) = some n' → 2 ≤ n ∧ 2 ≤ n'
  fn : ∀ t n n', t.d = false → s.tileNode t = some n → s'.tileNode (f t) = some n' → (s'.nodes n').fn = (s.nodes n).fn
  input : ∀ t n n', t.d = false → s.tileNode t = some n → s'.tileNode (f t) = some n' → ∀ i : Nat, s.inputs[i]? = some n ↔ s'.inputs[i]? = some n'
  fanins : ∀ t n n', t.d = false → s.tileNode t = some n → s'.tileNode (f t) = some n' → n ∉ s.inputs →
    s'.fanins m' tp' cs' true n' = (s.fanins m tp cs true n).map f
  occupied : ∀ t n, t.d = false → s.tileNode t = some n → n ∉ s.inputs → ∀ c ∈ s.fanins m tp cs true n,
    c.d = false ∧ (∃ k, s.tileNode c = some k) ∧ ∃ k, s'.tileNode (f c) = some k

theorem getNode_of {s : State} {t : Coord} {n : Nat} (h : s.tileNode t = some n) : s.getNode t = n := by simp [State.getNode, h]

section
variable {m : Dim} {tp : Topo} {cs : Scheme} {s : State} {m' : Dim} {tp' : Topo} {cs' : Scheme} {s' : State} {f : Coord → Coord}
  (h : Iso m tp cs s m' tp' cs' s' f)
include h

theorem Iso.mem {t : Coord} {n n' : Nat} (ht : t.d = false) (h1 : s.tileNode t = some n) (h2 : s'.tileNode (f t) = some n') :
    n ∈ s.inputs ↔ n' ∈ s'.inputs := by
  rw [List.mem_iff_getElem?, List.mem_iff_getElem?]
  exact exists_congr (h.input t n n' ht h1 h2)

theorem Iso.val {tab : Nat → List Bool → Bool} {a : Nat → Bool} {n : Nat} {b : Bool} (hv : Val tab m tp cs s a n b) :
    ∀ t n', t.d = false → s.tileNode t = some n → s'.tileNode (f t) = some n' → Val tab m' tp' cs' s' a n' b := by
  induction hv with
  | input k n hk =>
    intro t n' ht h1 h2
    exact .input k n' ((h.input t n n' ht h1 h2 k).1 hk)
  | gate n bs h2 hi hl hv ih =>
    intro t n' ht e1 e2
    have hf := h.fanins t n n' ht e1 e2 hi
    rw [← h.fn t n n' ht e1 e2]
    refine .gate n' bs (h.two t n n' ht e1 e2).2 (fun hc => hi ((h.mem ht e1 e2).2 hc)) (by rw [hf, List.length_map]; exact hl) ?_
    intro i hlt
    have hlt' : i < (s.fanins m tp cs true n).length := by rw [← hl]; exact hlt
    have hc := h.occupied t n ht e1 hi (s.fanins m tp cs true n)[i] (List.getElem_mem _)
    obtain ⟨hd, ⟨k, hk⟩, k', hk'⟩ := hc
    have := ih i hlt (s.fanins m tp cs true n)[i] k' hd
    rw [List.getD_eq_getElem?_getD, List.getElem?_eq_getElem hlt', Option.getD_some] at this
    rw [hf, List.getD_eq_getElem?_getD, List.getElem?_map, List.getElem?_eq_getElem hlt', Option.map_some, Option.getD_some, getNode_of hk']
    exact this (by rw [getNode_of hk]; exact hk) hk'

theorem Iso.val' {tab : Nat → List Bool → Bool} {a : Nat → Bool} {n' : Nat} {b : Bool} (hv : Val tab m' tp' cs' s' a n' b) :
    ∀ t n, t.d = false → s.tileNode t = some n → s'.tileNode (f t) = some n' → Val tab m tp cs s a n b := by
  induction hv with
  | input k n' hk =>
    intro t n ht h1 h2
    exact .input k n ((h.input t n n' ht h1 h2 k).2 hk)
  | gate n' bs h2 hi hl hv ih =>
    intro t n ht e1 e2
    have hi' : n ∉ s.inputs := fun hc => hi ((h.mem ht e1 e2).1 hc)
    have hf := h.fanins t n n' ht e1 e2 hi'
    rw [h.fn t n n' ht e1 e2]
    rw [hf, List.length_map] at hl
    refine .gate n bs (h.two t n n' ht e1 e2).1 hi' hl ?_
    intro i hlt
    have hlt' : i < (s.fanins m tp cs true n).length := by rw [← hl]; exact hlt
    have hc := h.occupied t n ht e1 hi' (s.fanins m tp cs true n)[i] (List.getElem_mem _)
    obtain ⟨hd, ⟨k, hk⟩, k', hk'⟩ := hc
    have := ih i hlt (s.fanins m tp cs true n)[i] k hd hk
    rw [hf, List.getD_eq_getElem?_getD, List.getElem?_map, List.getElem?_eq_getElem hlt', Option.map_some, Option.getD_some, getNode_of hk'] at this
    rw [List.getD_eq_getElem?_getD, List.getElem?_eq_getElem hlt', Option.getD_some, getNode_of hk]
    exact this hk'

end

/-! ## Creating inputs -/

theorem createPi_placed (m : Dim) {s : State} (w : WF s) {t : Coord} (ht : t.d = false) (he : s.tileNode t = none) :
    WF (s.createPi m t) ∧ (∀ k : Coord, k.d = false → (s.createPi m t).tileNode k = if k = t then some s.size else s.tileNode k) ∧
      (∀ k, k ≠ s.size → ((s.createPi m t).nodes k).fn = (s.nodes k).fn ∧ ((s.createPi m t).nodes k).children = (s.nodes k).children) ∧
      ((s.createPi m t).nodes s.size).fn = 2 ∧ ((s.createPi m t).nodes s.size).children = [] ∧
      (s.createPi m t).inputs = s.inputs ++ [s.size] ∧ (s.createPi m t).size = s.size + 1 ∧ (s.createPi m t).outputs = s.outputs := by
  have hnone : ({ (s.push { fn := 2 }) with inputs := (s.push { fn := 2 }).inputs ++ [s.size] } : State).tileNode t = none := he
  have hc := clear_none m hnone
  have hwf : WF (s.createPi m t) := w.step m (.createPi t) trivial
  refine ⟨hwf, ?_, ?_, ?_, ?_, ?_, ?_, ?_⟩
  · intro k hk
    unfold State.createPi
    simp only
    rw [assign_tileNode m ht]
    rfl
  · intro k hk
    unfold State.createPi
    simp only
    rw [assign_nodes m ht, hc]
    simp [State.push, hk]
  · unfold State.createPi
    simp only
    rw [assign_nodes m ht, hc]
    simp [State.push]
  · unfold State.createPi
    simp only
    rw [assign_nodes m ht, hc]
    simp [State.push]
  · unfold State.createPi
    simp only
    rw [assign_inputs m ht]
    rfl
  · unfold State.createPi
    simp only
    rw [assign_size m ht]
    rfl
  · unfold State.createPi
    simp only
    rw [assign_outputs m ht, hc]
    rfl

section
variable {m : Dim} {nc : NumClks} {s : State} (H : Hexable m nc s)

/-- The conversion of tiles. -/
def conv (m : Dim) (s : State) : Coord → Coord := hexTile (m.Y + 1) (getOffset m s)

include H

theorem Hexable.off {t : Coord} (ht : Occ s t) : getOffset m s ≤ toHexX (m.Y + 1) t := by
  obtain ⟨hd, n, hn⟩ := ht
  have hb := H.bounds t n hd hn
  have hg := H.ground t n hd hn
  have e : toHexX (m.Y + 1) t = toHexX (m.Y + 1) ⟨t.x, t.y, 0, false⟩ := rfl
  rw [e]
  refine (getOffset_spec m s).2.1 _ rfl ⟨rfl, hb.2.1, hb.2.2.1, Nat.zero_le _⟩ ?_
  cases h : s.isEmptyTile ⟨t.x, t.y, 0, false⟩
  · rfl
  · exact absurd ((isEmpty_iff' H.wf rfl).1 h) hg
where
  isEmpty_iff' {s : State} (w : WF s) {t : Coord} (ht : t.d = false) : s.isEmptyTile t = true ↔ s.tileNode t = none := by
    unfold State.isEmptyTile State.getNode
    cases e : s.tileNode t with
    | none => simp
    | some n =>
      have := (w.live t n e)
      simp only [Option.getD_some, beq_iff_eq, reduceCtorEq, iff_false]
      rintro rfl
      have := this.1 (by omega)
      rw [ht] at this
      cases this

theorem Hexable.inj {t t' : Coord} (ht : Occ s t) (ht' : Occ s t') (e : conv m s t = conv m s t') : t = t' :=
  hexTile_inj ht.1 ht'.1 (H.off ht) (H.off ht') e

/-- No column is negative. -/
theorem Hexable.col_nonneg {t : Coord} (ht : Occ s t) : ((conv m s t).x : Int) = toHexX (m.Y + 1) t - getOffset m s := hexTile_x (H.off ht)

theorem Hexable.node {t : Coord} {n : Nat} (ht : t.d = false) (hn : s.tileNode t = some n) : s.getNode t = n ∧ s.getTile n = t ∧ 2 ≤ n := by
  refine ⟨getNode_of hn, by simp [State.getTile, (H.wf.inv _ _).1 hn], ?_⟩
  by_contra hc
  have := (H.wf.live t n hn).1 (by omega)
  rw [ht] at this
  cases this

/-- The fanins of a node are occupied western and northern neighbours. -/
theorem Hexable.faninOcc {t : Coord} {n : Nat} (ht : t.d = false) (hn : s.tileNode t = some n) (hi : n ∉ s.inputs) {c : Coord}
    (hc : c ∈ s.fanins m .cart (twoddwaveClocking .cart nc) true n) : Occ s c ∧ Flow c t ∧ c ∉ s.outputs := by
  have hd := (H.fanin t n ht hn hi).2 c hc
  have hs := H.sink t n ht hn hi c hc
  have hn2 := H.node ht hn
  unfold State.fanins at hc
  rw [if_neg (by omega)] at hc
  simp only [List.mem_map, List.mem_filter] at hc
  obtain ⟨ch, ⟨-, hp⟩, e⟩ := hc
  have hocc : Occ s c := by
    refine ⟨hd, ?_⟩
    cases hk : s.tileNode ch with
    | none =>
      rw [show s.getNode ch = 0 by simp [State.getNode, hk]] at e
      rw [← e] at hd
      unfold State.getTile at hd
      cases h0 : s.nodeTile 0 with
      | none => rw [h0] at hd; simp [const0] at hd
      | some t0 =>
        rw [h0] at hd
        have := (H.wf.live t0 0 ((H.wf.inv _ _).2 h0)).1 (by omega)
        simp only [Option.getD_some] at hd
        rw [hd] at this
        cases this
    | some k =>
      have h1 : s.getNode ch = k := getNode_of hk
      have h2 : s.getTile k = ch := by simp [State.getTile, (H.wf.inv _ _).1 hk]
      rw [h1, h2] at e
      subst e
      exact ⟨k, hk⟩
  refine ⟨hocc, ?_, hs⟩
  rw [e, hn2.2.1] at hp
  obtain ⟨-, k, hk⟩ := hocc
  exact flow_of (H.bounds c k hd hk) (H.bounds t n ht hn) hp

end

/-! ## The loop invariant -/

/-- `lyt` is the image of the tiles in `P`. -/
structure Built (m : Dim) (nc : NumClks) (s : State) (P : Coord → Prop) (st : St) : Prop where
  wf : WF st.lyt
  occ : ∀ t, P t → Occ s t
  only : ∀ k : Coord, k.d = false → ∀ j, st.lyt.tileNode k = some j → ∃ t, P t ∧ k = conv m s t
  node : ∀ t n, P t → s.tileNode t = some n → ∃ j, st.lyt.tileNode (conv m s t) = some j ∧ (st.lyt.nodes j).fn = (s.nodes n).fn ∧
    (n ∉ s.inputs → (st.lyt.nodes j).children = (s.fanins m .cart (twoddwaveClocking .cart nc) true n).map (conv m s))
  seenX : ∀ t, P t → (conv m s t).x ≤ st.xmax ∧ (conv m s t).y ≤ st.ymax
  tightX : st.xmax = 0 ∨ ∃ t, Occ s t ∧ (conv m s t).x = st.xmax
  tightY : st.ymax = 0 ∨ ∃ t, Occ s t ∧ (conv m s t).y = st.ymax

section
variable {m : Dim} {nc : NumClks} {s : State} (H : Hexable m nc s) {P : Coord → Prop} {st : St}

theorem Built.see (h : Built m nc s P st) {t : Coord} (ht : Occ s t) : Built m nc s P (st.see (conv m s t)) := by
  refine ⟨h.wf, h.occ, h.only, h.node, ?_, ?_, ?_⟩
  · intro t' ht'
    have := h.seenX t' ht'
    simp only [St.see]
    omega
  · rcases h.tightX with e | ⟨t', ht', e⟩
    · by_cases hx : (conv m s t).x = 0
      · left; simp only [St.see]; omega
      · right; exact ⟨t, ht, by simp only [St.see]; omega⟩
    · by_cases hx : (conv m s t).x ≤ st.xmax
      · right; exact ⟨t', ht', by simp only [St.see]; omega⟩
      · right; exact ⟨t, ht, by simp only [St.see]; omega⟩
  · rcases h.tightY with e | ⟨t', ht', e⟩
    · by_cases hx : (conv m s t).y = 0
      · left; simp only [St.see]; omega
      · right; exact ⟨t, ht, by simp only [St.see]; omega⟩
    · by_cases hx : (conv m s t).y ≤ st.ymax
      · right; exact ⟨t', ht', by simp only [St.see]; omega⟩
      · right; exact ⟨t, ht, by simp only [St.see]; omega⟩

include H

theorem Built.empty (h : Built m nc s P st) {t : Coord} (ht : Occ s t) (hp : ¬ P t) : st.lyt.tileNode (conv m s t) = none := by
  cases e : st.lyt.tileNode (conv m s t) with
  | none => rfl
  | some j =>
    obtain ⟨t', hp', e'⟩ := h.only _ rfl j e
    rw [H.inj ht (h.occ t' hp') e'] at hp
    exact absurd hp' hp

/-- One more tile. -/
theorem Built.place (h : Built m nc s P st) {t : Coord} {n : Nat} (ht : t.d = false) (hn : s.tileNode t = some n) (hp : ¬ P t) {lyt' : State} {cs : List Coord}
    (wf' : WF lyt') (tile : ∀ k : Coord, k.d = false → lyt'.tileNode k = if k = conv m s t then some st.lyt.size else st.lyt.tileNode k)
    (old : ∀ k, k ≠ st.lyt.size → (lyt'.nodes k).fn = (st.lyt.nodes k).fn ∧ (lyt'.nodes k).children = (st.lyt.nodes k).children)
    (fn : (lyt'.nodes st.lyt.size).fn = (s.nodes n).fn) (children : (lyt'.nodes st.lyt.size).children = cs)
    (hcs : n ∉ s.inputs → cs = (s.fanins m .cart (twoddwaveClocking .cart nc) true n).map (conv m s)) :
    Built m nc s (fun t' => P t' ∨ t' = t) ({ st with lyt := lyt' }.see (conv m s t)) := by
  have hocc : Occ s t := ⟨ht, n, hn⟩
  have base : Built m nc s (fun t' => P t') ({ st with lyt := st.lyt }.see (conv m s t)) := h.see hocc
  refine ⟨wf', ?_, ?_, ?_, ?_, base.tightX, base.tightY⟩
  · rintro t' (ht' | rfl)
    · exact h.occ t' ht'
    · exact hocc
  · intro k hk j hj
    simp only [St.see] at hj
    rw [tile k hk] at hj
    split_ifs at hj with e
    · exact ⟨t, Or.inr rfl, e⟩
    · obtain ⟨t', a, b⟩ := h.only k hk j hj
      exact ⟨t', Or.inl a, b⟩
  · rintro t' n' (ht' | rfl) hn'
    · obtain ⟨j, h1, h2, h3⟩ := h.node t' n' ht' hn'
      have hne : conv m s t' ≠ conv m s t := by
        intro e
        rw [H.inj (h.occ t' ht') hocc e] at ht'
        exact hp ht'
      have hj : j ≠ st.lyt.size := by
        have := h.wf.lt _ _ h1
        omega
      refine ⟨j, ?_, ?_, ?_⟩
      · simp only [St.see]
        rw [tile _ rfl, if_neg hne]
        exact h1
      · simp only [St.see]
        rw [(old j hj).1, h2]
      · simp only [St.see]
        rw [(old j hj).2]
        exact h3
    · rw [hn] at hn'
      injection hn' with hn'
      subst hn'
      refine ⟨st.lyt.size, ?_, fn, ?_⟩
      · simp only [St.see]
        rw [tile _ rfl, if_pos rfl]
      · intro hi
        simp only [St.see]
        rw [children, hcs hi]
  · rintro t' (ht' | rfl)
    · exact base.seenX t' ht'
    · simp only [St.see]
      omega

/-- Signals of placed fanins. -/
theorem Built.signal (h : Built m nc s P st) {c : Coord} (hc : P c) : Hexa.signal (conv m s) st.lyt c = conv m s c := by
  obtain ⟨hd, n, hn⟩ := h.occ c hc
  obtain ⟨j, hj, -⟩ := h.node c n hc hn
  unfold Hexa.signal
  rw [getNode_of hj]
  simp [State.getTile, (h.wf.inv _ _).1 hj]

end

end Verif.PhysicalDesign.Hexa
