import Verif.PhysicalDesign.Gold
import Verif.PhysicalDesign.ColorRoutingWire
import Verif.PhysicalDesign.OrthoSpec
import Verif.Paths.Props

/-!
# Paths of graph-oriented layout design
-/
namespace Verif.PhysicalDesign.Gold

open Verif.Layouts Verif.Clocking Verif.GateLevel Verif.Networks Verif.Paths Verif.PhysicalDesign.ColorRouting Verif.PhysicalDesign.Ortho

/-! ## The search depends only on the successors of tiles other than the target -/

theorem loop_congr {V K : Type} [DecidableEq V] [LinearOrder K] [Add K] [Zero K] (q : Queue V K) (P P' : Problem V K)
    (hs : P.source = P'.source) (ht : P.target = P'.target) (hc : P.cost = P'.cost) (hd : P.dist = P'.dist)
    (h : ∀ u, u ≠ P.target → P.succs u = P'.succs u) (n : Nat) : ∀ (fuel : Nat) (st : St V K), loop q P n fuel st = loop q P' n fuel st
  | 0, _ => rfl
  | fuel + 1, st => by
    unfold loop
    cases e : st.openList with
    | nil => rfl
    | cons a l =>
      obtain ⟨cur, f⟩ := a
      dsimp only
      rw [hs, ht]
      by_cases hcur : cur = P'.target
      · rw [if_pos hcur, if_pos hcur]
      · rw [if_neg hcur, if_neg hcur]
        have hex : ∀ st : St V K, st.expand q P cur = st.expand q P' cur := by
          intro st
          unfold St.expand
          rw [h cur (by rw [ht]; exact hcur)]
          congr 1
          funext st v
          unfold St.explore
          rw [hc, hd]
        rw [hex]
        exact loop_congr q P P' hs ht hc hd h n fuel _

theorem aStarLayout_congr (q : Queue Coord Nat) (l l' : RLayout) (cr : Bool) (cost dist : Coord → Coord → Nat) (src dst : Coord) (fuel : Nat)
    (h : ∀ u, u ≠ dst → l.succs cr dst u = l'.succs cr dst u) :
    aStarLayout q l cr cost dist src dst fuel = aStarLayout q l' cr cost dist src dst fuel := by
  unfold aStarLayout aStar
  exact loop_congr q (⟨l.succs cr dst, cost, fun v => dist v dst, src, dst⟩ : Problem Coord Nat)
    ⟨l'.succs cr dst, cost, fun v => dist v dst, src, dst⟩ rfl rfl rfl rfl h fuel fuel _

/-! ## Steps -/

theorem clock_scheme (k : Coord) : scheme.clock k = (k.x + k.y) % 4 := by
  have := fn_twoddwave .cart .four k
  unfold scheme Scheme.clock
  exact this

theorem neighbour_step {L : Lo} {u v : Coord} (hu : InBounds L.m u) (h : v ∈ L.view.neighbours u) :
    InBounds L.m v ∧ v.z = u.z ∧ ((u.x + 1 = v.x ∧ u.y = v.y) ∨ (u.x = v.x ∧ u.y + 1 = v.y)) := by
  have h' : v ∈ (Cart.adjacentCoordinates L.m u).filter (isOutgoingClocked scheme u) := h
  rw [List.mem_filter] at h'
  obtain ⟨h1, h2⟩ := h'
  obtain ⟨hb, hg⟩ := ((C07_adjacent_exact L.m u hu).1 v).1 h1
  refine ⟨hb, hg.1.symm, ?_⟩
  unfold isOutgoingClocked at h2
  split_ifs at h2 with he
  rw [beq_iff_eq, clock_scheme, clock_scheme] at h2
  have hnum : scheme.numClocks = 4 := rfl
  rw [hnum] at h2
  have := hg.2
  omega

theorem below_step {m : Dim} (hZ : m.Z ≤ 1) {n : Coord} (h : InBounds m n) :
    (Cart.below n).x = n.x ∧ (Cart.below n).y = n.y ∧ (Cart.below n).z = 0 ∧ (Cart.below n).d = false := by
  have := h.2.2.2
  have hd := h.1
  unfold Cart.below
  split_ifs with hz
  · exact ⟨rfl, rfl, hz, hd⟩
  · refine ⟨rfl, rfl, ?_, hd⟩
    show n.z - 1 = 0
    omega

theorem move_step {L : Lo} (hZ : L.m.Z ≤ 1) {cr : Bool} {t u v : Coord} (hu : InBounds L.m u) (h : Move L.view cr t u v) :
    InBounds L.m v ∧ Nbr u v ∧ (v = t ∨ (L.s.isEmptyTile v = true ∧ v ∉ L.obs)) := by
  obtain ⟨n, hn, -, h2, h3⟩ := h
  obtain ⟨nb, nz, nx⟩ := neighbour_step hu hn
  obtain ⟨b1, b2, b3, b4⟩ := below_step hZ nb
  have hxy : v.x = n.x ∧ v.y = n.y ∧ InBounds L.m v := by
    rcases h3 with rfl | ⟨-, hv, -⟩
    · refine ⟨b1, b2, b4, ?_, ?_, ?_⟩
      · rw [b1]; exact nb.2.1
      · rw [b2]; exact nb.2.2.1
      · rw [b3]; omega
    · have := above_xy L.m (Cart.below n)
      have hv' : v = Cart.above L.m (Cart.below n) := hv
      have hbb : InBounds L.m (Cart.below n) := (C06_moves_in_bounds L.m n nb).2.2.2.2.2.1
      refine ⟨by rw [hv', this.1, b1], by rw [hv', this.2, b2], ?_⟩
      rw [hv']
      exact (C06_moves_in_bounds L.m _ hbb).2.2.2.2.1
  refine ⟨hxy.2.2, ⟨hu.1, by have := hu.2.2.2; omega, ?_⟩, ?_⟩
  · rw [hxy.1, hxy.2.1]; exact nx
  · rcases h2 with h2 | h2
    · refine .inr ?_
      have h2' : (L.obs.contains v || !L.s.isEmptyTile v) = false := h2
      rw [Bool.or_eq_false_iff] at h2'
      refine ⟨by simpa using h2'.2, ?_⟩
      intro hm
      rw [List.contains_iff_mem.2 hm] at h2'
      cases h2'.1
    · exact .inl h2

theorem reach_bounds {L : Lo} (hZ : L.m.Z ≤ 1) {cr : Bool} {t s v : Coord} (h : InBounds L.m s)
    (hr : Relation.ReflTransGen (Move L.view cr t) s v) : InBounds L.m v := by
  induction hr with
  | refl => exact h
  | tail _ hs ih => exact (move_step hZ ih hs).1

/-! ## Paths -/

/-- What the path finder delivers: a path from `src` to `dst` in steps to the east and south, over tiles that are empty and not
obstructed. -/
structure Good (L : Lo) (src dst : Coord) (p : List Coord) : Prop where
  long : 2 ≤ p.length
  head : p.getD 0 const0 = src
  last : p.getLastD const0 = dst
  nodup : p.Nodup
  step : ∀ i, i + 1 < p.length → Nbr (p.getD i const0) (p.getD (i + 1) const0)
  bounds : ∀ c ∈ p, InBounds L.m c
  free : ∀ c ∈ inner p, L.s.isEmptyTile c = true ∧ c ∉ L.obs

theorem inner_getD {p : List Coord} (h : 2 ≤ p.length) {c : Coord} (hc : c ∈ inner p) :
    ∃ i, i + 2 < p.length ∧ p.getD (i + 1) const0 = c := by
  obtain ⟨a, b, hab⟩ := path_shape h
  have hlen : p.length = (inner p).length + 2 := by
    conv => lhs; rw [hab]
    simp
  obtain ⟨i, hi, e⟩ := List.mem_iff_getElem.1 hc
  refine ⟨i, by omega, ?_⟩
  conv => lhs; rw [hab]
  rw [List.getD_cons_succ, List.getD_append _ _ _ _ hi, List.getD_eq_getElem?_getD, List.getElem?_eq_getElem hi]
  exact e

theorem getD_last (p : List Coord) : p.getD (p.length - 1) const0 = p.getLastD const0 := by
  rw [List.getLastD_eq_getLast?, List.getLast?_eq_getElem?, List.getD_eq_getElem?_getD]

theorem chain_getD {R : Coord → Coord → Prop} : ∀ {p : List Coord}, p.IsChain R → ∀ i, i + 1 < p.length →
    R (p.getD i const0) (p.getD (i + 1) const0)
  | [], _, i, hi => by simp at hi
  | [_], _, i, hi => by simp at hi
  | a :: b :: l, h, i, hi => by
    rw [List.isChain_cons_cons] at h
    cases i with
    | zero => exact h.1
    | succ i => exact chain_getD h.2 i (by simpa using hi)

theorem getD_mem {p : List Coord} {i : Nat} (h : i < p.length) : p.getD i const0 ∈ p := by
  rw [List.getD_eq_getElem?_getD, List.getElem?_eq_getElem h]
  exact List.getElem_mem h

theorem findPath_good {q : Queue Coord Nat} (hq : q.Faithful) (ps : Params) {L : Lo} (hZ : L.m.Z ≤ 1) {src dst : Coord}
    (hs : InBounds L.m src) (hl : 2 ≤ (findPath q ps L src dst).length) : Good L src dst (findPath q ps L src dst) := by
  have hspec := aStar_spec hq (⟨L.view.succs (!ps.planar) dst, unitCost, fun v => twoddwaveDistance v dst, src, dst⟩ : Problem Coord Nat)
    (box L.m) (fun v hv => (mem_box _ _).2 (reach_bounds hZ hs ((reach_iff _ _ _ _ _).1 hv)))
    ((L.m.X + 1) * ((L.m.Y + 1) * (L.m.Z + 1)) + 1)
  have hne := hspec.2 (by rw [length_box]; omega)
  obtain ⟨r, hr⟩ := Option.ne_none_iff_exists'.1 hne
  have hf : findPath q ps L src dst = r := by
    unfold findPath aStarLayout
    rw [hr]
    rfl
  rw [hf] at hl ⊢
  rcases hspec.1 r hr with ⟨h, -⟩ | hw
  · rw [h] at hl; simp at hl
  · have hchain : r.IsChain (Move L.view (!ps.planar) dst) := hw.chain.imp fun a b hab => (mem_succs _ _ _ _ _).1 hab
    have hhead : r.getD 0 const0 = src := by
      have := hw.head
      match r, this with
      | a :: l, h => simpa using h
    have hlast : r.getLastD const0 = dst := by
      have := hw.last
      rw [List.getLastD_eq_getLast?, this]
      rfl
    have hb : ∀ i, i < r.length → InBounds L.m (r.getD i const0) := by
      intro i
      induction i with
      | zero => intro _; rw [hhead]; exact hs
      | succ i ih => intro hi; exact (move_step hZ (ih (by omega)) (chain_getD hchain i hi)).1
    refine ⟨hl, hhead, hlast, hw.nodup, ?_, ?_, ?_⟩
    · intro i hi
      exact (move_step hZ (hb i (by omega)) (chain_getD hchain i hi)).2.1
    · intro c hc
      obtain ⟨i, hi, e⟩ := List.mem_iff_getElem.1 hc
      have := hb i hi
      rwa [List.getD_eq_getElem?_getD, List.getElem?_eq_getElem hi, Option.getD_some, e] at this
    · intro c hc
      obtain ⟨i, hi, e⟩ := inner_getD hl hc
      have := (move_step hZ (hb i (by omega)) (chain_getD hchain i (by omega))).2.2
      rw [e] at this
      rcases this with h | h
      · exfalso
        have h1 : r.getD (r.length - 1) const0 = dst := by rw [getD_last, hlast]
        have hn := hw.nodup
        rw [h] at e
        have h2 : r.getD (i + 1) const0 = r.getD (r.length - 1) const0 := by rw [e, h1]
        rw [List.getD_eq_getElem?_getD, List.getD_eq_getElem?_getD, List.getElem?_eq_getElem (by omega),
          List.getElem?_eq_getElem (by omega), Option.getD_some, Option.getD_some] at h2
        have := (List.Nodup.getElem_inj_iff hn).1 h2
        omega
      · exact h

/-- What `check_path` accepts. -/
theorem checkPath_some {q : Queue Coord Nat} {ps : Params} {L : Lo} {src dst : Coord} {loc : Loc} {st : Bool}
    (h : checkPath q ps L src dst loc st ≠ []) :
    checkPath q ps L src dst loc st = findPath q ps L src dst ∧ 2 ≤ (findPath q ps L src dst).length ∧
      (loc = .src → L.s.isEmptyTile src = true) ∧ (loc = .dest → L.s.isEmptyTile dst = true) := by
  unfold checkPath at h ⊢
  dsimp only at h ⊢
  split_ifs at h ⊢ with h1 h2 h3
  · exact absurd rfl h
  · refine ⟨rfl, by omega, ?_, ?_⟩
    · rintro rfl; simpa using h1
    · rintro rfl; simpa using h1
  · exact absurd rfl h
  · exact absurd rfl h

theorem checkPath_none {q : Queue Coord Nat} {ps : Params} {L : Lo} {src dst : Coord} :
    checkPath q ps L src dst .none false = if (findPath q ps L src dst).length < 2 then [] else findPath q ps L src dst := by
  unfold checkPath
  simp

end Verif.PhysicalDesign.Gold
