import Verif.PhysicalDesign.GoldWire

/-!
# The path that was found for a position is found again once the gate is placed
-/
namespace Verif.PhysicalDesign.Gold

open Verif.Layouts Verif.Clocking Verif.GateLevel Verif.Networks Verif.Paths Verif.PhysicalDesign.ColorRouting Verif.PhysicalDesign.Ortho

/-! ## The search, restricted to the tiles it can get to -/

section
variable {V K : Type} [DecidableEq V] [LinearOrder K] [AddCommMonoid K]

theorem explore_in {q : Queue V K} (hq : q.Faithful) (P : Problem V K) (S : V → Prop) (cur : V) (st : St V K) (v : V)
    (h : ∀ u ∈ st.keys, S u) (hv : S v) : ∀ u ∈ (st.explore q P cur v).keys, S u := by
  intro u hu
  have := (explore_keys hq P cur st v).mem_iff.1 hu
  split_ifs at this
  · exact h u this
  · rcases List.mem_cons.1 this with rfl | h'
    · exact hv
    · exact h u h'

theorem explores_in {q : Queue V K} (hq : q.Faithful) (P : Problem V K) (S : V → Prop) (cur : V) : ∀ (l : List V) (st : St V K),
    (∀ u ∈ st.keys, S u) → (∀ v ∈ l, S v) → ∀ u ∈ (l.foldl (St.explore q P cur) st).keys, S u
  | [], _, h, _ => h
  | v :: l, st, h, hl => by
    rw [List.foldl_cons]
    exact explores_in hq P S cur l _ (explore_in hq P S cur st v h (hl v (by simp))) (fun w hw => hl w (by simp [hw]))

theorem loop_congr_on {q : Queue V K} (hq : q.Faithful) (P P' : Problem V K) (S : V → Prop)
    (hs : P.source = P'.source) (ht : P.target = P'.target) (hc : P.cost = P'.cost) (hd : P.dist = P'.dist)
    (h : ∀ u, S u → u ≠ P.target → P.succs u = P'.succs u ∧ ∀ v ∈ P.succs u, S v) (n : Nat) :
    ∀ (fuel : Nat) (st : St V K), (∀ u ∈ st.keys, S u) → loop q P n fuel st = loop q P' n fuel st
  | 0, _, _ => rfl
  | fuel + 1, st, hst => by
    unfold loop
    cases e : st.openList with
    | nil => rfl
    | cons a l =>
      obtain ⟨cur, f⟩ := a
      dsimp only
      rw [hs, ht]
      by_cases hcur : cur = P'.target
      · rw [if_pos hcur, if_pos hcur]
      · rw [if_neg hcur, if_neg hcur]
        have hk : cur ∈ st.keys := by
          show cur ∈ st.openList.map Prod.fst
          rw [e]; simp
        obtain ⟨h1, h2⟩ := h cur (hst cur hk) (by rw [ht]; exact hcur)
        have hex : ∀ st : St V K, st.expand q P cur = st.expand q P' cur := by
          intro st
          unfold St.expand
          rw [h1]
          congr 1
          funext st v
          unfold St.explore
          rw [hc, hd]
        rw [← hex]
        refine loop_congr_on hq P P' S hs ht hc hd h n fuel _ ?_
        unfold St.expand
        refine explores_in hq P S cur _ _ ?_ h2
        intro u hu
        have hu' : u ∈ (q.pop ((cur, f) :: l)).map Prod.fst := hu
        have := ((hq.pop (cur, f) l).map Prod.fst).mem_iff.1 hu'
        refine hst u ?_
        show u ∈ st.openList.map Prod.fst
        rw [e, List.map_cons]
        exact List.mem_cons_of_mem _ this

end

theorem aStarLayout_congr_on {q : Queue Coord Nat} (hq : q.Faithful) (l l' : RLayout) (cr : Bool) (cost dist : Coord → Coord → Nat)
    (src dst : Coord) (fuel : Nat) (S : Coord → Prop) (hS : S src)
    (h : ∀ u, S u → u ≠ dst → l.succs cr dst u = l'.succs cr dst u ∧ ∀ v ∈ l.succs cr dst u, S v) :
    aStarLayout q l cr cost dist src dst fuel = aStarLayout q l' cr cost dist src dst fuel := by
  unfold aStarLayout aStar
  refine loop_congr_on hq (⟨l.succs cr dst, cost, fun v => dist v dst, src, dst⟩ : Problem Coord Nat)
    ⟨l'.succs cr dst, cost, fun v => dist v dst, src, dst⟩ S rfl rfl rfl rfl h fuel fuel _ ?_
  intro u hu
  have hu' : u ∈ (q.push [] (src, 0)).map Prod.fst := hu
  have := ((hq.push [] (src, 0)).map Prod.fst).mem_iff.1 hu'
  simp at this
  rw [this]
  exact hS

/-! ## A gate without fanins on an empty tile -/

/-- Nothing refers to an empty tile. -/
structure Tidy (m : Dim) (s : State) : Prop where
  wf : WF s
  bounds : ∀ t n, t.d = false → s.tileNode t = some n → InBounds m t
  closed : ∀ t n, t.d = false → s.tileNode t = some n → ∀ c ∈ (s.nodes n).children, c.d = false ∧ ∃ k, s.tileNode c = some k
  const : (s.nodes 0).children = []
  outputs : ∀ o ∈ s.outputs, o.d = false ∧ ∃ k, s.tileNode o = some k

section
variable {m : Dim} {s s1 : State} {p : Coord} {fn : Nat}

theorem tile_const (w : WF s) : (s.getTile 0).d = true := by
  unfold State.getTile
  cases e : s.nodeTile 0 with
  | none => rfl
  | some t => exact (w.live t 0 ((w.inv _ _).2 e)).1 (by omega)

variable (ty : Tidy m s) (hp : p.d = false) (he : s.tileNode p = none) (h : Placed s s1 p s.size fn [])
  (ho : s1.outputs = s.outputs ∨ s1.outputs = s.outputs ++ [p])
include ty hp he h

omit ty hp he in
theorem node_off {t : Coord} (ht : t.d = false) (hn : t ≠ p) : s1.tileNode t = s.tileNode t ∧ s1.getNode t = s.getNode t := by
  have : s1.tileNode t = s.tileNode t := by rw [h.tile t ht, if_neg hn]
  exact ⟨this, by unfold State.getNode; rw [this]⟩

theorem tile_on {t : Coord} {n : Nat} (ht : t.d = false) (hn : s.tileNode t = some n) :
    s1.getTile n = t ∧ s.getTile n = t ∧ s1.getNode t = n ∧ s.getNode t = n := by
  have htp : t ≠ p := by rintro rfl; rw [he] at hn; cases hn
  have h1 := node_off h ht htp
  refine ⟨?_, ?_, ?_, ?_⟩
  · have : s1.tileNode t = some n := by rw [h1.1, hn]
    simp [State.getTile, (h.wf.inv _ _).1 this]
  · simp [State.getTile, (ty.wf.inv _ _).1 hn]
  · rw [h1.2]; simp [State.getNode, hn]
  · simp [State.getNode, hn]

omit hp in
theorem data_off {t : Coord} {n : Nat} (hn : s.tileNode t = some n) :
    (s1.nodes n).fn = (s.nodes n).fn ∧ (s1.nodes n).children = (s.nodes n).children := by
  have := ty.wf.lt _ _ hn
  exact h.old n (by omega)

omit he in
theorem new_node : s1.getNode p = s.size ∧ s1.tileNode p = some s.size := by
  have : s1.tileNode p = some s.size := by rw [h.tile p hp, if_pos rfl]
  exact ⟨by simp [State.getNode, this], this⟩

theorem fanins_off {t : Coord} (ht : t.d = false) : s1.fanins m .cart scheme true (s1.getNode t) = s.fanins m .cart scheme true (s.getNode t) := by
  by_cases htp : t = p
  · subst htp
    rw [(new_node ty hp h).1]
    have h0 : s.getNode t = 0 := by simp [State.getNode, he]
    rw [h0]
    have := ty.wf.two
    unfold State.fanins
    rw [if_neg (by omega), if_pos (by omega), h.children]
    rfl
  · rw [(node_off h ht htp).2]
    cases e : s.tileNode t with
    | none =>
      have h0 : s.getNode t = 0 := by simp [State.getNode, e]
      rw [h0]
      unfold State.fanins
      rw [if_pos (by omega), if_pos (by omega)]
    | some n =>
      obtain ⟨t1, t2, t3, t4⟩ := tile_on ty hp he h ht e
      rw [t4]
      unfold State.fanins
      split_ifs with hn
      · rfl
      · dsimp only
        rw [t1, t2, (data_off ty he h e).2]
        have hc : ∀ c ∈ (s.nodes n).children, s1.getTile (s1.getNode c) = s.getTile (s.getNode c) := by
          intro c hc
          obtain ⟨hcd, k, hk⟩ := ty.closed t n ht e c hc
          obtain ⟨c1, c2, c3, c4⟩ := tile_on ty hp he h hcd hk
          rw [c3, c4, c1, c2]
        have hf : ((s.nodes n).children.filter fun c => Topo.isAdjacentElevationOf .cart m t (s1.getTile (s1.getNode c)) &&
            (!true || isIncomingClocked scheme t (s1.getTile (s1.getNode c)))) =
            ((s.nodes n).children.filter fun c => Topo.isAdjacentElevationOf .cart m t (s.getTile (s.getNode c)) &&
            (!true || isIncomingClocked scheme t (s.getTile (s.getNode c)))) := by
          refine List.filter_congr ?_
          intro c hcm
          rw [hc c hcm]
        rw [hf]
        refine List.map_congr_left ?_
        intro c hcm
        exact hc c (List.mem_of_mem_filter hcm)

/-- The fanins of a tile are on tiles. -/
theorem fanins_real {t : Coord} (ht : t.d = false) : ∀ i ∈ s.fanins m .cart scheme true (s.getNode t), InBounds m i ∧ i ≠ p := by
  intro i hi
  cases e : s.tileNode t with
  | none =>
    have h0 : s.getNode t = 0 := by simp [State.getNode, e]
    rw [h0] at hi
    unfold State.fanins at hi
    rw [if_pos (by omega)] at hi
    cases hi
  | some n =>
    obtain ⟨t1, t2, t3, t4⟩ := tile_on ty hp he h ht e
    rw [t4] at hi
    unfold State.fanins at hi
    split_ifs at hi
    · cases hi
    · rw [List.mem_map] at hi
      obtain ⟨c, hc, rfl⟩ := hi
      obtain ⟨hcd, k, hk⟩ := ty.closed t n ht e c (List.mem_of_mem_filter hc)
      obtain ⟨c1, c2, c3, c4⟩ := tile_on ty hp he h hcd hk
      rw [c4, c2]
      exact ⟨ty.bounds _ _ hcd hk, by rintro rfl; rw [he] at hk; cases hk⟩

theorem child_off {nt t : Coord} (ht : t.d = false) : s1.isChild (s1.getNode t) nt = s.isChild (s.getNode t) nt := by
  unfold State.isChild
  by_cases htp : t = p
  · subst htp
    rw [(new_node ty hp h).1]
    have h0 : s.getNode t = 0 := by simp [State.getNode, he]
    rw [h0, h.children, ty.const]
  · rw [(node_off h ht htp).2]
    have hlt : s.getNode t < s.size := by
      unfold State.getNode
      cases e : s.tileNode t with
      | none => have := ty.wf.two; simp; omega
      | some n => exact ty.wf.lt _ _ e
    rw [(h.old _ (by omega)).2]

omit ty hp he h in
theorem adj_bounds {nt out : Coord} (hb : InBounds m nt) (hm : out ∈ outgoingClockedZones .cart m scheme nt) : InBounds m out :=
  (((C07_adjacent_exact m nt hb).1 out).1 (List.mem_filter.1 hm).1).1

theorem fanouts_off {t : Coord} (ht : t.d = false) (htp : t ≠ p) :
    (s1.fanouts m .cart scheme true (s1.getNode t)).map s1.getTile = (s.fanouts m .cart scheme true (s.getNode t)).map s.getTile := by
  rw [(node_off h ht htp).2]
  cases e : s.tileNode t with
  | none =>
    have h0 : s.getNode t = 0 := by simp [State.getNode, e]
    rw [h0]
    unfold State.fanouts
    rw [if_pos (by omega), if_pos (by omega)]
    rfl
  | some n =>
    obtain ⟨t1, t2, t3, t4⟩ := tile_on ty hp he h ht e
    rw [t4]
    unfold State.fanouts
    by_cases hn : n ≤ 1
    · rw [if_pos hn, if_pos hn]; rfl
    · rw [if_neg hn, if_neg hn]
      dsimp only
      simp only [if_true]
      rw [t1, t2, List.map_flatMap, List.map_flatMap]
      refine List.flatMap_congr ?_
      intro out hout
      have hob := adj_bounds (ty.bounds _ _ ht e) hout
      have hod := hob.1
      have key : ∀ cand : List Coord, (∀ c ∈ cand, c.d = false) →
          ((cand.map s1.getNode).filter fun a => s1.isChild a t).map s1.getTile =
            ((cand.map s.getNode).filter fun a => s.isChild a t).map s.getTile := by
        intro cand
        induction cand with
        | nil => intro _; rfl
        | cons c cand ih =>
          intro hc
          have hcd := hc c (by simp)
          rw [List.map_cons, List.map_cons, List.filter_cons, List.filter_cons, child_off ty hp he h hcd]
          split_ifs with hch
          · rw [List.map_cons, List.map_cons, ih (fun d hd => hc d (by simp [hd]))]
            congr 1
            cases ec : s.tileNode c with
            | none =>
              have h0 : s.getNode c = 0 := by simp [State.getNode, ec]
              rw [h0] at hch
              unfold State.isChild at hch
              rw [ty.const] at hch
              simp at hch
            | some k =>
              obtain ⟨c1, c2, c3, c4⟩ := tile_on ty hp he h hcd ec
              rw [c3, c4, c1, c2]
          · exact ih (fun d hd => hc d (by simp [hd]))
      refine key _ ?_
      intro c hc
      rw [List.mem_append, List.mem_append] at hc
      rcases hc with (hc | hc) | hc
      · rw [List.mem_singleton] at hc; rw [hc]; exact hod
      · split_ifs at hc with hx
        · rw [List.mem_singleton] at hc
          rw [hc]
          exact (C06_moves_in_bounds m out hob).2.2.2.2.1.1
        · cases hc
      · split_ifs at hc with hx
        · rw [List.mem_singleton] at hc
          rw [hc]
          exact (C06_moves_in_bounds m out hob).2.2.2.2.2.1.1
        · cases hc

theorem incoming_off {t : Coord} (ht : t.d = false) (sig : Coord) :
    Library.isIncomingSignal m .cart scheme s1 true t sig = Library.isIncomingSignal m .cart scheme s true t sig := by
  unfold Library.isIncomingSignal
  rw [fanins_off ty hp he h ht]

theorem outgoing_off {t : Coord} (ht : t.d = false) (htp : t ≠ p) (sig : Coord) :
    Library.isOutgoingSignal m .cart scheme s1 true t sig = Library.isOutgoingSignal m .cart scheme s true t sig := by
  unfold Library.isOutgoingSignal
  rw [fanouts_off ty hp he h ht htp]

theorem incoming_dead {t sig : Coord} (ht : t.d = false) (hs : sig.d = true) :
    Library.isIncomingSignal m .cart scheme s true t sig = false := by
  unfold Library.isIncomingSignal
  rw [List.any_eq_false]
  intro i hi
  have := (fanins_real ty hp he h ht i hi).1
  have h0 := this.1
  have h1 : (Cart.above m i).d = false := (C06_moves_in_bounds m i this).2.2.2.2.1.1
  have h2 : (Cart.below i).d = false := (C06_moves_in_bounds m i this).2.2.2.2.2.1.1
  simp only [Bool.or_eq_true, beq_iff_eq, not_or]
  refine ⟨⟨?_, ?_⟩, ?_⟩ <;> rintro rfl <;> simp_all

include ho in
theorem po_off {t : Coord} {n : Nat} (hn : s.tileNode t = some n) : s1.isPo n = s.isPo n := by
  have hlt := ty.wf.lt _ _ hn
  have hold : (s.outputs.any fun o => s1.getNode o == n) = s.outputs.any fun o => s.getNode o == n := by
    rw [Bool.eq_iff_iff, List.any_eq_true, List.any_eq_true]
    refine exists_congr fun o => and_congr_right fun hom => ?_
    obtain ⟨hod, k, hk⟩ := ty.outputs o hom
    obtain ⟨c1, c2, c3, c4⟩ := tile_on ty hp he h hod hk
    rw [c3, c4]
  unfold State.isPo
  rcases ho with e | e
  · rw [e, hold]
  · rw [e, List.any_append, hold]
    simp only [List.any_cons, List.any_nil, Bool.or_false]
    rw [(new_node ty hp h).1]
    have : (s.size == n) = false := by rw [beq_eq_false_iff_ne]; omega
    rw [this, Bool.or_false]

include ho in
theorem crossable_off {cur c : Coord} (hc : c.d = false) (hcp : c ≠ p) (hcur : cur.d = false) (hb : Cart.below cur ≠ p) :
    isCrossableWire m .cart scheme s1 cur c = isCrossableWire m .cart scheme s cur c := by
  unfold isCrossableWire
  dsimp only
  have hno := node_off h hc hcp
  have hfi := fanins_off ty hp he h hc
  have hfo := congrArg List.isEmpty (fanouts_off ty hp he h hc hcp)
  rw [List.isEmpty_map, List.isEmpty_map] at hfo
  rw [hno.2] at hfi hfo ⊢
  have hbd : (Cart.below cur).d = false := by unfold Cart.below; split_ifs <;> exact hcur
  have hsig : Library.isIncomingSignal m .cart scheme s1 true c (s1.getTile (s1.getNode (Cart.below cur))) =
      Library.isIncomingSignal m .cart scheme s true c (s.getTile (s.getNode (Cart.below cur))) := by
    rw [incoming_off ty hp he h hc]
    cases e : s.tileNode (Cart.below cur) with
    | none =>
      have h0 : s.getNode (Cart.below cur) = 0 := by simp [State.getNode, e]
      rw [(node_off h hbd hb).2, h0, incoming_dead ty hp he h hc (tile_const ty.wf), incoming_dead ty hp he h hc (tile_const h.wf)]
    | some k =>
      obtain ⟨c1, c2, c3, c4⟩ := tile_on ty hp he h hbd e
      rw [c3, c4, c1, c2]
  rw [hfi, hfo, hsig]
  cases e : s.tileNode c with
  | none =>
    have h0 : s.getNode c = 0 := by simp [State.getNode, e]
    rw [h0]
    have hz1 : ∀ x : State, (x.fanins m .cart scheme true 0).isEmpty = true := by
      intro x; unfold State.fanins; rw [if_pos (by omega)]; rfl
    rw [hz1]
    simp
  | some k =>
    obtain ⟨c1, c2, c3, c4⟩ := tile_on ty hp he h hc e
    rw [c4]
    have hw : s1.isWire k = s.isWire k := by unfold State.isWire; rw [(data_off ty he h e).1]
    have hpi : s1.isPi k = s.isPi k := by unfold State.isPi; rw [h.inputs]
    rw [hw, hpi, po_off ty hp he h ho e]

include ho in
/-- The steps from a tile that is neither the position nor above it. -/
theorem succs_off (hZ : m.Z ≤ 1) (obs : List Coord) (pos : Nat → Coord) (cr : Bool) {u : Coord} (hu : InBounds m u) (hup : u ≠ p)
    (hbp : Cart.below u ≠ p) :
    (Lo.view ⟨m, s1, obs, pos⟩).succs cr p u = (Lo.view ⟨m, s, obs, pos⟩).succs cr p u := by
  have hnb : (Lo.view ⟨m, s1, obs, pos⟩).neighbours u = (Lo.view ⟨m, s, obs, pos⟩).neighbours u := rfl
  unfold RLayout.succs
  rw [hnb]
  refine List.filterMap_congr ?_
  intro n hn
  obtain ⟨nb, -, -⟩ := neighbour_step (L := ⟨m, s, obs, pos⟩) hu hn
  have hbb : InBounds m (Cart.below n) := (C06_moves_in_bounds m n nb).2.2.2.2.2.1
  have hab : InBounds m (Cart.above m (Cart.below n)) := (C06_moves_in_bounds m _ hbb).2.2.2.2.1
  have hobs : ∀ c : Coord, c.d = false → c ≠ p → (Lo.view ⟨m, s1, obs, pos⟩).obstructed c = (Lo.view ⟨m, s, obs, pos⟩).obstructed c := by
    intro c hc hcp
    show (obs.contains c || !s1.isEmptyTile c) = (obs.contains c || !s.isEmptyTile c)
    unfold State.isEmptyTile
    rw [(node_off h hc hcp).2]
  have hcon : ∀ c : Coord, c.d = false → (Lo.view ⟨m, s1, obs, pos⟩).obstructedConn u c = (Lo.view ⟨m, s, obs, pos⟩).obstructedConn u c := by
    intro c hc
    show (Library.isIncomingSignal m .cart scheme s1 true c u || Library.isOutgoingSignal m .cart scheme s1 true u c) =
      (Library.isIncomingSignal m .cart scheme s true c u || Library.isOutgoingSignal m .cart scheme s true u c)
    rw [incoming_off ty hp he h hc, outgoing_off ty hp he h hu.1 hup]
  have hcr : Cart.below n ≠ p → (Lo.view ⟨m, s1, obs, pos⟩).crossable u (Cart.below n) = (Lo.view ⟨m, s, obs, pos⟩).crossable u (Cart.below n) :=
    fun hne => crossable_off ty hp he h ho hbb.1 hne hu.1 hbp
  unfold RLayout.resolve
  have hm1 : (Lo.view ⟨m, s1, obs, pos⟩).m = m := rfl
  have hm2 : (Lo.view ⟨m, s, obs, pos⟩).m = m := rfl
  dsimp only
  rw [hm1, hm2]
  generalize Cart.below n = b at *
  by_cases hbp' : b = p
  · have : (b != p) = false := by simp [hbp']
    rw [this, Bool.and_false, Bool.and_false]
    simp only [Bool.false_eq_true, if_false]
    rw [hcon b hbb.1]
  · rw [hobs b hbb.1 hbp', hcr hbp']
    generalize Cart.above m b = a at *
    have e : ∀ o : Option Coord, (∀ c, o = some c → c.d = false) →
        (match o with | none => none | some c => if (Lo.view ⟨m, s1, obs, pos⟩).obstructedConn u c = true then none else some c) =
        (match o with | none => none | some c => if (Lo.view ⟨m, s, obs, pos⟩).obstructedConn u c = true then none else some c) := by
      intro o hoo
      cases o with
      | none => rfl
      | some c => dsimp only; rw [hcon c (hoo c rfl)]
    have hob : (!(Lo.view ⟨m, s1, obs, pos⟩).obstructed a || a == p) = (!(Lo.view ⟨m, s, obs, pos⟩).obstructed a || a == p) := by
      by_cases hap : a = p
      · simp [hap]
      · rw [hobs a hab.1 hap]
    rw [hob]
    refine e _ ?_
    intro c hc
    split_ifs at hc <;> simp only [Option.some.injEq, reduceCtorEq] at hc <;> rw [← hc]
    · exact hab.1
    · exact hbb.1

/-- The tiles the search can get to: not above the position. -/
def Open (m : Dim) (p u : Coord) : Prop := InBounds m u ∧ (Cart.below u = p → u = p)

omit ty hp he h in
theorem open_succ {L : Lo} (hZ : L.m.Z ≤ 1) {cr : Bool} {u v : Coord} (hu : InBounds L.m u) (hv : v ∈ L.view.succs cr p u) : Open L.m p v := by
  have hm := (mem_succs _ _ _ _ _).1 hv
  refine ⟨(move_step hZ hu hm).1, ?_⟩
  obtain ⟨n, hn, -, -, h3⟩ := hm
  obtain ⟨nb, -, -⟩ := neighbour_step hu hn
  obtain ⟨-, -, bz, -⟩ := below_step hZ nb
  rcases h3 with rfl | ⟨-, hv', hne, -, hnp, -⟩
  · intro e
    have : Cart.below (Cart.below n) = Cart.below n := by
      rw [Cart.below, if_pos bz]
    rwa [this] at e
  · intro e
    exfalso
    apply hnp
    have hv2 : v = Cart.above L.m (Cart.below n) := hv'
    have hbb := (C06_moves_in_bounds L.m n nb).2.2.2.2.2.1.2.2.2
    generalize Cart.below n = b at *
    have hz : b.z < L.m.Z := by
      by_contra hc
      apply hne
      rw [hv2, Cart.above, if_neg (by omega), if_neg (by omega)]
    rw [← e, hv2, Cart.above, if_neg (by omega), if_pos hz]
    unfold Cart.below
    rw [if_neg (by simp)]
    simp

include ho in
/-- The search does not notice the gate that has been placed on its target. -/
theorem findPath_off {q : Queue Coord Nat} (hq : q.Faithful) (ps : Params) (hZ : m.Z ≤ 1) (obs : List Coord) (pos : Nat → Coord)
    {src : Coord} (hs : InBounds m src) (hsz : src.z = 0) :
    findPath q ps ⟨m, s1, obs, pos⟩ src p = findPath q ps ⟨m, s, obs, pos⟩ src p := by
  unfold findPath
  congr 1
  refine aStarLayout_congr_on hq _ _ _ _ _ _ _ _ (Open m p) ⟨hs, ?_⟩ ?_
  · intro e
    rwa [Cart.below, if_pos hsz] at e
  · intro u hu hup
    refine ⟨succs_off ty hp he h ho hZ obs pos _ hu.1 hup (fun e => hup (hu.2 e)), ?_⟩
    intro v hv
    exact open_succ (L := ⟨m, s1, obs, pos⟩) hZ hu.1 hv

end

end Verif.PhysicalDesign.Gold
