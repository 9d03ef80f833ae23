import Verif.PhysicalDesign.ColorRoutingSpec
import Verif.PhysicalDesign.OrthoSem
import Mathlib.Data.List.GetD

namespace Verif.PhysicalDesign.ColorRouting

open Verif.Layouts Verif.Clocking Verif.GateLevel Verif.Paths Verif.PhysicalDesign.Ortho

/-! ## Laying wires on empty tiles -/

theorem empty_iff {s : State} (w : WF s) {c : Coord} (hc : c.d = false) : s.isEmptyTile c = true ↔ s.tileNode c = none := by
  unfold State.isEmptyTile State.getNode
  cases h : s.tileNode c with
  | none => simp
  | some n =>
    have := w.live c n h
    have h2 : ¬ n ≤ 1 := fun hn => by rw [this.1 hn] at hc; cases hc
    simp only [Option.getD_some, beq_iff_eq, reduceCtorEq, iff_false]
    omega

/-- What laying the segments `cs` behind the signal `sig` does. -/
structure Laid (s s' : State) (sig : Coord) (cs : List Coord) : Prop where
  wf : WF s'
  size : s.size ≤ s'.size
  segment : ∀ i, i < cs.length → ∃ n, s.size ≤ n ∧ s'.tileNode (cs.getD i const0) = some n ∧ (s'.nodes n).fn = 2 ∧
    (s'.nodes n).children = [(sig :: cs).getD i const0]
  old : ∀ n, n < s.size → (s'.nodes n).fn = (s.nodes n).fn ∧ (s'.nodes n).children = (s.nodes n).children
  untouched : ∀ k : Coord, k.d = false → k ∉ cs → s'.tileNode k = s.tileNode k
  ports : s'.inputs = s.inputs ∧ s'.outputs = s.outputs

theorem lay (m : Dim) : ∀ (cs : List Coord) (s : State) (sig : Coord), WF s → (∀ c ∈ cs, c.d = false ∧ s.tileNode c = none) →
    cs.Nodup → Laid s (cs.foldl (routeStep m) (s, sig)).1 sig cs ∧ (cs.foldl (routeStep m) (s, sig)).2 = cs.getLastD sig
  | [], s, sig, w, _, _ => by
    refine ⟨⟨w, Nat.le_refl _, ?_, fun n _ => ⟨rfl, rfl⟩, fun k _ _ => rfl, rfl, rfl⟩, rfl⟩
    intro i hi
    simp at hi
  | c :: cs, s, sig, w, he, hn => by
    rw [List.nodup_cons] at hn
    have hc := he c (List.mem_cons_self ..)
    rw [List.foldl_cons]
    have hstep : routeStep m (s, sig) c = (s.createGate m 2 [sig] c, c) := by
      unfold routeStep
      dsimp only
      rw [if_pos ((empty_iff w hc.1).2 hc.2)]
    rw [hstep]
    obtain ⟨hp, hsz, hout⟩ := createGate_placed m w 2 [sig] hc.1 hc.2
    generalize s.createGate m 2 [sig] c = s1 at hp hsz hout
    obtain ⟨hl, hl2⟩ := lay m cs s1 c hp.wf (by
      intro d hd
      have hd' := he d (List.mem_cons_of_mem _ hd)
      refine ⟨hd'.1, ?_⟩
      rw [hp.tile d hd'.1, if_neg (by rintro rfl; exact hn.1 hd)]
      exact hd'.2) hn.2
    generalize (cs.foldl (routeStep m) (s1, c)) = r at hl hl2
    refine ⟨⟨hl.wf, by have := hl.size; omega, ?_, ?_, ?_, ?_⟩, ?_⟩
    · intro i hi
      cases i with
      | zero =>
        refine ⟨s.size, Nat.le_refl _, ?_, ?_, ?_⟩
        · rw [List.getD_cons_zero, hl.untouched c hc.1 hn.1, hp.tile c hc.1, if_pos rfl]
        · rw [(hl.old s.size (by omega)).1, hp.fn]
        · rw [(hl.old s.size (by omega)).2, hp.children]
          rfl
      | succ i =>
        obtain ⟨n, h1, h2, h3, h4⟩ := hl.segment i (by simpa using hi)
        refine ⟨n, by omega, ?_, h3, ?_⟩
        · rw [List.getD_cons_succ]; exact h2
        · rw [List.getD_cons_succ]; exact h4
    · intro n hlt
      have h1 := hl.old n (by omega)
      have h2 := hp.old n (by omega)
      exact ⟨h1.1.trans h2.1, h1.2.trans h2.2⟩
    · intro k hk hm
      rw [List.mem_cons, not_or] at hm
      rw [hl.untouched k hk hm.2, hp.tile k hk, if_neg hm.1]
    · rw [hl.ports.1, hl.ports.2]
      exact ⟨hp.inputs, hout⟩
    · rw [hl2]
      exact (List.getLastD_cons ..).symm

theorem prev_aux (a b d : Coord) (q : List Coord) : (a :: (q ++ [b])).getD q.length d = q.getLastD a := by
  rcases List.eq_nil_or_concat q with rfl | ⟨q', x, rfl⟩
  · rfl
  · simp

/-- A path has a source, inner tiles and a target. -/
theorem path_shape {p : Path} (h : 2 ≤ p.length) : ∃ a b, p = a :: (inner p ++ [b]) := by
  match p, h with
  | a :: b :: l, _ =>
    refine ⟨a, (b :: l).getLast (by simp), ?_⟩
    unfold inner
    rw [List.tail_cons, List.dropLast_append_getLast]

/-- A path that can be laid: its inner tiles are empty and distinct, its target is occupied. -/
structure Layable (s : State) (p : Path) : Prop where
  long : 2 ≤ p.length
  free : ∀ c ∈ inner p, c.d = false ∧ s.tileNode c = none
  nodup : (inner p).Nodup
  target : (p.getLastD const0).d = false ∧ ∃ n, s.tileNode (p.getLastD const0) = some n

theorem route_one (m : Dim) {s : State} (w : WF s) {p : Path} (h : Layable s p) :
    WF (routePath m s p) ∧ Wired s (routePath m s p) [p] ∧ s.size ≤ (routePath m s p).size := by
  obtain ⟨a, b, hp⟩ := path_shape h.long
  obtain ⟨hl, hl2⟩ := lay m (inner p) s a w h.free h.nodup
  have hlast : p.getLastD const0 = b := by
    conv => lhs; rw [hp]
    rw [← List.cons_append, List.getLastD_eq_getLast?, List.getLast?_append]
    rfl
  have hhead : p.headD const0 = a := by
    conv => lhs; rw [hp]
    rfl
  obtain ⟨hbd, n, hn⟩ := h.target
  rw [hlast] at hbd hn
  have hb : b ∉ inner p := by
    intro hm
    have := (h.free b hm).2
    rw [this] at hn
    cases hn
  have hlt := w.lt b n hn
  have h2 : ¬ n ≤ 1 := fun hx => by rw [(w.live b n hn).1 hx] at hbd; cases hbd
  have hdef : routePath m s p = ((inner p).foldl (routeStep m) (s, a)).1.connect ((inner p).getLastD a) n := by
    unfold routePath
    dsimp only
    rw [hhead, hlast, hl2]
    congr 1
    unfold State.getNode
    rw [hl.untouched b hbd hb, hn]
    rfl
  rw [hdef]
  generalize ((inner p).foldl (routeStep m) (s, a)).1 = s1 at hl
  have hcon : s1.connect ((inner p).getLastD a) n = s1.modNode n (fun d => { d with children := d.children ++ [(inner p).getLastD a] }) := by
    unfold State.connect isConstant
    rw [if_neg (by simpa using h2)]
  rw [hcon]
  have hpd : ∀ i, i + 2 < p.length → p.getD (i + 1) const0 = (inner p).getD i const0 ∧
      p.getD i const0 = (a :: inner p).getD i const0 := by
    intro i hi
    have hlen : p.length = (inner p).length + 2 := by
      conv => lhs; rw [hp]
      simp
    constructor
    · conv => lhs; rw [hp]
      rw [List.getD_cons_succ, List.getD_append _ _ _ _ (by omega)]
    · conv => lhs; rw [hp]
      rw [← List.cons_append, List.getD_append _ _ _ _ (by simp; omega)]
  have hprev : p.getD (p.length - 2) const0 = (inner p).getLastD a := by
    have hlen : p.length = (inner p).length + 2 := by
      conv => lhs; rw [hp]
      simp
    have hx := prev_aux a b const0 (inner p)
    rw [← hp] at hx
    rw [hlen]
    exact hx
  refine ⟨?_, ⟨?_, ?_, ?_, hl.ports⟩, hl.size⟩
  · exact WF.same (SameView.mod _ _ _ (fun _ => rfl)) hl.wf
  · intro q hq i hi
    rw [List.mem_singleton] at hq
    subst hq
    have hlen : q.length = (inner q).length + 2 := by
      conv => lhs; rw [hp]
      simp
    obtain ⟨k, k1, k2, k3, k4⟩ := hl.segment i (by omega)
    rw [(hpd i hi).1, (hpd i hi).2]
    refine ⟨k, k1, k2, ?_, ?_⟩
    · simp only [State.modNode]
      rw [if_neg (by omega)]
      exact k3
    · simp only [State.modNode]
      rw [if_neg (by omega)]
      exact k4
  · intro k hk
    have ho := hl.old k hk
    have hgn : s.getNode (p.getLastD const0) = n := by
      unfold State.getNode
      rw [hlast, hn]
      rfl
    by_cases he : k = n
    · subst he
      simp only [State.modNode, if_true]
      refine ⟨ho.1, ?_⟩
      rw [ho.2]
      congr 1
      rw [List.filter_cons, hgn]
      rw [if_pos (by simp; omega)]
      simp only [List.filter_nil, List.map_cons, List.map_nil]
      rw [hprev]
    · simp only [State.modNode]
      rw [if_neg he]
      refine ⟨ho.1, ?_⟩
      rw [ho.2]
      have : ([p].filter fun p => s.getNode (p.getLastD const0) == k && decide (2 ≤ k)) = [] := by
        rw [List.filter_cons, hgn]
        rw [if_neg (by simp; omega)]
        rfl
      rw [this]
      simp
  · intro t ht hm
    exact hl.untouched t ht (hm p (by simp))

theorem route_all (m : Dim) : ∀ (sel : List Path) (s : State), WF s → (∀ p ∈ sel, Layable s p) →
    (sel.Pairwise fun p q => ∀ c ∈ inner p, c ∉ inner q) →
    WF (sel.foldl (routePath m) s) ∧ Wired s (sel.foldl (routePath m) s) sel
  | [], s, w, _, _ => by
    refine ⟨w, ⟨?_, ?_, fun _ _ _ => rfl, rfl, rfl⟩⟩
    · intro p hp; cases hp
    · intro n _; simp
  | p :: sel, s, w, h, hpw => by
    rw [List.pairwise_cons] at hpw
    obtain ⟨w1, h1, hsz⟩ := route_one m w (h p (List.mem_cons_self ..))
    rw [List.foldl_cons]
    generalize routePath m s p = s1 at *
    have htgt : ∀ q ∈ sel, s1.tileNode (q.getLastD const0) = s.tileNode (q.getLastD const0) := by
      intro q hq
      have hL := h q (List.mem_cons_of_mem _ hq)
      obtain ⟨hd, n, hn⟩ := hL.target
      refine h1.untouched _ hd ?_
      intro p' hp' hm
      rw [List.mem_singleton] at hp'
      subst hp'
      have := ((h p' (List.mem_cons_self ..)).free _ hm).2
      rw [this] at hn
      cases hn
    obtain ⟨w2, h2⟩ := route_all m sel s1 w1 (by
      intro q hq
      have hL := h q (List.mem_cons_of_mem _ hq)
      refine ⟨hL.long, ?_, hL.nodup, ?_⟩
      · intro c hc
        refine ⟨(hL.free c hc).1, ?_⟩
        rw [h1.untouched c (hL.free c hc).1 (by
          intro p' hp' hm
          rw [List.mem_singleton] at hp'
          subst hp'
          exact hpw.1 q hq c hm hc)]
        exact (hL.free c hc).2
      · rw [htgt q hq]
        exact hL.target) hpw.2
    have hgn : ∀ q ∈ sel, s1.getNode (q.getLastD const0) = s.getNode (q.getLastD const0) := by
      intro q hq
      unfold State.getNode
      rw [htgt q hq]
    have hfilter : ∀ n, (sel.filter fun q => s1.getNode (q.getLastD const0) == n && decide (2 ≤ n)) =
        sel.filter fun q => s.getNode (q.getLastD const0) == n && decide (2 ≤ n) := by
      intro n
      refine List.filter_congr ?_
      intro q hq
      rw [hgn q hq]
    refine ⟨w2, ⟨?_, ?_, ?_, ?_⟩⟩
    · intro q hq i hi
      rcases List.mem_cons.1 hq with rfl | hq
      · obtain ⟨n, k1, k2, k3, k4⟩ := h1.segment q (by simp) i hi
        have hlt := w1.lt _ _ k2
        have hL := h q (List.mem_cons_self ..)
        obtain ⟨a, b, hab⟩ := path_shape hL.long
        have hmem : q.getD (i + 1) const0 ∈ inner q := by
          have hlen : q.length = (inner q).length + 2 := by
            conv => lhs; rw [hab]
            simp
          have hx : q.getD (i + 1) const0 = (inner q).getD i const0 := by
            conv => lhs; rw [hab]
            rw [List.getD_cons_succ, List.getD_append _ _ _ _ (by omega)]
          rw [hx, List.getD_eq_getElem _ _ (by omega)]
          exact List.getElem_mem _
        refine ⟨n, k1, ?_, ?_, ?_⟩
        · rw [h2.untouched _ (hL.free _ hmem).1 (fun q' hq' hm => hpw.1 q' hq' _ hmem hm)]
          exact k2
        · rw [(h2.fed n hlt).1]
          exact k3
        · rw [(h2.fed n hlt).2, hfilter, k4]
          have : (sel.filter fun q => s.getNode (q.getLastD const0) == n && decide (2 ≤ n)) = [] := by
            rw [List.filter_eq_nil_iff]
            intro q' hq' hx
            have hL' := h q' (List.mem_cons_of_mem _ hq')
            obtain ⟨_, n', hn'⟩ := hL'.target
            have hlt' := w.lt _ _ hn'
            have : s.getNode (q'.getLastD const0) = n' := by unfold State.getNode; rw [hn']; rfl
            rw [this] at hx
            simp only [Bool.and_eq_true, beq_iff_eq] at hx
            omega
          rw [this]
          rfl
      · obtain ⟨n, k1, k2, k3, k4⟩ := h2.segment q hq i hi
        exact ⟨n, by omega, k2, k3, k4⟩
    · intro n hn
      have e1 := h1.fed n hn
      have e2 := h2.fed n (by omega)
      refine ⟨e2.1.trans e1.1, ?_⟩
      rw [e2.2, e1.2, hfilter, List.append_assoc, ← List.map_append, ← List.filter_append]
      rfl
    · intro t ht hm
      rw [h2.untouched t ht (fun q hq => hm q (List.mem_cons_of_mem _ hq)),
        h1.untouched t ht (fun q hq => hm q (by rw [List.mem_singleton] at hq; rw [hq]; exact List.mem_cons_self ..))]
    · rw [h2.ports.1, h2.ports.2]
      exact h1.ports

end Verif.PhysicalDesign.ColorRouting
