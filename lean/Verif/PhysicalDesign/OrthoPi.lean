import Verif.PhysicalDesign.OrthoInv

/-!
# The inputs in the orthogonal physical design
-/
namespace Verif.PhysicalDesign.Ortho

open Verif.Layouts Verif.Clocking Verif.GateLevel Verif.Networks

variable {N : Ntk} {order : List Nat} {tab : Nat → List Bool → Bool} {lit : Nat → Nat}

theorem pis_nodup (N : Ntk) : N.pis.Nodup := List.nodup_range.filter _

theorem mem_pis {N : Ntk} {n : Nat} (h : n ∈ N.pis) : n < N.size ∧ (N.node n).isPi = true := by
  unfold Ntk.pis at h
  rw [List.mem_filter, List.mem_range] at h
  exact h

/-- An input has been placed. -/
theorem advancePi {G G' : Grid} {done : List Nat} {st : Loop} (h : Inv N order tab G done st) {n : Nat} (hn : n ∉ done)
    (hlt : done.length < N.pis.length) (hpi : (N.node n).isPi = true)
    {t : Coord} (htz : t.z = 0) (htd : t.d = false) {lx' ly' : Nat} {s' : State}
    (rep : Rep N.pis.length G' s') (ext : Ext st.lyt s') (inputs : s'.inputs = st.lyt.inputs) (outputs : s'.outputs = [])
    (only : ∀ k j, k.d = false → s'.tileNode k = some j → st.lyt.tileNode k = some j ∨ 2 + N.pis.length ≤ j ∨ j = 2 + done.length)
    (piT : s'.tileNode ⟨0, done.length, 0, false⟩ = some (2 + done.length))
    (monoX : ∀ x y, G x y = .X → G' x y = .X)
    (mono : ∀ x y, G x y ≠ .none → G' x y ≠ .none)
    (east : ∀ p, At done st.pos p → EastClaim G p → EastClaim G' p)
    (south : ∀ p, At done st.pos p → SouthClaim G p → SouthClaim G' p)
    (fresh : G t.x t.y = .none) (newX : G' t.x t.y = .X) (newE : EastClaim G' t)
    (newS : ∀ t' ∈ order, Edge N n t' → (coloring N order).1 n t' = .south → SouthClaim G' t)
    (front : ∀ x y, G' x y ≠ .none → x < lx' ∧ y < ly') (hl : 0 < lx')
    (hv : ∀ a, SVal tab N.pis.length s' a t (N.value a n)) :
    Inv N order tab G' (done ++ [n]) ⟨s', fun k => if k = n then t else st.pos k, lx', ly'⟩ := by
  have hpos : ∀ k ∈ done, (if k = n then t else st.pos k) = st.pos k := by
    intro k hk
    rw [if_neg]
    rintro rfl
    exact hn hk
  have hcase : ∀ {Q : Nat → Prop}, (∀ k ∈ done, Q k) → Q n → ∀ k ∈ done ++ [n], Q k := by
    intro Q h1 h2 k hk
    rcases List.mem_append.1 hk with hk | hk
    · exact h1 k hk
    · rw [List.mem_singleton] at hk
      rw [hk]; exact h2
  refine ⟨rep, by rw [inputs, h.inputs], outputs, hl, front, ?_, ?_, ?_, ?_, ?_, ?_, ?_, ?_, ?_, ?_⟩
  · apply hcase
    · intro k hk
      simp only [hpos k hk]
      exact ⟨monoX _ _ (h.X k hk).1, (h.X k hk).2⟩
    · simp only [if_true]
      exact ⟨newX, htz, htd⟩
  · have hnew : ∀ k ∈ done, st.pos k ≠ t := by
      intro k hk he
      have := (h.X k hk).1
      rw [he, fresh] at this
      cases this
    apply hcase
    · intro k hk
      apply hcase
      · intro k' hk'
        simp only [hpos k hk, hpos k' hk']
        exact h.inj k hk k' hk'
      · simp only [hpos k hk, if_true]
        exact fun he => absurd he (hnew k hk)
    · apply hcase
      · intro k' hk'
        simp only [hpos k' hk', if_true]
        exact fun he => absurd he.symm (hnew k' hk')
      · exact fun _ => rfl
  · apply hcase
    · intro k hk a
      simp only [hpos k hk]
      exact (h.val k hk a).mono ext
    · intro a
      simp only [if_true]
      exact hv a
  · apply hcase
    · intro k hk t' ht' hd hedge hc
      simp only [hpos k hk]
      rw [List.mem_append, not_or, List.mem_singleton] at hd
      exact east _ (Inv.mem hk) (h.claimE k hk t' ht' hd.1 hedge hc)
    · intro t' _ _ _ _
      simp only [if_true]
      exact newE
  · apply hcase
    · intro k hk t' ht' hd hedge hc
      simp only [hpos k hk]
      rw [List.mem_append, not_or, List.mem_singleton] at hd
      exact south _ (Inv.mem hk) (h.claimS k hk t' ht' hd.1 hedge hc)
    · intro t' ht' _ hedge hc
      simp only [if_true]
      exact newS t' ht' hedge hc
  · apply hcase
    · intro k hk hf
      simp only [hpos k hk]
      exact east _ (Inv.mem hk) (h.leaf k hk hf)
    · intro _
      simp only [if_true]
      exact newE
  · apply hcase
    · intro k hk hp hg
      simp only [hpos k hk] at hg ⊢
      refine east _ (Inv.mem hk) (h.freeE k hk hp ?_)
      by_contra hh
      exact mono _ _ hh hg
    · intro hp
      rw [hpi] at hp; cases hp
  · apply hcase
    · intro k hk hp hg
      simp only [hpos k hk] at hg ⊢
      refine south _ (Inv.mem hk) (h.freeS k hk hp ?_)
      by_contra hh
      exact mono _ _ hh hg
    · intro hp
      rw [hpi] at hp; cases hp
  · intro j hj hj' t he
    rw [List.length_append, List.length_singleton] at hj
    have htd : t.d = false := by
      cases hd : t.d with
      | false => rfl
      | true =>
        have := (rep.wf.live t _ he).2 hd
        omega
    rcases only t _ htd he with h1 | h1 | h1
    · exact h.pif j (by omega) hj' t h1
    · omega
    · omega
  · intro j hj hj'
    rw [List.length_append, List.length_singleton] at hj
    by_cases he : j = done.length
    · rw [he]; exact piT
    · exact (ext _ _ rfl (h.piTile j (by omega) hj')).1

/-- Columns taken by an input. -/
def piX (N : Ntk) (col : Nat → Color) (n : Nat) : Nat := ((N.fanouts n).filter (fun f => decide (col f = .south))).length

theorem pi_step (ok : Ok N order lit tab) {m : Dim} (hZ : m.Z = 1) {G : Grid} {l r : List Nat} {n : Nat} (hpn : N.pis = l ++ n :: r) {st : Loop}
    (h : Inv N order tab G l st) (hly : st.ly = l.length) :
    ∃ G', Inv N order tab G' (l ++ [n]) (stepPi m N (coloring N order).2 st n) ∧
      (stepPi m N (coloring N order).2 st n).lx = st.lx + piX N (coloring N order).2 n ∧
      (stepPi m N (coloring N order).2 st n).ly = st.ly + 1 := by
  have hci := cinv_coloring ok.net3 order ok.topo.nodup ok.nonempty
  have hnm : n ∈ N.pis := by rw [hpn]; simp
  obtain ⟨hlt, hpi⟩ := mem_pis hnm
  have hnl : n ∉ l := by
    intro hl
    have := pis_nodup N
    rw [hpn, List.nodup_append] at this
    exact this.2.2 n hl n (by simp) rfl
  have hlen : l.length < N.pis.length := by rw [hpn]; simp
  have hidx : N.pis.idxOf n = l.length := by
    rw [hpn, List.idxOf_append_of_notMem hnl]
    simp
  have hval : ∀ a, N.value a n = a l.length := by
    intro a
    rw [Ntk.value_eq N ok.fan a n hlt, ok.pis l n r hpn]
    rfl
  -- the input is moved to the western border
  have hfresh : ∀ x, G x st.ly = .none := by
    intro x
    by_contra hh
    have := (h.front x st.ly hh).2
    omega
  have hcol : ∀ y, G st.lx y = .none := by
    intro y
    by_contra hh
    have := (h.front st.lx y hh).1
    omega
  have hempty := (h.rep.z0 0 st.ly).1 (hfresh 0)
  have hun : st.lyt.nodeTile (2 + l.length) = none := by
    cases e : st.lyt.nodeTile (2 + l.length) with
    | none => rfl
    | some t => exact absurd ((h.rep.wf.inv t _).2 e) (h.pif l.length (by omega) hlen t)
  have hsz := h.rep.size
  obtain ⟨p, p2, p3⟩ := move_placed m h.rep.wf (n := 2 + l.length) (by omega) (by omega) hun (t := ⟨0, st.ly, 0, false⟩) rfl hempty h.outputs
  have hext := p.ext hempty (h.pif l.length (by omega) hlen)
  have hrep : Rep N.pis.length (put G 0 st.ly) (st.lyt.moveNode m (2 + l.length) ⟨0, st.ly, 0, false⟩ []) :=
    h.rep.put p (by omega) .X (by simp) (hfresh 0) (.inl ⟨by omega, h.rep.pifn _ (by omega) (by omega)⟩)
  have hpiv : ∀ a, SVal tab N.pis.length (st.lyt.moveNode m (2 + l.length) ⟨0, st.ly, 0, false⟩ []) a ⟨0, st.ly, 0, false⟩ (N.value a n) := by
    intro a
    rw [hval]
    exact .pi _ _ rfl (by rw [p.tile _ rfl, if_pos rfl]) hlen
  have honly : ∀ k j, k.d = false → (st.lyt.moveNode m (2 + l.length) ⟨0, st.ly, 0, false⟩ []).tileNode k = some j →
      st.lyt.tileNode k = some j ∨ 2 + N.pis.length ≤ j ∨ j = 2 + l.length := by
    intro k j hk hj
    rw [p.tile k hk] at hj
    split_ifs at hj with hh
    · injection hj with hj
      exact .inr (.inr hj.symm)
    · exact .inl hj
  have hpiT : (st.lyt.moveNode m (2 + l.length) ⟨0, st.ly, 0, false⟩ []).tileNode ⟨0, l.length, 0, false⟩ = some (2 + l.length) := by
    rw [p.tile _ rfl, ← hly, if_pos rfl]
  have hfr := h.front
  have hlx := h.lx
  -- without a fanout to the south
  have plain : (∀ t' ∈ order, Edge N n t' → (coloring N order).1 n t' ≠ .south) →
      Inv N order tab (put G 0 st.ly) (l ++ [n])
        ⟨st.lyt.moveNode m (2 + l.length) ⟨0, st.ly, 0, false⟩ [], fun k => if k = n then ⟨0, st.ly, 0, false⟩ else st.pos k, st.lx, st.ly + 1⟩ := by
    intro hno
    refine advancePi h hnl hlen hpi rfl rfl hrep hext p.inputs p3 honly hpiT ?_ ?_ ?_ ?_ (hfresh 0) (by simp [put]) ?_ ?_ ?_ hlx hpiv
    · intro x y hh; simp only [put]; grind
    · intro x y hh; simp only [put]; grind
    · intro q hq hc x hx
      have := hc x hx
      have := front_of h.hP h.front hq
      simp only [put]; grind
    · intro q hq hc
      refine ⟨hc.1, fun y hy => ?_⟩
      have := hc.2 y hy
      have := hc.1
      simp only [put]; grind
    · intro x hx
      have := hfresh x
      simp only [put] at *; grind
    · intro t' ht' he hc
      exact absurd hc (hno t' ht' he)
    · intro x y hh
      have := hfr x y
      simp only [put] at *; grind
  unfold stepPi
  rw [hidx]
  match hfo : N.fanouts n with
  | [] =>
    refine ⟨_, plain ?_, ?_, rfl⟩
    · intro t' _ he
      have := mem_fanouts.2 he
      rw [hfo] at this
      cases this
    · simp [piX, hfo, Loop.setPos]
  | _ :: _ :: _ =>
    have := ok.piFan n hpi
    rw [hfo] at this
    simp at this
  | [f] =>
    have hef : ∀ t', Edge N n t' → t' = f := by
      intro t' he
      have := mem_fanouts.2 he
      rw [hfo, List.mem_singleton] at this
      exact this
    by_cases hc : (coloring N order).2 f = Color.south
    · simp only [if_pos hc]
      obtain ⟨w, -, z, hz, e, -⟩ := wireEast_spec hZ ok.wire hrep (src := ⟨0, st.ly, 0, false⟩) rfl (by rw [p.tile _ rfl, if_pos rfl]; simp) (by simp) hlx (by
        intro x hx _
        have := hfresh x
        simp only [put] at *; grind)
      have hG : hrow (put G 0 st.ly) st.ly (0 + 1) st.lx st.lx st.ly = .none := by
        have := hfresh st.lx
        simp only [put, hrow] at *; grind
      have hn : Nbr (wireEast m (st.lyt.moveNode m (2 + l.length) ⟨0, st.ly, 0, false⟩ []) ⟨0, st.ly, 0, false⟩ st.lx).2
          ⟨st.lx, st.ly, 0, false⟩ := by
        rw [e]
        exact ⟨rfl, hz, .inl ⟨by simp only; omega, rfl⟩⟩
      obtain ⟨g, gv⟩ := gate1_spec (m := m) (tab := tab) w.rep hG (.inl rfl) hn w.occ
      have hstep := w.stepped.trans g
      refine ⟨put (hrow (put G 0 st.ly) st.ly (0 + 1) st.lx) st.lx st.ly, ?_, ?_, rfl⟩
      · have key := advancePi h hnl hlen hpi (t := ⟨st.lx, st.ly, 0, false⟩) (lx' := st.lx + 1) (ly' := st.ly + 1) rfl rfl hstep.rep
          (hext.trans hstep.ext) (by rw [hstep.inputs, p.inputs]) (by rw [hstep.outputs, p3]) ?_ (hstep.ext _ _ rfl hpiT).1 ?_ ?_ ?_ ?_ (hcol _)
          (by simp [put]) ?_ ?_ ?_ (by omega) ?_
        · have hsame : (fun k => if k = n then (⟨st.lx, st.ly, 0, false⟩ : Coord) else if k = n then ⟨0, st.ly, 0, false⟩ else st.pos k) =
              (fun k => if k = n then ⟨st.lx, st.ly, 0, false⟩ else st.pos k) := by
            funext k
            by_cases hk : k = n
            · rw [if_pos hk, if_pos hk]
            · rw [if_neg hk, if_neg hk, if_neg hk]
          simp only [Loop.setPos, hsame]
          exact key
        · intro k j hk hj
          rcases hstep.only k j hk hj with h1 | h1
          · exact honly k j hk h1
          · exact .inr (.inl h1)
        · intro x y hh; simp only [put, hrow]; grind
        · intro x y hh; simp only [put, hrow]; grind
        · intro q hq hc' x hx
          have := hc' x hx
          have := front_of h.hP h.front hq
          simp only [put, hrow]; grind
        · intro q hq hc'
          refine ⟨hc'.1, fun y hy => ?_⟩
          have := hc'.2 y hy
          have := hc'.1
          have := front_of h.hP h.front hq
          have := hfresh q.x
          simp only [put, hrow]; grind
        · intro x hx
          have := hfresh x
          simp only [put, hrow] at *; grind
        · intro t' _ _ _
          refine ⟨by simp only; omega, fun y hy => ?_⟩
          have := hcol y
          simp only [put, hrow] at *; grind
        · intro x y hh
          have := hfr x y
          simp only [put, hrow] at *; grind
        · intro a
          have := gv a _ (w.val a _ (hpiv a))
          rwa [ok.wire] at this
      · simp [piX, hfo, hc, Loop.setPos]
    · simp only [if_neg hc]
      refine ⟨_, plain ?_, ?_, rfl⟩
      · intro t' ht' he hk
        have := hef t' he
        subst this
        obtain ⟨l1, r1, ho⟩ := List.append_of_mem ht'
        rcases hci.node l1 t' r1 ho with ⟨-, h2⟩ | ⟨h1, -⟩ | ⟨-, x, y, hf, hx, hy, ⟨tx, htx, hetx⟩, ⟨ty, hty, hety⟩, -⟩
        · rw [h2 n he] at hk; cases hk
        · exact hc h1
        · have hm : n ∈ (N.node t').fanins := he
          rw [hf] at hm
          simp only [List.mem_cons, List.not_mem_nil, or_false] at hm
          rcases hm with rfl | rfl
          · exact htx (hef tx hetx)
          · exact hty (hef ty hety)
      · simp [piX, hfo, hc, Loop.setPos]

end Verif.PhysicalDesign.Ortho
