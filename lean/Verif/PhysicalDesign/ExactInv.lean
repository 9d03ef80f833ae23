import Verif.PhysicalDesign.ExactSem
import Mathlib.Data.List.Perm.Subperm

/-!
# The invariant of `assign_layout`
-/
namespace Verif.PhysicalDesign.Exact

open Verif.Layouts Verif.Clocking Verif.GateLevel Verif.Networks

/-- What is on a tile. -/
inductive Item
  | node (n : Nat)
  | edge (e : Nat × Nat)

/-- The node whose value it carries. -/
def Item.src : Item → Nat
  | .node n => n
  | .edge e => e.1

section
variable (tab : Nat → List Bool → Bool) (tp : Topo) (m : Dim) (cs : Scheme) (N : Ntk) (nodes : List Nat) (crossings : Bool) (A : Asg)

/-- The invariant: `P` are the placed nodes, `R` the edges that have branches. -/
structure Inv (own : Coord → Option Item) (st : St) (P : List Nat) (R : List (Nat × Nat)) : Prop where
  wf : WF st.lyt
  size : 2 + N.pis.length ≤ st.lyt.size
  inputs : st.lyt.inputs = (List.range N.pis.length).map (2 + ·)
  outputs : st.lyt.outputs = []
  free : ∀ c : Coord, c.d = false → (st.lyt.tileNode c = none ↔ own c = none)
  node : ∀ c n, own c = some (.node n) → c ∈ tiles m ∧ A.tn c n = true ∧ n ∈ P
  edge : ∀ c e, own c = some (.edge e) → ∃ g ∈ tiles m, Over crossings c g ∧ A.te g e = true ∧ e ∈ R
  once : ∀ c c' g e, own c = some (.edge e) → own c' = some (.edge e) → Over crossings c g → Over crossings c' g → c = c'
  pif : ∀ j n, N.pis[j]? = some n → n ∉ P → ∀ t, st.lyt.tileNode t ≠ some (2 + j)
  val : ∀ c i a, own c = some i → TVal tab tp m cs N.pis.length st.lyt a c (N.value a i.src)
  keys : ∀ n, (st.pos n).map Prod.fst = (R.filter (fun e => e.1 == n)).map Prod.snd
  nodup : R.Nodup
  sub : ∀ e ∈ R, e.1 ∈ P ∧ e.2 ∈ N.fanouts e.1
  at_ : ∀ e ∈ R, own (look st.pos e.1 e.2) = some (.node e.1) ∨ own (look st.pos e.1 e.2) = some (.edge e)

/-- The branch of an edge is next to its target. -/
def Final (B : Branches) (e : Nat × Nat) : Prop :=
  ∃ g u, Over crossings (look B e.1 e.2) g ∧ Conn tp m cs A g u ∧ A.tn u e.2 = true

variable {tab tp m cs N nodes crossings A}
variable {own : Coord → Option Item} {st : St} {P : List Nat} {R : List (Nat × Nat)}

theorem Over.same {c g g' : Coord} (h : Over crossings c g) (hx : g'.x = g.x) (hy : g'.y = g.y) : Over crossings c g' :=
  ⟨h.1, by rw [h.2.1, hx], by rw [h.2.2.1, hy], h.2.2.2⟩

def put (own : Coord → Option Item) (v : Coord) (i : Item) : Coord → Option Item := fun c => if c = v then some i else own c

theorem put_self (own : Coord → Option Item) (v : Coord) (i : Item) : put own v i v = some i := if_pos rfl
theorem put_ne (own : Coord → Option Item) {v c : Coord} (i : Item) (h : c ≠ v) : put own v i c = own c := if_neg h
theorem put_old {own : Coord → Option Item} {v c : Coord} (i : Item) {j : Item} (hv : own v = none) (h : own c = some j) :
    put own v i c = some j := by
  rw [put_ne]
  · exact h
  · rintro rfl; rw [hv] at h; cases h

/-- Placing an item. -/
theorem Inv.place (h : Inv tab tp m cs N crossings A own st P R) {s' : State} {v : Coord} {j fn : Nat} {ch : List Coord} {P' : List Nat}
    {it : Item} (p : Ortho.Placed st.lyt s' v j fn ch) (hv : v.d = false) (he : own v = none) (hj : ∀ k, st.lyt.tileNode k ≠ some j)
    (hs : 2 + N.pis.length ≤ s'.size) (ho : s'.outputs = []) (hP : ∀ n ∈ P, n ∈ P')
    (hnode : ∀ n, it = .node n → v ∈ tiles m ∧ A.tn v n = true ∧ n ∈ P')
    (hedge : ∀ e, it = .edge e → ∃ g ∈ tiles m, Over crossings v g ∧ A.te g e = true ∧ e ∈ R ∧
      ∀ c', own c' = some (.edge e) → ¬ Over crossings c' g)
    (hpif : ∀ j' n, N.pis[j']? = some n → n ∉ P' → 2 + j' ≠ j)
    (hval : ∀ a, TVal tab tp m cs N.pis.length s' a v (N.value a it.src)) :
    Inv tab tp m cs N crossings A (put own v it) ⟨s', st.pos⟩ P' R ∧ Ortho.Ext st.lyt s' := by
  have hvn : st.lyt.tileNode v = none := (h.free v hv).2 he
  have hext := p.ext hvn hj
  refine ⟨⟨p.wf, hs, by rw [p.inputs]; exact h.inputs, ho, ?_, ?_, ?_, ?_, ?_, ?_, h.keys, h.nodup, ?_, ?_⟩, hext⟩
  · intro c hc
    show s'.tileNode c = none ↔ _
    rw [p.tile c hc]
    by_cases e : c = v
    · subst e; rw [put_self]; simp
    · rw [put_ne _ _ e, if_neg e]; exact h.free c hc
  · intro c n hn
    by_cases e : c = v
    · subst e
      rw [put_self] at hn
      injection hn with hn
      exact hnode n hn
    · rw [put_ne _ _ e] at hn
      obtain ⟨h1, h2, h3⟩ := h.node c n hn
      exact ⟨h1, h2, hP n h3⟩
  · intro c ed hn
    by_cases e : c = v
    · subst e
      rw [put_self] at hn
      injection hn with hn
      obtain ⟨g, h1, h2, h3, h4, -⟩ := hedge ed hn
      exact ⟨g, h1, h2, h3, h4⟩
    · rw [put_ne _ _ e] at hn
      exact h.edge c ed hn
  · have key : ∀ c g ed, c ≠ v → own c = some (.edge ed) → it = .edge ed → Over crossings c g → Over crossings v g → False := by
      intro c g ed _ h1 h2 h3 h4
      obtain ⟨g', -, h5, -, -, h6⟩ := hedge ed h2
      refine h6 c h1 (h3.same ?_ ?_)
      · rw [← h5.2.1, h4.2.1]
      · rw [← h5.2.2.1, h4.2.2.1]
    intro c c' g ed h1 h2 h3 h4
    by_cases e : c = v
    · by_cases e' : c' = v
      · rw [e, e']
      · rw [put_ne _ _ e'] at h2
        rw [e, put_self] at h1
        injection h1 with h1
        exact (key c' g ed e' h2 h1 h4 (e ▸ h3)).elim
    · rw [put_ne _ _ e] at h1
      by_cases e' : c' = v
      · rw [e', put_self] at h2
        injection h2 with h2
        exact (key c g ed e h1 h2 h3 (e' ▸ h4)).elim
      · rw [put_ne _ _ e'] at h2
        exact h.once c c' g ed h1 h2 h3 h4
  · intro j' n hn hnP t ht
    change s'.tileNode t = _ at ht
    have htd : t.d = false := by
      cases e : t.d with
      | false => rfl
      | true => have := (p.wf.live t _ ht).2 e; omega
    rw [p.tile t htd] at ht
    split_ifs at ht with e
    · injection ht with ht
      exact hpif j' n hn hnP ht.symm
    · exact h.pif j' n hn (fun hc => hnP (hP n hc)) t ht
  · intro c i a hi
    by_cases e : c = v
    · subst e
      rw [put_self] at hi
      injection hi with hi
      subst hi
      exact hval a
    · rw [put_ne _ _ e] at hi
      exact (h.val c i a hi).mono hext
  · intro e he
    exact ⟨hP _ (h.sub e he).1, (h.sub e he).2⟩
  · intro e' he'
    rcases h.at_ e' he' with h1 | h1
    · exact .inl (put_old it he h1)
    · exact .inr (put_old it he h1)

/-- The branches of a node are those of its routed edges. -/
theorem Inv.mem_keys (h : Inv tab tp m cs N crossings A own st P R) (n f : Nat) : f ∈ (st.pos n).map Prod.fst ↔ (n, f) ∈ R := by
  rw [h.keys n]
  simp only [List.mem_map, List.mem_filter, beq_iff_eq]
  constructor
  · rintro ⟨⟨a, b⟩, ⟨h1, rfl⟩, rfl⟩; exact h1
  · intro h1; exact ⟨(n, f), ⟨h1, rfl⟩, rfl⟩

/-- There is room for another branch. -/
theorem Inv.room (h : Inv tab tp m cs N crossings A own st P R) {n f : Nat} (hcap : (N.fanouts n).length ≤ tp.maxFanin)
    (hf : f ∈ N.fanouts n) : f ∈ (st.pos n).map Prod.fst ∨ (st.pos n).length < tp.maxFanin := by
  by_cases hm : f ∈ (st.pos n).map Prod.fst
  · exact .inl hm
  · refine .inr ?_
    have hnd : (f :: (st.pos n).map Prod.fst).Nodup := by
      refine List.nodup_cons.2 ⟨hm, ?_⟩
      rw [h.keys n]
      refine List.Nodup.map_on ?_ (h.nodup.filter _)
      intro x hx y hy e
      have h1 := (List.mem_filter.1 hx).2
      have h2 := (List.mem_filter.1 hy).2
      simp only [beq_iff_eq] at h1 h2
      exact Prod.ext (h1.trans h2.symm) e
    have hsub : ∀ x ∈ f :: (st.pos n).map Prod.fst, x ∈ N.fanouts n := by
      intro x hx
      rcases List.mem_cons.1 hx with rfl | hx
      · exact hf
      · exact (h.sub _ ((h.mem_keys n x).1 hx)).2
    have := (hnd.subperm hsub).length_le
    simp only [List.length_cons, List.length_map] at this
    omega

/-- Opening a branch. -/
theorem Inv.newBranch (h : Inv tab tp m cs N crossings A own st P R) {n f : Nat} {c : Coord} (hcap : (N.fanouts n).length ≤ tp.maxFanin)
    (hf : f ∈ N.fanouts n) (hn : n ∈ P) (hR : (n, f) ∉ R) (hc : own c = some (.node n)) :
    Inv tab tp m cs N crossings A own { st with pos := branch tp.maxFanin st.pos n f c } P (R ++ [(n, f)]) ∧
      look (branch tp.maxFanin st.pos n f c) n f = c ∧
      ∀ e, e ≠ (n, f) → look (branch tp.maxFanin st.pos n f c) e.1 e.2 = look st.pos e.1 e.2 := by
  have hroom := h.room hcap hf
  have hl := look_branch (c := c) hroom
  have hne : ∀ e : Nat × Nat, e ≠ (n, f) → look (branch tp.maxFanin st.pos n f c) e.1 e.2 = look st.pos e.1 e.2 := by
    intro e he
    exact look_branch_ne (fun h => he (Prod.ext h.1 h.2))
  refine ⟨⟨h.wf, h.size, h.inputs, h.outputs, h.free, h.node, ?_, h.once, h.pif, h.val, ?_, ?_, ?_, ?_⟩, hl, hne⟩
  · intro c e hce
    obtain ⟨g, h1, h2, h3, h4⟩ := h.edge c e hce
    exact ⟨g, h1, h2, h3, List.mem_append_left _ h4⟩
  · intro i
    rw [keys_branch hroom, h.keys n, h.keys i, List.filter_append, List.map_append]
    have hk : f ∉ (R.filter (fun e => e.1 == n)).map Prod.snd := by rw [← h.keys n, h.mem_keys]; exact hR
    by_cases e : i = n
    · subst e
      rw [if_pos ⟨rfl, hk⟩]
      simp
    · rw [if_neg (fun h => e h.1)]
      have : (n == i) = false := by simpa using Ne.symm e
      simp [this]
  · rw [List.nodup_append]
    refine ⟨h.nodup, by simp, ?_⟩
    intro a ha b hb
    rw [List.mem_singleton] at hb
    rintro rfl
    exact hR (hb ▸ ha)
  · intro e he
    rcases List.mem_append.1 he with he | he
    · exact h.sub e he
    · rw [List.mem_singleton] at he
      subst he
      exact ⟨hn, hf⟩
  · intro e he
    by_cases e' : e = (n, f)
    · subst e'
      refine .inl ?_
      show own (look (branch tp.maxFanin st.pos n f c) n f) = _
      rw [hl]
      exact hc
    · show own (look (branch tp.maxFanin st.pos n f c) e.1 e.2) = _ ∨ own (look (branch tp.maxFanin st.pos n f c) e.1 e.2) = _
      rw [hne e e']
      rcases List.mem_append.1 he with he | he
      · exact h.at_ e he
      · exact absurd (List.mem_singleton.1 he) e'

/-- Moving a branch. -/
theorem Inv.moveBranch (h : Inv tab tp m cs N crossings A own st P R) {e : Nat × Nat} {c : Coord} (he : e ∈ R)
    (hc : own c = some (.edge e)) :
    Inv tab tp m cs N crossings A own { st with pos := branch tp.maxFanin st.pos e.1 e.2 c } P R ∧
      look (branch tp.maxFanin st.pos e.1 e.2 c) e.1 e.2 = c ∧
      ∀ e', e' ≠ e → look (branch tp.maxFanin st.pos e.1 e.2 c) e'.1 e'.2 = look st.pos e'.1 e'.2 := by
  have hk : e.2 ∈ (st.pos e.1).map Prod.fst := (h.mem_keys e.1 e.2).2 he
  have hl := look_branch (k := tp.maxFanin) (c := c) (.inl hk)
  have hne : ∀ e' : Nat × Nat, e' ≠ e → look (branch tp.maxFanin st.pos e.1 e.2 c) e'.1 e'.2 = look st.pos e'.1 e'.2 := by
    intro e' he'
    exact look_branch_ne (fun h => he' (Prod.ext h.1 h.2))
  refine ⟨⟨h.wf, h.size, h.inputs, h.outputs, h.free, h.node, h.edge, h.once, h.pif, h.val, ?_, h.nodup, h.sub, ?_⟩, hl, hne⟩
  · intro i
    rw [keys_branch (.inl hk), if_neg (fun h => h.2 hk)]
    exact h.keys i
  · intro e' he'
    by_cases e0 : e' = e
    · subst e0
      refine .inr ?_
      show own (look (branch tp.maxFanin st.pos e'.1 e'.2 c) e'.1 e'.2) = _
      rw [hl]
      exact hc
    · show own (look (branch tp.maxFanin st.pos e.1 e.2 c) e'.1 e'.2) = _ ∨ own (look (branch tp.maxFanin st.pos e.1 e.2 c) e'.1 e'.2) = _
      rw [hne e' e0]
      exact h.at_ e' he'

/-! ## Routing -/

theorem Inv.fresh (h : Inv tab tp m cs N crossings A own st P R) (k : Coord) : st.lyt.tileNode k ≠ some st.lyt.size := by
  intro hk
  have := h.wf.lt _ _ hk
  omega

theorem Inv.pis_lt (h : Inv tab tp m cs N crossings A own st P R) {j n : Nat} (hj : N.pis[j]? = some n) : 2 + j ≠ st.lyt.size := by
  have := h.size
  have : j < N.pis.length := by
    by_contra hc
    rw [List.getElem?_eq_none (by omega)] at hj
    cases hj
  omega

/-- A wire segment whose child is on `c`. -/
theorem wire_val {s : State} {a : Nat → Bool} {b : Bool} {c v : Coord} (w : WF s) (hs : 2 + N.pis.length ≤ s.size) (hw : ∀ b, tab 2 [b] = b)
    (hv : v.d = false) (he : s.tileNode v = none) (hf : Flows tp m cs c v) (hb : TVal tab tp m cs N.pis.length s a c b) :
    TVal tab tp m cs N.pis.length (s.createGate m 2 [c] v) a v b := by
  obtain ⟨p, -, -⟩ := Ortho.createGate_placed m w 2 [c] hv he
  have hext := p.ext he (fun k hk => by have := w.lt _ _ hk; omega)
  have := TVal.gate (tab := tab) (tp := tp) (m := m) (cs := cs) (K := N.pis.length) (s := s.createGate m 2 [c] v) (a := a) v s.size [b] hv
    (by rw [p.tile v hv, if_pos rfl]) hs (by rw [p.children]; rfl)
    (by
      intro i hi
      rw [p.children]
      have : i = 0 := by simpa using hi
      subst this
      exact hf)
    (by
      intro i hi
      rw [p.children]
      have : i = 0 := by simpa using hi
      subst this
      exact hb.mono hext)
  rw [p.fn, hw] at this
  exact this

theorem route_ok (F : Facts tp m cs N nodes crossings A) (hc : Clocked tp m cs) (hZ : m.Z = if crossings then 1 else 0)
    (hw : ∀ b, tab 2 [b] = b) (hP : ∀ n ∈ P, n ∈ nodes) (hR : ∀ e ∈ R, e ∈ edges N nodes) {e : Nat × Nat} (he : e ∈ R) :
    ∀ (fuel : Nat) (own : Coord → Option Item) (st : St) (T : Coord) (V : List Coord),
      Inv tab tp m cs N crossings A own st P R → T ∈ tiles m → Over crossings (look st.pos e.1 e.2) T →
      V.Nodup → (∀ t ∈ V, t ∈ tiles m ∧ Relation.ReflTransGen (Conn tp m cs A) t T) →
      (∀ c', own c' = some (.edge e) → ∃ g ∈ V, Over crossings c' g) → (tiles m).length + 1 ≤ fuel + V.length →
      ∃ st' own', route tp m cs A e fuel st T = some st' ∧ Inv tab tp m cs N crossings A own' st' P R ∧
        Final tp m cs crossings A st'.pos e ∧
        (∀ e', e' ≠ e → look st'.pos e'.1 e'.2 = look st.pos e'.1 e'.2) ∧ (∀ c i, own c = some i → own' c = some i) ∧
        Ortho.Ext st.lyt st'.lyt := by
  have heE := hR e he
  intro fuel
  induction fuel with
  | zero =>
    intro own st T V _ _ _ hnd hV _ hlen
    have := (hnd.subperm (fun t ht => (hV t ht).1)).length_le
    omega
  | succ fuel ih =>
    intro own st T V h hT hov hnd hV hown hlen
    unfold route
    have onG : ∀ c g g' : Coord, g ∈ tiles m → g' ∈ tiles m → Over crossings c g → Over crossings c g' → g = g' := by
      intro c g g' hg hg' h1 h2
      obtain ⟨g1, g2, -⟩ := mem_tiles.1 hg
      obtain ⟨g1', g2', -⟩ := mem_tiles.1 hg'
      obtain ⟨x, y, z, d⟩ := g
      obtain ⟨x', y', z', d'⟩ := g'
      have e1 := h1.2.1
      have e2 := h1.2.2.1
      have e3 := h2.2.1
      have e4 := h2.2.2.1
      simp only at *
      subst g1; subst g2; subst g1'; subst g2'
      rw [e1] at e3
      rw [e2] at e4
      rw [e3, e4]
    cases hfind : (outgoingClockedZones tp m cs T).find? (fun u => A.te u e && A.tc T u) with
    | none =>
      refine ⟨st, own, rfl, h, ?_, fun _ _ => rfl, fun _ _ hi => hi, .refl _⟩
      have hgo : ∃ u, Conn tp m cs A T u ∧ (A.tn u e.2 = true ∨ A.te u e = true) := by
        rcases h.at_ e he with h1 | h1
        · obtain ⟨h2, h3, h4⟩ := h.node _ _ h1
          have : look st.pos e.1 e.2 = T := onG _ _ _ h2 hT (over_self h2) hov
          rw [this] at h3
          exact F.goNode T hT e.1 (hP _ h4) h3 e.2 (h.sub e he).2
        · obtain ⟨g, h2, h3, h4, -⟩ := h.edge _ _ h1
          have : g = T := onG _ _ _ h2 hT h3 hov
          rw [this] at h4
          exact F.goEdge T hT e heE h4
      obtain ⟨u, hu, h1 | h1⟩ := hgo
      · exact ⟨T, u, hov, hu, h1⟩
      · have := List.find?_eq_none.1 hfind u hu.2.1
        simp only [h1, hu.2.2, Bool.and_self, not_true_eq_false] at this
    | some u =>
      have hu := List.find?_some hfind
      simp only [Bool.and_eq_true] at hu
      have hmem := List.mem_of_find?_eq_some hfind
      have hconn : Conn tp m cs A T u := ⟨hT, hmem, hu.2⟩
      have hut := (hconn.tiles hc.small).2
      obtain ⟨u1, u2, u3, u4⟩ := mem_tiles.1 hut
      have huV : u ∉ V := by
        intro huV
        exact F.acyclic u (Relation.TransGen.tail' (hV u huV).2 hconn)
      have hnot : ∀ c', own c' = some (.edge e) → ¬ Over crossings c' u := by
        intro c' h1 h2
        obtain ⟨g, hg, h3⟩ := hown c' h1
        exact huV (onG c' u g hut (hV g hg).1 h2 h3 ▸ hg)
      -- the tile of the new segment
      have hemp : ∀ c : Coord, c.d = false → (st.lyt.isEmptyTile c = true ↔ own c = none) := by
        intro c hcd
        rw [← h.free c hcd]
        unfold State.isEmptyTile State.getNode
        cases hn : st.lyt.tileNode c with
        | none => simp
        | some j =>
          have := (h.wf.live _ _ hn)
          rw [hcd] at this
          simp
          rintro rfl
          simp at this
      have hv : Over crossings (if st.lyt.isEmptyTile u = true then u else Cart.above m u) u ∧
          own (if st.lyt.isEmptyTile u = true then u else Cart.above m u) = none := by
        by_cases hem : st.lyt.isEmptyTile u = true
        · rw [if_pos hem]
          exact ⟨over_self hut, (hemp u u1).1 hem⟩
        · rw [if_neg hem]
          -- what is on `u`
          obtain ⟨i, hi⟩ : ∃ i, own u = some i := by
            cases ho : own u with
            | none => exact absurd ((hemp u u1).2 ho) hem
            | some i => exact ⟨i, rfl⟩
          have hedge : ∀ c : Coord, Over crossings c u → ∀ i, own c = some i → ∃ e', i = .edge e' ∧ A.te u e' = true ∧ e' ∈ R ∧ e' ≠ e := by
            intro c hco i hi
            cases i with
            | node n =>
              obtain ⟨h1, h2, h3⟩ := h.node c n hi
              have : c = u := onG c c u h1 hut (over_self h1) hco
              rw [this] at h2
              exact (F.nodeEdge u hut n (hP n h3) e heE h2 hu.1).elim
            | edge e' =>
              obtain ⟨g, h1, h2, h3, h4⟩ := h.edge c e' hi
              have : g = u := onG c g u h1 hut h2 hco
              rw [this] at h3
              refine ⟨e', rfl, h3, h4, ?_⟩
              rintro rfl
              exact hnot c hi hco
          obtain ⟨e1, rfl, f1, f2, f3⟩ := hedge u (over_self hut) i hi
          have hcr : crossings = true := by
            cases hcr : crossings with
            | true => rfl
            | false => exact absurd (F.edges1 hcr u hut e1 (hR _ f2) e heE f1 hu.1) f3
          have hab : Cart.above m u = ⟨u.x, u.y, 1, false⟩ := by
            obtain ⟨x, y, z, d⟩ := u
            simp only at u1 u2
            subst u1; subst u2
            simp [Cart.above, hZ, hcr]
          have hov : Over crossings (Cart.above m u) u := by
            rw [hab]
            exact ⟨rfl, rfl, rfl, .inr ⟨rfl, hcr⟩⟩
          refine ⟨hov, ?_⟩
          cases ho : own (Cart.above m u) with
          | none => rfl
          | some i =>
            exfalso
            obtain ⟨e2, rfl, g1, g2, g3⟩ := hedge _ hov i ho
            rcases F.edges2 u hut e1 (hR _ f2) e2 (hR _ g2) e heE f1 g1 hu.1 with h1 | h1 | h1
            · subst h1
              have := h.once _ _ u e1 hi ho (over_self hut) hov
              rw [hab] at this
              have h0 := congrArg Coord.z this
              simp only [u2] at h0
              omega
            · exact f3 h1
            · exact g3 h1
      simp only
      generalize (if st.lyt.isEmptyTile u = true then u else Cart.above m u) = v at hv
      obtain ⟨hvo, hvn⟩ := hv
      have hvd := hvo.1
      have hvt := (h.free v hvd).2 hvn
      obtain ⟨p, p1, p2⟩ := Ortho.createGate_placed m h.wf 2 [look st.pos e.1 e.2] hvd hvt
      have hval : ∀ a, TVal tab tp m cs N.pis.length st.lyt a (look st.pos e.1 e.2) (N.value a e.1) := by
        intro a
        rcases h.at_ e he with h1 | h1
        · exact h.val _ _ a h1
        · exact h.val _ _ a h1
      obtain ⟨h', hx⟩ := h.place (P' := P) (it := .edge e) p hvd hvn h.fresh (by rw [p1]; have := h.size; omega) (by rw [p2]; exact h.outputs)
        (fun _ hn => hn) (by intro n hn; cases hn)
        (by
          intro e' hee
          injection hee with hee
          subst hee
          exact ⟨u, hut, hvo, hu.1, he, hnot⟩)
        (by intro j n hj _; exact h.pis_lt hj)
        (fun a => wire_val h.wf h.size hw hvd hvt (flows_of hc hZ hconn hov hvo) (hval a))
      obtain ⟨h'', hl, hne⟩ := h'.moveBranch he (put_self own v (.edge e))
      obtain ⟨st', own', r1, r2, r3, r4, r5, r6⟩ := ih _ _ u (u :: V) h'' hut (by rw [hl]; exact hvo) (List.nodup_cons.2 ⟨huV, hnd⟩)
        (by
          intro t ht
          rcases List.mem_cons.1 ht with rfl | ht
          · exact ⟨hut, .refl⟩
          · exact ⟨(hV t ht).1, (hV t ht).2.tail hconn⟩)
        (by
          intro c' hc'
          by_cases e0 : c' = v
          · exact ⟨u, List.mem_cons_self, e0 ▸ hvo⟩
          · rw [put_ne _ _ e0] at hc'
            obtain ⟨g, hg, h1⟩ := hown c' hc'
            exact ⟨g, List.mem_cons_of_mem _ hg, h1⟩)
        (by rw [List.length_cons]; omega)
      refine ⟨st', own', r1, r2, r3, ?_, ?_, hx.trans r6⟩
      · intro e' he'
        rw [r4 e' he']
        exact hne e' he'
      · intro c i hi
        exact r5 c i (put_old _ hvn hi)

end

end Verif.PhysicalDesign.Exact
