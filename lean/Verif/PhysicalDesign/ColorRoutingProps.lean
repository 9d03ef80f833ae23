import Verif.PhysicalDesign.ColorRoutingRun

/-!
# C81: routing by vertex coloring
-/
namespace Verif.PhysicalDesign.ColorRouting

open Verif.Layouts Verif.Clocking Verif.GateLevel Verif.Paths Verif.Graphs Verif.PhysicalDesign.Ortho

theorem some_none : ∀ l : List (Option Path), l.length = (l.filterMap id).length + (l.filter Option.isNone).length
  | [] => rfl
  | none :: l => by
    have ih := some_none l
    have h : (none :: l).filterMap id = l.filterMap id := rfl
    rw [h, List.filter_cons, if_pos (by rfl), List.length_cons, List.length_cons, ih]
    omega
  | some x :: l => by
    have ih := some_none l
    have h : (some x :: l).filterMap id = x :: l.filterMap id := rfl
    rw [h, List.filter_cons, if_neg (by simp), List.length_cons, List.length_cons, ih]
    omega

section
variable {m : Dim} {tp : Topo} {cs : Scheme} {s : State} {objs : List (Coord × Coord)} (T : Task m s objs)
  {q : Queue Coord Nat} (hq : q.Faithful) {limit : Option Nat} {fuel : Nat} (hf : (m.X + 1) * ((m.Y + 1) * (m.Z + 1)) < fuel)
  {cands : List (List Path)}
  (hcands : List.Forall₂ (fun o ps => candidates q (routingLayout m tp cs s) false limit fuel o = some ps) objs cands)
  {p : Params} {env : Env} (hc : env.Correct p (edgeIntersectionGraph false cands))
include T hq hf hcands hc

omit hc in
theorem cands_routes : List.Forall₂ (fun o ps => o ∈ objs ∧ (∀ p ∈ ps, Route (routingLayout m tp cs s) false o.1 o.2 p) ∧
    (limit = none → ∀ p, Route (routingLayout m tp cs s) false o.1 o.2 p → p ∈ ps)) objs cands := by
  rw [List.forall₂_iff_get] at hcands ⊢
  refine ⟨hcands.1, ?_⟩
  intro i h1 h2
  have hm : objs.get ⟨i, h1⟩ ∈ objs := List.get_mem _ _
  exact ⟨hm, candidates_spec hq T hf hm (hcands.2 i h1 h2)⟩

omit T hf hq hcands hc in
theorem ops_routes {ops : List (Option Path)} (h : List.Forall₂ (fun o x => o ∈ objs ∧ ∀ p, x = some p →
    Route (routingLayout m tp cs s) false o.1 o.2 p) objs ops) :
    ∀ p ∈ ops.filterMap id, ∃ o ∈ objs, Route (routingLayout m tp cs s) false o.1 o.2 p := by
  intro p hp
  rw [List.mem_filterMap] at hp
  obtain ⟨x, hx, he⟩ := hp
  dsimp only [id] at he
  obtain ⟨i, hi, rfl⟩ := List.mem_iff_getElem.1 hx
  rw [List.forall₂_iff_get] at h
  have := h.2 i (by rw [h.1]; exact hi) hi
  exact ⟨_, this.1, this.2 p he⟩

omit hf hq hcands hc in
/-- Laying paths that do not clash. -/
theorem lay_routes {sel routed : List Path} (hr : ∀ p ∈ sel, ∃ o ∈ objs, Route (routingLayout m tp cs s) false o.1 o.2 p)
    (hpw : sel.Pairwise fun p q => ¬ Clash p q) (hperm : routed.Perm sel) :
    WF (routed.foldl (routePath m) s) ∧ Wired s (routed.foldl (routePath m) s) routed := by
  refine route_all m routed s T.wf ?_ ?_
  · intro p hp
    obtain ⟨o, ho, h⟩ := hr p (hperm.mem_iff.1 hp)
    exact route_layable T ho h
  · have h1 : sel.Pairwise fun p q => ∀ c ∈ inner p, c ∉ inner q := by
      refine hpw.imp ?_
      intro p q h c hcp hcq
      exact h (.inr ⟨c, hcp, hcq⟩)
    refine (hperm.pairwise_iff ?_).2 h1
    intro p q h c hcq hcp
    exact h c hcp hcq

omit hc in
/-- What the coloring selects. -/
theorem selected (ho : env.Orders) {f : Nat → Nat}
    (hp : ∀ v ∈ ((edgeIntersectionGraph false cands).graph env).vertices,
      ∀ w ∈ ((edgeIntersectionGraph false cands).graph env).vertices,
      ((edgeIntersectionGraph false cands).graph env).Adj v w → f v ≠ f w) (c : Nat) :
    ∃ ops : List (Option Path), List.Forall₂ (fun o x => o ∈ objs ∧ ∀ p, x = some p →
        Route (routingLayout m tp cs s) false o.1 o.2 p) objs ops ∧
      ops.filterMap id = (classOf (edgeIntersectionGraph false cands) f c).map (pathOf (edgeIntersectionGraph false cands)) ∧
      (ops.filterMap id).Pairwise fun p q => ¬ Clash p q := by
  have hinv := eig_inv false cands
  obtain ⟨ops, h1, h2⟩ := class_spread hinv ho hp c
  have hR := cands_routes T hq hf hcands
  have h3 : List.Forall₂ (fun o x => o ∈ objs ∧ ∀ p, x = some p → Route (routingLayout m tp cs s) false o.1 o.2 p) objs ops :=
    forall2_trans (fun ps o x hRo hx => ⟨hRo.1, fun p hp => hRo.2.1 p (hx p hp)⟩) (List.Forall₂.flip hR) h1
  refine ⟨ops, h3, h2, ?_⟩
  have hpw := class_pairwise hinv ho hp c
  rw [← h2] at hpw
  have hr := ops_routes h3
  refine (List.Pairwise.and_mem.1 hpw).imp ?_
  rintro p q ⟨hpm, hqm, hcf⟩ hcl
  obtain ⟨o, ho1, h4⟩ := hr p hpm
  obtain ⟨o', ho2, h5⟩ := hr q hqm
  rw [← conflict_iff T ho1 ho2 h4 h5, hcf] at hcl
  cases hcl

/-- **C81** (soundness; every engine, solver, path limit and iteration order). Without partial routing and crossings,
`color_routing` never fails unexpectedly. If it returns `false`, the layout is unchanged. If it returns `true`, it has chosen one
permitted route for every objective, no two of which clash, and the layout is the given one with exactly these wires added. -/
theorem C81_sound (hp : p.partialRouting = false) :
    ∃ b s', colorRouting m p false cands env s = .returned (b, s') ∧ (b = false → s' = s) ∧
      (b = true → ∃ sel routed, JointRouting (routingLayout m tp cs s) objs sel ∧ routed.Perm sel ∧ WF s' ∧ Wired s s' routed) := by
  obtain ⟨f, c, chosen, h1, h2, h3, h4, h5⟩ := plan_spec p false cands env hc
  have hinv := eig_inv false cands
  unfold colorRouting
  rw [h5]
  by_cases hx : p.partialRouting = false ∧ (0 < (edgeIntersectionGraph false cands).unroutable ∨
      (classOf (edgeIntersectionGraph false cands) f c).length ≠ (edgeIntersectionGraph false cands).cliques.length)
  · rw [if_pos hx]
    exact ⟨false, s, rfl, fun _ => rfl, fun h => by cases h⟩
  · rw [if_neg hx]
    refine ⟨true, _, rfl, fun h => (by cases h), fun _ => ?_⟩
    have hu : (edgeIntersectionGraph false cands).unroutable = 0 := by
      by_contra hne
      exact hx ⟨hp, .inl (by omega)⟩
    have hlen : (classOf (edgeIntersectionGraph false cands) f c).length = (edgeIntersectionGraph false cands).cliques.length := by
      by_contra hne
      exact hx ⟨hp, .inr hne⟩
    obtain ⟨ops, g1, g2, g3⟩ := selected T hq hf hcands hc.1 h1 c
    obtain ⟨-, hfull⟩ := class_full hinv hc.1 h1 c hlen
    rw [hinv.unroutable] at hu
    rw [filter_unroutable hu] at hfull
    have hR := cands_routes T hq hf hcands
    have hsel : List.Forall₂ (fun o p => Route (routingLayout m tp cs s) false o.1 o.2 p) objs
        ((classOf (edgeIntersectionGraph false cands) f c).map (pathOf (edgeIntersectionGraph false cands))) :=
      forall2_trans (fun ps o x hRo hx => hRo.2.1 x hx) (List.Forall₂.flip hR) hfull
    rw [← g2] at hsel
    have hperm : (chosen.map (pathOf (edgeIntersectionGraph false cands))).Perm (ops.filterMap id) := by
      rw [g2]; exact h2.map _
    obtain ⟨k1, k2⟩ := lay_routes T (ops_routes g1) g3 hperm
    exact ⟨_, _, ⟨hsel, g3⟩, hperm, k1, k2⟩

/-- **C81** (completeness of the exact engine). With the SAT engine, all paths and neither partial routing nor `partial_sat`,
`color_routing` returns `true` if and only if the objectives can be routed together. -/
theorem C81_iff (hl : limit = none) (hp : p.partialRouting = false) (hsat : p.sat = true) (hps : p.partialSat = false) :
    ∃ b s', colorRouting m p false cands env s = .returned (b, s') ∧
      (b = true ↔ ∃ sel, JointRouting (routingLayout m tp cs s) objs sel) := by
  obtain ⟨b, s', e1, -, e3⟩ := C81_sound T hq hf hcands hc hp
  refine ⟨b, s', e1, fun hb => ?_, ?_⟩
  · obtain ⟨sel, _, h, _⟩ := e3 hb
    exact ⟨sel, h⟩
  rintro ⟨sel, hj1, hj2⟩
  obtain ⟨f, c, chosen, h1, h2, h3, h4, h5⟩ := plan_spec p false cands env hc
  have hinv := eig_inv false cands
  have hR := cands_routes T hq hf hcands
  -- the routing is among the candidates
  have hmem : List.Forall₂ (fun ps p => p ∈ ps) cands sel :=
    forall2_trans (fun o ps x hRo hx => hRo.2.2 hl x hx) hR hj1
  have hne : ∀ ps ∈ cands, ps ≠ [] := by
    intro ps hps hn
    obtain ⟨i, hi, rfl⟩ := List.mem_iff_getElem.1 hps
    rw [List.forall₂_iff_get] at hmem
    have := hmem.2 i hi (by rw [← hmem.1]; exact hi)
    simp only [List.get_eq_getElem] at this
    rw [hn] at this
    cases this
  have hz : (cands.filter fun ps => ps.isEmpty).length = 0 := by
    rw [List.length_eq_zero_iff, List.filter_eq_nil_iff]
    intro ps hps
    have := hne ps hps
    simpa using this
  have hu : (edgeIntersectionGraph false cands).unroutable = 0 := by rw [hinv.unroutable, hz]
  have hall : (cands.filter fun ps => !ps.isEmpty) = cands := filter_unroutable hz
  have hconf : sel.Pairwise fun p q => conflict false q p = false := by
    have hr : ∀ p ∈ sel, ∃ o ∈ objs, Route (routingLayout m tp cs s) false o.1 o.2 p := by
      intro p hp
      obtain ⟨i, hi, rfl⟩ := List.mem_iff_getElem.1 hp
      rw [List.forall₂_iff_get] at hj1
      exact ⟨_, List.get_mem _ _, hj1.2 i (by rw [hj1.1]; exact hi) hi⟩
    refine (List.Pairwise.and_mem.1 hj2).imp ?_
    rintro p q ⟨hpm, hqm, hcl⟩
    obtain ⟨o, ho1, k1⟩ := hr p hpm
    obtain ⟨o', ho2, k2⟩ := hr q hqm
    rw [← conflict_iff T ho1 ho2 k1 k2] at hcl
    simpa using hcl
  have hlen : (classOf (edgeIntersectionGraph false cands) f c).length = (edgeIntersectionGraph false cands).cliques.length := by
    refine Nat.le_antisymm (class_le hinv hc.1 h1 c) ?_
    by_cases hpe : (edgeIntersectionGraph false cands).paths = []
    · have hcl : (edgeIntersectionGraph false cands).cliques = [] := by
        rw [List.eq_nil_iff_forall_not_mem]
        intro cl hcm
        have hb := hinv.blocks
        rw [hall, List.forall₂_iff_get] at hb
        obtain ⟨i, hi, rfl⟩ := List.mem_iff_getElem.1 hcm
        have hx := hne _ (List.get_mem cands ⟨i, by rw [← hb.1]; exact hi⟩)
        have := hinv.paths
        rw [hpe] at this
        have h0 := (List.flatten_eq_nil_iff.1 this.symm) _ (List.get_mem cands ⟨i, by rw [← hb.1]; exact hi⟩)
        exact hx h0
      rw [hcl]
      simp
    · obtain ⟨c', hc'⟩ := h4 hsat hps hpe (transversal_of_choice hinv hc.1 (by rw [hall]; exact hmem) hconf)
      exact Nat.le_trans (class_ge hinv c' hc') (h3 c')
  unfold colorRouting at e1
  rw [h5, if_neg (by
    rintro ⟨-, hx | hx⟩
    · omega
    · exact hx hlen)] at e1
  dsimp only at e1
  injection e1 with e1
  exact (congrArg Prod.fst e1).symm

/-- **C81** (partial routing; every engine). With partial routing the call returns `true`; at most one route is laid for every
objective, no two of them clash, the layout is the given one with these wires added, and the reported number is that of the
objectives without a route. -/
theorem C81_partial_routing (hp : p.partialRouting = true) :
    ∃ s' ops routed, colorRouting m p false cands env s = .returned (true, s') ∧
      plan p false cands env = .returned (true, routed, some (ops.filter Option.isNone).length) ∧
      List.Forall₂ (fun o x => ∀ p, x = some p → Route (routingLayout m tp cs s) false o.1 o.2 p) objs ops ∧
      routed.Perm (ops.filterMap id) ∧ (routed.Pairwise fun p q => ¬ Clash p q) ∧ WF s' ∧ Wired s s' routed := by
  obtain ⟨f, c, chosen, h1, h2, h3, h4, h5⟩ := plan_spec p false cands env hc
  rw [if_neg (by rintro ⟨hx, -⟩; rw [hp] at hx; cases hx)] at h5
  obtain ⟨ops, g1, g2, g3⟩ := selected T hq hf hcands hc.1 h1 c
  have hperm : (chosen.map (pathOf (edgeIntersectionGraph false cands))).Perm (ops.filterMap id) := by
    rw [g2]; exact h2.map _
  obtain ⟨k1, k2⟩ := lay_routes T (ops_routes g1) g3 hperm
  have hnum : (ops.filter Option.isNone).length = cands.length - chosen.length := by
    have e1 : cands.length = ops.length := by rw [← hcands.length_eq, g1.length_eq]
    have e2 : chosen.length = (ops.filterMap id).length := by rw [← hperm.length_eq, List.length_map]
    have := some_none ops
    omega
  refine ⟨_, ops, chosen.map (pathOf (edgeIntersectionGraph false cands)), ?_, ?_, g1.imp fun _ _ h => h.2, hperm, ?_, k1, k2⟩
  · unfold colorRouting
    rw [h5]
  · rw [h5, hnum]
  · refine (hperm.pairwise_iff ?_).2 g3
    intro p q h hcl
    refine h ?_
    rcases hcl with ⟨a, b⟩ | ⟨d, a, b⟩
    · exact .inl ⟨a.symm, b.symm⟩
    · exact .inr ⟨d, b, a⟩

end

theorem consec_iff (a b : Coord) : ∀ r : Path, (a, b) ∈ r.zip r.tail ↔ [a, b] <:+: r
  | [] => by simp
  | [x] => by simp [List.infix_cons_iff]
  | x :: y :: r => by
    have ih := consec_iff a b (y :: r)
    rw [List.tail_cons] at ih ⊢
    rw [List.zip_cons_cons, List.mem_cons, ih, List.infix_cons_iff (a := x), List.cons_prefix_cons, List.cons_prefix_cons]
    simp

/-- **C81** (crossings). With crossings, the routes that are laid are one for every objective (at most one with partial routing), and
no two of them have two consecutive tiles in common or connect the same tiles. -/
theorem C81_crossings (cands : List (List Path)) (p : Params) (env : Env) (hc : env.Correct p (edgeIntersectionGraph true cands)) :
    ∃ b ops routed n, plan p true cands env = .returned (b, routed, n) ∧ (b = false → routed = []) ∧
      (b = true → List.Forall₂ (fun ps x => ∀ p, x = some p → p ∈ ps) cands ops ∧ routed.Perm (ops.filterMap id) ∧
        (p.partialRouting = false → none ∉ ops) ∧
        (ops.filterMap id).Pairwise fun r1 r2 => ¬ (r1.head? = r2.head? ∧ r1.getLast? = r2.getLast?) ∧
          ∀ a b, [a, b] <:+: r1 → ¬ [a, b] <:+: r2) := by
  obtain ⟨f, c, chosen, h1, h2, h3, h4, h5⟩ := plan_spec p true cands env hc
  have hinv := eig_inv true cands
  by_cases hx : p.partialRouting = false ∧ (0 < (edgeIntersectionGraph true cands).unroutable ∨
      (classOf (edgeIntersectionGraph true cands) f c).length ≠ (edgeIntersectionGraph true cands).cliques.length)
  · rw [if_pos hx] at h5
    exact ⟨false, [], [], none, h5, fun _ => rfl, fun h => by cases h⟩
  · rw [if_neg hx] at h5
    obtain ⟨ops, g1, g2⟩ := class_spread hinv hc.1 h1 c
    refine ⟨true, ops, _, _, h5, fun h => (by cases h), fun _ => ⟨g1, ?_, ?_, ?_⟩⟩
    · rw [g2]; exact h2.map _
    · intro hp hm
      have hu : (edgeIntersectionGraph true cands).unroutable = 0 := by
        by_contra hne
        exact hx ⟨hp, .inl (by omega)⟩
      have hlen : (classOf (edgeIntersectionGraph true cands) f c).length = (edgeIntersectionGraph true cands).cliques.length := by
        by_contra hne
        exact hx ⟨hp, .inr hne⟩
      rw [hinv.unroutable] at hu
      have hb := hinv.blocks.length_eq
      rw [filter_unroutable hu] at hb
      have e1 : (ops.filterMap id).length = cands.length := by rw [g2, List.length_map, hlen, hb]
      have e2 := g1.length_eq
      have e3 := some_none ops
      have e4 : none ∈ ops.filter Option.isNone := List.mem_filter.2 ⟨hm, rfl⟩
      have e5 : (ops.filter Option.isNone) = [] := by
        rw [← List.length_eq_zero_iff]; omega
      rw [e5] at e4
      cases e4
    · rw [g2]
      refine (class_pairwise hinv hc.1 h1 c).imp ?_
      intro r1 r2 hcf
      unfold conflict hasOverlapWith sameEnds sharesTwo at hcf
      simp only [if_true, Bool.or_eq_false_iff, Bool.and_eq_false_iff, beq_eq_false_iff_ne, List.any_eq_false] at hcf
      refine ⟨?_, ?_⟩
      · rintro ⟨a, b⟩
        rcases hcf.1 with h | h
        · exact h a.symm
        · exact h b.symm
      · intro a b ha hb
        refine hcf.2 (a, b) ((consec_iff a b r1).2 ha) ?_
        rw [List.contains_iff_mem]
        exact (consec_iff a b r2).2 hb

/-! ## What does not hold -/

/-- **C81** is false of repeated objectives: two objectives with the same source and target are never routed together, although there
may be disjoint wires (`parallel_routes`). -/
theorem C81_false_parallel {m : Dim} {tp : Topo} {cs : Scheme} {s : State} {o : Coord × Coord} (T : Task m s [o, o])
    {q : Queue Coord Nat} (hq : q.Faithful) {limit : Option Nat} {fuel : Nat} (hf : (m.X + 1) * ((m.Y + 1) * (m.Z + 1)) < fuel)
    {cands : List (List Path)}
    (hcands : List.Forall₂ (fun o ps => candidates q (routingLayout m tp cs s) false limit fuel o = some ps) [o, o] cands)
    {p : Params} {env : Env} (hc : env.Correct p (edgeIntersectionGraph false cands)) (hp : p.partialRouting = false) :
    colorRouting m p false cands env s = .returned (false, s) := by
  obtain ⟨b, s', h1, h2, h3⟩ := C81_sound T hq hf hcands hc hp
  cases b with
  | false => rw [h1, h2 rfl]
  | true =>
    obtain ⟨sel, _, ⟨hf, hpw⟩, -⟩ := h3 rfl
    cases hf with
    | cons a1 t =>
      cases t with
      | cons a2 t =>
        rw [List.pairwise_cons] at hpw
        exact absurd (.inl ⟨by rw [a1.head, a2.head], by rw [a1.last, a2.last]⟩) (hpw.1 _ (List.mem_cons_self ..))

/-- A tile of the ground layer. -/
def g0 (x y : Nat) : Coord := ⟨x, y, 0, false⟩

/-- A flat layout of three by three tiles. -/
def flat : Dim := ⟨2, 2, 0⟩

/-- The clocking of the examples. -/
def wave : Scheme := twoddwaveClocking .cart .four

/-- Gates at (0, 0) and (1, 1). -/
def pairState : State := (init.createGate flat 4 [] (g0 0 0)).createGate flat 4 [] (g0 1 1)

theorem parallel_routes : ∃ p1 p2 : Path, Route (routingLayout flat .cart wave pairState) false (g0 0 0) (g0 1 1) p1 ∧
    Route (routingLayout flat .cart wave pairState) false (g0 0 0) (g0 1 1) p2 ∧ ∀ c, c ∈ inner p1 → c ∉ inner p2 := by
  refine ⟨[g0 0 0, g0 1 0, g0 1 1], [g0 0 0, g0 0 1, g0 1 1], by decide +kernel, by decide +kernel, ?_⟩
  decide

theorem pair_wf : WF pairState :=
  (createGate_placed flat (createGate_placed flat WF.init 4 [] (t := g0 0 0) rfl rfl).1.wf 4 [] (t := g0 1 1) rfl (by decide)).1.wf

theorem pair_task (objs : List (Coord × Coord)) (h : ∀ o ∈ objs, o = (g0 0 0, g0 1 1)) : Task flat pairState objs where
  wf := pair_wf
  const := by decide
  width := by decide
  height := by decide
  source := by intro o ho; rw [h o ho]; decide
  target := by intro o ho; rw [h o ho]; decide
  distinct := by intro o ho; rw [h o ho]; decide

/-- Gates at (0, 1), (1, 0), (2, 1) and (1, 2). -/
def crossState : State :=
  (((init.createGate flat 4 [] (g0 0 1)).createGate flat 4 [] (g0 1 0)).createGate flat 4 [] (g0 2 1)).createGate flat 4 [] (g0 1 2)

def crossObjs : List (Coord × Coord) := [(g0 0 1, g0 2 1), (g0 1 0, g0 1 2)]

def crossPaths : List (List Path) := [[[g0 0 1, g0 1 1, g0 2 1]], [[g0 1 0, g0 1 1, g0 1 2]]]

/-- An environment for the heuristic engines. -/
def heuristicEnv (h : Heuristic) : Env := ⟨id, id, id, fun _ => none, h⟩

theorem cross_wf : WF crossState :=
  (createGate_placed flat (createGate_placed flat (createGate_placed flat (createGate_placed flat WF.init 4 [] (t := g0 0 1) rfl rfl).1.wf
    4 [] (t := g0 1 0) rfl (by decide)).1.wf 4 [] (t := g0 2 1) rfl (by decide)).1.wf 4 [] (t := g0 1 2) rfl (by decide)).1.wf

/-- **C81** is false of crossings in a layout without a crossing layer: the call returns `true`, but the wires of two objectives that
cross overwrite each other: both targets are fed by the source of the second objective. -/
theorem C81_false_flat : ∃ (m : Dim) (cs : Scheme) (s : State) (objs : List (Coord × Coord)) (cands : List (List Path)) (p : Params)
    (env : Env) (s' : State) (n1 n2 n3 : Nat), Task m s objs ∧ objs = [(g0 0 1, g0 2 1), (g0 1 0, g0 1 2)] ∧
    p.partialRouting = false ∧
    List.Forall₂ (fun o ps => candidates (stdQueue Coord Nat) (routingLayout m .cart cs s) true none 20 o = some ps) objs cands ∧
    env.Correct p (edgeIntersectionGraph true cands) ∧ colorRouting m p true cands env s = .returned (true, s') ∧
    s'.tileNode (g0 2 1) = some n1 ∧ s'.tileNode (g0 1 2) = some n2 ∧ s'.tileNode (g0 1 1) = some n3 ∧
    (s'.nodes n1).children = [g0 1 1] ∧ (s'.nodes n2).children = [g0 1 1] ∧ (s'.nodes n3).children = [g0 1 0] := by
  have key : (match colorRouting flat ⟨false, false, false⟩ true crossPaths (heuristicEnv ⟨[(0, 0), (1, 0)], 1⟩) crossState with
      | .returned r => decide (r.1 = true ∧ r.2.tileNode (g0 2 1) = some 4 ∧ r.2.tileNode (g0 1 2) = some 5 ∧
        r.2.tileNode (g0 1 1) = some 7 ∧ (r.2.nodes 4).children = [g0 1 1] ∧ (r.2.nodes 5).children = [g0 1 1] ∧
        (r.2.nodes 7).children = [g0 1 0])
      | _ => false) = true := by decide +kernel
  cases hr : colorRouting flat ⟨false, false, false⟩ true crossPaths (heuristicEnv ⟨[(0, 0), (1, 0)], 1⟩) crossState with
  | broken => rw [hr] at key; cases key
  | nothing => rw [hr] at key; cases key
  | returned r =>
    rw [hr] at key
    dsimp only at key
    obtain ⟨k1, k2, k3, k4, k5, k6, k7⟩ := of_decide_eq_true key
    obtain ⟨b, s'⟩ := r
    dsimp only at k1
    subst k1
    refine ⟨flat, wave, crossState, crossObjs, crossPaths, ⟨false, false, false⟩, heuristicEnv ⟨[(0, 0), (1, 0)], 1⟩, s', 4, 5, 7,
      ⟨cross_wf, by decide, by decide, by decide, by decide, by decide, by decide⟩, rfl, rfl,
      .cons (by decide +kernel) (.cons (by decide +kernel) .nil), ⟨?_, ?_, ?_⟩, hr, k2, k3, k4, k5, k6, k7⟩
    · exact ⟨fun l => .refl _, fun l => .refl _, fun l => .refl _⟩
    · refine ⟨fun _ => 0, ?_, ?_, ?_⟩
      · exact List.Perm.refl _
      · intro v _; exact Nat.zero_lt_one
      · intro v _ w _ h
        have he : ((edgeIntersectionGraph true crossPaths).graph (heuristicEnv ⟨[(0, 0), (1, 0)], 1⟩)).edges = [] := by decide
        unfold Graph.Adj at h
        rw [he] at h
        rcases h with h | h <;> cases h
    · intro sp h
      cases h

/-! ## The hypotheses can be met -/

/-- For every instance there is a correct solver. -/
theorem exists_exact (g : Graph) (p : SatParams) : ∃ solve, Exact g p solve := by
  classical
  refine ⟨fun k => if h : ∃ a, Instance g p k a then some h.choose else none, ?_, ?_⟩
  · intro k a h
    dsimp only at h
    split_ifs at h with h1
    injection h with h
    rw [← h]
    exact h1.choose_spec
  · intro k h a ha
    dsimp only at h
    split_ifs at h with h1
    exact h1 ⟨a, ha⟩

/-- For every edge intersection graph there is a correct environment. -/
theorem exists_correct (p : Params) (crossings : Bool) (cands : List (List Path)) :
    ∃ env : Env, env.Correct p (edgeIntersectionGraph crossings cands) := by
  have hinv := eig_inv crossings cands
  generalize edgeIntersectionGraph crossings cands = e at hinv
  have ho : ∀ solve h, Env.Orders ⟨id, id, id, solve, h⟩ :=
    fun _ _ => ⟨fun _ => .refl _, fun _ => .refl _, fun _ => .refl _⟩
  obtain ⟨solve, hs⟩ := exists_exact ⟨List.range e.paths.length, e.edges⟩ ⟨.ascending, e.cliques, !p.partialSat⟩
  refine ⟨⟨id, id, id, solve, ⟨(List.range e.paths.length).map fun v => (v, v), e.paths.length⟩⟩, ho _ _, ?_, ?_⟩
  · refine ⟨id, List.Perm.refl _, ?_, ?_⟩
    · intro v hv
      exact List.mem_range.1 hv
    · intro v _ w _ h he
      have he : v = w := he
      subst he
      rcases h with h | h <;> exact (hinv.ends _ h).2.2 rfl
  · intro sp h
    unfold coloringParams at h
    split_ifs at h
    injection h with h
    subst h
    exact hs

/-- The hypotheses of `C81_iff` are met: the objective from (0, 0) to (1, 1) has two candidates, and is routed whatever the solver. -/
example : ∃ (env : Env) (s' : State), env.Correct {} (edgeIntersectionGraph false
      [[[g0 0 0, g0 1 0, g0 1 1], [g0 0 0, g0 0 1, g0 1 1]]]) ∧
    colorRouting flat {} false [[[g0 0 0, g0 1 0, g0 1 1], [g0 0 0, g0 0 1, g0 1 1]]] env pairState = .returned (true, s') := by
  obtain ⟨env, hc⟩ := exists_correct {} false [[[g0 0 0, g0 1 0, g0 1 1], [g0 0 0, g0 0 1, g0 1 1]]]
  obtain ⟨b, s', h1, h2⟩ := C81_iff (tp := .cart) (cs := wave) (objs := [(g0 0 0, g0 1 1)]) (fuel := 20) (pair_task _ (by simp))
    stdQueue_faithful (by decide) (.cons (by decide +kernel) .nil) hc rfl rfl rfl rfl
  have hb : b = true := h2.2 ⟨[[g0 0 0, g0 1 0, g0 1 1]], .cons (by decide +kernel) .nil, by simp⟩
  rw [hb] at h1
  exact ⟨env, s', hc, h1⟩

/-- The hypotheses of `C81_false_parallel` are met. -/
example : ∃ env : Env, colorRouting flat {} false [[[g0 0 0, g0 1 0, g0 1 1], [g0 0 0, g0 0 1, g0 1 1]],
    [[g0 0 0, g0 1 0, g0 1 1], [g0 0 0, g0 0 1, g0 1 1]]] env pairState = .returned (false, pairState) := by
  obtain ⟨env, hc⟩ := exists_correct {} false [[[g0 0 0, g0 1 0, g0 1 1], [g0 0 0, g0 0 1, g0 1 1]],
    [[g0 0 0, g0 1 0, g0 1 1], [g0 0 0, g0 0 1, g0 1 1]]]
  exact ⟨env, C81_false_parallel (tp := .cart) (cs := wave) (o := (g0 0 0, g0 1 1)) (fuel := 20) (limit := none) (pair_task _ (by simp))
    stdQueue_faithful (by decide) (.cons (by decide +kernel) (.cons (by decide +kernel) .nil)) hc rfl⟩

/-- Partial routing of the two objectives that cross: one of them is routed. -/
example : (match plan ⟨true, false, false⟩ false crossPaths (heuristicEnv ⟨[(0, 0), (1, 1)], 2⟩) with
    | .returned r => some (r.1, r.2.1.length, r.2.2)
    | _ => none) = some (true, 1, some 1) := by decide +kernel

end Verif.PhysicalDesign.ColorRouting
