import Verif.PhysicalDesign.ColorRoutingSelect
import Verif.PhysicalDesign.ColorRoutingWire
import Verif.Paths.EnumProps
import Verif.Paths.YenProps

namespace Verif.PhysicalDesign.ColorRouting

open Verif.Layouts Verif.Clocking Verif.GateLevel Verif.Paths Verif.Graphs

/-! ## The decision -/

theorem count_class {e : Eig} {env : Env} (ho : env.Orders) (f : Nat → Nat) (c : Nat) :
    count (e.graph env) f c = (classOf e f c).length := by
  unfold count classOf Eig.graph
  exact ((ho.1 _).filter _).length_eq

theorem plan_spec (p : Params) (crossings : Bool) (cands : List (List Path)) (env : Env)
    (hc : env.Correct p (edgeIntersectionGraph crossings cands)) :
    ∃ (f : Nat → Nat) (c : Nat) (chosen : List Nat),
      (∀ v ∈ ((edgeIntersectionGraph crossings cands).graph env).vertices,
        ∀ w ∈ ((edgeIntersectionGraph crossings cands).graph env).vertices,
        ((edgeIntersectionGraph crossings cands).graph env).Adj v w → f v ≠ f w) ∧
      chosen.Perm (classOf (edgeIntersectionGraph crossings cands) f c) ∧
      (∀ c', (classOf (edgeIntersectionGraph crossings cands) f c').length ≤
        (classOf (edgeIntersectionGraph crossings cands) f c).length) ∧
      (p.sat = true → p.partialSat = false → (edgeIntersectionGraph crossings cands).paths ≠ [] →
        (∃ t, Transversal ((edgeIntersectionGraph crossings cands).graph env) (edgeIntersectionGraph crossings cands).cliques t) →
        ∃ c', ∀ cl ∈ (edgeIntersectionGraph crossings cands).cliques, ∃ v ∈ cl, f v = c') ∧
      plan p crossings cands env =
        if p.partialRouting = false ∧ (0 < (edgeIntersectionGraph crossings cands).unroutable ∨
          (classOf (edgeIntersectionGraph crossings cands) f c).length ≠ (edgeIntersectionGraph crossings cands).cliques.length)
        then .returned (false, [], none)
        else .returned (true, chosen.map (pathOf (edgeIntersectionGraph crossings cands)),
          some (cands.length - chosen.length)) := by
  have hinv := eig_inv crossings cands
  generalize he : edgeIntersectionGraph crossings cands = e at *
  obtain ⟨r, f, hr, hd, ht⟩ := coloring_delivered hinv hc
  have ho := hc.1
  have wf := graph_wf hinv ho
  have hat : ∀ v ∈ (e.graph env).vertices, r.at v = some (f v) := fun v hv => hd.at wf hv
  have hfilter : ((e.graph env).vertices.filter fun v => r.at v == some r.mostFrequent) =
      (e.graph env).vertices.filter fun v => f v == r.mostFrequent := by
    refine List.filter_congr ?_
    intro v hv
    rw [hat v hv]
    rfl
  have hfreq := hd.freq
  rw [count_class ho] at hfreq
  refine ⟨f, r.mostFrequent, (e.graph env).vertices.filter fun v => f v == r.mostFrequent, hd.proper, ?_, ?_, ?_, ?_⟩
  · exact (ho.1 _).filter _
  · intro c'
    rw [← hfreq, ← count_class ho]
    exact hd.most c'
  · intro h1 h2 h3 h4
    obtain ⟨k, c, -, h5⟩ := ht h1 h2 h3 h4
    exact ⟨c, h5⟩
  · unfold plan
    rw [he]
    dsimp only
    rw [hr]
    dsimp only
    rw [hfilter, hfreq]
    have hany : ((e.graph env).vertices.any fun v => (r.at v).isNone) = false := by
      rw [List.any_eq_false]
      intro v hv
      rw [hat v hv]
      simp
    rw [hany]
    cases p.partialRouting with
    | true => simp [pathOf]
    | false =>
      by_cases h1 : 0 < e.unroutable
      · simp [h1]
      · by_cases h2 : (classOf e f r.mostFrequent).length = e.cliques.length
        · simp [h1, h2, pathOf]
        · simp [h1, h2]

/-! ## Routes -/

/-- The objectives of `color_routing`: the layout is well-formed, and every objective leads from an occupied tile to another one in
the ground layer. -/
structure Task (m : Dim) (s : State) (objs : List (Coord × Coord)) : Prop where
  wf : WF s
  const : s.isWire 0 = false
  width : m.X < 2 ^ 31 - 1
  height : m.Y < 2 ^ 31 - 1
  source : ∀ o ∈ objs, InBounds m o.1 ∧ s.isEmptyTile o.1 = false
  target : ∀ o ∈ objs, InBounds m o.2 ∧ o.2.z = 0 ∧ s.isEmptyTile o.2 = false
  distinct : ∀ o ∈ objs, o.1 ≠ o.2

theorem enumMove_iff (l : RLayout) (t u v : Coord) : EnumMove l false t u v ↔ Move l false t u v := by
  unfold EnumMove Move
  simp only [Bool.false_eq_true, false_and, or_false]
  constructor
  · rintro ⟨n, h1, h2, h3, h4⟩; exact ⟨n, h1, h2, h4, h3⟩
  · rintro ⟨n, h1, h2, h4, h3⟩; exact ⟨n, h1, h2, h3, h4⟩

theorem enumMove_eq (l : RLayout) (t : Coord) : EnumMove l false t = Move l false t := by
  funext u v
  exact propext (enumMove_iff l t u v)

theorem withObs_nil (l : RLayout) : l.withObs ⟨[], []⟩ = l := by
  unfold RLayout.withObs
  simp

theorem crossable_obstructed {m : Dim} {tp : Topo} {cs : Scheme} {s : State} (h0 : s.isWire 0 = false) (u c : Coord)
    (h : (routingLayout m tp cs s).crossable u c = true) : (routingLayout m tp cs s).obstructed c = true := by
  simp only [routingLayout] at h ⊢
  unfold isCrossableWire at h
  dsimp only at h
  split_ifs at h with h1
  unfold State.isEmptyTile
  by_contra hc
  have : s.getNode c = 0 := by simpa using hc
  rw [this] at h1
  simp [h0] at h1

section
variable {m : Dim} {tp : Topo} {cs : Scheme} {s : State} {objs : List (Coord × Coord)}

/-- The candidates are routes; without a limit all of them are. -/
theorem candidates_spec {q : Queue Coord Nat} (hq : q.Faithful) (T : Task m s objs) {limit : Option Nat} {fuel : Nat}
    (hf : (m.X + 1) * ((m.Y + 1) * (m.Z + 1)) < fuel)
    {o : Coord × Coord} (ho : o ∈ objs) {ps : List Path} (h : candidates q (routingLayout m tp cs s) false limit fuel o = some ps) :
    (∀ p ∈ ps, Route (routingLayout m tp cs s) false o.1 o.2 p) ∧
      (limit = none → ∀ p, Route (routingLayout m tp cs s) false o.1 o.2 p → p ∈ ps) := by
  unfold candidates at h
  cases limit with
  | none =>
    dsimp only at h
    obtain ⟨ps', h1, -, h2⟩ := C24_exact (routingLayout m tp cs s) T.width T.height false o.1 o.2 (T.source o ho).1 fuel hf
    rw [h] at h1
    injection h1 with h1
    subst h1
    rw [enumMove_eq] at h2
    refine ⟨fun p hp => ?_, fun _ p hp => (h2 p).2 ⟨hp.head, hp.last, hp.nodup, hp.chain⟩⟩
    obtain ⟨a, b, c, d⟩ := (h2 p).1 hp
    exact ⟨a, b, c, d⟩
  | some k =>
    dsimp only at h
    obtain ⟨⟨res, o'⟩, h1, h2⟩ := Option.map_eq_some_iff.1 h
    dsimp only at h2
    subst h2
    have := (C67_paths q hq (routingLayout m tp cs s) T.width T.height ⟨[], []⟩ false o.1 o.2 (T.source o ho).1 (T.target o ho).1
      (T.target o ho).2.1 (crossable_obstructed T.const) k fuel h1).1
    rw [withObs_nil] at this
    exact ⟨this, fun h => by cases h⟩

/-- Candidates exist for every objective. -/
theorem candidates_total {q : Queue Coord Nat} (T : Task m s objs) {fuel : Nat}
    (hf : (m.X + 1) * ((m.Y + 1) * (m.Z + 1)) < fuel) {o : Coord × Coord} (ho : o ∈ objs) :
    ∃ ps, candidates q (routingLayout m tp cs s) false none fuel o = some ps := by
  obtain ⟨ps', h1, -⟩ := C24_exact (routingLayout m tp cs s) T.width T.height false o.1 o.2 (T.source o ho).1 fuel hf
  exact ⟨ps', h1⟩

theorem chain_later {l : RLayout} (hX : l.m.X < 2 ^ 31 - 1) (hY : l.m.Y < 2 ^ 31 - 1) {t : Coord} :
    ∀ {p : Path} {a : Coord}, InBounds l.m a → (a :: p).IsChain (Move l false t) →
    ∀ c ∈ p, InBounds l.m c ∧ (l.obstructed c = false ∨ c = t)
  | [], _, _, _, c, hc => by cases hc
  | b :: p, a, ha, h, c, hc => by
    rw [List.isChain_cons_cons] at h
    have hb := Move.inBounds hX hY ha h.1
    rcases List.mem_cons.1 hc with he | hc
    · rw [he]
      refine ⟨hb, ?_⟩
      obtain ⟨n, -, -, h2, -⟩ := h.1
      exact h2
    · exact chain_later hX hY hb h.2 c hc

/-- The shape of a route between two different tiles. -/
theorem route_shape {l : RLayout} {a b : Coord} {p : Path} (hab : a ≠ b) (h : Route l false a b p) :
    p = a :: (inner p ++ [b]) ∧ 2 ≤ p.length := by
  have hl : 2 ≤ p.length := by
    match p, h.head, h.last with
    | [], h1, _ => simp at h1
    | [x], h1, h2 =>
      simp at h1 h2
      exact absurd (h1.symm.trans h2) hab
    | x :: y :: p, _, _ => simp
  obtain ⟨x, y, hp⟩ := path_shape hl
  have h1 := h.head
  have h2 := h.last
  rw [hp] at h1 h2
  rw [List.head?_cons, Option.some.injEq] at h1
  rw [← List.cons_append, List.getLast?_append] at h2
  simp at h2
  rw [h1, h2] at hp
  exact ⟨hp, hl⟩

/-- The inner tiles of a route are free. -/
theorem route_inner (T : Task m s objs) {o : Coord × Coord} (ho : o ∈ objs) {p : Path}
    (h : Route (routingLayout m tp cs s) false o.1 o.2 p) :
    ∀ c ∈ inner p, c.d = false ∧ s.isEmptyTile c = true := by
  obtain ⟨hp, -⟩ := route_shape (T.distinct o ho) h
  intro c hc
  have hch := h.chain
  rw [hp] at hch
  obtain ⟨h1, h2⟩ := chain_later T.width T.height (T.source o ho).1 hch c (List.mem_append.2 (.inl hc))
  refine ⟨h1.1, ?_⟩
  rcases h2 with h2 | h2
  · simpa [routingLayout] using h2
  · have hn := h.nodup
    rw [hp, List.nodup_cons, List.nodup_append'] at hn
    exact absurd h2 (by rintro rfl; exact hn.2.2.2 hc (by simp))

/-- A route can be laid. -/
theorem route_layable (T : Task m s objs) {o : Coord × Coord} (ho : o ∈ objs) {p : Path}
    (h : Route (routingLayout m tp cs s) false o.1 o.2 p) : Layable s p := by
  obtain ⟨hp, hl⟩ := route_shape (T.distinct o ho) h
  refine ⟨hl, ?_, ?_, ?_⟩
  · intro c hc
    obtain ⟨h1, h2⟩ := route_inner T ho h c hc
    exact ⟨h1, (empty_iff T.wf h1).1 h2⟩
  · have hn := h.nodup
    rw [hp, List.nodup_cons, List.nodup_append'] at hn
    exact hn.2.1
  · have hlast : p.getLastD const0 = o.2 := by rw [List.getLastD_eq_getLast?, h.last]; rfl
    rw [hlast]
    have ht := T.target o ho
    refine ⟨ht.1.1, ?_⟩
    cases hx : s.tileNode o.2 with
    | none =>
      have := (empty_iff T.wf ht.1.1).2 hx
      rw [ht.2.2] at this
      cases this
    | some n => exact ⟨n, rfl⟩

theorem mem_inner {p : Path} {a b c : Coord} (hp : p = a :: (inner p ++ [b])) : c ∈ p ↔ c = a ∨ c ∈ inner p ∨ c = b := by
  have : c ∈ p ↔ c ∈ a :: (inner p ++ [b]) := by rw [← hp]
  rw [this, List.mem_cons, List.mem_append, List.mem_singleton]

/-- Without crossings, the conflicts of the edge intersection graph are the clashes of routes. -/
theorem conflict_iff (T : Task m s objs) {o o' : Coord × Coord} (ho : o ∈ objs) (ho' : o' ∈ objs) {p q : Path}
    (h : Route (routingLayout m tp cs s) false o.1 o.2 p) (h' : Route (routingLayout m tp cs s) false o'.1 o'.2 q) :
    conflict false q p = true ↔ Clash p q := by
  unfold conflict hasIntersectionWith sameEnds Clash
  simp only [Bool.false_eq_true, if_false, Bool.or_eq_true, Bool.and_eq_true, beq_iff_eq, List.any_eq_true, List.contains_iff_mem]
  obtain ⟨hq, -⟩ := route_shape (T.distinct o' ho') h'
  refine or_congr ⟨fun h => ⟨h.1.symm, h.2.symm⟩, fun h => ⟨h.1.symm, h.2.symm⟩⟩ (exists_congr fun c => and_congr_right fun hc => ?_)
  have hfree := (route_inner T ho h c hc).2
  rw [mem_inner hq]
  constructor
  · rintro (rfl | h1 | rfl)
    · rw [(T.source o' ho').2] at hfree; cases hfree
    · exact h1
    · rw [(T.target o' ho').2.2] at hfree; cases hfree
  · exact fun h1 => .inr (.inl h1)

end

/-! ## Objectives without a path -/

theorem filter_unroutable {L : List (List Path)} (h : (L.filter fun ps => ps.isEmpty).length = 0) :
    (L.filter fun ps => !ps.isEmpty) = L := by
  rw [List.filter_eq_self]
  intro ps hps
  rw [List.length_eq_zero_iff, List.filter_eq_nil_iff] at h
  have := h ps hps
  simpa using this

/-- At most one path for every objective. -/
theorem spread : ∀ (L : List (List Path)) (xs : List (Option Path)),
    List.Forall₂ (fun ps x => ∀ p, x = some p → p ∈ ps) (L.filter fun ps => !ps.isEmpty) xs →
    ∃ ys, List.Forall₂ (fun ps x => ∀ p, x = some p → p ∈ ps) L ys ∧ ys.filterMap id = xs.filterMap id
  | [], xs, h => by
    cases h
    exact ⟨[], .nil, rfl⟩
  | [] :: L, xs, h => by
    obtain ⟨ys, h1, h2⟩ := spread L xs h
    exact ⟨none :: ys, .cons (by simp) h1, by simpa using h2⟩
  | (p :: ps) :: L, xs, h => by
    rw [List.filter_cons, if_pos (by simp)] at h
    cases h with
    | @cons _ x _ xs h1 h2 =>
      obtain ⟨ys, h3, h4⟩ := spread L xs h2
      exact ⟨x :: ys, .cons h1 h3, by rw [List.filterMap_cons, List.filterMap_cons, h4]⟩

theorem flatten_heads {α : Type} : ∀ ls : List (List α), (∀ l ∈ ls, l.length ≤ 1) → ls.flatten = (ls.map List.head?).filterMap id
  | [], _ => rfl
  | l :: ls, h => by
    have h1 := h l (List.mem_cons_self ..)
    have ih := flatten_heads ls (fun k hk => h k (List.mem_cons_of_mem _ hk))
    match l, h1 with
    | [], _ => simpa [List.filterMap_cons] using ih
    | [x], _ => simpa using ih

/-- The paths of one color, by objectives. -/
theorem class_spread {crossings : Bool} {e : Eig} {L : List (List Path)} {env : Env} {f : Nat → Nat} (h : EInv crossings e L)
    (ho : env.Orders)
    (hp : ∀ v ∈ (e.graph env).vertices, ∀ w ∈ (e.graph env).vertices, (e.graph env).Adj v w → f v ≠ f w) (c : Nat) :
    ∃ ys : List (Option Path), List.Forall₂ (fun ps x => ∀ p, x = some p → p ∈ ps) L ys ∧
      ys.filterMap id = (classOf e f c).map (pathOf e) := by
  have hshort := class_short h ho hp c
  have hflat := flatten_heads _ hshort
  rw [← class_blocks h c, List.map_map] at hflat
  have hb := h.blocks
  obtain ⟨ys, h1, h2⟩ := spread L (e.cliques.map fun cl => ((cl.filter fun v => f v == c).head?).map (pathOf e)) (by
    rw [List.forall₂_map_right_iff]
    refine (List.Forall₂.flip hb).imp ?_
    intro ps cl hcl p hx
    obtain ⟨v, hv, rfl⟩ := Option.map_eq_some_iff.1 hx
    exact block_mem hcl (List.mem_filter.1 (List.mem_of_head? hv)).1)
  refine ⟨ys, h1, h2.trans ?_⟩
  rw [hflat, List.map_filterMap, List.filterMap_map, List.filterMap_map]
  rfl

end Verif.PhysicalDesign.ColorRouting
