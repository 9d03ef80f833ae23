import Verif.Paths.YenLemmas

/-! # The paths found by Yen's algorithm (C67) -/
namespace Verif.Paths

open Verif.Layouts Verif.Clocking

/-! ## Specification -/

/-- The `k` shortest paths: distinct paths, `k` of them unless there are fewer, and no other path is shorter than one
of them. -/
structure KShortest (l : RLayout) (crossings : Bool) (s t : Coord) (k : Nat) (res : List (List Coord)) : Prop where
  routes : ∀ p ∈ res, Route l crossings s t p
  nodup : res.Nodup
  count : res.length = k ∨ (res.length < k ∧ ∀ q, Route l crossings s t q → q ∈ res)
  short : ∀ p ∈ res, ∀ q, Route l crossings s t q → q ∉ res → p.length ≤ q.length

/-! ## Theorems -/

theorem finds_aStar {q : Queue Coord Nat} (hq : q.Faithful) (E : Setting) (fuel : Nat) :
    Finds E (fun o s => aStarLayout q (E.l.withObs o) E.cr unitCost manhattan s E.t fuel) := by
  refine ⟨?_, ?_⟩
  · intro o u r hu h hne
    obtain ⟨h1, h2, h3, h4⟩ := C21_path_valid q hq (E.l.withObs o) E.hX E.hY E.cr unitCost manhattan u E.t hu fuel r h hne
    exact ⟨h1, h2, h3, h4⟩
  · intro o u hu h r hr
    have := (aStar_spec hq (⟨(E.l.withObs o).succs E.cr E.t, unitCost, fun v => manhattan v E.t, u, E.t⟩ : Problem Coord Nat)
      (box E.l.m) (fun v hv => (mem_box _ _).2 (reach_inBounds (l := E.l.withObs o) E.hX E.hY hu
        ((reach_iff _ _ _ _ _).1 hv))) fuel).1 [] h
    rcases this with ⟨-, h'⟩ | hw
    · exact h' (chain_reach _ r _ _ (hr.chain.imp fun a b hab => (mem_succs _ _ _ _ _).2 hab) hr.head hr.last)
    · have := hw.head; simp at this

theorem kept_refl (s : Coord) (o : Obs) : Kept s o o := ⟨fun _ h => h, fun _ h _ => h, fun _ => Iff.rfl⟩

theorem cands_nil (E : Setting) (paths : List (List Coord)) : Cands E paths [] := ⟨by simp, by simp, .nil⟩

section
variable (q : Queue Coord Nat) (hq : q.Faithful) (l : RLayout) (hX : l.m.X < 2^31 - 1) (hY : l.m.Y < 2^31 - 1) (o : Obs)
  (crossings : Bool) (source target : Coord) (hs : InBounds l.m source) (ht : InBounds l.m target) (hz : target.z = 0)
  (hcr : ∀ u c, l.crossable u c = true → l.obstructed c = true) (k fuel : Nat)
include hq hX hY hs ht hz hcr

/-- All facts about a run. -/
theorem yen_spec {res : List (List Coord)} {o' : Obs} (h : yen q l o crossings source target k fuel = some (res, o')) :
    Kept source o o' ∧ (∀ p ∈ res, Route (l.withObs o) crossings source target p) ∧ res.Nodup ∧ res.length ≤ max k 1 ∧
    (res = [] → ∀ p, ¬ Route (l.withObs o) crossings source target p) ∧
    (∀ p, res.head? = some p → aStarLayout q (l.withObs o) crossings unitCost manhattan source target fuel = some p) ∧
    ((∃ f : Coord → Nat, ∀ a b, Move (l.withObs o) crossings target a b → f b = f a + 1) →
      res.length = max k 1 ∨ ∀ p, Route (l.withObs o) crossings source target p → p ∈ res) := by
  let E : Setting := ⟨l, o, crossings, source, target, hX, hY, hs, ht, hz, hcr⟩
  have hF := finds_aStar hq E fuel
  unfold yen at h
  simp only at h
  split at h
  · cases h
  · next h0 =>
    cases h
    have hno := hF.complete o source hs h0
    exact ⟨kept_refl _ _, by simp, .nil, by simp, fun _ => hno, by simp, fun _ => .inr fun p hp => absurd hp (hno p)⟩
  · next p hne h0 =>
    have hp0 : E.R p := hF.sound o source p hs h0 (by rintro rfl; exact hne rfl)
    obtain ⟨a1, a2, a3, ⟨more, a4, a5⟩, a6⟩ := yenLoop_spec hF (k - 1) [p] o [] res o' (by simp)
      (by intro x hx; rw [List.mem_singleton.1 hx]; exact hp0) (by simp) (kept_refl _ _) (cands_nil _ _) h
    refine ⟨a1, a2, a3, ?_, ?_, ?_, ?_⟩
    · rw [a4]; simp only [List.length_append, List.length_singleton]; omega
    · intro hn; rw [a4] at hn; simp at hn
    · intro x hx; rw [a4] at hx; simp at hx; rw [← hx]; exact h0
    · intro hf
      have hinv : ∀ x, E.R x → ∀ j, Leaves [p] j x → (∃ y, [p].getLast? = some y ∧ y.take (j + 1) = x.take (j + 1)) ∨
          ∃ c ∈ ([] : List (List Coord)), Fresh [p] j x c := by
        intro x hx j hj
        obtain ⟨⟨y, hy, hyt⟩, -⟩ := hj
        rw [List.mem_singleton.1 hy] at hyt
        exact .inl ⟨p, rfl, hyt⟩
      rcases a6 hf hinv with h6 | h6
      · left; rw [h6]; simp; omega
      · exact .inr h6

/-- C67. All paths that `yen_k_shortest_paths` returns lead from the source to the target by permitted steps of the
given layout without visiting a coordinate twice; no path is returned twice, and there are no more than `k` of them
(one if `k` is zero). No path is returned only if there is none. -/
theorem C67_paths {res : List (List Coord)} {o' : Obs}
    (h : yen q l o crossings source target k fuel = some (res, o')) :
    (∀ p ∈ res, Route (l.withObs o) crossings source target p) ∧ res.Nodup ∧ res.length ≤ max k 1 ∧
    (res = [] ↔ ¬ ∃ p, Route (l.withObs o) crossings source target p) ∧
    (∀ p, res.head? = some p → aStarLayout q (l.withObs o) crossings unitCost manhattan source target fuel = some p) := by
  obtain ⟨-, h1, h2, h3, h4, h5, -⟩ := yen_spec q hq l hX hY o crossings source target hs ht hz hcr k fuel h
  refine ⟨h1, h2, h3, ⟨fun hn ⟨p, hp⟩ => h4 hn p hp, fun hn => ?_⟩, h5⟩
  by_contra hne
  obtain ⟨p, hp⟩ := List.exists_mem_of_ne_nil _ hne
  exact hn ⟨p, h1 p hp⟩

/-- C67. The obstructions of the layout are the same after the call, except that the one of the source may be gone. -/
theorem C67_obstructions_partial {res : List (List Coord)} {o' : Obs}
    (h : yen q l o crossings source target k fuel = some (res, o')) :
    (∀ c, c ≠ source → (c ∈ o'.coords ↔ c ∈ o.coords)) ∧ (source ∈ o'.coords → source ∈ o.coords) ∧
    (∀ e, e ∈ o'.conns ↔ e ∈ o.conns) := by
  obtain ⟨h1, -⟩ := yen_spec q hq l hX hY o crossings source target hs ht hz hcr k fuel h
  exact ⟨fun c hc => ⟨h1.sub c, fun hm => h1.sup c hm hc⟩, h1.sub source, h1.conns⟩

/-- C67. The algorithm terminates. -/
theorem C67_terminates (hf : (l.m.X + 1) * ((l.m.Y + 1) * (l.m.Z + 1)) < fuel) :
    ∃ res o', yen q l o crossings source target k fuel = some (res, o') := by
  let E : Setting := ⟨l, o, crossings, source, target, hX, hY, hs, ht, hz, hcr⟩
  have hF := finds_aStar hq E fuel
  have hT : ∀ o u, InBounds E.l.m u → aStarLayout q (l.withObs o) crossings unitCost manhattan u target fuel ≠ none := by
    intro o u hu
    obtain ⟨p, hp, -⟩ := C22_complete q hq (l.withObs o) hX hY crossings unitCost manhattan u target hu fuel hf
    rw [hp]; simp
  suffices hne : yen q l o crossings source target k fuel ≠ none by
    obtain ⟨⟨r, o'⟩, hr⟩ := Option.ne_none_iff_exists'.1 hne
    exact ⟨r, o', hr⟩
  intro h
  unfold yen at h
  simp only at h
  split at h
  · next hn => exact hT o source hs hn
  · cases h
  · next p hne h0 =>
    refine yenLoop_some hF hT (k - 1) [p] o [] (by simp) ?_ (kept_refl _ _) (cands_nil _ _) h
    intro x hx
    rw [List.mem_singleton.1 hx]
    exact hF.sound o source p hs h0 (by rintro rfl; exact hne rfl)

end

/-- In a Cartesian layout with a linear clocking scheme every step leads one further from the origin. -/
theorem linear_rank (l : RLayout) (ht : l.tp = .cart) (n : NumClks) (s : Scheme) (hsch : l.scheme = some s)
    (hs : s = columnarClocking .cart n ∨ s = rowClocking .cart n ∨ s = twoddwaveClocking .cart n ∨
      s = twoddwaveHexClocking .cart n) (crossings : Bool) (target : Coord) :
    ∃ f : Coord → Nat, ∀ u v, Move l crossings target u v → f v = f u + 1 := by
  have hclk : ∀ u v, Move l crossings target u v → (s.clock u + 1) % s.numClocks = s.clock ⟨v.x, v.y, 0, false⟩ := by
    intro u v hm
    obtain ⟨w, hw, hx, hy⟩ := move_xy hm
    unfold RLayout.neighbours at hw
    rw [hsch] at hw
    have h2 := (List.mem_filter.1 hw).2
    have h3 : (s.clock u + 1) % s.numClocks = s.clock w := by
      unfold isOutgoingClocked at h2
      split at h2
      · simp at h2
      · simpa using h2
    rw [h3, hx, hy]
    have c1 := C10_linear_closed_form .cart n w
    have c2 := C10_linear_closed_form .cart n ⟨w.x, w.y, 0, false⟩
    have c3 := C10_linear_closed_form .cart .four w
    have c4 := C10_linear_closed_form .cart .four ⟨w.x, w.y, 0, false⟩
    rcases hs with rfl | rfl | rfl | rfl
    · rw [c1.1, c2.1]
    · rw [c1.2.1, c2.2.1]
    · rw [c1.2.2.1, c2.2.2.1]
    · simp only [twoddwaveHexClocking]
      rw [c3.2.2.1, c4.2.2.1]
  rcases hs with rfl | rfl | rfl | rfl
  · refine ⟨fun c => c.x, fun b e h => ?_⟩
    show e.x = b.x + 1
    have h1 := move_cart ht h
    have h2 := hclk b e h
    rw [(C10_linear_closed_form .cart n b).1, (C10_linear_closed_form .cart n _).1] at h2
    cases n <;> simp only [columnarClocking, NumClks.val] at h2 <;> omega
  · refine ⟨fun c => c.y, fun b e h => ?_⟩
    show e.y = b.y + 1
    have h1 := move_cart ht h
    have h2 := hclk b e h
    rw [(C10_linear_closed_form .cart n b).2.1, (C10_linear_closed_form .cart n _).2.1] at h2
    cases n <;> simp only [rowClocking, NumClks.val] at h2 <;> omega
  · refine ⟨fun c => c.x + c.y, fun b e h => ?_⟩
    show e.x + e.y = b.x + b.y + 1
    have h1 := move_cart ht h
    have h2 := hclk b e h
    rw [(C10_linear_closed_form .cart n b).2.2.1, (C10_linear_closed_form .cart n _).2.2.1] at h2
    cases n <;> simp only [twoddwaveClocking, NumClks.val] at h2 <;> omega
  · refine ⟨fun c => c.x + c.y, fun b e h => ?_⟩
    show e.x + e.y = b.x + b.y + 1
    have h1 := move_cart ht h
    have h2 := hclk b e h
    simp only [twoddwaveHexClocking] at h2
    rw [(C10_linear_closed_form .cart .four b).2.2.1, (C10_linear_closed_form .cart .four _).2.2.1] at h2
    simp only [twoddwaveClocking, NumClks.val] at h2
    omega

/-- C67 (what is missing: other layouts, for which it is false). On Cartesian layouts clocked by COLUMNAR, ROW, 2DDWAVE
or 2DDWAVEHEX, `yen_k_shortest_paths` returns the `k` shortest paths: all of them if there are not more than `k`. -/
theorem C67_k_shortest_partial (q : Queue Coord Nat) (hq : q.Faithful) (l : RLayout) (hX : l.m.X < 2^31 - 1)
    (hY : l.m.Y < 2^31 - 1) (o : Obs) (crossings : Bool) (source target : Coord) (hs : InBounds l.m source)
    (ht : InBounds l.m target) (hz : target.z = 0) (hcr : ∀ u c, l.crossable u c = true → l.obstructed c = true)
    (k fuel : Nat) (hk : 1 ≤ k) (htp : l.tp = .cart) (n : NumClks) (s : Scheme) (hsch : l.scheme = some s)
    (hlin : s = columnarClocking .cart n ∨ s = rowClocking .cart n ∨ s = twoddwaveClocking .cart n ∨
      s = twoddwaveHexClocking .cart n) {res : List (List Coord)} {o' : Obs}
    (h : yen q l o crossings source target k fuel = some (res, o')) :
    KShortest (l.withObs o) crossings source target k res := by
  obtain ⟨f, hf⟩ := linear_rank (l.withObs o) htp n s hsch hlin crossings target
  obtain ⟨-, h1, h2, h3, -, -, h6⟩ := yen_spec q hq l hX hY o crossings source target hs ht hz hcr k fuel h
  have hmax : max k 1 = k := by omega
  rw [hmax] at h3 h6
  have hlen : ∀ p, Route (l.withObs o) crossings source target p → f target + 1 = f source + p.length := by
    intro p hp
    let E : Setting := ⟨l, o, crossings, source, target, hX, hY, hs, ht, hz, hcr⟩
    have := rank_get (E := E) hf hp (p.length - 1) target (by
      rw [← List.getLast?_eq_getElem?]; exact hp.last)
    have hpos := List.length_pos_iff.2 hp.ne_nil
    rw [this]
    show f source + (p.length - 1) + 1 = _
    omega
  refine ⟨h1, h2, ?_, fun p hp x hx _ => ?_⟩
  · rcases h6 ⟨f, hf⟩ with h | h
    · exact .inl h
    · by_cases he : res.length = k
      · exact .inl he
      · exact .inr ⟨by omega, h⟩
  · have := hlen p (h1 p hp); have := hlen x hx; omega

/-! ## Disagreements -/

instance (l : RLayout) (cr : Bool) (t u v : Coord) : Decidable (Move l cr t u v) := decidable_of_iff _ (mem_succs l cr t u v)

instance (l : RLayout) (cr : Bool) (s t : Coord) (p : List Coord) : Decidable (Route l cr s t p) :=
  decidable_of_iff (p.head? = some s ∧ p.getLast? = some t ∧ p.Nodup ∧ p.IsChain (Move l cr t))
    ⟨fun ⟨a, b, c, d⟩ => ⟨a, b, c, d⟩, fun ⟨a, b, c, d⟩ => ⟨a, b, c, d⟩⟩

/-- An empty Cartesian layout without clocking. -/
def emptyGrid (x y : Nat) : RLayout := ⟨.cart, ⟨x, y, 0⟩, none, fun _ => false, fun _ _ => false, fun _ _ => false⟩

/-- Ground coordinates. -/
def at0 (l : List (Nat × Nat)) : List Coord := l.map fun r => ⟨r.1, r.2, 0, false⟩

/-- C67 (disagreement). On an empty three by three grid, five paths are requested from the centre to a corner; a path
over nine tiles is returned although one over seven tiles is not: the connections of paths that leave the root at
another tile than the spur are blocked as well. -/
theorem C67_false_k_shortest : ∃ (l : RLayout) (s t : Coord) (res : List (List Coord)) (o' : Obs),
    InBounds l.m s ∧ InBounds l.m t ∧ yen (stdQueue Coord Nat) l ⟨[], []⟩ false s t 5 10 = some (res, o') ∧
    (∃ p ∈ res, p.length = 9) ∧ (∃ q, Route l false s t q ∧ q.length = 7 ∧ q ∉ res) ∧
    ¬ KShortest l false s t 5 res := by
  have key : ((yen (stdQueue Coord Nat) (emptyGrid 2 2) ⟨[], []⟩ false ⟨1, 1, 0, false⟩ ⟨0, 0, 0, false⟩ 5 10).map
      fun r => (r.1.map List.length, decide ((at0 [(1, 1), (2, 1), (2, 2), (1, 2), (0, 2), (0, 1), (0, 0)]) ∈ r.1))) =
      some ([3, 3, 5, 5, 9], false) := by decide +kernel
  obtain ⟨⟨res, o'⟩, h1, h2⟩ := Option.map_eq_some_iff.1 key
  simp only [Prod.mk.injEq, decide_eq_false_iff_not] at h2
  have h9 : ∃ p ∈ res, p.length = 9 := by
    have : 9 ∈ res.map List.length := by rw [h2.1]; decide
    exact List.mem_map.1 this
  have hq : Route (emptyGrid 2 2) false ⟨1, 1, 0, false⟩ ⟨0, 0, 0, false⟩
      (at0 [(1, 1), (2, 1), (2, 2), (1, 2), (0, 2), (0, 1), (0, 0)]) := by decide +kernel
  refine ⟨_, _, _, res, o', by decide, by decide, h1, h9, ⟨_, hq, by decide, h2.2⟩, fun hK => ?_⟩
  obtain ⟨p, hp, hp9⟩ := h9
  have := hK.short p hp _ hq h2.2
  rw [hp9] at this
  simp [at0] at this

/-- C67 (disagreement). The paths are not ordered by length: on an empty four by three grid, a path over six tiles
follows one over eight. -/
theorem C67_false_order : ∃ (l : RLayout) (s t : Coord) (res : List (List Coord)) (o' : Obs),
    InBounds l.m s ∧ InBounds l.m t ∧ yen (stdQueue Coord Nat) l ⟨[], []⟩ false s t 7 13 = some (res, o') ∧
    res.map List.length = [2, 4, 4, 6, 6, 8, 6] := by
  have key : ((yen (stdQueue Coord Nat) (emptyGrid 3 2) ⟨[], []⟩ false ⟨2, 1, 0, false⟩ ⟨2, 2, 0, false⟩ 7 13).map
      fun r => r.1.map List.length) = some [2, 4, 4, 6, 6, 8, 6] := by decide +kernel
  obtain ⟨⟨res, o'⟩, h1, h2⟩ := Option.map_eq_some_iff.1 key
  exact ⟨_, _, _, res, o', by decide, by decide, h1, h2⟩

/-- C67 (disagreement). Although the layout is passed as a constant, the call removes the obstruction the user placed on
the source. -/
theorem C67_false_obstructions : ∃ (l : RLayout) (o : Obs) (s t : Coord) (res : List (List Coord)) (o' : Obs),
    InBounds l.m s ∧ InBounds l.m t ∧ yen (stdQueue Coord Nat) l o false s t 2 10 = some (res, o') ∧
    s ∈ o.coords ∧ s ∉ o'.coords := by
  have key : ((yen (stdQueue Coord Nat) (emptyGrid 2 2) ⟨at0 [(1, 1)], []⟩ false ⟨1, 1, 0, false⟩ ⟨0, 0, 0, false⟩ 2 10).map
      fun r => decide (⟨1, 1, 0, false⟩ ∈ r.2.coords)) = some false := by decide +kernel
  obtain ⟨⟨res, o'⟩, h1, h2⟩ := Option.map_eq_some_iff.1 key
  exact ⟨_, _, _, _, res, o', by decide, by decide, h1, by decide, by simpa using h2⟩

/-- C67 (disagreement). If no path is requested, one is returned. -/
theorem C67_false_zero : ∃ (l : RLayout) (s t : Coord) (res : List (List Coord)) (o' : Obs),
    InBounds l.m s ∧ InBounds l.m t ∧ yen (stdQueue Coord Nat) l ⟨[], []⟩ false s t 0 10 = some (res, o') ∧
    res.length = 1 := by
  have key : ((yen (stdQueue Coord Nat) (emptyGrid 2 2) ⟨[], []⟩ false ⟨1, 1, 0, false⟩ ⟨0, 0, 0, false⟩ 0 10).map
      fun r => r.1.length) = some 1 := by decide +kernel
  obtain ⟨⟨res, o'⟩, h1, h2⟩ := Option.map_eq_some_iff.1 key
  exact ⟨_, _, _, res, o', by decide, by decide, h1, h2⟩

/-! ## The hypotheses can be met -/

-- the layout with a crossable wire: both paths over it are found, none of them twice
example : (yen (stdQueue Coord Nat) demoLayout ⟨at0 [(4, 1)], []⟩ true ⟨0, 0, 0, false⟩ ⟨4, 2, 0, false⟩ 4 31).map
    (fun r => (r.1.map fun p => p.map fun c => (c.x, c.y, c.z), r.2.coords)) = some
    ([[(0, 0, 0), (1, 0, 0), (1, 1, 0), (2, 1, 1), (3, 1, 0), (3, 2, 0), (4, 2, 0)],
      [(0, 0, 0), (0, 1, 0), (1, 1, 0), (2, 1, 1), (3, 1, 0), (3, 2, 0), (4, 2, 0)]], at0 [(4, 1)]) := by
  decide +kernel

example : demoLayout.tp = .cart ∧ demoLayout.scheme = some (twoddwaveClocking .cart .four) ∧
    InBounds demoLayout.m ⟨0, 0, 0, false⟩ ∧ InBounds demoLayout.m ⟨4, 2, 0, false⟩ ∧
    (∀ u c, demoLayout.crossable u c = true → demoLayout.obstructed c = true) := by
  refine ⟨rfl, rfl, by decide, by decide, ?_⟩
  intro u c h
  simp only [demoLayout, Bool.or_eq_true] at h ⊢
  exact .inl (.inr h)

end Verif.Paths
