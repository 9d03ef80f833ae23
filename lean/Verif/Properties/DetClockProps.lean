import Verif.Properties.DetClock

/-!
# C47: clocking determination encodes exactly the valid clockings
-/
namespace Verif.DetClock

open Verif.Layouts Verif.Clocking Verif.GateLevel

/-! ## Specification -/

/-- Meaning of the constraints. -/
def Con.holds (a : Nat → Bool) : Con → Prop
  | .clause lits => ∃ l ∈ lits, a l.1 = l.2
  | .eq x y => a x = a y

/-- The solver's answers are right. -/
structure Right (solve : Solver) : Prop where
  sat : ∀ f a, solve f = some a → ∀ c ∈ f, c.holds a
  unsat : ∀ f, solve f = none → ∀ a, ¬ ∀ c ∈ f, c.holds a

/-- Layouts in which the nodes the iteration functions visit are those that are placed, and in which nodes in crossing
layers are wires above other nodes. -/
structure Placed (m : Dim) (s : State) : Prop where
  inBounds : ∀ n ∈ s.allNodes, 2 ≤ n → InBounds m (s.getTile n)
  live : ∀ t n, s.tileNode t = some n → 2 ≤ n → n ∈ s.allNodes
  crossing : ∀ t, InBounds m t → s.isEmptyTile t = false → 0 < t.z →
    s.isWireTile t = true ∧ s.isEmptyTile (Cart.below t) = false
  inputs : ∀ n ∈ s.inputs, n ∈ s.allNodes

/-- A valid clock assignment: each tile from which a placed node takes a signal has the previous clock number, and tiles
of crossing layers have the clock number of the tile below. -/
structure ValidClocking (m : Dim) (tp : Topo) (cs : Scheme) (s : State) (k : Coord → Nat) : Prop where
  range : ∀ t, InBounds m t → s.isEmptyTile t = false → k t < cs.numClocks
  flow : ∀ t, InBounds m t → s.isEmptyTile t = false → ∀ u ∈ s.fanins m tp cs false (s.getNode t), (k u + 1) % cs.numClocks = k t
  crossing : ∀ t, InBounds m t → s.isEmptyTile t = false → 0 < t.z → k t = k (Cart.below t)

/-! ## Lemmas about variables -/

private theorem mt' {b : Bool} {p : Prop} (h : b = true ↔ p) : b = false ↔ ¬ p := by
  cases b <;> simp_all

private structure Inj (v : Vars) : Prop where
  inj : ∀ a b i, v.map a = some i → v.map b = some i → a = b
  lt : ∀ a i, v.map a = some i → i < v.num

private theorem Inj.add {v : Vars} (h : Inj v) (key) : Inj (v.add key) := by
  refine ⟨?_, ?_⟩
  · intro a b i ha hb
    simp only [Vars.add] at ha hb
    split_ifs at ha hb with e1 e2 e2
    · rw [e1, e2]
    · simp only [Option.some.injEq] at ha
      have := h.lt _ _ hb; omega
    · simp only [Option.some.injEq] at hb
      have := h.lt _ _ ha; omega
    · exact h.inj _ _ _ ha hb
  · intro a i ha
    simp only [Vars.add] at ha ⊢
    split_ifs at ha
    · simp only [Option.some.injEq] at ha; omega
    · have := h.lt _ _ ha; omega

private theorem inj_fold (l : List (Coord × Nat)) : ∀ v, Inj v → Inj (l.foldl Vars.add v) := by
  induction l with
  | nil => exact fun v h => h
  | cons a l ih => exact fun v h => ih _ (h.add a)

private theorem some_fold (l : List (Coord × Nat)) : ∀ (v : Vars) k, ((l.foldl Vars.add v).map k).isSome = true ↔ k ∈ l ∨ (v.map k).isSome = true := by
  induction l with
  | nil => intro v k; simp
  | cons a l ih =>
    intro v k
    rw [List.foldl_cons, ih]
    simp only [Vars.add, List.mem_cons]
    split_ifs with e <;> simp [e]

section
variable {m : Dim} {tp : Topo} {cs : Scheme} {s : State}

private theorem mkVars_inj : Inj (mkVars cs s) := inj_fold _ _ ⟨by simp, by simp⟩

private theorem mkVars_some (t : Coord) (c : Nat) : ((mkVars cs s).map (t, c)).isSome = true ↔ t ∈ nodeTiles s ∧ c < cs.numClocks := by
  unfold mkVars
  rw [some_fold]
  simp only [List.mem_flatMap, List.mem_map, List.mem_range, Prod.mk.injEq, Option.isSome_none, Bool.false_eq_true, or_false]
  constructor
  · rintro ⟨t', h1, c', h2, rfl, rfl⟩; exact ⟨h1, h2⟩
  · rintro ⟨h1, h2⟩; exact ⟨t, h1, c, h2, rfl, rfl⟩

private theorem get_inj {t t' : Coord} {c c' : Nat} (ht : t ∈ nodeTiles s) (hc : c < cs.numClocks) (ht' : t' ∈ nodeTiles s)
    (hc' : c' < cs.numClocks) (h : (mkVars cs s).get (t, c) = (mkVars cs s).get (t', c')) : t = t' ∧ c = c' := by
  obtain ⟨i, hi⟩ := Option.isSome_iff_exists.1 ((mkVars_some t c).2 ⟨ht, hc⟩)
  obtain ⟨j, hj⟩ := Option.isSome_iff_exists.1 ((mkVars_some t' c').2 ⟨ht', hc'⟩)
  simp only [Vars.get, hi, hj, Option.getD_some] at h
  subst h
  simpa using mkVars_inj.inj _ _ _ hi hj

private theorem mem_nodeTiles (w : WF s) (hp : Placed m s) (t : Coord) :
    t ∈ nodeTiles s ↔ InBounds m t ∧ s.isEmptyTile t = false := by
  simp only [nodeTiles, List.mem_map, List.mem_filter]
  constructor
  · rintro ⟨n, ⟨h1, h2⟩, rfl⟩
    have hn : 2 ≤ n := by simp [isConstant] at h2; omega
    have hb := hp.inBounds n h1 hn
    refine ⟨hb, ?_⟩
    cases e : s.nodeTile n with
    | none => have := hb.1; simp [State.getTile, e, const0] at this
    | some t =>
      have := (w.inv t n).2 e
      simp [State.getTile, e, State.isEmptyTile, State.getNode, this]; omega
  · rintro ⟨hb, he⟩
    cases e : s.tileNode t with
    | none => simp [State.isEmptyTile, State.getNode, e] at he
    | some n =>
      have hl := w.live t n e
      rw [hb.1] at hl
      simp at hl
      refine ⟨n, ⟨hp.live t n e (by omega), ?_⟩, by simp [State.getTile, (w.inv t n).1 e]⟩
      simp [isConstant]; omega

private theorem fanin_placed (w : WF s) (hX : m.X < 2^31 - 1) (hY : m.Y < 2^31 - 1) {n : Nat} {u : Coord}
    (hb : InBounds m (s.getTile n)) (hu : u ∈ s.fanins m tp cs false n) : InBounds m u ∧ s.isEmptyTile u = false := by
  unfold State.fanins at hu
  split_ifs at hu
  · simp at hu
  simp only [List.mem_map, List.mem_filter, Bool.and_eq_true] at hu
  obtain ⟨c, ⟨-, h, -⟩, rfl⟩ := hu
  obtain ⟨y, hy, h'⟩ := (Drv.adj_elev_iff hX hY hb).1 h
  have hin := (adj_facts m tp hX hY y _ (above_below hb hy).1 h').1
  obtain ⟨h1, h2⟩ := Drv.child_tile w hin.1
  rw [h2] at hin ⊢
  exact ⟨hin, h1⟩

/-- The wires that get equality constraints. -/
private theorem mem_cross (w : WF s) (hp : Placed m s) (t : Coord) (hb : InBounds m t) (he : s.isEmptyTile t = false) (hz : 0 < t.z) :
    ∃ k ∈ s.allWires.filter (fun w => !isGroundLayer (s.getTile w)), s.getTile k = t := by
  obtain ⟨h2, h3, h4⟩ := Drv.node_of w hb.1 he
  refine ⟨s.getNode t, ?_, h4⟩
  have h5 := hp.live t _ h3 h2
  have h6 := (hp.crossing t hb he hz).1
  rw [List.mem_filter, h4]
  refine ⟨?_, by simp [isGroundLayer]; omega⟩
  simp only [State.allNodes, State.allWires, List.mem_filter, List.mem_range] at h5 ⊢
  exact ⟨h5.1, by simp only [State.isWireTile] at h6; simp [h2, h6]; simpa using h5.2⟩

private theorem below_in (hp : Placed m s) {t : Coord} (hb : InBounds m t) (he : s.isEmptyTile t = false) (hz : 0 < t.z) :
    InBounds m (Cart.below t) ∧ s.isEmptyTile (Cart.below t) = false :=
  ⟨(above_below hb (.inr (.inr rfl))).1, (hp.crossing t hb he hz).2⟩

/-! ## Assigning clock numbers -/

private theorem fold_clock (l : List (Coord × Nat)) : ∀ (k : Scheme) (t : Coord) (c : Nat), c < k.numClocks →
    (∀ p ∈ l, p.1 = t → p.2 = c) → ((t, c) ∈ l ∨ k.override t = some c ∧ k.regular = false) →
    (l.foldl (fun k (p : Coord × Nat) => k.overrideClockNumber p.1 p.2) k).clock t = c := by
  induction l with
  | nil =>
    intro k t c hc h1 h2
    simp only [List.not_mem_nil, false_or] at h2
    simp [Scheme.clock, h2]
  | cons p l ih =>
    intro k t c hc h1 h2
    rw [List.foldl_cons]
    refine ih _ t c hc (fun q hq => h1 q (by simp [hq])) ?_
    have hp := h1 p (by simp)
    by_cases e : p.1 = t
    · right
      have := hp e
      simp only [Scheme.overrideClockNumber, e, this, Nat.mod_eq_of_lt hc]
      simp
    · rcases h2 with h2 | h2
      · simp only [List.mem_cons] at h2
        rcases h2 with h2 | h2
        · exfalso; apply e; rw [← h2]
        · exact .inl h2
      · right
        simp only [Scheme.overrideClockNumber]
        rw [if_neg (fun h => e h.symm)]
        exact ⟨h2.1, trivial⟩

private theorem fold_numClocks (l : List (Coord × Nat)) : ∀ k : Scheme,
    (l.foldl (fun k (p : Coord × Nat) => k.overrideClockNumber p.1 p.2) k).numClocks = k.numClocks := by
  induction l with
  | nil => exact fun k => rfl
  | cons p l ih => exact fun k => by rw [List.foldl_cons, ih]; rfl

/-- What a satisfying assignment says. -/
private theorem model_clock (w : WF s) (hp : Placed m s) (hX : m.X < 2^31 - 1) (hY : m.Y < 2^31 - 1)
    (a : Nat → Bool)
    (h1 : ∀ c ∈ atLeastOne cs s (mkVars cs s), c.holds a) (h2 : ∀ c ∈ atMostOne cs s (mkVars cs s), c.holds a)
    (h3 : ∀ c ∈ flowCons m tp cs s (mkVars cs s), c.holds a) (h4 : ∀ c ∈ crossCons cs s (mkVars cs s), c.holds a) :
    ∃ k, ValidClocking m tp cs s k ∧ ∀ t ∈ nodeTiles s, ∀ c < cs.numClocks, (a ((mkVars cs s).get (t, c)) = true ↔ k t = c) := by
  have hex : ∀ t ∈ nodeTiles s, ∃ c < cs.numClocks, a ((mkVars cs s).get (t, c)) = true := by
    intro t ht
    obtain ⟨l, hl, hv⟩ := h1 _ (List.mem_map.2 ⟨t, ht, rfl⟩)
    simp only [List.mem_map, List.mem_range] at hl
    obtain ⟨c, hc, rfl⟩ := hl
    exact ⟨c, hc, hv⟩
  have huniq : ∀ t ∈ nodeTiles s, ∀ c1 < cs.numClocks, ∀ c2 < cs.numClocks, a ((mkVars cs s).get (t, c1)) = true →
      a ((mkVars cs s).get (t, c2)) = true → c1 = c2 := by
    have aux : ∀ t ∈ nodeTiles s, ∀ c1 < cs.numClocks, ∀ c2 < cs.numClocks, c1 < c2 → a ((mkVars cs s).get (t, c1)) = true →
        a ((mkVars cs s).get (t, c2)) = true → False := by
      intro t ht c1 hc1 c2 hc2 hlt e1 e2
      obtain ⟨l, hl, hv⟩ := h2 (.clause [((mkVars cs s).get (t, c1), false), ((mkVars cs s).get (t, c2), false)]) (by
        simp only [atMostOne, List.mem_flatMap, List.mem_map, List.mem_filter, List.mem_range]
        exact ⟨c1, hc1, c2, ⟨hc2, by simpa using hlt⟩, t, ht, rfl⟩)
      simp only [List.mem_cons, List.not_mem_nil, or_false] at hl
      rcases hl with rfl | rfl <;> simp_all
    intro t ht c1 hc1 c2 hc2 e1 e2
    rcases Nat.lt_trichotomy c1 c2 with h | h | h
    · exact (aux t ht c1 hc1 c2 hc2 h e1 e2).elim
    · exact h
    · exact (aux t ht c2 hc2 c1 hc1 h e2 e1).elim
  classical
  let k : Coord → Nat := fun t => if h : t ∈ nodeTiles s then (hex t h).choose else 0
  have kspec : ∀ t ∈ nodeTiles s, k t < cs.numClocks ∧ a ((mkVars cs s).get (t, k t)) = true := by
    intro t ht
    have := (hex t ht).choose_spec
    simp only [k, dif_pos ht]
    exact this
  have mt := fun t => mem_nodeTiles w hp t
  refine ⟨k, ⟨fun t hb he => (kspec t ((mt t).2 ⟨hb, he⟩)).1, ?_, ?_⟩, ?_⟩
  · intro t hb he u hu
    have ht := (mt t).2 ⟨hb, he⟩
    obtain ⟨n2, n3, n4⟩ := Drv.node_of w hb.1 he
    have hut : u ∈ nodeTiles s := by
      rw [mt]
      exact fanin_placed w hX hY (by rw [n4]; exact hb) hu
    by_contra hne
    obtain ⟨l, hl, hv⟩ := h3 (.clause [((mkVars cs s).get (t, k t), false), ((mkVars cs s).get (u, k u), false)]) (by
        simp only [flowCons, List.mem_flatMap, List.mem_map, List.mem_filter, List.mem_range]
        exact ⟨t, ht, u, hu, k t, (kspec t ht).1, k u, ⟨(kspec u hut).1, by simpa using hne⟩, rfl⟩)
    simp only [List.mem_cons, List.not_mem_nil, or_false] at hl
    have e1 := (kspec t ht).2
    have e2 := (kspec u hut).2
    rcases hl with rfl | rfl <;> simp_all
  · intro t hb he hz
    have ht := (mt t).2 ⟨hb, he⟩
    have hbt := (mt _).2 (below_in hp hb he hz)
    obtain ⟨w', hw', et⟩ := mem_cross w hp t hb he hz
    have := h4 (.eq ((mkVars cs s).get (t, k t)) ((mkVars cs s).get (Cart.below t, k t))) (by
      simp only [crossCons, List.mem_flatMap, List.mem_map, List.mem_range]
      exact ⟨w', hw', k t, (kspec t ht).1, by rw [et]⟩)
    simp only [Con.holds] at this
    rw [(kspec t ht).2] at this
    exact huniq _ hbt _ (kspec t ht).1 _ (kspec _ hbt).1 this.symm (kspec _ hbt).2
  · intro t ht c hc
    constructor
    · intro h; exact huniq t ht _ (kspec t ht).1 _ hc (kspec t ht).2 h
    · rintro rfl; exact (kspec t ht).2

private theorem assigned (w : WF s) (hp : Placed m s) {k : Coord → Nat} (hk : ValidClocking m tp cs s k) {a : Nat → Bool}
    (ha : ∀ t ∈ nodeTiles s, ∀ c < cs.numClocks, (a ((mkVars cs s).get (t, c)) = true ↔ k t = c)) (t : Coord)
    (hb : InBounds m t) (he : s.isEmptyTile t = false) : (assignClockNumbers m cs s (mkVars cs s) a).clock t = k t := by
  have mt := fun t => mem_nodeTiles w hp t
  have ht := (mt t).2 ⟨hb, he⟩
  refine fold_clock _ _ _ _ (hk.range t hb he) ?_ (.inl ?_)
  · rintro ⟨p, c⟩ hpc rfl
    simp only [assignments, List.mem_flatMap, List.mem_range] at hpc
    obtain ⟨t', ht', c', hc', hpc⟩ := hpc
    split_ifs at hpc with hx
    · have hk' := (ha t' ht' c' hc').1 hx
      obtain ⟨hb', he'⟩ := (mt t').1 ht'
      simp only [List.mem_cons, Prod.mk.injEq, List.not_mem_nil, or_false] at hpc
      obtain ⟨-, -, -, hz⟩ := above_below hb' (b := p) (by tauto)
      have hcc : c = k t' := by omega
      simp only at *
      rw [hcc]
      rcases hz with rfl | ⟨hne, hz⟩ | ⟨hne, hz⟩
      · rfl
      · -- p is below t'
        have hpz : 0 < t'.z ∧ p = Cart.below t' := by
          obtain ⟨x, y, z, d⟩ := t'; obtain ⟨x', y', z', d'⟩ := p
          simp only [Cart.above, Cart.below] at hz hpc hne ⊢
          grind
        rw [hpz.2]
        exact hk.crossing t' hb' he' hpz.1
      · have hpz : 0 < p.z := by
          obtain ⟨x, y, z, d⟩ := t'; obtain ⟨x', y', z', d'⟩ := p
          simp only [Cart.above, Cart.below] at hz hpc hne ⊢
          grind
        rw [hz]
        exact (hk.crossing p hb he hpz).symm
    · simp at hpc
  · simp only [assignments, List.mem_flatMap, List.mem_range]
    refine ⟨t, ht, k t, hk.range t hb he, ?_⟩
    rw [if_pos ((ha t ht _ (hk.range t hb he)).2 rfl)]
    simp

private theorem rotate {k : Coord → Nat} (hk : ValidClocking m tp cs s k) (d : Nat) :
    ValidClocking m tp cs s (fun t => (k t + d) % cs.numClocks) := by
  refine ⟨?_, ?_, ?_⟩
  · intro t hb he
    have := hk.range t hb he
    exact Nat.mod_lt _ (by omega)
  · intro t hb he u hu
    simp only [← hk.flow t hb he u hu, Nat.mod_add_mod]
    congr 1; omega
  · intro t hb he hz
    simp only [hk.crossing t hb he hz]

/-- Every valid clocking satisfies the first four groups of constraints. -/
private theorem clock_model (w : WF s) (hp : Placed m s) (hX : m.X < 2^31 - 1) (hY : m.Y < 2^31 - 1) {k : Coord → Nat}
    (hk : ValidClocking m tp cs s k) :
    ∃ a : Nat → Bool, (∀ t ∈ nodeTiles s, ∀ c < cs.numClocks, (a ((mkVars cs s).get (t, c)) = true ↔ k t = c)) ∧
      ∀ c ∈ atLeastOne cs s (mkVars cs s) ++ atMostOne cs s (mkVars cs s) ++ flowCons m tp cs s (mkVars cs s) ++
        crossCons cs s (mkVars cs s), c.holds a := by
  classical
  let a : Nat → Bool := fun i => decide (∃ t ∈ nodeTiles s, ∃ c < cs.numClocks, (mkVars cs s).get (t, c) = i ∧ k t = c)
  have ha : ∀ t ∈ nodeTiles s, ∀ c < cs.numClocks, (a ((mkVars cs s).get (t, c)) = true ↔ k t = c) := by
    intro t ht c hc
    simp only [a, decide_eq_true_eq]
    constructor
    · rintro ⟨t', ht', c', hc', e, hk'⟩
      obtain ⟨rfl, rfl⟩ := get_inj ht' hc' ht hc e
      exact hk'
    · intro h; exact ⟨t, ht, c, hc, rfl, h⟩
  have mt := fun t => mem_nodeTiles w hp t
  refine ⟨a, ha, ?_⟩
  intro con hcon
  simp only [List.mem_append] at hcon
  rcases hcon with ((hcon | hcon) | hcon) | hcon
  · simp only [atLeastOne, List.mem_map] at hcon
    obtain ⟨t, ht, rfl⟩ := hcon
    obtain ⟨hb, he⟩ := (mt t).1 ht
    have hr := hk.range t hb he
    exact ⟨_, List.mem_map.2 ⟨k t, List.mem_range.2 hr, rfl⟩, (ha t ht _ hr).2 rfl⟩
  · simp only [atMostOne, List.mem_flatMap, List.mem_map, List.mem_filter, List.mem_range] at hcon
    obtain ⟨c1, hc1, c2, ⟨hc2, hlt⟩, t, ht, rfl⟩ := hcon
    have hlt : c1 < c2 := by simpa using hlt
    by_cases e : a ((mkVars cs s).get (t, c1)) = true
    · refine ⟨((mkVars cs s).get (t, c2), false), by simp, ?_⟩
      have e1 := (ha t ht c1 hc1).1 e
      have e2 := mt' (ha t ht c2 hc2)
      simp only
      rw [e2]; omega
    · exact ⟨((mkVars cs s).get (t, c1), false), by simp, by simpa using e⟩
  · simp only [flowCons, List.mem_flatMap, List.mem_map, List.mem_filter, List.mem_range] at hcon
    obtain ⟨t, ht, u, hu, c1, hc1, c2, ⟨hc2, hne⟩, rfl⟩ := hcon
    obtain ⟨hb, he⟩ := (mt t).1 ht
    have hn := Drv.node_of w hb.1 he
    have hut := (mt u).2 (fanin_placed w hX hY (by rw [hn.2.2]; exact hb) hu)
    have hf := hk.flow t hb he u hu
    by_cases e : a ((mkVars cs s).get (t, c1)) = true
    · refine ⟨((mkVars cs s).get (u, c2), false), by simp, ?_⟩
      have e1 := (ha t ht c1 hc1).1 e
      have e2 := mt' (ha u hut c2 hc2)
      simp only
      rw [e2]
      intro h3
      rw [e1, h3] at hf
      simp [hf] at hne
    · exact ⟨((mkVars cs s).get (t, c1), false), by simp, by simpa using e⟩
  · simp only [crossCons, List.mem_flatMap, List.mem_map, List.mem_filter, List.mem_range] at hcon
    obtain ⟨x, ⟨hx, hg⟩, c, hc, rfl⟩ := hcon
    simp only [State.allWires, List.mem_filter, List.mem_range, Bool.and_eq_true, decide_eq_true_eq] at hx
    have hxt : s.getTile x ∈ nodeTiles s := by
      simp only [nodeTiles, List.mem_map, List.mem_filter]
      refine ⟨x, ⟨?_, by simp [isConstant]; omega⟩, rfl⟩
      simp only [State.allNodes, List.mem_filter, List.mem_range]
      exact ⟨hx.1, hx.2.2.2⟩
    obtain ⟨hb, he⟩ := (mt _).1 hxt
    have hz : 0 < (s.getTile x).z := by simp [isGroundLayer] at hg; omega
    have hbt := (mt _).2 (below_in hp hb he hz)
    simp only [Con.holds]
    rw [Bool.eq_iff_iff, ha _ hxt c hc, ha _ hbt c hc, hk.crossing _ hb he hz]

/-! ## Properties -/

/-- C47 (soundness): if a clocking was found for a layout, all connections between neighbouring tiles are correctly clocked
afterwards, tiles of crossing layers have the clock number of the tile below, and the number of clocks is the same. -/
theorem C47_sound (ops : List GateLevel.Op) (hv : Valid m init ops) (hX : m.X < 2^31 - 1) (hY : m.Y < 2^31 - 1)
    (hp : Placed m (run m init ops)) {solve : Solver} (hs : Right solve) {fuel : Nat} {cs' : Scheme}
    (hne : Drv.layoutEmpty (run m init ops) = false)
    (h : determineClocking m tp cs (run m init ops) solve fuel = some (true, cs')) :
    cs'.numClocks = cs.numClocks ∧ ValidClocking m tp cs (run m init ops) cs'.clock := by
  have w : WF (run m init ops) := WF.init.run m ops hv
  generalize run m init ops = s at *
  unfold determineClocking at h
  rw [hne] at h
  simp only [Bool.false_eq_true, if_false] at h
  split at h
  · simp at h
  split at h
  · rename_i sym _ _ a hsol
    simp only [Option.some.injEq, Prod.mk.injEq, true_and] at h
    have hall := hs.sat _ _ hsol
    simp only [List.mem_append] at hall
    obtain ⟨k, hk, ha⟩ := model_clock (tp := tp) w hp hX hY a (fun c hc => hall c (by tauto)) (fun c hc => hall c (by tauto))
      (fun c hc => hall c (by tauto)) (fun c hc => hall c (by tauto))
    have hcl := fun t hb he => assigned w hp hk ha t hb he
    subst h
    refine ⟨fold_numClocks _ _, ?_, ?_, ?_⟩
    · intro t hb he; rw [hcl t hb he]; exact hk.range t hb he
    · intro t hb he u hu
      have hn := Drv.node_of w hb.1 he
      obtain ⟨hub, hue⟩ := fanin_placed w hX hY (by rw [hn.2.2]; exact hb) hu
      rw [hcl t hb he, hcl u hub hue]
      exact hk.flow t hb he u hu
    · intro t hb he hz
      obtain ⟨h1, h2⟩ := below_in hp hb he hz
      rw [hcl t hb he, hcl _ h1 h2]
      exact hk.crossing t hb he hz
  · simp at h

/-- C47: if no clocking was found, the layout's clocking is not modified. -/
theorem C47_failure_unchanged {solve : Solver} {fuel : Nat} {cs' : Scheme}
    (h : determineClocking m tp cs s solve fuel = some (false, cs')) : cs' = cs := by
  unfold determineClocking at h
  split_ifs at h
  · simp at h
  · simp only at h
    split at h
    · simp at h
    · split at h
      · simp at h
      · simpa using h.symm

/-- C47 (completeness, partial): if the layout is not clocked (all clock numbers are the same) and has a valid clock
assignment, then one is found. Missing: layouts that are already clocked, for which this is false
(`C47_clocked_layout_rejected`). -/
theorem C47_complete_partial (ops : List GateLevel.Op) (hv : Valid m init ops) (hX : m.X < 2^31 - 1) (hY : m.Y < 2^31 - 1)
    (hp : Placed m (run m init ops)) {solve : Solver} (hs : Right solve) {fuel : Nat}
    (hn : 2 ≤ cs.numClocks) (hcs : ∀ a b, cs.clock a = cs.clock b) (hlt : ∀ a, cs.clock a < cs.numClocks)
    (hk : ∃ k, ValidClocking m tp cs (run m init ops) k) :
    ∃ cs', determineClocking m tp cs (run m init ops) solve (fuel + 1) = some (true, cs') := by
  have w : WF (run m init ops) := WF.init.run m ops hv
  have hi2 := Drv.inputs_two m ops
  generalize run m init ops = s at *
  obtain ⟨k, hk⟩ := hk
  cases hne : Drv.layoutEmpty s with
  | true => exact ⟨cs, by simp [determineClocking, hne]⟩
  | false =>
  have hsym : ∃ sym, symmetryCons m tp cs s (mkVars cs s) (fuel + 1) = some sym ∧
      ∃ k', ValidClocking m tp cs s k' ∧ ∀ con ∈ sym, ∀ a : Nat → Bool,
        (∀ t ∈ nodeTiles s, ∀ c < cs.numClocks, (a ((mkVars cs s).get (t, c)) = true ↔ k' t = c)) → con.holds a := by
    unfold symmetryCons
    cases hi : s.inputs with
    | nil => exact ⟨[], rfl, k, hk, by simp⟩
    | cons pi rest =>
      have hpi : pi ∈ s.inputs := by simp [hi]
      have h2 := hi2 pi hpi
      have hal := hp.inputs pi hpi
      have hfo : s.fanouts m tp cs true pi = [] := by
        unfold State.fanouts
        rw [if_neg (by omega)]
        simp only [if_true]
        have : outgoingClockedZones tp m cs (s.getTile pi) = [] := by
          unfold outgoingClockedZones
          rw [List.filter_eq_nil_iff]
          intro b _
          unfold isOutgoingClocked
          split_ifs
          · simp
          · rw [hcs b (s.getTile pi)]
            have := hlt (s.getTile pi)
            simp only [beq_iff_eq]
            by_cases e : cs.clock (s.getTile pi) + 1 < cs.numClocks
            · rw [Nat.mod_eq_of_lt e]; omega
            · have e' : cs.clock (s.getTile pi) + 1 = cs.numClocks := by omega
              rw [e', Nat.mod_self]; omega
        rw [this]; rfl
      have hpt : s.getTile pi ∈ nodeTiles s := by
        simp only [nodeTiles, List.mem_map, List.mem_filter]
        exact ⟨pi, ⟨hal, by simp [isConstant]; omega⟩, rfl⟩
      obtain ⟨hb, he⟩ := (mem_nodeTiles w hp _).1 hpt
      have hr := hk.range _ hb he
      refine ⟨[.clause [((mkVars cs s).get (s.getTile pi, 0 % cs.numClocks), true)]], by simp [recurse, hfo],
        _, rotate hk (cs.numClocks - k (s.getTile pi)), ?_⟩
      intro con hcon a ha
      simp only [List.mem_singleton] at hcon
      subst hcon
      refine ⟨((mkVars cs s).get (s.getTile pi, 0 % cs.numClocks), true), by simp, ?_⟩
      simp only
      rw [Nat.zero_mod, ha _ hpt 0 (by omega)]
      have : k (s.getTile pi) + (cs.numClocks - k (s.getTile pi)) = cs.numClocks := by omega
      rw [this, Nat.mod_self]
  obtain ⟨sym, e, k', hk', hh⟩ := hsym
  obtain ⟨a, ha, hall⟩ := clock_model w hp hX hY hk'
  unfold determineClocking
  rw [hne]
  simp only [Bool.false_eq_true, if_false, e]
  split
  · exact ⟨_, rfl⟩
  · rename_i hsol
    exfalso
    refine hs.unsat _ hsol a ?_
    intro c hc
    rw [List.mem_append] at hc
    rcases hc with hc | hc
    · exact hall c hc
    · exact hh c hc a ha

end

/-! ## Concrete cases, and disagreements -/

instance (a : Nat → Bool) : (c : Con) → Decidable (c.holds a)
  | .clause lits => inferInstanceAs (Decidable (∃ l ∈ lits, a l.1 = l.2))
  | .eq x y => inferInstanceAs (Decidable (a x = a y))

open Classical in
/-- A solver that answers `a` wherever that is right. -/
noncomputable def solver (a : Nat → Bool) : Solver := fun f =>
  if ∀ c ∈ f, c.holds a then some a
  else if h : ∃ b : Nat → Bool, ∀ c ∈ f, c.holds b then some h.choose else none

theorem solver_right (a : Nat → Bool) : Right (solver a) := by
  refine ⟨?_, ?_⟩
  · intro f b h
    unfold solver at h
    split_ifs at h with h1 h2
    · simp only [Option.some.injEq] at h; rw [← h]; exact h1
    · simp only [Option.some.injEq] at h; rw [← h]; exact h2.choose_spec
  · intro f h b hb
    unfold solver at h
    split_ifs at h with h1 h2
    exact h2 ⟨b, hb⟩

/-- An input that drives two outputs. -/
def fork : List GateLevel.Op :=
  [.createPi ⟨0, 0, 0, false⟩, .createPo ⟨0, 0, 0, false⟩ ⟨1, 0, 0, false⟩, .createPo ⟨0, 0, 0, false⟩ ⟨0, 1, 0, false⟩]

theorem fork_valid : Valid ⟨1, 1, 0⟩ init fork := ⟨trivial, trivial, trivial, trivial⟩

theorem fork_nodes (t : Coord) (n : Nat) (h : (run ⟨1, 1, 0⟩ init fork).tileNode t = some n) :
    n < 5 ∧ (run ⟨1, 1, 0⟩ init fork).nodeTile n = some t := by
  have w : WF (run ⟨1, 1, 0⟩ init fork) := WF.init.run _ _ fork_valid
  have e : (run ⟨1, 1, 0⟩ init fork).size = 5 := by decide +kernel
  have h9 := w.lt t n h
  rw [e] at h9
  exact ⟨h9, (w.inv t n).1 h⟩

theorem fork_placed : Placed ⟨1, 1, 0⟩ (run ⟨1, 1, 0⟩ init fork) := by
  refine ⟨?_, ?_, ?_, by decide +kernel⟩
  · have h : ∀ n ∈ (run ⟨1, 1, 0⟩ init fork).allNodes, 2 ≤ n → decide (InBounds ⟨1, 1, 0⟩ ((run ⟨1, 1, 0⟩ init fork).getTile n)) = true := by
      decide +kernel
    intro n hn h2
    simpa using h n hn h2
  · intro t n h h2
    have h1 : n < 5 := And.left (fork_nodes t n h)
    have hall : ∀ n < 5, 2 ≤ n → n ∈ (run ⟨1, 1, 0⟩ init fork).allNodes := by decide +kernel
    exact hall n h1 h2
  · intro t hb _ hz
    have := hb.2.2.2
    simp only at this
    omega

/-- The diagonal clocking is valid for it. -/
theorem fork_clocking (cs : Scheme) (h4 : cs.numClocks = 4) :
    ValidClocking ⟨1, 1, 0⟩ .cart cs (run ⟨1, 1, 0⟩ init fork) (fun t => (t.x + t.y) % 4) := by
  refine ⟨fun t _ _ => ?_, ?_, ?_⟩
  · rw [h4]; exact Nat.mod_lt _ (by omega)
  · have hall : ∀ t ∈ CritPath.tiles ⟨1, 1, 0⟩, ∀ u ∈ (run ⟨1, 1, 0⟩ init fork).fanins ⟨1, 1, 0⟩ .cart (openClocking .cart .four) false
      ((run ⟨1, 1, 0⟩ init fork).getNode t), ((u.x + u.y) % 4 + 1) % 4 = (t.x + t.y) % 4 := by decide +kernel
    intro t hb _ u hu
    rw [h4]
    refine hall t (CritPath.mem_tiles.2 hb) u ?_
    simpa [State.fanins] using hu
  · intro t hb _ hz
    have := hb.2.2.2
    simp only at this
    omega

/-- The hypotheses of `C47_complete_partial` and `C47_sound` are met: a clocking is found if the layout is unclocked. -/
example : ∃ cs', determineClocking ⟨1, 1, 0⟩ .cart (openClocking .cart .four) (run ⟨1, 1, 0⟩ init fork) (solver (fun _ => false)) 1 =
      some (true, cs') ∧ ValidClocking ⟨1, 1, 0⟩ .cart (openClocking .cart .four) (run ⟨1, 1, 0⟩ init fork) cs'.clock := by
  obtain ⟨cs', h⟩ := C47_complete_partial (tp := .cart) (cs := openClocking .cart .four) (fuel := 0) fork fork_valid (by decide) (by decide)
    fork_placed (solver_right (fun _ => false)) (by decide) (fun _ _ => rfl) (fun _ => (by decide : 0 < 4)) ⟨_, fork_clocking _ rfl⟩
  exact ⟨cs', h, (C47_sound fork fork_valid (by decide) (by decide) fork_placed (solver_right _) (by decide +kernel) h).2⟩

/-- C47 is false of the code: for the same layout, correctly clocked to begin with, no clocking is found, because the
clock numbers assigned in advance to break symmetries do not agree with each other. -/
theorem C47_clocked_layout_rejected (solve : Solver) (hs : Right solve) :
    ValidClocking ⟨1, 1, 0⟩ .cart (twoddwaveClocking .cart .four) (run ⟨1, 1, 0⟩ init fork) (twoddwaveClocking .cart .four).clock ∧
    determineClocking ⟨1, 1, 0⟩ .cart (twoddwaveClocking .cart .four) (run ⟨1, 1, 0⟩ init fork) solve 3 =
      some (false, twoddwaveClocking .cart .four) := by
  constructor
  · have hv := fork_clocking (twoddwaveClocking .cart .four) rfl
    have e : ∀ t ∈ CritPath.tiles ⟨1, 1, 0⟩, (twoddwaveClocking .cart .four).clock t = (t.x + t.y) % 4 := by decide +kernel
    have w : WF (run ⟨1, 1, 0⟩ init fork) := WF.init.run _ _ fork_valid
    refine ⟨fun t hb he => ?_, fun t hb he u hu => ?_, fun t hb he hz => ?_⟩
    · rw [e t (CritPath.mem_tiles.2 hb)]; exact hv.range t hb he
    · have hn := Drv.node_of w hb.1 he
      have hu' := fanin_placed w (by decide) (by decide) (by rw [hn.2.2]; exact hb) hu
      rw [e t (CritPath.mem_tiles.2 hb), e u (CritPath.mem_tiles.2 hu'.1)]; exact hv.flow t hb he u hu
    · have := hb.2.2.2
      simp only at this
      omega
  · unfold determineClocking
    rw [if_neg (by decide +kernel)]
    have e : symmetryCons ⟨1, 1, 0⟩ .cart (twoddwaveClocking .cart .four) (run ⟨1, 1, 0⟩ init fork)
        (mkVars (twoddwaveClocking .cart .four) (run ⟨1, 1, 0⟩ init fork)) 3 =
        some [.clause [(0, true)], .clause [(5, true)], .clause [(10, true)]] := by decide +kernel
    simp only [e]
    split
    · rename_i a h
      exfalso
      have hall := hs.sat _ _ h
      have c1 := hall (.clause [(0, true)]) (by simp)
      have c2 := hall (.clause [(10, true)]) (by simp)
      have hm : Con.clause [(10, false), (0, false)] ∈ flowCons ⟨1, 1, 0⟩ .cart (twoddwaveClocking .cart .four) (run ⟨1, 1, 0⟩ init fork)
        (mkVars (twoddwaveClocking .cart .four) (run ⟨1, 1, 0⟩ init fork)) := by decide +kernel
      have c3 := hall _ (List.mem_append_left _ (List.mem_append_left _ (List.mem_append_right _ hm)))
      simp [Con.holds] at c1 c2 c3
      rw [c1, c2] at c3
      simp at c3
    · rfl

/-- A wire in the crossing layer above an empty tile. -/
def bridge : List GateLevel.Op :=
  [.createPi ⟨0, 0, 0, false⟩, .createGate 2 [⟨0, 0, 0, false⟩] ⟨1, 0, 1, false⟩, .createPo ⟨1, 0, 1, false⟩ ⟨2, 0, 0, false⟩]

/-- C47 is false of the code: for an unclocked layout with a wire above an empty tile no clocking is found, although
numbering the tiles from left to right is a valid clock assignment. -/
theorem C47_wire_above_empty_tile_rejected (solve : Solver) (hs : Right solve) :
    (∀ t ∈ CritPath.tiles ⟨2, 0, 1⟩, ∀ u ∈ (run ⟨2, 0, 1⟩ init bridge).fanins ⟨2, 0, 1⟩ .cart (openClocking .cart .four) false
      ((run ⟨2, 0, 1⟩ init bridge).getNode t), (u.x + 1) % 4 = t.x) ∧
    determineClocking ⟨2, 0, 1⟩ .cart (openClocking .cart .four) (run ⟨2, 0, 1⟩ init bridge) solve 3 =
      some (false, openClocking .cart .four) := by
  constructor
  · decide +kernel
  · unfold determineClocking
    rw [if_neg (by decide +kernel)]
    have e : symmetryCons ⟨2, 0, 1⟩ .cart (openClocking .cart .four) (run ⟨2, 0, 1⟩ init bridge)
        (mkVars (openClocking .cart .four) (run ⟨2, 0, 1⟩ init bridge)) 3 = some [.clause [(0, true)]] := by decide +kernel
    simp only [e]
    split
    · rename_i a h
      exfalso
      have hall := hs.sat _ _ h
      have c0 := hall (.clause [(0, true)]) (by simp)
      have h1 : Con.eq 4 0 ∈ crossCons (openClocking .cart .four) (run ⟨2, 0, 1⟩ init bridge)
        (mkVars (openClocking .cart .four) (run ⟨2, 0, 1⟩ init bridge)) := by decide +kernel
      have h2 : Con.eq 5 0 ∈ crossCons (openClocking .cart .four) (run ⟨2, 0, 1⟩ init bridge)
        (mkVars (openClocking .cart .four) (run ⟨2, 0, 1⟩ init bridge)) := by decide +kernel
      have h3 : Con.clause [(4, false), (5, false)] ∈ atMostOne (openClocking .cart .four) (run ⟨2, 0, 1⟩ init bridge)
        (mkVars (openClocking .cart .four) (run ⟨2, 0, 1⟩ init bridge)) := by decide +kernel
      have c1 := hall _ (List.mem_append_left _ (List.mem_append_right _ h1))
      have c2 := hall _ (List.mem_append_left _ (List.mem_append_right _ h2))
      have c3 := hall _ (List.mem_append_left _ (List.mem_append_left _ (List.mem_append_left _ (List.mem_append_right _ h3))))
      simp [Con.holds] at c0 c1 c2 c3
      rw [c1, c2, c0] at c3
      simp at c3
    · rfl

/-- Two paths of different lengths that meet in a column: one ends in a wire, the other in a gate above it. -/
def meet : List GateLevel.Op :=
  [.createPi ⟨0, 0, 0, false⟩, .createGate 2 [⟨0, 0, 0, false⟩] ⟨0, 1, 0, false⟩, .createGate 2 [⟨0, 1, 0, false⟩] ⟨1, 1, 0, false⟩,
   .createGate 2 [⟨0, 0, 0, false⟩] ⟨1, 0, 0, false⟩, .createGate 2 [⟨1, 0, 0, false⟩] ⟨2, 0, 0, false⟩,
   .createGate 2 [⟨2, 0, 0, false⟩] ⟨2, 1, 0, false⟩, .createGate 3 [⟨2, 1, 0, false⟩] ⟨1, 1, 1, false⟩]

/-- C47 is false of the code: for an unclocked layout with a gate in the crossing layer a clocking is reported, but a
connection is not correctly clocked afterwards. -/
theorem C47_gate_in_crossing_layer :
    ∃ solve cs', Right solve ∧
      determineClocking ⟨2, 1, 1⟩ .cart (openClocking .cart .four) (run ⟨2, 1, 1⟩ init meet) solve 1 = some (true, cs') ∧
      (⟨0, 1, 0, false⟩ : Coord) ∈ (run ⟨2, 1, 1⟩ init meet).fanins ⟨2, 1, 1⟩ .cart cs' false ((run ⟨2, 1, 1⟩ init meet).getNode ⟨1, 1, 0, false⟩) ∧
      (cs'.clock ⟨0, 1, 0, false⟩, cs'.clock ⟨1, 1, 0, false⟩) = (1, 0) := by
  -- clock numbers of the seven nodes: 0, 1, 2, 1, 2, 3, 0
  let a : Nat → Bool := fun i => [0, 5, 10, 13, 18, 23, 24].contains i
  have e : symmetryCons ⟨2, 1, 1⟩ .cart (openClocking .cart .four) (run ⟨2, 1, 1⟩ init meet)
      (mkVars (openClocking .cart .four) (run ⟨2, 1, 1⟩ init meet)) 1 = some [.clause [(0, true)]] := by decide +kernel
  have hsat : ∀ c ∈ atLeastOne (openClocking .cart .four) (run ⟨2, 1, 1⟩ init meet) (mkVars (openClocking .cart .four) (run ⟨2, 1, 1⟩ init meet)) ++
      atMostOne (openClocking .cart .four) (run ⟨2, 1, 1⟩ init meet) (mkVars (openClocking .cart .four) (run ⟨2, 1, 1⟩ init meet)) ++
      flowCons ⟨2, 1, 1⟩ .cart (openClocking .cart .four) (run ⟨2, 1, 1⟩ init meet) (mkVars (openClocking .cart .four) (run ⟨2, 1, 1⟩ init meet)) ++
      crossCons (openClocking .cart .four) (run ⟨2, 1, 1⟩ init meet) (mkVars (openClocking .cart .four) (run ⟨2, 1, 1⟩ init meet)) ++ [.clause [(0, true)]],
      c.holds a := by decide +kernel
  refine ⟨solver a, assignClockNumbers ⟨2, 1, 1⟩ (openClocking .cart .four) (run ⟨2, 1, 1⟩ init meet)
    (mkVars (openClocking .cart .four) (run ⟨2, 1, 1⟩ init meet)) a, solver_right a, ?_, by decide +kernel, by decide +kernel⟩
  unfold determineClocking
  rw [if_neg (by decide +kernel)]
  simp only [e, solver]
  rw [if_pos hsat]

end Verif.DetClock
