import Verif.OpDomain.FloodRun

/-! # C62: operational domains by grid search, random sampling and flood fill, under every schedule of the threads -/
namespace Verif.OpDomain

open Verif.Iter

/-! ### The grid -/

theorem numSteps_bounds {r : Range} (h : r.min ≤ r.max) (hs : 0 < r.step) :
    (numSteps r : Rat) * r.step ≤ r.max - r.min + r.step / 2 ∧ r.max - r.min + r.step / 2 < (numSteps r + 1) * r.step := by
  have hq : 0 ≤ (r.max - r.min) / r.step := div_nonneg (by linarith) hs.le
  have hn : ((numSteps r : Nat) : Int) = ((r.max - r.min) / r.step + 1 / 2).floor := by
    unfold numSteps roundAway
    rw [if_pos hq]
    have : 0 ≤ ((r.max - r.min) / r.step + 1 / 2).floor := by
      rw [Rat.le_floor_iff]; push_cast; linarith
    omega
  have h1 := Rat.floor_le ((r.max - r.min) / r.step + 1 / 2)
  have h2 := Rat.lt_floor_add_one ((r.max - r.min) / r.step + 1 / 2)
  rw [← hn] at h1 h2
  push_cast at h1 h2
  have hc : ((r.max - r.min) / r.step + 1 / 2) * r.step = r.max - r.min + r.step / 2 := by
    have := hs.ne'; field_simp
  constructor
  · rw [← hc]; exact mul_le_mul_of_nonneg_right h1 hs.le
  · rw [← hc]; exact mul_lt_mul_of_pos_right h2 hs

/-- The values of a dimension are `min`, `min + step`, …: every one within the range, and none that exceeds the range by more than the
margin. -/
theorem C62_values {r : Range} (h : r.min ≤ r.max) (hs : 0 < r.step) (i : Nat) :
    (r.min + i * r.step ≤ r.max → (values r)[i]? = some (r.min + i * r.step)) ∧
    (∀ v, (values r)[i]? = some v → v = r.min + i * r.step ∧ v ≤ r.max + margin) := by
  suffices hk : (r.min + i * r.step ≤ r.max → i < numIndices r) ∧ (i < numIndices r → r.min + i * r.step ≤ r.max + margin) by
    have hv : (values r)[i]? = if i < numIndices r then some (r.min + i * r.step) else none := by
      unfold values value
      split_ifs with hi <;> simp [hi]
    constructor
    · intro hi
      rw [hv, if_pos (hk.1 hi)]
    · intro v hi
      rw [hv] at hi
      split_ifs at hi with hlt
      simp only [Option.some.injEq] at hi
      subst hi
      exact ⟨rfl, hk.2 hlt⟩
  obtain ⟨h1, h2⟩ := numSteps_bounds h hs
  have hm := margin_pos
  unfold numIndices
  simp only [Nat.add_sub_cancel]
  constructor
  · intro hi
    split_ifs with hc
    · by_contra hlt
      have : (numSteps r : Rat) ≤ i := by exact_mod_cast (by omega : numSteps r ≤ i)
      have := mul_le_mul_of_nonneg_right this hs.le
      linarith
    · by_contra hlt
      have : (numSteps r : Rat) + 1 ≤ i := by exact_mod_cast (by omega : numSteps r + 1 ≤ i)
      have := mul_le_mul_of_nonneg_right this hs.le
      linarith
  · intro hi
    split_ifs at hi with hc
    · have : (i : Rat) + 1 ≤ numSteps r := by exact_mod_cast hi
      have := mul_le_mul_of_nonneg_right this hs.le
      linarith
    · have : (i : Rat) ≤ numSteps r := by exact_mod_cast (by omega : i ≤ numSteps r)
      have := mul_le_mul_of_nonneg_right this hs.le
      linarith

/-- The parameter point of a grid point takes the value with the index of each dimension. -/
theorem C62_parameter_point {rs : List Range} {p : SP} (hp : InGrid rs p) :
    List.Forall₂ (fun (v : Rat) (ri : Range × Nat) => (values ri.1)[ri.2]? = some v) (toPP rs p) (rs.zip p) := by
  unfold toPP
  induction hp with
  | nil => exact List.Forall₂.nil
  | cons h1 _ ih => exact List.Forall₂.cons (by simp [values, h1]) ih

example : numIndices ⟨0, 1, 3 / 10⟩ = 4 ∧ numIndices ⟨0, 1, 2 / 5⟩ = 3 ∧ numIndices ⟨1, 10, 1 / 10⟩ = 91 := by decide +kernel

/-- `add_value` never changes a status that is known, and otherwise sets that of the given point only; no key occurs twice. -/
theorem C62_add_value (dom : Dom) (p q : PP) (b : Bool) :
    contains (addValue dom p b) q = (contains dom q).or (if sameKey p q then some b else none) ∧
    (dom.Pairwise (fun e f => sameKey e.1 f.1 = false) → (addValue dom p b).Pairwise (fun e f => sameKey e.1 f.1 = false)) := by
  unfold addValue
  split_ifs with h1 h2
  · refine ⟨?_, id⟩
    obtain ⟨e, he, hk⟩ := contains_isSome.1 h1
    have : (contains dom q).isSome = true := contains_isSome.2 ⟨e, he, by
      simp only [sameKey, beq_iff_eq] at hk h2 ⊢
      exact hk.trans h2⟩
    obtain ⟨v, hv⟩ := Option.isSome_iff_exists.1 this
    rw [hv]; rfl
  · exact ⟨by simp, id⟩
  all_goals
    refine ⟨by cases hf : dom.find? (fun e => sameKey e.1 q) <;> simp [contains, List.find?_append, *], fun hp => List.pairwise_append.2 ⟨hp, by simp, ?_⟩⟩
    intro e he f hf
    simp only [List.mem_singleton] at hf
    subst hf
    simp only [Option.not_isSome_iff_eq_none, contains_none] at h1
    exact h1 e he

/-- The points of the grid have different parameter points, and a parameter point of the grid leads back to its point. -/
theorem C62_keys {rs : List Range} (h : Sweep rs) {p q : SP} (hp : InGrid rs p) (hq : InGrid rs q) :
    (sameKey (toPP rs p) (toPP rs q) = true ↔ p = q) ∧ toSP rs (toPP rs p) = p :=
  ⟨⟨sameKey_inj h.step hp.length hq.length, fun e => e ▸ sameKey_refl _⟩, toSP_toPP h.step hp⟩

theorem C62_dimension_step_point {r : Range} {v : Rat} (h : ∃ w ∈ values r, v ≤ w) :
    ∃ i, toSP [r] [v] = [i] ∧ i < numIndices r ∧ v ≤ value r i ∧ ∀ j < i, value r j < v := by
  refine ⟨(values r).findIdx (fun w => decide (¬ w < v)), rfl, ?_⟩
  have hlen : (values r).length = numIndices r := by simp [values]
  have hl : (values r).findIdx (fun w => decide (¬ w < v)) < (values r).length := by
    rw [List.findIdx_lt_length]
    obtain ⟨w, hw, hv⟩ := h
    exact ⟨w, hw, by simpa using hv⟩
  have h1 := List.findIdx_getElem (w := hl)
  refine ⟨by omega, ?_, ?_⟩
  · simpa [values] using h1
  · intro j hj
    have := List.not_of_lt_findIdx hj
    simpa [values] using this

/-- A parameter value within the range but beyond its last value has no step point: `values.at` throws. -/
theorem C62_false_step_point : ∃ r : Range, ∃ v : Rat, r.min ≤ v ∧ v ≤ r.max ∧ ¬ InGrid [r] (toSP [r] [v]) :=
  ⟨⟨0, 1, 3 / 10⟩, 19 / 20, by decide +kernel, by decide +kernel, by
    intro h
    rw [InGrid_iff] at h
    revert h
    rw [show toSP [⟨0, 1, 3 / 10⟩] [19 / 20] = [4] by decide +kernel, show sizes [⟨0, 1, 3 / 10⟩] = [4] by decide +kernel]
    intro h
    cases h with
    | cons h _ => omega⟩

/-! ### What the resulting domain says -/

/-- The status reported for a point of the grid. -/
theorem C62_lookup {rs : List Range} {op : PP → Bool} (h : Sweep rs) {P : SP → Prop} [DecidablePred P] {dom : Dom}
    (hd : Exactly rs op P dom) {p : SP} (hp : InGrid rs p) :
    contains dom (toPP rs p) = if P p then some (op (toPP rs p)) else none := by
  obtain ⟨ps, hn, hm, hperm⟩ := hd
  have hdom : ∀ e ∈ dom, ∃ p ∈ ps, e = ent rs op p := by
    intro e he
    obtain ⟨p, hp, rfl⟩ := List.mem_map.1 (hperm.subset he)
    exact ⟨p, hp, rfl⟩
  have hg : ∀ p ∈ ps, InGrid rs p := fun p hp => ((hm p).1 hp).1
  split_ifs with hP
  · exact contains_ents h.step hdom hg hp (hperm.symm.subset (List.mem_map_of_mem ((hm p).2 ⟨hp, hP⟩)))
  · apply contains_absent h.step hdom hg hp
    intro hin
    obtain ⟨q, hq, e⟩ := hdom _ hin
    have := ent_inj h.step hp (hg q hq) e
    subst this
    exact hP ((hm p).1 hq).2

/-- The domain does not depend on anything but the set of points. -/
theorem C62_unique {rs : List Range} {op : PP → Bool} {P : SP → Prop} {dom dom' : Dom} (h : Exactly rs op P dom) (h' : Exactly rs op P dom') :
    dom.Perm dom' := by
  obtain ⟨ps, n1, m1, p1⟩ := h
  obtain ⟨qs, n2, m2, p2⟩ := h'
  have : ps.Perm qs := (List.perm_ext_iff_of_nodup n1 n2).2 (fun p => by rw [m1, m2])
  exact p1.trans ((this.map _).trans p2.symm)

/-- The statistics: the operational and the other points of the domain, and the size of the grid. -/
theorem C62_stats {rs : List Range} {op : PP → Bool} {P : SP → Prop} {dom : Dom} (h : Exactly rs op P dom) :
    (stats rs dom).2.2 = (cartesianCombinations (indices rs)).length ∧ ∃ ps : List SP, ps.Nodup ∧ (∀ p, p ∈ ps ↔ InGrid rs p ∧ P p) ∧
      (stats rs dom).1 = (ps.filter (fun p => op (toPP rs p))).length ∧
      (stats rs dom).2.1 = (ps.filter (fun p => !op (toPP rs p))).length := by
  constructor
  · rw [C28_cartesian_length]
    unfold stats sizes indices
    simp only [List.map_map, Function.comp_def, List.length_range]
    rw [List.prod_eq_foldl]
  · obtain ⟨ps, n, m, p⟩ := h
    refine ⟨ps, n, m, ?_, ?_⟩
    · have := (p.filter (fun e => e.2)).length_eq
      rw [List.filter_map, List.length_map] at this
      exact this
    · have := (p.filter (fun e => !e.2)).length_eq
      rw [List.filter_map, List.length_map] at this
      exact this

/-! ### The algorithms -/

/-- Grid search determines every point of the grid, once, whatever the number of threads, the order of the points and the schedule. -/
theorem C62_grid_search {rs : List Range} {op : PP → Bool} (h : Sweep rs) {T : Nat} {dom : Dom} {evals : Nat}
    (hr : GridSearch rs op T dom evals) :
    Exactly rs op (fun _ => True) dom ∧ evals = dom.length ∧ evals = (cartesianCombinations (indices rs)).length := by
  obtain ⟨ps, hp, hr⟩ := hr
  have hg : ∀ p ∈ ps, InGrid rs p := fun p h => mem_indices.1 (hp.subset h)
  have hn : ps.Nodup := hp.symm.nodup (indices_nodup rs)
  obtain ⟨h1, h2⟩ := simulated_spec h.step hg hn hr
  refine ⟨⟨ps, hn, fun p => ?_, h1⟩, h2, ?_⟩
  · simp only [and_true]
    exact ⟨hg p, fun h => hp.symm.subset (mem_indices.2 h)⟩
  · rw [h2, h1.length_eq, List.length_map, hp.length_eq]

/-- Random sampling determines the samples, each once. -/
theorem C62_random_sampling {rs : List Range} {op : PP → Bool} (h : Sweep rs) {T n : Nat} {ps : List SP} (hs : Samples rs n ps) {dom : Dom}
    {evals : Nat} (hr : Simulated rs op T ps dom evals) : Exactly rs op (· ∈ ps) dom ∧ evals = dom.length ∧ evals ≤ n := by
  have hg : ∀ p ∈ ps, InGrid rs p := fun p h => mem_indices.1 (hs.2.2 p h)
  obtain ⟨h1, h2⟩ := simulated_spec h.step hg hs.1 hr
  refine ⟨⟨ps, hs.1, fun p => ⟨fun h => ⟨hg p h, h⟩, fun h => h.2⟩, h1⟩, h2, ?_⟩
  rw [h2, h1.length_eq, List.length_map]
  exact hs.2.1

/-- Flood fill determines the samples, the operational regions they hit, and a border around these; no point is simulated twice. -/
theorem C62_flood_fill {rs : List Range} {op : PP → Bool} (h : Sweep rs) {T n : Nat} {ps : List SP} (hs : Samples rs n ps) {dom : Dom}
    {evals : Nat} (hr : FloodFill rs op T ps dom evals) : Exactly rs op (Wanted rs op ps) dom ∧ evals = dom.length := by
  have hg : ∀ p ∈ ps, InGrid rs p := fun p h => mem_indices.1 (hs.2.2 p h)
  obtain ⟨dom₁, evals₁, ord, h1, h2, h3⟩ := hr
  obtain ⟨a1, a2⟩ := simulated_spec h.step hg hs.1 h1
  obtain ⟨Q, e, hQ⟩ := seed_spec h.step hg a1 h2
  rw [e] at h3
  simp only at h3
  split_ifs at h3 with hq
  · obtain ⟨rfl, rfl⟩ := h3
    subst hq
    refine ⟨⟨ps, hs.1, fun p => ⟨fun h => ⟨hg p h, Or.inl h⟩, ?_⟩, a1⟩, a2⟩
    rintro ⟨hp, hw⟩
    refine wanted_mem h.step (fun p hp => hp) ?_ hp hw
    intro x hx hox q hq hn
    rcases hQ.all x hx hox q hq hn with h | h
    · exact h
    · simp at h
  · obtain ⟨es, s, e1, hj, rfl, rfl⟩ := h3
    subst a2
    have hi := (FInv.start h.step hg hs.1 (T := T) a1 hQ hq).run h.step e1
    refine hi.joined h.step hj ?_
    have hlen : ∀ (es : List Event) (s s' : Flood), floodRun rs op s es = some s' → s'.ws.length = s.ws.length := by
      intro es
      induction es with
      | nil => intro s s' e; simp only [floodRun, Option.some.injEq] at e; rw [e]
      | cons ev es ih =>
        intro s s' e
        simp only [floodRun, Option.bind_eq_some_iff] at e
        obtain ⟨s₁, e1, e2⟩ := e
        rw [ih s₁ s' e2]
        cases ev with
        | run i => exact workerStep_length e1
        | wake i =>
          simp only [floodStep] at e1
          split_ifs at e1
          simp only [Option.some.injEq] at e1
          subst e1
          simp
    have := hlen _ _ _ e1
    intro hc
    rw [hc] at this
    simp [Flood.start] at this
    omega

/-- The result of flood fill does not depend on the number of threads and their schedule. -/
theorem C62_flood_fill_deterministic {rs : List Range} {op : PP → Bool} (h : Sweep rs) {T T' n : Nat} {ps : List SP} (hs : Samples rs n ps)
    {dom dom' : Dom} {evals evals' : Nat} (hr : FloodFill rs op T ps dom evals) (hr' : FloodFill rs op T' ps dom' evals') :
    dom.Perm dom' ∧ evals = evals' := by
  obtain ⟨a1, a2⟩ := C62_flood_fill h hs hr
  obtain ⟨b1, b2⟩ := C62_flood_fill h hs hr'
  have := C62_unique a1 b1
  exact ⟨this, by rw [a2, b2, this.length_eq]⟩

/-- The threads of the parallel simulation never wait for each other, and finish after at most two steps per point. -/
theorem C62_simulation_terminates {rs : List Range} {op : PP → Bool} {T : Nat} {ps : List SP} {es : List Nat} {s : Sim}
    (e : simRun rs op (Sim.start T [] 0 ps) es = some s) :
    es.length ≤ 2 * ps.length ∧ (¬ s.Joined → ∃ i s', simStep rs op s i = some s') := by
  have := simRun_work e
  rw [sim_work_start] at this
  exact ⟨by omega, sim_progress⟩

/-- The workers of flood fill do not deadlock: whenever some worker has not returned, some worker can take a step, without any spurious
wakeup. And they return: the number of their steps is bounded, up to the number of spurious wakeups. -/
theorem C62_flood_fill_terminates {rs : List Range} {op : PP → Bool} (h : Sweep rs) {T T' n : Nat} {ps : List SP} (hs : Samples rs n ps)
    {dom ord : Dom} {evals : Nat} (h1 : Simulated rs op T' ps dom evals) (h2 : List.Perm ord dom) (hne : (seed rs dom ord).1 ≠ [])
    {es : List Event} {s : Flood} (e : floodRun rs op (Flood.start T dom evals (seed rs dom ord)) es = some s) :
    (¬ s.Joined → ∃ i s', floodStep rs op s (.run i) = some s') ∧
    es.countP (fun x => !x.isWake) ≤
      (max T 1 + 6 + 3 ^ rs.length) * (cartesianCombinations (indices rs)).length + 2 * max T 1 + es.countP Event.isWake := by
  have hg : ∀ p ∈ ps, InGrid rs p := fun p h => mem_indices.1 (hs.2.2 p h)
  obtain ⟨a1, rfl⟩ := simulated_spec h.step hg hs.1 h1
  obtain ⟨Q, eq, hQ⟩ := seed_spec h.step hg a1 h2
  rw [eq] at e hne
  have hi := FInv.start h.step hg hs.1 (T := T) a1 hQ hne
  have hr := hi.run h.step e
  refine ⟨fun hj => flood_progress hr hj, ?_⟩
  have := floodRun_work h.step hi e
  rw [flood_work_start] at this
  · omega
  · exact (hQ.nodup.subperm (fun p hp => mem_indices.2 (hQ.mem p hp).1)).length_le

/-! ### A concrete case: two dimensions, three values each, two threads; two operational regions, one of which is hit -/

def exRs : List Range := [⟨0, 2, 1⟩, ⟨0, 1, 1 / 2⟩]

def exOp : PP → Bool := fun p => decide (p.getD 0 0 + p.getD 1 0 ≤ 1 / 2) || decide (p = [2, 1])

def exSamples : List SP := [[0, 0], [1, 2]]

def exDom₁ : Dom := [([0, 0], true), ([1, 1], false)]

def exEvents : List Event :=
  [0, 1, 0, 1, 0, 1, 0, 1, 0, 1, 0, 1, 0, 1, 0, 1, 0, 1, 1, 1, 0, 1, 1, 1, 0, 1].map Event.run

theorem exSweep : Sweep exRs := ⟨by unfold exRs; decide +kernel, by unfold exRs; decide +kernel⟩

theorem exSampled : Samples exRs 5 exSamples := ⟨by decide +kernel, by decide +kernel, by decide +kernel⟩

set_option synthInstance.maxSize 1000 in
theorem exSimulated : Simulated exRs exOp 2 exSamples exDom₁ 2 := by
  have h : (simRun exRs exOp (Sim.start 2 [] 0 exSamples) [0, 1, 0, 1]).map (fun s => (s.dom, s.evals, s.thr)) =
      some (exDom₁, 2, [([], none), ([], none)]) := by decide +kernel
  rw [Option.map_eq_some_iff] at h
  obtain ⟨s, e, h⟩ := h
  simp only [Prod.mk.injEq] at h
  refine ⟨_, s, e, ?_, h.1, h.2.1⟩
  intro t ht
  rw [h.2.2] at ht
  simpa using ht

theorem exFloodFill : ∃ dom, FloodFill exRs exOp 2 exSamples dom 6 ∧
    dom = [([0, 0], true), ([1, 1], false), ([1, 0], false), ([0, 1 / 2], true), ([1, 1 / 2], false), ([0, 1], false)] := by
  have hs : seed exRs exDom₁ exDom₁.reverse = ([[1, 0], [0, 1], [1, 1]], [[1, 0], [0, 1], [1, 1]]) := by decide +kernel
  have h : (floodRun exRs exOp (Flood.start 2 exDom₁ 2 (seed exRs exDom₁ exDom₁.reverse)) exEvents).map (fun s => (s.dom, s.evals, s.ws)) =
      some ([([0, 0], true), ([1, 1], false), ([1, 0], false), ([0, 1 / 2], true), ([1, 1 / 2], false), ([0, 1], false)], 6,
        [.done, .done]) := by decide +kernel
  rw [Option.map_eq_some_iff] at h
  obtain ⟨s, e, h⟩ := h
  simp only [Prod.mk.injEq] at h
  refine ⟨s.dom, ⟨exDom₁, 2, exDom₁.reverse, exSimulated, List.reverse_perm _, ?_⟩, h.1⟩
  rw [if_neg (by rw [hs]; simp)]
  refine ⟨_, s, e, ?_, rfl, h.2.1⟩
  intro w hw
  rw [h.2.2] at hw
  simpa using hw

example : ∃ dom, FloodFill exRs exOp 2 exSamples dom 6 ∧ Exactly exRs exOp (Wanted exRs exOp exSamples) dom := by
  obtain ⟨dom, h, -⟩ := exFloodFill
  exact ⟨dom, h, (C62_flood_fill exSweep exSampled h).1⟩

/-! ### Steps finer than the resolution of parameter points -/

def fineRs : List Range := [⟨0, 1 / 1000000, 1 / 10000000⟩]

set_option synthInstance.maxSize 1000 in
/-- With steps below the margin, which the entry points accept, grid search misses points: different points share a parameter point, and
looking one up yields the status of another. -/
theorem C62_false_fine_steps : ∃ (op : PP → Bool) (dom : Dom) (evals : Nat), validate fineRs 1 = true ∧ GridSearch fineRs op 1 dom evals ∧
    (∃ p, InGrid fineRs p ∧ contains dom (toPP fineRs p) = some true ∧ op (toPP fineRs p) = false) ∧
    ¬ Exactly fineRs op (fun _ => True) dom := by
  have h : (simRun fineRs (fun p => decide (p = [0])) (Sim.start 1 [] 0 (cartesianCombinations (indices fineRs)))
      [0, 0, 0, 0, 0, 0, 0, 0, 0, 0, 0, 0, 0]).map (fun s => (s.dom, s.evals, s.thr)) =
      some ([([0], true), ([1 / 2000000], false)], 2, [([], none)]) := by decide +kernel
  rw [Option.map_eq_some_iff] at h
  obtain ⟨s, e, h⟩ := h
  simp only [Prod.mk.injEq] at h
  have hw : contains s.dom (toPP fineRs [1]) = some true := by rw [h.1]; decide +kernel
  have hg : InGrid fineRs [1] := by rw [← mem_indices]; decide +kernel
  refine ⟨fun p => decide (p = [0]), s.dom, s.evals, by decide +kernel, ⟨_, List.Perm.refl _, _, s, e, ?_, rfl, rfl⟩,
    ⟨[1], hg, hw, by decide +kernel⟩, ?_⟩
  · intro t ht
    rw [h.2.2] at ht
    simpa using ht
  · rintro ⟨ps, hn, hm, hp⟩
    have h1 := hp.length_eq
    rw [h.1, List.length_map] at h1
    have h2 : (cartesianCombinations (indices fineRs)).Perm ps :=
      (List.perm_ext_iff_of_nodup (indices_nodup _) hn).2 (fun p => by rw [mem_indices, hm]; simp)
    have h3 : (cartesianCombinations (indices fineRs)).length = 11 := by decide +kernel
    rw [h2.length_eq, ← h1] at h3
    simp at h3

end Verif.OpDomain
