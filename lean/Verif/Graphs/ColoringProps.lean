import Verif.Graphs.SearchFacts

/-!
# C80: vertex coloring
-/
namespace Verif.Graphs

/-- **C80** (every tactic). With a correct solver and true cliques, `determine_vertex_coloring` with the SAT engine paints every
vertex, no two neighbours alike and, if asked for, with a color that occurs in every clique; no such coloring uses fewer colors than
the reported number; and the reported most frequent color is one, with its frequency. -/
theorem C80_minimal (g : Graph) (wf : g.WF) (hV : g.vertices ≠ []) (p : SatParams) (hcl : ∀ cl ∈ p.cliques, IsClique g cl)
    (order : List (Nat × Nat) → List (Nat × Nat)) (ho : ∀ l, (order l).Perm l) (solve : Solver) (hx : Exact g p solve)
    (hs : ∃ k f, Wanted g p k f) (h : Heuristic) :
    ∃ r f, determineColoring g (some p) order solve h = .returned r ∧ Paints g r f ∧ Wanted g p r.chromatic f ∧
      (∀ k f', Wanted g p k f' → r.chromatic ≤ k) ∧
      r.colorFrequency = count g f r.mostFrequent ∧ ∀ c, count g f c ≤ r.colorFrequency := by
  obtain ⟨k, a, hr, ha, hmin⟩ := (search_spec wf hcl hV hx).1 hs
  have hi := hx.1 k a ha
  obtain ⟨e1, e2, e3, _⟩ := extract_spec ho hV hi
  refine ⟨extract g order k a, colorOf k a, ?_, e1, wanted_of_inst wf hcl hi, ?_, e2, e3⟩
  · unfold determineColoring satColor
    dsimp only
    rw [hr]
  · intro j f' hw
    exact hmin j ⟨f', hw⟩

/-- **C80**. Without the frequency constraint there always is such a coloring: the reported number is the chromatic number. -/
theorem C80_chromatic (g : Graph) (wf : g.WF) (hV : g.vertices ≠ []) (p : SatParams) (hf : p.frequency = false)
    (hcl : ∀ cl ∈ p.cliques, IsClique g cl)
    (order : List (Nat × Nat) → List (Nat × Nat)) (ho : ∀ l, (order l).Perm l) (solve : Solver) (hx : Exact g p solve)
    (h : Heuristic) :
    ∃ r f, determineColoring g (some p) order solve h = .returned r ∧ Paints g r f ∧ Proper g r.chromatic f ∧
      (∀ k f', Proper g k f' → r.chromatic ≤ k) ∧
      r.colorFrequency = count g f r.mostFrequent ∧ ∀ c, count g f c ≤ r.colorFrequency := by
  obtain ⟨f0, h0⟩ := wanted_all (p := p) wf hf
  obtain ⟨r, f, h1, h2, h3, h4, h5⟩ := C80_minimal g wf hV p hcl order ho solve hx ⟨_, f0, h0⟩ h
  refine ⟨r, f, h1, h2, h3.1, ?_, h5⟩
  intro k f' hp
  exact h4 k f' ⟨hp, fun hc => absurd hc (by simp [hf])⟩

/-- **C80** (what the tactics agree on). Whatever the tactic, the solver and the iteration order, the reported number of colors is the
same. -/
theorem C80_tactics_agree (g : Graph) (wf : g.WF) (hV : g.vertices ≠ []) (p p' : SatParams)
    (hcl : ∀ cl ∈ p.cliques, IsClique g cl) (hcl' : ∀ cl ∈ p'.cliques, IsClique g cl) (hf : p.frequency = false)
    (hf' : p'.frequency = false) (order order' : List (Nat × Nat) → List (Nat × Nat)) (ho : ∀ l, (order l).Perm l)
    (ho' : ∀ l, (order' l).Perm l) (solve solve' : Solver) (hx : Exact g p solve) (hx' : Exact g p' solve') (h h' : Heuristic) :
    ∃ r r', determineColoring g (some p) order solve h = .returned r ∧
      determineColoring g (some p') order' solve' h' = .returned r' ∧ r.chromatic = r'.chromatic := by
  obtain ⟨r, f, a1, _, a2, a3, _⟩ := C80_chromatic g wf hV p hf hcl order ho solve hx h
  obtain ⟨r', f', b1, _, b2, b3, _⟩ := C80_chromatic g wf hV p' hf' hcl' order' ho' solve' hx' h'
  exact ⟨r, r', a1, b1, Nat.le_antisymm (a3 _ _ b2) (b3 _ _ a2)⟩

/-- **C80**. A color that occurs in every clique exists in some coloring exactly if one vertex of every clique can be chosen such that
no two chosen ones are joined. -/
theorem C80_transversal (g : Graph) (wf : g.WF) (hV : g.vertices ≠ []) (p : SatParams) (hf : p.frequency = true)
    (hcl : ∀ cl ∈ p.cliques, IsClique g cl) :
    (∃ k f, Wanted g p k f) ↔ ∃ t, Transversal g p.cliques t := by
  constructor
  · rintro ⟨k, f, hw⟩
    obtain ⟨c, _, h2⟩ := hw.2 hf
    have : ∀ cls : List (List Nat), (∀ cl ∈ cls, ∃ v ∈ cl, f v = c) →
        ∃ t, List.Forall₂ (fun cl v => v ∈ cl) cls t ∧ ∀ v ∈ t, f v = c ∧ ∃ cl ∈ cls, v ∈ cl := by
      intro cls
      induction cls with
      | nil => intro _; exact ⟨[], .nil, by simp⟩
      | cons cl cls ih =>
        intro hall
        obtain ⟨t, h3, h4⟩ := ih (fun cl' hm => hall cl' (List.mem_cons_of_mem _ hm))
        obtain ⟨v, hv, he⟩ := hall cl (List.mem_cons_self ..)
        refine ⟨v :: t, .cons hv h3, ?_⟩
        intro w hw
        rcases List.mem_cons.1 hw with rfl | hw
        · exact ⟨he, cl, List.mem_cons_self .., hv⟩
        · obtain ⟨h5, cl', h6, h7⟩ := h4 w hw
          exact ⟨h5, cl', List.mem_cons_of_mem _ h6, h7⟩
    obtain ⟨t, h3, h4⟩ := this p.cliques h2
    refine ⟨t, h3, ?_⟩
    intro v hv w hw2 hadj
    have hm := hadj.mem wf
    exact hw.1.2 v hm.1 w hm.2.1 hadj ((h4 v hv).1.trans (h4 w hw2).1.symm)
  · rintro ⟨t, h1, h2⟩
    -- paint the chosen vertices with color 0 and every other vertex with a color of its own
    refine ⟨g.vertices.length + 1, fun v => if v ∈ t then 0 else g.vertices.idxOf v + 1, ⟨⟨?_, ?_⟩, ?_⟩⟩
    · intro v hv
      dsimp only
      have := List.idxOf_lt_length_of_mem hv
      split_ifs <;> omega
    · intro v hv w hw hadj he
      dsimp only at he
      split_ifs at he with hvt hwt hwt
      · exact h2 v hvt w hwt hadj
      · apply (hadj.mem wf).2.2
        have e1 := List.getElem_idxOf (List.idxOf_lt_length_of_mem hv)
        have e2 := List.getElem_idxOf (List.idxOf_lt_length_of_mem hw)
        rw [← e1, ← e2]
        congr 1
        omega
    · intro _
      refine ⟨0, by omega, ?_⟩
      have : ∀ (cls : List (List Nat)) (s : List Nat), List.Forall₂ (fun cl v => v ∈ cl) cls s →
          (∀ v ∈ s, v ∈ t) → ∀ cl ∈ cls, ∃ v ∈ cl, v ∈ t := by
        intro cls s hf
        induction hf with
        | nil => intro _ cl hc; cases hc
        | cons hv _ ih =>
          intro hs cl hc
          rcases List.mem_cons.1 hc with rfl | hc
          · exact ⟨_, hv, hs _ (List.mem_cons_self ..)⟩
          · exact ih (fun v hv => hs v (List.mem_cons_of_mem _ hv)) cl hc
      intro cl hc
      obtain ⟨v, hv, hvt⟩ := this _ _ h1 (fun v hv => hv) cl hc
      exact ⟨v, hv, by dsimp only; rw [if_pos hvt]⟩

/-- **C80** (no coloring of the wanted kind). The ascending and the binary search fall back to the heuristic engine. -/
theorem C80_falls_back (g : Graph) (wf : g.WF) (hV : g.vertices ≠ []) (p : SatParams) (hcl : ∀ cl ∈ p.cliques, IsClique g cl)
    (order : List (Nat × Nat) → List (Nat × Nat)) (solve : Solver) (hx : Exact g p solve) (hs : ∀ k f, ¬ Wanted g p k f)
    (ht : p.tactic ≠ .descending) (h : Heuristic) :
    determineColoring g (some p) order solve h = translate h := by
  have := (search_spec wf hcl hV hx).2 hs
  unfold determineColoring satColor
  dsimp only
  rw [this]
  cases hp : p.tactic with
  | descending => exact absurd hp ht
  | ascending => rfl
  | binary => rfl

/-- **C80** is false of the descending search: where the others fall back to a heuristic, it dereferences a null pointer. -/
theorem C80_false_descending (g : Graph) (wf : g.WF) (hV : g.vertices ≠ []) (p : SatParams) (hcl : ∀ cl ∈ p.cliques, IsClique g cl)
    (order : List (Nat × Nat) → List (Nat × Nat)) (solve : Solver) (hx : Exact g p solve) (hs : ∀ k f, ¬ Wanted g p k f)
    (ht : p.tactic = .descending) (h : Heuristic) :
    determineColoring g (some p) order solve h = .broken := by
  have := (search_spec wf hcl hV hx).2 hs
  rw [ht] at this
  unfold determineColoring satColor
  dsimp only
  rw [this]

/-- **C80**. The clauses of `transform_solution_to_lexicographical_minimum` exclude nothing: every assignment satisfies them. -/
theorem C80_lexicographic_vacuous (g : Graph) (k : Nat) (ord : List Nat) (a : Model) : ∀ cl ∈ lexMin g k ord, cl.holds a = true :=
  lexMin_holds g k ord a

/-- **C80** (heuristics). The heuristic engines are reported faithfully: every color they return stays below the reported number
of colors, and the most frequent color and its frequency are those of their coloring. -/
theorem C80_heuristic (h : Heuristic) (r : Colored) (hr : translate h = .returned r) :
    r.coloring = h.coloring ∧ r.chromatic = h.colors ∧ (∀ e ∈ h.coloring, e.2 < h.colors) ∧
      (h.colors ≠ 0 → r.colorFrequency = (h.coloring.filter fun e => e.2 == r.mostFrequent).length) ∧
      ∀ c, (h.coloring.filter fun e => e.2 == c).length ≤ r.colorFrequency := by
  unfold translate at hr
  by_cases hc : (h.coloring.all fun e => decide (e.2 < h.colors)) = true
  · rw [if_pos hc] at hr
    dsimp only at hr
    injection hr with hr
    have hlt : ∀ e ∈ h.coloring, e.2 < h.colors := by
      intro e he
      rw [List.all_eq_true] at hc
      simpa using hc e he
    subst hr
    dsimp only
    refine ⟨rfl, rfl, hlt, ?_, ?_⟩
    · intro hn
      obtain ⟨b, hb, hbm, -⟩ := mostFrequent_spec (l := (List.range h.colors).map fun c =>
        (c, (h.coloring.filter fun e => e.2 == c).length)) (by simp [hn])
      rw [hb]
      obtain ⟨c, -, rfl⟩ := List.mem_map.1 hbm
      rfl
    · intro c
      by_cases hck : c < h.colors
      · obtain ⟨b, hb, -, hmax⟩ := mostFrequent_spec (l := (List.range h.colors).map fun c =>
          (c, (h.coloring.filter fun e => e.2 == c).length)) (by
            simp only [ne_eq, List.map_eq_nil_iff, List.range_eq_nil]; omega)
        rw [hb]
        exact hmax _ (List.mem_map.2 ⟨c, List.mem_range.2 hck, rfl⟩)
      · have : (h.coloring.filter fun e => e.2 == c) = [] := by
          rw [List.filter_eq_nil_iff]
          intro e he hx
          have := hlt e he
          have : e.2 = c := by simpa using hx
          omega
        rw [this]
        exact Nat.zero_le _
  · rw [if_neg hc] at hr
    cases hr

/-- **C80** (verification). `is_valid_vertex_coloring` accepts a coloring of all vertices exactly if it is proper. -/
theorem C80_verification (g : Graph) (wf : g.WF) (r : Colored) (f : Nat → Nat) (hp : Paints g r f) :
    ∃ b, isValid g r = .returned b ∧
      (b = true ↔ ∀ v ∈ g.vertices, ∀ w ∈ g.vertices, g.Adj v w → f v ≠ f w) := by
  have hat : ∀ v ∈ g.vertices, r.at v = some (f v) := by
    intro v hv
    unfold Colored.at
    rw [hp]
    clear hp wf
    generalize g.vertices = vs at hv
    induction vs with
    | nil => cases hv
    | cons w ws ih =>
      rw [List.map_cons, List.lookup_cons]
      by_cases he : v = w
      · subst he; simp
      · have : (v == w) = false := by simpa using he
        rw [this]
        rcases List.mem_cons.1 hv with h | h
        · exact absurd h he
        · exact ih h
  unfold isValid
  rw [if_neg (by rw [hp]; simp)]
  rw [if_neg (by
    rw [List.any_eq_true]
    rintro ⟨v, hv, h⟩
    rw [hat v hv] at h
    cases h)]
  refine ⟨_, rfl, ?_⟩
  rw [Bool.not_eq_true', ← Bool.not_eq_true, List.any_eq_true]
  constructor
  · intro h v hv w hw hadj he
    refine h ⟨v, hv, ?_⟩
    rw [List.any_eq_true]
    exact ⟨w, (adjacent_iff wf v w).2 hadj, by rw [hat v hv, hat w hw, he]; simp⟩
  · rintro h ⟨v, hv, h2⟩
    rw [List.any_eq_true] at h2
    obtain ⟨w, hw, h3⟩ := h2
    have hadj := (adjacent_iff wf v w).1 hw
    have hwm := (hadj.mem wf).2.1
    rw [hat v hv, hat w hwm] at h3
    exact h v hv w hwm hadj (by simpa using h3)

/-! ## Witnesses and examples -/

/-- The example of the note in graph_coloring.hpp:236-240: two cliques of one vertex each, and an edge between them. -/
def mutexGraph : Graph := ⟨[0, 1], [(0, 1)]⟩

/-- No coloring of `mutexGraph` has a color that occurs in both cliques. -/
theorem mutex_none (t : Tactic) : ∀ k f, ¬ Wanted mutexGraph ⟨t, [[0], [1]], true⟩ k f := by
  intro k f h
  obtain ⟨c, _, h2⟩ := h.2 rfl
  obtain ⟨v, hv, e1⟩ := h2 [0] (by simp)
  obtain ⟨w, hw, e2⟩ := h2 [1] (by simp)
  rw [List.mem_singleton] at hv hw
  subst hv hw
  exact h.1.2 0 (by decide) 1 (by decide) (.inl (by decide)) (e1.trans e2.symm)

theorem mutex_wf : mutexGraph.WF := ⟨by decide, by decide⟩

theorem mutex_cliques : ∀ cl ∈ ([[0], [1]] : List (List Nat)), IsClique mutexGraph cl := by
  intro cl h
  simp only [List.mem_cons, List.not_mem_nil, or_false] at h
  rcases h with rfl | rfl <;> exact ⟨by decide, by decide, by simp⟩

/-- The hypotheses of `C80_false_descending` are met: the crash occurs for `mutexGraph` with the solver that always answers
"unsatisfiable", which is right. -/
example (h : Heuristic) :
    determineColoring mutexGraph (some ⟨.descending, [[0], [1]], true⟩) id (fun _ => none) h = .broken :=
  C80_false_descending mutexGraph mutex_wf (by decide) _ mutex_cliques id _
    ⟨by simp, fun k _ a ha => mutex_none _ k _ (wanted_of_inst mutex_wf mutex_cliques ha)⟩ (mutex_none _) rfl h

/-- **C80** is false of cliques that are not: for two vertices without an edge, declared a clique, two colors are reported. -/
theorem C80_false_wrong_clique : ∃ (g : Graph) (p : SatParams) (solve : Solver), g.WF ∧ p.frequency = false ∧ Exact g p solve ∧
    (∃ f, Proper g 1 f) ∧ ∀ h, ∃ r, determineColoring g (some p) id solve h = .returned r ∧ r.chromatic = 2 := by
  have hsat : Instance ⟨[0, 1], []⟩ ⟨.ascending, [[0, 1]], false⟩ 2 (fun v c => v == c) := by
    unfold Instance
    refine ⟨by decide, by simp⟩
  classical
  refine ⟨⟨[0, 1], []⟩, ⟨.ascending, [[0, 1]], false⟩,
    fun k => if k = 2 then some (fun v c => v == c) else
      if h : ∃ a, Instance ⟨[0, 1], []⟩ ⟨.ascending, [[0, 1]], false⟩ k a then some h.choose else none,
    ⟨by decide, by simp⟩, rfl, ⟨?_, ?_⟩, ⟨fun _ => 0, by simp, ?_⟩, ?_⟩
  · intro k a h
    dsimp only at h
    split_ifs at h with h1 h2
    · injection h with h
      subst h h1
      exact hsat
    · injection h with h
      rw [← h]
      exact h2.choose_spec
  · intro k h a ha
    dsimp only at h
    split_ifs at h with h1 h2
    exact h2 ⟨a, ha⟩
  · intro v _ w _ h
    rcases h with h | h <;> cases h
  · intro h
    exact ⟨_, rfl, rfl⟩

/-- The triangle with a pendant vertex. -/
def kite : Graph := ⟨[0, 1, 2, 3], [(0, 1), (1, 2), (0, 2), (2, 3)]⟩

/-- A solver for the examples: the answer for three colors. -/
def kiteModel : Model := fun v c => (if v = 3 then 0 else v) == c

/-- The hypotheses are met: the kite is well formed, the triangle is a clique, and the binary search finds its three colors. -/
example : kite.WF ∧ IsClique kite [0, 1, 2] ∧ Wanted kite ⟨.binary, [[0, 1, 2]], true⟩ 3 (fun v => if v = 3 then 0 else v) := by
  refine ⟨⟨by decide, by decide⟩, ⟨by decide, by decide, ?_⟩, ⟨by decide, ?_⟩, ?_⟩
  · unfold Graph.Adj; decide
  · unfold Graph.Adj; decide
  · intro _
    exact ⟨0, by decide, by decide⟩

example : determineColoring kite (some ⟨.binary, [[0, 1, 2]], false⟩) id (fun k => if k < 3 then none else some kiteModel) ⟨[], 0⟩ =
    .returned ⟨[(0, 0), (1, 1), (2, 2), (3, 0)], 3, 0, 2⟩ := by decide

example : determineColoring kite (some ⟨.descending, [], false⟩) id (fun k => if k < 3 then none else some kiteModel) ⟨[], 0⟩ =
    .returned ⟨[(0, 0), (1, 1), (2, 2), (3, 0)], 3, 0, 2⟩ := by decide

example : determineColoring kite (some ⟨.binary, [], false⟩) id (fun k => if k < 3 then none else some kiteModel) ⟨[], 0⟩ =
    .returned ⟨[(0, 0), (1, 1), (2, 2), (3, 0)], 3, 0, 2⟩ := by decide

end Verif.Graphs
