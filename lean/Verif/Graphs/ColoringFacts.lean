import Verif.Graphs.ColoringSpec
import Mathlib.Data.List.Nodup
import Mathlib.Data.List.Dedup
import Mathlib.Data.List.Perm.Subperm
import Mathlib.Tactic.ByContra
import Mathlib.Tactic.SplitIfs

namespace Verif.Graphs

/-! ## From models to colorings -/

theorem lit_of {g : Graph} {k v c : Nat} (hv : v ∈ g.vertices) (hc : c < k) (b : Bool) : g.lit k v c b = ⟨v, c, b⟩ := by
  unfold Graph.lit
  rw [if_pos]
  simp [hv, hc]

theorem lit_pos (g : Graph) (k v c : Nat) : ∃ w d, ∀ b, g.lit k v c b = ⟨w, d, b⟩ := by
  unfold Graph.lit
  split
  · exact ⟨v, c, fun _ => rfl⟩
  · exact ⟨_, _, fun _ => rfl⟩

/-- The clauses of the "lexicographical transformation" hold in every assignment. -/
theorem lexMin_holds (g : Graph) (k : Nat) (ord : List Nat) (a : Model) : ∀ cl ∈ lexMin g k ord, cl.holds a = true := by
  intro cl h
  unfold lexMin at h
  rw [List.mem_flatMap] at h
  obtain ⟨⟨v1, i⟩, hv1, h⟩ := h
  rw [List.mem_map] at h
  obtain ⟨c1, hc1, rfl⟩ := h
  rw [List.mk_mem_zipIdx_iff_getElem?] at hv1
  obtain ⟨w, d, hw⟩ := lit_pos g k v1 c1
  unfold Clause.holds
  rw [List.any_eq_true]
  have h1 : 1 ≤ c1 ∧ c1 < k := by
    rw [List.mem_range'_1] at hc1
    omega
  cases hb : a w d with
  | false =>
    refine ⟨g.lit k v1 c1 false, List.mem_cons_self .., ?_⟩
    rw [hw]
    simp [Lit.holds, hb]
  | true =>
    refine ⟨g.lit k v1 c1 true, ?_, ?_⟩
    · refine List.mem_cons_of_mem _ ?_
      rw [List.mem_flatMap]
      refine ⟨v1, ?_, ?_⟩
      · refine List.mem_of_getElem? (i := i) ?_
        rw [List.getElem?_take_of_lt (by omega)]
        exact hv1
      · rw [List.mem_map]
        refine ⟨c1, ?_, rfl⟩
        rw [List.mem_range'_1]
        omega
    · rw [hw]
      simp [Lit.holds, hb]

section
variable {g : Graph} {p : SatParams} {k : Nat} {a : Model}

theorem some_color (h : Instance g p k a) {v : Nat} (hv : v ∈ g.vertices) : ∃ c, c < k ∧ a v c = true := by
  have := h.1 ((List.range k).map fun c => g.lit k v c true) (by
    unfold clauses
    simp only [List.mem_append]
    refine .inl (.inl (.inl (.inl ?_)))
    exact List.mem_map.2 ⟨v, hv, rfl⟩)
  unfold Clause.holds at this
  rw [List.any_eq_true] at this
  obtain ⟨l, hl, h2⟩ := this
  obtain ⟨c, hc, rfl⟩ := List.mem_map.1 hl
  rw [List.mem_range] at hc
  rw [lit_of hv hc] at h2
  exact ⟨c, hc, by simpa [Lit.holds] using h2⟩

theorem one_color (h : Instance g p k a) {v : Nat} (hv : v ∈ g.vertices) {c d : Nat} (hc : c < k) (hd : d < k)
    (h1 : a v c = true) (h2 : a v d = true) : c = d := by
  have key : ∀ c d, d < k → a v c = true → a v d = true → ¬ c < d := by
    intro c d hd h1 h2 hlt
    have := h.1 [g.lit k v c false, g.lit k v d false] (by
      unfold clauses
      simp only [List.mem_append]
      refine .inl (.inl (.inl (.inr ?_)))
      unfold atMostOne
      rw [List.mem_flatMap]
      refine ⟨c, by rw [List.mem_range]; omega, ?_⟩
      rw [List.mem_flatMap]
      refine ⟨d, by rw [List.mem_range'_1]; omega, ?_⟩
      exact List.mem_map.2 ⟨v, hv, rfl⟩)
    rw [lit_of hv (by omega), lit_of hv hd] at this
    simp [Clause.holds, Lit.holds, h1, h2] at this
  rcases Nat.lt_trichotomy c d with h' | h' | h'
  · exact absurd h' (key c d hd h1 h2)
  · exact h'
  · exact absurd h' (key d c hc h2 h1)

theorem differ (wf : g.WF) (h : Instance g p k a) {v w : Nat} (hvw : g.Adj v w) {c : Nat} (hc : c < k) (h1 : a v c = true) :
    a w c = false := by
  have key : ∀ e ∈ g.edges, a e.1 c = true → a e.2 c = true → False := by
    intro e he h1 h2
    have := h.1 [g.lit k e.1 c false, g.lit k e.2 c false] (by
      unfold clauses
      simp only [List.mem_append]
      refine .inl (.inl (.inr ?_))
      unfold excludeIdentical
      rw [List.mem_flatMap]
      exact ⟨e, he, List.mem_map.2 ⟨c, List.mem_range.2 hc, rfl⟩⟩)
    rw [lit_of (wf.ends e he).1 hc, lit_of (wf.ends e he).2.1 hc] at this
    simp [Clause.holds, Lit.holds, h1, h2] at this
  cases hb : a w c with
  | false => rfl
  | true =>
    rcases hvw with he | he
    · exact (key _ he h1 hb).elim
    · exact (key _ he hb h1).elim

theorem paint_spec (h : Instance g p k a) {v : Nat} (hv : v ∈ g.vertices) :
    ∃ c, paint k a v = some c ∧ c < k ∧ ∀ d, d < k → (a v d = true ↔ c = d) := by
  obtain ⟨c, hc, hac⟩ := some_color h hv
  have hall : ∀ d ∈ (List.range k).filter fun c => a v c, d = c := by
    intro d hd
    rw [List.mem_filter, List.mem_range] at hd
    exact one_color h hv hd.1 hc hd.2 hac
  have hne : ((List.range k).filter fun c => a v c) ≠ [] := by
    intro he
    have : c ∈ (List.range k).filter fun c => a v c := List.mem_filter.2 ⟨List.mem_range.2 hc, hac⟩
    rw [he] at this
    cases this
  refine ⟨c, ?_, hc, ?_⟩
  · unfold paint
    rw [List.getLast?_eq_some_getLast hne, hall _ (List.getLast_mem hne)]
  · intro d hd
    constructor
    · intro h1
      exact one_color h hv hc hd hac h1
    · rintro rfl
      exact hac

/-- The coloring that a model describes. -/
def colorOf (k : Nat) (a : Model) (v : Nat) : Nat := (paint k a v).getD 0

theorem colorOf_spec (h : Instance g p k a) {v : Nat} (hv : v ∈ g.vertices) :
    paint k a v = some (colorOf k a v) ∧ colorOf k a v < k ∧ ∀ d, d < k → (a v d = true ↔ colorOf k a v = d) := by
  obtain ⟨c, h1, h2, h3⟩ := paint_spec h hv
  have : colorOf k a v = c := by simp [colorOf, h1]
  rw [this]
  exact ⟨h1, h2, h3⟩

theorem Graph.Adj.mem (wf : g.WF) {v w : Nat} (h : g.Adj v w) : v ∈ g.vertices ∧ w ∈ g.vertices ∧ v ≠ w := by
  rcases h with h | h
  · exact ⟨(wf.ends _ h).1, (wf.ends _ h).2.1, (wf.ends _ h).2.2⟩
  · exact ⟨(wf.ends _ h).2.1, (wf.ends _ h).1, (wf.ends _ h).2.2.symm⟩

theorem wanted_of_inst (wf : g.WF) (hcl : ∀ cl ∈ p.cliques, IsClique g cl) (h : Instance g p k a) :
    Wanted g p k (colorOf k a) := by
  refine ⟨⟨fun v hv => (colorOf_spec h hv).2.1, ?_⟩, ?_⟩
  · intro v hv w hw hvw he
    have h1 := ((colorOf_spec h hv).2.2 _ (colorOf_spec h hv).2.1).2 rfl
    have h2 := ((colorOf_spec h hw).2.2 _ (colorOf_spec h hw).2.1).2 rfl
    have h3 := differ wf h hvw (colorOf_spec h hv).2.1 h1
    rw [he] at h3
    rw [h3] at h2
    cases h2
  · intro hf
    have := h.2 hf
    unfold frequencyHolds at this
    rw [List.any_eq_true] at this
    obtain ⟨c, hc, h2⟩ := this
    rw [List.mem_range] at hc
    refine ⟨c, hc, ?_⟩
    intro cl hm
    rw [List.all_eq_true] at h2
    have h3 := h2 cl hm
    rw [List.any_eq_true] at h3
    obtain ⟨v, hv, h4⟩ := h3
    have hvV := (hcl cl hm).1 v hv
    rw [lit_of hvV hc] at h4
    exact ⟨v, hv, ((colorOf_spec h hvV).2.2 c hc).1 (by simpa [Lit.holds] using h4)⟩

end

/-! ## From colorings to models -/

/-- Colors can be renamed such that the given ones come first. -/
theorem rename (k : Nat) (l : List Nat) (hn : l.Nodup) (hl : ∀ c ∈ l, c < k) :
    ∃ σ : Nat → Nat, (∀ c, c < k → σ c < k) ∧ (∀ c d, c < k → d < k → σ c = σ d → c = d) ∧
      ∀ i (hi : i < l.length), σ l[i] = i := by
  have hp : (l ++ (List.range k).filter fun c => decide (c ∉ l)).Nodup := by
    rw [List.nodup_append']
    refine ⟨hn, List.nodup_range.filter _, ?_⟩
    intro c h1 h2
    simp at h2
    exact h2.2 h1
  have hm : ∀ c, c ∈ (l ++ (List.range k).filter fun c => decide (c ∉ l)) ↔ c < k := by
    intro c
    simp only [List.mem_append, List.mem_filter, List.mem_range, decide_eq_true_eq]
    constructor
    · rintro (h | h)
      · exact hl c h
      · exact h.1
    · intro h
      by_cases hc : c ∈ l
      · exact .inl hc
      · exact .inr ⟨h, hc⟩
  have hlen : (l ++ (List.range k).filter fun c => decide (c ∉ l)).length = k := by
    have := (List.perm_ext_iff_of_nodup hp (List.nodup_range (n := k))).2 (fun c => by rw [hm, List.mem_range])
    simpa using this.length_eq
  generalize hL : (l ++ (List.range k).filter fun c => decide (c ∉ l)) = L at *
  refine ⟨fun c => L.idxOf c, ?_, ?_, ?_⟩
  · intro c hc
    have := List.idxOf_lt_length_of_mem ((hm c).2 hc)
    dsimp only
    omega
  · intro c d hc hd he
    have h1 := List.getElem_idxOf (List.idxOf_lt_length_of_mem ((hm c).2 hc))
    have h2 := List.getElem_idxOf (List.idxOf_lt_length_of_mem ((hm d).2 hd))
    rw [← h1, ← h2]
    congr 1
  · intro i hi
    have hiL : i < L.length := by rw [← hL]; simp; omega
    have : l[i] = L[i] := by
      subst hL
      rw [List.getElem_append_left hi]
    rw [this]
    exact hp.idxOf_getElem i hiL

theorem wanted_rename {g : Graph} {p : SatParams} {k : Nat} {f : Nat → Nat} (hcl : ∀ cl ∈ p.cliques, IsClique g cl)
    (h : Wanted g p k f) (first : List Nat) (hf : ∀ v ∈ first, v ∈ g.vertices) (hn : (first.map f).Nodup) :
    ∃ f', Wanted g p k f' ∧ ∀ i (hi : i < first.length), f' first[i] = i := by
  obtain ⟨σ, h1, h2, h3⟩ := rename k (first.map f) hn (by
    intro c hc
    obtain ⟨v, hv, rfl⟩ := List.mem_map.1 hc
    exact h.1.1 v (hf v hv))
  refine ⟨fun v => σ (f v), ⟨⟨fun v hv => h1 _ (h.1.1 v hv), ?_⟩, ?_⟩, ?_⟩
  · intro v hv w hw hvw he
    exact h.1.2 v hv w hw hvw (h2 _ _ (h.1.1 v hv) (h.1.1 w hw) he)
  · intro hfr
    obtain ⟨c, hc, h4⟩ := h.2 hfr
    refine ⟨σ c, h1 c hc, ?_⟩
    intro cl hm
    obtain ⟨v, hv, he⟩ := h4 cl hm
    exact ⟨v, hv, by dsimp only; rw [he]⟩
  · intro i hi
    have := h3 i (by simpa using hi)
    simpa using this

/-- The model that a coloring describes. -/
def modelOf (f : Nat → Nat) : Model := fun v c => f v == c

theorem foldl_largest (cs : List (List Nat)) : ∀ c : List Nat,
    (cs.foldl (fun best d => if best.length < d.length then d else best) c) ∈ c :: cs := by
  induction cs with
  | nil => intro c; simp
  | cons d cs ih =>
    intro c
    rw [List.foldl_cons]
    have := ih (if c.length < d.length then d else c)
    split_ifs at this ⊢ <;> grind

theorem largestClique_mem {cs : List (List Nat)} {c : List Nat} (h : largestClique cs = some c) : c ∈ cs := by
  cases cs with
  | nil => cases h
  | cons d ds =>
    simp only [largestClique, Option.some.injEq] at h
    rw [← h]
    exact foldl_largest ds d

theorem clique_colors {g : Graph} {k : Nat} {f : Nat → Nat} (h : Proper g k f) {cl : List Nat} (hc : IsClique g cl) :
    (cl.map f).Nodup := by
  rw [List.Nodup, List.pairwise_map]
  refine (List.Pairwise.and_mem.1 hc.2.1).imp ?_
  rintro v w ⟨hv, hw, hvw⟩
  exact h.2 v (hc.1 v hv) w (hc.1 w hw) (hc.2.2 v hv w hw hvw)

theorem nodup_le {k : Nat} {l : List Nat} (hn : l.Nodup) (h : ∀ c ∈ l, c < k) : l.length ≤ k := by
  have := (List.Nodup.subperm hn (l₂ := List.range k) (fun c hc => List.mem_range.2 (h c hc))).length_le
  simpa using this

theorem clique_le {g : Graph} {k : Nat} {f : Nat → Nat} (h : Proper g k f) {cl : List Nat} (hc : IsClique g cl) :
    cl.length ≤ k := by
  have := nodup_le (clique_colors h hc) (k := k) (by
    intro c hm
    obtain ⟨v, hv, rfl⟩ := List.mem_map.1 hm
    exact h.1 v (hc.1 v hv))
  simpa using this

theorem lowerBound_le {g : Graph} {p : SatParams} {k : Nat} {f : Nat → Nat} (hcl : ∀ cl ∈ p.cliques, IsClique g cl)
    (hV : g.vertices ≠ []) (h : Proper g k f) : lowerBound p.cliques ≤ k := by
  have hk : 1 ≤ k := by
    obtain ⟨v, hv⟩ := List.exists_mem_of_ne_nil _ hV
    have := h.1 v hv
    omega
  unfold lowerBound
  cases hL : largestClique p.cliques with
  | none => exact hk
  | some c =>
    dsimp only
    split_ifs
    · exact clique_le h (hcl c (largestClique_mem hL))
    · exact hk

theorem lowerBound_pos (cs : List (List Nat)) : 1 ≤ lowerBound cs := by
  unfold lowerBound
  split
  · exact Nat.le_refl 1
  · split_ifs <;> omega

theorem mem_adjacent (g : Graph) (v w : Nat) : w ∈ g.adjacent v → g.Adj v w := by
  intro h
  unfold Graph.adjacent at h
  rw [List.mem_filterMap] at h
  obtain ⟨e, he, h⟩ := h
  split_ifs at h with h1 h2
  · injection h with h
    subst h1 h
    exact .inl he
  · injection h with h
    subst h2 h
    exact .inr he

theorem adjacent_iff (wf : Graph.WF g) (v w : Nat) : w ∈ g.adjacent v ↔ g.Adj v w := by
  refine ⟨mem_adjacent g v w, ?_⟩
  intro h
  unfold Graph.adjacent
  rw [List.mem_filterMap]
  rcases h with h | h
  · exact ⟨_, h, by simp⟩
  · refine ⟨_, h, ?_⟩
    have := (wf.ends _ h).2.2
    dsimp only at this ⊢
    rw [if_neg this]
    simp

/-- The vertices that are painted in advance: in the graph, and of distinct colors in every proper coloring. -/
theorem preAssign_first {g : Graph} {p : SatParams} {k : Nat} {f : Nat → Nat} (wf : g.WF) (hcl : ∀ cl ∈ p.cliques, IsClique g cl)
    (h : Proper g k f) :
    (∀ v ∈ (preAssign g p.cliques k).2, v ∈ g.vertices) ∧ ((preAssign g p.cliques k).2.map f).Nodup ∧
      ∀ cl ∈ (preAssign g p.cliques k).1, ∃ i, ∃ hi : i < (preAssign g p.cliques k).2.length,
        cl = [g.lit k (preAssign g p.cliques k).2[i] i true] := by
  have hdef : (∀ v ∈ (match g.vertices with
      | [] => (([], []) : List Clause × List Nat)
      | v :: _ => match g.adjacent v with
        | [] => ([[g.lit k v 0 true]], [v])
        | w :: _ => ([[g.lit k v 0 true], [g.lit k w 1 true]], [v, w])).2, v ∈ g.vertices) ∧
      ((match g.vertices with
      | [] => (([], []) : List Clause × List Nat)
      | v :: _ => match g.adjacent v with
        | [] => ([[g.lit k v 0 true]], [v])
        | w :: _ => ([[g.lit k v 0 true], [g.lit k w 1 true]], [v, w])).2.map f).Nodup ∧
      ∀ cl ∈ (match g.vertices with
      | [] => (([], []) : List Clause × List Nat)
      | v :: _ => match g.adjacent v with
        | [] => ([[g.lit k v 0 true]], [v])
        | w :: _ => ([[g.lit k v 0 true], [g.lit k w 1 true]], [v, w])).1,
        ∃ i, ∃ hi : i < (match g.vertices with
      | [] => (([], []) : List Clause × List Nat)
      | v :: _ => match g.adjacent v with
        | [] => ([[g.lit k v 0 true]], [v])
        | w :: _ => ([[g.lit k v 0 true], [g.lit k w 1 true]], [v, w])).2.length,
        cl = [g.lit k (match g.vertices with
      | [] => (([], []) : List Clause × List Nat)
      | v :: _ => match g.adjacent v with
        | [] => ([[g.lit k v 0 true]], [v])
        | w :: _ => ([[g.lit k v 0 true], [g.lit k w 1 true]], [v, w])).2[i] i true] := by
    cases hV : g.vertices with
    | nil => simp
    | cons v vs =>
      dsimp only
      cases hA : g.adjacent v with
      | nil =>
        dsimp only
        refine ⟨by simp, by simp, ?_⟩
        intro cl hm
        rw [List.mem_singleton] at hm
        exact ⟨0, by simp, hm⟩
      | cons w ws =>
        dsimp only
        have hadj : g.Adj v w := mem_adjacent g v w (by rw [hA]; simp)
        have hm := hadj.mem wf
        rw [hV] at hm
        refine ⟨?_, ?_, ?_⟩
        · intro x hx
          simp only [List.mem_cons, List.not_mem_nil, or_false] at hx
          rcases hx with hx | hx
          · rw [hx]; exact hm.1
          · rw [hx]; exact hm.2.1
        · have := h.2 v (hadj.mem wf).1 w (hadj.mem wf).2.1 hadj
          simpa using this
        · intro cl hc
          simp only [List.mem_cons, List.not_mem_nil, or_false] at hc
          rcases hc with hc | hc
          · exact ⟨0, by simp, hc⟩
          · exact ⟨1, by simp, hc⟩
  unfold preAssign
  cases hL : largestClique p.cliques with
  | none => exact hdef
  | some c =>
    cases c with
    | nil => exact hdef
    | cons v vs =>
      dsimp only
      have hc := hcl _ (largestClique_mem hL)
      generalize v :: vs = c at *
      refine ⟨fun v hv => hc.1 v (List.mem_of_mem_take hv), ?_, ?_⟩
      · exact (clique_colors h hc).sublist ((List.take_sublist _ _).map f)
      · intro cl hm
        obtain ⟨⟨x, i⟩, hx, rfl⟩ := List.mem_map.1 hm
        rw [List.mk_mem_zipIdx_iff_getElem?] at hx
        obtain ⟨hi, hx⟩ := List.getElem?_eq_some_iff.1 hx
        exact ⟨i, hi, by dsimp only; rw [hx]⟩

theorem inst_of_wanted {g : Graph} {p : SatParams} {k : Nat} {f : Nat → Nat} (wf : g.WF) (hcl : ∀ cl ∈ p.cliques, IsClique g cl)
    (h : Wanted g p k f) : ∃ a, Instance g p k a := by
  obtain ⟨h1, h2, h3⟩ := preAssign_first wf hcl h.1
  obtain ⟨f', hw, hi⟩ := wanted_rename hcl h _ h1 h2
  have hl : ∀ {v c}, v ∈ g.vertices → c < k → ∀ b, (g.lit k v c b).holds (modelOf f') = true ↔ ((f' v == c) = b) := by
    intro v c hv hc b
    rw [lit_of hv hc]
    simp [Lit.holds, modelOf]
  refine ⟨modelOf f', ?_, ?_⟩
  · intro cl hm
    unfold clauses at hm
    simp only [List.mem_append] at hm
    rcases hm with (((hm | hm) | hm) | hm) | hm
    · obtain ⟨v, hv, rfl⟩ := List.mem_map.1 hm
      unfold Clause.holds
      rw [List.any_eq_true]
      refine ⟨_, List.mem_map.2 ⟨f' v, List.mem_range.2 (hw.1.1 v hv), rfl⟩, ?_⟩
      rw [hl hv (hw.1.1 v hv)]
      simp
    · unfold atMostOne at hm
      obtain ⟨c, hc, hm⟩ := List.mem_flatMap.1 hm
      obtain ⟨d, hd, hm⟩ := List.mem_flatMap.1 hm
      obtain ⟨v, hv, rfl⟩ := List.mem_map.1 hm
      rw [List.mem_range] at hc
      rw [List.mem_range'_1] at hd
      unfold Clause.holds
      rw [List.any_eq_true]
      by_cases he : f' v = c
      · refine ⟨_, List.mem_cons_of_mem _ (List.mem_cons_self ..), ?_⟩
        rw [hl hv (by omega)]
        simp; omega
      · refine ⟨_, List.mem_cons_self .., ?_⟩
        rw [hl hv (by omega)]
        simpa using he
    · unfold excludeIdentical at hm
      obtain ⟨e, he, hm⟩ := List.mem_flatMap.1 hm
      obtain ⟨c, hc, rfl⟩ := List.mem_map.1 hm
      rw [List.mem_range] at hc
      have hadj : g.Adj e.1 e.2 := .inl he
      have hm := hadj.mem wf
      have := hw.1.2 _ hm.1 _ hm.2.1 hadj
      unfold Clause.holds
      rw [List.any_eq_true]
      by_cases hx : f' e.1 = c
      · refine ⟨_, List.mem_cons_of_mem _ (List.mem_cons_self ..), ?_⟩
        rw [hl hm.2.1 hc]
        simp; omega
      · refine ⟨_, List.mem_cons_self .., ?_⟩
        rw [hl hm.1 hc]
        simpa using hx
    · obtain ⟨i, hlt, rfl⟩ := h3 cl hm
      unfold Clause.holds
      rw [List.any_eq_true]
      refine ⟨_, List.mem_cons_self .., ?_⟩
      have hmem := h1 _ (List.getElem_mem hlt)
      have hfi := hi i hlt
      have := hw.1.1 _ hmem
      rw [hfi] at this
      rw [hl hmem this, hfi]
      simp
    · exact lexMin_holds g k _ _ cl hm
  · intro hfr
    obtain ⟨c, hc, hall⟩ := hw.2 hfr
    unfold frequencyHolds
    rw [List.any_eq_true]
    refine ⟨c, List.mem_range.2 hc, ?_⟩
    rw [List.all_eq_true]
    intro cl hm
    obtain ⟨v, hv, he⟩ := hall cl hm
    rw [List.any_eq_true]
    refine ⟨v, hv, ?_⟩
    rw [hl ((hcl cl hm).1 v hv) hc, he]
    simp

end Verif.Graphs
