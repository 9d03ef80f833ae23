import Verif.PhysicalDesign.ColorRoutingFacts
import Verif.Graphs.ColoringProps

namespace Verif.PhysicalDesign.ColorRouting

open Verif.Layouts Verif.Clocking Verif.GateLevel Verif.Paths Verif.Graphs

theorem lookup_nodup {l : List (Nat × Nat)} (hn : (l.map Prod.fst).Nodup) {v c : Nat} (h : (v, c) ∈ l) : l.lookup v = some c := by
  induction l with
  | nil => cases h
  | cons a l ih =>
    rw [List.map_cons, List.nodup_cons] at hn
    obtain ⟨w, d⟩ := a
    rw [List.lookup_cons]
    rcases List.mem_cons.1 h with h | hm
    · simp only [Prod.mk.injEq] at h
      rw [h.1, h.2]
      simp
    · have : v ≠ w := by
        rintro rfl
        exact hn.1 (List.mem_map.2 ⟨(v, c), hm, rfl⟩)
      have : (v == w) = false := by simpa using this
      rw [this]
      exact ih hn.2 hm

theorem count_perm {g : Graph} {f : Nat → Nat} {l : List (Nat × Nat)} (h : l.Perm (g.vertices.map fun v => (v, f v))) (c : Nat) :
    (l.filter fun e => e.2 == c).length = count g f c := by
  rw [(h.filter _).length_eq, List.filter_map, List.length_map]
  rfl

/-- What the coloring step delivers. -/
structure Delivered (g : Graph) (r : Colored) (f : Nat → Nat) : Prop where
  paints : r.coloring.Perm (g.vertices.map fun v => (v, f v))
  proper : ∀ v ∈ g.vertices, ∀ w ∈ g.vertices, g.Adj v w → f v ≠ f w
  freq : r.colorFrequency = count g f r.mostFrequent
  most : ∀ c, count g f c ≤ r.colorFrequency

theorem Delivered.at {g : Graph} {r : Colored} {f : Nat → Nat} (wf : g.WF) (h : Delivered g r f) {v : Nat} (hv : v ∈ g.vertices) :
    r.at v = some (f v) := by
  unfold Colored.at
  refine lookup_nodup ?_ (h.paints.mem_iff.2 (List.mem_map.2 ⟨v, hv, rfl⟩))
  rw [(h.paints.map Prod.fst).nodup_iff, List.map_map]
  have : (Prod.fst ∘ fun v => (v, f v)) = (id : Nat → Nat) := rfl
  rw [this, List.map_id]
  exact wf.nodup

theorem translate_delivered {g : Graph} {h : Heuristic} (hp : ProperHeuristic g h) :
    ∃ r f, translate h = .returned r ∧ Delivered g r f := by
  obtain ⟨f, h1, h2⟩ := hp
  have hlt : ∀ e ∈ h.coloring, e.2 < h.colors := by
    intro e he
    obtain ⟨v, hv, rfl⟩ := List.mem_map.1 (h1.mem_iff.1 he)
    exact h2.1 v hv
  have hc : (h.coloring.all fun e => decide (e.2 < h.colors)) = true := by
    rw [List.all_eq_true]
    intro e he
    simpa using hlt e he
  have hex : ∃ r, translate h = .returned r := by
    unfold translate
    rw [if_pos hc]
    exact ⟨_, rfl⟩
  obtain ⟨r, hr⟩ := hex
  obtain ⟨k1, k2, k3, k4, k5⟩ := C80_heuristic h r hr
  refine ⟨r, f, hr, ?_, h2.2, ?_, ?_⟩
  · rw [k1]; exact h1
  · by_cases hz : h.colors = 0
    · have hV : h.coloring = [] := by
        rw [List.eq_nil_iff_forall_not_mem]
        intro e he
        have := hlt e he
        omega
      have : count g f r.mostFrequent = 0 := by
        rw [← count_perm h1, hV]; rfl
      rw [this]
      unfold translate at hr
      rw [if_pos hc] at hr
      dsimp only at hr
      injection hr with hr
      rw [← hr]
      simp [hz, mostFrequent]
    · rw [k4 hz, count_perm h1]
  · intro c
    rw [← count_perm h1]
    exact k5 c

/-- The coloring step never fails here; with the frequency constraint, the most frequent color occurs in every clique if that is
possible. -/
theorem coloring_delivered {crossings : Bool} {e : Eig} {L : List (List Path)} {env : Env} {p : Params} (h : EInv crossings e L)
    (hc : env.Correct p e) :
    ∃ r f, determineColoring (e.graph env) (coloringParams p e.cliques) env.frequencyOrder env.solve env.heuristic = .returned r ∧
      Delivered (e.graph env) r f ∧
      (p.sat = true → p.partialSat = false → e.paths ≠ [] → (∃ t, Transversal (e.graph env) e.cliques t) →
        ∃ k, Throughout e.cliques k f) := by
  obtain ⟨ho, hh, hx⟩ := hc
  have wf := graph_wf h ho
  obtain ⟨r0, f0, ht, hd⟩ := translate_delivered hh
  unfold coloringParams
  cases hs : p.sat with
  | false =>
    refine ⟨r0, f0, ?_, hd, fun h => (by cases h)⟩
    simp only [Bool.false_eq_true, if_false]
    exact ht
  | true =>
    simp only [if_true]
    have hX := hx ⟨.ascending, e.cliques, !p.partialSat⟩ (by unfold coloringParams; rw [if_pos hs])
    by_cases hV : (e.graph env).vertices = []
    · have hpe : e.paths = [] := by
        rw [← List.length_eq_zero_iff]
        by_contra hne
        have := (graph_mem (e := e) ho 0).2 (by omega)
        rw [hV] at this
        cases this
      refine ⟨r0, f0, ?_, hd, fun _ _ hne => absurd hpe hne⟩
      rw [← ht]
      unfold determineColoring satColor search
      dsimp only
      have : (e.graph env).vertices.length + 1 - lowerBound e.cliques = 0 := by
        have := lowerBound_pos e.cliques
        rw [hV]
        simp only [List.length_nil]
        omega
      rw [this]
      rfl
    · by_cases hw : ∃ k f, Wanted (e.graph env) ⟨.ascending, e.cliques, !p.partialSat⟩ k f
      · obtain ⟨r, f, k1, k2, k3, k4, k5, k6⟩ := C80_minimal (e.graph env) wf hV ⟨.ascending, e.cliques, !p.partialSat⟩
          (cliques_ok h ho) env.frequencyOrder ho.2.2 env.solve hX hw env.heuristic
        refine ⟨r, f, k1, ⟨?_, k3.1.2, k5, k6⟩, ?_⟩
        · rw [k2]
        · intro _ hp _ _
          exact ⟨_, k3.2 (by simp [hp])⟩
      · have hw' : ∀ k f, ¬ Wanted (e.graph env) ⟨.ascending, e.cliques, !p.partialSat⟩ k f := by
          intro k f h
          exact hw ⟨k, f, h⟩
        refine ⟨r0, f0, ?_, hd, ?_⟩
        · rw [← ht]
          exact C80_falls_back (e.graph env) wf hV ⟨.ascending, e.cliques, !p.partialSat⟩ (cliques_ok h ho) env.frequencyOrder env.solve
            hX hw' (by simp) env.heuristic
        · intro _ hp _ htr
          exact absurd ((C80_transversal (e.graph env) wf hV ⟨.ascending, e.cliques, !p.partialSat⟩ (by simp [hp])
            (cliques_ok h ho)).2 htr) hw

/-! ## One color class -/

theorem flatten_le {α : Type} : ∀ ls : List (List α), (∀ l ∈ ls, l.length ≤ 1) → ls.flatten.length ≤ ls.length
  | [], _ => by simp
  | l :: ls, h => by
    have h1 := h l (List.mem_cons_self ..)
    have h2 := flatten_le ls (fun k hk => h k (List.mem_cons_of_mem _ hk))
    simp only [List.flatten_cons, List.length_append, List.length_cons]
    omega

theorem singles {α : Type} : ∀ ls : List (List α), (∀ l ∈ ls, l.length ≤ 1) → ls.flatten.length = ls.length →
    List.Forall₂ (fun l v => l = [v]) ls ls.flatten
  | [], _, _ => .nil
  | l :: ls, h, he => by
    have h1 := h l (List.mem_cons_self ..)
    have h3 : ∀ k ∈ ls, k.length ≤ 1 := fun k hk => h k (List.mem_cons_of_mem _ hk)
    have h2 := flatten_le ls h3
    simp only [List.flatten_cons, List.length_append, List.length_cons] at he
    obtain ⟨v, rfl⟩ := List.length_eq_one_iff.1 (show l.length = 1 by omega)
    exact .cons rfl (singles ls h3 (by omega))

section
variable {crossings : Bool} {e : Eig} {L : List (List Path)} {env : Env} {f : Nat → Nat}

/-- The labels of one color, in ascending order. -/
def classOf (e : Eig) (f : Nat → Nat) (c : Nat) : List Nat := (List.range e.paths.length).filter fun v => f v == c

/-- The path of a label. -/
def pathOf (e : Eig) (v : Nat) : Path := e.paths.getD v []

theorem pathOf_eq {e : Eig} {v : Nat} (h : v < e.paths.length) : e.paths[v]? = some (pathOf e v) := by
  unfold pathOf
  rw [List.getD_eq_getElem?_getD, List.getElem?_eq_getElem h]
  rfl

theorem class_blocks (h : EInv crossings e L) (c : Nat) :
    classOf e f c = (e.cliques.map fun cl => cl.filter fun v => f v == c).flatten := by
  unfold classOf
  rw [← h.labels, List.filter_flatten]

theorem class_short (h : EInv crossings e L) (ho : env.Orders)
    (hp : ∀ v ∈ (e.graph env).vertices, ∀ w ∈ (e.graph env).vertices, (e.graph env).Adj v w → f v ≠ f w) (c : Nat) :
    ∀ l ∈ e.cliques.map fun cl => cl.filter fun v => f v == c, l.length ≤ 1 := by
  intro l hl
  obtain ⟨cl, hc, rfl⟩ := List.mem_map.1 hl
  have hn := (cliques_ok h ho cl hc).2.1
  by_contra hlen
  have hn2 : (cl.filter fun v => f v == c).Nodup := hn.filter _
  generalize hF : (cl.filter fun v => f v == c) = F at *
  match F, hlen with
  | [], h2 => simp at h2
  | [x], h2 => simp at h2
  | x :: y :: zs, _ =>
    have hx : x ∈ cl.filter fun v => f v == c := by rw [hF]; simp
    have hy : y ∈ cl.filter fun v => f v == c := by rw [hF]; simp
    rw [List.mem_filter] at hx hy
    have hxy : x ≠ y := by
      rw [List.nodup_cons] at hn2
      intro he
      exact hn2.1 (by rw [he]; simp)
    have hadj := h.inside cl hc x hx.1 y hy.1 hxy
    refine hp x ((graph_mem ho x).2 (clique_lt h hc hx.1)) y ((graph_mem ho y).2 (clique_lt h hc hy.1))
      ((graph_adj ho x y).2 hadj) ?_
    have h1 : f x = c := by simpa using hx.2
    have h2 : f y = c := by simpa using hy.2
    rw [h1, h2]

/-- The paths of one color do not conflict. -/
theorem class_pairwise (h : EInv crossings e L) (ho : env.Orders)
    (hp : ∀ v ∈ (e.graph env).vertices, ∀ w ∈ (e.graph env).vertices, (e.graph env).Adj v w → f v ≠ f w) (c : Nat) :
    ((classOf e f c).map (pathOf e)).Pairwise fun p q => conflict crossings q p = false := by
  rw [List.pairwise_map]
  have hs : (classOf e f c).Pairwise (· < ·) := List.pairwise_lt_range.filter _
  refine (List.Pairwise.and_mem.1 hs).imp ?_
  rintro u v ⟨hu, hv, huv⟩
  unfold classOf at hu hv
  rw [List.mem_filter, List.mem_range] at hu hv
  by_contra hcf
  rw [Bool.not_eq_false] at hcf
  have hadj := h.conf u v _ _ huv (pathOf_eq hu.1) (pathOf_eq hv.1) hcf
  refine hp u ((graph_mem ho u).2 hu.1) v ((graph_mem ho v).2 hv.1) ((graph_adj ho u v).2 hadj) ?_
  have h1 : f u = c := by simpa using hu.2
  have h2 : f v = c := by simpa using hv.2
  rw [h1, h2]

theorem class_le (h : EInv crossings e L) (ho : env.Orders)
    (hp : ∀ v ∈ (e.graph env).vertices, ∀ w ∈ (e.graph env).vertices, (e.graph env).Adj v w → f v ≠ f w) (c : Nat) :
    (classOf e f c).length ≤ e.cliques.length := by
  rw [class_blocks h c]
  have := flatten_le _ (class_short h ho hp c)
  simpa using this

theorem forall2_trans {α β γ : Type} {R : α → β → Prop} {S : α → γ → Prop} {T : β → γ → Prop}
    (hT : ∀ a b c, R a b → S a c → T b c) : ∀ {as : List α} {bs : List β} {cs : List γ},
    List.Forall₂ R as bs → List.Forall₂ S as cs → List.Forall₂ T bs cs
  | _, _, _, .nil, .nil => .nil
  | _, _, _, .cons h1 t1, .cons h2 t2 => .cons (hT _ _ _ h1 h2) (forall2_trans hT t1 t2)

/-- A label of a clique belongs to a path of the objective. -/
theorem block_mem {cl : List Nat} {ps : List Path} {v : Nat} (hb : cl.map (fun v => e.paths[v]?) = ps.map some)
    (hv : v ∈ cl) : pathOf e v ∈ ps := by
  have h1 : e.paths[v]? ∈ cl.map (fun v => e.paths[v]?) := List.mem_map.2 ⟨v, hv, rfl⟩
  rw [hb] at h1
  obtain ⟨p, hp, he⟩ := List.mem_map.1 h1
  unfold pathOf
  rw [List.getD_eq_getElem?_getD, ← he]
  exact hp

/-- If the color occurs as often as there are cliques, it picks one path of every objective. -/
theorem class_full (h : EInv crossings e L) (ho : env.Orders)
    (hp : ∀ v ∈ (e.graph env).vertices, ∀ w ∈ (e.graph env).vertices, (e.graph env).Adj v w → f v ≠ f w) (c : Nat)
    (hl : (classOf e f c).length = e.cliques.length) :
    List.Forall₂ (fun cl v => v ∈ cl) e.cliques (classOf e f c) ∧
      List.Forall₂ (fun ps p => p ∈ ps) (L.filter fun ps => !ps.isEmpty) ((classOf e f c).map (pathOf e)) := by
  have h1 : List.Forall₂ (fun cl v => v ∈ cl) e.cliques (classOf e f c) := by
    have hb := class_blocks (f := f) h c
    rw [hb] at hl ⊢
    have := singles _ (class_short h ho hp c) (by simpa using hl)
    rw [List.forall₂_map_left_iff] at this
    refine this.imp ?_
    intro cl v he
    have : v ∈ cl.filter fun v => f v == c := by rw [he]; simp
    exact (List.mem_filter.1 this).1
  refine ⟨h1, ?_⟩
  rw [List.forall₂_map_right_iff]
  exact forall2_trans (S := fun cl v => v ∈ cl) (T := fun ps v => pathOf e v ∈ ps) (fun cl ps v hb hv => block_mem hb hv) h.blocks h1

/-- If some color occurs in every clique, it occurs as often as there are cliques. -/
theorem class_ge (h : EInv crossings e L) (c : Nat) (hall : ∀ cl ∈ e.cliques, ∃ v ∈ cl, f v = c) :
    e.cliques.length ≤ (classOf e f c).length := by
  rw [class_blocks h c]
  generalize e.cliques = cs at hall
  induction cs with
  | nil => simp
  | cons cl cs ih =>
    obtain ⟨v, hv, he⟩ := hall cl (List.mem_cons_self ..)
    have := ih (fun cl hc => hall cl (List.mem_cons_of_mem _ hc))
    have h1 : 1 ≤ (cl.filter fun v => f v == c).length := by
      rw [Nat.one_le_iff_ne_zero, ne_eq, List.length_eq_zero_iff]
      intro hn
      have : v ∈ cl.filter fun v => f v == c := List.mem_filter.2 ⟨hv, by simp [he]⟩
      rw [hn] at this
      cases this
    simp only [List.map_cons, List.flatten_cons, List.length_append, List.length_cons]
    omega

theorem pick_sublist : ∀ {cs : List (List Nat)} {t : List Nat}, List.Forall₂ (fun cl v => v ∈ cl) cs t → t.Sublist cs.flatten
  | _, _, .nil => List.Sublist.refl _
  | _, _, .cons h t => by
    rw [List.flatten_cons]
    have := (List.singleton_sublist.2 h).append (pick_sublist t)
    simpa using this

/-- From a choice of paths without conflicts to an independent transversal. -/
theorem transversal_of_choice (h : EInv crossings e L) (ho : env.Orders) {sel : List Path}
    (hsel : List.Forall₂ (fun ps p => p ∈ ps) (L.filter fun ps => !ps.isEmpty) sel)
    (hpw : sel.Pairwise fun p q => conflict crossings q p = false) : ∃ t, Transversal (e.graph env) e.cliques t := by
  -- choose the labels
  have hlab : ∃ t, List.Forall₂ (fun cl v => v ∈ cl) e.cliques t ∧ List.Forall₂ (fun v p => e.paths[v]? = some p) t sel := by
    have hb := h.blocks
    generalize (L.filter fun ps => !ps.isEmpty) = L' at hb hsel
    generalize e.cliques = cs at hb
    clear hpw
    induction hb generalizing sel with
    | nil =>
      cases hsel
      exact ⟨[], .nil, .nil⟩
    | cons hcl _ ih =>
      cases hsel with
      | cons h1 h2 =>
        obtain ⟨t, t1, t2⟩ := ih h2
        have := List.mem_map_of_mem (f := some) h1
        rw [← hcl] at this
        obtain ⟨v, hv, he⟩ := List.mem_map.1 this
        exact ⟨v :: t, .cons hv t1, .cons he t2⟩
  obtain ⟨t, h1, h2⟩ := hlab
  have hsorted : t.Pairwise (· < ·) := by
    have := pick_sublist h1
    rw [h.labels] at this
    exact List.pairwise_lt_range.sublist this
  have hselt : sel = t.map (pathOf e) := by
    clear h1 hsorted hpw hsel
    induction h2 with
    | nil => rfl
    | cons hv _ ih =>
      rw [List.map_cons, ← ih]
      congr 1
      unfold pathOf
      rw [List.getD_eq_getElem?_getD, hv]
      rfl
  rw [hselt, List.pairwise_map] at hpw
  have hnod : e.cliques.flatten.Nodup := by rw [h.labels]; exact List.nodup_range
  -- two labels of the transversal do not lie in one clique
  have hdiff : ∀ cs : List (List Nat), cs.flatten.Nodup → ∀ t, List.Forall₂ (fun cl v => v ∈ cl) cs t →
      t.Pairwise fun u v => ∀ cl ∈ cs, u ∈ cl → v ∉ cl := by
    intro cs hn t ht
    induction ht with
    | nil => exact .nil
    | @cons cl v cs t hv hrest ih =>
      rw [List.flatten_cons, List.nodup_append'] at hn
      rw [List.pairwise_cons]
      refine ⟨?_, (List.Pairwise.and_mem.1 (ih hn.2.1)).imp ?_⟩
      · intro w hw cl' hcl' hvc hwc
        have hwf : w ∈ cs.flatten := (pick_sublist hrest).subset hw
        rcases List.mem_cons.1 hcl' with rfl | hcl'
        · exact hn.2.2 hwc hwf
        · exact hn.2.2 hv (List.mem_flatten.2 ⟨cl', hcl', hvc⟩)
      · rintro u w ⟨hu, hw, huw⟩ cl' hcl' huc
        rcases List.mem_cons.1 hcl' with rfl | hcl'
        · exact absurd ((pick_sublist hrest).subset hu) (fun hx => hn.2.2 huc hx)
        · exact huw cl' hcl' huc
  have hd := hdiff _ hnod t h1
  refine ⟨t, h1, ?_⟩
  have hmain : t.Pairwise fun u v => ¬ EAdj e.edges u v := by
    have hall := hsorted.and (hpw.and hd)
    refine hall.imp ?_
    rintro u v ⟨huv, hc, hcl⟩ hadj
    rcases h.only u v hadj with ⟨cl, hm, hu, hv⟩ | ⟨pu, pv, e1, e2, hx⟩
    · exact hcl cl hm hu hv
    · have e1' : pathOf e u = pu := by
        unfold pathOf; rw [List.getD_eq_getElem?_getD, e1]; rfl
      have e2' : pathOf e v = pv := by
        unfold pathOf; rw [List.getD_eq_getElem?_getD, e2]; rfl
      rw [e1', e2'] at hc
      rcases hx with hx | hx
      · rw [hc] at hx
        exact absurd hx.2 (by simp)
      · omega
  intro u hu v hv hadj
  rw [graph_adj ho] at hadj
  have hne : u ≠ v := by
    rintro rfl
    rcases hadj with hm | hm
    · exact (h.ends _ hm).2.2 rfl
    · exact (h.ends _ hm).2.2 rfl
  have hsym : ∀ u v, ¬ EAdj e.edges u v → ¬ EAdj e.edges v u := fun u v hn hm => hn hm.symm
  haveI : Std.Symm fun u v => ¬ EAdj e.edges u v := ⟨hsym⟩
  exact hmain.forall hu hv hne hadj

end

end Verif.PhysicalDesign.ColorRouting
