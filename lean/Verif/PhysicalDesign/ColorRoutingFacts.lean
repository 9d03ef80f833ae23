import Verif.PhysicalDesign.ColorRoutingSpec
import Verif.Graphs.SearchFacts
import Mathlib.Data.List.Forall2
import Mathlib.Data.List.Induction

namespace Verif.PhysicalDesign.ColorRouting

open Verif.Layouts Verif.Clocking Verif.GateLevel Verif.Paths Verif.Graphs

/-! ## The edge intersection graph -/

def EAdj (edges : List (Nat × Nat)) (u v : Nat) : Prop := (u, v) ∈ edges ∨ (v, u) ∈ edges

structure EInv (crossings : Bool) (e : Eig) (L : List (List Path)) : Prop where
  paths : e.paths = L.flatten
  blocks : List.Forall₂ (fun cl ps => cl.map (fun v => e.paths[v]?) = ps.map some) e.cliques (L.filter fun ps => !ps.isEmpty)
  labels : e.cliques.flatten = List.range e.paths.length
  ends : ∀ a ∈ e.edges, a.1 < e.paths.length ∧ a.2 < e.paths.length ∧ a.1 ≠ a.2
  inside : ∀ cl ∈ e.cliques, ∀ u ∈ cl, ∀ v ∈ cl, u ≠ v → EAdj e.edges u v
  conf : ∀ u v pu pv, u < v → e.paths[u]? = some pu → e.paths[v]? = some pv → conflict crossings pv pu = true → EAdj e.edges u v
  only : ∀ u v, EAdj e.edges u v → (∃ cl ∈ e.cliques, u ∈ cl ∧ v ∈ cl) ∨
    (∃ pu pv, e.paths[u]? = some pu ∧ e.paths[v]? = some pv ∧
      ((u < v ∧ conflict crossings pv pu = true) ∨ (v < u ∧ conflict crossings pu pv = true)))
  unroutable : e.unroutable = (L.filter fun ps => ps.isEmpty).length

theorem mem_cliqueEdges (base n u v : Nat) : (u, v) ∈ cliqueEdges base n ↔ base ≤ u ∧ u < v ∧ v < base + n := by
  unfold cliqueEdges
  simp only [List.mem_flatMap, List.mem_map, List.mem_range, List.mem_range'_1, Prod.mk.injEq]
  constructor
  · rintro ⟨i, hi, j, hj, rfl, rfl⟩
    omega
  · intro h
    exact ⟨u - base, by omega, v - base, by omega, by omega, by omega⟩

theorem EInv.start (crossings : Bool) : EInv crossings {} [] where
  paths := rfl
  blocks := .nil
  labels := rfl
  ends := by intro a h; cases h
  inside := by intro cl h; cases h
  conf := by intro u v pu pv _ h; simp at h
  only := by
    rintro u v (h | h) <;> cases h
  unroutable := rfl

theorem EInv.add {crossings : Bool} {e : Eig} {L : List (List Path)} (h : EInv crossings e L) (ps : List Path) :
    EInv crossings (e.add crossings ps) (L ++ [ps]) := by
  have hedge : ∀ u v, (u, v) ∈ (e.add crossings ps).edges ↔ (u, v) ∈ e.edges ∨
      (e.paths.length ≤ u ∧ u < v ∧ v < e.paths.length + ps.length) ∨
      ∃ i p q, u = e.paths.length + i ∧ ps[i]? = some p ∧ e.paths[v]? = some q ∧ conflict crossings p q = true := by
    intro u v
    unfold Eig.add
    dsimp only
    rw [List.mem_append, List.mem_append, mem_cliqueEdges, or_assoc]
    refine or_congr_right (or_congr_right ?_)
    rw [List.mem_flatMap]
    constructor
    · rintro ⟨⟨p, i⟩, hp, hm⟩
      rw [List.mem_filterMap] at hm
      obtain ⟨⟨q, j⟩, hq, hm⟩ := hm
      dsimp only at hm
      split_ifs at hm with hc
      simp only [Option.some.injEq, Prod.mk.injEq] at hm
      obtain ⟨rfl, rfl⟩ := hm
      rw [List.mk_mem_zipIdx_iff_getElem?] at hp hq
      exact ⟨i, p, q, rfl, hp, hq, hc⟩
    · rintro ⟨i, p, q, rfl, hp, hq, hc⟩
      refine ⟨(p, i), List.mk_mem_zipIdx_iff_getElem?.2 hp, ?_⟩
      rw [List.mem_filterMap]
      refine ⟨(q, v), List.mk_mem_zipIdx_iff_getElem?.2 hq, ?_⟩
      dsimp only
      rw [if_pos hc]
  have hpath : (e.add crossings ps).paths = e.paths ++ ps := rfl
  have hlen : (e.add crossings ps).paths.length = e.paths.length + ps.length := by rw [hpath, List.length_append]
  have hold : ∀ v p, e.paths[v]? = some p → v < e.paths.length := fun v p hv => (List.getElem?_eq_some_iff.1 hv).1
  have hlab : ∀ cl ∈ e.cliques, ∀ v ∈ cl, v < e.paths.length := by
    intro cl hc v hv
    rw [← List.mem_range, ← h.labels]
    exact List.mem_flatten.2 ⟨cl, hc, hv⟩
  have hcl : (e.add crossings ps).cliques = if ps.isEmpty then e.cliques else e.cliques ++ [List.range' e.paths.length ps.length] := rfl
  have hmono : ∀ u v, EAdj e.edges u v → EAdj (e.add crossings ps).edges u v := by
    rintro u v (hm | hm)
    · exact .inl ((hedge _ _).2 (.inl hm))
    · exact .inr ((hedge _ _).2 (.inl hm))
  refine ⟨?_, ?_, ?_, ?_, ?_, ?_, ?_, ?_⟩
  · rw [hpath, h.paths]
    simp
  · have hkeep : List.Forall₂ (fun cl ps' => cl.map (fun v => (e.paths ++ ps)[v]?) = ps'.map some) e.cliques
        (L.filter fun ps => !ps.isEmpty) := by
      have hb := h.blocks
      have hl := hlab
      generalize e.cliques = cs at hb hl
      generalize (L.filter fun ps => !ps.isEmpty) = L' at hb
      induction hb with
      | nil => exact .nil
      | cons h1 _ ih =>
        refine .cons ?_ (ih (fun cl hc => hl cl (List.mem_cons_of_mem _ hc)))
        rw [← h1]
        refine List.map_congr_left ?_
        intro v hv
        exact List.getElem?_append_left (hl _ (List.mem_cons_self ..) v hv)
    rw [hcl, hpath, List.filter_append]
    cases hp : ps with
    | nil =>
      rw [hp] at hkeep
      simpa using hkeep
    | cons x xs =>
      rw [← hp]
      have hne : ps.isEmpty = false := by rw [hp]; rfl
      rw [hne]
      simp only [Bool.false_eq_true, if_false]
      have : [ps].filter (fun ps => !ps.isEmpty) = [ps] := by
        rw [List.filter_cons]
        simp [hne]
      rw [this]
      refine List.rel_append hkeep (.cons ?_ .nil)
      apply List.ext_getElem?
      intro i
      simp only [List.getElem?_map]
      by_cases hi : i < ps.length
      · rw [List.getElem?_range' hi, List.getElem?_eq_getElem hi]
        simp only [Option.map_some, Option.some.injEq]
        rw [List.getElem?_append_right (by omega)]
        rw [show e.paths.length + 1 * i - e.paths.length = i by omega, List.getElem?_eq_getElem hi]
      · rw [List.getElem?_eq_none (by simp; omega), List.getElem?_eq_none (by omega)]
        rfl
  · rw [hcl, hlen]
    cases hp : ps with
    | nil => simpa using h.labels
    | cons x xs =>
      rw [← hp]
      have hne : ps.isEmpty = false := by rw [hp]; rfl
      rw [hne]
      simp only [Bool.false_eq_true, if_false, List.flatten_append, h.labels]
      simp only [List.flatten_cons, List.flatten_nil, List.append_nil]
      rw [List.range_add]
      congr 1
      rw [List.range'_eq_map_range]
  · rintro ⟨u, v⟩ hm
    rw [hlen]
    dsimp only
    rcases (hedge u v).1 hm with hm | hm | ⟨i, p, q, rfl, hp, hq, -⟩
    · have := h.ends _ hm
      dsimp only at this
      omega
    · omega
    · have h1 := hold _ _ hq
      have h2 := (List.getElem?_eq_some_iff.1 hp).1
      omega
  · intro cl hc u hu v hv hne
    rw [hcl] at hc
    have hold' : cl ∈ e.cliques → EAdj (e.add crossings ps).edges u v := fun hm => hmono u v (h.inside cl hm u hu v hv hne)
    split_ifs at hc with he
    · exact hold' hc
    · rcases List.mem_append.1 hc with hc | hc
      · exact hold' hc
      · rw [List.mem_singleton] at hc
        subst hc
        rw [List.mem_range'_1] at hu hv
        rcases Nat.lt_or_ge u v with hlt | hge
        · exact .inl ((hedge _ _).2 (.inr (.inl ⟨by omega, hlt, by omega⟩)))
        · exact .inr ((hedge _ _).2 (.inr (.inl ⟨by omega, by omega, by omega⟩)))
  · intro u v pu pv huv hu hv hc
    rw [hpath] at hu hv
    by_cases h1 : v < e.paths.length
    · rw [List.getElem?_append_left (by omega)] at hu hv
      exact hmono u v (h.conf u v pu pv huv hu hv hc)
    · rw [List.getElem?_append_right (by omega)] at hv
      have h3 := (List.getElem?_eq_some_iff.1 hv).1
      by_cases h2 : u < e.paths.length
      · rw [List.getElem?_append_left h2] at hu
        exact .inr ((hedge _ _).2 (.inr (.inr ⟨v - e.paths.length, pv, pu, by omega, hv, hu, hc⟩)))
      · exact .inl ((hedge _ _).2 (.inr (.inl ⟨by omega, huv, by omega⟩)))
  · have hstep : ∀ u v, (u, v) ∈ (e.add crossings ps).edges → (∃ cl ∈ (e.add crossings ps).cliques, u ∈ cl ∧ v ∈ cl) ∨
        (∃ pu pv, (e.add crossings ps).paths[u]? = some pu ∧ (e.add crossings ps).paths[v]? = some pv ∧
          ((u < v ∧ conflict crossings pv pu = true) ∨ (v < u ∧ conflict crossings pu pv = true))) := by
      intro u v hm
      rw [hpath]
      rcases (hedge u v).1 hm with hm | hm | ⟨i, p, q, rfl, hp, hq, hc⟩
      · rcases h.only u v (.inl hm) with ⟨cl, h1, h2⟩ | ⟨pu, pv, h1, h2, h3⟩
        · refine .inl ⟨cl, ?_, h2⟩
          rw [hcl]
          split_ifs
          · exact h1
          · exact List.mem_append_left _ h1
        · refine .inr ⟨pu, pv, ?_, ?_, h3⟩
          · rw [List.getElem?_append_left (hold _ _ h1)]; exact h1
          · rw [List.getElem?_append_left (hold _ _ h2)]; exact h2
      · have hne : ¬ ps.isEmpty = true := by
          rw [List.isEmpty_iff]
          rintro rfl
          simp only [List.length_nil] at hm
          omega
        refine .inl ⟨List.range' e.paths.length ps.length, ?_, ?_, ?_⟩
        · rw [hcl, if_neg hne]
          simp
        · rw [List.mem_range'_1]; omega
        · rw [List.mem_range'_1]; omega
      · have h1 := hold _ _ hq
        refine .inr ⟨p, q, ?_, ?_, .inr ⟨by omega, hc⟩⟩
        · rw [List.getElem?_append_right (by omega), show e.paths.length + i - e.paths.length = i by omega]
          exact hp
        · rw [List.getElem?_append_left h1]; exact hq
    rintro u v (hm | hm)
    · exact hstep u v hm
    · rcases hstep v u hm with ⟨cl, h1, h2, h3⟩ | ⟨pv, pu, h1, h2, h3⟩
      · exact .inl ⟨cl, h1, h3, h2⟩
      · exact .inr ⟨pu, pv, h2, h1, h3.symm⟩
  · show (if ps.isEmpty then e.unroutable + 1 else e.unroutable) = _
    rw [List.filter_append, List.length_append, h.unroutable, List.filter_cons]
    split_ifs <;> simp

theorem eig_inv (crossings : Bool) (cands : List (List Path)) : EInv crossings (edgeIntersectionGraph crossings cands) cands := by
  unfold edgeIntersectionGraph
  induction cands using List.reverseRecOn with
  | nil => exact EInv.start crossings
  | append_singleton L ps ih =>
    rw [List.foldl_append]
    exact ih.add ps

/-! ## The graph that is colored -/

section
variable {crossings : Bool} {e : Eig} {L : List (List Path)} {env : Env}

theorem graph_wf (h : EInv crossings e L) (ho : env.Orders) : (e.graph env).WF := by
  have hv : ∀ v, v ∈ (e.graph env).vertices ↔ v < e.paths.length := by
    intro v
    unfold Eig.graph
    rw [(ho.1 _).mem_iff, List.mem_range]
  refine ⟨?_, ?_⟩
  · unfold Eig.graph
    exact (ho.1 _).nodup_iff.2 List.nodup_range
  · intro a ha
    unfold Eig.graph at ha
    have := h.ends a ((ho.2.1 _).mem_iff.1 ha)
    exact ⟨(hv _).2 this.1, (hv _).2 this.2.1, this.2.2⟩

theorem graph_mem (ho : env.Orders) (v : Nat) : v ∈ (e.graph env).vertices ↔ v < e.paths.length := by
  unfold Eig.graph
  rw [(ho.1 _).mem_iff, List.mem_range]

theorem graph_adj (ho : env.Orders) (u v : Nat) : (e.graph env).Adj u v ↔ EAdj e.edges u v := by
  unfold Graph.Adj EAdj Eig.graph
  rw [(ho.2.1 _).mem_iff, (ho.2.1 _).mem_iff]

theorem clique_lt (h : EInv crossings e L) {cl : List Nat} (hc : cl ∈ e.cliques) {v : Nat} (hv : v ∈ cl) : v < e.paths.length := by
  rw [← List.mem_range, ← h.labels]
  exact List.mem_flatten.2 ⟨cl, hc, hv⟩

theorem cliques_ok (h : EInv crossings e L) (ho : env.Orders) : ∀ cl ∈ e.cliques, IsClique (e.graph env) cl := by
  intro cl hc
  refine ⟨?_, ?_, ?_⟩
  · intro v hv
    exact (graph_mem ho v).2 (clique_lt h hc hv)
  · have : (e.cliques.flatten).Nodup := by rw [h.labels]; exact List.nodup_range
    exact this.sublist (List.sublist_flatten_of_mem hc)
  · intro v hv w hw hne
    exact (graph_adj ho v w).2 (h.inside cl hc v hv w hw hne)

end

end Verif.PhysicalDesign.ColorRouting
