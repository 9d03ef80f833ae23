import Verif.PhysicalDesign.Exact
import Verif.Clocking.Props
import Mathlib.Data.List.Nodup
import Mathlib.Tactic.ByContra
import Mathlib.Tactic.SplitIfs

/-!
# What the constraints of `exact` say
-/
namespace Verif.PhysicalDesign.Exact

open Verif.Layouts Verif.Clocking Verif.GateLevel Verif.Networks

/-! ## Counting -/

theorem map_count_le_one {α : Type} {l : List α} {f : α → Bool} (h : (l.map f).count true ≤ 1) {a b : α} (ha : a ∈ l) (hb : b ∈ l)
    (fa : f a = true) (fb : f b = true) : a = b := by
  induction l with
  | nil => cases ha
  | cons x l ih =>
    have pos : ∀ c ∈ l, f c = true → 1 ≤ (l.map f).count true := by
      intro c hc fc
      exact List.count_pos_iff.2 (List.mem_map.2 ⟨c, hc, fc⟩)
    rw [List.map_cons, List.count_cons] at h
    rcases List.mem_cons.1 ha with ea | ha
    · rcases List.mem_cons.1 hb with eb | hb
      · rw [ea, eb]
      · have := pos b hb fb
        rw [ea] at fa
        rw [fa] at h
        simp at h
        omega
    · rcases List.mem_cons.1 hb with eb | hb
      · have := pos a ha fa
        rw [eb] at fb
        rw [fb] at h
        simp at h
        omega
      · exact ih (by omega) ha hb

theorem map_count_le_two {α : Type} {l : List α} {f : α → Bool} (h : (l.map f).count true ≤ 2) {a b c : α} (ha : a ∈ l) (hb : b ∈ l)
    (hc : c ∈ l) (fa : f a = true) (fb : f b = true) (fc : f c = true) : a = b ∨ a = c ∨ b = c := by
  induction l with
  | nil => cases ha
  | cons x l ih =>
    rw [List.map_cons, List.count_cons] at h
    by_cases hx : f x = true
    · have h1 : (l.map f).count true ≤ 1 := by rw [hx] at h; simp at h; omega
      rcases List.mem_cons.1 ha with ea | ha
      · rcases List.mem_cons.1 hb with eb | hb
        · exact .inl (ea.trans eb.symm)
        · rcases List.mem_cons.1 hc with ec | hc
          · exact .inr (.inl (ea.trans ec.symm))
          · exact .inr (.inr (map_count_le_one h1 hb hc fb fc))
      · rcases List.mem_cons.1 hb with eb | hb
        · rcases List.mem_cons.1 hc with ec | hc
          · exact .inr (.inr (eb.trans ec.symm))
          · exact .inr (.inl (map_count_le_one h1 ha hc fa fc))
        · exact .inl (map_count_le_one h1 ha hb fa fb)
    · have ne : ∀ y, f y = true → y ∈ x :: l → y ∈ l := by
        intro y fy hy
        rcases List.mem_cons.1 hy with rfl | hy
        · exact absurd fy hx
        · exact hy
      exact ih (by omega) (ne a fa ha) (ne b fb hb) (ne c fc hc)

/-! ## Tiles -/

theorem mem_tiles {m : Dim} {t : Coord} : t ∈ tiles m ↔ t.d = false ∧ t.z = 0 ∧ t.x ≤ m.X ∧ t.y ≤ m.Y := by
  simp only [tiles, List.mem_flatMap, List.mem_range, List.mem_map]
  constructor
  · rintro ⟨y, hy, x, hx, rfl⟩
    exact ⟨rfl, rfl, by simp only; omega, by simp only; omega⟩
  · rintro ⟨h1, h2, h3, h4⟩
    obtain ⟨x, y, z, d⟩ := t
    simp only at h1 h2 h3 h4
    subst h1; subst h2
    exact ⟨y, by omega, x, by omega, rfl⟩

theorem tiles_nodup (m : Dim) : (tiles m).Nodup := by
  unfold tiles
  rw [List.nodup_flatMap]
  refine ⟨?_, ?_⟩
  · intro y _
    exact List.nodup_range.map (fun a b h => by injection h)
  · refine List.nodup_range.imp ?_
    intro a b hab c h1 h2
    obtain ⟨x, -, rfl⟩ := List.mem_map.1 h1
    obtain ⟨x', -, e⟩ := List.mem_map.1 h2
    injection e with _ e
    exact hab e.symm

theorem tile_inBounds {m : Dim} {t : Coord} (h : t ∈ tiles m) : InBounds m t := by
  obtain ⟨h1, h2, h3, h4⟩ := mem_tiles.1 h
  exact ⟨h1, h3, h4, by omega⟩

/-- Layouts are small enough for hexagonal coordinates. -/
def Small (m : Dim) : Prop := m.X < 2 ^ 31 - 1 ∧ m.Y < 2 ^ 31 - 1

theorem adjacent_tile {tp : Topo} {m : Dim} (hs : Small m) {t u : Coord} (ht : t ∈ tiles m) (h : u ∈ tp.adjacent m t) : u ∈ tiles m := by
  have hb := tile_inBounds ht
  obtain ⟨h1, h2, h3, h4⟩ := mem_tiles.1 ht
  cases tp with
  | cart =>
    have := ((C07_adjacent_exact m t hb).1 u).1 h
    exact mem_tiles.2 ⟨this.1.1, by have := this.2.1; omega, this.1.2.1, this.1.2.2.1⟩
  | hex a =>
    have := (C09_adjacent_exact a m hs.1 hs.2 t u hb).1 h
    exact mem_tiles.2 ⟨this.1.1, by have := this.2.1; omega, this.1.2.1, this.1.2.2.1⟩

theorem outgoing_tile {tp : Topo} {m : Dim} {cs : Scheme} (hs : Small m) {t u : Coord} (ht : t ∈ tiles m)
    (h : u ∈ outgoingClockedZones tp m cs t) : u ∈ tiles m := adjacent_tile hs ht (List.mem_filter.1 h).1

/-! ## Facts -/

section
variable (tp : Topo) (m : Dim) (cs : Scheme) (N : Ntk) (nodes : List Nat) (crossings : Bool) (A : Asg)

/-- A connection of neighbouring tiles. -/
def Conn (t u : Coord) : Prop := t ∈ tiles m ∧ u ∈ outgoingClockedZones tp m cs t ∧ A.tc t u = true

/-- What is needed of the clocking scheme. -/
structure Clocked : Prop where
  small : Small m
  flat : ∀ c : Coord, cs.clock c = cs.clock { c with z := 0 }
  alive : ∀ t ∈ tiles m, t.x ≠ m.X → t.y ≠ m.Y → outgoingClockedZones tp m cs t ≠ []
  linear : isLinearScheme cs = true → ∀ t, ¬ Relation.TransGen (Flow tp m cs) t t

/-- The facts. -/
structure Facts : Prop where
  nodeUnique : ∀ t ∈ tiles m, ∀ n ∈ nodes, ∀ n' ∈ nodes, A.tn t n = true → A.tn t n' = true → n = n'
  nodeEdge : ∀ t ∈ tiles m, ∀ n ∈ nodes, ∀ e ∈ edges N nodes, A.tn t n = true → A.te t e = true → False
  edges1 : crossings = false → ∀ t ∈ tiles m, ∀ e ∈ edges N nodes, ∀ e' ∈ edges N nodes, A.te t e = true → A.te t e' = true → e = e'
  edges2 : ∀ t ∈ tiles m, ∀ e ∈ edges N nodes, ∀ e' ∈ edges N nodes, ∀ e'' ∈ edges N nodes, A.te t e = true → A.te t e' = true →
    A.te t e'' = true → e = e' ∨ e = e'' ∨ e' = e''
  placed : ∀ n ∈ nodes, ∃ t ∈ tiles m, A.tn t n = true ∧ ∀ t' ∈ tiles m, A.tn t' n = true → t' = t
  goNode : ∀ t ∈ tiles m, ∀ n ∈ nodes, A.tn t n = true → ∀ f ∈ N.fanouts n,
    ∃ u, Conn tp m cs A t u ∧ (A.tn u f = true ∨ A.te u (n, f) = true)
  goEdge : ∀ t ∈ tiles m, ∀ e ∈ edges N nodes, A.te t e = true →
    ∃ u, Conn tp m cs A t u ∧ (A.tn u e.2 = true ∨ A.te u e = true)
  acyclic : ∀ t, ¬ Relation.TransGen (Conn tp m cs A) t t

variable {tp m cs N nodes crossings A}

theorem Conn.tiles (hs : Small m) {t u : Coord} (h : Conn tp m cs A t u) : t ∈ Exact.tiles m ∧ u ∈ Exact.tiles m :=
  ⟨h.1, outgoing_tile hs h.1 h.2.1⟩

theorem imp_true {a b : Bool} : imp a b = true ↔ (a = true → b = true) := by cases a <;> cases b <;> simp [imp]

theorem elements_facts {t : Coord} (h : tileElements N nodes crossings A t = true) :
    ((nodes.map (A.tn t)).count true ≤ 1) ∧ (((edges N nodes).map (A.te t)).count true ≤ 2) ∧
    (crossings = false → ((edges N nodes).map (A.te t)).count true ≤ 1) ∧
    (1 ≤ (nodes.map (A.tn t)).count true → ((edges N nodes).map (A.te t)).count true = 0) := by
  unfold tileElements at h
  cases crossings with
  | false =>
    simp only [Bool.false_eq_true, if_false, atMost, decide_eq_true_eq, List.count_append] at h
    refine ⟨?_, ?_, ?_, ?_⟩ <;> omega
  | true =>
    simp only [if_true, Bool.and_eq_true, imp_true, atMost, atLeast, decide_eq_true_eq] at h
    refine ⟨?_, ?_, ?_, ?_⟩
    · omega
    · omega
    · intro hc; cases hc
    · intro hc; have := h.1.2 hc; omega

theorem goes_facts {t : Coord} {e : Nat × Nat} (ht : t ∈ tiles m) (hl : outgoingClockedZones tp m cs t ≠ [])
    (h : goesOn tp m cs A t e = true) : ∃ u, Conn tp m cs A t u ∧ (A.tn u e.2 = true ∨ A.te u e = true) := by
  unfold goesOn at h
  simp only [Bool.or_eq_true, List.isEmpty_iff, List.any_eq_true, Bool.and_eq_true] at h
  rcases h with h | ⟨u, hu, h1, h2⟩
  · exact absurd h hl
  · exact ⟨u, ⟨ht, hu, h2⟩, h1⟩

theorem noCycles_facts (hc : Clocked tp m cs) (h : noCycles tp m cs A = true) : ∀ t, ¬ Relation.TransGen (Conn tp m cs A) t t := by
  by_cases hl : isLinearScheme cs = true
  · intro t ht
    exact hc.linear hl t (ht.lift id (fun a b hab => ⟨tile_inBounds hab.1, hab.2.1⟩))
  · unfold noCycles at h
    rw [Bool.not_eq_true] at hl
    rw [hl, Bool.false_or, Bool.and_eq_true, Bool.and_eq_true] at h
    obtain ⟨⟨h1, h2⟩, h3⟩ := h
    simp only [List.all_eq_true, imp_true, Bool.or_eq_true, decide_eq_true_eq, Bool.and_eq_true, Bool.not_eq_true'] at h1 h2 h3
    have key : ∀ a b, Relation.TransGen (Conn tp m cs A) a b → a ∈ tiles m ∧ b ∈ tiles m ∧ A.tp a b = true := by
      intro a b hab
      induction hab with
      | single h => exact ⟨h.1, outgoing_tile hc.small h.1 h.2.1, h1 _ h.1 _ h.2.1 h.2.2⟩
      | tail _ h ih =>
        rename_i b c _
        obtain ⟨i1, i2, i3⟩ := ih
        have hcm := outgoing_tile hc.small h.1 h.2.1
        refine ⟨i1, hcm, ?_⟩
        have hbc := h1 _ h.1 _ h.2.1 h.2.2
        by_cases e1 : a = b
        · rw [e1, h3 b i2] at i3
          cases i3
        · rcases h2 a i1 b i2 with e | e
          · exact absurd e e1
          · rcases e c hcm with e | e
            · rw [← e, h3 b i2] at hbc
              cases hbc
            · exact e ⟨i3, hbc⟩
    intro t ht
    obtain ⟨i1, -, i3⟩ := key t t ht
    rw [h3 t i1] at i3
    cases i3

theorem sat_facts (hc : Clocked tp m cs) (h : satBase tp m cs N nodes crossings A = true) :
    Facts tp m cs N nodes crossings A := by
  unfold satBase at h
  simp only [Bool.and_eq_true, List.all_eq_true] at h
  obtain ⟨⟨ht, hv⟩, hn⟩ := h
  have alive : ∀ t ∈ tiles m, (∀ n ∈ nodes, A.tn t n = true → N.fanouts n ≠ [] → outgoingClockedZones tp m cs t ≠ []) ∧
      ∀ e ∈ edges N nodes, A.te t e = true → outgoingClockedZones tp m cs t ≠ [] := by
    intro t htm
    have hs := (ht t htm).1.2
    unfold sufficient at hs
    by_cases hb : t.x = m.X ∨ t.y = m.Y
    · have hb' : (Cart.isAtEasternBorder m t || Cart.isAtSouthernBorder m t) = true := by
        simpa [Cart.isAtEasternBorder, Cart.isAtSouthernBorder] using hb
      rw [hb'] at hs
      simp only [Bool.not_true, Bool.false_or, Bool.and_eq_true, List.all_eq_true, imp_true, Bool.or_eq_true, decide_eq_true_eq,
        Bool.not_eq_true'] at hs
      refine ⟨?_, ?_⟩
      · intro n hn h1 h2 h3
        have : outDegree tp m cs t < netOut N n := by
          unfold outDegree netOut
          rw [h3]
          exact List.length_pos_iff.2 h2
        rw [hs.1 n hn (.inl this)] at h1
        cases h1
      · intro e he h1 h3
        have : outDegree tp m cs t = 0 := by unfold outDegree; rw [h3]; rfl
        rw [hs.2 e he (.inl this)] at h1
        cases h1
    · have := hc.alive t htm (fun e => hb (.inl e)) (fun e => hb (.inr e))
      exact ⟨fun _ _ _ _ => this, fun _ _ _ => this⟩
  refine ⟨?_, ?_, ?_, ?_, ?_, ?_, ?_, noCycles_facts hc hn⟩
  · intro t htm n h1 n' h1' h2 h2'
    exact map_count_le_one (elements_facts (ht t htm).1.1.1.1.1.1).1 h1 h1' h2 h2'
  · intro t htm n h1 e he h2 h3
    have := (elements_facts (ht t htm).1.1.1.1.1.1).2.2.2 (List.count_pos_iff.2 (List.mem_map.2 ⟨n, h1, h2⟩))
    have h4 : true ∈ (edges N nodes).map (A.te t) := List.mem_map.2 ⟨e, he, h3⟩
    exact absurd h4 (List.count_eq_zero.1 this)
  · intro hcr t htm e he e' he' h1 h2
    exact map_count_le_one ((elements_facts (ht t htm).1.1.1.1.1.1).2.2.1 hcr) he he' h1 h2
  · intro t htm e he e' he' e'' he'' h1 h2 h3
    exact map_count_le_two (elements_facts (ht t htm).1.1.1.1.1.1).2.1 he he' he'' h1 h2 h3
  · intro n hnm
    have := hv n hnm
    unfold vertices exactly at this
    simp only [Bool.and_eq_true, atLeast, atMost, decide_eq_true_eq] at this
    obtain ⟨t, h1, h2⟩ := List.mem_map.1 (List.count_pos_iff.1 this.1)
    exact ⟨t, h1, h2, fun t' h1' h2' => map_count_le_one (f := fun t => A.tn t n) this.2 h1' h1 h2' h2⟩
  · intro t htm n hnm h1 f hf
    have := (ht t htm).1.1.1.1.1.2
    unfold gateFanout at this
    simp only [List.all_eq_true, imp_true] at this
    refine goes_facts htm ((alive t htm).1 n hnm h1 (List.ne_nil_of_mem hf)) (this n hnm h1 (n, f) ?_)
    exact List.mem_map.2 ⟨f, hf, rfl⟩
  · intro t htm e he h1
    have := (ht t htm).1.1.1.2
    unfold wireFanout at this
    simp only [List.all_eq_true, imp_true] at this
    exact goes_facts htm ((alive t htm).2 e he h1) (this e he h1)

end

end Verif.PhysicalDesign.Exact
