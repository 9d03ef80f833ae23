import Verif.Sidb.Energy
import Mathlib.Data.Finset.Card
import Mathlib.Data.List.Dedup
import Mathlib.Data.List.Sort
import Mathlib.Algebra.Order.Ring.Rat
import Mathlib.Order.Nat
import Mathlib.Tactic.Linarith
import Mathlib.Tactic.SplitIfs

/-!
# C40: the energy distribution
-/
namespace Verif.Sidb

theorem mem_setInsert {α : Type} [LinearOrder α] (x y : α) (l : List α) : y ∈ setInsert x l ↔ y = x ∨ y ∈ l := by
  induction l with
  | nil => simp [setInsert]
  | cons a l ih =>
    unfold setInsert
    split_ifs with h1 h2
    · simp
    · simp only [List.mem_cons, ih]; tauto
    · have : x = a := le_antisymm (not_lt.1 h2) (not_lt.1 h1)
      subst this
      simp

theorem sorted_setInsert {α : Type} [LinearOrder α] (x : α) (l : List α) (h : l.Pairwise (· < ·)) : (setInsert x l).Pairwise (· < ·) := by
  induction l with
  | nil => simp [setInsert]
  | cons a l ih =>
    rw [List.pairwise_cons] at h
    unfold setInsert
    split_ifs with h1 h2
    · rw [List.pairwise_cons, List.pairwise_cons]
      refine ⟨fun b hb => ?_, h⟩
      rcases List.mem_cons.1 hb with rfl | hb
      · exact h1
      · exact lt_trans h1 (h.1 b hb)
    · rw [List.pairwise_cons]
      refine ⟨fun b hb => ?_, ih h.2⟩
      rcases (mem_setInsert x b l).1 hb with rfl | hb
      · exact h2
      · exact h.1 b hb
    · rw [List.pairwise_cons]; exact h

theorem uniqueIndices_spec (l : List (Nat × Rat)) :
    (uniqueIndices l).Pairwise (· < ·) ∧ ∀ k, k ∈ uniqueIndices l ↔ k ∈ l.map Prod.fst := by
  have : ∀ (l : List (Nat × Rat)) (acc : List Nat), acc.Pairwise (· < ·) →
      (l.foldl (fun acc p => setInsert p.1 acc) acc).Pairwise (· < ·) ∧
        ∀ k, k ∈ l.foldl (fun acc p => setInsert p.1 acc) acc ↔ k ∈ acc ∨ k ∈ l.map Prod.fst := by
    intro l
    induction l with
    | nil => intro acc h; simp [h]
    | cons p l ih =>
      intro acc h
      obtain ⟨h1, h2⟩ := ih _ (sorted_setInsert p.1 acc h)
      refine ⟨h1, fun k => ?_⟩
      rw [List.foldl_cons, h2, mem_setInsert]
      simp only [List.map_cons, List.mem_cons]
      tauto
  have h := this l [] List.Pairwise.nil
  exact ⟨h.1, fun k => (h.2 k).trans (by simp)⟩

/-- The energies gathered from a list of indices. -/
def gather (eps : Rat) (en : Nat → Rat) (ks : List Nat) (es : List Rat) : List Rat :=
  ks.foldl (fun es k => if !es.any fun u => decide (absR (en k - u) < eps) then setInsert (en k) es else es) es

theorem collectUnique_eq (eps : Rat) (en : Nat → Rat) (l : List (Nat × Rat)) (hl : ∀ p ∈ l, p.2 = en p.1) (ks : List Nat)
    (hk : ∀ k ∈ ks, k ∈ l.map Prod.fst) (es : List Rat) (cds : List (Nat × Rat)) :
    collectUnique eps l ks (es, cds) = (gather eps en ks es, cds ++ ks.map fun k => (k, en k)) := by
  induction ks generalizing es cds with
  | nil => simp [collectUnique, gather]
  | cons k ks ih =>
    have hf : l.find? (fun p => decide (p.1 = k)) = some (k, en k) := by
      cases hf : l.find? (fun p => decide (p.1 = k)) with
      | none =>
        rw [List.find?_eq_none] at hf
        obtain ⟨p, hp, e⟩ := List.mem_map.1 (hk k (List.mem_cons_self ..))
        exact absurd (decide_eq_true e) (hf p hp)
      | some p =>
        have h1 : p.1 = k := by simpa using List.find?_some hf
        have h2 := hl p (List.mem_of_find?_eq_some hf)
        rw [h1] at h2
        rw [← h1, ← h1] at *
        cases p
        simp_all
    unfold collectUnique
    rw [hf]
    dsimp only
    rw [ih fun k' hk' => hk k' (List.mem_cons_of_mem _ hk')]
    simp [gather]

theorem energyDistribution_eq (eps : Rat) (en : Nat → Rat) (l : List (Nat × Rat)) (hl : ∀ p ∈ l, p.2 = en p.1) :
    energyDistribution eps l = (gather eps en (uniqueIndices l) []).map fun u =>
      (u, (uniqueIndices l).countP fun k => decide (absR (en k - u) < eps)) := by
  unfold energyDistribution
  rw [collectUnique_eq eps en l hl _ (fun k hk => ((uniqueIndices_spec l).2 k).1 hk)]
  simp [List.countP_map, Function.comp_def]

theorem gather_spec (eps : Rat) (en : Nat → Rat) (ks : List Nat) (es : List Rat) (h : es.Pairwise (· < ·))
    (hsep : ∀ u ∈ es, ∀ v ∈ es, u ≠ v → ¬ absR (u - v) < eps) :
    (gather eps en ks es).Pairwise (· < ·) ∧
    (∀ u ∈ gather eps en ks es, ∀ v ∈ gather eps en ks es, u ≠ v → ¬ absR (u - v) < eps) ∧
    (∀ u ∈ gather eps en ks es, u ∈ es ∨ ∃ k ∈ ks, u = en k) ∧ (∀ u ∈ es, u ∈ gather eps en ks es) ∧
    (0 < eps → ∀ k ∈ ks, ∃ u ∈ gather eps en ks es, absR (en k - u) < eps) := by
  have hsymm : ∀ a b : Rat, absR (a - b) = absR (b - a) := by
    intro a b; unfold absR; split_ifs <;> linarith
  induction ks generalizing es with
  | nil => exact ⟨h, hsep, fun u hu => Or.inl hu, fun u hu => hu, fun _ k hk => by simp at hk⟩
  | cons k ks ih =>
    have e : gather eps en (k :: ks) es =
        gather eps en ks (if !es.any fun u => decide (absR (en k - u) < eps) then setInsert (en k) es else es) := rfl
    by_cases hany : (es.any fun u => decide (absR (en k - u) < eps)) = true
    · rw [e, hany]
      obtain ⟨a1, a2, a3, a4, a5⟩ := ih es h hsep
      refine ⟨a1, a2, fun u hu => ?_, a4, fun hp k' hk' => ?_⟩
      · rcases a3 u hu with h | ⟨k', h1, h2⟩
        · exact Or.inl h
        · exact Or.inr ⟨k', List.mem_cons_of_mem _ h1, h2⟩
      · rcases List.mem_cons.1 hk' with rfl | hk'
        · obtain ⟨u, hu, hc⟩ := List.any_eq_true.1 hany
          exact ⟨u, a4 u hu, of_decide_eq_true hc⟩
        · exact a5 hp k' hk'
    · have hany' := hany
      rw [Bool.not_eq_true] at hany
      rw [e, hany]
      simp only [Bool.not_false, if_true]
      have hfar : ∀ u ∈ es, ¬ absR (en k - u) < eps := fun u hu hc =>
        hany' (List.any_eq_true.2 ⟨u, hu, decide_eq_true hc⟩)
      obtain ⟨a1, a2, a3, a4, a5⟩ := ih (setInsert (en k) es) (sorted_setInsert _ _ h) (by
        intro u hu v hv hne
        rcases (mem_setInsert _ _ _).1 hu with rfl | hu <;> rcases (mem_setInsert _ _ _).1 hv with rfl | hv
        · exact absurd rfl hne
        · exact hfar v hv
        · rw [hsymm]; exact hfar u hu
        · exact hsep u hu v hv hne)
      refine ⟨a1, a2, fun u hu => ?_, fun u hu => a4 u ((mem_setInsert _ _ _).2 (Or.inr hu)), fun hp k' hk' => ?_⟩
      · rcases a3 u hu with h | ⟨k', h1, h2⟩
        · rcases (mem_setInsert _ _ _).1 h with rfl | h
          · exact Or.inr ⟨k, List.mem_cons_self .., rfl⟩
          · exact Or.inl h
        · exact Or.inr ⟨k', List.mem_cons_of_mem _ h1, h2⟩
      · rcases List.mem_cons.1 hk' with rfl | hk'
        · refine ⟨en k', a4 _ ((mem_setInsert _ _ _).2 (Or.inl rfl)), ?_⟩
          unfold absR
          split_ifs <;> linarith
        · exact a5 hp k' hk'

/-- The energies are listed in increasing order and no two of them are closer than the margin. -/
theorem C40_separated (eps : Rat) (en : Nat → Rat) (l : List (Nat × Rat)) (hl : ∀ p ∈ l, p.2 = en p.1) :
    ((energyDistribution eps l).map Prod.fst).Pairwise (fun u v => u < v ∧ eps ≤ v - u) := by
  rw [energyDistribution_eq eps en l hl, List.map_map]
  obtain ⟨h1, h2, _⟩ := gather_spec eps en (uniqueIndices l) [] List.Pairwise.nil (by simp)
  have : (Prod.fst ∘ fun u => (u, (uniqueIndices l).countP fun k => decide (absR (en k - u) < eps))) = id := rfl
  rw [this, List.map_id]
  refine List.Pairwise.imp_of_mem ?_ h1
  intro u v hu hv hlt
  refine ⟨hlt, ?_⟩
  have := h2 u hu v hv (ne_of_lt hlt)
  unfold absR at this
  split_ifs at this <;> linarith

/-- Each listed degeneracy is the number of different charge indices whose energy is within the margin of the
listed energy: how often a charge distribution occurs in the input does not matter. -/
theorem C40_degeneracy (eps : Rat) (en : Nat → Rat) (l : List (Nat × Rat)) (hl : ∀ p ∈ l, p.2 = en p.1) (u : Rat) (g : Nat)
    (h : (u, g) ∈ energyDistribution eps l) :
    g = ((l.map Prod.fst).toFinset.filter fun k => -eps < en k - u ∧ en k - u < eps).card ∧ ∃ p ∈ l, p.2 = u := by
  rw [energyDistribution_eq eps en l hl, List.mem_map] at h
  obtain ⟨u', hu', e⟩ := h
  obtain ⟨rfl, rfl⟩ := Prod.mk.inj e
  obtain ⟨hs, hm⟩ := uniqueIndices_spec l
  have hnd : (uniqueIndices l).Nodup := hs.imp fun h => ne_of_lt h
  constructor
  · rw [List.countP_eq_length_filter, ← List.toFinset_card_of_nodup (hnd.filter _)]
    congr 1
    ext k
    simp only [List.mem_toFinset, List.mem_filter, Finset.mem_filter, hm k, decide_eq_true_eq]
    refine and_congr_right fun _ => ?_
    unfold absR
    constructor
    · intro h; split_ifs at h <;> constructor <;> linarith
    · rintro ⟨h1, h2⟩; split_ifs <;> linarith
  · obtain ⟨_, _, h3, _⟩ := gather_spec eps en (uniqueIndices l) [] List.Pairwise.nil (by simp)
    rcases h3 u' hu' with h | ⟨k, hk, rfl⟩
    · simp at h
    · obtain ⟨p, hp, rfl⟩ := List.mem_map.1 ((hm k).1 hk)
      exact ⟨p, hp, hl p hp⟩

/-- The energy of every given charge distribution is within the margin of a listed energy. -/
theorem C40_covered (eps : Rat) (heps : 0 < eps) (en : Nat → Rat) (l : List (Nat × Rat)) (hl : ∀ p ∈ l, p.2 = en p.1)
    (p : Nat × Rat) (hp : p ∈ l) : ∃ q ∈ energyDistribution eps l, -eps < p.2 - q.1 ∧ p.2 - q.1 < eps := by
  obtain ⟨_, _, _, _, h⟩ := gather_spec eps en (uniqueIndices l) [] List.Pairwise.nil (by simp)
  obtain ⟨u, hu, hc⟩ := h heps p.1 (((uniqueIndices_spec l).2 p.1).2 (List.mem_map_of_mem hp))
  refine ⟨_, by rw [energyDistribution_eq eps en l hl]; exact List.mem_map_of_mem hu, ?_⟩
  rw [hl p hp]
  unfold absR at hc
  dsimp only
  split_ifs at hc <;> constructor <;> linarith

/-- Neither the order nor the number of occurrences of the given charge distributions matters. -/
theorem C40_duplicates (eps : Rat) (en : Nat → Rat) (l l' : List (Nat × Rat)) (hl : ∀ p ∈ l, p.2 = en p.1)
    (h : ∀ p, p ∈ l ↔ p ∈ l') : energyDistribution eps l = energyDistribution eps l' := by
  have hl' : ∀ p ∈ l', p.2 = en p.1 := fun p hp => hl p ((h p).2 hp)
  rw [energyDistribution_eq eps en l hl, energyDistribution_eq eps en l' hl']
  obtain ⟨s1, m1⟩ := uniqueIndices_spec l
  obtain ⟨s2, m2⟩ := uniqueIndices_spec l'
  have hmem : ∀ k, k ∈ uniqueIndices l ↔ k ∈ uniqueIndices l' := by
    intro k
    rw [m1, m2, List.mem_map, List.mem_map]
    exact ⟨fun ⟨p, hp, e⟩ => ⟨p, (h p).1 hp, e⟩, fun ⟨p, hp, e⟩ => ⟨p, (h p).2 hp, e⟩⟩
  have : uniqueIndices l = uniqueIndices l' := by
    have hp : (uniqueIndices l).Perm (uniqueIndices l') :=
      (List.perm_ext_iff_of_nodup (s1.imp fun h => ne_of_lt h) (s2.imp fun h => ne_of_lt h)).2 hmem
    exact hp.eq_of_pairwise (fun a b _ _ hab hba => absurd (lt_trans hab hba) (lt_irrefl a)) s1 s2
  rw [this]

/-- If being within the margin is transitive on the given energies, every charge distribution is counted for
exactly one listed energy. -/
theorem C40_counted_once_partial (eps : Rat) (heps : 0 < eps) (en : Nat → Rat) (l : List (Nat × Rat)) (hl : ∀ p ∈ l, p.2 = en p.1)
    (htrans : ∀ p ∈ l, ∀ q ∈ l, ∀ r ∈ l, p.2 - q.2 < eps → q.2 - r.2 < eps → r.2 ≤ q.2 → q.2 ≤ p.2 → p.2 - r.2 < eps)
    (p : Nat × Rat) (hp : p ∈ l) : ∃! q, q ∈ energyDistribution eps l ∧ -eps < p.2 - q.1 ∧ p.2 - q.1 < eps := by
  obtain ⟨q, hq, h1, h2⟩ := C40_covered eps heps en l hl p hp
  refine ⟨q, ⟨hq, h1, h2⟩, ?_⟩
  rintro q' ⟨hq', h1', h2'⟩
  have hsep := C40_separated eps en l hl
  obtain ⟨_, a, ha, ea⟩ := C40_degeneracy eps en l hl q.1 q.2 hq
  obtain ⟨_, b, hb, eb⟩ := C40_degeneracy eps en l hl q'.1 q'.2 hq'
  have hdist : ∀ x ∈ energyDistribution eps l, ∀ y ∈ energyDistribution eps l, x.1 < y.1 → eps ≤ y.1 - x.1 := by
    intro x hx y hy hlt
    rw [List.pairwise_map] at hsep
    have htot : ∀ {L : List (Rat × Nat)}, L.Pairwise (fun u v => u.1 < v.1 ∧ eps ≤ v.1 - u.1) → x ∈ L → y ∈ L → eps ≤ y.1 - x.1 := by
      intro L hL hxL hyL
      induction hL with
      | nil => simp at hxL
      | cons hr _ ih =>
        rcases List.mem_cons.1 hxL with rfl | hx' <;> rcases List.mem_cons.1 hyL with rfl | hy'
        · exact absurd hlt (lt_irrefl _)
        · exact (hr y hy').2
        · exact absurd (lt_trans hlt (hr x hx').1) (lt_irrefl _)
        · exact ih hx' hy'
    exact htot hsep hx hy
  have hfun : ∀ x ∈ energyDistribution eps l, ∀ y ∈ energyDistribution eps l, x.1 = y.1 → x = y := by
    intro x hx y hy e
    rw [energyDistribution_eq eps en l hl] at hx hy
    obtain ⟨u, _, rfl⟩ := List.mem_map.1 hx
    obtain ⟨v, _, rfl⟩ := List.mem_map.1 hy
    simp only at e
    subst e
    rfl
  refine hfun q' hq' q hq ?_
  rcases lt_trichotomy q'.1 q.1 with hlt | he | hgt
  · exfalso
    have hd := hdist q' hq' q hq hlt
    -- `q'.1 < q.1`, both within the margin of `p.2`
    by_cases c1 : p.2 ≤ q'.1
    · linarith
    · by_cases c2 : q.1 ≤ p.2
      · linarith
      · have := htrans a ha p hp b hb (by rw [ea]; linarith) (by rw [eb]; linarith) (by rw [eb]; linarith) (by rw [ea]; linarith)
        rw [ea, eb] at this
        linarith
  · exact he
  · exfalso
    have hd := hdist q hq q' hq' hgt
    by_cases c1 : p.2 ≤ q.1
    · linarith
    · by_cases c2 : q'.1 ≤ p.2
      · linarith
      · have := htrans b hb p hp a ha (by rw [eb]; linarith) (by rw [ea]; linarith) (by rw [ea]; linarith) (by rw [eb]; linarith)
        rw [ea, eb] at this
        linarith

/-- Without this condition a charge distribution can be counted twice: three distributions, four counts. -/
theorem C40_counted_twice :
    energyDistribution 10 [(0, 0), (1, 12), (2, 6)] = [(0, 2), (12, 2)] := by decide +kernel

/-- `degeneracy(energy)` returns the position of the energy in the distribution instead of its degeneracy. -/
theorem C40_degeneracy_query :
    energyDistribution (1 / 1000) [(3, 1 / 2), (5, 1 / 2), (3, 1 / 2), (4, 1)] = [(1 / 2, 2), (1, 1)] ∧
      degeneracyOf (1 / 1000) (energyDistribution (1 / 1000) [(3, 1 / 2), (5, 1 / 2), (3, 1 / 2), (4, 1)]) (1 / 2) = some 0 ∧
      ∀ (eps : Rat) (d : List (Rat × Nat)) (u : Rat) (g : Nat) (rest : List (Rat × Nat)), 0 < eps → d = (u, g) :: rest →
        degeneracyOf eps d u = some 0 := by
  refine ⟨by decide +kernel, by decide +kernel, ?_⟩
  rintro eps d u g rest h rfl
  unfold degeneracyOf
  rw [List.findIdx?_cons, if_pos]
  simp only [decide_eq_true_eq]
  unfold absR
  split_ifs <;> linarith

/-- A function that gives the energies of the example. -/
example : ∀ p ∈ [((3 : Nat), (1 / 2 : Rat)), (5, 1 / 2), (3, 1 / 2), (4, 1)],
    p.2 = (fun k : Nat => if k = 4 then (1 : Rat) else 1 / 2) p.1 := by decide +kernel

end Verif.Sidb
