import Verif.SidbAnalysis.Results
import Mathlib.Data.List.Forall2
import Mathlib.Data.List.Perm.Basic
import Mathlib.Tactic.Linarith

/-!
# C64: ground states and equivalence of simulation results
-/
namespace Verif.SidbAnalysis

open Verif.Sidb

/-! ## Specification -/

/-- The charge distribution with index `k` is among the results and no result is lower in energy by the margin or
more. `en k` is the energy of the distribution with index `k`. -/
def IsGround (eps : Rat) (en : Nat → Rat) (l : List (Nat × Rat)) (k : Nat) : Prop :=
  (∃ p ∈ l, p.1 = k) ∧ ∀ q ∈ l, en k - q.2 < eps

/-! ## Minimum energy -/

theorem minElement_spec (l : List (Nat × Rat)) (best : Nat × Rat) :
    (minElement best l = best ∨ minElement best l ∈ l) ∧ (minElement best l).2 ≤ best.2 ∧
      ∀ q ∈ l, (minElement best l).2 ≤ q.2 := by
  induction l generalizing best with
  | nil => simp [minElement]
  | cons p l ih =>
    unfold minElement
    by_cases h : p.2 < best.2
    · rw [if_pos h]
      obtain ⟨h1, h2, h3⟩ := ih p
      refine ⟨Or.inr ?_, by linarith, ?_⟩
      · rcases h1 with h1 | h1
        · rw [h1]; exact List.mem_cons_self
        · exact List.mem_cons_of_mem _ h1
      · intro q hq
        rcases List.mem_cons.1 hq with rfl | hq
        · exact h2
        · exact h3 q hq
    · rw [if_neg h]
      obtain ⟨h1, h2, h3⟩ := ih best
      refine ⟨?_, h2, ?_⟩
      · rcases h1 with h1 | h1
        · exact Or.inl h1
        · exact Or.inr (List.mem_cons_of_mem _ h1)
      · intro q hq
        rcases List.mem_cons.1 hq with rfl | hq
        · linarith
        · exact h3 q hq

/-- The minimum energy is attained and is a lower bound; it is infinite for no results only. -/
theorem C64_minimum_energy (l : List (Nat × Rat)) :
    (minimumEnergy l = none ↔ l = []) ∧
      ∀ m, minimumEnergy l = some m → (∃ p ∈ l, p.2 = m) ∧ ∀ q ∈ l, m ≤ q.2 := by
  cases l with
  | nil => simp [minimumEnergy]
  | cons p l =>
    refine ⟨by simp [minimumEnergy], ?_⟩
    rintro m h
    obtain rfl : (minElement p l).2 = m := by simpa [minimumEnergy] using h
    obtain ⟨h1, h2, h3⟩ := minElement_spec l p
    refine ⟨⟨minElement p l, ?_, rfl⟩, ?_⟩
    · rcases h1 with h1 | h1
      · rw [h1]; exact List.mem_cons_self
      · exact List.mem_cons_of_mem _ h1
    · intro q hq
      rcases List.mem_cons.1 hq with rfl | hq
      · exact h2
      · exact h3 q hq

/-! ## Ground states -/

theorem groundstates_map (eps : Rat) (heps : 0 < eps) (en : Nat → Rat) (l : List (Nat × Rat)) (hl : ∀ p ∈ l, p.2 = en p.1) :
    ∃ c : Nat → Bool, (∀ k ∈ uniqueIndices l, c k = true ↔ IsGround eps en l k) ∧
      groundstates eps l = ((uniqueIndices l).filter c).map fun k => (k, en k) := by
  unfold groundstates
  cases hm : minimumEnergy l with
  | none =>
    rw [(C64_minimum_energy l).1] at hm
    subst hm
    exact ⟨fun _ => true, by simp [uniqueIndices], by simp [uniqueIndices]⟩
  | some m =>
    obtain ⟨⟨p0, hp0, e0⟩, hmin⟩ := (C64_minimum_energy l).2 m hm
    refine ⟨fun k => decide (absR (en k - m) < eps), ?_, ?_⟩
    · intro k hk
      obtain ⟨p, hp, rfl⟩ := List.mem_map.1 (((uniqueIndices_spec l).2 k).1 hk)
      have hge := hmin p hp
      rw [hl p hp] at hge
      rw [decide_eq_true_eq]
      unfold absR
      constructor
      · intro h
        refine ⟨⟨p, hp, rfl⟩, fun q hq => ?_⟩
        have := hmin q hq
        split_ifs at h <;> linarith
      · rintro ⟨_, h⟩
        have := h p0 hp0
        rw [e0] at this
        split_ifs <;> linarith
    · have : ∀ ks : List Nat, (∀ k ∈ ks, k ∈ l.map Prod.fst) →
          (ks.filterMap fun k => l.find? fun p => decide (p.1 = k ∧ absR (p.2 - m) < eps)) =
            (ks.filter fun k => decide (absR (en k - m) < eps)).map fun k => (k, en k) := by
        intro ks
        induction ks with
        | nil => simp
        | cons k ks ih =>
          intro hk
          have ih' := ih fun k' hk' => hk k' (List.mem_cons_of_mem _ hk')
          rw [List.filterMap_cons, List.filter_cons]
          by_cases hc : absR (en k - m) < eps
          · have hf : (l.find? fun p => decide (p.1 = k ∧ absR (p.2 - m) < eps)) = some (k, en k) := by
              cases hf : l.find? (fun p => decide (p.1 = k ∧ absR (p.2 - m) < eps)) with
              | none =>
                rw [List.find?_eq_none] at hf
                obtain ⟨p, hp, e⟩ := List.mem_map.1 (hk k List.mem_cons_self)
                exact absurd (decide_eq_true ⟨e, by rw [hl p hp, e]; exact hc⟩) (hf p hp)
              | some p =>
                have h1 : p.1 = k ∧ absR (p.2 - m) < eps := by simpa using List.find?_some hf
                have h2 := hl p (List.mem_of_find?_eq_some hf)
                rw [h1.1] at h2
                rw [← h2, ← h1.1]
            rw [hf, if_pos (decide_eq_true hc), List.map_cons, ← ih']
          · have hf : (l.find? fun p => decide (p.1 = k ∧ absR (p.2 - m) < eps)) = none := by
              rw [List.find?_eq_none]
              intro p hp h
              have h1 := of_decide_eq_true h
              rw [hl p hp, h1.1] at h1
              exact hc h1.2
            rw [hf, if_neg (by simpa using hc), ← ih']
      exact this _ fun k hk => ((uniqueIndices_spec l).2 k).1 hk

/-- `groundstates()` lists every ground state exactly once, however often it is among the results, and nothing
else. -/
theorem C64_groundstates (eps : Rat) (heps : 0 < eps) (en : Nat → Rat) (l : List (Nat × Rat)) (hl : ∀ p ∈ l, p.2 = en p.1) :
    ((groundstates eps l).map Prod.fst).Nodup ∧
      (∀ k, k ∈ (groundstates eps l).map Prod.fst ↔ IsGround eps en l k) ∧ ∀ p ∈ groundstates eps l, p ∈ l := by
  obtain ⟨c, hc, e⟩ := groundstates_map eps heps en l hl
  obtain ⟨hs, hm⟩ := uniqueIndices_spec l
  have e' : (groundstates eps l).map Prod.fst = (uniqueIndices l).filter c := by
    rw [e, List.map_map]
    exact List.map_id _
  refine ⟨?_, fun k => ?_, ?_⟩
  · rw [e']
    exact (hs.imp fun h => ne_of_lt h).filter _
  · rw [e', List.mem_filter]
    constructor
    · rintro ⟨h1, h2⟩
      exact (hc k h1).1 h2
    · intro h
      obtain ⟨p, hp, rfl⟩ := h.1
      have : p.1 ∈ uniqueIndices l := (hm p.1).2 (List.mem_map_of_mem hp)
      exact ⟨this, (hc _ this).2 h⟩
  · intro p hp
    rw [e] at hp
    obtain ⟨k, hk, rfl⟩ := List.mem_map.1 hp
    obtain ⟨q, hq, rfl⟩ := List.mem_map.1 ((hm k).1 (List.mem_filter.1 hk).1)
    rw [← hl q hq]
    exact hq

/-- In a release build `is_ground_state` says that the heuristic and the exact simulation have the same ground
states, and that there is one. -/
theorem C64_is_ground_state (eps : Rat) (heps : 0 < eps) (en en' : Nat → Rat) (h e : List (Nat × Rat))
    (hh : ∀ p ∈ h, p.2 = en p.1) (he : ∀ p ∈ e, p.2 = en' p.1) :
    ∃ b, isGroundState false eps h e = some b ∧
      (b = true ↔ e ≠ [] ∧ ∀ k, IsGround eps en h k ↔ IsGround eps en' e k) := by
  unfold isGroundState
  by_cases h0 : e = []
  · subst h0
    exact ⟨false, rfl, by simp⟩
  rw [if_neg (by simpa using h0)]
  obtain ⟨n1, m1, _⟩ := C64_groundstates eps heps en h hh
  obtain ⟨n2, m2, _⟩ := C64_groundstates eps heps en' e he
  simp only [Bool.false_and, Bool.false_eq_true, if_false]
  have key : ((groundstates eps e).map Prod.fst).length = ((groundstates eps h).map Prod.fst).length →
      (((groundstates eps e).all fun c => (groundstates eps h).any fun d => decide (c.1 = d.1)) = true ↔
        ∀ k, IsGround eps en h k ↔ IsGround eps en' e k) := by
    intro hlen
    have hsub : ((groundstates eps e).all fun c => (groundstates eps h).any fun d => decide (c.1 = d.1)) = true ↔
        (groundstates eps e).map Prod.fst ⊆ (groundstates eps h).map Prod.fst := by
      simp only [List.all_eq_true, List.any_eq_true, decide_eq_true_eq]
      constructor
      · intro H k hk
        obtain ⟨c, hc, rfl⟩ := List.mem_map.1 hk
        obtain ⟨d, hd, e1⟩ := H c hc
        rw [e1]
        exact List.mem_map_of_mem hd
      · intro H c hc
        obtain ⟨d, hd, e1⟩ := List.mem_map.1 (H (List.mem_map_of_mem hc))
        exact ⟨d, hd, e1.symm⟩
    rw [hsub]
    constructor
    · intro H k
      have hp : ((groundstates eps e).map Prod.fst).Perm ((groundstates eps h).map Prod.fst) :=
        (List.subperm_of_subset n2 H).perm_of_length_le (le_of_eq hlen.symm)
      rw [← m1, ← m2]
      exact hp.symm.mem_iff
    · intro H k hk
      exact (m1 k).2 ((H k).2 ((m2 k).1 hk))
  by_cases hlen : (groundstates eps e).length = (groundstates eps h).length
  · rw [if_neg (by simpa using hlen)]
    refine ⟨_, rfl, ?_⟩
    rw [key (by simpa using hlen)]
    simp [h0]
  · rw [if_pos (by simpa using hlen)]
    refine ⟨false, rfl, ?_⟩
    simp only [Bool.false_eq_true, false_iff, not_and]
    intro _ H
    apply hlen
    have hp : ((groundstates eps e).map Prod.fst).Perm ((groundstates eps h).map Prod.fst) :=
      (List.perm_ext_iff_of_nodup n2 n1).2 fun k => by rw [m1, m2]; exact (H k).symm
    simpa using hp.length_eq

/-- In a debug build the call aborts if the heuristic missed the ground state and found more distributions of its
own lowest energy than there are ground states. -/
theorem C64_false_abort :
    let exact := [(1, -2), (2, -1), (4, -1)]
    let heuristic := [(2, -1), (4, -1)]
    (∀ p ∈ heuristic, p ∈ exact) ∧ isGroundState true (1 / 1000000) heuristic exact = none ∧
      isGroundState false (1 / 1000000) heuristic exact = some false := by decide +kernel

example : isGroundState false (1 / 1000000) [(1, -2), (7, 3), (1, -2)] [(1, -2), (2, -1), (4, -1)] = some true := by decide +kernel

example : groundstates (1 / 1000000) [(7, 3), (5, -2), (1, -2), (5, -2)] = [(1, -2), (5, -2)] := by decide +kernel

/-! ## Equivalence of results -/

theorem insertByIdx_perm (d : Dist) (l : List Dist) : (insertByIdx d l).Perm (d :: l) := by
  induction l with
  | nil => exact List.Perm.refl _
  | cons e l ih =>
    unfold insertByIdx
    split_ifs
    · exact List.Perm.refl _
    · exact (List.Perm.cons e ih).trans (List.Perm.swap d e l)

theorem sortByIdx_perm (l : List Dist) : (sortByIdx l).Perm l := by
  induction l with
  | nil => exact List.Perm.refl _
  | cons d l ih => exact (insertByIdx_perm d _).trans (List.Perm.cons d ih)

theorem insertByIdx_sorted (d : Dist) (l : List Dist) (h : l.Pairwise fun a b => a.idx ≤ b.idx) :
    (insertByIdx d l).Pairwise fun a b => a.idx ≤ b.idx := by
  induction l with
  | nil => simp [insertByIdx]
  | cons e l ih =>
    rw [List.pairwise_cons] at h
    unfold insertByIdx
    split_ifs with hc
    · rw [List.pairwise_cons, List.pairwise_cons]
      refine ⟨fun b hb => ?_, h⟩
      rcases List.mem_cons.1 hb with rfl | hb
      · omega
      · have := h.1 b hb
        omega
    · rw [List.pairwise_cons]
      refine ⟨fun b hb => ?_, ih h.2⟩
      rcases List.mem_cons.1 ((insertByIdx_perm d l).mem_iff.1 hb) with rfl | hb
      · omega
      · exact h.1 b hb

theorem sortByIdx_sorted (l : List Dist) : (sortByIdx l).Pairwise fun a b => a.idx ≤ b.idx := by
  induction l with
  | nil => exact List.Pairwise.nil
  | cons d l ih => exact insertByIdx_sorted d _ ih

theorem numIndices_eq (l : List Dist) : numIndices l = l.length ↔ (l.map Dist.idx).Nodup := by
  have e : l.foldl (fun acc d => setInsert d.idx acc) [] = uniqueIndices (l.map fun d => (d.idx, d.energy)) := by
    unfold uniqueIndices
    rw [List.foldl_map]
  obtain ⟨hs, hm⟩ := uniqueIndices_spec (l.map fun d => (d.idx, d.energy))
  have hm' : ∀ k, k ∈ uniqueIndices (l.map fun d => (d.idx, d.energy)) ↔ k ∈ l.map Dist.idx := by
    intro k
    rw [hm k, List.map_map]
    rfl
  unfold numIndices
  rw [e]
  have hnd : (uniqueIndices (l.map fun d => (d.idx, d.energy))).Nodup := hs.imp fun h => ne_of_lt h
  constructor
  · intro h
    have hsub : (uniqueIndices (l.map fun d => (d.idx, d.energy))).Subperm (l.map Dist.idx) :=
      List.subperm_of_subset hnd fun k hk => (hm' k).1 hk
    exact (hsub.perm_of_length_le (by simp [h])).nodup_iff.1 hnd
  · intro h
    have := ((List.perm_ext_iff_of_nodup hnd h).2 hm').length_eq
    simpa using this

theorem all_zip_forall₂ {α β : Type} (f : α → β → Bool) (a : List α) (b : List β) (h : a.length = b.length) :
    ((a.zip b).all fun p => f p.1 p.2) = true ↔ List.Forall₂ (fun x y => f x y = true) a b := by
  induction a generalizing b with
  | nil =>
    cases b with
    | nil => simp
    | cons y b => simp at h
  | cons x a ih =>
    cases b with
    | nil => simp at h
    | cons y b =>
      rw [List.zip_cons_cons, List.all_cons, List.forall₂_cons, Bool.and_eq_true, ih b (by simpa using h)]

/-- The energies differ by no more than the margin and all charge states agree. -/
def Agree (eps : Rat) (a b : Dist) : Prop :=
  a.charges = b.charges ∧ a.energy - b.energy ≤ eps ∧ b.energy - a.energy ≤ eps

theorem sameDist_iff (eps : Rat) (a b : Dist) : sameDist eps a b = true ↔ Agree eps a b := by
  unfold sameDist Agree absR
  simp only [Bool.and_eq_true, decide_eq_true_eq, not_lt]
  rw [and_comm]
  refine and_congr_right fun _ => ?_
  split_ifs
  · constructor
    · intro h; constructor <;> linarith
    · rintro ⟨h1, h2⟩; linarith
  · constructor
    · intro h; constructor <;> linarith
    · rintro ⟨h1, h2⟩; linarith

/-- If charge indices identify charge distributions, the check succeeds if and only if no distribution occurs twice
in a result and the two results consist of the same distributions, in any order, with energies within the margin. -/
theorem C64_equivalence (eps : Rat) (r1 r2 : List Dist)
    (hidx : ∀ a ∈ r1 ++ r2, ∀ b ∈ r1 ++ r2, a.idx = b.idx ↔ a.charges = b.charges)
    (hn : ∀ a ∈ r1 ++ r2, ∀ b ∈ r1 ++ r2, a.charges.length = b.charges.length) :
    checkEquivalence eps r1 r2 = true ↔
      (r1.map Dist.charges).Nodup ∧ (r2.map Dist.charges).Nodup ∧ ∃ r, r.Perm r2 ∧ List.Forall₂ (Agree eps) r1 r := by
  have hnodup : ∀ l : List Dist, (∀ a ∈ l, a ∈ r1 ++ r2) → ((l.map Dist.idx).Nodup ↔ (l.map Dist.charges).Nodup) := by
    intro l hl
    unfold List.Nodup
    rw [List.pairwise_map, List.pairwise_map]
    constructor
    · exact fun h => h.imp_of_mem fun {a b} ha hb hne hc => hne ((hidx a (hl a ha) b (hl b hb)).2 hc)
    · exact fun h => h.imp_of_mem fun {a b} ha hb hne hc => hne ((hidx a (hl a ha) b (hl b hb)).1 hc)
  have hn1 := hnodup r1 fun a ha => List.mem_append_left _ ha
  have hn2 := hnodup r2 fun a ha => List.mem_append_right _ ha
  have hfront : frontsDiffer r1 r2 = false := by
    cases r1 with
    | nil => rfl
    | cons a l =>
      cases r2 with
      | nil => rfl
      | cons b l' => simpa [frontsDiffer] using hn a (by simp) b (by simp)
  unfold checkEquivalence
  rw [hfront]
  by_cases hlen : r1.length = r2.length
  swap
  · rw [if_pos hlen]
    simp only [Bool.false_eq_true, false_iff, not_and, not_exists]
    intro _ _ r hp hf
    exact hlen (hf.length_eq.trans hp.length_eq)
  rw [if_neg (by simpa using hlen)]
  simp only [Bool.false_eq_true, if_false]
  by_cases d1 : numIndices r1 = r1.length
  swap
  · rw [if_pos d1]
    rw [numIndices_eq, hn1] at d1
    simp [d1]
  rw [if_neg (by simpa using d1)]
  by_cases d2 : numIndices r2 = r2.length
  swap
  · rw [if_pos d2]
    rw [numIndices_eq, hn2] at d2
    simp [d2]
  rw [if_neg (by simpa using d2)]
  rw [numIndices_eq] at d1 d2
  have p1 := sortByIdx_perm r1
  have p2 := sortByIdx_perm r2
  rw [all_zip_forall₂ (sameDist eps) _ _ (by rw [p1.length_eq, p2.length_eq, hlen])]
  simp only [sameDist_iff]
  constructor
  · intro h
    refine ⟨hn1.1 d1, hn2.1 d2, ?_⟩
    obtain ⟨r, hf, hp⟩ := List.perm_comp_forall₂ p1.symm h
    exact ⟨r, hp.trans p2, hf⟩
  · rintro ⟨_, _, r, hp, hf⟩
    obtain ⟨s, hf', hp'⟩ := List.perm_comp_forall₂ p1 hf
    -- `s` is the matched second result in the order of the sorted first one
    have hps : s.Perm (sortByIdx r2) := hp'.trans (hp.trans p2.symm)
    have hidxs : s.map Dist.idx = (sortByIdx r1).map Dist.idx := by
      have : ∀ (u v : List Dist), (∀ a ∈ u, a ∈ r1 ++ r2) → (∀ a ∈ v, a ∈ r1 ++ r2) → List.Forall₂ (Agree eps) u v →
          v.map Dist.idx = u.map Dist.idx := by
        intro u v hu hv hf
        induction hf with
        | nil => rfl
        | cons hab _ ih =>
          rw [List.map_cons, List.map_cons, ih (fun a ha => hu a (List.mem_cons_of_mem _ ha))
            (fun a ha => hv a (List.mem_cons_of_mem _ ha)),
            (hidx _ (hu _ List.mem_cons_self) _ (hv _ List.mem_cons_self)).2 hab.1]
      exact this _ _ (fun a ha => List.mem_append_left _ (p1.mem_iff.1 ha))
        (fun a ha => List.mem_append_right _ (p2.mem_iff.1 (hps.mem_iff.1 ha))) hf'
    have hsorted : s.Pairwise fun a b => a.idx ≤ b.idx := by
      have := sortByIdx_sorted r1
      rw [← List.pairwise_map (f := Dist.idx) (R := fun a b => a ≤ b)] at this ⊢
      rw [hidxs]
      exact this
    have hinj : ∀ a ∈ s, ∀ b ∈ s, a.idx = b.idx → a = b := by
      intro a ha b hb hab
      have hnd : (s.map Dist.idx).Nodup := ((hps.trans p2).map Dist.idx).nodup_iff.2 d2
      exact List.inj_on_of_nodup_map hnd ha hb hab
    have : s = sortByIdx r2 := hps.eq_of_pairwise
      (fun a b ha hb hab hba => hinj a ha b (hps.mem_iff.2 hb) (by omega)) hsorted (sortByIdx_sorted r2)
    rw [← this]
    exact hf'

example : checkEquivalence (1 / 1000000) [⟨1, -2, [.neu, .neg]⟩, ⟨2, -1, [.neg, .neu]⟩]
    [⟨2, -1, [.neg, .neu]⟩, ⟨1, -2, [.neu, .neg]⟩] = true := by decide +kernel

example : checkEquivalence (1 / 1000000) [⟨1, -2, [.neu, .neg]⟩] [⟨1, -1, [.neu, .neg]⟩] = false := by decide +kernel

end Verif.SidbAnalysis
