import Verif.Sidb.GssMerge
import Verif.Sidb.PotLemmas

/-!
# The construction of the ground state space from the initial clustering to the top cluster
-/
namespace Verif.Sidb.Gss

open Verif.Sidb Cluster

/-- The arguments of the construction: the hierarchy is one of the SiDBs of the layout, the base is two or three, and
hash sets are iterated in some order. -/
structure Setting (E : Env) (P : Params) (top : Cluster) : Prop where
  phys : E.Physical
  sidbs : top.sidbs.Perm (List.range E.n)
  base : P.base = 2 ∨ P.base = 3
  reorder : ∀ l, (P.reorder l).Perm l
  reorderStates : ∀ l, (P.reorderStates l).Perm l
  children : top.children ≠ []

variable {E : Env} {P : Params} {top : Cluster}

theorem Setting.nodup (h : Setting E P top) : top.sidbs.Nodup := h.sidbs.nodup_iff.mpr List.nodup_range

theorem Setting.lt (h : Setting E P top) : ∀ i ∈ top.sidbs, i < E.n := fun i hi => by
  simpa using h.sidbs.mem_iff.mp hi

theorem single_inj {q q' : Charge} (h : Multiset.single q = Multiset.single q') : q = q' := by
  cases q <;> cases q' <;> simp [Multiset.single] at h <;> rfl

theorem mem_leafProjs {base k j : Nat} {p : Proj} (hb : base = 2 ∨ base = 3) :
    p ∈ leafProjs E base k j ↔ ∃ q ∈ chargesOf base, p = ⟨leafPot E k j q, .single q⟩ := by
  unfold leafProjs
  rw [mem_ordered, List.mem_map]
  rcases hb with rfl | rfl
  · simp only [chargesOf, leafPot]
    constructor <;> rintro ⟨q, hq, rfl⟩ <;> refine ⟨q, ?_, rfl⟩ <;> simp at hq ⊢ <;> tauto
  · simp only [chargesOf, leafPot]
    constructor <;> rintro ⟨q, hq, rfl⟩ <;> refine ⟨q, ?_, rfl⟩ <;> simp at hq ⊢ <;> tauto

theorem lowest_eq {o : List Proj} {p : Proj} (hs : Sorted o) (hp : p ∈ o) (h : ∀ q ∈ o, p.pot ≤ q.pot) : lowest o = p.pot := by
  obtain ⟨h1, q, hq, e⟩ := lowest_spec hs hp
  exact le_antisymm h1 (e ▸ h q hq)

theorem highest_max {o : List Proj} {p : Proj} (hs : Sorted o) (hp : p ∈ o) (h : ∀ q ∈ o, q.pot ≤ p.pot) :
    highest o = p.pot := by
  obtain ⟨h1, q, hq, e⟩ := highest_spec hs hp
  exact le_antisymm (e ▸ h q hq) h1

theorem leaf_lowest (hE : E.Physical) {base k j : Nat} (hb : base = 2 ∨ base = 3) (hjk : j ≠ k) :
    lowest (leafProjs E base k j) = -(E.pot k j * (((if base = 3 then Charge.pos else .neu : Charge)).sign : Rat)) := by
  have hn := hE.nonneg k j
  have hs : Sorted (leafProjs E base k j) := ordered_sorted _
  rw [lowest_eq (p := ⟨leafPot E k j (if base = 3 then .pos else .neu), .single (if base = 3 then .pos else .neu)⟩) hs]
  · rcases hb with rfl | rfl <;> simp [leafPot, hjk, project, Charge.sign]
  · rw [mem_leafProjs hb]
    rcases hb with rfl | rfl <;> exact ⟨_, by simp [chargesOf], rfl⟩
  · intro q hq
    obtain ⟨c, hc, rfl⟩ := (mem_leafProjs hb).mp hq
    rcases hb with rfl | rfl
    · simp [chargesOf] at hc
      rcases hc with rfl | rfl <;> simp [leafPot, hjk, project] <;> linarith
    · cases c <;> simp [leafPot, hjk, project] <;> linarith

theorem leaf_highest (hE : E.Physical) {base k j : Nat} (hb : base = 2 ∨ base = 3) (hjk : j ≠ k) :
    highest (leafProjs E base k j) = -(E.pot k j * ((Charge.neg.sign : Int) : Rat)) := by
  have hn := hE.nonneg k j
  have hs : Sorted (leafProjs E base k j) := ordered_sorted _
  rw [highest_max (p := ⟨leafPot E k j .neg, .single .neg⟩) hs]
  · simp [leafPot, hjk, project, Charge.sign]
  · rw [mem_leafProjs hb]
    rcases hb with rfl | rfl <;> exact ⟨_, by simp [chargesOf], rfl⟩
  · intro q hq
    obtain ⟨c, hc, rfl⟩ := (mem_leafProjs hb).mp hq
    cases c <;> simp [leafPot, hjk, project] <;> linarith

theorem range_sum (n : Nat) (f : Nat → Rat) : ∑ j ∈ Finset.range n, f j = ((List.range n).map f).sum := by
  induction n with
  | zero => rfl
  | succ n ih => rw [Finset.sum_range_succ, List.range_succ, List.map_append, List.sum_append, ih]; simp

theorem scratch_split (hE : E.Physical) (q : Charge) {i : Nat} (hi : i < E.n) :
    -(E.fromScratch (fun _ => q) i - E.defectPot i) =
      (((List.range E.n).filter fun j => j ≠ i).map fun j => -(E.pot j i * (q.sign : Rat))).sum := by
  rw [fromScratch_eq, potential]
  have h1 : (∑ j ∈ Finset.range E.n, E.pot i j * (q.sign : Rat)) = ((List.range E.n).map fun j => E.pot j i * (q.sign : Rat)).sum := by
    rw [← range_sum]
    exact Finset.sum_congr rfl fun j _ => by rw [hE.symm]
  rw [h1, sum_split List.nodup_range (List.mem_range.mpr hi), hE.diag]
  have h2 : ∀ l : List Nat, (l.map fun j => -(E.pot j i * (q.sign : Rat))).sum = -(l.map fun j => E.pot j i * (q.sign : Rat)).sum := by
    intro l
    induction l with
    | nil => simp
    | cons a t ih => simp only [List.map_cons, List.sum_cons, ih]; ring
  rw [h2]
  ring

theorem initial_mem (h : Setting E P top) {c : Cluster} (hc : c ∈ (initial E P top).clustering) :
    ∃ k, c = .leaf k ∧ k < E.n := by
  have := (h.reorder (leaves top)).mem_iff.mp hc
  obtain ⟨k, hk, rfl⟩ := List.mem_map.mp this
  exact ⟨k, rfl, h.lt k hk⟩

theorem initial_recv (h : Setting E P top) : RecvOk (initial E P top) := by
  intro c hc i hi
  obtain ⟨k, rfl, hk⟩ := initial_mem h hc
  simp only [sidbs, List.mem_singleton] at hi
  subst hi
  change leafRecv E P.base i = _
  have hp : ((initial E P top).others (.leaf i)).Perm (((List.range E.n).filter fun j => j ≠ i).map .leaf) := by
    refine ((h.reorder (leaves top)).filter _).trans ?_
    refine ((h.sidbs.map Cluster.leaf).filter _).trans ?_
    rw [List.filter_map]
    refine List.Perm.of_eq ?_
    congr 1
    refine List.filter_congr fun j _ => ?_
    simp
  rw [Bounds.sum_perm (hp.map _), List.map_map, Bounds.sum_map]
  unfold leafRecv
  simp only
  congr 1
  · rw [scratch_split h.phys _ hk]
    refine sum_map_congr fun j hj => ?_
    have hji : i ≠ j := fun e => by simpa [e] using (List.mem_filter.mp hj).2
    exact (leaf_lowest h.phys h.base hji).symm
  · rw [scratch_split h.phys _ hk]
    refine sum_map_congr fun j hj => ?_
    have hji : i ≠ j := fun e => by simpa [e] using (List.mem_filter.mp hj).2
    exact (leaf_highest h.phys h.base hji).symm

theorem initial_inv (h : Setting E P top) : Inv E P top (initial E P top) := by
  refine ⟨cut_perm (cut_leaves top) (h.reorder _), initial_recv h, ?_, ?_, ?_⟩
  · intro c hc
    obtain ⟨k, rfl, hk⟩ := initial_mem h hc
    refine ⟨?_, ?_, ?_, ?_, ?_, fun hh => absurd rfl hh⟩
    · change ((leafSpace E P.base k).map ChargeState.ms).Nodup
      unfold leafSpace
      rw [List.map_map]
      rcases h.base with e | e <;> rw [e] <;> simp [chargesOf, Function.comp_def, Multiset.single]
    · intro i; exact ordered_sorted _
    · intro x hx i _
      obtain ⟨q, hq, rfl⟩ := List.mem_map.mp (show x ∈ (chargesOf P.base).map _ from hx)
      exact ⟨⟨leafPot E k i q, .single q⟩, (mem_leafProjs h.base).mpr ⟨q, hq, rfl⟩, rfl⟩
    · intro j hj x hx
      obtain ⟨q, hq, rfl⟩ := List.mem_map.mp (show x ∈ (chargesOf P.base).map _ from hx)
      exact ⟨q, hq, rfl⟩
    · intro k' hk' j p hp q hq
      cases hk'
      obtain ⟨q', hq', rfl⟩ := (mem_leafProjs h.base).mp (show p ∈ leafProjs E P.base k j from hp)
      rw [single_inj hq]
  · intro c hc d hd
    obtain ⟨k, rfl, hk⟩ := initial_mem h hc
    simp [strict, Cluster.children] at hd
  · intro _
    have := h.children
    cases top with
    | leaf i => exact absurd rfl this
    | one i => rfl
    | node l r => rfl

theorem initial_sig (h : Setting E P top) {σ : Nat → Charge} (hσ : ∀ i < E.n, Admissible P.base (σ i)) :
    Sig E σ (initial E P top) := by
  have hq : ∀ k < E.n, σ k ∈ chargesOf P.base := by
    intro k hk
    have := hσ k hk
    rcases h.base with e | e <;> rw [e] at this ⊢ <;> simp [Admissible, chargesOf] at this ⊢ <;> tauto
  have hm : ∀ k, msOf σ [k] = .single (σ k) := by
    intro k
    cases e : σ k <;> simp [msOf, e, Multiset.single]
  refine ⟨?_, ?_, ?_, ?_⟩
  · intro c hc
    obtain ⟨k, rfl, hk⟩ := initial_mem h hc
    refine ⟨_, List.mem_map.mpr ⟨σ k, hq k hk, rfl⟩, (hm k).symm, fun hh => absurd rfl hh⟩
  · intro c hc i hi
    obtain ⟨k, rfl, hk⟩ := initial_mem h hc
    have hmem : (⟨leafPot E k i (σ k), .single (σ k)⟩ : Proj) ∈ leafProjs E P.base k i :=
      (mem_leafProjs h.base).mpr ⟨_, hq k hk, rfl⟩
    have hc : contrib E σ [k] i = leafPot E k i (σ k) := by
      simp only [contrib, List.map_cons, List.map_nil, List.sum_cons, List.sum_nil, add_zero, leafPot]
      by_cases e : k = i
      · subst e; simp
      · rw [if_neg e, if_neg (Ne.symm e)]
    refine ⟨_, hmem, _, hmem, (hm k).symm, (hm k).symm, ?_, ?_⟩
    · change _ ≤ contrib E σ [k] i; rw [hc]
    · change contrib E σ [k] i ≤ _; rw [hc]
  · intro c hc d hd
    obtain ⟨k, rfl, hk⟩ := initial_mem h hc
    simp [strict, Cluster.children] at hd
  · intro c hc d hd
    obtain ⟨k, rfl, hk⟩ := initial_mem h hc
    simp [strict, Cluster.children] at hd

/-! ## The merge loop -/

theorem cut_count {t : Cluster} {L : List Cluster} (h : Cut t L) : (L.map count).sum ≤ t.count := by
  induction t generalizing L with
  | leaf i => simp only [Cut] at h; simp [h]
  | one i => simp only [Cut] at h; rcases h with h | h <;> simp [h, count]
  | node l r hl hr =>
    rcases h with h | ⟨A, B, h, hA, hB⟩
    · simp [h]
    · rw [(h.map count).sum_eq, List.map_append, List.sum_append, count]
      have := hl hA
      have := hr hB
      omega

theorem count_children {p : Cluster} (h : p.children ≠ []) : p.count = (p.children.map count).sum + 1 := by
  cases p <;> simp [Cluster.children, count] at *

theorem merge_of {s : State} {p : Cluster} (h : Setting E P top) (hi : Inv E P top s)
    (hp : smallest (s.clustering.filterMap top.parent?) = some p) : ∃ L, Merge E P top s p L := by
  obtain ⟨L, h1, h2, _⟩ := smallest_children hi.cut h.nodup hp
  refine ⟨L, hi, h.nodup, h1, h2, ?_, h.reorder, h.reorderStates⟩
  obtain ⟨c, _, hcp⟩ := List.mem_filterMap.mp (smallest_spec hp).1
  intro e
  have := (parent_spec hcp).2
  rw [e] at this
  cases this

/-- The result of the construction. -/
def Final (E : Env) (P : Params) (top : Cluster) (s : State) : Prop :=
  s.space top = [] ∨ (Inv E P top s ∧ s.clustering = [top])

theorem mergeLoop_inv (h : Setting E P top) {k : Nat} {s s' : State} (hi : Inv E P top s)
    (hr : mergeLoop E P top k s = some s') : Final E P top s' := by
  induction k generalizing s with
  | zero => simp [mergeLoop] at hr
  | succ k ih =>
    simp only [mergeLoop] at hr
    split_ifs at hr with e
    · cases hr; exact Or.inr ⟨hi, e⟩
    · cases hp : smallest (s.clustering.filterMap top.parent?) with
      | none => rw [hp] at hr; simp at hr
      | some p =>
        obtain ⟨L, hm⟩ := merge_of h hi hp
        rw [hp] at hr
        simp only at hr
        split_ifs at hr with he
        · cases hr; exact Or.inl hm.emptyTop
        · rw [Option.bind_eq_some_iff] at hr
          obtain ⟨⟨t, fl⟩, h1, hr⟩ := hr
          have hu := updateClusters_upd h.nodup hm.invMerged (fun c hc => hc) h1
          simp only at hr
          split_ifs at hr
          · exact ih hu.inv hr
          · rw [Option.bind_eq_some_iff] at hr
            obtain ⟨u, h2, hr⟩ := hr
            exact ih (fixpoint_inv h.nodup hu.inv h2).1 hr

theorem mergeLoop_some (h : Setting E P top) {σ : Nat → Charge} (hk : Keepable E P top σ) {k : Nat} {s : State}
    (hi : Inv E P top s) (hs : Sig E σ s) (hf : top.count < k + (s.clustering.map count).sum) :
    ∃ s', mergeLoop E P top k s = some s' ∧ Inv E P top s' ∧ s'.clustering = [top] ∧ Sig E σ s' := by
  induction k generalizing s with
  | zero => have := cut_count hi.cut; omega
  | succ k ih =>
    simp only [mergeLoop]
    by_cases e : s.clustering = [top]
    · rw [if_pos e]; exact ⟨s, rfl, hi, e, hs⟩
    · rw [if_neg e]
      obtain ⟨p, hp⟩ := smallest_defined hi.cut h.nodup e
      obtain ⟨L, hm⟩ := merge_of h hi hp
      obtain ⟨s1, hne⟩ := hm.sigMerged hk hs
      rw [hp]
      simp only
      rw [if_neg (by simpa using hne)]
      obtain ⟨t, fl, h1, h2⟩ := updateClusters_some (skip := some p) hk hm.invMerged s1 (fun c hc => hc)
      have hu := updateClusters_upd h.nodup hm.invMerged (fun c hc => hc) h1
      have hcount : (((merged E P s p).clustering).map count).sum = (s.clustering.map count).sum + 1 := by
        rw [(hm.clustering.map count).sum_eq, (hm.perm.map count).sum_eq, List.map_append, List.sum_append, List.map_cons,
          List.sum_cons, count_children hm.ch]
        omega
      have h1' : updateSpaces E P (some p) (enterParent P (leaveChildren s p) p (mergedSpace E P (leaveChildren s p) p)) =
          some (t, fl) := h1
      rw [h1', Option.bind_some]
      simp only
      cases fl with
      | true =>
        rw [if_pos rfl]
        exact ih hu.inv h2 (by rw [hu.clustering, hcount]; omega)
      | false =>
        rw [if_neg (by simp)]
        obtain ⟨u, h3, h4⟩ := fixpoint_some hk hu.inv h2 (Nat.lt_succ_self _)
        obtain ⟨h5, h6⟩ := fixpoint_inv h.nodup hu.inv h3
        rw [h3, Option.bind_some]
        exact ih h5 h4 (by rw [h6, hu.clustering, hcount]; omega)

theorem groundStateSpace_inv (h : Setting E P top) {s : State} (hr : groundStateSpace E P top = some s) : Final E P top s := by
  unfold groundStateSpace at hr
  simp only at hr
  rw [Option.bind_eq_some_iff] at hr
  obtain ⟨t, h1, h2⟩ := hr
  exact mergeLoop_inv h (fixpoint_inv h.nodup (initial_inv h) h1).1 h2

theorem groundStateSpace_some (h : Setting E P top) {σ : Nat → Charge} (hk : Keepable E P top σ)
    (hσ : ∀ i < E.n, Admissible P.base (σ i)) :
    ∃ s, groundStateSpace E P top = some s ∧ Inv E P top s ∧ s.clustering = [top] ∧ Sig E σ s := by
  unfold groundStateSpace
  simp only
  obtain ⟨t, h1, h2⟩ := fixpoint_some hk (initial_inv h) (initial_sig h hσ) (Nat.lt_succ_self _)
  rw [h1, Option.bind_some]
  exact mergeLoop_some h hk (fixpoint_inv h.nodup (initial_inv h) h1).1 h2 (by omega)

end Verif.Sidb.Gss
