import Verif.Sidb.Steal
import Verif.Sidb.GssResults

/-!
# What is left to do: the value of a clustering state, and undoing

Lemmas for `Verif.Sidb.StealProps`.
-/
namespace Verif.Sidb.Gss

open Verif.Sidb Cluster

/-! ## The number of clusters -/

/-- The number of clusters below the projector states. -/
def load (x : Clustering) : Nat := (x.parts.map fun q => q.1.count).sum

variable {E : Env} {P : Params} {top : Cluster} {s : State} {x : Clustering}

theorem load_step (h : St E top s x) (hr : Ready' E P top s) {k : Nat} (hk : k < x.parts.length)
    (hch : x.parts[k].1.children ≠ []) {y : Composition} (hy : y ∈ compsOf s x.parts[k]) :
    load (addParts (takeOut s x k x.parts[k]) y) + 1 = load x := by
  have hp := takeOut_perm (s := s) x hk
  obtain ⟨c1, _, _, _⟩ := h.comp hr (List.getElem_mem hk) hch hy
  have h1 := (hp.map fun q => q.1.count).sum_eq
  have h2 : (y.parts.map fun q => q.1.count).sum + 1 = x.parts[k].1.count := by
    rw [count_children hch, ← c1, List.map_map]; rfl
  unfold load
  rw [h1]
  simp only [addParts, List.map_append, List.sum_append, List.map_cons, List.sum_cons]
  omega

theorem load_pos (hn : 0 < E.n) (h : St E top s x) : 0 < load x := by
  unfold load
  cases e : x.parts with
  | nil => have := h.total; rw [e] at this; simp at this; omega
  | cons q t =>
    have : 0 < q.1.count := by cases q.1 <;> simp [count]
    simp
    omega

theorem unfold_enough (hn : 0 < E.n) (hr : Ready' E P top s) {k k' : Nat} (h : St E top s x) (hk : load x ≤ k)
    (hk' : load x ≤ k') : unfold E s k x = unfold E s k' x := by
  have hp := load_pos hn h
  induction k generalizing k' x with
  | zero => omega
  | succ k ih =>
    cases k' with
    | zero => omega
    | succ k' =>
      simp only [unfold]
      by_cases hm : (!meetsCriterion E x) = true
      · rw [if_pos hm, if_pos hm]
      rw [if_neg hm, if_neg hm]
      by_cases hl : x.parts.length = E.n
      · rw [if_pos hl, if_pos hl]
      rw [if_neg hl, if_neg hl]
      obtain ⟨hlt, hch⟩ := h.next hl hn
      rw [List.getElem?_eq_getElem hlt]
      simp only
      refine List.flatMap_congr fun y hy => ?_
      have h1 := h.step hr hlt hch hy
      have h2 := load_step h hr hlt hch hy
      exact ih h1 (by omega) (by omega) (load_pos hn h1)

/-- The charge distributions that a clustering state unfolds to. -/
def val (E : Env) (s : State) (x : Clustering) : List (List Charge) := unfold E s (load x) x

theorem unfold_val (hn : 0 < E.n) (hr : Ready' E P top s) {k : Nat} (h : St E top s x) (hk : load x ≤ k) :
    unfold E s k x = val E s x := unfold_enough hn hr h hk (le_refl _)

theorem val_pruned (hn : 0 < E.n) (h : St E top s x) (hm : (!meetsCriterion E x) = true) : val E s x = [] := by
  have := load_pos hn h
  unfold val
  obtain ⟨k, hk⟩ : ∃ k, load x = k + 1 := ⟨load x - 1, by omega⟩
  rw [hk]
  simp only [unfold]
  rw [if_pos hm]

theorem val_leaf (hn : 0 < E.n) (h : St E top s x) (hm : ¬ (!meetsCriterion E x) = true) (hl : x.parts.length = E.n) :
    val E s x = if configurationStable E (surface E x) then [(surface E x).charges E.n] else [] := by
  have := load_pos hn h
  unfold val
  obtain ⟨k, hk⟩ : ∃ k, load x = k + 1 := ⟨load x - 1, by omega⟩
  rw [hk]
  simp only [unfold]
  rw [if_neg hm, if_pos hl]

theorem val_inner (hn : 0 < E.n) (hr : Ready' E P top s) (h : St E top s x) (hm : ¬ (!meetsCriterion E x) = true)
    (hl : x.parts.length ≠ E.n) (hlt : largest x.parts < x.parts.length)
    (hch : (x.parts[largest x.parts]'hlt).1.children ≠ []) :
    val E s x = (compsOf s x.parts[largest x.parts]).flatMap fun y =>
      val E s (addParts (takeOut s x (largest x.parts) x.parts[largest x.parts]) y) := by
  have := load_pos hn h
  conv_lhs => unfold val
  obtain ⟨k, hk⟩ : ∃ k, load x = k + 1 := ⟨load x - 1, by omega⟩
  rw [hk]
  simp only [unfold]
  rw [if_neg hm, if_neg hl, List.getElem?_eq_getElem hlt]
  simp only
  refine List.flatMap_congr fun y hy => ?_
  have h2 := load_step h hr hlt hch hy
  exact unfold_val hn hr (h.step hr hlt hch hy) (by omega)

/-! ## Undoing -/

theorem Bounds.add_sub (a b : Bounds) : (a.add b).sub b = a := by
  cases a; cases b; simp [Bounds.add, Bounds.sub]

theorem Bounds.sub_add (a b : Bounds) : (a.sub b).add b = a := by
  cases a; cases b; simp [Bounds.add, Bounds.sub]

theorem removeParts_addParts (x : Clustering) (y : Composition) : removeParts (addParts x y) y = x := by
  cases x
  simp [removeParts, addParts, Bounds.add_sub]

theorem addParent_takeOut (s : State) (x : Clustering) {k : Nat} {q : Cluster × Multiset} (h : x.parts[k]? = some q) :
    addParent s (takeOut s x k q) k q = x := by
  obtain ⟨hk, rfl⟩ := List.getElem?_eq_some_iff.mp h
  cases x with
  | mk parts bounds =>
  simp only at hk
  simp only [addParent, takeOut, Bounds.sub_add, Clustering.mk.injEq, and_true]
  rcases List.eq_nil_or_concat parts with h | ⟨init, l, h⟩
  · subst h; simp at hk
  · rw [List.concat_eq_append] at h
    subst h
    simp only [List.getLast?_append, List.getLast?_singleton, Option.some_or]
    by_cases e : k = init.length
    · subst e
      simp
    · have hk' : k < init.length := by simp at hk; omega
      rw [List.set_append_left _ _ hk']
      simp only [List.dropLast_concat, List.getElem_append_left hk', List.length_set]
      rw [List.set_append_left _ _ (by simpa using hk'), List.set_set, List.set_getElem_self]
      rw [List.getD_eq_getElem?_getD, List.getElem?_append_left (by simpa using hk')]
      simp [hk']

/-! ## Compositions are never missing -/

/-- Every charge state has compositions. -/
def Composed (s : State) : Prop := ∀ c, ∀ z ∈ s.space c, z.comps ≠ []

theorem composed_initial (E : Env) (P : Params) (top : Cluster) : Composed (initial E P top) := by
  intro c z hz
  cases c with
  | leaf i =>
    simp only [initial, leafSpace, List.mem_map] at hz
    obtain ⟨q, _, rfl⟩ := hz
    simp
  | one i => simp [initial] at hz
  | node l r => simp [initial] at hz

theorem handleInvalid_space {c : Cluster} {m : Multiset} {s s' : State} (h : handleInvalid c m s = some s') :
    s'.space = s.space := by
  unfold handleInvalid at h
  split_ifs at h
  cases h
  rfl

theorem checkStates_space {c : Cluster} {l : List Multiset} {s : State} {r : State × List Multiset}
    (h : checkStates E P c l s = some r) : r.1.space = s.space := by
  induction l generalizing s r with
  | nil => simp only [checkStates, Option.some.injEq] at h; rw [← h]
  | cons m rest ih =>
    simp only [checkStates] at h
    split_ifs at h
    · exact ih h
    · rw [Option.bind_eq_some_iff] at h
      obtain ⟨s', h1, h2⟩ := h
      rw [Option.map_eq_some_iff] at h2
      obtain ⟨r', h2, rfl⟩ := h2
      exact (ih h2).trans (handleInvalid_space h1)

theorem composed_checkSpace {c : Cluster} {s : State} {r : State × Bool} (hc : Composed s) (h : checkSpace E P c s = some r) :
    Composed r.1 := by
  unfold checkSpace at h
  split_ifs at h
  · cases h; exact hc
  · rw [Option.map_eq_some_iff] at h
    obtain ⟨r', h1, rfl⟩ := h
    intro c' z hz
    simp only at hz
    split_ifs at hz with e
    · exact hc c z (List.mem_of_mem_filter hz)
    · rw [checkStates_space h1] at hz
      exact hc c' z hz

theorem composed_updateClusters {skip : Option Cluster} {l : List Cluster} {s : State} {r : State × Bool} (hc : Composed s)
    (h : updateClusters E P skip l s = some r) : Composed r.1 := by
  induction l generalizing s r with
  | nil => simp only [updateClusters, Option.some.injEq] at h; rw [← h]; exact hc
  | cons c rest ih =>
    simp only [updateClusters] at h
    split_ifs at h
    · exact ih hc h
    · rw [Option.bind_eq_some_iff] at h
      obtain ⟨r', h1, h2⟩ := h
      rw [Option.map_eq_some_iff] at h2
      obtain ⟨q, h2, rfl⟩ := h2
      have := ih (r := q) (composed_checkSpace hc h1) h2
      exact this

theorem composed_fixpoint {k : Nat} {s s' : State} (hc : Composed s) (h : fixpoint E P k s = some s') : Composed s' := by
  induction k generalizing s with
  | zero => simp [fixpoint] at h
  | succ k ih =>
    simp only [fixpoint] at h
    rw [Option.bind_eq_some_iff] at h
    obtain ⟨r, h1, h2⟩ := h
    have := composed_updateClusters hc h1
    split_ifs at h2
    · cases h2; exact this
    · exact ih this h2

theorem composed_leave {s : State} (hc : Composed s) (p : Cluster) : Composed (leaveChildren s p) := by
  intro c z hz
  simp only [leaveChildren] at hz
  split_ifs at hz
  · unfold saveComps at hz
    obtain ⟨z', hz', rfl⟩ := List.mem_map.mp hz
    simpa using hc c z' hz'
  · exact hc c z hz

theorem composed_mergeLoop (hre : ∀ l, (P.reorderStates l).Perm l) {k : Nat} {s s' : State} (hc : Composed s)
    (h : mergeLoop E P top k s = some s') : Composed s' := by
  induction k generalizing s with
  | zero => simp [mergeLoop] at h
  | succ k ih =>
    simp only [mergeLoop] at h
    split_ifs at h
    · cases h; exact hc
    · split at h
      · cases h
      · rename_i p _
        have hl := composed_leave hc p
        split_ifs at h
        · cases h; exact hl
        · rw [Option.bind_eq_some_iff] at h
          obtain ⟨r, h1, h2⟩ := h
          have he : Composed (enterParent P (leaveChildren s p) p (mergedSpace E P (leaveChildren s p) p)) := by
            intro c z hz
            simp only [enterParent] at hz
            split_ifs at hz
            · exact mergedSpace_ne E P _ p z ((hre _).mem_iff.mp hz)
            · exact hl c z hz
          have hr := composed_updateClusters he h1
          split_ifs at h2
          · exact ih hr h2
          · rw [Option.bind_eq_some_iff] at h2
            obtain ⟨t, h3, h4⟩ := h2
            exact ih (composed_fixpoint hr h3) h4

theorem composed_groundStateSpace (hre : ∀ l, (P.reorderStates l).Perm l) {s : State} (h : groundStateSpace E P top = some s) :
    Composed s := by
  unfold groundStateSpace at h
  simp only at h
  rw [Option.bind_eq_some_iff] at h
  obtain ⟨t, h1, h2⟩ := h
  exact composed_mergeLoop hre (composed_fixpoint (composed_initial E P top) h1) h2

/-- The projector state that is unfolded next has compositions. -/
theorem compsOf_ne (hc : Composed s) (h : St E top s x) {q : Cluster × Multiset} (hq : q ∈ x.parts) : compsOf s q ≠ [] := by
  obtain ⟨_, z, hz, hm⟩ := h.below q hq
  unfold compsOf
  cases e : (s.space q.1).find? fun x => x.ms = q.2 with
  | none => have := List.find?_eq_none.mp e z hz; simp [hm] at this
  | some z' => exact hc _ z' (List.mem_of_find?_eq_some e)

/-! ## How much there is to do -/

/-- The number of clustering states that are visited, with a bound on the depth. -/
def weigh (E : Env) (s : State) : Nat → Clustering → Nat
  | 0, _ => 1
  | k + 1, x =>
    if !meetsCriterion E x then 1
    else if x.parts.length = E.n then 1
    else match x.parts[largest x.parts]? with
      | none => 1
      | some q => 1 + ((compsOf s q).map fun y => weigh E s k (addParts (takeOut s x (largest x.parts) q) y)).sum

theorem weigh_enough (hn : 0 < E.n) (hr : Ready' E P top s) {x : Clustering} {k k' : Nat} (h : St E top s x) (hk : load x ≤ k)
    (hk' : load x ≤ k') : weigh E s k x = weigh E s k' x := by
  have hp := load_pos hn h
  induction k generalizing k' x with
  | zero => omega
  | succ k ih =>
    cases k' with
    | zero => omega
    | succ k' =>
      simp only [weigh]
      by_cases hm : (!meetsCriterion E x) = true
      · rw [if_pos hm, if_pos hm]
      rw [if_neg hm, if_neg hm]
      by_cases hl : x.parts.length = E.n
      · rw [if_pos hl, if_pos hl]
      rw [if_neg hl, if_neg hl]
      obtain ⟨hlt, hch⟩ := h.next hl hn
      rw [List.getElem?_eq_getElem hlt]
      simp only
      congr 2
      refine List.map_congr_left fun y hy => ?_
      have h1 := h.step hr hlt hch hy
      have h2 := load_step h hr hlt hch hy
      exact ih h1 (by omega) (by omega) (load_pos hn h1)

/-- The number of clustering states that are visited. -/
def weight (E : Env) (s : State) (x : Clustering) : Nat := weigh E s (load x) x

theorem weight_pos (x : Clustering) : 0 < weight E s x := by
  unfold weight
  cases load x with
  | zero => simp [weigh]
  | succ k =>
    simp only [weigh]
    split_ifs
    · omega
    · omega
    · split <;> omega

theorem weight_inner (hn : 0 < E.n) (hr : Ready' E P top s) {x : Clustering} (h : St E top s x) (hm : ¬ (!meetsCriterion E x) = true)
    (hl : x.parts.length ≠ E.n) (hlt : largest x.parts < x.parts.length)
    (hch : (x.parts[largest x.parts]'hlt).1.children ≠ []) :
    weight E s x = 1 + ((compsOf s x.parts[largest x.parts]).map fun y =>
      weight E s (addParts (takeOut s x (largest x.parts) x.parts[largest x.parts]) y)).sum := by
  have := load_pos hn h
  conv_lhs => unfold weight
  obtain ⟨k, hk⟩ : ∃ k, load x = k + 1 := ⟨load x - 1, by omega⟩
  rw [hk]
  simp only [weigh]
  rw [if_neg hm, if_neg hl, List.getElem?_eq_getElem hlt]
  simp only
  congr 2
  refine List.map_congr_left fun y hy => ?_
  have h1 := h.step hr hlt hch hy
  have h2 := load_step h hr hlt hch hy
  exact weigh_enough hn hr h1 (by omega) (le_refl _)

end Verif.Sidb.Gss
