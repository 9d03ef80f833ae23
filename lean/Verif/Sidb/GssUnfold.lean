import Verif.Sidb.GssRun

/-!
# ClusterComplete: unfolding the ground state space
-/
namespace Verif.Sidb.Gss

open Verif.Sidb Cluster

variable {E : Env} {P : Params} {top : Cluster} {s : State}

theorem flat_unique {α β : Type} {l : List α} {f : α → List β} (hn : (l.flatMap f).Nodup) {a b : α} (ha : a ∈ l) (hb : b ∈ l)
    {i : β} (h1 : i ∈ f a) (h2 : i ∈ f b) : a = b := by
  rw [List.nodup_flatMap, List.pairwise_iff_getElem] at hn
  obtain ⟨m, hm, rfl⟩ := List.getElem_of_mem ha
  obtain ⟨k, hk, rfl⟩ := List.getElem_of_mem hb
  rcases lt_trichotomy m k with h | rfl | h
  · exact absurd h2 (hn.2 m k hm hk h h1)
  · rfl
  · exact absurd h1 (hn.2 k m hk hm h h2)

/-- A state of the unfolding: projector states below the top cluster that partition the SiDBs, with the sum of their
potential bounds. -/
structure St (E : Env) (top : Cluster) (s : State) (x : Clustering) : Prop where
  below : ∀ q ∈ x.parts, q.1 ∈ top.strict ∧ ∃ z ∈ s.space q.1, z.ms = q.2
  perm : (x.parts.flatMap fun q => q.1.sidbs).Perm (List.range E.n)
  bounds : ∀ i < E.n, x.bounds i = Bounds.sum (x.parts.map fun q => s.complete q.1 q.2 i)

/-- The charge spaces below the top cluster. -/
structure Ready' (E : Env) (P : Params) (top : Cluster) (s : State) : Prop where
  frozen : ∀ d ∈ top.strict, Frozen E P s d
  inner : ∀ i, Cluster.one i ∉ top.strict

theorem largest_spec {l : List (Cluster × Multiset)} (h : l ≠ []) :
    ∃ hk : largest l < l.length, ∀ r ∈ l, r.1.size ≤ (l[largest l]'hk).1.size := by
  induction l with
  | nil => exact absurd rfl h
  | cons q rest ih =>
    by_cases e : rest.any (fun r => decide (q.1.size < r.1.size)) = true
    · have hne : rest ≠ [] := by rintro rfl; simp at e
      obtain ⟨hk, hm⟩ := ih hne
      have hl : largest (q :: rest) = largest rest + 1 := by simp only [largest]; rw [if_pos e]
      refine ⟨by rw [hl]; simpa using hk, ?_⟩
      intro r hr
      simp only [hl, List.getElem_cons_succ]
      rcases List.mem_cons.mp hr with rfl | hr
      · obtain ⟨r', hr', hlt⟩ := List.any_eq_true.mp e
        have := hm r' hr'
        simp at hlt
        omega
      · exact hm r hr
    · have hl : largest (q :: rest) = 0 := by simp only [largest]; rw [if_neg e]
      refine ⟨by rw [hl]; simp, ?_⟩
      intro r hr
      simp only [hl, List.getElem_cons_zero]
      rcases List.mem_cons.mp hr with rfl | hr
      · exact le_refl _
      · have h2 : ¬ q.1.size < r.1.size := fun hlt => e (List.any_eq_true.mpr ⟨r, hr, by simpa using hlt⟩)
        omega

theorem set_perm {α : Type} {l : List α} {k : Nat} (hk : k < l.length) (a : α) : (a :: l).Perm (l[k] :: l.set k a) := by
  induction l generalizing k with
  | nil => simp at hk
  | cons b t ih =>
    cases k with
    | zero => simpa using List.Perm.swap b a t
    | succ k =>
      have hk' : k < t.length := by simpa using hk
      simp only [List.getElem_cons_succ, List.set_cons_succ]
      exact (List.Perm.swap b a t).trans (((ih hk').cons b).trans (List.Perm.swap _ _ _))

theorem takeOut_perm (x : Clustering) {k : Nat} (hk : k < x.parts.length) :
    x.parts.Perm (x.parts[k] :: (takeOut s x k x.parts[k]).parts) := by
  unfold takeOut
  simp only
  rcases List.eq_nil_or_concat x.parts with h | ⟨init, last, h⟩
  · rw [h] at hk; simp at hk
  · simp only [h] at hk ⊢
    simp only [List.concat_eq_append] at hk ⊢
    rw [List.getLast?_append]
    simp only [List.getLast?_singleton, Option.some_or]
    by_cases hki : k < init.length
    · rw [List.getElem_append_left hki, List.set_append_left _ _ hki, List.dropLast_concat]
      exact (List.perm_append_singleton _ _).trans (set_perm hki last)
    · have hke : k = init.length := by simp at hk; omega
      subst hke
      rw [List.getElem_append_right (le_refl _), List.set_append_right _ _ (le_refl _)]
      simp only [Nat.sub_self, List.getElem_cons_zero, List.set_cons_zero, List.dropLast_concat]
      exact List.perm_append_singleton _ _

theorem compsOf_mem {q : Cluster × Multiset} {y : Composition} (hy : y ∈ compsOf s q) :
    ∃ z ∈ s.space q.1, z.ms = q.2 ∧ compsOf s q = z.comps := by
  unfold compsOf at hy ⊢
  cases e : (s.space q.1).find? fun x => x.ms = q.2 with
  | none => rw [e] at hy; cases hy
  | some z => exact ⟨z, List.mem_of_find?_eq_some e, by simpa using List.find?_some e, rfl⟩

theorem sizes {l : List (Cluster × Multiset)} :
    (l.flatMap fun q => q.1.sidbs).length = (l.map fun q => q.1.size).sum := by
  simp [List.length_flatMap, Cluster.size]

theorem sizes_ge (l : List (Cluster × Multiset)) : l.length ≤ (l.map fun q => q.1.size).sum := by
  induction l with
  | nil => simp
  | cons a t ih => have := size_pos a.1; simp; omega

theorem sizes_one {l : List (Cluster × Multiset)} (h : (l.map fun q => q.1.size).sum = l.length) : ∀ q ∈ l, q.1.size = 1 := by
  induction l with
  | nil => simp
  | cons a t ih =>
    have := size_pos a.1
    have := sizes_ge t
    simp only [List.map_cons, List.sum_cons, List.length_cons] at h
    intro q hq
    rcases List.mem_cons.mp hq with rfl | hq
    · omega
    · exact ih (by omega) q hq

theorem sizes_le {l : List (Cluster × Multiset)} (h : ∀ q ∈ l, q.1.size ≤ 1) : (l.map fun q => q.1.size).sum ≤ l.length := by
  induction l with
  | nil => simp
  | cons a t ih =>
    have := h a (by simp)
    have := ih fun q hq => h q (by simp [hq])
    simp only [List.map_cons, List.sum_cons, List.length_cons]
    omega

theorem St.total (h : St E top s x) : (x.parts.map fun q => q.1.size).sum = E.n := by
  rw [← sizes, h.perm.length_eq, List.length_range]

/-- The projector state that is unfolded next has children. -/
theorem St.next (h : St E top s x) (hl : x.parts.length ≠ E.n) (hn : 0 < E.n) :
    ∃ hk : largest x.parts < x.parts.length, (x.parts[largest x.parts]'hk).1.children ≠ [] := by
  have hne : x.parts ≠ [] := by
    intro e
    have := h.total
    rw [e] at this
    simp at this
    omega
  obtain ⟨hk, hm⟩ := largest_spec hne
  refine ⟨hk, ?_⟩
  intro e
  have hsz : (x.parts[largest x.parts]'hk).1.size = 1 := by
    cases h' : (x.parts[largest x.parts]'hk).1 with
    | leaf i => simp [Cluster.size, sidbs]
    | one i => rw [h'] at e; simp [Cluster.children] at e
    | node l r => rw [h'] at e; simp [Cluster.children] at e
  have h1 := sizes_le (l := x.parts) fun q hq => (hm q hq).trans (le_of_eq hsz)
  have h2 := sizes_ge x.parts
  have := h.total
  omega

theorem St.comp (h : St E top s x) (hr : Ready' E P top s) {q : Cluster × Multiset} (hq : q ∈ x.parts)
    (hch : q.1.children ≠ []) {y : Composition} (hy : y ∈ compsOf s q) :
    y.parts.map Prod.fst = q.1.children ∧ (∀ r ∈ y.parts, ∃ z ∈ s.space r.1, z.ms = r.2) ∧ sumMs y.parts = q.2 ∧
    (∀ i < E.n, y.bounds i = Bounds.sum (y.parts.map fun r => s.complete r.1 r.2 i)) := by
  obtain ⟨z, hz, hzm, hc⟩ := compsOf_mem hy
  rw [hc] at hy
  obtain ⟨c1, c2, c3, c4⟩ := ((hr.frozen q.1 (h.below q hq).1).comps hch z hz).2 y hy
  exact ⟨c1, c2, c3.trans hzm, c4⟩

theorem parts_sidbs {y : List (Cluster × Multiset)} {c : Cluster} (h : y.map Prod.fst = c.children) (hch : c.children ≠ []) :
    y.flatMap (fun r => r.1.sidbs) = c.sidbs := by
  rw [sidbs_children hch, ← h, List.flatMap_map]

theorem St.step (h : St E top s x) (hr : Ready' E P top s) {k : Nat} (hk : k < x.parts.length)
    (hch : x.parts[k].1.children ≠ []) {y : Composition} (hy : y ∈ compsOf s x.parts[k]) :
    St E top s (addParts (takeOut s x k x.parts[k]) y) := by
  have hq : x.parts[k] ∈ x.parts := List.getElem_mem hk
  have hp := takeOut_perm (s := s) x hk
  obtain ⟨c1, c2, c3, c4⟩ := h.comp hr hq hch hy
  set q := x.parts[k] with hqdef
  set t := takeOut s x k q with ht
  refine ⟨?_, ?_, ?_⟩
  · intro r hr'
    rcases List.mem_append.mp hr' with hr' | hr'
    · exact h.below r (hp.mem_iff.mpr (by simp [hr']))
    · exact ⟨strict_child (h.below q hq).1 (c1 ▸ List.mem_map_of_mem hr'), c2 r hr'⟩
  · change ((t.parts ++ y.parts).flatMap _).Perm _
    refine List.Perm.trans ?_ h.perm
    refine List.Perm.trans ?_ (hp.flatMap_right _).symm
    rw [List.flatMap_append, List.flatMap_cons, parts_sidbs c1 hch]
    exact List.perm_append_comm
  · intro i hi
    change ((x.bounds i).sub (s.complete q.1 q.2 i)).add (y.bounds i) = Bounds.sum ((t.parts ++ y.parts).map _)
    rw [h.bounds i hi, c4 i hi, Bounds.sum_perm (hp.map _), List.map_cons, Bounds.sum_cons, Bounds.add_sub_left,
      List.map_append, Bounds.sum_append]

/-! ## All SiDBs apart -/

theorem charge_single (q : Charge) : (Multiset.single q).charge = q := by cases q <;> rfl

theorem St.leaf (h : St E top s x) (hr : Ready' E P top s) (hl : x.parts.length = E.n) {q : Cluster × Multiset}
    (hq : q ∈ x.parts) : ∃ k < E.n, q = (.leaf k, .single ((surface E x).charge k)) ∧
      (surface E x).charge k ∈ chargesOf P.base ∧
      ∀ i < E.n, s.complete q.1 q.2 i = ⟨leafPot E k i ((surface E x).charge k), leafPot E k i ((surface E x).charge k)⟩ := by
  have h1 := sizes_one (l := x.parts) (by rw [h.total, hl])
  have hlf : ∀ r ∈ x.parts, ∃ k, r.1 = .leaf k := by
    intro r hr'
    have hs := h1 r hr'
    have hb := (h.below r hr').1
    cases e : r.1 with
    | leaf k => exact ⟨k, rfl⟩
    | one k => rw [e] at hb; exact absurd hb (hr.inner k)
    | node a b =>
      rw [e, size_node] at hs
      have := size_pos a
      have := size_pos b
      omega
  obtain ⟨k, hk⟩ := hlf q hq
  obtain ⟨hb, z, hz, hzm⟩ := h.below q hq
  have hnd : (x.parts.flatMap fun q => q.1.sidbs).Nodup := h.perm.nodup_iff.mpr List.nodup_range
  have hkn : k < E.n := by
    have : k ∈ x.parts.flatMap fun q => q.1.sidbs := List.mem_flatMap.mpr ⟨q, hq, by rw [hk]; simp [sidbs]⟩
    simpa using h.perm.mem_iff.mp this
  obtain ⟨c, hc, hm, hpot⟩ := (hr.frozen q.1 hb).charges k hk z hz
  have hfind : x.parts.find? (fun r => r.1 = .leaf k) = some q := by
    cases e : x.parts.find? (fun r => r.1 = .leaf k) with
    | none => have := List.find?_eq_none.mp e q hq; simp [hk] at this
    | some r =>
      have hr' := List.mem_of_find?_eq_some e
      have hrk : r.1 = .leaf k := by simpa using List.find?_some e
      rw [flat_unique hnd hr' hq (i := k) (by rw [hrk]; simp [sidbs]) (by rw [hk]; simp [sidbs])]
  have hch : (surface E x).charge k = c := by
    change (match x.parts.find? (fun r => r.1 = .leaf k) with | some q => q.2.charge | none => Charge.neg) = c
    rw [hfind]
    simp only
    rw [← hzm, hm, charge_single]
  have hq2 : q.2 = .single c := by rw [← hzm, hm]
  refine ⟨k, hkn, ?_, by rw [hch]; exact hc, ?_⟩
  · rw [hch, ← hq2, ← hk]
  · intro i hi
    rw [hch, ← hzm]; exact hpot i hi

theorem contrib_leaf (σ : Nat → Charge) (k i : Nat) : contrib E σ [k] i = leafPot E k i (σ k) := by
  simp only [contrib, List.map_cons, List.map_nil, List.sum_cons, List.sum_nil, add_zero, leafPot]
  by_cases e : k = i
  · subst e; simp
  · rw [if_neg e, if_neg (Ne.symm e)]

theorem contrib_parts (σ : Nat → Charge) (l : List (Cluster × Multiset)) (i : Nat) :
    contrib E σ (l.flatMap fun q => q.1.sidbs) i = (l.map fun q => contrib E σ q.1.sidbs i).sum := by
  induction l with
  | nil => rfl
  | cons a t ih => rw [List.flatMap_cons, contrib_append, ih, List.map_cons, List.sum_cons]

theorem St.exact (h : St E top s x) (hr : Ready' E P top s) (hl : x.parts.length = E.n) {i : Nat} (hi : i < E.n) :
    x.bounds i = ⟨contrib E (surface E x).charge (List.range E.n) i, contrib E (surface E x).charge (List.range E.n) i⟩ := by
  rw [h.bounds i hi, Bounds.sum_map, ← contrib_perm E _ h.perm, contrib_parts]
  congr 1 <;> refine sum_map_congr fun q hq => ?_ <;> obtain ⟨k, _, hqe, _, hp⟩ := h.leaf hr hl hq <;>
    rw [hp i hi] <;> simp only [hqe, sidbs] <;> rw [contrib_leaf]

/-- The contributions of all SiDBs are the negated potential at a SiDB, with its external potential. -/
theorem contrib_all (hE : E.Physical) (σ : Nat → Charge) {i : Nat} (hi : i < E.n) :
    contrib E σ (List.range E.n) i = -potential E σ i - E.ext i := by
  unfold contrib potential
  rw [range_sum, sum_split List.nodup_range (List.mem_range.mpr hi), sum_split List.nodup_range (List.mem_range.mpr hi),
    if_pos rfl, hE.diag]
  have h2 : ∀ l : List Nat, (∀ j ∈ l, j ≠ i) → (l.map fun j => if j = i then selfPot E i else project E j i (σ j)).sum =
      -(l.map fun j => E.pot i j * ((σ j).sign : Rat)).sum := by
    intro l
    induction l with
    | nil => simp
    | cons a t ih =>
      intro hl
      have ha := hl a (by simp)
      simp only [List.map_cons, List.sum_cons]
      rw [ih fun j hj => hl j (by simp [hj]), if_neg ha, hE.symm i a]
      cases σ a <;> simp [project, Charge.sign] <;> ring
  rw [h2 _ fun j hj => by simpa using (List.mem_filter.mp hj).2]
  unfold selfPot
  ring

theorem St.surfaceExact (hE : E.Physical) (h : St E top s x) (hr : Ready' E P top s) (hl : x.parts.length = E.n) :
    Exact E (surface E x) := by
  intro i hi
  change -(x.bounds i).lo - E.ext i = _
  rw [h.exact hr hl hi, contrib_all hE _ hi]
  ring

/-! ## The population stability criterion -/

theorem countFold (E : Env) (b : Nat → Bounds) (l : List Nat) (k : Nat × Nat × Nat) :
    l.foldl (fun k i => countWitness E (b i) k) k =
      (k.1 - (l.filter fun i => !failNeg E (b i).lo).length, k.2.1 - (l.filter fun i => !failPos E (b i).up).length,
       k.2.2 - (l.filter fun i => !ubFailNeu E (b i).up && !lbFailNeu E (b i).lo).length) := by
  induction l generalizing k with
  | nil => simp
  | cons a t ih =>
    rw [List.foldl_cons, ih]
    obtain ⟨x, y, z⟩ := k
    simp only [countWitness, List.filter_cons]
    refine Prod.ext ?_ (Prod.ext ?_ ?_)
    · cases failNeg E (b a).lo <;> simp <;> split_ifs <;> simp at * <;> omega
    · cases failPos E (b a).up <;> simp <;> split_ifs <;> simp at * <;> omega
    · cases ubFailNeu E (b a).up <;> cases lbFailNeu E (b a).lo <;> simp <;> split_ifs <;> simp at * <;> omega

theorem meets_iff (x : Clustering) : meetsCriterion E x = true ↔ ∀ q ∈ x.parts,
    q.2.neg ≤ (q.1.sidbs.filter fun i => !failNeg E (x.bounds i).lo).length ∧
    q.2.pos ≤ (q.1.sidbs.filter fun i => !failPos E (x.bounds i).up).length ∧
    q.1.size - q.2.neg - q.2.pos ≤ (q.1.sidbs.filter fun i => !ubFailNeu E (x.bounds i).up && !lbFailNeu E (x.bounds i).lo).length := by
  unfold meetsCriterion
  rw [List.all_eq_true]
  refine forall_congr' fun q => forall_congr' fun hq => ?_
  rw [decide_eq_true_eq, countFold]
  simp only [Prod.mk.injEq, Nat.sub_eq_zero_iff_le]

end Verif.Sidb.Gss
