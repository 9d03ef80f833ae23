import Verif.Sidb.GssPrune

/-!
# Merging keeps the invariants
-/
namespace Verif.Sidb.Gss

open Verif.Sidb Cluster

theorem Bounds.sum_perm {l l' : List Bounds} (h : l.Perm l') : Bounds.sum l = Bounds.sum l' := by
  rw [Bounds.sum_eq, Bounds.sum_eq, (h.map _).sum_eq, (h.map Bounds.up).sum_eq]

theorem Bounds.sum_append (a b : List Bounds) : Bounds.sum (a ++ b) = (Bounds.sum a).add (Bounds.sum b) := by
  rw [Bounds.sum_eq, Bounds.sum_eq, Bounds.sum_eq]
  simp [Bounds.add]

theorem Bounds.sum_cons (a : Bounds) (b : List Bounds) : Bounds.sum (a :: b) = a.add (Bounds.sum b) := rfl

theorem Bounds.add_sub_left (a b : Bounds) : (a.add b).sub a = b := by
  apply Bounds.ext' <;> simp [Bounds.add, Bounds.sub]

theorem Bounds.replace (a b c : Bounds) : (a.add b).add (c.sub a) = c.add b := by
  apply Bounds.ext' <;> simp only [Bounds.add, Bounds.sub] <;> ring

theorem msOf_append (σ : Nat → Charge) (a b : List Nat) : msOf σ (a ++ b) = (msOf σ a).add (msOf σ b) := by
  simp [msOf, Multiset.add]

theorem sumMs_children (σ : Nat → Charge) (cs : List Cluster) :
    sumMs (cs.map fun e => (e, msOf σ e.sidbs)) = msOf σ (cs.flatMap sidbs) := by
  induction cs with
  | nil => rfl
  | cons a t ih =>
    rw [List.flatMap_cons, msOf_append, ← ih]
    rfl

theorem addComposition_ne {m : Multiset} {y : Composition} {sp : List ChargeState} (h : ∀ x ∈ sp, x.comps ≠ []) :
    ∀ x ∈ addComposition m y sp, x.comps ≠ [] := by
  induction sp with
  | nil => intro x hx; simp [addComposition] at hx; rw [hx]; simp
  | cons a t ih =>
    intro x hx
    simp only [addComposition] at hx
    split_ifs at hx with e
    · rcases List.mem_cons.mp hx with rfl | hx
      · simp
      · exact h x (by simp [hx])
    · rcases List.mem_cons.mp hx with rfl | hx
      · exact h x (by simp)
      · exact ih (fun z hz => h z (by simp [hz])) x hx

theorem mergedSpace_ne (E : Env) (P : Params) (s : State) (p : Cluster) : ∀ x ∈ mergedSpace E P s p, x.comps ≠ [] := by
  unfold mergedSpace
  have key : ∀ (l : List (List (Cluster × Multiset))) (acc : List ChargeState), (∀ x ∈ acc, x.comps ≠ []) →
      ∀ x ∈ l.foldl (fun acc parts => addComposition (sumMs parts) (composition s p parts) acc) acc, x.comps ≠ [] := by
    intro l
    induction l with
    | nil => intro acc h; exact h
    | cons a t ih => intro acc h; exact ih _ (addComposition_ne h)
  exact key _ [] (by simp)

/-- A parent whose children are in the clustering. -/
structure Merge (E : Env) (P : Params) (top : Cluster) (s : State) (p : Cluster) (L : List Cluster) : Prop where
  inv : Inv E P top s
  nodup : top.sidbs.Nodup
  perm : s.clustering.Perm (p.children ++ L)
  cut : Cut top (p :: L)
  ch : p.children ≠ []
  reorder : ∀ l, (P.reorder l).Perm l
  reorderStates : ∀ l, (P.reorderStates l).Perm l

variable {E : Env} {P : Params} {top : Cluster} {s : State} {p : Cluster} {L : List Cluster}

theorem Merge.child (h : Merge E P top s p L) {e : Cluster} (he : e ∈ p.children) : e ∈ s.clustering :=
  h.perm.mem_iff.mpr (by simp [he])

theorem Merge.other (h : Merge E P top s p L) {e : Cluster} (he : e ∈ L) : e ∈ s.clustering :=
  h.perm.mem_iff.mpr (by simp [he])

theorem Merge.nodups (h : Merge E P top s p L) : p.children.Nodup ∧ L.Nodup ∧ ∀ e ∈ p.children, e ∉ L := by
  have := h.perm.nodup_iff.mp (cut_apart h.inv.cut h.nodup).1
  rw [List.nodup_append] at this
  exact ⟨this.1, this.2.1, fun e he hl => this.2.2 e he e hl rfl⟩

theorem Merge.pnot (h : Merge E P top s p L) : p ∉ s.clustering := by
  intro hp
  obtain ⟨e, he⟩ := List.exists_mem_of_ne_nil _ h.ch
  exact strict_not_mem h.inv.cut h.nodup hp (child_strict he) (h.child he)

theorem Merge.un (h : Merge E P top s p L) {k d : Cluster} (hk : k ∈ s.clustering) (hd : d ∈ k.strict) :
    d ∉ p.children ∧ d ≠ p := by
  refine ⟨fun hc => strict_not_mem h.inv.cut h.nodup hk hd (h.child hc), ?_⟩
  rintro rfl
  obtain ⟨e, he⟩ := List.exists_mem_of_ne_nil _ h.ch
  exact strict_not_mem h.inv.cut h.nodup hk (strict_child hd he) (h.child he)

theorem Merge.left (h : Merge E P top s p L) : (leaveChildren s p).clustering.Perm L := by
  change (s.clustering.filter fun c => c ∉ p.children).Perm L
  refine (h.perm.filter _).trans ?_
  rw [List.filter_append, List.filter_eq_nil_iff.mpr (by simp), List.nil_append, List.filter_eq_self.mpr]
  intro a ha
  simp only [decide_eq_true_eq]
  intro hc
  exact h.nodups.2.2 a hc ha

/-- The state after the merge. -/
def merged (E : Env) (P : Params) (s : State) (p : Cluster) : State :=
  enterParent P (leaveChildren s p) p (mergedSpace E P (leaveChildren s p) p)

theorem Merge.clustering (h : Merge E P top s p L) : (merged E P s p).clustering.Perm (p :: L) :=
  (h.reorder _).trans (h.left.cons p)

theorem Merge.pL (h : Merge E P top s p L) : p ∉ L := fun hp => h.pnot (h.other hp)

theorem filter_all_ne {l : List Cluster} {c : Cluster} (h : c ∉ l) : l.filter (fun o => o ≠ c) = l := by
  rw [List.filter_eq_self]
  intro a ha
  simp only [ne_eq, decide_eq_true_eq]
  rintro rfl
  exact h ha

theorem Merge.derived (h : Merge E P top s p L) {i : Nat} (hi : i ∈ p.sidbs) :
    derivedRecv s p i = Bounds.sum (L.map fun o => s.range o i) := by
  unfold derivedRecv
  have hex : ∃ c ∈ p.children, i ∈ c.sidbs := by
    rw [sidbs_children h.ch] at hi
    simpa using hi
  cases e : p.children.find? fun c => i ∈ c.sidbs with
  | none =>
    obtain ⟨c, hc, hic⟩ := hex
    have := List.find?_eq_none.mp e c hc
    simp [hic] at this
  | some c =>
    have hc := List.mem_of_find?_eq_some e
    have hic : i ∈ c.sidbs := by simpa using List.find?_some e
    simp only
    rw [h.inv.recv c (h.child hc) i hic]
    have hp : (s.others c).Perm (p.children.filter (fun o => o ≠ c) ++ L) := by
      refine (h.perm.filter _).trans ?_
      rw [List.filter_append, filter_all_ne (h.nodups.2.2 c hc)]
    rw [Bounds.sum_perm (hp.map _), List.map_append, Bounds.sum_append, Bounds.add_sub_left]

theorem merged_range_other {o : Cluster} (ho : o ≠ p) (i : Nat) : (merged E P s p).range o i = s.range o i := by
  simp [State.range, merged, enterParent, ho, leaveChildren]

theorem merged_bound_other {o : Cluster} (ho : o ≠ p) (m : Multiset) (i : Nat) :
    (merged E P s p).bound o m i = s.bound o m i := by
  simp [State.bound, merged, enterParent, ho, leaveChildren]

theorem merged_space_other {o : Cluster} (ho : o ≠ p) (hc : o ∉ p.children) : (merged E P s p).space o = s.space o := by
  simp [merged, enterParent, ho, leaveChildren, hc]

theorem merged_complete_other {o : Cluster} (hc : o ∉ p.children) : (merged E P s p).complete o = s.complete o := by
  simp [merged, enterParent, leaveChildren, hc]

theorem child_ne {e : Cluster} (h : e ∈ p.children) : e ≠ p := by
  rintro rfl
  exact absurd (count_child h) (lt_irrefl _)

theorem merged_space_child {e : Cluster} (h : e ∈ p.children) : (merged E P s p).space e = saveComps s e := by
  simp [merged, enterParent, child_ne h, leaveChildren, h]

theorem merged_complete_child {e : Cluster} (h : e ∈ p.children) (m : Multiset) (i : Nat) :
    (merged E P s p).complete e m i = s.bound e m i := by
  simp [merged, enterParent, leaveChildren, h]

theorem merged_space_self : (merged E P s p).space p = P.reorderStates (mergedSpace E P (leaveChildren s p) p) := by
  simp [merged, enterParent]

theorem merged_projs_in {i : Nat} (h : i ∈ p.sidbs) :
    (merged E P s p).projs p i = internalProjs (mergedSpace E P (leaveChildren s p) p) i := by
  simp [merged, enterParent, h]

theorem merged_projs_out {i : Nat} (h : i ∉ p.sidbs) :
    (merged E P s p).projs p i = mergedProjs (leaveChildren s p) (mergedSpace E P (leaveChildren s p) p) i := by
  simp [merged, enterParent, h]

theorem Merge.recvOk (h : Merge E P top s p L) : RecvOk (merged E P s p) := by
  intro c hc i hi
  have hc' := h.clustering.mem_iff.mp hc
  have hothers : ((merged E P s p).others c).Perm ((p :: L).filter fun o => o ≠ c) := h.clustering.filter _
  rw [Bounds.sum_perm (hothers.map _)]
  by_cases e : c = p
  · subst e
    rw [List.filter_cons_of_neg (by simp), filter_all_ne h.pL]
    have h1 : (merged E P s c).recv c i = derivedRecv s c i := by
      have : c ∉ (leaveChildren s c).clustering := fun hh => h.pL (h.left.mem_iff.mp hh)
      change (if c ∈ (leaveChildren s c).clustering ∧ i ∈ c.sidbs then _ else (leaveChildren s c).recv c i) = _
      rw [if_neg (fun hh => this hh.1)]
      simp [leaveChildren, hi]
    rw [h1, h.derived hi]
    congr 1
    refine List.map_congr_left fun o ho => (merged_range_other ?_ i).symm
    rintro rfl
    exact h.pL ho
  · have hcL : c ∈ L := by
      rcases List.mem_cons.mp hc' with hh | hh
      · exact absurd hh e
      · exact hh
    have hcs := h.other hcL
    have hip : i ∉ p.sidbs := fun hip => e ((cut_apart h.cut h.nodup).2.2 c (by simp [hcL]) p (by simp) i hi hip)
    rw [List.filter_cons_of_pos (by simpa using Ne.symm e), List.map_cons, Bounds.sum_cons]
    have hin : c ∈ (leaveChildren s p).clustering := h.left.mem_iff.mpr hcL
    have h1 : (merged E P s p).recv c i = ((leaveChildren s p).recv c i).add
        (Bounds.sub ((merged E P s p).range p i) (.sum (p.children.map fun o => s.range o i))) := by
      change (if c ∈ (leaveChildren s p).clustering ∧ i ∈ c.sidbs then _ else _) = _
      rw [if_pos ⟨hin, hi⟩]
      simp only [State.range]
      rw [merged_projs_out hip]
      rfl
    have h2 : (leaveChildren s p).recv c i = s.recv c i := by simp [leaveChildren, e]
    have hp : (s.others c).Perm (p.children ++ L.filter (fun o => o ≠ c)) := by
      refine (h.perm.filter _).trans ?_
      rw [List.filter_append, filter_all_ne (fun hh => h.nodups.2.2 c hh hcL)]
    rw [h1, h2, h.inv.recv c hcs i hi, Bounds.sum_perm (hp.map _), List.map_append, Bounds.sum_append, Bounds.replace]
    congr 2
    refine List.map_congr_left fun o ho => (merged_range_other ?_ i).symm
    rintro rfl
    exact h.pL (List.mem_filter.mp ho).1

theorem Merge.nodup_children (h : Merge E P top s p L) :
    ∀ c ∈ p.children, (((leaveChildren s p).space c).map ChargeState.ms).Nodup := by
  intro c hc
  have : (leaveChildren s p).space c = saveComps s c := by simp [leaveChildren, hc]
  rw [this, saveComps, List.map_map]
  exact (h.inv.active c (h.child hc)).nodup

theorem Merge.collects (h : Merge E P top s p L) :
    Collects (composition (leaveChildren s p) p)
      ((combinations (leaveChildren s p) p.children).filter (verify E P (leaveChildren s p) p))
      (mergedSpace E P (leaveChildren s p) p) := mergedSpace_collects E P _ p h.nodup_children

theorem Merge.activeSelf (h : Merge E P top s p L) : Active E P (merged E P s p) p := by
  have hcol := h.collects
  have hperm := h.reorderStates (mergedSpace E P (leaveChildren s p) p)
  have hmem : ∀ x, x ∈ (merged E P s p).space p ↔ x ∈ mergedSpace E P (leaveChildren s p) p := by
    intro x; rw [merged_space_self]; exact hperm.mem_iff
  have hnl : ∀ k, p ≠ .leaf k := by
    rintro k rfl
    exact h.ch rfl
  refine ⟨?_, ?_, ?_, fun k hk => absurd hk (hnl k), fun k hk => absurd hk (hnl k), ?_⟩
  · rw [merged_space_self]
    exact (hperm.map _).nodup_iff.mpr hcol.nodup
  · intro i
    by_cases hi : i ∈ p.sidbs
    · rw [merged_projs_in hi]; exact ordered_sorted _
    · rw [merged_projs_out hi]; exact ordered_sorted _
  · intro x hx i _
    rw [hmem] at hx
    by_cases hi : i ∈ p.sidbs
    · rw [merged_projs_in hi]
      refine ⟨⟨meetLo (x.comps.map fun y => (y.bounds i).lo), x.ms⟩, ?_, rfl⟩
      exact mem_ordered.mpr (List.mem_flatMap.mpr ⟨x, hx, by simp⟩)
    · rw [merged_projs_out hi]
      obtain ⟨y, hy⟩ := List.exists_mem_of_ne_nil _ (mergedSpace_ne E P _ p x hx)
      obtain ⟨parts, _, h1, h2⟩ := hcol.from_ x hx y hy
      have hyp : y.parts = parts := by rw [h1]; rfl
      refine ⟨⟨((leaveChildren s p).partsBound y.parts i).lo, sumMs y.parts⟩, ?_, by rw [hyp]; exact h2.symm⟩
      refine mem_ordered.mpr (List.mem_append.mpr (Or.inl (List.mem_map.mpr ⟨(x.ms, y), ?_, rfl⟩)))
      exact List.mem_flatMap.mpr ⟨x, hx, List.mem_map.mpr ⟨y, hy, rfl⟩⟩
  · intro _ x hx
    rw [hmem] at hx
    refine ⟨hcol.once x hx, ?_⟩
    intro y hy
    obtain ⟨parts, hL, h1, h2⟩ := hcol.from_ x hx y hy
    have hyp : y.parts = parts := by rw [h1]; rfl
    obtain ⟨m1, m2⟩ := mem_combinations.mp (List.mem_filter.mp hL).1
    have hch : ∀ q ∈ parts, q.1 ∈ p.children := fun q hq => m1 ▸ List.mem_map_of_mem hq
    refine ⟨⟨by rw [hyp]; exact m1, ?_, by rw [hyp]; exact h2.symm, ?_⟩, ?_⟩
    · intro q hq
      rw [hyp] at hq
      obtain ⟨z, hz, e⟩ := m2 q hq
      refine ⟨z, ?_, e⟩
      rw [merged_space_child (hch q hq)]
      simpa [leaveChildren, hch q hq] using hz
    · intro i hi
      rw [h1]
      change (if i ∈ p.sidbs then (leaveChildren s p).partsBound parts i else ⟨0, 0⟩) = _
      rw [if_pos hi]
      unfold State.partsBound
      congr 1
      refine List.map_congr_left fun q hq => ?_
      rw [merged_complete_child (hch q hq)]
      rfl
    · intro i hi
      rw [h1]
      exact if_neg hi

theorem Merge.activeOther (h : Merge E P top s p L) {c : Cluster} (hc : c ∈ L) : Active E P (merged E P s p) c := by
  have hcs := h.other hc
  have a := h.inv.active c hcs
  have hcp : c ≠ p := by rintro rfl; exact h.pL hc
  have hcc : c ∉ p.children := fun hh => h.nodups.2.2 c hh hc
  have hsp : (merged E P s p).space c = s.space c := merged_space_other hcp hcc
  have hpr : ∀ i, (merged E P s p).projs c i = s.projs c i := by
    intro i; simp [merged, enterParent, hcp, leaveChildren]
  refine ⟨by rw [hsp]; exact a.nodup, fun i => by rw [hpr]; exact a.sorted i, ?_, ?_, ?_, ?_⟩
  · intro x hx i hi; rw [hsp] at hx; rw [hpr]; exact a.entry x hx i hi
  · intro k hk x hx; rw [hsp] at hx; exact a.charges k hk x hx
  · intro k hk j; rw [hpr]; exact a.pots k hk j
  · intro hch x hx
    rw [hsp] at hx
    obtain ⟨c1, c2⟩ := a.comps hch x hx
    refine ⟨c1, fun y hy => ⟨comp_congr ?_ ?_ (c2 y hy).1, (c2 y hy).2⟩⟩
    · intro e he
      have := h.un hcs (child_strict he)
      exact merged_space_other this.2 this.1
    · intro e he
      exact merged_complete_other (h.un hcs (child_strict he)).1

theorem Merge.frozenOld (h : Merge E P top s p L) {k d : Cluster} (hk : k ∈ s.clustering) (hd : d ∈ k.strict) :
    Frozen E P (merged E P s p) d := by
  have f := h.inv.frozen k hk d hd
  obtain ⟨hdc, hdp⟩ := h.un hk hd
  have hsp : (merged E P s p).space d = s.space d := merged_space_other hdp hdc
  have hco : (merged E P s p).complete d = s.complete d := merged_complete_other hdc
  refine ⟨by rw [hsp]; exact f.nodup, ?_, ?_, ?_⟩
  · intro j hj x hx; rw [hsp] at hx; rw [hco]; exact f.charges j hj x hx
  · intro hch x hx
    rw [hsp] at hx
    obtain ⟨c1, c2⟩ := f.comps hch x hx
    refine ⟨c1, fun y hy => comp_congr ?_ ?_ (c2 y hy)⟩
    · intro e he
      have := h.un hk (strict_child hd he)
      exact merged_space_other this.2 this.1
    · intro e he
      exact merged_complete_other (h.un hk (strict_child hd he)).1
  · intro m i; rw [hco, merged_bound_other hdp]; exact f.link m i

theorem Merge.frozenChild (h : Merge E P top s p L) {e : Cluster} (he : e ∈ p.children) : Frozen E P (merged E P s p) e := by
  have hes := h.child he
  have a := h.inv.active e hes
  have hsp := merged_space_child (E := E) (P := P) (s := s) he
  refine ⟨?_, ?_, ?_, ?_⟩
  · rw [hsp, saveComps, List.map_map]; exact a.nodup
  · intro k hk x hx
    rw [hsp] at hx
    obtain ⟨x0, hx0, rfl⟩ := List.mem_map.mp hx
    obtain ⟨q, hq, hm⟩ := a.charges k hk x0 hx0
    refine ⟨q, hq, hm, ?_⟩
    intro j hj
    rw [merged_complete_child he]
    obtain ⟨r, hr, hrm⟩ := a.entry x0 hx0 j hj
    obtain ⟨_, u, hu, hum, hup⟩ := lowerFor_spec (a.sorted j) hr hrm
    obtain ⟨_, v, hv, hvm, hvp⟩ := upperFor_spec (a.sorted j) hr hrm
    simp only [State.bound]
    rw [← hup, ← hvp, a.pots k hk j u hu q (hum.trans hm), a.pots k hk j v hv q (hvm.trans hm)]
  · intro hch x hx
    rw [hsp] at hx
    obtain ⟨x0, hx0, rfl⟩ := List.mem_map.mp hx
    obtain ⟨c1, c2⟩ := a.comps hch x0 hx0
    refine ⟨?_, ?_⟩
    · simp only [List.map_map]
      exact c1
    · intro y hy
      obtain ⟨y0, hy0, rfl⟩ := List.mem_map.mp hy
      obtain ⟨⟨d1, d2, d3, d4⟩, d5⟩ := c2 y0 hy0
      have hmem : ∀ q ∈ y0.parts, q.1 ∈ e.children := fun q hq => d1 ▸ List.mem_map_of_mem hq
      have hun : ∀ q ∈ y0.parts, q.1 ∉ p.children ∧ q.1 ≠ p := fun q hq => h.un hes (child_strict (hmem q hq))
      refine ⟨d1, ?_, d3, ?_⟩
      · intro q hq
        rw [merged_space_other (hun q hq).2 (hun q hq).1]; exact d2 q hq
      · intro i _
        have hc : (y0.parts.map fun q => (merged E P s p).complete q.1 q.2 i) = y0.parts.map fun q => s.complete q.1 q.2 i :=
          List.map_congr_left fun q hq => by rw [merged_complete_other (hun q hq).1]
        simp only
        rw [hc]
        by_cases hie : i ∈ e.sidbs
        · rw [if_pos hie]; exact d4 i hie
        · rw [if_neg hie, d5 i hie]
          have hz : ∀ b : Bounds, (⟨0, 0⟩ : Bounds).add b = b := by intro b; simp [Bounds.add]
          rw [hz]
          unfold State.partsBound
          congr 1
          exact List.map_congr_left fun q hq => (h.inv.frozen e hes q.1 (child_strict (hmem q hq))).link q.2 i
  · intro m i
    rw [merged_complete_child he, merged_bound_other (child_ne he)]

theorem cut_top {t : Cluster} {L : List Cluster} (h : Cut t (t :: L)) (hn : t.sidbs.Nodup) : L = [] := by
  obtain ⟨h1, _, h3⟩ := cut_apart h hn
  cases L with
  | nil => rfl
  | cons a l =>
    obtain ⟨x, hx⟩ := List.exists_mem_of_ne_nil _ (sidbs_ne a)
    have hsub := (sidbs_sublist (cut_subs h (c := a) (by simp))).subset hx
    have := h3 a (by simp) t (by simp) x hx hsub
    rw [this] at h1
    simp at h1

theorem Merge.notTop (h : Merge E P top s p L) : s.clustering ≠ [top] ∧ top ∉ p.children := by
  have hcount := count_subs (cut_subs h.cut (c := p) (by simp))
  have h2 : top ∉ p.children := fun hh => absurd (count_child hh) (by omega)
  refine ⟨?_, h2⟩
  intro e
  obtain ⟨d, hd⟩ := List.exists_mem_of_ne_nil _ h.ch
  have := h.child hd
  rw [e] at this
  simp at this
  rw [this] at hd
  exact h2 hd

theorem Merge.invMerged (h : Merge E P top s p L) : Inv E P top (merged E P s p) := by
  refine ⟨cut_perm h.cut h.clustering, h.recvOk, ?_, ?_, ?_⟩
  · intro c hc
    rcases List.mem_cons.mp (h.clustering.mem_iff.mp hc) with rfl | hc
    · exact h.activeSelf
    · exact h.activeOther hc
  · intro c hc d hd
    rcases List.mem_cons.mp (h.clustering.mem_iff.mp hc) with rfl | hc
    · obtain ⟨e, he, hde⟩ := List.mem_flatMap.mp hd
      rw [subs_eq] at hde
      rcases List.mem_cons.mp hde with rfl | hde
      · exact h.frozenChild he
      · exact h.frozenOld (h.child he) hde
    · exact h.frozenOld (h.other hc) hd
  · intro ht
    have hpt : top ≠ p := by
      rintro rfl
      have := cut_top h.cut h.nodup
      have hc := h.clustering
      rw [this] at hc
      exact ht (List.perm_singleton.mp hc)
    rw [merged_space_other hpt h.notTop.2]
    exact h.inv.topEmpty h.notTop.1

theorem Merge.emptyTop (h : Merge E P top s p L) : (leaveChildren s p).space top = [] := by
  have := h.inv.topEmpty h.notTop.1
  simp [leaveChildren, h.notTop.2, this]

/-! ## The configuration is kept -/

theorem partsBound_bracket {σ : Nat → Charge} (h : Merge E P top s p L) (hs : Sig E σ s) {i : Nat} (hi : i < E.n) :
    ((leaveChildren s p).partsBound (p.children.map fun e => (e, msOf σ e.sidbs)) i).lo ≤ contrib E σ p.sidbs i ∧
    contrib E σ p.sidbs i ≤ ((leaveChildren s p).partsBound (p.children.map fun e => (e, msOf σ e.sidbs)) i).up := by
  rw [sidbs_children h.ch, contrib_flatMap]
  unfold State.partsBound
  rw [List.map_map, Bounds.sum_map]
  have key : ∀ e ∈ p.children, _ := fun e he =>
    bound_bracket (h.inv.active e (h.child he)).sorted (hs.bracket e (h.child he)) hi
  exact ⟨sum_le_sum fun e he => (key e he).1, sum_le_sum fun e he => (key e he).2⟩

theorem Merge.combination {σ : Nat → Charge} (h : Merge E P top s p L) (hk : Keepable E P top σ) (hs : Sig E σ s) :
    (p.children.map fun e => (e, msOf σ e.sidbs)) ∈
      (combinations (leaveChildren s p) p.children).filter (verify E P (leaveChildren s p) p) := by
  refine List.mem_filter.mpr ⟨mem_combinations.mpr ⟨by simp [List.map_map, Function.comp_def], ?_⟩, ?_⟩
  · intro q hq
    obtain ⟨e, he, rfl⟩ := List.mem_map.mp hq
    obtain ⟨x, hx, hm, _⟩ := hs.has e (h.child he)
    have : (leaveChildren s p).space e = saveComps s e := by simp [leaveChildren, he]
    simp only
    rw [this]
    exact ⟨_, List.mem_map.mpr ⟨x, hx, rfl⟩, hm⟩
  · unfold verify
    rw [List.all_eq_true]
    intro q hq
    obtain ⟨e, he, rfl⟩ := List.mem_map.mp hq
    have hesub : e ∈ top.subs := cut_subs h.inv.cut (h.child he)
    refine keepable_analysis hk hesub ?_
    intro i hi
    have hin : i < E.n := hk.range i ((sidbs_sublist hesub).subset hi)
    have hip : i ∈ p.sidbs := (sidbs_sublist (strict_subs (child_strict he))).subset hi
    have h1 := partsBound_bracket h hs hin
    have h2 : (leaveChildren s p).recv p i = Bounds.sum (L.map fun o => s.range o i) := by
      rw [← h.derived hip]; simp [leaveChildren, hip]
    have h3 := contrib_split (E := E) σ h.cut hk.nodup (c := p) (by simp) i
    rw [List.filter_cons_of_neg (by simp), filter_all_ne h.pL] at h3
    have key : ∀ o ∈ L, _ := fun o ho =>
      range_bracket (h.inv.active o (h.other ho)).sorted (hs.bracket o (h.other ho)) hin
    refine fits_of_suits (hk.suits i hin) ?_ ?_
    · rw [h3, h2, Bounds.sum_map]
      change (if i ∈ p.sidbs then _ else _ : Bounds).lo + _ ≤ _
      rw [if_pos hip]
      exact add_le_add h1.1 (sum_le_sum fun o ho => (key o ho).1)
    · rw [h3, h2, Bounds.sum_map]
      change _ ≤ (if i ∈ p.sidbs then _ else _ : Bounds).up + _
      rw [if_pos hip]
      exact add_le_add h1.2 (sum_le_sum fun o ho => (key o ho).2)

theorem Merge.sigMerged {σ : Nat → Charge} (h : Merge E P top s p L) (hk : Keepable E P top σ) (hs : Sig E σ s) :
    Sig E σ (merged E P s p) ∧ mergedSpace E P (leaveChildren s p) p ≠ [] := by
  obtain ⟨x, hx, hxm, hxc⟩ := h.collects.to_ _ (h.combination hk hs)
  have hms : x.ms = msOf σ p.sidbs := by rw [hxm, sumMs_children, ← sidbs_children h.ch]
  have hother : ∀ k d, k ∈ s.clustering → (d = k ∧ k ∈ L ∨ d ∈ k.strict) → Has σ s d → Has σ (merged E P s p) d := by
    rintro k d hk' hd ⟨z, hz, hr⟩
    have hne : d ≠ p ∧ d ∉ p.children := by
      rcases hd with ⟨rfl, hl⟩ | hd
      · exact ⟨fun e => h.pL (e ▸ hl), fun hh => h.nodups.2.2 d hh hl⟩
      · exact ⟨(h.un hk' hd).2, (h.un hk' hd).1⟩
    exact ⟨z, by rw [merged_space_other hne.1 hne.2]; exact hz, hr⟩
  have hchild : ∀ e ∈ p.children, Has σ (merged E P s p) e := by
    intro e he
    obtain ⟨z, hz, hzm, hy⟩ := hs.has e (h.child he)
    have hmem : _ ∈ saveComps s e := List.mem_map.mpr ⟨z, hz, rfl⟩
    rw [← merged_space_child (E := E) (P := P) he] at hmem
    refine ⟨_, hmem, hzm, ?_⟩
    intro hch
    obtain ⟨y, hy, hyp⟩ := hy hch
    exact ⟨_, List.mem_map.mpr ⟨y, hy, rfl⟩, hyp⟩
  refine ⟨⟨?_, ?_, ?_, ?_⟩, fun e => by rw [e] at hx; cases hx⟩
  · intro c hc
    rcases List.mem_cons.mp (h.clustering.mem_iff.mp hc) with rfl | hc
    · refine ⟨x, ?_, hms, fun _ => ⟨_, hxc, rfl⟩⟩
      rw [merged_space_self]
      exact (h.reorderStates _).mem_iff.mpr hx
    · exact hother c c (h.other hc) (Or.inl ⟨rfl, hc⟩) (hs.has c (h.other hc))
  · intro c hc
    rcases List.mem_cons.mp (h.clustering.mem_iff.mp hc) with rfl | hc
    · intro i hi
      have hb := partsBound_bracket h hs hi
      by_cases hic : i ∈ c.sidbs
      · rw [merged_projs_in hic]
        have hbi : (composition (leaveChildren s c) c (c.children.map fun e => (e, msOf σ e.sidbs))).bounds i =
            (leaveChildren s c).partsBound (c.children.map fun e => (e, msOf σ e.sidbs)) i := if_pos hic
        refine ⟨⟨meetLo (x.comps.map fun y => (y.bounds i).lo), x.ms⟩, ?_, ⟨meetUp (x.comps.map fun y => (y.bounds i).up), x.ms⟩, ?_, hms, hms, ?_, ?_⟩
        · exact mem_ordered.mpr (List.mem_flatMap.mpr ⟨x, hx, by simp⟩)
        · exact mem_ordered.mpr (List.mem_flatMap.mpr ⟨x, hx, by simp⟩)
        · refine le_trans (meetLo_le (List.mem_map.mpr ⟨_, hxc, rfl⟩)) ?_
          rw [hbi]; exact hb.1
        · refine le_trans ?_ (le_meetUp (List.mem_map.mpr ⟨_, hxc, rfl⟩))
          rw [hbi]; exact hb.2
      · rw [merged_projs_out hic]
        have hall : (x.ms, composition (leaveChildren s c) c (c.children.map fun e => (e, msOf σ e.sidbs))) ∈
            allComps (mergedSpace E P (leaveChildren s c) c) :=
          List.mem_flatMap.mpr ⟨x, hx, List.mem_map.mpr ⟨_, hxc, rfl⟩⟩
        refine ⟨⟨_, _⟩, mem_ordered.mpr (List.mem_append.mpr (Or.inl (List.mem_map.mpr ⟨_, hall, rfl⟩))),
          ⟨_, _⟩, mem_ordered.mpr (List.mem_append.mpr (Or.inr (List.mem_map.mpr ⟨_, hall, rfl⟩))), ?_, ?_, hb.1, hb.2⟩
        · exact hxm.symm.trans hms
        · exact hxm.symm.trans hms
    · have hcp : c ≠ p := fun e => h.pL (e ▸ hc)
      intro i hi
      have hpr : (merged E P s p).projs c i = s.projs c i := by simp [merged, enterParent, hcp, leaveChildren]
      rw [hpr]
      exact hs.bracket c (h.other hc) i hi
  · intro c hc d hd
    rcases List.mem_cons.mp (h.clustering.mem_iff.mp hc) with rfl | hc
    · obtain ⟨e, he, hde⟩ := List.mem_flatMap.mp hd
      rw [subs_eq] at hde
      rcases List.mem_cons.mp hde with rfl | hde
      · exact hchild d he
      · exact hother e d (h.child he) (Or.inr hde) (hs.fhas e (h.child he) d hde)
    · exact hother c d (h.other hc) (Or.inr hd) (hs.fhas c (h.other hc) d hd)
  · intro c hc d hd i hi
    rcases List.mem_cons.mp (h.clustering.mem_iff.mp hc) with rfl | hc
    · obtain ⟨e, he, hde⟩ := List.mem_flatMap.mp hd
      rw [subs_eq] at hde
      rcases List.mem_cons.mp hde with rfl | hde
      · rw [merged_complete_child he]
        exact bound_bracket (h.inv.active d (h.child he)).sorted (hs.bracket d (h.child he)) hi
      · rw [merged_complete_other (h.un (h.child he) hde).1]
        exact hs.fbracket e (h.child he) d hde i hi
    · rw [merged_complete_other (h.un (h.other hc) hd).1]
      exact hs.fbracket c (h.other hc) d hd i hi

end Verif.Sidb.Gss
