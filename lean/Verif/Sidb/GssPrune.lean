import Verif.Sidb.GssInv

/-!
# Pruning keeps the invariants
-/
namespace Verif.Sidb.Gss

open Verif.Sidb Cluster

theorem mem_others {s : State} {c o : Cluster} : o ∈ s.others c ↔ o ∈ s.clustering ∧ o ≠ c := by
  simp [State.others]

/-- The conditions under which the bounds of a configuration are right. -/
structure Tight (E : Env) (top : Cluster) (σ : Nat → Charge) (s : State) : Prop where
  cut : Cut top s.clustering
  recv : RecvOk s
  sorted : ∀ c ∈ s.clustering, ∀ i, Sorted (s.projs c i)
  bracket : ∀ c ∈ s.clustering, Bracket E σ s c

theorem contrib_split {E : Env} {top : Cluster} {L : List Cluster} (σ : Nat → Charge) (hcut : Cut top L)
    (hn : top.sidbs.Nodup) {c : Cluster} (hc : c ∈ L) (i : Nat) :
    contrib E σ top.sidbs i = contrib E σ c.sidbs i + ((L.filter fun o => o ≠ c).map fun o => contrib E σ o.sidbs i).sum := by
  rw [← contrib_perm E σ (cut_sidbs hcut), contrib_flatMap, sum_split (cut_apart hcut hn).1 hc]

theorem recv_bracket {E : Env} {top : Cluster} {σ : Nat → Charge} {s : State} (h : Tight E top σ s) {c : Cluster}
    (hc : c ∈ s.clustering) {i : Nat} (hi : i ∈ c.sidbs) (hin : i < E.n) :
    (s.recv c i).lo ≤ ((s.others c).map fun o => contrib E σ o.sidbs i).sum ∧
    ((s.others c).map fun o => contrib E σ o.sidbs i).sum ≤ (s.recv c i).up := by
  rw [h.recv c hc i hi, Bounds.sum_map]
  have key : ∀ o ∈ s.others c, _ := fun o ho =>
    range_bracket (h.sorted o (mem_others.mp ho).1) (h.bracket o (mem_others.mp ho).1) hin
  exact ⟨sum_le_sum fun o ho => (key o ho).1, sum_le_sum fun o ho => (key o ho).2⟩

theorem fits_active {E : Env} {top : Cluster} {σ : Nat → Charge} {s : State} (h : Tight E top σ s)
    (hn : top.sidbs.Nodup) (hlt : ∀ i ∈ top.sidbs, i < E.n) (hw : ∀ i < E.n, Suits E (σ i) (contrib E σ top.sidbs i))
    {c : Cluster} (hc : c ∈ s.clustering) {i : Nat} (hi : i ∈ c.sidbs) :
    Fits E (σ i) (s.multisetBounds c (msOf σ c.sidbs) i) := by
  have hin : i < E.n := hlt i ((sidbs_sublist (cut_subs h.cut hc)).subset hi)
  have h1 := bound_bracket (h.sorted c hc) (h.bracket c hc) hin
  have h2 := recv_bracket h hc hi hin
  have h3 := contrib_split (E := E) σ h.cut hn hc i
  refine fits_of_suits (hw i hin) ?_ ?_
  · rw [h3]; exact add_le_add h1.1 h2.1
  · rw [h3]; exact add_le_add h1.2 h2.2

/-! ## One invalid multiset -/

/-- SiDBs that a cluster projects onto from outside. -/
def Outside (s : State) (c : Cluster) (i : Nat) : Prop := ∃ o ∈ s.others c, i ∈ o.sidbs

theorem handleInvalid_spec {top c : Cluster} {m : Multiset} {s s' : State} (hcut : Cut top s.clustering)
    (hn : top.sidbs.Nodup) (hc : c ∈ s.clustering) (hr : RecvOk s) (h : handleInvalid c m s = some s') :
    s'.clustering = s.clustering ∧ s'.space = s.space ∧ s'.complete = s.complete ∧ RecvOk s' ∧
    (∀ i, Outside s c i → s'.projs c i = without (s.projs c i) m) ∧
    (∀ c' i, ¬ (c' = c ∧ Outside s c i) → s'.projs c' i = s.projs c' i) := by
  unfold handleInvalid at h
  split_ifs at h with hok
  cases h
  refine ⟨rfl, rfl, rfl, ?_, ?_, ?_⟩
  · intro c' hc' i hi
    have hc'' : c' ∈ s.clustering := hc'
    change (if c' ∈ s.others c ∧ i ∈ c'.sidbs then (s.recv c' i).add ⟨(lowerShift (s.projs c i) m).getD 0, (upperShift (s.projs c i) m).getD 0⟩
      else s.recv c' i) = _
    by_cases e : c' = c
    · subst e
      rw [if_neg (by simp [State.others]), hr c' hc'' i hi]
      congr 1
      refine List.map_congr_left fun o ho => ?_
      have ho' : o ≠ c' := (mem_others.mp ho).2
      simp [State.range, ho']
    · have ho : c' ∈ s.others c := mem_others.mpr ⟨hc'', e⟩
      rw [if_pos ⟨ho, hi⟩, hr c' hc'' i hi]
      obtain ⟨hl, hu⟩ := hok c' ho i hi
      obtain ⟨dl, hdl⟩ := Option.isSome_iff_exists.mp hl
      obtain ⟨du, hdu⟩ := Option.isSome_iff_exists.mp hu
      rw [hdl, hdu]
      have hL := (lowerShift_spec hdl).1
      have hU := upperShift_spec hdu
      have hco : c ∈ s.others c' := mem_others.mpr ⟨hc, fun h => e h.symm⟩
      have hnd : (s.others c').Nodup := (cut_apart hcut hn).1.filter _
      have hout : ∃ o ∈ s.others c, i ∈ o.sidbs := ⟨c', ho, hi⟩
      rw [Bounds.sum_map, Bounds.sum_map]
      change Bounds.add _ _ = Bounds.mk (((s.others c').map _).sum) (((s.others c').map _).sum)
      rw [sum_split hnd hco, sum_split hnd hco, sum_split hnd hco, sum_split hnd hco]
      have hsame : ∀ o ∈ (s.others c').filter (fun o => o ≠ c), o ≠ c := by
        intro o ho; simpa using (List.mem_filter.mp ho).2
      simp only [Bounds.add, Option.getD_some, State.range, hout, and_true, if_true, and_self]
      rw [hL, hU]
      congr 1
      · rw [sum_map_congr (g := fun o => lowest (if o = c then without (s.projs c i) m else s.projs o i))]
        · ring
        · intro o ho; rw [if_neg (hsame o ho)]
      · rw [sum_map_congr (g := fun o => highest (if o = c then without (s.projs c i) m else s.projs o i))]
        · ring
        · intro o ho; rw [if_neg (hsame o ho)]
  · intro i hi
    exact if_pos ⟨rfl, hi⟩
  · intro c' i hi
    exact if_neg hi

theorem handleInvalid_some {E : Env} {top : Cluster} {σ : Nat → Charge} {s : State} (h : Tight E top σ s)
    (hlt : ∀ i ∈ top.sidbs, i < E.n) {c : Cluster} (hc : c ∈ s.clustering) {m : Multiset} (hm : m ≠ msOf σ c.sidbs) :
    ∃ s', handleInvalid c m s = some s' := by
  unfold handleInvalid
  rw [if_pos]
  · exact ⟨_, rfl⟩
  · intro o ho i hi
    have hin : i < E.n := hlt i ((sidbs_sublist (cut_subs h.cut (mem_others.mp ho).1)).subset hi)
    obtain ⟨p, hp, p', hp', h1, h2, _, _⟩ := h.bracket c hc i hin
    exact ⟨lowerShift_some hp (by rw [h1]; exact hm.symm), upperShift_some hp (by rw [h1]; exact hm.symm)⟩

theorem handleInvalid_tight {E : Env} {top : Cluster} {σ : Nat → Charge} {s s' : State} (h : Tight E top σ s)
    (hn : top.sidbs.Nodup) {c : Cluster} (hc : c ∈ s.clustering) {m : Multiset} (hm : m ≠ msOf σ c.sidbs)
    (hs : handleInvalid c m s = some s') : Tight E top σ s' := by
  obtain ⟨h1, h2, h3, h4, h5, h6⟩ := handleInvalid_spec h.cut hn hc h.recv hs
  refine ⟨by rw [h1]; exact h.cut, h4, ?_, ?_⟩
  · intro c' hc' i
    rw [h1] at hc'
    by_cases e : c' = c ∧ Outside s c i
    · rw [e.1, h5 i e.2]; exact without_sorted (h.sorted c hc i)
    · rw [h6 c' i e]; exact h.sorted c' hc' i
  · intro c' hc' i hi
    rw [h1] at hc'
    by_cases e : c' = c ∧ Outside s c i
    · obtain ⟨p, hp, p', hp', a, b, d⟩ := h.bracket c hc i hi
      rw [e.1, h5 i e.2]
      exact ⟨p, mem_without.mpr ⟨hp, by rw [a]; exact hm.symm⟩, p', mem_without.mpr ⟨hp', by rw [b]; exact hm.symm⟩, a, b, d⟩
    · rw [h6 c' i e]; exact h.bracket c' hc' i hi

/-! ## A charge space -/

/-- The effect of removing multisets of a cluster from its projections. -/
structure Pruned (c : Cluster) (rem : List Multiset) (s s' : State) : Prop where
  clustering : s'.clustering = s.clustering
  space : s'.space = s.space
  complete : s'.complete = s.complete
  recv : RecvOk s'
  inside : ∀ i, Outside s c i → s'.projs c i = (s.projs c i).filter fun p => p.ms ∉ rem
  outside : ∀ c' i, ¬ (c' = c ∧ Outside s c i) → s'.projs c' i = s.projs c' i

theorem outside_congr {s s' : State} (h : s'.clustering = s.clustering) (c : Cluster) (i : Nat) :
    Outside s' c i ↔ Outside s c i := by
  simp [Outside, State.others, h]

theorem checkStates_spec {E : Env} {P : Params} {top c : Cluster} {ms rem : List Multiset} {s s' : State}
    (hcut : Cut top s.clustering) (hn : top.sidbs.Nodup) (hc : c ∈ s.clustering) (hr : RecvOk s)
    (h : checkStates E P c ms s = some (s', rem)) : Pruned c rem s s' ∧ ∀ m ∈ rem, m ∈ ms := by
  induction ms generalizing s s' rem with
  | nil =>
    simp only [checkStates, Option.some.injEq, Prod.mk.injEq] at h
    obtain ⟨rfl, rfl⟩ := h
    exact ⟨⟨rfl, rfl, rfl, hr, fun i _ => by simp, fun _ _ _ => rfl⟩, by simp⟩
  | cons m rest ih =>
    simp only [checkStates] at h
    split_ifs at h with ha
    · obtain ⟨h1, h2⟩ := ih hcut hc hr h
      exact ⟨h1, fun x hx => by simp [h2 x hx]⟩
    · rw [Option.bind_eq_some_iff] at h
      obtain ⟨t, ht, h⟩ := h
      rw [Option.map_eq_some_iff] at h
      obtain ⟨r, hr', h⟩ := h
      simp only [Prod.mk.injEq] at h
      obtain ⟨rfl, rfl⟩ := h
      obtain ⟨a1, a2, a3, a4, a5, a6⟩ := handleInvalid_spec hcut hn hc hr ht
      obtain ⟨b1, b2⟩ := ih (s := t) (s' := r.1) (rem := r.2) (by rw [a1]; exact hcut) (by rw [a1]; exact hc) a4 hr'
      refine ⟨⟨b1.clustering.trans a1, b1.space.trans a2, b1.complete.trans a3, b1.recv, ?_, ?_⟩, ?_⟩
      · intro i hi
        rw [b1.inside i ((outside_congr a1 c i).mpr hi), a5 i hi, without, List.filter_filter]
        refine List.filter_congr fun p _ => ?_
        by_cases e : p.ms = m <;> by_cases e' : p.ms ∈ r.2 <;> simp [e, e']
      · intro c' i hi
        rw [b1.outside c' i (by rw [outside_congr a1]; exact hi), a6 c' i hi]
      · intro x hx
        rcases List.mem_cons.mp hx with rfl | hx
        · simp
        · simp [b2 x hx]

/-- A configuration that the pruning must keep. -/
structure Keepable (E : Env) (P : Params) (top : Cluster) (σ : Nat → Charge) : Prop where
  nodup : top.sidbs.Nodup
  range : ∀ i ∈ top.sidbs, i < E.n
  suits : ∀ i < E.n, Suits E (σ i) (contrib E σ top.sidbs i)
  safe : (∀ i < E.n, σ i ≠ .pos) ∨ P.sizeLimit = 0 ∨ P.overlapLimit = 0

theorem keepable_analysis {E : Env} {P : Params} {top : Cluster} {σ : Nat → Charge} (hk : Keepable E P top σ) {c : Cluster}
    (hc : c ∈ top.subs) {b : Nat → Bounds} (hb : ∀ i ∈ c.sidbs, Fits E (σ i) (b i)) :
    analysis E P c (msOf σ c.sidbs) b = true := by
  have hsub := sidbs_sublist hc
  refine analysis_true σ (hk.nodup.sublist hsub) hb (sidbs_ne c) ?_
  rcases hk.safe with h | h
  · left
    simp only [msOf, List.length_eq_zero_iff, List.filter_eq_nil_iff, decide_eq_true_eq]
    exact fun i hi => h i (hk.range i (hsub.subset hi))
  · exact Or.inr h

theorem checkStates_some {E : Env} {P : Params} {top c : Cluster} {σ : Nat → Charge} (hk : Keepable E P top σ)
    {ms : List Multiset} {s : State} (ht : Tight E top σ s) (hc : c ∈ s.clustering) :
    ∃ s' rem, checkStates E P c ms s = some (s', rem) ∧ msOf σ c.sidbs ∉ rem ∧ Tight E top σ s' := by
  induction ms generalizing s with
  | nil => exact ⟨s, [], rfl, by simp, ht⟩
  | cons m rest ih =>
    simp only [checkStates]
    by_cases ha : analysis E P c m (s.multisetBounds c m) = true
    · rw [if_pos ha]; exact ih ht hc
    · rw [if_neg ha]
      have hm : m ≠ msOf σ c.sidbs := by
        rintro rfl
        exact ha (keepable_analysis hk (cut_subs ht.cut hc) fun i hi => fits_active ht hk.nodup hk.range hk.suits hc hi)
      obtain ⟨t, h1⟩ := handleInvalid_some ht hk.range hc hm
      have h2 := handleInvalid_tight ht hk.nodup hc hm h1
      have h3 := (handleInvalid_spec ht.cut hk.nodup hc ht.recv h1).1
      obtain ⟨s', rem, h4, h5, h6⟩ := ih h2 (by rw [h3]; exact hc)
      refine ⟨s', m :: rem, ?_, ?_, h6⟩
      · rw [h1, Option.bind_some, h4]; rfl
      · simp only [List.mem_cons, not_or]; exact ⟨hm.symm, h5⟩

/-- Dropping charge states of one cluster from the state. -/
structure Dropped (c : Cluster) (rem : List Multiset) (s s' : State) : Prop where
  clustering : s'.clustering = s.clustering
  here : s'.space c = (s.space c).filter fun x => x.ms ∉ rem
  there : ∀ c', c' ≠ c → s'.space c' = s.space c'
  complete : s'.complete = s.complete
  recv : RecvOk s'
  inside : ∀ i, Outside s c i → s'.projs c i = (s.projs c i).filter fun p => p.ms ∉ rem
  outside : ∀ c' i, ¬ (c' = c ∧ Outside s c i) → s'.projs c' i = s.projs c' i

theorem dropped_projs {c : Cluster} {rem : List Multiset} {s s' : State} (h : Dropped c rem s s') {c' : Cluster} {i : Nat}
    {p : Proj} (hp : p ∈ s'.projs c' i) : p ∈ s.projs c' i := by
  by_cases e : c' = c ∧ Outside s c i
  · rw [e.1, h.inside i e.2] at hp; rw [e.1]; exact (List.mem_filter.mp hp).1
  · rw [h.outside c' i e] at hp; exact hp

theorem dropped_keeps {c : Cluster} {rem : List Multiset} {s s' : State} (h : Dropped c rem s s') {c' : Cluster} {i : Nat}
    {p : Proj} (hp : p ∈ s.projs c' i) (hm : c' = c → p.ms ∉ rem) : p ∈ s'.projs c' i := by
  by_cases e : c' = c ∧ Outside s c i
  · rw [e.1, h.inside i e.2]; rw [e.1] at hp; exact List.mem_filter.mpr ⟨hp, by simpa using hm e.1⟩
  · rw [h.outside c' i e]; exact hp

theorem dropped_space {c : Cluster} {rem : List Multiset} {s s' : State} (h : Dropped c rem s s') {c' : Cluster}
    {x : ChargeState} (hx : x ∈ s'.space c') : x ∈ s.space c' ∧ (c' = c → x.ms ∉ rem) := by
  by_cases e : c' = c
  · subst e
    rw [h.here] at hx
    exact ⟨(List.mem_filter.mp hx).1, fun _ => by simpa using (List.mem_filter.mp hx).2⟩
  · rw [h.there c' e] at hx; exact ⟨hx, fun h => absurd h e⟩

theorem dropped_nodup {c : Cluster} {rem : List Multiset} {s s' : State} (h : Dropped c rem s s') (c' : Cluster)
    (hn : ((s.space c').map ChargeState.ms).Nodup) : ((s'.space c').map ChargeState.ms).Nodup := by
  by_cases e : c' = c
  · subst e; rw [h.here]; exact hn.sublist (List.filter_sublist.map _)
  · rw [h.there c' e]; exact hn

theorem comp_congr {s s' : State} {c : Cluster} {D : Nat → Prop} {x : ChargeState} {y : Composition}
    (hsp : ∀ e ∈ c.children, s'.space e = s.space e) (hco : ∀ e ∈ c.children, s'.complete e = s.complete e)
    (h : Comp s c D x y) : Comp s' c D x y := by
  obtain ⟨h1, h2, h3, h4⟩ := h
  have hmem : ∀ q ∈ y.parts, q.1 ∈ c.children := fun q hq => h1 ▸ List.mem_map_of_mem hq
  refine ⟨h1, ?_, h3, ?_⟩
  · intro q hq
    rw [hsp q.1 (hmem q hq)]; exact h2 q hq
  · intro i hi
    rw [h4 i hi]
    congr 1
    exact List.map_congr_left fun q hq => by rw [hco q.1 (hmem q hq)]

theorem dropped_inv {E : Env} {P : Params} {top c : Cluster} {rem : List Multiset} {s s' : State} (hn : top.sidbs.Nodup)
    (hc : c ∈ s.clustering) (hi : Inv E P top s) (h : Dropped c rem s s') : Inv E P top s' := by
  have hne : ∀ k ∈ s.clustering, ∀ d ∈ k.strict, d ≠ c := by
    rintro k hk d hd rfl
    exact strict_not_mem hi.cut hn hk hd hc
  refine ⟨by rw [h.clustering]; exact hi.cut, h.recv, ?_, ?_, ?_⟩
  · intro k hk
    rw [h.clustering] at hk
    have a := hi.active k hk
    refine ⟨dropped_nodup h k a.nodup, ?_, ?_, ?_, ?_, ?_⟩
    · intro i
      by_cases e : k = c ∧ Outside s c i
      · rw [e.1, h.inside i e.2]; exact List.Pairwise.filter _ ((hi.active c hc).sorted i)
      · rw [h.outside k i e]; exact a.sorted i
    · intro x hx i hin
      obtain ⟨hx1, hx2⟩ := dropped_space h hx
      obtain ⟨p, hp, hm⟩ := a.entry x hx1 i hin
      exact ⟨p, dropped_keeps h hp fun e => by rw [hm]; exact hx2 e, hm⟩
    · intro j hj x hx
      exact a.charges j hj x (dropped_space h hx).1
    · intro j hj i p hp
      exact a.pots j hj i p (dropped_projs h hp)
    · intro hch x hx
      obtain ⟨c1, c2⟩ := a.comps hch x (dropped_space h hx).1
      refine ⟨c1, fun y hy => ⟨comp_congr ?_ ?_ (c2 y hy).1, (c2 y hy).2⟩⟩
      · intro e he; exact h.there e (hne k hk e (child_strict he))
      · intro e _; rw [h.complete]
  · intro k hk d hd
    rw [h.clustering] at hk
    have f := hi.frozen k hk d hd
    have hdc := hne k hk d hd
    have hsp := h.there d hdc
    refine ⟨by rw [hsp]; exact f.nodup, ?_, ?_, ?_⟩
    · intro j hj x hx
      rw [hsp] at hx
      rw [h.complete]; exact f.charges j hj x hx
    · intro hch x hx
      rw [hsp] at hx
      obtain ⟨c1, c2⟩ := f.comps hch x hx
      refine ⟨c1, fun y hy => comp_congr ?_ ?_ (c2 y hy)⟩
      · intro e he; exact h.there e (hne k hk e (strict_child hd he))
      · intro e _; rw [h.complete]
    · intro m i
      rw [h.complete, ← f.link m i]
      simp only [State.bound]
      rw [h.outside d i (fun e => hdc e.1)]
  · intro ht
    rw [h.clustering] at ht
    have := hi.topEmpty ht
    by_cases e : top = c
    · subst e; rw [h.here, this]; rfl
    · rw [h.there top e]; exact this

theorem dropped_sig {E : Env} {P : Params} {top c : Cluster} {rem : List Multiset} {σ : Nat → Charge} {s s' : State}
    (hn : top.sidbs.Nodup) (hc : c ∈ s.clustering) (hi : Inv E P top s) (hs : Sig E σ s) (h : Dropped c rem s s')
    (hm : msOf σ c.sidbs ∉ rem) : Sig E σ s' := by
  have hne : ∀ k ∈ s.clustering, ∀ d ∈ k.strict, d ≠ c := by
    rintro k hk d hd rfl
    exact strict_not_mem hi.cut hn hk hd hc
  have has : ∀ k, Has σ s k → Has σ s' k := by
    rintro k ⟨x, hx, hxm, hy⟩
    refine ⟨x, ?_, hxm, hy⟩
    by_cases e : k = c
    · subst e
      rw [h.here]
      exact List.mem_filter.mpr ⟨hx, by rw [hxm]; simpa using hm⟩
    · rw [h.there k e]; exact hx
  refine ⟨?_, ?_, ?_, ?_⟩ <;> intro k hk <;> rw [h.clustering] at hk
  · exact has k (hs.has k hk)
  · intro i hin
    obtain ⟨p, hp, p', hp', a, b, d⟩ := hs.bracket k hk i hin
    exact ⟨p, dropped_keeps h hp fun e => by rw [a, e]; exact hm, p', dropped_keeps h hp' fun e => by rw [b, e]; exact hm, a, b, d⟩
  · intro d hd; exact has d (hs.fhas k hk d hd)
  · intro d hd; rw [h.complete]; exact hs.fbracket k hk d hd

theorem tight_of {E : Env} {P : Params} {top : Cluster} {σ : Nat → Charge} {s : State} (hi : Inv E P top s) (hs : Sig E σ s) :
    Tight E top σ s := ⟨hi.cut, hi.recv, fun c hc => (hi.active c hc).sorted, hs.bracket⟩

/-- What an update leaves. -/
structure Upd (E : Env) (P : Params) (top : Cluster) (s s' : State) (fl : Bool) : Prop where
  inv : Inv E P top s'
  clustering : s'.clustering = s.clustering
  shorter : ∀ c, (s'.space c).length ≤ (s.space c).length
  less : fl = false → ∃ c ∈ s.clustering, (s'.space c).length < (s.space c).length

theorem dropped_shorter {c : Cluster} {rem : List Multiset} {s s' : State} (h : Dropped c rem s s') (c' : Cluster) :
    (s'.space c').length ≤ (s.space c').length := by
  by_cases e : c' = c
  · subst e; rw [h.here]; exact List.length_filter_le _ _
  · rw [h.there c' e]

theorem checkSpace_dropped {E : Env} {P : Params} {top c : Cluster} {s s' : State} {fl : Bool} (hn : top.sidbs.Nodup)
    (hi : Inv E P top s) (hc : c ∈ s.clustering) (h : checkSpace E P c s = some (s', fl)) :
    (s' = s ∧ fl = true) ∨ ∃ t rem, checkStates E P c ((s.space c).map ChargeState.ms) s = some (t, rem) ∧ Dropped c rem s s' ∧
      fl = rem.isEmpty ∧ ∀ m ∈ rem, ∃ x ∈ s.space c, x.ms = m := by
  unfold checkSpace at h
  split_ifs at h with hl
  · left
    simp only [Option.some.injEq, Prod.mk.injEq] at h
    exact ⟨h.1.symm, h.2.symm⟩
  · right
    rw [Option.map_eq_some_iff] at h
    obtain ⟨⟨t, rem⟩, h1, h2⟩ := h
    simp only [Prod.mk.injEq] at h2
    obtain ⟨rfl, rfl⟩ := h2
    obtain ⟨p, hsub⟩ := checkStates_spec hi.cut hn hc hi.recv h1
    refine ⟨t, rem, h1, ⟨p.clustering, ?_, ?_, p.complete, p.recv, p.inside, p.outside⟩, rfl, ?_⟩
    · simp
    · intro c' e; simp [e, p.space]
    · intro m hm
      obtain ⟨x, hx, e⟩ := List.mem_map.mp (hsub m hm)
      exact ⟨x, hx, e⟩

theorem checkSpace_upd {E : Env} {P : Params} {top c : Cluster} {s s' : State} {fl : Bool} (hn : top.sidbs.Nodup)
    (hi : Inv E P top s) (hc : c ∈ s.clustering) (h : checkSpace E P c s = some (s', fl)) : Upd E P top s s' fl := by
  rcases checkSpace_dropped hn hi hc h with ⟨rfl, rfl⟩ | ⟨t, rem, _, hd, hf, hsub⟩
  · exact ⟨hi, rfl, fun _ => le_refl _, by simp⟩
  · refine ⟨dropped_inv hn hc hi hd, hd.clustering, dropped_shorter hd, ?_⟩
    intro e
    rw [e] at hf
    obtain ⟨m, hm⟩ := List.exists_mem_of_ne_nil rem (by rintro rfl; simp at hf)
    obtain ⟨x, hx, hxm⟩ := hsub m hm
    refine ⟨c, hc, ?_⟩
    rw [hd.here]
    refine List.length_filter_lt_length_iff_exists.mpr ⟨x, hx, by simpa [hxm] using hm⟩

theorem checkSpace_some {E : Env} {P : Params} {top c : Cluster} {σ : Nat → Charge} {s : State} (hk : Keepable E P top σ)
    (hi : Inv E P top s) (hs : Sig E σ s) (hc : c ∈ s.clustering) :
    ∃ s' fl, checkSpace E P c s = some (s', fl) ∧ Sig E σ s' := by
  by_cases hl : (s.space c).length = 1
  · exact ⟨s, true, by unfold checkSpace; rw [if_pos hl], hs⟩
  · obtain ⟨t, rem, h1, h2, _⟩ := checkStates_some (ms := (s.space c).map ChargeState.ms) hk (tight_of hi hs) hc
    have h3 : ∃ s' fl, checkSpace E P c s = some (s', fl) := by
      unfold checkSpace; rw [if_neg hl, h1]; exact ⟨_, _, rfl⟩
    obtain ⟨s', fl, h3⟩ := h3
    refine ⟨s', fl, h3, ?_⟩
    rcases checkSpace_dropped hk.nodup hi hc h3 with ⟨rfl, _⟩ | ⟨t', rem', h1', hd, _, _⟩
    · exact hs
    · rw [h1] at h1'
      simp only [Option.some.injEq, Prod.mk.injEq] at h1'
      exact dropped_sig hk.nodup hc hi hs hd (by rw [← h1'.2]; exact h2)

theorem upd_trans {E : Env} {P : Params} {top : Cluster} {s t u : State} {a b : Bool} (h : Upd E P top s t a)
    (h' : Upd E P top t u b) : Upd E P top s u (a && b) := by
  refine ⟨h'.inv, h'.clustering.trans h.clustering, fun c => (h'.shorter c).trans (h.shorter c), ?_⟩
  intro e
  cases a with
  | false =>
    obtain ⟨c, hc, hlt⟩ := h.less rfl
    exact ⟨c, hc, lt_of_le_of_lt (h'.shorter c) hlt⟩
  | true =>
    obtain ⟨c, hc, hlt⟩ := h'.less (by simpa using e)
    exact ⟨c, h.clustering ▸ hc, lt_of_lt_of_le hlt (h.shorter c)⟩

theorem updateClusters_upd {E : Env} {P : Params} {top : Cluster} {skip : Option Cluster} {L : List Cluster} {s s' : State}
    {fl : Bool} (hn : top.sidbs.Nodup) (hi : Inv E P top s) (hL : ∀ c ∈ L, c ∈ s.clustering)
    (h : updateClusters E P skip L s = some (s', fl)) : Upd E P top s s' fl := by
  induction L generalizing s fl with
  | nil =>
    simp only [updateClusters, Option.some.injEq, Prod.mk.injEq] at h
    obtain ⟨rfl, rfl⟩ := h
    exact ⟨hi, rfl, fun _ => le_refl _, by simp⟩
  | cons c rest ih =>
    simp only [updateClusters] at h
    split_ifs at h with e
    · exact ih hi (fun d hd => hL d (by simp [hd])) h
    · rw [Option.bind_eq_some_iff] at h
      obtain ⟨⟨t, a⟩, h1, h⟩ := h
      rw [Option.map_eq_some_iff] at h
      obtain ⟨⟨u, b⟩, h2, h⟩ := h
      simp only [Prod.mk.injEq] at h
      obtain ⟨rfl, rfl⟩ := h
      have hu := checkSpace_upd hn hi (hL c (by simp)) h1
      exact upd_trans hu (ih hu.inv (fun d hd => by rw [hu.clustering]; exact hL d (by simp [hd])) h2)

theorem updateClusters_some {E : Env} {P : Params} {top : Cluster} {skip : Option Cluster} {L : List Cluster}
    {σ : Nat → Charge} {s : State} (hk : Keepable E P top σ) (hi : Inv E P top s) (hs : Sig E σ s)
    (hL : ∀ c ∈ L, c ∈ s.clustering) : ∃ s' fl, updateClusters E P skip L s = some (s', fl) ∧ Sig E σ s' := by
  induction L generalizing s with
  | nil => exact ⟨s, true, rfl, hs⟩
  | cons c rest ih =>
    simp only [updateClusters]
    split_ifs with e
    · exact ih hi hs fun d hd => hL d (by simp [hd])
    · obtain ⟨t, a, h1, h2⟩ := checkSpace_some hk hi hs (hL c (by simp))
      have hu := checkSpace_upd hk.nodup hi (hL c (by simp)) h1
      obtain ⟨u, b, h3, h4⟩ := ih hu.inv h2 fun d hd => by rw [hu.clustering]; exact hL d (by simp [hd])
      exact ⟨u, a && b, by rw [h1, Option.bind_some, h3]; rfl, h4⟩

theorem total_less {E : Env} {P : Params} {top : Cluster} {s s' : State} (h : Upd E P top s s' false) : s'.total < s.total := by
  unfold State.total
  rw [h.clustering]
  obtain ⟨c, hc, hlt⟩ := h.less rfl
  have key : ∀ L : List Cluster, (L.map fun c => (s'.space c).length).sum ≤ (L.map fun c => (s.space c).length).sum ∧
      (c ∈ L → (L.map fun c => (s'.space c).length).sum < (L.map fun c => (s.space c).length).sum) := by
    intro L
    induction L with
    | nil => simp
    | cons a t ih =>
      have ha := h.shorter a
      simp only [List.map_cons, List.sum_cons]
      refine ⟨by omega, ?_⟩
      intro hm
      rcases List.mem_cons.mp hm with rfl | hm
      · omega
      · have := ih.2 hm; omega
  exact (key _).2 hc

theorem fixpoint_inv {E : Env} {P : Params} {top : Cluster} {k : Nat} {s s' : State} (hn : top.sidbs.Nodup)
    (hi : Inv E P top s) (h : fixpoint E P k s = some s') : Inv E P top s' ∧ s'.clustering = s.clustering := by
  induction k generalizing s with
  | zero => simp [fixpoint] at h
  | succ k ih =>
    simp only [fixpoint, updateSpaces] at h
    rw [Option.bind_eq_some_iff] at h
    obtain ⟨⟨t, a⟩, h1, h⟩ := h
    have hu := updateClusters_upd hn hi (fun c hc => hc) h1
    simp only at h
    split_ifs at h
    · cases h; exact ⟨hu.inv, hu.clustering⟩
    · have := ih hu.inv h; exact ⟨this.1, this.2.trans hu.clustering⟩

theorem fixpoint_some {E : Env} {P : Params} {top : Cluster} {σ : Nat → Charge} {k : Nat} {s : State}
    (hk : Keepable E P top σ) (hi : Inv E P top s) (hs : Sig E σ s) (hf : s.total < k) :
    ∃ s', fixpoint E P k s = some s' ∧ Sig E σ s' := by
  induction k generalizing s with
  | zero => omega
  | succ k ih =>
    simp only [fixpoint, updateSpaces]
    obtain ⟨t, a, h1, h2⟩ := updateClusters_some (skip := none) hk hi hs (fun c hc => hc)
    have hu := updateClusters_upd hk.nodup hi (fun c hc => hc) h1
    rw [h1, Option.bind_some]
    cases a with
    | true => exact ⟨t, by simp, h2⟩
    | false =>
      have := total_less hu
      simpa using ih hu.inv h2 (by omega)

end Verif.Sidb.Gss
