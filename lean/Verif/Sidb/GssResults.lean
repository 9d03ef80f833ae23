import Verif.Sidb.GssUnfold

/-!
# The results of ClusterComplete
-/
namespace Verif.Sidb.Gss

open Verif.Sidb Cluster

variable {E : Env} {P : Params} {top : Cluster} {s : State}

/-- Physical validity with thresholds that may be met exactly: the population criterion of ClusterComplete is not
strict. -/
def Metastable (E : Env) (c : Nat → Charge) : Prop :=
  (∀ i < E.n, Suits E (c i) (-potential E c i - E.ext i)) ∧ ∀ i < E.n, ∀ j < E.n, NoHop E c i j

theorem metastable_of_valid {c : Nat → Charge} (h : Valid E c) : Metastable E c := by
  refine ⟨fun i hi => ?_, h.2⟩
  obtain ⟨h1, h2, h3⟩ := h.1 i hi
  cases e : c i <;> simp only [Suits]
  · have := h1 e; linarith
  · have := h2 e; constructor <;> linarith
  · have := h3 e; linarith

theorem metastable_congr {c c' : Nat → Charge} (h : ∀ i < E.n, c i = c' i) (hm : Metastable E c) : Metastable E c' := by
  refine ⟨fun i hi => ?_, fun i hi j hj => ?_⟩
  · rw [← h i hi, ← potential_congr E h]; exact hm.1 i hi
  · have := hm.2 i hi j hj
    unfold NoHop at this ⊢
    rwa [← h i hi, ← h j hj, ← potential_congr E h, ← potential_congr E h]

theorem ofList_charges (c : Nat → Charge) {n i : Nat} (h : i < n) : ofList ((List.range n).map c) i = c i := by
  simp [ofList, List.getD, h]

theorem msOf_congr {c c' : Nat → Charge} {l : List Nat} (h : ∀ i ∈ l, c i = c' i) : msOf c l = msOf c' l := by
  unfold msOf
  congr 2 <;> exact List.filter_congr fun i hi => by rw [h i hi]

theorem msOf_single (σ : Nat → Charge) (k : Nat) : msOf σ [k] = .single (σ k) := by
  cases e : σ k <;> simp [msOf, e, Multiset.single]

/-- What holds of a result. -/
structure Good (E : Env) (P : Params) (l : List Charge) : Prop where
  length : l.length = E.n
  admissible : ∀ c ∈ l, Admissible P.base c
  metastable : Metastable E (ofList l)

theorem suits_of_meets (h : St E top s x) (hr : Ready' E P top s) (hl : x.parts.length = E.n) (hm : meetsCriterion E x = true)
    {q : Cluster × Multiset} (hq : q ∈ x.parts) {k : Nat} (hk : q = (.leaf k, .single ((surface E x).charge k))) (hkn : k < E.n) :
    Suits E ((surface E x).charge k) (contrib E (surface E x).charge (List.range E.n) k) := by
  have := (meets_iff x).mp hm q hq
  rw [hk] at this
  simp only [sidbs, Cluster.size, List.length_singleton, h.exact hr hl hkn, List.filter_cons, List.filter_nil] at this
  cases e : (surface E x).charge k <;> rw [e] at this <;> simp only [Multiset.single] at this <;> simp only [Suits]
  · have h1 := this.1
    split_ifs at h1 with hf
    · simpa [failNeg] using hf
    · simp at h1
  · have h1 := this.2.2
    split_ifs at h1 with hf
    · simpa [ubFailNeu, lbFailNeu] using hf
    · simp at h1
  · have h1 := this.2.1
    split_ifs at h1 with hf
    · simpa [failPos] using hf
    · simp at h1

theorem admissible_of_mem {q : Charge} {b : Nat} (hb : b = 2 ∨ b = 3) (h : q ∈ chargesOf b) : Admissible b q := by
  rcases hb with rfl | rfl <;> simp [chargesOf] at h <;> simp [Admissible] <;> tauto

theorem St.mem_leaf (h : St E top s x) (hr : Ready' E P top s) (hl : x.parts.length = E.n) {k : Nat} (hk : k < E.n) :
    ∃ q ∈ x.parts, q = (.leaf k, .single ((surface E x).charge k)) ∧ (surface E x).charge k ∈ chargesOf P.base := by
  have : k ∈ x.parts.flatMap fun q => q.1.sidbs := h.perm.mem_iff.mpr (List.mem_range.mpr hk)
  obtain ⟨q, hq, hkq⟩ := List.mem_flatMap.mp this
  obtain ⟨k', _, hqe, hc, _⟩ := h.leaf hr hl hq
  have : k = k' := by rw [hqe] at hkq; simpa [sidbs] using hkq
  subst this
  exact ⟨q, hq, hqe, hc⟩

theorem sumMs_parts {σ : Nat → Charge} {parts : List (Cluster × Multiset)} (h : ∀ q ∈ parts, msOf σ q.1.sidbs = q.2) :
    parts = (parts.map Prod.fst).map fun e => (e, msOf σ e.sidbs) := by
  rw [List.map_map]
  conv_lhs => rw [← List.map_id parts]
  refine List.map_congr_left fun q hq => ?_
  simp [h q hq]

theorem unfold_sound (hE : E.Physical) (hn : 0 < E.n) (hb : P.base = 2 ∨ P.base = 3) (hr : Ready' E P top s) {k : Nat}
    {x : Clustering} (h : St E top s x) {l : List Charge} (hl : l ∈ unfold E s k x) :
    Good E P l ∧ ∀ q ∈ x.parts, msOf (ofList l) q.1.sidbs = q.2 := by
  induction k generalizing x with
  | zero => simp [unfold] at hl
  | succ k ih =>
    simp only [unfold] at hl
    split_ifs at hl with hm hlen hst
    · cases hl
    · simp only [List.mem_singleton] at hl
      have hm' : meetsCriterion E x = true := by simpa using hm
      have hex := h.surfaceExact hE hr hlen
      have hagree : ∀ i < E.n, (surface E x).charge i = ofList l i := by
        intro i hi; rw [hl]; exact (ofList_charges _ hi).symm
      refine ⟨⟨by rw [hl]; simp [Cds.charges], ?_, ?_⟩, ?_⟩
      · intro c hc
        rw [hl] at hc
        obtain ⟨i, hi, rfl⟩ := List.mem_map.mp hc
        obtain ⟨_, _, _, hc⟩ := h.mem_leaf hr hlen (List.mem_range.mp hi)
        exact admissible_of_mem hb hc
      · refine metastable_congr hagree ⟨?_, (configurationStable_iff E _ hex).mp hst⟩
        intro i hi
        obtain ⟨q, hq, hqe, _⟩ := h.mem_leaf hr hlen hi
        rw [← contrib_all hE _ hi]
        exact suits_of_meets h hr hlen hm' hq hqe hi
      · intro q hq
        obtain ⟨j, hj, hqe, _, _⟩ := h.leaf hr hlen hq
        rw [hqe]
        simp only [sidbs]
        rw [msOf_single, hagree j hj]
    · cases hl
    · obtain ⟨hk, hch⟩ := h.next hlen hn
      rw [List.getElem?_eq_getElem hk] at hl
      simp only at hl
      obtain ⟨y, hy, hl⟩ := List.mem_flatMap.mp hl
      obtain ⟨g, hms⟩ := ih (h.step hr hk hch hy) hl
      refine ⟨g, ?_⟩
      have hperm := takeOut_perm (s := s) x hk
      obtain ⟨c1, _, c3, _⟩ := h.comp hr (List.getElem_mem hk) hch hy
      intro q hq
      rcases List.mem_cons.mp (hperm.mem_iff.mp hq) with e | hq'
      · have hy' := sumMs_parts fun r hr' => hms r (List.mem_append.mpr (Or.inr hr'))
        rw [e, ← c3, hy', sumMs_children, c1, ← sidbs_children hch]
      · exact hms q (List.mem_append.mpr (Or.inl hq'))

/-- The parts of a composition of which a configuration is a result. -/
theorem parts_of (hE : E.Physical) (hn : 0 < E.n) (hb : P.base = 2 ∨ P.base = 3) (hr : Ready' E P top s) {k : Nat}
    {z : Clustering} {y : Composition} (h : St E top s (addParts z y)) {l : List Charge} (hl : l ∈ unfold E s k (addParts z y)) :
    y.parts = (y.parts.map Prod.fst).map fun e => (e, msOf (ofList l) e.sidbs) :=
  sumMs_parts fun r hr' => (unfold_sound hE hn hb hr h hl).2 r (List.mem_append.mpr (Or.inr hr'))

theorem unfold_nodup (hE : E.Physical) (hn : 0 < E.n) (hb : P.base = 2 ∨ P.base = 3) (hr : Ready' E P top s) {k : Nat}
    {x : Clustering} (h : St E top s x) : (unfold E s k x).Nodup := by
  induction k generalizing x with
  | zero => simp [unfold]
  | succ k ih =>
    simp only [unfold]
    split_ifs with hm hlen hst
    · simp
    · simp
    · simp
    · obtain ⟨hk, hch⟩ := h.next hlen hn
      rw [List.getElem?_eq_getElem hk]
      simp only
      rw [List.nodup_flatMap]
      refine ⟨fun y hy => ih (h.step hr hk hch hy), ?_⟩
      by_cases hne : compsOf s x.parts[largest x.parts] = []
      · rw [hne]; exact List.Pairwise.nil
      · obtain ⟨y0, hy0⟩ := List.exists_mem_of_ne_nil _ hne
        obtain ⟨z, hz, _, hc⟩ := compsOf_mem hy0
        have hnd := ((hr.frozen _ (h.below _ (List.getElem_mem hk)).1).comps hch z hz).1
        rw [← hc] at hnd
        unfold List.Nodup at hnd
        rw [List.pairwise_map] at hnd
        refine hnd.imp_of_mem ?_
        intro a b ha hb' hab l h1 h2
        have p1 := parts_of hE hn hb hr (h.step hr hk hch ha) h1
        have p2 := parts_of hE hn hb hr (h.step hr hk hch hb') h2
        rw [(h.comp hr (List.getElem_mem hk) hch ha).1] at p1
        rw [(h.comp hr (List.getElem_mem hk) hch hb').1] at p2
        exact hab (p1.trans p2.symm)

theorem ready_of (hi : Inv E P top s) (hc : s.clustering = [top]) (hin : ∀ i, Cluster.one i ∉ top.strict) :
    Ready' E P top s := ⟨fun d hd => hi.frozen top (by simp [hc]) d hd, hin⟩

theorem start (hs : Setting E P top) (hi : Inv E P top s) (hc : s.clustering = [top]) {x : ChargeState}
    (hx : x ∈ s.space top) {y : Composition} (hy : y ∈ x.comps) : St E top s (addParts ⟨[], fun _ => ⟨0, 0⟩⟩ y) := by
  obtain ⟨⟨c1, c2, c3, c4⟩, _⟩ := ((hi.active top (by simp [hc])).comps hs.children x hx).2 y hy
  refine ⟨?_, ?_, ?_⟩
  · intro q hq
    have hq' : q ∈ y.parts := by simpa [addParts] using hq
    exact ⟨child_strict (c1 ▸ List.mem_map_of_mem hq'), c2 q hq'⟩
  · change (([] ++ y.parts).flatMap _).Perm _
    rw [List.nil_append, parts_sidbs c1 hs.children]
    exact hs.sidbs
  · intro i hin
    have hit : i ∈ top.sidbs := hs.sidbs.mem_iff.mpr (List.mem_range.mpr hin)
    change (⟨0, 0⟩ : Bounds).add (y.bounds i) = Bounds.sum (([] ++ y.parts).map _)
    rw [c4 i hit, List.nil_append]
    simp [Bounds.add]

theorem Setting.pos (h : Setting E P top) : 0 < E.n := by
  obtain ⟨x, hx⟩ := List.exists_mem_of_ne_nil _ (sidbs_ne top)
  have := h.lt x hx
  omega

theorem collect_sound (hs : Setting E P top) (hin : ∀ i, Cluster.one i ∉ top.strict) (hf : Final E P top s) {l : List Charge}
    (hl : l ∈ collect E s top) : Good E P l := by
  unfold collect at hl
  obtain ⟨⟨m, y⟩, hxy, hl⟩ := List.mem_flatMap.mp hl
  obtain ⟨x, hx, hxy⟩ := List.mem_flatMap.mp hxy
  obtain ⟨y', hy, e⟩ := List.mem_map.mp hxy
  simp only [Prod.mk.injEq] at e
  obtain ⟨_, rfl⟩ := e
  rcases hf with hf | ⟨hi, hc⟩
  · rw [hf] at hx; cases hx
  · exact (unfold_sound hs.phys hs.pos hs.base (ready_of hi hc hin) (start hs hi hc hx hy) hl).1

theorem collect_nodup (hs : Setting E P top) (hin : ∀ i, Cluster.one i ∉ top.strict) (hf : Final E P top s) :
    (collect E s top).Nodup := by
  unfold collect allComps
  rcases hf with hf | ⟨hi, hc⟩
  · rw [hf]; simp
  · have hr := ready_of hi hc hin
    have ha := hi.active top (by simp [hc])
    have hparts : ∀ x ∈ s.space top, ∀ y ∈ x.comps, ∀ l ∈ unfold E s top.count (addParts ⟨[], fun _ => ⟨0, 0⟩⟩ y),
        y.parts = top.children.map fun e => (e, msOf (ofList l) e.sidbs) := by
      intro x hx y hy l hl
      have := parts_of hs.phys hs.pos hs.base hr (start hs hi hc hx hy) hl
      rwa [((ha.comps hs.children x hx).2 y hy).1.1] at this
    rw [List.flatMap_assoc, List.nodup_flatMap]
    refine ⟨?_, ?_⟩
    · intro x hx
      rw [List.flatMap_map, List.nodup_flatMap]
      refine ⟨fun y hy => unfold_nodup hs.phys hs.pos hs.base hr (start hs hi hc hx hy), ?_⟩
      have hnd := (ha.comps hs.children x hx).1
      unfold List.Nodup at hnd
      rw [List.pairwise_map] at hnd
      refine hnd.imp_of_mem ?_
      intro a b ha' hb' hab l h1 h2
      exact hab ((hparts x hx a ha' l h1).trans (hparts x hx b hb' l h2).symm)
    · have hnd := ha.nodup
      unfold List.Nodup at hnd
      rw [List.pairwise_map] at hnd
      refine hnd.imp_of_mem ?_
      intro x x' hx hx' hab l h1 h2
      simp only [List.flatMap_map] at h1 h2
      obtain ⟨y, hy, h1⟩ := List.mem_flatMap.mp h1
      obtain ⟨y', hy', h2⟩ := List.mem_flatMap.mp h2
      have e := (hparts x hx y hy l h1).trans (hparts x' hx' y' hy' l h2).symm
      have e1 := ((ha.comps hs.children x hx).2 y hy).1.2.2.1
      have e2 := ((ha.comps hs.children x' hx').2 y' hy').1.2.2.1
      exact hab (by rw [← e1, ← e2, e])

/-! ## Completeness -/

theorem filter_length_le {l : List Nat} {f g : Nat → Bool} (h : ∀ i ∈ l, f i = true → g i = true) :
    (l.filter f).length ≤ (l.filter g).length := by
  induction l with
  | nil => simp
  | cons a t ih =>
    have := ih fun i hi => h i (by simp [hi])
    have ha := h a (by simp)
    simp only [List.filter_cons]
    split_ifs with h1 h2
    · simpa using this
    · exact absurd (ha h1) h2
    · simp; omega
    · exact this

theorem meets_of {σ : Nat → Charge} (h : St E top s x) (hms : ∀ q ∈ x.parts, q.2 = msOf σ q.1.sidbs)
    (hf : ∀ i < E.n, Fits E (σ i) (x.bounds i)) : meetsCriterion E x = true := by
  rw [meets_iff]
  intro q hq
  have hlt : ∀ i ∈ q.1.sidbs, i < E.n := by
    intro i hi
    simpa using h.perm.mem_iff.mp (List.mem_flatMap.mpr ⟨q, hq, hi⟩)
  have hcs := count_split σ q.1.sidbs
  rw [hms q hq]
  have h1 : (q.1.sidbs.filter fun i => σ i = .neg).length ≤ (q.1.sidbs.filter fun i => !failNeg E (x.bounds i).lo).length := by
    refine filter_length_le fun i hi e => ?_
    have := hf i (hlt i hi)
    rw [decide_eq_true_eq.mp e] at this
    simpa [failNeg, Fits] using this
  have h2 : (q.1.sidbs.filter fun i => σ i = .pos).length ≤ (q.1.sidbs.filter fun i => !failPos E (x.bounds i).up).length := by
    refine filter_length_le fun i hi e => ?_
    have := hf i (hlt i hi)
    rw [decide_eq_true_eq.mp e] at this
    simpa [failPos, Fits] using this
  have h3 : (q.1.sidbs.filter fun i => σ i = .neu).length ≤
      (q.1.sidbs.filter fun i => !ubFailNeu E (x.bounds i).up && !lbFailNeu E (x.bounds i).lo).length := by
    refine filter_length_le fun i hi e => ?_
    have := hf i (hlt i hi)
    rw [decide_eq_true_eq.mp e] at this
    simpa [ubFailNeu, lbFailNeu, Fits] using this
  refine ⟨h1, h2, ?_⟩
  simp only [msOf, Cluster.size]
  omega

theorem compsOf_eq {q : Cluster × Multiset} {z : ChargeState} (hn : ((s.space q.1).map ChargeState.ms).Nodup)
    (hz : z ∈ s.space q.1) (hm : z.ms = q.2) : compsOf s q = z.comps := by
  unfold compsOf
  cases e : (s.space q.1).find? fun x => x.ms = q.2 with
  | none => have := List.find?_eq_none.mp e z hz; simp [hm] at this
  | some z' =>
    have h1 := List.mem_of_find?_eq_some e
    have h2 : z'.ms = q.2 := by simpa using List.find?_some e
    rw [List.inj_on_of_nodup_map hn h1 hz (h2.trans hm.symm)]

theorem unfold_complete (hE : E.Physical) (hn : 0 < E.n) (hr : Ready' E P top s) {σ : Nat → Charge}
    (hhas : ∀ d ∈ top.strict, Has σ s d)
    (hbr : ∀ d ∈ top.strict, ∀ i < E.n, (s.complete d (msOf σ d.sidbs) i).lo ≤ contrib E σ d.sidbs i ∧
      contrib E σ d.sidbs i ≤ (s.complete d (msOf σ d.sidbs) i).up)
    (hσ : Metastable E σ) {k : Nat} {x : Clustering} (h : St E top s x) (hms : ∀ q ∈ x.parts, q.2 = msOf σ q.1.sidbs)
    (hk : (x.parts.map fun q => q.1.count).sum ≤ k) : (List.range E.n).map σ ∈ unfold E s k x := by
  have hfits : ∀ i < E.n, Fits E (σ i) (x.bounds i) := by
    intro i hi
    have hb : ∀ q ∈ x.parts, (s.complete q.1 q.2 i).lo ≤ contrib E σ q.1.sidbs i ∧
        contrib E σ q.1.sidbs i ≤ (s.complete q.1 q.2 i).up := by
      intro q hq
      rw [hms q hq]; exact hbr q.1 (h.below q hq).1 i hi
    refine fits_of_suits (v := contrib E σ (List.range E.n) i) ?_ ?_ ?_
    · rw [contrib_all hE _ hi]; exact hσ.1 i hi
    · rw [h.bounds i hi, Bounds.sum_map, ← contrib_perm E _ h.perm, contrib_parts]
      exact sum_le_sum fun q hq => (hb q hq).1
    · rw [h.bounds i hi, Bounds.sum_map, ← contrib_perm E _ h.perm, contrib_parts]
      exact sum_le_sum fun q hq => (hb q hq).2
  have hmeets := meets_of h hms hfits
  induction k generalizing x with
  | zero =>
    exfalso
    cases e : x.parts with
    | nil => have := h.total; rw [e] at this; simp at this; omega
    | cons q t =>
      rw [e] at hk
      have : 0 < q.1.count := by cases q.1 <;> simp [count]
      simp at hk
      omega
  | succ k ih =>
    simp only [unfold]
    rw [if_neg (by simp [hmeets])]
    by_cases hlen : x.parts.length = E.n
    · rw [if_pos hlen]
      have hagree : ∀ i < E.n, σ i = (surface E x).charge i := by
        intro i hi
        obtain ⟨q, hq, hqe, _⟩ := h.mem_leaf hr hlen hi
        have := hms q hq
        rw [hqe] at this
        simp only [sidbs] at this
        rw [msOf_single] at this
        exact (single_inj this).symm
      have hm' := metastable_congr hagree hσ
      rw [if_pos ((configurationStable_iff E _ (h.surfaceExact hE hr hlen)).mpr hm'.2)]
      simp only [List.mem_singleton, Cds.charges]
      exact List.map_congr_left fun i hi => hagree i (List.mem_range.mp hi)
    · rw [if_neg hlen]
      obtain ⟨hkk, hch⟩ := h.next hlen hn
      rw [List.getElem?_eq_getElem hkk]
      simp only
      have hq := List.getElem_mem hkk
      obtain ⟨z, hz, hzm, hy⟩ := hhas _ (h.below _ hq).1
      obtain ⟨y, hy, hyp⟩ := hy hch
      have hyc : y ∈ compsOf s x.parts[largest x.parts] := by
        rw [compsOf_eq (hr.frozen _ (h.below _ hq).1).nodup hz (hzm.trans (hms _ hq).symm)]; exact hy
      refine List.mem_flatMap.mpr ⟨y, hyc, ?_⟩
      have hst := h.step hr hkk hch hyc
      have hperm := takeOut_perm (s := s) x hkk
      have hms' : ∀ q ∈ (addParts (takeOut s x (largest x.parts) x.parts[largest x.parts]) y).parts, q.2 = msOf σ q.1.sidbs := by
        intro q hq'
        rcases List.mem_append.mp hq' with hq' | hq'
        · exact hms q (hperm.mem_iff.mpr (by simp [hq']))
        · rw [hyp] at hq'
          obtain ⟨e, _, rfl⟩ := List.mem_map.mp hq'
          rfl
      have hfits' : ∀ i < E.n, Fits E (σ i) ((addParts (takeOut s x (largest x.parts) x.parts[largest x.parts]) y).bounds i) := by
        intro i hi
        have hb : ∀ q ∈ (addParts (takeOut s x (largest x.parts) x.parts[largest x.parts]) y).parts,
            (s.complete q.1 q.2 i).lo ≤ contrib E σ q.1.sidbs i ∧ contrib E σ q.1.sidbs i ≤ (s.complete q.1 q.2 i).up := by
          intro q hq
          rw [hms' q hq]; exact hbr q.1 (hst.below q hq).1 i hi
        refine fits_of_suits (v := contrib E σ (List.range E.n) i) ?_ ?_ ?_
        · rw [contrib_all hE _ hi]; exact hσ.1 i hi
        · rw [hst.bounds i hi, Bounds.sum_map, ← contrib_perm E _ hst.perm, contrib_parts]
          exact sum_le_sum fun q hq => (hb q hq).1
        · rw [hst.bounds i hi, Bounds.sum_map, ← contrib_perm E _ hst.perm, contrib_parts]
          exact sum_le_sum fun q hq => (hb q hq).2
      refine ih hst hms' ?_ hfits' (meets_of hst hms' hfits')
      have h1 := (hperm.map fun (q : Cluster × Multiset) => q.1.count).sum_eq
      rw [List.map_cons, List.sum_cons, count_children hch] at h1
      change (((takeOut s x (largest x.parts) x.parts[largest x.parts]).parts ++ y.parts).map fun q => q.1.count).sum ≤ k
      rw [List.map_append, List.sum_append, hyp, List.map_map]
      have h2 : (List.map ((fun q : Cluster × Multiset => q.1.count) ∘ fun e => (e, msOf σ e.sidbs)) x.parts[largest x.parts].1.children) =
          x.parts[largest x.parts].1.children.map count := rfl
      rw [h2]
      omega

theorem collect_complete (hs : Setting E P top) (hin : ∀ i, Cluster.one i ∉ top.strict) (hi : Inv E P top s)
    (hc : s.clustering = [top]) {σ : Nat → Charge} (hσ : Metastable E σ) (hsig : Sig E σ s) :
    (List.range E.n).map σ ∈ collect E s top := by
  have htop : top ∈ s.clustering := by simp [hc]
  obtain ⟨x, hx, hxm, hy⟩ := hsig.has top htop
  obtain ⟨y, hy, hyp⟩ := hy hs.children
  unfold collect
  refine List.mem_flatMap.mpr ⟨(x.ms, y), List.mem_flatMap.mpr ⟨x, hx, List.mem_map.mpr ⟨y, hy, rfl⟩⟩, ?_⟩
  refine unfold_complete hs.phys hs.pos (ready_of hi hc hin) (hsig.fhas top htop) (hsig.fbracket top htop) hσ
    (start hs hi hc hx hy) ?_ ?_
  · intro q hq
    have hq' : q ∈ y.parts := by simpa [addParts] using hq
    rw [hyp] at hq'
    obtain ⟨e, _, rfl⟩ := List.mem_map.mp hq'
    rfl
  · change (([] ++ y.parts).map fun (q : Cluster × Multiset) => q.1.count).sum ≤ _
    rw [List.nil_append, hyp, List.map_map, count_children hs.children]
    exact Nat.le_succ _

end Verif.Sidb.Gss
