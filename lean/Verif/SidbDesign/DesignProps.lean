import Verif.SidbDesign.DesignFacts
import Verif.SidbDesign.RandomProps
import Verif.SidbAnalysis.OperationalProps

/-!
# C79: design of SiDB gates
-/
namespace Verif.SidbDesign

open Verif.Coordinates Verif.Cells Verif.Iter

section
variable {C D : Type} [DecidableEq C] {S : Setting C D}

/-! ## All designers -/

theorem exhaustive_cases {out : List (Lyt C D)} (h : S.Exhaustive out) :
    ∃ cs : List (List Nat), cs.Perm S.combinations ∧
      out.Subperm ((cs.map fun is => S.withDots (S.pick is)).filter S.operational) ∧
      (S.first = false → out.Perm ((cs.map fun is => S.withDots (S.pick is)).filter S.operational)) ∧
      (out = [] → (cs.map fun is => S.withDots (S.pick is)).filter S.operational = []) ∧
      (S.first = true → out.length ≤ S.threads) := by
  unfold Setting.Exhaustive at h
  split_ifs at h with h0
  · subst h
    refine ⟨[], by rw [h0], ?_, ?_, ?_, ?_⟩ <;> simp
  · obtain ⟨cs, out', hp, hf, rfl⟩ := h
    obtain ⟨f1, f2, f3, f4⟩ := finished_spec hf
    simp only at f1 f2 f3 f4
    have e : (cs.map fun is => S.withDots (S.pick is)).filter S.operational =
        (cs.filter fun is => S.operational (S.withDots (S.pick is))).map fun is => S.withDots (S.pick is) := by
      rw [List.filter_map]; rfl
    refine ⟨cs, hp, ?_, fun h => ?_, fun h => ?_, fun h => by simpa using f4 h⟩
    · rw [e]
      obtain ⟨o, o1, o2⟩ := f1
      exact ⟨_, o1.map _, o2.map _⟩
    · rw [e]; exact (f2 h).map _
    · rw [e, List.map_eq_nil_iff, List.filter_eq_nil_iff]
      intro a ha
      rw [List.map_eq_nil_iff] at h
      rw [f3.1 h a ha]; simp

theorem pruning_cases {out : List (Lyt C D)} (h : S.Pruning out) :
    out.Perm ((S.canvasLayouts.filter fun c => !c.cells.isEmpty && !S.pruned c (S.candidate c)).map S.candidate) := by
  unfold Setting.Pruning at h
  split_ifs at h with h0
  · subst h; rw [h0]; exact .refl _
  · obtain ⟨out', hf, rfl⟩ := h
    exact ((finished_spec hf).2.1 rfl).map _

theorem quickcell_cases {out : List (Lyt C D)} (h : S.QuickCell out) :
    ∃ cands, S.Pruning cands ∧ out.Subperm (cands.filter S.simulated) ∧
      (S.first = false → out.Perm (cands.filter S.simulated)) ∧ (out = [] → cands.filter S.simulated = []) ∧
      (S.first = true → out.length ≤ S.threads) := by
  obtain ⟨cands, hp, h⟩ := h
  split_ifs at h with h0
  · subst h
    refine ⟨cands, hp, ?_, ?_, ?_, ?_⟩ <;> simp [h0]
  · obtain ⟨f1, f2, f3, f4⟩ := finished_spec h
    simp only at f1 f2 f3 f4
    refine ⟨cands, hp, f1, f2, fun h => ?_, f4⟩
    rw [List.filter_eq_nil_iff]
    intro a ha
    rw [f3.1 h a ha]; simp

/-- Whatever the canvas, the order of the combinations and the schedule: a layout that the exhaustive designer returns is
operational, and it is the skeleton with at most the requested number of additional logic dots, all of them in the
canvas, none of them on a dot of the skeleton or on a defect. -/
theorem C79_sound (hs : Inv S.skeleton.cells) {out : List (Lyt C D)} (h : S.Exhaustive out) :
    ∀ l ∈ out, S.operational l = true ∧ ∃ ds, S.HasDots l ds ∧ ds.Nodup ∧ ds.length ≤ S.number ∧ ∀ c ∈ ds, S.FreePos c := by
  obtain ⟨cs, hp, h1, _⟩ := exhaustive_cases h
  intro l hl
  obtain ⟨m1, m2⟩ := List.mem_filter.1 (h1.subset hl)
  obtain ⟨is, his, rfl⟩ := List.mem_map.1 m1
  obtain ⟨ds, d1, d2, d3, d4⟩ := withDots_spec (S := S) hs (S.pick is)
  refine ⟨m2, ds, d1, d2, Nat.le_trans d3 (Nat.le_trans (pick_length is) ?_), fun c hc => ?_⟩
  · have := hp.mem_iff.1 his
    by_cases hk : 1 ≤ S.number
    · exact Nat.le_of_eq (((C28_combinations_exact S.number S.canvas.length hk).1 is).1 this).1
    · unfold Setting.combinations allCombinations at this
      rw [if_neg (by omega), if_pos (by omega)] at this
      cases this
  · obtain ⟨c1, c2, c3⟩ := (d4 c).1 hc
    exact ⟨pick_mem c1, c2, c3⟩

/-- The same for the layouts returned by QuickCell, which are operational by simulation alone. -/
theorem C79_sound_quickcell (hs : Inv S.skeleton.cells) {out : List (Lyt C D)} (h : S.QuickCell out) :
    ∀ l ∈ out, S.simulated l = true ∧ ∃ ds, S.HasDots l ds ∧ ds.Nodup ∧ ds.length ≤ S.number ∧ ∀ c ∈ ds, S.FreePos c := by
  obtain ⟨cands, hp, h1, _⟩ := quickcell_cases h
  intro l hl
  obtain ⟨m1, m2⟩ := List.mem_filter.1 (h1.subset hl)
  obtain ⟨cl, hcl, rfl⟩ := List.mem_map.1 ((pruning_cases hp).mem_iff.1 m1)
  obtain ⟨is, his, e⟩ := List.mem_filterMap.1 (List.mem_filter.1 hcl).1
  obtain ⟨ds, d1, d2, d3, d4, d5, _⟩ := candidate_hasDots hs e
  refine ⟨m2, ds, d1, d2, Nat.le_trans d3 (Nat.le_trans (pick_length is) ?_), fun c hc => ?_⟩
  · by_cases hk : 1 ≤ S.number
    · exact Nat.le_of_eq (((C28_combinations_exact S.number S.canvas.length hk).1 is).1 his).1
    · unfold Setting.combinations allCombinations at his
      rw [if_neg (by omega), if_pos (by omega)] at his
      cases his
  · obtain ⟨c1, c2⟩ := (d4 c).1 hc
    exact ⟨pick_mem c1, c2, d5 c hc⟩

/-! ## Exhaustive design -/

theorem exhaustive_covers (hs : Inv S.skeleton.cells) (hc : S.canvas.Nodup) (hk : 1 ≤ S.number)
    (hfree : ∀ c ∈ S.canvas, S.FreePos c) {cs : List (List Nat)} (hp : cs.Perm S.combinations) :
    S.AllGates (fun _ => true) (cs.map fun is => S.withDots (S.pick is)) := by
  have h := covers (S := S) (F := fun cs => some (S.withDots cs)) hc hk (by
    intro cs h1 h2 h3
    left
    obtain ⟨ds, d1, d2, d3, d4⟩ := withDots_spec (S := S) hs cs
    exact ⟨⟨h1, h2, fun c hc => hfree c (h3 c hc)⟩, _, rfl, HasDots.congr d1 fun c => by
      rw [d4]; exact ⟨fun h => h.1, fun h => ⟨h, (hfree c (h3 c h)).2⟩⟩⟩)
  refine AllGates.filter (fun _ _ _ _ _ _ => rfl) h ?_
  rw [List.filter_eq_self.2 (fun _ _ => rfl)]
  have e : (fun is => some (S.withDots (S.pick is))) = some ∘ fun is => S.withDots (S.pick is) := rfl
  rw [e, List.filterMap_eq_map]
  exact hp.map _

/-- If the canvas is free, the exhaustive designer returns all operational layouts that consist of the skeleton and the
requested number of logic dots in the canvas, each of them once, whatever the schedule of the threads. The full
property, for any canvas and any number of dots, is false: see `C79_false_fewer`, `C79_false_zero`. -/
theorem C79_exhaustive_partial (hs : Inv S.skeleton.cells) (hc : S.canvas.Nodup) (hk : 1 ≤ S.number)
    (hfree : ∀ c ∈ S.canvas, S.FreePos c) (hop : OfLayout S.operational) (hf : S.first = false) {out : List (Lyt C D)}
    (h : S.Exhaustive out) : S.AllGates S.operational out := by
  obtain ⟨cs, hp, _, h2, _⟩ := exhaustive_cases h
  exact AllGates.filter hop (exhaustive_covers hs hc hk hfree hp) (h2 hf)

/-- If it is to stop after the first solution, it returns at least one such layout, provided there is one, and at most
one for each thread. -/
theorem C79_first_partial (hs : Inv S.skeleton.cells) (hc : S.canvas.Nodup) (hk : 1 ≤ S.number)
    (hfree : ∀ c ∈ S.canvas, S.FreePos c) (hop : OfLayout S.operational) (hf : S.first = true) {out : List (Lyt C D)}
    (h : S.Exhaustive out) : S.SomeGates S.operational out := by
  obtain ⟨cs, hp, h1, _, h3, h4⟩ := exhaustive_cases h
  exact SomeGates.filter hop (exhaustive_covers hs hc hk hfree hp) h1 (h4 hf) h3

/-- The threads come to an end in every schedule, after at most four steps for each combination, and as long as they
have not, one of them can take a step. -/
theorem C79_terminates {α : Type} (J : Job α) {T : Nat} {items : List α} {ls : List (List α)} (h : chunks T items = some ls)
    {es : List Nat} {s : Pool α} (e : J.run (.start ls) es = some s) :
    es.length ≤ 4 * items.length ∧ (¬ s.Joined → ∃ i s', J.run (.start ls) (es ++ [i]) = some s') := by
  have h1 := run_length e
  rw [start_work, (chunks_spec h).1] at h1
  refine ⟨by omega, fun hj => ?_⟩
  obtain ⟨i, s', e'⟩ := step_exists (J := J) hj
  refine ⟨i, s', ?_⟩
  rw [run_append, e]
  simp [Job.run, e']

theorem finished_exists {α : Type} (J : Job α) {T : Nat} {items : List α} (hT : 1 ≤ T) (hi : items ≠ []) :
    ∃ out, Finished J T items out := by
  have : ∃ ls, chunks T items = some ls := by
    unfold chunks
    dsimp only
    have := List.length_pos_iff.2 hi
    rw [if_neg (by omega)]
    exact ⟨_, rfl⟩
  obtain ⟨ls, e⟩ := this
  obtain ⟨es, s, h1, h2⟩ := run_joins (J := J) _ (.start ls) (Nat.le_refl _)
  exact ⟨_, ls, es, s, e, h1, h2, rfl⟩

/-- Provided there is at least one hardware thread, all designers but the random one return something. -/
theorem C79_returns (hT : 1 ≤ S.threads) : (∃ out, S.Exhaustive out) ∧ (∃ out, S.Pruning out) ∧ ∃ out, S.QuickCell out := by
  have hprune : ∃ out, S.Pruning out := by
    unfold Setting.Pruning
    split_ifs with h0
    · exact ⟨_, rfl⟩
    · obtain ⟨o, ho⟩ := finished_exists ⟨fun c : Lyt C D => !c.cells.isEmpty && !S.pruned c (S.candidate c), false, false⟩ hT h0
      exact ⟨_, o, ho, rfl⟩
  refine ⟨?_, hprune, ?_⟩
  · unfold Setting.Exhaustive
    split_ifs with h0
    · exact ⟨_, rfl⟩
    · obtain ⟨o, ho⟩ := finished_exists ⟨fun is => S.operational (S.withDots (S.pick is)), S.first, false⟩ hT h0
      exact ⟨_, _, o, .refl _, ho, rfl⟩
  · obtain ⟨cands, hc⟩ := hprune
    by_cases h0 : cands = []
    · exact ⟨[], cands, hc, by rw [if_pos h0]⟩
    · obtain ⟨o, ho⟩ := finished_exists ⟨S.simulated, S.first, true⟩ hT h0
      exact ⟨o, cands, hc, by rw [if_neg h0]; exact ho⟩

/-- Without hardware threads (`std::thread::hardware_concurrency` may return zero) there is a division by zero, unless
there is nothing to do. -/
theorem C79_no_threads (hT : S.threads = 0) (hk : S.combinations ≠ []) : ¬ ∃ out, S.Exhaustive out := by
  rintro ⟨out, h⟩
  unfold Setting.Exhaustive at h
  rw [if_neg hk] at h
  obtain ⟨cs, o, _, ⟨ls, _, _, e, _⟩, _⟩ := h
  unfold chunks at e
  simp [hT] at e

/-! ## QuickCell -/

/-- What is pruned is not operational. -/
def Setting.PruningSound (S : Setting C D) : Prop :=
  ∀ cs cl, S.canvasLayout cs = some cl → S.pruned cl (S.candidate cl) = true → S.simulated (S.candidate cl) = false

theorem quickcell_covers (hs : Inv S.skeleton.cells) (hc : S.canvas.Nodup) (hk : 1 ≤ S.number)
    (hempty : ∀ c ∈ S.canvas, S.skeleton.cells.getCellType c = .empty) :
    S.AllGates (fun _ => true) (S.canvasLayouts.map S.candidate) := by
  have h := covers (S := S) (F := fun cs => (S.canvasLayout cs).map S.candidate) hc hk (by
    intro cs h1 h2 h3
    obtain ⟨s1, s2⟩ := canvasLayout_spec (S := S) hs cs
    by_cases hd : ∃ c ∈ cs, S.skeleton.defective c = true
    · obtain ⟨c, hc, hd⟩ := hd
      right
      refine ⟨fun hp => ?_, by rw [s1 ⟨c, hc, hempty c (h3 c hc), hd⟩]; rfl⟩
      rw [(hp.free c hc).2.2] at hd; cases hd
    · left
      have hd' : ∀ c ∈ cs, S.skeleton.defective c = false := fun c hc => by
        cases e : S.skeleton.defective c with
        | false => rfl
        | true => exact absurd ⟨c, hc, e⟩ hd
      obtain ⟨l, e, _⟩ := s2 fun c hc _ => hd' c hc
      obtain ⟨ds, d1, _, _, d4, _⟩ := candidate_hasDots hs e
      exact ⟨⟨h1, h2, fun c hc => ⟨h3 c hc, hempty c (h3 c hc), hd' c hc⟩⟩, _, by rw [e]; rfl, HasDots.congr d1 fun c => by
        rw [d4]; exact ⟨fun h => h.1, fun h => ⟨h, hempty c (h3 c h)⟩⟩⟩)
  have e : S.canvasLayouts.map S.candidate =
      S.combinations.filterMap (fun is => (S.canvasLayout (S.pick is)).map S.candidate) := by
    unfold Setting.canvasLayouts; rw [List.map_filterMap]
  rw [e]; exact h

theorem quickcell_filter (hs : Inv S.skeleton.cells) (hk : 1 ≤ S.number) (hc : S.canvas.Nodup)
    (hempty : ∀ c ∈ S.canvas, S.skeleton.cells.getCellType c = .empty) (hpr : S.PruningSound) {cands : List (Lyt C D)}
    (hp : S.Pruning cands) : (cands.filter S.simulated).Perm ((S.canvasLayouts.map S.candidate).filter S.simulated) := by
  refine ((pruning_cases hp).filter _).trans ?_
  rw [List.filter_map, List.filter_map, List.filter_filter]
  refine List.Perm.map _ (List.Perm.of_eq (List.filter_congr fun cl hcl => ?_))
  obtain ⟨is, his, e⟩ := List.mem_filterMap.1 hcl
  obtain ⟨p1, p2⟩ := pick_spec hc hk his
  obtain ⟨ds, _, _, _, d4, _, d6⟩ := candidate_hasDots hs e
  have hne : cl.cells.isEmpty = false := by
    apply d6
    obtain ⟨c, hc'⟩ := List.exists_mem_of_ne_nil (S.pick is) (by intro h; rw [h] at p2; simp at p2; omega)
    exact List.ne_nil_of_mem ((d4 c).2 ⟨hc', hempty c (pick_mem hc')⟩)
  simp only [Function.comp, hne, Bool.not_false, Bool.true_and]
  cases hpruned : S.pruned cl (S.candidate cl) with
  | false => simp
  | true => rw [hpr _ cl e hpruned]; rfl

/-- If the skeleton has no dots in the canvas and what is pruned is not operational, then QuickCell returns all
operational layouts that consist of the skeleton and the requested number of logic dots in the canvas and off the
defects, each of them once, whatever the schedule of the threads. -/
theorem C79_quickcell_partial (hs : Inv S.skeleton.cells) (hc : S.canvas.Nodup) (hk : 1 ≤ S.number)
    (hempty : ∀ c ∈ S.canvas, S.skeleton.cells.getCellType c = .empty) (hop : OfLayout S.simulated) (hpr : S.PruningSound)
    {out : List (Lyt C D)} (h : S.QuickCell out) :
    (S.first = false → S.AllGates S.simulated out) ∧ (S.first = true → S.SomeGates S.simulated out) := by
  obtain ⟨cands, hp, h1, h2, h3, h4⟩ := quickcell_cases h
  have hperm := quickcell_filter hs hk hc hempty hpr hp
  have hcov := quickcell_covers hs hc hk hempty
  refine ⟨fun hf => AllGates.filter hop hcov ((h2 hf).trans hperm), fun hf =>
    SomeGates.filter hop hcov (h1.trans hperm.subperm) (h4 hf) fun he => ?_⟩
  have := h3 he
  rw [this] at hperm
  exact List.nil_perm.1 hperm

/-- Under the same conditions, pruning alone leaves all operational layouts and possibly others, all of them placements that
are not pruned, none of them twice. -/
theorem C79_pruning_only_partial (hs : Inv S.skeleton.cells) (hc : S.canvas.Nodup) (hk : 1 ≤ S.number)
    (hempty : ∀ c ∈ S.canvas, S.skeleton.cells.getCellType c = .empty) (hop : OfLayout S.simulated) (hpr : S.PruningSound)
    {out : List (Lyt C D)} (h : S.Pruning out) :
    (∀ ds l, S.Placement ds → S.HasDots l ds → S.simulated l = true → ∃ l' ∈ out, S.HasDots l' ds) ∧
    (∀ l ∈ out, ∃ ds cl, S.Placement ds ∧ S.HasDots l ds ∧ S.canvasLayout ds = some cl ∧ S.pruned cl l = false) ∧
    out.Pairwise (fun l l' => ∃ c, l.cells.getCellType c ≠ l'.cells.getCellType c) := by
  have hperm := quickcell_filter hs hk hc hempty hpr h
  have hcov := quickcell_covers hs hc hk hempty
  have hp := pruning_cases h
  refine ⟨fun ds l h1 h2 h3 => ?_, fun l hl => ?_, ?_⟩
  · obtain ⟨l', m, d⟩ := (AllGates.filter hop hcov hperm).complete ds l h1 h2 h3
    exact ⟨l', (List.mem_filter.1 m).1, d⟩
  · obtain ⟨cl, hcl, rfl⟩ := List.mem_map.1 (hp.mem_iff.1 hl)
    obtain ⟨m, hg⟩ := List.mem_filter.1 hcl
    obtain ⟨is, his, e⟩ := List.mem_filterMap.1 m
    obtain ⟨p1, p2⟩ := pick_spec hc hk his
    obtain ⟨ds, d1, _, _, d4, d5, _⟩ := candidate_hasDots hs e
    have hmem : ∀ c, c ∈ ds ↔ c ∈ S.pick is := fun c => by
      rw [d4]; exact ⟨fun h => h.1, fun h => ⟨h, hempty c (pick_mem h)⟩⟩
    simp only [Bool.and_eq_true, Bool.not_eq_true'] at hg
    exact ⟨S.pick is, cl, ⟨p1, p2, fun c hc => ⟨pick_mem hc, hempty c (pick_mem hc), d5 c ((hmem c).2 hc)⟩⟩,
      HasDots.congr d1 hmem, e, hg.2⟩
  · refine (hp.pairwise_iff ?_).2 (hcov.once.sublist (List.Sublist.map _ List.filter_sublist))
    rintro l l' ⟨c, hc⟩
    exact ⟨c, hc.symm⟩

open SidbAnalysis.Operational in
/-- What is pruned is not operational, provided kinks are rejected and the filter is right about every layout (see
`C69_filter_partial`). Without kinks being rejected, it is false: see `C79_false_kinks`. -/
theorem C79_pruning_partial {α : Type} [DecidableEq α] (gate : Lyt C D → Gate α) (inst : Lyt C D → Nat → Instance α)
    (prm : SidbAnalysis.Operational.Params) (cells : Lyt C D → Nat → List α)
    (hsim : ∀ l, S.simulated l = decide ((SidbAnalysis.Operational.run (gate l) { prm with strategy := .simulationOnly } (inst l)).map Prod.fst =
      some Status.operational))
    (hpruned : ∀ c l, S.pruned c l = (List.range (gate l).bits).any fun i => layoutInvalid (gate l) prm (inst l i) i)
    (hk : prm.rejectKinks = true) (heps : 0 ≤ prm.eps) (hok : ∀ l, (gate l).Ok) (hw : ∀ l, (gate l).WiresOk)
    (hcanvas : ∀ l, (gate l).canvas ≠ []) (hf : ∀ l, ∀ i < (gate l).bits, FilterConditions (gate l) (inst l i) (cells l i)) :
    S.PruningSound := by
  intro cs cl _ hp
  rw [hpruned] at hp
  generalize S.candidate cl = l at hp ⊢
  obtain ⟨i, hi, hinv⟩ := List.any_eq_true.1 hp
  rw [List.mem_range] at hi
  rw [hsim, decide_eq_false_iff_not]
  intro hrun
  obtain ⟨st, r, e, hiff⟩ := C69_simulation (hok l) { prm with strategy := .simulationOnly } (inst l) (by simp [filtering])
  rw [e] at hrun
  have hst : st = Status.operational := by simpa using hrun
  have hworks : Works (gate l) prm (inst l i) i := hiff.1 hst i hi
  rw [layoutInvalid_false (hw l) (hcanvas l) hk heps (hf l i hi) hworks] at hinv
  cases hinv

/-! ## Random design -/

theorem foldl_assign_find (L base : List (C × D)) (hn : (L.map (·.1)).Nodup) (c : C) :
    find (L.foldl (fun ds d => Cells.assign ds d.1 d.2) base) c = (find L c).or (find base c) := by
  induction L generalizing base with
  | nil => simp [find]
  | cons d L ih =>
    rw [List.map_cons, List.nodup_cons] at hn
    rw [List.foldl_cons, ih _ hn.2, find_assign, find_cons]
    by_cases e : d.1 = c
    · have : find L c = none := by
        have h1 := hn.1
        rw [mem_keys_iff, e] at h1
        simpa using h1
      rw [this, if_pos e.symm, if_pos e]; rfl
    · rw [if_neg e, if_neg (fun h => e h.symm)]

theorem find_filter (f : D → Bool) (L : List (C × D)) (hn : (L.map (·.1)).Nodup) (c : C) :
    find (L.filter fun d => f d.2) c = (find L c).filter f := by
  induction L with
  | nil => rfl
  | cons d L ih =>
    rw [List.map_cons, List.nodup_cons] at hn
    rw [List.filter_cons, find_cons]
    have h1 := hn.1
    rw [mem_keys_iff] at h1
    by_cases e : d.1 = c
    · rw [e] at h1
      have : find L c = none := by simpa using h1
      rw [if_pos e]
      split_ifs with hf
      · rw [find_cons, if_pos e]; simp [Option.filter, hf]
      · rw [ih hn.2, this]; simp [Option.filter, hf]
    · rw [if_neg e, ← ih hn.2]
      split_ifs with hf
      · rw [find_cons, if_neg e]
      · rfl

/-- The threads of the random designer. -/
structure RInv (S : Setting C D) (Area : C → Prop) (s : RPool C D) : Prop where
  len : s.thr.length = min S.threads S.canvasLayouts.length
  out : ∀ l ∈ s.out, ∃ l₀, S.Drawn Area l₀ ∧ S.operational (S.withoutNeutral l₀) = true ∧
    l = S.restoreNeutral (S.withoutNeutral l₀)
  thr : ∀ l, .analysing l ∈ s.thr → S.Drawn Area l
  found : s.found = true → s.out ≠ []
  ended : ∀ t ∈ s.thr, t = .stored ∨ t = .returned → s.out ≠ []
  count : s.out.length + s.thr.countP (fun t => match t with | .idle => true | .analysing _ => true | _ => false) ≤ s.thr.length

theorem rinv {Area : C → Prop} {s : RPool C D} (h : S.RReach Area s) : RInv S Area s := by
  induction h with
  | start =>
    refine ⟨by simp, by simp, ?_, by simp, ?_, ?_⟩
    · intro l hl; rw [List.mem_replicate] at hl; cases hl.2
    · intro t ht; rw [List.mem_replicate] at ht; rw [ht.2]; simp
    · simp only [List.length_nil, Nat.zero_add]; exact List.countP_le_length
  | step _ hst ih =>
    obtain ⟨i1, i2, i3, i4, i5, i6⟩ := ih
    have mem_set : ∀ (l : List (RPhase C D)) (i : Nat) (t t' : RPhase C D), t' ∈ l.set i t → t' ∈ l ∨ t' = t :=
      fun l i t t' h => List.mem_or_eq_of_mem_set h
    cases hst with
    | stop hi hf =>
      obtain ⟨pre, post, e1, e2⟩ := OpDomain.set_split hi
      refine ⟨by simpa using i1, i2, fun l hl => ?_, i4, fun t ht hh => ?_, ?_⟩
      · rcases mem_set _ _ _ _ hl with h | h
        · exact i3 l h
        · cases h
      · exact i4 hf
      · simp only [e2]; rw [e1] at i6
        simp only [List.countP_append, List.countP_cons, List.length_append, List.length_cons] at i6 ⊢
        grind
    | draw l hi hf hd =>
      obtain ⟨pre, post, e1, e2⟩ := OpDomain.set_split hi
      refine ⟨by simpa using i1, i2, fun l' hl => ?_, i4, fun t ht hh => ?_, ?_⟩
      · rcases mem_set _ _ _ _ hl with h | h
        · exact i3 l' h
        · cases h; exact hd
      · rcases mem_set _ _ _ _ ht with h | h
        · exact i5 t h hh
        · subst h; rcases hh with hh | hh <;> cases hh
      · simp only [e2]; rw [e1] at i6
        simp only [List.countP_append, List.countP_cons, List.length_append, List.length_cons] at i6 ⊢
        grind
    | again l hi hf =>
      obtain ⟨pre, post, e1, e2⟩ := OpDomain.set_split hi
      refine ⟨by simpa using i1, i2, fun l' hl => ?_, i4, fun t ht hh => ?_, ?_⟩
      · rcases mem_set _ _ _ _ hl with h | h
        · exact i3 l' h
        · cases h
      · rcases mem_set _ _ _ _ ht with h | h
        · exact i5 t h hh
        · subst h; rcases hh with hh | hh <;> cases hh
      · simp only [e2]; rw [e1] at i6
        simp only [List.countP_append, List.countP_cons, List.length_append, List.length_cons] at i6 ⊢
        grind
    | store l hi hf =>
      obtain ⟨pre, post, e1, e2⟩ := OpDomain.set_split hi
      refine ⟨by simpa using i1, fun l' hl => ?_, fun l' hl => ?_, fun _ => by simp, fun t ht hh => by simp, ?_⟩
      · rcases List.mem_append.1 hl with hl | hl
        · exact i2 l' hl
        · exact ⟨l, i3 l (List.mem_of_getElem? hi), hf, List.mem_singleton.1 hl⟩
      · rcases mem_set _ _ _ _ hl with h | h
        · exact i3 l' h
        · cases h
      · simp only [e2]; rw [e1] at i6
        simp only [List.countP_append, List.countP_cons, List.length_append, List.length_cons, List.length_nil] at i6 ⊢
        grind
    | finish hi =>
      obtain ⟨pre, post, e1, e2⟩ := OpDomain.set_split hi
      have hne := i5 _ (List.mem_of_getElem? hi) (.inl rfl)
      refine ⟨by simpa using i1, i2, fun l hl => ?_, fun _ => hne, fun t ht hh => hne, ?_⟩
      · rcases mem_set _ _ _ _ hl with h | h
        · exact i3 l h
        · cases h
      · simp only [e2]; rw [e1] at i6
        simp only [List.countP_append, List.countP_cons, List.length_append, List.length_cons] at i6 ⊢
        grind

/-- When the random designer returns, it returns at most one layout for each thread, and at least one if it has started
any thread. Each of them has the requested number of dots more than the skeleton, drawn from the area, as logic dots,
none of them where there is a defect or where a defect affects it; it has the defects of the skeleton; and it is
operational without the neutral ones among them. -/
theorem C79_random_partial (hs : Inv S.skeleton.cells) (hd : (S.skeleton.defects.map (·.1)).Nodup) {Area : C → Prop}
    {out : List (Lyt C D)} (h : S.RandomDesign Area out) :
    out.length ≤ S.threads ∧ (1 ≤ S.threads → S.canvasLayouts ≠ [] → out ≠ []) ∧
    ∀ l ∈ out, (∃ l' : Lyt C D, l'.cells = l.cells ∧
        (∀ c, find l'.defects c = (find S.skeleton.defects c).filter fun d => !S.neutral d) ∧ S.operational l' = true) ∧
      (∀ c, find l.defects c = find S.skeleton.defects c) ∧
      (∀ c, S.skeleton.cells.getCellType c ≠ .empty → l.cells.getCellType c ≠ .empty) ∧
      (added S.skeleton l).Nodup ∧ (added S.skeleton l).length = S.number ∧
      ∀ c ∈ added S.skeleton l, Area c ∧ l.cells.getCellType c = .logic ∧ S.skeleton.defective c = false ∧ c ∉ S.affected := by
  obtain ⟨s, hr, hj, rfl⟩ := h
  obtain ⟨i1, i2, i3, i4, i5, i6⟩ := rinv hr
  refine ⟨by omega, fun h1 h2 => ?_, fun l hl => ?_⟩
  · have hl := List.length_pos_iff.2 h2
    obtain ⟨t, ht⟩ := List.exists_mem_of_length_pos (l := s.thr) (by omega)
    exact i5 t ht (.inr (hj t ht))
  · obtain ⟨l₀, ⟨P, draw, j, p1, p2, _, p4, p5⟩, g2, rfl⟩ := i2 l hl
    obtain ⟨a1, a2, _⟩ := C78_any hs p5
    obtain ⟨b1, b2, b3, b4⟩ := C78_skeleton (by rw [p2]; simp) hs p5
    have hcells : (S.restoreNeutral (S.withoutNeutral l₀)).cells = l₀.cells := rfl
    have hadd : added S.skeleton (S.restoreNeutral (S.withoutNeutral l₀)) = added S.skeleton l₀ := rfl
    have hw : ∀ c, find (S.withoutNeutral l₀).defects c = (find S.skeleton.defects c).filter fun d => !S.neutral d := by
      intro c
      unfold Setting.withoutNeutral
      rw [a2]
      exact find_filter (fun d => !S.neutral d) _ hd c
    refine ⟨⟨S.withoutNeutral l₀, rfl, hw, g2⟩, fun c => ?_, by rw [hcells]; exact b1, by rw [hadd]; exact b2,
      by rw [hadd, b3, p1], fun c hc => ?_⟩
    · unfold Setting.restoreNeutral
      dsimp only
      rw [foldl_assign_find _ _ ?_ c, hw, find_filter S.neutral _ hd]
      · cases find S.skeleton.defects c with
        | none => rfl
        | some d => cases hn : S.neutral d <;> simp [Option.filter, hn]
      · exact hd.sublist (List.Sublist.map _ List.filter_sublist)
    · rw [hadd] at hc
      obtain ⟨⟨k, rfl⟩, q2, q3, q4⟩ := b4 c hc
      exact ⟨p4 k, by rw [hcells]; exact q2, q3, q4⟩

/-- The random designer does not return if there is no gate to be found. -/
theorem C79_random_forever {Area : C → Prop} (hno : ∀ l, S.Drawn Area l → S.operational (S.withoutNeutral l) = false)
    (h1 : 1 ≤ S.threads) (h2 : S.canvasLayouts ≠ []) : ¬ ∃ out, S.RandomDesign Area out := by
  rintro ⟨out, s, hr, hj, rfl⟩
  obtain ⟨i1, i2, _, _, i5, _⟩ := rinv hr
  have hl := List.length_pos_iff.2 h2
  obtain ⟨t, ht⟩ := List.exists_mem_of_length_pos (l := s.thr) (by omega)
  obtain ⟨l, hl'⟩ := List.exists_mem_of_ne_nil _ (i5 t ht (.inr (hj t ht)))
  obtain ⟨l₀, d, e, _⟩ := i2 l hl'
  rw [hno l₀ d] at e; cases e

end

/-! ## Examples -/

section Examples

/-- Three free positions, two dots to be placed; the layout is operational if the dots are not next to each other. -/
def exSetting : Setting Nat Unit where
  skeleton := exSkeleton
  affected := []
  canvas := [5, 6, 7]
  number := 2
  first := false
  threads := 2
  operational := fun l => decide (l.cells.getCellType 5 = .logic ∧ l.cells.getCellType 7 = .logic)
  simulated := fun l => decide (l.cells.getCellType 5 = .logic ∧ l.cells.getCellType 7 = .logic)
  pruned := fun c _ => decide (c.cells.getCellType 5 = .empty)
  neutral := fun _ => false

/-- The hypotheses of `C79_exhaustive_partial` are met, and a gate is found. -/
example : Inv exSetting.skeleton.cells ∧ exSetting.canvas.Nodup ∧ 1 ≤ exSetting.number ∧
    (∀ c ∈ exSetting.canvas, exSetting.FreePos c) ∧ OfLayout exSetting.operational ∧
    ∃ out, exSetting.Exhaustive out ∧ out ≠ [] := by
  have hop : OfLayout exSetting.operational := fun l l' _ _ _ e => by
    show decide _ = decide _
    simp only [e]
  have hfree : ∀ c ∈ exSetting.canvas, exSetting.FreePos c := by
    intro c hc
    refine ⟨hc, ?_⟩
    have hc' : c ∈ [5, 6, 7] := hc
    simp only [List.mem_cons, List.not_mem_nil, or_false] at hc'
    rcases hc' with rfl | rfl | rfl <;> exact ⟨by decide +kernel, by decide +kernel⟩
  refine ⟨exSkeleton_inv, by decide, by decide, hfree, hop, ?_⟩
  obtain ⟨⟨out, ho⟩, _⟩ := C79_returns (S := exSetting) (by decide)
  refine ⟨out, ho, fun he => ?_⟩
  have hall := C79_exhaustive_partial exSkeleton_inv (by decide) (by decide) hfree hop rfl ho
  obtain ⟨ds, d1, _, _, d4⟩ := withDots_spec (S := exSetting) exSkeleton_inv [5, 7]
  obtain ⟨l, hl, _⟩ := hall.complete [5, 7] (exSetting.withDots [5, 7])
    ⟨by decide, rfl, fun c hc => hfree c (by revert hc; simp [exSetting]; omega)⟩
    (HasDots.congr d1 fun c => by
      rw [d4]
      refine ⟨fun h => h.1, fun h => ⟨h, (hfree c (by revert h; simp [exSetting]; omega)).2⟩⟩) (by decide +kernel)
  rw [he] at hl; cases hl

/-- The hypotheses of `C79_quickcell_partial` are met. -/
example : exSetting.PruningSound := by
  intro cs cl e h
  obtain ⟨ds, d1, _, _, d4, _⟩ := candidate_hasDots (S := exSetting) exSkeleton_inv e
  obtain ⟨s1, s2⟩ := canvasLayout_spec (S := exSetting) exSkeleton_inv cs
  obtain ⟨l, e', hl⟩ := s2 fun c _ _ => rfl
  rw [e] at e'
  obtain rfl : cl = l := Option.some.inj e'
  have h5 : cl.cells.getCellType 5 = .empty := of_decide_eq_true h
  have hne : (exSetting.candidate cl).cells.getCellType 5 ≠ .logic := by
    rw [((candidate_spec (S := exSetting) exSkeleton_inv hl).2.2 5).2 ?_]
    · decide +kernel
    · rcases hl.cell 5 with h | h
      · rw [h5] at h; cases h.1
      · exact h.2
  show decide _ = false
  rw [decide_eq_false_iff_not]
  exact fun h => hne h.1

open SidbAnalysis.Operational SidbAnalysis.Operational.Example in
/-- The hypotheses of `C79_pruning_partial` are met by a simulated wire, which is not pruned. -/
example : (∀ (l : Lyt Nat Unit), wireGate.Ok ∧ wireGate.WiresOk ∧ wireGate.canvas ≠ [] ∧
      ∀ i < wireGate.bits, FilterConditions wireGate (wire i) (List.range 4)) ∧
    (params .filterThenSimulation).rejectKinks = true ∧ 0 ≤ (params .filterThenSimulation).eps ∧
    ((List.range wireGate.bits).any fun i => layoutInvalid wireGate (params .filterThenSimulation) (wire i) i) = false ∧
    (SidbAnalysis.Operational.run wireGate (params .simulationOnly) wire).map Prod.fst = some Status.operational :=
  ⟨fun _ => ⟨wireGate_ok, wireGate_wiresOk, by decide, fun i _ => wire_conditions i⟩, rfl, by decide +kernel,
    by decide +kernel, by decide +kernel⟩

/-- The random designer finds a gate: the second of the threads draws the positions 5 and 7, the first finds the flag
set. -/
example : ∃ l, exSetting.RandomDesign (fun c => c ∈ [5, 6, 7]) [l] := by
  let P : Params Nat Unit := { number := 2, canOccur := fun _ => false }
  let draw : Nat → Nat := fun k => if k = 0 then 5 else 7
  have key : (generate P (some (exSkeleton, [])) draw 1 0).map
      (fun r => (r.1.map (fun l => exSetting.operational (exSetting.withoutNeutral l)), r.2)) = some (some true, 2) := by
    decide +kernel
  obtain ⟨⟨r, j⟩, h, e⟩ := Option.map_eq_some_iff.1 key
  simp only [Prod.mk.injEq] at e
  obtain ⟨l, rfl, h2⟩ := Option.map_eq_some_iff.1 e.1
  have hd : exSetting.Drawn (fun c => c ∈ [5, 6, 7]) l := ⟨P, draw, j, rfl, rfl, rfl, fun k => by
    show (if k = 0 then 5 else 7) ∈ _
    split_ifs <;> simp, h⟩
  have s0 : exSetting.RReach (fun c => c ∈ [5, 6, 7]) ⟨[], false, [.idle, .idle]⟩ := by
    have := Setting.RReach.start (S := exSetting) (Area := fun c => c ∈ [5, 6, 7])
    rwa [show min exSetting.threads exSetting.canvasLayouts.length = 2 by decide +kernel] at this
  have s1 := s0.step (.draw (i := 1) l rfl rfl hd)
  have s2 := s1.step (.store (i := 1) l rfl h2)
  have s3 := s2.step (.finish (i := 1) rfl)
  have s4 := s3.step (.stop (i := 0) rfl rfl)
  exact ⟨_, _, s4, by simp, rfl⟩

/-! ## What is false -/

/-- On a canvas that already has dots, layouts are returned with fewer dots than requested, and the same layout is
returned several times. -/
theorem C79_false_fewer : ∃ (S : Setting Nat Unit) (out : List (Lyt Nat Unit)), Inv S.skeleton.cells ∧ S.canvas.Nodup ∧
    S.number = 2 ∧ S.first = false ∧ S.Exhaustive out ∧ ∃ l₁ l₂ l₃, out = [l₁, l₂, l₃] ∧
    l₁ = S.skeleton ∧ l₂ = l₃ ∧ l₂.cells.numCells = S.skeleton.cells.numCells + 1 := by
  let S : Setting Nat Unit := { exSetting with canvas := [0, 2, 5], threads := 1, operational := fun _ => true }
  refine ⟨S, [S.withDots [0, 2], S.withDots [0, 5], S.withDots [2, 5]], exSkeleton_inv, by decide, rfl, rfl, ?_,
    _, _, _, rfl, rfl, rfl, by decide +kernel⟩
  unfold Setting.Exhaustive
  rw [if_neg (by decide)]
  exact ⟨[[0, 1], [0, 2], [1, 2]], [[0, 1], [0, 2], [1, 2]], by rw [show S.combinations = [[0, 1], [0, 2], [1, 2]] by decide],
    ⟨[[[0, 1], [0, 2], [1, 2]]], [0, 0, 0, 0, 0, 0, 0, 0, 0], ⟨[[0, 1], [0, 2], [1, 2]], true, [([], .idle)]⟩,
      by decide, rfl, by intro t ht; exact List.mem_singleton.1 ht, rfl⟩, rfl⟩

/-- With no dots to be placed, nothing is returned even if the skeleton is operational. -/
theorem C79_false_zero {C D : Type} [DecidableEq C] {S : Setting C D} (hk : S.number = 0) (out : List (Lyt C D)) :
    (S.Exhaustive out ↔ out = []) ∧ (S.QuickCell out ↔ out = []) := by
  have h0 : S.combinations = [] := by unfold Setting.combinations allCombinations; simp [hk]
  have h1 : S.canvasLayouts = [] := by unfold Setting.canvasLayouts; rw [h0]; rfl
  unfold Setting.Exhaustive Setting.QuickCell Setting.Pruning
  rw [if_pos h0]
  simp only [if_pos h1]
  refine ⟨trivial, ?_⟩
  constructor
  · rintro ⟨cands, rfl, h⟩
    simpa using h
  · intro h
    exact ⟨[], rfl, by simpa using h⟩

/-- The random designer never returns a layout if more dots are requested than the canvas has positions; it does return. -/
theorem C79_random_nothing {C D : Type} [DecidableEq C] {S : Setting C D} (h : S.canvasLayouts = []) {Area : C → Prop} :
    S.RandomDesign Area [] := by
  refine ⟨_, .start, ?_, rfl⟩
  intro t ht
  rw [h] at ht
  simp at ht

open SidbAnalysis.Operational SidbAnalysis.Operational.Example Verif.Sidb in
/-- The wire with two more dots (4 and 5), of which the first is repelled by the perturber. -/
def kinkEnv (one : Bool) : Env :=
  { wireEnv one with
    n := 6
    pot := potOf [(0, 1, 2 / 5), (0, 2, 1 / 20), (1, 2, 1 / 10), (2, 3, 1 / 100), (0, 3, if one then 1 / 5 else 1 / 20),
      (1, 3, if one then 1 / 20 else 1 / 25), (4, 5, 2 / 5), (3, 4, 1 / 50)] }

open SidbAnalysis.Operational SidbAnalysis.Operational.Example in
/-- These two dots are a pair of the input wire. -/
def kinkGate : Gate Nat := { wireGate with inWires := [⟨[⟨.input, 3, 6⟩, ⟨.normal, 4, 5⟩], .south⟩] }

open SidbAnalysis.Operational SidbAnalysis.Operational.Example in
def kinkParams : SidbAnalysis.Operational.Params := ⟨2, false, .filterThenSimulation, 1 / 1000000⟩

open SidbAnalysis.Operational in
/-- One dot is to be placed, at one position. -/
def kinkSetting : Setting Nat Unit where
  skeleton := ((((blank.assign 0 .output).assign 1 .output).assign 3 .input).assign 4 .normal).assign 5 .normal
  affected := []
  canvas := [2]
  number := 1
  first := false
  threads := 1
  operational := fun _ => decide ((SidbAnalysis.Operational.run kinkGate kinkParams fun i => Instance.ofEnv (kinkEnv (i.testBit 0)) 2).map Prod.fst =
    some Status.operational)
  simulated := fun _ => decide ((SidbAnalysis.Operational.run kinkGate { kinkParams with strategy := .simulationOnly }
    fun i => Instance.ofEnv (kinkEnv (i.testBit 0)) 2).map Prod.fst = some Status.operational)
  pruned := fun _ _ => (List.range kinkGate.bits).any fun i =>
    layoutInvalid kinkGate kinkParams (Instance.ofEnv (kinkEnv (i.testBit 0)) 2) i
  neutral := fun _ => false

open SidbAnalysis.Operational in
/-- QuickCell prunes as if kinks were rejected, even if they are tolerated: it returns nothing where there is a gate, which
the exhaustive designer returns with the same parameters. -/
theorem C79_false_kinks : kinkGate.Ok ∧ kinkGate.WiresOk ∧ kinkParams.rejectKinks = false ∧
    (∀ out, kinkSetting.QuickCell out → out = []) ∧ ∃ l, kinkSetting.Exhaustive [l] := by
  refine ⟨⟨by decide, by decide, by decide⟩, ⟨by decide +kernel, by decide +kernel, rfl⟩, rfl, fun out h => ?_, ?_⟩
  · obtain ⟨cands, hp, h1, _⟩ := quickcell_cases h
    have hpr : ∀ c l, kinkSetting.pruned c l = true := fun c l => by
      show ((List.range kinkGate.bits).any fun i =>
        layoutInvalid kinkGate kinkParams (Instance.ofEnv (kinkEnv (i.testBit 0)) 2) i) = true
      decide +kernel
    have := pruning_cases hp
    simp only [hpr, Bool.not_true, Bool.and_false] at this
    rw [List.filter_eq_nil_iff.2 (by simp)] at this
    rw [List.map_nil] at this
    rw [this.eq_nil] at h1
    exact List.subperm_nil.1 h1
  · refine ⟨kinkSetting.withDots [2], ?_⟩
    unfold Setting.Exhaustive
    rw [if_neg (by decide)]
    have hop : ∀ l, kinkSetting.operational l = true := fun l => by
      show decide ((SidbAnalysis.Operational.run kinkGate kinkParams fun i => Instance.ofEnv (kinkEnv (i.testBit 0)) 2).map Prod.fst =
        some Status.operational) = true
      decide +kernel
    refine ⟨[[0]], [[0]], by rw [show kinkSetting.combinations = [[0]] by decide],
      ⟨[[[0]]], [0, 0, 0], ⟨[[0]], true, [([], .idle)]⟩, by decide, ?_, by intro t ht; exact List.mem_singleton.1 ht, rfl⟩, rfl⟩
    simp [Job.run, Job.step, Pool.start, hop]

end Examples
end Verif.SidbDesign
