import Verif.Sidb.GssResults

/-!
# ClusterComplete is exact

The specification: `Metastable` (population stability with thresholds that may be met exactly, and configuration
stability, both in terms of the plain potential of `Verif.Sidb.Spec`), `Admissible`, and `Setting`: the potentials are
physical, the hierarchy has exactly the SiDBs of the layout, base two or three, hash sets are iterated in any order.
-/
namespace Verif.Sidb.Gss

open Verif.Sidb Cluster

/-- C91. Every charge distribution that ClusterComplete returns has one charge state for every SiDB, all of them
admissible in the base number, and is metastable. -/
theorem C91_sound (E : Env) (P : Params) (top : Cluster) (hs : Setting E P top) (hin : ∀ i, Cluster.one i ∉ top.strict)
    (res : List (List Charge)) (h : clusterComplete E P top = some res) :
    ∀ l ∈ res, l.length = E.n ∧ (∀ c ∈ l, Admissible P.base c) ∧ Metastable E (ofList l) := by
  unfold clusterComplete at h
  rw [Option.map_eq_some_iff] at h
  obtain ⟨s, h1, rfl⟩ := h
  intro l hl
  have := collect_sound hs hin (groundStateSpace_inv hs h1) hl
  exact ⟨this.length, this.admissible, this.metastable⟩

/-- C91. No charge distribution is returned twice. -/
theorem C91_distinct (E : Env) (P : Params) (top : Cluster) (hs : Setting E P top) (hin : ∀ i, Cluster.one i ∉ top.strict)
    (res : List (List Charge)) (h : clusterComplete E P top = some res) : res.Nodup := by
  unfold clusterComplete at h
  rw [Option.map_eq_some_iff] at h
  obtain ⟨s, h1, rfl⟩ := h
  exact collect_nodup hs hin (groundStateSpace_inv hs h1)

/-- C91. If there is an admissible metastable charge distribution without positive SiDBs (or, with one of the witness
partitioning limits set to zero, any admissible one), then ClusterComplete is defined and returns it. Missing: charge
distributions with positive SiDBs for other limits, for which this is false, see `C91_false_loss`. -/
theorem C91_complete_partial (E : Env) (P : Params) (top : Cluster) (hs : Setting E P top)
    (hin : ∀ i, Cluster.one i ∉ top.strict) (l : List Charge) (hlen : l.length = E.n)
    (hadm : ∀ c ∈ l, Admissible P.base c) (hm : Metastable E (ofList l))
    (hsafe : .pos ∉ l ∨ P.sizeLimit = 0 ∨ P.overlapLimit = 0) :
    ∃ res, clusterComplete E P top = some res ∧ l ∈ res := by
  have hget : ∀ i < E.n, ofList l i ∈ l := by
    intro i hi
    have hi' : i < l.length := by omega
    simp [ofList, List.getD, hi']
  have hk : Keepable E P top (ofList l) := by
    refine ⟨hs.nodup, hs.lt, ?_, ?_⟩
    · intro i hi
      rw [contrib_perm E _ hs.sidbs, contrib_all hs.phys _ hi]
      exact hm.1 i hi
    · rcases hsafe with h | h
      · exact Or.inl fun i hi e => h (e ▸ hget i hi)
      · exact Or.inr h
  obtain ⟨s, h1, h2, h3, h4⟩ := groundStateSpace_some hs hk fun i hi => hadm _ (hget i hi)
  have h5 := collect_complete hs hin h2 h3 hm h4
  have he : (List.range E.n).map (ofList l) = l := by
    apply List.ext_getElem
    · simp [hlen]
    · intro i h1 h2
      simp [ofList, List.getD, h2]
  rw [he] at h5
  exact ⟨collect E s top, by unfold clusterComplete; rw [h1]; rfl, h5⟩

/-- C91. In base two, if there is a metastable charge distribution at all, ClusterComplete returns exactly the
metastable ones. -/
theorem C91_exact_base_two (E : Env) (P : Params) (top : Cluster) (hs : Setting E P top)
    (hin : ∀ i, Cluster.one i ∉ top.strict) (hb : P.base = 2)
    (hex : ∃ l : List Charge, l.length = E.n ∧ (∀ c ∈ l, c = .neg ∨ c = .neu) ∧ Metastable E (ofList l)) :
    ∃ res, clusterComplete E P top = some res ∧ res.Nodup ∧
      ∀ l : List Charge, l ∈ res ↔ l.length = E.n ∧ (∀ c ∈ l, c = .neg ∨ c = .neu) ∧ Metastable E (ofList l) := by
  have conv : ∀ l : List Charge, (∀ c ∈ l, c = .neg ∨ c = .neu) ↔ ∀ c ∈ l, Admissible P.base c := by
    intro l
    refine forall_congr' fun c => forall_congr' fun _ => ?_
    simp [Admissible, hb]
  have key : ∀ l : List Charge, l.length = E.n → (∀ c ∈ l, c = .neg ∨ c = .neu) → Metastable E (ofList l) →
      ∃ res, clusterComplete E P top = some res ∧ l ∈ res := by
    intro l h1 h2 h3
    refine C91_complete_partial E P top hs hin l h1 ((conv l).mp h2) h3 (Or.inl fun h => ?_)
    rcases h2 _ h with h | h <;> cases h
  obtain ⟨l0, a1, a2, a3⟩ := hex
  obtain ⟨res, h, _⟩ := key l0 a1 a2 a3
  refine ⟨res, h, C91_distinct E P top hs hin res h, fun l => ⟨fun hl => ?_, fun ⟨h1, h2, h3⟩ => ?_⟩⟩
  · obtain ⟨b1, b2, b3⟩ := C91_sound E P top hs hin res h l hl
    exact ⟨b1, (conv l).mpr b2, b3⟩
  · obtain ⟨res', h', hl⟩ := key l h1 h2 h3
    rw [h] at h'
    cases h'
    exact hl

/-- C91. In base three with one of the limits set to zero, if there is a metastable charge distribution at all,
ClusterComplete returns exactly the metastable ones. -/
theorem C91_exact_base_three (E : Env) (P : Params) (top : Cluster) (hs : Setting E P top)
    (hin : ∀ i, Cluster.one i ∉ top.strict) (hb : P.base = 3) (hlim : P.sizeLimit = 0 ∨ P.overlapLimit = 0)
    (hex : ∃ l : List Charge, l.length = E.n ∧ Metastable E (ofList l)) :
    ∃ res, clusterComplete E P top = some res ∧ res.Nodup ∧
      ∀ l : List Charge, l ∈ res ↔ l.length = E.n ∧ Metastable E (ofList l) := by
  have hadm : ∀ c : Charge, Admissible P.base c := by
    intro c
    cases c <;> simp [Admissible, hb]
  have key : ∀ l : List Charge, l.length = E.n → Metastable E (ofList l) → ∃ res, clusterComplete E P top = some res ∧ l ∈ res :=
    fun l h1 h3 => C91_complete_partial E P top hs hin l h1 (fun c _ => hadm c) h3 (Or.inr hlim)
  obtain ⟨l0, a1, a3⟩ := hex
  obtain ⟨res, h, _⟩ := key l0 a1 a3
  refine ⟨res, h, C91_distinct E P top hs hin res h, fun l => ⟨fun hl => ?_, fun ⟨h1, h3⟩ => ?_⟩⟩
  · obtain ⟨b1, _, b3⟩ := C91_sound E P top hs hin res h l hl
    exact ⟨b1, b3⟩
  · obtain ⟨res', h', hl⟩ := key l h1 h3
    rw [h] at h'
    cases h'
    exact hl

/-- C91. A physically valid charge distribution in the sense of the charge distribution surface is metastable, hence
returned under the conditions of `C91_complete_partial`. -/
theorem C91_valid_returned_partial (E : Env) (P : Params) (top : Cluster) (hs : Setting E P top)
    (hin : ∀ i, Cluster.one i ∉ top.strict) (l : List Charge) (hlen : l.length = E.n)
    (hadm : ∀ c ∈ l, Admissible P.base c) (hv : Valid E (ofList l))
    (hsafe : .pos ∉ l ∨ P.sizeLimit = 0 ∨ P.overlapLimit = 0) :
    ∃ res, clusterComplete E P top = some res ∧ l ∈ res :=
  C91_complete_partial E P top hs hin l hlen hadm (metastable_of_valid hv) hsafe

/-! ## Examples -/

/-- Two SiDBs with a strong external potential at the first. -/
def strongEnv : Env :=
  { n := 2, pot := fun i j => if i = j then 0 else 1, defectPot := fun _ => 0, ext := fun i => if i = 0 then -10 else 0,
    muMinus := -1/3, muPlus := -9/10, eps := 1/100 }

/-- Two SiDBs under the usual conditions. -/
def pairEnv : Env :=
  { n := 2, pot := fun i j => if i = j then 0 else 1/2, defectPot := fun _ => 0, ext := fun _ => 0,
    muMinus := -8/25, muPlus := -91/100, eps := 1/1000000 }

/-- The hierarchy of two SiDBs. -/
def pairTop : Cluster := .node (.leaf 0) (.leaf 1)

theorem pair_physical (e : Nat → Rat) (v : Rat) (hv : 0 ≤ v) (a b ε : Rat) (hab : b ≤ a) (hε : 0 ≤ ε) :
    Env.Physical ⟨2, fun i j => if i = j then 0 else v, fun _ => 0, e, a, b, ε⟩ := by
  refine ⟨?_, ?_, ?_, hab, hε⟩
  · intro i j
    simp only
    by_cases h : i = j
    · subst h; rfl
    · rw [if_neg h, if_neg (Ne.symm h)]
  · intro i; simp
  · intro i j; simp only; split_ifs <;> [exact le_refl _; exact hv]

theorem pair_setting (b : Nat) (hb : b = 2 ∨ b = 3) : Setting pairEnv (defaults b) pairTop :=
  ⟨pair_physical _ _ (by norm_num) _ _ _ (by norm_num) (by norm_num), List.Perm.refl _, hb, fun _ => List.Perm.refl _,
    fun _ => List.Perm.refl _, by simp [pairTop, Cluster.children]⟩

theorem strong_setting : Setting strongEnv (defaults 2) pairTop :=
  ⟨pair_physical _ _ (by norm_num) _ _ _ (by norm_num) (by norm_num), List.Perm.refl _, Or.inl rfl, fun _ => List.Perm.refl _,
    fun _ => List.Perm.refl _, by simp [pairTop, Cluster.children]⟩

/-- `pairEnv` meets the hypotheses. -/
example : Setting pairEnv (defaults 2) pairTop ∧ Valid pairEnv (ofList [.neg, .neu]) ∧ Valid pairEnv (ofList [.neu, .neg]) :=
  ⟨pair_setting 2 (Or.inl rfl), by unfold Valid Populated NoHop; decide +kernel, by unfold Valid Populated NoHop; decide +kernel⟩

/-- A setting in which ClusterComplete returns two charge distributions. -/
example : clusterComplete pairEnv (defaults 3) pairTop = some [[.neu, .neg], [.neg, .neu]] ∨
    clusterComplete pairEnv (defaults 3) pairTop = some [[.neg, .neu], [.neu, .neg]] := by decide +kernel

example : ∀ i, Cluster.one i ∉ pairTop.strict := by
  intro i; simp [pairTop, strict, Cluster.children, subs]

/-- If no charge state fits a SiDB in base two, ClusterComplete is undefined: the end of an ordered set is
dereferenced. -/
theorem C91_false_undefined : Setting strongEnv (defaults 2) pairTop ∧ clusterComplete strongEnv (defaults 2) pairTop = none :=
  ⟨strong_setting, by decide +kernel⟩

/-- The potentials between six SiDBs. -/
def sixPots : List (List Rat) :=
  [[0, 25, 51, 22, 32, 6], [25, 0, 12, 65, 4, 28], [51, 12, 0, 42, 66, 1], [22, 65, 42, 0, 39, 57], [32, 4, 66, 39, 0, 1],
    [6, 28, 1, 57, 1, 0]]

/-- Six SiDBs (potentials in hundredths of a volt). -/
def sixEnv : Env :=
  { n := 6, pot := fun i j => if i < 6 ∧ j < 6 then (sixPots.getD i []).getD j 0 else 0, defectPot := fun _ => 0,
    ext := fun i => [-203, -160, -203, -123, -206, -58].getD i 0, muMinus := -32, muPlus := -91, eps := 1/2 }

/-- A hierarchy of six SiDBs. -/
def sixTop : Cluster := .node (.leaf 1) (.node (.leaf 3) (.node (.leaf 5) (.node (.leaf 0) (.node (.leaf 4) (.leaf 2)))))

theorem six_setting : Setting sixEnv (defaults 3) sixTop := by
  refine ⟨⟨?_, ?_, ?_, by decide +kernel, by decide +kernel⟩, by decide +kernel, Or.inr rfl, fun _ => List.Perm.refl _,
    fun _ => List.Perm.refl _, by simp [sixTop, Cluster.children]⟩
  · have h : ∀ i < 6, ∀ j < 6, sixEnv.pot i j = sixEnv.pot j i := by decide +kernel
    intro i j
    by_cases hi : i < 6 ∧ j < 6
    · exact h i hi.1 j hi.2
    · simp only [sixEnv]
      rw [if_neg hi, if_neg fun h => hi h.symm]
  · have h : ∀ i < 6, sixEnv.pot i i = 0 := by decide +kernel
    intro i
    by_cases hi : i < 6
    · exact h i hi
    · simp only [sixEnv]
      rw [if_neg fun h => hi h.1]
  · have h : ∀ i < 6, ∀ j < 6, 0 ≤ sixEnv.pot i j := by decide +kernel
    intro i j
    by_cases hi : i < 6 ∧ j < 6
    · exact h i hi.1 j hi.2
    · simp only [sixEnv]
      rw [if_neg hi]

/-- In base three with the default limits ClusterComplete misses a physically valid charge distribution (of the two
that there are). -/
theorem C91_false_loss :
    Setting sixEnv (defaults 3) sixTop ∧ (∀ i, Cluster.one i ∉ sixTop.strict) ∧
      Valid sixEnv (ofList [.pos, .pos, .pos, .neg, .pos, .neu]) ∧
      ∃ res, clusterComplete sixEnv (defaults 3) sixTop = some res ∧ [Charge.pos, .pos, .pos, .neg, .pos, .neu] ∉ res := by
  refine ⟨six_setting, ?_, ?_, ?_⟩
  · intro i; simp [sixTop, strict, Cluster.children, subs]
  · unfold Valid Populated NoHop
    decide +kernel
  · have h : ((clusterComplete sixEnv (defaults 3) sixTop).map fun r =>
        r.contains [Charge.pos, .pos, .pos, .neg, .pos, .neu]) = some false := by decide +kernel
    rw [Option.map_eq_some_iff] at h
    obtain ⟨res, h1, h2⟩ := h
    refine ⟨res, h1, fun h3 => ?_⟩
    rw [List.contains_iff_mem.mpr h3] at h2
    cases h2

/-- Two SiDBs far from each other, the potential exactly at the upper end of the margin of the transition level. -/
def edgeEnv : Env :=
  { n := 2, pot := fun _ _ => 0, defectPot := fun _ => 0, ext := fun _ => -8/25 - 1/1000, muMinus := -8/25,
    muPlus := -91/100, eps := 1/1000 }

/-- ClusterComplete also returns charge distributions that the charge distribution surface does not take for physically
valid: the criterion of the former includes the end of the error margin, that of the latter does not. -/
theorem C91_false_strict :
    Setting edgeEnv (defaults 2) pairTop ∧ ¬ Valid edgeEnv (ofList [.neg, .neg]) ∧
      ∃ res, clusterComplete edgeEnv (defaults 2) pairTop = some res ∧ [Charge.neg, .neg] ∈ res := by
  refine ⟨⟨⟨fun _ _ => rfl, fun _ => rfl, fun _ _ => le_refl _, by decide +kernel, by decide +kernel⟩, List.Perm.refl _,
    Or.inl rfl, fun _ => List.Perm.refl _, fun _ => List.Perm.refl _, by simp [pairTop, Cluster.children]⟩, ?_, ?_⟩
  · unfold Valid Populated NoHop
    decide +kernel
  · have h : ((clusterComplete edgeEnv (defaults 2) pairTop).map fun r => r.contains [Charge.neg, .neg]) = some true := by
      decide +kernel
    rw [Option.map_eq_some_iff] at h
    obtain ⟨res, h1, h2⟩ := h
    exact ⟨res, h1, List.contains_iff_mem.mp h2⟩

end Verif.Sidb.Gss
