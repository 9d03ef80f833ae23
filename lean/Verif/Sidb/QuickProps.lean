import Verif.Sidb.QuickLemmas

/-!
# C39: QuickExact in two-state simulation

`TwoState` is the condition under which `quickexact` conducts two-state simulation (quickexact.hpp:99-106).
-/
namespace Verif.Sidb

/-- Two-state simulation is conducted: detected automatically, or requested by the base of the parameters. -/
def TwoState (E : Env) (auto : Bool) (base : Nat) : Prop :=
  (auto = true ∧ threeStateRequired E = false) ∨ (auto = false ∧ base = 2)

/-- All SiDBs see the same external potential. -/
def UniformExt (E : Env) : Prop := ∀ i < E.n, ∀ j < E.n, E.ext i = E.ext j

theorem initNegative_ext (E : Env) (b : Nat) (i : Nat) :
    (initNegative { E with ext := fun _ => 0 } b).intPot i = potential E (fun _ => .neg) i := by
  rw [initNegative_pot]; rfl

theorem start_inv (E : Env) (P : E.Physical) (auto : Bool) (base : Nat) (h2 : TwoState E auto base) (pre : List Nat)
    (hp : Erasable E pre) (hne : remaining E pre ≠ []) :
    LoopInv (reduced E pre) 0 0 (quickexactStart (reduced E pre) base) := by
  have hd : 0 < (reduced E pre).n := List.length_pos_of_ne_nil hne
  have hx := Exact_dependent (reduced E pre) (reduced_physical E P pre) false 0 hd _
    (Exact_neglect (reduced E pre) ⟨fun _ => .neu, fun _ => 0, false, 0, base, 0⟩)
  refine ⟨hx, ?_, rfl, rfl, ?_⟩
  · intro j hj
    have := updateDependent_charge (reduced E pre) false 0 (bitCell 0 j)
      (updateNeglect (reduced E pre) ⟨fun _ => .neu, fun _ => 0, false, 0, base, 0⟩) (bitCell_ne 0 j)
    simp only [quickexactStart, validityCheck_charge, Nat.zero_testBit]
    rw [this]
    rfl
  · simp only [quickexactStart, validityCheck_charge]
    rw [updateDependent_value]
    split_ifs with h1 h3 h4
    · decide
    · exfalso
      rcases h2 with ⟨_, hr⟩ | ⟨_, hb⟩
      · have hm := (mem_remaining E pre _).1 (getD_mem (show 0 < (remaining E pre).length from hd))
        have : -potential E (fun _ => .neg) ((remaining E pre).getD 0 0) < E.posLB ((remaining E pre).getD 0 0) := by
          by_contra hc
          have : threeStateRequired E = true := List.any_eq_true.2 ⟨_, List.mem_range.2 hm.1, by
            rw [fromScratch_eq]; simpa using not_lt.1 hc⟩
          rw [this] at hr
          exact Bool.false_ne_true hr.symm
        have hle := potential_mono E P (c := fun _ => .neg) (c' := embedF E pre fun _ => .neu) (fun _ _ => sign_neg_le _)
          ((remaining E pre).getD 0 0)
        rw [← reduced_potential E pre hp] at hle
        simp only [updateNeglect, fromScratch_eq] at h3
        have e : (reduced E pre).posLB 0 = E.posLB ((remaining E pre).getD 0 0) := rfl
        rw [e] at h3
        linarith
      · subst hb
        simp [updateNeglect] at h4
    · simp [updateNeglect]
    · decide

/-- QuickExact on at least two SiDBs, all of which see the same external potential, is defined in two-state
simulation, returns no charge distribution twice and only physically valid ones, and returns every physically
valid one whose potentials are not within the error margin of a transition level. -/
theorem C39_quickexact (E : Env) (P : E.Physical) (hn : 1 < E.n) (hext : UniformExt E) (auto : Bool) (base : Nat)
    (h2 : TwoState E auto base) :
    ∃ res, quickexactTwo E auto base = some res ∧ res.Nodup ∧
      (∀ l ∈ res, l.length = E.n ∧ (∀ x ∈ l, Admissible 2 x) ∧ Valid E (ofList l)) ∧
      (∀ l : List Charge, l.length = E.n → (∀ x ∈ l, Admissible 2 x) → Valid E (ofList l) →
        (∀ i < E.n, OffMargin E (ofList l) i) → l ∈ res) := by
  have hadm : ∀ x : Charge, Admissible 2 x ↔ x ≠ .pos := by
    intro x; unfold Admissible; cases x <;> simp
  unfold quickexactTwo
  dsimp only
  rw [if_pos hn]
  have hs := initNegative_ext E base
  have hp := detection_erasable E (initNegative { E with ext := fun _ => 0 } base)
  generalize hs0 : initNegative { E with ext := fun _ => 0 } base = s0 at *
  have hforced : ∀ c, Valid E c → ∀ i ∈ negativeDetection E s0, c i = .neg := fun c hc i hi =>
    C38_forced_negative E P { s0 with charge := fun _ => .neg } (fun j _ => hs j) (fun _ _ => rfl) i hi c hc
  have hdet : ∀ i ∈ negativeDetection E s0, -potential E (fun _ => .neg) i < E.ext i - E.muMinus - E.eps := by
    intro i hi
    have := ((mem_negativeDetection E s0 i).1 hi).2
    rw [hs i] at this
    linarith
  have hfrom := fun c => valid_from_reduced E P s0 (fun i _ => hs i) hext c
  have hstart := fun hne => start_inv E P auto base h2 (negativeDetection E s0) hp hne
  generalize negativeDetection E s0 = pre at *
  have hcharge : s0.charge = fun _ => .neg := by rw [← hs0]; rfl
  by_cases hrem : remaining E pre = []
  · rw [if_pos hrem]
    have hall : ∀ i < E.n, i ∈ pre := by
      intro i hi
      by_contra hc
      have := (mem_remaining E pre i).2 ⟨hi, hc⟩
      rw [hrem] at this
      simp at this
    refine ⟨_, rfl, by simp, ?_, ?_⟩
    · intro l hl
      rw [List.mem_singleton] at hl
      subst hl
      refine ⟨by simp [Cds.charges], ?_, ?_⟩
      · intro x hx
        simp only [Cds.charges, hcharge, List.mem_map] at hx
        obtain ⟨_, _, rfl⟩ := hx
        exact Or.inl rfl
      · rw [Valid_congr E (c' := fun _ => .neg) (fun i hi => by rw [ofList_charges s0 E.n i hi, hcharge])]
        rw [C38_all_negative]
        intro i hi
        have := hdet i (hall i hi)
        have := P.eps
        linarith
    · intro l hl _ hv _
      rw [List.mem_singleton, ← map_ofList l E.n hl]
      unfold Cds.charges
      refine List.map_congr_left fun i hi => ?_
      rw [hforced _ hv i (hall i (List.mem_range.1 hi)), hcharge]
  · rw [if_neg hrem]
    have hd : 0 < (reduced E pre).n := List.length_pos_of_ne_nil hrem
    obtain ⟨g1, g2, g3⟩ := grayLoop_spec (reduced E pre) (reduced_physical E P pre) 0 hd (embed E pre) (embed_inj E pre)
      (2 ^ ((reduced E pre).n - 1)) 0 0 _ (hstart hrem) (Nat.pow_pos (by omega)) (Or.inl rfl) (by omega)
    refine ⟨_, rfl, g1, ?_, ?_⟩
    · intro l hl
      obtain ⟨k, s', _, _, rfl, henc, hdp, hv⟩ := g2 l hl
      refine ⟨by simp [embed], ?_, ?_⟩
      · intro x hx
        rw [embed_eq_map, List.mem_map] at hx
        obtain ⟨i, hi, rfl⟩ := hx
        rw [hadm]
        by_cases hip : i ∈ pre
        · simp [embedF, hip]
        · obtain ⟨a, ha, rfl⟩ := rem_surj E pre (List.mem_range.1 hi) hip
          rw [embedF_rem E pre _ ha]
          by_cases ha0 : a = 0
          · subst ha0; exact hdp
          · obtain ⟨j, hj, rfl⟩ := bitCell_surj (d := 0) ha hd ha0
            rw [henc j hj]
            split <;> decide
      · rw [embed_eq_map, Valid_congr E (fun i hi => ofList_map E.n _ i hi)]
        exact hfrom _ hv
    · intro l hl hadl hv hoff
      have hnp : ∀ i < E.n, ofList l i ≠ .pos := by
        intro i hi
        rw [← hadm]
        apply hadl
        simp [ofList, show i < l.length by omega]
      -- the distribution over the remaining SiDBs
      let c : Nat → Charge := fun a => ofList l ((remaining E pre).getD a 0)
      have hemb : ∀ i < E.n, embedF E pre c i = ofList l i := by
        intro i hi
        by_cases hip : i ∈ pre
        · rw [hforced _ hv i hip]; simp [embedF, hip]
        · obtain ⟨a, ha, rfl⟩ := rem_surj E pre hi hip
          rw [embedF_rem E pre c ha]
      have hlt : ∀ a < (reduced E pre).n, (remaining E pre).getD a 0 < E.n := fun a ha =>
        ((mem_remaining E pre _).1 (getD_mem ha)).1
      obtain ⟨w, hw, henc⟩ := encodes_exists hd c fun a ha => hnp _ (hlt a ha)
      obtain ⟨k, hk, rfl⟩ := gray_surj _ w hw
      have hval : Valid (reduced E pre) c := valid_to_reduced E pre hp c ((Valid_congr E hemb).2 hv)
      have hoff' : OffMargin (reduced E pre) c 0 := by
        have := hoff _ (hlt 0 hd)
        unfold OffMargin at this ⊢
        rw [reduced_potential E pre hp c 0, potential_congr E hemb]
        exact this
      have := g3 k (Nat.zero_le _) (by omega) { quickexactStart (reduced E pre) base with charge := c } henc (hnp _ (hlt 0 hd)) hval hoff'
      rw [embed_eq_map] at this
      rw [← map_ofList l E.n hl]
      have e : (List.range E.n).map (embedF E pre c) = (List.range E.n).map (ofList l) :=
        List.map_congr_left fun i hi => hemb i (List.mem_range.1 hi)
      rw [← e]
      exact this

/-- For a layout of several SiDBs in which no charge distribution brings the potential of an SiDB into the error
margin of a transition level, QuickExact in two-state simulation and the exhaustive simulation in base two
return the same charge distributions, each exactly once. -/
theorem C39_agrees (E : Env) (P : E.Physical) (hn : 1 < E.n) (hext : UniformExt E) (auto : Bool) (base : Nat)
    (h2 : TwoState E auto base) (hoff : ∀ c : Nat → Charge, ∀ i < E.n, OffMargin E c i) :
    ∃ r r', quickexactTwo E auto base = some r ∧ exgs E 2 = some r' ∧ r.Nodup ∧ r'.Nodup ∧ ∀ l, l ∈ r ↔ l ∈ r' := by
  obtain ⟨r, e, hnd, hs, hc⟩ := C39_quickexact E P hn hext auto base h2
  obtain ⟨r', e', hnd', hm⟩ := C36_exact E 2 (Or.inl rfl) (by omega)
  refine ⟨r, r', e, e', hnd, hnd', fun l => ?_⟩
  rw [hm]
  exact ⟨hs l, fun ⟨a, b, c⟩ => hc l a b c (hoff _)⟩

/-- With automatic base number detection the result also agrees with the exhaustive simulation in base three. -/
theorem C39_agrees_three (E : Env) (P : E.Physical) (hn : 1 < E.n) (hext : UniformExt E) (base : Nat)
    (h2 : threeStateRequired E = false) (hoff : ∀ c : Nat → Charge, ∀ i < E.n, OffMargin E c i) :
    ∃ r r', quickexactTwo E true base = some r ∧ exgs E 3 = some r' ∧ r.Nodup ∧ r'.Nodup ∧ ∀ l, l ∈ r ↔ l ∈ r' := by
  obtain ⟨r, r2, e, e2, hnd, _, hm⟩ := C39_agrees E P hn hext true base (Or.inl ⟨rfl, h2⟩) hoff
  obtain ⟨r3, e3, hnd3, _⟩ := C36_exact E 3 (Or.inr rfl) (by omega)
  refine ⟨r, r3, e, e3, hnd, hnd3, fun l => ?_⟩
  rw [hm]
  refine C36_base_two_suffices E P (by omega) ?_ r2 r3 e2 e3 l
  rw [Bool.eq_false_iff] at h2 ⊢
  intro hp
  obtain ⟨i, hi, hlt⟩ := List.any_eq_true.1 hp
  refine h2 (List.any_eq_true.2 ⟨i, hi, ?_⟩)
  simp only [gt_iff_lt, decide_eq_true_eq, Bool.not_eq_true', decide_eq_false_iff_not] at hlt ⊢
  intro h'
  linarith

/-- For a single SiDB, QuickExact returns exactly the physically valid charge states if the base number is
detected automatically or no external potential is applied. -/
theorem C39_single (E : Env) (hn : E.n = 1) (auto : Bool) (base : Nat) (h : auto = true ∨ E.ext = fun _ => 0) :
    ∃ res, quickexactTwo E auto base = some res ∧ res.Nodup ∧
      ∀ l : List Charge, l ∈ res ↔ l.length = E.n ∧ (∀ x ∈ l, Admissible 2 x) ∧ Valid E (ofList l) := by
  obtain ⟨res, e, hnd, hm⟩ := C36_exact E 2 (Or.inl rfl) (by omega)
  refine ⟨res, ?_, hnd, hm⟩
  have hat : ∀ s : Cds, s.charge = (fun _ => .neg) → s.index = 0 → (s.valid = true ↔ Valid E s.charge) →
      AtIndex E 2 0 { s with base := 2, maxIndex := 2 ^ E.n - 1 } := by
    intro s hc hi hv
    exact ⟨hi, rfl, rfl, fun i _ => by simp [hc, Charge.digit], by simp only [hc]; exact value_neg _ _ _ _ fun _ _ _ => rfl, hv⟩
  unfold exgs at e
  rw [if_neg (by omega)] at e
  unfold quickexactTwo
  dsimp only
  rw [if_neg (by omega), if_pos hn]
  have hinit := AtIndex_init E 2 (Nat.le_refl 2)
  rw [exgsLoop_eq E 2 (by omega) (by omega) _ 0 _ hinit (Nat.pow_pos (by omega)) (by omega)] at e
  have goal : ∀ s : Cds, s.charge = (fun _ => .neg) → s.index = 0 → (s.valid = true ↔ Valid E s.charge) →
      exgsLoop E 2 { s with base := 2, maxIndex := 2 ^ E.n - 1 } = some res := by
    intro s hc hi hv
    rw [exgsLoop_eq E 2 (by omega) (by omega) _ 0 _ (hat s hc hi hv) (Nat.pow_pos (by omega)) (by rw [hn]; omega)]
    exact e
  cases auto with
  | true =>
    simp only [if_true]
    exact goal _ rfl rfl (validityCheck_iff E _ (Exact_neglect E _))
  | false =>
    simp only [Bool.false_eq_true, if_false]
    rcases h with h | h
    · exact absurd h (by simp)
    · have hE : { E with ext := fun _ => 0 } = E := by cases E; simp only at h; subst h; rfl
      rw [hE]
      exact goal _ rfl rfl (validityCheck_iff E _ (Exact_neglect E _))

/-- No SiDBs, no charge distributions. -/
theorem C39_empty (E : Env) (hn : E.n = 0) (auto : Bool) (base : Nat) : quickexactTwo E auto base = some [] := by
  simp [quickexactTwo, hn]

/-! A case that meets the hypotheses: one SiDB is erased, two remain. -/

example : TwoState exampleEnv true 3 ∧ TwoState exampleEnv false 2 ∧ UniformExt exampleEnv ∧ 1 < exampleEnv.n :=
  ⟨Or.inl ⟨rfl, by decide +kernel⟩, Or.inr ⟨rfl, rfl⟩, fun _ _ _ _ => rfl, by decide⟩

example : quickexactTwo exampleEnv true 3 = some [[.neg, .neu, .neg], [.neu, .neg, .neg]] := by decide +kernel

/-- The potentials in the example are far from the margins for all eight distributions over two states. -/
example : ∀ x ∈ [Charge.neg, .neu], ∀ y ∈ [Charge.neg, .neu], ∀ z ∈ [Charge.neg, .neu], ∀ i ∈ List.range 3,
    let v := -exampleEnv.fromScratch (ofList [x, y, z]) i
    ¬ (exampleEnv.neuLB i < v ∧ v < exampleEnv.negUB i) ∧ ¬ (exampleEnv.posLB i < v ∧ v < exampleEnv.neuUB i) := by
  decide +kernel

/-! ## Where QuickExact and the definition of validity part -/

/-- Two SiDBs with a potential of the distance of the transition level. -/
def marginEnv : Env :=
  { n := 2
    pot := fun i j => if i = j then 0 else 32 / 100
    defectPot := fun _ => 0
    ext := fun _ => 0
    muMinus := -(32 / 100)
    muPlus := -(91 / 100)
    eps := 1 / 1000000 }

/-- Within the error margin, QuickExact misses physically valid charge distributions: the dependent SiDB is
only tried with the negative charge state although the neutral one is accepted, too. -/
theorem C39_margin_missed : quickexactTwo marginEnv true 3 = some [[.neg, .neu], [.neg, .neg]] ∧
    exgs marginEnv 2 = some [[.neg, .neg], [.neg, .neu], [.neu, .neg]] := by decide +kernel

/-- Two SiDBs, the second one with a local external potential and a charged defect close to it. -/
def localEnv : Env :=
  { n := 2
    pot := fun i j => if i = j then 0 else 1 / 100
    defectPot := fun i => if i = 1 then -(3 / 2) else 0
    ext := fun i => if i = 1 then 1 else 0
    muMinus := -(32 / 100)
    muPlus := -(91 / 100)
    eps := 1 / 1000000 }

/-- With local external potentials, QuickExact returns charge distributions that are not physically valid by the
validity check of the full layout. -/
theorem C39_local_unsound : quickexactTwo localEnv false 2 = some [[.neg, .neu]] ∧
    (validityCheck localEnv (updateNeglect localEnv ⟨ofList [.neg, .neu], fun _ => 0, false, 0, 2, 0⟩)).valid = false ∧
    exgs localEnv 2 = some [] := by decide +kernel

/-- A single SiDB with an external potential that neutralizes it. -/
def singleEnv : Env :=
  { n := 1
    pot := fun _ _ => 0
    defectPot := fun _ => 0
    ext := fun _ => -(1 / 2)
    muMinus := -(32 / 100)
    muPlus := -(91 / 100)
    eps := 1 / 1000000 }

/-- Without automatic base number detection, QuickExact reports the negative charge state of a single SiDB although
the external potential makes it invalid. -/
theorem C39_single_stale : quickexactTwo singleEnv false 2 = some [[.neg], [.neu]] ∧
    quickexactTwo singleEnv true 2 = some [[.neu]] ∧ exgs singleEnv 2 = some [[.neu]] := by decide +kernel

end Verif.Sidb
