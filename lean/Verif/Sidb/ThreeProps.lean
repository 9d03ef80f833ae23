import Verif.Sidb.ThreeLemmas

/-!
# C52: QuickExact in three-state simulation
-/
namespace Verif.Sidb

theorem reduced_allneg (E : Env) (pre : List Nat) (hp : Erasable E pre) (a : Nat) :
    potential (reduced E pre) (fun _ => .neg) a = potential E (fun _ => .neg) ((remaining E pre).getD a 0) := by
  rw [reduced_potential E pre hp]
  refine potential_congr E (fun i _ => ?_) _
  simp [embedF]

/-- What the loops of three-state simulation report on a layout without necessarily negative SiDBs. -/
theorem threeRun_spec (R : Env) (P : R.Physical) (hn : 0 < R.n) (base : Nat) (hb2 : 2 ≤ base) (hb3 : base ≤ 3)
    (hb' : base = 3 ∨ candidates R ≠ []) (emit : Cds → List Charge)
    (hemit : ∀ s s' : Cds, emit s = emit s' ↔ ∀ i < R.n, s.charge i = s'.charge i) :
    ∃ l, outerLoop R (threeOf R) ((threeStart R base).maxIndex + 1) (threeStart R base) 0 = some l ∧
      (((l.filter (·.valid)).map emit).Nodup ∧
      (∀ s ∈ l.filter (·.valid), Valid R s.charge) ∧
      ∀ s : Cds, Valid R s.charge → OffMargin R s.charge 0 → emit s ∈ (l.filter (·.valid)).map emit) := by
  have S := split_of R
  have hlen := length_split R hn
  obtain ⟨b, m, hb, hb3', hbT, hms, hm, hs0⟩ : ∃ b m, 2 ≤ b ∧ b ≤ 3 ∧ (b = 3 ∨ (threeOf R).three ≠ []) ∧
      (threeOf R).maxSub + 1 = 3 ^ (threeOf R).three.length ∧ m + 1 = b ^ (threeOf R).two.length ∧
      threeStart R base = validityCheck R (updateDependent R (!(threeOf R).three.isEmpty) 0
        (updateNeglect R ⟨fun _ => .neg, fun _ => 0, false, 0, b, m⟩)) := by
    by_cases hc : candidates R = []
    · have h3 : (threeOf R).three = [] := hc
      have hbase : base = 3 := by
        rcases hb' with h | h
        · exact h
        · exact absurd hc h
      refine ⟨base, base ^ (R.n - 1) - 1, hb2, hb3, Or.inl hbase, ?_, ?_, ?_⟩
      · simp [threeOf, hc]
      · rw [show (threeOf R).two.length = R.n - 1 by rw [h3] at hlen; simpa using hlen]
        have : 0 < base ^ (R.n - 1) := Nat.pow_pos (by omega)
        omega
      · unfold threeStart
        simp only [hc, ne_eq, not_true_eq_false, if_false]
        rw [h3]
    · have h3 : (threeOf R).three ≠ [] := hc
      refine ⟨2, 2 ^ (R.n - 1 - (candidates R).length) - 1, Nat.le_refl _, by omega, Or.inr h3, ?_, ?_, ?_⟩
      · have : 0 < 3 ^ (candidates R).length := Nat.pow_pos (by omega)
        simp only [threeOf, ne_eq, hc, not_false_eq_true, if_true]
        omega
      · rw [show (threeOf R).two.length = R.n - 1 - (candidates R).length by
          have : (threeOf R).three.length = (candidates R).length := rfl
          omega]
        have : 0 < 2 ^ (R.n - 1 - (candidates R).length) := Nat.pow_pos (by omega)
        omega
      · unfold threeStart
        simp only [hc, ne_eq, not_false_eq_true, if_true]
        rfl
  have hinv : ThreeInv R (threeOf R) b m 0 0 (threeStart R base) := by
    rw [hs0]
    refine ThreeInv_finish P hn S b m 0 0 _ (Exact_neglect R _) ⟨?_, ?_, ?_⟩ rfl rfl rfl hbT
    · exact rval_neg _ _ _ fun _ _ => rfl
    · exact rval_neg _ _ _ fun _ _ => rfl
    · intro k _; simp only [updateNeglect, Charge.digit]; omega
  obtain ⟨l, e, hl⟩ := outerLoop_spec P hn S b m hb hb3' hbT hms hm (m + 1) 0 _ hinv (Nat.zero_le _) (by omega)
  refine ⟨l, by rw [hinv.max]; exact e, ?_, ?_, ?_⟩
  · -- different indices, different distributions
    have hpw : List.Pairwise (fun s s' => emit s ≠ emit s') l := by
      have hnd := pairs_nodup (threeOf R) 0 (m - 0 + 1)
      generalize pairs (threeOf R) 0 (m - 0 + 1) = ps at hl hnd
      clear e
      induction hl with
      | nil => exact List.Pairwise.nil
      | @cons p s ps l hp hrest ih =>
        rw [List.nodup_cons] at hnd
        refine List.Pairwise.cons (fun s' hs' heq => ?_) (ih hnd.2)
        obtain ⟨p', hp', hinv'⟩ : ∃ p' ∈ ps, ThreeInv R (threeOf R) b m p'.1 p'.2 s' := by
          clear ih hnd hp
          induction hrest with
          | nil => simp at hs'
          | @cons q t qs ts hq _ ih2 =>
            rcases List.mem_cons.1 hs' with rfl | hs'
            · exact ⟨q, List.mem_cons_self .., hq⟩
            · obtain ⟨p', h1, h2⟩ := ih2 hs'
              exact ⟨p', List.mem_cons_of_mem _ h1, h2⟩
        have hag := (hemit s s').1 heq
        have henc : Enc (threeOf R) b p.1 p.2 s'.charge := Enc_congr S (fun k hk _ => hag k hk) hp.enc
        have : p = p' := Prod.ext (henc.v3.symm.trans hinv'.enc.v3) (henc.v2.symm.trans hinv'.enc.v2)
        exact hnd.1 (this ▸ hp')
    rw [List.Nodup, List.pairwise_map]
    exact List.Pairwise.filter _ hpw
  · intro s hs
    rw [List.mem_filter] at hs
    obtain ⟨p, _, hinv'⟩ : ∃ p ∈ pairs (threeOf R) 0 (m - 0 + 1), ThreeInv R (threeOf R) b m p.1 p.2 s := by
      obtain ⟨i, hi, rfl⟩ := List.getElem_of_mem hs.1
      have hi' : i < (pairs (threeOf R) 0 (m - 0 + 1)).length := by rw [hl.length_eq]; exact hi
      exact ⟨_, List.getElem_mem hi', hl.get hi' hi⟩
    exact hinv'.valid.1 hs.2
  · intro s hv hoff
    -- non-candidates are not positive
    have hnp : ∀ k ∈ (threeOf R).two, s.charge k ≠ .pos := by
      intro k hk hpos
      have hk' : k < R.n ∧ k ≠ 0 := (S.cover k).1 (Or.inr hk)
      have hnc : k ∉ candidates R := fun h => S.disj k h hk
      rw [mem_candidates] at hnc
      have h3 := (hv.1 k hk'.1).2.2 hpos
      have hmono := potential_mono R P (c := fun _ => .neg) (c' := s.charge) (fun _ _ => sign_neg_le _) k
      apply hnc
      refine ⟨hk'.1, hk'.2, fun hlt => ?_⟩
      unfold Env.posLB at hlt
      linarith
    have hd2 : ∀ k ∈ (threeOf R).two, (s.charge k).digit < b := by
      intro k hk
      have := hnp k hk
      cases hc : s.charge k <;> simp only [Charge.digit] <;> first | omega | exact absurd hc this
    have henc : Enc (threeOf R) b (rval 3 s.charge (threeOf R).three.reverse) (rval b s.charge (threeOf R).two.reverse) s.charge :=
      ⟨rfl, rfl, hd2⟩
    have hl3 := rval_lt 3 s.charge (threeOf R).three.reverse (fun _ _ => digit_lt_three _)
    have hl2 := rval_lt b s.charge (threeOf R).two.reverse (fun k hk => hd2 k (List.mem_reverse.1 hk))
    rw [List.length_reverse] at hl3 hl2
    obtain ⟨i, hi, hpi⟩ := List.getElem_of_mem ((mem_pairs (threeOf R) 0 (m - 0 + 1) (_, _)).2
      (⟨by simp only; omega, Nat.zero_le _, by simp only; omega⟩ :
        (rval 3 s.charge (threeOf R).three.reverse, rval b s.charge (threeOf R).two.reverse).1 ≤ (threeOf R).maxSub ∧
        0 ≤ (rval 3 s.charge (threeOf R).three.reverse, rval b s.charge (threeOf R).two.reverse).2 ∧
        (rval 3 s.charge (threeOf R).three.reverse, rval b s.charge (threeOf R).two.reverse).2 < 0 + (m - 0 + 1)))
    have hi' : i < l.length := by rw [← hl.length_eq]; exact hi
    have hinv' := hl.get hi hi'
    simp only [List.get_eq_getElem] at hinv'
    rw [hpi] at hinv'
    have hag := Enc_inj S (by omega) henc hinv'.enc
    have hset : ∀ j < R.n, s.charge j = setAt (l[i]).charge 0 (s.charge 0) j := by
      intro j hj
      by_cases hj0 : j = 0
      · subst hj0; simp [setAt]
      · rw [hag j hj hj0]; simp [setAt, hj0]
    have hpot : potential R s.charge 0 = potential R (l[i]).charge 0 := by
      rw [potential_congr R hset, potential_self R P]
    have hdep : (l[i]).charge 0 = s.charge 0 := by
      have hd := hinv'.dep
      unfold DepOk at hd
      rw [hd]
      obtain ⟨p1, p2, p3⟩ := hv.1 0 hn
      obtain ⟨o1, o2⟩ := hoff
      have heps := P.eps
      have hmu := P.mu
      rw [hpot] at p1 p2 p3 o1 o2
      unfold Env.negUB Env.posLB
      cases hc : s.charge 0 with
      | neg => rw [if_pos (p1 hc)]
      | neu =>
        obtain ⟨q1, q2⟩ := p2 hc
        rw [if_neg (fun h => o1 ⟨q1, h⟩), if_neg (fun h => o2 ⟨h, q2⟩)]
      | pos =>
        have q := p3 hc
        rw [if_neg (fun h => ?_), if_pos q]
        have : ¬ (-potential R l[i].charge 0 < R.ext 0 - R.muPlus + R.eps) := fun h' => o2 ⟨q, h'⟩
        push Not at this
        linarith
    have hall : ∀ j < R.n, s.charge j = (l[i]).charge j := by
      intro j hj
      by_cases hj0 : j = 0
      · subst hj0; exact hdep.symm
      · exact hag j hj hj0
    refine List.mem_map.2 ⟨l[i], List.mem_filter.2 ⟨List.getElem_mem _, ?_⟩, ((hemit _ _).2 hall).symm⟩
    exact hinv'.valid.2 ((Valid_congr R hall).1 hv)

/-- In the layout without the necessarily negative SiDBs, an SiDB other than the first one can become positive. -/
def SecondPositive (E : Env) : Prop :=
  ∃ i j, i < j ∧ j < E.n ∧ i ∉ negativeDetection E (initNegative E 3) ∧ j ∉ negativeDetection E (initNegative E 3) ∧
    E.ext j - E.muPlus - E.eps ≤ -potential E (fun _ => .neg) j

/-- QuickExact on at least two SiDBs, all of which see the same external potential, is defined in three-state
simulation, returns no charge distribution twice and only physically valid ones, and returns every physically
valid one whose potentials are not within the error margin of a transition level. Unless the base of the parameters is
three, an SiDB other than the first one that is not necessarily negative has to be able to become positive. -/
theorem C52_quickexact (E : Env) (P : E.Physical) (hn : 1 < E.n) (hext : UniformExt E) (auto : Bool) (base : Nat)
    (hb : base = 3 ∨ (base = 2 ∧ SecondPositive E)) :
    ∃ res, quickexactThree E auto base = some res ∧ res.Nodup ∧
      (∀ l ∈ res, l.length = E.n ∧ Valid E (ofList l)) ∧
      (∀ l : List Charge, l.length = E.n → Valid E (ofList l) → (∀ i < E.n, OffMargin E (ofList l) i) → l ∈ res) := by
  unfold quickexactThree
  dsimp only
  rw [if_pos hn]
  have hs := initNegative_ext E base
  have hp := detection_erasable E (initNegative { E with ext := fun _ => 0 } base)
  have hsec : base = 3 ∨ (base = 2 ∧ ∃ i j, i < j ∧ j < E.n ∧ i ∉ negativeDetection E (initNegative { E with ext := fun _ => 0 } base) ∧
      j ∉ negativeDetection E (initNegative { E with ext := fun _ => 0 } base) ∧
      E.ext j - E.muPlus - E.eps ≤ -potential E (fun _ => .neg) j) := by
    refine hb.imp_right fun ⟨h2, i, j, h3, h4, h5, h6, h7⟩ => ⟨h2, i, j, h3, h4, ?_, ?_, h7⟩
    · rw [mem_negativeDetection] at h5 ⊢; rw [initNegative_pot] at h5; rw [hs]; exact h5
    · rw [mem_negativeDetection] at h6 ⊢; rw [initNegative_pot] at h6; rw [hs]; exact h6
  generalize hs0 : initNegative { E with ext := fun _ => 0 } base = s0 at *
  have hforced : ∀ c, Valid E c → ∀ i ∈ negativeDetection E s0, c i = .neg := fun c hc i hi =>
    C38_forced_negative E P { s0 with charge := fun _ => .neg } (fun j _ => hs j) (fun _ _ => rfl) i hi c hc
  have hdet : ∀ i ∈ negativeDetection E s0, -potential E (fun _ => .neg) i < E.ext i - E.muMinus - E.eps := by
    intro i hi
    have := ((mem_negativeDetection E s0 i).1 hi).2
    rw [hs i] at this
    linarith
  have hfrom := fun c => valid_from_reduced E P s0 (fun i _ => hs i) hext c
  generalize negativeDetection E s0 = pre at *
  have hcharge : s0.charge = fun _ => .neg := by rw [← hs0]; rfl
  by_cases hrem : remaining E pre = []
  · rw [if_pos hrem]
    have hall : ∀ i < E.n, i ∈ pre := by
      intro i hi
      by_contra hc
      have := (mem_remaining E pre i).2 ⟨hi, hc⟩
      rw [hrem] at this
      simp at this
    refine ⟨_, rfl, by simp, ?_, ?_⟩
    · intro l hl
      rw [List.mem_singleton] at hl
      subst hl
      refine ⟨by simp [Cds.charges], ?_⟩
      rw [Valid_congr E (c' := fun _ => .neg) (fun i hi => by rw [ofList_charges s0 E.n i hi, hcharge])]
      rw [C38_all_negative]
      intro i hi
      have := hdet i (hall i hi)
      have := P.eps
      linarith
    · intro l hl hv _
      rw [List.mem_singleton, ← map_ofList l E.n hl]
      unfold Cds.charges
      refine List.map_congr_left fun i hi => ?_
      rw [hforced _ hv i (hall i (List.mem_range.1 hi)), hcharge]
  · rw [if_neg hrem]
    have hd : 0 < (reduced E pre).n := List.length_pos_of_ne_nil hrem
    have hcand : base = 3 ∨ candidates (reduced E pre) ≠ [] := by
      refine hsec.imp_right fun ⟨_, i, j, hij, hj, hi', hj', hle⟩ => ?_
      obtain ⟨a, ha, rfl⟩ := rem_surj E pre hj hj'
      obtain ⟨a', ha', rfl⟩ := rem_surj E pre (by omega) hi'
      have hsort : (remaining E pre).Pairwise (· < ·) := List.Pairwise.filter _ List.pairwise_lt_range
      have ha0 : a ≠ 0 := by
        rintro rfl
        rcases Nat.eq_zero_or_pos a' with h | h
        · subst h; omega
        · have := List.pairwise_iff_getElem.1 hsort 0 a' ha ha' h
          simp only [List.getD_eq_getElem?_getD, List.getElem?_eq_getElem ha, List.getElem?_eq_getElem ha', Option.getD_some] at hij
          omega
      intro hnil
      have : a ∈ candidates (reduced E pre) := by
        rw [mem_candidates, reduced_allneg E pre hp]
        refine ⟨ha, ha0, not_lt.2 hle⟩
      rw [hnil] at this
      simp at this
    obtain ⟨l, e, g1, g2, g3⟩ := threeRun_spec (reduced E pre) (reduced_physical E P pre) hd base (by omega) (by omega) hcand (embed E pre)
      (embed_inj E pre)
    rw [e]
    refine ⟨_, rfl, g1, ?_, ?_⟩
    · intro x hx
      obtain ⟨s', hs', rfl⟩ := List.mem_map.1 hx
      refine ⟨by simp [embed], ?_⟩
      rw [embed_eq_map, Valid_congr E (fun i hi => ofList_map E.n _ i hi)]
      exact hfrom _ (g2 s' hs')
    · intro x hx hv hoff
      let c : Nat → Charge := fun a => ofList x ((remaining E pre).getD a 0)
      have hemb : ∀ i < E.n, embedF E pre c i = ofList x i := by
        intro i hi
        by_cases hip : i ∈ pre
        · rw [hforced _ hv i hip]; simp [embedF, hip]
        · obtain ⟨a, ha, rfl⟩ := rem_surj E pre hi hip
          rw [embedF_rem E pre c ha]
      have hlt : ∀ a < (reduced E pre).n, (remaining E pre).getD a 0 < E.n := fun a ha =>
        ((mem_remaining E pre _).1 (getD_mem ha)).1
      have hval : Valid (reduced E pre) c := valid_to_reduced E pre hp c ((Valid_congr E hemb).2 hv)
      have hoff' : OffMargin (reduced E pre) c 0 := by
        have := hoff _ (hlt 0 hd)
        unfold OffMargin at this ⊢
        rw [reduced_potential E pre hp c 0, potential_congr E hemb]
        exact this
      have := g3 { threeStart (reduced E pre) base with charge := c } hval hoff'
      rw [embed_eq_map] at this
      rw [← map_ofList x E.n hx]
      have e : (List.range E.n).map (embedF E pre c) = (List.range E.n).map (ofList x) :=
        List.map_congr_left fun i hi => hemb i (List.mem_range.1 hi)
      rw [← e]
      exact this

/-- With the default base three, whether or not the base number is detected automatically: for a layout of several SiDBs in which
no charge distribution brings the potential of an SiDB into the error margin of a transition level, QuickExact and the
exhaustive simulation in base three return the same charge distributions, each exactly once. -/
theorem C52_agrees (E : Env) (P : E.Physical) (hn : 1 < E.n) (hext : UniformExt E) (auto : Bool)
    (hoff : ∀ c : Nat → Charge, ∀ i < E.n, OffMargin E c i) :
    ∃ r r', quickexact E auto 3 = some r ∧ exgs E 3 = some r' ∧ r.Nodup ∧ r'.Nodup ∧ ∀ l, l ∈ r ↔ l ∈ r' := by
  by_cases h3 : ((auto && threeStateRequired E) || (!auto && decide (3 = 3))) = true
  · obtain ⟨r, e, hnd, hs, hc⟩ := C52_quickexact E P hn hext auto 3 (Or.inl rfl)
    obtain ⟨r', e', hnd', hm⟩ := C36_exact E 3 (Or.inr rfl) (by omega)
    refine ⟨r, r', by unfold quickexact; rw [if_pos h3]; exact e, e', hnd, hnd', fun l => ?_⟩
    rw [hm]
    refine ⟨fun h => ⟨(hs l h).1, fun x _ => ?_, (hs l h).2⟩, fun ⟨a, _, c⟩ => hc l a c (hoff _)⟩
    unfold Admissible
    cases x <;> simp
  · have : auto = true ∧ threeStateRequired E = false := by
      cases auto <;> simp_all
    obtain ⟨rfl, h2⟩ := this
    unfold quickexact
    rw [if_neg h3]
    exact C39_agrees_three E P hn hext 3 h2 hoff

/-- For a single SiDB, three-state simulation returns exactly the physically valid charge states if the base number is
detected automatically or no external potential is applied. -/
theorem C52_single (E : Env) (hn : E.n = 1) (auto : Bool) (base : Nat) (h : auto = true ∨ E.ext = fun _ => 0) :
    ∃ res, quickexactThree E auto base = some res ∧ res.Nodup ∧
      ∀ l : List Charge, l ∈ res ↔ l.length = E.n ∧ (∀ x ∈ l, Admissible 3 x) ∧ Valid E (ofList l) := by
  obtain ⟨res, e, hnd, hm⟩ := C36_exact E 3 (Or.inr rfl) (by omega)
  refine ⟨res, ?_, hnd, hm⟩
  have hat : ∀ s : Cds, s.charge = (fun _ => .neg) → s.index = 0 → (s.valid = true ↔ Valid E s.charge) →
      AtIndex E 3 0 { s with base := 3, maxIndex := 3 ^ E.n - 1 } := by
    intro s hc hi hv
    exact ⟨hi, rfl, rfl, fun i _ => by simp [hc, Charge.digit], by simp only [hc]; exact value_neg _ _ _ _ fun _ _ _ => rfl, hv⟩
  unfold exgs at e
  rw [if_neg (by omega)] at e
  unfold quickexactThree
  dsimp only
  rw [if_neg (by omega), if_pos hn]
  have hinit := AtIndex_init E 3 (by omega)
  rw [exgsLoop_eq E 3 (by omega) (by omega) _ 0 _ hinit (Nat.pow_pos (by omega)) (by omega)] at e
  have goal : ∀ s : Cds, s.charge = (fun _ => .neg) → s.index = 0 → (s.valid = true ↔ Valid E s.charge) →
      exgsLoop E 3 { s with base := 3, maxIndex := 3 ^ E.n - 1 } = some res := by
    intro s hc hi hv
    rw [exgsLoop_eq E 3 (by omega) (by omega) _ 0 _ (hat s hc hi hv) (Nat.pow_pos (by omega)) (by rw [hn]; omega)]
    exact e
  cases auto with
  | true =>
    simp only [if_true]
    exact goal _ rfl rfl (validityCheck_iff E _ (Exact_neglect E _))
  | false =>
    simp only [Bool.false_eq_true, if_false]
    rcases h with h | h
    · exact absurd h (by simp)
    · have hE : { E with ext := fun _ => 0 } = E := by cases E; simp only at h; subst h; rfl
      rw [hE]
      exact goal _ rfl rfl (validityCheck_iff E _ (Exact_neglect E _))

/-! Cases that meet the hypotheses. -/

/-- Four SiDBs: three close together, one far away. -/
def denseEnv : Env :=
  { n := 4
    pot := fun i j => if i = j then 0 else if i = 3 ∨ j = 3 then 1 / 100 else 1
    defectPot := fun _ => 0
    ext := fun _ => 0
    muMinus := -(32 / 100)
    muPlus := -(91 / 100)
    eps := 1 / 1000000 }

theorem denseEnv_physical : denseEnv.Physical where
  symm i j := by
    simp only [denseEnv]
    by_cases h : i = j
    · simp [h]
    · simp [h, Ne.symm h, or_comm]
  diag i := by simp [denseEnv]
  nonneg i j := by
    simp only [denseEnv]
    split_ifs <;> decide +kernel
  mu := by decide +kernel
  eps := by decide +kernel

example : threeStateRequired denseEnv = true ∧ candidates (reduced denseEnv [3]) = [1, 2] ∧
    negativeDetection denseEnv (initNegative denseEnv 3) = [3] := by decide +kernel

example : SecondPositive denseEnv := ⟨0, 1, by decide, by decide, by decide +kernel, by decide +kernel, by
  rw [← fromScratch_eq]; decide +kernel⟩

/-- Positive charges do occur. -/
example : quickexact denseEnv true 3 = some [[.pos, .neg, .neg, .neg], [.neg, .neg, .pos, .neg], [.neg, .pos, .neg, .neg]] := by
  decide +kernel

/-! ## Where QuickExact and the definition of validity part -/

/-- Two SiDBs, the first one next to a charged defect. -/
def depEnv : Env :=
  { n := 2
    pot := fun i j => if i = j then 0 else 1 / 2
    defectPot := fun i => if i = 0 then -(6 / 10) else 0
    ext := fun _ => 0
    muMinus := -(32 / 100)
    muPlus := -(91 / 100)
    eps := 1 / 1000000 }

/-- With base two in the parameters and automatic base number detection, three-state simulation is conducted because the first
SiDB may become positive, but its positive charge state is never tried. -/
theorem C52_base_two_missed : quickexact depEnv true 2 = some [] ∧ quickexact depEnv true 3 = some [[.pos, .neg]] ∧
    exgs depEnv 3 = some [[.pos, .neg]] := by decide +kernel

end Verif.Sidb
