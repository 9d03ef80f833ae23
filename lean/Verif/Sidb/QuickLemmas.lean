import Verif.Sidb.ReduceLemmas
import Verif.Sidb.IncrementalProps
import Verif.Sidb.ExgsProps

/-! Helper lemmas for the two-state simulation of QuickExact. -/
namespace Verif.Sidb

/-- State of the surface before an iteration with previous word `w`. -/
structure LoopInv (E : Env) (d w : Nat) (s : Cds) : Prop where
  exact : Exact E s
  enc : Encodes E.n d w s.charge
  max : s.maxIndex = 2 ^ (E.n - 1) - 1
  base : s.base = 2
  dep : s.charge d ≠ .pos

theorem LoopInv_step (E : Env) (P : E.Physical) (d : Nat) (hd : d < E.n) (w w' : Nat) (hw : w < 2 ^ (E.n - 1))
    (hw' : w' < 2 ^ (E.n - 1)) (hone : OneBit w w') (s : Cds) (h : LoopInv E d w s) :
    LoopInv E d w' (assignGray E d w' w s) ∧
      ((assignGray E d w' w s).valid = true ↔ Valid E (assignGray E d w' w s).charge) ∧
      (-potential E (assignGray E d w' w s).charge d < E.negUB d → (assignGray E d w' w s).charge d = .neg) ∧
      (¬ -potential E (assignGray E d w' w s).charge d < E.negUB d →
        ¬ -potential E (assignGray E d w' w s).charge d > E.posLB d → (assignGray E d w' w s).charge d = .neu) := by
  have hpos : 0 < 2 ^ (E.n - 1) := Nat.pow_pos (by omega)
  have e : assignGray E d w' w s = validityCheck E (updateDependent E false d (grayStep E d w' w { s with index := w' })) := by
    unfold assignGray; rw [if_pos (by rw [h.max]; omega)]
  have step : Exact E (grayStep E d w' w { s with index := w' }) ∧
      Encodes E.n d w' (grayStep E d w' w { s with index := w' }).charge ∧
      (grayStep E d w' w { s with index := w' }).charge d = s.charge d := by
    rcases hone with rfl | ⟨t, ht⟩
    · rw [grayStep_same]; exact ⟨h.exact, h.enc, rfl⟩
    · have htlt : t < E.n - 1 := by
        by_contra hge
        have : w'.testBit t ≠ w.testBit t := (ht t).2 rfl
        have hp : 2 ^ (E.n - 1) ≤ 2 ^ t := Nat.pow_le_pow_right (by omega) (by omega)
        rw [Nat.testBit_lt_two_pow (lt_of_lt_of_le hw' hp), Nat.testBit_lt_two_pow (lt_of_lt_of_le hw hp)] at this
        exact this rfl
      exact grayStep_single E P d w' w t htlt ht { s with index := w' } h.enc h.exact
  rw [e]
  generalize hs1 : grayStep E d w' w { s with index := w' } = s1 at *
  have hb1 : s1.base = 2 := by rw [← hs1, grayStep_base]; exact h.base
  have hm1 : s1.maxIndex = 2 ^ (E.n - 1) - 1 := by rw [← hs1, grayStep_maxIndex]; exact h.max
  have hx := Exact_dependent E P false d hd s1 step.1
  have hval := updateDependent_value E false d s1
  have hpot : potential E (updateDependent E false d s1).charge d = s1.intPot d := by
    rw [step.1 d hd]
    have : (updateDependent E false d s1).charge = setAt s1.charge d ((updateDependent E false d s1).charge d) := by
      funext i
      by_cases hi : i = d
      · subst hi; simp [setAt]
      · rw [updateDependent_charge E false d i s1 hi]; simp [setAt, hi]
    rw [this, potential_self E P]
  refine ⟨⟨hx, Encodes_dependent E false E.n d w' s1 step.2.1, ?_, ?_, ?_⟩, validityCheck_iff E _ hx, ?_, ?_⟩
  · simp [hm1]
  · simp [hb1]
  · rw [validityCheck_charge, hval]
    split_ifs with h1 h2 h3
    · decide
    · simp [hb1] at h3
    · rw [step.2.2]; exact h.dep
    · decide
  · intro h1
    rw [validityCheck_charge] at h1 ⊢
    rw [hpot] at h1
    rw [hval, if_pos h1]
  · intro h1 h2
    rw [validityCheck_charge] at h1 h2 ⊢
    rw [hpot] at h1 h2
    rw [hval, if_neg h1, if_neg h2]

theorem encodes_inj {n d w w' : Nat} {c c' : Nat → Charge} (hw : w < 2 ^ (n - 1)) (hw' : w' < 2 ^ (n - 1))
    (h : Encodes n d w c) (h' : Encodes n d w' c') (e : ∀ i < n, c i = c' i) : w = w' := by
  refine Nat.eq_of_testBit_eq fun j => ?_
  by_cases hj : j < n - 1
  · have h1 := h j hj
    have h2 := h' j hj
    rw [e _ (bitCell_lt hj), h2] at h1
    cases ha : w.testBit j <;> cases hb : w'.testBit j <;> simp_all
  · have hp : 2 ^ (n - 1) ≤ 2 ^ j := Nat.pow_le_pow_right (by omega) (by omega)
    rw [Nat.testBit_lt_two_pow (lt_of_lt_of_le hw hp), Nat.testBit_lt_two_pow (lt_of_lt_of_le hw' hp)]

theorem encodes_agree {n d w : Nat} (hd : d < n) {c c' : Nat → Charge} (h : Encodes n d w c) (h' : Encodes n d w c') :
    ∀ i < n, i ≠ d → c i = c' i := by
  intro i hi hne
  obtain ⟨j, hj, rfl⟩ := bitCell_surj hi hd hne
  rw [h j hj, h' j hj]

theorem encodes_exists {n d : Nat} (hd : d < n) (c : Nat → Charge) (hc : ∀ i < n, c i ≠ .pos) : ∃ w < 2 ^ (n - 1), Encodes n d w c := by
  have key : ∀ m ≤ n - 1, ∃ w < 2 ^ m, ∀ j < m, c (bitCell d j) = if w.testBit j then .neg else .neu := by
    intro m
    induction m with
    | zero => exact fun _ => ⟨0, by simp, fun j hj => by omega⟩
    | succ m ih =>
      intro hm
      obtain ⟨w, hw, h⟩ := ih (by omega)
      have hcm := hc (bitCell d m) (bitCell_lt (by omega))
      cases hx : c (bitCell d m) with
      | pos => exact absurd hx hcm
      | neg =>
        refine ⟨2 ^ m + w, by rw [Nat.pow_succ]; omega, fun j hj => ?_⟩
        by_cases hjm : j = m
        · subst hjm
          rw [hx, Nat.testBit_two_pow_add_eq, Nat.testBit_lt_two_pow hw]; rfl
        · rw [h j (by omega), Nat.testBit_two_pow_add_gt (by omega)]
      | neu =>
        refine ⟨w, by rw [Nat.pow_succ]; omega, fun j hj => ?_⟩
        by_cases hjm : j = m
        · subst hjm
          rw [hx, Nat.testBit_lt_two_pow hw]; rfl
        · exact h j (by omega)
  exact key (n - 1) (Nat.le_refl _)

/-- What the loop reports. -/
theorem grayLoop_spec (E : Env) (P : E.Physical) (d : Nat) (hd : d < E.n) (emit : Cds → List Charge)
    (hemit : ∀ s s' : Cds, emit s = emit s' ↔ ∀ i < E.n, s.charge i = s'.charge i) (fuel : Nat) :
    ∀ (i w : Nat) (s : Cds), LoopInv E d w s → w < 2 ^ (E.n - 1) → OneBit w (gray i) → i + fuel ≤ 2 ^ (E.n - 1) →
    (grayLoop E d emit fuel i w s).Nodup ∧
    (∀ l ∈ grayLoop E d emit fuel i w s, ∃ k s', i ≤ k ∧ k < i + fuel ∧ l = emit s' ∧ Encodes E.n d (gray k) s'.charge ∧
      s'.charge d ≠ .pos ∧ Valid E s'.charge) ∧
    (∀ k, i ≤ k → k < i + fuel → ∀ s' : Cds, Encodes E.n d (gray k) s'.charge → s'.charge d ≠ .pos → Valid E s'.charge →
      OffMargin E s'.charge d → emit s' ∈ grayLoop E d emit fuel i w s) := by
  induction fuel with
  | zero =>
    intro i w s _ _ _ _
    exact ⟨List.nodup_nil, fun l hl => by simp [grayLoop] at hl, fun k h1 h2 => by omega⟩
  | succ fuel ih =>
    intro i w s hinv hw hone hle
    have hg : gray i < 2 ^ (E.n - 1) := gray_lt _ _ (by omega)
    obtain ⟨hinv', hval, hneg, hneu⟩ := LoopInv_step E P d hd w (gray i) hw hg hone s hinv
    unfold grayLoop
    dsimp only
    generalize assignGray E d (gray i) w s = s1 at *
    obtain ⟨ihn, ihs, ihc⟩ := ih (i + 1) (gray i) s1 hinv' hg (Or.inr (gray_succ i)) (by omega)
    refine ⟨?_, ?_, ?_⟩
    · by_cases hv : s1.valid = true
      · rw [if_pos hv, List.singleton_append, List.nodup_cons]
        refine ⟨fun hm => ?_, ihn⟩
        obtain ⟨k, s', hk1, hk2, e, henc, _⟩ := ihs _ hm
        have := encodes_inj hg (gray_lt _ _ (by omega)) hinv'.enc henc ((hemit _ _).1 e)
        have := gray_inj _ _ this
        omega
      · rw [if_neg hv]; exact ihn
    · intro l hl
      rcases List.mem_append.1 hl with h1 | h1
      · by_cases hv : s1.valid = true
        · rw [if_pos hv, List.mem_singleton] at h1
          exact ⟨i, s1, Nat.le_refl _, by omega, h1, hinv'.enc, hinv'.dep, hval.1 hv⟩
        · rw [if_neg hv] at h1; simp at h1
      · obtain ⟨k, s', hk1, hk2, h⟩ := ihs l h1
        exact ⟨k, s', by omega, by omega, h⟩
    · intro k hk1 hk2 s' henc hdp hvalid hoff
      rw [List.mem_append]
      by_cases hki : k = i
      · subst hki
        left
        have hag := encodes_agree hd henc hinv'.enc
        have hset : ∀ j < E.n, s'.charge j = setAt s1.charge d (s'.charge d) j := by
          intro j hj
          by_cases hjd : j = d
          · subst hjd; simp [setAt]
          · rw [hag j hj hjd]; simp [setAt, hjd]
        have hpot : potential E s'.charge d = potential E s1.charge d := by
          rw [potential_congr E hset, potential_self E P]
        have hdep : s1.charge d = s'.charge d := by
          obtain ⟨p1, p2, _⟩ := hvalid.1 d hd
          obtain ⟨o1, o2⟩ := hoff
          have heps := P.eps
          rw [hpot] at *
          unfold Env.negUB at hneg hneu
          unfold Env.posLB at hneu
          cases hc : s'.charge d with
          | pos => exact absurd hc hdp
          | neg => exact hneg (p1 hc)
          | neu =>
            obtain ⟨q1, q2⟩ := p2 hc
            exact hneu (fun h => o1 ⟨q1, h⟩) (fun h => o2 ⟨h, q2⟩)
        have hall : ∀ j < E.n, s'.charge j = s1.charge j := by
          intro j hj
          by_cases hjd : j = d
          · subst hjd; exact hdep.symm
          · exact hag j hj hjd
        rw [if_pos (hval.2 ((Valid_congr E hall).1 hvalid)), List.mem_singleton]
        exact (hemit _ _).2 hall
      · exact Or.inr (ihc k (by omega) (by omega) s' henc hdp hvalid hoff)

theorem embed_eq_map (E : Env) (pre : List Nat) (s : Cds) : embed E pre s = (List.range E.n).map (embedF E pre s.charge) := rfl

theorem embed_inj (E : Env) (pre : List Nat) (s s' : Cds) :
    embed E pre s = embed E pre s' ↔ ∀ a < (reduced E pre).n, s.charge a = s'.charge a := by
  rw [embed_eq_map, embed_eq_map, List.map_inj_left]
  constructor
  · intro h a ha
    have ha' : a < (remaining E pre).length := ha
    have := h _ (List.mem_range.2 ((mem_remaining E pre _).1 (getD_mem ha')).1)
    rwa [embedF_rem E pre _ ha', embedF_rem E pre _ ha'] at this
  · intro h i hi
    by_cases hp : i ∈ pre
    · simp [embedF, hp]
    · obtain ⟨a, ha, rfl⟩ := rem_surj E pre (List.mem_range.1 hi) hp
      rw [embedF_rem E pre _ ha, embedF_rem E pre _ ha]
      exact h a ha

theorem ofList_map (n : Nat) (c : Nat → Charge) (i : Nat) (hi : i < n) : ofList ((List.range n).map c) i = c i := by
  simp [ofList, hi]

theorem map_ofList (l : List Charge) (n : Nat) (h : l.length = n) : (List.range n).map (ofList l) = l := by
  subst h
  refine List.ext_getElem (by simp) fun i h1 h2 => ?_
  simp [ofList, h2]

end Verif.Sidb
