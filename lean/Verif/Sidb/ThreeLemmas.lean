import Verif.Sidb.ThreeModel
import Verif.Sidb.QuickProps

/-! Helper lemmas for three-state simulation. -/
namespace Verif.Sidb

/-- The value of the digits at the given cells, least significant first. -/
def rval (b : Nat) (c : Nat → Charge) : List Nat → Nat
  | [] => 0
  | k :: ks => rval b c ks * b + (c k).digit

theorem rval_congr (b : Nat) {c c' : Nat → Charge} (l : List Nat) (h : ∀ k ∈ l, c k = c' k) : rval b c l = rval b c' l := by
  induction l with
  | nil => rfl
  | cons k ks ih =>
    simp only [rval]
    rw [ih fun j hj => h j (List.mem_cons_of_mem _ hj), h k (List.mem_cons_self ..)]

theorem rval_lt (b : Nat) (c : Nat → Charge) (l : List Nat) (h : ∀ k ∈ l, (c k).digit < b) : rval b c l < b ^ l.length := by
  induction l with
  | nil => simp [rval]
  | cons k ks ih =>
    have ih' := ih fun j hj => h j (List.mem_cons_of_mem _ hj)
    have := h k (List.mem_cons_self ..)
    simp only [rval, List.length_cons, Nat.pow_succ]
    have h2 : (rval b c ks + 1) * b ≤ b ^ ks.length * b := Nat.mul_le_mul_right _ ih'
    have : (rval b c ks + 1) * b = rval b c ks * b + b := by ring
    omega

theorem rval_inj (b : Nat) (hb : 0 < b) {c c' : Nat → Charge} (l : List Nat) (h : ∀ k ∈ l, (c k).digit < b)
    (h' : ∀ k ∈ l, (c' k).digit < b) (e : rval b c l = rval b c' l) : ∀ k ∈ l, c k = c' k := by
  induction l with
  | nil => intro k hk; simp at hk
  | cons k ks ih =>
    simp only [rval] at e
    have a1 := h k (List.mem_cons_self ..)
    have a2 := h' k (List.mem_cons_self ..)
    have hm : (c k).digit = (c' k).digit := by
      have := congrArg (· % b) e
      simpa [Nat.add_mod, Nat.mod_eq_of_lt a1, Nat.mod_eq_of_lt a2] using this
    have hv : rval b c ks = rval b c' ks := by
      rw [hm] at e
      exact Nat.eq_of_mul_eq_mul_right hb (by omega)
    intro j hj
    rcases List.mem_cons.1 hj with rfl | hj
    · exact digit_inj hm
    · exact ih (fun j hj => h j (List.mem_cons_of_mem _ hj)) (fun j hj => h' j (List.mem_cons_of_mem _ hj)) hv j hj

theorem rval_zero (b : Nat) (hb : 0 < b) (c : Nat → Charge) (l : List Nat) (e : rval b c l = 0) : ∀ k ∈ l, c k = .neg := by
  induction l with
  | nil => intro k hk; simp at hk
  | cons k ks ih =>
    simp only [rval] at e
    have h1 : (c k).digit = 0 := by omega
    have h2 : rval b c ks = 0 := by
      have : rval b c ks * b = 0 := by omega
      rcases Nat.mul_eq_zero.1 this with h | h
      · exact h
      · omega
    intro j hj
    rcases List.mem_cons.1 hj with rfl | hj
    · cases hc : c j <;> rw [hc] at h1 <;> simp [Charge.digit] at h1 ⊢
    · exact ih h2 j hj

theorem rval_neg (b : Nat) (c : Nat → Charge) (l : List Nat) (h : ∀ k ∈ l, c k = .neg) : rval b c l = 0 := by
  induction l with
  | nil => rfl
  | cons k ks ih =>
    simp only [rval]
    rw [ih fun j hj => h j (List.mem_cons_of_mem _ hj), h k (List.mem_cons_self ..)]
    simp [Charge.digit]

theorem decodeDigits_spec (b : Nat) (hb : 2 ≤ b) (hb3 : b ≤ 3) (rl : List Nat) :
    ∀ (q : Nat) (c : Nat → Charge), rl.Nodup → q < b ^ rl.length → (∀ k ∈ rl, (c k).digit < b) → rval b c rl ≤ q →
    ∃ l, decodeDigits b q rl = some l ∧ (l.map Prod.fst).Sublist rl ∧
      ∀ c' : Nat → Charge, (∀ p ∈ l, c' p.1 = p.2) → (∀ k ∈ rl, k ∉ l.map Prod.fst → c' k = c k) →
        rval b c' rl = q ∧ ∀ k ∈ rl, (c' k).digit < b := by
  induction rl with
  | nil =>
    intro q c _ hq _ _
    have : q = 0 := by simpa using hq
    subst this
    exact ⟨[], by simp [decodeDigits], by simp, fun c' _ _ => ⟨rfl, fun k hk => by simp at hk⟩⟩
  | cons k ks ih =>
    intro q c hnd hq hdig hle
    rw [List.nodup_cons] at hnd
    unfold decodeDigits
    by_cases hq0 : q = 0
    · rw [if_pos hq0]
      refine ⟨[], rfl, by simp, fun c' _ hc' => ?_⟩
      have : ∀ j ∈ k :: ks, c' j = c j := fun j hj => hc' j hj (by simp)
      exact ⟨by rw [rval_congr b _ this]; omega, fun j hj => by rw [this j hj]; exact hdig j hj⟩
    · rw [if_neg hq0]
      simp only [rval] at hle
      have hdiv : q / b < b ^ ks.length := by
        rw [Nat.div_lt_iff_lt_mul (by omega)]
        simpa [Nat.pow_succ] using hq
      have hle' : rval b c ks ≤ q / b := by
        rw [Nat.le_div_iff_mul_le (by omega)]
        omega
      obtain ⟨l, e, hsub, hspec⟩ := ih (q / b) c hnd.2 hdiv (fun j hj => hdig j (List.mem_cons_of_mem _ hj)) hle'
      rw [e]
      refine ⟨_, rfl, by simpa using hsub, fun c' hs hf => ?_⟩
      obtain ⟨h1, h2⟩ := hspec c' (fun p hp => hs p (List.mem_cons_of_mem _ hp)) (fun j hj hjl => by
        refine hf j (List.mem_cons_of_mem _ hj) ?_
        rw [List.map_cons, List.mem_cons, not_or]
        exact ⟨fun e => hnd.1 (by simp only at e; exact e ▸ hj), hjl⟩)
      have hk := hs _ (List.mem_cons_self ..)
      simp only at hk
      have hmod : q % b < b := Nat.mod_lt _ (by omega)
      constructor
      · simp only [rval]
        rw [h1, hk, digit_ofDigit (by omega)]
        have := Nat.div_add_mod q b
        rw [Nat.mul_comm] at this
        exact this
      · intro j hj
        rcases List.mem_cons.1 hj with rfl | hj
        · rw [hk, digit_ofDigit (by omega)]; exact hmod
        · exact h2 j hj

theorem setNeg_id (l : List Nat) (c : Nat → Charge) (h : ∀ k ∈ l, c k = .neg) : setNeg l c = c := by
  unfold setNeg
  induction l with
  | nil => rfl
  | cons k ks ih =>
    rw [List.foldl_cons]
    have : setAt c k .neg = c := by
      funext i
      simp only [setAt]
      split
      · rename_i e; rw [e, h k (List.mem_cons_self ..)]
      · rfl
    rw [this]
    exact ih fun j hj => h j (List.mem_cons_of_mem _ hj)

theorem setNeg_apply (l : List Nat) (c : Nat → Charge) (i : Nat) : setNeg l c i = if i ∈ l then .neg else c i := by
  unfold setNeg
  induction l generalizing c with
  | nil => rfl
  | cons k ks ih =>
    rw [List.foldl_cons, ih]
    by_cases h : i ∈ ks
    · simp [h]
    · by_cases hk : i = k
      · simp [hk, setAt]
      · simp [h, hk, setAt]

/-- The lists of cells cover the SiDBs other than the dependent one. -/
structure Split (E : Env) (T : Three) : Prop where
  nodup3 : T.three.Nodup
  nodup2 : T.two.Nodup
  disj : ∀ k ∈ T.three, k ∉ T.two
  cover : ∀ k, (k ∈ T.three ∨ k ∈ T.two) ↔ k < E.n ∧ k ≠ 0

/-- The charges of the cells in the lists encode the two indices. -/
structure Enc (T : Three) (b sub idx : Nat) (c : Nat → Charge) : Prop where
  v3 : rval 3 c T.three.reverse = sub
  v2 : rval b c T.two.reverse = idx
  d2 : ∀ k ∈ T.two, (c k).digit < b

theorem digit_lt_three (x : Charge) : x.digit < 3 := by cases x <;> simp [Charge.digit]

theorem Enc_congr {E : Env} {T : Three} (S : Split E T) {b sub idx : Nat} {c c' : Nat → Charge}
    (h : ∀ k, k < E.n → k ≠ 0 → c k = c' k) (e : Enc T b sub idx c) : Enc T b sub idx c' := by
  have h3 : ∀ k ∈ T.three, c k = c' k := fun k hk => by have := (S.cover k).1 (Or.inl hk); exact h k this.1 this.2
  have h2 : ∀ k ∈ T.two, c k = c' k := fun k hk => by have := (S.cover k).1 (Or.inr hk); exact h k this.1 this.2
  refine ⟨?_, ?_, fun k hk => by rw [← h2 k hk]; exact e.d2 k hk⟩
  · rw [← rval_congr 3 _ (fun k hk => h3 k (List.mem_reverse.1 hk))]; exact e.v3
  · rw [← rval_congr b _ (fun k hk => h2 k (List.mem_reverse.1 hk))]; exact e.v2

theorem Enc_inj {E : Env} {T : Three} (S : Split E T) {b sub idx : Nat} (hb : 0 < b) {c c' : Nat → Charge}
    (h : Enc T b sub idx c) (h' : Enc T b sub idx c') : ∀ k, k < E.n → k ≠ 0 → c k = c' k := by
  intro k hk hk0
  rcases (S.cover k).2 ⟨hk, hk0⟩ with hm | hm
  · exact rval_inj 3 (by omega) T.three.reverse (fun _ _ => digit_lt_three _) (fun _ _ => digit_lt_three _)
      (h.v3.trans h'.v3.symm) k (List.mem_reverse.2 hm)
  · exact rval_inj b hb T.two.reverse (fun j hj => h.d2 j (List.mem_reverse.1 hj)) (fun j hj => h'.d2 j (List.mem_reverse.1 hj))
      (h.v2.trans h'.v2.symm) k (List.mem_reverse.2 hm)

/-- Decoding from a surface whose cells, up to the resets, encode smaller indices. -/
theorem decodeBoth_spec {E : Env} {T : Three} (S : Split E T) (s : Cds) (b sub sub0 idx0 : Nat) (hb : 2 ≤ b) (hb3 : b ≤ 3) (hbase : s.base = b)
    (hsub : sub < 3 ^ T.three.length) (hidx : s.index < b ^ T.two.length)
    (hsle : sub = 0 ∨ sub0 ≤ sub) (hile : idx0 ≤ s.index) (hi0 : s.index = 0 → idx0 = 0)
    (henc : Enc T b sub0 idx0 s.charge) :
    ∃ l, decodeBoth T s sub = some (applyChanges l (if sub = 0 then setNeg T.three s.charge else s.charge)) ∧
      (l.map Prod.fst).Nodup ∧ (∀ p ∈ l, p.1 < E.n ∧ p.1 ≠ 0) ∧
      Enc T b sub s.index (applyChanges l (if sub = 0 then setNeg T.three s.charge else s.charge)).1 := by
  have htwo : ∀ k ∈ T.two, (setNeg T.three s.charge) k = s.charge k := by
    intro k hk
    rw [setNeg_apply, if_neg fun h => S.disj k h hk]
  generalize hc1 : (if sub = 0 then setNeg T.three s.charge else s.charge) = c1
  have hc1two : ∀ k ∈ T.two, c1 k = s.charge k := by
    intro k hk; rw [← hc1]; split
    · exact htwo k hk
    · rfl
  have hc2 : (if s.index = 0 then setNeg T.two c1 else c1) = c1 := by
    split
    · rename_i h0
      refine setNeg_id _ _ fun k hk => ?_
      rw [hc1two k hk]
      exact rval_zero b (by omega) s.charge T.two.reverse (by rw [henc.v2, hi0 h0]) k (List.mem_reverse.2 hk)
    · rfl
  have hv3 : rval 3 c1 T.three.reverse ≤ sub := by
    rw [← hc1]
    split
    · rw [rval_neg]; exact Nat.zero_le _
      intro k hk
      rw [setNeg_apply, if_pos (List.mem_reverse.1 hk)]
    · rename_i h0
      rw [henc.v3]
      omega
  have hv2 : rval b c1 T.two.reverse ≤ s.index := by
    rw [rval_congr b T.two.reverse (fun k hk => hc1two k (List.mem_reverse.1 hk)), henc.v2]
    exact hile
  obtain ⟨l1, e1, sub1, spec1⟩ := decodeDigits_spec 3 (by omega) (by omega) T.three.reverse sub c1 (List.nodup_reverse.2 S.nodup3)
    (by simpa using hsub) (fun _ _ => digit_lt_three _) hv3
  obtain ⟨l2, e2, sub2, spec2⟩ := decodeDigits_spec b hb hb3 T.two.reverse s.index c1 (List.nodup_reverse.2 S.nodup2)
    (by simpa using hidx) (fun k hk => by rw [hc1two k (List.mem_reverse.1 hk)]; exact henc.d2 k (List.mem_reverse.1 hk)) hv2
  have m1 : ∀ k ∈ l1.map Prod.fst, k ∈ T.three := fun k hk => List.mem_reverse.1 (sub1.subset hk)
  have m2 : ∀ k ∈ l2.map Prod.fst, k ∈ T.two := fun k hk => List.mem_reverse.1 (sub2.subset hk)
  have hnd : ((l1 ++ l2).map Prod.fst).Nodup := by
    rw [List.map_append, List.nodup_append]
    refine ⟨sub1.nodup (List.nodup_reverse.2 S.nodup3), sub2.nodup (List.nodup_reverse.2 S.nodup2), ?_⟩
    intro a ha b hb hab
    subst hab
    exact S.disj a (m1 a ha) (m2 a hb)
  refine ⟨l1 ++ l2, ?_, hnd, ?_, ?_⟩
  · unfold decodeBoth
    dsimp only
    rw [hc1, hc2, e1, hbase, e2]
    rfl
  · intro p hp
    rcases List.mem_append.1 hp with h | h
    · exact (S.cover p.1).1 (Or.inl (m1 _ (List.mem_map_of_mem h)))
    · exact (S.cover p.1).1 (Or.inr (m2 _ (List.mem_map_of_mem h)))
  · have hset : ∀ p ∈ l1 ++ l2, (applyChanges (l1 ++ l2) c1).1 p.1 = p.2 := fun p hp => applyChanges_set _ hnd c1 hp
    obtain ⟨a1, _⟩ := spec1 (applyChanges (l1 ++ l2) c1).1 (fun p hp => hset p (List.mem_append_left _ hp)) (fun k hk hkl =>
      applyChanges_frame _ _ _ (by
        rw [List.map_append, List.mem_append, not_or]
        exact ⟨hkl, fun h => S.disj k (List.mem_reverse.1 hk) (m2 k h)⟩))
    obtain ⟨b1, b2⟩ := spec2 (applyChanges (l1 ++ l2) c1).1 (fun p hp => hset p (List.mem_append_right _ hp)) (fun k hk hkl =>
      applyChanges_frame _ _ _ (by
        rw [List.map_append, List.mem_append, not_or]
        exact ⟨fun h => S.disj k (m1 k h) (List.mem_reverse.1 hk), hkl⟩))
    exact ⟨a1, b1, fun k hk => b2 k (List.mem_reverse.2 hk)⟩

/-- The dependent SiDB has the charge state that fits the potential. -/
def DepOk (E : Env) (c : Nat → Charge) : Prop :=
  c 0 = if -potential E c 0 < E.negUB 0 then .neg else if -potential E c 0 > E.posLB 0 then .pos else .neu

/-- State of the surface at sub-index `sub` and index `idx`. -/
structure ThreeInv (E : Env) (T : Three) (b m sub idx : Nat) (s : Cds) : Prop where
  exact : Exact E s
  enc : Enc T b sub idx s.charge
  base : s.base = b
  index : s.index = idx
  max : s.maxIndex = m
  dep : DepOk E s.charge
  valid : s.valid = true ↔ Valid E s.charge

@[simp] theorem updateDependent_index (E : Env) (three : Bool) (d : Nat) (s : Cds) :
    (updateDependent E three d s).index = s.index := by
  unfold updateDependent
  dsimp only
  split_ifs <;> rfl

theorem updateHistory_meta (E : Env) (s : Cds) (hist : List (Nat × Int)) :
    (updateHistory E s hist).base = s.base ∧ (updateHistory E s hist).index = s.index ∧
      (updateHistory E s hist).maxIndex = s.maxIndex := by
  unfold updateHistory
  induction hist generalizing s with
  | nil => exact ⟨rfl, rfl, rfl⟩
  | cons p rest ih => rw [List.foldl_cons]; exact ih _

/-- After exact potentials, the update of the dependent SiDB and the validity check restore the invariant. -/
theorem ThreeInv_finish {E : Env} (P : E.Physical) (hn : 0 < E.n) {T : Three} (S : Split E T) (b m sub idx : Nat) (s : Cds)
    (hx : Exact E s) (henc : Enc T b sub idx s.charge) (hbase : s.base = b) (hidx : s.index = idx) (hmax : s.maxIndex = m)
    (hb : b = 3 ∨ T.three ≠ []) : ThreeInv E T b m sub idx (validityCheck E (updateDependent E (!T.three.isEmpty) 0 s)) := by
  have hx' := Exact_dependent E P (!T.three.isEmpty) 0 hn s hx
  have hpot : potential E (updateDependent E (!T.three.isEmpty) 0 s).charge 0 = s.intPot 0 := by
    rw [hx 0 hn]
    have : (updateDependent E (!T.three.isEmpty) 0 s).charge = setAt s.charge 0 ((updateDependent E (!T.three.isEmpty) 0 s).charge 0) := by
      funext i
      by_cases hi : i = 0
      · subst hi; simp [setAt]
      · rw [updateDependent_charge E _ 0 i s hi]; simp [setAt, hi]
    rw [this, potential_self E P]
  refine ⟨hx', ?_, by simp [hbase], by simp [hidx], by simp [hmax], ?_, validityCheck_iff E _ hx'⟩
  · exact Enc_congr S (fun k _ hk0 => (updateDependent_charge E _ 0 k s hk0).symm) henc
  · unfold DepOk
    rw [validityCheck_charge, hpot, updateDependent_value]
    have : (decide (s.base = 3) || !T.three.isEmpty) = true := by
      rw [hbase]
      rcases hb with h | h
      · simp [h]
      · simp [h]
    rw [this]
    simp

theorem subStep_inv {E : Env} (P : E.Physical) (hn : 0 < E.n) {T : Three} (S : Split E T) (b m sub idx : Nat) (hb : 2 ≤ b) (hb3 : b ≤ 3)
    (hm : T.maxSub + 1 = 3 ^ T.three.length) (hi : idx < b ^ T.two.length) (s : Cds) (h : ThreeInv E T b m sub idx s)
    (hlt : sub < T.maxSub) :
    ∃ s', subStep E T s sub = some (s', sub + 1) ∧ ThreeInv E T b m (sub + 1) idx s' := by
  unfold subStep
  rw [if_neg (by omega)]
  obtain ⟨l, e, hnd, hkeys, henc⟩ := decodeBoth_spec S s b (sub + 1) sub idx hb hb3 h.base (by omega) (by rw [h.index]; exact hi)
    (Or.inr (by omega)) (by rw [h.index]) (fun h0 => by rw [← h.index]; exact h0) h.enc
  rw [if_neg (by omega)] at e henc
  rw [e]
  refine ⟨_, rfl, ?_⟩
  have hne : T.three ≠ [] := by
    intro h0; rw [h0] at hm; simp at hm; omega
  have hmeta := updateHistory_meta E { s with charge := (applyChanges l s.charge).1 } (applyChanges l s.charge).2
  refine ThreeInv_finish P hn S b m (sub + 1) idx _ (Exact_history E P l hnd (fun p hp => (hkeys p hp).1) s h.exact) ?_
    (hmeta.1.trans h.base) (hmeta.2.1.trans h.index) (hmeta.2.2.trans h.max) (Or.inr hne)
  rw [if_pos rfl, updateHistory_charge, ← h.index]
  exact henc

theorem subLoop_spec {E : Env} (P : E.Physical) (hn : 0 < E.n) {T : Three} (S : Split E T) (b m idx : Nat) (hb : 2 ≤ b) (hb3 : b ≤ 3)
    (hm : T.maxSub + 1 = 3 ^ T.three.length) (hi : idx < b ^ T.two.length) (fuel : Nat) :
    ∀ (sub : Nat) (s : Cds), ThreeInv E T b m sub idx s → sub ≤ T.maxSub → T.maxSub - sub ≤ fuel →
    ∃ l s', subLoop E T fuel s sub = some (l, s', T.maxSub) ∧ ThreeInv E T b m T.maxSub idx s' ∧
      List.Forall₂ (fun k t => ThreeInv E T b m k idx t) (List.range' sub (T.maxSub - sub)) l := by
  induction fuel with
  | zero =>
    intro sub s h hle hf
    have : sub = T.maxSub := by omega
    subst this
    exact ⟨[], s, rfl, h, by simp⟩
  | succ fuel ih =>
    intro sub s h hle hf
    unfold subLoop
    by_cases hlt : sub < T.maxSub
    · rw [if_pos hlt]
      obtain ⟨s1, e1, h1⟩ := subStep_inv P hn S b m sub idx hb hb3 hm hi s h hlt
      obtain ⟨l, s', e, h', hl⟩ := ih (sub + 1) s1 h1 (by omega) (by omega)
      refine ⟨s :: l, s', ?_, h', ?_⟩
      · rw [e1, Option.bind_some, e]; rfl
      · rw [show T.maxSub - sub = (T.maxSub - (sub + 1)) + 1 by omega, List.range'_succ]
        exact List.Forall₂.cons h hl
    · rw [if_neg hlt]
      have : sub = T.maxSub := by omega
      subst this
      exact ⟨[], s, rfl, h, by simp⟩

theorem resetSub_spec {E : Env} {T : Three} (S : Split E T) (b m sub idx : Nat) (hb : 2 ≤ b) (hb3 : b ≤ 3)
    (hi : idx < b ^ T.two.length) (s : Cds) (h : ThreeInv E T b m sub idx s) :
    ∃ s', resetSub E T s = some s' ∧ Enc T b 0 idx s'.charge ∧ s'.base = b ∧ s'.index = idx ∧ s'.maxIndex = m := by
  obtain ⟨l, e, _, _, henc⟩ := decodeBoth_spec S s b 0 sub idx hb hb3 h.base (Nat.pow_pos (by omega)) (by rw [h.index]; exact hi)
    (Or.inl rfl) (by rw [h.index]) (fun h0 => by rw [← h.index]; exact h0) h.enc
  unfold resetSub
  rw [e]
  refine ⟨_, rfl, ?_, ?_, ?_, ?_⟩
  · unfold afterChange
    dsimp only
    rw [if_pos rfl, validityCheck_charge]
    refine Enc_congr S (fun k _ hk0 => (updateDependent_charge E _ 0 k _ hk0).symm) ?_
    rw [updateHistory_charge, ← h.index]
    exact henc
  · simp [afterChange, (updateHistory_meta E _ _).1, h.base]
  · simp [afterChange, (updateHistory_meta E _ _).2.1, h.index]
  · simp [afterChange, (updateHistory_meta E _ _).2.2, h.max]

theorem indexStep_inv {E : Env} (P : E.Physical) (hn : 0 < E.n) {T : Three} (S : Split E T) (b m idx : Nat) (hb : 2 ≤ b) (hb3 : b ≤ 3)
    (hb' : b = 3 ∨ T.three ≠ []) (hm : m + 1 = b ^ T.two.length) (s : Cds) (henc : Enc T b 0 idx s.charge) (hbase : s.base = b)
    (hidx : s.index = idx) (hmax : s.maxIndex = m) (hlt : idx < m) :
    ∃ s', indexStep E T s 0 = some s' ∧ ThreeInv E T b m 0 (idx + 1) s' := by
  unfold indexStep
  rw [if_neg (by rw [hidx, hmax]; omega)]
  dsimp only
  obtain ⟨l, e, _, _, henc'⟩ := decodeBoth_spec S { s with index := s.index + 1 } b 0 0 idx hb hb3 hbase (Nat.pow_pos (by omega))
    (by simp only [hidx]; omega) (Or.inl rfl) (by simp only [hidx]; omega) (fun h0 => by simp only at h0; omega) henc
  rw [e]
  refine ⟨_, rfl, ?_⟩
  refine ThreeInv_finish P hn S b m 0 (idx + 1) _ (Exact_neglect E _) ?_ hbase (by simp [updateNeglect, hidx]) hmax hb'
  rw [← hidx]
  exact henc'

/-- The pairs of indices in the order of the simulation. -/
def pairs (T : Three) (idx cnt : Nat) : List (Nat × Nat) :=
  (List.range' idx cnt).flatMap fun i => (List.range' 0 (T.maxSub + 1)).map fun k => (k, i)

theorem pairs_nodup (T : Three) (idx cnt : Nat) : (pairs T idx cnt).Nodup := by
  unfold pairs
  rw [List.nodup_flatMap]
  refine ⟨fun i _ => ?_, ?_⟩
  · exact List.Nodup.map (fun a b h => by simpa using h) List.nodup_range'
  · refine List.Pairwise.imp ?_ (List.nodup_range' (s := idx) (n := cnt) : List.Pairwise _ _)
    intro a b hab p hp hp'
    simp only [List.mem_map] at hp hp'
    obtain ⟨_, _, rfl⟩ := hp
    obtain ⟨_, _, h⟩ := hp'
    exact hab (by simpa using (Prod.mk.inj h).2.symm)

theorem mem_pairs (T : Three) (idx cnt : Nat) (p : Nat × Nat) :
    p ∈ pairs T idx cnt ↔ p.1 ≤ T.maxSub ∧ idx ≤ p.2 ∧ p.2 < idx + cnt := by
  unfold pairs
  simp only [List.mem_flatMap, List.mem_map, List.mem_range'_1]
  constructor
  · rintro ⟨i, hi, k, hk, rfl⟩
    exact ⟨by simp only; omega, by simp only; omega, by simp only; omega⟩
  · rintro ⟨h1, h2, h3⟩
    exact ⟨p.2, by omega, p.1, by omega, rfl⟩

theorem outerLoop_spec {E : Env} (P : E.Physical) (hn : 0 < E.n) {T : Three} (S : Split E T) (b m : Nat) (hb : 2 ≤ b) (hb3 : b ≤ 3)
    (hb' : b = 3 ∨ T.three ≠ []) (hms : T.maxSub + 1 = 3 ^ T.three.length) (hm : m + 1 = b ^ T.two.length) (fuel : Nat) :
    ∀ (idx : Nat) (s : Cds), ThreeInv E T b m 0 idx s → idx ≤ m → m - idx < fuel →
    ∃ l, outerLoop E T fuel s 0 = some l ∧
      List.Forall₂ (fun (p : Nat × Nat) t => ThreeInv E T b m p.1 p.2 t) (pairs T idx (m - idx + 1)) l := by
  have hpair : ∀ idx cnt, pairs T idx (cnt + 1) = (List.range' 0 (T.maxSub + 1)).map (fun k => (k, idx)) ++ pairs T (idx + 1) cnt := by
    intro idx cnt
    simp [pairs, List.range'_succ (s := idx)]
  have hrow : ∀ idx l s', List.Forall₂ (fun k t => ThreeInv E T b m k idx t) (List.range' 0 (T.maxSub - 0)) l →
      ThreeInv E T b m T.maxSub idx s' →
      List.Forall₂ (fun (p : Nat × Nat) t => ThreeInv E T b m p.1 p.2 t) ((List.range' 0 (T.maxSub + 1)).map fun k => (k, idx)) (l ++ [s']) := by
    intro idx l s' hl hs'
    rw [List.forall₂_map_left_iff, List.range'_concat]
    refine List.rel_append (by simpa using hl) ?_
    exact List.Forall₂.cons (by simpa using hs') List.Forall₂.nil
  induction fuel with
  | zero => intro idx s _ _ hf; omega
  | succ fuel ih =>
    intro idx s h hle hf
    obtain ⟨l, s', e, hs', hl⟩ := subLoop_spec P hn S b m idx hb hb3 hms (by omega) (T.maxSub + 1) 0 s h (Nat.zero_le _) (by omega)
    unfold outerLoop
    by_cases hlt : idx < m
    · rw [if_pos (by rw [h.index, h.max]; exact hlt), e, Option.bind_some]
      have hres : ∃ s2, (if T.maxSub ≠ 0 then (resetSub E T s').map fun s' => (s', 0) else some (s', T.maxSub)) = some (s2, 0) ∧
          Enc T b 0 idx s2.charge ∧ s2.base = b ∧ s2.index = idx ∧ s2.maxIndex = m := by
        split
        · obtain ⟨s2, e2, h2⟩ := resetSub_spec S b m T.maxSub idx hb hb3 (by omega) s' hs'
          exact ⟨s2, by rw [e2]; rfl, h2⟩
        · rename_i h0
          have h0' : T.maxSub = 0 := by omega
          refine ⟨s', by rw [h0'], ?_, hs'.base, hs'.index, hs'.max⟩
          rw [h0'] at hs'
          exact hs'.enc
      obtain ⟨s2, e2, henc2, hb2, hi2, hm2⟩ := hres
      obtain ⟨s3, e3, h3⟩ := indexStep_inv P hn S b m idx hb hb3 hb' hm s2 henc2 hb2 hi2 hm2 hlt
      obtain ⟨rest, e4, h4⟩ := ih (idx + 1) s3 h3 (by omega) (by omega)
      refine ⟨l ++ s' :: rest, ?_, ?_⟩
      · dsimp only
        rw [e2, Option.bind_some]
        dsimp only
        rw [e3, Option.bind_some, e4]
        rfl
      · rw [show m - idx + 1 = (m - (idx + 1) + 1) + 1 by omega, hpair]
        have := List.rel_append (hrow idx l s' hl hs') h4
        simpa using this
    · have : idx = m := by omega
      subst this
      rw [if_neg (by rw [h.index, h.max]; omega), e]
      refine ⟨l ++ [s'], rfl, ?_⟩
      rw [Nat.sub_self, hpair]
      have := hrow idx l s' hl hs'
      simpa [pairs] using this

theorem mem_candidates (E : Env) (i : Nat) : i ∈ candidates E ↔ i < E.n ∧ i ≠ 0 ∧ ¬ -potential E (fun _ => .neg) i < E.posLB i := by
  simp [candidates, fromScratch_eq]

theorem split_of (E : Env) : Split E (threeOf E) where
  nodup3 := List.Nodup.filter _ List.nodup_range
  nodup2 := List.Nodup.filter _ List.nodup_range
  disj k h h' := by
    simp only [threeOf, nonCandidates, List.mem_filter, Bool.and_eq_true, decide_eq_true_eq] at h h'
    exact h'.2.1 h
  cover k := by
    simp only [threeOf, nonCandidates, List.mem_filter, Bool.and_eq_true, decide_eq_true_eq, List.mem_range]
    constructor
    · rintro (h | h)
      · have := (mem_candidates E k).1 h; exact ⟨this.1, this.2.1⟩
      · exact ⟨h.1, h.2.2⟩
    · intro h
      by_cases hc : k ∈ candidates E
      · exact Or.inl hc
      · exact Or.inr ⟨h.1, hc, h.2⟩

theorem length_split (E : Env) (hn : 0 < E.n) : (threeOf E).three.length + (threeOf E).two.length = E.n - 1 := by
  have hp : List.Perm ((threeOf E).three ++ (threeOf E).two) ((List.range' 1 (E.n - 1))) := by
    rw [List.perm_ext_iff_of_nodup]
    · intro k
      rw [List.mem_append, (split_of E).cover, List.mem_range'_1]
      omega
    · rw [List.nodup_append]
      exact ⟨(split_of E).nodup3, (split_of E).nodup2, fun a ha b hb hab => (split_of E).disj a ha (hab ▸ hb)⟩
    · exact List.nodup_range'
  have := hp.length_eq
  simpa using this

end Verif.Sidb
