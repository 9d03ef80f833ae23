import Verif.Sidb.Gss
import Mathlib.Data.List.Perm.Subperm

/-!
# When the potential bound analysis of the ground state space accepts a multiset
-/
namespace Verif.Sidb.Gss

open Verif.Sidb

/-- The multiset of the charges of the SiDBs of a cluster. -/
def msOf (c : Nat → Charge) (l : List Nat) : Multiset :=
  ⟨(l.filter fun i => c i = .neg).length, (l.filter fun i => c i = .pos).length⟩

/-- The bounds on the potential at a SiDB do not exclude a charge state. -/
def Fits (E : Env) (q : Charge) (b : Bounds) : Prop :=
  match q with
  | .neg => b.lo ≤ E.eps - E.muMinus
  | .pos => -E.eps - E.muPlus ≤ b.up
  | .neu => -E.eps - E.muMinus ≤ b.up ∧ b.lo ≤ E.eps - E.muPlus

theorem mem_insertNat {x y : Nat} {l : List Nat} : y ∈ insertNat x l ↔ y = x ∨ y ∈ l := by
  induction l with
  | nil => simp [insertNat]
  | cons a t ih => simp only [insertNat]; split_ifs with h1 h2 <;> simp [ih] <;> grind

theorem insertNat_sorted {x : Nat} {l : List Nat} (h : l.Pairwise (· < ·)) : (insertNat x l).Pairwise (· < ·) := by
  induction l with
  | nil => simp [insertNat]
  | cons a t ih =>
    rw [List.pairwise_cons] at h
    simp only [insertNat]
    split_ifs with h1 h2
    · rw [List.pairwise_cons, List.pairwise_cons]
      refine ⟨?_, h⟩
      intro y hy
      rcases List.mem_cons.mp hy with rfl | hy
      · exact h1
      · exact h1.trans (h.1 y hy)
    · rw [List.pairwise_cons]; exact h
    · rw [List.pairwise_cons]
      refine ⟨?_, ih h.2⟩
      intro y hy
      rcases mem_insertNat.mp hy with rfl | hy
      · omega
      · exact h.1 y hy

theorem foldInsert_spec (l s : List Nat) (hs : s.Pairwise (· < ·)) :
    (l.foldl (fun s x => insertNat x s) s).Pairwise (· < ·) ∧
      ∀ x, x ∈ l.foldl (fun s x => insertNat x s) s ↔ x ∈ l ∨ x ∈ s := by
  induction l generalizing s with
  | nil => exact ⟨hs, by simp⟩
  | cons a t ih =>
    have h := ih (insertNat a s) (insertNat_sorted hs)
    refine ⟨h.1, fun x => ?_⟩
    rw [List.foldl_cons, h.2 x, mem_insertNat, List.mem_cons]
    tauto

theorem nodup_of_sorted {l : List Nat} (h : l.Pairwise (· < ·)) : l.Nodup := h.imp (fun h => Nat.ne_of_lt h)

theorem length_le_of_subset {a b : List Nat} (ha : a.Nodup) (h : ∀ x ∈ a, x ∈ b) : a.length ≤ b.length :=
  (List.subperm_of_subset ha h).length_le

theorem omitFree_eq (a b s : List Nat) (k : Nat) (h : (s.filter fun x => x ∉ a ∧ x ∉ b).length ≤ k) :
    omitFree a b s k = (s.filter fun x => ¬ (x ∉ a ∧ x ∉ b), k - (s.filter fun x => x ∉ a ∧ x ∉ b).length) := by
  induction s generalizing k with
  | nil => simp [omitFree]
  | cons x t ih =>
    rw [omitFree]
    by_cases hx : x ∉ a ∧ x ∉ b
    · rw [if_pos hx]
      rw [List.filter_cons_of_pos (by simpa using hx), List.length_cons] at h
      have hk : dec k = k - 1 := by unfold dec; rw [if_neg (by omega)]
      rw [ih _ (by omega), hk, List.filter_cons_of_neg (by simpa using hx),
        List.filter_cons_of_pos (by simpa using hx), List.length_cons]
      congr 1
      omega
    · rw [if_neg hx]
      rw [List.filter_cons_of_neg (by simpa using hx)] at h
      rw [ih k h, List.filter_cons_of_pos (by simp only [decide_eq_true_eq]; exact hx), List.filter_cons_of_neg (by simpa using hx)]

/-- What a failed search leaves behind. -/
def Left (w w' : Witnesses) : Prop :=
  w'.neg.Pairwise (· < ·) ∧ (∀ x, x ∈ w'.neg ↔ x ∈ w.neg) ∧ w'.neu.Pairwise (· < ·) ∧ (∀ x ∈ w.neu, x ∈ w'.neu) ∧
    w'.reqNeu = w.reqNeu ∧ w'.reqPos = 0

/-- What there is to find: `k` negative witnesses such that there remain enough neutral ones. -/
def Findable (k : Nat) (w : Witnesses) : Prop :=
  ∃ A : List Nat, A.Nodup ∧ (∀ x ∈ A, x ∈ w.neg) ∧ A.length = k ∧ w.reqNeu ≤ (w.neu.filter fun x => x ∉ A).length

/-- The sets are ordered and no positive charges are required. -/
def Ready (w : Witnesses) : Prop := w.neg.Pairwise (· < ·) ∧ w.neu.Pairwise (· < ·) ∧ w.reqPos = 0

/-- A search is reliable if there are no positive charges. -/
def Reliable (k : Nat) (rec : Witnesses → Bool × Witnesses) : Prop :=
  ∀ w, Ready w → (Findable k w → (rec w).1 = true) ∧ ((rec w).1 = false → Left w (rec w).2)

theorem findable_mono {k : Nat} {w w' : Witnesses} (h : Findable k w) (hs : w.neu.Pairwise (· < ·)) (hl : Left w w') :
    Findable k w' := by
  obtain ⟨A, h1, h2, h3, h4⟩ := h
  refine ⟨A, h1, fun x hx => (hl.2.1 x).mpr (h2 x hx), h3, ?_⟩
  rw [hl.2.2.2.2.1]
  refine le_trans h4 (length_le_of_subset ((nodup_of_sorted hs).filter _) ?_)
  intro x hx
  rw [List.mem_filter] at hx ⊢
  exact ⟨hl.2.2.2.1 x hx.1, hx.2⟩

/-- The state of an iteration of the loop over the negative witnesses. -/
def eraseAll (w : Witnesses) (x : Nat) : Witnesses :=
  { w with neg := w.neg.erase x, pos := w.pos.erase x, neu := w.neu.erase x }

/-- What is restored after an iteration. -/
def restoreAll (w : Witnesses) (x : Nat) : Witnesses :=
  { w with neg := insertNat x w.neg, pos := insertNat x w.pos, neu := insertNat x w.neu }

theorem erase_sorted {l : List Nat} {x : Nat} (h : l.Pairwise (· < ·)) : (l.erase x).Pairwise (· < ·) :=
  h.sublist List.erase_sublist

theorem left_restore {w w' : Witnesses} {x : Nat} (hw : Ready w) (hx : x ∈ w.neg) (hl : Left (eraseAll w x) w') :
    Left w (restoreAll w' x) := by
  obtain ⟨h1, h2, h3, h4, h5, h6⟩ := hl
  refine ⟨insertNat_sorted h1, fun y => ?_, insertNat_sorted h3, fun y hy => ?_, h5, h6⟩
  · change y ∈ insertNat x w'.neg ↔ _
    rw [mem_insertNat, h2 y]
    change y = x ∨ y ∈ w.neg.erase x ↔ _
    rw [(nodup_of_sorted hw.1).mem_erase_iff]
    constructor
    · rintro (rfl | h)
      · exact hx
      · exact h.2
    · intro h
      by_cases e : y = x
      · exact Or.inl e
      · exact Or.inr ⟨e, h⟩
  · change y ∈ insertNat x w'.neu
    rw [mem_insertNat]
    by_cases e : y = x
    · exact Or.inl e
    · refine Or.inr (h4 y ?_)
      change y ∈ w.neu.erase x
      rw [(nodup_of_sorted hw.2.1).mem_erase_iff]
      exact ⟨e, hy⟩

theorem left_trans {w w' w'' : Witnesses} (h : Left w w') (h' : Left w' w'') : Left w w'' :=
  ⟨h'.1, fun x => (h'.2.1 x).trans (h.2.1 x), h'.2.2.1, fun x hx => h'.2.2.2.1 x (h.2.2.2.1 x hx),
    h'.2.2.2.2.1.trans h.2.2.2.2.1, h'.2.2.2.2.2⟩

theorem left_refl {w : Witnesses} (h : Ready w) : Left w w := ⟨h.1, fun _ => Iff.rfl, h.2.1, fun _ h => h, rfl, h.2.2⟩

theorem left_ready {w w' : Witnesses} (h : Left w w') : Ready w' := ⟨h.1, h.2.2.1, h.2.2.2.2.2⟩

theorem eraseAll_ready {w : Witnesses} {x : Nat} (h : Ready w) : Ready (eraseAll w x) :=
  ⟨erase_sorted h.1, erase_sorted h.2.1, h.2.2⟩

theorem findable_erase {k : Nat} {w : Witnesses} {x : Nat} {A : List Nat} (hw : Ready w) (hA : A.Nodup)
    (hs : ∀ y ∈ A, y ∈ w.neg) (hl : A.length = k + 1) (hr : w.reqNeu ≤ (w.neu.filter fun y => y ∉ A).length)
    (hx : x ∈ A) : Findable k (eraseAll w x) := by
  refine ⟨A.erase x, hA.erase x, ?_, by rw [List.length_erase_of_mem hx]; omega, ?_⟩
  · intro y hy
    rw [hA.mem_erase_iff] at hy
    change y ∈ w.neg.erase x
    rw [(nodup_of_sorted hw.1).mem_erase_iff]
    exact ⟨hy.1, hs y hy.2⟩
  · refine le_trans hr (length_le_of_subset ((nodup_of_sorted hw.2.1).filter _) ?_)
    intro y hy
    rw [List.mem_filter] at hy ⊢
    have h1 : y ∉ A := by simpa using hy.2
    refine ⟨?_, ?_⟩
    · change y ∈ w.neu.erase x
      rw [(nodup_of_sorted hw.2.1).mem_erase_iff]
      exact ⟨fun e => h1 (e ▸ hx), hy.1⟩
    · simp only [decide_eq_true_eq]
      exact fun h => h1 (List.mem_of_mem_erase h)

theorem next_spec {x y : Nat} {s : List Nat} (hs : s.Pairwise (· < ·)) (h : next x s = some y) :
    y ∈ s ∧ x < y ∧ ∀ z ∈ s, x < z → y ≤ z := by
  induction s with
  | nil => simp [next] at h
  | cons a t ih =>
    rw [List.pairwise_cons] at hs
    unfold next at h
    rw [List.find?_cons] at h
    by_cases hx : x < a
    · simp only [hx, decide_true, Option.some.injEq] at h
      subst h
      refine ⟨List.mem_cons_self, hx, ?_⟩
      intro z hz _
      rcases List.mem_cons.mp hz with rfl | hz
      · exact le_refl _
      · exact (hs.1 z hz).le
    · simp only [hx, decide_false] at h
      obtain ⟨h1, h2, h3⟩ := ih hs.2 h
      refine ⟨List.mem_cons_of_mem _ h1, h2, ?_⟩
      intro z hz hxz
      rcases List.mem_cons.mp hz with rfl | hz
      · exact absurd hxz hx
      · exact h3 z hz hxz

theorem negLoop_spec {k : Nat} {rec : Witnesses → Bool × Witnesses} (hrec : Reliable k rec) :
    ∀ (f : Nat) (x : Option Nat) (w : Witnesses), Ready w → (∀ y, x = some y → y ∈ w.neg) →
      ((∃ A : List Nat, A.Nodup ∧ (∀ y ∈ A, y ∈ w.neg) ∧ A.length = k + 1 ∧
          w.reqNeu ≤ (w.neu.filter fun y => y ∉ A).length ∧
          (∃ y, x = some y ∧ (∀ z ∈ A, y ≤ z) ∧ (w.neg.filter fun z => y ≤ z).length ≤ f)) →
        (negLoop rec f x w).1 = true) ∧
      ((negLoop rec f x w).1 = false → Left w (negLoop rec f x w).2) := by
  intro f
  induction f with
  | zero =>
    intro x w hw hx
    refine ⟨?_, fun _ => left_refl hw⟩
    rintro ⟨A, _, h2, h3, _, y, rfl, h5, h6⟩
    exfalso
    have : (w.neg.filter fun z => y ≤ z) = [] := List.length_eq_zero_iff.mp (by omega)
    have hy := hx y rfl
    have h7 : y ∈ w.neg.filter fun z => y ≤ z := List.mem_filter.mpr ⟨hy, by simp⟩
    rw [this] at h7
    cases h7
  | succ f ih =>
    intro x w hw hx
    cases x with
    | none =>
      refine ⟨?_, fun _ => left_refl hw⟩
      rintro ⟨A, _, _, _, _, y, h, _⟩
      cases h
    | some x =>
      have hxm := hx x rfl
      have e : negLoop rec (f + 1) (some x) w =
          if (rec (eraseAll w x)).1 then (true, (rec (eraseAll w x)).2)
          else negLoop rec f (next x (restoreAll (rec (eraseAll w x)).2 x).neg) (restoreAll (rec (eraseAll w x)).2 x) := rfl
      rw [e]
      have hr := hrec _ (eraseAll_ready (x := x) hw)
      by_cases hb : (rec (eraseAll w x)).1 = true
      · rw [if_pos hb]
        exact ⟨fun _ => rfl, fun h => by cases h⟩
      · rw [if_neg hb]
        have hl := left_restore hw hxm (hr.2 (by simpa using hb))
        generalize restoreAll (rec (eraseAll w x)).2 x = w' at hl
        have hw' := left_ready hl
        have hi := ih (next x w'.neg) w' hw' (fun y hy => (next_spec hw'.1 hy).1)
        refine ⟨?_, fun h => left_trans hl (hi.2 h)⟩
        rintro ⟨A, h1, h2, h3, h4, y, hy, h5, h6⟩
        cases hy
        have hxA : x ∉ A := fun h => hb (hr.1 (findable_erase hw h1 h2 h3 h4 h))
        apply hi.1
        refine ⟨A, h1, fun z hz => (hl.2.1 z).mpr (h2 z hz), h3, ?_, ?_⟩
        · rw [hl.2.2.2.2.1]
          refine le_trans h4 (length_le_of_subset ((nodup_of_sorted hw.2.1).filter _) ?_)
          intro z hz
          rw [List.mem_filter] at hz ⊢
          exact ⟨hl.2.2.2.1 z hz.1, hz.2⟩
        · obtain ⟨a, ha⟩ : ∃ a, a ∈ A := List.exists_mem_of_length_pos (by omega)
          have hlt : ∀ z ∈ A, x < z := fun z hz => lt_of_le_of_ne (h5 z hz) (fun e => hxA (e ▸ hz))
          have ha' : a ∈ w'.neg := (hl.2.1 a).mpr (h2 a ha)
          cases hn : next x w'.neg with
          | none =>
            exfalso
            unfold next at hn
            rw [List.find?_eq_none] at hn
            exact hn a ha' (by simpa using hlt a ha)
          | some y =>
            obtain ⟨n1, n2, n3⟩ := next_spec hw'.1 hn
            refine ⟨y, rfl, fun z hz => n3 z ((hl.2.1 z).mpr (h2 z hz)) (hlt z hz), ?_⟩
            have : (w'.neg.filter fun z => y ≤ z).length + 1 ≤ (w.neg.filter fun z => x ≤ z).length := by
              rw [← List.length_cons (a := x)]
              apply length_le_of_subset
              · rw [List.nodup_cons]
                refine ⟨?_, (nodup_of_sorted hw'.1).filter _⟩
                rw [List.mem_filter]
                rintro ⟨_, h⟩
                have : y ≤ x := by simpa using h
                omega
              · intro z hz
                rcases List.mem_cons.mp hz with rfl | hz
                · exact List.mem_filter.mpr ⟨hxm, by simp⟩
                · rw [List.mem_filter] at hz ⊢
                  have h7 : y ≤ z := by simpa using hz.2
                  exact ⟨(hl.2.1 z).mp hz.1, by simp; omega⟩
            omega

theorem findNeg_reliable (k : Nat) : Reliable k (findNeg k) := by
  induction k with
  | zero =>
    intro w hw
    have e : findNeg 0 w = (decide (w.neu.length ≥ w.reqNeu), w) := by
      rw [findNeg, hw.2.2, findPos]
    rw [e]
    refine ⟨?_, fun _ => left_refl hw⟩
    rintro ⟨A, _, _, h3, h4⟩
    have : A = [] := List.length_eq_zero_iff.mp h3
    subst this
    simpa using h4
  | succ k ih =>
    intro w hw
    have hh : ∀ y, w.neg.head? = some y → y ∈ w.neg := fun y hy => List.mem_of_head? hy
    have h := negLoop_spec ih w.neg.length w.neg.head? w hw hh
    refine ⟨?_, h.2⟩
    rintro ⟨A, h1, h2, h3, h4⟩
    apply h.1
    refine ⟨A, h1, h2, h3, h4, ?_⟩
    cases hn : w.neg with
    | nil =>
      exfalso
      obtain ⟨a, ha⟩ : ∃ a, a ∈ A := List.exists_mem_of_length_pos (by omega)
      have := h2 a ha
      rw [hn] at this
      cases this
    | cons y t =>
      refine ⟨y, rfl, ?_, List.length_filter_le _ _⟩
      intro z hz
      have hz' := h2 z hz
      have hs := hw.1
      rw [hn] at hz' hs
      rw [List.pairwise_cons] at hs
      rcases List.mem_cons.mp hz' with rfl | h
      · exact le_refl _
      · exact (hs.1 z h).le

/-- The limits under which the analysis is known not to reject what it must keep. -/
def Safe (P : Params) : Prop := P.base = 2 ∨ P.sizeLimit = 0 ∨ P.overlapLimit = 0

theorem collect_spec (l : List Nat) (p : Nat → Bool) :
    ((l.filter p).foldl (fun s x => insertNat x s) []).Pairwise (· < ·) ∧
      ∀ x, x ∈ (l.filter p).foldl (fun s x => insertNat x s) [] ↔ x ∈ l ∧ p x = true := by
  have h := foldInsert_spec (l.filter p) [] List.Pairwise.nil
  refine ⟨h.1, fun x => ?_⟩
  rw [h.2 x, List.mem_filter]
  simp

theorem count_split (σ : Nat → Charge) (l : List Nat) :
    (l.filter fun i => σ i = .neg).length + (l.filter fun i => σ i = .pos).length +
      (l.filter fun i => σ i = .neu).length = l.length := by
  induction l with
  | nil => rfl
  | cons a t ih =>
    cases h : σ a <;> simp [List.filter_cons, h] <;> omega

theorem mem_keep {s a b : List Nat} {x : Nat} :
    x ∈ s.filter (fun x => decide (¬ (x ∉ a ∧ x ∉ b))) ↔ x ∈ s ∧ (x ∈ a ∨ x ∈ b) := by
  simp only [List.mem_filter, decide_eq_true_eq]
  tauto

theorem charge_cases (q : Charge) : q = .neg ∨ q = .pos ∨ q = .neu := by cases q <;> simp

theorem analysis_true {E : Env} {P : Params} {c : Cluster} {b : Nat → Bounds} (σ : Nat → Charge)
    (hnd : c.sidbs.Nodup) (hb : ∀ i ∈ c.sidbs, Fits E (σ i) (b i)) (hne : c.sidbs ≠ [])
    (hsafe : (msOf σ c.sidbs).pos = 0 ∨ P.sizeLimit = 0 ∨ P.overlapLimit = 0) :
    analysis E P c (msOf σ c.sidbs) b = true := by
  have hcount := count_split σ c.sidbs
  -- the sets of SiDBs of each charge
  set AN := c.sidbs.filter fun i => σ i = .neg with hAN
  set AP := c.sidbs.filter fun i => σ i = .pos with hAP
  set AZ := c.sidbs.filter fun i => σ i = .neu with hAZ
  have mAN : ∀ x, x ∈ AN ↔ x ∈ c.sidbs ∧ σ x = .neg := by intro x; simp [hAN]
  have mAP : ∀ x, x ∈ AP ↔ x ∈ c.sidbs ∧ σ x = .pos := by intro x; simp [hAP]
  have mAZ : ∀ x, x ∈ AZ ↔ x ∈ c.sidbs ∧ σ x = .neu := by intro x; simp [hAZ]
  have nAN : AN.Nodup := hnd.filter _
  have nAP : AP.Nodup := hnd.filter _
  have nAZ : AZ.Nodup := hnd.filter _
  have e1 : (msOf σ c.sidbs).neg = AN.length := rfl
  have e2 : (msOf σ c.sidbs).pos = AP.length := rfl
  have e3 : c.size - (msOf σ c.sidbs).neg - (msOf σ c.sidbs).pos = AZ.length := by
    rw [e1, e2]; unfold Cluster.size; omega
  rw [e2] at hsafe
  -- the witness sets
  obtain ⟨N, Pp, Z, hw, sN, sP, sZ, mN, mP, mZ⟩ : ∃ N Pp Z : List Nat,
      witnesses E c (msOf σ c.sidbs) b = ⟨N, Pp, Z, AN.length, AP.length, AZ.length⟩ ∧
      N.Pairwise (· < ·) ∧ Pp.Pairwise (· < ·) ∧ Z.Pairwise (· < ·) ∧
      (∀ x, x ∈ N ↔ x ∈ c.sidbs ∧ (AN.length ≠ 0 ∧ (b x).lo ≤ E.eps - E.muMinus)) ∧
      (∀ x, x ∈ Pp ↔ x ∈ c.sidbs ∧ (AP.length ≠ 0 ∧ -E.eps - E.muPlus ≤ (b x).up)) ∧
      (∀ x, x ∈ Z ↔ x ∈ c.sidbs ∧ (AZ.length ≠ 0 ∧ -E.eps - E.muMinus ≤ (b x).up ∧ (b x).lo ≤ E.eps - E.muPlus)) := by
    have cN := collect_spec c.sidbs fun i => decide (AN.length ≠ 0) && !failNeg E (b i).lo
    have cP := collect_spec c.sidbs fun i => decide (AP.length ≠ 0) && !failPos E (b i).up
    have cZ := collect_spec c.sidbs fun i => decide (AZ.length ≠ 0) && (!ubFailNeu E (b i).up && !lbFailNeu E (b i).lo)
    refine ⟨_, _, _, ?_, cN.1, cP.1, cZ.1, ?_, ?_, ?_⟩
    · unfold witnesses
      rw [e3]
      rfl
    · intro x; rw [cN.2 x]; simp [failNeg]
    · intro x; rw [cP.2 x]; simp [failPos]
    · intro x; rw [cZ.2 x]; simp [ubFailNeu, lbFailNeu]
  have hsub : ∀ x ∈ c.sidbs, (σ x = .neg → x ∈ N) ∧ (σ x = .pos → x ∈ Pp) ∧ (σ x = .neu → x ∈ Z) := by
    intro x hx
    have hf := hb x hx
    refine ⟨fun h => ?_, fun h => ?_, fun h => ?_⟩
    · rw [h] at hf
      have : x ∈ AN := (mAN x).mpr ⟨hx, h⟩
      exact (mN x).mpr ⟨hx, (List.length_pos_of_mem this).ne', hf⟩
    · rw [h] at hf
      have : x ∈ AP := (mAP x).mpr ⟨hx, h⟩
      exact (mP x).mpr ⟨hx, (List.length_pos_of_mem this).ne', hf⟩
    · rw [h] at hf
      have : x ∈ AZ := (mAZ x).mpr ⟨hx, h⟩
      exact (mZ x).mpr ⟨hx, (List.length_pos_of_mem this).ne', hf⟩
  have lN : AN.length ≤ N.length := length_le_of_subset nAN fun x hx => (hsub x ((mAN x).mp hx).1).1 ((mAN x).mp hx).2
  have lP : AP.length ≤ Pp.length := length_le_of_subset nAP fun x hx => (hsub x ((mAP x).mp hx).1).2.1 ((mAP x).mp hx).2
  have lZ : AZ.length ≤ Z.length := length_le_of_subset nAZ fun x hx => (hsub x ((mAZ x).mp hx).1).2.2 ((mAZ x).mp hx).2
  unfold analysis
  rw [hw]
  dsimp only
  rw [if_neg (by omega)]
  by_cases hsz : c.size > P.sizeLimit
  · rw [if_pos hsz]
  rw [if_neg hsz]
  -- free witnesses are witnesses of the charge they have
  have fN : ∀ x ∈ N, x ∉ Pp → x ∉ Z → x ∈ AN := by
    intro x hx h1 h2
    have hc := ((mN x).mp hx).1
    have hs := hsub x hc
    rw [mAN]
    rcases charge_cases (σ x) with h | h | h
    · exact ⟨hc, h⟩
    · exact absurd (hs.2.1 h) h1
    · exact absurd (hs.2.2 h) h2
  have freeN : (N.filter fun x => x ∉ Pp ∧ x ∉ Z).length ≤ AN.length := by
    apply length_le_of_subset ((nodup_of_sorted sN).filter _)
    intro x hx
    simp only [List.mem_filter, decide_eq_true_eq] at hx
    exact fN x hx.1 hx.2.1 hx.2.2
  set N' := N.filter fun x => ¬ (x ∉ Pp ∧ x ∉ Z) with hN'
  have mN' : ∀ x, x ∈ N' ↔ x ∈ N ∧ (x ∈ Pp ∨ x ∈ Z) := by
    intro x
    rw [hN']
    exact mem_keep
  have fP : ∀ x ∈ Pp, x ∉ N' → x ∉ Z → x ∈ AP := by
    intro x hx h1 h2
    have hc := ((mP x).mp hx).1
    have hs := hsub x hc
    rw [mAP]
    rw [mN'] at h1
    rcases charge_cases (σ x) with h | h | h
    · exact absurd ⟨hs.1 h, Or.inl hx⟩ h1
    · exact ⟨hc, h⟩
    · exact absurd (hs.2.2 h) h2
  have freeP : (Pp.filter fun x => x ∉ N' ∧ x ∉ Z).length ≤ AP.length := by
    apply length_le_of_subset ((nodup_of_sorted sP).filter _)
    intro x hx
    simp only [List.mem_filter, decide_eq_true_eq] at hx
    exact fP x hx.1 hx.2.1 hx.2.2
  set P' := Pp.filter fun x => ¬ (x ∉ N' ∧ x ∉ Z) with hP'
  have mP' : ∀ x, x ∈ P' ↔ x ∈ Pp ∧ (x ∈ N' ∨ x ∈ Z) := by
    intro x
    rw [hP']
    exact mem_keep
  have fZ : ∀ x ∈ Z, x ∉ N' → x ∉ P' → x ∈ AZ := by
    intro x hx h1 h2
    have hc := ((mZ x).mp hx).1
    have hs := hsub x hc
    rw [mAZ]
    rw [mN'] at h1
    rw [mP'] at h2
    rcases charge_cases (σ x) with h | h | h
    · exact absurd ⟨hs.1 h, Or.inr hx⟩ h1
    · exact absurd ⟨hs.2.1 h, Or.inr hx⟩ h2
    · exact ⟨hc, h⟩
  have freeZ : (Z.filter fun x => x ∉ N' ∧ x ∉ P').length ≤ AZ.length := by
    apply length_le_of_subset ((nodup_of_sorted sZ).filter _)
    intro x hx
    simp only [List.mem_filter, decide_eq_true_eq] at hx
    exact fZ x hx.1 hx.2.1 hx.2.2
  set Z' := Z.filter fun x => ¬ (x ∉ N' ∧ x ∉ P') with hZ'
  have mZ' : ∀ x, x ∈ Z' ↔ x ∈ Z ∧ (x ∈ N' ∨ x ∈ P') := by
    intro x
    rw [hZ']
    exact mem_keep
  have ho : omitWitnesses ⟨N, Pp, Z, AN.length, AP.length, AZ.length⟩ =
      (((N' ++ P' ++ Z').dedup).length, ⟨N', P', Z',
        AN.length - (N.filter fun x => x ∉ Pp ∧ x ∉ Z).length,
        AP.length - (Pp.filter fun x => x ∉ N' ∧ x ∉ Z).length,
        AZ.length - (Z.filter fun x => x ∉ N' ∧ x ∉ P').length⟩) := by
    unfold omitWitnesses
    dsimp only
    rw [omitFree_eq _ _ _ _ freeN]
    dsimp only
    rw [← hN', omitFree_eq _ _ _ _ freeP]
    dsimp only
    rw [← hP', omitFree_eq _ _ _ _ freeZ]
  rw [ho]
  dsimp only
  by_cases hov : ((N' ++ P' ++ Z').dedup).length > P.overlapLimit
  · rw [if_pos hov]
  rw [if_neg hov]
  -- what remains to be chosen
  set RN := AN.filter fun x => ¬ (x ∉ Pp ∧ x ∉ Z) with hRN
  have lRN : RN.length = AN.length - (N.filter fun x => x ∉ Pp ∧ x ∉ Z).length := by
    have h1 : (N.filter fun x => x ∉ Pp ∧ x ∉ Z).Perm (AN.filter fun x => x ∉ Pp ∧ x ∉ Z) := by
      rw [List.perm_ext_iff_of_nodup ((nodup_of_sorted sN).filter _) (nAN.filter _)]
      intro x
      simp only [List.mem_filter, decide_eq_true_eq]
      exact ⟨fun h => ⟨fN x h.1 h.2.1 h.2.2, h.2⟩, fun h => ⟨(hsub x ((mAN x).mp h.1).1).1 ((mAN x).mp h.1).2, h.2⟩⟩
    have h2 : AN.length = (AN.filter fun x => x ∉ Pp ∧ x ∉ Z).length + RN.length := by
      rw [hRN]
      have := List.length_eq_length_filter_add (l := AN) (fun x => decide (x ∉ Pp ∧ x ∉ Z))
      rw [this]
      congr 3
      funext x
      simp
    rw [h1.length_eq]
    omega
  have lRZ : (AZ.filter fun x => ¬ (x ∉ N' ∧ x ∉ P')).length = AZ.length - (Z.filter fun x => x ∉ N' ∧ x ∉ P').length := by
    have h1 : (Z.filter fun x => x ∉ N' ∧ x ∉ P').Perm (AZ.filter fun x => x ∉ N' ∧ x ∉ P') := by
      rw [List.perm_ext_iff_of_nodup ((nodup_of_sorted sZ).filter _) (nAZ.filter _)]
      intro x
      simp only [List.mem_filter, decide_eq_true_eq]
      exact ⟨fun h => ⟨fZ x h.1 h.2.1 h.2.2, h.2⟩, fun h => ⟨(hsub x ((mAZ x).mp h.1).1).2.2 ((mAZ x).mp h.1).2, h.2⟩⟩
    have h2 : AZ.length = (AZ.filter fun x => x ∉ N' ∧ x ∉ P').length + (AZ.filter fun x => ¬ (x ∉ N' ∧ x ∉ P')).length := by
      have := List.length_eq_length_filter_add (l := AZ) (fun x => decide (x ∉ N' ∧ x ∉ P'))
      rw [this]
      congr 3
      funext x
      simp
    rw [h1.length_eq]
    omega
  have lRP : (AP.filter fun x => ¬ (x ∉ N' ∧ x ∉ Z)).length = AP.length - (Pp.filter fun x => x ∉ N' ∧ x ∉ Z).length := by
    have h1 : (Pp.filter fun x => x ∉ N' ∧ x ∉ Z).Perm (AP.filter fun x => x ∉ N' ∧ x ∉ Z) := by
      rw [List.perm_ext_iff_of_nodup ((nodup_of_sorted sP).filter _) (nAP.filter _)]
      intro x
      simp only [List.mem_filter, decide_eq_true_eq]
      exact ⟨fun h => ⟨fP x h.1 h.2.1 h.2.2, h.2⟩, fun h => ⟨(hsub x ((mAP x).mp h.1).1).2.1 ((mAP x).mp h.1).2, h.2⟩⟩
    have h2 : AP.length = (AP.filter fun x => x ∉ N' ∧ x ∉ Z).length + (AP.filter fun x => ¬ (x ∉ N' ∧ x ∉ Z)).length := by
      have := List.length_eq_length_filter_add (l := AP) (fun x => decide (x ∉ N' ∧ x ∉ Z))
      rw [this]
      congr 3
      funext x
      simp
    rw [h1.length_eq]
    omega
  rw [← lRN, ← lRZ, ← lRP]
  have subRN : ∀ x ∈ RN, x ∈ N' := by
    intro x hx
    rw [hRN, mem_keep] at hx
    rw [mN']
    exact ⟨(hsub x ((mAN x).mp hx.1).1).1 ((mAN x).mp hx.1).2, hx.2⟩
  have hfind : (AP.filter fun x => ¬ (x ∉ N' ∧ x ∉ Z)).length = 0 →
      (findNeg RN.length ⟨N', P', Z', RN.length, (AP.filter fun x => ¬ (x ∉ N' ∧ x ∉ Z)).length,
        (AZ.filter fun x => ¬ (x ∉ N' ∧ x ∉ P')).length⟩).1 = true := by
    intro hz
    refine (findNeg_reliable RN.length _ ⟨sN.filter _, sZ.filter _, hz⟩).1 ⟨RN, nAN.filter _, subRN, rfl, ?_⟩
    apply length_le_of_subset (nAZ.filter _)
    intro x hx
    rw [mem_keep] at hx
    rw [List.mem_filter, decide_eq_true_eq]
    refine ⟨(mZ' x).mpr ⟨(hsub x ((mAZ x).mp hx.1).1).2.2 ((mAZ x).mp hx.1).2, hx.2⟩, ?_⟩
    intro h
    rw [hRN, List.mem_filter, mAN] at h
    have := ((mAZ x).mp hx.1).2
    rw [h.1.2] at this
    cases this
  apply hfind
  rcases hsafe with h | h | h
  · have : AP = [] := List.length_eq_zero_iff.mp h
    rw [this]; rfl
  · exfalso
    have : 0 < c.size := List.length_pos_of_ne_nil hne
    omega
  · rw [List.length_eq_zero_iff, List.eq_nil_iff_forall_not_mem]
    intro x hxm
    rw [mem_keep] at hxm
    obtain ⟨hx, hh⟩ := hxm
    have hd : (N' ++ P' ++ Z').dedup = [] := List.length_eq_zero_iff.mp (by omega)
    have hx' : x ∈ P' := by
      rw [mP']
      exact ⟨(hsub x ((mAP x).mp hx).1).2.1 ((mAP x).mp hx).2, hh⟩
    have : x ∈ (N' ++ P' ++ Z').dedup := by
      rw [List.mem_dedup]
      simp [hx']
    rw [hd] at this
    cases this

end Verif.Sidb.Gss
