import Verif.Sidb.PotLemmas
import Verif.Sidb.GrayLemmas

/-! Helper lemmas on incremental updates. -/
namespace Verif.Sidb

/-- The SiDB of bit `j`: the dependent SiDB `d` carries no bit. -/
def bitCell (d j : Nat) : Nat := if j < d then j else j + 1

theorem bitCell_ne (d j : Nat) : bitCell d j ≠ d := by unfold bitCell; split <;> omega

theorem bitCell_inj (d : Nat) {j j' : Nat} (h : bitCell d j = bitCell d j') : j = j' := by
  unfold bitCell at h; split_ifs at h <;> omega

theorem bitCell_lt {d n j : Nat} (hj : j < n - 1) : bitCell d j < n := by
  unfold bitCell; split <;> omega

theorem bitCell_surj {d n i : Nat} (hi : i < n) (hd : d < n) (hne : i ≠ d) : ∃ j < n - 1, bitCell d j = i := by
  by_cases h : i < d
  · exact ⟨i, by omega, by unfold bitCell; rw [if_pos h]⟩
  · exact ⟨i - 1, by omega, by unfold bitCell; rw [if_neg (show ¬ i - 1 < d by omega)]; omega⟩

/-- The charge states other than that of the dependent SiDB are the bits of the word. -/
def Encodes (n d w : Nat) (c : Nat → Charge) : Prop :=
  ∀ j < n - 1, c (bitCell d j) = if w.testBit j then .neg else .neu

theorem xor_single {new old t : Nat} (h : ∀ j, new.testBit j ≠ old.testBit j ↔ j = t) :
    new ^^^ old ≠ 0 ∧ lowestBit (new ^^^ old) = t := by
  have h' : ∀ j, (new ^^^ old).testBit j = true ↔ j = t := by
    intro j
    rw [Nat.testBit_xor, ← h j]
    simp
  refine ⟨?_, lowestBit_single _ t h'⟩
  intro h0
  have := (h' t).2 rfl
  rw [h0] at this
  simp at this

/-- A step to a word that differs in one bit. -/
theorem grayStep_single (E : Env) (P : E.Physical) (d new old t : Nat) (ht : t < E.n - 1)
    (h : ∀ j, new.testBit j ≠ old.testBit j ↔ j = t) (s : Cds) (he : Encodes E.n d old s.charge) (hx : Exact E s) :
    Exact E (grayStep E d new old s) ∧ Encodes E.n d new (grayStep E d new old s).charge ∧
      (grayStep E d new old s).charge d = s.charge d := by
  obtain ⟨h0, hl⟩ := xor_single h
  have hbit : (if old.testBit t then (-1 : Int) else 0) = (s.charge (bitCell d t)).sign := by
    rw [he t ht]; split <;> rfl
  have hstep : grayStep E d new old s =
      updateChanged E { s with charge := setAt s.charge (bitCell d t) (if new.testBit t then .neg else .neu) } (bitCell d t)
        (s.charge (bitCell d t)).sign := by
    unfold grayStep
    rw [if_neg h0]
    simp only [hl]
    rw [hbit]
    rfl
  rw [hstep]
  refine ⟨Exact_changed E P s _ _ (bitCell_lt ht) hx, ?_, ?_⟩
  · intro j hj
    simp only [updateChanged, setAt]
    by_cases hjt : j = t
    · subst hjt; rw [if_pos rfl]
    · rw [if_neg (fun e => hjt (bitCell_inj d e)), he j hj]
      have : new.testBit j = old.testBit j := by
        by_contra hne
        exact hjt ((h j).1 hne)
      rw [this]
  · simp only [updateChanged, setAt]
    rw [if_neg (Ne.symm (bitCell_ne d t))]

theorem grayStep_same (E : Env) (d w : Nat) (s : Cds) : grayStep E d w w s = s := by
  unfold grayStep
  rw [if_pos (Nat.xor_self w)]

@[simp] theorem grayStep_maxIndex (E : Env) (d new old : Nat) (s : Cds) : (grayStep E d new old s).maxIndex = s.maxIndex := by
  unfold grayStep; split <;> rfl

@[simp] theorem grayStep_base (E : Env) (d new old : Nat) (s : Cds) : (grayStep E d new old s).base = s.base := by
  unfold grayStep; split <;> rfl

theorem Encodes_dependent (E : Env) (three : Bool) (n d w : Nat) (s : Cds) (h : Encodes n d w s.charge) :
    Encodes n d w (updateDependent E three d s).charge := by
  intro j hj
  rw [updateDependent_charge E three d _ s (bitCell_ne d j), h j hj]

/-- Effect of a list of changes with history on the charges. -/
theorem applyChanges_frame (l : List (Nat × Charge)) (c : Nat → Charge) (i : Nat) (h : i ∉ l.map Prod.fst) :
    (applyChanges l c).1 i = c i := by
  induction l generalizing c with
  | nil => rfl
  | cons p rest ih =>
    obtain ⟨k, x⟩ := p
    simp only [List.map_cons, List.mem_cons, not_or] at h
    unfold applyChanges
    split
    · dsimp only
      rw [ih _ h.2]
      simp [setAt, h.1]
    · exact ih _ h.2

theorem applyChanges_set (l : List (Nat × Charge)) (hn : (l.map Prod.fst).Nodup) (c : Nat → Charge) {k : Nat} {x : Charge}
    (h : (k, x) ∈ l) : (applyChanges l c).1 k = x := by
  induction l generalizing c with
  | nil => simp at h
  | cons p rest ih =>
    obtain ⟨k', x'⟩ := p
    rw [List.map_cons, List.nodup_cons] at hn
    unfold applyChanges
    rcases List.mem_cons.1 h with e | h'
    · obtain ⟨rfl, rfl⟩ := Prod.mk.inj e
      split
      · dsimp only
        rw [applyChanges_frame rest _ _ hn.1]
        simp [setAt]
      · rename_i hc
        rw [applyChanges_frame rest _ _ hn.1]
        simpa using hc
    · split
      · exact ih hn.2 _ h'
      · exact ih hn.2 _ h'

@[simp] theorem updateHistory_charge (E : Env) (s : Cds) (hist : List (Nat × Int)) : (updateHistory E s hist).charge = s.charge := by
  unfold updateHistory
  induction hist generalizing s with
  | nil => rfl
  | cons p rest ih => rw [List.foldl_cons, ih]; rfl

theorem updateHistory_intPot (E : Env) (s : Cds) (hist : List (Nat × Int)) (j : Nat) :
    (updateHistory E s hist).intPot j =
      s.intPot j + (hist.map fun h => E.pot h.1 j * (((s.charge h.1).sign - h.2 : Int) : Rat)).sum := by
  unfold updateHistory
  induction hist generalizing s with
  | nil => simp
  | cons p rest ih =>
    rw [List.foldl_cons, ih]
    simp only [updateChanged, List.map_cons, List.sum_cons]
    ring

theorem applyChanges_potential (E : Env) (P : E.Physical) (l : List (Nat × Charge)) (hn : (l.map Prod.fst).Nodup)
    (hlt : ∀ p ∈ l, p.1 < E.n) (c : Nat → Charge) (i : Nat) :
    potential E (applyChanges l c).1 i = potential E c i +
      ((applyChanges l c).2.map fun h => E.pot h.1 i * ((((applyChanges l c).1 h.1).sign - h.2 : Int) : Rat)).sum := by
  induction l generalizing c with
  | nil => simp [applyChanges]
  | cons p rest ih =>
    obtain ⟨k, x⟩ := p
    rw [List.map_cons, List.nodup_cons] at hn
    have hk : k < E.n := hlt (k, x) (List.mem_cons_self ..)
    unfold applyChanges
    split
    · have := ih hn.2 (fun p hp => hlt p (List.mem_cons_of_mem _ hp)) (setAt c k x)
      dsimp only
      rw [List.map_cons, List.sum_cons, this, potential_setAt E c k x hk i, P.symm k i]
      have hfr := applyChanges_frame rest (setAt c k x) k hn.1
      rw [hfr]
      simp only [setAt, if_true]
      ring
    · exact ih hn.2 (fun p hp => hlt p (List.mem_cons_of_mem _ hp)) c

theorem Exact_history (E : Env) (P : E.Physical) (l : List (Nat × Charge)) (hn : (l.map Prod.fst).Nodup)
    (hlt : ∀ p ∈ l, p.1 < E.n) (s : Cds) (h : Exact E s) :
    Exact E (updateHistory E { s with charge := (applyChanges l s.charge).1 } (applyChanges l s.charge).2) := by
  intro i hi
  rw [updateHistory_intPot, updateHistory_charge]
  dsimp only
  rw [applyChanges_potential E P l hn hlt s.charge i, h i hi]

end Verif.Sidb
