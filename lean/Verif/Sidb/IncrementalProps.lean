import Verif.Sidb.StepLemmas
import Verif.Sidb.ForcedProps
import Mathlib.Data.List.Chain

/-!
# C37: incremental updates of the potentials agree with recomputation
-/
namespace Verif.Sidb

/-- What can be done to a surface between two looks at its potentials. -/
inductive Op where
  /-- assign a charge distribution and recompute all potentials -/
  | scratch (c : Nat → Charge)
  /-- assign new charge states to some SiDBs and update the potentials from the history of changes -/
  | history (l : List (Nat × Charge))
  /-- adapt the charge state of a dependent SiDB -/
  | dependent (three : Bool) (d : Nat)

/-- One operation; each is followed by the validity check as in `update_after_charge_change`,
charge_distribution_surface.hpp:1248-1263. -/
def Op.run (E : Env) (s : Cds) : Op → Cds
  | .scratch c => validityCheck E (updateNeglect E { s with charge := c })
  | .history l =>
    validityCheck E (updateHistory E { s with charge := (applyChanges l s.charge).1 } (applyChanges l s.charge).2)
  | .dependent three d => validityCheck E (updateDependent E three d s)

/-- Only SiDBs of the layout are addressed; no SiDB is changed twice within one update. -/
def Op.Ok (E : Env) : Op → Prop
  | .scratch _ => True
  | .history l => (l.map Prod.fst).Nodup ∧ ∀ p ∈ l, p.1 < E.n
  | .dependent _ d => d < E.n

/-- After any sequence of operations the stored potentials are those of the current charge distribution, and
the stored validity is that of the current charge distribution. -/
theorem C37_incremental (E : Env) (P : E.Physical) (s : Cds) (hs : ∀ i < E.n, s.intPot i = potential E s.charge i)
    (ops : List Op) (hops : ∀ o ∈ ops, o.Ok E) :
    (∀ i < E.n, (ops.foldl (Op.run E) s).intPot i = potential E (ops.foldl (Op.run E) s).charge i) ∧
      (ops ≠ [] → ((ops.foldl (Op.run E) s).valid = true ↔ Valid E (ops.foldl (Op.run E) s).charge)) := by
  have one : ∀ s o, Exact E s → o.Ok E → Exact E (Op.run E s o) ∧
      ((Op.run E s o).valid = true ↔ Valid E (Op.run E s o).charge) := by
    intro s o h ho
    cases o with
    | scratch c => exact ⟨Exact_neglect E _, validityCheck_iff E _ (Exact_neglect E _)⟩
    | history l => exact ⟨Exact_history E P l ho.1 ho.2 s h, validityCheck_iff E _ (Exact_history E P l ho.1 ho.2 s h)⟩
    | dependent three d =>
      exact ⟨Exact_dependent E P three d ho s h, validityCheck_iff E _ (Exact_dependent E P three d ho s h)⟩
  induction ops generalizing s with
  | nil => exact ⟨hs, fun h => absurd rfl h⟩
  | cons o ops ih =>
    obtain ⟨h1, h2⟩ := one s o hs (hops o (List.mem_cons_self ..))
    obtain ⟨h3, h4⟩ := ih (Op.run E s o) h1 fun o' ho' => hops o' (List.mem_cons_of_mem _ ho')
    refine ⟨h3, fun _ => ?_⟩
    cases ops with
    | nil => exact h2
    | cons o' ops' => exact h4 (by simp)

/-- The charges after an update are the requested ones. -/
theorem C37_history_charges (E : Env) (s : Cds) (l : List (Nat × Charge)) (hn : (l.map Prod.fst).Nodup) :
    (∀ k x, (k, x) ∈ l → (Op.run E s (.history l)).charge k = x) ∧
      ∀ k, k ∉ l.map Prod.fst → (Op.run E s (.history l)).charge k = s.charge k := by
  constructor
  · intro k x h
    simp [Op.run, applyChanges_set l hn s.charge h]
  · intro k h
    simp [Op.run, applyChanges_frame l s.charge k h]

/-- A sequence of Gray code words, each with its predecessor. -/
def grayRun (E : Env) (d : Nat) : Nat → List Nat → Cds → Cds
  | _, [], s => s
  | prev, w :: ws, s => grayRun E d w ws (assignGray E d w prev s)

/-- `w` and `w'` differ in at most one bit. -/
def OneBit (w w' : Nat) : Prop := w' = w ∨ ∃ t, ∀ j, w'.testBit j ≠ w.testBit j ↔ j = t

/-- After any sequence of Gray code words in which neighbours differ in at most one bit, the stored potentials
and the stored validity are those of the current charge distribution, and the charge distribution is that of
the last word on all SiDBs but the dependent one. -/
theorem C37_gray (E : Env) (P : E.Physical) (d : Nat) (hd : d < E.n) (s : Cds) (hmax : s.maxIndex = 2 ^ (E.n - 1) - 1)
    (hs : ∀ i < E.n, s.intPot i = potential E s.charge i) (w₀ : Nat) (hw₀ : w₀ < 2 ^ (E.n - 1)) (he : Encodes E.n d w₀ s.charge)
    (ws : List Nat) (hchain : List.IsChain OneBit (w₀ :: ws)) (hws : ∀ w ∈ ws, w < 2 ^ (E.n - 1)) :
    let s' := grayRun E d w₀ ws s
    (∀ i < E.n, s'.intPot i = potential E s'.charge i) ∧ Encodes E.n d ((w₀ :: ws).getLast (by simp)) s'.charge ∧
      (ws ≠ [] → (s'.valid = true ↔ Valid E s'.charge)) := by
  induction ws generalizing s w₀ with
  | nil => exact ⟨hs, he, fun h => absurd rfl h⟩
  | cons w ws ih =>
    have hw := hws w (List.mem_cons_self ..)
    rw [List.isChain_cons_cons] at hchain
    have hpos : 0 < 2 ^ (E.n - 1) := Nat.pow_pos (by omega)
    have step : Exact E (grayStep E d w w₀ { s with index := w }) ∧
        Encodes E.n d w (grayStep E d w w₀ { s with index := w }).charge := by
      rcases hchain.1 with rfl | ⟨t, ht⟩
      · rw [grayStep_same]; exact ⟨hs, he⟩
      · have htlt : t < E.n - 1 := by
          by_contra hge
          have : w.testBit t ≠ w₀.testBit t := (ht t).2 rfl
          have hp : 2 ^ (E.n - 1) ≤ 2 ^ t := Nat.pow_le_pow_right (by omega) (by omega)
          rw [Nat.testBit_lt_two_pow (lt_of_lt_of_le hw hp), Nat.testBit_lt_two_pow (lt_of_lt_of_le hw₀ hp)] at this
          exact this rfl
        have := grayStep_single E P d w w₀ t htlt ht { s with index := w } he hs
        exact ⟨this.1, this.2.1⟩
    have e : assignGray E d w w₀ s =
        validityCheck E (updateDependent E false d (grayStep E d w w₀ { s with index := w })) := by
      unfold assignGray; rw [if_pos (by omega)]
    have hx := Exact_dependent E P false d hd _ step.1
    obtain ⟨h1, h2, h3⟩ := ih (assignGray E d w w₀ s) (by rw [e]; simp [hmax]) (by rw [e]; exact hx) w hw
      (by rw [e]; exact Encodes_dependent E false E.n d w _ step.2) hchain.2 fun w' hw' => hws w' (List.mem_cons_of_mem _ hw')
    refine ⟨h1, by rw [List.getLast_cons (by simp)]; exact h2, fun _ => ?_⟩
    cases ws with
    | nil => simp only [grayRun]; rw [e]; exact validityCheck_iff E _ hx
    | cons w' ws' => exact h3 (by simp)

/-- The words visited by the Gray code iterator form such a sequence. -/
theorem C37_gray_words (k m : Nat) : List.IsChain OneBit ((List.range' k m).map gray) := by
  induction m generalizing k with
  | zero => simp
  | succ m ih =>
    rw [List.range'_succ, List.map_cons]
    cases m with
    | zero => simp
    | succ m =>
      have := ih (k + 1)
      rw [List.range'_succ, List.map_cons] at this ⊢
      rw [List.isChain_cons_cons]
      exact ⟨Or.inr (gray_succ k), this⟩

example : Encodes 3 0 3 (fun _ => .neg) ∧ List.IsChain OneBit [3, 1, 0, 2] ∧ ∀ w ∈ [1, 0, 2], w < 2 ^ (exampleEnv.n - 1) := by
  refine ⟨?_, ?_, ?_⟩
  · intro j hj
    have : j = 0 ∨ j = 1 := by omega
    rcases this with rfl | rfl <;> decide
  · rw [List.isChain_cons_cons, List.isChain_cons_cons, List.isChain_cons_cons]
    have aux : ∀ (a b t : Nat), a < 4 → b < 4 → t < 2 → (∀ j < 2, b.testBit j ≠ a.testBit j ↔ j = t) → OneBit a b := by
      intro a b t ha hb ht h
      refine Or.inr ⟨t, fun j => ?_⟩
      by_cases hj : j < 2
      · exact h j hj
      · have h4 : 4 ≤ 2 ^ j := by
          have := Nat.pow_le_pow_right (n := 2) (by omega) (show 2 ≤ j by omega)
          omega
        rw [Nat.testBit_lt_two_pow (by omega), Nat.testBit_lt_two_pow (by omega)]
        constructor
        · intro h; exact absurd rfl h
        · omega
    exact ⟨aux 3 1 1 (by omega) (by omega) (by omega) (by decide), aux 1 0 0 (by omega) (by omega) (by omega) (by decide),
      aux 0 2 1 (by omega) (by omega) (by omega) (by decide), by simp⟩
  · decide

example : (grayRun exampleEnv 0 3 [1, 0, 2] { initNegative exampleEnv 2 with maxIndex := 3 }).valid = true ∧
    (List.range 3).map (grayRun exampleEnv 0 3 [1, 0, 2] { initNegative exampleEnv 2 with maxIndex := 3 }).charge =
      [.neg, .neu, .neg] ∧
    (grayRun exampleEnv 0 3 [1, 0, 2] { initNegative exampleEnv 2 with maxIndex := 3 }).intPot 1 = -(51 / 100) := by
  decide +kernel

end Verif.Sidb
