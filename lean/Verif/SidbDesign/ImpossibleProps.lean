import Verif.SidbDesign.Impossible
import Verif.Sidb.Spec
import Mathlib.Algebra.Order.BigOperators.Group.Finset
import Mathlib.Tactic.Linarith
import Mathlib.Tactic.NormNum

/-!
# C100: impossible gate designs

## Specification
-/
namespace Verif.Impossible

open Verif.Sidb

/-- `E'` is `E` with further SiDBs; `f` are the new numbers of the SiDBs. -/
structure Extends (E E' : Env) (f : Nat → Nat) : Prop where
  lt : ∀ i < E.n, f i < E'.n
  defects : ∀ i < E.n, E'.defectPot (f i) = E.defectPot i
  ext : ∀ i < E.n, E'.ext (f i) = E.ext i
  mu : E'.muMinus = E.muMinus
  eps : E'.eps = E.eps

/-- The output pair `p` shows the value `b` in the charge distribution `c`: one SiDB of the pair is negative, which one depends
on the value and on the direction of the wire. -/
def Shows (c : Nat → Charge) (p : Nat × Nat) (direction b : Bool) : Prop :=
  if b = direction then c p.1 = .neg ∧ c p.2 ≠ .neg else c p.1 ≠ .neg ∧ c p.2 = .neg

/-- Some valid charge distribution of negative and neutral SiDBs shows the outputs of the specification, for each pattern. -/
def Works (patterns : Nat) (env : Nat → Env) (out : Nat → List (Nat × Nat)) (direction : Nat → Bool) (spec : Nat → Nat → Bool) : Prop :=
  ∀ k < patterns, ∃ c, Valid (env k) c ∧ (∀ i < (env k).n, c i ≠ .pos) ∧
    ∀ (o : Nat) (p : Nat × Nat), (out k)[o]? = some p → Shows c p (direction o) (spec o k)

/-- The outputs are at the same place in all patterns: defects and external potentials act on them alike. -/
structure SameOutputs (patterns : Nat) (env : Nat → Env) (out : Nat → List (Nat × Nat)) : Prop where
  inside : ∀ k < patterns, ∀ p ∈ out k, p.1 < (env k).n ∧ p.2 < (env k).n
  number : ∀ k < patterns, ∀ k' < patterns, (out k).length = (out k').length
  same : ∀ k < patterns, ∀ k' < patterns, ∀ (o : Nat) (p p' : Nat × Nat), (out k)[o]? = some p → (out k')[o]? = some p' →
    (env k).defectPot p.1 = (env k').defectPot p'.1 ∧ (env k).defectPot p.2 = (env k').defectPot p'.2 ∧
    (env k).ext p.1 = (env k').ext p'.1 ∧ (env k).ext p.2 = (env k').ext p'.2
  mu : ∀ k < patterns, ∀ k' < patterns, (env k).muMinus = (env k').muMinus ∧ (env k).eps = (env k').eps

/-! ## Lemmas -/

theorem sumTo_zero (n : Nat) (f : Nat → Rat) (h : ∀ i, f i = 0) : sumTo n f = 0 := by
  induction n with
  | zero => rfl
  | succ n ih => rw [sumTo, ih, h, zero_add]

theorem forcedNeutral_iff (E : Env) (i : Nat) : forcedNeutral E i = true ↔ E.ext i - E.muMinus - E.eps < -E.defectPot i := by
  unfold forcedNeutral Env.fromScratch Env.neuLB
  rw [decide_eq_true_eq, sumTo_zero _ _ (fun j => by simp [Charge.sign])]
  simp

/-- An SiDB beyond the error margin is never negative. -/
theorem never_negative {E E' : Env} {f : Nat → Nat} (hx : Extends E E' f) (hp : E'.Physical) {i : Nat} (hi : i < E.n)
    (hd : E.ext i - E.muMinus + E.eps ≤ -E.defectPot i) {c : Nat → Charge} (hc : Valid E' c) (hn : ∀ j < E'.n, c j ≠ .pos) :
    c (f i) ≠ .neg := by
  intro he
  have h1 := (hc.1 (f i) (hx.lt i hi)).1 he
  have h2 : ∑ j ∈ Finset.range E'.n, E'.pot (f i) j * ((c j).sign : Rat) ≤ 0 := by
    apply Finset.sum_nonpos
    intro j hj
    have h3 := hn j (Finset.mem_range.1 hj)
    have h4 := hp.nonneg (f i) j
    cases hcj : c j with
    | pos => exact absurd hcj h3
    | neu => simp [Charge.sign]
    | neg => simp [Charge.sign, h4]
  unfold potential at h1
  rw [hx.ext i hi, hx.mu, hx.eps, hx.defects i hi] at h1
  linarith

/-! ## Theorems -/

/-- C100. If a gate design is reported to be impossible, some output SiDB is not negative in any valid charge distribution, for
any pattern and any canvas. Missing: positively charged SiDBs and SiDBs within the error margin, see `C100_false_positive` and
`C100_false_margin`. -/
theorem C100_never_negative_partial (patterns : Nat) (env : Nat → Env) (out : Nat → List (Nat × Nat))
    (hs : SameOutputs patterns env out)
    (hm : ∀ k < patterns, ∀ p ∈ out k, ∀ i : Nat, i = p.1 ∨ i = p.2 →
      (env k).ext i - (env k).muMinus - (env k).eps < -(env k).defectPot i →
      (env k).ext i - (env k).muMinus + (env k).eps ≤ -(env k).defectPot i)
    (hi : impossible patterns env out = true) :
    ∃ o : Nat, (∃ p, (out 0)[o]? = some p) ∧ ∃ lower : Bool, ∀ k < patterns, ∀ p : Nat × Nat, (out k)[o]? = some p →
      ∀ E' f, Extends (env k) E' f → E'.Physical → ∀ c, Valid E' c → (∀ j < E'.n, c j ≠ .pos) →
        c (f (if lower then p.1 else p.2)) ≠ .neg := by
  unfold impossible at hi
  rw [List.any_eq_true] at hi
  obtain ⟨k, hk, hi⟩ := hi
  rw [List.mem_range] at hk
  rw [List.any_eq_true] at hi
  obtain ⟨p, hp, hi⟩ := hi
  obtain ⟨o, ho, he⟩ := List.getElem_of_mem hp
  have hpo : (out k)[o]? = some p := by rw [List.getElem?_eq_getElem ho, he]
  have h0 : 0 < patterns := by omega
  refine ⟨o, ⟨(out 0)[o]'(by rw [hs.number 0 h0 k hk]; exact ho), List.getElem?_eq_getElem _⟩, ?_⟩
  rw [Bool.or_eq_true, forcedNeutral_iff, forcedNeutral_iff] at hi
  rcases hi with hi | hi
  · refine ⟨true, fun k' hk' p' hp' E' f hx hph c hc hn => ?_⟩
    obtain ⟨s1, -, s3, -⟩ := hs.same k hk k' hk' o p p' hpo hp'
    obtain ⟨m1, m2⟩ := hs.mu k hk k' hk'
    have := hm k hk p hp _ (Or.inl rfl) hi
    rw [s1, s3, m1, m2] at this
    exact never_negative hx hph (hs.inside k' hk' p' (List.mem_of_getElem? hp')).1 this hc hn
  · refine ⟨false, fun k' hk' p' hp' E' f hx hph c hc hn => ?_⟩
    obtain ⟨-, s2, -, s4⟩ := hs.same k hk k' hk' o p p' hpo hp'
    obtain ⟨m1, m2⟩ := hs.mu k hk k' hk'
    have := hm k hk p hp _ (Or.inr rfl) hi
    rw [s2, s4, m1, m2] at this
    exact never_negative hx hph (hs.inside k' hk' p' (List.mem_of_getElem? hp')).2 this hc hn

/-- C100. Then no canvas makes the gate work, unless an output is constant. Missing, besides the above: constant outputs, see
`C100_false_constant`. -/
theorem C100_sound_partial (patterns : Nat) (env env' : Nat → Env) (f : Nat → Nat → Nat) (out : Nat → List (Nat × Nat))
    (hs : SameOutputs patterns env out)
    (hm : ∀ k < patterns, ∀ p ∈ out k, ∀ i : Nat, i = p.1 ∨ i = p.2 →
      (env k).ext i - (env k).muMinus - (env k).eps < -(env k).defectPot i →
      (env k).ext i - (env k).muMinus + (env k).eps ≤ -(env k).defectPot i)
    (hi : impossible patterns env out = true) (hx : ∀ k < patterns, Extends (env k) (env' k) (f k))
    (hp : ∀ k < patterns, (env' k).Physical) (direction : Nat → Bool) (spec : Nat → Nat → Bool)
    (hv : ∀ o < (out 0).length, ∃ k < patterns, ∃ k' < patterns, spec o k ≠ spec o k') :
    ¬ Works patterns env' (fun k => (out k).map (fun p => (f k p.1, f k p.2))) direction spec := by
  intro hw
  obtain ⟨o, ⟨p0, hp0⟩, lower, h⟩ := C100_never_negative_partial patterns env out hs hm hi
  have ho := (List.getElem?_eq_some_iff.1 hp0).1
  obtain ⟨k1, hk1, k2, hk2, hne⟩ := hv o ho
  have key : ∀ k < patterns, ∀ b, spec o k = b → b ≠ (if lower then direction o else !direction o) := by
    intro k hk b hb he
    have h0 : 0 < patterns := by omega
    obtain ⟨c, c1, c2, c3⟩ := hw k hk
    have hok : o < (out k).length := by rw [← hs.number 0 h0 k hk]; exact ho
    have hpk := List.getElem?_eq_getElem hok
    have hsh := c3 o (f k ((out k)[o]).1, f k ((out k)[o]).2) (by rw [List.getElem?_map, hpk]; rfl)
    have hnn := h k hk _ hpk (env' k) (f k) (hx k hk) (hp k hk) c c1 c2
    rw [hb, he] at hsh
    unfold Shows at hsh
    cases lower with
    | true => rw [if_pos (by simp)] at hsh; exact hnn hsh.1
    | false => rw [if_neg (by simp)] at hsh; exact hnn hsh.2
  have e1 := key k1 hk1 _ rfl
  have e2 := key k2 hk2 _ rfl
  revert e1 e2 hne
  generalize (if lower then direction o else !direction o) = d
  cases spec o k1 <;> cases spec o k2 <;> cases d <;> simp

/-- C100. Otherwise every output SiDB would be negative on its own: as the only charged SiDB, it meets population stability. -/
theorem C100_complete (patterns : Nat) (env : Nat → Env) (out : Nat → List (Nat × Nat)) (hp : ∀ k < patterns, (env k).Physical)
    (he : ∀ k < patterns, 0 < (env k).eps) (hi : impossible patterns env out = false) (k : Nat) (hk : k < patterns) (p : Nat × Nat)
    (ho : p ∈ out k) (i : Nat) (h : i = p.1 ∨ i = p.2) :
    Populated (env k) (fun j => if j = i then .neg else .neu) i := by
  have hf : forcedNeutral (env k) i = false := by
    unfold impossible at hi
    rw [List.any_eq_false] at hi
    have h1 := hi k (List.mem_range.2 hk)
    rw [Bool.not_eq_true, List.any_eq_false] at h1
    have h2 := h1 p ho
    rw [Bool.not_eq_true, Bool.or_eq_false_iff] at h2
    rcases h with rfl | rfl
    · exact h2.1
    · exact h2.2
  have hd : ¬ (env k).ext i - (env k).muMinus - (env k).eps < -(env k).defectPot i := by
    rw [← forcedNeutral_iff, hf]; simp
  have hpot : potential (env k) (fun j => if j = i then .neg else .neu) i = (env k).defectPot i := by
    unfold potential
    rw [Finset.sum_eq_zero, add_zero]
    intro j _
    dsimp only
    by_cases hj : j = i
    · subst hj; rw [(hp k hk).diag, zero_mul]
    · rw [if_neg hj]; simp [Charge.sign]
  have heps := he k hk
  unfold Populated
  dsimp only
  rw [hpot, if_pos rfl]
  refine ⟨fun _ => by linarith, fun hh => by simp at hh, fun hh => by simp at hh⟩

/-! ## Disagreements and examples -/

/-- Two SiDBs with the potential `v` between them, a defect potential `d` at the first, and the usual transition levels. -/
def two (d v : Rat) : Env :=
  { n := 2, pot := fun i j => if i = j then 0 else v, defectPot := fun i => if i = 0 then d else 0, ext := fun _ => 0,
    muMinus := -1 / 4, muPlus := -3 / 4, eps := 1 / 1000 }

def charges (a b : Charge) : Nat → Charge := fun i => if i = 0 then a else b

theorem potential_two (d v : Rat) (a b : Charge) : potential (two d v) (charges a b) 0 = d + v * b.sign ∧
    potential (two d v) (charges a b) 1 = v * a.sign := by
  unfold potential two charges
  constructor <;> simp [Finset.sum_range_succ]

theorem valid_two {d v : Rat} {a b : Charge}
    (h0 : Populated (two d v) (charges a b) 0) (h1 : Populated (two d v) (charges a b) 1)
    (h2 : NoHop (two d v) (charges a b) 0 1) (h3 : NoHop (two d v) (charges a b) 1 0) : Valid (two d v) (charges a b) := by
  have hn : (two d v).n = 2 := rfl
  refine ⟨fun i hi => ?_, fun i hi j hj => ?_⟩
  · rw [hn] at hi
    obtain rfl | rfl : i = 0 ∨ i = 1 := by omega
    · exact h0
    · exact h1
  · rw [hn] at hi hj
    obtain rfl | rfl : i = 0 ∨ i = 1 := by omega
    · obtain rfl | rfl : j = 0 ∨ j = 1 := by omega
      · intro hh; exact absurd hh (lt_irrefl _)
      · exact h2
    · obtain rfl | rfl : j = 0 ∨ j = 1 := by omega
      · exact h3
      · intro hh; exact absurd hh (lt_irrefl _)

/-- C100 is false within the error margin: the code compares with the lower bound of neutral SiDBs instead of the upper bound
of negative ones. -/
theorem C100_false_margin : impossible 1 (fun _ => two (-1 / 4) 0) (fun _ => [(0, 1)]) = true ∧
    Valid (two (-1 / 4) 0) (charges .neg .neg) := by
  refine ⟨by decide +kernel, valid_two ?_ ?_ ?_ ?_⟩
  · unfold Populated; rw [(potential_two _ _ _ _).1]; norm_num [two, charges, Charge.sign]; try decide
  · unfold Populated; rw [(potential_two _ _ _ _).2]; norm_num [two, charges, Charge.sign]; try decide
  · intro hh; simp [charges] at hh
  · intro hh; simp [charges] at hh

/-- C100 is false with positively charged SiDBs: next to one, the SiDB is negative after all. -/
theorem C100_false_positive : impossible 1 (fun _ => two (-1 / 2) 1) (fun _ => [(0, 1)]) = true ∧
    Valid (two (-1 / 2) 1) (charges .neg .pos) := by
  refine ⟨by decide +kernel, valid_two ?_ ?_ ?_ ?_⟩
  · unfold Populated; rw [(potential_two _ _ _ _).1]; norm_num [two, charges, Charge.sign]; try decide
  · unfold Populated; rw [(potential_two _ _ _ _).2]; norm_num [two, charges, Charge.sign]; try decide
  · intro _; rw [(potential_two _ _ _ _).1, (potential_two _ _ _ _).2]; norm_num [two, charges, Charge.sign]
  · intro hh; simp [charges, Charge.sign] at hh

/-- C100 is false of constant outputs: the first SiDB of the pair is never negative, and never has to be. -/
theorem C100_false_constant : impossible 1 (fun _ => two (-1 / 2) 0) (fun _ => [(0, 1)]) = true ∧
    Works 1 (fun _ => two (-1 / 2) 0) (fun _ => [(0, 1)]) (fun _ => true) (fun _ _ => false) := by
  refine ⟨by decide +kernel, fun k _ => ⟨charges .neu .neg, valid_two ?_ ?_ ?_ ?_, ?_, ?_⟩⟩
  · unfold Populated; rw [(potential_two _ _ _ _).1]; norm_num [two, charges, Charge.sign]; try decide
  · unfold Populated; rw [(potential_two _ _ _ _).2]; norm_num [two, charges, Charge.sign]; try decide
  · intro hh; simp [charges, Charge.sign] at hh
  · intro _; rw [(potential_two _ _ _ _).1, (potential_two _ _ _ _).2]; norm_num [two, charges, Charge.sign]
  · intro i _; unfold charges; split <;> simp
  · intro o p hp
    match o, hp with
    | 0, hp => cases hp; simp [Shows, charges]

/-- The hypotheses of the theorems are met. -/
example : SameOutputs 2 (fun _ => two (-1 / 2) (1 / 8)) (fun _ => [(0, 1)]) :=
  ⟨by intro k _ p hp; simp at hp; subst hp; simp [two], fun _ _ _ _ => rfl,
   by intro k _ k' _ o p p' hp hp'; rw [hp] at hp'; cases hp'; simp [two], fun _ _ _ _ => ⟨rfl, rfl⟩⟩

example : ∀ k < 2, ∀ p ∈ (fun _ => [(0, 1)] : Nat → List (Nat × Nat)) k, ∀ i : Nat, i = p.1 ∨ i = p.2 →
    (two (-1 / 2) (1 / 8)).ext i - (two (-1 / 2) (1 / 8)).muMinus - (two (-1 / 2) (1 / 8)).eps < -(two (-1 / 2) (1 / 8)).defectPot i →
    (two (-1 / 2) (1 / 8)).ext i - (two (-1 / 2) (1 / 8)).muMinus + (two (-1 / 2) (1 / 8)).eps ≤ -(two (-1 / 2) (1 / 8)).defectPot i := by
  intro k _ p hp i hi
  simp only [List.mem_singleton] at hp
  subst hp
  rcases hi with rfl | rfl <;> norm_num [two]

example : impossible 2 (fun _ => two (-1 / 2) (1 / 8)) (fun _ => [(0, 1)]) = true ∧
    impossible 2 (fun _ => two (-1 / 8) (1 / 8)) (fun _ => [(0, 1)]) = false := by decide +kernel

example : Extends (two (-1 / 2) (1 / 8)) (two (-1 / 2) (1 / 8)) id ∧ (two (-1 / 2) (1 / 8)).Physical :=
  ⟨⟨fun _ h => h, fun _ _ => rfl, fun _ _ => rfl, rfl, rfl⟩,
   ⟨fun i j => by simp [two, eq_comm], fun i => by simp [two], fun i j => by simp only [two]; split <;> norm_num, by norm_num [two],
    by norm_num [two]⟩⟩

end Verif.Impossible
