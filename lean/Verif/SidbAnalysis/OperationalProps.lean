import Verif.SidbAnalysis.OperationalLemmas
import Verif.SidbAnalysis.BdlProps
import Verif.Sidb.ExgsProps
import Verif.Sidb.ForcedProps

/-!
# C69: operational status of SiDB gates
-/
namespace Verif.SidbAnalysis.Operational

open Verif.Sidb Verif.SidbAnalysis.Bdl

variable {α : Type} [DecidableEq α]

/-- Without the filter, the status is operational if and only if the layout computes the function under every input
pattern. -/
theorem C69_simulation {g : Gate α} (hg : g.Ok) (prm : Params) (I : Nat → Instance α) (hf : filtering g prm = false) :
    ∃ st r, run g prm I = some (st, r) ∧ (st = .operational ↔ ∀ i < g.bits, Works g prm (I i) i) := by
  have e : run g prm I = simulate g prm I (List.range g.bits) := by simp [run, hf]
  rw [e]
  rcases simulate_spec hg prm I (List.range g.bits) with ⟨h1, h2⟩ | ⟨r, i, pre, post, h1, h2, h3, h4⟩
  · exact ⟨_, _, h1, by simpa using h2⟩
  · refine ⟨_, _, h1, ?_⟩
    simp only [reduceCtorEq, false_iff]
    intro h
    refine h4.not_works (h i ?_)
    have : i ∈ List.range g.bits := by rw [h2]; simp
    exact List.mem_range.1 this

/-- The reason given for a failure is that of the first input pattern under which the layout does not compute the
function. -/
theorem C69_reason {g : Gate α} (hg : g.Ok) (prm : Params) (I : Nat → Instance α) (hf : filtering g prm = false)
    (r : Reason) (h : run g prm I = some (.nonOperational, r)) :
    ∃ i < g.bits, (∀ j < i, Works g prm (I j) j) ∧ ¬ Works g prm (I i) i ∧
      match r with
      | .positive => prm.base = 2 ∧ (I i).positive = true
      | .logicMismatch => (I i).found = false ∨ ∃ c ∈ (I i).ground, ¬ OutputsCorrect g c i
      | .kinks => prm.rejectKinks = true ∧ ∃ c ∈ (I i).ground, OutputsCorrect g c i ∧ ¬ NoKinks g c i
      | .none => False := by
  have e : run g prm I = simulate g prm I (List.range g.bits) := by simp [run, hf]
  rw [e] at h
  rcases simulate_spec hg prm I (List.range g.bits) with ⟨h1, h2⟩ | ⟨r', i, pre, post, h1, h2, h3, h4⟩
  · rw [h] at h1; simp at h1
  · rw [h] at h1
    obtain rfl : r = r' := by simpa using h1
    have hi : i = pre.length := by
      have := congrArg (fun l => l[pre.length]?) h2
      simp only [List.getElem?_append_right (Nat.le_refl _), Nat.sub_self, List.getElem?_cons_zero] at this
      obtain ⟨_, hh⟩ := List.getElem?_eq_some_iff.1 this
      simpa using hh.symm
    have hlen : pre.length < g.bits := by
      have := congrArg List.length h2; simp at this; omega
    refine ⟨i, by omega, ?_, h4.not_works, ?_⟩
    · intro j hj
      refine h3 j ?_
      have := congrArg (fun l => l[j]?) h2
      simp only [List.getElem?_append_left (show j < pre.length by omega)] at this
      rw [List.getElem?_range (by omega)] at this
      exact List.mem_of_getElem? this.symm
    · cases r <;> exact h4

/-- Under the conditions on the filter, filtering first does not change the status, and what the filter alone rejects is
not operational. The full property, without these conditions, is false: see `C69_false_filter`. -/
theorem C69_filter_partial {g : Gate α} (hg : g.Ok) (hw : g.WiresOk) (prm : Params) (heps : 0 ≤ prm.eps)
    (I : Nat → Instance α) (cells : Nat → List α)
    (hf : ∀ i < g.bits, FilterConditions g (I i) (cells i)) :
    (run g { prm with strategy := .filterThenSimulation } I).map Prod.fst =
      (run g { prm with strategy := .simulationOnly } I).map Prod.fst ∧
    ((run g { prm with strategy := .filterOnly } I).map Prod.fst = some .nonOperational →
      (run g { prm with strategy := .simulationOnly } I).map Prod.fst = some .nonOperational) := by
  obtain ⟨st, r, hs, hiff⟩ := C69_simulation hg { prm with strategy := .simulationOnly } I (by simp [filtering])
  have works_eq : ∀ s i, Works g { prm with strategy := s } (I i) i ↔
      Works g { prm with strategy := .simulationOnly } (I i) i := fun s i => Iff.rfl
  have sim_eq : ∀ s, simulate g { prm with strategy := s } I (List.range g.bits) =
      simulate g { prm with strategy := .simulationOnly } I (List.range g.bits) := by
    intro s
    have hv : ∀ b c i, verify g { prm with strategy := s } b c i = verify g { prm with strategy := .simulationOnly } b c i :=
      fun _ _ _ => rfl
    have hg' : ∀ b i l, groundLoop g { prm with strategy := s } b i l =
        groundLoop g { prm with strategy := .simulationOnly } b i l := by
      intro b i l
      induction l with
      | nil => rfl
      | cons c l ih => simp only [groundLoop, hv, ih]
    generalize List.range g.bits = l
    induction l with
    | nil => rfl
    | cons i l ih => simp only [simulate, hg', ih]
  have sim_only : run g { prm with strategy := .simulationOnly } I =
      simulate g { prm with strategy := .simulationOnly } I (List.range g.bits) := by simp [run, filtering]
  -- a rejection by the filter implies a failing input pattern
  have reject : ∀ s, filtering g { prm with strategy := s } = true →
      ((List.range g.bits).any fun i => layoutInvalid g { prm with strategy := s } (I i) i) = true →
      st = .nonOperational := by
    intro s hfil hany
    obtain ⟨i, hi, hinv⟩ := List.any_eq_true.1 hany
    rw [List.mem_range] at hi
    simp only [filtering, Bool.and_eq_true, Bool.not_eq_true', List.isEmpty_eq_false_iff] at hfil
    cases st with
    | nonOperational => rfl
    | operational =>
      have := layoutInvalid_false (prm := { prm with strategy := s }) hw hfil.1.1 hfil.2 heps (hf i hi)
        ((works_eq s i).2 (hiff.1 rfl i hi))
      rw [this] at hinv; exact absurd hinv (by simp)
  constructor
  · rw [hs]
    unfold run
    by_cases hfil : filtering g { prm with strategy := .filterThenSimulation } = true
    · by_cases hany : ((List.range g.bits).any fun i =>
          layoutInvalid g { prm with strategy := .filterThenSimulation } (I i) i) = true
      · rw [hfil, hany]; simp [reject _ hfil hany]
      · rw [hfil, Bool.not_eq_true _ |>.mp hany]
        simp only [Bool.true_and, Bool.false_eq_true, if_false, reduceCtorEq, false_and]
        rw [sim_eq, ← sim_only, hs]
    · rw [Bool.not_eq_true _ |>.mp hfil]
      simp only [Bool.false_and, Bool.false_eq_true, if_false, reduceCtorEq, false_and]
      rw [sim_eq, ← sim_only, hs]
  · intro h
    rw [hs]
    unfold run at h
    by_cases hfil : filtering g { prm with strategy := .filterOnly } = true
    · by_cases hany : ((List.range g.bits).any fun i =>
          layoutInvalid g { prm with strategy := .filterOnly } (I i) i) = true
      · simp [reject _ hfil hany]
      · rw [hfil, Bool.not_eq_true _ |>.mp hany] at h
        simp at h
    · rw [Bool.not_eq_true _ |>.mp hfil] at h
      simp only [Bool.false_and, Bool.false_eq_true, if_false, and_false] at h
      rw [sim_eq, ← sim_only, hs] at h
      simpa using h

theorem mapM_some {β γ : Type} (f : β → Option γ) (h : β → γ) : ∀ (l : List β), (∀ a ∈ l, f a = some (h a)) →
    l.mapM f = some (l.map h)
  | [], _ => rfl
  | a :: l, hh => by
    rw [List.mapM_cons, hh a (.head _), mapM_some f h l fun b hb => hh b (.tail _ hb)]; rfl

omit [DecidableEq α] in
/-- An input pattern is listed as operational if and only if the layout computes the function under it, provided the
simulation finds a charge distribution. The full property, without this provision, is false: see
`C69_false_patterns`. -/
theorem C69_patterns_partial {g : Gate α} (hg : g.Ok) (prm : Params) (I : Nat → Instance α)
    (hfound : ∀ i < g.bits, (I i).found = true) :
    ∃ l, operationalPatterns g prm I = some l ∧ l.Pairwise (· < ·) ∧
      ∀ i, i ∈ l ↔ i < g.bits ∧ Works g prm (I i) i := by
  classical
  have hpat : ∀ i < g.bits, ∃ rs, patternReasons g prm (I i) i = some rs ∧ (rs = [] ↔ Works g prm (I i) i) := by
    intro i hi
    unfold patternReasons
    by_cases hp : prm.base = 2 ∧ (I i).positive = true
    · rw [if_pos hp]; exact ⟨_, rfl, by simp only [List.cons_ne_nil, false_iff]; exact fun h => h.1 hp⟩
    · rw [if_neg hp, if_neg (by rw [hfound i hi]; simp)]
      have hv : ∀ c ∈ (I i).ground, verify g prm (I i).positive c i =
          some ((verify g prm (I i).positive c i).getD (.operational, .none)) := by
        intro c _
        obtain ⟨r, hr, _⟩ := verify_spec hg prm (I i).positive c i
        rw [hr]; rfl
      rw [mapM_some _ _ _ hv]
      refine ⟨_, rfl, ?_⟩
      rw [List.map_eq_nil_iff, List.filter_eq_nil_iff]
      constructor
      · intro h
        refine ⟨hp, hfound i hi, fun c hc => ?_⟩
        obtain ⟨r, hr, _, h3⟩ := verify_spec hg prm (I i).positive c i
        have := h _ (List.mem_map.2 ⟨c, hc, rfl⟩)
        rw [hr] at this
        rcases h3 hp with ⟨_, rfl⟩ | ⟨_, _, _, rfl⟩ | ⟨h1, h2, rfl⟩
        · simp at this
        · simp at this
        · exact ⟨h1, h2⟩
      · rintro ⟨_, _, h⟩ r hr
        obtain ⟨c, hc, rfl⟩ := List.mem_map.1 hr
        obtain ⟨r, hr, _, h3⟩ := verify_spec hg prm (I i).positive c i
        rw [hr]
        rcases h3 hp with ⟨h1, rfl⟩ | ⟨_, hk, h1, rfl⟩ | ⟨h1, h2, rfl⟩
        · exact absurd (h c hc).1 h1
        · exact absurd ((h c hc).2 hk) h1
        · simp
  have hpat' : ∀ i ∈ List.range g.bits, patternReasons g prm (I i) i =
      some ((patternReasons g prm (I i) i).getD []) := by
    intro i hi
    obtain ⟨rs, hr, _⟩ := hpat i (List.mem_range.1 hi)
    rw [hr]; rfl
  unfold operationalPatterns
  rw [mapM_some _ _ _ hpat']
  refine ⟨_, rfl, List.pairwise_lt_range.filter _, fun i => ?_⟩
  rw [List.mem_filter, List.mem_range, decide_eq_true_eq]
  refine and_congr_right fun hi => ?_
  obtain ⟨rs, hr, hiff⟩ := hpat i hi
  rw [List.getElem?_map, List.getElem?_range hi]
  simp only [Option.map_some, hr, Option.getD_some, Option.some.injEq]
  exact hiff

/-! ## The conditions on the filter for simulated layouts -/

theorem surface_exact (E : Env) (c : Dist Nat) : Exact E (surface E c) := fun i _ => by
  simp [surface, updateNeglect, fromScratch_eq]

theorem energy_congr (E : Env) {c c' : Dist Nat} (h : ∀ a ∈ List.range E.n, c a = c' a) :
    recomputeEnergy E (surface E c) = recomputeEnergy E (surface E c') := by
  have h' : ∀ i < E.n, c i = c' i := fun i hi => h i (List.mem_range.2 hi)
  unfold recomputeEnergy
  simp only [sumTo_eq, surface, updateNeglect, fromScratch_eq, potential_congr E h']
  congr 1
  · exact Finset.sum_congr rfl fun i hi => by rw [h' i (Finset.mem_range.1 hi)]
  · congr 2 <;> exact Finset.sum_congr rfl fun i hi => by rw [h' i (Finset.mem_range.1 hi)]

theorem exists_min (f : Dist Nat → Rat) : ∀ l : List (Dist Nat), l ≠ [] → ∃ c ∈ l, ∀ c' ∈ l, f c ≤ f c'
  | [c], _ => ⟨c, .head _, by simp⟩
  | c :: d :: l, _ => by
    obtain ⟨m, hm, h⟩ := exists_min f (d :: l) (by simp)
    rcases le_total (f c) (f m) with hle | hle
    · refine ⟨c, .head _, fun c' hc' => ?_⟩
      rcases List.mem_cons.1 hc' with rfl | hc'
      · exact le_refl _
      · exact le_trans hle (h c' hc')
    · refine ⟨m, .tail _ hm, fun c' hc' => ?_⟩
      rcases List.mem_cons.1 hc' with rfl | hc'
      · exact hle
      · exact h c' hc'

/-- For exhaustively simulated layouts in which no positive charges can occur, the conditions on the filter come down to
this: in the ground states, the dots outside of the canvas and of the wires are negatively charged, and the potential
at the first dot of the canvas is not within the error margin of a transition level. -/
theorem C69_filter_conditions {g : Gate Nat} {E : Env} (P : E.Physical) (heps : 0 < E.eps) (hn : 0 < E.n) (d : Nat)
    (hd : g.canvas.head? = some d) (hdn : d < E.n) (hpos : canPositiveOccur E = false)
    (hout : ∀ c ∈ (Instance.ofEnv E d).ground, ∀ a < E.n, a ∉ g.canvas → ¬ g.OnWire a → c a = .neg)
    (hoff : ∀ c ∈ (Instance.ofEnv E d).ground, OffMargin E c d) :
    FilterConditions g (Instance.ofEnv E d) (List.range E.n) := by
  have hvalid : ∀ c, (Instance.ofEnv E d).valid c = true ↔ Valid E c := fun c => validityCheck_iff E _ (surface_exact E c)
  refine ⟨?_, fun c c' h => energy_congr E h, ?_⟩
  · intro c c' h
    rw [Bool.eq_iff_iff, hvalid, hvalid]
    exact Valid_congr E fun i hi => h i (List.mem_range.2 hi)
  · intro hfound
    obtain ⟨res, hres, _, hmem⟩ := C36_exact E 2 (.inl rfl) hn
    have hne : (res.map ofList) ≠ [] := by
      intro h
      simp [Instance.ofEnv, hres, h] at hfound
    obtain ⟨gs, hgs, hmin⟩ := exists_min (fun c => recomputeEnergy E (surface E c)) (res.map ofList) hne
    have hground : gs ∈ (Instance.ofEnv E d).ground := by
      simp only [Instance.ofEnv, hres, Option.getD_some, List.mem_filter, List.all_eq_true, decide_eq_true_eq]
      exact ⟨hgs, fun c' hc' => by have := hmin c' hc'; linarith⟩
    obtain ⟨l, hl, hlgs⟩ := List.mem_map.1 hgs
    obtain ⟨hlen, hadm, hval⟩ := (hmem l).1 hl
    rw [hlgs] at hval
    have htwo : ∀ a < E.n, gs a ≠ .pos := by
      intro a ha hp
      have : l[a]'(by omega) = .pos := by
        rw [← hlgs] at hp; simpa [ofList, List.getD_eq_getElem?_getD, List.getElem?_eq_getElem (show a < l.length by omega)] using hp
      rcases hadm _ (List.getElem_mem (show a < l.length by omega)) with h | h | ⟨_, h⟩
      · rw [this] at h; simp at h
      · rw [this] at h; simp at h
      · omega
    refine ⟨gs, hground, (hvalid gs).2 hval, ?_, fun a ha _ => htwo a (List.mem_range.1 ha),
      fun a ha => hout gs hground a (List.mem_range.1 ha), ?_⟩
    · intro c' hc'
      have hv := (hvalid c').1 hc'
      have hc'2 := C38_no_positive E P hpos c' hv
      -- the charges of `c'` are one of the results
      have hl' : (List.range E.n).map c' ∈ res := by
        refine (hmem _).2 ⟨by simp, ?_, ?_⟩
        · intro x hx
          obtain ⟨a, ha, rfl⟩ := List.mem_map.1 hx
          have := hc'2 a (List.mem_range.1 ha)
          unfold Admissible
          cases h : c' a
          · exact .inl rfl
          · exact .inr (.inl rfl)
          · exact absurd h this
        · refine (Valid_congr E fun i hi => ?_).1 hv
          simp [ofList, List.getD_eq_getElem?_getD, hi]
      have := hmin _ (List.mem_map.2 ⟨_, hl', rfl⟩)
      have e : recomputeEnergy E (surface E (ofList ((List.range E.n).map c'))) = recomputeEnergy E (surface E c') := by
        refine energy_congr E fun a ha => ?_
        simp [ofList, List.getD_eq_getElem?_getD, List.mem_range.1 ha]
      simp only [e] at this
      exact this
    · intro d' hd' c' hag a ha
      rw [hd] at hd'
      obtain rfl : d = d' := Option.some.inj hd'
      have hpot : (surface E c').intPot d = potential E gs d := by
        simp only [surface, updateNeglect, fromScratch_eq]
        unfold potential
        congr 1
        refine Finset.sum_congr rfl fun j hj => ?_
        by_cases hjd : j = d
        · rw [hjd, P.diag]; simp
        · rw [hag j (List.mem_range.2 (Finset.mem_range.1 hj)) hjd]
      have hle : -potential E gs d ≤ E.posLB d := by
        have h1 : ¬ (-E.fromScratch (fun _ => .neg) d > E.posLB d) := by
          intro h
          have : canPositiveOccur E = true := by
            simp only [canPositiveOccur, List.any_eq_true, List.mem_range, decide_eq_true_eq]
            exact ⟨d, hdn, h⟩
          rw [hpos] at this; exact absurd this (by simp)
        rw [fromScratch_eq] at h1
        have := potential_mono E P (c := fun _ => .neg) (c' := gs) (fun j _ => sign_neg_le _) d
        linarith
      have hch : ∀ new : Charge, (if (surface E c').charge d ≠ new then
          ({ surface E c' with
            charge := setAt (surface E c').charge d new
            intPot := fun i => if i ≠ d then (surface E c').intPot i + E.pot i d * ((-((surface E c').charge d).sign + new.sign : Int) : Rat) else (surface E c').intPot i } : Cds)
          else surface E c').charge a = if a = d then new else c' a := by
        intro new
        have hs : (surface E c').charge = c' := rfl
        rw [hs]
        by_cases hcd : c' d = new
        · simp only [hcd, ne_eq, not_true, if_false, hs]
          split_ifs with had
          · rw [had, hcd]
          · rfl
        · simp only [ne_eq, hcd, not_false_iff, if_true, setAt]
      have hpop := hval.1 d hdn
      have hoff' := hoff gs hground
      unfold Populated at hpop
      unfold OffMargin at hoff'
      simp only at hpop hoff'
      show (updateDependent E false d (surface E c')).charge a = gs a
      unfold updateDependent
      simp only [hpot]
      cases hgd : gs d with
      | neg =>
        rw [if_pos (show -potential E gs d < E.negUB d from hpop.1 hgd)]
        rw [hch]
        split_ifs with had
        · rw [had, hgd]
        · exact hag a ha had
      | neu =>
        have h2 := hpop.2.1 hgd
        rw [if_neg (show ¬ -potential E gs d < E.negUB d from fun h => hoff'.1 ⟨h2.1, h⟩),
          if_neg (show ¬ -potential E gs d > E.posLB d from not_lt.2 hle), hch]
        split_ifs with had
        · rw [had, hgd]
        · exact hag a ha had
      | pos => exact absurd hgd (htwo d hdn)

/-! ## Examples -/

namespace Example

/-- Symmetric potentials from a list. -/
def potOf (l : List (Nat × Nat × Rat)) (i j : Nat) : Rat :=
  ((l.find? fun e => decide ((e.1 = i ∧ e.2.1 = j) ∨ (e.1 = j ∧ e.2.1 = i))).map fun e => e.2.2).getD 0

/-- A gate of an output pair (dots 0 and 1), a dot of the canvas (2) and a perturber (3) that is closer to the output
pair if the input is one. -/
def wireEnv (one : Bool) : Env where
  n := 4
  pot := potOf [(0, 1, 2 / 5), (0, 2, 1 / 20), (1, 2, 1 / 10), (2, 3, 1 / 100),
    (0, 3, if one then 1 / 5 else 1 / 20), (1, 3, if one then 1 / 20 else 1 / 25)]
  defectPot := fun _ => 0
  ext := fun _ => 0
  muMinus := -8 / 25
  muPlus := -91 / 100
  eps := 1 / 1000000

/-- The same with two more dots (4 and 5) that are so close to each other that only one of them is charged. -/
def crowdedEnv (one : Bool) : Env :=
  { wireEnv one with
    n := 6
    pot := potOf [(0, 1, 2 / 5), (0, 2, 1 / 20), (1, 2, 1 / 10), (2, 3, 1 / 100),
      (0, 3, if one then 1 / 5 else 1 / 20), (1, 3, if one then 1 / 20 else 1 / 25), (4, 5, 2 / 5)] }

/-- The identity. -/
def wireGate : Gate Nat where
  bits := 2
  tts := [fun i => i.testBit 0]
  outPairs := [⟨.output, 0, 1⟩]
  inWires := [⟨[⟨.input, 3, 4⟩], .none⟩]
  outWires := [⟨[⟨.output, 0, 1⟩], .none⟩]
  canvas := [2]

def params (s : Strategy) : Params := ⟨2, true, s, 1 / 1000000⟩

def wire (i : Nat) : Instance Nat := Instance.ofEnv (wireEnv (i.testBit 0)) 2

def crowded (i : Nat) : Instance Nat := Instance.ofEnv (crowdedEnv (i.testBit 0)) 2

theorem potOf_symm (l : List (Nat × Nat × Rat)) (i j : Nat) : potOf l i j = potOf l j i := by
  unfold potOf
  congr 3
  funext e
  simp only [decide_eq_decide]
  exact or_comm

theorem potOf_nonneg (l : List (Nat × Nat × Rat)) (h : ∀ e ∈ l, 0 ≤ e.2.2) (i j : Nat) : 0 ≤ potOf l i j := by
  unfold potOf
  cases hf : l.find? fun e => decide ((e.1 = i ∧ e.2.1 = j) ∨ (e.1 = j ∧ e.2.1 = i)) with
  | none => simp
  | some e => simpa using h e (List.mem_of_find?_eq_some hf)

theorem potOf_diag (l : List (Nat × Nat × Rat)) (h : ∀ e ∈ l, e.1 ≠ e.2.1) (i : Nat) : potOf l i i = 0 := by
  unfold potOf
  cases hf : l.find? fun e => decide ((e.1 = i ∧ e.2.1 = i) ∨ (e.1 = i ∧ e.2.1 = i)) with
  | none => simp
  | some e =>
    have h1 : e.1 = i ∧ e.2.1 = i := by simpa using List.find?_some hf
    exact absurd (h1.1.trans h1.2.symm) (h e (List.mem_of_find?_eq_some hf))

theorem wireEnv_physical (b : Bool) : (wireEnv b).Physical := by
  refine ⟨fun i j => potOf_symm _ i j, fun i => potOf_diag _ ?_ i, fun i j => potOf_nonneg _ ?_ i j, ?_, ?_⟩
  all_goals cases b <;> decide +kernel

theorem wireGate_ok : wireGate.Ok := ⟨by decide, by decide, by decide⟩

theorem wireGate_wiresOk : wireGate.WiresOk := by
  refine ⟨?_, ?_, rfl⟩ <;> decide +kernel

theorem wire_conditions (i : Nat) : FilterConditions wireGate (wire i) (List.range 4) := by
  have key : ∀ b, (Instance.ofEnv (wireEnv b) 2).ground.all (fun c => decide (c 3 = .neg) &&
      decide (-(wireEnv b).fromScratch c 2 < 8 / 25 - 1 / 1000000)) = true := by
    intro b; cases b <;> decide +kernel
  unfold wire
  generalize i.testBit 0 = b
  have key := key b
  rw [List.all_eq_true] at key
  refine C69_filter_conditions (wireEnv_physical b) (by simp [wireEnv]) (by simp [wireEnv]) 2 rfl (by simp [wireEnv])
    (by cases b <;> decide +kernel) ?_ ?_
  · intro c hc a ha hcan how
    have h3 := key c hc
    simp only [Bool.and_eq_true, decide_eq_true_eq] at h3
    have ha' : a < 4 := ha
    obtain rfl | rfl | rfl | rfl : a = 0 ∨ a = 1 ∨ a = 2 ∨ a = 3 := by omega
    · exact absurd (.inr ⟨_, .head _, _, .head _, .inl rfl⟩) how
    · exact absurd (.inr ⟨_, .head _, _, .head _, .inr rfl⟩) how
    · exact absurd (by simp [wireGate]) hcan
    · exact h3.1
  · intro c hc
    have h3 := key c hc
    simp only [Bool.and_eq_true, decide_eq_true_eq, fromScratch_eq] at h3
    unfold OffMargin
    have e1 : (wireEnv b).ext 2 - (wireEnv b).muMinus - (wireEnv b).eps = 8 / 25 - 1 / 1000000 := by
      simp only [wireEnv]; norm_num
    have e2 : (wireEnv b).ext 2 - (wireEnv b).muPlus - (wireEnv b).eps = 91 / 100 - 1 / 1000000 := by
      simp only [wireEnv]; norm_num
    simp only [e1, e2]
    refine ⟨fun h => ?_, fun h => ?_⟩
    · exact absurd h3.2 (not_lt.2 (le_of_lt h.1))
    · have := h.1; have := h3.2; linarith

/-- Two output wires whose output pairs are at the same height, of which the right one begins higher up. -/
def twoWires : Lyt Nat where
  cells := [25, 225, 350, 550, 500, 700, 900, 950, 1100, 1150]
  ty := fun c => if c < 300 then .input else if c < 800 then .normal else .output
  pis := [25, 225]
  pos := [900, 950, 1100, 1150]

theorem twoWires_ok : twoWires.Ok := by
  refine ⟨by decide, by decide, by decide, ?_, ?_⟩ <;> intro c <;> simp only [twoWires, List.mem_cons,
    List.not_mem_nil, or_false] <;> constructor <;> intro h
  · rcases h with rfl | rfl <;> simp
  · obtain ⟨h, h'⟩ := h; rcases h with rfl | rfl | rfl | rfl | rfl | rfl | rfl | rfl | rfl | rfl <;> simp_all
  · rcases h with rfl | rfl | rfl | rfl <;> simp
  · obtain ⟨h, h'⟩ := h; rcases h with rfl | rfl | rfl | rfl | rfl | rfl | rfl | rfl | rfl | rfl <;> simp_all

end Example

open Example in
/-- The hypotheses of the theorems are met by a simulated wire, which is operational under all strategies. -/
example : wireGate.Ok ∧ wireGate.WiresOk ∧ filtering wireGate (params .simulationOnly) = false ∧
    filtering wireGate (params .filterOnly) = true ∧
    (∀ i < wireGate.bits, FilterConditions wireGate (wire i) (List.range 4)) ∧
    (∀ i < wireGate.bits, (wire i).found = true) ∧
    run wireGate (params .simulationOnly) wire = some (.operational, .none) ∧
    run wireGate (params .filterOnly) wire = some (.operational, .none) :=
  ⟨wireGate_ok, wireGate_wiresOk, by decide, by decide, fun i _ => wire_conditions i,
    by decide +kernel, by decide +kernel, by decide +kernel⟩

open Example in
/-- And a wire is not an inverter. -/
example : run { wireGate with tts := [fun i => !i.testBit 0] } (params .simulationOnly) wire =
      some (.nonOperational, .logicMismatch) ∧
    run { wireGate with tts := [fun i => !i.testBit 0] } (params .filterOnly) wire =
      some (.nonOperational, .logicMismatch) := ⟨by decide +kernel, by decide +kernel⟩

open Example in
/-- The filter rejects an operational gate: it takes all dots outside of the canvas and of the wires to be negatively
charged. -/
theorem C69_false_filter : ∃ (g : Gate Nat) (prm : Params) (E : Nat → Env),
    g.Ok ∧ g.WiresOk ∧ 0 < prm.eps ∧ (∀ i, canPositiveOccur (E i) = false) ∧
    run g { prm with strategy := .simulationOnly } (fun i => Instance.ofEnv (E i) 2) = some (.operational, .none) ∧
    run g { prm with strategy := .filterOnly } (fun i => Instance.ofEnv (E i) 2) =
      some (.nonOperational, .logicMismatch) ∧
    run g { prm with strategy := .filterThenSimulation } (fun i => Instance.ofEnv (E i) 2) =
      some (.nonOperational, .logicMismatch) := by
  refine ⟨wireGate, params .simulationOnly, fun i => crowdedEnv (i.testBit 0), wireGate_ok, wireGate_wiresOk, by simp [params],
    fun i => ?_, by decide +kernel, by decide +kernel, by decide +kernel⟩
  show canPositiveOccur (crowdedEnv (i.testBit 0)) = false
  cases i.testBit 0 <;> decide +kernel

open Example in
/-- If the simulation finds no charge distribution under an input pattern, this pattern is listed as operational, while
the layout is found not to be operational for that very reason. -/
theorem C69_false_patterns : ∃ (g : Gate Nat) (prm : Params) (I : Nat → Instance Nat), g.Ok ∧
    (I 0).found = false ∧ operationalPatterns g prm I = some [0, 1] ∧
    run g prm I = some (.nonOperational, .logicMismatch) := by
  refine ⟨wireGate, params .simulationOnly,
    fun _ => ⟨false, false, [], fun _ => false, fun _ => 0, fun c => c⟩, wireGate_ok, rfl, by decide, by decide⟩

open Example in
/-- The output pairs are numbered by their positions, the output wires in the order of their beginnings. If these differ
for a layout with two outputs, and the two functions differ somewhere, no gate whatever its ground states is found to
be operational without kinks. -/
theorem C69_false_output_order : ∃ (L : Lyt Nat) (ws : List (List (Pair Nat))), L.Ok ∧
    SortsByDistance dist2 sortBy ∧ detectWires sortBy dist2 1 4 25 L = some ws ∧
    ∀ (g : Gate Nat), g.outPairs = detectPairs sortBy dist2 1 4 L (some .output) →
      g.outWires.map (·.pairs) = filterWires .output .input ws → (∀ w ∈ g.outWires, w.dir = .south) →
      g.tts.length = 2 → ∀ i < g.bits, (∃ t u, g.tts = [t, u] ∧ t i ≠ u i) →
      ∀ (prm : Params), prm.rejectKinks = true → ∀ I : Nat → Instance Nat, (I i).ground ≠ [] →
      filtering g prm = false → ∃ r, run g prm I = some (.nonOperational, r) := by
  refine ⟨twoWires, _, twoWires_ok, sortBy_sorts, (by decide +kernel : detectWires sortBy dist2 1 4 25 twoWires = some
    [[⟨.input, 25, 225⟩], [⟨.normal, 350, 550⟩, ⟨.output, 950, 1150⟩], [⟨.normal, 500, 700⟩, ⟨.output, 900, 1100⟩]]), ?_⟩
  have hp : detectPairs sortBy dist2 1 4 twoWires (some .output) = [⟨.output, 900, 1100⟩, ⟨.output, 950, 1150⟩] := by
    decide +kernel
  have hw : filterWires .output .input [[⟨.input, 25, 225⟩], [⟨.normal, 350, 550⟩, ⟨.output, 950, 1150⟩],
      [⟨.normal, 500, 700⟩, (⟨.output, 900, 1100⟩ : Pair Nat)]] =
      [[⟨.normal, 350, 550⟩, ⟨.output, 950, 1150⟩], [⟨.normal, 500, 700⟩, ⟨.output, 900, 1100⟩]] := by
    decide +kernel
  intro g h1 h2 hdir hlen i hi ⟨t, u, htu, hne⟩ prm hk I hgr hf
  rw [hp] at h1; rw [hw] at h2
  obtain ⟨w, v, hws⟩ : ∃ w v, g.outWires = [w, v] := by
    have : g.outWires.length = 2 := by simpa using congrArg List.length h2
    exact List.length_eq_two.1 this
  · rw [hws] at h2
    simp only [List.map_cons, List.map_nil, List.cons.injEq, and_true] at h2
    obtain ⟨hw1, hw2⟩ := h2
    have hok : g.Ok := ⟨by simp [h1, hlen], by simp [h1, hws], by simp [hws, hlen]⟩
    obtain ⟨st, r, hrun, hiff⟩ := C69_simulation hok prm I hf
    refine ⟨r, ?_⟩
    cases st with
    | nonOperational => exact hrun
    | operational =>
      exfalso
      obtain ⟨_, _, hall⟩ := hiff.1 rfl i hi
      obtain ⟨c, hc⟩ := List.exists_mem_of_ne_nil _ hgr
      obtain ⟨ho, hkk⟩ := hall c hc
      have a1 := ho 0 ⟨.output, 900, 1100⟩ w t (by simp [h1]) (by simp [hws]) (by simp [htu])
      have a2 := (hkk hk).2 1 v u (by simp [hws]) (by simp [htu]) ⟨.output, 900, 1100⟩ (by simp [hw2])
      rw [hdir w (by simp [hws])] at a1
      rw [hdir v (by simp [hws])] at a2
      unfold Encodes at a1 a2
      cases ht : t i <;> cases hu : u i <;> simp_all

end Verif.SidbAnalysis.Operational
