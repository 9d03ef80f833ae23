import Verif.Sidb.Energy
import Verif.Sidb.QuickProps
import Mathlib.Algebra.BigOperators.Ring.Finset

/-!
# C53: QuickSim is sound for all random choices and all interleavings of its threads
# C54: configuration stability and energy-lowering hops
-/
namespace Verif.Sidb

/-- The electrostatic potential energy of a charge distribution: every SiDB in the external potential and in that of the
defects, every pair of SiDBs once. -/
def energyOf (E : Env) (c : Nat → Charge) : Rat :=
  ∑ i ∈ Finset.range E.n, (E.ext i + E.defectPot i) * ((c i).sign : Rat) +
    (∑ i ∈ Finset.range E.n, ∑ j ∈ Finset.range E.n, E.pot i j * ((c i).sign : Rat) * ((c j).sign : Rat)) / 2

theorem energyOf_eq (E : Env) (c : Nat → Charge) :
    energyOf E c = ∑ i ∈ Finset.range E.n, E.ext i * ((c i).sign : Rat) +
      (1 / 2) * (∑ i ∈ Finset.range E.n, potential E c i * ((c i).sign : Rat) +
        ∑ i ∈ Finset.range E.n, E.defectPot i * ((c i).sign : Rat)) := by
  have h1 : ∑ i ∈ Finset.range E.n, potential E c i * ((c i).sign : Rat) =
      ∑ i ∈ Finset.range E.n, E.defectPot i * ((c i).sign : Rat) +
        ∑ i ∈ Finset.range E.n, ∑ j ∈ Finset.range E.n, E.pot i j * ((c i).sign : Rat) * ((c j).sign : Rat) := by
    rw [← Finset.sum_add_distrib]
    refine Finset.sum_congr rfl fun i _ => ?_
    unfold potential
    rw [add_mul, Finset.sum_mul]
    congr 1
    exact Finset.sum_congr rfl fun j _ => by ring
  have h2 : ∑ i ∈ Finset.range E.n, (E.ext i + E.defectPot i) * ((c i).sign : Rat) =
      ∑ i ∈ Finset.range E.n, E.ext i * ((c i).sign : Rat) + ∑ i ∈ Finset.range E.n, E.defectPot i * ((c i).sign : Rat) := by
    rw [← Finset.sum_add_distrib]
    exact Finset.sum_congr rfl fun i _ => by ring
  unfold energyOf
  rw [h1, h2]
  ring

/-- The energy after the charge of one SiDB has changed. -/
theorem energyOf_setAt (E : Env) (P : E.Physical) (c : Nat → Charge) (k : Nat) (x : Charge) (hk : k < E.n) :
    energyOf E (setAt c k x) = energyOf E c + ((x.sign - (c k).sign : Int) : Rat) * (E.ext k + potential E c k) := by
  generalize hδ : ((x.sign - (c k).sign : Int) : Rat) = δ
  have hsign : ∀ i, ((setAt c k x i).sign : Rat) = ((c i).sign : Rat) + if i = k then δ else 0 := by
    intro i
    simp only [setAt]
    split
    · rename_i h; subst h; rw [← hδ]; push_cast; ring
    · ring
  have hlin : ∀ f : Nat → Rat, ∑ i ∈ Finset.range E.n, f i * ((setAt c k x i).sign : Rat) =
      ∑ i ∈ Finset.range E.n, f i * ((c i).sign : Rat) + f k * δ := by
    intro f
    have : ∀ i ∈ Finset.range E.n, f i * ((setAt c k x i).sign : Rat) =
        f i * ((c i).sign : Rat) + if i = k then f k * δ else 0 := by
      intro i _
      rw [hsign]
      split
      · rename_i h; subst h; ring
      · ring
    rw [Finset.sum_congr rfl this, Finset.sum_add_distrib, Finset.sum_ite_eq', if_pos (Finset.mem_range.2 hk)]
  have hpot : ∀ i, potential E (setAt c k x) i = potential E c i + E.pot i k * δ := by
    intro i; rw [potential_setAt E c k x hk i, hδ]
  have hV : ∑ i ∈ Finset.range E.n, potential E (setAt c k x) i * ((setAt c k x i).sign : Rat) =
      ∑ i ∈ Finset.range E.n, potential E c i * ((c i).sign : Rat) + δ * (potential E c k - E.defectPot k) + potential E c k * δ := by
    rw [hlin, hpot, P.diag]
    have : ∑ i ∈ Finset.range E.n, potential E (setAt c k x) i * ((c i).sign : Rat) =
        ∑ i ∈ Finset.range E.n, potential E c i * ((c i).sign : Rat) + δ * ∑ i ∈ Finset.range E.n, E.pot k i * ((c i).sign : Rat) := by
      rw [Finset.mul_sum, ← Finset.sum_add_distrib]
      refine Finset.sum_congr rfl fun i _ => ?_
      rw [hpot, P.symm i k]; ring
    rw [this]
    have : ∑ i ∈ Finset.range E.n, E.pot k i * ((c i).sign : Rat) = potential E c k - E.defectPot k := by unfold potential; ring
    rw [this]; ring
  rw [energyOf_eq, energyOf_eq, hV, hlin, hlin]
  ring

/-- `recompute_electrostatic_potential_energy` computes the energy of the charge distribution. -/
theorem C54_energy (E : Env) (s : Cds) (h : ∀ i < E.n, s.intPot i = potential E s.charge i) :
    recomputeEnergy E s = energyOf E s.charge := by
  unfold recomputeEnergy
  rw [energyOf_eq, sumTo_eq, sumTo_eq, sumTo_eq]
  congr 3
  exact Finset.sum_congr rfl fun i hi => by rw [h i (Finset.mem_range.1 hi)]

/-- One step towards positive charge. -/
def Charge.up : Charge → Charge
  | .neg => .neu
  | .neu => .pos
  | .pos => .pos

/-- One step towards negative charge. -/
def Charge.down : Charge → Charge
  | .pos => .neu
  | .neu => .neg
  | .neg => .neg

/-- The charge distribution after an electron has hopped from `i` to `j`. -/
def hop (c : Nat → Charge) (i j : Nat) : Nat → Charge := setAt (setAt c i (c i).up) j (c j).down

/-- The energy change of a hop. -/
theorem C54_hop_energy (E : Env) (P : E.Physical) (c : Nat → Charge) (i j : Nat) (hi : i < E.n) (hj : j < E.n)
    (h : (c i).sign < (c j).sign) :
    energyOf E (hop c i j) - energyOf E c =
      E.ext i - E.ext j + (potential E c i - potential E c j - E.pot i j) := by
  have hij : j ≠ i := by rintro rfl; omega
  have hup : (c i).up.sign - (c i).sign = 1 := by
    cases hc : c i <;> simp [Charge.up, Charge.sign]
    rw [hc] at h; cases hc' : c j <;> rw [hc'] at h <;> simp [Charge.sign] at h
  have hdown : (c j).down.sign - (c j).sign = -1 := by
    cases hc : c j <;> simp [Charge.down, Charge.sign]
    rw [hc] at h; cases hc' : c i <;> rw [hc'] at h <;> simp [Charge.sign] at h
  unfold hop
  rw [energyOf_setAt E P _ j _ hj, energyOf_setAt E P c i _ hi, potential_setAt E c i _ hi]
  simp only [setAt, if_neg hij]
  rw [hup, hdown, P.symm j i]
  push_cast
  ring

/-- If all SiDBs see the same external potential, configuration stability says exactly that no hop of an electron to a
less negatively charged SiDB lowers the energy by more than twice the error margin. -/
theorem C54_stability_partial (E : Env) (P : E.Physical) (hext : UniformExt E) (c : Nat → Charge) :
    (∀ i < E.n, ∀ j < E.n, NoHop E c i j) ↔
      ∀ i < E.n, ∀ j < E.n, (c i).sign < (c j).sign → energyOf E c - 2 * E.eps ≤ energyOf E (hop c i j) := by
  constructor
  · intro H i hi j hj hlt
    have h1 := H i hi j hj hlt
    have h2 := C54_hop_energy E P c i j hi hj hlt
    rw [hext i hi j hj] at h1 h2
    linarith
  · intro H i hi j hj hlt
    have h1 := H i hi j hj hlt
    have h2 := C54_hop_energy E P c i j hi hj hlt
    rw [hext i hi j hj] at h2 ⊢
    linarith

/-- A charge distribution of minimal energy among those with as many electrons is configuration stable. -/
theorem C54_minimum_stable (E : Env) (P : E.Physical) (hext : UniformExt E) (c : Nat → Charge)
    (hmin : ∀ i < E.n, ∀ j < E.n, (c i).sign < (c j).sign → energyOf E c ≤ energyOf E (hop c i j)) :
    ∀ i < E.n, ∀ j < E.n, NoHop E c i j := by
  rw [C54_stability_partial E P hext c]
  intro i hi j hj hlt
  have := hmin i hi j hj hlt
  have := P.eps
  linarith

/-- With different external potentials the check weights them twice as much as the energy does: it rejects a charge
distribution although the only possible hop raises the energy. -/
theorem C54_local_rejected :
    configurationStable localEnv (updateNeglect localEnv ⟨ofList [.neg, .neu], fun _ => 0, false, 0, 2, 0⟩) = false ∧
      recomputeEnergy localEnv (updateNeglect localEnv ⟨ofList [.neu, .neg], fun _ => 0, false, 0, 2, 0⟩) -
        recomputeEnergy localEnv (updateNeglect localEnv ⟨ofList [.neg, .neu], fun _ => 0, false, 0, 2, 0⟩) = 1 / 2 := by
  decide +kernel

example : (ofList [Charge.neg, .neu] 0).sign < (ofList [Charge.neg, .neu] 1).sign ∧
    (List.range 2).map (hop (ofList [.neg, .neu]) 0 1) = [.neu, .neg] := by decide

/-! ## QuickSim -/

/-- Exact potentials, energy and validity. -/
structure SimOk (E : Env) (s : Sim) : Prop where
  exact : Exact E s.cds
  energy : s.energy = energyOf E s.cds.charge
  noPos : ∀ i < E.n, s.cds.charge i ≠ .pos
  valid : s.cds.valid = true → Valid E s.cds.charge

theorem quicksim_energy (E : Env) (hext : ∀ i < E.n, E.ext i = 0) (hdef : ∀ i < E.n, E.defectPot i = 0) (s : Cds)
    (h : Exact E s) : recomputeEnergyQuickSim E s = energyOf E s.charge := by
  unfold recomputeEnergyQuickSim
  rw [energyOf_eq, sumTo_eq]
  have z1 : ∑ i ∈ Finset.range E.n, E.ext i * ((s.charge i).sign : Rat) = 0 :=
    Finset.sum_eq_zero fun i hi => by rw [hext i (Finset.mem_range.1 hi)]; ring
  have z2 : ∑ i ∈ Finset.range E.n, E.defectPot i * ((s.charge i).sign : Rat) = 0 :=
    Finset.sum_eq_zero fun i hi => by rw [hdef i (Finset.mem_range.1 hi)]; ring
  rw [z1, z2]
  have : ∑ i ∈ Finset.range E.n, s.intPot i * ((s.charge i).sign : Rat) =
      ∑ i ∈ Finset.range E.n, potential E s.charge i * ((s.charge i).sign : Rat) :=
    Finset.sum_congr rfl fun i hi => by rw [h i (Finset.mem_range.1 hi)]
  rw [this]
  ring

theorem updateSim_ok (E : Env) (hext : ∀ i < E.n, E.ext i = 0) (hdef : ∀ i < E.n, E.defectPot i = 0) (s : Sim) (c : Nat → Charge)
    (hc : ∀ i < E.n, c i ≠ .pos) : SimOk E (updateSim E s c) where
  exact := Exact_neglect E _
  energy := quicksim_energy E hext hdef _ (Exact_neglect E _)
  noPos := hc
  valid := (validityCheck_iff E _ (Exact_neglect E _)).1

theorem adjacentSearch_ok (E : Env) (P : E.Physical) (hext : ∀ i < E.n, E.ext i = 0) (dist : Nat → Nat → Rat) (alpha : Rat) (pick : Nat)
    (s : Sim) (negs : List Nat) (h : SimOk E s) :
    let r := adjacentSearch E dist alpha pick s negs
    SimOk E { r.1 with cds := validityCheck E r.1.cds } ∧ (∀ i, s.cds.charge i = .neg → r.1.cds.charge i = .neg) := by
  intro r
  have key : Exact E r.1.cds ∧ r.1.energy = energyOf E r.1.cds.charge ∧ (∀ i < E.n, r.1.cds.charge i ≠ .pos) ∧
      (∀ i, s.cds.charge i = .neg → r.1.cds.charge i = .neg) := by
    show Exact E (adjacentSearch E dist alpha pick s negs).1.cds ∧ _
    simp only [r]
    unfold adjacentSearch
    dsimp only
    generalize hc : ((List.range E.n).filter fun u => decide (s.cds.charge u = .neu)).filter _ = candidates
    split
    · exact ⟨h.exact, h.energy, h.noPos, fun _ h => h⟩
    · rename_i hne
      have hlen : pick % candidates.length < candidates.length := Nat.mod_lt _ (List.length_pos_of_ne_nil hne)
      have hmem := getD_mem hlen
      generalize candidates.getD (pick % candidates.length) 0 = k at hmem
      rw [← hc, List.mem_filter, List.mem_filter, List.mem_range, decide_eq_true_eq] at hmem
      have hk := hmem.1.1
      have hneu := hmem.1.2
      refine ⟨?_, ?_, ?_, ?_⟩
      · intro i hi
        simp only
        rw [potential_setAt E _ k .neg hk, h.exact i hi, hneu]
        simp [Charge.sign]
      · simp only
        rw [energyOf_setAt E P _ k .neg hk, h.energy, hneu, hext k hk, h.exact k hk]
        simp [Charge.sign]
      · intro i hi
        simp only [setAt]
        split
        · decide
        · exact h.noPos i hi
      · intro i hi
        simp only [setAt]
        split
        · rfl
        · exact hi
  exact ⟨⟨key.1, key.2.1, key.2.2.1, (validityCheck_iff E _ key.1).1⟩, key.2.2.2⟩

/-- What is reported about a charge distribution is right. -/
def Reported (E : Env) (p : List Charge × Rat) : Prop :=
  p.1.length = E.n ∧ (∀ x ∈ p.1, Admissible 2 x) ∧ Valid E (ofList p.1) ∧ p.2 = energyOf E (ofList p.1)

theorem energyOf_congr (E : Env) {c c' : Nat → Charge} (h : ∀ i < E.n, c i = c' i) : energyOf E c = energyOf E c' := by
  unfold energyOf
  congr 1
  · exact Finset.sum_congr rfl fun i hi => by rw [h i (Finset.mem_range.1 hi)]
  · congr 1
    exact Finset.sum_congr rfl fun i hi => Finset.sum_congr rfl fun j hj => by
      rw [h i (Finset.mem_range.1 hi), h j (Finset.mem_range.1 hj)]

theorem emitSim_ok (E : Env) (s : Sim) (h : SimOk E s) : ∀ p ∈ emitSim E s, Reported E p := by
  intro p hp
  unfold emitSim at hp
  split at hp
  · rename_i hv
    rw [List.mem_singleton] at hp
    subst hp
    have hcong : ∀ i < E.n, ofList (s.cds.charges E.n) i = s.cds.charge i := fun i hi => ofList_charges s.cds E.n i hi
    refine ⟨by simp [Cds.charges], ?_, (Valid_congr E hcong).2 (h.valid hv), ?_⟩
    · intro x hx
      simp only [Cds.charges, List.mem_map, List.mem_range] at hx
      obtain ⟨i, hi, rfl⟩ := hx
      have := h.noPos i hi
      unfold Admissible
      cases hc : s.cds.charge i <;> simp_all
    · simp only
      rw [energyOf_congr E hcong, h.energy]
  · simp at hp

theorem searchLoop_ok (E : Env) (P : E.Physical) (hext : ∀ i < E.n, E.ext i = 0) (dist : Nat → Nat → Rat) (alpha : Rat)
    (pick : Nat → Nat) (m : Nat) : ∀ (s : Sim) (negs : List Nat), SimOk E s →
    ∀ p ∈ searchLoop E dist alpha pick m s negs, Reported E p := by
  induction m with
  | zero => intro s negs _ p hp; simp [searchLoop] at hp
  | succ m ih =>
    intro s negs h p hp
    unfold searchLoop at hp
    have hok := (adjacentSearch_ok E P hext dist alpha (pick m) s negs h).1
    rcases List.mem_append.1 hp with hp | hp
    · exact emitSim_ok E _ hok p hp
    · exact ih _ _ hok p hp

theorem mem_interleaving {α : Type} {ts : List (List α)} {r : List α} (h : Interleaving ts r) : ∀ x, x ∈ r ↔ ∃ t ∈ ts, x ∈ t := by
  induction h with
  | done ts h =>
    intro x
    constructor
    · intro hx; simp at hx
    · rintro ⟨t, ht, hx⟩; rw [h t ht] at hx; simp at hx
  | step ts₁ ts₂ y t r _ ih =>
    intro x
    rw [List.mem_cons, ih]
    simp only [List.mem_append, List.mem_cons]
    constructor
    · rintro (rfl | ⟨t', h', hx⟩)
      · exact ⟨x :: t, Or.inr (Or.inl rfl), List.mem_cons_self ..⟩
      · rcases h' with h' | rfl | h'
        · exact ⟨t', Or.inl h', hx⟩
        · exact ⟨y :: t', Or.inr (Or.inl rfl), List.mem_cons_of_mem _ hx⟩
        · exact ⟨t', Or.inr (Or.inr h'), hx⟩
    · rintro ⟨t', h', hx⟩
      rcases h' with h' | rfl | h'
      · exact Or.inr ⟨t', Or.inl h', hx⟩
      · rcases List.mem_cons.1 hx with rfl | hx
        · exact Or.inl rfl
        · exact Or.inr ⟨t, Or.inr (Or.inl rfl), hx⟩
      · exact Or.inr ⟨t', Or.inr (Or.inr h'), hx⟩

/-- Whatever the random choices of the threads are and in whichever order the threads report: every charge distribution
returned by QuickSim is physically valid, has no positively charged SiDB, and comes with its electrostatic potential
energy. -/
theorem C53_sound (E : Env) (P : E.Physical) (hext : ∀ i < E.n, E.ext i = 0) (hdef : ∀ i < E.n, E.defectPot i = 0)
    (dist : Nat → Nat → Rat) (alpha : Rat) (steps threads : Nat) (picks : Nat → Nat → Nat → Nat → Nat)
    (res : List (List Charge × Rat)) (h : QuickSimResult E dist alpha steps threads picks res) : ∀ p ∈ res, Reported E p := by
  obtain ⟨r, hr, rfl, _⟩ := h
  intro p hp
  rcases List.mem_append.1 hp with hp | hp
  · unfold quicksimInitial at hp
    dsimp only at hp
    rcases List.mem_append.1 hp with hp | hp
    · rcases List.mem_append.1 hp with hp | hp
      · exact emitSim_ok E _ (updateSim_ok E hext hdef _ _ (fun _ _ => by decide)) p hp
      · split at hp
        · exact emitSim_ok E _ (updateSim_ok E hext hdef _ _ (fun _ _ => by decide)) p hp
        · simp at hp
    · refine emitSim_ok E _ (updateSim_ok E hext hdef _ _ fun i _ => ?_) p hp
      split <;> decide
  · obtain ⟨t, ht, hpt⟩ := (mem_interleaving hr p).1 hp
    obtain ⟨z, _, rfl⟩ := List.mem_map.1 ht
    split at hpt
    · simp at hpt
    · unfold quicksimThread at hpt
      obtain ⟨it, _, hpt⟩ := List.mem_flatMap.1 hpt
      obtain ⟨k, _, hpt⟩ := List.mem_flatMap.1 hpt
      unfold startLoop at hpt
      have hok := updateSim_ok E hext hdef ⟨initNegative E 2, 0⟩
        (fun i => if i ∈ negativeDetection E (updateSim E ⟨initNegative E 2, 0⟩ fun _ => .neg).cds ++ [k] then .neg else .neu)
        (fun i _ => by split <;> decide)
      rcases List.mem_append.1 hpt with hpt | hpt
      · exact emitSim_ok E _ hok p hpt
      · exact searchLoop_ok E P hext dist alpha _ _ _ _ hok p hpt

/-- Everything QuickSim returns is also returned by the exhaustive simulation, and SiDBs that are necessarily negative are
negative in it. -/
theorem C53_subset (E : Env) (P : E.Physical) (hext : ∀ i < E.n, E.ext i = 0) (hdef : ∀ i < E.n, E.defectPot i = 0)
    (dist : Nat → Nat → Rat) (alpha : Rat) (steps threads : Nat) (picks : Nat → Nat → Nat → Nat → Nat)
    (res : List (List Charge × Rat)) (h : QuickSimResult E dist alpha steps threads picks res) :
    ∃ all, exgs E 2 = some all ∧ ∀ p ∈ res, p.1 ∈ all ∧ ∀ i ∈ negativeDetection E (initNegative E 2), ofList p.1 i = .neg := by
  have hn : 0 < E.n := by
    obtain ⟨_, _, _, _, hn, _⟩ := h
    omega
  obtain ⟨all, e, _, hm⟩ := C36_exact E 2 (Or.inl rfl) hn
  refine ⟨all, e, fun p hp => ?_⟩
  obtain ⟨h1, h2, h3, _⟩ := C53_sound E P hext hdef dist alpha steps threads picks res h p hp
  refine ⟨(hm _).2 ⟨h1, h2, h3⟩, fun i hi => ?_⟩
  exact C38_forced_negative E P (initNegative E 2) (fun i _ => initNegative_pot E 2 i) (fun _ _ => rfl) i hi _ h3

/-- If all SiDBs can be negatively charged, QuickSim finds this charge distribution whatever happens. -/
theorem C53_all_negative (E : Env) (dist : Nat → Nat → Rat) (alpha : Rat) (steps threads : Nat)
    (picks : Nat → Nat → Nat → Nat → Nat) (res : List (List Charge × Rat)) (h : QuickSimResult E dist alpha steps threads picks res)
    (hv : Valid E fun _ => .neg) : ∃ e, (List.replicate E.n .neg, e) ∈ res := by
  obtain ⟨r, _, rfl, _⟩ := h
  refine ⟨(updateSim E ⟨initNegative E 2, 0⟩ fun _ => .neg).energy,
    List.mem_append_left _ (List.mem_append_left _ (List.mem_append_left _ ?_))⟩
  · unfold emitSim
    have hval : (updateSim E ⟨initNegative E 2, 0⟩ fun _ => .neg).cds.valid = true :=
      (validityCheck_iff E (updateNeglect E { initNegative E 2 with charge := fun _ => .neg }) (Exact_neglect E _)).2 hv
    rw [if_pos hval, List.mem_singleton]
    congr 1
    refine List.ext_getElem (by simp [Cds.charges]) fun i h1 h2 => ?_
    simp [Cds.charges, updateSim, updateNeglect]

/-- A run of QuickSim on the example. -/
example : QuickSimResult exampleEnv (fun i j => if i = j then 0 else 1) (7 / 10) 2 1 (fun _ _ _ _ => 0)
    [([.neg, .neu, .neg], 1 / 100), ([.neu, .neg, .neg], 1 / 100), ([.neg, .neu, .neg], 1 / 100), ([.neu, .neg, .neg], 1 / 100)] := by
  refine ⟨[([.neg, .neu, .neg], 1 / 100), ([.neu, .neg, .neg], 1 / 100), ([.neg, .neu, .neg], 1 / 100), ([.neu, .neg, .neg], 1 / 100)],
    ?_, by decide +kernel, by decide, by decide, by decide⟩
  have e : ((List.range (max 1 1)).map fun z =>
      if (negativeDetection exampleEnv (updateSim exampleEnv ⟨initNegative exampleEnv 2, 0⟩ fun _ => .neg).cds).length = exampleEnv.n then []
      else quicksimThread exampleEnv (fun i j => if i = j then 0 else 1) (7 / 10)
        (negativeDetection exampleEnv (updateSim exampleEnv ⟨initNegative exampleEnv 2, 0⟩ fun _ => .neg).cds)
        ((List.range exampleEnv.n).filter fun i => decide (i ∉ negativeDetection exampleEnv
          (updateSim exampleEnv ⟨initNegative exampleEnv 2, 0⟩ fun _ => .neg).cds)) (max (2 / max 1 1) 1)
          ((fun _ _ _ _ => 0 : Nat → Nat → Nat → Nat → Nat) z) ⟨initNegative exampleEnv 2, 0⟩) =
      [[([.neg, .neu, .neg], (1 / 100 : Rat)), ([.neu, .neg, .neg], 1 / 100), ([.neg, .neu, .neg], 1 / 100), ([.neu, .neg, .neg], 1 / 100)]] := by
    decide +kernel
  rw [e]
  exact .step [] [] _ _ _ (.step [] [] _ _ _ (.step [] [] _ _ _ (.step [] [] _ _ _ (.done _ (by simp)))))

end Verif.Sidb
