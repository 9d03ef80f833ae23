import Verif.SidbAnalysis.TemperatureLemmas

/-!
# C65: state types, occupation probabilities and critical temperatures
-/
namespace Verif.SidbAnalysis

open Verif.Sidb

/-! ## Specification -/

/-- A state computes the specified output values: exactly the outputs with the value one are charged. -/
def Computes (s : GState) (spec : List Bool) : Prop := List.Forall₂ (fun c b => c ≠ .neu ↔ b = true) s.outputs spec

/-- The weight `exp(-E / kT)` of an energy in the Boltzmann distribution. -/
noncomputable def weight (t e : Rat) : ℝ := Real.exp (-((e * evOverK / t : Rat) : ℝ))

/-- The probability of the rejected states in the Boltzmann distribution. -/
noncomputable def errorProb (l : List (Rat × StateType)) (t : Rat) : ℝ :=
  ((l.filter fun x => decide (x.2 = .rejected)).map fun x => weight t x.1).sum / (l.map fun x => weight t x.1).sum

/-- The energies are listed from the lowest on and those above the lowest are above it by the margin. -/
def Pattern.WF : Pattern → Prop
  | .states s l => ∀ x ∈ l, x.1 = s.1 ∨ s.1 + margin ≤ x.1
  | _ => True

/-- A state of lowest energy is accepted. -/
def Pattern.Works : Pattern → Prop
  | .states s l => ∃ x ∈ s :: l, x.1 = s.1 ∧ x.2 = .accepted
  | _ => False

/-- The probability of an error for an input pattern. -/
noncomputable def Pattern.err : Pattern → Rat → ℝ
  | .states s l, t => errorProb (s :: l) t
  | _, _ => 1

/-! ## State types -/

/-- If being within the margin is transitive on the given energies, every state is listed exactly once, with an
energy within the margin of its own and with the type that its outputs give it. The list is sorted and different
energies are apart by the margin. -/
theorem C65_state_types (eps : Rat) (heps : 0 < eps) (en : Nat → Rat) (l : List (Nat × GState)) (hl : ∀ p ∈ l, p.2.energy = en p.1)
    (htrans : ∀ p ∈ l, ∀ q ∈ l, ∀ r ∈ l, p.2.energy - q.2.energy < eps → q.2.energy - r.2.energy < eps →
      r.2.energy ≤ q.2.energy → q.2.energy ≤ p.2.energy → p.2.energy - r.2.energy < eps)
    (spec : List Bool) (hspec : ∀ p ∈ l, p.2.outputs.length = spec.length) (out : List (Rat × StateType))
    (h : KinksAccepted eps (energyDistribution eps (l.map fun p => (p.1, p.2.energy))) spec (l.map Prod.snd) out) :
    (∃ (rep : GState → Rat) (ty : GState → StateType), out.Perm (l.map fun p => (rep p.2, ty p.2)) ∧
      ∀ p ∈ l, (p.2.energy - rep p.2 < eps ∧ rep p.2 - p.2.energy < eps) ∧ (ty p.2 = .accepted ↔ Computes p.2 spec)) ∧
    (out.Pairwise fun a b => a.1 ≤ b.1) ∧ ∀ x ∈ out, ∀ y ∈ out, x.1 < y.1 → eps ≤ y.1 - x.1 := by
  classical
  set L := l.map fun p => (p.1, p.2.energy) with hL
  have hL' : ∀ q ∈ L, q.2 = en q.1 := by
    intro q hq
    obtain ⟨p, hp, rfl⟩ := List.mem_map.1 hq
    exact hl p hp
  have hsep := C40_separated eps en L hL'
  have hun : ∀ s ∈ l.map Prod.snd, ∃ q, (q ∈ energyDistribution eps L ∧ -eps < s.energy - q.1 ∧ s.energy - q.1 < eps) ∧
      ∀ q', q' ∈ energyDistribution eps L ∧ -eps < s.energy - q'.1 ∧ s.energy - q'.1 < eps → q' = q := by
    intro s hs
    obtain ⟨p, hp, rfl⟩ := List.mem_map.1 hs
    refine C40_counted_once_partial eps heps en L hL' ?_ (p.1, p.2.energy) (List.mem_map.2 ⟨p, hp, rfl⟩)
    intro a ha b hb c hc
    obtain ⟨a', ha', rfl⟩ := List.mem_map.1 ha
    obtain ⟨b', hb', rfl⟩ := List.mem_map.1 hb
    obtain ⟨c', hc', rfl⟩ := List.mem_map.1 hc
    exact htrans a' ha' b' hb' c' hc'
  have hex : ∃ rep : GState → Rat × Nat, ∀ s ∈ l.map Prod.snd,
      (rep s ∈ energyDistribution eps L ∧ -eps < s.energy - (rep s).1 ∧ s.energy - (rep s).1 < eps) ∧
      ∀ q', q' ∈ energyDistribution eps L ∧ -eps < s.energy - q'.1 ∧ s.energy - q'.1 < eps → q' = rep s := by
    refine ⟨fun s => if hs : s ∈ l.map Prod.snd then (hun s hs).choose else (0, 0), fun s hs => ?_⟩
    dsimp only
    rw [dif_pos hs]
    exact (hun s hs).choose_spec
  obtain ⟨rep, hrep⟩ := hex
  have habs : ∀ a b : Rat, absR (a - b) < eps ↔ -eps < a - b ∧ a - b < eps := by
    intro a b
    unfold absR
    constructor
    · intro h; split_ifs at h <;> constructor <;> linarith
    · rintro ⟨h1, h2⟩; split_ifs <;> linarith
  have hnd : (energyDistribution eps L).Nodup := by
    rw [List.pairwise_map] at hsep
    refine hsep.imp ?_
    rintro a b ⟨h1, _⟩ rfl
    exact lt_irrefl _ h1
  have hperm := flatMap_filter_perm (energyDistribution eps L) hnd (fun u s => decide (absR (s.energy - u.1) < eps))
    (fun u s => (u.1, outputType s.outputs spec)) rep (l.map Prod.snd) (by
      intro s hs
      obtain ⟨⟨h1, h2, h3⟩, h4⟩ := hrep s hs
      refine ⟨h1, decide_eq_true ((habs _ _).2 ⟨h2, h3⟩), fun v hv hc => ?_⟩
      obtain ⟨c1, c2⟩ := (habs _ _).1 (of_decide_eq_true hc)
      exact h4 v ⟨hv, c1, c2⟩)
  refine ⟨⟨fun s => (rep s).1, fun s => outputType s.outputs spec, ?_, ?_⟩, h.2, ?_⟩
  · refine h.1.trans ?_
    rw [List.map_map] at hperm
    exact hperm
  · intro p hp
    obtain ⟨⟨_, h2, h3⟩, _⟩ := hrep p.2 (List.mem_map_of_mem hp)
    exact ⟨⟨h3, by linarith⟩, outputType_iff _ _ (hspec p hp)⟩
  · have hmem : ∀ x ∈ out, ∃ u ∈ energyDistribution eps L, u.1 = x.1 := by
      intro x hx
      obtain ⟨u, hu, hx'⟩ := List.mem_flatMap.1 (h.1.mem_iff.1 hx)
      obtain ⟨s, _, rfl⟩ := List.mem_map.1 hx'
      exact ⟨u, hu, rfl⟩
    intro x hx y hy hlt
    obtain ⟨u, hu, e1⟩ := hmem x hx
    obtain ⟨v, hv, e2⟩ := hmem y hy
    rw [← e1, ← e2] at hlt ⊢
    rw [List.pairwise_map] at hsep
    have htot : ∀ {M : List (Rat × Nat)}, M.Pairwise (fun u v => u.1 < v.1 ∧ eps ≤ v.1 - u.1) → u ∈ M → v ∈ M → eps ≤ v.1 - u.1 := by
      intro M hM huM hvM
      induction hM with
      | nil => simp at huM
      | cons hr _ ih =>
        rcases List.mem_cons.1 huM with rfl | hx' <;> rcases List.mem_cons.1 hvM with rfl | hy'
        · exact absurd hlt (lt_irrefl _)
        · exact (hr v hy').2
        · exact absurd (lt_trans hlt (hr u hx').1) (lt_irrefl _)
        · exact ih hx' hy'
    exact htot hsep hu hv

/-- A state that is given twice is listed twice, although the energy distribution counts it once. -/
theorem C65_false_duplicates :
    let l : List (Nat × GState) := [(1, ⟨0, [.neg]⟩), (2, ⟨1, [.neu]⟩), (2, ⟨1, [.neu]⟩)]
    let d := energyDistribution margin (l.map fun p => (p.1, p.2.energy))
    d = [(0, 1), (1, 1)] ∧
      KinksAccepted margin d [true] (l.map Prod.snd) [(0, .accepted), (1, .rejected), (1, .rejected)] := by
  refine ⟨by decide +kernel, ?_, ?_⟩
  · have : ((energyDistribution margin ([(1, ⟨0, [.neg]⟩), (2, ⟨1, [.neu]⟩), (2, ⟨1, [.neu]⟩)] |>.map
        fun p : Nat × GState => (p.1, p.2.energy))).flatMap fun u => typesAt margin u.1 [true]
          ([(1, ⟨0, [.neg]⟩), (2, ⟨1, [.neu]⟩), (2, ⟨1, [.neu]⟩)].map (Prod.snd : Nat × GState → GState))) =
        [(0, .accepted), (1, .rejected), (1, .rejected)] := by decide +kernel
    rw [this]
  · decide +kernel

/-- If every state is operational, the list with rejected kinks has every state once. -/
theorem C65_kinks_partial (eps : Rat) (d : List (Rat × Nat)) (l : List (Rat × Bool)) (h : ∀ s ∈ l, s.2 = true) :
    kinksRejected eps d l =
      d.flatMap fun u => (l.filter fun s => decide (absR (s.1 - u.1) < eps)).map fun _ => (u.1, .accepted) := by
  unfold kinksRejected
  congr 1
  funext u
  induction l with
  | nil => rfl
  | cons s l ih =>
    have ih' := ih fun s' hs' => h s' (List.mem_cons_of_mem _ hs')
    unfold kinksAt
    rw [List.filter_cons, ih', h s List.mem_cons_self]
    by_cases hc : absR (s.1 - u.1) < eps
    · rw [if_pos hc, if_pos (decide_eq_true hc)]
      simp
    · rw [if_neg hc, if_neg (by simpa using hc)]

/-- With rejected kinks the ground state is considered to compute the function whatever it computes. -/
theorem C65_false_kinks_transparent (eps : Rat) (d : List (Rat × Nat)) (l : List (Rat × Bool)) (s : Rat × StateType)
    (rest : List (Rat × StateType)) (h : kinksRejected eps d l = s :: rest) : transparent s.1 (s :: rest) = true := by
  have hacc : ∀ e (l : List (Rat × Bool)) s rest, kinksAt eps e l = s :: rest → s.2 = .accepted := by
    intro e l
    induction l with
    | nil => intro s rest h; simp [kinksAt] at h
    | cons a l ih =>
      intro s rest h
      unfold kinksAt at h
      split_ifs at h with h1 h2
      · rw [← (List.cons.inj h).1]
      · rw [← (List.cons.inj h).1]
      · exact ih s rest h
  have h2 : s.2 = .accepted := by
    unfold kinksRejected at h
    induction d with
    | nil => simp at h
    | cons u d ih =>
      rw [List.flatMap_cons] at h
      cases hk : kinksAt eps u.1 l with
      | nil =>
        rw [hk, List.nil_append] at h
        exact ih h
      | cons a as =>
        rw [hk, List.cons_append] at h
        rw [← (List.cons.inj h).1]
        exact hacc _ _ _ _ hk
  unfold transparent
  rw [h2]
  simp [absR, margin]

/-! ## Occupation probabilities -/

theorem boltzmannFactor_eq (e m t : Rat) : boltzmannFactor e m t = weight t e * Real.exp ((m * evOverK / t : Rat) : ℝ) := by
  unfold boltzmannFactor weight
  rw [← Real.exp_add]
  congr 1
  push_cast
  ring

theorem weight_pos (t e : Rat) : 0 < weight t e := Real.exp_pos _

theorem sum_map_mul_right_real {α : Type} (f : α → ℝ) (c : ℝ) (l : List α) : (l.map fun x => f x * c).sum = (l.map f).sum * c := by
  induction l with
  | nil => simp
  | cons x l ih => simp only [List.map_cons, List.sum_cons, ih]; ring

/-- The occupation probability of the erroneous states is their probability in the Boltzmann distribution. -/
theorem C65_probability (l : List (Rat × StateType)) (t : Rat) :
    probGate l t = errorProb l t ∧ 0 ≤ probGate l t ∧ probGate l t ≤ 1 := by
  have e : probGate l t = errorProb l t := by
    cases l with
    | nil => simp [probGate, errorProb]
    | cons s l =>
      unfold probGate errorProb
      dsimp only
      rw [foldl_ite_map (fun x : Rat × StateType => x.2 = .rejected) (fun x => boltzmannFactor x.1 (minState s.1 l) t),
        foldl_add_map (fun x : Rat × StateType => boltzmannFactor x.1 (minState s.1 l) t)]
      simp only [boltzmannFactor_eq, zero_add]
      rw [sum_map_mul_right_real (fun x : Rat × StateType => weight t x.1), sum_map_mul_right_real (fun x : Rat × StateType => weight t x.1)]
      exact mul_div_mul_right _ _ (ne_of_gt (Real.exp_pos _))
  have hn : 0 ≤ ((l.filter fun x => decide (x.2 = .rejected)).map fun x => weight t x.1).sum :=
    sum_nonneg_of _ _ fun x _ => le_of_lt (weight_pos t x.1)
  have hn' : 0 ≤ ((l.filter fun x => !decide (x.2 = .rejected)).map fun x => weight t x.1).sum :=
    sum_nonneg_of _ _ fun x _ => le_of_lt (weight_pos t x.1)
  have hs := sum_filter_add (fun x : Rat × StateType => decide (x.2 = .rejected)) (fun x => weight t x.1) l
  refine ⟨e, ?_, ?_⟩
  · rw [e]
    exact div_nonneg hn (by rw [hs]; linarith)
  · rw [e]
    exact div_le_one_of_le₀ (by rw [hs]; linarith) (by rw [hs]; linarith)

/-- With rejected kinks the occupation probability of the erroneous states is never above one half. -/
theorem C65_false_kinks_half (eps : Rat) (d : List (Rat × Nat)) (l : List (Rat × Bool)) (t : Rat) :
    probGate (kinksRejected eps d l) t ≤ 1 / 2 := by
  rw [(C65_probability _ t).1]
  unfold errorProb
  have hs := sum_filter_add (fun x : Rat × StateType => decide (x.2 = .rejected)) (fun x => weight t x.1) (kinksRejected eps d l)
  have hat : ∀ (e : Rat) (l : List (Rat × Bool)), (((kinksAt eps e l).filter fun x => decide (x.2 = .rejected)).map fun x => weight t x.1).sum ≤
      (((kinksAt eps e l).filter fun x => !decide (x.2 = .rejected)).map fun x => weight t x.1).sum := by
    intro e l
    induction l with
    | nil => simp [kinksAt]
    | cons a l ih =>
      unfold kinksAt
      have := weight_pos t e
      split_ifs
      · simp only [List.filter_cons]
        simp only [reduceCtorEq, decide_false, Bool.false_eq_true, if_false, Bool.not_false, if_true, List.map_cons, List.sum_cons]
        linarith
      · simp [List.filter_cons]
      · exact ih
  have hle : (((kinksRejected eps d l).filter fun x => decide (x.2 = .rejected)).map fun x => weight t x.1).sum ≤
      (((kinksRejected eps d l).filter fun x => !decide (x.2 = .rejected)).map fun x => weight t x.1).sum := by
    unfold kinksRejected
    induction d with
    | nil => simp
    | cons u d ih =>
      have ih' := ih (sum_filter_add _ _ _)
      rw [List.flatMap_cons, List.filter_append, List.filter_append, List.map_append, List.map_append, List.sum_append, List.sum_append]
      have := hat u.1 l
      linarith
  have hn : 0 ≤ (((kinksRejected eps d l).filter fun x => decide (x.2 = .rejected)).map fun x => weight t x.1).sum :=
    sum_nonneg_of _ _ fun x _ => le_of_lt (weight_pos t x.1)
  rcases eq_or_lt_of_le (show 0 ≤ ((kinksRejected eps d l).map fun x => weight t x.1).sum by rw [hs]; linarith) with h0 | h0
  · rw [← h0, div_zero]; norm_num
  · rw [div_le_iff₀ h0, hs]
    linarith

/-- The only state of a layout does not compute the function: the code takes the ground state to compute it and the
probability of an error to be one half at every temperature, where it is one. -/
theorem C65_false_kinks :
    kinksRejected margin [(0, 1)] [(0, false)] = [(0, .accepted), (0, .rejected)] ∧
      (∀ t, probGate (kinksRejected margin [(0, 1)] [(0, false)]) t = 1 / 2) ∧ ∀ t, errorProb [(0, .rejected)] t = 1 := by
  have h : kinksRejected margin [(0, 1)] [(0, false)] = [(0, .accepted), (0, .rejected)] := by decide +kernel
  refine ⟨h, fun t => ?_, fun t => ?_⟩
  · rw [h, (C65_probability _ t).1]
    unfold errorProb weight
    simp [List.filter_cons]
    norm_num
  · unfold errorProb weight
    simp [List.filter_cons]

/-! ## Critical temperature of gates -/

theorem transparent_iff (m : Rat) (l : List (Rat × StateType)) (h : ∀ x ∈ l, x.1 = m ∨ m + margin ≤ x.1) :
    transparent m l = true ↔ ∃ x ∈ l, x.1 = m ∧ x.2 = .accepted := by
  induction l with
  | nil => simp [transparent]
  | cons s l ih =>
    unfold transparent
    rw [Bool.or_eq_true, ih fun x hx => h x (List.mem_cons_of_mem _ hx), Bool.and_eq_true, decide_eq_true_eq, decide_eq_true_eq]
    have hs : absR (round6 s.1 - round6 m) < margin ↔ s.1 = m := by
      constructor
      · intro hc
        rcases h s List.mem_cons_self with h1 | h1
        · exact h1
        · have := round6_separated _ _ h1
          unfold absR at hc
          have hp : (0 : Rat) < margin := by norm_num [margin]
          split_ifs at hc <;> linarith
      · intro e
        rw [e, sub_self]
        norm_num [absR, margin]
    rw [hs]
    simp

/-- The critical temperature of a gate is zero if for some input pattern no ground state computes the function.
Otherwise it is a temperature such that at every simulated temperature below it the probability of an error is within
the tolerated one for every input pattern. It is the maximal temperature, or a simulated one at which this is not so. -/
theorem C65_gate (maxT conf : Rat) (hm : 0 ≤ maxT) (numCells : Nat) (hc : 1 < numCells) (ps : List Pattern) (hwf : ∀ P ∈ ps, P.WF) :
    let r := criticalTemperatureGate maxT conf numCells ps
    ((∃ P ∈ ps, ¬ P.Works) → r = 0) ∧
    ((∀ P ∈ ps, P.Works) →
      (∀ P ∈ ps, ∀ k : Nat, 1 ≤ k → (k : Rat) / 100 < r → P.err ((k : Rat) / 100) ≤ ((1 - conf : Rat) : ℝ)) ∧
      (r = maxT ∨ ∃ k : Nat, 1 ≤ k ∧ r = (k : Rat) / 100 ∧ r < maxT ∧ ∃ P ∈ ps, ((1 - conf : Rat) : ℝ) < P.err r)) := by
  intro r
  set n := ⌊maxT * 100⌋.toNat with hn
  have hzero : ∀ ps, gateLoop maxT conf ps 0 = 0 := by
    intro ps
    induction ps with
    | nil => rfl
    | cons P ps ih =>
      cases P with
      | positive => rfl
      | noState => rfl
      | states s l =>
        have e : gateLoop maxT conf (.states s l :: ps) 0 =
            gateLoop maxT conf ps (if transparent s.1 (s :: l) then determine maxT conf (s :: l) 0 else 0) := rfl
        have e' : determine maxT conf (s :: l) 0 = 0 := scan_zero ..
        rw [e, e', ite_self]
        exact ih
  have key : ∀ (ps : List Pattern) (ct : Rat), (∀ P ∈ ps, P.WF) → CtInv maxT n ct →
      ((∃ P ∈ ps, ¬ P.Works) → gateLoop maxT conf ps ct = 0) ∧
      ((∀ P ∈ ps, P.Works) →
        (∀ P ∈ ps, ∀ t ∈ temps n, t < gateLoop maxT conf ps ct → P.err t ≤ ((1 - conf : Rat) : ℝ)) ∧
        CtInv maxT n (gateLoop maxT conf ps ct) ∧
        (gateLoop maxT conf ps ct = ct ∨ (gateLoop maxT conf ps ct ∈ temps n ∧ gateLoop maxT conf ps ct < ct ∧
          ∃ P ∈ ps, ((1 - conf : Rat) : ℝ) < P.err (gateLoop maxT conf ps ct)))) := by
    intro ps
    induction ps with
    | nil => intro ct _ hi; exact ⟨by simp, fun _ => ⟨by simp, hi, Or.inl rfl⟩⟩
    | cons P ps ih =>
      intro ct hw hi
      have hw' : ∀ Q ∈ ps, Q.WF := fun Q hQ => hw Q (List.mem_cons_of_mem _ hQ)
      cases P with
      | positive => exact ⟨fun _ => rfl, fun h => absurd (h .positive List.mem_cons_self) id⟩
      | noState => exact ⟨fun _ => rfl, fun h => absurd (h .noState List.mem_cons_self) id⟩
      | states s l =>
        have e : gateLoop maxT conf (.states s l :: ps) ct =
            gateLoop maxT conf ps (if transparent s.1 (s :: l) then determine maxT conf (s :: l) ct else 0) := rfl
        have hwf : ∀ x ∈ s :: l, x.1 = s.1 ∨ s.1 + margin ≤ x.1 := by
          intro x hx
          rcases List.mem_cons.1 hx with rfl | hx
          · exact Or.inl rfl
          · exact hw (.states s l) List.mem_cons_self x hx
        have ht := transparent_iff s.1 (s :: l) hwf
        by_cases hW : (Pattern.states s l).Works
        · have htr : transparent s.1 (s :: l) = true := ht.2 hW
          have e2 : gateLoop maxT conf (.states s l :: ps) ct = gateLoop maxT conf ps (determine maxT conf (s :: l) ct) := by
            rw [e, htr]; rfl
          obtain ⟨s1, s2⟩ := scan_temps maxT (probGate (s :: l)) ((1 - conf : Rat) : ℝ) n ct hi
          have hi' : CtInv maxT n (determine maxT conf (s :: l) ct) := hi.scan hm _ _
          have hdet : determine maxT conf (s :: l) ct = scan maxT (probGate (s :: l)) ((1 - conf : Rat) : ℝ) (temps n) ct := rfl
          rw [← hdet] at s1 s2
          obtain ⟨i1, i2⟩ := ih _ hw' hi'
          rw [e2]
          refine ⟨?_, fun hall => ?_⟩
          · rintro ⟨Q, hQ, hnQ⟩
            rcases List.mem_cons.1 hQ with rfl | hQ
            · exact absurd hW hnQ
            · exact i1 ⟨Q, hQ, hnQ⟩
          · obtain ⟨j1, j2, j3⟩ := i2 fun Q hQ => hall Q (List.mem_cons_of_mem _ hQ)
            have hle : gateLoop maxT conf ps (determine maxT conf (s :: l) ct) ≤ determine maxT conf (s :: l) ct := by
              rcases j3 with j3 | ⟨_, j3, _⟩
              · exact le_of_eq j3
              · exact le_of_lt j3
            refine ⟨?_, j2, ?_⟩
            · intro Q hQ t htm hlt
              rcases List.mem_cons.1 hQ with rfl | hQ
              · have := s2 t htm (lt_of_lt_of_le hlt hle)
                rw [(C65_probability _ _).1] at this
                exact this
              · exact j1 Q hQ t htm hlt
            · rcases j3 with j3 | ⟨k1, k2, Q, hQ, k3⟩
              · rw [j3]
                rcases s1 with s1 | ⟨k1, k2, k3⟩
                · exact Or.inl s1
                · rw [(C65_probability _ _).1] at k3
                  exact Or.inr ⟨k1, k2, _, List.mem_cons_self, k3⟩
              · refine Or.inr ⟨k1, lt_of_lt_of_le k2 ?_, Q, List.mem_cons_of_mem _ hQ, k3⟩
                rcases s1 with s1 | ⟨_, s1, _⟩
                · exact le_of_eq s1
                · exact le_of_lt s1
        · have htr : transparent s.1 (s :: l) = false := by
            cases hb : transparent s.1 (s :: l) with
            | false => rfl
            | true => exact absurd (ht.1 hb) hW
          rw [e, htr]
          simp only [Bool.false_eq_true, if_false]
          exact ⟨fun _ => hzero ps, fun hall => absurd (hall _ List.mem_cons_self) hW⟩
  have hr : r = gateLoop maxT conf ps maxT := by
    show criticalTemperatureGate maxT conf numCells ps = _
    unfold criticalTemperatureGate
    rw [if_neg (by omega), if_pos hc]
  obtain ⟨k1, k2⟩ := key ps maxT hwf (Or.inl rfl)
  rw [hr]
  refine ⟨k1, fun hall => ?_⟩
  obtain ⟨j1, j2, j3⟩ := k2 hall
  have hle : gateLoop maxT conf ps maxT ≤ maxT := by
    rcases j3 with j3 | ⟨_, j3, _⟩
    · exact le_of_eq j3
    · exact le_of_lt j3
  refine ⟨?_, ?_⟩
  · intro P hP k hk hlt
    refine j1 P hP _ ((mem_temps n _).2 ⟨k - 1, ?_, ?_⟩) hlt
    · have h1 : (k : Rat) ≤ maxT * 100 := by linarith
      have h2 : (k : Int) ≤ ⌊maxT * 100⌋ := Int.le_floor.2 (by exact_mod_cast h1)
      omega
    · rw [Nat.cast_sub hk]
      push_cast
      ring
  · rcases j3 with j3 | ⟨h1, h2, h3⟩
    · exact Or.inl j3
    · obtain ⟨i, _, e⟩ := (mem_temps n _).1 h1
      exact Or.inr ⟨i + 1, by omega, by rw [e]; push_cast; ring, h2, h3⟩

/-! ## Critical temperature of other layouts -/

/-- The probability of the excited states in the Boltzmann distribution. -/
noncomputable def excitedProb (d : List (Rat × Nat)) (excited : Rat → Bool) (t : Rat) : ℝ :=
  ((d.filter fun x => excited x.1).map fun x => x.2 * weight t x.1).sum / (d.map fun x => x.2 * weight t x.1).sum

theorem probNonGate_eq (u : Rat × Nat) (d : List (Rat × Nat)) (t : Rat) :
    probNonGate (u :: d) t = excitedProb (u :: d) (isExcited u.1) t := by
  unfold probNonGate excitedProb
  dsimp only
  rw [foldl_ite_map (fun x : Rat × Nat => isExcited u.1 x.1 = true) (fun x => (x.2 : ℝ) * boltzmannFactor x.1 u.1 t),
    foldl_add_map (fun x : Rat × Nat => (x.2 : ℝ) * boltzmannFactor x.1 u.1 t)]
  simp only [boltzmannFactor_eq, zero_add, ← mul_assoc]
  rw [sum_map_mul_right_real (fun x : Rat × Nat => (x.2 : ℝ) * weight t x.1), sum_map_mul_right_real (fun x : Rat × Nat => (x.2 : ℝ) * weight t x.1)]
  rw [mul_div_mul_right _ _ (ne_of_gt (Real.exp_pos _))]
  simp

theorem weight_cross (t1 t2 x g : Rat) (h1 : 0 < t1) (h12 : t1 ≤ t2) (hxg : g ≤ x) :
    weight t1 x * weight t2 g ≤ weight t2 x * weight t1 g := by
  unfold weight
  rw [← Real.exp_add, ← Real.exp_add, Real.exp_le_exp]
  have hk : (0 : Rat) < evOverK := by norm_num [evOverK]
  have h2 : 0 < t2 := lt_of_lt_of_le h1 h12
  have h3 : evOverK / t2 ≤ evOverK / t1 := div_le_div_of_nonneg_left (le_of_lt hk) h1 h12
  have h4 : (x - g) * (evOverK / t2) ≤ (x - g) * (evOverK / t1) := mul_le_mul_of_nonneg_left h3 (by linarith)
  have h5 : -(x * evOverK / t1) + -(g * evOverK / t2) ≤ -(x * evOverK / t2) + -(g * evOverK / t1) := by
    have e1 : x * evOverK / t1 = x * (evOverK / t1) := mul_div_assoc ..
    have e2 : g * evOverK / t2 = g * (evOverK / t2) := mul_div_assoc ..
    have e3 : x * evOverK / t2 = x * (evOverK / t2) := mul_div_assoc ..
    have e4 : g * evOverK / t1 = g * (evOverK / t1) := mul_div_assoc ..
    rw [e1, e2, e3, e4]
    linarith
  exact_mod_cast h5

/-- The occupation probability of the excited states does not decrease with the temperature. -/
theorem C65_monotone (d : List (Rat × Nat)) (hs : (d.map Prod.fst).Pairwise (· < ·)) (hg : ∀ u ∈ d, 0 < u.2) (t1 t2 : Rat)
    (h1 : 0 < t1) (h12 : t1 ≤ t2) : probNonGate d t1 ≤ probNonGate d t2 := by
  cases d with
  | nil => simp [probNonGate]
  | cons u d =>
    rw [probNonGate_eq, probNonGate_eq]
    unfold excitedProb
    have hpos : ∀ t, 0 < ((u :: d).map fun x => (x.2 : ℝ) * weight t x.1).sum := by
      intro t
      rw [List.map_cons, List.sum_cons]
      have ha : (0 : ℝ) < u.2 * weight t u.1 := mul_pos (by exact_mod_cast hg u List.mem_cons_self) (weight_pos _ _)
      have hb : 0 ≤ (d.map fun x => (x.2 : ℝ) * weight t x.1).sum :=
        sum_nonneg_of _ _ fun x _ => mul_nonneg (Nat.cast_nonneg _) (le_of_lt (weight_pos _ _))
      linarith
    rw [div_le_div_iff₀ (hpos t1) (hpos t2),
      sum_filter_add (fun x : Rat × Nat => isExcited u.1 x.1) (fun x => (x.2 : ℝ) * weight t2 x.1) (u :: d),
      sum_filter_add (fun x : Rat × Nat => isExcited u.1 x.1) (fun x => (x.2 : ℝ) * weight t1 x.1) (u :: d)]
    have hlow : ∀ x ∈ u :: d, u.1 ≤ x.1 := by
      intro x hx
      rcases List.mem_cons.1 hx with rfl | hx
      · exact le_refl _
      · rw [List.map_cons, List.pairwise_cons] at hs
        exact le_of_lt (hs.1 x.1 (List.mem_map_of_mem hx))
    have := sum_cross_le (fun x : Rat × Nat => (x.2 : ℝ) * weight t1 x.1) (fun x : Rat × Nat => (x.2 : ℝ) * weight t2 x.1)
      ((u :: d).filter fun x => isExcited u.1 x.1) ((u :: d).filter fun x => !isExcited u.1 x.1) (by
        intro x hx g hg'
        obtain ⟨hx1, hx2⟩ := List.mem_filter.1 hx
        obtain ⟨hg1, hg2⟩ := List.mem_filter.1 hg'
        have hle : g.1 ≤ x.1 := by
          by_contra hlt
          have hm := round6_mono x.1 g.1 (le_of_lt (lt_of_not_ge hlt))
          have a1 := round6_mono u.1 x.1 (hlow x hx1)
          have a2 := round6_mono u.1 g.1 (hlow g hg1)
          have b1 := of_decide_eq_true hx2
          have b2 : ¬ margin < absR (round6 g.1 - round6 u.1) := by
            simpa [isExcited] using hg2
          unfold absR at b1 b2
          split_ifs at b1 b2 <;> linarith
        have hw := weight_cross t1 t2 x.1 g.1 h1 h12 hle
        have hc : (0 : ℝ) ≤ (x.2 : ℝ) * g.2 := mul_nonneg (Nat.cast_nonneg _) (Nat.cast_nonneg _)
        have := mul_le_mul_of_nonneg_left hw hc
        linarith)
    linarith

/-- The critical temperature of a layout that is not a gate: at every temperature up to 0.01 K below it the excited
states are occupied with the tolerated probability at most; from it on, if it is below the maximal temperature, with a
greater one. -/
theorem C65_non_gate (maxT conf : Rat) (hm : 0 ≤ maxT) (d : List (Rat × Nat)) (hs : (d.map Prod.fst).Pairwise (· < ·))
    (hg : ∀ u ∈ d, 0 < u.2) :
    let r := criticalTemperatureNonGate maxT conf (some d)
    r ≤ maxT ∧ (∀ t, 0 < t → t ≤ r - 1 / 100 → probNonGate d t ≤ ((1 - conf : Rat) : ℝ)) ∧
      (r < maxT → ∀ t, r ≤ t → ((1 - conf : Rat) : ℝ) < probNonGate d t) := by
  intro r
  set n := (roundAway (maxT * 100)).toNat with hn
  obtain ⟨s1, s2⟩ := scan_temps maxT (probNonGate d) ((1 - conf : Rat) : ℝ) n maxT (Or.inl rfl)
  have hr : r = scan maxT (probNonGate d) ((1 - conf : Rat) : ℝ) (temps n) maxT := rfl
  rw [← hr] at s1 s2
  have hle : r ≤ maxT := by
    rcases s1 with s1 | ⟨_, s1, _⟩
    · exact le_of_eq s1
    · exact le_of_lt s1
  refine ⟨hle, ?_, ?_⟩
  · intro t h0 ht
    have hk1 : t * 100 ≤ ((⌈t * 100⌉ : Int) : Rat) := Int.le_ceil _
    have hk2 : ((⌈t * 100⌉ : Int) : Rat) < t * 100 + 1 := Int.ceil_lt_add_one _
    have hk3 : 0 < ⌈t * 100⌉ := Int.ceil_pos.2 (by linarith)
    obtain ⟨k, hk⟩ := Int.eq_ofNat_of_zero_le (le_of_lt hk3)
    rw [hk] at hk1 hk2 hk3
    have hk3' : 1 ≤ k := by
      have : (0 : Int) < (k : Int) := hk3
      omega
    have hk1' : t * 100 ≤ (k : Rat) := by exact_mod_cast hk1
    have hk2' : (k : Rat) < t * 100 + 1 := by exact_mod_cast hk2
    refine le_trans (C65_monotone d hs hg t ((k : Rat) / 100) h0 (by linarith)) ?_
    refine s2 _ ((mem_temps n _).2 ⟨k - 1, ?_, ?_⟩) (by linarith)
    · have h1 : (k : Int) ≤ roundAway (maxT * 100) := by
        unfold roundAway
        rw [if_neg (by linarith)]
        refine Int.le_floor.2 ?_
        push_cast
        linarith
      omega
    · rw [Nat.cast_sub hk3']
      push_cast
      ring
  · intro hlt t ht
    rcases s1 with s1 | ⟨h1, _, h3⟩
    · exact absurd s1 (ne_of_lt hlt)
    · obtain ⟨i, _, e⟩ := (mem_temps n _).1 h1
      have h0 : (0 : Rat) < r := by
        rw [e]
        have : (0 : Rat) ≤ i := Nat.cast_nonneg i
        linarith
      exact lt_of_lt_of_le h3 (C65_monotone d hs hg r t h0 ht)

/-- Without any simulation result the critical temperature of a layout that is not a gate is the maximal
temperature, whereas that of a gate is zero. -/
theorem C65_no_result (maxT conf : Rat) (hm : 0 ≤ maxT) (hc : conf ≤ 1) (numCells : Nat) (ps : List Pattern) :
    criticalTemperatureNonGate maxT conf none = maxT ∧ criticalTemperatureNonGate maxT conf (some []) = maxT ∧
      (1 < numCells → criticalTemperatureGate maxT conf numCells (.noState :: ps) = 0) := by
  refine ⟨rfl, ?_, ?_⟩
  · rcases (scan_temps maxT (probNonGate []) ((1 - conf : Rat) : ℝ) (roundAway (maxT * 100)).toNat maxT (Or.inl rfl)).1 with e | ⟨_, _, h⟩
    · exact e
    · exfalso
      have h1 : (0 : ℝ) ≤ ((1 - conf : Rat) : ℝ) := by exact_mod_cast (by linarith : (0 : Rat) ≤ 1 - conf)
      have h2 : ∀ t, probNonGate [] t = 0 := fun _ => rfl
      rw [h2] at h
      linarith
  · intro h
    unfold criticalTemperatureGate
    rw [if_neg (by omega), if_pos h]
    rfl

/-- A state that the energy distribution lists above the ground state is not counted as excited if it is less than two
margins above it. -/
theorem C65_false_close_states :
    energyDistribution margin [(1, 0), (2, 12 / 10000000)] = [(0, 1), (12 / 10000000, 1)] ∧
      ∀ t, probNonGate [(0, 1), (12 / 10000000, 1)] t = 0 := by
  refine ⟨by decide +kernel, fun t => ?_⟩
  rw [probNonGate_eq]
  unfold excitedProb
  have h1 : isExcited 0 0 = false := by decide +kernel
  have h2 : isExcited 0 (12 / 10000000) = false := by decide +kernel
  simp [List.filter_cons, h1, h2]

/-! ## Examples -/

example : Pattern.WF (.states (0, .accepted) [(1 / 100, .rejected)]) ∧ Pattern.Works (.states (0, .accepted) [(1 / 100, .rejected)]) := by
  refine ⟨?_, ⟨_, List.mem_cons_self, rfl, rfl⟩⟩
  intro x hx
  obtain rfl : x = (1 / 100, .rejected) := by simpa using hx
  exact Or.inr (by norm_num [margin])

/-- No error is tolerated and one is possible: the lowest simulated temperature. -/
example : criticalTemperatureGate 400 1 2 [.states (0, .accepted) [], .states (0, .accepted) [(1 / 100, .rejected)]] = 1 / 100 := by
  have hpos : 0 < (Pattern.states (0, .accepted) [(1 / 100, .rejected)]).err (1 / 100) := by
    show 0 < errorProb [(0, .accepted), (1 / 100, .rejected)] (1 / 100)
    unfold errorProb
    have := weight_pos (1 / 100) 0
    have := weight_pos (1 / 100) (1 / 100)
    simp only [List.filter_cons, List.filter_nil, reduceCtorEq, decide_false, decide_true, Bool.false_eq_true, if_false, if_true,
      List.map_cons, List.map_nil, List.sum_cons, List.sum_nil]
    positivity
  have h := C65_gate 400 1 (by norm_num) 2 (by norm_num) [.states (0, .accepted) [], .states (0, .accepted) [(1 / 100, .rejected)]] (by
    intro P hP
    simp only [List.mem_cons, List.not_mem_nil, or_false] at hP
    rcases hP with rfl | rfl
    · intro x hx; simp at hx
    · intro x hx
      obtain rfl : x = (1 / 100, .rejected) := by simpa using hx
      exact Or.inr (by norm_num [margin]))
  obtain ⟨h1, h2⟩ := h.2 (by
    intro P hP
    simp only [List.mem_cons, List.not_mem_nil, or_false] at hP
    rcases hP with rfl | rfl
    · exact ⟨_, List.mem_cons_self, rfl, rfl⟩
    · exact ⟨_, List.mem_cons_self, rfl, rfl⟩)
  have h3 : ¬ (1 / 100 : Rat) < criticalTemperatureGate 400 1 2 [.states (0, .accepted) [], .states (0, .accepted) [(1 / 100, .rejected)]] := by
    intro hlt
    have := h1 (.states (0, .accepted) [(1 / 100, .rejected)]) (by simp) 1 (by norm_num) (by push_cast; exact hlt)
    push_cast at this
    norm_num at this hpos
    linarith
  rcases h2 with h2 | ⟨k, hk, e, _⟩
  · rw [h2] at h3
    norm_num at h3
  · rw [e] at h3 ⊢
    have : (1 : Rat) ≤ k := by exact_mod_cast hk
    have : (k : Rat) ≤ 1 := by linarith
    have : (k : Rat) = 1 := by linarith
    rw [this]

end Verif.SidbAnalysis
