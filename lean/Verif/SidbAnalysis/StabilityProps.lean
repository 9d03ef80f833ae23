import Verif.SidbAnalysis.Stability
import Verif.Sidb.IndexProps
import Verif.Sidb.PotLemmas
import Mathlib.Data.List.Sort
import Mathlib.Tactic.Linarith
import Mathlib.Tactic.NormNum
import Mathlib.Algebra.Order.Ring.Rat

/-!
# Population stability and band bending resilience

The specification: `Fits` (the charge state of a SiDB at a potential), `gap` (how far the potential is from the threshold of a
transition), `Candidate` (the SiDBs considered for a transition).
-/
namespace Verif.SidbAnalysis

open Verif.Sidb

/-- The threshold that a transition crosses. -/
def threshold (E : Env) : Transition → Rat
  | .neuToNeg | .negToNeu => E.muMinus
  | .neuToPos | .posToNeu => E.muPlus

/-- How far a potential is from the threshold of a transition. -/
def gap (E : Env) (v : Rat) (t : Transition) : Rat := |threshold E t - v|

/-- The SiDBs that are considered for a transition: those in its initial charge state; for the one from neutral to negative
only those that are nearer to it than to the one from neutral to positive. -/
def Candidate (E : Env) (c : Charge) (v : Rat) : Transition → Prop
  | .negToNeu => c = .neg
  | .neuToNeg => c = .neu ∧ gap E v .neuToNeg < gap E v .neuToPos
  | .neuToPos => c = .neu
  | .posToNeu => c = .pos

/-- A charge state fits a local potential: it lies on the right side of the thresholds, without any margin. -/
def Fits (E : Env) (c : Charge) (v : Rat) : Prop :=
  (c = .neg → E.muMinus < v) ∧ (c = .neu → v < E.muMinus ∧ E.muPlus < v) ∧ (c = .pos → v < E.muPlus)

theorem absR_abs (x : Rat) : absR x = |x| := by
  unfold absR
  split_ifs with h
  · rw [abs_of_neg h]
  · rw [abs_of_nonneg (by linarith)]

theorem better_spec (pots : Transition → Option (Nat × Rat)) (t t' : Transition) (i : Nat) (x : Rat) :
    better pots t i x t' = if t' = t ∧ below x (pots t) = true then some (i, x) else pots t' := by
  unfold better
  by_cases h : below x (pots t) = true
  · rw [if_pos h]
    by_cases e : t' = t
    · simp [e, h]
    · simp [e]
  · rw [if_neg h]
    simp [h]

/-- What the loop over the cells has found for a transition. -/
def Found (E : Env) (c : Nat → Charge) (v : Nat → Rat) (n : Nat) (t : Transition) : Option (Nat × Rat) → Prop
  | none => ∀ i < n, ¬ Candidate E (c i) (v i) t
  | some (i, x) => i < n ∧ Candidate E (c i) (v i) t ∧ x = gap E (v i) t ∧ ∀ j < n, Candidate E (c j) (v j) t → x ≤ gap E (v j) t

theorem found_skip {E : Env} {c : Nat → Charge} {v : Nat → Rat} {n : Nat} {t : Transition} {o : Option (Nat × Rat)}
    (h : Found E c v n t o) (hc : ¬ Candidate E (c n) (v n) t) : Found E c v (n + 1) t o := by
  cases o with
  | none =>
    intro i hi
    rcases Nat.lt_succ_iff_lt_or_eq.mp hi with hi | rfl
    · exact h i hi
    · exact hc
  | some p =>
    obtain ⟨h1, h2, h3, h4⟩ := h
    refine ⟨by omega, h2, h3, fun j hj hcj => ?_⟩
    rcases Nat.lt_succ_iff_lt_or_eq.mp hj with hj | rfl
    · exact h4 j hj hcj
    · exact absurd hcj hc

theorem found_take {E : Env} {c : Nat → Charge} {v : Nat → Rat} {n : Nat} {t : Transition} {o : Option (Nat × Rat)}
    (h : Found E c v n t o) (hc : Candidate E (c n) (v n) t) :
    Found E c v (n + 1) t (if below (gap E (v n) t) o = true then some (n, gap E (v n) t) else o) := by
  cases o with
  | none =>
    simp only [below, if_true]
    refine ⟨by omega, hc, rfl, fun j hj hcj => ?_⟩
    rcases Nat.lt_succ_iff_lt_or_eq.mp hj with hj | rfl
    · exact absurd hcj (h j hj)
    · exact le_refl _
  | some p =>
    obtain ⟨i, x⟩ := p
    obtain ⟨h1, h2, h3, h4⟩ := h
    by_cases hb : gap E (v n) t < x
    · simp only [below, hb, decide_true, if_true]
      refine ⟨by omega, hc, rfl, fun j hj hcj => ?_⟩
      rcases Nat.lt_succ_iff_lt_or_eq.mp hj with hj | rfl
      · have := h4 j hj hcj; linarith
      · exact le_refl _
    · simp only [below, hb, decide_false, Bool.false_eq_true, if_false]
      refine ⟨by omega, h2, h3, fun j hj hcj => ?_⟩
      rcases Nat.lt_succ_iff_lt_or_eq.mp hj with hj | rfl
      · exact h4 j hj hcj
      · linarith

theorem gap_eq (E : Env) (v : Rat) (t : Transition) : absR (-v + threshold E t) = gap E v t := by
  rw [absR_abs]; unfold gap; congr 1; ring

theorem transitions_found (E : Env) (c : Nat → Charge) (v : Nat → Rat) (n : Nat) (t : Transition) :
    Found E c v n t (transitions E c v n t) := by
  induction n with
  | zero => intro i hi; omega
  | succ n ih =>
    have g1 := gap_eq E (v n) .neuToNeg
    have g2 := gap_eq E (v n) .negToNeu
    have g3 := gap_eq E (v n) .neuToPos
    have g4 := gap_eq E (v n) .posToNeu
    simp only [threshold] at g1 g2 g3 g4
    simp only [transitions, handle]
    cases hc : c n with
    | neg =>
      simp only [handleNegative, better_spec, g2]
      by_cases e : t = .negToNeu
      · subst e
        simp only [true_and]
        exact found_take ih hc
      · rw [if_neg (fun h => e h.1)]
        exact found_skip ih (by cases t <;> simp_all [Candidate])
    | pos =>
      simp only [handlePositive, better_spec, g4]
      by_cases e : t = .posToNeu
      · subst e
        simp only [true_and]
        exact found_take ih hc
      · rw [if_neg (fun h => e h.1)]
        exact found_skip ih (by cases t <;> simp_all [Candidate])
    | neu =>
      simp only [handleNeutral, better_spec, g1, g3]
      by_cases hn : gap E (v n) .neuToNeg < gap E (v n) .neuToPos
      · rw [if_pos hn]
        simp only [better_spec]
        cases t with
        | neuToNeg =>
          simp only [reduceCtorEq, false_and, if_false, true_and]
          exact found_take ih ⟨hc, hn⟩
        | neuToPos =>
          simp only [reduceCtorEq, false_and, if_false, true_and]
          exact found_take ih hc
        | negToNeu =>
          simp only [reduceCtorEq, false_and, if_false]
          exact found_skip ih (by simp [Candidate, hc])
        | posToNeu =>
          simp only [reduceCtorEq, false_and, if_false]
          exact found_skip ih (by simp [Candidate, hc])
      · rw [if_neg hn]
        cases t with
        | neuToNeg =>
          simp only [reduceCtorEq, false_and, if_false]
          exact found_skip ih (by simp [Candidate, hn])
        | neuToPos =>
          simp only [true_and]
          exact found_take ih hc
        | negToNeu =>
          simp only [reduceCtorEq, false_and, if_false]
          exact found_skip ih (by simp [Candidate, hc])
        | posToNeu =>
          simp only [reduceCtorEq, false_and, if_false]
          exact found_skip ih (by simp [Candidate, hc])

theorem critical_spec (pots : Transition → Option (Nat × Rat)) (order : List Transition) (m : Option (Nat × Rat)) :
    match criticalLoop pots order m with
    | none => m = none ∧ ∀ t ∈ order, pots t = none
    | some (i, x) => (m = some (i, x) ∨ ∃ t ∈ order, pots t = some (i, x)) ∧ (∀ j y, m = some (j, y) → x ≤ y) ∧
        ∀ t ∈ order, ∀ j y, pots t = some (j, y) → x ≤ y := by
  induction order generalizing m with
  | nil =>
    simp only [criticalLoop]
    cases m with
    | none => simp
    | some p => simp; intro j y h; rw [h]
  | cons t ts ih =>
    simp only [criticalLoop]
    cases e : pots t with
    | none =>
      have := ih m
      simp only
      split at this
      · simp_all
      · refine ⟨?_, this.2.1, ?_⟩
        · rcases this.1 with h | ⟨t', h1, h2⟩
          · exact Or.inl h
          · exact Or.inr ⟨t', by simp [h1], h2⟩
        · intro t' ht' j y hy
          rcases List.mem_cons.mp ht' with rfl | ht'
          · rw [e] at hy; cases hy
          · exact this.2.2 t' ht' j y hy
    | some p =>
      obtain ⟨i, x⟩ := p
      simp only
      by_cases hb : below x m = true
      · rw [if_pos hb]
        have := ih (some (i, x))
        split at this
        · simp at this
        · rename_i j y hj
          obtain ⟨h1, h2, h3⟩ := this
          have hyx := h2 i x rfl
          refine ⟨?_, ?_, ?_⟩
          · rcases h1 with h1 | ⟨t', ht', h1⟩
            · exact Or.inr ⟨t, by simp, by rw [e]; exact h1⟩
            · exact Or.inr ⟨t', by simp [ht'], h1⟩
          · intro k z hm
            rw [hm] at hb
            simp only [below, decide_eq_true_eq] at hb
            linarith
          · intro t' ht' k z hz
            rcases List.mem_cons.mp ht' with rfl | ht'
            · rw [e] at hz; cases hz; exact hyx
            · exact h3 t' ht' k z hz
      · rw [if_neg hb]
        have := ih m
        cases m with
        | none => simp [below] at hb
        | some q =>
          simp only [below, decide_eq_true_eq] at hb
          split at this
          · simp at this
          · rename_i j y hj
            obtain ⟨h1, h2, h3⟩ := this
            have := h2 q.1 q.2 rfl
            refine ⟨?_, h2, ?_⟩
            · rcases h1 with h1 | ⟨t', ht', h1⟩
              · exact Or.inl h1
              · exact Or.inr ⟨t', by simp [ht'], h1⟩
            · intro t' ht' k z hz
              rcases List.mem_cons.mp ht' with rfl | ht'
              · rw [e] at hz; cases hz; linarith
              · exact h3 t' ht' k z hz

/-- All transitions, as the keys of the hash map. -/
def Complete (order : List Transition) : Prop := ∀ t, t ∈ order

/-- The local potential at a SiDB: that of the other SiDBs and defects, and the external one. -/
def localPotential (E : Env) (c : Nat → Charge) (i : Nat) : Rat := potential E c i + E.ext i

theorem localPot_eq (E : Env) (c : Nat → Charge) : localPot E c = localPotential E c := by
  funext i; unfold localPot localPotential; rw [fromScratch_eq]

theorem info_pots (E : Env) (b : Nat) (order : List Transition) (l : List Charge) :
    (infoOf E b order l).pots = transitions E (ofList l) (localPotential E (ofList l)) E.n := by
  simp only [infoOf, localPot_eq]; rfl

/-- C93. For every transition the reported potential is the smallest distance of a local potential to the threshold of the
transition over all SiDBs that are considered for it, with a SiDB where it is attained; infinity if there is none. -/
theorem C93_minimum (E : Env) (b : Nat) (order : List Transition) (l : List Charge) (t : Transition) :
    match (infoOf E b order l).pots t with
    | none => ∀ i < E.n, ¬ Candidate E (ofList l i) (localPotential E (ofList l) i) t
    | some (i, x) => i < E.n ∧ Candidate E (ofList l i) (localPotential E (ofList l) i) t ∧
        x = gap E (localPotential E (ofList l) i) t ∧
        ∀ j < E.n, Candidate E (ofList l j) (localPotential E (ofList l) j) t → x ≤ gap E (localPotential E (ofList l) j) t := by
  rw [info_pots]
  have := transitions_found E (ofList l) (localPotential E (ofList l)) E.n t
  exact this

theorem stays {a v v' m : Rat} (h : |v' - v| < m) (hm : m ≤ |a - v|) : (a < v → a < v') ∧ (v < a → v' < a) := by
  obtain ⟨h1, h2⟩ := abs_lt.mp h
  constructor
  · intro h3
    rw [abs_of_neg (by linarith)] at hm
    linarith
  · intro h3
    rw [abs_of_pos (by linarith)] at hm
    linarith

/-- C93. The reported potentials are safe: if every charge state fits its local potential, it still does when all local
potentials change at the same time, each by less than all reported potentials. -/
theorem C93_robust (E : Env) (b : Nat) (order : List Transition) (l : List Charge)
    (hf : ∀ i < E.n, Fits E (ofList l i) (localPotential E (ofList l) i)) (m : Rat)
    (hm : ∀ t i x, (infoOf E b order l).pots t = some (i, x) → m ≤ x) (v : Nat → Rat)
    (hv : ∀ i < E.n, |v i - localPotential E (ofList l) i| < m) : ∀ i < E.n, Fits E (ofList l i) (v i) := by
  intro i hi
  have key : ∀ t, Candidate E (ofList l i) (localPotential E (ofList l) i) t → m ≤ gap E (localPotential E (ofList l) i) t := by
    intro t hc
    have := C93_minimum E b order l t
    split at this
    · exact absurd hc (this i hi)
    · rename_i j x hx
      exact (hm t j x hx).trans (this.2.2.2 i hi hc)
  obtain ⟨f1, f2, f3⟩ := hf i hi
  have hv' := hv i hi
  refine ⟨fun hc => ?_, fun hc => ?_, fun hc => ?_⟩
  · exact (stays hv' (key .negToNeu hc)).1 (f1 hc)
  · have h2 := key .neuToPos hc
    have h1 : m ≤ gap E (localPotential E (ofList l) i) .neuToNeg := by
      by_cases hn : gap E (localPotential E (ofList l) i) .neuToNeg < gap E (localPotential E (ofList l) i) .neuToPos
      · exact key .neuToNeg ⟨hc, hn⟩
      · exact h2.trans (not_lt.mp hn)
    exact ⟨(stays hv' h1).2 (f2 hc).1, (stays hv' h2).1 (f2 hc).2⟩
  · exact (stays hv' (key .posToNeu hc)).2 (f3 hc)

/-- C93. The reported potentials are tight: at the critical cell a change by the smallest reported potential, at this SiDB
alone, makes its charge state unfit. There is a critical cell unless the layout has no SiDBs. -/
theorem C93_tight (E : Env) (b : Nat) (order : List Transition) (ho : Complete order) (l : List Charge) :
    match (infoOf E b order l).critical with
    | none => E.n = 0
    | some i => i < E.n ∧ ∃ m, (∃ t, (infoOf E b order l).pots t = some (i, m)) ∧
        (∀ t j x, (infoOf E b order l).pots t = some (j, x) → m ≤ x) ∧
        ∃ v, |v - localPotential E (ofList l) i| = m ∧ ¬ Fits E (ofList l i) v := by
  have hs := critical_spec (infoOf E b order l).pots order none
  have he : (infoOf E b order l).critical = (criticalLoop (infoOf E b order l).pots order none).map Prod.fst := rfl
  rw [he]
  split at hs
  · rename_i e
    rw [e]
    simp only [Option.map_none]
    by_contra hn
    have hn' : 0 < E.n := Nat.pos_of_ne_zero hn
    have hall : ∀ t, ¬ Candidate E (ofList l 0) (localPotential E (ofList l) 0) t := by
      intro t
      have := C93_minimum E b order l t
      rw [hs.2 t (ho t)] at this
      exact this 0 hn'
    cases hc : ofList l 0 with
    | neg => exact hall .negToNeu hc
    | neu => exact hall .neuToPos hc
    | pos => exact hall .posToNeu hc
  · rename_i i x e
    rw [e]
    simp only [Option.map_some]
    obtain ⟨h1, _, h3⟩ := hs
    rcases h1 with h1 | ⟨t, ht, h1⟩
    · simp at h1
    have hmin := C93_minimum E b order l t
    rw [h1] at hmin
    obtain ⟨a1, a2, a3, _⟩ := hmin
    refine ⟨a1, x, ⟨t, h1⟩, fun t' j y hy => h3 t' (ho t') j y hy, threshold E t, a3.symm, ?_⟩
    rintro ⟨f1, f2, f3⟩
    cases t with
    | negToNeu => exact absurd (f1 a2) (lt_irrefl _)
    | neuToNeg => exact absurd (f2 a2.1).1 (lt_irrefl _)
    | neuToPos => exact absurd (f2 a2).2 (lt_irrefl _)
    | posToNeu => exact absurd (f3 a2) (lt_irrefl _)

theorem index_inj (E : Env) (b : Nat) (hb : b = 2 ∨ b = 3) {l l' : List Charge} (hl : l.length = E.n) (hl' : l'.length = E.n)
    (ha : ∀ x ∈ l, Admissible b x) (ha' : ∀ x ∈ l', Admissible b x) (e : indexOf E b l = indexOf E b l') : l = l' := by
  have hg : ∀ (l : List Charge), l.length = E.n → (∀ x ∈ l, Admissible b x) → ∀ i < E.n, none ≠ some i → Admissible b (ofList l i) := by
    intro l hl ha i hi _
    have hi' : i < l.length := by omega
    have : ofList l i = l[i] := by simp [ofList, List.getD, hi']
    rw [this]
    exact ha _ (List.getElem_mem hi')
  have := C35_injective b E.n none hb (by simp) (ofList l) (ofList l') (hg l hl ha) (hg l' hl' ha') e
  apply List.ext_getElem (by omega)
  intro i h1 h2
  have := this i (by omega) (by simp)
  simpa [ofList, List.getD, h1, h2] using this

theorem perm_map {α β : Type} (f : α → β) {L : List β} {l : List α} (h : L.Perm (l.map f)) :
    ∃ l' : List α, l'.Perm l ∧ l'.map f = L := by
  induction L generalizing l with
  | nil =>
    have := h.symm.eq_nil
    exact ⟨[], by rw [List.map_eq_nil_iff.mp this], rfl⟩
  | cons a L ih =>
    obtain ⟨x, hx, rfl⟩ := List.mem_map.mp (h.mem_iff.mp (List.mem_cons_self))
    obtain ⟨l1, l2, rfl⟩ := List.append_of_mem hx
    have h' : L.Perm ((l1 ++ l2).map f) := by
      refine List.Perm.cons_inv (a := f x) (h.trans ?_)
      simp only [List.map_append, List.map_cons]
      exact List.perm_middle
    obtain ⟨l', h1, h2⟩ := ih h'
    exact ⟨x :: l', (h1.cons x).trans List.perm_middle.symm, by simp [h2]⟩

/-- C93. There is one entry for every charge distribution, in ascending order of the energies, the first one thus for a
ground state. -/
theorem C93_order (E : Env) (b : Nat) (hb : b = 2 ∨ b = 3) (order : List Transition)
    (sort : List (Rat × Nat) → List (Rat × Nat)) (hsort : ∀ l, (sort l).Perm l ∧ (sort l).Pairwise fun x y => x.1 ≤ y.1)
    (results : List (List Charge)) (hlen : ∀ l ∈ results, l.length = E.n) (hadm : ∀ l ∈ results, ∀ x ∈ l, Admissible b x) :
    ∃ l' : List (List Charge), l'.Perm results ∧ populationStability E b order sort results = l'.map (infoOf E b order) ∧
      (populationStability E b order sort results).Pairwise fun x y => x.energy ≤ y.energy := by
  have hinj : ∀ l ∈ results, ∀ l' ∈ results, indexOf E b l = indexOf E b l' → l = l' := fun l h l' h' e =>
    index_inj E b hb (hlen l h) (hlen l' h') (hadm l h) (hadm l' h') e
  let f := fun l : List Charge => (recomputeEnergy E (surfaceOf E b l), indexOf E b l)
  obtain ⟨hp, hs⟩ := hsort (results.map f)
  obtain ⟨l', h1, h2⟩ : ∃ l' : List (List Charge), l'.Perm results ∧ l'.map f = sort (results.map f) := by
    exact perm_map f hp
  have hfind : ∀ l ∈ results, (results.find? fun x => indexOf E b x == indexOf E b l) = some l := by
    intro l hl
    cases e : results.find? fun x => indexOf E b x == indexOf E b l with
    | none => exact absurd (List.find?_eq_none.mp e l hl) (by simp)
    | some x =>
      have h3 := List.find?_some e
      have h4 := List.mem_of_find?_eq_some e
      rw [hinj x h4 l hl (by simpa using h3)]
  have heq : populationStability E b order sort results = l'.map (infoOf E b order) := by
    unfold populationStability
    change (sort (results.map f)).filterMap _ = _
    rw [← h2, List.filterMap_map]
    rw [← List.filterMap_eq_map]
    refine List.filterMap_congr fun l hl => ?_
    simp only [Function.comp_apply, f]
    rw [hfind l (h1.mem_iff.mp hl)]
    rfl
  refine ⟨l', h1, heq, ?_⟩
  rw [heq, List.pairwise_map]
  rw [← h2, List.pairwise_map] at hs
  exact hs

/-! ## An example -/

/-- Sorting by energy. -/
def byEnergy (l : List (Rat × Nat)) : List (Rat × Nat) := l.insertionSort fun x y => x.1 ≤ y.1

theorem byEnergy_sorts (l : List (Rat × Nat)) : (byEnergy l).Perm l ∧ (byEnergy l).Pairwise fun x y => x.1 ≤ y.1 := by
  have : Std.Total fun x y : Rat × Nat => x.1 ≤ y.1 := ⟨fun x y => le_total x.1 y.1⟩
  have : IsTrans (Rat × Nat) fun x y => x.1 ≤ y.1 := ⟨fun x y z h1 h2 => le_trans h1 h2⟩
  exact ⟨List.perm_insertionSort _ l, List.pairwise_insertionSort _ l⟩

/-- All transitions in some order. -/
def someOrder : List Transition := [.posToNeu, .neuToNeg, .neuToPos, .negToNeu]

/-- A negative and a neutral SiDB. -/
def twoEnv : Env :=
  { n := 2, pot := fun i j => if i = j then 0 else 1/2, defectPot := fun _ => 0, ext := fun _ => 0,
    muMinus := -8/25, muPlus := -91/100, eps := 1/1000000 }

/-- Both charge states fit; the potential at the neutral SiDB is the nearest to a threshold. -/
example : Complete someOrder ∧ (∀ i < 2, Fits twoEnv (ofList [.neg, .neu] i) (localPotential twoEnv (ofList [.neg, .neu]) i)) ∧
    (infoOf twoEnv 2 someOrder [.neg, .neu]).pots .neuToNeg = some (1, 9/50) ∧
    (infoOf twoEnv 2 someOrder [.neg, .neu]).pots .negToNeu = some (0, 8/25) ∧
    (infoOf twoEnv 2 someOrder [.neg, .neu]).critical = some 1 := by
  refine ⟨by intro t; cases t <;> decide, ?_, by decide +kernel, by decide +kernel, by decide +kernel⟩
  unfold Fits; decide +kernel

/-- A SiDB next to a strongly negative defect is neutral. -/
def defectEnv : Env := { twoEnv with n := 1, defectPot := fun _ => -4/5 }

/-- C93. It is not true that the potential reported for the transition from neutral to negative is the smallest one over all
neutral SiDBs: those that are nearer to becoming positive are left out, and infinity is reported if there are no others. -/
theorem C93_false_neutral : (infoOf defectEnv 2 someOrder [.neu]).pots .neuToNeg = none ∧
    Fits defectEnv (ofList [.neu] 0) (localPotential defectEnv (ofList [.neu]) 0) ∧
    gap defectEnv (localPotential defectEnv (ofList [.neu]) 0) .neuToNeg = 12/25 := by
  refine ⟨by decide +kernel, by unfold Fits; decide +kernel, by decide +kernel⟩

/-! ## Band bending resilience -/

/-- The least one of a set of potentials; infinity if there are none. -/
def LeastOf (S : Rat → Prop) : Option Rat → Prop
  | none => ∀ x, ¬ S x
  | some m => S m ∧ ∀ x, S x → m ≤ x

/-- The potentials reported for the ground states of some simulations, for the given transition or for all. -/
def Reported (t : Option Transition) (stabs : List (List Info)) (x : Rat) : Prop :=
  ∃ g rest, (g :: rest) ∈ stabs ∧ ∃ t' i, (t = none ∨ t = some t') ∧ g.pots t' = some (i, x)

theorem lower_least {S : Rat → Prop} {m : Option Rat} (h : LeastOf S m) (p : Option (Nat × Rat)) :
    LeastOf (fun x => S x ∨ ∃ i, p = some (i, x)) (lower p m) := by
  cases p with
  | none => cases m <;> simpa [lower, LeastOf] using h
  | some q =>
    obtain ⟨i, y⟩ := q
    cases m with
    | none =>
      refine ⟨Or.inr ⟨i, rfl⟩, ?_⟩
      rintro x (hx | ⟨j, hj⟩)
      · exact absurd hx (h x)
      · cases hj; exact le_refl _
    | some z =>
      simp only [lower]
      split_ifs with hlt
      · refine ⟨Or.inr ⟨i, rfl⟩, ?_⟩
        rintro x (hx | ⟨j, hj⟩)
        · have := h.2 x hx; linarith
        · cases hj; exact le_refl _
      · refine ⟨Or.inl h.1, ?_⟩
        rintro x (hx | ⟨j, hj⟩)
        · exact h.2 x hx
        · cases hj; linarith

theorem least_congr {S S' : Rat → Prop} {m : Option Rat} (e : ∀ x, S x ↔ S' x) (h : LeastOf S m) : LeastOf S' m := by
  have : S = S' := funext fun x => propext (e x)
  rwa [this] at h

theorem fold_least (g : Info) (order : List Transition) {S : Rat → Prop} {m : Option Rat} (h : LeastOf S m) :
    LeastOf (fun x => S x ∨ ∃ t ∈ order, ∃ i, g.pots t = some (i, x)) (order.foldl (fun m t => lower (g.pots t) m) m) := by
  induction order generalizing S m with
  | nil => exact least_congr (fun x => by simp) h
  | cons t ts ih =>
    simp only [List.foldl_cons]
    refine least_congr (fun x => ?_) (ih (lower_least h (g.pots t)))
    simp only [List.mem_cons, exists_eq_or_imp, or_assoc]

theorem step_least (t : Option Transition) (order : List Transition) (ho : Complete order) (stab : List Info)
    {stabs : List (List Info)} {m : Option Rat} (h : LeastOf (Reported t stabs) m) :
    LeastOf (Reported t (stab :: stabs)) (resilienceStep t order stab m) := by
  cases stab with
  | nil =>
    refine least_congr (fun x => ?_) h
    unfold Reported
    simp
  | cons g rest =>
    simp only [resilienceStep]
    have hR : ∀ x, Reported t ((g :: rest) :: stabs) x ↔
        Reported t stabs x ∨ ∃ t' i, (t = none ∨ t = some t') ∧ g.pots t' = some (i, x) := by
      intro x
      unfold Reported
      constructor
      · rintro ⟨g', rest', hm, hx⟩
        rcases List.mem_cons.mp hm with e | hm
        · cases e; exact Or.inr hx
        · exact Or.inl ⟨g', rest', hm, hx⟩
      · rintro (⟨g', rest', hm, hx⟩ | hx)
        · exact ⟨g', rest', List.mem_cons_of_mem _ hm, hx⟩
        · exact ⟨g, rest, List.mem_cons_self, hx⟩
    cases t with
    | some t =>
      refine least_congr (fun x => ?_) (lower_least h (g.pots t))
      rw [hR]
      simp
    | none =>
      refine least_congr (fun x => ?_) (fold_least g order h)
      rw [hR]
      simp only [true_or, true_and]
      refine or_congr Iff.rfl ⟨fun ⟨t, _, i, h⟩ => ⟨t, i, h⟩, fun ⟨t, i, h⟩ => ⟨t, ho t, i, h⟩⟩

/-- C94. Unless the specification has no input patterns, the result is the least potential that is reported for the ground
state of the given layout itself, for the given transition or for all. -/
theorem C94_layout {Lyt : Type} (stab : Lyt → List Info) (t : Option Transition) (order : List Transition)
    (ho : Complete order) (layout : Lyt) (patterns : List Lyt) (hp : patterns ≠ []) :
    LeastOf (Reported t [stab layout]) (bandBendingResilience stab t order layout patterns) := by
  have key : ∀ (ps : List Lyt) (stabs : List (List Info)) (m : Option Rat), LeastOf (Reported t stabs) m →
      LeastOf (Reported t (List.replicate ps.length (stab layout) ++ stabs))
        (ps.foldl (fun m _ => resilienceStep t order (stab layout) m) m) := by
    intro ps
    induction ps with
    | nil => intro stabs m h; exact h
    | cons p ps ih =>
      intro stabs m h
      have := ih _ _ (step_least t order ho (stab layout) h)
      rw [List.foldl_cons, List.length_cons, List.replicate_succ', List.append_assoc]
      exact this
  have := key patterns [] none (fun x => by unfold Reported; simp)
  refine least_congr (fun x => ?_) this
  unfold Reported
  have : patterns.length ≠ 0 := by simpa using hp
  simp only [List.append_nil, List.mem_replicate, List.mem_singleton]
  grind

/-- C94. If the stability of the layout is the same for all input patterns, the result is the least potential that is
reported over the input patterns. Missing: input patterns with a different stability, for which this is false, see
`C94_false_patterns`. -/
theorem C94_patterns_partial {Lyt : Type} (stab : Lyt → List Info) (t : Option Transition) (order : List Transition)
    (ho : Complete order) (layout : Lyt) (patterns : List Lyt) (hp : patterns ≠ []) (hs : ∀ p ∈ patterns, stab p = stab layout) :
    LeastOf (Reported t (patterns.map stab)) (bandBendingResilience stab t order layout patterns) := by
  refine least_congr (fun x => ?_) (C94_layout stab t order ho layout patterns hp)
  obtain ⟨p, hp⟩ := List.exists_mem_of_ne_nil _ hp
  unfold Reported
  simp only [List.mem_singleton, List.mem_map]
  constructor
  · rintro ⟨g, rest, e, hx⟩
    exact ⟨g, rest, ⟨p, hp, by rw [hs p hp, e]⟩, hx⟩
  · rintro ⟨g, rest, ⟨q, hq, e⟩, hx⟩
    exact ⟨g, rest, by rw [← e, hs q hq], hx⟩

/-- Population stability of a layout, with the charge distributions of QuickExact. -/
def stabilityOf (E : Env) : List Info := populationStability E 2 someOrder byEnergy ((quickexactTwo E true 2).getD [])

/-- An input pair (SiDBs 0 and 1) and an output (SiDB 2), and the layouts for the two input patterns. -/
def gateEnv (l : List Nat) : Env :=
  { n := l.length,
    pot := fun i j => if i = j then 0 else if l.getD i 0 + l.getD j 0 = 1 then 1/5 else if l.getD i 0 + l.getD j 0 = 2 then 1/10 else 1/6,
    defectPot := fun _ => 0, ext := fun _ => 0, muMinus := -8/25, muPlus := -91/100, eps := 1/1000000 }

theorem someOrder_complete : Complete someOrder := by intro t; cases t <;> decide

/-- C94. It is not true that the result is the least potential over the input patterns: the loop simulates the layout with both
SiDBs of the input pair each time, and reports 7/150, although the ground states tolerate 11/50 and 23/150. -/
theorem C94_false_patterns :
    bandBendingResilience stabilityOf none someOrder (gateEnv [0, 1, 2]) [gateEnv [0, 2], gateEnv [1, 2]] = some (7/150) ∧
    LeastOf (Reported none [stabilityOf (gateEnv [0, 2])]) (some (11/50)) ∧
    LeastOf (Reported none [stabilityOf (gateEnv [1, 2])]) (some (23/150)) ∧
    ¬ LeastOf (Reported none ([gateEnv [0, 2], gateEnv [1, 2]].map stabilityOf)) (some (7/150)) := by
  have h1 := C94_layout stabilityOf none someOrder someOrder_complete (gateEnv [0, 2]) [gateEnv [0, 2]] (by simp)
  have h2 := C94_layout stabilityOf none someOrder someOrder_complete (gateEnv [1, 2]) [gateEnv [1, 2]] (by simp)
  have e1 : bandBendingResilience stabilityOf none someOrder (gateEnv [0, 2]) [gateEnv [0, 2]] = some (11/50) := by decide +kernel
  have e2 : bandBendingResilience stabilityOf none someOrder (gateEnv [1, 2]) [gateEnv [1, 2]] = some (23/150) := by decide +kernel
  rw [e1] at h1
  rw [e2] at h2
  refine ⟨by decide +kernel, h1, h2, ?_⟩
  rintro ⟨⟨g, rest, hm, hx⟩, _⟩
  simp only [List.map_cons, List.map_nil, List.mem_cons, List.not_mem_nil, or_false] at hm
  rcases hm with hm | hm
  · have := h1.2 (7/150) ⟨g, rest, by simp [hm], hx⟩
    norm_num at this
  · have := h2.2 (7/150) ⟨g, rest, by simp [hm], hx⟩
    norm_num at this

end Verif.SidbAnalysis
