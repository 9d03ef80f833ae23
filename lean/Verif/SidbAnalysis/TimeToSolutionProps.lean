import Verif.SidbAnalysis.TimeToSolution

/-!
# C66: accuracy and time to solution
-/
namespace Verif.SidbAnalysis

open Verif.Sidb

/-! ## Specification -/

/-- A heuristic result is successful: it has exactly the ground states of the exact result. -/
def Success (eps : Rat) (en : Nat → Rat) (exact h : Run) : Prop :=
  exact.dists ≠ [] ∧ ∀ k, IsGround eps en h.dists k ↔ IsGround eps en exact.dists k

open Classical in
/-- The number of successful results. -/
noncomputable def successes (eps : Rat) (en : Nat → Rat) (exact : Run) (runs : List Run) : Nat :=
  runs.countP fun h => decide (Success eps en exact h)

theorem isGroundState_success (eps : Rat) (heps : 0 < eps) (en : Nat → Rat) (exact h : Run)
    (he : ∀ p ∈ exact.dists, p.2 = en p.1) (hh : ∀ p ∈ h.dists, p.2 = en p.1) :
    isGroundState false eps h.dists exact.dists = some true ↔ Success eps en exact h := by
  obtain ⟨b, h1, h2⟩ := C64_is_ground_state eps heps en en h.dists exact.dists hh he
  rw [h1, Option.some.injEq, h2]
  rfl

theorem tally_spec (eps : Rat) (heps : 0 < eps) (en : Nat → Rat) (exact : Run) (he : ∀ p ∈ exact.dists, p.2 = en p.1)
    (runs : List Run) (hr : ∀ h ∈ runs, ∀ p ∈ h.dists, p.2 = en p.1) (a : Nat × Rat) :
    tally eps exact runs a = (a.1 + successes eps en exact runs, a.2 + (runs.map Run.runtime).sum) := by
  classical
  induction runs generalizing a with
  | nil => simp [tally, successes]
  | cons h hs ih =>
    unfold tally
    rw [ih fun h' hh' => hr h' (List.mem_cons_of_mem _ hh')]
    have e := isGroundState_success eps heps en exact h he (hr h List.mem_cons_self)
    unfold successes
    rw [List.countP_cons, List.map_cons, List.sum_cons]
    by_cases hc : Success eps en exact h
    · rw [if_pos (e.2 hc), if_pos (decide_eq_true hc)]
      refine Prod.ext ?_ ?_
      · simp only; omega
      · simp only; exact add_assoc ..
    · rw [if_neg (fun hh => hc (e.1 hh)), if_neg (by simpa using hc)]
      refine Prod.ext ?_ ?_
      · simp only; omega
      · simp only; exact add_assoc ..

/-- The accuracy is the percentage of successful results and the mean run time is their average. -/
theorem C66_accuracy (eps conf : Rat) (heps : 0 < eps) (en : Nat → Rat) (exact : Run) (he : ∀ p ∈ exact.dists, p.2 = en p.1)
    (runs : List Run) (hr : ∀ h ∈ runs, ∀ p ∈ h.dists, p.2 = en p.1) (hne : runs ≠ []) :
    (ttsGiven eps conf exact runs).acc = some ((successes eps en exact runs : Rat) / runs.length * 100) ∧
      (ttsGiven eps conf exact runs).mean = some ((runs.map Run.runtime).sum / runs.length) := by
  have hl : runs.length ≠ 0 := by simpa using hne
  unfold ttsGiven
  rw [tally_spec eps heps en exact he runs hr]
  simp [divCount, hl]

/-- The time to solution: infinite without a success, one mean run time if all results are successful, and otherwise
the time after which, running the heuristic again and again, the probability that no run was successful is down to
`1 - confidence_level`. -/
theorem C66_time (eps conf : Rat) (hconf : conf < 1) (heps : 0 < eps) (en : Nat → Rat) (exact : Run)
    (he : ∀ p ∈ exact.dists, p.2 = en p.1) (runs : List Run) (hr : ∀ h ∈ runs, ∀ p ∈ h.dists, p.2 = en p.1) (hne : runs ≠ [])
    (hpos : ∀ h ∈ runs, 0 < h.runtime) :
    let s := successes eps en exact runs
    let m : ℝ := (((runs.map Run.runtime).sum / runs.length : Rat) : ℝ)
    (s = 0 → (ttsGiven eps conf exact runs).tts = .inf) ∧
    (s = runs.length → (ttsGiven eps conf exact runs).tts = .val m) ∧
    (0 < s → s < runs.length → ∃ x, (ttsGiven eps conf exact runs).tts = .val x ∧
      (1 - (s : ℝ) / runs.length) ^ (x / m) = 1 - (conf : ℝ)) := by
  intro s m
  have hl : runs.length ≠ 0 := by simpa using hne
  have hl' : (runs.length : Rat) ≠ 0 := by exact_mod_cast hl
  have e : (ttsGiven eps conf exact runs).tts = if ((s : Rat) / runs.length) = 1 then .val m else if ((s : Rat) / runs.length) = 0 then .inf
      else .val (m * Real.log (1 - (conf : ℝ)) / Real.log (1 - (((s : Rat) / runs.length : Rat) : ℝ))) := by
    unfold ttsGiven
    rw [tally_spec eps heps en exact he runs hr]
    simp only [zero_add, divCount, if_neg hl]
    rfl
  have h1 : (s : Rat) / runs.length = 1 ↔ s = runs.length := by
    rw [div_eq_one_iff_eq hl']
    exact Nat.cast_inj
  have h0 : (s : Rat) / runs.length = 0 ↔ s = 0 := by
    rw [div_eq_zero_iff]
    constructor
    · rintro (h | h)
      · exact_mod_cast h
      · exact absurd h hl'
    · intro h; left; exact_mod_cast h
  refine ⟨fun hs => ?_, fun hs => ?_, fun hs hs' => ?_⟩
  · rw [e, if_neg (by rw [h1]; omega), if_pos (h0.2 hs)]
  · rw [e, if_pos (h1.2 hs)]
  · rw [e, if_neg (by rw [h1]; omega), if_neg (by rw [h0]; omega)]
    refine ⟨_, rfl, ?_⟩
    have hsum : 0 < (runs.map Run.runtime).sum := by
      have : ∀ rs : List Run, rs ≠ [] → (∀ h ∈ rs, 0 < h.runtime) → 0 < (rs.map Run.runtime).sum := by
        intro rs
        induction rs with
        | nil => intro h; exact absurd rfl h
        | cons r rs ih =>
          intro _ hp
          rw [List.map_cons, List.sum_cons]
          have hr0 := hp r List.mem_cons_self
          rcases rs with _ | ⟨q, rs⟩
          · simpa using hr0
          · have := ih (by simp) fun h hh => hp h (List.mem_cons_of_mem _ hh)
            linarith
      exact this runs hne hpos
    have hm : 0 < m := by
      have : (0 : Rat) < (runs.map Run.runtime).sum / runs.length :=
        div_pos hsum (by exact_mod_cast Nat.pos_of_ne_zero hl)
      exact Rat.cast_pos.2 this
    have hlr : (0 : ℝ) < runs.length := by exact_mod_cast Nat.pos_of_ne_zero hl
    have ha0 : (0 : ℝ) < (s : ℝ) / runs.length := div_pos (by exact_mod_cast hs) hlr
    have ha1 : (s : ℝ) / runs.length < 1 := (div_lt_one hlr).2 (by exact_mod_cast hs')
    have hb : (0 : ℝ) < 1 - (s : ℝ) / runs.length := by linarith
    have hlog : Real.log (1 - (s : ℝ) / runs.length) ≠ 0 := by
      have := Real.log_neg hb (by linarith)
      exact ne_of_lt this
    have hc : (0 : ℝ) < 1 - (conf : ℝ) := by
      have : (conf : ℝ) < 1 := by exact_mod_cast hconf
      linarith
    rw [Real.rpow_def_of_pos hb]
    push_cast
    have : Real.log (1 - (s : ℝ) / runs.length) *
        (m * Real.log (1 - (conf : ℝ)) / Real.log (1 - (s : ℝ) / runs.length) / m) = Real.log (1 - (conf : ℝ)) := by
      have hm' := ne_of_gt hm
      generalize Real.log (1 - (s : ℝ) / runs.length) = a at hlog
      generalize Real.log (1 - (conf : ℝ)) = b
      generalize m = c at hm'
      field_simp
    rw [this, Real.exp_log hc]

/-- If no run has a result, accuracy and time to solution are not numbers. -/
theorem C66_no_runs (eps conf : Rat) (numCells : Nat) (hn : numCells ≠ 0) (exact : Run) (runs : List (Option Run))
    (h : ∀ r ∈ runs, r = none) :
    (timeToSolution eps conf numCells exact runs).acc = none ∧ (timeToSolution eps conf numCells exact runs).tts = .nan := by
  have e : runs.filterMap id = [] := by
    rw [List.filterMap_eq_nil_iff]
    intro r hr
    rw [h r hr]
    rfl
  unfold timeToSolution
  rw [if_neg hn, e]
  exact ⟨rfl, rfl⟩

/-- Runs without a result are not counted as failures: with one such run and one successful run the accuracy is
reported to be 100 percent. In general adding runs without a result changes nothing. -/
theorem C66_false_failed_runs :
    (timeToSolution (1 / 1000000) (997 / 1000) 2 ⟨[(1, -2), (2, -1)], 5⟩ [none, some ⟨[(1, -2)], 1⟩]).acc = some 100 ∧
      ∀ (eps conf : Rat) (numCells : Nat) (exact : Run) (runs : List (Option Run)) (k : Nat),
        timeToSolution eps conf numCells exact (List.replicate k none ++ runs) = timeToSolution eps conf numCells exact runs := by
  refine ⟨?_, ?_⟩
  · have : isGroundState false (1 / 1000000) [(1, -2)] [(1, -2), (2, -1)] = some true := by decide +kernel
    unfold timeToSolution ttsGiven
    simp only [List.filterMap_cons, List.filterMap_nil, id, tally, this, if_true, divCount, List.length_cons, List.length_nil]
    norm_num
  · intro eps conf numCells exact runs k
    unfold timeToSolution
    rw [List.filterMap_append]
    have : (List.replicate k (none : Option Run)).filterMap id = [] := by
      rw [List.filterMap_eq_nil_iff]
      intro r hr
      rw [List.eq_of_mem_replicate hr]
      rfl
    rw [this, List.nil_append]

/-- One of two results has the ground state. -/
example : successes (1 / 1000000) (fun k => if k = 1 then -2 else -1) ⟨[(1, -2), (2, -1)], 5⟩ [⟨[(1, -2)], 1⟩, ⟨[(2, -1)], 1⟩] = 1 := by
  have h := tally_spec (1 / 1000000) (by norm_num) (fun k => if k = 1 then -2 else -1) ⟨[(1, -2), (2, -1)], 5⟩ (by simp)
    [⟨[(1, -2)], 1⟩, ⟨[(2, -1)], 1⟩] (by simp) (0, 0)
  have h1 : isGroundState false (1 / 1000000) [(1, -2)] [(1, -2), (2, -1)] = some true := by decide +kernel
  have h2 : isGroundState false (1 / 1000000) [(2, -1)] [(1, -2), (2, -1)] = some false := by decide +kernel
  simp only [tally, h1, h2, if_true, Option.some.injEq, Bool.false_eq_true, if_false, zero_add, Prod.mk.injEq] at h
  exact h.1.symm

end Verif.SidbAnalysis
