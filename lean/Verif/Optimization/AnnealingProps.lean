import Verif.Optimization.Annealing
import Mathlib.Algebra.Order.Archimedean.Basic
import Mathlib.Tactic.NormNum
import Mathlib.Tactic.Ring

/-! # C44: simulated annealing -/
namespace Verif.Optimization

variable {S : Type}

/-- What holds at any point of a run from `s`. -/
structure Ok (c : Config S) (s : S) (r : Run S) : Prop where
  cur : r.curCost = c.cost r.curState
  curMem : r.curState ∈ r.evaluated
  best : r.bestCost = c.cost r.bestState
  first : ∃ pre post, r.evaluated = pre ++ r.bestState :: post ∧ ∀ t ∈ pre, r.bestCost < c.cost t
  least : ∀ t ∈ r.evaluated, r.bestCost ≤ c.cost t
  init : ∃ l, r.evaluated = s :: l
  count : r.evaluated.length = r.calls + 1

theorem start_ok (c : Config S) (s : S) : Ok c s (start c s) :=
  ⟨rfl, by simp [start], rfl, ⟨[], [], by simp [start], by simp⟩, by simp [start], ⟨[], rfl⟩, by simp [start]⟩

theorem cycle_ok (c : Config S) (s : S) (temp : Rat) (r : Run S) (h : Ok c s r) : Ok c s (cycle c temp r) := by
  obtain ⟨h1, h2, h3, ⟨pre, post, h4, h5⟩, h6, ⟨l, h7⟩, h8⟩ := h
  have hinit : ∃ l', r.evaluated ++ [c.next r.calls r.curState] = s :: l' := ⟨l ++ [c.next r.calls r.curState], by
    rw [h7]; rfl⟩
  have hpost : ∃ pre post, r.evaluated ++ [c.next r.calls r.curState] = pre ++ r.bestState :: post ∧
      ∀ t ∈ pre, r.bestCost < c.cost t := ⟨pre, post ++ [c.next r.calls r.curState], by rw [h4]; simp, h5⟩
  unfold cycle
  simp only []
  by_cases hb : c.cost (c.next r.calls r.curState) < r.bestCost
  · rw [if_pos hb]
    refine ⟨rfl, by simp, rfl, ⟨r.evaluated, [], by simp, ?_⟩, ?_, hinit, by simp [h8]⟩
    · intro t ht; exact lt_of_lt_of_le hb (h6 t ht)
    · intro t ht
      rcases List.mem_append.1 ht with h | h
      · exact (le_of_lt hb).trans (h6 t h)
      · rw [List.mem_singleton.1 h]
  · rw [if_neg hb]
    have hle : ∀ t ∈ r.evaluated ++ [c.next r.calls r.curState], r.bestCost ≤ c.cost t := by
      intro t ht
      rcases List.mem_append.1 ht with h | h
      · exact h6 t h
      · rw [List.mem_singleton.1 h]; exact not_lt.1 hb
    split_ifs
    · exact ⟨h1, by simp [h2], h3, hpost, hle, hinit, by simp [h8]⟩
    · exact ⟨rfl, by simp, h3, hpost, hle, hinit, by simp [h8]⟩
    · exact ⟨h1, by simp [h2], h3, hpost, hle, hinit, by simp [h8]⟩

theorem cycles_ok (c : Config S) (s : S) (temp : Rat) (n : Nat) (r : Run S) (h : Ok c s r) :
    Ok c s (cycles c temp n r) := by
  induction n generalizing r with
  | zero => exact h
  | succ n ih => exact ih _ (cycle_ok c s temp r h)

theorem outer_ok (c : Config S) (s : S) (fuel : Nat) (temp : Rat) (r r' : Run S) (h : Ok c s r)
    (e : outer c fuel temp r = some r') : Ok c s r' := by
  induction fuel generalizing temp r with
  | zero =>
    unfold outer at e
    split_ifs at e
    exact (Option.some.inj e) ▸ h
  | succ f ih =>
    unfold outer at e
    split_ifs at e
    · exact ih _ _ (cycles_ok c s temp c.cycles r h) e
    · exact (Option.some.inj e) ▸ h

/-- C44: whatever the cost function, the schedule, the neighbourhood function and the random numbers, a run that ends
returns a state it evaluated together with the cost of that state; no evaluated state, in particular not the initial
one, is cheaper; and among the cheapest the first one evaluated is returned. -/
theorem C44_best (c : Config S) (fuel : Nat) (s : S) (r : Run S) (h : annealRun c fuel s = some r) :
    anneal c fuel s = some (r.bestState, r.bestCost) ∧
    r.bestCost = c.cost r.bestState ∧ r.bestCost ≤ c.cost s ∧ (∀ t ∈ r.evaluated, r.bestCost ≤ c.cost t) ∧
    ∃ pre post, r.evaluated = pre ++ r.bestState :: post ∧ ∀ t ∈ pre, c.cost r.bestState < c.cost t := by
  have ok := outer_ok c s fuel c.initTemp (start c s) r (start_ok c s) h
  obtain ⟨l, hl⟩ := ok.init
  refine ⟨by unfold anneal; rw [h]; rfl, ok.best, ok.least s (by rw [hl]; simp), ok.least, ?_⟩
  rw [← ok.best]; exact ok.first

/-- What happens in one cycle, in terms of the run so far: the successor of the current state is evaluated; it becomes
the current state if it is not worse, and stays out if it is worse by more than ten times the temperature. In between,
luck decides. -/
theorem C44_acceptance (c : Config S) (s : S) (temp : Rat) (r : Run S) (h : Ok c s r) (ht : 0 ≤ temp) :
    let t := c.next r.calls r.curState
    let r' := cycle c temp r
    r'.evaluated = r.evaluated ++ [t] ∧
    (c.cost t ≤ c.cost r.curState → r'.curState = t) ∧
    (c.cost t - c.cost r.curState > 10 * temp → r'.curState = r.curState) ∧
    (0 < c.cost t - c.cost r.curState → c.cost t - c.cost r.curState ≤ 10 * temp →
      r'.curState = if c.lucky r.calls (c.cost t - c.cost r.curState) temp then t else r.curState) := by
  have hbc : r.bestCost ≤ c.cost r.curState := h.least _ h.curMem
  have hcur := h.cur
  simp only []
  generalize htt : c.next r.calls r.curState = t
  unfold cycle
  simp only [htt]
  by_cases hb : c.cost t < r.bestCost
  · rw [if_pos hb]
    refine ⟨rfl, fun _ => rfl, fun h' => ?_, fun h' => ?_⟩ <;> exfalso <;> linarith
  · rw [if_neg hb, hcur]
    refine ⟨?_, fun h' => ?_, fun h' => ?_, fun h1 h2 => ?_⟩
    · split_ifs <;> rfl
    · rw [if_neg (by linarith), if_pos]
      simp only [Bool.or_eq_true, decide_eq_true_eq]; left; linarith
    · rw [if_pos h']
    · rw [if_neg (not_lt.2 h2)]
      simp only [Nat.add_sub_cancel]
      cases hl : c.lucky r.calls (c.cost t - c.cost r.curState) temp
      · rw [if_neg]
        · simp
        · simp only [Bool.or_false, decide_eq_true_eq]; linarith
      · rw [if_pos (by simp)]; simp

theorem cycles_calls (c : Config S) (temp : Rat) (n : Nat) (r : Run S) : (cycles c temp n r).calls = r.calls + n := by
  induction n generalizing r with
  | zero => rfl
  | succ n ih =>
    rw [cycles, ih]
    have : (cycle c temp r).calls = r.calls + 1 := by unfold cycle; simp only []; split_ifs <;> rfl
    omega

/-- C44: a run evaluates the initial state and a fixed number of states per temperature. -/
theorem C44_evaluations (c : Config S) (fuel : Nat) (s : S) (r : Run S) (h : annealRun c fuel s = some r) :
    ∃ k ≤ fuel, r.evaluated.length = 1 + k * c.cycles := by
  have key : ∀ fuel temp (r0 r : Run S), outer c fuel temp r0 = some r → ∃ k ≤ fuel, r.calls = r0.calls + k * c.cycles := by
    intro fuel
    induction fuel with
    | zero =>
      intro temp r0 r e
      unfold outer at e
      split_ifs at e
      exact ⟨0, le_refl _, by rw [← Option.some.inj e]; simp⟩
    | succ f ih =>
      intro temp r0 r e
      unfold outer at e
      split_ifs at e
      · obtain ⟨k, hk, e'⟩ := ih _ _ _ e
        refine ⟨k + 1, by omega, ?_⟩
        rw [e', cycles_calls, Nat.add_mul]; omega
      · exact ⟨0, by omega, by rw [← Option.some.inj e]; simp⟩
  obtain ⟨k, hk, e⟩ := key fuel _ _ r h
  have ok := outer_ok c s fuel c.initTemp (start c s) r (start_ok c s) h
  refine ⟨k, hk, ?_⟩
  rw [ok.count, e]
  simp [start]; omega

theorem outer_terminates (c : Config S) (δ : Rat) (hδ : 0 < δ)
    (hs : ∀ t, c.finalTemp < t → t ≤ c.initTemp → c.schedule t ≤ t - δ) (k : Nat) (t : Rat)
    (ht : t ≤ c.finalTemp + k * δ) (hi : t ≤ c.initTemp) (r : Run S) : (outer c k t r).isSome := by
  induction k generalizing t r with
  | zero =>
    unfold outer
    rw [if_neg (by push_cast at ht; linarith)]
    rfl
  | succ k ih =>
    unfold outer
    split_ifs with h
    · apply ih
      · have := hs t h hi
        push_cast at ht
        have hk : (0 : Rat) ≤ k * δ := mul_nonneg (by exact_mod_cast Nat.zero_le k) hδ.le
        unfold clamp
        split_ifs <;> linarith
      · unfold clamp
        split_ifs <;> linarith
    · rfl

/-- C44: if the schedule lowers every temperature it sees by at least some fixed amount, the run ends. -/
theorem C44_terminates (c : Config S) (δ : Rat) (hδ : 0 < δ)
    (hs : ∀ t, c.finalTemp < t → t ≤ c.initTemp → c.schedule t ≤ t - δ) (s : S) :
    ∃ fuel, (anneal c fuel s).isSome := by
  have : ∃ k : Nat, c.initTemp ≤ c.finalTemp + k * δ := by
    obtain ⟨k, hk⟩ := exists_nat_ge ((c.initTemp - c.finalTemp) / δ)
    refine ⟨k, ?_⟩
    rw [div_le_iff₀ hδ] at hk
    linarith
  obtain ⟨k, hk⟩ := this
  refine ⟨k, ?_⟩
  have := outer_terminates c δ hδ hs k c.initTemp hk (le_refl _) (start c s)
  unfold anneal annealRun
  rw [Option.isSome_map]; exact this

/-- C44: the linear schedule always ends. -/
theorem C44_linear_terminates (c : Config S) (hs : c.schedule = linearSchedule) (s : S) :
    ∃ fuel, (anneal c fuel s).isSome :=
  C44_terminates c 10 (by norm_num) (fun t _ _ => by rw [hs]; exact le_refl _) s

/-- C44: the geometric schedule ends if the final temperature is positive. -/
theorem C44_geometric_terminates (c : Config S) (hs : c.schedule = geometricSchedule) (hf : 0 < c.finalTemp) (s : S) :
    ∃ fuel, (anneal c fuel s).isSome := by
  refine C44_terminates c (c.finalTemp / 100) (by linarith) (fun t h _ => ?_) s
  rw [hs]; unfold geometricSchedule; linarith

/-- C44, the condition is needed: with the geometric schedule and final temperature zero the run never ends. -/
theorem C44_geometric_zero_diverges (c : Config S) (hs : c.schedule = geometricSchedule) (hf : c.finalTemp = 0)
    (hi : 0 < c.initTemp) (s : S) (fuel : Nat) : anneal c fuel s = none := by
  have key : ∀ fuel t r, 0 < t → t ≤ c.initTemp → outer c fuel t r = none := by
    intro fuel
    induction fuel with
    | zero => intro t r ht _; unfold outer; rw [hf, if_pos ht]
    | succ f ih =>
      intro t r ht hti
      unfold outer
      rw [hf, if_pos ht]
      have hp : 0 < geometricSchedule t := by unfold geometricSchedule; linarith
      have hle : geometricSchedule t ≤ t := by unfold geometricSchedule; linarith
      have hcl : clamp (c.schedule t) 0 c.initTemp = geometricSchedule t := by
        rw [hs]; unfold clamp
        rw [if_neg (by linarith), if_neg (by linarith)]
      simp only []
      rw [hcl]
      exact ih _ _ hp (hle.trans hti)
  unfold anneal annealRun
  rw [key fuel _ _ hi (le_refl _)]; rfl

/-- C44, the condition is needed: a schedule that does not lower the temperature makes the run endless. -/
theorem C44_constant_diverges (c : Config S) (hs : ∀ t, t ≤ c.schedule t) (hi : c.finalTemp < c.initTemp) (s : S)
    (fuel : Nat) : anneal c fuel s = none := by
  have key : ∀ fuel t r, c.finalTemp < t → t ≤ c.initTemp → outer c fuel t r = none := by
    intro fuel
    induction fuel with
    | zero => intro t r ht _; unfold outer; rw [if_pos ht]
    | succ f ih =>
      intro t r ht hti
      unfold outer
      rw [if_pos ht]
      have := hs t
      apply ih
      · unfold clamp; split_ifs <;> linarith
      · unfold clamp; split_ifs <;> linarith
  unfold anneal annealRun
  rw [key fuel _ _ hi (le_refl _)]; rfl

theorem minElement_spec (l : List (S × Rat)) (m : S × Rat) (h : minElement l = some m) :
    m ∈ l ∧ ∀ p ∈ l, m.2 ≤ p.2 := by
  cases l with
  | nil => simp [minElement] at h
  | cons a l =>
    simp only [minElement, Option.some.injEq] at h
    have key : ∀ (l : List (S × Rat)) (a : S × Rat),
        (l.foldl (fun m p => if p.2 < m.2 then p else m) a) ∈ a :: l ∧
        ∀ p ∈ a :: l, (l.foldl (fun m p => if p.2 < m.2 then p else m) a).2 ≤ p.2 := by
      intro l
      induction l with
      | nil => intro a; simp
      | cons b l ih =>
        intro a
        rw [List.foldl_cons]
        obtain ⟨h1, h2⟩ := ih (if b.2 < a.2 then b else a)
        have hm := h2 _ (List.mem_cons_self)
        refine ⟨?_, ?_⟩
        · rcases List.mem_cons.1 h1 with h | h
          · rw [h]; split_ifs <;> simp
          · simp [h]
        · intro p hp
          rcases List.mem_cons.1 hp with rfl | hp
          · refine hm.trans ?_
            split_ifs with hlt
            · exact hlt.le
            · exact le_refl _
          · rcases List.mem_cons.1 hp with rfl | hp
            · refine hm.trans ?_
              split_ifs with hlt
              · exact le_refl _
              · exact not_lt.1 hlt
            · exact h2 p (by simp [hp])
    rw [← h]; exact key l a

theorem mapM_spec {α β : Type} (f : α → Option β) (l : List α) (r : List β) (h : l.mapM f = some r) :
    (∀ b ∈ r, ∃ a ∈ l, f a = some b) ∧ ∀ a ∈ l, ∃ b ∈ r, f a = some b := by
  induction l generalizing r with
  | nil =>
    simp only [List.mapM_nil, Option.pure_def, Option.some.injEq] at h
    subst h; simp
  | cons a l ih =>
    simp only [List.mapM_cons, Option.pure_def, Option.bind_eq_bind, Option.bind_eq_some_iff,
      Option.some.injEq] at h
    obtain ⟨b, hb, r', hr', rfl⟩ := h
    obtain ⟨h1, h2⟩ := ih r' hr'
    refine ⟨?_, ?_⟩
    · intro q hq
      rcases List.mem_cons.1 hq with rfl | hq
      · exact ⟨a, by simp, hb⟩
      · obtain ⟨p, hp, e⟩ := h1 q hq
        exact ⟨p, by simp [hp], e⟩
    · intro p hp
      rcases List.mem_cons.1 hp with rfl | hp
      · exact ⟨b, by simp, hb⟩
      · obtain ⟨q, hq, e⟩ := h2 p hp
        exact ⟨q, by simp [hq], e⟩

/-- C44: with several instances the result is the result of one of them, and no instance evaluated a cheaper state. -/
theorem C44_multi (cs : List (Config S × S)) (fuel : Nat) (b : S × Rat) (h : multiAnneal cs fuel = some b) :
    (∃ p ∈ cs, anneal p.1 fuel p.2 = some b ∧ b.2 = p.1.cost b.1) ∧
    ∀ p ∈ cs, ∃ r, annealRun p.1 fuel p.2 = some r ∧ b.2 ≤ p.1.cost p.2 ∧ ∀ t ∈ r.evaluated, b.2 ≤ p.1.cost t := by
  unfold multiAnneal at h
  rw [Option.bind_eq_some_iff] at h
  obtain ⟨res, hres, hmin⟩ := h
  obtain ⟨h1, h2⟩ := minElement_spec res b hmin
  obtain ⟨hfw, hbw⟩ := mapM_spec _ cs res hres
  refine ⟨?_, ?_⟩
  · obtain ⟨p, hp, e⟩ := hfw b h1
    refine ⟨p, hp, e, ?_⟩
    have e' := e
    unfold anneal at e'
    rw [Option.map_eq_some_iff] at e'
    obtain ⟨r, hr, er⟩ := e'
    have hb := C44_best p.1 fuel p.2 r hr
    rw [← er]; exact hb.2.1
  · intro p hp
    obtain ⟨q, hq, e⟩ := hbw p hp
    have hle := h2 q hq
    unfold anneal at e
    rw [Option.map_eq_some_iff] at e
    obtain ⟨r, hr, er⟩ := e
    have hb := C44_best p.1 fuel p.2 r hr
    rw [← er] at hle
    exact ⟨r, hr, hle.trans hb.2.2.1, fun t ht => hle.trans (hb.2.2.2.1 t ht)⟩

/-- No instances: the result is undefined. -/
theorem C44_multi_no_instances (fuel : Nat) : multiAnneal ([] : List (Config S × S)) fuel = none := rfl

/-- A walk 5, 3, 4, 1, 2, 0, … that meets a local minimum; the run ends and finds the best state it saw. -/
def demo : Config Int where
  initTemp := 30
  finalTemp := 5
  cycles := 2
  cost := fun s => (s : Rat)
  schedule := linearSchedule
  next := fun k s => if k % 2 = 0 then s - 2 else s + 1
  lucky := fun _ _ _ => true

example : anneal demo 5 5 = some (1, 1) := by decide +kernel

example : multiAnneal [(demo, 9), (demo, 5), (demo, 7)] 5 = some (1, 1) := by decide +kernel

example : ∃ fuel, (anneal demo fuel 5).isSome := C44_linear_terminates demo rfl 5

end Verif.Optimization
