import Verif.PhysicalDesign.ExactSearchFacts

/-!
# C77: layouts by `exact` are as small as possible

`Feasible` says that some assignment meets the constraints for an aspect ratio, `Allowed` that the aspect ratio is within the bounds of
the parameters. The solver is any function that finds an assignment where there is one; timeouts are not considered.
-/
namespace Verif.PhysicalDesign.Exact

open Verif.Layouts Verif.Clocking Verif.GateLevel Verif.Networks Verif.Iter

/-- Some assignment meets the constraints. -/
def Meets (tp : Topo) (cs : Scheme) (N : Ntk) (nodes : List Nat) (crossings desynchronize : Bool) (ar : Nat × Nat) (A : Asg) : Prop :=
  sat tp ⟨ar.1, ar.2, if crossings then 1 else 0⟩ cs N nodes crossings A desynchronize = true

/-- Within the bounds: at most so many tiles, columns and rows; exactly so many tiles for a fixed size. -/
def Allowed (b : Bounds) (ar : Nat × Nat) : Prop :=
  area ar ≤ b.area ∧ ar.1 + 1 ≤ b.x ∧ ar.2 + 1 ≤ b.y ∧ (b.fixedSize = true → area ar = min b.area (b.x * b.y))

/-- The bounds have 16 bits. -/
def Bounds.Small (b : Bounds) : Prop := b.area < 2 ^ 16 ∧ b.x < 2 ^ 16 ∧ b.y < 2 ^ 16

/-- A solver finds an assignment if there is one. -/
structure Solves (P : Nat × Nat → Asg → Prop) (solve : Nat × Nat → Option Asg) : Prop where
  sound : ∀ ar A, solve ar = some A → P ar A
  complete : ∀ ar, solve ar = none → ∀ A, ¬ P ar A

/-- The product of the bounds, although it overflows, gives the right bound. -/
theorem upper_eq {b : Bounds} (h : b.Small) : b.upper = min b.area (b.x * b.y) := by
  obtain ⟨h1, h2, h3⟩ := h
  unfold Bounds.upper product
  split
  · rfl
  · omega

/-- What the theorems assume: a network that can be designed, a named regular clocking scheme. -/
structure Setting (tp : Topo) (cs : Scheme) (D : Ntk) (order : List Nat) : Prop where
  scheme : ∃ name, getClockingScheme tp name = some cs ∧ (tp ≠ .cart → name.map Char.toUpper ≠ "2DDWAVE3".toList)
  regular : cs.regular = true
  designable : ∃ k lit tab, Designable D k lit tab tp.maxFanin
  topo : TopoOrder D.substitutePos order

section
variable {tp : Topo} {cs : Scheme} {D : Ntk} {order : List Nat} {crossings desynchronize : Bool} {b : Bounds}

theorem allowed_small (hb : b.Small) {ar : Nat × Nat} (ha : area ar ≤ b.area) (crossings : Bool) :
    Small ⟨ar.1, ar.2, if crossings then 1 else 0⟩ := by
  obtain ⟨h1, -, -⟩ := hb
  unfold area at ha
  have h2 : ar.1 + 1 ≤ (ar.1 + 1) * (ar.2 + 1) := Nat.le_mul_of_pos_right _ (by omega)
  have h3 : ar.2 + 1 ≤ (ar.1 + 1) * (ar.2 + 1) := Nat.le_mul_of_pos_left _ (by omega)
  exact ⟨by simp only; omega, by simp only; omega⟩

theorem Setting.facts (S : Setting tp cs D order) (hb : b.Small) {ar : Nat × Nat} (ha : area ar ≤ b.area) {A : Asg}
    (h : Meets tp cs D.substitutePos (D.substitutePos.pis ++ order) crossings desynchronize ar A) :
    Facts tp ⟨ar.1, ar.2, if crossings then 1 else 0⟩ cs D.substitutePos (D.substitutePos.pis ++ order) crossings A := by
  obtain ⟨name, hget, hnot⟩ := S.scheme
  refine sat_facts (clocked_named hget S.regular hnot (allowed_small hb ha crossings)) ?_
  unfold Meets sat at h
  exact (Bool.and_eq_true_iff.1 h).1

/-- The lower bound is safe. -/
theorem Setting.firstArea (S : Setting tp cs D order) (hb : b.Small) {ar : Nat × Nat} (ha : Allowed b ar) {A : Asg}
    (h : Meets tp cs D.substitutePos (D.substitutePos.pis ++ order) crossings desynchronize ar A) :
    max (firstArea b (D.substitutePos.pis ++ order)) 1 ≤ area ar := by
  have h1 := lower_safe (S.facts hb ha.1 h) (nodes_nodup S.topo)
  have h2 : 1 ≤ area ar := by unfold area; exact Nat.mul_pos (by omega) (by omega)
  simp only at h1
  unfold Exact.firstArea
  split
  · rename_i hf
    rw [upper_eq hb, ← ha.2.2.2 hf]
    omega
  · have := Nat.mod_le (D.substitutePos.pis ++ order).length (2 ^ 16)
    unfold area
    unfold area at h2
    omega

/-- Skipped aspect ratios are not feasible. -/
theorem Setting.skip (S : Setting tp cs D order) (hb : b.Small) {ar : Nat × Nat} (ha : Allowed b ar) {A : Asg}
    (h : Meets tp cs D.substitutePos (D.substitutePos.pis ++ order) crossings desynchronize ar A) :
    skippable b cs D.substitutePos ar = false := by
  have F := S.facts hb ha.1 h
  have hs := allowed_small hb ha.1 crossings
  obtain ⟨k, lit, tab, hD⟩ := S.designable
  have ok := hD.ok S.topo
  obtain ⟨name, hget, -⟩ := S.scheme
  obtain ⟨hcol, hrow⟩ := scheme_of_name hget
  -- a potential that grows along connections bounds the depth
  have dep : ∀ (φ : Coord → Nat) (B : Nat), (∀ t ∈ tiles ⟨ar.1, ar.2, if crossings then 1 else 0⟩, φ t ≤ B) →
      (∀ t u, Conn tp ⟨ar.1, ar.2, if crossings then 1 else 0⟩ cs A t u → φ u = φ t + 1) → depth D.substitutePos ≤ B := by
    intro φ B h1 h2
    unfold depth
    refine foldl_max_le (Nat.zero_le _) (fun x hx => ?_)
    obtain ⟨p, hp, rfl⟩ := List.mem_map.1 hx
    have hg : (D.substitutePos.node p).isGate = true := by
      have := ok.poBuf p hp
      cases e : D.substitutePos.node p <;> rw [e] at this <;> first | rfl | cases this
    have hpo : p ∈ D.substitutePos.pis ++ order := List.mem_append_right _ (S.topo.pos p hp hg)
    obtain ⟨t, htm, htn, -⟩ := F.placed p hpo
    exact Nat.le_trans (level_le F hs S.topo ok.fan ok.noConst (fun n hn => (ok.degree n hn).1) φ B h1 h2 p hpo t htm htn) (h1 t htm)
  unfold skippable
  rw [if_neg]
  · split
    · rename_i hn
      obtain ⟨n, rfl⟩ := hcol hn
      rw [decide_eq_false_iff_not, Nat.not_lt]
      exact dep (fun t => t.x) ar.1 (fun t ht => (mem_tiles.1 ht).2.2.1) (fun t u hc => columnar_step hs hc)
    · split
      · rename_i hn
        obtain ⟨n, rfl⟩ := hrow hn
        rw [decide_eq_false_iff_not, Nat.not_lt]
        exact dep (fun t => t.y) ar.2 (fun t ht => (mem_tiles.1 ht).2.2.2) (fun t u hc => row_step hs hc)
      · rfl
  · have := ha.1
    have := ha.2
    unfold area at *
    omega

theorem allowed_of_skip (hb : b.Small) {N : Ntk} {nodes : List Nat} {ar : Nat × Nat} (h : skippable b cs N ar = false)
    (hf : max (firstArea b nodes) 1 ≤ area ar) : Allowed b ar := by
  unfold skippable at h
  split at h
  · cases h
  · rename_i hc
    have h1 : area ar ≤ b.area := by unfold area; omega
    refine ⟨h1, by omega, by omega, fun hx => ?_⟩
    unfold firstArea at hf
    rw [if_pos hx, upper_eq hb] at hf
    have h2 : area ar ≤ b.x * b.y := by
      unfold area
      exact Nat.mul_le_mul (by omega) (by omega)
    omega

/-! ## One thread -/

/-- The search ends. If it returns an assignment, then the assignment meets the constraints for its aspect ratio, which is within the
bounds, and no aspect ratio within the bounds with fewer tiles is feasible. If it returns nothing, no aspect ratio within the bounds is
feasible. Missing: 2DDWAVE3 on hexagonal layouts, irregular clocking, border pins, timeouts. -/
theorem C77_minimal_partial (S : Setting tp cs D order) (hb : b.Small) (solve : Nat × Nat → Option Asg)
    (hsolve : Solves (Meets tp cs D.substitutePos (D.substitutePos.pis ++ order) crossings desynchronize) solve) :
    ∃ F r, (∀ fuel, F ≤ fuel → runSync b cs D.substitutePos (D.substitutePos.pis ++ order) solve fuel = some r) ∧
      (∀ ar A, r = some (ar, A) →
        Meets tp cs D.substitutePos (D.substitutePos.pis ++ order) crossings desynchronize ar A ∧ Allowed b ar ∧
        ∀ ar' A', Allowed b ar' → Meets tp cs D.substitutePos (D.substitutePos.pis ++ order) crossings desynchronize ar' A' →
          area ar ≤ area ar') ∧
      (r = none → ∀ ar' A', Allowed b ar' →
        ¬ Meets tp cs D.substitutePos (D.substitutePos.pis ++ order) crossings desynchronize ar' A') := by
  obtain ⟨F, r, h1, h2, h3⟩ := search_spec (skippable b cs D.substitutePos) solve b.upper
    (firstArea b (D.substitutePos.pis ++ order)) 0
  have not : ∀ ar' A', Allowed b ar' → Meets tp cs D.substitutePos (D.substitutePos.pis ++ order) crossings desynchronize ar' A' →
      ¬ (skippable b cs D.substitutePos ar' = true ∨ solve ar' = none) := by
    intro ar' A' ha hm hc
    rcases hc with hc | hc
    · rw [S.skip hb ha hm] at hc
      cases hc
    · exact hsolve.complete ar' hc A' hm
  refine ⟨F, r, fun fuel hf => search_mono h1 fuel hf, ?_, ?_⟩
  · intro ar A e
    obtain ⟨j, hj, hu, hsk, hv, hbefore⟩ := h2 ar A e
    obtain ⟨ar0, e0, har⟩ := pos_deref (firstArea b (D.substitutePos.pis ++ order)) j
    rw [hj, Option.some.injEq] at e0
    subst e0
    have hlow := pos_mono (firstArea b (D.substitutePos.pis ++ order)) (Nat.zero_le j)
    rw [pos_zero, ← har] at hlow
    refine ⟨hsolve.sound ar A hv, allowed_of_skip hb hsk hlow, fun ar' A' ha' hm' => ?_⟩
    obtain ⟨i, hi⟩ := pos_cover _ ar' (S.firstArea hb ha' hm')
    obtain ⟨ar1, e1, har1⟩ := pos_deref (firstArea b (D.substitutePos.pis ++ order)) i
    rw [hi, Option.some.injEq] at e1
    subst e1
    by_cases hij : i < j
    · exact absurd (hbefore i ar' (Nat.zero_le _) hij hi) (not ar' A' ha' hm')
    · rw [har, har1]
      exact pos_mono _ (by omega)
  · intro e ar' A' ha' hm'
    obtain ⟨i, hi⟩ := pos_cover _ ar' (S.firstArea hb ha' hm')
    refine not ar' A' ha' hm' (h3 e i ar' (Nat.zero_le _) hi ?_)
    rw [upper_eq hb]
    have h4 := ha'.1
    have h5 : area ar' ≤ b.x * b.y := by
      unfold area
      exact Nat.mul_le_mul ha'.2.1 ha'.2.2.1
    omega

/-! ## Many threads -/

/-- The invariant: `n` is the area that the iterator starts with. -/
structure SInv {α : Type} (b : Bounds) (skip : Nat × Nat → Bool) (solve : Nat × Nat → Option α) (k n : Nat) (s : Shared α) : Prop where
  ari : s.ari = pos n s.count
  /-- All fetched aspect ratios have been refuted, are not better than the result, or are being examined. -/
  seen : ∀ i ar, 1 ≤ i → i ≤ s.count → (pos n i).deref = some ar → skip ar = true ∨ solve ar = none ∨
    (∃ r, s.result = some r ∧ area r ≤ area ar) ∨ ∃ t, t < k ∧ (s.thread t = .fetched ar ∨ s.thread t = .solving ar)
  held : ∀ t ar, s.thread t = .fetched ar ∨ s.thread t = .solving ar → ∃ i, 1 ≤ i ∧ i ≤ s.count ∧ (pos n i).deref = some ar ∧ skip ar = false ∧
    area (s.worker t) ≤ area ar
  worker : ∀ t, area (s.worker t) ≤ s.ari.num
  result : ∀ r, s.result = some r → ∃ i, 1 ≤ i ∧ i ≤ s.count ∧ (pos n i).deref = some r ∧ skip r = false ∧
    ∃ t A, t < k ∧ solve r = some A ∧ ((∃ j, s.thread t = .notifying r A j) ∨ s.thread t = .done (some (r, A)))
  /-- Who is notifying has contributed a result. -/
  notifying : ∀ t ar A j, s.thread t = .notifying ar A j → ∃ r, s.result = some r ∧ area r ≤ area ar ∧ area r ≤ s.ari.num ∧ solve ar = some A
  interrupted : ∀ t, s.interrupted t = true → ∃ r, s.result = some r ∧ area r ≤ area (s.worker t)
  returned : ∀ t ar A, s.thread t = .done (some (ar, A)) → solve ar = some A
  done : ∀ t x, s.thread t = .done x → (∃ r, s.result = some r ∧ area r ≤ s.ari.num) ∨ ∀ i ar, s.count ≤ i → (pos n i).deref = some ar → skip ar = true

theorem pos_area {n i : Nat} {ar : Nat × Nat} (h : (pos n i).deref = some ar) : area ar = (pos n i).num := by
  obtain ⟨ar', e, ha⟩ := pos_deref n i
  rw [h, Option.some.injEq] at e
  rw [e]
  exact ha

@[simp] theorem setThread_thread {α : Type} (s : Shared α) (t : Nat) (x : Thread α) (u : Nat) :
    (s.setThread t x).thread u = if u = t then x else s.thread u := rfl
@[simp] theorem setThread_ari {α : Type} (s : Shared α) (t : Nat) (x : Thread α) : (s.setThread t x).ari = s.ari := rfl
@[simp] theorem setThread_count {α : Type} (s : Shared α) (t : Nat) (x : Thread α) : (s.setThread t x).count = s.count := rfl
@[simp] theorem setThread_result {α : Type} (s : Shared α) (t : Nat) (x : Thread α) : (s.setThread t x).result = s.result := rfl
@[simp] theorem setThread_worker {α : Type} (s : Shared α) (t : Nat) (x : Thread α) : (s.setThread t x).worker = s.worker := rfl
@[simp] theorem setThread_interrupted {α : Type} (s : Shared α) (t : Nat) (x : Thread α) : (s.setThread t x).interrupted = s.interrupted := rfl

/-- Later aspect ratios than one out of bounds are out of bounds. -/
def Upward (b : Bounds) (skip : Nat × Nat → Bool) : Prop :=
  ∀ ar ar', b.area < area ar ∨ (b.x ≤ ar.1 ∧ b.y ≤ ar.2) → area ar ≤ area ar' → skip ar' = true

theorem SInv.fetch {α : Type} {skip : Nat × Nat → Bool} {solve : Nat × Nat → Option α} {k n : Nat} (hup : Upward b skip) {s : Shared α} {t : Nat} (h : SInv b skip solve k n s)
    (ht : t < k) (hr : s.thread t = .ready) : SInv b skip solve k n (fetch b skip s t) := by
  have hc : s.ari.inc = pos n (s.count + 1) := by rw [h.ari, ← pos_succ]
  obtain ⟨ar, hd, ha⟩ := pos_deref n (s.count + 1)
  have hmono := pos_mono n (show s.count ≤ s.count + 1 by omega)
  have hari := congrArg ARIt.num h.ari
  -- what holds of every outcome `x` of the thread
  have base : ∀ x : Thread α, (skip ar = true ∨ x = .fetched ar) → (∀ a, x ≠ .solving a) → (∀ a, x = .fetched a → a = ar ∧ skip ar = false) →
      (∀ a A j, x ≠ .notifying a A j) → (∀ a, x ≠ .done (some a)) →
      (x = .done none → ∀ i ar', s.count + 1 ≤ i → (pos n i).deref = some ar' → skip ar' = true) →
      SInv b skip solve k n (({ s with ari := s.ari.inc, count := s.count + 1 } : Shared α).setThread t x) := by
    intro x hx1 hx2 hx3 hx4 hx5 hx6
    refine ⟨hc, ?_, ?_, ?_, ?_, ?_, ?_, ?_, ?_⟩
    · intro i a hi1 hi2 hda
      simp only [setThread_count] at hi2
      rcases Nat.lt_or_ge i (s.count + 1) with hlt | hge
      · rcases h.seen i a hi1 (by omega) hda with h1 | h1 | h1 | ⟨u, hu, h1⟩
        · exact Or.inl h1
        · exact Or.inr (Or.inl h1)
        · exact Or.inr (Or.inr (Or.inl h1))
        · refine Or.inr (Or.inr (Or.inr ⟨u, hu, ?_⟩))
          simp only [setThread_thread]
          rw [if_neg (by rintro rfl; rw [hr] at h1; rcases h1 with h1 | h1 <;> cases h1)]
          exact h1
      · have : i = s.count + 1 := by omega
        subst this
        rw [hd, Option.some.injEq] at hda
        subst hda
        rcases hx1 with h1 | h1
        · exact Or.inl h1
        · refine Or.inr (Or.inr (Or.inr ⟨t, ht, Or.inl ?_⟩))
          simp only [setThread_thread, if_true]
          exact h1
    · intro u a hu
      simp only [setThread_thread] at hu
      by_cases hut : u = t
      · rw [if_pos hut] at hu
        rcases hu with hu | hu
        · obtain ⟨e, hsk⟩ := hx3 a hu
          subst e
          refine ⟨s.count + 1, by omega, Nat.le_refl _, hd, hsk, ?_⟩
          have := h.worker u
          simp only [setThread_worker]
          rw [ha]
          omega
        · exact absurd hu (hx2 a)
      · rw [if_neg hut] at hu
        obtain ⟨i, h1, h2, h3⟩ := h.held u a hu
        exact ⟨i, h1, Nat.le_succ_of_le h2, h3⟩
    · intro u
      have := h.worker u
      simp only [setThread_worker, setThread_ari]
      rw [hc]
      omega
    · intro r hrr
      obtain ⟨i, h1, h2, h3, h4, u, A, h5, h6, h7⟩ := h.result r hrr
      refine ⟨i, h1, Nat.le_succ_of_le h2, h3, h4, u, A, h5, h6, ?_⟩
      have : u ≠ t := by
        rintro rfl
        rw [hr] at h7
        rcases h7 with ⟨j, h7⟩ | h7 <;> cases h7
      simp only [setThread_thread]
      rw [if_neg this]
      exact h7
    · intro u a A j hu
      simp only [setThread_thread] at hu
      by_cases hut : u = t
      · rw [if_pos hut] at hu
        exact absurd hu (hx4 a A j)
      · rw [if_neg hut] at hu
        obtain ⟨r, h1, h2, h3, h4⟩ := h.notifying u a A j hu
        refine ⟨r, h1, h2, ?_, h4⟩
        simp only [setThread_ari]
        rw [hc]
        omega
    · exact h.interrupted
    · intro u a A hu
      simp only [setThread_thread] at hu
      by_cases hut : u = t
      · rw [if_pos hut] at hu
        exact absurd hu (hx5 _)
      · rw [if_neg hut] at hu
        exact h.returned u a A hu
    · intro u y hu
      simp only [setThread_thread] at hu
      by_cases hut : u = t
      · rw [if_pos hut] at hu
        cases y with
        | none => exact Or.inr (hx6 hu)
        | some y => exact absurd hu (hx5 _)
      · rw [if_neg hut] at hu
        rcases h.done u y hu with ⟨r, h1, h2⟩ | h1
        · refine Or.inl ⟨r, h1, ?_⟩
          simp only [setThread_ari]
          rw [hc]
          omega
        · refine Or.inr fun i a hi => h1 i a ?_
          simp only [setThread_count] at hi
          omega
  unfold Exact.fetch
  simp only
  rw [hc, hd, ← hc]
  simp only
  split
  · rename_i hoob
    have late : ∀ i ar', s.count + 1 ≤ i → (pos n i).deref = some ar' → skip ar' = true := by
      intro i ar' hi hd'
      refine hup ar ar' hoob ?_
      rw [ha, pos_area hd']
      exact pos_mono n hi
    exact base (.done none) (Or.inl (late _ _ (Nat.le_refl _) hd)) (fun a e => by cases e) (fun a e => by cases e) (fun a A j e => by cases e)
      (fun a e => by cases e) (fun _ => late)
  · split
    · rename_i hsk
      exact base .ready (Or.inl hsk) (fun a e => by cases e) (fun a e => by cases e) (fun a A j e => by cases e)
        (fun a e => by cases e) (fun e => by cases e)
    · rename_i hsk
      exact base (.fetched ar) (Or.inr rfl) (fun a e => by cases e) (fun a e => by cases e; exact ⟨rfl, by simpa using hsk⟩)
        (fun a A j e => by cases e) (fun a e => by cases e) (fun e => by cases e)

/-- Changing the state of one thread that held `ar`, the outcome of which is known. -/
theorem SInv.leave {α : Type} {skip : Nat × Nat → Bool} {solve : Nat × Nat → Option α} {k n : Nat} {s : Shared α} {t : Nat} {ar : Nat × Nat}
    (h : SInv b skip solve k n s) (hh : s.thread t = .fetched ar ∨ s.thread t = .solving ar) {x : Thread α}
    (hout : solve ar = none ∧ x = .ready ∨ (∃ r, s.result = some r ∧ area r ≤ area ar) ∧ x = .done none) : SInv b skip solve k n (s.setThread t x) := by
  obtain ⟨i0, hi1, hi2, hi3, -, -⟩ := h.held t ar hh
  have hnum : area ar ≤ s.ari.num := by
    rw [h.ari, pos_area hi3]
    exact pos_mono n hi2
  have nx : ∀ a, x ≠ .fetched a ∧ x ≠ .solving a := by
    intro a
    rcases hout with ⟨-, rfl⟩ | ⟨-, rfl⟩ <;> exact ⟨(by intro e; cases e), (by intro e; cases e)⟩
  refine ⟨h.ari, ?_, ?_, h.worker, ?_, ?_, h.interrupted, ?_, ?_⟩
  · intro i a hi1 hi2 hda
    rcases h.seen i a hi1 hi2 hda with h1 | h1 | h1 | ⟨u, hu, h1⟩
    · exact Or.inl h1
    · exact Or.inr (Or.inl h1)
    · exact Or.inr (Or.inr (Or.inl h1))
    · by_cases hut : u = t
      · have : a = ar := by
          rw [hut] at h1
          rcases hh with hh | hh <;> rw [hh] at h1 <;> rcases h1 with h1 | h1 <;> cases h1 <;> rfl
        subst this
        rcases hout with ⟨h2, -⟩ | ⟨h2, -⟩
        · exact Or.inr (Or.inl h2)
        · exact Or.inr (Or.inr (Or.inl h2))
      · refine Or.inr (Or.inr (Or.inr ⟨u, hu, ?_⟩))
        simp only [setThread_thread]
        rw [if_neg hut]
        exact h1
  · intro u a hu
    simp only [setThread_thread] at hu
    by_cases hut : u = t
    · rw [if_pos hut] at hu
      rcases hu with hu | hu
      · exact absurd hu (nx a).1
      · exact absurd hu (nx a).2
    · rw [if_neg hut] at hu
      exact h.held u a hu
  · intro r hrr
    obtain ⟨i, h1, h2, h3, h4, u, A, h5, h6, h7⟩ := h.result r hrr
    refine ⟨i, h1, h2, h3, h4, u, A, h5, h6, ?_⟩
    have : u ≠ t := by
      intro e
      rw [e] at h7
      rcases hh with hh | hh <;> rw [hh] at h7 <;> rcases h7 with ⟨j, h7⟩ | h7 <;> cases h7
    simp only [setThread_thread]
    rw [if_neg this]
    exact h7
  · intro u a A j hu
    simp only [setThread_thread] at hu
    by_cases hut : u = t
    · rw [if_pos hut] at hu
      rcases hout with ⟨-, e⟩ | ⟨-, e⟩ <;> rw [e] at hu <;> cases hu
    · rw [if_neg hut] at hu
      exact h.notifying u a A j hu
  · intro u a A hu
    simp only [setThread_thread] at hu
    by_cases hut : u = t
    · rw [if_pos hut] at hu
      rcases hout with ⟨-, e⟩ | ⟨-, e⟩ <;> rw [e] at hu <;> cases hu
    · rw [if_neg hut] at hu
      exact h.returned u a A hu
  · intro u y hu
    simp only [setThread_thread] at hu
    by_cases hut : u = t
    · rcases hout with ⟨-, e⟩ | ⟨⟨r, h1, h2⟩, -⟩
      · rw [if_pos hut, e] at hu
        cases hu
      · exact Or.inl ⟨r, h1, Nat.le_trans h2 hnum⟩
    · rw [if_neg hut] at hu
      exact h.done u y hu

theorem any_result {r : Option (Nat × Nat)} {ar : Nat × Nat} (h : r.any (fun r => decide (area r ≤ area ar)) = true) :
    ∃ r', r = some r' ∧ area r' ≤ area ar := by
  cases r with
  | none => cases h
  | some r => exact ⟨r, rfl, by simpa using h⟩

theorem SInv.compare {α : Type} {skip : Nat × Nat → Bool} {solve : Nat × Nat → Option α} {k n : Nat} {s : Shared α} {t : Nat} {ar : Nat × Nat}
    (h : SInv b skip solve k n s) (hh : s.thread t = .fetched ar) : SInv b skip solve k n (compare s t ar) := by
  unfold Exact.compare
  split
  · rename_i hc
    exact h.leave (Or.inl hh) (Or.inr ⟨any_result hc, rfl⟩)
  · obtain ⟨i0, hi1, hi2, hi3, hi4, hi5⟩ := h.held t ar (Or.inl hh)
    have hnum : area ar ≤ s.ari.num := by
      rw [h.ari, pos_area hi3]
      exact pos_mono n hi2
    have other : ∀ u (x : Thread α), (if u = t then Thread.solving ar else s.thread u) = x → (∀ a, x ≠ .solving a) → u ≠ t ∧ s.thread u = x := by
      intro u x e hx
      by_cases hut : u = t
      · rw [if_pos hut] at e
        exact absurd e.symm (hx ar)
      · rw [if_neg hut] at e
        exact ⟨hut, e⟩
    refine ⟨h.ari, ?_, ?_, ?_, ?_, ?_, ?_, ?_, ?_⟩
    · intro i a hi1 hi2 hda
      rcases h.seen i a hi1 hi2 hda with h1 | h1 | h1 | ⟨u, hu, h1⟩
      · exact Or.inl h1
      · exact Or.inr (Or.inl h1)
      · exact Or.inr (Or.inr (Or.inl h1))
      · refine Or.inr (Or.inr (Or.inr ⟨u, hu, ?_⟩))
        simp only [setThread_thread]
        by_cases hut : u = t
        · rw [if_pos hut]
          rw [hut, hh] at h1
          rcases h1 with h1 | h1
          · cases h1
            exact Or.inr rfl
          · cases h1
        · rw [if_neg hut]
          exact h1
    · intro u a hu
      simp only [setThread_thread, setThread_worker] at hu ⊢
      by_cases hut : u = t
      · rw [if_pos hut] at hu ⊢
        rcases hu with hu | hu
        · cases hu
        · cases hu
          exact ⟨i0, hi1, hi2, hi3, hi4, Nat.le_refl _⟩
      · rw [if_neg hut] at hu ⊢
        exact h.held u a hu
    · intro u
      simp only [setThread_worker, setThread_ari]
      split
      · exact hnum
      · exact h.worker u
    · intro r hrr
      obtain ⟨i, h1, h2, h3, h4, u, A, h5, h6, h7⟩ := h.result r hrr
      refine ⟨i, h1, h2, h3, h4, u, A, h5, h6, ?_⟩
      have : u ≠ t := by
        intro e
        rw [e, hh] at h7
        rcases h7 with ⟨j, h7⟩ | h7 <;> cases h7
      simp only [setThread_thread]
      rw [if_neg this]
      exact h7
    · intro u a A j hu
      exact h.notifying u a A j (other u _ hu (fun a e => by cases e)).2
    · intro u hu
      obtain ⟨r, h1, h2⟩ := h.interrupted u hu
      refine ⟨r, h1, ?_⟩
      simp only [setThread_worker]
      split
      · rename_i e
        rw [e] at h2
        exact Nat.le_trans h2 hi5
      · exact h2
    · intro u a A hu
      exact h.returned u a A (other u _ hu (fun a e => by cases e)).2
    · intro u y hu
      exact h.done u y (other u _ hu (fun a e => by cases e)).2

theorem SInv.answer {α : Type} {skip : Nat × Nat → Bool} {solve : Nat × Nat → Option α} {k n : Nat} {s : Shared α} {t : Nat} {ar : Nat × Nat}
    (h : SInv b skip solve k n s) (ht : t < k) (hh : s.thread t = .solving ar) : SInv b skip solve k n (answer solve s t ar) := by
  unfold Exact.answer
  cases hv : solve ar with
  | none => exact h.leave (Or.inr hh) (Or.inl ⟨hv, rfl⟩)
  | some A =>
    simp only
    split
    · rename_i hc
      exact h.leave (Or.inr hh) (Or.inr ⟨any_result hc, rfl⟩)
    · rename_i hc
      obtain ⟨i0, hi1, hi2, hi3, hi4, hi5⟩ := h.held t ar (Or.inr hh)
      have hnum : area ar ≤ s.ari.num := by
        rw [h.ari, pos_area hi3]
        exact pos_mono n hi2
      -- the new result is better than the old one
      have better : ∀ r, s.result = some r → area ar ≤ area r := by
        intro r e
        rw [e] at hc
        simp at hc
        omega
      have other : ∀ u (x : Thread α), (if u = t then Thread.notifying ar A 0 else s.thread u) = x → (∀ a B j, x ≠ .notifying a B j) →
          u ≠ t ∧ s.thread u = x := by
        intro u x e hx
        by_cases hut : u = t
        · rw [if_pos hut] at e
          exact absurd e.symm (hx ar A 0)
        · rw [if_neg hut] at e
          exact ⟨hut, e⟩
      refine ⟨h.ari, ?_, ?_, h.worker, ?_, ?_, ?_, ?_, ?_⟩
      · intro i a hi1 hi2 hda
        rcases h.seen i a hi1 hi2 hda with h1 | h1 | ⟨r, h1, h2⟩ | ⟨u, hu, h1⟩
        · exact Or.inl h1
        · exact Or.inr (Or.inl h1)
        · exact Or.inr (Or.inr (Or.inl ⟨ar, rfl, Nat.le_trans (better r h1) h2⟩))
        · by_cases hut : u = t
          · have : a = ar := by
              rw [hut, hh] at h1
              rcases h1 with h1 | h1 <;> cases h1 <;> rfl
            subst this
            exact Or.inr (Or.inr (Or.inl ⟨a, rfl, Nat.le_refl _⟩))
          · refine Or.inr (Or.inr (Or.inr ⟨u, hu, ?_⟩))
            simp only [setThread_thread]
            rw [if_neg hut]
            exact h1
      · intro u a hu
        refine h.held u a ?_
        rcases hu with hu | hu
        · exact Or.inl (other u _ hu (fun a B j e => by cases e)).2
        · exact Or.inr (other u _ hu (fun a B j e => by cases e)).2
      · intro r hrr
        cases hrr
        exact ⟨i0, hi1, hi2, hi3, hi4, t, A, ht, hv, Or.inl ⟨0, by simp only [setThread_thread, if_true]⟩⟩
      · intro u a B j hu
        simp only [setThread_thread] at hu
        by_cases hut : u = t
        · rw [if_pos hut] at hu
          cases hu
          exact ⟨ar, rfl, Nat.le_refl _, hnum, hv⟩
        · rw [if_neg hut] at hu
          obtain ⟨r, h1, h2, h3, h4⟩ := h.notifying u a B j hu
          exact ⟨ar, rfl, Nat.le_trans (better r h1) h2, hnum, h4⟩
      · intro u hu
        obtain ⟨r, h1, h2⟩ := h.interrupted u hu
        exact ⟨ar, rfl, Nat.le_trans (better r h1) h2⟩
      · intro u a B hu
        exact h.returned u a B (other u _ hu (fun a B j e => by cases e)).2
      · intro u y hu
        rcases h.done u y (other u _ hu (fun a B j e => by cases e)).2 with h1 | h1
        · exact Or.inl ⟨ar, rfl, hnum⟩
        · exact Or.inr h1

theorem SInv.notify {α : Type} {skip : Nat × Nat → Bool} {solve : Nat × Nat → Option α} {k n : Nat} {s : Shared α} {t : Nat} {ar : Nat × Nat} {A : α}
    {j : Nat} (h : SInv b skip solve k n s) (hh : s.thread t = .notifying ar A j) : SInv b skip solve k n (notify k s t ar A j) := by
  obtain ⟨r0, hr0, hr1, hr2, hr3⟩ := h.notifying t ar A j hh
  unfold Exact.notify
  split
  · have other : ∀ u (x : Thread α), (if u = t then Thread.notifying ar A (j + 1) else s.thread u) = x → (∀ a B j, x ≠ .notifying a B j) →
        u ≠ t ∧ s.thread u = x := by
      intro u x e hx
      by_cases hut : u = t
      · rw [if_pos hut] at e
        exact absurd e.symm (hx ar A (j + 1))
      · rw [if_neg hut] at e
        exact ⟨hut, e⟩
    refine ⟨h.ari, ?_, ?_, h.worker, ?_, ?_, ?_, ?_, ?_⟩
    · intro i a hi1 hi2 hda
      rcases h.seen i a hi1 hi2 hda with h1 | h1 | h1 | ⟨u, hu, h1⟩
      · exact Or.inl h1
      · exact Or.inr (Or.inl h1)
      · exact Or.inr (Or.inr (Or.inl h1))
      · refine Or.inr (Or.inr (Or.inr ⟨u, hu, ?_⟩))
        simp only [setThread_thread]
        rw [if_neg (by intro e; rw [e, hh] at h1; rcases h1 with h1 | h1 <;> cases h1)]
        exact h1
    · intro u a hu
      refine h.held u a ?_
      rcases hu with hu | hu
      · exact Or.inl (other u _ hu (fun a B j e => by cases e)).2
      · exact Or.inr (other u _ hu (fun a B j e => by cases e)).2
    · intro r hrr
      obtain ⟨i, h1, h2, h3, h4, u, B, h5, h6, h7⟩ := h.result r hrr
      refine ⟨i, h1, h2, h3, h4, u, B, h5, h6, ?_⟩
      simp only [setThread_thread]
      by_cases hut : u = t
      · rw [if_pos hut]
        rw [hut, hh] at h7
        rcases h7 with ⟨j', h7⟩ | h7
        · cases h7
          exact Or.inl ⟨_, rfl⟩
        · cases h7
      · rw [if_neg hut]
        exact h7
    · intro u a B j' hu
      simp only [setThread_thread] at hu
      by_cases hut : u = t
      · rw [if_pos hut] at hu
        cases hu
        exact ⟨r0, hr0, hr1, hr2, hr3⟩
      · rw [if_neg hut] at hu
        exact h.notifying u a B j' hu
    · intro u hu
      simp only [setThread_interrupted] at hu
      split at hu
      · rename_i hc
        refine ⟨r0, hr0, ?_⟩
        rw [hc.1]
        exact Nat.le_trans hr1 hc.2
      · exact h.interrupted u hu
    · intro u a B hu
      exact h.returned u a B (other u _ hu (fun a B j e => by cases e)).2
    · intro u y hu
      exact h.done u y (other u _ hu (fun a B j e => by cases e)).2
  · have other : ∀ u (x : Thread α), (if u = t then Thread.done (some (ar, A)) else s.thread u) = x → (∀ y, x ≠ .done y) →
        u ≠ t ∧ s.thread u = x := by
      intro u x e hx
      by_cases hut : u = t
      · rw [if_pos hut] at e
        exact absurd e.symm (hx _)
      · rw [if_neg hut] at e
        exact ⟨hut, e⟩
    refine ⟨h.ari, ?_, ?_, h.worker, ?_, ?_, h.interrupted, ?_, ?_⟩
    · intro i a hi1 hi2 hda
      rcases h.seen i a hi1 hi2 hda with h1 | h1 | h1 | ⟨u, hu, h1⟩
      · exact Or.inl h1
      · exact Or.inr (Or.inl h1)
      · exact Or.inr (Or.inr (Or.inl h1))
      · refine Or.inr (Or.inr (Or.inr ⟨u, hu, ?_⟩))
        simp only [setThread_thread]
        rw [if_neg (by intro e; rw [e, hh] at h1; rcases h1 with h1 | h1 <;> cases h1)]
        exact h1
    · intro u a hu
      refine h.held u a ?_
      rcases hu with hu | hu
      · exact Or.inl (other u _ hu (fun y e => by cases e)).2
      · exact Or.inr (other u _ hu (fun y e => by cases e)).2
    · intro r hrr
      obtain ⟨i, h1, h2, h3, h4, u, B, h5, h6, h7⟩ := h.result r hrr
      refine ⟨i, h1, h2, h3, h4, u, B, h5, h6, ?_⟩
      simp only [setThread_thread]
      by_cases hut : u = t
      · rw [if_pos hut]
        rw [hut, hh] at h7
        rcases h7 with ⟨j', h7⟩ | h7
        · cases h7
          exact Or.inr rfl
        · cases h7
      · rw [if_neg hut]
        exact h7
    · intro u a B j' hu
      exact h.notifying u a B j' (other u _ hu (fun y e => by cases e)).2
    · intro u a B hu
      simp only [setThread_thread] at hu
      by_cases hut : u = t
      · rw [if_pos hut] at hu
        cases hu
        exact hr3
      · rw [if_neg hut] at hu
        exact h.returned u a B hu
    · intro u y hu
      simp only [setThread_thread] at hu
      by_cases hut : u = t
      · exact Or.inl ⟨r0, hr0, hr2⟩
      · rw [if_neg hut] at hu
        exact h.done u y hu

theorem SInv.step {α : Type} {skip : Nat × Nat → Bool} {solve : Nat × Nat → Option α} {k n : Nat} (hup : Upward b skip) {s s' : Shared α}
    (h : SInv b skip solve k n s) (hs : Step b skip solve k s s') : SInv b skip solve k n s' := by
  cases hs with
  | fetch t ht hr => exact h.fetch hup ht hr
  | compare t ar ht hr => exact h.compare hr
  | answer t ar ht hr => exact h.answer ht hr
  | throw t ar ht hr hi =>
    obtain ⟨r, h1, h2⟩ := h.interrupted t hi
    obtain ⟨-, -, -, -, -, h3⟩ := h.held t ar (Or.inr hr)
    exact h.leave (Or.inr hr) (Or.inr ⟨⟨r, h1, Nat.le_trans h2 h3⟩, rfl⟩)
  | notify t ar A j ht hr => exact h.notify hr

theorem SInv.start {α : Type} (skip : Nat × Nat → Bool) (solve : Nat × Nat → Option α) (k : Nat) (nodes : List Nat) :
    SInv b skip solve k (firstArea b nodes) (start α b nodes) := by
  refine ⟨rfl, ?_, ?_, ?_, ?_, ?_, ?_, ?_, ?_⟩
  · intro i ar h1 h2
    simp only [Exact.start] at h2
    omega
  · intro t ar h
    rcases h with h | h <;> cases h
  · intro t
    have := (pos_std (firstArea b nodes) 0).1
    exact this
  · intro r h
    cases h
  · intro t ar A j h
    cases h
  · intro t h
    cases h
  · intro t ar A h
    cases h
  · intro t x h
    cases h

theorem skippable_upward (b : Bounds) (cs : Scheme) (N : Ntk) : Upward b (skippable b cs N) := by
  intro ar ar' hoob hle
  by_contra hc
  unfold skippable at hc
  split at hc
  · exact hc rfl
  · rename_i h1
    have h2 : ¬ b.area < area ar' := by unfold area; omega
    rcases hoob with hoob | hoob
    · omega
    · have h3 : area ar' ≤ b.x * b.y := by
        unfold area
        exact Nat.mul_le_mul (by omega) (by omega)
      have h4 : (b.x + 1) * (b.y + 1) ≤ area ar := by
        unfold area
        exact Nat.mul_le_mul (by omega) (by omega)
      have h5 : b.x * b.y < (b.x + 1) * (b.y + 1) := Nat.mul_lt_mul_of_lt_of_lt (by omega) (by omega)
      omega

theorem SInv.run {α : Type} {skip : Nat × Nat → Bool} {solve : Nat × Nat → Option α} {k : Nat} {nodes : List Nat} (hup : Upward b skip) {s : Shared α}
    (hrun : Relation.ReflTransGen (Step b skip solve k) (Exact.start α b nodes) s) : SInv b skip solve k (Exact.firstArea b nodes) s := by
  induction hrun with
  | refl => exact SInv.start skip solve k nodes
  | tail _ hs ih => exact ih.step hup hs

theorem collect_result {α : Type} {solve : Nat × Nat → Option α} {k : Nat} {s : Shared α} (hret : ∀ t ar A, s.thread t = .done (some (ar, A)) → solve ar = some A)
    {r : Nat × Nat} {A : α} {t : Nat} (hres : s.result = some r) (ht : t < k) (hd : s.thread t = .done (some (r, A))) :
    collect k s = some (some (r, A)) := by
  unfold collect
  rw [hres]
  simp only [Option.map_some, Option.some.injEq]
  have hA := hret t r A hd
  have key : ∀ (l : List Nat) (a : Option ((Nat × Nat) × α)), (t ∈ l ∨ a = some (r, A)) →
      l.foldl (fun l t => match s.thread t with
        | .done (some x) => if x.1 = r then some x else l
        | _ => l) a = some (r, A) := by
    intro l
    induction l with
    | nil =>
      intro a h
      rcases h with h | h
      · cases h
      · exact h
    | cons u l ih =>
      intro a h
      rw [List.foldl_cons]
      refine ih _ ?_
      by_cases htl : t ∈ l
      · exact Or.inl htl
      · right
        by_cases hut : u = t
        · rw [hut, hd]
          simp
        · have ha : a = some (r, A) := by
            rcases h with h | h
            · rcases List.mem_cons.1 h with h | h
              · exact absurd h.symm hut
              · exact absurd h htl
            · exact h
          split
          · rename_i x hx
            split
            · rename_i e
              obtain ⟨x1, x2⟩ := x
              simp only at e
              subst e
              have := hret u x1 x2 hx
              rw [hA, Option.some.injEq] at this
              rw [this]
            · exact ha
          · exact ha
  exact key _ _ (Or.inl (List.mem_range.2 ht))

/-- For every number of threads and every schedule in which all threads have ended: if there is a result, then a layout is returned whose
assignment meets the constraints for the aspect ratio of the result, which is within the bounds, and no aspect ratio within the bounds
with fewer tiles is feasible, except perhaps the very first one, `1 × lower bound`. If there is no result, no aspect ratio within the bounds is
feasible, except perhaps the very first one. The exception is real, `C77_false_async`. -/
theorem C77_async_partial (S : Setting tp cs D order) (hb : b.Small) (solve : Nat × Nat → Option Asg)
    (hsolve : Solves (Meets tp cs D.substitutePos (D.substitutePos.pis ++ order) crossings desynchronize) solve)
    (k : Nat) (hk : 1 ≤ k) (s : Shared Asg)
    (hrun : Relation.ReflTransGen (Step b (skippable b cs D.substitutePos) solve k) (start Asg b (D.substitutePos.pis ++ order)) s)
    (hend : ∀ t < k, ∃ x, s.thread t = .done x) :
    (∀ r, s.result = some r → ∃ A, collect k s = some (some (r, A)) ∧
      Meets tp cs D.substitutePos (D.substitutePos.pis ++ order) crossings desynchronize r A ∧ Allowed b r ∧
      ∀ ar' A', Allowed b ar' → Meets tp cs D.substitutePos (D.substitutePos.pis ++ order) crossings desynchronize ar' A' →
        ar' ≠ (0, max (Exact.firstArea b (D.substitutePos.pis ++ order)) 1 - 1) → area r ≤ area ar') ∧
    (s.result = none → collect k s = none ∧ ∀ ar' A', Allowed b ar' →
      Meets tp cs D.substitutePos (D.substitutePos.pis ++ order) crossings desynchronize ar' A' →
        ar' = (0, max (Exact.firstArea b (D.substitutePos.pis ++ order)) 1 - 1)) := by
  have I := SInv.run (skippable_upward b cs D.substitutePos) hrun
  -- an aspect ratio that is feasible is not better than the result, unless it is the first
  have key : ∀ ar' A', Allowed b ar' → Meets tp cs D.substitutePos (D.substitutePos.pis ++ order) crossings desynchronize ar' A' →
      ar' ≠ (0, max (Exact.firstArea b (D.substitutePos.pis ++ order)) 1 - 1) → ∃ r, s.result = some r ∧ area r ≤ area ar' := by
    intro ar' A' ha hm hne
    have hsk := S.skip hb ha hm
    obtain ⟨i, hi⟩ := pos_cover _ ar' (S.firstArea hb ha hm)
    have hi0 : 1 ≤ i := by
      by_contra hc
      have : i = 0 := by omega
      subst this
      rw [(pos_first _).1, Option.some.injEq] at hi
      exact hne hi.symm
    rcases Nat.lt_or_ge s.count i with hlt | hge
    · obtain ⟨x, hx⟩ := hend 0 hk
      rcases I.done 0 x hx with ⟨r, h1, h2⟩ | h1
      · refine ⟨r, h1, ?_⟩
        rw [I.ari] at h2
        rw [pos_area hi]
        exact Nat.le_trans h2 (pos_mono _ (by omega))
      · rw [h1 i ar' (by omega) hi] at hsk
        cases hsk
    · rcases I.seen i ar' hi0 hge hi with h1 | h1 | h1 | ⟨t, ht, h1⟩
      · rw [h1] at hsk
        cases hsk
      · exact absurd hm (hsolve.complete ar' h1 A')
      · exact h1
      · obtain ⟨x, hx⟩ := hend t ht
        rw [hx] at h1
        rcases h1 with h1 | h1 <;> cases h1
  refine ⟨?_, ?_⟩
  · intro r hr
    obtain ⟨i, h1, h2, h3, h4, t, A, h5, h6, h7⟩ := I.result r hr
    have hd : s.thread t = .done (some (r, A)) := by
      obtain ⟨x, hx⟩ := hend t h5
      rcases h7 with ⟨j, h7⟩ | h7
      · rw [hx] at h7
        cases h7
      · exact h7
    have hlow := pos_mono (Exact.firstArea b (D.substitutePos.pis ++ order)) (Nat.zero_le i)
    rw [pos_zero, ← pos_area h3] at hlow
    refine ⟨A, collect_result I.returned hr h5 hd, hsolve.sound r A h6, allowed_of_skip hb h4 hlow, ?_⟩
    intro ar' A' ha hm hne
    obtain ⟨r', e, hle⟩ := key ar' A' ha hm hne
    rw [hr, Option.some.injEq] at e
    rw [e]
    exact hle
  · intro hn
    refine ⟨by unfold collect; rw [hn]; rfl, fun ar' A' ha hm => ?_⟩
    by_contra hne
    obtain ⟨r, e, -⟩ := key ar' A' ha hm hne
    rw [hn] at e
    cases e

/-- With threads, the first aspect ratio is never examined. -/
theorem C77_async_first {nodes : List Nat} {N : Ntk} (solve : Nat × Nat → Option Asg) (k : Nat) (s : Shared Asg)
    (hrun : Relation.ReflTransGen (Step b (skippable b cs N) solve k) (start Asg b nodes) s) :
    s.result ≠ some (0, max (Exact.firstArea b nodes) 1 - 1) := by
  intro h
  obtain ⟨i, h1, h2, h3, -⟩ := (SInv.run (skippable_upward b cs N) hrun).result _ h
  have := (pos_first _).2 i h3
  omega

/-! ## All schedules end -/

/-- How many steps a thread can take without fetching. -/
def weight {α : Type} (k : Nat) : Thread α → Nat
  | .ready => 1
  | .fetched _ => k + 5
  | .solving _ => k + 4
  | .notifying _ _ j => k - j + 2
  | .done _ => 0

def total {α : Type} (k M : Nat) (s : Shared α) : Nat := ((List.range k).map fun t => weight k (s.thread t)).sum + (k + 5) * (M - s.count)

theorem sum_change (k t : Nat) (ht : t < k) (f g : Nat → Nat) (h : ∀ i, i ≠ t → g i = f i) :
    ((List.range k).map g).sum + f t = ((List.range k).map f).sum + g t := by
  induction k with
  | zero => omega
  | succ k ih =>
    rw [List.range_succ, List.map_append, List.map_append, List.sum_append, List.sum_append]
    simp only [List.map_cons, List.map_nil, List.sum_cons, List.sum_nil, Nat.add_zero]
    by_cases htk : t = k
    · have : (List.range k).map g = (List.range k).map f := by
        apply List.map_congr_left
        intro i hi
        exact h i (by have := List.mem_range.1 hi; omega)
      rw [this, htk]
      omega
    · have := ih (by omega)
      rw [h k (fun e => htk e.symm)]
      omega

theorem total_set {α : Type} {k M t : Nat} (ht : t < k) {s : Shared α} (s' : Shared α) (x : Thread α) (hs : s'.thread = s.thread) :
    total k M (s'.setThread t x) + weight k (s.thread t) + (k + 5) * (M - s.count) = total k M s + weight k x + (k + 5) * (M - s'.count) := by
  have := sum_change k t ht (fun u => weight k (s.thread u)) (fun u => weight k ((s'.setThread t x).thread u)) (by
    intro i hi
    simp only [setThread_thread]
    rw [if_neg hi, hs])
  simp only [setThread_thread, if_true] at this
  unfold total
  simp only [setThread_count, setThread_thread]
  omega

theorem total_step {α : Type} {skip : Nat × Nat → Bool} {solve : Nat × Nat → Option α} {k n M : Nat} {s s' : Shared α} (h : SInv b skip solve k n s)
    (hM : b.area < (pos n M).num) (hs : Step b skip solve k s s') : total k M s' < total k M s := by
  have same : ∀ t (s' : Shared α) x y, t < k → s.thread t = y → s'.thread = s.thread → s'.count = s.count → weight k x < weight k y →
      total k M (s'.setThread t x) < total k M s := by
    intro t s' x y ht hy h1 h2 hw
    have := total_set (M := M) ht s' x h1
    rw [hy, h2] at this
    omega
  cases hs with
  | fetch t ht hr =>
    unfold Exact.fetch
    simp only
    have hc : s.ari.inc = pos n (s.count + 1) := by rw [h.ari, ← pos_succ]
    obtain ⟨ar, hd, ha⟩ := pos_deref n (s.count + 1)
    have hd' : s.ari.inc.deref = some ar := by rw [hc]; exact hd
    have tot : ∀ x : Thread α, (s.count < M → weight k x ≤ k + 5) → (M ≤ s.count → x = .done none) →
        total k M (({ s with ari := s.ari.inc, count := s.count + 1 } : Shared α).setThread t x) < total k M s := by
      intro x h1 h2
      have := total_set (M := M) (s := s) ht ({ s with ari := s.ari.inc, count := s.count + 1 } : Shared α) x rfl
      rw [hr, show weight k (Thread.ready : Thread α) = 1 from rfl] at this
      simp only [] at this
      rcases Nat.lt_or_ge s.count M with hlt | hge
      · have h3 := h1 hlt
        have h4 : (k + 5) * (M - s.count) = (k + 5) * (M - (s.count + 1)) + (k + 5) := by
          rw [show M - s.count = (M - (s.count + 1)) + 1 by omega, Nat.mul_add, Nat.mul_one]
        omega
      · have h3 := h2 hge
        rw [h3] at this ⊢
        rw [show M - s.count = 0 by omega, show M - (s.count + 1) = 0 by omega] at this
        rw [show weight k (Thread.done none : Thread α) = 0 from rfl] at this
        omega
    rw [hd']
    simp only
    split
    · exact tot _ (fun _ => Nat.zero_le _) (fun _ => rfl)
    · rename_i hoob
      have hcount : ¬ M ≤ s.count := by
        intro hle
        have := pos_mono n (show M ≤ s.count + 1 by omega)
        rw [← ha] at this
        exact hoob (Or.inl (by unfold area at this; omega))
      split
      · exact tot _ (fun _ => by simp [weight]) (fun hle => absurd hle hcount)
      · exact tot _ (fun _ => Nat.le_refl _) (fun hle => absurd hle hcount)
  | compare t ar ht hr =>
    unfold Exact.compare
    split
    · exact same t s _ _ ht hr rfl rfl (by simp [weight])
    · exact same t _ _ _ ht hr rfl rfl (by simp [weight])
  | answer t ar ht hr =>
    unfold Exact.answer
    split
    · exact same t s _ _ ht hr rfl rfl (by simp [weight])
    · split
      · exact same t s _ _ ht hr rfl rfl (by simp [weight])
      · exact same t _ _ _ ht hr rfl rfl (by simp [weight])
  | throw t ar ht hr hi => exact same t s _ _ ht hr rfl rfl (by simp [weight])
  | notify t ar A j ht hr =>
    unfold Exact.notify
    split
    · exact same t _ _ _ ht hr rfl rfl (by simp only [weight]; omega)
    · exact same t s _ _ ht hr rfl rfl (by simp [weight])

/-- Every schedule ends: there is a bound on the number of steps, and while a thread has not ended it can take a step. -/
theorem C77_async_terminates {nodes : List Nat} {N : Ntk} {α : Type} (solve : Nat × Nat → Option α) (k : Nat) :
    (∃ B, ∀ (l : Nat) (f : Nat → Shared α), f 0 = start α b nodes → (∀ i < l, Step b (skippable b cs N) solve k (f i) (f (i + 1))) → l ≤ B) ∧
    (∀ (s : Shared α) (t : Nat), t < k → (∀ x, s.thread t ≠ .done x) → ∃ s', Step b (skippable b cs N) solve k s s') := by
  refine ⟨?_, ?_⟩
  · obtain ⟨M, hM⟩ := pos_beyond (Exact.firstArea b nodes) b.area
    refine ⟨total k M (start α b nodes), fun l f h0 hstep => ?_⟩
    have key : ∀ i ≤ l, Relation.ReflTransGen (Step b (skippable b cs N) solve k) (start α b nodes) (f i) ∧
        total k M (f i) + i ≤ total k M (start α b nodes) := by
      intro i
      induction i with
      | zero =>
        intro _
        rw [h0]
        exact ⟨.refl, Nat.le_refl _⟩
      | succ i ih =>
        intro hi
        obtain ⟨h1, h2⟩ := ih (by omega)
        have hs := hstep i (by omega)
        have := total_step (SInv.run (skippable_upward b cs N) h1) hM hs
        exact ⟨h1.tail hs, by omega⟩
    have := (key l (Nat.le_refl _)).2
    omega
  · intro s t ht hnd
    cases hx : s.thread t with
    | ready => exact ⟨_, .fetch s t ht hx⟩
    | fetched ar => exact ⟨_, .compare s t ar ht hx⟩
    | solving ar => exact ⟨_, .answer s t ar ht hx⟩
    | notifying ar A j => exact ⟨_, .notify s t ar A j ht hx⟩
    | done x => exact absurd hx (hnd x)

end

/-! ## Examples -/

/-- An input that is an output. -/
def exBuf : Ntk := ⟨[.const false, .const true, .pi 0], [2]⟩

/-- The input on (0,0), the output on (0,1). -/
def exBufAsg : Asg where
  tn t n := (n == 2 && t == ⟨0, 0, 0, false⟩) || (n == 3 && t == ⟨0, 1, 0, false⟩)
  te _ _ := false
  tc t u := t == ⟨0, 0, 0, false⟩ && u == ⟨0, 1, 0, false⟩
  tp _ _ := false
  ncl _ c := c == 0

theorem exBuf_setting : Setting .cart (rowClocking .cart .four) exBuf [3] := by
  refine ⟨⟨"row".toList, by rfl, fun h => absurd rfl h⟩, rfl, ⟨1, exLitG, Ortho.exTab, ?_⟩, topoCheck_sound (by decide +kernel)⟩
  refine ⟨wfCheck_sound (by decide +kernel), ?_, by decide +kernel, ?_, ?_, by decide +kernel, ?_, ?_, by decide, by decide, fun _ => rfl, ?_, ?_⟩
  · intro j n h
    rw [show exBuf.pis = [2] by decide +kernel] at h
    rcases j with _ | j
    · cases h; rfl
    · simp at h
  · refine Ortho.node_cases (N := exBuf) (by decide +kernel) (fun n e => by rw [e]; intro h; cases h)
  · refine Ortho.node_cases (N := exBuf) (by decide +kernel) (fun n e => by rw [e]; simp [Networks.Node.fanins])
  · refine Ortho.node_cases (N := exBuf) (by decide +kernel) (fun n e => by rw [e]; intro h; cases h)
  · refine Ortho.node_cases (N := exBuf) (by decide +kernel) (fun n e => by rw [e]; intro h; cases h)
  · intro n hn a v
    match n with
    | 0 | 1 | 2 => cases hn
    | n + 3 => rw [Ntk.node_ge _ _ (by simp [exBuf, Ntk.size])] at hn; cases hn
  · refine Ortho.node_cases (N := exBuf) (by decide +kernel) (fun n e => by rw [e]; intro h; cases h)

/-- There are solvers: the hypotheses of `C77_minimal_partial` and `C77_async_partial` are met for every setting, in particular for the example. -/
theorem solver_exists (P : Nat × Nat → Asg → Prop) : ∃ solve, Solves P solve := by
  classical
  refine ⟨fun ar => if h : ∃ A, P ar A then some h.choose else none, ?_, ?_⟩
  · intro ar A h
    split at h
    · rename_i hx
      cases h
      exact hx.choose_spec
    · cases h
  · intro ar h A hA
    rw [dif_pos ⟨A, hA⟩] at h
    cases h

example : Setting .cart (rowClocking .cart .four) exBuf [3] ∧
    Meets .cart (rowClocking .cart .four) exBuf.substitutePos (exBuf.substitutePos.pis ++ [3]) false false (0, 1) exBufAsg ∧
    Allowed ⟨2, 2, 2, false⟩ (0, 1) ∧ Bounds.Small ⟨2, 2, 2, false⟩ := by
  refine ⟨exBuf_setting, ?_, ?_, by unfold Bounds.Small; decide⟩
  · unfold Meets
    decide +kernel
  · unfold Allowed area
    decide

/-- The conjunction on a wave needs six tiles, the search with a solver that knows the solution returns it. -/
example : runSync (α := Asg) ⟨20, 20, 20, false⟩ (twoddwaveClocking .cart .four) exAnd.substitutePos (exAnd.substitutePos.pis ++ [4, 5])
    (fun ar => if ar = (2, 1) then some exAsg else none) 20 = some (some ((2, 1), exAsg)) := by
  simp [runSync, search, firstArea, ARIt.mk', arNext, factorize, factorizeFrom, factorsAt, ARIt.deref, ARIt.inc, skippable, twoddwaveClocking,
    Bounds.upper, product, show exAnd.substitutePos.pis = [2, 3] by decide +kernel]

/-- With threads the search misses the first aspect ratio: there are a network and bounds such that the search with one thread finds a
layout, and with threads nothing is found, whatever the schedule. -/
theorem C77_false_async : ∃ (tp : Topo) (cs : Scheme) (D : Ntk) (order : List Nat) (b : Bounds), Setting tp cs D order ∧ b.Small ∧
    (∃ ar A, Allowed b ar ∧ Meets tp cs D.substitutePos (D.substitutePos.pis ++ order) false false ar A) ∧
    ∀ (solve : Nat × Nat → Option Asg) (k : Nat) (s : Shared Asg),
      Relation.ReflTransGen (Step b (skippable b cs D.substitutePos) solve k) (start Asg b (D.substitutePos.pis ++ order)) s → collect k s = none := by
  refine ⟨.cart, rowClocking .cart .four, exBuf, [3], ⟨2, 2, 2, false⟩, exBuf_setting, by unfold Bounds.Small; decide,
    ⟨(0, 1), exBufAsg, by unfold Allowed area; decide, by unfold Meets; decide +kernel⟩, ?_⟩
  intro solve k s hrun
  have hfirst : firstArea ⟨2, 2, 2, false⟩ (exBuf.substitutePos.pis ++ [3]) = 2 := by decide +kernel
  have h1 := C77_async_first solve k s hrun
  have I := SInv.run (skippable_upward _ _ _) hrun
  rw [hfirst] at h1 I
  suffices s.result = none by unfold collect; rw [this]; rfl
  cases hr : s.result with
  | none => rfl
  | some r =>
    exfalso
    obtain ⟨i, h2, -, h3, h4, -⟩ := I.result r hr
    have hlow := pos_mono 2 (Nat.zero_le i)
    rw [pos_zero, ← pos_area h3] at hlow
    rw [hr] at h1
    obtain ⟨x, y⟩ := r
    have hd : depth exBuf.substitutePos = 1 := by decide +kernel
    unfold skippable at h4
    rw [hd] at h4
    split at h4
    · cases h4
    · rename_i hc
      rw [if_neg (by decide), if_pos (by rfl)] at h4
      unfold area at hlow
      simp only [decide_eq_false_iff_not] at h4 hc hlow
      have : x < 2 ∧ y < 2 := by omega
      have hx : x = 0 ∨ x = 1 := by omega
      have hy : y = 1 := by omega
      subst hy
      rcases hx with hx | hx
      · subst hx
        exact h1 rfl
      · subst hx
        omega

end Verif.PhysicalDesign.Exact
