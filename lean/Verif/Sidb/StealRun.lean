import Verif.Sidb.StealInv

/-!
# Runs of the work stealing

Lemmas for `Verif.Sidb.StealProps`.
-/
namespace Verif.Sidb.Gss

open Verif.Sidb Cluster

variable {E : Env} {P : Params} {top : Cluster} {s : State}

/-! ## What a worker has to do -/

/-- What a worker still has to do before it unfolds or ends. -/
def rank (N : Nat) (w : Worker) : Nat :=
  match w.pc with
  | .enter _ => 0
  | .init _ _ => 1
  | .done => 0
  | .steal i l => (N - i) + 2 + (if l then N + 1 else 0)
  | .idle => 2 * N + 4
  | .next => 4 * w.firsts.length + 3 + (2 * N + 5)
  | .pop => 4 * w.firsts.length + 2 + (2 * N + 5)
  | .fail => 4 * w.firsts.length + 2 + (2 * N + 5)

theorem idle_rank (N : Nat) {w w' : Worker} (hpc : w.pc = .idle) (h : w.idle = some w') : rank N w' < rank N w := by
  have hr : rank N w = 2 * N + 4 := by unfold rank; rw [hpc]
  unfold Worker.idle at h
  split at h
  · cases h
  · cases h; rw [hr]; simp [rank]
  · cases h; rw [hr]; simp [rank]; omega

theorem next_rank (N : Nat) {w w' : Worker} (hpc : w.pc = .next) (h : w.next = some w') : rank N w' < rank N w := by
  have hr : rank N w = 4 * w.firsts.length + 3 + (2 * N + 5) := by unfold rank; rw [hpc]
  unfold Worker.next at h
  split at h
  · cases h
  · cases h; rw [hr]; simp [rank]
  · cases h; rw [hr]; simp [rank]
  · cases h; rw [hr]; simp [rank]

theorem fail_rank (N : Nat) {w : Worker} (hpc : w.pc = .fail) : rank N w.fail < rank N w := by
  have hr : rank N w = 4 * w.firsts.length + 2 + (2 * N + 5) := by unfold rank; rw [hpc]
  unfold Worker.fail
  split
  · rw [hr]; simp [rank]; omega
  · rename_i e
    have := congrArg List.length e
    rw [hr]; simp [rank] at this ⊢; omega
  · rename_i e
    have := congrArg List.length e
    rw [hr]; simp [rank] at this ⊢; omega

theorem pop_rank (N : Nat) {w w' : Worker} (hpc : w.pc = .pop) (hs : w.firsts.length = w.frames.length) (h : w.pop s = some w') :
    rank N w' < rank N w := by
  have hr : rank N w = 4 * w.firsts.length + 2 + (2 * N + 5) := by unfold rank; rw [hpc]
  unfold Worker.pop at h
  split at h
  · cases h
  · rename_i f rest e
    rw [Option.map_eq_some_iff] at h
    obtain ⟨Q, _, rfl⟩ := h
    have : w.firsts.length = rest.length + 1 := by rw [hs, e]; rfl
    rw [hr]
    unfold rank Worker.returned
    by_cases hre : rest.isEmpty = true
    · simp [hre]; omega
    · simp [hre]; omega

/-! ## Stealing -/

theorem steal_step {v : Worker} {p : List Clustering} (h : WInv s v p) :
    (v.queue.count = 0 ∧ v.queue.steal s = some (none, v.queue)) ∨
    ∃ x y Q p', v.queue.count ≠ 0 ∧ v.queue.steal s = some (some (x, y), Q) ∧ WInv s { v with queue := Q } p' ∧
      p.Perm (addParts x y :: p') := by
  obtain ⟨hsy, h⟩ := h
  unfold Queue.steal
  by_cases h0 : v.queue.count = 0
  · left; rw [if_pos h0]; exact ⟨h0, rfl⟩
  right
  rw [if_neg h0]
  rcases h with ⟨fs, rest, p0, h1, h2, h3, h4, h5⟩ | ⟨h1, h2⟩
  · have hp0 : p0 ≠ [] := by rintro rfl; exact h0 (by simpa using h4)
    obtain ⟨fs0, fs', L, Ls', x, y, p', e1, e2, e3, e4, e5, e6⟩ := h3.steal hp0
    rw [h2, e2]
    simp only [e3]
    have hlen := e5.length_eq
    simp only [List.length_cons] at hlen
    have key : ∀ p'', Busy { v with queue := (⟨x, fs'.map Frame.inf, L.dropLast :: Ls', v.queue.count - 1⟩ : Queue) } fs' p' p'' →
        WInv s { v with queue := (⟨x, fs'.map Frame.inf, L.dropLast :: Ls', v.queue.count - 1⟩ : Queue) } p'' := by
      intro p'' hb
      refine ⟨hsy, Or.inl ⟨fs', fs0.reverse ++ rest, p', ?_, rfl, e4, ?_, hb⟩⟩
      · simp [h1, e1]
      · simp only; omega
    unfold Busy at h5 key
    cases e : v.pc with
    | enter y' =>
      rw [e] at h5
      simp only [e] at h5 key
      refine ⟨x, y, _, addParts v.state y' :: p', h0, rfl, key _ rfl, ?_⟩
      rw [h5]
      exact (e5.cons _).trans (List.Perm.swap _ _ _)
    | next =>
      rw [e] at h5
      simp only [e] at h5 key
      exact ⟨x, y, _, p', h0, rfl, key _ ⟨rfl, h5.2⟩, h5.1 ▸ e5⟩
    | pop =>
      rw [e] at h5
      simp only [e] at h5 key
      exact ⟨x, y, _, p', h0, rfl, key _ ⟨rfl, e6 h5.2.2⟩, h5.1 ▸ e5⟩
    | idle =>
      rw [e] at h5
      simp only [e] at h5 key
      exact ⟨x, y, _, p', h0, rfl, key _ ⟨rfl, h5.2⟩, h5.1 ▸ e5⟩
    | fail => rw [e] at h5; exact h5.elim
    | steal i l => rw [e] at h5; exact h5.elim
    | init x y => rw [e] at h5; exact h5.elim
    | done => rw [e] at h5; exact h5.elim
  · exact absurd h1 h0

theorem steal_out {w : Worker} {p : List Clustering} {i : Nat} {l : Bool} (hpc : w.pc = .steal i l) (h : WInv s w p) :
    w.firsts.length = w.frames.length ∧ w.queue.count = 0 ∧ p = [] ∧ w.frames = [] := by
  obtain ⟨hsy, h⟩ := h
  rcases h with ⟨fs, rest, p0, h1, h2, h3, h4, h5⟩ | ⟨h1, h2⟩
  · unfold Busy at h5; rw [hpc] at h5; exact h5.elim
  · unfold Out at h2; rw [hpc] at h2; exact ⟨hsy, h1, h2⟩

/-! ## The invariant -/

/-- Results and what is left to do make up the total. -/
structure SInv (E : Env) (s : State) (top : Cluster) (total : List (List Charge)) (σ : Sys) (ps : List (List Clustering)) : Prop where
  length : ps.length = σ.workers.length
  worker : ∀ (i : Nat) (w : Worker) (p : List Clustering), σ.workers[i]? = some w → ps[i]? = some p → WInv s w p
  st : ∀ p ∈ ps, ∀ x ∈ p, St E top s x
  perm : (σ.results ++ ps.flatten.flatMap (val E s)).Perm total

theorem flatten_set {α : Type} {l : List (List α)} {t : Nat} (ht : t < l.length) (a : List α) :
    (l.set t a).flatten.Perm (a ++ (l.set t []).flatten) := by
  induction l generalizing t with
  | nil => simp at ht
  | cons b l ih =>
    cases t with
    | zero => simp
    | succ t =>
      have := ih (t := t) (by simpa using ht)
      simp only [List.set_cons_succ, List.flatten_cons]
      exact (this.append_left b).trans (by
        rw [← List.append_assoc, ← List.append_assoc]
        exact List.perm_append_comm.append_right _)

theorem flatten_get {α : Type} {l : List (List α)} {t : Nat} {a : List α} (h : l[t]? = some a) :
    l.flatten.Perm (a ++ (l.set t []).flatten) := by
  obtain ⟨ht, rfl⟩ := List.getElem?_eq_some_iff.mp h
  have := flatten_set ht l[t]
  rwa [List.set_getElem_self] at this

/-- The weight of what is left. -/
def total (E : Env) (s : State) (ps : List (List Clustering)) : Nat := (ps.flatten.map (weight E s)).sum

/-- The ranks of all workers. -/
def ranks (σ : Sys) : Nat := (σ.workers.map (rank σ.workers.length)).sum

variable {tot : List (List Charge)} {σ : Sys} {ps : List (List Clustering)}

theorem SInv.get (h : SInv E s top tot σ ps) {t : Nat} {w : Worker} (hw : σ.workers[t]? = some w) :
    ∃ p, ps[t]? = some p ∧ WInv s w p ∧ (∀ x ∈ p, St E top s x) ∧ t < ps.length := by
  obtain ⟨ht, _⟩ := List.getElem?_eq_some_iff.mp hw
  have ht' : t < ps.length := by rw [h.length]; exact ht
  refine ⟨ps[t], List.getElem?_eq_getElem ht', h.worker t w _ hw (List.getElem?_eq_getElem ht'), ?_, ht'⟩
  exact h.st _ (List.getElem_mem ht')

theorem SInv.own (h : SInv E s top tot σ ps) {t : Nat} {p : List Clustering} (hp : ps[t]? = some p) {w' : Worker}
    {p' : List Clustering} {r : List (List Charge)} (hw' : WInv s w' p') (hst : ∀ x ∈ p', St E top s x)
    (hv : (p.flatMap (val E s)).Perm (r ++ p'.flatMap (val E s))) :
    SInv E s top tot ⟨σ.workers.set t w', σ.results ++ r⟩ (ps.set t p') := by
  obtain ⟨ht, _⟩ := List.getElem?_eq_some_iff.mp hp
  refine ⟨by simp [h.length], ?_, ?_, ?_⟩
  · intro i w q hw hq
    simp only [List.getElem?_set] at hw hq
    by_cases e : t = i
    · rw [if_pos e] at hw hq
      split_ifs at hw hq
      cases hw; cases hq
      exact hw'
    · rw [if_neg e] at hw hq
      exact h.worker i w q hw hq
  · intro q hq
    rcases List.mem_or_eq_of_mem_set hq with hq | rfl
    · exact h.st q hq
    · exact hst
  · refine List.Perm.trans ?_ h.perm
    simp only [List.append_assoc]
    refine List.Perm.append_left _ ?_
    have h1 := (flatten_get hp).flatMap_right (val E s)
    have h2 := (flatten_set ht p').flatMap_right (val E s)
    rw [List.flatMap_append] at h1 h2
    refine (h2.append_left r).trans (List.Perm.trans ?_ h1.symm)
    rw [← List.append_assoc]
    exact hv.symm.append_right _

theorem total_set {t : Nat} {p : List Clustering} (hp : ps[t]? = some p) (p' : List Clustering) :
    total E s (ps.set t p') + (p.map (weight E s)).sum = total E s ps + (p'.map (weight E s)).sum := by
  obtain ⟨ht, _⟩ := List.getElem?_eq_some_iff.mp hp
  have h1 := ((flatten_get hp).map (weight E s)).sum_eq
  have h2 := ((flatten_set ht p').map (weight E s)).sum_eq
  unfold total
  rw [h1, h2, List.map_append, List.map_append, List.sum_append, List.sum_append]
  omega

theorem ranks_set {t : Nat} {w : Worker} (hw : σ.workers[t]? = some w) (w' : Worker) (r : List (List Charge)) :
    ranks ⟨σ.workers.set t w', r⟩ + rank σ.workers.length w = ranks σ + rank σ.workers.length w' := by
  have key : ∀ (l : List Worker) (t : Nat) (N : Nat), l[t]? = some w →
      ((l.set t w').map (rank N)).sum + rank N w = (l.map (rank N)).sum + rank N w' := by
    intro l
    induction l with
    | nil => intro t N h; simp at h
    | cons a l ih =>
      intro t N h
      cases t with
      | zero => simp at h; subst h; simp; omega
      | succ t => have := ih t N (by simpa using h); simp only [List.set_cons_succ, List.map_cons, List.sum_cons]; omega
  unfold ranks
  simp only [List.length_set]
  exact key σ.workers t _ hw

/-! ## A step -/

/-- The outcome of a step: the invariant, and if the worker was not done and no lock was busy, there is less to do. -/
def Good' (E : Env) (s : State) (top : Cluster) (tot : List (List Charge)) (σ : Sys) (ps : List (List Clustering)) (o : Option Sys)
    (strict : Bool) : Prop :=
  ∃ σ' ps', o = some σ' ∧ SInv E s top tot σ' ps' ∧ σ'.workers.length = σ.workers.length ∧
    (strict = true → total E s ps' < total E s ps ∨ (total E s ps' = total E s ps ∧ ranks σ' < ranks σ))

theorem good_own (h : SInv E s top tot σ ps) {t : Nat} {w w' : Worker} {p p' : List Clustering} (hw : σ.workers[t]? = some w)
    (hp : ps[t]? = some p) (hw' : WInv s w' p') (hst : ∀ x ∈ p, St E top s x) (hpp : p.Perm p')
    (hrk : rank σ.workers.length w' < rank σ.workers.length w) (b : Bool) :
    Good' E s top tot σ ps (some { σ with workers := σ.workers.set t w' }) b := by
  have := h.own hp (r := []) hw' (fun x hx => hst x (hpp.mem_iff.mpr hx)) (by simpa using hpp.flatMap_right _)
  refine ⟨_, ps.set t p', rfl, ?_, by simp, fun _ => Or.inr ⟨?_, ?_⟩⟩
  · simpa using this
  · have h1 := total_set (E := E) (s := s) hp p'
    have h2 := (hpp.map (weight E s)).sum_eq
    omega
  · have := ranks_set hw w' σ.results
    omega

theorem steal_good (h : SInv E s top tot σ ps) {t : Nat} {w : Worker} {p : List Clustering} {i : Nat} {l : Bool}
    (hw : σ.workers[t]? = some w) (hp : ps[t]? = some p) (hpc : w.pc = .steal i l) (hwi : WInv s w p) (busy : Bool) :
    Good' E s top tot σ ps
      (match σ.workers[i]? with
      | none => some { σ with workers := σ.workers.set t { w with pc := if l then .steal 0 false else .done } }
      | some v =>
        if i = w.index then some { σ with workers := σ.workers.set t { w with pc := .steal (i + 1) l } }
        else if busy then some { σ with workers := σ.workers.set t { w with pc := .steal (i + 1) true } }
        else
          match v.queue.steal s with
          | none => none
          | some (none, _) => some { σ with workers := σ.workers.set t { w with pc := .steal (i + 1) l } }
          | some (some (x, y), Q) =>
            some { σ with workers := (σ.workers.set i { v with queue := Q }).set t { w with state := x, pc := .init x y } })
      (!busy && true) := by
  obtain ⟨hsy, h0, rfl, hfr⟩ := steal_out hpc hwi
  have hrk : rank σ.workers.length w = (σ.workers.length - i) + 2 + (if l then σ.workers.length + 1 else 0) := by
    unfold rank; rw [hpc]
  cases hv : σ.workers[i]? with
  | none =>
    have hi : σ.workers.length ≤ i := List.getElem?_eq_none_iff.mp hv
    refine good_own h hw hp (w' := { w with pc := if l then .steal 0 false else .done }) (p' := []) ⟨hsy, Or.inr ⟨h0, ?_⟩⟩
      (by simp) (List.Perm.refl _) ?_ _
    · unfold Out; cases l <;> simp [hfr]
    · rw [hrk]; cases l <;> simp [rank] <;> omega
  | some v =>
    obtain ⟨hi, _⟩ := List.getElem?_eq_some_iff.mp hv
    have hadv : ∀ b, Good' E s top tot σ ps (some { σ with workers := σ.workers.set t { w with pc := .steal (i + 1) l } }) b := by
      intro b
      refine good_own h hw hp (w' := { w with pc := .steal (i + 1) l }) (p' := []) ⟨hsy, Or.inr ⟨h0, ?_⟩⟩ (by simp)
        (List.Perm.refl _) ?_ _
      · unfold Out; simp [hfr]
      · rw [hrk]; simp only [rank]; omega
    simp only
    by_cases hx : i = w.index
    · rw [if_pos hx]; exact hadv _
    rw [if_neg hx]
    cases busy with
    | true =>
      simp only [if_true]
      refine ⟨_, ps.set t [], rfl, ?_, by simp, by simp⟩
      have := h.own hp (r := []) (w' := { w with pc := .steal (i + 1) true }) (p' := [])
        ⟨hsy, Or.inr ⟨h0, by unfold Out; simp [hfr]⟩⟩ (by simp) (by simp)
      simpa using this
    | false =>
      simp only [Bool.false_eq_true, if_false]
      obtain ⟨q, hq, hvi, hqst, hiq⟩ := h.get hv
      rcases steal_step hvi with ⟨_, e⟩ | ⟨x, y, Q, q', hne, e, hQ, hperm⟩
      · rw [e]; exact hadv _
      · rw [e]
        have hit : i ≠ t := by
          rintro rfl
          rw [hw] at hv
          cases hv
          exact hne h0
        have hxs : St E top s (addParts x y) := hqst _ (hperm.mem_iff.mpr (by simp))
        have hw1 : WInv s { w with state := x, pc := .init x y } [addParts x y] :=
          ⟨hsy, Or.inr ⟨h0, by unfold Out; simp [hfr]⟩⟩
        have hl := h.length
        obtain ⟨htl, _⟩ := List.getElem?_eq_some_iff.mp hw
        have hq't : (ps.set i q')[t]? = some [] := by rw [List.getElem?_set_ne hit]; exact hp
        have hflat : ((ps.set i q').set t [addParts x y]).flatten.Perm ps.flatten := by
          have a1 := flatten_set (l := ps.set i q') (t := t) (by simp; omega) [addParts x y]
          have a2 := flatten_get hq't
          have a3 := flatten_set hiq q'
          have a4 := flatten_get hq
          simp only [List.nil_append] at a2
          refine a1.trans ((a2.symm.append_left _).trans ((a3.append_left _).trans (List.Perm.trans ?_ a4.symm)))
          rw [← List.append_assoc]
          exact List.Perm.append_right _ hperm.symm
        refine ⟨_, (ps.set i q').set t [addParts x y], rfl, ⟨by simp [hl], ?_, ?_, ?_⟩, by simp, fun _ => Or.inr ⟨?_, ?_⟩⟩
        · intro j a b ha hb
          simp only [List.getElem?_set] at ha hb
          by_cases e1 : t = j
          · rw [if_pos e1] at ha hb
            split_ifs at ha hb
            cases ha; cases hb
            exact hw1
          · rw [if_neg e1] at ha hb
            by_cases e2 : i = j
            · rw [if_pos e2] at ha hb
              split_ifs at ha hb
              cases ha; cases hb
              exact hQ
            · rw [if_neg e2] at ha hb
              exact h.worker j a b ha hb
        · intro b hb
          rcases List.mem_or_eq_of_mem_set hb with hb | rfl
          · rcases List.mem_or_eq_of_mem_set hb with hb | rfl
            · exact h.st b hb
            · exact fun z hz => hqst z (hperm.mem_iff.mpr (by simp [hz]))
          · intro z hz; rw [List.mem_singleton] at hz; rw [hz]; exact hxs
        · exact ((hflat.flatMap_right _).append_left _).trans h.perm
        · exact (hflat.map (weight E s)).sum_eq
        · have b1 := ranks_set hv { v with queue := Q } σ.results
          have b2 := ranks_set (σ := ⟨σ.workers.set i { v with queue := Q }, σ.results⟩) (t := t) (w := w)
            (by simp only; rw [List.getElem?_set_ne hit]; exact hw) { w with state := x, pc := .init x y } σ.results
          have b3 : rank σ.workers.length { v with queue := Q } = rank σ.workers.length v := rfl
          have b4 : rank σ.workers.length { w with state := x, pc := .init x y } = 1 := rfl
          simp only [List.length_set] at b2
          rw [b4] at b2
          rw [b3] at b1
          rw [hrk] at b2
          omega

theorem step_good (hn : 0 < E.n) (hr : Ready' E P top s) (hc : Composed s) (h : SInv E s top tot σ ps) (t : Nat) (busy : Bool) :
    Good' E s top tot σ ps (σ.step E s t busy)
      (!busy && (match σ.workers[t]? with | none => false | some w => match w.pc with | .done => false | _ => true)) := by
  unfold Sys.step
  cases hw : σ.workers[t]? with
  | none => exact ⟨σ, ps, rfl, h, rfl, by simp⟩
  | some w =>
    simp only
    obtain ⟨p, hp, hwi, hst, ht⟩ := h.get hw
    cases hpc : w.pc with
    | idle =>
      obtain ⟨w', p', h1, h2, h3⟩ := idle_step hpc hwi
      simp only [h1, Option.map_some]
      exact good_own h hw hp h2 hst h3 (idle_rank _ hpc h1) _
    | enter y =>
      obtain ⟨w', r, p', h1, h2, h3, h4, h5⟩ := enter_step hn hr hc hpc hwi hst
      simp only [h1, Option.map_some]
      refine ⟨_, _, rfl, h.own hp h2 h3 h4, by simp, fun _ => Or.inl ?_⟩
      have := total_set (E := E) (s := s) hp p'
      omega
    | next =>
      obtain ⟨w', p', h1, h2, h3⟩ := next_step hpc hwi
      simp only [h1, Option.map_some]
      exact good_own h hw hp h2 hst h3 (next_rank _ hpc h1) _
    | fail => exact good_own h hw hp (fail_step hpc hwi) hst (List.Perm.refl _) (fail_rank _ hpc) _
    | pop =>
      obtain ⟨w', h1, h2⟩ := pop_step hpc hwi
      simp only [h1, Option.map_some]
      exact good_own h hw hp h2 hst (List.Perm.refl _) (pop_rank _ hpc hwi.1 h1) _
    | steal i l => exact steal_good h hw hp hpc hwi busy
    | init x y =>
      refine good_own h hw hp (init_step hpc hwi) hst (List.Perm.refl _) ?_ _
      simp [rank, hpc]
    | done => exact ⟨σ, ps, rfl, h, rfl, by simp⟩

/-! ## Runs -/

theorem run_good (hn : 0 < E.n) (hr : Ready' E P top s) (hc : Composed s) (sched : List (Nat × Bool)) (h : SInv E s top tot σ ps) :
    ∃ σ' ps', σ.run E s sched = some σ' ∧ SInv E s top tot σ' ps' ∧ σ'.workers.length = σ.workers.length := by
  induction sched generalizing σ ps with
  | nil => exact ⟨σ, ps, rfl, h, rfl⟩
  | cons a rest ih =>
    obtain ⟨σ1, ps1, h1, h2, h3, _⟩ := step_good hn hr hc h a.1 a.2
    obtain ⟨σ2, ps2, h4, h5, h6⟩ := ih h2
    exact ⟨σ2, ps2, by simp only [Sys.run, h1, Option.bind_some, h4], h5, by omega⟩

theorem run_append (l l' : List (Nat × Bool)) : σ.run E s (l ++ l') = (σ.run E s l).bind fun σ' => σ'.run E s l' := by
  induction l generalizing σ with
  | nil => rfl
  | cons a l ih =>
    simp only [List.cons_append, Sys.run]
    cases e : σ.step E s a.1 a.2 with
    | none => rfl
    | some σ1 => simpa using ih

theorem WInv.done {w : Worker} {p : List Clustering} (h : WInv s w p) (hpc : w.pc = .done) : p = [] := by
  obtain ⟨hsy, h⟩ := h
  rcases h with ⟨fs, rest, p0, h1, h2, h3, h4, h5⟩ | ⟨h1, h2⟩
  · unfold Busy at h5; rw [hpc] at h5; exact h5.elim
  · unfold Out at h2; rw [hpc] at h2; exact h2.1

theorem SInv.finished (h : SInv E s top tot σ ps) (hd : ∀ w ∈ σ.workers, w.pc = .done) : σ.results.Perm tot := by
  have : ps.flatten = [] := by
    rw [List.flatten_eq_nil_iff]
    intro p hp
    obtain ⟨i, hi, rfl⟩ := List.mem_iff_getElem.mp hp
    have hi' : i < σ.workers.length := by rw [← h.length]; exact hi
    exact (h.worker i σ.workers[i] ps[i] (List.getElem?_eq_getElem hi') (List.getElem?_eq_getElem hi)).done
      (hd _ (List.getElem_mem hi'))
  have hp := h.perm
  rw [this] at hp
  simpa using hp

/-! ## Start -/

theorem sections_flatten {α : Type} (work : List α) (k chunk : Nat) (hch : 0 < chunk) (r i b e : Nat) (hr : 0 < r) (hi : i + r = k)
    (hb : b + r * chunk ≤ work.length) (h1 : r = 1 → e = work.length - 1) (h2 : r ≠ 1 → e = b + chunk - 1) :
    ((sections work.length k chunk r i b e).map fun q => (work.drop q.1).take (q.2 + 1 - q.1)).flatten = work.drop b := by
  induction r generalizing i b e with
  | zero => omega
  | succ r ih =>
    simp only [sections, List.map_cons, List.flatten_cons]
    by_cases h0 : r = 0
    · subst h0
      have he := h1 rfl
      simp only [sections, List.map_nil, List.flatten_nil, List.append_nil]
      rw [List.take_of_length_le]
      simp only [List.length_drop]
      simp only [Nat.zero_add, Nat.one_mul] at hb
      omega
    · have he := h2 (by omega)
      have hm : (r + 1) * chunk = r * chunk + chunk := by ring
      have hbe : e + 1 = b + chunk := by omega
      rw [ih (i + 1) (e + 1) _ (by omega) (by omega) (by omega) ?_ ?_]
      · rw [hbe, show b + chunk - b = chunk by omega, ← List.drop_drop, List.take_append_drop]
      · intro hr1
        rw [if_pos (by omega)]
      · intro hr1
        rw [if_neg (by omega)]

theorem sections_length (size k chunk r i b e : Nat) : (sections size k chunk r i b e).length = r := by
  induction r generalizing i b e with
  | zero => rfl
  | succ r ih => simp [sections, ih]

theorem new_work (i : Nat) (l : List Composition) : WInv s (Worker.new i [l] l.length) (l.map (addParts .empty)) :=
  ⟨rfl, Or.inl ⟨[], [], _, rfl, rfl, Path.nil _ _, by simp [Worker.new], by unfold Busy; simp [Worker.new]⟩⟩

theorem new_thief (i : Nat) : WInv s (Worker.new i [] 0) [] :=
  ⟨rfl, Or.inr ⟨rfl, by unfold Out; simp [Worker.new]⟩⟩

theorem start_inv {threads : Nat} {work : List Composition} (ht : 0 < threads) (hw : work ≠ [])
    (hst : ∀ y ∈ work, St E top s (addParts .empty y)) :
    ∃ ps, SInv E s top (work.flatMap fun y => val E s (addParts .empty y)) (Sys.start threads work) ps := by
  have hl : 0 < work.length := List.length_pos_iff.mpr hw
  let k := min threads work.length
  let chunk := work.length / k
  have hk : 0 < k := by simp only [k]; omega
  have hkl : k ≤ work.length := by simp only [k]; omega
  have hchunk : 0 < chunk := Nat.div_pos hkl hk
  have hkc : k * chunk ≤ work.length := Nat.mul_div_le _ _
  let secs := sections work.length k chunk k 0 0 (chunk - 1)
  have hflat := sections_flatten work k chunk hchunk k 0 0 (chunk - 1) hk (by omega) (by omega)
    (fun h => by simp only [chunk, h, Nat.div_one]) (fun _ => by omega)
  rw [List.drop_zero] at hflat
  let sl := fun (q : Nat × Nat) => (work.drop q.1).take (q.2 + 1 - q.1)
  let ps0 := secs.map fun q => (sl q).reverse.map (addParts Clustering.empty)
  have hfl : (ps0.flatten).Perm (work.map (addParts Clustering.empty)) := by
    have h1 : ps0.flatten = (secs.flatMap fun q => (sl q).reverse).map (addParts Clustering.empty) := by
      simp only [ps0, List.map_flatMap]; rfl
    rw [h1]
    refine List.Perm.map _ ?_
    have h2 : work = secs.flatMap sl := by
      rw [← hflat]; rfl
    conv_rhs => rw [h2]
    have h3 : ∀ l : List (Nat × Nat), (l.flatMap fun q => (sl q).reverse).Perm (l.flatMap sl) := by
      intro l
      induction l with
      | nil => exact List.Perm.refl _
      | cons a l ih =>
        rw [List.flatMap_cons, List.flatMap_cons]
        exact (List.reverse_perm _).append ih
    exact h3 secs
  refine ⟨ps0 ++ List.replicate (threads - k) [], ?_, ?_, ?_, ?_⟩
  · simp [Sys.start, ps0, secs, k, sections_length]
  · intro i w p h1 h2
    have hlen : ps0.length = k := by simp [ps0, secs, sections_length]
    simp only [Sys.start] at h1
    by_cases hi : i < k
    · rw [List.getElem?_append_left (by simp only [List.length_map, List.length_zipIdx, sections_length]; exact hi)] at h1
      rw [List.getElem?_append_left (by omega)] at h2
      simp only [ps0, List.getElem?_map, List.getElem?_zipIdx, Option.map_map, Option.map_eq_some_iff] at h1 h2
      obtain ⟨q, hq, rfl⟩ := h2
      obtain ⟨q', hq', rfl⟩ := h1
      have : q = q' := by
        have e : secs[i]? = some q' := hq'
        rw [hq] at e; exact Option.some.inj e
      subst this
      exact new_work _ _
    · rw [List.getElem?_append_right (by simp only [List.length_map, List.length_zipIdx, sections_length]; simp only [k] at hi; omega)] at h1
      rw [List.getElem?_append_right (by omega)] at h2
      have hp : p = [] := by
        have := List.mem_of_getElem? h2
        exact (List.mem_replicate.mp this).2
      have hw' := List.mem_of_getElem? h1
      obtain ⟨j, _, rfl⟩ := List.mem_map.mp hw'
      rw [hp]
      exact new_thief j
  · intro p hp x hx
    have hx' : x ∈ ps0.flatten := by
      rcases List.mem_append.mp hp with hp | hp
      · exact List.mem_flatten_of_mem hp hx
      · rw [(List.mem_replicate.mp hp).2] at hx; simp at hx
    obtain ⟨y, hy, rfl⟩ := List.mem_map.mp (hfl.mem_iff.mp hx')
    exact hst y hy
  · have : (ps0 ++ List.replicate (threads - k) []).flatten = ps0.flatten := by simp
    rw [this]
    have := hfl.flatMap_right (val E s)
    rw [List.flatMap_map] at this
    exact this

theorem top_work (hs : Setting E P top) (hin : ∀ i, Cluster.one i ∉ top.strict) (hi : Inv E P top s)
    (hc : s.clustering = [top]) :
    (∀ y ∈ topWork s top, St E top s (addParts .empty y)) ∧
    (topWork s top).flatMap (fun y => val E s (addParts .empty y)) = collect E s top := by
  have hst : ∀ y ∈ topWork s top, St E top s (addParts .empty y) ∧ y.parts.map Prod.fst = top.children := by
    intro y hy
    obtain ⟨a, ha, rfl⟩ := List.mem_map.mp hy
    unfold allComps at ha
    obtain ⟨x, hx, ha⟩ := List.mem_flatMap.mp ha
    obtain ⟨y, hy', rfl⟩ := List.mem_map.mp ha
    exact ⟨start hs hi hc hx hy', (((hi.active top (by simp [hc])).comps hs.children x hx).2 y hy').1.1⟩
  refine ⟨fun y hy => (hst y hy).1, ?_⟩
  unfold collect
  unfold topWork at hst ⊢
  rw [List.flatMap_map]
  refine List.flatMap_congr fun a ha => ?_
  obtain ⟨h1, h2⟩ := hst a.2 (List.mem_map_of_mem ha)
  refine (unfold_val hs.pos (ready_of hi hc hin) h1 ?_).symm
  have : load (addParts .empty a.2) = (top.children.map count).sum := by
    rw [← h2]
    simp [load, addParts, Clustering.empty, Function.comp_def]
  rw [this]
  have := count_children hs.children
  omega

/-! ## Termination -/

theorem step_done (t : Nat) (h : ∀ w, σ.workers[t]? = some w → w.pc = .done) (b : Bool) : σ.step E s t b = some σ := by
  unfold Sys.step
  cases e : σ.workers[t]? with
  | none => rfl
  | some w => simp only [h w e]

theorem step_less (hn : 0 < E.n) (hr : Ready' E P top s) (hc : Composed s) (h : SInv E s top tot σ ps) {t : Nat} {w : Worker}
    (hw : σ.workers[t]? = some w) (hpc : w.pc ≠ .done) :
    ∃ σ' ps', σ.step E s t false = some σ' ∧ SInv E s top tot σ' ps' ∧ σ'.workers.length = σ.workers.length ∧
      (total E s ps' < total E s ps ∨ (total E s ps' = total E s ps ∧ ranks σ' < ranks σ)) := by
  obtain ⟨σ', ps', h1, h2, h3, h4⟩ := step_good hn hr hc h t false
  refine ⟨σ', ps', h1, h2, h3, h4 ?_⟩
  rw [hw]
  cases e : w.pc <;> simp_all

theorem eventually (hn : 0 < E.n) (hr : Ready' E P top s) (hc : Composed s) (sched : Nat → Nat × Bool) (exec : Nat → Sys)
    (hstep : ∀ k, (exec k).step E s (sched k).1 (sched k).2 = some (exec (k + 1))) (K : Nat) (hb : ∀ k, K ≤ k → (sched k).2 = false)
    (n : Nat) (hfair : ∀ t < n, ∀ k, ∃ k', k ≤ k' ∧ (sched k').1 = t) :
    ∀ m : Nat × Nat, ∀ k ps, K ≤ k → SInv E s top tot (exec k) ps → (exec k).workers.length = n →
      (total E s ps, ranks (exec k)) = m → ∃ k', K ≤ k' ∧ (∀ w ∈ (exec k').workers, w.pc = .done) := by
  intro m
  induction m using (Prod.lex (⟨_, Nat.lt_wfRel.wf⟩ : WellFoundedRelation Nat) ⟨_, Nat.lt_wfRel.wf⟩).wf.induction with
  | _ m ih =>
    intro k ps hk h hlen hm
    by_cases hall : ∀ w ∈ (exec k).workers, w.pc = .done
    · exact ⟨k, hk, hall⟩
    have hstay : ∀ d, exec (k + d) = exec k ∨ ∃ k', K ≤ k' ∧ (∀ w ∈ (exec k').workers, w.pc = .done) := by
      intro d
      induction d with
      | zero => exact Or.inl rfl
      | succ d ihd =>
        rcases ihd with e | e
        · have hs := hstep (k + d)
          rw [hb (k + d) (by omega), e] at hs
          by_cases hdn : ∀ w, (exec k).workers[(sched (k + d)).1]? = some w → w.pc = .done
          · rw [step_done _ hdn] at hs
            left
            rw [← Nat.add_assoc]
            exact (Option.some.inj hs).symm
          · right
            push Not at hdn
            obtain ⟨w, hw, hpc⟩ := hdn
            obtain ⟨σ', ps', h1, h2, h3, h4⟩ := step_less hn hr hc h hw hpc
            rw [hs] at h1
            cases h1
            refine ih _ ?_ (k + d + 1) ps' (by omega) h2 (by omega) rfl
            rw [← hm]
            rcases h4 with h4 | ⟨h4, h5⟩
            · exact Prod.Lex.left _ _ h4
            · rw [h4]; exact Prod.Lex.right _ h5
        · exact Or.inr e
    push Not at hall
    obtain ⟨w, hw, hpc⟩ := hall
    obtain ⟨t, ht, rfl⟩ := List.mem_iff_getElem.mp hw
    obtain ⟨k', hk', hst⟩ := hfair t (by omega) k
    obtain ⟨d, rfl⟩ := Nat.exists_eq_add_of_le hk'
    rcases hstay (d + 1) with e | e
    · rcases hstay d with e' | e'
      · have hs := hstep (k + d)
        rw [hb (k + d) (by omega), e', hst] at hs
        obtain ⟨σ', ps', h1, h2, h3, h4⟩ := step_less hn hr hc h (List.getElem?_eq_getElem ht) hpc
        rw [hs] at h1
        cases h1
        refine ih _ ?_ (k + d + 1) ps' (by omega) h2 (by omega) rfl
        rw [← hm]
        rcases h4 with h4 | ⟨h4, h5⟩
        · exact Prod.Lex.left _ _ h4
        · rw [h4]; exact Prod.Lex.right _ h5
      · exact e'
    · exact e

end Verif.Sidb.Gss
