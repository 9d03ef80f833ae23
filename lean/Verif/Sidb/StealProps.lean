import Verif.Sidb.StealRun
import Verif.Sidb.ClusterCompleteProps

/-!
# ClusterComplete with several threads

The specification: `clusterComplete`, the run with a single thread, and `Metastable` of `Verif.Sidb.GssResults`. A schedule
says which thread takes the next step and whether an attempt to lock the queue of another thread fails.
-/
namespace Verif.Sidb.Gss

open Verif.Sidb Cluster

variable {E : Env} {P : Params} {top : Cluster} {s : State}

theorem begin_inv (hs : Setting E P top) (hin : ∀ i, Cluster.one i ∉ top.strict) (hg : groundStateSpace E P top = some s)
    (hne : s.space top ≠ []) {work : List Composition} (hw : work.Perm (topWork s top)) {threads : Nat} (ht : 0 < threads) :
    Ready' E P top s ∧ Composed s ∧ ∃ ps, SInv E s top (collect E s top) (Sys.start threads work) ps := by
  have hco := composed_groundStateSpace hs.reorderStates hg
  rcases groundStateSpace_inv hs hg with h | ⟨hi, hc⟩
  · exact absurd h hne
  obtain ⟨h1, h2⟩ := top_work hs hin hi hc
  have hwn : work ≠ [] := by
    rintro rfl
    have h0 := hw.symm.eq_nil
    unfold topWork allComps at h0
    obtain ⟨z, hz⟩ := List.exists_mem_of_ne_nil _ hne
    obtain ⟨y, hy⟩ := List.exists_mem_of_ne_nil _ (hco top z hz)
    have : y ∈ ([] : List Composition) := by
      rw [← h0]
      exact List.mem_map.mpr ⟨(z.ms, y), List.mem_flatMap.mpr ⟨z, hz, List.mem_map_of_mem hy⟩, rfl⟩
    simp at this
  obtain ⟨ps, h⟩ := start_inv (E := E) (top := top) ht hwn fun y hy => h1 y (hw.mem_iff.mp hy)
  exact ⟨ready_of hi hc hin, hco, ps, h.length, h.worker, h.st, h.perm.trans (by rw [← h2]; exact hw.flatMap_right _)⟩

/-- C92. For every number of threads, every order in which the work of the top cluster is dealt out and every schedule, the
threads run into no undefined behaviour, and what they have collected so far are charge distributions of the run with a
single thread, none of them more often than there. -/
theorem C92_defined (E : Env) (P : Params) (top : Cluster) (hs : Setting E P top) (hin : ∀ i, Cluster.one i ∉ top.strict)
    (s : State) (hg : groundStateSpace E P top = some s) (hne : s.space top ≠ []) (work : List Composition)
    (hw : work.Perm (topWork s top)) (threads : Nat) (ht : 0 < threads) (sched : List (Nat × Bool)) :
    ∃ σ, (Sys.start threads work).run E s sched = some σ ∧ σ.workers.length = threads ∧ σ.results.Nodup ∧
      ∃ res, clusterComplete E P top = some res ∧ σ.results.Subperm res := by
  obtain ⟨hr, hco, ps, h⟩ := begin_inv hs hin hg hne hw ht
  obtain ⟨σ, ps', h1, h2, h3⟩ := run_good hs.pos hr hco sched h
  have hsub : σ.results.Subperm (collect E s top) :=
    ((List.prefix_append _ _).sublist.subperm).trans h2.perm.subperm
  have hc : clusterComplete E P top = some (collect E s top) := by unfold clusterComplete; rw [hg]; rfl
  have hnd := C91_distinct E P top hs hin _ hc
  refine ⟨σ, h1, ?_, ?_, _, hc, hsub⟩
  · rw [h3]
    simp only [Sys.start, List.length_append, List.length_map, List.length_zipIdx, sections_length, List.length_range]
    omega
  · obtain ⟨l, hl, hl'⟩ := hsub
    exact hl.nodup_iff.mp (hnd.sublist hl')

/-- C92. Once all threads have ended, the result has exactly the charge distributions of the run with a single thread, each
once, whatever the schedule was. -/
theorem C92_schedule (E : Env) (P : Params) (top : Cluster) (hs : Setting E P top) (hin : ∀ i, Cluster.one i ∉ top.strict)
    (s : State) (hg : groundStateSpace E P top = some s) (hne : s.space top ≠ []) (work : List Composition)
    (hw : work.Perm (topWork s top)) (threads : Nat) (ht : 0 < threads) (sched : List (Nat × Bool)) (σ : Sys)
    (hrun : (Sys.start threads work).run E s sched = some σ) (hd : ∀ w ∈ σ.workers, w.pc = .done) :
    ∃ res, clusterComplete E P top = some res ∧ σ.results.Perm res := by
  obtain ⟨hr, hco, ps, h⟩ := begin_inv hs hin hg hne hw ht
  obtain ⟨σ', ps', h1, h2, _⟩ := run_good hs.pos hr hco sched h
  rw [hrun] at h1
  cases h1
  exact ⟨collect E s top, by unfold clusterComplete; rw [hg]; rfl, h2.finished hd⟩

/-- C92. In base two, once all threads have ended, the result has exactly the metastable charge distributions. -/
theorem C92_exact_base_two (E : Env) (P : Params) (top : Cluster) (hs : Setting E P top)
    (hin : ∀ i, Cluster.one i ∉ top.strict) (hb : P.base = 2)
    (hex : ∃ l : List Charge, l.length = E.n ∧ (∀ c ∈ l, c = .neg ∨ c = .neu) ∧ Metastable E (ofList l)) :
    ∃ s, groundStateSpace E P top = some s ∧
      ∀ (work : List Composition) (threads : Nat) (sched : List (Nat × Bool)), work.Perm (topWork s top) → 0 < threads →
      ∃ σ, (Sys.start threads work).run E s sched = some σ ∧ ((∀ w ∈ σ.workers, w.pc = .done) → σ.results.Nodup ∧
        ∀ l : List Charge, l ∈ σ.results ↔ l.length = E.n ∧ (∀ c ∈ l, c = .neg ∨ c = .neu) ∧ Metastable E (ofList l)) := by
  obtain ⟨res, h1, h2, h3⟩ := C91_exact_base_two E P top hs hin hb hex
  have hc := h1
  unfold clusterComplete at h1
  rw [Option.map_eq_some_iff] at h1
  obtain ⟨s, hg, rfl⟩ := h1
  have hne : s.space top ≠ [] := by
    obtain ⟨l, hl⟩ := hex
    have := (h3 l).mpr hl
    intro e
    unfold collect allComps at this
    rw [e] at this
    simp at this
  refine ⟨s, hg, fun work threads sched hw ht => ?_⟩
  obtain ⟨σ, a1, _, a3, _⟩ := C92_defined E P top hs hin s hg hne work hw threads ht sched
  refine ⟨σ, a1, fun hd => ⟨a3, fun l => ?_⟩⟩
  obtain ⟨res, b1, b2⟩ := C92_schedule E P top hs hin s hg hne work hw threads ht sched σ a1 hd
  rw [hc] at b1
  cases b1
  rw [b2.mem_iff]
  exact h3 l

/-- C92. If every thread is scheduled again and again and from some point on no attempt to lock a queue fails, all threads
end, and the result then has exactly the charge distributions of the run with a single thread. -/
theorem C92_terminates (E : Env) (P : Params) (top : Cluster) (hs : Setting E P top) (hin : ∀ i, Cluster.one i ∉ top.strict)
    (s : State) (hg : groundStateSpace E P top = some s) (hne : s.space top ≠ []) (work : List Composition)
    (hw : work.Perm (topWork s top)) (threads : Nat) (ht : 0 < threads) (sched : Nat → Nat × Bool)
    (hfair : ∀ t < threads, ∀ k, ∃ k', k ≤ k' ∧ (sched k').1 = t) (hlock : ∃ K, ∀ k, K ≤ k → (sched k).2 = false) :
    ∃ k σ, (Sys.start threads work).run E s ((List.range k).map sched) = some σ ∧ (∀ w ∈ σ.workers, w.pc = .done) ∧
      ∃ res, clusterComplete E P top = some res ∧ σ.results.Perm res := by
  obtain ⟨hr, hco, ps, h⟩ := begin_inv hs hin hg hne hw ht
  obtain ⟨K, hK⟩ := hlock
  have hall : ∀ k, ∃ σ ps, (Sys.start threads work).run E s ((List.range k).map sched) = some σ ∧
      SInv E s top (collect E s top) σ ps ∧ σ.workers.length = (Sys.start threads work).workers.length :=
    fun k => run_good hs.pos hr hco _ h
  choose exec pss he using hall
  have hstep : ∀ k, (exec k).step E s (sched k).1 (sched k).2 = some (exec (k + 1)) := by
    intro k
    have h1 := (he (k + 1)).1
    rw [List.range_succ, List.map_append, run_append, (he k).1] at h1
    simpa [Sys.run] using h1
  have hlen : (Sys.start threads work).workers.length = threads := by
    simp only [Sys.start, List.length_append, List.length_map, List.length_zipIdx, sections_length, List.length_range]
    omega
  obtain ⟨k, _, hd⟩ := eventually hs.pos hr hco sched exec hstep K hK threads hfair _ K (pss K) (le_refl _) (he K).2.1
    ((he K).2.2.trans hlen) rfl
  exact ⟨k, exec k, (he k).1, hd, collect E s top, by unfold clusterComplete; rw [hg]; rfl, (he k).2.1.finished hd⟩

/-! ## Examples -/

/-- Two SiDBs, three threads, one of them without work at first: it steals the work of the second thread before that has
started, then the threads take turns. -/
def pairSchedule : List (Nat × Bool) :=
  [(2, false), (2, true), (2, false), (2, false), (2, false)] ++ (List.replicate 12 [(0, false), (1, false), (2, false)]).flatten

/-- The hypotheses hold, and all threads end. -/
example : ((groundStateSpace pairEnv (defaults 2) pairTop).bind fun s =>
    ((Sys.start 3 (topWork s pairTop)).run pairEnv s pairSchedule).map fun σ =>
      decide (s.space pairTop ≠ []) && (σ.workers.all fun w => w.pc matches .done) && decide (σ.results.length = 2)) = some true := by
  decide +kernel

/-- After four steps the third thread has stolen the work of the second. -/
example : ((groundStateSpace pairEnv (defaults 2) pairTop).bind fun s =>
    ((Sys.start 3 (topWork s pairTop)).run pairEnv s (pairSchedule.take 4)).map fun σ =>
      (σ.workers.map fun w => w.queue.count)) = some [1, 0, 0] := by
  decide +kernel

/-- C92. It is not true that a thread goes on as long as a queue that nobody uses has work: threads without initial work are
numbered from zero again, and skip the queue of the thread with the same number. Here the third thread ends while the first
has not started. -/
theorem C92_false_thieves :
    ((groundStateSpace pairEnv (defaults 2) pairTop).bind fun s =>
      ((Sys.start 3 (topWork s pairTop)).run pairEnv s ((1, false) :: List.replicate 5 (2, false))).map fun σ =>
        (σ.workers.map fun w => w.queue.count, σ.workers.map fun w => w.pc matches .done, σ.workers.map Worker.index)) =
      some ([1, 0, 0], [false, false, true], [0, 1, 0]) := by
  decide +kernel

end Verif.Sidb.Gss
