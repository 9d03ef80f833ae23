import Verif.OpDomain.Parallel
import Mathlib.Tactic.ByContra

/-! # Flood fill by a pool of workers: invariants -/
namespace Verif.OpDomain

open Verif.Iter

namespace Worker

/-- The point a worker has taken from the queue and not yet stored. -/
def popped : Worker → List SP
  | .check p => [p]
  | .eval p => [p]
  | _ => []

def evaluating : Worker → List SP
  | .eval p => [p]
  | _ => []

/-- Counted in `active_workers`. -/
def active : Worker → Nat
  | .check _ => 1
  | .eval _ => 1
  | .nbrs _ _ => 1
  | .report _ => 1
  | _ => 0

/-- The points a worker may still report. -/
def held : Worker → List SP
  | .nbrs rest acc => rest ++ acc
  | .report acc => acc
  | _ => []

/-- The points a worker will report. -/
def found : Worker → List SP
  | .nbrs _ acc => acc
  | .report acc => acc
  | _ => []

theorem notify_popped (w : Worker) : w.notify.popped = w.popped := by cases w <;> rfl
theorem notify_evaluating (w : Worker) : w.notify.evaluating = w.evaluating := by cases w <;> rfl
theorem notify_active (w : Worker) : w.notify.active = w.active := by cases w <;> rfl
theorem notify_held (w : Worker) : w.notify.held = w.held := by cases w <;> rfl
theorem notify_found (w : Worker) : w.notify.found = w.found := by cases w <;> rfl
theorem notify_ne (w : Worker) : w.notify ≠ .blocked := by cases w <;> simp [notify]
theorem notify_done (w : Worker) : w.notify = .done ↔ w = .done := by cases w <;> simp [notify]

end Worker

theorem schedule_spec (q sc ps : List SP) : ∃ new, schedule (q, sc) ps = (q ++ new, sc ++ new) ∧ new.Nodup ∧ (∀ p ∈ new, p ∈ ps ∧ p ∉ sc) ∧
    ∀ p ∈ ps, p ∈ sc ++ new := by
  induction ps generalizing q sc with
  | nil => exact ⟨[], by simp [schedule]⟩
  | cons p ps ih =>
    by_cases hp : p ∈ sc
    · obtain ⟨new, e, h1, h2, h3⟩ := ih q sc
      refine ⟨new, ?_, h1, fun x hx => ⟨by simp [(h2 x hx).1], (h2 x hx).2⟩, ?_⟩
      · rw [← e]; simp [schedule, hp]
      · intro x hx
        rcases List.mem_cons.1 hx with rfl | hx
        · simp [hp]
        · exact h3 x hx
    · obtain ⟨new, e, h1, h2, h3⟩ := ih (q ++ [p]) (sc ++ [p])
      refine ⟨p :: new, ?_, ?_, ?_, ?_⟩
      · have : schedule (q, sc) (p :: ps) = schedule (q ++ [p], sc ++ [p]) ps := by simp [schedule, hp]
        rw [this, e]; simp
      · refine List.nodup_cons.2 ⟨fun hm => ?_, h1⟩
        exact (h2 p hm).2 (by simp)
      · intro x hx
        rcases List.mem_cons.1 hx with rfl | hx
        · exact ⟨by simp, hp⟩
        · exact ⟨by simp [(h2 x hx).1], fun h => (h2 x hx).2 (by simp [h])⟩
      · intro x hx
        rcases List.mem_cons.1 hx with rfl | hx
        · simp
        · have := h3 x hx
          simpa using this

/-- What holds of the shared variables and the workers at any time; `S` are the samples. -/
structure FInv (rs : List Range) (op : PP → Bool) (S : List SP) (s : Flood) : Prop where
  perm : (s.dom ++ (s.queue ++ s.ws.flatMap Worker.popped).map (ent rs op)).Perm ((S ++ s.scheduled).map (ent rs op))
  nodup : (S ++ s.scheduled).Nodup
  grid : ∀ p ∈ S ++ s.scheduled, InGrid rs p
  queue : ∀ p ∈ s.queue, p ∈ s.scheduled
  popped : ∀ w ∈ s.ws, ∀ p ∈ w.popped, p ∈ s.scheduled
  base : ∀ p ∈ S, ent rs op p ∈ s.dom
  evals : s.evals = s.dom.length + (s.ws.flatMap Worker.evaluating).length
  active : s.active = (s.ws.map Worker.active).sum
  fin : s.finished = true → s.queue = [] ∧ s.active = 0
  live : s.finished = false → s.queue = [] → 0 < s.active
  blocked : Worker.blocked ∈ s.ws → s.queue = [] ∧ s.finished = false
  done : Worker.done ∈ s.ws → s.finished = true
  held : ∀ w ∈ s.ws, ∀ q ∈ w.held, InGrid rs q ∧ ∃ r, Region rs op S r ∧ Near r q
  found : ∀ w ∈ s.ws, ∀ q ∈ w.found, q ∉ S
  sched : ∀ q ∈ s.scheduled, ∃ r, Region rs op S r ∧ Near r q
  closed : ∀ p, InGrid rs p → ent rs op p ∈ s.dom → OpAt rs op p → ∀ q, InGrid rs q → Near p q →
    q ∈ S ++ s.scheduled ∨ ∃ w ∈ s.ws, q ∈ w.held

theorem mem_swap {α : Type} {pre post : List α} {a b : α} {P : α → Prop} (h : ∀ x ∈ pre ++ a :: post, P x) (hb : P b) :
    ∀ x ∈ pre ++ b :: post, P x := by
  intro x hx
  rcases List.mem_append.1 hx with hx | hx
  · exact h x (by simp [hx])
  · rcases List.mem_cons.1 hx with rfl | hx
    · exact hb
    · exact h x (by simp [hx])

theorem ex_swap {α : Type} {pre post : List α} {a b : α} {P : α → Prop} (h : ∃ x ∈ pre ++ a :: post, P x) (hb : P a → P b) :
    ∃ x ∈ pre ++ b :: post, P x := by
  obtain ⟨x, hx, hp⟩ := h
  rcases List.mem_append.1 hx with hx | hx
  · exact ⟨x, by simp [hx], hp⟩
  · rcases List.mem_cons.1 hx with rfl | hx
    · exact ⟨b, by simp, hb hp⟩
    · exact ⟨x, by simp [hx], hp⟩

section
variable {rs : List Range} {op : PP → Bool} (hstep : ∀ r ∈ rs, margin ≤ r.step) {S : List SP}

theorem FInv.dom {s : Flood} (h : FInv rs op S s) : ∀ e ∈ s.dom, ∃ p ∈ S ++ s.scheduled, e = ent rs op p := by
  intro e he
  obtain ⟨p, hp, rfl⟩ := List.mem_map.1 (h.perm.subset (List.mem_append_left _ he))
  exact ⟨p, hp, rfl⟩

include hstep

theorem FInv.known {s : Flood} (h : FInv rs op S s) {q : SP} (hq : InGrid rs q) (hc : (contains s.dom (toPP rs q)).isSome = true) :
    q ∈ S ++ s.scheduled := by
  rw [contains_isSome] at hc
  obtain ⟨e, he, hk⟩ := hc
  obtain ⟨p, hp, rfl⟩ := h.dom e he
  have := sameKey_inj hstep (h.grid p hp).length hq.length hk
  exact this ▸ hp

theorem FInv.absent {s : Flood} (h : FInv rs op S s) {p : SP} (hp : p ∈ s.queue ++ s.ws.flatMap Worker.popped) :
    contains s.dom (toPP rs p) = none := by
  have hdup := h.perm.symm.nodup (ents_nodup hstep h.grid h.nodup)
  have hm : ent rs op p ∈ (s.queue ++ s.ws.flatMap Worker.popped).map (ent rs op) := List.mem_map_of_mem hp
  have hnd : ent rs op p ∉ s.dom := fun hd => (List.disjoint_of_nodup_append hdup) hd hm
  have hs : p ∈ S ++ s.scheduled := by
    apply List.mem_append_right
    rcases List.mem_append.1 hp with hp | hp
    · exact h.queue p hp
    · obtain ⟨w, hw, hpw⟩ := List.mem_flatMap.1 hp
      exact h.popped w hw p hpw
  exact contains_absent hstep h.dom h.grid (h.grid p hs) hnd

theorem FInv.unknownNotS {s : Flood} (h : FInv rs op S s) {q : SP} (hc : ¬ (contains s.dom (toPP rs q)).isSome = true) : q ∉ S := by
  intro hq
  have := contains_ents hstep h.dom h.grid (h.grid q (by simp [hq])) (h.base q hq)
  simp [this] at hc

/-- A step that changes only what worker `i` is doing. -/
theorem FInv.move {s : Flood} (h : FInv rs op S s) {i : Nat} {w w' : Worker} (hi : s.ws[i]? = some w) (hp : w'.popped = w.popped)
    (he : w'.evaluating = w.evaluating) (ha : w'.active = w.active) (hb : w' = .blocked → s.queue = [] ∧ s.finished = false)
    (hd : w' = .done → s.finished = true) (hh : ∀ q ∈ w'.held, q ∈ w.held) (hf : ∀ q ∈ w'.found, q ∉ S)
    (hc : ∀ q ∈ w.held, q ∈ S ++ s.scheduled ∨ q ∈ w'.held) : FInv rs op S { s with ws := s.ws.set i w' } := by
  obtain ⟨pre, post, e1, e2⟩ := set_split hi
  obtain ⟨a1, a2, a3, a4, a5, a6, a7, a8, a9, a10, a11, a12, a13, a14, a15, a16⟩ := h
  rw [e1] at a1 a5 a7 a8 a11 a12 a13 a14 a16
  constructor <;> simp only [e2]
  · simpa only [List.flatMap_append, List.flatMap_cons, hp] using a1
  · exact a2
  · exact a3
  · exact a4
  · exact mem_swap a5 (fun p hpp => a5 w (by simp) p (hp ▸ hpp))
  · exact a6
  · simpa only [List.flatMap_append, List.flatMap_cons, he] using a7
  · simpa only [List.map_append, List.map_cons, ha] using a8
  · exact a9
  · exact a10
  · intro hm
    rcases List.mem_append.1 hm with hm | hm
    · exact a11 (by simp [hm])
    · rcases List.mem_cons.1 hm with hm | hm
      · exact hb hm.symm
      · exact a11 (by simp [hm])
  · intro hm
    rcases List.mem_append.1 hm with hm | hm
    · exact a12 (by simp [hm])
    · rcases List.mem_cons.1 hm with hm | hm
      · exact hd hm.symm
      · exact a12 (by simp [hm])
  · exact mem_swap a13 (fun q hq => a13 w (by simp) q (hh q hq))
  · exact mem_swap a14 hf
  · exact a15
  · intro p g1 g2 g3 q g4 g5
    rcases a16 p g1 g2 g3 q g4 g5 with hq | ⟨x, hx, hq⟩
    · exact Or.inl hq
    · rcases List.mem_append.1 hx with hx | hx
      · exact Or.inr ⟨x, by simp [hx], hq⟩
      · rcases List.mem_cons.1 hx with rfl | hx
        · rcases hc q hq with hq | hq
          · exact Or.inl hq
          · exact Or.inr ⟨w', by simp, hq⟩
        · exact Or.inr ⟨x, by simp [hx], hq⟩

theorem FInv.runStep {s s' : Flood} {i : Nat} (h : FInv rs op S s) (e : workerStep rs op s i = some s') : FInv rs op S s' := by
  unfold workerStep at e
  split at e
  case h_1 hi =>
    split at e
    case h_1 hq =>
      split_ifs at e with hfin
      · simp only [Option.some.injEq] at e
        subst e
        exact h.move hstep hi rfl rfl rfl (by simp) (fun _ => hfin) (by simp [Worker.held]) (by simp [Worker.found]) (by simp [Worker.held])
      · simp only [Option.some.injEq] at e
        subst e
        exact h.move hstep hi rfl rfl rfl (fun _ => ⟨hq, by simpa using hfin⟩) (by simp) (by simp [Worker.held]) (by simp [Worker.found])
          (by simp [Worker.held])
    case h_2 p q hq =>
      simp only [Option.some.injEq] at e
      subst e
      obtain ⟨pre, post, e1, e2⟩ := set_split hi
      obtain ⟨a1, a2, a3, a4, a5, a6, a7, a8, a9, a10, a11, a12, a13, a14, a15, a16⟩ := h
      have hnf : s.finished = false := by
        by_contra hc
        have := (a9 (by simpa using hc)).1
        simp [hq] at this
      rw [hq] at a1 a4
      rw [e1] at a1 a5 a7 a8 a11 a12 a13 a14 a16
      constructor <;> simp only [e2]
      · refine List.Perm.trans ?_ a1
        simp only [List.flatMap_append, List.flatMap_cons, Worker.popped, List.map_append, List.map_cons, List.nil_append,
          List.cons_append]
        apply List.Perm.append_left
        rw [← List.append_assoc]
        refine List.perm_middle.trans ?_
        simp
      · exact a2
      · exact a3
      · exact fun x hx => a4 x (by simp [hx])
      · exact mem_swap a5 (by intro x hx; simp only [Worker.popped, List.mem_singleton] at hx; subst hx; exact a4 _ (by simp))
      · exact a6
      · simpa only [List.flatMap_append, List.flatMap_cons, Worker.evaluating] using a7
      · simp only [List.map_append, List.map_cons, List.sum_append, List.sum_cons, Worker.active] at a8 ⊢
        omega
      · simp [hnf]
      · intro _ _; omega
      · intro hm
        have := (a11 (by simpa using hm)).1
        simp [hq] at this
      · intro hm; exact a12 (by simpa using hm)
      · exact mem_swap a13 (by simp [Worker.held])
      · exact mem_swap a14 (by simp [Worker.found])
      · exact a15
      · intro p g1 g2 g3 q g4 g5
        rcases a16 p g1 g2 g3 q g4 g5 with hq | hq
        · exact Or.inl hq
        · exact Or.inr (ex_swap hq (by simp [Worker.held]))
  case h_2 p hi =>
    have habs : contains s.dom (toPP rs p) = none := by
      apply h.absent hstep
      apply List.mem_append_right
      obtain ⟨pre, post, e1, e2⟩ := set_split hi
      rw [e1]; simp [Worker.popped]
    rw [habs] at e
    simp only [Option.some.injEq] at e
    subst e
    obtain ⟨pre, post, e1, e2⟩ := set_split hi
    obtain ⟨a1, a2, a3, a4, a5, a6, a7, a8, a9, a10, a11, a12, a13, a14, a15, a16⟩ := h
    rw [e1] at a1 a5 a7 a8 a11 a12 a13 a14 a16
    constructor <;> simp only [e2]
    · simpa only [List.flatMap_append, List.flatMap_cons, Worker.popped] using a1
    · exact a2
    · exact a3
    · exact a4
    · exact mem_swap a5 (fun x hx => a5 (.check p) (by simp) x hx)
    · exact a6
    · simp only [List.flatMap_append, List.flatMap_cons, Worker.evaluating, List.length_append, List.length_cons, List.length_nil] at a7 ⊢
      omega
    · simpa only [List.map_append, List.map_cons, Worker.active] using a8
    · exact a9
    · exact a10
    · intro hm; exact a11 (by simpa using hm)
    · intro hm; exact a12 (by simpa using hm)
    · exact mem_swap a13 (by simp [Worker.held])
    · exact mem_swap a14 (by simp [Worker.found])
    · exact a15
    · intro p g1 g2 g3 q g4 g5
      rcases a16 p g1 g2 g3 q g4 g5 with hq | hq
      · exact Or.inl hq
      · exact Or.inr (ex_swap hq (by simp [Worker.held]))
  case h_3 p hi =>
    have hpp : p ∈ s.ws.flatMap Worker.popped := by
      obtain ⟨pre, post, e1, e2⟩ := set_split hi
      rw [e1]; simp [Worker.popped]
    have habs : contains s.dom (toPP rs p) = none := h.absent hstep (List.mem_append_right _ hpp)
    have hps : p ∈ s.scheduled := by
      obtain ⟨w, hw, hpw⟩ := List.mem_flatMap.1 hpp
      exact h.popped w hw p hpw
    have hg : InGrid rs p := h.grid p (by simp [hps])
    simp only [Option.some.injEq, addValue, habs, Option.isSome_none, Bool.false_eq_true, if_false] at e
    subst e
    obtain ⟨pre, post, e1, e2⟩ := set_split hi
    have hreg : OpAt rs op p → Region rs op S p := by
      intro ho
      obtain ⟨r, hr, hn⟩ := h.sched p hps
      exact Region.grow hr hn hg ho
    have hkind : (afterStatus rs p (op (toPP rs p))).popped = [] ∧ (afterStatus rs p (op (toPP rs p))).evaluating = [] ∧
        (afterStatus rs p (op (toPP rs p))).active = 1 ∧ afterStatus rs p (op (toPP rs p)) ≠ .blocked ∧
        afterStatus rs p (op (toPP rs p)) ≠ .done ∧ (afterStatus rs p (op (toPP rs p))).found = [] := by
      unfold afterStatus; split_ifs <;> simp [Worker.popped, Worker.evaluating, Worker.active, Worker.found]
    obtain ⟨k1, k2, k3, k4, k5, k6⟩ := hkind
    have hheld : ∀ q ∈ (afterStatus rs p (op (toPP rs p))).held, InGrid rs q ∧ ∃ r, Region rs op S r ∧ Near r q := by
      unfold afterStatus
      split_ifs with ho
      · intro q hq
        simp only [Worker.held, List.append_nil] at hq
        have := (mem_moore hg).1 hq
        exact ⟨this.1, p, hreg ho, this.2⟩
      · simp [Worker.held]
    have hheld' : OpAt rs op p → ∀ q, InGrid rs q → Near p q → q ∈ (afterStatus rs p (op (toPP rs p))).held := by
      intro ho q hq hn
      unfold afterStatus
      rw [if_pos (show op (toPP rs p) = true from ho)]
      simp only [Worker.held, List.append_nil]
      exact (mem_moore hg).2 ⟨hq, hn⟩
    obtain ⟨a1, a2, a3, a4, a5, a6, a7, a8, a9, a10, a11, a12, a13, a14, a15, a16⟩ := h
    rw [e1] at a1 a5 a7 a8 a11 a12 a13 a14 a16
    generalize hw' : afterStatus rs p (op (toPP rs p)) = w' at *
    constructor <;> simp only [e2]
    · refine List.Perm.trans ?_ a1
      have l1 : (Worker.eval p).popped = [p] := rfl
      simp only [List.flatMap_append, List.flatMap_cons, l1, k1, List.map_append, List.map_cons, List.nil_append,
        List.append_assoc, List.map_nil]
      apply List.Perm.append_left
      simp only [List.cons_append, List.nil_append, ← List.append_assoc (List.map _ s.queue)]
      exact List.perm_middle.symm
    · exact a2
    · exact a3
    · exact a4
    · exact mem_swap a5 (by simp [k1])
    · exact fun x hx => by simp [a6 x hx]
    · have l1 : (Worker.eval p).evaluating = [p] := rfl
      simp only [List.flatMap_append, List.flatMap_cons, l1, k2, List.length_append, List.length_cons, List.length_nil] at a7 ⊢
      omega
    · have l1 : (Worker.eval p).active = 1 := rfl
      simp only [List.map_append, List.map_cons, l1, k3] at a8 ⊢
      exact a8
    · exact a9
    · exact a10
    · intro hm
      rcases List.mem_append.1 hm with hm | hm
      · exact a11 (by simp [hm])
      · rcases List.mem_cons.1 hm with hm | hm
        · exact absurd hm.symm k4
        · exact a11 (by simp [hm])
    · intro hm
      rcases List.mem_append.1 hm with hm | hm
      · exact a12 (by simp [hm])
      · rcases List.mem_cons.1 hm with hm | hm
        · exact absurd hm.symm k5
        · exact a12 (by simp [hm])
    · exact mem_swap a13 hheld
    · exact mem_swap a14 (by simp [k6])
    · exact a15
    · intro x g1 g2 g3 q g4 g5
      rcases List.mem_append.1 g2 with g2 | g2
      · rcases a16 x g1 g2 g3 q g4 g5 with hq | hq
        · exact Or.inl hq
        · exact Or.inr (ex_swap hq (by simp [Worker.held]))
      · have hx : x = p := ent_inj hstep g1 hg (by simpa [ent] using g2)
        subst hx
        exact Or.inr ⟨w', by simp, hheld' g3 q g4 g5⟩
  case h_4 m rest acc hi =>
    simp only [Option.some.injEq] at e
    subst e
    have hwm := List.mem_of_getElem? hi
    apply h.move hstep hi (w' := .nbrs rest (if (contains s.dom (toPP rs m)).isSome then acc else acc ++ [m])) rfl rfl rfl (by simp) (by simp)
    · intro q hq
      split_ifs at hq <;> simp [Worker.held] at hq ⊢ <;> grind
    · intro q hq
      have hacc := h.found _ hwm
      simp only [Worker.found] at hacc hq
      split_ifs at hq with hc
      · exact hacc q hq
      · rcases List.mem_append.1 hq with hq | hq
        · exact hacc q hq
        · simp only [List.mem_singleton] at hq
          subst hq
          exact h.unknownNotS hstep hc
    · intro q hq
      simp only [Worker.held, List.cons_append, List.mem_cons] at hq ⊢
      rcases hq with rfl | hq
      · split_ifs with hc
        · exact Or.inl (h.known hstep (h.held _ hwm q (by simp [Worker.held])).1 hc)
        · right; simp
      · right
        rcases List.mem_append.1 hq with hq | hq
        · simp [hq]
        · split_ifs <;> simp [hq]
  case h_5 acc hi =>
    simp only [Option.some.injEq] at e
    subst e
    have hwm := List.mem_of_getElem? hi
    exact h.move hstep hi rfl rfl rfl (by simp) (by simp) (by simp [Worker.held]) (fun q hq => h.found _ hwm q hq)
      (by intro q hq; right; simpa [Worker.held] using hq)
  case h_6 acc hi =>
    obtain ⟨new, en, n1, n2, n3⟩ := schedule_spec s.queue s.scheduled acc
    simp only [en, Option.some.injEq] at e
    have hwm := List.mem_of_getElem? hi
    obtain ⟨pre, post, e1, e2⟩ := set_split hi
    have hnewS : ∀ p ∈ new, p ∉ S := fun p hp => h.found _ hwm p (n2 p hp).1
    have hheldw := h.held _ hwm
    obtain ⟨a1, a2, a3, a4, a5, a6, a7, a8, a9, a10, a11, a12, a13, a14, a15, a16⟩ := h
    have hnodup : (S ++ (s.scheduled ++ new)).Nodup := by
      rw [← List.append_assoc]
      refine List.nodup_append.2 ⟨a2, n1, ?_⟩
      intro x hx y hy hxy
      subst hxy
      rcases List.mem_append.1 hx with hx | hx
      · exact hnewS x hy hx
      · exact (n2 x hy).2 hx
    have hperm : (s.dom ++ ((s.queue ++ new) ++ s.ws.flatMap Worker.popped).map (ent rs op)).Perm
        ((S ++ (s.scheduled ++ new)).map (ent rs op)) := by
      simp only [List.map_append] at a1 ⊢
      have := a1.append_right (new.map (ent rs op))
      simp only [List.append_assoc] at this ⊢
      refine List.Perm.trans ?_ this
      apply List.Perm.append_left
      apply List.Perm.append_left
      exact List.perm_append_comm
    rw [e1] at hperm a5 a7 a8 a11 a12 a13 a14 a16
    have hact : s.active = (pre.map Worker.active).sum + 1 + (post.map Worker.active).sum := by
      simp only [List.map_append, List.map_cons, List.sum_append, List.sum_cons, Worker.active] at a8
      omega
    subst e
    -- the workers after the step, up to notification
    have key : ∀ ws' : List Worker, (∃ b : Bool, ws' = (if b then (pre ++ Worker.idle :: post).map Worker.notify else pre ++ Worker.idle :: post) ∧
        b = (((s.queue ++ new).isEmpty && s.active - 1 == 0) || !(s.queue ++ new).isEmpty)) →
        FInv rs op S ⟨s.dom, s.evals, s.queue ++ new, s.scheduled ++ new, s.active - 1, (s.queue ++ new).isEmpty && s.active - 1 == 0, ws'⟩ := by
      rintro ws' ⟨b, hws, hb⟩
      have n0 : Worker.idle.notify = .idle := rfl
      have p0 : Worker.idle.popped = [] := rfl
      have p1 : Worker.idle.evaluating = [] := rfl
      have p2 : Worker.idle.active = 0 := rfl
      have v1 : ws'.flatMap Worker.popped = pre.flatMap Worker.popped ++ post.flatMap Worker.popped := by
        rw [hws]; cases b <;> simp [List.flatMap_map, Worker.notify_popped, p0]
      have v2 : ws'.flatMap Worker.evaluating = pre.flatMap Worker.evaluating ++ post.flatMap Worker.evaluating := by
        rw [hws]; cases b <;> simp [List.flatMap_map, Worker.notify_evaluating, p1]
      have v3 : (ws'.map Worker.active).sum = (pre.map Worker.active).sum + (post.map Worker.active).sum := by
        rw [hws]; cases b <;> simp [Function.comp_def, Worker.notify_active, p2]
      have v4 : ∀ P : Worker → Prop, (∀ w, P w.notify ↔ P w) → ((∀ w ∈ ws', P w) ↔ ∀ w ∈ pre ++ Worker.idle :: post, P w) := by
        intro P hP; rw [hws]
        cases b
        · simp
        · simp only [if_true]
          constructor
          · intro h w hw; exact (hP w).1 (h _ (List.mem_map_of_mem hw))
          · intro h w hw
            obtain ⟨x, hx, rfl⟩ := List.mem_map.1 hw
            exact (hP x).2 (h x hx)
      have v5 : ∀ P : Worker → Prop, (∀ w, P w.notify ↔ P w) → ((∃ w ∈ ws', P w) ↔ ∃ w ∈ pre ++ Worker.idle :: post, P w) := by
        intro P hP; rw [hws]
        cases b
        · simp
        · simp only [if_true]
          constructor
          · rintro ⟨w, hw, h⟩
            obtain ⟨x, hx, rfl⟩ := List.mem_map.1 hw
            exact ⟨x, hx, (hP x).1 h⟩
          · rintro ⟨w, hw, h⟩
            exact ⟨_, List.mem_map_of_mem hw, (hP w).2 h⟩
      constructor <;> simp only
      · rw [v1]
        simpa only [List.flatMap_append, List.flatMap_cons, Worker.popped, List.nil_append] using hperm
      · exact hnodup
      · intro p hp
        rw [← List.append_assoc] at hp
        rcases List.mem_append.1 hp with hp | hp
        · exact a3 p hp
        · exact (hheldw p (n2 p hp).1).1
      · intro p hp
        rcases List.mem_append.1 hp with hp | hp
        · simp [a4 p hp]
        · simp [hp]
      · rw [v4 (fun w => ∀ p ∈ w.popped, p ∈ s.scheduled ++ new) (fun w => by simp only [Worker.notify_popped])]
        exact mem_swap (a := .report acc) (fun w hw p hp => by simp [a5 w hw p hp]) (by simp [Worker.popped])
      · exact a6
      · rw [v2]
        simpa only [List.flatMap_append, List.flatMap_cons, Worker.evaluating, List.nil_append] using a7
      · rw [v3]; omega
      · intro hf
        simp only [Bool.and_eq_true, List.isEmpty_iff, beq_iff_eq] at hf
        exact hf
      · intro hf hq
        rw [hq] at hf
        simp only [List.isEmpty_nil, Bool.true_and, beq_eq_false_iff_ne, ne_eq] at hf
        omega
      · intro hm
        cases b with
        | true =>
          simp only [if_true] at hws
          rw [hws] at hm
          obtain ⟨w, -, hw⟩ := List.mem_map.1 hm
          exact absurd hw (Worker.notify_ne w)
        | false =>
          have hb' := hb.symm
          simp only [Bool.or_eq_false_iff, Bool.not_eq_false'] at hb'
          exact ⟨List.isEmpty_iff.1 hb'.2, hb'.1⟩
      · intro hm
        have hm' : Worker.done ∈ pre ++ Worker.report acc :: post := by
          have := (v5 (fun w => w = .done) (fun w => Worker.notify_done w)).1 ⟨_, hm, rfl⟩
          obtain ⟨w, hw, rfl⟩ := this
          simpa using hw
        have := a9 (a12 hm')
        omega
      · rw [v4 (fun w => ∀ q ∈ w.held, InGrid rs q ∧ ∃ r, Region rs op S r ∧ Near r q) (fun w => by simp only [Worker.notify_held])]
        exact mem_swap a13 (by simp [Worker.held])
      · rw [v4 (fun w => ∀ q ∈ w.found, q ∉ S) (fun w => by simp only [Worker.notify_found])]
        exact mem_swap a14 (by simp [Worker.found])
      · intro q hq
        rcases List.mem_append.1 hq with hq | hq
        · exact a15 q hq
        · exact (hheldw q (n2 q hq).1).2
      · intro p g1 g2 g3 q g4 g5
        rw [v5 (fun w => q ∈ w.held) (fun w => by rw [Worker.notify_held])]
        rcases a16 p g1 g2 g3 q g4 g5 with hq | ⟨w, hw, hq⟩
        · left; rw [← List.append_assoc]; exact List.mem_append_left _ hq
        · rcases List.mem_append.1 hw with hw | hw
          · exact Or.inr ⟨w, by simp [hw], hq⟩
          · rcases List.mem_cons.1 hw with rfl | hw
            · left
              exact List.mem_append_right _ (n3 q hq)
            · exact Or.inr ⟨w, by simp [hw], hq⟩
    apply key
    exact ⟨_, by rw [e2], rfl⟩
  case h_7 => simp at e

theorem FInv.step {s s' : Flood} {ev : Event} (h : FInv rs op S s) (e : floodStep rs op s ev = some s') : FInv rs op S s' := by
  cases ev with
  | run i => exact h.runStep hstep e
  | wake i =>
    simp only [floodStep] at e
    split_ifs at e with hi
    simp only [Option.some.injEq] at e
    subst e
    exact h.move hstep hi rfl rfl rfl (by simp) (by simp) (by simp [Worker.held]) (by simp [Worker.found]) (by simp [Worker.held])

theorem FInv.run {s s' : Flood} {es : List Event} (h : FInv rs op S s) (e : floodRun rs op s es = some s') : FInv rs op S s' := by
  induction es generalizing s with
  | nil => simp only [floodRun, Option.some.injEq] at e; exact e ▸ h
  | cons i es ih =>
    simp only [floodRun, Option.bind_eq_some_iff] at e
    obtain ⟨s₁, e1, e2⟩ := e
    exact ih (h.step hstep e1) e2

end
end Verif.OpDomain
