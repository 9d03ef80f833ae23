import Verif.OpDomain.Grid
import Mathlib.Data.List.Perm.Basic
import Mathlib.Tactic.Ring

/-! # Parallel simulation of given points: lemmas -/
namespace Verif.OpDomain

open Verif.Iter

/-- The entry of a point. -/
def ent (rs : List Range) (op : PP → Bool) (p : SP) : PP × Bool := (toPP rs p, op (toPP rs p))

theorem set_split {α : Type} {l : List α} {i : Nat} {a : α} (h : l[i]? = some a) :
    ∃ pre post, l = pre ++ a :: post ∧ ∀ b, l.set i b = pre ++ b :: post := by
  induction l generalizing i with
  | nil => simp at h
  | cons x l ih =>
    cases i with
    | zero =>
      simp only [List.getElem?_cons_zero, Option.some.injEq] at h
      subst h
      exact ⟨[], l, rfl, fun b => rfl⟩
    | succ i =>
      simp only [List.getElem?_cons_succ] at h
      obtain ⟨pre, post, e, hs⟩ := ih h
      exact ⟨x :: pre, post, by simp [e], fun b => by simp [hs]⟩

section
variable {rs : List Range} {op : PP → Bool} (hstep : ∀ r ∈ rs, margin ≤ r.step)
include hstep

theorem contains_ents {dom : Dom} {ps : List SP} (hd : ∀ e ∈ dom, ∃ p ∈ ps, e = ent rs op p) (hps : ∀ p ∈ ps, InGrid rs p) {q : SP}
    (hq : InGrid rs q) (hin : ent rs op q ∈ dom) : contains dom (toPP rs q) = some (op (toPP rs q)) := by
  unfold contains
  cases hf : dom.find? (fun e => sameKey e.1 (toPP rs q)) with
  | none =>
    rw [List.find?_eq_none] at hf
    exact absurd (sameKey_refl (toPP rs q)) (hf _ hin)
  | some e =>
    have h1 := List.mem_of_find?_eq_some hf
    have h2 := List.find?_some hf
    obtain ⟨p, hp, rfl⟩ := hd e h1
    have := sameKey_inj hstep (hps p hp).length hq.length h2
    subst this
    rfl

theorem contains_absent {dom : Dom} {ps : List SP} (hd : ∀ e ∈ dom, ∃ p ∈ ps, e = ent rs op p) (hps : ∀ p ∈ ps, InGrid rs p) {q : SP}
    (hq : InGrid rs q) (hin : ent rs op q ∉ dom) : contains dom (toPP rs q) = none := by
  rw [contains_none]
  intro e he
  obtain ⟨p, hp, rfl⟩ := hd e he
  cases hk : sameKey (ent rs op p).1 (toPP rs q)
  · rfl
  · have := sameKey_inj hstep (hps p hp).length hq.length hk
    subst this
    exact absurd he hin

theorem ent_inj {p q : SP} (hp : InGrid rs p) (hq : InGrid rs q) (h : ent rs op p = ent rs op q) : p = q := by
  apply sameKey_inj hstep hp.length hq.length
  have : toPP rs p = toPP rs q := congrArg Prod.fst h
  rw [this]; exact sameKey_refl _

theorem ents_nodup {ps : List SP} (hps : ∀ p ∈ ps, InGrid rs p) (hn : ps.Nodup) : (ps.map (ent rs op)).Nodup :=
  hn.map_on (fun p hp q hq h => ent_inj hstep (hps p hp) (hps q hq) h)
end

/-! ### Invariant -/

/-- What thread `t` still has to store. -/
def pending (t : List SP × Option SP) : List SP := t.2.toList ++ t.1

structure SInv (rs : List Range) (op : PP → Bool) (L : List SP) (s : Sim) : Prop where
  perm : (s.dom ++ (s.thr.flatMap pending).map (ent rs op)).Perm (L.map (ent rs op))
  sub : ∀ t ∈ s.thr, ∀ p ∈ pending t, p ∈ L
  evals : s.evals = s.dom.length + (s.thr.flatMap (fun t => t.2.toList)).length

section
variable {rs : List Range} {op : PP → Bool} (hstep : ∀ r ∈ rs, margin ≤ r.step) {L : List SP} (hL : ∀ p ∈ L, InGrid rs p) (hn : L.Nodup)
include hstep hL hn

theorem SInv.absent {s : Sim} (h : SInv rs op L s) {p : SP} (hp : p ∈ s.thr.flatMap pending) : contains s.dom (toPP rs p) = none := by
  have hdup : (s.dom ++ (s.thr.flatMap pending).map (ent rs op)).Nodup := h.perm.symm.nodup (ents_nodup hstep hL hn)
  have hdom : ∀ e ∈ s.dom, ∃ p ∈ L, e = ent rs op p := by
    intro e he
    have := h.perm.subset (List.mem_append_left _ he)
    obtain ⟨p, hp, rfl⟩ := List.mem_map.1 this
    exact ⟨p, hp, rfl⟩
  have hm : ent rs op p ∈ (s.thr.flatMap pending).map (ent rs op) := List.mem_map_of_mem hp
  have hnd : ent rs op p ∉ s.dom := fun hd => (List.disjoint_of_nodup_append hdup) hd hm
  obtain ⟨t, ht, hpt⟩ := List.mem_flatMap.1 hp
  exact contains_absent hstep hdom hL (hL p (h.sub t ht p hpt)) hnd

theorem SInv.step {s s' : Sim} {i : Nat} (h : SInv rs op L s) (e : simStep rs op s i = some s') : SInv rs op L s' := by
  unfold simStep at e
  split at e
  case h_1 todo p hi =>
    obtain ⟨pre, post, e1, e2⟩ := set_split hi
    have habs := h.absent hstep hL hn (p := p) (by rw [e1]; simp [pending])
    simp only [Option.some.injEq] at e
    subst e
    have hp := h.perm
    have hs := h.sub
    have he := h.evals
    rw [e1] at hp hs he
    refine ⟨?_, ?_, ?_⟩
    · simp only [e2, addValue, habs, Option.isSome_none]
      simp only [List.flatMap_append, List.flatMap_cons, pending, Option.toList_some, Option.toList_none, List.nil_append,
        List.map_append, List.map_cons, List.cons_append] at hp ⊢
      refine List.Perm.trans ?_ hp
      simp only [Bool.false_eq_true, if_false, List.append_assoc]
      apply List.Perm.append_left
      simp only [List.cons_append, List.nil_append]
      exact List.perm_middle.symm
    · intro t ht q hq
      simp only [e2] at ht
      rcases List.mem_append.1 ht with ht | ht
      · exact hs t (by simp [ht]) q hq
      · rcases List.mem_cons.1 ht with rfl | ht
        · exact hs (todo, some p) (by simp) q (by simp [pending] at hq ⊢; simp [hq])
        · exact hs t (by simp [ht]) q hq
    · simp only [e2, addValue, habs, Option.isSome_none, Bool.false_eq_true, if_false] at he ⊢
      simp only [List.flatMap_append, List.flatMap_cons, List.length_append, List.length_cons, List.length_nil, Option.toList_some,
        Option.toList_none] at he ⊢
      omega
  case h_2 p todo hi =>
    obtain ⟨pre, post, e1, e2⟩ := set_split hi
    have habs := h.absent hstep hL hn (p := p) (by rw [e1]; simp [pending])
    simp only [habs, Option.isSome_none, Bool.false_eq_true, if_false, Option.some.injEq] at e
    subst e
    have hp := h.perm
    have hs := h.sub
    have he := h.evals
    rw [e1] at hp hs he
    refine ⟨?_, ?_, ?_⟩
    · simp only [e2]
      simpa only [List.flatMap_append, List.flatMap_cons, pending, Option.toList_some, Option.toList_none, List.nil_append,
        List.cons_append] using hp
    · intro t ht q hq
      simp only [e2] at ht
      rcases List.mem_append.1 ht with ht | ht
      · exact hs t (by simp [ht]) q hq
      · rcases List.mem_cons.1 ht with rfl | ht
        · exact hs (p :: todo, none) (by simp) q (by simpa [pending] using hq)
        · exact hs t (by simp [ht]) q hq
    · simp only [e2] at he ⊢
      simp only [List.flatMap_append, List.flatMap_cons, List.length_append, List.length_cons, List.length_nil, Option.toList_some,
        Option.toList_none] at he ⊢
      omega
  case h_3 => simp at e

theorem SInv.run {s s' : Sim} {es : List Nat} (h : SInv rs op L s) (e : simRun rs op s es = some s') : SInv rs op L s' := by
  induction es generalizing s with
  | nil => simp only [simRun, Option.some.injEq] at e; exact e ▸ h
  | cons i es ih =>
    simp only [simRun, Option.bind_eq_some_iff] at e
    obtain ⟨s₁, e1, e2⟩ := e
    exact ih (h.step hstep hL hn e1) e2

end

/-! ### Slices -/

theorem flatMap_takeWhile {α : Type} (f : Nat → Bool) (g : Nat → List α) (l : List Nat) (hs : l.Pairwise (· ≤ ·))
    (h : ∀ x y, x ≤ y → f x = false → g y = []) : (l.takeWhile f).flatMap g = l.flatMap g := by
  induction l with
  | nil => rfl
  | cons x l ih =>
    rw [List.pairwise_cons] at hs
    rw [List.takeWhile_cons]
    cases hf : f x with
    | true => simp [ih hs.2]
    | false =>
      simp only [Bool.false_eq_true, if_false, List.flatMap_nil, List.flatMap_cons]
      rw [h x x (Nat.le_refl x) hf, List.nil_append]
      symm
      rw [List.flatMap_eq_nil_iff]
      exact fun y hy => h x y (hs.1 y hy) hf

theorem flatMap_slices (ps : List SP) (size t : Nat) :
    (List.range t).flatMap (fun i => (ps.drop (i * size)).take size) = ps.take (t * size) := by
  induction t with
  | zero => simp
  | succ t ih =>
    rw [List.range_succ, List.flatMap_append, ih]
    simp only [List.flatMap_cons, List.flatMap_nil, List.append_nil]
    rw [Nat.succ_mul, List.take_add]

theorem slices_flatten (T : Nat) (ps : List SP) : (slices T ps).flatMap id = ps := by
  unfold slices
  generalize ht : max (min (max T 1) ps.length) 1 = t
  have htp : 0 < t := by omega
  simp only
  generalize hs : (ps.length + t - 1) / t = size
  rw [List.flatMap_map]
  have hg : ∀ i, (ps.drop (i * size)).take (min (i * size + size) ps.length - i * size) = (ps.drop (i * size)).take size := by
    intro i
    rw [show min (i * size + size) ps.length - i * size = min size (ps.drop (i * size)).length by rw [List.length_drop]; omega]
    exact (List.take_eq_take_min).symm
  simp only [hg, id]
  rw [flatMap_takeWhile]
  · rw [flatMap_slices]
    apply List.take_of_length_le
    have h1 : t * size + (ps.length + t - 1) % t = ps.length + t - 1 := by rw [← hs]; exact Nat.div_add_mod _ _
    have h2 := Nat.mod_lt (ps.length + t - 1) htp
    omega
  · exact List.pairwise_lt_range.imp (fun h => Nat.le_of_lt h)
  · intro x y hxy hf
    simp only [decide_not, Bool.not_eq_eq_eq_not, Bool.not_false, decide_eq_true_eq] at hf
    have hy : x * size ≤ y * size := Nat.mul_le_mul_right _ hxy
    by_cases hz : size = 0
    · subst hz; simp
    · rw [List.drop_of_length_le (by omega)]; simp

theorem SInv.start {rs : List Range} {op : PP → Bool} {L : List SP} (T : Nat) : SInv rs op L (Sim.start T [] 0 L) := by
  have h0 : ∀ l : List (List SP), (l.map (fun l => (l, (none : Option SP)))).flatMap pending = l.flatMap id := by
    intro l; rw [List.flatMap_map]; rfl
  have h1 : ∀ l : List (List SP), (l.map (fun l => (l, (none : Option SP)))).flatMap (fun t => t.2.toList) = [] := by
    intro l; induction l <;> simp_all
  refine ⟨?_, ?_, ?_⟩
  · simp only [Sim.start, List.nil_append, h0, slices_flatten]
    exact List.Perm.refl _
  · intro t ht p hp
    have : p ∈ (slices T L).flatMap id := by
      rw [← h0]; exact List.mem_flatMap.2 ⟨t, ht, hp⟩
    rwa [slices_flatten] at this
  · simp [Sim.start, h1]

theorem SInv.joined {rs : List Range} {op : PP → Bool} {L : List SP} {s : Sim} (h : SInv rs op L s) (hj : s.Joined) :
    s.dom.Perm (L.map (ent rs op)) ∧ s.evals = s.dom.length := by
  have h0 : s.thr.flatMap pending = [] := by
    rw [List.flatMap_eq_nil_iff]; intro t ht; rw [hj t ht]; rfl
  have h1 : s.thr.flatMap (fun t => t.2.toList) = [] := by
    rw [List.flatMap_eq_nil_iff]; intro t ht; rw [hj t ht]; rfl
  have := h.perm
  have e := h.evals
  rw [h0, List.map_nil, List.append_nil] at this
  rw [h1] at e
  exact ⟨this, e⟩

theorem simulated_spec {rs : List Range} {op : PP → Bool} (hstep : ∀ r ∈ rs, margin ≤ r.step) {L : List SP} (hL : ∀ p ∈ L, InGrid rs p)
    (hn : L.Nodup) {T : Nat} {dom : Dom} {evals : Nat} (h : Simulated rs op T L dom evals) :
    dom.Perm (L.map (ent rs op)) ∧ evals = dom.length := by
  obtain ⟨es, s, e, hj, rfl, rfl⟩ := h
  exact ((SInv.start T).run hstep hL hn e).joined hj

/-! ### Progress -/

/-- The number of steps the threads still need at most. -/
def Sim.work (s : Sim) : Nat := (s.thr.map (fun t => 2 * t.1.length + t.2.toList.length)).sum

theorem simStep_work {rs : List Range} {op : PP → Bool} {s s' : Sim} {i : Nat} (e : simStep rs op s i = some s') : s'.work < s.work := by
  unfold simStep at e
  split at e
  case h_1 todo p hi =>
    obtain ⟨pre, post, e1, e2⟩ := set_split hi
    simp only [Option.some.injEq] at e
    subst e
    simp only [Sim.work, e2]
    rw [e1]
    simp
  case h_2 p todo hi =>
    obtain ⟨pre, post, e1, e2⟩ := set_split hi
    split_ifs at e <;>
    · simp only [Option.some.injEq] at e
      subst e
      simp only [Sim.work, e2]
      rw [e1]
      simp
      try omega
  case h_3 => simp at e

theorem simRun_work {rs : List Range} {op : PP → Bool} {s s' : Sim} {es : List Nat} (e : simRun rs op s es = some s') :
    s'.work + es.length ≤ s.work := by
  induction es generalizing s with
  | nil => simp only [simRun, Option.some.injEq] at e; simp [e]
  | cons i es ih =>
    simp only [simRun, Option.bind_eq_some_iff] at e
    obtain ⟨s₁, e1, e2⟩ := e
    have := ih e2
    have := simStep_work e1
    simp only [List.length_cons]; omega

theorem sim_progress {rs : List Range} {op : PP → Bool} {s : Sim} (h : ¬ s.Joined) : ∃ i s', simStep rs op s i = some s' := by
  simp only [Sim.Joined, not_forall] at h
  obtain ⟨t, ht, hne⟩ := h
  obtain ⟨i, hi⟩ := List.mem_iff_getElem?.1 ht
  refine ⟨i, ?_⟩
  obtain ⟨todo, inf⟩ := t
  cases inf with
  | some p => exact ⟨_, by unfold simStep; rw [hi]⟩
  | none =>
    cases todo with
    | nil => exact absurd rfl hne
    | cons p todo =>
      unfold simStep
      rw [hi]
      simp only
      split_ifs <;> exact ⟨_, rfl⟩

theorem sim_work_start (T : Nat) (L : List SP) : (Sim.start T [] 0 L).work = 2 * L.length := by
  have h : ∀ l : List (List SP), ((l.map (fun l => (l, (none : Option SP)))).map (fun t => 2 * t.1.length + t.2.toList.length)).sum =
      2 * (l.flatMap id).length := by
    intro l
    induction l with
    | nil => rfl
    | cons a l ih =>
      simp only [List.map_cons, List.sum_cons, ih, List.flatMap_cons, List.length_append, id]
      simp; ring
  unfold Sim.work Sim.start
  simp only [h, slices_flatten]

end Verif.OpDomain
