import Verif.SidbDesign.Design
import Verif.OpDomain.Parallel
import Mathlib.Tactic.SplitIfs

/-! # Threads of the gate designers: lemmas -/
namespace Verif.SidbDesign

open Verif.OpDomain (set_split)

section
variable {α : Type}

/-- What a thread has still to analyse. -/
def pend (t : List α × Phase α) : List α :=
  (match t.2 with
    | .checked a => [a]
    | .running a => [a]
    | _ => []) ++ t.1

/-- Whether a thread may still store something, if it is enough to find one. -/
def may (found : Bool) (t : List α × Phase α) : Nat :=
  match t.2 with
  | .running _ => 1
  | .stored => 0
  | _ => if found then 0 else 1

def mays (s : Pool α) : Nat := (s.thr.map (may s.found)).sum

structure PInv (J : Job α) (T : Nat) (L : List α) (s : Pool α) : Prop where
  sub : (s.out ++ (s.thr.flatMap pend).filter J.good).Subperm (L.filter J.good)
  all : (s.found && J.first) = false → (s.out ++ (s.thr.flatMap pend).filter J.good).Perm (L.filter J.good)
  found : s.found = true → s.out ≠ []
  stored : ∀ t ∈ s.thr, t.2 = .stored → s.out ≠ []
  count : J.first = true → s.out.length + mays s ≤ T

theorem subperm_drop {out pre mid mid' post g : List α} (f : α → Bool) (h : mid'.Sublist mid)
    (hs : (out ++ (pre ++ mid ++ post).filter f).Subperm g) : (out ++ (pre ++ mid' ++ post).filter f).Subperm g := by
  refine List.Subperm.trans (List.Sublist.subperm ?_) hs
  exact (List.Sublist.refl out).append (List.Sublist.filter f
    (((List.Sublist.refl pre).append h).append (List.Sublist.refl post)))

theorem may_le (t : List α × Phase α) (f : Bool) : may true t ≤ may f t := by
  unfold may; split <;> cases f <;> simp

theorem sum_may_le (l : List (List α × Phase α)) (f : Bool) : (l.map (may true)).sum ≤ (l.map (may f)).sum := by
  induction l with
  | nil => exact Nat.le_refl _
  | cons t l ih => simp only [List.map_cons, List.sum_cons]; have := may_le t f; omega

theorem PInv.step {J : Job α} {T : Nat} {L : List α} {s s' : Pool α} {i : Nat} (h : PInv J T L s)
    (e : J.step s i = some s') : PInv J T L s' := by
  obtain ⟨h1, h2, h3, h4, h5⟩ := h
  have fm : ∀ (pre post : List (List α × Phase α)) (t : List α × Phase α),
      (pre ++ t :: post).flatMap pend = pre.flatMap pend ++ pend t ++ post.flatMap pend := by
    intro pre post t; simp [List.flatMap_append, List.flatMap_cons]
  have sm : ∀ (f : Bool) (pre post : List (List α × Phase α)) (t : List α × Phase α),
      ((pre ++ t :: post).map (may f)).sum = (pre.map (may f)).sum + may f t + (post.map (may f)).sum := by
    intro f pre post t; simp [List.sum_append, Nat.add_assoc]
  unfold Job.step at e
  split at e
  case h_1 a todo hi =>
    obtain ⟨pre, post, e1, e2⟩ := set_split hi
    unfold mays at h5
    rw [e1] at h1 h2 h4 h5
    rw [fm] at h1 h2
    rw [sm] at h5
    by_cases hc : (s.found && J.first) = true
    · rw [if_pos hc] at e
      simp only [Option.some.injEq] at e
      subst e
      refine ⟨?_, ?_, h3, ?_, ?_⟩
      · simp only [e2, fm]; exact subperm_drop J.good (List.nil_sublist _) h1
      · intro hn; simp only at hn; rw [hn] at hc; cases hc
      · intro t ht hs
        simp only [e2, List.mem_append, List.mem_cons] at ht
        rcases ht with ht | rfl | ht
        · exact h4 t (by simp [ht]) hs
        · cases hs
        · exact h4 t (by simp [ht]) hs
      · intro hf
        have := h5 hf
        simp only [mays, e2, sm]
        simp only [may] at this ⊢
        exact this
    · rw [if_neg hc] at e
      simp only [Option.some.injEq] at e
      subst e
      have hp : pend (todo, if J.twice = true then Phase.checked a else .running a) = pend (a :: todo, Phase.idle) := by
        cases J.twice <;> rfl
      refine ⟨?_, ?_, h3, ?_, ?_⟩
      · simp only [e2, fm, hp]; exact h1
      · simp only [e2, fm, hp]; exact h2
      · intro t ht hs
        simp only [e2, List.mem_append, List.mem_cons] at ht
        rcases ht with ht | rfl | ht
        · exact h4 t (by simp [ht]) hs
        · simp only at hs; split_ifs at hs
        · exact h4 t (by simp [ht]) hs
      · intro hf
        have := h5 hf
        have hnf : s.found = false := by
          cases hb : s.found with
          | false => rfl
          | true => rw [hb, hf] at hc; exact absurd rfl hc
        simp only [mays, e2, sm]
        rw [hnf] at this ⊢
        simp only [may] at this ⊢
        cases hj : J.twice <;> simpa using this
  case h_2 todo a hi =>
    obtain ⟨pre, post, e1, e2⟩ := set_split hi
    unfold mays at h5
    rw [e1] at h1 h2 h4 h5
    rw [fm] at h1 h2
    rw [sm] at h5
    split_ifs at e with hc
    · simp only [Option.some.injEq] at e
      subst e
      refine ⟨?_, ?_, h3, ?_, ?_⟩
      · simp only [e2, fm]; exact subperm_drop J.good (by simp [pend]) h1
      · intro hn; simp only at hn; rw [hn] at hc; cases hc
      · intro t ht hs
        simp only [e2, List.mem_append, List.mem_cons] at ht
        rcases ht with ht | rfl | ht
        · exact h4 t (by simp [ht]) hs
        · cases hs
        · exact h4 t (by simp [ht]) hs
      · intro hf
        have := h5 hf
        simp only [mays, e2, sm]
        simp only [may] at this ⊢
        exact this
    · simp only [Option.some.injEq] at e
      subst e
      refine ⟨?_, ?_, h3, ?_, ?_⟩
      · simp only [e2, fm]; exact h1
      · simp only [e2, fm]; exact h2
      · intro t ht hs
        simp only [e2, List.mem_append, List.mem_cons] at ht
        rcases ht with ht | rfl | ht
        · exact h4 t (by simp [ht]) hs
        · cases hs
        · exact h4 t (by simp [ht]) hs
      · intro hf
        have := h5 hf
        have hnf : s.found = false := by
          cases hb : s.found with
          | false => rfl
          | true => rw [hb, hf] at hc; exact absurd rfl hc
        simp only [mays, e2, sm]
        rw [hnf] at this ⊢
        simp only [may] at this ⊢
        simpa using this
  case h_3 todo a hi =>
    obtain ⟨pre, post, e1, e2⟩ := set_split hi
    unfold mays at h5
    rw [e1] at h1 h2 h4 h5
    rw [fm] at h1 h2
    rw [sm] at h5
    split_ifs at e with hc
    · simp only [Option.some.injEq] at e
      subst e
      have hperm : (s.out ++ [a] ++ (pre.flatMap pend ++ pend (todo, Phase.stored) ++ post.flatMap pend).filter J.good).Perm
          (s.out ++ (pre.flatMap pend ++ pend (todo, Phase.running a) ++ post.flatMap pend).filter J.good) := by
        have : pend (todo, Phase.running a) = a :: pend (todo, (Phase.stored : Phase α)) := rfl
        rw [this]
        simp only [List.filter_append, List.filter_cons, hc, if_true, List.append_assoc, List.cons_append, List.nil_append]
        exact List.Perm.append_left _ List.perm_middle.symm
      refine ⟨?_, ?_, ?_, ?_, ?_⟩
      · simp only [e2, fm]; exact hperm.subperm.trans h1
      · intro hn; simp only [e2, fm]; exact hperm.trans (h2 hn)
      · intro _; simp
      · intro t _ _; simp
      · intro hf
        have := h5 hf
        simp only [mays, e2, sm, List.length_append, List.length_singleton]
        simp only [may] at this ⊢
        omega
    · simp only [Option.some.injEq] at e
      subst e
      have hfil : (pre.flatMap pend ++ pend (todo, (Phase.idle : Phase α)) ++ post.flatMap pend).filter J.good =
          (pre.flatMap pend ++ pend (todo, Phase.running a) ++ post.flatMap pend).filter J.good := by
        have : pend (todo, Phase.running a) = a :: pend (todo, (Phase.idle : Phase α)) := rfl
        rw [this]
        simp only [List.filter_append, List.filter_cons, hc]
        simp
      refine ⟨?_, ?_, h3, ?_, ?_⟩
      · simp only [e2, fm, hfil]; exact h1
      · simp only [e2, fm, hfil]; exact h2
      · intro t ht hs
        simp only [e2, List.mem_append, List.mem_cons] at ht
        rcases ht with ht | rfl | ht
        · exact h4 t (by simp [ht]) hs
        · cases hs
        · exact h4 t (by simp [ht]) hs
      · intro hf
        have := h5 hf
        simp only [mays, e2, sm]
        simp only [may] at this ⊢
        split_ifs <;> omega
  case h_4 todo hi =>
    obtain ⟨pre, post, e1, e2⟩ := set_split hi
    unfold mays at h5
    rw [e1] at h1 h2 h4 h5
    rw [fm] at h1 h2
    rw [sm] at h5
    simp only [Option.some.injEq] at e
    subst e
    have hne : s.out ≠ [] := h4 (todo, .stored) (by simp) rfl
    refine ⟨?_, ?_, ?_, ?_, ?_⟩
    · simp only [e2, fm]; exact h1
    · intro hn
      simp only [Bool.true_and] at hn
      simp only [e2, fm]
      exact h2 (by rw [hn, Bool.and_false])
    · intro _; exact hne
    · intro _ _ _; exact hne
    · intro hf
      have := h5 hf
      have p1 := sum_may_le pre s.found
      have p2 := sum_may_le post s.found
      simp only [mays, e2, sm]
      simp only [may] at this ⊢
      simp only [if_true]
      omega
  case h_5 => cases e

theorem PInv.run {J : Job α} {T : Nat} {L : List α} {s s' : Pool α} {es : List Nat} (h : PInv J T L s)
    (e : J.run s es = some s') : PInv J T L s' := by
  induction es generalizing s with
  | nil => simp only [Job.run, Option.some.injEq] at e; exact e ▸ h
  | cons i es ih =>
    simp only [Job.run, Option.bind_eq_some_iff] at e
    obtain ⟨s₁, e1, e2⟩ := e
    exact ih (h.step e1) e2

theorem flatMap_chunks (ps : List α) (size t : Nat) :
    (List.range t).flatMap (fun i => (ps.drop (i * size)).take size) = ps.take (t * size) := by
  induction t with
  | zero => simp
  | succ t ih =>
    rw [List.range_succ, List.flatMap_append, ih]
    simp only [List.flatMap_cons, List.flatMap_nil, List.append_nil]
    rw [Nat.succ_mul, List.take_add]

/-- All items are distributed, in order. -/
theorem chunks_spec {T : Nat} {items : List α} {ls : List (List α)} (h : chunks T items = some ls) :
    ls.flatMap id = items ∧ ls.length = min T items.length ∧ 0 < ls.length := by
  unfold chunks at h
  dsimp only at h
  split_ifs at h with h0
  simp only [Option.some.injEq] at h
  generalize ht : min T items.length = t at h h0 ⊢
  generalize hs : (items.length + t - 1) / t = size at h
  subst h
  refine ⟨?_, by simp, by simp; omega⟩
  rw [List.flatMap_map]
  have hg : ∀ i, (items.drop (i * size)).take (min (i * size + size) items.length - i * size) =
      (items.drop (i * size)).take size := by
    intro i
    rw [show min (i * size + size) items.length - i * size = min size (items.drop (i * size)).length by
      rw [List.length_drop]; omega]
    exact (List.take_eq_take_min).symm
  simp only [hg, id]
  rw [flatMap_chunks]
  apply List.take_of_length_le
  have h1 : t * size + (items.length + t - 1) % t = items.length + t - 1 := by rw [← hs]; exact Nat.div_add_mod _ _
  have h2 := Nat.mod_lt (items.length + t - 1) (show 0 < t by omega)
  omega

theorem PInv.start {J : Job α} {T : Nat} {items : List α} {ls : List (List α)} (h : chunks T items = some ls) :
    PInv J T items (.start ls) := by
  obtain ⟨h1, h2, _⟩ := chunks_spec h
  have h0 : ∀ l : List (List α), (l.map (fun l => (l, (Phase.idle : Phase α)))).flatMap pend = l.flatMap id := by
    intro l; rw [List.flatMap_map]; rfl
  have hm : ∀ l : List (List α), ((l.map (fun l => (l, (Phase.idle : Phase α)))).map (may false)).sum = l.length := by
    intro l; induction l with
    | nil => rfl
    | cons a l ih => simp only [List.map_cons, List.sum_cons, ih, List.length_cons]; simp [may]; omega
  refine ⟨?_, ?_, ?_, ?_, ?_⟩
  · simp only [Pool.start, h0, h1, List.nil_append]; exact List.Subperm.refl _
  · intro _; simp only [Pool.start, h0, h1, List.nil_append]; exact List.Perm.refl _
  · intro h; cases h
  · intro t ht hs
    simp only [Pool.start, List.mem_map] at ht
    obtain ⟨l, _, rfl⟩ := ht
    cases hs
  · intro _
    simp only [Pool.start, mays, hm, List.length_nil]
    omega

theorem PInv.joined {J : Job α} {T : Nat} {L : List α} {s : Pool α} (h : PInv J T L s) (hj : s.Joined) :
    s.out.Subperm (L.filter J.good) ∧ (J.first = false → s.out.Perm (L.filter J.good)) ∧
    (s.out = [] ↔ ∀ a ∈ L, J.good a = false) ∧ (J.first = true → s.out.length ≤ T) := by
  have h0 : s.thr.flatMap pend = [] := by
    rw [List.flatMap_eq_nil_iff]; intro t ht; rw [hj t ht]; rfl
  obtain ⟨h1, h2, h3, h4, h5⟩ := h
  rw [h0] at h1 h2
  simp only [List.filter_nil, List.append_nil] at h1 h2
  refine ⟨h1, fun hf => h2 (by rw [hf, Bool.and_false]), ⟨fun he => ?_, fun hn => ?_⟩, fun hf => ?_⟩
  · have hfo : s.found = false := by
      cases hb : s.found with
      | false => rfl
      | true => exact absurd he (h3 hb)
    have := h2 (by rw [hfo]; rfl)
    rw [he] at this
    have hnil := List.nil_perm.1 this
    intro a ha
    cases hg : J.good a with
    | false => rfl
    | true =>
      have : a ∈ L.filter J.good := List.mem_filter.2 ⟨ha, hg⟩
      rw [hnil] at this; cases this
  · have : L.filter J.good = [] := List.filter_eq_nil_iff.2 fun a ha => by rw [hn a ha]; simp
    rw [this] at h1
    exact List.subperm_nil.1 h1
  · have := h5 hf; omega

/-- What the threads have stored when all of them are joined, in any schedule. -/
theorem finished_spec {J : Job α} {T : Nat} {items out : List α} (h : Finished J T items out) :
    out.Subperm (items.filter J.good) ∧ (J.first = false → out.Perm (items.filter J.good)) ∧
    (out = [] ↔ ∀ a ∈ items, J.good a = false) ∧ (J.first = true → out.length ≤ T) := by
  obtain ⟨ls, es, s, h1, h2, h3, rfl⟩ := h
  exact ((PInv.start h1).run h2).joined h3

/-! ## Progress -/

/-- The steps a thread can still take at most. -/
def steps (t : List α × Phase α) : Nat :=
  4 * t.1.length + (match t.2 with
    | .idle => 0
    | .checked _ => 3
    | .running _ => 2
    | .stored => 1)

def Pool.work (s : Pool α) : Nat := (s.thr.map steps).sum

theorem work_lt {s : Pool α} {i : Nat} {t t' : List α × Phase α} (hi : s.thr[i]? = some t) (h : steps t' < steps t)
    (o : List α) (f : Bool) : (⟨o, f, s.thr.set i t'⟩ : Pool α).work < s.work := by
  obtain ⟨pre, post, e1, e2⟩ := set_split hi
  unfold Pool.work
  rw [e2, e1]
  simp only [List.map_append, List.map_cons, List.sum_append, List.sum_cons]
  omega

theorem step_work {J : Job α} {s s' : Pool α} {i : Nat} (e : J.step s i = some s') : s'.work < s.work := by
  unfold Job.step at e
  split at e
  case h_1 a todo hi =>
    split_ifs at e <;> simp only [Option.some.injEq] at e <;> subst e <;> refine work_lt hi ?_ _ _ <;>
      simp only [steps, List.length_cons, List.length_nil] <;> omega
  case h_2 todo a hi =>
    split_ifs at e <;> simp only [Option.some.injEq] at e <;> subst e <;> refine work_lt hi ?_ _ _ <;> simp [steps]
  case h_3 todo a hi =>
    split_ifs at e <;> simp only [Option.some.injEq] at e <;> subst e <;> refine work_lt hi ?_ _ _ <;> simp [steps]
  case h_4 todo hi =>
    simp only [Option.some.injEq] at e; subst e; refine work_lt hi ?_ _ _; simp [steps]
  case h_5 => cases e

/-- No schedule is longer than the work there is. -/
theorem run_length {J : Job α} {s s' : Pool α} {es : List Nat} (e : J.run s es = some s') :
    es.length + s'.work ≤ s.work := by
  induction es generalizing s with
  | nil => simp only [Job.run, Option.some.injEq] at e; subst e; simp
  | cons i es ih =>
    simp only [Job.run, Option.bind_eq_some_iff] at e
    obtain ⟨s₁, e1, e2⟩ := e
    have := ih e2
    have := step_work e1
    simp only [List.length_cons]
    omega

/-- As long as a thread has not returned, it can take a step. -/
theorem step_exists {J : Job α} {s : Pool α} (h : ¬ s.Joined) : ∃ i s', J.step s i = some s' := by
  simp only [Pool.Joined, not_forall] at h
  obtain ⟨t, ht, hne⟩ := h
  obtain ⟨i, hi⟩ := List.getElem?_of_mem ht
  refine ⟨i, ?_⟩
  unfold Job.step
  rw [hi]
  obtain ⟨todo, ph⟩ := t
  cases ph with
  | idle =>
    cases todo with
    | nil => exact absurd rfl hne
    | cons a todo => dsimp only; split_ifs <;> exact ⟨_, rfl⟩
  | checked a => cases todo <;> dsimp only <;> split_ifs <;> exact ⟨_, rfl⟩
  | running a => cases todo <;> dsimp only <;> split_ifs <;> exact ⟨_, rfl⟩
  | stored => cases todo <;> exact ⟨_, rfl⟩

theorem run_append {J : Job α} {s : Pool α} (es fs : List Nat) : J.run s (es ++ fs) = (J.run s es).bind (J.run · fs) := by
  induction es generalizing s with
  | nil => rfl
  | cons i es ih => simp only [List.cons_append, Job.run, Option.bind_assoc]; congr 1; funext s'; exact ih

/-- Every schedule can be continued until all threads are joined. -/
theorem run_joins {J : Job α} : ∀ (n : Nat) (s : Pool α), s.work ≤ n → ∃ es s', J.run s es = some s' ∧ s'.Joined := by
  intro n
  induction n with
  | zero =>
    intro s hw
    by_cases hj : s.Joined
    · exact ⟨[], s, rfl, hj⟩
    · obtain ⟨i, s', e⟩ := step_exists (J := J) hj
      have := step_work e; omega
  | succ n ih =>
    intro s hw
    by_cases hj : s.Joined
    · exact ⟨[], s, rfl, hj⟩
    · obtain ⟨i, s', e⟩ := step_exists (J := J) hj
      have := step_work e
      obtain ⟨es, s'', e2, hj2⟩ := ih s' (by omega)
      exact ⟨i :: es, s'', by simp only [Job.run, e, Option.bind_some, e2], hj2⟩

theorem start_work (ls : List (List α)) : (Pool.start ls).work = 4 * (ls.flatMap id).length := by
  unfold Pool.start Pool.work
  induction ls with
  | nil => rfl
  | cons l ls ih =>
    simp only [List.map_cons, List.sum_cons, List.flatMap_cons, List.length_append, id] at ih ⊢
    rw [ih]; simp only [steps]; omega

end
end Verif.SidbDesign
