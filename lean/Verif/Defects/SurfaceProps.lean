import Verif.Defects.Surface
import Verif.Cells.Lemmas
import Mathlib.Data.List.Nodup
import Mathlib.Data.List.Induction

/-!
# C82: a defect surface reports the history of its defects
-/
namespace Verif.Defects

open Verif.Cells

section
variable {C : Type} [DecidableEq C]

/-! ## Specification -/

/-- What the surface carries at each position, `none` where it is intact. -/
abbrev View (C : Type) := C → Option Defect

/-- Assigning a defect overwrites the position; a defect of type `NONE` or of an ignored type clears it. Moving a defect
takes it away from its position and puts it on the target. -/
def viewStep (ignore : List DefectType) (v : View C) : Op C → View C
  | .assign c d => fun k => if k = c then (if d.type = .none ∨ d.type ∈ ignore then none else some d) else v k
  | .move a b =>
    match v a with
    | none => v
    | some d => fun k => if k = b then some d else if k = a then none else v k

/-- The intended surface after a sequence of operations on an intact one. -/
def view (ignore : List DefectType) (ops : List (Op C)) : View C := ops.foldl (viewStep ignore) (fun _ => none)

/-- Whenever the history moves a defect, the target is intact at that moment. -/
def FreeMoves (ignore : List DefectType) (ops : List (Op C)) : Prop :=
  ∀ pre a b post, ops = pre ++ .move a b :: post → view ignore pre a ≠ none → view ignore pre b = none

/-! ## Facts -/

theorem find_insertNew (m : List (C × Defect)) (c k : C) (d : Defect) :
    find (insertNew m c d) k = if k = c then (match find m c with | some e => some e | none => some d) else find m k := by
  unfold insertNew
  by_cases h : (find m c).isSome
  · rw [if_pos h]
    obtain ⟨e, he⟩ := Option.isSome_iff_exists.1 h
    by_cases hk : k = c
    · subst hk; simp [he]
    · simp [hk]
  · rw [if_neg h]
    have hn : find m c = none := by simpa using h
    rw [find_cons]
    by_cases hk : k = c
    · subst hk; simp [hn]
    · have : ¬ c = k := fun e => hk e.symm
      simp [hk, this]

/-- What every reachable surface satisfies. -/
structure Ok (s : Surface C) : Prop where
  nodup : (s.defects.map (·.1)).Nodup
  kinds : ∀ p ∈ s.defects, p.2.type ≠ .none ∧ p.2.type ∉ s.ignore

theorem find_mem {m : List (C × Defect)} {c : C} {d : Defect} (h : find m c = some d) : (c, d) ∈ m := by
  unfold find at h
  obtain ⟨p, hp, rfl⟩ := Option.map_eq_some_iff.1 h
  have := List.find?_some hp
  have hm := List.mem_of_find?_eq_some hp
  simp only [decide_eq_true_eq] at this
  subst this
  exact hm

theorem nodup_insertNew {m : List (C × Defect)} (h : (m.map (·.1)).Nodup) (c : C) (d : Defect) :
    ((insertNew m c d).map (·.1)).Nodup := by
  unfold insertNew
  split_ifs with hs
  · exact h
  · rw [List.map_cons, List.nodup_cons]
    exact ⟨fun hm => hs ((mem_keys_iff m c).1 hm), h⟩

theorem mem_insertNew {m : List (C × Defect)} {c : C} {d : Defect} {p : C × Defect} (h : p ∈ insertNew m c d) :
    p = (c, d) ∨ p ∈ m := by
  unfold insertNew at h
  split_ifs at h with hs
  · exact Or.inr h
  · exact List.mem_cons.1 h

theorem mem_erase' {m : List (C × Defect)} {c : C} {p : C × Defect} (h : p ∈ erase m c) : p ∈ m :=
  (List.mem_filter.1 h).1

theorem ok_new (ignore : List DefectType) : Ok (Surface.new ignore : Surface C) := ⟨by simp [Surface.new], by simp [Surface.new]⟩

theorem get_type {s : Surface C} (h : Ok s) (c : C) : (s.get c).type ≠ .none ↔ find s.defects c ≠ none := by
  unfold Surface.get
  cases hf : find s.defects c with
  | none => simp [Defect.ofType]
  | some d => simpa using (h.kinds _ (find_mem hf)).1

theorem step_ignore (s : Surface C) (op : Op C) : (s.step op).ignore = s.ignore := by
  cases op with
  | assign c d => simp only [Surface.step, Surface.assign]; split_ifs <;> rfl
  | move a b => simp only [Surface.step, Surface.move]; split_ifs <;> rfl

theorem ok_step {s : Surface C} (h : Ok s) (op : Op C) : Ok (s.step op) := by
  cases op with
  | assign c d =>
    simp only [Surface.step, Surface.assign]
    split_ifs with hd
    · refine ⟨nodup_insertNew (nodup_erase h.nodup c) c d, fun p hp => ?_⟩
      rcases mem_insertNew hp with he | hp
      · subst he; exact hd
      · exact h.kinds p (mem_erase' hp)
    · exact ⟨nodup_erase h.nodup c, fun p hp => h.kinds p (mem_erase' hp)⟩
  | move a b =>
    simp only [Surface.step, Surface.move]
    by_cases hd : (s.get a).type ≠ .none
    rotate_left
    · rw [if_neg hd]; exact h
    · rw [if_pos hd]
      refine ⟨nodup_erase (nodup_insertNew h.nodup b _) a, fun p hp => ?_⟩
      rcases mem_insertNew (mem_erase' hp) with he | hp
      · subst he
        have := (get_type h a).1 hd
        unfold Surface.get
        cases hf : find s.defects a with
        | none => exact absurd hf this
        | some d => exact h.kinds (a, d) (find_mem hf)
      · exact h.kinds p hp

theorem run_snoc (s : Surface C) (ops : List (Op C)) (op : Op C) : s.run (ops ++ [op]) = (s.run ops).step op := by
  simp [Surface.run]

theorem ok_run {s : Surface C} (h : Ok s) (ops : List (Op C)) : Ok (s.run ops) ∧ (s.run ops).ignore = s.ignore := by
  induction ops using List.reverseRecOn with
  | nil => exact ⟨h, rfl⟩
  | append_singleton l op ih =>
    rw [run_snoc]
    exact ⟨ok_step ih.1 op, by rw [step_ignore]; exact ih.2⟩

theorem view_snoc (ignore : List DefectType) (ops : List (Op C)) (op : Op C) :
    view ignore (ops ++ [op]) = viewStep ignore (view ignore ops) op := by simp [view]

theorem get_eq (s : Surface C) (c : C) : s.get c = (find s.defects c).getD (Defect.ofType .none) := by
  unfold Surface.get; cases find s.defects c <;> rfl

theorem find_assign' (s : Surface C) (c k : C) (d : Defect) :
    find (s.assign c d).defects k
      = if k = c then (if d.type = .none ∨ d.type ∈ s.ignore then none else some d) else find s.defects k := by
  unfold Surface.assign
  by_cases hd : d.type ≠ .none ∧ d.type ∉ s.ignore
  · have hn : ¬ (d.type = .none ∨ d.type ∈ s.ignore) := by
      rintro (h | h)
      · exact hd.1 h
      · exact hd.2 h
    simp only [if_pos hd, if_neg hn, find_insertNew, find_erase]
    by_cases hk : k = c <;> simp [hk]
  · have hp : d.type = .none ∨ d.type ∈ s.ignore := by
      by_contra hc
      exact hd ⟨fun h => hc (Or.inl h), fun h => hc (Or.inr h)⟩
    simp only [if_neg hd, if_pos hp, find_erase]

theorem find_move {s : Surface C} (h : Ok s) (a b k : C) :
    find (s.move a b).defects k
      = match find s.defects a with
        | none => find s.defects k
        | some d => if k = a then none else if k = b then (match find s.defects b with | some e => some e | none => some d)
            else find s.defects k := by
  unfold Surface.move
  by_cases hd : (s.get a).type ≠ .none
  · have hne := (get_type h a).1 hd
    obtain ⟨d, hfa⟩ := Option.ne_none_iff_exists'.1 hne
    have hg : s.get a = d := by rw [get_eq, hfa]; rfl
    dsimp only
    rw [if_pos hd]
    simp only [find_erase, find_insertNew, hfa, hg]
  · have hfa : find s.defects a = none := by
      by_contra hc
      exact hd ((get_type h a).2 hc)
    simp only [if_neg hd, hfa]

/-! ## C82 -/

/-- **C82** (for histories in which defects are moved to intact positions only). After any such sequence of assignments and
moves, `get_sidb_defect` returns at every position what the history left there, and a defect of type `NONE` where it left
nothing. Missing: moves onto defective positions, see `C82_false_occupied` and `C82_false_self`. -/
theorem C82_get_partial (ignore : List DefectType) (ops : List (Op C)) (hfree : FreeMoves ignore ops) (c : C) :
    ((Surface.new ignore).run ops).get c = (view ignore ops c).getD (Defect.ofType .none) := by
  rw [get_eq]
  congr 1
  induction ops using List.reverseRecOn generalizing c with
  | nil => rfl
  | append_singleton l op ih =>
    have hl : FreeMoves ignore l := by
      intro pre a b post e
      exact hfree pre a b (post ++ [op]) (by rw [e]; simp)
    have ih := ih hl
    have hok := ok_run (ok_new (C := C) ignore) l
    rw [run_snoc, view_snoc]
    have hig : ((Surface.new ignore : Surface C).run l).ignore = ignore := hok.2
    cases op with
    | assign p d =>
      simp only [Surface.step, viewStep, find_assign', hig, ih]
    | move a b =>
      simp only [Surface.step, viewStep, find_move hok.1, ih]
      cases ha : view ignore l a with
      | none => rfl
      | some d =>
        have hb := hfree l a b [] rfl (by rw [ha]; simp)
        have hab : a ≠ b := by intro e; rw [e, hb] at ha; cases ha
        simp only [hb]
        by_cases h1 : c = a
        · have : c ≠ b := h1 ▸ hab
          simp [h1, hab]
        · simp [h1]

/-- **C82** for histories without moves: the last assignment to a position counts. -/
theorem C82_last_assignment (ignore : List DefectType) (ops : List (Op C)) (hno : ∀ a b, Op.move a b ∉ ops) (c : C) :
    ((Surface.new ignore).run ops).get c = (view ignore ops c).getD (Defect.ofType .none) := by
  refine C82_get_partial ignore ops (fun pre a b post e _ => ?_) c
  exact absurd (by rw [e]; simp) (hno a b)

/-- **C82** What one move does on any reachable surface: it changes nothing if its source is intact; otherwise the source is
intact afterwards, the target keeps its defect if it had one and gets the moved defect if it was intact, and every other
position is as before. -/
theorem C82_move (ignore : List DefectType) (ops : List (Op C)) (a b k : C) :
    let s := (Surface.new ignore).run ops
    (s.move a b).get k =
      if (s.get a).type = .none then s.get k
      else if k = a then Defect.ofType .none
      else if k = b then (if (s.get b).type = .none then s.get a else s.get b)
      else s.get k := by
  intro s
  have hok : Ok s := (ok_run (ok_new (C := C) ignore) ops).1
  have ht := get_type hok
  simp only [get_eq, find_move hok] at *
  have hta := ht a
  have htb := ht b
  cases ha : find s.defects a with
  | none => simp [Defect.ofType]
  | some d =>
    rw [ha] at hta
    have hd : d.type ≠ .none := hta.2 (by simp)
    simp only [Option.getD_some, if_neg hd]
    by_cases h1 : k = a
    · simp [h1]
    · simp only [if_neg h1]
      by_cases h2 : k = b
      · simp only [if_pos h2]
        cases hb : find s.defects b with
        | none => simp [Defect.ofType]
        | some e =>
          rw [hb] at htb
          have he : e.type ≠ .none := htb.2 (by simp)
          simp [he]
      · simp [h2]

/-- **C82** After any history, moves onto defective positions included, `foreach_sidb_defect` visits exactly the positions at
which `get_sidb_defect` finds a defect, each of them once and together with that defect; `num_defects` is their number, and no
defect of an ignored type is ever stored. -/
theorem C82_visits (ignore : List DefectType) (ops : List (Op C)) :
    let s := (Surface.new ignore).run ops
    (s.visited.map (·.1)).Nodup ∧ s.numDefects = s.visited.length ∧
    (∀ c d, (c, d) ∈ s.visited ↔ s.get c = d ∧ d.type ≠ .none) ∧ ∀ c, (s.get c).type ∉ ignore ∨ (s.get c).type = .none := by
  intro s
  have hok : Ok s := (ok_run (ok_new (C := C) ignore) ops).1
  have hig : s.ignore = ignore := (ok_run (ok_new (C := C) ignore) ops).2
  have hfind : ∀ c d, (c, d) ∈ s.defects → find s.defects c = some d := by
    intro c d hm
    have hs : (find s.defects c).isSome := (mem_keys_iff _ c).1 (List.mem_map.2 ⟨_, hm, rfl⟩)
    obtain ⟨e, he⟩ := Option.isSome_iff_exists.1 hs
    have := List.inj_on_of_nodup_map hok.nodup (find_mem he) hm rfl
    rw [he, (Prod.mk.inj this).2]
  refine ⟨hok.nodup, rfl, fun c d => ⟨fun hm => ?_, fun ⟨hg, hd⟩ => ?_⟩, fun c => ?_⟩
  · refine ⟨?_, (hok.kinds _ hm).1⟩
    rw [get_eq, hfind c d hm]; rfl
  · have := (get_type hok c).1 (by rw [hg]; exact hd)
    obtain ⟨e, he⟩ := Option.ne_none_iff_exists'.1 this
    rw [get_eq, he] at hg
    have hed : e = d := hg
    rw [← hed]
    exact find_mem he
  · cases hf : find s.defects c with
    | none => right; rw [get_eq, hf]; rfl
    | some d => left; rw [get_eq, hf, ← hig]; exact (hok.kinds _ (find_mem hf)).2

omit [DecidableEq C] in
theorem foldl_count (l : List (C × Defect)) (p : Defect → Bool) (n : Nat) :
    l.foldl (fun n q => if p q.2 then n + 1 else n) n = n + (l.filter (fun q => p q.2)).length := by
  induction l generalizing n with
  | nil => rfl
  | cons q l ih =>
    rw [List.foldl_cons, ih]
    by_cases h : p q.2
    · simp [h]; omega
    · simp [h]

/-- **C82** The numbers of positively and of negatively charged defects count the visited defects with a positive and with a
negative charge. -/
theorem C82_charged (ignore : List DefectType) (ops : List (Op C)) :
    let s := (Surface.new ignore).run ops
    s.numPositive = (s.visited.filter (fun p => decide (0 < p.2.charge))).length ∧
    s.numNegative = (s.visited.filter (fun p => decide (p.2.charge < 0))).length ∧
    s.numCharged = s.numPositive + s.numNegative := by
  intro s
  refine ⟨?_, ?_, rfl⟩
  · unfold Surface.numPositive; rw [foldl_count _ Defect.isPositive]; simp [Defect.isPositive]
  · unfold Surface.numNegative; rw [foldl_count _ Defect.isNegative]; simp [Defect.isNegative]

/-- A defect without charge whose type is listed as charged. -/
def Ambiguous (d : Defect) : Prop := d.charge = 0 ∧ (d.type = .db ∨ d.type = .siVacancy ∨ d.type = .arsenic)

instance (d : Defect) : Decidable (Ambiguous d) := by unfold Ambiguous; infer_instance

/-- **C82** The counters of charged and of neutral defects add up to the number of defects, but for the ambiguous ones: those
are counted by neither. -/
theorem C82_counters (ignore : List DefectType) (ops : List (Op C)) :
    let s := (Surface.new ignore).run ops
    s.numCharged + s.numNeutral + (s.visited.filter (fun p => decide (Ambiguous p.2))).length = s.numDefects := by
  intro s
  have hok : Ok s := (ok_run (ok_new (C := C) ignore) ops).1
  have hk : ∀ p ∈ s.defects, p.2.type ≠ .none := fun p hp => (hok.kinds p hp).1
  unfold Surface.numCharged Surface.numPositive Surface.numNegative Surface.numNeutral Surface.numDefects Surface.visited
  rw [foldl_count _ Defect.isPositive, foldl_count _ Defect.isNegative, foldl_count _ Defect.isNeutralType]
  generalize s.defects = l at hk
  induction l with
  | nil => rfl
  | cons q l ih =>
    have ih := ih (fun p hp => hk p (List.mem_cons_of_mem _ hp))
    have hq := hk q (by simp)
    simp only [List.filter_cons, List.length_cons]
    have hcases : (q.2.isPositive = true ∧ q.2.isNegative = false ∧ q.2.isNeutralType = false ∧ ¬ Ambiguous q.2) ∨
        (q.2.isPositive = false ∧ q.2.isNegative = true ∧ q.2.isNeutralType = false ∧ ¬ Ambiguous q.2) ∨
        (q.2.isPositive = false ∧ q.2.isNegative = false ∧ q.2.isNeutralType = true ∧ ¬ Ambiguous q.2) ∨
        (q.2.isPositive = false ∧ q.2.isNegative = false ∧ q.2.isNeutralType = false ∧ Ambiguous q.2) := by
      obtain ⟨c, ⟨t, ch, e, la⟩⟩ := q
      simp only [Defect.isPositive, Defect.isNegative, Defect.isNeutralType, Defect.isChargedType, Ambiguous] at *
      rcases Int.lt_trichotomy ch 0 with h | h | h
      · right; left
        have h1 : ¬ 0 < ch := by omega
        have h2 : ch ≠ 0 := by omega
        simp [h, h1, h2]
      · subst h
        right; right
        cases t <;> simp_all
      · left
        have h1 : ¬ ch < 0 := by omega
        have h2 : ch ≠ 0 := by omega
        simp [h, h1, h2]
    rcases hcases with ⟨h1, h2, h3, h4⟩ | ⟨h1, h2, h3, h4⟩ | ⟨h1, h2, h3, h4⟩ | ⟨h1, h2, h3, h4⟩ <;>
      simp [h1, h2, h3, h4] <;> omega

/-! ## Where the code departs from the intended history -/

/-- A charged vacancy, a siloxane defect and a gunk defect. -/
def vac : Defect := ⟨.siVacancy, -1, 3, 5⟩
def sil : Defect := Defect.ofType .siloxane
def gunk : Defect := Defect.ofType .gunk

/-- **C82 is false for moves onto a defect.** The target keeps its old defect, and the moved one is lost. -/
theorem C82_false_occupied :
    ((Surface.new [] : Surface (Nat × Nat)).run [.assign (0, 0) vac, .assign (1, 0) sil, .move (0, 0) (1, 0)]).get (1, 0) = sil ∧
    ((Surface.new [] : Surface (Nat × Nat)).run [.assign (0, 0) vac, .assign (1, 0) sil, .move (0, 0) (1, 0)]).numDefects = 1 ∧
    view [] [.assign (0, 0) vac, .assign (1, 0) sil, .move (0, 0) (1, 0)] ((1, 0) : Nat × Nat) = some vac := by
  decide +kernel

/-- **C82 is false for moves of a defect onto its own position.** They remove it. -/
theorem C82_false_self :
    ((Surface.new [] : Surface (Nat × Nat)).run [.assign (0, 0) vac, .move (0, 0) (0, 0)]).get (0, 0) = Defect.ofType .none ∧
    view [] [.assign (0, 0) vac, .move (0, 0) (0, 0)] ((0, 0) : Nat × Nat) = some vac := by
  decide +kernel

/-- The counters miss the ambiguous defects: a dangling bond without a recorded charge is counted neither as charged nor as
neutral. -/
theorem C82_false_partition :
    ((Surface.new [] : Surface (Nat × Nat)).run [.assign (0, 0) (Defect.ofType .db)]).numDefects = 1 ∧
    ((Surface.new [] : Surface (Nat × Nat)).run [.assign (0, 0) (Defect.ofType .db)]).numCharged = 0 ∧
    ((Surface.new [] : Surface (Nat × Nat)).run [.assign (0, 0) (Defect.ofType .db)]).numNeutral = 0 := by
  decide +kernel

/-! ## The hypotheses hold in concrete cases -/

/-- A history with an overwritten defect, an ignored one, a removed one and two moves to intact positions. -/
def demoOps : List (Op (Nat × Nat)) :=
  [.assign (0, 0) sil, .assign (0, 0) vac, .assign (2, 1) gunk, .assign (3, 3) sil, .move (0, 0) (5, 0), .move (5, 0) (0, 0),
    .assign (3, 3) (Defect.ofType .none)]

theorem demo_free : FreeMoves [.gunk] demoOps := by
  intro pre a b post e hne
  unfold demoOps at e
  rcases pre with _ | ⟨o1, _ | ⟨o2, _ | ⟨o3, _ | ⟨o4, _ | ⟨o5, _ | ⟨o6, _ | ⟨o7, pre⟩⟩⟩⟩⟩⟩⟩
  all_goals simp only [List.nil_append, List.cons_append, List.cons.injEq, reduceCtorEq, false_and, and_false] at e
  · obtain ⟨rfl, rfl, rfl, rfl, h, _⟩ := e
    cases h
    decide +kernel
  · obtain ⟨rfl, rfl, rfl, rfl, rfl, h, _⟩ := e
    cases h
    decide +kernel
  · obtain ⟨-, -, -, -, -, -, -, e⟩ := e
    cases pre <;> simp at e

example : ((Surface.new [.gunk]).run demoOps).get (0, 0) = vac ∧ ((Surface.new [.gunk]).run demoOps).get (2, 1) = Defect.ofType .none ∧
    ((Surface.new [.gunk]).run demoOps).numDefects = 1 := by
  refine ⟨?_, ?_, ?_⟩
  · rw [C82_get_partial _ _ demo_free]; decide +kernel
  · rw [C82_get_partial _ _ demo_free]; decide +kernel
  · decide +kernel

end
end Verif.Defects
