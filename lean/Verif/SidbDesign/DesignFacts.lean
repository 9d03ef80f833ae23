import Verif.SidbDesign.DesignSpec
import Verif.SidbDesign.PoolFacts
import Verif.SidbDesign.RandomFacts
import Verif.Iter.CombProps
import Mathlib.Data.List.Perm.Basic
import Mathlib.Data.List.Nodup
import Mathlib.Data.List.Dedup

/-! # Design of gates: lemmas -/
namespace Verif.SidbDesign

open Verif.Coordinates Verif.Cells Verif.Iter

section
variable {C D : Type} [DecidableEq C] {S : Setting C D}

/-! ## Layouts -/

theorem HasDots.congr {l : Lyt C D} {ds ds' : List C} (h : S.HasDots l ds) (e : ∀ c, c ∈ ds ↔ c ∈ ds') : S.HasDots l ds' :=
  ⟨h.inv, h.defects, fun c => by rw [h.cell c]; simp only [e]⟩

theorem HasDots.same {l l' : Lyt C D} {ds : List C} (h : S.HasDots l ds) (h' : S.HasDots l' ds) {f : Lyt C D → Bool}
    (hf : OfLayout f) : f l = f l' :=
  hf l l' h.inv h'.inv (h.defects.trans h'.defects.symm) fun c => by rw [h.cell, h'.cell]

theorem hasDots_nil (hs : Inv S.skeleton.cells) : S.HasDots S.skeleton [] := ⟨hs, rfl, fun c => by simp⟩

theorem HasDots.assign {l : Lyt C D} {ds : List C} (h : S.HasDots l ds) (c : C) : S.HasDots (l.assign c .logic) (ds ++ [c]) := by
  refine ⟨inv_assign h.inv _ _, h.defects, fun k => ?_⟩
  rw [type_assign, h.cell]
  by_cases e : k = c <;> by_cases e' : k ∈ ds <;> simp [e, e']

/-- `skeleton_layout_with_canvas_sidbs` places dots at some of the given positions that are free. -/
theorem addDots {cs : List C} : ∀ {l : Lyt C D} {ds : List C}, S.HasDots l ds → ds.Nodup →
    (∀ c ∈ ds, S.skeleton.cells.getCellType c = .empty ∧ S.skeleton.defective c = false) →
    ∃ ds', S.HasDots (cs.foldl S.addDot l) ds' ∧ ds'.Nodup ∧ ds'.length ≤ ds.length + cs.length ∧
      ∀ c, c ∈ ds' ↔ c ∈ ds ∨ (c ∈ cs ∧ S.skeleton.cells.getCellType c = .empty ∧ S.skeleton.defective c = false) := by
  induction cs with
  | nil => intro l ds h hn hf; exact ⟨ds, h, hn, by simp, by simp⟩
  | cons a cs ih =>
    intro l ds h hn hf
    rw [List.foldl_cons]
    unfold Setting.addDot
    rw [h.cell a]
    by_cases ha : a ∈ ds
    · obtain ⟨ds', g1, g2, g3, g4⟩ := ih h hn hf
      rw [if_pos ha, if_neg (by simp)]
      refine ⟨ds', g1, g2, by simp only [List.length_cons]; omega, fun c => ?_⟩
      rw [g4, List.mem_cons]
      constructor
      · rintro (h | ⟨h1, h2⟩)
        · exact .inl h
        · exact .inr ⟨.inr h1, h2⟩
      · rintro (h | ⟨rfl | h1, h2⟩)
        · exact .inl h
        · exact .inl ha
        · exact .inr ⟨h1, h2⟩
    · rw [if_neg ha]
      have skip : ¬ (S.skeleton.cells.getCellType a = .empty ∧ S.skeleton.defective a = false) →
          ∃ ds', S.HasDots (cs.foldl S.addDot l) ds' ∧ ds'.Nodup ∧ ds'.length ≤ ds.length + (a :: cs).length ∧
            ∀ c, c ∈ ds' ↔ c ∈ ds ∨
              (c ∈ a :: cs ∧ S.skeleton.cells.getCellType c = .empty ∧ S.skeleton.defective c = false) := by
        intro hna
        obtain ⟨ds', g1, g2, g3, g4⟩ := ih h hn hf
        refine ⟨ds', g1, g2, by simp only [List.length_cons]; omega, fun c => ?_⟩
        rw [g4, List.mem_cons]
        constructor
        · rintro (h | ⟨h1, h2⟩)
          · exact .inl h
          · exact .inr ⟨.inr h1, h2⟩
        · rintro (h | ⟨rfl | h1, h2⟩)
          · exact .inl h
          · exact absurd h2 hna
          · exact .inr ⟨h1, h2⟩
      by_cases h1 : S.skeleton.cells.getCellType a = .empty
      · rw [if_pos h1]
        by_cases h2 : S.skeleton.defective a = true
        · rw [if_pos h2]
          exact skip fun hh => by rw [h2] at hh; cases hh.2
        · rw [if_neg h2]
          have hf2 : S.skeleton.defective a = false := by simpa using h2
          obtain ⟨ds', g1, g2, g3, g4⟩ := ih (HasDots.assign h a)
            (List.nodup_append'.2 ⟨hn, by simp, fun c hc h' => ha (by rw [← List.mem_singleton.1 h']; exact hc)⟩)
            (fun c hc => by
              rcases List.mem_append.1 hc with hc | hc
              · exact hf c hc
              · rw [List.mem_singleton.1 hc]; exact ⟨h1, hf2⟩)
          refine ⟨ds', g1, g2, ?_, fun c => ?_⟩
          · simp only [List.length_append, List.length_cons, List.length_nil] at g3 ⊢; omega
          · rw [g4, List.mem_append, List.mem_singleton, List.mem_cons]
            constructor
            · rintro ((h | rfl) | ⟨h3, h4⟩)
              · exact .inl h
              · exact .inr ⟨.inl rfl, h1, hf2⟩
              · exact .inr ⟨.inr h3, h4⟩
            · rintro (h | ⟨rfl | h3, h4⟩)
              · exact .inl (.inl h)
              · exact .inl (.inr rfl)
              · exact .inr ⟨h3, h4⟩
      · rw [if_neg h1]
        exact skip fun hh => h1 hh.1

theorem withDots_spec (hs : Inv S.skeleton.cells) (cs : List C) :
    ∃ ds, S.HasDots (S.withDots cs) ds ∧ ds.Nodup ∧ ds.length ≤ cs.length ∧
      ∀ c, c ∈ ds ↔ c ∈ cs ∧ S.skeleton.cells.getCellType c = .empty ∧ S.skeleton.defective c = false := by
  obtain ⟨ds, h1, h2, h3, h4⟩ := addDots (cs := cs) (hasDots_nil hs) (by simp) (by simp)
  refine ⟨ds, h1, h2, by simpa using h3, fun c => ?_⟩
  rw [h4]; simp

/-! ## The canvas -/

/-- The cells of a layout are logic dots at `ds`, and nothing else. -/
structure OnlyLogic (l : Lyt C D) (P : C → Prop) : Prop where
  inv : Inv l.cells
  cell : ∀ c, l.cells.getCellType c = .logic ∧ P c ∨ l.cells.getCellType c = .empty ∧ ¬ P c

theorem OnlyLogic.assign {l : Lyt C D} {P : C → Prop} (h : OnlyLogic l P) (c : C) :
    OnlyLogic (l.assign c .logic) (fun k => P k ∨ k = c) := by
  refine ⟨inv_assign h.inv _ _, fun k => ?_⟩
  rw [type_assign]
  by_cases e : k = c
  · left; simp [e]
  · simp only [e, if_false, or_false]; exact h.cell k

theorem OnlyLogic.congr {l : Lyt C D} {P Q : C → Prop} (h : OnlyLogic l P) (e : ∀ c, P c ↔ Q c) : OnlyLogic l Q :=
  ⟨h.inv, fun c => by rw [← e]; exact h.cell c⟩

theorem canvasDots_spec {cs : List C} : ∀ {l : Lyt C D} {P : C → Prop}, OnlyLogic l P →
    ((∃ c ∈ cs, S.skeleton.cells.getCellType c = .empty ∧ S.skeleton.defective c = true) → S.canvasDots cs l = none) ∧
    ((∀ c ∈ cs, S.skeleton.cells.getCellType c = .empty → S.skeleton.defective c = false) →
      ∃ l', S.canvasDots cs l = some l' ∧
        OnlyLogic l' (fun c => P c ∨ (c ∈ cs ∧ S.skeleton.cells.getCellType c = .empty))) := by
  induction cs with
  | nil =>
    intro l P h
    refine ⟨fun ⟨c, hc, _⟩ => (by cases hc), fun _ => ⟨l, rfl, h.congr fun c => by simp⟩⟩
  | cons a cs ih =>
    intro l P h
    unfold Setting.canvasDots
    by_cases h1 : S.skeleton.cells.getCellType a = .empty
    · rw [if_pos h1]
      cases h2 : S.skeleton.defective a with
      | true =>
        rw [if_pos rfl]
        refine ⟨fun _ => rfl, fun hf => ?_⟩
        rw [hf a (.head _) h1] at h2; cases h2
      | false =>
        rw [if_neg (by simp)]
        obtain ⟨i1, i2⟩ := ih (h.assign a)
        refine ⟨?_, fun hf => ?_⟩
        · rintro ⟨c, hc, h3, h4⟩
          rcases List.mem_cons.1 hc with e | hc
          · rw [e, h2] at h4; cases h4
          · exact i1 ⟨c, hc, h3, h4⟩
        · obtain ⟨l', e, hl⟩ := i2 fun c hc => hf c (.tail _ hc)
          refine ⟨l', e, hl.congr fun c => ?_⟩
          rw [List.mem_cons]
          constructor
          · rintro ((h | e) | ⟨h3, h4⟩)
            · exact .inl h
            · exact .inr ⟨.inl e, e ▸ h1⟩
            · exact .inr ⟨.inr h3, h4⟩
          · rintro (h | ⟨e | h3, h4⟩)
            · exact .inl (.inl h)
            · exact .inl (.inr e)
            · exact .inr ⟨h3, h4⟩
    · rw [if_neg h1]
      obtain ⟨i1, i2⟩ := ih h
      refine ⟨?_, fun hf => ?_⟩
      · rintro ⟨c, hc, h3, h4⟩
        rcases List.mem_cons.1 hc with e | hc
        · exact absurd (e ▸ h3) h1
        · exact i1 ⟨c, hc, h3, h4⟩
      · obtain ⟨l', e, hl⟩ := i2 fun c hc => hf c (.tail _ hc)
        refine ⟨l', e, hl.congr fun c => ?_⟩
        rw [List.mem_cons]
        constructor
        · rintro (h | ⟨h3, h4⟩)
          · exact .inl h
          · exact .inr ⟨.inr h3, h4⟩
        · rintro (h | ⟨e | h3, h4⟩)
          · exact .inl h
          · exact absurd (e ▸ h4) h1
          · exact .inr ⟨h3, h4⟩

theorem onlyLogic_blank : OnlyLogic (blank : Lyt C D) (fun _ => False) :=
  ⟨inv_new sidb_lawful _ _ _, fun c => .inr ⟨rfl, id⟩⟩

theorem onlyLogic_foldl {f : C → Bool} {cs : List C} : ∀ {l : Lyt C D} {P : C → Prop}, OnlyLogic l P →
    OnlyLogic (cs.foldl (fun l c => if f c then l.assign c .logic else l) l) (fun c => P c ∨ (c ∈ cs ∧ f c = true)) := by
  induction cs with
  | nil => intro l P h; exact h.congr fun c => by simp
  | cons a cs ih =>
    intro l P h
    rw [List.foldl_cons]
    by_cases ha : f a = true
    · rw [if_pos ha]
      refine (ih (h.assign a)).congr fun c => ?_
      rw [List.mem_cons]
      constructor
      · rintro ((h | e) | ⟨h3, h4⟩)
        · exact .inl h
        · exact .inr ⟨.inl e, e ▸ ha⟩
        · exact .inr ⟨.inr h3, h4⟩
      · rintro (h | ⟨e | h3, h4⟩)
        · exact .inl (.inl h)
        · exact .inl (.inr e)
        · exact .inr ⟨h3, h4⟩
    · rw [if_neg ha]
      refine (ih h).congr fun c => ?_
      rw [List.mem_cons]
      constructor
      · rintro (h | ⟨h3, h4⟩)
        · exact .inl h
        · exact .inr ⟨.inr h3, h4⟩
      · rintro (h | ⟨e | h3, h4⟩)
        · exact .inl h
        · exact absurd (e ▸ h4) ha
        · exact .inr ⟨h3, h4⟩

theorem canvasLayout_spec (hs : Inv S.skeleton.cells) (cs : List C) :
    ((∃ c ∈ cs, S.skeleton.cells.getCellType c = .empty ∧ S.skeleton.defective c = true) → S.canvasLayout cs = none) ∧
    ((∀ c ∈ cs, S.skeleton.cells.getCellType c = .empty → S.skeleton.defective c = false) →
      ∃ l, S.canvasLayout cs = some l ∧ OnlyLogic l (fun c =>
        (c ∈ cs ∧ S.skeleton.cells.getCellType c = .empty) ∨ S.skeleton.cells.getCellType c = .logic)) := by
  obtain ⟨h1, h2⟩ := canvasDots_spec (S := S) (cs := cs) onlyLogic_blank
  refine ⟨fun h => by unfold Setting.canvasLayout; rw [h1 h]; rfl, fun h => ?_⟩
  obtain ⟨l, e, hl⟩ := h2 h
  refine ⟨_, by unfold Setting.canvasLayout; rw [e]; rfl, ?_⟩
  have := onlyLogic_foldl (f := fun c => decide (S.skeleton.cells.getCellType c = .logic)) (cs := S.skeleton.cells.cells) hl
  simp only [decide_eq_true_eq] at this
  refine this.congr fun c => ?_
  constructor
  · rintro ((h | h) | ⟨_, h⟩)
    · exact absurd h id
    · exact .inl h
    · exact .inr h
  · rintro (h | h)
    · exact .inl (.inr h)
    · exact .inr ⟨(occupied_iff hs c).2 (by rw [h]; simp), h⟩

theorem candidate_spec (hs : Inv S.skeleton.cells) {l : Lyt C D} {P : C → Prop} (h : OnlyLogic l P) :
    Inv (S.candidate l).cells ∧ (S.candidate l).defects = S.skeleton.defects ∧
    ∀ c, (P c → (S.candidate l).cells.getCellType c = .logic) ∧
      (¬ P c → (S.candidate l).cells.getCellType c = S.skeleton.cells.getCellType c) := by
  have key : ∀ (cs : List C) (k : Lyt C D), Inv k.cells →
      Inv (cs.foldl (fun l c => l.assign c .logic) k).cells ∧
      (cs.foldl (fun l c => l.assign c .logic) k).defects = k.defects ∧
      ∀ c, (c ∈ cs → (cs.foldl (fun l c => l.assign c .logic) k).cells.getCellType c = .logic) ∧
        (c ∉ cs → (cs.foldl (fun l c => l.assign c .logic) k).cells.getCellType c = k.cells.getCellType c) := by
    intro cs
    induction cs with
    | nil => intro k hk; exact ⟨hk, rfl, fun c => ⟨fun h => (by cases h), fun _ => rfl⟩⟩
    | cons a cs ih =>
      intro k hk
      obtain ⟨i1, i2, i3⟩ := ih (k.assign a .logic) (inv_assign hk _ _)
      refine ⟨i1, i2, fun c => ⟨fun hc => ?_, fun hc => ?_⟩⟩
      · rw [List.foldl_cons]
        by_cases hcs : c ∈ cs
        · exact (i3 c).1 hcs
        · rw [(i3 c).2 hcs, type_assign]
          rcases List.mem_cons.1 hc with e | hc
          · simp [e]
          · exact absurd hc hcs
      · rw [List.foldl_cons]
        simp only [List.mem_cons, not_or] at hc
        rw [(i3 c).2 hc.2, type_assign, if_neg hc.1]
  obtain ⟨k1, k2, k3⟩ := key l.cells.cells S.skeleton hs
  refine ⟨k1, k2, fun c => ⟨fun hp => (k3 c).1 ((occupied_iff h.inv c).2 ?_), fun hp => (k3 c).2 fun hc => ?_⟩⟩
  · rcases h.cell c with h | h
    · rw [h.1]; simp
    · exact absurd hp h.2
  · rcases h.cell c with h' | h'
    · exact hp h'.2
    · exact (occupied_iff h.inv c).1 hc h'.1

/-- The layout that is analysed for a canvas is the skeleton with dots. -/
theorem candidate_hasDots (hs : Inv S.skeleton.cells) {cs : List C} {l : Lyt C D} (e : S.canvasLayout cs = some l) :
    ∃ ds, S.HasDots (S.candidate l) ds ∧ ds.Nodup ∧ ds.length ≤ cs.length ∧
      (∀ c, c ∈ ds ↔ c ∈ cs ∧ S.skeleton.cells.getCellType c = .empty) ∧ (∀ c ∈ ds, S.skeleton.defective c = false) ∧
      (ds ≠ [] → l.cells.isEmpty = false) := by
  obtain ⟨h1, h2⟩ := canvasLayout_spec (S := S) hs cs
  have hdef : ∀ c ∈ cs, S.skeleton.cells.getCellType c = .empty → S.skeleton.defective c = false := by
    intro c hc he
    cases hd : S.skeleton.defective c with
    | false => rfl
    | true => rw [h1 ⟨c, hc, he, hd⟩] at e; cases e
  obtain ⟨l', e', hl⟩ := h2 hdef
  rw [e] at e'
  obtain rfl : l = l' := Option.some.inj e'
  obtain ⟨c1, c2, c3⟩ := candidate_spec hs hl
  have hmem : ∀ c, c ∈ (cs.filter (fun c => S.skeleton.cells.getCellType c = .empty)).dedup ↔
      c ∈ cs ∧ S.skeleton.cells.getCellType c = .empty := by
    intro c; simp [List.mem_dedup, List.mem_filter]
  refine ⟨(cs.filter (fun c => S.skeleton.cells.getCellType c = .empty)).dedup, ⟨c1, c2, fun c => ?_⟩,
    List.nodup_dedup _, ?_, hmem, ?_, ?_⟩
  · by_cases hc : c ∈ cs ∧ S.skeleton.cells.getCellType c = .empty
    · rw [if_pos ((hmem c).2 hc)]; exact (c3 c).1 (.inl hc)
    · rw [if_neg (fun h => hc ((hmem c).1 h))]
      by_cases hlog : S.skeleton.cells.getCellType c = .logic
      · rw [hlog]; exact (c3 c).1 (.inr hlog)
      · exact (c3 c).2 (by rintro (h | h); exacts [hc h, hlog h])
  · exact Nat.le_trans (List.dedup_sublist _).length_le (List.length_filter_le _ _)
  · intro c hc
    exact hdef c ((hmem c).1 hc).1 ((hmem c).1 hc).2
  · intro hne
    obtain ⟨c, hc⟩ := List.exists_mem_of_ne_nil _ hne
    rcases hl.cell c with h | h
    · have : c ∈ l.cells.cells := (occupied_iff hl.inv c).2 (by rw [h.1]; simp)
      unfold State.isEmpty
      unfold State.cells at this
      cases ht : l.cells.types with
      | nil => rw [ht] at this; cases this
      | cons _ _ => rfl
    · exact absurd (.inl ((hmem c).1 hc)) h.2

/-! ## Combinations -/

theorem pick_length (is : List Nat) : (S.pick is).length ≤ is.length := List.length_filterMap_le _ _

theorem mem_pick {is : List Nat} {c : C} : c ∈ S.pick is ↔ ∃ i ∈ is, S.canvas[i]? = some c := by
  unfold Setting.pick; rw [List.mem_filterMap]

theorem pick_mem {is : List Nat} {c : C} (h : c ∈ S.pick is) : c ∈ S.canvas := by
  obtain ⟨i, _, e⟩ := mem_pick.1 h; exact List.mem_of_getElem? e

theorem pick_spec (hc : S.canvas.Nodup) (hk : 1 ≤ S.number) {is : List Nat} (h : is ∈ S.combinations) :
    (S.pick is).Nodup ∧ (S.pick is).length = S.number := by
  obtain ⟨h1, h2, h3⟩ := ((C28_combinations_exact S.number S.canvas.length hk).1 is).1 h
  have hlen : ∀ js : List Nat, (∀ x ∈ js, x < S.canvas.length) → (S.pick js).length = js.length := by
    intro js
    induction js with
    | nil => intro _; rfl
    | cons j js ih =>
      intro hj
      unfold Setting.pick at ih ⊢
      rw [List.filterMap_cons, List.getElem?_eq_getElem (hj j (.head _))]
      simp [ih fun x hx => hj x (.tail _ hx)]
  refine ⟨?_, by rw [hlen is h3, h1]⟩
  unfold Setting.pick
  refine List.Nodup.filterMap ?_ (h2.imp fun h => Nat.ne_of_lt h)
  intro i j c ei ej
  simp only [Option.mem_def] at ei ej
  obtain ⟨hi, e1⟩ := List.getElem?_eq_some_iff.1 ei
  obtain ⟨hj, e2⟩ := List.getElem?_eq_some_iff.1 ej
  exact (List.Nodup.getElem_inj_iff hc).1 (e1.trans e2.symm)

theorem pick_onto (hk : 1 ≤ S.number) (hc : S.canvas.Nodup) {ds : List C} (hn : ds.Nodup) (hl : ds.length = S.number)
    (hs : ∀ c ∈ ds, c ∈ S.canvas) : ∃ is ∈ S.combinations, ∀ c, c ∈ S.pick is ↔ c ∈ ds := by
  let is := (List.range S.canvas.length).filter (fun i => decide (∃ c ∈ ds, S.canvas[i]? = some c))
  have hmem : ∀ c, c ∈ S.pick is ↔ c ∈ ds := by
    intro c
    rw [mem_pick]
    constructor
    · rintro ⟨i, hi, e⟩
      obtain ⟨d, hd, e'⟩ := of_decide_eq_true (List.mem_filter.1 hi).2
      rw [e] at e'
      exact (Option.some.inj e') ▸ hd
    · intro h
      obtain ⟨i, e⟩ := List.getElem?_of_mem (hs c h)
      refine ⟨i, List.mem_filter.2 ⟨List.mem_range.2 (List.getElem?_eq_some_iff.1 e).1, decide_eq_true ⟨c, h, e⟩⟩, e⟩
  have hlt : ∀ i ∈ is, i < S.canvas.length := fun i hi => List.mem_range.1 (List.mem_filter.1 hi).1
  have hsorted : is.Pairwise (· < ·) := List.Pairwise.filter _ List.pairwise_lt_range
  refine ⟨is, ?_, hmem⟩
  refine ((C28_combinations_exact S.number S.canvas.length hk).1 is).2 ⟨?_, hsorted, hlt⟩
  have hnp : (S.pick is).Nodup := by
    unfold Setting.pick
    refine List.Nodup.filterMap ?_ (hsorted.imp fun h => Nat.ne_of_lt h)
    intro i j c ei ej
    simp only [Option.mem_def] at ei ej
    obtain ⟨hi, e1⟩ := List.getElem?_eq_some_iff.1 ei
    obtain ⟨hj, e2⟩ := List.getElem?_eq_some_iff.1 ej
    exact (List.Nodup.getElem_inj_iff hc).1 (e1.trans e2.symm)
  have hp : (S.pick is).Perm ds := (List.perm_ext_iff_of_nodup hnp hn).2 hmem
  have hlen : ∀ js : List Nat, (∀ x ∈ js, x < S.canvas.length) → (S.pick js).length = js.length := by
    intro js
    induction js with
    | nil => intro _; rfl
    | cons j js ih =>
      intro hj
      unfold Setting.pick at ih ⊢
      rw [List.filterMap_cons, List.getElem?_eq_getElem (hj j (.head _))]
      simp [ih fun x hx => hj x (.tail _ hx)]
  rw [← hlen is hlt, hp.length_eq, hl]

theorem lex_irrefl : ∀ l : List Nat, ¬ List.Lex (· < ·) l l
  | [], h => by cases h
  | a :: l, h => by
    cases h with
    | rel h => exact Nat.lt_irrefl _ h
    | cons h => exact lex_irrefl l h

theorem combinations_nodup : S.combinations.Nodup := by
  have := C28_combinations_sorted S.number S.canvas.length
  exact this.imp fun {a b} h e => by
    subst e
    exact lex_irrefl a h

/-- Different combinations give different positions. -/
theorem pick_ne (hc : S.canvas.Nodup) (hk : 1 ≤ S.number) {is js : List Nat} (hi : is ∈ S.combinations)
    (hj : js ∈ S.combinations) (hne : is ≠ js) : ∃ c, c ∈ S.pick is ∧ c ∉ S.pick js := by
  obtain ⟨i1, i2, i3⟩ := ((C28_combinations_exact S.number S.canvas.length hk).1 is).1 hi
  obtain ⟨j1, j2, j3⟩ := ((C28_combinations_exact S.number S.canvas.length hk).1 js).1 hj
  by_contra hcon
  simp only [not_exists, not_and, not_not] at hcon
  have hsub : ∀ i ∈ is, i ∈ js := by
    intro i h
    have hlt := i3 i h
    obtain ⟨j, hj', e⟩ := mem_pick.1 (hcon (S.canvas[i]) (mem_pick.2 ⟨i, h, List.getElem?_eq_getElem hlt⟩))
    obtain ⟨hlt', e'⟩ := List.getElem?_eq_some_iff.1 e
    have : j = i := (List.Nodup.getElem_inj_iff hc).1 e'
    exact this ▸ hj'
  have hperm : is.Perm js :=
    (List.Nodup.subperm (i2.imp fun h => Nat.ne_of_lt h) hsub).perm_of_length_le (by omega)
  exact hne (hperm.eq_of_pairwise (fun a b _ _ h1 h2 => absurd h1 (by omega)) i2 j2)

/-! ## From candidates to results -/

/-- `F` gives the layout of every placement. -/
theorem covers {F : List C → Option (Lyt C D)} (hc : S.canvas.Nodup) (hk : 1 ≤ S.number)
    (hF : ∀ cs, cs.Nodup → cs.length = S.number → (∀ c ∈ cs, c ∈ S.canvas) →
      (S.Placement cs ∧ ∃ l, F cs = some l ∧ S.HasDots l cs) ∨ (¬ S.Placement cs ∧ F cs = none)) :
    S.AllGates (fun _ => true) (S.combinations.filterMap (fun is => F (S.pick is))) := by
  have hpl : ∀ is ∈ S.combinations, ∀ l, F (S.pick is) = some l → S.Placement (S.pick is) ∧ S.HasDots l (S.pick is) := by
    intro is his l e
    obtain ⟨p1, p2⟩ := pick_spec hc hk his
    rcases hF _ p1 p2 (fun c => pick_mem) with ⟨h1, l', e', h2⟩ | ⟨_, e'⟩
    · rw [e] at e'; exact ⟨h1, (Option.some.inj e') ▸ h2⟩
    · rw [e] at e'; cases e'
  refine ⟨fun l hl => ⟨rfl, ?_⟩, fun ds l hp hd _ => ?_, ?_⟩
  · obtain ⟨is, his, e⟩ := List.mem_filterMap.1 hl
    exact ⟨_, hpl is his l e⟩
  · obtain ⟨is, his, hmem⟩ := pick_onto hk hc hp.nodup hp.number fun c hc => (hp.free c hc).1
    obtain ⟨p1, p2⟩ := pick_spec hc hk his
    rcases hF _ p1 p2 (fun c => pick_mem) with ⟨h1, l', e', h2⟩ | ⟨hn, _⟩
    · exact ⟨l', List.mem_filterMap.2 ⟨is, his, e'⟩, HasDots.congr h2 hmem⟩
    · exact absurd ⟨p1, p2, fun c hc => hp.free c ((hmem c).1 hc)⟩ hn
  · rw [List.pairwise_filterMap]
    refine (List.Pairwise.and_mem.1 (combinations_nodup (S := S))).imp ?_
    rintro is js ⟨hi, hj, hne⟩ l el l' el'
    obtain ⟨hp1, hd1⟩ := hpl is hi l el
    obtain ⟨hp2, hd2⟩ := hpl js hj l' el'
    obtain ⟨c, c1, c2⟩ := pick_ne hc hk hi hj hne
    refine ⟨c, ?_⟩
    rw [hd1.cell, hd2.cell, if_pos c1, if_neg c2, (hp1.free c c1).2.1]
    simp

theorem AllGates.filter {cs out : List (Lyt C D)} {good : Lyt C D → Bool} (hg : OfLayout good)
    (h : S.AllGates (fun _ => true) cs) (hp : out.Perm (cs.filter good)) : S.AllGates good out := by
  refine ⟨fun l hl => ?_, fun ds l h1 h2 h3 => ?_, ?_⟩
  · obtain ⟨m1, m2⟩ := List.mem_filter.1 (hp.mem_iff.1 hl)
    exact ⟨m2, (h.sound l m1).2⟩
  · obtain ⟨l', m, h4⟩ := h.complete ds l h1 h2 rfl
    exact ⟨l', hp.mem_iff.2 (List.mem_filter.2 ⟨m, by rw [HasDots.same h4 h2 hg]; exact h3⟩), h4⟩
  · refine (hp.pairwise_iff ?_).2 (h.once.filter _)
    rintro l l' ⟨c, hc⟩
    exact ⟨c, hc.symm⟩

theorem SomeGates.filter {cs out : List (Lyt C D)} {good : Lyt C D → Bool} (hg : OfLayout good)
    (h : S.AllGates (fun _ => true) cs) (hp : out.Subperm (cs.filter good)) (hl : out.length ≤ S.threads)
    (he : out = [] → cs.filter good = []) : S.SomeGates good out := by
  have hall := AllGates.filter hg h (List.Perm.refl _)
  refine ⟨fun l hm => hall.sound l (hp.subset hm), hl, ?_, ?_⟩
  · rintro ⟨ds, l, h1, h2, h3⟩ hout
    obtain ⟨l', m, _⟩ := hall.complete ds l h1 h2 h3
    rw [he hout] at m; cases m
  · obtain ⟨l', hp', hsub⟩ := hp
    refine (hp'.symm.pairwise_iff ?_).2 (hall.once.sublist hsub)
    rintro l l' ⟨c, hc⟩
    exact ⟨c, hc.symm⟩

end
end Verif.SidbDesign
