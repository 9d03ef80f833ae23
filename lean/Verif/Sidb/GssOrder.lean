import Verif.Sidb.GssWitness
import Mathlib.Algebra.BigOperators.Group.List.Basic
import Mathlib.Tactic.Linarith

/-!
# Ordered sets of potential projections, sums of bounds, merged charge spaces
-/
namespace Verif.Sidb.Gss

open Verif.Sidb

/-- Ordered by potential. -/
def Sorted (o : List Proj) : Prop := o.Pairwise fun a b => a.pot ≤ b.pot

theorem mem_insertProj {p q : Proj} {o : List Proj} : q ∈ insertProj p o ↔ q = p ∨ q ∈ o := by
  induction o with
  | nil => simp [insertProj]
  | cons a t ih => simp only [insertProj]; split_ifs with h1 h2 <;> simp [ih] <;> grind

theorem lt_le {p q : Proj} (h : p.lt q = true) : p.pot ≤ q.pot := by
  simp only [Proj.lt, Bool.or_eq_true, decide_eq_true_eq, Bool.and_eq_true] at h
  rcases h with h | h
  · exact h.le
  · exact h.1.le

theorem not_lt_le {p q : Proj} (h : ¬ p.lt q = true) : q.pot ≤ p.pot := by
  simp only [Proj.lt, Bool.or_eq_true, decide_eq_true_eq, Bool.and_eq_true, not_or] at h
  exact not_lt.mp h.1

theorem insertProj_sorted {p : Proj} {o : List Proj} (h : Sorted o) : Sorted (insertProj p o) := by
  unfold Sorted at *
  induction o with
  | nil => simp [insertProj]
  | cons a t ih =>
    rw [List.pairwise_cons] at h
    simp only [insertProj]
    split_ifs with h1 h2
    · rw [List.pairwise_cons, List.pairwise_cons]
      refine ⟨?_, h⟩
      intro y hy
      rcases List.mem_cons.mp hy with rfl | hy
      · exact lt_le h1
      · exact (lt_le h1).trans (h.1 y hy)
    · rw [List.pairwise_cons]; exact h
    · rw [List.pairwise_cons]
      refine ⟨?_, ih h.2⟩
      intro y hy
      rcases mem_insertProj.mp hy with rfl | hy
      · exact not_lt_le h1
      · exact h.1 y hy

theorem foldProj_spec (l o : List Proj) (hs : Sorted o) :
    Sorted (l.foldl (fun acc p => insertProj p acc) o) ∧
      ∀ p, p ∈ l.foldl (fun acc p => insertProj p acc) o ↔ p ∈ l ∨ p ∈ o := by
  induction l generalizing o with
  | nil => exact ⟨hs, by simp⟩
  | cons a t ih =>
    have h := ih (insertProj a o) (insertProj_sorted hs)
    refine ⟨h.1, fun x => ?_⟩
    rw [List.foldl_cons, h.2 x, mem_insertProj, List.mem_cons]
    tauto

theorem ordered_sorted (l : List Proj) : Sorted (ordered l) := (foldProj_spec l [] List.Pairwise.nil).1

theorem mem_ordered {l : List Proj} {p : Proj} : p ∈ ordered l ↔ p ∈ l := by
  unfold ordered
  rw [(foldProj_spec l [] List.Pairwise.nil).2 p]
  simp

theorem find_first {o : List Proj} {f : Proj → Bool} {p : Proj} (hs : Sorted o) (hp : p ∈ o) (hf : f p = true) :
    ∃ q, o.find? f = some q ∧ q ∈ o ∧ f q = true ∧ q.pot ≤ p.pot := by
  induction o with
  | nil => cases hp
  | cons a t ih =>
    have hs' := hs
    unfold Sorted at hs
    rw [List.pairwise_cons] at hs
    rw [List.find?_cons]
    cases ha : f a with
    | true =>
      refine ⟨a, rfl, List.mem_cons_self, ha, ?_⟩
      rcases List.mem_cons.mp hp with rfl | hp
      · exact le_refl _
      · exact hs.1 p hp
    | false =>
      rcases List.mem_cons.mp hp with rfl | hp
      · rw [ha] at hf; cases hf
      · obtain ⟨q, h1, h2, h3⟩ := ih hs.2 hp
        exact ⟨q, h1, List.mem_cons_of_mem _ h2, h3⟩

theorem find_last {o : List Proj} {f : Proj → Bool} {p : Proj} (hs : Sorted o) (hp : p ∈ o) (hf : f p = true) :
    ∃ q, o.reverse.find? f = some q ∧ q ∈ o ∧ f q = true ∧ p.pot ≤ q.pot := by
  have key : ∀ (l : List Proj), l.Pairwise (fun a b => b.pot ≤ a.pot) → p ∈ l →
      ∃ q, l.find? f = some q ∧ q ∈ l ∧ f q = true ∧ p.pot ≤ q.pot := by
    intro l hl hm
    induction l with
    | nil => cases hm
    | cons a t ih =>
      rw [List.pairwise_cons] at hl
      rw [List.find?_cons]
      cases ha : f a with
      | true =>
        refine ⟨a, rfl, List.mem_cons_self, ha, ?_⟩
        rcases List.mem_cons.mp hm with rfl | hp
        · exact le_refl _
        · exact hl.1 p hp
      | false =>
        rcases List.mem_cons.mp hm with rfl | hp
        · rw [ha] at hf; cases hf
        · obtain ⟨q, h1, h2, h3⟩ := ih hl.2 hp
          exact ⟨q, h1, List.mem_cons_of_mem _ h2, h3⟩
  obtain ⟨q, h1, h2, h3⟩ := key o.reverse (List.pairwise_reverse.mpr hs) (List.mem_reverse.mpr hp)
  exact ⟨q, h1, List.mem_reverse.mp h2, h3⟩

theorem lowerFor_spec {o : List Proj} {m : Multiset} {p : Proj} (hs : Sorted o) (hp : p ∈ o) (hm : p.ms = m) :
    lowerFor o m ≤ p.pot ∧ ∃ q ∈ o, q.ms = m ∧ q.pot = lowerFor o m := by
  obtain ⟨q, h1, h2, h3, h4⟩ := find_first (f := fun p => p.ms = m) hs hp (by simpa using hm)
  unfold lowerFor
  rw [h1]
  exact ⟨h4, q, h2, by simpa using h3, rfl⟩

theorem upperFor_spec {o : List Proj} {m : Multiset} {p : Proj} (hs : Sorted o) (hp : p ∈ o) (hm : p.ms = m) :
    p.pot ≤ upperFor o m ∧ ∃ q ∈ o, q.ms = m ∧ q.pot = upperFor o m := by
  obtain ⟨q, h1, h2, h3, h4⟩ := find_last (f := fun p => p.ms = m) hs hp (by simpa using hm)
  unfold upperFor
  rw [h1]
  exact ⟨h4, q, h2, by simpa using h3, rfl⟩

theorem lowest_spec {o : List Proj} {p : Proj} (hs : Sorted o) (hp : p ∈ o) :
    lowest o ≤ p.pot ∧ ∃ q ∈ o, q.pot = lowest o := by
  cases o with
  | nil => cases hp
  | cons a t =>
    unfold Sorted at hs
    rw [List.pairwise_cons] at hs
    refine ⟨?_, a, List.mem_cons_self, rfl⟩
    rcases List.mem_cons.mp hp with rfl | hp
    · exact le_refl _
    · exact hs.1 p hp

theorem highest_eq (o : List Proj) : highest o = (o.reverse.head?.map Proj.pot).getD 0 := by
  unfold highest
  rw [List.head?_reverse]

theorem highest_spec {o : List Proj} {p : Proj} (hs : Sorted o) (hp : p ∈ o) :
    p.pot ≤ highest o ∧ ∃ q ∈ o, q.pot = highest o := by
  obtain ⟨q, h1, h2, _, h4⟩ := find_last (f := fun _ => true) hs hp rfl
  have : o.reverse.head? = some q := by
    cases h : o.reverse with
    | nil => rw [h] at h1; cases h1
    | cons a t => rw [h] at h1; simpa using h1
  rw [highest_eq, this]
  exact ⟨h4, q, h2, rfl⟩

theorem mem_without {o : List Proj} {m : Multiset} {p : Proj} : p ∈ without o m ↔ p ∈ o ∧ p.ms ≠ m := by
  simp [without]

theorem without_sorted {o : List Proj} {m : Multiset} (h : Sorted o) : Sorted (without o m) := List.Pairwise.filter _ h

theorem shift_core {l : List Proj} {m : Multiset} {d : Rat}
    (h : (match l.head? with
      | none => none
      | some h => if h.ms = m then (l.find? fun p => p.ms ≠ m).map fun q => q.pot - h.pot else some 0) = some d) :
    ((l.filter fun p => p.ms ≠ m).head?.map Proj.pot).getD 0 = (l.head?.map Proj.pot).getD 0 + d ∧
      (l.filter fun p => p.ms ≠ m) ≠ [] := by
  cases l with
  | nil => cases h
  | cons a t =>
    simp only [List.head?_cons] at h
    by_cases ha : a.ms = m
    · rw [if_pos ha] at h
      rw [Option.map_eq_some_iff] at h
      obtain ⟨q, hq, rfl⟩ := h
      rw [← List.head?_filter] at hq
      rw [hq]
      refine ⟨by simp, ?_⟩
      intro e
      rw [e] at hq
      cases hq
    · rw [if_neg ha] at h
      cases h
      rw [List.filter_cons_of_pos (by simpa using ha)]
      exact ⟨by simp, by simp⟩

theorem lowerShift_spec {o : List Proj} {m : Multiset} {d : Rat} (h : lowerShift o m = some d) :
    lowest (without o m) = lowest o + d ∧ without o m ≠ [] := shift_core h

theorem upperShift_spec {o : List Proj} {m : Multiset} {d : Rat} (h : upperShift o m = some d) :
    highest (without o m) = highest o + d := by
  unfold upperShift at h
  rw [← List.head?_reverse] at h
  have := (shift_core h).1
  rw [highest_eq, highest_eq, ← this, without, List.filter_reverse]

theorem shift_core_some {l : List Proj} {m : Multiset} {p : Proj} (hp : p ∈ l) (hm : p.ms ≠ m) :
    (match l.head? with
      | none => none
      | some h => if h.ms = m then (l.find? fun (p : Proj) => p.ms ≠ m).map fun (q : Proj) => q.pot - h.pot else some 0).isSome = true := by
  cases l with
  | nil => cases hp
  | cons a t =>
    simp only [List.head?_cons]
    by_cases ha : a.ms = m
    · rw [if_pos ha]
      rw [Option.isSome_map, List.find?_isSome]
      exact ⟨p, hp, by simpa using hm⟩
    · rw [if_neg ha]; rfl

theorem lowerShift_some {o : List Proj} {m : Multiset} {p : Proj} (hp : p ∈ o) (hm : p.ms ≠ m) :
    (lowerShift o m).isSome = true := shift_core_some hp hm

theorem upperShift_some {o : List Proj} {m : Multiset} {p : Proj} (hp : p ∈ o) (hm : p.ms ≠ m) :
    (upperShift o m).isSome = true := by
  unfold upperShift
  rw [← List.head?_reverse]
  exact shift_core_some (List.mem_reverse.mpr hp) hm

/-! ## Sums -/

@[ext] theorem Bounds.ext' {a b : Bounds} (h1 : a.lo = b.lo) (h2 : a.up = b.up) : a = b := by
  cases a; cases b; simp_all

theorem Bounds.sum_eq (l : List Bounds) : Bounds.sum l = ⟨(l.map Bounds.lo).sum, (l.map Bounds.up).sum⟩ := by
  induction l with
  | nil => rfl
  | cons a t ih =>
    change a.add (Bounds.sum t) = _
    rw [ih]
    simp [Bounds.add]

theorem Bounds.sum_map {α : Type} (l : List α) (f : α → Bounds) :
    Bounds.sum (l.map f) = ⟨(l.map fun x => (f x).lo).sum, (l.map fun x => (f x).up).sum⟩ := by
  rw [Bounds.sum_eq, List.map_map, List.map_map]
  rfl

theorem sum_le_sum {α : Type} {l : List α} {f g : α → Rat} (h : ∀ x ∈ l, f x ≤ g x) : (l.map f).sum ≤ (l.map g).sum := by
  induction l with
  | nil => simp
  | cons a t ih =>
    rw [List.map_cons, List.map_cons, List.sum_cons, List.sum_cons]
    exact add_le_add (h a (by simp)) (ih fun x hx => h x (by simp [hx]))

theorem meetLo_le {l : List Rat} {x : Rat} (h : x ∈ l) : meetLo l ≤ x := by
  induction l with
  | nil => cases h
  | cons a t ih =>
    cases t with
    | nil => simp at h; rw [h]; rfl
    | cons b t =>
      change min a (meetLo (b :: t)) ≤ x
      rcases List.mem_cons.mp h with rfl | h
      · exact min_le_left _ _
      · exact (min_le_right _ _).trans (ih h)

theorem le_meetUp {l : List Rat} {x : Rat} (h : x ∈ l) : x ≤ meetUp l := by
  induction l with
  | nil => cases h
  | cons a t ih =>
    cases t with
    | nil => simp at h; rw [h]; rfl
    | cons b t =>
      change x ≤ max a (meetUp (b :: t))
      rcases List.mem_cons.mp h with rfl | h
      · exact le_max_left _ _
      · exact (ih h).trans (le_max_right _ _)

/-! ## Merged charge spaces -/

theorem mem_combinations {s : State} {cs : List Cluster} {l : List (Cluster × Multiset)} :
    l ∈ combinations s cs ↔ l.map Prod.fst = cs ∧ ∀ q ∈ l, ∃ z ∈ s.space q.1, z.ms = q.2 := by
  induction cs generalizing l with
  | nil =>
    simp only [combinations, List.mem_singleton, List.map_eq_nil_iff]
    refine ⟨?_, fun h => h.1⟩
    rintro rfl
    simp
  | cons c rest ih =>
    simp only [combinations, List.mem_flatMap, List.mem_map]
    constructor
    · rintro ⟨x, hx, k, hk, rfl⟩
      obtain ⟨h1, h2⟩ := ih.mp hk
      refine ⟨by simp [h1], ?_⟩
      intro q hq
      rcases List.mem_cons.mp hq with rfl | hq
      · exact ⟨x, hx, rfl⟩
      · exact h2 q hq
    · rintro ⟨h1, h2⟩
      cases l with
      | nil => simp at h1
      | cons q k =>
        simp only [List.map_cons, List.cons.injEq] at h1
        obtain ⟨z, hz, hzm⟩ := h2 q (by simp)
        rw [h1.1] at hz
        refine ⟨z, hz, k, ih.mpr ⟨h1.2, fun r hr => h2 r (by simp [hr])⟩, ?_⟩
        rw [hzm, ← h1.1]

theorem combinations_nodup {s : State} {cs : List Cluster} (h : ∀ c ∈ cs, ((s.space c).map ChargeState.ms).Nodup) :
    (combinations s cs).Nodup := by
  induction cs with
  | nil => simp [combinations]
  | cons c rest ih =>
    have hr := ih fun d hd => h d (by simp [hd])
    simp only [combinations]
    rw [List.nodup_flatMap]
    refine ⟨?_, ?_⟩
    · intro x _
      exact hr.map fun a b hab => by simpa using hab
    · have hc := h c (by simp)
      unfold List.Nodup at hc
      rw [List.pairwise_map] at hc
      refine hc.imp ?_
      intro a b hab
      simp only [Function.onFun]
      intro l h1 h2
      simp only [List.mem_map] at h1 h2
      obtain ⟨k1, _, rfl⟩ := h1
      obtain ⟨k2, _, h⟩ := h2
      simp only [List.cons.injEq, Prod.mk.injEq, true_and] at h
      exact hab h.1.symm

/-- What a charge space built from compositions contains. -/
structure Collects (mk : List (Cluster × Multiset) → Composition) (L : List (List (Cluster × Multiset)))
    (sp : List ChargeState) : Prop where
  nodup : (sp.map ChargeState.ms).Nodup
  from_ : ∀ x ∈ sp, ∀ y ∈ x.comps, ∃ parts ∈ L, y = mk parts ∧ x.ms = sumMs parts
  to_ : ∀ parts ∈ L, ∃ x ∈ sp, x.ms = sumMs parts ∧ mk parts ∈ x.comps
  once : ∀ x ∈ sp, (x.comps.map Composition.parts).Nodup

theorem addComposition_ms {m : Multiset} {y : Composition} {sp : List ChargeState} {x : ChargeState}
    (h : x ∈ addComposition m y sp) : x.ms = m ∨ ∃ z ∈ sp, z.ms = x.ms := by
  induction sp with
  | nil => simp [addComposition] at h; left; rw [h]
  | cons a t ih =>
    simp only [addComposition] at h
    split_ifs at h with e
    · rcases List.mem_cons.mp h with rfl | h
      · left; rfl
      · exact Or.inr ⟨x, by simp [h], rfl⟩
    · rcases List.mem_cons.mp h with rfl | h
      · exact Or.inr ⟨x, by simp, rfl⟩
      · rcases ih h with h | ⟨z, hz, e⟩
        · exact Or.inl h
        · exact Or.inr ⟨z, by simp [hz], e⟩

theorem addComposition_spec {m : Multiset} {y : Composition} {sp : List ChargeState}
    (hn : (sp.map ChargeState.ms).Nodup) :
    ((addComposition m y sp).map ChargeState.ms).Nodup ∧
    (∀ x ∈ addComposition m y sp, (x ∈ sp ∧ x.ms ≠ m) ∨ (x.ms = m ∧ ((x.comps = [y] ∧ ∀ z ∈ sp, z.ms ≠ m) ∨
      ∃ z ∈ sp, z.ms = m ∧ x.comps = z.comps ++ [y]))) ∧
    (∃ x ∈ addComposition m y sp, x.ms = m ∧ y ∈ x.comps) ∧
    (∀ z ∈ sp, ∃ x ∈ addComposition m y sp, x.ms = z.ms ∧ ∀ w ∈ z.comps, w ∈ x.comps) := by
  induction sp with
  | nil =>
    refine ⟨by simp [addComposition], ?_, ?_, ?_⟩
    · intro x hx
      simp only [addComposition, List.mem_singleton] at hx
      subst hx
      exact Or.inr ⟨rfl, Or.inl ⟨rfl, fun z hz => by cases hz⟩⟩
    · exact ⟨_, by simp [addComposition]; rfl, rfl, by simp⟩
    · intro z hz; cases hz
  | cons a t ih =>
    rw [List.map_cons, List.nodup_cons] at hn
    obtain ⟨i1, i2, i3, i4⟩ := ih hn.2
    have hnot : ∀ z ∈ t, z.ms ≠ a.ms := fun z hz e => hn.1 (e ▸ List.mem_map_of_mem hz)
    by_cases e : a.ms = m
    · have he : addComposition m y (a :: t) = ⟨m, a.comps ++ [y]⟩ :: t := by simp [addComposition, e]
      rw [he]
      refine ⟨?_, ?_, ⟨_, List.mem_cons_self, rfl, by simp⟩, ?_⟩
      · rw [List.map_cons, List.nodup_cons]
        exact ⟨by rw [← e]; exact hn.1, hn.2⟩
      · intro x hx
        rcases List.mem_cons.mp hx with rfl | hx
        · exact Or.inr ⟨rfl, Or.inr ⟨a, by simp, e, rfl⟩⟩
        · exact Or.inl ⟨by simp [hx], by rw [← e]; exact hnot x hx⟩
      · intro z hz
        rcases List.mem_cons.mp hz with rfl | hz
        · exact ⟨_, List.mem_cons_self, e.symm, fun w hw => by simp [hw]⟩
        · exact ⟨z, by simp [hz], rfl, fun w hw => hw⟩
    · have he : addComposition m y (a :: t) = a :: addComposition m y t := by simp [addComposition, e]
      rw [he]
      refine ⟨?_, ?_, ?_, ?_⟩
      · rw [List.map_cons, List.nodup_cons]
        refine ⟨?_, i1⟩
        intro h
        obtain ⟨x, hx, hxe⟩ := List.mem_map.mp h
        rcases addComposition_ms hx with h | ⟨z, hz, h⟩
        · exact e (hxe ▸ h)
        · exact hnot z hz (h.trans hxe)
      · intro x hx
        rcases List.mem_cons.mp hx with rfl | hx
        · exact Or.inl ⟨by simp, e⟩
        · rcases i2 x hx with h | ⟨h1, h2⟩
          · exact Or.inl ⟨by simp [h.1], h.2⟩
          · refine Or.inr ⟨h1, ?_⟩
            rcases h2 with ⟨h2, h3⟩ | ⟨z, hz, h⟩
            · refine Or.inl ⟨h2, ?_⟩
              intro z hz
              rcases List.mem_cons.mp hz with rfl | hz
              · exact e
              · exact h3 z hz
            · exact Or.inr ⟨z, by simp [hz], h⟩
      · obtain ⟨x, hx, h⟩ := i3
        exact ⟨x, by simp [hx], h⟩
      · intro z hz
        rcases List.mem_cons.mp hz with rfl | hz
        · exact ⟨z, by simp, rfl, fun w hw => hw⟩
        · obtain ⟨x, hx, h⟩ := i4 z hz
          exact ⟨x, by simp [hx], h⟩

theorem collects_fold {mk : List (Cluster × Multiset) → Composition} (hmk : ∀ parts, (mk parts).parts = parts)
    (L L0 : List (List (Cluster × Multiset))) (acc : List ChargeState) (h : Collects mk L0 acc) (hn : (L0 ++ L).Nodup) :
    Collects mk (L0 ++ L) (L.foldl (fun acc parts => addComposition (sumMs parts) (mk parts) acc) acc) := by
  induction L generalizing L0 acc with
  | nil => simpa using h
  | cons parts rest ih =>
    have e : L0 ++ parts :: rest = (L0 ++ [parts]) ++ rest := by simp
    rw [List.foldl_cons, e]
    rw [e] at hn
    apply ih _ _ _ hn
    obtain ⟨a1, a2, a3, a4⟩ := addComposition_spec (m := sumMs parts) (y := mk parts) h.nodup
    have hnew : parts ∉ L0 := by
      rw [List.nodup_append, List.nodup_append] at hn
      intro hm
      exact hn.1.2.2 parts hm parts (by simp) rfl
    refine ⟨a1, ?_, ?_, ?_⟩
    · intro x hx y hy
      rcases a2 x hx with ⟨h1, _⟩ | ⟨h1, ⟨h2, _⟩ | ⟨z, hz, hzm, h2⟩⟩
      · obtain ⟨p, hp, h3⟩ := h.from_ x h1 y hy
        exact ⟨p, by simp [hp], h3⟩
      · rw [h2] at hy
        simp only [List.mem_singleton] at hy
        exact ⟨parts, by simp, hy, h1⟩
      · rw [h2] at hy
        rcases List.mem_append.mp hy with hy | hy
        · obtain ⟨p, hp, h3, h4⟩ := h.from_ z hz y hy
          exact ⟨p, by simp [hp], h3, by rw [h1, ← hzm, h4]⟩
        · simp only [List.mem_singleton] at hy
          exact ⟨parts, by simp, hy, h1⟩
    · intro p hp
      rcases List.mem_append.mp hp with hp | hp
      · obtain ⟨z, hz, h1, h2⟩ := h.to_ p hp
        obtain ⟨x, hx, h3, h4⟩ := a4 z hz
        exact ⟨x, hx, h3.trans h1, h4 _ h2⟩
      · simp only [List.mem_singleton] at hp
        subst hp
        exact a3
    · intro x hx
      rcases a2 x hx with ⟨h1, _⟩ | ⟨h1, ⟨h2, _⟩ | ⟨z, hz, hzm, h2⟩⟩
      · exact h.once x h1
      · rw [h2]; simp
      · rw [h2, List.map_append, List.nodup_append]
        refine ⟨h.once z hz, by simp, ?_⟩
        intro a ha b hb
        obtain ⟨y, hy, rfl⟩ := List.mem_map.mp ha
        simp only [List.map_cons, List.map_nil, List.mem_singleton] at hb
        subst hb
        obtain ⟨p, hp, h3, _⟩ := h.from_ z hz y hy
        rw [h3, hmk, hmk]
        intro e
        exact hnew (e ▸ hp)

theorem mergedSpace_collects (E : Env) (P : Params) (s : State) (p : Cluster)
    (h : ∀ c ∈ p.children, ((s.space c).map ChargeState.ms).Nodup) :
    Collects (composition s p) ((combinations s p.children).filter (verify E P s p)) (mergedSpace E P s p) := by
  have := collects_fold (mk := composition s p) (fun _ => rfl) ((combinations s p.children).filter (verify E P s p)) [] []
    ⟨by simp, by simp, by simp, by simp⟩ (by simpa using (combinations_nodup h).filter _)
  unfold mergedSpace
  simpa using this

end Verif.Sidb.Gss
