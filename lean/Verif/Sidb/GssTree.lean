import Verif.Sidb.GssOrder

/-!
# Clusterings as cuts through a hierarchy, and which parent is merged next
-/
namespace Verif.Sidb.Gss

open Verif.Sidb

namespace Cluster

/-- The clusters of a hierarchy. -/
def subs : Cluster → List Cluster
  | leaf i => [leaf i]
  | one i => [one i, leaf i]
  | node l r => node l r :: (l.subs ++ r.subs)

/-- The clusters strictly below a cluster. -/
def strict (c : Cluster) : List Cluster := c.children.flatMap subs

theorem subs_eq (c : Cluster) : c.subs = c :: c.strict := by
  cases c <;> simp [subs, strict, children]

theorem self_mem (c : Cluster) : c ∈ c.subs := by rw [subs_eq]; simp

theorem strict_subs {c d : Cluster} (h : d ∈ c.strict) : d ∈ c.subs := by rw [subs_eq]; simp [h]

theorem count_subs {c d : Cluster} (h : d ∈ c.subs) : d.count ≤ c.count := by
  induction c with
  | leaf i => simp [subs] at h; rw [h]
  | one i => simp [subs] at h; rcases h with rfl | rfl <;> simp [count]
  | node l r hl hr =>
    simp only [subs, List.mem_cons, List.mem_append] at h
    rcases h with rfl | h | h
    · rfl
    · have := hl h; simp [count]; omega
    · have := hr h; simp [count]; omega

theorem count_child {c d : Cluster} (h : d ∈ c.children) : d.count < c.count := by
  cases c with
  | leaf i => simp [children] at h
  | one i => simp [children] at h; rw [h]; simp [count]
  | node l r => simp [children] at h; rcases h with rfl | rfl <;> simp [count] <;> omega

theorem count_strict {c d : Cluster} (h : d ∈ c.strict) : d.count < c.count := by
  obtain ⟨e, he, hd⟩ := List.mem_flatMap.mp h
  exact lt_of_le_of_lt (count_subs hd) (count_child he)

theorem child_strict {c d : Cluster} (h : d ∈ c.children) : d ∈ c.strict :=
  List.mem_flatMap.mpr ⟨d, h, self_mem d⟩

theorem subs_trans {c d e : Cluster} (h : d ∈ c.subs) (h' : e ∈ d.subs) : e ∈ c.subs := by
  induction c with
  | leaf i => simp [subs] at h; rw [h] at h'; exact h'
  | one i =>
    simp [subs] at h
    rcases h with rfl | rfl
    · exact h'
    · simp [subs] at h'; simp [subs, h']
  | node l r hl hr =>
    simp only [subs, List.mem_cons, List.mem_append] at h
    rcases h with rfl | h | h
    · exact h'
    · have := hl h; simp [subs, this]
    · have := hr h; simp [subs, this]

theorem strict_child {c d e : Cluster} (h : d ∈ c.strict) (he : e ∈ d.children) : e ∈ c.strict := by
  obtain ⟨k, hk, hd⟩ := List.mem_flatMap.mp h
  exact List.mem_flatMap.mpr ⟨k, hk, subs_trans hd (strict_subs (child_strict he))⟩

theorem strict_of_subs_child {c d e : Cluster} (h : d ∈ c.subs) (he : e ∈ d.children) : e ∈ c.strict := by
  rw [subs_eq] at h
  rcases List.mem_cons.mp h with rfl | h
  · exact child_strict he
  · exact strict_child h he

theorem sidbs_sublist {c d : Cluster} (h : d ∈ c.subs) : d.sidbs.Sublist c.sidbs := by
  induction c with
  | leaf i => simp [subs] at h; rw [h]
  | one i => simp [subs] at h; rcases h with rfl | rfl <;> simp [sidbs]
  | node l r hl hr =>
    simp only [subs, List.mem_cons, List.mem_append] at h
    rcases h with rfl | h | h
    · rfl
    · exact (hl h).trans (List.sublist_append_left _ _)
    · exact (hr h).trans (List.sublist_append_right _ _)

theorem sidbs_ne (c : Cluster) : c.sidbs ≠ [] := by
  induction c with
  | leaf i => simp [sidbs]
  | one i => simp [sidbs]
  | node l r hl hr => simp [sidbs, hl]

theorem sidbs_children {c : Cluster} (h : c.children ≠ []) : c.sidbs = c.children.flatMap sidbs := by
  cases c <;> simp [children, sidbs] at *

theorem size_pos (c : Cluster) : 0 < c.size := List.length_pos_iff.mpr (sidbs_ne c)

theorem size_subs {c d : Cluster} (h : d ∈ c.subs) : d.size ≤ c.size := (sidbs_sublist h).length_le

theorem size_node (l r : Cluster) : (node l r).size = l.size + r.size := by simp [size, sidbs]

theorem parent_spec {t c p : Cluster} (h : t.parent? c = some p) : p ∈ t.subs ∧ c ∈ p.children := by
  induction t with
  | leaf i => simp [parent?] at h
  | one i =>
    simp only [parent?] at h
    split_ifs at h with e
    cases h
    exact ⟨self_mem _, by simp [children, e]⟩
  | node l r hl hr =>
    simp only [parent?] at h
    split_ifs at h with e
    · cases h
      exact ⟨self_mem _, by simpa [children] using e⟩
    · rw [Option.or_eq_some_iff] at h
      rcases h with h | ⟨_, h⟩
      · exact ⟨by simp [subs, (hl h).1], (hl h).2⟩
      · exact ⟨by simp [subs, (hr h).1], (hr h).2⟩

end Cluster

open Cluster

theorem subs_apart {l r c : Cluster} (hn : (Cluster.node l r).sidbs.Nodup) (h : c ∈ l.subs) (h' : c ∈ r.subs) : False := by
  obtain ⟨x, hx⟩ := List.exists_mem_of_ne_nil _ (sidbs_ne c)
  have := List.disjoint_of_nodup_append (by simpa [sidbs] using hn)
  exact this ((sidbs_sublist h).subset hx) ((sidbs_sublist h').subset hx)

theorem parent_left {l r c p : Cluster} (hn : (Cluster.node l r).sidbs.Nodup) (h : l.parent? c = some p) :
    (Cluster.node l r).parent? c = some p := by
  have hs := parent_spec h
  have hc : c ∈ l.strict := strict_of_subs_child hs.1 hs.2
  simp only [parent?]
  rw [if_neg, h]
  · rfl
  · rintro (rfl | rfl)
    · exact absurd (count_strict hc) (lt_irrefl _)
    · exact subs_apart hn (strict_subs hc) (self_mem _)

theorem parent_right {l r c p : Cluster} (hn : (Cluster.node l r).sidbs.Nodup) (h : r.parent? c = some p) :
    (Cluster.node l r).parent? c = some p := by
  have hs := parent_spec h
  have hc : c ∈ r.strict := strict_of_subs_child hs.1 hs.2
  simp only [parent?]
  rw [if_neg, h]
  · cases e : l.parent? c with
    | none => rfl
    | some q =>
      have hs' := parent_spec e
      exact absurd (subs_apart hn (strict_subs (strict_of_subs_child hs'.1 hs'.2)) (strict_subs hc)) id
  · rintro (rfl | rfl)
    · exact subs_apart hn (self_mem _) (strict_subs hc)
    · exact absurd (count_strict hc) (lt_irrefl _)

theorem parent_of_left {l r c p : Cluster} (hn : (Cluster.node l r).sidbs.Nodup) (hc : c ∈ l.subs)
    (h : (Cluster.node l r).parent? c = some p) : (c = l ∧ p = .node l r) ∨ l.parent? c = some p := by
  simp only [parent?] at h
  split_ifs at h with e
  · cases h
    rcases e with rfl | rfl
    · exact Or.inl ⟨rfl, rfl⟩
    · exact absurd (subs_apart hn hc (self_mem _)) id
  · rw [Option.or_eq_some_iff] at h
    rcases h with h | ⟨_, h⟩
    · exact Or.inr h
    · have hs := parent_spec h
      exact absurd (subs_apart hn hc (strict_subs (strict_of_subs_child hs.1 hs.2))) id

theorem parent_of_right {l r c p : Cluster} (hn : (Cluster.node l r).sidbs.Nodup) (hc : c ∈ r.subs)
    (h : (Cluster.node l r).parent? c = some p) : (c = r ∧ p = .node l r) ∨ r.parent? c = some p := by
  simp only [parent?] at h
  split_ifs at h with e
  · cases h
    rcases e with rfl | rfl
    · exact absurd (subs_apart hn (self_mem _) hc) id
    · exact Or.inl ⟨rfl, rfl⟩
  · rw [Option.or_eq_some_iff] at h
    rcases h with h | ⟨_, h⟩
    · have hs := parent_spec h
      exact absurd (subs_apart hn (strict_subs (strict_of_subs_child hs.1 hs.2)) hc) id
    · exact Or.inr h

/-- A clustering: a cut through the hierarchy. -/
def Cut : Cluster → List Cluster → Prop
  | .leaf i, L => L = [.leaf i]
  | .one i, L => L = [.one i] ∨ L = [.leaf i]
  | .node l r, L => L = [.node l r] ∨ ∃ A B, L.Perm (A ++ B) ∧ Cut l A ∧ Cut r B

theorem cut_perm {t : Cluster} {L L' : List Cluster} (h : Cut t L) (hp : L'.Perm L) : Cut t L' := by
  cases t with
  | leaf i => simp only [Cut] at *; rw [h] at hp; exact List.perm_singleton.mp hp
  | one i =>
    simp only [Cut] at *
    rcases h with h | h <;> rw [h] at hp
    · exact Or.inl (List.perm_singleton.mp hp)
    · exact Or.inr (List.perm_singleton.mp hp)
  | node l r =>
    simp only [Cut] at *
    rcases h with h | ⟨A, B, h, hA, hB⟩
    · rw [h] at hp; exact Or.inl (List.perm_singleton.mp hp)
    · exact Or.inr ⟨A, B, hp.trans h, hA, hB⟩

theorem cut_self (t : Cluster) : Cut t [t] := by cases t <;> simp [Cut]

theorem cut_leaves (t : Cluster) : Cut t (leaves t) := by
  induction t with
  | leaf i => simp [Cut, leaves, sidbs]
  | one i => simp [Cut, leaves, sidbs]
  | node l r hl hr =>
    refine Or.inr ⟨leaves l, leaves r, ?_, hl, hr⟩
    simp [leaves, sidbs]

theorem cut_sidbs {t : Cluster} {L : List Cluster} (h : Cut t L) : (L.flatMap sidbs).Perm t.sidbs := by
  induction t generalizing L with
  | leaf i => simp only [Cut] at h; simp [h, sidbs]
  | one i => simp only [Cut] at h; rcases h with h | h <;> simp [h, sidbs]
  | node l r hl hr =>
    rcases h with h | ⟨A, B, h, hA, hB⟩
    · simp [h]
    · refine (h.flatMap_right _).trans ?_
      rw [List.flatMap_append, sidbs]
      exact (hl hA).append (hr hB)

theorem cut_subs {t : Cluster} {L : List Cluster} (h : Cut t L) {c : Cluster} (hc : c ∈ L) : c ∈ t.subs := by
  induction t generalizing L with
  | leaf i => simp only [Cut] at h; simp [h] at hc; simp [subs, hc]
  | one i => simp only [Cut] at h; rcases h with h | h <;> simp [h] at hc <;> simp [subs, hc]
  | node l r hl hr =>
    rcases h with h | ⟨A, B, h, hA, hB⟩
    · simp [h] at hc; rw [hc]; exact self_mem _
    · rcases List.mem_append.mp (h.mem_iff.mp hc) with hc | hc
      · simp [subs, hl hA hc]
      · simp [subs, hr hB hc]

theorem cut_parent {t : Cluster} {L : List Cluster} (h : Cut t L) (hne : L ≠ [t]) (hn : t.sidbs.Nodup) :
    ∃ c ∈ L, ∃ p, t.parent? c = some p := by
  induction t generalizing L with
  | leaf i => exact absurd h hne
  | one i =>
    simp only [Cut] at h
    rcases h with h | h
    · exact absurd h hne
    · exact ⟨.leaf i, by simp [h], .one i, by simp [parent?]⟩
  | node l r hl hr =>
    rcases h with h | ⟨A, B, h, hA, hB⟩
    · exact absurd h hne
    · have hnl : l.sidbs.Nodup := hn.sublist (sidbs_sublist (c := .node l r) (by simp [subs, self_mem]))
      by_cases e : A = [l]
      · exact ⟨l, h.mem_iff.mpr (by simp [e]), .node l r, by simp [parent?]⟩
      · obtain ⟨c, hc, p, hp⟩ := hl hA e hnl
        exact ⟨c, h.mem_iff.mpr (by simp [hc]), p, parent_left hn hp⟩

theorem no_parent_self {t c p : Cluster} (h : t.parent? c = some p) : c ≠ t := by
  rintro rfl
  have hs := parent_spec h
  exact absurd (count_strict (strict_of_subs_child hs.1 hs.2)) (lt_irrefl _)

/-- The children of a smallest parent are all in the clustering. -/
theorem cut_children {t : Cluster} {L : List Cluster} {c p : Cluster} (h : Cut t L) (hn : t.sidbs.Nodup) (hc : c ∈ L)
    (hp : t.parent? c = some p) (hmin : ∀ c' ∈ L, ∀ q, t.parent? c' = some q → p.size ≤ q.size) :
    ∃ L', L.Perm (p.children ++ L') ∧ Cut t (p :: L') := by
  induction t generalizing L c with
  | leaf i => simp [parent?] at hp
  | one i =>
    simp only [Cut] at h
    rcases h with h | h
    · simp [h] at hc; exact absurd hc (no_parent_self hp)
    · simp [h] at hc
      have hs : p = .one i := by simp only [parent?] at hp; split_ifs at hp; cases hp; rfl
      rw [hs]
      exact ⟨[], by simp [children, h], cut_self _⟩
  | node l r hl hr =>
    rcases h with h | ⟨A, B, h, hA, hB⟩
    · simp [h] at hc; exact absurd hc (no_parent_self hp)
    · have hnl : l.sidbs.Nodup := hn.sublist (sidbs_sublist (c := .node l r) (by simp [subs, self_mem]))
      have hnr : r.sidbs.Nodup := hn.sublist (sidbs_sublist (c := .node l r) (by simp [subs, self_mem]))
      have hsl := size_node l r
      have hpl := size_pos l
      have hpr := size_pos r
      -- a parent within one side is smaller than the whole
      have keyA : A ≠ [l] → p.size ≤ l.size := by
        intro e
        obtain ⟨c0, h0, q, hq⟩ := cut_parent hA e hnl
        exact (hmin c0 (h.mem_iff.mpr (by simp [h0])) q (parent_left hn hq)).trans (size_subs (parent_spec hq).1)
      have keyB : B ≠ [r] → p.size ≤ r.size := by
        intro e
        obtain ⟨c0, h0, q, hq⟩ := cut_parent hB e hnr
        exact (hmin c0 (h.mem_iff.mpr (by simp [h0])) q (parent_right hn hq)).trans (size_subs (parent_spec hq).1)
      have whole : p = .node l r → ∃ L', L.Perm (p.children ++ L') ∧ Cut (.node l r) (p :: L') := by
        rintro rfl
        have eA : A = [l] := by by_contra e; have := keyA e; omega
        have eB : B = [r] := by by_contra e; have := keyB e; omega
        rw [eA, eB] at h
        exact ⟨[], by simpa [children] using h, cut_self _⟩
      rcases List.mem_append.mp (h.mem_iff.mp hc) with hc' | hc'
      · rcases parent_of_left hn (cut_subs hA hc') hp with ⟨_, e⟩ | e
        · exact whole e
        · obtain ⟨A', hA', hcut⟩ := hl hA hnl hc' e fun c' h' q hq =>
            hmin c' (h.mem_iff.mpr (by simp [h'])) q (parent_left hn hq)
          refine ⟨A' ++ B, ?_, Or.inr ⟨p :: A', B, by simp, hcut, hB⟩⟩
          rw [← List.append_assoc]
          exact h.trans (hA'.append_right _)
      · rcases parent_of_right hn (cut_subs hB hc') hp with ⟨_, e⟩ | e
        · exact whole e
        · obtain ⟨B', hB', hcut⟩ := hr hB hnr hc' e fun c' h' q hq =>
            hmin c' (h.mem_iff.mpr (by simp [h'])) q (parent_right hn hq)
          refine ⟨A ++ B', ?_, Or.inr ⟨A, p :: B', ?_, hA, hcut⟩⟩
          · refine h.trans ((hB'.append_left A).trans ?_)
            rw [← List.append_assoc, ← List.append_assoc]
            exact List.perm_append_comm.append_right _
          · exact List.perm_middle.symm

theorem smallest_spec {L : List Cluster} {p : Cluster} (h : smallest L = some p) : p ∈ L ∧ ∀ q ∈ L, p.size ≤ q.size := by
  induction L generalizing p with
  | nil => simp [smallest] at h
  | cons a t ih =>
    simp only [smallest] at h
    cases e : smallest t with
    | none =>
      have ht : t = [] := by
        cases t with
        | nil => rfl
        | cons b t => simp only [smallest] at e; split at e <;> first | cases e | (split_ifs at e)
      rw [e] at h
      cases h
      simp [ht]
    | some q =>
      rw [e] at h
      have := ih e
      simp only at h
      split_ifs at h with hlt <;> cases h
      · refine ⟨by simp [this.1], ?_⟩
        intro r hr
        rcases List.mem_cons.mp hr with rfl | hr
        · omega
        · exact this.2 r hr
      · refine ⟨by simp, ?_⟩
        intro r hr
        rcases List.mem_cons.mp hr with rfl | hr
        · omega
        · have := this.2 r hr; omega

theorem smallest_some {L : List Cluster} (h : L ≠ []) : ∃ p, smallest L = some p := by
  cases L with
  | nil => exact absurd rfl h
  | cons a t =>
    simp only [smallest]
    cases smallest t with
    | none => exact ⟨_, rfl⟩
    | some q => simp only; split_ifs <;> exact ⟨_, rfl⟩

/-- The step of the merge loop is defined and merges the children of a parent. -/
theorem smallest_children {t : Cluster} {L : List Cluster} {p : Cluster} (h : Cut t L) (hn : t.sidbs.Nodup)
    (hp : smallest (L.filterMap t.parent?) = some p) :
    ∃ L', L.Perm (p.children ++ L') ∧ Cut t (p :: L') ∧ p ∈ t.subs := by
  obtain ⟨h1, h2⟩ := smallest_spec hp
  obtain ⟨c, hc, hcp⟩ := List.mem_filterMap.mp h1
  obtain ⟨L', a, b⟩ := cut_children h hn hc hcp fun c' h' q hq => h2 q (List.mem_filterMap.mpr ⟨c', h', hq⟩)
  exact ⟨L', a, b, (parent_spec hcp).1⟩

theorem smallest_defined {t : Cluster} {L : List Cluster} (h : Cut t L) (hn : t.sidbs.Nodup) (hne : L ≠ [t]) :
    ∃ p, smallest (L.filterMap t.parent?) = some p := by
  apply smallest_some
  obtain ⟨c, hc, p, hp⟩ := cut_parent h hne hn
  intro e
  have : p ∈ L.filterMap t.parent? := List.mem_filterMap.mpr ⟨c, hc, hp⟩
  rw [e] at this
  cases this

/-- What a cut with distinct SiDBs gives. -/
theorem cut_apart {t : Cluster} {L : List Cluster} (h : Cut t L) (hn : t.sidbs.Nodup) :
    L.Nodup ∧ (∀ c ∈ L, c.sidbs.Nodup) ∧ (∀ c ∈ L, ∀ d ∈ L, ∀ i, i ∈ c.sidbs → i ∈ d.sidbs → c = d) := by
  have hf : (L.flatMap sidbs).Nodup := (cut_sidbs h).nodup_iff.mpr hn
  rw [List.nodup_flatMap] at hf
  have hL : L.Nodup := by
    refine hf.2.imp ?_
    intro a b hab e
    subst e
    obtain ⟨x, hx⟩ := List.exists_mem_of_ne_nil _ (sidbs_ne a)
    exact hab hx hx
  refine ⟨hL, hf.1, ?_⟩
  intro c hc d hd i hi hi'
  by_contra hcd
  rw [List.pairwise_iff_getElem] at hf
  obtain ⟨a, ha, rfl⟩ := List.getElem_of_mem hc
  obtain ⟨b, hb, rfl⟩ := List.getElem_of_mem hd
  rcases lt_trichotomy a b with hab | rfl | hab
  · exact hf.2 a b ha hb hab hi hi'
  · exact hcd rfl
  · exact hf.2 b a hb ha hab hi' hi

theorem strict_not_mem {t : Cluster} {L : List Cluster} (h : Cut t L) (hn : t.sidbs.Nodup) {c d : Cluster} (hc : c ∈ L)
    (hd : d ∈ c.strict) : d ∉ L := by
  intro hdL
  obtain ⟨x, hx⟩ := List.exists_mem_of_ne_nil _ (sidbs_ne d)
  have := (cut_apart h hn).2.2 d hdL c hc x hx ((sidbs_sublist (strict_subs hd)).subset hx)
  have h2 := count_strict hd
  rw [this] at h2
  omega

end Verif.Sidb.Gss
