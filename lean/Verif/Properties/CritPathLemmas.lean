import Verif.Properties.CritPath
import Mathlib.Logic.Relation
import Mathlib.Data.List.Forall2
import Mathlib.Tactic.SplitIfs

/-!
# What `signal_delay` computes: a proof rule, and the specification in terms of paths
-/
namespace Verif.CritPath

open Verif.Layouts

/-! ## Specification -/

/-- There is a path of `k` tiles along the data flow that starts in `a` and ends in `t`. -/
inductive FlowPath (v : View) (a : Coord) : Coord → Nat → Prop
  | here : FlowPath v a a 1
  | step {u t : Coord} {k : Nat} : FlowPath v a u k → u ∈ v.inc t → FlowPath v a t (k + 1)

/-- Data flows from `w` to `t` (possibly `w = t`). -/
def Anc (v : View) (w t : Coord) : Prop := Relation.ReflTransGen (fun a b => a ∈ v.inc b) w t

/-- The latest time, in clock phases, at which a signal arrives in `t`: a signal that starts in `a` does so in phase
`clk a` and needs one phase for every further tile. -/
def Latest (v : View) (t : Coord) (d : Nat) : Prop :=
  (∃ a k, v.inc a = [] ∧ FlowPath v a t k ∧ d = v.clk a + (k - 1)) ∧
  ∀ a k, v.inc a = [] → FlowPath v a t k → v.clk a + (k - 1) ≤ d

/-- Sorted by length: all that is known of `std::ranges::sort`. -/
def Sorts (sort : List Info → List Info) : Prop :=
  ∀ l, (sort l).Perm l ∧ (sort l).Pairwise (fun a b => a.length ≤ b.length)

/-- The flow graph of the layout has no cycles. -/
def Acyclic (v : View) (rank : Coord → Nat) : Prop := ∀ t, ∀ u ∈ v.inc t, rank u < rank t

/-! ## Proof rule -/

/-- The list `signal_delay` determines the dominant path of. -/
def extend (v : View) (t : Coord) (infos : List Info) : List Info :=
  if v.isPi t then infos ++ [⟨1, (v.clk t + (v.n - 1)) % v.n, 0⟩] else infos

def Covered (v : View) (t : Coord) (c : Cache) : Prop :=
  ∀ w, Anc v w t → v.isWire w = false → v.inc w ≠ [] → ∃ i, (w, i) ∈ c

def CacheOk (v : View) (Good : Coord → Info → Prop) (R : Coord → Prop) (c : Cache) : Prop :=
  ∀ e ∈ c, Good e.1 e.2 ∧ R e.1 ∧ Covered v e.1 c

theorem Covered.mono {v : View} {t : Coord} {c c' : Cache} (h : Covered v t c) (hc : c ⊆ c') : Covered v t c' :=
  fun w h1 h2 h3 => let ⟨i, hi⟩ := h w h1 h2 h3; ⟨i, hc hi⟩

theorem Cache.find_some {c : Cache} {t : Coord} {i : Info} (h : c.find t = some i) : (t, i) ∈ c := by
  unfold Cache.find at h
  simp only [Option.map_eq_some_iff] at h
  obtain ⟨⟨a, b⟩, h1, h2⟩ := h
  have := List.find?_some h1
  have hm := List.mem_of_find?_eq_some h1
  simp at this h2
  subst this h2
  exact hm

section Rule
variable {v : View} {sort : List Info → List Info} {Good : Coord → Info → Prop} {R : Coord → Prop} {rank : Coord → Nat}

theorem collect_rule {f : Cache → Coord → Option (Info × Cache)} (l : List Coord)
    (hf : ∀ t ∈ l, ∀ c, CacheOk v Good R c → ∃ i c', f c t = some (i, c') ∧ Good t i ∧ c ⊆ c' ∧ CacheOk v Good R c' ∧
      Covered v t c') (c : Cache) (hc : CacheOk v Good R c) :
    ∃ is c', collect f c l = some (is, c') ∧ List.Forall₂ Good l is ∧ c ⊆ c' ∧ CacheOk v Good R c' ∧
      ∀ t ∈ l, Covered v t c' := by
  induction l generalizing c with
  | nil => exact ⟨[], c, rfl, .nil, fun _ h => h, hc, by simp⟩
  | cons t ts ih =>
    obtain ⟨i, c1, h1, h2, h3, h4, h5⟩ := hf t (by simp) c hc
    obtain ⟨is, c2, g1, g2, g3, g4, g5⟩ := ih (fun u hu => hf u (by simp [hu])) c1 h4
    refine ⟨i :: is, c2, by simp [collect, h1, g1], .cons h2 g2, fun _ h => g3 (h3 h), g4, ?_⟩
    intro u hu
    rcases List.mem_cons.1 hu with rfl | hu
    · exact h5.mono g3
    · exact g5 u hu

theorem signalDelay_rule (hac : Acyclic v rank) (hne : ∀ t, ∀ u ∈ v.inc t, v.isEmpty u = false)
    (hR : ∀ t, R t → ∀ u ∈ v.inc t, R u)
    (hsrc : ∀ t, v.inc t = [] → Good t ⟨1, v.clk t, 0⟩)
    (hstep : ∀ t infos, v.inc t ≠ [] → List.Forall₂ Good (v.inc t) infos → Good t (dominant sort (extend v t infos)))
    (k : Nat) (t : Coord) (hk : rank t < k) (ht : v.isEmpty t = false) (hRt : R t) (c : Cache) (hc : CacheOk v Good R c) :
    ∃ i c', signalDelay v sort k c t = some (i, c') ∧ Good t i ∧ c ⊆ c' ∧ CacheOk v Good R c' ∧ Covered v t c' := by
  induction k generalizing t c with
  | zero => omega
  | succ k ih =>
    unfold signalDelay
    rw [if_neg (by simp [ht])]
    by_cases hi : v.inc t = []
    · rw [if_pos hi]
      refine ⟨_, _, rfl, hsrc t hi, fun _ h => h, hc, ?_⟩
      intro w hw _ hw2
      rcases Relation.ReflTransGen.cases_tail hw with rfl | ⟨x, _, hx⟩
      · exact absurd hi hw2
      · rw [hi] at hx; simp at hx
    rw [if_neg hi]
    cases hf : c.find t with
    | some i =>
      have hm := Cache.find_some hf
      exact ⟨i, c, rfl, (hc _ hm).1, fun _ h => h, hc, (hc _ hm).2.2⟩
    | none =>
      obtain ⟨is, c1, h1, h2, h3, h4, h5⟩ := collect_rule (f := signalDelay v sort k) (v.inc t)
        (fun u hu c' hc' => ih u (by have := hac t u hu; omega) (hne t u hu) (hR t hRt u hu) c' hc') c hc
      have hg := hstep t is hi h2
      have e1 : (if v.isPi t then is ++ [⟨1, (v.clk t + (v.n - 1)) % v.n, 0⟩] else is) = extend v t is := rfl
      simp only [h1, Option.bind_eq_bind, Option.bind_some, e1]
      refine ⟨_, _, rfl, hg, ?_, ?_⟩
      · split_ifs
        · exact h3
        · exact fun _ h => List.mem_cons_of_mem _ (h3 h)
      · have hsub : c1 ⊆ (if v.isWire t then c1 else (t, dominant sort (extend v t is)) :: c1) := by
          split_ifs
          · exact fun _ h => h
          · exact fun _ h => List.mem_cons_of_mem _ h
        have hcov : Covered v t (if v.isWire t then c1 else (t, dominant sort (extend v t is)) :: c1) := by
          intro w hw hw1 hw2
          rcases Relation.ReflTransGen.cases_tail hw with rfl | ⟨x, hx, hxt⟩
          · exact ⟨_, by rw [if_neg (by simp [hw1])]; exact List.mem_cons_self ..⟩
          · exact ((h5 x hxt).mono hsub) w hx hw1 hw2
        refine ⟨?_, hcov⟩
        intro e he
        split_ifs at he hsub hcov ⊢ with hw
        · exact h4 e he
        · rcases List.mem_cons.1 he with rfl | he
          · exact ⟨hg, hRt, hcov⟩
          · exact ⟨(h4 e he).1, (h4 e he).2.1, (h4 e he).2.2.mono hsub⟩

theorem overPos_rule (hac : Acyclic v rank) (hne : ∀ t, ∀ u ∈ v.inc t, v.isEmpty u = false)
    (hR : ∀ t, R t → ∀ u ∈ v.inc t, R u)
    (hsrc : ∀ t, v.inc t = [] → Good t ⟨1, v.clk t, 0⟩)
    (hstep : ∀ t infos, v.inc t ≠ [] → List.Forall₂ Good (v.inc t) infos → Good t (dominant sort (extend v t infos)))
    (k : Nat) (hk : ∀ t, rank t < k) (ts : List Coord) (ht : ∀ t ∈ ts, v.isEmpty t = false) (hRt : ∀ t ∈ ts, R t)
    (c : Cache) (hc : CacheOk v Good R c) (cp : Nat) :
    ∃ cp' c', overPos v sort k c cp ts = some (cp', c') ∧ c ⊆ c' ∧ CacheOk v Good R c' ∧ (∀ t ∈ ts, Covered v t c') ∧
      cp ≤ cp' ∧ (∀ t ∈ ts, ∃ i, Good t i ∧ i.length ≤ cp') ∧ (cp' = cp ∨ ∃ t ∈ ts, ∃ i, Good t i ∧ i.length = cp') := by
  induction ts generalizing c cp with
  | nil => exact ⟨cp, c, rfl, fun _ h => h, hc, by simp, Nat.le_refl _, by simp, .inl rfl⟩
  | cons t ts ih =>
    obtain ⟨i, c1, h1, h2, h3, h4, h5⟩ :=
      signalDelay_rule hac hne hR hsrc hstep k t (hk t) (ht t (by simp)) (hRt t (by simp)) c hc
    obtain ⟨cp', c', g1, g2, g3, g4, g5, g6, g7⟩ := ih (fun u hu => ht u (by simp [hu])) (fun u hu => hRt u (by simp [hu])) c1 h4
      (max i.length cp)
    refine ⟨cp', c', by simp [overPos, h1, g1], fun _ h => g2 (h3 h), g3, ?_, by omega, ?_, ?_⟩
    · intro u hu
      rcases List.mem_cons.1 hu with rfl | hu
      · exact h5.mono g2
      · exact g4 u hu
    · intro u hu
      rcases List.mem_cons.1 hu with rfl | hu
      · exact ⟨i, h2, by omega⟩
      · exact g6 u hu
    · rcases g7 with h | ⟨u, hu, j, hj⟩
      · rcases Nat.le_total cp i.length with hle | hle
        · exact .inr ⟨t, by simp, i, h2, by omega⟩
        · exact .inl (by omega)
      · exact .inr ⟨u, by simp [hu], j, hj⟩

end Rule

theorem maxDiff_spec (c : Cache) : (∀ e ∈ c, e.2.diff ≤ maxDiff c) ∧ (maxDiff c = 0 ∨ ∃ e ∈ c, e.2.diff = maxDiff c) := by
  have key : ∀ (c : Cache) (a : Nat), a ≤ c.foldl (fun a e => max a e.2.diff) a ∧
      (∀ e ∈ c, e.2.diff ≤ c.foldl (fun a e => max a e.2.diff) a) ∧
      (c.foldl (fun a e => max a e.2.diff) a = a ∨ ∃ e ∈ c, e.2.diff = c.foldl (fun a e => max a e.2.diff) a) := by
    intro c
    induction c with
    | nil => intro a; simp
    | cons e c ih =>
      intro a
      obtain ⟨h1, h2, h3⟩ := ih (max a e.2.diff)
      simp only [List.foldl_cons]
      refine ⟨by omega, ?_, ?_⟩
      · intro x hx
        rcases List.mem_cons.1 hx with rfl | hx
        · omega
        · exact h2 x hx
      · rcases h3 with h | ⟨x, hx, hh⟩
        · rcases Nat.le_total a e.2.diff with hle | hle
          · exact .inr ⟨e, by simp, by omega⟩
          · exact .inl (by omega)
        · exact .inr ⟨x, by simp [hx], hh⟩
  exact ⟨(key c 0).2.1, (key c 0).2.2⟩

/-! ## The dominant path -/

theorem sorted_last {l : List Info} (h : l.Pairwise (fun a b => a.length ≤ b.length)) (hl : l ≠ []) :
    l.getLastD ⟨0, 0, 0⟩ ∈ l ∧ l.headD ⟨0, 0, 0⟩ ∈ l ∧
    (∀ i ∈ l, i.length ≤ (l.getLastD ⟨0, 0, 0⟩).length) ∧ ∀ i ∈ l, (l.headD ⟨0, 0, 0⟩).length ≤ i.length := by
  have e : l.getLastD ⟨0, 0, 0⟩ = l.getLast hl := by
    rw [List.getLastD_eq_getLast?, List.getLast?_eq_some_getLast hl]; rfl
  refine ⟨e ▸ List.getLast_mem hl, ?_, ?_, ?_⟩
  · cases l with
    | nil => exact absurd rfl hl
    | cons a l => simp
  · rw [e]
    intro i hi
    rw [← List.dropLast_concat_getLast hl] at h hi
    rcases List.mem_append.1 hi with hi | hi
    · exact (List.pairwise_append.1 h).2.2 i hi _ (by simp)
    · simp at hi; rw [hi]; exact Nat.le_refl _
  · cases l with
    | nil => exact absurd rfl hl
    | cons a l =>
      intro i hi
      rcases List.mem_cons.1 hi with rfl | hi
      · simp
      · exact (List.pairwise_cons.1 h).1 i hi

/-- The dominant path extends a longest one; its difference is either inherited from the only incoming path or the one
between a longest and a shortest one. -/
theorem dominant_spec {sort : List Info → List Info} (hs : Sorts sort) (infos : List Info) (hne : infos ≠ []) :
    ∃ b ∈ infos, (∀ i ∈ infos, i.length ≤ b.length) ∧ (dominant sort infos).length = b.length + 1 ∧
      (dominant sort infos).delay = b.delay + 1 ∧
      ((infos = [b] ∧ (dominant sort infos).diff = b.diff) ∨
       ∃ f ∈ infos, (∀ i ∈ infos, f.length ≤ i.length) ∧ (dominant sort infos).diff = absDiff b.delay f.delay) := by
  match infos, hne with
  | [i], _ => exact ⟨i, by simp, by simp, rfl, rfl, .inl ⟨rfl, rfl⟩⟩
  | i :: j :: l, _ =>
    obtain ⟨hp, hs⟩ := hs (i :: j :: l)
    have hne : sort (i :: j :: l) ≠ [] := by
      intro h; rw [h] at hp; simpa using hp.length_eq
    obtain ⟨h1, h2, h3, h4⟩ := sorted_last hs hne
    refine ⟨_, hp.mem_iff.1 h1, fun x hx => h3 x (hp.mem_iff.2 hx), rfl, rfl, .inr ⟨_, hp.mem_iff.1 h2, fun x hx => h4 x (hp.mem_iff.2 hx), rfl⟩⟩

theorem FlowPath.pos {v : View} {a t : Coord} {k : Nat} (h : FlowPath v a t k) : 1 ≤ k := by
  cases h <;> omega

theorem FlowPath.cases_inc {v : View} {a t : Coord} {k : Nat} (h : FlowPath v a t k) (ha : v.inc a = []) (ht : v.inc t ≠ []) :
    ∃ u ∈ v.inc t, ∃ j, k = j + 1 ∧ FlowPath v a u j := by
  cases h with
  | here => exact absurd ha ht
  | step h hu => exact ⟨_, hu, _, rfl, h⟩

theorem FlowPath.at_source {v : View} {a t : Coord} {k : Nat} (h : FlowPath v a t k) (ht : v.inc t = []) : a = t ∧ k = 1 := by
  cases h with
  | here => exact ⟨rfl, rfl⟩
  | step _ hu => rw [ht] at hu; simp at hu

theorem forall2_mem {α β : Type} {R : α → β → Prop} {l : List α} {l' : List β} (h : List.Forall₂ R l l') :
    (∀ a ∈ l, ∃ b ∈ l', R a b) ∧ ∀ b ∈ l', ∃ a ∈ l, R a b := by
  induction h with
  | nil => simp
  | cons h _ ih => 
    refine ⟨?_, ?_⟩
    · intro a ha
      rcases List.mem_cons.1 ha with rfl | ha
      · exact ⟨_, by simp, h⟩
      · obtain ⟨b, hb, hr⟩ := ih.1 a ha; exact ⟨b, by simp [hb], hr⟩
    · intro b hb
      rcases List.mem_cons.1 hb with rfl | hb
      · exact ⟨_, by simp, h⟩
      · obtain ⟨a, ha, hr⟩ := ih.2 b hb; exact ⟨a, by simp [ha], hr⟩

/-- A longest path to `t` from a source has `k` tiles. -/
def Longest (v : View) (t : Coord) (k : Nat) : Prop :=
  (∃ a, v.inc a = [] ∧ FlowPath v a t k) ∧ ∀ a j, v.inc a = [] → FlowPath v a t j → j ≤ k

theorem longest_src {v : View} {t : Coord} (h : v.inc t = []) : Longest v t 1 :=
  ⟨⟨t, h, .here⟩, fun a j _ hp => by have := hp.at_source h; omega⟩

theorem longest_step {v : View} {sort : List Info → List Info} (hs : Sorts sort) (t : Coord) (infos : List Info)
    (ht : v.inc t ≠ []) (h : List.Forall₂ (fun u i => Longest v u i.length) (v.inc t) infos) :
    Longest v t (dominant sort (extend v t infos)).length := by
  obtain ⟨m1, m2⟩ := forall2_mem h
  obtain ⟨u0, hu0⟩ := List.exists_mem_of_ne_nil _ ht
  obtain ⟨i0, hi0, hl0⟩ := m1 u0 hu0
  have hpos : 1 ≤ i0.length := by obtain ⟨⟨a, _, hp⟩, _⟩ := hl0; exact hp.pos
  have hsub : ∀ i ∈ infos, i ∈ extend v t infos := by intro i hi; unfold extend; split_ifs <;> simp [hi]
  obtain ⟨b, hb, hmax, hlen, -⟩ := dominant_spec hs (extend v t infos) (by intro h; have := hsub i0 hi0; rw [h] at this; simp at this)
  rw [hlen]
  refine ⟨?_, ?_⟩
  · have : ∃ i ∈ infos, i.length = b.length := by
      unfold extend at hb
      split_ifs at hb
      · rcases List.mem_append.1 hb with hb | hb
        · exact ⟨b, hb, rfl⟩
        · simp at hb
          refine ⟨i0, hi0, ?_⟩
          have := hmax i0 (hsub i0 hi0)
          rw [hb] at this ⊢
          simp at this ⊢; omega
      · exact ⟨b, hb, rfl⟩
    obtain ⟨i, hi, e⟩ := this
    obtain ⟨u, hu, ⟨a, ha, hp⟩, -⟩ := m2 i hi
    exact ⟨a, ha, e ▸ hp.step hu⟩
  · intro a j ha hp
    obtain ⟨u, hu, j', rfl, hp'⟩ := hp.cases_inc ha ht
    obtain ⟨i, hi, _, hm⟩ := m1 u hu
    have := hm a j' ha hp'
    have := hmax i (hsub i hi)
    omega

end Verif.CritPath
