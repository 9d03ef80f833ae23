import Verif.PhysicalDesign.Orthogonal
import Mathlib.Data.Finset.Card
import Mathlib.Tactic.ByContra
import Mathlib.Tactic.SplitIfs

/-!
# The coloring of the orthogonal physical design

In a network with at most two fanins and fanouts per node, every edge has at most one edge with the same source and at most one with
the same target, so that `paint` walks along a path or a cycle.
-/
namespace Verif.PhysicalDesign.Ortho

open Verif.Networks

/-- Every node has at most two fanins, distinct, and at most two fanouts. -/
structure Net3 (N : Ntk) : Prop where
  nodup : ∀ n, (N.node n).fanins.Nodup
  len : ∀ n, (N.node n).fanins.length ≤ 2
  fo : ∀ s, (N.fanouts s).length ≤ 2

def Edge (N : Ntk) (s t : Nat) : Prop := s ∈ (N.node t).fanins

theorem mem_fanouts {N : Ntk} {s t : Nat} : t ∈ N.fanouts s ↔ Edge N s t := by
  unfold Ntk.fanouts Edge
  simp only [List.mem_filter, List.mem_range, decide_eq_true_eq]
  constructor
  · exact fun h => h.2
  · intro h
    refine ⟨?_, h⟩
    by_contra hc
    have : N.node t = .const false := by
      unfold Ntk.node
      rw [List.getD_eq_getElem?_getD, List.getElem?_eq_none (by unfold Ntk.size at hc; omega)]
      rfl
    rw [this] at h
    simp [Node.fanins] at h

theorem fanouts_nodup (N : Ntk) (s : Nat) : (N.fanouts s).Nodup := List.nodup_range.filter _

/-- A fold over at most two elements that skips one of them. -/
theorem foldl_skip {α : Type} {l : List Nat} (hn : l.Nodup) (hl : l.length ≤ 2) {t : Nat} (ht : t ∈ l) (g : α → Nat → α) (K : α) :
    (∃ u, u ≠ t ∧ u ∈ l ∧ l.foldl (fun K t' => if t' = t then K else g K t') K = g K u) ∨
    ((∀ v ∈ l, v = t) ∧ l.foldl (fun K t' => if t' = t then K else g K t') K = K) := by
  match l, hl with
  | [], _ => simp at ht
  | [a], _ =>
    simp only [List.mem_singleton] at ht
    subst ht
    exact .inr ⟨by simp, by simp⟩
  | [a, b], _ =>
    simp only [List.nodup_cons, List.mem_singleton, List.not_mem_nil, not_false_eq_true, List.nodup_nil, and_true] at hn
    rcases List.mem_cons.1 ht with h | h
    · subst h
      exact .inl ⟨b, fun e => hn e.symm, by simp, by simp [show ¬ b = t from fun e => hn e.symm]⟩
    · rw [List.mem_singleton] at h
      subst h
      exact .inl ⟨a, hn, by simp, by simp [hn]⟩

theorem other_unique {l : List Nat} (hl : l.length ≤ 2) (hn : l.Nodup) {t u v : Nat} (ht : t ∈ l) (hu : u ∈ l) (hv : v ∈ l) (h1 : u ≠ t)
    (h2 : v ≠ t) : u = v := by
  match l, hl with
  | [], _ => simp at ht
  | [a], _ => simp at *; omega
  | [a, b], _ => simp at *; omega

section
variable {N : Ntk} (h3 : Net3 N)
include h3

theorem sib_unique {s t u v : Nat} (ht : Edge N s t) (hu : Edge N s u) (hv : Edge N s v) (h1 : u ≠ t) (h2 : v ≠ t) : u = v :=
  other_unique (h3.fo s) (fanouts_nodup N s) (mem_fanouts.2 ht) (mem_fanouts.2 hu) (mem_fanouts.2 hv) h1 h2

theorem spo_unique {s u v t : Nat} (hs : Edge N s t) (hu : Edge N u t) (hv : Edge N v t) (h1 : u ≠ s) (h2 : v ≠ s) : u = v :=
  other_unique (h3.len t) (h3.nodup t) hs hu hv h1 h2

end

/-! ## Counting unpainted edges -/

def edges (N : Ntk) : List (Nat × Nat) := (List.range N.size).flatMap (fun t => (N.node t).fanins.map (fun s => (s, t)))

theorem mem_edges {N : Ntk} {s t : Nat} : (s, t) ∈ edges N ↔ Edge N s t := by
  unfold edges
  simp only [List.mem_flatMap, List.mem_range, List.mem_map, Prod.mk.injEq]
  constructor
  · rintro ⟨t', _, s', hs, rfl, rfl⟩
    exact hs
  · intro h
    have := mem_fanouts.2 h
    unfold Ntk.fanouts at this
    exact ⟨t, List.mem_range.1 (List.mem_of_mem_filter this), s, h, rfl, rfl⟩

theorem edges_length (N : Ntk) : (edges N).length = (N.nodes.map (fun x => x.fanins.length)).sum := by
  have : N.nodes = (List.range N.size).map N.node := by
    apply List.ext_getElem
    · simp [Ntk.size]
    · intro i h1 h2
      simp [Ntk.node, List.getD_eq_getElem?_getD, h1]
  rw [this]
  simp [edges, List.length_flatMap, Function.comp_def]

def unpainted (N : Ntk) (K : EdgeColors) : Nat := ((edges N).toFinset.filter (fun e => K e.1 e.2 = .null)).card

theorem unpainted_le (N : Ntk) (K : EdgeColors) : unpainted N K < fuel N := by
  unfold unpainted fuel
  have h1 := Finset.card_filter_le (edges N).toFinset (fun e => K e.1 e.2 = .null)
  have h2 := List.toFinset_card_le (edges N)
  rw [edges_length] at h2
  omega

theorem set_same (K : EdgeColors) (s t : Nat) (c : Color) : K.set s t c s t = c := by simp [EdgeColors.set]

theorem set_other {K : EdgeColors} {s t a b : Nat} {c : Color} (h : ¬(a = s ∧ b = t)) : K.set s t c a b = K a b := by
  simp [EdgeColors.set, h]

theorem set_unpainted {N : Ntk} {K : EdgeColors} {s t : Nat} {c : Color} (he : Edge N s t) (hk : K s t = .null) (hc : c ≠ .null) :
    unpainted N (K.set s t c) < unpainted N K := by
  apply Finset.card_lt_card
  constructor
  · intro e h
    simp only [Finset.mem_filter, List.mem_toFinset] at h ⊢
    refine ⟨h.1, ?_⟩
    by_cases h' : e.1 = s ∧ e.2 = t
    · rw [h'.1, h'.2, set_same] at h
      exact absurd h.2 hc
    · rw [set_other h'] at h
      exact h.2
  · intro h
    have : (s, t) ∈ (edges N).toFinset.filter (fun e => K e.1 e.2 = .null) := by
      simp only [Finset.mem_filter, List.mem_toFinset]
      exact ⟨mem_edges.2 he, hk⟩
    have := h this
    simp only [Finset.mem_filter, List.mem_toFinset, set_same] at this
    exact hc this.2

/-! ## The walk -/

/-- The colors of edges with a common source differ, those of edges with a common target agree, except for some targets. -/
structure Cons (N : Ntk) (Ex : Nat → Prop) (K : EdgeColors) : Prop where
  edge : ∀ s t, K s t ≠ .null → Edge N s t
  sib : ∀ s t t', t ≠ t' → K s t ≠ .null → K s t' ≠ .null → K s t ≠ K s t'
  spo : ∀ s s' t, K s t ≠ .null → K s' t ≠ .null → K s t = K s' t ∨ Ex t

def OpenSib (N : Ntk) (K : EdgeColors) (s t : Nat) : Prop := K s t ≠ .null ∧ ∃ t', t' ≠ t ∧ Edge N s t' ∧ K s t' = .null
def OpenSpo (N : Ntk) (K : EdgeColors) (s t : Nat) : Prop := K s t ≠ .null ∧ ∃ s', s' ≠ s ∧ Edge N s' t ∧ K s' t = .null

/-- The result `K'` of a walk that started with `K` by painting the edge from `s` to `t`. -/
structure Walked (N : Ntk) (Ex : Nat → Prop) (K : EdgeColors) (a0 n0 : Nat) (s t : Nat) (c : Color) (K' : EdgeColors) : Prop where
  cons : Cons N Ex K'
  ext : ∀ a b, K a b ≠ .null → K' a b = K a b
  here : K' s t = c
  noSib : ∀ a b, ¬ OpenSib N K' a b
  spo : ∀ a b, OpenSpo N K' a b → a = a0 ∧ b = n0

theorem opp_ne (c : Color) : c.opp ≠ .null := by cases c <;> simp [Color.opp]
theorem opp_opp {c : Color} (h : c ≠ .null) : c.opp.opp = c := by cases c <;> simp_all [Color.opp]
theorem opp_self {c : Color} : c.opp ≠ c := by cases c <;> simp [Color.opp]
theorem two_colors {c d : Color} (hc : c ≠ .null) (hd : d ≠ .null) (h : c ≠ d) : c = d.opp := by
  cases c <;> cases d <;> simp_all [Color.opp]

theorem paint_painted (N : Ntk) (f : Nat) {K : EdgeColors} {s t : Nat} (c : Color) (h : K s t ≠ .null) : paint N f K s t c = K := by
  cases f with
  | zero => rfl
  | succ f => rw [paint, if_pos h]

/-- How an edge is reached: from the edge with the same source, or from the one with the same target. -/
def EnterSib (N : Ntk) (K : EdgeColors) (a0 n0 s t : Nat) (c : Color) : Prop :=
  ∃ t0, t0 ≠ t ∧ Edge N s t0 ∧ K s t0 = c.opp ∧ (∀ a b, OpenSib N K a b → a = s ∧ b = t0) ∧ (∀ a b, OpenSpo N K a b → a = a0 ∧ b = n0)

def EnterSpo (N : Ntk) (K : EdgeColors) (a0 n0 s t : Nat) (c : Color) : Prop :=
  ∃ s0, s0 ≠ s ∧ Edge N s0 t ∧ K s0 t = c ∧ (∀ a b, ¬ OpenSib N K a b) ∧
    (∀ a b, OpenSpo N K a b → (a = a0 ∧ b = n0) ∨ (a = s0 ∧ b = t))

/-- The edges into `n0` that the walk has painted have a source with another fanout. -/
def NewSib (N : Ntk) (K K' : EdgeColors) (n0 : Nat) : Prop :=
  ∀ a, K a n0 = .null → K' a n0 ≠ .null → ∃ t', t' ≠ n0 ∧ Edge N a t'

theorem walk {N : Ntk} (h3 : Net3 N) {Ex : Nat → Prop} {a0 n0 : Nat} (hx : Ex n0) : ∀ (f : Nat) (K : EdgeColors) (s t : Nat) (c : Color),
    unpainted N K < f → K s t = .null → Edge N s t → c ≠ .null → Cons N Ex K → K a0 n0 ≠ .null →
    (EnterSib N K a0 n0 s t c → Walked N Ex K a0 n0 s t c (paint N f K s t c) ∧ NewSib N K (paint N f K s t c) n0) ∧
    (EnterSpo N K a0 n0 s t c → Walked N Ex K a0 n0 s t c (paint N f K s t c) ∧ (t ≠ n0 → NewSib N K (paint N f K s t c) n0)) := by
  intro f
  induction f with
  | zero => intro K s t c h; omega
  | succ f ih =>
    intro K s t c hf hk he hc hcons hroot
    have hlt := set_unpainted he hk hc
    have hdec : unpainted N (K.set s t c) < f := by omega
    have hK1 : ∀ a b, K.set s t c a b ≠ .null → (a = s ∧ b = t) ∨ K a b ≠ .null := by
      intro a b h
      by_cases h' : a = s ∧ b = t
      · exact .inl h'
      · rw [set_other h'] at h
        exact .inr h
    have hkeep : ∀ a b, K a b ≠ .null → K.set s t c a b = K a b := by
      intro a b h
      apply set_other
      rintro ⟨rfl, rfl⟩
      exact h hk
    have hroot1 : K.set s t c a0 n0 ≠ .null := by rw [hkeep _ _ hroot]; exact hroot
    constructor
    · rintro ⟨t0, ht0, het0, hkt0, hos, hop⟩
      have hkt0n : K s t0 ≠ .null := by rw [hkt0]; exact opp_ne c
      have hcons1 : Cons N Ex (K.set s t c) := by
        refine ⟨?_, ?_, ?_⟩
        · intro a b h
          rcases hK1 a b h with ⟨rfl, rfl⟩ | h
          · exact he
          · exact hcons.edge a b h
        · intro a b b' hb h1 h2
          rcases hK1 a b h1 with ⟨rfl, rfl⟩ | h1'
          · have h2' : K a b' ≠ .null := by rwa [set_other (fun hh => hb hh.2.symm)] at h2
            have hb' : b' = t0 := sib_unique h3 he (hcons.edge _ _ h2') het0 (Ne.symm hb) ht0
            rw [set_same, hkeep _ _ h2', hb', hkt0]
            exact (opp_self).symm
          · rcases hK1 a b' h2 with ⟨rfl, rfl⟩ | h2'
            · have hb' : b = t0 := sib_unique h3 he (hcons.edge _ _ h1') het0 hb ht0
              rw [set_same, hkeep _ _ h1', hb', hkt0]
              exact opp_self
            · rw [hkeep _ _ h1', hkeep _ _ h2']
              exact hcons.sib a b b' hb h1' h2'
        · intro a a' b h1 h2
          rcases hK1 a b h1 with ⟨rfl, rfl⟩ | h1'
          · rcases hK1 a' b h2 with ⟨rfl, -⟩ | h2'
            · exact .inl rfl
            · by_cases haa : a' = a
              · subst haa; exact .inl rfl
              · have := hop a' b ⟨h2', a, Ne.symm haa, he, hk⟩
                rw [this.2]; exact .inr hx
          · rcases hK1 a' b h2 with ⟨rfl, rfl⟩ | h2'
            · by_cases haa : a = a'
              · subst haa; exact .inl rfl
              · have := hop a b ⟨h1', a', Ne.symm haa, he, hk⟩
                rw [this.2]; exact .inr hx
            · rw [hkeep _ _ h1', hkeep _ _ h2']
              exact hcons.spo a a' b h1' h2'
      have hos1 : ∀ a b, ¬ OpenSib N (K.set s t c) a b := by
        rintro a b ⟨h1, b', hb', heb', hn⟩
        rcases hK1 a b h1 with ⟨rfl, rfl⟩ | h1'
        · have : b' = t0 := sib_unique h3 he heb' het0 hb' ht0
          rw [this, hkeep _ _ hkt0n] at hn
          exact hkt0n hn
        · have hn' : K a b' = .null := by
            by_cases h' : a = s ∧ b' = t
            · rw [h'.1, h'.2]; exact hk
            · rwa [set_other h'] at hn
          obtain ⟨rfl, rfl⟩ := hos a b ⟨h1', b', hb', heb', hn'⟩
          have : b' = t := sib_unique h3 het0 heb' he hb' (Ne.symm ht0)
          rw [this, set_same] at hn
          exact hc hn
      have hop1 : ∀ a b, OpenSpo N (K.set s t c) a b → (a = a0 ∧ b = n0) ∨ (a = s ∧ b = t) := by
        rintro a b ⟨h1, a', ha', hea', hn⟩
        rcases hK1 a b h1 with h1' | h1'
        · exact .inr h1'
        · refine .inl (hop a b ⟨h1', a', ha', hea', ?_⟩)
          by_cases h' : a' = s ∧ b = t
          · rw [h'.1, h'.2]; exact hk
          · rwa [set_other h'] at hn
      -- the fold over the fanouts does nothing
      have hfold1 : (N.fanouts s).foldl (fun K t' => if t' = t then K else paint N f K s t' c.opp) (K.set s t c) = K.set s t c := by
        rcases foldl_skip (fanouts_nodup N s) (h3.fo s) (mem_fanouts.2 he) (fun K t' => paint N f K s t' c.opp) (K.set s t c) with
          ⟨u, hu, hum, e⟩ | ⟨-, e⟩
        · rw [e]
          have : u = t0 := sib_unique h3 he (mem_fanouts.1 hum) het0 hu ht0
          apply paint_painted
          rw [this, hkeep _ _ hkt0n]
          exact hkt0n
        · exact e
      have hunf : paint N (f + 1) K s t c =
          (N.node t).fanins.foldl (fun K s' => if s' = s then K else paint N f K s' t c) (K.set s t c) := by
        rw [paint, if_neg (by simp [hk])]
        simp only [hfold1]
      rcases foldl_skip (h3.nodup t) (h3.len t) he (fun K s' => paint N f K s' t c) (K.set s t c) with ⟨y, hy, hym, e⟩ | ⟨hall, e⟩
      · by_cases hky : K y t = .null
        · -- continue the walk
          have hky1 : K.set s t c y t = .null := by rw [set_other (fun hh => hy hh.1)]; exact hky
          have ⟨w, hw⟩ := (ih (K.set s t c) y t c hdec hky1 hym hc hcons1 hroot1).2
            ⟨s, Ne.symm hy, he, set_same _ _ _ _, hos1, hop1⟩
          rw [hunf, e]
          have htn : t ≠ n0 := by
            rintro rfl
            -- `a0` is a fanin of `t`, painted, so it is neither `s` nor `y`
            have h1 : a0 ≠ s := by rintro rfl; exact hroot hk
            have h2 : a0 ≠ y := by rintro rfl; exact hroot hky
            exact h2 (spo_unique h3 he (hcons.edge _ _ hroot) hym h1 hy)
          refine ⟨⟨w.cons, ?_, ?_, w.noSib, w.spo⟩, ?_⟩
          · intro a b h
            rw [w.ext a b (by rw [hkeep _ _ h]; exact h), hkeep _ _ h]
          · rw [w.ext s t (by rw [set_same]; exact hc), set_same]
          · intro a ha ha'
            apply hw htn a _ ha'
            rw [set_other (fun hh => htn hh.2.symm)]
            exact ha
        · -- the end of a cycle
          have hpp : paint N f (K.set s t c) y t c = K.set s t c := paint_painted _ _ _ (by rw [hkeep _ _ hky]; exact hky)
          rw [hunf, e, hpp]
          have hy0 := hop y t ⟨hky, s, Ne.symm hy, he, hk⟩
          refine ⟨⟨hcons1, hkeep, set_same _ _ _ _, hos1, ?_⟩, ?_⟩
          · rintro a b hab
            rcases hop1 a b hab with h | ⟨rfl, rfl⟩
            · exact h
            · obtain ⟨-, a', ha', hea', hn⟩ := hab
              have : a' = y := spo_unique h3 he hea' hym ha' hy
              rw [this, hkeep _ _ hky] at hn
              exact absurd hn hky
          · intro a ha ha'
            rcases hK1 a n0 ha' with ⟨rfl, rfl⟩ | h
            · exact ⟨t0, ht0, het0⟩
            · exact absurd ha h
      · rw [hunf, e]
        refine ⟨⟨hcons1, hkeep, set_same _ _ _ _, hos1, ?_⟩, ?_⟩
        · rintro a b hab
          rcases hop1 a b hab with h | ⟨rfl, rfl⟩
          · exact h
          · obtain ⟨-, a', ha', hea', -⟩ := hab
            exact absurd (hall a' hea') ha'
        · intro a ha ha'
          rcases hK1 a n0 ha' with ⟨rfl, rfl⟩ | h
          · exact ⟨t0, ht0, het0⟩
          · exact absurd ha h
    · rintro ⟨s0, hs0, hes0, hks0, hos, hop⟩
      have hks0n : K s0 t ≠ .null := by rw [hks0]; exact hc
      have hcons1 : Cons N Ex (K.set s t c) := by
        refine ⟨?_, ?_, ?_⟩
        · intro a b h
          rcases hK1 a b h with ⟨rfl, rfl⟩ | h
          · exact he
          · exact hcons.edge a b h
        · intro a b b' hb h1 h2
          rcases hK1 a b h1 with ⟨rfl, rfl⟩ | h1'
          · have h2' : K a b' ≠ .null := by rwa [set_other (fun hh => hb hh.2.symm)] at h2
            exact absurd ⟨h2', b, hb, he, hk⟩ (hos a b')
          · rcases hK1 a b' h2 with ⟨rfl, rfl⟩ | h2'
            · exact absurd ⟨h1', b', Ne.symm hb, he, hk⟩ (hos a b)
            · rw [hkeep _ _ h1', hkeep _ _ h2']
              exact hcons.sib a b b' hb h1' h2'
        · intro a a' b h1 h2
          rcases hK1 a b h1 with ⟨rfl, rfl⟩ | h1'
          · rcases hK1 a' b h2 with ⟨rfl, -⟩ | h2'
            · exact .inl rfl
            · by_cases haa : a' = a
              · subst haa; exact .inl rfl
              · have : a' = s0 := spo_unique h3 he (hcons.edge _ _ h2') hes0 haa hs0
                rw [set_same, hkeep _ _ h2', this, hks0]
                exact .inl rfl
          · rcases hK1 a' b h2 with ⟨rfl, rfl⟩ | h2'
            · by_cases haa : a = a'
              · subst haa; exact .inl rfl
              · have : a = s0 := spo_unique h3 he (hcons.edge _ _ h1') hes0 haa hs0
                rw [set_same, hkeep _ _ h1', this, hks0]
                exact .inl rfl
            · rw [hkeep _ _ h1', hkeep _ _ h2']
              exact hcons.spo a a' b h1' h2'
      have hos1 : ∀ a b, OpenSib N (K.set s t c) a b → a = s ∧ b = t := by
        rintro a b ⟨h1, b', hb', heb', hn⟩
        rcases hK1 a b h1 with h1' | h1'
        · exact h1'
        · refine absurd ⟨h1', b', hb', heb', ?_⟩ (hos a b)
          by_cases h' : a = s ∧ b' = t
          · rw [h'.1, h'.2]; exact hk
          · rwa [set_other h'] at hn
      have hop1 : ∀ a b, OpenSpo N (K.set s t c) a b → a = a0 ∧ b = n0 := by
        rintro a b ⟨h1, a', ha', hea', hn⟩
        rcases hK1 a b h1 with ⟨rfl, rfl⟩ | h1'
        · have : a' = s0 := spo_unique h3 he hea' hes0 ha' hs0
          rw [this, hkeep _ _ hks0n] at hn
          exact absurd hn hks0n
        · have hn' : K a' b = .null := by
            by_cases h' : a' = s ∧ b = t
            · rw [h'.1, h'.2]; exact hk
            · rwa [set_other h'] at hn
          rcases hop a b ⟨h1', a', ha', hea', hn'⟩ with h | ⟨rfl, rfl⟩
          · exact h
          · have : a' = s := spo_unique h3 hes0 hea' he ha' (Ne.symm hs0)
            rw [this, set_same] at hn
            exact absurd hn hc
      have hend : ∀ K', (∀ a b, K.set s t c a b ≠ .null → K' a b = K.set s t c a b) →
          (N.node t).fanins.foldl (fun K s' => if s' = s then K else paint N f K s' t c) K' = K' := by
        intro K' hK'
        rcases foldl_skip (h3.nodup t) (h3.len t) he (fun K s' => paint N f K s' t c) K' with ⟨y, hy, hym, e⟩ | ⟨-, e⟩
        · rw [e]
          have : y = s0 := spo_unique h3 he hym hes0 hy hs0
          apply paint_painted
          have h1 : K.set s t c s0 t ≠ .null := by rw [hkeep _ _ hks0n]; exact hks0n
          rw [this, hK' _ _ h1]
          exact h1
        · exact e
      rcases foldl_skip (fanouts_nodup N s) (h3.fo s) (mem_fanouts.2 he) (fun K t' => paint N f K s t' c.opp) (K.set s t c) with
          ⟨u, hu, hum, e⟩ | ⟨hall, e⟩
      · have heu := mem_fanouts.1 hum
        have hku : K s u = .null := by
          by_contra hh
          exact hos s u ⟨hh, t, Ne.symm hu, he, hk⟩
        have hku1 : K.set s t c s u = .null := by rw [set_other (fun hh => hu hh.2)]; exact hku
        have ⟨w, hw⟩ := (ih (K.set s t c) s u c.opp hdec hku1 heu (opp_ne c) hcons1 hroot1).1
          ⟨t, Ne.symm hu, he, by rw [set_same, opp_opp hc], hos1, hop1⟩
        have hunf : paint N (f + 1) K s t c = paint N f (K.set s t c) s u c.opp := by
          rw [paint, if_neg (by simp [hk])]
          simp only [e]
          exact hend _ w.ext
        rw [hunf]
        refine ⟨⟨w.cons, ?_, ?_, w.noSib, w.spo⟩, ?_⟩
        · intro a b h
          rw [w.ext a b (by rw [hkeep _ _ h]; exact h), hkeep _ _ h]
        · rw [w.ext s t (by rw [set_same]; exact hc), set_same]
        · intro htn a ha ha'
          apply hw a _ ha'
          rw [set_other (fun hh => htn hh.2.symm)]
          exact ha
      · have hunf : paint N (f + 1) K s t c = K.set s t c := by
          rw [paint, if_neg (by simp [hk])]
          simp only [e]
          exact hend _ (fun _ _ _ => rfl)
        rw [hunf]
        refine ⟨⟨hcons1, hkeep, set_same _ _ _ _, ?_, hop1⟩, ?_⟩
        · rintro a b hab
          obtain ⟨rfl, rfl⟩ := hos1 a b hab
          obtain ⟨-, b', hb', heb', -⟩ := hab
          exact hb' (hall b' (mem_fanouts.2 heb'))
        · intro htn a ha ha'
          rcases hK1 a n0 ha' with ⟨rfl, e'⟩ | h
          · exact absurd e'.symm htn
          · exact absurd ha h

/-! ## The roots of the recursion -/

/-- No painted edge has an unpainted neighbour. -/
def Closed (N : Ntk) (K : EdgeColors) : Prop := (∀ a b, ¬ OpenSib N K a b) ∧ (∀ a b, ¬ OpenSpo N K a b)

structure Rooted (N : Ntk) (Ex : Nat → Prop) (K : EdgeColors) (x n : Nat) (c : Color) (K' : EdgeColors) : Prop where
  cons : Cons N (fun t => Ex t ∨ t = n) K'
  ext : ∀ a b, K a b ≠ .null → K' a b = K a b
  here : K' x n = c
  closed : Closed N K'
  mixed : ∀ y, Edge N y n → K' y n ≠ c → (∃ t', t' ≠ n ∧ Edge N x t') ∧ (∃ t', t' ≠ n ∧ Edge N y t')

theorem paint_root {N : Ntk} (h3 : Net3 N) {Ex : Nat → Prop} {K : EdgeColors} {x n : Nat} {c : Color} (hc : c ≠ .null) (hk : K x n = .null)
    (he : Edge N x n) (hcons : Cons N Ex K) (hcl : Closed N K) : Rooted N Ex K x n c (paint N (fuel N) K x n c) := by
  obtain ⟨f, hf⟩ : ∃ f, fuel N = f + 1 := ⟨_, rfl⟩
  have hlt := set_unpainted he hk hc
  have hle := unpainted_le N K
  have hdec : unpainted N (K.set x n c) < f := by omega
  have hK1 : ∀ a b, K.set x n c a b ≠ .null → (a = x ∧ b = n) ∨ K a b ≠ .null := by
    intro a b h
    by_cases h' : a = x ∧ b = n
    · exact .inl h'
    · rw [set_other h'] at h
      exact .inr h
  have hkeep : ∀ a b, K a b ≠ .null → K.set x n c a b = K a b := by
    intro a b h
    apply set_other
    rintro ⟨rfl, rfl⟩
    exact h hk
  have hroot1 : K.set x n c x n ≠ .null := by rw [set_same]; exact hc
  have hcons1 : Cons N (fun t => Ex t ∨ t = n) (K.set x n c) := by
    refine ⟨?_, ?_, ?_⟩
    · intro a b h
      rcases hK1 a b h with ⟨rfl, rfl⟩ | h
      · exact he
      · exact hcons.edge a b h
    · intro a b b' hb h1 h2
      rcases hK1 a b h1 with ⟨rfl, rfl⟩ | h1'
      · have h2' : K a b' ≠ .null := by rwa [set_other (fun hh => hb hh.2.symm)] at h2
        exact absurd ⟨h2', b, hb, he, hk⟩ (hcl.1 a b')
      · rcases hK1 a b' h2 with ⟨rfl, rfl⟩ | h2'
        · exact absurd ⟨h1', b', Ne.symm hb, he, hk⟩ (hcl.1 a b)
        · rw [hkeep _ _ h1', hkeep _ _ h2']
          exact hcons.sib a b b' hb h1' h2'
    · intro a a' b h1 h2
      by_cases hb : b = n
      · exact .inr (.inr hb)
      · rw [set_other (fun hh => hb hh.2)] at h1 ⊢
        rw [set_other (fun hh => hb hh.2)] at h2 ⊢
        exact (hcons.spo a a' b h1 h2).imp id .inl
  have hos1 : ∀ a b, OpenSib N (K.set x n c) a b → a = x ∧ b = n := by
    rintro a b ⟨h1, b', hb', heb', hn⟩
    rcases hK1 a b h1 with h1' | h1'
    · exact h1'
    · refine absurd ⟨h1', b', hb', heb', ?_⟩ (hcl.1 a b)
      by_cases h' : a = x ∧ b' = n
      · rw [h'.1, h'.2]; exact hk
      · rwa [set_other h'] at hn
  have hop1 : ∀ a b, OpenSpo N (K.set x n c) a b → a = x ∧ b = n := by
    rintro a b ⟨h1, a', ha', hea', hn⟩
    rcases hK1 a b h1 with h1' | h1'
    · exact h1'
    · refine absurd ⟨h1', a', ha', hea', ?_⟩ (hcl.2 a b)
      by_cases h' : a' = x ∧ b = n
      · rw [h'.1, h'.2]; exact hk
      · rwa [set_other h'] at hn
  -- the other fanout of `x`
  have key : ∃ K2, (N.fanouts x).foldl (fun K t' => if t' = n then K else paint N f K x t' c.opp) (K.set x n c) = K2 ∧
      Cons N (fun t => Ex t ∨ t = n) K2 ∧ (∀ a b, K.set x n c a b ≠ .null → K2 a b = K.set x n c a b) ∧ (∀ a b, ¬ OpenSib N K2 a b) ∧
      (∀ a b, OpenSpo N K2 a b → a = x ∧ b = n) ∧
      (K2 = K.set x n c ∨ ((∃ t', t' ≠ n ∧ Edge N x t') ∧ NewSib N (K.set x n c) K2 n)) ∧ unpainted N K2 < f := by
    rcases foldl_skip (fanouts_nodup N x) (h3.fo x) (mem_fanouts.2 he) (fun K t' => paint N f K x t' c.opp) (K.set x n c) with
          ⟨u, hu, hum, e⟩ | ⟨hall, e⟩
    · have heu := mem_fanouts.1 hum
      have hku : K x u = .null := by
        by_contra hh
        exact hcl.1 x u ⟨hh, n, Ne.symm hu, he, hk⟩
      have hku1 : K.set x n c x u = .null := by rw [set_other (fun hh => hu hh.2)]; exact hku
      have ⟨w, hw⟩ := (walk h3 (Ex := fun t => Ex t ∨ t = n) (.inr rfl) f (K.set x n c) x u c.opp hdec hku1 heu (opp_ne c) hcons1 hroot1).1
        ⟨n, Ne.symm hu, he, by rw [set_same, opp_opp hc], hos1, hop1⟩
      refine ⟨_, e, w.cons, w.ext, w.noSib, w.spo, .inr ⟨⟨u, hu, heu⟩, hw⟩, ?_⟩
      refine lt_of_le_of_lt (Finset.card_le_card ?_) hdec
      intro p hp
      simp only [Finset.mem_filter] at hp ⊢
      refine ⟨hp.1, ?_⟩
      by_contra hh
      rw [w.ext _ _ hh] at hp
      exact hh hp.2
    · refine ⟨_, e, hcons1, fun _ _ _ => rfl, ?_, hop1, .inl rfl, hdec⟩
      rintro a b hab
      obtain ⟨rfl, rfl⟩ := hos1 a b hab
      obtain ⟨-, b', hb', heb', -⟩ := hab
      exact hb' (hall b' (mem_fanouts.2 heb'))
  obtain ⟨K2, hK2, hcons2, hext2, hos2, hop2, hsib2, hdec2⟩ := key
  have hx2 : K2 x n = c := by rw [hext2 x n hroot1, set_same]
  have hunf : paint N (fuel N) K x n c = (N.node n).fanins.foldl (fun K s' => if s' = x then K else paint N f K s' n c) K2 := by
    rw [hf, paint, if_neg (by simp [hk])]
    simp only [hK2]
  have hextK : ∀ a b, K a b ≠ .null → K2 a b = K a b := by
    intro a b h
    rw [hext2 a b (by rw [hkeep _ _ h]; exact h), hkeep _ _ h]
  rcases foldl_skip (h3.nodup n) (h3.len n) he (fun K s' => paint N f K s' n c) K2 with ⟨y, hy, hym, e⟩ | ⟨hall, e⟩
  · by_cases hky : K2 y n = .null
    · obtain ⟨w, -⟩ := (walk h3 (Ex := fun t => Ex t ∨ t = n) (.inr rfl) f K2 y n c hdec2 hky hym hc hcons2 (by rw [hx2]; exact hc)).2
        ⟨x, Ne.symm hy, he, hx2, hos2, fun a b h => .inl (hop2 a b h)⟩
      rw [hunf, e]
      have hx' : paint N f K2 y n c x n = c := by rw [w.ext x n (by rw [hx2]; exact hc), hx2]
      refine ⟨w.cons, ?_, hx', ⟨w.noSib, ?_⟩, ?_⟩
      · intro a b h
        rw [w.ext a b (by rw [hextK _ _ h]; exact h), hextK _ _ h]
      · rintro a b hab
        obtain ⟨rfl, rfl⟩ := w.spo a b hab
        obtain ⟨-, a', ha', hea', hn⟩ := hab
        have : a' = y := spo_unique h3 he hea' hym ha' hy
        rw [this, w.here] at hn
        exact hc hn
      · intro y' hy' hne
        by_cases hyx : y' = x
        · rw [hyx] at hne; exact absurd hx' hne
        · have : y' = y := spo_unique h3 he hy' hym hyx hy
          rw [this] at hne
          exact absurd w.here hne
    · have hpp : paint N f K2 y n c = K2 := paint_painted _ _ _ hky
      rw [hunf, e, hpp]
      refine ⟨hcons2, hextK, hx2, ⟨hos2, ?_⟩, ?_⟩
      · rintro a b hab
        obtain ⟨rfl, rfl⟩ := hop2 a b hab
        obtain ⟨-, a', ha', hea', hn⟩ := hab
        have : a' = y := spo_unique h3 he hea' hym ha' hy
        rw [this] at hn
        exact hky hn
      · intro y' hy' hne
        by_cases hyx : y' = x
        · rw [hyx] at hne; exact absurd hx2 hne
        · have hyy : y' = y := spo_unique h3 he hy' hym hyx hy
          subst hyy
          have hyk : K y' n = .null := by
            by_contra hh
            exact hcl.2 y' n ⟨hh, x, Ne.symm hyx, he, hk⟩
          have hyk1 : K.set x n c y' n = .null := by rw [set_other (fun hh => hyx hh.1)]; exact hyk
          rcases hsib2 with h | ⟨h, hw⟩
          · rw [h] at hky
            exact absurd hyk1 hky
          · exact ⟨h, hw y' hyk1 hky⟩
  · rw [hunf, e]
    refine ⟨hcons2, hextK, hx2, ⟨hos2, ?_⟩, ?_⟩
    · rintro a b hab
      obtain ⟨rfl, rfl⟩ := hop2 a b hab
      obtain ⟨-, a', ha', hea', -⟩ := hab
      exact ha' (hall a' hea')
    · intro y hy hne
      rw [hall y hy] at hne
      exact absurd hx2 hne

/-! ## The coloring -/

/-- A node whose first fanin comes from the south side of its source and whose second one comes from the east side: both fanins have
another fanout, which is not among the nodes `later`. -/
def Mixed (N : Ntk) (K : EdgeColors) (n : Nat) (later : List Nat) : Prop :=
  ∃ x y, (N.node n).fanins = [x, y] ∧ K x n = .south ∧ K y n = .east ∧ (∃ t', t' ≠ n ∧ Edge N x t') ∧ (∃ t', t' ≠ n ∧ Edge N y t') ∧
    ∀ t', t' ≠ n → Edge N x t' ∨ Edge N y t' → t' ∉ later

def NodeColor (N : Ntk) (K : EdgeColors) (col : Nat → Color) (n : Nat) (later : List Nat) : Prop :=
  (col n = .east ∧ ∀ s, Edge N s n → K s n = .east) ∨ (col n = .south ∧ ∀ s, Edge N s n → K s n = .south) ∨
    (col n = .null ∧ Mixed N K n later)

/-- The invariant of the coloring after the nodes `done` (in the order of the network). -/
structure CInv (N : Ntk) (done : List Nat) (st : EdgeColors × (Nat → Color)) : Prop where
  cons : Cons N (· ∈ done) st.1
  closed : Closed N st.1
  node : ∀ l n r, done = l ++ n :: r → NodeColor N st.1 st.2 n r
  other : ∀ n, n ∉ done → st.2 n = .null

theorem nodeColor_ext {N : Ntk} {K K' : EdgeColors} {col col' : Nat → Color} {n : Nat} {later : List Nat}
    (h : NodeColor N K col n later) (hk : ∀ a b, K a b ≠ .null → K' a b = K a b) (hc : col' n = col n) : NodeColor N K' col' n later := by
  unfold NodeColor at *
  rw [hc]
  rcases h with ⟨h1, h2⟩ | ⟨h1, h2⟩ | ⟨h1, x, y, hf, hx, hy, h2⟩
  · exact .inl ⟨h1, fun s hs => by rw [hk _ _ (by rw [h2 s hs]; simp), h2 s hs]⟩
  · exact .inr (.inl ⟨h1, fun s hs => by rw [hk _ _ (by rw [h2 s hs]; simp), h2 s hs]⟩)
  · exact .inr (.inr ⟨h1, x, y, hf, by rw [hk _ _ (by rw [hx]; simp), hx], by rw [hk _ _ (by rw [hy]; simp), hy], h2⟩)

/-- Once all fanins of the node have a color, the node gets the right one. -/
theorem colorGate_node {N : Ntk} {st : EdgeColors × (Nat → Color)} {n : Nat} {K' : EdgeColors} {later : List Nat}
    (hK : (N.node n).fanins.foldl (fun K f => paint N (fuel N) K f n
      (if (N.node n).fanins.any (fun f => decide (st.1 f n = .east)) then .east else .south)) st.1 = K')
    (hnc : st.2 n = .null)
    (h : (∀ s, Edge N s n → K' s n = .east) ∨ (∀ s, Edge N s n → K' s n = .south) ∨ Mixed N K' n later) (hne : (N.node n).fanins ≠ []) :
    (colorGate N st n).1 = K' ∧ NodeColor N K' (colorGate N st n).2 n later ∧ ∀ k, k ≠ n → (colorGate N st n).2 k = st.2 k := by
  unfold colorGate
  simp only [hK]
  obtain ⟨a, ha⟩ := List.exists_mem_of_ne_nil _ hne
  rcases h with h | h | h
  · rw [if_pos (by rw [List.all_eq_true]; intro s hs; exact decide_eq_true (h s hs))]
    exact ⟨rfl, .inl ⟨by simp, h⟩, fun k hk => by simp [hk]⟩
  · rw [if_neg (by
      rw [List.all_eq_true]
      intro hh
      have := of_decide_eq_true (hh a ha)
      rw [h a ha] at this
      cases this), if_pos (by rw [List.all_eq_true]; intro s hs; exact decide_eq_true (h s hs))]
    exact ⟨rfl, .inr (.inl ⟨by simp, h⟩), fun k hk => by simp [hk]⟩
  · obtain ⟨x, y, hf, hx, hy, h'⟩ := h
    rw [if_neg (by
      rw [List.all_eq_true]
      intro hh
      have := of_decide_eq_true (hh x (by rw [hf]; simp))
      rw [hx] at this
      cases this), if_neg (by
      rw [List.all_eq_true]
      intro hh
      have := of_decide_eq_true (hh y (by rw [hf]; simp))
      rw [hy] at this
      cases this)]
    exact ⟨rfl, .inr (.inr ⟨hnc, x, y, hf, hx, hy, h'⟩), fun _ _ => rfl⟩

theorem foldl_painted {N : Ntk} {K : EdgeColors} {n : Nat} {c : Color} (l : List Nat) (h : ∀ s ∈ l, K s n ≠ .null) :
    l.foldl (fun K f => paint N (fuel N) K f n c) K = K := by
  induction l with
  | nil => rfl
  | cons a l ih =>
    rw [List.foldl_cons, paint_painted _ _ _ (h a (by simp))]
    exact ih (fun s hs => h s (by simp [hs]))

theorem nonnull {c : Color} (h : c ≠ .null) : c = .east ∨ c = .south := by cases c <;> simp_all

theorem cinv_step {N : Ntk} (h3 : Net3 N) {done : List Nat} {st : EdgeColors × (Nat → Color)} {n : Nat} (hn : n ∉ done)
    (hne : (N.node n).fanins ≠ []) (h : CInv N done st) : CInv N (n :: done) (colorGate N st n) := by
  suffices ∃ K', (colorGate N st n).1 = K' ∧ NodeColor N K' (colorGate N st n).2 n done ∧
      (∀ k, k ≠ n → (colorGate N st n).2 k = st.2 k) ∧ Cons N (· ∈ n :: done) K' ∧ Closed N K' ∧
      (∀ a b, st.1 a b ≠ .null → K' a b = st.1 a b) by
    obtain ⟨K', e, h1, h2, h4, h5, h6⟩ := this
    refine ⟨by rw [e]; exact h4, by rw [e]; exact h5, ?_, ?_⟩
    · intro l k r hl
      rw [e]
      cases l with
      | nil =>
        rw [List.nil_append, List.cons.injEq] at hl
        rw [← hl.1, ← hl.2]
        exact h1
      | cons a l =>
        rw [List.cons_append, List.cons.injEq] at hl
        have hk : k ≠ n := by
          rintro rfl
          exact hn (by rw [hl.2]; simp)
        exact nodeColor_ext (h.node l k r hl.2) h6 (h2 k hk)
    · intro k hk
      rw [List.mem_cons, not_or] at hk
      rw [h2 k hk.1]
      exact h.other k hk.2
  have hcol := h.other n hn
  obtain ⟨x, hx⟩ := List.exists_mem_of_ne_nil _ hne
  by_cases hk : st.1 x n = .null
  · -- no fanin has a color
    have hall : ∀ s, Edge N s n → st.1 s n = .null := by
      intro s hs
      by_contra hh
      by_cases hsx : s = x
      · rw [hsx] at hh; exact hh hk
      · exact h.closed.2 s n ⟨hh, x, Ne.symm hsx, hx, hk⟩
    have hc : (if (N.node n).fanins.any (fun f => decide (st.1 f n = .east)) then Color.east else Color.south) = .south := by
      rw [if_neg]
      rw [List.any_eq_true]
      rintro ⟨s, hs, he⟩
      have := of_decide_eq_true he
      rw [hall s hs] at this
      cases this
    -- the first fanin
    obtain ⟨a, l, hal⟩ : ∃ a l, (N.node n).fanins = a :: l := by
      cases hfs : (N.node n).fanins with
      | nil => exact absurd hfs hne
      | cons a l => exact ⟨a, l, rfl⟩
    have haE : Edge N a n := by unfold Edge; rw [hal]; simp
    have R := paint_root h3 (c := .south) (by simp) (hall a haE) haE h.cons h.closed
    have hpainted : ∀ s, Edge N s n → paint N (fuel N) st.1 a n .south s n ≠ .null := by
      intro s hs hh
      by_cases hsa : s = a
      · rw [hsa, R.here] at hh; cases hh
      · exact R.closed.2 a n ⟨by rw [R.here]; simp, s, hsa, hs, hh⟩
    have hK : (N.node n).fanins.foldl (fun K f => paint N (fuel N) K f n
      (if (N.node n).fanins.any (fun f => decide (st.1 f n = .east)) then .east else .south)) st.1 = paint N (fuel N) st.1 a n .south := by
      rw [hc, hal, List.foldl_cons]
      exact foldl_painted l (fun s hs => hpainted s (by unfold Edge; rw [hal]; simp [hs]))
    have hcases : (∀ s, Edge N s n → paint N (fuel N) st.1 a n .south s n = .east) ∨
        (∀ s, Edge N s n → paint N (fuel N) st.1 a n .south s n = .south) ∨ Mixed N (paint N (fuel N) st.1 a n .south) n done := by
      by_cases hs : ∀ s, Edge N s n → paint N (fuel N) st.1 a n .south s n = .south
      · exact .inr (.inl hs)
      · push Not at hs
        obtain ⟨y, hy, hyc⟩ := hs
        have hya : y ≠ a := by rintro rfl; exact hyc R.here
        have hl : l = [y] := by
          have h1 := h3.len n
          have h2 : y ∈ l := by
            have : y ∈ (N.node n).fanins := hy
            rw [hal] at this
            exact (List.mem_cons.1 this).resolve_left hya
          rw [hal] at h1
          match l with
          | [] => cases h2
          | [b] => rw [List.mem_singleton] at h2; rw [h2]
          | _ :: _ :: _ => simp at h1
        have hm := R.mixed y hy hyc
        refine .inr (.inr ⟨a, y, by rw [hal, hl], R.here, ?_, hm.1, hm.2, ?_⟩)
        · exact (nonnull (hpainted y hy)).resolve_right hyc
        · intro t' ht' hE hmem
          obtain ⟨l', r', hd⟩ := List.append_of_mem hmem
          -- the edges into `t'` were painted before, hence those into `n`, too
          have hnode := h.node l' t' r' hd
          have hp : ∀ s, Edge N s t' → st.1 s t' ≠ .null := by
            intro s hs
            rcases hnode with ⟨-, h2⟩ | ⟨-, h2⟩ | ⟨-, u, v, hf, hu, hv, -⟩
            · rw [h2 s hs]; simp
            · rw [h2 s hs]; simp
            · unfold Edge at hs
              rw [hf] at hs
              simp only [List.mem_cons, List.not_mem_nil, or_false] at hs
              rcases hs with rfl | rfl
              · rw [hu]; simp
              · rw [hv]; simp
          rcases hE with hE | hE
          · exact h.closed.1 a t' ⟨hp a hE, n, Ne.symm ht', haE, hall a haE⟩
          · exact h.closed.1 y t' ⟨hp y hE, n, Ne.symm ht', hy, hall y hy⟩
    obtain ⟨r1, r2, r3⟩ := colorGate_node hK hcol hcases hne
    refine ⟨_, r1, r2, r3, ?_, R.closed, R.ext⟩
    refine ⟨R.cons.edge, R.cons.sib, fun s s' t h1 h2 => (R.cons.spo s s' t h1 h2).imp id ?_⟩
    rintro (hh | hh)
    · exact List.mem_cons_of_mem _ hh
    · rw [hh]; simp
  · -- all of them have
    have hall : ∀ s, Edge N s n → st.1 s n = st.1 x n := by
      intro s hs
      by_cases hsx : s = x
      · rw [hsx]
      · have hs' : st.1 s n ≠ .null := by
          intro hh
          exact h.closed.2 x n ⟨hk, s, hsx, hs, hh⟩
        exact (h.cons.spo s x n hs' hk).resolve_right hn
    have hK : (N.node n).fanins.foldl (fun K f => paint N (fuel N) K f n
      (if (N.node n).fanins.any (fun f => decide (st.1 f n = .east)) then .east else .south)) st.1 = st.1 :=
      foldl_painted _ (fun s hs => by rw [hall s hs]; exact hk)
    have hcases : (∀ s, Edge N s n → st.1 s n = .east) ∨ (∀ s, Edge N s n → st.1 s n = .south) ∨ Mixed N st.1 n done := by
      rcases nonnull hk with e | e
      · exact .inl (fun s hs => by rw [hall s hs, e])
      · exact .inr (.inl (fun s hs => by rw [hall s hs, e]))
    obtain ⟨r1, r2, r3⟩ := colorGate_node hK hcol hcases hne
    refine ⟨_, r1, r2, r3, ?_, h.closed, fun _ _ _ => rfl⟩
    exact ⟨h.cons.edge, h.cons.sib, fun s s' t h1 h2 => (h.cons.spo s s' t h1 h2).imp id (List.mem_cons_of_mem _)⟩

theorem cinv_coloring {N : Ntk} (h3 : Net3 N) (order : List Nat) (hn : order.Nodup) (hne : ∀ n ∈ order, (N.node n).fanins ≠ []) :
    CInv N order (coloring N order) := by
  unfold coloring
  rw [List.foldl_reverse]
  induction order with
  | nil =>
    refine ⟨⟨fun _ _ h => absurd rfl h, fun _ _ _ _ h => absurd rfl h, fun _ _ _ h => absurd rfl h⟩,
      ⟨fun _ _ h => h.1 rfl, fun _ _ h => h.1 rfl⟩, ?_, fun _ _ => rfl⟩
    intro l n r h
    simp at h
  | cons a l ih =>
    rw [List.nodup_cons] at hn
    rw [List.foldr_cons]
    exact cinv_step h3 hn.1 (hne a (by simp)) (ih hn.2 (fun n h => hne n (by simp [h])))

end Verif.PhysicalDesign.Ortho
