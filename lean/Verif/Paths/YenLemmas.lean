import Verif.Paths.YenSpec
import Verif.Paths.OptimalProps
import Mathlib.Data.List.Nodup
import Mathlib.Data.List.Chain
import Mathlib.Tactic.ByContra

/-! # Lemmas on Yen's algorithm -/
namespace Verif.Paths

open Verif.Layouts Verif.Clocking

/-! ## Candidates -/

theorem insertPath_perm (p : List Coord) : ∀ l, (insertPath p l).Perm (p :: l) := by
  intro l
  induction l with
  | nil => exact .refl _
  | cons q l ih =>
    simp only [insertPath]
    split
    · exact .refl _
    · exact (ih.cons q).trans (.swap _ _ _)

theorem mem_addPath {p c : List Coord} {l : List (List Coord)} : c ∈ addPath p l ↔ c = p ∨ c ∈ l := by
  unfold addPath
  split
  · constructor
    · exact Or.inr
    · rintro (rfl | h) <;> assumption
  · rw [(insertPath_perm p l).mem_iff, List.mem_cons]

theorem addPath_nodup {p : List Coord} {l : List (List Coord)} (h : l.Nodup) : (addPath p l).Nodup := by
  unfold addPath
  split
  · exact h
  · next hn => exact (insertPath_perm p l).nodup_iff.2 (List.nodup_cons.2 ⟨hn, h⟩)

theorem shortest_mem : ∀ (l : List (List Coord)) (c : List Coord), shortest c l = c ∨ shortest c l ∈ l := by
  intro l
  induction l with
  | nil => intro c; exact .inl rfl
  | cons q l ih =>
    intro c
    have e : shortest c (q :: l) = shortest (if q.length < c.length then q else c) l := rfl
    rw [e]
    rcases ih (if q.length < c.length then q else c) with h | h
    · rw [h]; split
      · exact .inr List.mem_cons_self
      · exact .inl rfl
    · exact .inr (List.mem_cons_of_mem _ h)

theorem shortest_le : ∀ (l : List (List Coord)) (c : List Coord), (shortest c l).length ≤ c.length ∧
    ∀ p ∈ l, (shortest c l).length ≤ p.length := by
  intro l
  induction l with
  | nil => intro c; simp [shortest]
  | cons q l ih =>
    intro c
    have e : shortest c (q :: l) = shortest (if q.length < c.length then q else c) l := rfl
    rw [e]
    obtain ⟨h1, h2⟩ := ih (if q.length < c.length then q else c)
    have h3 : (if q.length < c.length then q else c).length ≤ c.length ∧
        (if q.length < c.length then q else c).length ≤ q.length := by
      split <;> omega
    refine ⟨by omega, ?_⟩
    intro p hp
    rcases List.mem_cons.1 hp with rfl | hp
    · omega
    · exact h2 p hp

/-! ## Moves under additional obstructions -/

section
variable {l : RLayout} {cr : Bool} {t : Coord}

theorem above_z (m : Dim) (c : Coord) (h : Cart.above m c ≠ c) (hd : (Cart.above m c).d = false) :
    (Cart.above m c).z = c.z + 1 := by
  unfold Cart.above at *
  grind

theorem Move.down (hcr : ∀ u c, l.crossable u c = true → l.obstructed c = true) (ht : t.z = 0) (htd : t.d = false) {o o1 : Obs}
    {u v : Coord} (h : Move (l.withObs o1) cr t u v) (h1 : v ∈ o.coords → v ∈ o1.coords)
    (h2 : (u, v) ∈ o.conns → (u, v) ∈ o1.conns) : Move (l.withObs o) cr t u v := by
  obtain ⟨n, hn, a1, a2, a3⟩ := h
  refine ⟨n, hn, ?_, ?_, ?_⟩
  · simp only [RLayout.withObs, Bool.or_eq_false_iff, decide_eq_false_iff_not] at a1 ⊢
    exact ⟨fun h => a1.1 (h2 h), a1.2⟩
  · simp only [RLayout.withObs, Bool.or_eq_false_iff, decide_eq_false_iff_not] at a2 ⊢
    rcases a2 with a2 | a2
    · exact .inl ⟨fun h => a2.1 (h1 h), a2.2⟩
    · exact .inr a2
  · rcases a3 with a3 | ⟨b1, b2, b3, b4, b5, b6⟩
    · exact .inl a3
    · refine .inr ⟨b1, b2, b3, ?_, b5, b6⟩
      rcases b6 with b6 | b6
      · have := hcr _ _ b6
        simp only [RLayout.withObs, Bool.or_eq_true]
        exact .inr this
      · exfalso
        have hz : v.z = (Cart.below n).z + 1 := by
          rw [b2]; exact above_z _ _ (by rw [← b2]; exact b3) (by rw [← b2, b6]; exact htd)
        rw [b6] at hz; omega

end

/-! ## Prefixes -/

theorem take_append_of_take {α : Type} {p q : List α} {i : Nat} (h : p.take (i + 1) = q.take (i + 1)) :
    p.take i = q.take i := by
  have := congrArg (List.take i) h
  simpa [List.take_take, Nat.min_eq_left (Nat.le_succ i)] using this

theorem take_get {α : Type} {p q : List α} {i j : Nat} (h : p.take j = q.take j) (hi : i < j) : p[i]? = q[i]? := by
  have := congrArg (fun l => l[i]?) h
  simpa [List.getElem?_take, hi] using this

theorem prefix_last {α : Type} {p q : List α} {t : α} (hp : p.getLast? = some t) (hq : q.getLast? = some t)
    (hnd : q.Nodup) {j : Nat} (h : p = q.take j) : p = q := by
  by_cases hj : q.length ≤ j
  · rw [List.take_of_length_le hj] at h; exact h
  · exfalso
    have e := List.take_append_drop j q
    have hd : q.drop j ≠ [] := by
      intro h0
      have := congrArg List.length h0
      simp at this; omega
    have hl : (q.drop j).getLast? = some t := by
      rw [← e, List.getLast?_append_of_ne_nil _ hd] at hq
      exact hq
    rw [← e, List.nodup_append] at hnd
    have m1 : t ∈ q.take j := by rw [← h]; exact List.mem_of_getLast? hp
    have m2 : t ∈ q.drop j := List.mem_of_getLast? hl
    exact hnd.2.2 t m1 t m2 rfl

theorem isChain_get {α : Type} {R : α → α → Prop} {p : List α} :
    p.IsChain R ↔ ∀ k a b, p[k]? = some a → p[k + 1]? = some b → R a b := by
  rw [List.isChain_iff_getElem]
  constructor
  · intro h k a b ha hb
    obtain ⟨h1, rfl⟩ := List.getElem?_eq_some_iff.1 ha
    obtain ⟨h2, rfl⟩ := List.getElem?_eq_some_iff.1 hb
    exact h k h2
  · intro h k hk
    exact h k _ _ (List.getElem?_eq_getElem (by omega)) (List.getElem?_eq_getElem hk)

/-! ## One spur -/

/-- The obstructions during the search: those of the user, but the one of the source may be lost. -/
structure Kept (s : Coord) (o o' : Obs) : Prop where
  sub : ∀ c ∈ o'.coords, c ∈ o.coords
  sup : ∀ c ∈ o.coords, c ≠ s → c ∈ o'.coords
  conns : ∀ e, e ∈ o'.conns ↔ e ∈ o.conns

/-- `c` continues the first `i + 1` coordinates of `q` in a way that none of `paths` does. -/
def Fresh (paths : List (List Coord)) (i : Nat) (q c : List Coord) : Prop :=
  c.take (i + 1) = q.take (i + 1) ∧ ∀ p ∈ paths, p.take (i + 1) = q.take (i + 1) → p[i + 1]? ≠ c[i + 1]?

theorem mem_usedConns {paths : List (List Coord)} {root : List Coord} {i : Nat} {a b : Coord} :
    (a, b) ∈ usedConns paths root i ↔ ∃ p ∈ paths, p.take i = root ∧ p[i]? = some a ∧ p[i + 1]? = some b := by
  unfold usedConns
  rw [List.mem_filterMap]
  refine exists_congr fun p => and_congr_right fun _ => ?_
  grind

theorem Route.ne_nil {l : RLayout} {cr : Bool} {s t : Coord} {p : List Coord} (h : Route l cr s t p) : p ≠ [] := by
  rintro rfl; have := h.head; simp at this

theorem Route.get_zero {l : RLayout} {cr : Bool} {s t : Coord} {p : List Coord} (h : Route l cr s t p) :
    p[0]? = some s := by
  rw [← List.head?_eq_getElem?]; exact h.head

/-- What is fixed during a run. -/
structure Setting where
  l : RLayout
  o : Obs
  cr : Bool
  s : Coord
  t : Coord
  hX : l.m.X < 2^31 - 1
  hY : l.m.Y < 2^31 - 1
  hs : InBounds l.m s
  ht : InBounds l.m t
  hz : t.z = 0
  hcr : ∀ u c, l.crossable u c = true → l.obstructed c = true

/-- What is needed of the search. -/
structure Finds (E : Setting) (search : Obs → Coord → Option (List Coord)) : Prop where
  sound : ∀ o u r, InBounds E.l.m u → search o u = some r → r ≠ [] → Route (E.l.withObs o) E.cr u E.t r
  complete : ∀ o u, InBounds E.l.m u → search o u = some [] → ∀ r, ¬ Route (E.l.withObs o) E.cr u E.t r

variable {E : Setting} {search : Obs → Coord → Option (List Coord)}

/-- The paths between source and target in the layout the user passed. -/
def Setting.R (E : Setting) (p : List Coord) : Prop := Route (E.l.withObs E.o) E.cr E.s E.t p

theorem Setting.R.inBounds {p : List Coord} (h : E.R p) : ∀ (k : Nat) c, p[k]? = some c → InBounds E.l.m c := by
  intro k
  induction k with
  | zero =>
    intro c hc
    rw [Route.get_zero h] at hc
    cases hc; exact E.hs
  | succ k ih =>
    intro c hc
    obtain ⟨h1, -⟩ := List.getElem?_eq_some_iff.1 hc
    have ha := List.getElem?_eq_getElem (l := p) (i := k) (by omega)
    exact Move.inBounds (l := E.l.withObs E.o) E.hX E.hY (ih _ ha) (isChain_get.1 h.chain k _ _ ha hc)

/-- The parts of a path at a spur. -/
theorem Setting.R.split {p : List Coord} (h : E.R p) {i : Nat} {u : Coord} (hu : p[i]? = some u) (hi : i + 1 < p.length) :
    p = p.take i ++ u :: p.drop (i + 1) ∧ p.drop (i + 1) ≠ [] ∧ u ∉ p.take i ∧ E.t ∉ p.take i ∧ u ≠ E.t ∧
      (i ≠ 0 → E.s ∈ p.take i) ∧ (i = 0 → u = E.s) := by
  have e : p = p.take i ++ u :: p.drop (i + 1) := by
    obtain ⟨h1, h2⟩ := List.getElem?_eq_some_iff.1 hu
    conv_lhs => rw [← List.take_append_drop i p]
    rw [List.drop_eq_getElem_cons h1, h2]
  have hd : p.drop (i + 1) ≠ [] := by
    intro h0; have := congrArg List.length h0; simp at this; omega
  have hlast : E.t ∈ p.drop (i + 1) := by
    have h1 := h.last
    rw [e, show p.take i ++ u :: p.drop (i + 1) = (p.take i ++ [u]) ++ p.drop (i + 1) by simp,
      List.getLast?_append_of_ne_nil _ hd] at h1
    exact List.mem_of_getLast? h1
  have hn := h.nodup
  rw [e, List.nodup_append] at hn
  obtain ⟨n1, n2, n3⟩ := hn
  rw [List.nodup_cons] at n2
  refine ⟨e, hd, ?_, ?_, ?_, ?_, ?_⟩
  · intro hm; exact n3 u hm u List.mem_cons_self rfl
  · intro hm; exact n3 _ hm _ (List.mem_cons_of_mem _ hlast) rfl
  · rintro rfl; exact n2.1 hlast
  · intro h0
    have h1 : (p.take i)[0]? = some E.s := by
      rw [List.getElem?_take, if_pos (by omega)]; exact Route.get_zero h
    exact List.mem_of_getElem? h1
  · rintro rfl
    have := Route.get_zero h
    rw [hu] at this; exact Option.some.inj this

/-- A path that is found is a new path of the user's layout. -/
theorem spur_new {paths : List (List Coord)} (hp : ∀ p ∈ paths, E.R p) {latest : List Coord} (hl : latest ∈ paths)
    {o' : Obs} (ho : Kept E.s E.o o') {i : Nat} {u : Coord} (hu : latest[i]? = some u) (hi : i + 1 < latest.length)
    {r : List Coord}
    (hr : Route (E.l.withObs (o'.block ((latest.take i).filter fun c => decide (c ≠ u))
      (usedConns paths (latest.take i) i))) E.cr u E.t r) :
    E.R (latest.take i ++ r) ∧ Fresh paths i latest (latest.take i ++ r) := by
  have hL := hp _ hl
  obtain ⟨e, hd, hur, htr, hut, hs1, hs0⟩ := hL.split hu hi
  obtain ⟨r', rfl⟩ : ∃ r', r = u :: r' := by
    cases r with
    | nil => exact absurd rfl hr.ne_nil
    | cons a r' => have := hr.head; simp at this; exact ⟨r', by rw [this]⟩
  have hnd := List.nodup_cons.1 hr.nodup
  have htail : ∀ v ∈ r', v ∉ latest.take i := by
    intro v hv hvr
    obtain ⟨k, hk⟩ := List.mem_iff_getElem?.1 hv
    have hk' : (u :: r')[k + 1]? = some v := by simpa using hk
    obtain ⟨h1, -⟩ := List.getElem?_eq_some_iff.1 hk'
    have ha := List.getElem?_eq_getElem (l := u :: r') (i := k) (by omega)
    obtain ⟨n, -, -, h2, -⟩ := isChain_get.1 hr.chain k _ _ ha hk'
    rcases h2 with h2 | rfl
    · simp only [RLayout.withObs, Obs.block, Bool.or_eq_false_iff, decide_eq_false_iff_not, List.mem_append] at h2
      apply h2.1
      refine .inl (List.mem_filter.2 ⟨hvr, ?_⟩)
      simp only [decide_eq_true_eq]
      rintro rfl; exact hur hvr
    · exact htr hvr
  have hns : ∀ v ∈ r', v ≠ E.s := by
    intro v hv hvs
    by_cases h0 : i = 0
    · rw [hvs, ← hs0 h0] at hv; exact hnd.1 hv
    · have := hs1 h0
      rw [← hvs] at this; exact htail v hv this
  have hchain : (u :: r').IsChain (Move (E.l.withObs E.o) E.cr E.t) := by
    refine List.IsChain.imp_of_mem_tail_imp ?_ hr.chain
    intro a b _ hb hm
    refine Move.down E.hcr E.hz E.ht.1 hm ?_ ?_
    · intro h; exact List.mem_append_right _ (ho.sup _ h (hns b hb))
    · intro h; exact List.mem_append_right _ ((ho.conns _).2 h)
  have hroute : E.R (latest.take i ++ u :: r') := by
    refine ⟨?_, ?_, ?_, ?_⟩
    · have := hL.head
      rw [e] at this
      rw [List.head?_append] at this ⊢
      simpa using this
    · rw [List.getLast?_append_of_ne_nil _ (by simp)]; exact hr.last
    · rw [List.nodup_append]
      refine ⟨hL.nodup.sublist (List.take_sublist _ _), hr.nodup, ?_⟩
      rintro a ha b hb rfl
      rcases List.mem_cons.1 hb with rfl | hb
      · exact hur ha
      · exact htail _ hb ha
    · have hc := hL.chain
      rw [e, List.isChain_append] at hc
      rw [List.isChain_append]
      exact ⟨hc.1, hchain, by simpa using hc.2.2⟩
  refine ⟨hroute, ?_, ?_⟩
  · rw [e]
    have hlen : (latest.take i).length = i := by simp; omega
    simp [List.take_append, hlen, List.take_take]
  · intro p hpm hpt hne
    have hlen : (latest.take i).length = i := by simp; omega
    obtain ⟨v, r'', rfl⟩ : ∃ v r'', r' = v :: r'' := by
      cases r' with
      | nil => have := hr.last; simp at this; exact absurd this hut
      | cons v r'' => exact ⟨v, r'', rfl⟩
    have hv : (latest.take i ++ u :: v :: r'')[i + 1]? = some v := by
      rw [List.getElem?_append_right (by omega), hlen]; simp
    rw [hv] at hne
    have hpi : p[i]? = some u := by rw [take_get hpt (Nat.lt_succ_self i)]; exact hu
    have hm : (u, v) ∈ usedConns paths (latest.take i) i :=
      mem_usedConns.2 ⟨p, hpm, take_append_of_take hpt, hpi, hne⟩
    obtain ⟨n, -, h1, -⟩ := isChain_get.1 hr.chain 0 u v (by simp) (by simp)
    simp only [RLayout.withObs, Obs.block, Bool.or_eq_false_iff, decide_eq_false_iff_not, List.mem_append] at h1
    exact h1.1 (.inl hm)

/-- Clearing the temporary obstructions restores the user's, except for the source. -/
theorem spur_clear {paths : List (List Coord)} (hp : ∀ p ∈ paths, E.R p) {latest : List Coord} (hl : latest ∈ paths)
    {o' : Obs} (ho : Kept E.s E.o o') {i : Nat} {u : Coord} (hu : latest[i]? = some u) (hi : i + 1 < latest.length) :
    Kept E.s E.o (((o'.block ((latest.take i).filter fun c => decide (c ≠ u))
      (usedConns paths (latest.take i) i))).clear ((latest.take i).filter fun c => decide (c ≠ u))
      (usedConns paths (latest.take i) i)) := by
  have hL := hp _ hl
  obtain ⟨e, hd, hur, htr, hut, hs1, hs0⟩ := hL.split hu hi
  refine ⟨?_, ?_, ?_⟩
  · intro c hc
    simp only [Obs.clear, Obs.block, List.mem_filter, List.mem_append, decide_eq_true_eq] at hc
    rcases hc.1 with h | h
    · exact absurd h hc.2
    · exact ho.sub c h
  · intro c hc hcs
    simp only [Obs.clear, Obs.block, List.mem_filter, List.mem_append, decide_eq_true_eq]
    refine ⟨.inr (ho.sup c hc hcs), ?_⟩
    rintro ⟨hm, -⟩
    obtain ⟨k, hk⟩ := List.mem_iff_getElem?.1 hm
    have hk2 : latest[k]? = some c := by
      rw [List.getElem?_take] at hk
      split at hk
      · exact hk
      · cases hk
    cases k with
    | zero =>
      have := Route.get_zero hL
      rw [hk2] at this; exact hcs (Option.some.inj this)
    | succ k =>
      obtain ⟨h1, -⟩ := List.getElem?_eq_some_iff.1 hk2
      have ha := List.getElem?_eq_getElem (l := latest) (i := k) (by omega)
      obtain ⟨n, -, -, h2, -⟩ := isChain_get.1 hL.chain k _ _ ha hk2
      rcases h2 with h2 | rfl
      · simp only [RLayout.withObs, Bool.or_eq_false_iff, decide_eq_false_iff_not] at h2
        exact h2.1 hc
      · exact htr hm
  · rintro ⟨a, b⟩
    simp only [Obs.clear, Obs.block, List.mem_filter, List.mem_append, decide_eq_true_eq]
    rw [← ho.conns]
    constructor
    · rintro ⟨h | h, h'⟩
      · exact absurd h h'
      · exact h
    · intro h
      refine ⟨.inr h, ?_⟩
      intro hm
      obtain ⟨p, hpm, -, h1, h2⟩ := mem_usedConns.1 hm
      obtain ⟨n, -, h3, -⟩ := isChain_get.1 (hp p hpm).chain i a b h1 h2
      simp only [RLayout.withObs, Bool.or_eq_false_iff, decide_eq_false_iff_not] at h3
      exact h3.1 ((ho.conns _).1 h)

theorem rank_get {f : Coord → Nat} (hf : ∀ a b, Move (E.l.withObs E.o) E.cr E.t a b → f b = f a + 1) {p : List Coord}
    (h : E.R p) : ∀ (k : Nat) c, p[k]? = some c → f c = f E.s + k := by
  intro k
  induction k with
  | zero => intro c hc; rw [Route.get_zero h] at hc; cases hc; rfl
  | succ k ih =>
    intro c hc
    obtain ⟨h1, -⟩ := List.getElem?_eq_some_iff.1 hc
    have ha := List.getElem?_eq_getElem (l := p) (i := k) (by omega)
    have := hf _ _ (isChain_get.1 h.chain k _ _ ha hc)
    rw [this, ih _ ha]; omega

/-- If every step increases a rank by one, the blocked connections leave every new path open. -/
theorem spur_exists {f : Coord → Nat} (hf : ∀ a b, Move (E.l.withObs E.o) E.cr E.t a b → f b = f a + 1)
    {paths : List (List Coord)} (hp : ∀ p ∈ paths, E.R p) {latest : List Coord} (hl : latest ∈ paths)
    {o' : Obs} (ho : Kept E.s E.o o') {i : Nat} {u : Coord} (hu : latest[i]? = some u) (hi : i + 1 < latest.length)
    {q : List Coord} (hq : E.R q) (hF : Fresh paths i latest q) :
    Route (E.l.withObs (o'.block ((latest.take i).filter fun c => decide (c ≠ u))
      (usedConns paths (latest.take i) i))) E.cr u E.t (q.drop i) := by
  have hL := hp _ hl
  obtain ⟨e, hd, hur, htr, hut, hs1, hs0⟩ := hL.split hu hi
  have hqu : q[i]? = some u := by rw [take_get hF.1 (Nat.lt_succ_self i)]; exact hu
  have hqt : q.take i = latest.take i := take_append_of_take hF.1
  obtain ⟨hiq, hqi⟩ := List.getElem?_eq_some_iff.1 hqu
  have hdne : q.drop i ≠ [] := by
    intro h0; have := congrArg List.length h0; simp at this; omega
  refine ⟨?_, ?_, ?_, ?_⟩
  · rw [List.head?_drop]; exact hqu
  · have := hq.last
    rw [← List.take_append_drop i q, List.getLast?_append_of_ne_nil _ hdne] at this
    exact this
  · exact hq.nodup.sublist (List.drop_sublist _ _)
  · rw [isChain_get]
    intro k a b ha hb
    rw [List.getElem?_drop] at ha hb
    have hm := isChain_get.1 hq.chain (i + k) a b ha (by rw [← hb]; congr 1)
    refine Move.down E.hcr E.hz E.ht.1 hm ?_ ?_
    · intro h
      rcases List.mem_append.1 h with h | h
      · exfalso
        have h1 := (List.mem_filter.1 h).1
        rw [← hqt] at h1
        have hn := hq.nodup
        rw [← List.take_append_drop i q, List.nodup_append] at hn
        refine hn.2.2 b h1 b ?_ rfl
        exact List.mem_iff_getElem?.2 ⟨k + 1, by rw [List.getElem?_drop]; exact hb⟩
      · exact ho.sub _ h
    · intro h
      rcases List.mem_append.1 h with h | h
      · exfalso
        obtain ⟨p, hpm, h1, h2, h3⟩ := mem_usedConns.1 h
        have r1 := rank_get hf (hp p hpm) i a h2
        have r2 := rank_get hf hq (i + k) a ha
        obtain rfl : k = 0 := by omega
        have hau : a = u := by
          have := ha; simp only [Nat.add_zero] at this; rw [hqu] at this; exact (Option.some.inj this).symm
        subst hau
        refine hF.2 p hpm ?_ (by rw [h3]; exact hb.symm)
        rw [List.take_add_one, List.take_add_one, h1, h2, hu]
      · exact (ho.conns _).1 h

/-! ## The loops -/

theorem spurStep_spec (hS : Finds E search) {paths : List (List Coord)} (hp : ∀ p ∈ paths, E.R p) {latest : List Coord}
    (hl : latest ∈ paths) {o' : Obs} (ho : Kept E.s E.o o') {i : Nat} (hi : i + 1 < latest.length)
    {cands : List (List Coord)} {st : Obs × List (List Coord)}
    (h : spurStep search paths latest (o', cands) i = some st) :
    Kept E.s E.o st.1 ∧
    (st.2 = cands ∨ ∃ p, E.R p ∧ Fresh paths i latest p ∧ st.2 = addPath p cands) ∧
    ((∃ f : Coord → Nat, ∀ a b, Move (E.l.withObs E.o) E.cr E.t a b → f b = f a + 1) →
      ∀ q, E.R q → Fresh paths i latest q → ∃ p, E.R p ∧ Fresh paths i latest p ∧ st.2 = addPath p cands) := by
  have hu : latest[i]? = some latest[i] := List.getElem?_eq_getElem (by omega)
  generalize latest[i] = u at hu
  have hub := (hp _ hl).inBounds i u hu
  unfold spurStep at h
  rw [hu] at h
  simp only at h
  split at h
  · cases h
  · next sp hsp =>
    cases h
    refine ⟨spur_clear hp hl ho hu hi, ?_, ?_⟩
    · by_cases he : sp = []
      · left; simp [he]
      · right
        simp only [if_neg he]
        obtain ⟨h1, h2⟩ := spur_new hp hl ho hu hi (hS.sound _ _ _ hub hsp he)
        exact ⟨_, h1, h2, rfl⟩
    · rintro ⟨f, hf⟩ q hq hF
      have hr := spur_exists hf hp hl ho hu hi hq hF
      have he : sp ≠ [] := by
        rintro rfl
        exact hS.complete _ _ hub hsp _ hr
      simp only [if_neg he]
      obtain ⟨h1, h2⟩ := spur_new hp hl ho hu hi (hS.sound _ _ _ hub hsp he)
      exact ⟨_, h1, h2, rfl⟩

/-- The candidates are paths that are not among the found ones. -/
structure Cands (E : Setting) (paths cands : List (List Coord)) : Prop where
  route : ∀ c ∈ cands, E.R c
  new : ∀ c ∈ cands, c ∉ paths
  nodup : cands.Nodup

theorem Fresh.not_mem {paths : List (List Coord)} {i : Nat} {q c : List Coord} (h : Fresh paths i q c) : c ∉ paths :=
  fun hc => h.2 c hc h.1 rfl

theorem spurs_spec (hS : Finds E search) {paths : List (List Coord)} (hp : ∀ p ∈ paths, E.R p) {latest : List Coord}
    (hl : latest ∈ paths) : ∀ (is : List Nat), (∀ i ∈ is, i + 1 < latest.length) → ∀ (o' : Obs) (cands : List (List Coord))
    (st : Obs × List (List Coord)), Kept E.s E.o o' → Cands E paths cands →
    is.foldlM (spurStep search paths latest) (o', cands) = some st →
    Kept E.s E.o st.1 ∧ Cands E paths st.2 ∧ (∀ c ∈ cands, c ∈ st.2) ∧
    ((∃ f : Coord → Nat, ∀ a b, Move (E.l.withObs E.o) E.cr E.t a b → f b = f a + 1) →
      ∀ i ∈ is, ∀ q, E.R q → Fresh paths i latest q → ∃ p ∈ st.2, Fresh paths i latest p) := by
  intro is
  induction is with
  | nil =>
    intro _ o' cands st ho hc h
    simp only [List.foldlM_nil] at h
    cases h
    exact ⟨ho, hc, fun c h => h, fun _ i hi => by simp at hi⟩
  | cons i is ih =>
    intro hi o' cands st ho hc h
    rw [List.foldlM_cons] at h
    obtain ⟨st1, h1, h2⟩ := Option.bind_eq_some_iff.1 h
    obtain ⟨a1, a2, a3⟩ := spurStep_spec hS hp hl ho (hi i List.mem_cons_self) h1
    have hc1 : Cands E paths st1.2 ∧ ∀ c ∈ cands, c ∈ st1.2 := by
      rcases a2 with a2 | ⟨p, p1, p2, p3⟩
      · rw [a2]; exact ⟨hc, fun c h => h⟩
      · rw [p3]
        refine ⟨⟨?_, ?_, addPath_nodup hc.nodup⟩, fun c h => mem_addPath.2 (.inr h)⟩
        · intro c hm
          rcases mem_addPath.1 hm with rfl | hm
          · exact p1
          · exact hc.route c hm
        · intro c hm
          rcases mem_addPath.1 hm with rfl | hm
          · exact p2.not_mem
          · exact hc.new c hm
    obtain ⟨b1, b2, b3, b4⟩ := ih (fun j hj => hi j (List.mem_cons_of_mem _ hj)) st1.1 st1.2 st a1 hc1.1 h2
    refine ⟨b1, b2, fun c h => b3 c (hc1.2 c h), ?_⟩
    intro hf j hj q hq hF
    rcases List.mem_cons.1 hj with rfl | hj
    · obtain ⟨p, -, p2, p3⟩ := a3 hf q hq hF
      exact ⟨p, b3 p (by rw [p3]; exact mem_addPath.2 (.inl rfl)), p2⟩
    · exact b4 hf j hj q hq hF

/-- `q` leaves the paths found so far after its first `j + 1` coordinates. -/
def Leaves (paths : List (List Coord)) (j : Nat) (q : List Coord) : Prop :=
  (∃ p ∈ paths, p.take (j + 1) = q.take (j + 1)) ∧ ∀ p ∈ paths, p.take (j + 1) = q.take (j + 1) → p[j + 1]? ≠ q[j + 1]?

theorem leaves_exists {paths : List (List Coord)} (hp : ∀ p ∈ paths, E.R p) (hne : paths ≠ []) {q : List Coord}
    (hq : E.R q) (hn : q ∉ paths) : ∃ j, Leaves paths j q := by
  by_contra hno
  have key : ∀ j, ∃ p ∈ paths, p.take (j + 1) = q.take (j + 1) := by
    intro j
    induction j with
    | zero =>
      obtain ⟨p, hpm⟩ := List.exists_mem_of_ne_nil _ hne
      refine ⟨p, hpm, ?_⟩
      rw [List.take_add_one, List.take_add_one, Route.get_zero (hp p hpm), Route.get_zero hq]
      simp
    | succ j ih =>
      by_contra hc
      refine hno ⟨j, ih, ?_⟩
      intro p hpm hpt he
      exact hc ⟨p, hpm, by rw [List.take_add_one (i := j + 1), List.take_add_one (i := j + 1), hpt, he]⟩
  obtain ⟨p, hpm, hpt⟩ := key q.length
  rw [List.take_of_length_le (l := q) (by omega)] at hpt
  have := prefix_last hq.last (hp p hpm).last (hp p hpm).nodup hpt.symm
  exact hn (this ▸ hpm)

theorem share_lt {p q : List Coord} (hp : E.R p) (hq : E.R q) {j : Nat} (h : p.take (j + 1) = q.take (j + 1))
    (hne : p[j + 1]? ≠ q[j + 1]?) : j + 1 < p.length := by
  by_contra hc
  rw [List.take_of_length_le (l := p) (by omega)] at h
  have := prefix_last hp.last hq.last hq.nodup h
  subst this
  exact hne rfl

theorem yenLoop_spec (hS : Finds E search) : ∀ (n : Nat) (paths : List (List Coord)) (o' : Obs)
    (cands : List (List Coord)) (res : List (List Coord)) (o'' : Obs), paths ≠ [] → (∀ p ∈ paths, E.R p) → paths.Nodup →
    Kept E.s E.o o' → Cands E paths cands → yenLoop search n paths o' cands = some (res, o'') →
    Kept E.s E.o o'' ∧ (∀ p ∈ res, E.R p) ∧ res.Nodup ∧ (∃ more, res = paths ++ more ∧ more.length ≤ n) ∧
    ((∃ f : Coord → Nat, ∀ a b, Move (E.l.withObs E.o) E.cr E.t a b → f b = f a + 1) →
      (∀ q, E.R q → ∀ j, Leaves paths j q → (∃ p, paths.getLast? = some p ∧ p.take (j + 1) = q.take (j + 1)) ∨
        ∃ c ∈ cands, Fresh paths j q c) →
      res.length = paths.length + n ∨ ∀ q, E.R q → q ∈ res) := by
  intro n
  induction n with
  | zero =>
    intro paths o' cands res o'' hne hp hnd ho hc h
    simp only [yenLoop] at h
    cases h
    exact ⟨ho, hp, hnd, ⟨[], by simp⟩, fun _ _ => .inl rfl⟩
  | succ n ih =>
    intro paths o' cands res o'' hne hp hnd ho hc h
    simp only [yenLoop] at h
    split at h
    · cases h
    next latest hlat =>
    have hl : latest ∈ paths := List.mem_of_getLast? hlat
    split at h
    · cases h
    · next o1 hfold =>
      cases h
      obtain ⟨a1, a2, a3, a4⟩ := spurs_spec hS hp hl _ (fun i hi => by have := List.mem_range.1 hi; omega) _ _ _ ho hc hfold
      refine ⟨a1, hp, hnd, ⟨[], by simp⟩, ?_⟩
      intro hf hI
      right
      intro q hq
      by_contra hqn
      obtain ⟨j, hj⟩ := leaves_exists hp hne hq hqn
      rcases hI q hq j hj with ⟨p, hp1, hp2⟩ | ⟨c, hcm, -⟩
      · rw [hlat] at hp1; cases hp1
        have hlt := share_lt (hp _ hl) hq hp2 (hj.2 _ hl hp2)
        obtain ⟨c, hcm, -⟩ := a4 hf j (List.mem_range.2 (by omega)) q hq
          ⟨hp2.symm, fun p hpm hpt => hj.2 p hpm (hpt.trans hp2)⟩
        simp at hcm
      · have := a3 c hcm; simp at this
    · next o1 c cs hfold =>
      obtain ⟨a1, a2, a3, a4⟩ := spurs_spec hS hp hl _ (fun i hi => by have := List.mem_range.1 hi; omega) _ _ _ ho hc hfold
      simp only at a1 a2 a3 a4
      generalize hpe : shortest c cs = p at h
      have hpm : p ∈ c :: cs := by
        rw [← hpe]
        rcases shortest_mem cs c with h | h
        · rw [h]; exact List.mem_cons_self
        · exact List.mem_cons_of_mem _ h
      generalize hcc : c :: cs = cc at *
      have hp' : ∀ q ∈ paths ++ [p], E.R q := by
        intro q hq
        rcases List.mem_append.1 hq with hq | hq
        · exact hp q hq
        · rw [List.mem_singleton.1 hq]; exact a2.route p hpm
      have hnd' : (paths ++ [p]).Nodup := by
        rw [List.nodup_append]
        refine ⟨hnd, by simp, ?_⟩
        rintro a ha b hb rfl
        rw [List.mem_singleton.1 hb] at ha
        exact a2.new p hpm ha
      have hc' : Cands E (paths ++ [p]) (cc.erase p) := by
        refine ⟨fun d hd => a2.route d (List.mem_of_mem_erase hd), ?_, a2.nodup.erase p⟩
        intro d hd hm
        rcases List.mem_append.1 hm with hm | hm
        · exact a2.new d (List.mem_of_mem_erase hd) hm
        · exact ((List.Nodup.mem_erase_iff a2.nodup).1 hd).1 (List.mem_singleton.1 hm)
      obtain ⟨b1, b2, b3, ⟨more, b4, b5⟩, b6⟩ := ih _ _ _ _ _ (by simp) hp' hnd' a1 hc' h
      refine ⟨b1, b2, b3, ⟨p :: more, by rw [b4]; simp, by simp; omega⟩, ?_⟩
      intro hf hI
      have hall : ∀ q, E.R q → ∀ j, Leaves paths j q → ∃ d ∈ cc, Fresh paths j q d := by
        intro q hq j hj
        rcases hI q hq j hj with ⟨p', hp1, hp2⟩ | ⟨d, hd, hF⟩
        · rw [hlat] at hp1; cases hp1
          have hlt := share_lt (hp _ hl) hq hp2 (hj.2 _ hl hp2)
          obtain ⟨d, hdm, hd1, hd2⟩ := a4 hf j (List.mem_range.2 (by omega)) q hq
            ⟨hp2.symm, fun p hpm hpt => hj.2 p hpm (hpt.trans hp2)⟩
          exact ⟨d, hdm, hd1.trans hp2, fun p hpm hpt => hd2 p hpm (hpt.trans hp2.symm)⟩
        · exact ⟨d, a3 d hd, hF⟩
      have hinv : ∀ q, E.R q → ∀ j, Leaves (paths ++ [p]) j q →
          (∃ x, (paths ++ [p]).getLast? = some x ∧ x.take (j + 1) = q.take (j + 1)) ∨
          ∃ d ∈ cc.erase p, Fresh (paths ++ [p]) j q d := by
        intro q hq j hj
        by_cases hsh : p.take (j + 1) = q.take (j + 1)
        · exact .inl ⟨p, by simp, hsh⟩
        · right
          have hj' : Leaves paths j q := by
            obtain ⟨⟨x, hx, hxt⟩, hj2⟩ := hj
            refine ⟨?_, fun y hy => hj2 y (List.mem_append_left _ hy)⟩
            rcases List.mem_append.1 hx with hx | hx
            · exact ⟨x, hx, hxt⟩
            · rw [List.mem_singleton.1 hx] at hxt; exact absurd hxt hsh
          obtain ⟨d, hd, hd1, hd2⟩ := hall q hq j hj'
          refine ⟨d, (List.Nodup.mem_erase_iff a2.nodup).2 ⟨?_, hd⟩, hd1, ?_⟩
          · rintro rfl; exact hsh hd1
          · intro x hx hxt
            rcases List.mem_append.1 hx with hx | hx
            · exact hd2 x hx hxt
            · rw [List.mem_singleton.1 hx] at hxt; exact absurd hxt hsh
      rcases b6 hf hinv with h6 | h6
      · left; rw [h6]; simp; omega
      · exact .inr h6

/-- If the search always terminates, so does the algorithm. -/
theorem spurs_some (hT : ∀ o u, InBounds E.l.m u → search o u ≠ none) {paths : List (List Coord)} {latest : List Coord}
    (hl : E.R latest) : ∀ (is : List Nat), (∀ i ∈ is, i + 1 < latest.length) → ∀ st,
    is.foldlM (spurStep search paths latest) st ≠ none := by
  intro is
  induction is with
  | nil => intro _ st h; simp at h
  | cons i is ih =>
    intro hi st h
    rw [List.foldlM_cons] at h
    have hlt := hi i List.mem_cons_self
    have hu : latest[i]? = some latest[i] := List.getElem?_eq_getElem (by omega)
    generalize latest[i] = u at hu
    obtain ⟨st1, h1⟩ : ∃ st1, spurStep search paths latest st i = some st1 := by
      unfold spurStep
      rw [hu]
      simp only
      split
      · next hn => exact absurd hn (hT _ _ (hl.inBounds i u hu))
      · exact ⟨_, rfl⟩
    rw [h1] at h
    exact ih (fun j hj => hi j (List.mem_cons_of_mem _ hj)) st1 h

theorem yenLoop_some (hS : Finds E search) (hT : ∀ o u, InBounds E.l.m u → search o u ≠ none) : ∀ (n : Nat)
    (paths : List (List Coord)) (o' : Obs) (cands : List (List Coord)), paths ≠ [] → (∀ p ∈ paths, E.R p) →
    Kept E.s E.o o' → Cands E paths cands → yenLoop search n paths o' cands ≠ none := by
  intro n
  induction n with
  | zero => intro paths o' cands _ _ _ _ h; simp [yenLoop] at h
  | succ n ih =>
    intro paths o' cands hne hp ho hc h
    simp only [yenLoop] at h
    split at h
    · next hn => exact hne (by simpa using hn)
    next latest hlat =>
    have hl : latest ∈ paths := List.mem_of_getLast? hlat
    have hlt : ∀ i ∈ List.range (latest.length - 1), i + 1 < latest.length := fun i hi => by
      have := List.mem_range.1 hi; omega
    split at h
    · next hn => exact spurs_some hT (hp _ hl) _ hlt _ hn
    · cases h
    · next o1 c cs hfold =>
      obtain ⟨a1, a2, a3, a4⟩ := spurs_spec hS hp hl _ hlt _ _ _ ho hc hfold
      simp only at a1 a2
      generalize hpe : shortest c cs = p at h
      have hpm : p ∈ c :: cs := by
        rw [← hpe]
        rcases shortest_mem cs c with h | h
        · rw [h]; exact List.mem_cons_self
        · exact List.mem_cons_of_mem _ h
      generalize hcc : c :: cs = cc at *
      refine ih _ _ _ (by simp) ?_ a1 ?_ h
      · intro q hq
        rcases List.mem_append.1 hq with hq | hq
        · exact hp q hq
        · rw [List.mem_singleton.1 hq]; exact a2.route p hpm
      · refine ⟨fun d hd => a2.route d (List.mem_of_mem_erase hd), ?_, a2.nodup.erase p⟩
        intro d hd hm
        rcases List.mem_append.1 hm with hm | hm
        · exact a2.new d (List.mem_of_mem_erase hd) hm
        · exact ((List.Nodup.mem_erase_iff a2.nodup).1 hd).1 (List.mem_singleton.1 hm)

end Verif.Paths
