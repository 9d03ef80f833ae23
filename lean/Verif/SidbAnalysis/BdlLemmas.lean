import Verif.SidbAnalysis.BdlSpec
import Mathlib.Data.List.Perm.Basic
import Mathlib.Data.List.Nodup
import Mathlib.Data.List.Pairwise
import Mathlib.Tactic.SplitIfs
import Mathlib.Tactic.ByContra

/-! # Lemmas on the detection of BDL pairs and BDL wires -/
namespace Verif.SidbAnalysis.Bdl

variable {α K : Type} [LinearOrder α] [LinearOrder K]

theorem pairLt_iff {p q : Pair α} : pairLt p q = true ↔
    p.upper < q.upper ∨ (p.upper = q.upper ∧ p.lower < q.lower) := by
  unfold pairLt; grind

theorem pairLt_trans {p q r : Pair α} (h1 : pairLt p q = true) (h2 : pairLt q r = true) : pairLt p r = true := by
  rw [pairLt_iff] at *; grind

theorem pairLt_irrefl {p : Pair α} : ¬ pairLt p p = true := by
  rw [pairLt_iff]; grind

theorem pairLt_total {p q : Pair α} (h : ¬ (p.upper = q.upper ∧ p.lower = q.lower)) :
    pairLt p q = true ∨ pairLt q p = true := by
  simp only [pairLt_iff]; grind

theorem insertPair_perm (p : Pair α) : ∀ l : List (Pair α), (insertPair p l).Perm (p :: l)
  | [] => .refl _
  | q :: l => by
    unfold insertPair; split_ifs
    · exact ((insertPair_perm p l).cons q).trans (.swap _ _ _)
    · exact .refl _

theorem sortPairs_perm : ∀ l : List (Pair α), (sortPairs l).Perm l
  | [] => .refl _
  | p :: l => (insertPair_perm p _).trans ((sortPairs_perm l).cons p)

theorem insertPair_le {p : Pair α} : ∀ {l : List (Pair α)}, l.Pairwise (fun a b => ¬ pairLt b a = true) →
    (insertPair p l).Pairwise (fun a b => ¬ pairLt b a = true)
  | [], _ => by simp [insertPair]
  | q :: l, h => by
    rw [List.pairwise_cons] at h
    unfold insertPair; split_ifs with hq
    · refine List.pairwise_cons.2 ⟨?_, insertPair_le h.2⟩
      intro b hb hlt
      rcases List.mem_cons.1 ((insertPair_perm p l).mem_iff.1 hb) with rfl | hb
      · exact pairLt_irrefl (pairLt_trans hq hlt)
      · exact h.1 b hb hlt
    · refine List.pairwise_cons.2 ⟨?_, List.pairwise_cons.2 h⟩
      intro b hb hlt
      rcases List.mem_cons.1 hb with rfl | hb
      · exact hq hlt
      · have := h.1 b hb
        simp only [pairLt_iff] at *; grind

theorem sortPairs_le : ∀ l : List (Pair α), (sortPairs l).Pairwise (fun a b => ¬ pairLt b a = true)
  | [] => .nil
  | _ :: l => insertPair_le (sortPairs_le l)

theorem dotPairs_mem : ∀ {l : List α}, l.Nodup → ∀ {e}, e ∈ dotPairs l → e.1 ∈ l ∧ e.2 ∈ l ∧ e.1 ≠ e.2
  | [], _, e, h => by simp [dotPairs] at h
  | a :: l, hn, e, h => by
    rw [List.nodup_cons] at hn
    simp only [dotPairs, List.mem_append, List.mem_map] at h
    rcases h with ⟨b, hb, rfl⟩ | h
    · grind
    · have := dotPairs_mem hn.2 h; grind

theorem dotPairs_all : ∀ {l : List α} {a b}, a ∈ l → b ∈ l → a ≠ b → (a, b) ∈ dotPairs l ∨ (b, a) ∈ dotPairs l
  | x :: l, a, b, ha, hb, hne => by
    simp only [dotPairs, List.mem_append, List.mem_map]
    rcases List.mem_cons.1 ha with h1 | h1 <;> rcases List.mem_cons.1 hb with h2 | h2
    · exact absurd (h1.trans h2.symm) hne
    · exact .inl (.inl ⟨b, h2, by rw [h1]⟩)
    · exact .inr (.inl ⟨a, h1, by rw [h2]⟩)
    · rcases dotPairs_all h1 h2 hne with h | h
      · exact .inl (.inr h)
      · exact .inr (.inr h)

/-- The dots of a list of unordered pairs. -/
def endpoints (l : List (α × α)) : List α := l.flatMap fun e => [e.1, e.2]

theorem pairLoop_spec (dist : α → α → K) (lo hi : K) : ∀ (l : List (α × α)) (paired : List α),
    (l.Pairwise fun p q => dist p.1 p.2 ≤ dist q.1 q.2) → (∀ e ∈ l, e.1 ≠ e.2) →
    (∀ e ∈ pairLoop dist lo hi l paired, e ∈ l ∧ lo ≤ dist e.1 e.2 ∧ dist e.1 e.2 ≤ hi) ∧
    (∀ c ∈ endpoints (pairLoop dist lo hi l paired), c ∉ paired) ∧
    (endpoints (pairLoop dist lo hi l paired)).Nodup ∧
    (∀ e ∈ l, lo ≤ dist e.1 e.2 → dist e.1 e.2 ≤ hi → e.1 ∈ paired ∨ e.2 ∈ paired ∨
      ∃ f ∈ pairLoop dist lo hi l paired, dist f.1 f.2 ≤ dist e.1 e.2 ∧
        (e.1 = f.1 ∨ e.1 = f.2 ∨ e.2 = f.1 ∨ e.2 = f.2))
  | [], paired, _, _ => by simp [pairLoop, endpoints]
  | (a, b) :: l, paired, hs, hne => by
    rw [List.pairwise_cons] at hs
    have hne' : ∀ e ∈ l, e.1 ≠ e.2 := fun e he => hne e (.tail _ he)
    have hab : a ≠ b := hne (a, b) (.head _)
    unfold pairLoop
    split_ifs with h1 h2 h3
    · obtain ⟨i1, i2, i3, i4⟩ := pairLoop_spec dist lo hi l paired hs.2 hne'
      refine ⟨fun e he => ⟨.tail _ (i1 e he).1, (i1 e he).2⟩, i2, i3, ?_⟩
      intro e he hlo hhi
      rcases List.mem_cons.1 he with rfl | he
      · exact absurd h1 (not_lt.2 hlo)
      · exact i4 e he hlo hhi
    · refine ⟨by simp, by simp [endpoints], by simp [endpoints], ?_⟩
      intro e he hlo hhi
      rcases List.mem_cons.1 he with rfl | he
      · exact absurd h2 (not_lt.2 hhi)
      · exact absurd (lt_of_lt_of_le h2 (hs.1 e he)) (not_lt.2 hhi)
    · obtain ⟨i1, i2, i3, i4⟩ := pairLoop_spec dist lo hi l paired hs.2 hne'
      refine ⟨fun e he => ⟨.tail _ (i1 e he).1, (i1 e he).2⟩, i2, i3, ?_⟩
      intro e he hlo hhi
      rcases List.mem_cons.1 he with rfl | he
      · rcases h3 with h3 | h3
        · exact .inl h3
        · exact .inr (.inl h3)
      · exact i4 e he hlo hhi
    · obtain ⟨i1, i2, i3, i4⟩ := pairLoop_spec dist lo hi l (a :: b :: paired) hs.2 hne'
      have e0 : ∀ r, endpoints ((a, b) :: r) = a :: b :: endpoints r := fun r => rfl
      refine ⟨?_, ?_, ?_, ?_⟩
      · intro e he
        rcases List.mem_cons.1 he with rfl | he
        · exact ⟨.head _, not_lt.1 h1, not_lt.1 h2⟩
        · exact ⟨.tail _ (i1 e he).1, (i1 e he).2⟩
      · intro c hc
        rw [e0] at hc
        have := i2 c
        grind
      · rw [e0]
        have h4 := i2 a; have h5 := i2 b
        refine List.nodup_cons.2 ⟨?_, List.nodup_cons.2 ⟨?_, i3⟩⟩ <;> grind
      · intro e he hlo hhi
        rcases List.mem_cons.1 he with rfl | he
        · exact .inr (.inr ⟨_, .head _, le_refl _, .inl rfl⟩)
        · rcases i4 e he hlo hhi with h | h | ⟨f, hf, h⟩
          · have := hs.1 e he
            rcases List.mem_cons.1 h with h | h
            · exact .inr (.inr ⟨_, .head _, this, .inl h⟩)
            · rcases List.mem_cons.1 h with h | h
              · exact .inr (.inr ⟨_, .head _, this, .inr (.inl h)⟩)
              · exact .inl h
          · have := hs.1 e he
            rcases List.mem_cons.1 h with h | h
            · exact .inr (.inr ⟨_, .head _, this, .inr (.inr (.inl h))⟩)
            · rcases List.mem_cons.1 h with h | h
              · exact .inr (.inr ⟨_, .head _, this, .inr (.inr (.inr h))⟩)
              · exact .inr (.inl h)
          · exact .inr (.inr ⟨f, .tail _ hf, h⟩)

theorem mkPair_cases {ty : α → Ty} (e : α × α) (h : e.1 ≠ e.2) :
    (mkPair ty e).upper < (mkPair ty e).lower ∧ (mkPair ty e).type = ty e.1 ∧
    (((mkPair ty e).upper = e.1 ∧ (mkPair ty e).lower = e.2) ∨
      ((mkPair ty e).upper = e.2 ∧ (mkPair ty e).lower = e.1)) := by
  unfold mkPair; split_ifs with h1
  · exact ⟨h1, rfl, .inr ⟨rfl, rfl⟩⟩
  · exact ⟨lt_of_le_of_ne (not_lt.1 h1) h, rfl, .inl ⟨rfl, rfl⟩⟩

theorem mkPair_dots {ty : α → Ty} (e : α × α) : (mkPair ty e).dots.Perm [e.1, e.2] := by
  unfold mkPair Pair.dots; split_ifs
  · exact .swap _ _ _
  · exact .refl _

theorem dots_perm {ty : α → Ty} : ∀ l : List (α × α), ((l.map (mkPair ty)).flatMap Pair.dots).Perm (endpoints l)
  | [] => .refl _
  | e :: l => by
    simp only [List.map_cons, List.flatMap_cons, endpoints]
    exact (mkPair_dots e).append (dots_perm l)

theorem pairUp_spec {sort : List (α × α) → List (α × α)} {dist : α → α → K} {lo hi : K} {ty : α → Ty}
    {dots : List α} (hsort : SortsByDistance dist sort) (hsym : ∀ a b, dist a b = dist b a) (hn : dots.Nodup) :
    StablePairing dist lo hi dots (pairUp sort dist lo hi ty dots) ∧
    (∀ p ∈ pairUp sort dist lo hi ty dots, p.type = ty p.upper ∨ p.type = ty p.lower) := by
  obtain ⟨hp, ho⟩ := hsort (dotPairs dots)
  have hne : ∀ e ∈ sort (dotPairs dots), e.1 ≠ e.2 := fun e he => (dotPairs_mem hn (hp.mem_iff.1 he)).2.2
  obtain ⟨i1, _, i3, i4⟩ := pairLoop_spec dist lo hi _ [] ho hne
  have hperm := sortPairs_perm ((pairLoop dist lo hi (sort (dotPairs dots)) []).map (mkPair ty))
  have key : ∀ p, p ∈ pairUp sort dist lo hi ty dots ↔
      ∃ e ∈ pairLoop dist lo hi (sort (dotPairs dots)) [], mkPair ty e = p := fun p =>
    (hperm.mem_iff).trans List.mem_map
  have dd : ∀ e ∈ pairLoop dist lo hi (sort (dotPairs dots)) [],
      dist (mkPair ty e).upper (mkPair ty e).lower = dist e.1 e.2 := by
    intro e he
    rcases (mkPair_cases (ty := ty) e (hne e (i1 e he).1)).2.2 with ⟨h1, h2⟩ | ⟨h1, h2⟩
    · rw [h1, h2]
    · rw [h1, h2, hsym]
  refine ⟨⟨?_, ?_, ?_, ?_, ?_⟩, ?_⟩
  · intro p h
    obtain ⟨e, he, rfl⟩ := (key p).1 h
    have h1 := dotPairs_mem hn (hp.mem_iff.1 (i1 e he).1)
    rcases (mkPair_cases (ty := ty) e h1.2.2).2.2 with ⟨h2, h3⟩ | ⟨h2, h3⟩ <;> rw [h2, h3]
    · exact ⟨h1.1, h1.2.1⟩
    · exact ⟨h1.2.1, h1.1⟩
  · intro p h
    obtain ⟨e, he, rfl⟩ := (key p).1 h
    exact (mkPair_cases e (hne e (i1 e he).1)).1
  · intro p h
    obtain ⟨e, he, rfl⟩ := (key p).1 h
    rw [dd e he]; exact (i1 e he).2
  · exact ((hperm.flatMap_right _).trans (dots_perm _)).nodup_iff.2 i3
  · intro a ha b hb hab hlo hhi
    have : ∃ e ∈ sort (dotPairs dots), dist e.1 e.2 = dist a b ∧ ((e.1 = a ∧ e.2 = b) ∨ (e.1 = b ∧ e.2 = a)) := by
      rcases dotPairs_all ha hb hab with h | h
      · exact ⟨_, hp.mem_iff.2 h, rfl, .inl ⟨rfl, rfl⟩⟩
      · exact ⟨_, hp.mem_iff.2 h, hsym _ _, .inr ⟨rfl, rfl⟩⟩
    obtain ⟨e, he, hd, hc⟩ := this
    rcases i4 e he (hd ▸ hlo) (hd ▸ hhi) with h | h | ⟨f, hf, h1, h2⟩
    · simp at h
    · simp at h
    · refine ⟨_, (key _).2 ⟨f, hf, rfl⟩, ?_, ?_⟩
      · have := fun c => (mkPair_dots (ty := ty) f).mem_iff (a := c)
        rw [this, this]
        simp only [List.mem_cons, List.not_mem_nil, or_false]
        rcases hc with ⟨rfl, rfl⟩ | ⟨rfl, rfl⟩ <;> grind
      · rw [dd f hf]; exact hd ▸ h1
  · intro p h
    obtain ⟨e, he, rfl⟩ := (key p).1 h
    obtain ⟨_, h1, h2⟩ := mkPair_cases (ty := ty) e (hne e (i1 e he).1)
    rw [h1]
    rcases h2 with ⟨h2, h3⟩ | ⟨h2, h3⟩ <;> rw [h2, h3] <;> simp

omit [LinearOrder α] in
theorem flatMap_dots_inj {res : List (Pair α)} (hd : (res.flatMap Pair.dots).Nodup) :
    res.Pairwise fun p q => ∀ c, c ∈ p.dots → c ∉ q.dots := by
  induction res with
  | nil => exact .nil
  | cons p l ih =>
    rw [List.flatMap_cons, List.nodup_append'] at hd
    refine List.pairwise_cons.2 ⟨?_, ih hd.2.1⟩
    intro q hq c hc hc'
    exact hd.2.2 hc (List.mem_flatMap.2 ⟨q, hq, hc'⟩)

theorem ascending_of {res : List (Pair α)} (h : res.Pairwise (fun a b => ¬ pairLt b a = true))
    (hd : (res.flatMap Pair.dots).Nodup) : Ascending res := by
  refine (h.and (flatMap_dots_inj hd)).imp ?_
  rintro p q ⟨h1, h2⟩
  have : ¬ (p.upper = q.upper ∧ p.lower = q.lower) := fun h => h2 p.upper (by simp [Pair.dots]) (by simp [Pair.dots, h.1])
  rcases pairLt_total this with h | h
  · exact pairLt_iff.1 h
  · exact absurd h h1

omit [LinearOrder α] in
theorem ascending_of_distinct [LinearOrder α] {res : List (Pair α)}
    (h : res.Pairwise (fun a b => ¬ pairLt b a = true))
    (hd : res.Pairwise fun p q => ¬ (p.upper = q.upper ∧ p.lower = q.lower)) : Ascending res := by
  refine (h.and hd).imp ?_
  rintro p q ⟨h1, h2⟩
  rcases pairLt_total h2 with h | h
  · exact pairLt_iff.1 h
  · exact absurd h h1

omit [LinearOrder α] in
theorem dotsOf_mem {L : Lyt α} (h : L.Ok) (t : Ty) (c : α) : c ∈ dotsOf L t ↔ c ∈ L.cells ∧ L.ty c = t := by
  cases t <;> simp [dotsOf, h.mem_pis, h.mem_pos]

omit [LinearOrder α] in
theorem dotsOf_nodup {L : Lyt α} (h : L.Ok) (t : Ty) : (dotsOf L t).Nodup := by
  cases t
  · exact h.nodup.filter _
  · exact h.pis
  · exact h.pos
  · exact h.nodup.filter _

/-! ## Uniqueness -/

/-- With distinct distances there is one stable pairing. -/
theorem stable_unique {dist : α → α → K} {lo hi : K} {dots : List α} {r s : List (Pair α)}
    (hinj : ∀ a ∈ dots, ∀ b ∈ dots, ∀ c ∈ dots, ∀ d ∈ dots, a < b → c < d → dist a b = dist c d → a = c ∧ b = d)
    (hr : StablePairing dist lo hi dots r) (hs : StablePairing dist lo hi dots s) :
    ∀ p ∈ r, ∃ q ∈ s, q.upper = p.upper ∧ q.lower = p.lower := by
  -- strong induction on the number of pairs of `r` and `s` that are strictly closer
  have main : ∀ n : Nat, ∀ (r s : List (Pair α)), StablePairing dist lo hi dots r → StablePairing dist lo hi dots s →
      ∀ p ∈ r, ((r ++ s).filter fun q => decide (dist q.upper q.lower < dist p.upper p.lower)).length ≤ n →
      ∃ q ∈ s, q.upper = p.upper ∧ q.lower = p.lower := by
    intro n
    induction n using Nat.strongRecOn with
    | _ n ih =>
      intro r s hr hs p hp hn
      have hm := hr.mem p hp
      have ho := hr.ordered p hp
      obtain ⟨q, hq, hc, hd⟩ := hs.stable p.upper hm.1 p.lower hm.2 (ne_of_lt ho) (hr.distance p hp).1 (hr.distance p hp).2
      rcases lt_or_eq_of_le hd with hlt | heq
      · -- `q` is strictly closer, so it is a pair of `r` as well, which then shares a dot with `p`
        have hlen : ((s ++ r).filter fun x => decide (dist x.upper x.lower < dist q.upper q.lower)).length < n := by
          refine Nat.lt_of_lt_of_le ?_ hn
          have hperm : ((s ++ r).filter fun x => decide (dist x.upper x.lower < dist q.upper q.lower)).length =
              ((r ++ s).filter fun x => decide (dist x.upper x.lower < dist q.upper q.lower)).length :=
            (List.perm_append_comm.filter _).length_eq
          rw [hperm]
          have hsub : ((r ++ s).filter fun x => decide (dist x.upper x.lower < dist q.upper q.lower)) =
              (((r ++ s).filter fun x => decide (dist x.upper x.lower < dist p.upper p.lower)).filter
                fun x => decide (dist x.upper x.lower < dist q.upper q.lower)) := by
            rw [List.filter_filter]
            refine List.filter_congr fun x _ => ?_
            have : dist x.upper x.lower < dist q.upper q.lower → dist x.upper x.lower < dist p.upper p.lower :=
              fun h => lt_trans h hlt
            grind
          rw [hsub]
          refine Nat.lt_of_le_of_ne (List.length_filter_le _ _) ?_
          intro h
          have := List.length_filter_eq_length_iff.1 h q (List.mem_filter.2 ⟨List.mem_append_right _ hq, by simpa using hlt⟩)
          exact absurd (of_decide_eq_true this) (lt_irrefl _)
        obtain ⟨p', hp', h1, h2⟩ := ih _ hlen s r hs hr q hq (Nat.le_refl _)
        exfalso
        have hne : p' ≠ p := by
          rintro rfl; rw [h1, h2] at hlt; exact lt_irrefl _ hlt
        have hpw := flatMap_dots_inj hr.disjoint
        have hsymm : ∀ a b : Pair α, (∀ c, c ∈ a.dots → c ∉ b.dots) → (∀ c, c ∈ b.dots → c ∉ a.dots) :=
          fun a b h c h1 h2 => h c h2 h1
        have : Std.Symm fun p q : Pair α => ∀ c, c ∈ p.dots → c ∉ q.dots := ⟨fun a b h => hsymm a b h⟩
        have := hpw.forall hp' hp hne
        simp only [Pair.dots, List.mem_cons, List.not_mem_nil, or_false] at this hc
        grind
      · have hqm := hs.mem q hq
        have hqo := hs.ordered q hq
        obtain ⟨h1, h2⟩ := hinj _ hqm.1 _ hqm.2 _ hm.1 _ hm.2 hqo ho heq
        exact ⟨q, hq, h1, h2⟩
  intro p hp
  exact main _ r s hr hs p hp (Nat.le_refl _)

/-! ## The set of pairs -/

theorem setInsert_perm {p : Pair α} : ∀ {l : List (Pair α)}, (∀ q ∈ l, ¬ (p.upper = q.upper ∧ p.lower = q.lower)) →
    (setInsert p l).Perm (p :: l)
  | [], _ => .refl _
  | q :: l, h => by
    unfold setInsert; split_ifs with h1 h2
    · exact .refl _
    · exact ((setInsert_perm fun r hr => h r (.tail _ hr)).cons q).trans (.swap _ _ _)
    · rcases pairLt_total (h q (.head _)) with h3 | h3
      · exact absurd h3 h1
      · exact absurd h3 h2

theorem setInsert_sorted {p : Pair α} : ∀ {l : List (Pair α)}, (∀ q ∈ l, ¬ (p.upper = q.upper ∧ p.lower = q.lower)) →
    l.Pairwise (fun a b => pairLt a b = true) → (setInsert p l).Pairwise (fun a b => pairLt a b = true)
  | [], _, _ => by simp [setInsert]
  | q :: l, h, hs => by
    have hs' := List.pairwise_cons.1 hs
    unfold setInsert; split_ifs with h1 h2
    · refine List.pairwise_cons.2 ⟨?_, hs⟩
      intro r hr
      rcases List.mem_cons.1 hr with rfl | hr
      · exact h1
      · exact pairLt_trans h1 (hs'.1 r hr)
    · refine List.pairwise_cons.2 ⟨?_, setInsert_sorted (fun r hr => h r (.tail _ hr)) hs'.2⟩
      intro r hr
      rcases List.mem_cons.1 ((setInsert_perm fun r hr => h r (.tail _ hr)).mem_iff.1 hr) with rfl | hr
      · exact h2
      · exact hs'.1 r hr
    · exact hs

theorem foldl_setInsert : ∀ (l acc : List (Pair α)),
    ((l ++ acc).Pairwise fun p q => ¬ (p.upper = q.upper ∧ p.lower = q.lower)) →
    acc.Pairwise (fun a b => pairLt a b = true) →
    (l.foldl (fun s p => setInsert p s) acc).Perm (l ++ acc) ∧
    (l.foldl (fun s p => setInsert p s) acc).Pairwise (fun a b => pairLt a b = true)
  | [], acc, _, hs => ⟨.refl _, hs⟩
  | p :: l, acc, h, hs => by
    rw [List.cons_append, List.pairwise_cons] at h
    have hp : ∀ q ∈ acc, ¬ (p.upper = q.upper ∧ p.lower = q.lower) := fun q hq => h.1 q (List.mem_append_right _ hq)
    have e1 : (l ++ setInsert p acc).Perm (p :: (l ++ acc)) :=
      ((setInsert_perm hp).append_left l).trans List.perm_middle
    have hpw : (l ++ setInsert p acc).Pairwise fun p q : Pair α => ¬ (p.upper = q.upper ∧ p.lower = q.lower) := by
      refine (e1.pairwise_iff ?_).2 (List.pairwise_cons.2 h)
      intro a b hab hc; exact hab ⟨hc.1.symm, hc.2.symm⟩
    obtain ⟨i1, i2⟩ := foldl_setInsert l (setInsert p acc) hpw (setInsert_sorted hp hs)
    exact ⟨i1.trans e1, i2⟩

/-! ## Wires -/

variable {near : α → α → Bool}

theorem isBelow_linked (hsym : ∀ a b, near a b = near b a) {g b : Pair α} (h : isBelow near g b = true) :
    Linked near g b := by
  unfold isBelow at h
  simp only [Bool.or_eq_true, Bool.and_eq_true] at h
  rcases h with h | ⟨⟨h, _⟩, _⟩
  · exact .inl h
  · exact .inr (hsym _ _ ▸ h)

theorem isAbove_linked (hsym : ∀ a b, near a b = near b a) {g b : Pair α} (h : isAbove near g b = true) :
    Linked near g b := by
  unfold isAbove at h
  simp only [Bool.or_eq_true, Bool.and_eq_true] at h
  rcases h with h | ⟨⟨h, _⟩, _⟩
  · exact .inl h
  · exact .inr (hsym _ _ ▸ h)

theorem linked_cases (hsym : ∀ a b, near a b = near b a) {g b : Pair α} (h : Linked near g b)
    (hne : ¬ (g.upper = b.upper ∧ g.lower = b.lower)) : isBelow near g b = true ∨ isAbove near g b = true := by
  have h3 : sameDots g b = false := by simpa [sameDots] using hne
  have h4 : g ≠ b := by rintro rfl; exact hne ⟨rfl, rfl⟩
  rcases h with h | h
  · exact .inl (by simp [isBelow, h])
  · rw [hsym] at h
    cases h5 : pairLt g b
    · exact .inr (by simp [isAbove, h, h3, pairGt, h4, h5])
    · exact .inl (by simp [isBelow, h, h3, h5])

omit [LinearOrder α] in
theorem linked_symm {p q : Pair α} (h : Linked near p q) : Linked near q p := h.symm

omit [LinearOrder α] in
theorem connected_perm {w v : List (Pair α)} (h : w.Perm v) (hc : Connected near w) : Connected near v := by
  intro p hp q hq
  refine Relation.ReflTransGen.mono ?_ _ _ (hc p (h.mem_iff.2 hp) q (h.mem_iff.2 hq))
  rintro a b ⟨h1, h2, h3⟩
  exact ⟨h.mem_iff.1 h1, h.mem_iff.1 h2, h3⟩

omit [LinearOrder α] in
theorem connected_cons {w : List (Pair α)} {cur b : Pair α} (hc : Connected near w) (hcur : cur ∈ w)
    (hl : Linked near cur b) : Connected near (b :: w) := by
  have up : ∀ p ∈ w, ∀ q ∈ w, Relation.ReflTransGen (fun x y => x ∈ b :: w ∧ y ∈ b :: w ∧ Linked near x y) p q := by
    intro p hp q hq
    refine Relation.ReflTransGen.mono ?_ _ _ (hc p hp q hq)
    rintro x y ⟨h1, h2, h3⟩
    exact ⟨.tail _ h1, .tail _ h2, h3⟩
  intro p hp q hq
  rcases List.mem_cons.1 hp with h1 | h1 <;> rcases List.mem_cons.1 hq with h2 | h2
  · rw [h1, h2]
  · subst h1; exact .head ⟨.head _, .tail _ hcur, linked_symm hl⟩ (up _ hcur q h2)
  · subst h2; exact (up p h1 _ hcur).tail ⟨.tail _ hcur, .head _, hl⟩
  · exact up p h1 q h2

/-- What one step of the walk does. -/
theorem walk_cases (hsym : ∀ a b, near a b = near b a) (n : Nat) (cur : Pair α) (wire rest : List (Pair α))
    (hd : ∀ b ∈ rest, ¬ (cur.upper = b.upper ∧ cur.lower = b.lower)) :
    (∃ b ∈ rest, Linked near cur b ∧ walk near (n + 1) cur wire rest = walk near n b (insertPair b wire) (rest.erase b)) ∨
    ((∀ b ∈ rest, ¬ Linked near cur b) ∧ walk near (n + 1) cur wire rest = some (wire, rest)) := by
  have e : walk near (n + 1) cur wire rest = (match rest.find? (isBelow near cur) with
    | some b => walk near n b (insertPair b wire) (rest.erase b)
    | none =>
      match rest.find? (isAbove near cur) with
      | some b => walk near n b (insertPair b wire) (rest.erase b)
      | none => some (wire, rest)) := rfl
  rw [e]
  cases h1 : rest.find? (isBelow near cur) with
  | some b => exact .inl ⟨b, List.mem_of_find?_eq_some h1, isBelow_linked hsym (List.find?_some h1), rfl⟩
  | none =>
    cases h2 : rest.find? (isAbove near cur) with
    | some b => exact .inl ⟨b, List.mem_of_find?_eq_some h2, isAbove_linked hsym (List.find?_some h2), rfl⟩
    | none =>
      refine .inr ⟨?_, rfl⟩
      intro b hb hl
      rcases linked_cases hsym hl (hd b hb) with h | h
      · exact List.find?_eq_none.1 h1 b hb h
      · exact List.find?_eq_none.1 h2 b hb h

/-- No two pairs of the list have the same dots. -/
def Distinct (l : List (Pair α)) : Prop := l.Pairwise fun p q => ¬ (p.upper = q.upper ∧ p.lower = q.lower)

omit [LinearOrder α] in
theorem Distinct.perm {l m : List (Pair α)} (h : Distinct l) (hp : l.Perm m) : Distinct m := by
  refine (hp.pairwise_iff ?_).1 h
  intro a b hab hc; exact hab ⟨hc.1.symm, hc.2.symm⟩

theorem walk_perm {b : Pair α} {wire rest : List (Pair α)} (hb : b ∈ rest) :
    (insertPair b wire ++ rest.erase b).Perm (wire ++ rest) :=
  ((insertPair_perm b wire).append_right _).trans
    (List.perm_middle.symm.trans ((List.perm_cons_erase hb).symm.append_left wire))

theorem walk_spec (hsym : ∀ a b, near a b = near b a) : ∀ (n : Nat) (cur : Pair α) (wire rest : List (Pair α)),
    rest.length < n → cur ∈ wire → Connected near wire → Distinct (wire ++ rest) →
    wire.Pairwise (fun a b => ¬ pairLt b a = true) →
    ∃ w r, walk near n cur wire rest = some (w, r) ∧ (w ++ r).Perm (wire ++ rest) ∧ r.Sublist rest ∧
      Connected near w ∧ w.Pairwise (fun a b => ¬ pairLt b a = true) ∧ w ≠ []
  | 0, _, _, _, hn, _, _, _, _ => by omega
  | n + 1, cur, wire, rest, hn, hcur, hc, hd, hs => by
    have hd' : ∀ b ∈ rest, ¬ (cur.upper = b.upper ∧ cur.lower = b.lower) := fun b hb =>
      (List.pairwise_append.1 hd).2.2 cur hcur b hb
    rcases walk_cases hsym n cur wire rest hd' with ⟨b, hb, hl, h⟩ | ⟨_, h⟩
    · have hperm := walk_perm (wire := wire) hb
      have hlen : (rest.erase b).length < n := by
        rw [List.length_erase_of_mem hb]
        have := List.length_pos_of_mem hb
        omega
      obtain ⟨w, r, h1, h2, h3, h4, h5, h6⟩ := walk_spec hsym n b (insertPair b wire) (rest.erase b) hlen
        ((insertPair_perm b wire).mem_iff.2 (.head _))
        (connected_perm (insertPair_perm b wire).symm (connected_cons hc hcur hl)) (hd.perm hperm.symm)
        (insertPair_le hs)
      exact ⟨w, r, h.trans h1, h2.trans hperm, h3.trans List.erase_sublist, h4, h5, h6⟩
    · exact ⟨wire, rest, h, .refl _, .refl _, hc, hs, List.ne_nil_of_mem hcur⟩

theorem wireLoop_spec (hsym : ∀ a b, near a b = near b a) (fuel : Nat) : ∀ (n : Nat) (s : List (Pair α)),
    s.length < n → s.length ≤ fuel → Distinct s →
    ∃ ws, wireLoop near fuel n s = some ws ∧ ws.flatten.Perm s ∧
      ∀ w ∈ ws, Connected near w ∧ w.Pairwise (fun a b => ¬ pairLt b a = true) ∧ w ≠ []
  | _, [], _, _, _ => ⟨[], by simp [wireLoop], by simp, by simp⟩
  | 0, _ :: _, hn, _, _ => by simp at hn
  | n + 1, p :: rest, hn, hf, hd => by
    obtain ⟨w, r, h1, h2, h3, h4, h5, h6⟩ := walk_spec hsym fuel p [p] rest (by simp at hf; omega) (.head _)
      (by intro a ha b hb; rw [List.mem_singleton.1 ha, List.mem_singleton.1 hb]) hd (by simp)
    have hr : r.length < n := by have := h3.length_le; simp at hn; omega
    have hr' : r.length ≤ fuel := by have := h3.length_le; simp at hf; omega
    have hdr : Distinct r := (hd.sublist (.cons _ h3))
    obtain ⟨ws, h7, h8, h9⟩ := wireLoop_spec hsym fuel n r hr hr' hdr
    refine ⟨w :: ws, ?_, ?_, ?_⟩
    · simp [wireLoop, h1, h7]
    · rw [List.flatten_cons]; exact (h8.append_left w).trans h2
    · intro v hv
      rcases List.mem_cons.1 hv with rfl | hv
      · exact ⟨h4, h5, h6⟩
      · exact h9 v hv

/-- No pair follows more than two others. -/
def DegreeTwo (near : α → α → Bool) (s : List (Pair α)) : Prop :=
  ∀ p ∈ s, ∀ a ∈ s, ∀ b ∈ s, ∀ c ∈ s, a ≠ p → b ≠ p → c ≠ p → Linked near p a → Linked near p b → Linked near p c →
    a = b ∨ a = c ∨ b = c

theorem walk_closed (hsym : ∀ a b, near a b = near b a) {s : List (Pair α)} (hdeg : DegreeTwo near s) :
    ∀ (n : Nat) (cur : Pair α) (wire rest : List (Pair α)),
    cur ∈ wire → Distinct (wire ++ rest) → (∀ x ∈ wire ++ rest, x ∈ s) →
    (∀ x ∈ wire, x ≠ cur → ∀ y ∈ rest, ¬ Linked near x y) →
    ((∃ x ∈ wire, x ≠ cur ∧ Linked near cur x) ∨
      (∀ a ∈ rest, ∀ b ∈ rest, Linked near cur a → Linked near cur b → a = b)) →
    ∀ w r, walk near n cur wire rest = some (w, r) → ∀ x ∈ w, ∀ y ∈ r, ¬ Linked near x y
  | 0, _, _, _, _, _, _, _, _, w, r, h => by simp [walk] at h
  | n + 1, cur, wire, rest, hcur, hd, hs, hcl, hdg, w, r, h => by
    have hd' : ∀ x ∈ wire, ∀ b ∈ rest, ¬ (x.upper = b.upper ∧ x.lower = b.lower) := (List.pairwise_append.1 hd).2.2
    have hne : ∀ x ∈ wire, ∀ b ∈ rest, x ≠ b := by
      intro x hx b hb he; subst he; exact hd' x hx x hb ⟨rfl, rfl⟩
    rcases walk_cases hsym n cur wire rest (hd' cur hcur) with ⟨b, hb, hl, h'⟩ | ⟨hno, h'⟩
    · rw [h'] at h
      have hperm := walk_perm (wire := wire) hb
      have hmem : ∀ x, x ∈ insertPair b wire ↔ x = b ∨ x ∈ wire := fun x =>
        (insertPair_perm b wire).mem_iff.trans List.mem_cons
      have hnd : rest.Nodup := ((List.pairwise_append.1 hd).2.1).imp fun {a c} hac he => hac ⟨by rw [he], by rw [he]⟩
      have hin : ∀ x, x ∈ rest.erase b → x ∈ rest ∧ x ≠ b := fun x hx =>
        ⟨List.mem_of_mem_erase hx, (hnd.mem_erase_iff.1 hx).1⟩
      refine walk_closed hsym hdeg n b (insertPair b wire) (rest.erase b) ((hmem b).2 (.inl rfl)) (hd.perm hperm.symm)
        (fun x hx => hs x (hperm.mem_iff.1 hx)) ?_ (.inl ⟨cur, (hmem cur).2 (.inr hcur), hne cur hcur b hb, linked_symm hl⟩)
        w r h
      intro x hx hxb y hy hxy
      obtain ⟨hy1, hy2⟩ := hin y hy
      rcases (hmem x).1 hx with rfl | hx
      · exact hxb rfl
      · by_cases hxc : x = cur
        · subst hxc
          rcases hdg with ⟨z, hz, hzc, hzl⟩ | hdg
          · have := hdeg x (hs x (List.mem_append_left _ hcur)) z (hs z (List.mem_append_left _ hz)) b
              (hs b (List.mem_append_right _ hb)) y (hs y (List.mem_append_right _ hy1)) hzc (hne x hcur b hb).symm
              (hne x hcur y hy1).symm hzl hl hxy
            rcases this with h | h | h
            · exact hne z hz b hb h
            · exact hne z hz y hy1 h
            · exact hy2 h.symm
          · exact hy2 (hdg y hy1 b hb hxy hl)
        · exact hcl x hx hxc y hy1 hxy
    · rw [h'] at h
      obtain ⟨rfl, rfl⟩ : wire = w ∧ rest = r := by simpa using h
      intro x hx y hy hxy
      by_cases hxc : x = cur
      · subst hxc; exact hno y hy hxy
      · exact hcl x hx hxc y hy hxy

/-- Linked pairs within a list. -/
def LinkIn (near : α → α → Bool) (s : List (Pair α)) (a b : Pair α) : Prop := a ∈ s ∧ b ∈ s ∧ Linked near a b

theorem wireLoop_closed (hsym : ∀ a b, near a b = near b a) {s0 : List (Pair α)} (hdeg : DegreeTwo near s0)
    (hend : ∀ p ∈ s0, ∀ a ∈ s0, ∀ b ∈ s0, a ≠ p → b ≠ p → a ≠ b → Linked near p a → Linked near p b →
      ∃ q, Relation.ReflTransGen (LinkIn near s0) p q ∧ pairLt q p = true) (fuel : Nat) :
    ∀ (n : Nat) (s : List (Pair α)), s.Pairwise (fun a b => pairLt a b = true) → (∀ x ∈ s, x ∈ s0) →
    (∀ x ∈ s, ∀ y ∈ s0, Linked near x y → y ∈ s) → s.length ≤ fuel →
    ∀ ws, wireLoop near fuel n s = some ws → ∀ w ∈ ws, ∀ x ∈ w, ∀ y ∈ s0, Linked near x y → y ∈ w
  | _, [], _, _, _, _, ws, h => by
    have : ws = [] := by simpa [wireLoop] using h.symm
    subst this; simp
  | 0, _ :: _, _, _, _, _, ws, h => by simp [wireLoop] at h
  | n + 1, p :: rest, hs, hsub, hcl, hf, ws, h => by
    have hd : Distinct (p :: rest) := hs.imp fun {a b} hab he => by
      rw [pairLt_iff] at hab; grind
    obtain ⟨w, r, h1, h2, h3, h4, h5, h6⟩ := walk_spec hsym fuel p [p] rest (by simp at hf; omega) (.head _)
      (by intro a ha b hb; rw [List.mem_singleton.1 ha, List.mem_singleton.1 hb]) hd (by simp)
    have hp : ∀ x ∈ rest, pairLt p x = true := (List.pairwise_cons.1 hs).1
    have hpn : ∀ x ∈ rest, x ≠ p := by rintro x hx rfl; exact pairLt_irrefl (hp x hx)
    have hone : ∀ a ∈ rest, ∀ b ∈ rest, Linked near p a → Linked near p b → a = b := by
      intro a ha b hb hla hlb
      by_contra hab
      obtain ⟨q, hq, hlt⟩ := hend p (hsub p (.head _)) a (hsub a (.tail _ ha)) b (hsub b (.tail _ hb)) (hpn a ha)
        (hpn b hb) hab hla hlb
      have hmem : ∀ z, Relation.ReflTransGen (LinkIn near s0) p z → z ∈ p :: rest := by
        intro z hz
        induction hz with
        | refl => exact .head _
        | tail _ hyz ih => exact hcl _ ih _ hyz.2.1 hyz.2.2
      rcases List.mem_cons.1 (hmem q hq) with rfl | hq'
      · exact pairLt_irrefl hlt
      · exact pairLt_irrefl (pairLt_trans hlt (hp q hq'))
    have hwr := walk_closed hsym hdeg fuel p [p] rest (.head _) hd (fun x hx => hsub x hx)
      (by intro x hx hxp; exact absurd (List.mem_singleton.1 hx) hxp) (.inr hone) w r h1
    have hmw : ∀ x, x ∈ w ∨ x ∈ r ↔ x ∈ p :: rest := fun x => List.mem_append.symm.trans h2.mem_iff
    have e : wireLoop near fuel (n + 1) (p :: rest) = (wireLoop near fuel n r).map fun ws => w :: ws := by
      simp [wireLoop, h1]
    rw [e] at h
    obtain ⟨ws', h7, rfl⟩ := Option.map_eq_some_iff.1 h
    intro v hv x hx y hy hxy
    rcases List.mem_cons.1 hv with rfl | hv
    · rcases (hmw y).2 (hcl x ((hmw x).1 (.inl hx)) y hy hxy) with h | h
      · exact h
      · exact absurd hxy (hwr x hx y h)
    · refine wireLoop_closed hsym hdeg hend fuel n r ((List.pairwise_cons.1 hs).2.sublist h3)
        (fun x hx => hsub x (.tail _ (h3.subset hx))) ?_ (by have := h3.length_le; simp at hf; omega) ws' h7 v hv x hx y hy hxy
      intro x hx y hy hxy
      rcases (hmw y).2 (hcl x (.tail _ (h3.subset hx)) y hy hxy) with h | h
      · exact absurd (linked_symm hxy) (hwr y h x hx)
      · exact h

end Verif.SidbAnalysis.Bdl
