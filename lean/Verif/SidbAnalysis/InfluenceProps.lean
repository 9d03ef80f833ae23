import Verif.SidbAnalysis.Influence
import Verif.SidbAnalysis.DisplacementProps

/-!
# C101: defect influence domains and clearances

## Specification
-/
namespace Verif.Influence

open Verif.Displacement (Pos spanned slices mem_spanned nodup_spanned slices_flatten flatMap_set)

/-- The position is within the scanned area and on the grid. -/
def Problem.Scanned (P : Problem) (stepSize : Nat) (p : Pos) : Prop :=
  (P.nw.1 - P.area.1 ≤ p.1 ∧ p.1 ≤ P.se.1 + P.area.1) ∧ (P.nw.2 - P.area.2 ≤ p.2 ∧ p.2 ≤ P.se.2 + P.area.2) ∧
    (stepSize : Int) ∣ p.1 ∧ (stepSize : Int) ∣ p.2

/-- The defect changes whether the layout works. -/
def Problem.ChangesOperation (P : Problem) (p : Pos) : Prop := P.operational (some p) ≠ P.operational none

/-- The defect changes the ground states. -/
def Problem.ChangesGroundStates (P : Problem) (k : Option Nat) (p : Pos) : Prop :=
  ∃ g, ¬ (g ∈ P.groundStates k (some p) ↔ g ∈ P.groundStates k none)

/-! ## Lemmas -/

theorem mem_positions (P : Problem) (ha : 0 ≤ P.area.1 ∧ 0 ≤ P.area.2) (hb : P.nw.1 ≤ P.se.1 ∧ P.nw.2 ≤ P.se.2) (p : Pos) :
    p ∈ P.positions ↔ (P.nw.1 - P.area.1 ≤ p.1 ∧ p.1 ≤ P.se.1 + P.area.1) ∧
      (P.nw.2 - P.area.2 ≤ p.2 ∧ p.2 ≤ P.se.2 + P.area.2) := by
  unfold Problem.positions
  rw [mem_spanned]
  dsimp only
  omega

theorem nodup_positions (P : Problem) : P.positions.Nodup := nodup_spanned _ _

theorem onGrid_iff (k : Nat) (p : Pos) : onGrid k p = true ↔ (k : Int) ∣ p.1 ∧ (k : Int) ∣ p.2 := by
  unfold onGrid
  rw [Bool.and_eq_true, beq_iff_eq, beq_iff_eq, ← Nat.dvd_iff_mod_eq_zero, ← Nat.dvd_iff_mod_eq_zero, Int.natCast_dvd,
    Int.natCast_dvd]

/-- What a thread will still store. -/
def owed (P : Problem) (sel : Pos → Bool) (t : List Pos × Option (Pos × Bool)) : List (Pos × Bool) :=
  t.2.toList ++ (t.1.filter sel).map (fun p => (p, P.status p))

/-- The positions a thread will still evaluate. -/
def left (sel : Pos → Bool) (t : List Pos × Option (Pos × Bool)) : List Pos := t.1.filter sel

/-- The most steps a thread will still make. -/
def owedSteps (t : List Pos × Option (Pos × Bool)) : List Unit := t.2.toList.map (fun _ => ()) ++ t.1.flatMap (fun _ => [(), ()])

structure Inv (P : Problem) (sel : Pos → Bool) (ps : List Pos) (s : State) : Prop where
  perm : (s.dom ++ s.thr.flatMap (owed P sel)).Perm ((ps.filter sel).map (fun p => (p, P.status p)))
  eval : s.evaluated + (s.thr.flatMap (left sel)).length = (ps.filter sel).length

theorem filter_flatMap_id (sel : Pos → Bool) (ls : List (List Pos)) :
    ls.flatMap (fun l => l.filter sel) = (ls.flatMap id).filter sel := by
  induction ls with
  | nil => rfl
  | cons l ls ih => simp only [List.flatMap_cons, ih, List.filter_append, id]

theorem Inv.start (P : Problem) (sel : Pos → Bool) (ps : List Pos) (n : Nat) : Inv P sel ps (State.start n ps) := by
  constructor
  · simp only [State.start, List.nil_append, List.flatMap_map, owed, Option.toList_none]
    rw [← List.map_flatMap, filter_flatMap_id, slices_flatten]
  · simp only [State.start, List.flatMap_map, left, Nat.zero_add]
    rw [filter_flatMap_id, slices_flatten]

theorem Inv.fresh {P : Problem} {sel : Pos → Bool} {ps : List Pos} {s : State} (h : Inv P sel ps s) (hn : ps.Nodup)
    {r : Pos × Bool} {rest : List (Pos × Bool)} (hp : (s.thr.flatMap (owed P sel)).Perm (r :: rest)) :
    s.dom.any (fun d => d.1 == r.1) = false := by
  have h1 : ((s.dom ++ r :: rest).map Prod.fst).Nodup := by
    refine (((hp.append_left s.dom).symm.trans h.perm).map Prod.fst).nodup_iff.2 ?_
    rw [List.map_map]
    show (List.map (fun p => p) _).Nodup
    rw [List.map_id']
    exact hn.filter _
  rw [List.map_append, List.map_cons, List.nodup_append] at h1
  rw [List.any_eq_false]
  intro d hd he
  rw [beq_iff_eq] at he
  exact h1.2.2 d.1 (List.mem_map_of_mem hd) r.1 (List.mem_cons_self ..) he

theorem Inv.step {P : Problem} {sel : Pos → Bool} {ps : List Pos} {s s' : State} (h : Inv P sel ps s) (hn : ps.Nodup) {i : Nat}
    (hs : step P sel s i = some s') :
    Inv P sel ps s' ∧ (s'.thr.flatMap owedSteps).length + 1 ≤ (s.thr.flatMap owedSteps).length := by
  unfold Influence.step at hs
  split at hs
  · rename_i todo r ht
    cases hs
    obtain ⟨rest, r1, r2⟩ := flatMap_set (owed P sel) ht
    obtain ⟨rest', q1, q2⟩ := flatMap_set owedSteps ht
    obtain ⟨rest'', l1, l2⟩ := flatMap_set (left sel) ht
    have hf := h.fresh hn (r := r) (rest := (todo.filter sel).map (fun p => (p, P.status p)) ++ rest) r1
    refine ⟨⟨?_, ?_⟩, ?_⟩
    · refine List.Perm.trans ?_ h.perm
      simp only [addValue, hf, Bool.false_eq_true, if_false]
      rw [List.append_assoc]
      refine List.Perm.append_left _ (List.Perm.trans ?_ r1.symm)
      exact List.Perm.append_left _ (r2 _)
    · rw [← h.eval, l1.length_eq, (l2 _).length_eq]
      rfl
    · rw [q1.length_eq, (q2 _).length_eq]
      simp [owedSteps]
  · rename_i p todo ht
    obtain ⟨rest, r1, r2⟩ := flatMap_set (owed P sel) ht
    obtain ⟨rest', q1, q2⟩ := flatMap_set owedSteps ht
    obtain ⟨rest'', l1, l2⟩ := flatMap_set (left sel) ht
    by_cases hsel : sel p = true
    · have e1 : owed P sel (p :: todo, none) ++ rest =
          (p, P.status p) :: ((todo.filter sel).map (fun p => (p, P.status p)) ++ rest) := by
        simp [owed, hsel]
      have hf := h.fresh hn (r := (p, P.status p)) (e1 ▸ r1)
      rw [if_pos hsel, if_neg (by rw [hf]; exact Bool.false_ne_true)] at hs
      cases hs
      refine ⟨⟨?_, ?_⟩, ?_⟩
      · refine List.Perm.trans ?_ h.perm
        refine List.Perm.append_left _ ((r2 _).trans (List.Perm.trans ?_ r1.symm))
        rw [e1]
        exact List.Perm.refl _
      · rw [← h.eval, l1.length_eq, (l2 _).length_eq]
        simp [left, hsel]
        omega
      · rw [q1.length_eq, (q2 _).length_eq]
        simp [owedSteps]
    · rw [if_neg hsel] at hs
      cases hs
      refine ⟨⟨?_, ?_⟩, ?_⟩
      · refine List.Perm.trans ?_ h.perm
        refine List.Perm.append_left _ ((r2 _).trans (List.Perm.trans ?_ r1.symm))
        simp [owed, hsel]
      · rw [← h.eval, l1.length_eq, (l2 _).length_eq]
        simp [left, hsel]
      · rw [q1.length_eq, (q2 _).length_eq]
        simp [owedSteps]
  · cases hs

theorem Inv.run {P : Problem} {sel : Pos → Bool} {ps : List Pos} (hn : ps.Nodup) : ∀ (es : List Nat) {s s' : State},
    Inv P sel ps s → run P sel s es = some s' →
    Inv P sel ps s' ∧ (s'.thr.flatMap owedSteps).length + es.length ≤ (s.thr.flatMap owedSteps).length := by
  intro es
  induction es with
  | nil => intro s s' h hr; cases hr; exact ⟨h, le_refl _⟩
  | cons i es ih =>
    intro s s' h hr
    simp only [Influence.run, Option.bind_eq_some_iff] at hr
    obtain ⟨s1, h1, h2⟩ := hr
    obtain ⟨a1, a2⟩ := h.step hn h1
    obtain ⟨b1, b2⟩ := ih a1 h2
    exact ⟨b1, by rw [List.length_cons]; omega⟩

theorem Inv.joined {P : Problem} {sel : Pos → Bool} {ps : List Pos} {s : State} (h : Inv P sel ps s) (hj : s.Joined) :
    s.dom.Perm ((ps.filter sel).map (fun p => (p, P.status p))) ∧ s.evaluated = (ps.filter sel).length := by
  constructor
  · have h0 : s.thr.flatMap (owed P sel) = [] := by
      rw [List.flatMap_eq_nil_iff]
      intro t ht
      rw [hj t ht]
      rfl
    have := h.perm
    rwa [h0, List.append_nil] at this
  · have h0 : s.thr.flatMap (left sel) = [] := by
      rw [List.flatMap_eq_nil_iff]
      intro t ht
      rw [hj t ht]
      rfl
    have := h.eval
    rwa [h0, List.length_nil, Nat.add_zero] at this

theorem start_steps (n : Nat) (ps : List Pos) : ((State.start n ps).thr.flatMap owedSteps).length = 2 * ps.length := by
  have : (State.start n ps).thr.flatMap owedSteps = ((slices n ps).flatMap id).flatMap (fun _ => [(), ()]) := by
    simp only [State.start, List.flatMap_map, owedSteps, Option.toList_none, List.map_nil, List.nil_append]
    rw [List.flatMap_assoc]
    rfl
  rw [this, slices_flatten, List.length_flatMap]
  simp [Nat.mul_comm]

theorem logStats_foldl (dom : List (Pos × Bool)) : ∀ n : Nat × Nat,
    dom.foldl (fun n d => if d.2 then (n.1 + 1, n.2) else (n.1, n.2 + 1)) n =
      (n.1 + dom.countP (fun d => d.2), n.2 + dom.countP (fun d => !d.2)) := by
  induction dom with
  | nil => intro n; rfl
  | cons d dom ih =>
    intro n
    rw [List.foldl_cons, ih, List.countP_cons, List.countP_cons]
    cases d.2 <;> simp <;> omega

theorem groundStateChanged_iff (P : Problem) (k : Option Nat) (p : Pos) (hc : P.cells ≠ []) (hp : P.positive k p = false)
    (hn : (P.groundStates k none).Nodup) (hd : (P.groundStates k (some p)).Nodup) :
    P.groundStateChanged k p = true ↔ P.ChangesGroundStates k p := by
  unfold Problem.groundStateChanged Problem.ChangesGroundStates
  rw [if_neg hc, if_neg (by rw [hp]; exact Bool.false_ne_true)]
  by_cases hl : (P.groundStates k none).length = (P.groundStates k (some p)).length
  · rw [if_neg (not_not.2 hl), List.any_eq_true]
    constructor
    · rintro ⟨g, hg, he⟩
      refine ⟨g, fun h => ?_⟩
      have := h.1 hg
      simp only [Bool.not_eq_true', List.any_eq_false, beq_iff_eq] at he
      exact he g this rfl
    · rintro ⟨g, hg⟩
      by_contra hno
      have hsub : ∀ x ∈ P.groundStates k (some p), x ∈ P.groundStates k none := by
        intro x hx
        by_contra hxn
        refine hno ⟨x, hx, ?_⟩
        simp only [Bool.not_eq_true', List.any_eq_false, beq_iff_eq]
        intro y hy he
        exact hxn (he ▸ hy)
      have hperm := (List.subperm_of_subset hd hsub).perm_of_length_le (by omega)
      exact hg hperm.mem_iff
  · rw [if_pos hl]
    simp only [true_iff]
    by_contra hno
    push Not at hno
    refine hl ((List.perm_ext_iff_of_nodup hn hd).2 (fun g => ?_)).length_eq
    exact (hno g).symm

section
variable {D : Type} [LinearOrder D] [Zero D]

theorem nearest_foldl (dist : Pos → Pos → D) (p : Pos) (cells : List Pos) : ∀ m : WithTop D × Pos,
    let r := cells.foldl (fun m c => if (dist c p : WithTop D) < m.1 then ((dist c p : WithTop D), p) else m) m
    r.1 ≤ m.1 ∧ (∀ c ∈ cells, r.1 ≤ (dist c p : WithTop D)) ∧ (r = m ∨ (r.2 = p ∧ ∃ c ∈ cells, r.1 = (dist c p : WithTop D))) := by
  induction cells with
  | nil => intro m; exact ⟨le_refl _, by simp, Or.inl rfl⟩
  | cons c cells ih =>
    intro m
    simp only [List.foldl_cons]
    by_cases h : (dist c p : WithTop D) < m.1
    · rw [if_pos h]
      obtain ⟨i1, i2, i3⟩ := ih ((dist c p : WithTop D), p)
      refine ⟨le_trans i1 h.le, ?_, ?_⟩
      · intro c' hc'
        rcases List.mem_cons.1 hc' with rfl | hc'
        · exact i1
        · exact i2 c' hc'
      · right
        rcases i3 with i3 | ⟨i3, c', hc', i4⟩
        · rw [i3]; exact ⟨rfl, c, List.mem_cons_self .., rfl⟩
        · exact ⟨i3, c', List.mem_cons_of_mem _ hc', i4⟩
    · rw [if_neg h]
      obtain ⟨i1, i2, i3⟩ := ih m
      refine ⟨i1, ?_, ?_⟩
      · intro c' hc'
        rcases List.mem_cons.1 hc' with rfl | hc'
        · exact le_trans i1 (not_lt.1 h)
        · exact i2 c' hc'
      · rcases i3 with i3 | ⟨i3, c', hc', i4⟩
        · exact Or.inl i3
        · exact Or.inr ⟨i3, c', List.mem_cons_of_mem _ hc', i4⟩

theorem nearest_spec (dist : Pos → Pos → D) {cells : List Pos} (hc : cells ≠ []) (p : Pos) :
    (nearest dist cells p).2 = p ∧ (∃ c ∈ cells, (nearest dist cells p).1 = (dist c p : WithTop D)) ∧
      ∀ c ∈ cells, (nearest dist cells p).1 ≤ (dist c p : WithTop D) := by
  obtain ⟨-, h2, h3⟩ := nearest_foldl dist p cells (⊤, (0, 0))
  change (∀ c ∈ cells, (nearest dist cells p).1 ≤ _) at h2
  change nearest dist cells p = _ ∨ ((nearest dist cells p).2 = p ∧ ∃ c ∈ cells, (nearest dist cells p).1 = _) at h3
  rcases h3 with h3 | ⟨h3, h4⟩
  · obtain ⟨c, hc⟩ := List.exists_mem_of_ne_nil _ hc
    have := h2 c hc
    rw [h3] at this
    exact absurd (top_le_iff.1 this) (WithTop.coe_ne_top)
  · exact ⟨h3, h4, h2⟩

theorem clearance_foldl (dist : Pos → Pos → D) (cells : List Pos) (dom : List (Pos × Bool)) : ∀ m : WithTop D × Pos,
    let r := dom.foldl (fun m d => if !d.2 then m
      else if (nearest dist cells d.1).1 > m.1 then nearest dist cells d.1 else m) m
    m.1 ≤ r.1 ∧ (∀ q, (q, true) ∈ dom → (nearest dist cells q).1 ≤ r.1) ∧
      (r = m ∨ ∃ q, (q, true) ∈ dom ∧ r = nearest dist cells q) := by
  induction dom with
  | nil => intro m; exact ⟨le_refl _, by simp, Or.inl rfl⟩
  | cons d dom ih =>
    intro m
    obtain ⟨q, b⟩ := d
    simp only [List.foldl_cons]
    cases b with
    | false =>
      simp only [Bool.not_false, if_true]
      obtain ⟨i1, i2, i3⟩ := ih m
      refine ⟨i1, ?_, ?_⟩
      · intro q' hq'
        rcases List.mem_cons.1 hq' with hq' | hq'
        · exact absurd (congrArg Prod.snd hq') (by simp)
        · exact i2 q' hq'
      · rcases i3 with i3 | ⟨q', h, i3⟩
        · exact Or.inl i3
        · exact Or.inr ⟨q', List.mem_cons_of_mem _ h, i3⟩
    | true =>
      simp only [Bool.not_true, Bool.false_eq_true, if_false]
      by_cases hgt : (nearest dist cells q).1 > m.1
      · rw [if_pos hgt]
        obtain ⟨i1, i2, i3⟩ := ih (nearest dist cells q)
        refine ⟨le_trans (le_of_lt hgt) i1, ?_, ?_⟩
        · intro q' hq'
          rcases List.mem_cons.1 hq' with hq' | hq'
          · rw [(Prod.mk.inj hq').1]; exact i1
          · exact i2 q' hq'
        · right
          rcases i3 with i3 | ⟨q', h, i3⟩
          · exact ⟨q, List.mem_cons_self .., i3⟩
          · exact ⟨q', List.mem_cons_of_mem _ h, i3⟩
      · rw [if_neg hgt]
        obtain ⟨i1, i2, i3⟩ := ih m
        refine ⟨i1, ?_, ?_⟩
        · intro q' hq'
          rcases List.mem_cons.1 hq' with hq' | hq'
          · rw [(Prod.mk.inj hq').1]; exact le_trans (not_lt.1 hgt) i1
          · exact i2 q' hq'
        · rcases i3 with i3 | ⟨q', h, i3⟩
          · exact Or.inl i3
          · exact Or.inr ⟨q', List.mem_cons_of_mem _ h, i3⟩

end

/-! ## Theorems -/

/-- C101. However the threads are scheduled, grid search assigns a status to exactly the positions of the scanned area on the
grid, each once, and the statistics count them. -/
theorem C101_grid (P : Problem) (n stepSize : Nat) (s : State) (ha : 0 ≤ P.area.1 ∧ 0 ≤ P.area.2)
    (hb : P.nw.1 ≤ P.se.1 ∧ P.nw.2 ≤ P.se.2) (ho : GridOutcome P n stepSize s) :
    (s.dom.map Prod.fst).Nodup ∧ (∀ p b, (p, b) ∈ s.dom ↔ P.Scanned stepSize p ∧ b = P.status p) ∧
      s.evaluated = s.dom.length ∧
      logStats s.dom = (s.dom.countP (fun d => d.2), s.dom.countP (fun d => !d.2)) := by
  obtain ⟨es, hr, hj⟩ := ho
  obtain ⟨h1, -⟩ := (Inv.start P (onGrid stepSize) P.positions n).run (nodup_positions P) es hr
  obtain ⟨h2, h3⟩ := h1.joined hj
  refine ⟨?_, ?_, ?_, ?_⟩
  · refine (h2.map Prod.fst).nodup_iff.2 ?_
    rw [List.map_map]
    show (List.map (fun p => p) _).Nodup
    rw [List.map_id']
    exact (nodup_positions P).filter _
  · intro p b
    rw [h2.mem_iff, List.mem_map]
    constructor
    · rintro ⟨q, hq, he⟩
      obtain ⟨rfl, rfl⟩ := Prod.mk.inj he
      rw [List.mem_filter, mem_positions P ha hb, onGrid_iff] at hq
      exact ⟨⟨hq.1.1, hq.1.2, hq.2⟩, rfl⟩
    · rintro ⟨hp, rfl⟩
      refine ⟨p, ?_, rfl⟩
      rw [List.mem_filter, mem_positions P ha hb, onGrid_iff]
      exact ⟨⟨hp.1, hp.2.1⟩, hp.2.2⟩
  · rw [h3, h2.length_eq, List.length_map]
  · rw [logStats, logStats_foldl]
    simp

/-- C101. Random sampling assigns a status to the given number of distinct positions of the scanned area, or to all of them. -/
theorem C101_random (P : Problem) (n samples : Nat) (s : State) (ha : 0 ≤ P.area.1 ∧ 0 ≤ P.area.2)
    (hb : P.nw.1 ≤ P.se.1 ∧ P.nw.2 ≤ P.se.2) (ho : RandomOutcome P n samples s) :
    (s.dom.map Prod.fst).Nodup ∧ (∀ p b, (p, b) ∈ s.dom → P.Scanned 1 p ∧ b = P.status p) ∧
      s.dom.length = min samples P.positions.length ∧
      (P.positions.length ≤ samples → ∀ p, P.Scanned 1 p → (p, P.status p) ∈ s.dom) := by
  obtain ⟨sh, es, hsh, hr, hj⟩ := ho
  have hn : (sh.take (min sh.length samples)).Nodup := (hsh.nodup_iff.2 (nodup_positions P)).sublist (List.take_sublist _ _)
  obtain ⟨h1, -⟩ := (Inv.start P (fun _ => true) (sh.take (min sh.length samples)) n).run hn es hr
  obtain ⟨h2, -⟩ := h1.joined hj
  rw [List.filter_true] at h2
  have hsc : ∀ p, P.Scanned 1 p ↔ p ∈ P.positions := by
    intro p
    rw [mem_positions P ha hb]
    unfold Problem.Scanned
    simp
  refine ⟨?_, ?_, ?_, ?_⟩
  · refine (h2.map Prod.fst).nodup_iff.2 ?_
    rw [List.map_map]
    show (List.map (fun p => p) _).Nodup
    rw [List.map_id']
    exact hn
  · intro p b hp
    rw [h2.mem_iff, List.mem_map] at hp
    obtain ⟨q, hq, he⟩ := hp
    obtain ⟨rfl, rfl⟩ := Prod.mk.inj he
    exact ⟨(hsc q).2 (hsh.mem_iff.1 (List.mem_of_mem_take hq)), rfl⟩
  · rw [h2.length_eq, List.length_map, List.length_take, hsh.length_eq]
    omega
  · intro hle p hp
    rw [h2.mem_iff]
    refine List.mem_map.2 ⟨p, ?_, rfl⟩
    rw [List.take_of_length_le (by rw [hsh.length_eq]; omega)]
    exact hsh.mem_iff.2 ((hsc p).1 hp)

/-- C101. No schedule takes more than two steps per position, and until all threads can be joined one of them can go on. -/
theorem C101_terminates (P : Problem) (sel : Pos → Bool) (n : Nat) (ps : List Pos) (hn : ps.Nodup) (es : List Nat) (s : State)
    (hr : run P sel (State.start n ps) es = some s) :
    es.length ≤ 2 * ps.length ∧ (s.Joined ∨ ∃ i s', step P sel s i = some s') := by
  obtain ⟨-, h⟩ := (Inv.start P sel ps n).run hn es hr
  rw [start_steps] at h
  refine ⟨by omega, ?_⟩
  by_cases hj : s.Joined
  · exact Or.inl hj
  · right
    unfold State.Joined at hj
    push Not at hj
    obtain ⟨t, ht, hne⟩ := hj
    obtain ⟨i, hi, rfl⟩ := List.getElem_of_mem ht
    refine ⟨i, ?_⟩
    unfold step
    rw [List.getElem?_eq_getElem hi]
    generalize s.thr[i] = t at *
    obtain ⟨todo, r⟩ := t
    cases r with
    | some r => exact ⟨_, rfl⟩
    | none =>
      cases todo with
      | nil => exact absurd rfl hne
      | cons l todo =>
        dsimp only
        split_ifs <;> exact ⟨_, rfl⟩

/-- C101. With a specification and a layout that works without the defect, a position is influential exactly if a defect there,
not on an SiDB, makes a difference. Missing: layouts that do not work, C101_false_operationality, and layouts without a
specification, C101_false_specification. -/
theorem C101_operationality_partial (P : Problem) (hd : P.definition = .operationality) (hs : P.spec ≠ none)
    (ho : P.operational none = true) (p : Pos) : P.status p = true ↔ p ∉ P.cells ∧ P.ChangesOperation p := by
  obtain ⟨n, hn⟩ := Option.ne_none_iff_exists'.1 hs
  unfold Problem.status Problem.ChangesOperation
  rw [hn, hd, ho]
  by_cases hp : p ∈ P.cells
  · simp [hp]
  · simp [hp]

/-- C101. If no SiDB can be positively charged, a position is influential exactly if a defect there, not on an SiDB, changes the
ground states for some input pattern. Missing: possible positive charges, C101_false_positive. -/
theorem C101_groundState_partial (P : Problem) (n : Nat) (hd : P.definition = .groundState) (hs : P.spec = some n)
    (hc : P.cells ≠ []) (p : Pos) (hp : ∀ k < n, P.positive (some k) p = false)
    (hn : ∀ k d, (P.groundStates k d).Nodup) :
    P.status p = true ↔ p ∉ P.cells ∧ ∃ k < n, P.ChangesGroundStates (some k) p := by
  unfold Problem.status
  rw [hs, hd]
  by_cases hm : p ∈ P.cells
  · simp [hm]
  · rw [if_neg hm]
    simp only [List.any_eq_true, List.mem_range, hm, not_false_eq_true, true_and]
    refine exists_congr fun k => and_congr_right fun hk => ?_
    exact groundStateChanged_iff P (some k) p hc (hp k hk) (hn _ _) (hn _ _)

/-- C101. The same for layouts without a specification. -/
theorem C101_plain_partial (P : Problem) (hd : P.definition = .groundState) (hs : P.spec = none)
    (hc : P.cells ≠ []) (p : Pos) (hp : P.positive none p = false) (hn : ∀ d, (P.groundStates none d).Nodup) :
    P.status p = true ↔ p ∉ P.cells ∧ P.ChangesGroundStates none p := by
  unfold Problem.status
  rw [hs, hd]
  by_cases hm : p ∈ P.cells
  · simp [hm]
  · rw [if_neg hm]
    simp only [hm, not_false_eq_true, true_and]
    exact groundStateChanged_iff P none p hc hp (hn _) (hn _)

/-- C101. Whatever the order of the domain, the clearance is the largest distance of an influential position from its nearest
SiDB, and zero if there is none: each influential position is that close to some SiDB, and the position returned is that far
from all SiDBs. -/
theorem C101_clearance {D : Type} [LinearOrder D] [Zero D] (dist : Pos → Pos → D) (cells : List Pos) (dom : List (Pos × Bool))
    (hc : cells ≠ []) :
    ∃ d : D, (clearance dist cells dom).1 = d ∧ (∀ q, (q, true) ∈ dom → ∃ c ∈ cells, dist c q ≤ d) ∧
      ((d = 0 ∧ (clearance dist cells dom).2 = (0, 0)) ∨
        (((clearance dist cells dom).2, true) ∈ dom ∧ (∃ c ∈ cells, dist c (clearance dist cells dom).2 = d) ∧
          ∀ c ∈ cells, d ≤ dist c (clearance dist cells dom).2)) := by
  obtain ⟨-, h2, h3⟩ := clearance_foldl dist cells dom (((0 : D) : WithTop D), (0, 0))
  change ∀ q, (q, true) ∈ dom → _ ≤ (clearance dist cells dom).1 at h2
  change clearance dist cells dom = _ ∨ ∃ q, (q, true) ∈ dom ∧ clearance dist cells dom = _ at h3
  have key : ∀ d : D, (clearance dist cells dom).1 = d → ∀ q, (q, true) ∈ dom → ∃ c ∈ cells, dist c q ≤ d := by
    intro d hd q hq
    obtain ⟨-, ⟨c, hc1, hc2⟩, -⟩ := nearest_spec dist hc q
    have := h2 q hq
    rw [hc2, hd] at this
    exact ⟨c, hc1, WithTop.coe_le_coe.1 this⟩
  rcases h3 with h3 | ⟨q, hq, h3⟩
  · exact ⟨0, by rw [h3], key 0 (by rw [h3]), Or.inl ⟨rfl, by rw [h3]⟩⟩
  · obtain ⟨a1, ⟨c, hc1, hc2⟩, a3⟩ := nearest_spec dist hc q
    refine ⟨dist c q, by rw [h3, hc2], key _ (by rw [h3, hc2]), Or.inr ?_⟩
    rw [h3, a1]
    refine ⟨hq, ⟨c, hc1, rfl⟩, fun c' hc' => ?_⟩
    have := a3 c' hc'
    rw [hc2] at this
    exact WithTop.coe_le_coe.1 this

/-- C101. A defect at a position scanned by grid search and farther from all SiDBs than the clearance is not influential.
Missing: positions that were not scanned, C101_false_grid. -/
theorem C101_safe_partial {D : Type} [LinearOrder D] [Zero D] (dist : Pos → Pos → D) (P : Problem) (n stepSize : Nat) (s : State)
    (ha : 0 ≤ P.area.1 ∧ 0 ≤ P.area.2) (hb : P.nw.1 ≤ P.se.1 ∧ P.nw.2 ≤ P.se.2) (ho : GridOutcome P n stepSize s)
    (hc : P.cells ≠ []) (dom : List (Pos × Bool)) (hp : dom.Perm s.dom) (p : Pos)
    (hs : P.Scanned stepSize p) (hfar : ∀ c ∈ P.cells, (clearance dist P.cells dom).1 < (dist c p : WithTop D)) :
    P.status p = false := by
  obtain ⟨-, h, -⟩ := C101_grid P n stepSize s ha hb ho
  obtain ⟨d, e1, e2, -⟩ := C101_clearance dist P.cells dom hc
  by_contra hne
  have hm := hp.mem_iff.2 ((h p true).2 ⟨hs, (Bool.not_eq_false _ ▸ hne).symm⟩)
  obtain ⟨c, hc1, hc2⟩ := e2 p hm
  have := hfar c hc1
  rw [e1] at this
  exact absurd hc2 (not_le.2 (WithTop.coe_lt_coe.1 this))

/-! ## Where the property fails, and examples -/

/-- One SiDB; with a defect right of it, the gate fails. -/
def one : Problem where
  cells := [(0, 0)]
  nw := (0, 0)
  se := (0, 0)
  area := (2, 0)
  definition := .operationality
  spec := some 2
  operational := fun p => p != some (1, 0)
  groundStates := fun _ p => if p = some (1, 0) then [1] else [0]
  positive := fun _ _ => false

/-- The distance in columns and rows. -/
def cityBlock (c p : Pos) : Nat := (c.1 - p.1).natAbs + (c.2 - p.2).natAbs

/-- C101. In a layout that does not work, defects without any influence are called influential. -/
theorem C101_false_operationality : let P := { one with operational := fun _ => false };
    P.status (2, 0) = true ∧ ¬ P.ChangesOperation (2, 0) := by
  refine ⟨by decide +kernel, ?_⟩
  unfold Problem.ChangesOperation
  decide +kernel

/-- C101. Without a specification, the default definition calls no defect influential. -/
theorem C101_false_specification : ∀ P : Problem, P.spec = none → P.definition = .operationality → ∀ p, P.status p = false := by
  intro P h1 h2 p
  unfold Problem.status
  rw [h1, h2]
  split_ifs <;> rfl

/-- C101. Defects that only make positive charges possible are called influential although no ground state changes. -/
theorem C101_false_positive : let P := { one with definition := .groundState, positive := fun _ _ => true };
    P.status (2, 0) = true ∧ ¬ ∃ k, P.ChangesGroundStates k (2, 0) := by
  refine ⟨by decide +kernel, ?_⟩
  rintro ⟨k, g, h⟩
  exact h (by simp [one])

/-- C101. With steps of two columns, an influential position farther than the clearance is missed. -/
theorem C101_false_grid : ∃ s, GridOutcome one 1 2 s ∧ clearance cityBlock one.cells s.dom = (((0 : Nat) : WithTop Nat), (0, 0)) ∧
    one.status (1, 0) = true ∧ 0 < cityBlock (0, 0) (1, 0) := by
  refine ⟨⟨[((-2, 0), false), ((0, 0), false), ((2, 0), false)], 3, [([], none)]⟩, ⟨[0, 0, 0, 0, 0, 0, 0, 0], ?_, ?_⟩, ?_, ?_, ?_⟩
  · decide +kernel
  · unfold State.Joined; decide +kernel
  · decide +kernel
  · decide +kernel
  · decide +kernel

/-- Two threads. -/
def twoThreads : State :=
  ⟨[((1, 0), true), ((-2, 0), false), ((2, 0), false), ((-1, 0), false), ((0, 0), false)], 5, [([], none), ([], none)]⟩

example : GridOutcome one 2 1 twoThreads :=
  ⟨[1, 1, 0, 0, 1, 1, 0, 0, 0, 0], by decide +kernel, by unfold State.Joined; decide +kernel⟩

example : clearance cityBlock one.cells twoThreads.dom = (((1 : Nat) : WithTop Nat), (1, 0)) := by decide +kernel

example : (0 ≤ one.area.1 ∧ 0 ≤ one.area.2) ∧ (one.nw.1 ≤ one.se.1 ∧ one.nw.2 ≤ one.se.2) ∧ one.cells ≠ [] ∧
    one.operational none = true ∧ one.status (1, 0) = true ∧ one.status (2, 0) = false ∧
    one.Scanned 1 (2, 0) ∧
    ∀ c ∈ one.cells, (clearance cityBlock one.cells twoThreads.dom).1 < ((cityBlock c (2, 0) : Nat) : WithTop Nat) := by
  refine ⟨by decide +kernel, by decide +kernel, by decide +kernel, rfl, by decide +kernel, by decide +kernel,
    ?_, by decide +kernel⟩
  unfold Problem.Scanned
  decide +kernel

example : RandomOutcome one 3 2 ⟨[((1, 0), true), ((0, 0), false)], 2, [([], none), ([], none)]⟩ := by
  refine ⟨(0, 0) :: (1, 0) :: (one.positions.erase (0, 0)).erase (1, 0), [1, 0, 1, 0], ?_, by decide +kernel, ?_⟩
  · refine List.Perm.symm ((List.perm_cons_erase (a := ((0, 0) : Pos)) (by decide +kernel)).trans ?_)
    exact (List.perm_cons_erase (by decide +kernel)).cons _
  · unfold State.Joined; decide +kernel

example : let P := { one with definition := .groundState };
    P.status (1, 0) = true ∧ P.status (2, 0) = false ∧ ∀ k d, (P.groundStates k d).Nodup := by
  refine ⟨by decide +kernel, by decide +kernel, fun k d => ?_⟩
  simp only [one]
  split_ifs <;> simp

example : let P := { one with definition := .groundState, spec := none };
    P.status (1, 0) = true ∧ P.status (2, 0) = false := by
  exact ⟨by decide +kernel, by decide +kernel⟩

end Verif.Influence
