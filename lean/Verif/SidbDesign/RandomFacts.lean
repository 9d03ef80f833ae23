import Verif.SidbDesign.Random
import Verif.Cells.Lemmas
import Mathlib.Tactic.SplitIfs
import Mathlib.Data.List.Nodup
import Mathlib.Data.List.Perm.Subperm
import Mathlib.Data.List.Dedup

/-! # Random SiDB layouts: lemmas -/
namespace Verif.SidbDesign

open Verif.Coordinates Verif.Cells

/-! ## Random numbers -/

theorem uniform_spec {lo hi : Int} (h : lo ≤ hi) (r : Nat) : ∃ v, uniform lo hi r = some v ∧ lo ≤ v ∧ v ≤ hi := by
  refine ⟨_, if_neg (by omega), ?_, ?_⟩
  · have := Int.emod_nonneg (r : Int) (show hi - lo + 1 ≠ 0 by omega); omega
  · have := Int.emod_lt_of_pos (r : Int) (show 0 < hi - lo + 1 by omega); omega

theorem uniform_onto {lo hi v : Int} (h1 : lo ≤ v) (h2 : v ≤ hi) : uniform lo hi (v - lo).toNat = some v := by
  unfold uniform
  rw [if_neg (by omega), show ((v - lo).toNat : Int) = v - lo by omega, Int.emod_eq_of_lt (by omega) (by omega)]
  congr 1; omega

section
variable {C D : Type} [DecidableEq C]

theorem type_assign (l : Lyt C D) (c k : C) (t : SidbType) :
    (l.assign c t).cells.getCellType k = if k = c then t else l.cells.getCellType k := getCellType_assign sidb_lawful _ _ _ _

theorem inv_assign {l : Lyt C D} (h : Inv l.cells) (c : C) (t : SidbType) : Inv (l.assign c t).cells :=
  inv_type sidb_lawful h c t

theorem occupied_iff {s : State C sidb} (h : Inv s) (c : C) : c ∈ s.cells ↔ s.getCellType c ≠ .empty := mem_cells h c

theorem cells_nodup {s : State C sidb} (h : Inv s) : s.cells.Nodup := h.nodup

theorem numCells_eq (s : State C sidb) : s.numCells = s.cells.length := by simp [State.numCells, State.cells]

/-- Layouts with the same occupied positions have the same number of cells. -/
theorem numCells_congr {s s' : State C sidb} (h : Inv s) (h' : Inv s')
    (e : ∀ c, s.getCellType c ≠ .empty ↔ s'.getCellType c ≠ .empty) : s.numCells = s'.numCells := by
  rw [numCells_eq, numCells_eq]
  refine List.Perm.length_eq ((List.perm_ext_iff_of_nodup (cells_nodup h) (cells_nodup h')).2 fun c => ?_)
  rw [occupied_iff h, occupied_iff h', e]

theorem cells_perm {s s' : State C sidb} (h : Inv s) (h' : Inv s') (e : ∀ c, s.getCellType c = s'.getCellType c) :
    s.cells.Perm s'.cells :=
  (List.perm_ext_iff_of_nodup (cells_nodup h) (cells_nodup h')).2 fun c => by
    rw [occupied_iff h, occupied_iff h', e]

/-- One more occupied position. -/
theorem numCells_assign {s : State C sidb} (h : Inv s) (c : C) {t : SidbType} (ht : t ≠ .empty) :
    (s.assignCellType c t).numCells = if s.getCellType c = .empty then s.numCells + 1 else s.numCells := by
  have h' := inv_type sidb_lawful h c t
  have ty := fun k => getCellType_assign sidb_lawful s c k t
  split_ifs with hc
  · rw [numCells_eq, numCells_eq]
    have hn : c ∉ s.cells := fun hm => (occupied_iff h c).1 hm hc
    have : ((s.assignCellType c t).cells).Perm (c :: s.cells) := by
      refine (List.perm_ext_iff_of_nodup (cells_nodup h') (List.nodup_cons.2 ⟨hn, cells_nodup h⟩)).2 fun k => ?_
      rw [occupied_iff h', List.mem_cons, occupied_iff h, ty]
      split_ifs with hk <;> simp [hk, ht]
    rw [this.length_eq]; rfl
  · refine numCells_congr h' h fun k => ?_
    rw [ty]; split_ifs with hk
    · rw [hk]; exact ⟨fun _ => hc, fun _ => ht⟩
    · rfl

theorem numCells_remove {s : State C sidb} (h : Inv s) (c : C) : (s.assignCellType c .empty).numCells ≤ s.numCells := by
  have h' := inv_type sidb_lawful h c SidbType.empty
  rw [numCells_eq, numCells_eq]
  refine ((cells_nodup h').subperm fun k hk => ?_).length_le
  rw [occupied_iff h'] at hk
  rw [getCellType_assign sidb_lawful] at hk
  rw [occupied_iff h]
  split_ifs at hk with e
  · exact absurd rfl hk
  · exact hk

/-! ## Identity and digests -/

theorem foldl_add_perm {α : Type} (f : α → BitVec 64) {l l' : List α} (h : l.Perm l') (b : BitVec 64) :
    l.foldl (fun s a => s + f a) b = l'.foldl (fun s a => s + f a) b := by
  induction h generalizing b with
  | nil => rfl
  | cons a _ ih => simp only [List.foldl_cons]; exact ih _
  | swap a a' l => simp only [List.foldl_cons]; rw [BitVec.add_assoc, BitVec.add_comm (f a'), ← BitVec.add_assoc]
  | trans _ _ ih1 ih2 => rw [ih1, ih2]

theorem foldl_add_congr {α : Type} (f g : α → BitVec 64) (l : List α) (b : BitVec 64) (h : ∀ a ∈ l, f a = g a) :
    l.foldl (fun s a => s + f a) b = l.foldl (fun s a => s + g a) b := by
  induction l generalizing b with
  | nil => rfl
  | cons a l ih =>
    simp only [List.foldl_cons]
    rw [h a (by simp), ih _ (fun x hx => h x (by simp [hx]))]

theorem digest_congr (H : Hashes C D) {a b : Lyt C D} (ha : Inv a.cells) (hb : Inv b.cells)
    (hd : a.defects = b.defects) (e : ∀ c, a.cells.getCellType c = b.cells.getCellType c) : digest H a = digest H b := by
  have hp := cells_perm ha hb e
  have hn : a.cells.numCells = b.cells.numCells := numCells_congr ha hb fun c => by rw [e]
  unfold digest
  dsimp only
  rw [hn, hd, foldl_add_perm _ hp, foldl_add_congr _ _ _ _ (fun c _ => by rw [e c])]

theorem identical_of_eq [DecidableEq D] {a b : Lyt C D} (ha : Inv a.cells) (hb : Inv b.cells) (hd : a.defects = b.defects)
    (e : ∀ c, a.cells.getCellType c = b.cells.getCellType c) : identical a b = true := by
  have hn : a.cells.numCells = b.cells.numCells := numCells_congr ha hb fun c => by rw [e]
  unfold identical
  rw [hd, hn]
  simp [e]

/-- The comparison of layouts is right. -/
theorem identical_iff [DecidableEq D] {a b : Lyt C D} (ha : Inv a.cells) (hb : Inv b.cells) (hda : (a.defects.map (·.1)).Nodup)
    (hdb : (b.defects.map (·.1)).Nodup) : identical a b = true ↔
      (∀ c, a.cells.getCellType c = b.cells.getCellType c) ∧ ∀ c, find a.defects c = find b.defects c := by
  constructor
  · intro h
    unfold identical at h
    split_ifs at h with h1 h2 h3 h4
    simp only [ne_eq, not_not, List.any_eq_true, decide_eq_true_eq, not_exists, not_and] at h1 h2 h3 h4
    constructor
    · intro c
      by_cases hc : c ∈ a.cells.cells
      · exact h2 c hc
      · have ea : a.cells.getCellType c = .empty := by
          by_contra hne; exact hc ((occupied_iff ha c).2 hne)
        rw [ea]
        by_contra hne
        have hcb : c ∈ b.cells.cells := (occupied_iff hb c).2 (fun e => hne e.symm)
        have hsub : (c :: a.cells.cells).Subperm b.cells.cells :=
          (List.nodup_cons.2 ⟨hc, cells_nodup ha⟩).subperm fun k hk => by
            rcases List.mem_cons.1 hk with rfl | hk
            · exact hcb
            · rw [occupied_iff hb, ← h2 k hk, ← occupied_iff ha]; exact hk
        have := hsub.length_le
        rw [numCells_eq, numCells_eq] at h1
        simp only [List.length_cons] at this
        omega
    · intro c
      by_cases hc : c ∈ a.defects.map (·.1)
      · obtain ⟨d, hd, rfl⟩ := List.mem_map.1 hc
        exact h4 d hd
      · have ea : find a.defects c = none := by
          rw [mem_keys_iff] at hc; simpa using hc
        rw [ea]
        by_contra hne
        have hcb : c ∈ b.defects.map (·.1) := by
          rw [mem_keys_iff]; exact Option.isSome_iff_ne_none.2 (fun e => hne e.symm)
        have hsub : (c :: a.defects.map (·.1)).Subperm (b.defects.map (·.1)) :=
          (List.nodup_cons.2 ⟨hc, hda⟩).subperm fun k hk => by
            rcases List.mem_cons.1 hk with rfl | hk
            · exact hcb
            · obtain ⟨d, hd, rfl⟩ := List.mem_map.1 hk
              rw [mem_keys_iff, ← h4 d hd, ← mem_keys_iff]; exact hk
        have := hsub.length_le
        simp only [List.length_cons, List.length_map] at this
        omega
  · rintro ⟨h1, h2⟩
    have hl : b.defects.length = a.defects.length := by
      have : (a.defects.map (·.1)).Perm (b.defects.map (·.1)) :=
        (List.perm_ext_iff_of_nodup hda hdb).2 fun c => by rw [mem_keys_iff, mem_keys_iff, h2]
      simpa using this.length_eq.symm
    have hn : a.cells.numCells = b.cells.numCells := numCells_congr ha hb fun c => by rw [h1]
    unfold identical
    simp [hn, hl, h1, h2]

/-! ## The loop -/

/-- Positions where a dot may be placed. -/
def Free (s : Lyt C D) (aff : List C) (c : C) : Prop := s.defective c = false ∧ c ∉ aff

section Loop
variable {P : Params C D} {aff : List C} {t : SidbType} {draw : Nat → C} {s : Lyt C D}

/-- What holds whatever the treatment of positive charges: outside of the coordinates drawn from `i` to `j`, the layout
is the skeleton. -/
structure Since (s : Lyt C D) (aff : List C) (t : SidbType) (draw : Nat → C) (i j : Nat) (l : Lyt C D) : Prop where
  inv : Inv l.cells
  le : i ≤ j
  defects : l.defects = s.defects
  cell : ∀ c, l.cells.getCellType c = s.cells.getCellType c ∨
    ((∃ k, i ≤ k ∧ k < j ∧ draw k = c) ∧ Free s aff c ∧ (l.cells.getCellType c = t ∨ l.cells.getCellType c = .empty))

theorem Since.attempt {i j : Nat} {l : Lyt C D} (h : Since s aff t draw i j l) :
    Since s aff t draw i (j + 1) (attempt P aff t (draw j) l) := by
  have hle := h.le
  have mono : ∀ c, l.cells.getCellType c = s.cells.getCellType c ∨
    ((∃ k, i ≤ k ∧ k < j + 1 ∧ draw k = c) ∧ Free s aff c ∧
      (l.cells.getCellType c = t ∨ l.cells.getCellType c = .empty)) := by
    intro c
    rcases h.cell c with e | ⟨⟨k, k1, k2, k3⟩, f, o⟩
    · exact .inl e
    · exact .inr ⟨⟨k, k1, by omega, k3⟩, f, o⟩
  unfold SidbDesign.attempt
  dsimp only
  split_ifs with h1 h2
  · have hf : Free s aff (draw j) := by
      simp only [Bool.and_eq_true, Bool.not_eq_true', decide_eq_false_iff_not] at h1
      refine ⟨?_, h1.2⟩
      have := h1.1
      unfold Lyt.defective at this ⊢
      rwa [h.defects] at this
    refine ⟨inv_assign (inv_assign h.inv _ _) _ _, by omega, h.defects, fun c => ?_⟩
    rw [type_assign, type_assign]
    by_cases e : c = draw j
    · right; exact ⟨⟨j, hle, by omega, e.symm⟩, e ▸ hf, .inr (by simp [e])⟩
    · simp only [e, if_false]; exact mono c
  · have hf : Free s aff (draw j) := by
      simp only [Bool.and_eq_true, Bool.not_eq_true', decide_eq_false_iff_not] at h1
      refine ⟨?_, h1.2⟩
      have := h1.1
      unfold Lyt.defective at this ⊢
      rwa [h.defects] at this
    refine ⟨inv_assign h.inv _ _, by omega, h.defects, fun c => ?_⟩
    rw [type_assign]
    by_cases e : c = draw j
    · right; exact ⟨⟨j, hle, by omega, e.symm⟩, e ▸ hf, .inl (by simp [e])⟩
    · simp only [e, if_false]; exact mono c
  · exact ⟨h.inv, by omega, h.defects, mono⟩

theorem attempt_count (ht : t ≠ .empty) {l : Lyt C D} (h : Inv l.cells) (c : C) :
    (attempt P aff t c l).cells.numCells ≤ l.cells.numCells + 1 := by
  unfold attempt
  dsimp only
  have h1 : (l.assign c t).cells.numCells ≤ l.cells.numCells + 1 := by
    unfold Lyt.assign
    dsimp only
    rw [numCells_assign h c ht]
    split_ifs <;> omega
  split_ifs
  · exact Nat.le_trans (numCells_remove (inv_assign h c t) c) h1
  · exact h1
  · omega

/-- The loop preserves what an attempt preserves. -/
theorem place_ind (Q : Nat → Lyt C D → Prop) {target : Nat}
    (step : ∀ j l, l.cells.numCells < target → Q j l → Q (j + 1) (attempt P aff t (draw j) l)) :
    ∀ (n i : Nat) (l : Lyt C D), Q i l →
      Q (place P aff t target draw n i l).2 (place P aff t target draw n i l).1 := by
  intro n
  induction n with
  | zero => intro i l h; exact h
  | succ n ih =>
    intro i l h
    unfold place
    split_ifs with hc
    · exact ih _ _ (step _ _ hc h)
    · exact h

/-- The loop ends when enough dots are placed or all attempts are used up. -/
theorem place_end {target : Nat} : ∀ (n i : Nat) (l : Lyt C D),
    (place P aff t target draw n i l).2 ≤ i + n ∧
    (target ≤ (place P aff t target draw n i l).1.cells.numCells ∨ (place P aff t target draw n i l).2 = i + n) := by
  intro n
  induction n with
  | zero => intro i l; exact ⟨Nat.le_refl _, .inr rfl⟩
  | succ n ih =>
    intro i l
    unfold place
    split_ifs with hc
    · obtain ⟨h1, h2⟩ := ih (i + 1) (SidbDesign.attempt P aff t (draw i) l)
      exact ⟨by omega, h2.imp_right (by omega)⟩
    · exact ⟨by simp only; omega, .inl (by simp only; omega)⟩

end Loop

/-- How a call of the generator comes to its result. -/
theorem generate_cases {P : Params C D} {sk : Option (Lyt C D × List C)} {draw : Nat → C} :
    ∀ {fuel i : Nat} {res : Option (Lyt C D)} {j : Nat}, generate P sk draw fuel i = some (res, j) →
    ∃ (s : Lyt C D) (aff : List C) (target : Nat) (t : SidbType) (i' : Nat) (l : Lyt C D),
      (sk = some (s, aff) ∧ target = P.number + s.cells.numCells ∧ t = .logic ∨
        sk = none ∧ s = blank ∧ aff = [] ∧ target = P.number ∧ t = .normal) ∧
      i ≤ i' ∧ (P.positive ≠ .mayOccur → i' = i) ∧
      place P aff t target draw P.attempts i' s = (l, j) ∧
      (P.positive = .mayOccur → P.canOccur l = true) ∧
      (res = if l.cells.numCells = target then some l else none) := by
  intro fuel
  induction fuel with
  | zero => intro i res j h; cases h
  | succ fuel ih =>
    intro i res j h
    unfold generate at h
    dsimp only at h
    split_ifs at h with h1 h2
    · obtain ⟨s, aff, target, t, i', l, g1, g2, g3, g4, g5, g6⟩ := ih h
      refine ⟨s, aff, target, t, i', l, g1, Nat.le_trans ?_ g2, fun hp => absurd h1.1 hp, g4, g5, g6⟩
      exact place_ind (fun j _ => i ≤ j) (fun j l _ h => Nat.le_succ_of_le h) _ _ _ (Nat.le_refl i)
    all_goals
      simp only [Option.some.injEq, Prod.mk.injEq] at h
      obtain ⟨e1, e2⟩ := h
      cases sk with
      | none =>
        dsimp only at e1 e2 h1 h2
        refine ⟨_, _, _, _, i, _, .inr ⟨rfl, rfl, rfl, rfl, rfl⟩, Nat.le_refl i, fun _ => rfl, Prod.ext rfl e2, ?_, ?_⟩
        · intro hp; by_contra hc; exact h1 ⟨hp, by simpa using hc⟩
        · simp [h2, e1]
      | some p =>
        obtain ⟨s, aff⟩ := p
        dsimp only at e1 e2 h1 h2
        refine ⟨s, aff, _, _, i, _, .inl ⟨rfl, rfl, rfl⟩, Nat.le_refl i, fun _ => rfl, Prod.ext rfl e2, ?_, ?_⟩
        · intro hp; by_contra hc; exact h1 ⟨hp, by simpa using hc⟩
        · simp [h2, e1]

end
end Verif.SidbDesign
