import Verif.Cells.Lemmas

/-! # Copying the cells of one layout to another -/
namespace Verif.Cells

variable {C D : Type} [DecidableEq C] [DecidableEq D] {T : Tech}

/-- One step of `copyCells`. -/
def copyOne (f : C → D) (lyt : State C T) (n : State D T) (c : C) : State D T :=
  ((n.assignCellType (f c) (lyt.getCellType c)).assignCellMode (f c) (lyt.getCellMode c)).assignCellName (f c)
    (lyt.getCellName c)

theorem copyCells_eq (f : C → D) (lyt : State C T) (n : State D T) :
    copyCells f lyt n = lyt.cells.foldl (copyOne f lyt) n := rfl

theorem copyOne_type (hT : T.Lawful) (f : C → D) (lyt : State C T) (n : State D T) (c : C) (d : D) :
    (copyOne f lyt n c).getCellType d = if d = f c then lyt.getCellType c else n.getCellType d := by
  unfold copyOne; rw [getCellType_assignName, getCellType_assignMode, getCellType_assign hT]

theorem copyOne_mode (hT : T.Lawful) (f : C → D) (lyt : State C T) (n : State D T) (c : C) (d : D) :
    (copyOne f lyt n c).getCellMode d = if d = f c then lyt.getCellMode c else n.getCellMode d := by
  unfold copyOne
  rw [getCellMode_assignName, getCellMode_assignMode hT, getCellMode_assignType]
  grind

theorem copyOne_name (f : C → D) (lyt : State C T) (n : State D T) (c : C) (d : D) :
    (copyOne f lyt n c).getCellName d = if d = f c then lyt.getCellName c else n.getCellName d := by
  unfold copyOne; rw [getCellName_assignName, getCellName_assignMode, getCellName_assignType]

theorem copyOne_inv (hT : T.Lawful) (f : C → D) (lyt : State C T) {n : State D T} (h : Inv n) (c : C) :
    Inv (copyOne f lyt n c) := inv_name (inv_mode (inv_type hT h _ _) _ _) _ _

theorem fold_inv (hT : T.Lawful) (f : C → D) (lyt : State C T) (l : List C) {n : State D T} (h : Inv n) :
    Inv (l.foldl (copyOne f lyt) n) := by
  induction l generalizing n with
  | nil => exact h
  | cons c l ih => exact ih (copyOne_inv hT f lyt h c)

/-- Positions without a preimage keep what they had. -/
theorem fold_other (hT : T.Lawful) (f : C → D) (lyt : State C T) (l : List C) (n : State D T) (d : D)
    (hd : ∀ c ∈ l, f c ≠ d) :
    (l.foldl (copyOne f lyt) n).getCellType d = n.getCellType d ∧
    (l.foldl (copyOne f lyt) n).getCellMode d = n.getCellMode d ∧
    (l.foldl (copyOne f lyt) n).getCellName d = n.getCellName d := by
  induction l generalizing n with
  | nil => exact ⟨rfl, rfl, rfl⟩
  | cons c l ih =>
    rw [List.foldl_cons]
    have hc : d ≠ f c := fun e => hd c (by simp) e.symm
    obtain ⟨h1, h2, h3⟩ := ih (copyOne f lyt n c) (fun c hc => hd c (by simp [hc]))
    rw [h1, h2, h3, copyOne_type hT, copyOne_mode hT, copyOne_name]
    simp [hc]

/-- Some cell mapped to a position leaves its type there. -/
theorem fold_some (hT : T.Lawful) (f : C → D) (lyt : State C T) (l : List C) (n : State D T) (d : D)
    (hd : ∃ c ∈ l, f c = d) :
    ∃ c ∈ l, f c = d ∧ (l.foldl (copyOne f lyt) n).getCellType d = lyt.getCellType c ∧
      (l.foldl (copyOne f lyt) n).getCellMode d = lyt.getCellMode c ∧
      (l.foldl (copyOne f lyt) n).getCellName d = lyt.getCellName c := by
  induction l generalizing n with
  | nil => obtain ⟨c, hc, _⟩ := hd; simp at hc
  | cons c l ih =>
    rw [List.foldl_cons]
    by_cases hl : ∃ c ∈ l, f c = d
    · obtain ⟨c', h1, h2, h3⟩ := ih (copyOne f lyt n c) hl
      exact ⟨c', by simp [h1], h2, h3⟩
    · have hc : f c = d := by
        obtain ⟨c', h1, h2⟩ := hd
        rcases List.mem_cons.1 h1 with h | h
        · rw [← h]; exact h2
        · exact absurd ⟨c', h, h2⟩ hl
      obtain ⟨h1, h2, h3⟩ := fold_other hT f lyt l (copyOne f lyt n c) d (fun c hc e => hl ⟨c, hc, e⟩)
      refine ⟨c, by simp, hc, ?_⟩
      rw [h1, h2, h3, copyOne_type hT, copyOne_mode hT, copyOne_name]
      simp [hc]

theorem new_type (n : String) (x y : Nat) (d : D) : (new n x y : State D T).getCellType d = T.empty := rfl

/-- The cells of the copy are the images of the cells of the original, counted once each. -/
theorem copy_numCells (hT : T.Lawful) (f : C → D) {lyt : State C T} (h : Inv lyt) (n : String) (x y : Nat) :
    (copyCells f lyt (new n x y)).numCells = (lyt.cells.toFinset.image f).card ∧
    ∀ d, (copyCells f lyt (new n x y)).getCellType d ≠ T.empty ↔ ∃ c ∈ lyt.cells, f c = d := by
  rw [copyCells_eq]
  have hi := fold_inv hT f lyt lyt.cells (inv_new (C := D) hT n x y)
  have hm : ∀ d, (lyt.cells.foldl (copyOne f lyt) (new n x y)).getCellType d ≠ T.empty ↔ ∃ c ∈ lyt.cells, f c = d := by
    intro d
    constructor
    · intro hne
      by_contra hno
      push Not at hno
      exact hne ((fold_other hT f lyt lyt.cells (new n x y) d hno).1.trans (new_type n x y d))
    · intro hd
      obtain ⟨c, hc, _, h1, _⟩ := fold_some hT f lyt lyt.cells (new n x y) d hd
      rw [h1]
      exact (mem_cells h c).1 hc
  refine ⟨?_, hm⟩
  have : (lyt.cells.foldl (copyOne f lyt) (new n x y)).cells.toFinset = lyt.cells.toFinset.image f := by
    ext d
    rw [List.mem_toFinset, mem_cells hi, hm]
    simp
  rw [← this]
  refine Eq.trans ?_ (List.toFinset_card_of_nodup hi.nodup).symm
  simp [State.numCells]

/-- If no two cells have the same image, every cell is found at its image with type, mode and name. -/
theorem copy_get (hT : T.Lawful) (f : C → D) (lyt : State C T) (n : String) (x y : Nat)
    (hinj : ∀ a ∈ lyt.cells, ∀ b ∈ lyt.cells, f a = f b → a = b) (c : C) (hc : c ∈ lyt.cells) :
    (copyCells f lyt (new n x y)).getCellType (f c) = lyt.getCellType c ∧
    (copyCells f lyt (new n x y)).getCellMode (f c) = lyt.getCellMode c ∧
    (copyCells f lyt (new n x y)).getCellName (f c) = lyt.getCellName c := by
  rw [copyCells_eq]
  obtain ⟨c', h1, h2, h3⟩ := fold_some hT f lyt lyt.cells (new n x y) (f c) ⟨c, hc, rfl⟩
  rw [hinj c' h1 c hc h2] at h3
  exact h3

theorem assign_attrs (s : State C T) (c : C) (t : T.CellType) (m : T.CellMode) (nm : String) :
    (((s.assignCellType c t).assignCellMode c m).assignCellName c nm).name = s.name ∧
    (((s.assignCellType c t).assignCellMode c m).assignCellName c nm).tileX = s.tileX ∧
    (((s.assignCellType c t).assignCellMode c m).assignCellName c nm).tileY = s.tileY := by
  unfold State.assignCellType State.assignCellMode State.assignCellName
  split_ifs <;> exact ⟨rfl, rfl, rfl⟩

theorem copy_attrs (f : C → D) (lyt : State C T) (n : State D T) :
    (copyCells f lyt n).name = n.name ∧ (copyCells f lyt n).tileX = n.tileX ∧ (copyCells f lyt n).tileY = n.tileY := by
  rw [copyCells_eq]
  generalize lyt.cells = l
  induction l generalizing n with
  | nil => exact ⟨rfl, rfl, rfl⟩
  | cons c l ih =>
    rw [List.foldl_cons]
    obtain ⟨h1, h2, h3⟩ := ih (copyOne f lyt n c)
    have ha := assign_attrs n (f c) (lyt.getCellType c) (lyt.getCellMode c) (lyt.getCellName c)
    exact ⟨h1.trans ha.1, h2.trans ha.2.1, h3.trans ha.2.2⟩

omit [DecidableEq C] in
/-- The offsets are the smallest components (or the initial value, if that is smaller). -/
theorem offsets_spec (g : Grid C) (l : List C) (o : Int × Int) :
    let r := l.foldl (fun o c =>
      let o := if g.y c < o.2 then (o.1, g.y c) else o
      if g.x c < o.1 then (g.x c, o.2) else o) o
    (r.1 ≤ o.1 ∧ r.2 ≤ o.2) ∧ (∀ c ∈ l, r.1 ≤ g.x c ∧ r.2 ≤ g.y c) ∧
    (r.1 = o.1 ∨ ∃ c ∈ l, g.x c = r.1) ∧ (r.2 = o.2 ∨ ∃ c ∈ l, g.y c = r.2) := by
  induction l generalizing o with
  | nil => simp
  | cons a l ih =>
    simp only [List.foldl_cons]
    set o' : Int × Int := (if g.x a < (if g.y a < o.2 then (o.1, g.y a) else o).1 then
      (g.x a, (if g.y a < o.2 then (o.1, g.y a) else o).2) else (if g.y a < o.2 then (o.1, g.y a) else o)) with ho'
    have e1 : o'.1 = if g.x a < o.1 then g.x a else o.1 := by
      rw [ho']; split_ifs <;> simp_all
    have e2 : o'.2 = if g.y a < o.2 then g.y a else o.2 := by
      rw [ho']; split_ifs <;> simp_all
    obtain ⟨⟨h1, h2⟩, h3, h4, h5⟩ := ih o'
    refine ⟨⟨?_, ?_⟩, ?_, ?_, ?_⟩
    · grind
    · grind
    · intro c hc
      rcases List.mem_cons.1 hc with h | h
      · subst h; grind
      · exact h3 c h
    · grind
    · grind

end Verif.Cells
