import Verif.Io.SqdFacts

/-!
# What reading an SQD file does
-/
namespace Verif.Sqd

open Verif.Coordinates Verif.Cells Verif.Defects

/-! ## Loops -/

theorem loop_ok {σ α β : Type} {f : σ → α → σ × Option Err} {g : σ → β → σ} {R : α → β → Prop}
    (h : ∀ s a b, R a b → f s a = (g s b, none)) {as : List α} {bs : List β} (hf : List.Forall₂ R as bs) (s : σ) :
    loop f s as = (bs.foldl g s, none) := by
  induction hf generalizing s with
  | nil => rfl
  | cons hab _ ih => rw [loop, h s _ _ hab]; exact ih _

theorem loop_inv {σ α β : Type} {f : σ → α → σ × Option Err} {R : α → β → Prop}
    (h : ∀ s a, (f s a).2 = none → ∃ b, R a b) (as : List α) (s : σ) (hn : (loop f s as).2 = none) :
    ∃ bs, List.Forall₂ R as bs := by
  induction as generalizing s with
  | nil => exact ⟨[], .nil⟩
  | cons a as ih =>
    rw [loop] at hn
    cases hfa : f s a with
    | mk s' r =>
      rw [hfa] at hn
      cases r with
      | some e => cases hn
      | none =>
        obtain ⟨b, hb⟩ := h s a (by rw [hfa])
        obtain ⟨bs, hbs⟩ := ih s' hn
        exact ⟨b :: bs, .cons hb hbs⟩

section
variable {C : Type} [DecidableEq C] (K : Kind C) (F : Dbl) (o : Orient) (iface : Bool)

/-! ## Dots -/

omit [DecidableEq C] in
theorem parseLat_iff (x : Xml) (c : C) : parseLat K x = .ok c ↔ Position K x c := by
  unfold parseLat Position
  constructor
  · intro h
    split at h
    · rename_i n m l hn hm hl
      split at h
      · rename_i i j k hi hj hk
        exact ⟨n, m, l, hn, hm, hl, i, j, k, of_stoll hi, of_stoll hj, of_stoll hk, h⟩
      · cases h
    · cases h
  · rintro ⟨n, m, l, hn, hm, hl, i, j, k, hi, hj, hk, h⟩
    rw [hn, hm, hl]
    dsimp only
    rw [stoll_of hi, stoll_of hj, stoll_of hk]
    exact h

theorem parseType_iff (x : Option Xml) (t : SidbType) : parseType x = .ok t ↔
    (x = none ∧ t = .normal ∨ ∃ y w, x = some y ∧ y.text = some w ∧ TypeWord t w) := by
  have d1 : "output".toList ≠ "input".toList := by decide +kernel
  have d2 : "normal".toList ≠ "input".toList := by decide +kernel
  have d3 : "normal".toList ≠ "output".toList := by decide +kernel
  have d4 : "logic".toList ≠ "input".toList := by decide +kernel
  have d5 : "logic".toList ≠ "output".toList := by decide +kernel
  have d6 : "logic".toList ≠ "normal".toList := by decide +kernel
  cases x with
  | none =>
    unfold parseType
    constructor
    · intro h
      cases h
      exact .inl ⟨rfl, rfl⟩
    · rintro (⟨-, rfl⟩ | ⟨y, w, h, -⟩)
      · rfl
      · cases h
  | some y =>
    unfold parseType
    constructor
    · intro h
      refine .inr ?_
      dsimp only at h
      split at h
      · cases h
      · rename_i w hw
        refine ⟨y, w, rfl, hw, ?_⟩
        unfold TypeWord
        split_ifs at h with h1 h2 h3 h4
        all_goals cases h
        · exact .inl ⟨rfl, h1⟩
        · exact .inr (.inl ⟨rfl, h2⟩)
        · exact .inr (.inr (.inl ⟨rfl, h3⟩))
        · exact .inr (.inr (.inr ⟨rfl, h4⟩))
    · rintro (⟨h, -⟩ | ⟨y', w, h, hw, ht⟩)
      · cases h
      · cases h
        dsimp only
        rw [hw]
        dsimp only
        rcases ht with ⟨rfl, rfl⟩ | ⟨rfl, rfl⟩ | ⟨rfl, rfl⟩ | ⟨rfl, rfl⟩
        · rw [if_pos rfl]
        · rw [if_neg d1, if_pos rfl]
        · rw [if_neg d2, if_neg d3, if_pos rfl]
        · rw [if_neg d4, if_neg d5, if_neg d6, if_pos rfl]

/-- The effect of a dot. -/
def putDot (L : Lay C) (p : C × SidbType) : Lay C :=
  { L with cells := L.cells.assignCellType p.1 p.2, dim := K.widen L.dim p.1 }

theorem parseDot_ok (L : Lay C) (e : Xml) (p : C × SidbType) (h : IsDot K e p) : parseDot K L e = (putDot K L p, none) := by
  obtain ⟨⟨x, hx, hp⟩, ht⟩ := h
  unfold parseDot
  rw [hx]
  dsimp only
  rw [(parseLat_iff K x p.1).2 hp]
  dsimp only
  rw [(parseType_iff _ p.2).2 ht]
  rfl

theorem parseDot_inv (L : Lay C) (e : Xml) (h : (parseDot K L e).2 = none) : ∃ p, IsDot K e p := by
  unfold parseDot at h
  split at h
  · cases h
  · rename_i x hx
    split at h
    · cases h
    · rename_i c hc
      split at h
      · cases h
      · rename_i t ht
        exact ⟨(c, t), ⟨x, hx, (parseLat_iff K x c).1 hc⟩, (parseType_iff _ t).1 ht⟩

/-! ## Defects -/

omit [DecidableEq C] in
theorem parseCells_iff (es : List Xml) (cs : List C) : parseCells K es = .ok cs ↔ List.Forall₂ (Position K) es cs := by
  induction es generalizing cs with
  | nil =>
    unfold parseCells
    constructor
    · intro h; cases h; exact .nil
    · intro h; cases h; rfl
  | cons e es ih =>
    unfold parseCells
    constructor
    · intro h
      split at h
      · cases h
      · rename_i c hc
        split at h
        · cases h
        · rename_i cs' hcs
          cases h
          exact .cons ((parseLat_iff K e c).1 hc) ((ih cs').1 hcs)
    · intro h
      cases h with
      | cons h1 h2 =>
        rw [(parseLat_iff K e _).2 h1]
        dsimp only
        rw [(ih _).2 h2]

omit [DecidableEq C] in
theorem parseIncl_iff (e : Xml) (cs : List C) : parseIncl K e = .ok cs ↔
    (e.first "incl_coords".toList = none ∧ cs = [] ∨
      ∃ x, e.first "incl_coords".toList = some x ∧ cs ≠ [] ∧ List.Forall₂ (Position K) (x.all "latcoord".toList) cs) := by
  unfold parseIncl
  constructor
  · intro h
    split at h
    · rename_i hx
      cases h
      exact .inl ⟨hx, rfl⟩
    · rename_i x hx
      split at h
      · cases h
      · cases h
      · rename_i cs' hne hcs
        cases h
        exact .inr ⟨x, hx, hne, (parseCells_iff K _ _).1 hcs⟩
  · rintro (⟨h, rfl⟩ | ⟨x, hx, hne, hf⟩)
    · rw [h]
    · rw [hx]
      dsimp only
      rw [(parseCells_iff K _ _).2 hf]
      cases cs with
      | nil => exact absurd rfl hne
      | cons => rfl

theorem label_nodup : (nameToType.map (·.1)).Nodup := by decide +kernel

theorem find_iff {A V : Type} [DecidableEq A] {l : List (A × V)} (h : (l.map (·.1)).Nodup) (k : A) (v : V) :
    find l k = some v ↔ (k, v) ∈ l := by
  induction l with
  | nil => simp [find]
  | cons p l ih =>
    rw [List.map_cons, List.nodup_cons] at h
    rw [find_cons, List.mem_cons]
    by_cases hk : p.1 = k
    · rw [if_pos hk]
      constructor
      · intro e; cases e; exact .inl (by rw [← hk])
      · rintro (e | e)
        · rw [← e]
        · exact absurd (List.mem_map.2 ⟨_, e, rfl⟩) (hk ▸ h.1)
    · rw [if_neg hk, ih h.2]
      constructor
      · exact .inr
      · rintro (e | e)
        · exact absurd (by rw [← e]) hk
        · exact e

theorem labels_eq : labels = nameToType.map fun p => (p.2, p.1) := by
  unfold labels nameToType
  simp only [List.map_cons, List.map_nil]

theorem mem_labels (t : DefectType) (w : Text) : (t, w) ∈ labels ↔ find nameToType w = some t := by
  rw [find_iff label_nodup, labels_eq, List.mem_map]
  constructor
  · rintro ⟨p, hp, e⟩
    cases e
    exact hp
  · exact fun h => ⟨_, h, rfl⟩

theorem parseLabel_iff (t : DefectType) (w : Text) : parseLabel w = t ↔ LabelWord t w := by
  unfold parseLabel LabelWord
  simp only [mem_labels]
  cases h : find nameToType (w.map Char.toLower) with
  | none => simp [eq_comm]
  | some u => simp

theorem parseDefectType_iff (e : Xml) (t : DefectType) : parseDefectType e = .ok t ↔
    (label e = none ∧ t = .unknown ∨ ∃ v w, label e = some v ∧ v.text = some w ∧ LabelWord t w) := by
  unfold parseDefectType
  rw [show ((e.first "property_map".toList).bind fun p => (p.first "type_label".toList).bind fun l => l.first "val".toList) =
    label e from rfl]
  constructor
  · intro h
    split at h
    · rename_i hl
      cases h
      exact .inl ⟨hl, rfl⟩
    · rename_i v hv
      split at h
      · cases h
      · rename_i w hw
        simp only [Except.ok.injEq] at h
        exact .inr ⟨v, w, hv, hw, (parseLabel_iff t w).1 h⟩
  · rintro (⟨h, rfl⟩ | ⟨v, w, hv, hw, ht⟩)
    · rw [h]
    · rw [hv]
      dsimp only
      rw [hw]
      dsimp only
      rw [(parseLabel_iff t w).2 ht]

theorem parseCoulomb_iff (e : Xml) (q : Int) (r l : Rat) : parseCoulomb F e = .ok (q, r, l) ↔
    (e.first "coulomb".toList = none ∧ q = 0 ∧ r = 0 ∧ l = 0 ∨
      ∃ x q' r' l', e.first "coulomb".toList = some x ∧ x.attr "charge".toList = some q' ∧ x.attr "eps_r".toList = some r' ∧
        x.attr "lambda_tf".toList = some l' ∧ IntText q q' ∧ F.get r' = some r ∧ F.get l' = some l) := by
  unfold parseCoulomb
  constructor
  · intro h
    split at h
    · rename_i hx
      simp only [Except.ok.injEq, Prod.mk.injEq] at h
      exact .inl ⟨hx, h.1.symm, h.2.1.symm, h.2.2.symm⟩
    · rename_i x hx
      split at h
      · rename_i q' r' l' hq hr hl
        split at h
        · rename_i q'' r'' l'' h1 h2 h3
          simp only [Except.ok.injEq, Prod.mk.injEq] at h
          obtain ⟨rfl, rfl, rfl⟩ := h
          exact .inr ⟨x, q', r', l', hx, hq, hr, hl, of_stoll h1, h2, h3⟩
        · cases h
      · cases h
  · rintro (⟨h, rfl, rfl, rfl⟩ | ⟨x, q', r', l', hx, hq, hr, hl, h1, h2, h3⟩)
    · rw [h]
    · rw [hx]
      dsimp only
      rw [hq, hr, hl]
      dsimp only
      rw [stoll_of h1, h2, h3]

/-- The effect of a defect. -/
def putDefect (L : Lay C) (p : List C × Defect) : Lay C :=
  { L with defects := p.1.foldl (fun s c => s.assign c p.2) L.defects, dim := p.1.foldl K.widen L.dim }

theorem parseDefect_ok (L : Lay C) (e : Xml) (p : List C × Defect) (h : IsDefect K F e p) :
    parseDefect K F true L e = (putDefect K L p, none) := by
  obtain ⟨h1, h2, h3⟩ := h
  unfold parseDefect
  rw [if_pos rfl, (parseIncl_iff K e p.1).2 h1]
  dsimp only
  rw [(parseDefectType_iff e p.2.type).2 h2]
  dsimp only
  rw [(parseCoulomb_iff F e p.2.charge p.2.epsilonR p.2.lambdaTf).2 h3]
  rfl

theorem parseDefect_inv (L : Lay C) (e : Xml) (h : (parseDefect K F true L e).2 = none) : ∃ p, IsDefect K F e p := by
  unfold parseDefect at h
  rw [if_pos rfl] at h
  split at h
  · cases h
  · rename_i cs hcs
    split at h
    · cases h
    · rename_i t ht
      split at h
      · cases h
      · rename_i q r l hq
        exact ⟨(cs, ⟨t, q, r, l⟩), (parseIncl_iff K e cs).1 hcs, (parseDefectType_iff e t).1 ht, (parseCoulomb_iff F e q r l).1 hq⟩

/-! ## Layers -/

/-- The effect of a layer. -/
def putPart (L : Lay C) (p : Part C) : Lay C := p.defects.foldl (putDefect K) (p.dots.foldl (putDot K) L)

theorem defects_word : "Defects".toList ≠ "DB".toList := by decide +kernel

theorem parseDefect_off (l : List Xml) (L : Lay C) : loop (parseDefect K F false) L l = (L, none) := by
  induction l with
  | nil => rfl
  | cons e l ih =>
    rw [loop]
    unfold parseDefect
    rw [if_neg (by decide)]
    exact ih

theorem parseLayer_ok (L : Lay C) (e : Xml) (p : Part C) (h : Holds K F iface e p) :
    parseLayer K F iface L e = (putPart K L p, none) := by
  obtain ⟨t, ht, h⟩ := h
  unfold parseLayer
  rw [ht]
  dsimp only
  rcases h with ⟨rfl, hd, hf⟩ | ⟨rfl, rfl, hd, hf⟩ | ⟨h, hd, hf⟩
  · rw [if_pos rfl, loop_ok (parseDot_ok K) hd]
    unfold putPart
    rw [hf]
    rfl
  · rw [if_neg defects_word, if_pos rfl, loop_ok (parseDefect_ok K F) hf]
    unfold putPart
    rw [hd]
    rfl
  · unfold putPart
    rw [hd, hf]
    rcases h with ⟨rfl, rfl⟩ | ⟨h1, h2⟩
    · rw [if_neg defects_word, if_pos rfl]
      exact parseDefect_off K F _ _
    · rw [if_neg h1, if_neg h2]
      rfl

theorem parseLayer_inv (L : Lay C) (e : Xml) (h : (parseLayer K F iface L e).2 = none) : ∃ p, Holds K F iface e p := by
  unfold parseLayer at h
  split at h
  · cases h
  · rename_i t ht
    by_cases h1 : t = "DB".toList
    · rw [if_pos h1] at h
      obtain ⟨ds, hds⟩ := loop_inv (parseDot_inv K) _ _ h
      exact ⟨⟨ds, []⟩, t, ht, .inl ⟨h1, hds, rfl⟩⟩
    · rw [if_neg h1] at h
      by_cases h2 : t = "Defects".toList
      · rw [if_pos h2] at h
        cases hi : iface with
        | true =>
          rw [hi] at h
          obtain ⟨fs, hfs⟩ := loop_inv (parseDefect_inv K F) _ _ h
          exact ⟨⟨[], fs⟩, t, ht, .inr (.inl ⟨h2, rfl, rfl, hfs⟩)⟩
        | false => exact ⟨⟨[], []⟩, t, ht, .inr (.inr ⟨.inl ⟨h2, rfl⟩, rfl, rfl⟩)⟩
      · exact ⟨⟨[], []⟩, t, ht, .inr (.inr ⟨.inr ⟨h1, h2⟩, rfl, rfl⟩)⟩

/-! ## Documents -/

theorem name100 : Orient.name .si100 = "Si(100) 2x1".toList := by unfold Orient.name; exact Eq.refl _
theorem name111 : Orient.name .si111 = "Si(111) 1x1".toList := by unfold Orient.name; exact Eq.refl _

theorem latOk_iff (v : Xml) : latOk o v = true ↔ Oriented o v := by
  have d : "Si(100) 2x1".toList ≠ "Si(111) 1x1".toList := by decide +kernel
  have h1 := name100
  have h2 := name111
  unfold latOk Oriented
  dsimp only
  rw [decide_eq_true_eq]
  generalize "Si(100) 2x1".toList = a at *
  generalize "Si(111) 1x1".toList = b at *
  cases h : (v.first "name".toList).bind Xml.text with
  | none =>
    rw [Option.getD_none]
    cases o with
    | si100 => rw [h1]; exact ⟨fun _ => rfl, fun _ => rfl⟩
    | si111 => rw [h2]; exact ⟨fun h => absurd h d, fun h => by cases h⟩
  | some w =>
    rw [Option.getD_some]
    cases o with
    | si100 => rw [h1]; exact ⟨fun h => .inl ⟨rfl, h⟩, fun h => by rcases h with h | h; exact h.2; cases h.1⟩
    | si111 => rw [h2]; exact ⟨fun h => .inr ⟨rfl, h⟩, fun h => by rcases h with h | h; cases h.1; exact h.2⟩

theorem read_ok {doc : Option (List Xml)} {parts : List (Part C)} (h : Describes K F o iface doc parts) (L : Lay C) :
    ∃ L', parts.foldl (putPart K) { L with dim := K.start } = L' ∧
      read K F o iface doc L = ({ L' with dim := K.fit L'.dim }, none) := by
  obtain ⟨es, root, ls, lp, v, d, rfl, h1, h2, h3, h4, h5, h6, h7⟩ := h
  refine ⟨_, rfl, ?_⟩
  unfold read
  dsimp only
  rw [h1]
  dsimp only
  rw [h2, Option.bind_some, h3, Option.bind_some, h4]
  dsimp only
  rw [if_pos ((latOk_iff o v).2 h5), h6]
  dsimp only
  rw [loop_ok (parseLayer_ok K F iface) h7]

theorem read_inv {doc : Option (List Xml)} {L : Lay C} (h : (read K F o iface doc L).2 = none) :
    ∃ parts, Describes K F o iface doc parts := by
  unfold read at h
  split at h
  · cases h
  · rename_i es
    split at h
    · cases h
    · rename_i root hroot
      split at h
      · cases h
      · rename_i v hv
        split_ifs at h with hor
        split at h
        · cases h
        · rename_i d hd
          split at h
          · rename_i L' hl
            obtain ⟨parts, hp⟩ := loop_inv (parseLayer_inv K F iface) _ _ (by rw [hl] : (loop (parseLayer K F iface) { L with dim := K.start } (d.all "layer".toList)).2 = none)
            rw [Option.bind_eq_some_iff] at hv
            obtain ⟨ls, h1, hv⟩ := hv
            rw [Option.bind_eq_some_iff] at hv
            obtain ⟨lp, h2, hv⟩ := hv
            exact ⟨parts, es, root, ls, lp, v, d, rfl, hroot, h1, h2, hv, (latOk_iff o v).1 hor, hd, hp⟩
          · cases h

end
end Verif.Sqd
