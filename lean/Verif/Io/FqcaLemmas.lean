import Verif.Io.FqcaSpec
import Mathlib.Data.List.Nodup
import Mathlib.Tactic.SplitIfs
import Mathlib.Tactic.NormNum

/-!
# Lemmas on writing and reading FQCA files
-/
namespace Verif.Io

open Verif.Cells

/-! ## Lines -/

theorem splitLines_line (l r : List Char) (h : '\n' ∉ l) : splitLines (l ++ '\n' :: r) = l :: splitLines r := by
  induction l with
  | nil => simp [splitLines]
  | cons c l ih =>
    have hc : c ≠ '\n' := fun e => h (by simp [e])
    have hl : '\n' ∉ l := fun e => h (by simp [e])
    rw [List.cons_append, splitLines, if_neg hc, ih hl]

/-- Lines with their line ends. -/
def unlines (ls : List (List Char)) : List Char := ls.flatMap fun l => l ++ ['\n']

theorem unlines_cons (l : List Char) (ls : List (List Char)) : unlines (l :: ls) = l ++ '\n' :: unlines ls := by
  simp [unlines]

theorem unlines_append (ls ms : List (List Char)) : unlines (ls ++ ms) = unlines ls ++ unlines ms := by
  simp [unlines]

theorem splitLines_unlines : ∀ (ls : List (List Char)), (∀ l ∈ ls, '\n' ∉ l) → splitLines (unlines ls) = ls
  | [], _ => rfl
  | l :: ls, h => by
    rw [unlines_cons, splitLines_line _ _ (h l (.head _)), splitLines_unlines ls fun m hm => h m (.tail _ hm)]

theorem parseLines_append (ls ms : List (List Char)) (n : Nat) (s s' : Reader) (h : parseLines n ls s = .ok s') :
    parseLines n (ls ++ ms) s = parseLines (n + ls.length) ms s' := by
  induction ls generalizing n s with
  | nil => simp only [parseLines, Except.ok.injEq] at h; simp [h]
  | cons l ls ih =>
    rw [List.cons_append, parseLines]
    rw [parseLines] at h
    cases hl : parseLine n l s with
    | error e => rw [hl] at h; simp at h
    | ok t =>
      rw [hl] at h
      simp only at h ⊢
      rw [ih _ _ h]
      congr 1
      simp only [List.length_cons]; omega

/-! ## Characters -/

theorem number_lt {n : Nat} (h : n < 10) : number n = [Nat.digitChar n] := by
  unfold number
  exact Nat.toDigits_of_lt_base h

theorem digit_facts : ∀ n < 10, (Nat.digitChar n).isDigit = true ∧ isSpace (Nat.digitChar n) = false ∧
    (Nat.digitChar n).toNat % 4 = n % 4 ∧ Nat.digitChar n ≠ '\n' ∧ Nat.digitChar n ≠ '[' ∧ Nat.digitChar n ≠ '=' ∧
    Nat.digitChar n ≠ '$' := by decide

theorem alphabet_facts : ∀ c ∈ alphabet, c.isDigit = false ∧ c.isAlpha = true ∧ c.isAlphanum = true ∧
    isSpace c = false ∧ c ≠ '\n' ∧ c ≠ '[' ∧ c ≠ '=' ∧ c ≠ '$' := by decide

theorem alphabet_nodup : alphabet.Nodup := by decide

/-! ## Tokens -/

/-- The character `c` stands for the cell at `p`. -/
def Tok (L : Lyt) (ls : List (Pos × Char)) (p : Pos) (c : Char) : Prop :=
  if L.ty p = .empty then c = ' '
  else if L.labelled p then (p, c) ∈ ls
  else if L.ty p = .const0 then c = '-'
  else if L.ty p = .const1 then c = '+'
  else c = Nat.digitChar (L.clock p)

theorem Tok.mono {L : Lyt} {ls ms : List (Pos × Char)} (h : ∀ x ∈ ls, x ∈ ms) {p : Pos} {c : Char} (ht : Tok L ls p c) :
    Tok L ms p c := by
  unfold Tok at *
  split_ifs at * <;> first | exact ht | exact h _ ht

/-- The cells for which a designator is used. -/
def Lyt.special (L : Lyt) (p : Pos) : Bool := decide (L.ty p ≠ .empty) && L.labelled p

/-- The text of a row. -/
def rowText (ts : List (Pos × Char)) : List Char := ts.flatMap fun t => [t.2, ' ']

theorem writeCell_spec {L : Lyt} {p : Pos} {a a' o : List Char} {ls : List (Pos × Char)} (hc : L.clock p < 10)
    (h : writeCell L p a = some (o, ls, a')) :
    ∃ c, o = [c, ' '] ∧ Tok L ls p c ∧ a = ls.map Prod.snd ++ a' ∧ ls.map Prod.fst = [p].filter L.special := by
  unfold writeCell at h
  have hn := number_lt hc
  unfold Tok Lyt.special
  split_ifs at h with h1 h2 h3 h4
  · grind
  · cases a with
    | nil => simp at h
    | cons d a => simp only [Option.some.injEq, Prod.mk.injEq] at h; obtain ⟨rfl, rfl, rfl⟩ := h; simp [h1, h2]
  · grind
  · grind
  · rw [hn] at h; grind

theorem writeCells_spec {L : Lyt} : ∀ {l : List Pos} {a a' o : List Char} {ls : List (Pos × Char)},
    (∀ p ∈ l, L.clock p < 10) → writeCells L l a = some (o, ls, a') →
    ∃ ts : List (Pos × Char), ts.map Prod.fst = l ∧ o = rowText ts ∧ (∀ t ∈ ts, Tok L ls t.1 t.2) ∧
      a = ls.map Prod.snd ++ a' ∧ ls.map Prod.fst = l.filter L.special
  | [], a, a', o, ls, _, h => by
    simp only [writeCells, Option.some.injEq, Prod.mk.injEq] at h
    obtain ⟨rfl, rfl, rfl⟩ := h
    exact ⟨[], by simp [rowText]⟩
  | p :: l, a, a', o, ls, hc, h => by
    rw [writeCells] at h
    cases h1 : writeCell L p a with
    | none => rw [h1] at h; simp at h
    | some r =>
      obtain ⟨o1, ls1, a1⟩ := r
      rw [h1] at h
      simp only [Option.map_eq_some_iff, Prod.exists, Prod.mk.injEq] at h
      obtain ⟨o2, ls2, a2, h2, rfl, rfl, rfl⟩ := h
      obtain ⟨c, rfl, ht, ha, hl⟩ := writeCell_spec (hc p (.head _)) h1
      obtain ⟨ts, hts, rfl, ht2, ha2, hl2⟩ := writeCells_spec (fun q hq => hc q (.tail _ hq)) h2
      refine ⟨(p, c) :: ts, by simp [hts], by simp [rowText], ?_, by simp [ha, ha2], ?_⟩
      · intro t h
        rcases List.mem_cons.1 h with rfl | h
        · exact ht.mono (by simp +contextual)
        · exact (ht2 t h).mono (by simp +contextual)
      · rw [List.map_append, hl, hl2, ← List.filter_append]; rfl

theorem writeRows_spec {L : Lyt} {z : Nat} : ∀ {l : List Nat} {a a' o : List Char} {ls : List (Pos × Char)},
    (∀ y ∈ l, ∀ p ∈ rowOf L.dim.x y z, L.clock p < 10) → writeRows L z l a = some (o, ls, a') →
    ∃ tss : List (List (Pos × Char)), tss.map (fun ts => ts.map Prod.fst) = l.map (fun y => rowOf L.dim.x y z) ∧
      o = unlines (tss.map rowText) ∧ (∀ ts ∈ tss, ∀ t ∈ ts, Tok L ls t.1 t.2) ∧
      a = ls.map Prod.snd ++ a' ∧ ls.map Prod.fst = (l.flatMap fun y => rowOf L.dim.x y z).filter L.special
  | [], a, a', o, ls, _, h => by
    simp only [writeRows, Option.some.injEq, Prod.mk.injEq] at h
    obtain ⟨rfl, rfl, rfl⟩ := h
    exact ⟨[], by simp [unlines]⟩
  | y :: l, a, a', o, ls, hc, h => by
    rw [writeRows] at h
    cases h1 : writeCells L (rowOf L.dim.x y z) a with
    | none => rw [h1] at h; simp at h
    | some r =>
      obtain ⟨o1, ls1, a1⟩ := r
      rw [h1] at h
      simp only [Option.map_eq_some_iff, Prod.exists, Prod.mk.injEq] at h
      obtain ⟨o2, ls2, a2, h2, rfl, rfl, rfl⟩ := h
      obtain ⟨ts, hts, rfl, ht, ha, hl⟩ := writeCells_spec (hc y (.head _)) h1
      obtain ⟨tss, htss, rfl, ht2, ha2, hl2⟩ := writeRows_spec (fun q hq => hc q (.tail _ hq)) h2
      refine ⟨ts :: tss, by simp [hts, htss], by simp [unlines], ?_, by simp [ha, ha2], ?_⟩
      · intro t h
        rcases List.mem_cons.1 h with rfl | h
        · exact fun t' ht' => (ht t' ht').mono (by simp +contextual)
        · exact fun t' ht' => (ht2 t h t' ht').mono (by simp +contextual)
      · rw [List.map_append, hl, hl2, ← List.filter_append]; rfl

/-- The line that separates layers. -/
def sepLine (L : Lyt) : List Char := (List.replicate (L.dim.x + 1) ['=', ' ']).flatten

/-- All positions of a layout, in the order of the file. -/
def allPos (L : Lyt) (zs : List Nat) : List Pos :=
  zs.flatMap fun z => (List.range (L.dim.y + 1)).flatMap fun y => rowOf L.dim.x y z

theorem writeLayers_spec {L : Lyt} : ∀ {l : List Nat} {a a' o : List Char} {ls : List (Pos × Char)},
    (∀ p ∈ allPos L l, L.clock p < 10) → writeLayers L false l a = some (o, ls, a') →
    ∃ tsss : List (List (List (Pos × Char))),
      tsss.map (fun tss => tss.map (fun ts => ts.map Prod.fst)) =
        l.map (fun z => (List.range (L.dim.y + 1)).map fun y => rowOf L.dim.x y z) ∧
      o = unlines (tsss.flatMap fun tss => sepLine L :: tss.map rowText) ∧
      (∀ tss ∈ tsss, ∀ ts ∈ tss, ∀ t ∈ ts, Tok L ls t.1 t.2) ∧
      a = ls.map Prod.snd ++ a' ∧ ls.map Prod.fst = (allPos L l).filter L.special
  | [], a, a', o, ls, _, h => by
    simp only [writeLayers, Option.some.injEq, Prod.mk.injEq] at h
    obtain ⟨rfl, rfl, rfl⟩ := h
    exact ⟨[], by simp [unlines, allPos]⟩
  | z :: l, a, a', o, ls, hc, h => by
    rw [writeLayers] at h
    cases h1 : writeRows L z (List.range (L.dim.y + 1)) a with
    | none => rw [h1] at h; simp at h
    | some r =>
      obtain ⟨o1, ls1, a1⟩ := r
      rw [h1] at h
      simp only [Option.map_eq_some_iff, Prod.exists, Prod.mk.injEq] at h
      obtain ⟨o2, ls2, a2, h2, rfl, rfl, rfl⟩ := h
      have hc1 : ∀ y ∈ List.range (L.dim.y + 1), ∀ p ∈ rowOf L.dim.x y z, L.clock p < 10 := fun y hy p hp =>
        hc p (by unfold allPos; simp only [List.flatMap_cons, List.mem_append, List.mem_flatMap]; exact .inl ⟨y, hy, hp⟩)
      have hc2 : ∀ p ∈ allPos L l, L.clock p < 10 := fun p hp =>
        hc p (by unfold allPos at *; simp only [List.flatMap_cons, List.mem_append]; exact .inr hp)
      obtain ⟨tss, htss, rfl, ht, ha, hl⟩ := writeRows_spec hc1 h1
      obtain ⟨tsss, htsss, rfl, ht2, ha2, hl2⟩ := writeLayers_spec hc2 h2
      refine ⟨tss :: tsss, by simp [htss, htsss], ?_, ?_, by simp [ha, ha2], ?_⟩
      · simp [unlines, separator, sepLine]
      · intro t h
        rcases List.mem_cons.1 h with rfl | h
        · exact fun t' ht' t'' ht'' => (ht t' ht' t'' ht'').mono (by simp +contextual)
        · exact fun t' ht' t'' ht'' => (ht2 t h t' ht' t'' ht'').mono (by simp +contextual)
      · rw [List.map_append, hl, hl2, ← List.filter_append]; rfl

/-! ## Number of designators -/

/-- What a writing step says about the designators it uses. -/
def Used (n : Nat) (a : List Char) (r : Option (List Char × List (Pos × Char) × List Char)) : Prop :=
  match r with
  | none => a.length < n
  | some r => r.2.2.length + n = a.length

theorem writeCell_used (L : Lyt) (p : Pos) (a : List Char) : Used ([p].filter L.special).length a (writeCell L p a) := by
  unfold writeCell Lyt.special Used
  by_cases h1 : L.ty p = .empty
  · simp [h1]
  · by_cases h2 : L.labelled p = true
    · cases a <;> simp [h1, h2]
    · by_cases h3 : L.ty p = .const0
      · simp [h2, h3]
      · by_cases h4 : L.ty p = .const1 <;> simp [h1, h2, h3, h4]

/-- One step after the other. -/
def seqR (r : Option (List Char × List (Pos × Char) × List Char))
    (f : List Char → Option (List Char × List (Pos × Char) × List Char))
    (g : List Char × List (Pos × Char) × List Char → List Char × List (Pos × Char) × List Char →
      List Char × List (Pos × Char) × List Char) : Option (List Char × List (Pos × Char) × List Char) :=
  match r with
  | none => none
  | some x => (f x.2.2).map (g x)

theorem Used.seq {n m : Nat} {a : List Char} {r : Option (List Char × List (Pos × Char) × List Char)}
    (f : List Char → Option (List Char × List (Pos × Char) × List Char))
    (g : List Char × List (Pos × Char) × List Char → List Char × List (Pos × Char) × List Char →
      List Char × List (Pos × Char) × List Char) (hg : ∀ x y, (g x y).2.2 = y.2.2)
    (h : Used n a r) (h' : ∀ a, Used m a (f a)) :
    Used (n + m) a (seqR r f g) := by
  unfold seqR
  cases r with
  | none => simp only [Used] at *; exact Nat.lt_of_lt_of_le h (Nat.le_add_right _ _)
  | some x =>
    have := h' x.2.2
    simp only [Used] at h ⊢
    cases hf : f x.2.2 with
    | none => rw [hf] at this; simp only [Used, Option.map_none] at *; omega
    | some y => rw [hf] at this; simp only [Used, Option.map_some, hg] at *; omega

theorem writeCells_used (L : Lyt) : ∀ (l : List Pos) (a : List Char),
    Used (l.filter L.special).length a (writeCells L l a)
  | [], a => by simp [writeCells, Used]
  | p :: l, a => by
    have h := (writeCell_used L p a).seq (writeCells L l) (fun x r => (x.1 ++ r.1, x.2.1 ++ r.2.1, r.2.2))
      (fun _ _ => rfl) (writeCells_used L l)
    have e : ((p :: l).filter L.special).length = ([p].filter L.special).length + (l.filter L.special).length := by
      rw [← List.length_append, ← List.filter_append]; rfl
    rw [e, writeCells]
    cases h1 : writeCell L p a with
    | none => rw [h1] at h; exact h
    | some r => rw [h1] at h; exact h

theorem writeRows_used (L : Lyt) (z : Nat) : ∀ (l : List Nat) (a : List Char),
    Used ((l.flatMap fun y => rowOf L.dim.x y z).filter L.special).length a (writeRows L z l a)
  | [], a => by simp [writeRows, Used]
  | y :: l, a => by
    have h := (writeCells_used L (rowOf L.dim.x y z) a).seq (writeRows L z l)
      (fun x r => (x.1 ++ '\n' :: r.1, x.2.1 ++ r.2.1, r.2.2)) (fun _ _ => rfl) (writeRows_used L z l)
    rw [List.flatMap_cons, List.filter_append, List.length_append, writeRows]
    cases h1 : writeCells L (rowOf L.dim.x y z) a with
    | none => rw [h1] at h; exact h
    | some r => rw [h1] at h; exact h

theorem writeLayers_used (L : Lyt) (via : Bool) : ∀ (l : List Nat) (a : List Char),
    Used ((allPos L l).filter L.special).length a (writeLayers L via l a)
  | [], a => by simp [writeLayers, Used, allPos]
  | z :: l, a => by
    have h := (writeRows_used L z (List.range (L.dim.y + 1)) a).seq (writeLayers L via l)
      (fun x r => (separator L ++ x.1 ++ (if via ∧ z ≠ L.dim.z then separator L ++ viaLayer L z else []) ++ r.1,
        x.2.1 ++ r.2.1, r.2.2)) (fun _ _ => rfl) (writeLayers_used L via l)
    have e : allPos L (z :: l) = ((List.range (L.dim.y + 1)).flatMap fun y => rowOf L.dim.x y z) ++ allPos L l := rfl
    rw [e, List.filter_append, List.length_append, writeLayers]
    cases h1 : writeRows L z (List.range (L.dim.y + 1)) a with
    | none => rw [h1] at h; exact h
    | some r => rw [h1] at h; exact h

/-! ## Reading rows -/

/-- Characters that stand for cells. -/
def Good (c : Char) : Prop := isSpace c = true ∨ c.isDigit = true ∨ c.isAlpha = true ∨ c = '-' ∨ c = '+'

def eTy (c : Char) (old : QcaType) : QcaType :=
  if isSpace c then old else if c.isDigit || c.isAlpha then .normal else if c = '-' then .const0 else .const1

def eClock (c : Char) (old : Nat) : Nat := if isSpace c then old else if c.isDigit then toClock c else old

def eMode (c : Char) (p : Pos) (old : QcaMode) : QcaMode :=
  if isSpace c ∨ p.z = 0 then old else if p.z % 2 = 0 then .crossover else .vertical

/-- The effect of reading the cells `ts`. -/
structure Eff (s s' : Reader) (ts : List (Pos × Char)) : Prop where
  ty : ∀ t ∈ ts, s'.ty t.1 = eTy t.2 (s.ty t.1)
  clock : ∀ t ∈ ts, s'.clock t.1 = eClock t.2 (s.clock t.1)
  mode : ∀ t ∈ ts, s'.mode t.1 = eMode t.2 t.1 (s.mode t.1)
  miss : ∀ p, p ∉ ts.map Prod.fst → s'.ty p = s.ty p ∧ s'.clock p = s.clock p ∧ s'.mode p = s.mode p
  name : s'.name = s.name
  labels : ∀ t ∈ ts, isSpace t.2 = false → t.2.isDigit = false → t.2.isAlpha = true → s'.labels t.2 = some t.1
  oldLabels : ∀ c, (∀ t ∈ ts, t.2.isAlpha = true → t.2 ≠ c) → s'.labels c = s.labels c
  grows : s.mx.x ≤ s'.mx.x ∧ s.mx.y ≤ s'.mx.y ∧ s.mx.z ≤ s'.mx.z
  inside : ∀ t ∈ ts, isSpace t.2 = false → t.1.x ≤ s'.mx.x ∧ t.1.y ≤ s'.mx.y ∧ t.1.z ≤ s'.mx.z
  tight : (s'.mx.x = s.mx.x ∨ ∃ t ∈ ts, isSpace t.2 = false ∧ t.1.x = s'.mx.x) ∧
    (s'.mx.y = s.mx.y ∨ ∃ t ∈ ts, isSpace t.2 = false ∧ t.1.y = s'.mx.y) ∧
    (s'.mx.z = s.mx.z ∨ ∃ t ∈ ts, isSpace t.2 = false ∧ t.1.z = s'.mx.z)

/-- Parts of the state rows do not change. -/
def Frame (s s' : Reader) : Prop := s'.row = s.row ∧ s'.layer = s.layer ∧ s'.cellDefs = s.cellDefs

theorem Eff.refl (s : Reader) : Eff s s [] := by
  refine ⟨by simp, by simp, by simp, by simp, rfl, by simp, by simp, by simp, by simp, by simp⟩

theorem alpha_not_digit (c : Char) (h : c.isAlpha = true) : c.isDigit = false := by
  unfold Char.isAlpha Char.isUpper Char.isLower at h
  unfold Char.isDigit
  simp only [Bool.or_eq_true, Bool.and_eq_true, decide_eq_true_eq, Bool.and_eq_false_iff, decide_eq_false_iff_not,
    UInt32.le_iff_toNat_le] at *
  have e1 : '0'.val.toNat = 48 := rfl
  have e2 : '9'.val.toNat = 57 := rfl
  have e3 : 'A'.val.toNat = 65 := rfl
  have e4 : 'a'.val.toNat = 97 := rfl
  have e5 : (65 : UInt32).toNat = 65 := rfl
  have e6 : (97 : UInt32).toNat = 97 := rfl
  have e7 : (57 : UInt32).toNat = 57 := rfl
  omega

theorem parseCell_eff (c : Char) (p : Pos) (s : Reader) (hc : Good c) :
    ∃ s', parseCell c p s = .ok s' ∧ Eff s s' [(p, c)] ∧ Frame s s' := by
  unfold parseCell
  by_cases h1 : isSpace c = true
  · rw [if_pos h1]
    refine ⟨s, rfl, ⟨?_, ?_, ?_, ?_, rfl, ?_, ?_, ?_, ?_, ?_⟩, rfl, rfl, rfl⟩ <;>
      simp [eTy, eClock, eMode, h1]
  · rw [if_neg h1]
    rw [Bool.not_eq_true] at h1
    by_cases h2 : c.isDigit = true
    · rw [if_pos h2]
      refine ⟨_, rfl, ⟨?_, ?_, ?_, ?_, rfl, ?_, ?_, ?_, ?_, ?_⟩, rfl, rfl, rfl⟩ <;>
        by_cases hz : p.z = 0 <;>
          simp only [finishCell, put, eTy, eClock, eMode, h1, h2, hz, ne_eq, not_true, not_false_iff, if_true, if_false, List.mem_singleton, forall_eq] <;> grind [put]
    · rw [if_neg h2]
      by_cases h3 : c.isAlpha = true
      · rw [if_pos h3]
        refine ⟨_, rfl, ⟨?_, ?_, ?_, ?_, rfl, ?_, ?_, ?_, ?_, ?_⟩, rfl, rfl, rfl⟩ <;>
          by_cases hz : p.z = 0 <;>
          simp only [finishCell, put, eTy, eClock, eMode, h1, h2, h3, hz, ne_eq, not_true, not_false_iff, if_true, if_false, List.mem_singleton, forall_eq] <;> grind [put]
      · rw [if_neg h3]
        by_cases h4 : c = '-'
        · rw [if_pos h4]
          refine ⟨_, rfl, ⟨?_, ?_, ?_, ?_, rfl, ?_, ?_, ?_, ?_, ?_⟩, rfl, rfl, rfl⟩ <;>
            by_cases hz : p.z = 0 <;>
          simp only [finishCell, put, eTy, eClock, eMode, h1, h2, h3, hz, ne_eq, not_true, not_false_iff, if_true, if_false, List.mem_singleton, forall_eq] <;> grind [put]
        · rw [if_neg h4]
          have h5 : c = '+' := by
            rcases hc with h | h | h | h | h
            · rw [h1] at h; simp at h
            · exact absurd h h2
            · exact absurd h h3
            · exact absurd h h4
            · exact h
          rw [if_pos h5]
          refine ⟨_, rfl, ⟨?_, ?_, ?_, ?_, rfl, ?_, ?_, ?_, ?_, ?_⟩, rfl, rfl, rfl⟩ <;>
            by_cases hz : p.z = 0 <;>
          simp only [finishCell, put, eTy, eClock, eMode, h1, h2, h3, hz, ne_eq, not_true, not_false_iff, if_true, if_false, List.mem_singleton, forall_eq] <;> grind [put]

/-- Different positions, and different designators. -/
def Apart (t u : Pos × Char) : Prop := t.1 ≠ u.1 ∧ (t.2.isAlpha = true → t.2 ≠ u.2)

theorem Eff.append {s s' s'' : Reader} {ts us : List (Pos × Char)} (h : Eff s s' ts) (h' : Eff s' s'' us)
    (hd : ∀ t ∈ ts, ∀ u ∈ us, Apart t u) : Eff s s'' (ts ++ us) := by
  have hm : ∀ t ∈ ts, t.1 ∉ us.map Prod.fst := by
    intro t ht hmem
    obtain ⟨u, hu, e⟩ := List.mem_map.1 hmem
    exact (hd t ht u hu).1 e.symm
  have hm' : ∀ u ∈ us, u.1 ∉ ts.map Prod.fst := by
    intro u hu hmem
    obtain ⟨t, ht, e⟩ := List.mem_map.1 hmem
    exact (hd t ht u hu).1 e
  refine ⟨?_, ?_, ?_, ?_, ?_, ?_, ?_, ?_, ?_, ?_⟩
  · intro t ht
    rcases List.mem_append.1 ht with ht | ht
    · rw [(h'.miss _ (hm t ht)).1, h.ty t ht]
    · rw [h'.ty t ht, (h.miss _ (hm' t ht)).1]
  · intro t ht
    rcases List.mem_append.1 ht with ht | ht
    · rw [(h'.miss _ (hm t ht)).2.1, h.clock t ht]
    · rw [h'.clock t ht, (h.miss _ (hm' t ht)).2.1]
  · intro t ht
    rcases List.mem_append.1 ht with ht | ht
    · rw [(h'.miss _ (hm t ht)).2.2, h.mode t ht]
    · rw [h'.mode t ht, (h.miss _ (hm' t ht)).2.2]
  · intro p hp
    rw [List.map_append, List.mem_append, not_or] at hp
    have a := h.miss p hp.1
    have b := h'.miss p hp.2
    exact ⟨b.1.trans a.1, b.2.1.trans a.2.1, b.2.2.trans a.2.2⟩
  · rw [h'.name, h.name]
  · intro t ht h1 h2 h3
    rcases List.mem_append.1 ht with ht | ht
    · rw [h'.oldLabels t.2 fun u hu _ e => (hd t ht u hu).2 h3 e.symm, h.labels t ht h1 h2 h3]
    · exact h'.labels t ht h1 h2 h3
  · intro c hc
    rw [h'.oldLabels c fun u hu => hc u (List.mem_append.2 (.inr hu)),
      h.oldLabels c fun u hu => hc u (List.mem_append.2 (.inl hu))]
  · have a := h.grows; have b := h'.grows; omega
  · intro t ht hs
    have b := h'.grows
    rcases List.mem_append.1 ht with ht | ht
    · have a := h.inside t ht hs; omega
    · exact h'.inside t ht hs
  · obtain ⟨a1, a2, a3⟩ := h.tight
    obtain ⟨b1, b2, b3⟩ := h'.tight
    refine ⟨?_, ?_, ?_⟩
    · rcases b1 with b | ⟨t, ht, hs, e⟩
      · rcases a1 with a | ⟨t, ht, hs, e⟩
        · exact .inl (b.trans a)
        · exact .inr ⟨t, List.mem_append.2 (.inl ht), hs, by rw [b, e]⟩
      · exact .inr ⟨t, List.mem_append.2 (.inr ht), hs, e⟩
    · rcases b2 with b | ⟨t, ht, hs, e⟩
      · rcases a2 with a | ⟨t, ht, hs, e⟩
        · exact .inl (b.trans a)
        · exact .inr ⟨t, List.mem_append.2 (.inl ht), hs, by rw [b, e]⟩
      · exact .inr ⟨t, List.mem_append.2 (.inr ht), hs, e⟩
    · rcases b3 with b | ⟨t, ht, hs, e⟩
      · rcases a3 with a | ⟨t, ht, hs, e⟩
        · exact .inl (b.trans a)
        · exact .inr ⟨t, List.mem_append.2 (.inl ht), hs, by rw [b, e]⟩
      · exact .inr ⟨t, List.mem_append.2 (.inr ht), hs, e⟩

theorem Eff.frame {s s' s'' : Reader} {ts : List (Pos × Char)} (h : Eff s s' ts)
    (hty : s''.ty = s'.ty) (hclock : s''.clock = s'.clock) (hmode : s''.mode = s'.mode) (hname : s''.name = s'.name)
    (hlabels : s''.labels = s'.labels) (hmx : s''.mx = s'.mx) : Eff s s'' ts := by
  refine ⟨?_, ?_, ?_, ?_, ?_, ?_, ?_, ?_, ?_, ?_⟩
  · rw [hty]; exact h.ty
  · rw [hclock]; exact h.clock
  · rw [hmode]; exact h.mode
  · rw [hty, hclock, hmode]; exact h.miss
  · rw [hname]; exact h.name
  · rw [hlabels]; exact h.labels
  · rw [hlabels]; exact h.oldLabels
  · rw [hmx]; exact h.grows
  · rw [hmx]; exact h.inside
  · rw [hmx]; exact h.tight

theorem Eff.frameLeft {s s' s'' : Reader} {ts : List (Pos × Char)} (h : Eff s' s'' ts)
    (hty : s'.ty = s.ty) (hclock : s'.clock = s.clock) (hmode : s'.mode = s.mode) (hname : s'.name = s.name)
    (hlabels : s'.labels = s.labels) (hmx : s'.mx = s.mx) : Eff s s'' ts := by
  refine ⟨?_, ?_, ?_, ?_, ?_, ?_, ?_, ?_, ?_, ?_⟩
  · rw [← hty]; exact h.ty
  · rw [← hclock]; exact h.clock
  · rw [← hmode]; exact h.mode
  · rw [← hty, ← hclock, ← hmode]; exact h.miss
  · rw [← hname]; exact h.name
  · exact h.labels
  · rw [← hlabels]; exact h.oldLabels
  · rw [← hmx]; exact h.grows
  · exact h.inside
  · rw [← hmx]; exact h.tight

theorem parseRow_eff : ∀ (ts : List (Pos × Char)) (n x : Nat) (s : Reader), (∀ t ∈ ts, Good t.2) →
    ts.map Prod.fst = (List.range' x n).map (fun x : Nat => (⟨x, s.row, s.z⟩ : Pos)) → ts.Pairwise Apart →
    ∃ s', parseRow (rowText ts) x s = .ok s' ∧ Eff s s' ts ∧ Frame s s'
  | [], _, _, s, _, _, _ => ⟨s, rfl, .refl s, rfl, rfl, rfl⟩
  | (p, c) :: ts, 0, x, s, _, hp, _ => by simp at hp
  | (p, c) :: ts, n + 1, x, s, hg, hp, ha => by
    rw [List.range'_succ] at hp
    simp only [List.map_cons, List.cons.injEq] at hp
    obtain ⟨rfl, hp⟩ := hp
    obtain ⟨s1, h1, he1, hf1⟩ := parseCell_eff c ⟨x, s.row, s.z⟩ s (hg _ (.head _))
    have hz : s1.z = s.z := by unfold Reader.z; rw [hf1.2.1]
    rw [List.pairwise_cons] at ha
    obtain ⟨s2, h2, he2, hf2⟩ := parseRow_eff ts n (x + 1) s1 (fun t ht => hg t (.tail _ ht))
      (by rw [hp, hf1.1, hz]) ha.2
    refine ⟨s2, ?_, ?_, hf2.1.trans hf1.1, hf2.2.1.trans hf1.2.1, hf2.2.2.trans hf1.2.2⟩
    · have e : rowText ((⟨x, s.row, s.z⟩, c) :: ts) = c :: ' ' :: rowText ts := rfl
      rw [e, parseRow, h1]
      exact h2
    · exact he1.append he2 fun t ht u hu => by
        rw [List.mem_singleton] at ht; rw [ht]; exact ha.1 u hu

theorem good_strip {ts : List (Pos × Char)} (hg : ∀ t ∈ ts, Good t.2) : ∀ c ∈ strip (rowText ts), c ≠ '[' ∧ c ≠ '=' ∧ c ≠ '$' := by
  intro c hc
  unfold strip rowText at hc
  rw [List.mem_filter, List.mem_flatMap] at hc
  obtain ⟨⟨t, ht, hct⟩, hs⟩ := hc
  simp only [List.mem_cons, List.not_mem_nil, or_false] at hct
  rcases hct with rfl | rfl
  · have := hg t ht
    refine ⟨?_, ?_, ?_⟩ <;> intro e <;> rw [e] at this <;> revert this <;> unfold Good <;> decide
  · revert hs; decide

theorem parseLine_row {ts : List (Pos × Char)} {n N : Nat} {s : Reader} (hg : ∀ t ∈ ts, Good t.2)
    (hp : ts.map Prod.fst = rowOf N s.row s.z) (ha : ts.Pairwise Apart) (hd : s.cellDefs = false) :
    ∃ s', parseLine n (rowText ts) s = .ok s' ∧ Eff s s' ts ∧ s'.row = s.row + 1 ∧ s'.layer = s.layer ∧
      s'.cellDefs = false := by
  have hne : rowText ts ≠ [] := by
    cases ts with
    | nil => simp [rowOf] at hp
    | cons t ts => simp [rowText]
  have hs := good_strip hg
  have hp' : ts.map Prod.fst = (List.range' 0 (N + 1)).map (fun x : Nat => (⟨x, s.row, s.z⟩ : Pos)) := by
    rw [hp, rowOf, List.range_eq_range']
  obtain ⟨s1, h1, he, hf⟩ := parseRow_eff ts (N + 1) 0 s hg hp' ha
  have hc : isComment (strip (rowText ts)) = false := by
    unfold isComment
    simp only [decide_eq_false_iff_not]
    rintro ⟨_, h, _⟩
    exact (hs _ (List.mem_of_mem_head? h)).1 rfl
  have hsep : isSeparator (strip (rowText ts)) = false := by
    unfold isSeparator
    cases h : strip (rowText ts) with
    | nil => rfl
    | cons c l =>
      have := (hs c (by rw [h]; simp)).2.1
      simp [this]
  have hdol : strip (rowText ts) ≠ ['$'] := fun h => (hs '$' (by rw [h]; simp)).2.2 rfl
  refine ⟨{ s1 with row := s1.row + 1 }, ?_, he.frame rfl rfl rfl rfl rfl rfl, ?_, hf.2.1, hf.2.2.trans hd⟩
  · unfold parseLine
    simp only [hne, hd, hc, hsep, hdol, h1, if_false, Bool.false_eq_true]
  · show s1.row + 1 = _; rw [hf.1]

theorem parseLines_rows {N z : Nat} : ∀ (tss : List (List (Pos × Char))) (n y k : Nat) (s : Reader),
    (∀ ts ∈ tss, ∀ t ∈ ts, Good t.2) →
    tss.map (fun ts => ts.map Prod.fst) = (List.range' y k).map (fun y => rowOf N y z) →
    tss.flatten.Pairwise Apart → s.cellDefs = false → s.row = y → s.z = z →
    ∃ s', parseLines n (tss.map rowText) s = .ok s' ∧ Eff s s' tss.flatten ∧ s'.layer = s.layer ∧ s'.cellDefs = false
  | [], _, _, _, s, _, _, _, hd, _, _ => ⟨s, rfl, .refl s, rfl, hd⟩
  | ts :: tss, n, y, 0, s, _, hp, _, _, _, _ => by simp at hp
  | ts :: tss, n, y, k + 1, s, hg, hp, ha, hd, hr, hz => by
    rw [List.range'_succ] at hp
    simp only [List.map_cons, List.cons.injEq] at hp
    rw [List.flatten_cons, List.pairwise_append] at ha
    obtain ⟨s1, h1, he1, hr1, hl1, hd1⟩ := parseLine_row (n := n) (hg ts (.head _)) (by rw [hr, hz]; exact hp.1) ha.1 hd
    have hz1 : s1.z = z := by rw [← hz]; unfold Reader.z; rw [hl1]
    obtain ⟨s2, h2, he2, hl2, hd2⟩ := parseLines_rows tss (n + 1) (y + 1) k s1 (fun t ht => hg t (.tail _ ht))
      hp.2 ha.2.1 hd1 (by rw [hr1, hr]) hz1
    refine ⟨s2, ?_, he1.append he2 ha.2.2, hl2.trans hl1, hd2⟩
    rw [List.map_cons, parseLines, h1]
    exact h2

theorem strip_sepLine (L : Lyt) : strip (sepLine L) = List.replicate (L.dim.x + 1) '=' := by
  unfold sepLine
  generalize L.dim.x + 1 = n
  induction n with
  | zero => rfl
  | succ n ih =>
    rw [List.replicate_succ, List.replicate_succ, List.flatten_cons]
    unfold strip at *
    rw [List.filter_append, ih]
    rfl

theorem parseLine_sep (L : Lyt) (n : Nat) (s : Reader) (hd : s.cellDefs = false) :
    parseLine n (sepLine L) s = .ok { s with row := 0, layer := s.layer + 1 } := by
  have hne : sepLine L ≠ [] := by simp [sepLine, List.replicate_succ]
  have hc : isComment (List.replicate (L.dim.x + 1) '=') = false := by
    simp [isComment, List.replicate_succ]
  have hs : isSeparator (List.replicate (L.dim.x + 1) '=') = true := by
    simp [isSeparator, List.replicate_succ]
  unfold parseLine
  simp only [hne, hd, strip_sepLine, hc, hs, if_false, if_true, Bool.false_eq_true]

theorem parseLines_layers {L : Lyt} : ∀ (tsss : List (List (List (Pos × Char)))) (n z k : Nat) (s : Reader),
    (∀ tss ∈ tsss, ∀ ts ∈ tss, ∀ t ∈ ts, Good t.2) →
    tsss.map (fun tss => tss.map fun ts => ts.map Prod.fst) =
      (List.range' z k).map (fun z => (List.range (L.dim.y + 1)).map fun y => rowOf L.dim.x y z) →
    tsss.flatten.flatten.Pairwise Apart → s.cellDefs = false → s.layer = z →
    ∃ s', parseLines n (tsss.flatMap fun tss => sepLine L :: tss.map rowText) s = .ok s' ∧
      Eff s s' tsss.flatten.flatten ∧ s'.cellDefs = false
  | [], _, _, _, s, _, _, _, hd, _ => ⟨s, rfl, .refl s, hd⟩
  | tss :: tsss, n, z, 0, s, _, hp, _, _, _ => by simp at hp
  | tss :: tsss, n, z, k + 1, s, hg, hp, ha, hd, hl => by
    rw [List.range'_succ] at hp
    simp only [List.map_cons, List.cons.injEq] at hp
    rw [List.flatten_cons, List.flatten_append, List.pairwise_append] at ha
    obtain ⟨s1, h1, he1, hl1, hd1⟩ := parseLines_rows (N := L.dim.x) (z := z) tss (n + 1) 0 (L.dim.y + 1)
      { s with row := 0, layer := s.layer + 1 } (hg tss (.head _)) (by rw [hp.1, List.range_eq_range']) ha.1 hd rfl
      (by simp [Reader.z, hl])
    obtain ⟨s2, h2, he2, hd2⟩ := parseLines_layers tsss (n + 1 + (tss.map rowText).length) (z + 1) k s1
      (fun t ht => hg t (.tail _ ht)) hp.2 ha.2.1 hd1 (by rw [hl1]; simp [hl])
    refine ⟨s2, ?_, ?_, hd2⟩
    · rw [List.flatMap_cons, List.cons_append, parseLines, parseLine_sep L n s hd]
      simp only
      rw [parseLines_append _ _ _ _ _ h1]
      exact h2
    · rw [List.flatten_cons, List.flatten_append]
      exact (Eff.frameLeft (s := s) he1 rfl rfl rfl rfl rfl rfl).append he2 ha.2.2

/-! ## Reading definitions -/

/-- The effect of reading the definitions of the cells `ls`. -/
structure EffDef (L : Lyt) (s s' : Reader) (ls : List (Pos × Char)) : Prop where
  ty : ∀ t ∈ ls, s'.ty t.1 = if L.ty t.1 = .input ∨ L.ty t.1 = .output then L.ty t.1 else s.ty t.1
  clock : ∀ t ∈ ls, s'.clock t.1 = L.clock t.1 % 4
  name : ∀ t ∈ ls, s'.name t.1 = if L.name t.1 ≠ [] then strip (L.name t.1) else s.name t.1
  miss : ∀ p, p ∉ ls.map Prod.fst → s'.ty p = s.ty p ∧ s'.clock p = s.clock p ∧ s'.name p = s.name p
  rest : s'.mode = s.mode ∧ s'.labels = s.labels ∧ s'.mx = s.mx ∧ s'.cellDefs = s.cellDefs

/-- The lines of a definition. -/
def defLines (L : Lyt) (lc : Pos × Char) : List (List Char) :=
  [[lc.2, ':']] ++ (if L.ty lc.1 = .input then ["- input".toList] else []) ++
  (if L.ty lc.1 = .output then ["- output".toList] else []) ++
  (if L.name lc.1 ≠ [] then ["- label = \"".toList ++ L.name lc.1 ++ ['"']] else []) ++
  ["- clock = ".toList ++ number (L.clock lc.1), []]

theorem writeLabelled_lines (L : Lyt) (lc : Pos × Char) : writeLabelled L lc = unlines (defLines L lc) := by
  unfold writeLabelled defLines
  split_ifs <;> simp [unlines]

theorem parseLines_cons_ok {n : Nat} {l : List Char} {ls : List (List Char)} {s s' : Reader}
    (h : parseLine n l s = .ok s') : parseLines n (l :: ls) s = parseLines (n + 1) ls s' := by
  rw [parseLines, h]

theorem parseLine_def {n : Nat} {l : List Char} {s : Reader} (hl : l ≠ []) (hd : s.cellDefs = true) :
    parseLine n l s = parseDef n (strip l) s := by
  unfold parseLine
  simp only [hl, hd, if_false, if_true]

theorem parse_id (n : Nat) (d : Char) (p : Pos) (s : Reader) (hd : s.cellDefs = true) (ha : d ∈ alphabet)
    (hl : s.labels d = some p) : parseLine n [d, ':'] s = .ok { s with cur := p } := by
  have hf := alphabet_facts d ha
  rw [parseLine_def (by simp) hd]
  have e : strip [d, ':'] = [d, ':'] := by
    have : isSpace ':' = false := by decide
    simp [strip, hf.2.2.2.1, this]
  rw [e]
  simp only [parseDef, matchId, hf.2.2.1, Bool.true_or, if_true, hl, reduceCtorEq, if_false]

theorem parse_input (n : Nat) (s : Reader) (hd : s.cellDefs = true) :
    parseLine n "- input".toList s = .ok { s with ty := put s.ty s.cur .input } := by
  rw [parseLine_def (by decide) hd]; rfl

theorem parse_output (n : Nat) (s : Reader) (hd : s.cellDefs = true) :
    parseLine n "- output".toList s = .ok { s with ty := put s.ty s.cur .output } := by
  rw [parseLine_def (by decide) hd]; rfl

theorem parse_label (n : Nat) (l : List Char) (s : Reader) (hd : s.cellDefs = true) :
    parseLine n ("- label = \"".toList ++ l ++ ['"']) s = .ok { s with name := put s.name s.cur (strip l) } := by
  rw [parseLine_def (by simp) hd]
  have e : strip ("- label = \"".toList ++ l ++ ['"']) = "-label=\"".toList ++ (strip l ++ ['"']) := by
    unfold strip; rw [List.filter_append, List.filter_append, List.append_assoc]; rfl
  rw [e]
  have hm : matchLabel ("-label=\"".toList ++ (strip l ++ ['"'])) = some (strip l) := by
    unfold matchLabel
    simp only
    rw [if_pos ⟨List.isPrefixOf_iff_prefix.2 (List.prefix_append _ _), by simp, by rw [← List.append_assoc]; exact List.getLast?_concat⟩, List.drop_left]
    simp
  have h1 : ∀ x : List Char, matchId ("-label=\"".toList ++ x) = none := fun x => rfl
  have h2 : ∀ x : List Char, "-label=\"".toList ++ x ≠ "-input".toList := by intro x h; simp at h
  have h3 : ∀ x : List Char, "-label=\"".toList ++ x ≠ "-output".toList := by intro x h; simp at h
  have h4 : ∀ x : List Char, "-label=\"".toList ++ x ≠ [] := by intro x h; simp at h
  unfold parseDef
  rw [if_neg (h4 _)]
  simp only [h1, hm]
  rw [if_neg (h2 _), if_neg (h3 _)]

theorem parse_clock (n k : Nat) (s : Reader) (hd : s.cellDefs = true) (hk : k < 10) :
    parseLine n ("- clock = ".toList ++ number k) s = .ok { s with clock := put s.clock s.cur (k % 4) } := by
  rw [parseLine_def (by simp) hd, number_lt hk]
  obtain ⟨h1, h2, h3, _⟩ := digit_facts k hk
  have e : strip ("- clock = ".toList ++ [Nat.digitChar k]) = "-clock=".toList ++ [Nat.digitChar k] := by
    unfold strip; rw [List.filter_append]; simp [h2]; rfl
  rw [e]
  have hm : matchClock ("-clock=".toList ++ [Nat.digitChar k]) = some (Nat.digitChar k) := by
    unfold matchClock
    simp only
    rw [if_pos (List.isPrefixOf_iff_prefix.2 (List.prefix_append _ _)), List.drop_left]
    simp [h1]
  have h0 : matchId ("-clock=".toList ++ [Nat.digitChar k]) = none := rfl
  have h5 : matchLabel ("-clock=".toList ++ [Nat.digitChar k]) = none := by
    unfold matchLabel; simp
  unfold parseDef
  rw [if_neg (by simp)]
  simp only [h0, h5, hm]
  rw [if_neg (by simp), if_neg (by simp)]
  simp only [toClock, h3]

theorem parse_empty (n : Nat) (s : Reader) : parseLine n [] s = .ok s := by simp [parseLine]

theorem parse_def (L : Lyt) (n : Nat) (t : Pos × Char) (s : Reader) (hd : s.cellDefs = true) (ha : t.2 ∈ alphabet)
    (hl : s.labels t.2 = some t.1) (hk : L.clock t.1 < 10) :
    ∃ s', parseLines n (defLines L t) s = .ok s' ∧ EffDef L s s' [t] := by
  unfold defLines
  by_cases h1 : L.ty t.1 = .input
  · by_cases h2 : L.name t.1 = []
    · simp only [h1, h2, if_true, if_false, reduceCtorEq, ne_eq, not_true, List.append_nil, List.cons_append, List.nil_append]
      rw [parseLines_cons_ok (parse_id n t.2 t.1 s hd ha hl), parseLines_cons_ok (parse_input _ _ (by exact hd)),
        parseLines_cons_ok (parse_clock _ _ _ (by exact hd) hk), parseLines_cons_ok (parse_empty _ _)]
      refine ⟨_, rfl, ⟨?_, ?_, ?_, ?_, rfl, rfl, rfl, rfl⟩⟩ <;> simp [put, h1, h2] <;> grind
    · simp only [h1, h2, if_true, if_false, reduceCtorEq, ne_eq, not_false_iff, List.append_nil, List.cons_append, List.nil_append]
      rw [parseLines_cons_ok (parse_id n t.2 t.1 s hd ha hl), parseLines_cons_ok (parse_input _ _ (by exact hd)),
        parseLines_cons_ok (parse_label _ _ _ (by exact hd)),
        parseLines_cons_ok (parse_clock _ _ _ (by exact hd) hk), parseLines_cons_ok (parse_empty _ _)]
      refine ⟨_, rfl, ⟨?_, ?_, ?_, ?_, rfl, rfl, rfl, rfl⟩⟩ <;> simp [put, h1, h2] <;> grind
  · by_cases h3 : L.ty t.1 = .output
    · by_cases h2 : L.name t.1 = []
      · simp only [h3, h2, if_true, if_false, reduceCtorEq, ne_eq, not_true, List.append_nil, List.cons_append, List.nil_append]
        rw [parseLines_cons_ok (parse_id n t.2 t.1 s hd ha hl), parseLines_cons_ok (parse_output _ _ (by exact hd)),
          parseLines_cons_ok (parse_clock _ _ _ (by exact hd) hk), parseLines_cons_ok (parse_empty _ _)]
        refine ⟨_, rfl, ⟨?_, ?_, ?_, ?_, rfl, rfl, rfl, rfl⟩⟩ <;> simp [put, h3, h2] <;> grind
      · simp only [h3, h2, if_true, if_false, reduceCtorEq, ne_eq, not_false_iff, List.append_nil, List.cons_append, List.nil_append]
        rw [parseLines_cons_ok (parse_id n t.2 t.1 s hd ha hl), parseLines_cons_ok (parse_output _ _ (by exact hd)),
          parseLines_cons_ok (parse_label _ _ _ (by exact hd)),
          parseLines_cons_ok (parse_clock _ _ _ (by exact hd) hk), parseLines_cons_ok (parse_empty _ _)]
        refine ⟨_, rfl, ⟨?_, ?_, ?_, ?_, rfl, rfl, rfl, rfl⟩⟩ <;> simp [put, h3, h2] <;> grind
    · by_cases h2 : L.name t.1 = []
      · simp only [h1, h3, h2, if_false, ne_eq, not_true, List.append_nil, List.cons_append, List.nil_append]
        rw [parseLines_cons_ok (parse_id n t.2 t.1 s hd ha hl),
          parseLines_cons_ok (parse_clock _ _ _ (by exact hd) hk), parseLines_cons_ok (parse_empty _ _)]
        refine ⟨_, rfl, ⟨?_, ?_, ?_, ?_, rfl, rfl, rfl, rfl⟩⟩ <;> simp [put, h1, h3, h2] <;> grind
      · simp only [h1, h3, h2, if_true, if_false, ne_eq, not_false_iff, List.append_nil, List.cons_append, List.nil_append]
        rw [parseLines_cons_ok (parse_id n t.2 t.1 s hd ha hl),
          parseLines_cons_ok (parse_label _ _ _ (by exact hd)),
          parseLines_cons_ok (parse_clock _ _ _ (by exact hd) hk), parseLines_cons_ok (parse_empty _ _)]
        refine ⟨_, rfl, ⟨?_, ?_, ?_, ?_, rfl, rfl, rfl, rfl⟩⟩ <;> simp [put, h1, h3, h2] <;> grind

theorem parse_defs (L : Lyt) : ∀ (ls : List (Pos × Char)) (n : Nat) (s : Reader), s.cellDefs = true →
    (∀ t ∈ ls, t.2 ∈ alphabet) → (∀ t ∈ ls, s.labels t.2 = some t.1) → (∀ t ∈ ls, L.clock t.1 < 10) →
    (ls.map Prod.fst).Nodup →
    ∃ s', parseLines n (ls.flatMap (defLines L)) s = .ok s' ∧ EffDef L s s' ls
  | [], _, s, _, _, _, _, _ => ⟨s, rfl, by simp, by simp, by simp, by simp, rfl, rfl, rfl, rfl⟩
  | t :: ls, n, s, hd, ha, hl, hk, hn => by
    rw [List.map_cons, List.nodup_cons] at hn
    obtain ⟨s1, h1, he1⟩ := parse_def L n t s hd (ha t (.head _)) (hl t (.head _)) (hk t (.head _))
    obtain ⟨s2, h2, he2⟩ := parse_defs L ls (n + (defLines L t).length) s1 (he1.rest.2.2.2.trans hd)
      (fun u hu => ha u (.tail _ hu)) (fun u hu => by rw [he1.rest.2.1]; exact hl u (.tail _ hu))
      (fun u hu => hk u (.tail _ hu)) hn.2
    refine ⟨s2, by rw [List.flatMap_cons, parseLines_append _ _ _ _ _ h1]; exact h2, ?_⟩
    have ht := he2.miss t.1 hn.1
    have hu : ∀ u ∈ ls, u.1 ∉ [t].map Prod.fst := by
      intro u hu e
      simp only [List.map_cons, List.map_nil, List.mem_singleton] at e
      exact hn.1 (by rw [← e]; exact List.mem_map_of_mem hu)
    refine ⟨?_, ?_, ?_, ?_, ?_⟩
    · intro u h
      rcases List.mem_cons.1 h with rfl | h
      · rw [ht.1, he1.ty _ (.head _)]
      · rw [he2.ty u h, (he1.miss _ (hu u h)).1]
    · intro u h
      rcases List.mem_cons.1 h with rfl | h
      · rw [ht.2.1, he1.clock _ (.head _)]
      · rw [he2.clock u h]
    · intro u h
      rcases List.mem_cons.1 h with rfl | h
      · rw [ht.2.2, he1.name _ (.head _)]
      · rw [he2.name u h, (he1.miss _ (hu u h)).2.2]
    · intro p hp
      rw [List.map_cons, List.mem_cons, not_or] at hp
      have a := he1.miss p (by simpa using hp.1)
      have b := he2.miss p hp.2
      exact ⟨b.1.trans a.1, b.2.1.trans a.2.1, b.2.2.trans a.2.2⟩
    · exact ⟨he2.rest.1.trans he1.rest.1, he2.rest.2.1.trans he1.rest.2.1, he2.rest.2.2.1.trans he1.rest.2.2.1,
        he2.rest.2.2.2.trans he1.rest.2.2.2⟩

end Verif.Io
