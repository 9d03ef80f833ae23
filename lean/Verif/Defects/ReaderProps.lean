import Verif.Defects.ReaderFacts
import Verif.Defects.ReaderSpec

/-!
# C84: reading a defect surface
-/
namespace Verif.Defects

open Verif.Cells Verif.Library Verif.Layouts

/-! ## Specification -/

/-- The defect types of the file format, by their indices. -/
def kind : Nat → DefectType
  | 1 => .db
  | 2 => .siVacancy
  | 3 => .dihydridePair
  | 4 => .singleDihydride
  | 5 => .oneByOne
  | 6 => .threeByOne
  | 7 => .siloxane
  | 8 => .raisedSi
  | 9 => .etchPit
  | 10 => .missingDimer
  | _ => .none

/-- The index in row `y` and column `x`, 0 outside of the matrix. -/
def cellOf (M : List (List Nat)) (x y : Nat) : Nat := ((M[y]?.getD [])[x]?).getD 0

/-- No row is shorter than one before it. -/
def Growing (M : List (List Nat)) : Prop := (M.map List.length).Pairwise (· ≤ ·)

/-- All indices name a defect type. -/
def Supported (M : List (List Nat)) : Prop := ∀ row ∈ M, ∀ i ∈ row, i ≤ 10

instance (M : List (List Nat)) : Decidable (Growing M) := by unfold Growing; infer_instance
instance (M : List (List Nat)) : Decidable (Supported M) := by unfold Supported; infer_instance

/-- The number of columns of the widest row. -/
def widest (M : List (List Nat)) : Nat := (M.map List.length).foldr max 0

/-! ## Facts -/

theorem index_some (i : Nat) (h : i ≤ 10) : indexToDefect[i]? = some (kind i) := by
  have : i = 0 ∨ i = 1 ∨ i = 2 ∨ i = 3 ∨ i = 4 ∨ i = 5 ∨ i = 6 ∨ i = 7 ∨ i = 8 ∨ i = 9 ∨ i = 10 := by omega
  rcases this with rfl | rfl | rfl | rfl | rfl | rfl | rfl | rfl | rfl | rfl | rfl <;> rfl

theorem index_none (i : Nat) (h : 10 < i) : indexToDefect[i]? = none := by
  rw [List.getElem?_eq_none_iff]
  exact h

/-- The surface without ignored types holds exactly the indicated defects. -/
def Holds (s : Surface CellPos) (f : CellPos → DefectType) : Prop :=
  s.ignore = [] ∧ ∀ p, s.get p = Defect.ofType (f p)

theorem holds_assign {s : Surface CellPos} {f : CellPos → DefectType} (h : Holds s f) (c : CellPos) (t : DefectType) :
    Holds (s.assign c (Defect.ofType t)) (fun p => if p = c then t else f p) := by
  refine ⟨?_, fun p => ?_⟩
  · have := step_ignore s (.assign c (Defect.ofType t))
    exact this.trans h.1
  · rw [get_eq, find_assign', h.1]
    have hp := h.2 p
    rw [get_eq] at hp
    by_cases hc : p = c
    · simp only [if_pos hc, List.not_mem_nil, or_false]
      by_cases ht : (Defect.ofType t).type = .none
      · rw [if_pos ht]
        have : t = .none := ht
        rw [this]; rfl
      · rw [if_neg ht]; rfl
    · simp only [if_neg hc]; exact hp

theorem readRow_ok (y : Nat) (ns : List Nat) (l : List (List Char)) (hn : List.Forall₂ NumeralB ns l)
    (hs : ∀ i ∈ ns, i ≤ 10) (x : Nat) (s : Surface CellPos) (f : CellPos → DefectType) (h : Holds s f) :
    ∃ s', readRow y x l s = .ok s' ∧
      Holds s' (fun p => if p.2.1 = y ∧ p.2.2 = 0 ∧ x ≤ p.1 ∧ p.1 < x + ns.length then kind ((ns[p.1 - x]?).getD 0) else f p) := by
  induction hn generalizing x s f with
  | nil =>
    refine ⟨s, rfl, h.1, fun p => ?_⟩
    dsimp only
    rw [if_neg (by simp only [List.length_nil]; omega)]
    exact h.2 p
  | @cons n ds ns l hnd hrest ih =>
    have hn10 := hs n (by simp)
    unfold readRow
    rw [hnd.2.2, if_pos (by omega), index_some n hn10]
    dsimp only
    obtain ⟨s', h1, h2⟩ := ih (fun i hi => hs i (List.mem_cons_of_mem _ hi)) (x + 1) _ _ (holds_assign h (x, y, 0) (kind n))
    refine ⟨s', h1, h2.1, fun p => ?_⟩
    rw [h2.2 p]
    congr 1
    obtain ⟨px, py, pz⟩ := p
    simp only [Prod.mk.injEq, List.length_cons]
    by_cases hy : py = y ∧ pz = 0
    · obtain ⟨rfl, rfl⟩ := hy
      by_cases hx : px = x
      · subst hx
        rw [if_neg (by omega), if_pos (by simp), if_pos (by omega)]
        simp
      · by_cases hin : x + 1 ≤ px ∧ px < x + 1 + ns.length
        · rw [if_pos (by omega), if_pos (by omega)]
          have : px - x = (px - (x + 1)) + 1 := by omega
          rw [this, List.getElem?_cons_succ]
        · rw [if_neg (by omega), if_neg (by simp [hx]), if_neg (by omega)]
    · rw [if_neg (by omega), if_neg (by omega), if_neg (by omega)]

theorem numerals_length {ns : List Nat} {l : List (List Char)} (h : List.Forall₂ NumeralB ns l) : l.length = ns.length :=
  h.length_eq.symm

/-- What the positions hold when the rows from `y` on are those of `M`. -/
def from' (M : List (List Nat)) (y : Nat) (f : CellPos → DefectType) : CellPos → DefectType := fun p =>
  if p.2.2 = 0 ∧ y ≤ p.2.1 ∧ p.2.1 < y + M.length ∧ p.1 < (M[p.2.1 - y]?.getD []).length then kind (cellOf M p.1 (p.2.1 - y)) else f p

theorem readRows_ok (M : List (List Nat)) (bodies : List (List Char))
    (hb : List.Forall₂ (fun row body => row ≠ [] ∧ RowB row body) M bodies) (hg : Growing M) (hsup : Supported M)
    (y : Nat) (st : RState) (hmax : ∀ row ∈ M, st.maxX ≤ row.length - 1) (f : CellPos → DefectType) (h : Holds st.surface f) :
    ∃ st', readRows y bodies st = .ok st' ∧ Holds st'.surface (from' M y f) ∧ st'.maxX = max st.maxX (widest M - 1) := by
  induction hb generalizing y st f with
  | nil =>
    refine ⟨st, rfl, ⟨h.1, fun p => ?_⟩, by simp [widest]⟩
    unfold from'
    rw [if_neg (by simp only [List.length_nil]; omega)]
    exact h.2 p
  | @cons row body M bodies hrow hrest ih =>
    obtain ⟨hne, hrt⟩ := hrow
    have hnum := runs_row hrt
    have hlen := numerals_length hnum
    have hpos : 0 < row.length := List.length_pos_iff.2 hne
    have hmaxr := hmax row (by simp)
    unfold Growing at hg
    rw [List.map_cons, List.pairwise_cons] at hg
    obtain ⟨s', hr1, hr2⟩ := readRow_ok y row _ hnum (hsup row (by simp)) 0 st.surface f h
    have hnext : ∀ r ∈ M, row.length - 1 ≤ r.length - 1 := fun r hr => by
      have := hg.1 r.length (List.mem_map.2 ⟨r, hr, rfl⟩); omega
    have hstep : readRows y (body :: bodies) st = readRows (y + 1) bodies ⟨s', row.length - 1⟩ := by
      rw [readRows, hlen]
      by_cases hgt : row.length - 1 > st.maxX
      · rw [if_pos hgt, hr1]
      · rw [if_neg hgt, if_neg (by omega), hr1]
        have : st.maxX = row.length - 1 := by omega
        rw [this]
    obtain ⟨st', h1, h2, h3⟩ := ih hg.2 (fun r hr => hsup r (List.mem_cons_of_mem _ hr)) (y + 1) ⟨s', row.length - 1⟩
      (fun r hr => hnext r hr) _ hr2
    refine ⟨st', by rw [hstep]; exact h1, ⟨h2.1, fun p => ?_⟩, ?_⟩
    · rw [h2.2 p]
      congr 1
      obtain ⟨px, py, pz⟩ := p
      unfold from' cellOf
      dsimp only
      by_cases hz : pz = 0
      · subst hz
        by_cases hy : py = y
        · subst hy
          rw [if_neg (by omega)]
          simp only [Nat.sub_self, List.getElem?_cons_zero, Option.getD_some, List.length_cons, true_and]
          by_cases hx : px < row.length
          · rw [if_pos (by omega), if_pos (by omega)]
            simp
          · rw [if_neg (by omega), if_neg (by omega)]
        · by_cases hlt : py < y
          · rw [if_neg (by omega), if_neg (by omega), if_neg (by omega)]
          · have e : py - y = (py - (y + 1)) + 1 := by omega
            rw [e, List.getElem?_cons_succ]
            by_cases hc : y + 1 ≤ py ∧ py < y + 1 + M.length ∧ px < (M[py - (y + 1)]?.getD []).length
            · rw [if_pos (by omega), if_pos (by simp only [List.length_cons, true_and]; omega)]
            · rw [if_neg (by omega), if_neg (by omega), if_neg (by simp only [List.length_cons, true_and]; omega)]
      · rw [if_neg (by omega), if_neg (by omega), if_neg (by omega)]
    · rw [h3]
      simp only [widest, List.map_cons, List.foldr_cons]
      omega

theorem new_holds : Holds (Surface.new []) (fun _ => .none) := ⟨rfl, fun _ => rfl⟩

/-! ## Texts as the functions of the reader see them -/

theorem isDig_iff (c : Char) : isDig c = true ↔ Digit c := by
  unfold isDig Digit
  simp only [Bool.and_eq_true, decide_eq_true_eq]
  constructor
  · rintro ⟨h1, h2⟩
    have h1 : 48 ≤ c.toNat := h1
    have h2 : c.toNat ≤ 57 := h2
    refine ⟨c.toNat - 48, by omega, ?_⟩
    have hc : c = Char.ofNat c.toNat := (Char.ofNat_toNat c).symm
    have key : ∀ n, n < 10 → Char.ofNat (n + 48) = Nat.digitChar n := by decide
    rw [hc, Char.ofNat_toNat, ← key _ (by omega), Nat.sub_add_cancel h1]
    exact hc
  · rintro ⟨d, hd, rfl⟩
    revert d
    decide

theorem isWs_iff (c : Char) : isWs c = true ↔ White c := by
  unfold isWs White
  simp [or_assoc]

theorem numeral_b {n : Nat} {ds : List Char} (h : Numeral n ds) : NumeralB n ds := by
  obtain ⟨l, hne, hlt, rfl, rfl⟩ := h
  refine ⟨by simpa using hne, ?_, ?_⟩
  · rw [List.all_eq_true]
    intro c hc
    obtain ⟨d, hd, rfl⟩ := List.mem_map.1 hc
    exact (isDig_iff _).2 ⟨d, hlt d hd, rfl⟩
  · clear hne
    unfold value
    induction l using List.reverseRecOn with
    | nil => rfl
    | append_singleton l d ih =>
      have hv : ∀ d < 10, (Nat.digitChar d).toNat - '0'.toNat = d := by decide
      rw [List.map_append, List.foldl_append, ih (fun x hx => hlt x (by simp [hx])), List.reverse_append]
      simp only [List.map_cons, List.map_nil, List.foldl_cons, List.foldl_nil, List.reverse_cons, List.reverse_nil,
        List.nil_append, List.cons_append, Nat.ofDigits_cons]
      rw [hv d (hlt d (by simp))]
      push_cast
      omega

theorem white_b {w : List Char} (h : ∀ c ∈ w, White c) : w.all isWs = true := by
  rw [List.all_eq_true]
  exact fun c hc => (isWs_iff c).2 (h c hc)

theorem gap_b {w : List Char} (h : ∀ c ∈ w, ¬ Digit c) : w.any isDig = false := by
  rw [List.any_eq_false]
  exact fun c hc hd => h c hc ((isDig_iff c).1 hd)

theorem row_b {ns : List Nat} {t : List Char} (h : RowText ns t) : RowB ns t := by
  induction h with
  | nil w hw => exact .nil w (white_b hw)
  | cons w ds rest n ns hw hn hsep _ ih =>
    exact .cons w ds rest n ns (white_b hw) (numeral_b hn) (fun c hc => (isWs_iff c).2 (hsep c hc)) ih

theorem matrix_b {M : List (List Nat)} {t : List Char} (h : MatrixText M t) : MatrixB M t := by
  induction h with
  | nil gap hg => exact .nil gap (gap_b hg)
  | cons gap body rest row rows hg hne hb _ ih => exact .cons gap body rest row rows (gap_b hg) hne (row_b hb) ih

/-! ## C84 -/

/-- **C84** Reading any text of a matrix none of whose rows is shorter than a previous one and all of whose indices name a
defect type yields a surface with exactly the defects of the matrix, at column and row of their indices and in the ground
layer, and with the aspect ratio of the matrix. -/
theorem C84_read (M : List (List Nat)) (text : List Char) (ht : MatrixText M text) (hg : Growing M) (hs : Supported M) :
    ∃ s m, readSurface text = .ok (s, m) ∧ m = ⟨widest M - 1, M.length - 1, 0⟩ ∧
      (∀ x y, s.get (x, y, 0) = Defect.ofType (kind (cellOf M x y))) ∧
      ∀ x y z, z ≠ 0 → s.get (x, y, z) = Defect.ofType .none := by
  obtain ⟨bodies, hsc, hf⟩ := scan_matrix (matrix_b ht)
  obtain ⟨st, h1, h2, h3⟩ := readRows_ok M bodies hf hg hs 0 ⟨Surface.new [], 0⟩ (fun _ _ => Nat.zero_le _) _ new_holds
  unfold readSurface
  rw [search_eq _ _ le_rfl, hsc]
  dsimp only
  rw [h1]
  dsimp only
  refine ⟨_, _, rfl, ?_, fun x y => ?_, fun x y z hz => ?_⟩
  · have hl := hf.length_eq
    have h3' : st.maxX = widest M - 1 := by rw [h3]; simp
    rw [h3']
    congr 1
    · cases hb : bodies with
      | nil => rw [hb] at hl; simp only [List.length_nil] at hl; simp [hl]
      | cons a b => rw [hb] at hl; simp [hl]
  · rw [h2.2]
    congr 1
    unfold from'
    dsimp only
    by_cases hc : y < M.length ∧ x < (M[y]?.getD []).length
    · rw [if_pos (by simp only [Nat.sub_zero, true_and]; omega)]; simp
    · rw [if_neg (by simp only [Nat.sub_zero, true_and]; omega)]
      have : cellOf M x y = 0 := by
        unfold cellOf
        rw [List.getElem?_eq_none_iff.2]
        · rfl
        · by_contra hlt
          refine hc ⟨?_, by omega⟩
          by_contra hy
          rw [List.getElem?_eq_none_iff.2 (by omega)] at hlt
          simp at hlt
      rw [this]; rfl
  · rw [h2.2]
    congr 1
    unfold from'
    exact if_neg (fun h => hz h.1)

theorem forall₂_append_left {A B : Type} {R : A → B → Prop} (a b : List A) (l : List B) (h : List.Forall₂ R (a ++ b) l) :
    ∃ c d, l = c ++ d ∧ List.Forall₂ R a c ∧ List.Forall₂ R b d := by
  induction a generalizing l with
  | nil => exact ⟨[], l, rfl, .nil, h⟩
  | cons x a ih =>
    cases h with
    | cons hx hr =>
      obtain ⟨c, d, e, h1, h2⟩ := ih _ hr
      exact ⟨_ :: c, d, by rw [e]; rfl, .cons hx h1, h2⟩

theorem readRows_append (y : Nat) (a b : List (List Char)) (st st' : RState) (h : readRows y a st = .ok st') :
    readRows y (a ++ b) st = readRows (y + a.length) b st' := by
  induction a generalizing y st with
  | nil => rw [readRows] at h; cases h; rfl
  | cons r a ih =>
    rw [List.cons_append, readRows]
    rw [readRows] at h
    have e : y + (r :: a).length = y + 1 + a.length := by simp only [List.length_cons]; omega
    rw [e]
    by_cases h1 : (runs [] r).length - 1 > st.maxX
    · rw [if_pos h1] at h ⊢
      cases hrow : readRow y 0 (runs [] r) st.surface with
      | ok s => rw [hrow] at h; exact ih _ _ h
      | error e => rw [hrow] at h; cases h
    · rw [if_neg h1] at h ⊢
      by_cases h2 : (runs [] r).length - 1 < st.maxX
      · rw [if_pos h2] at h; cases h
      · rw [if_neg h2] at h ⊢
        cases hrow : readRow y 0 (runs [] r) st.surface with
        | ok s => rw [hrow] at h; exact ih _ _ h
        | error e => rw [hrow] at h; cases h

theorem readRow_error (y : Nat) (a b : List Nat) (i : Nat) (l : List (List Char)) (hn : List.Forall₂ NumeralB (a ++ i :: b) l)
    (ha : ∀ j ∈ a, j ≤ 10) (hi : 10 < i) (x : Nat) (s : Surface CellPos) :
    readRow y x l s = .error (if i ≤ 2147483647 then .unsupported i else .outOfRange) := by
  induction a generalizing x s l with
  | nil =>
    cases hn with
    | cons h1 h2 =>
      rw [readRow, h1.2.2]
      by_cases hle : i ≤ 2147483647
      · rw [if_pos hle, if_pos hle, index_none i hi]
      · rw [if_neg hle, if_neg hle]
  | cons j a ih =>
    cases hn with
    | cons h1 h2 =>
      have hj := ha j (by simp)
      rw [readRow, h1.2.2, if_pos (by omega), index_some j hj]
      exact ih _ h2 (fun k hk => ha k (List.mem_cons_of_mem _ hk)) _ _

theorem widest_ge (M : List (List Nat)) : ∀ r ∈ M, r.length ≤ widest M := by
  induction M with
  | nil => simp
  | cons a M ih =>
    intro r hr
    simp only [widest, List.map_cons, List.foldr_cons]
    rcases List.mem_cons.1 hr with e | hr
    · rw [e]; omega
    · have := ih r hr; unfold widest at this; omega

theorem widest_le (M : List (List Nat)) (k : Nat) (h : ∀ r ∈ M, r.length ≤ k) : widest M ≤ k := by
  induction M with
  | nil => simp [widest]
  | cons a M ih =>
    simp only [widest, List.map_cons, List.foldr_cons]
    have h1 := h a (by simp)
    have h2 := ih (fun r hr => h r (List.mem_cons_of_mem _ hr))
    unfold widest at h2
    omega

/-- **C84** The first row that is shorter than a previous one is reported by `missing_sidb_position_exception`, provided that
the rows before it name defect types only. -/
theorem C84_missing (pre post : List (List Nat)) (row : List Nat) (text : List Char) (ht : MatrixText (pre ++ row :: post) text)
    (hg : Growing pre) (hs : Supported pre) (hshort : ∃ r ∈ pre, row.length < r.length) :
    readSurface text = .error (.missing pre.length) := by
  obtain ⟨bodies, hsc, hf⟩ := scan_matrix (matrix_b ht)
  obtain ⟨c, d, rfl, hc, hd⟩ := forall₂_append_left pre (row :: post) bodies hf
  obtain ⟨st, h1, -, h3⟩ := readRows_ok pre c hc hg hs 0 ⟨Surface.new [], 0⟩ (fun _ _ => Nat.zero_le _) _ new_holds
  unfold readSurface
  rw [search_eq _ _ le_rfl, hsc]
  dsimp only
  rw [readRows_append 0 c d _ st h1]
  cases hd with
  | @cons _ body _ ds hrow hrest =>
    have hlen := numerals_length (runs_row hrow.2)
    have hpos : 0 < row.length := List.length_pos_iff.2 hrow.1
    obtain ⟨r, hr, hlt⟩ := hshort
    have hw := widest_ge pre r hr
    have h3' : st.maxX = widest pre - 1 := by rw [h3]; simp
    rw [readRows, hlen, if_neg (by omega), if_pos (by omega), ← hc.length_eq, Nat.zero_add]

/-- **C84** The first index that names no defect type is reported by `unsupported_defect_index_exception`, or by the
`std::out_of_range` of the conversion if it exceeds the type `int`. -/
theorem C84_unsupported (pre post : List (List Nat)) (a b : List Nat) (i : Nat) (text : List Char)
    (ht : MatrixText (pre ++ (a ++ i :: b) :: post) text) (hg : Growing (pre ++ [a ++ i :: b])) (hs : Supported pre)
    (ha : ∀ j ∈ a, j ≤ 10) (hi : 10 < i) :
    readSurface text = .error (if i ≤ 2147483647 then .unsupported i else .outOfRange) := by
  obtain ⟨bodies, hsc, hf⟩ := scan_matrix (matrix_b ht)
  obtain ⟨c, d, rfl, hc, hd⟩ := forall₂_append_left pre ((a ++ i :: b) :: post) bodies hf
  have hg' : Growing pre := by
    unfold Growing at hg ⊢
    rw [List.map_append] at hg
    exact (List.pairwise_append.1 hg).1
  have hle : ∀ r ∈ pre, r.length ≤ (a ++ i :: b).length := by
    unfold Growing at hg
    rw [List.map_append, List.pairwise_append] at hg
    intro r hr
    exact hg.2.2 r.length (List.mem_map.2 ⟨r, hr, rfl⟩) _ (by simp)
  obtain ⟨st, h1, -, h3⟩ := readRows_ok pre c hc hg' hs 0 ⟨Surface.new [], 0⟩ (fun _ _ => Nat.zero_le _) _ new_holds
  unfold readSurface
  rw [search_eq _ _ le_rfl, hsc]
  dsimp only
  rw [readRows_append 0 c d _ st h1]
  cases hd with
  | @cons _ body _ ds hrow hrest =>
    have hnum := runs_row hrow.2
    have hlen := numerals_length hnum
    have hw := widest_le pre _ hle
    have h3' : st.maxX = widest pre - 1 := by rw [h3]; simp
    have he := readRow_error (0 + c.length) a b i _ hnum ha hi 0 st.surface
    rw [readRows, hlen]
    by_cases hgt : (a ++ i :: b).length - 1 > st.maxX
    · rw [if_pos hgt, he]
    · rw [if_neg hgt, if_neg (by omega), he]

/-! ## Where the code departs from what its exception promises -/

/-- **Ragged matrices are not always rejected**: a row that is longer than the previous ones passes, and the positions missing
from the previous rows count as intact. -/
theorem C84_false_ragged :
    (match readSurface "[[1 2]\n [3 4 5]]".toList with
      | .ok (s, m) => decide (m = ⟨2, 1, 0⟩ ∧ s.get (2, 0, 0) = Defect.ofType .none ∧ s.get (2, 1, 0) = Defect.ofType .oneByOne)
      | .error _ => false) = true := by
  decide +kernel

/-- **Rows in the notation of Python lists are skipped**: with commas between the indices, no row is recognized, and the result
is an intact surface of one position. -/
theorem C84_false_commas :
    (match readSurface "[[1, 2], [3, 4]]".toList with
      | .ok (s, m) => decide (m = ⟨0, 0, 0⟩ ∧ s.numDefects = 0)
      | .error _ => false) = true := by
  decide +kernel

/-! ## The hypotheses hold in concrete cases -/

instance (c : Char) : Decidable (Digit c) := by unfold Digit; infer_instance
instance (c : Char) : Decidable (White c) := by unfold White; infer_instance

theorem demo_text : MatrixText [[0, 1], [10, 3]] "[[0 1]\n [10  3]]".toList := by
  have h1 : RowText [0, 1] "0 1".toList :=
    .cons [] ['0'] [' ', '1'] 0 [1] (by decide) ⟨[0], by decide, by decide, rfl, rfl⟩ (by rintro c ⟨⟩; decide)
      (.cons [' '] ['1'] [] 1 [] (by decide) ⟨[1], by decide, by decide, rfl, rfl⟩ (by rintro c ⟨⟩) (.nil [] (by decide)))
  have h2 : RowText [10, 3] "10  3".toList :=
    .cons [] ['1', '0'] [' ', ' ', '3'] 10 [3] (by decide) ⟨[1, 0], by decide, by decide, rfl, rfl⟩ (by rintro c ⟨⟩; decide)
      (.cons [' ', ' '] ['3'] [] 3 [] (by decide) ⟨[3], by decide, by decide, rfl, rfl⟩ (by rintro c ⟨⟩) (.nil [] (by decide)))
  exact .cons ['['] _ _ [0, 1] [[10, 3]] (by decide) (by simp) h1
    (.cons ['\n', ' '] _ _ [10, 3] [] (by decide) (by simp) h2 (.nil [']'] (by decide)))

example : ∃ s m, readSurface "[[0 1]\n [10  3]]".toList = .ok (s, m) ∧ m = ⟨1, 1, 0⟩ ∧
    s.get (0, 1, 0) = Defect.ofType .missingDimer ∧ s.get (0, 0, 0) = Defect.ofType .none := by
  obtain ⟨s, m, h1, h2, h3, -⟩ := C84_read _ _ demo_text (by decide) (by decide)
  exact ⟨s, m, h1, h2, h3 0 1, h3 0 0⟩

example : Growing [[0, 1], [10, 3]] ∧ Supported [[0, 1], [10, 3]] := by decide

end Verif.Defects
