import Verif.SidbAnalysis.OperationalSpec
import Mathlib.Algebra.Order.Ring.Rat
import Mathlib.Tactic.SplitIfs
import Mathlib.Tactic.ByContra
import Mathlib.Tactic.Linarith

/-! # Lemmas on the operational check -/
namespace Verif.SidbAnalysis.Operational

open Verif.Sidb Verif.SidbAnalysis.Bdl

variable {α : Type}

theorem encodes_iff (c : Dist α) (p : Pair α) (d : Dir) (b : Bool) : encodes c p d b = true ↔ Encodes c p d b := by
  unfold encodes Encodes
  cases d <;> cases b <;> simp

theorem encodes_ne {c : Dist α} {p : Pair α} {d : Dir} {b : Bool} (h : Encodes c p d b) : c p.lower ≠ c p.upper := by
  unfold Encodes at h
  split_ifs at h <;> rw [h.1, h.2] <;> simp

theorem outputsMatch_spec (g : Gate α) (c : Dist α) (i : Nat) : ∀ (l : List (Pair α)) (k : Nat),
    k + l.length ≤ g.tts.length → k + l.length ≤ g.outWires.length →
    ∃ b, outputsMatch g c i k l = some b ∧ (b = true ↔ ∀ (j : Nat) p w t, l[j]? = some p → g.outWires[k + j]? = some w →
      g.tts[k + j]? = some t → Encodes c p w.dir (t i))
  | [], k, _, _ => ⟨true, rfl, by simp⟩
  | p :: l, k, h1, h2 => by
    simp only [List.length_cons] at h1 h2
    obtain ⟨t, ht⟩ : ∃ t, g.tts[k]? = some t := ⟨g.tts[k], List.getElem?_eq_getElem (by omega)⟩
    obtain ⟨w, hw⟩ : ∃ w, g.outWires[k]? = some w := ⟨g.outWires[k], List.getElem?_eq_getElem (by omega)⟩
    have head : (∀ (j : Nat) q v s, (p :: l)[j]? = some q → g.outWires[k + j]? = some v → g.tts[k + j]? = some s →
        Encodes c q v.dir (s i)) → Encodes c p w.dir (t i) := fun h => h 0 p w t rfl hw ht
    unfold outputsMatch
    by_cases heq : c p.lower = c p.upper
    · rw [if_pos heq]
      exact ⟨false, rfl, by simp only [Bool.false_eq_true, false_iff]; intro h; exact encodes_ne (head h) heq⟩
    · rw [if_neg heq, ht, hw]
      simp only
      by_cases he : encodes c p w.dir (t i) = true
      · rw [if_pos he]
        obtain ⟨b, hb, hiff⟩ := outputsMatch_spec g c i l (k + 1) (by omega) (by omega)
        refine ⟨b, hb, hiff.trans ⟨?_, ?_⟩⟩
        · intro h j q v s hj hv hs
          cases j with
          | zero =>
            simp only [List.getElem?_cons_zero, Option.some.injEq, Nat.add_zero] at hj hv hs
            rw [hw] at hv; rw [ht] at hs
            obtain rfl := hj; obtain rfl := Option.some.inj hv; obtain rfl := Option.some.inj hs
            exact (encodes_iff _ _ _ _).1 he
          | succ j =>
            rw [List.getElem?_cons_succ] at hj
            exact h j q v s hj (by rw [Nat.add_right_comm]; exact hv) (by rw [Nat.add_right_comm]; exact hs)
        · intro h j q v s hj hv hs
          exact h (j + 1) q v s (by rwa [List.getElem?_cons_succ]) (by rw [← hv]; congr 1; omega)
            (by rw [← hs]; congr 1; omega)
      · rw [if_neg he]
        exact ⟨false, rfl, by simp only [Bool.false_eq_true, false_iff]; intro h; exact he ((encodes_iff _ _ _ _).2 (head h))⟩

theorem inputKinks_spec (c : Dist α) (i : Nat) : ∀ (l : List (Wire α)) (k : Nat),
    inputKinks c i k l = false ↔ ∀ (j : Nat) w, l[j]? = some w → ∀ p ∈ w.pairs, p.type ≠ .input →
      Encodes c p w.dir (i.testBit (k + j))
  | [], k => by simp [inputKinks]
  | w :: l, k => by
    unfold inputKinks
    rw [Bool.or_eq_false_iff, inputKinks_spec c i l (k + 1), List.any_eq_false]
    constructor
    · rintro ⟨h1, h2⟩ j v hv p hp ht
      cases j with
      | zero =>
        obtain rfl := Option.some.inj hv
        have := h1 p hp
        simp only [decide_eq_true ht, Bool.true_and, Bool.not_eq_true', Bool.not_eq_false] at this
        exact (encodes_iff _ _ _ _).1 this
      | succ j =>
        rw [List.getElem?_cons_succ] at hv
        have := h2 j v hv p hp ht
        rwa [show k + (j + 1) = k + 1 + j by omega]
    · intro h
      refine ⟨?_, ?_⟩
      · intro p hp hh
        simp only [Bool.and_eq_true, decide_eq_true_eq, Bool.not_eq_true'] at hh
        have := (encodes_iff _ _ _ _).2 (h 0 w rfl p hp hh.1)
        rw [Nat.add_zero] at this
        rw [this] at hh; exact absurd hh.2 (by simp)
      · intro j v hv p hp ht
        have := h (j + 1) v (by rwa [List.getElem?_cons_succ]) p hp ht
        rwa [show k + (j + 1) = k + 1 + j by omega] at this

theorem outputKinks_spec (g : Gate α) (c : Dist α) (i : Nat) : ∀ (l : List (Wire α)) (k : Nat),
    k + l.length ≤ g.tts.length →
    ∃ b, outputKinks g c i k l = some b ∧ (b = false ↔ ∀ (j : Nat) w t, l[j]? = some w → g.tts[k + j]? = some t →
      ∀ p ∈ w.pairs, Encodes c p w.dir (t i))
  | [], k, _ => ⟨false, rfl, by simp⟩
  | w :: l, k, h => by
    simp only [List.length_cons] at h
    obtain ⟨t, ht⟩ : ∃ t, g.tts[k]? = some t := ⟨g.tts[k], List.getElem?_eq_getElem (by omega)⟩
    obtain ⟨b, hb, hiff⟩ := outputKinks_spec g c i l (k + 1) (by omega)
    have comb : (∀ p ∈ w.pairs, Encodes c p w.dir (t i)) → (b = false ↔ ∀ (j : Nat) v s, (w :: l)[j]? = some v →
        g.tts[k + j]? = some s → ∀ p ∈ v.pairs, Encodes c p v.dir (s i)) := by
      intro hw
      refine hiff.trans ⟨?_, ?_⟩
      · intro h j v s hv hs
        cases j with
        | zero =>
          obtain rfl := Option.some.inj hv
          rw [Nat.add_zero, ht] at hs
          obtain rfl := Option.some.inj hs
          exact hw
        | succ j =>
          rw [List.getElem?_cons_succ] at hv
          exact h j v s hv (by rw [← hs]; congr 1; omega)
      · intro h j v s hv hs
        exact h (j + 1) v s (by rwa [List.getElem?_cons_succ]) (by rw [← hs]; congr 1; omega)
    unfold outputKinks
    by_cases he : w.pairs.isEmpty = true
    · rw [if_pos he]
      refine ⟨b, hb, comb ?_⟩
      rw [List.isEmpty_iff.1 he]; simp
    · rw [if_neg he, ht]
      simp only
      by_cases ha : (w.pairs.any fun p => !encodes c p w.dir (t i)) = true
      · rw [if_pos ha]
        refine ⟨true, rfl, by
          simp only [Bool.true_eq_false, false_iff]
          intro h
          obtain ⟨p, hp, hn⟩ := List.any_eq_true.1 ha
          have := (encodes_iff _ _ _ _).2 (h 0 w t rfl ht p hp)
          rw [this] at hn; simp at hn⟩
      · rw [if_neg ha]
        refine ⟨b, hb, comb ?_⟩
        intro p hp
        rw [← encodes_iff]
        by_contra hc
        exact ha (List.any_eq_true.2 ⟨p, hp, by simpa using hc⟩)

theorem noKinks_reverse (g : Gate α) (c : Dist α) (i : Nat) :
    (∀ (j : Nat) w, g.inWires.reverse[j]? = some w → ∀ p ∈ w.pairs, p.type ≠ .input → Encodes c p w.dir (i.testBit (0 + j))) ↔
    (∀ (k : Nat) w, g.inWires[k]? = some w → ∀ p ∈ w.pairs, p.type ≠ .input →
      Encodes c p w.dir (i.testBit (g.inWires.length - 1 - k))) := by
  constructor
  · intro h k w hw
    have hk : k < g.inWires.length := (List.getElem?_eq_some_iff.1 hw).1
    have := h (g.inWires.length - 1 - k) w (by
      rw [List.getElem?_reverse (by omega)]
      rw [← hw]; congr 1; omega)
    rwa [Nat.zero_add] at this
  · intro h j w hw
    have hj : j < g.inWires.length := by
      have := (List.getElem?_eq_some_iff.1 hw).1
      simpa using this
    rw [List.getElem?_reverse hj] at hw
    have := h _ w hw
    rwa [show g.inWires.length - 1 - (g.inWires.length - 1 - j) = 0 + j by omega] at this

/-- What the check of one charge distribution returns. -/
theorem verify_spec {g : Gate α} (hg : g.Ok) (prm : Params) (positive : Bool) (c : Dist α) (i : Nat) :
    ∃ r, verify g prm positive c i = some r ∧
      (prm.base = 2 ∧ positive = true → r = (.nonOperational, .positive)) ∧
      (¬ (prm.base = 2 ∧ positive = true) →
        (¬ OutputsCorrect g c i ∧ r = (.nonOperational, .logicMismatch)) ∨
        (OutputsCorrect g c i ∧ prm.rejectKinks = true ∧ ¬ NoKinks g c i ∧ r = (.nonOperational, .kinks)) ∨
        (OutputsCorrect g c i ∧ (prm.rejectKinks = true → NoKinks g c i) ∧ r = (.operational, .none))) := by
  unfold verify
  by_cases hp : prm.base = 2 ∧ positive = true
  · rw [if_pos hp]; exact ⟨_, rfl, fun _ => rfl, fun h => absurd hp h⟩
  · rw [if_neg hp]
    obtain ⟨b, hb, hiff⟩ := outputsMatch_spec g c i g.outPairs 0 (by have := hg.pairs_tts; omega)
      (by have := hg.pairs_wires; omega)
    have hiff' : b = true ↔ OutputsCorrect g c i := by
      refine hiff.trans ?_
      simp only [Nat.zero_add]; rfl
    rw [hb]
    cases b with
    | false =>
      refine ⟨_, rfl, fun h => absurd h hp, fun _ => .inl ⟨?_, rfl⟩⟩
      intro h; exact absurd (hiff'.2 h) (by simp)
    | true =>
      have hc := hiff'.1 rfl
      by_cases hk : prm.rejectKinks = true
      · simp only [hk, if_true]
        have h1 := (inputKinks_spec c i g.inWires.reverse 0).trans (noKinks_reverse g c i)
        by_cases hi : inputKinks c i 0 g.inWires.reverse = true
        · rw [if_pos hi]
          refine ⟨_, rfl, fun h => absurd h hp, fun _ => .inr (.inl ⟨hc, trivial, ?_, rfl⟩)⟩
          intro hn
          rw [h1.2 hn.1] at hi; exact absurd hi (by simp)
        · rw [if_neg hi]
          have h2 := h1.1 (by simpa using hi)
          obtain ⟨b, hb, hiff⟩ := outputKinks_spec g c i g.outWires 0 (by have := hg.wires_tts; omega)
          simp only [Nat.zero_add] at hiff
          rw [hb]
          cases b with
          | true =>
            refine ⟨_, rfl, fun h => absurd h hp, fun _ => .inr (.inl ⟨hc, trivial, ?_, rfl⟩)⟩
            intro hn
            exact absurd (hiff.2 hn.2) (by simp)
          | false =>
            exact ⟨_, rfl, fun h => absurd h hp, fun _ => .inr (.inr ⟨hc, fun _ => ⟨h2, hiff.1 rfl⟩, rfl⟩)⟩
      · simp only [hk]
        exact ⟨_, rfl, fun h => absurd h hp, fun _ => .inr (.inr ⟨hc, fun h => absurd h (by simp), rfl⟩)⟩

theorem groundLoop_spec {g : Gate α} (hg : g.Ok) (prm : Params) (positive : Bool) (i : Nat)
    (hp : ¬ (prm.base = 2 ∧ positive = true)) : ∀ l : List (Dist α),
    (∃ r, groundLoop g prm positive i l = some r ∧
      (r = none → ∀ c ∈ l, OutputsCorrect g c i ∧ (prm.rejectKinks = true → NoKinks g c i)) ∧
      (∀ x, r = some x → (x = .logicMismatch ∧ ∃ c ∈ l, ¬ OutputsCorrect g c i) ∨
        (x = .kinks ∧ prm.rejectKinks = true ∧ ∃ c ∈ l, OutputsCorrect g c i ∧ ¬ NoKinks g c i)))
  | [] => ⟨none, rfl, by simp, by simp⟩
  | c :: l => by
    obtain ⟨r, hr, _, hc⟩ := verify_spec hg prm positive c i
    obtain ⟨s, hs, i1, i2⟩ := groundLoop_spec hg prm positive i hp l
    unfold groundLoop
    rw [hr]
    rcases hc hp with ⟨h1, rfl⟩ | ⟨h1, h2, h3, rfl⟩ | ⟨h1, h2, rfl⟩
    · exact ⟨_, rfl, by simp, fun x hx => .inl ⟨(Option.some.inj hx).symm, c, .head _, h1⟩⟩
    · simp only [h2, if_true]
      exact ⟨_, rfl, by simp, fun x hx => .inr ⟨(Option.some.inj hx).symm, trivial, c, .head _, h1, h3⟩⟩
    · refine ⟨s, hs, ?_, ?_⟩
      · intro h d hd
        rcases List.mem_cons.1 hd with rfl | hd
        · exact ⟨h1, h2⟩
        · exact i1 h d hd
      · intro x hx
        rcases i2 x hx with ⟨e, d, hd, h⟩ | ⟨e, hk, d, hd, h⟩
        · exact .inl ⟨e, d, .tail _ hd, h⟩
        · exact .inr ⟨e, hk, d, .tail _ hd, h⟩

/-- What a reason says about an input pattern. -/
def Explains (g : Gate α) (prm : Params) (I : Instance α) (i : Nat) : Reason → Prop
  | .positive => prm.base = 2 ∧ I.positive = true
  | .logicMismatch => I.found = false ∨ ∃ c ∈ I.ground, ¬ OutputsCorrect g c i
  | .kinks => prm.rejectKinks = true ∧ ∃ c ∈ I.ground, OutputsCorrect g c i ∧ ¬ NoKinks g c i
  | .none => False

theorem Explains.not_works {g : Gate α} {prm : Params} {I : Instance α} {i : Nat} {r : Reason}
    (h : Explains g prm I i r) : ¬ Works g prm I i := by
  rintro ⟨h1, h2, h3⟩
  cases r with
  | positive => exact h1 h
  | logicMismatch =>
    rcases h with h | ⟨c, hc, h⟩
    · rw [h2] at h; exact absurd h (by simp)
    · exact h (h3 c hc).1
  | kinks =>
    obtain ⟨hk, c, hc, _, h⟩ := h
    exact h ((h3 c hc).2 hk)
  | none => exact h

theorem simulate_spec {g : Gate α} (hg : g.Ok) (prm : Params) (I : Nat → Instance α) : ∀ l : List Nat,
    (simulate g prm I l = some (.operational, .none) ∧ ∀ i ∈ l, Works g prm (I i) i) ∨
    (∃ r i pre post, simulate g prm I l = some (.nonOperational, r) ∧ l = pre ++ i :: post ∧
      (∀ j ∈ pre, Works g prm (I j) j) ∧ Explains g prm (I i) i r)
  | [] => .inl ⟨rfl, by simp⟩
  | i :: l => by
    unfold simulate
    by_cases hp : prm.base = 2 ∧ (I i).positive = true
    · rw [if_pos hp]; exact .inr ⟨_, i, [], l, rfl, rfl, by simp, hp⟩
    · rw [if_neg hp]
      by_cases hf : (I i).found = false
      · rw [if_pos hf]; exact .inr ⟨_, i, [], l, rfl, rfl, by simp, .inl hf⟩
      · rw [if_neg hf]
        obtain ⟨r, hr, h1, h2⟩ := groundLoop_spec hg prm (I i).positive i hp (I i).ground
        rw [hr]
        cases r with
        | some x =>
          refine .inr ⟨x, i, [], l, rfl, rfl, by simp, ?_⟩
          rcases h2 x rfl with ⟨rfl, h⟩ | ⟨rfl, hk, h⟩
          · exact .inr h
          · exact ⟨hk, h⟩
        | none =>
          have hw : Works g prm (I i) i := ⟨hp, by simpa using hf, h1 rfl⟩
          rcases simulate_spec hg prm I l with ⟨e, h⟩ | ⟨r, j, pre, post, e, rfl, h, hx⟩
          · exact .inl ⟨e, by
              intro j hj
              rcases List.mem_cons.1 hj with rfl | hj
              · exact hw
              · exact h j hj⟩
          · refine .inr ⟨r, j, i :: pre, post, e, rfl, ?_, hx⟩
            intro k hk
            rcases List.mem_cons.1 hk with rfl | hk
            · exact hw
            · exact h k hk

/-! ## The filter -/

variable [DecidableEq α]

/-- `c` has the charges of `gs` at the dots satisfying `S`. -/
def AgreeOn (S : α → Prop) (c gs : Dist α) : Prop := ∀ a, S a → c a = gs a

omit [DecidableEq α] in
theorem encodes_setPair {gs : Dist α} {p : Pair α} {d : Dir} {b : Bool} (h : Encodes gs p d b) :
    if (if d = .north ∨ d = .west then !b else b) = true then gs p.upper = .neu ∧ gs p.lower = .neg
    else gs p.upper = .neg ∧ gs p.lower = .neu := by
  unfold Encodes at h
  cases d <;> cases b <;> simpa using h

theorem setPair_agree {gs : Dist α} {p : Pair α} {d : Dir} {b : Bool} (h : Encodes gs p d b) (c : Dist α) (a : α)
    (up : Bool) (hup : up = if d = .north ∨ d = .west then !b else b) :
    (a = p.upper ∨ a = p.lower → setPair up c p a = gs a) ∧ (a ≠ p.upper → a ≠ p.lower → setPair up c p a = c a) := by
  have h' := encodes_setPair h
  rw [← hup] at h'
  have hne : p.upper ≠ p.lower := fun e => encodes_ne h (by rw [e])
  unfold setPair assign
  cases up <;> simp only [Bool.false_eq_true, if_false, if_true] at h' ⊢ <;> constructor <;> grind

/-- Assignments that follow the charges of `gs` at the pairs `ps`, and leave all other dots alone. -/
theorem foldl_agree {gs : Dist α} (f : Dist α → Pair α → Dist α) (use : Pair α → Prop) : ∀ (ps : List (Pair α)),
    (∀ p ∈ ps, use p → ∀ c a, (a = p.upper ∨ a = p.lower → f c p a = gs a) ∧
      (a ≠ p.upper → a ≠ p.lower → f c p a = c a)) →
    (∀ p ∈ ps, ¬ use p → ∀ c, f c p = c) → ∀ (c : Dist α) (a : α),
    ((c a = gs a → ps.foldl f c a = gs a) ∧
      ((∃ p ∈ ps, use p ∧ (a = p.upper ∨ a = p.lower)) → ps.foldl f c a = gs a) ∧
      ((∀ p ∈ ps, use p → a ≠ p.upper ∧ a ≠ p.lower) → ps.foldl f c a = c a))
  | [], _, _, c, a => by simp
  | p :: ps, h1, h2, c, a => by
    have ih := foldl_agree f use ps (fun q hq => h1 q (.tail _ hq)) (fun q hq => h2 q (.tail _ hq)) (f c p) a
    simp only [List.foldl_cons]
    by_cases hu : use p
    · have hf := h1 p (.head _) hu c a
      have keep : c a = gs a → f c p a = gs a := by
        intro hc
        by_cases ha : a = p.upper ∨ a = p.lower
        · exact hf.1 ha
        · rw [not_or] at ha; rw [hf.2 ha.1 ha.2]; exact hc
      refine ⟨fun hc => ih.1 (keep hc), ?_, ?_⟩
      · rintro ⟨q, hq, hqu, hqa⟩
        rcases List.mem_cons.1 hq with rfl | hq
        · exact ih.1 (hf.1 hqa)
        · exact ih.2.1 ⟨q, hq, hqu, hqa⟩
      · intro hn
        rw [ih.2.2 fun q hq => hn q (.tail _ hq)]
        have := hn p (.head _) hu
        exact hf.2 this.1 this.2
    · have hf := h2 p (.head _) hu c
      rw [hf] at ih ⊢
      refine ⟨ih.1, ?_, fun hn => ih.2.2 fun q hq => hn q (.tail _ hq)⟩
      rintro ⟨q, hq, hqu, hqa⟩
      rcases List.mem_cons.1 hq with rfl | hq
      · exact absurd hqu hu
      · exact ih.2.1 ⟨q, hq, hqu, hqa⟩

theorem setInputWires_agree {gs : Dist α} (i : Nat) : ∀ (l : List (Wire α)) (k : Nat),
    (∀ w ∈ l, ∀ p ∈ w.pairs, p.type ≠ .input → w.dir ≠ .none) →
    (∀ (j : Nat) w, l[j]? = some w → ∀ p ∈ w.pairs, p.type ≠ .input → Encodes gs p w.dir (i.testBit (k + j))) →
    ∀ (c : Dist α) (a : α),
    (c a = gs a → setInputWires i k l c a = gs a) ∧
    ((∃ w ∈ l, ∃ p ∈ w.pairs, p.type ≠ .input ∧ (a = p.upper ∨ a = p.lower)) → setInputWires i k l c a = gs a) ∧
    ((∀ w ∈ l, ∀ p ∈ w.pairs, p.type ≠ .input → a ≠ p.upper ∧ a ≠ p.lower) → setInputWires i k l c a = c a)
  | [], _, _, _, c, a => by simp [setInputWires]
  | w :: l, k, hd, he, c, a => by
    have ih := setInputWires_agree (gs := gs) i l (k + 1) (fun v hv => hd v (.tail _ hv))
      (fun j v hv p hp ht => by
        have := he (j + 1) v (by rwa [List.getElem?_cons_succ]) p hp ht
        rwa [show k + (j + 1) = k + 1 + j by omega] at this) (setInputWire (i.testBit k) c w) a
    have hw := foldl_agree (gs := gs) (fun c p => if p.type = .input then c
        else if w.dir = .south ∨ w.dir = .east then setPair (i.testBit k) c p else setPair (!(i.testBit k)) c p)
      (fun p => p.type ≠ .input) w.pairs
      (fun p hp ht c a => by
        have h1 := he 0 w rfl p hp ht
        have h2 := hd w (.head _) p hp ht
        simp only [if_neg ht]
        rw [Nat.add_zero] at h1
        by_cases hs : w.dir = .south ∨ w.dir = .east
        · rw [if_pos hs]
          exact setPair_agree h1 c a _ (by rcases hs with h | h <;> rw [h] <;> simp)
        · rw [if_neg hs]
          exact setPair_agree h1 c a _ (by
            cases hdir : w.dir <;> simp_all))
      (fun p hp ht c => by simp only [not_not] at ht; simp only [if_pos ht]) c a
    have e : setInputWires i k (w :: l) c = setInputWires i (k + 1) l (setInputWire (i.testBit k) c w) := rfl
    rw [e]
    refine ⟨fun hc => ih.1 (hw.1 hc), ?_, ?_⟩
    · rintro ⟨v, hv, p, hp, ht, ha⟩
      rcases List.mem_cons.1 hv with rfl | hv
      · exact ih.1 (hw.2.1 ⟨p, hp, ht, ha⟩)
      · exact ih.2.1 ⟨v, hv, p, hp, ht, ha⟩
    · intro hn
      rw [ih.2.2 fun v hv => hn v (.tail _ hv)]
      exact hw.2.2 fun p hp ht => hn w (.head _) p hp ht

theorem setOutputWires_agree {gs : Dist α} (o : Nat) : ∀ (l : List (Wire α)) (k : Nat),
    (∀ w ∈ l, ∀ p ∈ w.pairs, p.type ≠ .input) →
    (∀ (j : Nat) w, l[j]? = some w → ∀ p ∈ w.pairs, Encodes gs p w.dir (o.testBit (k + j))) →
    ∀ (c : Dist α) (a : α),
    (c a = gs a → setOutputWires o k l c a = gs a) ∧
    ((∃ w ∈ l, ∃ p ∈ w.pairs, a = p.upper ∨ a = p.lower) → setOutputWires o k l c a = gs a) ∧
    ((∀ w ∈ l, ∀ p ∈ w.pairs, a ≠ p.upper ∧ a ≠ p.lower) → setOutputWires o k l c a = c a)
  | [], _, _, _, c, a => by simp [setOutputWires]
  | w :: l, k, hd, he, c, a => by
    have ih := setOutputWires_agree (gs := gs) o l (k + 1) (fun v hv => hd v (.tail _ hv))
      (fun j v hv p hp => by
        have := he (j + 1) v (by rwa [List.getElem?_cons_succ]) p hp
        rwa [show k + (j + 1) = k + 1 + j by omega] at this) (setOutputWire (o.testBit k) c w) a
    have hw := foldl_agree (gs := gs) (fun c p => if w.dir = .south ∨ w.dir = .east then setPair (o.testBit k) c p
        else if o.testBit k = true ∧ p.type = .input then c
        else if w.dir = .none then setPair (o.testBit k) c p
        else setPair (!(o.testBit k)) c p)
      (fun _ => True) w.pairs
      (fun p hp _ c a => by
        have h1 := he 0 w rfl p hp
        have h2 := hd w (.head _) p hp
        rw [Nat.add_zero] at h1
        simp only [h2, and_false, if_false]
        by_cases hs : w.dir = .south ∨ w.dir = .east
        · rw [if_pos hs]
          exact setPair_agree h1 c a _ (by rcases hs with h | h <;> rw [h] <;> simp)
        · rw [if_neg hs]
          by_cases hn : w.dir = .none
          · rw [if_pos hn]; exact setPair_agree h1 c a _ (by rw [hn]; simp)
          · rw [if_neg hn]
            exact setPair_agree h1 c a _ (by cases hdir : w.dir <;> simp_all))
      (fun p hp ht c => absurd trivial ht) c a
    have e : setOutputWires o k (w :: l) c = setOutputWires o (k + 1) l (setOutputWire (o.testBit k) c w) := rfl
    rw [e]
    refine ⟨fun hc => ih.1 (hw.1 hc), ?_, ?_⟩
    · rintro ⟨v, hv, p, hp, ha⟩
      rcases List.mem_cons.1 hv with rfl | hv
      · exact ih.1 (hw.2.1 ⟨p, hp, trivial, ha⟩)
      · exact ih.2.1 ⟨v, hv, p, hp, ha⟩
    · intro hn
      rw [ih.2.2 fun v hv => hn v (.tail _ hv)]
      exact hw.2.2 fun p hp _ => hn w (.head _) p hp

omit [DecidableEq α] in
theorem testBit_evaluateOutput (i : Nat) : ∀ (l : List (Nat → Bool)) (k : Nat) (t : Nat → Bool), l[k]? = some t →
    (evaluateOutput i l).testBit k = t i
  | t :: l, 0, s, h => by
    obtain rfl := Option.some.inj h
    simp only [evaluateOutput, Nat.testBit_zero]
    cases t i <;> simp <;> omega
  | t :: l, k + 1, s, h => by
    rw [List.getElem?_cons_succ] at h
    have ih := testBit_evaluateOutput i l k s h
    rw [Nat.testBit_succ, ← ih]
    congr 1
    simp only [evaluateOutput]
    split <;> omega

theorem allCharges_mem : ∀ (l : List α) (c gs : Dist α), (∀ a ∈ l, gs a ≠ .pos) →
    ∃ c' ∈ allCharges l c, (∀ a ∈ l, c' a = gs a) ∧ (∀ a, a ∉ l → c' a = c a)
  | [], c, gs, _ => ⟨c, by simp [allCharges], by simp, by simp⟩
  | a :: l, c, gs, h => by
    have hl : ∀ b ∈ l, gs b ≠ .pos := fun b hb => h b (.tail _ hb)
    have ha := h a (.head _)
    obtain ⟨c', hm, h1, h2⟩ := allCharges_mem l (assign c a (gs a)) gs hl
    refine ⟨c', ?_, ?_, ?_⟩
    · simp only [allCharges, List.mem_append]
      cases hq : gs a
      · rw [hq] at hm; exact .inl hm
      · rw [hq] at hm; exact .inr hm
      · exact absurd hq ha
    · intro b hb
      by_cases hbl : b ∈ l
      · exact h1 b hbl
      · rcases List.mem_cons.1 hb with rfl | hb
        · rw [h2 b hbl]; simp [assign]
        · exact absurd hb hbl
    · intro b hb
      rw [List.mem_cons, not_or] at hb
      rw [h2 b hb.2]; simp [assign, hb.1]

omit [DecidableEq α] in
theorem foldl_lower (eps : Rat) (heps : 0 ≤ eps) : ∀ (l : List Rat) (best : Option Rat),
    (∀ m, l.foldl (lower eps) best = some m → (some m = best ∨ m ∈ l)) ∧
    (∀ b, best = some b → ∃ m, l.foldl (lower eps) best = some m ∧ m ≤ b) ∧
    (∀ e ∈ l, ∃ m, l.foldl (lower eps) best = some m ∧ m ≤ e + eps)
  | [], best => by
    refine ⟨fun m h => .inl h.symm, fun b h => ⟨b, h, le_refl _⟩, by simp⟩
  | e :: l, best => by
    obtain ⟨i1, i2, i3⟩ := foldl_lower eps heps l (lower eps best e)
    simp only [List.foldl_cons]
    have hlow : ∃ m, lower eps best e = some m ∧ m ≤ e + eps ∧ (∀ b, best = some b → m ≤ b) ∧
        (m = e ∨ best = some m) := by
      unfold lower
      cases best with
      | none => exact ⟨e, rfl, by linarith, by simp, .inl rfl⟩
      | some b =>
        by_cases h : e + eps < b
        · refine ⟨e, by simp [h], by linarith, ?_, .inl rfl⟩
          intro b' hb; obtain rfl := Option.some.inj hb; linarith
        · refine ⟨b, by simp [h], by linarith, ?_, .inr rfl⟩
          intro b' hb; obtain rfl := Option.some.inj hb; exact le_refl _
    obtain ⟨m, hm, h1, h2, h3⟩ := hlow
    obtain ⟨m', hm', hle⟩ := i2 m hm
    refine ⟨?_, ?_, ?_⟩
    · intro x hx
      rcases i1 x hx with h | h
      · rw [hm] at h; obtain rfl := Option.some.inj h
        rcases h3 with rfl | h3
        · exact .inr (.head _)
        · exact .inl h3.symm
      · exact .inr (.tail _ h)
    · intro b hb; exact ⟨m', hm', le_trans hle (h2 b hb)⟩
    · intro x hx
      rcases List.mem_cons.1 hx with rfl | hx
      · exact ⟨m', hm', le_trans hle h1⟩
      · exact i3 x hx

/-- Where the layout works, the filter does not reject it. -/
theorem layoutInvalid_false {g : Gate α} (hw : g.WiresOk) (hcanvas : g.canvas ≠ []) {prm : Params} {I : Instance α}
    {i : Nat} {cells : List α} (hk : prm.rejectKinks = true) (heps : 0 ≤ prm.eps) (hf : FilterConditions g I cells)
    (h : Works g prm I i) : layoutInvalid g prm I i = false := by
  obtain ⟨hp, hfound, hgs⟩ := h
  obtain ⟨gs, hgm, hv, hmin, hpos, hneg, hdep⟩ := hf.exact hfound
  obtain ⟨_, hnk⟩ := hgs gs hgm
  have hnk := hnk hk
  obtain ⟨d, l, hcl⟩ := List.exists_cons_of_ne_nil hcanvas
  -- the assignments agree with the ground state on the wires
  have hin := setInputWires_agree (gs := gs) i g.inWires.reverse 0
    (fun w hw' => hw.directed w (List.mem_reverse.1 hw')) ((noKinks_reverse g gs i).2 hnk.1) (fun _ => .neg)
  have hout := setOutputWires_agree (gs := gs) (evaluateOutput i g.tts) g.outWires 0 hw.noInput
    (fun j w hw' p hp => by
      have hj : j < g.outWires.length := (List.getElem?_eq_some_iff.1 hw').1
      obtain ⟨t, ht⟩ : ∃ t, g.tts[j]? = some t := ⟨g.tts[j]'(by rw [hw.tables]; exact hj), List.getElem?_eq_getElem _⟩
      rw [Nat.zero_add, testBit_evaluateOutput i g.tts j _ ht]
      exact hnk.2 j w _ hw' ht p hp)
    (setInputWires i 0 g.inWires.reverse fun _ => .neg)
  have hpins : ∀ a ∈ cells, a ∉ g.canvas → pins g i (evaluateOutput i g.tts) a = gs a := by
    intro a ha hac
    unfold pins
    by_cases h1 : ∃ w ∈ g.outWires, ∃ p ∈ w.pairs, a = p.upper ∨ a = p.lower
    · exact (hout a).2.1 h1
    · by_cases h2 : ∃ w ∈ g.inWires.reverse, ∃ p ∈ w.pairs, p.type ≠ .input ∧ (a = p.upper ∨ a = p.lower)
      · exact (hout a).1 ((hin a).2.1 h2)
      · rw [(hout a).2.2 (by
            intro w hw p hp
            refine ⟨fun e => h1 ⟨w, hw, p, hp, .inl e⟩, fun e => h1 ⟨w, hw, p, hp, .inr e⟩⟩)]
        rw [(hin a).2.2 (by
            intro w hw p hp ht
            refine ⟨fun e => h2 ⟨w, hw, p, hp, ht, .inl e⟩, fun e => h2 ⟨w, hw, p, hp, ht, .inr e⟩⟩)]
        refine (hneg a ha hac ?_).symm
        rintro (⟨w, hw, p, hp, ht, he⟩ | hh)
        · exact h2 ⟨w, List.mem_reverse.2 hw, p, hp, ht, he⟩
        · exact h1 hh
  -- so the ground state is among the enumerated charge distributions
  obtain ⟨m, hm, hle⟩ : ∃ m, feasible g I prm.eps (pins g i (evaluateOutput i g.tts)) = some m ∧ m ≤ I.energy gs + prm.eps := by
    classical
    obtain ⟨c', hc', h1, h2⟩ := allCharges_mem l (assign (pins g i (evaluateOutput i g.tts)) d .neg)
      (fun a => if a ∈ cells then gs a else .neg) (by
        intro a ha
        by_cases hac : a ∈ cells
        · simp only [hac, if_true]; exact hpos a hac (by rw [hcl]; exact .tail _ ha)
        · simp [hac])
    have hag : ∀ a ∈ cells, a ≠ d → c' a = gs a := by
      intro a ha had
      by_cases hal : a ∈ l
      · rw [h1 a hal, if_pos ha]
      · rw [h2 a hal]
        simp only [assign, if_neg had]
        exact hpins a ha (by rw [hcl, List.mem_cons, not_or]; exact ⟨had, hal⟩)
    have hd' := hdep d (by rw [hcl]; rfl) c' hag
    have hval : I.valid (I.dependent c') = true := by rw [hf.local_valid _ gs hd']; exact hv
    have hen : I.energy (I.dependent c') = I.energy gs := hf.local_energy _ gs hd'
    have := (foldl_lower prm.eps heps ((((allCharges l (assign (pins g i (evaluateOutput i g.tts)) d .neg)).map
      I.dependent).filter I.valid).map I.energy) none).2.2 (I.energy gs)
      (List.mem_map.2 ⟨I.dependent c', List.mem_filter.2 ⟨List.mem_map.2 ⟨c', hc', rfl⟩, hval⟩, hen⟩)
    unfold feasible
    rw [hcl]; exact this
  unfold layoutInvalid
  rw [if_neg hp, hm]
  simp only
  unfold unstable
  rw [List.any_eq_false]
  intro i' _
  rw [Bool.not_eq_true, List.any_eq_false]
  intro o' _
  by_cases he : o' = evaluateOutput i g.tts ∧ i' = i
  · rw [if_pos he]; simp
  · rw [if_neg he]
    cases hfe : feasible g I prm.eps (pins g i' o') with
    | none => simp
    | some e' =>
      simp only [decide_eq_true_eq, not_lt]
      unfold feasible at hfe
      rw [hcl] at hfe
      rcases (foldl_lower prm.eps heps _ none).1 e' hfe with h | h
      · simp at h
      · obtain ⟨c, hc, rfl⟩ := List.mem_map.1 h
        have := hmin c (List.mem_filter.1 hc).2
        linarith

end Verif.SidbAnalysis.Operational
