import Verif.Networks.TechLibrary
import Mathlib.Data.List.Basic

/-!
# C113: the library for technology mapping

## Specification
-/
namespace Verif.TechLibrary

/-- The functions of gates with two inputs; `lt2` and others compare with false less than true. -/
def Two.meaning (a b : Bool) : Two → Bool
  | .and2 => decide (a = true ∧ b = true)
  | .nand2 => decide (¬(a = true ∧ b = true))
  | .or2 => decide (a = true ∨ b = true)
  | .nor2 => decide (¬(a = true ∨ b = true))
  | .xor2 => decide (a ≠ b)
  | .xnor2 => decide (a = b)
  | .lt2 => decide (a.toNat < b.toNat)
  | .gt2 => decide (a.toNat > b.toNat)
  | .le2 => decide (a.toNat ≤ b.toNat)
  | .ge2 => decide (a.toNat ≥ b.toNat)

/-- The functions of gates with three inputs. -/
def Three.meaning (a b c : Bool) : Three → Bool
  | .and3 => decide (a.toNat + b.toNat + c.toNat = 3)
  | .xorAnd => decide (a = true ∧ b ≠ c)
  | .orAnd => decide (a = true ∧ (b = true ∨ c = true))
  | .onehot => decide (a.toNat + b.toNat + c.toNat = 1)
  | .maj3 => decide (2 ≤ a.toNat + b.toNat + c.toNat)
  | .gamble => decide (a = b ∧ b = c)
  | .dot => decide (a ≠ decide (c = true ∨ (a = true ∧ b = true)))
  | .mux => if c then b else a
  | .andXor => decide (a ≠ decide (b = true ∧ c = true))

/-- What an input of a gate with three inputs is connected to: a constant or one of two other signals. -/
inductive Source
  | const (v : Bool) | x | y
  deriving DecidableEq

/-- The value of a source. -/
def Source.val (x y : Bool) : Source → Bool
  | .const v => v
  | .x => x
  | .y => y

/-- The source is a constant. -/
def Source.IsConst (s : Source) : Prop := s = .const false ∨ s = .const true

instance (s : Source) : Decidable s.IsConst := by unfold Source.IsConst; infer_instance

/-- A function of at most two inputs is what a gate with three inputs computes if at least one of its inputs is constant. -/
def Implements (g : Three) (f : Bool → Bool → Bool → Bool) : Prop := ∃ s t u : Source,
  (s.IsConst ∨ t.IsConst ∨ u.IsConst) ∧ ∀ x y z, g.meaning (s.val x y) (t.val x y) (u.val x y) = f x y z

/-- A gate is one of the selected ones: a constant, a buffer, a selected gate, or a selected gate with three inputs of which at least one is
constant. -/
def Allowed (p : Params) (e : Gate) : Prop :=
  (∃ v, ∀ a b c, e.fn a b c = v) ∨ (∀ a b c, e.fn a b c = a) ∨ (p.inv = true ∧ ∀ a b c, e.fn a b c = !a) ∨
  (∃ g, p.two g = true ∧ ∀ a b c, e.fn a b c = g.meaning a b) ∨
  (∃ g, p.three g = true ∧ p.decay = false ∧ ∀ a b c, e.fn a b c = g.meaning a b c) ∨
  ∃ g, p.three g = true ∧ Implements g e.fn

/-- What a gate with three inputs computes if one of them is constant. -/
def cofactors (g : Three) (v : Bool) : List (Bool → Bool → Bool) :=
  [fun x y => g.meaning v x y, fun x y => g.meaning x v y, fun x y => g.meaning x y v]

/-! ## Lemmas -/

/-- All sources. -/
def sources : List Source := [.const false, .const true, .x, .y]

theorem mem_sources (s : Source) : s ∈ sources := by
  cases s with
  | const v => cases v <;> decide
  | x => decide
  | y => decide

instance (g : Three) (f : Bool → Bool → Bool → Bool) : Decidable (Implements g f) :=
  decidable_of_iff (∃ s ∈ sources, ∃ t ∈ sources, ∃ u ∈ sources, (s.IsConst ∨ t.IsConst ∨ u.IsConst) ∧
      ∀ x y z, g.meaning (s.val x y) (t.val x y) (u.val x y) = f x y z)
    ⟨fun ⟨s, _, t, _, u, _, h⟩ => ⟨s, t, u, h⟩,
      fun ⟨s, t, u, h⟩ => ⟨s, mem_sources s, t, mem_sources t, u, mem_sources u, h⟩⟩

theorem two_meaning (g : Two) (a b c : Bool) : g.gate.fn a b c = g.meaning a b := by
  cases g <;> cases a <;> cases b <;> rfl

theorem three_meaning (g : Three) (a b c : Bool) : g.gate.fn a b c = g.meaning a b c := by
  cases g <;> cases a <;> cases b <;> cases c <;> rfl

theorem three_arity (g : Three) : ∀ e ∈ g.decay, e.arity ≤ 2 := by
  cases g <;> decide +kernel

/-! ## Theorems -/

/-- C113. Each gate with two or three inputs has the function of its name. -/
theorem C113_functions : (∀ (g : Two) (a b c : Bool), g.gate.fn a b c = g.meaning a b) ∧
    ∀ (g : Three) (a b c : Bool), g.gate.fn a b c = g.meaning a b c := ⟨two_meaning, three_meaning⟩

/-- C113. What is listed for a gate with three inputs is what it computes if at least one of them is constant. Missing: and-xor, for which this
is false, see C113_false_and_xor. -/
theorem C113_decay_partial (g : Three) (hg : g ≠ .andXor) : ∀ e ∈ g.decay, Implements g e.fn := by
  cases g <;> first | exact absurd rfl hg | decide +kernel

/-- C113. If one of its inputs is constant, a gate with three inputs computes a constant or a function that is listed for it, with its inputs in
some order. Missing: and-xor, for which this is false, see C113_false_and_xor. -/
theorem C113_decay_complete_partial (g : Three) (hg : g ≠ .andXor) (v : Bool) : ∀ h ∈ cofactors g v,
    (∃ w : Bool, ∀ x y, h x y = w) ∨
      ∃ e ∈ g.decay, ∃ s ∈ [Source.x, .y], ∃ t ∈ [Source.x, .y], ∀ x y z, h x y = e.fn (s.val x y) (t.val x y) z := by
  cases g <;> first | exact absurd rfl hg | (cases v <;> decide +kernel)

/-- C113. For and-xor a function is listed that it does not compute with constant inputs, and one that it computes is not listed. -/
theorem C113_false_and_xor : (∃ e ∈ Three.decay .andXor, ¬ Implements .andXor e.fn) ∧ ∃ h ∈ cofactors .andXor true,
    ¬ ((∃ w : Bool, ∀ x y, h x y = w) ∨
      ∃ e ∈ Three.decay .andXor, ∃ s ∈ [Source.x, .y], ∃ t ∈ [Source.x, .y], ∀ x y z, h x y = e.fn (s.val x y) (t.val x y) z) := by
  decide +kernel

/-- C113. The library consists of selected gates; of those with three inputs only if constant inputs are not enforced. Missing: and-xor. -/
theorem C113_library_partial (p : Params) (hp : p.three .andXor = false) : ∀ e ∈ p.library, Allowed p e ∧
    (p.decay = true → e.arity ≤ 2) := by
  intro e he
  unfold Params.library at he
  rcases List.mem_append.1 he with he | he
  · rcases List.mem_append.1 he with he | he
    · rcases List.mem_append.1 he with he | he
      · simp only [always, List.mem_cons, List.not_mem_nil, or_false] at he
        rcases he with rfl | rfl | rfl
        · exact ⟨Or.inl ⟨false, fun _ _ _ => rfl⟩, fun _ => by decide⟩
        · exact ⟨Or.inl ⟨true, fun _ _ _ => rfl⟩, fun _ => by decide⟩
        · exact ⟨Or.inr (Or.inl fun _ _ _ => rfl), fun _ => by decide⟩
      · by_cases hi : p.inv = true
        · rw [if_pos hi, List.mem_singleton] at he
          subst he
          exact ⟨Or.inr (Or.inr (Or.inl ⟨hi, fun _ _ _ => rfl⟩)), fun _ => by decide⟩
        · rw [if_neg hi] at he
          cases he
    · obtain ⟨g, hg, rfl⟩ := List.mem_map.1 he
      refine ⟨Or.inr (Or.inr (Or.inr (Or.inl ⟨g, (List.mem_filter.1 hg).2, two_meaning g⟩))), fun _ => ?_⟩
      cases g <;> decide
  · obtain ⟨g, hg, he⟩ := List.mem_flatMap.1 he
    have hs := (List.mem_filter.1 hg).2
    rcases List.mem_append.1 he with he | he
    · cases hd : p.decay with
      | true => rw [hd, if_pos rfl] at he; cases he
      | false =>
        rw [hd, if_neg (by decide), List.mem_singleton] at he
        subst he
        exact ⟨Or.inr (Or.inr (Or.inr (Or.inr (Or.inl ⟨g, hs, hd, three_meaning g⟩)))), fun h => by cases h⟩
    · refine ⟨Or.inr (Or.inr (Or.inr (Or.inr (Or.inr ⟨g, hs, C113_decay_partial g ?_ e he⟩)))), fun _ => three_arity g e he⟩
      intro h
      rw [h, hp] at hs
      cases hs

/-- C113. Each selected gate is part of the library, unless it has three inputs and constant inputs are enforced. -/
theorem C113_selected (p : Params) : (p.inv = true → ∃ e ∈ p.library, ∀ a b c, e.fn a b c = !a) ∧
    (∀ g, p.two g = true → ∃ e ∈ p.library, ∀ a b c, e.fn a b c = g.meaning a b) ∧
    ∀ g, p.three g = true → p.decay = false → ∃ e ∈ p.library, ∀ a b c, e.fn a b c = g.meaning a b c := by
  unfold Params.library
  refine ⟨fun h => ⟨⟨1, fun a _ _ => !a⟩, ?_, fun _ _ _ => rfl⟩, fun g h => ⟨g.gate, ?_, two_meaning g⟩,
    fun g h hd => ⟨g.gate, ?_, three_meaning g⟩⟩
  · refine List.mem_append_left _ (List.mem_append_left _ (List.mem_append_right _ ?_))
    rw [if_pos h]
    exact List.mem_singleton_self _
  · refine List.mem_append_left _ (List.mem_append_right _ (List.mem_map_of_mem (List.mem_filter.2 ⟨?_, h⟩)))
    cases g <;> decide
  · refine List.mem_append_right _ (List.mem_flatMap.2 ⟨g, List.mem_filter.2 ⟨?_, h⟩, List.mem_append_left _ ?_⟩)
    · cases g <;> decide
    · rw [hd, if_neg (by decide)]
      exact List.mem_singleton_self _

/-- C113. If the required gates are accepted, the library has an inverter and the gate of the network type. Missing: majority gates of which an
input is to be constant, see C113_false_mig. -/
theorem C113_required_partial (p : Params) (hd : p.decay = false) :
    (p.validate .aig = true → (∃ e ∈ p.library, ∀ a b c, e.fn a b c = !a) ∧ ∃ e ∈ p.library, ∀ a b c, e.fn a b c = (a && b)) ∧
    (p.validate .xag = true → (∃ e ∈ p.library, ∀ a b c, e.fn a b c = !a) ∧ (∃ e ∈ p.library, ∀ a b c, e.fn a b c = (a && b)) ∧
      ∃ e ∈ p.library, ∀ a b c, e.fn a b c = (a ^^ b)) ∧
    (p.validate .mig = true → (∃ e ∈ p.library, ∀ a b c, e.fn a b c = !a) ∧
      ∃ e ∈ p.library, ∀ a b c, e.fn a b c = decide (2 ≤ a.toNat + b.toNat + c.toNat)) := by
  obtain ⟨h1, h2, h3⟩ := C113_selected p
  have hand : p.two .and2 = true → ∃ e ∈ p.library, ∀ a b c, e.fn a b c = (a && b) := by
    intro h
    obtain ⟨e, he, hf⟩ := h2 .and2 h
    exact ⟨e, he, fun a b c => by rw [hf]; cases a <;> cases b <;> rfl⟩
  have hxor : p.two .xor2 = true → ∃ e ∈ p.library, ∀ a b c, e.fn a b c = (a ^^ b) := by
    intro h
    obtain ⟨e, he, hf⟩ := h2 .xor2 h
    exact ⟨e, he, fun a b c => by rw [hf]; cases a <;> cases b <;> rfl⟩
  refine ⟨fun h => ?_, fun h => ?_, fun h => ?_⟩
  · simp only [Params.validate, Bool.and_eq_true] at h
    exact ⟨h1 h.1, hand h.2⟩
  · simp only [Params.validate, Bool.and_eq_true] at h
    exact ⟨h1 h.1.1, hand h.1.2, hxor h.2⟩
  · simp only [Params.validate, Bool.and_eq_true] at h
    exact ⟨h1 h.1, h3 .maj3 h.2 hd⟩

/-- C113. If constant inputs are enforced, parameters are accepted for MIGs although the library has no majority gate. -/
theorem C113_false_mig : ∃ p : Params, p.validate .mig = true ∧
    ¬ ∃ e ∈ p.library, ∀ a b c, e.fn a b c = decide (2 ≤ a.toNat + b.toNat + c.toNat) :=
  ⟨⟨true, fun _ => true, fun g => decide (g = .maj3), true⟩, by decide +kernel, by decide +kernel⟩

/-! ## Examples -/

/-- AND, OR, inverters and majority gates. -/
def sample : Params := ⟨true, fun g => decide (g = .and2 ∨ g = .or2), fun g => decide (g = .maj3), false⟩

example : sample.library.map Gate.arity = [0, 0, 1, 1, 2, 2, 3, 2, 2] := by decide +kernel

example : sample.three .andXor = false ∧ sample.decay = false ∧ sample.validate .aig = true ∧ sample.validate .mig = true ∧
    sample.validate .xag = false := by decide +kernel

end Verif.TechLibrary
