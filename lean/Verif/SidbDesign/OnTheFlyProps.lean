import Verif.SidbDesign.OnTheFly
import Mathlib.Data.List.Perm.Subperm
import Mathlib.Data.List.Nodup

/-!
# C106: on-the-fly circuit design

## Specification
-/
namespace Verif.OnTheFly

variable {E G C : Type}

/-- The contracts of the tools: each gate-level layout consists of finitely many possible entries and uses no entry of the
blacklist, and a gate whose design fails is one of the layout. -/
structure Contract (T : Tools E G C) (entries : List E) (gates : G → List E) : Prop where
  honours : ∀ b g, T.exact b = some g → ∀ e ∈ gates g, e ∉ b
  possible : ∀ b g, T.exact b = some g → ∀ e ∈ gates g, e ∈ entries
  blames : ∀ g e, T.design g = .gateFailed e → e ∈ gates g

/-- Blacklists that the algorithm may justify: the first one with entries of gates whose design failed. -/
def Justified (T : Tools E G C) (b0 b : List E) : Prop :=
  (∀ e ∈ b0, e ∈ b) ∧ ∀ e ∈ b, e ∈ b0 ∨ ∃ g, T.design g = .gateFailed e

/-! ## Lemmas -/

theorem justified_step {T : Tools E G C} {b0 b : List E} (h : Justified T b0 b) {g : G} {e : E}
    (hd : T.design g = .gateFailed e) : Justified T b0 (b ++ [e]) := by
  refine ⟨fun x hx => List.mem_append_left _ (h.1 x hx), fun x hx => ?_⟩
  rcases List.mem_append.1 hx with hx | hx
  · exact h.2 x hx
  · rw [List.mem_singleton] at hx
    exact Or.inr ⟨g, hx ▸ hd⟩

theorem loop_spec (T : Tools E G C) (b0 : List E) : ∀ (fuel : Nat) (b : List E) (r : Result G C), Justified T b0 b →
    T.loop fuel b = some r → ∃ b', Justified T b0 b' ∧
      match r with
      | .returned g c => T.exact b' = some g ∧ (T.design g = .cells c ∨
          (c = T.empty ∧ (T.design g = .unsupported ∨ T.design g = .unexpected)))
      | .impossible => T.exact b' = none
  | 0, _, _, _, h => by cases h
  | fuel + 1, b, r, hj, h => by
    rw [Tools.loop] at h
    cases hx : T.exact b with
    | none =>
      rw [hx] at h
      cases h
      exact ⟨b, hj, hx⟩
    | some g =>
      rw [hx] at h
      dsimp only at h
      cases hd : T.design g with
      | cells c => rw [hd] at h; cases h; exact ⟨b, hj, hx, Or.inl hd⟩
      | gateFailed e => rw [hd] at h; exact loop_spec T b0 fuel _ r (justified_step hj hd) h
      | unsupported => rw [hd] at h; cases h; exact ⟨b, hj, hx, Or.inr ⟨rfl, Or.inl hd⟩⟩
      | unexpected => rw [hd] at h; cases h; exact ⟨b, hj, hx, Or.inr ⟨rfl, Or.inr hd⟩⟩

theorem loop_ends {T : Tools E G C} {entries : List E} {gates : G → List E} (hc : Contract T entries gates) :
    ∀ (fuel : Nat) (b done : List E), done.Nodup → (∀ e ∈ done, e ∈ b) → (∀ e ∈ done, e ∈ entries) →
      entries.length < fuel + done.length → ∃ r, T.loop fuel b = some r
  | 0, b, done, hn, hb, he, hl => by
    have := (List.subperm_of_subset hn he).length_le
    omega
  | fuel + 1, b, done, hn, hb, he, hl => by
    rw [Tools.loop]
    cases hx : T.exact b with
    | none => exact ⟨_, rfl⟩
    | some g =>
      dsimp only
      cases hd : T.design g with
      | cells c => exact ⟨_, rfl⟩
      | unsupported => exact ⟨_, rfl⟩
      | unexpected => exact ⟨_, rfl⟩
      | gateFailed e =>
        have hg := hc.blames g e hd
        refine loop_ends hc fuel (b ++ [e]) (e :: done) ?_ ?_ ?_ ?_
        · exact List.nodup_cons.2 ⟨fun h => hc.honours b g hx e hg (hb e h), hn⟩
        · intro x hx'
          rcases List.mem_cons.1 hx' with rfl | hx'
          · simp
          · exact List.mem_append_left _ (hb x hx')
        · intro x hx'
          rcases List.mem_cons.1 hx' with rfl | hx'
          · exact hc.possible b g hx x hg
          · exact he x hx'
        · rw [List.length_cons]
          omega

/-! ## Theorems -/

/-- C106. The algorithm ends: it places and routes at most once more than there are possible entries. -/
theorem C106_ends (T : Tools E G C) (entries : List E) (gates : G → List E) (hc : Contract T entries gates) (b0 : List E) :
    ∃ r, T.loop (entries.length + 1) b0 = some r :=
  loop_ends hc _ b0 [] List.nodup_nil (by simp) (by simp) (by simp)

/-- C106. If the algorithm gives up, placement and routing fails for a blacklist that extends the first one only by gates whose
design failed. -/
theorem C106_impossible (T : Tools E G C) (fuel : Nat) (b0 : List E) (h : T.loop fuel b0 = some .impossible) :
    ∃ b, Justified T b0 b ∧ T.exact b = none :=
  loop_spec T b0 fuel b0 _ ⟨fun _ h => h, fun _ h => Or.inl h⟩ h

/-- C106. If the algorithm returns a layout, it is the design of the reported gate-level layout, which results from placement and
routing with a blacklist that extends the first one only by gates whose design failed, and uses none of its entries. Missing:
designs that end with other errors, see C106_false_empty. -/
theorem C106_design_partial (T : Tools E G C) (entries : List E) (gates : G → List E) (hc : Contract T entries gates)
    (hs : ∀ g, T.design g ≠ .unsupported ∧ T.design g ≠ .unexpected) (fuel : Nat) (b0 : List E) (g : G) (c : C)
    (h : T.loop fuel b0 = some (.returned g c)) :
    T.design g = .cells c ∧ ∃ b, Justified T b0 b ∧ T.exact b = some g ∧ ∀ e ∈ gates g, e ∉ b := by
  obtain ⟨b, hj, hx, hd⟩ := loop_spec T b0 fuel b0 _ ⟨fun _ h => h, fun _ h => Or.inl h⟩ h
  refine ⟨?_, b, hj, hx, hc.honours b g hx⟩
  rcases hd with hd | ⟨_, hd | hd⟩
  · exact hd
  · exact absurd hd (hs g).1
  · exact absurd hd (hs g).2

/-- C106. If gates can be designed at all places, the first gate-level layout is designed. -/
theorem C106_first (T : Tools E G C) (b0 : List E) (g : G) (c : C) (hx : T.exact b0 = some g) (hd : T.design g = .cells c)
    (fuel : Nat) : T.loop (fuel + 1) b0 = some (.returned g c) := by
  rw [Tools.loop, hx]
  dsimp only
  rw [hd]

/-- C106. If the ports of a gate are not supported, an empty layout is returned as if the design had succeeded. -/
theorem C106_false_empty : ∃ T : Tools Nat Nat (List Nat), T.loop 1 [] = some (.returned 7 []) ∧ T.empty = [] ∧
    ∀ g c, T.design g ≠ .cells c :=
  ⟨⟨fun _ => some 7, fun _ => .unsupported, []⟩, rfl, rfl, fun _ _ h => by cases h⟩

/-! ## Examples -/

/-- One gate, to be placed on one of three tiles; the tiles are tried in order and gates can only be designed on the last one. -/
def sample : Tools Nat Nat (List Nat) :=
  ⟨fun b => [0, 1, 2].find? (fun t => decide (t ∉ b)), fun t => if t = 2 then .cells [20, 21] else .gateFailed t, []⟩

example : sample.loop 4 [] = some (.returned 2 [20, 21]) := by decide +kernel

example : sample.loop 4 [2] = some .impossible := by decide +kernel

example : Contract sample [0, 1, 2] (fun t => [t]) where
  honours := by
    intro b g h e he
    rw [List.mem_singleton] at he
    subst he
    simpa using List.find?_some h
  possible := by
    intro b g h e he
    rw [List.mem_singleton] at he
    subst he
    have h' : [0, 1, 2].find? (fun t => decide (t ∉ b)) = some e := h
    exact List.mem_of_find?_eq_some h'
  blames := by
    intro g e h
    unfold sample at h
    dsimp only at h
    split at h
    · cases h
    · cases h; simp

example : ∀ g, sample.design g ≠ .unsupported ∧ sample.design g ≠ .unexpected := by
  intro g
  by_cases h : g = 2 <;> simp [sample, h]

end Verif.OnTheFly
