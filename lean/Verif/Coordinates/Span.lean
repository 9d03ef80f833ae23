import Verif.Coordinates.Lemmas

/-! # Model of `all_coordinates_in_spanned_area`, `include/fiction/utils/layout_utils.hpp:629-706` -/

namespace Verif.Coordinates

/-- Loop body, layout_utils.hpp:658-666 and 693-701. -/
def spanStep (nw se cur : Cube) : Cube :=
  if cur.x < se.x then { cur with x := cur.x + 1 } else { cur with x := nw.x, y := cur.y + 1 }

/-- `while (current_cell <= se_cell)`, layout_utils.hpp:655-667 and 689-702; `none` if the loop has
not finished after `fuel` iterations. -/
def spanLoop (nw se : Cube) : Nat → Cube → Option (List Cube)
  | fuel, cur =>
    if Cube.leb cur se then
      match fuel with
      | 0 => none
      | fuel + 1 => (spanLoop nw se fuel (spanStep nw se cur)).map (cur :: ·)
    else some []

/-- layout_utils.hpp:672-705 (cube coordinates). -/
def allCoordinatesInSpannedArea (a b : Cube) (fuel : Nat) : Option (List Cube) :=
  let nw := Cube.mk3 (min a.x b.x) (min a.y b.y) 0
  let se := Cube.mk3 (max a.x b.x) (max a.y b.y) 0
  spanLoop nw se fuel nw

/-- layout_utils.hpp:635-670 (SiQAD coordinates). -/
def allCoordinatesInSpannedAreaSiqad (a b : Siqad) (fuel : Nat) : Option (List Siqad) :=
  (allCoordinatesInSpannedArea (toFictionCoord a) (toFictionCoord b) fuel).map (·.map toSiqadCoord)

def spanMeas (se : Cube) (w : Nat) (cur : Cube) : Nat :=
  if cur.y > se.y then 0 else (se.y - cur.y).toNat * (w + 1) + (se.x - cur.x).toNat + 1

theorem spanLoop_spec (nw se : Cube) (hx : nw.x ≤ se.x) (hz1 : nw.z = 0) (hz2 : se.z = 0) :
    ∀ (n : Nat) (cur : Cube), cur.d = false → cur.z = 0 → nw.x ≤ cur.x → cur.x ≤ se.x →
      cur.y ≤ se.y + 1 → (cur.y = se.y + 1 → cur.x = nw.x) →
      spanMeas se (se.x - nw.x).toNat cur = n → ∀ fuel, n ≤ fuel →
      ∃ L, spanLoop nw se fuel cur = some L ∧
        (∀ b : Cube, b ∈ L ↔ b.d = false ∧ b.z = 0 ∧ nw.x ≤ b.x ∧ b.x ≤ se.x ∧ b.y ≤ se.y ∧
          (cur.y < b.y ∨ (cur.y = b.y ∧ cur.x ≤ b.x))) ∧
        L.Pairwise (fun a b => Cube.ltb a b = true) ∧ L.length = n := by
  intro n
  induction n with
  | zero =>
    intro cur hd hz h1 h2 h3 h4 hm fuel _
    simp only [spanMeas] at hm
    split at hm
    · have hle : ¬ (Cube.leb cur se = true) := by
        simp only [Cube.leb, Cube.gtb, Bool.not_eq_true', Bool.not_eq_false, Cube.ltb_iff]; omega
      refine ⟨[], ?_, ?_, by simp, rfl⟩
      · unfold spanLoop; simp [hle]
      · intro b; simp; intros; omega
    · omega
  | succ n ih =>
    intro cur hd hz h1 h2 h3 h4 hm fuel hf
    obtain ⟨fuel, rfl⟩ : ∃ k, fuel = k + 1 := ⟨fuel - 1, by omega⟩
    have hm' := hm
    simp only [spanMeas] at hm
    split at hm
    · omega
    · rename_i hy
      have hle : Cube.leb cur se = true := by
        simp only [Cube.leb, Cube.gtb, Bool.not_eq_true', Bool.eq_false_iff, ne_eq, Cube.ltb_iff]; omega
      unfold spanLoop
      simp only [hle, if_true]
      have hnext : (spanStep nw se cur).d = false ∧ (spanStep nw se cur).z = 0 ∧
          nw.x ≤ (spanStep nw se cur).x ∧ (spanStep nw se cur).x ≤ se.x ∧
          (spanStep nw se cur).y ≤ se.y + 1 ∧
          ((spanStep nw se cur).y = se.y + 1 → (spanStep nw se cur).x = nw.x) ∧
          spanMeas se (se.x - nw.x).toNat (spanStep nw se cur) = n ∧
          Cube.ltb cur (spanStep nw se cur) = true ∧
          (∀ b : Cube, nw.x ≤ b.x → b.x ≤ se.x →
            ((cur.y < b.y ∨ (cur.y = b.y ∧ cur.x ≤ b.x)) ↔
            ((b.y = cur.y ∧ b.x = cur.x) ∨ ((spanStep nw se cur).y < b.y ∨
              ((spanStep nw se cur).y = b.y ∧ (spanStep nw se cur).x ≤ b.x))))) := by
        unfold spanStep
        split
        · refine ⟨hd, hz, by dsimp only; omega, by dsimp only; omega, by dsimp only; omega,
            by dsimp only; omega, ?_, ?_, by dsimp only; omega⟩
          · simp only [spanMeas, hy, if_false]; omega
          · simp only [Cube.ltb_iff, true_and]; omega
        · refine ⟨hd, hz, by dsimp only; omega, by dsimp only; omega, by dsimp only; omega,
            by dsimp only; omega, ?_, ?_, by dsimp only; omega⟩
          · simp only [spanMeas]
            split
            · have : se.y - cur.y = 0 := by omega
              rw [this] at hm; simp at hm; omega
            · obtain ⟨k, hk⟩ : ∃ k, (se.y - cur.y).toNat = k + 1 :=
                ⟨(se.y - cur.y).toNat - 1, by omega⟩
              rw [hk, Nat.succ_mul] at hm
              rw [show (se.y - (cur.y + 1)).toNat = k by omega]
              omega
          · simp only [Cube.ltb_iff, true_and]; omega
      obtain ⟨a1, a2, a3, a4, a5, a6, a7, a8, a9⟩ := hnext
      obtain ⟨L, hL, hmem, hpw, hlen⟩ := ih _ a1 a2 a3 a4 a5 a6 a7 fuel (by omega)
      refine ⟨cur :: L, by rw [hL]; rfl, ?_, ?_, by rw [List.length_cons, hlen]⟩
      · intro b
        rw [List.mem_cons, hmem]
        constructor
        · rintro (rfl | ⟨b1, b2, b3, b4, b5, b6⟩)
          · exact ⟨hd, hz, h1, h2, by omega, by omega⟩
          · exact ⟨b1, b2, b3, b4, b5, (a9 b b3 b4).2 (Or.inr b6)⟩
        · rintro ⟨b1, b2, b3, b4, b5, b6⟩
          rcases (a9 b b3 b4).1 b6 with ⟨e1, e2⟩ | h
          · left; cases b; cases cur; simp_all
          · exact Or.inr ⟨b1, b2, b3, b4, b5, h⟩
      · refine List.Pairwise.cons ?_ hpw
        intro b hb
        obtain ⟨b1, b2, b3, b4, b5, b6⟩ := (hmem b).1 hb
        rw [Cube.ltb_iff] at a8 ⊢
        omega

end Verif.Coordinates
